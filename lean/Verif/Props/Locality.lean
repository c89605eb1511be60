import Verif.Props.LmpaK
import Verif.Props.Sizes
/- C105: which values of the hash function matter. -/
namespace Qesa.Props
open Qesa Spec Ipa
set_option linter.unusedSectionVars false
variable {F G : Type} [Field F] [DecidableEq F] [AddCommGroup G] [Module F G] [DecidableEq G]

/-- `ro'` has the same value as `ro` at all histories that extend `log`, are a beginning of `log'`, and end with a
challenge of 64 bytes. -/
def Agree (log log' : List Event) (ro ro' : Hash) : Prop :=
  ∀ l s, log <+: l → l ++ [.chal s 64] <+: log' → ro' (l ++ [.chal s 64]) = ro (l ++ [.chal s 64])

theorem Agree.mono {log log1 log' : List Event} {ro ro' : Hash} (h : Agree log log' ro ro') (h1 : log <+: log1) :
    Agree log1 log' ro ro' := fun l s h2 => h l s (h1.trans h2)

theorem Agree.squeeze {log log' l : List Event} {ro ro' : Hash} {s : String} (h : Agree log log' ro ro')
    (h1 : log <+: l) (h2 : l ++ [.chal s 64] <+: log') :
    squeeze F ro' (l ++ [.chal s 64]) = squeeze F ro (l ++ [.chal s 64]) := by
  unfold Spec.squeeze
  rw [h l s h1 h2]

/-- Proves `l <+: l ++ l₁ ++ … ++ lₙ`. -/
macro "grows" : tactic => `(tactic| first
  | exact List.prefix_append _ _
  | exact (List.prefix_append _ _).trans (List.prefix_append _ _)
  | (simp only [List.append_assoc]; exact List.prefix_append _ _)
  | (simp only [List.append_assoc, List.prefix_append_right_inj]; exact List.prefix_append _ _)
  | (simp only [List.append_assoc, List.cons_append, List.nil_append, List.prefix_append_right_inj,
      List.cons_prefix_cons, List.nil_prefix, true_and, and_self]))

theorem ipaLoop_local (cd : Codec G) (ro : Hash) (Q : G) : ∀ (fuel n : Nat) (a b : List F) (Gs Hs : List G)
    (tr tr' : Transcript) (p : NoZK F), Ipa.createLoop ⟨cd, ro⟩ Q fuel n a b Gs Hs tr = .ok (p, tr') →
    tr.log <+: tr'.log ∧ ∀ ro', Agree tr.log tr'.log ro ro' →
      Ipa.createLoop ⟨cd, ro'⟩ Q fuel n a b Gs Hs tr = .ok (p, tr')
  | 0, _, _, _, _, _, _, _, _, h => by cases h
  | fuel + 1, n, a, b, Gs, Hs, tr, tr', p, h => by
    unfold Ipa.createLoop at h ⊢
    by_cases hn : n = 1
    · simp only [hn, if_true] at h ⊢
      refine ⟨?_, fun ro' _ => h⟩
      obtain ⟨_, -, h⟩ := bind_eq_ok.1 h
      obtain ⟨_, -, h⟩ := bind_eq_ok.1 h
      cases h
      exact List.prefix_refl _
    · simp only [hn, if_false, challengeScalar_eq, Transcript.appendMessage] at h ⊢
      obtain ⟨x1, h1, h⟩ := bind_eq_ok.1 h
      obtain ⟨x2, h2, h⟩ := bind_eq_ok.1 h
      obtain ⟨x3, h3, h⟩ := bind_eq_ok.1 h
      obtain ⟨x4, h4, h⟩ := bind_eq_ok.1 h
      obtain ⟨x5, h5, h⟩ := bind_eq_ok.1 h
      obtain ⟨x6, h6, h⟩ := bind_eq_ok.1 h
      obtain ⟨x7, h7, h⟩ := bind_eq_ok.1 h
      obtain ⟨x8, h8, h⟩ := bind_eq_ok.1 h
      obtain ⟨x9, h9, h⟩ := bind_eq_ok.1 h
      obtain ⟨x10, h10, h⟩ := bind_eq_ok.1 h
      obtain ⟨⟨p', tr1⟩, h11, h⟩ := bind_eq_ok.1 h
      simp only [R_pure, Except.ok.injEq, Prod.mk.injEq] at h
      obtain ⟨rfl, rfl⟩ := h
      obtain ⟨g1, g2⟩ := ipaLoop_local cd ro Q fuel _ _ _ _ _ _ _ _ h11
      refine ⟨.trans (by grows) g1, fun ro' hro => ?_⟩
      have e := hro.squeeze (F := F) (by grows) g1
      simp only [h1, h2, h3, h4, h5, h6, ok_bind, e, h7, h8, h9, h10, g2 ro' (hro.mono (by grows))]
      rfl

/-- C105: the inner-product argument. -/
theorem C105_ipa_create (cd : Codec G) (ro : Hash) (tr tr' : Transcript) (Gs Hs : List G) (Q : G) (a b : List F)
    (p : NoZK F) (h : Ipa.create ⟨cd, ro⟩ tr Gs Hs Q a b = .ok (p, tr')) :
    tr.log <+: tr'.log ∧ ∀ ro', Agree tr.log tr'.log ro ro' → Ipa.create ⟨cd, ro'⟩ tr Gs Hs Q a b = .ok (p, tr') := by
  unfold Ipa.create at h ⊢
  simp only [challengeScalar_eq, Transcript.appendU64, Transcript.appendMessage] at h ⊢
  obtain ⟨_, h1, h⟩ := bind_eq_ok.1 h
  obtain ⟨_, h2, h⟩ := bind_eq_ok.1 h
  obtain ⟨_, h3, h⟩ := bind_eq_ok.1 h
  obtain ⟨_, h4, h⟩ := bind_eq_ok.1 h
  obtain ⟨g1, g2⟩ := ipaLoop_local cd ro _ _ _ _ _ _ _ _ _ _ h
  refine ⟨.trans (by grows) g1, fun ro' hro => ?_⟩
  have e := hro.squeeze (F := F) (by grows) g1
  simp only [h1, h2, h3, h4, ok_bind, e]
  exact g2 ro' (hro.mono (by grows))

theorem roundChallenges_local {ro ro' : Hash} : ∀ (L R : List Comp) (log log' : List Event),
    log ++ roundsLog L R <+: log' → Agree log log' ro ro' → roundChallenges F ro' log L R = roundChallenges F ro log L R
  | [], _, _, _, _, _ => by simp [roundChallenges]
  | _ :: _, [], _, _, _, _ => by simp [roundChallenges]
  | L :: Ls, R :: Rs, log, log', h, hro => by
    rw [roundsLog_cons, ← List.append_assoc] at h
    have e : log ++ roundLog (L, R) = log ++ [.msg "L" L, .msg "R" R] ++ [.chal "x_i" 64] := by simp [roundLog]
    rw [roundChallenges_cons, roundChallenges_cons, roundChallenges_local Ls Rs _ log' h (hro.mono (by grows))]
    rw [e] at h ⊢
    rw [hro.squeeze (by grows) (.trans (by grows) h)]

/-- C105: the verifier of the inner-product argument. -/
theorem C105_ipa_verify (cd : Codec G) (ro : Hash) (p : NoZK F) (tr tr' : Transcript) (Gs Hs : List G) (Q : G) (n : Nat)
    (P : G) (t : F) (v : Bool) (h : p.verify ⟨cd, ro⟩ tr Gs Hs Q n P t = .ok (v, tr')) :
    tr.log <+: tr'.log ∧ ∀ ro', Agree tr.log tr'.log ro ro' →
      p.verify ⟨cd, ro'⟩ tr Gs Hs Q n P t = .ok (v, tr') := by
  unfold NoZK.verify at h ⊢
  simp only [challengeScalar_eq, Transcript.appendU64, Transcript.appendMessage, generateChallenges_eq] at h ⊢
  obtain ⟨_, h1, h⟩ := bind_eq_ok.1 h
  obtain ⟨_, h2, h⟩ := bind_eq_ok.1 h
  obtain ⟨_, h3, h⟩ := bind_eq_ok.1 h
  obtain ⟨_, h4, h⟩ := bind_eq_ok.1 h
  obtain ⟨_, h5, h⟩ := bind_eq_ok.1 h
  obtain ⟨_, h6, h⟩ := bind_eq_ok.1 h
  obtain ⟨_, h7, h⟩ := bind_eq_ok.1 h
  simp only [R_pure, Except.ok.injEq, Prod.mk.injEq] at h
  obtain ⟨rfl, rfl⟩ := h
  refine ⟨by grows, fun ro' hro => ?_⟩
  have e' := roundChallenges_local (F := F) _ _ _ _ (List.prefix_refl _) (hro.mono (by grows))
  simp only [h1, h2, h3, h4, ok_bind]
  rw [e', hro.squeeze (s := "alpha")]
  · simp only [h5, h6, h7, ok_bind]; rfl
  · grows
  · grows

/-- C105: AlmZK. -/
theorem C105_alm_create (cd : Codec G) (ro : Hash) (tr tr' : Transcript) (tape tape' : Tape F) (Gs Hs : List G)
    (Q C_w : G) (a b : List F) (t : F) (p : AlmZK F)
    (h : createAlm ⟨cd, ro⟩ tr tape Gs Hs Q C_w a b t = .ok (p, tr', tape')) :
    tr.log <+: tr'.log ∧ ∀ ro', Agree tr.log tr'.log ro ro' →
      createAlm ⟨cd, ro'⟩ tr tape Gs Hs Q C_w a b t = .ok (p, tr', tape') := by
  unfold createAlm at h ⊢
  simp only [challengeScalar_eq, Transcript.appendMessage] at h ⊢
  obtain ⟨_, h1, h⟩ := bind_eq_ok.1 h
  obtain ⟨_, h2, h⟩ := bind_eq_ok.1 h
  obtain ⟨_, h3, h⟩ := bind_eq_ok.1 h
  obtain ⟨⟨p', tr1⟩, h4, h⟩ := bind_eq_ok.1 h
  simp only [R_pure, Except.ok.injEq, Prod.mk.injEq] at h
  obtain ⟨rfl, rfl, rfl⟩ := h
  obtain ⟨g1, g2⟩ := C105_ipa_create _ _ _ _ _ _ _ _ _ _ h4
  refine ⟨.trans (by grows) g1, fun ro' hro => ?_⟩
  simp only [h1, h2, h3, ok_bind]
  rw [hro.squeeze (s := "beta")]
  · simp only [g2 ro' (hro.mono (by grows)), ok_bind]; rfl
  · grows
  · exact .trans (by grows) g1

/-- C105: the verifier of AlmZK. -/
theorem C105_alm_verify (cd : Codec G) (ro : Hash) (p : AlmZK F) (tr tr' : Transcript) (Gs Hs : List G) (Q : G) (n : Nat)
    (C_w : G) (t : F) (v : Bool) (h : p.verify ⟨cd, ro⟩ tr Gs Hs Q n C_w t = .ok (v, tr')) :
    tr.log <+: tr'.log ∧ ∀ ro', Agree tr.log tr'.log ro ro' →
      p.verify ⟨cd, ro'⟩ tr Gs Hs Q n C_w t = .ok (v, tr') := by
  unfold AlmZK.verify at h ⊢
  simp only [challengeScalar_eq, Transcript.appendMessage] at h ⊢
  obtain ⟨_, h1, h⟩ := bind_eq_ok.1 h
  obtain ⟨g1, g2⟩ := C105_ipa_verify _ _ _ _ _ _ _ _ _ _ _ _ h
  refine ⟨.trans (by grows) g1, fun ro' hro => ?_⟩
  simp only [h1, ok_bind]
  rw [hro.squeeze (s := "beta")]
  · exact g2 ro' (hro.mono (by grows))
  · grows
  · exact .trans (by grows) g1

/-- C105: QESA. -/
theorem C105_inner_create (cd : Codec G) (ro : Hash) (tr tr' : Transcript) (tape tape' : Tape F) (Gs Hs : List G)
    (Q : G) (block : BlockMatrix F) (w r' : List F) (p : Inner.Proof F)
    (h : Inner.create ⟨cd, ro⟩ tr tape Gs Hs Q block w r' = .ok (p, tr', tape')) :
    tr.log <+: tr'.log ∧ ∀ ro', Agree tr.log tr'.log ro ro' →
      Inner.create ⟨cd, ro'⟩ tr tape Gs Hs Q block w r' = .ok (p, tr', tape') := by
  unfold Inner.create at h ⊢
  simp only [challengeScalar_eq, Transcript.appendMessage] at h ⊢
  obtain ⟨_, h1, h⟩ := bind_eq_ok.1 h
  obtain ⟨_, h2, h⟩ := bind_eq_ok.1 h
  obtain ⟨_, h3, h⟩ := bind_eq_ok.1 h
  obtain ⟨_, h4, h⟩ := bind_eq_ok.1 h
  obtain ⟨_, h5, h⟩ := bind_eq_ok.1 h
  obtain ⟨_, h6, h⟩ := bind_eq_ok.1 h
  obtain ⟨_, h7, h⟩ := bind_eq_ok.1 h
  obtain ⟨_, h8, h⟩ := bind_eq_ok.1 h
  obtain ⟨_, h9, h⟩ := bind_eq_ok.1 h
  obtain ⟨_, h10, h⟩ := bind_eq_ok.1 h
  obtain ⟨_, h11, h⟩ := bind_eq_ok.1 h
  obtain ⟨_, h12, h⟩ := bind_eq_ok.1 h
  obtain ⟨_, h13, h⟩ := bind_eq_ok.1 h
  obtain ⟨_, h14, h⟩ := bind_eq_ok.1 h
  obtain ⟨_, h15, h⟩ := bind_eq_ok.1 h
  obtain ⟨_, h16, h⟩ := bind_eq_ok.1 h
  obtain ⟨_, h17, h⟩ := bind_eq_ok.1 h
  obtain ⟨_, h18, h⟩ := bind_eq_ok.1 h
  obtain ⟨_, h19, h⟩ := bind_eq_ok.1 h
  obtain ⟨_, h20, h⟩ := bind_eq_ok.1 h
  obtain ⟨_, h21, h⟩ := bind_eq_ok.1 h
  obtain ⟨⟨p', tr1, tape1⟩, h22, h⟩ := bind_eq_ok.1 h
  simp only [R_pure, Except.ok.injEq, Prod.mk.injEq] at h
  obtain ⟨rfl, rfl, rfl⟩ := h
  obtain ⟨g1, g2⟩ := C105_alm_create _ _ _ _ _ _ _ _ _ _ _ _ _ _ h22
  refine ⟨.trans (by grows) g1, fun ro' hro => ?_⟩
  simp only [h1, h2, h3, h4, ok_bind]
  rw [hro.squeeze (s := "x")]
  · simp only [h5, h6, h7, h8, h9, h10, h11, h12, h13, ok_bind]
    rw [hro.squeeze (s := "s")]
    · simp only [h14, ok_bind]
      rw [hro.squeeze (s := "b")]
      · simp only [h15, h16, h17, h18, h19, h20, h21, ok_bind, g2 ro' (hro.mono (by grows))]
        rfl
      · grows
      · exact .trans (by grows) g1
    · grows
    · exact .trans (by grows) g1
  · grows
  · exact .trans (by grows) g1

/-- C105: the verifier of QESA. -/
theorem C105_inner_verify (cd : Codec G) (ro : Hash) (p : Inner.Proof F) (tr tr' : Transcript) (Gs Hs : List G) (Q : G)
    (block : BlockMatrix F) (v : Bool) (h : p.verify ⟨cd, ro⟩ tr Gs Hs Q block = .ok (v, tr')) :
    tr.log <+: tr'.log ∧ ∀ ro', Agree tr.log tr'.log ro ro' →
      p.verify ⟨cd, ro'⟩ tr Gs Hs Q block = .ok (v, tr') := by
  unfold Inner.Proof.verify at h ⊢
  simp only [challengeScalar_eq, Transcript.appendMessage] at h ⊢
  obtain ⟨_, h1, h⟩ := bind_eq_ok.1 h
  obtain ⟨_, h2, h⟩ := bind_eq_ok.1 h
  obtain ⟨_, h3, h⟩ := bind_eq_ok.1 h
  obtain ⟨_, h4, h⟩ := bind_eq_ok.1 h
  obtain ⟨_, h5, h⟩ := bind_eq_ok.1 h
  obtain ⟨_, h6, h⟩ := bind_eq_ok.1 h
  obtain ⟨_, h7, h⟩ := bind_eq_ok.1 h
  obtain ⟨_, h8, h⟩ := bind_eq_ok.1 h
  obtain ⟨_, h9, h⟩ := bind_eq_ok.1 h
  obtain ⟨_, h10, h⟩ := bind_eq_ok.1 h
  obtain ⟨_, h11, h⟩ := bind_eq_ok.1 h
  obtain ⟨_, h12, h⟩ := bind_eq_ok.1 h
  obtain ⟨_, h13, h⟩ := bind_eq_ok.1 h
  obtain ⟨_, h14, h⟩ := bind_eq_ok.1 h
  obtain ⟨_, h15, h⟩ := bind_eq_ok.1 h
  obtain ⟨_, h16, h⟩ := bind_eq_ok.1 h
  obtain ⟨_, h17, h⟩ := bind_eq_ok.1 h
  obtain ⟨g1, g2⟩ := C105_alm_verify _ _ _ _ _ _ _ _ _ _ _ _ h
  refine ⟨.trans (by grows) g1, fun ro' hro => ?_⟩
  simp only [h1, ok_bind]
  rw [hro.squeeze (s := "x")]
  · simp only [h2, h3, h4, h5, h6, h7, h8, ok_bind]
    rw [hro.squeeze (s := "s")]
    · simp only [h9, h10, ok_bind]
      rw [hro.squeeze (s := "b")]
      · simp only [h11, h12, h13, h14, h15, h16, h17, ok_bind]
        exact g2 ro' (hro.mono (by grows))
      · grows
      · exact .trans (by grows) g1
    · grows
    · exact .trans (by grows) g1
  · grows
  · exact .trans (by grows) g1

/-- C105: `qesa_zk::create`. -/
theorem C105_qesa_create (cd : Codec G) (ro : Hash) (tr tr' : Transcript) (tape tape' : Tape F) (Gs Hs : List G)
    (Q : G) (block : BlockMatrix F) (w : List F) (p : Zk.Proof F)
    (h : Zk.create ⟨cd, ro⟩ tr tape Gs Hs Q block w = .ok (p, tr', tape')) :
    tr.log <+: tr'.log ∧ ∀ ro', Agree tr.log tr'.log ro ro' →
      Zk.create ⟨cd, ro'⟩ tr tape Gs Hs Q block w = .ok (p, tr', tape') := by
  unfold Zk.create at h ⊢
  simp only [draw] at h ⊢
  obtain ⟨⟨p', tr1, tape1⟩, h1, h⟩ := bind_eq_ok.1 h
  simp only [R_pure, Except.ok.injEq, Prod.mk.injEq] at h
  obtain ⟨rfl, rfl, rfl⟩ := h
  obtain ⟨g1, g2⟩ := C105_inner_create _ _ _ _ _ _ _ _ _ _ _ _ _ h1
  refine ⟨g1, fun ro' hro => ?_⟩
  simp only [g2 ro' hro, ok_bind]
  rfl

/-- C105: Copy. -/
theorem C105_copy_create (cd : Codec G) (ro : Hash) (tr tr' : Transcript) (tape tape' : Tape F) (Gs Hs : List G)
    (Q : G) (map : Copy.Mapping) (block : BlockMatrix F) (w : List F) (openings : List (List F × F)) (p : Copy.Proof F)
    (h : Copy.create ⟨cd, ro⟩ tr tape Gs Hs Q map block w openings = .ok (p, tr', tape')) :
    tr.log <+: tr'.log ∧ ∀ ro', Agree tr.log tr'.log ro ro' →
      Copy.create ⟨cd, ro'⟩ tr tape Gs Hs Q map block w openings = .ok (p, tr', tape') := by
  unfold Copy.create at h ⊢
  simp only [drawN, draw, challengeScalar_eq, Transcript.appendMessage] at h ⊢
  obtain ⟨_, h1, h⟩ := bind_eq_ok.1 h
  obtain ⟨_, h2, h⟩ := bind_eq_ok.1 h
  obtain ⟨_, h3, h⟩ := bind_eq_ok.1 h
  obtain ⟨_, h4, h⟩ := bind_eq_ok.1 h
  obtain ⟨_, h5, h⟩ := bind_eq_ok.1 h
  obtain ⟨_, h6, h⟩ := bind_eq_ok.1 h
  obtain ⟨_, h7, h⟩ := bind_eq_ok.1 h
  obtain ⟨_, h8, h⟩ := bind_eq_ok.1 h
  obtain ⟨_, h9, h⟩ := bind_eq_ok.1 h
  obtain ⟨_, h10, h⟩ := bind_eq_ok.1 h
  obtain ⟨_, h11, h⟩ := bind_eq_ok.1 h
  obtain ⟨_, h12, h⟩ := bind_eq_ok.1 h
  obtain ⟨_, h13, h⟩ := bind_eq_ok.1 h
  obtain ⟨_, h14, h⟩ := bind_eq_ok.1 h
  obtain ⟨⟨p', tr1, tape1⟩, h15, h⟩ := bind_eq_ok.1 h
  simp only [R_pure, Except.ok.injEq, Prod.mk.injEq] at h
  obtain ⟨rfl, rfl, rfl⟩ := h
  obtain ⟨g1, g2⟩ := C105_inner_create _ _ _ _ _ _ _ _ _ _ _ _ _ h15
  refine ⟨.trans (by grows) g1, fun ro' hro => ?_⟩
  simp only [h1, h2, h3, h4, h5, h6, h7, ok_bind]
  rw [hro.squeeze (s := "alpha")]
  · simp only [h8, h9, h10, h11, h12, h13, h14, ok_bind, g2 ro' (hro.mono (by grows))]
    rfl
  · grows
  · exact .trans (by grows) g1

/-- C105: the verifier of Copy. -/
theorem C105_copy_verify (cd : Codec G) (ro : Hash) (p : Copy.Proof F) (tr tr' : Transcript) (Gs Hs : List G) (Q : G)
    (block : BlockMatrix F) (map : Copy.Mapping) (Cs : List G) (v : Bool)
    (h : p.verify ⟨cd, ro⟩ tr Gs Hs Q block map Cs = .ok (v, tr')) :
    tr.log <+: tr'.log ∧ ∀ ro', Agree tr.log tr'.log ro ro' →
      p.verify ⟨cd, ro'⟩ tr Gs Hs Q block map Cs = .ok (v, tr') := by
  unfold Copy.Proof.verify at h ⊢
  simp only [challengeScalar_eq, Transcript.appendMessage] at h ⊢
  obtain ⟨_, h1, h⟩ := bind_eq_ok.1 h
  obtain ⟨_, h2, h⟩ := bind_eq_ok.1 h
  obtain ⟨_, h3, h⟩ := bind_eq_ok.1 h
  obtain ⟨_, h4, h⟩ := bind_eq_ok.1 h
  obtain ⟨g1, g2⟩ := C105_inner_verify _ _ _ _ _ _ _ _ _ _ h
  refine ⟨.trans (by grows) g1, fun ro' hro => ?_⟩
  rw [hro.squeeze (s := "alpha")]
  · simp only [h1, h2, h3, h4, ok_bind]
    exact g2 ro' (hro.mono (by grows))
  · grows
  · exact .trans (by grows) g1

/-! ### Linear maps -/

theorem lmpaLoop_local (cd : Codec G) (ro : Hash) : ∀ (fuel n : Nat) (A : List (List G)) (w : List F)
    (tr tr' : Transcript) (p : Lmpa.NoZK F G), Lmpa.createLoop ⟨cd, ro⟩ fuel n A w tr = .ok (p, tr') →
    tr.log <+: tr'.log ∧ ∀ ro', Agree tr.log tr'.log ro ro' →
      Lmpa.createLoop ⟨cd, ro'⟩ fuel n A w tr = .ok (p, tr')
  | 0, _, _, _, _, _, _, h => by cases h
  | fuel + 1, n, A, w, tr, tr', p, h => by
    unfold Lmpa.createLoop at h ⊢
    by_cases hn : n = 1
    · simp only [hn, if_true] at h ⊢
      refine ⟨?_, fun ro' _ => h⟩
      obtain ⟨_, -, h⟩ := bind_eq_ok.1 h
      cases h
      exact List.prefix_refl _
    · simp only [hn, if_false, challengeScalar_eq, Lmpa.absorb_eq] at h ⊢
      obtain ⟨x1, h1, h⟩ := bind_eq_ok.1 h
      obtain ⟨⟨p', tr1⟩, h2, h⟩ := bind_eq_ok.1 h
      simp only [R_pure, Except.ok.injEq, Prod.mk.injEq] at h
      obtain ⟨rfl, rfl⟩ := h
      obtain ⟨g1, g2⟩ := lmpaLoop_local cd ro fuel _ _ _ _ _ _ h2
      refine ⟨.trans (by grows) g1, fun ro' hro => ?_⟩
      have e := hro.squeeze (F := F) (by grows) g1
      have g3 := g2 ro' (hro.mono (by grows))
      simp only [pointsLog] at e h1 g3 ⊢
      simp only [e, h1, ok_bind, g3]
      rfl

/-- C105: the linear-map argument. -/
theorem C105_lmpa_create (cd : Codec G) (ro : Hash) (fuel : Nat) (tr tr' : Transcript) (A : List (List G)) (Gs : List G)
    (w : List F) (p : Lmpa.NoZK F G) (h : Lmpa.create ⟨cd, ro⟩ fuel tr A Gs w = .ok (p, tr')) :
    tr.log <+: tr'.log ∧ ∀ ro', Agree tr.log tr'.log ro ro' →
      Lmpa.create ⟨cd, ro'⟩ fuel tr A Gs w = .ok (p, tr') :=
  lmpaLoop_local cd ro fuel _ A w tr tr' p h

theorem lmpaVerifyLoop_local (cd : Codec G) (ro : Hash) (p : Lmpa.NoZK F G) : ∀ (fuel ci n : Nat) (A : List (List G))
    (t : List G) (tr tr' : Transcript) (A' : List (List G)) (t' : List G),
    Lmpa.verifyLoop ⟨cd, ro⟩ p fuel ci n A t tr = .ok (A', t', tr') →
    tr.log <+: tr'.log ∧ ∀ ro', Agree tr.log tr'.log ro ro' →
      Lmpa.verifyLoop ⟨cd, ro'⟩ p fuel ci n A t tr = .ok (A', t', tr')
  | 0, _, _, _, _, _, _, _, _, h => by cases h
  | fuel + 1, ci, n, A, t, tr, tr', A', t', h => by
    unfold Lmpa.verifyLoop at h ⊢
    by_cases hn : n = 1
    · simp only [hn, if_true] at h ⊢
      refine ⟨?_, fun ro' _ => h⟩
      cases h
      exact List.prefix_refl _
    · simp only [hn, if_false, challengeScalar_eq, Lmpa.absorb_eq] at h ⊢
      obtain ⟨x1, h1, h⟩ := bind_eq_ok.1 h
      obtain ⟨x2, h2, h⟩ := bind_eq_ok.1 h
      obtain ⟨x3, h3, h⟩ := bind_eq_ok.1 h
      obtain ⟨g1, g2⟩ := lmpaVerifyLoop_local cd ro p fuel _ _ _ _ _ _ _ _ h
      refine ⟨.trans (by grows) g1, fun ro' hro => ?_⟩
      have e := hro.squeeze (F := F) (by grows) g1
      have g3 := g2 ro' (hro.mono (by grows))
      simp only [pointsLog] at e h3 g3 ⊢
      simp only [h1, h2, ok_bind, e, h3, g3]

/-- C105: the verifier of the linear-map argument. -/
theorem C105_lmpa_verify (cd : Codec G) (ro : Hash) (fuel : Nat) (p : Lmpa.NoZK F G) (tr tr' : Transcript)
    (A : List (List G)) (Gs : List G) (n : Nat) (t : List G) (v : Bool)
    (h : p.verify ⟨cd, ro⟩ fuel tr A Gs n t = .ok (v, tr')) :
    tr.log <+: tr'.log ∧ ∀ ro', Agree tr.log tr'.log ro ro' →
      p.verify ⟨cd, ro'⟩ fuel tr A Gs n t = .ok (v, tr') := by
  unfold Lmpa.NoZK.verify at h ⊢
  obtain ⟨_, h1, h⟩ := bind_eq_ok.1 h
  obtain ⟨⟨A', t', tr1⟩, h2, h⟩ := bind_eq_ok.1 h
  obtain ⟨_, h3, h⟩ := bind_eq_ok.1 h
  obtain ⟨_, h4, h⟩ := bind_eq_ok.1 h
  simp only [R_pure, Except.ok.injEq, Prod.mk.injEq] at h
  obtain ⟨rfl, rfl⟩ := h
  obtain ⟨g1, g2⟩ := lmpaVerifyLoop_local cd ro p fuel _ _ _ _ _ _ _ _ h2
  refine ⟨g1, fun ro' hro => ?_⟩
  simp only [h1, g2 ro' hro, ok_bind, h3, h4]
  rfl

theorem lmpaKLoop_local (cd : Codec G) (ro : Hash) (m k : Nat) (one : F) (zero : G) : ∀ (fuel n : Nat)
    (A : List (List G)) (w : List F) (t : List G) (tr tr' : Transcript) (p : Lmpa.LmpaNoZK F G),
    Lmpa.createKLoop ⟨cd, ro⟩ m k one zero fuel n A w t tr = .ok (p, tr') →
    tr.log <+: tr'.log ∧ ∀ ro', Agree tr.log tr'.log ro ro' →
      Lmpa.createKLoop ⟨cd, ro'⟩ m k one zero fuel n A w t tr = .ok (p, tr')
  | 0, _, _, _, _, _, _, _, h => by cases h
  | fuel + 1, n, A, w, t, tr, tr', p, h => by
    unfold Lmpa.createKLoop at h ⊢
    by_cases hn : n < k
    · simp only [hn, if_true] at h ⊢
      refine ⟨?_, fun ro' _ => h⟩
      cases h
      exact List.prefix_refl _
    by_cases hk : k = 0
    · simp only [hk, if_true] at h
      cases h
    · simp only [hn, hk, if_false, challengeScalar_eq, LmpaK.absorbAll_eq] at h ⊢
      obtain ⟨_, h1, h⟩ := bind_eq_ok.1 h
      obtain ⟨_, h2, h⟩ := bind_eq_ok.1 h
      obtain ⟨_, h3, h⟩ := bind_eq_ok.1 h
      obtain ⟨_, h4, h⟩ := bind_eq_ok.1 h
      obtain ⟨_, h5, h⟩ := bind_eq_ok.1 h
      obtain ⟨_, h6, h⟩ := bind_eq_ok.1 h
      obtain ⟨_, h7, h⟩ := bind_eq_ok.1 h
      obtain ⟨_, h8, h⟩ := bind_eq_ok.1 h
      obtain ⟨_, h9, h⟩ := bind_eq_ok.1 h
      obtain ⟨_, h10, h⟩ := bind_eq_ok.1 h
      obtain ⟨⟨p', tr1⟩, h11, h⟩ := bind_eq_ok.1 h
      simp only [R_pure, Except.ok.injEq, Prod.mk.injEq] at h
      obtain ⟨rfl, rfl⟩ := h
      obtain ⟨g1, g2⟩ := lmpaKLoop_local cd ro m k one zero fuel _ _ _ _ _ _ _ h11
      refine ⟨.trans (by grows) g1, fun ro' hro => ?_⟩
      have e := hro.squeeze (F := F) (by grows) g1
      have g3 := g2 ro' (hro.mono (by grows))
      have hp : pointsLog (⟨cd, ro'⟩ : Ctx G) = pointsLog ⟨cd, ro⟩ := rfl
      simp only [hp, h1, h2, h3, ok_bind, e, h4, h5, h6, h7, h8, h9, h10, g3]
      rfl

theorem lmpaKVerifyLoop_local (cd : Codec G) (ro : Hash) (p : Lmpa.LmpaNoZK F G) (k : Nat) (one : F) :
    ∀ (fuel ci n : Nat) (A : List (List G)) (t : List G) (tr tr' : Transcript) (t' : List G),
    Lmpa.verifyKLoop ⟨cd, ro⟩ p k one fuel ci n A t tr = .ok (t', tr') →
    tr.log <+: tr'.log ∧ ∀ ro', Agree tr.log tr'.log ro ro' →
      Lmpa.verifyKLoop ⟨cd, ro'⟩ p k one fuel ci n A t tr = .ok (t', tr')
  | 0, _, _, _, _, _, _, _, h => by cases h
  | fuel + 1, ci, n, A, t, tr, tr', t', h => by
    unfold Lmpa.verifyKLoop at h ⊢
    by_cases hn : n < k
    · simp only [hn, if_true] at h ⊢
      refine ⟨?_, fun ro' _ => h⟩
      cases h
      exact List.prefix_refl _
    by_cases hk : k = 0
    · simp only [hk, if_true] at h
      cases h
    · simp only [hn, hk, if_false, challengeScalar_eq, LmpaK.absorbAll_eq] at h ⊢
      obtain ⟨_, h1, h⟩ := bind_eq_ok.1 h
      obtain ⟨_, h2, h⟩ := bind_eq_ok.1 h
      obtain ⟨_, h3, h⟩ := bind_eq_ok.1 h
      obtain ⟨_, h4, h⟩ := bind_eq_ok.1 h
      obtain ⟨_, h5, h⟩ := bind_eq_ok.1 h
      obtain ⟨_, h6, h⟩ := bind_eq_ok.1 h
      obtain ⟨_, h7, h⟩ := bind_eq_ok.1 h
      obtain ⟨g1, g2⟩ := lmpaKVerifyLoop_local cd ro p k one fuel _ _ _ _ _ _ _ h
      refine ⟨.trans (by grows) g1, fun ro' hro => ?_⟩
      have e := hro.squeeze (F := F) (by grows) g1
      have g3 := g2 ro' (hro.mono (by grows))
      have hp : pointsLog (⟨cd, ro'⟩ : Ctx G) = pointsLog ⟨cd, ro⟩ := rfl
      simp only [hp, h1, h2, ok_bind, e, h3, h4, h5, h6, h7, g3]

/-- C105: the k-ary linear-map argument. -/
theorem C105_lmpaK_create (cd : Codec G) (ro : Hash) (fuel : Nat) (tr tr' : Transcript) (A : List (List G)) (w : List F)
    (t : List G) (n m k : Nat) (one : F) (zero : G) (p : Lmpa.LmpaNoZK F G)
    (h : Lmpa.createK ⟨cd, ro⟩ fuel tr A w t n m k one zero = .ok (p, tr')) :
    tr.log <+: tr'.log ∧ ∀ ro', Agree tr.log tr'.log ro ro' →
      Lmpa.createK ⟨cd, ro'⟩ fuel tr A w t n m k one zero = .ok (p, tr') :=
  lmpaKLoop_local cd ro m k one zero fuel n A w t tr tr' p h

/-- C105: its verifier. -/
theorem C105_lmpaK_verify (cd : Codec G) (ro : Hash) (fuel : Nat) (p : Lmpa.LmpaNoZK F G) (tr tr' : Transcript)
    (A : List (List G)) (t : List G) (n k : Nat) (one : F) (v : Bool)
    (h : p.verify ⟨cd, ro⟩ fuel tr A t n k one = .ok (v, tr')) :
    tr.log <+: tr'.log ∧ ∀ ro', Agree tr.log tr'.log ro ro' →
      p.verify ⟨cd, ro'⟩ fuel tr A t n k one = .ok (v, tr') := by
  unfold Lmpa.LmpaNoZK.verify at h ⊢
  obtain ⟨⟨t', tr1⟩, h2, h⟩ := bind_eq_ok.1 h
  obtain ⟨_, h3, h⟩ := bind_eq_ok.1 h
  obtain ⟨_, h4, h⟩ := bind_eq_ok.1 h
  simp only [R_pure, Except.ok.injEq, Prod.mk.injEq] at h
  obtain ⟨rfl, rfl⟩ := h
  obtain ⟨g1, g2⟩ := lmpaKVerifyLoop_local cd ro p k one fuel _ _ _ _ _ _ _ h2
  refine ⟨g1, fun ro' hro => ?_⟩
  simp only [g2 ro' hro, ok_bind, h3, h4]
  rfl

/-- C105: SimpleZK. -/
theorem C105_simple_create (cd : Codec G) (ro : Hash) (fuel : Nat) (tr tr' : Transcript) (tape tape' : Tape F)
    (A : List (List G)) (Gs : List G) (w : List F) (p : Lmpa.SimpleZK F G)
    (h : Lmpa.createSimple ⟨cd, ro⟩ fuel tr tape A Gs w = .ok (p, tr', tape')) :
    tr.log <+: tr'.log ∧ ∀ ro', Agree tr.log tr'.log ro ro' →
      Lmpa.createSimple ⟨cd, ro'⟩ fuel tr tape A Gs w = .ok (p, tr', tape') := by
  unfold Lmpa.createSimple at h ⊢
  simp only [challengeScalar_eq, Lmpa.absorb_eq, drawN_eq] at h ⊢
  obtain ⟨⟨p', tr1⟩, h1, h⟩ := bind_eq_ok.1 h
  simp only [R_pure, Except.ok.injEq, Prod.mk.injEq] at h
  obtain ⟨rfl, rfl, rfl⟩ := h
  obtain ⟨g1, g2⟩ := C105_lmpa_create _ _ _ _ _ _ _ _ _ h1
  refine ⟨.trans (by grows) g1, fun ro' hro => ?_⟩
  have e := hro.squeeze (F := F) (by grows) g1
  have g3 := g2 ro' (hro.mono (by grows))
  simp only [pointsLog] at e g3 ⊢
  simp only [e, g3, ok_bind]
  rfl

/-- C105: the verifier of SimpleZK. -/
theorem C105_simple_verify (cd : Codec G) (ro : Hash) (fuel : Nat) (p : Lmpa.SimpleZK F G) (tr tr' : Transcript)
    (A : List (List G)) (Gs : List G) (n : Nat) (t : List G) (v : Bool)
    (h : p.verify ⟨cd, ro⟩ fuel tr A Gs n t = .ok (v, tr')) :
    tr.log <+: tr'.log ∧ ∀ ro', Agree tr.log tr'.log ro ro' →
      p.verify ⟨cd, ro'⟩ fuel tr A Gs n t = .ok (v, tr') := by
  unfold Lmpa.SimpleZK.verify at h ⊢
  simp only [challengeScalar_eq, Lmpa.absorb_eq] at h ⊢
  obtain ⟨_, h1, h⟩ := bind_eq_ok.1 h
  obtain ⟨g1, g2⟩ := C105_lmpa_verify _ _ _ _ _ _ _ _ _ _ _ h
  refine ⟨.trans (by grows) g1, fun ro' hro => ?_⟩
  have e := hro.squeeze (F := F) (by grows) g1
  have g3 := g2 ro' (hro.mono (by grows))
  simp only [pointsLog] at e g3 ⊢
  simp only [h1, ok_bind, e, g3]

/-- C105: `create_general`. -/
theorem C105_general_create (cd : Codec G) (ro : Hash) (fuel : Nat) (tr tr' : Transcript) (tape tape' : Tape F)
    (A : List (List G)) (w : List F) (t : List G) (n m k : Nat) (p : Lmpa.SimpleZKGeneral F G)
    (h : Lmpa.createGeneral ⟨cd, ro⟩ fuel tr tape A w t n m k = .ok (p, tr', tape')) :
    tr.log <+: tr'.log ∧ ∀ ro', Agree tr.log tr'.log ro ro' →
      Lmpa.createGeneral ⟨cd, ro'⟩ fuel tr tape A w t n m k = .ok (p, tr', tape') := by
  unfold Lmpa.createGeneral at h ⊢
  simp only [challengeScalar_eq, Lmpa.absorb_eq, drawN_eq] at h ⊢
  obtain ⟨⟨p', tr1⟩, h1, h⟩ := bind_eq_ok.1 h
  simp only [R_pure, Except.ok.injEq, Prod.mk.injEq] at h
  obtain ⟨rfl, rfl, rfl⟩ := h
  obtain ⟨g1, g2⟩ := C105_lmpaK_create _ _ _ _ _ _ _ _ _ _ _ _ _ _ h1
  refine ⟨.trans (by grows) g1, fun ro' hro => ?_⟩
  have g3 := g2 ro' (hro.mono (by grows))
  simp only [pointsLog] at g3 ⊢
  simp only [g3, ok_bind]
  rfl

/-- C105: `verify_general`. -/
theorem C105_general_verify (cd : Codec G) (ro : Hash) (fuel : Nat) (p : Lmpa.SimpleZKGeneral F G) (tr tr' : Transcript)
    (A : List (List G)) (t : List G) (n k : Nat) (v : Bool)
    (h : p.verify ⟨cd, ro⟩ fuel tr A t n k = .ok (v, tr')) :
    tr.log <+: tr'.log ∧ ∀ ro', Agree tr.log tr'.log ro ro' →
      p.verify ⟨cd, ro'⟩ fuel tr A t n k = .ok (v, tr') := by
  unfold Lmpa.SimpleZKGeneral.verify at h ⊢
  simp only [challengeScalar_eq, Lmpa.absorb_eq] at h ⊢
  obtain ⟨g1, g2⟩ := C105_lmpaK_verify _ _ _ _ _ _ _ _ _ _ _ _ h
  refine ⟨.trans (by grows) g1, fun ro' hro => ?_⟩
  have e := hro.squeeze (F := F) (by grows) g1
  have g3 := g2 ro' (hro.mono (by grows))
  simp only [pointsLog] at e g3 ⊢
  simp only [e, g3]


section
open Toy

/-- `Toy.hash` with another answer at one history. -/
def otherAnswer (l : List Event) : Hash := fun l' => if l' = l then Vector.replicate 64 5 else hash l'

/-- A run of the prover. -/
def runWith (ro : Hash) : Option (AlmZK K × Transcript) :=
  (createAlm ⟨codec, ro⟩ ⟨[]⟩ exTape [3, 5, 8, 13] [21, 34, 55, 89] 7
    (dot [1, 2, 3, 4] [3, 5, 8, 13] + dot [5, 6, 7, 9] [21, 34, 55, (89 : K)] : K)
    [1, 2, 3, 4] [5, 6, 7, 9] (dot [1, 2, 3, 4] [5, 6, 7, (9 : K)])).toOption.map fun r => (r.1, r.2.1)

/-- The answer at the history of `beta` matters, at a history of the same length it does not, and at the end of the whole
transcript it does not. -/
example : (match runWith hash with
    | some (p, tr') =>
      runWith (otherAnswer [.msg "C_r" p.C_r, .chal "beta" 64]) != some (p, tr') &&
      runWith (otherAnswer [.msg "C_r" [], .chal "beta" 64]) == some (p, tr') &&
      runWith (otherAnswer (tr'.log ++ [.chal "beta" 64])) == some (p, tr')
    | none => false) = true := by
  decide +kernel

/-- The second case by the theorem, for any prover's input and any hash function. -/
example (cd : Codec K) (ro ro' : Hash) (tr tr' : Transcript) (tape tape' : Tape K) (Gs Hs : List K) (Q C_w : K)
    (a b : List K) (t : K) (p : AlmZK K) (h : createAlm ⟨cd, ro⟩ tr tape Gs Hs Q C_w a b t = .ok (p, tr', tape'))
    (hro : ∀ l, l <+: tr'.log → ro' l = ro l) :
    createAlm ⟨cd, ro'⟩ tr tape Gs Hs Q C_w a b t = .ok (p, tr', tape') :=
  (C105_alm_create _ _ _ _ _ _ _ _ _ _ _ _ _ _ h).2 ro' fun _ _ _ h => hro _ h
end

end Qesa.Props
