import Verif.Props.ForkLmpa
import Verif.Props.ForkQesa
/-
C96: provers that choose their statement. The verifiers do not hash the statement (C59, C60). If the caller does so, by
starting them with a transcript `enc s` from which the statement `s` can be read off, a choice of the statement does not
help the prover.
-/
namespace Qesa.Props
open Qesa Spec Ipa
variable {F G σ : Type} [Field F] [DecidableEq F] [AddCommGroup G] [Module F G]

omit [DecidableEq F] [AddCommGroup G] [Module F G] in
theorem ipaHistories_chals {lg : List Event} {n i : Nat} {p : NoZK F} {l : List Event}
    (h : (ipaHistories lg n p)[i]? = some l) : chals l = chals lg + 1 + i := by
  classical
  rw [ipaHistories_getElem, ipaKey] at h
  split at h
  · rename_i hi
    rw [Option.some.injEq] at h
    have hr : ∀ (L R : List Comp), chals (roundsLog L R) = min L.length R.length := by
      intro L
      induction L with
      | nil => intro R; simp [roundsLog, chals]
      | cons a L ih =>
        intro R
        cases R with
        | nil => simp [roundsLog, chals]
        | cons b R =>
          have := ih R
          simp only [roundsLog, List.zip_cons_cons, List.flatMap_cons] at this ⊢
          rw [chals_append, this, List.length_cons, List.length_cons, Nat.add_min_add_right, Nat.add_comm]
          rfl
    rw [← h, chals_append, hr, chals_append, List.length_take, List.length_take,
      show chals (headLog n) = 1 from rfl]
    omega
  · cases h

omit [DecidableEq F] in
theorem almHistories_chals {cd : Codec G} {ro : Hash} {lg : List Event} {n i : Nat} {Q C : G} {t : F} {p : AlmZK F}
    {l : List Event} (h : (almHistories cd ro lg n Q C t p)[i]? = some l) : chals l = chals lg + 1 + i := by
  unfold almHistories at h
  cases i with
  | zero =>
    rw [List.getElem?_cons_zero, Option.some.injEq] at h
    rw [← h, chals_append]; rfl
  | succ i =>
    rw [List.getElem?_cons_succ] at h
    rw [ipaHistories_chals h, almLog, chals_append]
    have : ∀ a b, chals (almHead a b) = 1 := fun _ _ => rfl
    rw [this]; omega

omit [DecidableEq F] in
theorem qesaHistories_chals {m k : Nat} {cd : Codec G} {ro : Hash} {lg : List Event} {Gs Hs : List G} {Q : G}
    {Ms : Fin k → Matrix (Fin m) (Fin m) F} {p : Inner.Proof F} {i : Nat} {l : List Event}
    (h : (qesaHistories cd ro lg Gs Hs Q Ms p)[i]? = some l) : chals l = chals lg + 1 + i := by
  unfold qesaHistories at h
  match i with
  | 0 | 1 | 2 =>
    simp only [List.getElem?_cons_succ, List.getElem?_cons_zero, Option.some.injEq] at h
    rw [← h, chals_append]; rfl
  | i + 3 =>
    simp only [List.getElem?_cons_succ] at h
    rw [almHistories_chals h, Spec.qesaLog, chals_append]
    have : ∀ a b c, chals (qesaHead a b c) = 3 := fun _ _ _ => rfl
    rw [this]; omega

section
variable [DecidableEq G]

/-! ### The inner-product argument -/

/-- C96: knowledge soundness of the inner-product argument for provers that choose the statement. The claimed `P` and
`t` are functions of the statement `s` that the prover outputs along with its proof, and the verifier is started with the
transcript `enc s`. The bound is that of C92, and all runs of the prover that the extractor uses have the same statement. -/
theorem C96_ipa_knowledge {q T B c : Nat} (cd : Codec G) (Gs Hs : List G) (hG : Gs.length = 2 ^ q)
    (hH : Hs.length = 2 ^ q) (Q : G) (P : σ → G) (t : σ → F) (enc : σ → List Event) (henc : Function.Injective enc)
    (hc : ∀ s, chals (enc s) = c)
    (hB : ∀ c : F, Nat.card {v : Vector UInt8 64 // ((leNat v.toList : Nat) : F) = c} ≤ B)
    (A : Algo Event (σ × NoZK F)) (hT : A.AtMost T) (ro : Hash) (D : Finset (List Event))
    (hD : ∀ ro, ∀ l ∈ A.asked id ro ++ ipaHistories (enc (A.run id ro).1) (2 ^ q) (A.run id ro).2, l ∈ D) :
    let Acc := fun ro =>
      let s := (A.run id ro).1
      ∃ tr', (A.run id ro).2.verify ⟨cd, ro⟩ ⟨enc s⟩ Gs Hs Q (2 ^ q) (P s) (t s) = .ok (true, tr')
    chance ro D (fun ro => Acc ro ∧
      let s := (A.run id ro).1
      ¬ ∃ (α : Fin 2 → F) (T : Fin 2 → IpaTree F G q),
      (∀ i, ∀ c ∈ (T i).paths, ∃ ro', Reprogrammed (q + 1) ro ro' ∧ Acc ro' ∧ (A.run id ro').1 = s ∧
        let p := (A.run id ro').2
        ipaAlpha F ro' (enc s) (2 ^ q) = α i ∧
        Continues cd p (ipaChallenges F ro' (enc s) (2 ^ q) p.L_vec p.R_vec) c) ∧
      match extractIpa (t s) α fun i => (T i).scalars with
      | .inl (a, b) => a.length = 2 ^ q ∧ b.length = 2 ^ q ∧ P s = dot a Gs + dot b Hs + t s • Q ∧ dot a b = t s
      | .inr r => IsRelation Gs Hs Q r) ≤
    ((T + (q + 1)) * (3 * B) : Nat) / 2 ^ 512 := by
  intro Acc
  refine (chance_mono fun ro h => ?_).trans (forking_by (M := 3 * B + 1) (d := q + 1) chals A hT
    (fun p => Algo.askAll () ((ipaHistories (enc p.1) (2 ^ q) p.2).take (q + 1)))
    (fun p => Algo'.askAll_atMost _ _ _ (List.length_take_le _ _)) Acc
    (fun ro => ipaHistories (enc (A.run id ro).1) (2 ^ q) (A.run id ro).2) (fun i => c + 1 + i) (fun i j h => by
      simp only at h; omega) ?_ ro D ?_)
  · refine ⟨h.1, fun hb => h.2 ?_⟩
    obtain ⟨α, T, h1, h2, h3, h4⟩ := ipa_forks cd (K := fun _ => 3 + 1) (fun _ => le_rfl) (acc := Acc)
      (key := fun ro i => (ipaHistories (enc (A.run id ro).1) (2 ^ q) (A.run id ro).2)[i]?) 0
      (fun ro => enc (A.run id ro).1) (fun ro => (A.run id ro).1)
      (fun _ => Gs) (fun _ => Hs) (fun _ => hG) (fun _ => hH) Q P t (fun ro => (A.run id ro).2)
      (fun _ h => h) (fun ro j _ => by rw [Nat.zero_add]) (by
        intro ro l v j _ _ hk hk'
        simp only [ipaHistories_getElem] at hk hk'
        exact henc (ipaKey_inj hk hk').1) ro (hb.forks hB (Nat.lt_succ_self _))
    refine ⟨α, T, fun i c hc => ?_, ipa_special_soundness_of_accepts α T h1 h2 h3 Gs Hs hG hH Q _ _
      fun i c hc => (h4 i c hc).1⟩
    obtain ⟨-, ro', e1, e2, e3, e4, e5, e6⟩ := h4 i c hc
    simp only [e4] at e5 e6
    exact ⟨ro', e1, e2, e3, e5, e6⟩
  · rintro ro ⟨tr', h⟩ i l hl
    refine ⟨by rw [ipaHistories_chals hl, hc], List.mem_append_right _ ?_⟩
    rw [Algo'.askAll_asked]
    have hv := (C22_ipa_verify_returns_iff _ _ _ _ _ _ _ _ _).1 ⟨_, h⟩
    have hq : (A.run id ro).2.L_vec.length = q := (Nat.pow_right_injective le_rfl hv.2.2.2.1).symm
    rw [List.take_of_length_le (by simp [ipaHistories]; omega)]
    exact List.mem_of_getElem? hl
  · intro ro l hl
    apply hD ro
    rw [Algo'.askAll_asked] at hl
    rcases List.mem_append.1 hl with hl | hl
    · exact List.mem_append_left _ hl
    · exact List.mem_append_right _ (List.mem_of_mem_take hl)

/-- C96: no prover finds a false statement together with an accepted proof, if there is no relation between the
generators and the statement is hashed. -/
theorem C96_ipa_false {q T B c : Nat} (cd : Codec G) (Gs Hs : List G) (hG : Gs.length = 2 ^ q)
    (hH : Hs.length = 2 ^ q) (Q : G) (P : σ → G) (t : σ → F) (enc : σ → List Event) (henc : Function.Injective enc)
    (hc : ∀ s, chals (enc s) = c)
    (hB : ∀ c : F, Nat.card {v : Vector UInt8 64 // ((leNat v.toList : Nat) : F) = c} ≤ B)
    (A : Algo Event (σ × NoZK F)) (hT : A.AtMost T) (ro : Hash) (D : Finset (List Event))
    (hD : ∀ ro, ∀ l ∈ A.asked id ro ++ ipaHistories (enc (A.run id ro).1) (2 ^ q) (A.run id ro).2, l ∈ D)
    (hind : ∀ r : List F × List F × F, ¬ IsRelation Gs Hs Q r) :
    chance ro D (fun ro =>
      let s := (A.run id ro).1
      (∃ tr', (A.run id ro).2.verify ⟨cd, ro⟩ ⟨enc s⟩ Gs Hs Q (2 ^ q) (P s) (t s) = .ok (true, tr')) ∧
      ¬ ∃ a b : List F, a.length = 2 ^ q ∧ b.length = 2 ^ q ∧ P s = dot a Gs + dot b Hs + t s • Q ∧ dot a b = t s) ≤
    ((T + (q + 1)) * (3 * B) : Nat) / 2 ^ 512 := by
  refine (chance_mono fun ro h => ?_).trans (C96_ipa_knowledge cd Gs Hs hG hH Q P t enc henc hc hB A hT ro D hD)
  refine ⟨h.1, ?_⟩
  intro s
  rintro ⟨α, T, -, h'⟩
  split at h'
  · exact h.2 ⟨_, _, h'⟩
  · exact hind _ h'

/-! ### AlmZK -/

/-- C96: knowledge soundness of AlmZK for provers that choose the statement. -/
theorem C96_alm_knowledge {q T B c : Nat} (cd : Codec G) (Gs Hs : List G) (hG : Gs.length = 2 ^ q)
    (hH : Hs.length = 2 ^ q) (Q : G) (C_w : σ → G) (t : σ → F) (enc : σ → List Event) (henc : Function.Injective enc)
    (hc : ∀ s, chals (enc s) = c)
    (hB : ∀ c : F, Nat.card {v : Vector UInt8 64 // ((leNat v.toList : Nat) : F) = c} ≤ B)
    (A : Algo Event (σ × AlmZK F)) (hT : A.AtMost T) (ro : Hash) (D : Finset (List Event))
    (hD : ∀ ro, ∀ l ∈ A.asked id ro ++ almHistories cd ro (enc (A.run id ro).1) (2 ^ q) Q (C_w (A.run id ro).1)
      (t (A.run id ro).1) (A.run id ro).2, l ∈ D) :
    let Acc := fun ro =>
      let s := (A.run id ro).1
      ∃ tr', (A.run id ro).2.verify ⟨cd, ro⟩ ⟨enc s⟩ Gs Hs Q (2 ^ q) (C_w s) (t s) = .ok (true, tr')
    chance ro D (fun ro => Acc ro ∧
      let s := (A.run id ro).1
      ¬ ∃ (β : Fin 3 → F) (α : Fin 3 → Fin 2 → F) (T : Fin 3 → Fin 2 → IpaTree F G q),
      (∀ i j, ∀ c ∈ (T i j).paths, ∃ ro', Reprogrammed (q + 2) ro ro' ∧ Acc ro' ∧ (A.run id ro').1 = s ∧
        let p := (A.run id ro').2
        let lg := almLog cd ro' (enc s) Q (C_w s) (t s) p.C_r
        p.C_r = (A.run id ro).2.C_r ∧ almBeta F ro' (enc s) p.C_r = β i ∧ ipaAlpha F ro' lg (2 ^ q) = α i j ∧
        Continues cd p.NoZK (ipaChallenges F ro' lg (2 ^ q) p.NoZK.L_vec p.NoZK.R_vec) c) ∧
      match extractAlm (t s) β α fun i j => (T i j).scalars with
      | .inl (u, v) => u.length = 2 ^ q ∧ v.length = 2 ^ q ∧ C_w s = dot u Gs + dot v Hs ∧ dot u v = t s
      | .inr r => IsRelation Gs Hs Q r) ≤
    ((T + (q + 2)) * (3 * B) : Nat) / 2 ^ 512 := by
  intro Acc
  refine (chance_mono fun ro h => ?_).trans (forking_by (M := 3 * B + 1) (d := q + 2) chals A hT
    (fun p => almVerifierQueries cd (enc p.1) (2 ^ q) (q + 1) Q (C_w p.1) (t p.1) p.2)
    (fun p => almVerifierQueries_atMost cd _ _ _ Q _ _ _) Acc
    (fun ro => almHistories cd ro (enc (A.run id ro).1) (2 ^ q) Q (C_w (A.run id ro).1)
      (t (A.run id ro).1) (A.run id ro).2) (fun i => c + 1 + i)
    (fun i j h => by simp only at h; omega) ?_ ro D ?_)
  · refine ⟨h.1, fun hb => h.2 ?_⟩
    obtain ⟨C_r, β, α, T, h1, h2, h3, h4, h5⟩ := alm_forks cd (K := fun _ => 3 + 1) (fun _ => le_rfl) (acc := Acc)
      (key := fun ro i => (almHistories cd ro (enc (A.run id ro).1) (2 ^ q) Q (C_w (A.run id ro).1)
        (t (A.run id ro).1) (A.run id ro).2)[i]?) 0 (fun ro => enc (A.run id ro).1)
      (fun ro => ((A.run id ro).1, (A.run id ro).2.C_r))
      (fun _ => Gs) (fun _ => Hs) (fun _ => hG) (fun _ => hH) Q (fun c => C_w c.1) (fun c => t c.1)
      (fun ro => (A.run id ro).2)
      (fun _ h => h) (fun ro j _ => by rw [Nat.zero_add]) (by
        intro ro l v j _ _ hk hk'
        simp only [Nat.zero_add, almHistories] at hk hk'
        cases j with
        | zero =>
          rw [List.getElem?_cons_zero, Option.some.injEq] at hk hk'
          obtain ⟨e, this⟩ := List.append_inj' (hk'.trans hk.symm) rfl
          simp only [List.cons.injEq, Event.msg.injEq, true_and, and_true] at this
          exact Prod.ext (henc e) this
        | succ j =>
          rw [List.getElem?_cons_succ, ipaHistories_getElem] at hk hk'
          obtain ⟨e, this⟩ := List.append_inj' (ipaKey_inj hk hk').1 rfl
          simp only [almHead, List.cons.injEq, Event.msg.injEq, true_and, and_true] at this
          exact Prod.ext (henc e) this.1) ro (hb.forks hB (Nat.lt_succ_self _))
    refine ⟨β, α, T, fun i j c hc => ?_, alm_special_soundness_of_accepts β α T h1 h2 h3 h4 Gs Hs hG hH Q _ C_r _
      fun i j c hc => (h5 i j c hc).1⟩
    obtain ⟨-, ro', e1, e2, e3, e', e4, e5, e6⟩ := h5 i j c hc
    simp only [Prod.mk.injEq] at e3
    simp only [e3.1] at e5 e6
    exact ⟨ro', e1, e2, e3.1, e3.2, e5, e6⟩
  · rintro ro ⟨tr', h⟩ i l hl
    refine ⟨by rw [almHistories_chals hl, hc], List.mem_append_right _ ?_⟩
    rw [almVerifierQueries_asked]
    have hq := alm_rounds h
    rw [List.take_of_length_le (by simp [almHistories, ipaHistories]; omega)]
    exact List.mem_of_getElem? hl
  · intro ro l hl
    apply hD ro
    rw [almVerifierQueries_asked] at hl
    rcases List.mem_append.1 hl with hl | hl
    · exact List.mem_append_left _ hl
    · exact List.mem_append_right _ (List.mem_of_mem_take hl)

/-- C96: no prover of AlmZK finds a false statement together with an accepted proof. -/
theorem C96_alm_false {q T B c : Nat} (cd : Codec G) (Gs Hs : List G) (hG : Gs.length = 2 ^ q)
    (hH : Hs.length = 2 ^ q) (Q : G) (C_w : σ → G) (t : σ → F) (enc : σ → List Event) (henc : Function.Injective enc)
    (hc : ∀ s, chals (enc s) = c)
    (hB : ∀ c : F, Nat.card {v : Vector UInt8 64 // ((leNat v.toList : Nat) : F) = c} ≤ B)
    (A : Algo Event (σ × AlmZK F)) (hT : A.AtMost T) (ro : Hash) (D : Finset (List Event))
    (hD : ∀ ro, ∀ l ∈ A.asked id ro ++ almHistories cd ro (enc (A.run id ro).1) (2 ^ q) Q (C_w (A.run id ro).1)
      (t (A.run id ro).1) (A.run id ro).2, l ∈ D)
    (hind : ∀ r : List F × List F × F, ¬ IsRelation Gs Hs Q r) :
    chance ro D (fun ro =>
      let s := (A.run id ro).1
      (∃ tr', (A.run id ro).2.verify ⟨cd, ro⟩ ⟨enc s⟩ Gs Hs Q (2 ^ q) (C_w s) (t s) = .ok (true, tr')) ∧
      ¬ ∃ u v : List F, u.length = 2 ^ q ∧ v.length = 2 ^ q ∧ C_w s = dot u Gs + dot v Hs ∧ dot u v = t s) ≤
    ((T + (q + 2)) * (3 * B) : Nat) / 2 ^ 512 := by
  refine (chance_mono fun ro h => ?_).trans (C96_alm_knowledge cd Gs Hs hG hH Q C_w t enc henc hc hB A hT ro D hD)
  refine ⟨h.1, ?_⟩
  intro s
  rintro ⟨β, α, T, -, h'⟩
  split at h'
  · exact h.2 ⟨_, _, h'⟩
  · exact hind _ h'

/-! ### QESA -/

variable {m k : Nat}

/-- The chance that a prover that chooses the equations is accepted but cannot be rewound. -/
theorem qesa_rewinding_adaptive {q T M c : Nat} (hq : m + 2 = 2 ^ q) (cd : Codec G) (Gs Hs : List G)
    (hG : Gs.length = m + 2) (hH : Hs.length = m + 2) (Q : G) (Ms : σ → Fin (k + 1) → Matrix (Fin m) (Fin m) F)
    (enc : σ → List Event) (hc : ∀ s, chals (enc s) = c)
    (A : Algo Event (σ × Zk.Proof F)) (hT : A.AtMost T) (ro : Hash) (D : Finset (List Event))
    (hD : ∀ ro, ∀ l ∈ A.asked id ro ++ qesaHistories cd ro (enc (A.run id ro).1) Gs Hs Q (Ms (A.run id ro).1)
      (A.run id ro).2.inner, l ∈ D)
    (Acc : Hash → Prop) (hAcc : ∀ ro, Acc ro → ∃ tr', (A.run id ro).2.verify ⟨cd, ro⟩ ⟨enc (A.run id ro).1⟩ Gs Hs Q
      ⟨List.ofFn fun i => rows (Ms (A.run id ro).1 i)⟩ = .ok (true, tr')) :
    chance ro D (fun ro => Acc ro ∧
      ¬ Branches Acc (fun ro i => (qesaHistories cd ro (enc (A.run id ro).1) Gs Hs Q (Ms (A.run id ro).1)
        (A.run id ro).2.inner)[i]?) M (q + 5) 0 ro) ≤
    ((T + (q + 5)) * (M - 1) : Nat) / 2 ^ 512 := by
  refine forking_by chals A hT (fun p => qesaVerifierQueries cd (enc p.1) Gs Hs Q (Ms p.1) (q + 1) p.2.inner)
    (fun p => qesaVerifierQueries_atMost cd _ Gs Hs Q _ _ p.2.inner) Acc
    (fun ro => qesaHistories cd ro (enc (A.run id ro).1) Gs Hs Q (Ms (A.run id ro).1) (A.run id ro).2.inner)
    (fun i => c + 1 + i) (fun i j h => by simp only at h; omega) ?_ ro D ?_
  · intro ro h i l hl
    obtain ⟨tr', h⟩ := hAcc ro h
    refine ⟨by rw [qesaHistories_chals hl, hc], List.mem_append_right _ ?_⟩
    rw [qesaVerifierQueries_asked]
    have hr := qesa_rounds hq hG hH (show (A.run id ro).2.inner.verify _ _ _ _ _ _ = _ from h)
    rw [List.take_of_length_le (by simp [qesaHistories, almHistories, ipaHistories]; omega)]
    exact List.mem_of_getElem? hl
  · intro ro l hl
    apply hD ro
    rw [qesaVerifierQueries_asked] at hl
    rcases List.mem_append.1 hl with hl | hl
    · exact List.mem_append_left _ hl
    · exact List.mem_append_right _ (List.mem_of_mem_take hl)

omit [DecidableEq F] [DecidableEq G] in
theorem qesa_same_statement {cd : Codec G} {Gs Hs : List G} {Q : G} {Ms : σ → Fin k → Matrix (Fin m) (Fin m) F}
    {enc : σ → List Event} (henc : Function.Injective enc) {ro ro' : Hash} {s s' : σ} {p p' : Inner.Proof F} {i : Nat}
    {l : List Event} (h : (qesaHistories cd ro (enc s) Gs Hs Q (Ms s) p)[i]? = some l)
    (h' : (qesaHistories cd ro' (enc s') Gs Hs Q (Ms s') p')[i]? = some l) : s' = s := by
  classical
  obtain ⟨t, h1, h2, -⟩ := qesaHistories_shape h
  obtain ⟨t', h1', h2', -⟩ := qesaHistories_shape h'
  exact henc (List.append_inj' (h1'.symm.trans h1) (h2'.trans h2.symm)).1

/-- C96: knowledge soundness of QESA for provers that choose the equations. -/
theorem C96_qesa_knowledge {q T B c : Nat} (hq : m + 2 = 2 ^ q) (cd : Codec G) (Gs Hs : List G)
    (hG : Gs.length = m + 2) (hH : Hs.length = m + 2) (Q : G) (Ms : σ → Fin (k + 1) → Matrix (Fin m) (Fin m) F)
    (enc : σ → List Event) (henc : Function.Injective enc) (hc : ∀ s, chals (enc s) = c)
    (hB : ∀ c : F, Nat.card {v : Vector UInt8 64 // ((leNat v.toList : Nat) : F) = c} ≤ B)
    (A : Algo Event (σ × Zk.Proof F)) (hT : A.AtMost T) (ro : Hash) (D : Finset (List Event))
    (hD : ∀ ro, ∀ l ∈ A.asked id ro ++ qesaHistories cd ro (enc (A.run id ro).1) Gs Hs Q (Ms (A.run id ro).1)
      (A.run id ro).2.inner, l ∈ D) :
    let Acc := fun ro =>
      let st := (A.run id ro).1
      ∃ tr', (A.run id ro).2.verify ⟨cd, ro⟩ ⟨enc st⟩ Gs Hs Q ⟨List.ofFn fun i => rows (Ms st i)⟩ = .ok (true, tr')
    chance ro D (fun ro =>
      let st := (A.run id ro).1
      let c' := (A.run id ro).2.inner.c_prime_w
      let c'' := (A.run id ro).2.inner.c_prime_prime_w
      let x := qesaX F ro (enc st) c'
      let M' := batched (m + 2) (Ms st) x
      Acc ro ∧ x ≠ 0 ∧ ¬ ∃ (C' C'' : G) (s : Fin (m + 1) → F) (b : Fin (m + 1) → Fin 3 → F)
        (β : Fin (m + 1) → Fin 3 → Fin 3 → F) (α : Fin (m + 1) → Fin 3 → Fin 3 → Fin 2 → F)
        (T : Fin (m + 1) → Fin 3 → Fin 3 → Fin 2 → IpaTree F G q),
        c' = cd.compress C' ∧ c'' = cd.compress C'' ∧
        (∀ i j l e, ∀ c ∈ (T i j l e).paths, ∃ ro', Reprogrammed (q + 4) ro ro' ∧ Acc ro' ∧ (A.run id ro').1 = st ∧
          let p := (A.run id ro').2.inner
          let lg1 := Spec.qesaLog cd ro' (enc st) Gs Hs (Ms st) p
          let c1 := qesaClaimed cd ro' (enc st) Gs Hs (Ms st) p
          let lg2 := almLog cd ro' lg1 Q c1.1 c1.2 p.alm_zk.C_r
          p.c_prime_w = c' ∧ p.c_prime_prime_w = c'' ∧ qesaX F ro' (enc st) c' = x ∧
          qesaS F ro' (enc st) c' c'' = s i ∧ qesaB F ro' (enc st) c' c'' = b i j ∧
          almBeta F ro' lg1 p.alm_zk.C_r = β i j l ∧ ipaAlpha F ro' lg2 (2 ^ q) = α i j l e ∧
          Continues cd p.alm_zk.NoZK (ipaChallenges F ro' lg2 (2 ^ q) p.alm_zk.NoZK.L_vec p.alm_zk.NoZK.R_vec) c) ∧
        match extractQesa M' x s b fun i j => extractAlm (- quad M' (powers (s i) m)) (β i j) (α i j)
            fun l e => (T i j l e).scalars with
        | .inl (w, v) => ∃ (u : Fin m → F) (r0 r1 : F),
            w = List.ofFn u ++ [r0, r1] ∧ v = List.ofFn (M'.mulVec u) ++ [-r1, r0] ∧ quad M' u = 0 ∧
            C' + C'' = dot w (rescaled (x ^ 2) Gs) + (1 - (x ^ 2)⁻¹) • Gs.headD 0 + dot v Hs
        | .inr r => IsRelation Gs Hs Q r) ≤
    ((T + (q + 5)) * (max m 3 * B) : Nat) / 2 ^ 512 := by
  intro Acc
  refine (chance_mono fun ro h => ?_).trans
    (qesa_rewinding_adaptive (M := max m 3 * B + 1) hq cd Gs Hs hG hH Q Ms enc hc A hT ro D hD Acc fun _ h => h)
  obtain ⟨ha, hx, hno⟩ := h
  refine ⟨ha, fun hb => hno ?_⟩
  have hac := qesa_accepted_alm cd (fun ro => enc (A.run id ro).1) (fun ro => (A.run id ro).1) (acc := Acc) hq Gs Hs hG
    hH Q Ms (fun ro => (A.run id ro).2.inner) (fun _ h => h) ro ha
  obtain ⟨s, b, C_r, β, α, T, h1, h2, h3, h4, h5, h6, h7⟩ := qesa_forks cd (K := fun _ => max m 3 + 1)
    (fun _ => Nat.succ_le_succ (le_max_right _ _)) (acc := Acc)
    (key := fun ro i => (qesaHistories cd ro (enc (A.run id ro).1) Gs Hs Q (Ms (A.run id ro).1)
      (A.run id ro).2.inner)[i]?) 0 (Nat.succ_le_succ (le_max_left _ _)) (fun ro => enc (A.run id ro).1)
    (fun ro => (A.run id ro).1) hq Gs Hs hG hH Q Ms (fun ro => (A.run id ro).2.inner) (fun _ h => h)
    (fun ro j _ => by rw [Nat.zero_add]) (fun ro l v j _ _ h h' => qesa_same_statement henc h h') ro
    (hb.1.forks hB (Nat.lt_succ_self _))
  refine ⟨_, _, s, b, β, α, T, hac.2.1, hac.2.2.1, fun i j l e c hc => ?_,
    qesa_special_soundness_of_accepts hq Gs Hs hG hH Q _ _ (Ms (A.run id ro).1) _ hx s h1 b h2 C_r β h3 α h4 h5 T h6
      fun i j l e c hc => (h7 i j l e c hc).1⟩
  obtain ⟨-, ro', e1, e2, es, e', e3, e4, e5, e6, e7, -, e8, e9, e10⟩ := h7 i j l e c hc
  simp only [xOf, sOf, bOf, e3, e4, es] at e5 e6 e7
  simp only [es] at e8 e9 e10
  exact ⟨ro', e1, e2, es, e3, e4, e5, e6, e7, e8, e9, e10⟩

/-- C96: soundness of QESA for provers that choose the equations and send a combination of the generators `H` as second
commitment. -/
theorem C96_qesa_sound {q T B c : Nat} (hq : m + 3 = 2 ^ q) (cd : Codec G) (Gs Hs : List G)
    (hG : Gs.length = m + 3) (hH : Hs.length = m + 3) (Q : G)
    (hind : ∀ r : List F × List F × F, ¬ IsRelation Gs Hs Q r)
    (Ms : σ → Fin (k + 1) → Matrix (Fin (m + 1)) (Fin (m + 1)) F)
    (enc : σ → List Event) (henc : Function.Injective enc) (hc : ∀ s, chals (enc s) = c)
    (hB : ∀ c : F, Nat.card {v : Vector UInt8 64 // ((leNat v.toList : Nat) : F) = c} ≤ B)
    (A : Algo Event (σ × Zk.Proof F)) (hT : A.AtMost T) (ro : Hash) (D : Finset (List Event))
    (hD : ∀ ro, ∀ l ∈ A.asked id ro ++ qesaHistories cd ro (enc (A.run id ro).1) Gs Hs Q (Ms (A.run id ro).1)
      (A.run id ro).2.inner, l ∈ D) :
    chance ro D (fun ro =>
      let st := (A.run id ro).1
      let p := (A.run id ro).2
      (∃ tr', p.verify ⟨cd, ro⟩ ⟨enc st⟩ Gs Hs Q ⟨List.ofFn fun i => rows (Ms st i)⟩ = .ok (true, tr')) ∧
      (∃ h : List F, h.length = m + 3 ∧ cd.decompress p.inner.c_prime_prime_w = some (dot h Hs)) ∧
      ¬ ∃ (w : Fin (m + 1) → F) (r0 r1 : F) (h : List F), h.length = m + 3 ∧
        cd.decompress p.inner.c_prime_w = some (dot (List.ofFn w ++ [r0, r1]) Gs + dot h Hs) ∧
        ∀ j, drift (m + 3) (Ms st) w j = 0) ≤
    ((T + (q + 5)) * ((m + 7) * B) : Nat) / 2 ^ 512 := by
  refine (chance_mono fun ro h => ?_).trans (qesa_rewinding_adaptive (M := (m + 7) * B + 1) hq cd Gs Hs hG hH Q Ms enc hc
    A hT ro D hD (fun ro =>
      (∃ tr', (A.run id ro).2.verify ⟨cd, ro⟩ ⟨enc (A.run id ro).1⟩ Gs Hs Q
        ⟨List.ofFn fun i => rows (Ms (A.run id ro).1 i)⟩ = .ok (true, tr')) ∧
      ∃ h : List F, h.length = m + 3 ∧ cd.decompress (A.run id ro).2.inner.c_prime_prime_w = some (dot h Hs))
    fun _ h => h.1)
  obtain ⟨h1, h2, h3⟩ := h
  exact ⟨⟨h1, h2⟩, fun hb => h3 (qesa_sound_forks cd hB (Nat.lt_succ_self _) 0 (fun ro => enc (A.run id ro).1)
    (fun ro => (A.run id ro).1) hq Gs Hs hG hH Q hind Ms (fun ro => (A.run id ro).2.inner) (fun _ h => h.1)
    (fun ro j _ => by rw [Nat.zero_add]) (fun ro l v j _ _ h h' => by
      rw [Nat.zero_add] at h h'
      exact qesa_same_statement henc h h') (fun _ h => h.2) ro hb)⟩

/-- C96: a prover that chooses the equations is not accepted with equations that the vector to which it is bound
violates. -/
theorem C96_qesa_false {q T B c : Nat} (hq : m + 3 = 2 ^ q) (cd : Codec G) (Gs Hs : List G)
    (hG : Gs.length = m + 3) (hH : Hs.length = m + 3) (Q : G)
    (hind : ∀ r : List F × List F × F, ¬ IsRelation Gs Hs Q r)
    (Ms : σ → Fin (k + 1) → Matrix (Fin (m + 1)) (Fin (m + 1)) F)
    (enc : σ → List Event) (henc : Function.Injective enc) (hc : ∀ s, chals (enc s) = c)
    (hB : ∀ c : F, Nat.card {v : Vector UInt8 64 // ((leNat v.toList : Nat) : F) = c} ≤ B)
    (A : Algo Event (σ × Zk.Proof F)) (hT : A.AtMost T) (ro : Hash) (D : Finset (List Event))
    (hD : ∀ ro, ∀ l ∈ A.asked id ro ++ qesaHistories cd ro (enc (A.run id ro).1) Gs Hs Q (Ms (A.run id ro).1)
      (A.run id ro).2.inner, l ∈ D) :
    chance ro D (fun ro =>
      let st := (A.run id ro).1
      let p := (A.run id ro).2
      (∃ tr', p.verify ⟨cd, ro⟩ ⟨enc st⟩ Gs Hs Q ⟨List.ofFn fun i => rows (Ms st i)⟩ = .ok (true, tr')) ∧
      (∃ h : List F, h.length = m + 3 ∧ cd.decompress p.inner.c_prime_prime_w = some (dot h Hs)) ∧
      ∃ (w : Fin (m + 1) → F) (r0 r1 : F) (h : List F), h.length = m + 3 ∧
        cd.decompress p.inner.c_prime_w = some (dot (List.ofFn w ++ [r0, r1]) Gs + dot h Hs) ∧
        w 0 = 1 ∧ ∃ i : Fin (k + 1), i.val < m + 3 ∧ quad (Ms st i) w ≠ 0) ≤
    ((T + (q + 5)) * ((m + 7) * B) : Nat) / 2 ^ 512 := by
  refine (chance_mono fun ro h => ?_).trans (C96_qesa_sound hq cd Gs Hs hG hH Q hind Ms enc henc hc hB A hT ro D hD)
  obtain ⟨h1, h2, w, r0, r1, h, hh, hd, hw, i, hi, hne⟩ := h
  refine ⟨h1, h2, ?_⟩
  rintro ⟨w', r0', r1', h', hh', hd', hz⟩
  rw [hd, Option.some.injEq] at hd'
  obtain ⟨e, -⟩ := unique_opening Gs Hs Q hind _ _ _ _ (by simp [hG]) (hh.trans hH.symm) (by simp [hG])
    (hh'.trans hH.symm) hd'
  have e := List.ofFn_injective (List.append_inj_left e (by simp))
  rw [← e] at hz
  exact hne ((C89_drift_one (m + 3) (Ms (A.run id ro).1) w hw).1 hz i hi)

end
end Qesa.Props
