import Verif.SpecSlots
import Verif.Props.ForkAdaptive2
import Verif.Props.Jobs
/-
C109: soundness of sessions. A prover that may choose the statements and the proofs of a session on one transcript makes
the verifier accept a wrong proof with small probability only.
-/
namespace Qesa.Props
open Qesa Spec Ipa Lmpa
set_option linter.unusedSectionVars false
variable {F G σ : Type} [Field F] [DecidableEq F] [AddCommGroup G] [Module F G] [DecidableEq G]

/-! ### One proof -/

theorem eq_ofFn {α : Type} {l : List α} {n : Nat} (h : l.length = n) : ∃ f : Fin n → α, l = List.ofFn f := by
  subst h
  exact ⟨l.get, (List.ofFn_get l).symm⟩

/-- Without relations between the generators the contents of a commitment are determined. -/
theorem commit_contents {m : Nat} {Gs Hs : List G} {Q : G} (hG : Gs.length = m + 3)
    (hind : ∀ r : List F × List F × F, ¬ IsRelation Gs Hs Q r) (idx : List Nat) (hs : idx.Pairwise (· < ·))
    (hi : ∀ i ∈ idx, i < m + 1) (msg msg' : List F) (r r' : F) (C : G) (h : Copy.commit Gs idx msg r = .ok C)
    (h' : Copy.commit Gs idx msg' r' = .ok C) : msg = msg' ∧ r = r' := by
  have hl : idx.length = msg.length := ((Copy.commit_eq_ok _ _ _ _ _).1 h).1
  have hl' : idx.length = msg'.length := ((Copy.commit_eq_ok _ _ _ _ _).1 h').1
  by_contra hne
  obtain ⟨k, hk⟩ : ∃ k, idx.length = k := ⟨_, rfl⟩
  obtain ⟨g, rfl⟩ := eq_ofFn hG
  obtain ⟨f, rfl⟩ := eq_ofFn hk
  obtain ⟨m1, rfl⟩ := eq_ofFn (hl.symm.trans hk)
  obtain ⟨m2, rfl⟩ := eq_ofFn (hl'.symm.trans hk)
  have hf : ∀ j, f j < m + 1 := fun j => hi _ (List.mem_ofFn.2 ⟨j, rfl⟩)
  have hinj : Function.Injective f := List.nodup_ofFn.1 (hs.imp fun h => ne_of_lt h)
  obtain ⟨a, ha, hz⟩ := C33_binding g (fun j => ⟨f j, (hf j).trans (by omega)⟩)
    (fun a b h => hinj (congrArg Fin.val h)) (fun j e => by
      have h1 := hf j
      have h2 : f j = m + 2 := congrArg Fin.val e
      omega) m1 m2 r r' (by
      by_contra hc
      push Not at hc
      exact hne ⟨by rw [hc.1], hc.2⟩) C h h'
  refine hind (List.ofFn a, List.replicate Hs.length 0, 0) ⟨by simp, by simp, ?_, ?_⟩
  · obtain ⟨j, hj⟩ := Function.ne_iff.1 ha
    exact ⟨a j, by rw [List.append_assoc]; exact List.mem_append_left _ (List.mem_ofFn.2 ⟨j, rfl⟩), hj⟩
  · simp only
    rw [dot_ofFn, hz, dot_replicate_zero, zero_smul, add_zero, add_zero]

/-- The same for a list of commitments. -/
theorem commits_contents {m : Nat} {Gs Hs : List G} {Q : G} (hG : Gs.length = m + 3)
    (hind : ∀ r : List F × List F × F, ¬ IsRelation Gs Hs Q r) : ∀ (coms coms' : List (List Nat × List F × F)) (Cs : List G),
    coms.map (·.1) = coms'.map (·.1) → (∀ c ∈ coms, c.1.Pairwise (· < ·)) → (∀ c ∈ coms, ∀ i ∈ c.1, i < m + 1) →
    coms.mapM (fun c => Copy.commit Gs c.1 c.2.1 c.2.2) = .ok Cs →
    coms'.mapM (fun c => Copy.commit Gs c.1 c.2.1 c.2.2) = .ok Cs → coms = coms'
  | [], [], _, _, _, _, _, _ => rfl
  | [], _ :: _, _, h, _, _, _, _ => by simp at h
  | _ :: _, [], _, h, _, _, _, _ => by simp at h
  | (idx, msg, r) :: coms, (idx', msg', r') :: coms', Cs, h, hs, hi, h1, h2 => by
    rw [List.map_cons, List.map_cons, List.cons.injEq] at h
    obtain ⟨h0, h⟩ := h
    dsimp only at h0
    subst h0
    rw [Copy.mapM_eq_ok] at h1 h2
    cases h1 with
    | cons a1 b1 =>
      cases h2 with
      | cons a2 b2 =>
        obtain ⟨rfl, rfl⟩ := commit_contents hG hind idx (hs _ List.mem_cons_self) (hi _ List.mem_cons_self) msg msg' r r' _ a1 a2
        rw [commits_contents hG hind coms coms' _ h (fun c hc => hs c (List.mem_cons_of_mem _ hc))
          (fun c hc => hi c (List.mem_cons_of_mem _ hc)) (Copy.mapM_eq_ok.2 b1) (Copy.mapM_eq_ok.2 b2)]

/-- C96 for all kinds of proofs. -/
theorem slot_sound {T B c fuel : Nat} (cd : Codec G) (gens : Generators G) (s : Slot) (hs : s.Proper F fuel gens)
    (st : σ → s.Statement F G) (enc : σ → List Event) (henc : ∀ s s' r r', enc s ++ r = enc s' ++ r' → s = s')
    (hc : ∀ s, chals (enc s) = c)
    (hB : ∀ c : F, Nat.card {v : Vector UInt8 64 // ((leNat v.toList : Nat) : F) = c} ≤ B)
    (A : Algo Event (σ × s.Proof F G)) (hT : A.AtMost T) :
    ∃ D0 : Finset (List Event), ∀ D, D0 ⊆ D → ∀ ro, chance ro D (fun ro =>
      (∃ tr', s.verify ⟨cd, ro⟩ fuel gens ⟨enc (A.run id ro).1⟩ (st (A.run id ro).1) (A.run id ro).2 = .ok (true, tr')) ∧
      s.Wrong cd gens (st (A.run id ro).1) (A.run id ro).2) ≤
    ((T + s.challenges) * (s.factor * B) : Nat) / 2 ^ 512 := by
  have hinj : Function.Injective enc := fun s s' h => henc s s' [] [] (by rw [h])
  cases s with
  | ipa k =>
    obtain ⟨D0, h0⟩ := C96_ipa_domain enc (2 ^ k) A
    exact ⟨D0, fun D hD ro => C96_ipa_false cd _ _ hs.1 hs.2.1 gens.Q (fun x => (st x).1) (fun x => (st x).2) enc hinj hc hB
      A hT ro D (fun ro l hl => hD (h0 ro l hl)) hs.2.2⟩
  | alm k =>
    obtain ⟨D0, h0⟩ := C96_alm_domain cd enc (2 ^ k) gens.Q (fun x => (st x).1) (fun x => (st x).2) A
    exact ⟨D0, fun D hD ro => C96_alm_false cd _ _ hs.1 hs.2.1 gens.Q (fun x => (st x).1) (fun x => (st x).2) enc hinj hc hB
      A hT ro D (fun ro l hl => hD (h0 ro l hl)) hs.2.2⟩
  | qesa m e k =>
    obtain ⟨D0, h0⟩ := C96_qesa_domain cd enc (gens.G e) (gens.H e) gens.Q st A
    exact ⟨D0, fun D hD ro => C96_qesa_false hs.1 cd _ _ hs.2.1 hs.2.2.1 gens.Q hs.2.2.2 st enc hinj hc hB
      A hT ro D (fun ro l hl => hD (h0 ro l hl))⟩
  | copy m e N =>
    classical
    obtain ⟨hq, hG, hH, hind, hn, hN⟩ := hs
    let Opens : σ → Prop := fun y => ∃ coms : List (List Nat × List F × F), coms.map (·.1) = CopyClaim.sets (st y) ∧
      coms.mapM (fun c => Copy.commit (gens.G e) c.1 c.2.1 c.2.2) = .ok (CopyClaim.Cs (st y))
    by_cases hne : ∃ y, Opens y
    · obtain ⟨y0, hy0⟩ := hne
      let S := {y : σ // Opens y}
      let A' : Algo Event (S × Copy.Proof F) := A.andThen fun y =>
        .done (if h : Opens y.1 then ⟨y.1, h⟩ else ⟨y0, hy0⟩, y.2)
      have hA' : A'.AtMost T := Algo.andThen_atMost (fun y => Algo.done ((if h : Opens y.1 then ⟨y.1, h⟩ else ⟨y0, hy0⟩ : S),
        y.2)) 0 (fun _ => trivial) A T hT
      choose coms hcs hco using fun y : S => y.2
      have hm : ∀ (P : List Nat → Prop) (y : S), (∀ c ∈ (st y.1).sets, P c) → ∀ c ∈ coms y, P c.1 := by
        intro P y h c hc
        refine h _ ?_
        rw [← hcs y]
        exact List.mem_map_of_mem hc
      have hlen : ∀ y : S, (coms y).length = (st y.1).sets.length := by
        intro y
        rw [← hcs y, List.length_map]
      obtain ⟨D0, h0⟩ := C96_copy_domain cd (fun y : S => enc y.1) (gens.G e) (gens.H e) gens.Q (fun y => (st y.1).Us)
        (fun y => (st y.1).map) (fun y => (st y.1).Cs) A'
      refine ⟨D0, fun D hD ro => ?_⟩
      have key := C96_copy_false hq cd (gens.G e) (gens.H e) hG hH gens.Q hind (fun y : S => (st y.1).Us)
        (fun y => (st y.1).map) coms (fun y => (st y.1).Cs) (fun y => (st y.1).ws) hco hn (fun y => (st y.1).size)
        (fun y => by rw [hlen]; exact (st y.1).count.trans hN) (fun y => by rw [hlen]; exact (st y.1).count)
        (fun y => by rw [hcs]; exact (st y.1).mapping) (fun y => hm _ y (st y.1).sorted)
        (fun y => hm (fun c => ∀ i ∈ c, i < m + 1) y (st y.1).small) (fun y => hm (fun c => 0 ∉ c) y (st y.1).nonzero)
        (fun y U hU i j => by
          rintro ⟨c, hc, h⟩
          refine (st y.1).untouched U hU i j ⟨c.1, ?_, h⟩
          rw [← hcs y]
          exact List.mem_map_of_mem hc) (fun y => (st y.1).room) (fun y => enc y.1)
        (fun y y' h => Subtype.ext (hinj h)) (fun y => hc y.1) hB A' hA' ro D (fun ro l hl => hD (h0 ro l hl))
      refine (chance_mono fun ro h => ?_).trans key
      obtain ⟨hv, hw1, cs, hcs1, hcs2, hw2⟩ := h
      have hop : Opens (A.run id ro).1 := ⟨cs, hcs1, hcs2⟩
      have hrun : A'.run id ro = (⟨(A.run id ro).1, hop⟩, (A.run id ro).2) := by
        simp only [A', Algo.run_andThen, Algo.run]
        rw [dif_pos hop]
        rfl
      have hu := commits_contents hG hind cs (coms ⟨(A.run id ro).1, hop⟩) _ (hcs1.trans (hcs ⟨_, hop⟩).symm)
        (fun c hc => (st (A.run id ro).1).sorted _ (hcs1 ▸ List.mem_map_of_mem hc))
        (fun c hc => (st (A.run id ro).1).small _ (hcs1 ▸ List.mem_map_of_mem hc)) hcs2 (hco ⟨_, hop⟩)
      rw [hu] at hw2
      rw [hrun]
      exact ⟨hv, hw1, hw2⟩
    · refine ⟨∅, fun D _ ro => ?_⟩
      refine le_trans (le_of_eq ?_) (by positivity : (0 : ℚ) ≤ _)
      rw [chance, countHashes, div_eq_zero_iff]
      refine .inl (Nat.cast_eq_zero.2 (Nat.card_eq_zero.2 (.inl ⟨?_⟩)))
      rintro ⟨f, -, -, cs, h1, h2, -⟩
      exact hne ⟨_, cs, h1, h2⟩
  | lmpa q =>
    obtain ⟨D0, h0⟩ := C96_lmpa_domain cd enc q A
    exact ⟨D0, fun D hD ro => C96_lmpa_false cd (fun x => (st x).row) (fun x => (st x).rows) _ (fun x => (st x).t)
      (fun x => (st x).ts) (fun x => (st x).width) enc henc hc hB A hT ro D (fun ro l hl => hD (h0 ro l hl))⟩
  | simple q =>
    obtain ⟨D0, h0⟩ := C96_simple_domain cd enc q A
    exact ⟨D0, fun D hD ro => C96_simple_false cd (fun x => (st x).row) (fun x => (st x).rows) _ (fun x => (st x).t)
      (fun x => (st x).ts) (fun x => (st x).width) enc henc hc hB A hT ro D (fun ro l hl => hD (h0 ro l hl))⟩

/-! ### The transcript after a proof -/

/-- The history ends with a challenge. -/
def Ends (l : List Event) : Prop := ∃ l0 lab n, l = l0 ++ [Event.chal lab n]

theorem Ends.append {l : List Event} (h : Ends l) (l' : List Event) : Ends (l' ++ l) := by
  obtain ⟨l0, lab, n, rfl⟩ := h
  exact ⟨l' ++ l0, lab, n, by simp⟩

/-- Histories with the same number of challenges that end with a challenge are not prefixes of each other. -/
theorem Ends.cancel {l l' r r' : List Event} (h : Ends l) (h' : Ends l') (hc : chals l = chals l') (e : l ++ r = l' ++ r') :
    l = l' := by
  have key : ∀ a : List Event, ∀ l l' : List Event, Ends l' → chals l = chals l' → l' = l ++ a → l = l' := by
    intro a l l' h' hc e
    rcases List.eq_nil_or_concat a with rfl | ⟨a0, x, rfl⟩
    · rw [e, List.append_nil]
    · obtain ⟨l0, lab, n, rfl⟩ := h'
      rw [List.concat_eq_append, ← List.append_assoc] at e
      obtain ⟨rfl, e2⟩ := List.append_inj' e rfl
      rw [chals_append, chals_append] at hc
      have : chals [Event.chal lab n] = 1 := rfl
      omega
  rcases List.append_eq_append_iff.1 e with ⟨a, h1, -⟩ | ⟨a, h1, -⟩
  · exact key a l l' h' hc h1
  · exact (key a l' l h hc.symm h1).symm

/-- The history at the end of an inner-product argument that starts after `log`. -/
def ipaEnd (log : List Event) (n : Nat) (p : NoZK F) : List Event := log ++ headLog n ++ roundsLog p.L_vec p.R_vec

theorem ends_rounds (L R : List Comp) (log : List Event) (h : Ends log) : Ends (log ++ roundsLog L R) := by
  unfold roundsLog
  rcases List.eq_nil_or_concat (List.zip L R) with e | ⟨z, x, e⟩
  · rw [e]; simpa using h
  · rw [e]
    exact ⟨log ++ z.flatMap roundLog ++ [.msg "L" x.1, .msg "R" x.2], "x_i", 64, by simp [roundLog]⟩

theorem chals_ipaRounds : ∀ L R : List Comp, chals (roundsLog L R) = min L.length R.length
  | [], _ => by simp [roundsLog, chals]
  | _ :: _, [] => by simp [roundsLog, chals]
  | a :: L, b :: R => by
    have := chals_ipaRounds L R
    rw [roundsLog] at this
    rw [roundsLog, List.zip_cons_cons, List.flatMap_cons, chals_append, this, List.length_cons, List.length_cons]
    have : chals (roundLog (a, b)) = 1 := rfl
    omega

theorem ipaEnd_ends (log : List Event) (n : Nat) (p : NoZK F) : Ends (ipaEnd log n p) :=
  ends_rounds _ _ _ ⟨log ++ [.msg "n" (u64le n)], "alpha", 64, by simp [headLog]⟩

theorem ipaEnd_chals (log : List Event) (n : Nat) (p : NoZK F) (h : p.L_vec.length ≤ p.R_vec.length) :
    chals (ipaEnd log n p) = chals log + (p.L_vec.length + 1) := by
  rw [ipaEnd, chals_append, chals_append, chals_ipaRounds, min_eq_left h, Nat.add_assoc, Nat.add_comm (chals (headLog n))]
  rfl

/-- The history at the end of AlmZK, which depends on `beta`. -/
def almFollow (cd : Codec G) (log : List Event) (n : Nat) (Q C_w : G) (t : F) (p : AlmZK F) : Algo Event (List Event) :=
  .ask (log ++ [.msg "C_r" p.C_r, .chal "beta" 64]) fun v =>
    let β : F := (leNat v.toList : Nat)
    .done (ipaEnd (log ++ almHead p.C_r (cd.compress (β • C_w + (cd.decompress p.C_r).getD 0 + (β * β * t) • Q))) n p.NoZK)

/-- The history at the end of QESA. -/
def qesaFollow {m k : Nat} (cd : Codec G) (log : List Event) (Gs Hs : List G) (Q : G)
    (Ms : Fin k → Matrix (Fin m) (Fin m) F) (p : Inner.Proof F) : Algo Event (List Event) :=
  .ask (log ++ [.msg "c_prime_w" p.c_prime_w, .chal "x" 64]) fun vx =>
  .ask (log ++ [.msg "c_prime_w" p.c_prime_w, .chal "x" 64, .msg "c_prime_prime_w" p.c_prime_prime_w,
    .chal "s" 64]) fun vs =>
  .ask (log ++ [.msg "c_prime_w" p.c_prime_w, .chal "x" 64, .msg "c_prime_prime_w" p.c_prime_prime_w,
    .chal "s" 64, .chal "b" 64]) fun vb =>
    let x : F := (leNat vx.toList : Nat)
    let s : F := (leNat vs.toList : Nat)
    let b : F := (leNat vb.toList : Nat)
    let M := batched (m + 2) Ms x
    let C_w := qesaPoint M Gs Hs ((cd.decompress p.c_prime_w).getD 0) ((cd.decompress p.c_prime_prime_w).getD 0) x s b
    almFollow cd (log ++ qesaHead p.c_prime_w p.c_prime_prime_w (cd.compress C_w)) (m + 2) Q C_w
      (- quad M (powers s m)) p.alm_zk

/-- The history at the end of Copy. -/
def copyFollow {m : Nat} (cd : Codec G) (log : List Event) (Gs Hs : List G) (Q : G)
    (Us : List (Matrix (Fin (m + 1)) (Fin (m + 1)) F)) (map : Copy.Mapping) (Cs : List G) (p : Copy.Proof F) :
    Algo Event (List Event) :=
  .ask (log ++ [.msg "c_w" p.C_w, .chal "alpha" 64]) fun v =>
    let α : F := (leNat v.toList : Nat)
    qesaFollow cd (log ++ [.msg "c_w" p.C_w, .chal "alpha" 64]) Gs Hs Q (copySystem Us map α).get
      ⟨p.inner.alm_zk, cd.compress (dot (List.ofFn (powers α Cs.length)) Cs + (cd.decompress p.C_w).getD 0),
        p.inner.c_prime_prime_w⟩

/-- The rounds of the linear-map argument. -/
def linRounds (cd : Codec G) (q : Nat) (p : Lmpa.NoZK F G) : List Event :=
  ((List.zip p.L_Vec p.R_Vec).take q).flatMap fun LR =>
      (LR.1.map fun P => .msg "L" (cd.compress P)) ++ (LR.2.map fun P => .msg "R" (cd.compress P)) ++
      [.chal "challenge" 64]

theorem chals_msgs (s : String) (f : G → Comp) (l : List G) : chals (l.map fun P => Event.msg s (f P)) = 0 := by
  induction l with
  | nil => rfl
  | cons a l ih => rw [List.map_cons, ← List.singleton_append, chals_append, ih]; rfl

theorem linRounds_chals (cd : Codec G) (q : Nat) (p : Lmpa.NoZK F G) (hL : q ≤ p.L_Vec.length) (hR : q ≤ p.R_Vec.length) :
    chals (linRounds cd q p) = q := by
  have h : ((List.zip p.L_Vec p.R_Vec).take q).length = q := by simp; omega
  unfold linRounds
  conv_rhs => rw [← h]
  generalize (List.zip p.L_Vec p.R_Vec).take q = l
  induction l with
  | nil => rfl
  | cons a l ih =>
    rw [List.flatMap_cons, chals_append, ih, chals_append, chals_append, chals_msgs, chals_msgs, List.length_cons]
    have : chals [Event.chal "challenge" 64] = 1 := rfl
    omega

theorem linRounds_ends (cd : Codec G) (q : Nat) (p : Lmpa.NoZK F G) (log : List Event) (h : Ends log ∨ 0 < q)
    (hL : q ≤ p.L_Vec.length) (hR : q ≤ p.R_Vec.length) : Ends (log ++ linRounds cd q p) := by
  have hl : ((List.zip p.L_Vec p.R_Vec).take q).length = q := by simp; omega
  unfold linRounds
  rcases List.eq_nil_or_concat ((List.zip p.L_Vec p.R_Vec).take q) with e | ⟨z, x, e⟩
  · rw [e] at hl ⊢
    rcases h with h | h
    · simpa using h
    · simp at hl; omega
  · rw [e]
    refine Ends.append ?_ _
    rw [List.concat_eq_append, List.flatMap_append]
    refine Ends.append ?_ _
    rw [List.flatMap_singleton]
    exact ⟨_, _, _, rfl⟩

/-- The history after the verification of a proof. -/
def slotFollow (cd : Codec G) (gens : Generators G) (log : List Event) :
    (s : Slot) → s.Statement F G → s.Proof F G → Algo Event (List Event)
  | .ipa k, _, p => .done (ipaEnd log (2 ^ k) p)
  | .alm k, st, p => almFollow cd log (2 ^ k) gens.Q st.1 st.2 p
  | .qesa _ e _, st, p => qesaFollow cd log (gens.G e) (gens.H e) gens.Q st (Zk.Proof.inner p)
  | .copy _ e _, st, p => copyFollow cd log (gens.G e) (gens.H e) gens.Q st.Us st.map st.Cs p
  | .lmpa q, _, p => .done (log ++ linRounds cd q p)
  | .simple q, _, p => .done (log ++ ((Lmpa.SimpleZK.a p).map fun P => .msg "a" (cd.compress P)) ++ [.chal "beta" 64] ++
      linRounds cd q (Lmpa.SimpleZK.no_zk p))

theorem slotFollow_atMost (cd : Codec G) (gens : Generators G) (log : List Event) (s : Slot) (st : s.Statement F G)
    (p : s.Proof F G) : (slotFollow cd gens log s st p).AtMost s.challenges := by
  cases s with
  | ipa k => trivial
  | alm k => exact fun _ => trivial
  | qesa m e k => exact fun _ _ _ _ => trivial
  | copy m e N => exact fun _ _ _ _ _ => trivial
  | lmpa q => trivial
  | simple q => trivial

theorem ipa_follow {cx : Ctx G} {p : NoZK F} {tr tr' : Transcript} {Gs Hs : List G} {Q P : G} {t : F} {k : Nat} {b : Bool}
    (h : p.verify cx tr Gs Hs Q (2 ^ k) P t = .ok (b, tr')) :
    tr'.log = ipaEnd tr.log (2 ^ k) p ∧ p.L_vec.length = k :=
  ⟨C11_ipa_verify_log cx p tr tr' Gs Hs Q _ P t b h,
    (Nat.pow_right_injective le_rfl ((C22_ipa_verify_returns_iff _ _ _ _ _ _ _ _ _).1 ⟨_, h⟩).2.2.2.1).symm⟩

theorem alm_follow {cd : Codec G} {ro : Hash} {p : AlmZK F} {log : List Event} {tr' : Transcript} {Gs Hs : List G} {Q C : G}
    {t : F} {k : Nat} {b : Bool} (h : p.verify ⟨cd, ro⟩ ⟨log⟩ Gs Hs Q (2 ^ k) C t = .ok (b, tr'))
    (hr : p.NoZK.L_vec.length ≤ p.NoZK.R_vec.length) :
    (almFollow cd log (2 ^ k) Q C t p).run id ro = tr'.log ∧ chals tr'.log = chals log + (k + 2) ∧ Ends tr'.log := by
  cases hd : cd.decompress p.C_r with
  | none => rw [alm_verify_undecodable ⟨cd, ro⟩ p _ Gs Hs Q _ C t hd] at h; simp at h
  | some C_r =>
    rw [alm_verify_eq ⟨cd, ro⟩ p _ Gs Hs Q _ C t C_r (cd.compress_decompress _ _ hd).symm] at h
    obtain ⟨e, hk⟩ := ipa_follow h
    rw [e]
    refine ⟨?_, ?_, ipaEnd_ends _ _ _⟩
    · simp only [almFollow, Algo.run, hd, Option.getD_some, List.map_id]
      rfl
    · rw [ipaEnd_chals _ _ _ hr, chals_append, hk]
      have : ∀ c P, chals (almHead c P) = 1 := fun _ _ => rfl
      rw [this]
      show chals log + 1 + (k + 1) = _
      omega

theorem qesa_follow {m k e : Nat} {cd : Codec G} {ro : Hash} {p : Inner.Proof F} {log : List Event} {tr' : Transcript}
    {Gs Hs : List G} {Q : G} {Ms : Fin k → Matrix (Fin (m + 1)) (Fin (m + 1)) F} {b : Bool} (hq : m + 3 = 2 ^ e)
    (hG : Gs.length = m + 3) (hH : Hs.length = m + 3) (hk : k ≠ 0)
    (h : p.verify ⟨cd, ro⟩ ⟨log⟩ Gs Hs Q ⟨List.ofFn fun i => rows (Ms i)⟩ = .ok (b, tr'))
    (hr : p.alm_zk.NoZK.L_vec.length ≤ p.alm_zk.NoZK.R_vec.length) :
    (qesaFollow cd log Gs Hs Q Ms p).run id ro = tr'.log ∧ chals tr'.log = chals log + (e + 5) ∧ Ends tr'.log := by
  obtain ⟨k, rfl⟩ := Nat.exists_eq_succ_of_ne_zero hk
  obtain ⟨hm, -, -, ⟨C', h1⟩, ⟨C'', h2⟩⟩ := verify_shapes _ _ _ _ _ _ _ _ h
  obtain ⟨g0, Gs0, hGs⟩ : ∃ g0 Gs0, Gs = g0 :: Gs0 := by
    cases Gs with
    | nil => simp at hG
    | cons g Gs => exact ⟨g, Gs, rfl⟩
  rw [Inner.verify_eq hm _ _ _ _ _ Q Ms C' C'' (cd.compress_decompress _ _ h1).symm
    (cd.compress_decompress _ _ h2).symm g0 Gs0 hGs hG hH] at h
  simp only [show m + 1 + 2 = 2 ^ e from hq] at h
  obtain ⟨a1, a2, a3⟩ := alm_follow h hr
  refine ⟨?_, ?_, a3⟩
  · rw [← a1]
    have e1 : cd.decompress p.c_prime_w = some C' := h1
    have e2 : cd.decompress p.c_prime_prime_w = some C'' := h2
    simp only [qesaFollow, Algo.run, e1, e2, Option.getD_some, List.map_id, qesaPoint, hGs, List.headD_cons,
      show m + 1 + 2 = 2 ^ e from hq]
    rfl
  · rw [a2, chals_append]
    have : ∀ c P P', chals (qesaHead c P P') = 3 := fun _ _ _ => rfl
    rw [this]
    show chals log + 3 + (e + 2) = _
    omega

/-- The algorithm above computes the history that the verifier leaves, which has as many new challenges as it should have
and ends with a challenge. -/
theorem slot_follow {fuel : Nat} (cd : Codec G) (gens : Generators G) (s : Slot) (hs : s.Fits fuel gens) (ro : Hash)
    (log : List Event) (st : s.Statement F G) (p : s.Proof F G) (b : Bool) (tr' : Transcript)
    (h : s.verify ⟨cd, ro⟩ fuel gens ⟨log⟩ st p = .ok (b, tr')) (hr : s.Regular p) :
    (slotFollow cd gens log s st p).run id ro = tr'.log ∧ chals tr'.log = chals log + s.challenges ∧ Ends tr'.log := by
  cases s with
  | ipa k =>
    obtain ⟨e, hk⟩ := ipa_follow h
    refine ⟨e.symm, ?_, ?_⟩
    · rw [e, ipaEnd_chals _ _ _ hr, hk]; rfl
    · rw [e]; exact ipaEnd_ends _ _ _
  | alm k => exact alm_follow h hr
  | qesa m e k => exact qesa_follow hs.1 hs.2.1 hs.2.2 (Nat.succ_ne_zero k) h hr
  | copy m e N =>
    obtain ⟨hq, hG, hH, hn, hN⟩ := hs
    have h : Copy.Proof.verify ⟨cd, ro⟩ p ⟨log⟩ (gens.G e) (gens.H e) gens.Q ⟨(CopyClaim.Us st).map rows⟩ st.map st.Cs =
      .ok (b, tr') := h
    have hwf := Copy.computeMapping_wf hn st.size (st.count.trans hN) st.mapping
    cases hd : cd.decompress (Copy.Proof.C_w p) with
    | none =>
      exfalso
      unfold Copy.Proof.verify at h
      simp only [challengeScalar_eq] at h
      have hC0 : 0 < st.Cs.length := by
        have := hwf.pos
        rw [st.commitments]
        rcases Nat.eq_zero_or_pos st.sets.length with h0 | h0
        · rw [List.length_eq_zero_iff.1 h0] at this; simp at this
        · exact h0
      rw [Inner.vandemondeChallenge_eq _ hC0] at h
      simp only [ok_bind, hd, unwrapR] at h
      cases h
    | some C_w =>
      have e' := C37_verifier ⟨cd, ro⟩ p ⟨log⟩ (gens.G e) (gens.H e) gens.Q st.Us st.sets st.map st.Cs C_w hG (hG ▸ hn)
        st.size (st.count.trans hN) (hG ▸ st.mapping) st.small st.commitments hd
      simp only at e'
      rw [e', map_rows_eq] at h
      obtain ⟨a1, a2, a3⟩ := qesa_follow hq hG hH (copySystem_ne_nil hwf st.Us _) h hr
      refine ⟨?_, ?_, a3⟩
      · rw [← a1]
        simp only [slotFollow, copyFollow, Algo.run]
        have hα : ((leNat (ro (List.map id (log ++ [Event.msg "c_w" (Copy.Proof.C_w p), .chal "alpha" 64]))).toList : Nat) : F) =
            copyAlpha F ro log (Copy.Proof.C_w p) := by
          rw [List.map_id]; rfl
        rw [hα, hd]
        rfl
      · rw [a2, chals_append]
        have : ∀ c, chals [.msg "c_w" c, .chal "alpha" 64] = 1 := fun _ => rfl
        rw [this]
        show _ = _ + (e + 6)
        omega
  | lmpa q =>
    obtain ⟨hG, hf, h0⟩ := hs
    have h' := h
    have e := C46_lmpa_verify_log ⟨cd, ro⟩ p q fuel ⟨log⟩ tr' _ _ _ st.width hG hf b h
    simp only [Slot.verify] at h'
    rw [Lmpa.verify_eq _ p q fuel _ _ _ _ hf hG st.width] at h'
    simp only at h'
    split at h'
    · rename_i hc
      refine ⟨by rw [e]; rfl, ?_, ?_⟩
      · rw [e]
        show chals (log ++ linRounds cd q p) = _
        rw [chals_append, linRounds_chals cd q p hc.1 hc.2.1]; rfl
      · rw [e]
        exact linRounds_ends cd q p log (.inr h0) hc.1 hc.2.1
    · exact absurd h' (by simp)
  | simple q =>
    obtain ⟨hG, hf⟩ := hs
    obtain ⟨p, a⟩ := p
    have h : Lmpa.SimpleZK.verify ⟨cd, ro⟩ fuel ⟨p, a⟩ ⟨log⟩ (st.row :: st.rows) (gens.G q) (2 ^ q) (st.t :: st.ts) =
      .ok (b, tr') := h
    rw [simple_verify_eq] at h
    have e := C46_lmpa_verify_log ⟨cd, ro⟩ p q fuel _ tr' _ _ _ st.width hG hf b h
    rw [Lmpa.verify_eq _ p q fuel _ _ _ _ hf hG st.width] at h
    simp only at h
    split at h
    · rename_i hc
      refine ⟨by rw [e]; rfl, ?_, ?_⟩
      · rw [e]
        show chals (log ++ (a.map fun P => .msg "a" (cd.compress P)) ++ [.chal "beta" 64] ++ linRounds cd q p) = _
        rw [chals_append, chals_append, chals_append, chals_msgs, linRounds_chals cd q p hc.1 hc.2.1]
        show _ = chals log + (q + 1)
        have : chals [Event.chal "beta" 64] = 1 := rfl
        omega
      · rw [e]
        exact linRounds_ends cd q p _ (.inl ⟨_, _, _, rfl⟩) hc.1 hc.2.1
    · exact absurd h (by simp)

theorem proper_fits {fuel : Nat} {gens : Generators G} (s : Slot) (hs : s.Proper F fuel gens) : s.Fits fuel gens := by
  cases s with
  | ipa k => exact ⟨hs.1, hs.2.1⟩
  | alm k => exact ⟨hs.1, hs.2.1⟩
  | qesa m e k => exact ⟨hs.1, hs.2.1, hs.2.2.1⟩
  | copy m e N => exact ⟨hs.1, hs.2.1, hs.2.2.1, hs.2.2.2.2⟩
  | lmpa q => exact hs
  | simple q => exact hs

theorem challenges_pos {fuel : Nat} {gens : Generators G} (s : Slot) (hs : s.Fits fuel gens) : 0 < s.challenges := by
  cases s with
  | lmpa q => exact hs.2.2
  | _ => simp [Slot.challenges]

/-! ### Sessions -/

/-- Sessions whose start is chosen by the prover among histories that are not prefixes of each other. -/
theorem slots_sound {B fuel : Nat} (cd : Codec G) (gens : Generators G)
    (enc : (s : Slot) → s.Statement F G → List Event)
    (hB : ∀ c : F, Nat.card {v : Vector UInt8 64 // ((leNat v.toList : Nat) : F) = c} ≤ B) :
    ∀ (m : Nat) (slots : Fin m → Slot), (∀ i, (slots i).Proper F fuel gens) →
    (∀ i, ∀ st st' r r', enc (slots i) st ++ r = enc (slots i) st' ++ r' → st = st') →
    (∀ i st, chals (enc (slots i) st) = 0) →
    ∀ (Λ : Type) (start : Λ → List Event) (c T : Nat), (∀ a a' r r', start a ++ r = start a' ++ r' → a = a') →
    (∀ a, chals (start a) = c) →
    ∀ A : Algo Event (Λ × ((i : Fin m) → (slots i).Statement F G × (slots i).Proof F G)), A.AtMost T →
    ∃ D0 : Finset (List Event), ∀ D, D0 ⊆ D → ∀ ro, chance ro D (fun ro =>
      Fooled ⟨cd, ro⟩ fuel gens enc m slots (A.run id ro).2 ⟨start (A.run id ro).1⟩) ≤ slotsError B m slots T
  | 0, slots, _, _, _, Λ, start, c, T, _, _, A, _ => ⟨∅, fun D _ ro => by
      simp [Fooled, slotsError, chance, countHashes]⟩
  | m + 1, slots, hp, henc, hch, Λ, start, c, T, hst, hc, A, hT => by
    classical
    let d := (slots 0).challenges
    have hd : 0 < d := challenges_pos _ (proper_fits _ (hp 0))
    -- the first proof
    let A0 : Algo Event ((Λ × (slots 0).Statement F G) × (slots 0).Proof F G) :=
      A.andThen fun y => .done ((y.1, (y.2 0).1), (y.2 0).2)
    have hA0 : A0.AtMost T := Algo.andThen_atMost (fun y => .done ((y.1, (y.2 0).1), (y.2 0).2)) 0 (fun _ => trivial) A T hT
    obtain ⟨D1, h1⟩ := slot_sound (c := c) (fuel := fuel) cd gens (slots 0) (hp 0) (fun y : Λ × _ => y.2)
      (fun y => start y.1 ++ enc (slots 0) y.2) (by
        rintro ⟨a, st⟩ ⟨a', st'⟩ r r' h
        simp only [List.append_assoc] at h
        obtain rfl := hst _ _ _ _ h
        rw [henc 0 st st' r r' (List.append_cancel_left h)])
      (fun y => by rw [chals_append, hc, hch 0]; rfl) hB A0 hA0
    -- the others
    let Λ' := {l : List Event // chals l = c + d ∧ Ends l}
    let dflt : Λ' := ⟨List.replicate (c + d) (.chal "" 0), by
      have : ∀ n, chals (List.replicate n (.chal "" 0)) = n := by
        intro n
        induction n with
        | zero => rfl
        | succ n ih => rw [List.replicate_succ, ← List.singleton_append, chals_append, ih, Nat.add_comm]; rfl
      exact this _, ⟨List.replicate (c + d - 1) (.chal "" 0), "", 0, by
        rw [← List.replicate_succ', Nat.sub_add_cancel (by omega)]⟩⟩
    let A' : Algo Event (Λ' × ((i : Fin m) → (slots i.succ).Statement F G × (slots i.succ).Proof F G)) :=
      A.andThen fun y => (slotFollow cd gens (start y.1 ++ enc (slots 0) (y.2 0).1) (slots 0) (y.2 0).1 (y.2 0).2).andThen
        fun l => .done (if h : chals l = c + d ∧ Ends l then ⟨l, h⟩ else dflt, fun i => y.2 i.succ)
    have hA' : A'.AtMost (T + d) := Algo.andThen_atMost _ d (fun y => by
      have := Algo.andThen_atMost (fun l => Algo.done (if h : chals l = c + d ∧ Ends l then (⟨l, h⟩ : Λ') else dflt,
        fun i : Fin m => y.2 i.succ)) 0 (fun _ => trivial)
        (slotFollow cd gens (start y.1 ++ enc (slots 0) (y.2 0).1) (slots 0) (y.2 0).1 (y.2 0).2) d
        (slotFollow_atMost cd gens _ _ _ _)
      exact this) A T hT
    obtain ⟨D2, h2⟩ := slots_sound cd gens enc hB m (fun i => slots i.succ) (fun i => hp i.succ) (fun i => henc i.succ)
      (fun i => hch i.succ) Λ' (fun l => l.1) (c + d) (T + d)
      (fun a a' r r' h => Subtype.ext (a.2.2.cancel a'.2.2 (a.2.1.trans a'.2.1.symm) h)) (fun a => a.2.1) A' hA'
    refine ⟨D1 ∪ D2, fun D hD ro => ?_⟩
    have b1 := h1 D (Finset.union_subset_left hD) ro
    have b2 := h2 D (Finset.union_subset_right hD) ro
    refine (chance_mono fun ro h => ?_).trans ((chance_or ro D _ _).trans (add_le_add b1 b2))
    rw [Fooled] at h
    rcases h with h | ⟨b, tr', hv, hr, hf⟩
    · refine .inl ?_
      simp only [A0, Algo.run_andThen, Algo.run]
      exact h
    · refine .inr ?_
      obtain ⟨e1, e2, e3⟩ := slot_follow cd gens (slots 0) (proper_fits _ (hp 0)) ro _ _ _ b tr' hv hr
      rw [chals_append, hc, hch 0, Nat.add_zero] at e2
      simp only [A', Algo.run_andThen, Algo.run]
      rw [e1, dif_pos ⟨e2, e3⟩]
      exact hf

/-- C109: soundness of sessions. A prover with at most `T` queries outputs statements and proofs for a session whose kinds
of proofs were fixed in advance; before each proof the encoding of its statement is hashed, which contains no challenges
and of which no other encoding is a prefix. The probability that the verifier accepts some proof that it should not
accept is at most the sum of the bounds for the proofs, where the queries of the verifier are counted as well. -/
theorem C109_session_soundness {B fuel m T : Nat} (cd : Codec G) (gens : Generators G)
    (enc : (s : Slot) → s.Statement F G → List Event)
    (hB : ∀ c : F, Nat.card {v : Vector UInt8 64 // ((leNat v.toList : Nat) : F) = c} ≤ B)
    (slots : Fin m → Slot) (hp : ∀ i, (slots i).Proper F fuel gens)
    (henc : ∀ i, ∀ st st' r r', enc (slots i) st ++ r = enc (slots i) st' ++ r' → st = st')
    (hch : ∀ i st lab n, .chal lab n ∉ enc (slots i) st) (log : List Event)
    (A : Algo Event ((i : Fin m) → (slots i).Statement F G × (slots i).Proof F G)) (hT : A.AtMost T) :
    ∃ D0 : Finset (List Event), ∀ D, D0 ⊆ D → ∀ ro, chance ro D (fun ro =>
      Fooled ⟨cd, ro⟩ fuel gens enc m slots (A.run id ro) ⟨log⟩) ≤ slotsError B m slots T := by
  have hch' : ∀ i st, chals (enc (slots i) st) = 0 := by
    intro i st
    refine List.countP_eq_zero.2 fun e he => ?_
    cases e with
    | msg => simp
    | chal lab n => exact absurd he (hch i st lab n)
  obtain ⟨D0, h⟩ := slots_sound (fuel := fuel) cd gens enc hB m slots hp henc hch' Unit (fun _ => log) (chals log) T
    (fun _ _ _ _ _ => rfl) (fun _ => rfl) (A.andThen fun y => .done ((), y))
    (Algo.andThen_atMost (fun y => .done ((), y)) 0 (fun _ => trivial) A T hT)
  refine ⟨D0, fun D hD ro => ?_⟩
  have := h D hD ro
  simpa only [Algo.run_andThen, Algo.run] using this

/-! ### Examples -/
section
open Toy
set_option exponentiation.threshold 600

/-- Claims of inner-product arguments are hashed; other statements do not occur. -/
def encClaims (cd : Codec (Fin 9 → K)) : (s : Slot) → s.Statement K (Fin 9 → K) → List Event
  | .ipa _, st | .alm _, st => claimBytes cd st
  | .qesa .., _ | .copy .., _ | .lmpa _, _ | .simple _, _ => []

theorem three_slots (B : Nat) : slotsError B 3 ![.ipa 2, .ipa 2, .alm 2] 2 = ((75 * B : Nat) : ℚ) / 2 ^ 512 := by
  show (((2 + 3) * (3 * B) : Nat) : ℚ) / 2 ^ 512 + ((((2 + 3 + 3) * (3 * B) : Nat) : ℚ) / 2 ^ 512 +
    ((((2 + 3 + 3 + 4) * (3 * B) : Nat) : ℚ) / 2 ^ 512 + 0)) = _
  generalize (2 : ℚ) ^ 512 = N
  rw [add_zero, ← add_div, ← add_div, ← Nat.cast_add, ← Nat.cast_add]
  congr 2
  ring

/-- C109: a session of two inner-product arguments and an AlmZK argument with four generators each. A prover that chooses
the three claims and makes two queries convinces the verifier of a false claim with probability at most
`75 (1/101 + 2⁻⁵¹²)`. -/
example (cd : Codec (Fin 9 → K)) (ro : Hash) (log : List Event)
    (A : Algo Event ((i : Fin 3) → (![Slot.ipa 2, .ipa 2, .alm 2] i).Statement K (Fin 9 → K) ×
      (![Slot.ipa 2, .ipa 2, .alm 2] i).Proof K (Fin 9 → K))) (hT : A.AtMost 2) :
    ∃ D, chance ro D (fun ro => Fooled ⟨cd, ro⟩ 0 ⟨fun _ => unitG, fun _ => unitH, unitQ⟩ (encClaims cd) 3
      ![.ipa 2, .ipa 2, .alm 2] (A.run id ro) ⟨log⟩) ≤ 75 * (1 / 101 + 1 / 2 ^ 512) := by
  have hu : unitG.length = 2 ^ 2 ∧ unitH.length = 2 ^ 2 ∧ ∀ r : List K × List K × K, ¬ IsRelation unitG unitH unitQ r :=
    ⟨rfl, rfl, unit_no_relation⟩
  have he : ∀ (st st' : (Fin 9 → K) × K) (r r' : List Event),
      claimBytes cd st ++ r = claimBytes cd st' ++ r' → st = st' := fun st st' r r' h =>
    claimBytes_injective cd (List.append_inj_left h rfl)
  have hn : ∀ (st : (Fin 9 → K) × K) lab n, Event.chal lab n ∉ claimBytes cd st := by
    intro st lab n; simp [claimBytes]
  obtain ⟨D, h⟩ := C109_session_soundness (fuel := 0) cd ⟨fun _ => unitG, fun _ => unitH, unitQ⟩ (encClaims cd)
    (C67_scalars 101) ![.ipa 2, .ipa 2, .alm 2]
    (fun i => by match i with | 0 => exact hu | 1 => exact hu | 2 => exact hu)
    (fun i => by match i with | 0 => exact he | 1 => exact he | 2 => exact he)
    (fun i => by match i with | 0 => exact hn | 1 => exact hn | 2 => exact hn) log A hT
  refine ⟨D, (h D subset_rfl ro).trans ?_⟩
  have e := bound_aux 75 101 (2 ^ 512) (by positivity)
  rw [three_slots]
  exact_mod_cast e

/-- C109: the hypothesis that the statements are hashed is needed. Otherwise the late prover of C96 fools the verifier with
one query, for every hash function with `alpha ≠ 0`. -/
example (cd : Codec (Fin 3 → K)) (ro : Hash) (hα : ipaAlpha K ro [] 1 ≠ 0) :
    let A := lateProver (F := K) [] ![1, 0, 0] ![0, 1, 0] ![0, 0, 1]
    A.AtMost 1 ∧ Fooled ⟨cd, ro⟩ 0 ⟨fun _ => [![1, 0, 0]], fun _ => [![0, 1, 0]], ![0, 0, 1]⟩ (fun _ _ => []) 1
      (fun _ => .ipa 0) (fun _ => A.run id ro) ⟨[]⟩ := by
  have h := C96_ipa_unhashed (F := K) cd ![1, 0, 0] ![0, 1, 0] ![0, 0, 1] (by
    rintro ⟨u, v, c⟩ ⟨h1, h2, h4, h3⟩
    match u, h1, v, h2 with
    | [a], _, [b], _ =>
      have e0 := congrFun h3 0
      have e1 := congrFun h3 1
      have e2 := congrFun h3 2
      simp [dot_cons] at e0 e1 e2
      simp [e0, e1, e2] at h4) []
  exact ⟨h.1, .inl (h.2 ro hα)⟩

end
end Qesa.Props
