import Verif.SpecBreak
import Verif.Props.SessionExtract
import Verif.Props.Reduction
/-
C114: computational soundness of sessions. A prover that shows a false opening of the commitments of an accepted proof leads to
a relation between the generators.
-/
namespace Qesa.Props
open Qesa Spec Ipa Lmpa
set_option linter.unusedSectionVars false
set_option exponentiation.threshold 600
variable {F G : Type} [Field F] [DecidableEq F] [AddCommGroup G] [Module F G] [DecidableEq G]

/-- The openings of QESA and Copy. -/
theorem qesa_opening {m : Nat} {cd : Codec G} {Gs Hs : List G} (hG : Gs.length = m + 3) (hH : Hs.length = m + 3) (Q : G)
    {x : F} (hx : x ≠ 0) {M' : Matrix (Fin (m + 1)) (Fin (m + 1)) F} {o : List F × List F} {C' C'' : G}
    {c' c'' : Comp} (hc' : c' = cd.compress C') (hc'' : c'' = cd.compress C'')
    (ho : ∃ (w : Fin (m + 1) → F) (r0 r1 : F) (D' D'' : G), o.1 = List.ofFn w ++ [r0, r1] ∧ o.2.length = m + 3 ∧
      cd.decompress c' = some D' ∧ cd.decompress c'' = some D'' ∧
      D' + D'' = dot o.1 Gs + dot o.2 Hs ∧ quad M' (shifted x w) ≠ 0) {w v : List F}
    (hw : ∃ (u : Fin (m + 1) → F) (r0 r1 : F),
      w = List.ofFn u ++ [r0, r1] ∧ v = List.ofFn (M'.mulVec u) ++ [-r1, r0] ∧ quad M' u = 0 ∧
      C' + C'' = dot w (rescaled (x ^ 2) Gs) + (1 - (x ^ 2)⁻¹) • Gs.headD 0 + dot v Hs) :
    ∃ rel, difference (unscaled x w, v) o = some rel ∧ IsRelation Gs Hs Q rel := by
  obtain ⟨w', q0, q1, D', D'', o1, o2, d1, d2, hD, hne⟩ := ho
  obtain ⟨u, r0, r1, rfl, rfl, hz, hC⟩ := hw
  rw [hc', cd.decompress_compress, Option.some.injEq] at d1
  rw [hc'', cd.decompress_compress, Option.some.injEq] at d2
  subst d1 d2
  refine two_openings Gs Hs Q _ _ (fun e => hne ?_) (by cases hu : List.ofFn u ++ [r0, r1] with
    | nil => simp at hu
    | cons a l =>
      have := congrArg List.length hu
      simp [unscaled] at this ⊢
      omega) (by simp [hH]) (by simp [o1, hG]) (by simp [o2, hH]) ?_
  · have e1 := congrArg Prod.fst e
    dsimp only at e1
    rw [o1] at e1
    rw [← unscaled_inj hx e1]
    exact hz
  · rw [← hD, hC]
    dsimp only
    rw [dot_unscaled u r0 r1 hG]

/-- QESA. -/
theorem qesa_broken {fuel m e k : Nat} (cd : Codec G) (gens : Generators G) (S : Hash → Prop)
    (hs : (Slot.qesa m e k).Fits fuel gens)
    (h : List Event) (run : Hash → (Slot.qesa m e k).Statement F G × (Slot.qesa m e k).Proof F G) (o : List F × List F)
    (ro : Hash) (ho : (Slot.qesa m e k).FalseOpening cd gens ro h (run ro).1 (run ro).2 o)
    (he : (Slot.qesa m e k).ExplainedBy cd fuel gens S h run ro) :
    (Slot.qesa m e k).BrokenBy cd fuel gens S h run o ro := by
  rw [Slot.FalseOpening] at ho
  rw [Slot.ExplainedBy] at he
  rw [Slot.BrokenBy]
  unfold GivesRelation
  dsimp only at ho he ⊢
  obtain ⟨hx, ho⟩ := ho
  obtain ⟨C', C'', s, b, β, α, T, c1, c2, h1, h2⟩ := he hx
  refine ⟨s, b, β, α, T, h1, ?_⟩
  split at h2
  · rename_i w v he
    rw [he]
    exact qesa_opening hs.2.1 hs.2.2 _ hx c1 c2 ho h2
  · rename_i r he
    rw [he]
    exact h2

/-- Copy. -/
theorem copy_broken {fuel m e N : Nat} (cd : Codec G) (gens : Generators G) (S : Hash → Prop)
    (hs : (Slot.copy m e N).Fits fuel gens)
    (h : List Event) (run : Hash → (Slot.copy m e N).Statement F G × (Slot.copy m e N).Proof F G) (o : List F × List F)
    (ro : Hash) (ho : (Slot.copy m e N).FalseOpening cd gens ro h (run ro).1 (run ro).2 o)
    (he : (Slot.copy m e N).ExplainedBy cd fuel gens S h run ro) :
    (Slot.copy m e N).BrokenBy cd fuel gens S h run o ro := by
  rw [Slot.FalseOpening] at ho
  rw [Slot.ExplainedBy] at he
  rw [Slot.BrokenBy, GivesRelation]
  dsimp only at ho he ⊢
  obtain ⟨hx, ho⟩ := ho
  obtain ⟨C_w, C'', s, b, β, α, T, c1, c2, c3, h1, h2⟩ := he hx
  refine ⟨s, b, β, α, T, fun i j l a c hc => ?_, ?_⟩
  · obtain ⟨ro', e1, e2, e3, e4, e5, e6, e7, e8⟩ := h1 i j l a c hc
    refine ⟨ro', ⟨e1, e2, e3⟩, ?_, e4, e5, e6, e7, e8⟩
    simp only [copyInner, e2, e3]
  · split at h2
    · rename_i w v he
      rw [he]
      exact qesa_opening hs.2.1 hs.2.2.1 _ hx c3 c2 ho h2
    · rename_i r he
      rw [he]
      exact h2

/-- A proof that is explained and comes with a false opening gives a relation. -/
theorem broken {fuel : Nat} (cd : Codec G) (gens : Generators G) (S : Hash → Prop) (s : Slot) (hs : s.Fits fuel gens)
    (h : List Event) (run : Hash → s.Statement F G × s.Proof F G) (o : List F × List F) (ro : Hash)
    (ho : s.FalseOpening cd gens ro h (run ro).1 (run ro).2 o) (he : s.ExplainedBy cd fuel gens S h run ro) :
    s.BrokenBy cd fuel gens S h run o ro := by
  cases s with
  | lmpa => exact ho.elim
  | simple => exact ho.elim
  | ipa k =>
    obtain ⟨α, T, h1, h2⟩ := he
    obtain ⟨l1, l2, h3, h4⟩ := ho
    refine ⟨α, T, h1, ?_⟩
    split at h2
    · rename_i a b he
      rw [he]
      obtain ⟨g1, g2, g3, g4⟩ := h2
      refine two_openings _ _ _ _ _ (fun e => h4 ?_) (g1.trans hs.1.symm) (g2.trans hs.2.symm) (l1.trans hs.1.symm)
        (l2.trans hs.2.symm) ?_
      · rw [← e]; exact g4
      · rw [h3] at g3
        exact (add_right_cancel g3).symm
    · rename_i r he
      rw [he]
      exact h2
  | alm k =>
    obtain ⟨β, α, T, h1, h2⟩ := he
    obtain ⟨l1, l2, h3, h4⟩ := ho
    refine ⟨β, α, T, h1, ?_⟩
    split at h2
    · rename_i a b he
      rw [he]
      obtain ⟨g1, g2, g3, g4⟩ := h2
      refine two_openings _ _ _ _ _ (fun e => h4 ?_) (g1.trans hs.1.symm) (g2.trans hs.2.symm) (l1.trans hs.1.symm)
        (l2.trans hs.2.symm) ?_
      · rw [← e]; exact g4
      · rw [h3] at g3
        exact g3.symm
    · rename_i r he
      rw [he]
      exact h2
  | qesa m e k => exact qesa_broken cd gens S hs h run o ro ho he
  | copy m e N => exact copy_broken cd gens S hs h run o ro ho he

theorem falseOpening_nonzero {cd : Codec G} {gens : Generators G} {ro : Hash} {h : List Event} (s : Slot)
    {st : s.Statement F G} {p : s.Proof F G} {o : List F × List F} (ho : s.FalseOpening cd gens ro h st p o) :
    s.Nonzero cd ro h st p := by
  cases s with
  | qesa | copy => exact ho.1
  | ipa | alm | lmpa | simple => trivial

/-- C114: conditional extraction from sessions. This is C112 for provers that output something else along with the session, of
type `O`, and for any condition `ok` on what they output: if the condition holds in the run with the given hash function, the
program finds the runs that explain proof `i`, but with the probability that is lost in C112. -/
theorem C114_session_conditional {O : Type} {B fuel m : Nat} (cd : Codec G) (gens : Generators G)
    (enc : (s : Slot) → s.Statement F G → List Event)
    (hB : ∀ c : F, Nat.card {v : Vector UInt8 64 // ((leNat v.toList : Nat) : F) = c} ≤ B)
    (slots : Fin m → Slot) (hp : ∀ i, (slots i).Fits fuel gens)
    (henc : ∀ i, ∀ st st' r r', enc (slots i) st ++ r = enc (slots i) st' ++ r' → st = st')
    (hch : ∀ i st lab n, .chal lab n ∉ enc (slots i) st) (log : List Event) (i : Fin m) (r : Nat)
    (ok : Hash → List Event → ((i : Fin m) → (slots i).Statement F G × (slots i).Proof F G) × O → Prop) :
    let X := ((i : Fin m) → (slots i).Statement F G × (slots i).Proof F G) × O
    ∃ E : Hash → Rewinder X (Option (List (Hash × X))), ∀ (T : Nat) (A : Algo Event X), A.AtMost T →
    ∃ D0 : Finset (List Event), ∀ D, D0 ⊆ D → ∀ ro,
      let P := fun ro => A.run id ro
      let q := T + (challengesBefore m slots i + (slots i).challenges)
      mean ro D (fun ro => (E ro).runs P) ≤ 1 + (q : Nat) * (((slots i).treeSize : ℚ) - 1) ∧
      chance ro D (fun ro => ∃ h, Reached cd fuel gens enc ro m slots i (P ro).1 ⟨log⟩ h ∧
          (∃ tr', (slots i).verify ⟨cd, ro⟩ fuel gens ⟨h⟩ ((P ro).1 i).1 ((P ro).1 i).2 = .ok (true, tr')) ∧
          (slots i).Nonzero cd ro h ((P ro).1 i).1 ((P ro).1 i).2 ∧ ok ro h (P ro)) ≤
        mean ro D (fun ro => (E ro).chance P fun o => ∃ runs, o = some runs ∧ runs.length ≤ (slots i).treeSize ∧
          (ro, P ro) ∈ runs ∧ ∃ h, Reached cd fuel gens enc ro m slots i (P ro).1 ⟨log⟩ h ∧ ok ro h (P ro) ∧
            (slots i).ExplainedBy cd fuel gens (fun ro' => (ro', P ro') ∈ runs) h (fun ro' => (P ro').1 i) ro) +
        (q : Nat) * (slots i).loss B r := by
  intro X
  have hch' : ∀ i st, chals (enc (slots i) st) = 0 := by
    intro i st
    refine List.countP_eq_zero.2 fun e he => ?_
    cases e with
    | msg => simp
    | chal lab n => exact absurd he (hch i st lab n)
  obtain ⟨σ, st, e, W, h1, h2, h3⟩ := reach_proof cd gens enc m slots i hp henc hch' Unit (fun _ => log) (chals log)
    (fun _ _ _ _ _ => rfl) (fun _ => rfl)
  obtain ⟨E, hE⟩ := slot_extractable (r := r) cd gens e h1 hB
    (fun ro (a : X) => ∃ h, Reached cd fuel gens enc ro m slots i a.1 ⟨log⟩ h ∧ ok ro h a) (slots i) (hp i) st
    (fun a => W ((), a.1)) (fun a => h2 _)
  refine ⟨E, fun T A hT => ?_⟩
  obtain ⟨D0, h0⟩ := hE T A hT
  refine ⟨D0, fun D hD ro => ?_⟩
  intro P q
  obtain ⟨g1, g2⟩ := h0 D hD ro
  have hy : ∀ ro, (st ((W ((), (P ro).1)).run id ro).1, ((W ((), (P ro).1)).run id ro).2) = (P ro).1 i := fun ro =>
    Prod.ext (h3 ro ((), (P ro).1)).1 (h3 ro ((), (P ro).1)).2.1
  refine ⟨g1, (chance_mono fun ro h => ?_).trans (g2.trans (add_le_add (found_mono fun ro o => ?_) (le_refl _)))⟩
  · obtain ⟨h, hr, hv, hn, hok⟩ := h
    refine ⟨⟨h, hr, hok⟩, ?_⟩
    have e1 := (h3 ro ((), (P ro).1)).2.2 h hr
    have e2 := (h3 ro ((), (P ro).1)).1
    have e3 := (h3 ro ((), (P ro).1)).2.1
    simp only
    rw [e1, e2, e3]
    exact ⟨hv, hn⟩
  · rintro ⟨runs, r1, r2, ⟨⟨h', hr, hok⟩, hm⟩, r3⟩
    refine ⟨runs, r1, r2, hm, h', hr, hok, ?_⟩
    have e1 := (h3 ro ((), (P ro).1)).2.2 h' hr
    rw [← e1, show (fun ro' => (P ro').1 i) = _ from (funext hy).symm]
    exact r3

/-- C114: computational soundness of sessions, in any group. The prover shows an opening together with the session. The
probability that proof `i` is accepted although the opening shows that its statement is false (for QESA and Copy: that the
equation selected by `x` is violated) is at most the probability that a program finds runs of the prover that give a relation
between the generators together with the opening, plus the probability that is lost in C112. The program is the same for all
provers, and it runs the prover no more often on average than in C112. -/
theorem C114_session_reduction {B fuel m : Nat} (cd : Codec G) (gens : Generators G)
    (enc : (s : Slot) → s.Statement F G → List Event)
    (hB : ∀ c : F, Nat.card {v : Vector UInt8 64 // ((leNat v.toList : Nat) : F) = c} ≤ B)
    (slots : Fin m → Slot) (hp : ∀ i, (slots i).Fits fuel gens)
    (henc : ∀ i, ∀ st st' r r', enc (slots i) st ++ r = enc (slots i) st' ++ r' → st = st')
    (hch : ∀ i st lab n, .chal lab n ∉ enc (slots i) st) (log : List Event) (i : Fin m) (r : Nat) :
    let X := ((i : Fin m) → (slots i).Statement F G × (slots i).Proof F G) × List F × List F
    ∃ E : Hash → Rewinder X (Option (List (Hash × X))), ∀ (T : Nat) (A : Algo Event X), A.AtMost T →
    ∃ D0 : Finset (List Event), ∀ D, D0 ⊆ D → ∀ ro,
      let P := fun ro => A.run id ro
      let q := T + (challengesBefore m slots i + (slots i).challenges)
      mean ro D (fun ro => (E ro).runs P) ≤ 1 + (q : Nat) * (((slots i).treeSize : ℚ) - 1) ∧
      chance ro D (fun ro => ∃ h, Reached cd fuel gens enc ro m slots i (P ro).1 ⟨log⟩ h ∧
          (∃ tr', (slots i).verify ⟨cd, ro⟩ fuel gens ⟨h⟩ ((P ro).1 i).1 ((P ro).1 i).2 = .ok (true, tr')) ∧
          (slots i).FalseOpening cd gens ro h ((P ro).1 i).1 ((P ro).1 i).2 (P ro).2) ≤
        mean ro D (fun ro => (E ro).chance P fun o => ∃ runs, o = some runs ∧ runs.length ≤ (slots i).treeSize ∧
          (ro, P ro) ∈ runs ∧ ∃ h, Reached cd fuel gens enc ro m slots i (P ro).1 ⟨log⟩ h ∧
            (slots i).BrokenBy cd fuel gens (fun ro' => (ro', P ro') ∈ runs) h (fun ro' => (P ro').1 i) (P ro).2 ro) +
        (q : Nat) * (slots i).loss B r := by
  intro X
  obtain ⟨E, hE⟩ := C114_session_conditional (fuel := fuel) cd gens enc hB slots hp henc hch log i r
    (fun ro h (x : X) => (slots i).FalseOpening cd gens ro h (x.1 i).1 (x.1 i).2 x.2)
  refine ⟨E, fun T A hT => ?_⟩
  obtain ⟨D0, h0⟩ := hE T A hT
  refine ⟨D0, fun D hD ro => ?_⟩
  intro P q
  obtain ⟨g1, g2⟩ := h0 D hD ro
  refine ⟨g1, (chance_mono fun ro h => ?_).trans (g2.trans (add_le_add (found_mono fun ro o => ?_) (le_refl _)))⟩
  · obtain ⟨h, hr, hv, hf⟩ := h
    exact ⟨h, hr, hv, falseOpening_nonzero _ hf, hf⟩
  · rintro ⟨runs, r1, r2, hm, h, hr, hf, he⟩
    exact ⟨runs, r1, r2, hm, h, hr, broken cd gens _ _ (hp i) h _ _ ro hf he⟩

/-! ### Examples -/
section
open Toy

/-- C114 is not empty: `2·1 + 3·50 + 6·100` is a commitment to `2` and `3` with the product `6` in the group of order 101. The
honest proof is accepted, but `52` and `2` are another opening, with the product `3`. -/
example : (∃ tr', (Slot.ipa 0).verify (F := K) cx 2 primeGens ⟨[]⟩ ((752 : K), (6 : K)) (⟨[], [], 2, 3⟩ : NoZK K) =
      .ok (true, tr')) ∧
    (Slot.ipa 0).FalseOpening codec primeGens hash [] ((752 : K), (6 : K)) (⟨[], [], 2, 3⟩ : NoZK K) ([52], [2]) ∧
    difference ([2], [3]) ([52], [(2 : K)]) = some ([-50], [1], 0) ∧
    IsRelation (primeGens.G 0) (primeGens.H 0) primeGens.Q ([-50], [1], (0 : K)) := by
  refine ⟨⟨⟨[.msg "n" (u64le 1), .chal "alpha" 64]⟩, ?_⟩, ⟨rfl, rfl, by decide +kernel, by decide +kernel⟩,
    by decide +kernel, rfl, rfl, by decide +kernel, by decide +kernel⟩
  · show NoZK.verify cx (⟨[], [], 2, 3⟩ : NoZK K) ⟨[]⟩ _ _ _ _ _ _ = _
    decide +kernel

/-- C114: a session of an inner-product argument and a proof of SimpleZK in a group of prime order, with two queries. The
probability that the first proof is accepted together with a false opening is at most 19 % more than that of finding at most 4
runs that give a relation. (The field of the example has only 101 elements.) -/
example (cd : Codec K) (ro : Hash) (log : List Event) :
    let slots : Fin 2 → Slot := ![.ipa 0, .simple 1]
    let X := ((i : Fin 2) → (slots i).Statement K K × (slots i).Proof K K) × List K × List K
    ∃ (enc : (s : Slot) → s.Statement K K → List Event) (E : Hash → Rewinder X (Option (List (Hash × X)))),
    ∀ (A : Algo Event X), A.AtMost 2 → ∃ D,
      let P := fun ro => A.run id ro
      mean ro D (fun ro => (E ro).runs P) ≤ 10 ∧
      chance ro D (fun ro => ∃ h, Reached cd 2 primeGens enc ro 2 slots 0 (P ro).1 ⟨log⟩ h ∧
          (∃ tr', (slots 0).verify ⟨cd, ro⟩ 2 primeGens ⟨h⟩ ((P ro).1 0).1 ((P ro).1 0).2 = .ok (true, tr')) ∧
          (slots 0).FalseOpening cd primeGens ro h ((P ro).1 0).1 ((P ro).1 0).2 (P ro).2) ≤
        mean ro D (fun ro => (E ro).chance P fun o => ∃ runs, o = some runs ∧ runs.length ≤ 4 ∧ (ro, P ro) ∈ runs ∧
          ∃ h, Reached cd 2 primeGens enc ro 2 slots 0 (P ro).1 ⟨log⟩ h ∧
            (slots 0).BrokenBy cd 2 primeGens (fun ro' => (ro', P ro') ∈ runs) h (fun ro' => (P ro').1 0) (P ro).2 ro) +
        19 / 100 := by
  intro slots X
  obtain ⟨enc, he, hn⟩ := C111_encoding K K
  obtain ⟨E, hE⟩ := C114_session_reduction (fuel := 2) cd primeGens enc (C67_scalars 101) slots
    (fun i => by
      match i with
      | 0 => exact ⟨rfl, rfl⟩
      | 1 => exact ⟨rfl, by decide⟩)
    (fun i => he _) (fun i => hn _) log 0 999
  refine ⟨enc, E, fun A hT => ?_⟩
  obtain ⟨D, h⟩ := hE 2 A hT
  obtain ⟨h1, h2⟩ := h D subset_rfl ro
  refine ⟨D, h1.trans ?_, h2.trans (add_le_add le_rfl ?_)⟩
  · show 1 + ((2 + (0 + 1) : Nat) : ℚ) * ((4 ^ (0 + 1) : Nat) - 1) ≤ 10
    norm_num
  · show ((2 + (0 + 1) : Nat) : ℚ) * (((0 : Nat) + 1) * (3 / ((999 : Nat) + 1) +
      6 * (((2 ^ 512 / 101 + 1 : Nat) : ℚ) / 2 ^ 512))) ≤ 19 / 100
    norm_num

end
end Qesa.Props
