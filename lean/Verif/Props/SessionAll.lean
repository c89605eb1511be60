import Verif.Props.SessionLevels
/-
C116: one program that extracts from all proofs of a session.
-/
namespace Qesa.Props
open Qesa Spec Ipa Lmpa
set_option exponentiation.threshold 600
variable {F G : Type} [Field F] [DecidableEq F] [AddCommGroup G] [Module F G] [DecidableEq G]

/-! ### Several programs, one after the other -/
section
variable {α β : Type}

/-- Several programs, one after the other. -/
def inTurn : (m : Nat) → (Fin m → Rewinder α β) → Rewinder α (Fin m → β)
  | 0, _ => .done Fin.elim0
  | m + 1, E => (E 0).bind fun b => (inTurn m fun i => E i.succ).bind fun o => .done (Fin.cons b o : Fin (m + 1) → β)

theorem inTurn_runs (P : Hash → α) : ∀ (m : Nat) (E : Fin m → Rewinder α β), (inTurn m E).runs P = ∑ i, (E i).runs P
  | 0, _ => by simp [inTurn, Rewinder.runs]
  | m + 1, E => by
    rw [inTurn, Rewinder.runs_bind, Fin.sum_univ_succ]
    congr 1
    simp only [Rewinder.runs_bind, inTurn_runs P m, Rewinder.runs, Rewinder.expect_const, add_zero]

theorem inTurn_expect (P : Hash → α) (f : β → ℚ) : ∀ (m : Nat) (E : Fin m → Rewinder α β) (i : Fin m),
    (inTurn m E).expect P (fun o => f (o i)) = (E i).expect P f
  | 0, _, i => i.elim0
  | m + 1, E, i => by
    simp only [inTurn, Rewinder.expect_bind, Rewinder.expect]
    refine Fin.cases ?_ (fun j => ?_) i
    · simp only [Fin.cons_zero, Rewinder.expect_const]
    · simp only [Fin.cons_succ, inTurn_expect P f m (fun i => E i.succ) j, Rewinder.expect_const]

theorem expect_sum {ι : Type} (P : Hash → α) (s : Finset ι) (f : ι → β → ℚ) (p : Rewinder α β) :
    p.expect P (fun b => ∑ i ∈ s, f i b) = ∑ i ∈ s, p.expect P (f i) := by
  classical
  induction s using Finset.induction_on with
  | empty => simp only [Finset.sum_empty, Rewinder.expect_const]
  | insert i s hi ih => simp only [Finset.sum_insert hi, Rewinder.expect_add, ih]

/-- The probability that one of the programs misses its goal. -/
theorem inTurn_chance (P : Hash → α) (m : Nat) (E : Fin m → Rewinder α β) (A : Fin m → β → Prop) :
    (inTurn m E).chance P (fun o => ∃ i, A i (o i)) ≤ ∑ i, (E i).chance P (A i) := by
  classical
  unfold Rewinder.chance
  refine le_trans (b := (inTurn m E).expect P fun o => ∑ i, if A i (o i) then (1 : ℚ) else 0) ?_ (le_of_eq ?_)
  · refine Rewinder.expect_mono P (fun o => ?_) _
    by_cases h : ∃ i, A i (o i)
    · rw [if_pos h]
      obtain ⟨i, hi⟩ := h
      refine le_trans (le_of_eq ?_) (Finset.single_le_sum (f := fun i => if A i (o i) then (1 : ℚ) else 0)
        (fun i _ => by split_ifs <;> norm_num) (Finset.mem_univ i))
      simp [hi]
    · rw [if_neg h]
      exact Finset.sum_nonneg fun i _ => by split_ifs <;> norm_num
  · rw [expect_sum]
    refine Finset.sum_congr rfl fun i _ => ?_
    rw [inTurn_expect P (fun b => if A i b then (1 : ℚ) else 0) m E i]

/-- If the program succeeds but with probability `c` whenever `A` holds, it fails while `A` holds with probability at most
`c`. -/
theorem missed_le {ro : Hash} {D : Finset (List Event)} {E : Hash → Rewinder α β} {P : Hash → α} {A : Hash → Prop}
    {X : Hash → β → Prop} {c : ℚ} (hX : ∀ ro o, X ro o → A ro)
    (h : chance ro D A ≤ mean ro D (fun ro => (E ro).chance P (X ro)) + c) :
    mean ro D (fun ro => (E ro).chance P fun o => A ro ∧ ¬ X ro o) ≤ c := by
  classical
  rw [chance_eq_mean] at h
  have e : ∀ ro', (E ro').chance P (fun o => A ro' ∧ ¬ X ro' o) + (E ro').chance P (X ro') = if A ro' then 1 else 0 := by
    intro ro'
    unfold Rewinder.chance
    rw [← Rewinder.expect_add]
    by_cases ha : A ro'
    · rw [if_pos ha]
      refine Eq.trans ?_ (Rewinder.expect_const P 1 (E ro'))
      congr 1
      funext o
      by_cases hx : X ro' o <;> simp [ha, hx]
    · rw [if_neg ha]
      refine Eq.trans ?_ (Rewinder.expect_const P 0 (E ro'))
      congr 1
      funext o
      have hx : ¬ X ro' o := fun hx => ha (hX _ _ hx)
      simp [ha, hx]
  have e2 : mean ro D (fun ro => (E ro).chance P fun o => A ro ∧ ¬ X ro o) + mean ro D (fun ro => (E ro).chance P (X ro)) =
      mean ro D fun ro => if A ro then 1 else 0 := by
    rw [← mean_add]
    congr 1
    exact funext e
  have e3 : (mean ro D fun ro => if A ro then (1 : ℚ) else 0) ≤ mean ro D (fun ro => (E ro).chance P (X ro)) + c := by
    convert h
  linarith

end

omit [DecidableEq F] in
/-- There is only one history with which the verifier gets to proof `i`. -/
theorem reached_unique {cd : Codec G} {fuel : Nat} {gens : Generators G} {enc : (s : Slot) → s.Statement F G → List Event}
    {ro : Hash} : ∀ (m : Nat) (slots : Fin m → Slot) (i : Fin m)
    (x : (i : Fin m) → (slots i).Statement F G × (slots i).Proof F G) (tr : Transcript) (h h' : List Event),
    Reached cd fuel gens enc ro m slots i x tr h → Reached cd fuel gens enc ro m slots i x tr h' → h = h'
  | 0, _, i, _, _, _, _ => i.elim0
  | m + 1, slots, i, x, tr, h, h' => by
    refine Fin.cases ?_ (fun j => ?_) i
    · intro h1 h2
      exact Eq.trans h1 (Eq.symm h2)
    · rintro ⟨b, tr1, h1, _, h2⟩ ⟨b', tr1', h1', _, h2'⟩
      rw [h1] at h1'
      cases h1'
      exact reached_unique m (fun i => slots i.succ) j (fun i => x i.succ) tr1 h h' h2 h2'

/-- C116: one program extracts from all proofs of a session. The setting is that of C112; the prover may output something
else along with the session, of type `O`. The program is the same for all provers. It runs the prover no more often on average
than all the programs of C112 together. The probability that the verifier gets to some proof and accepts it (with `x ≠ 0` for
QESA and Copy), but the program does not return runs that explain this proof, is at most the sum of the losses in C112. -/
theorem C116_all_proofs {O : Type} {B fuel m : Nat} (cd : Codec G) (gens : Generators G)
    (enc : (s : Slot) → s.Statement F G → List Event)
    (hB : ∀ c : F, Nat.card {v : Vector UInt8 64 // ((leNat v.toList : Nat) : F) = c} ≤ B)
    (slots : Fin m → Slot) (hp : ∀ i, (slots i).Fits fuel gens)
    (henc : ∀ i, ∀ st st' r r', enc (slots i) st ++ r = enc (slots i) st' ++ r' → st = st')
    (hch : ∀ i st lab n, .chal lab n ∉ enc (slots i) st) (log : List Event) (r : Nat) :
    let X := ((i : Fin m) → (slots i).Statement F G × (slots i).Proof F G) × O
    ∃ E : Hash → Rewinder X (Fin m → Option (List (Hash × X))), ∀ (T : Nat) (A : Algo Event X), A.AtMost T →
    ∃ D0 : Finset (List Event), ∀ D, D0 ⊆ D → ∀ ro,
      let P := fun ro => A.run id ro
      let q := fun i => T + (challengesBefore m slots i + (slots i).challenges)
      mean ro D (fun ro => (E ro).runs P) ≤ ∑ i, (1 + (q i : Nat) * (((slots i).treeSize : ℚ) - 1)) ∧
      mean ro D (fun ro => (E ro).chance P fun o => ∃ i h, Reached cd fuel gens enc ro m slots i (P ro).1 ⟨log⟩ h ∧
          (∃ tr', (slots i).verify ⟨cd, ro⟩ fuel gens ⟨h⟩ ((P ro).1 i).1 ((P ro).1 i).2 = .ok (true, tr')) ∧
          (slots i).Nonzero cd ro h ((P ro).1 i).1 ((P ro).1 i).2 ∧
          ¬ ∃ runs, o i = some runs ∧ runs.length ≤ (slots i).treeSize ∧ (ro, P ro) ∈ runs ∧
            (slots i).ExplainedBy cd fuel gens (fun ro' => (ro', P ro') ∈ runs) h (fun ro' => (P ro').1 i) ro) ≤
        ∑ i, (q i : Nat) * (slots i).loss B r := by
  classical
  intro X
  have key := fun i => C114_session_conditional (O := O) (fuel := fuel) cd gens enc hB slots hp henc hch log i r
    (fun ro h (x : X) => (∃ tr', (slots i).verify ⟨cd, ro⟩ fuel gens ⟨h⟩ (x.1 i).1 (x.1 i).2 = .ok (true, tr')) ∧
      (slots i).Nonzero cd ro h (x.1 i).1 (x.1 i).2)
  choose E hE using key
  refine ⟨fun ro => inTurn m fun i => E i ro, fun T A hT => ?_⟩
  have h0 := fun i => hE i T A hT
  choose D0 hD0 using h0
  refine ⟨Finset.univ.biUnion D0, fun D hD ro => ?_⟩
  intro P q
  have hD' : ∀ i, D0 i ⊆ D := fun i => (Finset.subset_biUnion_of_mem D0 (Finset.mem_univ i)).trans hD
  constructor
  · simp only [inTurn_runs]
    rw [mean_sum]
    exact Finset.sum_le_sum fun i _ => (hD0 i D (hD' i) ro).1
  · have step : ∀ ro' : Hash, (inTurn m fun i => E i ro').chance P (fun o => ∃ i h,
          Reached cd fuel gens enc ro' m slots i (P ro').1 ⟨log⟩ h ∧
          (∃ tr', (slots i).verify ⟨cd, ro'⟩ fuel gens ⟨h⟩ ((P ro').1 i).1 ((P ro').1 i).2 = .ok (true, tr')) ∧
          (slots i).Nonzero cd ro' h ((P ro').1 i).1 ((P ro').1 i).2 ∧
          ¬ ∃ runs, o i = some runs ∧ runs.length ≤ (slots i).treeSize ∧ (ro', P ro') ∈ runs ∧
            (slots i).ExplainedBy cd fuel gens (fun ro'' => (ro'', P ro'') ∈ runs) h (fun ro'' => (P ro'').1 i) ro') ≤ _ :=
      fun ro' => inTurn_chance P m (fun i => E i ro') (fun i o => ∃ h,
          Reached cd fuel gens enc ro' m slots i (P ro').1 ⟨log⟩ h ∧
          (∃ tr', (slots i).verify ⟨cd, ro'⟩ fuel gens ⟨h⟩ ((P ro').1 i).1 ((P ro').1 i).2 = .ok (true, tr')) ∧
          (slots i).Nonzero cd ro' h ((P ro').1 i).1 ((P ro').1 i).2 ∧
          ¬ ∃ runs, o = some runs ∧ runs.length ≤ (slots i).treeSize ∧ (ro', P ro') ∈ runs ∧
            (slots i).ExplainedBy cd fuel gens (fun ro'' => (ro'', P ro'') ∈ runs) h (fun ro'' => (P ro'').1 i) ro')
    refine (mean_mono _ _ step).trans ?_
    rw [mean_sum]
    refine Finset.sum_le_sum fun i _ => ?_
    have hm := missed_le (ro := ro) (D := D) (E := E i) (P := P) (c := (q i : Nat) * (slots i).loss B r)
      (A := fun ro => ∃ h, Reached cd fuel gens enc ro m slots i (P ro).1 ⟨log⟩ h ∧
          (∃ tr', (slots i).verify ⟨cd, ro⟩ fuel gens ⟨h⟩ ((P ro).1 i).1 ((P ro).1 i).2 = .ok (true, tr')) ∧
          (slots i).Nonzero cd ro h ((P ro).1 i).1 ((P ro).1 i).2)
      (X := fun ro o => ∃ runs, o = some runs ∧ runs.length ≤ (slots i).treeSize ∧
          (ro, P ro) ∈ runs ∧ ∃ h, Reached cd fuel gens enc ro m slots i (P ro).1 ⟨log⟩ h ∧
            ((∃ tr', (slots i).verify ⟨cd, ro⟩ fuel gens ⟨h⟩ ((P ro).1 i).1 ((P ro).1 i).2 = .ok (true, tr')) ∧
              (slots i).Nonzero cd ro h ((P ro).1 i).1 ((P ro).1 i).2) ∧
            (slots i).ExplainedBy cd fuel gens (fun ro' => (ro', P ro') ∈ runs) h (fun ro' => (P ro').1 i) ro)
      (by
        rintro ro' o ⟨runs, _, _, _, h, h1, h2, _⟩
        exact ⟨h, h1, h2⟩)
      ((chance_mono fun ro' hh => by
        obtain ⟨h, h1, h2, h3⟩ := hh
        exact ⟨h, h1, h2, h3, h2, h3⟩).trans (hD0 i D (hD' i) ro).2)
    refine (found_mono fun ro' o => ?_).trans hm
    rintro ⟨h, h1, h2, h3, h4⟩
    refine ⟨⟨h, h1, h2, h3⟩, ?_⟩
    rintro ⟨runs, r1, r2, r3, h', h1', _, r4⟩
    cases reached_unique m slots i _ _ h h' h1 h1'
    exact h4 ⟨runs, r1, r2, r3, r4⟩

/-- C116: provers that show an opening for every proof of the session. The probability that some proof is accepted although
its opening shows that it should not be, and the program does not return runs that give a relation between the generators
together with this opening, is at most the sum of the losses in C112. -/
theorem C116_all_openings {B fuel m : Nat} (cd : Codec G) (gens : Generators G)
    (enc : (s : Slot) → s.Statement F G → List Event)
    (hB : ∀ c : F, Nat.card {v : Vector UInt8 64 // ((leNat v.toList : Nat) : F) = c} ≤ B)
    (slots : Fin m → Slot) (hp : ∀ i, (slots i).Fits fuel gens)
    (henc : ∀ i, ∀ st st' r r', enc (slots i) st ++ r = enc (slots i) st' ++ r' → st = st')
    (hch : ∀ i st lab n, .chal lab n ∉ enc (slots i) st) (log : List Event) (r : Nat) :
    let X := ((i : Fin m) → (slots i).Statement F G × (slots i).Proof F G) × (Fin m → List F × List F)
    ∃ E : Hash → Rewinder X (Fin m → Option (List (Hash × X))), ∀ (T : Nat) (A : Algo Event X), A.AtMost T →
    ∃ D0 : Finset (List Event), ∀ D, D0 ⊆ D → ∀ ro,
      let P := fun ro => A.run id ro
      let q := fun i => T + (challengesBefore m slots i + (slots i).challenges)
      mean ro D (fun ro => (E ro).runs P) ≤ ∑ i, (1 + (q i : Nat) * (((slots i).treeSize : ℚ) - 1)) ∧
      mean ro D (fun ro => (E ro).chance P fun o => ∃ i h, Reached cd fuel gens enc ro m slots i (P ro).1 ⟨log⟩ h ∧
          (∃ tr', (slots i).verify ⟨cd, ro⟩ fuel gens ⟨h⟩ ((P ro).1 i).1 ((P ro).1 i).2 = .ok (true, tr')) ∧
          (slots i).FalseOpening cd gens ro h ((P ro).1 i).1 ((P ro).1 i).2 ((P ro).2 i) ∧
          ¬ ∃ runs, o i = some runs ∧ runs.length ≤ (slots i).treeSize ∧ (ro, P ro) ∈ runs ∧
            (slots i).BrokenBy cd fuel gens (fun ro' => (ro', P ro') ∈ runs) h (fun ro' => (P ro').1 i) ((P ro).2 i) ro) ≤
        ∑ i, (q i : Nat) * (slots i).loss B r := by
  intro X
  obtain ⟨E, hE⟩ := C116_all_proofs (O := Fin m → List F × List F) (fuel := fuel) cd gens enc hB slots hp henc hch log r
  refine ⟨E, fun T A hT => ?_⟩
  obtain ⟨D0, h0⟩ := hE T A hT
  refine ⟨D0, fun D hD ro => ?_⟩
  intro P q
  obtain ⟨g1, g2⟩ := h0 D hD ro
  refine ⟨g1, (found_mono fun ro o => ?_).trans g2⟩
  rintro ⟨i, h, hr, hv, hf, hn⟩
  refine ⟨i, h, hr, hv, falseOpening_nonzero _ hf, ?_⟩
  rintro ⟨runs, e1, e2, e3, e4⟩
  exact hn ⟨runs, e1, e2, e3, broken cd gens _ _ (hp i) h _ _ ro hf e4⟩

/-- C116 for the Ristretto group, with the numbers of C113: the program runs a prover with `T ≤ 2^100` questions at most
`2^74 (T + 2^25)` times on average, and it fails for some accepted proof with probability at most `2^-100`. -/
theorem C116_level {O G : Type} [AddCommGroup G] [Module RistrettoScalar G] [DecidableEq G] {fuel m : Nat} (hm : m ≤ 2 ^ 20)
    (cd : Codec G) (gens : Generators G) (enc : (s : Slot) → s.Statement RistrettoScalar G → List Event)
    (slots : Fin m → Slot) (hs : ∀ i, (slots i).size ≤ 16) (hp : ∀ i, (slots i).Fits fuel gens)
    (henc : ∀ i, ∀ st st' r r', enc (slots i) st ++ r = enc (slots i) st' ++ r' → st = st')
    (hch : ∀ i st lab n, .chal lab n ∉ enc (slots i) st) (log : List Event) :
    let X := ((i : Fin m) → (slots i).Statement RistrettoScalar G × (slots i).Proof RistrettoScalar G) × O
    ∃ E : Hash → Rewinder X (Fin m → Option (List (Hash × X))), ∀ (T : Nat) (A : Algo Event X), T ≤ 2 ^ 100 → A.AtMost T →
    ∃ D0 : Finset (List Event), ∀ D, D0 ⊆ D → ∀ ro,
      let P := fun ro => A.run id ro
      mean ro D (fun ro => (E ro).runs P) ≤ 2 ^ 74 * (T + 2 ^ 25) ∧
      mean ro D (fun ro => (E ro).chance P fun o => ∃ i h, Reached cd fuel gens enc ro m slots i (P ro).1 ⟨log⟩ h ∧
          (∃ tr', (slots i).verify ⟨cd, ro⟩ fuel gens ⟨h⟩ ((P ro).1 i).1 ((P ro).1 i).2 = .ok (true, tr')) ∧
          (slots i).Nonzero cd ro h ((P ro).1 i).1 ((P ro).1 i).2 ∧
          ¬ ∃ runs, o i = some runs ∧ runs.length ≤ 2 ^ 54 ∧ (ro, P ro) ∈ runs ∧
            (slots i).ExplainedBy cd fuel gens (fun ro' => (ro', P ro') ∈ runs) h (fun ro' => (P ro').1 i) ro) ≤
        1 / 2 ^ 100 := by
  intro X
  obtain ⟨E, hE⟩ := C116_all_proofs (O := O) (fuel := fuel) cd gens enc C87_scalars slots hp henc hch log (2 ^ 300)
  refine ⟨E, fun T A hT' hT => ?_⟩
  obtain ⟨D0, h⟩ := hE T A hT
  refine ⟨D0, fun D hD ro => ?_⟩
  obtain ⟨h1, h2⟩ := h D hD ro
  have b := fun i => session_numbers hm slots hs hp i hT'
  have hm' : (m : ℚ) ≤ 2 ^ 20 := by exact_mod_cast hm
  refine ⟨h1.trans ?_, (found_mono fun ro o => ?_).trans (h2.trans ?_)⟩
  · refine (Finset.sum_le_card_nsmul _ _ _ fun i _ => (b i).1).trans ?_
    rw [Finset.card_univ, Fintype.card_fin, nsmul_eq_mul]
    calc (m : ℚ) * (2 ^ 54 * ((T : ℚ) + 2 ^ 25)) ≤ 2 ^ 20 * (2 ^ 54 * ((T : ℚ) + 2 ^ 25)) := by gcongr
      _ = 2 ^ 74 * ((T : ℚ) + 2 ^ 25) := by ring
  · rintro ⟨i, h, g1, g2, g3, g4⟩
    refine ⟨i, h, g1, g2, g3, ?_⟩
    rintro ⟨runs, e1, e2, e3⟩
    exact g4 ⟨runs, e1, e2.trans (treeSize_le _ (hp i) (hs i)), e3⟩
  · refine (Finset.sum_le_card_nsmul _ _ _ fun i _ => (b i).2).trans ?_
    rw [Finset.card_univ, Fintype.card_fin, nsmul_eq_mul]
    calc (m : ℚ) * (1 / 2 ^ 120) ≤ 2 ^ 20 * (1 / 2 ^ 120) := by gcongr
      _ = 1 / 2 ^ 100 := by norm_num

/-! ### Examples -/
section
open Toy

/-- C116: a session of an inner-product argument and a proof of SimpleZK in a group of prime order, with two queries. One
program runs the prover at most 51 times on average, and misses an accepted proof with probability at most 51 %. -/
example (cd : Codec K) (ro : Hash) (log : List Event) :
    let slots : Fin 2 → Slot := ![.ipa 0, .simple 1]
    let X := ((i : Fin 2) → (slots i).Statement K K × (slots i).Proof K K) × Unit
    ∃ (enc : (s : Slot) → s.Statement K K → List Event) (E : Hash → Rewinder X (Fin 2 → Option (List (Hash × X)))),
    ∀ (A : Algo Event X), A.AtMost 2 → ∃ D,
      let P := fun ro => A.run id ro
      mean ro D (fun ro => (E ro).runs P) ≤ 51 ∧
      mean ro D (fun ro => (E ro).chance P fun o => ∃ i h, Reached cd 2 primeGens enc ro 2 slots i (P ro).1 ⟨log⟩ h ∧
          (∃ tr', (slots i).verify ⟨cd, ro⟩ 2 primeGens ⟨h⟩ ((P ro).1 i).1 ((P ro).1 i).2 = .ok (true, tr')) ∧
          (slots i).Nonzero cd ro h ((P ro).1 i).1 ((P ro).1 i).2 ∧
          ¬ ∃ runs, o i = some runs ∧ runs.length ≤ (slots i).treeSize ∧ (ro, P ro) ∈ runs ∧
            (slots i).ExplainedBy cd 2 primeGens (fun ro' => (ro', P ro') ∈ runs) h (fun ro' => (P ro').1 i) ro) ≤
        51 / 100 := by
  intro slots X
  obtain ⟨enc, he, hn⟩ := C111_encoding K K
  obtain ⟨E, hE⟩ := C116_all_proofs (O := Unit) (fuel := 2) cd primeGens enc (C67_scalars 101) slots
    (fun i => by
      match i with
      | 0 => exact ⟨rfl, rfl⟩
      | 1 => exact ⟨rfl, by decide⟩)
    (fun i => he _) (fun i => hn _) log 999
  refine ⟨enc, E, fun A hT => ?_⟩
  obtain ⟨D, h⟩ := hE 2 A hT
  obtain ⟨h1, h2⟩ := h D subset_rfl ro
  refine ⟨D, h1.trans ?_, h2.trans ?_⟩
  · rw [Fin.sum_univ_two]
    show 1 + ((2 + (0 + 1) : Nat) : ℚ) * ((4 ^ (0 + 1) : Nat) - 1) +
      (1 + ((2 + ((1 + 0) + 2) : Nat) : ℚ) * ((3 ^ (1 + 1) : Nat) - 1)) ≤ 51
    norm_num
  · rw [Fin.sum_univ_two]
    show ((2 + (0 + 1) : Nat) : ℚ) * (((0 : Nat) + 1) * (3 / ((999 : Nat) + 1) +
      6 * (((2 ^ 512 / 101 + 1 : Nat) : ℚ) / 2 ^ 512))) +
      ((2 + ((1 + 0) + 2) : Nat) : ℚ) * (((1 : Nat) + 1) * (2 / ((999 : Nat) + 1) +
      3 * (((2 ^ 512 / 101 + 1 : Nat) : ℚ) / 2 ^ 512))) ≤ 51 / 100
    norm_num

/-- C116: two proofs of AlmZK with one generator of each kind in a group of prime order, with openings shown for both. -/
example (cd : Codec K) (ro : Hash) (log : List Event) :
    let slots : Fin 2 → Slot := fun _ => .alm 0
    let X := ((i : Fin 2) → (slots i).Statement K K × (slots i).Proof K K) × (Fin 2 → List K × List K)
    ∃ (enc : (s : Slot) → s.Statement K K → List Event) (E : Hash → Rewinder X (Fin 2 → Option (List (Hash × X)))),
    ∀ (A : Algo Event X), A.AtMost 0 → ∃ D,
      let P := fun ro => A.run id ro
      mean ro D (fun ro => (E ro).runs P) ≤ 92 ∧
      mean ro D (fun ro => (E ro).chance P fun o => ∃ i h, Reached cd 2 primeGens enc ro 2 slots i (P ro).1 ⟨log⟩ h ∧
          (∃ tr', (slots i).verify ⟨cd, ro⟩ 2 primeGens ⟨h⟩ ((P ro).1 i).1 ((P ro).1 i).2 = .ok (true, tr')) ∧
          (slots i).FalseOpening cd primeGens ro h ((P ro).1 i).1 ((P ro).1 i).2 ((P ro).2 i) ∧
          ¬ ∃ runs, o i = some runs ∧ runs.length ≤ 16 ∧ (ro, P ro) ∈ runs ∧
            (slots i).BrokenBy cd 2 primeGens (fun ro' => (ro', P ro') ∈ runs) h (fun ro' => (P ro').1 i) ((P ro).2 i) ro) ≤
        75 / 100 := by
  intro slots X
  obtain ⟨enc, he, hn⟩ := C111_encoding K K
  obtain ⟨E, hE⟩ := C116_all_openings (fuel := 2) cd primeGens enc (C67_scalars 101) slots (fun i => ⟨rfl, rfl⟩)
    (fun i => he _) (fun i => hn _) log 9999
  refine ⟨enc, E, fun A hT => ?_⟩
  obtain ⟨D, h⟩ := hE 0 A hT
  obtain ⟨h1, h2⟩ := h D subset_rfl ro
  refine ⟨D, h1.trans ?_, h2.trans ?_⟩
  · rw [Fin.sum_univ_two]
    show 1 + ((0 + (0 + 2) : Nat) : ℚ) * ((4 ^ (0 + 2) : Nat) - 1) +
      (1 + ((0 + ((2 + 0) + 2) : Nat) : ℚ) * ((4 ^ (0 + 2) : Nat) - 1)) ≤ 92
    norm_num
  · rw [Fin.sum_univ_two]
    show ((0 + (0 + 2) : Nat) : ℚ) * (((0 : Nat) + 2) * (3 / ((9999 : Nat) + 1) +
      6 * (((2 ^ 512 / 101 + 1 : Nat) : ℚ) / 2 ^ 512))) +
      ((0 + ((2 + 0) + 2) : Nat) : ℚ) * (((0 : Nat) + 2) * (3 / ((9999 : Nat) + 1) +
      6 * (((2 ^ 512 / 101 + 1 : Nat) : ℚ) / 2 ^ 512))) ≤ 75 / 100
    norm_num

/-- C116: a million proofs of QESA with `2^10` generators of each kind, in a group of prime order. -/
example (cd : Codec RistrettoScalar) (ro : Hash) (log : List Event) (g : Nat → RistrettoScalar) :
    let slots : Fin (2 ^ 20) → Slot := fun _ => .qesa 1021 10 3
    let gens : Generators RistrettoScalar :=
      ⟨fun k => (List.range (2 ^ k)).map g, fun k => (List.range (2 ^ k)).map fun i => g (i + 2000), g 4000⟩
    let X := ((i : Fin (2 ^ 20)) → (slots i).Statement RistrettoScalar RistrettoScalar ×
      (slots i).Proof RistrettoScalar RistrettoScalar) × Unit
    ∃ (enc : (s : Slot) → s.Statement RistrettoScalar RistrettoScalar → List Event)
      (E : Hash → Rewinder X (Fin (2 ^ 20) → Option (List (Hash × X)))),
    ∀ A : Algo Event X, A.AtMost (2 ^ 25) → ∃ D,
      let P := fun ro => A.run id ro
      mean ro D (fun ro => (E ro).runs P) ≤ 2 ^ 100 ∧
      mean ro D (fun ro => (E ro).chance P fun o => ∃ i h, Reached cd 0 gens enc ro (2 ^ 20) slots i (P ro).1 ⟨log⟩ h ∧
          (∃ tr', (slots i).verify ⟨cd, ro⟩ 0 gens ⟨h⟩ ((P ro).1 i).1 ((P ro).1 i).2 = .ok (true, tr')) ∧
          (slots i).Nonzero cd ro h ((P ro).1 i).1 ((P ro).1 i).2 ∧
          ¬ ∃ runs, o i = some runs ∧ runs.length ≤ 2 ^ 54 ∧ (ro, P ro) ∈ runs ∧
            (slots i).ExplainedBy cd 0 gens (fun ro' => (ro', P ro') ∈ runs) h (fun ro' => (P ro').1 i) ro) ≤
        1 / 2 ^ 100 := by
  intro slots gens X
  obtain ⟨enc, he, hn⟩ := C111_encoding RistrettoScalar RistrettoScalar
  have hp : ∀ i, (slots i).Fits 0 gens := fun i => by simp [slots, Slot.Fits, gens]
  obtain ⟨E, hE⟩ := C116_level (O := Unit) (fuel := 0) (le_refl _) cd gens enc slots (fun _ => (by decide : 10 ≤ 16)) hp
    (fun i => he _) (fun i => hn _) log
  refine ⟨enc, E, fun A hT => ?_⟩
  obtain ⟨D, h⟩ := hE _ A (by norm_num) hT
  obtain ⟨h1, h2⟩ := h D subset_rfl ro
  refine ⟨D, h1.trans ?_, h2⟩
  norm_num

end
end Qesa.Props
