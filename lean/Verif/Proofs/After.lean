import Verif.SpecTape
import Verif.Proofs.Oracle
import Mathlib.Algebra.BigOperators.Field
import Mathlib.Topology.LocallyConstant.Basic
import Mathlib.Topology.Compactness.Compact
import Mathlib.Topology.Constructions
import Mathlib.Topology.Compactness.Bases
/- Random answers of the hash function: independence of answers to different histories, and outcomes that are
determined by finitely many answers. -/
namespace Qesa
open Spec
set_option exponentiation.threshold 600

/-! ### Finitely many outcomes -/

/-- If for every hash function finitely many of its values determine the outcome, there are finitely many outcomes. -/
theorem finite_range {α : Type} (f : Hash → α)
    (h : ∀ ro, ∃ S : Finset (List Event), ∀ ro', (∀ l ∈ S, ro' l = ro l) → f ro' = f ro) : (Set.range f).Finite := by
  let _ : TopologicalSpace (Vector UInt8 64) := ⊥
  have : DiscreteTopology (Vector UInt8 64) := ⟨rfl⟩
  have : CompactSpace (Vector UInt8 64) := Finite.compactSpace
  have : CompactSpace Hash := inferInstanceAs (CompactSpace (List Event → Vector UInt8 64))
  let _ : TopologicalSpace Hash := inferInstanceAs (TopologicalSpace (List Event → Vector UInt8 64))
  refine IsLocallyConstant.range_finite (f := f) ((IsLocallyConstant.iff_exists_open f).2 fun ro => ?_)
  obtain ⟨S, hS⟩ := h ro
  refine ⟨(S : Set (List Event)).pi fun l => {ro l}, ?_, ?_, ?_⟩
  · exact isOpen_set_pi S.finite_toSet fun l _ => isOpen_discrete _
  · exact fun l _ => rfl
  · exact fun ro' hro => hS ro' fun l hl => hro l hl

/-- Partial outcomes that are determined by at most `N` values of the hash function: there are finitely many. -/
theorem finite_outcomes {α : Type} (W : Hash → α → Prop) (S : α → Finset (List Event))
    (hloc : ∀ ro a, W ro a → ∀ ro', (∀ l ∈ S a, ro' l = ro l) → W ro' a)
    (huniq : ∀ ro a a', W ro a → W ro a' → a = a') : ∀ (N : Nat) (U : Finset (List Event)) (g : Hash),
    {a | ∃ ro, (∀ l ∈ U, ro l = g l) ∧ W ro a ∧ (S a \ U).card ≤ N}.Finite := by
  classical
  intro N
  induction N with
  | zero =>
    intro U g
    refine Set.Subsingleton.finite ?_
    rintro a ⟨ro, h1, h2, h3⟩ a' ⟨ro', h1', h2', h3'⟩
    have key : ∀ {a} {ro : Hash}, (∀ l ∈ U, ro l = g l) → W ro a → (S a \ U).card ≤ 0 → W g a := by
      intro a ro h1 h2 h3
      refine hloc ro a h2 g fun l hl => (h1 l ?_).symm
      by_contra hU
      have : l ∈ S a \ U := Finset.mem_sdiff.2 ⟨hl, hU⟩
      rw [Finset.card_eq_zero.1 (Nat.le_zero.1 h3)] at this
      exact absurd this (Finset.notMem_empty _)
    exact huniq g a a' (key h1 h2 h3) (key h1' h2' h3')
  | succ N ih =>
    intro U g
    by_cases hne : ∃ a ro, (∀ l ∈ U, ro l = g l) ∧ W ro a ∧ (S a \ U).card ≤ N + 1
    swap
    · refine Set.Finite.subset (Set.finite_empty) ?_
      rintro a ⟨ro, h⟩
      exact absurd ⟨a, ro, h⟩ hne
    obtain ⟨a₀, ro₀, h1, h2, h3⟩ := hne
    refine Set.Finite.subset ((Set.finite_singleton a₀).union
      (Set.Finite.biUnion (S a₀ \ U).finite_toSet fun q _ => Set.finite_iUnion fun v : Vector UInt8 64 =>
        ih (insert q U) (Function.update g q v))) ?_
    rintro a ⟨ro, h1', h2', h3'⟩
    by_cases hd : ∃ q, q ∈ S a ∧ q ∈ S a₀ ∧ q ∉ U
    · obtain ⟨q, hq, hq0, hqU⟩ := hd
      refine .inr (Set.mem_biUnion (x := q) (by simpa using ⟨hq0, hqU⟩) (Set.mem_iUnion.2 ⟨ro q, ro, ?_, h2', ?_⟩))
      · intro l hl
        by_cases hlq : l = q
        · subst hlq; rw [Function.update_self]
        · rw [Function.update_of_ne hlq]
          exact h1' l ((Finset.mem_insert.1 hl).resolve_left hlq)
      · have hlt : (S a \ insert q U).card < (S a \ U).card := by
          refine Finset.card_lt_card (Finset.ssubset_iff_of_subset ?_ |>.2 ⟨q, ?_, ?_⟩)
          · exact Finset.sdiff_subset_sdiff le_rfl (Finset.subset_insert _ _)
          · exact Finset.mem_sdiff.2 ⟨hq, hqU⟩
          · simp
        omega
    · refine .inl ?_
      have hd' : ∀ q, q ∈ S a → q ∈ S a₀ → q ∈ U := fun q h h' => by
        by_contra hU
        exact hd ⟨q, h, h', hU⟩
      let ro₂ : Hash := fun l => if l ∈ S a₀ then ro₀ l else ro l
      refine huniq ro₂ a a₀ (hloc ro a h2' ro₂ fun l hl => ?_) (hloc ro₀ a₀ h2 ro₂ fun l hl => ?_)
      · by_cases hl0 : l ∈ S a₀
        · have hU := hd' l hl hl0
          simp only [ro₂, if_pos hl0]
          rw [h1 l hU, h1' l hU]
        · simp only [ro₂, if_neg hl0]
      · simp only [ro₂, if_pos hl]

/-! ### Independence -/

theorem chance_nonneg (ro : Hash) (D : Finset (List Event)) (A : Hash → Prop) : 0 ≤ chance ro D A := by
  unfold chance; positivity

/-- An event about the answers outside of `X` and an event about the answers in `X` are independent. -/
theorem chance_and (X : Set (List Event)) (ro : Hash) (D : Finset (List Event)) (A B : Hash → Prop)
    (hA : ∀ ro ro', (∀ l, l ∉ X → ro l = ro' l) → A ro → A ro')
    (hB : ∀ ro ro', (∀ l, l ∈ X → ro l = ro' l) → B ro → B ro') :
    chance ro D (fun ro => A ro ∧ B ro) = chance ro D A * chance ro D B := by
  classical
  have key : countHashes ro D (fun ro => A ro ∧ B ro) * (2 ^ 512) ^ D.card = countHashes ro D A * countHashes ro D B := by
    have hV : Nat.card (D → Vector UInt8 64) = (2 ^ 512) ^ D.card := by
      rw [Nat.card_eq_fintype_card, Fintype.card_fun, card_bytes, Fintype.card_coe]
    unfold countHashes
    rw [← hV, ← Nat.card_prod, ← Nat.card_prod]
    let mix : (D → Vector UInt8 64) → (D → Vector UInt8 64) → D → Vector UInt8 64 :=
      fun f g l => if l.1 ∈ X then g l else f l
    have m1 : ∀ f g, mix (mix f g) (mix g f) = f := fun f g => by
      funext l; by_cases h : l.1 ∈ X <;> simp [mix, h]
    have e1 : ∀ f g l, l ∉ X → patch ro D (mix f g) l = patch ro D f l := fun f g l hl => by
      unfold patch; split
      · simp [mix, hl]
      · rfl
    have e2 : ∀ f g l, l ∈ X → patch ro D (mix f g) l = patch ro D g l := fun f g l hl => by
      unfold patch; split
      · simp [mix, hl]
      · rfl
    refine Nat.card_congr ⟨fun z => ⟨⟨mix z.1.1 z.2, ?_⟩, ⟨mix z.2 z.1.1, ?_⟩⟩,
      fun z => ⟨⟨mix z.1.1 z.2.1, ?_, ?_⟩, mix z.2.1 z.1.1⟩, ?_, ?_⟩
    · exact hA _ _ (fun l hl => (e1 _ _ l hl).symm) z.1.2.1
    · exact hB _ _ (fun l hl => (e2 _ _ l hl).symm) z.1.2.2
    · exact hA _ _ (fun l hl => (e1 _ _ l hl).symm) z.1.2
    · exact hB _ _ (fun l hl => (e2 _ _ l hl).symm) z.2.2
    · rintro ⟨⟨f, hf⟩, g⟩
      simp only [m1]
    · rintro ⟨⟨f, hf⟩, ⟨g, hg⟩⟩
      simp only [m1]
  unfold chance
  have h0 : ((2 : ℚ) ^ 512) ^ D.card ≠ 0 := by positivity
  rw [div_mul_div_comm, div_eq_div_iff h0 (mul_ne_zero h0 h0), ← mul_assoc]
  have := congrArg (fun n : Nat => (n : ℚ)) key
  simp only [Nat.cast_mul, Nat.cast_pow, Nat.cast_ofNat] at this
  rw [this]

/-- Events that exclude each other. -/
theorem chance_sum {ι : Type} (S : Finset ι) (ro : Hash) (D : Finset (List Event)) (A : ι → Hash → Prop)
    (hA : ∀ ro i j, A i ro → A j ro → i = j) :
    chance ro D (fun ro => ∃ i ∈ S, A i ro) = ∑ i ∈ S, chance ro D (A i) := by
  classical
  unfold chance
  rw [← Finset.sum_div]
  congr 1
  unfold countHashes
  simp only [Nat.card_eq_fintype_card, Fintype.card_subtype]
  rw [← Nat.cast_sum, ← Finset.card_biUnion]
  · congr 2
    ext f
    simp
  · intro i _ j _ hij
    rw [Function.onFun, Finset.disjoint_left]
    intro f hi hj
    simp only [Finset.mem_filter, Finset.mem_univ, true_and] at hi hj
    exact hij (hA _ i j hi hj)

theorem chance_le_one (ro : Hash) (D : Finset (List Event)) (A : Hash → Prop) : chance ro D A ≤ 1 := by
  classical
  unfold chance
  rw [div_le_one (by positivity)]
  have : countHashes ro D A ≤ (2 ^ 512) ^ D.card := by
    unfold countHashes
    refine (Finite.card_subtype_le _).trans (le_of_eq ?_)
    rw [Nat.card_eq_fintype_card, Fintype.card_fun, card_bytes, Fintype.card_coe]
  exact_mod_cast this

/-- A first phase ends with the history `L` (`E ro L`), which is determined by answers to histories that do not properly
extend `L`. What happens then (`bad t L`, where `t` are random numbers) depends only on answers to histories that do.
If for each fixed `L` the second event has probability at most `ε`, so it has after the first phase. -/
theorem sum_chance_after {T : Type} [Fintype T] (E : Hash → List Event → Prop)
    (hE : ∀ ro ro' L, (∀ l, ¬ (L <+: l ∧ l ≠ L) → ro l = ro' l) → E ro L → E ro' L)
    (huniq : ∀ ro L L', E ro L → E ro L' → L = L') (hfin : {L | ∃ ro, E ro L}.Finite)
    (bad : T → List Event → Hash → Prop)
    (hb : ∀ t L ro ro', (∀ l, L <+: l ∧ l ≠ L → ro l = ro' l) → bad t L ro → bad t L ro') (c : ℚ)
    (hc : ∀ L, ∃ D0 : Finset (List Event), ∀ D, D0 ⊆ D → ∀ ro, ∑ t, chance ro D (bad t L) ≤ c) :
    ∃ D0 : Finset (List Event), ∀ D, D0 ⊆ D → ∀ ro,
      ∑ t, chance ro D (fun ro => ∃ L, E ro L ∧ bad t L ro) ≤ c := by
  classical
  have hc0 : 0 ≤ c := by
    obtain ⟨D0, h⟩ := hc []
    exact (Finset.sum_nonneg fun t _ => chance_nonneg _ _ _).trans (h D0 le_rfl fun _ => default)
  choose D0 hD0 using hc
  refine ⟨hfin.toFinset.biUnion D0, fun D hD ro => ?_⟩
  have h1 : ∀ t, chance ro D (fun ro => ∃ L, E ro L ∧ bad t L ro) =
      ∑ L ∈ hfin.toFinset, chance ro D (fun ro => E ro L) * chance ro D (bad t L) := by
    intro t
    rw [show (fun ro => ∃ L, E ro L ∧ bad t L ro) = fun ro => ∃ L ∈ hfin.toFinset, E ro L ∧ bad t L ro from by
      funext ro
      refine propext ⟨fun ⟨L, h⟩ => ⟨L, by simpa using ⟨ro, h.1⟩, h⟩, fun ⟨L, _, h⟩ => ⟨L, h⟩⟩]
    rw [chance_sum _ _ _ (fun L ro => E ro L ∧ bad t L ro) fun ro i j hi hj => huniq ro i j hi.1 hj.1]
    refine Finset.sum_congr rfl fun L _ => ?_
    exact chance_and {l | L <+: l ∧ l ≠ L} ro D _ _ (fun ro ro' h => hE ro ro' L h) (fun ro ro' h => hb t L ro ro' h)
  simp only [h1]
  rw [Finset.sum_comm]
  simp only [← Finset.mul_sum]
  calc ∑ L ∈ hfin.toFinset, chance ro D (fun ro => E ro L) * ∑ t, chance ro D (bad t L)
      ≤ ∑ L ∈ hfin.toFinset, chance ro D (fun ro => E ro L) * c := by
        refine Finset.sum_le_sum fun L hL => mul_le_mul_of_nonneg_left (hD0 L D ?_ ro) (chance_nonneg _ _ _)
        exact (Finset.subset_biUnion_of_mem D0 hL).trans hD
    _ = chance ro D (fun ro => ∃ L ∈ hfin.toFinset, E ro L) * c := by
        rw [← Finset.sum_mul, chance_sum _ _ _ (fun L ro => E ro L) fun ro i j hi hj => huniq ro i j hi hj]
    _ ≤ 1 * c := mul_le_mul_of_nonneg_right (chance_le_one _ _ _) hc0
    _ = c := one_mul c

end Qesa
