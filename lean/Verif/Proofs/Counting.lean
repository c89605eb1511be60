import Mathlib.Algebra.BigOperators.Fin
import Mathlib.Algebra.Order.BigOperators.Group.Finset
import Mathlib.Tactic.Ring
import Mathlib.Tactic.Linarith
import Verif.SpecProver
/-
From many accepted sequences of challenges to a tree of them.
-/
namespace Qesa.Spec
variable {α : Type}

/-- There is a tree of challenges from `S`, with `ks` different challenges on the levels, all of whose paths
have the property `A`. -/
def HasTree (S : Finset α) : List Nat → (List α → Prop) → Prop
  | [], A => A []
  | k :: ks, A => ∃ x : Fin k → α, Function.Injective x ∧ (∀ i, x i ∈ S) ∧
      ∀ i, HasTree S ks fun l => A (x i :: l)

theorem countChallenges_le (S : Finset α) (d : Nat) (A : List α → Prop) :
    countChallenges S d A ≤ S.card ^ d := by
  classical
  unfold countChallenges
  refine (Finset.card_filter_le _ _).trans ?_
  rw [Fintype.card_piFinset]; simp

theorem countChallenges_succ (S : Finset α) (d : Nat) (A : List α → Prop) :
    countChallenges S (d + 1) A = ∑ x ∈ S, countChallenges S d fun l => A (x :: l) := by
  classical
  unfold countChallenges
  rw [← Finset.card_sigma]
  symm
  refine Finset.card_bij (fun p _ => Fin.cons p.1 p.2) ?_ ?_ ?_
  · rintro ⟨x, c⟩ h
    simp only [Finset.mem_sigma, Finset.mem_filter, Fintype.mem_piFinset] at h ⊢
    refine ⟨fun i => ?_, by simpa [List.ofFn_succ] using h.2.2⟩
    refine Fin.cases ?_ (fun i => ?_) i
    · exact h.1
    · exact h.2.1 i
  · rintro ⟨x, c⟩ _ ⟨x', c'⟩ _ h
    have h := Fin.cons_inj.1 h
    obtain ⟨rfl, rfl⟩ := h
    rfl
  · intro c h
    simp only [Finset.mem_filter, Fintype.mem_piFinset] at h
    refine ⟨⟨c 0, fun i => c i.succ⟩, ?_, ?_⟩
    · simp only [Finset.mem_sigma, Finset.mem_filter, Fintype.mem_piFinset]
      exact ⟨h.1 0, fun i => h.1 i.succ, by simpa [List.ofFn_succ] using h.2⟩
    · exact Fin.cons_self_tail c

/-- Without such a tree many sequences do not have the property. -/
theorem count_of_not_hasTree (S : Finset α) : ∀ (ks : List Nat) (A : List α → Prop), ¬ HasTree S ks A →
    countChallenges S ks.length A + (ks.map fun k => S.card + 1 - k).prod ≤ S.card ^ ks.length
  | [], A, h => by
    have : countChallenges S 0 A = 0 := by
      classical
      unfold countChallenges
      rw [Finset.card_eq_zero, Finset.filter_eq_empty_iff]
      intro c _ hc
      exact h (by simpa [HasTree] using hc)
    simp [this]
  | k :: ks, A, h => by
    classical
    set B := S.filter fun x => HasTree S ks fun l => A (x :: l) with hB
    have hcard : B.card + 1 ≤ k := by
      by_contra hlt
      push Not at hlt
      have hk : k ≤ B.card := by omega
      obtain ⟨T, hTB, hT⟩ := Finset.exists_subset_card_eq hk
      refine h ⟨fun i => (T.equivFinOfCardEq hT).symm i, ?_, ?_, ?_⟩
      · intro i j hij
        exact (T.equivFinOfCardEq hT).symm.injective (Subtype.ext hij)
      · intro i
        exact (Finset.mem_filter.1 (hTB ((T.equivFinOfCardEq hT).symm i).2)).1
      · intro i
        exact (Finset.mem_filter.1 (hTB ((T.equivFinOfCardEq hT).symm i).2)).2
    set R := (ks.map fun k => S.card + 1 - k).prod with hR
    have h1 : ∀ x ∈ S.filter (fun x => ¬ HasTree S ks fun l => A (x :: l)),
        countChallenges S ks.length (fun l => A (x :: l)) + R ≤ S.card ^ ks.length := fun x hx =>
      count_of_not_hasTree S ks _ (Finset.mem_filter.1 hx).2
    have h2 := Finset.sum_le_card_nsmul _ _ _ h1
    rw [Finset.sum_add_distrib, Finset.sum_const, smul_eq_mul, smul_eq_mul] at h2
    have h3 : ∑ x ∈ B, countChallenges S ks.length (fun l => A (x :: l)) ≤ B.card * S.card ^ ks.length := by
      have := Finset.sum_le_card_nsmul B _ _ fun x _ => countChallenges_le S ks.length fun l => A (x :: l)
      rwa [smul_eq_mul] at this
    have h4 : B.card + (S.filter fun x => ¬ HasTree S ks fun l => A (x :: l)).card = S.card :=
      Finset.card_filter_add_card_filter_not _
    rw [List.length_cons, countChallenges_succ, ← Finset.sum_filter_add_sum_filter_not S
      (fun x => HasTree S ks fun l => A (x :: l)), List.map_cons, List.prod_cons, ← hB, ← hR]
    set c := (S.filter fun x => ¬ HasTree S ks fun l => A (x :: l)).card with hc
    have h5 : (S.card + 1 - k) * R ≤ c * R := Nat.mul_le_mul_right _ (by omega)
    have h6 : S.card ^ (ks.length + 1) = B.card * S.card ^ ks.length + c * S.card ^ ks.length := by
      rw [← Nat.add_mul, h4, pow_succ, mul_comm]
    omega

/-- The bound in a simpler form. -/
theorem prod_bound (N : Nat) : ∀ ks : List Nat, (∀ k ∈ ks, 1 ≤ k) →
    (ks.map fun k => N + 1 - k).prod ≤ N ^ ks.length ∧
    N ^ ks.length ≤ (ks.map fun k => N + 1 - k).prod + (ks.map fun k => k - 1).sum * N ^ (ks.length - 1)
  | [], _ => by simp
  | k :: ks, h => by
    obtain ⟨h1, h2⟩ := prod_bound N ks fun k hk => h k (List.mem_cons_of_mem _ hk)
    have hk := h k List.mem_cons_self
    set P := (ks.map fun k => N + 1 - k).prod
    set σ := (ks.map fun k => k - 1).sum with hσ
    simp only [List.map_cons, List.prod_cons, List.sum_cons, List.length_cons, Nat.add_sub_cancel]
    have e1 : σ * N ^ (ks.length - 1) * N ≤ σ * N ^ ks.length := by
      cases ks with
      | nil => simp [hσ]
      | cons => rw [mul_assoc, ← pow_succ]; simp
    have e2 : N * P ≤ (N + 1 - k) * P + (k - 1) * P := by
      rw [← Nat.add_mul]; exact Nat.mul_le_mul_right _ (by omega)
    have e3 : (k - 1) * P ≤ (k - 1) * N ^ ks.length := Nat.mul_le_mul_left _ h1
    constructor
    · rw [pow_succ, mul_comm (N ^ _)]
      exact Nat.mul_le_mul (by omega) h1
    · calc N ^ (ks.length + 1) = N ^ ks.length * N := pow_succ _ _
        _ ≤ (P + σ * N ^ (ks.length - 1)) * N := Nat.mul_le_mul_right _ h2
        _ ≤ (N + 1 - k) * P + (k - 1 + σ) * N ^ ks.length := by
          rw [Nat.add_mul, Nat.add_mul, mul_comm P]; omega

end Qesa.Spec
