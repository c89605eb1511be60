import Mathlib.Data.Set.Card
import Verif.Proofs.Machine
import Verif.SpecAgm
import Verif.Props.IpaBinding
/-
The inner-product arguments as machines: states, and why few challenges lead from bad to good states.
-/
namespace Qesa.Props
open Qesa Spec Ipa

/-- A property that no `k + 1` different scalars have, in terms of a finite set. -/
theorem few_of_no_injection {α : Type} (k : Nat) (p : α → Prop)
    (h : ¬ ∃ x : Fin (k + 1) → α, Function.Injective x ∧ ∀ i, p (x i)) :
    ∃ B : Finset α, B.card ≤ k ∧ ∀ x, p x → x ∈ B := by
  classical
  have key : ∀ B : Finset α, (∀ x ∈ B, p x) → B.card ≤ k := by
    intro B hB
    by_contra hlt
    push Not at hlt
    obtain ⟨T, hTB, hT⟩ := Finset.exists_subset_card_eq (show k + 1 ≤ B.card by omega)
    refine h ⟨fun i => (T.equivFinOfCardEq hT).symm i, ?_, ?_⟩
    · intro i j hij
      exact (T.equivFinOfCardEq hT).symm.injective (Subtype.ext hij)
    · intro i
      exact hB _ (hTB ((T.equivFinOfCardEq hT).symm i).2)
  have hfin : {x | p x}.Finite := by
    by_contra hinf
    obtain ⟨B, hB, hc⟩ := Set.Infinite.exists_subset_card_eq (s := {x | p x}) hinf (k + 1)
    have := key B fun x hx => hB hx
    omega
  refine ⟨hfin.toFinset, key _ fun x hx => by simpa using hx, fun x hx => by simpa using hx⟩

variable {F G V : Type} [Field F] [AddCommGroup G] [Module F G] [AddCommGroup V] [Module F V]

/-- The generators satisfy no relation. -/
def Free (Gs Hs : List V) (Q : V) : Prop := ∀ r : List F × List F × F, ¬ IsRelation Gs Hs Q r

/-- `P` is a commitment to two vectors and their product. -/
def Opens (F : Type) [Field F] [Module F V] (Gs Hs : List V) (Q P : V) : Prop :=
  ∃ a b : List F, a.length = Gs.length ∧ b.length = Hs.length ∧ P = dot a Gs + dot b Hs + dot a b • Q

/-- The claim of the inner-product argument. -/
def IpaClaim (Gs Hs : List V) (Q P : V) (t : F) : Prop :=
  ∃ a b : List F, a.length = Gs.length ∧ b.length = Hs.length ∧ P = dot a Gs + dot b Hs + t • Q ∧
    dot a b = t

/-- The claim of AlmZK. -/
def AlmClaim (Gs Hs : List V) (C : V) (t : F) : Prop :=
  ∃ u v : List F, u.length = Gs.length ∧ v.length = Hs.length ∧ C = dot u Gs + dot v Hs ∧ dot u v = t

theorem Free.fold {q : Nat} {Gs Hs : List V} {Q : V} (hG : Gs.length = 2 ^ (q + 1))
    (hH : Hs.length = 2 ^ (q + 1)) (h : Free (F := F) Gs Hs Q) (x : F) :
    Free (F := F) (foldG x Gs) (foldH x Hs) Q := by
  classical
  intro r hr
  exact h _ (lift_delivers (2 ^ q) x Gs Hs (by rw [hG, pow_succ]; omega) (by rw [hH, pow_succ]; omega)
    Q 0 r hr)

/-- Three challenges of a round at most. -/
theorem round_few {q : Nat} {Gs Hs : List V} {Q P : V} (hG : Gs.length = 2 ^ (q + 1))
    (hH : Hs.length = 2 ^ (q + 1)) (hf : Free (F := F) Gs Hs Q) (hP : ¬ Opens F Gs Hs Q P) (L R : V) :
    ¬ ∃ x : Fin 4 → F, Function.Injective x ∧
      ∀ i, Opens F (foldG (x i) Gs) (foldH (x i) Hs) Q ((x i * x i) • L + x i • P + R) := by
  classical
  rintro ⟨x, hx, h⟩
  choose a b ha hb h using h
  have l1 : ∀ i, (foldG (x i) Gs).length = 2 ^ q := fun i => by rw [foldG_length, hG, pow_succ]; omega
  have l2 : ∀ i, (foldH (x i) Hs).length = 2 ^ q := fun i => by rw [foldH_length, hH, pow_succ]; omega
  have hG2 : Gs.length / 2 = 2 ^ q := by rw [hG, pow_succ]; omega
  have hH2 : Hs.length / 2 = 2 ^ q := by rw [hH, pow_succ]; omega
  have hG' : Gs.length = 2 ^ q + 2 ^ q := by rw [hG, pow_succ]; omega
  have hH' : Hs.length = 2 ^ q + 2 ^ q := by rw [hH, pow_succ]; omega
  have := combineRound_delivers (2 ^ q) x hx a b (fun i => (ha i).trans (l1 i))
    (fun i => (hb i).trans (l2 i))
    (Gs.take (Gs.length / 2)) (Gs.drop (Gs.length / 2)) (Hs.take (Hs.length / 2))
    (Hs.drop (Hs.length / 2)) (by simp; omega) (by simp; omega) (by simp; omega) (by simp; omega)
    Q P L R (by
      intro i
      rw [h i, foldG, foldH, dot_comb_right _ _ _ (by simp; omega),
        dot_comb_right _ _ _ (by simp; omega), one_smul, one_smul])
  rw [List.take_append_drop, List.take_append_drop] at this
  cases e : combineRound (2 ^ q) x a b with
  | inl w => rw [e] at this; exact hP ⟨_, _, this⟩
  | inr r => rw [e] at this; exact hf _ this

/-- One non-zero `alpha` at most. -/
theorem alpha_few {n : Nat} {Gs Hs : List V} {Q P : V} {t : F} (hG : Gs.length = n) (hH : Hs.length = n)
    (hf : Free (F := F) Gs Hs Q) (hP : ¬ IpaClaim Gs Hs Q P t) (α α' : F) (h0 : α ≠ 0) (h0' : α' ≠ 0)
    (h : Opens F Gs Hs (α⁻¹ • Q) (P - ((α - 1) * t) • (α⁻¹ • Q)))
    (h' : Opens F Gs Hs (α'⁻¹ • Q) (P - ((α' - 1) * t) • (α'⁻¹ • Q))) : α = α' := by
  classical
  obtain ⟨a, b, ha, hb, e⟩ := h
  obtain ⟨a', b', ha', hb', e'⟩ := h'
  have hval : ∀ (α : F) (a b : List F), P - ((α - 1) * t) • (α⁻¹ • Q) =
      dot a Gs + dot b Hs + dot a b • (α⁻¹ • Q) →
      P = dot a Gs + dot b Hs + ((dot a b + (α - 1) * t) * α⁻¹) • Q := by
    intro α a b e
    rw [sub_eq_iff_eq_add] at e
    rw [e]; module
  have e1 := hval _ _ _ e
  have e2 := hval _ _ _ e'
  obtain ⟨h1, h2, h3⟩ := opening_unique hG hH hf (ha.trans hG) (ha'.trans hG) (hb.trans hH)
    (hb'.trans hH) (e1.symm.trans e2)
  subst h1 h2
  by_contra hne
  have hd : (dot a b - t) * (α' - α) = 0 := by
    field_simp at h3
    linear_combination h3
  have hdt : dot a b = t := by
    rcases mul_eq_zero.1 hd with h | h
    · exact sub_eq_zero.1 h
    · exact absurd (sub_eq_zero.1 h).symm hne
  refine hP ⟨a, b, ha, hb, ?_, hdt⟩
  rw [e1, hdt]
  congr 2
  field_simp
  ring

/-- Two `beta` at most. -/
theorem beta_few {n : Nat} {Gs Hs : List V} {Q C : V} {t : F} (hG : Gs.length = n) (hH : Hs.length = n)
    (hf : Free (F := F) Gs Hs Q) (hC : ¬ AlmClaim Gs Hs C t) (C_r : V) :
    ¬ ∃ β : Fin 3 → F, Function.Injective β ∧
      ∀ i, IpaClaim Gs Hs Q (β i • C + C_r + (β i * β i * t) • Q) (β i * β i * t) := by
  classical
  rintro ⟨β, hβ, h⟩
  choose a b ha hb h1 h2 using h
  have ha' : ∀ i, (a i).length = n := fun i => (ha i).trans hG
  have hb' : ∀ i, (b i).length = n := fun i => (hb i).trans hH
  obtain ⟨d0, d1, d2⟩ := divided3_pow β hβ
  obtain ⟨s0, s1⟩ := slope3_pow β hβ
  have hval : ∀ c : Fin 3 → F, dot (lin n c a) Gs + dot (lin n c b) Hs =
      (∑ i, c i * β i) • C + (∑ i, c i) • C_r := by
    intro c
    rw [dot_lin _ _ _ _ ha' hG, dot_lin _ _ _ _ hb' hH]
    simp only [Finset.sum_smul, ← Finset.sum_add_distrib]
    apply Finset.sum_congr rfl
    intro i _
    have := congrArg (c i • ·) (add_right_cancel (h1 i))
    simp only [smul_add, smul_smul] at this
    rw [this]
  have hz : (∀ y ∈ lin n (divided3 β) a, y = 0) ∧ (∀ y ∈ lin n (divided3 β) b, y = 0) := by
    by_contra hc
    refine hf (lin n (divided3 β) a, lin n (divided3 β) b, 0) ⟨by simp [hG], by simp [hH], ?_, ?_⟩
    · by_contra hc'
      push Not at hc'
      exact hc ⟨fun y hy => hc' y (List.mem_append_left _ (List.mem_append_left _ hy)),
        fun y hy => hc' y (List.mem_append_left _ (List.mem_append_right _ hy))⟩
    · simp only
      rw [hval, d0, d1]; simp
  obtain ⟨z1, z2⟩ := hz
  refine hC ⟨lin n (slope3 β) a, lin n (slope3 β) b, by simp [hG], by simp [hH], ?_, ?_⟩
  · rw [hval, s0, s1]; simp
  · choose δ hδ using fun j : Fin n => affine3 β (fun i => (a i).getD j 0) hβ (lin_zero z1 j)
    choose ε hε using fun j : Fin n => affine3 β (fun i => (b i).getD j 0) hβ (lin_zero z2 j)
    have eab : ∀ i, dot (a i) (b i) = ∑ j : Fin n, (a i).getD j 0 * (b i).getD j 0 := by
      intro i
      conv_lhs => rw [getD_list (a i) (ha' i), getD_list (b i) (hb' i)]
      rw [dot_ofFn]; rfl
    have ht : ∑ i, divided3 β i * dot (a i) (b i) = t := by
      have : ∀ i, divided3 β i * dot (a i) (b i) = t * (divided3 β i * (β i * β i)) := by
        intro i; rw [h2 i]; ring
      simp only [this, ← Finset.mul_sum, d2, mul_one]
    rw [← ht, lin, lin, dot_ofFn]
    simp only [eab, smul_eq_mul]
    conv_rhs =>
      simp only [Finset.mul_sum]
      rw [Finset.sum_comm]
    apply Finset.sum_congr rfl
    intro j _
    have : ∀ i, divided3 β i * ((a i).getD j 0 * (b i).getD j 0) =
        δ j * ε j * divided3 β i +
        (δ j * (∑ k, slope3 β k * (b k).getD j 0) + ε j * (∑ k, slope3 β k * (a k).getD j 0)) *
          (divided3 β i * β i) +
        (∑ k, slope3 β k * (a k).getD j 0) * (∑ k, slope3 β k * (b k).getD j 0) *
          (divided3 β i * (β i * β i)) := by
      intro i
      conv_lhs => rw [hδ j i, hε j i]
      ring
    rw [Finset.sum_congr rfl fun i _ => this i]
    simp only [Finset.sum_add_distrib, ← Finset.mul_sum, d0, d1, d2]
    ring

end Qesa.Props
