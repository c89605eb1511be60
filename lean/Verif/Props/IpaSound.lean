import Verif.SpecSound
import Verif.Props.AlmZk
import Verif.Props.Ipa
import Verif.Proofs.Matrix
import Mathlib.Algebra.Module.BigOperators
import Mathlib.Tactic.FieldSimp
import Mathlib.Tactic.LinearCombination
/- Special soundness of the inner-product arguments: C21, C25. -/
namespace Qesa.Props
open Qesa Spec Ipa
set_option linter.unusedSectionVars false
variable {F G : Type} [Field F] [AddCommGroup G] [Module F G]

/-! ### Linear combinations of lists -/

@[simp] theorem lin_length {m : Nat} (n : Nat) (c : Fin m → F) (l : Fin m → List F) :
    (lin n c l).length = n := by simp [lin]

theorem getD_list {T : Type} [Zero T] {n : Nat} (l : List T) (h : l.length = n) :
    l = List.ofFn fun j : Fin n => l.getD j 0 := by
  apply List.ext_getElem
  · simp [h]
  · intro i h1 h2
    rw [List.getElem_ofFn]; simp [List.getD, h1]

theorem dot_lin {m : Nat} (n : Nat) (c : Fin m → F) (l : Fin m → List F) (p : List G)
    (hl : ∀ i, (l i).length = n) (hp : p.length = n) :
    dot (lin n c l) p = ∑ i, c i • dot (l i) p := by
  have : ∀ i, dot (l i) p = ∑ j : Fin n, (l i).getD j 0 • p.getD j 0 := by
    intro i
    conv_lhs => rw [getD_list (l i) (hl i), getD_list p hp]
    rw [dot_ofFn]
  simp only [this]
  conv_lhs => rw [getD_list p hp]
  rw [lin, dot_ofFn]
  simp only [Finset.sum_smul, Finset.smul_sum, smul_smul]
  rw [Finset.sum_comm]

theorem lin_zero {m : Nat} {n : Nat} {c : Fin m → F} {l : Fin m → List F}
    (h : ∀ y ∈ lin n c l, y = 0) (j : Fin n) : ∑ i, c i * (l i).getD j 0 = 0 :=
  h _ (by rw [lin]; exact List.mem_ofFn.2 ⟨j, rfl⟩)

/-! ### Interpolation -/

theorem sub_ne {m : Nat} {x : Fin m → F} (hx : Function.Injective x) {i j : Fin m} (h : i ≠ j) :
    x i - x j ≠ 0 := sub_ne_zero.2 fun e => h (hx e)

theorem divided4_pow (x : Fin 4 → F) (hx : Function.Injective x) :
    ∑ i, divided4 x i = 0 ∧ ∑ i, divided4 x i * x i = 0 ∧ ∑ i, divided4 x i * (x i * x i) = 0 := by
  have h01 := sub_ne hx (show (0 : Fin 4) ≠ 1 by decide)
  have h02 := sub_ne hx (show (0 : Fin 4) ≠ 2 by decide)
  have h03 := sub_ne hx (show (0 : Fin 4) ≠ 3 by decide)
  have h12 := sub_ne hx (show (1 : Fin 4) ≠ 2 by decide)
  have h13 := sub_ne hx (show (1 : Fin 4) ≠ 3 by decide)
  have h23 := sub_ne hx (show (2 : Fin 4) ≠ 3 by decide)
  have e10 : x 1 - x 0 = -(x 0 - x 1) := by ring
  have e20 : x 2 - x 0 = -(x 0 - x 2) := by ring
  have e30 : x 3 - x 0 = -(x 0 - x 3) := by ring
  have e21 : x 2 - x 1 = -(x 1 - x 2) := by ring
  have e31 : x 3 - x 1 = -(x 1 - x 3) := by ring
  have e32 : x 3 - x 2 = -(x 2 - x 3) := by ring
  refine ⟨?_, ?_, ?_⟩ <;>
  · simp only [Fin.sum_univ_four, divided4, Matrix.cons_val_zero, Matrix.cons_val_one,
      Matrix.cons_val, e10, e20, e30, e21, e31, e32]
    field_simp
    ring

theorem middle4_pow (x : Fin 4 → F) (hx : Function.Injective x) :
    ∑ i, middle4 x i = 0 ∧ ∑ i, middle4 x i * x i = 1 ∧ ∑ i, middle4 x i * (x i * x i) = 0 := by
  have h01 := sub_ne hx (show (0 : Fin 4) ≠ 1 by decide)
  have h02 := sub_ne hx (show (0 : Fin 4) ≠ 2 by decide)
  have h12 := sub_ne hx (show (1 : Fin 4) ≠ 2 by decide)
  refine ⟨?_, ?_, ?_⟩ <;>
  · simp only [Fin.sum_univ_four, middle4, Matrix.cons_val_zero, Matrix.cons_val_one,
      Matrix.cons_val, zero_mul, add_zero]
    field_simp
    ring

/-- If the third divided differences of `y` and `x y` vanish then `y` is affine. -/
theorem affine4 (x y : Fin 4 → F) (hx : Function.Injective x) (h0 : ∑ i, divided4 x i * y i = 0)
    (h1 : ∑ i, divided4 x i * x i * y i = 0) :
    ∀ i, y i = ∑ j, middle4 x j * x j * y j + x i * ∑ j, middle4 x j * y j := by
  have h01 := sub_ne hx (show (0 : Fin 4) ≠ 1 by decide)
  obtain ⟨d0, d1, d2⟩ := divided4_pow x hx
  obtain ⟨c0, c1, c2⟩ := middle4_pow x hx
  -- the line through the first two points
  obtain ⟨γ, δ, e0, e1⟩ : ∃ γ δ : F, y 0 = δ + x 0 * γ ∧ y 1 = δ + x 1 * γ := by
    refine ⟨(y 0 - y 1) / (x 0 - x 1), y 0 - x 0 * ((y 0 - y 1) / (x 0 - x 1)), by ring, ?_⟩
    have : (y 0 - y 1) / (x 0 - x 1) * (x 0 - x 1) = y 0 - y 1 := div_mul_cancel₀ _ h01
    linear_combination this
  have hz0 : ∑ i, divided4 x i * (y i - δ - x i * γ) = 0 := by
    have : ∀ i, divided4 x i * (y i - δ - x i * γ) =
        divided4 x i * y i - δ * divided4 x i - γ * (divided4 x i * x i) := fun i => by ring
    simp only [this, Finset.sum_sub_distrib, ← Finset.mul_sum, h0, d0, d1]; ring
  have hz1 : ∑ i, divided4 x i * x i * (y i - δ - x i * γ) = 0 := by
    have : ∀ i, divided4 x i * x i * (y i - δ - x i * γ) =
        divided4 x i * x i * y i - δ * (divided4 x i * x i) - γ * (divided4 x i * (x i * x i)) :=
      fun i => by ring
    simp only [this, Finset.sum_sub_distrib, ← Finset.mul_sum, h1, d1, d2]; ring
  rw [Fin.sum_univ_four, e0, e1] at hz0 hz1
  have hne : ∀ i, divided4 x i ≠ 0 := by
    have h02 := sub_ne hx (show (0 : Fin 4) ≠ 2 by decide)
    have h03 := sub_ne hx (show (0 : Fin 4) ≠ 3 by decide)
    have h12 := sub_ne hx (show (1 : Fin 4) ≠ 2 by decide)
    have h13 := sub_ne hx (show (1 : Fin 4) ≠ 3 by decide)
    have h23 := sub_ne hx (show (2 : Fin 4) ≠ 3 by decide)
    have h10 := sub_ne hx (show (1 : Fin 4) ≠ 0 by decide)
    have h20 := sub_ne hx (show (2 : Fin 4) ≠ 0 by decide)
    have h30 := sub_ne hx (show (3 : Fin 4) ≠ 0 by decide)
    have h21 := sub_ne hx (show (2 : Fin 4) ≠ 1 by decide)
    have h31 := sub_ne hx (show (3 : Fin 4) ≠ 1 by decide)
    have h32 := sub_ne hx (show (3 : Fin 4) ≠ 2 by decide)
    intro i
    fin_cases i <;> simp [divided4, *]
  have h23 := sub_ne hx (show (2 : Fin 4) ≠ 3 by decide)
  have h32 := sub_ne hx (show (3 : Fin 4) ≠ 2 by decide)
  have z2 : y 2 - δ - x 2 * γ = 0 := by
    have : divided4 x 2 * (x 2 - x 3) * (y 2 - δ - x 2 * γ) = 0 := by
      linear_combination hz1 - x 3 * hz0
    rcases mul_eq_zero.1 this with h | h
    · exact absurd h (mul_ne_zero (hne 2) h23)
    · exact h
  have z3 : y 3 - δ - x 3 * γ = 0 := by
    have : divided4 x 3 * (x 3 - x 2) * (y 3 - δ - x 3 * γ) = 0 := by
      linear_combination hz1 - x 2 * hz0
    rcases mul_eq_zero.1 this with h | h
    · exact absurd h (mul_ne_zero (hne 3) h32)
    · exact h
  have key : ∀ i, y i = δ + x i * γ := by
    intro i
    fin_cases i
    · exact e0
    · exact e1
    · show y 2 = δ + x 2 * γ; linear_combination z2
    · show y 3 = δ + x 3 * γ; linear_combination z3
  have hγ : ∑ j, middle4 x j * y j = γ := by
    have : ∀ j, middle4 x j * y j = δ * middle4 x j + γ * (middle4 x j * x j) := fun j => by
      rw [key j]; ring
    simp only [this, Finset.sum_add_distrib, ← Finset.mul_sum, c0, c1]; ring
  have hδ : ∑ j, middle4 x j * x j * y j = δ := by
    have : ∀ j, middle4 x j * x j * y j =
        δ * (middle4 x j * x j) + γ * (middle4 x j * (x j * x j)) := fun j => by
      rw [key j]; ring
    simp only [this, Finset.sum_add_distrib, ← Finset.mul_sum, c1, c2]; ring
  intro i
  rw [hγ, hδ, key i]

/-! ### One round -/

variable [DecidableEq F]

/-- What the extractor has to deliver for the claim that `P` is a commitment to vectors and their
product. -/
def Delivers (Gs Hs : List G) (Q P : G) : Extracted F → Prop
  | .inl w => w.1.length = Gs.length ∧ w.2.length = Hs.length ∧
      P = dot w.1 Gs + dot w.2 Hs + dot w.1 w.2 • Q
  | .inr r => IsRelation Gs Hs Q r

theorem combineRound_delivers (n : Nat) (x : Fin 4 → F) (hx : Function.Injective x)
    (a b : Fin 4 → List F) (ha : ∀ i, (a i).length = n) (hb : ∀ i, (b i).length = n)
    (GL GR HL HR : List G) (h1 : GL.length = n) (h2 : GR.length = n) (h3 : HL.length = n)
    (h4 : HR.length = n) (Q P L R : G)
    (h : ∀ i, (x i * x i) • L + x i • P + R = dot (a i) GL + x i • dot (a i) GR +
      (x i • dot (b i) HL + dot (b i) HR) + dot (a i) (b i) • Q) :
    Delivers (GL ++ GR) (HL ++ HR) Q P (combineRound n x a b) := by
  obtain ⟨d0, d1, d2⟩ := divided4_pow x hx
  obtain ⟨c0, c1, c2⟩ := middle4_pow x hx
  -- the value of a formal combination
  have hval : ∀ c : Fin 4 → F,
      dot (lin n c a ++ lin n (fun i => c i * x i) a) (GL ++ GR) +
        dot (lin n (fun i => c i * x i) b ++ lin n c b) (HL ++ HR) +
        (∑ i, c i * dot (a i) (b i)) • Q =
      (∑ i, c i * (x i * x i)) • L + (∑ i, c i * x i) • P + (∑ i, c i) • R := by
    intro c
    rw [dot_append (by simp [h1]), dot_append (by simp [h3]), dot_lin n _ _ _ ha h1,
      dot_lin n _ _ _ ha h2, dot_lin n _ _ _ hb h3, dot_lin n _ _ _ hb h4]
    simp only [Finset.sum_smul, ← Finset.sum_add_distrib]
    apply Finset.sum_congr rfl
    intro i _
    have := congrArg (c i • ·) (h i)
    simp only [smul_add, smul_smul] at this
    rw [this]
  unfold combineRound relationOr
  simp only
  split
  · rename_i hz
    obtain ⟨hu, hv, -⟩ := hz
    have hu1 := lin_zero (fun y hy => hu y (List.mem_append_left _ hy))
    have hu2 := lin_zero (fun y hy => hu y (List.mem_append_right _ hy))
    have hv1 := lin_zero (fun y hy => hv y (List.mem_append_left _ hy))
    have hv2 := lin_zero (fun y hy => hv y (List.mem_append_right _ hy))
    refine ⟨by simp [h1, h2], by simp [h3, h4], ?_⟩
    have key := hval (middle4 x)
    rw [c0, c1, c2] at key
    simp only [zero_smul, one_smul, zero_add, add_zero] at key
    rw [← key]
    congr 2
    -- the product of the extracted vectors
    have ea : ∀ (j : Fin n) i, (a i).getD j 0 = (∑ k, middle4 x k * x k * (a k).getD j 0) +
        x i * ∑ k, middle4 x k * (a k).getD j 0 :=
      fun j => affine4 x (fun i => (a i).getD j 0) hx (hu1 j) (hu2 j)
    have eb : ∀ (j : Fin n) i, (b i).getD j 0 = (∑ k, middle4 x k * x k * (b k).getD j 0) +
        x i * ∑ k, middle4 x k * (b k).getD j 0 :=
      fun j => affine4 x (fun i => (b i).getD j 0) hx (hv2 j) (hv1 j)
    have eab : ∀ i, dot (a i) (b i) = ∑ j : Fin n, (a i).getD j 0 * (b i).getD j 0 := by
      intro i
      conv_lhs => rw [getD_list (a i) (ha i), getD_list (b i) (hb i)]
      rw [dot_ofFn]; rfl
    rw [dot_append (by simp), lin, lin, lin, lin, dot_ofFn, dot_ofFn, ← Finset.sum_add_distrib]
    simp only [eab, Finset.mul_sum, smul_eq_mul]
    rw [Finset.sum_comm]
    apply Finset.sum_congr rfl
    intro j _
    have : ∀ i, middle4 x i * ((a i).getD j 0 * (b i).getD j 0) =
        (∑ k, middle4 x k * x k * (a k).getD j 0) * (∑ k, middle4 x k * x k * (b k).getD j 0) *
          middle4 x i +
        ((∑ k, middle4 x k * (a k).getD j 0) * (∑ k, middle4 x k * x k * (b k).getD j 0) +
          (∑ k, middle4 x k * x k * (a k).getD j 0) * (∑ k, middle4 x k * (b k).getD j 0)) *
          (middle4 x i * x i) +
        (∑ k, middle4 x k * (a k).getD j 0) * (∑ k, middle4 x k * (b k).getD j 0) *
          (middle4 x i * (x i * x i)) := by
      intro i
      conv_lhs => rw [ea j i, eb j i]
      ring
    rw [Finset.sum_congr rfl fun i _ => this i]
    simp only [Finset.sum_add_distrib, ← Finset.mul_sum, c0, c1, c2]
    ring
  · rename_i hz
    refine ⟨by simp [h1, h2], by simp [h3, h4], ?_, ?_⟩
    · by_contra hc
      push Not at hc
      exact hz ⟨fun y hy => hc y (by simp only [List.mem_append]; exact .inl (.inl (by simpa using hy))),
        fun y hy => hc y (by simp only [List.mem_append]; exact .inl (.inr (by simpa using hy))),
        hc _ (by simp)⟩
    · rw [hval, d0, d1, d2]; simp

/-! ### All rounds -/

theorem foldedP_cons (x : F) (xs : List F) (L R : G) (Ls Rs : List G) (P : G) :
    foldedP (L :: Ls) (R :: Rs) (x :: xs) P = foldedP Ls Rs xs ((x * x) • L + x • P + R) := by
  unfold foldedP
  rw [List.length_cons, Finset.sum_range_succ', List.prod_cons]
  simp only [List.drop_succ_cons, List.getD_cons_succ, List.getD_cons_zero, List.drop_zero, smul_add,
    smul_smul]
  rw [mul_comm x]
  abel

/-- The generators of the first vector after one round. -/
def foldG (x : F) (Gs : List G) : List G :=
  List.zipWith (fun a b => (1 : F) • a + x • b) (Gs.take (Gs.length / 2)) (Gs.drop (Gs.length / 2))

/-- The generators of the second vector after one round. -/
def foldH (x : F) (Hs : List G) : List G :=
  List.zipWith (fun a b => x • a + (1 : F) • b) (Hs.take (Hs.length / 2)) (Hs.drop (Hs.length / 2))

theorem foldG_length (x : F) (Gs : List G) : (foldG x Gs).length = Gs.length / 2 := by
  simp [foldG]; omega

theorem foldH_length (x : F) (Hs : List G) : (foldH x Hs).length = Hs.length / 2 := by
  simp [foldH]; omega

theorem accepts_cons (x : F) (c : IpaPath F G) (L R : G) (Gs Hs : List G) (Q P : G)
    (hG : Gs.length = 2 ^ (c.xs.length + 1)) (hH : Hs.length = 2 ^ (c.xs.length + 1)) :
    (⟨L :: c.Ls, R :: c.Rs, x :: c.xs, c.a, c.b⟩ : IpaPath F G).Accepts Gs Hs Q P ↔
      c.Accepts (foldG x Gs) (foldH x Hs) Q ((x * x) • L + x • P + R) := by
  unfold IpaPath.Accepts
  simp only
  rw [foldedP_cons, List.length_cons]
  have hh : Gs.length / 2 = 2 ^ c.xs.length := by rw [hG, pow_succ]; omega
  have hh' : Hs.length / 2 = 2 ^ c.xs.length := by rw [hH, pow_succ]; omega
  rw [← combined_step (1 : F) x (weightG c.xs) (weightG (x :: c.xs)) c.xs.length c.xs.length Gs
      (fun i hi => by rw [one_mul]; exact weightG_cons_lt x c.xs hi)
      (fun i hi => weightG_cons_ge x c.xs hi) le_rfl (by rw [hG]; simp),
    ← combined_step x (1 : F) (weightH c.xs) (weightH (x :: c.xs)) c.xs.length c.xs.length Hs
      (fun i hi => weightH_cons_lt x c.xs hi)
      (fun i hi => by rw [one_mul]; exact weightH_cons_ge x c.xs hi) le_rfl (by rw [hH]; simp)]
  rw [foldG, foldH, hh, hh']

theorem paths_length : {q : Nat} → (T : IpaTree F G q) → ∀ c ∈ T.paths,
    c.xs.length = q ∧ c.Ls.length = q ∧ c.Rs.length = q
  | _, .leaf a b, c, h => by
    simp only [IpaTree.paths, List.mem_singleton] at h; subst h; exact ⟨rfl, rfl, rfl⟩
  | _, .node L R x sub, c, h => by
    simp only [IpaTree.paths, List.mem_flatMap, List.mem_map] at h
    obtain ⟨i, -, c', h', rfl⟩ := h
    simp [paths_length (sub i) c' h']

theorem lift_delivers (n : Nat) (x : F) (Gs Hs : List G) (hG : Gs.length = n + n)
    (hH : Hs.length = n + n) (Q P : G) (r : List F × List F × F)
    (h : IsRelation (foldG x Gs) (foldH x Hs) Q r) : Delivers Gs Hs Q P (liftRelation x r) := by
  obtain ⟨u, v, w⟩ := r
  obtain ⟨h1, h2, ⟨y, hy, hy0⟩, h3⟩ := h
  rw [foldG_length] at h1
  rw [foldH_length] at h2
  simp only at h1 h2 h3 hy
  refine ⟨by simp; omega, by simp; omega, ⟨y, ?_, hy0⟩, ?_⟩
  · simp only [List.mem_append] at hy ⊢
    tauto
  · have e1 := dot_comb_right (1 : F) x u (p := Gs.take (Gs.length / 2)) (p' := Gs.drop (Gs.length / 2))
      (by simp; omega)
    have e2 := dot_comb_right x (1 : F) v (p := Hs.take (Hs.length / 2)) (p' := Hs.drop (Hs.length / 2))
      (by simp; omega)
    rw [foldG, foldH, e1, e2] at h3
    have l1 : u.length = (Gs.take (Gs.length / 2)).length := by simp; omega
    have l2 : v.length = (Hs.take (Hs.length / 2)).length := by simp; omega
    have m : ∀ (s : List F) (p : List G), dot (s.map fun y => x * y) p = x • dot s p := by
      intro s p
      rw [← dot_map_mul_left]; simp only [mul_comm]
    simp only
    conv_lhs => rw [← List.take_append_drop (Gs.length / 2) Gs, ← List.take_append_drop (Hs.length / 2) Hs]
    rw [dot_append l1, dot_append (by simpa using l2), m, m]
    simpa using h3

theorem extractRounds_delivers : {q : Nat} → (T : IpaTree F G q) → T.Distinct → (Gs Hs : List G) →
    Gs.length = 2 ^ q → Hs.length = 2 ^ q → (Q P : G) → (∀ c ∈ T.paths, c.Accepts Gs Hs Q P) →
    Delivers Gs Hs Q P (extractRounds T.scalars)
  | _, .leaf a b, _, Gs, Hs, hG, hH, Q, P, h => by
    rw [pow_zero, List.length_eq_one_iff] at hG hH
    obtain ⟨g, rfl⟩ := hG
    obtain ⟨k, rfl⟩ := hH
    have := h ⟨[], [], [], a, b⟩ (by simp [IpaTree.paths])
    simp only [IpaPath.Accepts, combined, foldedP, weightG, weightH] at this
    refine ⟨rfl, rfl, ?_⟩
    simpa using this.symm
  | q + 1, .node L R x sub, hd, Gs, Hs, hG, hH, Q, P, h => by
    obtain ⟨hx, hd⟩ := hd
    have hG2 : Gs.length = 2 ^ q + 2 ^ q := by rw [hG, pow_succ]; omega
    have hH2 : Hs.length = 2 ^ q + 2 ^ q := by rw [hH, pow_succ]; omega
    have ih : ∀ i, Delivers (foldG (x i) Gs) (foldH (x i) Hs) Q ((x i * x i) • L + x i • P + R)
        (extractRounds (sub i).scalars) := by
      intro i
      refine extractRounds_delivers (sub i) (hd i) _ _ (by rw [foldG_length]; omega)
        (by rw [foldH_length]; omega) Q _ ?_
      intro c hc
      have hl := (paths_length (sub i) c hc).1
      rw [← accepts_cons (x i) c L R Gs Hs Q P (by rw [hl, hG]) (by rw [hl, hH])]
      apply h
      simp only [IpaTree.paths, List.mem_flatMap, List.mem_map]
      exact ⟨i, List.mem_finRange i, c, hc, rfl⟩
    simp only [IpaTree.scalars, extractRounds]
    have i0 := ih 0
    have i1 := ih 1
    have i2 := ih 2
    have i3 := ih 3
    cases e0 : extractRounds (sub 0).scalars with
    | inr r =>
      rw [e0] at i0
      exact lift_delivers (2 ^ q) (x 0) Gs Hs hG2 hH2 Q P r i0
    | inl w0 =>
    cases e1 : extractRounds (sub 1).scalars with
    | inr r =>
      rw [e1] at i1
      exact lift_delivers (2 ^ q) (x 1) Gs Hs hG2 hH2 Q P r i1
    | inl w1 =>
    cases e2 : extractRounds (sub 2).scalars with
    | inr r =>
      rw [e2] at i2
      exact lift_delivers (2 ^ q) (x 2) Gs Hs hG2 hH2 Q P r i2
    | inl w2 =>
    cases e3 : extractRounds (sub 3).scalars with
    | inr r =>
      rw [e3] at i3
      exact lift_delivers (2 ^ q) (x 3) Gs Hs hG2 hH2 Q P r i3
    | inl w3 =>
      rw [e0] at i0
      rw [e1] at i1
      rw [e2] at i2
      rw [e3] at i3
      have key : ∀ i, (![w0.1, w1.1, w2.1, w3.1] i).length = 2 ^ q ∧
          (![w0.2, w1.2, w2.2, w3.2] i).length = 2 ^ q ∧
          (x i * x i) • L + x i • P + R = dot (![w0.1, w1.1, w2.1, w3.1] i) (foldG (x i) Gs) +
            dot (![w0.2, w1.2, w2.2, w3.2] i) (foldH (x i) Hs) +
            dot (![w0.1, w1.1, w2.1, w3.1] i) (![w0.2, w1.2, w2.2, w3.2] i) • Q := by
        have l1 : ∀ i, (foldG (x i) Gs).length = 2 ^ q := fun i => by rw [foldG_length]; omega
        have l2 : ∀ i, (foldH (x i) Hs).length = 2 ^ q := fun i => by rw [foldH_length]; omega
        intro i
        fin_cases i
        · exact ⟨i0.1.trans (l1 0), i0.2.1.trans (l2 0), i0.2.2⟩
        · exact ⟨i1.1.trans (l1 1), i1.2.1.trans (l2 1), i1.2.2⟩
        · exact ⟨i2.1.trans (l1 2), i2.2.1.trans (l2 2), i2.2.2⟩
        · exact ⟨i3.1.trans (l1 3), i3.2.1.trans (l2 3), i3.2.2⟩
      have := combineRound_delivers (2 ^ q) x hx _ _ (fun i => (key i).1) (fun i => (key i).2.1)
        (Gs.take (Gs.length / 2)) (Gs.drop (Gs.length / 2)) (Hs.take (Hs.length / 2))
        (Hs.drop (Hs.length / 2)) (by simp; omega) (by simp; omega) (by simp; omega) (by simp; omega)
        Q P L R (by
          intro i
          rw [(key i).2.2, foldG, foldH, dot_comb_right _ _ _ (by simp; omega),
            dot_comb_right _ _ _ (by simp; omega), one_smul, one_smul])
      rwa [List.take_append_drop, List.take_append_drop] at this

/-! ### Conversations with the code -/

section
variable [DecidableEq G]

/-- In some run, `NoZK::verify` met the challenges `alpha = α` and `x_j = c.xs[j]` on the proof with the
points and answers of `c`, and accepted. Runs of different conversations may use different hash
functions, which is what rewinding the prover (programming the hash) amounts to. -/
def IpaAccepted (Gs Hs : List G) (Q : G) (n : Nat) (P : G) (t α : F) (c : IpaPath F G) : Prop :=
  ∃ (cx : Ctx G) (tr tr' : Transcript),
    let p : NoZK F := ⟨c.Ls.map cx.compress, c.Rs.map cx.compress, c.a, c.b⟩
    ipaAlpha F cx.ro tr.log n = α ∧ ipaChallenges F cx.ro tr.log n p.L_vec p.R_vec = c.xs ∧
    p.verify cx tr Gs Hs Q n P t = .ok (true, tr')

/-- In some run, `AlmZK::verify` met the challenges `beta = β`, `alpha = α` and `x_j = c.xs[j]` on the
proof with the point `C_r` and the points and answers of `c`, and accepted. -/
def AlmAccepted (Gs Hs : List G) (Q : G) (n : Nat) (C_w : G) (t : F) (C_r : G) (β α : F)
    (c : IpaPath F G) : Prop :=
  ∃ (cx : Ctx G) (tr tr' : Transcript),
    let p : AlmZK F := ⟨cx.compress C_r, ⟨c.Ls.map cx.compress, c.Rs.map cx.compress, c.a, c.b⟩⟩
    let log := tr.log ++ almHead p.C_r (cx.compress (β • C_w + C_r + (β * β * t) • Q))
    almBeta F cx.ro tr.log p.C_r = β ∧ ipaAlpha F cx.ro log n = α ∧
    ipaChallenges F cx.ro log n p.NoZK.L_vec p.NoZK.R_vec = c.xs ∧
    p.verify cx tr Gs Hs Q n C_w t = .ok (true, tr')

theorem IpaAccepted.accepts {Gs Hs : List G} {Q : G} {n : Nat} {P : G} {t α : F} {c : IpaPath F G}
    (h : IpaAccepted Gs Hs Q n P t α c) (hl : c.Ls.length = c.Rs.length) :
    c.Accepts Gs Hs (α⁻¹ • Q) (P - ((α - 1) * t) • (α⁻¹ • Q)) := by
  obtain ⟨cx, tr, tr', h1, h2, h3⟩ := h
  have hv := (C22_ipa_verify_returns_iff cx _ tr Gs Hs Q n P t).1 ⟨_, h3⟩
  have := C19_ipa_verdict cx _ tr Gs Hs Q n P t c.Ls c.Rs rfl rfl hv
  have hlen : c.xs.length = c.Ls.length := by rw [← h2, ipaChallenges_length]; simp [hl]
  rw [h3] at this
  simp only [h1, h2, List.length_map] at this
  rw [Except.ok.injEq, Prod.mk.injEq] at this
  have := of_decide_eq_true this.1.symm
  rw [IpaPath.Accepts, hlen]
  rwa [← hl, min_self] at this

theorem AlmAccepted.ipa {Gs Hs : List G} {Q : G} {n : Nat} {C_w : G} {t : F} {C_r : G} {β α : F}
    {c : IpaPath F G} (h : AlmAccepted Gs Hs Q n C_w t C_r β α c) :
    IpaAccepted Gs Hs Q n (β • C_w + C_r + (β * β * t) • Q) (β * β * t) α c := by
  obtain ⟨cx, tr, tr', h1, h2, h3, h4⟩ := h
  rw [alm_verify_eq cx _ tr Gs Hs Q n C_w t C_r rfl] at h4
  simp only [h1] at h4
  exact ⟨cx, _, tr', h2, h3, h4⟩

/-- The core of C21: the conversations satisfy the verification equation. -/
theorem ipa_special_soundness_of_accepts {q : Nat} (α : Fin 2 → F) (T : Fin 2 → IpaTree F G q)
    (hT : ∀ i, (T i).Distinct) (hα : α 0 ≠ α 1) (hα0 : ∀ i, α i ≠ 0) (Gs Hs : List G)
    (hG : Gs.length = 2 ^ q) (hH : Hs.length = 2 ^ q) (Q P : G) (t : F)
    (h : ∀ i, ∀ c ∈ (T i).paths,
      c.Accepts Gs Hs ((α i)⁻¹ • Q) (P - ((α i - 1) * t) • ((α i)⁻¹ • Q))) :
    match extractIpa t α fun i => (T i).scalars with
    | .inl (a, b) => a.length = 2 ^ q ∧ b.length = 2 ^ q ∧ P = dot a Gs + dot b Hs + t • Q ∧
        dot a b = t
    | .inr r => IsRelation Gs Hs Q r := by
  have key : ∀ i, Delivers Gs Hs ((α i)⁻¹ • Q) (P - ((α i - 1) * t) • ((α i)⁻¹ • Q))
      (extractRounds (T i).scalars) := fun i =>
    extractRounds_delivers (T i) (hT i) Gs Hs hG hH _ _ (h i)
  have hrel : ∀ i (r : List F × List F × F), IsRelation Gs Hs ((α i)⁻¹ • Q) r →
      IsRelation Gs Hs Q (r.1, r.2.1, r.2.2 * (α i)⁻¹) := by
    rintro i ⟨u, v, w⟩ ⟨l1, l2, ⟨y, hy, hy0⟩, e⟩
    refine ⟨l1, l2, ?_, by rw [smul_smul] at e; exact e⟩
    simp only [List.mem_append, List.mem_singleton] at hy ⊢
    rcases hy with hy | rfl
    · exact ⟨y, .inl hy, hy0⟩
    · exact ⟨_, .inr rfl, mul_ne_zero hy0 (inv_ne_zero (hα0 i))⟩
  have k0 := key 0
  have k1 := key 1
  unfold extractIpa
  cases e0 : extractRounds (T 0).scalars with
  | inr r => rw [e0] at k0; exact hrel 0 r k0
  | inl w0 =>
  cases e1 : extractRounds (T 1).scalars with
  | inr r => rw [e1] at k1; exact hrel 1 r k1
  | inl w1 =>
    rw [e0] at k0
    rw [e1] at k1
    obtain ⟨l0, m0, f0⟩ := k0
    obtain ⟨l1, m1, f1⟩ := k1
    have ha : ∀ i, (![w0.1, w1.1] i).length = 2 ^ q := by
      intro i; fin_cases i
      · exact l0.trans hG
      · exact l1.trans hG
    have hb : ∀ i, (![w0.2, w1.2] i).length = 2 ^ q := by
      intro i; fin_cases i
      · exact m0.trans hH
      · exact m1.trans hH
    have hP : ∀ (i : Fin 2) (p p' : List F), P - ((α i - 1) * t) • ((α i)⁻¹ • Q) =
        dot p Gs + dot p' Hs + dot p p' • ((α i)⁻¹ • Q) →
        P = dot p Gs + dot p' Hs + ((dot p p' + (α i - 1) * t) * (α i)⁻¹) • Q := by
      intro i p p' e
      rw [sub_eq_iff_eq_add] at e
      rw [e]; module
    have g0 := hP 0 _ _ f0
    have g1 := hP 1 _ _ f1
    simp only [relationOr]
    by_cases hz : (∀ y ∈ lin (2 ^ q) ![1, -1] ![w0.1, w1.1], y = 0) ∧
        (∀ y ∈ lin (2 ^ q) ![1, -1] ![w0.2, w1.2], y = 0) ∧
        (dot w0.1 w0.2 + (α 0 - 1) * t) * (α 0)⁻¹ - (dot w1.1 w1.2 + (α 1 - 1) * t) * (α 1)⁻¹ = 0
    · rw [if_pos hz]
      obtain ⟨z1, z2, z3⟩ := hz
      have heq : ∀ (p p' : List F), p.length = 2 ^ q → p'.length = 2 ^ q →
          (∀ y ∈ lin (2 ^ q) ![1, -1] ![p, p'], y = 0) → p = p' := by
        intro p p' hp hp' hz
        rw [getD_list p hp, getD_list p' hp']
        congr 1
        funext j
        have := lin_zero hz j
        rw [Fin.sum_univ_two] at this
        simp only [Matrix.cons_val_zero, Matrix.cons_val_one, one_mul, neg_mul] at this
        exact add_neg_eq_zero.1 this
      have ea : w0.1 = w1.1 := heq _ _ (ha 0) (ha 1) z1
      have eb : w0.2 = w1.2 := heq _ _ (hb 0) (hb 1) z2
      rw [← ea, ← eb] at z3
      have hprod : dot w0.1 w0.2 = t := by
        have n0 := hα0 0
        have n1 := hα0 1
        have : (dot w0.1 w0.2 - t) * (α 1 - α 0) = 0 := by
          field_simp at z3
          linear_combination z3
        rcases mul_eq_zero.1 this with h | h
        · exact sub_eq_zero.1 h
        · exact absurd (sub_eq_zero.1 h).symm hα
      refine ⟨l0.trans hG, m0.trans hH, ?_, hprod⟩
      rw [g0, hprod]
      congr 2
      have n0 := hα0 0
      field_simp
      ring
    · rw [if_neg hz]
      refine ⟨by simp [hG], by simp [hH], ?_, ?_⟩
      · by_contra hc
        push Not at hc
        refine hz ⟨fun y hy => hc y ?_, fun y hy => hc y ?_, hc _ (by simp)⟩
        · exact List.mem_append_left _ (List.mem_append_left _ hy)
        · exact List.mem_append_left _ (List.mem_append_right _ hy)
      · rw [dot_lin _ _ _ _ ha hG, dot_lin _ _ _ _ hb hH, Fin.sum_univ_two, Fin.sum_univ_two]
        simp only [Matrix.cons_val_zero, Matrix.cons_val_one, one_smul, neg_smul, sub_smul]
        have := g0.symm.trans g1
        rw [← sub_eq_zero] at this
        rw [← this]
        abel

/-- C21: special soundness of the inner-product argument, as a reduction. Take trees of conversations
for two different non-zero values of `alpha` with four different challenges at every node, all of them
accepted by the code for the claim `(P, t)`. From the scalars in the trees the extractor computes
vectors with `P = ⟨a,G⟩ + ⟨b,H⟩ + t Q` and `⟨a,b⟩ = t`, or else a non-trivial linear relation between
the generators. -/
theorem C21_ipa_special_soundness {q : Nat} (α : Fin 2 → F) (T : Fin 2 → IpaTree F G q)
    (hT : ∀ i, (T i).Distinct) (hα : α 0 ≠ α 1) (hα0 : ∀ i, α i ≠ 0) (Gs Hs : List G)
    (hG : Gs.length = 2 ^ q) (hH : Hs.length = 2 ^ q) (Q P : G) (t : F)
    (h : ∀ i, ∀ c ∈ (T i).paths, IpaAccepted Gs Hs Q (2 ^ q) P t (α i) c) :
    match extractIpa t α fun i => (T i).scalars with
    | .inl (a, b) => a.length = 2 ^ q ∧ b.length = 2 ^ q ∧ P = dot a Gs + dot b Hs + t • Q ∧
        dot a b = t
    | .inr r => IsRelation Gs Hs Q r :=
  ipa_special_soundness_of_accepts α T hT hα hα0 Gs Hs hG hH Q P t fun i c hc =>
    (h i c hc).accepts (by have := paths_length (T i) c hc; omega)

/-- C21, with generators for which there is no relation at all: the claim is true. -/
theorem C21_ipa_sound_without_relations {q : Nat} (α : Fin 2 → F) (T : Fin 2 → IpaTree F G q)
    (hT : ∀ i, (T i).Distinct) (hα : α 0 ≠ α 1) (hα0 : ∀ i, α i ≠ 0) (Gs Hs : List G)
    (hG : Gs.length = 2 ^ q) (hH : Hs.length = 2 ^ q) (Q P : G) (t : F)
    (h : ∀ i, ∀ c ∈ (T i).paths, IpaAccepted Gs Hs Q (2 ^ q) P t (α i) c)
    (hind : ∀ r : List F × List F × F, ¬ IsRelation Gs Hs Q r) :
    ∃ a b : List F, a.length = 2 ^ q ∧ b.length = 2 ^ q ∧ P = dot a Gs + dot b Hs + t • Q ∧
      dot a b = t := by
  have := C21_ipa_special_soundness α T hT hα hα0 Gs Hs hG hH Q P t h
  split at this
  · exact ⟨_, _, this⟩
  · exact absurd this (hind _)

/-! ### C25 -/

theorem divided3_pow (x : Fin 3 → F) (hx : Function.Injective x) :
    ∑ i, divided3 x i = 0 ∧ ∑ i, divided3 x i * x i = 0 ∧ ∑ i, divided3 x i * (x i * x i) = 1 := by
  have h01 := sub_ne hx (show (0 : Fin 3) ≠ 1 by decide)
  have h02 := sub_ne hx (show (0 : Fin 3) ≠ 2 by decide)
  have h12 := sub_ne hx (show (1 : Fin 3) ≠ 2 by decide)
  have e10 : x 1 - x 0 = -(x 0 - x 1) := by ring
  have e20 : x 2 - x 0 = -(x 0 - x 2) := by ring
  have e21 : x 2 - x 1 = -(x 1 - x 2) := by ring
  refine ⟨?_, ?_, ?_⟩ <;>
  · simp only [Fin.sum_univ_three, divided3, Matrix.cons_val_zero, Matrix.cons_val_one,
      Matrix.cons_val, e10, e20, e21]
    field_simp
    ring

theorem slope3_pow (x : Fin 3 → F) (hx : Function.Injective x) :
    ∑ i, slope3 x i = 0 ∧ ∑ i, slope3 x i * x i = 1 := by
  have h01 := sub_ne hx (show (0 : Fin 3) ≠ 1 by decide)
  constructor
  · simp [Fin.sum_univ_three, slope3]
  · simp only [Fin.sum_univ_three, slope3, Matrix.cons_val_zero, Matrix.cons_val_one, Matrix.cons_val,
      zero_mul, add_zero]
    field_simp
    ring

/-- If the second divided difference vanishes then `y` is affine. -/
theorem affine3 (x y : Fin 3 → F) (hx : Function.Injective x) (h0 : ∑ i, divided3 x i * y i = 0) :
    ∃ δ, ∀ i, y i = δ + x i * ∑ j, slope3 x j * y j := by
  have h01 := sub_ne hx (show (0 : Fin 3) ≠ 1 by decide)
  have h02 := sub_ne hx (show (0 : Fin 3) ≠ 2 by decide)
  have h12 := sub_ne hx (show (1 : Fin 3) ≠ 2 by decide)
  have e10 : x 1 - x 0 = -(x 0 - x 1) := by ring
  have e20 : x 2 - x 0 = -(x 0 - x 2) := by ring
  have e21 : x 2 - x 1 = -(x 1 - x 2) := by ring
  have hγ : ∑ j, slope3 x j * y j = (y 0 - y 1) / (x 0 - x 1) := by
    simp only [Fin.sum_univ_three, slope3, Matrix.cons_val_zero, Matrix.cons_val_one, Matrix.cons_val]
    ring
  rw [hγ]
  refine ⟨y 0 - x 0 * ((y 0 - y 1) / (x 0 - x 1)), ?_⟩
  simp only [Fin.sum_univ_three, divided3, Matrix.cons_val_zero, Matrix.cons_val_one,
      Matrix.cons_val, e10, e20, e21] at h0
  field_simp at h0
  intro i
  fin_cases i
  · show y 0 = y 0 - x 0 * ((y 0 - y 1) / (x 0 - x 1)) + x 0 * ((y 0 - y 1) / (x 0 - x 1))
    ring
  · show y 1 = y 0 - x 0 * ((y 0 - y 1) / (x 0 - x 1)) + x 1 * ((y 0 - y 1) / (x 0 - x 1))
    field_simp
    ring
  · show y 2 = y 0 - x 0 * ((y 0 - y 1) / (x 0 - x 1)) + x 2 * ((y 0 - y 1) / (x 0 - x 1))
    field_simp
    linear_combination h0

/-- The core of C25: the conversations satisfy the verification equation. -/
theorem alm_special_soundness_of_accepts {q : Nat} (β : Fin 3 → F) (α : Fin 3 → Fin 2 → F)
    (T : Fin 3 → Fin 2 → IpaTree F G q) (hT : ∀ i j, (T i j).Distinct) (hβ : Function.Injective β)
    (hα : ∀ i, α i 0 ≠ α i 1) (hα0 : ∀ i j, α i j ≠ 0) (Gs Hs : List G) (hG : Gs.length = 2 ^ q)
    (hH : Hs.length = 2 ^ q) (Q C_w C_r : G) (t : F)
    (h : ∀ i j, ∀ c ∈ (T i j).paths,
      c.Accepts Gs Hs ((α i j)⁻¹ • Q) (β i • C_w + C_r + (β i * β i * t) • Q -
        ((α i j - 1) * (β i * β i * t)) • ((α i j)⁻¹ • Q))) :
    match extractAlm t β α fun i j => (T i j).scalars with
    | .inl (u, v) => u.length = 2 ^ q ∧ v.length = 2 ^ q ∧ C_w = dot u Gs + dot v Hs ∧ dot u v = t
    | .inr r => IsRelation Gs Hs Q r := by
  have key := fun i => ipa_special_soundness_of_accepts (α i) (T i) (hT i) (hα i) (hα0 i) Gs Hs hG hH Q
    (β i • C_w + C_r + (β i * β i * t) • Q) (β i * β i * t) (h i)
  have k0 := key 0
  have k1 := key 1
  have k2 := key 2
  unfold extractAlm
  cases e0 : extractIpa (β 0 * β 0 * t) (α 0) (fun j => (T 0 j).scalars) with
  | inr r => rw [e0] at k0; exact k0
  | inl w0 =>
  cases e1 : extractIpa (β 1 * β 1 * t) (α 1) (fun j => (T 1 j).scalars) with
  | inr r => rw [e1] at k1; exact k1
  | inl w1 =>
  cases e2 : extractIpa (β 2 * β 2 * t) (α 2) (fun j => (T 2 j).scalars) with
  | inr r => rw [e2] at k2; exact k2
  | inl w2 =>
    rw [e0] at k0
    rw [e1] at k1
    rw [e2] at k2
    simp only at k0 k1 k2 ⊢
    set a := ![w0.1, w1.1, w2.1] with hadef
    set b := ![w0.2, w1.2, w2.2] with hbdef
    have key : ∀ i, (a i).length = 2 ^ q ∧ (b i).length = 2 ^ q ∧
        β i • C_w + C_r = dot (a i) Gs + dot (b i) Hs ∧ dot (a i) (b i) = β i * β i * t := by
      intro i
      fin_cases i
      · exact ⟨k0.1, k0.2.1, add_right_cancel k0.2.2.1, k0.2.2.2⟩
      · exact ⟨k1.1, k1.2.1, add_right_cancel k1.2.2.1, k1.2.2.2⟩
      · exact ⟨k2.1, k2.2.1, add_right_cancel k2.2.2.1, k2.2.2.2⟩
    obtain ⟨d0, d1, d2⟩ := divided3_pow β hβ
    obtain ⟨s0, s1⟩ := slope3_pow β hβ
    have hval : ∀ c : Fin 3 → F, dot (lin (2 ^ q) c a) Gs + dot (lin (2 ^ q) c b) Hs =
        (∑ i, c i * β i) • C_w + (∑ i, c i) • C_r := by
      intro c
      rw [dot_lin _ _ _ _ (fun i => (key i).1) hG, dot_lin _ _ _ _ (fun i => (key i).2.1) hH]
      simp only [Finset.sum_smul, ← Finset.sum_add_distrib]
      apply Finset.sum_congr rfl
      intro i _
      have := congrArg (c i • ·) (key i).2.2.1
      simp only [smul_add, smul_smul] at this
      rw [this]
    unfold relationOr
    by_cases hz : (∀ y ∈ lin (2 ^ q) (divided3 β) a, y = 0) ∧
        (∀ y ∈ lin (2 ^ q) (divided3 β) b, y = 0) ∧ (0 : F) = 0
    · rw [if_pos hz]
      obtain ⟨z1, z2, -⟩ := hz
      refine ⟨by simp, by simp, ?_, ?_⟩
      · rw [hval, s0, s1]; simp
      · -- the product
        choose δ hδ using fun j : Fin (2 ^ q) => affine3 β (fun i => (a i).getD j 0) hβ (lin_zero z1 j)
        choose ε hε using fun j : Fin (2 ^ q) => affine3 β (fun i => (b i).getD j 0) hβ (lin_zero z2 j)
        have eab : ∀ i, dot (a i) (b i) = ∑ j : Fin (2 ^ q), (a i).getD j 0 * (b i).getD j 0 := by
          intro i
          conv_lhs => rw [getD_list (a i) (key i).1, getD_list (b i) (key i).2.1]
          rw [dot_ofFn]; rfl
        have ht : ∑ i, divided3 β i * dot (a i) (b i) = t := by
          have : ∀ i, divided3 β i * dot (a i) (b i) = t * (divided3 β i * (β i * β i)) := by
            intro i; rw [(key i).2.2.2]; ring
          simp only [this, ← Finset.mul_sum, d2, mul_one]
        rw [← ht, lin, lin, dot_ofFn]
        simp only [eab, smul_eq_mul]
        conv_rhs =>
          simp only [Finset.mul_sum]
          rw [Finset.sum_comm]
        apply Finset.sum_congr rfl
        intro j _
        have : ∀ i, divided3 β i * ((a i).getD j 0 * (b i).getD j 0) =
            δ j * ε j * divided3 β i +
            (δ j * (∑ k, slope3 β k * (b k).getD j 0) + ε j * (∑ k, slope3 β k * (a k).getD j 0)) *
              (divided3 β i * β i) +
            (∑ k, slope3 β k * (a k).getD j 0) * (∑ k, slope3 β k * (b k).getD j 0) *
              (divided3 β i * (β i * β i)) := by
          intro i
          conv_lhs => rw [hδ j i, hε j i]
          ring
        rw [Finset.sum_congr rfl fun i _ => this i]
        simp only [Finset.sum_add_distrib, ← Finset.mul_sum, d0, d1, d2]
        ring
    · rw [if_neg hz]
      refine ⟨by simp [hG], by simp [hH], ?_, ?_⟩
      · by_contra hc
        push Not at hc
        refine hz ⟨fun y hy => hc y ?_, fun y hy => hc y ?_, rfl⟩
        · exact List.mem_append_left _ (List.mem_append_left _ hy)
        · exact List.mem_append_left _ (List.mem_append_right _ hy)
      · simp only
        rw [hval, d0, d1]; simp

/-- C25: special soundness of AlmZK, as a reduction. Take a first message `C_r`, three different values
of `beta`, for each of them two different non-zero values of `alpha`, and for each of those a tree of
conversations with four different challenges at every node, all of them accepted by the code for the
claim `(C_w, t)`. From the scalars the extractor computes vectors with `C_w = ⟨u,G⟩ + ⟨v,H⟩` and
`⟨u,v⟩ = t`, or else a non-trivial linear relation between the generators. -/
theorem C25_alm_special_soundness {q : Nat} (β : Fin 3 → F) (α : Fin 3 → Fin 2 → F)
    (T : Fin 3 → Fin 2 → IpaTree F G q) (hT : ∀ i j, (T i j).Distinct) (hβ : Function.Injective β)
    (hα : ∀ i, α i 0 ≠ α i 1) (hα0 : ∀ i j, α i j ≠ 0) (Gs Hs : List G) (hG : Gs.length = 2 ^ q)
    (hH : Hs.length = 2 ^ q) (Q C_w C_r : G) (t : F)
    (h : ∀ i j, ∀ c ∈ (T i j).paths, AlmAccepted Gs Hs Q (2 ^ q) C_w t C_r (β i) (α i j) c) :
    match extractAlm t β α fun i j => (T i j).scalars with
    | .inl (u, v) => u.length = 2 ^ q ∧ v.length = 2 ^ q ∧ C_w = dot u Gs + dot v Hs ∧ dot u v = t
    | .inr r => IsRelation Gs Hs Q r :=
  alm_special_soundness_of_accepts β α T hT hβ hα hα0 Gs Hs hG hH Q C_w C_r t fun i j c hc =>
    (h i j c hc).ipa.accepts (by have := paths_length (T i j) c hc; omega)

/-- C25, with generators for which there is no relation at all: the claim is true. -/
theorem C25_alm_sound_without_relations {q : Nat} (β : Fin 3 → F) (α : Fin 3 → Fin 2 → F)
    (T : Fin 3 → Fin 2 → IpaTree F G q) (hT : ∀ i j, (T i j).Distinct) (hβ : Function.Injective β)
    (hα : ∀ i, α i 0 ≠ α i 1) (hα0 : ∀ i j, α i j ≠ 0) (Gs Hs : List G) (hG : Gs.length = 2 ^ q)
    (hH : Hs.length = 2 ^ q) (Q C_w C_r : G) (t : F)
    (h : ∀ i j, ∀ c ∈ (T i j).paths, AlmAccepted Gs Hs Q (2 ^ q) C_w t C_r (β i) (α i j) c)
    (hind : ∀ r : List F × List F × F, ¬ IsRelation Gs Hs Q r) :
    ∃ u v : List F, u.length = 2 ^ q ∧ v.length = 2 ^ q ∧ C_w = dot u Gs + dot v Hs ∧ dot u v = t := by
  have := C25_alm_special_soundness β α T hT hβ hα hα0 Gs Hs hG hH Q C_w C_r t h
  split at this
  · exact ⟨_, _, this⟩
  · exact absurd this (hind _)

end

section
open Toy

/-- The example instance with a hash that returns the bytes `ys` one after the other. -/
def exCx (ys : List K) : Ctx K :=
  { codec with ro := fun log => Vector.ofFn fun i =>
      if i.val = 0 then
        UInt8.ofNat (ys.getD ((log.filter fun e => match e with
          | .chal _ _ => true
          | _ => false).length - 1) 0).val
      else 0 }

/-- Conversations of an honest prover with `a = (1, 2)`, `b = (3, 4)` for `alpha = 1` and `alpha = 2` and
the challenges 1, 2, 3, 4. -/
def exTree (i : Fin 2) : IpaTree K K 1 :=
  let Q : K := ![2, 1] i
  .node (1 * 5 + 4 * 7 + 4 * Q) (2 * 3 + 3 * 9 + 6 * Q) ![1, 2, 3, 4]
    fun j => .leaf (![1, 2, 3, 4] j * 1 + 2) (3 + ![1, 2, 3, 4] j * 4)

/-- C21: trees as in the theorem exist, and the extractor finds the witness. -/
example : (∀ i, (exTree i).Distinct) ∧
    (∀ i, ∀ c ∈ (exTree i).paths, IpaAccepted [3, 5] [7, 9] 2 2 (1 * 3 + 2 * 5 + 3 * 7 + 4 * 9 + 11 * 2)
      11 (![1, 2] i) c) ∧
    extractIpa (11 : K) ![1, 2] (fun i => (exTree i).scalars) = .inl ([1, 2], [3, 4]) := by
  have hx : Function.Injective (![1, 2, 3, 4] : Fin 4 → K) := by decide +kernel
  refine ⟨fun i => ⟨hx, fun _ => trivial⟩, ?_, by decide +kernel⟩
  have key : ∀ i, ∀ c ∈ (exTree i).paths,
      let cx := exCx (![1, 2] i :: c.xs)
      let p : NoZK K := ⟨c.Ls.map cx.compress, c.Rs.map cx.compress, c.a, c.b⟩
      ipaAlpha K cx.ro [] 2 = ![1, 2] i ∧ ipaChallenges K cx.ro [] 2 p.L_vec p.R_vec = c.xs ∧
      (p.verify cx ⟨[]⟩ [3, 5] [7, 9] 2 2 (1 * 3 + 2 * 5 + 3 * 7 + 4 * 9 + 11 * 2) 11).map Prod.fst =
        .ok true := by
    decide +kernel
  intro i c hc
  obtain ⟨h1, h2, h3⟩ := key i c hc
  cases e : NoZK.verify (exCx (![1, 2] i :: c.xs)) (⟨c.Ls.map (exCx (![1, 2] i :: c.xs)).compress,
      c.Rs.map (exCx (![1, 2] i :: c.xs)).compress, c.a, c.b⟩ : NoZK K) ⟨[]⟩ [3, 5] [7, 9] 2 2
      (1 * 3 + 2 * 5 + 3 * 7 + 4 * 9 + 11 * 2) 11 with
  | error _ => simp only [e] at h3; cases h3
  | ok r =>
    simp only [e] at h3
    have h3 : r.1 = true := Except.ok.inj h3
    exact ⟨_, ⟨[]⟩, r.2, h1, h2, by rw [e, ← h3]⟩

/-- Conversations of an honest AlmZK prover for `C_w = ⟨(1, 2), G⟩ + ⟨(3, 4), H⟩` with the masks `(4, -3)`,
orthogonal to `(3, 4)`, and `0`; `beta` is 1, 2 or 3. -/
def exAlmTree (i : Fin 3) (j : Fin 2) : IpaTree K K 1 :=
  let Q : K := ![2, 1] j
  let β : K := ![1, 2, 3] i
  let a : Fin 2 → K := ![β * 1 + 4, β * 2 - 3]
  let b : Fin 2 → K := ![β * 3, β * 4]
  .node (a 0 * 5 + b 1 * 7 + a 0 * b 1 * Q) (a 1 * 3 + b 0 * 9 + a 1 * b 0 * Q) ![1, 2, 3, 4]
    fun k => .leaf (![1, 2, 3, 4] k * a 0 + a 1) (b 0 + ![1, 2, 3, 4] k * b 1)

/-- C25: trees as in the theorem exist, and the extractor finds the witness. -/
example : (∀ i j, (exAlmTree i j).Distinct) ∧
    (∀ i j, ∀ c ∈ (exAlmTree i j).paths, AlmAccepted [3, 5] [7, 9] 2 2 (1 * 3 + 2 * 5 + 3 * 7 + 4 * 9) 11
      (4 * 3 - 3 * 5) (![1, 2, 3] i) (![1, 2] j) c) ∧
    extractAlm (11 : K) ![1, 2, 3] (fun _ => ![1, 2]) (fun i j => (exAlmTree i j).scalars) =
      .inl ([1, 2], [3, 4]) := by
  have hx : Function.Injective (![1, 2, 3, 4] : Fin 4 → K) := by decide +kernel
  refine ⟨fun i j => ⟨hx, fun _ => trivial⟩, ?_, by decide +kernel⟩
  have key : ∀ i j, ∀ c ∈ (exAlmTree i j).paths,
      let β : K := ![1, 2, 3] i
      let cx := exCx (β :: ![1, 2] j :: c.xs)
      let p : AlmZK K := ⟨cx.compress (4 * 3 - 3 * 5), ⟨c.Ls.map cx.compress, c.Rs.map cx.compress, c.a, c.b⟩⟩
      let log := [] ++ almHead p.C_r (cx.compress (β • (1 * 3 + 2 * 5 + 3 * 7 + 4 * 9) + (4 * 3 - 3 * 5) +
        (β * β * 11) • 2))
      almBeta K cx.ro [] p.C_r = β ∧ ipaAlpha K cx.ro log 2 = ![1, 2] j ∧
      ipaChallenges K cx.ro log 2 p.NoZK.L_vec p.NoZK.R_vec = c.xs ∧
      (p.verify cx ⟨[]⟩ [3, 5] [7, 9] 2 2 (1 * 3 + 2 * 5 + 3 * 7 + 4 * 9) 11).map Prod.fst = .ok true := by
    decide +kernel
  intro i j c hc
  obtain ⟨h1, h2, h3, h4⟩ := key i j c hc
  revert h1 h2 h3 h4
  generalize exCx (![1, 2, 3] i :: ![1, 2] j :: c.xs) = cx
  intro h1 h2 h3 h4
  cases e : AlmZK.verify cx (⟨cx.compress (4 * 3 - 3 * 5), ⟨c.Ls.map cx.compress,
      c.Rs.map cx.compress, c.a, c.b⟩⟩ : AlmZK K) ⟨[]⟩ [3, 5] [7, 9] 2 2
      (1 * 3 + 2 * 5 + 3 * 7 + 4 * 9) 11 with
  | error _ => simp only [e] at h4; cases h4
  | ok r =>
    simp only [e] at h4
    have h4 : r.1 = true := Except.ok.inj h4
    exact ⟨cx, ⟨[]⟩, r.2, h1, h2, h3, by rw [e, ← h4]⟩
end

end Qesa.Props
