import Mathlib.Algebra.Polynomial.Roots
import Mathlib.Data.Set.Card
import Mathlib.LinearAlgebra.Matrix.ToLinearEquiv
import Mathlib.SetTheory.Cardinal.Finite
import Mathlib.Tactic.LinearCombination
import Verif.Proofs.AlmZk
import Verif.Proofs.Matrix
/- How many random tapes make the masks of AlmZK fail. -/
namespace Qesa
open Spec

/-! ### Counting -/

/-- Double counting along a permutation of the pairs. -/
theorem card_mul_le {X Y : Type} [Fintype X] [Finite Y] (e : X × Y ≃ X × Y) (P : X → Prop) (m : Nat)
    (h : ∀ x, Nat.card {y // P (e (x, y)).1} ≤ m) :
    Nat.card {x // P x} * Nat.card Y ≤ m * Nat.card X := by
  have e1 : {x // P x} × Y ≃ {z : X × Y // P z.1} :=
    { toFun := fun z => ⟨(z.1.1, z.2), z.1.2⟩
      invFun := fun z => (⟨z.1.1, z.2⟩, z.1.2)
      left_inv := fun _ => rfl
      right_inv := fun _ => rfl }
  have e2 : {z : X × Y // P (e z).1} ≃ {z : X × Y // P z.1} :=
    e.subtypeEquiv fun _ => Iff.rfl
  have e3 : {z : X × Y // P (e z).1} ≃ Σ x, {y // P (e (x, y)).1} :=
    { toFun := fun z => ⟨z.1.1, z.1.2, z.2⟩
      invFun := fun z => ⟨(z.1, z.2.1), z.2.2⟩
      left_inv := fun _ => rfl
      right_inv := fun _ => rfl }
  rw [← Nat.card_prod, Nat.card_congr (e1.trans (e2.symm.trans e3)), Nat.card_sigma]
  calc ∑ x, Nat.card {y // P (e (x, y)).1} ≤ ∑ _x : X, m := Finset.sum_le_sum fun x _ => h x
    _ = m * Nat.card X := by
      rw [Finset.sum_const, Finset.card_univ, Nat.card_eq_fintype_card, smul_eq_mul, mul_comm]

theorem card_or {X : Type} (P Q : X → Prop) :
    Nat.card {x // P x ∨ Q x} ≤ Nat.card {x // P x} + Nat.card {x // Q x} :=
  Set.ncard_union_le {x | P x} {x | Q x}

theorem card_imp {X : Type} [Finite X] {P Q : X → Prop} (h : ∀ x, P x → Q x) :
    Nat.card {x // P x} ≤ Nat.card {x // Q x} :=
  Nat.card_le_card_of_injective (fun x => (⟨x.1, h _ x.2⟩ : {x // Q x})) fun x y e => by
    simp only [Subtype.mk.injEq] at e
    exact Subtype.ext e

variable {F : Type} [Field F]

theorem card_roots (p : Polynomial F) (hp : p ≠ 0) : Nat.card {y // p.eval y = 0} ≤ p.natDegree := by
  classical
  have h : Nat.card {y // p.eval y = 0} = p.roots.toFinset.card := by
    rw [Nat.subtype_card]
    intro x
    simp [hp]
  rw [h]
  exact (Multiset.toFinset_card_le _).trans (Polynomial.card_roots' p)

theorem card_linear (α β : F) (h : β ≠ 0) : Nat.card {y : F // α + y * β = 0} ≤ 1 := by
  have : Subsingleton {y : F // α + y * β = 0} :=
    ⟨fun x y => Subtype.ext (mul_right_cancel₀ h (by linear_combination x.2 - y.2))⟩
  exact Finite.card_le_one_iff_subsingleton.2 this

theorem card_quadratic (α β γ : F) (h : γ ≠ 0) :
    Nat.card {y : F // α + y * β + y * y * γ = 0} ≤ 2 := by
  have hd := Polynomial.natDegree_quadratic (b := β) (c := α) h
  have hp : Polynomial.C γ * Polynomial.X ^ 2 + Polynomial.C β * Polynomial.X + Polynomial.C α ≠ 0 := by
    intro e; rw [e] at hd; simp at hd
  have := card_roots _ hp
  rw [hd] at this
  refine le_trans (le_of_eq (Nat.card_congr (Equiv.subtypeEquivRight fun y => ?_))) this
  simp only [Polynomial.eval_add, Polynomial.eval_mul, Polynomial.eval_C, Polynomial.eval_pow,
    Polynomial.eval_X]
  rw [show γ * y ^ 2 + β * y + α = α + y * β + y * y * γ by ring]

/-- Counting along parallel lines. -/
theorem card_line {V : Type} [AddCommGroup V] [Module F V] [Fintype V] [Finite F] (d : V)
    (P : V → Prop) (m : Nat) (h : ∀ t, Nat.card {y : F // P (t + y • d)} ≤ m) :
    Nat.card {t // P t} * Nat.card F ≤ m * Nat.card V :=
  card_mul_le (Y := F)
    { toFun := fun z => (z.1 + z.2 • d, z.2)
      invFun := fun z => (z.1 - z.2 • d, z.2)
      left_inv := fun z => by simp
      right_inv := fun z => by simp } P m h

/-- Counting along one coordinate of a function, which may depend on the other values. -/
theorem card_update {D V : Type} [DecidableEq D] [Fintype D] [Fintype V] (q : (D → V) → D)
    (hq : ∀ f v, q (Function.update f (q f) v) = q f) (P : (D → V) → Prop) (m : Nat)
    (h : ∀ f, Nat.card {v // P (Function.update f (q f) v)} ≤ m) :
    Nat.card {f // P f} * Nat.card V ≤ m * Nat.card (D → V) := by
  have inv : ∀ z : (D → V) × V,
      (Function.update (Function.update z.1 (q z.1) z.2) (q (Function.update z.1 (q z.1) z.2)) (z.1 (q z.1)),
        Function.update z.1 (q z.1) z.2 (q (Function.update z.1 (q z.1) z.2))) = z := by
    intro z
    rw [hq]
    simp
  exact card_mul_le (Y := V)
    { toFun := fun z => (Function.update z.1 (q z.1) z.2, z.1 (q z.1))
      invFun := fun z => (Function.update z.1 (q z.1) z.2, z.1 (q z.1))
      left_inv := inv
      right_inv := inv } P m h

theorem card_joint_left {X Y : Type} [Fintype X] [Fintype Y] (P : X × Y → Prop) (a m : Nat)
    (h : ∀ y, Nat.card {x // P (x, y)} * a ≤ m * Nat.card X) :
    Nat.card {z // P z} * a ≤ m * (Nat.card X * Nat.card Y) := by
  have e : {z : X × Y // P z} ≃ Σ y, {x // P (x, y)} :=
    { toFun := fun z => ⟨z.1.2, z.1.1, z.2⟩
      invFun := fun z => ⟨(z.2.1, z.1), z.2.2⟩
      left_inv := fun _ => rfl
      right_inv := fun _ => rfl }
  rw [Nat.card_congr e, Nat.card_sigma, Finset.sum_mul]
  calc ∑ y, Nat.card {x // P (x, y)} * a ≤ ∑ _y : Y, m * Nat.card X := Finset.sum_le_sum fun y _ => h y
    _ = _ := by
      rw [Finset.sum_const, Finset.card_univ, ← Nat.card_eq_fintype_card, smul_eq_mul]; ring

theorem card_joint_right {X Y : Type} [Fintype X] [Fintype Y] (P : X × Y → Prop) (a m : Nat)
    (h : ∀ x, Nat.card {y // P (x, y)} * a ≤ m * Nat.card Y) :
    Nat.card {z // P z} * a ≤ m * (Nat.card X * Nat.card Y) := by
  have := card_joint_left (fun z : Y × X => P (z.2, z.1)) a m h
  rw [mul_comm (Nat.card X)]
  refine le_trans (le_of_eq ?_) this
  congr 1
  exact Nat.card_congr ((Equiv.prodComm X Y).subtypeEquiv fun z => Iff.rfl)

/-! ### The linear algebra of the masks -/

/-- What `orth a b` returns. -/
def res {n : Nat} (a b : Fin n → F) : Fin n → F := b - (a ⬝ᵥ b * (a ⬝ᵥ a)⁻¹) • a

theorem res_line {n : Nat} (a s d : Fin n → F) (y : F) :
    res a (s + y • d) = res a s + y • res a d := by
  unfold res
  rw [dotProduct_add, dotProduct_smul]
  ext i
  simp only [Pi.add_apply, Pi.sub_apply, Pi.smul_apply, smul_eq_mul]
  ring

theorem dot_res {n : Nat} (x a s : Fin n → F) :
    x ⬝ᵥ res a s = x ⬝ᵥ s - a ⬝ᵥ s * (a ⬝ᵥ a)⁻¹ * (x ⬝ᵥ a) := by
  unfold res
  rw [dotProduct_sub, dotProduct_smul, smul_eq_mul]

theorem res_of_orth {n : Nat} (a s : Fin n → F) (h : a ⬝ᵥ s = 0) : res a s = s := by
  unfold res; rw [h]; simp

/-- The tape is fine for the masks; `s` and `s'` are the two samples. -/
def GoodSamples {n : Nat} (a b s s' : Fin n → F) : Prop :=
  b ⬝ᵥ s ≠ 0 ∧ a ⬝ᵥ res b s ≠ 0 ∧ a ⬝ᵥ s' ≠ 0 ∧
    res a (res b s) ⬝ᵥ s' ≠ 0 ∧ res a (res b s) ⬝ᵥ res a (res b s) ≠ 0

/-- Few pairs of samples are bad.  `S` are the positions that carry randomness, `V` the tapes. -/
theorem card_bad_samples [Fintype F] {n : Nat} {V : Type} [AddCommGroup V] [Module F V] [Fintype V]
    (h2 : (2 : F) ≠ 0) (S : Fin n → Prop) (T₁ T₂ : V →ₗ[F] (Fin n → F))
    (l₁ : ∀ z : Fin n → F, (∀ j, z j ≠ 0 → S j) → ∃ e, T₁ e = z ∧ T₂ e = 0)
    (l₂ : ∀ z : Fin n → F, (∀ j, z j ≠ 0 → S j) → ∃ e, T₁ e = 0 ∧ T₂ e = z)
    (p : Fin 3 → Fin n) (hp : Function.Injective p) (hpS : ∀ i, S (p i)) (a b : Fin n → F)
    (ha : ∃ j, S j ∧ a j ≠ 0) (hb : ∃ j, S j ∧ b j ≠ 0)
    (hc : ∃ j, S j ∧ a j - a ⬝ᵥ b * (b ⬝ᵥ b)⁻¹ * b j ≠ 0) :
    Nat.card {t : V // ¬ GoodSamples a b (T₁ t) (T₂ t)} * Nat.card F ≤ 7 * Nat.card V := by
  classical
  have single : ∀ i, S i → ∀ j, (Pi.single i (1 : F) : Fin n → F) j ≠ 0 → S j := by
    intro i hi j hj
    by_cases e : j = i
    · exact e ▸ hi
    · exact absurd (Pi.single_eq_of_ne e _) hj
  -- linear conditions on the two samples
  have lin₁ : ∀ x : Fin n → F, (∃ j, S j ∧ x j ≠ 0) →
      Nat.card {t : V // x ⬝ᵥ T₁ t = 0} * Nat.card F ≤ 1 * Nat.card V := by
    rintro x ⟨j, hj, hx⟩
    obtain ⟨d, hd, -⟩ := l₁ _ (single j hj)
    refine card_line d _ 1 fun t => ?_
    simp only [map_add, map_smul, dotProduct_add, dotProduct_smul, hd, smul_eq_mul,
      dotProduct_single, mul_one]
    exact card_linear _ _ hx
  have lin₂ : ∀ x : Fin n → F, (∃ j, S j ∧ x j ≠ 0) →
      Nat.card {t : V // x ⬝ᵥ T₂ t = 0} * Nat.card F ≤ 1 * Nat.card V := by
    rintro x ⟨j, hj, hx⟩
    obtain ⟨d, -, hd⟩ := l₂ _ (single j hj)
    refine card_line d _ 1 fun t => ?_
    simp only [map_add, map_smul, dotProduct_add, dotProduct_smul, hd, smul_eq_mul,
      dotProduct_single, mul_one]
    exact card_linear _ _ hx
  set c : Fin n → F := a - (a ⬝ᵥ b * (b ⬝ᵥ b)⁻¹) • b with hcd
  have hcs : ∀ s, a ⬝ᵥ res b s = c ⬝ᵥ s := by
    intro s
    rw [dot_res, hcd, sub_dotProduct, smul_dotProduct]
    simp only [smul_eq_mul]; ring
  -- a sparse vector orthogonal to `b` and `c`
  obtain ⟨z, hzS, ⟨i, hzi⟩, hzb, hzc⟩ : ∃ z : Fin n → F, (∀ j, z j ≠ 0 → S j) ∧ (∃ i, z i ≠ 0) ∧
      b ⬝ᵥ z = 0 ∧ c ⬝ᵥ z = 0 := by
    set M : Matrix (Fin 3) (Fin 3) F := Matrix.of ![fun k => b (p k), fun k => c (p k), 0] with hM
    have hdet : M.det = 0 := Matrix.det_eq_zero_of_row_eq_zero 2 fun j => by simp [hM]
    obtain ⟨x, hx, hMx⟩ := Matrix.exists_mulVec_eq_zero_iff.2 hdet
    have dotz : ∀ v : Fin n → F, v ⬝ᵥ (∑ k, x k • Pi.single (p k) (1 : F)) = ∑ k, v (p k) * x k := by
      intro v
      rw [dotProduct_sum]
      refine Finset.sum_congr rfl fun k _ => ?_
      rw [dotProduct_smul, dotProduct_single, mul_one, smul_eq_mul, mul_comm]
    have val : ∀ k, (∑ k, x k • Pi.single (p k) (1 : F) : Fin n → F) (p k) = x k := by
      intro k
      have := dotz (Pi.single (p k) 1)
      rw [single_dotProduct, one_mul] at this
      rw [this, Finset.sum_eq_single k]
      · simp
      · intro l _ hl
        rw [Pi.single_eq_of_ne (fun e => hl (hp e)), zero_mul]
      · simp
    refine ⟨∑ k, x k • Pi.single (p k) (1 : F), ?_, ?_, ?_, ?_⟩
    · intro j hj
      by_contra hS
      apply hj
      rw [Finset.sum_apply]
      refine Finset.sum_eq_zero fun k _ => ?_
      have : j ≠ p k := fun e => hS (e ▸ hpS k)
      simp [Pi.single_eq_of_ne this]
    · obtain ⟨k, hk⟩ := Function.ne_iff.1 hx
      exact ⟨p k, by rw [val]; exact hk⟩
    · rw [dotz]
      simpa [hM, Matrix.mulVec, dotProduct] using congrFun hMx 0
    · rw [dotz]
      simpa [hM, Matrix.mulVec, dotProduct] using congrFun hMx 1
  have hSi : S i := hzS i hzi
  have hza : a ⬝ᵥ z = 0 := by rw [← res_of_orth b z hzb, hcs, hzc]
  have hUz : res a (res b z) = z := by rw [res_of_orth b z hzb, res_of_orth a z hza]
  have Uline : ∀ s d (y : F), res a (res b (s + y • d)) = res a (res b s) + y • res a (res b d) := by
    intro s d y; rw [res_line, res_line]
  -- the third mask condition
  have e4 : Nat.card {t : V // res a (res b (T₁ t)) i = 0} * Nat.card F ≤ 1 * Nat.card V := by
    obtain ⟨d, hd, -⟩ := l₁ z hzS
    refine card_line d _ 1 fun t => ?_
    simp only [map_add, map_smul, hd, Uline, hUz, Pi.add_apply, Pi.smul_apply, smul_eq_mul]
    exact card_linear _ _ hzi
  have e5 : Nat.card {t : V // res a (res b (T₁ t)) i ≠ 0 ∧ res a (res b (T₁ t)) ⬝ᵥ T₂ t = 0} *
      Nat.card F ≤ 1 * Nat.card V := by
    obtain ⟨d, hd, hd'⟩ := l₂ _ (single i hSi)
    refine card_line d _ 1 fun t => ?_
    simp only [map_add, map_smul, hd, hd', smul_zero, add_zero, dotProduct_add, dotProduct_smul,
      smul_eq_mul, dotProduct_single, mul_one]
    by_cases h : res a (res b (T₁ t)) i = 0
    · simp [h]
    · refine (card_imp fun y hy => hy.2).trans (card_linear _ _ h)
  have e6 : Nat.card {t : V // res a (res b (T₁ t)) ⬝ᵥ res a (res b (T₁ t)) = 0} * Nat.card F ≤
      2 * Nat.card V := by
    obtain ⟨w, hwS, hw⟩ : ∃ w : Fin n → F, (∀ j, w j ≠ 0 → S j) ∧
        res a (res b w) ⬝ᵥ res a (res b w) ≠ 0 := by
      by_contra hno
      push Not at hno
      set w : Fin n → F := Pi.single i 1 with hw
      have h1 := hno z hzS
      have h2' := hno w (single i hSi)
      have h3 := hno (z + (1 : F) • w) (by
        intro j hj
        by_cases hz : z j = 0
        · refine single i hSi j ?_
          intro hw0
          apply hj
          simp [hz, hw, hw0]
        · exact hzS j hz)
      rw [Uline, hUz] at h3
      rw [hUz] at h1
      simp only [one_smul, add_dotProduct, dotProduct_add, h1, h2', zero_add, add_zero,
        dotProduct_comm (res a (res b w)) z] at h3
      rw [dot_res, dot_res, dotProduct_comm z a, hza, dotProduct_comm z b, hzb, hw,
        dotProduct_single] at h3
      have : (2 : F) * z i = 0 := by linear_combination h3
      rcases mul_eq_zero.1 this with h | h
      · exact h2 h
      · exact hzi h
    obtain ⟨d, hd, -⟩ := l₁ w hwS
    refine card_line d _ 2 fun t => ?_
    simp only [map_add, map_smul, hd, Uline]
    set u := res a (res b (T₁ t))
    set v := res a (res b w)
    have : ∀ y : F, (u + y • v) ⬝ᵥ (u + y • v) = u ⬝ᵥ u + y * (2 * (u ⬝ᵥ v)) + y * y * (v ⬝ᵥ v) := by
      intro y
      simp only [add_dotProduct, dotProduct_add, smul_dotProduct, dotProduct_smul, smul_eq_mul,
        dotProduct_comm v u]
      ring
    simp only [this]
    exact card_quadratic _ _ _ hw
  have b1 := lin₁ b hb
  have b2 := lin₁ c hc
  have b3 := lin₂ a ha
  have all : Nat.card {t : V // ¬ GoodSamples a b (T₁ t) (T₂ t)} ≤
      Nat.card {t : V // b ⬝ᵥ T₁ t = 0} + (Nat.card {t : V // c ⬝ᵥ T₁ t = 0} +
      (Nat.card {t : V // a ⬝ᵥ T₂ t = 0} + (Nat.card {t : V // res a (res b (T₁ t)) i = 0} +
      (Nat.card {t : V // res a (res b (T₁ t)) i ≠ 0 ∧ res a (res b (T₁ t)) ⬝ᵥ T₂ t = 0} +
      Nat.card {t : V // res a (res b (T₁ t)) ⬝ᵥ res a (res b (T₁ t)) = 0})))) := by
    refine le_trans (card_imp (Q := fun t => b ⬝ᵥ T₁ t = 0 ∨ (c ⬝ᵥ T₁ t = 0 ∨ (a ⬝ᵥ T₂ t = 0 ∨
      (res a (res b (T₁ t)) i = 0 ∨
        ((res a (res b (T₁ t)) i ≠ 0 ∧ res a (res b (T₁ t)) ⬝ᵥ T₂ t = 0) ∨
          res a (res b (T₁ t)) ⬝ᵥ res a (res b (T₁ t)) = 0))))) ?_) ?_
    · intro t ht
      by_contra hcon
      push Not at hcon
      obtain ⟨g1, g2, g3, g4, g5, g6⟩ := hcon
      exact ht ⟨g1, by rw [hcs]; exact g2, g3, g5 g4, g6⟩
    · refine (card_or _ _).trans (Nat.add_le_add_left ?_ _)
      refine (card_or _ _).trans (Nat.add_le_add_left ?_ _)
      refine (card_or _ _).trans (Nat.add_le_add_left ?_ _)
      refine (card_or _ _).trans (Nat.add_le_add_left ?_ _)
      exact card_or _ _
  calc _ ≤ _ := Nat.mul_le_mul_right _ all
    _ ≤ 7 * Nat.card V := by simp only [add_mul]; omega

/-! ### The samplers as linear maps -/

/-- The sparse sample for the tape `τ`. -/
def samp (n : Nat) (τ : Tape F) (j : Fin n) : F :=
  if j.val ∈ samplePositions n then τ (lastWrite (samplePositions n) j) else 0

theorem sampleMNPlus_samp (n : Nat) (hn : 2 ≤ n) (τ : Tape F) : sampleMNPlus n τ =
    .ok (List.ofFn (samp n τ), fun i => τ (i + (samplePositions n).length)) := by
  rw [sampleMNPlus_eq n hn, ← writeAll_tape (List.replicate n 0)]
  congr 1
  refine Prod.ext ?_ rfl
  apply List.ext_getElem?
  intro j
  rcases Nat.lt_or_ge j n with h | h
  · rw [writeAll_getElem? _ _ _ _ (by simpa using h), List.getElem?_ofFn, dif_pos h]
    simp only [samp]
    split
    · rfl
    · simp [h]
  · rw [List.getElem?_eq_none (by rw [writeAll_length]; simpa using h),
      List.getElem?_eq_none (by simpa using h)]

theorem length_loopPositions (k : Nat) : ∀ (d fuel e : Nat), e + d = k → d < fuel →
    (loopPositions (2 ^ k) fuel (2 ^ (e + 1))).length = 2 * d := by
  intro d
  induction d with
  | zero =>
    intro fuel e he hf
    obtain ⟨fuel, rfl⟩ : ∃ f, fuel = f + 1 := ⟨fuel - 1, by omega⟩
    unfold loopPositions
    rw [if_neg]
    · rfl
    · have : 2 ^ k < 2 ^ (e + 1) := Nat.pow_lt_pow_right (by decide) (by omega)
      omega
  | succ d ih =>
    intro fuel e he hf
    obtain ⟨fuel, rfl⟩ : ∃ f, fuel = f + 1 := ⟨fuel - 1, by omega⟩
    unfold loopPositions
    rw [if_pos (Nat.pow_le_pow_right (by decide) (by omega))]
    simp only [List.length_cons]
    rw [← pow_succ, ih fuel (e + 1) (by omega) (by omega)]
    omega

/-- `2 k + 2` scalars are drawn for a vector of length `2 ^ k`. -/
theorem length_samplePositions (k : Nat) (hk : 1 ≤ k) : (samplePositions (2 ^ k)).length = 2 * k + 2 := by
  have h := length_loopPositions k (k - 1) (2 ^ k + 1) 1 (by omega)
    (by have := Nat.lt_two_pow_self (n := k); omega)
  simp only [samplePositions, List.length_append, List.length_cons, List.length_nil]
  rw [show (4 : Nat) = 2 ^ (1 + 1) from rfl, h]
  omega

theorem lastWrite_inj {ps : List Nat} {i j : Nat} (hi : i ∈ ps) (hj : j ∈ ps)
    (h : lastWrite ps i = lastWrite ps j) : i = j := by
  have h1 := (lastWrite_lt hi).2
  rw [h, (lastWrite_lt hj).2] at h1
  exact (Option.some.inj h1).symm

/-- The tape entries that produce the sparse vector `z`, shifted by `o`. -/
noncomputable def unsamp (n N o : Nat) (z : Fin n → F) : Fin N → F := by
  classical
  exact fun i => if h : ∃ j : Fin n, j.val ∈ samplePositions n ∧
    i.val = o + lastWrite (samplePositions n) j then z h.choose else 0

theorem unsamp_at (n N o : Nat) (z : Fin n → F) (i : Fin N) (j : Fin n) (hj : j.val ∈ samplePositions n)
    (h : i.val = o + lastWrite (samplePositions n) j) : unsamp n N o z i = z j := by
  classical
  have hex : ∃ j : Fin n, j.val ∈ samplePositions n ∧ i.val = o + lastWrite (samplePositions n) j :=
    ⟨j, hj, h⟩
  unfold unsamp
  rw [dif_pos hex]
  congr 1
  apply Fin.ext
  exact lastWrite_inj hex.choose_spec.1 hj (by have := hex.choose_spec.2; omega)

theorem unsamp_off (n N o : Nat) (z : Fin n → F) (i : Fin N)
    (h : ∀ j : Fin n, j.val ∈ samplePositions n → i.val ≠ o + lastWrite (samplePositions n) j) :
    unsamp n N o z i = 0 := by
  classical
  unfold unsamp
  rw [dif_neg]
  rintro ⟨j, hj, e⟩
  exact h j hj e

/-- The sample taken after skipping `o` tape entries, as a linear map of the tape. -/
def sampLin (n N o : Nat) (h : o + (samplePositions n).length ≤ N) : (Fin N → F) →ₗ[F] (Fin n → F) where
  toFun t j := if hj : j.val ∈ samplePositions n then
    t ⟨o + lastWrite (samplePositions n) j, by have := (lastWrite_lt hj).1; omega⟩ else 0
  map_add' s t := by ext j; simp only [Pi.add_apply]; split <;> simp
  map_smul' c t := by ext j; simp only [Pi.smul_apply, RingHom.id_apply]; split <;> simp

theorem sampLin_unsamp (n N o : Nat) (h : o + (samplePositions n).length ≤ N) (z : Fin n → F)
    (hz : ∀ j, z j ≠ 0 → j.val ∈ samplePositions n) : sampLin n N o h (unsamp n N o z) = z := by
  ext j
  simp only [sampLin, LinearMap.coe_mk, AddHom.coe_mk]
  split
  · next hj => exact unsamp_at n N o z _ j hj rfl
  · next hj => by_contra hne; exact hj (hz j (Ne.symm hne))

theorem sampLin_unsamp_other (n N o o' : Nat) (h : o + (samplePositions n).length ≤ N) (z : Fin n → F)
    (ho : o + (samplePositions n).length ≤ o' ∨ o' + (samplePositions n).length ≤ o) :
    sampLin n N o h (unsamp n N o' z) = 0 := by
  ext j
  simp only [sampLin, LinearMap.coe_mk, AddHom.coe_mk, Pi.zero_apply]
  split
  · next hj =>
    refine unsamp_off n N o' z _ fun j' hj' => ?_
    have h1 := (lastWrite_lt hj).1
    have h2 := (lastWrite_lt hj').1
    simp only
    omega
  · rfl

end Qesa
