import Verif.Props.TestIpa
import Verif.Props.QesaCompleteness
/- The tests of the quadratic-equation argument and of the Copy argument: C81. -/
namespace Qesa.Props
open Qesa Spec Ipa Copy Tests

section
variable {F : Type} [Field F] [DecidableEq F]

/-! ### The helper functions of the tests -/

theorem helperRows_ok {n : Nat} (w : Fin n → F) (hw : w ⬝ᵥ w ≠ 0) : ∀ (k : Nat) (τ : Tape F),
    (∀ i : Fin k, (∑ j : Fin n, w j * τ (i * n + j)) ≠ 0) →
    helperRows (List.ofFn w) k τ = .ok (List.ofFn fun i : Fin k => List.ofFn (res w fun j => τ (i * n + j)),
      fun i => τ (i + k * n)) := by
  intro k
  induction k with
  | zero => intro τ _; simp [helperRows]
  | succ k ih =>
    intro τ h
    have h0 : w ⬝ᵥ (fun j : Fin n => τ j) ≠ 0 := by simpa [dotProduct] using h 0
    rw [helperRows, List.length_ofFn, drawN_eq]
    simp only
    rw [orth_ofFn w _ h0, ok_bind, rassert_true, ok_bind, ih (fun i => τ (i + n)), ok_bind]
    · simp only [R_pure, Except.ok.injEq, Prod.mk.injEq, List.ofFn_succ, List.cons.injEq]
      refine ⟨⟨by simp, ?_⟩, ?_⟩
      · congr 1; funext i; congr 2; funext j; congr 1; simp only [Fin.val_succ]; ring
      · funext i; congr 1; ring
    · intro i
      have := h i.succ
      simp only [Fin.val_succ] at this
      rw [show (∑ j : Fin n, w j * τ (i * n + j + n)) = ∑ j : Fin n, w j * τ ((i + 1) * n + j) from
        Finset.sum_congr rfl fun j _ => by congr 2; ring]
      exact this
    · rw [innerProduct_eq_dot, dot_ofFn_vec, dot_res]
      field_simp
      ring

theorem helperRows_cond {n : Nat} (w : Fin n → F) : ∀ (k : Nat) (τ : Tape F) r,
    helperRows (List.ofFn w) k τ = .ok r →
    (0 < k → w ⬝ᵥ w ≠ 0) ∧ (∀ i : Fin k, (∑ j : Fin n, w j * τ (i * n + j)) ≠ 0) ∧
      r.2 = fun i => τ (i + k * n) := by
  intro k
  induction k with
  | zero => intro τ r h; cases h; exact ⟨by simp, fun i => i.elim0, by simp⟩
  | succ k ih =>
    intro τ r h
    rw [helperRows, List.length_ofFn, drawN_eq] at h
    simp only at h
    obtain ⟨row, h1, h⟩ := bind_eq_ok.1 h
    obtain ⟨_, h2, h⟩ := bind_eq_ok.1 h
    obtain ⟨⟨rs, t⟩, h3, h⟩ := bind_eq_ok.1 h
    cases h
    obtain ⟨hw, hi, ht⟩ := ih _ _ h3
    have h0 := (orth_eq_ok h1).1
    rw [dot_ofFn_vec] at h0
    rw [orth_ofFn w _ h0, Except.ok.injEq] at h1
    subst h1
    rw [rassert_eq_ok, innerProduct_eq_dot, dot_ofFn_vec, dot_res] at h2
    refine ⟨fun _ hww => ?_, fun i => ?_, ?_⟩
    · rw [hww] at h2
      simp only [inv_zero, mul_zero, sub_zero] at h2
      exact h0 h2.symm
    · refine Fin.cases ?_ (fun i => ?_) i
      · simpa [dotProduct] using h0
      · have := hi i
        rw [show (∑ j : Fin n, w j * τ (i * n + j + n)) = ∑ j : Fin n, w j * τ ((i + 1) * n + j) from
          Finset.sum_congr rfl fun j _ => by congr 2; ring] at this
        simpa only [Fin.val_succ] using this
    · simp only at ht ⊢
      rw [ht]; funext i; congr 1; ring

theorem helperBlocks_ok {n : Nat} (w : Fin n → F) (hw : w ⬝ᵥ w ≠ 0) (m : Nat) : ∀ (k : Nat) (τ : Tape F),
    (∀ (b : Fin k) (i : Fin m), (∑ j : Fin n, w j * τ (b * (m * n) + i * n + j)) ≠ 0) →
    helperBlocks (List.ofFn w) m k τ = .ok (List.ofFn fun b : Fin k => List.ofFn fun i : Fin m =>
      List.ofFn (res w fun j => τ (b * (m * n) + i * n + j)), fun i => τ (i + k * (m * n))) := by
  intro k
  induction k with
  | zero => intro τ _; simp [helperBlocks]
  | succ k ih =>
    intro τ h
    rw [helperBlocks, helperRows_ok w hw m τ (fun i => by simpa using h 0 i), ok_bind]
    simp only
    rw [ih, ok_bind]
    · simp only [R_pure, Except.ok.injEq, Prod.mk.injEq, List.ofFn_succ, List.cons.injEq]
      refine ⟨⟨by simp, ?_⟩, ?_⟩
      · congr 1; funext b; congr 1; funext i; congr 2; funext j; congr 1; simp only [Fin.val_succ]; ring
      · funext i; congr 1; ring
    · intro b i
      have := h b.succ i
      simp only [Fin.val_succ] at this
      rw [show (∑ j : Fin n, w j * τ (b * (m * n) + i * n + j + m * n)) =
        ∑ j : Fin n, w j * τ ((b + 1) * (m * n) + i * n + j) from
        Finset.sum_congr rfl fun j _ => by congr 2; ring]
      exact this

theorem helperBlocks_cond {n : Nat} (w : Fin n → F) (m : Nat) : ∀ (k : Nat) (τ : Tape F) r,
    helperBlocks (List.ofFn w) m k τ = .ok r →
    (0 < m → 0 < k → w ⬝ᵥ w ≠ 0) ∧
      ∀ (b : Fin k) (i : Fin m), (∑ j : Fin n, w j * τ (b * (m * n) + i * n + j)) ≠ 0 := by
  intro k
  induction k with
  | zero => intro τ r h; exact ⟨by simp, fun i => i.elim0⟩
  | succ k ih =>
    intro τ r h
    rw [helperBlocks] at h
    obtain ⟨⟨g, t⟩, h1, h⟩ := bind_eq_ok.1 h
    obtain ⟨⟨gs, t'⟩, h2, h⟩ := bind_eq_ok.1 h
    obtain ⟨c1, c2, rfl⟩ := helperRows_cond w m τ _ h1
    obtain ⟨c3, c4⟩ := ih _ _ h2
    refine ⟨fun hm _ => c1 hm, fun b i => ?_⟩
    refine Fin.cases ?_ (fun b => ?_) b
    · simpa using c2 i
    · have := c4 b i
      rw [show (∑ j : Fin n, w j * τ (b * (m * n) + i * n + j + m * n)) =
        ∑ j : Fin n, w j * τ ((b + 1) * (m * n) + i * n + j) from
        Finset.sum_congr rfl fun j _ => by congr 2; ring] at this
      simpa only [Fin.val_succ] using this

/-- The witness of the tests: a one and then the tape. -/
def testWitness {n : Nat} (τ : Tape F) : Fin n → F := fun j => if j.val = 0 then 1 else τ j

/-- The row `i` of matrix `b` before it is made orthogonal to the witness. -/
def testRow {n : Nat} (τ : Tape F) (b i : Nat) : Fin n → F := fun j => τ (n + b * (n * n) + i * n + j)

theorem helper_start (n k : Nat) (τ : Tape F) : helperCreateSolutions (n + 1) k τ = (do
    let (bs, tape) ← helperBlocks (List.ofFn (testWitness τ : Fin (n + 1) → F)) (n + 1) k fun i => τ (i + (n + 1))
    return (List.ofFn (testWitness τ : Fin (n + 1) → F), ⟨bs⟩, tape)) := by
  unfold helperCreateSolutions
  rw [drawN_eq]
  simp only
  rw [setIdx_lt _ (by simp), ok_bind, show (List.ofFn fun i : Fin (n + 1) => τ i).set 0 1 =
    List.ofFn (testWitness τ : Fin (n + 1) → F) by
      apply List.ext_getElem
      · simp
      · intro i h1 h2
        rw [List.getElem_set, List.getElem_ofFn, List.getElem_ofFn]
        simp only [testWitness, eq_comm]]

/-- C81: `helper_create_solutions` returns exactly if the witness is not isotropic and orthogonal to none of the
drawn rows. -/
theorem C81_solutions_returns_iff (n k : Nat) (τ : Tape F) :
    (∃ r, helperCreateSolutions (n + 1) (k + 1) τ = .ok r) ↔
      (testWitness τ : Fin (n + 1) → F) ⬝ᵥ testWitness τ ≠ 0 ∧
        ∀ (b : Fin (k + 1)) (i : Fin (n + 1)), (testWitness τ : Fin (n + 1) → F) ⬝ᵥ testRow τ b i ≠ 0 := by
  rw [helper_start]
  have e : ∀ (b : Fin (k + 1)) (i : Fin (n + 1)), (testWitness τ : Fin (n + 1) → F) ⬝ᵥ testRow τ b i =
      ∑ j : Fin (n + 1), testWitness τ j * τ (b * ((n + 1) * (n + 1)) + i * (n + 1) + j + (n + 1)) := by
    intro b i
    refine Finset.sum_congr rfl fun j _ => ?_
    simp only [testRow]
    congr 2; ring
  constructor
  · rintro ⟨r, h⟩
    obtain ⟨⟨bs, t⟩, h1, -⟩ := bind_eq_ok.1 h
    obtain ⟨c1, c2⟩ := helperBlocks_cond _ _ _ _ _ h1
    exact ⟨c1 (by omega) (by omega), fun b i => by rw [e]; exact c2 b i⟩
  · rintro ⟨c1, c2⟩
    rw [helperBlocks_ok _ c1 _ _ _ fun b i => by rw [← e]; exact c2 b i]
    exact ⟨_, rfl⟩

theorem solutions_eq (n k : Nat) (τ : Tape F)
    (h : ∃ r, helperCreateSolutions (n + 1) (k + 1) τ = .ok r) : helperCreateSolutions (n + 1) (k + 1) τ =
      .ok (List.ofFn (testWitness τ : Fin (n + 1) → F), ⟨List.ofFn fun b : Fin (k + 1) =>
        rows (Matrix.of fun i : Fin (n + 1) => res (testWitness τ : Fin (n + 1) → F) (testRow τ b i))⟩,
        fun i => τ (i + (n + 1) + (k + 1) * ((n + 1) * (n + 1)))) := by
  obtain ⟨c1, c2⟩ := (C81_solutions_returns_iff n k τ).1 h
  have e : ∀ (b : Fin (k + 1)) (i : Fin (n + 1)), (fun j : Fin (n + 1) =>
      τ (b * ((n + 1) * (n + 1)) + i * (n + 1) + j + (n + 1))) = testRow τ b i := by
    intro b i
    funext j
    simp only [testRow]
    congr 1; ring
  rw [helper_start, helperBlocks_ok _ c1 _ _ _ fun b i => by
      have := c2 b i
      rw [← e] at this
      exact this, ok_bind]
  simp only [R_pure, Except.ok.injEq, e, Prod.mk.injEq, true_and]
  refine ⟨rfl, ?_⟩
  funext i; congr 1; ring

omit [DecidableEq F] in
theorem mulVec_res {n : Nat} (w : Fin n → F) (hw : w ⬝ᵥ w ≠ 0) (X : Fin n → Fin n → F) :
    (Matrix.of fun i => res w (X i)).mulVec w = 0 := by
  funext i
  change res w (X i) ⬝ᵥ w = 0
  rw [dotProduct_comm, dot_res]
  field_simp
  ring

/-- C81: what it returns: the witness, matrices that map it to zero, and the rest of the tape. -/
theorem C81_solutions (n k : Nat) (τ : Tape F) (r : List F × BlockMatrix F × Tape F)
    (h : helperCreateSolutions (n + 1) (k + 1) τ = .ok r) :
    ∃ Ms : Fin (k + 1) → Matrix (Fin (n + 1)) (Fin (n + 1)) F,
      r = (List.ofFn (testWitness τ : Fin (n + 1) → F), ⟨List.ofFn fun b => rows (Ms b)⟩,
        fun i => τ (i + (n + 1) + (k + 1) * ((n + 1) * (n + 1)))) ∧
      (∀ (b : Fin (k + 1)) (i : Fin (n + 1)), ∃ c : F, Ms b i = testRow τ b i - c • testWitness τ) ∧
      ∀ b, (Ms b).mulVec (testWitness τ) = 0 := by
  have hr := (solutions_eq n k τ ⟨r, h⟩).symm.trans h
  obtain ⟨c1, c2⟩ := (C81_solutions_returns_iff n k τ).1 ⟨r, h⟩
  exact ⟨fun b => Matrix.of fun i => res (testWitness τ) (testRow τ b i), (Except.ok.inj hr).symm,
    fun b i => ⟨_, rfl⟩, fun b => mulVec_res _ c1 _⟩

omit [DecidableEq F] in
theorem quad_of_mulVec {m : Nat} (M : Matrix (Fin m) (Fin m) F) (w : Fin m → F) (h : M.mulVec w = 0) :
    quad M w = 0 := by
  rw [Inner.quad_eq, h, dotProduct_zero]

theorem assertEach_ok {α : Type} (c : α → Prop) [DecidablePred c] (l : List α) (h : ∀ x ∈ l, c x) :
    assertEach c l = .ok () := by
  induction l with
  | nil => rfl
  | cons x xs ih =>
    rw [assertEach, rassert_true (h x (by simp)), ok_bind]
    exact ih fun y hy => h y (by simp [hy])

/-- C81: `test_helper_solutions` passes exactly if the twelve-element witness is not isotropic and orthogonal to
none of the 36 drawn rows. -/
theorem C81_test_helper_solutions (τ : Tape F) : testHelperSolutions τ = .ok () ↔
    (testWitness τ : Fin 12 → F) ⬝ᵥ testWitness τ ≠ 0 ∧
      ∀ (b : Fin 3) (i : Fin 12), (testWitness τ : Fin 12 → F) ⬝ᵥ testRow τ b i ≠ 0 := by
  unfold testHelperSolutions
  simp only
  rw [← C81_solutions_returns_iff 11 2 τ]
  constructor
  · intro h
    obtain ⟨r, h1, -⟩ := bind_eq_ok.1 h
    exact ⟨r, h1⟩
  · rintro ⟨r, h⟩
    obtain ⟨Ms, hr, -, h0⟩ := C81_solutions 11 2 τ r h
    rw [h, hr, ok_bind]
    simp only
    apply assertEach_ok
    intro g hg
    obtain ⟨b, rfl⟩ := List.mem_ofFn.1 hg
    rw [Inner.matrixVectorMul_rows, h0, innerProduct_eq_dot, dot_ofFn_vec, dotProduct_zero]

end

/-! ### How often they fail -/

section
variable {F : Type} [Field F] [Fintype F] [DecidableEq F]

theorem card_exists_le {X : Type} [Finite X] {c N : Nat} : ∀ (k : Nat) (P : Fin k → X → Prop),
    (∀ i, Nat.card {x // P i x} * c ≤ 1 * N) → Nat.card {x // ∃ i, P i x} * c ≤ k * N := by
  intro k
  induction k with
  | zero => intro P _; simp
  | succ k ih =>
    intro P h
    refine le_trans (Nat.mul_le_mul_right _ (card_imp (Q := fun x => (∃ i : Fin k, P i.castSucc x) ∨ P (Fin.last k) x)
      fun x hx => ?_)) (card_or_le (ih _ fun i => h _) (h _))
    obtain ⟨i, hi⟩ := hx
    refine Fin.lastCases (fun hi => .inr hi) (fun i hi => .inl ⟨i, hi⟩) i hi

omit [Fintype F] [DecidableEq F] in
theorem testWitness_glue {n : Nat} (p : Fin n → F) (τ : Tape F) : (testWitness (glue p τ) : Fin n → F) =
    fun j => if j.val = 0 then 1 else p j := by
  funext j
  simp [testWitness, glue]

omit [Field F] [Fintype F] [DecidableEq F] in
theorem testRow_glue {n : Nat} (p : Fin n → F) (τ : Tape F) (b i : Nat) : (testRow (glue p τ) b i : Fin n → F) =
    fun j : Fin n => τ (b * (n * n) + i * n + j) := by
  funext j
  simp only [testRow, glue]
  rw [dif_neg (by omega)]
  congr 1
  omega

omit [DecidableEq F] in
theorem card_witness (n : Nat) : Nat.card {p : Fin (n + 2) → F //
    (fun j => if j.val = 0 then 1 else p j : Fin (n + 2) → F) ⬝ᵥ (fun j => if j.val = 0 then 1 else p j) = 0} *
      Nat.card F ≤ 2 * Nat.card (Fin (n + 2) → F) := by
  refine card_line (Pi.single 1 1) _ 2 fun t => ?_
  have e : ∀ y : F, (fun j => if j.val = 0 then 1 else (t + y • (Pi.single 1 1 : Fin (n + 2) → F)) j) =
      (fun j => if j.val = 0 then 1 else t j) + y • (Pi.single 1 1 : Fin (n + 2) → F) := by
    intro y
    funext j
    by_cases h : j.val = 0
    · have : j ≠ 1 := by rintro rfl; simp at h
      simp only [h, Pi.add_apply, Pi.smul_apply, Pi.single_eq_of_ne this, smul_zero, add_zero, if_true]
    · simp only [h, Pi.add_apply, if_false]
  simp only [e]
  set u : Fin (n + 2) → F := fun j => if j.val = 0 then 1 else t j
  have : ∀ y : F, (u + y • (Pi.single 1 1 : Fin (n + 2) → F)) ⬝ᵥ (u + y • (Pi.single 1 1 : Fin (n + 2) → F)) =
      u ⬝ᵥ u + y * (2 * u 1) + y * y * 1 := by
    intro y
    simp only [add_dotProduct, dotProduct_add, smul_dotProduct, dotProduct_smul, dotProduct_single,
      single_dotProduct, smul_eq_mul, Pi.single_eq_same, Pi.add_apply, Pi.smul_apply]
    ring
  simp only [this]
  exact card_quadratic _ _ _ one_ne_zero

omit [DecidableEq F] in
theorem card_row {n N : Nat} (w : Fin (n + 1) → F) (hw : w 0 = 1) (o : Nat) (ho : o + (n + 1) ≤ N) (rest : Tape F) :
    Nat.card {t : Fin N → F // (w ⬝ᵥ fun j => tapeOf rest t (o + j)) = 0} * Nat.card F ≤
      1 * Nat.card (Fin N → F) := by
  refine card_line (Pi.single ⟨o, by omega⟩ 1) _ 1 fun t => ?_
  have e : ∀ y : F, (w ⬝ᵥ fun j : Fin (n + 1) => tapeOf rest (t + y • (Pi.single ⟨o, by omega⟩ 1 : Fin N → F)) (o + j)) =
      (w ⬝ᵥ fun j : Fin (n + 1) => tapeOf rest t (o + j)) + y * 1 := by
    intro y
    rw [show (fun j : Fin (n + 1) => tapeOf rest (t + y • (Pi.single ⟨o, by omega⟩ 1 : Fin N → F)) (o + j)) =
      (fun j : Fin (n + 1) => tapeOf rest t (o + j)) + y • (Pi.single 0 1 : Fin (n + 1) → F) by
        funext j
        simp only [tapeOf, Pi.add_apply, Pi.smul_apply]
        rw [dif_pos (by omega), dif_pos (by omega)]
        congr 2
        by_cases hj : j = 0
        · subst hj
          simp
        · rw [Pi.single_eq_of_ne hj, Pi.single_eq_of_ne]
          intro h
          apply hj
          have := congrArg Fin.val h
          simp only [Nat.add_eq_left] at this
          exact Fin.ext this]
    rw [dotProduct_add, dotProduct_smul, dotProduct_single, hw, smul_eq_mul, one_mul]
  simp only [e]
  exact card_linear _ _ one_ne_zero

/-- The random choices of `helper_create_solutions`, followed by anything that uses its result. -/
theorem solutions_error (n k m : Nat) {A : Hash → Tape F → Prop} {ε : ℚ} (hε : 0 ≤ ε) (rest : Tape F)
    (h : ∀ (w : Fin (n + 2) → F) (Ms : Fin (k + 1) → Matrix (Fin (n + 2)) (Fin (n + 2)) F), w 0 = 1 →
      (∀ b, (Ms b).mulVec w = 0) → ∀ rest : Tape F, ∃ D0 : Finset (List Event), ∀ D, D0 ⊆ D → ∀ ro,
      chanceBoth ro D rest m (fun ro τ =>
        ∃ τ0, helperCreateSolutions (n + 2) (k + 1) τ0 =
          .ok (List.ofFn w, ⟨List.ofFn fun b => rows (Ms b)⟩, τ) ∧ A ro τ0) ≤ ε) :
    ∃ D0 : Finset (List Event), ∀ D, D0 ⊆ D → ∀ ro,
      chanceBoth ro D rest ((n + 2) + ((k + 1) * ((n + 2) * (n + 2)) + m)) A ≤
        (2 : Nat) / Nat.card F + (((k + 1) * (n + 2) : Nat) / Nat.card F + ε) := by
  refine exists_prefix (n := n + 2) (m := (k + 1) * ((n + 2) * (n + 2)) + m) (A := A) (k := 2)
    (fun p : Fin (n + 2) → F => (fun j => if j.val = 0 then 1 else p j : Fin (n + 2) → F) ⬝ᵥ
    (fun j => if j.val = 0 then 1 else p j) = 0) (card_witness n) (fun p hp => ?_) (by positivity)
  set w : Fin (n + 2) → F := fun j => if j.val = 0 then 1 else p j with hw
  have hw0 : w 0 = 1 := by simp [hw]
  refine exists_prefix (n := (k + 1) * ((n + 2) * (n + 2))) (m := m) (k := (k + 1) * (n + 2))
    (A := fun ro τ => A ro (glue p τ)) (fun q : Fin ((k + 1) * ((n + 2) * (n + 2))) → F => ∃ c : Fin ((k + 1) * (n + 2)),
    (w ⬝ᵥ fun j => tapeOf 0 q (c * (n + 2) + j)) = 0) (card_exists_le _ _ fun c => card_row w hw0 _ (by
      have : c.val + 1 ≤ (k + 1) * (n + 2) := c.isLt
      calc c.val * (n + 2) + (n + 2) = (c.val + 1) * (n + 2) := by ring
        _ ≤ _ := Nat.mul_le_mul_right _ this
        _ = _ := by ring) 0) (fun q hq => ?_) hε
  have hbi : ∀ (b : Fin (k + 1)) (i : Fin (n + 2)), b.val * (n + 2) + i.val < (k + 1) * (n + 2) := by
    intro b i
    calc b.val * (n + 2) + i.val < b.val * (n + 2) + (n + 2) := by omega
      _ = (b.val + 1) * (n + 2) := by ring
      _ ≤ _ := Nat.mul_le_mul_right _ b.isLt
  have hlt : ∀ (b : Fin (k + 1)) (i j : Fin (n + 2)),
      b.val * ((n + 2) * (n + 2)) + i.val * (n + 2) + j.val < (k + 1) * ((n + 2) * (n + 2)) := by
    intro b i j
    calc b.val * ((n + 2) * (n + 2)) + i.val * (n + 2) + j.val
        < b.val * ((n + 2) * (n + 2)) + i.val * (n + 2) + (n + 2) := by omega
      _ = (b.val * (n + 2) + i.val + 1) * (n + 2) := by ring
      _ ≤ ((k + 1) * (n + 2)) * (n + 2) := Nat.mul_le_mul_right _ (hbi b i)
      _ = _ := by ring
  have hret : ∀ τ : Tape F, ∃ r, helperCreateSolutions (n + 2) (k + 1) (glue p (glue q τ)) = .ok r := by
    intro τ
    rw [C81_solutions_returns_iff, testWitness_glue]
    refine ⟨hp, fun b i => ?_⟩
    rw [testRow_glue]
    intro h0
    apply hq
    refine ⟨⟨b.val * (n + 2) + i.val, hbi b i⟩, ?_⟩
    rw [← h0]
    congr 1
    funext j
    simp only [tapeOf, glue]
    rw [dif_pos (show (b.val * (n + 2) + i.val) * (n + 2) + j.val < _ by
      refine lt_of_eq_of_lt ?_ (hlt b i j)
      ring), dif_pos (hlt b i j)]
    congr 2
    ring
  have hrow : ∀ (τ : Tape F) (b : Fin (k + 1)) (i : Fin (n + 2)),
      (testRow (glue p (glue q τ)) b i : Fin (n + 2) → F) = testRow (glue p (glue q 0)) b i := by
    intro τ b i
    rw [testRow_glue, testRow_glue]
    funext j
    have := hlt b i j
    simp only [glue]
    rw [dif_pos this, dif_pos this]
  obtain ⟨D0, hD0⟩ := h w (fun b => Matrix.of fun i => res w (testRow (glue p (glue q 0)) b i)) hw0
    (fun b => mulVec_res _ hp _) _
  refine ⟨D0, fun D hD ro => (chanceBoth_mono fun ro τ hA => ?_).trans (hD0 D hD ro)⟩
  refine ⟨glue p (glue q τ), ?_, hA⟩
  rw [solutions_eq _ _ _ (hret τ), testWitness_glue, ← hw]
  simp only [hrow]
  congr 3
  funext i
  rw [show i + (n + 1 + 1) + (k + 1) * ((n + 1 + 1) * (n + 1 + 1)) =
    (i + (k + 1) * ((n + 1 + 1) * (n + 1 + 1))) + (n + 1 + 1) by ring]
  rw [congrFun (glue_shift p _), congrFun (glue_shift q _)]

/-- C81: `test_helper_solutions` fails with probability at most `38 / |F|`. -/
theorem C81_test_helper_solutions_error (rest : Tape F) (ro : Hash) (D : Finset (List Event)) :
    chanceBoth ro D rest 444 (fun _ τ => testHelperSolutions τ ≠ .ok ()) ≤ 38 / Fintype.card F := by
  obtain ⟨D0, h⟩ := solutions_error 10 2 0 (A := fun _ τ => testHelperSolutions τ ≠ .ok ()) le_rfl rest
    fun w Ms _ _ rest => ⟨∅, fun D _ ro => le_of_eq (chanceBoth_false fun ro τ h => by
      obtain ⟨τ0, h1, h2⟩ := h
      exact h2 ((C81_test_helper_solutions τ0).2 ((C81_solutions_returns_iff 11 2 τ0).1 ⟨_, h1⟩)))⟩
  have := h D0 subset_rfl ro
  rw [chanceBoth_const] at this ⊢
  refine this.trans (le_of_eq ?_)
  rw [add_zero, cast_add_div, Nat.card_eq_fintype_card]
  norm_num

end

section
variable {F G : Type} [Field F] [Fintype F] [DecidableEq F] [AddCommGroup G] [Module F G] [DecidableEq G]

/-- C81: `test_create_qesa_inner_proof` fails with probability at most `13 / |F| + 14 B / 2^512`, whatever the points
are. -/
theorem C81_test_qesa_inner (h2 : (2 : F) ≠ 0) (cd : Codec G) (pts : Tape G) (Q : G) (rest : Tape F) {B : Nat}
    (hB : ∀ c : F, Nat.card {v : Vector UInt8 64 // ((leNat v.toList : Nat) : F) = c} ≤ B) :
    ∃ D0 : Finset (List Event), ∀ D, D0 ⊆ D → ∀ ro,
      chanceBoth ro D rest 24 (fun ro τ => testQesaInner ⟨cd, ro⟩ τ pts Q ≠ .ok ()) ≤
        13 / Fintype.card F + (14 * B : Nat) / 2 ^ 512 := by
  obtain ⟨D0, h⟩ := solutions_error 0 1 14 (A := fun ro τ => testQesaInner ⟨cd, ro⟩ τ pts Q ≠ .ok ())
    (ε := 7 / Fintype.card F + (14 * B : Nat) / 2 ^ 512) (by positivity) rest fun w Ms hw hMs rest => by
      obtain ⟨D0, h⟩ := C75_zk_completeness_error (m := 1) (k := 1) (e := 2) (N := 12) h2 le_rfl (by decide) rfl
        (by decide) cd (newTranscript "qesa_inner").log (List.ofFn fun i : Fin 4 => pts i)
        (List.ofFn fun i : Fin 4 => pts (i + 4)) Q (by simp) (by simp) Ms w hw
        (fun i => quad_of_mulVec _ _ (hMs i)) hB rest
      refine ⟨D0, fun D hD ro => (chanceBoth_mono ?_).trans (h D hD ro)⟩
      rintro ro τ ⟨τ0, e, hA⟩ ⟨p, tr', τ', h1, h2⟩
      apply hA
      unfold testQesaInner
      simp only
      rw [e, ok_bind]
      simp only [drawN_eq]
      unfold Zk.create at h1
      obtain ⟨⟨q, tr1, τ1⟩, h1, h3⟩ := bind_eq_ok.1 h1
      cases h3
      have e2 : (List.ofFn fun i : Fin 2 => τ i) = [τ 0, τ 1] := rfl
      rw [e2]
      simp only at h1
      rw [show newTranscript "qesa_inner" = ⟨(newTranscript "qesa_inner").log⟩ from rfl, h1, ok_bind]
      simp only
      unfold Zk.Proof.verify at h2
      rw [h2, ok_bind, rassert_true rfl]
  refine ⟨D0, fun D hD ro => (h D hD ro).trans (le_of_eq ?_)⟩
  rw [← Nat.card_eq_fintype_card, ← add_assoc, ← add_assoc, cast_add_div, ← add_div]
  norm_num

/-- The matrix of the equation `w₁² = w₃` (for `w₀ = 1`). -/
def vitalik (F : Type) [Field F] : Matrix (Fin 6) (Fin 6) F := fun i j =>
  if i.val = 1 ∧ j.val = 1 then 1 else if i.val = 3 ∧ j.val = 0 then -1 else 0

omit [Fintype F] [DecidableEq F] in
theorem vitalikBlocks_eq (k : Nat) : vitalikBlocks F 6 k = .ok (List.ofFn fun _ : Fin k => rows (vitalik F)) := by
  have h : vitalikMatrix F 6 = .ok (rows (vitalik F)) := rfl
  induction k with
  | zero => simp [vitalikBlocks]
  | succ k ih =>
    rw [vitalikBlocks, h, ok_bind, ih, ok_bind, List.ofFn_succ]
    rfl

omit [Fintype F] in
/-- C81: `helper_create_solutions_vatalik_g1` returns: the witness has the entries 1, 3, 9 and 0 at the positions
0, 1, 3 and 5, and all matrices are those of the equation `w₁² = w₃`, which it satisfies. -/
theorem C81_vitalik (k : Nat) (τ : Tape F) : helperVitalik 6 k τ =
    .ok ([1, 3, τ 2, 9, τ 4, 0], ⟨List.ofFn fun _ : Fin k => rows (vitalik F)⟩, fun i => τ (i + 6)) := by
  unfold helperVitalik
  rw [drawN_eq]
  simp only [vitalikBlocks_eq]
  rw [show (List.ofFn fun i : Fin 6 => τ i) = [τ 0, τ 1, τ 2, τ 3, τ 4, τ 5] from rfl]
  change (do
    rassert ((9 : F) = 3 * 3)
    let bs ← (.ok (List.ofFn fun _ : Fin k => rows (vitalik F)) : R _)
    return ([1, 3, τ 2, 9, τ 4, 0], (⟨bs⟩ : BlockMatrix F), fun i => τ (i + 6))) = _
  rw [rassert_true (by norm_num)]
  rfl

omit [Fintype F] [DecidableEq F] in
theorem quad_vitalik (x y : F) : quad (vitalik F) ![1, 3, x, 9, y, 0] = 0 := by
  simp only [quad, Fin.sum_univ_succ, Fin.sum_univ_zero, vitalik]
  simp
  norm_num

omit [Fintype F] in
/-- C81: `test_helper_solutions_vitalik_g1` passes for all random values. -/
theorem C81_test_helper_vitalik (τ : Tape F) : testHelperVitalik τ = .ok () := by
  unfold testHelperVitalik
  simp only
  rw [C81_vitalik, ok_bind]
  simp only
  rw [show (List.ofFn fun _ : Fin 1 => rows (vitalik F)) = [rows (vitalik F)] from rfl, assertTransposed,
    (C06_matrix_transpose (vitalik F) (by decide)).1, ok_bind]
  rw [show [1, 3, τ 2, 9, τ 4, 0] = List.ofFn ![1, 3, τ 2, 9, τ 4, 0] from rfl, Inner.matrixVectorMul_rows,
    innerProduct_eq_dot, dot_ofFn_vec, rassert_true, ok_bind]
  · rfl
  · have := quad_vitalik (τ 2) (τ 4)
    rw [Inner.quad_eq] at this
    rw [Matrix.dotProduct_mulVec, Matrix.vecMul_transpose, dotProduct_comm, this]

/-- C81: `test_create_qesa_inner_proof_vitalik_g1` fails with probability at most `7 / |F| + 14 B / 2^512`, whatever
the points are. -/
theorem C81_test_qesa_vitalik (h2 : (2 : F) ≠ 0) (cd : Codec G) (pts : Tape G) (Q : G) (rest : Tape F) {B : Nat}
    (hB : ∀ c : F, Nat.card {v : Vector UInt8 64 // ((leNat v.toList : Nat) : F) = c} ≤ B) :
    ∃ D0 : Finset (List Event), ∀ D, D0 ⊆ D → ∀ ro,
      chanceBoth ro D rest 24 (fun ro τ => testQesaVitalik ⟨cd, ro⟩ τ pts Q ≠ .ok ()) ≤
        7 / Fintype.card F + (14 * B : Nat) / 2 ^ 512 := by
  refine exists_prefix' (n := 6) (m := 18) (A := fun ro τ => testQesaVitalik ⟨cd, ro⟩ τ pts Q ≠ .ok ()) (fun p => ?_)
    (by positivity)
  obtain ⟨D0, h⟩ := C75_zk_completeness_error (m := 5) (k := 1) (e := 3) (N := 16) h2 (by decide) (by decide) rfl
    le_rfl cd (newTranscript "qesa_inner").log (List.ofFn fun i : Fin 8 => pts i)
    (List.ofFn fun i : Fin 8 => pts (i + 8)) Q (by simp) (by simp) (fun _ => vitalik F) ![1, 3, p 2, 9, p 4, 0] rfl
    (fun i => quad_vitalik _ _) hB (fun i => rest (i + 6))
  refine ⟨D0, fun D hD ro => (chanceBoth_mono ?_).trans (h D hD ro)⟩
  rintro ro τ hA ⟨q, tr', τ', h1, h2⟩
  apply hA
  unfold testQesaVitalik
  simp only
  rw [C81_vitalik, ok_bind, glue_shift]
  simp only [drawN_eq]
  unfold Zk.create at h1
  obtain ⟨⟨q, tr1, τ1⟩, h1, h3⟩ := bind_eq_ok.1 h1
  cases h3
  rw [show (List.ofFn fun i : Fin 2 => τ i) = [τ 0, τ 1] from rfl]
  simp only at h1
  rw [show [1, 3, glue p τ 2, 9, glue p τ 4, 0] = List.ofFn ![1, 3, p 2, 9, p 4, 0] from rfl]
  rw [show newTranscript "qesa_inner" = ⟨(newTranscript "qesa_inner").log⟩ from rfl, h1, ok_bind]
  simp only
  unfold Zk.Proof.verify at h2
  rw [h2, ok_bind, rassert_true rfl]

/-! ### Copy -/

/-- C81: `test_copy_proof_creation` fails with probability at most `7 / |F| + 14 B / 2^512`, whatever the points
are. -/
theorem C81_test_copy (h2 : (2 : F) ≠ 0) (cd : Codec G) (pts : Tape G) (Q : G) (rest : Tape F) {B : Nat}
    (hB : ∀ c : F, Nat.card {v : Vector UInt8 64 // ((leNat v.toList : Nat) : F) = c} ≤ B) :
    ∃ D0 : Finset (List Event), ∀ D, D0 ⊆ D → ∀ ro,
      chanceBoth ro D rest 33 (fun ro τ => testCopy ⟨cd, ro⟩ τ pts Q ≠ .ok ()) ≤
        7 / Fintype.card F + (14 * B : Nat) / 2 ^ 512 := by
  refine exists_prefix' (n := 7) (m := 26) (A := fun ro τ => testCopy ⟨cd, ro⟩ τ pts Q ≠ .ok ()) (fun p => ?_)
    (by positivity)
  obtain ⟨map, hmap⟩ : ∃ map, computeMapping 32 1 [[1, 2], [1, 2, 3]] = .ok map := ⟨_, rfl⟩
  set Gs : List G := List.ofFn fun i : Fin 32 => pts i with hGs
  set Hs : List G := List.ofFn fun i : Fin 32 => pts (i + 32) with hHs
  have hG : Gs.length = 32 := by simp [hGs]
  obtain ⟨c1, hc1⟩ : ∃ c, commit Gs [1, 2] [p 2, p 3] (p 0) = .ok c := ⟨_, rfl⟩
  obtain ⟨c2, hc2⟩ : ∃ c, commit Gs [1, 2, 3] [p 4, p 5, p 6] (p 1) = .ok c := ⟨_, rfl⟩
  obtain ⟨D0, h⟩ := C75_copy_completeness_error (m := 29) (e := 5) (N := 24) h2 (by decide) (by decide) rfl
    le_rfl cd (newTranscript "copy").log Gs Hs Q hG (by simp [hHs]) [] [1]
    [([1, 2], [p 2, p 3], p 0), ([1, 2, 3], [p 4, p 5, p 6], p 1)] map [c1, c2] (by simp) rfl (by simp)
    (by rw [hG]; exact hmap) (by simp [hc1, hc2]) (by simp) (by simp) hB (fun i => rest (i + 7))
  refine ⟨D0, fun D hD ro => (chanceBoth_mono ?_).trans (h D hD ro)⟩
  rintro ro τ hA ⟨q, tr', τ', h1, h2⟩
  apply hA
  unfold testCopy
  have hd : drawN 2 (glue p τ) = ([p 0, p 1], fun i => glue p τ (i + 2)) := by rw [drawN_eq]; rfl
  have hl : drawLists [2, 3] (fun i => glue p τ (i + 2)) = ([[p 2, p 3], [p 4, p 5, p 6]], τ) := by
    simp only [drawLists, drawN_eq]
    refine Prod.ext rfl ?_
    funext i
    exact congrFun (glue_shift p τ) i
  have hi2 : indexSet 2 = [1, 2] := by decide
  have hi3 : indexSet 3 = [1, 2, 3] := by decide
  simp only [drawN_eq (F := G), ← hGs, ← hHs, hd, hl]
  rw [rassert_true (by decide), ok_bind, rassert_true (by simp), ok_bind]
  simp only [List.map_cons, List.map_nil, List.length_cons, List.length_nil, Nat.zero_add, Nat.reduceAdd, hi2, hi3,
    hG, hmap]
  rw [show commitAll Gs [[p 2, p 3], [p 4, p 5, p 6]] [p 0, p 1] 0 [[1, 2], [1, 2, 3]] = .ok [c1, c2] by
    simp only [commitAll]
    change (do
      let c ← commit Gs [1, 2] [p 2, p 3] (p 0)
      let cs ← (do
        let c ← commit Gs [1, 2, 3] [p 4, p 5, p 6] (p 1)
        let cs ← (.ok [] : R _)
        return c :: cs)
      return c :: cs) = _
    rw [hc1, hc2]
    rfl, ok_bind, ok_bind]
  rw [show newTranscript "copy" = ⟨(newTranscript "copy").log⟩ from rfl]
  rw [show (BlockMatrix.new : BlockMatrix F) = ⟨([] : List (Matrix (Fin 30) (Fin 30) F)).map rows⟩ from rfl]
  simp only [List.map_cons, List.map_nil, List.zip_cons_cons, List.zip_nil_left] at h1 h2 ⊢
  rw [h1, ok_bind]
  simp only
  rw [h2, ok_bind, rassert_true rfl]

/-- C81: `test_copy_proof_creation_single_commit` fails with probability at most `7 / |F| + 14 B / 2^512`, whatever
the points are. -/
theorem C81_test_copy_single (h2 : (2 : F) ≠ 0) (cd : Codec G) (pts : Tape G) (Q : G) (rest : Tape F) {B : Nat}
    (hB : ∀ c : F, Nat.card {v : Vector UInt8 64 // ((leNat v.toList : Nat) : F) = c} ≤ B) :
    ∃ D0 : Finset (List Event), ∀ D, D0 ⊆ D → ∀ ro,
      chanceBoth ro D rest 22 (fun ro τ => testCopySingle ⟨cd, ro⟩ τ pts Q ≠ .ok ()) ≤
        7 / Fintype.card F + (14 * B : Nat) / 2 ^ 512 := by
  obtain ⟨map, hmap⟩ : ∃ map, computeMapping 16 1 [[1, 2]] = .ok map := ⟨_, rfl⟩
  set Gs : List G := List.ofFn fun i : Fin 16 => pts i with hGs
  set Hs : List G := List.ofFn fun i : Fin 16 => pts (i + 16) with hHs
  have hG : Gs.length = 16 := by simp [hGs]
  obtain ⟨c1, hc1⟩ : ∃ c, commit Gs [1, 2] [(1 : F), 1] 1 = .ok c := ⟨_, rfl⟩
  obtain ⟨D0, h⟩ := C75_copy_completeness_error (m := 13) (e := 4) (N := 20) h2 (by decide) (by decide) rfl
    le_rfl cd (newTranscript "copy").log Gs Hs Q hG (by simp [hHs]) [] [1]
    [([1, 2], [1, 1], 1)] map [c1] (by simp) rfl (by simp)
    (by rw [hG]; exact hmap) (by simp [hc1]) (by simp) (by simp) hB rest
  refine ⟨D0, fun D hD ro => (chanceBoth_mono ?_).trans (h D hD ro)⟩
  rintro ro τ hA ⟨q, tr', τ', h1, h2⟩
  apply hA
  unfold testCopySingle
  have hi2 : indexSet 2 = [1, 2] := by decide
  simp only [drawN_eq, ← hGs, ← hHs, List.length_cons, List.length_nil, Nat.zero_add, Nat.reduceAdd, hi2, hG, hmap]
  rw [show idx [[1, 2]] 0 = .ok [1, 2] from rfl, ok_bind, hc1, ok_bind, ok_bind]
  rw [show newTranscript "copy" = ⟨(newTranscript "copy").log⟩ from rfl]
  rw [show (BlockMatrix.new : BlockMatrix F) = ⟨([] : List (Matrix (Fin 14) (Fin 14) F)).map rows⟩ from rfl]
  simp only [List.map_cons, List.map_nil] at h1 h2 ⊢
  rw [h1, ok_bind]
  simp only
  rw [h2, ok_bind, rassert_true rfl]

end
section
open Toy

/-- The bound for `test_copy_proof_creation` over `ZMod 101`. -/
example (pts : Tape K) (Q : K) (rest : Tape K) : ∃ D0 : Finset (List Event), ∀ D, D0 ⊆ D → ∀ ro,
    chanceBoth ro D rest 33 (fun ro τ => testCopy ⟨codec, ro⟩ τ pts Q ≠ .ok ()) ≤
      7 / Fintype.card K + (14 * (2 ^ 512 / 101 + 1) : Nat) / 2 ^ 512 :=
  C81_test_copy (by decide +kernel) codec pts Q rest (C67_scalars 101)

/-- The helper function over `ZMod 101`: two matrices of size two, and a witness orthogonal to a row. -/
example : (helperCreateSolutions 2 2 (fun i => (i * i + 3 : K))).map (fun r => (r.1, r.2.1.block)) =
      .ok ([1, 4], [[[81, 5], [41, 15]], [[72, 83], [73, 7]]]) ∧
    (helperCreateSolutions 2 2 (fun i => ([1, 2, 2, -1] : List K).getD i 5)).map Prod.fst =
      .error .assertFail ∧
    (helperCreateSolutions 2 2 (fun i => ([1, 10, 2, -1] : List K).getD i 5)).map Prod.fst =
      .error .assertFail := by
  decide +kernel

/-- The tests with the hash function of the examples (they pass) and with others that give zero for one challenge
(they fail). -/
example : testHelperSolutions (fun i => (i * i + 3 : K)) = .error .assertFail ∧
    testHelperSolutions (fun i => (7 * i * i * i + 11 * i * i + 3 : K)) = .ok () ∧
    testQesaInner cx (fun i => (i * i + 3 : K)) (fun i => (5 * i + 2 : K)) 7 = .ok () ∧
    testQesaInner (zeroAt 3) (fun i => (i * i + 3 : K)) (fun i => (5 * i + 2 : K)) 7 = .error .assertFail ∧
    testQesaVitalik cx (fun i => (i * i + 3 : K)) (fun i => (5 * i + 2 : K)) 7 = .ok () ∧
    testQesaVitalik (zeroAt 3) (fun i => (i * i + 3 : K)) (fun i => (5 * i + 2 : K)) 7 = .error .assertFail ∧
    testCopySingle cx (fun i => (i * i + 3 : K)) (fun i => (5 * i + 2 : K)) 7 = .ok () ∧
    testCopySingle (zeroAt 5) (fun i => (i * i + 3 : K)) (fun i => (5 * i + 2 : K)) 7 = .error .assertFail := by
  decide +kernel
end

end Qesa.Props
