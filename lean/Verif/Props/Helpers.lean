import Verif.Proofs.Matrix
import Mathlib.LinearAlgebra.Matrix.Notation
import Mathlib.Data.Rat.Defs
import Mathlib.Algebra.Field.Rat
/-
Properties C01-C08 (and the helper part of C09) of src/math_utils.rs and src/matrix.rs.
-/
namespace Qesa.Props
open Qesa Spec
variable {F G T : Type}

/-! ### C01: inner_product -/
section C01
variable [Field F]

/-- C01: the sum of the products over the common indices. -/
theorem C01_inner_product (a b : List F) :
    innerProduct a b =
      ∑ i : Fin (min a.length b.length), a[i.val]'(by omega) * b[i.val]'(by omega) := by
  induction a generalizing b with
  | nil =>
    have : IsEmpty (Fin (min ([] : List F).length b.length)) := by simp; infer_instance
    simp [innerProduct, Finset.univ_eq_empty]
  | cons x a ih => cases b with
    | nil =>
      have : IsEmpty (Fin (min (x :: a).length ([] : List F).length)) := by simp; infer_instance
      simp [innerProduct, Finset.univ_eq_empty]
    | cons y b =>
      have h : innerProduct (x :: a) (y :: b) = x * y + innerProduct a b := by
        simp [innerProduct]
      have hl : min (x :: a).length (y :: b).length = min a.length b.length + 1 := by simp
      rw [h, ih b, ← Fin.sum_congr' _ hl.symm, Fin.sum_univ_succ]
      simp

/-- C01: symmetry. -/
theorem C01_inner_product_symm (a b : List F) : innerProduct a b = innerProduct b a := by
  rw [innerProduct_eq_dot, innerProduct_eq_dot, dot_comm]

/-- C01: linearity in the first argument (hence, by symmetry, in the second). -/
theorem C01_inner_product_linear (x y : F) (a a' b : List F) (h : a.length = a'.length) :
    innerProduct (List.zipWith (fun u v => x * u + y * v) a a') b =
      x * innerProduct a b + y * innerProduct a' b := by
  simp only [innerProduct_eq_dot]
  exact dot_comb_left (G := F) x y b h

example : innerProduct [1, 2, 3] [4, 5, (6 : ℚ), 7] = 32 := by decide +kernel
end C01

/-! ### C02, C03: powers -/

/-- C02: `n` consecutive powers starting at `x`; panic for `n = 0`. -/
theorem C02_vandemonde_challenge [Monoid F] (x : F) (n : Nat) :
    vandemondeChallenge x n =
      if n = 0 then .error .underflow else .ok (List.ofFn fun i : Fin n => x ^ (i.val + 1)) := by
  cases n with
  | zero => rfl
  | succ n =>
    simp only [vandemondeChallenge, usub_le (Nat.succ_le_succ n.zero_le), ok_bind, powersLoop_eq,
      Nat.succ_ne_zero, if_false, R_pure]
    rw [List.ofFn_succ]
    simp [pow_succ']

/-- C03: `n` consecutive powers starting at one. -/
theorem C03_vandemonde_vector [Monoid F] (x : F) (n : Nat) :
    vandemondeVector x n =
      if n = 0 then .error .underflow else .ok (List.ofFn fun i : Fin n => x ^ i.val) := by
  cases n with
  | zero => rfl
  | succ n =>
    simp only [vandemondeVector, usub_le (Nat.succ_le_succ n.zero_le), ok_bind, powersLoop_eq,
      Nat.succ_ne_zero, if_false, R_pure]
    rw [List.ofFn_succ]
    simp

/-- C03: the generic version, for an arbitrary first entry. -/
theorem C03_vandemonde_vector_general [Monoid T] (x : T) (n : Nat) (one : T) :
    vandemondeVectorGeneral x n one =
      if n = 0 then .error .underflow else .ok (List.ofFn fun i : Fin n => one * x ^ i.val) := by
  cases n with
  | zero => rfl
  | succ n =>
    simp only [vandemondeVectorGeneral, usub_le (Nat.succ_le_succ n.zero_le), ok_bind,
      powersLoop_eq, Nat.succ_ne_zero, if_false, R_pure]
    rw [List.ofFn_succ]
    simp

/-- C03: row `i` of the matrix consists of the powers of the `i`-th scalar drawn; `m` scalars are
drawn. -/
theorem C03_vandemonde_matrix [Monoid F] (m n : Nat) (hn : 0 < n) (tape : Tape F) :
    vandemondeMatrix m n tape =
      .ok (rows (Matrix.of fun (i : Fin m) (j : Fin n) => tape i.val ^ j.val),
        fun i => tape (i + m)) := by
  induction m generalizing tape with
  | zero => simp [vandemondeMatrix, rows]
  | succ m ih =>
    simp only [vandemondeMatrix, draw, C03_vandemonde_vector, if_neg (Nat.pos_iff_ne_zero.1 hn),
      ok_bind, ih, R_pure]
    congr 1
    rw [Prod.mk.injEq]
    constructor
    · simp only [rows, List.ofFn_succ]; simp [Matrix.of_apply, funext_iff]
    · funext i; congr 1

/-- C03: with no columns the matrix version panics as soon as there is a row. -/
theorem C03_vandemonde_matrix_panics [Monoid F] (m : Nat) (hm : 0 < m) (tape : Tape F) :
    vandemondeMatrix m 0 tape = .error .underflow := by
  obtain ⟨m, rfl⟩ := Nat.exists_eq_succ_of_ne_zero (Nat.pos_iff_ne_zero.1 hm)
  rfl

example : vandemondeChallenge (2 : ℚ) 3 = .ok [2, 4, 8] ∧ vandemondeVector (2 : ℚ) 3 = .ok [1, 2, 4] :=
  by decide +kernel

/-! ### C04: entrywise operations -/

/-- The `(i, j)` entry of a list of rows, if there is one. -/
def entry {T : Type} (A : List (List T)) (i j : Nat) : Option T := A[i]?.bind fun row => row[j]?

/-- The two lists of rows have the same shape. -/
def SameShape {S T : Type} (A : List (List S)) (B : List (List T)) : Prop :=
  A.map List.length = B.map List.length

/-- C04: scalar multiplication of a matrix keeps the shape and multiplies every entry, on ragged
matrices too. -/
theorem C04_matrix_scalar_mul [Mul F] (A : List (List F)) (x : F) :
    SameShape (matrixScalarMul A x) A ∧
      ∀ i j, entry (matrixScalarMul A x) i j = (entry A i j).map fun e => e * x := by
  constructor
  · simp [SameShape, matrixScalarMul, Function.comp_def]
  · intro i j
    simp only [entry, matrixScalarMul, List.getElem?_map]
    cases A[i]? <;> simp

theorem C04_matrix_scalar_mul_general [Mul T] (A : List (List T)) (x : T) :
    SameShape (matrixScalarMulGeneral A x) A ∧
      ∀ i j, entry (matrixScalarMulGeneral A x) i j = (entry A i j).map fun e => e * x :=
  C04_matrix_scalar_mul A x

theorem C04_matrixpoint_scalar_mul [SMul F G] (A : List (List G)) (x : F) :
    SameShape (matrixpointScalarMul A x) A ∧
      ∀ i j, entry (matrixpointScalarMul A x) i j = (entry A i j).map fun e => x • e := by
  constructor
  · simp [SameShape, matrixpointScalarMul, Function.comp_def]
  · intro i j
    simp only [entry, matrixpointScalarMul, List.getElem?_map]
    cases A[i]? <;> simp

/-- C04: multiplication of a vector by a scalar. -/
theorem C04_vectorpoint_scalar_mul [SMul F G] (v : List G) (x : F) :
    (vectorpointScalarMul v x).length = v.length ∧
      ∀ i : Nat, (vectorpointScalarMul v x)[i]? = v[i]?.map fun e => x • e := by
  simp [vectorpointScalarMul]

theorem C04_vector_scalar_mul_general [Mul T] (v : List T) (x : T) :
    (vectorScalarMulGeneral v x).length = v.length ∧
      ∀ i : Nat, (vectorScalarMulGeneral v x)[i]? = v[i]?.map fun e => e * x := by
  simp [vectorScalarMulGeneral]

/-- C04: adding rows; panic iff the lengths differ. -/
theorem C04_row_row_add [Add F] (a b : List F) :
    rowRowAdd a b = if h : a.length = b.length then
      .ok (List.ofFn fun i : Fin a.length => a[i.val] + b[i.val]'(h ▸ i.2))
      else .error .assertFail := by
  by_cases h : a.length = b.length
  · rw [rowRowAdd, rassert_true h, ok_bind, dif_pos h, R_pure]
    congr 1
    apply List.ext_getElem <;> simp [h]
  · simp [rowRowAdd, h]

theorem C04_row_row_add_general [Add T] (a b : List T) :
    rowRowAddGeneral a b = if h : a.length = b.length then
      .ok (List.ofFn fun i : Fin a.length => a[i.val] + b[i.val]'(h ▸ i.2))
      else .error .assertFail := C04_row_row_add a b

theorem C04_rowpoint_rowpoint_add [Add G] (a b : List G) :
    rowpointRowpointAdd a b = if h : a.length = b.length then
      .ok (List.ofFn fun i : Fin a.length => a[i.val] + b[i.val]'(h ▸ i.2))
      else .error .assertFail := C04_row_row_add a b

/-- C04: subtracting rows; panic iff the lengths differ. -/
theorem C04_row_row_sub [Sub F] (a b : List F) :
    rowRowSub a b = if h : a.length = b.length then
      .ok (List.ofFn fun i : Fin a.length => a[i.val] - b[i.val]'(h ▸ i.2))
      else .error .assertFail := by
  by_cases h : a.length = b.length
  · rw [rowRowSub, rassert_true h, ok_bind, dif_pos h, R_pure]
    congr 1
    apply List.ext_getElem <;> simp [h]
  · simp [rowRowSub, h]

/-- C04: adding matrices: returns iff the shapes agree (ragged matrices included), and then the result
has the same shape and the entrywise sums. -/
theorem C04_matrix_matrix_add [Add F] (A B : List (List F)) :
    (SameShape A B → ∃ C, matrixMatrixAdd A B = .ok C ∧ SameShape C A ∧
        ∀ i j, entry C i j = (entry A i j).bind fun a => (entry B i j).map fun b => a + b) ∧
      (¬ SameShape A B → matrixMatrixAdd A B = .error .assertFail) := by
  have hrow : ∀ a b : List F, (∃ c, rowRowAdd a b = .ok c) ∨ rowRowAdd a b = .error .assertFail := by
    intro a b; rw [C04_row_row_add]; split <;> simp
  constructor
  · intro hs
    have hl : A.length = B.length := by simpa using congrArg List.length hs
    have hr : ∀ i (h1 : i < A.length) (h2 : i < B.length), A[i].length = B[i].length := by
      intro i h1 h2
      have := congrArg (fun l => l[i]?) hs
      simpa [h1, h2] using this
    have hadd : ∀ i (h1 : i < A.length) (h2 : i < B.length),
        rowRowAdd A[i] B[i] = .ok (List.zipWith (fun a b => a + b) A[i] B[i]) := by
      intro i h1 h2; simp [rowRowAdd, hr i h1 h2]
    obtain ⟨C, hC⟩ := zipWithR_ok_of (f := fun a b => rowRowAdd a b) (as := A) (bs := B)
      fun i h1 h2 => ⟨_, hadd i h1 h2⟩
    obtain ⟨c1, c2⟩ := (zipWithR_eq_ok hl).1 hC
    have hCi : ∀ i (h1 : i < A.length) (h2 : i < B.length) (h3 : i < C.length),
        C[i] = List.zipWith (fun a b => a + b) A[i] B[i] := by
      intro i h1 h2 h3
      have := c2 i h1 h2 h3
      rw [hadd i h1 h2, Except.ok.injEq] at this
      exact this.symm
    refine ⟨C, by simp [matrixMatrixAdd, rassert_true hl, hC], ?_, ?_⟩
    · apply List.ext_getElem
      · simpa using c1
      · intro i h1 h2
        simp only [List.length_map] at h1 h2
        simp [hCi i h2 (by omega) h1, hr i h2 (by omega)]
    · intro i j
      unfold entry
      by_cases h1 : i < A.length
      · have h2 : i < B.length := by omega
        have h3 : i < C.length := by omega
        simp only [List.getElem?_eq_getElem h1, List.getElem?_eq_getElem h2,
          List.getElem?_eq_getElem h3, Option.bind_some, hCi i h1 h2 h3, List.getElem?_zipWith]
        by_cases h4 : j < A[i].length
        · have h5 : j < B[i].length := by rw [← hr i h1 h2]; exact h4
          simp [h4, h5]
        · simp [List.getElem?_eq_none (Nat.le_of_not_lt h4)]
      · have h3 : ¬ i < C.length := by omega
        simp [List.getElem?_eq_none (Nat.le_of_not_lt h1), List.getElem?_eq_none (Nat.le_of_not_lt h3)]
  · intro hs
    unfold matrixMatrixAdd
    by_cases hl : A.length = B.length
    · rw [rassert_true hl, ok_bind]
      rcases zipWithR_error (as := A) (bs := B) hrow with ⟨C, hC⟩ | h
      · exfalso; apply hs
        obtain ⟨c1, c2⟩ := (zipWithR_eq_ok hl).1 hC
        apply List.ext_getElem
        · simpa using hl
        · intro i h1 h2
          simp only [List.length_map] at h1 h2
          have := c2 i h1 h2 (by omega)
          rw [C04_row_row_add] at this
          simp only [List.getElem_map]
          by_contra hne
          rw [dif_neg hne] at this
          simp at this
      · exact h
    · rw [rassert_false hl]; rfl

theorem C04_matrix_matrix_add_general [Add T] (A B : List (List T)) :
    (SameShape A B → ∃ C, matrixMatrixAddGeneral A B = .ok C ∧ SameShape C A ∧
        ∀ i j, entry C i j = (entry A i j).bind fun a => (entry B i j).map fun b => a + b) ∧
      (¬ SameShape A B → matrixMatrixAddGeneral A B = .error .assertFail) :=
  C04_matrix_matrix_add A B

theorem C04_matrixpoint_matrix_add [Add G] (A B : List (List G)) :
    (SameShape A B → ∃ C, matrixpointMatrixAdd A B = .ok C ∧ SameShape C A ∧
        ∀ i j, entry C i j = (entry A i j).bind fun a => (entry B i j).map fun b => a + b) ∧
      (¬ SameShape A B → matrixpointMatrixAdd A B = .error .assertFail) :=
  C04_matrix_matrix_add A B

/-- C04: on rectangular matrices this is matrix algebra. -/
theorem C04_matrix_algebra [Field F] {m n : Nat} (A B : Matrix (Fin m) (Fin n) F) (x : F) :
    matrixMatrixAdd (rows A) (rows B) = .ok (rows (A + B)) ∧
      matrixScalarMul (rows A) x = rows (x • A) := by
  refine ⟨matrixMatrixAdd_rows A B, ?_⟩
  rw [matrixScalarMul_rows]
  congr 1
  ext i j
  simp [mul_comm]

example : SameShape [[1, 2], [3]] [[(4 : ℚ), 5], [6]] ∧
    matrixMatrixAdd [[1, 2], [3]] [[(4 : ℚ), 5], [6]] = .ok [[5, 7], [9]] ∧
    ¬ SameShape [[1, 2], [3]] [[(4 : ℚ)], [5, 6]] := by
  unfold SameShape; decide +kernel

/-! ### C05: matrix-vector products -/

/-- C05: matrix times vector. -/
theorem C05_matrix_vector_mul [Field F] {m n : Nat} (A : Matrix (Fin m) (Fin n) F) (v : Fin n → F) :
    matrixVectorMul (rows A) (List.ofFn v) = List.ofFn (A.mulVec v) := by
  rw [matrixVectorMul_eq, rows, List.map_ofFn]
  congr 1; funext i
  simp [dot_ofFn, Matrix.mulVec, dotProduct, mul_comm]

/-- C05: the generic version, with the zero of the type as `identity`. -/
theorem C05_matrix_vector_mul_general [Field F] {m n : Nat} (A : Matrix (Fin m) (Fin n) F)
    (v : Fin n → F) :
    matrixVectorMulGeneral (rows A) (List.ofFn v) 0 = List.ofFn (A.mulVec v) := by
  rw [← C05_matrix_vector_mul]
  unfold matrixVectorMulGeneral matrixVectorMul
  congr 1; funext row
  rw [sumFrom_eq, zero_add, innerProduct]

/-- C05: matrix of points times vector of scalars. -/
theorem C05_matrixpoint_vector_mul [Field F] [AddCommGroup G] [Module F G] {m n : Nat}
    (A : Matrix (Fin m) (Fin n) G) (v : Fin n → F) :
    matrixpointVectorMul (rows A) (List.ofFn v) = List.ofFn fun i => ∑ j, v j • A i j := by
  rw [matrixpointVectorMul_eq, rows, List.map_ofFn]
  congr 1; funext i
  simp [dot_ofFn]

/-- C05: linearity in the vector. -/
theorem C05_matrixpoint_vector_mul_linear [Field F] [AddCommGroup G] [Module F G]
    (A : List (List G)) (x y : F) (v w : List F) (h : v.length = w.length) :
    matrixpointVectorMul A (List.zipWith (fun a b => x * a + y * b) v w) =
      List.zipWith (fun a b => x • a + y • b) (matrixpointVectorMul A v)
        (matrixpointVectorMul A w) := by
  simp only [matrixpointVectorMul_eq]
  induction A with
  | nil => rfl
  | cons row A ih => simp [ih, dot_comb_left x y row h]

/-- C05: linearity in the matrix. -/
theorem C05_matrixpoint_vector_mul_linear_matrix [Field F] [AddCommGroup G] [Module F G] {m n : Nat}
    (A B : Matrix (Fin m) (Fin n) G) (x y : F) (v : Fin n → F) :
    matrixpointVectorMul (rows (x • A + y • B)) (List.ofFn v) =
      List.zipWith (fun a b => x • a + y • b) (matrixpointVectorMul (rows A) (List.ofFn v))
        (matrixpointVectorMul (rows B) (List.ofFn v)) := by
  simp only [C05_matrixpoint_vector_mul, zipWith_ofFn]
  congr 1; funext i
  simp only [Matrix.add_apply, Matrix.smul_apply, Finset.smul_sum, ← Finset.sum_add_distrib]
  apply Finset.sum_congr rfl; intro j _; module

example : matrixVectorMul [[1, 2], [3, 4]] [(5 : ℚ), 6] = [17, 39] := by decide +kernel

/-! ### C06: transposition -/

/-- C06: on a matrix with at least one row. -/
theorem C06_matrix_transpose {m n : Nat} (A : Matrix (Fin m) (Fin n) T) (hm : 0 < m) :
    matrixTranspose (rows A) = .ok (rows A.transpose) ∧
      matrixpointTranspose (rows A) = .ok (rows A.transpose) := by
  have h := matrixTranspose_rows A hm
  refine ⟨h, ?_⟩
  unfold matrixpointTranspose
  rw [rassert_true (by simpa using hm)]
  exact h

/-- C06: transposing twice gives the matrix back when it has a row and a column. -/
theorem C06_transpose_twice {m n : Nat} (A : Matrix (Fin m) (Fin n) T) (hm : 0 < m) (hn : 0 < n) :
    (matrixTranspose (rows A) >>= fun B => matrixTranspose B) = .ok (rows A) := by
  rw [(C06_matrix_transpose A hm).1, ok_bind, (C06_matrix_transpose A.transpose hn).1,
    Matrix.transpose_transpose]

/-- C06: on every list of rows: panics iff there is no row or some row is longer than the first one;
otherwise column `j` collects the `j`-th entries of the rows that have one. -/
theorem C06_matrix_transpose_ragged (A : List (List T)) :
    matrixTranspose A = match A with
      | [] => .error .indexOOB
      | row0 :: _ => if ∀ row ∈ A, row.length ≤ row0.length then
          .ok (List.ofFn fun j : Fin row0.length => A.filterMap fun row => row[j.val]?)
        else .error .indexOOB := by
  cases A with
  | nil => rfl
  | cons row0 A =>
    simp only [matrixTranspose, idx_cons_zero, ok_bind]
    split
    · next h => exact pushRows_replicate h
    · next h =>
      apply pushRows_error
      push Not at h
      simpa using h

/-- C06: the version for points differs only in the reported panic. -/
theorem C06_matrixpoint_transpose_ragged (A : List (List T)) :
    matrixpointTranspose A = match A with
      | [] => .error .assertFail
      | _ :: _ => matrixTranspose A := by
  cases A with
  | nil => rfl
  | cons row0 A => rw [matrixpointTranspose, rassert_true (by simp)]; rfl

example : matrixTranspose [[1, 2, 3], [4, 5, (6 : ℚ)]] = .ok [[1, 4], [2, 5], [3, 6]] ∧
    matrixTranspose [[1], [4, (5 : ℚ)]] = .error .indexOOB := by decide +kernel

/-! ### C07: matrix_split -/

/-- C07: a rectangular matrix is cut into blocks of `c` columns; side by side they give the matrix
back. -/
theorem C07_matrix_split (A : List (List T)) (q c : Nat) (hA : A ≠ []) (hc : 0 < c)
    (hw : Width (q * c) A) :
    ∃ blocks, matrixSplit A c = .ok blocks ∧ blocks.length = q ∧
      (∀ B ∈ blocks, B.length = A.length ∧ Width c B) ∧
      ∀ i (hi : i < A.length), A[i] = blocks.flatMap fun B => B[i]?.getD [] := by
  have hlen : 0 < A.length := List.length_pos_iff.2 hA
  have h0 : A[0].length = q * c := hw _ (List.getElem_mem hlen)
  have hq : q * c / c = q := Nat.mul_div_cancel q hc
  have hch : ∀ row ∈ A, (chunks c row).length = q := fun row hr => chunks_length hc (hw row hr)
  set blocks := List.ofFn fun j : Fin q =>
    (A.map fun row => chunks c row).filterMap fun row => row[j.val]? with hb
  have hsplit : matrixSplit A c = .ok blocks := by
    unfold matrixSplit
    rw [rassert_true hlen, ok_bind, idx_lt hlen, ok_bind]
    simp only [h0, hq, Nat.mul_mod_left, rassert_True, if_neg (Nat.pos_iff_ne_zero.1 hc)]
    exact pushRows_replicate (by
      intro row hr
      obtain ⟨r, hr', rfl⟩ := List.mem_map.1 hr
      exact (hch r hr').le)
  -- block `j` is the list of the `j`-th pieces
  have hblock : ∀ j (hj : j < q), ((A.map fun row => chunks c row).filterMap fun row => row[j]?) =
      A.map fun row => (row.drop (j * c)).take c := by
    intro j hj
    rw [List.filterMap_map]
    have : ∀ row ∈ A, ((fun row : List (List T) => row[j]?) ∘ fun row => chunks c row) row =
        some ((row.drop (j * c)).take c) := by
      intro row hr
      simp only [Function.comp, chunks_getElem? hc, hw row hr]
      rw [if_pos (Nat.mul_lt_mul_of_pos_right hj hc)]
    rw [List.filterMap_congr this]
    exact List.filterMap_eq_map' ▸ rfl
  refine ⟨blocks, hsplit, by simp [hb], ?_, ?_⟩
  · intro B hB
    obtain ⟨j, rfl⟩ := List.mem_ofFn.1 hB
    rw [hblock j j.2]
    refine ⟨by simp, ?_⟩
    intro r hr
    obtain ⟨row, hrow, rfl⟩ := List.mem_map.1 hr
    have : j.val * c + c ≤ q * c := by
      rw [← Nat.succ_mul]; exact Nat.mul_le_mul_right _ j.2
    simp only [List.length_take, List.length_drop, hw row hrow]
    omega
  · intro i hi
    have hrow := hw _ (List.getElem_mem hi)
    have e : blocks.map (fun B => B[i]?.getD []) = chunks c A[i] := by
      apply List.ext_getElem
      · simp [hb, chunks_length hc hrow]
      · intro j h1 h2
        have hj : j < q := by simpa [hb] using h1
        have h3 := chunks_getElem? hc A[i] j
        rw [hrow, if_pos (Nat.mul_lt_mul_of_pos_right hj hc), List.getElem?_eq_getElem h2,
          Option.some.injEq] at h3
        rw [h3]
        simp only [hb, List.getElem_map, List.getElem_ofFn]
        rw [hblock j hj]
        simp [hi]
    rw [List.flatMap_def, e, chunks_flatten hc]

/-- C07: the panics. -/
theorem C07_matrix_split_panics (A : List (List T)) (c : Nat) :
    (A = [] → matrixSplit A c = .error .assertFail) ∧
    (A ≠ [] → c = 0 → matrixSplit A c = .error .divZero) ∧
    (∀ h : A ≠ [], c ≠ 0 → ¬ c ∣ (A.head h).length → matrixSplit A c = .error .assertFail) := by
  refine ⟨?_, ?_, ?_⟩
  · rintro rfl; rfl
  · intro h hc
    cases A with
    | nil => simp at h
    | cons row A => simp [matrixSplit, hc, rassert]
  · intro h hc hd
    cases A with
    | nil => simp at h
    | cons row A =>
      have : ¬ row.length % c = 0 := fun h => hd (Nat.dvd_of_mod_eq_zero h)
      simp [matrixSplit, hc, rassert, this]

example : matrixSplit [[1, 2, 3, 4], [5, 6, 7, (8 : ℚ)]] 2 =
    .ok [[[1, 2], [5, 6]], [[3, 4], [7, 8]]] := by decide +kernel

/-! ### C08, C09: block_matrix_batch -/

theorem sumBlocks_rows [Field F] {m n : Nat} (acc : Matrix (Fin m) (Fin n) F)
    (Ms : List (Matrix (Fin m) (Fin n) F)) :
    sumBlocks (rows acc) (Ms.map rows) = .ok (rows (acc + Ms.sum)) := by
  induction Ms generalizing acc with
  | nil => simp [sumBlocks]
  | cons M Ms ih =>
    rw [List.map_cons, sumBlocks, matrixMatrixAdd_rows, ok_bind, ih, List.sum_cons, add_assoc]

/-- C08: with at least as many challenges as matrices (of one shape), the result is the sum of all
matrices weighted by their challenges. -/
theorem C08_batch [Field F] {m n k : Nat} (Ms : Fin (k + 1) → Matrix (Fin m) (Fin n) F)
    (cs : List F) (h : k + 1 ≤ cs.length) :
    (⟨List.ofFn fun i => rows (Ms i)⟩ : BlockMatrix F).batch cs =
      .ok (rows (∑ i, cs[i.val] • Ms i)) := by
  have hz : List.zipWith (fun m c => matrixScalarMul m c) (List.ofFn fun i => rows (Ms i)) cs =
      (List.ofFn fun i : Fin (k + 1) => cs[i.val] • Ms i).map rows := by
    apply List.ext_getElem
    · simp [h]
    · intro i h1 h2
      simp only [List.getElem_zipWith, List.getElem_ofFn, List.getElem_map]
      exact (C04_matrix_algebra (Ms ⟨i, _⟩) 0 _).2
  unfold BlockMatrix.batch
  simp only [hz]
  rw [List.ofFn_succ, List.map_cons, Fin.sum_univ_succ]
  simp only
  rw [sumBlocks_rows, List.sum_ofFn]

/-- C08: no matrices or no challenges: panic. -/
theorem C08_batch_panics [Field F] (b : BlockMatrix F) (cs : List F) (h : b.block = [] ∨ cs = []) :
    b.batch cs = .error .indexOOB := by
  unfold BlockMatrix.batch
  rcases h with h | h <;> simp [h]

/-- C08: `new`, `push` and `with` build the list of matrices in the order of insertion. -/
theorem C08_block_push (b : BlockMatrix F) (M : List (List F)) :
    (b.push M).block = b.block ++ [M] ∧ (BlockMatrix.new : BlockMatrix F).block = [] ∧
      (BlockMatrix.with M).block = [M] := ⟨rfl, rfl, rfl⟩

/-- C09, helper level: matrices beyond the number of challenges are dropped silently,
whatever they are. -/
theorem C09_batch_drops [Field F] (Ms extra : List (List (List F))) (cs : List F)
    (h : cs.length ≤ Ms.length) :
    (⟨Ms ++ extra⟩ : BlockMatrix F).batch cs = (⟨Ms⟩ : BlockMatrix F).batch cs := by
  have : List.zipWith (fun m c => matrixScalarMul m c) (Ms ++ extra) cs =
      List.zipWith (fun m c => matrixScalarMul m c) Ms cs := by
    apply List.ext_getElem?
    intro i
    simp only [List.getElem?_zipWith]
    by_cases hi : i < cs.length
    · rw [List.getElem?_append_left (by omega)]
    · simp [List.getElem?_eq_none (Nat.le_of_not_lt hi)]
  unfold BlockMatrix.batch
  simp only [this]

example : (⟨[[[1]], [[2]], [[(3 : ℚ)]]]⟩ : BlockMatrix ℚ).batch [5, 7] = .ok [[19]] := by
  decide +kernel

end Qesa.Props
