import Mathlib.Logic.Equiv.Fin.Basic
import Mathlib.Algebra.Module.BigOperators
import Mathlib.LinearAlgebra.Matrix.Notation
import Verif.Proofs.Lmpa
import Verif.Proofs.Matrix
import Verif.Props.Helpers
/-
The k-ary loops of src/lmpa/no_zk.rs, in terms of matrices.
-/
namespace Qesa.LmpaK
open Qesa Spec Lmpa
set_option linter.unusedSectionVars false
variable {F G T : Type}

/-- Block `i` of a matrix with `k * c` columns. -/
def block [Zero T] {m k c : Nat} (M : Matrix (Fin m) (Fin (k * c)) T) (i : Nat) :
    Matrix (Fin m) (Fin c) T :=
  Matrix.of fun r s => if h : i < k then M r (finProdFinEquiv (⟨i, h⟩, s)) else 0

theorem matrixSplit_rows [Zero T] {m k c : Nat} (M : Matrix (Fin m) (Fin (k * c)) T) (hm : 0 < m)
    (hc : 0 < c) :
    matrixSplit (rows M) c = .ok (List.ofFn fun i : Fin k => rows (block M i)) := by
  have hw : Width (k * c) (rows M) := width_rows M
  have hlen : 0 < (rows M).length := by simpa using hm
  have h0 : (rows M)[0].length = k * c := hw _ (List.getElem_mem hlen)
  have hq : k * c / c = k := Nat.mul_div_cancel k hc
  unfold matrixSplit
  rw [rassert_true hlen, ok_bind, idx_lt hlen, ok_bind]
  simp only [h0, hq, Nat.mul_mod_left, rassert_True, if_neg (Nat.pos_iff_ne_zero.1 hc)]
  rw [ok_bind, pushRows_replicate]
  · congr 1
    congr 1
    funext j
    rw [List.filterMap_map]
    have : ∀ row ∈ rows M, ((fun row : List (List T) => row[j.val]?) ∘ fun row => chunks c row) row =
        some ((row.drop (j * c)).take c) := by
      intro row hr
      simp only [Function.comp, chunks_getElem? hc, hw row hr]
      rw [if_pos (Nat.mul_lt_mul_of_pos_right j.2 hc)]
    rw [List.filterMap_congr this]
    rw [show (fun row : List T => some ((row.drop (j * c)).take c)) =
      some ∘ fun row => (row.drop (j * c)).take c from rfl, List.filterMap_eq_map]
    have hj : j.val * c + c ≤ k * c := by
      rw [← Nat.succ_mul]; exact Nat.mul_le_mul_right _ j.2
    apply List.ext_getElem
    · simp
    · intro r h1 h2
      simp only [List.getElem_map, getElem_rows]
      apply List.ext_getElem
      · simp; omega
      · intro s h3 h4
        simp only [List.getElem_take, List.getElem_drop, List.getElem_ofFn, block, Matrix.of_apply]
        rw [dif_pos j.2]
        congr 1
        apply Fin.ext
        simp [finProdFinEquiv, mul_comm, add_comm]
  · intro row hr
    obtain ⟨r, hr', rfl⟩ := List.mem_map.1 hr
    exact (chunks_length hc (hw r hr')).le

variable [Field F] [AddCommGroup G] [Module F G]

theorem matrixpointScalarMul_rows {m n : Nat} (A : Matrix (Fin m) (Fin n) G) (x : F) :
    matrixpointScalarMul (rows A) x = rows (x • A) := by
  apply List.ext_getElem
  · simp [matrixpointScalarMul]
  · intro i h1 h2
    simp only [matrixpointScalarMul, List.getElem_map, getElem_rows, List.map_ofFn]
    rfl

theorem rowpointRowpointAdd_ofFn {n : Nat} (v w : Fin n → G) :
    rowpointRowpointAdd (List.ofFn v) (List.ofFn w) = .ok (List.ofFn (v + w)) := by
  simp [rowpointRowpointAdd, zipWith_ofFn]; rfl

theorem matrixpointMatrixAdd_rows {m n : Nat} (A B : Matrix (Fin m) (Fin n) G) :
    matrixpointMatrixAdd (rows A) (rows B) = .ok (rows (A + B)) := by
  unfold matrixpointMatrixAdd
  simp only [length_rows, rassert_True, ok_bind]
  rw [zipWithR_eq_ok (by simp)]
  refine ⟨by simp, ?_⟩
  intro i h1 h2 h3
  simp only [getElem_rows, rowpointRowpointAdd_ofFn]
  rfl

theorem combineA_some {m n : Nat} (AT : List (List (List G))) (xs : List F) (B : ℕ → Matrix (Fin m) (Fin n) G)
    (x : ℕ → F) : ∀ (c i : Nat) (S : Matrix (Fin m) (Fin n) G),
    (∀ j, i ≤ j → j < i + c → idx AT j = .ok (rows (B j)) ∧ idx xs j = .ok (x j)) →
    combineA AT xs c i (some (rows S)) = .ok (rows (S + ∑ j ∈ Finset.range c, x (i + j) • B (i + j))) := by
  intro c
  induction c with
  | zero => intro i S _; simp [combineA, unwrapR]
  | succ c ih =>
    intro i S h
    obtain ⟨h1, h2⟩ := h i le_rfl (by omega)
    rw [combineA, h1, ok_bind, h2, ok_bind]
    dsimp only
    rw [matrixpointScalarMul_rows, matrixpointMatrixAdd_rows, ok_bind,
      ih (i + 1) _ (fun j hj hj' => h j (by omega) (by omega)), Finset.sum_range_succ']
    simp only [Nat.add_zero, add_assoc, add_comm 1]
    congr 3
    exact add_comm _ _

theorem combineA_eq {m n : Nat} (AT : List (List (List G))) (xs : List F)
    (B : ℕ → Matrix (Fin m) (Fin n) G) (x : ℕ → F) (k : Nat) (hk : 0 < k)
    (h : ∀ j, j < k → idx AT j = .ok (rows (B j)) ∧ idx xs j = .ok (x j)) :
    combineA AT xs k 0 none = .ok (rows (∑ j ∈ Finset.range k, x j • B j)) := by
  obtain ⟨k, rfl⟩ := Nat.exists_eq_succ_of_ne_zero (Nat.pos_iff_ne_zero.1 hk)
  obtain ⟨h1, h2⟩ := h 0 hk
  rw [combineA, h1, ok_bind, h2, ok_bind]
  dsimp only
  rw [matrixpointScalarMul_rows, ok_bind,
    combineA_some AT xs B x k 1 _ (fun j hj hj' => h j (by omega)), Finset.sum_range_succ', add_comm]
  simp only [add_comm 1]

theorem matrixScalarMul_rows' {m n : Nat} (A : Matrix (Fin m) (Fin n) F) (x : F) :
    matrixScalarMul (rows A) x = rows (x • A) := by
  rw [matrixScalarMul_rows]
  congr 1
  ext i j
  simp [mul_comm]

theorem combineW_some {m n : Nat} (AT : List (List (List F))) (xs : List F) (B : ℕ → Matrix (Fin m) (Fin n) F)
    (x : ℕ → F) : ∀ (c i : Nat) (S : Matrix (Fin m) (Fin n) F),
    (∀ j, i ≤ j → j < i + c → idx AT j = .ok (rows (B j)) ∧ idx xs j = .ok (x j)) →
    combineW AT xs c i (some (rows S)) = .ok (rows (S + ∑ j ∈ Finset.range c, x (i + j) • B (i + j))) := by
  intro c
  induction c with
  | zero => intro i S _; simp [combineW, unwrapR]
  | succ c ih =>
    intro i S h
    obtain ⟨h1, h2⟩ := h i le_rfl (by omega)
    rw [combineW, h1, ok_bind, h2, ok_bind]
    dsimp only
    rw [matrixScalarMul_rows', matrixMatrixAdd_rows, ok_bind,
      ih (i + 1) _ (fun j hj hj' => h j (by omega) (by omega)), Finset.sum_range_succ']
    simp only [Nat.add_zero, add_assoc, add_comm 1]
    congr 3
    exact add_comm _ _

theorem combineW_eq {m n : Nat} (AT : List (List (List F))) (xs : List F)
    (B : ℕ → Matrix (Fin m) (Fin n) F) (x : ℕ → F) (k : Nat) (hk : 0 < k)
    (h : ∀ j, j < k → idx AT j = .ok (rows (B j)) ∧ idx xs j = .ok (x j)) :
    combineW AT xs k 0 none = .ok (rows (∑ j ∈ Finset.range k, x j • B j)) := by
  obtain ⟨k, rfl⟩ := Nat.exists_eq_succ_of_ne_zero (Nat.pos_iff_ne_zero.1 hk)
  obtain ⟨h1, h2⟩ := h 0 hk
  rw [combineW, h1, ok_bind, h2, ok_bind]
  dsimp only
  rw [matrixScalarMul_rows', ok_bind,
    combineW_some AT xs B x k 1 _ (fun j hj hj' => h j (by omega)), Finset.sum_range_succ', add_comm]
  simp only [add_comm 1]

theorem vectorpointScalarMul_ofFn {n : Nat} (v : Fin n → G) (x : F) :
    vectorpointScalarMul (List.ofFn v) x = List.ofFn (x • v) := by
  simp only [vectorpointScalarMul, List.map_ofFn]; rfl

theorem combineT_some {m : Nat} (u : List (List G)) (xs : List F) (U : ℕ → Fin m → G)
    (x : ℕ → F) : ∀ (c i : Nat) (S : Fin m → G),
    (∀ j, i ≤ j → j < i + c → idx u j = .ok (List.ofFn (U j)) ∧ idx xs j = .ok (x j)) →
    combineT u xs c i (some (List.ofFn S)) =
      .ok (List.ofFn (S + ∑ j ∈ Finset.range c, x (i + j) • U (i + j))) := by
  intro c
  induction c with
  | zero => intro i S _; simp [combineT, unwrapR]
  | succ c ih =>
    intro i S h
    obtain ⟨h1, h2⟩ := h i le_rfl (by omega)
    rw [combineT, h1, ok_bind, h2, ok_bind]
    dsimp only
    rw [vectorpointScalarMul_ofFn, rowpointRowpointAdd_ofFn, ok_bind,
      ih (i + 1) _ (fun j hj hj' => h j (by omega) (by omega)), Finset.sum_range_succ']
    simp only [Nat.add_zero, add_assoc, add_comm 1]
    congr 3
    exact add_comm _ _

theorem combineT_eq {m : Nat} (u : List (List G)) (xs : List F)
    (U : ℕ → Fin m → G) (x : ℕ → F) (k : Nat) (hk : 0 < k)
    (h : ∀ j, j < k → idx u j = .ok (List.ofFn (U j)) ∧ idx xs j = .ok (x j)) :
    combineT u xs k 0 none = .ok (List.ofFn (∑ j ∈ Finset.range k, x j • U j)) := by
  obtain ⟨k, rfl⟩ := Nat.exists_eq_succ_of_ne_zero (Nat.pos_iff_ne_zero.1 hk)
  obtain ⟨h1, h2⟩ := h 0 hk
  rw [combineT, h1, ok_bind, h2, ok_bind]
  dsimp only
  rw [vectorpointScalarMul_ofFn, ok_bind,
    combineT_some u xs U x k 1 _ (fun j hj hj' => h j (by omega)), Finset.sum_range_succ', add_comm]
  simp only [add_comm 1]

/-! ### The messages -/

/-- A list of `L` vectors. -/
def rep {m : Nat} (L : Nat) (U : ℕ → Fin m → G) : List (List G) :=
  List.ofFn fun l : Fin L => List.ofFn (U l)

theorem idx_ofFn {α : Type} {L : Nat} (f : ℕ → α) (l : Nat) (h : l < L) :
    idx (List.ofFn fun i : Fin L => f i) l = .ok (f l) := by
  rw [idx_lt (by simpa using h)]; simp

theorem setIdx_ofFn {α : Type} {L : Nat} (f : ℕ → α) (l : Nat) (v : α) (h : l < L) :
    setIdx (List.ofFn fun i : Fin L => f i) l v =
      .ok (List.ofFn fun i : Fin L => Function.update f l v i) := by
  unfold setIdx
  rw [if_pos (by simpa using h)]
  congr 1
  apply List.ext_getElem (by simp)
  intro i h1 h2
  simp only [List.getElem_set, List.getElem_ofFn, Function.update_apply, eq_comm]

theorem idx_rep {m L : Nat} (U : ℕ → Fin m → G) (l : Nat) (h : l < L) :
    idx (rep L U) l = .ok (List.ofFn (U l)) := idx_ofFn (fun l => List.ofFn (U l)) l h

theorem setIdx_rep {m L : Nat} (U : ℕ → Fin m → G) (l : Nat) (v : Fin m → G) (h : l < L) :
    setIdx (rep L U) l (List.ofFn v) = .ok (rep L (Function.update U l v)) := by
  unfold rep
  rw [setIdx_ofFn (fun l => List.ofFn (U l)) l _ h]
  congr 2
  funext i
  simp only [Function.update_apply]
  split <;> rfl

/-- The product of a block with a piece of the witness. -/
def P {m c : Nat} (B : Matrix (Fin m) (Fin c) G) (W : Matrix (Fin 1) (Fin c) F) : Fin m → G :=
  fun r => ∑ s, W 0 s • B r s

theorem matrixpointVectorMul_rows {m c : Nat} (B : Matrix (Fin m) (Fin c) G) (w : Fin c → F) :
    matrixpointVectorMul (rows B) (List.ofFn w) = List.ofFn fun r => ∑ s, w s • B r s := by
  rw [matrixpointVectorMul_eq, rows, List.map_ofFn]
  congr 1
  funext r
  simp only [Function.comp, dot_ofFn]

theorem uInner_eq {m c L : Nat} (tt : Fin m → G) (shift i : Nat) (B : Matrix (Fin m) (Fin c) G)
    (W : ℕ → Matrix (Fin 1) (Fin c) F) (hi : i ≤ shift) : ∀ (b j0 : Nat) (U : ℕ → Fin m → G),
    shift + (j0 + b) ≤ L + i →
    uInner (List.ofFn tt) shift i (rows B) j0 (List.ofFn fun j : Fin b => rows (W (j0 + j))) (rep L U) =
      .ok (rep L fun l => if l = shift then (if j0 ≤ i ∧ i < j0 + b then tt else U shift)
        else U l + ∑ j ∈ Finset.range b, if shift + (j0 + j) - i = l then P B (W (j0 + j)) else 0) := by
  intro b
  induction b with
  | zero =>
    intro j0 U _
    simp only [List.ofFn_zero, uInner, Finset.range_zero, Finset.sum_empty, add_zero]
    congr 2
    funext l
    split
    · rw [if_neg (by omega)]; subst l; rfl
    · rfl
  | succ b ih =>
    intro j0 U h
    rw [List.ofFn_succ, uInner, usub_le (by omega), ok_bind]
    simp only [Fin.val_zero, Nat.add_zero, Fin.val_succ]
    have e : (List.ofFn fun j : Fin b => rows (W (j0 + (j.val + 1)))) =
        List.ofFn fun j : Fin b => rows (W (j0 + 1 + j.val)) := by
      congr 1; funext j; congr 2; omega
    rw [e]
    have e2 : ∀ l : Nat, (∑ j ∈ Finset.range (b + 1), if shift + (j0 + j) - i = l then P B (W (j0 + j)) else 0)
        = (∑ j ∈ Finset.range b, if shift + (j0 + 1 + j) - i = l then P B (W (j0 + 1 + j)) else 0) +
          if shift + j0 - i = l then P B (W j0) else 0 := by
      intro l
      rw [Finset.sum_range_succ']
      simp only [Nat.add_zero, add_assoc, add_comm 1]
    by_cases hl : shift + j0 - i = shift
    · rw [if_neg (by simpa using hl), setIdx_rep _ _ _ (by omega), ok_bind, ih (j0 + 1) _ (by omega)]
      congr 2
      funext l
      by_cases hls : l = shift
      · rw [if_pos hls, if_pos hls, if_neg (by omega), if_pos (by omega), hl, Function.update_self]
      · rw [if_neg hls, if_neg hls, e2, if_neg (by omega), Function.update_of_ne (by omega), add_zero]
    · rw [if_pos hl]
      have h0 : idx (rows (W j0)) 0 = .ok (List.ofFn (W j0 0)) := by
        rw [idx_lt (by simp)]; simp
      rw [h0]
      simp only [ok_bind]
      rw [idx_rep _ _ (by omega), ok_bind, matrixpointVectorMul_rows, rowpointRowpointAdd_ofFn, ok_bind,
        setIdx_rep _ _ _ (by omega), ok_bind, ih (j0 + 1) _ (by omega)]
      congr 2
      funext l
      by_cases hls : l = shift
      · rw [if_pos hls, if_pos hls, Function.update_of_ne (by omega)]
        congr 1
        apply propext
        constructor <;> intro h <;> omega
      · rw [if_neg hls, if_neg hls, e2]
        by_cases hl2 : shift + j0 - i = l
        · rw [if_pos hl2, hl2, Function.update_self, add_comm (∑ j ∈ _, _), ← add_assoc]
          rfl
        · rw [if_neg hl2, Function.update_of_ne (by omega), add_zero]

theorem uOuter_eq {m c L k : Nat} (tt : Fin m → G) (shift : Nat) (B : ℕ → Matrix (Fin m) (Fin c) G)
    (W : ℕ → Matrix (Fin 1) (Fin c) F) (hL : shift + k ≤ L) : ∀ (b i0 : Nat) (U : ℕ → Fin m → G),
    i0 + b ≤ k → i0 + b ≤ shift + 1 →
    uOuter (List.ofFn tt) shift (List.ofFn fun j : Fin k => rows (W j)) i0
        (List.ofFn fun i : Fin b => rows (B (i0 + i))) (rep L U) =
      .ok (rep L fun l => if l = shift then (if 0 < b then tt else U shift)
        else U l + ∑ i ∈ Finset.range b, ∑ j ∈ Finset.range k,
          if shift + j - (i0 + i) = l then P (B (i0 + i)) (W j) else 0) := by
  intro b
  induction b with
  | zero =>
    intro i0 U _ _
    simp only [List.ofFn_zero, uOuter, Finset.range_zero, Finset.sum_empty, add_zero]
    congr 2
    funext l
    split
    · rw [if_neg (by omega)]; subst l; rfl
    · rfl
  | succ b ih =>
    intro i0 U h h'
    rw [List.ofFn_succ, uOuter]
    simp only [Fin.val_zero, Nat.add_zero, Fin.val_succ]
    have := uInner_eq tt shift i0 (B i0) W (by omega) (L := L) k 0 U (by omega)
    simp only [Nat.zero_add] at this
    rw [this, ok_bind]
    have e : (List.ofFn fun i : Fin b => rows (B (i0 + (i.val + 1)))) =
        List.ofFn fun i : Fin b => rows (B (i0 + 1 + i.val)) := by
      congr 1; funext j; congr 2; omega
    rw [e, ih (i0 + 1) _ (by omega) (by omega)]
    congr 2
    funext l
    by_cases hls : l = shift
    · rw [if_pos hls, if_pos hls, if_pos (by omega : 0 < b + 1), if_pos rfl,
        if_pos (⟨by omega, by omega⟩ : 0 ≤ i0 ∧ i0 < k)]
      split <;> rfl
    · rw [if_neg hls, if_neg hls, if_neg hls, Finset.sum_range_succ', add_assoc]
      congr 1
      simp only [Nat.add_zero, add_assoc, add_comm 1]
      exact add_comm _ _

theorem zInner_eq {L : Nat} (shift i : Nat) (x : F) (y : ℕ → F) (f : ℕ → F) (hi : i ≤ shift) :
    ∀ (b j0 : Nat) (Z : ℕ → F), shift + (j0 + b) ≤ L + i →
    (∀ j, j0 ≤ j → j < j0 + b → shift + j - i ≠ shift → x * y j = f (shift + j - i)) →
    zInner shift i x j0 (List.ofFn fun j : Fin b => y (j0 + j)) (List.ofFn fun l : Fin L => Z l) =
      .ok (List.ofFn fun l : Fin L => if l.val ≠ shift ∧ shift + j0 ≤ l + i ∧ l + i < shift + (j0 + b) then
        f l else Z l) := by
  intro b
  induction b with
  | zero =>
    intro j0 Z _ _
    simp only [List.ofFn_zero, zInner]
    congr 2
    funext l
    rw [if_neg (by omega)]
  | succ b ih =>
    intro j0 Z h hf
    rw [List.ofFn_succ, zInner, usub_le (by omega), ok_bind]
    simp only [Fin.val_zero, Nat.add_zero, Fin.val_succ]
    have e : (List.ofFn fun j : Fin b => y (j0 + (j.val + 1))) =
        List.ofFn fun j : Fin b => y (j0 + 1 + j.val) := by
      congr 1; funext j; congr 1; omega
    rw [e]
    by_cases hl : shift + j0 - i = shift
    · rw [if_neg (by simpa using hl), ok_bind, ih (j0 + 1) _ (by omega)
        (fun j h1 h2 h3 => hf j (by omega) (by omega) h3)]
      congr 2
      funext l
      congr 1
      apply propext
      constructor <;> rintro ⟨h1, h2, h3⟩ <;> refine ⟨h1, ?_, ?_⟩ <;> omega
    · rw [if_pos hl, setIdx_ofFn Z _ _ (by omega), ok_bind, ih (j0 + 1) _ (by omega)
        (fun j h1 h2 h3 => hf j (by omega) (by omega) h3), hf j0 le_rfl (by omega) hl]
      congr 2
      funext l
      by_cases hc : l.val = shift + j0 - i
      · rw [if_neg (by omega), if_pos (by omega), hc, Function.update_self]
      · rw [Function.update_of_ne hc]
        congr 1
        apply propext
        constructor <;> rintro ⟨h1, h2, h3⟩ <;> refine ⟨h1, ?_, ?_⟩ <;> omega

open Classical in
theorem zOuter_eq {L k : Nat} (shift : Nat) (x y : ℕ → F) (f : ℕ → F) (hL : shift + k ≤ L)
    (hf : ∀ i j, i ≤ shift → j < k → shift + j - i ≠ shift → x i * y j = f (shift + j - i)) :
    ∀ (b i0 : Nat) (Z : ℕ → F), i0 + b ≤ shift + 1 →
    zOuter shift (List.ofFn fun j : Fin k => y j) i0 (List.ofFn fun i : Fin b => x (i0 + i))
      (List.ofFn fun l : Fin L => Z l) =
      .ok (List.ofFn fun l : Fin L =>
        if l.val ≠ shift ∧ ∃ i, i0 ≤ i ∧ i < i0 + b ∧ shift ≤ l + i ∧ l + i < shift + k then f l else Z l) := by
  intro b
  induction b with
  | zero =>
    intro i0 Z _
    simp only [List.ofFn_zero, zOuter]
    congr 2
    funext l
    rw [if_neg]
    rintro ⟨-, i, h1, h2, -⟩
    omega
  | succ b ih =>
    intro i0 Z h
    rw [List.ofFn_succ, zOuter]
    simp only [Fin.val_zero, Nat.add_zero, Fin.val_succ]
    have := zInner_eq (L := L) shift i0 (x i0) y f (by omega) k 0 Z (by omega)
      (fun j _ h2 h3 => hf i0 j (by omega) (by omega) h3)
    simp only [Nat.zero_add, Nat.add_zero] at this
    rw [this, ok_bind]
    have e : (List.ofFn fun i : Fin b => x (i0 + (i.val + 1))) =
        List.ofFn fun i : Fin b => x (i0 + 1 + i.val) := by
      congr 1; funext j; congr 1; omega
    rw [e]
    have := ih (i0 + 1) (fun l => if l ≠ shift ∧ shift ≤ l + i0 ∧ l + i0 < shift + k then f l else Z l)
      (by omega)
    rw [this]
    congr 2
    funext l
    by_cases h1 : l.val ≠ shift ∧ shift ≤ l + i0 ∧ l + i0 < shift + k
    · rw [if_pos h1, ite_self, if_pos ⟨h1.1, i0, le_rfl, by omega, h1.2⟩]
    · rw [if_neg h1]
      congr 1
      apply propext
      constructor
      · rintro ⟨h2, i, h3, h4, h5⟩
        exact ⟨h2, i, by omega, by omega, h5⟩
      · rintro ⟨h2, i, h3, h4, h5⟩
        refine ⟨h2, i, ?_, by omega, h5⟩
        rcases Nat.lt_or_ge i0 i with h6 | h6
        · omega
        · have : i = i0 := by omega
          subst this
          exact absurd ⟨h2, h5⟩ h1

open Classical in
/-- The scalars `z`. -/
theorem z_eq (k : Nat) (hk : 0 < k) (x : F) :
    zOuter (k - 1) (List.ofFn fun j : Fin k => x⁻¹ ^ j.val) 0 (List.ofFn fun i : Fin k => x ^ i.val)
      (List.replicate (2 * (k - 1) + 1) 1) =
      .ok (List.ofFn fun l : Fin (2 * (k - 1) + 1) => kWeight x k l) := by
  have hf : ∀ i j, i ≤ k - 1 → j < k → k - 1 + j - i ≠ k - 1 →
      x ^ i * x⁻¹ ^ j = x ^ (k - 1) * x⁻¹ ^ (k - 1 + j - i) := by
    intro i j hi hj hne
    by_cases hx : x = 0
    · subst hx
      rw [inv_zero, ← pow_add, ← pow_add, zero_pow (by omega), zero_pow (by omega)]
    have : k - 1 + j - i = (k - 1 - i) + j := by omega
    rw [this, pow_add, ← mul_assoc]
    congr 1
    have h2 : x ^ (k - 1) = x ^ i * x ^ (k - 1 - i) := by rw [← pow_add]; congr 1; omega
    rw [h2, mul_assoc, ← mul_pow, mul_inv_cancel₀ hx, one_pow, mul_one]
  have := zOuter_eq (L := 2 * (k - 1) + 1) (k := k) (k - 1) (fun i => x ^ i) (fun j => x⁻¹ ^ j)
    (fun l => x ^ (k - 1) * x⁻¹ ^ l) (by omega) hf k 0 (fun _ => 1) (by omega)
  simp only [Nat.zero_add] at this
  rw [show List.replicate (2 * (k - 1) + 1) (1 : F) = List.ofFn fun _ : Fin (2 * (k - 1) + 1) => 1 by
    rw [List.ofFn_const], this]
  congr 2
  funext l
  unfold kWeight
  by_cases h : l.val = k - 1
  · rw [if_neg (by simp [h]), if_pos h]
  · rw [if_neg h, if_pos]
    refine ⟨h, ?_⟩
    rcases Nat.lt_or_ge l (k - 1) with h1 | h1
    · exact ⟨k - 1 - l, by omega, by omega, by omega, by omega⟩
    · exact ⟨0, by omega, by omega, by omega, by omega⟩

/-! ### One round -/

theorem absorbAll_eq (cx : Ctx G) (u : List (List G)) (tr : Transcript) :
    absorbAll cx "u_l" u tr = ⟨tr.log ++ u.flatMap (pointsLog cx "u_l")⟩ := by
  induction u generalizing tr with
  | nil => simp [absorbAll]
  | cons v u ih => simp [absorbAll, ih, absorb_eq]

/-- The prover's message. -/
def message {m k c : Nat} (M : Matrix (Fin m) (Fin (k * c)) G) (w : Fin (k * c) → F) (tt : Fin m → G) :
    ℕ → Fin m → G := fun l => if l = k - 1 then tt else
      ∑ i ∈ Finset.range k, ∑ j ∈ Finset.range k,
        if k - 1 + j - i = l then P (block M i) (block (Matrix.of fun _ : Fin 1 => w) j) else 0

theorem message_eq {m k c : Nat} (hk : 0 < k) (M : Matrix (Fin m) (Fin (k * c)) G) (w : Fin (k * c) → F)
    (tt : Fin m → G) :
    uOuter (List.ofFn tt) (k - 1)
      (List.ofFn fun j : Fin k => rows (block (Matrix.of fun _ : Fin 1 => w) j)) 0
      (List.ofFn fun i : Fin k => rows (block M i))
      (List.replicate (2 * (k - 1) + 1) (List.replicate m 0)) =
    .ok (rep (2 * (k - 1) + 1) (message M w tt)) := by
  have e : List.replicate (2 * (k - 1) + 1) (List.replicate m (0 : G)) =
      rep (2 * (k - 1) + 1) fun _ => (0 : Fin m → G) := by
    unfold rep
    rw [List.ofFn_const]
    congr 1
    rw [← List.ofFn_const]; rfl
  have := uOuter_eq (L := 2 * (k - 1) + 1) (k := k) tt (k - 1) (block M)
    (block (Matrix.of fun _ : Fin 1 => w)) (by omega) k 0 (fun _ => 0) (by omega) (by omega)
  simp only [Nat.zero_add] at this
  rw [e, this]
  congr 2
  funext l
  unfold message
  by_cases h : l = k - 1
  · rw [if_pos h, if_pos h, if_pos hk]
  · rw [if_neg h, if_neg h, zero_add]

/-- The folded matrix. -/
def foldM {m k c : Nat} (M : Matrix (Fin m) (Fin (k * c)) G) (x : F) : Matrix (Fin m) (Fin c) G :=
  ∑ i ∈ Finset.range k, x ^ i • block M i

/-- The folded witness. -/
def foldW {k c : Nat} (w : Fin (k * c) → F) (x : F) : Fin c → F :=
  (∑ j ∈ Finset.range k, x⁻¹ ^ j • block (Matrix.of fun _ : Fin 1 => w) j) 0

/-- The next target. -/
def foldTarget {m : Nat} (k : Nat) (x : F) (U : ℕ → Fin m → G) : Fin m → G :=
  ∑ l ∈ Finset.range (2 * (k - 1) + 1), kWeight x k l • U l

theorem vandemonde_pow (x : F) {k : Nat} (hk : 0 < k) :
    vandemondeVector x k = .ok (List.ofFn fun i : Fin k => x ^ i.val) := by
  rw [Props.C03_vandemonde_vector, if_neg (by omega)]

theorem foldA_round {m k c : Nat} (hk : 0 < k) (M : Matrix (Fin m) (Fin (k * c)) G) (x : F) :
    combineA (List.ofFn fun i : Fin k => rows (block M i)) (List.ofFn fun i : Fin k => x ^ i.val) k 0
      none = .ok (rows (foldM M x)) :=
  combineA_eq _ _ (block M) (fun i => x ^ i) k hk fun j hj =>
    ⟨idx_ofFn (fun i => rows (block M i)) j hj, idx_ofFn (fun i => x ^ i) j hj⟩

theorem foldT_round {m k : Nat} (x : F) (U : ℕ → Fin m → G) :
    combineT (rep (2 * (k - 1) + 1) U) (List.ofFn fun l : Fin (2 * (k - 1) + 1) => kWeight x k l)
      (2 * (k - 1) + 1) 0 none = .ok (List.ofFn (foldTarget k x U)) :=
  combineT_eq _ _ U (kWeight x k) _ (by omega) fun j hj =>
    ⟨idx_rep U j hj, idx_ofFn (kWeight x k) j hj⟩

theorem foldW_round {k c : Nat} (hk : 0 < k) (w : Fin (k * c) → F) (x : F) :
    combineW (List.ofFn fun i : Fin k => rows (block (Matrix.of fun _ : Fin 1 => w) i))
      (List.ofFn fun i : Fin k => x⁻¹ ^ i.val) k 0 none = .ok [List.ofFn (foldW w x)] := by
  rw [combineW_eq _ _ (block (Matrix.of fun _ : Fin 1 => w)) (fun i => x⁻¹ ^ i) k hk fun j hj =>
    ⟨idx_ofFn (fun i => rows (block (Matrix.of fun _ : Fin 1 => w) i)) j hj,
      idx_ofFn (fun i => x⁻¹ ^ i) j hj⟩]
  simp [rows, foldW]

theorem split_round {m k c : Nat} (hm : 0 < m) (hc : 0 < c) (M : Matrix (Fin m) (Fin (k * c)) G) :
    matrixSplit (rows M) c = .ok (List.ofFn fun i : Fin k => rows (block M i)) :=
  matrixSplit_rows M hm hc

theorem splitW_round {k c : Nat} (hc : 0 < c) (w : Fin (k * c) → F) :
    matrixSplit [List.ofFn w] c =
      .ok (List.ofFn fun i : Fin k => rows (block (Matrix.of fun _ : Fin 1 => w) i)) := by
  rw [← matrixSplit_rows _ (by omega) hc]
  simp [rows]; rfl

theorem createKLoop_round (cx : Ctx G) {m k c : Nat} (hm : 0 < m) (hk : 0 < k) (hc : 0 < c) (fuel : Nat)
    (M : Matrix (Fin m) (Fin (k * c)) G) (w : Fin (k * c) → F) (tt : Fin m → G) (tr : Transcript) :
    createKLoop cx m k 1 0 (fuel + 1) (k * c) (rows M) (List.ofFn w) (List.ofFn tt) tr =
      let u := rep (2 * (k - 1) + 1) (message M w tt)
      let x : F := squeeze F cx.ro (tr.log ++ kRoundLog cx u)
      (createKLoop cx m k 1 0 fuel c (rows (foldM M x)) (List.ofFn (foldW w x))
        (List.ofFn (foldTarget k x (message M w tt))) ⟨tr.log ++ kRoundLog cx u⟩).map
        fun q => ({ q.1 with u_proof_Block := u :: q.1.u_proof_Block }, q.2) := by
  have hn : ¬ k * c < k := by
    rw [Nat.not_lt]; exact Nat.le_mul_of_pos_right k hc
  rw [createKLoop, if_neg hn, if_neg (by omega)]
  simp only [Nat.mul_div_cancel_left c hk]
  rw [split_round hm hc, ok_bind, splitW_round hc, ok_bind, message_eq hk, ok_bind, absorbAll_eq,
    Ipa.challengeScalar_eq]
  dsimp only
  rw [List.append_assoc, show (rep (2 * (k - 1) + 1) (message M w tt)).flatMap (pointsLog cx "u_l") ++
    [Event.chal "challenge_x" 64] = kRoundLog cx (rep (2 * (k - 1) + 1) (message M w tt)) from rfl]
  generalize (squeeze F cx.ro (tr.log ++ kRoundLog cx (rep (2 * (k - 1) + 1) (message M w tt))) : F) = x
  rw [vandemonde_pow x hk, ok_bind, vandemonde_pow x⁻¹ hk, ok_bind, z_eq k hk, ok_bind, foldA_round hk,
    ok_bind, foldW_round hk, ok_bind]
  simp only [List.getLast?_singleton, unwrapR]
  rw [ok_bind, foldT_round, ok_bind]
  cases createKLoop cx m k 1 0 fuel c (rows (foldM M x)) (List.ofFn (foldW w x))
        (List.ofFn (foldTarget k x (message M w tt)))
        ⟨tr.log ++ kRoundLog cx (rep (2 * (k - 1) + 1) (message M w tt))⟩ <;> rfl

theorem verifyKLoop_round (cx : Ctx G) (p : LmpaNoZK F G) {m m' k c : Nat} (hm : 0 < m) (hk : 0 < k)
    (hc : 0 < c) (fuel ci : Nat) (M : Matrix (Fin m) (Fin (k * c)) G) (t : List G) (tr : Transcript)
    (U : ℕ → Fin m' → G) (hu : p.u_proof_Block[ci]? = some (rep (2 * (k - 1) + 1) U)) :
    verifyKLoop cx p k 1 (fuel + 1) ci (k * c) (rows M) t tr =
      let u := rep (2 * (k - 1) + 1) U
      let x : F := squeeze F cx.ro (tr.log ++ kRoundLog cx u)
      verifyKLoop cx p k 1 fuel (ci + 1) c (rows (foldM M x)) (List.ofFn (foldTarget k x U))
        ⟨tr.log ++ kRoundLog cx u⟩ := by
  have hn : ¬ k * c < k := by
    rw [Nat.not_lt]; exact Nat.le_mul_of_pos_right k hc
  have hu' : idx p.u_proof_Block ci = .ok (rep (2 * (k - 1) + 1) U) := by rw [idx, hu]
  rw [verifyKLoop, if_neg hn, if_neg (by omega)]
  simp only [Nat.mul_div_cancel_left c hk]
  rw [split_round hm hc, ok_bind, hu', ok_bind, absorbAll_eq, Ipa.challengeScalar_eq]
  dsimp only
  rw [List.append_assoc, show (rep (2 * (k - 1) + 1) U).flatMap (pointsLog cx "u_l") ++
    [Event.chal "challenge_x" 64] = kRoundLog cx (rep (2 * (k - 1) + 1) U) from rfl]
  generalize (squeeze F cx.ro (tr.log ++ kRoundLog cx (rep (2 * (k - 1) + 1) U)) : F) = x
  rw [vandemonde_pow x hk, ok_bind, vandemonde_pow x⁻¹ hk, ok_bind, z_eq k hk, ok_bind, foldA_round hk,
    ok_bind, foldT_round, ok_bind]

/-! ### The invariant -/

theorem block_sum {m k c : Nat} (M : Matrix (Fin m) (Fin (k * c)) G) (w : Fin (k * c) → F) (r : Fin m) :
    ∑ s, w s • M r s =
      ∑ i ∈ Finset.range k, P (block M i) (block (Matrix.of fun _ : Fin 1 => w) i) r := by
  rw [Finset.sum_range, ← Equiv.sum_comp finProdFinEquiv, Fintype.sum_prod_type]
  apply Finset.sum_congr rfl
  intro i _
  simp [P, block]

theorem fold_invariant {m k c : Nat} (hk : 0 < k) (M : Matrix (Fin m) (Fin (k * c)) G)
    (w : Fin (k * c) → F) (x : F) (hx : x ≠ 0) :
    foldTarget k x (message M w fun r => ∑ s, w s • M r s) = fun r => ∑ s, foldW w x s • foldM M x r s := by
  set Q : ℕ → ℕ → Fin m → G := fun i j => P (block M i) (block (Matrix.of fun _ : Fin 1 => w) j) with hQ
  have hmsg : ∀ l, message M w (fun r => ∑ s, w s • M r s) l =
      ∑ i ∈ Finset.range k, ∑ j ∈ Finset.range k, if k - 1 + j - i = l then Q i j else 0 := by
    intro l
    unfold message
    split
    · rename_i h
      subst h
      funext r
      rw [block_sum, Finset.sum_apply]
      apply Finset.sum_congr rfl
      intro i hi
      rw [Finset.sum_apply, Finset.sum_eq_single i]
      · have : k - 1 + i - i = k - 1 := by omega
        rw [if_pos this]
      · intro j hj hne
        rw [Finset.mem_range] at hi hj
        rw [if_neg (by omega)]; rfl
      · intro h; exact absurd hi h
    · rfl
  have hw : ∀ l, kWeight x k l = x ^ (k - 1) * x⁻¹ ^ l := by
    intro l
    unfold kWeight
    split
    · rename_i h; rw [h, ← mul_pow, mul_inv_cancel₀ hx, one_pow]
    · rfl
  have hleft : foldTarget k x (message M w fun r => ∑ s, w s • M r s) =
      ∑ i ∈ Finset.range k, ∑ j ∈ Finset.range k, (x ^ i * x⁻¹ ^ j) • Q i j := by
    unfold foldTarget
    simp only [hmsg, Finset.smul_sum]
    rw [Finset.sum_comm]
    apply Finset.sum_congr rfl
    intro i hi
    rw [Finset.sum_comm]
    apply Finset.sum_congr rfl
    intro j hj
    rw [Finset.mem_range] at hi hj
    rw [Finset.sum_eq_single (k - 1 + j - i)]
    · rw [if_pos rfl, hw]
      congr 1
      have e1 : k - 1 + j - i = (k - 1 - i) + j := by omega
      have h2 : x ^ (k - 1) = x ^ i * x ^ (k - 1 - i) := by rw [← pow_add]; congr 1; omega
      rw [e1, h2, pow_add, mul_assoc, ← mul_assoc (x ^ (k - 1 - i)), ← mul_pow, mul_inv_cancel₀ hx,
        one_pow, one_mul]
    · intro l _ hne
      rw [if_neg (fun h => hne h.symm), smul_zero]
    · intro h
      rw [Finset.mem_range] at h
      omega
  rw [hleft]
  funext r
  have e1 : ∀ s, foldW w x s = ∑ j ∈ Finset.range k, x⁻¹ ^ j *
      block (Matrix.of fun _ : Fin 1 => w) j 0 s := by
    intro s
    unfold foldW
    rw [Matrix.sum_apply]
    rfl
  have e2 : ∀ s, foldM M x r s = ∑ i ∈ Finset.range k, x ^ i • block M i r s := by
    intro s
    unfold foldM
    rw [Matrix.sum_apply]
    rfl
  simp only [Finset.sum_apply, Pi.smul_apply, hQ, P, e1, e2]
  simp only [Finset.smul_sum, smul_smul, Finset.sum_mul, Finset.sum_smul]
  rw [Finset.sum_comm (s := Finset.univ)]
  apply Finset.sum_congr rfl
  intro i _
  rw [Finset.sum_comm]
  apply Finset.sum_congr rfl
  intro s _
  apply Finset.sum_congr rfl
  intro j _
  congr 1
  ring

/-! ### All rounds -/

theorem kLog_cons (cx : Ctx G) (u : List (List G)) (us : List (List (List G))) :
    kLog cx (u :: us) = kRoundLog cx u ++ kLog cx us := by
  simp [kLog]

theorem kChallenges_cons (cx : Ctx G) (log : List Event) (u : List (List G)) (us : List (List (List G))) :
    kChallenges F cx log (u :: us) =
      squeeze F cx.ro (log ++ kRoundLog cx u) :: kChallenges F cx (log ++ kRoundLog cx u) us := by
  unfold kChallenges
  rw [List.length_cons, List.range_succ_eq_map, List.map_cons, List.map_map]
  congr 1
  · simp [kLog]
  · apply List.map_congr_left
    intro j _
    simp [kLog_cons]

theorem kChallenges_length (cx : Ctx G) (log : List Event) (us : List (List (List G))) :
    (kChallenges F cx log us).length = us.length := by
  simp [kChallenges]

theorem rep_getD {m L : Nat} (U : ℕ → Fin m → G) (l : Nat) (h : l < L) :
    (rep L U).getD l [] = List.ofFn (U l) := by
  simp [rep, List.getD, h]

theorem rep_shape {m : Nat} (k : Nat) (U : ℕ → Fin m → G) : KShape k m (rep (2 * (k - 1) + 1) U) := by
  refine ⟨by simp [rep], ?_⟩
  intro v hv
  obtain ⟨l, rfl⟩ := List.mem_ofFn.1 hv
  simp

theorem shape_rep {m k : Nat} {u : List (List G)} (h : KShape k m u) :
    u = rep (2 * (k - 1) + 1) fun l (r : Fin m) => (u.getD l []).getD r 0 := by
  unfold rep
  apply List.ext_getElem
  · simp [h.1]
  · intro l h1 h2
    have := h.2 _ (List.getElem_mem h1)
    rw [List.getElem_ofFn]
    apply List.ext_getElem
    · simp [this]
    · intro r h3 h4
      simp [List.getD, h1, h3]

theorem foldTarget_list {m k : Nat} {u : List (List G)} (h : KShape k m u) (x : F) :
    List.ofFn (foldTarget k x fun l (r : Fin m) => (u.getD l []).getD r 0) =
      (List.range (u.headD []).length).map (kTarget x k u) := by
  have hm : (u.headD []).length = m := by
    have h0 : 0 < u.length := by rw [h.1]; omega
    obtain ⟨v, u, rfl⟩ := List.exists_cons_of_ne_nil (List.length_pos_iff.1 h0)
    exact h.2 v (by simp)
  rw [hm]
  apply List.ext_getElem
  · simp
  · intro r h1 h2
    simp [foldTarget, kTarget]

theorem kFinal_cons (k : Nat) (t : List G) (x : F) (xs : List F) (u : List (List G))
    (us : List (List (List G))) :
    kFinal k t (x :: xs) (u :: us) = kFinal k ((List.range (u.headD []).length).map (kTarget x k u)) xs us := by
  unfold kFinal
  rw [List.zip_cons_cons]
  cases h : List.zip xs us with
  | nil => simp
  | cons a l => rw [List.getLast?_cons_cons, List.getLast?_eq_some_getLast (List.cons_ne_nil a l)]

theorem verifyKLoop_eq (cx : Ctx G) (p : LmpaNoZK F G) {m k c : Nat} (hm : 0 < m) (hc : 0 < c)
    (hck : c < k) : ∀ (d n fuel ci : Nat) (M : Matrix (Fin m) (Fin n) G) (t : List G) (tr : Transcript),
    n = c * k ^ d → d < fuel → ci ≤ p.u_proof_Block.length →
    (∀ u ∈ (p.u_proof_Block.drop ci).take d, ∃ m', KShape k m' u) →
    verifyKLoop cx p k 1 fuel ci n (rows M) t tr =
      if ci + d ≤ p.u_proof_Block.length then
        let us := (p.u_proof_Block.drop ci).take d
        .ok (kFinal k t (kChallenges F cx tr.log us) us, ⟨tr.log ++ kLog cx us⟩)
      else .error .indexOOB := by
  intro d
  induction d with
  | zero =>
    intro n fuel ci M t tr hn hf hci _
    obtain ⟨fuel, rfl⟩ := Nat.exists_eq_succ_of_ne_zero (Nat.pos_iff_ne_zero.1 (by omega : 0 < fuel))
    rw [if_pos (by omega), verifyKLoop, if_pos (by simpa [hn] using hck)]
    simp [kFinal, kLog]
  | succ d ih =>
    intro n fuel ci M t tr hn hf hci hu
    obtain ⟨fuel, rfl⟩ := Nat.exists_eq_succ_of_ne_zero (Nat.pos_iff_ne_zero.1 (by omega : 0 < fuel))
    obtain ⟨n', rfl, hn'⟩ : ∃ n', n = k * n' ∧ n' = c * k ^ d :=
      ⟨c * k ^ d, by rw [hn, pow_succ]; ring, rfl⟩
    have hk : 0 < k := by omega
    have hn0 : 0 < n' := by rw [hn']; positivity
    by_cases hlt : ci < p.u_proof_Block.length
    · have hdrop : p.u_proof_Block.drop ci = p.u_proof_Block[ci] :: p.u_proof_Block.drop (ci + 1) :=
        List.drop_eq_getElem_cons hlt
      rw [hdrop, List.take_succ_cons] at hu ⊢
      obtain ⟨m', hs⟩ := hu _ List.mem_cons_self
      have hround := verifyKLoop_round cx p hm hk hn0 fuel ci M t tr _
        (by rw [List.getElem?_eq_getElem hlt, ← shape_rep hs])
      rw [← shape_rep hs] at hround
      rw [hround]
      dsimp only
      rw [ih n' fuel (ci + 1) _ _ _ hn' (by omega) (by omega)
        (fun u h => hu u (List.mem_cons_of_mem _ h)), foldTarget_list hs]
      have : (ci + 1 + d ≤ p.u_proof_Block.length) = (ci + (d + 1) ≤ p.u_proof_Block.length) := by
        rw [Nat.add_assoc, Nat.add_comm 1]
      simp only [this]
      split
      · rw [kChallenges_cons, kFinal_cons, kLog_cons, List.append_assoc]
      · rfl
    · rw [if_neg (by omega)]
      rw [verifyKLoop, if_neg (by rw [Nat.not_lt]; exact Nat.le_mul_of_pos_right k hn0),
        if_neg (by omega)]
      simp only [Nat.mul_div_cancel_left n' hk]
      rw [split_round hm hn0, ok_bind, idx_ge (by omega)]
      rfl

theorem dot_rows {m c : Nat} (M : Matrix (Fin m) (Fin c) G) (w : Fin c → F) :
    (rows M).map (fun row => dot (List.ofFn w) row) = List.ofFn fun r => ∑ s, w s • M r s := by
  rw [rows, List.map_ofFn]
  congr 1
  funext r
  simp only [Function.comp, dot_ofFn]

theorem createKLoop_eq (cx : Ctx G) {m k c : Nat} (hm : 0 < m) (hc : 0 < c) (hck : c < k) :
    ∀ (d n fuel : Nat) (M : Matrix (Fin m) (Fin n) G) (w : Fin n → F) (tt : Fin m → G) (tr : Transcript),
    n = c * k ^ d → d < fuel →
    ∃ p : LmpaNoZK F G,
      createKLoop cx m k 1 0 fuel n (rows M) (List.ofFn w) (List.ofFn tt) tr =
        .ok (p, ⟨tr.log ++ kLog cx p.u_proof_Block⟩) ∧
      p.u_proof_Block.length = d ∧ (∀ u ∈ p.u_proof_Block, KShape k m u) ∧
      p.A_Matrix.length = m ∧ Width c p.A_Matrix ∧ p.w_Vec.length = c ∧
      p.t_Vec = kFinal k (List.ofFn tt) (kChallenges F cx tr.log p.u_proof_Block) p.u_proof_Block ∧
      ((∀ x ∈ kChallenges F cx tr.log p.u_proof_Block, x ≠ 0) →
        (tt = fun r => ∑ s, w s • M r s) → p.t_Vec = p.A_Matrix.map fun row => dot p.w_Vec row) := by
  intro d
  induction d with
  | zero =>
    intro n fuel M w tt tr hn hf
    obtain ⟨fuel, rfl⟩ := Nat.exists_eq_succ_of_ne_zero (Nat.pos_iff_ne_zero.1 (by omega : 0 < fuel))
    rw [createKLoop, if_pos (by simpa [hn] using hck)]
    have hn' : n = c := by simpa using hn
    refine ⟨⟨rows M, List.ofFn tt, List.ofFn w, []⟩, by simp [kLog], rfl, by simp, by simp,
      hn' ▸ width_rows M, by simp [hn'], by simp [kFinal], ?_⟩
    intro _ h
    rw [h, dot_rows]
  | succ d ih =>
    intro n fuel M w tt tr hn hf
    obtain ⟨fuel, rfl⟩ := Nat.exists_eq_succ_of_ne_zero (Nat.pos_iff_ne_zero.1 (by omega : 0 < fuel))
    obtain ⟨n', rfl, hn'⟩ : ∃ n', n = k * n' ∧ n' = c * k ^ d :=
      ⟨c * k ^ d, by rw [hn, pow_succ]; ring, rfl⟩
    have hk : 0 < k := by omega
    have hn0 : 0 < n' := by rw [hn']; positivity
    rw [createKLoop_round cx hm hk hn0]
    dsimp only
    set u := rep (2 * (k - 1) + 1) (message M w tt) with hu
    set x : F := squeeze F cx.ro (tr.log ++ kRoundLog cx u) with hx
    obtain ⟨p, h1, h2, h3, h4, h5, h6, h7, h8⟩ := ih n' fuel (foldM M x) (foldW w x)
      (foldTarget k x (message M w tt)) ⟨tr.log ++ kRoundLog cx u⟩ hn' (by omega)
    have hs : KShape k m u := rep_shape k _
    have htl : List.ofFn (foldTarget k x (message M w tt)) =
        (List.range (u.headD []).length).map (kTarget x k u) := by
      rw [← foldTarget_list hs]
      apply congrArg
      unfold foldTarget
      apply Finset.sum_congr rfl
      intro l hl
      congr 1
      funext r
      have hl' := Finset.mem_range.1 hl
      dsimp only
      rw [hu, rep_getD _ _ hl']; simp [List.getD]
    refine ⟨{ p with u_proof_Block := u :: p.u_proof_Block }, ?_, by simp [h2], ?_, h4, h5, h6, ?_, ?_⟩
    · rw [h1, kLog_cons, ← List.append_assoc]; rfl
    · intro v hv
      rcases List.mem_cons.1 hv with rfl | hv
      · exact hs
      · exact h3 v hv
    · dsimp only
      rw [kChallenges_cons, kFinal_cons, h7, ← htl]
    · dsimp only
      rw [kChallenges_cons]
      intro hne ht
      apply h8 (fun y hy => hne y (List.mem_cons_of_mem _ hy))
      rw [ht]
      exact fold_invariant hk M w x (hne x List.mem_cons_self)

end Qesa.LmpaK
