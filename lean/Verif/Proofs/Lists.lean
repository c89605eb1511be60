import Mathlib.Algebra.Module.Basic
import Mathlib.Algebra.BigOperators.Fin
import Mathlib.Algebra.BigOperators.Group.List.Basic
import Mathlib.Tactic.Module
import Mathlib.Tactic.Abel
import Mathlib.Tactic.Ring
import Mathlib.Tactic.Linarith
import Verif.Model.MathUtils
import Verif.Model.Matrix
import Verif.Spec
/- Helper lemmas about the checked list operations and about `dot`. -/
namespace Qesa
open Spec
variable {F G : Type}

/-- Not proved by `rfl` alone, so that `simp` does not use it as a definitional unfolding, which the
kernel would have to replay. -/
@[simp] theorem ok_bind {α β : Type} (a : α) (f : α → R β) : (Except.ok a >>= f) = f a := by
  rw [show (Except.ok a >>= f) = f a from rfl]
@[simp] theorem error_bind {α β : Type} (e : Err) (f : α → R β) :
    ((Except.error e : R α) >>= f) = .error e := rfl
@[simp] theorem R_pure {α : Type} (a : α) : (pure a : R α) = .ok a := rfl

theorem rassert_true {c : Prop} [Decidable c] (h : c) : rassert c = .ok () := by simp [rassert, h]
theorem rassert_false {c : Prop} [Decidable c] (h : ¬ c) : rassert c = .error .assertFail := by
  simp [rassert, h]
@[simp] theorem rassert_True [Decidable True] : rassert True = .ok () := by simp [rassert]
@[simp] theorem rassert_False [Decidable False] : rassert False = .error .assertFail := by
  simp [rassert]

theorem bind_eq_ok {α β : Type} {r : R α} {f : α → R β} {b : β} :
    (r >>= f) = .ok b ↔ ∃ a, r = .ok a ∧ f a = .ok b := by
  cases r <;> simp

theorem rassert_eq_ok {c : Prop} [Decidable c] {u : Unit} : rassert c = .ok u ↔ c := by
  by_cases h : c <;> simp [rassert, h]

theorem idx_eq_ok {α : Type} {l : List α} {i : Nat} {x : α} : idx l i = .ok x ↔ l[i]? = some x := by
  unfold idx; cases l[i]? <;> simp

theorem idx_lt {α : Type} {l : List α} {i : Nat} (h : i < l.length) : idx l i = .ok l[i] := by
  simp [idx, h]

theorem idx_ge {α : Type} {l : List α} {i : Nat} (h : l.length ≤ i) :
    idx l i = .error .indexOOB := by
  simp [idx, h]

@[simp] theorem idx_cons_zero {α : Type} (x : α) (l : List α) : idx (x :: l) 0 = .ok x := rfl
@[simp] theorem idx_cons_succ {α : Type} (x : α) (l : List α) (i : Nat) :
    idx (x :: l) (i + 1) = idx l i := rfl
@[simp] theorem idx_nil {α : Type} (i : Nat) : idx ([] : List α) i = .error .indexOOB := rfl

theorem setIdx_lt {α : Type} {l : List α} {i : Nat} (x : α) (h : i < l.length) :
    setIdx l i x = .ok (l.set i x) := by
  simp [setIdx, h]

theorem setIdx_eq_ok {α : Type} {l l' : List α} {i : Nat} {x : α} :
    setIdx l i x = .ok l' ↔ i < l.length ∧ l' = l.set i x := by
  unfold setIdx; split <;> simp_all [eq_comm]

theorem splitAtR_le {α : Type} {l : List α} {i : Nat} (h : i ≤ l.length) :
    splitAtR l i = .ok (l.take i, l.drop i) := by
  simp [splitAtR, h]

theorem usub_le {a b : Nat} (h : b ≤ a) : usub a b = .ok (a - b) := by simp [usub, h]

theorem usub_eq_ok {a b c : Nat} : usub a b = .ok c ↔ b ≤ a ∧ c = a - b := by
  unfold usub; split <;> simp_all [eq_comm]

/-! ### `dot` -/
section dot
variable [Field F] [AddCommGroup G] [Module F G]

@[simp] theorem dot_nil_left (p : List G) : dot ([] : List F) p = 0 := by simp [dot]
@[simp] theorem dot_nil_right (s : List F) : dot s ([] : List G) = 0 := by simp [dot]
@[simp] theorem dot_cons (x : F) (s : List F) (g : G) (p : List G) :
    dot (x :: s) (g :: p) = x • g + dot s p := by simp [dot]

theorem innerProduct_eq_dot (a b : List F) : innerProduct a b = dot a b := by
  simp [innerProduct, dot]

theorem dot_append {s s' : List F} {p p' : List G} (h : s.length = p.length) :
    dot (s ++ s') (p ++ p') = dot s p + dot s' p' := by
  induction s generalizing p with
  | nil => cases p <;> simp_all
  | cons x s ih =>
    cases p with
    | nil => simp at h
    | cons g p => simp only [List.cons_append, dot_cons, ih (by simpa using h)]; abel

theorem dot_comm (a b : List F) : dot a b = dot b a := by
  induction a generalizing b with
  | nil => simp
  | cons x a ih => cases b with
    | nil => simp
    | cons y b => simp [ih b, mul_comm]

theorem dot_map_smul_right (x : F) (s : List F) (p : List G) :
    dot s (p.map fun g => x • g) = x • dot s p := by
  induction s generalizing p with
  | nil => simp
  | cons y s ih => cases p with
    | nil => simp
    | cons g p => simp only [List.map_cons, dot_cons, ih]; module

theorem dot_map_mul_left (x : F) (s : List F) (p : List G) :
    dot (s.map fun y => y * x) p = x • dot s p := by
  induction s generalizing p with
  | nil => simp
  | cons y s ih => cases p with
    | nil => simp
    | cons g p => simp only [List.map_cons, dot_cons, ih]; module

/-- Linear combination of two coefficient lists of the same length. -/
theorem dot_comb_left (x y : F) {s s' : List F} (p : List G) (h : s.length = s'.length) :
    dot (List.zipWith (fun a b => x * a + y * b) s s') p = x • dot s p + y • dot s' p := by
  induction s generalizing s' p with
  | nil => cases s' <;> simp_all
  | cons a s ih => cases s' with
    | nil => simp at h
    | cons b s' => cases p with
      | nil => simp
      | cons g p =>
        simp only [List.zipWith_cons_cons, dot_cons, ih p (by simpa using h)]; module

theorem dot_comb_right (x y : F) (s : List F) {p p' : List G} (h : p.length = p'.length) :
    dot s (List.zipWith (fun a b => x • a + y • b) p p') = x • dot s p + y • dot s p' := by
  induction s generalizing p p' with
  | nil => simp
  | cons a s ih => cases p with
    | nil => cases p' <;> simp_all
    | cons g p => cases p' with
      | nil => simp at h
      | cons g' p' =>
        simp only [List.zipWith_cons_cons, dot_cons, ih (by simpa using h)]; module

theorem dot_replicate_zero (n : Nat) (p : List G) : dot (List.replicate n (0 : F)) p = 0 := by
  induction n generalizing p with
  | zero => simp
  | succ n ih => cases p with
    | nil => simp
    | cons g p => simp [List.replicate_succ, ih]

theorem dot_take_drop (k : Nat) {s : List F} {p : List G} (h : s.length = p.length) :
    dot (s.take k) (p.take k) + dot (s.drop k) (p.drop k) = dot s p := by
  rw [← dot_append (by simp [h]), List.take_append_drop, List.take_append_drop]

theorem msm_eq {s : List F} {p : List G} (h : s.length = p.length) : msm s p = .ok (dot s p) := by
  simp [msm, rassert_true h, dot]

theorem msm_eq_ok {s : List F} {p : List G} {g : G} :
    msm s p = .ok g ↔ s.length = p.length ∧ g = dot s p := by
  by_cases h : s.length = p.length
  · simp [msm_eq h, h, eq_comm]
  · simp [msm, h]

theorem msm_error {s : List F} {p : List G} (h : s.length ≠ p.length) :
    msm s p = .error .assertFail := by
  simp [msm, h]

theorem sumFrom_eq (g : G) (l : List G) : sumFrom g l = g + l.sum := by
  unfold sumFrom
  induction l generalizing g with
  | nil => simp
  | cons x l ih => simp only [List.foldl_cons, List.sum_cons]; rw [ih]; abel

theorem matrixpointVectorMul_eq (A : List (List G)) (v : List F) :
    matrixpointVectorMul A v = A.map fun row => dot v row := by
  unfold matrixpointVectorMul
  congr 1; funext row
  rw [sumFrom_eq, zero_add, dot, List.zipWith_comm]

theorem matrixVectorMul_eq (A : List (List F)) (v : List F) :
    matrixVectorMul A v = A.map fun row => dot v row := by
  unfold matrixVectorMul
  congr 1; funext row
  rw [innerProduct_eq_dot, dot_comm]

end dot
end Qesa
