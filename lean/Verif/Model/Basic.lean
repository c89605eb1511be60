/-
Basic vocabulary of the model: Rust panics as values, checked indexing, the random tape.

`Vec<T>` and `&[T]` are modelled by `List T`.  A Rust function that may panic returns
`R T = Except Err T`; a function that mutates through `&mut` returns the new value.
-/

namespace Qesa

/-- The ways in which the Rust code can fail to return a value.
`underflow` is the arithmetic-overflow check of a debug build; `outOfFuel` says that a `while`
loop has not finished within the number of iterations it was given (see DESIGN.md). -/
inductive Err
  | assertFail
  | indexOOB
  | unwrapNone
  | underflow
  | divZero
  | outOfFuel
  deriving DecidableEq, Repr

/-- Result of a Rust function that may panic. -/
abbrev R := Except Err

/-- `assert!(c)`, `assert_eq!`, `assert_ne!`. -/
def rassert (c : Prop) [Decidable c] : R Unit :=
  if c then .ok () else .error .assertFail

/-- `v[i]` (read). -/
def idx {α : Type} (l : List α) (i : Nat) : R α :=
  match l[i]? with
  | some x => .ok x
  | none => .error .indexOOB

/-- `v[i] = x`. -/
def setIdx {α : Type} (l : List α) (i : Nat) (x : α) : R (List α) :=
  if i < l.length then .ok (l.set i x) else .error .indexOOB

/-- `v.split_at(i)` / `v.split_at_mut(i)`: panics when `i > v.len()`. -/
def splitAtR {α : Type} (l : List α) (i : Nat) : R (List α × List α) :=
  if i ≤ l.length then .ok (l.take i, l.drop i) else .error .indexOOB

/-- `a - b` on `usize`/`u16` in a build with overflow checks. -/
def usub (a b : Nat) : R Nat :=
  if b ≤ a then .ok (a - b) else .error .underflow

/-- `Option::unwrap`. -/
def unwrapR {α : Type} (o : Option α) : R α :=
  match o with
  | some x => .ok x
  | none => .error .unwrapNone

/-- `1usize << k` on a 64-bit target in a build with overflow checks. -/
def shl1 (k : Nat) : R Nat :=
  if k < 64 then .ok (2 ^ k) else .error .underflow

/-- `x as u16`. -/
def asU16 (x : Nat) : Nat := x % 65536

/-- The outcomes of the thread-local random generator, in the order in which they are drawn.
Every call of `Scalar::random` takes the next entry. -/
abbrev Tape (F : Type) := Nat → F

/-- `Scalar::random(&mut rng)`. -/
def draw {F : Type} (t : Tape F) : F × Tape F := (t 0, fun i => t (i + 1))

/-- `(0..n).map(|_| Scalar::random(&mut rng)).collect()`. -/
def drawN {F : Type} : Nat → Tape F → List F × Tape F
  | 0, t => ([], t)
  | n + 1, t =>
    let (x, t) := draw t
    let (xs, t) := drawN n t
    (x :: xs, t)

end Qesa
