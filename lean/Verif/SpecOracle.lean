import Mathlib.Data.Finset.Card
import Mathlib.SetTheory.Cardinal.Finite
import Mathlib.Algebra.Field.Rat
import Verif.SpecIpa
/-
Algorithms that use the hash function as an oracle, and the number of hash functions for which something
happens. A query is a transcript history that ends in a request of 64 bytes.
-/
namespace Qesa.Spec

/-- An algorithm with access to the hash function. It may write notes beside the events of its queries (`E` is
the type of annotated events); the hash function does not see them. -/
inductive Algo (E α : Type)
  | done (a : α)
  | ask (log : List E) (next : Vector UInt8 64 → Algo E α)

namespace Algo
variable {E α β : Type}

/-- The result with the hash function `ro`; `er` erases the notes. -/
def run (er : E → Event) (ro : Hash) : Algo E α → α
  | .done a => a
  | .ask log next => (next (ro (log.map er))).run er ro

/-- The queries with the hash function `ro`. -/
def asked (er : E → Event) (ro : Hash) : Algo E α → List (List E)
  | .done _ => []
  | .ask log next => log :: (next (ro (log.map er))).asked er ro

/-- At most `T` queries, whatever the answers are. -/
def AtMost : Algo E α → Nat → Prop
  | .done _, _ => True
  | .ask _ _, 0 => False
  | .ask _ next, T + 1 => ∀ v, (next v).AtMost T

/-- One algorithm after the other. -/
def andThen (k : α → Algo E β) : Algo E α → Algo E β
  | .done a => k a
  | .ask log next => .ask log fun v => (next v).andThen k

end Algo

/-- The hash function that agrees with `f` on the histories in `D` and with `ro` elsewhere. -/
def patch (ro : Hash) (D : Finset (List Event)) (f : D → Vector UInt8 64) : Hash := fun log =>
  if h : log ∈ D then f ⟨log, h⟩ else ro log

/-- How many of the hash functions on the finite set `D` have the property `A` (out of
`(2 ^ 512) ^ D.card`). -/
noncomputable def countHashes (ro : Hash) (D : Finset (List Event)) (A : Hash → Prop) : Nat :=
  Nat.card {f : D → Vector UInt8 64 // A (patch ro D f)}

/-- The probability of `A` for a uniformly random hash function on `D`. -/
noncomputable def chance (ro : Hash) (D : Finset (List Event)) (A : Hash → Prop) : ℚ :=
  countHashes ro D A / (2 ^ 512) ^ D.card

end Qesa.Spec
