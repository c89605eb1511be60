import Mathlib.Algebra.BigOperators.Fin
import Mathlib.Data.Nat.Bitwise
import Verif.Model.Transcript
import Verif.Spec
/-
Specification of the inner-product argument, independent of the code: what is hashed, what the
challenges are, and the verification equation in closed form.
-/
namespace Qesa.Spec
variable {F G : Type} [Field F] [AddCommGroup G] [Module F G]

/-- The scalar squeezed out of a transcript whose history, including the request itself, is
`log`. -/
def squeeze (F : Type) [NatCast F] (ro : Hash) (log : List Event) : F := (leNat (ro log).toList : F)

/-- What one round of the inner-product argument does to the transcript. -/
def roundLog (LR : Comp × Comp) : List Event :=
  [.msg "L" LR.1, .msg "R" LR.2, .chal "x_i" 64]

/-- What the rounds do to the transcript; the pairs of the zip of the two vectors count. -/
def roundsLog (L R : List Comp) : List Event := (List.zip L R).flatMap roundLog

/-- What precedes the rounds. -/
def headLog (n : Nat) : List Event := [.msg "n" (u64le n), .chal "alpha" 64]

/-- The challenge `alpha` of an inner-product argument of size `n` that starts after `log`. -/
def ipaAlpha (F : Type) [NatCast F] (ro : Hash) (log : List Event) (n : Nat) : F :=
  squeeze F ro (log ++ headLog n)

/-- The challenges of the rounds: the `j`-th is squeezed out after the first `j + 1` pairs. -/
def roundChallenges (F : Type) [NatCast F] (ro : Hash) (log : List Event) (L R : List Comp) :
    List F :=
  (List.range (min L.length R.length)).map fun j =>
    squeeze F ro (log ++ roundsLog (L.take (j + 1)) (R.take (j + 1)))

/-- The challenges of an inner-product argument of size `n` that starts after `log`. -/
def ipaChallenges (F : Type) [NatCast F] (ro : Hash) (log : List Event) (n : Nat)
    (L R : List Comp) : List F :=
  roundChallenges F ro (log ++ headLog n) L R

/-- The exponent of generator `i` of the first vector: the product of the challenges `x_j` over the
rounds `j` in which `i` lies in the right half. Round `j` of `xs.length` looks at bit
`xs.length - 1 - j`. -/
def weightG (xs : List F) (i : Nat) : F :=
  ∏ j : Fin xs.length, if i.testBit (xs.length - 1 - j) then xs[j] else 1

/-- The exponent of generator `i` of the second vector: the product over the rounds in which `i` lies
in the left half. -/
def weightH (xs : List F) (i : Nat) : F :=
  ∏ j : Fin xs.length, if i.testBit (xs.length - 1 - j) then 1 else xs[j]

/-- The generators combined by `r = xs.length` rounds out of `2 ^ k`: those whose index is a multiple
of `2 ^ (k - r)` (all of them when `r = k`). -/
def combined (w : Nat → F) (k r : Nat) (Gs : List G) : G :=
  ∑ i ∈ Finset.range (2 ^ r), w i • Gs.getD (i * 2 ^ (k - r)) 0

/-- The commitment after the rounds:
`(∏ x_j) P + ∑_j (∏_{m>j} x_m) (x_j² L_j + R_j)`. -/
def foldedP (Ls Rs : List G) (xs : List F) (P : G) : G :=
  xs.prod • P + ∑ j ∈ Finset.range xs.length,
    (xs.drop (j + 1)).prod • ((xs.getD j 0 * xs.getD j 0) • Ls.getD j 0 + Rs.getD j 0)

end Qesa.Spec
