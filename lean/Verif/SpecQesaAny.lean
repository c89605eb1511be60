import Verif.SpecQesa
/-
What an accepted proof of QESA says, whatever the prover commits to.
-/
namespace Qesa.Spec
variable {F : Type} [Field F] {m k : Nat}

/-- The equations that the verifier looks at: the first `n`, and zero beyond. -/
def seen (n : Nat) (Ms : Fin k → Matrix (Fin m) (Fin m) F) (j : Nat) : Matrix (Fin m) (Fin m) F :=
  if h : j < k ∧ j < n then Ms ⟨j, h.1⟩ else 0

/-- The derivative of a quadratic form in the direction of the first component. -/
def slope (M : Matrix (Fin (m + 1)) (Fin (m + 1)) F) (v : Fin (m + 1) → F) : F :=
  ∑ i, (M 0 i + M i 0) * v i

/-- What is actually checked of the `j`-th equation, for a commitment to `w`: with `v` the vector `w` with first
component one and `δ = w₀ - 1`, the left-hand side of the equation at `v`, plus `δ` times the slope of the
equation two places before, plus `δ²` times the leading coefficient of the equation four places before. -/
def drift (n : Nat) (Ms : Fin k → Matrix (Fin (m + 1)) (Fin (m + 1)) F) (w : Fin (m + 1) → F) (j : Nat) : F :=
  let v := Function.update w 0 1
  let δ := w 0 - 1
  quad (seen n Ms j) v + (if 2 ≤ j then δ * slope (seen n Ms (j - 2)) v else 0) +
    (if 4 ≤ j then δ ^ 2 * seen n Ms (j - 4) 0 0 else 0)

end Qesa.Spec
