import Mathlib.Algebra.Module.Defs
import Mathlib.Algebra.Field.Defs
import Mathlib.LinearAlgebra.Matrix.Notation
import Verif.Model.Basic
/-
The vocabulary in which the properties are stated.  Nothing here refers to the model of the
protocols.
-/
namespace Qesa.Spec
variable {F G : Type}

/-- `⟨s, P⟩ = ∑ᵢ sᵢ • Pᵢ` over the common indices of a list of scalars and a list of points (or of
scalars). -/
def dot [Zero G] [Add G] [SMul F G] (s : List F) (p : List G) : G :=
  (List.zipWith (fun s p => s • p) s p).sum

/-- The rows of an `m × n` matrix, as the code stores it. -/
def rows {T : Type} {m n : Nat} (M : Matrix (Fin m) (Fin n) T) : List (List T) :=
  List.ofFn fun i => List.ofFn (M i)

/-- The code panics. -/
def Panics {α : Type} (r : R α) : Prop := ∃ e, r = .error e

/-- All rows have length `n`. -/
def Width {T : Type} (n : Nat) (A : List (List T)) : Prop := ∀ row ∈ A, row.length = n

end Qesa.Spec
