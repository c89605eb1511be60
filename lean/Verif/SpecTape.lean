import Verif.SpecOracle
import Verif.Model.Basic
/- The probability of an event that depends on the random tape and on the hash function. -/
namespace Qesa.Spec
open Qesa

/-- The tape that starts with the entries of `t` and goes on as `rest` does. -/
def tapeOf {F : Type} {N : Nat} (rest : Tape F) (t : Fin N → F) : Tape F := fun i =>
  if h : i < N then t ⟨i, h⟩ else rest i

/-- The probability of `A` for a uniformly random hash function on `D` and, independently, uniformly random
scalars in the first `N` places of the tape. -/
noncomputable def chanceBoth {F : Type} (ro : Hash) (D : Finset (List Event)) (rest : Tape F) (N : Nat)
    (A : Hash → Tape F → Prop) : ℚ :=
  Nat.card {z : (D → Vector UInt8 64) × (Fin N → F) // A (patch ro D z.1) (tapeOf rest z.2)} /
    ((2 ^ 512) ^ D.card * (Nat.card F) ^ N)

end Qesa.Spec
