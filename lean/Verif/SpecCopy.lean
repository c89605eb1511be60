import Verif.SpecQesa
import Verif.Model.Copy
/-
Specification vocabulary for src/copy: the vector that an honest prover commits to. `Mapping` and
`MessageMap` are the data types of the code.
-/
namespace Qesa.Spec
open Copy
variable {F : Type} [Field F]

/-- The slot `i` of the extended witness of the honest prover: the slot of a message holds that
message; every other slot holds the entry of the user's witness (zero beyond its end), to which the
messages committed at index `i` are added, each one multiplied with the challenge
`α ^ (number of its commitment + 1)`. -/
def copyWitness (w : List F) (map : Mapping) (msgs : List F) (α : F) (i : Nat) : F :=
  match map.msgs_map.find? (fun m => m.position_in_witness == i) with
  | some m => msgs.getD m.msg_id 0
  | none => w.getD i 0 + ((map.msgs_map.filter fun m => m.commitment_index == i).map fun m =>
      α ^ (m.commitment_crs_id + 1) * msgs.getD m.msg_id 0).sum

/-- The entry of a vector at a position given as a number. -/
def slot {k : Nat} (v : Fin k → F) (i : Nat) : F := if h : i < k then v ⟨i, h⟩ else 0

/-- The constraint of commitment index `c` for the challenge `α`: a matrix whose first row has the
entry `α ^ (number of the commitment + 1)` at the slot of every message committed at `c`, and `-1`
at `c`; all other rows are zero. -/
def copyConstraint (k : Nat) (map : Mapping) (α : F) (c : Nat) :
    Matrix (Fin (k + 1)) (Fin (k + 1)) F :=
  Matrix.of fun i j => if i = 0 then
    ((map.msgs_map.filter fun m => m.commitment_index == c).map fun m =>
      if m.position_in_witness = j.val then α ^ (m.commitment_crs_id + 1) else 0).sum -
      (if c = j.val then 1 else 0)
    else 0

/-- The user's equations followed by the constraints of all used commitment indices. -/
def copySystem {k : Nat} (Us : List (Matrix (Fin (k + 1)) (Fin (k + 1)) F)) (map : Mapping) (α : F) :
    List (Matrix (Fin (k + 1)) (Fin (k + 1)) F) :=
  Us ++ map.unique_commitment_indices.map fun c => copyConstraint k map α c

/-- The challenge of a Copy argument that starts after `log` with commitment `c_w`. -/
def copyAlpha (F : Type) [NatCast F] (ro : Hash) (log : List Event) (c_w : Comp) : F :=
  squeeze F ro (log ++ [.msg "c_w" c_w, .chal "alpha" 64])

end Qesa.Spec
