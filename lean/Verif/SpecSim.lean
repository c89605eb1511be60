import Verif.SpecTape
/- Zero knowledge in the random-oracle model: what a simulator does that may choose one value of the hash
function. -/
namespace Qesa.Spec

/-- The hash function `ro`, changed at the history `log`. -/
def program (ro : Hash) (log : List Event) (v : Vector UInt8 64) : Hash := Function.update ro log v

/-- The probability of `A` when the hash function on `D`, the vector `z` of `n` scalars and the 64 bytes `v`
are uniformly random. -/
noncomputable def chanceSim {F : Type} (ro : Hash) (D : Finset (List Event)) (n : Nat)
    (A : Hash → (Fin n → F) → Vector UInt8 64 → Prop) : ℚ :=
  Nat.card {s : (D → Vector UInt8 64) × (Fin n → F) × Vector UInt8 64 // A (patch ro D s.1) s.2.1 s.2.2} /
    ((2 ^ 512) ^ D.card * (Nat.card F) ^ n * 2 ^ 512)

end Qesa.Spec
