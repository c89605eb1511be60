import Verif.Model.Lmpa
import Verif.Spec
import Verif.SpecJobs
/- Sessions of SimpleZK proofs, and the probability space of a simulator that programs the hash function once per proof. -/
namespace Qesa.Spec
open Qesa

/-- What the public sees of a statement `A w = t`. -/
structure PublicClaim (G : Type) where
  A : List (List G)
  Gs : List G
  t : List G

/-- A true statement with its witness. -/
structure KnownClaim (F G : Type) (n : Nat) where
  A : List (List G)
  Gs : List G
  w : Fin n → F
  size : Gs.length = n

variable {F G : Type} [Field F] [AddCommGroup G] [Module F G]

def KnownClaim.toPublic {n : Nat} (c : KnownClaim F G n) : PublicClaim G :=
  ⟨c.A, c.Gs, c.A.map fun row => dot (List.ofFn c.w) row⟩

/-- `m` further SimpleZK proofs on one transcript. The statement of each may depend on the proofs made before (`past`).
Each proof has its own random tape. -/
def proverSession {n : Nat} (cx : Ctx G) (fuel : Nat) (next : List (Lmpa.SimpleZK F G) → KnownClaim F G n) :
    (m : Nat) → List (Lmpa.SimpleZK F G) → Transcript → (Fin m → Tape F) → R (List (Lmpa.SimpleZK F G) × Transcript)
  | 0, past, tr, _ => .ok (past, tr)
  | m + 1, past, tr, τ => do
    let c := next past
    let (p, tr', _) ← Lmpa.createSimple cx fuel tr (τ 0) c.A c.Gs (List.ofFn c.w)
    proverSession cx fuel next m (past ++ [p]) tr' fun i => τ i.succ

/-- The probability of `A` when the hash function on `D`, `m` vectors of `n` scalars and `m` strings of 64 bytes are
uniformly random. -/
noncomputable def chanceSessionSim {F : Type} (ro : Hash) (D : Finset (List Event)) (n m : Nat)
    (A : Hash → (Fin m → Fin n → F) → (Fin m → Vector UInt8 64) → Prop) : ℚ :=
  Nat.card {s : (D → Vector UInt8 64) × (Fin m → Fin n → F) × (Fin m → Vector UInt8 64) //
      A (patch ro D s.1) s.2.1 s.2.2} /
    ((2 ^ 512) ^ D.card * ((Nat.card F) ^ n) ^ m * (2 ^ 512) ^ m)

end Qesa.Spec
