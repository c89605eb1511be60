import Verif.Model.Lmpa
import Verif.Spec
import Verif.SpecTape
/- Sessions of SimpleZK proofs in which each statement has two witnesses. -/
namespace Qesa.Spec
open Qesa

/-- A statement `A w = t` with two witnesses. -/
structure TwoWitnesses (F G : Type) [Field F] [AddCommGroup G] [Module F G] (n : Nat) where
  A : List (List G)
  Gs : List G
  w₁ : Fin n → F
  w₂ : Fin n → F
  size : Gs.length = n
  same : ∀ row ∈ A, dot (List.ofFn w₁) row = dot (List.ofFn w₂) row

variable {F G : Type} [Field F] [AddCommGroup G] [Module F G]

/-- `m` further SimpleZK proofs on one transcript. The statement of each may depend on the proofs made before (`past`);
`pick` says which of its witnesses is used; `r i` are the random numbers of the proof `i`. -/
def simpleSession {n : Nat} (cx : Ctx G) (fuel : Nat) (rest : Tape F)
    (next : List (Lmpa.SimpleZK F G) → TwoWitnesses F G n) (pick : TwoWitnesses F G n → Fin n → F) :
    (m : Nat) → List (Lmpa.SimpleZK F G) → Transcript → (Fin m → Fin n → F) → R (List (Lmpa.SimpleZK F G) × Transcript)
  | 0, past, tr, _ => .ok (past, tr)
  | m + 1, past, tr, r => do
    let c := next past
    let (p, tr', _) ← Lmpa.createSimple cx fuel tr (tapeOf rest (r 0)) c.A c.Gs (List.ofFn (pick c))
    simpleSession cx fuel rest next pick m (past ++ [p]) tr' fun i => r i.succ

end Qesa.Spec
