import Verif.SpecOracle
import Verif.Props.SimpleSim
/- An adversary that asks for several SimpleZK proofs and makes hash queries before, between and after them. -/
namespace Qesa.Spec
open Qesa Props

variable {F G : Type} [Field F] [AddCommGroup G] [Module F G]

/-- `start` are the computations before the first proof, `step` those after each proof (it gets the state and the result of
the prover: proof and transcript, or panic). `claim` is what it wants to have proved next: history of the transcript,
matrix, generators and witness. Nothing requires that the transcripts of the proofs continue one another. -/
structure Adversary (F G α : Type) (n : Nat) where
  start : Algo Event α
  claim : α → SimpleClaim F G n
  step : α → R (Lmpa.SimpleZK F G × Transcript) → Algo Event α

/-- The state of the adversary after `m` proofs made by `lmpa::simple_zk` with the random tapes `τ`. -/
def Adversary.real {α : Type} {n : Nat} (P : Adversary F G α n) (cd : Codec G) (fuel : Nat) (ro : Hash) :
    (m : Nat) → (Fin m → Tape F) → α
  | 0, _ => P.start.run id ro
  | m + 1, τ =>
    let a := P.real cd fuel ro m fun i => τ i.castSucc
    let c := P.claim a
    (P.step a ((Lmpa.createSimple ⟨cd, ro⟩ fuel ⟨c.log⟩ (τ (Fin.last m)) c.A c.Gs (List.ofFn c.w)).map
      fun x => (x.1, x.2.1))).run id ro

/-- The hash function and the state of the adversary after `m` simulated proofs. The simulator sees the history, the
matrix, the generators and the target `c.t`; it changes one value of the hash function per proof, and from then on the
adversary queries the changed function. -/
def Adversary.sim {α : Type} {n : Nat} (P : Adversary F G α n) (cd : Codec G) (fuel : Nat) (ro : Hash) :
    (m : Nat) → (Fin m → Fin n → F) → (Fin m → Vector UInt8 64) → Hash × α
  | 0, _, _ => (ro, P.start.run id ro)
  | m + 1, z, v =>
    let s := P.sim cd fuel ro m (fun i => z i.castSucc) fun i => v i.castSucc
    let c := P.claim s.2
    let ro' := simHash cd c.log c.A c.t s.1 (z (Fin.last m)) (v (Fin.last m))
    (ro', (P.step s.2 (simProof cd fuel c.log c.A c.Gs c.t s.1 (z (Fin.last m)) (v (Fin.last m)))).run id ro')

end Qesa.Spec
