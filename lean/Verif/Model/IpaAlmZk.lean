import Verif.Model.GramSchmidt
import Verif.Model.IpaNoZk
/- Model of src/ipa/alm_zk.rs. -/
namespace Qesa.Ipa
open Qesa
variable {F G : Type} [Field F] [DecidableEq F] [AddCommGroup G] [Module F G] [DecidableEq G]

/-- src/ipa/alm_zk.rs:12-15 `AlmZK`. -/
structure AlmZK (F : Type) where
  C_r : Comp
  NoZK : NoZK F
  deriving DecidableEq

/-- src/ipa/alm_zk.rs:17-77 `create`, with the random tape it consumes. -/
def createAlm (cx : Ctx G) (tr : Transcript) (tape : Tape F) (Gs Hs : List G) (Q : G) (C_w : G)
    (a b : List F) (t : F) : R (AlmZK F × Transcript × Tape F) := do
  let (r', tape) ← sampleGramSchmidt b tape
  let (r'', tape) ← sampleGramSchmidtTwice a r' tape
  let C_r ← msm (r' ++ r'') (Gs ++ Hs)
  let tr := tr.appendMessage "C_r" (cx.compress C_r)
  let (beta, tr) := challengeScalar (F := F) cx.ro tr "beta"
  let maskedA := List.zipWith (fun a r => beta * a + r) a r'
  let maskedB := List.zipWith (fun b r => beta * b + r) b r''
  let betaSqT := beta * beta * t
  let P := cx.compress (beta • C_w + C_r + betaSqT • Q)
  let tr := tr.appendMessage "P" P
  let (p, tr) ← create cx tr Gs Hs Q maskedA maskedB
  return (⟨cx.compress C_r, p⟩, tr, tape)

/-- src/ipa/alm_zk.rs:80-112 `AlmZK::verify`. -/
def AlmZK.verify (cx : Ctx G) (p : AlmZK F) (tr : Transcript) (Gs Hs : List G) (Q : G) (n : Nat)
    (C_w : G) (t : F) : R (Bool × Transcript) := do
  let tr := tr.appendMessage "C_r" p.C_r
  let C_r ← unwrapR (cx.decompress p.C_r)
  let (beta, tr) := challengeScalar (F := F) cx.ro tr "beta"
  let betaSqT := beta * beta * t
  let P := beta • C_w + C_r + betaSqT • Q
  let tr := tr.appendMessage "P" (cx.compress P)
  p.NoZK.verify cx tr Gs Hs Q n P betaSqT

end Qesa.Ipa
