import Verif.Model.Matrix
import Verif.Model.IpaAlmZk
/- Model of src/ipa/qesa_inner.rs and src/qesa_zk.rs. -/
namespace Qesa.Inner
open Qesa Qesa.Ipa
variable {F G : Type} [Field F] [DecidableEq F] [AddCommGroup G] [Module F G] [DecidableEq G]

/-- src/ipa/qesa_inner.rs:14-18 `Inner`. -/
structure Proof (F : Type) where
  alm_zk : AlmZK F
  c_prime_w : Comp
  c_prime_prime_w : Comp
  deriving DecidableEq

/-- src/ipa/qesa_inner.rs:188-212 `compute_gamma_prime`. -/
def computeGammaPrime (gamma : List (List F)) (n : Nat) : R (List (List F)) := do
  let padded := gamma.map fun row => row ++ [0] ++ [0]
  let k ← usub n 2
  let row1 := List.replicate k (0 : F) ++ [0] ++ [-1]
  let row2 := List.replicate k (0 : F) ++ [1] ++ [0]
  return padded ++ [row1] ++ [row2]

/-- src/ipa/qesa_inner.rs:20-114 `create`. -/
def create (cx : Ctx G) (tr : Transcript) (tape : Tape F) (Gs Hs : List G) (Q : G)
    (gammaI : BlockMatrix F) (w r' : List F) : R (Proof F × Transcript × Tape F) := do
  let n := Gs.length
  let k ← usub n 2
  rassert (w.length = k)
  rassert (r'.length = 2)
  let w' := w ++ r'
  let c_prime_w ← msm w' Gs
  let tr := tr.appendMessage "c_prime_w" (cx.compress c_prime_w)
  let (x, tr) := challengeScalar (F := F) cx.ro tr "x"
  let xs ← vandemondeChallenge x n
  rassert (xs.length = n)
  let gamma ← gammaI.batch xs
  let beta ← idx xs 1
  let g0 ← idx Gs 0
  let Gs ← setIdx Gs 0 (beta⁻¹ • g0)
  let r1 ← idx r' 1
  let r0 ← idx r' 0
  let r'' := [-r1, r0]
  let gammaW := matrixVectorMul gamma w
  let w'' := gammaW ++ r''
  let c_prime_prime_w ← msm w'' Hs
  let tr := tr.appendMessage "c_prime_prime_w" (cx.compress c_prime_prime_w)
  let (s, tr) := challengeScalar (F := F) cx.ro tr "s"
  let ss ← vandemondeChallenge s k
  let (b, tr) := challengeScalar (F := F) cx.ro tr "b"
  let bs ← vandemondeChallenge b 2
  let s' := ss ++ bs
  rassert (s'.length = n)
  let gamma' ← computeGammaPrime gamma n
  let gammaT' ← matrixTranspose gamma'
  let gts := matrixVectorMul gammaT' s'
  let a ← rowRowSub w' s'
  let b ← rowRowAdd w'' gts
  let t := innerProduct a b
  let C_w ← msm (a ++ b) (Gs ++ Hs)
  let tr := tr.appendMessage "c_w" (cx.compress C_w)
  let (p, tr, tape) ← createAlm cx tr tape Gs Hs Q C_w a b t
  return (⟨p, cx.compress c_prime_w, cx.compress c_prime_prime_w⟩, tr, tape)

/-- src/ipa/qesa_inner.rs:117-185 `Inner::verify`. -/
def Proof.verify (cx : Ctx G) (p : Proof F) (tr : Transcript) (Gs Hs : List G) (Q : G)
    (gammaI : BlockMatrix F) : R (Bool × Transcript) := do
  let n := Hs.length
  let tr := tr.appendMessage "c_prime_w" p.c_prime_w
  let c_prime_w ← unwrapR (cx.decompress p.c_prime_w)
  let (x, tr) := challengeScalar (F := F) cx.ro tr "x"
  let xs ← vandemondeChallenge x n
  let gamma ← gammaI.batch xs
  let beta ← idx xs 1
  let g0 ← idx Gs 0
  let Gs ← setIdx Gs 0 (beta⁻¹ • g0)
  let c_prime_prime_w ← unwrapR (cx.decompress p.c_prime_prime_w)
  let g0' ← idx Gs 0
  let c_prime_w := c_prime_w - (beta - 1) • g0'
  let tr := tr.appendMessage "c_prime_prime_w" (cx.compress c_prime_prime_w)
  let (s, tr) := challengeScalar (F := F) cx.ro tr "s"
  let k ← usub n 2
  let ss ← vandemondeChallenge s k
  let (b, tr) := challengeScalar (F := F) cx.ro tr "b"
  let bs ← vandemondeChallenge b 2
  let s' := ss ++ bs
  rassert (s'.length = n)
  let gamma' ← computeGammaPrime gamma n
  let gammaT' ← matrixTranspose gamma'
  let gts' := matrixVectorMul gammaT' s'
  let gammaT ← matrixTranspose gamma
  let gts := matrixVectorMul gammaT ss
  let t := -(innerProduct ss gts)
  let m1 ← msm gts' Hs
  let C_w := c_prime_w + c_prime_prime_w + m1
  let m2 ← msm s' Gs
  let C_w := C_w - m2
  let tr := tr.appendMessage "c_w" (cx.compress C_w)
  p.alm_zk.verify cx tr Gs Hs Q n C_w t

end Qesa.Inner

namespace Qesa.Zk
open Qesa
variable {F G : Type} [Field F] [DecidableEq F] [AddCommGroup G] [Module F G] [DecidableEq G]

/-- src/qesa_zk.rs:8-10 `Zk`. -/
structure Proof (F : Type) where
  inner : Inner.Proof F
  deriving DecidableEq

/-- src/qesa_zk.rs:12-33 `create`. -/
def create (cx : Ctx G) (tr : Transcript) (tape : Tape F) (Gs Hs : List G) (Q : G)
    (gammaI : BlockMatrix F) (w : List F) : R (Proof F × Transcript × Tape F) := do
  let (ra, tape) := draw tape
  let (rb, tape) := draw tape
  let (p, tr, tape) ← Inner.create cx tr tape Gs Hs Q gammaI w [ra, rb]
  return (⟨p⟩, tr, tape)

/-- src/qesa_zk.rs:36-45 `Zk::verify`. -/
def Proof.verify (cx : Ctx G) (p : Proof F) (tr : Transcript) (Gs Hs : List G) (Q : G)
    (gammaI : BlockMatrix F) : R (Bool × Transcript) :=
  p.inner.verify cx tr Gs Hs Q gammaI

end Qesa.Zk
