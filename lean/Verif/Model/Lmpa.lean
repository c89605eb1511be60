import Verif.Model.Matrix
import Verif.Model.Transcript
/- Model of src/lmpa/no_zk.rs and src/lmpa/simple_zk.rs.

The `while` loops of this module do not terminate on every input, so the functions take the number
of iterations they may use (`fuel`); `outOfFuel` means "still running".  The `println!` calls are
not modelled. -/
namespace Qesa.Lmpa
open Qesa
variable {F G : Type} [Field F] [AddCommGroup G] [Module F G] [DecidableEq G]

/-- src/lmpa/no_zk.rs:12-16 `NoZK`. -/
structure NoZK (F G : Type) where
  L_Vec : List (List G)
  R_Vec : List (List G)
  w : F
  deriving DecidableEq

/-- `for u in v { transcript.append_message(label, u.compress().as_bytes()) }`. -/
def absorb (cx : Ctx G) (label : String) : List G → Transcript → Transcript
  | [], tr => tr
  | u :: us, tr => absorb cx label us (tr.appendMessage label (cx.compress u))

/-- src/lmpa/no_zk.rs:32-45 (= 241-254): the left and right halves of every row.  `split_at` at
`len / 2` cannot panic. -/
def leftHalves (A : List (List G)) : List (List G) := A.map fun row => row.take (row.length / 2)
/-- See `leftHalves`. -/
def rightHalves (A : List (List G)) : List (List G) := A.map fun row => row.drop (row.length / 2)

/-- src/lmpa/no_zk.rs:30-78, the loop of `create` and the final `w[0]`. `L_Vec.push` becomes consing
onto what the later rounds produce. -/
def createLoop (cx : Ctx G) : Nat → Nat → List (List G) → List F → Transcript →
    R (NoZK F G × Transcript)
  | 0, _, _, _, _ => .error .outOfFuel
  | fuel + 1, n, A, w, tr =>
    if n = 1 then do
      let w0 ← idx w 0
      return (⟨[], [], w0⟩, tr)
    else do
      let n := n / 2
      let A0 := leftHalves A
      let A1 := rightHalves A
      let w0 := w.take (w.length / 2)
      let w1 := w.drop (w.length / 2)
      let L := matrixpointVectorMul A0 w1
      let tr := absorb cx "L" L tr
      let R := matrixpointVectorMul A1 w0
      let tr := absorb cx "R" R tr
      let (x, tr) := challengeScalar (F := F) cx.ro tr "challenge"
      let A ← matrixpointMatrixAdd A0 (matrixpointScalarMul A1 x)
      let w := List.zipWith (fun a b => a * x + b) w0 w1
      let (p, tr) ← createLoop cx fuel n A w tr
      return (⟨L :: p.L_Vec, R :: p.R_Vec, p.w⟩, tr)

/-- src/lmpa/no_zk.rs:17-79 `create`.  `H_Vec` and `Q` are unused by the code and omitted; of
`G_Vec` only the length is used. -/
def create (cx : Ctx G) (fuel : Nat) (tr : Transcript) (A : List (List G)) (Gs : List G)
    (w : List F) : R (NoZK F G × Transcript) :=
  createLoop cx fuel Gs.length A w tr

/-- src/lmpa/no_zk.rs:273 on one zipped entry. -/
def foldT (x : F) : List G → List G → List G → List G
  | l :: ls, r :: rs, t :: ts => (l + x • t + (x * x) • r) :: foldT x ls rs ts
  | _, _, _ => []

/-- src/lmpa/no_zk.rs:238-277, the loop of `verify`; `ci` is `challenge_index`. -/
def verifyLoop (cx : Ctx G) (p : NoZK F G) : Nat → Nat → Nat → List (List G) → List G →
    Transcript → R (List (List G) × List G × Transcript)
  | 0, _, _, _, _, _ => .error .outOfFuel
  | fuel + 1, ci, n, A, t, tr =>
    if n = 1 then .ok (A, t, tr)
    else do
      let n := n / 2
      let A0 := leftHalves A
      let A1 := rightHalves A
      let L ← idx p.L_Vec ci
      let tr := absorb cx "L" L tr
      let R ← idx p.R_Vec ci
      let tr := absorb cx "R" R tr
      let (x, tr) := challengeScalar (F := F) cx.ro tr "challenge"
      let A ← matrixpointMatrixAdd A0 (matrixpointScalarMul A1 x)
      let t := foldT x L R t
      verifyLoop cx p fuel (ci + 1) n A t tr

/-- src/lmpa/no_zk.rs:224-284 `NoZK::verify`.  Only `expected_t[0] == t[0]` is compared. -/
def NoZK.verify (cx : Ctx G) (fuel : Nat) (p : NoZK F G) (tr : Transcript) (A : List (List G))
    (Gs : List G) (n : Nat) (t : List G) : R (Bool × Transcript) := do
  rassert (n = Gs.length)
  let (A, t, tr) ← verifyLoop cx p fuel 0 n A t tr
  let expectedT := matrixpointVectorMul A [p.w]
  let e0 ← idx expectedT 0
  let t0 ← idx t 0
  return (decide (e0 = t0), tr)

/-- src/lmpa/no_zk.rs:82-87 `lmpa_noZK`. -/
structure LmpaNoZK (F G : Type) where
  A_Matrix : List (List G)
  t_Vec : List G
  w_Vec : List F
  u_proof_Block : List (List (List G))
  deriving DecidableEq

/-- src/lmpa/no_zk.rs:113-124: the inner loop over `w_T` for the block `A_t` with number `i`. -/
def uInner (t : List G) (shift i : Nat) (At : List (List G)) :
    Nat → List (List (List F)) → List (List G) → R (List (List G))
  | _, [], u => .ok u
  | j, wVec :: wT, u => do
    let l ← usub (shift + j) i
    let u ←
      if l ≠ shift then do
        let w0 ← idx wVec 0
        let ult := matrixpointVectorMul At w0
        let ul ← idx u l
        let s ← rowpointRowpointAdd ul ult
        setIdx u l s
      else setIdx u l t
    uInner t shift i At (j + 1) wT u

/-- src/lmpa/no_zk.rs:112-127: the outer loop over `A_T`. -/
def uOuter (t : List G) (shift : Nat) (wT : List (List (List F))) :
    Nat → List (List (List G)) → List (List G) → R (List (List G))
  | _, [], u => .ok u
  | i, At :: AT, u => do
    let u ← uInner t shift i At 0 wT u
    uOuter t shift wT (i + 1) AT u

/-- src/lmpa/no_zk.rs:150-158 (= 326-334): the inner loop over `y_vec`. -/
def zInner (shift i : Nat) (x : F) : Nat → List F → List F → R (List F)
  | _, [], z => .ok z
  | j, y :: ys, z => do
    let l ← usub (shift + j) i
    let z ← if l ≠ shift then setIdx z l (x * y) else .ok z
    zInner shift i x (j + 1) ys z

/-- src/lmpa/no_zk.rs:149-161 (= 325-337): the outer loop over `x_vec`. -/
def zOuter (shift : Nat) (ys : List F) : Nat → List F → List F → R (List F)
  | _, [], z => .ok z
  | i, x :: xs, z => do
    let z ← zInner shift i x 0 ys z
    zOuter shift ys (i + 1) xs z

/-- src/lmpa/no_zk.rs:166-178 (= 342-354): `new_A`, the sum of `A_T[i] * x_vec[i]` for
`i = 0..k`.  `acc` is the content of the vector `new_A` (empty or one matrix); the result is
`new_A.pop().unwrap()`. The arguments are the remaining number of iterations and `i`. -/
def combineA (AT : List (List (List G))) (xs : List F) :
    Nat → Nat → Option (List (List G)) → R (List (List G))
  | 0, _, acc => unwrapR acc
  | c + 1, i, acc => do
    let Ai ← idx AT i
    let xi ← idx xs i
    let tmp := matrixpointScalarMul Ai xi
    let new ←
      match acc with
      | none => .ok tmp
      | some a => matrixpointMatrixAdd a tmp
    combineA AT xs c (i + 1) (some new)

/-- src/lmpa/no_zk.rs:181-193: `new_w`, the sum of `w_T[i] * y_vec[i]`. -/
def combineW (wT : List (List (List F))) (ys : List F) :
    Nat → Nat → Option (List (List F)) → R (List (List F))
  | 0, _, acc => unwrapR acc
  | c + 1, i, acc => do
    let wi ← idx wT i
    let yi ← idx ys i
    let tmp := matrixScalarMul wi yi
    let new ←
      match acc with
      | none => .ok tmp
      | some a => matrixMatrixAdd a tmp
    combineW wT ys c (i + 1) (some new)

/-- src/lmpa/no_zk.rs:196-207 (= 359-370): `new_t`, the sum of `u_vec[i] * z_vec[i]` for
`i = 0..vec_len`. -/
def combineT (u : List (List G)) (zs : List F) : Nat → Nat → Option (List G) → R (List G)
  | 0, _, acc => unwrapR acc
  | c + 1, i, acc => do
    let ui ← idx u i
    let zi ← idx zs i
    let tmp := vectorpointScalarMul ui zi
    let new ←
      match acc with
      | none => .ok tmp
      | some a => rowpointRowpointAdd a tmp
    combineT u zs c (i + 1) (some new)

/-- src/lmpa/no_zk.rs:133-137 (= 310-314): absorb all `u_l`. -/
def absorbAll (cx : Ctx G) (label : String) : List (List G) → Transcript → Transcript
  | [], tr => tr
  | u :: us, tr => absorbAll cx label us (absorb cx label u tr)

/-- src/lmpa/no_zk.rs:101-213, the loop of `create_lmpa_noZK`, and the construction of the proof.
`u_proof.push` becomes consing onto what the later rounds produce. -/
def createKLoop (cx : Ctx G) (m k : Nat) (one : F) (zero : G) :
    Nat → Nat → List (List G) → List F → List G → Transcript → R (LmpaNoZK F G × Transcript)
  | 0, _, _, _, _, _ => .error .outOfFuel
  | fuel + 1, n, A, w, t, tr =>
    if n < k then .ok (⟨A, t, w, []⟩, tr)
    else if k = 0 then .error .divZero
    else do
      let chunkSize := n / k
      let AT ← matrixSplit A chunkSize
      let wT ← matrixSplit [w] chunkSize
      let shift := k - 1
      let vecLen := 2 * shift + 1
      let u ← uOuter t shift wT 0 AT (List.replicate vecLen (List.replicate m zero))
      let tr := absorbAll cx "u_l" u tr
      let (x, tr) := challengeScalar (F := F) cx.ro tr "challenge_x"
      let xs ← vandemondeVector x k
      let ys ← vandemondeVector x⁻¹ k
      let zs ← zOuter shift ys 0 xs (List.replicate vecLen one)
      let A ← combineA AT xs k 0 none
      let wM ← combineW wT ys k 0 none
      let w ← unwrapR wM.getLast?
      let t ← combineT u zs vecLen 0 none
      let (p, tr) ← createKLoop cx m k one zero fuel (n / k) A w t tr
      return ({ p with u_proof_Block := u :: p.u_proof_Block }, tr)

/-- src/lmpa/no_zk.rs:88-221 `create_lmpa_noZK`. -/
def createK (cx : Ctx G) (fuel : Nat) (tr : Transcript) (A : List (List G)) (w : List F)
    (t : List G) (n m k : Nat) (one : F) (zero : G) : R (LmpaNoZK F G × Transcript) :=
  createKLoop cx m k one zero fuel n A w t tr

/-- src/lmpa/no_zk.rs:300-377, the loop of `verify_lmpa_noZK`; returns `t` and the transcript. -/
def verifyKLoop (cx : Ctx G) (p : LmpaNoZK F G) (k : Nat) (one : F) :
    Nat → Nat → Nat → List (List G) → List G → Transcript → R (List G × Transcript)
  | 0, _, _, _, _, _ => .error .outOfFuel
  | fuel + 1, ci, n, A, t, tr =>
    if n < k then .ok (t, tr)
    else if k = 0 then .error .divZero
    else do
      let chunkSize := n / k
      let AT ← matrixSplit A chunkSize
      let shift := k - 1
      let vecLen := 2 * shift + 1
      let u ← idx p.u_proof_Block ci
      let tr := absorbAll cx "u_l" u tr
      let (x, tr) := challengeScalar (F := F) cx.ro tr "challenge_x"
      let xs ← vandemondeVector x k
      let ys ← vandemondeVector x⁻¹ k
      let zs ← zOuter shift ys 0 xs (List.replicate vecLen one)
      let A ← combineA AT xs k 0 none
      let t ← combineT u zs vecLen 0 none
      verifyKLoop cx p k one fuel (ci + 1) (n / k) A t tr

/-- src/lmpa/no_zk.rs:288-382 `verify_lmpa_noZK` (the arguments `m` and `zero` are unused).  The
final check uses `A_Matrix` and `w_Vec` of the proof, and compares entry 0 only. -/
def LmpaNoZK.verify (cx : Ctx G) (fuel : Nat) (p : LmpaNoZK F G) (tr : Transcript)
    (A : List (List G)) (t : List G) (n k : Nat) (one : F) : R (Bool × Transcript) := do
  let (t, tr) ← verifyKLoop cx p k one fuel 0 n A t tr
  let expectedT := matrixpointVectorMul p.A_Matrix p.w_Vec
  let e0 ← idx expectedT 0
  let t0 ← idx t 0
  return (decide (e0 = t0), tr)

/-- src/lmpa/simple_zk.rs:13-16 `SimpleZK`. -/
structure SimpleZK (F G : Type) where
  no_zk : NoZK F G
  a : List G
  deriving DecidableEq

/-- src/lmpa/simple_zk.rs:18-47 `create`. -/
def createSimple (cx : Ctx G) (fuel : Nat) (tr : Transcript) (tape : Tape F) (A : List (List G))
    (Gs : List G) (w : List F) : R (SimpleZK F G × Transcript × Tape F) := do
  let n := Gs.length
  let (r, tape) := drawN n tape
  let a := matrixpointVectorMul A r
  let tr := absorb cx "a" a tr
  let (beta, tr) := challengeScalar (F := F) cx.ro tr "beta"
  let w' := List.zipWith (fun witness random => beta * witness + random) w r
  let (p, tr) ← create cx fuel tr A Gs w'
  return (⟨p, a⟩, tr, tape)

/-- src/lmpa/simple_zk.rs:124-148 `SimpleZK::verify`. -/
def SimpleZK.verify (cx : Ctx G) (fuel : Nat) (p : SimpleZK F G) (tr : Transcript)
    (A : List (List G)) (Gs : List G) (n : Nat) (t : List G) : R (Bool × Transcript) := do
  rassert (n = Gs.length)
  let tr := absorb cx "a" p.a tr
  let (beta, tr) := challengeScalar (F := F) cx.ro tr "beta"
  let t := List.zipWith (fun t a => beta • t + a) t p.a
  p.no_zk.verify cx fuel tr A Gs n t

/-- src/lmpa/simple_zk.rs:51-54 `SimpleZK_general`. -/
structure SimpleZKGeneral (F G : Type) where
  lamp_no_zk : LmpaNoZK F G
  a : List G
  deriving DecidableEq

/-- src/lmpa/simple_zk.rs:56-95 `create_general`.  The blinded witness `w_prime` of lines 76-80 is
computed but not used: the sub-protocol is run on `w` itself. -/
def createGeneral (cx : Ctx G) (fuel : Nat) (tr : Transcript) (tape : Tape F) (A : List (List G))
    (w : List F) (t : List G) (n m k : Nat) : R (SimpleZKGeneral F G × Transcript × Tape F) := do
  let (r, tape) := drawN n tape
  let a := matrixpointVectorMul A r
  let tr := absorb cx "a" a tr
  let (beta, tr) := challengeScalar (F := F) cx.ro tr "beta"
  let _w' := List.zipWith (fun witness random => beta * witness + random) w r
  let (p, tr) ← createK cx fuel tr A w t n m k 1 0
  return (⟨p, a⟩, tr, tape)

/-- src/lmpa/simple_zk.rs:98-120 `verify_general`. -/
def SimpleZKGeneral.verify (cx : Ctx G) (fuel : Nat) (p : SimpleZKGeneral F G) (tr : Transcript)
    (A : List (List G)) (t : List G) (n k : Nat) : R (Bool × Transcript) := do
  let tr := absorb cx "a" p.a tr
  let (beta, tr) := challengeScalar (F := F) cx.ro tr "beta"
  let t := List.zipWith (fun t a => beta • t + a) t p.a
  p.lamp_no_zk.verify cx fuel tr A t n k 1

/-- src/lmpa/simple_zk.rs:334-347 `pedersen_commit`. -/
def pedersenCommit (H : G) (Gs : List G) (msg : List F) (rand : F) : R G := do
  let commitment ← msm msg Gs
  return commitment + rand • H

end Qesa.Lmpa
