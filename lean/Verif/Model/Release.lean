import Verif.Model.Copy
import Verif.Model.Lmpa
/- The functions that subtract or shift, for an arbitrary build profile.  With overflow checks (`debug`) they are the
functions of the other files: `C88_debug` and the theorems next to it say so by `rfl`. -/
namespace Qesa

/-- What a build profile decides: subtraction on `usize` and on `u16`, `1usize << k`, and whether there is room for a
vector of `k` scalars. -/
structure Arith where
  sub : Nat → Nat → R Nat
  sub16 : Nat → Nat → R Nat
  shl : Nat → R Nat
  room : Nat → R Unit

/-- Build with overflow checks. A vector that is too long never comes up, because the subtractions are checked. -/
def debug : Arith := ⟨usub, usub, shl1, fun _ => .ok ()⟩

/-- Build without overflow checks on a 64-bit target: differences are taken modulo `2^64` (`2^16`), the shift amount
modulo 64. A vector has at most `isize::MAX` bytes, that is fewer than `2^58` scalars; `vec!`, `collect` and
`with_capacity` panic beyond that ("capacity overflow"), and a loop that pushes more exhausts the memory. Both are
the error `underflow` here. -/
def release : Arith where
  sub a b := .ok ((a + 2 ^ 64 - b) % 2 ^ 64)
  sub16 a b := .ok ((a + 2 ^ 16 - b) % 2 ^ 16)
  shl k := .ok (2 ^ (k % 64))
  room k := if k < 2 ^ 58 then .ok () else .error .underflow

variable {F G : Type} [Field F] [DecidableEq F] [AddCommGroup G] [Module F G] [DecidableEq G] (ar : Arith)

namespace Arith

/-- src/math_utils.rs:13-20 `vandemonde_challenge`. -/
def vandemondeChallenge (x : F) (n : Nat) : R (List F) := do
  let k ← ar.sub n 1
  ar.room k
  return x :: powersLoop x k x

/-- src/matrix.rs:324-332 `vandemonde_vector`. -/
def vandemondeVector (x : F) (n : Nat) : R (List F) := do
  let k ← ar.sub n 1
  ar.room k
  return 1 :: powersLoop x k 1

/-- src/ipa/gramschmidt.rs:4-26 `sample_m_n_plus`. -/
def sampleMNPlus (n : Nat) (tape : Tape F) : R (List F × Tape F) := do
  let r : List F := List.replicate n 0
  let (v, tape) := draw tape
  let r ← setIdx r 0 v
  let (v, tape) := draw tape
  let r ← setIdx r 1 v
  let (r, tape) ← sampleLoop n (n + 1) 4 r tape
  let (v, tape) := draw tape
  let i ← ar.sub n 2
  let r ← setIdx r i v
  let (v, tape) := draw tape
  let i ← ar.sub n 1
  let r ← setIdx r i v
  rassert (n = r.length)
  return (r, tape)

/-- src/ipa/gramschmidt.rs:48-51 `sample_gram_schmidt`. -/
def sampleGramSchmidt (a : List F) (tape : Tape F) : R (List F × Tape F) := do
  let (s, tape) ← ar.sampleMNPlus a.length tape
  let o ← orth a s
  return (o, tape)

/-- src/ipa/gramschmidt.rs:56-61 `sample_gram_schmidt_twice`. -/
def sampleGramSchmidtTwice (a b : List F) (tape : Tape F) : R (List F × Tape F) := do
  let orthAB ← orth a b
  let (orthASample, tape) ← ar.sampleGramSchmidt a tape
  let o ← orth orthAB orthASample
  return (o, tape)

/-- src/ipa/no_zk.rs:112-158 `NoZK::verify`. -/
def ipaVerify (cx : Ctx G) (p : Ipa.NoZK F) (tr : Transcript) (Gs Hs : List G) (Q : G) (n : Nat)
    (P : G) (t : F) : R (Bool × Transcript) := do
  let Ls ← p.L_vec.mapM fun c => unwrapR (cx.decompress c)
  let Rs ← p.R_vec.mapM fun c => unwrapR (cx.decompress c)
  let n' ← ar.shl Ls.length
  rassert (n = n')
  let tr := tr.appendU64 "n" n'
  let (alpha, tr) := challengeScalar (F := F) cx.ro tr "alpha"
  let Q := alpha⁻¹ • Q
  let P := P - ((alpha - 1) * t) • Q
  let (xs, tr) := Ipa.generateChallenges (F := F) cx.ro p.L_vec p.R_vec tr
  let P := Ipa.foldP Ls Rs xs P
  let (Gs, Hs) ← Ipa.foldGens n' Gs Hs xs
  let g0 ← idx Gs 0
  let h0 ← idx Hs 0
  let expP := p.a • g0 + p.b • h0 + (p.a * p.b) • Q
  return (decide (expP = P), tr)

/-- src/ipa/alm_zk.rs:17-77 `create`. -/
def almCreate (cx : Ctx G) (tr : Transcript) (tape : Tape F) (Gs Hs : List G) (Q : G) (C_w : G)
    (a b : List F) (t : F) : R (Ipa.AlmZK F × Transcript × Tape F) := do
  let (r', tape) ← ar.sampleGramSchmidt b tape
  let (r'', tape) ← ar.sampleGramSchmidtTwice a r' tape
  let C_r ← msm (r' ++ r'') (Gs ++ Hs)
  let tr := tr.appendMessage "C_r" (cx.compress C_r)
  let (beta, tr) := challengeScalar (F := F) cx.ro tr "beta"
  let maskedA := List.zipWith (fun a r => beta * a + r) a r'
  let maskedB := List.zipWith (fun b r => beta * b + r) b r''
  let betaSqT := beta * beta * t
  let P := cx.compress (beta • C_w + C_r + betaSqT • Q)
  let tr := tr.appendMessage "P" P
  let (p, tr) ← Ipa.create cx tr Gs Hs Q maskedA maskedB
  return (⟨cx.compress C_r, p⟩, tr, tape)

/-- src/ipa/alm_zk.rs:80-112 `AlmZK::verify`. -/
def almVerify (cx : Ctx G) (p : Ipa.AlmZK F) (tr : Transcript) (Gs Hs : List G) (Q : G) (n : Nat)
    (C_w : G) (t : F) : R (Bool × Transcript) := do
  let tr := tr.appendMessage "C_r" p.C_r
  let C_r ← unwrapR (cx.decompress p.C_r)
  let (beta, tr) := challengeScalar (F := F) cx.ro tr "beta"
  let betaSqT := beta * beta * t
  let P := beta • C_w + C_r + betaSqT • Q
  let tr := tr.appendMessage "P" (cx.compress P)
  ar.ipaVerify cx p.NoZK tr Gs Hs Q n P betaSqT

/-- src/ipa/qesa_inner.rs:188-212 `compute_gamma_prime`. -/
def computeGammaPrime (gamma : List (List F)) (n : Nat) : R (List (List F)) := do
  let padded := gamma.map fun row => row ++ [0] ++ [0]
  let k ← ar.sub n 2
  ar.room k
  let row1 := List.replicate k (0 : F) ++ [0] ++ [-1]
  let row2 := List.replicate k (0 : F) ++ [1] ++ [0]
  return padded ++ [row1] ++ [row2]

/-- src/ipa/qesa_inner.rs:20-114 `create`. -/
def innerCreate (cx : Ctx G) (tr : Transcript) (tape : Tape F) (Gs Hs : List G) (Q : G)
    (gammaI : BlockMatrix F) (w r' : List F) : R (Inner.Proof F × Transcript × Tape F) := do
  let n := Gs.length
  let k ← ar.sub n 2
  rassert (w.length = k)
  rassert (r'.length = 2)
  let w' := w ++ r'
  let c_prime_w ← msm w' Gs
  let tr := tr.appendMessage "c_prime_w" (cx.compress c_prime_w)
  let (x, tr) := challengeScalar (F := F) cx.ro tr "x"
  let xs ← ar.vandemondeChallenge x n
  rassert (xs.length = n)
  let gamma ← gammaI.batch xs
  let beta ← idx xs 1
  let g0 ← idx Gs 0
  let Gs ← setIdx Gs 0 (beta⁻¹ • g0)
  let r1 ← idx r' 1
  let r0 ← idx r' 0
  let r'' := [-r1, r0]
  let gammaW := matrixVectorMul gamma w
  let w'' := gammaW ++ r''
  let c_prime_prime_w ← msm w'' Hs
  let tr := tr.appendMessage "c_prime_prime_w" (cx.compress c_prime_prime_w)
  let (s, tr) := challengeScalar (F := F) cx.ro tr "s"
  let ss ← ar.vandemondeChallenge s k
  let (b, tr) := challengeScalar (F := F) cx.ro tr "b"
  let bs ← ar.vandemondeChallenge b 2
  let s' := ss ++ bs
  rassert (s'.length = n)
  let gamma' ← ar.computeGammaPrime gamma n
  let gammaT' ← matrixTranspose gamma'
  let gts := matrixVectorMul gammaT' s'
  let a ← rowRowSub w' s'
  let b ← rowRowAdd w'' gts
  let t := innerProduct a b
  let C_w ← msm (a ++ b) (Gs ++ Hs)
  let tr := tr.appendMessage "c_w" (cx.compress C_w)
  let (p, tr, tape) ← ar.almCreate cx tr tape Gs Hs Q C_w a b t
  return (⟨p, cx.compress c_prime_w, cx.compress c_prime_prime_w⟩, tr, tape)

/-- src/ipa/qesa_inner.rs:117-185 `Inner::verify`. -/
def innerVerify (cx : Ctx G) (p : Inner.Proof F) (tr : Transcript) (Gs Hs : List G) (Q : G)
    (gammaI : BlockMatrix F) : R (Bool × Transcript) := do
  let n := Hs.length
  let tr := tr.appendMessage "c_prime_w" p.c_prime_w
  let c_prime_w ← unwrapR (cx.decompress p.c_prime_w)
  let (x, tr) := challengeScalar (F := F) cx.ro tr "x"
  let xs ← ar.vandemondeChallenge x n
  let gamma ← gammaI.batch xs
  let beta ← idx xs 1
  let g0 ← idx Gs 0
  let Gs ← setIdx Gs 0 (beta⁻¹ • g0)
  let c_prime_prime_w ← unwrapR (cx.decompress p.c_prime_prime_w)
  let g0' ← idx Gs 0
  let c_prime_w := c_prime_w - (beta - 1) • g0'
  let tr := tr.appendMessage "c_prime_prime_w" (cx.compress c_prime_prime_w)
  let (s, tr) := challengeScalar (F := F) cx.ro tr "s"
  let k ← ar.sub n 2
  let ss ← ar.vandemondeChallenge s k
  let (b, tr) := challengeScalar (F := F) cx.ro tr "b"
  let bs ← ar.vandemondeChallenge b 2
  let s' := ss ++ bs
  rassert (s'.length = n)
  let gamma' ← ar.computeGammaPrime gamma n
  let gammaT' ← matrixTranspose gamma'
  let gts' := matrixVectorMul gammaT' s'
  let gammaT ← matrixTranspose gamma
  let gts := matrixVectorMul gammaT ss
  let t := -(innerProduct ss gts)
  let m1 ← msm gts' Hs
  let C_w := c_prime_w + c_prime_prime_w + m1
  let m2 ← msm s' Gs
  let C_w := C_w - m2
  let tr := tr.appendMessage "c_w" (cx.compress C_w)
  ar.almVerify cx p.alm_zk tr Gs Hs Q n C_w t

/-- src/qesa_zk.rs:12-33 `create`. -/
def zkCreate (cx : Ctx G) (tr : Transcript) (tape : Tape F) (Gs Hs : List G) (Q : G)
    (gammaI : BlockMatrix F) (w : List F) : R (Zk.Proof F × Transcript × Tape F) := do
  let (ra, tape) := draw tape
  let (rb, tape) := draw tape
  let (p, tr, tape) ← ar.innerCreate cx tr tape Gs Hs Q gammaI w [ra, rb]
  return (⟨p⟩, tr, tape)

/-- src/qesa_zk.rs:36-45 `Zk::verify`. -/
def zkVerify (cx : Ctx G) (p : Zk.Proof F) (tr : Transcript) (Gs Hs : List G) (Q : G)
    (gammaI : BlockMatrix F) : R (Bool × Transcript) :=
  ar.innerVerify cx p.inner tr Gs Hs Q gammaI

open Copy in
/-- src/copy/mapping.rs:64-145 `compute_mapping`. -/
def computeMapping (n witnessSize : Nat) (sets : List (List Nat)) : R Mapping := do
  let n := asU16 n
  let numCommitments := sets.length
  let unique := setCollect sets.flatten
  let totalMessages := (sets.map List.length).sum
  let position := asU16 witnessSize
  let stop ← ar.sub16 n 2
  let available :=
    (((List.range' position (stop - position)).filter fun x => !unique.contains x).take
      totalMessages)
  let lastIndex ← unwrapR available.getLast?
  rassert (totalMessages = available.length)
  let msgs := (List.range totalMessages).map fun i => (⟨i, 0, 0, 0⟩ : MessageMap)
  let msgs := assignPositions msgs available
  let msgs ← assignIndices msgs sets.flatten
  let msgs ← assignCrs msgs (crsIds 0 sets)
  return ⟨numCommitments, msgs, unique, lastIndex⟩

open Copy in
/-- src/copy/copy.rs:23-161 `create`. -/
def copyCreate (cx : Ctx G) (tr : Transcript) (tape : Tape F) (Gs Hs : List G) (Q : G) (map : Mapping)
    (gammaI : BlockMatrix F) (w : List F) (openings : List (List F × F)) :
    R (Copy.Proof F × Transcript × Tape F) := do
  let n := Gs.length
  rassert (map.num_commitments = openings.length)
  let w0 ← idx w 0
  rassert (w0 = 1)
  let k ← ar.sub n 2
  let padBy ← ar.sub k w.length
  ar.room padBy
  let w := w ++ List.replicate padBy 0
  let (r', tape) := drawN 2 tape
  let w' := w ++ r'
  let allMessages := (openings.map fun o => o.1).flatten
  let w' ← placeMessages allMessages map.msgs_map w'
  let C_w ← msm w' Gs
  let tr := tr.appendMessage "c_w" (cx.compress C_w)
  let (alpha, tr) := challengeScalar (F := F) cx.ro tr "alpha"
  let alphas ← ar.vandemondeChallenge alpha openings.length
  let allRand := openings.map fun o => o.2
  let aggregatedRand := (List.zipWith (fun rnd alpha => rnd * alpha) allRand alphas).sum
  let i ← ar.sub n 1
  let old ← idx w' i
  let w' ← setIdx w' i (old + aggregatedRand)
  let w' ← aggregate alphas map.msgs_map w'
  ar.room k
  let gammaI ← pushCopyMatrices k alphas map.msgs_map map.unique_commitment_indices gammaI
  let (w, r') ← splitAtR w' k
  let (p, tr, tape) ← ar.innerCreate cx tr tape Gs Hs Q gammaI w r'
  return (⟨cx.compress C_w, p⟩, tr, tape)

open Copy in
/-- src/copy/copy.rs:164-234 `Copy::verify`. -/
def copyVerify (cx : Ctx G) (p : Copy.Proof F) (tr : Transcript) (Gs Hs : List G) (Q : G)
    (gammaI : BlockMatrix F) (map : Mapping) (commitments : List G) : R (Bool × Transcript) := do
  let n := Gs.length
  let tr := tr.appendMessage "c_w" p.C_w
  let (alpha, tr) := challengeScalar (F := F) cx.ro tr "alpha"
  let alphas ← ar.vandemondeChallenge alpha commitments.length
  let commitment := (List.zipWith (fun (alpha : F) (c : G) => alpha • c) alphas commitments).sum
  let C_w ← unwrapR (cx.decompress p.C_w)
  let commitment := commitment + C_w
  let k ← ar.sub n 2
  ar.room k
  let gammaI ← pushCopyMatrices k alphas map.msgs_map map.unique_commitment_indices gammaI
  let proofInner : Inner.Proof F :=
    ⟨p.inner.alm_zk, cx.compress commitment, p.inner.c_prime_prime_w⟩
  ar.innerVerify cx proofInner tr Gs Hs Q gammaI

open Lmpa

/-- src/lmpa/no_zk.rs:113-124. -/
def uInner (t : List G) (shift i : Nat) (At : List (List G)) :
    Nat → List (List (List F)) → List (List G) → R (List (List G))
  | _, [], u => .ok u
  | j, wVec :: wT, u => do
    let l ← ar.sub (shift + j) i
    let u ←
      if l ≠ shift then do
        let w0 ← idx wVec 0
        let ult := matrixpointVectorMul At w0
        let ul ← idx u l
        let s ← rowpointRowpointAdd ul ult
        setIdx u l s
      else setIdx u l t
    uInner t shift i At (j + 1) wT u

/-- src/lmpa/no_zk.rs:112-127. -/
def uOuter (t : List G) (shift : Nat) (wT : List (List (List F))) :
    Nat → List (List (List G)) → List (List G) → R (List (List G))
  | _, [], u => .ok u
  | i, At :: AT, u => do
    let u ← ar.uInner t shift i At 0 wT u
    uOuter t shift wT (i + 1) AT u

/-- src/lmpa/no_zk.rs:150-158 (= 326-334). -/
def zInner (shift i : Nat) (x : F) : Nat → List F → List F → R (List F)
  | _, [], z => .ok z
  | j, y :: ys, z => do
    let l ← ar.sub (shift + j) i
    let z ← if l ≠ shift then setIdx z l (x * y) else .ok z
    zInner shift i x (j + 1) ys z

/-- src/lmpa/no_zk.rs:149-161 (= 325-337). -/
def zOuter (shift : Nat) (ys : List F) : Nat → List F → List F → R (List F)
  | _, [], z => .ok z
  | i, x :: xs, z => do
    let z ← ar.zInner shift i x 0 ys z
    zOuter shift ys (i + 1) xs z

/-- src/lmpa/no_zk.rs:101-213, the loop of `create_lmpa_noZK`. -/
def createKLoop (cx : Ctx G) (m k : Nat) (one : F) (zero : G) :
    Nat → Nat → List (List G) → List F → List G → Transcript → R (LmpaNoZK F G × Transcript)
  | 0, _, _, _, _, _ => .error .outOfFuel
  | fuel + 1, n, A, w, t, tr =>
    if n < k then .ok (⟨A, t, w, []⟩, tr)
    else if k = 0 then .error .divZero
    else do
      let chunkSize := n / k
      let AT ← matrixSplit A chunkSize
      let wT ← matrixSplit [w] chunkSize
      let shift ← ar.sub k 1
      let vecLen := 2 * shift + 1
      let u ← ar.uOuter t shift wT 0 AT (List.replicate vecLen (List.replicate m zero))
      let tr := absorbAll cx "u_l" u tr
      let (x, tr) := challengeScalar (F := F) cx.ro tr "challenge_x"
      let xs ← ar.vandemondeVector x k
      let ys ← ar.vandemondeVector x⁻¹ k
      let zs ← ar.zOuter shift ys 0 xs (List.replicate vecLen one)
      let A ← combineA AT xs k 0 none
      let wM ← combineW wT ys k 0 none
      let w ← unwrapR wM.getLast?
      let t ← combineT u zs vecLen 0 none
      let (p, tr) ← createKLoop cx m k one zero fuel (n / k) A w t tr
      return ({ p with u_proof_Block := u :: p.u_proof_Block }, tr)

/-- src/lmpa/no_zk.rs:300-377, the loop of `verify_lmpa_noZK`. -/
def verifyKLoop (cx : Ctx G) (p : LmpaNoZK F G) (k : Nat) (one : F) :
    Nat → Nat → Nat → List (List G) → List G → Transcript → R (List G × Transcript)
  | 0, _, _, _, _, _ => .error .outOfFuel
  | fuel + 1, ci, n, A, t, tr =>
    if n < k then .ok (t, tr)
    else if k = 0 then .error .divZero
    else do
      let chunkSize := n / k
      let AT ← matrixSplit A chunkSize
      let shift ← ar.sub k 1
      let vecLen := 2 * shift + 1
      let u ← idx p.u_proof_Block ci
      let tr := absorbAll cx "u_l" u tr
      let (x, tr) := challengeScalar (F := F) cx.ro tr "challenge_x"
      let xs ← ar.vandemondeVector x k
      let ys ← ar.vandemondeVector x⁻¹ k
      let zs ← ar.zOuter shift ys 0 xs (List.replicate vecLen one)
      let A ← combineA AT xs k 0 none
      let t ← combineT u zs vecLen 0 none
      verifyKLoop cx p k one fuel (ci + 1) (n / k) A t tr

/-- src/lmpa/no_zk.rs:288-382 `verify_lmpa_noZK`. -/
def lmpaKVerify (cx : Ctx G) (fuel : Nat) (p : LmpaNoZK F G) (tr : Transcript)
    (A : List (List G)) (t : List G) (n k : Nat) (one : F) : R (Bool × Transcript) := do
  let (t, tr) ← ar.verifyKLoop cx p k one fuel 0 n A t tr
  let expectedT := matrixpointVectorMul p.A_Matrix p.w_Vec
  let e0 ← idx expectedT 0
  let t0 ← idx t 0
  return (decide (e0 = t0), tr)

end Arith
end Qesa
