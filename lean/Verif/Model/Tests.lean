import Verif.Model.Copy
import Verif.Model.Lmpa
/- Model of the test programs (`#[test]` functions) of the repository.

A test is a function that returns `.ok ()` when it passes; a failed assertion and a panic are errors.
`tape` holds the outcomes of `Scalar::random`, `pts` those of `RistrettoPoint::random`, in the order in which
they are drawn; `Q` is the point `hash_from_bytes(b"test point")`. `println!` is not modelled. -/
namespace Qesa.Tests
open Qesa

variable {F G : Type} [Field F] [DecidableEq F] [AddCommGroup G] [Module F G] [DecidableEq G]

/-- `Transcript::new(label)` (merlin). -/
def newTranscript (label : String) : Transcript :=
  (⟨[]⟩ : Transcript).appendMessage "dom-sep" label.toUTF8.toList

/-- `for i in 0..v.len() { assert!(c(v[i])) }`. -/
def assertEach {α : Type} (c : α → Prop) [DecidablePred c] : List α → R Unit
  | [] => .ok ()
  | x :: xs => do
    rassert (c x)
    assertEach c xs

/-! ### src/math_utils.rs -/

/-- src/math_utils.rs:31-34: the loop of `test_vandermonde`. -/
def vandermondeLoop (two : F) : F → List F → R Unit
  | _, [] => .ok ()
  | two_n, c :: cs => do
    rassert (two_n = c)
    vandermondeLoop two (two_n * two) cs

/-- src/math_utils.rs:22-35 `test_vandermonde`. -/
def testVandermonde (F : Type) [Field F] [DecidableEq F] : R Unit := do
  let n := 32
  let challenges ← vandemondeChallenge (2 : F) n
  rassert (challenges.length = n)
  vandermondeLoop 2 2 challenges

/-! ### src/ipa/gramschmidt.rs -/

/-- src/ipa/gramschmidt.rs:63-73 `test_orth`. -/
def testOrth (tape : Tape F) : R Unit := do
  let (a, tape) := drawN 4 tape
  let (b, _) := drawN 4 tape
  let o ← orth a b
  rassert (innerProduct o a = 0)

/-- src/ipa/gramschmidt.rs:75-84 `test_sample_gram_schmidt`. -/
def testSampleGramSchmidt (tape : Tape F) : R Unit := do
  let (a, tape) := drawN 4 tape
  let (res, _) ← sampleGramSchmidt a tape
  rassert (innerProduct res a = 0)

/-- src/ipa/gramschmidt.rs:86-97 `test_sample_gram_schmidt_twice`. -/
def testSampleGramSchmidtTwice (tape : Tape F) : R Unit := do
  let (a, tape) := drawN 4 tape
  let (b, tape) := drawN 4 tape
  let (res, _) ← sampleGramSchmidtTwice a b tape
  rassert (innerProduct res a = 0)
  rassert (innerProduct res b = 0)

/-! ### src/ipa/no_zk.rs, src/ipa/alm_zk.rs -/

/-- src/ipa/no_zk.rs:188-220 `test_create_nozk_proof`. -/
def testNoZK (cx : Ctx G) (tape : Tape F) (pts : Tape G) (Q : G) : R Unit := do
  let n := 4
  let (a, tape) := drawN n tape
  let (b, _) := drawN n tape
  let t := innerProduct a b
  let (Gs, pts) := drawN n pts
  let (Hs, _) := drawN n pts
  let P ← msm (a ++ b ++ [t]) (Gs ++ Hs ++ [Q])
  let tr := (newTranscript "ip_no_zk").appendMessage "P" (cx.compress P)
  let (proof, _) ← Ipa.create cx tr Gs Hs Q a b
  let tr := (newTranscript "ip_no_zk").appendMessage "P" (cx.compress P)
  let (b, _) ← proof.verify cx tr Gs Hs Q n P t
  rassert (b = true)

/-- src/ipa/alm_zk.rs:120-156 `test_create_almzk_proof`. -/
def testAlmZK (cx : Ctx G) (tape : Tape F) (pts : Tape G) (Q : G) : R Unit := do
  let n := 4
  let (a, tape) := drawN n tape
  let (b, tape) := drawN n tape
  let t := innerProduct a b
  let (Gs, pts) := drawN n pts
  let (Hs, _) := drawN n pts
  let C_w ← msm (a ++ b) (Gs ++ Hs)
  let (proof, _, _) ← Ipa.createAlm cx (newTranscript "ip_alm_zk") tape Gs Hs Q C_w a b t
  let (b, _) ← proof.verify cx (newTranscript "ip_alm_zk") Gs Hs Q n C_w t
  rassert (b = true)

/-! ### src/ipa/qesa_inner.rs -/

/-- src/ipa/qesa_inner.rs:260-266: `k` rows orthogonal to the witness. -/
def helperRows (witness : List F) : Nat → Tape F → R (List (List F) × Tape F)
  | 0, tape => .ok ([], tape)
  | k + 1, tape => do
    let (x, tape) := drawN witness.length tape
    let row ← orth witness x
    rassert (0 = innerProduct witness row)
    let (rest, tape) ← helperRows witness k tape
    return (row :: rest, tape)

/-- src/ipa/qesa_inner.rs:258-268: `k` matrices with `n` rows each. -/
def helperBlocks (witness : List F) (n : Nat) : Nat → Tape F → R (List (List (List F)) × Tape F)
  | 0, tape => .ok ([], tape)
  | k + 1, tape => do
    let (g, tape) ← helperRows witness n tape
    let (rest, tape) ← helperBlocks witness n k tape
    return (g :: rest, tape)

/-- src/ipa/qesa_inner.rs:251-272 `helper_create_solutions`. The witness has length `n`. -/
def helperCreateSolutions (n numOfMatrices : Nat) (tape : Tape F) :
    R (List F × BlockMatrix F × Tape F) := do
  let (witness, tape) := drawN n tape
  let witness ← setIdx witness 0 1
  let (bs, tape) ← helperBlocks witness n numOfMatrices tape
  return (witness, ⟨bs⟩, tape)

/-- src/ipa/qesa_inner.rs:219-248 `test_create_qesa_inner_proof`. -/
def testQesaInner (cx : Ctx G) (tape : Tape F) (pts : Tape G) (Q : G) : R Unit := do
  let n := 4
  let (witness, matrix, tape) ← helperCreateSolutions (n - 2) 2 tape
  let (Gs, pts) := drawN n pts
  let (Hs, _) := drawN n pts
  let (r', tape) := drawN 2 tape
  let (proof, _, _) ← Inner.create cx (newTranscript "qesa_inner") tape Gs Hs Q matrix witness r'
  let (b, _) ← proof.verify cx (newTranscript "qesa_inner") Gs Hs Q matrix
  rassert (b = true)

/-- src/ipa/qesa_inner.rs:273-285 `test_helper_solutions`. -/
def testHelperSolutions (tape : Tape F) : R Unit := do
  let n := 14
  let (witness, matrix, _) ← helperCreateSolutions (n - 2) 3 tape
  assertEach (fun g => 0 = innerProduct witness (matrixVectorMul g witness)) matrix.block

/-- src/ipa/qesa_inner.rs:300-305: the matrix with entry 1 at (1, 1) and -1 at (3, 0). -/
def vitalikMatrix (F : Type) [Field F] (n : Nat) : R (List (List F)) := do
  let g := List.replicate n (List.replicate n (0 : F))
  let r1 ← idx g 1
  let r1 ← setIdx r1 1 1
  let g ← setIdx g 1 r1
  let r3 ← idx g 3
  let r3 ← setIdx r3 0 (-1)
  setIdx g 3 r3

/-- src/ipa/qesa_inner.rs:300-305: `k` copies of it. -/
def vitalikBlocks (F : Type) [Field F] (n : Nat) : Nat → R (List (List (List F)))
  | 0 => .ok []
  | k + 1 => do
    let g ← vitalikMatrix F n
    let rest ← vitalikBlocks F n k
    return g :: rest

/-- src/ipa/qesa_inner.rs:289-309 `helper_create_solutions_vatalik_g1`. -/
def helperVitalik (n numOfMatrices : Nat) (tape : Tape F) : R (List F × BlockMatrix F × Tape F) := do
  let (witness, tape) := drawN n tape
  let witness ← setIdx witness 0 1
  let witness ← setIdx witness 1 3
  let witness ← setIdx witness 3 9
  let last ← usub n 1
  let witness ← setIdx witness last 0
  let w3 ← idx witness 3
  let w1 ← idx witness 1
  rassert (w3 = w1 * w1)
  let bs ← vitalikBlocks F n numOfMatrices
  return (witness, ⟨bs⟩, tape)

/-- `for gamma_i in matrix.block.iter() { assert_eq!(0, <witness, gamma_i^T witness>) }`,
src/ipa/qesa_inner.rs:319-324. -/
def assertTransposed (witness : List F) : List (List (List F)) → R Unit
  | [] => .ok ()
  | g :: gs => do
    let gT ← matrixTranspose g
    rassert (0 = innerProduct witness (matrixVectorMul gT witness))
    assertTransposed witness gs

/-- src/ipa/qesa_inner.rs:312-325 `test_helper_solutions_vitalik_g1`. -/
def testHelperVitalik (tape : Tape F) : R Unit := do
  let n := 8
  let (witness, matrix, _) ← helperVitalik (n - 2) 1 tape
  assertTransposed witness matrix.block

/-- src/ipa/qesa_inner.rs:327-355 `test_create_qesa_inner_proof_vitalik_g1`. -/
def testQesaVitalik (cx : Ctx G) (tape : Tape F) (pts : Tape G) (Q : G) : R Unit := do
  let n := 8
  let (witness, matrix, tape) ← helperVitalik (n - 2) 2 tape
  let (Gs, pts) := drawN n pts
  let (Hs, _) := drawN n pts
  let (r', tape) := drawN 2 tape
  let (proof, _, _) ← Inner.create cx (newTranscript "qesa_inner") tape Gs Hs Q matrix witness r'
  let (b, _) ← proof.verify cx (newTranscript "qesa_inner") Gs Hs Q matrix
  rassert (b = true)

/-! ### src/copy -/

/-- src/copy/mapping.rs:197-206: `map_msg.split_at(set.len())` for every set. -/
def chunkMaps : List (List Nat) → List Copy.MessageMap → R (List (List Copy.MessageMap))
  | [], _ => .ok []
  | s :: ss, ms => do
    let (head, tail) ← splitAtR ms s.length
    let rest ← chunkMaps ss tail
    return head :: rest

/-- src/copy/mapping.rs:208-212: every chunk has its own `crs_id`. -/
def checkCrs : Nat → List (List Copy.MessageMap) → R Unit
  | _, [] => .ok ()
  | c, ms :: rest => do
    assertEach (fun m => m.commitment_crs_id = asU16 c) ms
    checkCrs (c + 1) rest

/-- src/copy/mapping.rs:147-213 `test_random_compute_mapping`; the size `n` (18 in the code) is an argument,
and `r c j` is the outcome of the `j`-th call of `gen_range(2, n - 3)` for commitment `c`. -/
def testComputeMapping (n : Nat) (r : Fin 4 → Fin 2 → Nat) : R Unit := do
  let sets := List.ofFn fun c => Copy.setInsert (r c 1) (Copy.setInsert (r c 0) [])
  let map ← Copy.computeMapping n 1 sets
  rassert (4 = map.num_commitments)
  let total := (sets.map List.length).sum
  assertEach (fun id => (map.msgs_map.find? fun x => x.msg_id == id).isSome = true) (List.range total)
  let last ← usub total 1
  let m ← idx map.msgs_map last
  rassert (m.position_in_witness = map.last_index)
  let chunked ← chunkMaps sets map.msgs_map
  checkCrs 0 chunked

/-- src/copy/copy.rs:400-404: vectors of random scalars of the given lengths. -/
def drawLists : List Nat → Tape F → List (List F) × Tape F
  | [], tape => ([], tape)
  | k :: ks, tape =>
    let (x, tape) := drawN k tape
    let (xs, tape) := drawLists ks tape
    (x :: xs, tape)

/-- src/copy/copy.rs:272-281: the set `{1, …, k}`. -/
def indexSet (k : Nat) : List Nat :=
  (List.range k).foldl (fun b i => Copy.setInsert (asU16 (i + 1)) b) []

/-- src/copy/copy.rs:290-299: the commitments. -/
def commitAll (Gs : List G) (messages : List (List F)) (rands : List F) : Nat → List (List Nat) → R (List G)
  | _, [] => .ok []
  | i, s :: ss => do
    let msg ← idx messages i
    let rnd ← idx rands i
    let c ← Copy.commit Gs s msg rnd
    let cs ← commitAll Gs messages rands (i + 1) ss
    return c :: cs

/-- src/copy/copy.rs:242-332 `test_copy_proof_creation`. -/
def testCopy (cx : Ctx G) (tape : Tape F) (pts : Tape G) (Q : G) : R Unit := do
  let witness : List F := [1]
  let n := 32
  let (Gs, pts) := drawN n pts
  let (Hs, _) := drawN n pts
  rassert (2 = [2, 3].length)
  let (rands, tape) := drawN 2 tape
  let (messages, tape) := drawLists [2, 3] tape
  let total := (messages.map List.length).sum
  rassert (n - 2 - 1 > total)
  let sets := messages.map fun msg => indexSet msg.length
  let commitments ← commitAll Gs messages rands 0 sets
  let map ← Copy.computeMapping Gs.length witness.length sets
  let (proof, _, _) ← Copy.create cx (newTranscript "copy") tape Gs Hs Q map BlockMatrix.new witness
    (List.zip messages rands)
  let (b, _) ← proof.verify cx (newTranscript "copy") Gs Hs Q BlockMatrix.new map commitments
  rassert (b = true)

/-- src/copy/copy.rs:333-385 `test_copy_proof_creation_single_commit`. -/
def testCopySingle (cx : Ctx G) (tape : Tape F) (pts : Tape G) (Q : G) : R Unit := do
  let witness : List F := [1]
  let n := 16
  let (Gs, pts) := drawN n pts
  let (Hs, _) := drawN n pts
  let message : List F := [1, 1]
  let rand : F := 1
  let sets := [indexSet message.length]
  let set0 ← idx sets 0
  let commitment ← Copy.commit Gs set0 message rand
  let map ← Copy.computeMapping Gs.length witness.length sets
  let (proof, _, _) ← Copy.create cx (newTranscript "copy") tape Gs Hs Q map BlockMatrix.new witness
    [(message, rand)]
  let (b, _) ← proof.verify cx (newTranscript "copy") Gs Hs Q BlockMatrix.new map [commitment]
  rassert (b = true)

/-! ### src/lmpa -/
open Lmpa

/-- src/lmpa/no_zk.rs:389-417 `test_lmpa_no_zk_create_verify`. -/
def testLmpaNoZK (cx : Ctx G) (fuel : Nat) (tape : Tape F) (pts : Tape G) : R Unit := do
  let n := 4
  let m := 4
  let (Gs, pts) := drawN n pts
  let (_, pts) := drawN n pts
  let (A, _) := randMatrix m n pts
  let (w, _) := drawN n tape
  let t := matrixpointVectorMul A w
  let (proof, _) ← Lmpa.create cx fuel (newTranscript "lmpa_no_zk") A Gs w
  let (b, _) ← proof.verify cx fuel (newTranscript "lmpa_no_zk") A Gs n t
  rassert (b = true)

/-- src/lmpa/no_zk.rs:570-599 `test_lmpa_noZK_merlin`; `k`, `d` (5 and 3 in the code) and the number of rows `m`
(4) are arguments. -/
def testLmpaK (cx : Ctx G) (fuel k d m : Nat) (tape : Tape F) (pts : Tape G) : R Unit := do
  let n := k ^ d
  let (A, _) := randMatrix m n pts
  let (w, _) := drawN n tape
  let t := matrixpointVectorMul A w
  let (proof, _) ← createK cx fuel (newTranscript "protocol 3.9 float test") A w t n m k (1 : F) 0
  let (b, _) ← proof.verify cx fuel (newTranscript "protocol 3.9 float test") A t n k 1
  rassert (b = true)

/-- src/lmpa/simple_zk.rs:153-178 `test_lmpa_ZK_merlin`; arguments as in `testLmpaK`. -/
def testLmpaGeneral (cx : Ctx G) (fuel k d m : Nat) (tape : Tape F) (pts : Tape G) : R Unit := do
  let n := k ^ d
  let (A, _) := randMatrix m n pts
  let (w, tape) := drawN n tape
  let t := matrixpointVectorMul A w
  let (proof, _, _) ← createGeneral cx fuel (newTranscript "protocol 3.13 test") tape A w t n m k
  let (b, _) ← proof.verify cx fuel (newTranscript "protocol 3.13 test") A t n k
  rassert (b = true)

/-- src/lmpa/simple_zk.rs:181-210 `test_lmpa_simple_zk_create_verify`. -/
def testSimple (cx : Ctx G) (fuel : Nat) (tape : Tape F) (pts : Tape G) : R Unit := do
  let n := 4
  let m := 4
  let (Gs, pts) := drawN n pts
  let (_, pts) := drawN n pts
  let (A, _) := randMatrix m n pts
  let (w, tape) := drawN n tape
  let t := matrixpointVectorMul A w
  let (proof, _, _) ← createSimple cx fuel (newTranscript "lmpa_simple_zk") tape A Gs w
  let (b, _) ← proof.verify cx fuel (newTranscript "lmpa_simple_zk") A Gs n t
  rassert (b = true)
  let (b, _) ← proof.verify cx fuel (newTranscript "lmpa_simple_zk") A Gs n t
  rassert (b = true)

/-- src/lmpa/simple_zk.rs:212-246 `test_lmpa_simple_zk_create_verify_efficient_communication`. -/
def testSimpleEfficient (cx : Ctx G) (fuel : Nat) (tape : Tape F) (pts : Tape G) : R Unit := do
  let n := 2
  let m := 4
  let (Gs, pts) := drawN n pts
  let (_, pts) := drawN n pts
  let (y, tape) := draw tape
  let Y ← vandemondeVector y m
  let (A, _) := randMatrix m n pts
  let AT ← matrixpointTranspose A
  let Aeff := [matrixpointVectorMul AT Y]
  let (w, tape) := drawN n tape
  let t := matrixpointVectorMul Aeff w
  let tT ← matrixpointTranspose [t]
  let teff := matrixpointVectorMul tT Y
  let (proof, _, _) ← createSimple cx fuel (newTranscript "lmpa_simple_zk") tape Aeff Gs w
  let (b, _) ← proof.verify cx fuel (newTranscript "lmpa_simple_zk") Aeff Gs n teff
  rassert (b = true)

/-- src/lmpa/simple_zk.rs:248-268 `test_commitment_combination`. -/
def testCommitmentCombination (tape : Tape F) (pts : Tape G) : R Unit := do
  let n := 1
  let (Gs, pts) := drawN n pts
  let (G0, _) := draw pts
  let (w1, tape) := draw tape
  let (w2, tape) := draw tape
  let (r1, tape) := draw tape
  let (r2, tape) := draw tape
  let c1 ← pedersenCommit G0 Gs [w1] r1
  let c2 ← pedersenCommit G0 Gs [w2] r2
  let (a1, tape) := draw tape
  let (a2, _) := draw tape
  let c ← pedersenCommit G0 Gs [w1 * a1 + w2 * a2] (r1 * a1 + r2 * a2)
  rassert (a1 • c1 + a2 • c2 = c)

/-- src/lmpa/simple_zk.rs:271-332 `test_lmpa_batch`. The argument `change` is applied to the target `u` before it
is given to the verifier (it is the identity in the code). -/
def testLmpaBatch (cx : Ctx G) (fuel : Nat) (change : List G → List G) (tape : Tape F) (pts : Tape G) :
    R Unit := do
  let n := 7
  let m := 4
  let (Gs, pts) := drawN n pts
  let (_, pts) := drawN n pts
  let (y, tape) := draw tape
  let Y ← vandemondeVector y m
  let (G0, pts) := draw pts
  let (A, _) := randMatrix m n pts
  let AT ← matrixpointTranspose A
  let ATY := matrixpointVectorMul AT Y
  let Aeff := [ATY]
  let (w, tape) := drawN n tape
  let (r_w, tape) := draw tape
  let c_w ← pedersenCommit G0 Gs w r_w
  let t := matrixpointVectorMul Aeff w
  let tT ← matrixpointTranspose [t]
  let teff := matrixpointVectorMul tT Y
  let B := [G0 :: Gs, 0 :: ATY]
  let u := c_w :: teff
  let newN := n + 1
  let newG ← idx B 0
  let (proof, _, _) ← createSimple cx fuel (newTranscript "lmpa_simple_zk") tape B newG (r_w :: w)
  let (b, _) ← proof.verify cx fuel (newTranscript "lmpa_simple_zk") B newG newN (change u)
  rassert (b = true)

end Qesa.Tests
