import Verif.Model.QesaInner
/- Model of src/copy/mapping.rs and src/copy/copy.rs. -/
namespace Qesa.Copy
open Qesa
variable {F G : Type} [Field F] [DecidableEq F] [AddCommGroup G] [Module F G] [DecidableEq G]

/-- `BTreeSet<u16>::insert`: a set is the list of its elements in increasing order. -/
def setInsert (x : Nat) : List Nat → List Nat
  | [] => [x]
  | y :: ys => if x < y then x :: y :: ys else if x = y then y :: ys else y :: setInsert x ys

/-- `iter.collect::<BTreeSet<u16>>()`. -/
def setCollect (l : List Nat) : List Nat := l.foldl (fun s x => setInsert x s) []

/-- src/copy/mapping.rs:31-47 `commit`.  `indices` is a `BTreeSet<u16>`: an increasing list. -/
def commit (Gs : List G) (indices : List Nat) (msg : List F) (rand : F) : R G := do
  rassert (indices.length = msg.length)
  let points ← indices.mapM fun i => idx Gs i
  let commitment ← msm msg points
  let last ← unwrapR Gs.getLast?
  return commitment + rand • last

/-- src/copy/mapping.rs:58-63 `MessageMap`. -/
structure MessageMap where
  msg_id : Nat
  commitment_index : Nat
  commitment_crs_id : Nat
  position_in_witness : Nat
  deriving DecidableEq, Repr

/-- src/copy/mapping.rs:49-54 `Mapping`. -/
structure Mapping where
  num_commitments : Nat
  msgs_map : List MessageMap
  unique_commitment_indices : List Nat
  last_index : Nat
  deriving DecidableEq, Repr

/-- src/copy/mapping.rs:117-119: write the available positions into the message maps (`zip`). -/
def assignPositions : List MessageMap → List Nat → List MessageMap
  | m :: ms, p :: ps => { m with position_in_witness := p } :: assignPositions ms ps
  | ms, _ => ms

/-- src/copy/mapping.rs:123-128: `msgs_map_iter.next().unwrap().commitment_index = *index` over the
indices of all sets, in order. -/
def assignIndices : List MessageMap → List Nat → R (List MessageMap)
  | ms, [] => .ok ms
  | [], _ :: _ => .error .unwrapNone
  | m :: ms, i :: is => do
    let rest ← assignIndices ms is
    return { m with commitment_index := i } :: rest

/-- src/copy/mapping.rs:132-137: the same loop writing `crs_id as u16`. The argument lists, for each
message in order, the number of its set. -/
def assignCrs : List MessageMap → List Nat → R (List MessageMap)
  | ms, [] => .ok ms
  | [], _ :: _ => .error .unwrapNone
  | m :: ms, c :: cs => do
    let rest ← assignCrs ms cs
    return { m with commitment_crs_id := asU16 c } :: rest

/-- For every index of every set, the number of the set (`for (crs_id, set) in sets.enumerate()
{ for _ in set { .. } }`, src/copy/mapping.rs:133-134), starting at `c`. -/
def crsIds : Nat → List (List Nat) → List Nat
  | _, [] => []
  | c, s :: ss => List.replicate s.length c ++ crsIds (c + 1) ss

/-- src/copy/mapping.rs:64-145 `compute_mapping`.  `n` and `witness_size` are truncated to `u16`;
the call `unique_indices.contains(&0)` of line 81 has no effect and is omitted. -/
def computeMapping (n witnessSize : Nat) (sets : List (List Nat)) : R Mapping := do
  let n := asU16 n
  let numCommitments := sets.length
  let unique := setCollect sets.flatten
  let totalMessages := (sets.map List.length).sum
  let position := asU16 witnessSize
  let stop ← usub n 2
  let available :=
    (((List.range' position (stop - position)).filter fun x => !unique.contains x).take
      totalMessages)
  let lastIndex ← unwrapR available.getLast?
  rassert (totalMessages = available.length)
  let msgs := (List.range totalMessages).map fun i => (⟨i, 0, 0, 0⟩ : MessageMap)
  let msgs := assignPositions msgs available
  let msgs ← assignIndices msgs sets.flatten
  let msgs ← assignCrs msgs (crsIds 0 sets)
  return ⟨numCommitments, msgs, unique, lastIndex⟩

/-- src/copy/copy.rs:18-21 `Copy`. -/
structure Proof (F : Type) where
  C_w : Comp
  inner : Inner.Proof F
  deriving DecidableEq

/-- src/copy/copy.rs:63-65: place the messages. -/
def placeMessages : List F → List MessageMap → List F → R (List F)
  | msg :: msgs, m :: ms, w' => do
    let w' ← setIdx w' m.position_in_witness msg
    placeMessages msgs ms w'
  | _, _, w' => .ok w'

/-- src/copy/copy.rs:93-109: `w_prime[commitment_index] += w_prime[position] * alpha[crs_id]`. -/
def aggregate (alphas : List F) : List MessageMap → List F → R (List F)
  | [], w' => .ok w'
  | m :: ms, w' => do
    let msg ← idx w' m.position_in_witness
    let alpha ← idx alphas m.commitment_crs_id
    let old ← idx w' m.commitment_index
    let w' ← setIdx w' m.commitment_index (old + msg * alpha)
    aggregate alphas ms w'

/-- src/copy/copy.rs:131-135 (= 208-212): write the challenges into the equation. -/
def fillEqn (alphas : List F) : List MessageMap → List F → R (List F)
  | [], e => .ok e
  | m :: ms, e => do
    let alpha ← idx alphas m.commitment_crs_id
    let e ← setIdx e m.position_in_witness alpha
    fillEqn alphas ms e

/-- src/copy/copy.rs:119-144 (= 197-220): the copy matrix of one commitment index.  `k = n - 2`.
The loop `while matrix.len() != n - 2 { push zeroes }` starts with one row and `k ≥ 1` (the write
to `new_eqn` has succeeded), so it appends `k - 1` rows. -/
def copyMatrix (k : Nat) (alphas : List F) (msgsMap : List MessageMap) (ci : Nat) :
    R (List (List F)) := do
  let eqn ← setIdx (List.replicate k (0 : F)) ci (-1)
  let eqn ← fillEqn alphas (msgsMap.filter fun m => m.commitment_index == ci) eqn
  return eqn :: List.replicate (k - 1) (List.replicate k 0)

/-- src/copy/copy.rs:118-148 (= 196-224): push the copy matrices of all commitment indices. -/
def pushCopyMatrices (k : Nat) (alphas : List F) (msgsMap : List MessageMap) :
    List Nat → BlockMatrix F → R (BlockMatrix F)
  | [], gamma => .ok gamma
  | ci :: cis, gamma => do
    let m ← copyMatrix k alphas msgsMap ci
    pushCopyMatrices k alphas msgsMap cis (gamma.push m)

/-- src/copy/copy.rs:23-161 `create`. -/
def create (cx : Ctx G) (tr : Transcript) (tape : Tape F) (Gs Hs : List G) (Q : G) (map : Mapping)
    (gammaI : BlockMatrix F) (w : List F) (openings : List (List F × F)) :
    R (Proof F × Transcript × Tape F) := do
  let n := Gs.length
  rassert (map.num_commitments = openings.length)
  let w0 ← idx w 0
  rassert (w0 = 1)
  let k ← usub n 2
  let padBy ← usub k w.length
  let w := w ++ List.replicate padBy 0
  let (r', tape) := drawN 2 tape
  let w' := w ++ r'
  let allMessages := (openings.map fun o => o.1).flatten
  let w' ← placeMessages allMessages map.msgs_map w'
  let C_w ← msm w' Gs
  let tr := tr.appendMessage "c_w" (cx.compress C_w)
  let (alpha, tr) := challengeScalar (F := F) cx.ro tr "alpha"
  let alphas ← vandemondeChallenge alpha openings.length
  let allRand := openings.map fun o => o.2
  let aggregatedRand := (List.zipWith (fun rnd alpha => rnd * alpha) allRand alphas).sum
  let i ← usub n 1
  let old ← idx w' i
  let w' ← setIdx w' i (old + aggregatedRand)
  let w' ← aggregate alphas map.msgs_map w'
  let gammaI ← pushCopyMatrices k alphas map.msgs_map map.unique_commitment_indices gammaI
  let (w, r') ← splitAtR w' k
  let (p, tr, tape) ← Inner.create cx tr tape Gs Hs Q gammaI w r'
  return (⟨cx.compress C_w, p⟩, tr, tape)

/-- src/copy/copy.rs:164-234 `Copy::verify`. -/
def Proof.verify (cx : Ctx G) (p : Proof F) (tr : Transcript) (Gs Hs : List G) (Q : G)
    (gammaI : BlockMatrix F) (map : Mapping) (commitments : List G) :
    R (Bool × Transcript) := do
  let n := Gs.length
  let tr := tr.appendMessage "c_w" p.C_w
  let (alpha, tr) := challengeScalar (F := F) cx.ro tr "alpha"
  let alphas ← vandemondeChallenge alpha commitments.length
  let commitment := (List.zipWith (fun (alpha : F) (c : G) => alpha • c) alphas commitments).sum
  let C_w ← unwrapR (cx.decompress p.C_w)
  let commitment := commitment + C_w
  let k ← usub n 2
  let gammaI ← pushCopyMatrices k alphas map.msgs_map map.unique_commitment_indices gammaI
  let proofInner : Inner.Proof F :=
    ⟨p.inner.alm_zk, cx.compress commitment, p.inner.c_prime_prime_w⟩
  proofInner.verify cx tr Gs Hs Q gammaI

end Qesa.Copy
