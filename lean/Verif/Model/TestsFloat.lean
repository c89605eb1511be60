import Verif.Model.Matrix
/- Model of the three tests of src/lmpa/no_zk.rs on `f64` numbers (lines 419-568 and 601-1006).

The number type is an arbitrary type `T` with the operations the tests use; `i as f64` and the
literals are casts of natural numbers.  Sizes are arguments; their values in the code are given at
each test.  `println!` is not modelled, `fuel` is as in `Model/Lmpa.lean`. -/
namespace Qesa.FloatTests
open Qesa
variable {T α : Type} [Add T] [Mul T] [Div T] [NatCast T]

/-- lines 464-475: the inner loop over `w_T` for the block `A_t` with number `i`.  `all` is the
condition `true` that replaces `l != shift` in lines 681 and 900; `get` is `w_vec[0]` in lines 467
and 682 and `w_vec` in line 901. -/
def uInner (all : Bool) (get : α → R (List T)) (t : List T) (shift i : Nat) (At : List (List T)) :
    Nat → List α → List (List T) → R (List (List T))
  | _, [], u => .ok u
  | j, wVec :: wT, u => do
    let l ← usub (shift + j) i
    let u ←
      if all ∨ l ≠ shift then do
        let w ← get wVec
        let ult := matrixVectorMulGeneral At w ((0 : ℕ) : T)
        let ul ← idx u l
        let s ← rowRowAddGeneral ul ult
        setIdx u l s
      else setIdx u l t
    uInner all get t shift i At (j + 1) wT u

/-- lines 463-478, 678-693, 897-912: the outer loop over `A_T`. -/
def uOuter (all : Bool) (get : α → R (List T)) (t : List T) (shift : Nat) (wT : List α) :
    Nat → List (List (List T)) → List (List T) → R (List (List T))
  | _, [], u => .ok u
  | i, At :: AT, u => do
    let u ← uInner all get t shift i At 0 wT u
    uOuter all get t shift wT (i + 1) AT u

/-- lines 500-508, 741-749, 934-942. -/
def zInner (shift i : Nat) (x : T) : Nat → List T → List T → R (List T)
  | _, [], z => .ok z
  | j, y :: ys, z => do
    let l ← usub (shift + j) i
    let z ← if l ≠ shift then setIdx z l (x * y) else .ok z
    zInner shift i x (j + 1) ys z

/-- lines 499-511, 740-752, 933-945. -/
def zOuter (shift : Nat) (ys : List T) : Nat → List T → List T → R (List T)
  | _, [], z => .ok z
  | i, x :: xs, z => do
    let z ← zInner shift i x 0 ys z
    zOuter shift ys (i + 1) xs z

/-- lines 516-528 and 531-543 (= 757-769 and 772-784, 950-962 and 965-981): the sum of
`A_T[i] * x_vec[i]`.  `acc` is the content of the vector `new_A` or `new_w`. -/
def combineM (AT : List (List (List T))) (xs : List T) :
    Nat → Nat → Option (List (List T)) → R (List (List T))
  | 0, _, acc => unwrapR acc
  | c + 1, i, acc => do
    let Ai ← idx AT i
    let xi ← idx xs i
    let tmp := matrixScalarMulGeneral Ai xi
    let new ←
      match acc with
      | none => .ok tmp
      | some a => matrixMatrixAddGeneral a tmp
    combineM AT xs c (i + 1) (some new)

/-- lines 546-557, 787-798, 984-995: the sum of `u_vec[i] * z_vec[i]`. -/
def combineV (u : List (List T)) (zs : List T) : Nat → Nat → Option (List T) → R (List T)
  | 0, _, acc => unwrapR acc
  | c + 1, i, acc => do
    let ui ← idx u i
    let zi ← idx zs i
    let tmp := vectorScalarMulGeneral ui zi
    let new ←
      match acc with
      | none => .ok tmp
      | some a => rowRowAddGeneral a tmp
    combineV u zs c (i + 1) (some new)

/-- `vec![vec![0.0; m]; vec_len]`. -/
def zeros (vecLen m : Nat) : List (List T) :=
  List.replicate vecLen (List.replicate m ((0 : ℕ) : T))

/-- lines 492-557, 733-798, 926-995: the vectors of powers, `z_vec`, and the folded `A`, `w`, `t`. -/
def fold (x : T) (k : Nat) (AT wT : List (List (List T))) (u : List (List T)) :
    R (List (List T) × List T × List T) := do
  let shift := k - 1
  let vecLen := 2 * shift + 1
  let xs ← vandemondeVectorGeneral x k ((1 : ℕ) : T)
  let ys ← vandemondeVectorGeneral (((1 : ℕ) : T) / x) k ((1 : ℕ) : T)
  let zs ← zOuter shift ys 0 xs (List.replicate vecLen ((1 : ℕ) : T))
  let A ← combineM AT xs k 0 none
  let wM ← combineM wT ys k 0 none
  let w ← unwrapR wM.getLast?
  let t ← combineV u zs vecLen 0 none
  return (A, w, t)

/-- lines 452-563: the loop of `test_lmpa_noZK_float`. -/
def foldLoop (x : T) (m k : Nat) : Nat → Nat → List (List T) → List T → List T →
    R (List (List T) × List T × List T)
  | 0, _, _, _, _ => .error .outOfFuel
  | fuel + 1, n, A, w, t =>
    if n < k then .ok (A, w, t)
    else if k = 0 then .error .divZero
    else do
      let chunkSize := n / k
      let AT ← matrixSplit A chunkSize
      let wT ← matrixSplit [w] chunkSize
      let u ← uOuter false (fun wVec => idx wVec 0) t (k - 1) wT 0 AT (zeros (2 * (k - 1) + 1) m)
      let (A, w, t) ← fold x k AT wT u
      foldLoop x m k fuel (n / k) A w t

/-- lines 447-566: the two vectors which `test_lmpa_noZK_float` compares. -/
def floatRun (fuel : Nat) (x : T) (n m k : Nat) (A : List (List T)) (w : List T) :
    R (List T × List T) := do
  let t := matrixVectorMulGeneral A w ((0 : ℕ) : T)
  let (A, w, t) ← foldLoop x m k fuel n A w t
  return (matrixVectorMulGeneral A w ((0 : ℕ) : T), t)

/-- `(a..a+n).map(|i| i as f64).collect()`. -/
def range (a n : Nat) : List T := (List.range n).map fun i => ((a + i : ℕ) : T)

/-- lines 437-442, 611-616, 833-838. -/
def rangeMatrix (m n : Nat) : List (List T) := (List.range m).map fun i => range (i * n) n

/-- lines 420-568 `test_lmpa_noZK_float`; `k`, `d`, `m` are 4, 3, 1. -/
def testFloat [DecidableEq T] (fuel k d m : Nat) : R Unit := do
  let n := k ^ d
  let (verifierT, t) ← floatRun fuel ((2 : ℕ) : T) n m k (rangeMatrix m n) (range 0 n)
  rassert (verifierT = t)

/-- lines 629-639 (= 851-861): the matrices `tmp` of which only row `i` is not zero. -/
def rowMatrices (m n : Nat) : Nat → Nat → R (List (List (List T)))
  | 0, _ => .ok []
  | c + 1, i => do
    let tmp ← setIdx (zeros m n) i (range (i * n) n)
    let rest ← rowMatrices m n c (i + 1)
    return tmp :: rest

/-- lines 654-658 (= 876-880): `t_expected`; the arguments are `t_all` and `x_challenge_vec`. -/
def sumTargets : List (List T) → List T → List T → R (List T)
  | t :: ts, x :: xs, acc => do
    let acc ← rowRowAddGeneral acc (vectorScalarMulGeneral t x)
    sumTargets ts xs acc
  | _, _, acc => .ok acc

/-- lines 610-659 (= 832-881): `H`, `w_all` and `t_expected`. -/
def almData (n m : Nat) : R (List (List (List T)) × List (List T) × List T) := do
  let tmps ← rowMatrices m n m 0
  let H : List (List (List T)) := rangeMatrix m n :: tmps
  let r : List (List T) := range 0 n :: (List.range m).map fun i => range i n
  let tAll := List.zipWith (fun h v => matrixVectorMulGeneral h v ((0 : ℕ) : T)) H r
  let xs : List T := range 2 (m + 1)
  let wAll := List.zipWith (fun v x => vectorScalarMulGeneral v x) r xs
  let t ← sumTargets tAll xs (List.replicate m ((0 : ℕ) : T))
  return (H, wAll, t)

/-- lines 669-703: the inner loop of the first pass; the messages pushed to `u_block`. -/
def messageLoop (m k : Nat) (t : List T) (A : List (List T)) (w : List T) :
    Nat → Nat → R (List (List (List T)))
  | 0, _ => .error .outOfFuel
  | fuel + 1, n =>
    if n < k then .ok []
    else if k = 0 then .error .divZero
    else do
      let chunkSize := n / k
      let AT ← matrixSplit A chunkSize
      let wT ← matrixSplit [w] chunkSize
      let u ← uOuter true (fun wVec => idx wVec 0) t (k - 1) wT 0 AT (zeros (2 * (k - 1) + 1) m)
      let rest ← messageLoop m k t A w fuel (n / k)
      return u :: rest

/-- lines 666-707: the first pass. -/
def messages (fuel n m k : Nat) (t : List T) (wAll : List (List T)) :
    Nat → List (List (List T)) → R (List (List (List T)))
  | _, [] => .ok []
  | mIndex, h :: H => do
    let w ← idx wAll mIndex
    let us ← messageLoop m k t h w fuel n
    let rest ← messages fuel n m k t wAll (mIndex + 1) H
    return us ++ rest

/-- lines 709-712. -/
def sumMessages : List (List (List T)) → List (List T) → R (List (List T))
  | [], acc => .ok acc
  | u :: us, acc => do
    let acc ← matrixMatrixAddGeneral acc u
    sumMessages us acc

/-- lines 721-804: the inner loop of the second pass. -/
def foldAllLoop (x : T) (k : Nat) (uAll : List (List T)) : Nat → Nat → List (List T) → List T →
    List T → R (List (List T) × List T × List T)
  | 0, _, _, _, _ => .error .outOfFuel
  | fuel + 1, n, A, w, t =>
    if n < k then .ok (A, w, t)
    else if k = 0 then .error .divZero
    else do
      let chunkSize := n / k
      let AT ← matrixSplit A chunkSize
      let wT ← matrixSplit [w] chunkSize
      let (A, w, t) ← fold x k AT wT uAll
      foldAllLoop x k uAll fuel (n / k) A w t

/-- lines 718-810: the second pass; the pairs of `proof_A_vec` and `proof_w_vec`, and `t`. -/
def foldAll (fuel n : Nat) (x : T) (k : Nat) (uAll : List (List T)) (wAll : List (List T)) :
    Nat → List (List (List T)) → List T → R (List (List (List T) × List T) × List T)
  | _, [], t => .ok ([], t)
  | mIndex, h :: H, t => do
    let w ← idx wAll mIndex
    let (A, w, t) ← foldAllLoop x k uAll fuel n h w t
    let (rest, t) ← foldAll fuel n x k uAll wAll (mIndex + 1) H t
    return ((A, w) :: rest, t)

/-- lines 813-817. -/
def sumProducts : List (List (List T) × List T) → List T → R (List T)
  | [], acc => .ok acc
  | (a, b) :: ps, acc => do
    let acc ← rowRowAddGeneral acc (matrixVectorMulGeneral a b ((0 : ℕ) : T))
    sumProducts ps acc

/-- lines 661-819: the two vectors which `test_lmpa_almSnd_float_1` compares; the arguments are `H`,
`w_all` and `t_expected`. -/
def alm1Run (fuel : Nat) (x : T) (n m k : Nat) (H : List (List (List T))) (wAll : List (List T))
    (t : List T) : R (List T × List T) := do
  let us ← messages fuel n m k t wAll 0 H
  let uAll ← sumMessages us (zeros (2 * (k - 1) + 1) m)
  let (ps, t) ← foldAll fuel n x k uAll wAll 0 H t
  let verifierT ← sumProducts ps (List.replicate m ((0 : ℕ) : T))
  return (verifierT, t)

/-- lines 602-821 `test_lmpa_almSnd_float_1`; `k`, `d`, `m` are 7, 1, 3. -/
def testAlm1 [DecidableEq T] (fuel k d m : Nat) : R Unit := do
  let n := k ^ d
  let (H, wAll, t) ← almData (T := T) n m
  let (verifierT, t) ← alm1Run fuel ((2 : ℕ) : T) n m k H wAll t
  rassert (verifierT = t)

/-- lines 886-1001: the loop of `test_lmpa_almSnd_float_2`. -/
def alm2Loop (x : T) (m k : Nat) (H : List (List (List T))) (wAll : List (List T)) : Nat → Nat →
    List (List T) → List T → List T → R (List (List T) × List T × List T)
  | 0, _, _, _, _ => .error .outOfFuel
  | fuel + 1, n, A, w, t =>
    if n < k then .ok (A, w, t)
    else if k = 0 then .error .divZero
    else do
      let u ← uOuter true (fun wVec => .ok wVec) t (k - 1) wAll 0 H (zeros (2 * (k - 1) + 1) m)
      let (A, w, t) ← fold x k H (wAll.map fun w => [w]) u
      alm2Loop x m k H wAll fuel (n / k) A w t

/-- lines 883-1004: the two vectors which `test_lmpa_almSnd_float_2` compares; `A` and `w` are the
values of these variables before the loop. -/
def alm2Run (fuel : Nat) (x : T) (n m : Nat) (H : List (List (List T))) (wAll : List (List T))
    (A : List (List T)) (w t : List T) : R (List T × List T) := do
  let (A, w, t) ← alm2Loop x m (m + 1) H wAll fuel (n + m * n) A w t
  return (matrixVectorMulGeneral A w ((0 : ℕ) : T), t)

/-- lines 824-1006 `test_lmpa_almSnd_float_2`; `k`, `d`, `m` are 4, 1, 3. -/
def testAlm2 [DecidableEq T] (fuel k d m : Nat) : R Unit := do
  let n := k ^ d
  let (H, wAll, t) ← almData (T := T) n m
  let (verifierT, t) ← alm2Run fuel ((2 : ℕ) : T) n m H wAll (rangeMatrix m n) (range 0 n) t
  rassert (verifierT = t)

end Qesa.FloatTests
