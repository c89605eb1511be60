import Verif.Model.MathUtils
/- Model of src/matrix.rs.  A matrix is the list of its rows; rows may be ragged, as in Rust. -/
namespace Qesa
variable {F G T : Type}

/-- Runs `f` on the pairs of a `zip`, collecting the results; the first panic wins. -/
def zipWithR {α β γ : Type} (f : α → β → R γ) : List α → List β → R (List γ)
  | a :: as, b :: bs => do
    let c ← f a b
    let cs ← zipWithR f as bs
    return c :: cs
  | _, _ => .ok []

/-- src/matrix.rs:11-16 `matrix_scalar_mul`. -/
def matrixScalarMul [Mul F] (m : List (List F)) (x : F) : List (List F) :=
  m.map fun row => row.map fun e => e * x

/-- src/matrix.rs:19-21 `matrix_vector_mul`. -/
def matrixVectorMul [Mul F] [Add F] [Zero F] (m : List (List F)) (v : List F) : List F :=
  m.map fun row => innerProduct row v

/-- src/matrix.rs:25-29 `row_row_add`. -/
def rowRowAdd [Add F] (a b : List F) : R (List F) := do
  rassert (a.length = b.length)
  return List.zipWith (fun a b => a + b) a b

/-- src/matrix.rs:33-37 `row_row_sub`. -/
def rowRowSub [Sub F] (a b : List F) : R (List F) := do
  rassert (a.length = b.length)
  return List.zipWith (fun a b => a - b) a b

/-- src/matrix.rs:41-48 `matrix_matrix_add`. -/
def matrixMatrixAdd [Add F] (A B : List (List F)) : R (List (List F)) := do
  rassert (A.length = B.length)
  zipWithR (fun a b => rowRowAdd a b) A B

/-- The inner loop `for (i, element) in row { transpose[i].push(element) }` of
src/matrix.rs:55-57, 278-280 and 298-301: element `i` of the row goes to the end of column `i`;
indexing panics when the row is longer than the list of columns. -/
def pushRow {α : Type} : List (List α) → List α → R (List (List α))
  | cols, [] => .ok cols
  | [], _ :: _ => .error .indexOOB
  | c :: cols, e :: row => do
    let cols ← pushRow cols row
    return (c ++ [e]) :: cols

/-- The outer loop `for row in matrix` of the same places. -/
def pushRows {α : Type} : List (List α) → List (List α) → R (List (List α))
  | cols, [] => .ok cols
  | cols, row :: rows => do
    let cols ← pushRow cols row
    pushRows cols rows

/-- src/matrix.rs:51-61 `matrix_transpose`; `matrix[0]` panics on an empty matrix. -/
def matrixTranspose (m : List (List F)) : R (List (List F)) := do
  let row0 ← idx m 0
  pushRows (List.replicate row0.length []) m

/-- src/matrix.rs:63-65 `BlockMatrix`. -/
structure BlockMatrix (F : Type) where
  block : List (List (List F))

/-- src/matrix.rs:68-70 `BlockMatrix::new`. -/
def BlockMatrix.new : BlockMatrix F := ⟨[]⟩

/-- src/matrix.rs:71-73 `BlockMatrix::push`. -/
def BlockMatrix.push (b : BlockMatrix F) (m : List (List F)) : BlockMatrix F := ⟨b.block ++ [m]⟩

/-- src/matrix.rs:74-79 `BlockMatrix::with`. -/
def BlockMatrix.with (m : List (List F)) : BlockMatrix F := (⟨[]⟩ : BlockMatrix F).push m

/-- The loop src/matrix.rs:93-95: `sum_block = matrix_matrix_add(&sum_block, &block_challenge[i])`
for `i = 1..`. -/
def sumBlocks [Add F] : List (List F) → List (List (List F)) → R (List (List F))
  | acc, [] => .ok acc
  | acc, m :: ms => do
    let acc ← matrixMatrixAdd acc m
    sumBlocks acc ms

/-- src/matrix.rs:82-98 `block_matrix_batch`; `zip` drops the matrices beyond the challenges,
`block_challenge[0]` panics when there is none. -/
def BlockMatrix.batch [Mul F] [Add F] (b : BlockMatrix F) (challenges : List F) :
    R (List (List F)) :=
  match List.zipWith (fun m c => matrixScalarMul m c) b.block challenges with
  | [] => .error .indexOOB
  | m :: ms => sumBlocks m ms

/-- src/matrix.rs:105-113 `matrixpoint_scalar_mul`. -/
def matrixpointScalarMul [SMul F G] (m : List (List G)) (x : F) : List (List G) :=
  m.map fun row => row.map fun e => x • e

/-- src/matrix.rs:126-129: the loop `ip = ip + val`. -/
def sumFrom [Add G] (ip : G) (vals : List G) : G := vals.foldl (fun ip v => ip + v) ip

/-- src/matrix.rs:116-134 `matrixpoint_vector_mul`. -/
def matrixpointVectorMul [SMul F G] [Zero G] [Add G] (m : List (List G)) (v : List F) : List G :=
  m.map fun row => sumFrom 0 (List.zipWith (fun a b => b • a) row v)

/-- src/matrix.rs:139-161 `matrix_vector_mul_general`. -/
def matrixVectorMulGeneral [Mul T] [Add T] (m : List (List T)) (v : List T) (identity : T) :
    List T :=
  m.map fun row => sumFrom identity (List.zipWith (fun a b => a * b) row v)

/-- src/matrix.rs:166-177 `matrix_scalar_mul_general`. -/
def matrixScalarMulGeneral [Mul T] (m : List (List T)) (x : T) : List (List T) :=
  m.map fun row => row.map fun e => e * x

/-- src/matrix.rs:182-193 `vector_scalar_mul_general`. -/
def vectorScalarMulGeneral [Mul T] (v : List T) (x : T) : List T := v.map fun e => e * x

/-- src/matrix.rs:197-206 `vectorpoint_scalar_mul`. -/
def vectorpointScalarMul [SMul F G] (v : List G) (x : F) : List G := v.map fun e => x • e

/-- src/matrix.rs:211-219 `row_row_add_general`. -/
def rowRowAddGeneral [Add T] (a b : List T) : R (List T) := do
  rassert (a.length = b.length)
  return List.zipWith (fun a b => a + b) a b

/-- src/matrix.rs:224-234 `matrix_matrix_add_general`. -/
def matrixMatrixAddGeneral [Add T] (A B : List (List T)) : R (List (List T)) := do
  rassert (A.length = B.length)
  zipWithR (fun a b => rowRowAddGeneral a b) A B

/-- src/matrix.rs:238-245 `rowpoint_rowpoint_add`. -/
def rowpointRowpointAdd [Add G] (a b : List G) : R (List G) := do
  rassert (a.length = b.length)
  return List.zipWith (fun a b => a + b) a b

/-- src/matrix.rs:248-258 `matrixpoint_matrix_add`. -/
def matrixpointMatrixAdd [Add G] (A B : List (List G)) : R (List (List G)) := do
  rassert (A.length = B.length)
  zipWithR (fun a b => rowpointRowpointAdd a b) A B

/-- src/matrix.rs:261-283 `matrixpoint_transpose`. -/
def matrixpointTranspose (m : List (List G)) : R (List (List G)) := do
  rassert (0 < m.length)
  let row0 ← idx m 0
  pushRows (List.replicate row0.length []) m

/-- `row.chunks(c)` (std) for `c > 0`: consecutive pieces of length `c`, the last may be shorter.
The first argument bounds the number of pieces; `row.length` is enough. -/
def chunksAux {α : Type} (c : Nat) : Nat → List α → List (List α)
  | 0, _ => []
  | _ + 1, [] => []
  | f + 1, a :: l => (a :: l).take c :: chunksAux c f ((a :: l).drop c)

def chunks {α : Type} (c : Nat) (row : List α) : List (List α) := chunksAux c row.length row

/-- src/matrix.rs:285-305 `matrix_split`; `n % chunk_size` panics for `chunk_size = 0`. -/
def matrixSplit (m : List (List T)) (chunkSize : Nat) : R (List (List (List T))) := do
  rassert (0 < m.length)
  let row0 ← idx m 0
  let n := row0.length
  if chunkSize = 0 then .error .divZero
  rassert (n % chunkSize = 0)
  pushRows (List.replicate (n / chunkSize) []) (m.map fun row => chunks chunkSize row)

/-- src/matrix.rs:324-332 `vandemonde_vector`. -/
def vandemondeVector [Mul F] [One F] (x : F) (n : Nat) : R (List F) := do
  let k ← usub n 1
  return 1 :: powersLoop x k 1

/-- src/matrix.rs:334-345 `vandemonde_vector_general`. -/
def vandemondeVectorGeneral [Mul T] (x : T) (n : Nat) (one : T) : R (List T) := do
  let k ← usub n 1
  return one :: powersLoop x k one

/-- src/matrix.rs:309-322 `vandemonde_matrix`. -/
def vandemondeMatrix [Mul F] [One F] (m n : Nat) (tape : Tape F) : R (List (List F) × Tape F) :=
  match m with
  | 0 => .ok ([], tape)
  | m + 1 => do
    let (c, tape) := draw tape
    let a ← vandemondeVector c n
    let (rest, tape) ← vandemondeMatrix m n tape
    return (a :: rest, tape)

/-- src/matrix.rs:347-359 `rand_matrix`: the points are drawn row by row. -/
def randMatrix (m n : Nat) (tape : Tape G) : List (List G) × Tape G :=
  match m with
  | 0 => ([], tape)
  | m + 1 =>
    let (a, tape) := drawN n tape
    let (rest, tape) := randMatrix m n tape
    (a :: rest, tape)

end Qesa
