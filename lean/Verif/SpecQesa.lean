import Mathlib.Data.Matrix.Mul
import Verif.SpecAlm
/-
Specification vocabulary for the arguments for quadratic equations: challenges, the batched system
and the bordered matrix.
-/
namespace Qesa.Spec
variable {F G : Type} [Field F]

/-- `vᵀ M v`. -/
def quad {m : Nat} (M : Matrix (Fin m) (Fin m) F) (v : Fin m → F) : F := ∑ i, ∑ j, v i * M i j * v j

/-- The system of equations batched with a challenge: the first `n` matrices, weighted with
`x, x², …`. -/
def batched {m k : Nat} (n : Nat) (Ms : Fin k → Matrix (Fin m) (Fin m) F) (x : F) :
    Matrix (Fin m) (Fin m) F :=
  ∑ i, if i.val < n then x ^ (i.val + 1) • Ms i else 0

/-- `M` with two more rows and columns, which are zero except for the entries `(m, m+1) ↦ -c` and
`(m+1, m) ↦ c`. -/
def bordered {m : Nat} (M : Matrix (Fin m) (Fin m) F) (c : F) :
    Matrix (Fin (m + 2)) (Fin (m + 2)) F :=
  Matrix.of fun i j =>
    if h : i.val < m ∧ j.val < m then M ⟨i, h.1⟩ ⟨j, h.2⟩
    else if i.val = m ∧ j.val = m + 1 then -c
    else if i.val = m + 1 ∧ j.val = m then c
    else 0

/-- The challenge `x` of a QESA argument that starts after `log` with commitment `c'`. -/
def qesaX (F : Type) [NatCast F] (ro : Hash) (log : List Event) (c' : Comp) : F :=
  squeeze F ro (log ++ [.msg "c_prime_w" c', .chal "x" 64])

/-- The challenge `s`. -/
def qesaS (F : Type) [NatCast F] (ro : Hash) (log : List Event) (c' c'' : Comp) : F :=
  squeeze F ro (log ++ [.msg "c_prime_w" c', .chal "x" 64, .msg "c_prime_prime_w" c'', .chal "s" 64])

/-- The challenge `b`. -/
def qesaB (F : Type) [NatCast F] (ro : Hash) (log : List Event) (c' c'' : Comp) : F :=
  squeeze F ro (log ++ [.msg "c_prime_w" c', .chal "x" 64, .msg "c_prime_prime_w" c'', .chal "s" 64,
    .chal "b" 64])

/-- What a QESA argument does to the transcript before the AlmZK argument. -/
def qesaHead (c' c'' c_w : Comp) : List Event :=
  [.msg "c_prime_w" c', .chal "x" 64, .msg "c_prime_prime_w" c'', .chal "s" 64, .chal "b" 64,
    .msg "c_w" c_w]

/-- `(y, y², …, yᵐ)`. -/
def powers (y : F) (m : Nat) : Fin m → F := fun i => y ^ (i.val + 1)

/-- The challenge vector `(s, s², …, sᵐ, b, b²)`. -/
def challengeVector (s b : F) (m : Nat) : List F := List.ofFn (powers s m) ++ [b, b ^ 2]

/-- The first masked vector of a QESA argument: `(w, r₀, r₁) - (s, …, sᵐ, b, b²)`. -/
def maskedWitness {m : Nat} (w : Fin m → F) (r0 r1 s b : F) : List F :=
  List.zipWith (fun a b => a - b) (List.ofFn w ++ [r0, r1]) (challengeVector s b m)

/-- The transposed bordered matrix applied to the challenge vector. -/
def challengeImage {m : Nat} (M : Matrix (Fin m) (Fin m) F) (s b : F) : List F :=
  List.ofFn (M.transpose.mulVec (powers s m)) ++ [b ^ 2, -b]

/-- The second masked vector: the bordered matrix applied to `(w, r₀, r₁)`, plus the transposed one
applied to the challenge vector. -/
def maskedImage {m : Nat} (M : Matrix (Fin m) (Fin m) F) (w : Fin m → F) (r0 r1 s b : F) : List F :=
  List.zipWith (fun a b => a + b) (List.ofFn (M.mulVec w) ++ [-r1, r0]) (challengeImage M s b)

/-- The generators with the first one divided by `β`. -/
def rescaled [AddCommGroup G] [Module F G] (β : F) (Gs : List G) : List G :=
  match Gs with
  | [] => []
  | g :: Gs => β⁻¹ • g :: Gs

end Qesa.Spec
