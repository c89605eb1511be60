import Mathlib.Algebra.Module.Defs
import Mathlib.Algebra.Field.Defs
import Verif.Model.Basic
/- Model of src/math_utils.rs, and of `vartime_multiscalar_mul` of curve25519-dalek. -/
namespace Qesa
variable {F G : Type}

/-- src/math_utils.rs:4-6 `inner_product`: `zip` stops at the shorter slice. -/
def innerProduct [Mul F] [Add F] [Zero F] (a b : List F) : F :=
  (List.zipWith (fun a b => a * b) a b).sum

/-- The loop `for i in 0..n-1 { challenges.push(challenges[i] * x) }` of
src/math_utils.rs:16-18, src/matrix.rs:327-329 and src/matrix.rs:340-342: `challenges[i]` is the
element pushed last, so the loop carries that element (`last`). Returns the pushed elements. -/
def powersLoop [Mul F] (x : F) : Nat → F → List F
  | 0, _ => []
  | k + 1, last => (last * x) :: powersLoop x k (last * x)

/-- src/math_utils.rs:13-20 `vandemonde_challenge`; `n - 1` underflows for `n = 0`. -/
def vandemondeChallenge [Mul F] (x : F) (n : Nat) : R (List F) := do
  let k ← usub n 1
  return x :: powersLoop x k x

/-- `RistrettoPoint::vartime_multiscalar_mul` (curve25519-dalek): asserts that the two iterators
have the same length, returns `∑ sᵢ • pᵢ`. -/
def msm [Zero G] [Add G] [SMul F G] (s : List F) (p : List G) : R G := do
  rassert (s.length = p.length)
  return (List.zipWith (fun s p => s • p) s p).sum

end Qesa
