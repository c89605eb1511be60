import Verif.Model.MathUtils
/- Model of src/ipa/gramschmidt.rs. -/
namespace Qesa
variable {F : Type} [Field F] [DecidableEq F]

/-- The loop src/ipa/gramschmidt.rs:12-18: `while i <= n { r[i/2] = random; r[i/2+1] = random;
i = i*2 }`.  It starts with `i = 4`, so `i` doubles and `n` iterations are more than enough; the
fuel argument is never exhausted (`sampleLoop_fuel` in the proofs). -/
def sampleLoop (n : Nat) : Nat → Nat → List F → Tape F → R (List F × Tape F)
  | 0, _, _, _ => .error .outOfFuel
  | fuel + 1, i, r, tape =>
    if i ≤ n then do
      let (v, tape) := draw tape
      let r ← setIdx r (i / 2) v
      let (v, tape) := draw tape
      let r ← setIdx r (i / 2 + 1) v
      sampleLoop n fuel (i * 2) r tape
    else .ok (r, tape)

/-- src/ipa/gramschmidt.rs:4-26 `sample_m_n_plus`. -/
def sampleMNPlus (n : Nat) (tape : Tape F) : R (List F × Tape F) := do
  let r : List F := List.replicate n 0
  let (v, tape) := draw tape
  let r ← setIdx r 0 v
  let (v, tape) := draw tape
  let r ← setIdx r 1 v
  let (r, tape) ← sampleLoop n (n + 1) 4 r tape
  let (v, tape) := draw tape
  let i ← usub n 2
  let r ← setIdx r i v
  let (v, tape) := draw tape
  let i ← usub n 1
  let r ← setIdx r i v
  rassert (n = r.length)
  return (r, tape)

/-- src/ipa/gramschmidt.rs:31-44 `orth`; `Scalar::invert` of zero is zero, as `⁻¹` in a Lean
field. -/
def orth (a b : List F) : R (List F) := do
  let aa := innerProduct a a
  let ab := innerProduct a b
  rassert (0 ≠ ab)
  let x := ab * aa⁻¹
  let ax := a.map fun k => k * x
  return List.zipWith (fun r s => r - s) b ax

/-- src/ipa/gramschmidt.rs:48-51 `sample_gram_schmidt`. -/
def sampleGramSchmidt (a : List F) (tape : Tape F) : R (List F × Tape F) := do
  let (s, tape) ← sampleMNPlus a.length tape
  let o ← orth a s
  return (o, tape)

/-- src/ipa/gramschmidt.rs:56-61 `sample_gram_schmidt_twice`. -/
def sampleGramSchmidtTwice (a b : List F) (tape : Tape F) : R (List F × Tape F) := do
  let orthAB ← orth a b
  let (orthASample, tape) ← sampleGramSchmidt a tape
  let o ← orth orthAB orthASample
  return (o, tape)

end Qesa
