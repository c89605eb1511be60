import Verif.Model.MathUtils
import Verif.Model.Transcript
/- Model of src/ipa/no_zk.rs. -/
namespace Qesa.Ipa
open Qesa
variable {F G : Type} [Field F] [AddCommGroup G] [Module F G] [DecidableEq G]

/-- src/ipa/no_zk.rs:13-22 `NoZK`. -/
structure NoZK (F : Type) where
  L_vec : List Comp
  R_vec : List Comp
  a : F
  b : F
  deriving DecidableEq

/-- The loop `for i in 0..n { l[i] = f(l[i], r[i]) }` of src/ipa/no_zk.rs:91-96 for one of the four
vectors; reading `r[i]` panics when the right half is shorter than the left one. -/
def foldHalf {α : Type} (f : α → α → α) (l r : List α) : R (List α) :=
  if l.length ≤ r.length then .ok (List.zipWith f l r) else .error .indexOOB

/-- The loop src/ipa/no_zk.rs:61-102 with the final reads of lines 104-109.  The slices
`a, b, G, H` become lists; `L_vec.push` becomes consing onto what the later rounds produce.
`fuel` bounds the number of iterations; `create` passes enough for every input. -/
def createLoop (cx : Ctx G) (Q : G) : Nat → Nat → List F → List F → List G → List G →
    Transcript → R (NoZK F × Transcript)
  | 0, _, _, _, _, _, _ => .error .outOfFuel
  | fuel + 1, n, a, b, Gs, Hs, tr =>
    if n = 1 then do
      let a0 ← idx a 0
      let b0 ← idx b 0
      return (⟨[], [], a0, b0⟩, tr)
    else do
      let n := n / 2
      let (aL, aR) ← splitAtR a n
      let (bL, bR) ← splitAtR b n
      let (GL, GR) ← splitAtR Gs n
      let (HL, HR) ← splitAtR Hs n
      let cR := innerProduct aR bL
      let cL := innerProduct aL bR
      let L ← msm (aL ++ bR ++ [cL]) (GR ++ HL ++ [Q])
      let L := cx.compress L
      let R ← msm (aR ++ bL ++ [cR]) (GL ++ (HR ++ [Q]))
      let R := cx.compress R
      let tr := tr.appendMessage "L" L
      let tr := tr.appendMessage "R" R
      let (x, tr) := challengeScalar (F := F) cx.ro tr "x_i"
      let a ← foldHalf (fun l r => l * x + r) aL aR
      let b ← foldHalf (fun l r => l + x * r) bL bR
      let Gs ← foldHalf (fun l r => l + x • r) GL GR
      let Hs ← foldHalf (fun l r => x • l + r) HL HR
      let (p, tr) ← createLoop cx Q fuel n a b Gs Hs tr
      return (⟨L :: p.L_vec, R :: p.R_vec, p.a, p.b⟩, tr)

/-- src/ipa/no_zk.rs:28-110 `create`.  The redundant `assert_eq!(G.len(), n)` of line 44 and the
capacity hint `lg_n` are dropped. -/
def create (cx : Ctx G) (tr : Transcript) (Gs Hs : List G) (Q : G) (a b : List F) :
    R (NoZK F × Transcript) := do
  let n := Gs.length
  rassert (Hs.length = n)
  rassert (a.length = n)
  rassert (b.length = n)
  rassert (n.isPowerOfTwo)
  let tr := tr.appendU64 "n" n
  let (alpha, tr) := challengeScalar (F := F) cx.ro tr "alpha"
  let Q := alpha⁻¹ • Q
  createLoop cx Q n n a b Gs Hs tr

/-- src/ipa/no_zk.rs:161-173 `generate_challenges`: absorbs the pairs of the `zip`. -/
def generateChallenges (ro : Hash) : List Comp → List Comp → Transcript → List F × Transcript
  | L :: Ls, R :: Rs, tr =>
    let tr := tr.appendMessage "L" L
    let tr := tr.appendMessage "R" R
    let (x, tr) := challengeScalar (F := F) ro tr "x_i"
    let (xs, tr) := generateChallenges ro Ls Rs tr
    (x :: xs, tr)
  | _, _, tr => ([], tr)

/-- src/ipa/no_zk.rs:175-177 `vector_scalar_mul`. -/
def vectorScalarMul (v : List G) (c : F) : List G := v.map fun p => c • p

/-- src/ipa/no_zk.rs:178-180 `vector_vector_add`: `zip` stops at the shorter vector. -/
def vectorVectorAdd (a b : List G) : List G := List.zipWith (fun a b => a + b) a b

/-- The loop src/ipa/no_zk.rs:140-143 that folds the commitment. -/
def foldP : List G → List G → List F → G → G
  | L :: Ls, R :: Rs, x :: xs, P => foldP Ls Rs xs ((x * x) • L + x • P + R)
  | _, _, _, P => P

/-- The loop src/ipa/no_zk.rs:145-153 that folds the generators. -/
def foldGens : Nat → List G → List G → List F → R (List G × List G)
  | _, Gs, Hs, [] => .ok (Gs, Hs)
  | n, Gs, Hs, x :: xs => do
    let n := n / 2
    let (GL, GR) ← splitAtR Gs n
    let (HL, HR) ← splitAtR Hs n
    foldGens n (vectorVectorAdd GL (vectorScalarMul GR x))
      (vectorVectorAdd (vectorScalarMul HL x) HR) xs

/-- src/ipa/no_zk.rs:112-158 `NoZK::verify`.  Returns the verdict and the transcript. -/
def NoZK.verify (cx : Ctx G) (p : NoZK F) (tr : Transcript) (Gs Hs : List G) (Q : G) (n : Nat)
    (P : G) (t : F) : R (Bool × Transcript) := do
  let Ls ← p.L_vec.mapM fun c => unwrapR (cx.decompress c)
  let Rs ← p.R_vec.mapM fun c => unwrapR (cx.decompress c)
  let n' ← shl1 Ls.length
  rassert (n = n')
  let tr := tr.appendU64 "n" n'
  let (alpha, tr) := challengeScalar (F := F) cx.ro tr "alpha"
  let Q := alpha⁻¹ • Q
  let P := P - ((alpha - 1) * t) • Q
  let (xs, tr) := generateChallenges (F := F) cx.ro p.L_vec p.R_vec tr
  let P := foldP Ls Rs xs P
  let (Gs, Hs) ← foldGens n' Gs Hs xs
  let g0 ← idx Gs 0
  let h0 ← idx Hs 0
  let expP := p.a • g0 + p.b • h0 + (p.a * p.b) • Q
  return (decide (expP = P), tr)

end Qesa.Ipa
