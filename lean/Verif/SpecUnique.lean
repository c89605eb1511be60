import Verif.SpecQesaSound
import Verif.Model.IpaAlmZk
/-
The relation between two different final messages.
-/
namespace Qesa.Spec
variable {F : Type} [Field F]

/-- The coefficients of `combined`, as a list of length `N`. -/
def spread (w : Nat → F) (k r N : Nat) : List F :=
  List.ofFn fun i : Fin N =>
    if i.val % 2 ^ (k - r) = 0 ∧ i.val / 2 ^ (k - r) < 2 ^ r then w (i.val / 2 ^ (k - r)) else 0

/-- The relation read off from two final messages `(a, b)`, `(a', b')` of the inner-product argument after the
challenges `α` and `xs`; `k` and `r` are the numbers of points `L` and of rounds, `N` and `N'` the numbers of
generators. -/
def finalRelation (α : F) (xs : List F) (k r N N' : Nat) (a b a' b' : F) : List F × List F × F :=
  ((spread (weightG xs) k r N).map fun y => y * (a - a'), (spread (weightH xs) k r N').map fun y => y * (b - b'),
    (a * b - a' * b') * α⁻¹)

section
variable {G : Type} [AddCommGroup G] [Module F G]

/-- The relation read off from two proofs of AlmZK after `log` that differ in their last messages only. -/
def almRelation (cx : Ctx G) (log : List Event) (Q : G) (n : Nat) (C_w : G) (t : F) (C_r : G) (N N' : Nat)
    (p p' : Ipa.AlmZK F) : List F × List F × F :=
  let β := almBeta F cx.ro log p.C_r
  let log' := log ++ almHead p.C_r (cx.compress (β • C_w + C_r + (β * β * t) • Q))
  finalRelation (ipaAlpha F cx.ro log' n) (ipaChallenges F cx.ro log' n p.NoZK.L_vec p.NoZK.R_vec)
    p.NoZK.L_vec.length (min p.NoZK.L_vec.length p.NoZK.R_vec.length) N N' p.NoZK.a p.NoZK.b p'.NoZK.a p'.NoZK.b

/-- The relation read off from two proofs of QESA. -/
def qesaRelation {m k : Nat} (cx : Ctx G) (log : List Event) (Gs Hs : List G) (Q : G)
    (Ms : Fin (k + 1) → Matrix (Fin m) (Fin m) F) (C' C'' C_r : G) (p p' : Ipa.AlmZK F) : List F × List F × F :=
  let c' := cx.compress C'
  let c'' := cx.compress C''
  let x := qesaX F cx.ro log c'
  let s := qesaS F cx.ro log c' c''
  let b := qesaB F cx.ro log c' c''
  let M := batched (m + 2) Ms x
  let C_w := C' - ((x ^ 2 - 1) * (x ^ 2)⁻¹) • Gs.headD 0 + C'' + dot (challengeImage M s b) Hs -
    dot (challengeVector s b m) (rescaled (x ^ 2) Gs)
  unscale (x ^ 2) (almRelation cx (log ++ qesaHead c' c'' (cx.compress C_w)) Q (m + 2) C_w
    (- quad M (powers s m)) C_r Gs.length Hs.length p p')

end
end Qesa.Spec
