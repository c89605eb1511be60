import Mathlib.Algebra.Module.LinearMap.Defs
import Mathlib.Algebra.Module.Prod
import Mathlib.Algebra.BigOperators.Pi
import Mathlib.Tactic.Abel
import Verif.SpecOracle
import Verif.SpecQesaSound
import Verif.Model.QesaInner
/-
Algebraic algorithms: beside every point in a query they write down a representation of it, an element of
a module `V` with a linear map to the points. In the algebraic group model `V` consists of the coefficients
with respect to the generators; with `V` the points themselves every algorithm is algebraic.
-/
namespace Qesa.Spec
variable {F G V : Type}

/-- An event of the transcript and, if it carries a point, the representation of the point. -/
abbrev Note (V : Type) := Event × Option V

/-- The bytes of the events in which a prover sends a point. -/
def pointBytes : Event → Option Comp
  | .msg l d => if l ∈ ["c_w", "c_prime_w", "c_prime_prime_w", "C_r", "L", "R", "a"] then some d else none
  | .chal _ _ => none

/-- The note is a representation of the point, if there is one. -/
def Truthful (cd : Codec G) (ev : V → G) (e : Note V) : Prop :=
  match (pointBytes e.1).bind cd.decompress with
  | some p => ∃ r, e.2 = some r ∧ ev r = p
  | none => e.2 = none

/-- The representations in a list of queries. -/
def notes (ls : List (List (Note V))) : List V := ls.flatMap fun l => l.filterMap Prod.snd

/-- What one round of the inner-product argument appends to the transcript, with notes. -/
def roundNotes (cmp : G → Comp) (ev : V → G) (L R : V) : List (Note V) :=
  [(.msg "L" (cmp (ev L)), some L), (.msg "R" (cmp (ev R)), some R), (.chal "x_i" 64, none)]

/-- What AlmZK appends to the transcript before the challenge `beta`, with notes. -/
def betaNotes (cmp : G → Comp) (ev : V → G) (C_r : V) : List (Note V) :=
  [(.msg "C_r" (cmp (ev C_r)), some C_r), (.chal "beta" 64, none)]

/-- The transcript without notes. -/
def plain (log : List Event) : List (Note V) := log.map fun e => (e, none)

/-- The histories out of which the challenges of the rounds are squeezed. -/
def roundQueries (cmp : G → Comp) (ev : V → G) (log : List (Note V)) :
    List V → List V → List (List (Note V))
  | L :: Ls, R :: Rs => (log ++ roundNotes cmp ev L R) ::
      roundQueries cmp ev (log ++ roundNotes cmp ev L R) Ls Rs
  | _, _ => []

/-- The histories out of which the challenges of an inner-product argument of size `n` are squeezed. -/
def ipaQueries (cmp : G → Comp) (ev : V → G) (log : List (Note V)) (n : Nat) (Ls Rs : List V) :
    List (List (Note V)) :=
  (log ++ plain (headLog n)) :: roundQueries cmp ev (log ++ plain (headLog n)) Ls Rs

/-- Ask the given queries. -/
def Algo.askAll {E α : Type} (a : α) : List (List E) → Algo E α
  | [] => .done a
  | l :: ls => .ask l fun _ => askAll a ls

/-- What the two sides of the verification equation of the inner-product argument differ by, for points of a
module `V` that are encoded with `cmp`. -/
def ipaGap [Field F] [AddCommGroup V] [Module F V] (ro : Hash) (log : List Event) (cmp : V → Comp) (Gs Hs : List V) (Q P : V) (t : F)
    (Ls Rs : List V) (a b : F) : V :=
  let q := Ls.length
  let n := 2 ^ q
  let xs := ipaChallenges F ro log n (Ls.map cmp) (Rs.map cmp)
  let α := ipaAlpha F ro log n
  a • combined (weightG xs) q xs.length Gs + b • combined (weightH xs) q xs.length Hs +
    (a * b) • (α⁻¹ • Q) - foldedP Ls Rs xs (P - ((α - 1) * t) • (α⁻¹ • Q))

/-- All differences between two elements of a list. -/
def differences [Sub V] (l : List V) : List V := l.flatMap fun x => l.map fun y => x - y

/-- A proof of the inner-product argument with the representations of its points. -/
structure AlgIpa (F V : Type) where
  Ls : List V
  Rs : List V
  a : F
  b : F

/-- The proof proper. -/
def AlgIpa.proof (cmp : G → Comp) (ev : V → G) (p : AlgIpa F V) : Ipa.NoZK F :=
  ⟨p.Ls.map fun L => cmp (ev L), p.Rs.map fun L => cmp (ev L), p.a, p.b⟩

/-- A proof of AlmZK with the representations of its points. -/
structure AlgAlm (F V : Type) where
  C_r : V
  ipa : AlgIpa F V

/-- The proof proper. -/
def AlgAlm.proof (cmp : G → Comp) (ev : V → G) (p : AlgAlm F V) : Ipa.AlmZK F :=
  ⟨cmp (ev p.C_r), p.ipa.proof cmp ev⟩

/-- The histories out of which the challenges of AlmZK are squeezed. -/
def almQueries [Field F] [AddCommGroup V] [Module F V] (ro : Hash) (cmp : G → Comp) (ev : V → G)
    (log : List (Note V)) (n : Nat) (Q C : V) (t : F) (p : AlgAlm F V) : List (List (Note V)) :=
  let β := almBeta F ro (log.map Prod.fst) (cmp (ev p.C_r))
  let P := β • C + p.C_r + (β * β * t) • Q
  (log ++ betaNotes cmp ev p.C_r) ::
    ipaQueries cmp ev (log ++ betaNotes cmp ev p.C_r ++ [(.msg "P" (cmp (ev P)), none)]) n p.ipa.Ls p.ipa.Rs

/-- What the two sides of the verification equation of AlmZK differ by. -/
def almGap [Field F] [AddCommGroup V] [Module F V] (ro : Hash) (log : List Event) (cmp : V → Comp)
    (Gs Hs : List V) (Q C : V) (t : F) (p : AlgAlm F V) : V :=
  let β := almBeta F ro log (cmp p.C_r)
  let P := β • C + p.C_r + (β * β * t) • Q
  ipaGap ro (log ++ almHead (cmp p.C_r) (cmp P)) cmp Gs Hs Q P (β * β * t) p.ipa.Ls p.ipa.Rs p.ipa.a p.ipa.b

/-- A proof of QESA with the representations of its points. -/
structure AlgQesa (F V : Type) where
  C' : V
  C'' : V
  alm : AlgAlm F V

/-- The proof proper. -/
def AlgQesa.proof (cmp : G → Comp) (ev : V → G) (p : AlgQesa F V) : Zk.Proof F :=
  ⟨⟨p.alm.proof cmp ev, cmp (ev p.C'), cmp (ev p.C'')⟩⟩

/-- What QESA appends to the transcript before the challenge `x`. -/
def xNotes (cmp : G → Comp) (ev : V → G) (C' : V) : List (Note V) :=
  [(.msg "c_prime_w" (cmp (ev C')), some C'), (.chal "x" 64, none)]

/-- What QESA appends to the transcript before the challenge `s`. -/
def sNotes (cmp : G → Comp) (ev : V → G) (C'' : V) : List (Note V) :=
  [(.msg "c_prime_prime_w" (cmp (ev C'')), some C''), (.chal "s" 64, none)]

/-- The histories out of which the challenges of QESA are squeezed. -/
def qesaQueries [Field F] [AddCommGroup V] [Module F V] {m k : Nat} (ro : Hash) (cmp : G → Comp) (ev : V → G)
    (log : List (Note V)) (Gs Hs : List V) (Q : V) (Ms : Fin k → Matrix (Fin m) (Fin m) F)
    (p : AlgQesa F V) : List (List (Note V)) :=
  let c' := cmp (ev p.C')
  let c'' := cmp (ev p.C'')
  let x := qesaX F ro (log.map Prod.fst) c'
  let s := qesaS F ro (log.map Prod.fst) c' c''
  let b := qesaB F ro (log.map Prod.fst) c' c''
  let M := batched (m + 2) Ms x
  let C_w := qesaPoint M Gs Hs p.C' p.C'' x s b
  let log1 := log ++ xNotes cmp ev p.C'
  let log2 := log1 ++ sNotes cmp ev p.C''
  let log3 := log2 ++ [(.chal "b" 64, none)]
  log1 :: log2 :: log3 :: almQueries ro cmp ev (log3 ++ [(.msg "c_w" (cmp (ev C_w)), some C_w)]) (m + 2) Q C_w
    (- quad M (powers s m)) p.alm

/-- What the two sides of the verification equation of QESA differ by. -/
def qesaGap [Field F] [AddCommGroup V] [Module F V] {m k : Nat} (ro : Hash) (log : List Event)
    (cmp : V → Comp) (Gs Hs : List V) (Q : V) (Ms : Fin k → Matrix (Fin m) (Fin m) F) (p : AlgQesa F V) : V :=
  let c' := cmp p.C'
  let c'' := cmp p.C''
  let x := qesaX F ro log c'
  let s := qesaS F ro log c' c''
  let b := qesaB F ro log c' c''
  let M := batched (m + 2) Ms x
  let C_w := qesaPoint M Gs Hs p.C' p.C'' x s b
  almGap ro (log ++ qesaHead c' c'' (cmp C_w)) cmp (rescaled (x ^ 2) Gs) Hs Q C_w (- quad M (powers s m)) p.alm

/-- Coefficients with respect to `n` generators `G`, `n` generators `H` and `Q`. -/
abbrev Coeffs (F : Type) (n : Nat) := (Fin n → F) × (Fin n → F) × F

/-- The point with the given coefficients. -/
def evalCoeffs [Field F] [AddCommGroup G] [Module F G] {n : Nat} (Gs Hs : Fin n → G) (Q : G) :
    Coeffs F n →ₗ[F] G where
  toFun c := (∑ i, c.1 i • Gs i) + (∑ i, c.2.1 i • Hs i) + c.2.2 • Q
  map_add' c c' := by
    simp only [Prod.fst_add, Prod.snd_add, Pi.add_apply, add_smul, Finset.sum_add_distrib]; abel
  map_smul' x c := by
    simp only [Prod.smul_fst, Prod.smul_snd, Pi.smul_apply, smul_eq_mul, mul_smul, smul_add,
      Finset.smul_sum, RingHom.id_apply]

/-- The coefficients of the generators themselves. -/
def coeffG (F : Type) [Field F] (n : Nat) : List (Coeffs F n) := List.ofFn fun i => (Pi.single i 1, 0, 0)

/-- The coefficients of the generators themselves. -/
def coeffH (F : Type) [Field F] (n : Nat) : List (Coeffs F n) := List.ofFn fun i => (0, Pi.single i 1, 0)

/-- The coefficients of `Q`. -/
def coeffQ (F : Type) [Field F] (n : Nat) : Coeffs F n := (0, 0, 1)

end Qesa.Spec
