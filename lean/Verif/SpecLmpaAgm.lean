import Verif.SpecAgm
import Verif.SpecLmpa
import Verif.Model.Lmpa
/-
The linear-map arguments and algorithms with access to the hash function.
-/
namespace Qesa.Spec
open Lmpa
variable {F G V E : Type}

/-- How an algorithm writes the points and the requests of challenges into its queries. -/
structure Pen (V E : Type) where
  pt : String → V → E
  ch : String → E

/-- Without notes. -/
def plainPen (cmp : G → Comp) : Pen G Event := ⟨fun l p => .msg l (cmp p), fun l => .chal l 64⟩

/-- With representations beside the points. -/
def notePen (cmp : G → Comp) (ev : V → G) : Pen V (Note V) :=
  ⟨fun l r => (.msg l (cmp (ev r)), some r), fun l => (.chal l 64, none)⟩

/-- One round: the points of `L`, those of `R`, and the challenge. -/
def Pen.round (pen : Pen V E) (L R : List V) : List E :=
  L.map (pen.pt "L") ++ R.map (pen.pt "R") ++ [pen.ch "challenge"]

/-- The first message of `SimpleZK` and the challenge. -/
def Pen.first (pen : Pen V E) (a : List V) : List E := a.map (pen.pt "a") ++ [pen.ch "beta"]

/-- The histories out of which the challenges of the rounds are squeezed. -/
def lmpaQueries (pen : Pen V E) (log : List E) : List (List V) → List (List V) → List (List E)
  | L :: Ls, R :: Rs => (log ++ pen.round L R) :: lmpaQueries pen (log ++ pen.round L R) Ls Rs
  | _, _ => []

/-- The histories out of which the challenges of `SimpleZK` are squeezed. -/
def simpleQueries (pen : Pen V E) (log : List E) (a : List V) (Ls Rs : List (List V)) : List (List E) :=
  (log ++ pen.first a) :: lmpaQueries pen (log ++ pen.first a) Ls Rs

/-- What the two sides of the check of `NoZK::verify` in `q` rounds differ by. -/
def lmpaGap [Field F] [AddCommGroup V] [Module F V] (pen : Pen V E) (er : E → Event) (ro : Hash) (log : List E)
    (q : Nat) (row : List V) (t : V) (p : Lmpa.NoZK F V) : V :=
  let xs := (lmpaQueries pen log (p.L_Vec.take q) (p.R_Vec.take q)).map fun l => squeeze F ro (l.map er)
  p.w • foldedRow xs row - foldedTarget xs (column (p.L_Vec.take q) 0) (column (p.R_Vec.take q) 0) t

/-- What the two sides of the check of `SimpleZK::verify` in `q` rounds differ by. -/
def simpleGap [Field F] [AddCommGroup V] [Module F V] (pen : Pen V E) (er : E → Event) (ro : Hash) (log : List E)
    (q : Nat) (row : List V) (t : V) (p : SimpleZK F V) : V :=
  lmpaGap pen er ro (log ++ pen.first p.a) q row
    (squeeze F ro ((log ++ pen.first p.a).map er) • t + p.a.headD 0) p.no_zk

/-- The proof proper, when the points are given by representations. -/
def lmpaProof (ev : V → G) (p : Lmpa.NoZK F V) : Lmpa.NoZK F G :=
  ⟨p.L_Vec.map (List.map ev), p.R_Vec.map (List.map ev), p.w⟩

/-- The proof proper, when the points are given by representations. -/
def simpleProof (ev : V → G) (p : SimpleZK F V) : SimpleZK F G := ⟨lmpaProof ev p.no_zk, p.a.map ev⟩

/-- The point with the given coefficients with respect to the generators `Gen`. -/
def evalVec [Field F] [AddCommGroup G] [Module F G] {m : Nat} (Gen : Fin m → G) : (Fin m → F) →ₗ[F] G where
  toFun c := ∑ i, c i • Gen i
  map_add' c c' := by simp only [Pi.add_apply, add_smul, Finset.sum_add_distrib]
  map_smul' x c := by simp only [Pi.smul_apply, smul_eq_mul, mul_smul, Finset.smul_sum, RingHom.id_apply]

end Qesa.Spec
