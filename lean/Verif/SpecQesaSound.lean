import Verif.SpecQesa
import Verif.SpecSound
/-
Special soundness of QESA: the point that is opened, and the extractor. As in `SpecSound` the extractor is
given scalars only.
-/
namespace Qesa.Spec
variable {F G : Type} [Field F]

/-- The point that the verifier of QESA hands to AlmZK. -/
def qesaPoint [AddCommGroup G] [Module F G] {m : Nat} (M : Matrix (Fin m) (Fin m) F) (Gs Hs : List G)
    (C' C'' : G) (x s b : F) : G :=
  C' - ((x ^ 2 - 1) * (x ^ 2)⁻¹) • Gs.headD 0 + C'' + dot (challengeImage M s b) Hs -
    dot (challengeVector s b m) (rescaled (x ^ 2) Gs)

/-- A relation between the generators with the first one divided by `β`, as a relation between the
generators themselves. -/
def unscale (β : F) (r : List F × List F × F) : List F × List F × F :=
  (match r.1 with
    | [] => []
    | y :: ys => y * β⁻¹ :: ys, r.2)

/-- The opening of the commitments that belongs to an opening of the point handed to AlmZK. -/
def unmask {m : Nat} (M : Matrix (Fin m) (Fin m) F) (s b : F) (e : List F × List F) : List F × List F :=
  (List.zipWith (fun y z => y + z) e.1 (challengeVector s b m),
    List.zipWith (fun y z => y - z) e.2 (challengeImage M s b))

variable [DecidableEq F]

/-- The difference of two openings, unless they are equal. -/
def difference (e e' : List F × List F) : Option (List F × List F × F) :=
  if e = e' then none
  else some (List.zipWith (fun y z => y - z) e.1 e'.1, List.zipWith (fun y z => y - z) e.2 e'.2, 0)

/-- The extractor for QESA. `E i j` is what the extractor of AlmZK returned for the challenges `s i` and
`b i j`. If it returned a relation anywhere, that is the result; if two of the openings of the commitments
differ, their difference is a relation; otherwise the result is the common opening. -/
def extractQesa {m : Nat} (M : Matrix (Fin m) (Fin m) F) (x : F) (s : Fin (m + 1) → F)
    (b : Fin (m + 1) → Fin 3 → F) (E : Fin (m + 1) → Fin 3 → Extracted F) : Extracted F :=
  let all := List.finRange (m + 1) ×ˢ List.finRange 3
  match all.findSome? fun i => (E i.1 i.2).getRight? with
  | some r => .inr (unscale (x ^ 2) r)
  | none =>
    let e := fun i j => unmask M (s i) (b i j) ((E i j).getLeft?.getD ([], []))
    match all.findSome? fun i => difference (e 0 0) (e i.1 i.2) with
    | some r => .inr (unscale (x ^ 2) r)
    | none => .inl (e 0 0)

end Qesa.Spec
