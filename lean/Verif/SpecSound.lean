import Mathlib.Algebra.BigOperators.Fin
import Mathlib.Data.Fin.VecNotation
import Verif.SpecAlm
/-
Special soundness of the inner-product arguments: trees of conversations and the extractor.

The extractor works on the scalars of a tree only (challenges and final answers). It is not given any
point, so that it cannot make use of discrete logarithms; its output is either a witness or the
coefficients of a linear relation between the generators.
-/
namespace Qesa.Spec
variable {F G : Type}

/-- A tree of conversations of the inner-product argument for `2 ^ q` generators that share the messages
up to the branching points: every node has the messages of one round and four challenges, every leaf has
the final answers. -/
inductive IpaTree (F G : Type) : Nat → Type
  | leaf (a b : F) : IpaTree F G 0
  | node {q : Nat} (L R : G) (x : Fin 4 → F) (sub : Fin 4 → IpaTree F G q) : IpaTree F G (q + 1)

/-- One conversation: the points `L` and `R`, the challenges, and the two final answers. -/
structure IpaPath (F G : Type) where
  Ls : List G
  Rs : List G
  xs : List F
  a : F
  b : F

/-- The conversations of a tree. -/
def IpaTree.paths : {q : Nat} → IpaTree F G q → List (IpaPath F G)
  | _, .leaf a b => [⟨[], [], [], a, b⟩]
  | _, .node L R x sub => (List.finRange 4).flatMap fun i =>
      (sub i).paths.map fun c => ⟨L :: c.Ls, R :: c.Rs, x i :: c.xs, c.a, c.b⟩

/-- The four challenges of every node are different. -/
def IpaTree.Distinct : {q : Nat} → IpaTree F G q → Prop
  | _, .leaf _ _ => True
  | _, .node _ _ x sub => Function.Injective x ∧ ∀ i, (sub i).Distinct

/-- The scalars of a tree: all points are erased. -/
def IpaTree.scalars : {q : Nat} → IpaTree F G q → IpaTree F Unit q
  | _, .leaf a b => .leaf a b
  | _, .node _ _ x sub => .node () () x fun i => (sub i).scalars

/-- What the extractor returns: two vectors, or the coefficients of a relation between the vectors of
generators and `Q`. -/
abbrev Extracted (F : Type) := (List F × List F) ⊕ (List F × List F × F)

section
variable [Field F]

/-- The linear combination of `m` lists of length `n`. -/
def lin {m : Nat} (n : Nat) (c : Fin m → F) (l : Fin m → List F) : List F :=
  List.ofFn fun j : Fin n => ∑ i, c i * (l i).getD j 0

/-- The coefficients of the third divided difference. -/
def divided4 (x : Fin 4 → F) : Fin 4 → F :=
  ![((x 0 - x 1) * (x 0 - x 2) * (x 0 - x 3))⁻¹, ((x 1 - x 0) * (x 1 - x 2) * (x 1 - x 3))⁻¹,
    ((x 2 - x 0) * (x 2 - x 1) * (x 2 - x 3))⁻¹, ((x 3 - x 0) * (x 3 - x 1) * (x 3 - x 2))⁻¹]

/-- The coefficients that pick the middle coefficient of a quadratic polynomial from its values. -/
def middle4 (x : Fin 4 → F) : Fin 4 → F :=
  ![-(x 1 + x 2) / ((x 0 - x 1) * (x 0 - x 2)), (x 0 + x 2) / ((x 0 - x 1) * (x 1 - x 2)),
    -(x 0 + x 1) / ((x 0 - x 2) * (x 1 - x 2)), 0]

/-- The coefficients of the second divided difference. -/
def divided3 (x : Fin 3 → F) : Fin 3 → F :=
  ![((x 0 - x 1) * (x 0 - x 2))⁻¹, ((x 1 - x 0) * (x 1 - x 2))⁻¹, ((x 2 - x 0) * (x 2 - x 1))⁻¹]

/-- The coefficients of the slope through the first two points. -/
def slope3 (x : Fin 3 → F) : Fin 3 → F := ![(x 0 - x 1)⁻¹, -(x 0 - x 1)⁻¹, 0]

variable [DecidableEq F]

/-- A relation if it is not trivial, else the witness `w`. -/
def relationOr (u v : List F) (e : F) (w : List F × List F) : Extracted F :=
  if (∀ y ∈ u, y = 0) ∧ (∀ y ∈ v, y = 0) ∧ e = 0 then .inl w else .inr (u, v, e)

/-- One round backwards, from the witnesses for the folded generators. -/
def combineRound (n : Nat) (x : Fin 4 → F) (a b : Fin 4 → List F) : Extracted F :=
  let d := divided4 x
  let c := middle4 x
  relationOr (lin n d a ++ lin n (fun i => d i * x i) a) (lin n (fun i => d i * x i) b ++ lin n d b)
    (∑ i, d i * dot (a i) (b i))
    (lin n c a ++ lin n (fun i => c i * x i) a, lin n (fun i => c i * x i) b ++ lin n c b)

/-- A relation between folded generators is a relation between the generators. -/
def liftRelation (x : F) (r : List F × List F × F) : Extracted F :=
  .inr (r.1 ++ r.1.map (fun y => x * y), r.2.1.map (fun y => x * y) ++ r.2.1, r.2.2)

/-- The extractor for the rounds. -/
def extractRounds : {q : Nat} → IpaTree F Unit q → Extracted F
  | _, .leaf a b => .inl ([a], [b])
  | q + 1, .node _ _ x sub =>
    match extractRounds (sub 0), extractRounds (sub 1), extractRounds (sub 2), extractRounds (sub 3) with
    | .inl w0, .inl w1, .inl w2, .inl w3 =>
      combineRound (2 ^ q) x ![w0.1, w1.1, w2.1, w3.1] ![w0.2, w1.2, w2.2, w3.2]
    | .inr r, _, _, _ => liftRelation (x 0) r
    | _, .inr r, _, _ => liftRelation (x 1) r
    | _, _, .inr r, _ => liftRelation (x 2) r
    | _, _, _, .inr r => liftRelation (x 3) r

/-- The extractor for the inner-product argument, from trees for two values of `alpha`; `t` is the
claimed product. -/
def extractIpa {q : Nat} (t : F) (α : Fin 2 → F) (T : Fin 2 → IpaTree F Unit q) : Extracted F :=
  match extractRounds (T 0), extractRounds (T 1) with
  | .inr r, _ => .inr (r.1, r.2.1, r.2.2 * (α 0)⁻¹)
  | _, .inr r => .inr (r.1, r.2.1, r.2.2 * (α 1)⁻¹)
  | .inl w0, .inl w1 =>
    relationOr (lin (2 ^ q) ![1, -1] ![w0.1, w1.1]) (lin (2 ^ q) ![1, -1] ![w0.2, w1.2])
      ((dot w0.1 w0.2 + (α 0 - 1) * t) * (α 0)⁻¹ - (dot w1.1 w1.2 + (α 1 - 1) * t) * (α 1)⁻¹) w0

/-- The extractor for AlmZK, from trees for three values of `beta` and, for each of them, two values of
`alpha`. -/
def extractAlm {q : Nat} (t : F) (β : Fin 3 → F) (α : Fin 3 → Fin 2 → F)
    (T : Fin 3 → Fin 2 → IpaTree F Unit q) : Extracted F :=
  match extractIpa (β 0 * β 0 * t) (α 0) (T 0), extractIpa (β 1 * β 1 * t) (α 1) (T 1),
      extractIpa (β 2 * β 2 * t) (α 2) (T 2) with
  | .inr r, _, _ => .inr r
  | _, .inr r, _ => .inr r
  | _, _, .inr r => .inr r
  | .inl w0, .inl w1, .inl w2 =>
    let a := ![w0.1, w1.1, w2.1]
    let b := ![w0.2, w1.2, w2.2]
    relationOr (lin (2 ^ q) (divided3 β) a) (lin (2 ^ q) (divided3 β) b) 0
      (lin (2 ^ q) (slope3 β) a, lin (2 ^ q) (slope3 β) b)

end

/-- `r` holds the coefficients of a non-trivial linear relation between the generators. -/
def IsRelation [Field F] [AddCommGroup G] [Module F G] (Gs Hs : List G) (Q : G)
    (r : List F × List F × F) : Prop :=
  r.1.length = Gs.length ∧ r.2.1.length = Hs.length ∧
  (∃ y ∈ r.1 ++ r.2.1 ++ [r.2.2], y ≠ 0) ∧ dot r.1 Gs + dot r.2.1 Hs + r.2.2 • Q = 0

/-- The check of one conversation of the inner-product argument in closed form (cf. C19). -/
def IpaPath.Accepts [Field F] [AddCommGroup G] [Module F G] (c : IpaPath F G) (Gs Hs : List G)
    (Q P : G) : Prop :=
  c.a • combined (weightG c.xs) c.xs.length c.xs.length Gs +
    c.b • combined (weightH c.xs) c.xs.length c.xs.length Hs + (c.a * c.b) • Q =
      foldedP c.Ls c.Rs c.xs P

end Qesa.Spec
