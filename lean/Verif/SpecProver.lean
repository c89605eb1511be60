import Mathlib.Data.Fintype.Pi
import Mathlib.Data.Finset.Card
import Verif.SpecSound
/-
Interactive provers, and the number of challenges for which they are accepted.
-/
namespace Qesa.Spec
variable {F G : Type}

open Classical in
/-- The number of sequences of `d` challenges from `S` with the property `A`. -/
noncomputable def countChallenges {α : Type} (S : Finset α) (d : Nat) (A : List α → Prop) : Nat :=
  ((Fintype.piFinset fun _ : Fin d => S).filter fun c => A (List.ofFn c)).card

/-- Any way to act as a prover in the rounds of the inner-product argument for `2 ^ q` generators: the points
of each round may depend on all challenges so far, and so may the final answers. -/
inductive IpaProver (F G : Type) : Nat → Type
  | final (a b : F) : IpaProver F G 0
  | round {q : Nat} (L R : G) (next : F → IpaProver F G q) : IpaProver F G (q + 1)

/-- The conversation with the challenges `xs`. -/
def IpaProver.talk [Zero F] : {q : Nat} → IpaProver F G q → List F → IpaPath F G
  | _, .final a b, _ => ⟨[], [], [], a, b⟩
  | _, .round L R next, x :: xs =>
    let c := (next x).talk xs
    ⟨L :: c.Ls, R :: c.Rs, x :: c.xs, c.a, c.b⟩
  | _, .round L R _, [] => ⟨[L], [R], [], 0, 0⟩

/-- Any way to act as a prover in the rounds of the linear-map argument with one row of `2 ^ q` points. -/
inductive LmpaProver (F G : Type) : Nat → Type
  | final (w : F) : LmpaProver F G 0
  | round {q : Nat} (L R : G) (next : F → LmpaProver F G q) : LmpaProver F G (q + 1)

/-- The conversation with the challenges `xs`: the points `L` and `R`, the challenges, the final answer. -/
def LmpaProver.talk [Zero F] : {q : Nat} → LmpaProver F G q → List F → List G × List G × List F × F
  | _, .final w, _ => ([], [], [], w)
  | _, .round L R next, x :: xs =>
    let c := (next x).talk xs
    (L :: c.1, R :: c.2.1, x :: c.2.2.1, c.2.2.2)
  | _, .round L R _, [] => ([L], [R], [], 0)

end Qesa.Spec
