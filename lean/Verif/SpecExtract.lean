import Mathlib.Algebra.BigOperators.Ring.Finset
import Mathlib.Data.Fintype.Pi
import Mathlib.Data.Fintype.BigOperators
import Verif.SpecFork
import Verif.Proofs.Oracle
/-
Programs that run a prover as a black box with hash functions of their choice, and the program that looks for enough
answers at every challenge of a proof.
-/
namespace Qesa.Spec

/-- A program that draws random answers and runs a prover. `α` is the type of the proofs, `β` the type of the result.
The prover is a black box: the program learns its proof for a hash function and nothing else. -/
inductive Rewinder (α β : Type)
  | done (b : β)
  | draw (next : Vector UInt8 64 → Rewinder α β)
  | run (ro : Hash) (next : α → Rewinder α β)

/-- The average over all answers. -/
noncomputable def average (f : Vector UInt8 64 → ℚ) : ℚ := (∑ v, f v) / 2 ^ 512

/-- The average over all hash functions on `D`. -/
noncomputable def mean (ro : Hash) (D : Finset (List Event)) (f : Hash → ℚ) : ℚ :=
  (∑ g : D → Vector UInt8 64, f (patch ro D g)) / (2 ^ 512) ^ D.card

namespace Rewinder
variable {α β γ : Type}

/-- One program after the other. -/
def bind (k : β → Rewinder α γ) : Rewinder α β → Rewinder α γ
  | .done b => k b
  | .draw next => .draw fun v => (next v).bind k
  | .run ro next => .run ro fun a => (next a).bind k

/-- The expected value of `f` at the result. All answers are drawn uniformly and independently. -/
noncomputable def expect (P : Hash → α) (f : β → ℚ) : Rewinder α β → ℚ
  | .done b => f b
  | .draw next => average fun v => (next v).expect P f
  | .run ro next => (next (P ro)).expect P f

/-- The expected number of runs of the prover. -/
noncomputable def runs (P : Hash → α) : Rewinder α β → ℚ
  | .done _ => 0
  | .draw next => average fun v => (next v).runs P
  | .run ro next => 1 + (next (P ro)).runs P

open Classical in
/-- The probability that the result has the property `A`. -/
noncomputable def chance (P : Hash → α) (A : β → Prop) (p : Rewinder α β) : ℚ :=
  p.expect P fun b => if A b then 1 else 0

/-- Up to `r` attempts with fresh answers. -/
def search (trial : Vector UInt8 64 → Rewinder α (Option γ)) : Nat → Rewinder α (Option (Vector UInt8 64 × γ))
  | 0 => .done none
  | r + 1 => .draw fun v => (trial v).bind fun
    | some c => .done (some (v, c))
    | none => search trial r

variable {F : Type} [DecidableEq F]

/-- `k` searches, one after the other. It gives up if two of the answers mean the same scalar or a scalar in `used`. -/
def collect (scalar : Vector UInt8 64 → F) (trial : Vector UInt8 64 → Rewinder α (Option (List γ))) (r : Nat) :
    List F → Nat → Rewinder α (Option (List γ))
  | _, 0 => .done (some [])
  | used, k + 1 => (search trial r).bind fun
    | none => .done none
    | some (v, c) => if scalar v ∈ used then .done none else
        (collect scalar trial r (scalar v :: used) k).bind fun
        | none => .done none
        | some cs => .done (some (c ++ cs))

section
variable (scalar : Vector UInt8 64 → F) (test : Hash → α → Bool) (key : Hash → α → Nat → Option (List Event))
  (K : Nat → Nat) (r : Nat)

/-- The prover gave the proof `a` with the hash function `ro`, and it was accepted. The program changes the answers
behind the challenges `i, …, i + d - 1`, the last one first, until it has `K j` accepted runs with different values of
challenge `j` for each of them, all with the same question for this challenge. At each challenge it tries at most `r`
answers for each of the `K j - 1` further runs. It returns all the accepted runs. -/
def grow : Nat → Nat → Hash → α → Rewinder α (Option (List (Hash × α)))
  | 0, _, ro, a => .done (some [(ro, a)])
  | d + 1, i, ro, a => (grow d (i + 1) ro a).bind fun
    | none => .done none
    | some ts => match key ro a i with
      | none => .done (some ts)
      | some l =>
        (collect scalar (fun v => .run (Function.update ro l v) fun a' =>
          if test (Function.update ro l v) a' && key (Function.update ro l v) a' i == some l then
            grow d (i + 1) (Function.update ro l v) a'
          else .done none) r [scalar (ro l)] (K i - 1)).bind fun
        | none => .done none
        | some cs => .done (some (ts ++ cs))

/-- Run the prover; if it is accepted, rewind it at its first `d` challenges. -/
def rewind (d : Nat) (ro : Hash) : Rewinder α (Option (List (Hash × α))) :=
  .run ro fun a => if test ro a then grow scalar test key K r d 0 ro a else .done none

end
end Rewinder

/-- The verifier returned `true`. -/
def accepted {τ : Type} : R (Bool × τ) → Bool
  | .ok (b, _) => b
  | .error _ => false

end Qesa.Spec
