import Verif.SpecIpa
/-
Specification vocabulary for src/lmpa, independent of the code.
-/
namespace Qesa.Spec
variable {F G : Type} [Field F] [AddCommGroup G] [Module F G]

/-- The events of a list of points, absorbed one after the other under the same label. -/
def pointsLog (cx : Ctx G) (label : String) (ps : List G) : List Event :=
  ps.map fun p => .msg label (cx.compress p)

/-- What one round of the argument does to the transcript. -/
def lmpaRoundLog (cx : Ctx G) (LR : List G × List G) : List Event :=
  pointsLog cx "L" LR.1 ++ pointsLog cx "R" LR.2 ++ [.chal "challenge" 64]

/-- What the rounds do to the transcript. -/
def lmpaLog (cx : Ctx G) (Ls Rs : List (List G)) : List Event :=
  (List.zip Ls Rs).flatMap (lmpaRoundLog cx)

/-- The challenges: the `j`-th is squeezed out after the first `j + 1` messages. They depend on the
history and on the messages of the prover only. -/
def lmpaChallenges (F : Type) [NatCast F] (cx : Ctx G) (log : List Event) (Ls Rs : List (List G)) :
    List F :=
  (List.range (min Ls.length Rs.length)).map fun j =>
    squeeze F cx.ro (log ++ lmpaLog cx (Ls.take (j + 1)) (Rs.take (j + 1)))

/-- One row after all rounds: `∑ᵢ sᵢ aᵢ`, where `sᵢ` is the product of the challenges of the rounds in
which `i` lies in the right half. -/
def foldedRow (xs : List F) (row : List G) : G :=
  ∑ i ∈ Finset.range (2 ^ xs.length), weightG xs i • row.getD i 0

/-- One entry of the target after all rounds:
`(∏ x_j) t + ∑_j (∏_{m>j} x_m) (L_j + x_j² R_j)`. -/
def foldedTarget (xs : List F) (Ls Rs : List G) (t : G) : G :=
  xs.prod • t + ∑ j ∈ Finset.range xs.length,
    (xs.drop (j + 1)).prod • (Ls.getD j 0 + (xs.getD j 0 * xs.getD j 0) • Rs.getD j 0)

/-- The entries with number `i` of all messages. -/
def column (Ls : List (List G)) (i : Nat) : List G := Ls.map fun L => L.getD i 0

/-! ### k-ary folding -/

/-- What one round of the k-ary argument does to the transcript: the `2k - 1` vectors `u_l` point by
point, then one challenge. -/
def kRoundLog (cx : Ctx G) (u : List (List G)) : List Event :=
  u.flatMap (pointsLog cx "u_l") ++ [.chal "challenge_x" 64]

/-- What the rounds do to the transcript. -/
def kLog (cx : Ctx G) (blocks : List (List (List G))) : List Event := blocks.flatMap (kRoundLog cx)

/-- The challenges of the rounds. -/
def kChallenges (F : Type) [NatCast F] (cx : Ctx G) (log : List Event)
    (blocks : List (List (List G))) : List F :=
  (List.range blocks.length).map fun j => squeeze F cx.ro (log ++ kLog cx (blocks.take (j + 1)))

/-- The coefficient of `u_l` in the next target: `x ^ (k - 1 - l)`, also for `l > k - 1`. -/
def kWeight (x : F) (k l : Nat) : F := if l = k - 1 then 1 else x ^ (k - 1) * x⁻¹ ^ l

/-- Entry `r` of the target after a round with message `u` and challenge `x`. The old target does not
occur. -/
def kTarget (x : F) (k : Nat) (u : List (List G)) (r : Nat) : G :=
  ∑ l ∈ Finset.range (2 * (k - 1) + 1), kWeight x k l • (u.getD l []).getD r 0

/-- A message of the shape the prover sends: `2k - 1` vectors of `m` points. -/
def KShape (k m : Nat) (u : List (List G)) : Prop := u.length = 2 * (k - 1) + 1 ∧ ∀ v ∈ u, v.length = m

/-- The target after all rounds: only the last message and the last challenge matter; `t` matters only
if there is no round at all. -/
def kFinal (k : Nat) (t : List G) (xs : List F) (us : List (List (List G))) : List G :=
  match (List.zip xs us).getLast? with
  | none => t
  | some (x, u) => (List.range (u.headD []).length).map (kTarget x k u)

end Qesa.Spec
