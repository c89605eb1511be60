import Verif.Props.IpaSound
import Verif.Props.LmpaHalts
import Verif.Props.SimpleZk
/-
C43, C52: special soundness of the linear-map arguments for conversations accepted by the code.
-/
namespace Qesa.Props
open Spec Lmpa
variable {F G : Type} [Field F] [AddCommGroup G] [Module F G] [DecidableEq G]

/-- In some run, `NoZK::verify` met the challenges of `c = (Ls, Rs, xs, w)` on the proof with the points and
the answer of `c`, for the one-row statement `⟨w, row⟩ = t`, and accepted. -/
def LmpaAccepted (row : List G) (t : G) (c : List G × List G × List F × F) : Prop :=
  ∃ (cx : Ctx G) (fuel : Nat) (tr tr' : Transcript) (Gs : List G),
    let p : NoZK F G := ⟨c.1.map fun L => [L], c.2.1.map fun R => [R], c.2.2.2⟩
    lmpaChallenges F cx tr.log p.L_Vec p.R_Vec = c.2.2.1 ∧
    p.verify cx fuel tr [row] Gs row.length [t] = .ok (true, tr')

/-- The same for `SimpleZK::verify` with the first message `a` and the challenge `beta`. -/
def SimpleAccepted (row : List G) (t a : G) (beta : F) (c : List G × List G × List F × F) : Prop :=
  ∃ (cx : Ctx G) (fuel : Nat) (tr tr' : Transcript) (Gs : List G),
    let p : SimpleZK F G := ⟨⟨c.1.map fun L => [L], c.2.1.map fun R => [R], c.2.2.2⟩, [a]⟩
    simpleBeta F cx tr.log [a] = beta ∧
    lmpaChallenges F cx (simpleLog cx tr.log [a]) p.no_zk.L_Vec p.no_zk.R_Vec = c.2.2.1 ∧
    p.verify cx fuel tr [row] Gs row.length [t] = .ok (true, tr')

omit [Field F] [AddCommGroup G] [Module F G] [DecidableEq G] in
theorem LmpaTree.paths_points : {q : Nat} → (T : LmpaTree F G q) → ∀ c ∈ T.paths,
    c.1.length = q ∧ c.2.1.length = q
  | _, .leaf w, c, h => by
    simp only [LmpaTree.paths, List.mem_singleton] at h; subst h; exact ⟨rfl, rfl⟩
  | _, .node L R x sub, c, h => by
    simp only [LmpaTree.paths, List.mem_flatMap, List.mem_map] at h
    obtain ⟨i, -, c', h', rfl⟩ := h
    simp [(sub i).paths_points c' h']

theorem LmpaAccepted.accepts {q : Nat} {row : List G} (hrow : row.length = 2 ^ q) {t : G}
    {c : List G × List G × List F × F} (h1 : c.1.length = q) (h2 : c.2.1.length = q)
    (h : LmpaAccepted row t c) : Conversation.accepts row t c.1 c.2.1 c.2.2.1 c.2.2.2 := by
  obtain ⟨cx, fuel, tr, tr', Gs, hx, hv⟩ := h
  have hG : Gs.length = 2 ^ q := by
    by_contra hne
    unfold NoZK.verify at hv
    rw [rassert_false (by rw [hrow]; exact fun h => hne h.symm)] at hv
    cases hv
  have hv' := C49_lmpa_verify_fuel cx _ fuel (q + 1) row.length tr [row] Gs [t] (by rw [hv]; simp)
  obtain ⟨b, tr'', e1, e2⟩ := C43_lmpa_verify_one_row cx q (fuel + (q + 1)) tr row Gs c.1 c.2.1 c.2.2.2 t
    (by omega) hG hrow h1 h2
  rw [hv, hrow, e1] at hv'
  simp only [Except.ok.injEq, Prod.mk.injEq] at hv'
  rw [← hx]
  exact e2.1 hv'.1

/-- C43: special soundness for the code. If all conversations of a tree with three different challenges per
round are accepted by `NoZK::verify`, for a one-row statement, then the extractor computes a pre-image of `t`
from the scalars of the tree. Nothing is assumed about the points of the row. -/
theorem C43_lmpa_sound {q : Nat} (T : LmpaTree F G q) (hT : T.Distinct) (row : List G)
    (hrow : row.length = 2 ^ q) (t : G) (h : ∀ c ∈ T.paths, LmpaAccepted row t c) :
    (extractLmpa T.scalars).length = row.length ∧ dot (extractLmpa T.scalars) row = t := by
  rw [hrow]
  exact C43_lmpa_special_soundness T hT row hrow t fun c hc =>
    (h c hc).accepts hrow (T.paths_points c hc).1 (T.paths_points c hc).2

theorem SimpleAccepted.lmpa {row : List G} {t a : G} {beta : F} {c : List G × List G × List F × F}
    (h : SimpleAccepted row t a beta c) : LmpaAccepted row (beta • t + a) c := by
  obtain ⟨cx, fuel, tr, tr', Gs, hb, hx, hv⟩ := h
  refine ⟨cx, fuel, ⟨simpleLog cx tr.log [a]⟩, tr', Gs, hx, ?_⟩
  rw [simple_verify_eq] at hv
  rw [← hb]
  exact hv

/-- C52: special soundness for the code. If for the same `a` and two values of `beta` the conversations of a
tree are accepted by `SimpleZK::verify`, for a one-row statement, then the extractor computes a pre-image of
`t` from the scalars of the trees. -/
theorem C52_simple_sound {q : Nat} (row : List G) (hrow : row.length = 2 ^ q) (t a : G)
    (β : Fin 2 → F) (hβ : β 0 ≠ β 1) (T : Fin 2 → LmpaTree F G q) (hT : ∀ i, (T i).Distinct)
    (h : ∀ i, ∀ c ∈ (T i).paths, SimpleAccepted row t a (β i) c) :
    (extractSimple β fun i => (T i).scalars).length = row.length ∧
      dot (extractSimple β fun i => (T i).scalars) row = t := by
  rw [hrow]
  have key : ∀ i, ∀ c ∈ (T i).paths, _ := fun i c hc =>
    (h i c hc).lmpa.accepts hrow ((T i).paths_points c hc).1 ((T i).paths_points c hc).2
  exact C52_simple_special_soundness row hrow t a β hβ T hT key

section
open Toy

/-- The conversations of an honest prover with the row `(3, 5)` and `w = (y, z)`, with the challenges 1, 2,
3. -/
def exLmpaTree (y z : K) : LmpaTree K K 1 :=
  .node (z * 3) (y * 5) ![1, 2, 3] ![.leaf (z + y), .leaf (z + 2 * y), .leaf (z + 3 * y)]

theorem exLmpaTree_distinct (y z : K) : (exLmpaTree y z).Distinct := by
  refine ⟨by decide +kernel, fun i => ?_⟩
  fin_cases i <;> trivial

/-- C43: conversations as in the theorem, for `w = (7, 4)`. -/
example : ∀ c ∈ (exLmpaTree 7 4).paths, LmpaAccepted [3, 5] 41 c := by
  have key : ∀ c ∈ (exLmpaTree 7 4).paths,
      let p : NoZK K K := ⟨c.1.map fun L => [L], c.2.1.map fun R => [R], c.2.2.2⟩
      lmpaChallenges K (exCx c.2.2.1) [] p.L_Vec p.R_Vec = c.2.2.1 ∧
      (p.verify (exCx c.2.2.1) 2 ⟨[]⟩ [[3, 5]] [0, 0] 2 [41]).map Prod.fst = .ok true := by
    decide +kernel
  intro c hc
  obtain ⟨h1, h2⟩ := key c hc
  generalize exCx c.2.2.1 = cx at h1 h2
  cases e : NoZK.verify cx 2 ⟨c.1.map fun L => [L], c.2.1.map fun R => [R], c.2.2.2⟩ ⟨[]⟩ [[3, 5]] [0, 0] 2
      [41] with
  | error _ => rw [e] at h2; cases h2
  | ok r =>
    rw [e] at h2
    have h2 : r.1 = true := Except.ok.inj h2
    exact ⟨cx, 2, ⟨[]⟩, r.2, [0, 0], h1, by rw [← h2]; exact e⟩

/-- C52: conversations as in the theorem, for `w = (7, 4)`, the mask `(1, 1)` and `beta = 1, 2`. -/
example : ∀ i, ∀ c ∈ (exLmpaTree (![1, 2] i * 7 + 1) (![1, 2] i * 4 + 1)).paths,
    SimpleAccepted [3, 5] 41 8 (![1, 2] i) c := by
  have key : ∀ i : Fin 2, ∀ c ∈ (exLmpaTree (![1, 2] i * 7 + 1) (![1, 2] i * 4 + 1)).paths,
      let cx := exCx (![1, 2] i :: c.2.2.1)
      let p : SimpleZK K K := ⟨⟨c.1.map fun L => [L], c.2.1.map fun R => [R], c.2.2.2⟩, [8]⟩
      simpleBeta K cx [] [8] = ![1, 2] i ∧
      lmpaChallenges K cx (simpleLog cx [] [8]) p.no_zk.L_Vec p.no_zk.R_Vec = c.2.2.1 ∧
      (p.verify cx 2 ⟨[]⟩ [[3, 5]] [0, 0] 2 [41]).map Prod.fst = .ok true := by
    decide +kernel
  intro i c hc
  obtain ⟨h1, h2, h3⟩ := key i c hc
  revert h1 h2 h3
  generalize exCx (![1, 2] i :: c.2.2.1) = cx
  intro h1 h2 h3
  cases e : SimpleZK.verify cx 2 ⟨⟨c.1.map fun L => [L], c.2.1.map fun R => [R], c.2.2.2⟩, [8]⟩ ⟨[]⟩ [[3, 5]]
      [0, 0] 2 [41] with
  | error _ => simp only [e] at h3; cases h3
  | ok r =>
    simp only [e] at h3
    have h3 : r.1 = true := Except.ok.inj h3
    exact ⟨cx, 2, ⟨[]⟩, r.2, [0, 0], h1, h2, by rw [← h3]; exact e⟩

/-- C52: the extractor finds the witness in these conversations. -/
example : extractSimple (![1, 2] : Fin 2 → K) (fun i =>
    (exLmpaTree (![1, 2] i * 7 + 1) (![1, 2] i * 4 + 1)).scalars) = [7, 4] := by
  decide +kernel
end

end Qesa.Props
