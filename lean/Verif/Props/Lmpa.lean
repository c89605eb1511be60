import Mathlib.Algebra.Module.BigOperators
import Mathlib.Tactic.FieldSimp
import Verif.Proofs.Lmpa
import Verif.Toy
/-
C42-C46, C49: the linear-map argument of src/lmpa/no_zk.rs (`create`, `NoZK::verify`).
-/
namespace Qesa.Props
open Qesa Spec Lmpa
variable {F G : Type} [Field F] [AddCommGroup G] [Module F G]

/-! ### C42: completeness; C46: transcripts and shape -/

/-- C42: for `A` with at least one row and `2 ^ q` columns and any `w`, `create` returns a proof,
`NoZK::verify` accepts it for `t = A w`, and both end in the same transcript state. There is no
condition on the challenges. -/
theorem C42_lmpa_completeness [DecidableEq G] (cx : Ctx G) (q fuel : Nat) (tr : Transcript)
    (A : List (List G)) (Gs : List G) (w : List F) (hA0 : A ≠ []) (hA : Width (2 ^ q) A)
    (hw : w.length = 2 ^ q) (hG : Gs.length = 2 ^ q) (hf : q < fuel) :
    ∃ (p : NoZK F G) (tr' : Transcript), Lmpa.create cx fuel tr A Gs w = .ok (p, tr') ∧
      p.verify cx fuel tr A Gs Gs.length (A.map fun row => dot w row) = .ok (true, tr') := by
  obtain ⟨p, h1, h2, h3, h4, h5, h6⟩ := createLoop_eq cx q fuel A w tr hf hA hw
  refine ⟨p, _, by rw [Lmpa.create, hG]; exact h1, ?_⟩
  rw [hG, verify_eq cx p q fuel tr A Gs _ hf hG hA]
  rw [List.take_of_length_le (by omega), List.take_of_length_le (by omega)]
  have hpos : 0 < A.length := List.length_pos_iff.2 hA0
  simp only
  rw [if_pos]
  · have := h6 0 hpos
    simp only at this
    obtain ⟨row, A, rfl⟩ := List.exists_cons_of_ne_nil hA0
    simp only [List.map_cons, List.headD_cons]
    simp only [List.getElem_cons_zero] at this
    rw [this]
    simp
  · refine ⟨by omega, by omega, hA0, by simpa using hA0, ?_, ?_⟩
    · intro L hL h0
      have := h4 L hL
      rw [h0, List.length_nil] at this; omega
    · intro R hR h0
      have := h5 R hR
      rw [h0, List.length_nil] at this; omega

/-- C46: what `create` publishes and does to the transcript: `q` messages `L` and `R` with one point per
row of `A`; per round first the points of `L`, then those of `R`, then one challenge. -/
theorem C46_lmpa_create_log (cx : Ctx G) (q fuel : Nat) (tr : Transcript)
    (A : List (List G)) (Gs : List G) (w : List F) (hA : Width (2 ^ q) A) (hw : w.length = 2 ^ q)
    (hG : Gs.length = 2 ^ q) (hf : q < fuel) :
    ∃ p : NoZK F G, Lmpa.create cx fuel tr A Gs w = .ok (p, ⟨tr.log ++
        (List.zip p.L_Vec p.R_Vec).flatMap fun LR =>
          (LR.1.map fun P => .msg "L" (cx.compress P)) ++ (LR.2.map fun P => .msg "R" (cx.compress P)) ++
          [.chal "challenge" 64]⟩) ∧
      p.L_Vec.length = q ∧ p.R_Vec.length = q ∧ (∀ L ∈ p.L_Vec, L.length = A.length) ∧
      (∀ R ∈ p.R_Vec, R.length = A.length) := by
  classical
  obtain ⟨p, h1, h2, h3, h4, h5, -⟩ := createLoop_eq cx q fuel A w tr hf hA hw
  exact ⟨p, by rw [Lmpa.create, hG]; exact h1, h2, h3, h4, h5⟩

/-- C46: what `NoZK::verify` does to the transcript whenever it returns, for every proof: per round the points
of `L`, those of `R`, one challenge, for the first `q` rounds of the proof. -/
theorem C46_lmpa_verify_log [DecidableEq G] (cx : Ctx G) (p : NoZK F G) (q fuel : Nat) (tr tr' : Transcript)
    (A : List (List G)) (Gs t : List G) (hA : Width (2 ^ q) A) (hG : Gs.length = 2 ^ q) (hf : q < fuel) (v : Bool)
    (h : p.verify cx fuel tr A Gs (2 ^ q) t = .ok (v, tr')) :
    tr' = ⟨tr.log ++ ((List.zip p.L_Vec p.R_Vec).take q).flatMap fun LR =>
      (LR.1.map fun P => .msg "L" (cx.compress P)) ++ (LR.2.map fun P => .msg "R" (cx.compress P)) ++
      [.chal "challenge" 64]⟩ := by
  rw [verify_eq cx p q fuel tr A Gs t hf hG hA] at h
  simp only at h
  split at h
  · simp only [Except.ok.injEq, Prod.mk.injEq] at h
    rw [← h.2, show (List.zip p.L_Vec p.R_Vec).take q = List.zip (p.L_Vec.take q) (p.R_Vec.take q) from List.take_zipWith]
    rfl
  · exact absurd h (by simp)

/-! ### C44: the verdict -/

/-- C44: `NoZK::verify` in closed form, for every proof: it panics unless the proof has at least
`q = log₂ n` messages, none of the first `q` is empty, and neither is `A` or `t`; otherwise the verdict
is the folded equation of row 0 alone. Everything the transcript sees is listed. -/
theorem C44_lmpa_verdict [DecidableEq G] (cx : Ctx G) (p : NoZK F G) (q fuel : Nat) (tr : Transcript)
    (A : List (List G)) (Gs : List G) (t : List G) (hf : q < fuel) (hG : Gs.length = 2 ^ q)
    (hA : Width (2 ^ q) A) :
    p.verify cx fuel tr A Gs (2 ^ q) t =
      let Ls := p.L_Vec.take q
      let Rs := p.R_Vec.take q
      let xs := lmpaChallenges F cx tr.log Ls Rs
      if q ≤ p.L_Vec.length ∧ q ≤ p.R_Vec.length ∧ A ≠ [] ∧ t ≠ [] ∧ (∀ L ∈ Ls, L ≠ []) ∧
          (∀ R ∈ Rs, R ≠ []) then
        .ok (decide (p.w • foldedRow xs (A.headD []) =
          foldedTarget xs (column Ls 0) (column Rs 0) (t.headD 0)), ⟨tr.log ++ lmpaLog cx Ls Rs⟩)
      else .error .indexOOB :=
  verify_eq cx p q fuel tr A Gs t hf hG hA

/-- C44: `n` must be the length of `G_Vec`. -/
theorem C44_lmpa_verify_size [DecidableEq G] (cx : Ctx G) (p : NoZK F G) (fuel n : Nat)
    (tr : Transcript) (A : List (List G)) (Gs t : List G) (h : n ≠ Gs.length) :
    p.verify cx fuel tr A Gs n t = .error .assertFail := by
  unfold NoZK.verify
  rw [rassert_false h]; rfl

/-- C44, finding: rows 1, 2, … of `A` and `t` are not checked at all. -/
theorem C44_lmpa_only_row_zero [DecidableEq G] (cx : Ctx G) (p : NoZK F G) (q fuel : Nat)
    (tr : Transcript) (row : List G) (A A' : List (List G)) (Gs : List G) (t0 : G) (t t' : List G)
    (hf : q < fuel) (hG : Gs.length = 2 ^ q) (hA : Width (2 ^ q) (row :: A))
    (hA' : Width (2 ^ q) (row :: A')) :
    p.verify cx fuel tr (row :: A) Gs (2 ^ q) (t0 :: t) =
      p.verify cx fuel tr (row :: A') Gs (2 ^ q) (t0 :: t') := by
  rw [verify_eq cx p q fuel tr _ Gs _ hf hG hA, verify_eq cx p q fuel tr _ Gs _ hf hG hA']
  simp

theorem dot_zeros (w : List F) (N : Nat) : dot w (List.replicate N (0 : G)) = 0 := by
  induction w generalizing N with
  | nil => simp [dot]
  | cons a w ih =>
    cases N with
    | zero => simp [dot]
    | succ N =>
      have := ih N
      simp only [dot, List.replicate_succ, List.zipWith_cons_cons, List.sum_cons, smul_zero,
        zero_add] at this ⊢
      exact this

/-- C44, finding: an accepted proof of a statement with no solution, for every first row, every `w` and
every hash function: second row zero, second entry of `t` non-zero. -/
theorem C44_lmpa_false_statement [DecidableEq G] (cx : Ctx G) (q fuel : Nat) (tr : Transcript)
    (row Gs : List G) (w : List F) (g : G) (hg : g ≠ 0) (hrow : row.length = 2 ^ q)
    (hw : w.length = 2 ^ q) (hG : Gs.length = 2 ^ q) (hf : q < fuel) :
    ∃ (p : NoZK F G) (tr' : Transcript),
      p.verify cx fuel tr [row, List.replicate (2 ^ q) 0] Gs Gs.length [dot w row, g] =
        .ok (true, tr') ∧
      ∀ w' : List F, dot w' (List.replicate (2 ^ q) (0 : G)) ≠ g := by
  have hA : Width (2 ^ q) [row, List.replicate (2 ^ q) 0] := by
    intro r hr
    simp only [List.mem_cons, List.not_mem_nil, or_false] at hr
    rcases hr with rfl | rfl
    · exact hrow
    · simp
  obtain ⟨p, tr', -, h2⟩ := C42_lmpa_completeness cx q fuel tr [row, List.replicate (2 ^ q) 0] Gs w
    (by simp) hA hw hG hf
  refine ⟨p, tr', ?_, ?_⟩
  · rw [← h2, hG]
    exact C44_lmpa_only_row_zero cx p q fuel tr row _ _ Gs _ _ _ hf hG hA hA
  · intro w' h
    apply hg
    rw [← h]
    exact dot_zeros w' _

section
open Toy

def exA : List (List K) := [[3, 5, 8, 13], [21, 34, 55, 89]]
def exGs : List K := [1, 2, 3, 4]

/-- C42, C44: an honest run with two rows is accepted; a wrong first entry of `t` is rejected, a wrong
second entry is not noticed. -/
example : (match Lmpa.create cx 5 ⟨[]⟩ exA exGs [(2 : K), 7, 1, 8] with
    | .error _ => false
    | .ok (p, _) => (p.verify cx 5 ⟨[]⟩ exA exGs 4 [52, 39]).map Prod.fst == .ok true &&
        (p.verify cx 5 ⟨[]⟩ exA exGs 4 [53, 39]).map Prod.fst == .ok false &&
        (p.verify cx 5 ⟨[]⟩ exA exGs 4 [52, 40]).map Prod.fst == .ok true) = true := by
  decide +kernel
end

/-! ### C43: special soundness -/

/-- The check of one conversation for a one-row statement `⟨w, row⟩ = t`: messages `(L_j, R_j)`,
challenges `x_j`, final answer `w`. -/
def Conversation.accepts (row : List G) (t : G) (Ls Rs : List G) (xs : List F) (w : F) : Prop :=
  w • foldedRow xs row = foldedTarget xs Ls Rs t

/-- A tree of conversations that share the messages up to the branching points: every node has the
messages of one round and three challenges. -/
inductive LmpaTree (F G : Type) : Nat → Type
  | leaf (w : F) : LmpaTree F G 0
  | node {q : Nat} (L R : G) (x : Fin 3 → F) (sub : Fin 3 → LmpaTree F G q) : LmpaTree F G (q + 1)

/-- The conversations of a tree. -/
def LmpaTree.paths : {q : Nat} → LmpaTree F G q → List (List G × List G × List F × F)
  | _, .leaf w => [([], [], [], w)]
  | _, .node L R x sub => (List.finRange 3).flatMap fun i =>
      (sub i).paths.map fun c => (L :: c.1, R :: c.2.1, x i :: c.2.2.1, c.2.2.2)

/-- The three challenges of every node are different. -/
def LmpaTree.Distinct : {q : Nat} → LmpaTree F G q → Prop
  | _, .leaf _ => True
  | _, .node _ _ x sub => Function.Injective x ∧ ∀ i, (sub i).Distinct

omit [Field F] [AddCommGroup G] [Module F G] in
theorem LmpaTree.paths_length : {q : Nat} → (T : LmpaTree F G q) → ∀ c ∈ T.paths,
    c.2.2.1.length = q
  | _, .leaf w, c, h => by
    simp only [LmpaTree.paths, List.mem_singleton] at h; subst h; rfl
  | _, .node L R x sub, c, h => by
    simp only [LmpaTree.paths, List.mem_flatMap, List.mem_map] at h
    obtain ⟨i, -, c', h', rfl⟩ := h
    simp [(sub i).paths_length c' h']

/-- The scalars of a tree: all points are erased. -/
def LmpaTree.scalars : {q : Nat} → LmpaTree F G q → LmpaTree F Unit q
  | _, .leaf w => .leaf w
  | _, .node _ _ x sub => .node () () x fun i => (sub i).scalars

/-- The coefficients that pick the middle coefficient of a quadratic polynomial from its values. -/
def middle3 (x : Fin 3 → F) : Fin 3 → F :=
  ![-(x 1 + x 2) / ((x 0 - x 1) * (x 0 - x 2)), (x 0 + x 2) / ((x 0 - x 1) * (x 1 - x 2)),
    -(x 0 + x 1) / ((x 0 - x 2) * (x 1 - x 2))]

theorem middle3_pow (x : Fin 3 → F) (hx : Function.Injective x) :
    ∑ i, middle3 x i = 0 ∧ ∑ i, middle3 x i * x i = 1 ∧ ∑ i, middle3 x i * (x i * x i) = 0 := by
  have h01 : x 0 - x 1 ≠ 0 := sub_ne_zero.2 fun h => by simpa using hx h
  have h02 : x 0 - x 2 ≠ 0 := sub_ne_zero.2 fun h => by simpa using hx h
  have h12 : x 1 - x 2 ≠ 0 := sub_ne_zero.2 fun h => by simpa using hx h
  unfold middle3
  refine ⟨?_, ?_, ?_⟩
  · simp only [Fin.sum_univ_three, Matrix.cons_val_zero, Matrix.cons_val_one, Matrix.cons_val]
    field_simp
    ring
  · simp only [Fin.sum_univ_three, Matrix.cons_val_zero, Matrix.cons_val_one, Matrix.cons_val]
    field_simp
    ring
  · simp only [Fin.sum_univ_three, Matrix.cons_val_zero, Matrix.cons_val_one, Matrix.cons_val]
    field_simp
    ring

/-- The linear combination of three vectors. -/
def comb3 (e : Fin 3 → F) (w : Fin 3 → List F) : List F :=
  List.zipWith (fun u v => 1 * u + e 2 * v) (List.zipWith (fun u v => e 0 * u + e 1 * v) (w 0) (w 1)) (w 2)

/-- The extractor. It is given the scalars of a tree only, so that it cannot make use of discrete
logarithms. -/
def extractLmpa : {q : Nat} → LmpaTree F Unit q → List F
  | _, .leaf w => [w]
  | _, .node _ _ x sub => comb3 (middle3 x) (fun i => extractLmpa (sub i)) ++
      comb3 (fun i => middle3 x i * x i) fun i => extractLmpa (sub i)

/-- One round: three pre-images for the folded row make one for the row. -/
theorem lmpa_combine {q : Nat} (row : List G) (hrow : row.length = 2 ^ (q + 1)) (x : Fin 3 → F)
    (hx : Function.Injective x) (w : Fin 3 → List F) (hw : ∀ i, (w i).length = 2 ^ q) (L R t : G)
    (hdot : ∀ i, dot (w i) (foldRow (x i) row) = L + x i • t + (x i * x i) • R) :
    (comb3 (middle3 x) w ++ comb3 (fun i => middle3 x i * x i) w).length = 2 ^ (q + 1) ∧
      dot (comb3 (middle3 x) w ++ comb3 (fun i => middle3 x i * x i) w) row = t := by
  obtain ⟨c0, c1, c2⟩ := middle3_pow x hx
  generalize middle3 x = c at *
  have hh : row.length / 2 = 2 ^ q := by rw [hrow, pow_succ]; omega
  have hl : (row.take (row.length / 2)).length = (row.drop (row.length / 2)).length := by
    simp [hrow]; rw [pow_succ]; omega
  set a0 := row.take (row.length / 2) with ha0
  set a1 := row.drop (row.length / 2) with ha1
  have hla0 : a0.length = 2 ^ q := by simp [ha0, hrow]; rw [pow_succ]; omega
  have hfold : ∀ i, dot (w i) a0 + x i • dot (w i) a1 = L + x i • t + (x i * x i) • R := by
    intro i
    rw [← hdot i]
    have := dot_comb_right 1 (x i) (w i) hl
    simp only [one_smul] at this
    rw [← this]; rfl
  -- sums of the three witnesses
  have hsum : ∀ e : Fin 3 → F, (comb3 e w).length = 2 ^ q ∧ ∀ p : List G,
      dot (comb3 e w) p = ∑ i, e i • dot (w i) p := by
    intro e
    refine ⟨by simp [comb3, hw], ?_⟩
    intro p
    rw [comb3, dot_comb_left 1 (e 2) p (by simp [hw]), dot_comb_left (e 0) (e 1) p (by simp [hw]),
      Fin.sum_univ_three, one_smul]
  obtain ⟨l0, d0⟩ := hsum c
  obtain ⟨l1, d1⟩ := hsum fun i => c i * x i
  refine ⟨by simp [l0, l1]; rw [pow_succ]; omega, ?_⟩
  have hrow2 : row = a0 ++ a1 := (List.take_append_drop _ _).symm
  rw [hrow2, dot_append (by rw [l0, hla0]), d0, d1, ← Finset.sum_add_distrib]
  have : ∀ i, c i • dot (w i) a0 + (c i * x i) • dot (w i) a1 =
      c i • L + (c i * x i) • t + (c i * (x i * x i)) • R := by
    intro i
    rw [mul_smul, ← smul_add, hfold i, smul_add, smul_add, smul_smul, smul_smul]
  rw [Finset.sum_congr rfl fun i _ => this i, Finset.sum_add_distrib, Finset.sum_add_distrib,
    ← Finset.sum_smul, ← Finset.sum_smul, ← Finset.sum_smul, c0, c1, c2]
  simp

/-- C43: special soundness. If all conversations of a tree with three different challenges per round are
accepting, then the extractor computes `w` with `⟨w, row⟩ = t` from the scalars of the tree. Nothing is
assumed about the points of the row. (`G` may be `Gᵐ`, so that this is also the soundness of a verifier that
compares all `m` rows.) -/
theorem C43_lmpa_special_soundness : {q : Nat} → (T : LmpaTree F G q) → T.Distinct →
    (row : List G) → row.length = 2 ^ q → (t : G) →
    (∀ c ∈ T.paths, Conversation.accepts row t c.1 c.2.1 c.2.2.1 c.2.2.2) →
    (extractLmpa T.scalars).length = 2 ^ q ∧ dot (extractLmpa T.scalars) row = t
  | _, .leaf w, _, row, hrow, t, h => by
    rw [pow_zero, List.length_eq_one_iff] at hrow
    obtain ⟨a, rfl⟩ := hrow
    have := h ([], [], [], w) (by simp [LmpaTree.paths])
    refine ⟨rfl, ?_⟩
    simpa [Conversation.accepts, foldedRow, foldedTarget, weightG, dot, extractLmpa, LmpaTree.scalars] using this
  | q + 1, .node L R x sub, hd, row, hrow, t, h => by
    obtain ⟨hx, hd⟩ := hd
    have ih : ∀ i, (extractLmpa (sub i).scalars).length = 2 ^ q ∧
        dot (extractLmpa (sub i).scalars) (foldRow (x i) row) = L + x i • t + (x i * x i) • R := by
      intro i
      refine C43_lmpa_special_soundness (sub i) (hd i) (foldRow (x i) row)
        (by rw [foldRow_length, hrow, pow_succ]; omega) _ ?_
      intro c hc
      have h1 := h (L :: c.1, R :: c.2.1, x i :: c.2.2.1, c.2.2.2) (by
        simp only [LmpaTree.paths, List.mem_flatMap, List.mem_map]
        exact ⟨i, List.mem_finRange i, c, hc, rfl⟩)
      unfold Conversation.accepts at h1 ⊢
      rw [foldedTarget_cons, ← foldedRow_fold _ _ _ (by rw [(sub i).paths_length c hc]; exact hrow)]
        at h1
      exact h1
    simp only [LmpaTree.scalars, extractLmpa]
    exact lmpa_combine row hrow x hx (fun i => extractLmpa (sub i).scalars) (fun i => (ih i).1) L R t
      fun i => (ih i).2

/-- C43: the check of the code on a one-row statement is the check of the conversation with the
Fiat-Shamir challenges. -/
theorem C43_lmpa_verify_one_row [DecidableEq G] (cx : Ctx G) (q fuel : Nat) (tr : Transcript)
    (row Gs Ls Rs : List G) (w : F) (t : G) (hf : q < fuel) (hG : Gs.length = 2 ^ q)
    (hrow : row.length = 2 ^ q) (hL : Ls.length = q) (hR : Rs.length = q) :
    let p : NoZK F G := ⟨Ls.map fun L => [L], Rs.map fun R => [R], w⟩
    ∃ b tr', p.verify cx fuel tr [row] Gs (2 ^ q) [t] = .ok (b, tr') ∧
      (b = true ↔ Conversation.accepts row t Ls Rs (lmpaChallenges F cx tr.log p.L_Vec p.R_Vec) w) := by
  intro p
  have hA : Width (2 ^ q) [row] := by
    intro r hr; rw [List.mem_singleton.1 hr]; exact hrow
  have e1 : p.L_Vec.take q = p.L_Vec := List.take_of_length_le (by simp [p, hL])
  have e2 : p.R_Vec.take q = p.R_Vec := List.take_of_length_le (by simp [p, hR])
  rw [verify_eq cx p q fuel tr [row] Gs [t] hf hG hA]
  simp only [e1, e2]
  rw [if_pos]
  · refine ⟨_, _, rfl, ?_⟩
    have c1 : column p.L_Vec 0 = Ls := by simp [column, p, Function.comp_def]
    have c2 : column p.R_Vec 0 = Rs := by simp [column, p, Function.comp_def]
    rw [decide_eq_true_eq, c1, c2]; rfl
  · refine ⟨by simp [p, hL], by simp [p, hR], by simp, by simp, ?_, ?_⟩
    · intro L hL; obtain ⟨_, -, rfl⟩ := List.mem_map.1 hL; simp
    · intro L hL; obtain ⟨_, -, rfl⟩ := List.mem_map.1 hL; simp

section
open Toy
/-- C43: a tree of three accepting conversations for the row `(3, 5)` and `t = 41 = 7·3 + 4·5`, with
`L = 4·3` and `R = 7·5`. -/
example : ∀ c ∈ (LmpaTree.node (12 : K) 35 ![1, 2, 3] ![.leaf (11 : K), .leaf 18, .leaf 25]).paths,
    c.2.2.2 • foldedRow c.2.2.1 [(3 : K), 5] = foldedTarget c.2.2.1 c.1 c.2.1 (41 : K) := by
  decide +kernel

/-- C43: the extractor finds the witness of this tree. -/
example : extractLmpa (LmpaTree.node (12 : K) 35 ![1, 2, 3] ![.leaf (11 : K), .leaf 18, .leaf 25]).scalars =
    [7, 4] := by
  decide +kernel
end

/-! ### C45: the statement is not hashed -/

/-- C45, finding: what `verify` hashes, and hence every challenge, does not depend on `A` or `t`. -/
theorem C45_lmpa_challenges_ignore_statement [DecidableEq G] (cx : Ctx G) (p : NoZK F G)
    (q fuel : Nat) (tr tr1 tr2 : Transcript) (A A' : List (List G)) (Gs : List G) (t t' : List G)
    (b b' : Bool) (hf : q < fuel) (hG : Gs.length = 2 ^ q) (hA : Width (2 ^ q) A)
    (hA' : Width (2 ^ q) A') (h : p.verify cx fuel tr A Gs (2 ^ q) t = .ok (b, tr1))
    (h' : p.verify cx fuel tr A' Gs (2 ^ q) t' = .ok (b', tr2)) : tr1 = tr2 := by
  rw [verify_eq cx p q fuel tr _ Gs _ hf hG hA] at h
  rw [verify_eq cx p q fuel tr _ Gs _ hf hG hA'] at h'
  simp only at h h'
  split at h
  · split at h'
    · simp only [Except.ok.injEq, Prod.mk.injEq] at h h'
      rw [← h.2, ← h'.2]
    · cases h'
  · cases h

/-- C45, finding: for *every* proof with non-zero challenges and every matrix there is exactly one first
entry of `t` for which `verify` accepts. It can be computed after the challenges. -/
theorem C45_lmpa_target_after_challenges [DecidableEq G] (cx : Ctx G) (q fuel : Nat) (tr : Transcript)
    (row Gs Ls Rs : List G) (w : F) (hf : q < fuel) (hG : Gs.length = 2 ^ q)
    (hrow : row.length = 2 ^ q) (hL : Ls.length = q) (hR : Rs.length = q)
    (hx : ∀ x ∈ lmpaChallenges F cx tr.log (Ls.map fun L => [L]) (Rs.map fun R => [R]), x ≠ 0) :
    let p : NoZK F G := ⟨Ls.map fun L => [L], Rs.map fun R => [R], w⟩
    ∃! t : G, ∃ tr', p.verify cx fuel tr [row] Gs (2 ^ q) [t] = .ok (true, tr') := by
  intro p
  have key : ∀ t : G, (∃ tr', p.verify cx fuel tr [row] Gs (2 ^ q) [t] = .ok (true, tr')) ↔
      Conversation.accepts row t Ls Rs (lmpaChallenges F cx tr.log p.L_Vec p.R_Vec) w := by
    intro t
    obtain ⟨b, tr', h1, h2⟩ := C43_lmpa_verify_one_row cx q fuel tr row Gs Ls Rs w t hf hG hrow hL hR
    rw [← h2, h1]
    constructor
    · rintro ⟨_, h⟩; cases h; rfl
    · rintro rfl; exact ⟨_, rfl⟩
  simp only [key]
  set xs := lmpaChallenges F cx tr.log p.L_Vec p.R_Vec with hxs
  have hprod : xs.prod ≠ 0 := by
    rw [Ne, List.prod_eq_zero_iff]
    exact fun h => hx 0 h rfl
  have eq : ∀ t : G, Conversation.accepts row t Ls Rs xs w ↔
      t = xs.prod⁻¹ • (w • foldedRow xs row - foldedTarget xs Ls Rs 0) := by
    intro t
    unfold Conversation.accepts
    have : foldedTarget xs Ls Rs t = xs.prod • t + foldedTarget xs Ls Rs 0 := by
      simp [foldedTarget]
    rw [this]
    constructor
    · intro h
      rw [h, add_sub_cancel_right, smul_smul, inv_mul_cancel₀ hprod, one_smul]
    · intro h
      rw [h, smul_smul, mul_inv_cancel₀ hprod, one_smul, sub_add_cancel]
  simp only [eq]
  exact ⟨_, rfl, fun _ h => h⟩

theorem foldedRow_zero (xs : List F) (N : Nat) : foldedRow xs (List.replicate N (0 : G)) = 0 := by
  unfold foldedRow
  apply Finset.sum_eq_zero
  intro i _
  simp [List.getD, List.getElem?_replicate]
  split <;> simp

theorem foldedTarget_zeros (xs : List F) (N M : Nat) (t : G) :
    foldedTarget xs (List.replicate N (0 : G)) (List.replicate M 0) t = xs.prod • t := by
  unfold foldedTarget
  rw [Finset.sum_eq_zero, add_zero]
  intro i _
  have : ∀ N, (List.replicate N (0 : G)).getD i 0 = 0 := by
    intro N
    simp [List.getD, List.getElem?_replicate]
    split <;> simp
  rw [this, this]; simp

/-- C45, finding: false statements are accepted even for one row. For the zero row of length
`2 ^ (q + 1)` and every `g ≠ 0` there is a non-zero multiple `t` of `g` with an accepted proof, provided
that the first challenge is not zero; of course no `w` has `⟨w, 0⟩ = t`. -/
theorem C45_lmpa_false_statement [DecidableEq G] (cx : Ctx G) (q fuel : Nat) (tr : Transcript)
    (Gs : List G) (g : G) (hg : g ≠ 0) (hf : q + 1 < fuel) (hG : Gs.length = 2 ^ (q + 1))
    (hx : squeeze F cx.ro (tr.log ++ [.msg "L" (cx.compress g), .msg "R" (cx.compress 0),
      .chal "challenge" 64]) ≠ 0) :
    ∃ (p : NoZK F G) (t : G) (tr' : Transcript),
      p.verify cx fuel tr [List.replicate (2 ^ (q + 1)) 0] Gs (2 ^ (q + 1)) [t] = .ok (true, tr') ∧
      ∀ w' : List F, dot w' (List.replicate (2 ^ (q + 1)) (0 : G)) ≠ t := by
  set x := squeeze F cx.ro (tr.log ++ [.msg "L" (cx.compress g), .msg "R" (cx.compress 0),
      .chal "challenge" 64]) with hx'
  refine ⟨⟨(g :: List.replicate q 0).map fun L => [L], (List.replicate (q + 1) 0).map fun R => [R], 0⟩,
    -(x⁻¹ • g), ?_⟩
  obtain ⟨b, tr', h1, h2⟩ := C43_lmpa_verify_one_row cx (q + 1) fuel tr (List.replicate (2 ^ (q + 1)) 0)
    Gs (g :: List.replicate q 0) (List.replicate (q + 1) 0) (0 : F) (-(x⁻¹ • g)) hf hG (by simp) (by simp)
    (by simp)
  refine ⟨tr', ?_, ?_⟩
  · rw [h1]
    have : b = true := by
      rw [h2]
      unfold Conversation.accepts
      rw [zero_smul, List.map_cons, List.replicate_succ, List.map_cons, lmpaChallenges_cons]
      have e : lmpaRoundLog cx ([g], [0]) = [.msg "L" (cx.compress g), .msg "R" (cx.compress 0),
        .chal "challenge" 64] := rfl
      rw [e, ← hx', foldedTarget_cons, foldedTarget_zeros]
      simp [smul_smul, mul_inv_cancel₀ hx]
    rw [this]
  · intro w' h
    rw [dot_zeros] at h
    have h0 : x⁻¹ • g = 0 := neg_eq_zero.1 h.symm
    have := congrArg (x • ·) h0
    simp only [smul_smul, mul_inv_cancel₀ hx, one_smul, smul_zero] at this
    exact hg this

section
open Toy
/-- C45: `0 · w = t` is accepted for a non-zero `t`. -/
example : (match (fun t : K => (⟨[[1], [0]], [[0], [0]], 0⟩ : NoZK K K).verify cx 5 ⟨[]⟩ [[0, 0, 0, 0]]
    exGs 4 [t]) (-(squeeze K cx.ro [.msg "L" (cx.compress (1 : K)), .msg "R" (cx.compress 0),
      .chal "challenge" 64])⁻¹) with
    | .ok (b, _) => b && (squeeze K cx.ro [.msg "L" (cx.compress (1 : K)), .msg "R" (cx.compress 0),
      .chal "challenge" 64]) != 0
    | .error _ => false) = true := by
  decide +kernel
end

end Qesa.Props
