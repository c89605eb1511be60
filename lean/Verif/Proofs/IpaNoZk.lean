import Verif.Model.IpaNoZk
import Verif.Proofs.Lists
/- Helper lemmas about the inner-product argument. -/
namespace Qesa.Ipa
open Qesa Spec
variable {F G : Type} [Field F] [AddCommGroup G] [Module F G]

theorem zipWith_eq_comb {M : Type} [AddCommGroup M] [Module F M] (x : F) (l r : List M) :
    List.zipWith (fun l r => l + x • r) l r =
      List.zipWith (fun a b => (1 : F) • a + x • b) l r := by
  congr 1; funext a b; simp

theorem zipWith_eq_comb' {M : Type} [AddCommGroup M] [Module F M] (x : F) (l r : List M) :
    List.zipWith (fun l r => x • l + r) l r =
      List.zipWith (fun a b => x • a + (1 : F) • b) l r := by
  congr 1; funext a b; simp

theorem foldA_dot (x : F) {aL aR : List F} {GL GR : List G} (h1 : aL.length = aR.length)
    (h2 : GL.length = GR.length) :
    dot (List.zipWith (fun l r => l * x + r) aL aR) (List.zipWith (fun l r => l + x • r) GL GR) =
      x • (dot aL GL + dot aR GR) + (x * x) • dot aL GR + dot aR GL := by
  have e : (fun l r : F => l * x + r) = fun a b => x * a + 1 * b := by funext a b; ring
  rw [e, zipWith_eq_comb, dot_comb_left _ _ _ h1, dot_comb_right _ _ _ h2,
    dot_comb_right _ _ _ h2]
  module

theorem foldB_dot (x : F) {bL bR : List F} {HL HR : List G} (h1 : bL.length = bR.length)
    (h2 : HL.length = HR.length) :
    dot (List.zipWith (fun l r => l + x * r) bL bR) (List.zipWith (fun l r => x • l + r) HL HR) =
      x • (dot bL HL + dot bR HR) + (x * x) • dot bR HL + dot bL HR := by
  have e : (fun l r : F => l + x * r) = fun a b => 1 * a + x * b := by funext a b; ring
  rw [e, zipWith_eq_comb', dot_comb_left _ _ _ h1, dot_comb_right _ _ _ h2,
    dot_comb_right _ _ _ h2]
  module

/-- The two folds at once: `⟨a', b'⟩`. -/
theorem foldAB_dot (x : F) {aL aR bL bR : List F} (h1 : aL.length = aR.length)
    (h2 : bL.length = bR.length) :
    dot (List.zipWith (fun l r => l * x + r) aL aR) (List.zipWith (fun l r => l + x * r) bL bR) =
      x * (dot aL bL + dot aR bR) + (x * x) * dot aL bR + dot aR bL := by
  have := foldA_dot (G := F) x h1 h2
  simpa using this

/-- `⟨a,G⟩ + ⟨b,H⟩ + ⟨a,b⟩•Q`. -/
def com (a b : List F) (Gs Hs : List G) (Q : G) : G := dot a Gs + dot b Hs + dot a b • Q

theorem foldHalf_eq {α : Type} {f : α → α → α} {l r : List α} (h : l.length ≤ r.length) :
    foldHalf f l r = .ok (List.zipWith f l r) := by simp [foldHalf, h]

theorem vectorVectorAdd_left (l r : List G) (x : F) :
    vectorVectorAdd l (vectorScalarMul r x) = List.zipWith (fun l r => l + x • r) l r := by
  simp [vectorVectorAdd, vectorScalarMul, List.zipWith_map_right]

theorem vectorVectorAdd_right (l r : List G) (x : F) :
    vectorVectorAdd (vectorScalarMul l x) r = List.zipWith (fun l r => x • l + r) l r := by
  simp [vectorVectorAdd, vectorScalarMul, List.zipWith_map_left]

/-- What one run of the prover's loop achieves, and how the verifier's loops relate to it. -/
theorem createLoop_spec (cx : Ctx G) (Q : G) : ∀ (k fuel : Nat), k < fuel →
    ∀ (a b : List F) (Gs Hs : List G) (tr : Transcript),
    a.length = 2 ^ k → b.length = 2 ^ k → Gs.length = 2 ^ k → Hs.length = 2 ^ k →
    ∃ (p : NoZK F) (tr' : Transcript) (Ls Rs : List G) (xs : List F) (g h : G),
      createLoop cx Q fuel (2 ^ k) a b Gs Hs tr = .ok (p, tr') ∧
      p.L_vec = Ls.map cx.compress ∧ p.R_vec = Rs.map cx.compress ∧
      Ls.length = k ∧ Rs.length = k ∧ xs.length = k ∧
      generateChallenges cx.ro p.L_vec p.R_vec tr = (xs, tr') ∧
      foldGens (2 ^ k) Gs Hs xs = .ok ([g], [h]) ∧
      ∀ P, foldP Ls Rs xs P =
        p.a • g + p.b • h + (p.a * p.b) • Q + xs.prod • (P - com a b Gs Hs Q) := by
  intro k
  induction k with
  | zero =>
    intro fuel hf a b Gs Hs tr ha hb hG hH
    obtain ⟨fuel, rfl⟩ : ∃ f, fuel = f + 1 := ⟨fuel - 1, by omega⟩
    obtain ⟨a0, rfl⟩ := List.length_eq_one_iff.1 (by simpa using ha)
    obtain ⟨b0, rfl⟩ := List.length_eq_one_iff.1 (by simpa using hb)
    obtain ⟨g, rfl⟩ := List.length_eq_one_iff.1 (by simpa using hG)
    obtain ⟨h, rfl⟩ := List.length_eq_one_iff.1 (by simpa using hH)
    refine ⟨⟨[], [], a0, b0⟩, tr, [], [], [], g, h, ?_, rfl, rfl, rfl, rfl, rfl, rfl, rfl, ?_⟩
    · simp [createLoop]
    · intro P; simp [foldP, com]
  | succ k ih =>
    intro fuel hf a b Gs Hs tr ha hb hG hH
    obtain ⟨fuel, rfl⟩ : ∃ f, fuel = f + 1 := ⟨fuel - 1, by omega⟩
    have h2 : 2 ^ (k + 1) / 2 = 2 ^ k := by rw [pow_succ]; omega
    have hp : 2 ^ (k + 1) = 2 ^ k + 2 ^ k := by rw [pow_succ]; omega
    have hk : 0 < 2 ^ k := Nat.pos_of_ne_zero (by simp)
    have hn : (2 : Nat) ^ (k + 1) ≠ 1 := by omega
    set n := 2 ^ k with hn'
    -- halves
    have l1 : ∀ {α : Type} {l : List α}, l.length = 2 ^ (k + 1) → (l.take n).length = n := by
      intro α l hl; simp; omega
    have l2 : ∀ {α : Type} {l : List α}, l.length = 2 ^ (k + 1) → (l.drop n).length = n := by
      intro α l hl; simp; omega
    set L : G := dot (a.take n ++ b.drop n ++ [innerProduct (a.take n) (b.drop n)])
      (Gs.drop n ++ Hs.take n ++ [Q]) with hL
    set Rp : G := dot (a.drop n ++ b.take n ++ [innerProduct (a.drop n) (b.take n)])
      (Gs.take n ++ (Hs.drop n ++ [Q])) with hR
    set trL := (tr.appendMessage "L" (cx.compress L)).appendMessage "R" (cx.compress Rp) with htrL
    set x : F := (challengeScalar (F := F) cx.ro trL "x_i").1 with hx
    set trx := (challengeScalar (F := F) cx.ro trL "x_i").2 with htrx
    set a' := List.zipWith (fun l r => l * x + r) (a.take n) (a.drop n) with ha'
    set b' := List.zipWith (fun l r => l + x * r) (b.take n) (b.drop n) with hb'
    set G' := List.zipWith (fun l r => l + x • r) (Gs.take n) (Gs.drop n) with hG'
    set H' := List.zipWith (fun l r => x • l + r) (Hs.take n) (Hs.drop n) with hH'
    obtain ⟨p, tr', Ls, Rs, xs, g, h, e1, e2, e3, e4, e5, e6, e7, e8, e9⟩ :=
      ih fuel (by omega) a' b' G' H' trx
        (by simp only [ha', List.length_zipWith, l1 ha, l2 ha, min_self])
        (by simp only [hb', List.length_zipWith, l1 hb, l2 hb, min_self])
        (by simp only [hG', List.length_zipWith, l1 hG, l2 hG, min_self])
        (by simp only [hH', List.length_zipWith, l1 hH, l2 hH, min_self])
    refine ⟨⟨cx.compress L :: p.L_vec, cx.compress Rp :: p.R_vec, p.a, p.b⟩, tr', L :: Ls,
      Rp :: Rs, x :: xs, g, h, ?_, ?_, ?_, ?_, ?_, ?_, ?_, ?_, ?_⟩
    · rw [createLoop, if_neg hn]
      simp only [h2]
      rw [splitAtR_le (by omega), splitAtR_le (by omega), splitAtR_le (by omega),
        splitAtR_le (by omega)]
      simp only [ok_bind]
      rw [msm_eq (by simp only [List.length_append, l1 ha, l2 hb, l2 hG, l1 hH]; simp)]
      simp only [ok_bind]
      rw [msm_eq (by simp only [List.length_append, l2 ha, l1 hb, l1 hG, l2 hH]; simp; omega)]
      simp only [ok_bind]
      rw [foldHalf_eq (by rw [l1 ha, l2 ha])]
      simp only [ok_bind]
      rw [foldHalf_eq (by rw [l1 hb, l2 hb])]
      simp only [ok_bind]
      rw [foldHalf_eq (by rw [l1 hG, l2 hG])]
      simp only [ok_bind]
      rw [foldHalf_eq (by rw [l1 hH, l2 hH])]
      simp only [ok_bind]
      have := e1
      simp only [← hL, ← hR, ← htrL, ← hx, ← htrx, ← ha', ← hb', ← hG', ← hH', this, ok_bind]
      rfl
    · simp [e2]
    · simp [e3]
    · simp [e4]
    · simp [e5]
    · simp [e6]
    · simp only [generateChallenges, ← htrL, ← hx, ← htrx, e7]
    · rw [foldGens]
      simp only [h2]
      rw [splitAtR_le (by omega), splitAtR_le (by omega)]
      simp only [ok_bind, vectorVectorAdd_left, vectorVectorAdd_right]
      exact e8
    · intro P
      rw [foldP, e9]
      congr 1
      have ea : com a' b' G' H' Q = (x * x) • L + x • com a b Gs Hs Q + Rp := by
        unfold com
        rw [ha', hb', hG', hH', foldA_dot x (by rw [l1 ha, l2 ha]) (by rw [l1 hG, l2 hG]),
          foldB_dot x (by rw [l1 hb, l2 hb]) (by rw [l1 hH, l2 hH]),
          foldAB_dot x (by rw [l1 ha, l2 ha]) (by rw [l1 hb, l2 hb]),
          ← dot_take_drop n (s := a) (p := Gs) (by omega),
          ← dot_take_drop n (s := b) (p := Hs) (by omega),
          ← dot_take_drop n (s := a) (p := b) (by omega), hL, hR,
          dot_append (by simp only [List.length_append, l1 ha, l2 hb, l2 hG, l1 hH]),
          dot_append (by rw [l1 ha, l2 hG]),
          List.append_assoc, dot_append (by rw [l2 ha, l1 hG]),
          dot_append (by rw [l1 hb, l2 hH])]
        simp only [dot_cons, dot_nil_left, innerProduct_eq_dot]
        module
      rw [ea, List.prod_cons]; module

end Qesa.Ipa
