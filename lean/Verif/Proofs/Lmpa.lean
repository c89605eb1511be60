import Verif.SpecLmpa
import Verif.Model.Lmpa
import Verif.Proofs.IpaVerify
import Verif.Proofs.Matrix
/- The binary linear-map argument: closed forms of prover and verifier. -/
namespace Qesa.Lmpa
open Qesa Spec Ipa
set_option linter.unusedSectionVars false
variable {F G : Type} [Field F] [AddCommGroup G] [Module F G]

theorem absorb_eq (cx : Ctx G) (label : String) (ps : List G) (tr : Transcript) :
    absorb cx label ps tr = ⟨tr.log ++ pointsLog cx label ps⟩ := by
  induction ps generalizing tr with
  | nil => simp [absorb, pointsLog]
  | cons p ps ih => simp [absorb, ih, Transcript.appendMessage, pointsLog]

theorem lmpaLog_cons (cx : Ctx G) (L R : List G) (Ls Rs : List (List G)) :
    lmpaLog cx (L :: Ls) (R :: Rs) = lmpaRoundLog cx (L, R) ++ lmpaLog cx Ls Rs := by
  simp [lmpaLog]

theorem lmpaChallenges_cons (cx : Ctx G) (log : List Event) (L R : List G) (Ls Rs : List (List G)) :
    lmpaChallenges F cx log (L :: Ls) (R :: Rs) =
      squeeze F cx.ro (log ++ lmpaRoundLog cx (L, R)) ::
        lmpaChallenges F cx (log ++ lmpaRoundLog cx (L, R)) Ls Rs := by
  unfold lmpaChallenges
  have : min (L :: Ls).length (R :: Rs).length = min Ls.length Rs.length + 1 := by simp
  rw [this, List.range_succ_eq_map]
  simp only [List.map_cons, List.map_map, List.cons.injEq]
  constructor
  · simp [lmpaLog]
  · apply List.map_congr_left
    intro j _
    simp [List.take_succ_cons, lmpaLog_cons]

theorem lmpaChallenges_length (cx : Ctx G) (log : List Event) (Ls Rs : List (List G)) :
    (lmpaChallenges F cx log Ls Rs).length = min Ls.length Rs.length := by
  simp [lmpaChallenges]

/-! ### Folding -/

/-- One row folded with the challenge `x`. -/
def foldRow (x : F) (row : List G) : List G :=
  List.zipWith (fun a b => a + x • b) (row.take (row.length / 2)) (row.drop (row.length / 2))

theorem foldA_eq (A : List (List G)) (x : F) (h : ∀ row ∈ A, row.length % 2 = 0) :
    matrixpointMatrixAdd (leftHalves A) (matrixpointScalarMul (rightHalves A) x) =
      .ok (A.map (foldRow x)) := by
  unfold matrixpointMatrixAdd
  rw [rassert_true (by simp [leftHalves, rightHalves, matrixpointScalarMul]), ok_bind]
  induction A with
  | nil => rfl
  | cons row A ih =>
    have ih := ih fun r hr => h r (List.mem_cons_of_mem _ hr)
    have he := h row List.mem_cons_self
    simp only [leftHalves, rightHalves, matrixpointScalarMul, List.map_cons, zipWithR] at ih ⊢
    rw [ih]
    have : rowpointRowpointAdd (row.take (row.length / 2))
        ((row.drop (row.length / 2)).map fun e => x • e) = .ok (foldRow x row) := by
      unfold rowpointRowpointAdd
      rw [rassert_true, ok_bind]
      · rw [foldRow, List.zipWith_map_right]; rfl
      · simp; omega
    rw [this]; rfl

theorem foldA_error (A : List (List G)) (x : F) (h : ∃ row ∈ A, row.length % 2 ≠ 0) :
    matrixpointMatrixAdd (leftHalves A) (matrixpointScalarMul (rightHalves A) x) =
      .error .assertFail := by
  unfold matrixpointMatrixAdd
  rw [rassert_true (by simp [leftHalves, rightHalves, matrixpointScalarMul]), ok_bind]
  induction A with
  | nil => simp at h
  | cons row A ih =>
    simp only [leftHalves, rightHalves, matrixpointScalarMul, List.map_cons, zipWithR] at ih ⊢
    by_cases he : row.length % 2 = 0
    · have : rowpointRowpointAdd (row.take (row.length / 2))
          ((row.drop (row.length / 2)).map fun e => x • e) = .ok (foldRow x row) := by
        unfold rowpointRowpointAdd
        rw [rassert_true, ok_bind]
        · rw [foldRow, List.zipWith_map_right]; rfl
        · simp; omega
      have h' : ∃ row ∈ A, row.length % 2 ≠ 0 := by
        obtain ⟨r, hr, h1⟩ := h
        rcases List.mem_cons.1 hr with rfl | hr
        · exact absurd he h1
        · exact ⟨r, hr, h1⟩
      rw [this, ok_bind, ih h']; rfl
    · have : rowpointRowpointAdd (row.take (row.length / 2))
          ((row.drop (row.length / 2)).map fun e => x • e) = .error .assertFail := by
        unfold rowpointRowpointAdd
        rw [rassert_false]
        · rfl
        · simp; omega
      rw [this]; rfl

theorem foldRow_length (x : F) (row : List G) : (foldRow x row).length = row.length / 2 := by
  simp [foldRow]; omega

theorem foldedRow_fold (x : F) (xs : List F) (row : List G) (h : row.length = 2 ^ (xs.length + 1)) :
    foldedRow xs (foldRow x row) = foldedRow (x :: xs) row := by
  have hh : row.length / 2 = 2 ^ xs.length := by rw [h, pow_succ]; omega
  have := combined_step (1 : F) x (weightG xs) (weightG (x :: xs)) xs.length xs.length row
    (fun i hi => by rw [one_mul]; exact Ipa.weightG_cons_lt x xs hi)
    (fun i hi => Ipa.weightG_cons_ge x xs hi) le_rfl (by rw [h]; simp)
  simp only [combined, Nat.sub_self, pow_zero, mul_one, one_smul] at this
  unfold foldedRow foldRow
  rw [hh]
  exact this

theorem foldedTarget_cons (x : F) (xs : List F) (L R : G) (Ls Rs : List G) (t : G) :
    foldedTarget (x :: xs) (L :: Ls) (R :: Rs) t =
      foldedTarget xs Ls Rs (L + x • t + (x * x) • R) := by
  unfold foldedTarget
  rw [List.length_cons, Finset.sum_range_succ', List.prod_cons]
  simp only [List.drop_succ_cons, List.getD_cons_succ, List.getD_cons_zero, List.drop_zero, smul_add,
    smul_smul]
  rw [mul_comm x]
  abel

/-- The targets after all rounds. -/
def foldTs : List F → List (List G) → List (List G) → List G → List G
  | x :: xs, L :: Ls, R :: Rs, t => foldTs xs Ls Rs (foldT x L R t)
  | _, _, _, t => t

theorem foldT_getElem? (x : F) (L R t : List G) (i : Nat) :
    (foldT x L R t)[i]? = match L[i]?, R[i]?, t[i]? with
      | some l, some r, some t => some (l + x • t + (x * x) • r)
      | _, _, _ => none := by
  induction L generalizing R t i with
  | nil => simp [foldT]
  | cons l L ih =>
    cases R with
    | nil => cases h : (l :: L)[i]? <;> simp [foldT]
    | cons r R =>
      cases t with
      | nil => cases h : (l :: L)[i]? <;> cases h' : (r :: R)[i]? <;> simp [foldT]
      | cons t ts =>
        cases i with
        | zero => simp [foldT]
        | succ i => simp [foldT, ih]

theorem foldTs_getElem? (xs : List F) (Ls Rs : List (List G)) (t : List G) (i : Nat)
    (hL : Ls.length = xs.length) (hR : Rs.length = xs.length) :
    (foldTs xs Ls Rs t)[i]? =
      if i < t.length ∧ (∀ L ∈ Ls, i < L.length) ∧ (∀ R ∈ Rs, i < R.length) then
        some (foldedTarget xs (column Ls i) (column Rs i) (t.getD i 0)) else none := by
  induction xs generalizing Ls Rs t with
  | nil =>
    rw [List.length_nil, List.length_eq_zero_iff] at hL hR
    subst hL hR
    by_cases h : i < t.length
    · simp [foldTs, foldedTarget, h]
    · simp [foldTs, h]
  | cons x xs ih =>
    obtain ⟨L, Ls, rfl⟩ := List.exists_cons_of_length_eq_add_one hL
    obtain ⟨R, Rs, rfl⟩ := List.exists_cons_of_length_eq_add_one hR
    rw [foldTs, ih Ls Rs _ (by simpa using hL) (by simpa using hR)]
    have key : (foldT x L R t)[i]? = match L[i]?, R[i]?, t[i]? with
      | some l, some r, some t => some (l + x • t + (x * x) • r)
      | _, _, _ => none := foldT_getElem? x L R t i
    by_cases h : i < t.length ∧ i < L.length ∧ i < R.length
    · obtain ⟨h1, h2, h3⟩ := h
      rw [List.getElem?_eq_getElem h1, List.getElem?_eq_getElem h2, List.getElem?_eq_getElem h3] at key
      simp only at key
      have h4 : i < (foldT x L R t).length := (List.getElem?_eq_some_iff.1 key).1
      have e : (foldT x L R t).getD i 0 = L.getD i 0 + x • t.getD i 0 + (x * x) • R.getD i 0 := by
        simp [List.getD, key, h1, h2, h3]
      simp only [h4, h1, h2, h3, true_and, List.forall_mem_cons, column, List.map_cons,
        foldedTarget_cons, e]
    · have h4 : ¬ i < (foldT x L R t).length := by
        intro h4
        rw [List.getElem?_eq_getElem h4] at key
        apply h
        cases e1 : L[i]? <;> cases e2 : R[i]? <;> cases e3 : t[i]? <;> simp only [e1, e2, e3, reduceCtorEq] at key
        exact ⟨(List.getElem?_eq_some_iff.1 e3).1, (List.getElem?_eq_some_iff.1 e1).1,
          (List.getElem?_eq_some_iff.1 e2).1⟩
      rw [if_neg (by tauto), if_neg]
      simp only [List.forall_mem_cons]
      tauto

/-! ### The verifier -/

theorem width_fold (x : F) (A : List (List G)) (q : Nat) (h : Width (2 ^ (q + 1)) A) :
    Width (2 ^ q) (A.map (foldRow x)) := by
  intro r hr
  obtain ⟨row, h1, rfl⟩ := List.mem_map.1 hr
  rw [foldRow_length, h row h1, pow_succ]; omega

theorem two_pow_ne_one (q : Nat) : 2 ^ (q + 1) ≠ 1 := by
  have := Nat.two_pow_pos q
  rw [pow_succ]; omega

theorem verifyLoop_eq (cx : Ctx G) (p : NoZK F G) : ∀ (q fuel ci : Nat) (A : List (List G))
    (t : List G) (tr : Transcript), q < fuel → Width (2 ^ q) A → ci ≤ p.L_Vec.length →
    ci ≤ p.R_Vec.length →
    verifyLoop cx p fuel ci (2 ^ q) A t tr =
      if ci + q ≤ p.L_Vec.length ∧ ci + q ≤ p.R_Vec.length then
        let Ls := (p.L_Vec.drop ci).take q
        let Rs := (p.R_Vec.drop ci).take q
        let xs := lmpaChallenges F cx tr.log Ls Rs
        .ok (A.map fun row => [foldedRow xs row], foldTs xs Ls Rs t, ⟨tr.log ++ lmpaLog cx Ls Rs⟩)
      else .error .indexOOB := by
  intro q
  induction q with
  | zero =>
    intro fuel ci A t tr hf hA hL hR
    obtain ⟨fuel, rfl⟩ := Nat.exists_eq_succ_of_ne_zero (Nat.pos_iff_ne_zero.1 hf)
    unfold verifyLoop
    rw [if_pos (by simp), if_pos ⟨hL, hR⟩]
    simp only [List.take_zero, lmpaChallenges, lmpaLog]
    simp [foldTs]
    apply List.ext_getElem (by simp)
    intro i h1 h2
    have := hA _ (List.getElem_mem h1)
    rw [pow_zero, List.length_eq_one_iff] at this
    obtain ⟨a, ha⟩ := this
    simp [ha, foldedRow, weightG]
  | succ q ih =>
    intro fuel ci A t tr hf hA hL hR
    obtain ⟨fuel, rfl⟩ := Nat.exists_eq_succ_of_ne_zero (show fuel ≠ 0 by omega)
    unfold verifyLoop
    rw [if_neg (two_pow_ne_one q)]
    by_cases h1 : ci < p.L_Vec.length
    swap
    · rw [idx_ge (by omega), if_neg (by omega)]; rfl
    rw [idx_lt h1, ok_bind]
    by_cases h2 : ci < p.R_Vec.length
    swap
    · rw [idx_ge (by omega), if_neg (by omega)]; rfl
    rw [idx_lt h2, ok_bind]
    simp only [absorb_eq, Ipa.challengeScalar_eq]
    have hlog : tr.log ++ pointsLog cx "L" p.L_Vec[ci] ++ pointsLog cx "R" p.R_Vec[ci] ++
        [Event.chal "challenge" 64] = tr.log ++ lmpaRoundLog cx (p.L_Vec[ci], p.R_Vec[ci]) := by
      simp [lmpaRoundLog]
    rw [hlog, foldA_eq _ _ (fun row hr => by rw [hA row hr, pow_succ]; omega), ok_bind,
      show 2 ^ (q + 1) / 2 = 2 ^ q by rw [pow_succ]; omega,
      ih fuel (ci + 1) _ _ _ (by omega) (width_fold _ _ _ hA) h1 h2]
    simp only [show ci + 1 + q = ci + (q + 1) by omega]
    split
    · next h =>
      rw [List.drop_eq_getElem_cons h1, List.drop_eq_getElem_cons h2, List.take_succ_cons,
        List.take_succ_cons, lmpaChallenges_cons, lmpaLog_cons]
      simp only [foldTs, List.map_map, List.append_assoc]
      congr 2
      apply List.map_congr_left
      intro row hrow
      simp only [Function.comp]
      rw [foldedRow_fold]
      rw [hA row hrow, lmpaChallenges_length]
      simp
      omega
    · rfl

variable [DecidableEq G]

theorem verify_eq (cx : Ctx G) (p : NoZK F G) (q fuel : Nat) (tr : Transcript) (A : List (List G))
    (Gs : List G) (t : List G) (hf : q < fuel) (hG : Gs.length = 2 ^ q) (hA : Width (2 ^ q) A) :
    p.verify cx fuel tr A Gs (2 ^ q) t =
      let Ls := p.L_Vec.take q
      let Rs := p.R_Vec.take q
      let xs := lmpaChallenges F cx tr.log Ls Rs
      if q ≤ p.L_Vec.length ∧ q ≤ p.R_Vec.length ∧ A ≠ [] ∧ t ≠ [] ∧ (∀ L ∈ Ls, L ≠ []) ∧
          (∀ R ∈ Rs, R ≠ []) then
        .ok (decide (p.w • foldedRow xs (A.headD []) =
          foldedTarget xs (column Ls 0) (column Rs 0) (t.headD 0)), ⟨tr.log ++ lmpaLog cx Ls Rs⟩)
      else .error .indexOOB := by
  unfold NoZK.verify
  rw [rassert_true hG.symm, ok_bind, verifyLoop_eq cx p q fuel 0 A t tr hf hA (Nat.zero_le _)
    (Nat.zero_le _)]
  simp only [Nat.zero_add, List.drop_zero]
  by_cases h1 : q ≤ p.L_Vec.length ∧ q ≤ p.R_Vec.length
  swap
  · rw [if_neg h1, if_neg (by tauto)]; rfl
  rw [if_pos h1, ok_bind]
  simp only [h1.1, h1.2, true_and, matrixpointVectorMul_eq]
  cases A with
  | nil => rw [if_neg (by simp)]; rfl
  | cons row A =>
    simp only [List.map_cons]
    rw [idx_lt (by simp), ok_bind]
    have hl : (lmpaChallenges F cx tr.log (p.L_Vec.take q) (p.R_Vec.take q)).length = q := by
      rw [lmpaChallenges_length]; simp; omega
    have key := foldTs_getElem? (lmpaChallenges F cx tr.log (p.L_Vec.take q) (p.R_Vec.take q))
      (p.L_Vec.take q) (p.R_Vec.take q) t 0 (by simp [hl, h1.1]) (by simp [hl, h1.2])
    have e : (0 < t.length ∧ (∀ L ∈ p.L_Vec.take q, 0 < L.length) ∧
        (∀ R ∈ p.R_Vec.take q, 0 < R.length)) ↔ (row :: A ≠ [] ∧ t ≠ [] ∧
        (∀ L ∈ p.L_Vec.take q, L ≠ []) ∧ (∀ R ∈ p.R_Vec.take q, R ≠ [])) := by
      simp [List.length_pos_iff]
    rw [if_congr e rfl rfl] at key
    by_cases h2 : row :: A ≠ [] ∧ t ≠ [] ∧
        (∀ L ∈ p.L_Vec.take q, L ≠ []) ∧ (∀ R ∈ p.R_Vec.take q, R ≠ [])
    · rw [if_pos h2] at key ⊢
      rw [idx_eq_ok.2 key, ok_bind]
      have ht : t.getD 0 0 = t.headD 0 := by cases t <;> rfl
      rw [ht]
      simp [dot]
    · rw [if_neg h2] at key ⊢
      rw [idx_ge (by simpa using key)]; rfl

/-! ### The prover -/

theorem dot_foldRow (x : F) (w : List F) (row : List G) (hw : w.length = row.length)
    (he : row.length % 2 = 0) :
    dot (List.zipWith (fun a b => a * x + b) (w.take (w.length / 2)) (w.drop (w.length / 2)))
      (foldRow x row) =
    dot (w.drop (w.length / 2)) (row.take (row.length / 2)) + x • dot w row +
      (x * x) • dot (w.take (w.length / 2)) (row.drop (row.length / 2)) := by
  have h1 : (w.take (w.length / 2)).length = (w.drop (w.length / 2)).length := by simp; omega
  have h2 : (row.take (row.length / 2)).length = (row.drop (row.length / 2)).length := by simp; omega
  have e1 := dot_comb_left x 1 (foldRow x row) h1
  have e2 := fun s : List F => dot_comb_right 1 x s h2
  simp only [one_smul, one_mul] at e1 e2
  have e3 : (fun a b : F => a * x + b) = fun a b => x * a + b := by funext a b; ring
  rw [e3, e1]
  unfold foldRow
  rw [e2, e2, ← dot_take_drop (row.length / 2) hw, hw]
  simp only [smul_add, smul_smul]
  abel

theorem createLoop_eq (cx : Ctx G) : ∀ (q fuel : Nat) (A : List (List G)) (w : List F)
    (tr : Transcript), q < fuel → Width (2 ^ q) A → w.length = 2 ^ q →
    ∃ p : NoZK F G, createLoop cx fuel (2 ^ q) A w tr =
        .ok (p, ⟨tr.log ++ lmpaLog cx p.L_Vec p.R_Vec⟩) ∧ p.L_Vec.length = q ∧ p.R_Vec.length = q ∧
      (∀ L ∈ p.L_Vec, L.length = A.length) ∧ (∀ R ∈ p.R_Vec, R.length = A.length) ∧
      ∀ i (hi : i < A.length),
        let xs := lmpaChallenges F cx tr.log p.L_Vec p.R_Vec
        p.w • foldedRow xs A[i] =
          foldedTarget xs (column p.L_Vec i) (column p.R_Vec i) (dot w A[i]) := by
  intro q
  induction q with
  | zero =>
    intro fuel A w tr hf hA hw
    obtain ⟨fuel, rfl⟩ := Nat.exists_eq_succ_of_ne_zero (Nat.pos_iff_ne_zero.1 hf)
    unfold createLoop
    rw [if_pos (by simp)]
    rw [pow_zero, List.length_eq_one_iff] at hw
    obtain ⟨a, rfl⟩ := hw
    refine ⟨⟨[], [], a⟩, by simp [idx, lmpaLog], rfl, rfl, by simp, by simp, ?_⟩
    intro i hi
    have := hA _ (List.getElem_mem hi)
    rw [pow_zero, List.length_eq_one_iff] at this
    obtain ⟨b, hb⟩ := this
    simp [lmpaChallenges, foldedRow, foldedTarget, weightG, hb, dot]
  | succ q ih =>
    intro fuel A w tr hf hA hw
    obtain ⟨fuel, rfl⟩ := Nat.exists_eq_succ_of_ne_zero (show fuel ≠ 0 by omega)
    unfold createLoop
    rw [if_neg (two_pow_ne_one q)]
    simp only [absorb_eq, Ipa.challengeScalar_eq, matrixpointVectorMul_eq]
    set L := (leftHalves A).map fun row => dot (w.drop (w.length / 2)) row with hL
    set R := (rightHalves A).map fun row => dot (w.take (w.length / 2)) row with hR
    have hlog : tr.log ++ pointsLog cx "L" L ++ pointsLog cx "R" R ++
        [Event.chal "challenge" 64] = tr.log ++ lmpaRoundLog cx (L, R) := by
      simp [lmpaRoundLog]
    set x := squeeze F cx.ro (tr.log ++ lmpaRoundLog cx (L, R)) with hx
    rw [hlog, ← hx, foldA_eq _ _ (fun row hr => by rw [hA row hr, pow_succ]; omega), ok_bind,
      show 2 ^ (q + 1) / 2 = 2 ^ q by rw [pow_succ]; omega]
    have hh : 2 ^ (q + 1) / 2 = 2 ^ q := by rw [pow_succ]; omega
    obtain ⟨p, h1, h2, h3, h4, h5, h6⟩ := ih fuel (A.map (foldRow x))
      (List.zipWith (fun a b => a * x + b) (w.take (w.length / 2)) (w.drop (w.length / 2)))
      ⟨tr.log ++ lmpaRoundLog cx (L, R)⟩ (by omega) (width_fold _ _ _ hA)
      (by simp [hw]; rw [pow_succ]; omega)
    rw [h1, ok_bind]
    refine ⟨⟨L :: p.L_Vec, R :: p.R_Vec, p.w⟩, by simp [lmpaLog_cons], by simp [h2], by simp [h3],
      ?_, ?_, ?_⟩
    · intro l hl
      rcases List.mem_cons.1 hl with rfl | hl
      · simp [hL, leftHalves]
      · simpa using h4 l hl
    · intro l hl
      rcases List.mem_cons.1 hl with rfl | hl
      · simp [hR, rightHalves]
      · simpa using h5 l hl
    · intro i hi
      have hwi := hA _ (List.getElem_mem hi)
      have := h6 i (by simpa using hi)
      simp only [List.getElem_map] at this
      simp only [lmpaChallenges_cons, ← hx]
      have hlen : (lmpaChallenges F cx (tr.log ++ lmpaRoundLog cx (L, R)) p.L_Vec p.R_Vec).length = q := by
        rw [lmpaChallenges_length, h2, h3, min_self]
      rw [foldedRow_fold _ _ _ (by rw [hwi, hlen]), dot_foldRow x w _ (by rw [hw, hwi])
        (by rw [hwi, pow_succ]; omega)] at this
      rw [this]
      simp only [column, List.map_cons, foldedTarget_cons]
      congr 2
      · congr 1
        rw [List.getD_eq_getElem _ _ (by simpa [hL, leftHalves] using hi)]
        simp [hL, leftHalves]
      · rw [List.getD_eq_getElem _ _ (by simpa [hR, rightHalves] using hi)]
        simp [hR, rightHalves]

end Qesa.Lmpa
