import Mathlib.Algebra.BigOperators.Intervals
import Verif.SpecIpa
import Verif.Proofs.IpaNoZk
/- The verifier of the inner-product argument in closed form. -/
namespace Qesa.Ipa
open Qesa Spec
variable {F G : Type} [Field F] [AddCommGroup G] [Module F G]

theorem challengeScalar_eq (ro : Hash) (tr : Transcript) (l : String) :
    challengeScalar (F := F) ro tr l =
      (squeeze F ro (tr.log ++ [.chal l 64]), ⟨tr.log ++ [.chal l 64]⟩) := rfl

theorem roundsLog_cons (L R : Comp) (Ls Rs : List Comp) :
    roundsLog (L :: Ls) (R :: Rs) = roundLog (L, R) ++ roundsLog Ls Rs := by
  simp [roundsLog]

theorem roundChallenges_cons (ro : Hash) (log : List Event) (L R : Comp) (Ls Rs : List Comp) :
    roundChallenges F ro log (L :: Ls) (R :: Rs) =
      squeeze F ro (log ++ roundLog (L, R)) ::
        roundChallenges F ro (log ++ roundLog (L, R)) Ls Rs := by
  unfold roundChallenges
  have : min (L :: Ls).length (R :: Rs).length = min Ls.length Rs.length + 1 := by simp
  rw [this, List.range_succ_eq_map]
  simp only [List.map_cons, List.map_map, List.take_succ_cons, roundsLog_cons]
  rw [List.cons_eq_cons]
  constructor
  · simp [roundsLog]
  · apply List.map_congr_left
    intro j _
    simp

theorem generateChallenges_eq (ro : Hash) (Ls Rs : List Comp) (tr : Transcript) :
    generateChallenges (F := F) ro Ls Rs tr =
      (roundChallenges F ro tr.log Ls Rs, ⟨tr.log ++ roundsLog Ls Rs⟩) := by
  induction Ls generalizing Rs tr with
  | nil => simp [generateChallenges, roundChallenges, roundsLog]
  | cons L Ls ih => cases Rs with
    | nil => simp [generateChallenges, roundChallenges, roundsLog]
    | cons R Rs =>
      simp only [generateChallenges, challengeScalar_eq, ih, Transcript.appendMessage,
        roundChallenges_cons, roundsLog_cons]
      simp [roundLog]

theorem roundChallenges_length (ro : Hash) (log : List Event) (L R : List Comp) :
    (roundChallenges F ro log L R).length = min L.length R.length := by
  simp [roundChallenges]

/-! ### The commitment -/

theorem foldP_eq (Ls Rs : List G) (xs : List F) (P : G) (h1 : xs.length ≤ Ls.length)
    (h2 : xs.length ≤ Rs.length) : foldP Ls Rs xs P = foldedP Ls Rs xs P := by
  induction xs generalizing Ls Rs P with
  | nil => cases Ls <;> cases Rs <;> simp [foldP, foldedP]
  | cons x xs ih =>
    cases Ls with
    | nil => simp at h1
    | cons L Ls => cases Rs with
      | nil => simp at h2
      | cons R Rs =>
        rw [foldP, ih _ _ _ (by simpa using h1) (by simpa using h2)]
        unfold foldedP
        rw [List.length_cons, Finset.sum_range_succ']
        simp only [List.getD_cons_succ, List.getD_cons_zero, List.drop_succ_cons, List.prod_cons,
          List.drop_zero]
        module

/-! ### The generators -/

theorem weightG_cons_lt (x : F) (xs : List F) {i : Nat} (h : i < 2 ^ xs.length) :
    weightG (x :: xs) i = weightG xs i := by
  unfold weightG
  simp only [List.length_cons]
  rw [Fin.prod_univ_succ]
  simp only [Fin.val_zero, Nat.sub_zero, Nat.add_sub_cancel, Nat.testBit_lt_two_pow h]
  simp only [Bool.false_eq_true, if_false, one_mul]
  apply Finset.prod_congr rfl
  intro j _
  have : xs.length - (↑j + 1) = xs.length - 1 - ↑j := by omega
  simp [this]

theorem weightG_cons_ge (x : F) (xs : List F) {i : Nat} (h : i < 2 ^ xs.length) :
    weightG (x :: xs) (2 ^ xs.length + i) = x * weightG xs i := by
  unfold weightG
  simp only [List.length_cons]
  rw [Fin.prod_univ_succ]
  have h0 : (2 ^ xs.length + i).testBit xs.length = true := by
    rw [Nat.testBit_two_pow_add_eq, Nat.testBit_lt_two_pow h]; rfl
  simp only [Fin.val_zero, Nat.sub_zero, Nat.add_sub_cancel, h0]
  simp only [if_true]
  congr 1
  apply Finset.prod_congr rfl
  intro j _
  have : xs.length - (j.succ : Fin _).val = xs.length - 1 - j := by simp; omega
  have hj := j.2
  rw [this, Nat.testBit_two_pow_add_gt (by omega)]
  simp

theorem weightH_cons_lt (x : F) (xs : List F) {i : Nat} (h : i < 2 ^ xs.length) :
    weightH (x :: xs) i = x * weightH xs i := by
  unfold weightH
  simp only [List.length_cons]
  rw [Fin.prod_univ_succ]
  simp only [Fin.val_zero, Nat.sub_zero, Nat.add_sub_cancel, Nat.testBit_lt_two_pow h]
  simp only [Bool.false_eq_true, if_false]
  congr 1
  apply Finset.prod_congr rfl
  intro j _
  have : xs.length - (↑j + 1) = xs.length - 1 - ↑j := by omega
  simp [this]

theorem weightH_cons_ge (x : F) (xs : List F) {i : Nat} (h : i < 2 ^ xs.length) :
    weightH (x :: xs) (2 ^ xs.length + i) = weightH xs i := by
  unfold weightH
  simp only [List.length_cons]
  rw [Fin.prod_univ_succ]
  have h0 : (2 ^ xs.length + i).testBit xs.length = true := by
    rw [Nat.testBit_two_pow_add_eq, Nat.testBit_lt_two_pow h]; rfl
  simp only [Fin.val_zero, Nat.sub_zero, Nat.add_sub_cancel, h0]
  simp only [if_true, one_mul]
  apply Finset.prod_congr rfl
  intro j _
  have : xs.length - (j.succ : Fin _).val = xs.length - 1 - j := by simp; omega
  have hj := j.2
  rw [this, Nat.testBit_two_pow_add_gt (by omega)]
  simp

/-- One round of generator folding in closed form, for weights that satisfy the recursion. -/
theorem combined_step (u v : F) (w w' : Nat → F) (k r : Nat) (Gs : List G)
    (hl : ∀ i < 2 ^ r, w' i = u * w i) (hr : ∀ i < 2 ^ r, w' (2 ^ r + i) = v * w i) (hrk : r ≤ k)
    (hG : 2 ^ (k + 1) - 2 ^ (k - r) < Gs.length) :
    combined w k r (List.zipWith (fun a b => u • a + v • b) (Gs.take (2 ^ k)) (Gs.drop (2 ^ k))) =
      combined w' (k + 1) (r + 1) Gs := by
  unfold combined
  have e : 2 ^ (r + 1) = 2 ^ r + 2 ^ r := by rw [pow_succ]; omega
  have ek : 2 ^ (k + 1) = 2 ^ k + 2 ^ k := by rw [pow_succ]; omega
  have es : k + 1 - (r + 1) = k - r := by omega
  have epow : 2 ^ k = 2 ^ r * 2 ^ (k - r) := by rw [← pow_add]; congr 1; omega
  have hpos : 0 < 2 ^ (k - r) := Nat.pos_of_ne_zero (by simp)
  rw [e, Finset.sum_range_add, es, ← Finset.sum_add_distrib]
  apply Finset.sum_congr rfl
  intro i hi
  have hi : i < 2 ^ r := by simpa using hi
  have hmul : i * 2 ^ (k - r) + 2 ^ (k - r) ≤ 2 ^ k := by
    rw [epow, ← Nat.succ_mul]; exact Nat.mul_le_mul_right _ hi
  rw [hl i hi, hr i hi]
  have h1 : i * 2 ^ (k - r) < Gs.length := by omega
  have h2 : (2 ^ r + i) * 2 ^ (k - r) = 2 ^ k + i * 2 ^ (k - r) := by rw [add_mul, ← epow]
  have h3 : 2 ^ k + i * 2 ^ (k - r) < Gs.length := by omega
  rw [h2]
  rw [List.getD_eq_getElem _ _ h1, List.getD_eq_getElem _ _ h3,
    List.getD_eq_getElem _ _ (by simp; omega)]
  simp only [List.getElem_zipWith, List.getElem_take, List.getElem_drop]
  module

/-- The verifier's generator folding in closed form. -/
theorem foldGens_eq (xs : List F) : ∀ (k : Nat) (Gs Hs : List G), xs.length ≤ k →
    2 ^ k - 2 ^ (k - xs.length) < Gs.length → 2 ^ k - 2 ^ (k - xs.length) < Hs.length →
    ∃ G' H', foldGens (2 ^ k) Gs Hs xs = .ok (G', H') ∧
      idx G' 0 = .ok (combined (weightG xs) k xs.length Gs) ∧
      idx H' 0 = .ok (combined (weightH xs) k xs.length Hs) := by
  induction xs with
  | nil =>
    intro k Gs Hs _ hG hH
    simp only [List.length_nil, Nat.sub_zero, Nat.sub_self] at hG hH
    refine ⟨Gs, Hs, rfl, ?_, ?_⟩
    · rw [idx_lt hG]; simp [combined, weightG, hG]
    · rw [idx_lt hH]; simp [combined, weightH, hH]
  | cons x xs ih =>
    intro k Gs Hs hk hG hH
    obtain ⟨k, rfl⟩ : ∃ k', k = k' + 1 := ⟨k - 1, by simp at hk; omega⟩
    simp only [List.length_cons, Nat.add_le_add_iff_right] at hk
    simp only [List.length_cons, Nat.add_sub_add_right] at hG hH
    have h2 : 2 ^ (k + 1) / 2 = 2 ^ k := by rw [pow_succ]; omega
    have ek : 2 ^ (k + 1) = 2 ^ k + 2 ^ k := by rw [pow_succ]; omega
    have hpos : 2 ^ (k - xs.length) ≤ 2 ^ k := Nat.pow_le_pow_right (by omega) (by omega)
    rw [foldGens]
    simp only [h2]
    rw [splitAtR_le (by omega), splitAtR_le (by omega)]
    simp only [ok_bind, vectorVectorAdd_left, vectorVectorAdd_right]
    obtain ⟨G', H', e1, e2, e3⟩ := ih k
      (List.zipWith (fun l r => l + x • r) (Gs.take (2 ^ k)) (Gs.drop (2 ^ k)))
      (List.zipWith (fun l r => x • l + r) (Hs.take (2 ^ k)) (Hs.drop (2 ^ k))) hk
      (by simp; omega) (by simp; omega)
    refine ⟨G', H', e1, ?_, ?_⟩
    · rw [e2, zipWith_eq_comb, combined_step 1 x (weightG xs) (weightG (x :: xs)) k xs.length Gs
        (fun i hi => by rw [weightG_cons_lt x xs hi, one_mul])
        (fun i hi => weightG_cons_ge x xs hi) hk hG]
      rfl
    · rw [e3, zipWith_eq_comb', combined_step x 1 (weightH xs) (weightH (x :: xs)) k xs.length Hs
        (fun i hi => weightH_cons_lt x xs hi)
        (fun i hi => by rw [weightH_cons_ge x xs hi, one_mul]) hk hH]
      rfl

/-- Too few generators: the verifier panics. -/
theorem foldGens_short (xs : List F) : ∀ (k : Nat) (Gs Hs : List G), xs.length ≤ k →
    (Gs.length ≤ 2 ^ k - 2 ^ (k - xs.length) ∨ Hs.length ≤ 2 ^ k - 2 ^ (k - xs.length)) →
    ∀ G' H', foldGens (2 ^ k) Gs Hs xs = .ok (G', H') → G' = [] ∨ H' = [] := by
  induction xs with
  | nil =>
    intro k Gs Hs _ h G' H' e
    simp only [List.length_nil, Nat.sub_zero, Nat.sub_self, Nat.le_zero] at h
    simp only [foldGens, Except.ok.injEq, Prod.mk.injEq] at e
    obtain ⟨rfl, rfl⟩ := e
    simpa using h
  | cons x xs ih =>
    intro k Gs Hs hk h G' H' e
    obtain ⟨k, rfl⟩ : ∃ k', k = k' + 1 := ⟨k - 1, by simp at hk; omega⟩
    simp only [List.length_cons, Nat.add_le_add_iff_right] at hk
    simp only [List.length_cons, Nat.add_sub_add_right] at h
    have h2 : 2 ^ (k + 1) / 2 = 2 ^ k := by rw [pow_succ]; omega
    have ek : 2 ^ (k + 1) = 2 ^ k + 2 ^ k := by rw [pow_succ]; omega
    have hpos : 2 ^ (k - xs.length) ≤ 2 ^ k := Nat.pow_le_pow_right (by omega) (by omega)
    rw [foldGens] at e
    simp only [h2] at e
    by_cases hg : 2 ^ k ≤ Gs.length
    · by_cases hh : 2 ^ k ≤ Hs.length
      · rw [splitAtR_le hg, splitAtR_le hh] at e
        simp only [ok_bind, vectorVectorAdd_left, vectorVectorAdd_right] at e
        refine ih k _ _ hk ?_ G' H' e
        simp only [List.length_zipWith, List.length_take, List.length_drop]
        omega
      · rw [splitAtR_le hg] at e
        simp [splitAtR, hh] at e
    · simp [splitAtR, hg] at e

/-! ### Decoding -/

omit [AddCommGroup G] in
theorem decode_eq_ok (cx : Ctx G) (cs : List Comp) (ps : List G) :
    (cs.mapM (fun c => unwrapR (cx.decompress c)) : R (List G)) = .ok ps ↔
      cs = ps.map cx.compress := by
  induction cs generalizing ps with
  | nil => cases ps <;> simp
  | cons c cs ih =>
    rw [List.mapM_cons]
    constructor
    · intro h
      obtain ⟨q, h1, h2⟩ := bind_eq_ok.1 h
      obtain ⟨qs, h3, h4⟩ := bind_eq_ok.1 h2
      cases hc : cx.decompress c with
      | none => simp [hc, unwrapR] at h1
      | some q' =>
        simp only [hc, unwrapR, Except.ok.injEq] at h1
        simp only [R_pure, Except.ok.injEq] at h4
        subst h1 h4
        simp [cx.compress_decompress c q' hc, (ih qs).1 h3]
    · intro h
      cases ps with
      | nil => simp at h
      | cons q qs =>
        simp only [List.map_cons, List.cons.injEq] at h
        obtain ⟨rfl, h2⟩ := h
        rw [cx.decompress_compress, (ih qs).2 h2]
        simp [unwrapR]

omit [AddCommGroup G] in
theorem decodable_iff (cx : Ctx G) (cs : List Comp) :
    (∀ c ∈ cs, (cx.decompress c).isSome) ↔ ∃ ps : List G, cs = ps.map cx.compress := by
  constructor
  · intro h
    induction cs with
    | nil => exact ⟨[], rfl⟩
    | cons c cs ih =>
      obtain ⟨q, hq⟩ := Option.isSome_iff_exists.1 (h c (by simp))
      obtain ⟨qs, hqs⟩ := ih fun c hc => h c (by simp [hc])
      exact ⟨q :: qs, by simp [cx.compress_decompress c q hq, hqs]⟩
  · rintro ⟨ps, rfl⟩ c hc
    obtain ⟨q, _, rfl⟩ := List.mem_map.1 hc
    simp [cx.decompress_compress]

/-! ### The verifier -/

theorem verify_eq [DecidableEq G] (cx : Ctx G) (p : NoZK F) (tr : Transcript) (Gs Hs : List G)
    (Q : G) (P : G) (t : F) (Ls Rs : List G) (hL : p.L_vec = Ls.map cx.compress)
    (hR : p.R_vec = Rs.map cx.compress) (k : Nat) (hk : Ls.length = k) (h64 : k < 64) :
    p.verify cx tr Gs Hs Q (2 ^ k) P t = do
      let xs := ipaChallenges F cx.ro tr.log (2 ^ k) p.L_vec p.R_vec
      let α := ipaAlpha F cx.ro tr.log (2 ^ k)
      let (G', H') ← foldGens (2 ^ k) Gs Hs xs
      let g0 ← idx G' 0
      let h0 ← idx H' 0
      return (decide (p.a • g0 + p.b • h0 + (p.a * p.b) • (α⁻¹ • Q) =
        foldedP Ls Rs xs (P - ((α - 1) * t) • (α⁻¹ • Q))),
        ⟨tr.log ++ headLog (2 ^ k) ++ roundsLog p.L_vec p.R_vec⟩) := by
  unfold NoZK.verify
  rw [(decode_eq_ok cx _ Ls).2 hL, (decode_eq_ok cx _ Rs).2 hR]
  simp only [ok_bind, hk, shl1, if_pos h64, rassert_True]
  simp only [challengeScalar_eq, generateChallenges_eq, Transcript.appendU64,
    Transcript.appendMessage, List.append_assoc, List.cons_append, List.nil_append]
  have hlen : (roundChallenges F cx.ro (tr.log ++ headLog (2 ^ k)) p.L_vec p.R_vec).length =
      min Ls.length Rs.length := by rw [roundChallenges_length, hL, hR]; simp
  have e : tr.log ++ [Event.msg "n" (u64le (2 ^ k)), Event.chal "alpha" 64] =
    tr.log ++ headLog (2 ^ k) := rfl
  simp only [e]
  rw [foldP_eq _ _ _ _ (by rw [hlen]; omega) (by rw [hlen]; omega)]
  simp only [ipaChallenges, ipaAlpha, headLog, List.cons_append, List.nil_append]
  rfl

theorem ipaChallenges_length (ro : Hash) (log : List Event) (n : Nat) (L R : List Comp) :
    (ipaChallenges F ro log n L R).length = min L.length R.length :=
  roundChallenges_length ..

end Qesa.Ipa
