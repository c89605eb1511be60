import Verif.Model.Tests
import Verif.Proofs.TapePrefix
/- The tests of the Gram-Schmidt functions and of the inner-product arguments: C80. -/
namespace Qesa.Props
open Qesa Spec Ipa Tests

section
variable {F : Type} [Field F]

/-! ### Counting -/

theorem card_isotropic [Fintype F] (n : Nat) :
    Nat.card {p : Fin (n + 1) → F // p ⬝ᵥ p = 0} * Nat.card F ≤ 2 * Nat.card (Fin (n + 1) → F) := by
  refine card_line (Pi.single 0 1) _ 2 fun t => ?_
  have : ∀ y : F, (t + y • Pi.single 0 1) ⬝ᵥ (t + y • Pi.single 0 1) =
      t ⬝ᵥ t + y * (2 * t 0) + y * y * 1 := by
    intro y
    simp only [add_dotProduct, dotProduct_add, smul_dotProduct, dotProduct_smul, dotProduct_single,
      single_dotProduct, smul_eq_mul, Pi.single_eq_same, Pi.add_apply, Pi.smul_apply]
    ring
  simp only [this]
  exact card_quadratic _ _ _ one_ne_zero

theorem card_orthogonal [Fintype F] {n : Nat} (a : Fin n → F) (ha : a ≠ 0) :
    Nat.card {b : Fin n → F // a ⬝ᵥ b = 0} * Nat.card F ≤ 1 * Nat.card (Fin n → F) := by
  obtain ⟨i, hi⟩ := Function.ne_iff.1 ha
  refine card_line (Pi.single i 1) _ 1 fun t => ?_
  simp only [dotProduct_add, dotProduct_smul, dotProduct_single, smul_eq_mul, mul_one]
  exact card_linear _ _ hi

theorem ne_zero_of_dot {n : Nat} {a b : Fin n → F} (h : a ⬝ᵥ b ≠ 0) : a ≠ 0 := by
  rintro rfl
  exact h (zero_dotProduct b)

theorem card_isotropic_res [Fintype F] (h2 : (2 : F) ≠ 0) (n : Nat) (a : Fin (n + 2) → F) (ha : a ⬝ᵥ a ≠ 0) :
    Nat.card {b : Fin (n + 2) → F // res a b ⬝ᵥ res a b = 0} * Nat.card F ≤ 2 * Nat.card (Fin (n + 2) → F) := by
  have hq : ∀ w : Fin (n + 2) → F, res a w ⬝ᵥ res a w = w ⬝ᵥ w - (a ⬝ᵥ w) * (a ⬝ᵥ w) * (a ⬝ᵥ a)⁻¹ := by
    intro w
    rw [dot_res, dotProduct_comm _ w, dotProduct_comm (res a w) a, dot_res, dot_res, dotProduct_comm w a]
    field_simp
    ring
  obtain ⟨w, hw⟩ : ∃ w, res a w ⬝ᵥ res a w ≠ 0 := by
    by_contra hno
    push Not at hno
    have h0 := hno (Pi.single 0 1)
    have h1 := hno (Pi.single 1 1)
    have h3 := hno (Pi.single 0 1 + Pi.single 1 1)
    rw [hq] at h0 h1 h3
    simp only [dotProduct_add, dotProduct_single, Pi.single_eq_same, Pi.add_apply, mul_one,
      Pi.single_eq_of_ne (show (0 : Fin (n + 2)) ≠ 1 by simp),
      Pi.single_eq_of_ne (show (1 : Fin (n + 2)) ≠ 0 by simp)] at h0 h1 h3
    have e : 2 * (a 0 * a 1 * (a ⬝ᵥ a)⁻¹) = 0 := by linear_combination h0 + h1 - h3
    have e' : a 0 * a 1 * (a ⬝ᵥ a)⁻¹ = 0 := (mul_eq_zero.1 e).resolve_left h2
    have : (1 : F) = 0 := by
      linear_combination h0 + h1 * (a 0 * a 0 * (a ⬝ᵥ a)⁻¹) + e' * (a 0 * a 1 * (a ⬝ᵥ a)⁻¹)
    exact one_ne_zero this
  refine card_line w _ 2 fun t => ?_
  simp only [res_line]
  have : ∀ y : F, (res a t + y • res a w) ⬝ᵥ (res a t + y • res a w) = res a t ⬝ᵥ res a t +
      y * (2 * (res a t ⬝ᵥ res a w)) + y * y * (res a w ⬝ᵥ res a w) := by
    intro y
    simp only [add_dotProduct, dotProduct_add, smul_dotProduct, dotProduct_smul, smul_eq_mul,
      dotProduct_comm (res a w) (res a t)]
    ring
  simp only [this]
  exact card_quadratic _ _ _ hw

theorem card_parallel [Fintype F] {n : Nat} (a : Fin (n + 2) → F) (ha : a ≠ 0) :
    Nat.card {b : Fin (n + 2) → F // ∀ j, a j - a ⬝ᵥ b * (b ⬝ᵥ b)⁻¹ * b j = 0} * Nat.card F ≤
      1 * Nat.card (Fin (n + 2) → F) := by
  obtain ⟨i, hi⟩ := Function.ne_iff.1 ha
  obtain ⟨j, hj⟩ : ∃ j, j ≠ i := exists_ne i
  refine (Nat.mul_le_mul_right _ (card_imp (Q := fun b => a i * b j - a j * b i = 0) fun b hb => ?_)).trans ?_
  · linear_combination b j * hb i - b i * hb j
  refine card_line (Pi.single j 1) _ 1 fun t => ?_
  have : ∀ y : F, a i * (t + y • (Pi.single j 1 : Fin (n + 2) → F)) j -
      a j * (t + y • (Pi.single j 1 : Fin (n + 2) → F)) i = (a i * t j - a j * t i) + y * a i := by
    intro y
    simp only [Pi.add_apply, Pi.smul_apply, Pi.single_eq_same, Pi.single_eq_of_ne hj.symm, smul_eq_mul]
    ring
  simp only [this]
  exact card_linear _ _ hi

theorem card_or_le {X : Type} [Finite X] {P Q : X → Prop} {c k l N : Nat}
    (hP : Nat.card {x // P x} * c ≤ k * N) (hQ : Nat.card {x // Q x} * c ≤ l * N) :
    Nat.card {x // P x ∨ Q x} * c ≤ (k + l) * N := by
  refine (Nat.mul_le_mul_right _ (card_or P Q)).trans ?_
  rw [Nat.add_mul, Nat.add_mul]
  exact Nat.add_le_add hP hQ

variable [DecidableEq F]

/-! ### Gram-Schmidt -/

/-- C80: `test_orth` passes exactly if the first vector is neither isotropic nor orthogonal to the second. -/
theorem C80_test_orth (τ : Tape F) : testOrth τ = .ok () ↔
    (∑ i : Fin 4, τ i * τ i) ≠ 0 ∧ (∑ i : Fin 4, τ i * τ (i + 4)) ≠ 0 := by
  unfold testOrth
  simp only [drawN_eq, innerProduct_eq_dot]
  set a : Fin 4 → F := fun i => τ i
  set b : Fin 4 → F := fun i => τ (i + 4)
  rw [show (∑ i : Fin 4, τ i * τ i) = a ⬝ᵥ a from rfl, show (∑ i : Fin 4, τ i * τ (i + 4)) = a ⬝ᵥ b from rfl]
  by_cases h : a ⬝ᵥ b = 0
  · rw [orth_eq, dot_ofFn_vec, if_pos h]
    simp [h]
  · rw [orth_ofFn a b h, ok_bind, rassert_eq_ok, dot_ofFn_vec, dotProduct_comm, dot_res]
    constructor
    · intro h0
      refine ⟨fun ha => ?_, h⟩
      rw [ha] at h0
      simp [h] at h0
    · rintro ⟨ha, -⟩
      field_simp
      ring

/-- C80: `test_sample_gram_schmidt` passes exactly if the vector is neither isotropic nor orthogonal to the
sample, which consists of the tape entries 4, 5, 8 and 9 (entries 6 and 7 are overwritten). -/
theorem C80_test_sample (τ : Tape F) : testSampleGramSchmidt τ = .ok () ↔
    (∑ i : Fin 4, τ i * τ i) ≠ 0 ∧ τ 0 * τ 4 + τ 1 * τ 5 + τ 2 * τ 8 + τ 3 * τ 9 ≠ 0 := by
  unfold testSampleGramSchmidt
  simp only [drawN_eq, innerProduct_eq_dot]
  set a : Fin 4 → F := fun i => τ i
  set b : Fin 4 → F := ![τ 4, τ 5, τ 8, τ 9] with hb
  have hs : samp 4 (fun i => τ (i + 4)) = b := by
    ext j
    fin_cases j <;> rfl
  rw [show (∑ i : Fin 4, τ i * τ i) = a ⬝ᵥ a from rfl,
    show τ 0 * τ 4 + τ 1 * τ 5 + τ 2 * τ 8 + τ 3 * τ 9 = a ⬝ᵥ b by
      simp [dotProduct, Fin.sum_univ_four, hb, a]]
  by_cases h : a ⬝ᵥ b = 0
  · have : ∀ r, sampleGramSchmidt (List.ofFn a) (fun i => τ (i + 4)) ≠ .ok r := by
      intro r hr
      obtain ⟨-, s, t', h1, h2⟩ := (C13_sample_gram_schmidt_returns_iff _ _).1 ⟨r, hr⟩
      rw [List.length_ofFn, sampleMNPlus_samp 4 (by decide), hs] at h1
      cases h1
      rw [dot_ofFn_vec] at h2
      exact h2 h
    cases hr : sampleGramSchmidt (List.ofFn a) (fun i => τ (i + 4)) with
    | error e => simp [h]
    | ok r => exact absurd hr (this r)
  · rw [sampleGramSchmidt_ofFn (by decide) a _ (by rw [hs]; exact h), hs, ok_bind]
    simp only [rassert_eq_ok, dot_ofFn_vec]
    rw [dotProduct_comm, dot_res]
    constructor
    · intro h0
      refine ⟨fun ha => ?_, h⟩
      rw [ha] at h0
      simp [h] at h0
    · rintro ⟨ha, -⟩
      field_simp
      ring

/-- C80: `test_sample_gram_schmidt_twice`, for a first vector `a` that is not isotropic: it passes exactly if `a` is
orthogonal neither to the second vector `b` nor to the sample `s`, and the part `o` of `b` orthogonal to `a` is
neither isotropic nor orthogonal to `s`. -/
theorem C80_test_sample_twice (τ : Tape F) (a b s o : Fin 4 → F) (ha : a = fun i : Fin 4 => τ i)
    (hb : b = fun i : Fin 4 => τ (i + 4)) (hs : s = ![τ 8, τ 9, τ 12, τ 13]) (ho : o = b - (a ⬝ᵥ b / a ⬝ᵥ a) • a)
    (haa : a ⬝ᵥ a ≠ 0) : testSampleGramSchmidtTwice τ = .ok () ↔
      a ⬝ᵥ b ≠ 0 ∧ a ⬝ᵥ s ≠ 0 ∧ o ⬝ᵥ s ≠ 0 ∧ o ⬝ᵥ o ≠ 0 := by
  have hs' : samp 4 (fun i => τ (i + 4 + 4)) = s := by
    rw [hs]
    ext j
    fin_cases j <;> rfl
  have ho' : res a b = o := by rw [ho, res, div_eq_mul_inv]
  have hao : a ⬝ᵥ o = 0 := by
    rw [← ho', dot_res]; field_simp; ring
  have hbo : b = o + (a ⬝ᵥ b / a ⬝ᵥ a) • a := by rw [ho]; simp
  have hos : o ⬝ᵥ res a s = o ⬝ᵥ s := by rw [dot_res, dotProduct_comm o a, hao, mul_zero, sub_zero]
  unfold testSampleGramSchmidtTwice
  simp only [drawN_eq, innerProduct_eq_dot]
  rw [← ha, ← hb]
  unfold sampleGramSchmidtTwice
  by_cases h1 : a ⬝ᵥ b = 0
  · rw [orth_eq, dot_ofFn_vec, if_pos h1]
    simp [h1]
  rw [orth_ofFn a b h1, ok_bind, ho']
  by_cases h2 : a ⬝ᵥ s = 0
  · unfold sampleGramSchmidt
    rw [List.length_ofFn, sampleMNPlus_samp 4 (by decide), hs', ok_bind]
    simp only
    rw [orth_eq, dot_ofFn_vec, if_pos h2]
    simp [h2]
  rw [sampleGramSchmidt_ofFn (by decide) a _ (by rw [hs']; exact h2), hs', ok_bind]
  simp only
  by_cases h3 : o ⬝ᵥ s = 0
  · rw [orth_eq, dot_ofFn_vec, hos, if_pos h3]
    simp [h3]
  rw [orth_ofFn o _ (by rw [hos]; exact h3), ok_bind]
  simp only [R_pure, ok_bind, dot_ofFn_vec]
  have har : a ⬝ᵥ res a s = 0 := by rw [dot_res]; field_simp; ring
  rw [rassert_true (by rw [dotProduct_comm, dot_res, har, hao]; simp), ok_bind, rassert_eq_ok, dotProduct_comm,
    dot_res, hos, hbo, add_dotProduct, smul_dotProduct, har, hos, add_dotProduct, smul_dotProduct, hao]
  simp only [smul_zero, add_zero]
  constructor
  · intro h0
    refine ⟨by rw [← hbo]; exact h1, h2, h3, fun hoo => ?_⟩
    rw [hoo] at h0
    simp [h3] at h0
  · rintro ⟨-, -, -, hoo⟩
    field_simp
    ring

end

section
variable {F : Type} [Field F] [Fintype F] [DecidableEq F]

theorem cast_add_div (k l : Nat) (c : ℚ) : (k : ℚ) / c + (l : ℚ) / c = ((k + l : Nat) : ℚ) / c := by
  rw [← add_div, Nat.cast_add]

/-- C80: `test_orth` fails with probability at most `3 / |F|`. -/
theorem C80_test_orth_error (rest : Tape F) (ro : Hash) (D : Finset (List Event)) :
    chanceBoth ro D rest 8 (fun _ τ => testOrth τ ≠ .ok ()) ≤ 3 / Fintype.card F := by
  rw [← Nat.card_eq_fintype_card]
  refine (chanceBoth_prefix (n := 4) (m := 4) (k := 2) (ε := (1 : Nat) / Nat.card F)
    (fun a : Fin 4 → F => a ⬝ᵥ a = 0) (card_isotropic 3) (fun a ha => ?_) (by positivity)).trans
    (le_of_eq (by rw [cast_add_div]; norm_num))
  refine chanceBoth_tape (A := fun τ => testOrth (glue a τ) ≠ .ok ()) ?_
  refine (Nat.mul_le_mul_right _ (card_imp (Q := fun b => a ⬝ᵥ b = 0) fun b hb => ?_)).trans
    (card_orthogonal a (ne_zero_of_dot ha))
  by_contra h
  exact hb ((C80_test_orth _).2 ⟨ha, h⟩)

omit [DecidableEq F] in
theorem card_sample (x : Fin 4 → F) (hx : x ≠ 0) :
    Nat.card {t : Fin 6 → F // x ⬝ᵥ ![t 0, t 1, t 4, t 5] = 0} * Nat.card F ≤ 1 * Nat.card (Fin 6 → F) := by
  have h := card_orthogonal (![x 0, x 1, 0, 0, x 2, x 3] : Fin 6 → F) (by
    rintro e
    apply hx
    have h0 := congrFun e 0
    have h1 := congrFun e 1
    have h4 := congrFun e 4
    have h5 := congrFun e 5
    ext j
    fin_cases j
    exacts [h0, h1, h4, h5])
  refine le_trans (le_of_eq ?_) h
  congr 1
  refine Nat.card_congr (Equiv.subtypeEquivRight fun t => ?_)
  simp only [dotProduct, Fin.sum_univ_succ, Fin.sum_univ_zero]
  simp [Fin.succ]

/-- C80: `test_sample_gram_schmidt` fails with probability at most `3 / |F|`. -/
theorem C80_test_sample_error (rest : Tape F) (ro : Hash) (D : Finset (List Event)) :
    chanceBoth ro D rest 10 (fun _ τ => testSampleGramSchmidt τ ≠ .ok ()) ≤ 3 / Fintype.card F := by
  rw [← Nat.card_eq_fintype_card]
  refine (chanceBoth_prefix (n := 4) (m := 6) (k := 2) (ε := (1 : Nat) / Nat.card F)
    (fun a : Fin 4 → F => a ⬝ᵥ a = 0) (card_isotropic 3) (fun a ha => ?_) (by positivity)).trans
    (le_of_eq (by rw [cast_add_div]; norm_num))
  refine chanceBoth_tape (A := fun τ => testSampleGramSchmidt (glue a τ) ≠ .ok ()) ?_
  refine (Nat.mul_le_mul_right _ (card_imp (Q := fun t : Fin 6 → F => a ⬝ᵥ ![t 0, t 1, t 4, t 5] = 0) fun t ht => ?_)).trans
    (card_sample a (ne_zero_of_dot ha))
  by_contra h
  refine ht ((C80_test_sample _).2 ⟨?_, ?_⟩)
  · simpa [glue, dotProduct] using ha
  · simpa [glue, tapeOf, dotProduct, Fin.sum_univ_four] using h

/-- C80: `test_sample_gram_schmidt_twice` fails with probability at most `7 / |F|`. -/
theorem C80_test_sample_twice_error (h2 : (2 : F) ≠ 0) (rest : Tape F) (ro : Hash) (D : Finset (List Event)) :
    chanceBoth ro D rest 14 (fun _ τ => testSampleGramSchmidtTwice τ ≠ .ok ()) ≤ 7 / Fintype.card F := by
  rw [← Nat.card_eq_fintype_card]
  refine (chanceBoth_prefix (n := 4) (m := 10) (k := 2) (ε := (5 : Nat) / Nat.card F)
    (fun a : Fin 4 → F => a ⬝ᵥ a = 0) (card_isotropic 3) (fun a ha => ?_) (by positivity)).trans
    (le_of_eq (by rw [cast_add_div]; norm_num))
  refine (chanceBoth_prefix (n := 4) (m := 6) (k := 1 + 2) (ε := (2 : Nat) / Nat.card F)
    (fun b : Fin 4 → F => a ⬝ᵥ b = 0 ∨ res a b ⬝ᵥ res a b = 0)
    (card_or_le (card_orthogonal a (ne_zero_of_dot ha)) (card_isotropic_res h2 2 a ha)) (fun b hb => ?_)
    (by positivity)).trans (le_of_eq (by rw [cast_add_div]))
  push Not at hb
  refine chanceBoth_tape (A := fun τ => testSampleGramSchmidtTwice (glue a (glue b τ)) ≠ .ok ()) ?_
  refine (Nat.mul_le_mul_right _ (card_imp (Q := fun t : Fin 6 → F => a ⬝ᵥ ![t 0, t 1, t 4, t 5] = 0 ∨
    res a b ⬝ᵥ ![t 0, t 1, t 4, t 5] = 0) fun t ht => ?_)).trans
    (card_or_le (card_sample a (ne_zero_of_dot ha)) (card_sample _ (ne_zero_of_dot hb.2)))
  by_contra h
  push Not at h
  exact ht ((C80_test_sample_twice _ a b ![t 0, t 1, t 4, t 5] (res a b) (by simp [glue])
    (by simp [glue]) (by simp [glue, tapeOf]) (by rw [res, div_eq_mul_inv]) ha).2 ⟨hb.1, h.1, h.2, hb.2⟩)

end

/-! ### The inner-product arguments -/

section
variable {F G : Type} [Field F] [Fintype F] [DecidableEq F] [AddCommGroup G] [Module F G] [DecidableEq G]

omit [Fintype F] in
/-- C80: `test_create_nozk_proof` fails for at most a fraction `B / 2^512` of the hash functions, whatever the
random scalars and points are. -/
theorem C80_test_nozk (cd : Codec G) (τ : Tape F) (pts : Tape G) (Q : G) {B : Nat}
    (hB : Nat.card {v : Vector UInt8 64 // ((leNat v.toList : Nat) : F) = 0} ≤ B) :
    ∃ D0 : Finset (List Event), ∀ D, D0 ⊆ D → ∀ ro,
      chance ro D (fun ro => testNoZK ⟨cd, ro⟩ τ pts Q ≠ .ok ()) ≤ B / 2 ^ 512 := by
  set a : List F := List.ofFn fun i : Fin 4 => τ i with ha
  set b : List F := List.ofFn fun i : Fin 4 => τ (i + 4) with hb
  set Gs : List G := List.ofFn fun i : Fin 4 => pts i with hGs
  set Hs : List G := List.ofFn fun i : Fin 4 => pts (i + 4) with hHs
  set P := dot a Gs + dot b Hs + dot a b • Q with hP
  set log := ((newTranscript "ip_no_zk").appendMessage "P" (cd.compress P)).log with hlog
  refine ⟨{log ++ headLog (2 ^ 2)}, fun D hD ro => (chance_mono ?_).trans
    (C74_ipa_completeness_error (k := 2) (by decide) cd log Gs Hs Q a b (by simp [ha]) (by simp [hb]) (by simp [hGs])
      (by simp [hHs]) hB ro D (hD (Finset.mem_singleton_self _)))⟩
  rintro ro h ⟨p, tr', h1, h2⟩
  apply h
  unfold testNoZK
  simp only [drawN_eq, innerProduct_eq_dot]
  rw [← ha, ← hb, ← hGs, ← hHs, msm_eq (by simp [ha, hb, hGs, hHs]), ok_bind,
    show dot (a ++ b ++ [dot a b]) (Gs ++ Hs ++ [Q]) = P by
      rw [dot_append (by simp [ha, hb, hGs, hHs]), dot_append (by simp [ha, hGs]), hP]
      simp [dot]]
  rw [show (newTranscript "ip_no_zk").appendMessage "P" (cd.compress P) = ⟨log⟩ from rfl, h1, ok_bind]
  simp only
  rw [show (4 : Nat) = 2 ^ 2 from rfl, h2, ok_bind, rassert_true rfl]

/-- C80: `test_create_almzk_proof` fails with probability at most `12 / |F| + B / 2^512`, whatever the points
are. -/
theorem C80_test_almzk (h2 : (2 : F) ≠ 0) (cd : Codec G) (pts : Tape G) (Q : G) (rest : Tape F) {B : Nat}
    (hB : Nat.card {v : Vector UInt8 64 // ((leNat v.toList : Nat) : F) = 0} ≤ B) :
    ∃ D0 : Finset (List Event), ∀ D, D0 ⊆ D → ∀ ro,
      chanceBoth ro D rest 20 (fun ro τ => testAlmZK ⟨cd, ro⟩ τ pts Q ≠ .ok ()) ≤
        12 / Fintype.card F + B / 2 ^ 512 := by
  have hε : (0 : ℚ) ≤ 7 / Nat.card F + B / 2 ^ 512 := by positivity
  suffices hs : ∀ a : Fin 4 → F, ¬ a ⬝ᵥ a = 0 → ∃ D0 : Finset (List Event), ∀ D, D0 ⊆ D → ∀ ro,
      chanceBoth ro D (fun i => rest (i + 4)) 16 (fun ro τ => testAlmZK ⟨cd, ro⟩ (glue a τ) pts Q ≠ .ok ()) ≤
        (3 : Nat) / Nat.card F + (7 / Nat.card F + B / 2 ^ 512) by
    obtain ⟨D0, hD0⟩ := exists_prefix (n := 4) (m := 16) (k := 2) (rest := rest)
      (A := fun ro τ => testAlmZK ⟨cd, ro⟩ τ pts Q ≠ .ok ()) (fun a : Fin 4 → F => a ⬝ᵥ a = 0) (card_isotropic 3)
      hs (by positivity)
    refine ⟨D0, fun D hD ro => (hD0 D hD ro).trans (le_of_eq ?_)⟩
    rw [← Nat.card_eq_fintype_card, ← add_assoc, ← add_assoc, cast_add_div, ← add_div]
    norm_num
  intro a ha
  refine exists_prefix (n := 4) (m := 12) (k := 2 + 1)
    (fun b : Fin 4 → F => b ⬝ᵥ b = 0 ∨ ∀ j, a j - a ⬝ᵥ b * (b ⬝ᵥ b)⁻¹ * b j = 0)
    (card_or_le (card_isotropic 3) (card_parallel a (ne_zero_of_dot ha))) (fun b hb => ?_) hε
  push Not at hb
  obtain ⟨hbb, j, hj⟩ := hb
  set Gs : List G := List.ofFn fun i : Fin 4 => pts i with hGs
  set Hs : List G := List.ofFn fun i : Fin 4 => pts (i + 4) with hHs
  have hsp : ∀ j : Fin (2 ^ 2), SparsePosition (2 ^ 2) j.val := by
    intro j
    unfold SparsePosition
    have : j.val < 4 := j.isLt
    omega
  obtain ⟨i, hi⟩ := Function.ne_iff.1 (ne_zero_of_dot ha)
  obtain ⟨i', hi'⟩ := Function.ne_iff.1 (ne_zero_of_dot hbb)
  obtain ⟨D0, hD0⟩ := C74_alm_domain (N := 12) cd (newTranscript "ip_alm_zk").log Gs Hs Q
    (dot (List.ofFn a) Gs + dot (List.ofFn b) Hs) (List.ofFn a) (List.ofFn b) (a ⬝ᵥ b) (fun i => rest (i + 4 + 4))
  refine ⟨D0, fun D hD ro => (chanceBoth_mono ?_).trans (le_trans (C74_alm_completeness_error (k := 2) (N := 12) h2
    le_rfl (by decide) le_rfl cd (newTranscript "ip_alm_zk").log Gs Hs Q a b (by simp [hGs]) (by simp [hHs]) ha hbb
    ⟨i, hsp i, hi⟩ ⟨i', hsp i', hi'⟩ ⟨j, hsp j, hj⟩ hB ro (fun i => rest (i + 4 + 4)) D
    (fun ro t p tr' τ' h => hD (hD0 ro t p tr' τ' h))) (le_of_eq (by rw [Nat.card_eq_fintype_card])))⟩
  rintro ro τ h ⟨p, tr', τ', h1, h2⟩
  apply h
  unfold testAlmZK
  simp only [drawN_glue]
  simp only [drawN_eq, innerProduct_eq_dot, dot_ofFn_vec]
  rw [← hGs, ← hHs, msm_eq (by simp [hGs, hHs]), ok_bind, dot_append (by simp [hGs])]
  rw [show newTranscript "ip_alm_zk" = ⟨(newTranscript "ip_alm_zk").log⟩ from rfl, h1, ok_bind]
  simp only
  change AlmZK.verify _ _ _ _ _ _ 4 _ _ = _ at h2
  rw [h2, ok_bind, rassert_true rfl]

end

section
open Toy

/-- The bound for `test_create_almzk_proof` over `ZMod 101`: at most `12/101 + (1/101 + 1/2^512)`. -/
example (pts : Tape K) (Q : K) (rest : Tape K) : ∃ D0 : Finset (List Event), ∀ D, D0 ⊆ D → ∀ ro,
    chanceBoth ro D rest 20 (fun ro τ => testAlmZK ⟨codec, ro⟩ τ pts Q ≠ .ok ()) ≤
      12 / 101 + 1 * (1 / 101 + 1 / 2 ^ 512) := by
  obtain ⟨D0, h⟩ := C80_test_almzk (F := K) (by decide +kernel) codec pts Q rest (C67_scalars 101 0)
  refine ⟨D0, fun D hD ro => (h D hD ro).trans (add_le_add (le_of_eq ?_) ?_)⟩
  · rw [ZMod.card]; norm_num
  · have := C67_bound 1 101
    rwa [Nat.one_mul, Nat.cast_one] at this

/-- `test_orth` over `ZMod 101`: a run that passes, one with orthogonal vectors and one with the isotropic vector
`(1, 10, 0, 0)`. -/
example : testOrth (fun i => (i * i + 3 : K)) = .ok () ∧
    testOrth (fun i => if i < 6 then (1 : K) else -1) = .error .assertFail ∧
    testOrth (fun i => ([1, 10, 0, 0, 1] : List K).getD i 0) = .error .assertFail := by
  decide +kernel

/-- The same for the two samplers. -/
example : testSampleGramSchmidt (fun i => (i * i + 3 : K)) = .ok () ∧
    testSampleGramSchmidt (fun i => ([1, 0, 0, 0, 0, 1, 1, 1, 1, 1] : List K).getD i 0) = .error .assertFail ∧
    testSampleGramSchmidt (fun i => ([1, 10, 0, 0, 1] : List K).getD i 0) = .error .assertFail ∧
    testSampleGramSchmidtTwice (fun i => (i * i + 3 : K)) = .ok () ∧
    testSampleGramSchmidtTwice (fun i => ([1, 0, 0, 0, 1, 1, 10, 0, 1, 1] : List K).getD i 0) =
      .error .assertFail ∧
    testSampleGramSchmidtTwice (fun i => ([1, 10, 0, 0, 1, 0, 0, 0, 1, 1] : List K).getD i 0) =
      .error .assertFail := by
  decide +kernel

/-- The hash function of the examples, with output zero for histories of length `L`. -/
def zeroAt (L : Nat) : Ctx K := ⟨codec, fun log => if log.length = L then Vector.replicate 64 0 else hash log⟩

/-- The two inner-product tests with the hash function of the examples (they pass) and with one that gives zero for
the challenge `alpha` (they fail). -/
example : testNoZK cx (fun i => (i * i + 3 : K)) (fun i => (5 * i + 2 : K)) 7 = .ok () ∧
    testNoZK (zeroAt 4) (fun i => (i * i + 3 : K)) (fun i => (5 * i + 2 : K)) 7 = .error .assertFail ∧
    testAlmZK cx (fun i => (i * i + 3 : K)) (fun i => (5 * i + 2 : K)) 7 = .ok () ∧
    testAlmZK (zeroAt 6) (fun i => (i * i + 3 : K)) (fun i => (5 * i + 2 : K)) 7 = .error .assertFail := by
  decide +kernel
end

end Qesa.Props
