import Verif.Props.SessionReduction
import Verif.Props.Ristretto
/-
C113: C109, C111 and C112 in numbers, for the Ristretto group, and C114 likewise.
-/
namespace Qesa.Props
open Qesa Spec Ipa Lmpa
set_option exponentiation.threshold 600

theorem challenges_le (s : Slot) (h : s.size ≤ 16) : s.challenges ≤ 22 := by
  cases s <;> simp only [Slot.size, Slot.challenges] at h ⊢ <;> omega

theorem factor_le {G : Type} {fuel : Nat} {gens : Generators G} (s : Slot) (hf : s.Fits fuel gens) (h : s.size ≤ 16) :
    s.factor ≤ 65540 := by
  cases s with
  | qesa m e k =>
    have := Nat.pow_le_pow_right (n := 2) (by decide) h
    have h1 := hf.1
    simp only [Slot.size, Slot.factor] at this ⊢
    omega
  | copy m e N =>
    have := Nat.pow_le_pow_right (n := 2) (by decide) h
    have h1 := hf.1
    have h2 := hf.2.2.2.2
    simp only [Slot.size, Slot.factor] at this ⊢
    omega
  | ipa | alm | lmpa | simple => simp [Slot.factor]

theorem extractionFactor_le {G : Type} {fuel : Nat} {gens : Generators G} (s : Slot) (hf : s.Fits fuel gens)
    (h : s.size ≤ 16) : s.extractionFactor ≤ 65540 := by
  have := factor_le s hf h
  cases s <;> simp only [Slot.factor, Slot.extractionFactor] at this ⊢ <;> omega

theorem fits_of_proper {G : Type} [AddCommGroup G] [Module RistrettoScalar G] {fuel : Nat} {gens : Generators G} (s : Slot)
    (h : s.Proper RistrettoScalar fuel gens) : s.Fits fuel gens := by
  cases s with
  | qesa | ipa | alm | copy => simp only [Slot.Proper, Slot.Fits] at h ⊢; tauto
  | lmpa | simple => exact h

/-- A sum as `slotsError` and `extractionError`. -/
theorem error_sum (B c f : Nat) (err : (m : Nat) → (Fin m → Slot) → Nat → ℚ) (fac : Slot → Nat)
    (h0 : ∀ slots T, err 0 slots T = 0)
    (hs : ∀ m (slots : Fin (m + 1) → Slot) T, err (m + 1) slots T =
      ((T + (slots 0).challenges) * (fac (slots 0) * B) : Nat) / 2 ^ 512 +
        err m (fun i => slots i.succ) (T + (slots 0).challenges)) :
    ∀ (m : Nat) (slots : Fin m → Slot) (T : Nat), (∀ i, (slots i).challenges ≤ c ∧ fac (slots i) ≤ f) →
      err m slots T ≤ (m * ((T + m * c) * (f * B)) : Nat) / 2 ^ 512
  | 0, slots, T, _ => by rw [h0]; simp
  | m + 1, slots, T, h => by
    rw [hs]
    have ih := error_sum B c f err fac h0 hs m (fun i => slots i.succ) (T + (slots 0).challenges) fun i => h i.succ
    refine (add_le_add_right ih _).trans ?_
    rw [← add_div, ← Nat.cast_add]
    refine div_le_div_of_nonneg_right (Nat.cast_le.2 ?_) (by positivity)
    obtain ⟨h1, h2⟩ := h 0
    calc (T + (slots 0).challenges) * (fac (slots 0) * B) + m * ((T + (slots 0).challenges + m * c) * (f * B))
        ≤ (T + (m + 1) * c) * (f * B) + m * ((T + (m + 1) * c) * (f * B)) := by
          have e : T + (slots 0).challenges + m * c ≤ T + (m + 1) * c := by
            rw [Nat.succ_mul]; omega
          gcongr
          rw [Nat.succ_mul]; omega
      _ = (m + 1) * ((T + (m + 1) * c) * (f * B)) := by ring

theorem session_bits {m T : Nat} (hm : m ≤ 2 ^ 20) (hT : T ≤ 2 ^ 100) :
    ((m * ((T + m * 22) * (65540 * 2 ^ 260)) : Nat) : ℚ) / 2 ^ 512 ≤ 1 / 2 ^ 115 := by
  refine bits_le 115 ?_ rfl
  calc m * ((T + m * 22) * (65540 * 2 ^ 260)) * 2 ^ 115
      ≤ 2 ^ 20 * ((2 ^ 100 + 2 ^ 20 * 22) * (65540 * 2 ^ 260)) * 2 ^ 115 := by gcongr
    _ ≤ 2 ^ 512 := by norm_num

theorem slotsError_le {G : Type} {fuel m T : Nat} {gens : Generators G} (slots : Fin m → Slot) (hf : ∀ i, (slots i).Fits fuel gens)
    (h : ∀ i, (slots i).size ≤ 16) (hm : m ≤ 2 ^ 20) (hT : T ≤ 2 ^ 100) : slotsError (2 ^ 260) m slots T ≤ 1 / 2 ^ 115 :=
  (error_sum (2 ^ 260) 22 65540 (slotsError (2 ^ 260)) Slot.factor (fun _ _ => rfl) (fun _ _ _ => rfl) m slots T fun i =>
    ⟨challenges_le _ (h i), factor_le _ (hf i) (h i)⟩).trans (session_bits hm hT)

theorem extractionError_le {G : Type} {fuel m T : Nat} {gens : Generators G} (slots : Fin m → Slot)
    (hf : ∀ i, (slots i).Fits fuel gens) (h : ∀ i, (slots i).size ≤ 16) (hm : m ≤ 2 ^ 20) (hT : T ≤ 2 ^ 100) :
    extractionError (2 ^ 260) m slots T ≤ 1 / 2 ^ 115 :=
  (error_sum (2 ^ 260) 22 65540 (extractionError (2 ^ 260)) Slot.extractionFactor (fun _ _ => rfl) (fun _ _ _ => rfl)
    m slots T fun i => ⟨challenges_le _ (h i), extractionFactor_le _ (hf i) (h i)⟩).trans (session_bits hm hT)

theorem challengesBefore_le : ∀ (m : Nat) (slots : Fin m → Slot) (i : Fin m), (∀ i, (slots i).size ≤ 16) →
    challengesBefore m slots i + (slots i).challenges ≤ m * 22
  | 0, _, i, _ => i.elim0
  | m + 1, slots, i, h => by
    refine Fin.cases ?_ (fun j => ?_) i
    · have := challenges_le _ (h 0)
      show 0 + (slots 0).challenges ≤ _
      rw [Nat.succ_mul]; omega
    · have := challenges_le _ (h 0)
      have ih := challengesBefore_le m (fun i => slots i.succ) j fun i => h i.succ
      show (slots 0).challenges + challengesBefore m (fun i => slots i.succ) j + (slots j.succ).challenges ≤ _
      rw [Nat.succ_mul]; omega

theorem treeSize_le {G : Type} {fuel : Nat} {gens : Generators G} (s : Slot) (hf : s.Fits fuel gens) (h : s.size ≤ 16) :
    s.treeSize ≤ 2 ^ 54 := by
  have h3 : (3 : Nat) ^ 17 ≤ 2 ^ 54 := by norm_num
  have h4 : (4 : Nat) ^ 18 ≤ 2 ^ 54 := by norm_num
  have h54 : 2 ^ 16 * 4 ^ 19 ≤ 2 ^ 54 := by norm_num
  have aux (m e : Nat) (hm : m + 3 = 2 ^ e) (he : e ≤ 16) : max (m + 2) 4 * 4 ^ (e + 3) ≤ 2 ^ 54 := by
    have h1 := Nat.pow_le_pow_right (n := 2) (by decide) he
    have h2 : max (m + 2) 4 ≤ 2 ^ 16 := by omega
    exact (Nat.mul_le_mul h2 (Nat.pow_le_pow_right (by decide) (by omega))).trans h54
  cases s with
  | qesa m e k => exact aux m e hf.1 h
  | copy m e N => exact aux m e hf.1 h
  | ipa k => exact (Nat.pow_le_pow_right (by decide) (by simp only [Slot.size] at h; omega)).trans h4
  | alm k => exact (Nat.pow_le_pow_right (by decide) (by simp only [Slot.size] at h; omega)).trans h4
  | lmpa q => exact (Nat.pow_le_pow_right (by decide) (by simp only [Slot.size] at h; omega)).trans h3
  | simple q => exact (Nat.pow_le_pow_right (by decide) (by simp only [Slot.size] at h; omega)).trans h3

theorem loss_le {G : Type} {fuel : Nat} {gens : Generators G} (s : Slot) (hf : s.Fits fuel gens) (h : s.size ≤ 16) :
    s.loss (2 ^ 260) (2 ^ 300) ≤ 2 ^ 31 / 2 ^ 252 := by
  have level (a : Nat) (ha : a ≤ 19) : (a : ℚ) * (3 / ((2 ^ 300 : Nat) + 1) + 6 * (((2 ^ 260 : Nat) : ℚ) / 2 ^ 512)) ≤
      128 / 2 ^ 252 := by
    calc (a : ℚ) * (3 / ((2 ^ 300 : Nat) + 1) + 6 * (((2 ^ 260 : Nat) : ℚ) / 2 ^ 512))
        ≤ 19 * (3 / ((2 ^ 300 : Nat) + 1) + 6 * (((2 ^ 260 : Nat) : ℚ) / 2 ^ 512)) :=
          mul_le_mul_of_nonneg_right (by exact_mod_cast ha) (by positivity)
      _ ≤ 128 / 2 ^ 252 := by norm_num
  have aux (m e : Nat) (hm : m + 3 = 2 ^ e) (he : e ≤ 16) : Slot.loss (2 ^ 260) (2 ^ 300) (.qesa m e 0) ≤ 2 ^ 31 / 2 ^ 252 := by
    have h1 := Nat.pow_le_pow_right (n := 2) (by decide) he
    have h2 : max (m + 2) 4 ≤ 2 ^ 16 - 1 := by omega
    have h3 : 4 ≤ max (m + 2) 4 := by omega
    have hl := level (e + 3) (by omega)
    simp only [Slot.loss]
    generalize max (m + 2) 4 = k at h2 h3
    have h2' : (k : ℚ) ≤ 2 ^ 16 - 1 := by
      have : ((2 ^ 16 - 1 : Nat) : ℚ) = 2 ^ 16 - 1 := by norm_num
      rw [← this]; exact_mod_cast h2
    have h3' : (4 : ℚ) ≤ k := by exact_mod_cast h3
    have i1 : (k - 1 : ℚ) / ((2 ^ 300 : Nat) + 1) ≤ 1 / 2 ^ 252 := by
      calc (k - 1 : ℚ) / ((2 ^ 300 : Nat) + 1) ≤ 2 ^ 16 / ((2 ^ 300 : Nat) + 1) := by gcongr; linarith
        _ ≤ 1 / 2 ^ 252 := by norm_num
    have i2 : (k * (k - 1) : ℚ) / 2 * (((2 ^ 260 : Nat) : ℚ) / 2 ^ 512) ≤ (2 ^ 16 - 1) * (2 ^ 16 - 2) / 2 / 2 ^ 252 := by
      have : (k * (k - 1) : ℚ) ≤ (2 ^ 16 - 1) * (2 ^ 16 - 2) := by
        apply mul_le_mul h2' (by linarith) (by linarith) (by norm_num)
      calc (k * (k - 1) : ℚ) / 2 * (((2 ^ 260 : Nat) : ℚ) / 2 ^ 512)
          ≤ (2 ^ 16 - 1) * (2 ^ 16 - 2) / 2 * (((2 ^ 260 : Nat) : ℚ) / 2 ^ 512) := by gcongr
        _ = _ := by norm_num
    calc _ ≤ 1 / 2 ^ 252 + (2 ^ 16 - 1) * (2 ^ 16 - 2) / 2 / 2 ^ 252 + 128 / 2 ^ 252 := add_le_add (add_le_add i1 i2) hl
      _ ≤ 2 ^ 31 / 2 ^ 252 := by norm_num
  have big : (128 : ℚ) / 2 ^ 252 ≤ 2 ^ 31 / 2 ^ 252 := by norm_num
  have two (a : Nat) (ha : a ≤ 19) : (a : ℚ) * (2 / ((2 ^ 300 : Nat) + 1) + 3 * (((2 ^ 260 : Nat) : ℚ) / 2 ^ 512)) ≤
      2 ^ 31 / 2 ^ 252 := by
    refine le_trans ?_ ((level a ha).trans big)
    gcongr <;> norm_num
  cases s with
  | qesa m e k => exact aux m e hf.1 h
  | copy m e N => exact aux m e hf.1 h
  | ipa k => simpa [Slot.loss] using (level (k + 1) (by simp only [Slot.size] at h; omega)).trans big
  | alm k => simpa [Slot.loss] using (level (k + 2) (by simp only [Slot.size] at h; omega)).trans big
  | lmpa q => simpa [Slot.loss] using two q (by simp only [Slot.size] at h; omega)
  | simple q => simpa [Slot.loss] using two (q + 1) (by simp only [Slot.size] at h; omega)

/-- The bounds of C112 and C114 on the number of runs and on the lost probability. -/
theorem session_numbers {G : Type} {fuel m T : Nat} {gens : Generators G} (hm : m ≤ 2 ^ 20) (slots : Fin m → Slot)
    (hs : ∀ i, (slots i).size ≤ 16) (hp : ∀ i, (slots i).Fits fuel gens) (i : Fin m) (hT : T ≤ 2 ^ 100) :
    let q := T + (challengesBefore m slots i + (slots i).challenges)
    1 + (q : Nat) * (((slots i).treeSize : ℚ) - 1) ≤ 2 ^ 54 * (T + 2 ^ 25) ∧
    (q : Nat) * (slots i).loss (2 ^ 260) (2 ^ 300) ≤ 1 / 2 ^ 120 := by
  intro q
  have ht' : ((slots i).treeSize : ℚ) ≤ 2 ^ 54 := by exact_mod_cast treeSize_le _ (hp i) (hs i)
  have hq : q ≤ T + (2 ^ 25 - 1) := by
    have := challengesBefore_le m slots i hs
    omega
  have hq' : (q : ℚ) ≤ T + (2 ^ 25 - 1) := by
    refine (Nat.cast_le.2 hq).trans ?_
    rw [Nat.cast_add]
    norm_num
  constructor
  · calc 1 + (q : ℚ) * (((slots i).treeSize : ℚ) - 1) ≤ 1 + (q : ℚ) * 2 ^ 54 := by gcongr; linarith
      _ ≤ 1 + ((T : ℚ) + (2 ^ 25 - 1)) * 2 ^ 54 := by gcongr
      _ ≤ 2 ^ 54 * (T + 2 ^ 25) := by linarith
  · have hT2 : (T : ℚ) ≤ 2 ^ 100 := by exact_mod_cast hT
    calc (q : ℚ) * (slots i).loss (2 ^ 260) (2 ^ 300)
        ≤ (q : ℚ) * (2 ^ 31 / 2 ^ 252) :=
          mul_le_mul_of_nonneg_left (loss_le _ (hp i) (hs i)) (Nat.cast_nonneg _)
      _ ≤ (2 ^ 100 + 2 ^ 25) * (2 ^ 31 / 2 ^ 252) := by
          refine mul_le_mul_of_nonneg_right (hq'.trans ?_) (by positivity)
          linarith
      _ ≤ 1 / 2 ^ 120 := by norm_num

section
variable {G : Type} [AddCommGroup G] [Module RistrettoScalar G] [DecidableEq G]

/-- C113: soundness of sessions over the Ristretto group (C109). At most `2^20` proofs with at most `2^16` generators each; the
prover asks at most `2^100` questions and chooses all statements. If there are no relations between the generators, the
probability that the verifier accepts some proof that it should not is at most `2^-115`. -/
theorem C113_session_soundness {fuel m T : Nat} (hm : m ≤ 2 ^ 20) (hT' : T ≤ 2 ^ 100) (cd : Codec G) (gens : Generators G)
    (enc : (s : Slot) → s.Statement RistrettoScalar G → List Event)
    (slots : Fin m → Slot) (hs : ∀ i, (slots i).size ≤ 16) (hp : ∀ i, (slots i).Proper RistrettoScalar fuel gens)
    (henc : ∀ i, ∀ st st' r r', enc (slots i) st ++ r = enc (slots i) st' ++ r' → st = st')
    (hch : ∀ i st lab n, .chal lab n ∉ enc (slots i) st) (log : List Event)
    (A : Algo Event ((i : Fin m) → (slots i).Statement RistrettoScalar G × (slots i).Proof RistrettoScalar G))
    (hT : A.AtMost T) :
    ∃ D0 : Finset (List Event), ∀ D, D0 ⊆ D → ∀ ro, chance ro D (fun ro =>
      Fooled ⟨cd, ro⟩ fuel gens enc m slots (A.run id ro) ⟨log⟩) ≤ 1 / 2 ^ 115 := by
  obtain ⟨D0, h⟩ := C109_session_soundness (fuel := fuel) cd gens enc C87_scalars slots hp henc hch log A hT
  exact ⟨D0, fun D hD ro => (h D hD ro).trans (slotsError_le slots (fun i => fits_of_proper _ (hp i)) hs hm hT')⟩

/-- C113: knowledge soundness of sessions over the Ristretto group (C111), with the same numbers and without a condition on
the generators. The probability that the verifier accepts some proof that is not explained is at most `2^-115`. -/
theorem C113_session_knowledge {fuel m T : Nat} (hm : m ≤ 2 ^ 20) (hT' : T ≤ 2 ^ 100) (cd : Codec G) (gens : Generators G)
    (enc : (s : Slot) → s.Statement RistrettoScalar G → List Event)
    (slots : Fin m → Slot) (hs : ∀ i, (slots i).size ≤ 16) (hp : ∀ i, (slots i).Fits fuel gens)
    (henc : ∀ i, ∀ st st' r r', enc (slots i) st ++ r = enc (slots i) st' ++ r' → st = st')
    (hch : ∀ i st lab n, .chal lab n ∉ enc (slots i) st) (log : List Event)
    (A : Algo Event ((i : Fin m) → (slots i).Statement RistrettoScalar G × (slots i).Proof RistrettoScalar G))
    (hT : A.AtMost T) :
    ∃ D0 : Finset (List Event), ∀ D, D0 ⊆ D → ∀ ro, chance ro D (fun ro =>
      Unexplained cd fuel gens enc m slots (A.run id) ⟨log⟩ ro) ≤ 1 / 2 ^ 115 := by
  obtain ⟨D0, h⟩ := C111_session_knowledge (fuel := fuel) cd gens enc C87_scalars slots hp henc hch log A hT
  exact ⟨D0, fun D hD ro => (h D hD ro).trans (extractionError_le slots hp hs hm hT')⟩

/-- C113: extraction from sessions over the Ristretto group (C112), with the same numbers. The program for proof `i` runs a
prover with `T ≤ 2^100` questions at most `2^54 (T + 2^25)` times on average, and it fails for an accepted proof with
probability at most `2^-120`. -/
theorem C113_session_extractor {fuel m : Nat} (hm : m ≤ 2 ^ 20) (cd : Codec G) (gens : Generators G)
    (enc : (s : Slot) → s.Statement RistrettoScalar G → List Event)
    (slots : Fin m → Slot) (hs : ∀ i, (slots i).size ≤ 16) (hp : ∀ i, (slots i).Fits fuel gens)
    (henc : ∀ i, ∀ st st' r r', enc (slots i) st ++ r = enc (slots i) st' ++ r' → st = st')
    (hch : ∀ i st lab n, .chal lab n ∉ enc (slots i) st) (log : List Event) (i : Fin m) :
    let X := (i : Fin m) → (slots i).Statement RistrettoScalar G × (slots i).Proof RistrettoScalar G
    ∃ E : Hash → Rewinder X (Option (List (Hash × X))), ∀ (T : Nat) (A : Algo Event X), T ≤ 2 ^ 100 → A.AtMost T →
    ∃ D0 : Finset (List Event), ∀ D, D0 ⊆ D → ∀ ro,
      let P := fun ro => A.run id ro
      mean ro D (fun ro => (E ro).runs P) ≤ 2 ^ 54 * (T + 2 ^ 25) ∧
      chance ro D (fun ro => ∃ h, Reached cd fuel gens enc ro m slots i (P ro) ⟨log⟩ h ∧
          (∃ tr', (slots i).verify ⟨cd, ro⟩ fuel gens ⟨h⟩ (P ro i).1 (P ro i).2 = .ok (true, tr')) ∧
          (slots i).Nonzero cd ro h (P ro i).1 (P ro i).2) ≤
        mean ro D (fun ro => (E ro).chance P fun o => ∃ runs, o = some runs ∧ runs.length ≤ 2 ^ 54 ∧
          ∃ h, Reached cd fuel gens enc ro m slots i (P ro) ⟨log⟩ h ∧
            (slots i).ExplainedBy cd fuel gens (fun ro' => (ro', P ro') ∈ runs) h (fun ro' => P ro' i) ro) +
        1 / 2 ^ 120 := by
  intro X
  obtain ⟨E, hE⟩ := C112_session_extractor (fuel := fuel) cd gens enc C87_scalars slots hp henc hch log i (2 ^ 300)
  refine ⟨E, fun T A hT' hT => ?_⟩
  obtain ⟨D0, h⟩ := hE T A hT
  refine ⟨D0, fun D hD ro => ?_⟩
  obtain ⟨h1, h2⟩ := h D hD ro
  have ht := treeSize_le _ (hp i) (hs i)
  obtain ⟨b1, b2⟩ := session_numbers hm slots hs hp i hT'
  refine ⟨h1.trans b1, h2.trans (add_le_add (found_mono fun ro o => ?_) b2)⟩
  rintro ⟨runs, e1, e2, e3⟩
  exact ⟨runs, e1, e2.trans ht, e3⟩

/-- C114 for the Ristretto group, with the numbers of C113. A prover with at most `2^100` questions shows an opening together
with the session. The probability that proof `i` is accepted although the opening shows that it should not be is at most
`2^-120` more than the probability that the program finds at most `2^54` runs that give a relation between the generators. -/
theorem C114_session_level {fuel m : Nat} (hm : m ≤ 2 ^ 20) (cd : Codec G) (gens : Generators G)
    (enc : (s : Slot) → s.Statement RistrettoScalar G → List Event)
    (slots : Fin m → Slot) (hs : ∀ i, (slots i).size ≤ 16) (hp : ∀ i, (slots i).Fits fuel gens)
    (henc : ∀ i, ∀ st st' r r', enc (slots i) st ++ r = enc (slots i) st' ++ r' → st = st')
    (hch : ∀ i st lab n, .chal lab n ∉ enc (slots i) st) (log : List Event) (i : Fin m) :
    let X := ((i : Fin m) → (slots i).Statement RistrettoScalar G × (slots i).Proof RistrettoScalar G) ×
      List RistrettoScalar × List RistrettoScalar
    ∃ E : Hash → Rewinder X (Option (List (Hash × X))), ∀ (T : Nat) (A : Algo Event X), T ≤ 2 ^ 100 → A.AtMost T →
    ∃ D0 : Finset (List Event), ∀ D, D0 ⊆ D → ∀ ro,
      let P := fun ro => A.run id ro
      mean ro D (fun ro => (E ro).runs P) ≤ 2 ^ 54 * (T + 2 ^ 25) ∧
      chance ro D (fun ro => ∃ h, Reached cd fuel gens enc ro m slots i (P ro).1 ⟨log⟩ h ∧
          (∃ tr', (slots i).verify ⟨cd, ro⟩ fuel gens ⟨h⟩ ((P ro).1 i).1 ((P ro).1 i).2 = .ok (true, tr')) ∧
          (slots i).FalseOpening cd gens ro h ((P ro).1 i).1 ((P ro).1 i).2 (P ro).2) ≤
        mean ro D (fun ro => (E ro).chance P fun o => ∃ runs, o = some runs ∧ runs.length ≤ 2 ^ 54 ∧ (ro, P ro) ∈ runs ∧
          ∃ h, Reached cd fuel gens enc ro m slots i (P ro).1 ⟨log⟩ h ∧
            (slots i).BrokenBy cd fuel gens (fun ro' => (ro', P ro') ∈ runs) h (fun ro' => (P ro').1 i) (P ro).2 ro) +
        1 / 2 ^ 120 := by
  intro X
  obtain ⟨E, hE⟩ := C114_session_reduction (fuel := fuel) cd gens enc C87_scalars slots hp henc hch log i (2 ^ 300)
  refine ⟨E, fun T A hT' hT => ?_⟩
  obtain ⟨D0, h⟩ := hE T A hT
  refine ⟨D0, fun D hD ro => ?_⟩
  obtain ⟨h1, h2⟩ := h D hD ro
  have ht := treeSize_le _ (hp i) (hs i)
  obtain ⟨b1, b2⟩ := session_numbers hm slots hs hp i hT'
  refine ⟨h1.trans b1, h2.trans (add_le_add (found_mono fun ro o => ?_) b2)⟩
  rintro ⟨runs, e1, e2, e3⟩
  exact ⟨runs, e1, e2.trans ht, e3⟩

end

/-! ### Examples -/
section

/-- C113: half a million inner-product arguments with one generator of each kind, and half a million proofs of SimpleZK with
`2^16` columns, in turn, in a group with three independent points. Some encoding of the statements makes this sound. -/
example (cd : Codec (Fin 3 → RistrettoScalar)) (ro : Hash) (log : List Event) :
    let slots : Fin (2 ^ 20) → Slot := fun i => if i.val % 2 = 0 then .ipa 0 else .simple 16
    let gens : Generators (Fin 3 → RistrettoScalar) :=
      ⟨fun k => List.replicate (2 ^ k) ![1, 0, 0], fun k => List.replicate (2 ^ k) ![0, 1, 0], ![0, 0, 1]⟩
    ∃ enc : (s : Slot) → s.Statement RistrettoScalar (Fin 3 → RistrettoScalar) → List Event,
    ∀ A : Algo Event ((i : Fin (2 ^ 20)) → (slots i).Statement RistrettoScalar (Fin 3 → RistrettoScalar) ×
      (slots i).Proof RistrettoScalar (Fin 3 → RistrettoScalar)), A.AtMost (2 ^ 100) →
    ∃ D, chance ro D (fun ro => Fooled ⟨cd, ro⟩ 17 gens enc (2 ^ 20) slots (A.run id ro) ⟨log⟩) ≤ 1 / 2 ^ 115 := by
  intro slots gens
  obtain ⟨enc, he, hn⟩ := C111_encoding RistrettoScalar (Fin 3 → RistrettoScalar)
  refine ⟨enc, fun A hT => ?_⟩
  obtain ⟨D, h⟩ := C113_session_soundness (fuel := 17) (le_refl _) (le_refl _) cd gens enc slots
    (fun i => by simp only [slots]; split_ifs <;> simp [Slot.size])
    (fun i => by
      simp only [slots]
      split_ifs
      · refine ⟨rfl, rfl, ?_⟩
        rintro ⟨u, v, c⟩ ⟨h1, h2, h4, h3⟩
        match u, h1, v, h2 with
        | [a], _, [b], _ =>
          have e0 := congrFun h3 0
          have e1 := congrFun h3 1
          have e2 := congrFun h3 2
          simp [gens, dot_cons] at e0 e1 e2
          simp [e0, e1, e2] at h4
      · exact ⟨List.length_replicate .., by decide⟩)
    (fun i => he _) (fun i => hn _) log A hT
  exact ⟨D, h D subset_rfl ro⟩

/-- C113: a million proofs, of Copy with `2^6` generators and of QESA with `2^16`, in turn, in a group of prime order. The
verifier accepts an unexplained proof with probability at most `2^-115`, and for each proof there is a program that finds the
runs that explain it. -/
example (cd : Codec RistrettoScalar) (ro : Hash) (log : List Event) (g : Nat → RistrettoScalar) (i : Fin (2 ^ 20)) :
    let slots : Fin (2 ^ 20) → Slot := fun i => if i.val % 2 = 0 then .copy 61 6 50 else .qesa 65533 16 1
    let gens : Generators RistrettoScalar :=
      ⟨fun k => (List.range (2 ^ k)).map g, fun k => (List.range (2 ^ k)).map fun i => g (i + 70000), g 140000⟩
    let X := (i : Fin (2 ^ 20)) → (slots i).Statement RistrettoScalar RistrettoScalar ×
      (slots i).Proof RistrettoScalar RistrettoScalar
    ∃ (enc : (s : Slot) → s.Statement RistrettoScalar RistrettoScalar → List Event)
      (E : Hash → Rewinder X (Option (List (Hash × X)))),
    ∀ A : Algo Event X, A.AtMost (2 ^ 100) → ∃ D,
      let P := fun ro => A.run id ro
      chance ro D (fun ro => Unexplained cd 0 gens enc (2 ^ 20) slots P ⟨log⟩ ro) ≤ 1 / 2 ^ 115 ∧
      mean ro D (fun ro => (E ro).runs P) ≤ 2 ^ 155 ∧
      chance ro D (fun ro => ∃ h, Reached cd 0 gens enc ro (2 ^ 20) slots i (P ro) ⟨log⟩ h ∧
          (∃ tr', (slots i).verify ⟨cd, ro⟩ 0 gens ⟨h⟩ (P ro i).1 (P ro i).2 = .ok (true, tr')) ∧
          (slots i).Nonzero cd ro h (P ro i).1 (P ro i).2) ≤
        mean ro D (fun ro => (E ro).chance P fun o => ∃ runs, o = some runs ∧ runs.length ≤ 2 ^ 54 ∧
          ∃ h, Reached cd 0 gens enc ro (2 ^ 20) slots i (P ro) ⟨log⟩ h ∧
            (slots i).ExplainedBy cd 0 gens (fun ro' => (ro', P ro') ∈ runs) h (fun ro' => P ro' i) ro) + 1 / 2 ^ 120 := by
  intro slots gens X
  obtain ⟨enc, he, hn⟩ := C111_encoding RistrettoScalar RistrettoScalar
  have hs : ∀ i, (slots i).size ≤ 16 := fun i => by simp only [slots]; split_ifs <;> simp [Slot.size]
  have hp : ∀ i, (slots i).Fits 0 gens := fun i => by simp only [slots]; split_ifs <;> simp [Slot.Fits, gens]
  obtain ⟨E, hE⟩ := C113_session_extractor (fuel := 0) (le_refl _) cd gens enc slots hs hp (fun i => he _) (fun i => hn _) log i
  refine ⟨enc, E, fun A hT => ?_⟩
  obtain ⟨D1, h1⟩ := C113_session_knowledge (fuel := 0) (le_refl _) (le_refl _) cd gens enc slots hs hp (fun i => he _)
    (fun i => hn _) log A hT
  obtain ⟨D2, h2⟩ := hE _ A (le_refl _) hT
  obtain ⟨h3, h4⟩ := h2 (D1 ∪ D2) Finset.subset_union_right ro
  refine ⟨D1 ∪ D2, h1 _ Finset.subset_union_left ro, h3.trans ?_, h4⟩
  norm_num

/-- C114: a session of a million proofs of AlmZK with `2^16` generators of each kind. The generators need not be
different, so relations may be known: then provers that show false openings exist, and the program finds a relation. -/
example (cd : Codec RistrettoScalar) (ro : Hash) (log : List Event) (g : Nat → RistrettoScalar) (i : Fin (2 ^ 20)) :
    let slots : Fin (2 ^ 20) → Slot := fun _ => .alm 16
    let gens : Generators RistrettoScalar :=
      ⟨fun k => (List.range (2 ^ k)).map g, fun k => (List.range (2 ^ k)).map fun i => g (i + 70000), g 140000⟩
    let X := ((i : Fin (2 ^ 20)) → (slots i).Statement RistrettoScalar RistrettoScalar ×
      (slots i).Proof RistrettoScalar RistrettoScalar) × List RistrettoScalar × List RistrettoScalar
    ∃ (enc : (s : Slot) → s.Statement RistrettoScalar RistrettoScalar → List Event)
      (E : Hash → Rewinder X (Option (List (Hash × X)))),
    ∀ A : Algo Event X, A.AtMost (2 ^ 20) → ∃ D,
      let P := fun ro => A.run id ro
      mean ro D (fun ro => (E ro).runs P) ≤ 2 ^ 80 ∧
      chance ro D (fun ro => ∃ h, Reached cd 17 gens enc ro (2 ^ 20) slots i (P ro).1 ⟨log⟩ h ∧
          (∃ tr', (slots i).verify ⟨cd, ro⟩ 17 gens ⟨h⟩ ((P ro).1 i).1 ((P ro).1 i).2 = .ok (true, tr')) ∧
          (slots i).FalseOpening cd gens ro h ((P ro).1 i).1 ((P ro).1 i).2 (P ro).2) ≤
        mean ro D (fun ro => (E ro).chance P fun o => ∃ runs, o = some runs ∧ runs.length ≤ 2 ^ 54 ∧ (ro, P ro) ∈ runs ∧
          ∃ h, Reached cd 17 gens enc ro (2 ^ 20) slots i (P ro).1 ⟨log⟩ h ∧
            (slots i).BrokenBy cd 17 gens (fun ro' => (ro', P ro') ∈ runs) h (fun ro' => (P ro').1 i) (P ro).2 ro) +
        1 / 2 ^ 120 := by
  intro slots gens X
  obtain ⟨enc, he, hn⟩ := C111_encoding RistrettoScalar RistrettoScalar
  have hp : ∀ i, (slots i).Fits 17 gens := fun i => by simp [slots, Slot.Fits, gens]
  obtain ⟨E, hE⟩ := C114_session_level (fuel := 17) (le_refl _) cd gens enc slots (fun _ => le_refl 16) hp (fun i => he _)
    (fun i => hn _) log i
  refine ⟨enc, E, fun A hT => ?_⟩
  obtain ⟨D, h⟩ := hE _ A (by norm_num) hT
  obtain ⟨h1, h2⟩ := h D subset_rfl ro
  refine ⟨D, h1.trans ?_, h2⟩
  norm_num

end
end Qesa.Props
