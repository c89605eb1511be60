import Mathlib.Logic.Equiv.Fin.Basic
import Verif.Props.Completeness
import Verif.Props.SimpleZk
/- Probabilities of events that use a prefix of the tape first. -/
namespace Qesa.Props
open Qesa Spec

variable {F : Type}

/-- The tape that starts with `p` and goes on with `τ`. -/
def glue {n : Nat} (p : Fin n → F) (τ : Tape F) : Tape F := fun i => if h : i < n then p ⟨i, h⟩ else τ (i - n)

theorem glue_shift {n : Nat} (p : Fin n → F) (τ : Tape F) : (fun i => glue p τ (i + n)) = τ := by
  funext i
  simp [glue]

theorem drawN_glue {n : Nat} (p : Fin n → F) (τ : Tape F) : drawN n (glue p τ) = (List.ofFn p, τ) := by
  rw [drawN_eq, glue_shift]
  congr 2
  funext i
  simp [glue]

theorem tapeOf_glue {n m : Nat} (rest : Tape F) (p : Fin n → F) (t : Fin m → F) :
    tapeOf rest (Fin.append p t) = glue p (tapeOf (fun i => rest (i + n)) t) := by
  funext i
  simp only [tapeOf, glue]
  by_cases h : i < n
  · rw [dif_pos (by omega), dif_pos h]
    exact Fin.append_left p t ⟨i, h⟩
  · rw [dif_neg h]
    by_cases h' : i < n + m
    · rw [dif_pos h', dif_pos (by omega)]
      rw [← Fin.append_right p t ⟨i - n, by omega⟩]
      congr 1
      exact Fin.ext (by simp; omega)
    · rw [dif_neg h', dif_neg (by omega)]
      congr 1
      omega

/-- The average over the prefix. -/
theorem chanceBoth_prefix [Fintype F] [Nonempty F] {n m : Nat} {A : Hash → Tape F → Prop} (bad : (Fin n → F) → Prop)
    {k : Nat} {ε : ℚ} {ro : Hash} {D : Finset (List Event)} {rest : Tape F}
    (hbad : Nat.card {p // bad p} * Nat.card F ≤ k * Nat.card (Fin n → F))
    (h : ∀ p, ¬ bad p → chanceBoth ro D (fun i => rest (i + n)) m (fun ro τ => A ro (glue p τ)) ≤ ε) (hε : 0 ≤ ε) :
    chanceBoth ro D rest (n + m) A ≤ k / Nat.card F + ε := by
  classical
  have hF : (0 : ℚ) < Nat.card F := by exact_mod_cast Nat.card_pos
  set M : ℚ := (2 ^ 512) ^ D.card * Nat.card F ^ m with hM
  have hMp : 0 < M := by rw [hM]; positivity
  have hMN : M = ((Nat.card (D → Vector UInt8 64) * Nat.card F ^ m : Nat) : ℚ) := by
    rw [hM, card_hashes, Nat.cast_mul, Nat.cast_pow, Nat.cast_pow, Nat.cast_pow, Nat.cast_ofNat]
  let cnt : (Fin n → F) → Nat := fun p => Nat.card {z : (D → Vector UInt8 64) × (Fin m → F) //
    A (patch ro D z.1) (glue p (tapeOf (fun i => rest (i + n)) z.2))}
  have e1 : Nat.card {z : (D → Vector UInt8 64) × (Fin (n + m) → F) // A (patch ro D z.1) (tapeOf rest z.2)} =
      ∑ p, cnt p := by
    have e : {z : (D → Vector UInt8 64) × (Fin (n + m) → F) // A (patch ro D z.1) (tapeOf rest z.2)} ≃
        Σ p : Fin n → F, {z : (D → Vector UInt8 64) × (Fin m → F) //
          A (patch ro D z.1) (glue p (tapeOf (fun i => rest (i + n)) z.2))} :=
      (Equiv.subtypeEquiv (p := fun z : (D → Vector UInt8 64) × (Fin (n + m) → F) =>
          A (patch ro D z.1) (tapeOf rest z.2))
        (q := fun z : (Fin n → F) × (D → Vector UInt8 64) × (Fin m → F) =>
          A (patch ro D z.2.1) (glue z.1 (tapeOf (fun i => rest (i + n)) z.2.2)))
        { toFun := fun z => ((Fin.appendEquiv n m).symm z.2 |>.1, z.1, (Fin.appendEquiv n m).symm z.2 |>.2)
          invFun := fun z => (z.2.1, Fin.appendEquiv n m (z.1, z.2.2))
          left_inv := fun z => Prod.ext rfl ((Fin.appendEquiv n m).apply_symm_apply z.2)
          right_inv := fun z => by simp only [Equiv.symm_apply_apply] } fun z => by
            obtain ⟨⟨p, t⟩, ht⟩ := (Fin.appendEquiv n m).surjective z.2
            obtain ⟨f, z2⟩ := z
            simp only at ht
            subst ht
            simp only [Equiv.coe_fn_mk, Equiv.symm_apply_apply]
            rw [show (Fin.appendEquiv n m) (p, t) = Fin.append p t from rfl, tapeOf_glue]).trans
        { toFun := fun z => ⟨z.1.1, z.1.2, z.2⟩
          invFun := fun z => ⟨(z.1, z.2.1), z.2.2⟩
          left_inv := fun _ => rfl
          right_inv := fun _ => rfl }
    rw [Nat.card_congr e, Nat.card_sigma]
  have hcnt : ∀ p, (cnt p : ℚ) ≤ (if bad p then M else 0) + ε * M := by
    intro p
    split_ifs with hb
    · have h1 : cnt p ≤ Nat.card ((D → Vector UInt8 64) × (Fin m → F)) := Nat.card_le_card_of_injective _
        Subtype.val_injective
      rw [Nat.card_prod, Nat.card_fun (α := Fin m), Nat.card_fin] at h1
      have h2 : (cnt p : ℚ) ≤ M := by rw [hMN]; exact Nat.cast_le.2 h1
      exact h2.trans (le_add_of_nonneg_right (mul_nonneg hε hMp.le))
    · have := h p hb
      unfold chanceBoth at this
      rw [div_le_iff₀ (by positivity)] at this
      rw [zero_add]
      exact this
  have hsum : (∑ p, (cnt p : ℚ)) ≤ (Nat.card {p // bad p} : ℚ) * M + (Nat.card F ^ n : ℚ) * (ε * M) := by
    refine (Finset.sum_le_sum fun p _ => hcnt p).trans ?_
    rw [Finset.sum_add_distrib, ← Finset.sum_filter, Finset.sum_const, Finset.sum_const, Finset.card_univ,
      nsmul_eq_mul, nsmul_eq_mul, ← Fintype.card_subtype, ← Nat.card_eq_fintype_card, ← Nat.card_eq_fintype_card,
      Nat.card_fun, Nat.card_fin, Nat.cast_pow]
  have hb' : (Nat.card {p // bad p} : ℚ) * Nat.card F ≤ k * Nat.card F ^ n := by
    rw [Nat.card_fun, Nat.card_fin] at hbad
    rw [← Nat.cast_pow, ← Nat.cast_mul, ← Nat.cast_mul]
    exact Nat.cast_le.2 hbad
  unfold chanceBoth
  rw [e1, Nat.cast_sum, pow_add, show ((2 : ℚ) ^ 512) ^ D.card * (Nat.card F ^ n * Nat.card F ^ m) =
    Nat.card F ^ n * M by rw [hM, ← mul_assoc, ← mul_assoc, mul_comm (((2 : ℚ) ^ 512) ^ D.card)], div_le_iff₀ (by positivity)]
  refine hsum.trans ?_
  have h3 : (Nat.card {p // bad p} : ℚ) ≤ k / Nat.card F * Nat.card F ^ n := by
    rw [div_mul_eq_mul_div, le_div_iff₀ hF]; exact hb'
  have h4 := mul_le_mul_of_nonneg_right h3 hMp.le
  clear_value M
  clear hM hMN
  calc _ ≤ k / Nat.card F * Nat.card F ^ n * M + Nat.card F ^ n * (ε * M) := by linarith
    _ = _ := by ring

/-- The same for bounds that hold for all large sets of histories. -/
theorem exists_prefix [Fintype F] [Nonempty F] {n m : Nat} {A : Hash → Tape F → Prop} (bad : (Fin n → F) → Prop)
    {k : Nat} {ε : ℚ} {rest : Tape F}
    (hbad : Nat.card {p // bad p} * Nat.card F ≤ k * Nat.card (Fin n → F))
    (h : ∀ p, ¬ bad p → ∃ D0 : Finset (List Event), ∀ D, D0 ⊆ D → ∀ ro,
      chanceBoth ro D (fun i => rest (i + n)) m (fun ro τ => A ro (glue p τ)) ≤ ε) (hε : 0 ≤ ε) :
    ∃ D0 : Finset (List Event), ∀ D, D0 ⊆ D → ∀ ro, chanceBoth ro D rest (n + m) A ≤ k / Nat.card F + ε := by
  classical
  have h' : ∀ p, ∃ D0 : Finset (List Event), ¬ bad p → ∀ D, D0 ⊆ D → ∀ ro,
      chanceBoth ro D (fun i => rest (i + n)) m (fun ro τ => A ro (glue p τ)) ≤ ε := by
    intro p
    by_cases hb : bad p
    · exact ⟨∅, fun hn => (hn hb).elim⟩
    · obtain ⟨D0, hD0⟩ := h p hb
      exact ⟨D0, fun _ => hD0⟩
  choose D0 hD0 using h'
  exact ⟨Finset.univ.biUnion D0, fun D hD ro => chanceBoth_prefix bad hbad (fun p hb =>
    hD0 p hb D ((Finset.subset_biUnion_of_mem D0 (Finset.mem_univ p)).trans hD) ro) hε⟩

/-- Without a condition on the prefix. -/
theorem exists_prefix' [Fintype F] [Nonempty F] {n m : Nat} {A : Hash → Tape F → Prop} {ε : ℚ} {rest : Tape F}
    (h : ∀ p : Fin n → F, ∃ D0 : Finset (List Event), ∀ D, D0 ⊆ D → ∀ ro,
      chanceBoth ro D (fun i => rest (i + n)) m (fun ro τ => A ro (glue p τ)) ≤ ε) (hε : 0 ≤ ε) :
    ∃ D0 : Finset (List Event), ∀ D, D0 ⊆ D → ∀ ro, chanceBoth ro D rest (n + m) A ≤ ε := by
  have := exists_prefix (rest := rest) (A := A) (m := m) (k := 0) (fun _ : Fin n → F => False) (by simp)
    (fun p _ => h p) hε
  simpa using this

theorem chanceBoth_mono [Finite F] {n : Nat} {A A' : Hash → Tape F → Prop} {ro : Hash} {D : Finset (List Event)}
    {rest : Tape F} (h : ∀ ro τ, A ro τ → A' ro τ) : chanceBoth ro D rest n A ≤ chanceBoth ro D rest n A' := by
  unfold chanceBoth
  refine div_le_div_of_nonneg_right ?_ (by positivity)
  exact_mod_cast card_imp fun z => h _ _

theorem chanceBoth_false {n : Nat} {A : Hash → Tape F → Prop} {ro : Hash} {D : Finset (List Event)}
    {rest : Tape F} (h : ∀ ro τ, ¬ A ro τ) : chanceBoth ro D rest n A = 0 := by
  unfold chanceBoth
  have : IsEmpty {z : (D → Vector UInt8 64) × (Fin n → F) // A (patch ro D z.1) (tapeOf rest z.2)} :=
    ⟨fun z => h _ _ z.2⟩
  rw [Nat.card_of_isEmpty]
  simp

/-- An event about the tape only. -/
theorem chanceBoth_tape [Fintype F] [Nonempty F] {n k : Nat} {A : Tape F → Prop} {ro : Hash}
    {D : Finset (List Event)} {rest : Tape F}
    (h : Nat.card {t : Fin n → F // A (tapeOf rest t)} * Nat.card F ≤ k * Nat.card (Fin n → F)) :
    chanceBoth ro D rest n (fun _ => A) ≤ k / Nat.card F := by
  have := chanceBoth_le (ro := ro) (D := D) (rest := rest) (A := fun _ => A) (fun _ => A) (fun _ _ => False)
    (fun _ _ h => .inl h) k 0 (fun _ => h) (fun t => by
      rw [count_none ro D _ fun _ h => h, Nat.zero_mul, Nat.zero_mul])
  rwa [Nat.cast_zero, zero_div, add_zero] at this

theorem chanceBoth_const [Finite F] {n : Nat} {A : Tape F → Prop} {ro : Hash} {D : Finset (List Event)}
    {rest : Tape F} : chanceBoth ro D rest n (fun _ => A) =
      Nat.card {t : Fin n → F // A (tapeOf rest t)} / (Nat.card F : ℚ) ^ n := by
  unfold chanceBoth
  have e : {z : (D → Vector UInt8 64) × (Fin n → F) // A (tapeOf rest z.2)} ≃
      (D → Vector UInt8 64) × {t : Fin n → F // A (tapeOf rest t)} :=
    { toFun := fun z => (z.1.1, ⟨z.1.2, z.2⟩)
      invFun := fun z => ⟨(z.1, z.2.1), z.2.2⟩
      left_inv := fun _ => rfl
      right_inv := fun _ => rfl }
  rw [Nat.card_congr e, Nat.card_prod, card_hashes, Nat.cast_mul, Nat.cast_pow, Nat.cast_pow, Nat.cast_ofNat]
  exact mul_div_mul_left _ _ (by positivity)

end Qesa.Props
