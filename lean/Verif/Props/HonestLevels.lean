import Verif.Props.Jobs
import Verif.Props.Adversary
import Verif.Props.Ristretto
/-
C115: C106 and C110 in numbers, for the Ristretto group.
-/
namespace Qesa.Props
open Qesa Spec Lmpa
set_option exponentiation.threshold 600

theorem card_scalars : Fintype.card RistrettoScalar = ristrettoOrder := ZMod.card _

theorem order_ge : (2 : ℚ) ^ 252 ≤ (ristrettoOrder : ℚ) := by
  have : 2 ^ 252 ≤ ristrettoOrder := by rw [ristrettoOrder]; omega
  exact_mod_cast this

section
variable {G : Type} [AddCommGroup G] [Module RistrettoScalar G] [DecidableEq G]

omit [DecidableEq G] in
theorem job_error_le {fuel : Nat} (hf : fuel ≤ 64) (j : Job RistrettoScalar G) (hj : j.Honest fuel) :
    j.error ristrettoOrder (2 ^ 260) ≤ 64 / 2 ^ 252 := by
  have h7 : (7 : ℚ) / (ristrettoOrder : ℚ) ≤ 7 / 2 ^ 252 := div_le_div_of_nonneg_left (by norm_num) (by positivity) order_ge
  have hd (d : Nat) (h : d < fuel) : (((d * 2 ^ 260 : Nat) : ℚ)) / 2 ^ 512 ≤ 64 / 2 ^ 252 := by
    have : (d : ℚ) ≤ 64 := by exact_mod_cast (h.le.trans hf)
    rw [Nat.cast_mul]
    calc (d : ℚ) * ((2 ^ 260 : Nat) : ℚ) / 2 ^ 512 ≤ 64 * ((2 ^ 260 : Nat) : ℚ) / 2 ^ 512 := by gcongr
      _ = 64 / 2 ^ 252 := by norm_num
  cases j with
  | ipa => simp only [Job.error]; norm_num
  | alm => exact (add_le_add_left h7 _).trans (by norm_num)
  | qesa => exact (add_le_add_left h7 _).trans (by norm_num)
  | copy => exact (add_le_add_left h7 _).trans (by norm_num)
  | lmpa => simp only [Job.error]; norm_num
  | simple => simp only [Job.error]; norm_num
  | lmpaK A w c k d => exact hd d hj.2.2.2.2.2
  | general A w c k d => exact hd d hj.2.2.2.2.2.2

/-- C115: honest sessions over the Ristretto group. A session of at most `2^20` proofs of true statements, with less
than 64 rounds of the linear-map arguments, fails with probability at most `2^-226`. -/
theorem C115_session_completeness {N fuel : Nat} (hN : 258 ≤ N) (hf : fuel ≤ 64) (cd : Codec G)
    (rest : Tape RistrettoScalar) (js : List (Job RistrettoScalar G)) (hm : js.length ≤ 2 ^ 20)
    (hjs : ∀ j ∈ js, j.Honest fuel) (log : List Event) :
    ∃ D0 : Finset (List Event), ∀ D, D0 ⊆ D → ∀ ro, chanceSession ro D rest N js.length
      (fun ro τ => ¬ ∃ tr', SessionWorks ⟨cd, ro⟩ fuel js τ ⟨log⟩ tr') ≤ 1 / 2 ^ 226 := by
  have h2 : (2 : RistrettoScalar) ≠ 0 := by
    intro h
    have : ((2 : Nat) : RistrettoScalar) = 0 := by exact_mod_cast h
    rw [ZMod.natCast_eq_zero_iff] at this
    exact absurd (Nat.le_of_dvd (by decide) this) (by rw [ristrettoOrder]; omega)
  obtain ⟨D0, h⟩ := C106_session_completeness h2 hN C87_scalars cd fuel rest js hjs log
  refine ⟨D0, fun D hD ro => (h D hD ro).trans ?_⟩
  rw [card_scalars]
  have hs := List.sum_le_card_nsmul (js.map (Job.error ristrettoOrder (2 ^ 260))) (64 / 2 ^ 252) (by
    intro x hx
    obtain ⟨j, hj, rfl⟩ := List.mem_map.1 hx
    exact job_error_le hf j (hjs j hj))
  refine hs.trans ?_
  rw [List.length_map, nsmul_eq_mul]
  have hm' : (js.length : ℚ) ≤ 2 ^ 20 := by exact_mod_cast hm
  calc (js.length : ℚ) * (64 / 2 ^ 252) ≤ 2 ^ 20 * (64 / 2 ^ 252) := by gcongr
    _ = 1 / 2 ^ 226 := by norm_num

omit [DecidableEq G] in
/-- C115: zero knowledge of SimpleZK over the Ristretto group. An adversary that gets at most `2^20` proofs with at most `2^16`
generators, and makes at most `2^100` hash queries before the first and at most `2^80` after each, distinguishes prover and
simulator with probability at most `2^-130`. -/
theorem C115_zero_knowledge {α : Type} {n T₀ T₁ m : Nat} (hm : m ≤ 2 ^ 20) (hn : n ≤ 2 ^ 16) (hT₀ : T₀ ≤ 2 ^ 100)
    (hT₁ : T₁ ≤ 2 ^ 80) (cd : Codec G) (fuel : Nat) (rest : Tape RistrettoScalar)
    (P : Adversary RistrettoScalar G α n) (h0 : P.start.AtMost T₀) (h1 : ∀ a r, (P.step a r).AtMost T₁)
    (hG : ∀ a, (P.claim a).Gs.length = n)
    (hA : ∀ a, ∃ row ∈ (P.claim a).A, ∃ d : Fin n → RistrettoScalar, dot (List.ofFn d) row ≠ 0) :
    ∃ D0 : Finset (List Event), ∀ D, D0 ⊆ D → ∀ (ro : Hash) (E : Hash → α → Prop),
      |chanceSession ro D rest n m (fun ro τ => E ro (P.real cd fuel ro m τ)) -
        chanceSessionSim ro D n m (fun ro z v => E (P.sim cd fuel ro m z v).1 (P.sim cd fuel ro m z v).2)| ≤
      1 / 2 ^ 130 := by
  obtain ⟨D0, h⟩ := C110_adaptive_sessions cd fuel rest P h0 h1 hG hA m
  refine ⟨D0, fun D hD ro E => (h D hD ro E).trans ?_⟩
  have hl : Nat.log 2 n ≤ 16 := by
    have := Nat.log_mono_right (b := 2) hn
    rwa [Nat.log_pow (by decide)] at this
  have hi : ∀ i ∈ Finset.range m, ((T₀ + i * (Nat.log 2 n + 1 + T₁) : ℕ) : ℚ) / Fintype.card RistrettoScalar ≤
      2 ^ 102 / 2 ^ 252 := by
    intro i hi
    have hi' : i ≤ 2 ^ 20 := ((Finset.mem_range.1 hi).le).trans hm
    have hb : T₀ + i * (Nat.log 2 n + 1 + T₁) ≤ 2 ^ 102 := by
      calc T₀ + i * (Nat.log 2 n + 1 + T₁) ≤ 2 ^ 100 + 2 ^ 20 * (16 + 1 + 2 ^ 80) := by gcongr
        _ ≤ 2 ^ 102 := by norm_num
    rw [card_scalars]
    exact div_le_div₀ (by positivity) (by exact_mod_cast hb) (by positivity) order_ge
  refine (Finset.sum_le_card_nsmul _ _ _ hi).trans ?_
  rw [Finset.card_range, nsmul_eq_mul]
  have hm' : (m : ℚ) ≤ 2 ^ 20 := by exact_mod_cast hm
  calc (m : ℚ) * (2 ^ 102 / 2 ^ 252) ≤ 2 ^ 20 * (2 ^ 102 / 2 ^ 252) := by gcongr
    _ = 1 / 2 ^ 130 := by norm_num

end

/-! ### Examples -/

/-- C115: a million times the same inner-product argument. -/
example (cd : Codec RistrettoScalar) (rest : Tape RistrettoScalar) (log : List Event) :
    let js : List (Job RistrettoScalar RistrettoScalar) :=
      List.replicate (2 ^ 20) (.ipa [3, 5, 8, 13] [21, 34, 55, 89] 7 [1, 2, 3, 4] [5, 6, 7, 9])
    ∃ D, ∀ ro, chanceSession ro D rest 258 js.length
      (fun ro τ => ¬ ∃ tr', SessionWorks ⟨cd, ro⟩ 64 js τ ⟨log⟩ tr') ≤ 1 / 2 ^ 226 := by
  intro js
  obtain ⟨D, h⟩ := C115_session_completeness (le_refl 258) (le_refl 64) cd rest js (List.length_replicate ..).le
    (fun j hj => by
      obtain rfl := List.eq_of_mem_replicate hj
      exact ⟨2, by decide, rfl, rfl, rfl, rfl⟩) log
  exact ⟨D, h D subset_rfl⟩

/-- C115: an adversary that makes one query, asks for a million proofs with witnesses that depend on the answer, and counts the
proofs that are made without a panic. -/
example (cd : Codec RistrettoScalar) (rest : Tape RistrettoScalar) :
    let P : Adversary RistrettoScalar RistrettoScalar (RistrettoScalar × Nat) 2 :=
      { start := .ask [.chal "x" 64] fun v => .done ((leNat v.toList : Nat), 0)
        claim := fun s => ⟨[.msg "number" [UInt8.ofNat s.2]], [[1, 3]], [1, 1], ![s.1, 5]⟩
        step := fun s r => .done (s.1, match r with | .ok _ => s.2 + 1 | .error _ => s.2) }
    ∃ D, ∀ (ro : Hash) (E : Hash → RistrettoScalar × Nat → Prop),
      |chanceSession ro D rest 2 (2 ^ 20) (fun ro τ => E ro (P.real cd 3 ro (2 ^ 20) τ)) -
        chanceSessionSim ro D 2 (2 ^ 20) (fun ro z v => E (P.sim cd 3 ro (2 ^ 20) z v).1 (P.sim cd 3 ro (2 ^ 20) z v).2)| ≤
      1 / 2 ^ 130 := by
  intro P
  obtain ⟨D, h⟩ := C115_zero_knowledge (T₀ := 1) (T₁ := 0) (le_refl (2 ^ 20)) (by decide : 2 ≤ 2 ^ 16)
    (by norm_num) (by norm_num) cd 3 rest P (fun _ => trivial) (fun _ _ => trivial) (fun _ => rfl)
    (fun s => ⟨[1, 3], by simp [P], ![1, 0], by simp [dot]⟩)
  exact ⟨D, h D subset_rfl⟩

end Qesa.Props
