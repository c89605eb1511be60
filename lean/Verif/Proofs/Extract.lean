import Mathlib.Algebra.Order.BigOperators.Ring.Finset
import Mathlib.Tactic.Linarith
import Mathlib.Tactic.Ring
import Mathlib.Tactic.Positivity
import Mathlib.Tactic.FieldSimp
import Mathlib.Algebra.Order.Field.Basic
import Mathlib.Algebra.BigOperators.Field
import Verif.SpecExtract
import Verif.Proofs.Fork
/-
The expected number of runs and the success probability of the rewinding program.
-/
namespace Qesa.Spec
set_option exponentiation.threshold 600

/-! ### Averages -/

theorem average_const (c : ℚ) : average (fun _ => c) = c := by
  unfold average
  rw [Finset.sum_const, Finset.card_univ, card_bytes, nsmul_eq_mul]
  rw [Nat.cast_pow, Nat.cast_ofNat, mul_comm, mul_div_assoc, div_self (by positivity), mul_one]

theorem average_add (f g : Vector UInt8 64 → ℚ) : average (fun v => f v + g v) = average f + average g := by
  unfold average
  rw [Finset.sum_add_distrib, add_div]

theorem average_mul (c : ℚ) (f : Vector UInt8 64 → ℚ) : average (fun v => c * f v) = c * average f := by
  unfold average
  rw [← Finset.mul_sum, mul_div_assoc]

theorem average_mono {f g : Vector UInt8 64 → ℚ} (h : ∀ v, f v ≤ g v) : average f ≤ average g :=
  div_le_div_of_nonneg_right (Finset.sum_le_sum fun v _ => h v) (by positivity)

theorem average_nonneg {f : Vector UInt8 64 → ℚ} (h : ∀ v, 0 ≤ f v) : 0 ≤ average f :=
  div_nonneg (Finset.sum_nonneg fun v _ => h v) (by positivity)

theorem average_sum {ι : Type} (s : Finset ι) (f : ι → Vector UInt8 64 → ℚ) :
    average (fun v => ∑ i ∈ s, f i v) = ∑ i ∈ s, average (f i) := by
  unfold average
  rw [Finset.sum_comm, Finset.sum_div]

theorem average_eq_zero {f : Vector UInt8 64 → ℚ} (h : ∀ v, 0 ≤ f v) (h0 : average f = 0) (v : Vector UInt8 64) :
    f v = 0 := by
  unfold average at h0
  rw [div_eq_zero_iff, Finset.sum_eq_zero_iff_of_nonneg fun v _ => h v] at h0
  rcases h0 with h0 | h0
  · exact h0 v (Finset.mem_univ _)
  · exact absurd h0 (by positivity)

/-! ### Programs -/

namespace Rewinder
variable {α β γ : Type} (P : Hash → α)

theorem expect_bind (k : β → Rewinder α γ) (f : γ → ℚ) : ∀ p : Rewinder α β,
    (p.bind k).expect P f = p.expect P fun b => (k b).expect P f
  | .done _ => rfl
  | .draw next => by simp only [bind, expect, expect_bind k f]
  | .run ro next => by simp only [bind, expect, expect_bind k f]

theorem runs_bind (k : β → Rewinder α γ) : ∀ p : Rewinder α β,
    (p.bind k).runs P = p.runs P + p.expect P fun b => (k b).runs P
  | .done _ => by simp [bind, expect, runs]
  | .draw next => by simp only [bind, expect, runs, runs_bind k, average_add]
  | .run ro next => by simp only [bind, expect, runs, runs_bind k, add_assoc]

theorem expect_add (f g : β → ℚ) : ∀ p : Rewinder α β,
    p.expect P (fun b => f b + g b) = p.expect P f + p.expect P g
  | .done _ => rfl
  | .draw next => by simp only [expect, expect_add f g, average_add]
  | .run ro next => by simp only [expect, expect_add f g]

theorem expect_mul (c : ℚ) (f : β → ℚ) : ∀ p : Rewinder α β,
    p.expect P (fun b => c * f b) = c * p.expect P f
  | .done _ => rfl
  | .draw next => by simp only [expect, expect_mul c f, average_mul]
  | .run ro next => by simp only [expect, expect_mul c f]

theorem expect_const (c : ℚ) : ∀ p : Rewinder α β, p.expect P (fun _ => c) = c
  | .done _ => rfl
  | .draw next => by simp only [expect, expect_const c, average_const]
  | .run ro next => by simp only [expect, expect_const c]

theorem expect_mono {f g : β → ℚ} (h : ∀ b, f b ≤ g b) : ∀ p : Rewinder α β, p.expect P f ≤ p.expect P g
  | .done _ => h _
  | .draw next => average_mono fun v => expect_mono h (next v)
  | .run ro next => expect_mono h (next (P ro))

theorem expect_nonneg {f : β → ℚ} (h : ∀ b, 0 ≤ f b) (p : Rewinder α β) : 0 ≤ p.expect P f :=
  (expect_const P 0 p).symm.le.trans (expect_mono P h p)

theorem runs_nonneg : ∀ p : Rewinder α β, 0 ≤ p.runs P
  | .done _ => le_rfl
  | .draw next => average_nonneg fun v => runs_nonneg (next v)
  | .run ro next => add_nonneg zero_le_one (runs_nonneg (next (P ro)))

/-- All results have the property `A`. -/
def Always (A : β → Prop) : Rewinder α β → Prop
  | .done b => A b
  | .draw next => ∀ v, (next v).Always A
  | .run ro next => (next (P ro)).Always A

theorem always_bind {A : β → Prop} {A' : γ → Prop} {k : β → Rewinder α γ} (hk : ∀ b, A b → (k b).Always P A') :
    ∀ p : Rewinder α β, p.Always P A → (p.bind k).Always P A'
  | .done _, h => hk _ h
  | .draw next, h => fun v => always_bind hk (next v) (h v)
  | .run ro next, h => always_bind hk (next (P ro)) h

theorem Always.mono {A A' : β → Prop} (hA : ∀ b, A b → A' b) (p : Rewinder α β) (h : p.Always P A) :
    p.Always P A' := by
  induction p with
  | done b => exact hA _ h
  | draw next ih => exact fun v => ih v (h v)
  | run ro next ih => exact ih _ h

theorem Always.expect {A : β → Prop} {f g : β → ℚ} (hA : ∀ b, A b → f b = g b) (p : Rewinder α β)
    (h : p.Always P A) : p.expect P f = p.expect P g := by
  induction p with
  | done b => exact hA _ h
  | draw next ih => exact congrArg average (funext fun v => ih v (h v))
  | run ro next ih => exact ih _ h

/-- 1 for a result, 0 for none. -/
def hit : Option β → ℚ
  | some _ => 1
  | none => 0

theorem hit_nonneg (o : Option β) : 0 ≤ hit o := by cases o <;> simp [hit]
theorem hit_le (o : Option β) : hit o ≤ 1 := by cases o <;> simp [hit]

/-! ### Searches -/

section
variable (trial : Vector UInt8 64 → Rewinder α (Option γ))

/-- The success probability of an attempt. -/
noncomputable def rate : ℚ := average fun v => (trial v).expect P hit
/-- The expected number of runs of an attempt. -/
noncomputable def effort : ℚ := average fun v => (trial v).runs P

theorem rate_nonneg : 0 ≤ rate P trial := average_nonneg fun _ => expect_nonneg P hit_nonneg _

theorem rate_le : rate P trial ≤ 1 :=
  (average_mono fun _ => (expect_mono P hit_le _).trans (expect_const P 1 _).le).trans (average_const 1).le

theorem effort_nonneg : 0 ≤ effort P trial := average_nonneg fun _ => runs_nonneg P _

theorem expect_option (g : Option γ → ℚ) (p : Rewinder α (Option γ)) :
    p.expect P g = p.expect P (fun o => o.elim 0 fun x => g (some x)) + (g none + (-1) * (g none * p.expect P hit)) := by
  have e : g = fun o => o.elim 0 (fun x => g (some x)) + (g none + (-1) * (g none * hit o)) := by
    funext o
    cases o <;> simp [hit]
  calc p.expect P g = p.expect P fun o => o.elim 0 (fun x => g (some x)) + (g none + (-1) * (g none * hit o)) :=
        congrArg (fun f => p.expect P f) e
    _ = _ := by rw [expect_add, expect_add, expect_const, expect_mul, expect_mul]

theorem expect_elim_zero (p : Rewinder α (Option γ)) : p.expect P (fun o => o.elim (0 : ℚ) fun _ => 0) = 0 :=
  (congrArg (fun f => p.expect P f) (funext fun o => by cases o <;> rfl)).trans (expect_const P 0 p)

theorem search_expect (h : Vector UInt8 64 × γ → ℚ) (c : ℚ) (r : Nat) :
    (search trial (r + 1)).expect P (fun o => o.elim c h) =
      (average fun v => (trial v).expect P fun o => o.elim 0 fun x => h (v, x)) +
      (1 - rate P trial) * (search trial r).expect P (fun o => o.elim c h) := by
  simp only [search, expect, expect_bind]
  refine (congrArg average (funext fun v => expect_option P _ (trial v))).trans ?_
  simp only [Rewinder.expect, average_add, average_mul, average_const, Option.elim_some]
  rw [rate]
  ring

theorem search_none (r : Nat) : (search trial r).expect P (fun o => o.elim 1 fun _ => 0) = (1 - rate P trial) ^ r := by
  induction r with
  | zero => rw [pow_zero]; rfl
  | succ r ih =>
    rw [search_expect, ih, pow_succ']
    simp only [expect_elim_zero, average_const, zero_add]

theorem search_le (h : Vector UInt8 64 × γ → ℚ) (hh : ∀ x, 0 ≤ h x) (hs : 0 < rate P trial) (r : Nat) :
    (search trial r).expect P (fun o => o.elim 0 h) ≤
      (average fun v => (trial v).expect P fun o => o.elim 0 fun x => h (v, x)) / rate P trial := by
  have h0 : 0 ≤ (average fun v => (trial v).expect P fun o => o.elim 0 fun x => h (v, x)) :=
    average_nonneg fun v => expect_nonneg P (fun o => by cases o <;> simp [hh]) _
  induction r with
  | zero => rw [search, expect]; exact div_nonneg h0 hs.le
  | succ r ih =>
    rw [search_expect]
    have := mul_le_mul_of_nonneg_left ih (sub_nonneg.2 (rate_le P trial))
    refine (add_le_add (le_refl _) this).trans (le_of_eq ?_)
    field_simp
    ring

theorem search_runs (hs : 0 < rate P trial) (r : Nat) : (search trial r).runs P ≤ effort P trial / rate P trial := by
  induction r with
  | zero => rw [search, runs]; exact div_nonneg (effort_nonneg P trial) hs.le
  | succ r ih =>
    have e : (search trial (r + 1)).runs P = effort P trial + (1 - rate P trial) * (search trial r).runs P := by
      simp only [search, runs, runs_bind]
      rw [average_add]
      refine (congrArg (_ + ·) (congrArg average (funext fun v => expect_option P _ (trial v)))).trans ?_
      simp only [Rewinder.runs, average_add, average_mul, average_const, expect_elim_zero]
      rw [effort, rate]
      ring
    rw [e]
    have := mul_le_mul_of_nonneg_left ih (sub_nonneg.2 (rate_le P trial))
    refine (add_le_add (le_refl _) this).trans (le_of_eq ?_)
    field_simp
    ring

end

/-! ### Several searches -/

section
variable {F : Type} [DecidableEq F] {scalar : Vector UInt8 64 → F} {B : Nat}

theorem average_eq (hB : ∀ c : F, Nat.card {v : Vector UInt8 64 // scalar v = c} ≤ B) (c : F) :
    average (fun v => if scalar v = c then 1 else 0) ≤ (B : ℚ) / 2 ^ 512 := by
  unfold average
  refine div_le_div_of_nonneg_right ?_ (by positivity)
  rw [Finset.sum_ite, Finset.sum_const, Finset.sum_const_zero, add_zero, nsmul_eq_mul, mul_one, Nat.cast_le]
  have := hB c
  rwa [Nat.card_eq_fintype_card, Fintype.card_subtype] at this

theorem average_mem (hB : ∀ c : F, Nat.card {v : Vector UInt8 64 // scalar v = c} ≤ B) : ∀ used : List F,
    average (fun v => if scalar v ∈ used then 1 else 0) ≤ used.length * ((B : ℚ) / 2 ^ 512)
  | [] => by simp [average_const]
  | c :: used => by
    rw [List.length_cons, Nat.cast_succ, add_mul, one_mul, add_comm]
    refine le_trans (average_mono (g := fun v => (if scalar v = c then 1 else 0) + if scalar v ∈ used then 1 else 0)
      fun v => ?_) ?_
    · simp only [List.mem_cons]
      split_ifs <;> simp_all
    · rw [average_add]
      exact add_le_add (average_eq hB c) (average_mem hB used)

variable (scalar) (trial : Vector UInt8 64 → Rewinder α (Option (List γ))) (r : Nat)

theorem expect_hit_le (p : Rewinder α (Option γ)) : p.expect P hit ≤ 1 :=
  (expect_mono P hit_le p).trans (expect_const P 1 p).le

theorem collect_runs (hs : 0 < rate P trial) : ∀ (k : Nat) (used : List F),
    (collect scalar trial r used k).runs P ≤ k * (effort P trial / rate P trial)
  | 0, _ => by simp [collect, runs]
  | k + 1, used => by
    have h0 : 0 ≤ k * (effort P trial / rate P trial) :=
      mul_nonneg (Nat.cast_nonneg _) (div_nonneg (effort_nonneg P trial) hs.le)
    rw [collect, runs_bind, Nat.cast_succ, add_mul, one_mul, add_comm]
    refine add_le_add ((expect_mono P (fun o => ?_) _).trans (expect_const P _ _).le) (search_runs P trial hs r)
    match o with
    | none => exact h0
    | some (v, c) =>
      dsimp only
      split_ifs
      · exact h0
      · rw [runs_bind]
        refine (add_le_add (collect_runs hs k _) ((expect_mono P (fun o => ?_) _).trans (expect_const P 0 _).le)).trans
          (add_zero _).le
        cases o <;> exact le_rfl

theorem choose_two_nonneg (k : Nat) : (0 : ℚ) ≤ k * (k - 1) / 2 := by
  cases k with
  | zero => simp
  | succ k => rw [Nat.cast_succ, add_sub_cancel_right]; positivity

theorem collect_none' {κ : ℚ} (hκ0 : 0 ≤ κ) (hκ : ∀ used : List F,
      average (fun v => if scalar v ∈ used then 1 else 0) ≤ used.length * κ) (hs : 0 < rate P trial) :
    ∀ (k : Nat) (used : List F), 1 - (collect scalar trial r used k).expect P hit ≤
      k * (1 - rate P trial) ^ r + (k * used.length + k * (k - 1) / 2 : ℚ) * (κ / rate P trial)
  | 0, _ => by simp [collect, expect, hit]
  | k + 1, used => by
    obtain ⟨ρ, hρ⟩ : ∃ ρ, ρ = κ / rate P trial := ⟨_, rfl⟩
    obtain ⟨bd, hbd⟩ : ∃ bd, bd = k * (1 - rate P trial) ^ r + (k * (used.length + 1) + k * (k - 1) / 2 : ℚ) * ρ :=
      ⟨_, rfl⟩
    have hρ0 : 0 ≤ ρ := hρ ▸ div_nonneg hκ0 hs.le
    have hs1 := rate_le P trial
    have ih : ∀ c, 1 - (collect scalar trial r (c :: used) k).expect P hit ≤ bd := by
      intro c
      have := collect_none' hκ0 hκ hs k (c :: used)
      rwa [List.length_cons, Nat.cast_succ, ← hρ, ← hbd] at this
    have hbd0 : 0 ≤ bd := by
      have h1 : 0 ≤ 1 - rate P trial := sub_nonneg.2 hs1
      have h2 : (0 : ℚ) ≤ k * (used.length + 1) :=
        mul_nonneg (Nat.cast_nonneg _) (add_nonneg (Nat.cast_nonneg _) zero_le_one)
      rw [hbd]
      exact add_nonneg (mul_nonneg (Nat.cast_nonneg _) (pow_nonneg h1 r))
        (mul_nonneg (add_nonneg h2 (choose_two_nonneg k)) hρ0)
    have e : 1 + (-1) * ((search trial r).expect P
        (fun o => o.elim 1 fun _ => 0) + ((search trial r).expect P
          (fun o => o.elim 0 fun x => if scalar x.1 ∈ used then 1 else 0) + bd)) ≤
        (collect scalar trial r used (k + 1)).expect P hit := by
      have e1 : (search trial r).expect P (fun o => 1 + (-1) * ((o.elim 1 fun _ => 0) +
          ((o.elim 0 fun x => if scalar x.1 ∈ used then 1 else 0) + bd))) ≤
          (collect scalar trial r used (k + 1)).expect P hit := by
        rw [collect, expect_bind]
        refine expect_mono P (fun o => ?_) _
        match o with
        | none => simp [expect, hit, hbd0]
        | some (v, c) =>
          dsimp only [Option.elim]
          split_ifs
          · simp [expect, hit, hbd0]
          · rw [expect_bind]
            have := ih (scalar v)
            refine le_trans (b := (collect scalar trial r (scalar v :: used) k).expect P hit) (by linarith)
              (expect_mono P (fun o => ?_) _)
            cases o <;> simp [expect, hit]
      rwa [expect_add, expect_mul, expect_add, expect_add, expect_const, expect_const] at e1
    have h2 : (search trial r).expect P (fun o => o.elim 0 fun x => if scalar x.1 ∈ used then 1 else 0) ≤
        used.length * ρ := by
      refine (search_le P trial _ (fun x => by split_ifs <;> simp) hs r).trans ?_
      rw [hρ, ← mul_div_assoc]
      refine div_le_div_of_nonneg_right (le_trans (average_mono fun v => ?_) (hκ used)) hs.le
      split_ifs with h
      · refine le_trans (le_of_eq ?_) (expect_hit_le P (trial v))
        exact congrArg (fun f => (trial v).expect P f) (funext fun o => by cases o <;> rfl)
      · exact (expect_elim_zero P _).le
    rw [search_none] at e
    rw [Nat.cast_succ, ← hρ]
    have e3 : ((k : ℚ) + 1) * (1 - rate P trial) ^ r +
        ((k + 1) * used.length + (k + 1) * (k + 1 - 1) / 2 : ℚ) * ρ =
        (1 - rate P trial) ^ r + (used.length * ρ + bd) := by rw [hbd]; ring
    rw [e3]
    linarith

/-- The chance that the searches after a first success fail. -/
theorem collect_loss (hB : ∀ c : F, Nat.card {v : Vector UInt8 64 // scalar v = c} ≤ B) (hs : 0 < rate P trial)
    (k : Nat) (c : F) : rate P trial * (1 - (collect scalar trial r [c] k).expect P hit) ≤
      k / (r + 1) + ((k + 1) * k / 2 : ℚ) * ((B : ℚ) / 2 ^ 512) := by
  have h := mul_le_mul_of_nonneg_left (collect_none' P scalar trial r (κ := (B : ℚ) / 2 ^ 512)
    (div_nonneg (Nat.cast_nonneg _) (by positivity)) (average_mem hB) hs k [c]) hs.le
  generalize (B : ℚ) / 2 ^ 512 = κ at h ⊢
  have hs1 := rate_le P trial
  generalize rate P trial = s at h hs hs1 ⊢
  refine h.trans ?_
  have hb : ∀ r : Nat, (1 - s) ^ r * (1 + r * s) ≤ 1 := by
    intro r
    induction r with
    | zero => simp
    | succ r ih =>
      have h1 : 0 ≤ (1 - s) ^ r := pow_nonneg (sub_nonneg.2 hs1) r
      refine le_trans ?_ ih
      rw [pow_succ, mul_assoc, Nat.cast_succ]
      refine mul_le_mul_of_nonneg_left ?_ h1
      nlinarith [mul_nonneg (Nat.cast_nonneg (α := ℚ) r) (mul_nonneg hs.le hs.le), mul_nonneg hs.le hs.le]
  have h1 : s * (1 - s) ^ r ≤ 1 / (r + 1) := by
    rw [le_div_iff₀ (by positivity)]
    have h1 : 0 ≤ (1 - s) ^ r := pow_nonneg (sub_nonneg.2 hs1) r
    have h2 : s * (r + 1) ≤ 1 + r * s := by linarith
    have := mul_le_mul_of_nonneg_left h2 h1
    linarith [hb r]
  have h2 : s * (κ / s) = κ := by field_simp
  rw [List.length_singleton, Nat.cast_one, mul_one, mul_add, mul_left_comm, mul_left_comm s _ (κ / s), h2]
  refine add_le_add ?_ (le_of_eq (by ring))
  calc k * (s * (1 - s) ^ r) ≤ k * (1 / (r + 1)) := mul_le_mul_of_nonneg_left h1 (Nat.cast_nonneg _)
    _ = k / (r + 1) := by ring

end
end Rewinder

/-! ### Random hash functions -/

section
variable (ro : Hash) (D : Finset (List Event))

theorem mean_const (c : ℚ) : mean ro D (fun _ => c) = c := by
  unfold mean
  rw [Finset.sum_const, Finset.card_univ, Fintype.card_fun, card_bytes, Fintype.card_coe, nsmul_eq_mul, Nat.cast_pow,
    Nat.cast_pow, Nat.cast_ofNat, mul_comm, mul_div_assoc, div_self (by positivity), mul_one]

theorem mean_add (f g : Hash → ℚ) : mean ro D (fun h => f h + g h) = mean ro D f + mean ro D g := by
  unfold mean
  rw [Finset.sum_add_distrib, add_div]

theorem mean_mul (c : ℚ) (f : Hash → ℚ) : mean ro D (fun h => c * f h) = c * mean ro D f := by
  unfold mean
  rw [← Finset.mul_sum, mul_div_assoc]

theorem mean_mono {f g : Hash → ℚ} (h : ∀ ro, f ro ≤ g ro) : mean ro D f ≤ mean ro D g :=
  div_le_div_of_nonneg_right (Finset.sum_le_sum fun _ _ => h _) (by positivity)

theorem mean_nonneg {f : Hash → ℚ} (h : ∀ ro, 0 ≤ f ro) : 0 ≤ mean ro D f :=
  (mean_const ro D 0).symm.le.trans (mean_mono ro D h)

theorem mean_sum {ι : Type} (s : Finset ι) (f : ι → Hash → ℚ) :
    mean ro D (fun h => ∑ i ∈ s, f i h) = ∑ i ∈ s, mean ro D (f i) := by
  unfold mean
  rw [Finset.sum_comm, Finset.sum_div]

open Classical in
theorem chance_eq_mean (A : Hash → Prop) : chance ro D A = mean ro D fun ro => if A ro then 1 else 0 := by
  unfold chance mean countHashes
  rw [Finset.sum_ite, Finset.sum_const_zero, add_zero, Finset.sum_const, nsmul_eq_mul, mul_one,
    Nat.card_eq_fintype_card, Fintype.card_subtype]

/-- A random hash function stays random if one of its answers is drawn again. -/
theorem mean_resample {l : List Event} (hl : l ∈ D) (f : Hash → ℚ) :
    mean ro D (fun ro => average fun v => f (Function.update ro l v)) = mean ro D f := by
  classical
  let d : D := ⟨l, hl⟩
  let e : (D → Vector UInt8 64) × Vector UInt8 64 → (D → Vector UInt8 64) × Vector UInt8 64 :=
    fun x => (Function.update x.1 d x.2, x.1 d)
  have he : Function.Involutive e := by
    rintro ⟨g, v⟩
    simp [e]
  have h1 : ∑ g : D → Vector UInt8 64, ∑ v, f (Function.update (patch ro D g) l v) =
      2 ^ 512 * ∑ g : D → Vector UInt8 64, f (patch ro D g) := by
    calc ∑ g : D → Vector UInt8 64, ∑ v, f (Function.update (patch ro D g) l v) =
        ∑ x : (D → Vector UInt8 64) × Vector UInt8 64, f (patch ro D (e x).1) := by
          rw [Fintype.sum_prod_type]
          refine Finset.sum_congr rfl fun g _ => Finset.sum_congr rfl fun v _ => ?_
          rw [← patch_update ro D g d v]
      _ = ∑ x : (D → Vector UInt8 64) × Vector UInt8 64, f (patch ro D x.1) :=
          Equiv.sum_comp he.toPerm fun x => f (patch ro D x.1)
      _ = _ := by
          rw [Fintype.sum_prod_type]
          simp only [Finset.sum_const, Finset.card_univ, card_bytes, nsmul_eq_mul]
          rw [Finset.mul_sum, Nat.cast_pow, Nat.cast_ofNat]
  unfold mean average
  rw [← Finset.sum_div, h1, mul_comm, mul_div_assoc, div_self (by positivity), mul_one]

/-- `κ ro`: the question at which the run with `ro` is rewound. It is one of the questions `asked ro`, and these do not
depend on the answers to other questions. -/
theorem mean_at_key {κ : Hash → Option (List Event)} {asked : Hash → Finset (List Event)} (hD : ∀ ro, asked ro ⊆ D)
    (hκ : ∀ ro l, κ ro = some l → l ∈ asked ro)
    (hupd : ∀ ro l v, l ∉ asked ro → asked (Function.update ro l v) = asked ro)
    (W : Hash → ℚ) (φ ψ : List Event → Hash → ℚ) (hφ : ∀ ro l v, φ l (Function.update ro l v) = φ l ro)
    (h : ∀ ro l, (average fun v => if κ (Function.update ro l v) = some l then W (Function.update ro l v) else 0) *
      φ l ro ≤ ψ l ro) :
    mean ro D (fun ro => (κ ro).elim 0 fun l => W ro * φ l ro) ≤ mean ro D fun ro => ∑ l ∈ asked ro, ψ l ro := by
  have h1 : ∀ ro, ((κ ro).elim 0 fun l => W ro * φ l ro) = ∑ l ∈ D, if κ ro = some l then W ro * φ l ro else 0 := by
    intro ro
    cases hk : κ ro with
    | none => simp
    | some l =>
      rw [Finset.sum_eq_single l]
      · simp
      · intro l' _ hl'
        rw [if_neg]
        intro e
        exact hl' (Option.some.inj e).symm
      · intro hl
        exact absurd (hD ro (hκ ro l hk)) hl
  have h2 : ∀ ro, (∑ l ∈ asked ro, ψ l ro) = ∑ l ∈ D, if l ∈ asked ro then ψ l ro else 0 := by
    intro ro
    rw [← Finset.sum_filter, Finset.filter_mem_eq_inter, Finset.inter_eq_right.2 (hD ro)]
  simp only [h1, h2, mean_sum]
  refine Finset.sum_le_sum fun l hl => ?_
  rw [← mean_resample ro D hl]
  refine mean_mono ro D fun ro => ?_
  have e : (average fun v => if κ (Function.update ro l v) = some l then W (Function.update ro l v) *
      φ l (Function.update ro l v) else 0) =
      (average fun v => if κ (Function.update ro l v) = some l then W (Function.update ro l v) else 0) * φ l ro := by
    rw [mul_comm, ← average_mul]
    refine congrArg average (funext fun v => ?_)
    rw [hφ]
    split_ifs <;> ring
  rw [e]
  split_ifs with hm
  · exact h ro l
  · have : ∀ v, ¬ κ (Function.update ro l v) = some l := by
      intro v hk
      have := hκ _ _ hk
      rw [hupd ro l v hm] at this
      exact hm this
    simp only [this, if_false, average_const, zero_mul, le_refl]

end

/-! ### The rewinding program -/

namespace Rewinder
section
variable {α F : Type} [DecidableEq F] (P : Hash → α) (scalar : Vector UInt8 64 → F) (test : Hash → α → Bool)
  (key : Hash → α → Nat → Option (List Event)) (K : Nat → Nat) (r : Nat)

/-- The question for challenge `i` in an accepted run. -/
def keyOf (i : Nat) (ro : Hash) : Option (List Event) := if test ro (P ro) then key ro (P ro) i else none

noncomputable def growHit (d i : Nat) (ro : Hash) : ℚ := (grow scalar test key K r d i ro (P ro)).expect P hit
noncomputable def growRuns (d i : Nat) (ro : Hash) : ℚ := (grow scalar test key K r d i ro (P ro)).runs P

/-- One attempt with another answer. -/
def trial (d i : Nat) (ro : Hash) (l : List Event) (v : Vector UInt8 64) : Rewinder α (Option (List (Hash × α))) :=
  .run (Function.update ro l v) fun a' =>
    if test (Function.update ro l v) a' && key (Function.update ro l v) a' i == some l then
      grow scalar test key K r d (i + 1) (Function.update ro l v) a'
    else .done none

theorem growHit_nonneg (d i : Nat) (ro : Hash) : 0 ≤ growHit P scalar test key K r d i ro :=
  expect_nonneg P hit_nonneg _

theorem growRuns_nonneg (d i : Nat) (ro : Hash) : 0 ≤ growRuns P scalar test key K r d i ro := runs_nonneg P _

theorem trial_update (d i : Nat) (ro : Hash) (l : List Event) (v : Vector UInt8 64) :
    trial scalar test key K r d i (Function.update ro l v) l = trial scalar test key K r d i ro l := by
  funext w
  simp only [trial, Function.update_idem]

theorem keyOf_iff (i : Nat) (ro : Hash) (l : List Event) : keyOf P test key i ro = some l ↔
    (test ro (P ro) && key ro (P ro) i == some l) = true := by
  unfold keyOf
  cases test ro (P ro) <;> simp

theorem trial_hit (d i : Nat) (ro : Hash) (l : List Event) (v : Vector UInt8 64) :
    (trial scalar test key K r d i ro l v).expect P hit =
      if keyOf P test key i (Function.update ro l v) = some l then
        growHit P scalar test key K r d (i + 1) (Function.update ro l v) else 0 := by
  simp only [trial, expect, keyOf_iff]
  split_ifs <;> rfl

theorem trial_runs (d i : Nat) (ro : Hash) (l : List Event) (v : Vector UInt8 64) :
    (trial scalar test key K r d i ro l v).runs P =
      1 + if keyOf P test key i (Function.update ro l v) = some l then
        growRuns P scalar test key K r d (i + 1) (Function.update ro l v) else 0 := by
  simp only [trial, runs, keyOf_iff]
  split_ifs <;> rfl

theorem rate_trial (d i : Nat) (ro : Hash) (l : List Event) :
    rate P (trial scalar test key K r d i ro l) = average fun v =>
      if keyOf P test key i (Function.update ro l v) = some l then
        growHit P scalar test key K r d (i + 1) (Function.update ro l v) else 0 := by
  simp only [rate, trial_hit]

theorem effort_trial (d i : Nat) (ro : Hash) (l : List Event) :
    effort P (trial scalar test key K r d i ro l) = 1 + average fun v =>
      if keyOf P test key i (Function.update ro l v) = some l then
        growRuns P scalar test key K r d (i + 1) (Function.update ro l v) else 0 := by
  simp only [effort, trial_runs, average_add, average_const]

/-- Where there is nothing to find, nothing is searched. -/
theorem rate_zero {d i : Nat} {ro : Hash} {l : List Event} (hk : keyOf P test key i ro = some l)
    (h0 : rate P (trial scalar test key K r d i ro l) = 0) : growHit P scalar test key K r d (i + 1) ro = 0 := by
  rw [rate_trial] at h0
  have := average_eq_zero (fun v => by split_ifs; exacts [growHit_nonneg .., le_rfl]) h0 (ro l)
  rwa [Function.update_eq_self, if_pos hk] at this

theorem expect_none_zero {β : Type} (p : Rewinder α (Option β)) (f : Option β → ℚ) (c : ℚ) (h0 : f none = 0)
    (h1 : ∀ x, f (some x) = c) : p.expect P f = p.expect P hit * c := by
  rw [mul_comm, ← expect_mul]
  refine congrArg (fun f => p.expect P f) (funext fun o => ?_)
  cases o <;> simp [h0, h1, hit]

theorem growRuns_succ (d i : Nat) (ro : Hash) : growRuns P scalar test key K r (d + 1) i ro =
    growRuns P scalar test key K r d (i + 1) ro + growHit P scalar test key K r d (i + 1) ro *
      (key ro (P ro) i).elim 0 fun l =>
        (collect scalar (trial scalar test key K r d i ro l) r [scalar (ro l)] (K i - 1)).runs P := by
  rw [growRuns, grow, runs_bind]
  refine congrArg₂ (· + ·) rfl (expect_none_zero P _ _ _ rfl fun ts => ?_)
  cases key ro (P ro) i with
  | none => rfl
  | some l =>
    simp only [Option.elim]
    rw [runs_bind]
    refine (add_eq_left.2 ?_)
    refine (congrArg (fun f => expect P f _) (funext fun o => ?_)).trans (expect_const P 0 _)
    cases o <;> rfl

theorem growHit_succ (d i : Nat) (ro : Hash) : growHit P scalar test key K r (d + 1) i ro =
    growHit P scalar test key K r d (i + 1) ro * (key ro (P ro) i).elim 1 fun l =>
      (collect scalar (trial scalar test key K r d i ro l) r [scalar (ro l)] (K i - 1)).expect P hit := by
  rw [growHit, grow, expect_bind]
  refine expect_none_zero P _ _ _ rfl fun ts => ?_
  cases key ro (P ro) i with
  | none => rfl
  | some l =>
    simp only [Option.elim]
    rw [expect_bind]
    refine congrArg (fun f => expect P f _) (funext fun o => ?_)
    cases o <;> rfl

variable {T : Nat} {asked : Hash → Finset (List Event)} (ro : Hash) (D : Finset (List Event))
  (hD : ∀ ro, asked ro ⊆ D) (hT : ∀ ro, (asked ro).card ≤ T)
  (hupd : ∀ ro l v, l ∉ asked ro → asked (Function.update ro l v) = asked ro)
  (hask : ∀ ro i l, test ro (P ro) = true → key ro (P ro) i = some l → l ∈ asked ro)

include hask in
theorem keyOf_asked (i : Nat) (ro : Hash) (l : List Event) (h : keyOf P test key i ro = some l) : l ∈ asked ro := by
  unfold keyOf at h
  split_ifs at h with ht
  exact hask ro i l ht h

include hD hT hupd hask in
/-- The expected number of further runs. -/
theorem mean_growRuns (hK : ∀ i, 1 ≤ K i) : ∀ d i : Nat,
    mean ro D (fun ro => if test ro (P ro) then growRuns P scalar test key K r d i ro else 0) + T ≤
      T * ∏ j ∈ Finset.range d, (K (i + j) : ℚ)
  | 0, i => by
    have : ∀ ro, (if test ro (P ro) then growRuns P scalar test key K r 0 i ro else 0) = 0 := by
      intro ro; split_ifs <;> rfl
    simp only [this, mean_const, zero_add, Finset.range_zero, Finset.prod_empty, mul_one, le_refl]
  | d + 1, i => by
    have ih := mean_growRuns hK d (i + 1)
    obtain ⟨X, hX⟩ : ∃ X, X = mean ro D (fun ro => if test ro (P ro) then growRuns P scalar test key K r d (i + 1) ro
      else 0) := ⟨_, rfl⟩
    rw [← hX] at ih
    have hk1 : ((K i - 1 : Nat) : ℚ) = K i - 1 := by rw [Nat.cast_sub (hK i), Nat.cast_one]
    have hk0 : (0 : ℚ) ≤ ((K i - 1 : Nat) : ℚ) := Nat.cast_nonneg _
    -- the searches
    have h1 := mean_at_key ro D (κ := keyOf P test key i) hD (keyOf_asked P test key hask i) hupd
      (growHit P scalar test key K r d (i + 1))
      (fun l ro => ((K i - 1 : Nat) : ℚ) * (effort P (trial scalar test key K r d i ro l) /
        rate P (trial scalar test key K r d i ro l)))
      (fun l ro => ((K i - 1 : Nat) : ℚ) * effort P (trial scalar test key K r d i ro l))
      (fun ro l v => by rw [trial_update]) (fun ro l => by
        rw [← rate_trial, mul_left_comm]
        refine mul_le_mul_of_nonneg_left ?_ hk0
        by_cases h0 : rate P (trial scalar test key K r d i ro l) = 0
        · rw [h0, zero_mul]; exact effort_nonneg P _
        · rw [mul_div_cancel₀ _ h0])
    have h2 : mean ro D (fun ro => if test ro (P ro) then growRuns P scalar test key K r (d + 1) i ro else 0) ≤
        X + mean ro D (fun ro => (keyOf P test key i ro).elim 0 fun l =>
          growHit P scalar test key K r d (i + 1) ro * (((K i - 1 : Nat) : ℚ) *
            (effort P (trial scalar test key K r d i ro l) / rate P (trial scalar test key K r d i ro l)))) := by
      rw [hX, ← mean_add]
      refine mean_mono ro D fun ro => ?_
      split_ifs with ht
      · rw [growRuns_succ]
        refine add_le_add (le_refl _) ?_
        have hkk : keyOf P test key i ro = key ro (P ro) i := by rw [keyOf, if_pos ht]
        rw [← hkk]
        cases hk : keyOf P test key i ro with
        | none => simp
        | some l =>
          simp only [Option.elim]
          rcases (rate_nonneg P (trial scalar test key K r d i ro l)).eq_or_lt with h0 | h0
          · rw [rate_zero P scalar test key K r hk h0.symm, zero_mul, zero_mul]
          · exact mul_le_mul_of_nonneg_left (collect_runs P scalar _ r h0 _ _) (growHit_nonneg ..)
      · rw [keyOf, if_neg ht]
        exact (add_zero _).symm.le
    -- at each question that is asked
    have h3 : mean ro D (fun ro => ∑ l ∈ asked ro, ((K i - 1 : Nat) : ℚ) *
        effort P (trial scalar test key K r d i ro l)) ≤ ((K i - 1 : Nat) : ℚ) * (T + X) := by
      simp only [← Finset.mul_sum]
      rw [mean_mul]
      refine mul_le_mul_of_nonneg_left ?_ hk0
      have h4 : ∀ ro, ∑ l ∈ asked ro, effort P (trial scalar test key K r d i ro l) ≤ T + ∑ l ∈ D, average fun v =>
          if keyOf P test key i (Function.update ro l v) = some l then
            growRuns P scalar test key K r d (i + 1) (Function.update ro l v) else 0 := by
        intro ro
        simp only [effort_trial, Finset.sum_add_distrib, Finset.sum_const, nsmul_eq_mul, mul_one]
        refine add_le_add (Nat.cast_le.2 (hT ro)) (Finset.sum_le_sum_of_subset_of_nonneg (hD ro) fun l _ _ => ?_)
        exact average_nonneg fun v => by split_ifs; exacts [growRuns_nonneg .., le_rfl]
      refine (mean_mono ro D h4).trans ?_
      rw [mean_add, mean_const, mean_sum]
      refine add_le_add (le_refl _) ?_
      rw [Finset.sum_congr rfl fun l hl => mean_resample ro D hl fun ro =>
        if keyOf P test key i ro = some l then growRuns P scalar test key K r d (i + 1) ro else 0, ← mean_sum, hX]
      refine mean_mono ro D fun ro => ?_
      cases hk : keyOf P test key i ro with
      | none =>
        simp only [reduceCtorEq, if_false, Finset.sum_const_zero]
        split_ifs
        exacts [growRuns_nonneg .., le_rfl]
      | some l =>
        have ht : test ro (P ro) = true := by
          unfold keyOf at hk
          split_ifs at hk with ht
          exact ht
        rw [if_pos ht]
        simp only [Option.some.injEq]
        rw [Finset.sum_ite_eq]
        split_ifs
        exacts [le_rfl, growRuns_nonneg ..]
    have h5 : ((K i - 1 : Nat) : ℚ) * (T + X) + X + T = K i * (X + T) := by rw [hk1]; ring
    have h6 := mul_le_mul_of_nonneg_left ih (Nat.cast_nonneg (α := ℚ) (K i))
    have h7 : (T : ℚ) * ∏ j ∈ Finset.range (d + 1), (K (i + j) : ℚ) =
        K i * (T * ∏ j ∈ Finset.range d, (K (i + 1 + j) : ℚ)) := by
      rw [Finset.prod_range_succ', Nat.add_zero]
      have : ∀ j, K (i + (j + 1)) = K (i + 1 + j) := fun j => congrArg K (by omega)
      simp only [this]
      ring
    rw [h7]
    linarith

include hD hT hupd hask in
/-- The loss of success probability. -/
theorem mean_growHit {B : Nat} (hB : ∀ c : F, Nat.card {v : Vector UInt8 64 // scalar v = c} ≤ B) (hK : ∀ i, 1 ≤ K i) :
    ∀ d i : Nat, mean ro D (fun ro => if test ro (P ro) then 1 else 0) ≤
      mean ro D (fun ro => if test ro (P ro) then growHit P scalar test key K r d i ro else 0) +
      T * ∑ j ∈ Finset.range d, ((K (i + j) - 1 : ℚ) / (r + 1) +
        (K (i + j) * (K (i + j) - 1) / 2 : ℚ) * ((B : ℚ) / 2 ^ 512))
  | 0, i => by
    rw [Finset.range_zero, Finset.sum_empty, mul_zero, add_zero]
    exact le_rfl
  | d + 1, i => by
    have ih := mean_growHit hB hK d (i + 1)
    generalize hκ : (B : ℚ) / 2 ^ 512 = κ at ih ⊢
    obtain ⟨err, herr⟩ : ∃ err : ℚ, err = (K i - 1 : ℚ) / (r + 1) + (K i * (K i - 1) / 2 : ℚ) * κ := ⟨_, rfl⟩
    have hκ0 : 0 ≤ κ := hκ ▸ div_nonneg (Nat.cast_nonneg _) (by positivity)
    have hk1 : ((K i - 1 : Nat) : ℚ) = K i - 1 := by rw [Nat.cast_sub (hK i), Nat.cast_one]
    have hk0 : (0 : ℚ) ≤ K i - 1 := hk1 ▸ Nat.cast_nonneg _
    have herr0 : 0 ≤ err := by
      rw [herr]
      exact add_nonneg (div_nonneg hk0 (by positivity)) (mul_nonneg (choose_two_nonneg _) hκ0)
    have h1 := mean_at_key ro D (κ := keyOf P test key i) hD (keyOf_asked P test key hask i) hupd
      (growHit P scalar test key K r d (i + 1))
      (fun l ro => err / rate P (trial scalar test key K r d i ro l)) (fun _ _ => err)
      (fun ro l v => by rw [trial_update]) (fun ro l => by
        rw [← rate_trial]
        by_cases h0 : rate P (trial scalar test key K r d i ro l) = 0
        · rw [h0, zero_mul]; exact herr0
        · rw [mul_div_cancel₀ _ h0])
    have h2 : mean ro D (fun ro => if test ro (P ro) then growHit P scalar test key K r d (i + 1) ro else 0) ≤
        mean ro D (fun ro => if test ro (P ro) then growHit P scalar test key K r (d + 1) i ro else 0) +
        mean ro D (fun ro => (keyOf P test key i ro).elim 0 fun l =>
          growHit P scalar test key K r d (i + 1) ro * (err / rate P (trial scalar test key K r d i ro l))) := by
      rw [← mean_add]
      refine mean_mono ro D fun ro => ?_
      split_ifs with ht
      · rw [growHit_succ]
        have hkk : keyOf P test key i ro = key ro (P ro) i := by rw [keyOf, if_pos ht]
        rw [← hkk]
        cases hk : keyOf P test key i ro with
        | none => simp
        | some l =>
          simp only [Option.elim]
          rcases (rate_nonneg P (trial scalar test key K r d i ro l)).eq_or_lt with h0 | h0
          · rw [rate_zero P scalar test key K r hk h0.symm, zero_mul, zero_mul, add_zero]
          · have hl := collect_loss P scalar (trial scalar test key K r d i ro l) r hB h0 (K i - 1) (scalar (ro l))
            rw [hκ, hk1, sub_add_cancel, ← herr, mul_comm, ← le_div_iff₀ h0] at hl
            have := mul_le_mul_of_nonneg_left hl (growHit_nonneg P scalar test key K r d (i + 1) ro)
            linarith
      · rw [keyOf, if_neg ht]
        exact (add_zero _).symm.le
    have h3 : mean ro D (fun ro => ∑ l ∈ asked ro, err) ≤ T * err := by
      refine (mean_mono ro D fun ro => ?_).trans (mean_const ro D _).le
      rw [Finset.sum_const, nsmul_eq_mul]
      exact mul_le_mul_of_nonneg_right (Nat.cast_le.2 (hT ro)) herr0
    have hs : ∀ j, K (i + (j + 1)) = K (i + 1 + j) := fun j => congrArg K (by omega)
    have h4 : ∑ j ∈ Finset.range (d + 1), ((K (i + j) - 1 : ℚ) / (r + 1) + (K (i + j) * (K (i + j) - 1) / 2 : ℚ) * κ) =
        ∑ j ∈ Finset.range d, ((K (i + 1 + j) - 1 : ℚ) / (r + 1) +
          (K (i + 1 + j) * (K (i + 1 + j) - 1) / 2 : ℚ) * κ) + err := by
      rw [Finset.sum_range_succ', herr]
      simp only [hs, Nat.add_zero]
    rw [h4, mul_add]
    linarith

end
end Rewinder

/-! ### The runs that are returned -/

namespace Rewinder
section
variable {α F γ : Type} [DecidableEq F] (P : Hash → α) (scalar : Vector UInt8 64 → F)

theorem search_always {A : Vector UInt8 64 → γ → Prop} {trial : Vector UInt8 64 → Rewinder α (Option γ)}
    (h : ∀ v, (trial v).Always P fun o => ∀ c, o = some c → A v c) :
    ∀ r, (search trial r).Always P fun o => ∀ x, o = some x → A x.1 x.2
  | 0 => fun _ hx => by simp at hx
  | r + 1 => fun v => by
    refine always_bind P (fun o ho => ?_) _ (h v)
    cases o with
    | none => exact search_always h r
    | some c =>
      rintro x ⟨⟩
      exact ho c rfl

theorem collect_always {A : Vector UInt8 64 → List γ → Prop}
    {trial : Vector UInt8 64 → Rewinder α (Option (List γ))} (m : Nat)
    (h : ∀ v, (trial v).Always P fun o => ∀ c, o = some c → A v c ∧ c.length ≤ m) (r : Nat) : ∀ (k : Nat) (used : List F),
    (collect scalar trial r used k).Always P fun o => ∀ cs, o = some cs →
      ∃ v : Fin k → Vector UInt8 64, Function.Injective (fun j => scalar (v j)) ∧ cs.length ≤ k * m ∧
        ∀ j, scalar (v j) ∉ used ∧ ∃ c, c ⊆ cs ∧ A (v j) c
  | 0, used => fun cs hcs => ⟨Fin.elim0, fun j => j.elim0, by simp at hcs; simp [hcs], fun j => j.elim0⟩
  | k + 1, used => by
    rw [collect]
    refine always_bind P (fun o ho => ?_) _ (search_always P h r)
    match o with
    | none => exact fun _ h => by simp at h
    | some (w, c) =>
      obtain ⟨hw, hm⟩ := ho _ rfl
      dsimp only
      split_ifs with hu
      · exact fun _ h => by simp at h
      · refine always_bind P (fun o' ho' => ?_) _ (collect_always m h r k (scalar w :: used))
        match o' with
        | none => exact fun _ h => by simp at h
        | some cs =>
          rintro _ ⟨⟩
          obtain ⟨v, hv, hl, hA⟩ := ho' _ rfl
          refine ⟨Fin.cons w v, ?_, ?_, ?_⟩
          · intro j j' hjj
            induction j using Fin.cases with
            | zero =>
              induction j' using Fin.cases with
              | zero => rfl
              | succ j' =>
                simp only [Fin.cons_zero, Fin.cons_succ] at hjj
                exact absurd (hjj ▸ List.mem_cons_self) (hA j').1
            | succ j =>
              induction j' using Fin.cases with
              | zero =>
                simp only [Fin.cons_zero, Fin.cons_succ] at hjj
                exact absurd (hjj ▸ List.mem_cons_self) (hA j).1
              | succ j' =>
                simp only [Fin.cons_succ] at hjj
                exact congrArg Fin.succ (hv hjj)
          · rw [List.length_append, Nat.succ_mul]
            simp only at hm
            omega
          · intro j
            induction j using Fin.cases with
            | zero => exact ⟨hu, c, List.subset_append_left _ _, hw⟩
            | succ j =>
              obtain ⟨h1, c', h2, h3⟩ := hA j
              exact ⟨fun h => h1 (List.mem_cons_of_mem _ h), c', List.subset_append_of_subset_right _ h2, h3⟩

variable (test : Hash → α → Bool) (key : Hash → α → Nat → Option (List Event)) (K : Nat → Nat) (r : Nat)

/-- The runs that are returned branch as wanted. -/
theorem grow_always (hK : ∀ i, 1 ≤ K i) : ∀ (d i : Nat) (ro : Hash), test ro (P ro) = true →
    (grow scalar test key K r d i ro (P ro)).Always P fun o => ∀ ts, o = some ts →
      Forks scalar (fun ro' => test ro' (P ro') = true ∧ (ro', P ro') ∈ ts) (fun ro => key ro (P ro)) K d i ro ∧
      ts.length ≤ ∏ j ∈ Finset.range d, K (i + j)
  | 0, i, ro, ht => by
    rintro _ ⟨⟩
    exact ⟨⟨ht, List.mem_singleton.2 rfl⟩, by simp⟩
  | d + 1, i, ro, ht => by
    have hs : ∏ j ∈ Finset.range (d + 1), K (i + j) = K i * ∏ j ∈ Finset.range d, K (i + 1 + j) := by
      rw [Finset.prod_range_succ', Nat.add_zero, mul_comm]
      exact congrArg _ (Finset.prod_congr rfl fun j _ => congrArg K (by omega))
    rw [hs]
    generalize hm : ∏ j ∈ Finset.range d, K (i + 1 + j) = m
    have ih := fun ro ht => hm ▸ grow_always hK d (i + 1) ro ht
    rw [grow]
    refine always_bind P (fun o ho => ?_) _ (ih ro ht)
    match o with
    | none => exact fun _ h => by simp at h
    | some ts =>
      obtain ⟨hf, hl⟩ := ho _ rfl
      cases hk : key ro (P ro) i with
      | none =>
        rintro _ ⟨⟩
        refine ⟨⟨hf, fun l hl => ?_⟩, hl.trans (Nat.le_mul_of_pos_left _ (hK i))⟩
        simp only [hk, reduceCtorEq] at hl
      | some l =>
        simp only
        refine always_bind P (fun o' ho' => ?_) _ (collect_always P scalar
          (A := fun v c => test (Function.update ro l v) (P (Function.update ro l v)) = true ∧
            key (Function.update ro l v) (P (Function.update ro l v)) i = some l ∧
            Forks scalar (fun ro' => test ro' (P ro') = true ∧ (ro', P ro') ∈ c) (fun ro => key ro (P ro)) K d (i + 1)
              (Function.update ro l v)) m ?_ r (K i - 1) [scalar (ro l)])
        · match o' with
          | none => exact fun _ h => by simp at h
          | some cs =>
            rintro _ ⟨⟩
            obtain ⟨v, hv, hlen, hA⟩ := ho' _ rfl
            have hki : K i - 1 + 1 = K i := by have := hK i; omega
            refine ⟨⟨hf.mono fun ro h => ⟨h.1, List.mem_append_left _ h.2⟩, fun l' hl' => ?_⟩, ?_⟩
            · have : l = l' := Option.some.inj (hk.symm.trans hl')
              subst this
              have h2 : ∃ v : Fin (K i - 1 + 1) → Vector UInt8 64, Function.Injective (fun j => scalar (v j)) ∧
                  ∀ j, Forks scalar (fun ro' => test ro' (P ro') = true ∧ (ro', P ro') ∈ ts ++ cs)
                    (fun ro => key ro (P ro)) K d (i + 1) (Function.update ro l (v j)) ∧
                    key (Function.update ro l (v j)) (P (Function.update ro l (v j))) i = some l := by
                refine ⟨Fin.cons (ro l) v, ?_, ?_⟩
                · intro j j' hjj
                  induction j using Fin.cases with
                  | zero =>
                    induction j' using Fin.cases with
                    | zero => rfl
                    | succ j' =>
                      simp only [Fin.cons_zero, Fin.cons_succ] at hjj
                      exact absurd (List.mem_singleton.2 hjj.symm) (hA j').1
                  | succ j =>
                    induction j' using Fin.cases with
                    | zero =>
                      simp only [Fin.cons_zero, Fin.cons_succ] at hjj
                      exact absurd (List.mem_singleton.2 hjj) (hA j).1
                    | succ j' =>
                      simp only [Fin.cons_succ] at hjj
                      exact congrArg Fin.succ (hv hjj)
                · intro j
                  induction j using Fin.cases with
                  | zero =>
                    rw [Fin.cons_zero, Function.update_eq_self]
                    exact ⟨hf.mono fun ro h => ⟨h.1, List.mem_append_left _ h.2⟩, hk⟩
                  | succ j =>
                    rw [Fin.cons_succ]
                    obtain ⟨-, c, hc, -, h4, h5⟩ := hA j
                    exact ⟨h5.mono fun ro h => ⟨h.1, List.mem_append_right _ (hc h.2)⟩, h4⟩
              rwa [hki] at h2
            · rw [List.length_append]
              calc ts.length + cs.length ≤ m + (K i - 1) * m := add_le_add hl hlen
                _ = (K i - 1 + 1) * m := by ring
                _ = K i * m := by rw [hki]
        · intro v
          show ((if _ then _ else _ : Rewinder α _)).Always P _
          split_ifs with hc
          · rw [Bool.and_eq_true, beq_iff_eq] at hc
            refine Always.mono P (fun o ho c hoc => ?_) _ (ih _ hc.1)
            obtain ⟨h1, h2⟩ := ho c hoc
            exact ⟨⟨hc.1, hc.2, h1⟩, h2⟩
          · exact fun _ h => by simp at h

theorem rewind_runs (d : Nat) (ro : Hash) : (rewind scalar test key K r d ro).runs P =
    1 + if test ro (P ro) then growRuns P scalar test key K r d 0 ro else 0 := by
  rw [rewind, runs]
  split_ifs <;> rfl

/-- The expected number of runs of the prover in `rewind`. -/
theorem mean_rewind {T : Nat} {asked : Hash → Finset (List Event)} (ro : Hash) (D : Finset (List Event))
    (hD : ∀ ro, asked ro ⊆ D) (hT : ∀ ro, (asked ro).card ≤ T)
    (hupd : ∀ ro l v, l ∉ asked ro → asked (Function.update ro l v) = asked ro)
    (hask : ∀ ro i l, test ro (P ro) = true → key ro (P ro) i = some l → l ∈ asked ro) (hK : ∀ i, 1 ≤ K i) (d : Nat) :
    mean ro D (fun ro => (rewind scalar test key K r d ro).runs P) ≤
      1 + T * (∏ j ∈ Finset.range d, (K j : ℚ) - 1) := by
  have := mean_growRuns P scalar test key K r ro D hD hT hupd hask hK d 0
  simp only [rewind_runs, mean_add, mean_const]
  simp only [Nat.zero_add] at this
  rw [mul_sub, mul_one]
  linarith

open Classical in
/-- The probability that `rewind` returns runs that branch as wanted. -/
theorem chance_rewind {T B : Nat} {asked : Hash → Finset (List Event)} (ro : Hash) (D : Finset (List Event))
    (hD : ∀ ro, asked ro ⊆ D) (hT : ∀ ro, (asked ro).card ≤ T)
    (hupd : ∀ ro l v, l ∉ asked ro → asked (Function.update ro l v) = asked ro)
    (hask : ∀ ro i l, test ro (P ro) = true → key ro (P ro) i = some l → l ∈ asked ro) (hK : ∀ i, 1 ≤ K i)
    (hB : ∀ c : F, Nat.card {v : Vector UInt8 64 // scalar v = c} ≤ B) (d : Nat) :
    Spec.chance ro D (fun ro => test ro (P ro) = true) ≤ mean ro D (fun ro => (rewind scalar test key K r d ro).chance P
      fun o => ∃ ts, o = some ts ∧ ts.length ≤ ∏ j ∈ Finset.range d, K j ∧
        Forks scalar (fun ro' => test ro' (P ro') = true ∧ (ro', P ro') ∈ ts) (fun ro => key ro (P ro)) K d 0 ro) +
      T * ∑ j ∈ Finset.range d, ((K j - 1 : ℚ) / (r + 1) + (K j * (K j - 1) / 2 : ℚ) * ((B : ℚ) / 2 ^ 512)) := by
  have h := mean_growHit P scalar test key K r ro D hD hT hupd hask hB hK d 0
  simp only [Nat.zero_add] at h
  rw [chance_eq_mean]
  refine (le_of_eq (congrArg (mean ro D) (funext fun ro => by split_ifs <;> rfl))).trans
    (h.trans (add_le_add (le_of_eq (congrArg (mean ro D) (funext fun ro => ?_))) (le_refl _)))
  rw [rewind, chance, expect]
  split_ifs with ht
  · refine Always.expect P (fun o ho => ?_) _ (grow_always P scalar test key K r hK d 0 ro ht)
    cases o with
    | none => simp [hit]
    | some ts =>
      obtain ⟨h1, h2⟩ := ho ts rfl
      simp only [Nat.zero_add] at h2
      rw [if_pos ⟨ts, rfl, h2, h1⟩]
      rfl
  · simp [expect]

end
end Rewinder

theorem Algo.asked_update_of_not_mem {α : Type} (ro : Hash) (l : List Event) (v : Vector UInt8 64) : ∀ A : Algo Event α,
    l ∉ A.asked id ro → A.asked id (Function.update ro l v) = A.asked id ro
  | .done _, _ => rfl
  | .ask log next, h => by
    rw [asked, List.mem_cons, not_or] at h
    rw [asked, asked, List.map_id, Function.update_of_ne (Ne.symm h.1)]
    rw [List.map_id] at h
    rw [asked_update_of_not_mem ro l v _ h.2]

end Qesa.Spec
