import Verif.Proofs.QesaRun
import Verif.Proofs.IpaFork
import Verif.Props.Wrong
import Verif.Props.ForkCopy
import Verif.Props.LmpaShapes
import Verif.Props.Locality
import Verif.Props.Session
/- C104: proofs that are moved to another transcript. -/
namespace Qesa.Props
open Qesa Spec Ipa Copy
set_option linter.unusedSectionVars false
set_option exponentiation.threshold 600
variable {F G : Type} [Field F] [DecidableEq F] [AddCommGroup G] [Module F G] [DecidableEq G]

/-! ### Challenges that are drawn one after the other -/

/-- `f` does not depend on the answers to histories that properly extend the history `log`. -/
def Settled {α : Type} (log : Hash → List Event) (f : Hash → α) : Prop :=
  ∀ ro l v, log ro <+: l → l ≠ log ro → f (Function.update ro l v) = f ro

theorem Settled.const {α : Type} (log : Hash → List Event) (a : α) : Settled log fun _ => a := fun _ _ _ _ _ => rfl

theorem Settled.comp {α β : Type} {log : Hash → List Event} {f : Hash → α} (h : Settled log f) (g : α → β) :
    Settled log fun ro => g (f ro) := fun ro l v h1 h2 => congrArg g (h ro l v h1 h2)

theorem Settled.pair {α β : Type} {log : Hash → List Event} {f : Hash → α} {g : Hash → β} (h : Settled log f)
    (h' : Settled log g) : Settled log fun ro => (f ro, g ro) :=
  fun ro l v h1 h2 => Prod.ext (h ro l v h1 h2) (h' ro l v h1 h2)

theorem Settled.append {α : Type} {log suf : Hash → List Event} {f : Hash → α} (h : Settled log f) :
    Settled (fun ro => log ro ++ suf ro) f := by
  intro ro l v h1 h2
  refine h ro l v ((List.prefix_append _ _).trans h1) ?_
  rintro rfl
  have h3 := h1.length_le
  rw [List.length_append] at h3
  apply h2
  show _ = log ro ++ suf ro
  rw [List.eq_nil_of_length_eq_zero (l := suf ro) (by omega), List.append_nil]

theorem Settled.log_append {log suf : Hash → List Event} (h : Settled log log) (hs : Settled log suf) :
    Settled log fun ro => log ro ++ suf ro :=
  fun ro l v h1 h2 => congrArg₂ (· ++ ·) (h ro l v h1 h2) (hs ro l v h1 h2)

/-- The challenge out of the history `log`. -/
theorem Settled.challenge {log : Hash → List Event} (h : Settled log log) :
    Settled log fun ro => squeeze F ro (log ro) := by
  intro ro l v h1 h2
  simp only [squeeze]
  rw [h ro l v h1 h2, Function.update_of_ne h2.symm]

/-- A challenge after `log` that must lie in a small set, which depends on earlier challenges only. -/
theorem count_next {B k : Nat} (hB : ∀ c : F, Nat.card {v : Vector UInt8 64 // ((leNat v.toList : Nat) : F) = c} ≤ B)
    (ro : Hash) (D : Finset (List Event)) {log suf : Hash → List Event} (h : Settled log log) (hs : Settled log suf)
    (hne : ∀ ro, suf ro ≠ []) (hD : ∀ ro, log ro ++ suf ro ∈ D) (p : Hash → F → Prop) (hp : Settled log p)
    (hfew : ∀ ro, ∃ S : Finset F, S.card ≤ k ∧ ∀ x, p ro x → x ∈ S) :
    countHashes ro D (fun ro => p ro (squeeze F ro (log ro ++ suf ro))) * 2 ^ 512 ≤ (k * B) * (2 ^ 512) ^ D.card := by
  have hl : ∀ ro, log ro <+: log ro ++ suf ro := fun ro => List.prefix_append _ _
  have hl' : ∀ ro, log ro ++ suf ro ≠ log ro := fun ro e => hne ro (List.append_right_eq_self.1 e)
  have hQ : ∀ ro v, (fun ro => log ro ++ suf ro) (Function.update ro ((fun ro => log ro ++ suf ro) ro) v) =
      (fun ro => log ro ++ suf ro) ro := fun ro v => h.log_append hs ro _ v (hl ro) (hl' ro)
  refine count_history ro D (fun ro => log ro ++ suf ro) hQ hD _ _ fun ro => ?_
  obtain ⟨S, hS, hpS⟩ := hfew ro
  refine le_trans (card_imp fun v hv => ?_) ((card_challenge hB S).trans (Nat.mul_le_mul_right _ hS))
  have e := hQ ro v
  simp only at e hv
  rw [hp ro _ v (hl ro) (hl' ro), e, squeeze, Function.update_self] at hv
  exact hpS _ hv

/-! ### The rounds of the inner-product argument -/

theorem quadratic_few (L P R X Y : G) (h : L ≠ 0 ∨ P ≠ Y) :
    ∃ S : Finset F, S.card ≤ 2 ∧ ∀ x : F, (x * x) • L + x • P + R = X + x • Y → x ∈ S := by
  refine few_of_no_injection 2 _ ?_
  rintro ⟨x, hx, hp⟩
  have key : ∀ i j, i ≠ j → (x i + x j) • L + (P - Y) = 0 := by
    intro i j hij
    have hne : x i - x j ≠ 0 := sub_ne_zero.2 fun e => hij (hx e)
    have : (x i - x j) • ((x i + x j) • L + (P - Y)) = 0 := by
      linear_combination (norm := module) hp i - hp j
    exact (smul_eq_zero.1 this).resolve_left hne
  have h1 := key 0 1 (by decide)
  have h2 := key 0 2 (by decide)
  have hL : (x 1 - x 2) • L = 0 := by linear_combination (norm := module) h1 - h2
  have hL := (smul_eq_zero.1 hL).resolve_left (sub_ne_zero.2 fun e => absurd (hx e) (by decide))
  rw [hL, smul_zero, zero_add, sub_eq_zero] at h1
  rcases h with h | h
  · exact h hL
  · exact h h1

/-- Generators, `Q` and the commitment between two rounds. -/
structure Stage (G : Type) where
  Gs : List G
  Hs : List G
  Q : G
  P : G

/-- The one commitment for which a proof with scalars `a`, `b` and `r` rounds may be accepted for all challenges. -/
def Stage.Special (s : Stage G) (k r : Nat) (a b : F) : Prop :=
  if r = 0 then a • s.Gs.getD 0 0 + b • s.Hs.getD 0 0 + (a * b) • s.Q = s.P
  else s.P = a • s.Gs.getD ((2 ^ r - 1) * 2 ^ (k - r)) 0 + b • s.Hs.getD 0 0

/-- One round. -/
def Stage.next (s : Stage G) (L R : G) (x : F) : Stage G :=
  ⟨foldG x s.Gs, foldH x s.Hs, s.Q, (x * x) • L + x • s.P + R⟩

theorem foldG_entry (x : F) (k i : Nat) (Gs : List G) (hG : Gs.length = 2 ^ (k + 1)) (hi : i < 2 ^ k) :
    (foldG x Gs).getD i 0 = Gs.getD i 0 + x • Gs.getD (2 ^ k + i) 0 := by
  have hh : Gs.length / 2 = 2 ^ k := by rw [hG, pow_succ]; omega
  rw [pow_succ] at hG
  rw [foldG, hh, List.getD_eq_getElem _ _ (by simp; omega), List.getElem_zipWith, List.getElem_take,
    List.getElem_drop, List.getD_eq_getElem _ _ (by omega), List.getD_eq_getElem _ _ (by omega), one_smul]

theorem foldH_entry (x : F) (k i : Nat) (Hs : List G) (hH : Hs.length = 2 ^ (k + 1)) (hi : i < 2 ^ k) :
    (foldH x Hs).getD i 0 = x • Hs.getD i 0 + Hs.getD (2 ^ k + i) 0 := by
  have hh : Hs.length / 2 = 2 ^ k := by rw [hH, pow_succ]; omega
  rw [pow_succ] at hH
  rw [foldH, hh, List.getD_eq_getElem _ _ (by simp; omega), List.getElem_zipWith, List.getElem_take,
    List.getElem_drop, List.getD_eq_getElem _ _ (by omega), List.getD_eq_getElem _ _ (by omega), one_smul]

/-- Few challenges lead to a special commitment. -/
theorem special_few (s : Stage G) (k r : Nat) (hr : r ≤ k) (a b : F) (L R : G) (hG : s.Gs.length = 2 ^ (k + 1))
    (hH : s.Hs.length = 2 ^ (k + 1)) (h : ¬ s.Special (k + 1) (r + 1) a b) :
    ∃ S : Finset F, S.card ≤ 2 ∧ ∀ x, (s.next L R x).Special k r a b → x ∈ S := by
  have h2 : 2 ^ (k + 1) = 2 ^ k + 2 ^ k := by rw [pow_succ]; omega
  have hp := Nat.two_pow_pos k
  have hkr : 2 ^ r * 2 ^ (k - r) = 2 ^ k := by rw [← pow_add]; congr 1; omega
  have hkr' := Nat.two_pow_pos (k - r)
  have hi : (2 ^ r - 1) * 2 ^ (k - r) < 2 ^ k := by rw [Nat.sub_mul, hkr]; omega
  have hi' : (2 ^ (r + 1) - 1) * 2 ^ (k + 1 - (r + 1)) = 2 ^ k + (2 ^ r - 1) * 2 ^ (k - r) := by
    have e : 2 ^ (r + 1) * 2 ^ (k - r) = 2 ^ k + 2 ^ k := by rw [pow_succ, Nat.mul_right_comm, hkr]; omega
    have hle : 2 ^ (k - r) ≤ 2 ^ k := Nat.pow_le_pow_right (by omega) (by omega)
    rw [Nat.add_sub_add_right, Nat.sub_mul, Nat.sub_mul, e, hkr]; omega
  unfold Stage.Special at h
  rw [if_neg (by omega), hi'] at h
  unfold Stage.Special Stage.next
  simp only
  by_cases hr0 : r = 0
  · subst hr0
    simp only [if_true]
    obtain ⟨S, hS, hm⟩ := quadratic_few L s.P R
      (a • s.Gs.getD 0 0 + b • s.Hs.getD (2 ^ k) 0 + (a * b) • s.Q)
      (a • s.Gs.getD (2 ^ k) 0 + b • s.Hs.getD 0 0) (.inr (by simpa using h)) (F := F)
    refine ⟨S, hS, fun x hx => hm x ?_⟩
    rw [foldG_entry x k 0 _ hG hp, foldH_entry x k 0 _ hH hp, Nat.add_zero] at hx
    linear_combination (norm := module) -hx
  · simp only [hr0, if_false]
    obtain ⟨S, hS, hm⟩ := quadratic_few L s.P R
      (a • s.Gs.getD ((2 ^ r - 1) * 2 ^ (k - r)) 0 + b • s.Hs.getD (2 ^ k) 0)
      (a • s.Gs.getD (2 ^ k + (2 ^ r - 1) * 2 ^ (k - r)) 0 + b • s.Hs.getD 0 0) (.inr h) (F := F)
    refine ⟨S, hS, fun x hx => hm x ?_⟩
    rw [foldG_entry x k _ _ hG hi, foldH_entry x k 0 _ hH hp, Nat.add_zero] at hx
    linear_combination (norm := module) hx

/-- The rounds. -/
theorem count_rounds {B : Nat} (hB : ∀ c : F, Nat.card {v : Vector UInt8 64 // ((leNat v.toList : Nat) : F) = c} ≤ B)
    (dec : Comp → G) (a b : F) (ro : Hash) (D : Finset (List Event)) : ∀ (L R : List Comp) (k : Nat)
    (log : Hash → List Event) (s : Hash → Stage G), Settled log log → Settled log s →
    (∀ ro, (s ro).Gs.length = 2 ^ k) → (∀ ro, (s ro).Hs.length = 2 ^ k) → min L.length R.length ≤ k →
    (∀ ro j, j < min L.length R.length → log ro ++
      roundsLog (L.take (j + 1)) (R.take (j + 1)) ∈ D) →
    countHashes ro D (fun ro => ¬ (s ro).Special k (min L.length R.length) a b ∧
      Gap a b (s ro).Q k (roundChallenges F ro (log ro) L R) (L.map dec) (R.map dec) (s ro).Gs
        (s ro).Hs (s ro).P) * 2 ^ 512 ≤ (2 * min L.length R.length * B) * (2 ^ 512) ^ D.card
  | [], R, k, log, s, hl, hs, hG, hH, hk, hD => by
    rw [count_none, Nat.zero_mul]
    · exact Nat.zero_le _
    rintro ro ⟨h1, h2⟩
    have : roundChallenges F ro (log ro) [] R = [] := by simp [roundChallenges]
    rw [this, gap_nil] at h2
    apply h1
    simpa [Stage.Special] using h2
  | L :: Ls, [], k, log, s, hl, hs, hG, hH, hk, hD => by
    rw [count_none, Nat.zero_mul]
    · exact Nat.zero_le _
    rintro ro ⟨h1, h2⟩
    have : roundChallenges F ro (log ro) (L :: Ls) [] = [] := by
      simp [roundChallenges]
    rw [this, gap_nil] at h2
    apply h1
    simpa [Stage.Special] using h2
  | L :: Ls, R :: Rs, 0, log, s, hl, hs, hG, hH, hk, hD => by simp at hk
  | L :: Ls, R :: Rs, k + 1, log, s, hl, hs, hG, hH, hk, hD => by
    have hmin : min (L :: Ls).length (R :: Rs).length = min Ls.length Rs.length + 1 := by simp
    rw [hmin] at hk hD ⊢
    set r := min Ls.length Rs.length with hr
    set suf : Hash → List Event := fun _ => roundLog (L, R)
    have hsuf : Settled log suf := Settled.const _ _
    let log' : Hash → List Event := fun ro => log ro ++ suf ro
    have hl' : Settled log' log' := (hl.log_append hsuf).append
    let s' : Hash → Stage G := fun ro => (s ro).next (dec L) (dec R) (squeeze F ro (log' ro))
    have hs' : Settled log' s' := (hs.append.pair hl'.challenge).comp fun z => z.1.next (dec L) (dec R) z.2
    have c1 := count_next hB ro D hl hsuf (fun _ => by simp [suf, roundLog])
      (fun ro => by simpa [suf, roundsLog] using hD ro 0 (by omega))
      (fun ro x => ¬ (s ro).Special (k + 1) (r + 1) a b ∧ ((s ro).next (dec L) (dec R) x).Special k r a b)
      (hs.comp fun s x => ¬ s.Special (k + 1) (r + 1) a b ∧ (s.next (dec L) (dec R) x).Special k r a b) (k := 2) (fun ro => by
        by_cases h : (s ro).Special (k + 1) (r + 1) a b
        · exact ⟨∅, by simp, fun x hx => absurd h hx.1⟩
        · obtain ⟨S, h1, h2⟩ := special_few (s ro) k r (by omega) a b (dec L) (dec R) (hG ro) (hH ro) h
          exact ⟨S, h1, fun x hx => h2 x hx.2⟩)
    have c2 := count_rounds hB dec a b ro D Ls Rs k log' s' hl' hs'
      (fun ro => by simp only [s', Stage.next]; rw [foldG_length, hG ro, pow_succ]; omega)
      (fun ro => by simp only [s', Stage.next]; rw [foldH_length, hH ro, pow_succ]; omega) (by omega)
      (fun ro j hj => by
        have := hD ro (j + 1) (by omega)
        simpa [log', suf, roundsLog, List.append_assoc] using this)
    rw [← hr] at c2
    refine le_trans (Nat.mul_le_mul_right _ ((card_imp fun f hf => ?_).trans (count_or ro D
      (fun ro => ¬ (s ro).Special (k + 1) (r + 1) a b ∧ ((s ro).next (dec L) (dec R) (squeeze F ro (log' ro))).Special k r a b)
      (fun ro => ¬ (s' ro).Special k r a b ∧
        Gap a b (s' ro).Q k (roundChallenges F ro (log' ro) Ls Rs) (Ls.map dec) (Rs.map dec) (s' ro).Gs
          (s' ro).Hs (s' ro).P)))) ?_
    · obtain ⟨h1, h2⟩ := hf
      by_cases h3 : ((s (patch ro D f)).next (dec L) (dec R) (squeeze F (patch ro D f) (log' (patch ro D f)))).Special k r a b
      · exact .inl ⟨h1, h3⟩
      · refine .inr ⟨h3, ?_⟩
        rw [List.map_cons, List.map_cons, roundChallenges_cons, gap_cons] at h2
        · exact h2
        · rw [roundChallenges_length]; omega
        · exact hG _
        · exact hH _
    · rw [add_mul]
      refine (add_le_add c1 c2).trans (le_of_eq ?_)
      ring

/-! ### The inner-product argument -/

/-- A claim for which the challenges of the rounds do not help. -/
def Portable (q : Nat) (Gs Hs : List G) (Q P : G) (t : F) (p : NoZK F) : Prop :=
  if q = 0 ∨ p.R_vec = [] then P = p.a • Gs.getD 0 0 + p.b • Hs.getD 0 0 + t • Q ∧ (p.a * p.b) • Q = t • Q
  else P = p.a • Gs.getD (2 ^ q - 2 ^ (q - p.R_vec.length)) 0 + p.b • Hs.getD 0 0 ∧ t • Q = 0

theorem special_alpha_few (q : Nat) (Gs Hs : List G) (Q P : G) (t : F) (p : NoZK F) (h : ¬ Portable q Gs Hs Q P t p) :
    ∃ S : Finset F, S.card ≤ 2 ∧ ∀ α : F, (⟨Gs, Hs, α⁻¹ • Q, P - ((α - 1) * t) • (α⁻¹ • Q)⟩ : Stage G).Special q
      (min q p.R_vec.length) p.a p.b → α ∈ S := by
  refine few_of_no_injection 2 _ ?_
  rintro ⟨x, hx, hp⟩
  obtain ⟨i, j, hij, hi, hj⟩ : ∃ i j, i ≠ j ∧ x i ≠ 0 ∧ x j ≠ 0 := by
    by_cases h0 : x 0 = 0
    · exact ⟨1, 2, by decide, fun e => absurd (hx (e.trans h0.symm)) (by decide),
        fun e => absurd (hx (e.trans h0.symm)) (by decide)⟩
    · by_cases h1 : x 1 = 0
      · exact ⟨0, 2, by decide, h0, fun e => absurd (hx (e.trans h1.symm)) (by decide)⟩
      · exact ⟨0, 1, by decide, h0, h1⟩
  have hd : x i - x j ≠ 0 := sub_ne_zero.2 fun e => hij (hx e)
  apply h
  unfold Portable
  unfold Stage.Special at hp
  have e1 := hp i
  have e2 := hp j
  by_cases hr : q = 0 ∨ p.R_vec = []
  · have hm : min q p.R_vec.length = 0 := by
      rcases hr with hr | hr <;> simp [hr]
    rw [if_pos hr]
    simp only [hm, if_true] at e1 e2
    have key : ∀ i, x i ≠ 0 → p.a • Gs.getD 0 0 + p.b • Hs.getD 0 0 + (p.a * p.b) • (x i)⁻¹ • Q =
        P - ((x i - 1) * t) • (x i)⁻¹ • Q → x i • (p.a • Gs.getD 0 0 + p.b • Hs.getD 0 0 + t • Q - P) =
          t • Q - (p.a * p.b) • Q := by
      intro i hi e
      have e := congrArg (x i • ·) e
      simp only [smul_add, smul_sub] at e
      rw [smul_comm (x i) (p.a * p.b), smul_comm (x i) ((x i - 1) * t), smul_inv_smul₀ hi] at e
      linear_combination (norm := module) e
    have k1 := key i hi e1
    have k2 := key j hj e2
    have : (x i - x j) • (p.a • Gs.getD 0 0 + p.b • Hs.getD 0 0 + t • Q - P) = 0 := by
      linear_combination (norm := module) k1 - k2
    have h0 := (smul_eq_zero.1 this).resolve_left hd
    rw [h0, smul_zero] at k1
    exact ⟨(sub_eq_zero.1 h0).symm, (sub_eq_zero.1 k1.symm).symm⟩
  · have hm : min q p.R_vec.length ≠ 0 := by
      intro e
      apply hr
      rcases min_choice q p.R_vec.length with h | h
      · exact .inl (h ▸ e)
      · exact .inr (List.eq_nil_of_length_eq_zero (h ▸ e))
    rw [if_neg hr]
    simp only [hm, if_false] at e1 e2
    have hidx : (2 ^ min q p.R_vec.length - 1) * 2 ^ (q - min q p.R_vec.length) = 2 ^ q - 2 ^ (q - p.R_vec.length) := by
      rw [Nat.sub_mul, ← pow_add, one_mul, show q - min q p.R_vec.length = q - p.R_vec.length by omega]
      congr 2; omega
    rw [hidx] at e1 e2
    set Y := p.a • Gs.getD (2 ^ q - 2 ^ (q - p.R_vec.length)) 0 + p.b • Hs.getD 0 0
    have key : ∀ i, x i ≠ 0 → P - ((x i - 1) * t) • (x i)⁻¹ • Q = Y → x i • (P - Y - t • Q) + t • Q = 0 := by
      intro i hi e
      have e := congrArg (x i • ·) e
      simp only [smul_sub] at e
      rw [smul_comm (x i) ((x i - 1) * t), smul_inv_smul₀ hi] at e
      linear_combination (norm := module) e
    have k1 := key i hi e1
    have k2 := key j hj e2
    have : (x i - x j) • (P - Y - t • Q) = 0 := by
      linear_combination (norm := module) k1 - k2
    have h0 := (smul_eq_zero.1 this).resolve_left hd
    rw [h0, smul_zero, zero_add] at k1
    rw [k1, sub_zero] at h0
    exact ⟨sub_eq_zero.1 h0, k1⟩

theorem gap_eq (p : NoZK F) (cd : Codec G) (ro : Hash) (log : List Event) (q : Nat) (Gs Hs : List G) (Q P : G) (t : F)
    (tr' : Transcript)
    (h : p.verify ⟨cd, ro⟩ ⟨log⟩ Gs Hs Q (2 ^ q) P t = .ok (true, tr')) :
    p.L_vec.length = q ∧ Gap p.a p.b ((squeeze F ro (log ++ headLog (2 ^ q)))⁻¹ • Q) q
      (roundChallenges F ro (log ++ headLog (2 ^ q)) p.L_vec p.R_vec)
      (p.L_vec.map fun c => (cd.decompress c).getD 0) (p.R_vec.map fun c => (cd.decompress c).getD 0) Gs Hs
      (P - ((squeeze F ro (log ++ headLog (2 ^ q)) - 1) * t) • ((squeeze F ro (log ++ headLog (2 ^ q)))⁻¹ • Q)) := by
  have hv := (C22_ipa_verify_returns_iff ⟨cd, ro⟩ _ _ _ _ _ _ _ _).1 ⟨_, h⟩
  obtain ⟨Ls, hL⟩ := (decodable_iff (⟨cd, ro⟩ : Ctx G) _).1 hv.1
  obtain ⟨Rs, hR⟩ := (decodable_iff (⟨cd, ro⟩ : Ctx G) _).1 hv.2.1
  have hq : p.L_vec.length = q := (Nat.pow_right_injective (le_refl 2) hv.2.2.2.1).symm
  refine ⟨hq, ?_⟩
  rw [C19_ipa_verdict ⟨cd, ro⟩ p ⟨log⟩ Gs Hs Q (2 ^ q) P t Ls Rs hL hR hv] at h
  simp only [Except.ok.injEq, Prod.mk.injEq, decide_eq_true_eq] at h
  have e1 : (p.L_vec.map fun c => (cd.decompress c).getD 0) = Ls := by
    rw [hL, List.map_map]
    simp [Function.comp_def, cd.decompress_compress]
  have e2 : (p.R_vec.map fun c => (cd.decompress c).getD 0) = Rs := by
    rw [hR, List.map_map]
    simp [Function.comp_def, cd.decompress_compress]
  rw [e1, e2]
  unfold Gap
  rw [roundChallenges_length, hq]
  rw [hq] at h
  exact h.1

/-- What an inner-product argument is about. -/
abbrev Claim (F G : Type) := Stage G × F

theorem count_ipa_fixed {q B : Nat} (cd : Codec G) (p : NoZK F)
    (hB : ∀ c : F, Nat.card {v : Vector UInt8 64 // ((leNat v.toList : Nat) : F) = c} ≤ B)
    (log : Hash → List Event) (c : Hash → Claim F G) (hl : Settled log log) (hc : Settled log c)
    (hG : ∀ ro, (c ro).1.Gs.length = 2 ^ q) (hH : ∀ ro, (c ro).1.Hs.length = 2 ^ q) (ro : Hash)
    (D : Finset (List Event)) (hD : ∀ ro, ∀ l ∈ Spec.ipaHistories (log ro) (2 ^ q) p, l ∈ D) :
    countHashes ro D (fun ro => ¬ Portable q (c ro).1.Gs (c ro).1.Hs (c ro).1.Q (c ro).1.P (c ro).2 p ∧
      ∃ tr', p.verify ⟨cd, ro⟩ ⟨log ro⟩ (c ro).1.Gs (c ro).1.Hs (c ro).1.Q (2 ^ q) (c ro).1.P (c ro).2 =
        .ok (true, tr')) * 2 ^ 512 ≤
      (2 * (q + 1) * B) * (2 ^ 512) ^ D.card := by
  by_cases hq : p.L_vec.length = q
  swap
  · rw [count_none, Nat.zero_mul]
    · exact Nat.zero_le _
    · rintro ro ⟨-, tr', h⟩
      exact hq (gap_eq p cd ro _ q _ _ _ _ _ tr' h).1
  let suf : Hash → List Event := fun _ => headLog (2 ^ q)
  let log' : Hash → List Event := fun ro => log ro ++ suf ro
  have hsuf : Settled log suf := Settled.const _ _
  have hl' : Settled log' log' := (hl.log_append hsuf).append
  let mk : Claim F G → F → Stage G := fun z α =>
    ⟨z.1.Gs, z.1.Hs, α⁻¹ • z.1.Q, z.1.P - ((α - 1) * z.2) • (α⁻¹ • z.1.Q)⟩
  let s : Hash → Stage G := fun ro => mk (c ro) (squeeze F ro (log' ro))
  have hs : Settled log' s := (hc.append.pair hl'.challenge).comp fun z => mk z.1 z.2
  set r := min q p.R_vec.length with hr
  have hr' : min p.L_vec.length p.R_vec.length = r := by rw [hq]
  have c1 := count_next hB ro D hl hsuf (fun _ => by simp [suf, headLog])
    (fun ro => hD ro _ (List.mem_map.2 ⟨0, by simp, by simp [suf, roundsLog]⟩))
    (fun ro α => ¬ Portable q (c ro).1.Gs (c ro).1.Hs (c ro).1.Q (c ro).1.P (c ro).2 p ∧
      (mk (c ro) α).Special q r p.a p.b)
    (hc.comp fun z α => ¬ Portable q z.1.Gs z.1.Hs z.1.Q z.1.P z.2 p ∧ (mk z α).Special q r p.a p.b) (k := 2)
    (fun ro => by
      by_cases h : Portable q (c ro).1.Gs (c ro).1.Hs (c ro).1.Q (c ro).1.P (c ro).2 p
      · exact ⟨∅, by simp, fun x hx => absurd h hx.1⟩
      · obtain ⟨S, h1, h2⟩ := special_alpha_few q _ _ _ _ _ p h
        exact ⟨S, h1, fun x hx => h2 x hx.2⟩)
  have c2 := count_rounds hB (fun c => (cd.decompress c).getD 0) p.a p.b ro D p.L_vec p.R_vec q log' s hl' hs
    hG hH (by omega) (fun ro j hj => hD ro _ (List.mem_map.2 ⟨j + 1, by simp; omega, rfl⟩))
  rw [hr'] at c2
  refine le_trans (Nat.mul_le_mul_right _ ((card_imp fun f hf => ?_).trans (count_or ro D
    (fun ro => ¬ Portable q (c ro).1.Gs (c ro).1.Hs (c ro).1.Q (c ro).1.P (c ro).2 p ∧
      (mk (c ro) (squeeze F ro (log ro ++ suf ro))).Special q r p.a p.b)
    (fun ro => ¬ (s ro).Special q r p.a p.b ∧ Gap p.a p.b (s ro).Q q (roundChallenges F ro (log' ro) p.L_vec p.R_vec)
      (p.L_vec.map fun c => (cd.decompress c).getD 0) (p.R_vec.map fun c => (cd.decompress c).getD 0) (s ro).Gs
      (s ro).Hs (s ro).P)))) ?_
  · obtain ⟨h1, tr', h2⟩ := hf
    by_cases h3 : (s (patch ro D f)).Special q r p.a p.b
    · exact .inl ⟨h1, h3⟩
    · exact .inr ⟨h3, (gap_eq p cd _ _ q _ _ _ _ _ tr' h2).2⟩
  · rw [add_mul]
    refine (add_le_add c1 c2).trans ?_
    rw [← add_mul, ← add_mul]
    refine Nat.mul_le_mul_right _ (Nat.mul_le_mul_right _ ?_)
    omega

/-- `alpha` is wrong if the factor of `Q` is. -/
theorem count_ipa_product {q B : Nat} (cd : Codec G) (Gs Hs : List G) (Q P : G) (t : F) (p : NoZK F)
    (ht : t • Q = 0) (hp : (p.a * p.b) • Q ≠ 0)
    (hB : ∀ c : F, Nat.card {v : Vector UInt8 64 // ((leNat v.toList : Nat) : F) = c} ≤ B)
    (log : List Event) (ro : Hash) (D : Finset (List Event)) (hD : log ++ headLog (2 ^ q) ∈ D) :
    countHashes ro D (fun ro => ∃ tr', p.verify ⟨cd, ro⟩ ⟨log⟩ Gs Hs Q (2 ^ q) P t = .ok (true, tr')) * 2 ^ 512 ≤
      (1 * B) * (2 ^ 512) ^ D.card := by
  refine count_history ro D (fun _ => log ++ headLog (2 ^ q)) (fun _ _ => rfl) (fun _ => hD) _ _ fun ro => ?_
  have hx : ∀ v, roundChallenges F (Function.update ro (log ++ headLog (2 ^ q)) v) (log ++ headLog (2 ^ q)) p.L_vec p.R_vec =
      roundChallenges F ro (log ++ headLog (2 ^ q)) p.L_vec p.R_vec := by
    intro v
    unfold roundChallenges
    refine List.map_congr_left fun j hj => ?_
    rw [List.mem_range] at hj
    unfold squeeze
    rw [Function.update_of_ne]
    intro e
    rw [List.append_right_eq_self] at e
    cases hL : p.L_vec with
    | nil => simp [hL] at hj
    | cons L Ls =>
      cases hR : p.R_vec with
      | nil => simp [hR] at hj
      | cons R Rs => simp [hL, hR, roundsLog, roundLog] at e
  obtain ⟨S, hS, hm⟩ := few_of_no_injection 1 (fun α : F => Gap p.a p.b (α⁻¹ • Q) q
      (roundChallenges F ro (log ++ headLog (2 ^ q)) p.L_vec p.R_vec) (p.L_vec.map fun c => (cd.decompress c).getD 0)
      (p.R_vec.map fun c => (cd.decompress c).getD 0) Gs Hs P) (by
    rintro ⟨x, hx, h⟩
    have h0 := h 0
    have h1 := h 1
    unfold Gap at h0 h1
    have : ((x 0)⁻¹ - (x 1)⁻¹) • ((p.a * p.b) • Q) = 0 := by
      linear_combination (norm := module) h0 - h1
    rcases smul_eq_zero.1 this with e | e
    · exact absurd (hx (inv_injective (sub_eq_zero.1 e))) (by decide)
    · exact hp e)
  refine le_trans (card_imp fun v hv => ?_) ((card_challenge hB S).trans (Nat.mul_le_mul_right _ hS))
  obtain ⟨tr', h⟩ := hv
  have h := (gap_eq p cd _ log q Gs Hs Q P t tr' h).2
  rw [hx, squeeze, Function.update_self, mul_smul, smul_comm t, ht, smul_zero, smul_zero, sub_zero] at h
  exact hm _ h

/-- The claim that a proof with final scalars `a`, `b` can be accepted for on every transcript: `a * b = t` (if `Q` is not
zero), and after at least one round it is `P = a • G_i + b • H_0`, where `G_i` is the last generator if there are as many
points `R` as points `L`, with `t = 0`; without a round it is `P = a • G_0 + b • H_0 + t • Q`. -/
def Movable (q : Nat) (Gs Hs : List G) (Q P : G) (t : F) (p : NoZK F) : Prop :=
  (p.a * p.b) • Q = t • Q ∧
  if q = 0 ∨ p.R_vec = [] then P = p.a • Gs.getD 0 0 + p.b • Hs.getD 0 0 + t • Q
  else P = p.a • Gs.getD (2 ^ q - 2 ^ (q - p.R_vec.length)) 0 + p.b • Hs.getD 0 0 ∧ t • Q = 0

/-- C104: a proof of the inner-product argument that does not depend on the answers of the hash function to what the
verifier asks is accepted for a small part of these answers, whether the claim is true or not. -/
theorem C104_ipa_fixed {q B : Nat} (cd : Codec G) (Gs Hs : List G) (Q P : G) (t : F) (hG : Gs.length = 2 ^ q)
    (hH : Hs.length = 2 ^ q) (p : NoZK F) (hp : ¬ Movable q Gs Hs Q P t p)
    (hB : ∀ c : F, Nat.card {v : Vector UInt8 64 // ((leNat v.toList : Nat) : F) = c} ≤ B)
    (log : List Event) (ro : Hash) (D : Finset (List Event))
    (hD : ∀ l ∈ Spec.ipaHistories log (2 ^ q) p, l ∈ D) :
    chance ro D (fun ro => ∃ tr', p.verify ⟨cd, ro⟩ ⟨log⟩ Gs Hs Q (2 ^ q) P t = .ok (true, tr')) ≤
      (2 * (q + 1) * B : Nat) / 2 ^ 512 := by
  apply chance_le
  by_cases hp' : Portable q Gs Hs Q P t p
  · have h : t • Q = 0 ∧ (p.a * p.b) • Q ≠ 0 := by
      unfold Portable at hp'
      unfold Movable at hp
      split_ifs at hp' hp with h
      · exact absurd ⟨hp'.2, hp'.1⟩ hp
      · exact ⟨hp'.2, fun e => hp ⟨by rw [e, hp'.2], hp'⟩⟩
    refine (count_ipa_product cd Gs Hs Q P t p h.1 h.2 hB log ro D
      (hD _ (List.mem_map.2 ⟨0, by simp, by simp [roundsLog]⟩))).trans ?_
    refine Nat.mul_le_mul_right _ (Nat.mul_le_mul_right _ ?_)
    omega
  refine le_trans (Nat.mul_le_mul_right _ (card_imp fun f hf => ?_))
    (count_ipa_fixed cd p hB (fun _ => log) (fun _ => (⟨Gs, Hs, Q, P⟩, t)) (Settled.const _ _) (Settled.const _ _)
      (fun _ => hG) (fun _ => hH) ro D fun _ => hD)
  exact ⟨hp', hf⟩

/-! ### AlmZK -/

theorem portable_few (q : Nat) (Gs Hs : List G) (Q C_w C_r : G) (t : F) (p : NoZK F) (h : C_w ≠ 0 ∨ t • Q ≠ 0) :
    ∃ S : Finset F, S.card ≤ 2 ∧ ∀ β : F, Portable q Gs Hs Q (β • C_w + C_r + (β * β * t) • Q) (β * β * t) p →
      β ∈ S := by
  by_cases hr : q = 0 ∨ p.R_vec = []
  · rcases h with h | h
    · obtain ⟨S, hS, hm⟩ := quadratic_few 0 C_w C_r (p.a • Gs.getD 0 0 + p.b • Hs.getD 0 0) 0 (.inr h) (F := F)
      refine ⟨S, hS, fun β hβ => hm β ?_⟩
      unfold Portable at hβ
      rw [if_pos hr] at hβ
      linear_combination (norm := module) hβ.1
    · obtain ⟨S, hS, hm⟩ := quadratic_few (t • Q) 0 0 ((p.a * p.b) • Q) 0 (.inl h) (F := F)
      refine ⟨S, hS, fun β hβ => hm β ?_⟩
      unfold Portable at hβ
      rw [if_pos hr] at hβ
      linear_combination (norm := module) -hβ.2
  · obtain ⟨S, hS, hm⟩ := quadratic_few (t • Q) C_w C_r
      (p.a • Gs.getD (2 ^ q - 2 ^ (q - p.R_vec.length)) 0 + p.b • Hs.getD 0 0) 0 (by tauto) (F := F)
    refine ⟨S, hS, fun β hβ => hm β ?_⟩
    unfold Portable at hβ
    rw [if_neg hr] at hβ
    linear_combination (norm := module) hβ.1

theorem count_alm_fixed {q B : Nat} (cd : Codec G) (p : AlmZK F)
    (hB : ∀ c : F, Nat.card {v : Vector UInt8 64 // ((leNat v.toList : Nat) : F) = c} ≤ B)
    (log : Hash → List Event) (c : Hash → Claim F G) (hl : Settled log log) (hc : Settled log c)
    (hG : ∀ ro, (c ro).1.Gs.length = 2 ^ q) (hH : ∀ ro, (c ro).1.Hs.length = 2 ^ q) (ro : Hash)
    (D : Finset (List Event))
    (hD : ∀ ro, ∀ l ∈ almHistories cd ro (log ro) (2 ^ q) (c ro).1.Q (c ro).1.P (c ro).2 p, l ∈ D) :
    countHashes ro D (fun ro => ((c ro).1.P ≠ 0 ∨ (c ro).2 • (c ro).1.Q ≠ 0) ∧
      ∃ tr', p.verify ⟨cd, ro⟩ ⟨log ro⟩ (c ro).1.Gs (c ro).1.Hs (c ro).1.Q (2 ^ q) (c ro).1.P (c ro).2 =
        .ok (true, tr')) * 2 ^ 512 ≤
      (2 * (q + 2) * B) * (2 ^ 512) ^ D.card := by
  cases hdec : cd.decompress p.C_r with
  | none =>
    rw [count_none, Nat.zero_mul]
    · exact Nat.zero_le _
    · rintro ro ⟨-, tr', h⟩
      rw [alm_verify_undecodable (⟨cd, ro⟩ : Ctx G) _ _ _ _ _ _ _ _ hdec] at h
      cases h
  | some C_r =>
  have hCr : p.C_r = cd.compress C_r := (cd.compress_decompress _ _ hdec).symm
  let suf : Hash → List Event := fun _ => [.msg "C_r" p.C_r, .chal "beta" 64]
  let log1 : Hash → List Event := fun ro => log ro ++ suf ro
  have hsuf : Settled log suf := Settled.const _ _
  have hl1 : Settled log1 log1 := (hl.log_append hsuf).append
  let mk : Claim F G → F → Claim F G := fun z β =>
    (⟨z.1.Gs, z.1.Hs, z.1.Q, β • z.1.P + C_r + (β * β * z.2) • z.1.Q⟩, β * β * z.2)
  let c' : Hash → Claim F G := fun ro => mk (c ro) (squeeze F ro (log1 ro))
  have hc' : Settled log1 c' := (hc.append.pair hl1.challenge).comp fun z => mk z.1 z.2
  let suf' : Hash → List Event := fun ro => [.msg "P" (cd.compress (c' ro).1.P)]
  have hsuf' : Settled log1 suf' := hc'.comp fun z => [Event.msg "P" (cd.compress z.1.P)]
  let log2 : Hash → List Event := fun ro => log1 ro ++ suf' ro
  have hl2 : Settled log2 log2 := (hl1.log_append hsuf').append
  have elog : ∀ ro, log2 ro = almLog cd ro (log ro) (c ro).1.Q (c ro).1.P (c ro).2 p.C_r := by
    intro ro
    simp [log2, log1, suf, suf', c', mk, almLog, almHead, almBeta, hdec]
  have c1 := count_next hB ro D hl hsuf (fun _ => by simp [suf]) (fun ro => hD ro _ List.mem_cons_self)
    (fun ro β => ((c ro).1.P ≠ 0 ∨ (c ro).2 • (c ro).1.Q ≠ 0) ∧ Portable q (mk (c ro) β).1.Gs (mk (c ro) β).1.Hs
      (mk (c ro) β).1.Q (mk (c ro) β).1.P (mk (c ro) β).2 p.NoZK)
    (hc.comp fun z β => (z.1.P ≠ 0 ∨ z.2 • z.1.Q ≠ 0) ∧ Portable q (mk z β).1.Gs (mk z β).1.Hs
      (mk z β).1.Q (mk z β).1.P (mk z β).2 p.NoZK) (k := 2)
    (fun ro => by
      by_cases h : (c ro).1.P ≠ 0 ∨ (c ro).2 • (c ro).1.Q ≠ 0
      · obtain ⟨S, h1, h2⟩ := portable_few q (c ro).1.Gs (c ro).1.Hs _ _ C_r _ p.NoZK h
        exact ⟨S, h1, fun x hx => h2 x hx.2⟩
      · exact ⟨∅, by simp, fun x hx => absurd hx.1 h⟩)
  have c2 := count_ipa_fixed cd p.NoZK hB log2 c' hl2 hc'.append hG hH ro D fun ro l hlm =>
    hD ro l (List.mem_cons_of_mem _ (by rw [← elog ro]; exact hlm))
  refine le_trans (Nat.mul_le_mul_right _ ((card_imp fun f hf => ?_).trans (count_or ro D
    (fun ro => ((c ro).1.P ≠ 0 ∨ (c ro).2 • (c ro).1.Q ≠ 0) ∧ Portable q (c' ro).1.Gs (c' ro).1.Hs
      (c' ro).1.Q (c' ro).1.P (c' ro).2 p.NoZK)
    (fun ro => ¬ Portable q (c' ro).1.Gs (c' ro).1.Hs (c' ro).1.Q (c' ro).1.P (c' ro).2 p.NoZK ∧
      ∃ tr', p.NoZK.verify ⟨cd, ro⟩ ⟨log2 ro⟩ (c' ro).1.Gs (c' ro).1.Hs (c' ro).1.Q (2 ^ q) (c' ro).1.P (c' ro).2 =
        .ok (true, tr'))))) ?_
  · obtain ⟨h1, tr', h2⟩ := hf
    by_cases h3 : Portable q (c' (patch ro D f)).1.Gs (c' (patch ro D f)).1.Hs (c' (patch ro D f)).1.Q
        (c' (patch ro D f)).1.P (c' (patch ro D f)).2 p.NoZK
    · exact .inl ⟨h1, h3⟩
    · refine .inr ⟨h3, tr', ?_⟩
      rw [alm_verify_eq (⟨cd, patch ro D f⟩ : Ctx G) _ _ _ _ _ _ _ _ _ hCr] at h2
      have e : log2 (patch ro D f) = log (patch ro D f) ++ almHead p.C_r (cd.compress (c' (patch ro D f)).1.P) := by
        simp [log2, log1, suf, suf', almHead]
      rw [e]
      exact h2
  · rw [add_mul]
    refine (add_le_add c1 c2).trans (le_of_eq ?_)
    ring

/-- C104: the same for AlmZK; the only exception is the claim with `C_w = 0` and `t • Q = 0`. -/
theorem C104_alm_fixed {q B : Nat} (cd : Codec G) (Gs Hs : List G) (Q C_w : G) (t : F) (hG : Gs.length = 2 ^ q)
    (hH : Hs.length = 2 ^ q) (p : AlmZK F) (hp : C_w ≠ 0 ∨ t • Q ≠ 0)
    (hB : ∀ c : F, Nat.card {v : Vector UInt8 64 // ((leNat v.toList : Nat) : F) = c} ≤ B)
    (log : List Event) (ro : Hash) (D : Finset (List Event))
    (hD : ∀ ro, ∀ l ∈ almHistories cd ro log (2 ^ q) Q C_w t p, l ∈ D) :
    chance ro D (fun ro => ∃ tr', p.verify ⟨cd, ro⟩ ⟨log⟩ Gs Hs Q (2 ^ q) C_w t = .ok (true, tr')) ≤
      (2 * (q + 2) * B : Nat) / 2 ^ 512 := by
  apply chance_le
  refine le_trans (Nat.mul_le_mul_right _ (card_imp fun f hf => ?_))
    (count_alm_fixed cd p hB (fun _ => log) (fun _ => (⟨Gs, Hs, Q, C_w⟩, t)) (Settled.const _ _) (Settled.const _ _)
      (fun _ => hG) (fun _ => hH) ro D hD)
  exact ⟨hp, hf⟩

/-! ### Quadratic equations -/

omit [DecidableEq F] [DecidableEq G] in
theorem qesaPoint_quadratic {m : Nat} (hm : 0 < m) (M : Matrix (Fin m) (Fin m) F) (Gs Hs : List G)
    (hG : Gs.length = m + 2) (hH : Hs.length = m + 2) (C' C'' : G) (x s b : F) :
    qesaPoint M Gs Hs C' C'' x s b = (b * b) • (Hs.getD m 0 - Gs.getD (m + 1) 0) +
      b • (- Hs.getD (m + 1) 0 - Gs.getD m 0) + qesaPoint M Gs Hs C' C'' x s 0 := by
  have split : ∀ l : List G, l.length = m + 2 → l = l.take m ++ [l.getD m 0, l.getD (m + 1) 0] := by
    intro l hl
    conv_lhs => rw [← List.take_append_drop m l]
    rw [List.append_cancel_left_eq]
    rw [List.drop_eq_getElem_cons (by omega), List.drop_eq_getElem_cons (by omega), List.drop_eq_nil_of_le (by omega),
      List.getD_eq_getElem _ _ (by omega), List.getD_eq_getElem _ _ (by omega)]
  obtain ⟨g0, Gs, rfl⟩ : ∃ g0 G0, Gs = g0 :: G0 := by
    cases Gs with
    | nil => simp at hG
    | cons g G0 => exact ⟨g, G0, rfl⟩
  obtain ⟨m, rfl⟩ := Nat.exists_eq_succ_of_ne_zero hm.ne'
  have hR : (rescaled (x ^ 2) (g0 :: Gs)).length = m + 1 + 2 := by simpa [rescaled] using hG
  have e1 : (rescaled (x ^ 2) (g0 :: Gs)).getD (m + 1) 0 = (g0 :: Gs).getD (m + 1) 0 := rfl
  have e2 : (rescaled (x ^ 2) (g0 :: Gs)).getD (m + 1 + 1) 0 = (g0 :: Gs).getD (m + 1 + 1) 0 := rfl
  unfold qesaPoint challengeImage challengeVector
  rw [split _ hH, split _ hR, e1, e2]
  simp only [dot_append (F := F) (s := List.ofFn (powers s (m + 1)))
    (p := (rescaled (x ^ 2) (g0 :: Gs)).take (m + 1)) (by simp [hR]),
    dot_append (F := F) (s := List.ofFn (M.transpose.mulVec (powers s (m + 1)))) (p := Hs.take (m + 1)) (by simp [hH])]
  simp only [dot_cons, dot_nil_left]
  have h1 : (Hs.take (m + 1) ++ [Hs.getD (m + 1) 0, Hs.getD (m + 1 + 1) 0]).getD (m + 1) 0 = Hs.getD (m + 1) 0 := by
    rw [← split _ hH]
  have h2 : (Hs.take (m + 1) ++ [Hs.getD (m + 1) 0, Hs.getD (m + 1 + 1) 0]).getD (m + 1 + 1) 0 =
      Hs.getD (m + 1 + 1) 0 := by rw [← split _ hH]
  simp only [Nat.succ_eq_add_one, h1, h2]
  module

theorem count_qesa_fixed {m k q B : Nat} (hq : m + 2 = 2 ^ q) (cd : Codec G) (Gs Hs : List G)
    (hG : Gs.length = m + 2) (hH : Hs.length = m + 2) (Q : G)
    (hGH : ¬ (Hs.getD m 0 = Gs.getD (m + 1) 0 ∧ Hs.getD (m + 1) 0 = - Gs.getD m 0))
    (hB : ∀ c : F, Nat.card {v : Vector UInt8 64 // ((leNat v.toList : Nat) : F) = c} ≤ B)
    (log : Hash → List Event) (hl : Settled log log) (pa : AlmZK F) (c' : Hash → Comp) (hc' : Settled log c') (c'' : Comp)
    (Ms : Hash → Fin (k + 1) → Matrix (Fin m) (Fin m) F) (hMs : Settled log Ms) (ro : Hash) (D : Finset (List Event))
    (hD : ∀ ro, ∀ l ∈ qesaHistories cd ro (log ro) Gs Hs Q (Ms ro) ⟨pa, c' ro, c''⟩, l ∈ D) :
    countHashes ro D (fun ro => ∃ tr', (⟨pa, c' ro, c''⟩ : Inner.Proof F).verify ⟨cd, ro⟩ ⟨log ro⟩ Gs Hs Q
      ⟨List.ofFn fun i => rows (Ms ro i)⟩ = .ok (true, tr')) * 2 ^ 512 ≤
      (2 * (q + 3) * B) * (2 ^ 512) ^ D.card := by
  have hacc : ∀ ro tr', (⟨pa, c' ro, c''⟩ : Inner.Proof F).verify ⟨cd, ro⟩ ⟨log ro⟩ Gs Hs Q
      ⟨List.ofFn fun i => rows (Ms ro i)⟩ = .ok (true, tr') → _ := fun ro tr' h =>
    qesa_accepted_alm cd (fun _ => log ro) (fun _ => ()) (acc := fun ro' => ro' = ro) hq Gs Hs hG hH Q (fun _ => Ms ro)
      (fun _ => ⟨pa, c' ro, c''⟩) (by rintro ro' rfl; exact ⟨tr', h⟩) ro rfl
  by_cases hm : 0 < m
  swap
  · rw [count_none, Nat.zero_mul]
    · exact Nat.zero_le _
    · rintro ro ⟨tr', h⟩
      exact hm (hacc ro tr' h).1
  let logx : Hash → List Event := fun ro => log ro ++ [.msg "c_prime_w" (c' ro), .chal "x" 64]
  have hlx : Settled logx logx :=
    (hl.log_append (hc'.comp fun c => [Event.msg "c_prime_w" c, Event.chal "x" 64])).append
  have hx := hlx.challenge (F := F)
  let logs : Hash → List Event := fun ro => logx ro ++ [.msg "c_prime_prime_w" c'', .chal "s" 64]
  have hls : Settled logs logs := (hlx.log_append (Settled.const _ _)).append
  have hs := hls.challenge (F := F)
  let suf : Hash → List Event := fun _ => [.chal "b" 64]
  let logb : Hash → List Event := fun ro => logs ro ++ suf ro
  have hlb : Settled logb logb := (hls.log_append (Settled.const _ _)).append
  have hb := hlb.challenge (F := F)
  let z : Hash → ((Comp × (Fin (k + 1) → Matrix (Fin m) (Fin m) F)) × F) × F := fun ro =>
    (((c' ro, Ms ro), squeeze F ro (logx ro)), squeeze F ro (logs ro))
  have hz : Settled logs z := (((hc'.append.pair hMs.append).pair hx).append).pair hs
  let mk : ((Comp × (Fin (k + 1) → Matrix (Fin m) (Fin m) F)) × F) × F → F → Claim F G := fun z b =>
    let x := z.1.2
    let M := batched (m + 2) z.1.1.2 x
    (⟨rescaled (x ^ 2) Gs, Hs, Q, qesaPoint M Gs Hs ((cd.decompress z.1.1.1).getD 0) ((cd.decompress c'').getD 0) x z.2 b⟩,
      - quad M (powers z.2 m))
  let c : Hash → Claim F G := fun ro => mk (z ro) (squeeze F ro (logb ro))
  have hc : Settled logb c := (hz.append.pair hb).comp fun y => mk y.1 y.2
  let loga : Hash → List Event := fun ro => logb ro ++ [.msg "c_w" (cd.compress (c ro).1.P)]
  have hla : Settled loga loga :=
    (hlb.log_append (hc.comp fun c => [Event.msg "c_w" (cd.compress c.1.P)])).append
  have eclaim : ∀ ro, qesaClaimed cd ro (log ro) Gs Hs (Ms ro) ⟨pa, c' ro, c''⟩ = ((c ro).1.P, (c ro).2) := by
    intro ro
    simp only [qesaClaimed, c, mk, z, logb, logs, logx, suf, qesaX, qesaS, qesaB, List.append_assoc, List.cons_append,
      List.nil_append]
  have eloga : ∀ ro, loga ro = Spec.qesaLog cd ro (log ro) Gs Hs (Ms ro) ⟨pa, c' ro, c''⟩ := by
    intro ro
    rw [Spec.qesaLog, eclaim]
    simp [loga, logb, logs, logx, suf, qesaHead]
  have c1 := count_next hB ro D hls (Settled.const _ [Event.chal "b" 64]) (fun _ => by simp)
    (fun ro => hD ro _ (by simp [qesaHistories, logs, logx]))
    (fun ro b => (mk (z ro) b).1.P = 0) (hz.comp fun z b => (mk z b).1.P = 0) (k := 2)
    (fun ro => by
      obtain ⟨S, hS, h2⟩ := quadratic_few (Hs.getD m 0 - Gs.getD (m + 1) 0) (- Hs.getD (m + 1) 0 - Gs.getD m 0)
        (mk (z ro) 0).1.P 0 0 (F := F) (by
          by_contra hcon
          push Not at hcon
          refine hGH ⟨sub_eq_zero.1 hcon.1, ?_⟩
          linear_combination (norm := module) -hcon.2)
      refine ⟨S, hS, fun b hbz => h2 b ?_⟩
      have := qesaPoint_quadratic hm (batched (m + 2) (z ro).1.1.2 (z ro).1.2) Gs Hs hG hH
        ((cd.decompress (z ro).1.1.1).getD 0) ((cd.decompress c'').getD 0) (z ro).1.2 (z ro).2 b
      rw [smul_zero, add_zero]
      exact this.symm.trans hbz)
  have c2 := count_alm_fixed cd pa hB loga c hla hc.append
    (fun ro => by
      show (rescaled _ Gs).length = _
      rw [← hq, ← hG]; cases Gs <;> simp [rescaled])
    (fun ro => by rw [← hq, ← hH]) ro D fun ro l hlm =>
    hD ro l (by
      simp only [qesaHistories, List.mem_cons]
      refine .inr (.inr (.inr ?_))
      rw [← eloga, eclaim, hq]
      exact hlm)
  refine le_trans (Nat.mul_le_mul_right _ ((card_imp fun f hf => ?_).trans (count_or ro D
    (fun ro => (c ro).1.P = 0)
    (fun ro => ((c ro).1.P ≠ 0 ∨ (c ro).2 • (c ro).1.Q ≠ 0) ∧
      ∃ tr', pa.verify ⟨cd, ro⟩ ⟨loga ro⟩ (c ro).1.Gs (c ro).1.Hs (c ro).1.Q (2 ^ q) (c ro).1.P (c ro).2 =
        .ok (true, tr'))))) ?_
  · obtain ⟨tr', h2⟩ := hf
    by_cases h3 : (c (patch ro D f)).1.P = 0
    · exact .inl h3
    · obtain ⟨-, -, -, tr'', h4⟩ := hacc _ tr' h2
      rw [← eloga, eclaim] at h4
      exact .inr ⟨.inl h3, tr'', h4⟩
  · rw [add_mul]
    refine (add_le_add c1 c2).trans (le_of_eq ?_)
    ring

/-- C104: the same for QESA, for generators that satisfy `H[n-2] ≠ G[n-1]` or `H[n-1] ≠ -G[n-2]`. -/
theorem C104_qesa_fixed {m k q B : Nat} (hq : m + 2 = 2 ^ q) (cd : Codec G) (Gs Hs : List G)
    (hG : Gs.length = m + 2) (hH : Hs.length = m + 2) (Q : G)
    (hGH : ¬ (Hs.getD m 0 = Gs.getD (m + 1) 0 ∧ Hs.getD (m + 1) 0 = - Gs.getD m 0))
    (hB : ∀ c : F, Nat.card {v : Vector UInt8 64 // ((leNat v.toList : Nat) : F) = c} ≤ B)
    (Ms : Fin (k + 1) → Matrix (Fin m) (Fin m) F) (log : List Event) (p : Inner.Proof F) (ro : Hash)
    (D : Finset (List Event)) (hD : ∀ ro, ∀ l ∈ qesaHistories cd ro log Gs Hs Q Ms p, l ∈ D) :
    chance ro D (fun ro => ∃ tr', p.verify ⟨cd, ro⟩ ⟨log⟩ Gs Hs Q ⟨List.ofFn fun i => rows (Ms i)⟩ =
      .ok (true, tr')) ≤ (2 * (q + 3) * B : Nat) / 2 ^ 512 :=
  chance_le (count_qesa_fixed hq cd Gs Hs hG hH Q hGH hB (fun _ => log) (Settled.const _ _) p.alm_zk
    (fun _ => p.c_prime_w) (Settled.const _ _) p.c_prime_prime_w (fun _ => Ms) (Settled.const _ _) ro D hD)

/-- C104: the same for Copy. -/
theorem C104_copy_fixed {m q B ws : Nat} (hq : m + 3 = 2 ^ q) (cd : Codec G) (Gs Hs : List G)
    (hG : Gs.length = m + 3) (hH : Hs.length = m + 3) (Q : G)
    (hGH : ¬ (Hs.getD (m + 1) 0 = Gs.getD (m + 2) 0 ∧ Hs.getD (m + 2) 0 = - Gs.getD (m + 1) 0))
    (hB : ∀ c : F, Nat.card {v : Vector UInt8 64 // ((leNat v.toList : Nat) : F) = c} ≤ B)
    (Us : List (Matrix (Fin (m + 1)) (Fin (m + 1)) F)) (sets : List (List Nat)) (map : Copy.Mapping) (Cs : List G)
    (hn : m + 3 < 65536) (hws : ws < 65536) (hs : sets.length ≤ 65536)
    (hmap : computeMapping (m + 3) ws sets = .ok map) (hi : ∀ s ∈ sets, ∀ i ∈ s, i < m + 1)
    (hC : Cs.length = sets.length) (log : List Event) (p : Copy.Proof F) (ro : Hash)
    (D : Finset (List Event)) (hD : ∀ ro, ∀ l ∈ copyHistories cd ro log Gs Hs Q Us map Cs p, l ∈ D) :
    chance ro D (fun ro => ∃ tr', p.verify ⟨cd, ro⟩ ⟨log⟩ Gs Hs Q ⟨Us.map rows⟩ map Cs = .ok (true, tr')) ≤
      (2 * (q + 3) * B : Nat) / 2 ^ 512 := by
  apply chance_le
  obtain ⟨k, hk⟩ : ∃ k, Us.length + map.unique_commitment_indices.length = k + 1 := by
    have hN := copySystem_ne_nil (computeMapping_wf hn hws hs hmap) Us (0 : F)
    rw [copySystem_length] at hN
    exact Nat.exists_eq_succ_of_ne_zero hN
  let log1 : Hash → List Event := fun _ => log ++ [.msg "c_w" p.C_w, .chal "alpha" 64]
  have hl1 : Settled log1 log1 := Settled.const _ _
  have hα := hl1.challenge (F := F)
  have := count_qesa_fixed (q := q) (k := k) hq cd Gs Hs hG hH Q hGH hB log1 hl1 p.inner.alm_zk
    (fun ro => (copyInner cd ro log Cs p).c_prime_w)
    (hα.comp fun α => cd.compress (dot (List.ofFn (powers α Cs.length)) Cs + (cd.decompress p.C_w).getD 0))
    p.inner.c_prime_prime_w (fun ro => numbered (k + 1) (copySystem Us map (copyAlpha F ro log p.C_w)))
    (hα.comp fun α => numbered (k + 1) (copySystem Us map α)) ro D (fun ro l hl => hD ro l (by
      rw [copyHistories_eq, hk]
      exact List.mem_cons_of_mem _ hl))
  refine le_trans (Nat.mul_le_mul_right _ (card_imp fun f hf => ?_)) this
  obtain ⟨tr', h⟩ := hf
  obtain ⟨-, -, -, -, h⟩ := copy_accepted hG hn hws hs hmap hi hC h
  rw [hk] at h
  exact ⟨tr', h⟩

/-! ### Linear maps -/

theorem foldRow_entry (x : F) (k i : Nat) (row : List G) (h : row.length = 2 ^ (k + 1)) (hi : i < 2 ^ k) :
    (Lmpa.foldRow x row).getD i 0 = row.getD i 0 + x • row.getD (2 ^ k + i) 0 := by
  have hh : row.length / 2 = 2 ^ k := by rw [h, pow_succ]; omega
  rw [pow_succ] at h
  rw [Lmpa.foldRow, hh, List.getD_eq_getElem _ _ (by simp; omega), List.getElem_zipWith, List.getElem_take,
    List.getElem_drop, List.getD_eq_getElem _ _ (by omega), List.getD_eq_getElem _ _ (by omega)]

theorem count_lmpa_rounds {B : Nat}
    (hB : ∀ c : F, Nat.card {v : Vector UInt8 64 // ((leNat v.toList : Nat) : F) = c} ≤ B)
    (cd : Codec G) (w : F) (ro : Hash) (D : Finset (List Event)) : ∀ (q : Nat) (Ls Rs : List (List G))
    (log : Hash → List Event) (s : Hash → List G × G), Settled log log → Settled log s →
    (∀ ro, (s ro).1.length = 2 ^ q) → Ls.length = q → Rs.length = q →
    (∀ ro, ∀ j < q, log ro ++ lmpaLog ⟨cd, ro⟩ (Ls.take (j + 1)) (Rs.take (j + 1)) ∈ D) →
    countHashes ro D (fun ro => (s ro).2 ≠ w • (s ro).1.getD (2 ^ q - 1) 0 ∧
      w • foldedRow (lmpaChallenges F ⟨cd, ro⟩ (log ro) Ls Rs) (s ro).1 =
        foldedTarget (lmpaChallenges F ⟨cd, ro⟩ (log ro) Ls Rs) (column Ls 0) (column Rs 0) (s ro).2) * 2 ^ 512 ≤
      (2 * q * B) * (2 ^ 512) ^ D.card
  | 0, Ls, Rs, log, s, hl, hs, hrow, hL, hR, hD => by
    rw [count_none, Nat.zero_mul]
    · exact Nat.zero_le _
    rintro ro ⟨h1, h2⟩
    rw [List.length_eq_zero_iff] at hL hR
    subst hL hR
    have : lmpaChallenges F ⟨cd, ro⟩ (log ro) ([] : List (List G)) [] = [] := by simp [lmpaChallenges]
    rw [this] at h2
    apply h1
    simpa [foldedRow, foldedTarget, weightG] using h2.symm
  | q + 1, [], _, log, s, hl, hs, hrow, hL, hR, hD => by simp at hL
  | q + 1, _ :: _, [], log, s, hl, hs, hrow, hL, hR, hD => by simp at hR
  | q + 1, L :: Ls, R :: Rs, log, s, hl, hs, hrow, hL, hR, hD => by
    let suf : Hash → List Event := fun ro => lmpaRoundLog ⟨cd, ro⟩ (L, R)
    have hsuf : Settled log suf := Settled.const _ (lmpaRoundLog ⟨cd, ro⟩ (L, R))
    let log' : Hash → List Event := fun ro => log ro ++ suf ro
    have hl' : Settled log' log' := (hl.log_append hsuf).append
    let mk : List G × G → F → List G × G := fun z x =>
      (Lmpa.foldRow x z.1, L.getD 0 0 + x • z.2 + (x * x) • R.getD 0 0)
    let s' : Hash → List G × G := fun ro => mk (s ro) (squeeze F ro (log' ro))
    have hs' : Settled log' s' := (hs.append.pair hl'.challenge).comp fun z => mk z.1 z.2
    have h2q : 2 ^ (q + 1) - 1 = 2 ^ q + (2 ^ q - 1) := by
      have := Nat.two_pow_pos q
      rw [pow_succ]; omega
    have c1 := count_next hB ro D hl hsuf (fun _ => by simp [suf, lmpaRoundLog])
      (fun ro => by simpa [suf, lmpaLog] using hD ro 0 (by omega))
      (fun ro x => (s ro).2 ≠ w • (s ro).1.getD (2 ^ (q + 1) - 1) 0 ∧ (mk (s ro) x).2 = w • (mk (s ro) x).1.getD (2 ^ q - 1) 0)
      (hs.comp fun z x => z.2 ≠ w • z.1.getD (2 ^ (q + 1) - 1) 0 ∧ (mk z x).2 = w • (mk z x).1.getD (2 ^ q - 1) 0) (k := 2)
      (fun ro => by
        by_cases h : (s ro).2 = w • (s ro).1.getD (2 ^ (q + 1) - 1) 0
        · exact ⟨∅, by simp, fun x hx => absurd h hx.1⟩
        · obtain ⟨S, h1, h2⟩ := quadratic_few (R.getD 0 0) (s ro).2 (L.getD 0 0) (w • (s ro).1.getD (2 ^ q - 1) 0)
            (w • (s ro).1.getD (2 ^ (q + 1) - 1) 0) (.inr h) (F := F)
          refine ⟨S, h1, fun x hx => h2 x ?_⟩
          have e := hx.2
          simp only [mk] at e
          rw [foldRow_entry x q _ _ (hrow ro) (by have := Nat.two_pow_pos q; omega), ← h2q] at e
          linear_combination (norm := module) e)
    have c2 := count_lmpa_rounds hB cd w ro D q Ls Rs log' s' hl' hs'
      (fun ro => by
        have := hrow ro
        rw [pow_succ] at this
        simp only [s', mk, Lmpa.foldRow, List.length_zipWith, List.length_take, List.length_drop]; omega)
      (by simpa using hL) (by simpa using hR)
      (fun ro j hj => by
        have := hD ro (j + 1) (by omega)
        simpa [log', suf, lmpaLog, List.append_assoc] using this)
    refine le_trans (Nat.mul_le_mul_right _ ((card_imp fun f hf => ?_).trans (count_or ro D
      (fun ro => (s ro).2 ≠ w • (s ro).1.getD (2 ^ (q + 1) - 1) 0 ∧ (s' ro).2 = w • (s' ro).1.getD (2 ^ q - 1) 0)
      (fun ro => (s' ro).2 ≠ w • (s' ro).1.getD (2 ^ q - 1) 0 ∧
        w • foldedRow (lmpaChallenges F ⟨cd, ro⟩ (log' ro) Ls Rs) (s' ro).1 =
          foldedTarget (lmpaChallenges F ⟨cd, ro⟩ (log' ro) Ls Rs) (column Ls 0) (column Rs 0) (s' ro).2)))) ?_
    · obtain ⟨h1, h2⟩ := hf
      by_cases h3 : (s' (patch ro D f)).2 = w • (s' (patch ro D f)).1.getD (2 ^ q - 1) 0
      · exact .inl ⟨h1, h3⟩
      · refine .inr ⟨h3, ?_⟩
        rw [Lmpa.lmpaChallenges_cons] at h2
        simp only [column, List.map_cons] at h2
        rw [Lmpa.foldedTarget_cons, ← Lmpa.foldedRow_fold] at h2
        · exact h2
        · rw [Lmpa.lmpaChallenges_length, hrow]
          simp only [List.length_cons] at hL hR
          congr 1; omega
    · rw [add_mul]
      refine (add_le_add c1 c2).trans (le_of_eq ?_)
      ring

/-- The histories out of which the verifier of the linear-map argument with `q` rounds squeezes the challenges. -/
def lmpaHistories (cd : Codec G) (log : List Event) (q : Nat) (p : Lmpa.NoZK F G) : List (List Event) :=
  (List.range q).map fun j => log ++ ((List.zip p.L_Vec p.R_Vec).take (j + 1)).flatMap fun LR =>
    (LR.1.map fun P => .msg "L" (cd.compress P)) ++ (LR.2.map fun P => .msg "R" (cd.compress P)) ++
      [.chal "challenge" 64]

theorem count_lmpa_fixed {q B fuel : Nat} (hf : q < fuel) (cd : Codec G) (A : List (List G)) (Gs : List G)
    (hA : Width (2 ^ q) A) (hG : Gs.length = 2 ^ q) (p : Lmpa.NoZK F G)
    (hB : ∀ c : F, Nat.card {v : Vector UInt8 64 // ((leNat v.toList : Nat) : F) = c} ≤ B)
    (log : Hash → List Event) (t : Hash → List G) (hl : Settled log log) (ht : Settled log t) (ro : Hash)
    (D : Finset (List Event)) (hD : ∀ ro, ∀ l ∈ lmpaHistories cd (log ro) q p, l ∈ D) :
    countHashes ro D (fun ro => (t ro).headD 0 ≠ p.w • (A.headD []).getD (2 ^ q - 1) 0 ∧
      ∃ tr', p.verify ⟨cd, ro⟩ fuel ⟨log ro⟩ A Gs (2 ^ q) (t ro) = .ok (true, tr')) * 2 ^ 512 ≤
      (2 * q * B) * (2 ^ 512) ^ D.card := by
  by_cases hc : q ≤ p.L_Vec.length ∧ q ≤ p.R_Vec.length ∧ A ≠ []
  swap
  · rw [count_none, Nat.zero_mul]
    · exact Nat.zero_le _
    · rintro ro ⟨-, tr', h⟩
      rw [Lmpa.verify_eq _ p q fuel _ A Gs _ hf hG hA, if_neg (by tauto)] at h
      cases h
  have hrow : (A.headD []).length = 2 ^ q := by
    cases A with
    | nil => exact absurd rfl hc.2.2
    | cons r A => exact hA r List.mem_cons_self
  refine le_trans (Nat.mul_le_mul_right _ (card_imp fun f hf' => ?_))
    (count_lmpa_rounds hB cd p.w ro D q (p.L_Vec.take q) (p.R_Vec.take q) log (fun ro => (A.headD [], (t ro).headD 0)) hl
      (ht.comp fun t => (A.headD [], t.headD 0)) (fun _ => hrow) (by simp; omega) (by simp; omega) fun ro j hj => by
      refine hD ro _ (List.mem_map.2 ⟨j, by simpa using hj, ?_⟩)
      rw [lmpaLog, List.take_take, List.take_take, show min (j + 1) q = j + 1 by omega]
      rw [show ∀ (X Y : List (List G)) n, List.zip (X.take n) (Y.take n) = (List.zip X Y).take n from
        fun X Y n => List.take_zipWith.symm]
      rfl)
  obtain ⟨h1, tr', h2⟩ := hf'
  refine ⟨h1, ?_⟩
  rw [Lmpa.verify_eq _ p q fuel _ A Gs _ hf hG hA] at h2
  dsimp only at h2
  split at h2
  · simp only [Except.ok.injEq, Prod.mk.injEq, decide_eq_true_eq] at h2
    exact h2.1
  · cases h2

/-- C104: the same for the linear-map argument. The exception is the target whose first entry is the scalar of the
proof times the last entry of the first row. -/
theorem C104_lmpa_fixed {q B fuel : Nat} (hf : q < fuel) (cd : Codec G) (A : List (List G)) (Gs t : List G)
    (hA : Width (2 ^ q) A) (hG : Gs.length = 2 ^ q) (p : Lmpa.NoZK F G)
    (hp : t.headD 0 ≠ p.w • (A.headD []).getD (2 ^ q - 1) 0)
    (hB : ∀ c : F, Nat.card {v : Vector UInt8 64 // ((leNat v.toList : Nat) : F) = c} ≤ B)
    (log : List Event) (ro : Hash) (D : Finset (List Event)) (hD : ∀ l ∈ lmpaHistories cd log q p, l ∈ D) :
    chance ro D (fun ro => ∃ tr', p.verify ⟨cd, ro⟩ fuel ⟨log⟩ A Gs (2 ^ q) t = .ok (true, tr')) ≤
      (2 * q * B : Nat) / 2 ^ 512 := by
  apply chance_le
  refine le_trans (Nat.mul_le_mul_right _ (card_imp fun f hf => ?_))
    (count_lmpa_fixed hf cd A Gs hA hG p hB (fun _ => log) (fun _ => t) (Settled.const _ _) (Settled.const _ _) ro D
      fun _ => hD)
  exact ⟨hp, hf⟩

/-- C104: the same for SimpleZK, if the first entry of the target is not zero. -/
theorem C104_simple_fixed {q B fuel : Nat} (hf : q < fuel) (cd : Codec G) (A : List (List G)) (Gs t : List G)
    (hA : Width (2 ^ q) A) (hG : Gs.length = 2 ^ q) (p : Lmpa.SimpleZK F G) (hp : t.headD 0 ≠ 0)
    (hB : ∀ c : F, Nat.card {v : Vector UInt8 64 // ((leNat v.toList : Nat) : F) = c} ≤ B)
    (log : List Event) (ro : Hash) (D : Finset (List Event))
    (h0 : log ++ (p.a.map fun P => .msg "a" (cd.compress P)) ++ [.chal "beta" 64] ∈ D)
    (hD : ∀ l ∈ lmpaHistories cd (log ++ (p.a.map fun P => .msg "a" (cd.compress P)) ++ [.chal "beta" 64]) q p.no_zk,
      l ∈ D) :
    chance ro D (fun ro => ∃ tr', p.verify ⟨cd, ro⟩ fuel ⟨log⟩ A Gs (2 ^ q) t = .ok (true, tr')) ≤
      (2 * (q + 1) * B : Nat) / 2 ^ 512 := by
  apply chance_le
  let suf : Hash → List Event := fun _ => (p.a.map fun P => .msg "a" (cd.compress P)) ++ [.chal "beta" 64]
  let log1 : Hash → List Event := fun _ => log ++ (p.a.map fun P => .msg "a" (cd.compress P)) ++ [.chal "beta" 64]
  have hl1 : Settled log1 log1 := Settled.const _ _
  let mk : F → List G := fun β => List.zipWith (fun t a => β • t + a) t p.a
  have hβ := hl1.challenge (F := F)
  have c2 := count_lmpa_fixed hf cd A Gs hA hG p.no_zk hB log1 (fun ro => mk (squeeze F ro (log1 ro))) hl1 (hβ.comp mk) ro D
    fun _ => hD
  have c1 := count_next hB ro D (Settled.const (fun _ => log) log) (Settled.const _ (suf ro)) (fun _ => by simp [suf])
    (fun _ => by simpa [suf] using h0) (fun _ β => (mk β).headD 0 = p.no_zk.w • (A.headD []).getD (2 ^ q - 1) 0 ∧ p.a ≠ [])
    (Settled.const _ _) (k := 2) (fun _ => by
      obtain ⟨S, h1, h2⟩ := quadratic_few 0 (t.headD 0) (p.a.headD 0) (p.no_zk.w • (A.headD []).getD (2 ^ q - 1) 0) 0
        (.inr hp) (F := F)
      refine ⟨S, h1, fun β hβ => h2 β ?_⟩
      obtain ⟨e, hne⟩ := hβ
      cases t with
      | nil => exact absurd rfl hp
      | cons t0 t =>
        cases ha : p.a with
        | nil => exact absurd ha hne
        | cons a0 a =>
          simp only [mk, ha, List.zipWith_cons_cons, List.headD_cons] at e ⊢
          rw [← e]
          module)
  refine le_trans (Nat.mul_le_mul_right _ ((card_imp fun f hf => ?_).trans (count_or ro D
    (fun ro => (mk (squeeze F ro (log ++ suf ro))).headD 0 = p.no_zk.w • (A.headD []).getD (2 ^ q - 1) 0 ∧ p.a ≠ [])
    (fun ro => (mk (squeeze F ro (log1 ro))).headD 0 ≠ p.no_zk.w • (A.headD []).getD (2 ^ q - 1) 0 ∧
      ∃ tr', p.no_zk.verify ⟨cd, ro⟩ fuel ⟨log1 ro⟩ A Gs (2 ^ q) (mk (squeeze F ro (log1 ro))) = .ok (true, tr'))))) ?_
  · obtain ⟨tr', h⟩ := hf
    have hlog : log ++ suf (patch ro D f) = log1 (patch ro D f) := by simp [suf, log1]
    by_cases h3 : (mk (squeeze F (patch ro D f) (log1 (patch ro D f)))).headD 0 =
        p.no_zk.w • (A.headD []).getD (2 ^ q - 1) 0
    · refine .inl ⟨by rw [hlog]; exact h3, fun ha => ?_⟩
      have := (C84_simple_verify_returns_iff ⟨cd, patch ro D f⟩ p ⟨log⟩ A Gs (2 ^ q) t).1 ⟨fuel, _, h⟩
      exact this.2.2.2.2.1 ha
    · refine .inr ⟨h3, tr', ?_⟩
      rw [simple_verify_eq] at h
      exact h
  · rw [add_mul]
    refine (add_le_add c1 c2).trans (le_of_eq ?_)
    ring

/-! ### Honest proofs on another transcript -/

/-- Answers to questions that a prover does not ask do not change what it does. -/
theorem agree_patch {tr tr' : Transcript} (ro : Hash) {D : Finset (List Event)} (hD : ∀ l ∈ D, l ∉ questions tr tr')
    (f : D → Vector UInt8 64) : Agree tr.log tr'.log ro (patch ro D f) := by
  intro l s h1 h2
  unfold patch
  rw [dif_neg]
  intro hl
  exact hD _ hl ⟨h2, by have := h1.length_le; simp; omega, l, s, rfl⟩

/-- On another transcript, or at the end of the own one, a verifier asks no question of the prover. -/
theorem not_questions {tr tr' tr₂ : Transcript} (h : tr₂.log <+: tr'.log → tr₂ = tr') {l : List Event}
    (h2 : tr₂.log <+: l) (h3 : l ≠ tr₂.log) : l ∉ questions tr tr' := by
  rintro ⟨h4, -, -⟩
  obtain rfl := h (h2.trans h4)
  exact h3 (h4.eq_of_length_le h2.length_le)

/-- Nor does it before the point where the prover started, if the prover's transcript has another message there: for
example if two proofs of one transcript are checked in the wrong order. -/
theorem not_questions_before {tr tr' tr₂ : Transcript} {e e' : Event} {rest l : List Event} (he : e ≠ e')
    (h : tr₂.log ++ [e] <+: tr'.log) (h2 : l = tr₂.log ++ e' :: rest) : l ∉ questions tr tr' := by
  rintro ⟨h4, -, -⟩
  obtain ⟨a, ha⟩ := h
  obtain ⟨b, hb⟩ := h4
  rw [← ha, h2, List.append_assoc, List.append_assoc, List.append_cancel_left_eq] at hb
  simp only [List.cons_append, List.nil_append, List.cons.injEq] at hb
  exact he hb.1.symm

theorem replay_chance {α : Type} {tr tr' : Transcript} {ro : Hash} {D : Finset (List Event)}
    (hD : ∀ l ∈ D, l ∉ questions tr tr') (create : Hash → R α) (r : α)
    (hc : ∀ ro', Agree tr.log tr'.log ro ro' → create ro' = .ok r) (acc : α → Hash → Prop) :
    chance ro D (fun ro => ∃ r', create ro = .ok r' ∧ acc r' ro) ≤ chance ro D (acc r) := by
  unfold chance countHashes
  refine div_le_div_of_nonneg_right ?_ (by positivity)
  refine Nat.cast_le.2 (card_imp fun f hf => ?_)
  obtain ⟨r', h1, h2⟩ := hf
  rw [hc _ (agree_patch ro hD f)] at h1
  cases h1
  exact h2

/-- C104: a proof that `alm_zk::create` makes on one transcript is rejected on another transcript. -/
theorem C104_alm_replay {q B : Nat} (cd : Codec G) (Gs Hs : List G) (Q C_w : G) (t : F) (hG : Gs.length = 2 ^ q)
    (hH : Hs.length = 2 ^ q) (hp : C_w ≠ 0 ∨ t • Q ≠ 0)
    (hB : ∀ c : F, Nat.card {v : Vector UInt8 64 // ((leNat v.toList : Nat) : F) = c} ≤ B)
    (Gs₁ Hs₁ : List G) (Q₁ C₁ : G) (a b : List F) (t₁ : F) (tr tr' : Transcript) (tape tape' : Tape F) (p : AlmZK F)
    (ro : Hash) (hc : createAlm ⟨cd, ro⟩ tr tape Gs₁ Hs₁ Q₁ C₁ a b t₁ = .ok (p, tr', tape'))
    (tr₂ : Transcript) (D : Finset (List Event)) (hD' : ∀ l ∈ D, l ∉ questions tr tr') (hD : ∀ ro, ∀ l ∈ almHistories cd ro tr₂.log (2 ^ q) Q C_w t p, l ∈ D) :
    chance ro D (fun ro => ∃ r, createAlm ⟨cd, ro⟩ tr tape Gs₁ Hs₁ Q₁ C₁ a b t₁ = .ok r ∧
      ∃ tr'', r.1.verify ⟨cd, ro⟩ tr₂ Gs Hs Q (2 ^ q) C_w t = .ok (true, tr'')) ≤ (2 * (q + 2) * B : Nat) / 2 ^ 512 :=
  (replay_chance hD' (fun ro => createAlm ⟨cd, ro⟩ tr tape Gs₁ Hs₁ Q₁ C₁ a b t₁) _
    (C105_alm_create _ _ _ _ _ _ _ _ _ _ _ _ _ _ hc).2
    fun r ro => ∃ tr'', r.1.verify ⟨cd, ro⟩ tr₂ Gs Hs Q (2 ^ q) C_w t = .ok (true, tr'')).trans
    (C104_alm_fixed cd Gs Hs Q C_w t hG hH p hp hB tr₂.log ro D hD)

/-- C104: the same for `qesa_zk`. -/
theorem C104_qesa_replay {m k q B : Nat} (hq : m + 2 = 2 ^ q) (cd : Codec G) (Gs Hs : List G)
    (hG : Gs.length = m + 2) (hH : Hs.length = m + 2) (Q : G)
    (hGH : ¬ (Hs.getD m 0 = Gs.getD (m + 1) 0 ∧ Hs.getD (m + 1) 0 = - Gs.getD m 0))
    (hB : ∀ c : F, Nat.card {v : Vector UInt8 64 // ((leNat v.toList : Nat) : F) = c} ≤ B)
    (Ms : Fin (k + 1) → Matrix (Fin m) (Fin m) F) (Gs₁ Hs₁ : List G) (Q₁ : G) (block : BlockMatrix F) (w : List F)
    (tr tr' : Transcript) (tape tape' : Tape F) (p : Zk.Proof F) (ro : Hash)
    (hc : Zk.create ⟨cd, ro⟩ tr tape Gs₁ Hs₁ Q₁ block w = .ok (p, tr', tape'))
    (tr₂ : Transcript) (D : Finset (List Event)) (hD' : ∀ l ∈ D, l ∉ questions tr tr')
    (hD : ∀ ro, ∀ l ∈ qesaHistories cd ro tr₂.log Gs Hs Q Ms p.inner, l ∈ D) :
    chance ro D (fun ro => ∃ r, Zk.create ⟨cd, ro⟩ tr tape Gs₁ Hs₁ Q₁ block w = .ok r ∧
      ∃ tr'', r.1.verify ⟨cd, ro⟩ tr₂ Gs Hs Q ⟨List.ofFn fun i => rows (Ms i)⟩ = .ok (true, tr'')) ≤
      (2 * (q + 3) * B : Nat) / 2 ^ 512 :=
  (replay_chance hD' (fun ro => Zk.create ⟨cd, ro⟩ tr tape Gs₁ Hs₁ Q₁ block w) _
    (C105_qesa_create _ _ _ _ _ _ _ _ _ _ _ _ hc).2
    fun r ro => ∃ tr'', r.1.verify ⟨cd, ro⟩ tr₂ Gs Hs Q ⟨List.ofFn fun i => rows (Ms i)⟩ = .ok (true, tr'')).trans
    (C104_qesa_fixed hq cd Gs Hs hG hH Q hGH hB Ms tr₂.log p.inner ro D hD)

/-- C104: the same for Copy. -/
theorem C104_copy_replay {m q B ws : Nat} (hq : m + 3 = 2 ^ q) (cd : Codec G) (Gs Hs : List G)
    (hG : Gs.length = m + 3) (hH : Hs.length = m + 3) (Q : G)
    (hGH : ¬ (Hs.getD (m + 1) 0 = Gs.getD (m + 2) 0 ∧ Hs.getD (m + 2) 0 = - Gs.getD (m + 1) 0))
    (hB : ∀ c : F, Nat.card {v : Vector UInt8 64 // ((leNat v.toList : Nat) : F) = c} ≤ B)
    (Us : List (Matrix (Fin (m + 1)) (Fin (m + 1)) F)) (sets : List (List Nat)) (map : Copy.Mapping) (Cs : List G)
    (hn : m + 3 < 65536) (hws : ws < 65536) (hs : sets.length ≤ 65536)
    (hmap : computeMapping (m + 3) ws sets = .ok map) (hi : ∀ s ∈ sets, ∀ i ∈ s, i < m + 1)
    (hC : Cs.length = sets.length) (Gs₁ Hs₁ : List G) (Q₁ : G) (map₁ : Copy.Mapping) (block : BlockMatrix F) (w : List F)
    (openings : List (List F × F)) (tr tr' : Transcript) (tape tape' : Tape F) (p : Copy.Proof F) (ro : Hash)
    (hc : Copy.create ⟨cd, ro⟩ tr tape Gs₁ Hs₁ Q₁ map₁ block w openings = .ok (p, tr', tape'))
    (tr₂ : Transcript) (D : Finset (List Event)) (hD' : ∀ l ∈ D, l ∉ questions tr tr')
    (hD : ∀ ro, ∀ l ∈ copyHistories cd ro tr₂.log Gs Hs Q Us map Cs p, l ∈ D) :
    chance ro D (fun ro => ∃ r, Copy.create ⟨cd, ro⟩ tr tape Gs₁ Hs₁ Q₁ map₁ block w openings = .ok r ∧
      ∃ tr'', r.1.verify ⟨cd, ro⟩ tr₂ Gs Hs Q ⟨Us.map rows⟩ map Cs = .ok (true, tr'')) ≤
      (2 * (q + 3) * B : Nat) / 2 ^ 512 :=
  (replay_chance hD'
    (fun ro => Copy.create ⟨cd, ro⟩ tr tape Gs₁ Hs₁ Q₁ map₁ block w openings) _
    (C105_copy_create _ _ _ _ _ _ _ _ _ _ _ _ _ _ hc).2
    fun r ro => ∃ tr'', r.1.verify ⟨cd, ro⟩ tr₂ Gs Hs Q ⟨Us.map rows⟩ map Cs = .ok (true, tr'')).trans
    (C104_copy_fixed hq cd Gs Hs hG hH Q hGH hB Us sets map Cs hn hws hs hmap hi hC tr₂.log p ro D hD)

/-- C104: the same for SimpleZK. -/
theorem C104_simple_replay {q B fuel : Nat} (hf : q < fuel) (cd : Codec G) (A : List (List G)) (Gs t : List G)
    (hA : Width (2 ^ q) A) (hG : Gs.length = 2 ^ q) (hp : t.headD 0 ≠ 0)
    (hB : ∀ c : F, Nat.card {v : Vector UInt8 64 // ((leNat v.toList : Nat) : F) = c} ≤ B)
    (A₁ : List (List G)) (Gs₁ : List G) (w : List F) (tr tr' : Transcript) (tape tape' : Tape F)
    (p : Lmpa.SimpleZK F G) (ro : Hash)
    (hc : Lmpa.createSimple ⟨cd, ro⟩ fuel tr tape A₁ Gs₁ w = .ok (p, tr', tape'))
    (tr₂ : Transcript) (D : Finset (List Event)) (hD' : ∀ l ∈ D, l ∉ questions tr tr')
    (h0 : tr₂.log ++ (p.a.map fun P => .msg "a" (cd.compress P)) ++ [.chal "beta" 64] ∈ D)
    (hD : ∀ l ∈ lmpaHistories cd (tr₂.log ++ (p.a.map fun P => .msg "a" (cd.compress P)) ++ [.chal "beta" 64]) q p.no_zk,
      l ∈ D) :
    chance ro D (fun ro => ∃ r, Lmpa.createSimple ⟨cd, ro⟩ fuel tr tape A₁ Gs₁ w = .ok r ∧
      ∃ tr'', r.1.verify ⟨cd, ro⟩ fuel tr₂ A Gs (2 ^ q) t = .ok (true, tr'')) ≤ (2 * (q + 1) * B : Nat) / 2 ^ 512 :=
  (replay_chance hD' (fun ro => Lmpa.createSimple ⟨cd, ro⟩ fuel tr tape A₁ Gs₁ w) _
    (C105_simple_create _ _ _ _ _ _ _ _ _ _ _ hc).2
    fun r ro => ∃ tr'', r.1.verify ⟨cd, ro⟩ fuel tr₂ A Gs (2 ^ q) t = .ok (true, tr'')).trans
    (C104_simple_fixed hf cd A Gs t hA hG p hp hB tr₂.log ro D h0 hD)

section
open Toy

/-- Honest proofs are accepted on the transcript on which they were made, and rejected on another one and at the end of
their own one. -/
example : (match createAlm cx ⟨[]⟩ exTape [3, 5, 8, 13] [21, 34, 55, 89] 7
      (dot [1, 2, 3, 4] [3, 5, 8, 13] + dot [5, 6, 7, 9] [21, 34, 55, (89 : K)] : K)
      [1, 2, 3, 4] [5, 6, 7, 9] (dot [1, 2, 3, 4] [5, 6, 7, (9 : K)]) with
    | .ok (p, tr', _) => [⟨[]⟩, ⟨[.msg "session" [2]]⟩, tr'].map fun tr =>
        (p.verify cx tr [3, 5, 8, 13] [21, 34, 55, 89] 7 4
          (dot [1, 2, 3, 4] [3, 5, 8, 13] + dot [5, 6, 7, 9] [21, 34, 55, (89 : K)] : K)
          (dot [1, 2, 3, 4] [5, 6, 7, (9 : K)])).toOption.map Prod.fst
    | .error _ => []) = [some true, some false, some false] ∧
    (match Lmpa.createSimple cx 5 ⟨[]⟩ exTape exA exGs [(2 : K), 7, 1, 8] with
    | .ok (p, tr', _) => [⟨[]⟩, ⟨[.msg "session" [2]]⟩, tr'].map fun tr =>
        (p.verify cx 5 tr exA exGs 4 [52, 39]).toOption.map Prod.fst
    | .error _ => []) = [some true, some false, some false] := by
  decide +kernel

/-- The exceptions are real: these proofs are accepted on every transcript. -/
example : let tr₂ : Transcript := ⟨[.msg "session" [2]]⟩
    (∀ tr ∈ [⟨[]⟩, tr₂], (((⟨[codec.compress 0], [codec.compress (6 * 3)], 6, 0⟩ : NoZK K).verify cx tr [3, 5] [21, 34] 7 2
      (6 * 5 : K) 0).map Prod.fst) = .ok true) ∧
    (∀ tr ∈ [⟨[]⟩, tr₂], (((⟨codec.compress 0, ⟨[codec.compress 0], [codec.compress 0], 0, 0⟩⟩ : AlmZK K).verify cx tr
      [3, 5] [21, 34] 7 2 (0 : K) 0).map Prod.fst) = .ok true) ∧
    (∀ tr ∈ [⟨[]⟩, tr₂], (((⟨[[6 * 3]], [[0]], 6⟩ : Lmpa.NoZK K K).verify cx 3 tr [[3, 5]] [0, 0] 2
      [(6 * 5 : K)]).map Prod.fst) = .ok true) := by
  decide +kernel

/-- The first is the exception that the theorem names; with another product, commitment or claimed product it is not. -/
example : Movable 1 [(3 : K), 5] [21, 34] 7 (6 * 5) (0 : K) ⟨[codec.compress 0], [codec.compress 0], 6, 0⟩ ∧
    ¬ Movable 1 [(3 : K), 5] [21, 34] 7 (6 * 5 + 4 * 21) (0 : K) ⟨[codec.compress 0], [codec.compress 0], 6, 4⟩ ∧
    ¬ Movable 1 [(3 : K), 5] [21, 34] 7 (6 * 5) (1 : K) ⟨[codec.compress 0], [codec.compress 0], 6, 0⟩ ∧
    ¬ Movable 1 [(3 : K), 5] [21, 34] 7 (6 * 3) (0 : K) ⟨[codec.compress 0], [codec.compress 0], 6, 0⟩ := by
  unfold Movable
  decide +kernel

/-- A fixed proof about a commitment that is not the identity, with 101 scalars and four generators. -/
example (p : AlmZK K) (log : List Event) (ro : Hash) (D : Finset (List Event))
    (hD : ∀ ro, ∀ l ∈ almHistories codec ro log (2 ^ 2) 7 3 (9 : K) p, l ∈ D) :
    chance ro D (fun ro => ∃ tr', p.verify ⟨codec, ro⟩ ⟨log⟩ [3, 5, 8, 13] [21, 34, 55, 89] 7 (2 ^ 2) 3 9 =
      .ok (true, tr')) ≤ 8 * (1 / 101 + 1 / 2 ^ 512) := by
  refine (C104_alm_fixed (q := 2) codec _ _ _ _ _ rfl rfl p (by decide) (C67_scalars 101) log ro D hD).trans ?_
  exact C67_bound 8 101
end

end Qesa.Props
