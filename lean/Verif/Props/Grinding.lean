import Verif.Props.Extract
import Verif.Props.Knowledge
import Verif.Props.Ristretto
/-
C100: provers that try many messages until the hash function gives the challenge they need. The soundness error
grows with the number of hash queries at least as stated.
-/
namespace Qesa.Props
open Qesa Spec
variable {F G : Type} [Field F] [AddCommGroup G] [Module F G]

/-! ### Probabilities -/

theorem chance_not (ro : Hash) (D : Finset (List Event)) (A : Hash → Prop) :
    chance ro D A = 1 - chance ro D fun ro => ¬ A ro := by
  classical
  rw [eq_sub_iff_add_eq, chance_eq_mean, chance_eq_mean, ← mean_add]
  refine Eq.trans (congrArg _ ?_) (mean_const ro D 1)
  funext h
  by_cases hA : A h <;> simp [hA]

/-- A bound for each answer to one question is a bound. -/
theorem chance_cond (ro : Hash) {D : Finset (List Event)} {l : List Event} (hl : l ∈ D) (A : Hash → Prop) (K : ℚ)
    (h : ∀ v, chance ro D (fun ro => A (Function.update ro l v)) ≤ K) : chance ro D A ≤ K := by
  classical
  rw [chance_eq_mean, ← mean_resample ro D hl]
  have e : mean ro D (fun ro => average fun v => if A (Function.update ro l v) then (1 : ℚ) else 0) =
      average fun v => chance ro D fun ro => A (Function.update ro l v) := by
    simp only [chance_eq_mean]
    unfold average
    rw [← mean_sum, div_eq_inv_mul, ← mean_mul]
    refine congrArg _ (funext fun h => ?_)
    rw [div_eq_inv_mul]
  rw [e]
  unfold average
  rw [div_le_iff₀ (by positivity)]
  refine (Finset.sum_le_sum fun v _ => h v).trans ?_
  rw [Finset.sum_const, Finset.card_univ, card_bytes, nsmul_eq_mul, mul_comm]
  norm_cast

/-- Fixing one answer is the same as taking the other answers at random. -/
theorem chance_update (ro : Hash) {D : Finset (List Event)} {l : List Event} (hl : l ∈ D) (v : Vector UInt8 64)
    (A : Hash → Prop) : chance ro D (fun ro => A (Function.update ro l v)) =
      chance (Function.update ro l v) (D.erase l) A := by
  classical
  let e : (D → Vector UInt8 64) ≃ (D.erase l → Vector UInt8 64) × Vector UInt8 64 :=
    { toFun := fun f => (fun x => f ⟨x, Finset.mem_of_mem_erase x.2⟩, f ⟨l, hl⟩)
      invFun := fun g x => if h : x.1 = l then g.2 else g.1 ⟨x, Finset.mem_erase.2 ⟨h, x.2⟩⟩
      left_inv := fun f => funext fun x => by
        by_cases h : x.1 = l
        · have : x = ⟨l, hl⟩ := Subtype.ext h
          subst this
          simp
        · simp [h]
      right_inv := fun g => by
        refine Prod.ext (funext fun x => ?_) ?_
        · simp [Finset.ne_of_mem_erase x.2]
        · simp }
  have hp : ∀ f, Function.update (patch ro D f) l v = patch (Function.update ro l v) (D.erase l) (e f).1 := by
    intro f
    funext x
    by_cases h : x = l
    · subst h
      simp [patch]
    · rw [Function.update_of_ne h]
      unfold patch
      by_cases hx : x ∈ D
      · rw [dif_pos hx, dif_pos (Finset.mem_erase.2 ⟨h, hx⟩)]
        rfl
      · rw [dif_neg hx, dif_neg (fun h => hx (Finset.mem_of_mem_erase h)), Function.update_of_ne h]
  unfold chance countHashes
  rw [Nat.card_congr ((Equiv.subtypeEquiv e fun f => by dsimp only; rw [hp]).trans
    (Equiv.prodSubtypeFstEquivSubtypeProd (p := fun g => A (patch (Function.update ro l v) (D.erase l) g)))),
    Nat.card_prod, Nat.card_eq_fintype_card (α := Vector UInt8 64), card_bytes,
    ← Finset.card_erase_add_one hl, pow_succ _ (D.erase l).card, Nat.cast_mul, Nat.cast_pow (2 : ℕ) 512, Nat.cast_ofNat,
    mul_div_mul_right _ _ (by positivity)]

/-- A prover that asks one question first. -/
theorem ask_chance {α : Type} {l : List Event} (B : Vector UInt8 64 → Algo Event α) (good : Hash → α → Prop) (K : ℚ)
    (ro : Hash) {D : Finset (List Event)} (hl : l ∈ D)
    (h : ∀ v, K ≤ chance (Function.update ro l v) (D.erase l)
      (fun ro => ro l = v → good ro ((B v).run id ro))) :
    K ≤ chance ro D fun ro => good ro ((Algo.ask l B).run id ro) := by
  rw [chance_not]
  refine le_sub_comm.1 (chance_cond ro hl _ _ fun v => ?_)
  have hv := h v
  rw [← chance_update ro hl v, chance_not] at hv
  refine (chance_mono (B := fun ro => ¬ (Function.update ro l v l = v →
    good (Function.update ro l v) ((B v).run id (Function.update ro l v)))) fun ro hn hh => hn ?_).trans (le_sub_comm.1 hv)
  rw [Algo.run, List.map_id, Function.update_self]
  exact hh (Function.update_self _ _ _)

/-- None of the answers is good. -/
def Misses (cs : List (List Event × (Vector UInt8 64 → Prop))) (ro : Hash) : Prop := ∀ c ∈ cs, ¬ c.2 (ro c.1)

/-- Different questions are answered independently: the chance that none of the answers is good. -/
theorem chance_miss (ro : Hash) (D : Finset (List Event)) (m : Nat) :
    ∀ cs : List (List Event × (Vector UInt8 64 → Prop)), (∀ c ∈ cs, c.1 ∈ D) → (cs.map Prod.fst).Nodup →
      (∀ c ∈ cs, m ≤ Nat.card {v // c.2 v}) →
      chance ro D (Misses cs) ≤ (1 - m / 2 ^ 512) ^ cs.length
  | [], _, _, _ => by
    classical
    rw [chance_eq_mean]
    simp [Misses, mean_const]
  | c :: cs, hD, hn, hm => by
    classical
    have ih := chance_miss ro D m cs (fun c h => hD c (List.mem_cons_of_mem _ h))
      (List.Nodup.of_cons hn) fun c h => hm c (List.mem_cons_of_mem _ h)
    have hc : c.1 ∉ cs.map Prod.fst := (List.nodup_cons.1 hn).1
    rw [chance_eq_mean] at ih ⊢
    rw [← mean_resample ro D (hD c List.mem_cons_self)]
    set k := Nat.card {v // c.2 v} with hk
    have e : ∀ h : Hash, (average fun v => if Misses (c :: cs) (Function.update h c.1 v) then (1 : ℚ) else 0) =
        (1 - k / 2 ^ 512) * if Misses cs h then 1 else 0 := by
      intro h
      have e1 : ∀ v, (if Misses (c :: cs) (Function.update h c.1 v) then (1 : ℚ) else 0) =
          (1 - if c.2 v then 1 else 0) * if Misses cs h then 1 else 0 := by
        intro v
        have e2 : Misses (c :: cs) (Function.update h c.1 v) ↔
            ¬ c.2 v ∧ Misses cs h := by
          unfold Misses
          rw [List.forall_mem_cons, Function.update_self]
          refine and_congr_right fun _ => forall₂_congr fun c' hc' => ?_
          rw [Function.update_of_ne]
          rintro e
          exact hc (e ▸ List.mem_map_of_mem hc')
        rw [if_congr e2 rfl rfl]
        by_cases h1 : c.2 v
        · rw [if_neg (fun h => h.1 h1), if_pos h1, sub_self, zero_mul]
        · rw [if_neg h1, sub_zero, one_mul, if_congr (and_iff_right h1) rfl rfl]
      unfold average
      rw [Finset.sum_congr rfl fun v _ => e1 v, ← Finset.sum_mul, Finset.sum_sub_distrib, Finset.sum_const,
        Finset.card_univ, card_bytes, Finset.sum_ite, Finset.sum_const_zero, add_zero, Finset.sum_const, nsmul_eq_mul,
        nsmul_eq_mul, mul_one, mul_one, ← Fintype.card_subtype, ← Nat.card_eq_fintype_card, ← hk]
      rw [mul_div_right_comm, sub_div, Nat.cast_pow, Nat.cast_ofNat, div_self (by positivity)]
    simp only [e]
    rw [mean_mul, List.length_cons, pow_succ' _ cs.length]
    have hk1 : (k : ℚ) ≤ 2 ^ 512 := by
      have : k ≤ 2 ^ 512 := by
        rw [hk, Nat.card_eq_fintype_card, ← card_bytes]
        exact Fintype.card_subtype_le _
      exact_mod_cast this
    have hkm : (m : ℚ) ≤ k := by exact_mod_cast hm c List.mem_cons_self
    have d1 : (m : ℚ) / 2 ^ 512 ≤ k / 2 ^ 512 := div_le_div_of_nonneg_right hkm (by positivity)
    have d2 : (k : ℚ) / 2 ^ 512 ≤ 1 := by rw [div_le_one (by positivity)]; exact hk1
    have d3 : 0 ≤ mean ro D fun ro => if Misses cs ro then (1 : ℚ) else 0 :=
      mean_nonneg ro D fun _ => by split <;> norm_num
    exact mul_le_mul (sub_le_sub_left d1 1) ih d3 (sub_nonneg.2 (d1.trans d2))

/-! ### Trying one message after the other -/

/-- Asks the questions of the list until an answer is good for a proof; `p` is the proof if none is. -/
def firstHit {α : Type} (p : α) : List (List Event × (Vector UInt8 64 → Option α)) → Algo Event α
  | [] => .done p
  | (l, g) :: cs => .ask l fun v => match g v with
    | some a => .done a
    | none => firstHit p cs

theorem firstHit_atMost {α : Type} (p : α) : ∀ cs, (firstHit p cs).AtMost cs.length
  | [] => trivial
  | (l, g) :: cs => fun v => by
    dsimp only
    split
    · trivial
    · exact firstHit_atMost p cs

theorem firstHit_run {α : Type} (p : α) (ro : Hash) : ∀ cs : List (List Event × (Vector UInt8 64 → Option α)),
    (∃ c ∈ cs, c.2 (ro c.1) = some ((firstHit p cs).run id ro)) ∨
      ((∀ c ∈ cs, c.2 (ro c.1) = none) ∧ (firstHit p cs).run id ro = p)
  | [] => .inr ⟨by simp, rfl⟩
  | (l, g) :: cs => by
    simp only [firstHit, Algo.run, List.map_id]
    cases h : g (ro l) with
    | some a => exact .inl ⟨(l, g), List.mem_cons_self, by simpa [Algo.run] using h⟩
    | none =>
      rcases firstHit_run p ro cs with ⟨c, hc, e⟩ | ⟨h1, h2⟩
      · exact .inl ⟨c, List.mem_cons_of_mem _ hc, e⟩
      · refine .inr ⟨?_, h2⟩
        intro c hc
        rcases List.mem_cons.1 hc with rfl | hc
        · exact h
        · exact h1 c hc

/-- The chance of a prover that tries one message after the other. A candidate is a question and the set of good
answers; `hacc`: after a good answer the proof is accepted. -/
theorem firstHit_chance {α : Type} (p : α) (m : Nat) (ro : Hash) (D : Finset (List Event))
    (cs : List (List Event × (Vector UInt8 64 → Option α))) (hD : ∀ c ∈ cs, c.1 ∈ D)
    (hn : (cs.map Prod.fst).Nodup) (hm : ∀ c ∈ cs, m ≤ Nat.card {v // (c.2 v).isSome}) (A : Hash → Prop)
    (hacc : ∀ ro, ∀ c ∈ cs, c.2 (ro c.1) = some ((firstHit p cs).run id ro) → A ro) :
    1 - (1 - (m : ℚ) / 2 ^ 512) ^ cs.length ≤ chance ro D A := by
  rw [chance_not]
  refine sub_le_sub_left ?_ 1
  have := chance_miss ro D m (cs.map fun c => (c.1, fun v => ((c.2 v).isSome : Prop)))
    (List.forall_mem_map.2 fun c h => hD c h) (by simpa [List.map_map, Function.comp_def] using hn)
    (List.forall_mem_map.2 fun c h => hm c h)
  rw [List.length_map] at this
  refine (chance_mono fun ro h c hc hs => h ?_).trans this
  obtain ⟨c', hc', rfl⟩ := List.mem_map.1 hc
  rcases firstHit_run p ro cs with ⟨c, hc, e⟩ | ⟨h1, -⟩
  · exact hacc ro c hc e
  · simp [h1 c' hc'] at hs

/-! ### Linear maps -/

variable [DecidableEq G]

/-- The proof with one non-trivial message: the points `L` and `R` of the first round. -/
def oneMessage (q : Nat) (L R : G) : Lmpa.NoZK F G :=
  ⟨[L] :: List.replicate q [0], [R] :: List.replicate q [0], 0⟩

omit [DecidableEq G] in
theorem foldedTarget_zero (xs : List F) (q : Nat) :
    foldedTarget xs (List.replicate q (0 : G)) (List.replicate q 0) 0 = 0 := by
  unfold foldedTarget
  rw [smul_zero, zero_add]
  refine Finset.sum_eq_zero fun j _ => ?_
  have : (List.replicate q (0 : G)).getD j 0 = 0 := by
    rw [List.getD_eq_getElem?_getD, List.getElem?_replicate]
    split <;> rfl
  rw [this, smul_zero, add_zero, smul_zero]

theorem oneMessage_accepted {q fuel : Nat} (cx : Ctx G) (row Gs : List G) (hrow : row.length = 2 ^ (q + 1))
    (hG : Gs.length = 2 ^ (q + 1)) (t L R : G) (log : List Event) (hf : q + 1 < fuel)
    (h : let x : F := squeeze F cx.ro (log ++ lmpaRoundLog cx ([L], [R])); L + x • t + (x * x) • R = 0) :
    ∃ tr', (oneMessage q L R : Lmpa.NoZK F G).verify cx fuel ⟨log⟩ [row] Gs (2 ^ (q + 1)) [t] = .ok (true, tr') := by
  obtain ⟨b, tr', e1, e2⟩ := C43_lmpa_verify_one_row cx (q + 1) fuel ⟨log⟩ row Gs (L :: List.replicate q 0)
    (R :: List.replicate q 0) (0 : F) t hf hG hrow (by simp) (by simp)
  simp only [List.map_cons, List.map_replicate] at e1 e2
  rw [Lmpa.lmpaChallenges_cons] at e2
  refine ⟨tr', ?_⟩
  rw [oneMessage, e1, e2.2]
  rw [Conversation.accepts, Lmpa.foldedTarget_cons, h, foldedTarget_zero, zero_smul]

/-- Two different scalars are hit by twice as many byte strings. -/
theorem card_two [DecidableEq F] {b : Nat}
    (hb : ∀ c : F, b ≤ Nat.card {v : Vector UInt8 64 // ((leNat v.toList : Nat) : F) = c}) {x y : F} (h : x ≠ y) :
    2 * b ≤ Nat.card {v : Vector UInt8 64 // ((leNat v.toList : Nat) : F) = x ∨ ((leNat v.toList : Nat) : F) = y} := by
  have hx := hb x
  have hy := hb y
  rw [Nat.card_eq_fintype_card, Fintype.card_subtype] at *
  rw [Finset.filter_or, Finset.card_union_of_disjoint]
  · omega
  · rw [Finset.disjoint_left]
    intro v h1 h2
    exact h ((Finset.mem_filter.1 h1).2.symm.trans (Finset.mem_filter.1 h2).2)

/-- The bound of the theorems below is a probability. -/
theorem grindingBound_le_one [DecidableEq F] {b : Nat}
    (hb : ∀ c : F, b ≤ Nat.card {v : Vector UInt8 64 // ((leNat v.toList : Nat) : F) = c}) (T : Nat) :
    1 - (1 - ((2 * b : Nat) : ℚ) / 2 ^ 512) ^ T ≤ 1 := by
  have h : ((2 * b : Nat) : ℚ) ≤ 2 ^ 512 := by
    have h1 := card_two hb (zero_ne_one' F)
    rw [Nat.card_eq_fintype_card] at h1
    have h2 := h1.trans (Fintype.card_subtype_le _)
    rw [card_bytes] at h2
    exact_mod_cast h2
  rw [sub_le_self_iff]
  exact pow_nonneg (sub_nonneg.2 ((div_le_one (by positivity)).2 h)) T

theorem chance_true (ro : Hash) (D : Finset (List Event)) {A : Hash → Prop} (h : ∀ ro, A ro) : chance ro D A = 1 := by
  classical
  rw [chance_eq_mean]
  simp only [h, if_true]
  exact mean_const ro D 1

/-- Trying messages `u`, `v` until the challenge `x` after them satisfies `u + x Z + x² v = 0`. -/
theorem grind [DecidableEq F] {α : Type} {b N : Nat}
    (hb : ∀ c : F, b ≤ Nat.card {v : Vector UInt8 64 // ((leNat v.toList : Nat) : F) = c})
    (Z : G) (qst : G → G → List Event) (hq : ∀ u v u' v', qst u v = qst u' v' → v = v')
    (hN : ∀ u v, N < (qst u v).length) (mk : G → G → α) (good : Hash → α → Prop)
    (hacc : ∀ ro u v, u + squeeze F ro (qst u v) • Z + (squeeze F ro (qst u v) * squeeze F ro (qst u v)) • v = 0 →
      good ro (mk u v))
    (guesses : List (F × F)) (hne : ∀ g ∈ guesses, g.1 ≠ g.2 ∧ g.1 + g.2 ≠ 0)
    (hsum : (guesses.map fun g => g.1 + g.2).Nodup) :
    ∃ A : Algo Event α, A.AtMost guesses.length ∧ ∃ D0 : Finset (List Event), (∀ l ∈ D0, N < l.length) ∧
      ∀ D, D0 ⊆ D → ∀ ro, 1 - (1 - ((2 * b : Nat) : ℚ) / 2 ^ 512) ^ guesses.length ≤
        chance ro D fun ro => good ro (A.run id ro) := by
  classical
  by_cases hZ : Z = 0
  · refine ⟨.done (mk 0 0), trivial, ∅, by simp, fun D _ ro => ?_⟩
    exact (grindingBound_le_one hb _).trans (chance_true ro D fun ro => hacc ro 0 0 (by simp [hZ])).ge
  let L : F × F → G := fun g => -((g.1 + g.2)⁻¹ * (g.1 * g.2)) • Z
  let R : F × F → G := fun g => -(g.1 + g.2)⁻¹ • Z
  let hit : F × F → Vector UInt8 64 → Option α := fun g v =>
    if ((leNat v.toList : Nat) : F) = g.1 ∨ ((leNat v.toList : Nat) : F) = g.2 then some (mk (L g) (R g)) else none
  let cs := guesses.map fun g => (qst (L g) (R g), hit g)
  have len : cs.length = guesses.length := by simp [cs]
  refine ⟨firstHit (mk 0 0) cs, by rw [← len]; exact firstHit_atMost _ _, (cs.map Prod.fst).toFinset, ?_,
    fun D hD ro => ?_⟩
  · intro l hl
    simp only [cs, List.map_map, List.mem_toFinset, List.mem_map] at hl
    obtain ⟨g, -, rfl⟩ := hl
    exact hN _ _
  rw [← len]
  refine firstHit_chance (mk 0 0) (2 * b) ro D cs (fun c hc => hD ?_) ?_ ?_ _ ?_
  · exact List.mem_toFinset.2 (List.mem_map_of_mem hc)
  · rw [List.map_map]
    rw [List.Nodup, List.pairwise_map] at *
    refine hsum.imp fun hs e => hs ?_
    have e := hq _ _ _ _ e
    exact inv_injective (neg_injective (smul_left_injective F hZ e))
  · refine List.forall_mem_map.2 fun g hg => (card_two hb (hne g hg).1).trans (le_of_eq ?_)
    refine Nat.card_congr (Equiv.subtypeEquivRight fun v => ?_)
    dsimp only [hit]
    split <;> simp_all
  · intro ro
    refine List.forall_mem_map.2 fun g hg e => ?_
    dsimp only [hit] at e
    split at e
    case isFalse => cases e
    rename_i hx
    rw [← Option.some.inj e]
    refine hacc ro _ _ ?_
    change squeeze F ro _ = g.1 ∨ squeeze F ro _ = g.2 at hx
    set x := squeeze F ro (qst (L g) (R g))
    have h0 := (hne g hg).2
    have : -((g.1 + g.2)⁻¹ * (g.1 * g.2)) + x + x * x * -(g.1 + g.2)⁻¹ = 0 := by
      rcases hx with h | h <;> rw [h] <;> field_simp <;> ring
    rw [smul_smul, ← add_smul, ← add_smul, this, zero_smul]

omit [DecidableEq G] in
theorem lmpaRoundLog_inj (cx : Ctx G) {L R L' R' : G} (h : lmpaRoundLog cx ([L], [R]) = lmpaRoundLog cx ([L'], [R'])) :
    R = R' := by
  simp only [lmpaRoundLog, pointsLog, List.map_cons, List.map_nil, List.cons_append, List.nil_append,
    List.cons.injEq, Event.msg.injEq, and_true, true_and] at h
  exact compress_inj cx.toCodec h.2

/-- A hash function that is not used. -/
def noHash : Hash := fun _ => Vector.replicate 64 0

theorem grind_lmpa [DecidableEq F] {q b fuel : Nat} (cd : Codec G) (row Gs : List G)
    (hrow : row.length = 2 ^ (q + 1)) (hG : Gs.length = 2 ^ (q + 1)) (t : G) (log : List Event)
    (hf : q + 1 < fuel)
    (hb : ∀ c : F, b ≤ Nat.card {v : Vector UInt8 64 // ((leNat v.toList : Nat) : F) = c})
    (guesses : List (F × F)) (hne : ∀ g ∈ guesses, g.1 ≠ g.2 ∧ g.1 + g.2 ≠ 0)
    (hsum : (guesses.map fun g => g.1 + g.2).Nodup) :
    ∃ A : Algo Event (Lmpa.NoZK F G), A.AtMost guesses.length ∧ ∃ D0 : Finset (List Event),
      (∀ l ∈ D0, log.length < l.length) ∧ ∀ D, D0 ⊆ D → ∀ ro,
      1 - (1 - ((2 * b : Nat) : ℚ) / 2 ^ 512) ^ guesses.length ≤
        chance ro D fun ro => ∃ tr', (A.run id ro).verify ⟨cd, ro⟩ fuel ⟨log⟩ [row] Gs (2 ^ (q + 1)) [t] =
          .ok (true, tr') :=
  grind hb t (fun L R => log ++ lmpaRoundLog ⟨cd, noHash⟩ ([L], [R]))
    (fun _ _ _ _ h => lmpaRoundLog_inj _ (List.append_cancel_left h))
    (fun L R => by simp [lmpaRoundLog]) (oneMessage q)
    (fun ro p => ∃ tr', p.verify ⟨cd, ro⟩ fuel ⟨log⟩ [row] Gs (2 ^ (q + 1)) [t] = .ok (true, tr'))
    (fun ro L R h => oneMessage_accepted ⟨cd, ro⟩ row Gs hrow hG t L R log hf h) guesses hne hsum

/-- C100: grinding attack on the linear-map argument. For every row and every target, true or false, there is
a prover that makes `T` hash queries and is accepted with probability at least `1 - (1 - 2 b / 2^512) ^ T`, where `b`
is the least number of byte strings that reduce to the same scalar. The list `guesses` holds `T` pairs of values of
the first challenge; the sums of the pairs are different. -/
theorem C100_lmpa_grinding [DecidableEq F] {q b fuel : Nat} (cd : Codec G) (row Gs : List G)
    (hrow : row.length = 2 ^ (q + 1)) (hG : Gs.length = 2 ^ (q + 1)) (t : G) (log : List Event)
    (hf : q + 1 < fuel)
    (hb : ∀ c : F, b ≤ Nat.card {v : Vector UInt8 64 // ((leNat v.toList : Nat) : F) = c})
    (guesses : List (F × F)) (hne : ∀ g ∈ guesses, g.1 ≠ g.2 ∧ g.1 + g.2 ≠ 0)
    (hsum : (guesses.map fun g => g.1 + g.2).Nodup) :
    ∃ A : Algo Event (Lmpa.NoZK F G), A.AtMost guesses.length ∧ ∃ D0 : Finset (List Event), ∀ D, D0 ⊆ D → ∀ ro,
      1 - (1 - ((2 * b : Nat) : ℚ) / 2 ^ 512) ^ guesses.length ≤
        chance ro D fun ro => ∃ tr', (A.run id ro).verify ⟨cd, ro⟩ fuel ⟨log⟩ [row] Gs (2 ^ (q + 1)) [t] =
          .ok (true, tr') := by
  obtain ⟨A, hA, D0, -, h⟩ := grind_lmpa cd row Gs hrow hG t log hf hb guesses hne hsum
  exact ⟨A, hA, D0, h⟩

theorem exists_union {V X : Type} [Finite V] (D : V → Finset X) :
    ∃ E : Finset X, (∀ v, D v ⊆ E) ∧ ∀ x ∈ E, ∃ v, x ∈ D v := by
  classical
  have := Fintype.ofFinite V
  refine ⟨Finset.univ.biUnion D, fun v => Finset.subset_biUnion_of_mem D (Finset.mem_univ v), fun x hx => ?_⟩
  obtain ⟨v, -, h⟩ := Finset.mem_biUnion.1 hx
  exact ⟨v, h⟩

/-- One question before the rest. -/
theorem askThen {α : Type} {T N N' : Nat} (l : List Event) (hl : l.length ≤ N) (hN' : N' < l.length) (good : Hash → α → Prop) (K : ℚ)
    (h : ∀ v, ∃ B : Algo Event α, B.AtMost T ∧ ∃ D0 : Finset (List Event), (∀ q ∈ D0, N < q.length) ∧
      ∀ D, D0 ⊆ D → ∀ ro, K ≤ chance ro D fun ro => ro l = v → good ro (B.run id ro)) :
    ∃ A : Algo Event α, A.AtMost (T + 1) ∧ ∃ D0 : Finset (List Event), (∀ q ∈ D0, N' < q.length) ∧
      ∀ D, D0 ⊆ D → ∀ ro, K ≤ chance ro D fun ro => good ro (A.run id ro) := by
  classical
  choose B hB D0 hN hD using h
  obtain ⟨E, hE, hE'⟩ := exists_union D0
  refine ⟨.ask l B, hB, insert l E, ?_, fun D hs ro => ?_⟩
  · intro q hq
    rcases Finset.mem_insert.1 hq with rfl | hq
    · exact hN'
    · obtain ⟨v, hv⟩ := hE' q hq
      exact hN'.trans_le (hl.trans (hN v q hv).le)
  · refine ask_chance B good K ro (hs (Finset.mem_insert_self _ _)) fun v => hD v _ ?_ _
    intro q hq
    refine Finset.mem_erase.2 ⟨fun e => ?_, hs (Finset.mem_insert_of_mem (hE v hq))⟩
    have := hN v q hq
    rw [e] at this
    omega

/-- C100: grinding attack on SimpleZK: one query more. -/
theorem C100_simple_grinding [DecidableEq F] {q b fuel : Nat} (cd : Codec G) (row Gs : List G)
    (hrow : row.length = 2 ^ (q + 1)) (hG : Gs.length = 2 ^ (q + 1)) (t : G) (log : List Event)
    (hf : q + 1 < fuel)
    (hb : ∀ c : F, b ≤ Nat.card {v : Vector UInt8 64 // ((leNat v.toList : Nat) : F) = c})
    (guesses : List (F × F)) (hne : ∀ g ∈ guesses, g.1 ≠ g.2 ∧ g.1 + g.2 ≠ 0)
    (hsum : (guesses.map fun g => g.1 + g.2).Nodup) :
    ∃ A : Algo Event (Lmpa.SimpleZK F G), A.AtMost (guesses.length + 1) ∧
      ∃ D0 : Finset (List Event), ∀ D, D0 ⊆ D → ∀ ro,
      1 - (1 - ((2 * b : Nat) : ℚ) / 2 ^ 512) ^ guesses.length ≤
        chance ro D fun ro => ∃ tr', (A.run id ro).verify ⟨cd, ro⟩ fuel ⟨log⟩ [row] Gs (2 ^ (q + 1)) [t] =
          .ok (true, tr') := by
  let lg := simpleLog ⟨cd, noHash⟩ log [0]
  obtain ⟨A, hA, D0, -, h⟩ := askThen (T := guesses.length) (N' := 0) lg le_rfl (by simp [lg, simpleLog])
    (fun ro (p : Lmpa.SimpleZK F G) => ∃ tr', p.verify ⟨cd, ro⟩ fuel ⟨log⟩ [row] Gs (2 ^ (q + 1)) [t] = .ok (true, tr'))
    (1 - (1 - ((2 * b : Nat) : ℚ) / 2 ^ 512) ^ guesses.length) (fun v => by
      obtain ⟨B, hB, D0, hN, h⟩ := grind_lmpa cd row Gs hrow hG (((leNat v.toList : Nat) : F) • t) lg hf hb guesses hne hsum
      refine ⟨B.andThen fun p => .done ⟨p, [0]⟩, Algo.andThen_atMost (fun p => .done (⟨p, [0]⟩ : Lmpa.SimpleZK F G)) 0 (fun _ => trivial) B _ hB,
        D0, hN, fun D hD ro => (h D hD ro).trans (chance_mono fun ro ⟨tr', e⟩ hv => ⟨tr', ?_⟩)⟩
      have hβ : simpleBeta F ⟨cd, ro⟩ log [0] = ((leNat v.toList : Nat) : F) := by rw [← hv]; rfl
      rw [Algo.run_andThen, Algo.run, simple_verify_eq, hβ]
      have e' : List.zipWith (fun t a => ((leNat v.toList : Nat) : F) • t + a) [t] [(0 : G)] =
          [((leNat v.toList : Nat) : F) • t] := by simp
      dsimp only at e ⊢
      rw [e']
      exact e)
  exact ⟨A, hA, D0, h⟩

/-! ### Inner products -/

omit [DecidableEq G] in
theorem foldedP_zero (q : Nat) (xs : List F) :
    foldedP (List.replicate q (0 : G)) (List.replicate q 0) xs 0 = 0 := by
  unfold foldedP
  rw [smul_zero, zero_add]
  refine Finset.sum_eq_zero fun j _ => ?_
  have : (List.replicate q (0 : G)).getD j 0 = 0 := by
    rw [List.getD_eq_getElem?_getD, List.getElem?_replicate]
    split <;> rfl
  rw [this, smul_zero, add_zero, smul_zero]

/-- The proof with one non-trivial message: the points `L` and `R` of the first round. -/
def oneMessageIpa (cd : Codec G) (q : Nat) (L R : G) : Ipa.NoZK F :=
  ⟨cd.compress L :: List.replicate q (cd.compress 0), cd.compress R :: List.replicate q (cd.compress 0), 0, 0⟩

theorem oneMessageIpa_accepted [DecidableEq F] {q : Nat} (h64 : q + 1 < 64) (cx : Ctx G) (Gs Hs : List G)
    (hG : Gs.length = 2 ^ (q + 1)) (hH : Hs.length = 2 ^ (q + 1)) (Q P : G) (t : F) (L R : G) (log : List Event)
    (h : let α := ipaAlpha F cx.ro log (2 ^ (q + 1))
      let x : F := squeeze F cx.ro (log ++ headLog (2 ^ (q + 1)) ++ roundLog (cx.compress L, cx.compress R))
      R + x • (P - ((α - 1) * t) • (α⁻¹ • Q)) + (x * x) • L = 0) :
    ∃ tr', (oneMessageIpa cx.toCodec q L R : Ipa.NoZK F).verify cx ⟨log⟩ Gs Hs Q (2 ^ (q + 1)) P t = .ok (true, tr') := by
  have hv : Verifiable cx (oneMessageIpa cx.toCodec q L R : Ipa.NoZK F) Gs Hs (2 ^ (q + 1)) := by
    have hd : ∀ (A : G), ∀ c ∈ cx.compress A :: List.replicate q (cx.compress 0), (cx.decompress c).isSome := by
      intro A c hc
      rcases List.mem_cons.1 hc with rfl | hc
      · rw [cx.decompress_compress]; rfl
      · rw [List.eq_of_mem_replicate hc, cx.decompress_compress]; rfl
    refine ⟨hd L, hd R, by simpa [oneMessageIpa] using h64, by simp [oneMessageIpa], ?_, ?_⟩
    · rw [hG]; simp [oneMessageIpa]
    · rw [hH]; simp [oneMessageIpa]
  have := C19_ipa_verdict cx (oneMessageIpa cx.toCodec q L R : Ipa.NoZK F) ⟨log⟩ Gs Hs Q (2 ^ (q + 1)) P t
    (L :: List.replicate q 0) (R :: List.replicate q 0) (by simp [oneMessageIpa]) (by simp [oneMessageIpa]) hv
  refine ⟨_, this.trans (congrArg Except.ok (Prod.ext (decide_eq_true ?_) rfl))⟩
  simp only [oneMessageIpa, ipaChallenges]
  rw [Ipa.roundChallenges_cons, foldedP_cons]
  have e : ∀ x : F, ∀ Z : G, (x * x) • L + x • Z + R = R + x • Z + (x * x) • L := fun x Z => by abel
  rw [e, h, foldedP_zero]
  simp

theorem grind_ipa [DecidableEq F] {q b : Nat} (h64 : q + 1 < 64) (cd : Codec G) (Gs Hs : List G)
    (hG : Gs.length = 2 ^ (q + 1)) (hH : Hs.length = 2 ^ (q + 1)) (Q P : G) (t : F) (log : List Event)
    (hb : ∀ c : F, b ≤ Nat.card {v : Vector UInt8 64 // ((leNat v.toList : Nat) : F) = c})
    (guesses : List (F × F)) (hne : ∀ g ∈ guesses, g.1 ≠ g.2 ∧ g.1 + g.2 ≠ 0)
    (hsum : (guesses.map fun g => g.1 + g.2).Nodup) :
    ∃ A : Algo Event (Ipa.NoZK F), A.AtMost (guesses.length + 1) ∧ ∃ D0 : Finset (List Event),
      (∀ l ∈ D0, log.length < l.length) ∧ ∀ D, D0 ⊆ D → ∀ ro,
      1 - (1 - ((2 * b : Nat) : ℚ) / 2 ^ 512) ^ guesses.length ≤
        chance ro D fun ro => ∃ tr', (A.run id ro).verify ⟨cd, ro⟩ ⟨log⟩ Gs Hs Q (2 ^ (q + 1)) P t =
          .ok (true, tr') := by
  let lg := log ++ headLog (2 ^ (q + 1))
  obtain ⟨A, hA, D0, hN, h⟩ := askThen (T := guesses.length) (N := lg.length) (N' := log.length) lg le_rfl
    (by simp [lg, headLog])
    (fun ro (p : Ipa.NoZK F) => ∃ tr', p.verify ⟨cd, ro⟩ ⟨log⟩ Gs Hs Q (2 ^ (q + 1)) P t = .ok (true, tr'))
    (1 - (1 - ((2 * b : Nat) : ℚ) / 2 ^ 512) ^ guesses.length) (fun v => by
      let α : F := ((leNat v.toList : Nat) : F)
      refine grind hb (P - ((α - 1) * t) • (α⁻¹ • Q)) (fun R L => lg ++ roundLog (cd.compress L, cd.compress R))
        ?_ (fun R L => by simp [roundLog]) (fun R L => oneMessageIpa cd q L R) (fun ro p => ro lg = v →
          ∃ tr', p.verify ⟨cd, ro⟩ ⟨log⟩ Gs Hs Q (2 ^ (q + 1)) P t = .ok (true, tr')) ?_ guesses hne hsum
      · intro u v u' v' h
        have := List.append_cancel_left h
        simp only [roundLog, List.cons.injEq, Event.msg.injEq, true_and] at this
        exact compress_inj cd this.1
      · intro ro R L h hv
        have hα : ipaAlpha F ro log (2 ^ (q + 1)) = α := by change _ = ((leNat v.toList : Nat) : F); rw [← hv]; rfl
        exact oneMessageIpa_accepted h64 ⟨cd, ro⟩ Gs Hs hG hH Q P t L R log (by
          change let α := ipaAlpha F ro log (2 ^ (q + 1)); _
          rw [hα]; exact h))
  exact ⟨A, hA, D0, hN, h⟩

/-- C100: grinding attack on the inner-product argument. For every commitment and every claimed inner product, true
or false, `T + 1` hash queries. -/
theorem C100_ipa_grinding [DecidableEq F] {q b : Nat} (h64 : q + 1 < 64) (cd : Codec G) (Gs Hs : List G)
    (hG : Gs.length = 2 ^ (q + 1)) (hH : Hs.length = 2 ^ (q + 1)) (Q P : G) (t : F) (log : List Event)
    (hb : ∀ c : F, b ≤ Nat.card {v : Vector UInt8 64 // ((leNat v.toList : Nat) : F) = c})
    (guesses : List (F × F)) (hne : ∀ g ∈ guesses, g.1 ≠ g.2 ∧ g.1 + g.2 ≠ 0)
    (hsum : (guesses.map fun g => g.1 + g.2).Nodup) :
    ∃ A : Algo Event (Ipa.NoZK F), A.AtMost (guesses.length + 1) ∧ ∃ D0 : Finset (List Event), ∀ D, D0 ⊆ D → ∀ ro,
      1 - (1 - ((2 * b : Nat) : ℚ) / 2 ^ 512) ^ guesses.length ≤
        chance ro D fun ro => ∃ tr', (A.run id ro).verify ⟨cd, ro⟩ ⟨log⟩ Gs Hs Q (2 ^ (q + 1)) P t =
          .ok (true, tr') := by
  obtain ⟨A, hA, D0, -, h⟩ := grind_ipa h64 cd Gs Hs hG hH Q P t log hb guesses hne hsum
  exact ⟨A, hA, D0, h⟩

theorem grind_alm [DecidableEq F] {q b : Nat} (h64 : q + 1 < 64) (cd : Codec G) (Gs Hs : List G)
    (hG : Gs.length = 2 ^ (q + 1)) (hH : Hs.length = 2 ^ (q + 1)) (Q C_w : G) (t : F) (log : List Event)
    (hb : ∀ c : F, b ≤ Nat.card {v : Vector UInt8 64 // ((leNat v.toList : Nat) : F) = c})
    (guesses : List (F × F)) (hne : ∀ g ∈ guesses, g.1 ≠ g.2 ∧ g.1 + g.2 ≠ 0)
    (hsum : (guesses.map fun g => g.1 + g.2).Nodup) :
    ∃ A : Algo Event (Ipa.AlmZK F), A.AtMost (guesses.length + 2) ∧ ∃ D0 : Finset (List Event),
      (∀ l ∈ D0, log.length < l.length) ∧ ∀ D, D0 ⊆ D → ∀ ro,
      1 - (1 - ((2 * b : Nat) : ℚ) / 2 ^ 512) ^ guesses.length ≤
        chance ro D fun ro => ∃ tr', (A.run id ro).verify ⟨cd, ro⟩ ⟨log⟩ Gs Hs Q (2 ^ (q + 1)) C_w t =
          .ok (true, tr') := by
  let lg := log ++ [.msg "C_r" (cd.compress 0), .chal "beta" 64]
  obtain ⟨A, hA, D0, hN, h⟩ := askThen (T := guesses.length + 1) (N := lg.length + 1) (N' := log.length) lg
    (Nat.le_succ _) (by simp [lg])
    (fun ro (p : Ipa.AlmZK F) => ∃ tr', p.verify ⟨cd, ro⟩ ⟨log⟩ Gs Hs Q (2 ^ (q + 1)) C_w t = .ok (true, tr'))
    (1 - (1 - ((2 * b : Nat) : ℚ) / 2 ^ 512) ^ guesses.length) (fun v => by
      let β : F := ((leNat v.toList : Nat) : F)
      let P := β • C_w + 0 + (β * β * t) • Q
      obtain ⟨B, hB, D0, hN, h⟩ := grind_ipa h64 cd Gs Hs hG hH Q P (β * β * t)
        (log ++ almHead (cd.compress 0) (cd.compress P)) hb guesses hne hsum
      refine ⟨B.andThen fun p => .done ⟨cd.compress 0, p⟩,
        Algo.andThen_atMost (fun p => .done (⟨cd.compress 0, p⟩ : Ipa.AlmZK F)) 0 (fun _ => trivial) B _ hB,
        D0, fun l hl => ?_, fun D hD ro => (h D hD ro).trans (chance_mono fun ro ⟨tr', e⟩ hv => ⟨tr', ?_⟩)⟩
      · have := hN l hl
        simpa [lg, almHead] using this
      have hβ : almBeta F ro log (cd.compress 0) = β := by change _ = ((leNat v.toList : Nat) : F); rw [← hv]; rfl
      rw [Algo.run_andThen, Algo.run, Ipa.alm_verify_eq ⟨cd, ro⟩ _ _ Gs Hs Q _ C_w t 0 rfl]
      dsimp only
      rw [hβ]
      exact e)
  exact ⟨A, hA, D0, hN, h⟩

/-- C100: grinding attack on AlmZK, `T + 2` hash queries. -/
theorem C100_alm_grinding [DecidableEq F] {q b : Nat} (h64 : q + 1 < 64) (cd : Codec G) (Gs Hs : List G)
    (hG : Gs.length = 2 ^ (q + 1)) (hH : Hs.length = 2 ^ (q + 1)) (Q C_w : G) (t : F) (log : List Event)
    (hb : ∀ c : F, b ≤ Nat.card {v : Vector UInt8 64 // ((leNat v.toList : Nat) : F) = c})
    (guesses : List (F × F)) (hne : ∀ g ∈ guesses, g.1 ≠ g.2 ∧ g.1 + g.2 ≠ 0)
    (hsum : (guesses.map fun g => g.1 + g.2).Nodup) :
    ∃ A : Algo Event (Ipa.AlmZK F), A.AtMost (guesses.length + 2) ∧ ∃ D0 : Finset (List Event), ∀ D, D0 ⊆ D → ∀ ro,
      1 - (1 - ((2 * b : Nat) : ℚ) / 2 ^ 512) ^ guesses.length ≤
        chance ro D fun ro => ∃ tr', (A.run id ro).verify ⟨cd, ro⟩ ⟨log⟩ Gs Hs Q (2 ^ (q + 1)) C_w t =
          .ok (true, tr') := by
  obtain ⟨A, hA, D0, -, h⟩ := grind_alm h64 cd Gs Hs hG hH Q C_w t log hb guesses hne hsum
  exact ⟨A, hA, D0, h⟩

/-! ### Quadratic equations -/

/-- C100: grinding attack on the argument for quadratic equations, `T + 5` hash queries. The equations may be
unsatisfiable. -/
theorem C100_qesa_grinding [DecidableEq F] {q b m k : Nat} (h64 : q + 1 < 64) (hm : 0 < m) (hmq : m + 2 = 2 ^ (q + 1))
    (cd : Codec G) (Gs Hs : List G) (hG : Gs.length = m + 2) (hH : Hs.length = m + 2) (Q : G)
    (Ms : Fin (k + 1) → Matrix (Fin m) (Fin m) F) (log : List Event)
    (hb : ∀ c : F, b ≤ Nat.card {v : Vector UInt8 64 // ((leNat v.toList : Nat) : F) = c})
    (guesses : List (F × F)) (hne : ∀ g ∈ guesses, g.1 ≠ g.2 ∧ g.1 + g.2 ≠ 0)
    (hsum : (guesses.map fun g => g.1 + g.2).Nodup) :
    ∃ A : Algo Event (Inner.Proof F), A.AtMost (guesses.length + 5) ∧ ∃ D0 : Finset (List Event), ∀ D, D0 ⊆ D → ∀ ro,
      1 - (1 - ((2 * b : Nat) : ℚ) / 2 ^ 512) ^ guesses.length ≤
        chance ro D fun ro => ∃ tr', (A.run id ro).verify ⟨cd, ro⟩ ⟨log⟩ Gs Hs Q ⟨List.ofFn fun i => rows (Ms i)⟩ =
          .ok (true, tr') := by
  obtain ⟨g0, Gs0, hGs⟩ : ∃ g0 Gs0, Gs = g0 :: Gs0 := by
    cases Gs with
    | nil => simp at hG
    | cons g gs => exact ⟨g, gs, rfl⟩
  let o := cd.compress 0
  let lx : List Event := log ++ [.msg "c_prime_w" o, .chal "x" 64]
  let ls : List Event := log ++ [.msg "c_prime_w" o, .chal "x" 64, .msg "c_prime_prime_w" o, .chal "s" 64]
  let lb : List Event := log ++ [.msg "c_prime_w" o, .chal "x" 64, .msg "c_prime_prime_w" o, .chal "s" 64, .chal "b" 64]
  let good : Hash → Inner.Proof F → Prop := fun ro p =>
    ∃ tr', p.verify ⟨cd, ro⟩ ⟨log⟩ Gs Hs Q ⟨List.ofFn fun i => rows (Ms i)⟩ = .ok (true, tr')
  obtain ⟨A, hA, D0, -, h⟩ := askThen (T := guesses.length + 4) (N := lx.length) (N' := 0) lx le_rfl (by simp [lx]) good
    (1 - (1 - ((2 * b : Nat) : ℚ) / 2 ^ 512) ^ guesses.length) (fun vx =>
    askThen (T := guesses.length + 3) (N := ls.length) (N' := lx.length) ls le_rfl (by simp [ls, lx])
      (fun ro p => ro lx = vx → good ro p) _ fun vs =>
    askThen (T := guesses.length + 2) (N := lb.length + 1) (N' := ls.length) lb (Nat.le_succ _) (by simp [ls, lb])
      (fun ro p => ro ls = vs → ro lx = vx → good ro p) _ fun vb => by
      let x : F := ((leNat vx.toList : Nat) : F)
      let s : F := ((leNat vs.toList : Nat) : F)
      let z : F := ((leNat vb.toList : Nat) : F)
      let M := batched (m + 2) Ms x
      let C_w : G := 0 - ((x ^ 2 - 1) * (x ^ 2)⁻¹) • g0 + 0 + dot (challengeImage M s z) Hs -
        dot (challengeVector s z m) (rescaled (x ^ 2) Gs)
      obtain ⟨B, hB, D0, hN, h⟩ := grind_alm h64 cd (rescaled (x ^ 2) Gs) Hs
        (by rw [rescaled_length, hG, hmq]) (by rw [hH, hmq]) Q C_w (-quad M (powers s m))
        (log ++ qesaHead o o (cd.compress C_w)) hb guesses hne hsum
      refine ⟨B.andThen fun p => .done ⟨p, o, o⟩,
        Algo.andThen_atMost (fun p => .done (⟨p, o, o⟩ : Inner.Proof F)) 0 (fun _ => trivial) B _ hB,
        D0, fun l hl => ?_, fun D hD ro => (h D hD ro).trans (chance_mono fun ro ⟨tr', e⟩ hb hs hx => ⟨tr', ?_⟩)⟩
      · have := hN l hl
        simpa [lb, qesaHead] using this
      have hx : qesaX F ro log o = x := by change _ = ((leNat vx.toList : Nat) : F); rw [← hx]; rfl
      have hs : qesaS F ro log o o = s := by change _ = ((leNat vs.toList : Nat) : F); rw [← hs]; rfl
      have hb : qesaB F ro log o o = z := by change _ = ((leNat vb.toList : Nat) : F); rw [← hb]; rfl
      rw [Algo.run_andThen, Algo.run, Inner.verify_eq hm ⟨cd, ro⟩ _ _ Gs Hs Q Ms 0 0 rfl rfl g0 Gs0 hGs hG hH]
      dsimp only
      rw [hx, hs, hb]
      rw [← hmq] at e
      exact e)
  exact ⟨A, hA, D0, h⟩

/-! ### The group of the repository -/

set_option exponentiation.threshold 600

theorem miss_le {p : ℚ} (h0 : 0 ≤ p) (h1 : p ≤ 1) : ∀ T : Nat, (1 - p) ^ T * (1 + T * p) ≤ 1
  | 0 => by simp
  | T + 1 => by
    have ih := miss_le h0 h1 T
    have hp : 0 ≤ (1 - p) ^ T := pow_nonneg (sub_nonneg.2 h1) T
    have : (1 - p) * (1 + (T + 1 : ℕ) * p) ≤ 1 + T * p := by
      push_cast
      nlinarith [mul_nonneg (Nat.cast_nonneg (α := ℚ) T) (mul_nonneg h0 h0)]
    calc (1 - p) ^ (T + 1) * (1 + (T + 1 : ℕ) * p) = (1 - p) ^ T * ((1 - p) * (1 + (T + 1 : ℕ) * p)) := by
          rw [pow_succ]; ring
      _ ≤ (1 - p) ^ T * (1 + T * p) := mul_le_mul_of_nonneg_left this hp
      _ ≤ 1 := ih

/-- C100: at least `2^259` of the `2^512` byte strings reduce to the same scalar. -/
theorem C100_scalars (c : RistrettoScalar) :
    2 ^ 259 ≤ Nat.card {v : Vector UInt8 64 // ((leNat v.toList : Nat) : RistrettoScalar) = c} := by
  rw [C10_almost_uniform]
  refine le_trans ?_ (Nat.le_add_right _ _)
  rw [ristrettoOrder]; norm_num

theorem ristretto_bound (T : Nat) :
    (T : ℚ) / (T + 2 ^ 252) ≤ 1 - (1 - ((2 * 2 ^ 259 : Nat) : ℚ) / 2 ^ 512) ^ T := by
  have e : ((2 * 2 ^ 259 : Nat) : ℚ) / 2 ^ 512 = 1 / 2 ^ 252 := by norm_num
  rw [e]
  have h := miss_le (p := 1 / 2 ^ 252) (by positivity) (by norm_num) T
  generalize (1 - 1 / 2 ^ 252 : ℚ) ^ T = m at h
  have hT : (0 : ℚ) ≤ T := Nat.cast_nonneg T
  have hN : (0 : ℚ) < 2 ^ 252 := by positivity
  generalize (2 ^ 252 : ℚ) = N at h hN ⊢
  have e2 : 1 + T * (1 / N) = (T + N) / N := by field_simp; ring
  rw [e2, mul_div_assoc', div_le_one hN] at h
  rw [div_le_iff₀ (by linarith)]
  linarith

/-- The guesses `(0, 1)`, `(0, 2)`, …. -/
theorem guesses_ok (T : Nat) (hT : T ≤ 2 ^ 252) :
    let guesses : List (RistrettoScalar × RistrettoScalar) := (List.range T).map fun i => (0, ((i + 1 : Nat) : RistrettoScalar))
    guesses.length = T ∧ (∀ g ∈ guesses, g.1 ≠ g.2 ∧ g.1 + g.2 ≠ 0) ∧ (guesses.map fun g => g.1 + g.2).Nodup := by
  have hlt : 2 ^ 252 < ristrettoOrder := by rw [ristrettoOrder]; norm_num
  have inj : ∀ i < T, (((i + 1 : Nat) : RistrettoScalar)).val = i + 1 := fun i hi =>
    ZMod.val_cast_of_lt (by omega)
  refine ⟨by simp, ?_, ?_⟩
  · intro g hg
    obtain ⟨i, hi, rfl⟩ := List.mem_map.1 hg
    have hn : ((i + 1 : Nat) : RistrettoScalar) ≠ 0 := by
      intro h
      have := inj i (List.mem_range.1 hi)
      rw [h, ZMod.val_zero] at this
      omega
    exact ⟨hn.symm, by rw [zero_add]; exact hn⟩
  · rw [List.map_map]
    refine List.Nodup.map_on ?_ List.nodup_range
    intro i hi j hj h
    have h : ((i + 1 : Nat) : RistrettoScalar) = ((j + 1 : Nat) : RistrettoScalar) := by simpa using h
    have := congrArg ZMod.val h
    rw [inj i (List.mem_range.1 hi), inj j (List.mem_range.1 hj)] at this
    omega

/-- C100: over the Ristretto group, `T` guesses forge a proof of any statement with probability at least
`T / (T + 2^252)`: of a linear map with `T` hash queries, of quadratic equations with `T + 5`. -/
theorem C100_ristretto {G : Type} [AddCommGroup G] [Module RistrettoScalar G] [DecidableEq G] (cd : Codec G)
    (log : List Event) (T : Nat) (hT : T ≤ 2 ^ 252) :
    (∀ (q fuel : Nat) (row Gs : List G) (t : G), row.length = 2 ^ (q + 1) → Gs.length = 2 ^ (q + 1) → q + 1 < fuel →
      ∃ A : Algo Event (Lmpa.NoZK RistrettoScalar G), A.AtMost T ∧ ∃ D0 : Finset (List Event), ∀ D, D0 ⊆ D → ∀ ro,
        (T : ℚ) / (T + 2 ^ 252) ≤ chance ro D fun ro =>
          ∃ tr', (A.run id ro).verify ⟨cd, ro⟩ fuel ⟨log⟩ [row] Gs (2 ^ (q + 1)) [t] = .ok (true, tr')) ∧
    (∀ (q m k : Nat) (Gs Hs : List G) (Q : G) (Ms : Fin (k + 1) → Matrix (Fin m) (Fin m) RistrettoScalar), q + 1 < 64 →
      0 < m → m + 2 = 2 ^ (q + 1) → Gs.length = m + 2 → Hs.length = m + 2 →
      ∃ A : Algo Event (Inner.Proof RistrettoScalar), A.AtMost (T + 5) ∧
        ∃ D0 : Finset (List Event), ∀ D, D0 ⊆ D → ∀ ro,
        (T : ℚ) / (T + 2 ^ 252) ≤ chance ro D fun ro => ∃ tr',
          (A.run id ro).verify ⟨cd, ro⟩ ⟨log⟩ Gs Hs Q ⟨List.ofFn fun i => rows (Ms i)⟩ = .ok (true, tr')) := by
  obtain ⟨h1, h2, h3⟩ := guesses_ok T hT
  refine ⟨fun q fuel row Gs t hrow hG hf => ?_, fun q m k Gs Hs Q Ms h64 hm hmq hG hH => ?_⟩
  · obtain ⟨A, hA, D0, h⟩ := C100_lmpa_grinding cd row Gs hrow hG t log hf C100_scalars _ h2 h3
    rw [h1] at hA h
    exact ⟨A, hA, D0, fun D hD ro => (ristretto_bound T).trans (h D hD ro)⟩
  · obtain ⟨A, hA, D0, h⟩ := C100_qesa_grinding h64 hm hmq cd Gs Hs hG hH Q Ms log C100_scalars _ h2 h3
    rw [h1] at hA h
    exact ⟨A, hA, D0, fun D hD ro => (ristretto_bound T).trans (h D hD ro)⟩

/-- C100: the same for SimpleZK and the inner-product argument with `T + 1` hash queries and for AlmZK with `T + 2`. -/
theorem C100_ristretto_others {G : Type} [AddCommGroup G] [Module RistrettoScalar G] [DecidableEq G] (cd : Codec G)
    (log : List Event) (T : Nat) (hT : T ≤ 2 ^ 252) :
    (∀ (q fuel : Nat) (row Gs : List G) (t : G), row.length = 2 ^ (q + 1) → Gs.length = 2 ^ (q + 1) → q + 1 < fuel →
      ∃ A : Algo Event (Lmpa.SimpleZK RistrettoScalar G), A.AtMost (T + 1) ∧ ∃ D0 : Finset (List Event), ∀ D, D0 ⊆ D → ∀ ro,
        (T : ℚ) / (T + 2 ^ 252) ≤ chance ro D fun ro =>
          ∃ tr', (A.run id ro).verify ⟨cd, ro⟩ fuel ⟨log⟩ [row] Gs (2 ^ (q + 1)) [t] = .ok (true, tr')) ∧
    (∀ (q : Nat) (Gs Hs : List G) (Q P : G) (t : RistrettoScalar), q + 1 < 64 → Gs.length = 2 ^ (q + 1) →
      Hs.length = 2 ^ (q + 1) →
      ∃ A : Algo Event (Ipa.NoZK RistrettoScalar), A.AtMost (T + 1) ∧ ∃ D0 : Finset (List Event), ∀ D, D0 ⊆ D → ∀ ro,
        (T : ℚ) / (T + 2 ^ 252) ≤ chance ro D fun ro =>
          ∃ tr', (A.run id ro).verify ⟨cd, ro⟩ ⟨log⟩ Gs Hs Q (2 ^ (q + 1)) P t = .ok (true, tr')) ∧
    (∀ (q : Nat) (Gs Hs : List G) (Q C_w : G) (t : RistrettoScalar), q + 1 < 64 → Gs.length = 2 ^ (q + 1) →
      Hs.length = 2 ^ (q + 1) →
      ∃ A : Algo Event (Ipa.AlmZK RistrettoScalar), A.AtMost (T + 2) ∧ ∃ D0 : Finset (List Event), ∀ D, D0 ⊆ D → ∀ ro,
        (T : ℚ) / (T + 2 ^ 252) ≤ chance ro D fun ro =>
          ∃ tr', (A.run id ro).verify ⟨cd, ro⟩ ⟨log⟩ Gs Hs Q (2 ^ (q + 1)) C_w t = .ok (true, tr')) := by
  obtain ⟨h1, h2, h3⟩ := guesses_ok T hT
  refine ⟨fun q fuel row Gs t hrow hG hf => ?_, fun q Gs Hs Q P t h64 hG hH => ?_, fun q Gs Hs Q C_w t h64 hG hH => ?_⟩
  · obtain ⟨A, hA, D0, h⟩ := C100_simple_grinding cd row Gs hrow hG t log hf C100_scalars _ h2 h3
    rw [h1] at hA h
    exact ⟨A, hA, D0, fun D hD ro => (ristretto_bound T).trans (h D hD ro)⟩
  · obtain ⟨A, hA, D0, h⟩ := C100_ipa_grinding h64 cd Gs Hs hG hH Q P t log C100_scalars _ h2 h3
    rw [h1] at hA h
    exact ⟨A, hA, D0, fun D hD ro => (ristretto_bound T).trans (h D hD ro)⟩
  · obtain ⟨A, hA, D0, h⟩ := C100_alm_grinding h64 cd Gs Hs hG hH Q C_w t log C100_scalars _ h2 h3
    rw [h1] at hA h
    exact ⟨A, hA, D0, fun D hD ro => (ristretto_bound T).trans (h D hD ro)⟩

/-! ### Examples -/
section
open Toy

theorem toy_scalars (c : K) : 2 ^ 512 / 101 ≤ Nat.card {v : Vector UInt8 64 // ((leNat v.toList : Nat) : K) = c} := by
  rw [C10_almost_uniform]
  exact Nat.le_add_right _ _

/-- Ten guesses over the field with 101 elements. -/
def toyGuesses : List (K × K) := [(0, 1), (0, 2), (0, 3), (0, 4), (0, 5), (0, 6), (0, 7), (0, 8), (0, 9), (0, 10)]

theorem toyGuesses_ne : ∀ g ∈ toyGuesses, g.1 ≠ g.2 ∧ g.1 + g.2 ≠ 0 := by
  simp only [toyGuesses, List.forall_mem_cons]
  refine ⟨?_, ?_, ?_, ?_, ?_, ?_, ?_, ?_, ?_, ?_, by simp⟩ <;> decide +kernel

theorem toy_bound : (1 / 6 : ℚ) ≤ 1 - (1 - ((2 * (2 ^ 512 / 101) : Nat) : ℚ) / 2 ^ 512) ^ toyGuesses.length := by
  rw [show toyGuesses.length = 10 from rfl]
  norm_num

theorem toyGuesses_nodup : (toyGuesses.map fun g => g.1 + g.2).Nodup :=
  List.Nodup.of_map (fun x : K => x.val) (by decide +kernel)

example (cd : Codec K) : ∃ A : Algo Event (Lmpa.NoZK K K), A.AtMost 10 ∧ ∃ D0 : Finset (List Event), ∀ D, D0 ⊆ D → ∀ ro,
    1 / 6 ≤ chance ro D fun ro => ∃ tr', (A.run id ro).verify ⟨cd, ro⟩ 2 ⟨[]⟩ [[0, 0]] [1, 1] 2 [7] =
      .ok (true, tr') := by
  obtain ⟨A, hA, D0, h⟩ := C100_lmpa_grinding (q := 0) (fuel := 2) cd [0, 0] [1, 1] rfl rfl (7 : K) [] (by decide)
    toy_scalars toyGuesses toyGuesses_ne toyGuesses_nodup
  exact ⟨A, hA, D0, fun D hD ro => le_trans toy_bound (h D hD ro)⟩

/-- The target of this example is false: the row is zero, the target is not. -/
example : ¬ ∃ w : List K, dot w [(0 : K), 0] = 7 := by
  rintro ⟨w, h⟩
  rcases w with _ | ⟨a, _ | ⟨b, w⟩⟩ <;> simp [dot] at h <;> exact absurd h (by decide)

/-- The same target with SimpleZK. -/
example (cd : Codec K) : ∃ A : Algo Event (Lmpa.SimpleZK K K), A.AtMost 11 ∧ ∃ D0 : Finset (List Event), ∀ D, D0 ⊆ D →
    ∀ ro, 1 / 6 ≤ chance ro D fun ro => ∃ tr', (A.run id ro).verify ⟨cd, ro⟩ 2 ⟨[]⟩ [[0, 0]] [1, 1] 2 [7] =
      .ok (true, tr') := by
  obtain ⟨A, hA, D0, h⟩ := C100_simple_grinding (q := 0) (fuel := 2) cd [0, 0] [1, 1] rfl rfl (7 : K) [] (by decide)
    toy_scalars toyGuesses toyGuesses_ne toyGuesses_nodup
  exact ⟨A, hA, D0, fun D hD ro => le_trans toy_bound (h D hD ro)⟩

/-- The commitment `0` and the inner product 7, with generators between which there is no relation
(`unit_no_relation`). -/
example (cd : Codec (Fin 9 → K)) : ∃ A : Algo Event (Ipa.NoZK K), A.AtMost 11 ∧ ∃ D0 : Finset (List Event),
    ∀ D, D0 ⊆ D → ∀ ro, 1 / 6 ≤ chance ro D fun ro => ∃ tr',
      (A.run id ro).verify ⟨cd, ro⟩ ⟨[]⟩ unitG unitH unitQ 4 0 7 = .ok (true, tr') := by
  obtain ⟨A, hA, D0, h⟩ := C100_ipa_grinding (q := 1) (by decide) cd unitG unitH rfl rfl unitQ 0 (7 : K) []
    toy_scalars toyGuesses toyGuesses_ne toyGuesses_nodup
  exact ⟨A, hA, D0, fun D hD ro => le_trans toy_bound (h D hD ro)⟩

example (cd : Codec (Fin 9 → K)) : ∃ A : Algo Event (Ipa.AlmZK K), A.AtMost 12 ∧ ∃ D0 : Finset (List Event),
    ∀ D, D0 ⊆ D → ∀ ro, 1 / 6 ≤ chance ro D fun ro => ∃ tr',
      (A.run id ro).verify ⟨cd, ro⟩ ⟨[]⟩ unitG unitH unitQ 4 0 7 = .ok (true, tr') := by
  obtain ⟨A, hA, D0, h⟩ := C100_alm_grinding (q := 1) (by decide) cd unitG unitH rfl rfl unitQ 0 (7 : K) []
    toy_scalars toyGuesses toyGuesses_ne toyGuesses_nodup
  exact ⟨A, hA, D0, fun D hD ro => le_trans toy_bound (h D hD ro)⟩

/-- A proof that `w₀² = 0` for a vector with `w₀ = 1`. -/
example (cd : Codec K) (Gs Hs : List K) (hG : Gs.length = 4) (hH : Hs.length = 4) (Q : K) :
    ∃ A : Algo Event (Inner.Proof K), A.AtMost 15 ∧ ∃ D0 : Finset (List Event), ∀ D, D0 ⊆ D → ∀ ro,
      1 / 6 ≤ chance ro D fun ro => ∃ tr', (A.run id ro).verify ⟨cd, ro⟩ ⟨[]⟩ Gs Hs Q ⟨[[[1, 0], [0, 0]]]⟩ =
        .ok (true, tr') := by
  obtain ⟨A, hA, D0, h⟩ := C100_qesa_grinding (q := 1) (m := 2) (k := 0) (by decide) (by decide) rfl cd Gs Hs hG hH Q
    (fun _ => !![1, 0; 0, 0]) [] toy_scalars toyGuesses toyGuesses_ne toyGuesses_nodup
  exact ⟨A, hA, D0, fun D hD ro => le_trans toy_bound (h D hD ro)⟩

/-- With `2^100` hash queries a false claim is proved with probability more than `2^-153`; C87 gives the upper bound
`2^-150` for up to `2^64` columns. -/
example {G : Type} [AddCommGroup G] [Module RistrettoScalar G] [DecidableEq G] (cd : Codec G) (log : List Event)
    (row Gs : List G) (t : G) (hrow : row.length = 2 ^ 64) (hG : Gs.length = 2 ^ 64) :
    ∃ A : Algo Event (Lmpa.NoZK RistrettoScalar G), A.AtMost (2 ^ 100) ∧ ∃ D0 : Finset (List Event), ∀ D, D0 ⊆ D → ∀ ro,
      1 / 2 ^ 153 ≤ chance ro D fun ro => ∃ tr', (A.run id ro).verify ⟨cd, ro⟩ 65 ⟨log⟩ [row] Gs (2 ^ 64) [t] =
        .ok (true, tr') := by
  obtain ⟨A, hA, D0, h⟩ := (C100_ristretto cd log (2 ^ 100) (by norm_num)).1 63 65 row Gs t hrow hG (by decide)
  exact ⟨A, hA, D0, fun D hD ro => le_trans (by norm_num) (h D hD ro)⟩

end

end Qesa.Props
