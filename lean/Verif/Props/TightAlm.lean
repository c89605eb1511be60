import Verif.Props.TightIpa
/- C99, continued: the soundness error of AlmZK. -/
namespace Qesa.Props
open Qesa Qesa.Spec Qesa.Ipa
open scoped BigOperators
variable {F G : Type} [Field F] [AddCommGroup G] [Module F G]

/-! ### Upper bound -/

section
variable [DecidableEq F] [DecidableEq G]

/-- One value of `alpha`, a point with a wrong coefficient. -/
theorem ipa_fixed_in {q : Nat} (S : Finset F) {Gs Hs : List G} (hG : Gs.length = 2 ^ (q + 1))
    (hH : Hs.length = 2 ^ (q + 1)) {Q : G} (hind : ∀ r : List F × List F × F, ¬ IsRelation Gs Hs Q r) {α : F}
    (hα0 : α ≠ 0) (a b : Fin (2 ^ (q + 1)) → F) (s t : F) (hc : s * α - (α - 1) * t ≠ ∑ j, a j * b j)
    (P : IpaProver F G (q + 1)) :
    countChallenges S (q + 1) (fun y => IpaAccepted Gs Hs Q (2 ^ (q + 1)) (genMap (2 ^ (q + 1)) Gs Hs Q (a, b, s)) t α
      (P.talk y)) + (S.card - 3) * (S.card - 2) ^ q ≤ S.card ^ (q + 1) := by
  have hpt : genMap (2 ^ (q + 1)) Gs Hs Q (a, b, s) - ((α - 1) * t) • (α⁻¹ • Q) =
      genMap (2 ^ (q + 1)) Gs Hs (α⁻¹ • Q) (a, b, s * α - (α - 1) * t) := by
    rw [genMap_apply, genMap_apply]
    have e : s • Q = (s * α) • (α⁻¹ • Q) := by rw [smul_smul, mul_assoc, mul_inv_cancel₀ hα0, mul_one]
    rw [e]
    module
  have := wrong_count S (α⁻¹ • Q) P (2 ^ (q + 1)) rfl Gs Hs hG hH
    (genMap_injective hG hH hind (inv_ne_zero hα0)) a b _ hc
  rw [if_neg (by omega), Nat.add_sub_cancel, ← hpt] at this
  refine le_trans (Nat.add_le_add_right (countChallenges_mono S (q + 1) _ _ fun y hy _ h => ?_) _) this
  obtain ⟨l1, l2, -⟩ := talk_length P y hy
  exact h.accepts (l1.trans l2.symm)

/-- One value of `alpha`, a point that is no combination of the generators. -/
theorem ipa_fixed_out {q : Nat} (S : Finset F) {Gs Hs : List G} (hG : Gs.length = 2 ^ (q + 1))
    (hH : Hs.length = 2 ^ (q + 1)) {Q : G} {α : F} (C : G) (t : F)
    (hout : C ∉ LinearMap.range (genMap (F := F) (2 ^ (q + 1)) Gs Hs Q)) (P : IpaProver F G (q + 1)) :
    countChallenges S (q + 1) (fun y => IpaAccepted Gs Hs Q (2 ^ (q + 1)) C t α (P.talk y)) +
      (S.card - 3) * (S.card - 2) ^ q ≤ S.card ^ (q + 1) := by
  have hout : C - ((α - 1) * t) • (α⁻¹ • Q) ∉
      LinearMap.range (genMap (F := F) (2 ^ (q + 1)) Gs Hs (α⁻¹ • Q)) := by
    rintro ⟨⟨a, b, c⟩, h⟩
    refine hout ⟨(a, b, (c + (α - 1) * t) * α⁻¹), ?_⟩
    rw [genMap_apply] at h ⊢
    linear_combination (norm := module) h
  have := outside_count S (α⁻¹ • Q) P (2 ^ (q + 1)) rfl Gs Hs hG hH _ hout
  refine le_trans (Nat.add_le_add (countChallenges_mono S (q + 1) _ _ fun y hy _ h => ?_) ?_) this
  · obtain ⟨l1, l2, -⟩ := talk_length P y hy
    exact h.accepts (l1.trans l2.symm)
  · rw [pow_succ, mul_comm]
    exact Nat.mul_le_mul_left _ (by omega)

/-- C99: for `2 ^ (q + 1)` generators without relations and any false statement of AlmZK, at least
`N (N - 2) (N - 3) (N - 2) ^ q` of the `N ^ (q + 3)` sequences of challenges make `verify` reject. -/
theorem C99_alm_bound {q : Nat} (S : Finset F) (hS : (0 : F) ∉ S) (Gs Hs : List G)
    (hG : Gs.length = 2 ^ (q + 1)) (hH : Hs.length = 2 ^ (q + 1)) (Q : G)
    (hind : ∀ r : List F × List F × F, ¬ IsRelation Gs Hs Q r) (C_w : G) (t : F)
    (hfalse : ¬ ∃ u v : List F, u.length = 2 ^ (q + 1) ∧ v.length = 2 ^ (q + 1) ∧ C_w = dot u Gs + dot v Hs ∧
      dot u v = t) (C_r : G) (P : F → F → IpaProver F G (q + 1)) :
    countChallenges S (q + 3) (fun y => AlmAccepted Gs Hs Q (2 ^ (q + 1)) C_w t C_r (y.getD 0 0) (y.getD 1 0)
        ((P (y.getD 0 0) (y.getD 1 0)).talk (y.drop 2))) +
      (S.card - 2) * (S.card * ((S.card - 3) * (S.card - 2) ^ q)) ≤ S.card ^ (q + 3) := by
  set X := (S.card - 3) * (S.card - 2) ^ q with hX
  set n := 2 ^ (q + 1) with hn
  set W := LinearMap.range (genMap (F := F) n Gs Hs Q) with hW
  have hQW : ∀ c : F, c • Q ∈ W := fun c => ⟨(0, 0, c), by rw [genMap_apply]; simp⟩
  -- the count for `β`, `α` fixed
  have mono : ∀ β α, countChallenges S (q + 1) (fun y => AlmAccepted Gs Hs Q n C_w t C_r β α ((P β α).talk y)) ≤
      countChallenges S (q + 1) (fun y => IpaAccepted Gs Hs Q n (β • C_w + C_r + (β * β * t) • Q) (β * β * t) α
        ((P β α).talk y)) := fun β α => countChallenges_mono S (q + 1) _ _ fun y _ _ h => h.ipa
  have ne0 : ∀ {x}, x ∈ S → x ≠ 0 := fun hx e => hS (e ▸ hx)
  have simpl : ∀ β α (l : List F), AlmAccepted Gs Hs Q n C_w t C_r ((β :: α :: l).getD 0 0) ((β :: α :: l).getD 1 0)
      ((P ((β :: α :: l).getD 0 0) ((β :: α :: l).getD 1 0)).talk ((β :: α :: l).drop 2)) =
      AlmAccepted Gs Hs Q n C_w t C_r β α ((P β α).talk l) := fun _ _ _ => rfl
  by_cases hin : C_w ∈ W ∧ C_r ∈ W
  · obtain ⟨⟨⟨a, b, c⟩, rfl⟩, ⟨a', b', c'⟩, rfl⟩ := hin
    have hpt : ∀ β : F, β • genMap n Gs Hs Q (a, b, c) + genMap n Gs Hs Q (a', b', c') + (β * β * t) • Q =
        genMap n Gs Hs Q (β • a + a', β • b + b', β * c + c' + β * β * t) := by
      intro β
      have e : (β • a + a', β • b + b', β * c + c' + β * β * t) =
          β • (a, b, c) + (a', b', c') + ((0, 0, β * β * t) : (Fin n → F) × (Fin n → F) × F) := by
        simp
      rw [e, map_add, map_add, map_smul]
      congr 1
      rw [genMap_apply]
      simp
    simp only [hpt] at mono
    have hdot : ∀ β : F, ∑ j, (β • a + a') j * (β • b + b') j =
        β * β * ∑ j, a j * b j + β * (∑ j, a j * b' j + ∑ j, a' j * b j) + ∑ j, a' j * b' j := by
      intro β
      simp only [Pi.add_apply, Pi.smul_apply, smul_eq_mul, Finset.mul_sum, mul_add, ← Finset.sum_add_distrib]
      exact Finset.sum_congr rfl fun j _ => by ring
    by_cases hcc : c = 0 ∧ c' = 0
    · obtain ⟨rfl, rfl⟩ := hcc
      have hne : ∑ j, a j * b j ≠ t := by
        intro e
        refine hfalse ⟨List.ofFn a, List.ofFn b, by simp, by simp, ?_, ?_⟩
        · rw [genMap_apply, dot_ofFn_getD a Gs hG, dot_ofFn_getD b Hs hH]; simp
        · rw [dot_ofFn]; exact e
      let T := S.filter fun β => ∑ j, (β • a + a') j * (β • b + b') j = β * β * t
      have hT : T.card ≤ 2 := by
        by_contra hc
        obtain ⟨x, hx, y, hy, z, hz, h1, h2, h3⟩ := Finset.two_lt_card.1 (by omega : 2 < T.card)
        have m : ∀ {β}, β ∈ T → (β * β) • (∑ j, a j * b j - t) + β • (∑ j, a j * b' j + ∑ j, a' j * b j) +
            ∑ j, a' j * b' j ∈ (⊥ : Submodule F F) := by
          intro β hβ
          have := (Finset.mem_filter.1 hβ).2
          rw [hdot] at this
          rw [Submodule.mem_bot, smul_eq_mul, smul_eq_mul]
          linear_combination this
        exact hne (sub_eq_zero.1 ((Submodule.mem_bot F).1
          (quadratic_mem (⊥ : Submodule F F) h1 h2 h3 _ _ _ (m hx) (m hy) (m hz)).1))
      refine countChallenges_upper S T hT (q + 2) _ _ fun β hβS hβT => ?_
      have := countChallenges_upper S ∅ (le_refl _) (q + 1) X (fun l => AlmAccepted Gs Hs Q n
        (genMap n Gs Hs Q (a, b, 0)) t (genMap n Gs Hs Q (a', b', 0)) ((β :: l).getD 0 0) ((β :: l).getD 1 0) ((P ((β :: l).getD 0 0) ((β :: l).getD 1 0)).talk ((β :: l).drop 2)))
        (fun α hαS _ => ?_)
      · rwa [Finset.card_empty, Nat.sub_zero] at this
      · simp only [simpl]
        refine le_trans (Nat.add_le_add_right (mono β α) _) ?_
        refine ipa_fixed_in S hG hH hind (ne0 hαS) _ _ _ _ (fun e => hβT (Finset.mem_filter.2 ⟨hβS, ?_⟩)) _
        rw [← e]
        ring
    · let T := S.filter fun β => β * c + c' = 0
      have hT : T.card ≤ 1 := by
        rw [Finset.card_le_one]
        intro x hx y hy
        have ex := (Finset.mem_filter.1 hx).2
        have ey := (Finset.mem_filter.1 hy).2
        by_contra hxy
        have h0 : (x - y) * c = 0 := by linear_combination ex - ey
        have hc0 := (mul_eq_zero.1 h0).resolve_left (sub_ne_zero.2 hxy)
        exact hcc ⟨hc0, by rw [hc0, mul_zero, zero_add] at ex; exact ex⟩
      have key := countChallenges_upper S T hT (q + 2) ((S.card - 1) * X) (fun y => AlmAccepted Gs Hs Q n
        (genMap n Gs Hs Q (a, b, c)) t (genMap n Gs Hs Q (a', b', c')) (y.getD 0 0) (y.getD 1 0)
        ((P (y.getD 0 0) (y.getD 1 0)).talk (y.drop 2))) fun β hβS hβT => by
          have hδ : β * c + c' ≠ 0 := fun e => hβT (Finset.mem_filter.2 ⟨hβS, e⟩)
          refine countChallenges_upper S {(∑ j, (β • a + a') j * (β • b + b') j - β * β * t) * (β * c + c')⁻¹}
            (Finset.card_singleton _).le (q + 1) X _ fun α hαS hαT => ?_
          simp only [simpl]
          refine le_trans (Nat.add_le_add_right (mono β α) _) ?_
          refine ipa_fixed_in S hG hH hind (ne0 hαS) _ _ _ _ (fun e => hαT (Finset.mem_singleton.2 ?_)) _
          rw [← e]
          field_simp
          ring
      refine le_trans (Nat.add_le_add_left ?_ _) key
      rw [← mul_assoc (S.card - 2) S.card X, ← mul_assoc (S.card - 1) (S.card - 1) X]
      refine Nat.mul_le_mul_right X ?_
      rcases S.card with _ | _ | k
      · simp
      · simp
      · simp only [show k + 1 + 1 - 1 = k + 1 from rfl, show k + 1 + 1 - 2 = k from rfl]
        nlinarith
  · classical
    let T := S.filter fun β => β • C_w + C_r + (β * β * t) • Q ∈ W
    have hT : T.card ≤ 1 := by
      rw [Finset.card_le_one]
      intro x hx y hy
      have ex := (Finset.mem_filter.1 hx).2
      have ey := (Finset.mem_filter.1 hy).2
      by_contra hxy
      have hx' : x • C_w + C_r ∈ W := by simpa using W.sub_mem ex (hQW (x * x * t))
      have hy' : y • C_w + C_r ∈ W := by simpa using W.sub_mem ey (hQW (y * y * t))
      have hw : C_w ∈ W := by
        have := W.smul_mem (x - y)⁻¹ (W.sub_mem hx' hy')
        rwa [show (x - y)⁻¹ • (x • C_w + C_r - (y • C_w + C_r)) = ((x - y)⁻¹ * (x - y)) • C_w by module,
          inv_mul_cancel₀ (sub_ne_zero.2 hxy), one_smul] at this
      refine hin ⟨hw, ?_⟩
      simpa using W.sub_mem hx' (W.smul_mem x hw)
    have key := countChallenges_upper S T hT (q + 2) (S.card * X) (fun y => AlmAccepted Gs Hs Q n C_w t C_r
        (y.getD 0 0) (y.getD 1 0) ((P (y.getD 0 0) (y.getD 1 0)).talk (y.drop 2))) fun β hβS hβT => by
      have := countChallenges_upper S ∅ (le_refl _) (q + 1) X (fun l => AlmAccepted Gs Hs Q n C_w t C_r
        ((β :: l).getD 0 0) ((β :: l).getD 1 0) ((P ((β :: l).getD 0 0) ((β :: l).getD 1 0)).talk ((β :: l).drop 2)))
        (fun α _ _ => by
          simp only [simpl]
          refine le_trans (Nat.add_le_add_right (mono β α) _) ?_
          exact ipa_fixed_out S hG hH _ _ (fun e => hβT (Finset.mem_filter.2 ⟨hβS, e⟩)) _)
      rwa [Finset.card_empty, Nat.sub_zero] at this
    refine le_trans (Nat.add_le_add_left (Nat.mul_le_mul_right _ (by omega)) _) key


/-- C99: in particular the soundness error of AlmZK with `k = q + 1` rounds is at most `(2 k + 3) / N`. -/
theorem C99_alm_soundness_error {q : Nat} (S : Finset F) (hS : (0 : F) ∉ S) (Gs Hs : List G)
    (hG : Gs.length = 2 ^ (q + 1)) (hH : Hs.length = 2 ^ (q + 1)) (Q : G)
    (hind : ∀ r : List F × List F × F, ¬ IsRelation Gs Hs Q r) (C_w : G) (t : F)
    (hfalse : ¬ ∃ u v : List F, u.length = 2 ^ (q + 1) ∧ v.length = 2 ^ (q + 1) ∧ C_w = dot u Gs + dot v Hs ∧
      dot u v = t) (C_r : G) (P : F → F → IpaProver F G (q + 1)) :
    countChallenges S (q + 3) (fun y => AlmAccepted Gs Hs Q (2 ^ (q + 1)) C_w t C_r (y.getD 0 0) (y.getD 1 0)
        ((P (y.getD 0 0) (y.getD 1 0)).talk (y.drop 2))) ≤ (2 * (q + 1) + 3) * S.card ^ (q + 2) := by
  have h := C99_alm_bound S hS Gs Hs hG hH Q hind C_w t hfalse C_r P
  have hb := (prod_bound S.card (3 :: 1 :: 4 :: List.replicate q 3) (by simp)).2
  simp only [List.map_cons, List.prod_cons, List.map_replicate, List.prod_replicate, List.length_cons,
    List.length_replicate, List.sum_cons, List.sum_replicate, smul_eq_mul, Nat.add_sub_cancel,
    Nat.reduceSub] at hb
  rw [show S.card + 1 - 4 = S.card - 3 by omega,
    show S.card + 1 - 3 = S.card - 2 by omega, show q + 1 + 1 = q + 2 from rfl, show q + 2 + 1 = q + 3 from rfl] at hb
  rw [show 2 + (0 + (3 + q * 2)) = 2 * (q + 1) + 3 by omega] at hb
  omega

end

/-! ### From the closed form to a run -/

section
variable [DecidableEq G]

/-- A conversation that satisfies the closed form of the check is accepted in some run. -/
theorem AlmAccepted.of_accepts (cod : Codec G) (enc : F → Vector UInt8 64)
    (henc : ∀ y, (leNat (enc y).toList : F) = y) (Gs Hs : List G) (Q C_w C_r : G) (t β α : F) (c : IpaPath F G)
    (hG : Gs.length = 2 ^ c.xs.length) (hH : Hs.length = 2 ^ c.xs.length) (h64 : c.xs.length < 64)
    (hL : c.Ls.length = c.xs.length) (hR : c.Rs.length = c.xs.length)
    (h : c.Accepts Gs Hs (α⁻¹ • Q)
      (β • C_w + C_r + (β * β * t) • Q - ((α - 1) * (β * β * t)) • (α⁻¹ • Q))) :
    AlmAccepted Gs Hs Q (2 ^ c.xs.length) C_w t C_r β α c := by
  set cx := programmed cod enc (β :: α :: c.xs) with hcx
  set p : Ipa.NoZK F := ⟨c.Ls.map cx.compress, c.Rs.map cx.compress, c.a, c.b⟩ with hp
  set P := β • C_w + C_r + (β * β * t) • Q with hPd
  set lg := almHead (cx.compress C_r) (cx.compress P) with hlg
  have sq : ∀ log, squeeze F cx.ro log = _ := squeeze_programmed cod enc henc _
  have c4 : almBeta F cx.ro [] (cx.compress C_r) = β := by rw [almBeta, sq]; rfl
  have c5 : ipaAlpha F cx.ro lg (2 ^ c.xs.length) = α := by rw [ipaAlpha, sq]; rfl
  have c6 : ipaChallenges F cx.ro lg (2 ^ c.xs.length) p.L_vec p.R_vec = c.xs :=
    roundChallenges_programmed cod enc henc _ c.xs _ _ _ (by simp [hp, hL]) (by simp [hp, hR]) rfl
  refine ⟨cx, ⟨[]⟩, ⟨lg ++ headLog (2 ^ c.xs.length) ++ roundsLog p.L_vec p.R_vec⟩, c4, c5, c6, ?_⟩
  have hv : Verifiable cx p Gs Hs (2 ^ c.xs.length) := by
    refine ⟨?_, ?_, by simp [hp, hL, h64], by simp [hp, hL], ?_, ?_⟩
    · intro y hy
      obtain ⟨L, -, rfl⟩ := List.mem_map.1 hy
      rw [cx.decompress_compress]; rfl
    · intro y hy
      obtain ⟨L, -, rfl⟩ := List.mem_map.1 hy
      rw [cx.decompress_compress]; rfl
    · rw [hG]; simp [hp, hL, hR]
    · rw [hH]; simp [hp, hL, hR]
  have := C19_ipa_verdict cx p ⟨lg⟩ Gs Hs Q (2 ^ c.xs.length) P (β * β * t) c.Ls c.Rs rfl rfl hv
  simp only [c5, c6] at this
  have lL : p.L_vec.length = c.xs.length := by simp [hp, hL]
  have lR : p.R_vec.length = c.xs.length := by simp [hp, hR]
  rw [lL, lR, min_self] at this
  rw [alm_verify_eq cx _ _ Gs Hs Q _ C_w t C_r rfl]
  simp only [c4, List.nil_append]
  rw [← hPd, ← hlg, show (⟨c.Ls.map cx.compress, c.Rs.map cx.compress, c.a, c.b⟩ : Ipa.NoZK F) = p from rfl, this]
  congr 2
  rw [decide_eq_true_eq]
  exact h

omit [DecidableEq G] in
/-- The masked vectors: what the prover of AlmZK feeds into the inner-product argument. -/
theorem alm_point {m : Nat} (Gs Hs : List G) (hG : Gs.length = m) (hH : Hs.length = m) (Q : G) (a b a' b' : Fin m → F)
    (t β α : F) (hα : α ≠ 0) :
    β • (dot (List.ofFn a) Gs + dot (List.ofFn b) Hs) + (dot (List.ofFn a') Gs + dot (List.ofFn b') Hs) +
        (β * β * t) • Q - ((α - 1) * (β * β * t)) • (α⁻¹ • Q) =
      dot (List.ofFn (β • a + a')) Gs + dot (List.ofFn (β • b + b')) Hs + (β * β * t) • (α⁻¹ • Q) := by
  have e : ∀ (u v : Fin m → F) (l : List G), l.length = m →
      dot (List.ofFn (β • u + v)) l = β • dot (List.ofFn u) l + dot (List.ofFn v) l := by
    intro u v l hl
    rw [dot_ofFn_getD _ l hl, dot_ofFn_getD _ l hl, dot_ofFn_getD _ l hl, Finset.smul_sum, ← Finset.sum_add_distrib]
    exact Finset.sum_congr rfl fun j _ => by simp only [Pi.add_apply, Pi.smul_apply, smul_eq_mul]; module
  rw [e _ _ Gs hG, e _ _ Hs hH]
  have eQ : Q = α • (α⁻¹ • Q) := by rw [smul_smul, mul_inv_cancel₀ hα, one_smul]
  conv_lhs => rw [eQ]
  rw [smul_smul α⁻¹ α, inv_mul_cancel₀ hα]
  module


/-! ### Provers -/

/-- A prover of the inner-product argument for the masked vectors that satisfies the closed form is accepted. -/
theorem alm_accepted_of_talk {q : Nat} (h64 : q < 64) (cod : Codec G) (enc : F → Vector UInt8 64)
    (henc : ∀ y, (leNat (enc y).toList : F) = y) {Gs Hs : List G} (hG : Gs.length = 2 ^ q) (hH : Hs.length = 2 ^ q)
    (Q : G) (a b a' b' : Fin (2 ^ q) → F) (t β α : F) (hα : α ≠ 0) (P : IpaProver F G q) (y : List F)
    (hy : y.length = q) (h : (P.talk y).Accepts Gs Hs (α⁻¹ • Q) (dot (List.ofFn (β • a + a')) Gs +
      dot (List.ofFn (β • b + b')) Hs + (β * β * t) • (α⁻¹ • Q))) :
    AlmAccepted Gs Hs Q (2 ^ q) (dot (List.ofFn a) Gs + dot (List.ofFn b) Hs) t
      (dot (List.ofFn a') Gs + dot (List.ofFn b') Hs) β α (P.talk y) := by
  obtain ⟨l1, l2, l3⟩ := talk_length P y hy
  have hq : (P.talk y).xs.length = q := by rw [l3, hy]
  have := AlmAccepted.of_accepts cod enc henc Gs Hs Q (dot (List.ofFn a) Gs + dot (List.ofFn b) Hs)
    (dot (List.ofFn a') Gs + dot (List.ofFn b') Hs) t β α (P.talk y) (by rw [hq, hG]) (by rw [hq, hH])
    (by rw [hq]; exact h64) (by rw [hq, l1]) (by rw [hq, l2]) (by rw [alm_point Gs Hs hG hH Q _ _ _ _ t β α hα]; exact h)
  rwa [hq] at this

theorem masked_dot {m : Nat} (a b a' b' : Fin m → F) (β : F) :
    dot (List.ofFn (β • a + a')) (List.ofFn (β • b + b')) = β * β * dot (List.ofFn a) (List.ofFn b) +
      β * (dot (List.ofFn a) (List.ofFn b') + dot (List.ofFn a') (List.ofFn b)) +
      dot (List.ofFn a') (List.ofFn b') := by
  simp only [dot_ofFn, smul_eq_mul, Pi.add_apply, Pi.smul_apply, Finset.mul_sum, mul_add, ← Finset.sum_add_distrib]
  exact Finset.sum_congr rfl fun j _ => by ring

/-- C64: for a true statement of AlmZK the honest prover, with masks as `create` draws them, is accepted for all
sequences of challenges. -/
theorem C64_alm_honest {q : Nat} (h64 : q < 64) (cod : Codec G) (enc : F → Vector UInt8 64)
    (henc : ∀ y, (leNat (enc y).toList : F) = y) (S : Finset F) (hS : (0 : F) ∉ S) (Gs Hs : List G)
    (hG : Gs.length = 2 ^ q) (hH : Hs.length = 2 ^ q) (Q : G) (a b r s : List F) (ha : a.length = 2 ^ q)
    (hb : b.length = 2 ^ q) (hr : r.length = 2 ^ q) (hs : s.length = 2 ^ q) (h1 : dot a s + dot r b = 0)
    (h2 : dot r s = 0) :
    countChallenges S (q + 2) (fun y =>
      AlmAccepted Gs Hs Q (2 ^ q) (dot a Gs + dot b Hs) (dot a b) (dot r Gs + dot s Hs) (y.getD 0 0) (y.getD 1 0)
        ((honestProver ((y.getD 1 0)⁻¹ • Q) q Gs Hs (List.zipWith (fun u v => y.getD 0 0 * u + v) a r)
          (List.zipWith (fun u v => y.getD 0 0 * u + v) b s)).talk (y.drop 2))) = S.card ^ (q + 2) := by
  refine countChallenges_all S _ _ fun y hy hyS => ?_
  match y, hy with
  | β :: α :: xs, hy =>
    have hα : α ≠ 0 := fun h => hS (h ▸ hyS α (by simp))
    have hx : xs.length = q := by simpa using hy
    change AlmAccepted Gs Hs Q (2 ^ q) _ _ _ β α ((honestProver (α⁻¹ • Q) q Gs Hs
      (List.zipWith (fun u v => β * u + v) a r) (List.zipWith (fun u v => β * u + v) b s)).talk xs)
    obtain ⟨af, rfl⟩ : ∃ af : Fin (2 ^ q) → F, a = List.ofFn af := ⟨_, getD_list a ha⟩
    obtain ⟨bf, rfl⟩ : ∃ bf : Fin (2 ^ q) → F, b = List.ofFn bf := ⟨_, getD_list b hb⟩
    obtain ⟨rf, rfl⟩ : ∃ rf : Fin (2 ^ q) → F, r = List.ofFn rf := ⟨_, getD_list r hr⟩
    obtain ⟨sf, rfl⟩ : ∃ sf : Fin (2 ^ q) → F, s = List.ofFn sf := ⟨_, getD_list s hs⟩
    rw [zipWith_ofFn, zipWith_ofFn]
    change AlmAccepted Gs Hs Q (2 ^ q) _ _ _ β α ((honestProver (α⁻¹ • Q) q Gs Hs
      (List.ofFn (β • af + rf)) (List.ofFn (β • bf + sf))).talk xs)
    refine alm_accepted_of_talk h64 cod enc henc hG hH Q _ _ _ _ _ β α hα _ xs hx ?_
    have := honestProver_accepts (α⁻¹ • Q) q Gs Hs (List.ofFn (β • af + rf)) (List.ofFn (β • bf + sf)) xs hG hH
      (by simp) (by simp) hx
    rw [masked_dot, h1, h2, mul_zero, add_zero, add_zero] at this
    exact this

/-- Masks with given products. -/
theorem masks_exist {n : Nat} (hn : 2 ≤ n) (a b : Fin n → F) (i : Fin n) (hi : a i ≠ 0) (m p : F) :
    ∃ a' b' : Fin n → F, dot (List.ofFn a) (List.ofFn b') + dot (List.ofFn a') (List.ofFn b) = m ∧
      dot (List.ofFn a') (List.ofFn b') = p := by
  classical
  have : Nontrivial (Fin n) := Fin.nontrivial_iff_two_le.2 hn
  obtain ⟨j, hj⟩ := exists_ne i
  refine ⟨Pi.single j p, Pi.single i ((m - a j - p * b j) * (a i)⁻¹) + Pi.single j 1, ?_, ?_⟩
  · simp only [dot_ofFn, smul_eq_mul, Pi.add_apply, mul_add, Finset.sum_add_distrib]
    simp [Pi.single_apply]
    field_simp
    ring
  · simp only [dot_ofFn, smul_eq_mul]
    simp [Pi.single_apply, hj]

/-- C99: a cheating prover of AlmZK. For vectors `a ≠ 0` and `b` with a product different from `t` there is a prover of
the claim that the product is `t` that is accepted for all but `N (N - 2) (N - 3) (N - 2) ^ q` of the `N ^ (q + 3)`
sequences of challenges. -/
theorem C99_alm_cheat {q : Nat} (h64 : q + 1 < 64) (cod : Codec G) (enc : F → Vector UInt8 64)
    (henc : ∀ y, (leNat (enc y).toList : F) = y) (S : Finset F) (hS : (0 : F) ∉ S) {x₁ x₂ x₃ : F}
    (h1 : x₁ ∈ S) (h2 : x₂ ∈ S) (h3 : x₃ ∈ S) (n12 : x₁ ≠ x₂) (n13 : x₁ ≠ x₃) (n23 : x₂ ≠ x₃)
    (s12 : x₁ + x₂ ≠ 0) (s13 : x₁ + x₃ ≠ 0) (s23 : x₂ + x₃ ≠ 0) (Gs Hs : List G)
    (hG : Gs.length = 2 ^ (q + 1)) (hH : Hs.length = 2 ^ (q + 1)) (Q : G) (a b : List F)
    (ha : a.length = 2 ^ (q + 1)) (hb : b.length = 2 ^ (q + 1)) (ha0 : ∃ y ∈ a, y ≠ 0) (t : F) :
    ∃ (C_r : G) (P : F → F → IpaProver F G (q + 1)),
      S.card ^ (q + 3) ≤ countChallenges S (q + 3) (fun y =>
        AlmAccepted Gs Hs Q (2 ^ (q + 1)) (dot a Gs + dot b Hs) t C_r (y.getD 0 0) (y.getD 1 0)
          ((P (y.getD 0 0) (y.getD 1 0)).talk (y.drop 2))) +
        (S.card - 2) * (S.card * ((S.card - 3) * (S.card - 2) ^ q)) := by
  classical
  obtain ⟨af, rfl⟩ : ∃ af : Fin (2 ^ (q + 1)) → F, a = List.ofFn af := ⟨_, getD_list a ha⟩
  obtain ⟨bf, rfl⟩ : ∃ bf : Fin (2 ^ (q + 1)) → F, b = List.ofFn bf := ⟨_, getD_list b hb⟩
  obtain ⟨_, hm, hi⟩ := ha0
  obtain ⟨i, rfl⟩ := List.mem_ofFn.1 hm
  set s := dot (List.ofFn af) (List.ofFn bf) with hs
  obtain ⟨a', b', e1, e2⟩ := masks_exist (by rw [pow_succ]; have := Nat.one_le_two_pow (n := q); omega) af bf i hi
    (-((s - t) * (x₁ + x₂))) ((s - t) * (x₁ * x₂))
  have hD : ∀ β, dot (List.ofFn (β • af + a')) (List.ofFn (β • bf + b')) = β * β * t +
      (s - t) * ((β - x₁) * (β - x₂)) := by
    intro β
    rw [masked_dot, e1, e2, ← hs]
    ring
  let P : F → F → IpaProver F G (q + 1) := fun β α =>
    if β = x₁ ∨ β = x₂ then honestProver (α⁻¹ • Q) (q + 1) Gs Hs (List.ofFn (β • af + a')) (List.ofFn (β • bf + b'))
    else cheatFirst x₁ x₂ x₃ (α⁻¹ • Q) q Gs Hs (List.ofFn (β • af + a')) (List.ofFn (β • bf + b'))
      (-((s - t) * ((β - x₁) * (β - x₂))))
  refine ⟨dot (List.ofFn a') Gs + dot (List.ofFn b') Hs, P, ?_⟩
  have ne0 : ∀ {x}, x ∈ S → x ≠ 0 := fun hx e => hS (e ▸ hx)
  have simpl : ∀ β α (l : List F), AlmAccepted Gs Hs Q (2 ^ (q + 1)) (dot (List.ofFn af) Gs + dot (List.ofFn bf) Hs) t
      (dot (List.ofFn a') Gs + dot (List.ofFn b') Hs) ((β :: α :: l).getD 0 0) ((β :: α :: l).getD 1 0)
      ((P ((β :: α :: l).getD 0 0) ((β :: α :: l).getD 1 0)).talk ((β :: α :: l).drop 2)) =
      AlmAccepted Gs Hs Q (2 ^ (q + 1)) (dot (List.ofFn af) Gs + dot (List.ofFn bf) Hs) t
      (dot (List.ofFn a') Gs + dot (List.ofFn b') Hs) β α ((P β α).talk l) := fun _ _ _ => rfl
  have c2 : ({x₁, x₂} : Finset F).card = 2 := Finset.card_pair n12
  have c3 : ({x₁, x₂, x₃} : Finset F).card = 3 := by
    rw [Finset.card_eq_three]; exact ⟨x₁, x₂, x₃, n12, n13, n23, rfl⟩
  refine countChallenges_step S {x₁, x₂} ?_ c2 _ _ _ ?_ ?_
  · intro z hz
    simp only [Finset.mem_insert, Finset.mem_singleton] at hz
    rcases hz with rfl | rfl <;> assumption
  · intro β hβ
    simp only [Finset.mem_insert, Finset.mem_singleton] at hβ
    refine (countChallenges_all S _ _ fun y hy hyS => ?_).ge
    match y, hy with
    | α :: xs, hy =>
      have hα := ne0 (hyS α List.mem_cons_self)
      have hx : xs.length = q + 1 := by simpa using hy
      rw [simpl]
      refine alm_accepted_of_talk h64 cod enc henc hG hH Q _ _ _ _ _ β α hα _ xs hx ?_
      have := honestProver_accepts (α⁻¹ • Q) (q + 1) Gs Hs (List.ofFn (β • af + a')) (List.ofFn (β • bf + b')) xs hG hH
        (by simp) (by simp) hx
      rw [hD, show (s - t) * ((β - x₁) * (β - x₂)) = 0 by rcases hβ with rfl | rfl <;> simp, add_zero] at this
      simpa only [P, if_pos hβ] using this
  · intro β hβS hβ
    simp only [Finset.mem_insert, Finset.mem_singleton] at hβ
    have := countChallenges_step S ∅ (Finset.empty_subset S) Finset.card_empty (q + 1)
      ((S.card - 3) * (S.card - 2) ^ q) (fun l => AlmAccepted Gs Hs Q (2 ^ (q + 1))
        (dot (List.ofFn af) Gs + dot (List.ofFn bf) Hs) t
        (dot (List.ofFn a') Gs + dot (List.ofFn b') Hs) ((β :: l).getD 0 0) ((β :: l).getD 1 0)
        ((P ((β :: l).getD 0 0) ((β :: l).getD 1 0)).talk ((β :: l).drop 2))) (by simp) ?_
    · rwa [Nat.sub_zero] at this
    intro α hαS _
    simp only [simpl]
    have hP : ∀ x xs, xs.length = q → (x₁ ∈ xs ∨ x₂ ∈ xs ∨ x = x₁ ∨ x = x₂ ∨ x = x₃) →
        AlmAccepted Gs Hs Q (2 ^ (q + 1)) (dot (List.ofFn af) Gs + dot (List.ofFn bf) Hs) t
          (dot (List.ofFn a') Gs + dot (List.ofFn b') Hs) β α ((P β α).talk (x :: xs)) := by
      intro x xs hxs h
      refine alm_accepted_of_talk h64 cod enc henc hG hH Q _ _ _ _ _ β α (ne0 hαS) _ (x :: xs) (by simp [hxs]) ?_
      have := cheatFirst_accepts x₁ x₂ x₃ s12 s13 s23 (α⁻¹ • Q) q Gs Hs (List.ofFn (β • af + a'))
        (List.ofFn (β • bf + b')) (-((s - t) * ((β - x₁) * (β - x₂)))) x xs hG hH (by simp) (by simp) hxs h
      rw [hD, add_neg_cancel_right] at this
      simpa only [P, if_neg hβ] using this
    refine countChallenges_step S {x₁, x₂, x₃} ?_ c3 _ _ _ ?_ ?_
    · intro z hz
      simp only [Finset.mem_insert, Finset.mem_singleton] at hz
      rcases hz with rfl | rfl | rfl <;> assumption
    · intro x hx
      simp only [Finset.mem_insert, Finset.mem_singleton] at hx
      rw [countChallenges_all S _ _ fun y hy _ => hP x y hy (.inr (.inr hx))]
    · intro x _ _
      rw [← countChallenges_hit S h1 h2 n12 q]
      exact Nat.add_le_add_right (countChallenges_mono S q _ _ fun y hy _ hh => hP x y hy (by tauto)) _

/-- C99: the soundness error of AlmZK, exactly. For `2 ^ (q + 1)` generators without relations and vectors `a ≠ 0` and
`b` whose product is not `t`, no prover of the claim that it is `t` is accepted more often than the one of
`C99_alm_cheat`. -/
theorem C99_alm_exact {q : Nat} (h64 : q + 1 < 64) (cod : Codec G) (enc : F → Vector UInt8 64)
    (henc : ∀ y, (leNat (enc y).toList : F) = y) (S : Finset F) (hS : (0 : F) ∉ S) {x₁ x₂ x₃ : F}
    (h1 : x₁ ∈ S) (h2 : x₂ ∈ S) (h3 : x₃ ∈ S) (n12 : x₁ ≠ x₂) (n13 : x₁ ≠ x₃) (n23 : x₂ ≠ x₃)
    (s12 : x₁ + x₂ ≠ 0) (s13 : x₁ + x₃ ≠ 0) (s23 : x₂ + x₃ ≠ 0) (Gs Hs : List G)
    (hG : Gs.length = 2 ^ (q + 1)) (hH : Hs.length = 2 ^ (q + 1)) (Q : G)
    (hind : ∀ r : List F × List F × F, ¬ IsRelation Gs Hs Q r) (a b : List F)
    (ha : a.length = 2 ^ (q + 1)) (hb : b.length = 2 ^ (q + 1)) (ha0 : ∃ y ∈ a, y ≠ 0) (t : F) (hne : dot a b ≠ t) :
    IsGreatest (Set.range fun P : G × (F → F → IpaProver F G (q + 1)) => countChallenges S (q + 3) (fun y =>
        AlmAccepted Gs Hs Q (2 ^ (q + 1)) (dot a Gs + dot b Hs) t P.1 (y.getD 0 0) (y.getD 1 0)
          ((P.2 (y.getD 0 0) (y.getD 1 0)).talk (y.drop 2))))
      (S.card ^ (q + 3) - (S.card - 2) * (S.card * ((S.card - 3) * (S.card - 2) ^ q))) := by
  classical
  have hfalse : ¬ ∃ a' b' : List F, a'.length = 2 ^ (q + 1) ∧ b'.length = 2 ^ (q + 1) ∧
      dot a Gs + dot b Hs = dot a' Gs + dot b' Hs ∧ dot a' b' = t := by
    rintro ⟨a', b', ha', hb', h, h'⟩
    have e := @genMap_injective F G _ _ _ _ Gs Hs hG hH Q hind 1 one_ne_zero
      ((fun j => a.getD j 0), (fun j => b.getD j 0), 0) ((fun j => a'.getD j 0), (fun j => b'.getD j 0), 0) (by
        rw [genMap_apply, genMap_apply]
        rw [getD_list a ha, getD_list b hb, getD_list a' ha', getD_list b' hb', dot_ofFn_getD _ Gs hG,
          dot_ofFn_getD _ Gs hG, dot_ofFn_getD _ Hs hH, dot_ofFn_getD _ Hs hH] at h
        rw [one_smul, ← add_assoc, ← add_assoc]
        exact congrArg (· + (0 : F) • Q) h)
    have ea : a = a' := by rw [getD_list a ha, getD_list a' ha']; exact congrArg List.ofFn (congrArg (fun z => z.1) e)
    have eb : b = b' := by rw [getD_list b hb, getD_list b' hb']; exact congrArg List.ofFn (congrArg (fun z => z.2.1) e)
    exact hne (ea ▸ eb ▸ h')
  have up := C99_alm_bound S hS Gs Hs hG hH Q hind _ t hfalse
  refine ⟨?_, ?_⟩
  · obtain ⟨C_r, P, hP⟩ := C99_alm_cheat h64 cod enc henc S hS h1 h2 h3 n12 n13 n23 s12 s13 s23 Gs Hs hG hH Q a b ha hb
      ha0 t
    exact ⟨(C_r, P), by have := up C_r P; dsimp only; omega⟩
  · rintro _ ⟨P, rfl⟩
    have := up P.1 P.2
    dsimp only; omega

section
open Toy

/-- C99: four independent generators on each side: the best prover of the claim that `(1, 2, 3, 4)` and `(5, 6, 7, 9)`
have the product 75 (it is 74) is accepted for 6841200 of a hundred million sequences of challenges. -/
example (cd : Codec (Fin 9 → K)) : IsGreatest (Set.range fun P : (Fin 9 → K) × (K → K → IpaProver K (Fin 9 → K) 2) =>
    countChallenges (Finset.univ.erase (0 : K)) 4 (fun y =>
      AlmAccepted unitG unitH unitQ 4 (dot [(1 : K), 2, 3, 4] unitG + dot [(5 : K), 6, 7, 9] unitH)
        75 P.1 (y.getD 0 0) (y.getD 1 0) ((P.2 (y.getD 0 0) (y.getD 1 0)).talk (y.drop 2)))) 6841200 := by
  have := C99_alm_exact (F := K) (G := Fin 9 → K) (q := 1) (by decide) cd exEnc exEnc_value
    (Finset.univ.erase (0 : K)) (by decide +kernel) (x₁ := 1) (x₂ := 2) (x₃ := 3)
    (by decide +kernel) (by decide +kernel) (by decide +kernel) (by decide +kernel) (by decide +kernel)
    (by decide +kernel) (by decide +kernel) (by decide +kernel) (by decide +kernel)
    unitG unitH rfl rfl unitQ unit_no_relation [1, 2, 3, 4] [5, 6, 7, 9] rfl rfl ⟨1, by simp, by decide +kernel⟩ 75
    (by decide +kernel)
  have e : (Finset.univ.erase (0 : K)).card = 100 := by decide +kernel
  rwa [e] at this

/-- C64: the masks `(1, 0, 3, 0)` and `(0, 2, 0, 43)` are as `create` draws them. -/
example (cd : Codec (Fin 9 → K)) : countChallenges (Finset.univ.erase (0 : K)) 4 (fun y =>
      AlmAccepted unitG unitH unitQ 4 (dot [(1 : K), 2, 3, 4] unitG + dot [(5 : K), 6, 7, 9] unitH) 74
        (dot [(1 : K), 0, 3, 0] unitG + dot [(0 : K), 2, 0, 43] unitH) (y.getD 0 0) (y.getD 1 0)
        ((honestProver ((y.getD 1 0)⁻¹ • unitQ) 2 unitG unitH
          (List.zipWith (fun u v => y.getD 0 0 * u + v) [1, 2, 3, 4] [1, 0, 3, 0])
          (List.zipWith (fun u v => y.getD 0 0 * u + v) [5, 6, 7, 9] [0, 2, 0, 43])).talk (y.drop 2))) = 100000000 := by
  have := C64_alm_honest (F := K) (G := Fin 9 → K) (q := 2) (by decide) cd exEnc exEnc_value
    (Finset.univ.erase (0 : K)) (by decide +kernel) unitG unitH rfl rfl unitQ [1, 2, 3, 4] [5, 6, 7, 9] [1, 0, 3, 0]
    [0, 2, 0, 43] rfl rfl rfl rfl (by decide +kernel) (by decide +kernel)
  have e : (Finset.univ.erase (0 : K)).card = 100 := by decide +kernel
  have e2 : dot [(1 : K), 2, 3, 4] [(5 : K), 6, 7, 9] = 74 := by decide +kernel
  rw [e, e2] at this
  exact this.trans (by norm_num)

end

end

end Qesa.Props
