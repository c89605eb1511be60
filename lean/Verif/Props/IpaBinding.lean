import Verif.Props.IpaSound
/- The challenges of the inner-product arguments do not bind the statement: C59, C60. -/
namespace Qesa.Props
open Qesa Spec Ipa
set_option linter.unusedSectionVars false
variable {F G : Type} [Field F] [AddCommGroup G] [Module F G] [DecidableEq G]

/-- Without relations between the generators openings are unique. -/
theorem opening_unique {n : Nat} {Gs Hs : List G} {Q : G} (hG : Gs.length = n) (hH : Hs.length = n)
    (hind : ∀ r : List F × List F × F, ¬ IsRelation Gs Hs Q r) {u v u' v' : List F} {w w' : F}
    (hu : u.length = n) (hu' : u'.length = n) (hv : v.length = n) (hv' : v'.length = n)
    (h : dot u Gs + dot v Hs + w • Q = dot u' Gs + dot v' Hs + w' • Q) :
    u = u' ∧ v = v' ∧ w = w' := by
  have l1 : ∀ i, (![u, u'] i).length = n := by intro i; fin_cases i <;> assumption
  have l2 : ∀ i, (![v, v'] i).length = n := by intro i; fin_cases i <;> assumption
  have hr := hind (lin n ![1, -1] ![u, u'], lin n ![1, -1] ![v, v'], w - w')
  have hz : ∀ y ∈ lin n ![1, -1] ![u, u'] ++ lin n ![1, -1] ![v, v'] ++ [w - w'], y = 0 := by
    by_contra hc
    push Not at hc
    refine hr ⟨by simp [hG], by simp [hH], hc, ?_⟩
    simp only
    rw [dot_lin _ _ _ _ l1 hG, dot_lin _ _ _ _ l2 hH, Fin.sum_univ_two, Fin.sum_univ_two]
    simp only [Matrix.cons_val_zero, Matrix.cons_val_one, one_smul, neg_smul, sub_smul]
    rw [← sub_eq_zero] at h
    rw [← h]
    abel
  have heq : ∀ (p p' : List F), p.length = n → p'.length = n →
      (∀ y ∈ lin n ![1, -1] ![p, p'], y = 0) → p = p' := by
    intro p p' hp hp' hz
    rw [getD_list p hp, getD_list p' hp']
    congr 1
    funext j
    have := lin_zero hz j
    rw [Fin.sum_univ_two] at this
    simp only [Matrix.cons_val_zero, Matrix.cons_val_one, one_mul, neg_mul] at this
    exact add_neg_eq_zero.1 this
  refine ⟨heq u u' hu hu' fun y hy => hz y ?_, heq v v' hv hv' fun y hy => hz y ?_,
    sub_eq_zero.1 (hz _ (by simp))⟩
  · exact List.mem_append_left _ (List.mem_append_left _ hy)
  · exact List.mem_append_left _ (List.mem_append_right _ hy)

/-- C59, finding: all challenges of `NoZK::verify` are determined by the transcript before the call,
`n` and the points of the proof; neither `P` nor `t` nor the generators are hashed. -/
theorem C59_ipa_challenges_ignore_statement (cx : Ctx G) (p : NoZK F) (tr tr1 tr2 : Transcript)
    (Gs Hs Gs' Hs' : List G) (Q Q' : G) (n : Nat) (P P' : G) (t t' : F) (v v' : Bool)
    (h : p.verify cx tr Gs Hs Q n P t = .ok (v, tr1))
    (h' : p.verify cx tr Gs' Hs' Q' n P' t' = .ok (v', tr2)) : tr1 = tr2 := by
  have e1 := C11_ipa_verify_log cx p tr tr1 Gs Hs Q n P t v h
  have e2 := C11_ipa_verify_log cx p tr tr2 Gs' Hs' Q' n P' t' v' h'
  cases tr1
  cases tr2
  simp_all

/-- C59, finding: for *every* proof with non-zero challenges and every `t` there is exactly one `P` for
which `verify` accepts; it can be computed after the challenges. -/
theorem C59_ipa_commitment_after_challenges (cx : Ctx G) (p : NoZK F) (tr : Transcript)
    (Gs Hs : List G) (Q : G) (n : Nat) (t : F) (hv : Verifiable cx p Gs Hs n)
    (hx : ∀ x ∈ ipaChallenges F cx.ro tr.log n p.L_vec p.R_vec, x ≠ 0) :
    ∃! P : G, ∃ tr', p.verify cx tr Gs Hs Q n P t = .ok (true, tr') := by
  obtain ⟨Ls, hL⟩ := (decodable_iff cx _).1 hv.1
  obtain ⟨Rs, hR⟩ := (decodable_iff cx _).1 hv.2.1
  simp only [fun P => C19_ipa_verdict cx p tr Gs Hs Q n P t Ls Rs hL hR hv, Except.ok.injEq,
    Prod.mk.injEq, decide_eq_true_eq, exists_and_left, exists_eq', and_true]
  set xs := ipaChallenges F cx.ro tr.log n p.L_vec p.R_vec with hxs
  set α := ipaAlpha F cx.ro tr.log n
  have hprod : xs.prod ≠ 0 := by
    rw [Ne, List.prod_eq_zero_iff]
    exact fun h => hx 0 h rfl
  have hf : ∀ P : G, foldedP Ls Rs xs P = xs.prod • P + foldedP Ls Rs xs 0 := by
    intro P; simp [foldedP]
  generalize p.a • combined (weightG xs) p.L_vec.length (min p.L_vec.length p.R_vec.length) Gs +
    p.b • combined (weightH xs) p.L_vec.length (min p.L_vec.length p.R_vec.length) Hs +
    (p.a * p.b) • α⁻¹ • Q = e
  have eq : ∀ P : G, e = foldedP Ls Rs xs (P - ((α - 1) * t) • α⁻¹ • Q) ↔
      P = xs.prod⁻¹ • (e - foldedP Ls Rs xs 0) + ((α - 1) * t) • α⁻¹ • Q := by
    intro P
    rw [hf]
    constructor
    · intro h
      rw [h, add_sub_cancel_right, smul_smul, inv_mul_cancel₀ hprod, one_smul, sub_add_cancel]
    · intro h
      rw [h, add_sub_cancel_right, smul_smul, mul_inv_cancel₀ hprod, one_smul, sub_add_cancel]
  simp only [eq]
  exact ⟨_, rfl, fun _ h => h⟩

/-- C59, finding: false statements are accepted. For all vectors `a, b` and every `t ≠ ⟨a,b⟩` there is a
`P`, computed after the challenges, for which the honest proof from `a, b` is accepted with claimed
product `t`; without relations between the generators, no vectors at all make this claim true. -/
theorem C59_ipa_false_statement (cx : Ctx G) (tr tr' : Transcript) (Gs Hs : List G) (Q : G)
    (a b : List F) (p : NoZK F) (h : Ipa.create cx tr Gs Hs Q a b = .ok (p, tr'))
    (hn : Gs.length < 2 ^ 64) (t : F) (ht : t ≠ dot a b) :
    ∃ P : G, p.verify cx tr Gs Hs Q Gs.length P t = .ok (true, tr') ∧
      ((∀ r : List F × List F × F, ¬ IsRelation Gs Hs Q r) →
        ¬ ∃ a' b' : List F, a'.length = Gs.length ∧ b'.length = Gs.length ∧
          P = dot a' Gs + dot b' Hs + t • Q ∧ dot a' b' = t) := by
  obtain ⟨k, ha, hb, hG, hH⟩ := create_ok cx tr Gs Hs Q a b _ h
  have h64 : k < 64 := by rw [hG] at hn; exact (Nat.pow_lt_pow_iff_right (by decide)).1 hn
  rw [hG]
  set α := ipaAlpha F cx.ro tr.log (2 ^ k) with hα
  refine ⟨dot a Gs + dot b Hs + (((α - 1) * t + dot a b) * α⁻¹) • Q, ?_, ?_⟩
  · rw [verify_create cx tr tr' Q k h64 a b Gs Hs p hG h, ← hα]
    have : dot a Gs + dot b Hs + (((α - 1) * t + dot a b) * α⁻¹) • Q - ((α - 1) * t) • (α⁻¹ • Q) -
        com a b Gs Hs (α⁻¹ • Q) = (0 : G) := by
      unfold com
      module
    rw [this, smul_zero]; simp
  · rintro hind ⟨a', b', ha', hb', e, hp⟩
    obtain ⟨rfl, rfl, -⟩ := opening_unique hG hH hind ha ha' hb hb' e
    exact ht hp.symm

/-- C60, finding: `C_w` and `t` are not hashed before `beta` is drawn. From the generators alone one
computes a proof, a commitment `C_w = ⟨u,G⟩ + ⟨v,H⟩` and a value `t ≠ ⟨u,v⟩` that `AlmZK::verify`
accepts, unless `beta` or `alpha` is zero. Without relations between the generators, no vectors at all
make this claim true. -/
theorem C60_alm_false_statement (cx : Ctx G) (tr : Transcript) (k : Nat) (h64 : k < 64)
    (Gs Hs : List G) (hG : Gs.length = 2 ^ k) (hH : Hs.length = 2 ^ k) (Q : G)
    (hβ : almBeta F cx.ro tr.log (cx.compress (Gs.getD 0 0)) ≠ 0)
    (hα : ipaAlpha F cx.ro (tr.log ++ almHead (cx.compress (Gs.getD 0 0)) (cx.compress (Hs.getD 0 0)))
      (2 ^ k) ≠ 0) :
    ∃ (p : AlmZK F) (tr' : Transcript) (u v : List F) (t : F),
      u.length = 2 ^ k ∧ v.length = 2 ^ k ∧ dot u v ≠ t ∧
      p.verify cx tr Gs Hs Q (2 ^ k) (dot u Gs + dot v Hs) t = .ok (true, tr') ∧
      ((∀ r : List F × List F × F, ¬ IsRelation Gs Hs Q r) →
        ¬ ∃ u' v' : List F, u'.length = 2 ^ k ∧ v'.length = 2 ^ k ∧
          dot u Gs + dot v Hs = dot u' Gs + dot v' Hs ∧ dot u' v' = t) := by
  obtain ⟨m, hm⟩ : ∃ m, 2 ^ k = m + 1 := ⟨2 ^ k - 1, by have := Nat.two_pow_pos k; omega⟩
  obtain ⟨g, Gs, rfl⟩ : ∃ g Gs', Gs = g :: Gs' := by
    cases Gs with
    | nil => simp [hm] at hG
    | cons g Gs => exact ⟨g, Gs, rfl⟩
  obtain ⟨h0, Hs, rfl⟩ : ∃ g Gs', Hs = g :: Gs' := by
    cases Hs with
    | nil => simp [hm] at hH
    | cons g Gs => exact ⟨g, Gs, rfl⟩
  simp only [List.getD_cons_zero] at hβ hα
  set β := almBeta F cx.ro tr.log (cx.compress g) with hβd
  -- the honest proof for `a = 0` and `b = (1, 0, ..., 0)`
  obtain ⟨p, _, _, _, _, e, _⟩ := create_spec cx ⟨tr.log ++ almHead (cx.compress g) (cx.compress h0)⟩ Q k
    (List.replicate (2 ^ k) (0 : F)) (1 :: List.replicate m 0) (g :: Gs) (h0 :: Hs) (by simp) (by simp [hm]) hG hH
  have hv := C16_ipa_completeness cx _ _ _ _ Q _ _ p e (by rw [hG]; exact Nat.pow_lt_pow_right (by decide) h64)
    (by rw [hG]; exact hα)
  rw [dot_replicate_zero, dot_replicate_zero, dot_cons, dot_replicate_zero] at hv
  simp only [one_smul, zero_smul, add_zero, zero_add] at hv
  have hne : dot (-β⁻¹ :: List.replicate m 0) (β⁻¹ :: List.replicate m (0 : F)) ≠ 0 := by
    rw [dot_cons, dot_replicate_zero, add_zero, smul_eq_mul]
    exact mul_ne_zero (neg_ne_zero.2 (inv_ne_zero hβ)) (inv_ne_zero hβ)
  refine ⟨⟨cx.compress g, p⟩, ⟨tr.log ++ almHead (cx.compress g) (cx.compress h0) ++ headLog (2 ^ k) ++
      roundsLog p.L_vec p.R_vec⟩, -β⁻¹ :: List.replicate m 0, β⁻¹ :: List.replicate m 0, 0, by simp [hm],
    by simp [hm], hne, ?_, ?_⟩
  · rw [alm_verify_eq cx _ tr _ _ Q _ _ 0 g rfl]
    have hC : β • (dot (-β⁻¹ :: List.replicate m 0) (g :: Gs) +
        dot (β⁻¹ :: List.replicate m 0) (h0 :: Hs)) + g + (β * β * 0) • Q = h0 := by
      simp only [dot_cons, dot_replicate_zero, add_zero, mul_zero, zero_smul, smul_add, neg_smul, smul_neg,
        smul_smul, mul_inv_cancel₀ hβ, one_smul]
      abel
    simp only [← hβd, hC]
    rw [mul_zero]
    rw [hG] at hv
    exact hv
  · rintro hind ⟨u', v', hu', hv', e', hp⟩
    obtain ⟨rfl, rfl, -⟩ := opening_unique (u := -β⁻¹ :: List.replicate m 0)
      (v := β⁻¹ :: List.replicate m 0) (w := 0) (w' := 0) hG hH hind (by simp [hm]) hu' (by simp [hm]) hv'
      (by rw [e'])
    exact hne hp

section
open Toy
/-- C59: the proof from `a = (1, 2)`, `b = (3, 4)` with `⟨a,b⟩ = 11` is accepted for the claim `t = 50`. -/
example : (match Ipa.create cx ⟨[]⟩ [3, 5] [7, 9] (2 : K) [1, 2] [3, (4 : K)] with
    | .ok (p, tr') =>
      let α := ipaAlpha K cx.ro [] 2
      p.verify cx ⟨[]⟩ [3, 5] [7, 9] 2 2 (3 + 2 * 5 + 3 * 7 + 4 * 9 + ((α - 1) * 50 + 11) * α⁻¹ * 2) 50 ==
        .ok (true, tr')
    | .error _ => false) = true := by
  decide +kernel

/-- C60: the claim that `u = (-1/β, 0)` and `v = (1/β, 0)` have the product 0 is accepted. -/
example : (match Ipa.create cx ⟨almHead (cx.compress 3) (cx.compress 7)⟩ [3, 5] [7, 9] (2 : K) [0, 0] [1, (0 : K)] with
    | .ok (p, tr') =>
      let β := almBeta K cx.ro [] (cx.compress 3)
      β != 0 && (⟨cx.compress 3, p⟩ : AlmZK K).verify cx ⟨[]⟩ [3, 5] [7, 9] 2 2 (-β⁻¹ * 3 + β⁻¹ * 7) 0 ==
        .ok (true, tr')
    | .error _ => false) = true := by
  decide +kernel
end

end Qesa.Props
