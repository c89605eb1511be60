import Verif.SpecJobs
import Verif.Proofs.After
import Verif.Props.Locality
import Verif.Props.Sizes
import Verif.Props.QesaCompleteness
import Verif.Props.Completeness
import Verif.Props.LmpaKCompleteness
/- C106: honest sessions. -/
namespace Qesa.Props
open Qesa Spec Ipa Copy
set_option linter.unusedSectionVars false
set_option exponentiation.threshold 600
variable {F G : Type} [Field F] [DecidableEq F] [AddCommGroup G] [Module F G] [DecidableEq G]

/-! ### What a job depends on -/

theorem Job.local (cd : Codec G) (ro : Hash) (fuel : Nat) (tr tr' : Transcript) (tape : Tape F) (j : Job F G)
    (h : j.Works ⟨cd, ro⟩ fuel tr tape tr') : tr.log <+: tr'.log ∧ ∀ ro', Agree tr.log tr'.log ro ro' →
      j.Works ⟨cd, ro'⟩ fuel tr tape tr' := by
  cases j with
  | ipa Gs Hs Q a b =>
    obtain ⟨p, h1, h2⟩ := h
    have c := C105_ipa_create _ _ _ _ _ _ _ _ _ _ h1
    exact ⟨c.1, fun ro' h => ⟨p, c.2 ro' h, (C105_ipa_verify _ _ _ _ _ _ _ _ _ _ _ _ h2).2 ro' h⟩⟩
  | alm Gs Hs Q a b =>
    obtain ⟨p, t', h1, h2⟩ := h
    have c := C105_alm_create _ _ _ _ _ _ _ _ _ _ _ _ _ _ h1
    exact ⟨c.1, fun ro' h => ⟨p, t', c.2 ro' h, (C105_alm_verify _ _ _ _ _ _ _ _ _ _ _ _ h2).2 ro' h⟩⟩
  | qesa Gs Hs Q S w =>
    obtain ⟨p, t', h1, h2⟩ := h
    have c := C105_qesa_create _ _ _ _ _ _ _ _ _ _ _ _ h1
    exact ⟨c.1, fun ro' h => ⟨p, t', c.2 ro' h, (C105_inner_verify _ _ _ _ _ _ _ _ _ _ h2).2 ro' h⟩⟩
  | copy Gs Hs Q S map w coms Cs =>
    obtain ⟨p, t', h1, h2⟩ := h
    have c := C105_copy_create _ _ _ _ _ _ _ _ _ _ _ _ _ _ h1
    exact ⟨c.1, fun ro' h => ⟨p, t', c.2 ro' h, (C105_copy_verify _ _ _ _ _ _ _ _ _ _ _ _ h2).2 ro' h⟩⟩
  | lmpa A Gs w =>
    obtain ⟨p, h1, h2⟩ := h
    have c := C105_lmpa_create _ _ _ _ _ _ _ _ _ h1
    exact ⟨c.1, fun ro' h => ⟨p, c.2 ro' h, (C105_lmpa_verify _ _ _ _ _ _ _ _ _ _ _ h2).2 ro' h⟩⟩
  | lmpaK A w c k d =>
    obtain ⟨p, h1, h2⟩ := h
    have c := C105_lmpaK_create _ _ _ _ _ _ _ _ _ _ _ _ _ _ h1
    exact ⟨c.1, fun ro' h => ⟨p, c.2 ro' h, (C105_lmpaK_verify _ _ _ _ _ _ _ _ _ _ _ _ h2).2 ro' h⟩⟩
  | simple A Gs w =>
    obtain ⟨p, t', h1, h2⟩ := h
    have c := C105_simple_create _ _ _ _ _ _ _ _ _ _ _ h1
    exact ⟨c.1, fun ro' h => ⟨p, t', c.2 ro' h, (C105_simple_verify _ _ _ _ _ _ _ _ _ _ _ h2).2 ro' h⟩⟩
  | general A w c k d =>
    obtain ⟨p, t', h1, h2⟩ := h
    have c := C105_general_create _ _ _ _ _ _ _ _ _ _ _ _ _ _ h1
    exact ⟨c.1, fun ro' h => ⟨p, t', c.2 ro' h, (C105_general_verify _ _ _ _ _ _ _ _ _ _ _ h2).2 ro' h⟩⟩

theorem Job.unique {cx : Ctx G} {fuel : Nat} {tr tr₁ tr₂ : Transcript} {tape : Tape F} {j : Job F G}
    (h₁ : j.Works cx fuel tr tape tr₁) (h₂ : j.Works cx fuel tr tape tr₂) : tr₁ = tr₂ := by
  cases j <;> (simp only [Job.Works] at h₁ h₂) <;> first
    | (obtain ⟨_, a, -⟩ := h₁; obtain ⟨_, b, -⟩ := h₂; rw [a] at b; cases b; rfl)
    | (obtain ⟨_, _, a, -⟩ := h₁; obtain ⟨_, _, b, -⟩ := h₂; rw [a] at b; cases b; rfl)

theorem session_local (cd : Codec G) (ro : Hash) (fuel : Nat) : ∀ (js : List (Job F G)) (τ : Fin js.length → Tape F)
    (tr tr' : Transcript), SessionWorks ⟨cd, ro⟩ fuel js τ tr tr' →
    tr.log <+: tr'.log ∧ ∀ ro', Agree tr.log tr'.log ro ro' → SessionWorks ⟨cd, ro'⟩ fuel js τ tr tr' := by
  intro js
  induction js with
  | nil =>
    rintro τ tr tr' rfl
    exact ⟨List.prefix_rfl, fun _ _ => rfl⟩
  | cons j js ih =>
    rintro τ tr tr' ⟨tr₁, h1, h2⟩
    obtain ⟨a1, a2⟩ := Job.local _ _ _ _ _ _ _ h1
    obtain ⟨b1, b2⟩ := ih _ _ _ h2
    exact ⟨a1.trans b1, fun ro' h => ⟨tr₁, a2 ro' fun l s hl hs => h l s hl (hs.trans b1), b2 ro' (h.mono a1)⟩⟩

/-! ### The states after a job -/

/-- The histories of the challenges in a log. -/
def asked (log : List Event) : Finset (List Event) :=
  (log.inits.filter fun l => match l.getLast? with
    | some (.chal _ _) => true
    | _ => false).toFinset

theorem asked_append (log : List Event) (e : Event) : (asked (log ++ [e])).card ≤ (asked log).card + challengesIn [e] := by
  unfold asked
  rw [List.inits_append, List.filter_append, List.toFinset_append]
  refine (Finset.card_union_le _ _).trans (Nat.add_le_add_left ?_ _)
  refine (List.toFinset_card_le _).trans ?_
  cases e <;> simp [challengesIn]

theorem card_asked (log : List Event) : (asked log).card ≤ challengesIn log := by
  induction log using List.reverseRecOn with
  | nil => decide
  | append_singleton log e ih =>
    rw [challengesIn_append]
    exact (asked_append log e).trans (Nat.add_le_add_right ih _)

theorem agree_of_asked {log log' : List Event} {ro ro' : Hash} (h : ∀ l ∈ asked log', ro' l = ro l) :
    Agree log log' ro ro' := by
  intro l s _ h2
  refine h _ ?_
  simp only [asked, List.mem_toFinset, List.mem_filter, List.mem_inits]
  exact ⟨h2, by simp⟩

/-- A prover that always returns. -/
theorem finite_total {α : Type} (tr : Transcript) (create : Hash → R (α × Transcript))
    (hr : ∀ ro, ∃ r, create ro = .ok r)
    (hl : ∀ ro r, create ro = .ok r → ∀ ro', Agree tr.log r.2.log ro ro' → create ro' = .ok r)
    (cd : Codec G) (fuel : Nat) (tape : Tape F) (j : Job F G)
    (hW : ∀ ro tr', j.Works ⟨cd, ro⟩ fuel tr tape tr' → ∃ p, create ro = .ok (p, tr')) :
    {L | ∃ ro, j.Works ⟨cd, ro⟩ fuel tr tape ⟨L⟩}.Finite := by
  have h := finite_range create fun ro => by
    obtain ⟨r, hr⟩ := hr ro
    exact ⟨asked r.2.log, fun ro' h => by rw [hr]; exact hl ro r hr ro' (agree_of_asked h)⟩
  refine (h.image fun r => match r with
    | .ok r => r.2.log
    | .error _ => []).subset ?_
  rintro L ⟨ro, hL⟩
  obtain ⟨p, hp⟩ := hW ro _ hL
  exact ⟨create ro, ⟨ro, rfl⟩, by simp only [hp]⟩

/-- A job that hashes at most `N` challenges. -/
theorem finite_bounded (cd : Codec G) (fuel : Nat) (tr : Transcript) (tape : Tape F) (j : Job F G) (N : Nat)
    (h : ∀ ro tr', j.Works ⟨cd, ro⟩ fuel tr tape tr' → challengesIn tr'.log ≤ N) :
    {L | ∃ ro, j.Works ⟨cd, ro⟩ fuel tr tape ⟨L⟩}.Finite := by
  refine (finite_outcomes (fun ro L => j.Works ⟨cd, ro⟩ fuel tr tape ⟨L⟩) asked ?_ ?_ N ∅ (fun _ => default)).subset ?_
  · intro ro L hL ro' hro
    exact (Job.local _ _ _ _ _ _ _ hL).2 ro' (agree_of_asked hro)
  · intro ro L L' h1 h2
    have := Job.unique h1 h2
    cases this
    rfl
  · rintro L ⟨ro, hL⟩
    refine ⟨ro, by simp, hL, ?_⟩
    rw [Finset.sdiff_empty]
    exact (card_asked L).trans (h ro ⟨L⟩ hL)

theorem pow_eq_of {a b : Nat} (h : 2 ^ a = 2 ^ b) : a = b := Nat.pow_right_injective (le_refl 2) h

theorem Job.finite (cd : Codec G) (fuel : Nat) (tr : Transcript) (tape : Tape F) (j : Job F G) (hj : j.Honest fuel) :
    {L | ∃ ro, j.Works ⟨cd, ro⟩ fuel tr tape ⟨L⟩}.Finite := by
  cases j with
  | ipa Gs Hs Q a b =>
    refine finite_total tr (fun ro => Ipa.create ⟨cd, ro⟩ tr Gs Hs Q a b) (fun ro => ?_) ?_ cd fuel tape _ ?_
    · obtain ⟨k, -, h⟩ := hj
      exact (C17_ipa_create_returns_iff _ _ _ _ _ _ _).2 ⟨k, h⟩
    · exact fun ro r h => (C105_ipa_create _ _ _ _ _ _ _ _ _ _ h).2
    · rintro ro tr' ⟨p, h, -⟩; exact ⟨p, h⟩
  | alm Gs Hs Q a b =>
    obtain ⟨k, a', b', -, -, ha, -, hG, -⟩ := hj
    refine finite_bounded cd fuel tr tape _ (challengesIn tr.log + (k + 2)) ?_
    rintro ro tr' ⟨p, t', h, -⟩
    obtain ⟨k', hk', -, -, h, -⟩ := C101_alm_size _ _ _ _ _ _ _ _ _ _ _ _ _ (by rw [ha, List.length_ofFn, hG]) h
    rw [h, pow_eq_of (hG.symm.trans hk')]
  | qesa Gs Hs Q S w =>
    obtain ⟨m, k, e, -, -, -, -, he, hG, -⟩ := hj
    refine finite_bounded cd fuel tr tape _ (challengesIn tr.log + (e + 5)) ?_
    rintro ro tr' ⟨p, t', h, -⟩
    obtain ⟨k', hk', -, -, h, -⟩ := C101_qesa_size _ _ _ _ _ _ _ _ _ _ _ h
    rw [h, pow_eq_of ((hG.trans he).symm.trans hk')]
  | copy Gs Hs Q S map w coms Cs =>
    obtain ⟨m, e, -, -, -, he, hG, -⟩ := hj
    refine finite_bounded cd fuel tr tape _ (challengesIn tr.log + (e + 6)) ?_
    rintro ro tr' ⟨p, t', h, -⟩
    obtain ⟨k', hk', -, -, h, -⟩ := C101_copy_size _ _ _ _ _ _ _ _ _ _ _ _ _ h
    rw [h, pow_eq_of ((hG.trans he).symm.trans hk')]
  | lmpa A Gs w =>
    obtain ⟨q, h0, hA, hw, hG, hf⟩ := hj
    refine finite_total tr (fun ro => Lmpa.create ⟨cd, ro⟩ fuel tr A Gs w) (fun ro => ?_) ?_ cd fuel tape _ ?_
    · obtain ⟨p, tr', h, -⟩ := C42_lmpa_completeness ⟨cd, ro⟩ q fuel tr A Gs w h0 hA hw hG hf
      exact ⟨_, h⟩
    · exact fun ro r h => (C105_lmpa_create _ _ _ _ _ _ _ _ _ h).2
    · rintro ro tr' ⟨p, h, -⟩; exact ⟨p, h⟩
  | lmpaK A w c k d =>
    obtain ⟨h0, hc, hck, hA, hw, hf⟩ := hj
    refine finite_total tr (fun ro => Lmpa.createK ⟨cd, ro⟩ fuel tr A w (A.map fun row => dot w row) (c * k ^ d) A.length
      k 1 0) (fun ro => ?_) ?_ cd fuel tape _ ?_
    · obtain ⟨p, tr', h, -⟩ := C47_lmpaK_completeness ⟨cd, ro⟩ c k d fuel tr A w h0 hc hck hA hw hf
      exact ⟨_, h⟩
    · exact fun ro r h => (C105_lmpaK_create _ _ _ _ _ _ _ _ _ _ _ _ _ _ h).2
    · rintro ro tr' ⟨p, h, -⟩; exact ⟨p, h⟩
  | simple A Gs w =>
    obtain ⟨q, h0, hA, hw, hG, hf⟩ := hj
    refine finite_total (α := Lmpa.SimpleZK F G × Tape F) tr (fun ro => (Lmpa.createSimple ⟨cd, ro⟩ fuel tr tape A Gs w).map
      fun r => ((r.1, r.2.2), r.2.1)) (fun ro => ?_) ?_ cd fuel tape _ ?_
    · obtain ⟨p, tr', h, -⟩ := C50_simple_completeness ⟨cd, ro⟩ q fuel tr tape A Gs w h0 hA hw hG hf
      exact ⟨_, by rw [h]; rfl⟩
    · intro ro r h ro' hro
      obtain ⟨x, hx, e⟩ := map_eq_ok h
      subst e
      rw [(C105_simple_create _ _ _ _ _ _ _ _ _ _ _ hx).2 ro' hro]
      rfl
    · rintro ro tr' ⟨p, t', h, -⟩; exact ⟨(p, t'), by rw [h]; rfl⟩
  | general A w c k d =>
    obtain ⟨h0, hc, hck, hd, hA, hw, hf⟩ := hj
    obtain ⟨d, rfl⟩ := Nat.exists_eq_succ_of_ne_zero hd.ne'
    refine finite_total (α := Lmpa.SimpleZKGeneral F G × Tape F) tr (fun ro => (Lmpa.createGeneral ⟨cd, ro⟩ fuel tr tape A w
      (A.map fun row => dot w row) (c * k ^ (d + 1)) A.length k).map fun r => ((r.1, r.2.2), r.2.1)) (fun ro => ?_) ?_ cd fuel tape _ ?_
    · obtain ⟨p, tr', h, -⟩ := C54_general_completeness ⟨cd, ro⟩ c k d fuel tr tape A w h0 hc hck hA hw hf
      exact ⟨_, by rw [h]; rfl⟩
    · intro ro r h ro' hro
      obtain ⟨x, hx, e⟩ := map_eq_ok h
      subst e
      rw [(C105_general_create _ _ _ _ _ _ _ _ _ _ _ _ _ _ hx).2 ro' hro]
      rfl
    · rintro ro tr' ⟨p, t', h, -⟩; exact ⟨(p, t'), by rw [h]; rfl⟩

/-! ### Errors -/

theorem chance_or (ro : Hash) (D : Finset (List Event)) (A B : Hash → Prop) :
    chance ro D (fun ro => A ro ∨ B ro) ≤ chance ro D A + chance ro D B := by
  unfold chance
  rw [← add_div]
  refine div_le_div_of_nonneg_right ?_ (by positivity)
  exact_mod_cast count_or ro D A B

theorem card_pairs {X T : Type} [Finite X] [Fintype T] (P : X → T → Prop) :
    Nat.card {z : X × T // P z.1 z.2} = ∑ t, Nat.card {x // P x t} := by
  rw [← Nat.card_sigma]
  exact Nat.card_congr ⟨fun z => ⟨z.1.2, z.1.1, z.2⟩, fun z => ⟨(z.2.1, z.1), z.2.2⟩, fun _ => rfl, fun _ => rfl⟩

theorem chanceSession_eq [Fintype F] (ro : Hash) (D : Finset (List Event)) (rest : Tape F) (N m : Nat)
    (A : Hash → (Fin m → Tape F) → Prop) : chanceSession ro D rest N m A =
      (∑ t : Fin m → Fin N → F, chance ro D fun ro => A ro fun i => tapeOf rest (t i)) /
        Fintype.card (Fin m → Fin N → F) := by
  unfold chanceSession chance countHashes
  rw [card_pairs (fun f (t : Fin m → Fin N → F) => A (patch ro D f) fun i => tapeOf rest (t i)), ← Finset.sum_div,
    div_div]
  simp [Nat.card_eq_fintype_card]

theorem sum_chanceBoth [Fintype F] (ro : Hash) (D : Finset (List Event)) (rest : Tape F) (N : Nat)
    (A : Hash → Tape F → Prop) : ∑ t : Fin N → F, chance ro D (fun ro => A ro (tapeOf rest t)) =
      chanceBoth ro D rest N A * Fintype.card (Fin N → F) := by
  unfold chanceBoth chance countHashes
  rw [card_pairs (fun f (t : Fin N → F) => A (patch ro D f) (tapeOf rest t)), ← Finset.sum_div]
  have : ((Fintype.card F : ℚ)) ≠ 0 := by exact_mod_cast Fintype.card_ne_zero
  simp only [Nat.card_eq_fintype_card, Fintype.card_fun, Fintype.card_fin, Nat.cast_pow, Nat.cast_sum]
  field_simp

theorem chanceBoth_imp [Finite F] {ro : Hash} {D : Finset (List Event)} {rest : Tape F} {N : Nat}
    {A B : Hash → Tape F → Prop} (h : ∀ ro τ, A ro τ → B ro τ) : chanceBoth ro D rest N A ≤ chanceBoth ro D rest N B := by
  unfold chanceBoth
  refine div_le_div_of_nonneg_right ?_ (by positivity)
  exact Nat.cast_le.2 (card_imp fun z hz => h _ _ hz)

/-- The failure of a job that starts from a fixed transcript. -/
theorem Job.error_le [Fintype F] (h2 : (2 : F) ≠ 0) {N B : Nat} (hN : 258 ≤ N)
    (hB : ∀ c : F, Nat.card {v : Vector UInt8 64 // ((leNat v.toList : Nat) : F) = c} ≤ B) (cd : Codec G) (fuel : Nat)
    (rest : Tape F) (j : Job F G) (hj : j.Honest fuel) (log : List Event) :
    ∃ D0 : Finset (List Event), ∀ D, D0 ⊆ D → ∀ ro, ∑ t : Fin N → F,
      chance ro D (fun ro => ¬ ∃ tr', j.Works ⟨cd, ro⟩ fuel ⟨log⟩ (tapeOf rest t) tr') ≤
        j.error (Fintype.card F) B * Fintype.card (Fin N → F) := by
  classical
  have both : ∀ e : ℚ, (∃ D0 : Finset (List Event), ∀ D, D0 ⊆ D → ∀ ro,
      chanceBoth ro D rest N (fun ro τ => ¬ ∃ tr', j.Works ⟨cd, ro⟩ fuel ⟨log⟩ τ tr') ≤ e) →
      ∃ D0 : Finset (List Event), ∀ D, D0 ⊆ D → ∀ ro, ∑ t : Fin N → F,
        chance ro D (fun ro => ¬ ∃ tr', j.Works ⟨cd, ro⟩ fuel ⟨log⟩ (tapeOf rest t) tr') ≤
          e * Fintype.card (Fin N → F) := by
    rintro e ⟨D0, h⟩
    refine ⟨D0, fun D hD ro => ?_⟩
    rw [sum_chanceBoth ro D rest N fun ro τ => ¬ ∃ tr', j.Works ⟨cd, ro⟩ fuel ⟨log⟩ τ tr']
    exact mul_le_mul_of_nonneg_right (h D hD ro) (by positivity)
  have each : ∀ e : ℚ, (∀ tape : Tape F, ∃ D0 : Finset (List Event), ∀ D, D0 ⊆ D → ∀ ro,
      chance ro D (fun ro => ¬ ∃ tr', j.Works ⟨cd, ro⟩ fuel ⟨log⟩ tape tr') ≤ e) →
      ∃ D0 : Finset (List Event), ∀ D, D0 ⊆ D → ∀ ro, ∑ t : Fin N → F,
        chance ro D (fun ro => ¬ ∃ tr', j.Works ⟨cd, ro⟩ fuel ⟨log⟩ (tapeOf rest t) tr') ≤
          e * Fintype.card (Fin N → F) := by
    intro e h
    choose D0 h using h
    refine ⟨Finset.univ.biUnion fun t : Fin N → F => D0 (tapeOf rest t), fun D hD ro => ?_⟩
    refine (Finset.sum_le_card_nsmul _ _ e fun t _ => h _ D ?_ ro).trans (le_of_eq ?_)
    · exact (Finset.subset_biUnion_of_mem (fun t : Fin N → F => D0 (tapeOf rest t)) (Finset.mem_univ t)).trans hD
    · rw [nsmul_eq_mul, mul_comm, Finset.card_univ]
  have never : ∀ (tape : Tape F), (∀ ro, ∃ tr', j.Works ⟨cd, ro⟩ fuel ⟨log⟩ tape tr') →
      ∃ D0 : Finset (List Event), ∀ D, D0 ⊆ D → ∀ ro,
        chance ro D (fun ro => ¬ ∃ tr', j.Works ⟨cd, ro⟩ fuel ⟨log⟩ tape tr') ≤ 0 := by
    intro tape h
    refine ⟨∅, fun D _ ro => ?_⟩
    unfold chance countHashes
    simp [h]
  cases j with
  | ipa Gs Hs Q a b =>
    obtain ⟨k, hk, ha, hb, hG, hH⟩ := hj
    refine each _ fun _ => ⟨{log ++ headLog (2 ^ k)}, fun D hD ro => (chance_mono ?_).trans
      (C74_ipa_completeness_error hk cd log Gs Hs Q a b ha hb hG hH (hB 0) ro D (hD (by simp)))⟩
    rintro ro h ⟨p, tr', h1, h2⟩
    exact h ⟨tr', p, h1, by rw [hG]; exact h2⟩
  | alm Gs Hs Q a b =>
    obtain ⟨k, a', b', hk, hk', rfl, rfl, hG, hH, haa, hbb, h1, h3, h4⟩ := hj
    have hd : dot (List.ofFn a') (List.ofFn b') = a' ⬝ᵥ b' := dot_ofFn a' b'
    obtain ⟨D0, hD0⟩ := C74_alm_domain (N := N) cd log Gs Hs Q (dot (List.ofFn a') Gs + dot (List.ofFn b') Hs)
      (List.ofFn a') (List.ofFn b') (a' ⬝ᵥ b') rest
    refine both _ ⟨D0, fun D hD ro => (chanceBoth_imp ?_).trans
      (C74_alm_completeness_error h2 hk hk' (by omega) cd log Gs Hs Q a' b' hG hH haa hbb h1 h3 h4 (hB 0) ro rest D
        fun ro t p tr' τ' h => hD (hD0 ro t p tr' τ' h))⟩
    rintro ro τ h ⟨p, tr', τ', e1, e2⟩
    exact h ⟨tr', p, τ', by rw [hd]; exact e1, by rw [hd, hG]; exact e2⟩
  | qesa Gs Hs Q S w =>
    obtain ⟨m, k, e, Ms, w', he, he', hm, hG, hH, rfl, rfl, h0, hw⟩ := hj
    obtain ⟨N, rfl⟩ := Nat.exists_eq_add_of_le (show 2 ≤ N by omega)
    obtain ⟨D0, hD0⟩ := C75_zk_completeness_error h2 he he' hm (N := N) (by omega) cd log Gs Hs Q hG hH Ms w' h0 hw hB rest
    refine both _ ⟨D0, fun D hD ro => (chanceBoth_imp ?_).trans (hD0 D hD ro)⟩
    rintro ro τ h ⟨p, tr', τ', e1, e2⟩
    exact h ⟨tr', p, τ', e1, e2⟩
  | copy Gs Hs Q S map w coms Cs =>
    obtain ⟨m, e, Us, he, he', hm, hG, hH, rfl, hs, h0, hwl, hmap, hcom, hout, hU⟩ := hj
    obtain ⟨N, rfl⟩ := Nat.exists_eq_add_of_le (show 2 ≤ N by omega)
    obtain ⟨D0, hD0⟩ := C75_copy_completeness_error h2 he he' hm (N := N) (by omega) cd log Gs Hs Q hG hH Us w coms map Cs
      hs h0 hwl hmap hcom hout hU hB rest
    refine both _ ⟨D0, fun D hD ro => (chanceBoth_imp ?_).trans (hD0 D hD ro)⟩
    rintro ro τ h ⟨p, tr', τ', e1, e2⟩
    exact h ⟨tr', p, τ', e1, e2⟩
  | lmpa A Gs w =>
    obtain ⟨q, h0, hA, hw, hG, hf⟩ := hj
    refine each _ fun tape => never tape fun ro => ?_
    obtain ⟨p, tr', e⟩ := C42_lmpa_completeness ⟨cd, ro⟩ q fuel ⟨log⟩ A Gs w h0 hA hw hG hf
    exact ⟨tr', p, e⟩
  | lmpaK A w c k d =>
    obtain ⟨h0, hc, hck, hA, hw, hf⟩ := hj
    obtain ⟨D0, hD0⟩ := C78_lmpaK_completeness_error cd c k d fuel log A w h0 hc hck hA hw hf (hB 0)
    refine each _ fun tape => ⟨D0, fun D hD ro => (chance_mono ?_).trans (hD0 D hD ro)⟩
    rintro ro h ⟨p, tr', e⟩
    exact h ⟨tr', p, e⟩
  | simple A Gs w =>
    obtain ⟨q, h0, hA, hw, hG, hf⟩ := hj
    refine each _ fun tape => never tape fun ro => ?_
    obtain ⟨p, tr', e⟩ := C50_simple_completeness ⟨cd, ro⟩ q fuel ⟨log⟩ tape A Gs w h0 hA hw hG hf
    exact ⟨tr', p, _, e⟩
  | general A w c k d =>
    obtain ⟨h0, hc, hck, hd, hA, hw, hf⟩ := hj
    obtain ⟨d, rfl⟩ := Nat.exists_eq_succ_of_ne_zero hd.ne'
    refine each _ fun tape => ?_
    obtain ⟨D0, hD0⟩ := C78_general_completeness_error cd c k d fuel log tape A w h0 hc hck hA hw hf (hB 0)
    refine ⟨D0, fun D hD ro => (chance_mono ?_).trans (hD0 D hD ro)⟩
    rintro ro h ⟨p, tr', τ', e⟩
    exact h ⟨tr', p, τ', e⟩

theorem session_sum [Fintype F] (h2 : (2 : F) ≠ 0) {N B : Nat} (hN : 258 ≤ N)
    (hB : ∀ c : F, Nat.card {v : Vector UInt8 64 // ((leNat v.toList : Nat) : F) = c} ≤ B) (cd : Codec G) (fuel : Nat)
    (rest : Tape F) : ∀ (js : List (Job F G)), (∀ j ∈ js, j.Honest fuel) → ∀ log : List Event,
    ∃ D0 : Finset (List Event), ∀ D, D0 ⊆ D → ∀ ro, ∑ t : Fin js.length → Fin N → F,
      chance ro D (fun ro => ¬ ∃ tr', SessionWorks ⟨cd, ro⟩ fuel js (fun i => tapeOf rest (t i)) ⟨log⟩ tr') ≤
        (js.map (Job.error (Fintype.card F) B)).sum * Fintype.card (Fin js.length → Fin N → F) := by
  classical
  intro js
  induction js with
  | nil =>
    intro _ log
    refine ⟨∅, fun D _ ro => ?_⟩
    simp [SessionWorks, chance, countHashes]
  | cons j js ih =>
    intro hjs log
    have hj := hjs j List.mem_cons_self
    obtain ⟨D1, hD1⟩ := Job.error_le h2 hN hB cd fuel rest j hj log
    have key := fun x : Fin N → F => sum_chance_after (T := Fin js.length → Fin N → F)
      (fun ro L => j.Works ⟨cd, ro⟩ fuel ⟨log⟩ (tapeOf rest x) ⟨L⟩)
      (fun ro ro' L h hW => (Job.local _ _ _ _ _ _ _ hW).2 ro' fun l s _ h2 =>
        (h _ fun h3 => h3.2 (h2.eq_of_length_le h3.1.length_le)).symm)
      (fun ro L L' h h' => by have := Job.unique h h'; cases this; rfl)
      (Job.finite cd fuel ⟨log⟩ (tapeOf rest x) j hj)
      (fun t L ro => ¬ ∃ tr', SessionWorks ⟨cd, ro⟩ fuel js (fun i => tapeOf rest (t i)) ⟨L⟩ tr')
      (fun t L ro ro' h hb ⟨tr', hs⟩ => hb ⟨tr', (session_local _ _ _ _ _ _ _ hs).2 ro fun l s h1 _ =>
        h _ ⟨h1.trans (List.prefix_append _ _), fun e => by
          have := congrArg List.length e
          have := h1.length_le
          simp at *
          omega⟩⟩)
      _ (ih fun i hi => hjs i (List.mem_cons_of_mem _ hi))
    choose D2 hD2 using key
    refine ⟨D1 ∪ Finset.univ.biUnion D2, fun D hD ro => ?_⟩
    have d1 := hD1 D (Finset.subset_union_left.trans hD) ro
    have d2 := fun x => hD2 x D (((Finset.subset_biUnion_of_mem D2 (Finset.mem_univ x)).trans
      Finset.subset_union_right).trans hD) ro
    have e : ∀ f : (Fin (js.length + 1) → Fin N → F) → ℚ, ∑ t, f t =
        ∑ x : Fin N → F, ∑ t : Fin js.length → Fin N → F, f (Fin.cons x t) := by
      intro f
      rw [← (Fin.consEquiv fun _ : Fin (js.length + 1) => Fin N → F).sum_comp, Fintype.sum_prod_type]
      rfl
    refine (le_of_eq (e _)).trans ?_
    have step : ∀ (x : Fin N → F) (t : Fin js.length → Fin N → F),
        chance ro D (fun ro => ¬ ∃ tr', SessionWorks ⟨cd, ro⟩ fuel (j :: js)
          (fun i => tapeOf rest ((Fin.cons x t : Fin (js.length + 1) → Fin N → F) i)) ⟨log⟩ tr') ≤
        chance ro D (fun ro => ¬ ∃ tr', j.Works ⟨cd, ro⟩ fuel ⟨log⟩ (tapeOf rest x) tr') +
        chance ro D (fun ro => ∃ L, j.Works ⟨cd, ro⟩ fuel ⟨log⟩ (tapeOf rest x) ⟨L⟩ ∧
          ¬ ∃ tr', SessionWorks ⟨cd, ro⟩ fuel js (fun i => tapeOf rest (t i)) ⟨L⟩ tr') := by
      intro x t
      refine (chance_mono fun ro h => ?_).trans (chance_or ro D _ _)
      by_cases hw : ∃ tr', j.Works ⟨cd, ro⟩ fuel ⟨log⟩ (tapeOf rest x) tr'
      · obtain ⟨⟨L⟩, hL⟩ := hw
        exact .inr ⟨L, hL, fun ⟨tr', hs⟩ => h ⟨tr', ⟨L⟩, hL, hs⟩⟩
      · exact .inl hw
    refine (Finset.sum_le_sum fun x _ => Finset.sum_le_sum fun t _ => step x t).trans ?_
    simp only [Finset.sum_add_distrib, Finset.sum_const, Finset.card_univ, nsmul_eq_mul, ← Finset.mul_sum]
    refine (add_le_add (mul_le_mul_of_nonneg_left d1 (by positivity)) (Finset.sum_le_card_nsmul _ _ _ fun x _ => d2 x)).trans
      (le_of_eq ?_)
    simp only [List.map_cons, List.sum_cons, List.length_cons, Fintype.card_fun, Fintype.card_fin, nsmul_eq_mul,
      Finset.card_univ, Nat.cast_pow]
    ring

/-- C106: a session of honest proofs of any kinds on one transcript. The probability that one of them is not made or not
accepted, or that the two transcripts differ at some point, is at most the sum of the errors of the single proofs. -/
theorem C106_session_completeness [Fintype F] (h2 : (2 : F) ≠ 0) {N B : Nat} (hN : 258 ≤ N)
    (hB : ∀ c : F, Nat.card {v : Vector UInt8 64 // ((leNat v.toList : Nat) : F) = c} ≤ B) (cd : Codec G) (fuel : Nat)
    (rest : Tape F) (js : List (Job F G)) (hjs : ∀ j ∈ js, j.Honest fuel) (log : List Event) :
    ∃ D0 : Finset (List Event), ∀ D, D0 ⊆ D → ∀ ro, chanceSession ro D rest N js.length
      (fun ro τ => ¬ ∃ tr', SessionWorks ⟨cd, ro⟩ fuel js τ ⟨log⟩ tr') ≤
        (js.map (Job.error (Fintype.card F) B)).sum := by
  obtain ⟨D0, h⟩ := session_sum h2 hN hB cd fuel rest js hjs log
  refine ⟨D0, fun D hD ro => ?_⟩
  rw [chanceSession_eq, div_le_iff₀ (by exact_mod_cast Fintype.card_pos)]
  exact h D hD ro

/-- C106: sessions that consist of binary linear-map arguments never fail, whatever the hash function and the random
numbers are. -/
theorem C106_linear_sessions (cx : Ctx G) (fuel : Nat) : ∀ (js : List (Job F G)) (τ : Fin js.length → Tape F)
    (tr : Transcript), (∀ j ∈ js, j.Honest fuel ∧ ((∃ A Gs w, j = .lmpa A Gs w) ∨ ∃ A Gs w, j = .simple A Gs w)) →
    ∃ tr', SessionWorks cx fuel js τ tr tr' := by
  intro js
  induction js with
  | nil => exact fun _ tr _ => ⟨tr, rfl⟩
  | cons j js ih =>
    intro τ tr h
    have hw : ∃ tr₁, j.Works cx fuel tr (τ 0) tr₁ := by
      obtain ⟨hj, ⟨A, Gs, w, rfl⟩ | ⟨A, Gs, w, rfl⟩⟩ := h j List.mem_cons_self
      · obtain ⟨q, h0, hA, hw, hG, hf⟩ := hj
        obtain ⟨p, tr', e⟩ := C42_lmpa_completeness cx q fuel tr A Gs w h0 hA hw hG hf
        exact ⟨tr', p, e⟩
      · obtain ⟨q, h0, hA, hw, hG, hf⟩ := hj
        obtain ⟨p, tr', e⟩ := C50_simple_completeness cx q fuel tr (τ 0) A Gs w h0 hA hw hG hf
        exact ⟨tr', p, _, e⟩
    obtain ⟨tr₁, h1⟩ := hw
    obtain ⟨tr', h2⟩ := ih (fun i => τ i.succ) tr₁ fun i hi => h i (List.mem_cons_of_mem _ hi)
    exact ⟨tr', tr₁, h1, h2⟩

section
open Toy

/-- C106: a session with an inner-product argument, a zero-knowledge linear-map argument and another inner-product
argument. It works; the third proof, made on the empty transcript instead, would not be accepted in its place. -/
example :
    (match Ipa.create cx ⟨[]⟩ [3, 5, 8, 13] [21, 34, 55, (89 : K)] (7 : K) [(1 : K), 2, 3, 4] [5, 6, 7, 9] with
    | .ok (_, tr₁) =>
      match Lmpa.createSimple cx 5 tr₁ exTape exA exGs [(2 : K), 7, 1, 8] with
      | .ok (_, tr₂, _) =>
        match Ipa.create cx tr₂ [3, 5] [21, (34 : K)] (7 : K) [(1 : K), 2] [5, 6],
          Ipa.create cx ⟨[]⟩ [3, 5] [21, (34 : K)] (7 : K) [(1 : K), 2] [5, 6] with
        | .ok (p, _), .ok (p', _) => [p, p'].map fun p => (p.verify cx tr₂ [3, 5] [21, 34] (7 : K) 2
            (dot [(1 : K), 2] [3, 5] + dot [(5 : K), 6] [21, 34] + dot [(1 : K), 2] [(5 : K), 6] • (7 : K))
            (dot [(1 : K), 2] [(5 : K), 6])).toOption.map Prod.fst
        | _, _ => []
      | _ => []
    | _ => []) = [some true, some false] := by
  decide +kernel

/-- C106: honest sessions exist for the field with 101 elements; the error of this one is the probability that one of two
challenges is zero. -/
example (fuel : Nat) (hf : 2 < fuel) (rest : Tape K) (log : List Event) : ∃ D0 : Finset (List Event), ∀ D, D0 ⊆ D → ∀ ro,
    chanceSession ro D rest 300 3 (fun ro τ => ¬ ∃ tr', SessionWorks ⟨codec, ro⟩ fuel
      [.ipa [3, 5, 8, 13] [21, 34, 55, 89] 7 [1, 2, 3, 4] [5, 6, 7, 9], .simple exA exGs [2, 7, 1, 8],
        .ipa [3, 5] [21, 34] 7 [1, 2] [5, 6]] τ ⟨log⟩ tr') ≤ 2 * (1 / 101 + 1 / 2 ^ 512) := by
  obtain ⟨D0, h⟩ := C106_session_completeness (by decide : (2 : K) ≠ 0) (show 258 ≤ 300 by decide) (C67_scalars 101) codec
    fuel rest [.ipa [3, 5, 8, 13] [21, 34, 55, 89] 7 [1, 2, 3, 4] [5, 6, 7, 9], .simple exA exGs [2, 7, 1, 8],
        .ipa [3, 5] [21, 34] 7 [1, 2] [5, 6]] (by
      intro j hj
      simp only [List.mem_cons, List.not_mem_nil, or_false] at hj
      rcases hj with rfl | rfl | rfl
      · exact ⟨2, by decide, rfl, rfl, rfl, rfl⟩
      · exact ⟨2, by decide, by unfold Width; decide, rfl, rfl, hf⟩
      · exact ⟨1, by decide, rfl, rfl, rfl, rfl⟩) log
  refine ⟨D0, fun D hD ro => (h D hD ro).trans ?_⟩
  refine le_trans (le_of_eq ?_) (C67_bound 2 101)
  simp only [List.map_cons, List.map_nil, List.sum_cons, List.sum_nil, Job.error]
  push_cast
  ring

end

end Qesa.Props
