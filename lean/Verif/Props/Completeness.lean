import Verif.Proofs.Masks
import Verif.Props.AlmZk
import Verif.Props.RandomOracle
import Verif.SpecTape
/- C74: how often an honest AlmZK proof fails. -/
namespace Qesa.Props
open Qesa Spec Ipa

section
variable {F : Type} [Field F]

theorem dot_ofFn_vec {n : Nat} (a b : Fin n → F) : dot (List.ofFn a) (List.ofFn b) = a ⬝ᵥ b := by
  rw [dot_ofFn]; rfl

theorem res_ofFn {n : Nat} (c : F) (a b : Fin n → F) :
    List.zipWith (fun u v => 1 * u + (-c) * v) (List.ofFn b) (List.ofFn a) = List.ofFn (b - c • a) := by
  rw [zipWith_ofFn]
  congr 1
  ext i
  simp only [Pi.sub_apply, Pi.smul_apply, smul_eq_mul]
  ring

variable [DecidableEq F]

theorem orth_ofFn {n : Nat} (a b : Fin n → F) (h : a ⬝ᵥ b ≠ 0) :
    orth (List.ofFn a) (List.ofFn b) = .ok (List.ofFn (res a b)) := by
  rw [orth_eq, dot_ofFn_vec, if_neg h, dot_ofFn_vec, res_ofFn]
  rfl

theorem sampleGramSchmidt_ofFn {n : Nat} (hn : 2 ≤ n) (a : Fin n → F) (τ : Tape F)
    (h : a ⬝ᵥ samp n τ ≠ 0) : sampleGramSchmidt (List.ofFn a) τ =
      .ok (List.ofFn (res a (samp n τ)), fun i => τ (i + (samplePositions n).length)) := by
  unfold sampleGramSchmidt
  rw [List.length_ofFn, sampleMNPlus_samp n hn, ok_bind]
  simp only [orth_ofFn a _ h, ok_bind, R_pure]

/-- The two samples. -/
def goodTape (n : Nat) (a b : Fin n → F) (τ : Tape F) : Prop :=
  GoodSamples a b (samp n τ) (samp n fun i => τ (i + (samplePositions n).length))

theorem masks_ofFn {n : Nat} (hn : 2 ≤ n) (a b : Fin n → F) (τ : Tape F) (ha : a ⬝ᵥ a ≠ 0)
    (h : goodTape n a b τ) : ∃ (r' r'' : Fin n → F) (τ1 τ2 : Tape F),
      sampleGramSchmidt (List.ofFn b) τ = .ok (List.ofFn r', τ1) ∧
      sampleGramSchmidtTwice (List.ofFn a) (List.ofFn r') τ1 = .ok (List.ofFn r'', τ2) := by
  obtain ⟨h1, h2, h3, h4, h5⟩ := h
  set s := samp n τ
  set s' := samp n fun i => τ (i + (samplePositions n).length)
  refine ⟨_, res (res a (res b s)) (res a s'), _, fun i => τ (i + (samplePositions n).length +
    (samplePositions n).length), sampleGramSchmidt_ofFn hn b τ h1, ?_⟩
  unfold sampleGramSchmidtTwice
  rw [orth_ofFn a _ h2, ok_bind, sampleGramSchmidt_ofFn hn a _ h3, ok_bind]
  simp only
  rw [orth_ofFn _ _ ?_, ok_bind]
  · rfl
  · rw [dot_res]
    have : res a (res b s) ⬝ᵥ a = 0 := by
      rw [dotProduct_comm, dot_res]; field_simp; ring
    rw [this, mul_zero, sub_zero]
    exact h4

theorem masksFine_ofFn {n : Nat} (hn : 2 ≤ n) (a b : Fin n → F) (τ : Tape F) (ha : a ⬝ᵥ a ≠ 0)
    (hb : b ⬝ᵥ b ≠ 0) (h : goodTape n a b τ) : MasksFine (List.ofFn a) (List.ofFn b) τ := by
  refine ⟨by rwa [dot_ofFn_vec], by rwa [dot_ofFn_vec], ?_⟩
  intro r' τ1 o h1 h2
  rw [sampleGramSchmidt_ofFn hn b τ h.1] at h1
  simp only [Except.ok.injEq, Prod.mk.injEq] at h1
  obtain ⟨rfl, -⟩ := h1
  rw [orth_ofFn a _ h.2.1] at h2
  obtain rfl := Except.ok.inj h2
  rw [dot_ofFn_vec]
  exact h.2.2.2.2

/-- On a good tape the prover returns. -/
theorem createAlm_returns {G : Type} [AddCommGroup G] [Module F G] (cx : Ctx G) (tr : Transcript)
    (Gs Hs : List G) (Q C_w : G) {k : Nat} (hk : 1 ≤ k) (a b : Fin (2 ^ k) → F) (t : F) (τ : Tape F)
    (hG : Gs.length = 2 ^ k) (hH : Hs.length = 2 ^ k) (ha : a ⬝ᵥ a ≠ 0) (h : goodTape (2 ^ k) a b τ) :
    ∃ r, createAlm cx tr τ Gs Hs Q C_w (List.ofFn a) (List.ofFn b) t = .ok r := by
  have hn : 2 ≤ 2 ^ k := by calc 2 = 2 ^ 1 := rfl
    _ ≤ 2 ^ k := Nat.pow_le_pow_right (by decide) hk
  obtain ⟨r', r'', τ1, τ2, h1, h2⟩ := masks_ofFn hn a b τ ha h
  unfold createAlm
  rw [h1, ok_bind]
  simp only
  rw [h2, ok_bind]
  simp only
  rw [msm_eq (by simp [hG, hH]), ok_bind]
  simp only [zipWith_ofFn]
  obtain ⟨r, hr⟩ := (C17_ipa_create_returns_iff cx
    ((challengeScalar (F := F) cx.ro (tr.appendMessage "C_r" (cx.compress (dot (List.ofFn r' ++ List.ofFn r'')
      (Gs ++ Hs)))) "beta").2.appendMessage "P" (cx.compress ((challengeScalar (F := F) cx.ro
        (tr.appendMessage "C_r" (cx.compress (dot (List.ofFn r' ++ List.ofFn r'') (Gs ++ Hs)))) "beta").1 • C_w +
        dot (List.ofFn r' ++ List.ofFn r'') (Gs ++ Hs) + ((challengeScalar (F := F) cx.ro (tr.appendMessage "C_r"
          (cx.compress (dot (List.ofFn r' ++ List.ofFn r'') (Gs ++ Hs)))) "beta").1 *
        (challengeScalar (F := F) cx.ro (tr.appendMessage "C_r" (cx.compress (dot (List.ofFn r' ++ List.ofFn r'')
          (Gs ++ Hs)))) "beta").1 * t) • Q))) Gs Hs Q
    (List.ofFn fun i => (challengeScalar (F := F) cx.ro (tr.appendMessage "C_r" (cx.compress
      (dot (List.ofFn r' ++ List.ofFn r'') (Gs ++ Hs)))) "beta").1 * a i + r' i)
    (List.ofFn fun i => (challengeScalar (F := F) cx.ro (tr.appendMessage "C_r" (cx.compress
      (dot (List.ofFn r' ++ List.ofFn r'') (Gs ++ Hs)))) "beta").1 * b i + r'' i)).2
    ⟨k, by simp, by simp, hG, hH⟩
  rw [hr, ok_bind]
  exact ⟨_, rfl⟩

omit [DecidableEq F] in
/-- How often the tape is not good. -/
theorem card_bad_tapes [Fintype F] (h2 : (2 : F) ≠ 0) {k N : Nat} (hk : 2 ≤ k) (hN : 4 * k + 4 ≤ N)
    (rest : Tape F) (a b : Fin (2 ^ k) → F) (ha : ∃ j, SparsePosition (2 ^ k) j.val ∧ a j ≠ 0)
    (hb : ∃ j, SparsePosition (2 ^ k) j.val ∧ b j ≠ 0)
    (hc : ∃ j, SparsePosition (2 ^ k) j.val ∧ a j - a ⬝ᵥ b * (b ⬝ᵥ b)⁻¹ * b j ≠ 0) :
    Nat.card {t : Fin N → F // ¬ goodTape (2 ^ k) a b (tapeOf rest t)} * Nat.card F ≤
      7 * Nat.card (Fin N → F) := by
  have h4 : 4 ≤ 2 ^ k := by calc 4 = 2 ^ 2 := rfl
    _ ≤ 2 ^ k := Nat.pow_le_pow_right (by decide) hk
  have hl := length_samplePositions k (by omega)
  have e1 : ∀ t : Fin N → F, samp (2 ^ k) (tapeOf rest t) = sampLin (2 ^ k) N 0 (by omega) t := by
    intro t
    ext j
    simp only [samp, sampLin, LinearMap.coe_mk, AddHom.coe_mk, Nat.zero_add]
    split
    · next hj =>
      have := (lastWrite_lt hj).1
      rw [tapeOf, dif_pos (by omega)]
    · rfl
  have e2 : ∀ t : Fin N → F, (samp (2 ^ k) fun i => tapeOf rest t (i + (samplePositions (2 ^ k)).length)) =
      sampLin (2 ^ k) N (2 * k + 2) (by omega) t := by
    intro t
    ext j
    simp only [samp, sampLin, LinearMap.coe_mk, AddHom.coe_mk]
    split
    · next hj =>
      have := (lastWrite_lt hj).1
      rw [tapeOf, dif_pos (by omega)]
      congr 2
      omega
    · rfl
  have hS : ∀ j : Fin (2 ^ k), SparsePosition (2 ^ k) j.val ↔ j.val ∈ samplePositions (2 ^ k) := fun j =>
    (mem_samplePositions _ _).symm
  simp only [hS] at ha hb hc
  have := card_bad_samples h2 (fun j : Fin (2 ^ k) => j.val ∈ samplePositions (2 ^ k))
    (sampLin (F := F) (2 ^ k) N 0 (by omega)) (sampLin (2 ^ k) N (2 * k + 2) (by omega))
    (fun z hz => ⟨unsamp (2 ^ k) N 0 z, sampLin_unsamp _ _ _ _ z hz,
      sampLin_unsamp_other _ _ _ _ _ z (.inr (by omega))⟩)
    (fun z hz => ⟨unsamp (2 ^ k) N (2 * k + 2) z, sampLin_unsamp_other _ _ _ _ _ z (.inl (by omega)),
      sampLin_unsamp _ _ _ _ z hz⟩)
    (fun i => ⟨i.val, by omega⟩) (fun i j h => Fin.ext (by simpa using h))
    (fun i => by
      rw [mem_samplePositions]
      have : i.val = 0 ∨ i.val = 1 ∨ i.val = 2 := by omega
      rcases this with h | h | h
      · exact .inl h
      · exact .inr (.inl h)
      · exact .inr (.inr (.inl ⟨1, le_rfl, h4, .inl h⟩))) a b ha hb hc
  simpa only [goodTape, e1, e2] using this

end

/-! ### Hash functions -/

/-- Counting over the answer to one query, which may depend on the answers to others. -/
theorem count_history (ro : Hash) (D : Finset (List Event)) (Qry : Hash → List Event)
    (hQ : ∀ ro v, Qry (Function.update ro (Qry ro) v) = Qry ro) (hD : ∀ ro, Qry ro ∈ D) (A : Hash → Prop)
    (m : Nat) (h : ∀ ro, Nat.card {v // A (Function.update ro (Qry ro) v)} ≤ m) :
    countHashes ro D A * 2 ^ 512 ≤ m * (2 ^ 512) ^ D.card := by
  classical
  have := card_update (fun f : D → Vector UInt8 64 => (⟨Qry (patch ro D f), hD _⟩ : D)) (by
      intro f v
      apply Subtype.ext
      simp only [patch_update]
      exact hQ _ _) (fun f => A (patch ro D f)) m (by
      intro f
      simp only [patch_update]
      exact h _)
  rw [card_hashes, Nat.card_eq_fintype_card (α := Vector UInt8 64), card_bytes] at this
  exact this

theorem count_none (ro : Hash) (D : Finset (List Event)) (A : Hash → Prop) (h : ∀ ro, ¬ A ro) :
    countHashes ro D A = 0 := by
  have e : IsEmpty {f : D → Vector UInt8 64 // A (patch ro D f)} := ⟨fun f => h _ f.2⟩
  rw [countHashes, Nat.card_of_isEmpty]

/-- Few answers give a bad challenge. -/
theorem card_challenge {F : Type} [NatCast F] {B : Nat}
    (hB : ∀ c : F, Nat.card {v : Vector UInt8 64 // ((leNat v.toList : Nat) : F) = c} ≤ B)
    (S : Finset F) : Nat.card {v : Vector UInt8 64 // ((leNat v.toList : Nat) : F) ∈ S} ≤ S.card * B := by
  let e : {v : Vector UInt8 64 // ((leNat v.toList : Nat) : F) ∈ S} ≃
      Σ c : S, {v : Vector UInt8 64 // ((leNat v.toList : Nat) : F) = c.1} :=
    { toFun := fun v => ⟨⟨_, v.2⟩, v.1, rfl⟩
      invFun := fun z => ⟨z.2.1, by rw [z.2.2]; exact z.1.2⟩
      left_inv := fun _ => rfl
      right_inv := by
        rintro ⟨⟨c, hc⟩, v, h⟩
        simp only at h
        subst h
        rfl }
  rw [Nat.card_congr e, Nat.card_sigma]
  refine (Finset.sum_le_card_nsmul _ _ B fun c _ => hB c.1).trans ?_
  simp

theorem chanceBoth_le {F : Type} [Finite F] [Nonempty F] {ro : Hash} {D : Finset (List Event)} {rest : Tape F}
    {N : Nat} {A : Hash → Tape F → Prop} (P1 P2 : Hash → Tape F → Prop) (h : ∀ ro τ, A ro τ → P1 ro τ ∨ P2 ro τ)
    (k m : Nat) (h1 : ∀ ro, Nat.card {t : Fin N → F // P1 ro (tapeOf rest t)} * Nat.card F ≤
      k * Nat.card (Fin N → F))
    (h2 : ∀ t : Fin N → F, countHashes ro D (fun ro => P2 ro (tapeOf rest t)) * 2 ^ 512 ≤
      m * (2 ^ 512) ^ D.card) :
    chanceBoth ro D rest N A ≤ k / Nat.card F + m / 2 ^ 512 := by
  classical
  have := Fintype.ofFinite F
  have c1 := card_joint_right (X := D → Vector UInt8 64) (Y := Fin N → F)
    (fun z => P1 (patch ro D z.1) (tapeOf rest z.2)) (Nat.card F) k
    (fun f => h1 (patch ro D f))
  have c2 := card_joint_left (X := D → Vector UInt8 64) (Y := Fin N → F)
    (fun z => P2 (patch ro D z.1) (tapeOf rest z.2)) (2 ^ 512) m (fun t => by
      rw [card_hashes]; exact h2 t)
  have c3 : Nat.card {z : (D → Vector UInt8 64) × (Fin N → F) // A (patch ro D z.1) (tapeOf rest z.2)} ≤
      Nat.card {z : (D → Vector UInt8 64) × (Fin N → F) // P1 (patch ro D z.1) (tapeOf rest z.2)} +
      Nat.card {z : (D → Vector UInt8 64) × (Fin N → F) // P2 (patch ro D z.1) (tapeOf rest z.2)} :=
    (card_imp fun z hz => h _ _ hz).trans (card_or _ _)
  rw [card_hashes, Nat.card_fun, Nat.card_fin] at c1 c2
  unfold chanceBoth
  generalize Nat.card {z : (D → Vector UInt8 64) × (Fin N → F) // A (patch ro D z.1) (tapeOf rest z.2)} = n at *
  generalize Nat.card {z : (D → Vector UInt8 64) × (Fin N → F) // P1 (patch ro D z.1) (tapeOf rest z.2)} = n1 at *
  generalize Nat.card {z : (D → Vector UInt8 64) × (Fin N → F) // P2 (patch ro D z.1) (tapeOf rest z.2)} = n2 at *
  have hF : (0 : ℚ) < Nat.card F := by exact_mod_cast Nat.card_pos
  have hH : (0 : ℚ) < 2 ^ 512 := by positivity
  have hall : (0 : ℚ) < (2 ^ 512) ^ D.card * Nat.card F ^ N := by positivity
  have d1 : (n1 : ℚ) / ((2 ^ 512) ^ D.card * Nat.card F ^ N) ≤ k / Nat.card F := by
    rw [div_le_div_iff₀ hall hF]; exact_mod_cast c1
  have d2 : (n2 : ℚ) / ((2 ^ 512) ^ D.card * Nat.card F ^ N) ≤ m / 2 ^ 512 := by
    rw [div_le_div_iff₀ hall hH]; exact_mod_cast c2
  refine le_trans ?_ (add_le_add d1 d2)
  rw [← add_div]
  exact div_le_div_of_nonneg_right (by exact_mod_cast c3) hall.le

variable {F G : Type} [Field F] [AddCommGroup G] [Module F G] [DecidableEq G] [DecidableEq F]

/-! ### C74 -/

/-- C74: an honest plain inner-product proof is made for all vectors of length `2 ^ k`, and for all but a
fraction `B / 2^512` of the hash functions it is accepted. -/
theorem C74_ipa_completeness_error {k B : Nat} (hk : k < 64) (cd : Codec G) (log : List Event) (Gs Hs : List G)
    (Q : G) (a b : List F) (ha : a.length = 2 ^ k) (hb : b.length = 2 ^ k) (hG : Gs.length = 2 ^ k)
    (hH : Hs.length = 2 ^ k)
    (hB : Nat.card {v : Vector UInt8 64 // ((leNat v.toList : Nat) : F) = 0} ≤ B)
    (ro : Hash) (D : Finset (List Event)) (hD : log ++ headLog (2 ^ k) ∈ D) :
    chance ro D (fun ro => ¬ ∃ p tr', Ipa.create ⟨cd, ro⟩ ⟨log⟩ Gs Hs Q a b = .ok (p, tr') ∧
      p.verify ⟨cd, ro⟩ ⟨log⟩ Gs Hs Q (2 ^ k) (dot a Gs + dot b Hs + dot a b • Q) (dot a b) = .ok (true, tr')) ≤
    B / 2 ^ 512 := by
  apply chance_le
  refine count_history ro D (fun _ => log ++ headLog (2 ^ k)) (fun _ _ => rfl) (fun _ => hD) _ B fun ro => ?_
  refine le_trans (card_imp fun v hv => ?_) hB
  by_contra h0
  apply hv
  obtain ⟨⟨p, tr'⟩, h⟩ := (C17_ipa_create_returns_iff ⟨cd, Function.update ro (log ++ headLog (2 ^ k)) v⟩ ⟨log⟩
    Gs Hs Q a b).2 ⟨k, ha, hb, hG, hH⟩
  refine ⟨p, tr', h, ?_⟩
  have := C16_ipa_completeness _ _ _ _ _ _ _ _ _ h (by rw [hG]; exact Nat.pow_lt_pow_right (by decide) hk) (by
    rw [hG]
    simp only [ipaAlpha, squeeze, Function.update_self]
    exact h0)
  rw [hG] at this
  exact this

/-- C74: completeness error of AlmZK. The vectors must not be isotropic, and what `orth` and the sparse sampler
see of them must not be degenerate; then, for random tapes and hash functions, an honest run (prover and verifier)
fails with probability at most `7 / |F| + B / 2^512`. The set `D` contains the histories at which the
challenge `alpha` is taken. -/
theorem C74_alm_completeness_error [Fintype F] (h2 : (2 : F) ≠ 0) {k N B : Nat} (hk : 2 ≤ k) (hk' : k < 64)
    (hN : 4 * k + 4 ≤ N) (cd : Codec G) (log : List Event) (Gs Hs : List G) (Q : G) (a b : Fin (2 ^ k) → F)
    (hG : Gs.length = 2 ^ k) (hH : Hs.length = 2 ^ k) (haa : a ⬝ᵥ a ≠ 0) (hbb : b ⬝ᵥ b ≠ 0)
    (ha : ∃ j, SparsePosition (2 ^ k) j.val ∧ a j ≠ 0) (hb : ∃ j, SparsePosition (2 ^ k) j.val ∧ b j ≠ 0)
    (hc : ∃ j, SparsePosition (2 ^ k) j.val ∧ a j - a ⬝ᵥ b * (b ⬝ᵥ b)⁻¹ * b j ≠ 0)
    (hB : Nat.card {v : Vector UInt8 64 // ((leNat v.toList : Nat) : F) = 0} ≤ B)
    (ro : Hash) (rest : Tape F) (D : Finset (List Event))
    (hD : ∀ ro (t : Fin N → F) p tr' τ', createAlm ⟨cd, ro⟩ ⟨log⟩ (tapeOf rest t) Gs Hs Q
      (dot (List.ofFn a) Gs + dot (List.ofFn b) Hs) (List.ofFn a) (List.ofFn b) (a ⬝ᵥ b) = .ok (p, tr', τ') →
      tr'.log.take (log.length + 5) ∈ D) :
    chanceBoth ro D rest N (fun ro τ => ¬ ∃ p tr' τ',
      createAlm ⟨cd, ro⟩ ⟨log⟩ τ Gs Hs Q (dot (List.ofFn a) Gs + dot (List.ofFn b) Hs) (List.ofFn a)
        (List.ofFn b) (a ⬝ᵥ b) = .ok (p, tr', τ') ∧
      p.verify ⟨cd, ro⟩ ⟨log⟩ Gs Hs Q (2 ^ k) (dot (List.ofFn a) Gs + dot (List.ofFn b) Hs) (a ⬝ᵥ b) =
        .ok (true, tr')) ≤ 7 / Fintype.card F + B / 2 ^ 512 := by
  classical
  have hn : 2 ≤ 2 ^ k := by calc 2 = 2 ^ 1 := rfl
    _ ≤ 2 ^ k := Nat.pow_le_pow_right (by decide) (by omega)
  set C_w := dot (List.ofFn a) Gs + dot (List.ofFn b) Hs with hC_w
  rw [← Nat.card_eq_fintype_card]
  refine chanceBoth_le (fun _ τ => ¬ goodTape (2 ^ k) a b τ)
    (fun ro τ => goodTape (2 ^ k) a b τ ∧ ¬ ∃ p tr' τ',
      createAlm ⟨cd, ro⟩ ⟨log⟩ τ Gs Hs Q C_w (List.ofFn a) (List.ofFn b) (a ⬝ᵥ b) = .ok (p, tr', τ') ∧
      p.verify ⟨cd, ro⟩ ⟨log⟩ Gs Hs Q (2 ^ k) C_w (a ⬝ᵥ b) = .ok (true, tr'))
    (fun ro τ h => by by_cases hg : goodTape (2 ^ k) a b τ
                      · exact .inr ⟨hg, h⟩
                      · exact .inl hg) 7 B
    (fun _ => card_bad_tapes h2 hk hN rest a b ha hb hc) ?_
  intro t
  by_cases hg : goodTape (2 ^ k) a b (tapeOf rest t)
  swap
  · rw [count_none ro D _ fun ro h => hg h.1, Nat.zero_mul]
    exact Nat.zero_le _
  obtain ⟨r', r'', τ1, τ2, m1, m2⟩ := masks_ofFn hn a b (tapeOf rest t) haa hg
  -- the run of the prover with any hash function
  set C_r := dot (List.ofFn r') Gs + dot (List.ofFn r'') Hs with hC_r
  have run : ∀ ro, ∃ p tr' τ', createAlm ⟨cd, ro⟩ ⟨log⟩ (tapeOf rest t) Gs Hs Q C_w (List.ofFn a) (List.ofFn b)
      (a ⬝ᵥ b) = .ok (p, tr', τ') ∧ p.C_r = cd.compress C_r := by
    intro ro
    obtain ⟨⟨p, tr', τ'⟩, h⟩ := createAlm_returns ⟨cd, ro⟩ ⟨log⟩ Gs Hs Q C_w (by omega) a b (a ⬝ᵥ b)
      (tapeOf rest t) hG hH haa hg
    refine ⟨p, tr', τ', h, ?_⟩
    obtain ⟨r1, r2, τ3, _, e1, e2, -, -, -, -, -, -, e3, -⟩ := createAlm_ok _ _ _ _ _ _ _ _ _ _ _ _ _ h
    rw [m1, Except.ok.injEq, Prod.mk.injEq] at e1
    obtain ⟨rfl, rfl⟩ := e1
    rw [m2, Except.ok.injEq, Prod.mk.injEq] at e2
    obtain ⟨rfl, rfl⟩ := e2
    exact e3
  let Qry : Hash → List Event := fun ro =>
    let β := almBeta F ro log (cd.compress C_r)
    log ++ almHead (cd.compress C_r) (cd.compress (β • C_w + C_r + (β * β * (a ⬝ᵥ b)) • Q)) ++ headLog (2 ^ k)
  have hQ : ∀ ro v, Qry (Function.update ro (Qry ro) v) = Qry ro := by
    intro ro v
    have : almBeta F (Function.update ro (Qry ro) v) log (cd.compress C_r) = almBeta F ro log (cd.compress C_r) := by
      unfold almBeta squeeze
      rw [Function.update_of_ne]
      intro e
      have := congrArg List.length e
      simp [Qry, almHead, headLog] at this
    simp only [Qry]
    rw [this]
  refine count_history ro D Qry hQ ?_ _ B fun ro => ?_
  · intro ro
    obtain ⟨p, tr', τ', h, hp⟩ := run ro
    have := hD ro t p tr' τ' h
    obtain ⟨C, hC, hlog⟩ := C11_alm_create_log _ _ _ _ _ _ _ _ _ _ _ _ _ h
    rw [hp] at hC
    have hC' : C = C_r := by
      have e : cd.decompress (cd.compress C_r) = some C := hC
      rw [cd.decompress_compress] at e
      exact (Option.some.inj e).symm
    subst hC'
    rw [hlog, hp, hG] at this
    convert this using 1
    simp only [Qry, almHead, headLog]
    rw [List.take_append_of_le_length (by simp), List.take_of_length_le (by simp)]
    simp
  · refine le_trans (card_imp fun v hv => ?_) hB
    by_contra h0
    apply hv.2
    obtain ⟨p, tr', τ', h, hp⟩ := run (Function.update ro (Qry ro) v)
    refine ⟨p, tr', τ', h, ?_⟩
    rw [hC_w, ← dot_ofFn_vec] at h ⊢
    have := C24_alm_completeness _ _ _ _ _ _ _ _ _ _ _ (by simp) h
      (by rw [hG]; exact Nat.pow_lt_pow_right (by decide) hk') (masksFine_ofFn hn a b _ haa hbb hg) (by
      intro C hC
      rw [hp] at hC
      have hC' : C = C_r := by
        have e : cd.decompress (cd.compress C_r) = some C := hC
        rw [cd.decompress_compress] at e
        exact (Option.some.inj e).symm
      subst hC'
      have hq := hQ ro v
      simp only [almAlpha, ipaAlpha]
      rw [hG, ← hC_w, dot_ofFn_vec]
      change squeeze F (Function.update ro (Qry ro) v) (Qry (Function.update ro (Qry ro) v)) ≠ 0
      rw [hq, squeeze, Function.update_self]
      exact h0)
    rw [hG] at this
    exact this

omit [DecidableEq G] in
/-- C74: a set `D` as in the theorem above exists. -/
theorem C74_alm_domain [Fintype F] {N : Nat} (cd : Codec G) (log : List Event) (Gs Hs : List G) (Q C_w : G)
    (a b : List F) (x : F) (rest : Tape F) : ∃ D : Finset (List Event),
      ∀ ro (t : Fin N → F) p tr' τ', createAlm ⟨cd, ro⟩ ⟨log⟩ (tapeOf rest t) Gs Hs Q C_w a b x = .ok (p, tr', τ') →
        tr'.log.take (log.length + 5) ∈ D := by
  classical
  let mask : (Fin N → F) → G := fun t =>
    match sampleGramSchmidt b (tapeOf rest t) with
    | .ok (r', τ1) =>
      match sampleGramSchmidtTwice a r' τ1 with
      | .ok (r'', _) => dot r' Gs + dot r'' Hs
      | .error _ => 0
    | .error _ => 0
  refine ⟨Finset.univ.image fun z : (Fin N → F) × F => log ++ almHead (cd.compress (mask z.1))
    (cd.compress (z.2 • C_w + mask z.1 + (z.2 * z.2 * x) • Q)) ++ headLog Gs.length, ?_⟩
  intro ro t p tr' τ' h
  obtain ⟨r', r'', τ1, _, e1, e2, -, -, -, -, -, -, e3, -⟩ := createAlm_ok _ _ _ _ _ _ _ _ _ _ _ _ _ h
  have hm : mask t = dot r' Gs + dot r'' Hs := by simp only [mask, e1, e2]
  obtain ⟨C, hC, hlog⟩ := C11_alm_create_log _ _ _ _ _ _ _ _ _ _ _ _ _ h
  rw [e3] at hC
  have hC' : C = mask t := by
    have e : cd.decompress (cd.compress (dot r' Gs + dot r'' Hs)) = some C := hC
    rw [cd.decompress_compress] at e
    rw [hm]
    exact (Option.some.inj e).symm
  refine Finset.mem_image.2 ⟨(t, almBeta F ro log p.C_r), Finset.mem_univ _, ?_⟩
  rw [hlog, e3, hC', ← hm]
  simp only [almHead, headLog]
  rw [List.take_append_of_le_length (by simp), List.take_of_length_le (by simp)]
  simp

omit [DecidableEq F] in
/-- C74: `chanceBoth` is a probability. -/
theorem C74_chanceBoth_true [Fintype F] (ro : Hash) (D : Finset (List Event)) (rest : Tape F) (N : Nat) :
    chanceBoth ro D rest N (fun _ _ => True) = 1 := by
  unfold chanceBoth
  rw [Nat.card_congr (Equiv.subtypeUnivEquiv fun _ => trivial), Nat.card_prod, card_hashes, Nat.card_fun,
    Nat.card_fin, Nat.cast_mul, Nat.cast_pow, Nat.cast_pow, Nat.cast_pow, Nat.cast_ofNat]
  have hF : (0 : ℚ) < Nat.card F := by exact_mod_cast Nat.card_pos
  exact div_self (by positivity)

omit [DecidableEq G] in
/-- C74: the condition on `a - (⟨a, b⟩ / ⟨b, b⟩) b` cannot be dropped: for a multiple of `b` the prover panics
with every tape. -/
theorem C74_alm_parallel (cx : Ctx G) (tr : Transcript) (Gs Hs : List G) (Q C_w : G) (c : F) (b : List F) (x : F)
    (hn : 2 ≤ b.length) (hbb : dot b b ≠ 0) (τ : Tape F) :
    createAlm cx tr τ Gs Hs Q C_w (b.map fun y => y * c) b x = .error .assertFail := by
  unfold createAlm
  cases h : sampleGramSchmidt b τ with
  | error e =>
    have : e = .assertFail := by
      unfold sampleGramSchmidt at h
      rw [sampleMNPlus_eq _ hn, ok_bind] at h
      simp only [orth_eq] at h
      split at h
      · exact (Except.error.inj h).symm
      · simp at h
    subst this; rfl
  | ok r =>
    obtain ⟨r', τ1⟩ := r
    have h0 := (C13_sample_gram_schmidt b r' τ τ1 h hbb).2
    rw [ok_bind]
    simp only
    unfold sampleGramSchmidtTwice
    rw [(C12_orth_panics_iff _ r').1 (by rw [dot_map_mul_left, h0, smul_zero])]
    rfl

section
open Toy

/-- The bound for vectors over `ZMod 101` with four entries: at most `7/101 + (1/101 + 2^-512)`. -/
example (Gs Hs : Fin 4 → K) (Q : K) (ro : Hash) (rest : Tape K) : ∃ D : Finset (List Event),
    chanceBoth ro D rest 12 (fun ro τ => ¬ ∃ p tr' τ',
      createAlm ⟨codec, ro⟩ ⟨[]⟩ τ (List.ofFn Gs) (List.ofFn Hs) Q
        (dot (List.ofFn ![(1 : K), 2, 3, 4]) (List.ofFn Gs) + dot (List.ofFn ![(5 : K), 6, 7, 9]) (List.ofFn Hs))
        (List.ofFn ![(1 : K), 2, 3, 4]) (List.ofFn ![(5 : K), 6, 7, 9]) (![1, 2, 3, 4] ⬝ᵥ ![5, 6, 7, 9]) =
          .ok (p, tr', τ') ∧
      p.verify ⟨codec, ro⟩ ⟨[]⟩ (List.ofFn Gs) (List.ofFn Hs) Q (2 ^ 2)
        (dot (List.ofFn ![(1 : K), 2, 3, 4]) (List.ofFn Gs) + dot (List.ofFn ![(5 : K), 6, 7, 9]) (List.ofFn Hs))
        (![1, 2, 3, 4] ⬝ᵥ ![5, 6, 7, 9]) = .ok (true, tr')) ≤ 7 / 101 + 1 * (1 / 101 + 1 / 2 ^ 512) := by
  obtain ⟨D, hD⟩ := C74_alm_domain (N := 12) codec [] (List.ofFn Gs) (List.ofFn Hs) Q
    (dot (List.ofFn ![(1 : K), 2, 3, 4]) (List.ofFn Gs) + dot (List.ofFn ![(5 : K), 6, 7, 9]) (List.ofFn Hs))
    (List.ofFn ![(1 : K), 2, 3, 4]) (List.ofFn ![(5 : K), 6, 7, 9]) (![1, 2, 3, 4] ⬝ᵥ ![5, 6, 7, 9]) rest
  refine ⟨D, ?_⟩
  have := C74_alm_completeness_error (F := K) (k := 2) (N := 12) (by decide +kernel) (by decide) (by decide)
    (by decide) codec [] (List.ofFn Gs) (List.ofFn Hs) Q ![1, 2, 3, 4] ![5, 6, 7, 9] (by simp) (by simp)
    (by decide +kernel) (by decide +kernel) ⟨0, .inl rfl, by decide +kernel⟩ ⟨0, .inl rfl, by decide +kernel⟩
    ⟨0, .inl rfl, by decide +kernel⟩ (C67_scalars 101 0) ro rest D hD
  refine this.trans (add_le_add (by rw [show Fintype.card K = 101 from ZMod.card 101]; norm_num) ?_)
  have := C67_bound 1 101
  rw [Nat.one_mul, Nat.cast_one] at this
  exact this

/-- Parallel vectors, for which the prover panics. -/
example : 2 ≤ [5, 6, 7, (9 : K)].length ∧ dot [5, 6, 7, 9] [5, 6, 7, (9 : K)] ≠ 0 := by decide +kernel
end

end Qesa.Props
