import Verif.Proofs.Masks
import Verif.Proofs.Release
import Verif.Props.HonestTrees
import Verif.Props.QesaShapes
import Verif.Props.LmpaK
/-
C101: sizes of honest proofs, number of challenges, and how much randomness the provers use.
-/
namespace Qesa.Props
open Qesa Spec Ipa
variable {F G : Type} [Field F] [AddCommGroup G] [Module F G]

/-! ### The samplers -/

section
variable [DecidableEq F]

omit [DecidableEq F] in
theorem sampleMNPlus_local {n : Nat} {s : List F} {tape tape' : Tape F} (h : sampleMNPlus n tape = .ok (s, tape'))
    (τ : Tape F) (hτ : ∀ i < (samplePositions n).length, τ i = tape i) :
    2 ≤ n ∧ sampleMNPlus n τ = .ok (s, fun i => τ (i + (samplePositions n).length)) := by
  have hn : 2 ≤ n := by
    by_contra hc
    rw [sampleMNPlus_panics n (by omega)] at h
    cases h
  refine ⟨hn, ?_⟩
  rw [sampleMNPlus_samp n hn] at h ⊢
  rw [Except.ok.injEq, Prod.mk.injEq] at h
  rw [← h.1]
  congr 2
  congr 1
  funext j
  simp only [samp]
  split
  · rename_i hj
    exact hτ _ (lastWrite_lt hj).1
  · rfl

theorem sampleGramSchmidt_local {a o : List F} {tape tape' : Tape F}
    (h : sampleGramSchmidt a tape = .ok (o, tape')) (τ : Tape F)
    (hτ : ∀ i < (samplePositions a.length).length, τ i = tape i) : 2 ≤ a.length ∧
    sampleGramSchmidt a τ = .ok (o, fun i => τ (i + (samplePositions a.length).length)) := by
  unfold sampleGramSchmidt at h ⊢
  obtain ⟨⟨s, t⟩, h1, h⟩ := bind_eq_ok.1 h
  obtain ⟨o', h2, h⟩ := bind_eq_ok.1 h
  simp only [R_pure, Except.ok.injEq, Prod.mk.injEq] at h
  obtain ⟨h3, h4⟩ := sampleMNPlus_local h1 τ hτ
  refine ⟨h3, ?_⟩
  simp only [h4, ok_bind, h2, R_pure, h.1]

theorem sampleGramSchmidt_tape {a o : List F} {tape tape' : Tape F}
    (h : sampleGramSchmidt a tape = .ok (o, tape')) :
    tape' = fun i => tape (i + (samplePositions a.length).length) := by
  have := (sampleGramSchmidt_local h tape fun _ _ => rfl).2
  rw [h, Except.ok.injEq, Prod.mk.injEq] at this
  exact this.2

theorem sampleGramSchmidtTwice_local {a b r : List F} {tape tape' : Tape F}
    (h : sampleGramSchmidtTwice a b tape = .ok (r, tape')) (τ : Tape F)
    (hτ : ∀ i < (samplePositions a.length).length, τ i = tape i) :
    sampleGramSchmidtTwice a b τ = .ok (r, fun i => τ (i + (samplePositions a.length).length)) := by
  unfold sampleGramSchmidtTwice at h ⊢
  obtain ⟨o, h1, h⟩ := bind_eq_ok.1 h
  obtain ⟨⟨s, t⟩, h2, h⟩ := bind_eq_ok.1 h
  obtain ⟨r', h3, h⟩ := bind_eq_ok.1 h
  simp only [R_pure, Except.ok.injEq, Prod.mk.injEq] at h
  simp only [h1, ok_bind, (sampleGramSchmidt_local h2 τ hτ).2, h3, R_pure, h.1]

theorem createAlm_local {k : Nat} {cx : Ctx G} {tr tr' : Transcript} {tape tape' : Tape F} {Gs Hs : List G}
    {Q C_w : G} {a b : List F} {t : F} {p : AlmZK F} (ha : a.length = 2 ^ k) (hb : b.length = 2 ^ k)
    (h : createAlm cx tr tape Gs Hs Q C_w a b t = .ok (p, tr', tape')) (τ : Tape F)
    (hτ : ∀ i < 4 * k + 4, τ i = tape i) :
    1 ≤ k ∧ createAlm cx tr τ Gs Hs Q C_w a b t = .ok (p, tr', fun i => τ (i + (4 * k + 4))) := by
  unfold createAlm at h ⊢
  simp only [challengeScalar_eq] at h ⊢
  obtain ⟨⟨r', tape1⟩, h1, h⟩ := bind_eq_ok.1 h
  obtain ⟨⟨r'', tape2⟩, h2, h⟩ := bind_eq_ok.1 h
  obtain ⟨C_r, h3, h⟩ := bind_eq_ok.1 h
  obtain ⟨⟨q, tr2⟩, h4, h⟩ := bind_eq_ok.1 h
  simp only [R_pure, Except.ok.injEq, Prod.mk.injEq] at h
  obtain ⟨rfl, rfl, -⟩ := h
  have hk : 1 ≤ k := by
    have := (sampleGramSchmidt_local h1 tape fun _ _ => rfl).1
    rcases k with _ | k
    · rw [hb] at this; norm_num at this
    · omega
  refine ⟨hk, ?_⟩
  have e1 : tape1 = fun i => tape (i + (2 * k + 2)) := by
    rw [sampleGramSchmidt_tape h1, hb, length_samplePositions k hk]
  have e2 := (sampleGramSchmidt_local h1 τ (by
    rw [hb, length_samplePositions k hk]; exact fun i hi => hτ i (by omega))).2
  have e3 := sampleGramSchmidtTwice_local h2 (fun i => τ (i + (2 * k + 2))) (by
    rw [ha, length_samplePositions k hk, e1]; exact fun i hi => hτ _ (by omega))
  rw [hb, length_samplePositions k hk] at e2
  rw [ha, length_samplePositions k hk] at e3
  rw [e2, ok_bind]
  dsimp only
  rw [e3, ok_bind]
  dsimp only
  rw [h3, ok_bind, h4, ok_bind, R_pure]
  congr 3
  funext i
  congr 1
  omega

end

theorem nodup_loopPositions (n : Nat) : ∀ (fuel e : Nat), n < 2 ^ (e + 2) + fuel →
    (loopPositions n fuel (2 ^ (e + 2))).Nodup
  | 0, _, _ => List.nodup_nil
  | fuel + 1, e, hf => by
    have h1 : 2 ^ (e + 2) = 2 * (2 * 2 ^ e) := by ring
    have h2 : 0 < 2 ^ e := by positivity
    unfold loopPositions
    split
    · have hd : 2 ^ (e + 2) / 2 = 2 * 2 ^ e := by omega
      have hf' : n < 2 ^ (e + 2 + 1) + fuel := by
        have : 2 ^ (e + 2 + 1) = 2 * 2 ^ (e + 2) := by ring
        omega
      have ih := nodup_loopPositions n fuel (e + 1) (by rw [show e + 1 + 2 = e + 2 + 1 by omega]; exact hf')
      rw [hd, show 2 ^ (e + 2) * 2 = 2 ^ (e + 2 + 1) by ring]
      have hge : ∀ j ∈ loopPositions n fuel (2 ^ (e + 2 + 1)), 2 * (2 * 2 ^ e) ≤ j := by
        intro j hj
        obtain ⟨e', he', -, hj'⟩ := (mem_loopPositions n fuel (e + 2) j hf').1 hj
        have : 2 ^ (e + 2) ≤ 2 ^ e' := Nat.pow_le_pow_right (by decide) he'
        omega
      rw [List.nodup_cons, List.nodup_cons, List.mem_cons]
      refine ⟨?_, fun h => ?_, ih⟩
      · rintro (h | h)
        · omega
        · have := hge _ h; omega
      · have := hge _ h; omega
    · exact List.nodup_nil

theorem nodup_samplePositions (k : Nat) (hk : 3 ≤ k) : (samplePositions (2 ^ k)).Nodup := by
  have hf : 2 ^ k < 2 ^ (0 + 2) + (2 ^ k + 1) := by omega
  have hm : ∀ j, j ∈ loopPositions (2 ^ k) (2 ^ k + 1) 4 → 2 ≤ j ∧ j ≤ 2 ^ (k - 1) + 1 := by
    intro j hj
    obtain ⟨e, he, h1, h2⟩ := (mem_loopPositions (2 ^ k) (2 ^ k + 1) 1 j (by omega)).1 hj
    have h3 : e + 1 ≤ k := (Nat.pow_le_pow_iff_right (by decide)).1 h1
    have h4 : 2 ^ e ≤ 2 ^ (k - 1) := Nat.pow_le_pow_right (by decide) (by omega)
    have h5 : 2 ^ 1 ≤ 2 ^ e := Nat.pow_le_pow_right (by decide) he
    omega
  have h8 : 2 ^ (k - 1) + 1 < 2 ^ k - 2 := by
    obtain ⟨j, rfl⟩ : ∃ j, k = j + 3 := ⟨k - 3, by omega⟩
    have h1 : 2 ^ (j + 3) = 8 * 2 ^ j := by ring
    have h2 : 2 ^ (j + 3 - 1) = 4 * 2 ^ j := by rw [show j + 3 - 1 = j + 2 by omega]; ring
    have : 0 < 2 ^ j := by positivity
    omega
  have hl := nodup_loopPositions (2 ^ k) (2 ^ k + 1) 0 hf
  have hpos : 0 < 2 ^ (k - 1) := by positivity
  unfold samplePositions
  rw [List.nodup_append, List.nodup_append]
  refine ⟨⟨by decide, hl, ?_⟩, ?_, ?_⟩
  · intro a ha b hb he
    have := hm b hb
    simp only [List.mem_cons, List.not_mem_nil, or_false] at ha
    omega
  · simp only [List.nodup_cons, List.mem_cons, List.not_mem_nil, or_false, List.nodup_nil, and_true,
      not_false_iff]
    omega
  · intro a ha b hb he
    simp only [List.mem_append, List.mem_cons, List.not_mem_nil, or_false] at ha hb
    rcases ha with ha | ha
    · omega
    · have := hm a ha
      omega

/-! ### C101 -/

/-- C101: `sample_m_n_plus` for a vector of length `2 ^ k` with `k ≥ 3` uses each of the `2 k + 2` scalars it
draws. -/
theorem C101_every_draw_counts (k : Nat) (hk : 3 ≤ k) (τ τ' : Tape F) (s : List F) (rest rest' : Tape F)
    (h : sampleMNPlus (2 ^ k) τ = .ok (s, rest)) (h' : sampleMNPlus (2 ^ k) τ' = .ok (s, rest')) :
    (rest = fun i => τ (i + (2 * k + 2))) ∧ ∀ i < 2 * k + 2, τ i = τ' i := by
  have hn : 2 ≤ 2 ^ k := by
    calc 2 = 2 ^ 1 := rfl
      _ ≤ 2 ^ k := Nat.pow_le_pow_right (by decide) (by omega)
  have hl := length_samplePositions k (by omega)
  rw [sampleMNPlus_samp _ hn, Except.ok.injEq, Prod.mk.injEq, hl] at h h'
  refine ⟨h.2.symm, fun i hi => ?_⟩
  have e := List.ofFn_injective (h.1.trans h'.1.symm)
  have hi' : i < (samplePositions (2 ^ k)).length := by omega
  have hmem : (samplePositions (2 ^ k))[i] ∈ samplePositions (2 ^ k) := List.getElem_mem hi'
  have hlt : (samplePositions (2 ^ k))[i] < 2 ^ k := by
    rw [mem_samplePositions] at hmem
    rcases hmem with h | h | ⟨e, he, h1, h2⟩ | h | h
    · omega
    · omega
    · have h3 : 2 ^ 1 ≤ 2 ^ e := Nat.pow_le_pow_right (by decide) he
      rw [pow_succ] at h1
      omega
    · omega
    · omega
  have hlast : lastWrite (samplePositions (2 ^ k)) (samplePositions (2 ^ k))[i] = i := by
    obtain ⟨h1, h2⟩ := lastWrite_lt hmem
    rw [List.getElem?_eq_getElem h1, Option.some.injEq] at h2
    exact (nodup_samplePositions k hk).getElem_inj_iff.1 h2
  have := congrFun e ⟨_, hlt⟩
  simp only [samp] at this
  rwa [if_pos hmem, hlast, if_pos hmem] at this

/-- C101: for two and for four entries two of the drawn scalars are overwritten. -/
theorem C101_draws_overwritten (τ : Tape F) :
    sampleMNPlus 2 τ = .ok ([τ 2, τ 3], fun i => τ (i + 4)) ∧
      sampleMNPlus 4 τ = .ok ([τ 0, τ 1, τ 4, τ 5], fun i => τ (i + 6)) := by
  constructor <;> rfl

/-- C101: a proof of the inner-product argument for `2 ^ k` generators consists of `k` pairs of points and two
scalars; `k + 1` challenges are hashed. -/
theorem C101_ipa_size (cx : Ctx G) (tr tr' : Transcript) (Gs Hs : List G) (Q : G) (a b : List F) (p : NoZK F)
    (h : Ipa.create cx tr Gs Hs Q a b = .ok (p, tr')) :
    ∃ k, Gs.length = 2 ^ k ∧ p.L_vec.length = k ∧ p.R_vec.length = k ∧
      challengesIn tr'.log = challengesIn tr.log + (k + 1) := by
  obtain ⟨k, ha, hb, hG, hH⟩ := create_ok cx tr Gs Hs Q a b _ h
  obtain ⟨p', Ls, Rs, _, _, e1, e2, e3, e4, e5, -⟩ := create_spec cx tr Q k a b Gs Hs ha hb hG hH
  rw [h, Except.ok.injEq, Prod.mk.injEq] at e1
  obtain ⟨rfl, rfl⟩ := e1
  have hL : p.L_vec.length = k := by rw [e2, List.length_map, e4]
  have hR : p.R_vec.length = k := by rw [e3, List.length_map, e5]
  refine ⟨k, hG, hL, hR, ?_⟩
  have key : ∀ (k : Nat) (L R : List Comp), L.length = k → R.length = k → challengesIn (roundsLog L R) = k := by
    intro k
    induction k with
    | zero =>
      intro L R hL hR
      rw [List.length_eq_zero_iff] at hL hR
      subst hL hR
      rfl
    | succ k ih =>
      intro L R hL hR
      obtain ⟨l, L, rfl⟩ := List.exists_cons_of_length_eq_add_one hL
      obtain ⟨r, R, rfl⟩ := List.exists_cons_of_length_eq_add_one hR
      rw [roundsLog_cons, challengesIn_append, ih L R (by simpa using hL) (by simpa using hR)]
      exact Nat.add_comm 1 k
  rw [challengesIn_append, challengesIn_append, key k _ _ hL hR]
  simp only [headLog]
  rw [show challengesIn [Event.msg "n" (u64le (2 ^ k)), .chal "alpha" 64] = 1 from rfl]
  omega

variable [DecidableEq F]

/-- C101: AlmZK: one more point, one more challenge, and `4 k + 4` random scalars. -/
theorem C101_alm_size (cx : Ctx G) (tr tr' : Transcript) (tape tape' : Tape F) (Gs Hs : List G) (Q C_w : G)
    (a b : List F) (t : F) (p : AlmZK F) (ha : a.length = Gs.length)
    (h : createAlm cx tr tape Gs Hs Q C_w a b t = .ok (p, tr', tape')) :
    ∃ k, Gs.length = 2 ^ k ∧ p.NoZK.L_vec.length = k ∧ p.NoZK.R_vec.length = k ∧
      challengesIn tr'.log = challengesIn tr.log + (k + 2) ∧ tape' = (fun i => tape (i + (4 * k + 4))) ∧
      ∀ τ : Tape F, (∀ i < 4 * k + 4, τ i = tape i) →
        createAlm cx tr τ Gs Hs Q C_w a b t = .ok (p, tr', fun i => τ (i + (4 * k + 4))) := by
  obtain ⟨r', r'', tape1, k, -, -, hG, -, hb, -, -, -, -, hc⟩ := createAlm_ok _ _ _ _ _ _ _ _ _ _ _ _ _ h
  have loc := createAlm_local (ha.trans hG) hb h
  obtain ⟨k', e1, e2, e3, e4⟩ := C101_ipa_size _ _ _ _ _ _ _ _ _ hc
  obtain rfl : k' = k := Nat.pow_right_injective (le_refl 2) (e1.symm.trans hG)
  refine ⟨k', hG, e2, e3, ?_, ?_, fun τ hτ => (loc τ hτ).2⟩
  · rw [e4, challengesIn_append]
    simp only [almHead]
    rw [show ∀ A B, challengesIn [Event.msg "C_r" A, .chal "beta" 64, .msg "P" B] = 1 from fun _ _ => rfl]
    omega
  · have := (loc tape fun _ _ => rfl).2
    rw [h, Except.ok.injEq, Prod.mk.injEq, Prod.mk.injEq] at this
    exact this.2.2

/-- C101: QESA with given blinding: four more challenges than AlmZK. -/
theorem C101_inner_size (cx : Ctx G) (tr tr' : Transcript) (tape tape' : Tape F) (Gs Hs : List G) (Q : G)
    (block : BlockMatrix F) (w r' : List F) (p : Inner.Proof F)
    (h : Inner.create cx tr tape Gs Hs Q block w r' = .ok (p, tr', tape')) :
    ∃ k, Gs.length = 2 ^ k ∧ p.alm_zk.NoZK.L_vec.length = k ∧ p.alm_zk.NoZK.R_vec.length = k ∧
      challengesIn tr'.log = challengesIn tr.log + (k + 5) ∧ tape' = (fun i => tape (i + (4 * k + 4))) ∧
      ∀ τ : Tape F, (∀ i < 4 * k + 4, τ i = tape i) →
        Inner.create cx tr τ Gs Hs Q block w r' = .ok (p, tr', fun i => τ (i + (4 * k + 4))) := by
  unfold Inner.create at h ⊢
  simp only [challengeScalar_eq] at h ⊢
  obtain ⟨q, h1, h⟩ := bind_eq_ok.1 h
  obtain ⟨_, h2, h⟩ := bind_eq_ok.1 h
  obtain ⟨_, h3, h⟩ := bind_eq_ok.1 h
  obtain ⟨_, h4, h⟩ := bind_eq_ok.1 h
  obtain ⟨xs, h5, h⟩ := bind_eq_ok.1 h
  obtain ⟨_, h6, h⟩ := bind_eq_ok.1 h
  obtain ⟨gamma, h7, h⟩ := bind_eq_ok.1 h
  obtain ⟨_, h8, h⟩ := bind_eq_ok.1 h
  obtain ⟨_, h9, h⟩ := bind_eq_ok.1 h
  obtain ⟨_, h10, h⟩ := bind_eq_ok.1 h
  obtain ⟨_, h11, h⟩ := bind_eq_ok.1 h
  obtain ⟨_, h12, h⟩ := bind_eq_ok.1 h
  obtain ⟨_, h13, h⟩ := bind_eq_ok.1 h
  obtain ⟨ss, h14, h⟩ := bind_eq_ok.1 h
  obtain ⟨bs, h15, h⟩ := bind_eq_ok.1 h
  obtain ⟨_, h16, h⟩ := bind_eq_ok.1 h
  obtain ⟨_, h17, h⟩ := bind_eq_ok.1 h
  obtain ⟨_, h18, h⟩ := bind_eq_ok.1 h
  obtain ⟨a, h19, h⟩ := bind_eq_ok.1 h
  obtain ⟨b, h20, h⟩ := bind_eq_ok.1 h
  obtain ⟨_, h21, h⟩ := bind_eq_ok.1 h
  obtain ⟨⟨pa, tr2, tape2⟩, h22, h⟩ := bind_eq_ok.1 h
  simp only [R_pure, Except.ok.injEq, Prod.mk.injEq] at h
  obtain ⟨rfl, rfl, rfl⟩ := h
  obtain ⟨hq, e⟩ := usub_eq_ok.1 h1
  have l2 := rassert_eq_ok.1 h2
  have l3 := rassert_eq_ok.1 h3
  have la := rowRowSub_length h19
  have lG := setIdx_length h10
  rw [List.length_append] at la
  obtain ⟨k, g1, g2, g3, g4, g5, g6⟩ := C101_alm_size _ _ _ _ _ _ _ _ _ _ _ _ _ (by omega) h22
  refine ⟨k, lG.symm.trans g1, g2, g3, ?_, g5, fun τ hτ => ?_⟩
  · rw [g4]
    simp only [Transcript.appendMessage, challengesIn_append]
    simp only [show ∀ s d, challengesIn [Event.msg s d] = 0 from fun _ _ => rfl,
      show ∀ s n, challengesIn [Event.chal s n] = 1 from fun _ _ => rfl]
    omega
  · simp only [h1, h2, h3, h4, h5, h6, h7, h8, h9, h10, h11, h12, h13, h14, h15, h16, h17, h18, h19, h20, h21,
      ok_bind, g6 τ hτ, R_pure]

/-- C101: a QESA proof for `2 ^ k` generators consists of `2 k + 3` points and two scalars; `k + 5` challenges are
hashed and `4 k + 6` random scalars are drawn. -/
theorem C101_qesa_size (cx : Ctx G) (tr tr' : Transcript) (tape tape' : Tape F) (Gs Hs : List G) (Q : G)
    (block : BlockMatrix F) (w : List F) (p : Zk.Proof F)
    (h : Zk.create cx tr tape Gs Hs Q block w = .ok (p, tr', tape')) :
    ∃ k, Gs.length = 2 ^ k ∧ p.inner.alm_zk.NoZK.L_vec.length = k ∧ p.inner.alm_zk.NoZK.R_vec.length = k ∧
      challengesIn tr'.log = challengesIn tr.log + (k + 5) ∧ tape' = (fun i => tape (i + (4 * k + 6))) ∧
      ∀ τ : Tape F, (∀ i < 4 * k + 6, τ i = tape i) →
        Zk.create cx tr τ Gs Hs Q block w = .ok (p, tr', fun i => τ (i + (4 * k + 6))) := by
  unfold Zk.create at h ⊢
  simp only [draw] at h ⊢
  obtain ⟨⟨q, tr2, tape2⟩, h1, h⟩ := bind_eq_ok.1 h
  simp only [R_pure, Except.ok.injEq, Prod.mk.injEq] at h
  obtain ⟨rfl, rfl, rfl⟩ := h
  obtain ⟨k, g1, g2, g3, g4, g5, g6⟩ := C101_inner_size _ _ _ _ _ _ _ _ _ _ _ _ h1
  refine ⟨k, g1, g2, g3, g4, ?_, fun τ hτ => ?_⟩
  · rw [g5]; rfl
  · have := g6 (fun i => τ (i + 1 + 1)) fun i hi => hτ _ (by omega)
    rw [hτ 0 (by omega), hτ (0 + 1) (by omega), this]
    rfl

/-- C101: a Copy proof has one more point and hashes one more challenge than a QESA proof. -/
theorem C101_copy_size (cx : Ctx G) (tr tr' : Transcript) (tape tape' : Tape F) (Gs Hs : List G) (Q : G)
    (map : Copy.Mapping) (block : BlockMatrix F) (w : List F) (openings : List (List F × F)) (p : Copy.Proof F)
    (h : Copy.create cx tr tape Gs Hs Q map block w openings = .ok (p, tr', tape')) :
    ∃ k, Gs.length = 2 ^ k ∧ p.inner.alm_zk.NoZK.L_vec.length = k ∧ p.inner.alm_zk.NoZK.R_vec.length = k ∧
      challengesIn tr'.log = challengesIn tr.log + (k + 6) ∧ tape' = (fun i => tape (i + (4 * k + 6))) ∧
      ∀ τ : Tape F, (∀ i < 4 * k + 6, τ i = tape i) →
        Copy.create cx tr τ Gs Hs Q map block w openings = .ok (p, tr', fun i => τ (i + (4 * k + 6))) := by
  unfold Copy.create at h ⊢
  simp only [drawN, draw, challengeScalar_eq] at h ⊢
  obtain ⟨_, h1, h⟩ := bind_eq_ok.1 h
  obtain ⟨w0, h2, h⟩ := bind_eq_ok.1 h
  obtain ⟨_, h3, h⟩ := bind_eq_ok.1 h
  obtain ⟨_, h4, h⟩ := bind_eq_ok.1 h
  obtain ⟨padBy, h5, h⟩ := bind_eq_ok.1 h
  obtain ⟨w1, h6, h⟩ := bind_eq_ok.1 h
  obtain ⟨C_w, h7, h⟩ := bind_eq_ok.1 h
  obtain ⟨alphas, h8, h⟩ := bind_eq_ok.1 h
  obtain ⟨nm1, h9, h⟩ := bind_eq_ok.1 h
  obtain ⟨old, h10, h⟩ := bind_eq_ok.1 h
  obtain ⟨w2, h11, h⟩ := bind_eq_ok.1 h
  obtain ⟨w3, h12, h⟩ := bind_eq_ok.1 h
  obtain ⟨gamma, h13, h⟩ := bind_eq_ok.1 h
  obtain ⟨⟨wa, wb⟩, h14, h⟩ := bind_eq_ok.1 h
  obtain ⟨⟨q, tr2, tape2⟩, h15, h⟩ := bind_eq_ok.1 h
  simp only [R_pure, Except.ok.injEq, Prod.mk.injEq] at h
  obtain ⟨rfl, rfl, rfl⟩ := h
  obtain ⟨k, g1, g2, g3, g4, g5, g6⟩ := C101_inner_size _ _ _ _ _ _ _ _ _ _ _ _ h15
  refine ⟨k, g1, g2, g3, ?_, ?_, fun τ hτ => ?_⟩
  · rw [g4]
    simp only [Transcript.appendMessage, challengesIn_append]
    simp only [show ∀ s d, challengesIn [Event.msg s d] = 0 from fun _ _ => rfl,
      show ∀ s n, challengesIn [Event.chal s n] = 1 from fun _ _ => rfl]
    omega
  · rw [g5]; rfl
  · have := g6 (fun i => τ (i + 1 + 1)) fun i hi => hτ _ (by omega)
    rw [hτ 0 (by omega), hτ (0 + 1) (by omega)]
    simp only [h1, h2, h3, h4, h5, h6, h7, h8, h9, h10, h11, h12, h13, h14, ok_bind, this, R_pure]
    rfl

theorem map_eq_ok {α β : Type} {c : R α} {f : α → β} {y : β} (h : c.map f = .ok y) : ∃ x, c = .ok x ∧ f x = y := by
  cases c with
  | error e => cases h
  | ok x => exact ⟨x, rfl, by cases h; rfl⟩

omit [DecidableEq F] in
/-- C101: SimpleZK draws one random scalar for every generator, whatever the shapes of the matrix and the witness;
`a` has one entry for every row. -/
theorem C101_simple_draws (cx : Ctx G) (fuel : Nat) (tr tr' : Transcript) (tape tape' : Tape F) (A : List (List G))
    (Gs : List G) (w : List F) (p : Lmpa.SimpleZK F G)
    (h : Lmpa.createSimple cx fuel tr tape A Gs w = .ok (p, tr', tape')) :
    p.a.length = A.length ∧ tape' = (fun i => tape (i + Gs.length)) ∧
      ∀ τ : Tape F, (∀ i < Gs.length, τ i = tape i) →
        Lmpa.createSimple cx fuel tr τ A Gs w = .ok (p, tr', fun i => τ (i + Gs.length)) := by
  rw [createSimple_eq] at h
  dsimp only at h
  obtain ⟨x, hx, e⟩ := map_eq_ok h
  simp only [Prod.mk.injEq] at e
  obtain ⟨rfl, rfl, rfl⟩ := e
  refine ⟨by simp, rfl, fun τ hτ => ?_⟩
  have hr : (List.ofFn fun i : Fin Gs.length => τ i) = List.ofFn fun i : Fin Gs.length => tape i :=
    congrArg List.ofFn (funext fun i => hτ i i.2)
  rw [createSimple_eq]
  dsimp only
  rw [hr, hx]
  rfl

omit [DecidableEq F] in
/-- C101: `create_general` draws `n` random scalars, where `n` is the argument of that name. -/
theorem C101_general_draws (cx : Ctx G) (fuel : Nat) (tr tr' : Transcript) (tape tape' : Tape F) (A : List (List G))
    (w : List F) (t : List G) (n m k : Nat) (p : Lmpa.SimpleZKGeneral F G)
    (h : Lmpa.createGeneral cx fuel tr tape A w t n m k = .ok (p, tr', tape')) :
    p.a.length = A.length ∧ tape' = (fun i => tape (i + n)) ∧
      ∀ τ : Tape F, (∀ i < n, τ i = tape i) →
        Lmpa.createGeneral cx fuel tr τ A w t n m k = .ok (p, tr', fun i => τ (i + n)) := by
  rw [createGeneral_eq] at h
  dsimp only at h
  obtain ⟨x, hx, e⟩ := map_eq_ok h
  simp only [Prod.mk.injEq] at e
  obtain ⟨rfl, rfl, rfl⟩ := e
  refine ⟨by simp, rfl, fun τ hτ => ?_⟩
  have hr : (List.ofFn fun i : Fin n => τ i) = List.ofFn fun i : Fin n => tape i :=
    congrArg List.ofFn (funext fun i => hτ i i.2)
  rw [createGeneral_eq]
  dsimp only
  rw [hr, hx]
  rfl

section
open Toy Copy

/-- Two rows, four columns: two entries in `a`, four random scalars. -/
example : (match Lmpa.createSimple cx 9 ⟨[]⟩ exTape [[3, 5, 8, 13], [1, 2, 3, (4 : K)]] [3, 5, 8, 13] [1, 2, 3, (4 : K)] with
    | .ok (p, _, tape) => p.a.length == 2 && tape 0 == exTape 4 && tape 5 == exTape 9
    | .error _ => false) = true := by decide +kernel

/-- A proof for four generators has two pairs of points, and four challenges were hashed; twelve random scalars were
drawn. -/
example : (match createAlm cx ⟨[]⟩ exTape [3, 5, 8, 13] [21, 34, 55, 89] (7 : K) 9 [1, 2, 3, 4] [5, 6, 7, 9] 3 with
    | .ok (p, tr, tape) => p.NoZK.L_vec.length == 2 && p.NoZK.R_vec.length == 2 && challengesIn tr.log == 4 &&
        tape 0 == exTape 12 && tape 5 == exTape 17
    | .error _ => false) = true := by decide +kernel

/-- If `a` is longer than the generators, more scalars are drawn. -/
example : (match createAlm cx ⟨[]⟩ exTape [3, 5, 8, 13] [21, 34, 55, 89] (7 : K) 9 [1, 2, 3, 4, 1, 1, 1, 1]
      [5, 6, 7, 9] 3 with
    | .ok (_, _, tape) => tape 0 == exTape 14
    | .error _ => false) = true := by decide +kernel

/-- QESA with four and Copy with eight generators. -/
example : (match Zk.create cx ⟨[]⟩ exTape2 [3, 5, 8, 13] [21, 34, 55, 89] (7 : K) ⟨[[[4, 0], [0, -1]]]⟩ [1, (2 : K)] with
    | .ok (p, tr, tape) => p.inner.alm_zk.NoZK.L_vec.length == 2 && challengesIn tr.log == 7 &&
        tape 0 == exTape2 14 && tape 3 == exTape2 17
    | .error _ => false) = true ∧
    (match Copy.create cx ⟨[]⟩ exTapeC exG exH (17 : K) ⟨1, [⟨0, 3, 0, 4⟩], [3], 4⟩ ⟨[rows exU]⟩ [1, 3]
      [([10], 7)] with
    | .ok (p, tr, tape) => p.inner.alm_zk.NoZK.L_vec.length == 3 && challengesIn tr.log == 9 &&
        tape 0 == exTapeC 18 && tape 3 == exTapeC 21
    | .error _ => false) = true := by decide +kernel
end

end Qesa.Props
