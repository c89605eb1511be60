import Verif.Proofs.LmpaK
import Verif.Props.SimpleZk
import Verif.Toy
/-
C47, C48, C53, C54, C55: the k-ary argument of src/lmpa/no_zk.rs (`create_lmpa_noZK`,
`verify_lmpa_noZK`) and its use in src/lmpa/simple_zk.rs (`create_general`, `verify_general`), and
`pedersen_commit`.
-/
namespace Qesa.Props
open Qesa Spec Lmpa
variable {F G : Type} [Field F] [AddCommGroup G] [Module F G]

/-! ### C47 -/

theorem createK_eq (cx : Ctx G) (c k d fuel : Nat) (tr : Transcript) (A : List (List G)) (w : List F)
    (t : List G) (hA0 : A ≠ []) (hc : 0 < c) (hck : c < k) (hA : Width (c * k ^ d) A)
    (hw : w.length = c * k ^ d) (ht : t.length = A.length) (hf : d < fuel) :
    ∃ p : LmpaNoZK F G,
      createK cx fuel tr A w t (c * k ^ d) A.length k 1 0 =
        .ok (p, ⟨tr.log ++ kLog cx p.u_proof_Block⟩) ∧
      p.u_proof_Block.length = d ∧ (∀ u ∈ p.u_proof_Block, KShape k A.length u) ∧
      p.A_Matrix.length = A.length ∧ Width c p.A_Matrix ∧ p.w_Vec.length = c ∧
      p.t_Vec = kFinal k t (kChallenges F cx tr.log p.u_proof_Block) p.u_proof_Block ∧
      ((∀ x ∈ kChallenges F cx tr.log p.u_proof_Block, x ≠ 0) →
        (t = A.map fun row => dot w row) → p.t_Vec = p.A_Matrix.map fun row => dot p.w_Vec row) := by
  obtain ⟨M, hM⟩ := exists_rows A _ hA
  have hw' : w = List.ofFn fun i : Fin (c * k ^ d) => w[i] := by
    apply List.ext_getElem (by simp [hw]); intro i h1 h2; simp
  have ht' : t = List.ofFn fun i : Fin A.length => t[i] := by
    apply List.ext_getElem (by simp [ht]); intro i h1 h2; simp
  obtain ⟨p, h1, h2, h3, h4, h5, h6, h7, h8⟩ := LmpaK.createKLoop_eq cx (List.length_pos_iff.2 hA0) hc hck
    d _ fuel M (fun i => w[i]) (fun i => t[i]) tr rfl hf
  rw [← hM, ← hw', ← ht'] at h1
  rw [← ht'] at h7
  refine ⟨p, h1, h2, h3, h4, h5, h6, h7, ?_⟩
  intro hx htA
  apply h8 hx
  rw [hw', hM, LmpaK.dot_rows] at htA
  have := ht'.symm.trans htA
  exact List.ofFn_injective this

theorem verifyK_eq [DecidableEq G] (cx : Ctx G) (p : LmpaNoZK F G) (c k d fuel : Nat) (tr : Transcript)
    (A : List (List G)) (t : List G) (hA0 : A ≠ []) (hc : 0 < c) (hck : c < k)
    (hA : Width (c * k ^ d) A) (hf : d < fuel)
    (hu : ∀ u ∈ p.u_proof_Block.take d, ∃ m, KShape k m u) :
    p.verify cx fuel tr A t (c * k ^ d) k 1 =
      let us := p.u_proof_Block.take d
      let T := kFinal k t (kChallenges F cx tr.log us) us
      if d ≤ p.u_proof_Block.length ∧ p.A_Matrix ≠ [] ∧ T ≠ [] then
        .ok (decide (dot p.w_Vec (p.A_Matrix.headD []) = T.headD 0), ⟨tr.log ++ kLog cx us⟩)
      else .error .indexOOB := by
  obtain ⟨M, hM⟩ := exists_rows A _ hA
  unfold LmpaNoZK.verify
  rw [hM, LmpaK.verifyKLoop_eq cx p (List.length_pos_iff.2 hA0) hc hck d _ fuel 0 M t tr rfl hf
    (Nat.zero_le _) (by simpa using hu)]
  simp only [Nat.zero_add, List.drop_zero, matrixpointVectorMul_eq]
  by_cases h1 : d ≤ p.u_proof_Block.length
  · rw [if_pos h1, ok_bind]
    dsimp only
    generalize kFinal k t (kChallenges F cx tr.log (p.u_proof_Block.take d)) (p.u_proof_Block.take d) = T
    cases hA' : p.A_Matrix with
    | nil => rw [if_neg (by simp)]; rfl
    | cons row B =>
      cases T with
      | nil => rw [if_neg (by simp)]; rfl
      | cons t0 T => rw [if_pos (by simp [h1])]; rfl
  · rw [if_neg h1, if_neg (fun h => h1 h.1)]; rfl

/-- C47: for `n = c kᵈ` with `1 ≤ c < k`, every `A` with `n` columns and at least one row and every `w`,
the k-ary prover returns a proof with `d` messages of `2k - 1` vectors with one point per row. If the
challenges are not zero, the final equation `A' w' = t'` holds on *every* row and the verifier accepts and
ends in the same transcript state. -/
theorem C47_lmpaK_completeness [DecidableEq G] (cx : Ctx G) (c k d fuel : Nat) (tr : Transcript)
    (A : List (List G)) (w : List F) (hA0 : A ≠ []) (hc : 0 < c) (hck : c < k)
    (hA : Width (c * k ^ d) A) (hw : w.length = c * k ^ d) (hf : d < fuel) :
    ∃ (p : LmpaNoZK F G) (tr' : Transcript),
      createK cx fuel tr A w (A.map fun row => dot w row) (c * k ^ d) A.length k 1 0 = .ok (p, tr') ∧
      tr' = ⟨tr.log ++ p.u_proof_Block.flatMap fun u =>
        (u.flatMap fun v => v.map fun P => .msg "u_l" (cx.compress P)) ++ [.chal "challenge_x" 64]⟩ ∧
      p.u_proof_Block.length = d ∧
      (∀ u ∈ p.u_proof_Block, u.length = 2 * (k - 1) + 1 ∧ ∀ v ∈ u, v.length = A.length) ∧
      p.A_Matrix.length = A.length ∧ Width c p.A_Matrix ∧ p.w_Vec.length = c ∧
      ((∀ x ∈ kChallenges F cx tr.log p.u_proof_Block, x ≠ 0) →
        (p.A_Matrix.map fun row => dot p.w_Vec row) = p.t_Vec ∧
        p.verify cx fuel tr A (A.map fun row => dot w row) (c * k ^ d) k 1 = .ok (true, tr')) := by
  obtain ⟨p, h1, h2, h3, h4, h5, h6, h7, h8⟩ := createK_eq cx c k d fuel tr A w
    (A.map fun row => dot w row) hA0 hc hck hA hw (by simp) hf
  refine ⟨p, _, h1, rfl, h2, h3, h4, h5, h6, ?_⟩
  intro hx
  have h9 := h8 hx rfl
  refine ⟨h9.symm, ?_⟩
  have htake : p.u_proof_Block.take d = p.u_proof_Block := List.take_of_length_le (by omega)
  have hAne : p.A_Matrix ≠ [] := by
    rw [← List.length_pos_iff, h4]; exact List.length_pos_iff.2 hA0
  rw [verifyK_eq cx p c k d fuel tr A _ hA0 hc hck hA hf (by
    rw [htake]; exact fun u hu => ⟨_, h3 u hu⟩)]
  simp only [htake]
  rw [← h7, h9, if_pos ⟨by omega, hAne, by simpa using hAne⟩]
  congr 2
  obtain ⟨row, B, hB⟩ := List.exists_cons_of_ne_nil hAne
  simp [hB]

/-! ### C48 -/

/-- C48: the verdict of the k-ary verifier in closed form, for every proof whose messages have the right
shape: it compares row 0 of the *proof's* `A_Matrix` times the *proof's* `w_Vec` with the target computed
from the last message and the last challenge (`kFinal`). The statement's `A` does not occur. -/
theorem C48_lmpaK_verdict [DecidableEq G] (cx : Ctx G) (p : LmpaNoZK F G) (c k d fuel : Nat)
    (tr : Transcript) (A : List (List G)) (t : List G) (hA0 : A ≠ []) (hc : 0 < c) (hck : c < k)
    (hA : Width (c * k ^ d) A) (hf : d < fuel)
    (hu : ∀ u ∈ p.u_proof_Block.take d, ∃ m, KShape k m u) :
    p.verify cx fuel tr A t (c * k ^ d) k 1 =
      let us := p.u_proof_Block.take d
      let T := kFinal k t (kChallenges F cx tr.log us) us
      if d ≤ p.u_proof_Block.length ∧ p.A_Matrix ≠ [] ∧ T ≠ [] then
        .ok (decide (dot p.w_Vec (p.A_Matrix.headD []) = T.headD 0), ⟨tr.log ++ kLog cx us⟩)
      else .error .indexOOB :=
  verifyK_eq cx p c k d fuel tr A t hA0 hc hck hA hf hu

/-- C48, finding: with at least one round (`n ≥ k`) neither `A` nor `t` has any influence. -/
theorem C48_lmpaK_ignores_statement [DecidableEq G] (cx : Ctx G) (p : LmpaNoZK F G) (c k d fuel : Nat)
    (tr : Transcript) (A A' : List (List G)) (t t' : List G) (hA0 : A ≠ []) (hA0' : A' ≠ []) (hc : 0 < c)
    (hck : c < k) (hA : Width (c * k ^ (d + 1)) A) (hA' : Width (c * k ^ (d + 1)) A') (hf : d + 1 < fuel)
    (hu : ∀ u ∈ p.u_proof_Block.take (d + 1), ∃ m, KShape k m u) :
    p.verify cx fuel tr A t (c * k ^ (d + 1)) k 1 = p.verify cx fuel tr A' t' (c * k ^ (d + 1)) k 1 := by
  rw [verifyK_eq cx p c k (d + 1) fuel tr A t hA0 hc hck hA hf hu,
    verifyK_eq cx p c k (d + 1) fuel tr A' t' hA0' hc hck hA' hf hu]
  by_cases h : d + 1 ≤ p.u_proof_Block.length
  · have : ∀ t : List G, kFinal k t (kChallenges F cx tr.log (p.u_proof_Block.take (d + 1)))
        (p.u_proof_Block.take (d + 1)) = kFinal k [] (kChallenges F cx tr.log (p.u_proof_Block.take (d + 1)))
        (p.u_proof_Block.take (d + 1)) := by
      intro t
      have hl : (p.u_proof_Block.take (d + 1)).length = d + 1 := by simp; omega
      obtain ⟨u, us, hus⟩ := List.exists_cons_of_ne_nil
        (List.length_pos_iff.1 (by omega : 0 < (p.u_proof_Block.take (d + 1)).length))
      rw [hus, LmpaK.kChallenges_cons, LmpaK.kFinal_cons, LmpaK.kFinal_cons]
    simp only [this]
  · simp only [h, false_and, if_false]

/-- C48, finding: one and the same proof of zeros is accepted for *every* statement `(A, t)` with
`n = c kᵈ⁺¹`, whatever the hash function. -/
theorem C48_lmpaK_forgery [DecidableEq G] (cx : Ctx G) (c k d fuel : Nat)
    (hc : 0 < c) (hck : c < k) (hf : d + 1 < fuel) :
    ∃ p : LmpaNoZK F G, ∀ (tr : Transcript) (A : List (List G)) (t : List G), A ≠ [] →
      Width (c * k ^ (d + 1)) A →
      ∃ tr', p.verify cx fuel tr A t (c * k ^ (d + 1)) k 1 = .ok (true, tr') := by
  set u : List (List G) := List.replicate (2 * (k - 1) + 1) [0] with hu
  have hs : KShape k 1 u := by
    refine ⟨by simp [hu], ?_⟩
    intro v hv
    rw [List.eq_of_mem_replicate hv]; rfl
  refine ⟨⟨[[]], [], [], List.replicate (d + 1) u⟩, ?_⟩
  intro tr A t hA0 hA
  have htake : (List.replicate (d + 1) u).take (d + 1) = List.replicate (d + 1) u := by
    rw [List.take_of_length_le (by simp)]
  rw [verifyK_eq cx _ c k (d + 1) fuel tr A t hA0 hc hck hA hf (by
    dsimp only
    rw [htake]
    intro v hv
    rw [List.eq_of_mem_replicate hv]; exact ⟨1, hs⟩)]
  dsimp only
  rw [htake]
  have hz : ∀ (x : F), (List.range (u.headD []).length).map (kTarget x k u) = [0] := by
    intro x
    have : (u.headD []).length = 1 := by rw [hu, List.replicate_succ]; rfl
    rw [this]
    simp only [List.range_one, List.map_cons, List.map_nil, List.cons.injEq, and_true]
    unfold kTarget
    apply Finset.sum_eq_zero
    intro l hl
    have : u.getD l [] = [0] := by
      rw [hu, List.getD, List.getElem?_replicate, if_pos (Finset.mem_range.1 hl)]; rfl
    rw [this]; simp
  have hT : kFinal k t (kChallenges F cx tr.log (List.replicate (d + 1) u)) (List.replicate (d + 1) u) =
      [0] := by
    have : ∀ (e : Nat) (log : List Event),
        kFinal k [0] (kChallenges F cx log (List.replicate e u)) (List.replicate e u) = [0] := by
      intro e
      induction e with
      | zero => intro log; simp [kFinal]
      | succ e ih =>
        intro log
        rw [List.replicate_succ, LmpaK.kChallenges_cons, LmpaK.kFinal_cons, hz]
        exact ih _
    rw [List.replicate_succ, LmpaK.kChallenges_cons, LmpaK.kFinal_cons, hz]
    exact this d _
  rw [hT, if_pos ⟨by simp, by simp, by simp⟩]
  exact ⟨⟨tr.log ++ kLog cx (List.replicate (d + 1) u)⟩, by simp [dot]⟩

/-- C48, finding: with no round at all (`n < k`) the verifier accepts, for every statement, the proof
that brings its own matrix `(t₀)` and witness `1`. -/
theorem C48_lmpaK_forgery_no_round [DecidableEq G] (cx : Ctx G) (c k fuel : Nat) (tr : Transcript)
    (A : List (List G)) (t0 : G) (t : List G) (hA0 : A ≠ []) (hc : 0 < c) (hck : c < k)
    (hA : Width c A) (hf : 0 < fuel) :
    (⟨[[t0]], [], [1], []⟩ : LmpaNoZK F G).verify cx fuel tr A (t0 :: t) c k 1 = .ok (true, tr) := by
  have := verifyK_eq cx (⟨[[t0]], [], [1], []⟩ : LmpaNoZK F G) c k 0 fuel tr A (t0 :: t) hA0 hc hck
    (by simpa using hA) hf (by simp)
  simp only [pow_zero, mul_one] at this
  rw [this]
  simp [kFinal, kChallenges, kLog, dot]

/-! ### C53, C54: `create_general`, `verify_general` -/

theorem createGeneral_eq (cx : Ctx G) (fuel : Nat) (tr : Transcript) (tape : Tape F)
    (A : List (List G)) (w : List F) (t : List G) (n m k : Nat) :
    createGeneral cx fuel tr tape A w t n m k =
      let a := A.map fun row => dot (List.ofFn fun i : Fin n => tape i) row
      (createK cx fuel ⟨simpleLog cx tr.log a⟩ A w t n m k 1 0).map
        fun x => (⟨x.1, a⟩, x.2, fun i => tape (i + n)) := by
  unfold createGeneral
  rw [drawN_eq]
  simp only [matrixpointVectorMul_eq, absorb_eq, Ipa.challengeScalar_eq]
  have : ∀ (c : R (LmpaNoZK F G × Transcript)) (a : List G) (tape : Tape F),
      (c >>= fun x => pure (⟨x.1, a⟩, x.2, tape)) =
        c.map fun x => ((⟨x.1, a⟩, x.2, tape) : SimpleZKGeneral F G × Transcript × Tape F) := by
    intro c a tape; cases c <;> rfl
  exact this _ _ _

theorem general_verify_eq [DecidableEq G] (cx : Ctx G) (p : SimpleZKGeneral F G) (fuel n k : Nat)
    (tr : Transcript) (A : List (List G)) (t : List G) :
    p.verify cx fuel tr A t n k =
      p.lamp_no_zk.verify cx fuel ⟨simpleLog cx tr.log p.a⟩ A
        (List.zipWith (fun t a => simpleBeta F cx tr.log p.a • t + a) t p.a) n k 1 := by
  unfold SimpleZKGeneral.verify
  simp only [absorb_eq, Ipa.challengeScalar_eq]
  rfl

/-- C53, finding: `create_general` runs the k-ary argument on the *unblinded* witness. Given the first
message `a` the proof does not depend on the random tape at all. -/
theorem C53_general_not_blinded (cx : Ctx G) (fuel : Nat) (tr : Transcript) (tape : Tape F)
    (A : List (List G)) (w : List F) (t : List G) (n m k : Nat) :
    createGeneral cx fuel tr tape A w t n m k =
      let a := A.map fun row => dot (List.ofFn fun i : Fin n => tape i) row
      (createK cx fuel ⟨tr.log ++ (a.map fun P => .msg "a" (cx.compress P)) ++ [.chal "beta" 64]⟩
        A w t n m k 1 0).map fun x => (⟨x.1, a⟩, x.2, fun i => tape (i + n)) :=
  createGeneral_eq cx fuel tr tape A w t n m k

/-- C53, finding: for `n < k` the proof contains the witness itself. -/
theorem C53_general_reveals_witness (cx : Ctx G) (fuel : Nat) (tr tr' : Transcript) (tape tape' : Tape F)
    (A : List (List G)) (w : List F) (t : List G) (n m k : Nat) (p : SimpleZKGeneral F G) (hn : n < k)
    (h : createGeneral cx fuel tr tape A w t n m k = .ok (p, tr', tape')) : p.lamp_no_zk.w_Vec = w := by
  rw [createGeneral_eq] at h
  cases fuel with
  | zero => cases h
  | succ fuel =>
    simp only [createK, createKLoop, if_pos hn] at h
    cases h
    rfl

/-- C53, finding: hence witnesses are distinguished with certainty: for `w₁ ≠ w₂` and `n < k` no two
tapes give the same proof. -/
theorem C53_general_distinguishes (cx : Ctx G) (fuel : Nat) (tr tr₁ tr₂ : Transcript)
    (tape₁ tape₂ tape₁' tape₂' : Tape F) (A : List (List G)) (w₁ w₂ : List F) (t : List G) (n m k : Nat)
    (p₁ p₂ : SimpleZKGeneral F G) (hn : n < k) (hw : w₁ ≠ w₂)
    (h₁ : createGeneral cx fuel tr tape₁ A w₁ t n m k = .ok (p₁, tr₁, tape₁'))
    (h₂ : createGeneral cx fuel tr tape₂ A w₂ t n m k = .ok (p₂, tr₂, tape₂')) : p₁ ≠ p₂ := by
  rintro rfl
  apply hw
  rw [← C53_general_reveals_witness cx fuel tr tr₁ tape₁ tape₁' A w₁ t n m k p₁ hn h₁,
    ← C53_general_reveals_witness cx fuel tr tr₂ tape₂ tape₂' A w₂ t n m k p₁ hn h₂]

/-- C54: completeness for `n ≥ k`: the blinding is ignored by both sides, so that the honest proof is
accepted when the challenges of the rounds are not zero. -/
theorem C54_general_completeness [DecidableEq G] (cx : Ctx G) (c k d fuel : Nat) (tr : Transcript)
    (tape : Tape F) (A : List (List G)) (w : List F) (hA0 : A ≠ []) (hc : 0 < c) (hck : c < k)
    (hA : Width (c * k ^ (d + 1)) A) (hw : w.length = c * k ^ (d + 1)) (hf : d + 1 < fuel) :
    ∃ (p : SimpleZKGeneral F G) (tr' : Transcript),
      createGeneral cx fuel tr tape A w (A.map fun row => dot w row) (c * k ^ (d + 1)) A.length k =
        .ok (p, tr', fun i => tape (i + c * k ^ (d + 1))) ∧
      ((∀ x ∈ kChallenges F cx (simpleLog cx tr.log p.a) p.lamp_no_zk.u_proof_Block, x ≠ 0) →
        p.verify cx fuel tr A (A.map fun row => dot w row) (c * k ^ (d + 1)) k = .ok (true, tr')) := by
  rw [createGeneral_eq]
  dsimp only
  set a := A.map fun row => dot (List.ofFn fun i : Fin (c * k ^ (d + 1)) => tape i) row
  obtain ⟨p, tr', h1, -, h3, h4, -, -, -, h5⟩ := C47_lmpaK_completeness cx c k (d + 1) fuel
    ⟨simpleLog cx tr.log a⟩ A w hA0 hc hck hA hw hf
  refine ⟨⟨p, a⟩, tr', by rw [h1]; rfl, ?_⟩
  intro hx
  rw [general_verify_eq, ← (h5 hx).2]
  exact C48_lmpaK_ignores_statement cx p c k d fuel _ A A _ _ hA0 hA0 hc hck hA hA hf
    (fun u hu => ⟨_, h4 u (List.mem_of_mem_take hu)⟩)

/-- C54, finding: for `n < k` the honest proof is accepted only if `t₀ = beta t₀ + a₀` happens to
hold. -/
theorem C54_general_fails_small [DecidableEq G] (cx : Ctx G) (c k fuel : Nat) (tr : Transcript)
    (tape : Tape F) (row : List G) (A : List (List G)) (w : List F) (hc : 0 < c)
    (hck : c < k) (hA : Width c (row :: A)) (hf : 0 < fuel) :
    ∃ (p : SimpleZKGeneral F G) (tr' : Transcript),
      createGeneral cx fuel tr tape (row :: A) w ((row :: A).map fun row => dot w row) c
        (A.length + 1) k = .ok (p, tr', fun i => tape (i + c)) ∧
      p.a.head? = some (dot (List.ofFn fun i : Fin c => tape i) row) ∧
      p.verify cx fuel tr (row :: A) ((row :: A).map fun row => dot w row) c k =
        .ok (decide (dot w row = simpleBeta F cx tr.log p.a • dot w row +
          dot (List.ofFn fun i : Fin c => tape i) row), tr') := by
  obtain ⟨fuel, rfl⟩ := Nat.exists_eq_succ_of_ne_zero (Nat.pos_iff_ne_zero.1 hf)
  rw [createGeneral_eq]
  dsimp only
  set a := (row :: A).map fun row => dot (List.ofFn fun i : Fin c => tape i) row with ha
  rw [createK, createKLoop, if_pos hck]
  refine ⟨⟨_, a⟩, _, rfl, by simp [ha], ?_⟩
  rw [general_verify_eq]
  have := verifyK_eq cx (⟨row :: A, (row :: A).map fun row => dot w row, w, []⟩ : LmpaNoZK F G) c k 0
    (fuel + 1) ⟨simpleLog cx tr.log a⟩ (row :: A)
    (List.zipWith (fun t a' => simpleBeta F cx tr.log a • t + a') ((row :: A).map fun row => dot w row) a)
    (by simp) hc hck (by simpa using hA) (by omega) (by simp)
  simp only [pow_zero, mul_one] at this
  rw [this]
  simp [kFinal, kChallenges, kLog, ha]

/-! ### C55 -/

/-- C55: the commitment is `⟨m, G⟩ + r H`; the code panics exactly when the lengths differ. -/
theorem C55_pedersen_commit (H : G) (Gs : List G) (msg : List F) (rand : F) :
    pedersenCommit H Gs msg rand =
      if msg.length = Gs.length then .ok (dot msg Gs + rand • H) else .error .assertFail := by
  unfold pedersenCommit msm rassert
  by_cases h : msg.length = Gs.length
  · rw [if_pos h, if_pos h]; rfl
  · rw [if_neg h, if_neg h]; rfl

/-- C55: it is homomorphic. -/
theorem C55_pedersen_homomorphic (H : G) (Gs : List G) (m₁ m₂ : List F) (r₁ r₂ a₁ a₂ : F) (P₁ P₂ : G)
    (h₁ : pedersenCommit H Gs m₁ r₁ = .ok P₁) (h₂ : pedersenCommit H Gs m₂ r₂ = .ok P₂) :
    pedersenCommit H Gs (List.zipWith (fun x y => a₁ * x + a₂ * y) m₁ m₂) (a₁ * r₁ + a₂ * r₂) =
      .ok (a₁ • P₁ + a₂ • P₂) := by
  rw [C55_pedersen_commit] at h₁ h₂ ⊢
  split at h₁
  · split at h₂
    · rename_i l1 l2
      cases h₁; cases h₂
      rw [if_pos (by simp [l1, l2]), dot_comb_left _ _ _ (by rw [l1, l2])]
      congr 1
      simp only [smul_add, add_smul, smul_smul]
      abel
    · cases h₂
  · cases h₁

/-- C55: it is binding as long as no non-trivial linear relation between the generators is known: two
openings of one commitment are such a relation. -/
theorem C55_pedersen_binding (H : G) (Gs : List G) (m₁ m₂ : List F) (r₁ r₂ : F) (P : G)
    (h₁ : pedersenCommit H Gs m₁ r₁ = .ok P) (h₂ : pedersenCommit H Gs m₂ r₂ = .ok P) :
    dot (List.zipWith (fun x y => x - y) m₁ m₂) Gs + (r₁ - r₂) • H = 0 := by
  rw [C55_pedersen_commit] at h₁ h₂
  split at h₁
  · split at h₂
    · rename_i l1 l2
      have e : dot m₁ Gs + r₁ • H = dot m₂ Gs + r₂ • H :=
        (Except.ok.inj h₁).trans (Except.ok.inj h₂).symm
      have := dot_comb_left 1 (-1) Gs (s := m₁) (s' := m₂) (by rw [l1, l2])
      simp only [one_mul, neg_mul, ← sub_eq_add_neg, one_smul, neg_smul] at this
      rw [this, sub_smul, ← add_sub_add_comm, e, sub_self]
    · cases h₂
  · cases h₁

section
open Toy

def exKA : List (List K) := [[3, 5, 8, 13, 21, 34], [2, 7, 1, 8, 2, 8]]
def exKw : List K := [7, 4, 9, 2, 1, 6]

/-- C47, C48: `n = 6 = 2 · 3`, `k = 3`: an honest run, accepted also for an unrelated statement. -/
example : (match createK cx 5 ⟨[]⟩ exKA exKw (exKA.map fun row => dot exKw row) 6 2 3 1 (0 : K) with
    | .ok (p, tr') =>
      p.verify cx 5 ⟨[]⟩ exKA (exKA.map fun row => dot exKw row) 6 3 1 == .ok (true, tr') &&
      p.verify cx 5 ⟨[]⟩ [[0, 0, 0, 0, 0, 0]] [99] 6 3 1 == .ok (true, tr') &&
      p.w_Vec.length == 2 && p.u_proof_Block.length == 1 &&
      (LmpaNoZK.verify cx 5 ⟨p.A_Matrix, p.t_Vec, [(1 : K), 1], p.u_proof_Block⟩ ⟨[]⟩ exKA (exKA.map fun row => dot exKw row) 6 3 1) ==
        .ok (false, tr')
    | .error _ => false) = true := by
  decide +kernel

/-- C53, C54: `n = 6`, `k = 3` is accepted; `k = 7` is not, and contains the witness. -/
example : (match createGeneral cx 5 ⟨[]⟩ exTapeS exKA exKw (exKA.map fun row => dot exKw row) 6 2 3,
      createGeneral cx 5 ⟨[]⟩ exTapeS exKA exKw (exKA.map fun row => dot exKw row) 6 2 7 with
    | .ok (p, tr', _), .ok (p', _, _) =>
      p.verify cx 5 ⟨[]⟩ exKA (exKA.map fun row => dot exKw row) 6 3 == .ok (true, tr') &&
      (p'.verify cx 5 ⟨[]⟩ exKA (exKA.map fun row => dot exKw row) 6 7).map Prod.fst == .ok false &&
      p'.lamp_no_zk.w_Vec == exKw
    | _, _ => false) = true := by
  decide +kernel

example : pedersenCommit (3 : K) [5, 7] [(2 : K), 10] 4 = .ok 92 ∧
    pedersenCommit (3 : K) [5, 7] [(2 : K)] 4 = .error .assertFail := by
  decide +kernel
end

end Qesa.Props
