import Verif.Model.QesaInner
import Verif.SpecQesa
import Verif.Props.Helpers
import Verif.Proofs.AlmZk
/- Helper lemmas about the arguments for quadratic equations. -/
namespace Qesa.Inner
open Qesa Spec Props Ipa
variable {F G : Type} [Field F]

theorem batch_rows {m k : Nat} (Ms : Fin (k + 1) → Matrix (Fin m) (Fin m) F) (x : F) (n : Nat)
    (hn : 0 < n) :
    (⟨List.ofFn fun i => rows (Ms i)⟩ : BlockMatrix F).batch (List.ofFn (powers x n)) =
      .ok (rows (batched n Ms x)) := by
  obtain ⟨q, hq⟩ : ∃ q, min (k + 1) n = q + 1 := ⟨min (k + 1) n - 1, by omega⟩
  have hz : List.zipWith (fun m c => matrixScalarMul m c) (List.ofFn fun i => rows (Ms i))
      (List.ofFn (powers x n)) =
      (List.ofFn fun i : Fin (q + 1) => x ^ (i.val + 1) • Ms ⟨i, by omega⟩).map rows := by
    apply List.ext_getElem
    · simp [hq]
    · intro i h1 h2
      simp only [List.getElem_zipWith, List.getElem_ofFn, List.getElem_map]
      exact (C04_matrix_algebra (Ms ⟨i, _⟩) 0 _).2
  have hs : batched n Ms x = ∑ i : Fin (q + 1), x ^ (i.val + 1) • Ms ⟨i, by omega⟩ := by
    unfold batched
    rw [← Finset.sum_filter]
    symm
    apply Finset.sum_nbij (fun i : Fin (q + 1) => (⟨i.val, by omega⟩ : Fin (k + 1)))
    · intro i _; simp; omega
    · intro i _ j _ h; simpa [Fin.ext_iff] using h
    · intro i hi
      simp only [Finset.coe_filter, Finset.mem_univ, true_and, Set.mem_ofPred_eq] at hi
      exact ⟨⟨i, by omega⟩, by simp, rfl⟩
    · intro i _; rfl
  unfold BlockMatrix.batch
  simp only [hz]
  rw [List.ofFn_succ, List.map_cons, hs, Fin.sum_univ_succ]
  simp only
  rw [sumBlocks_rows, List.sum_ofFn]

theorem vandemondeChallenge_eq (x : F) {n : Nat} (hn : 0 < n) :
    vandemondeChallenge x n = .ok (List.ofFn (powers x n)) := by
  obtain ⟨n, rfl⟩ : ∃ q, n = q + 1 := ⟨n - 1, by omega⟩
  simp only [vandemondeChallenge, usub_le (Nat.le_add_left 1 n), ok_bind, R_pure, powersLoop_eq,
    Nat.add_sub_cancel]
  rw [List.ofFn_succ]
  simp [powers, pow_succ']

theorem vandemondeChallenge_zero (x : F) : vandemondeChallenge x 0 = .error .underflow := rfl

theorem idx_powers_one (x : F) (m : Nat) : idx (List.ofFn (powers x (m + 2))) 1 = .ok (x ^ 2) := by
  rw [idx_eq_ok, List.getElem?_ofFn, dif_pos (by omega)]; rfl

theorem powers_two (b : F) : List.ofFn (powers b 2) = [b, b ^ 2] := by
  simp [powers, List.ofFn_succ]

theorem bordered_transpose {m : Nat} (M : Matrix (Fin m) (Fin m) F) (c : F) :
    (bordered M c).transpose = bordered M.transpose (-c) := by
  ext i j
  simp only [bordered, Matrix.transpose_apply, Matrix.of_apply]
  by_cases h : i.val < m ∧ j.val < m
  · simp [h]
  · rw [dif_neg (fun h' => h h'.symm), dif_neg h]
    by_cases h1 : i.val = m ∧ j.val = m + 1
    · simp [h1]
    · by_cases h2 : i.val = m + 1 ∧ j.val = m
      · simp [h2]
      · rw [if_neg (fun h => h2 h.symm), if_neg (fun h => h1 h.symm), if_neg h1, if_neg h2]

theorem ofFn_two {α : Type} {m : Nat} (v : Fin (m + 2) → α) :
    List.ofFn v = List.ofFn (fun i : Fin m => v ⟨i, by omega⟩) ++ [v ⟨m, by omega⟩, v ⟨m + 1, by omega⟩] := by
  rw [List.ofFn_succ', List.ofFn_succ']
  simp [List.concat_eq_append]
  rfl

theorem rows_bordered {m : Nat} (M : Matrix (Fin m) (Fin m) F) (c : F) :
    rows (bordered M c) = ((rows M).map fun row => row ++ [0, 0]) ++
      [List.replicate m 0 ++ [0, -c], List.replicate m 0 ++ [c, 0]] := by
  unfold rows
  rw [ofFn_two, List.map_ofFn]
  congr 1
  · congr 1; funext i
    rw [ofFn_two]
    have h1 := i.2
    simp [bordered, Nat.ne_of_lt h1, show i.val ≠ m + 1 by omega]
  · have h : List.replicate m (0 : F) = List.ofFn fun _ : Fin m => (0 : F) := by simp
    rw [ofFn_two, ofFn_two, h]
    have h1 : ∀ (i : Fin m) (d : F), (if i.val = m + 1 then d else 0) = 0 :=
      fun i d => if_neg (by omega)
    have h2 : ∀ (i : Fin m) (d : F), (if i.val = m then d else 0) = 0 := fun i d => if_neg (by omega)
    simp [bordered, h1, h2]

theorem computeGammaPrime_eq {m : Nat} (M : Matrix (Fin m) (Fin m) F) :
    computeGammaPrime (rows M) (m + 2) = .ok (rows (bordered M 1)) := by
  rw [rows_bordered]
  simp [computeGammaPrime, usub_le]

theorem mul_bordered {m : Nat} (M : Matrix (Fin m) (Fin m) F) (c : F) (v : List F)
    (hv : v.length = m) (p q : F) :
    matrixVectorMul (rows (bordered M c)) (v ++ [p, q]) =
      matrixVectorMul (rows M) v ++ [-(c * q), c * p] := by
  rw [rows_bordered, matrixVectorMul_eq, matrixVectorMul_eq, List.map_append, List.map_map]
  congr 1
  · apply List.map_congr_left
    intro row h
    have := width_rows M row h
    simp only [Function.comp]
    rw [dot_append (by omega)]; simp
  · simp only [List.map_cons, List.map_nil]
    rw [dot_append (by simp [hv]), dot_append (by simp [hv]), dot_comm v, dot_replicate_zero]
    simp [mul_comm]

theorem matrixVectorMul_rows {m n : Nat} (M : Matrix (Fin m) (Fin n) F) (v : Fin n → F) :
    matrixVectorMul (rows M) (List.ofFn v) = List.ofFn (M.mulVec v) := by
  rw [matrixVectorMul_eq]
  unfold rows
  rw [List.map_ofFn]
  congr 1; funext i
  simp only [Function.comp, dot_ofFn, Matrix.mulVec, dotProduct, smul_eq_mul, mul_comm]

theorem quad_eq {m : Nat} (M : Matrix (Fin m) (Fin m) F) (v : Fin m → F) :
    quad M v = v ⬝ᵥ M.mulVec v := by
  simp [quad, dotProduct, Matrix.mulVec, Finset.mul_sum, mul_assoc]

theorem quad_transpose {m : Nat} (M : Matrix (Fin m) (Fin m) F) (v : Fin m → F) :
    v ⬝ᵥ M.transpose.mulVec v = quad M v := by
  rw [quad_eq, Matrix.mulVec_transpose, dotProduct_comm, Matrix.dotProduct_mulVec]

theorem dot_quad {m : Nat} (M : Matrix (Fin m) (Fin m) F) (v : Fin m → F) :
    dot (List.ofFn v) (List.ofFn (M.transpose.mulVec v)) = quad M v := by
  rw [dot_ofFn, ← quad_transpose]; rfl

/-- C28 on the level of vectors. -/
theorem product_eq' {m : Nat} (M : Matrix (Fin m) (Fin m) F) (w s : Fin m → F) (p q b d : F) :
    dot (List.zipWith (fun a b => a - b) (List.ofFn w ++ [p, q]) (List.ofFn s ++ [b, d]))
      (List.zipWith (fun a b => a + b) (List.ofFn (M.mulVec w) ++ [-q, p])
        (List.ofFn (M.transpose.mulVec s) ++ [d, -b])) = quad M w - quad M s := by
  rw [List.zipWith_append (by simp), List.zipWith_append (by simp), zipWith_ofFn, zipWith_ofFn,
    dot_append (by simp), dot_ofFn, ← quad_transpose M s, quad_eq]
  simp only [List.zipWith_cons_cons, List.zipWith_nil_right, dot_cons, dot_nil_left, smul_eq_mul]
  have h : w ⬝ᵥ M.transpose.mulVec s = s ⬝ᵥ M.mulVec w := by
    rw [Matrix.mulVec_transpose, dotProduct_comm, Matrix.dotProduct_mulVec]
  have : ∑ i, (w i - s i) * (M.mulVec w i + M.transpose.mulVec s i) =
      w ⬝ᵥ M.mulVec w + w ⬝ᵥ M.transpose.mulVec s - s ⬝ᵥ M.mulVec w - s ⬝ᵥ M.transpose.mulVec s := by
    simp only [dotProduct, ← Finset.sum_add_distrib, ← Finset.sum_sub_distrib]
    apply Finset.sum_congr rfl; intros; ring
  rw [this, h]; ring

theorem product_eq {m : Nat} (M : Matrix (Fin m) (Fin m) F) (w : Fin m → F) (p q s b : F) :
    dot (maskedWitness w p q s b) (maskedImage M w p q s b) = quad M w - quad M (powers s m) :=
  product_eq' M w (powers s m) p q b (b ^ 2)

theorem squeeze_x (ro : Hash) (log : List Event) (c' : Comp) :
    squeeze F ro (log ++ [.msg "c_prime_w" c'] ++ [.chal "x" 64]) = qesaX F ro log c' := by
  simp [qesaX]

theorem squeeze_s (ro : Hash) (log : List Event) (c' c'' : Comp) :
    squeeze F ro (log ++ [.msg "c_prime_w" c'] ++ [.chal "x" 64] ++ [.msg "c_prime_prime_w" c''] ++
      [.chal "s" 64]) = qesaS F ro log c' c'' := by
  simp [qesaS]

theorem squeeze_b (ro : Hash) (log : List Event) (c' c'' : Comp) :
    squeeze F ro (log ++ [.msg "c_prime_w" c'] ++ [.chal "x" 64] ++ [.msg "c_prime_prime_w" c''] ++
      [.chal "s" 64] ++ [.chal "b" 64]) = qesaB F ro log c' c'' := by
  simp [qesaB]

omit [Field F] in
theorem log_head (log : List Event) (c' c'' c : Comp) :
    log ++ [.msg "c_prime_w" c'] ++ [.chal "x" 64] ++ [.msg "c_prime_prime_w" c''] ++
      [.chal "s" 64] ++ [.chal "b" 64] ++ [.msg "c_w" c] = log ++ qesaHead c' c'' c := by
  simp [qesaHead]

variable [AddCommGroup G] [Module F G]

/-- The verifier up to the call of AlmZK. -/
theorem verify_eq [DecidableEq G] {m k : Nat} (hm : 0 < m) (cx : Ctx G) (p : Proof F)
    (tr : Transcript) (Gs Hs : List G) (Q : G) (Ms : Fin (k + 1) → Matrix (Fin m) (Fin m) F)
    (C' C'' : G) (h1 : p.c_prime_w = cx.compress C') (h2 : p.c_prime_prime_w = cx.compress C'')
    (g0 : G) (Gs0 : List G) (hGs : Gs = g0 :: Gs0) (hG : Gs.length = m + 2)
    (hH : Hs.length = m + 2) :
    p.verify cx tr Gs Hs Q ⟨List.ofFn fun i => rows (Ms i)⟩ =
      let x := qesaX F cx.ro tr.log p.c_prime_w
      let s := qesaS F cx.ro tr.log p.c_prime_w p.c_prime_prime_w
      let b := qesaB F cx.ro tr.log p.c_prime_w p.c_prime_prime_w
      let M := batched (m + 2) Ms x
      let C_w := C' - ((x ^ 2 - 1) * (x ^ 2)⁻¹) • g0 + C'' +
        dot (challengeImage M s b) Hs -
        dot (challengeVector s b m) (rescaled (x ^ 2) Gs)
      p.alm_zk.verify cx ⟨tr.log ++ qesaHead p.c_prime_w p.c_prime_prime_w (cx.compress C_w)⟩
        (rescaled (x ^ 2) Gs) Hs Q (m + 2) C_w (- quad M (powers s m)) := by
  unfold Proof.verify
  rw [h1, h2, cx.decompress_compress, cx.decompress_compress]
  simp only [unwrapR, ok_bind, challengeScalar_eq, Transcript.appendMessage, hH, squeeze_x,
    squeeze_s, squeeze_b, log_head]
  generalize qesaX F cx.ro tr.log (cx.compress C') = x
  generalize qesaS F cx.ro tr.log (cx.compress C') (cx.compress C'') = s
  generalize qesaB F cx.ro tr.log (cx.compress C') (cx.compress C'') = b
  rw [vandemondeChallenge_eq _ (by omega)]
  simp only [ok_bind]
  rw [batch_rows _ _ _ (by omega)]
  simp only [ok_bind]
  subst hGs
  rw [idx_powers_one]
  generalize x ^ 2 = β
  simp only [ok_bind, idx_cons_zero]
  rw [setIdx_lt _ (by simp)]
  simp only [ok_bind, List.set_cons_zero, idx_cons_zero]
  rw [usub_le (by omega)]
  simp only [ok_bind, Nat.add_sub_cancel]
  rw [vandemondeChallenge_eq _ hm, vandemondeChallenge_eq _ (by omega)]
  simp only [ok_bind]
  rw [rassert_true (by simp)]
  simp only [ok_bind]
  rw [computeGammaPrime_eq]
  simp only [ok_bind]
  rw [matrixTranspose_rows _ (by omega), matrixTranspose_rows _ hm, bordered_transpose]
  simp only [ok_bind, powers_two]
  rw [mul_bordered _ _ _ (by simp), matrixVectorMul_rows, msm_eq (by simp [hH]),
    msm_eq (by simpa using hG.symm)]
  simp only [ok_bind, innerProduct_eq_dot, dot_quad]
  simp only [neg_mul, one_mul, neg_neg, challengeVector, challengeImage, rescaled, smul_smul]

theorem map_eq_bind {α β : Type} (r : R α) (f : α → β) : r.map f = r >>= fun a => .ok (f a) := by
  cases r <;> rfl

variable [DecidableEq F]

/-- The prover up to the call of AlmZK. -/
theorem create_eq {m k : Nat} (hm : 0 < m) (cx : Ctx G) (tr : Transcript) (tape : Tape F)
    (Gs Hs : List G) (Q : G) (Ms : Fin (k + 1) → Matrix (Fin m) (Fin m) F) (w : Fin m → F)
    (r0 r1 : F) (hG : Gs.length = m + 2) (hH : Hs.length = m + 2) :
    create cx tr tape Gs Hs Q ⟨List.ofFn fun i => rows (Ms i)⟩ (List.ofFn w) [r0, r1] =
      let c' := cx.compress (dot (List.ofFn w ++ [r0, r1]) Gs)
      let x := qesaX F cx.ro tr.log c'
      let M := batched (m + 2) Ms x
      let c'' := cx.compress (dot (List.ofFn (M.mulVec w) ++ [-r1, r0]) Hs)
      let s := qesaS F cx.ro tr.log c' c''
      let b := qesaB F cx.ro tr.log c' c''
      let u := maskedWitness w r0 r1 s b
      let v := maskedImage M w r0 r1 s b
      let C_w := dot u (rescaled (x ^ 2) Gs) + dot v Hs
      (createAlm cx ⟨tr.log ++ qesaHead c' c'' (cx.compress C_w)⟩ tape (rescaled (x ^ 2) Gs) Hs Q C_w
        u v (quad M w - quad M (powers s m))).map fun r => (⟨r.1, c', c''⟩, r.2.1, r.2.2) := by
  obtain ⟨g0, Gs0, rfl⟩ : ∃ g0 Gs0, Gs = g0 :: Gs0 := by
    cases Gs with
    | nil => simp at hG
    | cons g Gs => exact ⟨g, Gs, rfl⟩
  unfold create
  simp only [hG, usub_le (Nat.le_add_left 2 m), ok_bind, Nat.add_sub_cancel, List.length_ofFn,
    List.length_cons, List.length_nil, rassert_True, Nat.zero_add, Nat.reduceAdd]
  rw [msm_eq (by simpa using hG.symm)]
  simp only [ok_bind, challengeScalar_eq, Transcript.appendMessage, squeeze_x, squeeze_s, squeeze_b,
    log_head]
  generalize dot (List.ofFn w ++ [r0, r1]) (g0 :: Gs0) = C'
  generalize qesaX F cx.ro tr.log (cx.compress C') = x
  rw [vandemondeChallenge_eq _ (by omega)]
  simp only [ok_bind, List.length_ofFn, rassert_True]
  rw [batch_rows _ _ _ (by omega)]
  simp only [ok_bind]
  rw [idx_powers_one]
  generalize x ^ 2 = β
  simp only [ok_bind, idx_cons_zero]
  rw [setIdx_lt _ (by simp)]
  simp only [ok_bind, List.set_cons_zero, idx_cons_succ, idx_cons_zero]
  rw [matrixVectorMul_rows, msm_eq (by simp [hH])]
  simp only [ok_bind]
  rw [vandemondeChallenge_eq _ hm]
  simp only [ok_bind]
  rw [vandemondeChallenge_eq _ (by omega)]
  simp only [ok_bind]
  rw [rassert_true (by simp)]
  simp only [ok_bind]
  rw [computeGammaPrime_eq]
  simp only [ok_bind]
  rw [matrixTranspose_rows _ (by omega), bordered_transpose]
  simp only [ok_bind, powers_two]
  rw [mul_bordered _ _ _ (by simp), matrixVectorMul_rows]
  unfold rowRowAdd rowRowSub
  rw [rassert_true (by simp), rassert_true (by simp)]
  simp only [ok_bind, R_pure]
  rw [msm_eq (by simp at hG; simp [hH, hG]; omega), dot_append (by simpa using hG.symm)]
  simp only [ok_bind, innerProduct_eq_dot, neg_mul, one_mul, neg_neg, product_eq']
  simp only [maskedWitness, maskedImage, challengeVector, challengeImage, rescaled]
  rw [map_eq_bind]

/-- The shapes that a successful run implies. -/
theorem create_shapes {m k : Nat} (cx : Ctx G) (tr : Transcript) (tape : Tape F) (Gs Hs : List G)
    (Q : G) (Ms : Fin (k + 1) → Matrix (Fin m) (Fin m) F) (w r' : List F)
    (res : Proof F × Transcript × Tape F)
    (h : create cx tr tape Gs Hs Q ⟨List.ofFn fun i => rows (Ms i)⟩ w r' = .ok res) :
    0 < m ∧ Gs.length = m + 2 ∧ Hs.length = m + 2 ∧ w.length = m ∧ r'.length = 2 := by
  unfold create at h
  obtain ⟨q, h1, h⟩ := bind_eq_ok.1 h
  obtain ⟨_, h2, h⟩ := bind_eq_ok.1 h
  obtain ⟨_, h3, h⟩ := bind_eq_ok.1 h
  obtain ⟨_, h4, h⟩ := bind_eq_ok.1 h
  obtain ⟨xs, h5, h⟩ := bind_eq_ok.1 h
  obtain ⟨_, h6, h⟩ := bind_eq_ok.1 h
  obtain ⟨gamma, h7, h⟩ := bind_eq_ok.1 h
  obtain ⟨_, h8, h⟩ := bind_eq_ok.1 h
  obtain ⟨_, h9, h⟩ := bind_eq_ok.1 h
  obtain ⟨_, h10, h⟩ := bind_eq_ok.1 h
  obtain ⟨_, h11, h⟩ := bind_eq_ok.1 h
  obtain ⟨_, h12, h⟩ := bind_eq_ok.1 h
  obtain ⟨_, h13, h⟩ := bind_eq_ok.1 h
  obtain ⟨ss, h14, h⟩ := bind_eq_ok.1 h
  obtain ⟨bs, h15, h⟩ := bind_eq_ok.1 h
  obtain ⟨_, h16, h⟩ := bind_eq_ok.1 h
  obtain ⟨_, h17, h⟩ := bind_eq_ok.1 h
  obtain ⟨_, h18, h⟩ := bind_eq_ok.1 h
  obtain ⟨_, h19, h⟩ := bind_eq_ok.1 h
  obtain ⟨_, h20, h⟩ := bind_eq_ok.1 h
  obtain ⟨_, h21, h⟩ := bind_eq_ok.1 h
  obtain ⟨⟨q, tr2, tape2⟩, h22, h⟩ := bind_eq_ok.1 h
  obtain ⟨hq, rfl⟩ := usub_eq_ok.1 h1
  have h2 := rassert_eq_ok.1 h2
  have h3 := rassert_eq_ok.1 h3
  rw [vandemondeChallenge_eq _ (by omega)] at h5
  cases h5
  rw [batch_rows _ _ _ (by omega)] at h7
  cases h7
  have h13 := (msm_eq_ok.1 h13).1
  obtain ⟨_, _, _, k', -, -, l1, l2, -⟩ := createAlm_ok _ _ _ _ _ _ _ _ _ _ _ _ _ h22
  obtain ⟨_, rfl⟩ := setIdx_eq_ok.1 h10
  simp only [List.length_set] at l1
  simp only [matrixVectorMul_eq, List.length_append, List.length_map, length_rows, List.length_cons,
    List.length_nil] at h13
  have : Gs.length - 2 ≠ 0 := by
    intro h0
    rw [h0] at h14
    cases h14
  omega

end Qesa.Inner
