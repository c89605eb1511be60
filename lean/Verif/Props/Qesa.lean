import Mathlib.Algebra.Polynomial.Roots
import Verif.Proofs.Qesa
import Verif.Props.AlmZk
/- Properties of ipa::qesa_inner and qesa_zk: C09, C26-C31. -/
namespace Qesa.Props
open Qesa Spec Ipa
variable {F G : Type} [Field F] [AddCommGroup G] [Module F G]

/-! ### C27: the batched quadratic form -/

/-- C27: the batched form is the weighted sum of the first `n` forms. -/
theorem C27_batched_quad {m k : Nat} (n : Nat) (Ms : Fin k → Matrix (Fin m) (Fin m) F) (x : F)
    (w : Fin m → F) :
    quad (batched n Ms x) w = ∑ i, if i.val < n then x ^ (i.val + 1) * quad (Ms i) w else 0 := by
  have h : batched n Ms x = ∑ i, (if i.val < n then x ^ (i.val + 1) else 0) • Ms i := by
    unfold batched
    apply Finset.sum_congr rfl
    intro i _
    split <;> simp
  simp only [h, Inner.quad_eq, Matrix.sum_mulVec, Matrix.smul_mulVec, dotProduct_sum,
    dotProduct_smul, smul_eq_mul]
  apply Finset.sum_congr rfl
  intro i _
  split <;> simp

/-- C27: a witness that satisfies all equations satisfies the batched equation for every
challenge. -/
theorem C27_satisfied {m k : Nat} (n : Nat) (Ms : Fin k → Matrix (Fin m) (Fin m) F) (w : Fin m → F)
    (h : ∀ i, i.val < n → quad (Ms i) w = 0) (x : F) : quad (batched n Ms x) w = 0 := by
  rw [C27_batched_quad]
  apply Finset.sum_eq_zero
  intro i _
  split
  · next hi => rw [h i hi, mul_zero]
  · rfl

/-- C27: if one of the first `n` equations is violated, at most `k` challenges make the batched
equation hold (`k` is the number of equations). -/
theorem C27_violated {m k : Nat} (n : Nat) (Ms : Fin k → Matrix (Fin m) (Fin m) F) (w : Fin m → F)
    (i : Fin k) (hi : i.val < n) (h : quad (Ms i) w ≠ 0) :
    {x | quad (batched n Ms x) w = 0}.Finite ∧ {x | quad (batched n Ms x) w = 0}.ncard ≤ k := by
  classical
  let e : Fin k → F := fun i => if i.val < n then quad (Ms i) w else 0
  let p : Polynomial F := ∑ i : Fin k, Polynomial.C (e i) * Polynomial.X ^ (i.val + 1)
  have hc : p.coeff (i.val + 1) = quad (Ms i) w := by
    simp only [p, Polynomial.finsetSum_coeff, Polynomial.coeff_C_mul, Polynomial.coeff_X_pow]
    rw [Finset.sum_eq_single i]
    · simp [e, hi]
    · intro j _ hj
      rw [if_neg (by intro h; apply hj; ext; omega), mul_zero]
    · simp
  have hp : p ≠ 0 := by
    intro h0
    rw [h0] at hc
    exact h (by simpa using hc.symm)
  have hdeg : p.natDegree ≤ k := by
    apply Polynomial.natDegree_sum_le_of_forall_le
    intro j _
    refine (Polynomial.natDegree_C_mul_X_pow_le _ _).trans (by omega)
  have hs : {x | quad (batched n Ms x) w = 0} = {x | x ∈ p.roots.toFinset} := by
    ext x
    simp only [Set.mem_ofPred_eq, Multiset.mem_toFinset, Polynomial.mem_roots hp, Polynomial.IsRoot]
    rw [C27_batched_quad]
    simp only [p, Polynomial.eval_finsetSum, Polynomial.eval_mul, Polynomial.eval_C,
      Polynomial.eval_pow, Polynomial.eval_X]
    have : (∑ i : Fin k, if i.val < n then x ^ (i.val + 1) * quad (Ms i) w else 0) =
        ∑ i : Fin k, e i * x ^ (i.val + 1) := by
      apply Finset.sum_congr rfl
      intro j _
      simp only [e]
      split
      · ring
      · simp
    rw [this]
  rw [hs]
  refine ⟨Finset.finite_toSet _, ?_⟩
  have := Set.ncard_coe_finset p.roots.toFinset
  refine (le_of_eq this).trans ?_
  exact (Multiset.toFinset_card_le _).trans ((Polynomial.card_roots' p).trans hdeg)

/-- Two equations in two unknowns, satisfied by `(1, 2)` and not by `(1, 3)`. -/
example : let Ms : Fin 2 → Matrix (Fin 2) (Fin 2) ℚ := ![!![4, 0; 0, -1], !![0, 1; 0, -1/2]]
    (∀ i, quad (Ms i) ![1, 2] = 0) ∧ quad (Ms 0) ![1, 3] ≠ 0 := by
  decide +kernel

/-! ### C09: surplus equations -/

section C09
variable [DecidableEq F]

/-- C09: `qesa_inner::create` ignores the equations beyond the first `n = G.len()`. -/
theorem C09_inner_create (cx : Ctx G) (tr : Transcript) (tape : Tape F) (Gs Hs : List G) (Q : G)
    (Ms extra : List (List (List F))) (w r' : List F) (h : Gs.length ≤ Ms.length) :
    Inner.create cx tr tape Gs Hs Q ⟨Ms ++ extra⟩ w r' =
      Inner.create cx tr tape Gs Hs Q ⟨Ms⟩ w r' := by
  have hb : ∀ (y : F) xs, vandemondeChallenge y Gs.length = .ok xs →
      (⟨Ms ++ extra⟩ : BlockMatrix F).batch xs = (⟨Ms⟩ : BlockMatrix F).batch xs := by
    intro y xs hxs
    apply C09_batch_drops
    cases hn : Gs.length with
    | zero => rw [hn] at hxs; cases hxs
    | succ n =>
      rw [Inner.vandemondeChallenge_eq _ (by omega)] at hxs
      cases hxs
      simpa using h
  unfold Inner.create
  refine bind_congr fun k => bind_congr fun _ => bind_congr fun _ => bind_congr fun c => ?_
  simp only
  cases hxs : vandemondeChallenge (challengeScalar (F := F) cx.ro
      (tr.appendMessage "c_prime_w" (cx.compress c)) "x").1 Gs.length with
  | error e => rfl
  | ok xs => simp only [ok_bind, hb _ _ hxs]

/-- C09: so does `qesa_zk::create`. -/
theorem C09_zk_create (cx : Ctx G) (tr : Transcript) (tape : Tape F) (Gs Hs : List G) (Q : G)
    (Ms extra : List (List (List F))) (w : List F) (h : Gs.length ≤ Ms.length) :
    Zk.create cx tr tape Gs Hs Q ⟨Ms ++ extra⟩ w = Zk.create cx tr tape Gs Hs Q ⟨Ms⟩ w := by
  unfold Zk.create
  simp only [C09_inner_create cx tr _ Gs Hs Q Ms extra w _ h]

end C09

/-- C09: `Inner::verify` ignores the same equations (`n = H.len()`). -/
theorem C09_inner_verify [DecidableEq G] (cx : Ctx G) (p : Inner.Proof F) (tr : Transcript)
    (Gs Hs : List G) (Q : G) (Ms extra : List (List (List F))) (h : Hs.length ≤ Ms.length) :
    p.verify cx tr Gs Hs Q ⟨Ms ++ extra⟩ = p.verify cx tr Gs Hs Q ⟨Ms⟩ := by
  have hb : ∀ (y : F) xs, vandemondeChallenge y Hs.length = .ok xs →
      (⟨Ms ++ extra⟩ : BlockMatrix F).batch xs = (⟨Ms⟩ : BlockMatrix F).batch xs := by
    intro y xs hxs
    apply C09_batch_drops
    cases hn : Hs.length with
    | zero => rw [hn] at hxs; cases hxs
    | succ n =>
      rw [Inner.vandemondeChallenge_eq _ (by omega)] at hxs
      cases hxs
      simpa using h
  unfold Inner.Proof.verify
  refine bind_congr fun c => ?_
  simp only
  cases hxs : vandemondeChallenge (challengeScalar (F := F) cx.ro
      (tr.appendMessage "c_prime_w" p.c_prime_w) "x").1 Hs.length with
  | error e => rfl
  | ok xs => simp only [ok_bind, hb _ _ hxs]

/-- C09: and `Zk::verify`. -/
theorem C09_zk_verify [DecidableEq G] (cx : Ctx G) (p : Zk.Proof F) (tr : Transcript)
    (Gs Hs : List G) (Q : G) (Ms extra : List (List (List F))) (h : Hs.length ≤ Ms.length) :
    p.verify cx tr Gs Hs Q ⟨Ms ++ extra⟩ = p.verify cx tr Gs Hs Q ⟨Ms⟩ :=
  C09_inner_verify cx p.inner tr Gs Hs Q Ms extra h

/-- C09: with at most `n` equations every one of them enters the batched matrix, with its own power
of the challenge. -/
theorem C09_batched_all {m k : Nat} (n : Nat) (hk : k ≤ n) (Ms : Fin k → Matrix (Fin m) (Fin m) F)
    (x : F) : batched n Ms x = ∑ i, x ^ (i.val + 1) • Ms i := by
  unfold batched
  apply Finset.sum_congr rfl
  intro i _
  rw [if_pos (by omega)]

/-- C09: the same of the code: with at most `n` equations, batching with the challenges computed from `x`
returns the sum of all matrices, each with its own power of the challenge. -/
theorem C09_code_batches_all {m k : Nat} (n : Nat) (hk : k + 1 ≤ n)
    (Ms : Fin (k + 1) → Matrix (Fin m) (Fin m) F) (x : F) :
    (vandemondeChallenge x n >>= fun xs =>
      (⟨List.ofFn fun i => rows (Ms i)⟩ : BlockMatrix F).batch xs) =
        .ok (rows (∑ i, x ^ (i.val + 1) • Ms i)) := by
  rw [Inner.vandemondeChallenge_eq _ (by omega), ok_bind, Inner.batch_rows _ _ _ (by omega),
    C09_batched_all n hk]

/-- C27: the same of the code: for the matrix that the code computes from the equations and the challenge,
`⟨w, Γw⟩`, computed by the code, is the weighted sum of the first `n` forms. -/
theorem C27_code_quad {m k : Nat} (n : Nat) (hn : 0 < n)
    (Ms : Fin (k + 1) → Matrix (Fin m) (Fin m) F) (x : F) (w : Fin m → F) :
    (vandemondeChallenge x n >>= fun xs =>
      (⟨List.ofFn fun i => rows (Ms i)⟩ : BlockMatrix F).batch xs >>= fun γ =>
      .ok (innerProduct (List.ofFn w) (matrixVectorMul γ (List.ofFn w)))) =
        .ok (∑ i, if i.val < n then x ^ (i.val + 1) * quad (Ms i) w else 0) := by
  rw [Inner.vandemondeChallenge_eq _ hn, ok_bind, Inner.batch_rows _ _ _ hn, ok_bind,
    Inner.matrixVectorMul_rows, innerProduct_eq_dot, dot_ofFn, ← C27_batched_quad, Inner.quad_eq]
  rfl

/-! ### C26, C28, C30: honest prover code -/

theorem dot_rescaled (β : F) (u : List F) (Gs : List G) (g0 : G) (Gs0 : List G)
    (h : Gs = g0 :: Gs0) (u0 : F) (u' : List F) (hu : u = u0 :: u') :
    dot u (rescaled β Gs) = dot u Gs - (u0 * (1 - β⁻¹)) • g0 := by
  subst h hu
  simp only [rescaled, dot_cons]
  module

section honest
variable [DecidableEq F]

/-- C28: the prover commits to `a = w' - s'` and `b = Γ'w' + Γ'ᵀs'` and proves the value
`wᵀΓw - sᵀΓs`, whatever the masks are; that value is the inner product of `a` and `b`. -/
theorem C28_prover_value {m k : Nat} (cx : Ctx G) (tr tr' : Transcript) (tape tape' : Tape F)
    (Gs Hs : List G) (Q : G) (Ms : Fin (k + 1) → Matrix (Fin m) (Fin m) F) (w : Fin m → F)
    (r0 r1 : F) (p : Inner.Proof F)
    (h : Inner.create cx tr tape Gs Hs Q ⟨List.ofFn fun i => rows (Ms i)⟩ (List.ofFn w) [r0, r1] =
      .ok (p, tr', tape')) :
    let x := qesaX F cx.ro tr.log p.c_prime_w
    let s := qesaS F cx.ro tr.log p.c_prime_w p.c_prime_prime_w
    let b := qesaB F cx.ro tr.log p.c_prime_w p.c_prime_prime_w
    let M := batched (m + 2) Ms x
    let u := maskedWitness w r0 r1 s b
    let v := maskedImage M w r0 r1 s b
    let C_w := dot u (rescaled (x ^ 2) Gs) + dot v Hs
    p.c_prime_w = cx.compress (dot (List.ofFn w ++ [r0, r1]) Gs) ∧
    p.c_prime_prime_w = cx.compress (dot (List.ofFn (M.mulVec w) ++ [-r1, r0]) Hs) ∧
    dot u v = quad M w - quad M (powers s m) ∧
    createAlm cx ⟨tr.log ++ qesaHead p.c_prime_w p.c_prime_prime_w (cx.compress C_w)⟩ tape
      (rescaled (x ^ 2) Gs) Hs Q C_w u v (dot u v) = .ok (p.alm_zk, tr', tape') := by
  obtain ⟨hm, hG, hH, -, -⟩ := Inner.create_shapes _ _ _ _ _ _ _ _ _ _ h
  rw [Inner.create_eq hm cx tr tape Gs Hs Q Ms w r0 r1 hG hH] at h
  simp only [Inner.map_eq_bind] at h
  obtain ⟨⟨q, tr2, tape2⟩, h1, h⟩ := bind_eq_ok.1 h
  simp only [Except.ok.injEq, Prod.mk.injEq] at h
  obtain ⟨rfl, rfl, rfl⟩ := h
  refine ⟨rfl, rfl, Inner.product_eq _ _ _ _ _ _, ?_⟩
  rw [Inner.product_eq]
  exact h1

variable [DecidableEq G]

/-- C30: for a proof made by the prover code the verifier opens the prover's commitment shifted by
`(w₀ - 1) (1 - x⁻²) G₀`. -/
theorem C30_verifier_commitment {m k : Nat} (cx : Ctx G) (tr tr' : Transcript)
    (tape tape' : Tape F) (g0 : G) (Gs Hs : List G) (Q : G)
    (Ms : Fin (k + 1) → Matrix (Fin (m + 1)) (Fin (m + 1)) F) (w : Fin (m + 1) → F)
    (r0 r1 : F) (p : Inner.Proof F)
    (h : Inner.create cx tr tape (g0 :: Gs) Hs Q ⟨List.ofFn fun i => rows (Ms i)⟩ (List.ofFn w)
      [r0, r1] = .ok (p, tr', tape'))
    (hx : qesaX F cx.ro tr.log p.c_prime_w ≠ 0) :
    let x := qesaX F cx.ro tr.log p.c_prime_w
    let s := qesaS F cx.ro tr.log p.c_prime_w p.c_prime_prime_w
    let b := qesaB F cx.ro tr.log p.c_prime_w p.c_prime_prime_w
    let M := batched (m + 3) Ms x
    let C_w := dot (maskedWitness w r0 r1 s b) (rescaled (x ^ 2) (g0 :: Gs)) +
      dot (maskedImage M w r0 r1 s b) Hs + ((w 0 - 1) * (1 - (x ^ 2)⁻¹)) • g0
    p.verify cx tr (g0 :: Gs) Hs Q ⟨List.ofFn fun i => rows (Ms i)⟩ =
      p.alm_zk.verify cx ⟨tr.log ++ qesaHead p.c_prime_w p.c_prime_prime_w (cx.compress C_w)⟩
        (rescaled (x ^ 2) (g0 :: Gs)) Hs Q (m + 3) C_w (- quad M (powers s (m + 1))) := by
  obtain ⟨hm, hG, hH, -, -⟩ := Inner.create_shapes _ _ _ _ _ _ _ _ _ _ h
  obtain ⟨h1, h2, -, -⟩ := C28_prover_value _ _ _ _ _ _ _ _ _ _ _ _ _ h
  rw [Inner.verify_eq hm cx p tr (g0 :: Gs) Hs Q Ms _ _ h1 h2 g0 Gs rfl hG hH]
  intro x s b M C_w
  have : C_w = dot (List.ofFn w ++ [r0, r1]) (g0 :: Gs) - ((x ^ 2 - 1) * (x ^ 2)⁻¹) • g0 +
      dot (List.ofFn (M.mulVec w) ++ [-r1, r0]) Hs + dot (challengeImage M s b) Hs -
      dot (challengeVector s b (m + 1)) (rescaled (x ^ 2) (g0 :: Gs)) := by
    have e1 : dot (maskedWitness w r0 r1 s b) (rescaled (x ^ 2) (g0 :: Gs)) =
        dot (List.ofFn w ++ [r0, r1]) (rescaled (x ^ 2) (g0 :: Gs)) -
          dot (challengeVector s b (m + 1)) (rescaled (x ^ 2) (g0 :: Gs)) := by
      have := dot_comb_left 1 (-1) (rescaled (x ^ 2) (g0 :: Gs))
        (s := List.ofFn w ++ [r0, r1]) (s' := challengeVector s b (m + 1))
        (by simp [challengeVector])
      simpa [maskedWitness, ← sub_eq_add_neg] using this
    have e2 : dot (maskedImage M w r0 r1 s b) Hs =
        dot (List.ofFn (M.mulVec w) ++ [-r1, r0]) Hs + dot (challengeImage M s b) Hs := by
      have := dot_comb_left 1 1 Hs (s := List.ofFn (M.mulVec w) ++ [-r1, r0])
        (s' := challengeImage M s b) (by simp [challengeImage])
      simpa [maskedImage] using this
    have e3 := dot_rescaled (x ^ 2) (List.ofFn w ++ [r0, r1]) (g0 :: Gs) g0 Gs rfl (w 0)
      (List.ofFn (fun i : Fin m => w i.succ) ++ [r0, r1]) (by simp [List.ofFn_succ])
    have e4 : (x ^ 2 - 1) * (x ^ 2)⁻¹ = 1 - (x ^ 2)⁻¹ := by
      rw [sub_mul, mul_inv_cancel₀ (pow_ne_zero 2 hx), one_mul]
    simp only [C_w, e1, e2, e3, e4]
    module
  rw [this]

omit [DecidableEq F] [DecidableEq G] in
/-- C30: that is a different point unless `w₀ = 1` or `x² = 1` (or `G₀` is the identity). -/
theorem C30_pinned (C g0 : G) (w0 x : F) :
    C + ((w0 - 1) * (1 - (x ^ 2)⁻¹)) • g0 = C ↔ w0 = 1 ∨ x ^ 2 = 1 ∨ g0 = 0 := by
  rw [add_eq_left, smul_eq_zero, mul_eq_zero, sub_eq_zero, sub_eq_zero, eq_comm (a := (1 : F)),
    inv_eq_one, or_assoc]

/-- The events under which an honest QESA proof may be rejected do not occur: the challenges `x` and
`alpha` are not zero and the masks of AlmZK are taken from non-isotropic vectors. -/
def QesaFine {m k : Nat} (cx : Ctx G) (log : List Event) (tape : Tape F) (Gs Hs : List G) (Q : G)
    (Ms : Fin k → Matrix (Fin m) (Fin m) F) (w : Fin m → F) (r0 r1 : F) (p : Inner.Proof F) : Prop :=
  let x := qesaX F cx.ro log p.c_prime_w
  let s := qesaS F cx.ro log p.c_prime_w p.c_prime_prime_w
  let b := qesaB F cx.ro log p.c_prime_w p.c_prime_prime_w
  let u := maskedWitness w r0 r1 s b
  let v := maskedImage (batched (m + 2) Ms x) w r0 r1 s b
  let C_w := dot u (rescaled (x ^ 2) Gs) + dot v Hs
  x ≠ 0 ∧ MasksFine u v tape ∧
    ∀ C_r, cx.decompress p.alm_zk.C_r = some C_r →
      almAlpha cx (log ++ qesaHead p.c_prime_w p.c_prime_prime_w (cx.compress C_w)) Q C_w C_r
        (dot u v) (m + 2) ≠ 0

/-- C28: for a proof made by the prover code, the verifier runs AlmZK with a value `t` that equals the prover's
inner product iff the batched equation holds. -/
theorem C28_verifier_value {m k : Nat} (cx : Ctx G) (tr tr' : Transcript) (tape tape' : Tape F)
    (Gs Hs : List G) (Q : G) (Ms : Fin (k + 1) → Matrix (Fin m) (Fin m) F) (w : Fin m → F)
    (r0 r1 : F) (p : Inner.Proof F)
    (h : Inner.create cx tr tape Gs Hs Q ⟨List.ofFn fun i => rows (Ms i)⟩ (List.ofFn w) [r0, r1] =
      .ok (p, tr', tape')) :
    let x := qesaX F cx.ro tr.log p.c_prime_w
    let s := qesaS F cx.ro tr.log p.c_prime_w p.c_prime_prime_w
    let b := qesaB F cx.ro tr.log p.c_prime_w p.c_prime_prime_w
    let M := batched (m + 2) Ms x
    ∃ (log : List Event) (C_w : G) (t : F), p.verify cx tr Gs Hs Q ⟨List.ofFn fun i => rows (Ms i)⟩ =
        p.alm_zk.verify cx ⟨log⟩ (rescaled (x ^ 2) Gs) Hs Q (m + 2) C_w t ∧
      (t = dot (maskedWitness w r0 r1 s b) (maskedImage M w r0 r1 s b) ↔ quad M w = 0) := by
  obtain ⟨hm, hG, hH, -, -⟩ := Inner.create_shapes _ _ _ _ _ _ _ _ _ _ h
  obtain ⟨g0, Gs0, hGs⟩ : ∃ g0 Gs0, Gs = g0 :: Gs0 := by
    cases Gs with
    | nil => simp at hG
    | cons g Gs => exact ⟨g, Gs, rfl⟩
  obtain ⟨h1, h2, h3, -⟩ := C28_prover_value _ _ _ _ _ _ _ _ _ _ _ _ _ h
  refine ⟨_, _, _, Inner.verify_eq hm cx p tr Gs Hs Q Ms _ _ h1 h2 g0 Gs0 hGs hG hH, ?_⟩
  rw [h3, ← zero_sub, sub_left_inj, eq_comm]

/-- C26: completeness of the argument with given masks. -/
theorem C26_inner_completeness {m k : Nat} (cx : Ctx G) (tr tr' : Transcript) (tape tape' : Tape F)
    (Gs Hs : List G) (Q : G) (Ms : Fin (k + 1) → Matrix (Fin (m + 1)) (Fin (m + 1)) F)
    (w : Fin (m + 1) → F) (r0 r1 : F) (p : Inner.Proof F)
    (h : Inner.create cx tr tape Gs Hs Q ⟨List.ofFn fun i => rows (Ms i)⟩ (List.ofFn w)
      [r0, r1] = .ok (p, tr', tape'))
    (hn : Gs.length < 2 ^ 64) (h0 : w 0 = 1) (hw : ∀ i, quad (Ms i) w = 0)
    (hf : QesaFine cx tr.log tape Gs Hs Q Ms w r0 r1 p) :
    p.verify cx tr Gs Hs Q ⟨List.ofFn fun i => rows (Ms i)⟩ = .ok (true, tr') := by
  obtain ⟨hm, hG, hH, -, -⟩ := Inner.create_shapes _ _ _ _ _ _ _ _ _ _ h
  obtain ⟨hx, hmask, hα⟩ := hf
  obtain ⟨g0, Gs, rfl⟩ : ∃ g0 Gs0, Gs = g0 :: Gs0 := by
    cases Gs with
    | nil => simp at hG
    | cons g Gs => exact ⟨g, Gs, rfl⟩
  obtain ⟨h1, h2, h3, h4⟩ := C28_prover_value _ _ _ _ _ _ _ _ _ _ _ _ _ h
  rw [C30_verifier_commitment cx tr tr' tape tape' g0 Gs Hs Q Ms w r0 r1 p h hx]
  simp only [h0, sub_self, zero_mul, zero_smul, add_zero]
  rw [C27_satisfied _ Ms w (fun i _ => hw i), zero_sub] at h3
  have hl : (rescaled (qesaX F cx.ro tr.log p.c_prime_w ^ 2) (g0 :: Gs)).length = m + 3 := by
    simpa [rescaled] using hG
  have := C24_alm_completeness cx _ tr' tape tape' _ Hs Q _ _ p.alm_zk
    (by simp [maskedWitness, maskedImage, challengeVector, challengeImage]) h4
    (by rw [hl]; omega) hmask (by rw [hl]; exact hα)
  rw [h3, hl] at this
  exact this

/-- C26: completeness of `qesa_zk`; the two masks and the tape of AlmZK are the outcomes of the
random generator. -/
theorem C26_zk_completeness {m k : Nat} (cx : Ctx G) (tr tr' : Transcript) (tape tape' : Tape F)
    (Gs Hs : List G) (Q : G) (Ms : Fin (k + 1) → Matrix (Fin (m + 1)) (Fin (m + 1)) F)
    (w : Fin (m + 1) → F) (p : Zk.Proof F)
    (h : Zk.create cx tr tape Gs Hs Q ⟨List.ofFn fun i => rows (Ms i)⟩ (List.ofFn w) =
      .ok (p, tr', tape'))
    (hn : Gs.length < 2 ^ 64) (h0 : w 0 = 1) (hw : ∀ i, quad (Ms i) w = 0)
    (hf : QesaFine cx tr.log (fun i => tape (i + 2)) Gs Hs Q Ms w (tape 0) (tape 1) p.inner) :
    p.verify cx tr Gs Hs Q ⟨List.ofFn fun i => rows (Ms i)⟩ = .ok (true, tr') := by
  unfold Zk.create at h
  simp only [draw] at h
  obtain ⟨⟨q, tr2, tape2⟩, h1, h⟩ := bind_eq_ok.1 h
  simp only [R_pure, Except.ok.injEq, Prod.mk.injEq] at h
  obtain ⟨rfl, rfl, rfl⟩ := h
  exact C26_inner_completeness cx tr _ _ _ Gs Hs Q Ms w _ _ _ h1 hn h0 hw hf

end honest

/-! ### C29: forging proofs -/

/-- A forger for qesa_zk. It uses only what is public: the statement (generators and equations), the
transcript, and an arbitrary point `C'`. The commitment `c''` is chosen after `x` such that it
cancels `C'` and the correction `(x² - 1) G₀'` of the verifier; what remains to be opened is known. -/
def forge {m k : Nat} (cx : Ctx G) (tr : Transcript) (Gs Hs : List G) (Q : G)
    (Ms : Fin k → Matrix (Fin m) (Fin m) F) (C' : G) : R (Zk.Proof F × Transcript) := do
  let c' := cx.compress C'
  let x := qesaX F cx.ro tr.log c'
  let c'' := cx.compress (-C' + ((x ^ 2 - 1) * (x ^ 2)⁻¹) • Gs.headD 0)
  let s := qesaS F cx.ro tr.log c' c''
  let b := qesaB F cx.ro tr.log c' c''
  let M := batched (m + 2) Ms x
  let u := (challengeVector s b m).map fun y => -y
  let v := challengeImage M s b
  let C_w := dot u (rescaled (x ^ 2) Gs) + dot v Hs
  let log := tr.log ++ qesaHead c' c'' (cx.compress C_w)
  let β := almBeta F cx.ro log (cx.compress 0)
  let P := β • C_w + 0 + (β * β * dot u v) • Q
  let (q, tr) ← Ipa.create cx ⟨log ++ almHead (cx.compress 0) (cx.compress P)⟩ (rescaled (x ^ 2) Gs) Hs
    Q (u.map fun y => y * β) (v.map fun y => y * β)
  return (⟨⟨cx.compress 0, q⟩, c', c''⟩, tr)

theorem forged_witness {m : Nat} (s b : F) :
    maskedWitness (fun _ : Fin m => 0) 0 0 s b = (challengeVector s b m).map fun y => -y := by
  unfold maskedWitness challengeVector
  rw [List.zipWith_append (by simp), zipWith_ofFn]
  simp [Function.comp_def]

theorem forged_image {m : Nat} (M : Matrix (Fin m) (Fin m) F) (s b : F) :
    maskedImage M (fun _ : Fin m => 0) 0 0 s b = challengeImage M s b := by
  unfold maskedImage challengeImage
  rw [List.zipWith_append (by simp), zipWith_ofFn]
  have : M.mulVec (fun _ => 0) = 0 := Matrix.mulVec_zero M
  simp [this]

theorem forged_product {m : Nat} (M : Matrix (Fin m) (Fin m) F) (s b : F) :
    dot ((challengeVector s b m).map fun y => -y) (challengeImage M s b) = - quad M (powers s m) := by
  rw [← forged_witness, ← forged_image, Inner.product_eq]
  simp [quad]

/-- C29, finding: qesa_zk is not sound. For every system of equations, satisfiable or not, and every
starting point `C'` the forger returns a proof, and `Zk::verify` accepts it unless the challenge
`alpha` happens to be zero. -/
theorem C29_qesa_forgery [DecidableEq G] {m k q : Nat} (hm : 0 < m) (hq : m + 2 = 2 ^ q) (h64 : q < 64)
    (cx : Ctx G) (tr : Transcript) (Gs Hs : List G) (Q : G) (hG : Gs.length = m + 2)
    (hH : Hs.length = m + 2) (Ms : Fin (k + 1) → Matrix (Fin m) (Fin m) F) (C' : G) :
    ∃ p tr', forge cx tr Gs Hs Q Ms C' = .ok (p, tr') ∧
      let x := qesaX F cx.ro tr.log p.inner.c_prime_w
      let s := qesaS F cx.ro tr.log p.inner.c_prime_w p.inner.c_prime_prime_w
      let b := qesaB F cx.ro tr.log p.inner.c_prime_w p.inner.c_prime_prime_w
      let u := (challengeVector s b m).map fun y => -y
      let v := challengeImage (batched (m + 2) Ms x) s b
      let C_w := dot u (rescaled (x ^ 2) Gs) + dot v Hs
      (almAlpha cx (tr.log ++ qesaHead p.inner.c_prime_w p.inner.c_prime_prime_w (cx.compress C_w)) Q
        C_w 0 (dot u v) (m + 2) ≠ 0 →
      p.verify cx tr Gs Hs Q ⟨List.ofFn fun i => rows (Ms i)⟩ = .ok (true, tr')) := by
  obtain ⟨g0, Gs0, hGs⟩ : ∃ g0 Gs0, Gs = g0 :: Gs0 := by
    cases Gs with
    | nil => simp at hG
    | cons g Gs => exact ⟨g, Gs, rfl⟩
  unfold forge
  simp only
  set c' := cx.compress C'
  set x := qesaX F cx.ro tr.log c'
  set c'' := cx.compress (-C' + ((x ^ 2 - 1) * (x ^ 2)⁻¹) • Gs.headD 0) with hc''
  set s := qesaS F cx.ro tr.log c' c''
  set b := qesaB F cx.ro tr.log c' c''
  set M := batched (m + 2) Ms x
  set u := (challengeVector s b m).map fun y => -y with hu
  set v := challengeImage M s b with hv
  set C_w := dot u (rescaled (x ^ 2) Gs) + dot v Hs with hC
  set log := tr.log ++ qesaHead c' c'' (cx.compress C_w)
  set β := almBeta F cx.ro log (cx.compress 0)
  set P := β • C_w + 0 + (β * β * dot u v) • Q with hP
  have lu : u.length = 2 ^ q := by simp [hu, challengeVector, hq]
  have lv : v.length = 2 ^ q := by simp [hv, challengeImage, hq]
  have lG : (rescaled (x ^ 2) Gs).length = 2 ^ q := by rw [← hq, ← hG, hGs]; rfl
  obtain ⟨r, hr⟩ := (C17_ipa_create_returns_iff cx ⟨log ++ almHead (cx.compress 0) (cx.compress P)⟩
    (rescaled (x ^ 2) Gs) Hs Q (u.map fun y => y * β) (v.map fun y => y * β)).2
    ⟨q, by simp [lu], by simp [lv], lG, by rw [hH, hq]⟩
  obtain ⟨q0, tr'⟩ := r
  refine ⟨⟨⟨⟨cx.compress 0, q0⟩, c', c''⟩⟩, tr', by rw [hr, ok_bind]; rfl, ?_⟩
  intro hα
  unfold Zk.Proof.verify
  rw [Inner.verify_eq hm cx _ tr Gs Hs Q Ms C' _ rfl rfl g0 Gs0 hGs hG hH]
  have hCw : C' - ((x ^ 2 - 1) * (x ^ 2)⁻¹) • g0 + (-C' + ((x ^ 2 - 1) * (x ^ 2)⁻¹) • Gs.headD 0) +
      dot v Hs - dot (challengeVector s b m) (rescaled (x ^ 2) Gs) = C_w := by
    have e : dot u (rescaled (x ^ 2) Gs) = - dot (challengeVector s b m) (rescaled (x ^ 2) Gs) := by
      have := dot_map_mul_left (-1 : F) (challengeVector s b m) (rescaled (x ^ 2) Gs)
      simpa [hu] using this
    rw [hC, e, hGs, List.headD_cons]
    abel
  have key : (⟨cx.compress 0, q0⟩ : AlmZK F).verify cx ⟨log⟩ (rescaled (x ^ 2) Gs) Hs Q (m + 2) C_w
      (- quad M (powers s m)) = .ok (true, tr') := by
    have hprod : dot u v = - quad M (powers s m) := forged_product M s b
    rw [alm_verify_eq cx _ _ _ _ _ _ _ _ (0 : G) rfl]
    have h16 := C16_ipa_completeness cx _ tr' _ Hs Q _ _ q0 hr
      (by rw [lG]; exact Nat.pow_lt_pow_right (by decide) h64) (by rw [lG, ← hq]; exact hα)
    have e2 : dot (u.map fun y => y * β) (v.map fun y => y * β) = β * β * dot u v := by
      rw [dot_map_mul_left, dot_comm u, dot_map_mul_left, dot_comm v]
      simp only [smul_eq_mul, mul_assoc]
    rw [dot_map_mul_left, dot_map_mul_left, e2, lG, ← hq, ← smul_add] at h16
    rw [← hprod]
    simp only [add_zero]
    simp only [hP, add_zero] at h16
    exact h16
  simp only [log] at key
  rw [← hCw] at key
  exact key

/-- C29: the equation `w₀² = 0` contradicts `w₀ = 1`. -/
theorem C29_unsatisfiable {m : Nat} (w : Fin (m + 1) → F) (h0 : w 0 = 1) :
    quad (Matrix.of fun i j : Fin (m + 1) => if i = 0 ∧ j = 0 then (1 : F) else 0) w ≠ 0 := by
  have : quad (Matrix.of fun i j : Fin (m + 1) => if i = 0 ∧ j = 0 then (1 : F) else 0) w = 1 := by
    unfold quad
    rw [Finset.sum_eq_single 0]
    · rw [Finset.sum_eq_single 0]
      · simp [h0]
      · intro j _ hj; simp [hj]
      · simp
    · intro i _ hi
      apply Finset.sum_eq_zero
      intro j _; simp [hi]
    · simp
  rw [this]; exact one_ne_zero

section
open Toy
/-- C29: a forged proof for the unsatisfiable equation `w₀² = 0` is accepted. -/
example : (match forge cx ⟨[]⟩ [3, 5, 8, 13] [21, 34, 55, 89] (7 : K)
      (fun _ : Fin 1 => (!![1, 0; 0, 0] : Matrix (Fin 2) (Fin 2) K)) 0 with
    | .ok (p, _) => (p.verify cx ⟨[]⟩ [3, 5, 8, 13] [21, 34, 55, 89] (7 : K)
        ⟨[[[1, 0], [0, 0]]]⟩).map Prod.fst = .ok true
    | .error _ => false) = true := by
  decide +kernel

/-- The tape of the next example. -/
def exTape2 : Tape K := fun i => (i * i + 5 : K)

/-- C26, C28, C30: a run that meets all hypotheses: two equations, `w = (1, 2)`. -/
example : let Ms : Fin 2 → Matrix (Fin 2) (Fin 2) K := ![!![4, 0; 0, -1], !![0, 1; 0, 50]]
    (∀ i, quad (Ms i) ![1, 2] = 0) ∧
    (match Zk.create cx ⟨[]⟩ exTape2 [3, 5, 8, 13] [21, 34, 55, 89] (7 : K)
      ⟨List.ofFn fun i => rows (Ms i)⟩ [1, 2] with
    | .ok (p, _, _) =>
      let x := qesaX K cx.ro [] p.inner.c_prime_w
      let s := qesaS K cx.ro [] p.inner.c_prime_w p.inner.c_prime_prime_w
      let b := qesaB K cx.ro [] p.inner.c_prime_w p.inner.c_prime_prime_w
      let u := maskedWitness ![1, 2] (exTape2 0) (exTape2 1) s b
      let v := maskedImage (batched 4 Ms x) ![1, 2] (exTape2 0) (exTape2 1) s b
      let C_w := dot u (rescaled (x ^ 2) [3, 5, 8, (13 : K)]) + dot v [21, 34, 55, (89 : K)]
      x != 0 && dot u u != 0 && dot v v != 0 &&
      ((sampleGramSchmidt v (fun i => exTape2 (i + 2)) >>= fun r => orth u r.1).map
        fun o => dot o o) != .ok 0 &&
      (match cx.decompress p.inner.alm_zk.C_r with
        | some C_r => almAlpha cx ([] ++ qesaHead p.inner.c_prime_w p.inner.c_prime_prime_w
            (cx.compress C_w)) 7 C_w C_r (dot u v) 4 != 0
        | none => false) &&
      (p.verify cx ⟨[]⟩ [3, 5, 8, 13] [21, 34, 55, 89] (7 : K)
        ⟨List.ofFn fun i => rows (Ms i)⟩).map Prod.fst = .ok true
    | .error _ => false) = true := by
  decide +kernel

/-- The condition on the masks in C26 is needed: with another random tape the masked vector is
isotropic, and the honest proof for the same true statement is rejected. -/
example : let Ms : Fin 2 → Matrix (Fin 2) (Fin 2) K := ![!![4, 0; 0, -1], !![0, 1; 0, 50]]
    (match Zk.create cx ⟨[]⟩ exTape [3, 5, 8, 13] [21, 34, 55, 89] (7 : K)
      ⟨List.ofFn fun i => rows (Ms i)⟩ [1, 2] with
    | .ok (p, _, _) => (p.verify cx ⟨[]⟩ [3, 5, 8, 13] [21, 34, 55, 89] (7 : K)
        ⟨List.ofFn fun i => rows (Ms i)⟩).map Prod.fst = .ok false
    | .error _ => false) = true := by
  decide +kernel
end

/-! ### C31: panics -/

/-- C31: whatever the block of matrices (ragged or not), `qesa_inner::create` returns only if the
generator vectors have one common length `2 ^ q >= 4`, the witness has two entries less, there are
two masks and at least one matrix; in all other cases it panics. -/
theorem C31_inner_create_shapes [DecidableEq F] (cx : Ctx G) (tr : Transcript) (tape : Tape F)
    (Gs Hs : List G) (Q : G) (block : BlockMatrix F) (w r' : List F)
    (res : Inner.Proof F × Transcript × Tape F)
    (h : Inner.create cx tr tape Gs Hs Q block w r' = .ok res) :
    (∃ q, 2 ≤ q ∧ Gs.length = 2 ^ q) ∧ Hs.length = Gs.length ∧ w.length + 2 = Gs.length ∧
      r'.length = 2 ∧ block.block ≠ [] := by
  unfold Inner.create at h
  obtain ⟨q, h1, h⟩ := bind_eq_ok.1 h
  obtain ⟨_, h2, h⟩ := bind_eq_ok.1 h
  obtain ⟨_, h3, h⟩ := bind_eq_ok.1 h
  obtain ⟨_, h4, h⟩ := bind_eq_ok.1 h
  obtain ⟨xs, h5, h⟩ := bind_eq_ok.1 h
  obtain ⟨_, h6, h⟩ := bind_eq_ok.1 h
  obtain ⟨gamma, h7, h⟩ := bind_eq_ok.1 h
  obtain ⟨_, h8, h⟩ := bind_eq_ok.1 h
  obtain ⟨_, h9, h⟩ := bind_eq_ok.1 h
  obtain ⟨_, h10, h⟩ := bind_eq_ok.1 h
  obtain ⟨_, h11, h⟩ := bind_eq_ok.1 h
  obtain ⟨_, h12, h⟩ := bind_eq_ok.1 h
  obtain ⟨_, h13, h⟩ := bind_eq_ok.1 h
  obtain ⟨ss, h14, h⟩ := bind_eq_ok.1 h
  obtain ⟨bs, h15, h⟩ := bind_eq_ok.1 h
  obtain ⟨_, h16, h⟩ := bind_eq_ok.1 h
  obtain ⟨_, h17, h⟩ := bind_eq_ok.1 h
  obtain ⟨_, h18, h⟩ := bind_eq_ok.1 h
  obtain ⟨_, h19, h⟩ := bind_eq_ok.1 h
  obtain ⟨_, h20, h⟩ := bind_eq_ok.1 h
  obtain ⟨_, h21, h⟩ := bind_eq_ok.1 h
  obtain ⟨⟨q, tr2, tape2⟩, h22, h⟩ := bind_eq_ok.1 h
  obtain ⟨hq, rfl⟩ := usub_eq_ok.1 h1
  have h2 := rassert_eq_ok.1 h2
  have h3 := rassert_eq_ok.1 h3
  obtain ⟨_, _, _, k', -, -, l1, l2, -⟩ := createAlm_ok _ _ _ _ _ _ _ _ _ _ _ _ _ h22
  obtain ⟨_, rfl⟩ := setIdx_eq_ok.1 h10
  simp only [List.length_set] at l1
  have hne : Gs.length - 2 ≠ 0 := by
    intro h0
    rw [h0] at h14
    cases h14
  refine ⟨⟨k', ?_, l1⟩, by omega, by omega, h3, ?_⟩
  · rcases k' with _ | _ | k'
    · simp at l1; omega
    · simp at l1; omega
    · omega
  · intro hb
    rw [C08_batch_panics block xs (.inl hb)] at h7
    cases h7

theorem unwrapR_eq_ok {α : Type} {o : Option α} {x : α} : unwrapR o = .ok x ↔ o = some x := by
  cases o <;> simp [unwrapR]

/-- The shapes that a run of the verifier without panic implies. -/
theorem verify_shapes [DecidableEq G] {m k : Nat} (cx : Ctx G) (p : Inner.Proof F) (tr : Transcript)
    (Gs Hs : List G) (Q : G) (Ms : Fin (k + 1) → Matrix (Fin m) (Fin m) F) (r : Bool × Transcript)
    (h : p.verify cx tr Gs Hs Q ⟨List.ofFn fun i => rows (Ms i)⟩ = .ok r) :
    0 < m ∧ Gs.length = m + 2 ∧ Hs.length = m + 2 ∧ (∃ C', cx.decompress p.c_prime_w = some C') ∧
      ∃ C'', cx.decompress p.c_prime_prime_w = some C'' := by
  unfold Inner.Proof.verify at h
  obtain ⟨_, h1, h⟩ := bind_eq_ok.1 h
  obtain ⟨_, h2, h⟩ := bind_eq_ok.1 h
  obtain ⟨gamma, h3, h⟩ := bind_eq_ok.1 h
  obtain ⟨_, h4, h⟩ := bind_eq_ok.1 h
  obtain ⟨_, h5, h⟩ := bind_eq_ok.1 h
  obtain ⟨_, h6, h⟩ := bind_eq_ok.1 h
  obtain ⟨_, h7, h⟩ := bind_eq_ok.1 h
  obtain ⟨_, h8, h⟩ := bind_eq_ok.1 h
  obtain ⟨_, h9, h⟩ := bind_eq_ok.1 h
  obtain ⟨ss, h10, h⟩ := bind_eq_ok.1 h
  obtain ⟨bs, h11, h⟩ := bind_eq_ok.1 h
  obtain ⟨_, h12, h⟩ := bind_eq_ok.1 h
  obtain ⟨gamma', h13, h⟩ := bind_eq_ok.1 h
  obtain ⟨gammaT', h14, h⟩ := bind_eq_ok.1 h
  obtain ⟨gammaT, h15, h⟩ := bind_eq_ok.1 h
  obtain ⟨_, h16, h⟩ := bind_eq_ok.1 h
  obtain ⟨_, h17, h⟩ := bind_eq_ok.1 h
  have hn : Hs.length ≠ 0 := by
    intro h0; rw [h0] at h2; cases h2
  rw [Inner.vandemondeChallenge_eq _ (by omega)] at h2
  cases h2
  rw [Inner.batch_rows _ _ _ (by omega)] at h3
  obtain rfl := Except.ok.inj h3
  have hm : 0 < m := by
    rcases Nat.eq_zero_or_pos m with rfl | hm
    · simp [matrixTranspose, rows, idx] at h15
    · exact hm
  obtain ⟨hn2, rfl⟩ := usub_eq_ok.1 h9
  have h12 := rassert_eq_ok.1 h12
  have h16 := (msm_eq_ok.1 h16).1
  have h17 := (msm_eq_ok.1 h17).1
  obtain ⟨_, rfl⟩ := setIdx_eq_ok.1 h6
  simp only [List.length_set] at h17
  -- the transposed matrix has `m + 2` rows
  have hT : gammaT'.length = m + 2 := by
    unfold Inner.computeGammaPrime at h13
    rw [usub_le hn2] at h13
    simp only [ok_bind, R_pure, Except.ok.injEq] at h13
    unfold matrixTranspose at h14
    obtain ⟨row0, e1, e2⟩ := bind_eq_ok.1 h14
    rw [← h13, idx_eq_ok, List.append_assoc, List.getElem?_append_left (by simpa using hm)] at e1
    rw [(pushRows_spec e2).1, List.length_replicate]
    rw [List.getElem?_map, List.getElem?_eq_getElem (by simpa using hm)] at e1
    simp only [getElem_rows, Option.map_some, Option.some.injEq] at e1
    simp [← e1]
  simp only [matrixVectorMul_eq, List.length_map] at h16
  exact ⟨hm, by omega, by omega, ⟨_, unwrapR_eq_ok.1 h1⟩, ⟨_, unwrapR_eq_ok.1 h7⟩⟩

/-- C31: for systems of `m × m` matrices `Zk::verify` returns a verdict exactly when `m >= 1`, both
generator vectors have length `m + 2`, which is two to the number of points `L`, and all points of
the proof decompress; otherwise it panics. -/
theorem C31_zk_verify_returns_iff [DecidableEq G] {m k : Nat} (cx : Ctx G) (p : Zk.Proof F)
    (tr : Transcript) (Gs Hs : List G) (Q : G) (Ms : Fin (k + 1) → Matrix (Fin m) (Fin m) F) :
    (∃ r, p.verify cx tr Gs Hs Q ⟨List.ofFn fun i => rows (Ms i)⟩ = .ok r) ↔
      0 < m ∧ Gs.length = m + 2 ∧ Hs.length = m + 2 ∧
      (cx.decompress p.inner.c_prime_w).isSome ∧ (cx.decompress p.inner.c_prime_prime_w).isSome ∧
      (cx.decompress p.inner.alm_zk.C_r).isSome ∧
      (∀ c ∈ p.inner.alm_zk.NoZK.L_vec, (cx.decompress c).isSome) ∧
      (∀ c ∈ p.inner.alm_zk.NoZK.R_vec, (cx.decompress c).isSome) ∧
      p.inner.alm_zk.NoZK.L_vec.length < 64 ∧ m + 2 = 2 ^ p.inner.alm_zk.NoZK.L_vec.length := by
  constructor
  · rintro ⟨r, h⟩
    obtain ⟨hm, hG, hH, ⟨C', h1⟩, ⟨C'', h2⟩⟩ := verify_shapes cx p.inner tr Gs Hs Q Ms r h
    obtain ⟨g0, Gs0, hGs⟩ : ∃ g0 Gs0, Gs = g0 :: Gs0 := by
      cases Gs with
      | nil => simp at hG
      | cons g Gs => exact ⟨g, Gs, rfl⟩
    unfold Zk.Proof.verify at h
    rw [Inner.verify_eq hm cx _ tr Gs Hs Q Ms C' C'' (cx.compress_decompress _ _ h1).symm
      (cx.compress_decompress _ _ h2).symm g0 Gs0 hGs hG hH] at h
    simp only at h
    cases h3 : cx.decompress p.inner.alm_zk.C_r with
    | none => rw [alm_verify_undecodable _ _ _ _ _ _ _ _ _ h3] at h; cases h
    | some C_r =>
      rw [alm_verify_eq _ _ _ _ _ _ _ _ _ C_r (cx.compress_decompress _ _ h3).symm] at h
      obtain ⟨v1, v2, v3, v4, -, -⟩ := (C22_ipa_verify_returns_iff _ _ _ _ _ _ _ _ _).1 ⟨_, h⟩
      exact ⟨hm, hG, hH, by simp [h1], by simp [h2], by simp, v1, v2, v3, v4⟩
  · rintro ⟨hm, hG, hH, h1, h2, h3, v1, v2, v3, v4⟩
    obtain ⟨C', h1⟩ := Option.isSome_iff_exists.1 h1
    obtain ⟨C'', h2⟩ := Option.isSome_iff_exists.1 h2
    obtain ⟨C_r, h3⟩ := Option.isSome_iff_exists.1 h3
    obtain ⟨g0, Gs0, hGs⟩ : ∃ g0 Gs0, Gs = g0 :: Gs0 := by
      cases Gs with
      | nil => simp at hG
      | cons g Gs => exact ⟨g, Gs, rfl⟩
    unfold Zk.Proof.verify
    rw [Inner.verify_eq hm cx _ tr Gs Hs Q Ms C' C'' (cx.compress_decompress _ _ h1).symm
      (cx.compress_decompress _ _ h2).symm g0 Gs0 hGs hG hH]
    simp only
    rw [alm_verify_eq _ _ _ _ _ _ _ _ _ C_r (cx.compress_decompress _ _ h3).symm]
    have : ∀ e : Nat, m + 2 - 2 ^ e < m + 2 := fun e => Nat.sub_lt (by omega) (Nat.two_pow_pos e)
    apply (C22_ipa_verify_returns_iff _ _ _ _ _ _ _ _ _).2
    refine ⟨v1, v2, v3, v4, ?_, by rw [hH]; exact this _⟩
    have : (rescaled (qesaX F cx.ro tr.log p.inner.c_prime_w ^ 2) Gs).length = m + 2 := by
      rw [← hG, hGs]; rfl
    rw [this]
    exact Nat.sub_lt (by omega) (Nat.two_pow_pos _)

/-! ### C56: transcripts -/

omit [AddCommGroup G] in
theorem log_aux (cx : Ctx G) (log log' : List Event) (c' c'' c_r : Comp) (L R : List (Comp))
    (n : Nat) (C_w P : G) (h : log' = log ++ qesaHead c' c'' (cx.compress C_w) ++
      [.msg "C_r" c_r, .chal "beta" 64, .msg "P" (cx.compress P), .msg "n" (u64le n),
        .chal "alpha" 64] ++
      (List.zip L R).flatMap (fun LR => [.msg "L" LR.1, .msg "R" LR.2, .chal "x_i" 64])) :
    ∃ C_w P : G, log' = log ++
        [.msg "c_prime_w" c', .chal "x" 64, .msg "c_prime_prime_w" c'', .chal "s" 64,
         .chal "b" 64, .msg "c_w" (cx.compress C_w), .msg "C_r" c_r, .chal "beta" 64,
         .msg "P" (cx.compress P), .msg "n" (u64le n), .chal "alpha" 64] ++
        (List.zip L R).flatMap (fun LR => [.msg "L" LR.1, .msg "R" LR.2, .chal "x_i" 64]) :=
  ⟨C_w, P, by rw [h]; simp [qesaHead]⟩

/-- C56: everything `Inner::verify` (hence `Zk::verify`) does to the transcript, for every proof and
verdict. -/
theorem C56_verify_log [DecidableEq G] {m k : Nat} (cx : Ctx G) (p : Zk.Proof F)
    (tr tr' : Transcript) (Gs Hs : List G) (Q : G) (Ms : Fin (k + 1) → Matrix (Fin m) (Fin m) F)
    (v : Bool) (h : p.verify cx tr Gs Hs Q ⟨List.ofFn fun i => rows (Ms i)⟩ = .ok (v, tr')) :
    ∃ C_w P : G, tr'.log = tr.log ++
        [.msg "c_prime_w" p.inner.c_prime_w, .chal "x" 64,
         .msg "c_prime_prime_w" p.inner.c_prime_prime_w, .chal "s" 64, .chal "b" 64,
         .msg "c_w" (cx.compress C_w),
         .msg "C_r" p.inner.alm_zk.C_r, .chal "beta" 64, .msg "P" (cx.compress P),
         .msg "n" (u64le Hs.length), .chal "alpha" 64] ++
        (List.zip p.inner.alm_zk.NoZK.L_vec p.inner.alm_zk.NoZK.R_vec).flatMap
          (fun LR => [.msg "L" LR.1, .msg "R" LR.2, .chal "x_i" 64]) := by
  obtain ⟨hm, hG, hH, ⟨C', h1⟩, ⟨C'', h2⟩⟩ := verify_shapes cx p.inner tr Gs Hs Q Ms _ h
  obtain ⟨g0, Gs0, hGs⟩ : ∃ g0 Gs0, Gs = g0 :: Gs0 := by
    cases Gs with
    | nil => simp at hG
    | cons g Gs => exact ⟨g, Gs, rfl⟩
  unfold Zk.Proof.verify at h
  rw [Inner.verify_eq hm cx _ tr Gs Hs Q Ms C' C'' (cx.compress_decompress _ _ h1).symm
    (cx.compress_decompress _ _ h2).symm g0 Gs0 hGs hG hH] at h
  simp only at h
  obtain ⟨C_r, -, hl⟩ := C11_alm_verify_log _ _ _ _ _ _ _ _ _ _ _ h
  rw [hH]
  simp only at hl
  exact log_aux _ _ _ _ _ _ _ _ _ _ _ hl

/-- C56: everything `qesa_zk::create` does to the transcript. -/
theorem C56_create_log [DecidableEq F] {m k : Nat} (cx : Ctx G) (tr tr' : Transcript)
    (tape tape' : Tape F) (Gs Hs : List G) (Q : G) (Ms : Fin (k + 1) → Matrix (Fin m) (Fin m) F)
    (w : Fin m → F) (p : Zk.Proof F)
    (h : Zk.create cx tr tape Gs Hs Q ⟨List.ofFn fun i => rows (Ms i)⟩ (List.ofFn w) =
      .ok (p, tr', tape')) :
    ∃ C_w P : G, tr'.log = tr.log ++
        [.msg "c_prime_w" p.inner.c_prime_w, .chal "x" 64,
         .msg "c_prime_prime_w" p.inner.c_prime_prime_w, .chal "s" 64, .chal "b" 64,
         .msg "c_w" (cx.compress C_w),
         .msg "C_r" p.inner.alm_zk.C_r, .chal "beta" 64, .msg "P" (cx.compress P),
         .msg "n" (u64le Gs.length), .chal "alpha" 64] ++
        (List.zip p.inner.alm_zk.NoZK.L_vec p.inner.alm_zk.NoZK.R_vec).flatMap
          (fun LR => [.msg "L" LR.1, .msg "R" LR.2, .chal "x_i" 64]) := by
  unfold Zk.create at h
  simp only [draw] at h
  obtain ⟨⟨q, tr2, tape2⟩, h1, h⟩ := bind_eq_ok.1 h
  simp only [R_pure, Except.ok.injEq, Prod.mk.injEq] at h
  obtain ⟨rfl, rfl, rfl⟩ := h
  obtain ⟨hm, hG, hH, -, -⟩ := Inner.create_shapes _ _ _ _ _ _ _ _ _ _ h1
  obtain ⟨-, -, -, h4⟩ := C28_prover_value _ _ _ _ _ _ _ _ _ _ _ _ _ h1
  obtain ⟨C_r, -, hl⟩ := C11_alm_create_log _ _ _ _ _ _ _ _ _ _ _ _ _ h4
  have : (rescaled (qesaX F cx.ro tr.log q.c_prime_w ^ 2) Gs).length = Gs.length := by
    cases Gs <;> rfl
  rw [this] at hl
  simp only at hl
  exact log_aux _ _ _ _ _ _ _ _ _ _ _ hl

/-- C56: for a witness with first component one that satisfies the batched equation (`x ≠ 0`), both sides end in the same state, whatever the
verdict is. -/
theorem C56_lockstep [DecidableEq F] [DecidableEq G] {m k : Nat} (cx : Ctx G)
    (tr tr' : Transcript) (tape tape' : Tape F) (Gs Hs : List G) (Q : G)
    (Ms : Fin (k + 1) → Matrix (Fin (m + 1)) (Fin (m + 1)) F) (w : Fin (m + 1) → F) (p : Zk.Proof F)
    (h : Zk.create cx tr tape Gs Hs Q ⟨List.ofFn fun i => rows (Ms i)⟩ (List.ofFn w) =
      .ok (p, tr', tape'))
    (hn : Gs.length < 2 ^ 64) (h0 : w 0 = 1)
    (hw : quad (batched (m + 3) Ms (qesaX F cx.ro tr.log p.inner.c_prime_w)) w = 0)
    (hx : qesaX F cx.ro tr.log p.inner.c_prime_w ≠ 0) :
    ∃ v, p.verify cx tr Gs Hs Q ⟨List.ofFn fun i => rows (Ms i)⟩ = .ok (v, tr') := by
  unfold Zk.create at h
  simp only [draw] at h
  obtain ⟨⟨q, tr2, tape2⟩, h1, h⟩ := bind_eq_ok.1 h
  simp only [R_pure, Except.ok.injEq, Prod.mk.injEq] at h
  obtain ⟨rfl, rfl, rfl⟩ := h
  obtain ⟨hm, hG, hH, -, -⟩ := Inner.create_shapes _ _ _ _ _ _ _ _ _ _ h1
  obtain ⟨-, -, h3, h4⟩ := C28_prover_value _ _ _ _ _ _ _ _ _ _ _ _ _ h1
  obtain ⟨g0, Gs, rfl⟩ : ∃ g0 Gs0, Gs = g0 :: Gs0 := by
    cases Gs with
    | nil => simp at hG
    | cons g Gs => exact ⟨g, Gs, rfl⟩
  unfold Zk.Proof.verify
  rw [C30_verifier_commitment cx tr tr2 _ _ g0 Gs Hs Q Ms w _ _ q h1 hx]
  simp only [h0, sub_self, zero_mul, zero_smul, add_zero]
  simp only at hw
  rw [hw, zero_sub] at h3
  simp only [h3] at h4
  obtain ⟨_, _, _, e, -, -, hlG, -, -, -, -, -, hC, hc⟩ := createAlm_ok _ _ _ _ _ _ _ _ _ _ _ _ _ h4
  have hl : (rescaled (qesaX F cx.ro tr.log q.c_prime_w ^ 2) (g0 :: Gs)).length = m + 3 := by
    simpa [rescaled] using hG
  rw [alm_verify_eq _ _ _ _ _ _ _ _ _ _ hC]
  have := C20_ipa_lockstep cx _ tr2 _ Hs Q _ _ q.alm_zk.NoZK hc (by rw [hl]; omega)
  rw [hl] at this
  exact this _ _

end Qesa.Props
