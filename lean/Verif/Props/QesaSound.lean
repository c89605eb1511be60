import Mathlib.Algebra.Polynomial.Roots
import Verif.SpecQesaSound
import Verif.Props.IpaSound
import Verif.Props.Qesa
/-
C61-C63: what a QESA proof does prove, and what is missing for soundness.
-/
namespace Qesa.Props
open Qesa Spec Ipa
variable {F G : Type} [Field F] [AddCommGroup G] [Module F G]

/-! ### The algebra -/

/-- A polynomial of degree at most `m` that vanishes at `m + 1` points is zero. -/
theorem coeffs_zero {m : Nat} (c : F) (d : Fin m → F) (s : Fin (m + 1) → F) (hs : Function.Injective s)
    (h : ∀ i, c = ∑ k, s i ^ (k.val + 1) * d k) : c = 0 ∧ ∀ k, d k = 0 := by
  let p : Polynomial F := Polynomial.C (-c) + ∑ k : Fin m, Polynomial.C (d k) * Polynomial.X ^ (k.val + 1)
  have hdeg : p.natDegree < Fintype.card (Fin (m + 1)) := by
    rw [Fintype.card_fin, Nat.lt_succ_iff]
    refine Polynomial.natDegree_add_le_of_degree_le (by simp) ?_
    apply Polynomial.natDegree_sum_le_of_forall_le
    intro k _
    exact (Polynomial.natDegree_C_mul_X_pow_le _ _).trans (by omega)
  have hp : p = 0 := by
    refine Polynomial.eq_zero_of_natDegree_lt_card_of_eval_eq_zero p hs ?_ hdeg
    intro i
    simp only [p, Polynomial.eval_add, Polynomial.eval_C, Polynomial.eval_finsetSum, Polynomial.eval_mul,
      Polynomial.eval_pow, Polynomial.eval_X]
    rw [h i, neg_add_eq_zero]
    exact Finset.sum_congr rfl fun k _ => mul_comm _ _
  constructor
  · have := congrArg (fun q => Polynomial.coeff q 0) hp
    simpa [p, Polynomial.finsetSum_coeff] using this
  · intro k
    have := congrArg (fun q => Polynomial.coeff q (k.val + 1)) hp
    simp only [p, Polynomial.coeff_add, Polynomial.finsetSum_coeff, Polynomial.coeff_C_mul,
      Polynomial.coeff_X_pow, Polynomial.coeff_C_succ, zero_add, Polynomial.coeff_zero] at this
    rw [Finset.sum_eq_single k] at this
    · simpa using this
    · intro j _ hj
      rw [if_neg (fun h => hj (Fin.ext (by omega))), mul_zero]
    · simp

/-- The product of the masked vectors, for an arbitrary second vector. -/
theorem masked_product {m : Nat} (M : Matrix (Fin m) (Fin m) F) (u y : Fin m → F) (r0 r1 p q s b : F) :
    dot (List.zipWith (fun a b => a - b) (List.ofFn u ++ [r0, r1]) (challengeVector s b m))
      (List.zipWith (fun a b => a + b) (List.ofFn y ++ [p, q]) (challengeImage M s b)) =
      quad M u - quad M (powers s m) + (u ⬝ᵥ (y - M.mulVec u) + r0 * p + r1 * q) -
        powers s m ⬝ᵥ (y - M.mulVec u) - (b * (p + r1) + b ^ 2 * (q - r0)) := by
  unfold challengeVector challengeImage
  rw [List.zipWith_append (by simp), List.zipWith_append (by simp), zipWith_ofFn, zipWith_ofFn,
    dot_append (by simp), dot_ofFn, ← Inner.quad_transpose M (powers s m), Inner.quad_eq]
  simp only [List.zipWith_cons_cons, List.zipWith_nil_right, dot_cons, dot_nil_left, smul_eq_mul]
  have h : u ⬝ᵥ M.transpose.mulVec (powers s m) = powers s m ⬝ᵥ M.mulVec u := by
    rw [Matrix.mulVec_transpose, dotProduct_comm, Matrix.dotProduct_mulVec]
  have : ∑ i, (u i - powers s m i) * (y i + M.transpose.mulVec (powers s m) i) =
      u ⬝ᵥ y + u ⬝ᵥ M.transpose.mulVec (powers s m) - powers s m ⬝ᵥ y -
        powers s m ⬝ᵥ M.transpose.mulVec (powers s m) := by
    simp only [dotProduct, ← Finset.sum_add_distrib, ← Finset.sum_sub_distrib]
    apply Finset.sum_congr rfl; intros; ring
  rw [this, h, dotProduct_sub, dotProduct_sub]; ring

/-- If the masked vectors have the product that the verifier expects, for enough challenges, then the
second vector is the image of the first one and the first one solves the equation. -/
theorem masked_solves {m : Nat} (M : Matrix (Fin m) (Fin m) F) (u y : Fin m → F) (r0 r1 p q : F)
    (s : Fin (m + 1) → F) (hs : Function.Injective s) (b : Fin (m + 1) → Fin 3 → F)
    (hb : ∀ i, Function.Injective (b i))
    (h : ∀ i j, dot (List.zipWith (fun a b => a - b) (List.ofFn u ++ [r0, r1])
        (challengeVector (s i) (b i j) m))
      (List.zipWith (fun a b => a + b) (List.ofFn y ++ [p, q]) (challengeImage M (s i) (b i j))) =
        - quad M (powers (s i) m)) :
    y = M.mulVec u ∧ p = -r1 ∧ q = r0 ∧ quad M u = 0 := by
  set d := y - M.mulVec u with hd
  set c := quad M u + (u ⬝ᵥ d + r0 * p + r1 * q) with hc
  have h1 : ∀ i, c - powers (s i) m ⬝ᵥ d = 0 ∧ ∀ k : Fin 2, (![p + r1, q - r0] : Fin 2 → F) k = 0 := by
    intro i
    apply coeffs_zero (m := 2) _ _ (b i) (hb i)
    intro j
    have := h i j
    rw [masked_product, ← hd] at this
    rw [Fin.sum_univ_two]
    simp only [Fin.val_zero, Fin.val_one, Matrix.cons_val_zero, Matrix.cons_val_one, zero_add, pow_one]
    linear_combination this
  have hp : p + r1 = 0 := (h1 0).2 0
  have hq : q - r0 = 0 := (h1 0).2 1
  obtain ⟨hc0, hd0⟩ := coeffs_zero c d s hs (by
    intro i
    rw [← sub_eq_zero]
    exact (h1 i).1)
  have hd' : d = 0 := funext hd0
  refine ⟨sub_eq_zero.1 hd', eq_neg_of_add_eq_zero_left hp, sub_eq_zero.1 hq, ?_⟩
  rw [hc, hd', dotProduct_zero, eq_neg_of_add_eq_zero_left hp, sub_eq_zero.1 hq] at hc0
  linear_combination hc0

/-! ### C61 -/

/-- Every list of length `m + 2`. -/
theorem exists_ofFn_two {F : Type} {m : Nat} (l : List F) (h : l.length = m + 2) :
    ∃ (u : Fin m → F) (r0 r1 : F), l = List.ofFn u ++ [r0, r1] := by
  refine ⟨fun i => l[i.val]'(by omega), l[m]'(by omega), l[m + 1]'(by omega), ?_⟩
  apply List.ext_getElem
  · simp [h]
  · intro i h1 h2
    simp only [List.length_append, List.length_ofFn, List.length_cons, List.length_nil] at h2
    by_cases hi : i < m
    · rw [List.getElem_append_left (by simpa using hi)]; simp
    · rw [List.getElem_append_right (by simpa using hi)]
      simp only [List.length_ofFn]
      obtain rfl | rfl : i = m ∨ i = m + 1 := by omega
      · simp
      · simp

theorem unscale_relation (β : F) (hβ : β ≠ 0) (Gs Hs : List G) (Q : G) (r : List F × List F × F)
    (h : IsRelation (rescaled β Gs) Hs Q r) : IsRelation Gs Hs Q (unscale β r) := by
  obtain ⟨u, v, e⟩ := r
  obtain ⟨h1, h2, ⟨y, hy, hy0⟩, h4⟩ := h
  cases Gs with
  | nil =>
    have hu : u = [] := by simpa [rescaled] using h1
    subst hu
    exact ⟨rfl, h2, ⟨y, hy, hy0⟩, h4⟩
  | cons g Gs =>
    cases u with
    | nil => simp [rescaled] at h1
    | cons z zs =>
      refine ⟨by simpa [rescaled, unscale] using h1, h2, ?_, ?_⟩
      · simp only [unscale, List.mem_append, List.mem_cons] at hy ⊢
        rcases hy with ((rfl | hy) | hy) | hy
        · exact ⟨y * β⁻¹, .inl (.inl (.inl rfl)), mul_ne_zero hy0 (inv_ne_zero hβ)⟩
        · exact ⟨y, .inl (.inl (.inr hy)), hy0⟩
        · exact ⟨y, .inl (.inr hy), hy0⟩
        · exact ⟨y, .inr hy, hy0⟩
      · simp only [unscale, rescaled, dot_cons, smul_smul] at h4 ⊢
        exact h4

theorem difference_relation [DecidableEq F] (Gs Hs : List G) (Q P : G) (e e' : List F × List F)
    (r : List F × List F × F) (hr : difference e e' = some r)
    (l1 : e.1.length = Gs.length) (l2 : e.2.length = Hs.length) (l1' : e'.1.length = Gs.length)
    (l2' : e'.2.length = Hs.length) (h : dot e.1 Gs + dot e.2 Hs = P)
    (h' : dot e'.1 Gs + dot e'.2 Hs = P) : IsRelation Gs Hs Q r := by
  unfold difference at hr
  split at hr
  · cases hr
  · next hne =>
    cases hr
    refine ⟨by simp [l1, l1'], by simp [l2, l2'], ?_, ?_⟩
    · by_contra hc
      push Not at hc
      apply hne
      have key : ∀ a b : List F, a.length = b.length →
          (∀ y ∈ List.zipWith (fun y z => y - z) a b, y = 0) → a = b := by
        intro a b hl hz
        apply List.ext_getElem hl
        intro i h1 h2
        have := hz ((List.zipWith (fun y z => y - z) a b)[i]'(by simp; omega)) (List.getElem_mem _)
        rw [List.getElem_zipWith] at this
        exact sub_eq_zero.1 this
      refine Prod.ext (key _ _ (by rw [l1, l1']) fun y hy => hc y ?_)
        (key _ _ (by rw [l2, l2']) fun y hy => hc y ?_)
      · exact List.mem_append_left _ (List.mem_append_left _ hy)
      · exact List.mem_append_left _ (List.mem_append_right _ hy)
    · have e1 := dot_comb_left 1 (-1) Gs (s := e.1) (s' := e'.1) (by rw [l1, l1'])
      have e2 := dot_comb_left 1 (-1) Hs (s := e.2) (s' := e'.2) (by rw [l2, l2'])
      simp only [one_mul, neg_mul, ← sub_eq_add_neg, one_smul, neg_smul] at e1 e2
      simp only
      rw [e1, e2, zero_smul, add_zero, ← add_sub_add_comm, h, h', sub_self]

section
variable [DecidableEq G]

/-- In some run, `Zk::verify` met the challenges `x`, `s`, `b`, `beta = β`, `alpha = α` and `x_j = c.xs[j]`
on the proof with the points `C'`, `C''`, `C_r` and the points and answers of `c`, and accepted. -/
def QesaAccepted {m k : Nat} (Gs Hs : List G) (Q : G) (Ms : Fin k → Matrix (Fin m) (Fin m) F)
    (C' C'' : G) (x s b : F) (C_r : G) (β α : F) (c : IpaPath F G) : Prop :=
  ∃ (cx : Ctx G) (tr tr' : Transcript),
    let a : AlmZK F := ⟨cx.compress C_r, ⟨c.Ls.map cx.compress, c.Rs.map cx.compress, c.a, c.b⟩⟩
    let p : Zk.Proof F := ⟨⟨a, cx.compress C', cx.compress C''⟩⟩
    let M := batched (m + 2) Ms x
    let t := - quad M (powers s m)
    let C_w := qesaPoint M Gs Hs C' C'' x s b
    let log := tr.log ++ qesaHead (cx.compress C') (cx.compress C'') (cx.compress C_w)
    let log' := log ++ almHead a.C_r (cx.compress (β • C_w + C_r + (β * β * t) • Q))
    qesaX F cx.ro tr.log (cx.compress C') = x ∧
    qesaS F cx.ro tr.log (cx.compress C') (cx.compress C'') = s ∧
    qesaB F cx.ro tr.log (cx.compress C') (cx.compress C'') = b ∧
    almBeta F cx.ro log a.C_r = β ∧ ipaAlpha F cx.ro log' (m + 2) = α ∧
    ipaChallenges F cx.ro log' (m + 2) a.NoZK.L_vec a.NoZK.R_vec = c.xs ∧
    p.verify cx tr Gs Hs Q ⟨List.ofFn fun i => rows (Ms i)⟩ = .ok (true, tr')

theorem QesaAccepted.alm {m k : Nat} (hm : 0 < m) {Gs Hs : List G} (hG : Gs.length = m + 2)
    (hH : Hs.length = m + 2) {Q : G} {Ms : Fin (k + 1) → Matrix (Fin m) (Fin m) F} {C' C'' : G}
    {x s b : F} {C_r : G} {β α : F} {c : IpaPath F G}
    (h : QesaAccepted Gs Hs Q Ms C' C'' x s b C_r β α c) :
    AlmAccepted (rescaled (x ^ 2) Gs) Hs Q (m + 2) (qesaPoint (batched (m + 2) Ms x) Gs Hs C' C'' x s b)
      (- quad (batched (m + 2) Ms x) (powers s m)) C_r β α c := by
  obtain ⟨cx, tr, tr', h1, h2, h3, h4, h5, h6, h7⟩ := h
  obtain ⟨g0, Gs0, hGs⟩ : ∃ g0 Gs0, Gs = g0 :: Gs0 := by
    cases Gs with
    | nil => simp at hG
    | cons g Gs => exact ⟨g, Gs, rfl⟩
  unfold Zk.Proof.verify at h7
  rw [Inner.verify_eq hm cx _ tr Gs Hs Q Ms C' C'' rfl rfl g0 Gs0 hGs hG hH] at h7
  simp only [h1, h2, h3] at h7
  refine ⟨cx, ⟨_⟩, tr', h4, h5, h6, ?_⟩
  rw [← h7]
  simp only [qesaPoint, hGs, List.headD_cons]

variable [DecidableEq F]

/-- The core of C61: the conversations satisfy the verification equation. -/
theorem qesa_special_soundness_of_accepts {m k q : Nat} (hq : m + 2 = 2 ^ q) (Gs Hs : List G)
    (hG : Gs.length = m + 2) (hH : Hs.length = m + 2) (Q C' C'' : G)
    (Ms : Fin (k + 1) → Matrix (Fin m) (Fin m) F) (x : F) (hx : x ≠ 0)
    (s : Fin (m + 1) → F) (hs : Function.Injective s)
    (b : Fin (m + 1) → Fin 3 → F) (hb : ∀ i, Function.Injective (b i))
    (C_r : Fin (m + 1) → Fin 3 → G)
    (β : Fin (m + 1) → Fin 3 → Fin 3 → F) (hβ : ∀ i j, Function.Injective (β i j))
    (α : Fin (m + 1) → Fin 3 → Fin 3 → Fin 2 → F) (hα : ∀ i j l, α i j l 0 ≠ α i j l 1)
    (hα0 : ∀ i j l e, α i j l e ≠ 0)
    (T : Fin (m + 1) → Fin 3 → Fin 3 → Fin 2 → IpaTree F G q) (hT : ∀ i j l e, (T i j l e).Distinct)
    (h : ∀ i j l e, ∀ c ∈ (T i j l e).paths,
      let C_w := qesaPoint (batched (m + 2) Ms x) Gs Hs C' C'' x (s i) (b i j);
      let t := - quad (batched (m + 2) Ms x) (powers (s i) m);
      c.Accepts (rescaled (x ^ 2) Gs) Hs ((α i j l e)⁻¹ • Q)
        (β i j l • C_w + C_r i j + (β i j l * β i j l * t) • Q -
          ((α i j l e - 1) * (β i j l * β i j l * t)) • ((α i j l e)⁻¹ • Q))) :
    let M := batched (m + 2) Ms x
    match extractQesa M x s b fun i j => extractAlm (- quad M (powers (s i) m)) (β i j) (α i j)
        fun l e => (T i j l e).scalars with
    | .inl (w, v) => ∃ (u : Fin m → F) (r0 r1 : F),
        w = List.ofFn u ++ [r0, r1] ∧ v = List.ofFn (M.mulVec u) ++ [-r1, r0] ∧ quad M u = 0 ∧
        C' + C'' = dot w (rescaled (x ^ 2) Gs) + (1 - (x ^ 2)⁻¹) • Gs.headD 0 + dot v Hs
    | .inr r => IsRelation Gs Hs Q r := by
  intro M
  have hx2 : x ^ 2 ≠ 0 := pow_ne_zero 2 hx
  have hG' : (rescaled (x ^ 2) Gs).length = m + 2 := by
    cases Gs with
    | nil => exact hG
    | cons g Gs => exact hG
  have key : ∀ i j,
      match extractAlm (- quad M (powers (s i) m)) (β i j) (α i j) fun l e => (T i j l e).scalars with
      | .inl (u, v) => u.length = 2 ^ q ∧ v.length = 2 ^ q ∧
          qesaPoint M Gs Hs C' C'' x (s i) (b i j) = dot u (rescaled (x ^ 2) Gs) + dot v Hs ∧
          dot u v = - quad M (powers (s i) m)
      | .inr r => IsRelation (rescaled (x ^ 2) Gs) Hs Q r := by
    intro i j
    exact alm_special_soundness_of_accepts (β i j) (α i j) (T i j) (hT i j) (hβ i j) (hα i j) (hα0 i j) _ Hs
      (hG'.trans hq) (hH.trans hq) Q _ (C_r i j) _ (h i j)
  generalize hE : (fun i j => extractAlm (- quad M (powers (s i) m)) (β i j) (α i j)
    fun l e => (T i j l e).scalars) = E
  have key : ∀ i j, match E i j with
      | .inl (u, v) => u.length = 2 ^ q ∧ v.length = 2 ^ q ∧
          qesaPoint M Gs Hs C' C'' x (s i) (b i j) = dot u (rescaled (x ^ 2) Gs) + dot v Hs ∧
          dot u v = - quad M (powers (s i) m)
      | .inr r => IsRelation (rescaled (x ^ 2) Gs) Hs Q r := by
    intro i j; rw [← hE]; exact key i j
  clear hE
  unfold extractQesa
  cases e1 : (List.finRange (m + 1) ×ˢ List.finRange 3).findSome? (fun i => (E i.1 i.2).getRight?) with
  | some r =>
    obtain ⟨l, i, l', -, hi, -⟩ := List.findSome?_eq_some_iff.1 e1
    have := key i.1 i.2
    rw [Sum.getRight?_eq_some_iff.1 hi] at this
    simp only [e1]
    exact unscale_relation _ hx2 Gs Hs Q r this
  | none =>
    have hl : ∀ i j, ∃ a, E i j = .inl a := by
      intro i j
      have := List.findSome?_eq_none_iff.1 e1 (i, j) (by simp [List.mem_product])
      cases hij : E i j with
      | inl a => exact ⟨a, rfl⟩
      | inr r => rw [hij] at this; cases this
    choose a ha using hl
    simp only [e1]
    have hlen : ∀ i j, (a i j).1.length = m + 2 ∧ (a i j).2.length = m + 2 ∧
        qesaPoint M Gs Hs C' C'' x (s i) (b i j) =
          dot (a i j).1 (rescaled (x ^ 2) Gs) + dot (a i j).2 Hs ∧
        dot (a i j).1 (a i j).2 = - quad M (powers (s i) m) := by
      intro i j
      have := key i j
      rw [ha i j] at this
      rw [hq]; exact this
    set e := fun i j => unmask M (s i) (b i j) ((E i j).getLeft?.getD ([], [])) with he
    have he' : ∀ i j, e i j = unmask M (s i) (b i j) (a i j) := by
      intro i j; simp only [he, ha i j]; rfl
    have hopen : ∀ i j, (e i j).1.length = m + 2 ∧ (e i j).2.length = m + 2 ∧
        dot (e i j).1 (rescaled (x ^ 2) Gs) + dot (e i j).2 Hs =
          C' + C'' - ((x ^ 2 - 1) * (x ^ 2)⁻¹) • Gs.headD 0 := by
      intro i j
      obtain ⟨l1, l2, l3, -⟩ := hlen i j
      rw [he']
      refine ⟨by simp [unmask, l1, challengeVector], by simp [unmask, l2, challengeImage], ?_⟩
      have d1 := dot_comb_left 1 1 (rescaled (x ^ 2) Gs) (s := (a i j).1)
        (s' := challengeVector (s i) (b i j) m) (by simp [l1, challengeVector])
      have d2 := dot_comb_left 1 (-1) Hs (s := (a i j).2)
        (s' := challengeImage M (s i) (b i j)) (by simp [l2, challengeImage])
      simp only [one_mul, neg_mul, ← sub_eq_add_neg, one_smul, neg_smul] at d1 d2
      simp only [unmask, d1, d2]
      rw [qesaPoint] at l3
      rw [show ∀ p q r t : G, p + q + (r - t) = p + r + q - t from fun _ _ _ _ => by abel, ← l3]
      abel
    cases e2 : (List.finRange (m + 1) ×ˢ List.finRange 3).findSome?
        (fun i => difference (e 0 0) (e i.1 i.2)) with
    | some r =>
      obtain ⟨_, i, _, -, hi, -⟩ := List.findSome?_eq_some_iff.1 e2
      obtain ⟨l1, l2, l3⟩ := hopen 0 0
      obtain ⟨k1, k2, k3⟩ := hopen i.1 i.2
      exact unscale_relation _ hx2 Gs Hs Q r (difference_relation _ Hs Q _ _ _ r hi (by rw [l1, hG'])
        (by rw [l2, hH]) (by rw [k1, hG']) (by rw [k2, hH]) l3 k3)
    | none =>
      have heq : ∀ i j, e i j = e 0 0 := by
        intro i j
        have := List.findSome?_eq_none_iff.1 e2 (i, j) (by simp [List.mem_product])
        unfold difference at this
        split at this
        · next hh => exact hh.symm
        · cases this
      obtain ⟨l1, l2, l3⟩ := hopen 0 0
      obtain ⟨u, r0, r1, hw⟩ := exists_ofFn_two _ l1
      obtain ⟨y, p, p', hv⟩ := exists_ofFn_two _ l2
      have hprod : ∀ i j, dot (List.zipWith (fun a b => a - b) (List.ofFn u ++ [r0, r1])
          (challengeVector (s i) (b i j) m))
          (List.zipWith (fun a b => a + b) (List.ofFn y ++ [p, p']) (challengeImage M (s i) (b i j))) =
            - quad M (powers (s i) m) := by
        intro i j
        obtain ⟨k1, k2, -, k4⟩ := hlen i j
        have z1 : List.zipWith (fun a b => a - b) (e i j).1 (challengeVector (s i) (b i j) m) =
            (a i j).1 := by
          rw [he' i j]
          apply List.ext_getElem
          · simp [unmask, challengeVector, k1]
          · intro n h1 h2; simp [unmask]
        have z2 : List.zipWith (fun a b => a + b) (e i j).2 (challengeImage M (s i) (b i j)) =
            (a i j).2 := by
          rw [he' i j]
          apply List.ext_getElem
          · simp [unmask, challengeImage, k2]
          · intro n h1 h2; simp [unmask]
        rw [← hw, ← hv, ← heq i j, z1, z2, k4]
      obtain ⟨hy, hp, hp', hquad⟩ := masked_solves M u y r0 r1 p p' s hs b hb hprod
      rw [hy, hp, hp'] at hv
      refine ⟨u, r0, r1, hw, hv, hquad, ?_⟩
      show C' + C'' = dot (e 0 0).1 (rescaled (x ^ 2) Gs) + (1 - (x ^ 2)⁻¹) • Gs.headD 0 +
        dot (e 0 0).2 Hs
      have hc : (x ^ 2 - 1) * (x ^ 2)⁻¹ = 1 - (x ^ 2)⁻¹ := by
        rw [sub_mul, mul_inv_cancel₀ hx2, one_mul]
      rw [hc] at l3
      rw [add_right_comm, l3, sub_add_cancel]

/-- C61: special soundness of QESA for the batched equation, as a reduction. Fix the commitments `C'`,
`C''` and the challenge `x ≠ 0`. Take `m + 1` values of `s`, for each of them three values of `b`, and for
each of those a tree of conversations of AlmZK as in C25, all of them accepted by the code. From the scalars
the extractor computes `u` and `r₀, r₁` such that `u` solves the equation batched with `x` and `C' + C''` is
the commitment to `(u, r₀, r₁)` on the rescaled generators `G`, plus the constant `(1 - x⁻²) G₀`, plus the
commitment to the image of `(u, r₀, r₁)` on `H`; or else a non-trivial linear relation between the
generators. -/
theorem C61_qesa_special_soundness {m k q : Nat} (hm : 0 < m) (hq : m + 2 = 2 ^ q) (Gs Hs : List G)
    (hG : Gs.length = m + 2) (hH : Hs.length = m + 2) (Q C' C'' : G)
    (Ms : Fin (k + 1) → Matrix (Fin m) (Fin m) F) (x : F) (hx : x ≠ 0)
    (s : Fin (m + 1) → F) (hs : Function.Injective s)
    (b : Fin (m + 1) → Fin 3 → F) (hb : ∀ i, Function.Injective (b i))
    (C_r : Fin (m + 1) → Fin 3 → G)
    (β : Fin (m + 1) → Fin 3 → Fin 3 → F) (hβ : ∀ i j, Function.Injective (β i j))
    (α : Fin (m + 1) → Fin 3 → Fin 3 → Fin 2 → F) (hα : ∀ i j l, α i j l 0 ≠ α i j l 1)
    (hα0 : ∀ i j l e, α i j l e ≠ 0)
    (T : Fin (m + 1) → Fin 3 → Fin 3 → Fin 2 → IpaTree F G q) (hT : ∀ i j l e, (T i j l e).Distinct)
    (h : ∀ i j l e, ∀ c ∈ (T i j l e).paths,
      QesaAccepted Gs Hs Q Ms C' C'' x (s i) (b i j) (C_r i j) (β i j l) (α i j l e) c) :
    let M := batched (m + 2) Ms x
    match extractQesa M x s b fun i j => extractAlm (- quad M (powers (s i) m)) (β i j) (α i j)
        fun l e => (T i j l e).scalars with
    | .inl (w, v) => ∃ (u : Fin m → F) (r0 r1 : F),
        w = List.ofFn u ++ [r0, r1] ∧ v = List.ofFn (M.mulVec u) ++ [-r1, r0] ∧ quad M u = 0 ∧
        C' + C'' = dot w (rescaled (x ^ 2) Gs) + (1 - (x ^ 2)⁻¹) • Gs.headD 0 + dot v Hs
    | .inr r => IsRelation Gs Hs Q r :=
  qesa_special_soundness_of_accepts hq Gs Hs hG hH Q C' C'' Ms x hx s hs b hb C_r β hβ α hα hα0 T hT
    fun i j l e c hc => ((h i j l e c hc).alm hm hG hH).ipa.accepts
      (by have := paths_length (T i j l e) c hc; omega)

/-- C61, with generators for which there is no relation at all: `C' + C''` commits to a solution of the
batched equation. -/
theorem C61_qesa_sound_without_relations {m k q : Nat} (hm : 0 < m) (hq : m + 2 = 2 ^ q) (Gs Hs : List G)
    (hG : Gs.length = m + 2) (hH : Hs.length = m + 2) (Q C' C'' : G)
    (Ms : Fin (k + 1) → Matrix (Fin m) (Fin m) F) (x : F) (hx : x ≠ 0)
    (s : Fin (m + 1) → F) (hs : Function.Injective s)
    (b : Fin (m + 1) → Fin 3 → F) (hb : ∀ i, Function.Injective (b i))
    (C_r : Fin (m + 1) → Fin 3 → G)
    (β : Fin (m + 1) → Fin 3 → Fin 3 → F) (hβ : ∀ i j, Function.Injective (β i j))
    (α : Fin (m + 1) → Fin 3 → Fin 3 → Fin 2 → F) (hα : ∀ i j l, α i j l 0 ≠ α i j l 1)
    (hα0 : ∀ i j l e, α i j l e ≠ 0)
    (T : Fin (m + 1) → Fin 3 → Fin 3 → Fin 2 → IpaTree F G q) (hT : ∀ i j l e, (T i j l e).Distinct)
    (h : ∀ i j l e, ∀ c ∈ (T i j l e).paths,
      QesaAccepted Gs Hs Q Ms C' C'' x (s i) (b i j) (C_r i j) (β i j l) (α i j l e) c)
    (hind : ∀ r : List F × List F × F, ¬ IsRelation Gs Hs Q r) :
    let M := batched (m + 2) Ms x
    ∃ (u : Fin m → F) (r0 r1 : F), quad M u = 0 ∧
      C' + C'' = dot (List.ofFn u ++ [r0, r1]) (rescaled (x ^ 2) Gs) + (1 - (x ^ 2)⁻¹) • Gs.headD 0 +
        dot (List.ofFn (M.mulVec u) ++ [-r1, r0]) Hs := by
  have := C61_qesa_special_soundness hm hq Gs Hs hG hH Q C' C'' Ms x hx s hs b hb C_r β hβ α hα hα0 T hT h
  simp only at this
  split at this
  · obtain ⟨u, r0, r1, rfl, rfl, h1, h2⟩ := this
    exact ⟨u, r0, r1, h1, h2⟩
  · exact absurd this (hind _)

end

/-! ### C62 -/

/-- The vector that the verifier takes for the committed vector `w`: its first component is
`1 + x² (w₀ - 1)`. -/
def shifted {m : Nat} (x : F) (w : Fin (m + 1) → F) : Fin (m + 1) → F :=
  Function.update w 0 (1 + x ^ 2 * (w 0 - 1))

/-- A prover for qesa_zk that commits to a vector `w` whose first component need not be one. As the honest
prover it commits to `w` on the generators `G`, before it sees the challenge `x`, and to the image of a
vector on the generators `H`. The random masks of AlmZK are left out. -/
def shiftedProver [DecidableEq F] {m k : Nat} (cx : Ctx G) (tr : Transcript) (Gs Hs : List G) (Q : G)
    (Ms : Fin k → Matrix (Fin (m + 1)) (Fin (m + 1)) F) (w : Fin (m + 1) → F) (r0 r1 : F) :
    R (Zk.Proof F × Transcript) := do
  let c' := cx.compress (dot (List.ofFn w ++ [r0, r1]) Gs)
  let x := qesaX F cx.ro tr.log c'
  let M := batched (m + 3) Ms x
  let c'' := cx.compress (dot (List.ofFn (M.mulVec (shifted x w)) ++ [-r1, r0]) Hs)
  let s := qesaS F cx.ro tr.log c' c''
  let b := qesaB F cx.ro tr.log c' c''
  let u := maskedWitness (shifted x w) r0 r1 s b
  let v := maskedImage M (shifted x w) r0 r1 s b
  let C_w := dot u (rescaled (x ^ 2) Gs) + dot v Hs
  let log := tr.log ++ qesaHead c' c'' (cx.compress C_w)
  let β := almBeta F cx.ro log (cx.compress 0)
  let P := β • C_w + 0 + (β * β * dot u v) • Q
  let (q, tr) ← Ipa.create cx ⟨log ++ almHead (cx.compress 0) (cx.compress P)⟩ (rescaled (x ^ 2) Gs) Hs
    Q (u.map fun y => y * β) (v.map fun y => y * β)
  return (⟨⟨⟨cx.compress 0, q⟩, c', c''⟩⟩, tr)

theorem shifted_zero {m : Nat} {x : F} (hx : x ≠ 0) (w : Fin (m + 1) → F) :
    shifted x w 0 * (x ^ 2)⁻¹ = w 0 - (x ^ 2 - 1) * (x ^ 2)⁻¹ := by
  simp only [shifted, Function.update_self]
  field_simp
  ring

/-- The point handed to AlmZK, for the commitments of `shiftedProver`. -/
theorem shifted_point {m : Nat} {x s b : F} (hx : x ≠ 0) (M : Matrix (Fin (m + 1)) (Fin (m + 1)) F)
    (Gs Hs : List G) (hG : Gs.length = m + 3) (w : Fin (m + 1) → F) (r0 r1 : F) :
    qesaPoint M Gs Hs (dot (List.ofFn w ++ [r0, r1]) Gs)
        (dot (List.ofFn (M.mulVec (shifted x w)) ++ [-r1, r0]) Hs) x s b =
      dot (maskedWitness (shifted x w) r0 r1 s b) (rescaled (x ^ 2) Gs) +
        dot (maskedImage M (shifted x w) r0 r1 s b) Hs := by
  obtain ⟨g0, Gs0, hGs⟩ : ∃ g0 Gs0, Gs = g0 :: Gs0 := by
    cases Gs with
    | nil => simp at hG
    | cons g Gs => exact ⟨g, Gs, rfl⟩
  have e1 : dot (maskedWitness (shifted x w) r0 r1 s b) (rescaled (x ^ 2) Gs) =
      dot (List.ofFn (shifted x w) ++ [r0, r1]) (rescaled (x ^ 2) Gs) -
        dot (challengeVector s b (m + 1)) (rescaled (x ^ 2) Gs) := by
    have := dot_comb_left 1 (-1) (rescaled (x ^ 2) Gs)
      (s := List.ofFn (shifted x w) ++ [r0, r1]) (s' := challengeVector s b (m + 1))
      (by simp [challengeVector])
    simpa [maskedWitness, ← sub_eq_add_neg] using this
  have e2 : dot (maskedImage M (shifted x w) r0 r1 s b) Hs =
      dot (List.ofFn (M.mulVec (shifted x w)) ++ [-r1, r0]) Hs + dot (challengeImage M s b) Hs := by
    have := dot_comb_left 1 1 Hs (s := List.ofFn (M.mulVec (shifted x w)) ++ [-r1, r0])
      (s' := challengeImage M s b) (by simp [challengeImage])
    simpa [maskedImage] using this
  have e3 : dot (List.ofFn (shifted x w) ++ [r0, r1]) (rescaled (x ^ 2) Gs) =
      dot (List.ofFn w ++ [r0, r1]) Gs - ((x ^ 2 - 1) * (x ^ 2)⁻¹) • g0 := by
    subst hGs
    simp only [List.ofFn_succ, List.cons_append, rescaled, dot_cons, smul_smul]
    have : (fun i : Fin m => shifted x w i.succ) = fun i : Fin m => w i.succ := by
      funext i; simp [shifted, Fin.succ_ne_zero]
    rw [this, add_sub_right_comm, ← sub_smul, shifted_zero hx w]
  unfold qesaPoint
  rw [e1, e2, e3, hGs, List.headD_cons]
  abel

/-- AlmZK without masks. -/
theorem alm_unmasked_accepted [DecidableEq G] {q : Nat} (h64 : q < 64) (cx : Ctx G) (log : List Event)
    (Gs Hs : List G) (Q : G) (u v : List F) (hG : Gs.length = 2 ^ q) (hH : Hs.length = 2 ^ q)
    (hu : u.length = 2 ^ q) (hv : v.length = 2 ^ q) :
    let C_w := dot u Gs + dot v Hs
    let β := almBeta F cx.ro log (cx.compress 0)
    let P := β • C_w + 0 + (β * β * dot u v) • Q
    ∃ p tr', Ipa.create cx ⟨log ++ almHead (cx.compress 0) (cx.compress P)⟩ Gs Hs Q (u.map fun y => y * β)
        (v.map fun y => y * β) = .ok (p, tr') ∧
      (almAlpha cx log Q C_w 0 (dot u v) (2 ^ q) ≠ 0 →
        (⟨cx.compress 0, p⟩ : AlmZK F).verify cx ⟨log⟩ Gs Hs Q (2 ^ q) C_w (dot u v) =
          .ok (true, tr')) := by
  intro C_w β P
  obtain ⟨r, hr⟩ := (C17_ipa_create_returns_iff cx ⟨log ++ almHead (cx.compress 0) (cx.compress P)⟩
    Gs Hs Q (u.map fun y => y * β) (v.map fun y => y * β)).2
    ⟨q, by simp [hu], by simp [hv], hG, hH⟩
  obtain ⟨p, tr'⟩ := r
  refine ⟨p, tr', hr, fun hα => ?_⟩
  rw [alm_verify_eq cx _ _ _ _ _ _ _ _ (0 : G) rfl]
  have h16 := C16_ipa_completeness cx _ tr' _ Hs Q _ _ p hr
    (by rw [hG]; exact Nat.pow_lt_pow_right (by decide) h64) (by rw [hG]; exact hα)
  have e2 : dot (u.map fun y => y * β) (v.map fun y => y * β) = β * β * dot u v := by
    rw [dot_map_mul_left, dot_comm u, dot_map_mul_left, dot_comm v]
    simp only [smul_eq_mul, mul_assoc]
  rw [dot_map_mul_left, dot_map_mul_left, e2, hG, ← smul_add] at h16
  simp only [P, add_zero] at h16
  simp only [add_zero]
  exact h16

/-- C62, finding: the verifier does not pin the first component to one. If the vector with first component
`1 + x² (w₀ - 1)` solves the batched equation, the proof for `w` is accepted (unless the challenge `alpha`
is zero). -/
theorem C62_shifted_accepted [DecidableEq F] [DecidableEq G] {m k q : Nat} (hq : m + 3 = 2 ^ q)
    (h64 : q < 64) (cx : Ctx G) (tr : Transcript) (Gs Hs : List G) (Q : G) (hG : Gs.length = m + 3)
    (hH : Hs.length = m + 3) (Ms : Fin (k + 1) → Matrix (Fin (m + 1)) (Fin (m + 1)) F)
    (w : Fin (m + 1) → F) (r0 r1 : F) :
    ∃ p tr', shiftedProver cx tr Gs Hs Q Ms w r0 r1 = .ok (p, tr') ∧
      p.inner.c_prime_w = cx.compress (dot (List.ofFn w ++ [r0, r1]) Gs) ∧
      (∃ v : List F, v.length = Hs.length ∧ p.inner.c_prime_prime_w = cx.compress (dot v Hs)) ∧
      let x := qesaX F cx.ro tr.log p.inner.c_prime_w
      let s := qesaS F cx.ro tr.log p.inner.c_prime_w p.inner.c_prime_prime_w
      let b := qesaB F cx.ro tr.log p.inner.c_prime_w p.inner.c_prime_prime_w
      let M := batched (m + 3) Ms x
      let u := maskedWitness (shifted x w) r0 r1 s b
      let v := maskedImage M (shifted x w) r0 r1 s b
      let C_w := dot u (rescaled (x ^ 2) Gs) + dot v Hs
      (x ≠ 0 → quad M (shifted x w) = 0 →
        almAlpha cx (tr.log ++ qesaHead p.inner.c_prime_w p.inner.c_prime_prime_w (cx.compress C_w)) Q
          C_w 0 (dot u v) (m + 3) ≠ 0 →
        p.verify cx tr Gs Hs Q ⟨List.ofFn fun i => rows (Ms i)⟩ = .ok (true, tr')) := by
  obtain ⟨g0, Gs0, hGs⟩ : ∃ g0 Gs0, Gs = g0 :: Gs0 := by
    cases Gs with
    | nil => simp at hG
    | cons g Gs => exact ⟨g, Gs, rfl⟩
  unfold shiftedProver
  simp only
  set c' := cx.compress (dot (List.ofFn w ++ [r0, r1]) Gs) with hc'
  set x := qesaX F cx.ro tr.log c'
  set M := batched (m + 3) Ms x with hM
  set c'' := cx.compress (dot (List.ofFn (M.mulVec (shifted x w)) ++ [-r1, r0]) Hs) with hc''
  set s := qesaS F cx.ro tr.log c' c''
  set b := qesaB F cx.ro tr.log c' c''
  set u := maskedWitness (shifted x w) r0 r1 s b with hu
  set v := maskedImage M (shifted x w) r0 r1 s b with hv
  set C_w := dot u (rescaled (x ^ 2) Gs) + dot v Hs with hC
  set log := tr.log ++ qesaHead c' c'' (cx.compress C_w)
  have lu : u.length = 2 ^ q := by simp [hu, maskedWitness, challengeVector, ← hq]
  have lv : v.length = 2 ^ q := by simp [hv, maskedImage, challengeImage, ← hq]
  have lG : (rescaled (x ^ 2) Gs).length = 2 ^ q := by rw [← hq, ← hG, hGs]; rfl
  obtain ⟨p0, tr', h1, h2⟩ := alm_unmasked_accepted h64 cx log (rescaled (x ^ 2) Gs) Hs Q u v lG
    (by rw [hH, hq]) lu lv
  refine ⟨_, tr', by rw [h1, ok_bind]; rfl, rfl,
    ⟨List.ofFn (M.mulVec (shifted x w)) ++ [-r1, r0], by simp [hH], rfl⟩, ?_⟩
  intro hx hquad hα
  unfold Zk.Proof.verify
  rw [Inner.verify_eq (by omega) cx _ tr Gs Hs Q Ms _ _ rfl rfl g0 Gs0 hGs hG hH]
  have hx2 : x ^ 2 ≠ 0 := pow_ne_zero 2 hx
  have hCw := shifted_point (b := b) (s := s) hx M Gs Hs hG w r0 r1
  simp only [qesaPoint, hGs, List.headD_cons] at hCw
  rw [← hGs, ← hu, ← hv, ← hC] at hCw
  have hprod : dot u v = - quad M (powers s (m + 1)) := by
    rw [hu, hv, Inner.product_eq, hquad, zero_sub]
  have key := h2 (by rw [← hq]; exact hα)
  rw [hprod, ← hq] at key
  simp only [log] at key
  rw [← hC, ← hCw] at key
  exact key

/-- The system `y = 1`, `0 = 0`, `y = 0` in the unknown `y = w₁` (with `w₀` in the place of one). -/
def contradiction (F : Type) [Field F] (m : Nat) : Fin 3 → Matrix (Fin (m + 2)) (Fin (m + 2)) F :=
  ![Matrix.of fun i j => if i = 1 ∧ j = 0 then 1 else if i = 0 ∧ j = 0 then -1 else 0, 0,
    Matrix.of fun i j => if i = 1 ∧ j = 0 then 1 else 0]

theorem quad_contradiction {m : Nat} (v : Fin (m + 2) → F) :
    quad (contradiction F m 0) v = v 1 * v 0 - v 0 * v 0 ∧ quad (contradiction F m 1) v = 0 ∧
      quad (contradiction F m 2) v = v 1 * v 0 := by
  have h2 : ∀ c d : F, quad (Matrix.of fun i j : Fin (m + 2) => if i = 1 ∧ j = 0 then c
      else if i = 0 ∧ j = 0 then d else 0) v = c * (v 1 * v 0) + d * (v 0 * v 0) := by
    intro c d
    unfold quad
    have : ∀ i : Fin (m + 2), (∑ j, v i * (Matrix.of fun i j : Fin (m + 2) => if i = 1 ∧ j = 0 then c
      else if i = 0 ∧ j = 0 then d else 0) i j * v j) =
        if i = 1 then c * (v 1 * v 0) else if i = 0 then d * (v 0 * v 0) else 0 := by
      intro i
      rw [Finset.sum_eq_single 0]
      · by_cases h1 : i = 1
        · subst h1; simp; ring
        · by_cases h0 : i = 0
          · subst h0; simp; ring
          · simp [h0, h1]
      · intro j _ hj; simp [hj]
      · simp
    simp only [this]
    rw [Fin.sum_univ_succ, Fin.sum_univ_succ]
    have h3 : ∀ i : Fin m, (i.succ.succ : Fin (m + 2)) ≠ 1 := by
      intro i h
      have := congrArg Fin.val h
      simp at this
    have h4 : (Fin.succ 0 : Fin (m + 2)) = 1 := rfl
    simp [h3, h4, Fin.succ_ne_zero]
    ring
  refine ⟨?_, by simp [contradiction, quad], ?_⟩
  · have := h2 1 (-1)
    simp only [contradiction, Matrix.cons_val_zero]
    rw [this]; ring
  · have := h2 1 0
    simp only [contradiction, Matrix.cons_val]
    simp only [one_mul, zero_mul, add_zero, ite_self] at this
    exact this

/-- C62: the system has no solution. -/
theorem C62_contradiction {m : Nat} (w : Fin (m + 2) → F) (h0 : w 0 = 1) :
    ¬ ∀ i, quad (contradiction F m i) w = 0 := by
  intro h
  obtain ⟨h1, -, h3⟩ := quad_contradiction w
  rw [h 0] at h1
  rw [h 2] at h3
  rw [← h3, h0] at h1
  simp at h1

/-- C62, finding: `Zk::verify` accepts a proof of the system `y = 1`, `0 = 0`, `y = 0` from a prover who
commits as the honest prover does: to `(2, 1, 0, …)` on the generators `G` before the challenge `x` is known
and to some vector on the generators `H` (unless one of the challenges `x` and `alpha` is zero). The reason is
that the same challenge `x` is used for the batching and, squared, for the first component. -/
theorem C62_false_statement [DecidableEq F] [DecidableEq G] {m q : Nat} (hq : m + 4 = 2 ^ q)
    (h64 : q < 64) (cx : Ctx G) (tr : Transcript) (Gs Hs : List G) (Q : G) (hG : Gs.length = m + 4)
    (hH : Hs.length = m + 4) (r0 r1 : F) :
    let w : Fin (m + 2) → F := Function.update (Function.update 0 1 1) 0 2
    ∃ p tr', shiftedProver cx tr Gs Hs Q (contradiction F m) w r0 r1 = .ok (p, tr') ∧
      p.inner.c_prime_w = cx.compress (dot (List.ofFn w ++ [r0, r1]) Gs) ∧
      (∃ v : List F, v.length = Hs.length ∧ p.inner.c_prime_prime_w = cx.compress (dot v Hs)) ∧
      let x := qesaX F cx.ro tr.log p.inner.c_prime_w
      let s := qesaS F cx.ro tr.log p.inner.c_prime_w p.inner.c_prime_prime_w
      let b := qesaB F cx.ro tr.log p.inner.c_prime_w p.inner.c_prime_prime_w
      let u := maskedWitness (shifted x w) r0 r1 s b
      let v := maskedImage (batched (m + 4) (contradiction F m) x) (shifted x w) r0 r1 s b
      let C_w := dot u (rescaled (x ^ 2) Gs) + dot v Hs
      (x ≠ 0 →
        almAlpha cx (tr.log ++ qesaHead p.inner.c_prime_w p.inner.c_prime_prime_w (cx.compress C_w)) Q
          C_w 0 (dot u v) (m + 4) ≠ 0 →
        p.verify cx tr Gs Hs Q ⟨List.ofFn fun i => rows (contradiction F m i)⟩ = .ok (true, tr')) := by
  intro w
  obtain ⟨p, tr', h1, h2, h3, h4⟩ := C62_shifted_accepted hq h64 cx tr Gs Hs Q hG hH (contradiction F m) w
    r0 r1
  refine ⟨p, tr', h1, h2, h3, fun hx hα => h4 hx ?_ hα⟩
  generalize qesaX F cx.ro tr.log p.inner.c_prime_w = x
  rw [C27_batched_quad, Fin.sum_univ_three]
  obtain ⟨q0, q1, q2⟩ := quad_contradiction (shifted x w)
  have e0 : shifted x w 0 = 1 + x ^ 2 := by
    simp only [shifted, w, Function.update_self]; ring
  have e1 : shifted x w 1 = 1 := by
    have : (1 : Fin (m + 2)) ≠ 0 := by simp
    simp [shifted, w, this]
  rw [q0, q1, q2, e0, e1, if_pos (by simp), if_pos (by simp), if_pos (by simp)]
  simp only [Fin.val_zero, Fin.val_one, Fin.val_two]
  ring


/-! ### C63 -/

/-- A tree of accepted conversations as in C61, for one value of the challenge `x`. -/
def QesaTrees [DecidableEq F] [DecidableEq G] {m k : Nat} (q : Nat) (Gs Hs : List G) (Q : G)
    (Ms : Fin k → Matrix (Fin m) (Fin m) F) (C' C'' : G) (x : F) : Prop :=
  ∃ (s : Fin (m + 1) → F) (b : Fin (m + 1) → Fin 3 → F) (C_r : Fin (m + 1) → Fin 3 → G)
    (β : Fin (m + 1) → Fin 3 → Fin 3 → F) (α : Fin (m + 1) → Fin 3 → Fin 3 → Fin 2 → F)
    (T : Fin (m + 1) → Fin 3 → Fin 3 → Fin 2 → IpaTree F G q),
    Function.Injective s ∧ (∀ i, Function.Injective (b i)) ∧ (∀ i j, Function.Injective (β i j)) ∧
    (∀ i j l, α i j l 0 ≠ α i j l 1) ∧ (∀ i j l e, α i j l e ≠ 0) ∧ (∀ i j l e, (T i j l e).Distinct) ∧
    ∀ i j l e, ∀ c ∈ (T i j l e).paths,
      QesaAccepted Gs Hs Q Ms C' C'' x (s i) (b i j) (C_r i j) (β i j l) (α i j l e) c

/-- Openings are unique if there are no relations. -/
theorem unique_opening [DecidableEq F] (Gs Hs : List G) (Q : G)
    (hind : ∀ r : List F × List F × F, ¬ IsRelation Gs Hs Q r) (u u' v v' : List F)
    (l1 : u.length = Gs.length) (l2 : v.length = Hs.length) (l1' : u'.length = Gs.length)
    (l2' : v'.length = Hs.length) (h : dot u Gs + dot v Hs = dot u' Gs + dot v' Hs) :
    u = u' ∧ v = v' := by
  cases hd : difference (u, v) (u', v') with
  | none =>
    unfold difference at hd
    split at hd
    · next h => simpa using h
    · cases hd
  | some r => exact absurd (difference_relation Gs Hs Q _ _ _ r hd l1 l2 l1' l2' h rfl) (hind r)

/-- C63: exactly what is proved about the committed vector. Suppose that the generators have no relation,
that `C'` commits to `(w, r₀, r₁)` on the generators `G` and that `C''` is a combination of the generators
`H`, as with the honest prover. If the conversations of C61 are accepted for one value of `x ≠ 0`, the vector
that differs from `w` in the first component, `1 + x² (w₀ - 1)`, solves the equation batched with `x`. (C62
is the converse.) -/
theorem C63_qesa_shifted [DecidableEq F] [DecidableEq G] {m k q : Nat} (hq : m + 3 = 2 ^ q)
    (Gs Hs : List G) (hG : Gs.length = m + 3) (hH : Hs.length = m + 3) (Q C' C'' : G)
    (hind : ∀ r : List F × List F × F, ¬ IsRelation Gs Hs Q r)
    (Ms : Fin (k + 1) → Matrix (Fin (m + 1)) (Fin (m + 1)) F) (x : F) (hx : x ≠ 0)
    (h : QesaTrees q Gs Hs Q Ms C' C'' x) (w : Fin (m + 1) → F) (r0 r1 : F)
    (hC' : C' = dot (List.ofFn w ++ [r0, r1]) Gs)
    (hC'' : ∃ v : List F, v.length = Hs.length ∧ C'' = dot v Hs) :
    quad (batched (m + 3) Ms x) (shifted x w) = 0 := by
  obtain ⟨s, b, C_r, β, α, T, hs, hb, hβ, hα, hα0, hT, h⟩ := h
  obtain ⟨v, lv, hC''⟩ := hC''
  obtain ⟨u, p0, p1, hquad, hC⟩ := C61_qesa_sound_without_relations (by omega) hq Gs Hs hG hH Q C' C'' Ms x hx
    s hs b hb C_r β hβ α hα hα0 T hT h hind
  have hx2 : x ^ 2 ≠ 0 := pow_ne_zero 2 hx
  have hu : u = shifted x w := by
    cases Gs with
    | nil => simp at hG
    | cons g Gs =>
      have e : dot (List.ofFn u ++ [p0, p1]) (rescaled (x ^ 2) (g :: Gs)) + (1 - (x ^ 2)⁻¹) • g =
          dot ((u 0 * (x ^ 2)⁻¹ + (1 - (x ^ 2)⁻¹)) :: (List.ofFn (fun i : Fin m => u i.succ) ++ [p0, p1]))
            (g :: Gs) := by
        simp only [List.ofFn_succ, List.cons_append, rescaled, dot_cons, smul_smul, add_smul]
        abel
      rw [List.headD_cons, e, hC', hC''] at hC
      obtain ⟨h1, -⟩ := unique_opening (g :: Gs) Hs Q hind _ _ _ _ (by simp [hG]) lv
        (by simp [← hG]) (by simp [hH]) hC
      simp only [List.ofFn_succ, List.cons_append, List.cons.injEq] at h1
      obtain ⟨h0, h1⟩ := h1
      have h2 := List.ofFn_injective (List.append_inj_left h1 (by simp))
      funext i
      refine Fin.cases ?_ (fun i => ?_) i
      · simp only [shifted, Function.update_self, h0]
        field_simp
        ring
      · simp only [shifted, ne_eq, Fin.succ_ne_zero, not_false_eq_true, Function.update_of_ne]
        exact (congrFun h2 i).symm
  rw [← hu]
  exact hquad

/-- C63: soundness of QESA for a prover who commits as the honest prover does, with first component one. If
conversations as in C61 are accepted for as many values of `x ≠ 0` as there are equations (with `C'` fixed
before), the committed vector solves all equations (of the first `m + 3`; the others are ignored, cf.
C09). -/
theorem C63_qesa_sound [DecidableEq F] [DecidableEq G] {m k q : Nat} (hq : m + 3 = 2 ^ q)
    (Gs Hs : List G) (hG : Gs.length = m + 3) (hH : Hs.length = m + 3) (Q : G)
    (hind : ∀ r : List F × List F × F, ¬ IsRelation Gs Hs Q r)
    (Ms : Fin (k + 1) → Matrix (Fin (m + 1)) (Fin (m + 1)) F) (w : Fin (m + 1) → F) (h0 : w 0 = 1)
    (r0 r1 : F) (x : Fin (k + 1) → F) (hx : Function.Injective x) (hx0 : ∀ i, x i ≠ 0)
    (v : Fin (k + 1) → List F) (hv : ∀ i, (v i).length = Hs.length)
    (h : ∀ i, QesaTrees q Gs Hs Q Ms (dot (List.ofFn w ++ [r0, r1]) Gs) (dot (v i) Hs) (x i)) :
    ∀ i, i.val < m + 3 → quad (Ms i) w = 0 := by
  intro i hi
  by_contra hne
  obtain ⟨hfin, hcard⟩ := C27_violated (m + 3) Ms w i hi hne
  have hsub : insert 0 (Set.range x) ⊆ {x | quad (batched (m + 3) Ms x) w = 0} := by
    intro y hy
    rcases hy with rfl | ⟨j, rfl⟩
    · rw [Set.mem_ofPred_eq, C27_batched_quad]
      apply Finset.sum_eq_zero
      intro j _
      simp
    · have := C63_qesa_shifted hq Gs Hs hG hH Q _ _ hind Ms (x j) (hx0 j) (h j) w r0 r1 rfl ⟨v j, hv j, rfl⟩
      have e : shifted (x j) w = w := by
        funext l
        unfold shifted
        rw [h0, sub_self, mul_zero, add_zero, ← h0, Function.update_eq_self]
      rw [e] at this
      exact this
  have h1 := Set.ncard_le_ncard hsub hfin
  rw [Set.ncard_insert_of_notMem (by rintro ⟨j, hj⟩; exact hx0 j hj) (Set.finite_range x),
    Set.ncard_range_of_injective hx] at h1
  simp at h1
  omega

section
open Toy

/-- C62: the proof of the contradictory system from the commitment to `(2, 1)` is accepted. -/
example : (match shiftedProver cx ⟨[]⟩ [3, 5, 8, 13] [21, 34, 55, 89] (7 : K)
      (contradiction K 0) ![2, 1] 3 4 with
    | .ok (p, _) => (p.verify cx ⟨[]⟩ [3, 5, 8, 13] [21, 34, 55, 89] (7 : K)
        ⟨List.ofFn fun i => rows (contradiction K 0 i)⟩).map Prod.fst = .ok true
    | .error _ => false) = true := by
  decide +kernel
end

end Qesa.Props
