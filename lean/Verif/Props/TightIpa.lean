import Mathlib.Algebra.Polynomial.Roots
import Mathlib.LinearAlgebra.Prod
import Mathlib.LinearAlgebra.Finsupp.LinearCombination
import Mathlib.Tactic.ComputeDegree
import Verif.Props.Tight
/-
C99: the largest number of challenges for which a prover of a false claim is accepted by the inner-product argument.
-/
namespace Qesa.Props
open Qesa Spec Ipa
variable {F G : Type} [Field F] [AddCommGroup G] [Module F G]

/-! ### Polynomials with many zeros -/

theorem cubic_zero (x : Fin 4 → F) (hx : Function.Injective x) (c0 c1 c2 c3 : F)
    (h : ∀ i, c0 + c1 * x i + c2 * (x i * x i) + c3 * (x i * x i * x i) = 0) :
    c0 = 0 ∧ c1 = 0 ∧ c2 = 0 ∧ c3 = 0 := by
  classical
  open Polynomial in
  have hp : (C c0 + C c1 * X + C c2 * X ^ 2 + C c3 * X ^ 3 : F[X]) = 0 := by
    refine Polynomial.eq_zero_of_natDegree_lt_card_of_eval_eq_zero _ hx (fun i => ?_) ?_
    · simp only [eval_add, eval_mul, eval_C, eval_X, eval_pow]
      linear_combination h i
    · rw [Fintype.card_fin]
      refine Nat.lt_of_le_of_lt (m := 3) ?_ (by decide)
      compute_degree
  have e : ∀ k, (Polynomial.C c0 + Polynomial.C c1 * Polynomial.X + Polynomial.C c2 * Polynomial.X ^ 2 +
      Polynomial.C c3 * Polynomial.X ^ 3 : Polynomial F).coeff k = 0 := by rw [hp]; simp
  have e0 := e 0
  have e1 := e 1
  have e2 := e 2
  have e3 := e 3
  simp [Polynomial.coeff_X, Polynomial.coeff_C, Polynomial.coeff_X_pow] at e0 e1 e2 e3
  exact ⟨e0, e1, e2, e3⟩

/-- A quadratic polynomial over a module that is in a submodule three times. -/
theorem quadratic_mem (W : Submodule F G) {x y z : F} (hxy : x ≠ y) (hxz : x ≠ z) (hyz : y ≠ z) (L P R : G)
    (hx : (x * x) • L + x • P + R ∈ W) (hy : (y * y) • L + y • P + R ∈ W) (hz : (z * z) • L + z • P + R ∈ W) :
    L ∈ W ∧ P ∈ W ∧ R ∈ W := by
  have step : ∀ {y : F}, x ≠ y → (y * y) • L + y • P + R ∈ W → (x + y) • L + P ∈ W := by
    intro y hne h
    have h1 := W.smul_mem (x - y)⁻¹ (W.sub_mem hx h)
    have h2 : (x - y)⁻¹ * (x - y) = 1 := inv_mul_cancel₀ (sub_ne_zero.2 hne)
    have e : (x - y)⁻¹ • ((x * x) • L + x • P + R - ((y * y) • L + y • P + R)) =
        ((x - y)⁻¹ * (x - y)) • ((x + y) • L + P) := by module
    rwa [e, h2, one_smul] at h1
  have h1 := step hxy hy
  have h2 := step hxz hz
  have hL : L ∈ W := by
    have h3 := W.smul_mem (y - z)⁻¹ (W.sub_mem h1 h2)
    have e : (y - z)⁻¹ • ((x + y) • L + P - ((x + z) • L + P)) = ((y - z)⁻¹ * (y - z)) • L := by module
    rwa [e, inv_mul_cancel₀ (sub_ne_zero.2 hyz), one_smul] at h3
  have hP : P ∈ W := by
    have := W.sub_mem h1 (W.smul_mem (x + y) hL)
    rwa [add_sub_cancel_left] at this
  refine ⟨hL, hP, ?_⟩
  have := W.sub_mem hx (W.add_mem (W.smul_mem (x * x) hL) (W.smul_mem x hP))
  rwa [add_sub_cancel_left] at this

/-! ### One round -/

/-- The coefficients of a point: of the two halves of `G`, of the two halves of `H`, and of `Q`. -/
abbrev Coeff (F : Type) (n : Nat) := (Fin n → F) × (Fin n → F) × (Fin n → F) × (Fin n → F) × F

/-- Coefficients of a point over the folded generators. -/
def folded {n : Nat} (x : F) (u v : Fin n → F) (w : F) : Coeff F n := (u, x • u, x • v, v, w)

/-- If the folded point is over the folded generators for four challenges, then `L` and `R` are, up to multiples of
`Q`, what an honest prover sends. -/
theorem round_honest {n : Nat} (Φ : Coeff F n →ₗ[F] G) (hinj : Function.Injective Φ) (al ar bl br : Fin n → F) (c : F)
    (L R : G) (x : Fin 4 → F) (hx : Function.Injective x)
    (h : ∀ i, ∃ u v w, (x i * x i) • L + x i • Φ (al, ar, bl, br, c) + R = Φ (folded (x i) u v w)) :
    ∃ lc rc, ∀ y : F, (y * y) • L + y • Φ (al, ar, bl, br, c) + R =
      Φ (folded y (y • al + ar) (bl + y • br) (y * y * lc + y * c + rc)) := by
  have hne : ∀ i j : Fin 4, i ≠ j → x i ≠ x j := fun i j hij e => hij (hx e)
  have hmem : ∀ i, (x i * x i) • L + x i • Φ (al, ar, bl, br, c) + R ∈ LinearMap.range Φ := by
    intro i
    obtain ⟨u, v, w, e⟩ := h i
    exact ⟨_, e.symm⟩
  obtain ⟨⟨⟨ll, lr, ml, mr, lc⟩, rfl⟩, -, ⟨⟨rl, rr, sl, sr, rc⟩, rfl⟩⟩ := quadratic_mem (LinearMap.range Φ)
    (hne 0 1 (by decide)) (hne 0 2 (by decide)) (hne 1 2 (by decide)) _ _ _ (hmem 0) (hmem 1) (hmem 2)
  have hc : ∀ i, ∃ u v : Fin n → F, ∃ w : F, (x i * x i) • ll + x i • al + rl = u ∧
      (x i * x i) • lr + x i • ar + rr = x i • u ∧ (x i * x i) • ml + x i • bl + sl = x i • v ∧
      (x i * x i) • mr + x i • br + sr = v := by
    intro i
    obtain ⟨u, v, w, e⟩ := h i
    rw [← map_smul, ← map_smul, ← map_add, ← map_add] at e
    have := hinj e
    simp only [folded, Prod.smul_mk, Prod.mk_add_mk, Prod.mk.injEq] at this
    exact ⟨u, v, w, this.1, this.2.1, this.2.2.1, this.2.2.2.1⟩
  have kG : ∀ j, -rr j = 0 ∧ rl j - ar j = 0 ∧ al j - lr j = 0 ∧ ll j = 0 := fun j =>
    cubic_zero x hx _ _ _ _ fun i => by
      obtain ⟨u, v, w, e1, e2, -, -⟩ := hc i
      have f1 := congrFun e1 j
      have f2 := congrFun e2 j
      simp only [Pi.add_apply, Pi.smul_apply, smul_eq_mul] at f1 f2
      linear_combination x i * f1 - f2
  have kH : ∀ j, -sl j = 0 ∧ sr j - bl j = 0 ∧ br j - ml j = 0 ∧ mr j = 0 := fun j =>
    cubic_zero x hx _ _ _ _ fun i => by
      obtain ⟨u, v, w, -, -, e1, e2⟩ := hc i
      have f1 := congrFun e1 j
      have f2 := congrFun e2 j
      simp only [Pi.add_apply, Pi.smul_apply, smul_eq_mul] at f1 f2
      linear_combination x i * f2 - f1
  refine ⟨lc, rc, fun y => ?_⟩
  rw [← map_smul, ← map_smul, ← map_add, ← map_add]
  congr 1
  simp only [folded, Prod.smul_mk, Prod.mk_add_mk, Prod.mk.injEq, smul_eq_mul]
  refine ⟨?_, ?_, ?_, ?_, trivial⟩
  · funext j
    obtain ⟨k1, k2, k3, k4⟩ := kG j
    simp only [Pi.add_apply, Pi.smul_apply, smul_eq_mul]
    linear_combination k2 + y * y * k4
  · funext j
    obtain ⟨k1, k2, k3, k4⟩ := kG j
    simp only [Pi.add_apply, Pi.smul_apply, smul_eq_mul]
    linear_combination -k1 - y * y * k3
  · funext j
    obtain ⟨k1, k2, k3, k4⟩ := kH j
    simp only [Pi.add_apply, Pi.smul_apply, smul_eq_mul]
    linear_combination -k1 - y * y * k3
  · funext j
    obtain ⟨k1, k2, k3, k4⟩ := kH j
    simp only [Pi.add_apply, Pi.smul_apply, smul_eq_mul]
    linear_combination k2 + y * y * k4

/-! ### Generators -/

/-- The point with the coefficients `u`, `v`, `w` with respect to the first `m` generators of `Gs` and `Hs`, and
`Q`. -/
def genMap (m : Nat) (Gs Hs : List G) (Q : G) : ((Fin m → F) × (Fin m → F) × F) →ₗ[F] G :=
  (Fintype.linearCombination F fun j : Fin m => Gs.getD j 0).coprod
    ((Fintype.linearCombination F fun j : Fin m => Hs.getD j 0).coprod (LinearMap.toSpanSingleton F G Q))

theorem genMap_apply (m : Nat) (Gs Hs : List G) (Q : G) (u v : Fin m → F) (w : F) :
    genMap m Gs Hs Q (u, v, w) = ∑ j, u j • Gs.getD j 0 + (∑ j, v j • Hs.getD j 0 + w • Q) := rfl

/-- The same with the two halves of the coefficients. -/
def halfMap (n : Nat) (Gs Hs : List G) (Q : G) : Coeff F n →ₗ[F] G :=
  (Fintype.linearCombination F fun j : Fin n => Gs.getD j 0).coprod
    ((Fintype.linearCombination F fun j : Fin n => Gs.getD (n + j) 0).coprod
      ((Fintype.linearCombination F fun j : Fin n => Hs.getD j 0).coprod
        ((Fintype.linearCombination F fun j : Fin n => Hs.getD (n + j) 0).coprod (LinearMap.toSpanSingleton F G Q))))

theorem halfMap_apply (n : Nat) (Gs Hs : List G) (Q : G) (ul ur vl vr : Fin n → F) (w : F) :
    halfMap n Gs Hs Q (ul, ur, vl, vr, w) = ∑ j, ul j • Gs.getD j 0 + (∑ j, ur j • Gs.getD (n + j) 0 +
      (∑ j, vl j • Hs.getD j 0 + (∑ j, vr j • Hs.getD (n + j) 0 + w • Q))) := rfl

theorem genMap_append (n : Nat) (Gs Hs : List G) (Q : G) (ul ur vl vr : Fin n → F) (w : F) :
    genMap (n + n) Gs Hs Q (Fin.append ul ur, Fin.append vl vr, w) = halfMap n Gs Hs Q (ul, ur, vl, vr, w) := by
  rw [genMap_apply, halfMap_apply, Fin.sum_univ_add, Fin.sum_univ_add]
  simp only [Fin.append_left, Fin.append_right, Fin.val_castAdd, Fin.val_natAdd]
  abel

omit [Field F] in
theorem exists_append {n : Nat} (u : Fin (n + n) → F) : ∃ ul ur : Fin n → F, u = Fin.append ul ur :=
  ⟨_, _, (Fin.append_castAdd_natAdd).symm⟩

theorem foldG_getD {n : Nat} (x : F) (Gs : List G) (hG : Gs.length = n + n) (j : Fin n) :
    (foldG x Gs).getD j 0 = Gs.getD j 0 + x • Gs.getD (n + j) 0 := by
  have hj := j.isLt
  unfold foldG
  rw [show Gs.length / 2 = n by omega]
  simp only [List.getD_eq_getElem?_getD]
  rw [List.getElem?_eq_getElem (by simp; omega), List.getElem?_eq_getElem (by omega),
    List.getElem?_eq_getElem (by omega)]
  simp

theorem foldH_getD {n : Nat} (x : F) (Hs : List G) (hH : Hs.length = n + n) (j : Fin n) :
    (foldH x Hs).getD j 0 = x • Hs.getD j 0 + Hs.getD (n + j) 0 := by
  have hj := j.isLt
  unfold foldH
  rw [show Hs.length / 2 = n by omega]
  simp only [List.getD_eq_getElem?_getD]
  rw [List.getElem?_eq_getElem (by simp; omega), List.getElem?_eq_getElem (by omega),
    List.getElem?_eq_getElem (by omega)]
  simp

theorem genMap_fold {n : Nat} (x : F) (Gs Hs : List G) (hG : Gs.length = n + n) (hH : Hs.length = n + n) (Q : G)
    (u v : Fin n → F) (w : F) :
    genMap n (foldG x Gs) (foldH x Hs) Q (u, v, w) = halfMap n Gs Hs Q (folded x u v w) := by
  rw [genMap_apply, folded, halfMap_apply]
  simp only [foldG_getD x Gs hG, foldH_getD x Hs hH, smul_add, Finset.sum_add_distrib, Pi.smul_apply, smul_smul,
    smul_eq_mul]
  simp only [mul_comm x]
  abel

theorem halfMap_injective {n : Nat} {Gs Hs : List G} {Q : G}
    (h : Function.Injective (genMap (F := F) (n + n) Gs Hs Q)) :
    Function.Injective (halfMap (F := F) n Gs Hs Q) := by
  rintro ⟨a1, a2, a3, a4, a5⟩ ⟨b1, b2, b3, b4, b5⟩ e
  rw [← genMap_append, ← genMap_append] at e
  have := h e
  simp only [Prod.mk.injEq] at this ⊢
  obtain ⟨e1, e2, e3⟩ := this
  have f1 := (Fin.appendEquiv n n).injective (a₁ := (a1, a2)) (a₂ := (b1, b2)) e1
  have f2 := (Fin.appendEquiv n n).injective (a₁ := (a3, a4)) (a₂ := (b3, b4)) e2
  simp only [Prod.mk.injEq] at f1 f2
  exact ⟨f1.1, f1.2, f2.1, f2.2, e3⟩

theorem genMap_fold_injective {n : Nat} (x : F) {Gs Hs : List G} (hG : Gs.length = n + n) (hH : Hs.length = n + n)
    {Q : G} (h : Function.Injective (genMap (F := F) (n + n) Gs Hs Q)) :
    Function.Injective (genMap (F := F) n (foldG x Gs) (foldH x Hs) Q) := by
  rintro ⟨u, v, w⟩ ⟨u', v', w'⟩ e
  rw [genMap_fold x Gs Hs hG hH, genMap_fold x Gs Hs hG hH] at e
  have := halfMap_injective h e
  simp only [folded, Prod.mk.injEq] at this ⊢
  exact ⟨this.1, this.2.2.2.1, this.2.2.2.2⟩

/-! ### Counting -/

omit [Field F] in
theorem countChallenges_upper (S T : Finset F) {k : Nat} (hk : T.card ≤ k) (d K : Nat) (A : List F → Prop)
    (h : ∀ x ∈ S, x ∉ T → (countChallenges S d fun l => A (x :: l)) + K ≤ S.card ^ d) :
    countChallenges S (d + 1) A + (S.card - k) * K ≤ S.card ^ (d + 1) := by
  classical
  have h1 : S.card - k ≤ (S \ T).card := by
    have := Finset.le_card_sdiff T S
    omega
  rw [countChallenges_succ]
  have e : S.card ^ (d + 1) = ∑ _x ∈ S, S.card ^ d := by rw [Finset.sum_const, smul_eq_mul, pow_succ, mul_comm]
  have h2 : (S \ T).card * K = ∑ x ∈ S, if x ∈ T then 0 else K := by
    rw [← smul_eq_mul, ← Finset.sum_const, Finset.sdiff_eq_filter, Finset.sum_filter]
    exact Finset.sum_congr rfl fun x _ => by by_cases hx : x ∈ T <;> simp [hx]
  calc _ ≤ (∑ x ∈ S, countChallenges S d fun l => A (x :: l)) + (S \ T).card * K :=
        Nat.add_le_add_left (Nat.mul_le_mul_right _ h1) _
    _ ≤ S.card ^ (d + 1) := by
      rw [h2, ← Finset.sum_add_distrib, e]
      refine Finset.sum_le_sum fun x hx => ?_
      split
      · rw [add_zero]
        exact countChallenges_le S d _
      · rename_i hT
        exact h x hx hT

omit [Field F] in
theorem countChallenges_none (S : Finset F) (d : Nat) (A : List F → Prop) (h : ∀ y, ¬ A y) :
    countChallenges S d A = 0 := by
  classical
  unfold countChallenges
  rw [Finset.card_eq_zero, Finset.filter_eq_empty_iff]
  exact fun c _ => h _

theorem accepts_final {Gs Hs : List G} {Q C : G} (hG : Gs.length = 1) (hH : Hs.length = 1) (a b : F)
    (h : (⟨[], [], [], a, b⟩ : IpaPath F G).Accepts Gs Hs Q C) :
    C = genMap 1 Gs Hs Q ((fun _ => a), (fun _ => b), a * b) := by
  rw [List.length_eq_one_iff] at hG hH
  obtain ⟨g, rfl⟩ := hG
  obtain ⟨k, rfl⟩ := hH
  simp only [IpaPath.Accepts, combined, foldedP, weightG, weightH] at h
  rw [genMap_apply]
  simp at h ⊢
  rw [← h]
  abel

theorem talk_round_accepts {q : Nat} {L R : G} {next : F → IpaProver F G q} {x : F} {xs : List F} {Gs Hs : List G}
    {Q C : G} (hG : Gs.length = 2 ^ (q + 1)) (hH : Hs.length = 2 ^ (q + 1)) (hx : xs.length = q)
    (h : ((IpaProver.round L R next).talk (x :: xs)).Accepts Gs Hs Q C) :
    ((next x).talk xs).Accepts (foldG x Gs) (foldH x Hs) Q ((x * x) • L + x • C + R) := by
  classical
  have hl : ((next x).talk xs).xs.length = q := by rw [(talk_length (next x) xs hx).2.2, hx]
  exact (accepts_cons x ((next x).talk xs) L R Gs Hs Q C (by rw [hl, hG]) (by rw [hl, hH])).1 h

/-- A point that is no combination of the generators. -/
theorem outside_count (S : Finset F) (Q : G) : ∀ {q : Nat} (P : IpaProver F G q) (m : Nat), m = 2 ^ q →
    ∀ (Gs Hs : List G), Gs.length = m → Hs.length = m → ∀ C : G,
      C ∉ LinearMap.range (genMap (F := F) m Gs Hs Q) →
      (countChallenges S q fun xs => (P.talk xs).Accepts Gs Hs Q C) + (S.card - 2) ^ q ≤ S.card ^ q
  | _, .final a b, m, hm, Gs, Hs, hG, hH, C, hC => by
    rw [pow_zero] at hm
    subst hm
    have e : (countChallenges S 0 fun xs => ((IpaProver.final a b : IpaProver F G 0).talk xs).Accepts Gs Hs Q C) = 0 :=
      countChallenges_none S 0 _ fun y h => hC ⟨_, (accepts_final hG hH a b h).symm⟩
    rw [e]
    simp
  | q + 1, .round L R next, m, hm, Gs, Hs, hG, hH, C, hC => by
    classical
    have hm2 : m = 2 ^ q + 2 ^ q := by rw [hm, pow_succ]; omega
    subst hm2
    have hle : ∀ x : F, LinearMap.range (genMap (F := F) (2 ^ q) (foldG x Gs) (foldH x Hs) Q) ≤
        LinearMap.range (genMap (F := F) (2 ^ q + 2 ^ q) Gs Hs Q) := by
      rintro x _ ⟨⟨u, v, w⟩, rfl⟩
      rw [genMap_fold x Gs Hs hG hH, folded, ← genMap_append]
      exact ⟨_, rfl⟩
    let T := S.filter fun x => (x * x) • L + x • C + R ∈
      LinearMap.range (genMap (F := F) (2 ^ q) (foldG x Gs) (foldH x Hs) Q)
    have hT : T.card ≤ 2 := by
      by_contra hc
      obtain ⟨x, hx, y, hy, z, hz, h1, h2, h3⟩ := Finset.two_lt_card.1 (by omega : 2 < T.card)
      exact hC (quadratic_mem _ h1 h2 h3 L C R (hle _ (Finset.mem_filter.1 hx).2) (hle _ (Finset.mem_filter.1 hy).2)
        (hle _ (Finset.mem_filter.1 hz).2)).2.1
    rw [pow_succ' (S.card - 2)]
    refine countChallenges_upper S T hT q _ _ fun x hx hxT => ?_
    refine le_trans (Nat.add_le_add_right (countChallenges_mono S q _ _ fun y hy _ h =>
      talk_round_accepts (hG.trans hm) (hH.trans hm) hy h) _) ?_
    exact outside_count S Q (next x) (2 ^ q) rfl _ _ (by rw [foldG_length]; omega) (by rw [foldH_length]; omega) _
      fun hr => hxT (Finset.mem_filter.2 ⟨hx, hr⟩)

/-- A point with a wrong coefficient of `Q`. -/
theorem wrong_count (S : Finset F) (Q : G) : ∀ {q : Nat} (P : IpaProver F G q) (m : Nat), m = 2 ^ q →
    ∀ (Gs Hs : List G), Gs.length = m → Hs.length = m → Function.Injective (genMap (F := F) m Gs Hs Q) →
      ∀ (a b : Fin m → F) (c : F), c ≠ ∑ j, a j * b j →
      (countChallenges S q fun xs => (P.talk xs).Accepts Gs Hs Q (genMap m Gs Hs Q (a, b, c))) +
        (if q = 0 then 1 else (S.card - 3) * (S.card - 2) ^ (q - 1)) ≤ S.card ^ q
  | _, .final a' b', m, hm, Gs, Hs, hG, hH, hinj, a, b, c, hc => by
    rw [pow_zero] at hm
    subst hm
    have e : (countChallenges S 0 fun xs => ((IpaProver.final a' b' : IpaProver F G 0).talk xs).Accepts Gs Hs Q
        (genMap 1 Gs Hs Q (a, b, c))) = 0 := countChallenges_none S 0 _ fun y h => by
      have := hinj (accepts_final hG hH a' b' h)
      simp only [Prod.mk.injEq] at this
      obtain ⟨rfl, rfl, rfl⟩ := this
      simp at hc
    rw [e]
    simp
  | q + 1, .round L R next, m, hm, Gs, Hs, hG, hH, hinj, a, b, c, hc => by
    classical
    have hm2 : m = 2 ^ q + 2 ^ q := by rw [hm, pow_succ]; omega
    subst hm2
    have lG : ∀ x : F, (foldG x Gs).length = 2 ^ q := fun x => by rw [foldG_length]; omega
    have lH : ∀ x : F, (foldH x Hs).length = 2 ^ q := fun x => by rw [foldH_length]; omega
    rw [if_neg (by omega), Nat.add_sub_cancel]
    set C := genMap (2 ^ q + 2 ^ q) Gs Hs Q (a, b, c) with hCdef
    let T := S.filter fun x => (x * x) • L + x • C + R ∈
      LinearMap.range (genMap (F := F) (2 ^ q) (foldG x Gs) (foldH x Hs) Q)
    by_cases hT : T.card ≤ 3
    · refine countChallenges_upper S T hT q _ _ fun x hx hxT => ?_
      refine le_trans (Nat.add_le_add_right (countChallenges_mono S q _ _ fun y hy _ h =>
        talk_round_accepts (hG.trans hm) (hH.trans hm) hy h) _) ?_
      exact outside_count S Q (next x) (2 ^ q) rfl _ _ (lG x) (lH x) _ fun hr => hxT (Finset.mem_filter.2 ⟨hx, hr⟩)
    · obtain ⟨al, ar, rfl⟩ := exists_append a
      obtain ⟨bl, br, rfl⟩ := exists_append b
      rw [genMap_append] at hCdef
      obtain ⟨U, hU, hU4⟩ := Finset.exists_subset_card_eq (show 4 ≤ T.card by omega)
      let x : Fin 4 → F := fun i => U.equivFin.symm (Fin.cast hU4.symm i)
      have hx : Function.Injective x := fun i j e =>
        Fin.cast_injective _ (U.equivFin.symm.injective (Subtype.ext e))
      obtain ⟨lc, rc, key⟩ := round_honest (halfMap (2 ^ q) Gs Hs Q) (halfMap_injective hinj) al ar bl br c L R x hx
        (fun i => by
          obtain ⟨⟨u, v, w⟩, e⟩ := (Finset.mem_filter.1 (hU (U.equivFin.symm (Fin.cast hU4.symm i)).2)).2
          rw [genMap_fold _ Gs Hs hG hH, hCdef] at e
          exact ⟨u, v, w, e.symm⟩)
      rw [← hCdef] at key
      have key' : ∀ y : F, (y * y) • L + y • C + R = genMap (2 ^ q) (foldG y Gs) (foldH y Hs) Q
          (y • al + ar, bl + y • br, y * y * lc + y * c + rc) := fun y => by
        rw [key y, genMap_fold y Gs Hs hG hH]
      let T' := S.filter fun y => y * y * lc + y * c + rc = ∑ j, (y • al + ar) j * (bl + y • br) j
      have hsum : ∀ y : F, ∑ j, (y • al + ar) j * (bl + y • br) j = y * y * (∑ j, al j * br j) +
          y * (∑ j, al j * bl j + ∑ j, ar j * br j) + ∑ j, ar j * bl j := by
        intro y
        simp only [Finset.mul_sum, mul_add, ← Finset.sum_add_distrib, Pi.add_apply, Pi.smul_apply, smul_eq_mul]
        exact Finset.sum_congr rfl fun j _ => by ring
      have hc' : c - (∑ j, al j * bl j + ∑ j, ar j * br j) ≠ 0 := by
        rw [sub_ne_zero]
        rw [Fin.sum_univ_add] at hc
        simpa only [Fin.append_left, Fin.append_right] using hc
      have hT' : T'.card ≤ 2 := by
        by_contra hlt
        obtain ⟨x, hx, y, hy, z, hz, h1, h2, h3⟩ := Finset.two_lt_card.1 (by omega : 2 < T'.card)
        have hq : ∀ y ∈ T', (y * y) • (lc - ∑ j, al j * br j) +
            y • (c - (∑ j, al j * bl j + ∑ j, ar j * br j)) + (rc - ∑ j, ar j * bl j) ∈ (⊥ : Submodule F F) := by
          intro y hy
          have := (Finset.mem_filter.1 hy).2
          rw [hsum] at this
          rw [Submodule.mem_bot, smul_eq_mul, smul_eq_mul]
          linear_combination this
        exact hc' ((Submodule.mem_bot F).1 (quadratic_mem ⊥ h1 h2 h3 _ _ _ (hq _ hx) (hq _ hy) (hq _ hz)).2.1)
      have step := countChallenges_upper S T' hT' q (if q = 0 then 1 else (S.card - 3) * (S.card - 2) ^ (q - 1))
        (fun xs => ((IpaProver.round L R next).talk xs).Accepts Gs Hs Q C) fun y hy hyT => by
          refine le_trans (Nat.add_le_add_right (countChallenges_mono S q _ _ fun z hz _ h =>
            talk_round_accepts (hG.trans hm) (hH.trans hm) hz h) _) ?_
          rw [key' y]
          exact wrong_count S Q (next y) (2 ^ q) rfl _ _ (lG y) (lH y) (genMap_fold_injective y hG hH hinj) _ _ _
            fun e => hyT (Finset.mem_filter.2 ⟨hy, e⟩)
      refine le_trans (Nat.add_le_add_left ?_ _) step
      rcases q with _ | q
      · simp only [pow_zero, mul_one, if_pos]
        omega
      · rw [if_neg (by omega), Nat.add_sub_cancel, pow_succ]
        exact le_of_eq (by ring)

/-! ### The best prover -/

theorem dot_ofFn_getD {m : Nat} (u : Fin m → F) (Gs : List G) (hG : Gs.length = m) :
    dot (List.ofFn u) Gs = ∑ j, u j • Gs.getD j 0 := by
  conv_lhs => rw [getD_list Gs hG]
  rw [dot_ofFn]

theorem genMap_injective {m : Nat} {Gs Hs : List G} (hG : Gs.length = m) (hH : Hs.length = m) {Q : G}
    (hind : ∀ r : List F × List F × F, ¬ IsRelation Gs Hs Q r) {α : F} (hα : α ≠ 0) :
    Function.Injective (genMap (F := F) m Gs Hs (α • Q)) := by
  rw [injective_iff_map_eq_zero]
  rintro ⟨u, v, w⟩ h
  by_contra hne
  refine hind (List.ofFn u, List.ofFn v, w * α) ⟨by simp [hG], by simp [hH], ?_, ?_⟩
  · by_contra hz
    push Not at hz
    apply hne
    have hu : u = 0 := funext fun j => hz _ (by simp [List.mem_ofFn])
    have hv : v = 0 := funext fun j => hz _ (by simp [List.mem_ofFn])
    have hw : w = 0 := (mul_eq_zero.1 (hz (w * α) (by simp))).resolve_right hα
    rw [hu, hv, hw]
    rfl
  · rw [dot_ofFn_getD u Gs hG, dot_ofFn_getD v Hs hH, mul_smul, add_assoc]
    exact h

variable [DecidableEq F] [DecidableEq G]

/-- C99: for `2 ^ (q + 1)` generators without relations and any false statement, at least
`(N - 1) (N - 3) (N - 2) ^ q` of the `N ^ (q + 2)` sequences of challenges make `verify` reject. -/
theorem C99_ipa_bound {q : Nat} (S : Finset F) (hS : (0 : F) ∉ S) (Gs Hs : List G)
    (hG : Gs.length = 2 ^ (q + 1)) (hH : Hs.length = 2 ^ (q + 1)) (Q : G)
    (hind : ∀ r : List F × List F × F, ¬ IsRelation Gs Hs Q r) (C : G) (t : F)
    (hfalse : ¬ ∃ a b : List F, a.length = 2 ^ (q + 1) ∧ b.length = 2 ^ (q + 1) ∧
      C = dot a Gs + dot b Hs + t • Q ∧ dot a b = t) (P : F → IpaProver F G (q + 1)) :
    countChallenges S (q + 2) (fun y => IpaAccepted Gs Hs Q (2 ^ (q + 1)) C t (y.getD 0 0)
        ((P (y.getD 0 0)).talk (y.drop 1))) + (S.card - 1) * ((S.card - 3) * (S.card - 2) ^ q) ≤
      S.card ^ (q + 2) := by
  have key : ∀ α, α ∈ S → countChallenges S (q + 1) (fun y =>
        IpaAccepted Gs Hs Q (2 ^ (q + 1)) C t α ((P α).talk y)) ≤ countChallenges S (q + 1) (fun y =>
        ((P α).talk y).Accepts Gs Hs (α⁻¹ • Q) (C - ((α - 1) * t) • (α⁻¹ • Q))) := fun α _ =>
    countChallenges_mono S (q + 1) _ _ fun y hy _ h => by
      obtain ⟨l1, l2, -⟩ := talk_length (P α) y hy
      exact h.accepts (l1.trans l2.symm)
  by_cases hin : C ∈ LinearMap.range (genMap (F := F) (2 ^ (q + 1)) Gs Hs Q)
  · obtain ⟨⟨a, b, s⟩, rfl⟩ := hin
    have hdot : dot (List.ofFn a) (List.ofFn b) = ∑ j, a j * b j := by
      rw [dot_ofFn]; rfl
    set α₀ : F := (t - ∑ j, a j * b j) * (t - s)⁻¹ with hα₀
    refine countChallenges_upper S {α₀} (Finset.card_singleton α₀).le (q + 1) _ _ fun α hαS hαT => ?_
    simp only [List.getD_cons_zero, List.drop_succ_cons, List.drop_zero]
    have hα0 : α ≠ 0 := fun e => hS (e ▸ hαS)
    have hαne : α ≠ α₀ := fun e => hαT (Finset.mem_singleton.2 e)
    have hpt : genMap (2 ^ (q + 1)) Gs Hs Q (a, b, s) - ((α - 1) * t) • (α⁻¹ • Q) =
        genMap (2 ^ (q + 1)) Gs Hs (α⁻¹ • Q) (a, b, s * α - (α - 1) * t) := by
      rw [genMap_apply, genMap_apply]
      have e : s • Q = (s * α) • (α⁻¹ • Q) := by rw [smul_smul, mul_assoc, mul_inv_cancel₀ hα0, mul_one]
      rw [e]
      module
    have hc : s * α - (α - 1) * t ≠ ∑ j, a j * b j := by
      intro e
      by_cases hts : t = s
      · subst hts
        refine hfalse ⟨List.ofFn a, List.ofFn b, by simp, by simp, ?_, by rw [hdot]; linear_combination -e⟩
        rw [genMap_apply, dot_ofFn_getD a Gs hG, dot_ofFn_getD b Hs hH, add_assoc]
      · have : α * (t - s) = t - ∑ j, a j * b j := by linear_combination -e
        exact hαne (by rw [hα₀, ← this, mul_assoc, mul_inv_cancel₀ (sub_ne_zero.2 hts), mul_one])
    have := wrong_count S (α⁻¹ • Q) (P α) (2 ^ (q + 1)) rfl Gs Hs hG hH
      (genMap_injective hG hH hind (inv_ne_zero hα0)) a b _ hc
    rw [if_neg (by omega), Nat.add_sub_cancel, ← hpt] at this
    exact le_trans (Nat.add_le_add_right (key α hαS) _) this
  · refine countChallenges_upper S {0} (Finset.card_singleton (0 : F)).le (q + 1) _ _ fun α hαS hαT => ?_
    simp only [List.getD_cons_zero, List.drop_succ_cons, List.drop_zero]
    have hα0 : α ≠ 0 := fun e => hS (e ▸ hαS)
    have hout : C - ((α - 1) * t) • (α⁻¹ • Q) ∉
        LinearMap.range (genMap (F := F) (2 ^ (q + 1)) Gs Hs (α⁻¹ • Q)) := by
      rintro ⟨⟨a, b, c⟩, h⟩
      refine hin ⟨(a, b, (c + (α - 1) * t) * α⁻¹), ?_⟩
      rw [genMap_apply] at h ⊢
      linear_combination (norm := module) h
    have := outside_count S (α⁻¹ • Q) (P α) (2 ^ (q + 1)) rfl Gs Hs hG hH _ hout
    refine le_trans (Nat.add_le_add (key α hαS) ?_) this
    rw [pow_succ, mul_comm]
    exact Nat.mul_le_mul_left _ (by omega)

/-- C99: in particular the soundness error of IPA with `k = q + 1` rounds is at most `(2 k + 2) / N`. -/
theorem C99_ipa_soundness_error {q : Nat} (S : Finset F) (hS : (0 : F) ∉ S) (Gs Hs : List G)
    (hG : Gs.length = 2 ^ (q + 1)) (hH : Hs.length = 2 ^ (q + 1)) (Q : G)
    (hind : ∀ r : List F × List F × F, ¬ IsRelation Gs Hs Q r) (C : G) (t : F)
    (hfalse : ¬ ∃ a b : List F, a.length = 2 ^ (q + 1) ∧ b.length = 2 ^ (q + 1) ∧
      C = dot a Gs + dot b Hs + t • Q ∧ dot a b = t) (P : F → IpaProver F G (q + 1)) :
    countChallenges S (q + 2) (fun y => IpaAccepted Gs Hs Q (2 ^ (q + 1)) C t (y.getD 0 0)
        ((P (y.getD 0 0)).talk (y.drop 1))) ≤ (2 * (q + 1) + 2) * S.card ^ (q + 1) := by
  have h := C99_ipa_bound S hS Gs Hs hG hH Q hind C t hfalse P
  have hb := (prod_bound S.card (2 :: 4 :: List.replicate q 3) (by simp)).2
  simp only [List.map_cons, List.prod_cons, List.map_replicate, List.prod_replicate, List.length_cons,
    List.length_replicate, List.sum_cons, List.sum_replicate, smul_eq_mul, Nat.add_sub_cancel,
    Nat.reduceSub] at hb
  rw [show S.card + 1 - 2 = S.card - 1 by omega, show S.card + 1 - 4 = S.card - 3 by omega,
    show S.card + 1 - 3 = S.card - 2 by omega, show q + 1 + 1 = q + 2 from rfl] at hb
  rw [show 1 + (3 + q * 2) = 2 * (q + 1) + 2 by omega] at hb
  omega

/-- C99: for `2 ^ (q + 1)` generators without relations and the claim that the vectors `a`, `b` of
`⟨a, G⟩ + ⟨b, H⟩ + s Q` with `s ≠ t` have the product `t`, no prover is accepted more often than the one of
`C99_ipa_cheat`. -/
theorem C99_ipa_exact_all {q : Nat} (h64 : q + 1 < 64) (cod : Codec G) (enc : F → Vector UInt8 64)
    (henc : ∀ y, (leNat (enc y).toList : F) = y) (S : Finset F) (hS : (0 : F) ∉ S) {x₁ x₂ x₃ α₀ : F}
    (h1 : x₁ ∈ S) (h2 : x₂ ∈ S) (h3 : x₃ ∈ S) (n12 : x₁ ≠ x₂) (n13 : x₁ ≠ x₃) (n23 : x₂ ≠ x₃)
    (s12 : x₁ + x₂ ≠ 0) (s13 : x₁ + x₃ ≠ 0) (s23 : x₂ + x₃ ≠ 0) (hα : α₀ ∈ S) (Gs Hs : List G)
    (hG : Gs.length = 2 ^ (q + 1)) (hH : Hs.length = 2 ^ (q + 1)) (Q : G)
    (hind : ∀ r : List F × List F × F, ¬ IsRelation Gs Hs Q r) (a b : List F) (ha : a.length = 2 ^ (q + 1))
    (hb : b.length = 2 ^ (q + 1)) (s t : F) (hne : s ≠ t) (hst : t - dot a b = α₀ * (t - s)) :
    IsGreatest (Set.range fun P : F → IpaProver F G (q + 1) => countChallenges S (q + 2) (fun y =>
        IpaAccepted Gs Hs Q (2 ^ (q + 1)) (dot a Gs + dot b Hs + s • Q) t (y.getD 0 0)
          ((P (y.getD 0 0)).talk (y.drop 1))))
      (S.card ^ (q + 2) - (S.card - 1) * ((S.card - 3) * (S.card - 2) ^ q)) := by
  have hfalse : ¬ ∃ a' b' : List F, a'.length = 2 ^ (q + 1) ∧ b'.length = 2 ^ (q + 1) ∧
      dot a Gs + dot b Hs + s • Q = dot a' Gs + dot b' Hs + t • Q ∧ dot a' b' = t := by
    rintro ⟨a', b', ha', hb', h, -⟩
    have e := @genMap_injective F G _ _ _ _ Gs Hs hG hH Q hind 1 one_ne_zero
      ((fun j => a.getD j 0), (fun j => b.getD j 0), s) ((fun j => a'.getD j 0), (fun j => b'.getD j 0), t) (by
        rw [genMap_apply, genMap_apply]
        rw [getD_list a ha, getD_list b hb, getD_list a' ha', getD_list b' hb', dot_ofFn_getD _ Gs hG, dot_ofFn_getD _ Gs hG,
          dot_ofFn_getD _ Hs hH, dot_ofFn_getD _ Hs hH] at h
        rw [one_smul, ← add_assoc, ← add_assoc]
        exact h)
    exact hne (congrArg (fun z => z.2.2) e)
  have up := C99_ipa_bound S hS Gs Hs hG hH Q hind _ t hfalse
  refine ⟨?_, ?_⟩
  · obtain ⟨P, hP⟩ := C99_ipa_cheat h64 cod enc henc S hS h1 h2 h3 n12 n13 n23 s12 s13 s23 hα Gs Hs hG hH Q a b ha hb
      s t hst
    exact ⟨P, by have := up P; dsimp only; omega⟩
  · rintro _ ⟨P, rfl⟩
    have := up P
    dsimp only; omega

section
open Toy

/-- C99: four independent generators on each side: the best prover is accepted for 58906 of a million triples. -/
example (cd : Codec (Fin 9 → K)) : IsGreatest (Set.range fun P : K → IpaProver K (Fin 9 → K) 2 =>
    countChallenges (Finset.univ.erase (0 : K)) 3 (fun y =>
      IpaAccepted unitG unitH unitQ 4 (dot [(1 : K), 2, 3, 4] unitG + dot [(5 : K), 6, 7, 9] unitH + (74 : K) • unitQ)
        75 (y.getD 0 0) ((P (y.getD 0 0)).talk (y.drop 1)))) 58906 := by
  have := C99_ipa_exact_all (F := K) (G := Fin 9 → K) (q := 1) (by decide) cd exEnc exEnc_value
    (Finset.univ.erase (0 : K)) (by decide +kernel) (x₁ := 1) (x₂ := 2) (x₃ := 3) (α₀ := 1)
    (by decide +kernel) (by decide +kernel) (by decide +kernel) (by decide +kernel) (by decide +kernel)
    (by decide +kernel) (by decide +kernel) (by decide +kernel) (by decide +kernel) (by decide +kernel)
    unitG unitH rfl rfl unitQ unit_no_relation [1, 2, 3, 4] [5, 6, 7, 9] rfl rfl 74 75 (by decide +kernel)
    (by decide +kernel)
  have e : (Finset.univ.erase (0 : K)).card = 100 := by decide +kernel
  rwa [e] at this

end

end Qesa.Props
