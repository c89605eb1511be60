import Verif.Proofs.Counting
import Verif.Props.HonestTrees
import Verif.Props.LmpaSound
/-
C64-C66: how often a cheating prover can be accepted. The challenges are taken uniformly from a finite set
`S` of non-zero scalars with `N` elements; the prover is arbitrary.
-/
namespace Qesa.Props
open Qesa Spec
variable {F G : Type} [Field F] [AddCommGroup G] [Module F G]

/-! ### Inner products -/

omit [AddCommGroup G] [Module F G] in
/-- The tree of conversations along a tree of challenges. -/
theorem ipaTree_of_hasTree (S : Finset F) : ∀ {q : Nat} (P : IpaProver F G q) (A : IpaPath F G → Prop),
    HasTree S (List.replicate q 4) (fun xs => A (P.talk xs)) →
    ∃ T : IpaTree F G q, T.Distinct ∧ ∀ c ∈ T.paths, A c ∧ c = P.talk c.xs
  | _, .final a b, A, h => ⟨.leaf a b, trivial, fun c hc => by
      rw [IpaTree.paths, List.mem_singleton] at hc
      subst hc
      exact ⟨h, rfl⟩⟩
  | q + 1, .round L R next, A, h => by
    rw [List.replicate_succ] at h
    obtain ⟨x, hx, -, h⟩ := h
    choose T hT hc using fun i => ipaTree_of_hasTree S (next (x i))
      (fun c => A ⟨L :: c.Ls, R :: c.Rs, x i :: c.xs, c.a, c.b⟩) (h i)
    refine ⟨.node L R x T, ⟨hx, hT⟩, ?_⟩
    intro c h
    simp only [IpaTree.paths, List.mem_flatMap, List.mem_map] at h
    obtain ⟨i, -, c', h', rfl⟩ := h
    obtain ⟨h1, h2⟩ := hc i c' h'
    refine ⟨h1, ?_⟩
    conv_lhs => rw [h2]
    simp only [IpaProver.talk]

variable [DecidableEq F] [DecidableEq G]

/-- C64: knowledge soundness of the inner-product argument. If a prover is accepted for more than
`N ^ (q + 1) - (N - 1) (N - 3) ^ q` of the `N ^ (q + 1)` sequences of challenges `alpha, x_1, …, x_q`, then
there is a tree of its conversations from which the extractor of C21 computes a witness for the claim, or a
relation between the generators. -/
theorem C64_ipa_knowledge {q : Nat} (S : Finset F) (hS : (0 : F) ∉ S) (P : F → IpaProver F G q)
    (Gs Hs : List G) (hG : Gs.length = 2 ^ q) (hH : Hs.length = 2 ^ q) (Q C : G) (t : F)
    (h : S.card ^ (q + 1) < countChallenges S (q + 1) (fun y =>
        IpaAccepted Gs Hs Q (2 ^ q) C t (y.getD 0 0) ((P (y.getD 0 0)).talk (y.drop 1))) +
      (S.card - 1) * (S.card - 3) ^ q) :
    ∃ (α : Fin 2 → F) (T : Fin 2 → IpaTree F G q),
      (∀ i, ∀ c ∈ (T i).paths, c = (P (α i)).talk c.xs) ∧
      match extractIpa t α fun i => (T i).scalars with
      | .inl (a, b) => a.length = 2 ^ q ∧ b.length = 2 ^ q ∧ C = dot a Gs + dot b Hs + t • Q ∧ dot a b = t
      | .inr r => IsRelation Gs Hs Q r := by
  obtain ⟨α, hα, hαS, hT⟩ : HasTree S (2 :: List.replicate q 4) fun y =>
      IpaAccepted Gs Hs Q (2 ^ q) C t (y.getD 0 0) ((P (y.getD 0 0)).talk (y.drop 1)) := by
    by_contra hno
    have := count_of_not_hasTree S _ _ hno
    rw [List.map_cons, List.prod_cons, List.map_replicate, List.prod_replicate, List.length_cons,
      List.length_replicate] at this
    exact Nat.not_le.2 h this
  choose T hT hc using fun i => ipaTree_of_hasTree S (P (α i))
    (fun c => IpaAccepted Gs Hs Q (2 ^ q) C t (α i) c) (hT i)
  exact ⟨α, T, fun i c h => (hc i c h).2, C21_ipa_special_soundness α T hT
    (fun h => absurd (hα h) (by decide)) (fun i h => hS (h ▸ hαS i)) Gs Hs hG hH Q C t
    fun i c h => (hc i c h).1⟩

/-- C64: if the generators have no relation and the claim is false, every prover is accepted for at most
`(3 q + 1) N ^ q` of the `N ^ (q + 1)` sequences of challenges. -/
theorem C64_ipa_soundness_error {q : Nat} (S : Finset F) (hS : (0 : F) ∉ S) (P : F → IpaProver F G q)
    (Gs Hs : List G) (hG : Gs.length = 2 ^ q) (hH : Hs.length = 2 ^ q) (Q C : G) (t : F)
    (hind : ∀ r : List F × List F × F, ¬ IsRelation Gs Hs Q r)
    (hfalse : ¬ ∃ a b : List F, a.length = 2 ^ q ∧ b.length = 2 ^ q ∧ C = dot a Gs + dot b Hs + t • Q ∧
      dot a b = t) :
    countChallenges S (q + 1) (fun y =>
      IpaAccepted Gs Hs Q (2 ^ q) C t (y.getD 0 0) ((P (y.getD 0 0)).talk (y.drop 1))) ≤
        (3 * q + 1) * S.card ^ q := by
  by_contra hlt
  push Not at hlt
  have hb := (prod_bound S.card (2 :: List.replicate q 4) (by simp)).2
  simp only [List.map_cons, List.prod_cons, List.map_replicate, List.prod_replicate, List.length_cons,
    List.length_replicate, List.sum_cons, List.sum_replicate, smul_eq_mul, Nat.add_sub_cancel] at hb
  obtain ⟨α, T, -, h⟩ := C64_ipa_knowledge S hS P Gs Hs hG hH Q C t (by
    rw [show 2 - 1 + q * (4 - 1) = 3 * q + 1 by omega] at hb
    exact hb.trans_lt (by rw [add_comm]; exact Nat.add_lt_add_right hlt _))
  split at h
  · exact hfalse ⟨_, _, h⟩
  · exact hind _ h

/-- C64: knowledge soundness of AlmZK; the prover sends `C_r` and then proceeds with `beta` and `alpha`. -/
theorem C64_alm_knowledge {q : Nat} (S : Finset F) (hS : (0 : F) ∉ S) (C_r : G)
    (P : F → F → IpaProver F G q) (Gs Hs : List G) (hG : Gs.length = 2 ^ q) (hH : Hs.length = 2 ^ q)
    (Q C_w : G) (t : F)
    (h : S.card ^ (q + 2) < countChallenges S (q + 2) (fun y =>
        AlmAccepted Gs Hs Q (2 ^ q) C_w t C_r (y.getD 0 0) (y.getD 1 0)
          ((P (y.getD 0 0) (y.getD 1 0)).talk (y.drop 2))) +
      (S.card - 2) * ((S.card - 1) * (S.card - 3) ^ q)) :
    ∃ (β : Fin 3 → F) (α : Fin 3 → Fin 2 → F) (T : Fin 3 → Fin 2 → IpaTree F G q),
      (∀ i j, ∀ c ∈ (T i j).paths, c = (P (β i) (α i j)).talk c.xs) ∧
      match extractAlm t β α fun i j => (T i j).scalars with
      | .inl (u, v) => u.length = 2 ^ q ∧ v.length = 2 ^ q ∧ C_w = dot u Gs + dot v Hs ∧ dot u v = t
      | .inr r => IsRelation Gs Hs Q r := by
  obtain ⟨β, hβ, hβS, hT⟩ : HasTree S (3 :: 2 :: List.replicate q 4) fun y =>
      AlmAccepted Gs Hs Q (2 ^ q) C_w t C_r (y.getD 0 0) (y.getD 1 0)
          ((P (y.getD 0 0) (y.getD 1 0)).talk (y.drop 2)) := by
    by_contra hno
    have := count_of_not_hasTree S _ _ hno
    simp only [List.map_cons, List.prod_cons, List.map_replicate, List.prod_replicate, List.length_cons,
      List.length_replicate] at this
    exact Nat.not_le.2 h this
  choose α hα hαS hT using hT
  choose T hT hc using fun i j => ipaTree_of_hasTree S (P (β i) (α i j))
    (fun c => AlmAccepted Gs Hs Q (2 ^ q) C_w t C_r (β i) (α i j) c) (hT i j)
  exact ⟨β, α, T, fun i j c h => (hc i j c h).2, C25_alm_special_soundness β α T hT hβ
    (fun i h => absurd (hα i h) (by decide)) (fun i j h => hS (h ▸ hαS i j)) Gs Hs hG hH Q C_w C_r t
    fun i j c h => (hc i j c h).1⟩

/-- C64: if the generators have no relation and the claim is false, every prover of AlmZK is accepted for
at most `(3 q + 3) N ^ (q + 1)` of the `N ^ (q + 2)` sequences of challenges. -/
theorem C64_alm_soundness_error {q : Nat} (S : Finset F) (hS : (0 : F) ∉ S) (C_r : G)
    (P : F → F → IpaProver F G q) (Gs Hs : List G) (hG : Gs.length = 2 ^ q) (hH : Hs.length = 2 ^ q)
    (Q C_w : G) (t : F) (hind : ∀ r : List F × List F × F, ¬ IsRelation Gs Hs Q r)
    (hfalse : ¬ ∃ u v : List F, u.length = 2 ^ q ∧ v.length = 2 ^ q ∧ C_w = dot u Gs + dot v Hs ∧
      dot u v = t) :
    countChallenges S (q + 2) (fun y =>
        AlmAccepted Gs Hs Q (2 ^ q) C_w t C_r (y.getD 0 0) (y.getD 1 0)
          ((P (y.getD 0 0) (y.getD 1 0)).talk (y.drop 2))) ≤ (3 * q + 3) * S.card ^ (q + 1) := by
  by_contra hlt
  push Not at hlt
  have hb := (prod_bound S.card (3 :: 2 :: List.replicate q 4) (by simp)).2
  simp only [List.map_cons, List.prod_cons, List.map_replicate, List.prod_replicate, List.length_cons,
    List.length_replicate, List.sum_cons, List.sum_replicate, smul_eq_mul, Nat.add_sub_cancel] at hb
  obtain ⟨β, α, T, -, h⟩ := C64_alm_knowledge S hS C_r P Gs Hs hG hH Q C_w t (by
    rw [show 3 - 1 + (2 - 1 + q * (4 - 1)) = 3 * q + 3 by omega] at hb
    exact hb.trans_lt (by rw [add_comm]; exact Nat.add_lt_add_right hlt _))
  split at h
  · exact hfalse ⟨_, _, h⟩
  · exact hind _ h

/-! ### QESA -/

omit [DecidableEq F] in
/-- The trees of QESA along a tree of challenges. -/
theorem qesaTrees_of_hasTree {m k q : Nat} (S : Finset F) (hS : (0 : F) ∉ S) (Gs Hs : List G)
    (Q C' C'' : G) (Ms : Fin (k + 1) → Matrix (Fin m) (Fin m) F) (x : F) (C_r : F → F → G)
    (P : F → F → F → F → IpaProver F G q)
    (h : HasTree S ((m + 1) :: 3 :: 3 :: 2 :: List.replicate q 4) fun y =>
      QesaAccepted Gs Hs Q Ms C' C'' x (y.getD 0 0) (y.getD 1 0) (C_r (y.getD 0 0) (y.getD 1 0))
        (y.getD 2 0) (y.getD 3 0)
        ((P (y.getD 0 0) (y.getD 1 0) (y.getD 2 0) (y.getD 3 0)).talk (y.drop 4))) :
    ∃ (s : Fin (m + 1) → F) (b : Fin (m + 1) → Fin 3 → F) (β : Fin (m + 1) → Fin 3 → Fin 3 → F)
      (α : Fin (m + 1) → Fin 3 → Fin 3 → Fin 2 → F)
      (T : Fin (m + 1) → Fin 3 → Fin 3 → Fin 2 → IpaTree F G q),
      Function.Injective s ∧ (∀ i, Function.Injective (b i)) ∧ (∀ i j, Function.Injective (β i j)) ∧
      (∀ i j l, α i j l 0 ≠ α i j l 1) ∧ (∀ i j l e, α i j l e ≠ 0) ∧
      (∀ i j l e, (T i j l e).Distinct) ∧
      ∀ i j l e, ∀ c ∈ (T i j l e).paths,
        QesaAccepted Gs Hs Q Ms C' C'' x (s i) (b i j) (C_r (s i) (b i j)) (β i j l) (α i j l e) c ∧
        c = (P (s i) (b i j) (β i j l) (α i j l e)).talk c.xs := by
  obtain ⟨s, hs, -, h⟩ := h
  choose b hb hbS h using h
  choose β hβ hβS h using h
  choose α hα hαS h using h
  choose T hT hc using fun i j l e => ipaTree_of_hasTree S (P (s i) (b i j) (β i j l) (α i j l e))
    (fun c => QesaAccepted Gs Hs Q Ms C' C'' x (s i) (b i j) (C_r (s i) (b i j)) (β i j l) (α i j l e) c)
    (h i j l e)
  exact ⟨s, b, β, α, T, hs, hb, hβ, fun i j l h => absurd (hα i j l h) (by decide),
    fun i j l e h => hS (h ▸ hαS i j l e), hT, hc⟩

/-- C65: knowledge soundness of QESA for the batched equation. After the commitments and the challenge `x` the
prover meets `s`, `b`, sends `C_r` and proceeds with `beta` and `alpha`. -/
theorem C65_qesa_knowledge {m k q : Nat} (hm : 0 < m) (hq : m + 2 = 2 ^ q) (S : Finset F)
    (hS : (0 : F) ∉ S) (Gs Hs : List G) (hG : Gs.length = m + 2) (hH : Hs.length = m + 2) (Q C' C'' : G)
    (Ms : Fin (k + 1) → Matrix (Fin m) (Fin m) F) (x : F) (hx : x ≠ 0) (C_r : F → F → G)
    (P : F → F → F → F → IpaProver F G q)
    (h : S.card ^ (q + 4) < countChallenges S (q + 4) (fun y =>
        QesaAccepted Gs Hs Q Ms C' C'' x (y.getD 0 0) (y.getD 1 0) (C_r (y.getD 0 0) (y.getD 1 0))
          (y.getD 2 0) (y.getD 3 0)
          ((P (y.getD 0 0) (y.getD 1 0) (y.getD 2 0) (y.getD 3 0)).talk (y.drop 4))) +
      (S.card - m) * ((S.card - 2) * ((S.card - 2) * ((S.card - 1) * (S.card - 3) ^ q)))) :
    ∃ (s : Fin (m + 1) → F) (b : Fin (m + 1) → Fin 3 → F) (β : Fin (m + 1) → Fin 3 → Fin 3 → F)
      (α : Fin (m + 1) → Fin 3 → Fin 3 → Fin 2 → F)
      (T : Fin (m + 1) → Fin 3 → Fin 3 → Fin 2 → IpaTree F G q),
      (∀ i j l e, ∀ c ∈ (T i j l e).paths, c = (P (s i) (b i j) (β i j l) (α i j l e)).talk c.xs) ∧
      let M := batched (m + 2) Ms x
      match extractQesa M x s b fun i j => extractAlm (- quad M (powers (s i) m)) (β i j) (α i j)
          fun l e => (T i j l e).scalars with
      | .inl (w, v) => ∃ (u : Fin m → F) (r0 r1 : F),
          w = List.ofFn u ++ [r0, r1] ∧ v = List.ofFn (M.mulVec u) ++ [-r1, r0] ∧ quad M u = 0 ∧
          C' + C'' = dot w (rescaled (x ^ 2) Gs) + (1 - (x ^ 2)⁻¹) • Gs.headD 0 + dot v Hs
      | .inr r => IsRelation Gs Hs Q r := by
  obtain ⟨s, b, β, α, T, hs, hb, hβ, hα, hα0, hT, hc⟩ := qesaTrees_of_hasTree S hS Gs Hs Q C' C'' Ms x C_r P
    (by
      by_contra hno
      have := count_of_not_hasTree S _ _ hno
      simp only [List.map_cons, List.prod_cons, List.map_replicate, List.prod_replicate, List.length_cons,
        List.length_replicate] at this
      rw [show S.card + 1 - (m + 1) = S.card - m by omega] at this
      exact Nat.not_le.2 h this)
  exact ⟨s, b, β, α, T, fun i j l e c h => (hc i j l e c h).2, C61_qesa_special_soundness hm hq Gs Hs hG hH Q C'
    C'' Ms x hx s hs b hb _ β hβ α hα hα0 T hT fun i j l e c h => (hc i j l e c h).1⟩

/-- C65: the soundness error of QESA for a prover who commits to `w` with `w₀ = 1` as the honest prover does:
`C'` is a commitment to `(w, r₀, r₁)` on `G`, and after the challenge `x` the prover sends a combination of
the generators `H`. If the generators have no relation and `w` violates one of the first `n = m + 3` of the
`k + 1` equations, the prover is accepted for at most `(k + m + 3 q + 6) N ^ (q + 4)` of the `N ^ (q + 5)`
sequences of challenges. -/
theorem C65_qesa_soundness_error {m k q : Nat} (hq : m + 3 = 2 ^ q) (S : Finset F)
    (hS : (0 : F) ∉ S) (Gs Hs : List G) (hG : Gs.length = m + 3) (hH : Hs.length = m + 3) (Q : G)
    (hind : ∀ r : List F × List F × F, ¬ IsRelation Gs Hs Q r)
    (Ms : Fin (k + 1) → Matrix (Fin (m + 1)) (Fin (m + 1)) F) (w : Fin (m + 1) → F) (h0 : w 0 = 1)
    (r0 r1 : F) (v : F → List F) (hv : ∀ x, (v x).length = Hs.length) (C_r : F → F → F → G)
    (P : F → F → F → F → F → IpaProver F G q) (i : Fin (k + 1)) (hi : i.val < m + 3)
    (hfalse : quad (Ms i) w ≠ 0) :
    countChallenges S (q + 5) (fun y =>
        QesaAccepted Gs Hs Q Ms (dot (List.ofFn w ++ [r0, r1]) Gs) (dot (v (y.getD 0 0)) Hs) (y.getD 0 0)
          (y.getD 1 0) (y.getD 2 0) (C_r (y.getD 0 0) (y.getD 1 0) (y.getD 2 0)) (y.getD 3 0) (y.getD 4 0)
          ((P (y.getD 0 0) (y.getD 1 0) (y.getD 2 0) (y.getD 3 0) (y.getD 4 0)).talk (y.drop 5))) ≤
      (k + m + 3 * q + 6) * S.card ^ (q + 4) := by
  by_contra hlt
  push Not at hlt
  have hb := (prod_bound S.card ((k + 1) :: (m + 1 + 1) :: 3 :: 3 :: 2 :: List.replicate q 4) (by simp)).2
  by_cases hno : HasTree S ((k + 1) :: (m + 1 + 1) :: 3 :: 3 :: 2 :: List.replicate q 4) fun y =>
      QesaAccepted Gs Hs Q Ms (dot (List.ofFn w ++ [r0, r1]) Gs) (dot (v (y.getD 0 0)) Hs) (y.getD 0 0)
        (y.getD 1 0) (y.getD 2 0) (C_r (y.getD 0 0) (y.getD 1 0) (y.getD 2 0)) (y.getD 3 0) (y.getD 4 0)
        ((P (y.getD 0 0) (y.getD 1 0) (y.getD 2 0) (y.getD 3 0) (y.getD 4 0)).talk (y.drop 5))
  · obtain ⟨x, hx, hxS, h⟩ := hno
    refine hfalse (C63_qesa_sound hq Gs Hs hG hH Q hind Ms w h0 r0 r1 x hx (fun i e => hS (e ▸ hxS i))
      (fun i => v (x i)) (fun i => hv _) (fun i => ?_) i hi)
    obtain ⟨s, b, β, α, T, hs, hb, hβ, hα, hα0, hT, hc⟩ := qesaTrees_of_hasTree S hS Gs Hs Q
      (dot (List.ofFn w ++ [r0, r1]) Gs) (dot (v (x i)) Hs) Ms (x i) (C_r (x i)) (P (x i)) (h i)
    exact ⟨s, b, _, β, α, T, hs, hb, hβ, hα, hα0, hT, fun i j l e c h => (hc i j l e c h).1⟩
  · have := count_of_not_hasTree S _ _ hno
    simp only [List.map_cons, List.prod_cons, List.map_replicate, List.prod_replicate, List.length_cons,
      List.length_replicate, List.sum_cons, List.sum_replicate, smul_eq_mul, Nat.add_sub_cancel] at hb this
    rw [show k + (m + 1 + (3 - 1 + (3 - 1 + (2 - 1 + q * (4 - 1))))) = k + m + 3 * q + 6 by omega] at hb
    have h1 := this.trans hb
    rw [add_comm] at h1
    exact absurd (Nat.le_of_add_le_add_left h1) (Nat.not_le.2 hlt)

/-! ### Linear maps -/

omit [AddCommGroup G] [Module F G] [DecidableEq F] [DecidableEq G] in
/-- The tree of conversations along a tree of challenges. -/
theorem lmpaTree_of_hasTree (S : Finset F) : ∀ {q : Nat} (P : LmpaProver F G q)
    (A : List G × List G × List F × F → Prop),
    HasTree S (List.replicate q 3) (fun xs => A (P.talk xs)) →
    ∃ T : LmpaTree F G q, T.Distinct ∧ ∀ c ∈ T.paths, A c ∧ c = P.talk c.2.2.1
  | _, .final w, A, h => ⟨.leaf w, trivial, fun c hc => by
      rw [LmpaTree.paths, List.mem_singleton] at hc
      subst hc
      exact ⟨h, rfl⟩⟩
  | q + 1, .round L R next, A, h => by
    rw [List.replicate_succ] at h
    obtain ⟨x, hx, -, h⟩ := h
    choose T hT hc using fun i => lmpaTree_of_hasTree S (next (x i))
      (fun c => A (L :: c.1, R :: c.2.1, x i :: c.2.2.1, c.2.2.2)) (h i)
    refine ⟨.node L R x T, ⟨hx, hT⟩, ?_⟩
    intro c h
    simp only [LmpaTree.paths, List.mem_flatMap, List.mem_map] at h
    obtain ⟨i, -, c', h', rfl⟩ := h
    obtain ⟨h1, h2⟩ := hc i c' h'
    refine ⟨h1, ?_⟩
    conv_lhs => rw [h2]
    simp only [LmpaProver.talk]

omit [DecidableEq F] in
/-- C66: knowledge soundness of the linear-map argument for one row. If a prover is accepted for more than
`2 q N ^ (q - 1)` of the `N ^ q` sequences of challenges, then there is a tree of its conversations from which
the extractor of C43 computes a pre-image of `t`. -/
theorem C66_lmpa_knowledge {q : Nat} (S : Finset F) (P : LmpaProver F G q) (row : List G)
    (hrow : row.length = 2 ^ q) (t : G)
    (h : 2 * q * S.card ^ (q - 1) < countChallenges S q (fun y => LmpaAccepted row t (P.talk y))) :
    ∃ T : LmpaTree F G q, (∀ c ∈ T.paths, c = P.talk c.2.2.1) ∧
      (extractLmpa T.scalars).length = row.length ∧ dot (extractLmpa T.scalars) row = t := by
  have hb := (prod_bound S.card (List.replicate q 3) (by simp)).2
  obtain ⟨T, hT, hc⟩ := lmpaTree_of_hasTree S P (LmpaAccepted row t) (by
    by_contra hno
    have := count_of_not_hasTree S _ _ hno
    simp only [List.map_replicate, List.prod_replicate, List.length_replicate, List.sum_replicate,
      smul_eq_mul] at hb this
    rw [show q * (3 - 1) = 2 * q by omega] at hb
    have h1 := this.trans hb
    rw [add_comm] at h1
    exact absurd (Nat.le_of_add_le_add_left h1) (Nat.not_le.2 h))
  exact ⟨T, fun c h => (hc c h).2, C43_lmpa_sound T hT row hrow t fun c h => (hc c h).1⟩

omit [DecidableEq F] in
/-- C66: knowledge soundness of SimpleZK for one row; the prover sends `a` and proceeds with `beta`. -/
theorem C66_simple_knowledge {q : Nat} (S : Finset F) (a : G) (P : F → LmpaProver F G q) (row : List G)
    (hrow : row.length = 2 ^ q) (t : G)
    (h : (2 * q + 1) * S.card ^ q < countChallenges S (q + 1) (fun y =>
      SimpleAccepted row t a (y.getD 0 0) ((P (y.getD 0 0)).talk (y.drop 1)))) :
    ∃ (β : Fin 2 → F) (T : Fin 2 → LmpaTree F G q),
      (∀ i, ∀ c ∈ (T i).paths, c = (P (β i)).talk c.2.2.1) ∧
      (extractSimple β fun i => (T i).scalars).length = row.length ∧
      dot (extractSimple β fun i => (T i).scalars) row = t := by
  have hb := (prod_bound S.card (2 :: List.replicate q 3) (by simp)).2
  obtain ⟨β, hβ, -, h⟩ : HasTree S (2 :: List.replicate q 3) fun y =>
      SimpleAccepted row t a (y.getD 0 0) ((P (y.getD 0 0)).talk (y.drop 1)) := by
    by_contra hno
    have := count_of_not_hasTree S _ _ hno
    simp only [List.map_cons, List.prod_cons, List.map_replicate, List.prod_replicate, List.length_cons,
      List.length_replicate, List.sum_cons, List.sum_replicate, smul_eq_mul, Nat.add_sub_cancel] at hb this
    rw [show 2 - 1 + q * (3 - 1) = 2 * q + 1 by omega] at hb
    have h1 := this.trans hb
    rw [add_comm] at h1
    exact absurd (Nat.le_of_add_le_add_left h1) (Nat.not_le.2 h)
  choose T hT hc using fun i => lmpaTree_of_hasTree S (P (β i)) (SimpleAccepted row t a (β i)) (h i)
  exact ⟨β, T, fun i c h => (hc i c h).2, C52_simple_sound row hrow t a β
    (fun h => absurd (hβ h) (by decide)) T hT fun i c h => (hc i c h).1⟩

/-! ### The hypotheses are met by honest provers -/

omit [DecidableEq F] in
/-- A conversation that satisfies the closed form of the check is accepted in some run. -/
theorem IpaAccepted.of_accepts (cod : Codec G) (enc : F → Vector UInt8 64)
    (henc : ∀ y, (leNat (enc y).toList : F) = y) (Gs Hs : List G) (Q P : G) (t α : F) (c : IpaPath F G)
    (hG : Gs.length = 2 ^ c.xs.length) (hH : Hs.length = 2 ^ c.xs.length) (h64 : c.xs.length < 64)
    (hL : c.Ls.length = c.xs.length) (hR : c.Rs.length = c.xs.length)
    (h : c.Accepts Gs Hs (α⁻¹ • Q) (P - ((α - 1) * t) • (α⁻¹ • Q))) :
    IpaAccepted Gs Hs Q (2 ^ c.xs.length) P t α c := by
  set cx := programmed cod enc (α :: c.xs) with hcx
  set p : Ipa.NoZK F := ⟨c.Ls.map cx.compress, c.Rs.map cx.compress, c.a, c.b⟩ with hp
  have sq : ∀ log, squeeze F cx.ro log = _ := squeeze_programmed cod enc henc _
  have c5 : ipaAlpha F cx.ro [] (2 ^ c.xs.length) = α := by rw [ipaAlpha, sq]; rfl
  have c6 : ipaChallenges F cx.ro [] (2 ^ c.xs.length) p.L_vec p.R_vec = c.xs :=
    roundChallenges_programmed cod enc henc _ c.xs _ _ _ (by simp [hp, hL]) (by simp [hp, hR]) rfl
  refine ⟨cx, ⟨[]⟩, ⟨[] ++ headLog (2 ^ c.xs.length) ++ roundsLog p.L_vec p.R_vec⟩, c5, c6, ?_⟩
  have hv : Verifiable cx p Gs Hs (2 ^ c.xs.length) := by
    refine ⟨?_, ?_, by simp [hp, hL, h64], by simp [hp, hL], ?_, ?_⟩
    · intro y hy
      obtain ⟨L, -, rfl⟩ := List.mem_map.1 hy
      rw [cx.decompress_compress]; rfl
    · intro y hy
      obtain ⟨L, -, rfl⟩ := List.mem_map.1 hy
      rw [cx.decompress_compress]; rfl
    · rw [hG]; simp [hp, hL, hR]
    · rw [hH]; simp [hp, hL, hR]
  have := C19_ipa_verdict cx p ⟨[]⟩ Gs Hs Q (2 ^ c.xs.length) P t c.Ls c.Rs rfl rfl hv
  simp only [c5, c6] at this
  have lL : p.L_vec.length = c.xs.length := by simp [hp, hL]
  have lR : p.R_vec.length = c.xs.length := by simp [hp, hR]
  rw [lL, lR, min_self] at this
  rw [show (⟨c.Ls.map cx.compress, c.Rs.map cx.compress, c.a, c.b⟩ : Ipa.NoZK F) = p from rfl, this]
  congr 2
  rw [decide_eq_true_eq]
  exact h

omit [DecidableEq F] [DecidableEq G] [AddCommGroup G] [Module F G] [Field F] in
theorem countChallenges_all (S : Finset F) (d : Nat) (A : List F → Prop)
    (h : ∀ y : List F, y.length = d → (∀ x ∈ y, x ∈ S) → A y) : countChallenges S d A = S.card ^ d := by
  classical
  unfold countChallenges
  rw [Finset.filter_true_of_mem, Fintype.card_piFinset]
  · simp
  · intro c hc
    rw [Fintype.mem_piFinset] at hc
    refine h _ (by simp) fun x hx => ?_
    obtain ⟨i, rfl⟩ := List.mem_ofFn.1 hx
    exact hc i

omit [DecidableEq F] in
/-- C64: for a true claim the honest prover is accepted for all sequences of challenges. -/
theorem C64_ipa_honest {q : Nat} (h64 : q < 64) (cod : Codec G) (enc : F → Vector UInt8 64)
    (henc : ∀ y, (leNat (enc y).toList : F) = y) (S : Finset F) (hS : (0 : F) ∉ S) (Gs Hs : List G)
    (hG : Gs.length = 2 ^ q) (hH : Hs.length = 2 ^ q) (Q : G) (a b : List F) (ha : a.length = 2 ^ q)
    (hb : b.length = 2 ^ q) :
    countChallenges S (q + 1) (fun y =>
      IpaAccepted Gs Hs Q (2 ^ q) (dot a Gs + dot b Hs + dot a b • Q) (dot a b) (y.getD 0 0)
        ((honestProver ((y.getD 0 0)⁻¹ • Q) q Gs Hs a b).talk (y.drop 1))) = S.card ^ (q + 1) := by
  refine countChallenges_all S _ _ fun y hy hyS => ?_
  match y, hy with
  | α :: xs, hy =>
    have hα : α ≠ 0 := fun h => hS (h ▸ hyS α List.mem_cons_self)
    have hx : xs.length = q := by simpa using hy
    simp only [List.getD_cons_zero, List.drop_succ_cons, List.drop_zero]
    obtain ⟨h1, h2, h3⟩ := talk_length (honestProver (α⁻¹ • Q) q Gs Hs a b) xs hx
    have h4 := honestProver_accepts (α⁻¹ • Q) q Gs Hs a b xs hG hH ha hb hx
    have hq : ((honestProver (α⁻¹ • Q) q Gs Hs a b).talk xs).xs.length = q := by rw [h3, hx]
    have := IpaAccepted.of_accepts cod enc henc Gs Hs Q (dot a Gs + dot b Hs + dot a b • Q) (dot a b) α
      ((honestProver (α⁻¹ • Q) q Gs Hs a b).talk xs) (by rw [hq, hG]) (by rw [hq, hH]) (by rw [hq]; exact h64)
      (by rw [hq, h1]) (by rw [hq, h2]) (by
        convert h4 using 1
        have e : Q = α • (α⁻¹ • Q) := by rw [smul_smul, mul_inv_cancel₀ hα, one_smul]
        conv_lhs => rw [e]
        rw [smul_smul α⁻¹ α, inv_mul_cancel₀ hα]
        module)
    rwa [hq] at this

/-- The honest prover of the rounds of the linear-map argument. -/
def honestLmpa : (q : Nat) → (row : List G) → (w : List F) → LmpaProver F G q
  | 0, _, w => .final (w.headD 0)
  | q + 1, row, w =>
    let n := 2 ^ q
    .round (dot (w.drop n) (row.take n)) (dot (w.take n) (row.drop n)) fun x =>
      honestLmpa q (Lmpa.foldRow x row) (List.zipWith (fun l r => x * l + 1 * r) (w.take n) (w.drop n))

omit [AddCommGroup G] [Module F G] [DecidableEq F] [DecidableEq G] in
theorem lmpa_talk_length : ∀ {q : Nat} (P : LmpaProver F G q) (xs : List F), xs.length = q →
    (P.talk xs).1.length = q ∧ (P.talk xs).2.1.length = q ∧ (P.talk xs).2.2.1 = xs
  | _, .final w, xs, h => by
    rw [List.length_eq_zero_iff] at h
    subst h
    simp [LmpaProver.talk]
  | q + 1, .round L R next, x :: xs, h => by
    obtain ⟨h1, h2, h3⟩ := lmpa_talk_length (next x) xs (by simpa using h)
    simp [LmpaProver.talk, h1, h2, h3]

omit [DecidableEq F] [DecidableEq G] in
theorem honestLmpa_accepts : ∀ (q : Nat) (row : List G) (w xs : List F), row.length = 2 ^ q →
    w.length = 2 ^ q → xs.length = q →
    let c := (honestLmpa q row w).talk xs
    Conversation.accepts row (dot w row) c.1 c.2.1 c.2.2.1 c.2.2.2
  | 0, row, w, xs, hrow, hw, hx => by
    rw [pow_zero, List.length_eq_one_iff] at hrow hw
    obtain ⟨g, rfl⟩ := hrow
    obtain ⟨y, rfl⟩ := hw
    rw [List.length_eq_zero_iff] at hx
    subst hx
    change Conversation.accepts [g] _ [] [] [] y
    simp [Conversation.accepts, foldedRow, foldedTarget, weightG, dot]
  | q + 1, row, w, x :: xs, hrow, hw, hx => by
    have hp : 2 ^ (q + 1) = 2 ^ q + 2 ^ q := by rw [pow_succ]; omega
    have hx : xs.length = q := by simpa using hx
    rw [hp] at hw
    have ih := honestLmpa_accepts q (Lmpa.foldRow x row)
      (List.zipWith (fun l r => x * l + 1 * r) (w.take (2 ^ q)) (w.drop (2 ^ q))) xs
      (by rw [Lmpa.foldRow_length, hrow, hp]; omega) (by simp; omega) hx
    simp only [honestLmpa, LmpaProver.talk] at ih ⊢
    set c := LmpaProver.talk _ xs with hc
    have hl : c.2.2.1.length = q := by rw [hc, (lmpa_talk_length _ xs hx).2.2, hx]
    unfold Conversation.accepts at ih ⊢
    rw [Lmpa.foldedTarget_cons, ← Lmpa.foldedRow_fold _ _ _ (by rw [hl]; exact hrow), ih]
    congr 1
    set n := 2 ^ q
    rw [hp] at hrow
    have e : Lmpa.foldRow x row = List.zipWith (fun l r => (1 : F) • l + x • r) (row.take n) (row.drop n) := by
      unfold Lmpa.foldRow
      rw [show row.length / 2 = n by omega]
      simp
    rw [e, dot_comb_right 1 x _ (by simp; omega), dot_comb_left x 1 _ (by simp; omega),
      dot_comb_left x 1 _ (by simp; omega), ← dot_take_drop n (s := w) (p := row) (by omega)]
    module

omit [DecidableEq F] [DecidableEq G] in
theorem lmpaChallenges_programmed (cod : Codec G) (enc : F → Vector UInt8 64)
    (henc : ∀ y, (leNat (enc y).toList : F) = y) (ys : List F) : ∀ (xs : List F) (log : List Event)
    (Ls Rs : List (List G)), Ls.length = xs.length → Rs.length = xs.length →
    ys.drop (challengesIn log) = xs → lmpaChallenges F (programmed cod enc ys) log Ls Rs = xs
  | [], log, Ls, Rs, hL, hR, h => by
    rw [List.length_nil, List.length_eq_zero_iff] at hL hR
    subst hL hR
    simp [lmpaChallenges]
  | x :: xs, log, L :: Ls, R :: Rs, hL, hR, h => by
    have hmsg : ∀ (cx : Ctx G) label (ps : List G), challengesIn (pointsLog cx label ps) = 0 := by
      intro cx label ps
      simp [challengesIn, pointsLog, List.filter_map, Function.comp_def]
    have h1 : challengesIn (log ++ lmpaRoundLog (programmed cod enc ys) (L, R)) = challengesIn log + 1 := by
      rw [challengesIn_append, lmpaRoundLog, challengesIn_append, challengesIn_append, hmsg, hmsg]; rfl
    rw [Lmpa.lmpaChallenges_cons, squeeze_programmed _ _ henc, h1,
      lmpaChallenges_programmed cod enc henc ys xs _ Ls Rs (by simpa using hL) (by simpa using hR)
        (by rw [h1, ← List.drop_drop, h]; rfl)]
    congr 1
    have : ys[challengesIn log]? = some x := by
      have := congrArg (fun l => l[0]?) h
      simpa using this
    rw [Nat.add_sub_cancel, List.getD_eq_getElem?_getD, this]
    rfl

omit [DecidableEq F] in
/-- C66: for `t = ⟨w, row⟩` the honest prover is accepted for all sequences of challenges. -/
theorem C66_lmpa_honest {q : Nat} (cod : Codec G) (enc : F → Vector UInt8 64)
    (henc : ∀ y, (leNat (enc y).toList : F) = y) (S : Finset F) (row : List G) (hrow : row.length = 2 ^ q)
    (w : List F) (hw : w.length = 2 ^ q) :
    countChallenges S q (fun y => LmpaAccepted row (dot w row) ((honestLmpa q row w).talk y)) =
      S.card ^ q := by
  refine countChallenges_all S _ _ fun y hy _ => ?_
  have ha := honestLmpa_accepts q row w y hrow hw hy
  obtain ⟨h1, h2, h3⟩ := lmpa_talk_length (honestLmpa q row w) y hy
  set c := (honestLmpa q row w).talk y with hc
  obtain ⟨b, tr', e1, e2⟩ := C43_lmpa_verify_one_row (programmed cod enc y) q (q + 1) ⟨[]⟩ row row c.1 c.2.1
    c.2.2.2 (dot w row) (by omega) hrow hrow h1 h2
  have hch := lmpaChallenges_programmed cod enc henc y y [] (c.1.map fun L => [L]) (c.2.1.map fun R => [R])
    (by simp [h1, hy]) (by simp [h2, hy]) rfl
  simp only [hch] at e2
  simp only [h3] at ha
  refine ⟨programmed cod enc y, q + 1, ⟨[]⟩, tr', row, by rw [h3]; exact hch, ?_⟩
  rw [hrow, e1, e2.2 ha]

omit [DecidableEq F] in
/-- C66: the honest prover of SimpleZK, that sends `a = ⟨r, row⟩` and goes on with `beta w + r`, is accepted
for all sequences of challenges if `t = ⟨w, row⟩`. -/
theorem C66_simple_honest {q : Nat} (cod : Codec G) (enc : F → Vector UInt8 64)
    (henc : ∀ y, (leNat (enc y).toList : F) = y) (S : Finset F) (row : List G) (hrow : row.length = 2 ^ q)
    (w r : List F) (hw : w.length = 2 ^ q) (hr : r.length = 2 ^ q) :
    countChallenges S (q + 1) (fun y => SimpleAccepted row (dot w row) (dot r row) (y.getD 0 0)
      ((honestLmpa q row (List.zipWith (fun w r => y.getD 0 0 * w + r) w r)).talk (y.drop 1))) =
      S.card ^ (q + 1) := by
  refine countChallenges_all S _ _ fun y hy _ => ?_
  match y, hy with
  | β :: xs, hy =>
  simp only [List.getD_cons_zero, List.drop_succ_cons, List.drop_zero]
  have hx : xs.length = q := by simpa using hy
  set w' := List.zipWith (fun w r => β * w + r) w r with hw'
  have ha := honestLmpa_accepts q row w' xs hrow (by simp [hw', hw, hr]) hx
  obtain ⟨h1, h2, h3⟩ := lmpa_talk_length (honestLmpa q row w') xs hx
  set c := (honestLmpa q row w').talk xs with hc
  set cx := programmed cod enc (β :: xs) with hcx
  have e1 : challengesIn (simpleLog cx [] [dot r row]) = 1 := by simp [challengesIn, simpleLog]
  have hβ : simpleBeta F cx [] [dot r row] = β := by
    rw [simpleBeta, hcx, squeeze_programmed _ _ henc, ← hcx, e1]; rfl
  have hd : dot w' row = β • dot w row + dot r row := by
    have := dot_comb_left β 1 (s := w) (s' := r) row (by omega)
    simpa [hw'] using this
  have hch := lmpaChallenges_programmed cod enc henc (β :: xs) xs (simpleLog cx [] [dot r row])
    (c.1.map fun L => [L]) (c.2.1.map fun R => [R]) (by simp [h1, hx]) (by simp [h2, hx]) (by rw [e1]; rfl)
  rw [← hcx] at hch
  obtain ⟨b, tr', v1, v2⟩ := C52_simple_verdict cx q (q + 1) ⟨[]⟩ row row c.1 c.2.1
    c.2.2.2 (dot w row) (dot r row) (by omega) hrow hrow h1 h2
  simp only [hch, hβ, ← hd] at v2
  simp only [h3] at ha
  refine ⟨cx, q + 1, ⟨[]⟩, tr', row, hβ, by rw [h3]; exact hch, ?_⟩
  rw [hrow, v1, v2.2 ha]

section
open Toy

/-- C64: the hypothesis of the knowledge theorem holds for the honest prover with all 100 non-zero
challenges. -/
example :
    let S := Finset.univ.erase (0 : K)
    let Gs : List K := [3, 5, 8, 13]
    let Hs : List K := [21, 34, 55, 89]
    let a : List K := [1, 2, 3, 4]
    let b : List K := [5, 6, 7, 9]
    S.card ^ (2 + 1) < countChallenges S (2 + 1) (fun y =>
      IpaAccepted Gs Hs (7 : K) (2 ^ 2) (dot a Gs + dot b Hs + dot a b • 7) (dot a b)
        (y.getD 0 0) ((honestProver ((y.getD 0 0)⁻¹ • (7 : K)) 2 Gs Hs a b).talk (y.drop 1))) +
      (S.card - 1) * (S.card - 3) ^ 2 := by
  intro S Gs Hs a b
  rw [C64_ipa_honest (q := 2) (by decide) codec exEnc exEnc_value S (by simp [S]) Gs Hs rfl rfl 7 a b rfl rfl]
  decide +kernel

/-- C65: a violated equation, with generators that have no relation: every prover that commits to `(1, 3)`
fails for all but `14 N ^ 6` of the `N ^ 7` sequences of challenges. -/
example (S : Finset K) (hS : (0 : K) ∉ S) (v : K → List K) (hv : ∀ x, (v x).length = 4)
    (C_r : K → K → K → Fin 9 → K) (P : K → K → K → K → K → IpaProver K (Fin 9 → K) 2) :
    countChallenges S 7 (fun y =>
        QesaAccepted unitG unitH unitQ exEqs (dot (List.ofFn (![1, 3] : Fin 2 → K) ++ [0, 0]) unitG)
          (dot (v (y.getD 0 0)) unitH) (y.getD 0 0)
          (y.getD 1 0) (y.getD 2 0) (C_r (y.getD 0 0) (y.getD 1 0) (y.getD 2 0)) (y.getD 3 0) (y.getD 4 0)
          ((P (y.getD 0 0) (y.getD 1 0) (y.getD 2 0) (y.getD 3 0) (y.getD 4 0)).talk (y.drop 5))) ≤
      14 * S.card ^ 6 :=
  C65_qesa_soundness_error (m := 1) (q := 2) rfl S hS unitG unitH rfl rfl unitQ unit_no_relation exEqs ![1, 3]
    rfl 0 0 v hv C_r P 0 (by decide) (by decide +kernel)

/-- C66: the hypothesis of the knowledge theorem holds for the honest prover with all 101 challenges. -/
example : 2 * 2 * (Finset.univ : Finset K).card ^ (2 - 1) < countChallenges (Finset.univ : Finset K) 2 (fun y =>
    LmpaAccepted [3, 5, 8, 13] (dot [(2 : K), 7, 1, 8] [(3 : K), 5, 8, 13])
      ((honestLmpa 2 [(3 : K), 5, 8, 13] [2, 7, 1, 8]).talk y)) := by
  rw [C66_lmpa_honest (q := 2) codec exEnc exEnc_value _ _ rfl _ rfl]
  decide +kernel

/-- C66: the same for SimpleZK. -/
example : (2 * 2 + 1) * (Finset.univ : Finset K).card ^ 2 < countChallenges (Finset.univ : Finset K) 3 (fun y =>
    SimpleAccepted [3, 5, 8, 13] (dot [(2 : K), 7, 1, 8] [(3 : K), 5, 8, 13]) (dot [(4 : K), 6, 9, 1] [(3 : K), 5, 8, 13])
      (y.getD 0 0) ((honestLmpa 2 [(3 : K), 5, 8, 13]
        (List.zipWith (fun w r => y.getD 0 0 * w + r) [2, 7, 1, 8] [4, 6, 9, 1])).talk (y.drop 1))) := by
  rw [C66_simple_honest (q := 2) codec exEnc exEnc_value _ _ rfl _ _ rfl rfl]
  decide +kernel
end

end Qesa.Props
