import Mathlib.Tactic.LinearCombination
import Verif.Proofs.IpaScalars
import Verif.Proofs.AlmZk
import Verif.Toy
/- C72: what the scalars of an inner-product proof say, and the missing mask of AlmZK for two
generators. -/
namespace Qesa.Props
open Qesa Spec Ipa
variable {F G : Type} [Field F] [AddCommGroup G] [Module F G]

/-- C72: the scalars that end an honest proof of the inner-product argument are fixed linear forms of
the two vectors.  The coefficients are products of challenges that everybody can recompute from the
proof. -/
theorem C72_ipa_scalars (cx : Ctx G) (tr tr' : Transcript) (Gs Hs : List G) (Q : G) (a b : List F)
    (p : Ipa.NoZK F) (h : create cx tr Gs Hs Q a b = .ok (p, tr')) :
    let xs := ipaChallenges F cx.ro tr.log Gs.length p.L_vec p.R_vec
    2 ^ xs.length = Gs.length ∧
    p.a = ∑ i ∈ Finset.range Gs.length,
      (∏ j : Fin xs.length, if i.testBit (xs.length - 1 - j) then 1 else xs[j]) * a.getD i 0 ∧
    p.b = ∑ i ∈ Finset.range Gs.length,
      (∏ j : Fin xs.length, if i.testBit (xs.length - 1 - j) then xs[j] else 1) * b.getD i 0 :=
  create_scalars cx tr tr' Gs Hs Q a b p h

variable [DecidableEq F]

/-- With two entries the second mask is zero. -/
theorem twice_two (a0 a1 : F) (r' r'' : List F) (tape tape' : Tape F) (hr : r'.length = 2)
    (ha : a0 * a0 + a1 * a1 ≠ 0)
    (h : sampleGramSchmidtTwice [a0, a1] r' tape = .ok (r'', tape')) : r'' = [0, 0] := by
  obtain ⟨r0, r1, rfl⟩ := List.length_eq_two.1 hr
  obtain ⟨o, s2, ho, h6, h7⟩ := sampleGramSchmidtTwice_ok h
  obtain ⟨s3, hs3, hos3⟩ := sampleGramSchmidt_ok h6
  obtain ⟨s0, s1, rfl⟩ := List.length_eq_two.1 (show s3.length = 2 by simpa using hs3)
  obtain ⟨hu, rfl⟩ := orth_eq_ok ho
  obtain ⟨hv, rfl⟩ := orth_eq_ok hos3
  obtain ⟨hw, rfl⟩ := orth_eq_ok h7
  simp only [List.zipWith_cons_cons, List.zipWith_nil_left, dot_cons, dot_nil_left, add_zero,
    smul_eq_mul, one_mul] at hu hv hw ⊢
  set α := (a0 * a0 + a1 * a1)⁻¹ with hα
  have hinv : (a0 * a0 + a1 * a1) * α = 1 := mul_inv_cancel₀ ha
  -- both vectors are multiples of `(-a1, a0)`
  set l := (a0 * r1 - a1 * r0) * α with hl
  set m := (a0 * s1 - a1 * s0) * α with hm
  have u0 : r0 + -((a0 * r0 + a1 * r1) * α) * a0 = -(a1 * l) := by
    rw [hl]; linear_combination (-r0) * hinv
  have u1 : r1 + -((a0 * r0 + a1 * r1) * α) * a1 = a0 * l := by
    rw [hl]; linear_combination (-r1) * hinv
  have v0 : s0 + -((a0 * s0 + a1 * s1) * α) * a0 = -(a1 * m) := by
    rw [hm]; linear_combination (-s0) * hinv
  have v1 : s1 + -((a0 * s0 + a1 * s1) * α) * a1 = a0 * m := by
    rw [hm]; linear_combination (-s1) * hinv
  rw [u0, u1, v0, v1] at hw ⊢
  have hl0 : l ≠ 0 := by rintro e; apply hw; rw [e]; ring
  have hd : -(a1 * l) * -(a1 * l) + a0 * l * (a0 * l) ≠ 0 := by
    have : -(a1 * l) * -(a1 * l) + a0 * l * (a0 * l) = (a0 * a0 + a1 * a1) * (l * l) := by ring
    rw [this]; exact mul_ne_zero ha (mul_ne_zero hl0 hl0)
  have hq : (-(a1 * l) * -(a1 * m) + a0 * l * (a0 * m)) *
      (-(a1 * l) * -(a1 * l) + a0 * l * (a0 * l))⁻¹ = m * l⁻¹ := by
    have e1 : -(a1 * l) * -(a1 * m) + a0 * l * (a0 * m) = (a0 * a0 + a1 * a1) * (l * m) := by ring
    have e2 : -(a1 * l) * -(a1 * l) + a0 * l * (a0 * l) = (a0 * a0 + a1 * a1) * (l * l) := by ring
    rw [e1, e2, ← div_eq_mul_inv, mul_div_mul_left _ _ ha, mul_div_mul_left _ _ hl0,
      div_eq_mul_inv]
  rw [hq]
  simp only [List.cons.injEq, and_true]
  constructor
  · linear_combination (m * a1) * mul_inv_cancel₀ hl0
  · linear_combination (-(m * a0)) * mul_inv_cancel₀ hl0

/-- C72: with two generators per side and a non-isotropic `a`, `alm_zk::create` never masks `b`.
Whatever the random tape, the commitment `C_r` contains no generator of the second vector, and the
second scalar of the proof is `beta (b₀ + x b₁)` for challenges `beta` and `x` that everybody can
recompute from the proof. -/
theorem C72_alm_two (cx : Ctx G) (tr tr' : Transcript) (tape tape' : Tape F) (g0 g1 : G)
    (Hs : List G) (Q C_w : G) (a0 a1 b0 b1 t : F) (p : AlmZK F) (ha : a0 * a0 + a1 * a1 ≠ 0)
    (h : createAlm cx tr tape [g0, g1] Hs Q C_w [a0, a1] [b0, b1] t = .ok (p, tr', tape')) :
    ∃ (r0 r1 x : F), p.C_r = cx.compress (r0 • g0 + r1 • g1) ∧
      let β := almBeta F cx.ro tr.log p.C_r
      let P := β • C_w + (r0 • g0 + r1 • g1) + (β * β * t) • Q
      ipaChallenges F cx.ro (tr.log ++ almHead p.C_r (cx.compress P)) 2 p.NoZK.L_vec p.NoZK.R_vec =
        [x] ∧
      p.NoZK.a = x * (β * a0 + r0) + (β * a1 + r1) ∧ p.NoZK.b = β * (b0 + x * b1) := by
  obtain ⟨r', r'', tape1, k, h1, h2, l1, l2, l3, l4, l5, l6, h3, h4⟩ :=
    createAlm_ok cx tr tr' tape tape' _ Hs Q C_w _ _ t p h
  have hk : 2 ^ k = 2 := l1.symm
  rw [hk] at l2 l4
  obtain rfl := twice_two a0 a1 r' r'' tape1 tape' l4 ha h2
  obtain ⟨r0, r1, rfl⟩ := List.length_eq_two.1 l4
  obtain ⟨h0, h1', rfl⟩ := List.length_eq_two.1 l2
  simp only [dot_cons, dot_nil_left, add_zero, zero_smul] at h3 h4
  obtain ⟨e1, e2, e3⟩ := create_scalars cx _ _ _ _ _ _ _ _ h4
  set xs := ipaChallenges F cx.ro
    (tr.log ++ almHead p.C_r (cx.compress (almBeta F cx.ro tr.log p.C_r • C_w +
      (r0 • g0 + r1 • g1) + (almBeta F cx.ro tr.log p.C_r * almBeta F cx.ro tr.log p.C_r * t) • Q)))
    2 p.NoZK.L_vec p.NoZK.R_vec with hxs
  have e0 : ipaChallenges F cx.ro
    (tr.log ++ almHead p.C_r (cx.compress (almBeta F cx.ro tr.log p.C_r • C_w +
      (r0 • g0 + r1 • g1) + (almBeta F cx.ro tr.log p.C_r * almBeta F cx.ro tr.log p.C_r * t) • Q)))
    [g0, g1].length p.NoZK.L_vec p.NoZK.R_vec = xs := rfl
  rw [e0] at e1 e2 e3
  have hlen : xs.length = 1 := by
    have : 2 ^ xs.length = 2 ^ 1 := by simpa using e1
    exact Nat.pow_right_injective (le_refl 2) this
  obtain ⟨x, hx⟩ := List.length_eq_one_iff.1 hlen
  refine ⟨r0, r1, x, h3, ?_⟩
  refine ⟨by rw [← hxs]; exact hx, ?_, ?_⟩
  · rw [e2, hx]
    simp [Finset.sum_range_succ, weightH]
  · rw [e3, hx]
    simp [Finset.sum_range_succ, weightG]
    ring

/-- The masking challenge of an AlmZK proof, as the verifier computes it. -/
def seenBeta (F : Type) [NatCast F] (cx : Ctx G) (tr : Transcript) (p : AlmZK F) : F :=
  squeeze F cx.ro (tr.log ++ [.msg "C_r" p.C_r, .chal "beta" 64])

/-- The challenge of the only round of an AlmZK proof of size two, as the verifier computes it. -/
def seenX (cx : Ctx G) (tr : Transcript) (Q C_w : G) (t : F) (p : AlmZK F) : F :=
  let β := seenBeta F cx tr p
  let P := β • C_w + (cx.decompress p.C_r).getD 0 + (β * β * t) • Q
  squeeze F cx.ro (tr.log ++ [.msg "C_r" p.C_r, .chal "beta" 64, .msg "P" (cx.compress P),
    .msg "n" (u64le 2), .chal "alpha" 64, .msg "L" (p.NoZK.L_vec.headD []),
    .msg "R" (p.NoZK.R_vec.headD []), .chal "x_i" 64])

/-- C72: what everybody can check of such a proof: `b` passes the test, whatever the tape. -/
theorem C72_alm_two_test (cx : Ctx G) (tr tr' : Transcript) (tape tape' : Tape F) (g0 g1 : G)
    (Hs : List G) (Q C_w : G) (a0 a1 b0 b1 t : F) (p : AlmZK F) (ha : a0 * a0 + a1 * a1 ≠ 0)
    (h : createAlm cx tr tape [g0, g1] Hs Q C_w [a0, a1] [b0, b1] t = .ok (p, tr', tape')) :
    p.NoZK.b = seenBeta F cx tr p * (b0 + seenX cx tr Q C_w t p * b1) := by
  obtain ⟨r0, r1, x, h1, h2, _, h3⟩ := C72_alm_two cx tr tr' tape tape' g0 g1 Hs Q C_w a0 a1 b0 b1 t
    p ha h
  have hx : seenX cx tr Q C_w t p = x := by
    have hd : cx.decompress p.C_r = some (r0 • g0 + r1 • g1) := by
      rw [h1, cx.decompress_compress]
    obtain ⟨C_r, ⟨L, Rv, a, b⟩⟩ := p
    simp only [ipaChallenges, roundChallenges] at h2
    cases L with
    | nil => simp at h2
    | cons l ls =>
      cases Rv with
      | nil => simp at h2
      | cons r rs =>
        simp only [List.length_cons, Nat.add_min_add_right, List.range_succ_eq_map, List.map_cons,
          List.cons.injEq] at h2
        rw [← h2.1]
        simp only [seenX, hd, Option.getD_some, seenBeta, almBeta, almHead, headLog, roundsLog,
          roundLog, List.take_succ_cons, List.take_zero, List.zip_cons_cons, List.zip_nil_left,
          List.flatMap_cons, List.flatMap_nil, List.headD_cons, List.append_assoc,
          List.cons_append, List.nil_append, List.append_nil, zero_add]
  rw [h3, hx]; rfl

/-- C72: two honest proofs of the same prover reveal `b` to everybody, provided the round challenges
differ and the masking challenges are not zero. -/
theorem C72_alm_two_recover (cx : Ctx G) (tr₁ tr₂ tr₁' tr₂' : Transcript)
    (tape₁ tape₂ tape₁' tape₂' : Tape F) (g0 g1 : G) (Hs : List G) (Q C_w : G)
    (a0 a1 b0 b1 t : F) (p₁ p₂ : AlmZK F) (ha : a0 * a0 + a1 * a1 ≠ 0)
    (h₁ : createAlm cx tr₁ tape₁ [g0, g1] Hs Q C_w [a0, a1] [b0, b1] t = .ok (p₁, tr₁', tape₁'))
    (h₂ : createAlm cx tr₂ tape₂ [g0, g1] Hs Q C_w [a0, a1] [b0, b1] t = .ok (p₂, tr₂', tape₂'))
    (hβ₁ : seenBeta F cx tr₁ p₁ ≠ 0) (hβ₂ : seenBeta F cx tr₂ p₂ ≠ 0)
    (hx : seenX cx tr₁ Q C_w t p₁ ≠ seenX cx tr₂ Q C_w t p₂) :
    b1 = (p₁.NoZK.b / seenBeta F cx tr₁ p₁ - p₂.NoZK.b / seenBeta F cx tr₂ p₂) /
        (seenX cx tr₁ Q C_w t p₁ - seenX cx tr₂ Q C_w t p₂) ∧
      b0 = p₁.NoZK.b / seenBeta F cx tr₁ p₁ - seenX cx tr₁ Q C_w t p₁ * b1 := by
  have h1 := sub_ne_zero.2 hx
  rw [C72_alm_two_test cx tr₁ tr₁' tape₁ tape₁' g0 g1 Hs Q C_w a0 a1 b0 b1 t p₁ ha h₁,
    C72_alm_two_test cx tr₂ tr₂' tape₂ tape₂' g0 g1 Hs Q C_w a0 a1 b0 b1 t p₂ ha h₂,
    mul_div_cancel_left₀ _ hβ₁, mul_div_cancel_left₀ _ hβ₂]
  refine ⟨?_, by ring⟩
  field_simp; ring

section
open Toy

/-- Two runs on different tapes that meet the hypotheses of C72_alm_two_recover, and the vector
`b = (5, 6)` computed from the two proofs alone. -/
example :
    let run (s : Nat) := createAlm cx ⟨[]⟩ (fun i => (7 * i * i + s * i + 1 : K)) [3, 5] [21, 34] 7
      (dot [1, 2] [3, 5] + dot [5, 6] [21, (34 : K)] : K) [1, 2] [5, 6] (dot [1, 2] [5, (6 : K)])
    (match run 3, run 4 with
      | .ok (p, _, _), .ok (q, _, _) =>
        let C_w : K := dot [1, 2] [3, 5] + dot [5, 6] [21, (34 : K)]
        let t : K := dot [1, 2] [5, (6 : K)]
        let x := seenX cx ⟨[]⟩ 7 C_w t p
        let y := seenX cx ⟨[]⟩ 7 C_w t q
        let e := p.NoZK.b / seenBeta K cx ⟨[]⟩ p
        let f := q.NoZK.b / seenBeta K cx ⟨[]⟩ q
        seenBeta K cx ⟨[]⟩ p != 0 && seenBeta K cx ⟨[]⟩ q != 0 && x != y &&
          (e - f) / (x - y) == 6 && e - x * 6 == 5
      | _, _ => false) = true := by
  decide +kernel
end

end Qesa.Props
