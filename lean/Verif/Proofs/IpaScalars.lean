import Verif.Proofs.IpaCreate
/- The two scalars of an honest proof of the inner-product argument in closed form. -/
namespace Qesa.Ipa
open Qesa Spec
variable {F G : Type} [Field F] [AddCommGroup G] [Module F G]

/-- The prover folds its vectors exactly as the verifier folds the generators, with the roles of the
two vectors exchanged. -/
theorem createLoop_scalars (cx : Ctx G) (Q : G) : ∀ (k fuel : Nat) (a b : List F) (Gs Hs : List G)
    (tr tr' : Transcript) (p : NoZK F), a.length = 2 ^ k → b.length = 2 ^ k →
    createLoop cx Q fuel (2 ^ k) a b Gs Hs tr = .ok (p, tr') →
    (generateChallenges (F := F) cx.ro p.L_vec p.R_vec tr).1.length = k ∧
    foldGens (2 ^ k) b a (generateChallenges (F := F) cx.ro p.L_vec p.R_vec tr).1 =
      .ok ([p.b], [p.a]) := by
  intro k
  induction k with
  | zero =>
    intro fuel a b Gs Hs tr tr' p ha hb h
    cases fuel with
    | zero => simp [createLoop] at h
    | succ fuel =>
      obtain ⟨a0, rfl⟩ := List.length_eq_one_iff.1 (by simpa using ha)
      obtain ⟨b0, rfl⟩ := List.length_eq_one_iff.1 (by simpa using hb)
      simp only [createLoop, pow_zero, if_true, idx_cons_zero, ok_bind, R_pure, Except.ok.injEq,
        Prod.mk.injEq] at h
      obtain ⟨rfl, rfl⟩ := h
      exact ⟨rfl, rfl⟩
  | succ k ih =>
    intro fuel a b Gs Hs tr tr' p ha hb h
    cases fuel with
    | zero => simp [createLoop] at h
    | succ fuel =>
      have h2 : 2 ^ (k + 1) / 2 = 2 ^ k := by rw [pow_succ]; omega
      have hp : 2 ^ (k + 1) = 2 ^ k + 2 ^ k := by rw [pow_succ]; omega
      have hk : 0 < 2 ^ k := Nat.pos_of_ne_zero (by simp)
      rw [createLoop, if_neg (by omega)] at h
      simp only [h2] at h
      rw [splitAtR_le (by omega), splitAtR_le (by omega)] at h
      simp only [ok_bind] at h
      obtain ⟨⟨GL, GR⟩, _, h⟩ := bind_eq_ok.1 h
      obtain ⟨⟨HL, HR⟩, _, h⟩ := bind_eq_ok.1 h
      obtain ⟨L, _, h⟩ := bind_eq_ok.1 h
      obtain ⟨Rp, _, h⟩ := bind_eq_ok.1 h
      rw [foldHalf_eq (by simp; omega)] at h
      simp only [ok_bind] at h
      rw [foldHalf_eq (by simp; omega)] at h
      simp only [ok_bind] at h
      obtain ⟨G', _, h⟩ := bind_eq_ok.1 h
      obtain ⟨H', _, h⟩ := bind_eq_ok.1 h
      obtain ⟨⟨q, tr2⟩, h3, h⟩ := bind_eq_ok.1 h
      simp only [R_pure, Except.ok.injEq, Prod.mk.injEq] at h
      obtain ⟨rfl, rfl⟩ := h
      obtain ⟨e1, e2⟩ := ih _ _ _ _ _ _ _ _ (by simp; omega) (by simp; omega) h3
      simp only [generateChallenges]
      refine ⟨by simpa using e1, ?_⟩
      rw [foldGens]
      simp only [h2]
      rw [splitAtR_le (by omega), splitAtR_le (by omega)]
      simp only [ok_bind, vectorVectorAdd_left, vectorVectorAdd_right]
      have e : ∀ x : F, (fun l r : F => l * x + r) = fun l r => x • l + r := by
        intro x; funext l r; simp [mul_comm]
      simp only [e] at e2
      exact e2

/-- The scalars that end an honest proof. -/
theorem create_scalars (cx : Ctx G) (tr tr' : Transcript) (Gs Hs : List G) (Q : G) (a b : List F)
    (p : NoZK F) (h : create cx tr Gs Hs Q a b = .ok (p, tr')) :
    let xs := ipaChallenges F cx.ro tr.log Gs.length p.L_vec p.R_vec
    2 ^ xs.length = Gs.length ∧
    p.a = ∑ i ∈ Finset.range Gs.length, weightH xs i * a.getD i 0 ∧
    p.b = ∑ i ∈ Finset.range Gs.length, weightG xs i * b.getD i 0 := by
  obtain ⟨k, ha, hb, hG, hH⟩ := create_ok cx tr Gs Hs Q a b _ h
  unfold create at h
  simp only [hG, hH, ha, hb] at h
  rw [rassert_true (c := Nat.isPowerOfTwo _) ⟨k, rfl⟩] at h
  simp only [rassert_True, ok_bind, challengeScalar_eq, Transcript.appendU64,
    Transcript.appendMessage, List.append_assoc, List.cons_append, List.nil_append] at h
  obtain ⟨e1, e2⟩ := createLoop_scalars cx _ k _ a b Gs Hs _ tr' p ha hb h
  rw [generateChallenges_eq] at e1 e2
  have e0 : ipaChallenges F cx.ro tr.log Gs.length p.L_vec p.R_vec =
      roundChallenges F cx.ro (tr.log ++ [Event.msg "n" (u64le (2 ^ k)), Event.chal "alpha" 64])
        p.L_vec p.R_vec := by rw [hG]; rfl
  intro xs
  have hxs : xs.length = k := by simpa only [xs, e0] using e1
  obtain ⟨G', H', f1, f2, f3⟩ := foldGens_eq xs k b a hxs.le
    (by rw [hxs, hb]; simp) (by rw [hxs, ha]; simp)
  have e3 : foldGens (2 ^ k) b a xs = .ok ([p.b], [p.a]) := by simpa only [xs, e0] using e2
  rw [e3, Except.ok.injEq, Prod.mk.injEq] at f1
  obtain ⟨rfl, rfl⟩ := f1
  simp only [idx_cons_zero, Except.ok.injEq, combined, hxs, Nat.sub_self, pow_zero, mul_one,
    smul_eq_mul] at f2 f3
  rw [hG]
  exact ⟨by rw [hxs], f3, f2⟩

end Qesa.Ipa
