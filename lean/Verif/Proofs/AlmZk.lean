import Verif.Model.IpaAlmZk
import Verif.SpecAlm
import Verif.Proofs.IpaCreate
import Verif.Proofs.GramSchmidt
import Verif.Props.Ipa
import Verif.Props.GramSchmidt
/- Helper lemmas about AlmZK. -/
namespace Qesa.Ipa
open Qesa Spec Props
variable {F G : Type} [Field F] [AddCommGroup G] [Module F G]

/-- The verifier up to the call of the inner-product argument. -/
theorem alm_verify_eq [DecidableEq G] (cx : Ctx G) (p : AlmZK F) (tr : Transcript) (Gs Hs : List G)
    (Q : G) (n : Nat) (C_w : G) (t : F) (C_r : G) (hr : p.C_r = cx.compress C_r) :
    p.verify cx tr Gs Hs Q n C_w t =
      let β := almBeta F cx.ro tr.log p.C_r
      let P := β • C_w + C_r + (β * β * t) • Q
      p.NoZK.verify cx ⟨tr.log ++ almHead p.C_r (cx.compress P)⟩ Gs Hs Q n P (β * β * t) := by
  unfold AlmZK.verify
  rw [hr, cx.decompress_compress]
  simp only [unwrapR, ok_bind, challengeScalar_eq, Transcript.appendMessage, almBeta, almHead,
    List.append_assoc, List.cons_append, List.nil_append]

theorem alm_verify_undecodable [DecidableEq G] (cx : Ctx G) (p : AlmZK F) (tr : Transcript)
    (Gs Hs : List G) (Q : G) (n : Nat) (C_w : G) (t : F) (hr : cx.decompress p.C_r = none) :
    p.verify cx tr Gs Hs Q n C_w t = .error .unwrapNone := by
  unfold AlmZK.verify
  rw [hr]; rfl

variable [DecidableEq F]

/-- Everything that follows from a successful run of the prover. -/
theorem createAlm_ok (cx : Ctx G) (tr tr' : Transcript) (tape tape' : Tape F) (Gs Hs : List G)
    (Q C_w : G) (a b : List F) (t : F) (p : AlmZK F)
    (h : createAlm cx tr tape Gs Hs Q C_w a b t = .ok (p, tr', tape')) :
    ∃ r' r'' tape1 k, sampleGramSchmidt b tape = .ok (r', tape1) ∧
      sampleGramSchmidtTwice a r' tape1 = .ok (r'', tape') ∧
      Gs.length = 2 ^ k ∧ Hs.length = 2 ^ k ∧ b.length = 2 ^ k ∧ r'.length = 2 ^ k ∧
      r''.length = 2 ^ k ∧ 2 ^ k ≤ a.length ∧
      p.C_r = cx.compress (dot r' Gs + dot r'' Hs) ∧
      let β := almBeta F cx.ro tr.log p.C_r
      let P := β • C_w + (dot r' Gs + dot r'' Hs) + (β * β * t) • Q
      create cx ⟨tr.log ++ almHead p.C_r (cx.compress P)⟩ Gs Hs Q
        (List.zipWith (fun a r => β * a + r) a r') (List.zipWith (fun b r => β * b + r) b r'') =
          .ok (p.NoZK, tr') := by
  unfold createAlm at h
  obtain ⟨⟨r', tape1⟩, h1, h⟩ := bind_eq_ok.1 h
  obtain ⟨⟨r'', tape2⟩, h2, h⟩ := bind_eq_ok.1 h
  obtain ⟨C_r, h3, h⟩ := bind_eq_ok.1 h
  obtain ⟨⟨q, tr2⟩, h4, h⟩ := bind_eq_ok.1 h
  simp only [R_pure, Except.ok.injEq, Prod.mk.injEq] at h
  obtain ⟨rfl, rfl, rfl⟩ := h
  obtain ⟨h5, rfl⟩ := msm_eq_ok.1 h3
  obtain ⟨k, l1, l2, l3, l4⟩ := create_ok _ _ _ _ _ _ _ _ h4
  obtain ⟨s, hs, hos⟩ := sampleGramSchmidt_ok h1
  have lr' := orth_length hos hs.symm
  obtain ⟨o, s2, ho, h6, h7⟩ := sampleGramSchmidtTwice_ok h2
  obtain ⟨s3, hs3, hos3⟩ := sampleGramSchmidt_ok h6
  have ls2 := orth_length hos3 hs3.symm
  have lo : o.length = min r'.length a.length := by
    obtain ⟨_, rfl⟩ := orth_eq_ok ho; simp
  have lr'' : r''.length = min s2.length o.length := by
    obtain ⟨_, rfl⟩ := orth_eq_ok h7; simp
  simp only [List.length_zipWith, List.length_append] at l1 l2 h5
  have e1 : r''.length = 2 ^ k := by omega
  have e2 : r'.length = 2 ^ k := by omega
  refine ⟨r', r'', tape1, k, h1, h2, l3, l4, by omega, e2, e1, by omega, ?_, ?_⟩
  · rw [dot_append (by omega)]
  · rw [dot_append (by omega)] at h4
    simp only [Transcript.appendMessage, List.append_assoc, List.cons_append,
      List.nil_append] at h4
    rw [dot_append (by omega)]
    exact h4

omit [DecidableEq F] in
/-- Commitment to the masked vectors. -/
theorem masked_dot (β : F) (a r : List F) (Gs : List G) (h : a.length = r.length) :
    dot (List.zipWith (fun a r => β * a + r) a r) Gs = β • dot a Gs + dot r Gs := by
  have : (fun a r : F => β * a + r) = fun a r => β * a + 1 * r := by funext a r; ring
  rw [this, dot_comb_left _ _ _ h, one_smul]

omit [DecidableEq F] in
theorem masked_product (β : F) (a b r' r'' : List F) (ha : a.length = r'.length)
    (hb : b.length = r''.length) :
    dot (List.zipWith (fun a r => β * a + r) a r') (List.zipWith (fun b r => β * b + r) b r'') =
      β * β * dot a b + β * dot a r'' + β * dot b r' + dot r' r'' := by
  rw [masked_dot _ _ _ _ ha, dot_comm a, masked_dot _ _ _ _ hb, dot_comm r', masked_dot _ _ _ _ hb,
    dot_comm b a, dot_comm r'' a, dot_comm r'' r']
  simp only [smul_eq_mul]; ring

end Qesa.Ipa
