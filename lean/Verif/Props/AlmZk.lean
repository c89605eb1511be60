import Verif.Proofs.AlmZk
import Verif.Toy
/- Properties of ipa::alm_zk: C11 (second part), C24. -/
namespace Qesa.Props
open Qesa Spec Ipa
variable {F G : Type} [Field F] [AddCommGroup G] [Module F G] [DecidableEq G]

/-- C11: everything `AlmZK::verify` does to the transcript, for every proof and verdict.  The point
`P` absorbed is `β C_w + C_r + β² t Q`. -/
theorem C11_alm_verify_log (cx : Ctx G) (p : AlmZK F) (tr tr' : Transcript) (Gs Hs : List G) (Q : G)
    (n : Nat) (C_w : G) (t : F) (v : Bool) (h : p.verify cx tr Gs Hs Q n C_w t = .ok (v, tr')) :
    ∃ C_r, cx.decompress p.C_r = some C_r ∧
      let β := almBeta F cx.ro tr.log p.C_r
      tr'.log = tr.log ++
        [.msg "C_r" p.C_r, .chal "beta" 64,
         .msg "P" (cx.compress (β • C_w + C_r + (β * β * t) • Q)),
         .msg "n" (u64le n), .chal "alpha" 64] ++
        (List.zip p.NoZK.L_vec p.NoZK.R_vec).flatMap
          (fun LR => [.msg "L" LR.1, .msg "R" LR.2, .chal "x_i" 64]) := by
  cases hd : cx.decompress p.C_r with
  | none => rw [alm_verify_undecodable cx p tr Gs Hs Q n C_w t hd] at h; simp at h
  | some C_r =>
    refine ⟨C_r, rfl, ?_⟩
    rw [alm_verify_eq cx p tr Gs Hs Q n C_w t C_r (cx.compress_decompress _ _ hd).symm] at h
    have := C11_ipa_verify_log cx p.NoZK _ _ Gs Hs Q n _ _ v h
    simp only [almHead] at this
    simpa using this

variable [DecidableEq F]

omit [DecidableEq G] in
/-- C11: everything `alm_zk::create` does to the transcript. -/
theorem C11_alm_create_log (cx : Ctx G) (tr tr' : Transcript) (tape tape' : Tape F) (Gs Hs : List G)
    (Q C_w : G) (a b : List F) (t : F) (p : AlmZK F)
    (h : createAlm cx tr tape Gs Hs Q C_w a b t = .ok (p, tr', tape')) :
    ∃ C_r, cx.decompress p.C_r = some C_r ∧
      let β := almBeta F cx.ro tr.log p.C_r
      tr'.log = tr.log ++
        [.msg "C_r" p.C_r, .chal "beta" 64,
         .msg "P" (cx.compress (β • C_w + C_r + (β * β * t) • Q)),
         .msg "n" (u64le Gs.length), .chal "alpha" 64] ++
        (List.zip p.NoZK.L_vec p.NoZK.R_vec).flatMap
          (fun LR => [.msg "L" LR.1, .msg "R" LR.2, .chal "x_i" 64]) := by
  obtain ⟨r', r'', _, k, _, _, _, _, _, _, _, _, h1, h2⟩ := createAlm_ok cx tr tr' tape tape' Gs Hs Q
    C_w a b t p h
  refine ⟨_, by rw [h1]; exact cx.decompress_compress _, ?_⟩
  have := C11_ipa_create_log cx _ _ Gs Hs Q _ _ p.NoZK h2
  simp only [almHead] at this
  simpa using this

/-- The masks that `alm_zk::create` samples are drawn from non-isotropic bases. -/
def MasksFine (a b : List F) (tape : Tape F) : Prop :=
  dot a a ≠ 0 ∧ dot b b ≠ 0 ∧
    ∀ r' tape1 o, sampleGramSchmidt b tape = .ok (r', tape1) → orth a r' = .ok o → dot o o ≠ 0

/-- C24: completeness of AlmZK; the last hypothesis says that `alpha ≠ 0`. -/
theorem C24_alm_completeness (cx : Ctx G) (tr tr' : Transcript) (tape tape' : Tape F)
    (Gs Hs : List G) (Q : G) (a b : List F) (p : AlmZK F) (hlen : a.length = b.length)
    (h : createAlm cx tr tape Gs Hs Q (dot a Gs + dot b Hs) a b (dot a b) = .ok (p, tr', tape'))
    (hn : Gs.length < 2 ^ 64) (hm : MasksFine a b tape)
    (hα : ∀ C_r, cx.decompress p.C_r = some C_r →
      almAlpha cx tr.log Q (dot a Gs + dot b Hs) C_r (dot a b) Gs.length ≠ 0) :
    p.verify cx tr Gs Hs Q Gs.length (dot a Gs + dot b Hs) (dot a b) = .ok (true, tr') := by
  obtain ⟨r', r'', tape1, k, h1, h2, lG, lH, lb, lr', lr'', la, hC, hc⟩ :=
    createAlm_ok cx tr tr' tape tape' Gs Hs Q _ a b _ p h
  obtain ⟨haa, hbb, hoo⟩ := hm
  rw [alm_verify_eq cx p tr Gs Hs Q _ _ _ _ hC]
  obtain ⟨-, hbr⟩ := C13_sample_gram_schmidt b r' tape tape1 h1 hbb
  obtain ⟨o, _, ho, _, _⟩ := sampleGramSchmidtTwice_ok h2
  obtain ⟨-, har, hrr⟩ := C14_sample_gram_schmidt_twice a r' r'' o tape1 tape' (by omega) h2 haa ho
    (hoo r' tape1 o h1 ho)
  set β := almBeta F cx.ro tr.log p.C_r
  have hprod : dot (List.zipWith (fun a r => β * a + r) a r')
      (List.zipWith (fun b r => β * b + r) b r'') = β * β * dot a b := by
    rw [masked_product β a b r' r'' (by omega) (by omega), har, hbr, hrr]; ring
  have := C16_ipa_completeness cx _ tr' Gs Hs Q _ _ p.NoZK hc hn
    (by
      have := hα _ (by rw [hC]; exact cx.decompress_compress _)
      rw [almAlpha, ← hC] at this
      exact this)
  rw [hprod, masked_dot _ _ _ _ (by omega), masked_dot _ _ _ _ (by omega)] at this
  have hP : β • dot a Gs + dot r' Gs + (β • dot b Hs + dot r'' Hs) + (β * β * dot a b) • Q =
      β • (dot a Gs + dot b Hs) + (dot r' Gs + dot r'' Hs) + (β * β * dot a b) • Q := by module
  rw [hP] at this
  exact this

/-- `MasksFine` in a form that can be evaluated. -/
theorem masksFine_iff (a b : List F) (tape : Tape F) : MasksFine a b tape ↔
    dot a a ≠ 0 ∧ dot b b ≠ 0 ∧
      ((sampleGramSchmidt b tape >>= fun r => orth a r.1).map fun o => dot o o) ≠ .ok 0 := by
  unfold MasksFine
  constructor
  · rintro ⟨h1, h2, h3⟩
    refine ⟨h1, h2, ?_⟩
    cases e1 : sampleGramSchmidt b tape with
    | error e => simp [Except.map]
    | ok r =>
      simp only [ok_bind]
      cases e2 : orth a r.1 with
      | error e => simp [Except.map]
      | ok o =>
        simp only [Except.map, ne_eq, Except.ok.injEq]
        exact h3 r.1 r.2 o e1 e2
  · rintro ⟨h1, h2, h3⟩
    refine ⟨h1, h2, ?_⟩
    intro r' tape1 o e1 e2
    rw [e1, ok_bind] at h3
    simp only [e2, Except.map, ne_eq, Except.ok.injEq] at h3
    exact h3

section
open Toy

/-- The tape of the example below. -/
def exTape : Tape K := fun i => (7 * i * i + 3 * i + 1 : K)

/-- A run that meets all hypotheses of C24. -/
example : MasksFine [1, 2, 3, 4] [5, 6, 7, 9] exTape ∧
    (match createAlm cx ⟨[]⟩ exTape [3, 5, 8, 13] [21, 34, 55, 89] 7
        (dot [1, 2, 3, 4] [3, 5, 8, 13] + dot [5, 6, 7, 9] [21, 34, 55, (89 : K)] : K)
        [1, 2, 3, 4] [5, 6, 7, 9] (dot [1, 2, 3, 4] [5, 6, 7, (9 : K)]) with
      | .ok (p, _, _) =>
        match cx.decompress p.C_r with
        | some C_r =>
          almAlpha cx [] 7 (dot [1, 2, 3, 4] [3, 5, 8, 13] + dot [5, 6, 7, 9] [21, 34, 55, 89]) C_r
            (dot [1, 2, 3, 4] [5, 6, 7, (9 : K)]) 4 != 0
        | none => false
      | .error _ => false) = true := by
  rw [masksFine_iff]; decide +kernel
end

end Qesa.Props
