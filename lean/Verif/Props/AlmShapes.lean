import Verif.Props.AlmZk
import Verif.Proofs.Halts
import Verif.Toy
/- C83: on which inputs alm_zk::create and AlmZK::verify panic, and what happens when `a` is longer
than `b`. -/
namespace Qesa.Props
open Qesa Spec Ipa
variable {F G : Type} [Field F] [AddCommGroup G] [Module F G] [DecidableEq G]

omit [DecidableEq G] in
/-- C83: `AlmZK::verify` returns a verdict exactly when `C_r` can be decoded and the inner argument can
be verified for the same generators and the same `n`; it panics on all other inputs. -/
theorem C83_alm_verify_returns_iff [DecidableEq G] (cx : Ctx G) (p : AlmZK F) (tr : Transcript)
    (Gs Hs : List G) (Q : G) (n : Nat) (C_w : G) (t : F) :
    (∃ r, p.verify cx tr Gs Hs Q n C_w t = .ok r) ↔
      (cx.decompress p.C_r).isSome ∧ Verifiable cx p.NoZK Gs Hs n := by
  cases hd : cx.decompress p.C_r with
  | none => rw [alm_verify_undecodable cx p tr Gs Hs Q n C_w t hd]; simp
  | some C_r =>
    rw [alm_verify_eq cx p tr Gs Hs Q n C_w t C_r (cx.compress_decompress _ _ hd).symm]
    simp only [Option.isSome_some, true_and]
    exact C22_ipa_verify_returns_iff cx p.NoZK _ Gs Hs Q n _ _

variable [DecidableEq F]

omit [DecidableEq F] in
/-- What is left of `v` when its component along `u` is taken away. -/
def away (u v : List F) : List F := List.zipWith (fun x y => x - dot u v / dot u u * y) v u

theorem orth_away (u v o : List F) : orth u v = .ok o ↔ dot u v ≠ 0 ∧ o = away u v := by
  rw [orth_eq]
  have : List.zipWith (fun x y => 1 * x + (-(dot u v * (dot u u)⁻¹)) * y) v u = away u v := by
    unfold away; congr 1; funext x y; ring
  rw [this]
  by_cases h : dot u v = 0
  · simp [h]
  · simp [h, eq_comm]

omit [DecidableEq F] in
theorem away_length (u v : List F) : (away u v).length = min v.length u.length := by simp [away]

theorem bind_returns {α β : Type} {m : R α} {f : α → R β} (h : ∃ x, m = .ok x)
    (hf : ∀ x, ∃ r, f x = .ok r) : ∃ r, (m >>= f) = .ok r := by
  obtain ⟨x, rfl⟩ := h
  exact hf x

omit [DecidableEq F] in
theorem dot_away (c u v : List F) (hu : c.length ≤ u.length) (hv : c.length ≤ v.length) :
    dot c (away u v) = dot c v - dot u v / dot u u * dot c u := by
  unfold away
  generalize dot u v / dot u u = q
  induction c generalizing u v with
  | nil => simp
  | cons x c ih =>
    cases u with
    | nil => simp at hu
    | cons y u =>
      cases v with
      | nil => simp at hv
      | cons z v =>
        simp only [List.zipWith_cons_cons, dot_cons, smul_eq_mul]
        rw [ih u v (by simpa using hu) (by simpa using hv)]
        ring

omit [DecidableEq F] [DecidableEq G] in
theorem dot_take (a : List F) (v : List G) (n : Nat) (h : v.length ≤ n) :
    dot (a.take n) v = dot a v := by
  induction a generalizing v n with
  | nil => simp
  | cons x a ih =>
    cases v with
    | nil => simp
    | cons y v =>
      cases n with
      | zero => simp at h
      | succ n => simp only [List.take_succ_cons, dot_cons]; rw [ih v n (by simpa using h)]

omit [DecidableEq F] [Field F] in
theorem zipWith_take (f : F → F → F) (a v : List F) :
    List.zipWith f a v = List.zipWith f (a.take v.length) v := by
  induction a generalizing v with
  | nil => simp
  | cons x a ih =>
    cases v with
    | nil => simp
    | cons y v => simp [ih v]

omit [DecidableEq G] in
/-- C83: `alm_zk::create` returns a proof exactly when there are `2^k`, `k ≥ 1`, generators on both sides
and as many entries of `b`, at least as many of `a`, and none of the four inner products that `orth`
inverts around is zero. Here `s` and `s2` are the two sparse samples. -/
theorem C83_alm_create_returns_iff (cx : Ctx G) (tr : Transcript) (tape : Tape F) (Gs Hs : List G)
    (Q C_w : G) (a b : List F) (t : F) :
    (∃ r, createAlm cx tr tape Gs Hs Q C_w a b t = .ok r) ↔
      ∃ k s s2 tape1 tape2, 0 < k ∧ Gs.length = 2 ^ k ∧ Hs.length = 2 ^ k ∧ b.length = 2 ^ k ∧
        2 ^ k ≤ a.length ∧ sampleMNPlus b.length tape = .ok (s, tape1) ∧
        sampleMNPlus a.length tape1 = .ok (s2, tape2) ∧
        dot b s ≠ 0 ∧ dot a (away b s) ≠ 0 ∧ dot a s2 ≠ 0 ∧
        dot (away a (away b s)) (away a s2) ≠ 0 := by
  constructor
  · rintro ⟨⟨p, tr', tape'⟩, h⟩
    obtain ⟨r', r'', tape1, k, h1, h2, lG, lH, lb, -, -, la, -, -⟩ :=
      createAlm_ok cx tr tr' tape tape' Gs Hs Q C_w a b t p h
    unfold sampleGramSchmidt at h1
    obtain ⟨⟨s, tp⟩, h3, h1⟩ := bind_eq_ok.1 h1
    obtain ⟨o1, h4, h1⟩ := bind_eq_ok.1 h1
    simp only [R_pure, Except.ok.injEq, Prod.mk.injEq] at h1
    obtain ⟨rfl, rfl⟩ := h1
    obtain ⟨o, s', h5, h6, h7⟩ := sampleGramSchmidtTwice_ok h2
    unfold sampleGramSchmidt at h6
    obtain ⟨⟨s2, tp2⟩, h8, h6⟩ := bind_eq_ok.1 h6
    obtain ⟨o2, h9, h6⟩ := bind_eq_ok.1 h6
    simp only [R_pure, Except.ok.injEq, Prod.mk.injEq] at h6
    obtain ⟨rfl, rfl⟩ := h6
    obtain ⟨n1, rfl⟩ := (orth_away _ _ _).1 h4
    obtain ⟨n2, rfl⟩ := (orth_away _ _ _).1 h5
    obtain ⟨n3, rfl⟩ := (orth_away _ _ _).1 h9
    obtain ⟨n4, rfl⟩ := (orth_away _ _ _).1 h7
    refine ⟨k, s, s2, tp, tp2, ?_, lG, lH, lb, la, h3, h8, n1, n2, n3, n4⟩
    rcases Nat.eq_zero_or_pos k with rfl | hk
    · rw [lb, sampleMNPlus_panics _ (by simp)] at h3; simp at h3
    · exact hk
  · rintro ⟨k, s, s2, tape1, tape2, hk, lG, lH, lb, la, h1, h2, n1, n2, n3, n4⟩
    have ls : s.length = b.length := sampleMNPlus_length h1
    have ls2 : s2.length = a.length := sampleMNPlus_length h2
    have e1 : sampleGramSchmidt b tape = .ok (away b s, tape1) := by
      unfold sampleGramSchmidt
      rw [h1, ok_bind]; dsimp only; rw [(orth_away _ _ _).2 ⟨n1, rfl⟩]; rfl
    have e2 : sampleGramSchmidt a tape1 = .ok (away a s2, tape2) := by
      unfold sampleGramSchmidt
      rw [h2, ok_bind]; dsimp only; rw [(orth_away _ _ _).2 ⟨n3, rfl⟩]; rfl
    have e3 : sampleGramSchmidtTwice a (away b s) tape1 =
        .ok (away (away a (away b s)) (away a s2), tape2) := by
      unfold sampleGramSchmidtTwice
      rw [(orth_away _ _ _).2 ⟨n2, rfl⟩, ok_bind, e2, ok_bind]
      dsimp only; rw [(orth_away _ _ _).2 ⟨n4, rfl⟩]; rfl
    unfold createAlm
    rw [e1, ok_bind]
    dsimp only
    rw [e3, ok_bind]
    dsimp only
    rw [msm_eq (by simp only [List.length_append, away_length]; omega), ok_bind]
    simp only [challengeScalar_eq]
    refine bind_returns ((C17_ipa_create_returns_iff cx _ Gs Hs Q _ _).2 ⟨k, ?_, ?_, lG, lH⟩)
      fun _ => ⟨_, rfl⟩
    · simp only [List.length_zipWith, away_length]; omega
    · simp only [List.length_zipWith, away_length]; omega

theorem halts_sampleGramSchmidt (a : List F) (tape : Tape F) : Halts (sampleGramSchmidt a tape) := by
  unfold sampleGramSchmidt
  refine .bind ?_ fun _ => .bind ?_ fun _ => .ok _
  · by_cases h : a.length < 2
    · rw [sampleMNPlus_panics _ h]; exact .error (by simp)
    · obtain ⟨f, d, -, -, hs⟩ := C15_sparse_sampling (F := F) a.length (by omega)
      obtain ⟨r, e, -⟩ := hs tape
      rw [e]; exact .ok _
  · rw [orth_eq]; split
    · exact .error (by simp)
    · exact .ok _

omit [DecidableEq G] [DecidableEq F] in
theorem halts_create (cx : Ctx G) (tr : Transcript) (Gs Hs : List G) (Q : G) (a b : List F) :
    Halts (create cx tr Gs Hs Q a b) := by
  by_cases hs : ∃ k, a.length = 2 ^ k ∧ b.length = 2 ^ k ∧ Gs.length = 2 ^ k ∧ Hs.length = 2 ^ k
  · obtain ⟨x, e⟩ := (C17_ipa_create_returns_iff cx tr Gs Hs Q a b).2 hs
    rw [e]; exact .ok _
  · rw [C17_ipa_create_panics cx tr Gs Hs Q a b hs]; exact .error (by simp)

omit [DecidableEq G] in
/-- C83: `alm_zk::create` never runs forever. -/
theorem C83_alm_create_terminates (cx : Ctx G) (tr : Transcript) (tape : Tape F) (Gs Hs : List G)
    (Q C_w : G) (a b : List F) (t : F) :
    createAlm cx tr tape Gs Hs Q C_w a b t ≠ .error .outOfFuel := by
  have ho : ∀ u v : List F, Halts (orth u v) := by
    intro u v; rw [orth_eq]; split
    · exact .error (by simp)
    · exact .ok _
  refine Halts.bind (halts_sampleGramSchmidt _ _) fun r => Halts.bind ?_ fun r2 => Halts.bind ?_ fun C =>
    Halts.bind ?_ fun _ => .ok _
  · exact .bind (ho _ _) fun _ => .bind (halts_sampleGramSchmidt _ _) fun _ => .bind (ho _ _) fun _ => .ok _
  · exact .bind (.rassert _) fun _ => .ok _
  · exact halts_create cx _ Gs Hs Q _ _

/-- C83: the verdict on a proof by `alm_zk::create`, also when `a` is longer than `b` (`dot` stops at the
shorter vector, as `inner_product` does). Let `r'`, `r''` be the two masks. The proof is accepted exactly
when `(beta + <a,r'> / <a,a>) <a,r''> Q = 0`. -/
theorem C83_alm_verdict (cx : Ctx G) (tr tr' : Transcript) (tape tape' : Tape F)
    (Gs Hs : List G) (Q : G) (a b : List F) (p : AlmZK F)
    (h : createAlm cx tr tape Gs Hs Q (dot a Gs + dot b Hs) a b (dot a b) = .ok (p, tr', tape'))
    (hn : Gs.length < 2 ^ 64) (hm : MasksFine a b tape)
    (hα : ∀ C_r, cx.decompress p.C_r = some C_r →
      almAlpha cx tr.log Q (dot a Gs + dot b Hs) C_r (dot a b) Gs.length ≠ 0)
    (hx : ∀ C_r, cx.decompress p.C_r = some C_r →
      let β := almBeta F cx.ro tr.log p.C_r
      let P := β • (dot a Gs + dot b Hs) + C_r + (β * β * dot a b) • Q
      0 ∉ ipaChallenges F cx.ro (tr.log ++ almHead p.C_r (cx.compress P)) Gs.length p.NoZK.L_vec
        p.NoZK.R_vec) :
    ∃ r' r'' tape1, sampleGramSchmidt b tape = .ok (r', tape1) ∧
      sampleGramSchmidtTwice a r' tape1 = .ok (r'', tape') ∧
      p.verify cx tr Gs Hs Q Gs.length (dot a Gs + dot b Hs) (dot a b) =
        .ok (decide (((almBeta F cx.ro tr.log p.C_r + dot a r' / dot a a) * dot a r'') • Q = 0), tr') := by
  obtain ⟨r', r'', tape1, k, h1, h2, lG, lH, lb, lr', lr'', la, hC, hc⟩ :=
    createAlm_ok cx tr tr' tape tape' Gs Hs Q _ a b _ p h
  refine ⟨r', r'', tape1, h1, h2, ?_⟩
  obtain ⟨haa, hbb, hoo⟩ := hm
  rw [alm_verify_eq cx p tr Gs Hs Q _ _ _ _ hC]
  obtain ⟨-, hbr⟩ := C13_sample_gram_schmidt b r' tape tape1 h1 hbb
  obtain ⟨o, s', ho, hs', hr⟩ := sampleGramSchmidtTwice_ok h2
  have hoo := hoo r' tape1 o h1 ho
  obtain ⟨-, ro⟩ := (orth_away _ _ _).1 ho
  obtain ⟨-, rr⟩ := (orth_away _ _ _).1 hr
  have lo : o.length = 2 ^ k := by rw [ro, away_length]; omega
  have ls : 2 ^ k ≤ s'.length := by
    have : r''.length = min s'.length o.length := by rw [rr, away_length]
    omega
  have hor : dot o r'' = 0 := by
    rw [rr, dot_away o o s' le_rfl (by omega)]; field_simp; ring
  have hrr : dot r' r'' = dot a r' / dot a a * dot a r'' := by
    rw [dot_comm o, ro, dot_away r'' a r' (by omega) (by omega), dot_comm r'' r', dot_comm r'' a] at hor
    exact sub_eq_zero.1 hor
  set β := almBeta F cx.ro tr.log p.C_r
  have la' : (a.take (2 ^ k)).length = 2 ^ k := by simp [la]
  have tG : dot (a.take (2 ^ k)) Gs = dot a Gs := dot_take _ _ _ lG.le
  have tb : dot (a.take (2 ^ k)) b = dot a b := dot_take _ _ _ lb.le
  have tr'' : dot (a.take (2 ^ k)) r'' = dot a r'' := dot_take _ _ _ lr''.le
  have hprod : dot (List.zipWith (fun a r => β * a + r) a r')
      (List.zipWith (fun b r => β * b + r) b r'') =
        β * β * dot a b + (β + dot a r' / dot a a) * dot a r'' := by
    rw [zipWith_take, lr', masked_product β _ b r' r'' (by omega) (by omega), hbr, hrr, tb, tr'']; ring
  have := C18_ipa_honest_proof_verdict cx _ tr' Gs Hs Q _ _ p.NoZK hc hn
    (β • (dot a Gs + dot b Hs) + (dot r' Gs + dot r'' Hs) + (β * β * dot a b) • Q) (β * β * dot a b)
    (by
      have := hα _ (by rw [hC]; exact cx.decompress_compress _)
      rw [almAlpha, ← hC] at this
      exact this)
    (hx _ (by rw [hC]; exact cx.decompress_compress _))
  rw [this, hprod]
  congr 3
  rw [eq_iff_iff, zipWith_take _ a, lr', masked_dot _ _ _ _ (by omega), masked_dot _ _ _ _ (by omega), tG,
    ← sub_eq_zero, ← neg_eq_zero]
  generalize ipaAlpha F cx.ro _ Gs.length = α
  have e : -(α • (β • (dot a Gs + dot b Hs) + (dot r' Gs + dot r'' Hs) + (β * β * dot a b) • Q -
      (β • dot a Gs + dot r' Gs) - (β • dot b Hs + dot r'' Hs)) -
      ((α - 1) * (β * β * dot a b) + (β * β * dot a b + (β + dot a r' / dot a a) * dot a r'')) • Q) =
      ((β + dot a r' / dot a a) * dot a r'') • Q := by module
  rw [e]

section
open Toy
/-- With a fifth entry of `a` the prover returns a proof and the verifier rejects it. -/
example : (match createAlm cx ⟨[]⟩ exTape [3, 5, 8, 13] [21, 34, 55, 89] 7
        (dot [1, 2, 3, 4, 6] [3, 5, 8, 13] + dot [5, 6, 7, 9] [21, 34, 55, (89 : K)] : K)
        [1, 2, 3, 4, 6] [5, 6, 7, 9] (dot [1, 2, 3, 4, 6] [5, 6, 7, (9 : K)]) with
      | .ok (p, _, _) => (p.verify cx ⟨[]⟩ [3, 5, 8, 13] [21, 34, 55, 89] 7 4
        (dot [1, 2, 3, 4, 6] [3, 5, 8, 13] + dot [5, 6, 7, 9] [21, 34, 55, (89 : K)] : K)
        (dot [1, 2, 3, 4, 6] [5, 6, 7, (9 : K)])).map Prod.fst
      | .error e => .error e) = .ok false ∧
    MasksFine [1, 2, 3, 4, 6] [5, 6, 7, 9] exTape := by
  rw [masksFine_iff]; decide +kernel
/-- A shorter `a`, a missing generator or an undecodable `C_r` is a panic. -/
example : (createAlm cx ⟨[]⟩ exTape [3, 5, 8, 13] [21, 34, 55, 89] 7 (0 : K) [1, 2, 3] [5, 6, 7, 9]
      (0 : K)).toOption.isNone ∧
    (createAlm cx ⟨[]⟩ exTape [3, 5, 8] [21, 34, 55, 89] 7 (0 : K) [1, 2, 3, 4] [5, 6, 7, 9]
      (0 : K)).toOption.isNone ∧
    (⟨[200], ⟨[], [], 1, 1⟩⟩ : AlmZK K).verify cx ⟨[]⟩ [3] [4] 7 1 (0 : K) 0 = .error .unwrapNone ∧
    ((⟨[100], ⟨[], [], 1, 1⟩⟩ : AlmZK K).verify cx ⟨[]⟩ [3] [4] 7 1 (0 : K) 0).toOption.isSome := by
  decide +kernel
end

end Qesa.Props
