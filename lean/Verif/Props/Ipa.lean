import Verif.Proofs.IpaCreate
import Verif.Toy
/-
Properties of the inner-product argument `ipa::no_zk`: C11 (first part), C16-C20, C22, C23.
-/
namespace Qesa.Props
open Qesa Spec Ipa
variable {F G : Type} [Field F] [AddCommGroup G] [Module F G]

/-! ### C17: when `create` returns, and what it returns -/

/-- C17: `create` returns a proof iff the four vectors have one common length, a power of two. -/
theorem C17_ipa_create_returns_iff (cx : Ctx G) (tr : Transcript) (Gs Hs : List G) (Q : G)
    (a b : List F) :
    (∃ r, Ipa.create cx tr Gs Hs Q a b = .ok r) ↔
      ∃ k, a.length = 2 ^ k ∧ b.length = 2 ^ k ∧ Gs.length = 2 ^ k ∧ Hs.length = 2 ^ k := by
  constructor
  · rintro ⟨r, h⟩
    exact create_ok cx tr Gs Hs Q a b r h
  · rintro ⟨k, h1, h2, h3, h4⟩
    obtain ⟨p, _, _, _, _, e, _⟩ := create_spec cx tr Q k a b Gs Hs h1 h2 h3 h4
    exact ⟨_, e⟩

/-- C17: in every other case `create` fails an assertion; in particular it never runs forever. -/
theorem C17_ipa_create_panics (cx : Ctx G) (tr : Transcript) (Gs Hs : List G) (Q : G)
    (a b : List F)
    (h : ¬ ∃ k, a.length = 2 ^ k ∧ b.length = 2 ^ k ∧ Gs.length = 2 ^ k ∧ Hs.length = 2 ^ k) :
    Ipa.create cx tr Gs Hs Q a b = .error .assertFail := by
  unfold Ipa.create
  by_cases h1 : Hs.length = Gs.length
  · by_cases h2 : a.length = Gs.length
    · by_cases h3 : b.length = Gs.length
      · have h4 : ¬ (Gs.length).isPowerOfTwo := by
          rintro ⟨k, hk⟩; exact h ⟨k, by omega, by omega, hk, by omega⟩
        simp [rassert, h1, h2, h3, h4]
      · simp [rassert, h1, h2, h3]
    · simp [rassert, h1, h2]
  · simp [rassert, h1]

/-- C17: the proof for `2 ^ k` generators has `k` points `L` and `k` points `R`. -/
theorem C17_ipa_proof_size (cx : Ctx G) (tr tr' : Transcript) (Gs Hs : List G) (Q : G)
    (a b : List F) (p : NoZK F) (k : Nat) (hk : Gs.length = 2 ^ k)
    (h : Ipa.create cx tr Gs Hs Q a b = .ok (p, tr')) :
    p.L_vec.length = k ∧ p.R_vec.length = k := by
  obtain ⟨k', ha, hb, hG', hH⟩ := create_ok cx tr Gs Hs Q a b _ h
  obtain rfl : k' = k := Nat.pow_right_injective (le_refl 2) (show 2 ^ k' = 2 ^ k by rw [← hG', hk])
  obtain ⟨p', Ls, Rs, _, _, e1, e2, e3, e4, e5, _⟩ :=
    create_spec cx tr Q k' a b Gs Hs ha hb hG' hH
  rw [h, Except.ok.injEq, Prod.mk.injEq] at e1
  obtain ⟨rfl, rfl⟩ := e1
  simp [e2, e3, e4, e5]

/-! ### C11, C20: the transcript -/

/-- C11: everything `create` does to the transcript, for every input. -/
theorem C11_ipa_create_log (cx : Ctx G) (tr tr' : Transcript) (Gs Hs : List G) (Q : G)
    (a b : List F) (p : NoZK F) (h : Ipa.create cx tr Gs Hs Q a b = .ok (p, tr')) :
    tr'.log = tr.log ++ [.msg "n" (u64le Gs.length), .chal "alpha" 64] ++
      (List.zip p.L_vec p.R_vec).flatMap
        (fun LR => [.msg "L" LR.1, .msg "R" LR.2, .chal "x_i" 64]) := by
  obtain ⟨k, ha, hb, hG, hH⟩ := create_ok cx tr Gs Hs Q a b _ h
  obtain ⟨p', Ls, Rs, _, _, e1, _⟩ := create_spec cx tr Q k a b Gs Hs ha hb hG hH
  rw [h, Except.ok.injEq, Prod.mk.injEq] at e1
  obtain ⟨rfl, rfl⟩ := e1
  rw [hG]; rfl

variable [DecidableEq G]

/-- The conditions under which `verify` does not panic (C22). -/
def Verifiable (cx : Ctx G) (p : NoZK F) (Gs Hs : List G) (n : Nat) : Prop :=
  (∀ c ∈ p.L_vec, (cx.decompress c).isSome) ∧ (∀ c ∈ p.R_vec, (cx.decompress c).isSome) ∧
  p.L_vec.length < 64 ∧ n = 2 ^ p.L_vec.length ∧
  n - 2 ^ (p.L_vec.length - p.R_vec.length) < Gs.length ∧
  n - 2 ^ (p.L_vec.length - p.R_vec.length) < Hs.length

/-- C19: whenever `verify` does not panic, the verdict is the closed-form verification equation
(`r` is the number of rounds, `k` unless the proof carries fewer points `R` than points `L`).
C11: the second component is the transcript it leaves. -/
theorem C19_ipa_verdict (cx : Ctx G) (p : NoZK F) (tr : Transcript) (Gs Hs : List G) (Q : G)
    (n : Nat) (P : G) (t : F) (Ls Rs : List G) (hL : p.L_vec = Ls.map cx.compress)
    (hR : p.R_vec = Rs.map cx.compress) (hv : Verifiable cx p Gs Hs n) :
    let k := p.L_vec.length
    let r := min k p.R_vec.length
    let xs := ipaChallenges F cx.ro tr.log n p.L_vec p.R_vec
    let α := ipaAlpha F cx.ro tr.log n
    p.verify cx tr Gs Hs Q n P t =
      .ok (decide (p.a • combined (weightG xs) k r Gs + p.b • combined (weightH xs) k r Hs +
          (p.a * p.b) • (α⁻¹ • Q) = foldedP Ls Rs xs (P - ((α - 1) * t) • (α⁻¹ • Q))),
        ⟨tr.log ++ headLog n ++ roundsLog p.L_vec p.R_vec⟩) := by
  intro k r xs α
  obtain ⟨-, -, h3, rfl, h5, h6⟩ := hv
  have hk : Ls.length = k := by simp [k, hL]
  have hxs : xs.length = r := by simp only [xs, ipaChallenges_length, r, k]
  have hsub : p.L_vec.length - p.R_vec.length = k - r := by simp only [k, r]; omega
  rw [hsub] at h5 h6
  rw [verify_eq cx p tr Gs Hs Q P t Ls Rs hL hR k hk h3]
  obtain ⟨G', H', e1, e2, e3⟩ := foldGens_eq xs k Gs Hs (by omega) (by rw [hxs]; exact h5)
    (by rw [hxs]; exact h6)
  simp only [show ipaChallenges F cx.ro tr.log (2 ^ k) p.L_vec p.R_vec = xs from rfl, e1, ok_bind,
    e2, e3, R_pure, hxs]
  rfl

/-- C22: `verify` returns a verdict exactly on the inputs described by `Verifiable`, and panics on
all others. -/
theorem C22_ipa_verify_returns_iff (cx : Ctx G) (p : NoZK F) (tr : Transcript) (Gs Hs : List G)
    (Q : G) (n : Nat) (P : G) (t : F) :
    (∃ r, p.verify cx tr Gs Hs Q n P t = .ok r) ↔ Verifiable cx p Gs Hs n := by
  constructor
  · rintro ⟨r, h⟩
    have h0 := h
    unfold NoZK.verify at h
    obtain ⟨Ls, h1, h⟩ := bind_eq_ok.1 h
    obtain ⟨Rs, h2, h⟩ := bind_eq_ok.1 h
    obtain ⟨n', h3, h⟩ := bind_eq_ok.1 h
    obtain ⟨_, h4, h⟩ := bind_eq_ok.1 h
    have hL := (decode_eq_ok cx _ _).1 h1
    have hR := (decode_eq_ok cx _ _).1 h2
    have hLl : p.L_vec.length = Ls.length := by simp [hL]
    have h4 := rassert_eq_ok.1 h4
    unfold shl1 at h3
    by_cases hlt : Ls.length < 64
    · rw [if_pos hlt, Except.ok.injEq] at h3
      subst h3 h4
      refine ⟨(decodable_iff cx _).2 ⟨_, hL⟩, (decodable_iff cx _).2 ⟨_, hR⟩, by rwa [hLl],
        by rw [hLl], ?_⟩
      rw [verify_eq cx p tr Gs Hs Q P t Ls Rs hL hR _ rfl hlt] at h0
      obtain ⟨⟨G', H'⟩, e1, h0⟩ := bind_eq_ok.1 h0
      obtain ⟨g, e2, h0⟩ := bind_eq_ok.1 h0
      obtain ⟨hh, e3, h0⟩ := bind_eq_ok.1 h0
      by_contra hcon
      have hxs := ipaChallenges_length (F := F) cx.ro tr.log (2 ^ Ls.length) p.L_vec p.R_vec
      have hsub : p.L_vec.length - p.R_vec.length = Ls.length -
        (ipaChallenges F cx.ro tr.log (2 ^ Ls.length) p.L_vec p.R_vec).length := by
        rw [hxs]; omega
      rw [hsub] at hcon
      rcases foldGens_short _ Ls.length Gs Hs (by rw [hxs]; omega) (by omega) G' H' e1 with h | h
      · simp only [h] at e2
        simp at e2
      · simp only [h] at e3
        simp at e3
    · rw [if_neg hlt] at h3; simp at h3
  · intro hv
    obtain ⟨Ls, hL⟩ := (decodable_iff cx _).1 hv.1
    obtain ⟨Rs, hR⟩ := (decodable_iff cx _).1 hv.2.1
    exact ⟨_, C19_ipa_verdict cx p tr Gs Hs Q n P t Ls Rs hL hR hv⟩

/-- C11: everything `verify` does to the transcript, for every proof and verdict. -/
theorem C11_ipa_verify_log (cx : Ctx G) (p : NoZK F) (tr tr' : Transcript) (Gs Hs : List G)
    (Q : G) (n : Nat) (P : G) (t : F) (v : Bool)
    (h : p.verify cx tr Gs Hs Q n P t = .ok (v, tr')) :
    tr'.log = tr.log ++ [.msg "n" (u64le n), .chal "alpha" 64] ++
      (List.zip p.L_vec p.R_vec).flatMap
        (fun LR => [.msg "L" LR.1, .msg "R" LR.2, .chal "x_i" 64]) := by
  have hv := (C22_ipa_verify_returns_iff cx p tr Gs Hs Q n P t).1 ⟨_, h⟩
  obtain ⟨Ls, hL⟩ := (decodable_iff cx _).1 hv.1
  obtain ⟨Rs, hR⟩ := (decodable_iff cx _).1 hv.2.1
  have e := C19_ipa_verdict cx p tr Gs Hs Q n P t Ls Rs hL hR hv
  rw [h, Except.ok.injEq, Prod.mk.injEq] at e
  rw [e.2]; rfl

/-- C20: after `create` and after `verify` of the resulting proof from the same transcript, both
transcripts are the same, whatever claim is verified and whatever the verdict. -/
theorem C20_ipa_lockstep (cx : Ctx G) (tr tr' : Transcript) (Gs Hs : List G) (Q : G) (a b : List F)
    (p : NoZK F) (h : Ipa.create cx tr Gs Hs Q a b = .ok (p, tr')) (hn : Gs.length < 2 ^ 64)
    (P : G) (t : F) :
    ∃ v, p.verify cx tr Gs Hs Q Gs.length P t = .ok (v, tr') := by
  obtain ⟨k, ha, hb, hG, hH⟩ := create_ok cx tr Gs Hs Q a b _ h
  have h64 : k < 64 := by rw [hG] at hn; exact (Nat.pow_lt_pow_iff_right (by decide)).1 hn
  rw [hG]
  exact ⟨_, verify_create cx tr tr' Q k h64 a b Gs Hs p hG h P t⟩

/-! ### C16, C18: verification of honest proofs -/

/-- C16: completeness. -/
theorem C16_ipa_completeness (cx : Ctx G) (tr tr' : Transcript) (Gs Hs : List G) (Q : G)
    (a b : List F) (p : NoZK F) (h : Ipa.create cx tr Gs Hs Q a b = .ok (p, tr'))
    (hn : Gs.length < 2 ^ 64) (hα : ipaAlpha F cx.ro tr.log Gs.length ≠ 0) :
    p.verify cx tr Gs Hs Q Gs.length (dot a Gs + dot b Hs + dot a b • Q) (dot a b) =
      .ok (true, tr') := by
  obtain ⟨k, ha, hb, hG, hH⟩ := create_ok cx tr Gs Hs Q a b _ h
  have h64 : k < 64 := by rw [hG] at hn; exact (Nat.pow_lt_pow_iff_right (by decide)).1 hn
  rw [hG] at hα ⊢
  rw [verify_create cx tr tr' Q k h64 a b Gs Hs p hG h]
  set α := ipaAlpha F cx.ro tr.log (2 ^ k)
  have : dot a Gs + dot b Hs + dot a b • Q - ((α - 1) * dot a b) • (α⁻¹ • Q) -
      com a b Gs Hs (α⁻¹ • Q) = (0 : G) := by
    unfold com
    have e : dot a b • Q = (α * α⁻¹) • (dot a b • Q) := by rw [mul_inv_cancel₀ hα, one_smul]
    rw [e]; module
  rw [this, smul_zero]; simp

/-- C18: exact verdict on the honest proof for an arbitrary claim `(P, t)`. -/
theorem C18_ipa_honest_proof_verdict (cx : Ctx G) (tr tr' : Transcript) (Gs Hs : List G) (Q : G)
    (a b : List F) (p : NoZK F) (h : Ipa.create cx tr Gs Hs Q a b = .ok (p, tr'))
    (hn : Gs.length < 2 ^ 64) (P : G) (t : F)
    (hα : ipaAlpha F cx.ro tr.log Gs.length ≠ 0)
    (hx : 0 ∉ ipaChallenges F cx.ro tr.log Gs.length p.L_vec p.R_vec) :
    let α := ipaAlpha F cx.ro tr.log Gs.length
    p.verify cx tr Gs Hs Q Gs.length P t =
      .ok (decide (α • (P - dot a Gs - dot b Hs) = ((α - 1) * t + dot a b) • Q), tr') := by
  intro α
  obtain ⟨k, ha, hb, hG, hH⟩ := create_ok cx tr Gs Hs Q a b _ h
  have h64 : k < 64 := by rw [hG] at hn; exact (Nat.pow_lt_pow_iff_right (by decide)).1 hn
  have e := verify_create cx tr tr' Q k h64 a b Gs Hs p hG h P t
  simp only [← hG] at e
  rw [e]
  change α ≠ 0 at hα
  congr 3
  rw [eq_iff_iff, smul_eq_zero_iff_right (by simpa [List.prod_eq_zero_iff] using hx),
    ← smul_eq_zero_iff_right hα, ← sub_eq_zero (a := α • (P - dot a Gs - dot b Hs))]
  change α • (P - ((α - 1) * t) • (α⁻¹ • Q) - com a b Gs Hs (α⁻¹ • Q)) = 0 ↔ _
  have : α • (P - ((α - 1) * t) • (α⁻¹ • Q) - com a b Gs Hs (α⁻¹ • Q)) =
      α • (P - dot a Gs - dot b Hs) - ((α * α⁻¹) * ((α - 1) * t + dot a b)) • Q := by
    unfold com; module
  rw [this, mul_inv_cancel₀ hα, one_mul]

/-- C18: in particular a commitment to `(a, b)` with a wrong claimed product is rejected. -/
theorem C18_ipa_wrong_product_rejected (cx : Ctx G) (tr tr' : Transcript) (Gs Hs : List G) (Q : G)
    (a b : List F) (p : NoZK F) (h : Ipa.create cx tr Gs Hs Q a b = .ok (p, tr'))
    (hn : Gs.length < 2 ^ 64) (t : F) (ht : t ≠ dot a b) (hQ : Q ≠ 0)
    (hα : ipaAlpha F cx.ro tr.log Gs.length ≠ 0)
    (hx : 0 ∉ ipaChallenges F cx.ro tr.log Gs.length p.L_vec p.R_vec) :
    p.verify cx tr Gs Hs Q Gs.length (dot a Gs + dot b Hs + t • Q) t = .ok (false, tr') := by
  rw [C18_ipa_honest_proof_verdict cx tr tr' Gs Hs Q a b p h hn _ _ hα hx]
  congr 2
  rw [decide_eq_false_iff_not, ← sub_eq_zero]
  set α := ipaAlpha F cx.ro tr.log Gs.length
  have : α • (dot a Gs + dot b Hs + t • Q - dot a Gs - dot b Hs) - ((α - 1) * t + dot a b) • Q =
      (t - dot a b) • Q := by module
  rw [this, smul_eq_zero]
  simp [hQ, sub_ne_zero.2 ht]

/-! ### C23: malleability -/

/-- C23: points `R` in surplus of the points `L` are neither hashed nor used, so
every proof can be changed into a different one with the same verdict and the same transcript. -/
theorem C23_ipa_malleable (cx : Ctx G) (p : NoZK F) (tr : Transcript) (Gs Hs : List G) (Q : G)
    (n : Nat) (P : G) (t : F) (h : p.L_vec.length ≤ p.R_vec.length) (X : List G) :
    ({p with R_vec := p.R_vec ++ X.map cx.compress} : NoZK F).verify cx tr Gs Hs Q n P t =
      p.verify cx tr Gs Hs Q n P t := by
  unfold NoZK.verify
  simp only
  cases hL : (p.L_vec.mapM fun c => unwrapR (cx.decompress c) : R (List G)) with
  | error e => rfl
  | ok Ls =>
    rw [decode_append]
    cases hR : (p.R_vec.mapM fun c => unwrapR (cx.decompress c) : R (List G)) with
    | error e => rfl
    | ok Rs =>
      have hLl : p.L_vec.length = Ls.length := by simp [(decode_eq_ok cx _ _).1 hL]
      have hRl : p.R_vec.length = Rs.length := by simp [(decode_eq_ok cx _ _).1 hR]
      simp only [ok_bind, generateChallenges_append _ _ _ _ h]
      simp only [foldP_append _ _ _ _ (show Ls.length ≤ Rs.length by omega)]

/-- C23: for every proof with at least as many points `R` as points `L` there is
a different one that verifies in the same way against every claim, whatever the other arguments. -/
theorem C23_ipa_malleable_different (cx : Ctx G) (p : NoZK F)
    (h : p.L_vec.length ≤ p.R_vec.length) :
    ∃ q : NoZK F, q ≠ p ∧ ∀ tr Gs Hs Q n P t,
      q.verify cx tr Gs Hs Q n P t = p.verify cx tr Gs Hs Q n P t := by
  refine ⟨{p with R_vec := p.R_vec ++ [(0 : G)].map cx.compress}, ?_, fun tr Gs Hs Q n P t =>
    C23_ipa_malleable cx p tr Gs Hs Q n P t h [0]⟩
  intro e
  have := congrArg (fun p => p.R_vec.length) e
  simp at this

/-- C23: two proofs with as many points `R` as points `L` that lead to the same
transcript carry the same points. -/
theorem C23_ipa_points_hashed (cx : Ctx G) (p q : NoZK F) (tr tr' : Transcript)
    (Gs Hs Gs' Hs' : List G) (Q Q' : G) (n : Nat) (P P' : G) (t t' : F) (v v' : Bool)
    (hp : p.L_vec.length = p.R_vec.length) (hq : q.L_vec.length = q.R_vec.length)
    (h : p.verify cx tr Gs Hs Q n P t = .ok (v, tr'))
    (h' : q.verify cx tr Gs' Hs' Q' n P' t' = .ok (v', tr')) :
    p.L_vec = q.L_vec ∧ p.R_vec = q.R_vec := by
  have e := (C11_ipa_verify_log cx p tr tr' Gs Hs Q n P t v h).symm.trans
    (C11_ipa_verify_log cx q tr tr' Gs' Hs' Q' n P' t' v' h')
  have e := roundsLog_injective _ _ (List.append_cancel_left e)
  have e1 := congrArg List.unzip e
  rw [List.unzip_zip hp, List.unzip_zip hq, Prod.mk.injEq] at e1
  exact e1

/-! ### The hypotheses are met: a run with four generators over `ZMod 101`, two rounds -/

open Toy in
/-- C16-C20, C22: `create` returns, alpha and the round challenges are not zero, the proof is
verifiable and accepted, and the same proof is rejected for another product. -/
example : ∃ p tr', Ipa.create (F := K) cx ⟨[]⟩ [3, 5, 8, 13] [21, 34, 55, 89] 7 [1, 2, 3, 4]
      [5, 6, 7, 8] = .ok (p, tr') ∧ ipaAlpha K cx.ro [] 4 ≠ 0 ∧
    0 ∉ ipaChallenges K cx.ro [] 4 p.L_vec p.R_vec ∧
    (p.verify cx ⟨[]⟩ [3, 5, 8, 13] [21, 34, 55, 89] 7 4
      (dot [1, 2, 3, 4] [3, 5, 8, 13] + dot [5, 6, 7, 8] [21, 34, 55, 89] + (70 : K) • 7) 70).map
        Prod.fst = .ok true ∧
    (p.verify cx ⟨[]⟩ [3, 5, 8, 13] [21, 34, 55, 89] 7 4
      (dot [1, 2, 3, 4] [3, 5, 8, 13] + dot [5, 6, 7, 8] [21, 34, 55, 89] + (71 : K) • 7) 71).map
        Prod.fst = .ok false :=
  ⟨_, _, rfl, by decide +kernel⟩

end Qesa.Props
