import Verif.Proofs.Release
import Verif.Props.CopyOracle
import Verif.Props.QesaShapes
import Verif.Toy
/-
C88: builds without overflow checks. All other properties are about builds with overflow checks; `release` describes
what is different without.
-/
set_option linter.unusedSectionVars false
namespace Qesa.Props
open Qesa Spec Copy

section
variable {F G : Type} [Field F] [DecidableEq F] [AddCommGroup G] [Module F G] [DecidableEq G]

/-! ### With overflow checks, the functions are those of the other properties -/

theorem C88_debug_helpers :
    debug.vandemondeChallenge (F := F) = vandemondeChallenge ∧ debug.vandemondeVector (F := F) = vandemondeVector ∧
    debug.sampleMNPlus (F := F) = sampleMNPlus ∧ debug.sampleGramSchmidt (F := F) = sampleGramSchmidt ∧
    debug.sampleGramSchmidtTwice (F := F) = sampleGramSchmidtTwice ∧
    debug.computeGammaPrime (F := F) = Inner.computeGammaPrime ∧ debug.computeMapping = computeMapping :=
  ⟨rfl, rfl, rfl, rfl, rfl, rfl, rfl⟩

theorem C88_debug_arguments :
    debug.ipaVerify (F := F) (G := G) = Ipa.NoZK.verify ∧ debug.almCreate (F := F) (G := G) = Ipa.createAlm ∧
    debug.almVerify (F := F) (G := G) = Ipa.AlmZK.verify ∧ debug.innerCreate (F := F) (G := G) = Inner.create ∧
    debug.innerVerify (F := F) (G := G) = Inner.Proof.verify ∧ debug.zkCreate (F := F) (G := G) = Zk.create ∧
    debug.zkVerify (F := F) (G := G) = Zk.Proof.verify ∧ debug.copyCreate (F := F) (G := G) = Copy.create ∧
    debug.copyVerify (F := F) (G := G) = Copy.Proof.verify :=
  ⟨rfl, rfl, rfl, rfl, rfl, rfl, rfl, rfl, rfl⟩

theorem debug_zInner (shift i : Nat) (x : F) (ys : List F) : ∀ (j : Nat) (z : List F),
    debug.zInner shift i x j ys z = Lmpa.zInner shift i x j ys z := by
  induction ys with
  | nil => intro j z; rfl
  | cons y ys ih =>
    intro j z
    unfold Arith.zInner Lmpa.zInner
    simp only [ih]
    rfl

theorem debug_zOuter (shift : Nat) (ys : List F) (xs : List F) : ∀ (i : Nat) (z : List F),
    debug.zOuter shift ys i xs z = Lmpa.zOuter shift ys i xs z := by
  induction xs with
  | nil => intro i z; rfl
  | cons x xs ih =>
    intro i z
    unfold Arith.zOuter Lmpa.zOuter
    simp only [ih, debug_zInner]

theorem debug_uInner (t : List G) (shift i : Nat) (At : List (List G)) (wT : List (List (List F))) :
    ∀ (j : Nat) (u : List (List G)), debug.uInner t shift i At j wT u = Lmpa.uInner t shift i At j wT u := by
  induction wT with
  | nil => intro j u; rfl
  | cons wv wT ih =>
    intro j u
    unfold Arith.uInner Lmpa.uInner
    simp only [ih]
    rfl

theorem debug_uOuter (t : List G) (shift : Nat) (wT : List (List (List F))) (AT : List (List (List G))) :
    ∀ (i : Nat) (u : List (List G)), debug.uOuter t shift wT i AT u = Lmpa.uOuter t shift wT i AT u := by
  induction AT with
  | nil => intro i u; rfl
  | cons At AT ih =>
    intro i u
    unfold Arith.uOuter Lmpa.uOuter
    simp only [ih, debug_uInner]

theorem debug_createKLoop (cx : Ctx G) (m k : Nat) (one : F) (zero : G) (fuel : Nat) :
    debug.createKLoop cx m k one zero fuel = Lmpa.createKLoop cx m k one zero fuel := by
  induction fuel with
  | zero => rfl
  | succ fuel ih =>
    funext n A w t tr
    unfold Arith.createKLoop Lmpa.createKLoop
    by_cases h1 : n < k
    · rw [if_pos h1, if_pos h1]
    rw [if_neg h1, if_neg h1]
    by_cases h0 : k = 0
    · rw [if_pos h0, if_pos h0]
    rw [if_neg h0, if_neg h0, show debug.sub k 1 = .ok (k - 1) from usub_le (by omega), ih]
    simp only [ok_bind, debug_zOuter, debug_uOuter, C88_debug_helpers.2.1]

theorem debug_verifyKLoop (cx : Ctx G) (p : Lmpa.LmpaNoZK F G) (k : Nat) (one : F) (fuel : Nat) :
    debug.verifyKLoop cx p k one fuel = Lmpa.verifyKLoop cx p k one fuel := by
  induction fuel with
  | zero => rfl
  | succ fuel ih =>
    funext ci n A t tr
    unfold Arith.verifyKLoop Lmpa.verifyKLoop
    by_cases h1 : n < k
    · rw [if_pos h1, if_pos h1]
    rw [if_neg h1, if_neg h1]
    by_cases h0 : k = 0
    · rw [if_pos h0, if_pos h0]
    rw [if_neg h0, if_neg h0, show debug.sub k 1 = .ok (k - 1) from usub_le (by omega), ih]
    simp only [ok_bind, debug_zOuter, C88_debug_helpers.2.1]

/-- C88: with overflow checks, the k-ary arguments of the profile are those of the other properties. -/
theorem C88_debug_lmpa (cx : Ctx G) (fuel : Nat) (tr : Transcript) (A : List (List G)) (w : List F) (t : List G)
    (n m k : Nat) (one : F) (zero : G) (p : Lmpa.LmpaNoZK F G) :
    debug.createKLoop cx m k one zero fuel n A w t tr = Lmpa.createK cx fuel tr A w t n m k one zero ∧
    debug.lmpaKVerify cx fuel p tr A t n k one = p.verify cx fuel tr A t n k one := by
  constructor
  · rw [debug_createKLoop]; rfl
  · unfold Arith.lmpaKVerify Lmpa.LmpaNoZK.verify
    rw [debug_verifyKLoop]

/-! ### The provers -/

theorem iff_of_same {α : Type} {x y : R α} (h : SameIf True x y) (r : α) : x = .ok r ↔ y = .ok r := by
  rw [h r, true_and]

/-- C88: without overflow checks, QESA and Copy return exactly when they do with overflow checks, and then the same
proof, for all vectors that fit into memory: wherever the checks stop the prover, an assertion, an index or the
allocation of a vector of `2^64 - 2` scalars stops it as well. -/
theorem C88_provers (cx : Ctx G) (tr : Transcript) (tape : Tape F) (Gs Hs : List G) (Q : G) (gammaI : BlockMatrix F)
    (w : List F) (hG : Gs.length < 2 ^ 58) (hH : Hs.length < 2 ^ 58) (hw : w.length < 2 ^ 58) :
    (∀ r, release.zkCreate cx tr tape Gs Hs Q gammaI w = .ok r ↔ Zk.create cx tr tape Gs Hs Q gammaI w = .ok r) ∧
    (∀ r' r, release.innerCreate cx tr tape Gs Hs Q gammaI w r' = .ok r ↔
      Inner.create cx tr tape Gs Hs Q gammaI w r' = .ok r) ∧
    (∀ map openings r, openings.length ≤ 2 ^ 58 →
      (release.copyCreate cx tr tape Gs Hs Q map gammaI w openings = .ok r ↔
        Copy.create cx tr tape Gs Hs Q map gammaI w openings = .ok r)) :=
  ⟨iff_of_same (same_zkCreate cx tr tape Gs Hs Q gammaI w hG hH hw),
   fun r' => iff_of_same (same_innerCreate cx tr tape Gs Hs Q gammaI w r' hG hH hw),
   fun map openings r ho =>
    iff_of_same (same_copyCreate cx tr tape Gs Hs Q map gammaI w openings hG hH hw ho) r⟩

/-- C88: the same for AlmZK. -/
theorem C88_alm_prover (cx : Ctx G) (tr : Transcript) (tape : Tape F) (Gs Hs : List G) (Q C : G) (a b : List F) (t : F)
    (ha : a.length < 2 ^ 58) (hb : b.length < 2 ^ 58) (r : Ipa.AlmZK F × Transcript × Tape F) :
    release.almCreate cx tr tape Gs Hs Q C a b t = .ok r ↔ Ipa.createAlm cx tr tape Gs Hs Q C a b t = .ok r :=
  iff_of_same (same_almCreate cx tr tape Gs Hs Q C t (by omega) (by omega)) r

/-- C88: the same for the k-ary linear-map arguments; here the verifier does not change either. -/
theorem C88_lmpa (cx : Ctx G) (fuel : Nat) (tr : Transcript) (A : List (List G)) (w : List F) (t : List G)
    (n m k : Nat) (hk : k < 2 ^ 58) (one : F) (zero : G) (p : Lmpa.LmpaNoZK F G) :
    (∀ r, release.createKLoop cx m k one zero fuel n A w t tr = .ok r ↔
      Lmpa.createK cx fuel tr A w t n m k one zero = .ok r) ∧
    (∀ r, release.lmpaKVerify cx fuel p tr A t n k one = .ok r ↔ p.verify cx fuel tr A t n k one = .ok r) :=
  ⟨iff_of_same (same_createKLoop cx m (by omega) one zero fuel n A w t tr),
   iff_of_same (same_lmpaKVerify cx fuel p tr A t n (by omega) one)⟩

/-! ### The verifiers -/

/-- C88: `NoZK::verify` without overflow checks takes `1 << L_vec.len()` modulo `2^64`. It returns `r` exactly if the
checked verifier returns `r` for the proof that has only the first `L_vec.len() % 64` points of `L_vec`, and either
nothing was cut off or all of `L_vec` decodes and `R_vec` is not longer than what is left. -/
theorem C88_ipa_verify (cx : Ctx G) (p : Ipa.NoZK F) (tr : Transcript) (Gs Hs : List G) (Q : G) (n : Nat) (P : G)
    (t : F) (r : Bool × Transcript) :
    release.ipaVerify cx p tr Gs Hs Q n P t = .ok r ↔
      Padded cx.toCodec p ∧ (trunc p).verify cx tr Gs Hs Q n P t = .ok r :=
  same_ipaVerify cx p tr Gs Hs Q n P t r

/-- C88: the same for AlmZK. -/
theorem C88_alm_verify (cx : Ctx G) (p : Ipa.AlmZK F) (tr : Transcript) (Gs Hs : List G) (Q : G) (n : Nat) (C : G)
    (t : F) (r : Bool × Transcript) :
    release.almVerify cx p tr Gs Hs Q n C t = .ok r ↔
      Padded cx.toCodec p.NoZK ∧ (truncAlm p).verify cx tr Gs Hs Q n C t = .ok r :=
  same_almVerify cx p tr Gs Hs Q n C t r

/-- C88: the same for QESA. -/
theorem C88_zk_verify (cx : Ctx G) (p : Zk.Proof F) (tr : Transcript) (Gs Hs : List G) (Q : G)
    (gammaI : BlockMatrix F) (hH : Hs.length < 2 ^ 58) (r : Bool × Transcript) :
    release.zkVerify cx p tr Gs Hs Q gammaI = .ok r ↔
      Padded cx.toCodec p.inner.alm_zk.NoZK ∧ (truncZk p).verify cx tr Gs Hs Q gammaI = .ok r :=
  same_innerVerify cx p.inner tr Gs Hs Q gammaI hH r

/-- C88: the same for Copy. -/
theorem C88_copy_verify (cx : Ctx G) (p : Copy.Proof F) (tr : Transcript) (Gs Hs : List G) (Q : G)
    (gammaI : BlockMatrix F) (map : Mapping) (commitments : List G) (hG : Gs.length < 2 ^ 58)
    (hH : Hs.length < 2 ^ 58) (hc : commitments.length ≤ 2 ^ 58) (r : Bool × Transcript) :
    release.copyVerify cx p tr Gs Hs Q gammaI map commitments = .ok r ↔
      Padded cx.toCodec p.inner.alm_zk.NoZK ∧ (truncCopy p).verify cx tr Gs Hs Q gammaI map commitments = .ok r :=
  same_copyVerify cx p tr Gs Hs Q gammaI map commitments hG hH hc r

theorem trunc_append (p : Ipa.NoZK F) (extra : List Comp) (h : p.L_vec.length < 64) (he : 64 ∣ extra.length) :
    trunc { p with L_vec := p.L_vec ++ extra } = p := by
  obtain ⟨c, hc⟩ := he
  simp only [trunc, List.length_append, hc, Nat.add_mul_mod_self_left, Nat.mod_eq_of_lt h, List.take_left]

theorem padded_append (cd : Codec G) (p : Ipa.NoZK F) (extra : List Comp) (h : p.L_vec.length < 64)
    (hR : p.R_vec.length ≤ p.L_vec.length) (he : 64 ∣ extra.length)
    (hL : ∀ c ∈ p.L_vec, (cd.decompress c).isSome) (hd : ∀ c ∈ extra, (cd.decompress c).isSome) :
    Padded cd { p with L_vec := p.L_vec ++ extra } := by
  refine Or.inr ⟨fun c hc => ?_, ?_⟩
  · rcases List.mem_append.1 hc with h | h
    · exact hL c h
    · exact hd c h
  · obtain ⟨c, hc⟩ := he
    simp only [List.length_append, hc, Nat.add_mul_mod_self_left, Nat.mod_eq_of_lt h]
    exact hR

/-- C88: without overflow checks QESA proofs can be changed by anybody: 64, 128, … arbitrary decodable points appended
to `L_vec` of an accepted proof leave it accepted, with the same transcript. With overflow checks the verifier panics. -/
theorem C88_malleable (cx : Ctx G) (p : Zk.Proof F) (tr tr' : Transcript) (Gs Hs : List G) (Q : G)
    (gammaI : BlockMatrix F) (hH : Hs.length < 2 ^ 58) (extra : List Comp) (he : 64 ∣ extra.length)
    (hd : ∀ c ∈ extra, (cx.decompress c).isSome)
    (hR : p.inner.alm_zk.NoZK.R_vec.length ≤ p.inner.alm_zk.NoZK.L_vec.length)
    (h : p.verify cx tr Gs Hs Q gammaI = .ok (true, tr')) :
    let q := p.inner.alm_zk.NoZK
    let p' : Zk.Proof F := ⟨{ p.inner with alm_zk := { p.inner.alm_zk with NoZK := { q with L_vec := q.L_vec ++ extra } } }⟩
    release.zkVerify cx p' tr Gs Hs Q gammaI = .ok (true, tr') ∧
    (extra ≠ [] → Panics (p'.verify cx tr Gs Hs Q gammaI)) := by
  intro q p'
  have hq : q.L_vec.length < 64 ∧ ∀ c ∈ q.L_vec, (cx.decompress c).isSome := by
    obtain ⟨-, -, -, -, -, -, h1, -, h2, -⟩ := (C86_inner_verify_returns_iff cx p.inner tr Gs Hs Q gammaI).1 ⟨_, h⟩
    exact ⟨h2, h1⟩
  refine ⟨?_, fun hne => ?_⟩
  · rw [C88_zk_verify _ _ _ _ _ _ _ hH]
    refine ⟨padded_append _ q extra hq.1 hR he hq.2 hd, ?_⟩
    have e : truncZk p' = p := by
      have := trunc_append q extra hq.1 he
      show (⟨{ p.inner with alm_zk := { p.inner.alm_zk with NoZK := trunc { q with L_vec := q.L_vec ++ extra } } }⟩ :
        Zk.Proof F) = p
      rw [this]
    rw [e]
    exact h
  · cases hv : p'.verify cx tr Gs Hs Q gammaI with
    | error e => exact ⟨e, rfl⟩
    | ok r =>
      exfalso
      obtain ⟨-, -, -, -, -, -, -, -, h2, -⟩ := (C86_inner_verify_returns_iff cx p'.inner tr Gs Hs Q gammaI).1 ⟨_, hv⟩
      have h2 : (q.L_vec ++ extra).length < 64 := h2
      rw [List.length_append] at h2
      have h3 := Nat.le_of_dvd (List.length_pos_of_ne_nil hne) he
      omega

/-! ### Soundness -/

/-- The points that count. -/
def cutAlm {V : Type} (p : AlgAlm F V) : AlgAlm F V :=
  { p with ipa := { p.ipa with Ls := p.ipa.Ls.take (p.ipa.Ls.length % 64) } }

theorem proof_cutAlm {V : Type} (cmp : G → Comp) (ev : V → G) (p : AlgAlm F V) :
    (cutAlm p).proof cmp ev = truncAlm (p.proof cmp ev) := by
  simp only [cutAlm, AlgAlm.proof, AlgIpa.proof, truncAlm, trunc, List.map_take, List.length_map]

/-- C88: soundness of QESA without overflow checks: the bound of C69 holds for the verifier of a release build, with
the proof cut down to the points that count. -/
theorem C88_qesa_soundness {m k q T B : Nat} (hq : m + 3 = 2 ^ q) (hq' : q < 58) (cd : Codec G)
    (Gs Hs : Fin (m + 3) → G) (Q : G) (Ms : Fin (k + 1) → Matrix (Fin (m + 1)) (Fin (m + 1)) F)
    (log : List (Note (Coeffs F (m + 3)))) (hlog : ∀ e ∈ log, Truthful cd (evalCoeffs Gs Hs Q) e)
    (hB : ∀ c : F, Nat.card {v : Vector UInt8 64 // ((leNat v.toList : Nat) : F) = c} ≤ B)
    (A : Algo (Note (Coeffs F (m + 3))) (AlgQesa F (Coeffs F (m + 3)))) (hT : A.AtMost T)
    (hA : ∀ ro, ∀ l ∈ A.asked Prod.fst ro, ∀ e ∈ l, Truthful cd (evalCoeffs Gs Hs Q) e)
    (ro : Hash) (D : Finset (List Event))
    (hD : ∀ ro, ∀ l ∈ A.asked Prod.fst ro ++ qesaQueries ro cd.compress (evalCoeffs Gs Hs Q) log
      (coeffG F _) (coeffH F _) (coeffQ F _) Ms
      { A.run Prod.fst ro with alm := cutAlm (A.run Prod.fst ro).alm }, l.map Prod.fst ∈ D) :
    chance ro D (fun ro =>
      let p := A.run Prod.fst ro
      (∃ tr', release.zkVerify ⟨cd, ro⟩ (p.proof cd.compress (evalCoeffs Gs Hs Q)) ⟨log.map Prod.fst⟩
        (List.ofFn Gs) (List.ofFn Hs) Q ⟨List.ofFn fun i => rows (Ms i)⟩ = .ok (true, tr')) ∧
      (p.C'.1 0 = 1 ∧ p.C'.2.1 = 0 ∧ p.C'.2.2 = 0) ∧ (p.C''.1 = 0 ∧ p.C''.2.2 = 0) ∧
      (∃ i, i.val < m + 3 ∧ quad (Ms i) (fun j => p.C'.1 (Fin.castAdd 2 j)) ≠ 0) ∧
      ∀ c ∈ qesaCandidates ro cd Gs Hs Q Ms log (A.asked Prod.fst ro) { p with alm := cutAlm p.alm },
        evalCoeffs Gs Hs Q c = 0 → c = 0) ≤
    ((T + (q + 5)) * ((m + 3) * B) : Nat) / 2 ^ 512 := by
  have hrun : ∀ ro, (A.andThen fun p => .done { p with alm := cutAlm p.alm }).run Prod.fst ro =
      { A.run Prod.fst ro with alm := cutAlm (A.run Prod.fst ro).alm } := fun ro => Algo.run_andThen ..
  have hask : ∀ ro, (A.andThen fun p => .done { p with alm := cutAlm p.alm }).asked Prod.fst ro =
      A.asked Prod.fst ro := fun ro => (Algo.asked_andThen ..).trans (List.append_nil _)
  refine (chance_mono fun ro h => ?_).trans (C69_qesa_algebraic hq cd Gs Hs Q Ms log hlog hB
    (A.andThen fun p => .done { p with alm := cutAlm p.alm })
    (Algo.andThen_atMost (fun p => .done { p with alm := cutAlm p.alm }) 0 (fun _ => trivial) A T hT) (by simpa only [hask] using hA) ro D
    (by simpa only [hask, hrun] using hD))
  dsimp only at h ⊢
  rw [hrun, hask]
  obtain ⟨⟨tr', hv⟩, h⟩ := h
  refine ⟨⟨tr', ?_⟩, h⟩
  have hv := ((C88_zk_verify _ _ _ _ _ _ _ (by
    rw [List.length_ofFn, hq]
    exact Nat.pow_lt_pow_right (by decide) hq') _).1 hv).2
  unfold AlgQesa.proof at hv ⊢
  rw [proof_cutAlm]
  exact hv

/-- C88: the same for Copy (C70). -/
theorem C88_copy_soundness {m q T B ws : Nat} (hq : m + 3 = 2 ^ q) (cd : Codec G) (Gs Hs : Fin (m + 3) → G) (Q : G)
    (Us : List (Matrix (Fin (m + 1)) (Fin (m + 1)) F)) (map : Mapping)
    (coms : List (List Nat × List F × F)) (Cs : List G)
    (hcom : coms.mapM (fun c => Copy.commit (List.ofFn Gs) c.1 c.2.1 c.2.2) = .ok Cs)
    (hn : m + 3 < 65536) (hws : ws < 65536) (hs : coms.length ≤ 65536)
    (hmap : release.computeMapping (m + 3) ws (coms.map (·.1)) = .ok map)
    (hsets : ∀ c ∈ coms, c.1.Pairwise (· < ·)) (hi : ∀ c ∈ coms, ∀ i ∈ c.1, i < m + 1)
    (h0 : ∀ c ∈ coms, 0 ∉ c.1)
    (hU : ∀ U ∈ Us, ∀ i j : Fin (m + 1), (∃ c ∈ coms, i.val ∈ c.1 ∨ j.val ∈ c.1) → U i j = 0)
    (hfit : Us.length + map.unique_commitment_indices.length ≤ m + 3)
    (log : List (Note (Coeffs F (m + 3)))) (hlog : ∀ e ∈ log, Truthful cd (evalCoeffs Gs Hs Q) e)
    (hB : ∀ c : F, Nat.card {v : Vector UInt8 64 // ((leNat v.toList : Nat) : F) = c} ≤ B)
    (A : Algo (Note (Coeffs F (m + 3))) (AlgCopy F (Coeffs F (m + 3)))) (hT : A.AtMost T)
    (hA : ∀ ro, ∀ l ∈ A.asked Prod.fst ro, ∀ e ∈ l, Truthful cd (evalCoeffs Gs Hs Q) e)
    (ro : Hash) (D : Finset (List Event))
    (hD : ∀ ro, ∀ l ∈ A.asked Prod.fst ro ++ copyQueries ro cd.compress (evalCoeffs Gs Hs Q) log
      (coeffG F _) (coeffH F _) (coeffQ F _) Us map (coms.map (messageCommit (coeffG F _)))
      { A.run Prod.fst ro with alm := cutAlm (A.run Prod.fst ro).alm }, l.map Prod.fst ∈ D) :
    chance ro D (fun ro =>
      let p := A.run Prod.fst ro
      (∃ tr', release.copyVerify ⟨cd, ro⟩ (p.proof cd.compress (evalCoeffs Gs Hs Q)) ⟨log.map Prod.fst⟩
        (List.ofFn Gs) (List.ofFn Hs) Q ⟨Us.map rows⟩ map Cs = .ok (true, tr')) ∧
      (p.C_w.1 0 = 1 ∧ p.C_w.2.1 = 0 ∧ p.C_w.2.2 = 0) ∧ (p.C''.1 = 0 ∧ p.C''.2.2 = 0) ∧
      ¬ CopyHolds Us map (coms.map (·.2.1)).flatten (fun j => p.C_w.1 (Fin.castAdd 2 j)) ∧
      ∀ c ∈ copyCandidates ro cd Gs Hs Q Us map coms log (A.asked Prod.fst ro) { p with alm := cutAlm p.alm },
        evalCoeffs Gs Hs Q c = 0 → c = 0) ≤
    ((T + (q + 6)) * (max (m + 3) coms.length * B) : Nat) / 2 ^ 512 := by
  have hrun : ∀ ro, (A.andThen fun p => .done { p with alm := cutAlm p.alm }).run Prod.fst ro =
      { A.run Prod.fst ro with alm := cutAlm (A.run Prod.fst ro).alm } := fun ro => Algo.run_andThen ..
  have hask : ∀ ro, (A.andThen fun p => .done { p with alm := cutAlm p.alm }).asked Prod.fst ro =
      A.asked Prod.fst ro := fun ro => (Algo.asked_andThen ..).trans (List.append_nil _)
  have hCs : Cs.length = coms.length := by
    have := (commits_spec (List.ofFn Gs) coms Cs m (by simp) hcom).2
    rw [this, List.length_map]
  refine (chance_mono fun ro h => ?_).trans (C70_copy_algebraic hq cd Gs Hs Q Us map coms Cs hcom hn hws hs
    (by rw [← release_computeMapping _ _ _ (by rw [Nat.mod_eq_of_lt hn]; omega)]; exact hmap) hsets hi h0 hU hfit
    log hlog hB
    (A.andThen fun p => .done { p with alm := cutAlm p.alm })
    (Algo.andThen_atMost (fun p => .done { p with alm := cutAlm p.alm }) 0 (fun _ => trivial) A T hT) (by simpa only [hask] using hA) ro D
    (by simpa only [hask, hrun] using hD))
  dsimp only at h ⊢
  rw [hrun, hask]
  obtain ⟨⟨tr', hv⟩, h⟩ := h
  refine ⟨⟨tr', ?_⟩, h⟩
  have hv := ((C88_copy_verify _ _ _ _ _ _ _ _ _ (by rw [List.length_ofFn]; omega) (by rw [List.length_ofFn]; omega)
    (by omega) _).1 hv).2
  unfold AlgCopy.proof at hv ⊢
  rw [proof_cutAlm]
  exact hv

end

/-! ### The mapping -/

/-- C88: `compute_mapping` is the same in both builds if `n as u16` is at least 2. -/
theorem C88_mapping (n ws : Nat) (sets : List (List Nat)) (h : 2 ≤ n % 65536) :
    release.computeMapping n ws sets = computeMapping n ws sets :=
  release_computeMapping n ws sets h

/-- C88: if `n as u16` is 0 or 1, the checked `compute_mapping` panics, and the other one uses the slots below `65534`
or `65535`. -/
theorem C88_mapping_wraps {n ws : Nat} {sets : List (List Nat)} {map : Mapping} (hn : n % 65536 < 2)
    (hws : ws < 65536) (hs : sets.length ≤ 65536) (h : release.computeMapping n ws sets = .ok map) :
    Panics (computeMapping n ws sets) ∧
    map.msgs_map.length = (sets.map List.length).sum ∧
    (∀ c j, (hc : c < sets.length) → (hj : j < sets[c].length) →
      ∃ p, map.msgs_map[((sets.take c).map List.length).sum + j]? =
          some ⟨((sets.take c).map List.length).sum + j, sets[c][j], c, p⟩ ∧
        ws ≤ p ∧ p < 65534 + n % 65536 ∧ ∀ s ∈ sets, p ∉ s) ∧
    (map.msgs_map.map (·.position_in_witness)).Pairwise (· < ·) ∧
    (∀ i, i ∈ map.unique_commitment_indices ↔ ∃ s ∈ sets, i ∈ s) := by
  have hwf := release_computeMapping_wf hn hws hs h
  obtain ⟨free, f1, f2, f3, f4, f5⟩ := hwf.free
  refine ⟨⟨_, by rw [computeMapping_eq]; exact if_pos hn⟩, hwf.length, ?_, hwf.positions, ?_⟩
  · intro c j hc hj
    have e1 := getElem?_flatten sets c j hc hj
    have e2 := getElem?_crsIds sets 0 c j hc hj
    have hlt : ((sets.take c).map List.length).sum + j < (sets.map List.length).sum := by
      have := (List.getElem?_eq_some_iff.1 e1).1
      rwa [List.length_flatten] at this
    refine ⟨free.getD (((sets.take c).map List.length).sum + j) 0, ?_, ?_⟩
    · rw [f5, List.getElem?_ofFn, dif_pos hlt]
      simp only [List.getD, e1, e2, Option.getD_some, Nat.zero_add]
    · rw [List.getD_eq_getElem _ _ (by omega)]
      obtain ⟨g1, g2, g3⟩ := (f3 _).1 (List.getElem_mem (l := free)
        (n := ((sets.take c).map List.length).sum + j) (by omega))
      exact ⟨g1, by omega, fun s hs hin => g3 (List.mem_flatten.2 ⟨s, hs, hin⟩)⟩
  · intro i
    rw [hwf.uniq, mem_setCollect, List.mem_flatten]

/-- C88: for `n = 65536` the unchecked `compute_mapping` is right where the checked one panics; for an empty CRS it
places the message outside. -/
example : release.computeMapping 65536 2 [[3, 5], [3]] =
      .ok ⟨2, [⟨0, 3, 0, 2⟩, ⟨1, 5, 0, 4⟩, ⟨2, 3, 1, 6⟩], [3, 5], 6⟩ ∧
    release.computeMapping 0 2 [[3]] = .ok ⟨1, [⟨0, 3, 0, 2⟩], [3], 2⟩ ∧
    Panics (computeMapping 65536 2 [[3, 5], [3]]) := by
  refine ⟨by decide +kernel, by decide +kernel, .underflow, by decide +kernel⟩

section
open Toy

/-- The proof with `l` more points in `L_vec` and `r` more in `R_vec`. -/
def pad (p : Ipa.NoZK K) (l r : Nat) : Ipa.NoZK K :=
  { p with L_vec := p.L_vec ++ List.replicate l (cx.compress (9 : K)),
           R_vec := p.R_vec ++ List.replicate r (cx.compress (9 : K)) }

/-- C88: an honest proof is accepted in both builds. With 64 points appended to `L_vec` the release build accepts it
and the other panics; with 63 points appended, or with 64 points in `R_vec` as well, both panic. -/
example :
    let v := fun (p : Ipa.NoZK K) (ar : Arith) => (ar.ipaVerify cx p ⟨[]⟩ [3, 5, 8, 13] [21, 34, 55, 89] (7 : K) 4
      (dot [1, 2, 3, 4] [3, 5, 8, 13] + dot [5, 6, 7, 8] [21, 34, 55, 89] + (70 : K) • 7) 70).map Prod.fst
    ∃ p tr', Ipa.create (F := K) cx ⟨[]⟩ [3, 5, 8, 13] [21, 34, 55, 89] 7 [1, 2, 3, 4] [5, 6, 7, 8] = .ok (p, tr') ∧
      v p debug = .ok true ∧ v p release = .ok true ∧
      v (pad p 64 0) debug = .error .underflow ∧ v (pad p 64 0) release = .ok true ∧
      v (pad p 63 0) debug = .error .underflow ∧ v (pad p 63 0) release = .error .assertFail ∧
      v (pad p 64 64) debug = .error .underflow ∧ v (pad p 64 64) release = .error .indexOOB :=
  ⟨_, _, rfl, by decide +kernel⟩

/-- C88: a run of QESA in both builds, and one with too few generators. -/
example : let Ms : BlockMatrix K := ⟨[[[4, 0], [0, -1]], [[0, 1], [0, 50]]]⟩
    (match release.zkCreate cx ⟨[]⟩ exTape2 [3, 5, 8, 13] [21, 34, 55, 89] (7 : K) Ms [1, 2],
        Zk.create cx ⟨[]⟩ exTape2 [3, 5, 8, 13] [21, 34, 55, 89] (7 : K) Ms [1, 2] with
      | .ok (p, _, _), .ok (p', _, _) => p == p' &&
        (release.zkVerify cx p ⟨[]⟩ [3, 5, 8, 13] [21, 34, 55, 89] (7 : K) Ms).map Prod.fst == .ok true &&
        (p.verify cx ⟨[]⟩ [3, 5, 8, 13] [21, 34, 55, 89] (7 : K) Ms).map Prod.fst == .ok true
      | _, _ => false) = true ∧
    (match release.zkCreate cx ⟨[]⟩ exTape2 [3] [21] (7 : K) Ms [],
        Zk.create cx ⟨[]⟩ exTape2 [3] [21] (7 : K) Ms [] with
      | .error e, .error e' => e == .assertFail && e' == .underflow
      | _, _ => false) = true := by
  decide +kernel

/-- C88: a run of the ternary linear-map argument in both builds. -/
example : let A : List (List K) := [[3, 5, 8, 13, 21, 34, 55, 89, 2]]
    let run := fun ar : Arith => ar.createKLoop cx 1 3 (1 : K) 0 5 9 A [1, 2, 3, 4, 5, 6, 7, 8, 9] [20] ⟨[]⟩
    (run release).map Prod.fst = (run debug).map Prod.fst ∧
    (match run release with
      | .ok (p, _) => (p.u_proof_Block.map List.length == [5, 5] &&
        (release.lmpaKVerify cx 5 p ⟨[]⟩ A [20] 9 3 (1 : K)).map Prod.fst ==
          (debug.lmpaKVerify cx 5 p ⟨[]⟩ A [20] 9 3 (1 : K)).map Prod.fst)
      | .error _ => false) = true := by
  decide +kernel
end

end Qesa.Props
