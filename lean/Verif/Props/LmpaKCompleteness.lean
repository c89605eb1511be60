import Verif.Model.Tests
import Verif.Proofs.FsCore
import Verif.Props.LmpaK
import Verif.Props.RandomOracle
import Verif.Props.TestLmpa
/- C78: how often the honest k-ary LMPA prover fails. -/
namespace Qesa.Props
open Qesa Spec Lmpa Tests

variable {F G : Type} [Field F] [AddCommGroup G] [Module F G]

/-- The queries of the k-ary prover as an algorithm. -/
theorem createK_algo (cd : Codec G) {m k c : Nat} (hm : 0 < m) (hc : 0 < c) (hck : c < k) :
    ∀ (d n : Nat) (M : Matrix (Fin m) (Fin n) G) (w : Fin n → F) (tt : Fin m → G) (log : List Event),
    n = c * k ^ d → ∃ A : Algo Event Unit, A.AtMost d ∧ ∀ ro fuel p tr', d < fuel →
      createKLoop ⟨cd, ro⟩ m k 1 0 fuel n (rows M) (List.ofFn w) (List.ofFn tt) ⟨log⟩ = .ok (p, tr') →
      kChallenges F ⟨cd, ro⟩ log p.u_proof_Block = (A.asked id ro).map (squeeze F ro) := by
  intro d
  induction d with
  | zero =>
    intro n M w tt log hn
    refine ⟨.done (), trivial, fun ro fuel p tr' hf h => ?_⟩
    obtain ⟨fuel, rfl⟩ := Nat.exists_eq_succ_of_ne_zero (Nat.pos_iff_ne_zero.1 (by omega : 0 < fuel))
    rw [createKLoop, if_pos (by simpa [hn] using hck)] at h
    cases h
    rfl
  | succ d ih =>
    intro n M w tt log hn
    obtain ⟨n', rfl, hn'⟩ : ∃ n', n = k * n' ∧ n' = c * k ^ d :=
      ⟨c * k ^ d, by rw [hn, pow_succ]; ring, rfl⟩
    have hk : 0 < k := by omega
    have hn0 : 0 < n' := by rw [hn']; positivity
    set u := LmpaK.rep (2 * (k - 1) + 1) (LmpaK.message M w tt) with hu
    have key := fun x : F => ih n' (LmpaK.foldM M x) (LmpaK.foldW w x)
      (LmpaK.foldTarget k x (LmpaK.message M w tt)) (log ++ kRoundLog ⟨cd, fun _ => default⟩ u) hn'
    choose A hA1 hA2 using key
    refine ⟨.ask (log ++ kRoundLog ⟨cd, fun _ => default⟩ u) fun v => A (leNat v.toList : Nat),
      fun v => hA1 _, fun ro fuel p tr' hf h => ?_⟩
    obtain ⟨fuel, rfl⟩ := Nat.exists_eq_succ_of_ne_zero (Nat.pos_iff_ne_zero.1 (by omega : 0 < fuel))
    rw [LmpaK.createKLoop_round ⟨cd, ro⟩ hm hk hn0] at h
    simp only [← hu] at h
    change Except.map _ (createKLoop ⟨cd, ro⟩ m k 1 0 fuel n' _ _ _
      ⟨log ++ kRoundLog ⟨cd, fun _ => default⟩ u⟩) = _ at h
    cases hr : createKLoop ⟨cd, ro⟩ m k 1 0 fuel n'
        (rows (LmpaK.foldM M (squeeze F ro (log ++ kRoundLog ⟨cd, fun _ => default⟩ u))))
        (List.ofFn (LmpaK.foldW w (squeeze F ro (log ++ kRoundLog ⟨cd, fun _ => default⟩ u))))
        (List.ofFn (LmpaK.foldTarget k (squeeze F ro (log ++ kRoundLog ⟨cd, fun _ => default⟩ u))
          (LmpaK.message M w tt))) ⟨log ++ kRoundLog ⟨cd, fun _ => default⟩ u⟩ with
    | error e =>
      have h' := h
      rw [show (kRoundLog (⟨cd, ro⟩ : Ctx G) u) = kRoundLog ⟨cd, fun _ => default⟩ u from rfl, hr] at h'
      cases h'
    | ok q =>
      rw [show (kRoundLog (⟨cd, ro⟩ : Ctx G) u) = kRoundLog ⟨cd, fun _ => default⟩ u from rfl, hr] at h
      cases h
      have := hA2 _ ro fuel q.1 q.2 (by omega) hr
      dsimp only
      rw [LmpaK.kChallenges_cons]
      simp only [Algo.asked, List.map_cons, List.map_id]
      refine congrArg₂ List.cons rfl ?_
      exact this

/-- The challenges of the k-ary prover are rarely zero. -/
theorem createK_error (cd : Codec G) (c k d : Nat) (log : List Event) (A : List (List G)) (w : List F)
    (t : List G) (hA0 : A ≠ []) (hc : 0 < c) (hck : c < k) (hA : Width (c * k ^ d) A)
    (hw : w.length = c * k ^ d) (ht : t.length = A.length) {B : Nat}
    (hB : Nat.card {v : Vector UInt8 64 // ((leNat v.toList : Nat) : F) = 0} ≤ B) :
    ∃ D0 : Finset (List Event), ∀ D, D0 ⊆ D → ∀ ro,
      chance ro D (fun ro => ¬ ∀ fuel p tr', d < fuel →
        createK ⟨cd, ro⟩ fuel ⟨log⟩ A w t (c * k ^ d) A.length k 1 0 = .ok (p, tr') →
        ∀ x ∈ kChallenges F ⟨cd, ro⟩ log p.u_proof_Block, x ≠ 0) ≤ (d * B : Nat) / 2 ^ 512 := by
  classical
  obtain ⟨M, hM⟩ := exists_rows A _ hA
  have hw' : w = List.ofFn fun i : Fin (c * k ^ d) => w[i] := by
    apply List.ext_getElem (by simp [hw]); intro i h1 h2; simp
  have ht' : t = List.ofFn fun i : Fin A.length => t[i] := by
    apply List.ext_getElem (by simp [ht]); intro i h1 h2; simp
  obtain ⟨Al, hT, hAl⟩ := createK_algo cd (List.length_pos_iff.2 hA0) hc hck d _ M (fun i => w[i])
    (fun i => t[i]) log rfl
  rw [← hM, ← hw', ← ht'] at hAl
  obtain ⟨D0, hD0⟩ := exists_domain (E := Event) id (fun _ (_ : Unit) => []) (fun _ => by simp) Al
  refine ⟨D0, fun D hD ro => ?_⟩
  refine (chance_mono (B := fun ro => (∀ l ∈ Al.asked id ro, ∀ l' ∈ Al.asked id ro, l.map id = l'.map id → l = l') ∧
      ∃ l ∈ Al.asked id ro, squeeze F ro l = 0) ?_).trans (chance_le ?_)
  · intro ro h
    push Not at h
    obtain ⟨fuel, p, tr', hf, h1, x, hx, hx0⟩ := h
    rw [hAl ro fuel p tr' hf h1, List.mem_map] at hx
    obtain ⟨l, hl, hlx⟩ := hx
    exact ⟨fun l _ l' _ h => by simpa using h, l, hl, hlx.trans hx0⟩
  · refine count_bad id ro D Al d hT (fun f l hl => hD ((hD0 _).1 l hl)) (fun ro l => squeeze F ro l = 0) B ?_
    intro ro l
    rw [← Fintype.card_subtype, ← Nat.card_eq_fintype_card]
    refine le_trans (le_of_eq (Nat.card_congr (Equiv.subtypeEquivRight fun v => ?_))) hB
    simp [squeeze]

variable [DecidableEq G]

/-- C78: completeness error of the k-ary argument (Protocol 3.9) with `d` rounds. -/
theorem C78_lmpaK_completeness_error (cd : Codec G) (c k d fuel : Nat) (log : List Event) (A : List (List G))
    (w : List F) (hA0 : A ≠ []) (hc : 0 < c) (hck : c < k) (hA : Width (c * k ^ d) A)
    (hw : w.length = c * k ^ d) (hf : d < fuel) {B : Nat}
    (hB : Nat.card {v : Vector UInt8 64 // ((leNat v.toList : Nat) : F) = 0} ≤ B) :
    ∃ D0 : Finset (List Event), ∀ D, D0 ⊆ D → ∀ ro,
      chance ro D (fun ro => ¬ ∃ p tr',
        createK ⟨cd, ro⟩ fuel ⟨log⟩ A w (A.map fun row => dot w row) (c * k ^ d) A.length k 1 0 =
          .ok (p, tr') ∧
        p.verify ⟨cd, ro⟩ fuel ⟨log⟩ A (A.map fun row => dot w row) (c * k ^ d) k 1 = .ok (true, tr')) ≤
      (d * B : Nat) / 2 ^ 512 := by
  obtain ⟨D0, hD0⟩ := createK_error cd c k d log A w (A.map fun row => dot w row) hA0 hc hck hA hw (by simp) hB
  refine ⟨D0, fun D hD ro => (chance_mono ?_).trans (hD0 D hD ro)⟩
  intro ro h h'
  obtain ⟨p, tr', h1, -, -, -, -, -, -, h2⟩ := C47_lmpaK_completeness ⟨cd, ro⟩ c k d fuel ⟨log⟩ A w hA0 hc hck hA
    hw hf
  exact h ⟨p, tr', h1, (h2 (h' fuel p tr' hf h1)).2⟩

/-- C78: the same for `create_general` and `verify_general` with at least one round, for every tape. -/
theorem C78_general_completeness_error (cd : Codec G) (c k d fuel : Nat) (log : List Event) (tape : Tape F)
    (A : List (List G)) (w : List F) (hA0 : A ≠ []) (hc : 0 < c) (hck : c < k)
    (hA : Width (c * k ^ (d + 1)) A) (hw : w.length = c * k ^ (d + 1)) (hf : d + 1 < fuel) {B : Nat}
    (hB : Nat.card {v : Vector UInt8 64 // ((leNat v.toList : Nat) : F) = 0} ≤ B) :
    ∃ D0 : Finset (List Event), ∀ D, D0 ⊆ D → ∀ ro,
      chance ro D (fun ro => ¬ ∃ p tr' tape',
        createGeneral ⟨cd, ro⟩ fuel ⟨log⟩ tape A w (A.map fun row => dot w row) (c * k ^ (d + 1)) A.length k =
          .ok (p, tr', tape') ∧
        p.verify ⟨cd, ro⟩ fuel ⟨log⟩ A (A.map fun row => dot w row) (c * k ^ (d + 1)) k = .ok (true, tr')) ≤
      ((d + 1) * B : Nat) / 2 ^ 512 := by
  set a := A.map fun row => dot (List.ofFn fun i : Fin (c * k ^ (d + 1)) => tape i) row with ha
  obtain ⟨D0, hD0⟩ := createK_error cd c k (d + 1) (simpleLog ⟨cd, fun _ => default⟩ log a) A w
    (A.map fun row => dot w row) hA0 hc hck hA hw (by simp) hB
  refine ⟨D0, fun D hD ro => (chance_mono ?_).trans (hD0 D hD ro)⟩
  intro ro h h'
  obtain ⟨p, tr', h1, h2⟩ := C54_general_completeness ⟨cd, ro⟩ c k d fuel ⟨log⟩ tape A w hA0 hc hck hA hw hf
  refine h ⟨p, tr', _, h1, h2 ?_⟩
  rw [C53_general_not_blinded] at h1
  simp only [← ha] at h1
  cases hr : createK ⟨cd, ro⟩ fuel ⟨log ++ (a.map fun P => .msg "a" (cd.compress P)) ++ [.chal "beta" 64]⟩
      A w (A.map fun row => dot w row) (c * k ^ (d + 1)) A.length k 1 0 with
  | error e =>
    rw [hr] at h1; cases h1
  | ok q =>
    rw [hr] at h1
    cases h1
    exact h' fuel q.1 q.2 hf hr

/-- C78: `test_lmpa_noZK_merlin` (there `k = 5`, `d = 3`, `m = 4`) fails for at most a fraction `d B / 2^512` of the
hash functions, whatever the random scalars and points are. -/
theorem C78_test_lmpaK (cd : Codec G) (fuel k d m : Nat) (hk : 1 < k) (hm : 0 < m) (hf : d < fuel) (tape : Tape F)
    (pts : Tape G) {B : Nat} (hB : Nat.card {v : Vector UInt8 64 // ((leNat v.toList : Nat) : F) = 0} ≤ B) :
    ∃ D0 : Finset (List Event), ∀ D, D0 ⊆ D → ∀ ro,
      chance ro D (fun ro => testLmpaK ⟨cd, ro⟩ fuel k d m tape pts ≠ .ok ()) ≤ (d * B : Nat) / 2 ^ 512 := by
  obtain ⟨A, pts', hA⟩ := randMatrix_spec m (k ^ d) pts
  have hl : (rows A).length = m := by simp [rows]
  obtain ⟨D0, hD0⟩ := C78_lmpaK_completeness_error cd 1 k d fuel (newTranscript "protocol 3.9 float test").log
    (rows A) (List.ofFn fun i : Fin (k ^ d) => tape i) (List.length_pos_iff.1 (by omega)) Nat.one_pos hk
    (by rw [Nat.one_mul]; exact width_rows A) (by simp) hf hB
  refine ⟨D0, fun D hD ro => (chance_mono ?_).trans (hD0 D hD ro)⟩
  rintro ro h ⟨p, tr', h1, h2⟩
  apply h
  simp only [Nat.one_mul, hl] at h1 h2
  unfold testLmpaK
  simp only [hA, drawN_eq, matrixpointVectorMul_eq]
  rw [show newTranscript "protocol 3.9 float test" = ⟨(newTranscript "protocol 3.9 float test").log⟩ from rfl, h1,
    ok_bind]
  simp only
  rw [h2, ok_bind, rassert_true rfl]

/-- C78: the same for `test_lmpa_ZK_merlin`. -/
theorem C78_test_general (cd : Codec G) (fuel k d m : Nat) (hk : 1 < k) (hm : 0 < m) (hf : d + 1 < fuel)
    (tape : Tape F) (pts : Tape G) {B : Nat}
    (hB : Nat.card {v : Vector UInt8 64 // ((leNat v.toList : Nat) : F) = 0} ≤ B) :
    ∃ D0 : Finset (List Event), ∀ D, D0 ⊆ D → ∀ ro,
      chance ro D (fun ro => testLmpaGeneral ⟨cd, ro⟩ fuel k (d + 1) m tape pts ≠ .ok ()) ≤
        ((d + 1) * B : Nat) / 2 ^ 512 := by
  obtain ⟨A, pts', hA⟩ := randMatrix_spec m (k ^ (d + 1)) pts
  have hl : (rows A).length = m := by simp [rows]
  obtain ⟨D0, hD0⟩ := C78_general_completeness_error cd 1 k d fuel (newTranscript "protocol 3.13 test").log
    (fun i => tape (i + k ^ (d + 1))) (rows A) (List.ofFn fun i : Fin (k ^ (d + 1)) => tape i)
    (List.length_pos_iff.1 (by omega)) Nat.one_pos hk (by rw [Nat.one_mul]; exact width_rows A) (by simp) hf hB
  refine ⟨D0, fun D hD ro => (chance_mono ?_).trans (hD0 D hD ro)⟩
  rintro ro h ⟨p, tr', tape', h1, h2⟩
  apply h
  simp only [Nat.one_mul, hl] at h1 h2
  unfold testLmpaGeneral
  simp only [hA, drawN_eq, matrixpointVectorMul_eq]
  rw [show newTranscript "protocol 3.13 test" = ⟨(newTranscript "protocol 3.13 test").log⟩ from rfl, h1, ok_bind]
  simp only
  rw [h2, ok_bind, rassert_true rfl]

section
open Toy

/-- The bound for `test_lmpa_noZK_merlin` over `ZMod 101`: at most `3/101 + 3/2^512`. -/
example (tape pts : Tape K) : ∃ D0 : Finset (List Event), ∀ D, D0 ⊆ D → ∀ ro,
    chance ro D (fun ro => testLmpaK ⟨codec, ro⟩ 4 5 3 4 tape pts ≠ .ok ()) ≤ 3 * (1 / 101 + 1 / 2 ^ 512) := by
  obtain ⟨D0, h⟩ := C78_test_lmpaK codec 4 5 3 4 (by decide) (by decide) (by decide) tape pts (C67_scalars 101 0)
  exact ⟨D0, fun D hD ro => (h D hD ro).trans (C67_bound 3 101)⟩

/-- The test with `k = 2`, `d = 2` over `ZMod 101`: it passes with the hash function of the examples, and fails
with one that gives the challenge zero. -/
example : testLmpaK cx 3 2 2 2 (fun i => (i * i + 3 : K)) (fun i => (5 * i + 2 : K)) = .ok () ∧
    testLmpaK ⟨codec, fun _ => Vector.replicate 64 0⟩ 3 2 2 2 (fun i => (i * i + 3 : K)) (fun i => (5 * i + 2 : K)) =
      .error .assertFail := by
  decide +kernel
end

end Qesa.Props
