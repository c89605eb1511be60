import Verif.Model.Tests
import Verif.Props.SimpleZk
import Verif.Props.LmpaK
/- The tests of LMPA and of the helper functions: C77. -/
namespace Qesa.Props
open Qesa Spec Lmpa Tests

variable {F G : Type} [Field F] [AddCommGroup G] [Module F G]

omit [AddCommGroup G] in
theorem randMatrix_spec (m n : Nat) : ∀ tape : Tape G, ∃ (A : Matrix (Fin m) (Fin n) G) (tape' : Tape G),
    randMatrix m n tape = (rows A, tape') := by
  induction m with
  | zero => intro tape; exact ⟨Matrix.of fun i => i.elim0, tape, by simp [randMatrix, rows]⟩
  | succ m ih =>
    intro tape
    obtain ⟨A, tape', h⟩ := ih fun i => tape (i + n)
    refine ⟨Matrix.of (Fin.cons (fun i : Fin n => tape i) A), tape', ?_⟩
    rw [randMatrix, drawN_eq]
    simp only [h, rows, List.ofFn_succ]
    rfl

variable [DecidableEq F] [DecidableEq G]

/-- C77: `test_vandermonde` passes. -/
theorem C77_vandermonde : testVandermonde F = .ok () := by
  have h : ∀ (k : Nat) (x : F), vandermondeLoop 2 x (List.ofFn fun i : Fin k => x * 2 ^ i.val) = .ok () := by
    intro k
    induction k with
    | zero => intro x; rfl
    | succ k ih =>
      intro x
      rw [List.ofFn_succ, vandermondeLoop, rassert_true (by simp), ok_bind, ← ih (x * 2)]
      congr 2
      funext i
      simp only [Fin.val_succ]
      ring
  unfold testVandermonde
  simp only
  rw [C02_vandemonde_challenge, if_neg (by decide), ok_bind, rassert_true (by simp), ok_bind, ← h 32 2]
  congr 2
  funext i
  ring

omit [DecidableEq F] in
/-- C77: `test_lmpa_no_zk_create_verify` passes for all random values and hash functions. -/
theorem C77_lmpa_no_zk (cx : Ctx G) (fuel : Nat) (hf : 3 ≤ fuel) (tape : Tape F) (pts : Tape G) :
    testLmpaNoZK cx fuel tape pts = .ok () := by
  unfold testLmpaNoZK
  simp only [drawN_eq]
  obtain ⟨A, pts', hA⟩ := randMatrix_spec 4 4 fun i => pts (i + 4 + 4)
  simp only [hA]
  obtain ⟨p, tr', h1, h2⟩ := C42_lmpa_completeness cx 2 fuel (newTranscript "lmpa_no_zk") (rows A)
    (List.ofFn fun i : Fin 4 => pts i) (List.ofFn fun i : Fin 4 => tape i) (by simp [rows]) (width_rows A)
    (by simp) (by simp) hf
  rw [List.length_ofFn] at h2
  simp only [h1, ok_bind, matrixpointVectorMul_eq, h2, rassert_True]

omit [DecidableEq F] in
/-- C77: `test_lmpa_simple_zk_create_verify` passes for all random values and hash functions. -/
theorem C77_simple_zk (cx : Ctx G) (fuel : Nat) (hf : 3 ≤ fuel) (tape : Tape F) (pts : Tape G) :
    testSimple cx fuel tape pts = .ok () := by
  unfold testSimple
  simp only [drawN_eq]
  obtain ⟨A, pts', hA⟩ := randMatrix_spec 4 4 fun i => pts (i + 4 + 4)
  simp only [hA]
  obtain ⟨p, tr', h1, h2⟩ := C50_simple_completeness cx 2 fuel (newTranscript "lmpa_simple_zk")
    (fun i => tape (i + 4)) (rows A)
    (List.ofFn fun i : Fin 4 => pts i) (List.ofFn fun i : Fin 4 => tape i) (by simp [rows]) (width_rows A)
    (by simp) (by simp) hf
  rw [List.length_ofFn] at h2
  simp only [h1, ok_bind, matrixpointVectorMul_eq, h2, rassert_True]

omit [DecidableEq F] [DecidableEq G] in
theorem target_eq (x : F) (row : List G) (w : List F) :
    matrixpointTranspose [matrixpointVectorMul [row] w] = .ok [[dot w row]] ∧
    matrixpointVectorMul [[dot w row]] (List.ofFn fun i : Fin 4 => x ^ i.val) = [dot w row] := by
  constructor
  · rw [matrixpointVectorMul_eq]; rfl
  · rw [matrixpointVectorMul_eq]
    simp [dot, List.ofFn_succ]

omit [DecidableEq F] in
/-- C77: `test_lmpa_simple_zk_create_verify_efficient_communication` passes for all random values and hash
functions. -/
theorem C77_efficient (cx : Ctx G) (fuel : Nat) (hf : 2 ≤ fuel) (tape : Tape F) (pts : Tape G) :
    testSimpleEfficient cx fuel tape pts = .ok () := by
  unfold testSimpleEfficient
  simp only [drawN_eq, draw]
  obtain ⟨A, pts', hA⟩ := randMatrix_spec 4 2 fun i => pts (i + 2 + 2)
  simp only [hA]
  rw [C03_vandemonde_vector, if_neg (by decide), ok_bind, (C06_matrix_transpose A (by decide)).2, ok_bind]
  rw [C05_matrixpoint_vector_mul]
  set row := List.ofFn fun i : Fin 2 => ∑ j : Fin 4, tape 0 ^ j.val • A.transpose i j with hrow
  obtain ⟨e1, e2⟩ := target_eq (tape 0) row (List.ofFn fun i : Fin 2 => tape (i + 1))
  rw [e1, ok_bind, e2]
  obtain ⟨p, tr', h1, h2⟩ := C50_simple_completeness cx 1 fuel (newTranscript "lmpa_simple_zk")
    (fun i => tape (i + 2 + 1)) [row]
    (List.ofFn fun i : Fin 2 => pts i) (List.ofFn fun i : Fin 2 => tape (i + 1)) (by simp)
    (by intro r hr; rw [List.mem_singleton.1 hr, hrow, List.length_ofFn]; rfl) (by simp) (by simp) hf
  rw [List.length_ofFn] at h2
  simp only [List.map_cons, List.map_nil] at h2
  simp only [h1, ok_bind, h2, rassert_True]

omit [DecidableEq F] in
/-- C77: `test_commitment_combination` passes for all random values. -/
theorem C77_commitment_combination (tape : Tape F) (pts : Tape G) :
    testCommitmentCombination tape pts = .ok () := by
  unfold testCommitmentCombination
  simp only [drawN_eq, draw, C55_pedersen_commit]
  simp only [List.length_cons, List.length_nil, if_true, ok_bind, dot, List.ofFn_succ,
    List.ofFn_zero, List.zipWith_cons_cons, List.zipWith_nil_left, List.sum_cons, List.sum_nil, add_zero]
  apply rassert_true
  module

omit [DecidableEq F] in
/-- C77, finding: `test_lmpa_batch` passes for all random values and hash functions, also when the verifier is
given any other target behind the commitment `c_w`: the claim `A w = t` it is about is not checked. -/
theorem C77_batch (cx : Ctx G) (fuel : Nat) (hf : 4 ≤ fuel) (change : List G → List G)
    (hchange : ∀ c u, ∃ u', change (c :: u) = c :: u') (tape : Tape F) (pts : Tape G) :
    testLmpaBatch cx fuel change tape pts = .ok () := by
  unfold testLmpaBatch
  simp only [drawN_eq, draw]
  obtain ⟨A, pts', hA⟩ := randMatrix_spec 4 7 fun i => pts (i + 1 + 7 + 7)
  simp only [hA]
  rw [C03_vandemonde_vector, if_neg (by decide), ok_bind, (C06_matrix_transpose A (by decide)).2, ok_bind]
  rw [C05_matrixpoint_vector_mul, C55_pedersen_commit, if_pos (by simp), ok_bind]
  set row := List.ofFn fun i : Fin 7 => ∑ j : Fin 4, tape 0 ^ j.val • A.transpose i j with hrow
  set Gs := List.ofFn fun i : Fin 7 => pts i with hGs
  set w := List.ofFn fun i : Fin 7 => tape (i + 1) with hw
  obtain ⟨e1, e2⟩ := target_eq (tape 0) row w
  rw [e1, ok_bind, e2]
  have hB : Width (2 ^ 3) [pts (0 + 7 + 7) :: Gs, 0 :: row] := by
    intro r hr
    simp only [List.mem_cons, List.not_mem_nil, or_false] at hr
    rcases hr with rfl | rfl
    · simp [hGs]
    · simp [hrow]
  obtain ⟨p, tr', h1, h2⟩ := C50_simple_completeness cx 3 fuel (newTranscript "lmpa_simple_zk")
    (fun i => tape (i + 1 + 7 + 1)) [pts (0 + 7 + 7) :: Gs, 0 :: row]
    (pts (0 + 7 + 7) :: Gs) (tape (0 + 7 + 1) :: w) (by simp) hB (by simp [hw]) (by simp [hGs]) hf
  have hi : idx [pts (0 + 7 + 7) :: Gs, 0 :: row] 0 = .ok (pts (0 + 7 + 7) :: Gs) := rfl
  rw [hi, ok_bind, h1, ok_bind]
  simp only
  obtain ⟨u', hu'⟩ := hchange (dot w Gs + tape (0 + 7 + 1) • pts (0 + 7 + 7)) [dot w row]
  rw [hu']
  have hlen : (pts (0 + 7 + 7) :: Gs).length = 2 ^ 3 := by simp [hGs]
  rw [hlen] at h2
  have key : p.verify cx fuel (newTranscript "lmpa_simple_zk") [pts (0 + 7 + 7) :: Gs, 0 :: row]
      (pts (0 + 7 + 7) :: Gs) (7 + 1) ((dot w Gs + tape (0 + 7 + 1) • pts (0 + 7 + 7)) :: u') = .ok (true, tr') := by
    change p.verify _ _ _ _ _ (2 ^ 3) _ = _
    rw [← h2, simple_verify_eq, simple_verify_eq]
    simp only [List.map_cons, List.map_nil]
    have hc : dot (tape (0 + 7 + 1) :: w) (pts (0 + 7 + 7) :: Gs) =
        dot w Gs + tape (0 + 7 + 1) • pts (0 + 7 + 7) := by
      simp [dot, add_comm]
    rw [hc]
    cases hpa : p.a with
    | nil => simp
    | cons a as =>
      simp only [List.zipWith_cons_cons]
      exact C44_lmpa_only_row_zero cx p.no_zk 3 fuel _ _ _ _ _ _ _ _ hf hlen hB hB
  rw [key, ok_bind, rassert_true rfl]

section
open Toy

/-- `test_lmpa_batch` over `ZMod 101` with the right target, with a wrong one, and with a wrong commitment. -/
example : testLmpaBatch cx 4 (fun u => u) (fun i => (i * i + 3 : K)) (fun i => (5 * i + 2 : K)) = .ok () ∧
    testLmpaBatch cx 4 (fun u => u.take 1 ++ [17]) (fun i => (i * i + 3 : K)) (fun i => (5 * i + 2 : K)) = .ok () ∧
    testLmpaBatch cx 4 (fun u => 17 :: u.drop 1) (fun i => (i * i + 3 : K)) (fun i => (5 * i + 2 : K)) =
      .error .assertFail := by
  decide +kernel
end

end Qesa.Props
