import Verif.Proofs.Halts
import Verif.Proofs.Lmpa
import Verif.Props.Helpers
import Verif.Toy
/-
C49: termination of the loops of src/lmpa/no_zk.rs. `outOfFuel` for every amount of fuel means that the
Rust function does not return and does not panic.
-/
namespace Qesa.Props
open Qesa Spec Lmpa
set_option linter.unusedSectionVars false
variable {F G : Type} [Field F] [AddCommGroup G] [Module F G] [DecidableEq G]

/-! ### Binary folding -/

/-- C49: for `n ≥ 1` the prover stops after at most `⌊log₂ n⌋` rounds. -/
theorem C49_lmpa_create_terminates (cx : Ctx G) (fuel : Nat) (tr : Transcript) (A : List (List G))
    (Gs : List G) (w : List F) (h : Gs ≠ []) (hf : Gs.length < 2 ^ fuel) :
    create cx fuel tr A Gs w ≠ .error .outOfFuel :=
  createLoop_halts cx fuel _ A w tr (List.length_pos_iff.2 h) hf

/-- C49: the verifier stops on every input: after at most `⌊log₂ n⌋` rounds for `n ≥ 1`, and after at
most `|L|` rounds, with a panic, for `n = 0`. -/
theorem C49_lmpa_verify_terminates (cx : Ctx G) (p : NoZK F G) (fuel n : Nat) (tr : Transcript)
    (A : List (List G)) (Gs t : List G) (hf : n < 2 ^ fuel) (hf0 : n = 0 → p.L_Vec.length < fuel) :
    p.verify cx fuel tr A Gs n t ≠ .error .outOfFuel := by
  refine Halts.bind (.rassert _) fun _ => Halts.bind ?_ fun _ => .bind (.idx _ _) fun _ =>
    .bind (.idx _ _) fun _ => .ok _
  rcases Nat.eq_zero_or_pos n with h0 | h0
  · subst h0
    obtain ⟨e, h1, h2⟩ := verifyLoop_zero cx p fuel 0 A t tr (hf0 rfl)
    rw [h1]
    exact .error (h2 (by have := hf0 rfl; omega))
  · exact verifyLoop_halts cx p fuel 0 n A t tr h0 hf

/-- C49: with `n = 0` the verifier panics or, if `n` is not the length of `G_Vec`, panics earlier. -/
theorem C49_lmpa_verify_zero_panics (cx : Ctx G) (p : NoZK F G) (fuel : Nat) (tr : Transcript)
    (A : List (List G)) (Gs t : List G) (hf : p.L_Vec.length < fuel) :
    ∃ e, e ≠ .outOfFuel ∧ p.verify cx fuel tr A Gs 0 t = .error e := by
  unfold NoZK.verify
  by_cases h : 0 = Gs.length
  · rw [rassert_true h, ok_bind]
    obtain ⟨e, h1, h2⟩ := verifyLoop_zero cx p fuel 0 A t tr hf
    exact ⟨e, h2 (by omega), by rw [h1]; rfl⟩
  · rw [rassert_false h]
    exact ⟨_, by simp, rfl⟩

theorem createLoop_zero (cx : Ctx G) : ∀ (fuel : Nat) (A : List (List G)) (w : List F)
    (tr : Transcript), (∀ row ∈ A, row = []) → createLoop cx fuel 0 A w tr = .error .outOfFuel
  | 0, _, _, _, _ => rfl
  | fuel + 1, A, w, tr, h => by
    rw [createLoop, if_neg (by simp)]
    dsimp only
    rw [foldA_eq A _ (fun row hr => by rw [h row hr]; rfl), ok_bind,
      createLoop_zero cx fuel _ _ _ (by
        intro row hr
        obtain ⟨r, h1, rfl⟩ := List.mem_map.1 hr
        rw [h r h1]; simp [foldRow])]
    rfl

theorem createLoop_zero_panics (cx : Ctx G) : ∀ (l : Nat) (A : List (List G)) (w : List F)
    (tr : Transcript), (∃ row ∈ A, 0 < row.length ∧ row.length ≤ l) →
    createLoop cx (l + 1) 0 A w tr = .error .assertFail
  | 0, _, _, _, h => by obtain ⟨row, -, h1, h2⟩ := h; omega
  | l + 1, A, w, tr, h => by
    rw [createLoop, if_neg (by simp)]
    dsimp only
    by_cases hodd : ∃ row ∈ A, row.length % 2 ≠ 0
    · rw [foldA_error A _ hodd]; rfl
    · push Not at hodd
      rw [foldA_eq A _ hodd, ok_bind, createLoop_zero_panics cx l]
      · rfl
      · obtain ⟨row, hr, h1, h2⟩ := h
        have := hodd row hr
        exact ⟨_, List.mem_map.2 ⟨row, hr, rfl⟩, by rw [foldRow_length]; omega,
          by rw [foldRow_length]; omega⟩

/-- C49, finding: with `G_Vec` empty the prover runs forever exactly when all rows of `A` are empty (in
particular when `A` has no rows); otherwise it panics. -/
theorem C49_lmpa_create_loops_forever (cx : Ctx G) (tr : Transcript) (A : List (List G)) (w : List F) :
    (∀ fuel, create cx fuel tr A [] w = .error .outOfFuel) ↔ ∀ row ∈ A, row = [] := by
  constructor
  · intro h row hr
    by_contra hne
    have h1 := createLoop_zero_panics cx row.length A w tr
      ⟨row, hr, List.length_pos_iff.2 hne, le_rfl⟩
    have h2 := h (row.length + 1)
    unfold create at h2
    rw [List.length_nil, h1] at h2
    cases h2
  · intro h fuel
    exact createLoop_zero cx fuel A w tr h

/-- C49: the outcome does not depend on the amount of fuel, once there is enough. -/
theorem C49_lmpa_fuel (cx : Ctx G) (fuel more : Nat) (tr : Transcript) (A : List (List G))
    (Gs : List G) (w : List F) (h : create cx fuel tr A Gs w ≠ .error .outOfFuel) :
    create cx (fuel + more) tr A Gs w = create cx fuel tr A Gs w := by
  induction more with
  | zero => rfl
  | succ more ih =>
    rw [← ih, ← Nat.add_assoc]
    exact createLoop_mono cx (fuel + more) _ A w tr (by unfold create at ih h; rw [Halts, ih]; exact h)

/-- C49: the same for the verifier. -/
theorem C49_lmpa_verify_fuel (cx : Ctx G) (p : NoZK F G) (fuel more n : Nat) (tr : Transcript)
    (A : List (List G)) (Gs t : List G) (h : p.verify cx fuel tr A Gs n t ≠ .error .outOfFuel) :
    p.verify cx (fuel + more) tr A Gs n t = p.verify cx fuel tr A Gs n t := by
  induction more with
  | zero => rfl
  | succ more ih =>
    rw [← ih, ← Nat.add_assoc]
    refine bind_mono (fun _ => rfl) (fun _ h => ?_) (by unfold NoZK.verify at ih h; rw [Halts, ih]; exact h)
    exact bind_mono (fun h => verifyLoop_mono cx p (fuel + more) 0 n A t tr h) (fun _ _ => rfl) h

/-! ### k-ary folding -/

/-- C49: for `k ≥ 2` the prover stops after at most `⌊log_k n⌋` rounds. -/
theorem C49_lmpaK_create_terminates (cx : Ctx G) (fuel : Nat) (tr : Transcript) (A : List (List G))
    (w : List F) (t : List G) (n m k : Nat) (one : F) (zero : G) (hk : 2 ≤ k) (hf : 0 < fuel)
    (hn : n < k ^ fuel) : createK cx fuel tr A w t n m k one zero ≠ .error .outOfFuel := by
  obtain ⟨fuel, rfl⟩ := Nat.exists_eq_succ_of_ne_zero (Nat.pos_iff_ne_zero.1 hf)
  exact createKLoop_halts cx m k one zero hk fuel n A w t tr hn

/-- C49, finding: `k = 0` is a division by zero, for the prover and the verifier. -/
theorem C49_lmpaK_zero_panics (cx : Ctx G) (fuel : Nat) (tr : Transcript) (A : List (List G))
    (w : List F) (t : List G) (n m : Nat) (one : F) (zero : G) (p : LmpaNoZK F G) (hf : 0 < fuel) :
    createK cx fuel tr A w t n m 0 one zero = .error .divZero ∧
      p.verify cx fuel tr A t n 0 one = .error .divZero := by
  obtain ⟨fuel, rfl⟩ := Nat.exists_eq_succ_of_ne_zero (Nat.pos_iff_ne_zero.1 hf)
  exact ⟨rfl, rfl⟩

omit [DecidableEq G] [Module F G] [AddCommGroup G] in
theorem matrixSplit_one (A : List (List G)) (n : Nat) (hA : A ≠ []) (hn : 0 < n) (hw : Width n A) :
    matrixSplit A n = .ok [A] := by
  obtain ⟨blocks, h1, h2, h3, h4⟩ := C07_matrix_split A 1 n hA hn (by rwa [one_mul])
  obtain ⟨B, rfl⟩ := List.length_eq_one_iff.1 h2
  have : B = A := by
    apply List.ext_getElem (h3 B (by simp)).1
    intro i hB hi
    have := h4 i hi
    simpa [hB] using this.symm
  rw [h1, this]

theorem createKLoop_one (cx : Ctx G) (m n : Nat) (one : F) (zero : G) (A : List (List G)) (w : List F)
    (hA : A ≠ []) (hn : 0 < n) (hw : Width n A) (hwl : w.length = n) :
    ∀ (fuel : Nat) (t : List G) (tr : Transcript),
    createKLoop cx m 1 one zero fuel n A w t tr = .error .outOfFuel := by
  intro fuel
  induction fuel with
  | zero => intro t tr; rfl
  | succ fuel ih =>
    intro t tr
    rw [createKLoop, if_neg (by omega), if_neg (by omega)]
    simp only [Nat.div_one]
    rw [matrixSplit_one A n hA hn hw, ok_bind,
      matrixSplit_one [w] n (by simp) hn (by intro r hr; rw [List.mem_singleton.1 hr, hwl]), ok_bind]
    have eu : uOuter t (1 - 1) [[w]] 0 [A] (List.replicate (2 * (1 - 1) + 1) (List.replicate m zero)) =
        .ok [t] := by
      simp [uOuter, uInner, usub, setIdx]
    rw [eu, ok_bind]
    generalize challengeScalar (F := F) cx.ro (absorbAll cx "u_l" [t] tr) "challenge_x" = c
    obtain ⟨x, tr'⟩ := c
    have ev : ∀ x : F, vandemondeVector x 1 = .ok [1] := by
      intro x; simp [C03_vandemonde_vector]
    have ez : zOuter (1 - 1) [1] 0 [1] (List.replicate (2 * (1 - 1) + 1) one) = .ok [one] := by
      simp [zOuter, zInner, usub]
    have eA : combineA [A] [(1 : F)] 1 0 none = .ok A := by
      simp [combineA, idx, unwrapR, matrixpointScalarMul]
    have eW : combineW [[w]] [(1 : F)] 1 0 none = .ok [w] := by
      simp [combineW, idx, unwrapR, matrixScalarMul]
    have eT : combineT [t] [one] (2 * (1 - 1) + 1) 0 none = .ok (t.map fun e => one • e) := by
      simp [combineT, idx, unwrapR, vectorpointScalarMul]
    simp only [ev, ok_bind, ez, eA, eW, eT, ih, List.getLast?_singleton, unwrapR]
    rfl

/-- C49, finding: with `k = 1` the prover never stops, for every non-empty rectangular `A`. -/
theorem C49_lmpaK_one_loops_forever (cx : Ctx G) (fuel : Nat) (tr : Transcript) (A : List (List G))
    (w : List F) (t : List G) (n m : Nat) (one : F) (zero : G) (hA : A ≠ []) (hn : 0 < n)
    (hw : Width n A) (hwl : w.length = n) :
    createK cx fuel tr A w t n m 1 one zero = .error .outOfFuel :=
  createKLoop_one cx m n one zero A w hA hn hw hwl fuel t tr

/-- C49: the k-ary verifier stops on every input. -/
theorem C49_lmpaK_verify_terminates (cx : Ctx G) (fuel : Nat) (tr : Transcript) (A : List (List G))
    (t : List G) (n k : Nat) (one : F) (p : LmpaNoZK F G) (hf : p.u_proof_Block.length < fuel)
    (hn : n < 2 ^ fuel) : p.verify cx fuel tr A t n k one ≠ .error .outOfFuel := by
  refine Halts.bind ?_ fun _ => .bind (.idx _ _) fun _ => .bind (.idx _ _) fun _ => .ok _
  match k with
  | 0 =>
    obtain ⟨fuel, rfl⟩ := Nat.exists_eq_succ_of_ne_zero (Nat.pos_iff_ne_zero.1 (by omega : 0 < fuel))
    exact .error (by simp)
  | 1 => exact verifyKLoop_one cx p one n fuel 0 A t tr (by omega) (by omega)
  | k + 2 =>
    obtain ⟨fuel, rfl⟩ := Nat.exists_eq_succ_of_ne_zero (Nat.pos_iff_ne_zero.1 (by omega : 0 < fuel))
    exact verifyKLoop_halts cx p (k + 2) one (by omega) fuel 0 n A t tr
      (lt_of_lt_of_le hn (Nat.pow_le_pow_left (by omega) _))

/-- C49: the outcome of the k-ary prover does not depend on the amount of fuel, once there is enough. -/
theorem C49_lmpaK_fuel (cx : Ctx G) (fuel more : Nat) (tr : Transcript) (A : List (List G))
    (w : List F) (t : List G) (n m k : Nat) (one : F) (zero : G)
    (h : createK cx fuel tr A w t n m k one zero ≠ .error .outOfFuel) :
    createK cx (fuel + more) tr A w t n m k one zero = createK cx fuel tr A w t n m k one zero := by
  induction more with
  | zero => rfl
  | succ more ih =>
    rw [← ih, ← Nat.add_assoc]
    exact createKLoop_mono cx m k one zero (fuel + more) n A w t tr
      (by unfold createK at ih h; rw [Halts, ih]; exact h)

section
open Toy
example : create (F := K) cx 3 ⟨[]⟩ [[3, 5, 8, 13]] [1, 2, 3, 4] [1, 1, 1, 1] ≠ .error .outOfFuel ∧
    create (F := K) cx 2 ⟨[]⟩ [[3, 5, 8, 13]] [1, 2, 3, 4] [1, 1, 1, 1] = .error .outOfFuel ∧
    create (F := K) cx 9 ⟨[]⟩ [[3, 5, 8, 13]] ([] : List K) [1, 1, 1, 1] = .error .assertFail ∧
    create (F := K) cx 9 ⟨[]⟩ [[], []] ([] : List K) [1, 1, 1, 1] = .error .outOfFuel := by
  decide +kernel
example : createK (F := K) cx 6 ⟨[]⟩ [[3, 5], [7, 9]] [1, 1] [8, 16] 2 2 1 1 (0 : K) =
      .error .outOfFuel ∧
    createK (F := K) cx 6 ⟨[]⟩ [[3, 5], [7, 9]] [1, 1] [8, 16] 2 2 2 1 (0 : K) ≠ .error .outOfFuel := by
  decide +kernel
end

end Qesa.Props
