import Verif.Model.Lmpa
import Verif.Proofs.Lists
/-
Which parts of the model can run out of fuel: only the `while` loops of src/lmpa/no_zk.rs.
-/
namespace Qesa
set_option linter.unusedSectionVars false
variable {F G α β : Type}

/-- The computation returns or panics: it is not "still running". -/
def Halts (r : R α) : Prop := r ≠ .error .outOfFuel

theorem Halts.ok (a : α) : Halts (.ok a : R α) := by simp [Halts]

theorem Halts.error {e : Err} (h : e ≠ .outOfFuel) : Halts (.error e : R α) := by
  intro h'; cases h'; exact h rfl

theorem Halts.bind {r : R α} {f : α → R β} (h : Halts r) (hf : ∀ a, Halts (f a)) :
    Halts (r >>= f) := by
  cases r with
  | ok a => exact hf a
  | error e => intro h'; cases h'; exact h rfl

theorem Halts.rassert (c : Prop) [Decidable c] : Halts (Qesa.rassert c) := by
  unfold Qesa.rassert; split <;> simp [Halts]

theorem Halts.idx (l : List α) (i : Nat) : Halts (Qesa.idx l i) := by
  unfold Qesa.idx; split <;> simp [Halts]

theorem Halts.setIdx (l : List α) (i : Nat) (x : α) : Halts (Qesa.setIdx l i x) := by
  unfold Qesa.setIdx; split <;> simp [Halts]

theorem Halts.usub (a b : Nat) : Halts (Qesa.usub a b) := by
  unfold Qesa.usub; split <;> simp [Halts]

theorem Halts.unwrapR (o : Option α) : Halts (Qesa.unwrapR o) := by
  cases o <;> simp [Halts, Qesa.unwrapR]

theorem Halts.zipWithR {γ : Type} {f : α → β → R γ} (h : ∀ a b, Halts (f a b)) (as : List α)
    (bs : List β) : Halts (Qesa.zipWithR f as bs) := by
  induction as generalizing bs with
  | nil => exact .ok _
  | cons a as ih =>
    cases bs with
    | nil => exact .ok _
    | cons b bs => exact .bind (h a b) fun c => .bind (ih bs) fun cs => .ok _

section
variable [Field F] [AddCommGroup G] [Module F G]

theorem Halts.rowpointRowpointAdd (a b : List G) : Halts (Qesa.rowpointRowpointAdd a b) :=
  .bind (.rassert _) fun _ => .ok _

theorem Halts.matrixpointMatrixAdd (A B : List (List G)) : Halts (Qesa.matrixpointMatrixAdd A B) :=
  .bind (.rassert _) fun _ => .zipWithR (fun a b => .rowpointRowpointAdd a b) _ _

theorem Halts.matrixMatrixAdd (A B : List (List F)) : Halts (Qesa.matrixMatrixAdd A B) :=
  .bind (.rassert _) fun _ => .zipWithR (fun _ _ => .bind (.rassert _) fun _ => .ok _) _ _

theorem Halts.pushRow (cols : List (List α)) (row : List α) : Halts (Qesa.pushRow cols row) := by
  induction cols generalizing row with
  | nil => cases row <;> simp [Qesa.pushRow, Halts]
  | cons c cols ih =>
    cases row with
    | nil => exact .ok _
    | cons e row => exact .bind (ih row) fun _ => .ok _

theorem Halts.pushRows (cols rows : List (List α)) : Halts (Qesa.pushRows cols rows) := by
  induction rows generalizing cols with
  | nil => exact .ok _
  | cons r rows ih => exact .bind (.pushRow _ _) fun _ => ih _

theorem Halts.matrixSplit (m : List (List α)) (c : Nat) : Halts (Qesa.matrixSplit m c) := by
  unfold Qesa.matrixSplit
  refine .bind (.rassert _) fun _ => .bind (.idx _ _) fun _ => ?_
  split
  · exact .bind (.error (by simp)) fun _ => .bind (.rassert _) fun _ => .pushRows _ _
  · exact .bind (.rassert _) fun _ => .pushRows _ _

theorem Halts.vandemondeVector (x : F) (n : Nat) : Halts (Qesa.vandemondeVector x n) :=
  .bind (.usub _ _) fun _ => .ok _

open Lmpa
variable [DecidableEq G]

theorem Halts.uInner (t : List G) (shift i : Nat) (At : List (List G)) (j : Nat)
    (wT : List (List (List F))) (u : List (List G)) : Halts (Lmpa.uInner t shift i At j wT u) := by
  induction wT generalizing j u with
  | nil => exact .ok _
  | cons w wT ih =>
    refine .bind (.usub _ _) fun l => ?_
    dsimp only
    split
    · exact .bind (.idx _ _) fun _ => .bind (.idx _ _) fun _ =>
        .bind (.rowpointRowpointAdd _ _) fun _ => .bind (.setIdx _ _ _) fun _ => ih _ _
    · exact .bind (.setIdx _ _ _) fun _ => ih _ _

theorem Halts.uOuter (t : List G) (shift : Nat) (wT : List (List (List F))) (i : Nat)
    (AT : List (List (List G))) (u : List (List G)) : Halts (Lmpa.uOuter t shift wT i AT u) := by
  induction AT generalizing i u with
  | nil => exact .ok _
  | cons A AT ih => exact .bind (.uInner _ _ _ _ _ _ _) fun _ => ih _ _

theorem Halts.zInner (shift i : Nat) (x : F) (j : Nat) (ys z : List F) :
    Halts (Lmpa.zInner shift i x j ys z) := by
  induction ys generalizing j z with
  | nil => exact .ok _
  | cons y ys ih =>
    refine .bind (.usub _ _) fun l => ?_
    dsimp only
    split
    · exact .bind (.setIdx _ _ _) fun _ => ih _ _
    · exact .bind (.ok _) fun _ => ih _ _

theorem Halts.zOuter (shift : Nat) (ys : List F) (i : Nat) (xs z : List F) :
    Halts (Lmpa.zOuter shift ys i xs z) := by
  induction xs generalizing i z with
  | nil => exact .ok _
  | cons x xs ih => exact .bind (.zInner _ _ _ _ _ _) fun _ => ih _ _

theorem Halts.combineA (AT : List (List (List G))) (xs : List F) (c i : Nat)
    (acc : Option (List (List G))) : Halts (Lmpa.combineA AT xs c i acc) := by
  induction c generalizing i acc with
  | zero => exact .unwrapR _
  | succ c ih =>
    refine .bind (.idx _ _) fun _ => .bind (.idx _ _) fun _ => ?_
    dsimp only
    cases acc
    · exact .bind (.ok _) fun _ => ih _ _
    · exact .bind (.matrixpointMatrixAdd _ _) fun _ => ih _ _

theorem Halts.combineW (wT : List (List (List F))) (ys : List F) (c i : Nat)
    (acc : Option (List (List F))) : Halts (Lmpa.combineW wT ys c i acc) := by
  induction c generalizing i acc with
  | zero => exact .unwrapR _
  | succ c ih =>
    refine .bind (.idx _ _) fun _ => .bind (.idx _ _) fun _ => ?_
    dsimp only
    cases acc
    · exact .bind (.ok _) fun _ => ih _ _
    · exact .bind (.matrixMatrixAdd _ _) fun _ => ih _ _

theorem Halts.combineT (u : List (List G)) (zs : List F) (c i : Nat) (acc : Option (List G)) :
    Halts (Lmpa.combineT u zs c i acc) := by
  induction c generalizing i acc with
  | zero => exact .unwrapR _
  | succ c ih =>
    refine .bind (.idx _ _) fun _ => .bind (.idx _ _) fun _ => ?_
    dsimp only
    cases acc
    · exact .bind (.ok _) fun _ => ih _ _
    · exact .bind (.rowpointRowpointAdd _ _) fun _ => ih _ _

/-! ### The loops -/

theorem createLoop_halts (cx : Ctx G) : ∀ (fuel n : Nat) (A : List (List G)) (w : List F)
    (tr : Transcript), 1 ≤ n → n < 2 ^ fuel → Halts (createLoop cx fuel n A w tr)
  | 0, n, A, w, tr, h1, h2 => by simp at h2; omega
  | fuel + 1, n, A, w, tr, h1, h2 => by
    unfold createLoop
    split
    · exact .bind (.idx _ _) fun _ => .ok _
    · refine .bind (.matrixpointMatrixAdd _ _) fun A' => .bind ?_ fun _ => .ok _
      exact createLoop_halts cx fuel _ _ _ _ (by omega) (by rw [pow_succ] at h2; omega)

theorem verifyLoop_halts (cx : Ctx G) (p : NoZK F G) : ∀ (fuel ci n : Nat) (A : List (List G))
    (t : List G) (tr : Transcript), 1 ≤ n → n < 2 ^ fuel → Halts (verifyLoop cx p fuel ci n A t tr)
  | 0, _, n, A, w, tr, h1, h2 => by simp at h2; omega
  | fuel + 1, ci, n, A, w, tr, h1, h2 => by
    unfold verifyLoop
    split
    · exact .ok _
    · refine .bind (.idx _ _) fun L => .bind (.idx _ _) fun R => .bind (.matrixpointMatrixAdd _ _)
        fun A' => ?_
      exact verifyLoop_halts cx p fuel _ _ _ _ _ (by omega) (by rw [pow_succ] at h2; omega)

/-- With `n = 0` the verifier stops when there are no more messages. -/
theorem verifyLoop_zero (cx : Ctx G) (p : NoZK F G) : ∀ (fuel ci : Nat) (A : List (List G))
    (t : List G) (tr : Transcript), p.L_Vec.length < fuel + ci →
    ∃ e, verifyLoop cx p fuel ci 0 A t tr = .error e ∧ (1 ≤ fuel → e ≠ .outOfFuel)
  | 0, _, A, w, tr, h => ⟨_, rfl, by simp⟩
  | fuel + 1, ci, A, t, tr, h => by
    unfold verifyLoop
    rw [if_neg (by simp)]
    by_cases hL : ci < p.L_Vec.length
    · rw [idx_lt hL, ok_bind]
      by_cases hR : ci < p.R_Vec.length
      · rw [idx_lt hR, ok_bind]
        dsimp only
        rcases h1 : matrixpointMatrixAdd (leftHalves A) (matrixpointScalarMul (rightHalves A)
          (challengeScalar (F := F) cx.ro (absorb cx "R" p.R_Vec[ci] (absorb cx "L" p.L_Vec[ci] tr))
            "challenge").1) with e | A'
        · exact ⟨e, rfl, fun _ he => by
            subst he; exact Halts.matrixpointMatrixAdd _ _ h1⟩
        · obtain ⟨e, h2, h3⟩ := verifyLoop_zero cx p fuel (ci + 1) A' _ _ (by omega)
          exact ⟨e, by rw [ok_bind]; exact h2, fun _ => h3 (by omega)⟩
      · rw [idx_ge (by omega)]
        exact ⟨_, rfl, by simp⟩
    · rw [idx_ge (by omega)]
      exact ⟨_, rfl, by simp⟩

theorem createKLoop_halts (cx : Ctx G) (m k : Nat) (one : F) (zero : G) (hk : 2 ≤ k) :
    ∀ (fuel n : Nat) (A : List (List G)) (w : List F) (t : List G) (tr : Transcript),
    n < k ^ (fuel + 1) → Halts (createKLoop cx m k one zero (fuel + 1) n A w t tr) := by
  intro fuel
  induction fuel with
  | zero =>
    intro n A w t tr h
    unfold createKLoop
    rw [if_pos (by simpa using h)]
    exact .ok _
  | succ fuel ih =>
    intro n A w t tr h
    rw [createKLoop]
    split
    · exact .ok _
    · rw [if_neg (by omega)]
      refine .bind (.matrixSplit _ _) fun _ => .bind (.matrixSplit _ _) fun _ =>
        .bind (.uOuter _ _ _ _ _ _) fun _ => .bind (.vandemondeVector _ _) fun _ =>
        .bind (.vandemondeVector _ _) fun _ => .bind (.zOuter _ _ _ _ _) fun _ =>
        .bind (.combineA _ _ _ _ _) fun _ => .bind (.combineW _ _ _ _ _) fun _ =>
        .bind (.unwrapR _) fun _ => .bind (.combineT _ _ _ _ _) fun _ => .bind ?_ fun _ => .ok _
      exact ih _ _ _ _ _ (Nat.div_lt_of_lt_mul (by rw [pow_succ, mul_comm] at h; exact h))

theorem verifyKLoop_halts (cx : Ctx G) (p : LmpaNoZK F G) (k : Nat) (one : F) (hk : 2 ≤ k) :
    ∀ (fuel ci n : Nat) (A : List (List G)) (t : List G) (tr : Transcript),
    n < k ^ (fuel + 1) → Halts (verifyKLoop cx p k one (fuel + 1) ci n A t tr) := by
  intro fuel
  induction fuel with
  | zero =>
    intro ci n A t tr h
    unfold verifyKLoop
    rw [if_pos (by simpa using h)]
    exact .ok _
  | succ fuel ih =>
    intro ci n A t tr h
    rw [verifyKLoop]
    split
    · exact .ok _
    · rw [if_neg (by omega)]
      refine .bind (.matrixSplit _ _) fun _ => .bind (.idx _ _) fun _ =>
        .bind (.vandemondeVector _ _) fun _ =>
        .bind (.vandemondeVector _ _) fun _ => .bind (.zOuter _ _ _ _ _) fun _ =>
        .bind (.combineA _ _ _ _ _) fun _ => .bind (.combineT _ _ _ _ _) fun _ => ?_
      exact ih _ _ _ _ _ (Nat.div_lt_of_lt_mul (by rw [pow_succ, mul_comm] at h; exact h))

/-- With `k = 1` the verifier stops when there are no more messages. -/
theorem verifyKLoop_one (cx : Ctx G) (p : LmpaNoZK F G) (one : F) (n : Nat) :
    ∀ (fuel ci : Nat) (A : List (List G)) (t : List G) (tr : Transcript),
    p.u_proof_Block.length < fuel + ci → 1 ≤ fuel → Halts (verifyKLoop cx p 1 one fuel ci n A t tr)
  | 0, _, _, _, _, _, h => by omega
  | fuel + 1, ci, A, t, tr, h, _ => by
    rw [verifyKLoop]
    split
    · exact .ok _
    · rw [if_neg (by omega)]
      refine .bind (.matrixSplit _ _) fun _ => ?_
      by_cases hu : ci < p.u_proof_Block.length
      · refine .bind (.idx _ _) fun _ =>
          .bind (.vandemondeVector _ _) fun _ =>
          .bind (.vandemondeVector _ _) fun _ => .bind (.zOuter _ _ _ _ _) fun _ =>
          .bind (.combineA _ _ _ _ _) fun _ => .bind (.combineT _ _ _ _ _) fun _ => ?_
        rw [Nat.div_one]
        exact verifyKLoop_one cx p one n fuel (ci + 1) _ _ _ (by omega) (by omega)
      · dsimp only
        rw [idx_ge (by omega)]
        exact .error (by simp)

/-! ### More fuel does not change a result -/

theorem bind_mono {r r' : R α} {f f' : α → R β} (hr : Halts r → r' = r)
    (hf : ∀ a, Halts (f a) → f' a = f a) (h : Halts (r >>= f)) : (r' >>= f') = (r >>= f) := by
  have h1 : Halts r := by
    intro h'; apply h; rw [h']; rfl
  rw [hr h1]
  cases r with
  | ok a => exact hf a h
  | error e => rfl

theorem createLoop_mono (cx : Ctx G) : ∀ (fuel n : Nat) (A : List (List G)) (w : List F)
    (tr : Transcript), Halts (createLoop cx fuel n A w tr) →
    createLoop cx (fuel + 1) n A w tr = createLoop cx fuel n A w tr
  | 0, _, _, _, _, h => absurd rfl h
  | fuel + 1, n, A, w, tr, h => by
    rw [createLoop] at h
    rw [createLoop, createLoop]
    split
    · rfl
    · rename_i hn
      rw [if_neg hn] at h
      refine bind_mono (fun _ => rfl) (fun A' h' => ?_) h
      exact bind_mono (fun h'' => createLoop_mono cx fuel _ _ _ _ h'') (fun _ _ => rfl) h'

theorem verifyLoop_mono (cx : Ctx G) (p : NoZK F G) : ∀ (fuel ci n : Nat) (A : List (List G))
    (t : List G) (tr : Transcript), Halts (verifyLoop cx p fuel ci n A t tr) →
    verifyLoop cx p (fuel + 1) ci n A t tr = verifyLoop cx p fuel ci n A t tr
  | 0, _, _, _, _, _, h => absurd rfl h
  | fuel + 1, ci, n, A, t, tr, h => by
    rw [verifyLoop] at h
    rw [verifyLoop, verifyLoop]
    split
    · rfl
    · rename_i hn
      rw [if_neg hn] at h
      refine bind_mono (fun _ => rfl) (fun L h => ?_) h
      refine bind_mono (fun _ => rfl) (fun R h => ?_) h
      refine bind_mono (fun _ => rfl) (fun A' h => ?_) h
      exact verifyLoop_mono cx p fuel _ _ _ _ _ h

theorem createKLoop_mono (cx : Ctx G) (m k : Nat) (one : F) (zero : G) :
    ∀ (fuel n : Nat) (A : List (List G)) (w : List F) (t : List G) (tr : Transcript),
    Halts (createKLoop cx m k one zero fuel n A w t tr) →
    createKLoop cx m k one zero (fuel + 1) n A w t tr = createKLoop cx m k one zero fuel n A w t tr
  | 0, _, _, _, _, _, h => absurd rfl h
  | fuel + 1, n, A, w, t, tr, h => by
    rw [createKLoop] at h
    rw [createKLoop, createKLoop]
    split
    · rfl
    rename_i hn
    rw [if_neg hn] at h
    split
    · rfl
    rename_i hk
    rw [if_neg hk] at h
    refine bind_mono (fun _ => rfl) (fun _ h => ?_) h
    refine bind_mono (fun _ => rfl) (fun _ h => ?_) h
    refine bind_mono (fun _ => rfl) (fun _ h => ?_) h
    refine bind_mono (fun _ => rfl) (fun _ h => ?_) h
    refine bind_mono (fun _ => rfl) (fun _ h => ?_) h
    refine bind_mono (fun _ => rfl) (fun _ h => ?_) h
    refine bind_mono (fun _ => rfl) (fun _ h => ?_) h
    refine bind_mono (fun _ => rfl) (fun _ h => ?_) h
    refine bind_mono (fun _ => rfl) (fun _ h => ?_) h
    refine bind_mono (fun _ => rfl) (fun _ h => ?_) h
    exact bind_mono (fun h => createKLoop_mono cx m k one zero fuel _ _ _ _ _ h) (fun _ _ => rfl) h

theorem verifyKLoop_mono (cx : Ctx G) (p : LmpaNoZK F G) (k : Nat) (one : F) :
    ∀ (fuel ci n : Nat) (A : List (List G)) (t : List G) (tr : Transcript),
    Halts (verifyKLoop cx p k one fuel ci n A t tr) →
    verifyKLoop cx p k one (fuel + 1) ci n A t tr = verifyKLoop cx p k one fuel ci n A t tr
  | 0, _, _, _, _, _, h => absurd rfl h
  | fuel + 1, ci, n, A, t, tr, h => by
    rw [verifyKLoop] at h
    rw [verifyKLoop, verifyKLoop]
    split
    · rfl
    rename_i hn
    rw [if_neg hn] at h
    split
    · rfl
    rename_i hk
    rw [if_neg hk] at h
    refine bind_mono (fun _ => rfl) (fun _ h => ?_) h
    refine bind_mono (fun _ => rfl) (fun _ h => ?_) h
    refine bind_mono (fun _ => rfl) (fun _ h => ?_) h
    refine bind_mono (fun _ => rfl) (fun _ h => ?_) h
    refine bind_mono (fun _ => rfl) (fun _ h => ?_) h
    refine bind_mono (fun _ => rfl) (fun _ h => ?_) h
    refine bind_mono (fun _ => rfl) (fun _ h => ?_) h
    exact verifyKLoop_mono cx p k one fuel _ _ _ _ _ h

end
end Qesa
