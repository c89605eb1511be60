import Verif.SpecLeftRight
import Verif.Props.SimpleZk
/- C107: witness indistinguishability of sessions. -/
namespace Qesa.Props
open Qesa Spec
set_option linter.unusedSectionVars false
variable {F G : Type} [Field F] [DecidableEq F] [AddCommGroup G] [Module F G]

theorem tapeOf_withPrefix {n : Nat} (rest : Tape F) (r : Fin n → F) :
    tapeOf rest r = withPrefix r fun i => rest (i + n) := by
  funext i
  unfold tapeOf withPrefix
  split
  · rfl
  · next h =>
    show rest i = rest (i - n + n)
    rw [Nat.sub_add_cancel (Nat.le_of_not_lt h)]

/-- C107: in a session of SimpleZK proofs on one transcript, where each statement may depend on the earlier proofs, the
random numbers of all proofs together can be permuted such that the session with the first witnesses becomes the session
with the second witnesses, for every hash function. -/
theorem C107_session_indistinguishable {n : Nat} (cx : Ctx G) (fuel : Nat) (rest : Tape F)
    (next : List (Lmpa.SimpleZK F G) → TwoWitnesses F G n) : ∀ (m : Nat) (past : List (Lmpa.SimpleZK F G)) (tr : Transcript),
    ∃ φ : Equiv.Perm (Fin m → Fin n → F), ∀ r,
      simpleSession cx fuel rest next (·.w₁) m past tr r = simpleSession cx fuel rest next (·.w₂) m past tr (φ r) := by
  intro m
  induction m with
  | zero => exact fun past tr => ⟨.refl _, fun r => rfl⟩
  | succ m ih =>
    intro past tr
    obtain ⟨φ, hφ⟩ := C51_simple_witness_indistinguishable cx fuel n tr (next past).A (next past).Gs (next past).w₁
      (next past).w₂ (next past).size (next past).same
    choose ψ hψ using ih
    let later : (Fin n → F) → Equiv.Perm (Fin m → Fin n → F) := fun r =>
      match Lmpa.createSimple cx fuel tr (tapeOf rest r) (next past).A (next past).Gs (List.ofFn (next past).w₁) with
      | .ok (p, tr', _) => ψ (past ++ [p]) tr'
      | .error _ => .refl _
    let e := Fin.consEquiv fun _ : Fin (m + 1) => Fin n → F
    refine ⟨e.symm.trans ((Equiv.prodShear φ later).trans e), fun r => ?_⟩
    have h0 : ((e.symm.trans ((Equiv.prodShear φ later).trans e)) r) = Fin.cons (φ (r 0)) (later (r 0) fun i => r i.succ) :=
      rfl
    rw [h0]
    unfold simpleSession
    simp only [Fin.cons_zero, Fin.cons_succ]
    have h1 := hφ (r 0) fun i => rest (i + n)
    rw [← tapeOf_withPrefix, ← tapeOf_withPrefix] at h1
    rw [← h1]
    cases h : Lmpa.createSimple cx fuel tr (tapeOf rest (r 0)) (next past).A (next past).Gs (List.ofFn (next past).w₁) with
    | error e => rfl
    | ok x =>
      obtain ⟨p, tr', t'⟩ := x
      simp only [later, h]
      exact hψ _ _ _

/-- C107: the session has the same distribution for both families of witnesses. -/
theorem C107_session_same_distribution [Fintype F] {n : Nat} (cx : Ctx G) (fuel : Nat) (rest : Tape F)
    (next : List (Lmpa.SimpleZK F G) → TwoWitnesses F G n) (m : Nat) (tr : Transcript)
    (out : R (List (Lmpa.SimpleZK F G) × Transcript)) :
    Nat.card {r // simpleSession cx fuel rest next (·.w₁) m [] tr r = out} =
      Nat.card {r // simpleSession cx fuel rest next (·.w₂) m [] tr r = out} := by
  obtain ⟨φ, hφ⟩ := C107_session_indistinguishable cx fuel rest next m [] tr
  exact Nat.card_congr (φ.subtypeEquiv fun r => by rw [hφ])

section
open Toy

def exTape0 : Tape K := fun i => (i : K)

/-- The statements of a session: the first has the target 31; the second depends on the first message of the first proof. -/
def exNext (past : List (Lmpa.SimpleZK K K)) : TwoWitnesses K K 2 :=
  match past.flatMap fun p => p.a with
  | [] => ⟨[[3, 5]], [1, 1], ![2, 5], ![7, 2], rfl, by decide⟩
  | x :: _ => ⟨[[x, 2 * x]], [1, 1], ![4, 0], ![0, 2], rfl, by
      intro row hrow
      simp only [List.mem_singleton] at hrow
      subst hrow
      simp [dot]
      ring⟩

/-- The witnesses differ; the second family with other random numbers gives the same proofs as the first. -/
example : (exNext []).w₁ ≠ (exNext []).w₂ ∧
    (simpleSession cx 3 exTape0 exNext (·.w₁) 2 [] ⟨[]⟩ ![![1, 2], ![3, 4]]).toOption.map
      (fun x => x.1.map fun p => (p.a, p.no_zk.w)) = some [([13], 59), ([42], 86)] ∧
    ∃ r : Fin 2 → Fin 2 → K,
      (simpleSession cx 3 exTape0 exNext (·.w₂) 2 [] ⟨[]⟩ r).toOption.map
        (fun x => (x.1.map fun p => (p.a, p.no_zk.w), x.2)) =
      (simpleSession cx 3 exTape0 exNext (·.w₁) 2 [] ⟨[]⟩ ![![1, 2], ![3, 4]]).toOption.map
        (fun x => (x.1.map fun p => (p.a, p.no_zk.w), x.2)) :=
  ⟨by decide +kernel, by decide +kernel, ![![12, 56], ![10, 51]], by decide +kernel⟩
end

end Qesa.Props
