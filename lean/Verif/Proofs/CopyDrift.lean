import Verif.Proofs.CopyMachine
import Verif.SpecQesaAny
import Mathlib.Algebra.Polynomial.Roots
/-
The numbers `drift` of the equations of Copy, as functions of the challenge `alpha`.
-/
namespace Qesa.Props
open Qesa Spec Copy

/-! ### Polynomials in `alpha` -/
section
variable {F : Type} [Field F]
open Polynomial

/-- A polynomial of degree at most `N`. -/
def IsPoly (N : Nat) (f : F → F) : Prop := ∃ p : F[X], p.natDegree ≤ N ∧ ∀ α, f α = p.eval α

theorem IsPoly.const (N : Nat) (c : F) : IsPoly N fun _ => c := ⟨C c, by simp, by simp⟩

theorem IsPoly.add {N : Nat} {f g : F → F} (hf : IsPoly N f) (hg : IsPoly N g) : IsPoly N fun α => f α + g α := by
  obtain ⟨p, hp, hf⟩ := hf
  obtain ⟨r, hr, hg⟩ := hg
  exact ⟨p + r, natDegree_add_le_of_degree_le hp hr, by simp [hf, hg]⟩

theorem IsPoly.mul {N : Nat} {f : F → F} (hf : IsPoly N f) (c : F) : IsPoly N fun α => c * f α := by
  obtain ⟨p, hp, hf⟩ := hf
  exact ⟨C c * p, (natDegree_C_mul_le c p).trans hp, by simp [hf]⟩

theorem IsPoly.sub {N : Nat} {f g : F → F} (hf : IsPoly N f) (hg : IsPoly N g) : IsPoly N fun α => f α - g α := by
  have := hf.add (hg.mul (-1))
  simpa [sub_eq_add_neg] using this

theorem IsPoly.listSum {N : Nat} {T : Type} (c : T → F) (e : T → Nat) : ∀ l : List T, (∀ t ∈ l, e t ≤ N) →
    IsPoly N fun α => (l.map fun t => α ^ e t * c t).sum
  | [], _ => by simpa using IsPoly.const N (0 : F)
  | t :: l, h => by
    have h1 : IsPoly N fun α : F => α ^ e t * c t :=
      ⟨X ^ e t * C (c t), (natDegree_mul_C_le (X ^ e t) (c t)).trans (by simpa using h t List.mem_cons_self), fun α => by simp [mul_comm (c t)]⟩
    simpa using h1.add (IsPoly.listSum c e l fun t ht => h t (List.mem_cons_of_mem _ ht))

theorem IsPoly.zero {N : Nat} {f : F → F} (hf : IsPoly N f) (x : Fin (N + 1) → F) (hx : Function.Injective x)
    (h : ∀ i, f (x i) = 0) (α : F) : f α = 0 := by
  obtain ⟨p, hp, hf⟩ := hf
  have : p = 0 := eq_zero_of_natDegree_lt_card_of_eval_eq_zero p hx (fun i => by rw [← hf, h])
    (by rw [Fintype.card_fin]; omega)
  rw [hf, this, eval_zero]

end

section
variable {F : Type} [Field F] {m : Nat}

/-- The equations of Copy: each one is one of the user's, or zero, or the constraint of a commitment index. -/
theorem seen_copySystem (n : Nat) (Us : List (Matrix (Fin (m + 1)) (Fin (m + 1)) F)) (map : Mapping) (j : Nat) :
    (∃ U : Matrix (Fin (m + 1)) (Fin (m + 1)) F, (U ∈ Us ∨ U = 0) ∧ ∀ α, seen n (copySystem Us map α).get j = U) ∨
    ∃ c ∈ map.unique_commitment_indices, ∀ α, seen n (copySystem Us map α).get j = copyConstraint m map α c := by
  have hlen : ∀ α : F, (copySystem Us map α).length = Us.length + map.unique_commitment_indices.length := by
    simp [copySystem]
  by_cases h : j < Us.length + map.unique_commitment_indices.length ∧ j < n
  · have hs : ∀ α, seen n (copySystem Us map α).get j = (copySystem Us map α)[j]'(by rw [hlen]; exact h.1) := by
      intro α
      rw [seen, dif_pos ⟨by rw [hlen]; exact h.1, h.2⟩]
      rfl
    by_cases h1 : j < Us.length
    · refine .inl ⟨Us[j], .inl (List.getElem_mem _), fun α => ?_⟩
      rw [hs]
      simp only [copySystem]
      rw [List.getElem_append_left h1]
    · refine .inr ⟨map.unique_commitment_indices[j - Us.length]'(by omega), List.getElem_mem _, fun α => ?_⟩
      rw [hs]
      simp only [copySystem]
      rw [List.getElem_append_right (by omega), List.getElem_map]
  · refine .inl ⟨0, .inr rfl, fun α => ?_⟩
    rw [seen, dif_neg (by rw [hlen]; exact h)]

theorem copyVector_other {ws : Nat} {sets : List (List Nat)} {map : Mapping} (hwf : WF (m + 3) ws sets map)
    (msgs : List F) (α : F) (v : Fin (m + 1) → F) (i : Fin (m + 1)) (hi : ∀ s ∈ sets, i.val ∉ s) :
    copyVector map msgs α v i = v i := by
  rw [copyVector, List.filter_eq_nil_iff.2, List.map_nil, List.sum_nil, add_zero]
  intro e he
  obtain ⟨-, -, hci, -⟩ := hwf.mem e he
  obtain ⟨s, hs, hci⟩ := List.mem_flatten.1 hci
  simp only [beq_iff_eq]
  intro h
  exact hi s hs (h ▸ hci)

/-- The aggregated vector with first component one. -/
def copyOne (map : Mapping) (msgs : List F) (α : F) (v : Fin (m + 1) → F) : Fin (m + 1) → F :=
  Function.update (copyVector map msgs α v) 0 1

theorem copyOne_other {ws : Nat} {sets : List (List Nat)} {map : Mapping} (hwf : WF (m + 3) ws sets map)
    (msgs : List F) (α : F) (v : Fin (m + 1) → F) (i : Fin (m + 1)) (hi : ∀ s ∈ sets, i.val ∉ s) :
    copyOne map msgs α v i = Function.update v 0 1 i := by
  by_cases h : i = 0
  · subst h; simp [copyOne]
  · simp only [copyOne, ne_eq, h, not_false_eq_true, Function.update_of_ne]
    exact copyVector_other hwf msgs α v i hi

theorem quad_copyOne {ws : Nat} {sets : List (List Nat)} {map : Mapping} (hwf : WF (m + 3) ws sets map)
    (msgs : List F) (α : F) (v : Fin (m + 1) → F) (U : Matrix (Fin (m + 1)) (Fin (m + 1)) F)
    (hU : ∀ i j : Fin (m + 1), (∃ s ∈ sets, i.val ∈ s ∨ j.val ∈ s) → U i j = 0) :
    quad U (copyOne map msgs α v) = quad U (Function.update v 0 1) := by
  unfold quad
  refine Finset.sum_congr rfl fun i _ => Finset.sum_congr rfl fun l _ => ?_
  by_cases h : ∃ s ∈ sets, i.val ∈ s ∨ l.val ∈ s
  · rw [hU i l h]; simp
  · push Not at h
    rw [copyOne_other hwf msgs α v i (fun s hs => (h s hs).1), copyOne_other hwf msgs α v l (fun s hs => (h s hs).2)]

theorem slope_copyOne {ws : Nat} {sets : List (List Nat)} {map : Mapping} (hwf : WF (m + 3) ws sets map)
    (msgs : List F) (α : F) (v : Fin (m + 1) → F) (U : Matrix (Fin (m + 1)) (Fin (m + 1)) F)
    (hU : ∀ i j : Fin (m + 1), (∃ s ∈ sets, i.val ∈ s ∨ j.val ∈ s) → U i j = 0) :
    slope U (copyOne map msgs α v) = slope U (Function.update v 0 1) := by
  unfold slope
  refine Finset.sum_congr rfl fun i _ => ?_
  by_cases h : ∃ s ∈ sets, i.val ∈ s
  · obtain ⟨s, hs, hin⟩ := h
    rw [hU 0 i ⟨s, hs, .inr hin⟩, hU i 0 ⟨s, hs, .inl hin⟩]; simp
  · push Not at h
    rw [copyOne_other hwf msgs α v i h]

/-- The left-hand side of the constraint of the commitment index `c`. -/
def copyRow (map : Mapping) (msgs : List F) (v : Fin (m + 1) → F) (c : Nat) (α : F) : F :=
  ((map.msgs_map.filter fun e => e.commitment_index == c).map fun e =>
    α ^ (e.commitment_crs_id + 1) * slot (Function.update v 0 1) e.position_in_witness).sum -
  (slot v c + ((map.msgs_map.filter fun e => e.commitment_index == c).map fun e =>
    α ^ (e.commitment_crs_id + 1) * msgs.getD e.msg_id 0).sum)

/-- The leading coefficient of this constraint. -/
def copyLead (F : Type) [Field F] (map : Mapping) (c : Nat) (α : F) : F :=
  ((map.msgs_map.filter fun e => e.commitment_index == c).map fun e =>
    α ^ (e.commitment_crs_id + 1) * if e.position_in_witness = 0 then 1 else 0).sum - (if c = 0 then 1 else 0)

theorem copyLead_eq (map : Mapping) (c : Nat) (α : F) :
    copyConstraint m map α c (0 : Fin (m + 1)) (0 : Fin (m + 1)) = copyLead F map c α := by
  simp only [copyLead, copyConstraint, Fin.val_zero, Matrix.of_apply, if_true, mul_ite, mul_one, mul_zero]
  rfl

theorem copyPos {ws : Nat} {sets : List (List Nat)} {map : Mapping} (hwf : WF (m + 3) ws sets map) :
    ∀ e ∈ map.msgs_map, e.position_in_witness < m + 1 := by
  intro e he
  obtain ⟨-, -, -, -, -, hlt, -⟩ := hwf.mem e he
  omega

theorem copyRow_eq {ws : Nat} {sets : List (List Nat)} {map : Mapping} (hwf : WF (m + 3) ws sets map)
    (msgs : List F) (α : F) (v : Fin (m + 1) → F) {c : Nat} (hc : c < m + 1) (hc0 : c ≠ 0) :
    ∑ j, copyConstraint m map α c 0 j * copyOne map msgs α v j = copyRow map msgs v c α := by
  have hpos := copyPos hwf
  have e1 : slot (copyOne map msgs α v) c = slot v c +
      ((map.msgs_map.filter fun e => e.commitment_index == c).map fun e =>
        α ^ (e.commitment_crs_id + 1) * msgs.getD e.msg_id 0).sum := by
    rw [slot, dif_pos hc, slot, dif_pos hc, copyOne, Function.update_of_ne (by simpa [Fin.ext_iff] using hc0)]
    rfl
  have e2 : ∀ e ∈ map.msgs_map, slot (copyOne map msgs α v) e.position_in_witness =
      slot (Function.update v 0 1) e.position_in_witness := by
    intro e he
    rw [slot, slot, dif_pos (hpos e he), dif_pos (hpos e he)]
    refine copyOne_other hwf msgs α v _ fun s hs hin => ?_
    obtain ⟨-, -, -, -, -, -, hno⟩ := hwf.mem e he
    exact hno (List.mem_flatten.2 ⟨s, hs, hin⟩)
  rw [row_copyConstraint map α c _ hc hpos, e1, copyRow]
  congr 2
  refine List.map_congr_left fun e he => ?_
  rw [e2 e (List.mem_of_mem_filter he)]

theorem quad_copyRow {ws : Nat} {sets : List (List Nat)} {map : Mapping} (hwf : WF (m + 3) ws sets map)
    (msgs : List F) (α : F) (v : Fin (m + 1) → F) {c : Nat} (hc : c < m + 1) (hc0 : c ≠ 0) :
    quad (copyConstraint m map α c) (copyOne map msgs α v) = copyRow map msgs v c α := by
  have hpos := copyPos hwf
  rw [quad_copyConstraint map α c _ hc hpos, ← row_copyConstraint map α c _ hc hpos, copyRow_eq hwf msgs α v hc hc0]
  simp [copyOne]

theorem slope_copyRow {ws : Nat} {sets : List (List Nat)} {map : Mapping} (hwf : WF (m + 3) ws sets map)
    (msgs : List F) (α : F) (v : Fin (m + 1) → F) {c : Nat} (hc : c < m + 1) (hc0 : c ≠ 0) :
    slope (copyConstraint m map α c) (copyOne map msgs α v) = copyRow map msgs v c α + copyLead F map c α := by
  rw [slope]
  simp only [add_mul, Finset.sum_add_distrib]
  rw [copyRow_eq hwf msgs α v hc hc0]
  congr 1
  rw [Finset.sum_eq_single 0]
  · simp [copyOne, copyLead_eq]
  · intro i _ h
    simp [copyConstraint, h]
  · simp

theorem copyIndex {ws : Nat} {sets : List (List Nat)} {map : Mapping} (hwf : WF (m + 3) ws sets map)
    (hi : ∀ s ∈ sets, ∀ i ∈ s, i < m + 1) (h0 : ∀ s ∈ sets, 0 ∉ s) :
    ∀ c ∈ map.unique_commitment_indices, c < m + 1 ∧ c ≠ 0 := by
  intro c hc
  rw [hwf.uniq, mem_setCollect] at hc
  obtain ⟨s, hs, hc⟩ := List.mem_flatten.1 hc
  exact ⟨hi s hs c hc, fun h => h0 s hs (h ▸ hc)⟩

theorem user_or_zero {sets : List (List Nat)} {Us : List (Matrix (Fin (m + 1)) (Fin (m + 1)) F)}
    (hU : ∀ U ∈ Us, ∀ i j : Fin (m + 1), (∃ s ∈ sets, i.val ∈ s ∨ j.val ∈ s) → U i j = 0)
    (U : Matrix (Fin (m + 1)) (Fin (m + 1)) F) (h : U ∈ Us ∨ U = 0) (i j : Fin (m + 1))
    (hij : ∃ s ∈ sets, i.val ∈ s ∨ j.val ∈ s) : U i j = 0 := by
  rcases h with h | rfl
  · exact hU U h i j hij
  · rfl

/-- The numbers `drift` of Copy are polynomials in `alpha`. -/
theorem drift_isPoly {ws : Nat} {sets : List (List Nat)} {map : Mapping} (hwf : WF (m + 3) ws sets map)
    (hi : ∀ s ∈ sets, ∀ i ∈ s, i < m + 1) (h0 : ∀ s ∈ sets, 0 ∉ s)
    (Us : List (Matrix (Fin (m + 1)) (Fin (m + 1)) F))
    (hU : ∀ U ∈ Us, ∀ i j : Fin (m + 1), (∃ s ∈ sets, i.val ∈ s ∨ j.val ∈ s) → U i j = 0)
    (msgs : List F) (v : Fin (m + 1) → F) (n j : Nat) :
    IsPoly sets.length fun α => drift n (copySystem Us map α).get (copyVector map msgs α v) j := by
  have hcrs : ∀ c, ∀ e ∈ map.msgs_map.filter (fun e => e.commitment_index == c),
      e.commitment_crs_id + 1 ≤ sets.length := by
    intro c e he
    obtain ⟨-, -, -, hlt, -⟩ := hwf.mem e (List.mem_of_mem_filter he)
    omega
  have hcon := copyIndex hwf hi h0
  have hrow : ∀ c, IsPoly sets.length fun α => copyRow map msgs v c α := fun c =>
    (IsPoly.listSum _ _ _ (hcrs c)).sub ((IsPoly.const _ _).add (IsPoly.listSum _ _ _ (hcrs c)))
  have hlead : ∀ c, IsPoly sets.length fun α : F => copyLead F map c α := fun c =>
    (IsPoly.listSum _ _ _ (hcrs c)).sub (IsPoly.const _ _)
  have q1 : ∀ j, IsPoly sets.length fun α => quad (seen n (copySystem Us map α).get j) (copyOne map msgs α v) := by
    intro j
    rcases seen_copySystem n Us map j with ⟨U, hUm, hs⟩ | ⟨c, hc, hs⟩
    · simp only [hs, quad_copyOne hwf msgs _ v U (user_or_zero hU U hUm)]
      exact IsPoly.const _ _
    · simp only [hs, quad_copyRow hwf msgs _ v (hcon c hc).1 (hcon c hc).2]
      exact hrow c
  have q2 : ∀ j, IsPoly sets.length fun α => slope (seen n (copySystem Us map α).get j) (copyOne map msgs α v) := by
    intro j
    rcases seen_copySystem n Us map j with ⟨U, hUm, hs⟩ | ⟨c, hc, hs⟩
    · simp only [hs, slope_copyOne hwf msgs _ v U (user_or_zero hU U hUm)]
      exact IsPoly.const _ _
    · simp only [hs, slope_copyRow hwf msgs _ v (hcon c hc).1 (hcon c hc).2]
      exact (hrow c).add (hlead c)
  have q3 : ∀ j, IsPoly sets.length fun α => seen n (copySystem Us map α).get j (0 : Fin (m + 1)) (0 : Fin (m + 1)) := by
    intro j
    rcases seen_copySystem n Us map j with ⟨U, hUm, hs⟩ | ⟨c, hc, hs⟩
    · simp only [hs]
      exact IsPoly.const _ _
    · simp only [hs, copyLead_eq]
      exact hlead c
  have hd : ∀ α, copyVector map msgs α v 0 = v 0 := fun α => copyVector_zero hwf msgs α v h0
  simp only [drift, hd]
  refine ((q1 j).add ?_).add ?_
  · split
    · exact (q2 _).mul _
    · exact IsPoly.const _ _
  · split
    · exact (q3 _).mul _
    · exact IsPoly.const _ _

/-- If the numbers `drift` vanish for all `alpha`, the constraints do not depend on `alpha`. -/
theorem copyRow_const {ws : Nat} {sets : List (List Nat)} {map : Mapping} (hwf : WF (m + 3) ws sets map)
    (hws : 0 < ws) (hi : ∀ s ∈ sets, ∀ i ∈ s, i < m + 1) (h0 : ∀ s ∈ sets, 0 ∉ s)
    (Us : List (Matrix (Fin (m + 1)) (Fin (m + 1)) F))
    (hU : ∀ U ∈ Us, ∀ i j : Fin (m + 1), (∃ s ∈ sets, i.val ∈ s ∨ j.val ∈ s) → U i j = 0)
    (msgs : List F) (v : Fin (m + 1) → F) (n : Nat)
    (h : ∀ α j, drift n (copySystem Us map α).get (copyVector map msgs α v) j = 0) (j : Nat) :
    ∀ c ∈ map.unique_commitment_indices, (∀ α, seen n (copySystem Us map α).get j = copyConstraint m map α c) →
      ∀ α, copyRow map msgs v c α = copyRow map msgs v c 0 := by
  induction j using Nat.strong_induction_on with
  | _ j ih =>
    intro c hc hs α
    have hcon := copyIndex hwf hi h0
    have hd : ∀ α, copyVector map msgs α v 0 = v 0 := fun α => copyVector_zero hwf msgs α v h0
    have hlead : ∀ c ∈ map.unique_commitment_indices, ∀ α, copyLead F map c α = 0 := by
      intro c hc α
      rw [copyLead, if_neg (hcon c hc).2, sub_zero]
      refine List.sum_eq_zero fun x hx => ?_
      obtain ⟨e, he, rfl⟩ := List.mem_map.1 hx
      obtain ⟨-, -, -, -, hle, -⟩ := hwf.mem e (List.mem_of_mem_filter he)
      rw [if_neg (by omega), mul_zero]
    have k2 : 2 ≤ j → slope (seen n (copySystem Us map α).get (j - 2)) (copyOne map msgs α v) =
        slope (seen n (copySystem Us map 0).get (j - 2)) (copyOne map msgs 0 v) := by
      intro h2
      rcases seen_copySystem n Us map (j - 2) with ⟨U, hUm, hs'⟩ | ⟨c', hc', hs'⟩
      · rw [hs', hs', slope_copyOne hwf msgs _ v U (user_or_zero hU U hUm),
          slope_copyOne hwf msgs _ v U (user_or_zero hU U hUm)]
      · rw [hs', hs', slope_copyRow hwf msgs _ v (hcon c' hc').1 (hcon c' hc').2,
          slope_copyRow hwf msgs _ v (hcon c' hc').1 (hcon c' hc').2, ih (j - 2) (by omega) c' hc' hs' α,
          hlead c' hc', hlead c' hc']
    have k4 : seen n (copySystem Us map α).get (j - 4) (0 : Fin (m + 1)) (0 : Fin (m + 1)) =
        seen n (copySystem Us map 0).get (j - 4) (0 : Fin (m + 1)) (0 : Fin (m + 1)) := by
      rcases seen_copySystem n Us map (j - 4) with ⟨U, hUm, hs'⟩ | ⟨c', hc', hs'⟩
      · rw [hs', hs']
      · rw [hs', hs', copyLead_eq, copyLead_eq, hlead c' hc', hlead c' hc']
    have e1 := h α j
    have e2 := h 0 j
    simp only [drift, hd] at e1 e2
    rw [show Function.update (copyVector map msgs α v) 0 1 = copyOne map msgs α v from rfl, hs,
      quad_copyRow hwf msgs _ v (hcon c hc).1 (hcon c hc).2, k4] at e1
    rw [show Function.update (copyVector map msgs 0 v) 0 1 = copyOne map msgs 0 v from rfl, hs,
      quad_copyRow hwf msgs _ v (hcon c hc).1 (hcon c hc).2] at e2
    by_cases h2 : 2 ≤ j
    · rw [k2 h2] at e1
      linear_combination e1 - e2
    · rw [if_neg h2] at e1 e2
      linear_combination e1 - e2

/-- If the numbers `drift` vanish for all `alpha`, the slots of the messages hold the messages. -/
theorem messages_of_drift {ws : Nat} {sets : List (List Nat)} {map : Mapping} (hn : m + 3 < 65536)
    (hws : ws < 65536) (hs : sets.length ≤ 65536) (hmap : computeMapping (m + 3) ws sets = .ok map)
    (hw0 : 0 < ws) (hsets : ∀ s ∈ sets, s.Pairwise (· < ·))
    (hi : ∀ s ∈ sets, ∀ i ∈ s, i < m + 1) (h0 : ∀ s ∈ sets, 0 ∉ s)
    (Us : List (Matrix (Fin (m + 1)) (Fin (m + 1)) F))
    (hU : ∀ U ∈ Us, ∀ i j : Fin (m + 1), (∃ s ∈ sets, i.val ∈ s ∨ j.val ∈ s) → U i j = 0)
    (hfit : Us.length + map.unique_commitment_indices.length ≤ m + 3)
    (msgs : List F) (v : Fin (m + 1) → F) (S : Finset F) (hS : sets.length < S.card)
    (h : ∀ α j, drift (m + 3) (copySystem Us map α).get (copyVector map msgs α v) j = 0) :
    ∀ e ∈ map.msgs_map, slot v e.position_in_witness = msgs.getD e.msg_id 0 := by
  have hwf := computeMapping_wf hn hws hs hmap
  have hpos := copyPos hwf
  have hcon := copyIndex hwf hi h0
  have hrow : ∀ c ∈ map.unique_commitment_indices, ∀ α, copyRow map msgs v c α = copyRow map msgs v c 0 := by
    intro c hc
    obtain ⟨t, ht, rfl⟩ := List.getElem_of_mem hc
    refine copyRow_const hwf hw0 hi h0 Us hU msgs v (m + 3) h (Us.length + t) _ hc fun α => ?_
    rw [seen, dif_pos ⟨by simp [copySystem, ht], by omega⟩]
    simp [copySystem]
  -- the vector with the slots of the commitment indices emptied
  set v' : Fin (m + 1) → F := fun i => if i = 0 then 1 else if i.val ∈ sets.flatten then 0 else v i with hv'
  have hz : ∀ e ∈ map.msgs_map, e.position_in_witness ≠ 0 ∧ e.position_in_witness ∉ sets.flatten := by
    intro e he
    obtain ⟨-, -, -, -, h1, -, h2⟩ := hwf.mem e he
    exact ⟨by omega, h2⟩
  have hv : ∀ e ∈ map.msgs_map, slot v' e.position_in_witness = slot v e.position_in_witness := by
    intro e he
    obtain ⟨h1, h2⟩ := hz e he
    rw [slot, slot, dif_pos (hpos e he), dif_pos (hpos e he), hv']
    simp only
    rw [if_neg (by simpa [Fin.ext_iff] using h1), if_neg h2]
  intro e he
  rw [← hv e he]
  refine (C39_copy_equality hn hws hs hmap rfl hsets hi msgs v' S hS ?_ e he).1
  intro α _ u hu
  obtain rfl : u = copyVector map msgs α v' := funext hu
  have hu0 : copyVector map msgs α v' 0 = 1 := by
    rw [copyVector_zero hwf msgs α v' h0]; simp [hv']
  refine ⟨hu0, fun c hc => ?_⟩
  obtain ⟨hc1, hc2⟩ := hcon c hc
  have e1 : copyVector map msgs α v' = copyOne map msgs α v' := by
    rw [copyOne, ← hu0, Function.update_eq_self]
  have e2 : ∀ u : Fin (m + 1) → F, ∀ e ∈ map.msgs_map, slot (Function.update u 0 1) e.position_in_witness =
      slot u e.position_in_witness := by
    intro u e he
    rw [slot, slot, dif_pos (hpos e he), dif_pos (hpos e he), Function.update_of_ne]
    simpa [Fin.ext_iff] using (hz e he).1
  have e3 : slot v' c = 0 := by
    rw [slot, dif_pos hc1, hv']
    simp only
    rw [hwf.uniq, mem_setCollect] at hc
    rw [if_neg (by simpa [Fin.ext_iff] using hc2), if_pos hc]
  have e4 := hrow c hc α
  rw [e1, quad_copyRow hwf msgs α v' hc1 hc2]
  have e5 : ∀ u : Fin (m + 1) → F, ((map.msgs_map.filter fun e => e.commitment_index == c).map fun e =>
      α ^ (e.commitment_crs_id + 1) * slot (Function.update u 0 1) e.position_in_witness).sum =
      ((map.msgs_map.filter fun e => e.commitment_index == c).map fun e =>
      α ^ (e.commitment_crs_id + 1) * slot u e.position_in_witness).sum := by
    intro u
    congr 1
    refine List.map_congr_left fun e he => ?_
    rw [e2 u e (List.mem_of_mem_filter he)]
  have e6 : ((map.msgs_map.filter fun e => e.commitment_index == c).map fun e =>
      α ^ (e.commitment_crs_id + 1) * slot v' e.position_in_witness).sum =
      ((map.msgs_map.filter fun e => e.commitment_index == c).map fun e =>
      α ^ (e.commitment_crs_id + 1) * slot v e.position_in_witness).sum := by
    congr 1
    refine List.map_congr_left fun e he => ?_
    rw [hv e (List.mem_of_mem_filter he)]
  have e7 : copyRow map msgs v c 0 = - slot v c := by
    simp [copyRow]
  rw [e7] at e4
  unfold copyRow at e4 ⊢
  rw [e5] at e4 ⊢
  rw [e6, e3]
  linear_combination e4

end
end Qesa.Props
