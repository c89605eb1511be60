import Verif.SpecCopyAgm
import Verif.Proofs.QesaMachine
import Verif.Props.Copy
/-
Copy as a machine, for provers that commit as the honest prover does.
-/
namespace Qesa.Props
open Qesa Spec Copy
variable {F G V : Type} [Field F] [AddCommGroup V] [Module F V] {m : Nat}

/-! ### The aggregated commitment -/

theorem commit_sum (Gs : List V) (hG : Gs.length = m + 3) (w : (Fin (m + 1) → F) × F × F) :
    commit Gs w = (∑ i, w.1 i • Gs.getD i.val 0) + (w.2.1 • Gs.getD (m + 1) 0 + w.2.2 • Gs.getD (m + 2) 0) := by
  have e : Gs = List.ofFn (fun i : Fin (m + 1) => Gs.getD i.val 0) ++ [Gs.getD (m + 1) 0, Gs.getD (m + 2) 0] := by
    refine List.ext_getElem (by simp [hG]) fun i h1 h2 => ?_
    rw [List.getElem_append]
    split
    · rw [List.getElem_ofFn, List.getD_eq_getElem _ _ h1]
    · rename_i h
      simp only [List.length_ofFn, Nat.not_lt] at h
      simp only [List.length_ofFn]
      obtain rfl | rfl : i = m + 1 ∨ i = m + 2 := by omega
      · simp [h1]
      · simp [show m + 2 - (m + 1) = 1 by omega, h1]
  rw [commit]
  conv_lhs => rw [e]
  rw [dot_append (by simp), dot_ofFn, dot_cons, dot_cons, dot_nil_left, add_zero]

theorem sum_slots (g : Nat → V) (f : MessageMap → F) : ∀ ms : List MessageMap,
    (∀ e ∈ ms, e.commitment_index < m + 1) →
    ∑ i : Fin (m + 1), ((ms.filter fun e => e.commitment_index == i.val).map f).sum • g i.val =
    (ms.map fun e => f e • g e.commitment_index).sum
  | [], _ => by simp
  | e :: ms, h => by
    rw [List.map_cons, List.sum_cons, ← sum_slots g f ms fun e' he' => h e' (List.mem_cons_of_mem _ he')]
    have hlt := h e List.mem_cons_self
    have : ∀ i : Fin (m + 1), (((e :: ms).filter fun e => e.commitment_index == i.val).map f).sum • g i.val =
        (if i = ⟨e.commitment_index, hlt⟩ then f e • g e.commitment_index else 0) +
        ((ms.filter fun e => e.commitment_index == i.val).map f).sum • g i.val := by
      intro i
      by_cases hi : i = ⟨e.commitment_index, hlt⟩
      · subst hi
        rw [List.filter_cons_of_pos (by simp), List.map_cons, List.sum_cons, if_pos rfl, add_smul]
      · rw [if_neg hi, zero_add, List.filter_cons_of_neg]
        simp only [beq_iff_eq]
        intro he
        exact hi (Fin.ext he.symm)
    simp only [this, Finset.sum_add_distrib]
    rw [Finset.sum_ite_eq' Finset.univ, if_pos (Finset.mem_univ _)]

theorem sum_rands (g : V) : ∀ (as : List F) (coms : List (List Nat × List F × F)),
    dot (coms.map (·.2.2)) as • g = (List.zipWith (fun (a : F) (c : List Nat × List F × F) =>
      (a * c.2.2) • g) as coms).sum
  | [], _ => by simp
  | _ :: _, [] => by simp
  | a :: as, c :: coms => by
    rw [List.map_cons, dot_cons, add_smul, sum_rands g as coms, List.zipWith_cons_cons, List.sum_cons,
      smul_eq_mul, mul_comm]

theorem sum_commits (Gs : List V) : ∀ (as : List F) (coms : List (List Nat × List F × F)),
    dot as (coms.map (messageCommit Gs)) = (List.zipWith (fun (a : F) (c : List Nat × List F × F) =>
      a • dot c.2.1 (c.1.map fun i => Gs.getD i 0)) as coms).sum +
      (List.zipWith (fun (a : F) (c : List Nat × List F × F) =>
      (a * c.2.2) • Gs.getD (Gs.length - 1) 0) as coms).sum
  | [], _ => by simp
  | _ :: _, [] => by simp
  | a :: as, c :: coms => by
    rw [List.map_cons, dot_cons, sum_commits Gs as coms, List.zipWith_cons_cons, List.zipWith_cons_cons,
      List.sum_cons, List.sum_cons, messageCommit]
    module

/-- Adding the aggregated messages to the vector adds the aggregated commitments to its commitment. -/
theorem commit_copyVector {ws : Nat} {map : Mapping} (coms : List (List Nat × List F × F))
    (hwf : WF (m + 3) ws (coms.map (·.1)) map) (hlen : ∀ c ∈ coms, c.1.length = c.2.1.length)
    (hi : ∀ c ∈ coms, ∀ i ∈ c.1, i < m + 1) (Gs : List V) (hG : Gs.length = m + 3) (α : F)
    (v : Fin (m + 1) → F) (r0 r1 : F) :
    commit Gs (copyVector map (coms.map (·.2.1)).flatten α v, r0,
      r1 + dot (coms.map (·.2.2)) (List.ofFn (powers α coms.length))) =
    dot (List.ofFn (powers α coms.length)) (coms.map (messageCommit Gs)) + commit Gs (v, r0, r1) := by
  rw [commit_sum Gs hG, commit_sum Gs hG, sum_commits, hG, show m + 3 - 1 = m + 2 by omega]
  simp only [copyVector, add_smul, Finset.sum_add_distrib, sum_rands]
  rw [sum_slots (fun i => Gs.getD i 0)]
  swap
  · intro e he
    obtain ⟨-, -, hci, -⟩ := hwf.mem e he
    obtain ⟨s, hs, hci⟩ := List.mem_flatten.1 hci
    obtain ⟨c, hc, rfl⟩ := List.mem_map.1 hs
    exact hi c hc _ hci
  have e1 := aggregated (fun i => α ^ (i + 1)) (fun i => Gs.getD i 0) 0 coms hlen
  have e2 : List.ofFn (powers α coms.length) =
      (List.range' 0 coms.length).map fun i => α ^ (i + 1) := by
    apply List.ext_getElem
    · simp
    · intro i h1 h2; simp [powers]
  have e3 : (map.msgs_map.map fun e => (α ^ (e.commitment_crs_id + 1) *
        (coms.map (·.2.1)).flatten.getD e.msg_id 0) • Gs.getD e.commitment_index 0) =
      (List.range (coms.map fun c => c.1.length).sum).map fun k =>
        (α ^ ((crsIds 0 (coms.map (·.1))).getD k 0 + 1) *
          ((coms.map (·.2.1)).flatten).getD k 0) • Gs.getD ((coms.map (·.1)).flatten.getD k 0) 0 := by
    obtain ⟨free, -, -, -, -, f5⟩ := hwf.free
    have hsum : (List.map List.length (coms.map (·.1))).sum = (coms.map fun c => c.1.length).sum := by
      rw [List.map_map]; rfl
    rw [f5, List.map_ofFn]
    apply List.ext_getElem
    · rw [List.length_ofFn, List.length_map, List.length_range, hsum]
    · intro i h1 h2
      rw [List.getElem_ofFn, List.getElem_map, List.getElem_range]
      rfl
  have e4 : (map.msgs_map.map fun e => (α ^ (e.commitment_crs_id + 1) *
        (coms.map (·.2.1)).flatten.getD e.msg_id 0) • Gs.getD e.commitment_index 0).sum =
      (List.zipWith (fun (a : F) (c : List Nat × List F × F) =>
        a • dot c.2.1 (c.1.map fun i => Gs.getD i 0)) (List.ofFn (powers α coms.length)) coms).sum := by
    rw [e3, e2, List.zipWith_map_left]
    exact e1
  rw [e4]
  abel

/-! ### The machine -/

/-- The states: `start` is waiting for `C_w`, `agg` for the challenge `x` of QESA. -/
inductive CState (F V : Type) (m : Nat)
  | start
  | agg (α : F) (w : (Fin (m + 1) → F) × F × F)
  | run (α : F) (s : QState F V m)

/-- The vectors committed to in `C_w`: the first component is one, and the claim is wrong. -/
def Fails (Us : List (Matrix (Fin (m + 1)) (Fin (m + 1)) F)) (map : Mapping) (msgs : List F) : Type :=
  {w : (Fin (m + 1) → F) × F × F // w.1 0 = 1 ∧ ¬ CopyHolds Us map msgs w.1}

variable (Us : List (Matrix (Fin (m + 1)) (Fin (m + 1)) F)) (map : Mapping)
  (coms : List (List Nat × List F × F))

/-- What the prover sends. -/
def CState.Msg : CState F V m → Type
  | .start => Fails Us map (coms.map (·.2.1)).flatten
  | .agg .. => Unit
  | .run α s => s.Msg (copySystem Us map α).get

/-- What is appended to the transcript. -/
def CState.ext (cmp : G → Comp) (ev : V → G) (Gs Hs : List V) :
    (s : CState F V m) → s.Msg Us map coms → List (Note V)
  | .start, w => alphaNotes cmp ev (commit Gs (w : Fails Us map (coms.map (·.2.1)).flatten).1)
  | .agg _ w, _ => xNotes cmp ev (commit Gs w)
  | .run α s, w => s.ext cmp ev Gs Hs (copySystem Us map α).get w

/-- The vector and the masks of the QESA inside. -/
def aggWitness (α : F) (w : (Fin (m + 1) → F) × F × F) : (Fin (m + 1) → F) × F × F :=
  (copyVector map (coms.map (·.2.1)).flatten α w.1, w.2.1,
    w.2.2 + dot (coms.map (·.2.2)) (List.ofFn (powers α coms.length)))

/-- The next state. -/
noncomputable def CState.next (cmp : G → Comp) (ev : V → G) (q : Nat) (Gs Hs : List V) (Q : V) :
    (s : CState F V m) → s.Msg Us map coms → F → CState F V m
  | .start, w, α => .agg α (aggWitness map coms α (w : Fails Us map (coms.map (·.2.1)).flatten).1)
  | .agg α w, _, x => .run α (.second w.1 w.2.1 w.2.2 x)
  | .run α s, w, c => .run α (s.next cmp ev q Gs Hs Q (copySystem Us map α).get w c)

/-- What remains to be hoped for. -/
def CState.Good : CState F V m → Prop
  | .start => False
  | .agg α w => w.1 0 = 1 → ∀ i : Fin (copySystem Us map α).length, i.val < m + 3 →
      quad ((copySystem Us map α).get i) w.1 = 0
  | .run α s => s.Good (copySystem Us map α).get

/-- Copy. -/
noncomputable def copyMachine (cmp : G → Comp) (ev : V → G) (q : Nat) (Gs Hs : List V) (Q : V) :
    Machine F (Note V) where
  S := CState F V m
  M := CState.Msg Us map coms
  ext := CState.ext Us map coms cmp ev Gs Hs
  next := CState.next Us map coms cmp ev q Gs Hs Q
  good := CState.Good Us map

variable {Us map coms}

/-- Equations without coefficients at the commitment indices do not notice the aggregation. -/
theorem quad_copyVector {ws : Nat} {sets : List (List Nat)} (hwf : WF (m + 3) ws sets map) (msgs : List F)
    (α : F) (v : Fin (m + 1) → F) (U : Matrix (Fin (m + 1)) (Fin (m + 1)) F)
    (hU : ∀ i j : Fin (m + 1), (∃ s ∈ sets, i.val ∈ s ∨ j.val ∈ s) → U i j = 0) :
    quad U (copyVector map msgs α v) = quad U v := by
  have key : ∀ i : Fin (m + 1), (∀ s ∈ sets, i.val ∉ s) → copyVector map msgs α v i = v i := by
    intro i hi
    rw [copyVector, List.filter_eq_nil_iff.2, List.map_nil, List.sum_nil, add_zero]
    intro e he
    obtain ⟨-, -, hci, -⟩ := hwf.mem e he
    obtain ⟨s, hs, hci⟩ := List.mem_flatten.1 hci
    simp only [beq_iff_eq]
    intro h
    exact hi s hs (h ▸ hci)
  unfold quad
  refine Finset.sum_congr rfl fun i _ => Finset.sum_congr rfl fun j _ => ?_
  by_cases h : ∃ s ∈ sets, i.val ∈ s ∨ j.val ∈ s
  · rw [hU i j h]; simp
  · push Not at h
    rw [key i (fun s hs => (h s hs).1), key j (fun s hs => (h s hs).2)]

theorem copyVector_zero {ws : Nat} {sets : List (List Nat)} (hwf : WF (m + 3) ws sets map) (msgs : List F)
    (α : F) (v : Fin (m + 1) → F) (h0 : ∀ s ∈ sets, 0 ∉ s) : copyVector map msgs α v 0 = v 0 := by
  rw [copyVector, List.filter_eq_nil_iff.2, List.map_nil, List.sum_nil, add_zero]
  intro e he
  obtain ⟨-, -, hci, -⟩ := hwf.mem e he
  obtain ⟨s, hs, hci⟩ := List.mem_flatten.1 hci
  simp only [beq_iff_eq]
  intro h
  rw [h] at hci
  exact h0 s hs (by simpa using hci)

/-- Only few challenges repair a wrong claim. -/
theorem copy_few {ws : Nat} (hn : m + 3 < 65536) (hws : ws < 65536) (hs : coms.length ≤ 65536)
    (hmap : computeMapping (m + 3) ws (coms.map (·.1)) = .ok map)
    (hsets : ∀ c ∈ coms, c.1.Pairwise (· < ·)) (hi : ∀ c ∈ coms, ∀ i ∈ c.1, i < m + 1)
    (h0 : ∀ c ∈ coms, 0 ∉ c.1)
    (hU : ∀ U ∈ Us, ∀ i j : Fin (m + 1), (∃ c ∈ coms, i.val ∈ c.1 ∨ j.val ∈ c.1) → U i j = 0)
    (hfit : Us.length + map.unique_commitment_indices.length ≤ m + 3) (v : Fin (m + 1) → F) (hv : v 0 = 1)
    (hno : ¬ CopyHolds Us map (coms.map (·.2.1)).flatten v) :
    ∃ B : Finset F, B.card ≤ coms.length ∧ ∀ α, (copyVector map (coms.map (·.2.1)).flatten α v 0 = 1 →
      ∀ i : Fin (copySystem Us map α).length, i.val < m + 3 →
      quad ((copySystem Us map α).get i) (copyVector map (coms.map (·.2.1)).flatten α v) = 0) → α ∈ B := by
  classical
  have hwf := computeMapping_wf hn hws (by simpa using hs) hmap
  have hall : ∀ α, (copyVector map (coms.map (·.2.1)).flatten α v 0 = 1 →
      ∀ i : Fin (copySystem Us map α).length, i.val < m + 3 →
      quad ((copySystem Us map α).get i) (copyVector map (coms.map (·.2.1)).flatten α v) = 0) →
      ∀ M ∈ copySystem Us map α, quad M (copyVector map (coms.map (·.2.1)).flatten α v) = 0 := by
    intro α h M hM
    obtain ⟨i, hi, rfl⟩ := List.getElem_of_mem hM
    refine h ?_ ⟨i, hi⟩ ?_
    · rw [copyVector_zero hwf _ _ _ (by
        intro s hs
        obtain ⟨c, hc, rfl⟩ := List.mem_map.1 hs
        exact h0 c hc), hv]
    · have : (copySystem Us map α).length = Us.length + map.unique_commitment_indices.length := by
        simp [copySystem]
      simp only
      omega
  apply few_of_no_injection
  rintro ⟨x, hx, h⟩
  apply hno
  constructor
  · intro U hUm
    have := hall _ (h 0) U (List.mem_append_left _ hUm)
    rwa [quad_copyVector hwf _ _ _ _ (by
      rintro i j ⟨s, hs, hij⟩
      obtain ⟨c, hc, rfl⟩ := List.mem_map.1 hs
      exact hU U hUm i j ⟨c, hc, hij⟩)] at this
  · refine C39_copy_equality (k := m) hn hws (by simpa using hs) hmap rfl (by simpa using hsets)
      (by simpa using hi) _ v (Finset.univ.image x) ?_ ?_
    · rw [Finset.card_image_of_injective _ hx, Finset.card_univ, Fintype.card_fin, List.length_map]
      omega
    · intro α hα v' hv'
      obtain ⟨l, -, rfl⟩ := Finset.mem_image.1 hα
      obtain rfl : v' = copyVector map (coms.map (·.2.1)).flatten (x l) v := funext hv'
      constructor
      · rw [copyVector_zero hwf _ _ _ (by
          intro s hs
          obtain ⟨c, hc, rfl⟩ := List.mem_map.1 hs
          exact h0 c hc), hv]
      · intro c hc
        exact hall _ (h l) _ (List.mem_append_right _ (List.mem_map_of_mem hc))

theorem copyMachine_sound (cmp : G → Comp) (ev : V → G) {q : Nat} (hq : m + 3 = 2 ^ q) (Gs Hs : List V) (Q : V)
    (hG : Gs.length = m + 3) (hH : Hs.length = m + 3) (hf : Free (F := F) Gs Hs Q)
    {ws : Nat} (hn : m + 3 < 65536) (hws : ws < 65536) (hs : coms.length ≤ 65536)
    (hmap : computeMapping (m + 3) ws (coms.map (·.1)) = .ok map)
    (hsets : ∀ c ∈ coms, c.1.Pairwise (· < ·)) (hi : ∀ c ∈ coms, ∀ i ∈ c.1, i < m + 1)
    (h0 : ∀ c ∈ coms, 0 ∉ c.1)
    (hU : ∀ U ∈ Us, ∀ i j : Fin (m + 1), (∃ c ∈ coms, i.val ∈ c.1 ∨ j.val ∈ c.1) → U i j = 0)
    (hfit : Us.length + map.unique_commitment_indices.length ≤ m + 3) :
    (copyMachine Us map coms cmp ev q Gs Hs Q).Sound (max (m + 3) coms.length) where
  ne := by
    intro s w
    change CState.ext Us map coms cmp ev Gs Hs s w ≠ []
    match s, w with
    | .start, _ => simp [CState.ext, alphaNotes]
    | .agg .., _ => simp [CState.ext, xNotes]
    | .run α s, w => exact (qesaMachine_sound cmp ev hq Gs Hs Q hG hH hf _).ne s w
  free := by
    intro s w w' r r' h
    change CState.ext Us map coms cmp ev Gs Hs s w ++ r = CState.ext Us map coms cmp ev Gs Hs s w' ++ r' at h
    match s, w, w' with
    | .start, (w : Fails Us map (coms.map (·.2.1)).flatten), (w' : Fails Us map (coms.map (·.2.1)).flatten) =>
      simp only [CState.ext, alphaNotes, List.cons_append, List.cons.injEq, Prod.mk.injEq,
        Option.some.injEq] at h
      exact Subtype.ext (commit_injective hG hf _ _ h.1.2)
    | .agg .., _, _ => rfl
    | .run α s, w, w' => exact (qesaMachine_sound cmp ev hq Gs Hs Q hG hH hf _).free s w w' r r' h
  few := by
    intro s w hsg
    change ¬ CState.Good Us map s at hsg
    change ∃ B : Finset F, B.card ≤ max (m + 3) coms.length ∧
      ∀ x, CState.Good Us map (CState.next Us map coms cmp ev q Gs Hs Q s w x) → x ∈ B
    match s, w with
    | .start, (⟨⟨v, r0, r1⟩, hv, hno⟩ : Fails Us map (coms.map (·.2.1)).flatten) =>
      obtain ⟨B, hB, hx⟩ := copy_few hn hws hs hmap hsets hi h0 hU hfit v hv hno
      exact ⟨B, hB.trans (le_max_right _ _), hx⟩
    | .agg α w, _ =>
      simp only [CState.Good, Classical.not_imp, not_forall] at hsg
      obtain ⟨hw, i, hi, hne⟩ := hsg
      obtain ⟨B, hB, hx⟩ := (qesaMachine_sound cmp ev hq Gs Hs Q hG hH hf (copySystem Us map α).get).few
        .first (⟨w, hw, i, hi, hne⟩ : Violates (copySystem Us map α).get) (fun h => h)
      exact ⟨B, hB.trans (le_max_left _ _), hx⟩
    | .run α s, w =>
      obtain ⟨B, hB, hx⟩ := (qesaMachine_sound cmp ev hq Gs Hs Q hG hH hf (copySystem Us map α).get).few
        s w hsg
      exact ⟨B, hB.trans (le_max_left _ _), hx⟩

/-- Conversations of QESA are the ends of conversations of Copy. -/
theorem run_path (cmp : G → Comp) (ev : V → G) {q : Nat} (Gs Hs : List V) (Q : V) (α : F) (ro : Hash)
    {a a' : (qesaMachine cmp ev q Gs Hs Q (copySystem Us map α).get).S}
    {log : List (Note V)} {ls : List (List (Note V))}
    (h : (qesaMachine cmp ev q Gs Hs Q (copySystem Us map α).get).Path Prod.fst ro a log ls a') :
    (copyMachine Us map coms cmp ev q Gs Hs Q).Path Prod.fst ro (.run α a) log ls (.run α a') := by
  induction h with
  | nil => exact .nil
  | @cons s s' log ls w _ ih =>
    exact Machine.Path.cons (Mc := copyMachine Us map coms cmp ev q Gs Hs Q) (er := Prod.fst)
      (s := CState.run α s) w ih

/-- Copy. -/
theorem copy_path [DecidableEq F] (cmp : G → Comp) (ev : V → G) {q : Nat} (hq : m + 3 = 2 ^ q) (Gs Hs : List V)
    (Q : V) (hG : Gs.length = m + 3) (hH : Hs.length = m + 3) {ws : Nat}
    (hwf : WF (m + 3) ws (coms.map (·.1)) map) (hlen : ∀ c ∈ coms, c.1.length = c.2.1.length)
    (hi : ∀ c ∈ coms, ∀ i ∈ c.1, i < m + 1) (ro : Hash) (log : List (Note V))
    (p : AlgCopy F V) (w : Fails Us map (coms.map (·.2.1)).flatten) (y : (Fin (m + 1) → F) × F × F)
    (hC : p.C_w = commit Gs w.1) (hC'' : p.C'' = commit Hs y) (hl : p.alm.ipa.Ls.length = q)
    (h : copyGap ro (log.map Prod.fst) (fun L => cmp (ev L)) Gs Hs Q Us map (coms.map (messageCommit Gs)) p = 0) :
    ∃ ls s', (copyMachine Us map coms cmp ev q Gs Hs Q).Path Prod.fst ro .start log ls s' ∧
      (copyMachine Us map coms cmp ev q Gs Hs Q).good s' ∧
      ∀ l ∈ ls, l ∈ copyQueries ro cmp ev log Gs Hs Q Us map (coms.map (messageCommit Gs)) p := by
  have e0 : (log ++ alphaNotes cmp ev p.C_w).map Prod.fst =
      log.map Prod.fst ++ [.msg "c_w" (cmp (ev p.C_w)), .chal "alpha" 64] := by
    rw [List.map_append]; rfl
  unfold copyGap at h
  simp only at h
  generalize hα : copyAlpha F ro (log.map Prod.fst) (cmp (ev p.C_w)) = α at h
  have hin : (p.qesa (coms.map (messageCommit Gs)) α).C' = commit Gs (aggWitness map coms α w.1) := by
    rw [aggWitness, commit_copyVector coms hwf hlen hi Gs hG, AlgCopy.qesa, hC, List.length_map]
  rw [← e0] at h
  obtain ⟨ls, s', hp, hg, hm⟩ := second_path cmp ev hq Gs Hs Q hG hH (copySystem Us map α).get ro
    (log ++ alphaNotes cmp ev p.C_w) (p.qesa (coms.map (messageCommit Gs)) α) (aggWitness map coms α w.1) y
    hin hC'' hl h
  refine ⟨(log ++ alphaNotes cmp ev p.C_w) :: (log ++ alphaNotes cmp ev p.C_w ++
    xNotes cmp ev (p.qesa (coms.map (messageCommit Gs)) α).C') :: ls, .run α s', ?_, hg, ?_⟩
  · have p2 := run_path (coms := coms) cmp ev Gs Hs Q α ro hp
    have p1 := Machine.Path.cons (Mc := copyMachine Us map coms cmp ev q Gs Hs Q) (er := Prod.fst) (ro := ro)
      (log := log ++ alphaNotes cmp ev p.C_w) (ls := ls) (s' := .run α s')
      (s := CState.agg α (aggWitness map coms α w.1)) () (by
        have : (copyMachine Us map coms cmp ev q Gs Hs Q).chal Prod.fst ro (log ++ alphaNotes cmp ev p.C_w)
            (s := CState.agg α (aggWitness map coms α w.1)) () =
            qesaX F ro ((log ++ alphaNotes cmp ev p.C_w).map Prod.fst)
              (cmp (ev (p.qesa (coms.map (messageCommit Gs)) α).C')) := by
          rw [hin]
          refine congrArg (squeeze F ro) ?_
          rw [List.map_append]; rfl
        rw [this]
        rw [hin] at p2 ⊢
        exact p2)
    have p0 := Machine.Path.cons (Mc := copyMachine Us map coms cmp ev q Gs Hs Q) (er := Prod.fst) (ro := ro)
      (log := log) (s' := .run α s')
      (ls := (log ++ alphaNotes cmp ev p.C_w ++ xNotes cmp ev (p.qesa (coms.map (messageCommit Gs)) α).C') :: ls)
      (s := CState.start) w (by
        have : (copyMachine Us map coms cmp ev q Gs Hs Q).chal Prod.fst ro log (s := CState.start) w = α := by
          rw [hC] at e0 hα
          exact (congrArg (squeeze F ro) e0).trans hα
        rw [this]
        rw [hin]
        rw [hC] at p1 ⊢
        exact p1)
    rw [hC] at p0 ⊢
    exact p0
  · intro l hl'
    unfold copyQueries
    simp only
    rw [hα]
    simp only [List.mem_cons] at hl'
    rcases hl' with rfl | rfl | hl'
    · exact List.mem_cons_self
    · exact List.mem_cons_of_mem _ List.mem_cons_self
    · exact List.mem_cons_of_mem _ (hm l hl')

end Qesa.Props
