import Verif.SpecCopy
import Verif.Proofs.Qesa
/- Helper lemmas about src/copy. -/
namespace Qesa.Copy
open Qesa Spec

/-! ### Sets -/

theorem mem_setInsert (x y : Nat) (s : List Nat) : y ∈ setInsert x s ↔ y = x ∨ y ∈ s := by
  induction s with
  | nil => simp [setInsert]
  | cons z s ih =>
    unfold setInsert
    split
    · simp
    · split
      · next h => subst h; simp
      · simp only [List.mem_cons, ih]; tauto

theorem pairwise_setInsert (x : Nat) (s : List Nat) (h : s.Pairwise (· < ·)) :
    (setInsert x s).Pairwise (· < ·) := by
  induction s with
  | nil => simp [setInsert]
  | cons z s ih =>
    have ⟨h1, h2⟩ := List.pairwise_cons.1 h
    unfold setInsert
    split
    · next hx =>
      refine List.pairwise_cons.2 ⟨?_, h⟩
      intro a ha
      rcases List.mem_cons.1 ha with rfl | ha
      · exact hx
      · exact hx.trans (h1 a ha)
    · split
      · exact h
      · refine List.pairwise_cons.2 ⟨?_, ih h2⟩
        intro a ha
        rcases (mem_setInsert x a s).1 ha with rfl | ha
        · omega
        · exact h1 a ha

theorem setCollect_aux (l s : List Nat) (h : s.Pairwise (· < ·)) :
    (l.foldl (fun s x => setInsert x s) s).Pairwise (· < ·) ∧
      ∀ y, y ∈ l.foldl (fun s x => setInsert x s) s ↔ y ∈ l ∨ y ∈ s := by
  induction l generalizing s with
  | nil => simpa using h
  | cons x l ih =>
    obtain ⟨h1, h2⟩ := ih (setInsert x s) (pairwise_setInsert x s h)
    refine ⟨h1, fun y => ?_⟩
    rw [List.foldl_cons, h2, mem_setInsert, List.mem_cons]
    tauto

theorem setCollect_pairwise (l : List Nat) : (setCollect l).Pairwise (· < ·) :=
  (setCollect_aux l [] List.Pairwise.nil).1

theorem mem_setCollect (l : List Nat) (y : Nat) : y ∈ setCollect l ↔ y ∈ l := by
  have := (setCollect_aux l [] List.Pairwise.nil).2 y
  simp only [List.not_mem_nil, or_false] at this
  exact this

/-! ### The mapping -/

theorem assignPositions_eq (ms : List MessageMap) (ps : List Nat) (h : ms.length = ps.length) :
    assignPositions ms ps = List.zipWith (fun m p => { m with position_in_witness := p }) ms ps := by
  induction ms generalizing ps with
  | nil => simp [assignPositions]
  | cons m ms ih =>
    cases ps with
    | nil => simp at h
    | cons p ps => simp [assignPositions, ih ps (by simpa using h)]

theorem assignIndices_eq (ms : List MessageMap) (ps : List Nat) (h : ms.length = ps.length) :
    assignIndices ms ps =
      .ok (List.zipWith (fun m p => { m with commitment_index := p }) ms ps) := by
  induction ms generalizing ps with
  | nil => cases ps with
    | nil => simp [assignIndices]
    | cons p ps => simp at h
  | cons m ms ih =>
    cases ps with
    | nil => simp at h
    | cons p ps => simp [assignIndices, ih ps (by simpa using h)]

theorem assignCrs_eq (ms : List MessageMap) (ps : List Nat) (h : ms.length = ps.length) :
    assignCrs ms ps =
      .ok (List.zipWith (fun m p => { m with commitment_crs_id := asU16 p }) ms ps) := by
  induction ms generalizing ps with
  | nil => cases ps with
    | nil => simp [assignCrs]
    | cons p ps => simp at h
  | cons m ms ih =>
    cases ps with
    | nil => simp at h
    | cons p ps => simp [assignCrs, ih ps (by simpa using h)]

theorem crsIds_length (c : Nat) (sets : List (List Nat)) :
    (crsIds c sets).length = (sets.map List.length).sum := by
  induction sets generalizing c with
  | nil => rfl
  | cons s ss ih => simp [crsIds, ih]

/-- Number of messages before set `c`. -/
theorem getElem?_crsIds (sets : List (List Nat)) (c0 c j : Nat) (hc : c < sets.length)
    (hj : j < sets[c].length) :
    (crsIds c0 sets)[((sets.take c).map List.length).sum + j]? = some (c0 + c) := by
  induction sets generalizing c0 c with
  | nil => simp at hc
  | cons s ss ih =>
    cases c with
    | zero =>
      simp only [List.getElem_cons_zero] at hj
      simp only [List.take_zero, List.map_nil, List.sum_nil, Nat.zero_add, crsIds]
      rw [List.getElem?_append_left (by simpa using hj)]
      simp [hj]
    | succ c =>
      simp only [List.getElem_cons_succ] at hj
      simp only [List.take_succ_cons, List.map_cons, List.sum_cons, crsIds]
      rw [List.getElem?_append_right (by simp; omega)]
      simp only [List.length_replicate]
      rw [show s.length + ((ss.take c).map List.length).sum + j - s.length =
        ((ss.take c).map List.length).sum + j by omega, ih (c0 + 1) c (by simpa using hc) hj]
      congr 1; omega

theorem getElem?_flatten {α : Type} (sets : List (List α)) (c j : Nat) (hc : c < sets.length)
    (hj : j < sets[c].length) :
    sets.flatten[((sets.take c).map List.length).sum + j]? = some sets[c][j] := by
  induction sets generalizing c with
  | nil => simp at hc
  | cons s ss ih =>
    cases c with
    | zero =>
      simp only [List.getElem_cons_zero] at hj
      simp only [List.take_zero, List.map_nil, List.sum_nil, Nat.zero_add, List.flatten_cons]
      rw [List.getElem?_append_left hj]
      simp
    | succ c =>
      simp only [List.getElem_cons_succ] at hj
      simp only [List.take_succ_cons, List.map_cons, List.sum_cons, List.flatten_cons]
      rw [List.getElem?_append_right (by omega)]
      rw [show s.length + ((ss.take c).map List.length).sum + j - s.length =
        ((ss.take c).map List.length).sum + j by omega, ih c (by simpa using hc) hj]
      simp

/-- The free slots in increasing order. -/
def slots (n ws : Nat) (used : List Nat) : List Nat :=
  (List.range' ws (n - 2 - ws)).filter fun x => !used.contains x

theorem slots_pairwise (n ws : Nat) (used : List Nat) : (slots n ws used).Pairwise (· < ·) :=
  List.Pairwise.filter _ List.pairwise_lt_range'

theorem mem_slots (n ws : Nat) (used : List Nat) (x : Nat) :
    x ∈ slots n ws used ↔ ws ≤ x ∧ x + 2 < n ∧ x ∉ used := by
  simp only [slots, List.mem_filter, List.mem_range'_1, Bool.not_eq_true', List.contains_eq_mem,
    decide_eq_false_iff_not]
  constructor
  · rintro ⟨⟨h1, h2⟩, h3⟩; exact ⟨h1, by omega, h3⟩
  · rintro ⟨h1, h2, h3⟩; exact ⟨⟨h1, by omega⟩, h3⟩

/-- The messages of a mapping in terms of the slots. -/
def messages (sets : List (List Nat)) (free : List Nat) : List MessageMap :=
  List.ofFn fun k : Fin (sets.map List.length).sum =>
    ⟨k, sets.flatten.getD k 0, asU16 ((crsIds 0 sets).getD k 0), free.getD k 0⟩

/-- What `compute_mapping` does once the free slots are known. -/
theorem mappingBody_eq (sets : List (List Nat)) (free : List Nat) :
    (do
      let available := free.take (sets.map List.length).sum
      let lastIndex ← unwrapR available.getLast?
      rassert ((sets.map List.length).sum = available.length)
      let msgs := (List.range (sets.map List.length).sum).map fun i => (⟨i, 0, 0, 0⟩ : MessageMap)
      let msgs := assignPositions msgs available
      let msgs ← assignIndices msgs sets.flatten
      let msgs ← assignCrs msgs (crsIds 0 sets)
      return ⟨sets.length, msgs, setCollect sets.flatten, lastIndex⟩ : R Mapping) =
      if (sets.map List.length).sum = 0 ∨ free = [] then .error .unwrapNone
      else if free.length < (sets.map List.length).sum then .error .assertFail
      else .ok ⟨sets.length, messages sets free, setCollect sets.flatten,
        free.getD ((sets.map List.length).sum - 1) 0⟩ := by
  dsimp only
  set total := (sets.map List.length).sum with htot
  by_cases h0 : total = 0 ∨ free = []
  · rw [if_pos h0]
    have : free.take total = [] := by rcases h0 with h | h <;> simp [h]
    rw [this]; rfl
  rw [if_neg h0]
  rw [not_or] at h0
  have hne : free.take total ≠ [] := by
    intro h; rcases List.take_eq_nil_iff.1 h with h | h
    · exact h0.1 h
    · exact h0.2 h
  rw [List.getLast?_eq_some_getLast hne]
  simp only [unwrapR, ok_bind]
  by_cases hl : free.length < total
  · rw [if_pos hl, rassert_false (by rw [List.length_take]; omega)]; rfl
  rw [if_neg hl, rassert_true (by rw [List.length_take]; omega)]
  simp only [ok_bind]
  have hfl : sets.flatten.length = total := by rw [List.length_flatten]
  rw [assignPositions_eq _ _ (by simp; omega), assignIndices_eq _ _ (by simp [hfl]; omega)]
  simp only [ok_bind]
  rw [assignCrs_eq _ _ (by simp [hfl, crsIds_length]; omega)]
  simp only [ok_bind, R_pure]
  congr 2
  · apply List.ext_getElem
    · simp [messages, hfl, crsIds_length]; omega
    · intro i h1 h2
      have hi : i < total := by simpa [messages] using h2
      simp only [messages, List.getElem_zipWith, List.getElem_ofFn, List.getElem_map,
        List.getElem_range, List.getElem_take]
      rw [List.getD_eq_getElem _ _ (by rw [hfl]; exact hi),
        List.getD_eq_getElem _ _ (by rw [crsIds_length]; exact hi),
        List.getD_eq_getElem _ _ (by omega)]
  · rw [List.getLast_eq_getElem, List.getElem_take, List.getD_eq_getElem _ _ (by omega)]
    congr 1; simp; omega

theorem computeMapping_eq (n ws : Nat) (sets : List (List Nat)) :
    computeMapping n ws sets =
      let n := n % 65536
      let free := slots n (ws % 65536) (setCollect sets.flatten)
      let total := (sets.map List.length).sum
      if n < 2 then .error .underflow
      else if total = 0 ∨ free = [] then .error .unwrapNone
      else if free.length < total then .error .assertFail
      else .ok ⟨sets.length, messages sets free, setCollect sets.flatten,
        free.getD (total - 1) 0⟩ := by
  unfold computeMapping
  simp only [asU16]
  have hfold : ∀ a b, List.filter (fun x => !(setCollect sets.flatten).contains x)
      (List.range' b (a - 2 - b)) = slots a b (setCollect sets.flatten) := fun _ _ => rfl
  by_cases hn : n % 65536 < 2
  · rw [if_pos hn]
    have : usub (n % 65536) 2 = .error .underflow := by simp [usub]; omega
    rw [this]; rfl
  rw [if_neg hn, usub_le (by omega)]
  simp only [ok_bind, hfold]
  exact mappingBody_eq sets _

/-! ### The prover's vector -/

variable {F G : Type} [Field F]

theorem placeMessages_spec (msgs : List F) (ms : List MessageMap) (w r : List F)
    (hnd : (ms.map (·.position_in_witness)).Nodup) (h : placeMessages msgs ms w = .ok r) :
    r.length = w.length ∧
    (∀ p ∈ List.zip msgs ms, p.2.position_in_witness < w.length ∧
      r.getD p.2.position_in_witness 0 = p.1) ∧
    ∀ i, i ∉ ms.map (·.position_in_witness) → r.getD i 0 = w.getD i 0 := by
  induction msgs generalizing ms w with
  | nil => cases h; simp
  | cons x msgs ih =>
    cases ms with
    | nil => cases h; simp
    | cons m ms =>
      unfold placeMessages at h
      obtain ⟨w1, h1, h⟩ := bind_eq_ok.1 h
      obtain ⟨hlt, rfl⟩ := setIdx_eq_ok.1 h1
      rw [List.map_cons, List.nodup_cons] at hnd
      obtain ⟨i1, i2, i3⟩ := ih ms _ hnd.2 h
      rw [List.length_set] at i1
      refine ⟨i1, ?_, ?_⟩
      · intro p hp
        rw [List.zip_cons_cons, List.mem_cons] at hp
        rcases hp with rfl | hp
        · refine ⟨hlt, ?_⟩
          simp only
          rw [i3 _ hnd.1]
          simp [List.getD, hlt]
        · simpa using i2 p hp
      · intro i hi
        rw [List.map_cons, List.mem_cons, not_or] at hi
        rw [i3 i hi.2]
        simp [List.getD, List.getElem?_set_ne (Ne.symm hi.1)]

/-- The sum of the contributions of messages to slot `i`. -/
theorem aggregate_spec (alphas : List F) (ms : List MessageMap) (w r : List F)
    (hd : ∀ m ∈ ms, ∀ m' ∈ ms, m.position_in_witness ≠ m'.commitment_index)
    (h : aggregate alphas ms w = .ok r) :
    r.length = w.length ∧
    (∀ m ∈ ms, m.commitment_index < w.length ∧ m.commitment_crs_id < alphas.length) ∧
    ∀ i, r.getD i 0 = w.getD i 0 + ((ms.filter fun m => m.commitment_index == i).map fun m =>
      alphas.getD m.commitment_crs_id 0 * w.getD m.position_in_witness 0).sum := by
  induction ms generalizing w with
  | nil => cases h; simp
  | cons m ms ih =>
    unfold aggregate at h
    obtain ⟨x, h1, h⟩ := bind_eq_ok.1 h
    obtain ⟨a, h2, h⟩ := bind_eq_ok.1 h
    obtain ⟨o, h3, h⟩ := bind_eq_ok.1 h
    obtain ⟨w1, h4, h⟩ := bind_eq_ok.1 h
    obtain ⟨hlt, rfl⟩ := setIdx_eq_ok.1 h4
    rw [idx_eq_ok] at h1 h2 h3
    obtain ⟨i1, i2, i3⟩ := ih _ (fun m1 h1 m2 h2 => hd m1 (List.mem_cons_of_mem _ h1) m2
      (List.mem_cons_of_mem _ h2)) h
    rw [List.length_set] at i1 i2
    refine ⟨i1, ?_, ?_⟩
    · intro m' hm'
      rcases List.mem_cons.1 hm' with rfl | hm'
      · exact ⟨hlt, (List.getElem?_eq_some_iff.1 h2).1⟩
      · exact i2 m' hm'
    · intro i
      rw [i3 i]
      have hsame : ∀ m' ∈ ms, (w.set m.commitment_index (o + x * a)).getD m'.position_in_witness 0 =
          w.getD m'.position_in_witness 0 := by
        intro m' hm'
        have := hd m' (List.mem_cons_of_mem _ hm') m List.mem_cons_self
        simp [List.getD, List.getElem?_set_ne (Ne.symm this)]
      have hmap : ((ms.filter fun m => m.commitment_index == i).map fun m' =>
          alphas.getD m'.commitment_crs_id 0 *
            (w.set m.commitment_index (o + x * a)).getD m'.position_in_witness 0) =
          (ms.filter fun m => m.commitment_index == i).map fun m' =>
          alphas.getD m'.commitment_crs_id 0 * w.getD m'.position_in_witness 0 := by
        apply List.map_congr_left
        intro m' hm'
        rw [hsame m' (List.mem_of_mem_filter hm')]
      rw [hmap]
      by_cases hi : m.commitment_index = i
      · subst hi
        have e1 : (w.set m.commitment_index (o + x * a)).getD m.commitment_index 0 = o + x * a := by
          simp [List.getD, hlt]
        rw [e1, List.filter_cons_of_pos (by simp), List.map_cons, List.sum_cons]
        simp only [List.getD, h1, h2, h3, Option.getD_some]
        ring
      · have e1 : (w.set m.commitment_index (o + x * a)).getD i 0 = w.getD i 0 := by
          simp [List.getD, List.getElem?_set_ne hi]
        rw [e1, List.filter_cons_of_neg (by simpa using hi)]

theorem dot_set [AddCommGroup G] [Module F G] (w : List F) (Gs : List G) (i : Nat) (x : F)
    (h : w.length = Gs.length) (hi : i < w.length) :
    dot (w.set i x) Gs = dot w Gs + (x - w.getD i 0) • Gs.getD i 0 := by
  induction w generalizing Gs i with
  | nil => simp at hi
  | cons y w ih =>
    cases Gs with
    | nil => simp at h
    | cons g Gs =>
      cases i with
      | zero => simp only [List.set_cons_zero, dot_cons, List.getD_cons_zero]; module
      | succ i =>
        simp only [List.set_cons_succ, dot_cons, List.getD_cons_succ]
        rw [ih Gs i (by simpa using h) (by simpa using hi)]
        abel

theorem aggregate_dot [AddCommGroup G] [Module F G] (alphas : List F) (Gs : List G)
    (ms : List MessageMap) (w r : List F) (hl : w.length = Gs.length)
    (hd : ∀ m ∈ ms, ∀ m' ∈ ms, m.position_in_witness ≠ m'.commitment_index)
    (h : aggregate alphas ms w = .ok r) :
    dot r Gs = dot w Gs + (ms.map fun m =>
      (alphas.getD m.commitment_crs_id 0 * w.getD m.position_in_witness 0) •
        Gs.getD m.commitment_index 0).sum := by
  induction ms generalizing w with
  | nil => cases h; simp
  | cons m ms ih =>
    unfold aggregate at h
    obtain ⟨x, h1, h⟩ := bind_eq_ok.1 h
    obtain ⟨a, h2, h⟩ := bind_eq_ok.1 h
    obtain ⟨o, h3, h⟩ := bind_eq_ok.1 h
    obtain ⟨w1, h4, h⟩ := bind_eq_ok.1 h
    obtain ⟨hlt, rfl⟩ := setIdx_eq_ok.1 h4
    rw [idx_eq_ok] at h1 h2 h3
    rw [ih _ (by rw [List.length_set, hl]) (fun m1 h1 m2 h2 => hd m1 (List.mem_cons_of_mem _ h1) m2
      (List.mem_cons_of_mem _ h2)) h, dot_set w Gs _ _ hl hlt]
    have hmap : (ms.map fun m' =>
        (alphas.getD m'.commitment_crs_id 0 *
          (w.set m.commitment_index (o + x * a)).getD m'.position_in_witness 0) •
            Gs.getD m'.commitment_index 0) = ms.map fun m' =>
        (alphas.getD m'.commitment_crs_id 0 * w.getD m'.position_in_witness 0) •
          Gs.getD m'.commitment_index 0 := by
      apply List.map_congr_left
      intro m' hm'
      have := hd m' (List.mem_cons_of_mem _ hm') m List.mem_cons_self
      simp [List.getD, List.getElem?_set_ne (Ne.symm this)]
    rw [hmap, List.map_cons, List.sum_cons]
    simp only [List.getD, h1, h2, h3, Option.getD_some]
    module

/-! ### The copy matrices -/

theorem slot_eq {k : Nat} (v : Fin k → F) (i : Nat) : slot v i = (List.ofFn v).getD i 0 := by
  unfold slot
  split
  · next h => simp [List.getD, h]
  · next h => simp [List.getD, h]

theorem ofFn_getD {n : Nat} (e : List F) (h : e.length = n) :
    (List.ofFn fun j : Fin n => e.getD j 0) = e := by
  subst h
  apply List.ext_getElem
  · simp
  · intro i h1 h2; rw [List.getElem_ofFn, List.getD_eq_getElem _ _ h2]

theorem fillEqn_spec (alphas : List F) (ms : List MessageMap) (e r v : List F)
    (hnd : (ms.map (·.position_in_witness)).Nodup)
    (h0 : ∀ m ∈ ms, e.getD m.position_in_witness 0 = 0) (hl : e.length = v.length)
    (h : fillEqn alphas ms e = .ok r) :
    r.length = e.length ∧
    (∀ m ∈ ms, m.position_in_witness < e.length ∧ m.commitment_crs_id < alphas.length) ∧
    dot r v = dot e v + (ms.map fun m =>
      alphas.getD m.commitment_crs_id 0 * v.getD m.position_in_witness 0).sum := by
  induction ms generalizing e with
  | nil => cases h; simp
  | cons m ms ih =>
    unfold fillEqn at h
    obtain ⟨a, h1, h⟩ := bind_eq_ok.1 h
    obtain ⟨e1, h2, h⟩ := bind_eq_ok.1 h
    obtain ⟨hlt, rfl⟩ := setIdx_eq_ok.1 h2
    rw [List.map_cons, List.nodup_cons] at hnd
    rw [idx_eq_ok] at h1
    obtain ⟨i1, i2, i3⟩ := ih (e.set m.position_in_witness a) hnd.2 (by
      intro m' hm'
      have : m.position_in_witness ≠ m'.position_in_witness := by
        intro he; apply hnd.1; rw [he]; exact List.mem_map_of_mem hm'
      have h0 := h0 m' (List.mem_cons_of_mem _ hm')
      simpa [List.getD, List.getElem?_set_ne this] using h0) (by rw [List.length_set, hl]) h
    rw [List.length_set] at i1 i2
    refine ⟨i1, ?_, ?_⟩
    · intro m' hm'
      rcases List.mem_cons.1 hm' with rfl | hm'
      · exact ⟨hlt, (List.getElem?_eq_some_iff.1 h1).1⟩
      · exact i2 m' hm'
    · rw [i3, dot_set e v _ _ hl hlt, h0 m List.mem_cons_self, List.map_cons, List.sum_cons]
      simp only [List.getD, h1, Option.getD_some, smul_eq_mul, sub_zero]
      ring

omit [Field F] in
theorem fillEqn_ok (alphas : List F) (ms : List MessageMap) (e : List F)
    (h : ∀ m ∈ ms, m.position_in_witness < e.length ∧ m.commitment_crs_id < alphas.length) :
    ∃ r, fillEqn alphas ms e = .ok r := by
  induction ms generalizing e with
  | nil => exact ⟨e, rfl⟩
  | cons m ms ih =>
    unfold fillEqn
    obtain ⟨h1, h2⟩ := h m List.mem_cons_self
    rw [idx_lt h2, ok_bind, setIdx_lt _ h1, ok_bind]
    apply ih
    intro m' hm'
    rw [List.length_set]
    exact h m' (List.mem_cons_of_mem _ hm')

/-- The value of the first row of the constraint. -/
theorem row_copyConstraint {k : Nat} (map : Mapping) (α : F) (c : Nat) (v : Fin (k + 1) → F)
    (hc : c < k + 1) (hp : ∀ m ∈ map.msgs_map, m.position_in_witness < k + 1) :
    ∑ j, copyConstraint k map α c 0 j * v j =
      ((map.msgs_map.filter fun m => m.commitment_index == c).map fun m =>
        α ^ (m.commitment_crs_id + 1) * slot v m.position_in_witness).sum - slot v c := by
  have hp' : ∀ m ∈ map.msgs_map.filter fun m => m.commitment_index == c,
      m.position_in_witness < k + 1 := fun m hm => hp m (List.mem_of_mem_filter hm)
  simp only [copyConstraint, Matrix.of_apply, if_true, sub_mul, Finset.sum_sub_distrib]
  congr 1
  · generalize map.msgs_map.filter (fun m => m.commitment_index == c) = l at hp'
    induction l with
    | nil => simp
    | cons m l ih =>
      have hm := hp' m List.mem_cons_self
      simp only [List.map_cons, List.sum_cons, add_mul, Finset.sum_add_distrib]
      rw [ih fun m hm => hp' m (List.mem_cons_of_mem _ hm)]
      congr 1
      rw [Finset.sum_eq_single ⟨m.position_in_witness, hm⟩]
      · simp [slot, hm]
      · intro j _ hj
        rw [if_neg, zero_mul]
        intro he; apply hj; ext; exact he.symm
      · simp
  · rw [Finset.sum_eq_single ⟨c, hc⟩]
    · simp [slot, hc]
    · intro j _ hj
      rw [if_neg, zero_mul]
      intro he; apply hj; ext; exact he.symm
    · simp

theorem quad_copyConstraint {k : Nat} (map : Mapping) (α : F) (c : Nat) (v : Fin (k + 1) → F)
    (hc : c < k + 1) (hp : ∀ m ∈ map.msgs_map, m.position_in_witness < k + 1) :
    quad (copyConstraint k map α c) v =
      v 0 * (((map.msgs_map.filter fun m => m.commitment_index == c).map fun m =>
        α ^ (m.commitment_crs_id + 1) * slot v m.position_in_witness).sum - slot v c) := by
  rw [← row_copyConstraint map α c v hc hp]
  unfold quad
  rw [Finset.sum_eq_single 0]
  · rw [Finset.mul_sum]
    apply Finset.sum_congr rfl
    intros; ring
  · intro i _ hi
    apply Finset.sum_eq_zero
    intro j _
    simp [copyConstraint, hi]
  · simp

theorem copyMatrix_spec {k : Nat} (alphas : List F) (map : Mapping) (α : F)
    (hal : ∀ m ∈ map.msgs_map, alphas[m.commitment_crs_id]? = some (α ^ (m.commitment_crs_id + 1)))
    (ci : Nat) (hnd : (map.msgs_map.map (·.position_in_witness)).Nodup)
    (hd : ∀ m ∈ map.msgs_map, m.position_in_witness ≠ ci)
    (hp : ∀ m ∈ map.msgs_map, m.position_in_witness < k + 1) (hc : ci < k + 1) :
    copyMatrix (k + 1) alphas map.msgs_map ci = .ok (rows (copyConstraint k map α ci)) := by
  obtain ⟨e, he⟩ := fillEqn_ok alphas (map.msgs_map.filter fun m => m.commitment_index == ci)
    ((List.replicate (k + 1) (0 : F)).set ci (-1)) (by
      intro m hm
      have hm := List.mem_of_mem_filter hm
      refine ⟨by simpa using hp m hm, (List.getElem?_eq_some_iff.1 (hal m hm)).1⟩)
  unfold copyMatrix
  rw [setIdx_lt _ (by simpa using hc), ok_bind, he]
  simp only [ok_bind, R_pure, Nat.add_sub_cancel]
  have hsub : ((map.msgs_map.filter fun m => m.commitment_index == ci).map
      (·.position_in_witness)).Nodup := hnd.sublist (List.filter_sublist.map _)
  have hrep : ∀ i, (List.replicate (k + 1) (0 : F)).getD i 0 = 0 := by
    intro i
    rw [List.getD, List.getElem?_replicate]; split <;> rfl
  have hz : ∀ m ∈ map.msgs_map.filter fun m => m.commitment_index == ci,
      ((List.replicate (k + 1) (0 : F)).set ci (-1)).getD m.position_in_witness 0 = 0 := by
    intro m hm
    have := hd m (List.mem_of_mem_filter hm)
    rw [List.getD, List.getElem?_set_ne (Ne.symm this)]
    exact hrep _
  have key := fun v hv => fillEqn_spec alphas _ _ e v hsub hz hv he
  have hlen : e.length = k + 1 := by
    have := (key (List.replicate (k + 1) 0) (by simp)).1
    simpa using this
  congr 1
  unfold rows
  rw [List.ofFn_succ]
  congr 1
  · rw [← ofFn_getD e hlen]
    congr 1; funext j
    -- compare the products with the unit vector
    have h1 := (key (List.ofFn (Pi.single j (1 : F))) (by simp)).2.2
    have h2 := row_copyConstraint map α ci (Pi.single j (1 : F)) hc hp
    have h3 : dot e (List.ofFn (Pi.single j (1 : F))) = e.getD j 0 := by
      conv_lhs => rw [← ofFn_getD e hlen]
      rw [dot_ofFn, Finset.sum_eq_single j]
      · simp
      · intro i _ hi; simp [hi]
      · simp
    rw [Finset.sum_eq_single j (by intro i _ hi; simp [hi]) (by simp),
      Pi.single_eq_same, mul_one] at h2
    rw [← h3, h1, h2, dot_set _ _ _ _ (by simp) (by simpa using hc), dot_replicate_zero, hrep]
    simp only [slot_eq, smul_eq_mul]
    have : ((map.msgs_map.filter fun m => m.commitment_index == ci).map fun m =>
        alphas.getD m.commitment_crs_id 0 *
          (List.ofFn (Pi.single j (1 : F))).getD m.position_in_witness 0) =
        (map.msgs_map.filter fun m => m.commitment_index == ci).map fun m =>
        α ^ (m.commitment_crs_id + 1) *
          (List.ofFn (Pi.single j (1 : F))).getD m.position_in_witness 0 := by
      apply List.map_congr_left
      intro m hm
      rw [List.getD, hal m (List.mem_of_mem_filter hm)]; rfl
    rw [this]; ring
  · apply List.ext_getElem
    · simp
    · intro i h1 h2
      have : ∀ j : Fin (k + 1), copyConstraint k map α ci
          (Fin.succ ⟨i, by simpa using h1⟩) j = 0 :=
        fun j => by rw [copyConstraint, Matrix.of_apply, if_neg (Fin.succ_ne_zero _)]
      rw [List.getElem_ofFn, List.getElem_replicate, funext this, List.ofFn_const]

theorem pushCopyMatrices_spec {k : Nat} (alphas : List F) (map : Mapping) (α : F)
    (hal : ∀ m ∈ map.msgs_map, alphas[m.commitment_crs_id]? = some (α ^ (m.commitment_crs_id + 1)))
    (cis : List Nat) (hnd : (map.msgs_map.map (·.position_in_witness)).Nodup)
    (hd : ∀ m ∈ map.msgs_map, m.position_in_witness ∉ cis)
    (hp : ∀ m ∈ map.msgs_map, m.position_in_witness < k + 1) (hc : ∀ c ∈ cis, c < k + 1)
    (gamma : BlockMatrix F) :
    pushCopyMatrices (k + 1) alphas map.msgs_map cis gamma =
      .ok ⟨gamma.block ++ cis.map fun c =>
        rows (copyConstraint k map α c)⟩ := by
  induction cis generalizing gamma with
  | nil => simp [pushCopyMatrices]
  | cons c cis ih =>
    unfold pushCopyMatrices
    rw [copyMatrix_spec alphas map α hal c hnd (fun m hm he => hd m hm (by simp [he])) hp
      (hc c List.mem_cons_self), ok_bind, ih (fun m hm hin => hd m hm (List.mem_cons_of_mem _ hin))
      (fun c hc' => hc c (List.mem_cons_of_mem _ hc'))]
    simp [BlockMatrix.push]

theorem pushCopyMatrices_lt {k : Nat} (alphas : List F) (mm : List MessageMap) (cis : List Nat)
    (gamma gamma' : BlockMatrix F)
    (h : pushCopyMatrices k alphas mm cis gamma = .ok gamma') : ∀ c ∈ cis, c < k := by
  induction cis generalizing gamma with
  | nil => simp
  | cons c cis ih =>
    unfold pushCopyMatrices copyMatrix at h
    obtain ⟨M, h1, h2⟩ := bind_eq_ok.1 h
    obtain ⟨e, h3, -⟩ := bind_eq_ok.1 h1
    obtain ⟨h4, -⟩ := setIdx_eq_ok.1 h3
    intro c' hc'
    rcases List.mem_cons.1 hc' with rfl | hc'
    · simpa using h4
    · exact ih _ h2 c' hc'

/-! ### Mapping, continued -/

theorem crsIds_bounds (c0 : Nat) (sets : List (List Nat)) :
    ∀ x ∈ crsIds c0 sets, c0 ≤ x ∧ x < c0 + sets.length := by
  induction sets generalizing c0 with
  | nil => simp [crsIds]
  | cons s ss ih =>
    intro x hx
    rw [crsIds, List.mem_append, List.mem_replicate] at hx
    rcases hx with ⟨-, rfl⟩ | hx
    · simp
    · have := ih _ x hx
      simp only [List.length_cons]; omega

/-- What a successful run of `compute_mapping` returns. -/
structure WF (n ws : Nat) (sets : List (List Nat)) (map : Mapping) : Prop where
  two_le : 2 ≤ n
  pos : 0 < (sets.map List.length).sum
  num : map.num_commitments = sets.length
  uniq : map.unique_commitment_indices = setCollect sets.flatten
  free : ∃ free : List Nat, free.Pairwise (· < ·) ∧
    (sets.map List.length).sum ≤ free.length ∧
    (∀ x, x ∈ free ↔ ws ≤ x ∧ x + 2 < n ∧ x ∉ sets.flatten) ∧
    map.last_index = free.getD ((sets.map List.length).sum - 1) 0 ∧
    map.msgs_map = List.ofFn fun k : Fin (sets.map List.length).sum =>
      ⟨k, sets.flatten.getD k 0, (crsIds 0 sets).getD k 0, free.getD k 0⟩

theorem computeMapping_wf {n ws : Nat} {sets : List (List Nat)} {map : Mapping} (hn : n < 65536)
    (hws : ws < 65536) (hs : sets.length ≤ 65536) (h : computeMapping n ws sets = .ok map) :
    WF n ws sets map := by
  rw [computeMapping_eq] at h
  simp only [Nat.mod_eq_of_lt hn, Nat.mod_eq_of_lt hws] at h
  split at h
  · cases h
  split at h
  · cases h
  split at h
  · cases h
  next h1 h2 h3 =>
  rw [not_or] at h2
  cases h
  refine ⟨by omega, by omega, rfl, rfl, _, slots_pairwise n ws _, by omega, ?_, rfl, ?_⟩
  · intro x
    rw [mem_slots, mem_setCollect]
  · unfold messages
    simp only
    congr 1; funext k
    congr 1
    unfold asU16
    apply Nat.mod_eq_of_lt
    have hk : k.val < (crsIds 0 sets).length := by rw [crsIds_length]; exact k.2
    rw [List.getD_eq_getElem _ _ hk]
    have := crsIds_bounds 0 sets _ (List.getElem_mem hk)
    omega

theorem WF.positions {n ws : Nat} {sets : List (List Nat)} {map : Mapping} (h : WF n ws sets map) :
    (map.msgs_map.map (·.position_in_witness)).Pairwise (· < ·) := by
  obtain ⟨free, f1, f2, -, -, f5⟩ := h.free
  rw [f5, List.map_ofFn, List.pairwise_iff_getElem]
  intro i j hi hj hij
  simp only [List.length_ofFn] at hi hj
  simp only [List.getElem_ofFn, Function.comp]
  rw [List.getD_eq_getElem _ _ (by omega), List.getD_eq_getElem _ _ (by omega)]
  exact List.pairwise_iff_getElem.1 f1 i j _ _ hij

theorem WF.nodup {n ws : Nat} {sets : List (List Nat)} {map : Mapping} (h : WF n ws sets map) :
    (map.msgs_map.map (·.position_in_witness)).Nodup :=
  h.positions.imp fun h => Nat.ne_of_lt h

theorem WF.mem {n ws : Nat} {sets : List (List Nat)} {map : Mapping} (h : WF n ws sets map)
    (m : MessageMap) (hm : m ∈ map.msgs_map) :
    m.msg_id < (sets.map List.length).sum ∧ map.msgs_map[m.msg_id]? = some m ∧
    m.commitment_index ∈ sets.flatten ∧ m.commitment_crs_id < sets.length ∧
    ws ≤ m.position_in_witness ∧ m.position_in_witness + 2 < n ∧
    m.position_in_witness ∉ sets.flatten := by
  obtain ⟨free, f1, f2, f3, -, f5⟩ := h.free
  rw [f5, List.mem_ofFn] at hm
  obtain ⟨k, rfl⟩ := hm
  have hfl : k.val < sets.flatten.length := by rw [List.length_flatten]; exact k.2
  have hcl : k.val < (crsIds 0 sets).length := by rw [crsIds_length]; exact k.2
  have hfr : k.val < free.length := lt_of_lt_of_le k.2 f2
  have := crsIds_bounds 0 sets _ (List.getElem_mem hcl)
  have hp := (f3 _).1 (List.getElem_mem hfr)
  refine ⟨k.2, ?_, ?_, ?_, ?_⟩
  · rw [f5, List.getElem?_ofFn, dif_pos k.2]
  · simp only; rw [List.getD_eq_getElem _ _ hfl]; exact List.getElem_mem _
  · simp only; rw [List.getD_eq_getElem _ _ hcl]; omega
  · simp only; rw [List.getD_eq_getElem _ _ hfr]; exact hp

theorem WF.length {n ws : Nat} {sets : List (List Nat)} {map : Mapping} (h : WF n ws sets map) :
    map.msgs_map.length = (sets.map List.length).sum := by
  obtain ⟨free, f1, f2, f3, -, f5⟩ := h.free
  rw [f5, List.length_ofFn]

/-! ### Commitments -/

theorem mapM_eq_ok {α β : Type} {f : α → R β} {l : List α} {r : List β} :
    l.mapM f = .ok r ↔ List.Forall₂ (fun a b => f a = .ok b) l r := by
  induction l generalizing r with
  | nil => simp [eq_comm]
  | cons a l ih =>
    rw [List.mapM_cons]
    constructor
    · intro h
      obtain ⟨b, h1, h⟩ := bind_eq_ok.1 h
      obtain ⟨bs, h2, h⟩ := bind_eq_ok.1 h
      cases h
      exact .cons h1 (ih.1 h2)
    · intro h
      cases h with
      | cons h1 h2 => rw [h1, ok_bind, ih.2 h2]; rfl

variable [AddCommGroup G] [Module F G]

theorem mapM_idx (Gs : List G) (is : List Nat) (ps : List G) :
    is.mapM (fun i => idx Gs i) = .ok ps ↔
      (∀ i ∈ is, i < Gs.length) ∧ ps = is.map fun i => Gs.getD i 0 := by
  rw [mapM_eq_ok]
  induction is generalizing ps with
  | nil => cases ps <;> simp
  | cons i is ih =>
    constructor
    · intro h
      cases h with
      | cons h1 h2 =>
        obtain ⟨e1, e2⟩ := (ih _).1 h2
        rw [idx_eq_ok] at h1
        obtain ⟨hi, he⟩ := List.getElem?_eq_some_iff.1 h1
        refine ⟨?_, ?_⟩
        · intro j hj
          rcases List.mem_cons.1 hj with rfl | hj
          · exact hi
          · exact e1 j hj
        · rw [e2, List.map_cons, List.getD_eq_getElem _ _ hi, he]
    · rintro ⟨h1, rfl⟩
      refine .cons ?_ ((ih _).2 ⟨fun j hj => h1 j (List.mem_cons_of_mem _ hj), rfl⟩)
      have := h1 i List.mem_cons_self
      simp only
      rw [idx_lt this, List.getD_eq_getElem _ _ this]

theorem commit_eq_ok (Gs : List G) (is : List Nat) (msg : List F) (r : F) (c : G) :
    commit Gs is msg r = .ok c ↔ is.length = msg.length ∧ (∀ i ∈ is, i < Gs.length) ∧
      ∃ last, Gs.getLast? = some last ∧
        c = dot msg (is.map fun i => Gs.getD i 0) + r • last := by
  unfold commit
  constructor
  · intro h
    obtain ⟨_, h1, h⟩ := bind_eq_ok.1 h
    obtain ⟨ps, h2, h⟩ := bind_eq_ok.1 h
    obtain ⟨cm, h3, h⟩ := bind_eq_ok.1 h
    obtain ⟨l, h4, h⟩ := bind_eq_ok.1 h
    obtain ⟨h5, rfl⟩ := (mapM_idx _ _ _).1 h2
    have h1 := rassert_eq_ok.1 h1
    obtain ⟨-, rfl⟩ := msm_eq_ok.1 h3
    simp only [R_pure, Except.ok.injEq] at h
    refine ⟨h1, h5, l, ?_, h.symm⟩
    cases hl : Gs.getLast? with
    | none => rw [hl] at h4; cases h4
    | some x => rw [hl] at h4; cases h4; rfl
  · rintro ⟨h1, h2, l, h3, rfl⟩
    rw [rassert_true h1, ok_bind, (mapM_idx Gs is _).2 ⟨h2, rfl⟩, ok_bind,
      msm_eq (by simp [h1]), ok_bind, h3]
    rfl

/-- The aggregated messages, summed along the mapping or along the commitments. -/
theorem aggregated (al : Nat → F) (g : Nat → G) (c0 : Nat) (coms : List (List Nat × List F × F))
    (h : ∀ c ∈ coms, c.1.length = c.2.1.length) :
    ((List.range (coms.map fun c => c.1.length).sum).map fun k =>
      (al ((crsIds c0 (coms.map (·.1))).getD k 0) *
        ((coms.map (·.2.1)).flatten).getD k 0) • g ((coms.map (·.1)).flatten.getD k 0)).sum =
    (List.zipWith (fun i c => al i • dot c.2.1 (c.1.map g)) (List.range' c0 coms.length) coms).sum := by
  induction coms generalizing c0 with
  | nil => simp
  | cons c cs ih =>
    simp only [List.map_cons, List.sum_cons, List.length_cons, List.range'_succ,
      List.zipWith_cons_cons, List.flatten_cons, crsIds]
    rw [List.range_add, List.map_append, List.sum_append,
      ← ih (c0 + 1) fun c hc => h c (List.mem_cons_of_mem _ hc)]
    have hc := h c List.mem_cons_self
    congr 1
    · have : ((List.range c.1.length).map fun k =>
          (al ((List.replicate c.1.length c0 ++ crsIds (c0 + 1) (cs.map (·.1))).getD k 0) *
            ((c.2.1 ++ (cs.map (·.2.1)).flatten).getD k 0)) •
              g ((c.1 ++ (cs.map (·.1)).flatten).getD k 0)) =
          (List.zipWith (fun s p => s • p) c.2.1 (c.1.map g)).map fun x => al c0 • x := by
        apply List.ext_getElem
        · simp [hc]
        · intro i h1 h2
          have hi : i < c.1.length := by simpa using h1
          simp only [List.getElem_map, List.getElem_range, List.getElem_zipWith]
          rw [List.getD_append _ _ _ _ (by simpa using hi), List.getD_append _ _ _ _ (by omega),
            List.getD_append _ _ _ _ hi, List.getD_eq_getElem _ _ (by simpa using hi),
            List.getD_eq_getElem _ _ (by omega), List.getD_eq_getElem _ _ hi,
            List.getElem_replicate, smul_smul]
      rw [this, dot, List.smul_sum]
    · rw [List.map_map]
      congr 1
      apply List.map_congr_left
      intro k _
      simp only [Function.comp]
      rw [List.getD_append_right _ _ _ _ (by simp), List.getD_append_right _ _ _ _ (by omega),
        List.getD_append_right _ _ _ _ (by omega)]
      simp [hc]

/-! ### The prover -/

omit [AddCommGroup G] [Module F G] in
theorem copyWitness_pos {n ws : Nat} {sets : List (List Nat)} {map : Mapping}
    (hwf : WF n ws sets map) (w msgs : List F) (α : F) (m : MessageMap) (hm : m ∈ map.msgs_map) :
    copyWitness w map msgs α m.position_in_witness = msgs.getD m.msg_id 0 := by
  unfold copyWitness
  cases hf : map.msgs_map.find? (fun m' => m'.position_in_witness == m.position_in_witness) with
  | none => exact absurd (List.find?_eq_none.1 hf m hm) (by simp)
  | some m' =>
    have h1 := List.mem_of_find?_eq_some hf
    have h2 := List.find?_some hf
    simp only [beq_iff_eq] at h2
    have : m' = m := by
      have := List.inj_on_of_nodup_map hwf.nodup h1 hm h2
      exact this
    rw [this]

theorem copyWitness_else {map : Mapping} (w msgs : List F) (α : F) (i : Nat)
    (hi : i ∉ map.msgs_map.map (·.position_in_witness)) :
    copyWitness w map msgs α i = w.getD i 0 +
      ((map.msgs_map.filter fun m => m.commitment_index == i).map fun m =>
        α ^ (m.commitment_crs_id + 1) * msgs.getD m.msg_id 0).sum := by
  unfold copyWitness
  rw [List.find?_eq_none.2]
  intro m hm
  simp only [beq_iff_eq]
  intro he
  exact hi (he ▸ List.mem_map_of_mem hm)

theorem getD_powers (α : F) (n i : Nat) (h : i < n) : (List.ofFn (powers α n)).getD i 0 = α ^ (i + 1) := by
  rw [List.getD_eq_getElem _ _ (by simpa using h), List.getElem_ofFn]; rfl

theorem zip_getD (msgs : List F) (ms : List MessageMap) (h : msgs.length = ms.length) (k : Nat)
    (m : MessageMap) (hm : ms[k]? = some m) : (msgs.getD k 0, m) ∈ List.zip msgs ms := by
  obtain ⟨hk, rfl⟩ := List.getElem?_eq_some_iff.1 hm
  rw [List.getD_eq_getElem _ _ (by omega), List.mem_iff_getElem]
  exact ⟨k, by simp; omega, by simp⟩

theorem ext_getD (l l' : List F) (hl : l.length = l'.length)
    (h : ∀ i < l.length, l.getD i 0 = l'.getD i 0) : l = l' := by
  apply List.ext_getElem hl
  intro i h1 h2
  have := h i h1
  rwa [List.getD_eq_getElem _ _ h1, List.getD_eq_getElem _ _ h2] at this

theorem getD_ofFn_append {m : Nat} (v : Fin m → F) (a b : F) (f : Nat → F) (hv : ∀ i : Fin m, v i = f i)
    (ha : f m = a) (hb : f (m + 1) = b) (i : Nat) (hi : i < m + 2) :
    (List.ofFn v ++ [a, b]).getD i 0 = f i := by
  by_cases h : i < m
  · rw [List.getD_append _ _ _ _ (by simpa using h), List.getD_eq_getElem _ _ (by simpa using h),
      List.getElem_ofFn, hv]
  · rw [List.getD_append_right _ _ _ _ (by simp; omega), List.length_ofFn]
    rcases (by omega : i = m ∨ i = m + 1) with rfl | rfl
    · simp [ha]
    · simp [hb]

variable [DecidableEq F]

theorem create_steps (cx : Ctx G) (tr tr' : Transcript) (tape tape' : Tape F) (Gs Hs : List G) (Q : G)
    (map : Mapping) (block : BlockMatrix F) (w : List F) (coms : List (List Nat × List F × F))
    (p : Proof F)
    (h : create cx tr tape Gs Hs Q map block w (coms.map (·.2)) = .ok (p, tr', tape')) :
    ∃ w1 C_w old w2 w3 gamma wa wb,
      w[0]? = some 1 ∧ 2 ≤ Gs.length ∧ w.length ≤ Gs.length - 2 ∧
      placeMessages (coms.map (·.2.1)).flatten map.msgs_map
        (w ++ List.replicate (Gs.length - 2 - w.length) 0 ++ [tape 0, tape 1]) = .ok w1 ∧
      msm w1 Gs = .ok C_w ∧ p.C_w = cx.compress C_w ∧ coms.length ≠ 0 ∧
      idx w1 (Gs.length - 1) = .ok old ∧
      setIdx w1 (Gs.length - 1) (old + dot (coms.map (·.2.2))
        (List.ofFn (powers (copyAlpha F cx.ro tr.log p.C_w) coms.length))) = .ok w2 ∧
      aggregate (List.ofFn (powers (copyAlpha F cx.ro tr.log p.C_w) coms.length)) map.msgs_map w2 =
        .ok w3 ∧
      pushCopyMatrices (Gs.length - 2) (List.ofFn (powers (copyAlpha F cx.ro tr.log p.C_w) coms.length))
        map.msgs_map map.unique_commitment_indices block = .ok gamma ∧
      splitAtR w3 (Gs.length - 2) = .ok (wa, wb) ∧
      Inner.create cx ⟨tr.log ++ [.msg "c_w" p.C_w, .chal "alpha" 64]⟩ (fun i => tape (i + 2)) Gs Hs Q
        gamma wa wb = .ok (p.inner, tr', tape') := by
  unfold create at h
  obtain ⟨_, h1, h⟩ := bind_eq_ok.1 h
  obtain ⟨w0, h2, h⟩ := bind_eq_ok.1 h
  obtain ⟨_, h3, h⟩ := bind_eq_ok.1 h
  obtain ⟨k, h4, h⟩ := bind_eq_ok.1 h
  obtain ⟨padBy, h5, h⟩ := bind_eq_ok.1 h
  simp only [drawN, draw] at h
  obtain ⟨w1, h6, h⟩ := bind_eq_ok.1 h
  obtain ⟨C_w, h7, h⟩ := bind_eq_ok.1 h
  simp only [Ipa.challengeScalar_eq, Transcript.appendMessage] at h
  obtain ⟨alphas, h8, h⟩ := bind_eq_ok.1 h
  obtain ⟨nm1, h9, h⟩ := bind_eq_ok.1 h
  obtain ⟨old, h10, h⟩ := bind_eq_ok.1 h
  obtain ⟨w2, h11, h⟩ := bind_eq_ok.1 h
  obtain ⟨w3, h12, h⟩ := bind_eq_ok.1 h
  obtain ⟨gamma, h13, h⟩ := bind_eq_ok.1 h
  obtain ⟨⟨wa, wb⟩, h14, h⟩ := bind_eq_ok.1 h
  obtain ⟨⟨q, tr2, tape2⟩, h15, h⟩ := bind_eq_ok.1 h
  simp only [R_pure, Except.ok.injEq, Prod.mk.injEq] at h
  obtain ⟨rfl, rfl, rfl⟩ := h
  have h3 := rassert_eq_ok.1 h3
  subst h3
  rw [idx_eq_ok] at h2
  obtain ⟨hn2, rfl⟩ := usub_eq_ok.1 h4
  obtain ⟨hwk, rfl⟩ := usub_eq_ok.1 h5
  obtain ⟨-, rfl⟩ := usub_eq_ok.1 h9
  have hcl : coms.length ≠ 0 := by
    intro h0
    rw [List.length_map, h0] at h8
    cases h8
  rw [List.length_map] at h8
  rw [Inner.vandemondeChallenge_eq _ (by omega)] at h8
  cases h8
  have hα : squeeze F cx.ro (tr.log ++ [Event.msg "c_w" (cx.compress C_w)] ++
      [Event.chal "alpha" 64]) = copyAlpha F cx.ro tr.log (cx.compress C_w) := by
    simp [copyAlpha]
  have hmsgs : ((coms.map (·.2)).map fun o => o.1).flatten = (coms.map (·.2.1)).flatten := by
    rw [List.map_map]; rfl
  have hrand : ∀ as : List F, (List.zipWith (fun rnd alpha => rnd * alpha)
      ((coms.map (·.2)).map fun o => o.2) as).sum = dot (coms.map (·.2.2)) as := by
    intro as
    rw [List.map_map, dot]; rfl
  rw [hα] at h11 h12 h13
  rw [hrand] at h11
  rw [hmsgs] at h6
  simp only [List.append_assoc, List.cons_append, List.nil_append] at h15
  exact ⟨w1, C_w, old, w2, w3, gamma, wa, wb, h2, hn2, hwk, h6, h7, rfl, hcl, h10, h11, h12, h13,
    h14, h15⟩

omit [DecidableEq F] in
theorem steps_values (cx : Ctx G) (log : List Event) (tape : Tape F) (Gs : List G)
    (map : Mapping) (block : BlockMatrix F) (w : List F) (coms : List (List Nat × List F × F))
    (pC : Comp) (hwf : WF Gs.length w.length (coms.map (·.1)) map)
    (hlen : ∀ c ∈ coms, c.1.length = c.2.1.length) (w1 : List F) (C_w : G) (old : F) (w2 w3 : List F)
    (gamma : BlockMatrix F) (wa wb : List F)
    (h2 : w[0]? = some 1) (hn2 : 2 ≤ Gs.length) (hwk : w.length ≤ Gs.length - 2)
    (h6 : placeMessages (coms.map (·.2.1)).flatten map.msgs_map
        (w ++ List.replicate (Gs.length - 2 - w.length) 0 ++ [tape 0, tape 1]) = .ok w1)
    (h7 : msm w1 Gs = .ok C_w) (hpc : pC = cx.compress C_w)
    (h10 : idx w1 (Gs.length - 1) = .ok old)
    (h11 : setIdx w1 (Gs.length - 1) (old + dot (coms.map (·.2.2))
        (List.ofFn (powers (copyAlpha F cx.ro log pC) coms.length))) = .ok w2)
    (h12 : aggregate (List.ofFn (powers (copyAlpha F cx.ro log pC) coms.length)) map.msgs_map w2 =
        .ok w3)
    (h13 : pushCopyMatrices (Gs.length - 2) (List.ofFn (powers (copyAlpha F cx.ro log pC) coms.length))
        map.msgs_map map.unique_commitment_indices block = .ok gamma)
    (h14 : splitAtR w3 (Gs.length - 2) = .ok (wa, wb)) :
    ∃ m, Gs.length = m + 3 ∧ w[0]? = some 1 ∧ w.length ≤ m + 1 ∧
      (∀ c ∈ (coms.map (·.1)).flatten, c < m + 1) ∧
      let msgs := (coms.map (·.2.1)).flatten
      let α := copyAlpha F cx.ro log pC
      let r1 := tape 1 + dot (coms.map (·.2.2)) (List.ofFn (powers α coms.length))
      let C_w := dot (List.ofFn (fun i : Fin (m + 1) => copyWitness w map msgs 0 i) ++
        [tape 0, tape 1]) Gs
      pC = cx.compress C_w ∧
      dot (List.ofFn (fun i : Fin (m + 1) => copyWitness w map msgs α i) ++ [tape 0, r1]) Gs =
        (List.zipWith (fun (α : F) (c : List Nat × List F × F) =>
          α • (dot c.2.1 (c.1.map fun i => Gs.getD i 0) + c.2.2 • Gs.getD (m + 2) 0))
          (List.ofFn (powers α coms.length)) coms).sum + C_w ∧
      gamma = ⟨block.block ++ map.unique_commitment_indices.map fun c =>
          rows (copyConstraint m map α c)⟩ ∧
      wa = (List.ofFn fun i : Fin (m + 1) => copyWitness w map msgs α i) ∧ wb = [tape 0, r1] := by
  have hw0 : 0 < w.length := (List.getElem?_eq_some_iff.1 h2).1
  obtain ⟨m, hm⟩ : ∃ m, Gs.length = m + 3 := ⟨Gs.length - 3, by omega⟩
  rw [hm, show m + 3 - 1 = m + 2 by omega] at h10 h11
  rw [hm, show m + 3 - 2 = m + 1 by omega] at h6 h13 h14 hwk
  set α := copyAlpha F cx.ro log pC with hαd
  -- placing the messages
  set msgs := (coms.map (·.2.1)).flatten with hmsgsd
  have hml : msgs.length = map.msgs_map.length := by
    rw [hwf.length, hmsgsd, List.length_flatten, List.map_map, List.map_map]
    congr 1
    apply List.map_congr_left
    intro c hc
    exact (hlen c hc).symm
  obtain ⟨p1, p2, p3⟩ := placeMessages_spec _ _ _ _ hwf.nodup h6
  have hl1 : w1.length = m + 3 := by
    rw [p1]; simp; omega
  have hpos : ∀ m' ∈ map.msgs_map, w1.getD m'.position_in_witness 0 = msgs.getD m'.msg_id 0 := by
    intro m' hm'
    obtain ⟨-, hget, -⟩ := hwf.mem m' hm'
    exact (p2 _ (zip_getD msgs _ hml _ _ hget)).2
  obtain ⟨-, rfl⟩ := setIdx_eq_ok.1 h11
  have hdis : ∀ m1 ∈ map.msgs_map, ∀ m2 ∈ map.msgs_map,
      m1.position_in_witness ≠ m2.commitment_index := by
    intro m1 hm1 m2 hm2 he
    obtain ⟨-, -, -, -, -, -, hno⟩ := hwf.mem m1 hm1
    obtain ⟨-, -, hci, -⟩ := hwf.mem m2 hm2
    exact hno (he ▸ hci)
  obtain ⟨a1, a2, a3⟩ := aggregate_spec _ _ _ _ hdis h12
  have adot := aggregate_dot _ Gs _ _ _ (by rw [List.length_set, hl1, hm]) hdis h12
  rw [List.length_set, hl1] at a1
  have hnot : ∀ m' ∈ map.msgs_map, m'.position_in_witness ∉ map.unique_commitment_indices := by
    intro m' hm' hin
    obtain ⟨-, -, -, -, -, -, hno⟩ := hwf.mem m' hm'
    rw [hwf.uniq, mem_setCollect] at hin
    exact hno hin
  have c1 := pushCopyMatrices_lt _ _ _ _ _ h13
  have hci : ∀ c ∈ (coms.map (·.1)).flatten, c < m + 1 := by
    intro c hc
    apply c1
    rw [hwf.uniq, mem_setCollect]; exact hc
  -- the vector after placing
  have hold : old = w1.getD (m + 2) 0 := by
    rw [idx_eq_ok] at h10; rw [List.getD, h10]; rfl
  have hpad : ∀ i, i < m + 1 → (w ++ List.replicate (m + 1 - w.length) 0 ++ [tape 0, tape 1]).getD i 0 =
      w.getD i 0 := by
    intro i hi
    rw [List.getD_append _ _ _ _ (by simp; omega)]
    by_cases hiw : i < w.length
    · rw [List.getD_append _ _ _ _ hiw]
    · rw [List.getD_append_right _ _ _ _ (by omega)]
      simp only [List.getD]
      rw [List.getElem?_eq_none (l := w) (by omega), List.getElem?_replicate]
      split <;> rfl
  have hpad1 : ∀ j, (w ++ List.replicate (m + 1 - w.length) 0 ++ [tape 0, tape 1]).getD (m + 1 + j) 0 =
      [tape 0, tape 1].getD j 0 := by
    intro j
    rw [List.getD_append_right _ _ _ _ (by simp; omega)]
    congr 1; simp; omega
  have hpm : ∀ i ∈ map.msgs_map.map (·.position_in_witness), i < m + 1 := by
    intro i hi
    obtain ⟨m', hm', rfl⟩ := List.mem_map.1 hi
    obtain ⟨-, -, -, -, -, hlt, -⟩ := hwf.mem m' hm'
    omega
  have w1_hi : ∀ j, w1.getD (m + 1 + j) 0 = [tape 0, tape 1].getD j 0 := by
    intro j
    rw [p3 _ (fun hin => by have := hpm _ hin; omega), ← hpad1 j]
  have w1_lo : ∀ i, i < m + 1 → w1.getD i 0 = copyWitness w map msgs 0 i := by
    intro i hi
    by_cases hin : i ∈ map.msgs_map.map (·.position_in_witness)
    · obtain ⟨m', hm', rfl⟩ := List.mem_map.1 hin
      rw [hpos m' hm', copyWitness_pos hwf _ _ _ m' hm']
    · rw [p3 i hin, copyWitness_else _ _ _ _ hin]
      have : ((map.msgs_map.filter fun m => m.commitment_index == i).map fun m =>
          (0 : F) ^ (m.commitment_crs_id + 1) * msgs.getD m.msg_id 0).sum = 0 := by
        apply List.sum_eq_zero
        intro x hx
        obtain ⟨m', -, rfl⟩ := List.mem_map.1 hx
        simp
      rw [this, add_zero]
      exact hpad i hi
  have hw1 : w1 = List.ofFn (fun i : Fin (m + 1) => copyWitness w map msgs 0 i) ++
      [tape 0, tape 1] := by
    apply ext_getD
    · simp [hl1]
    · intro i hi
      rw [hl1] at hi
      symm
      exact getD_ofFn_append _ _ _ (fun i => w1.getD i 0) (fun i => (w1_lo i i.2).symm)
        (w1_hi 0) (w1_hi 1) i hi
  -- the final vector
  set w2 := w1.set (m + 2) (old + dot (coms.map (·.2.2)) (List.ofFn (powers α coms.length))) with hw2
  have w2_ne : ∀ i, i ≠ m + 2 → w2.getD i 0 = w1.getD i 0 := by
    intro i hi
    rw [hw2, List.getD, List.getElem?_set_ne (Ne.symm hi), List.getD]
  have w2_last : w2.getD (m + 2) 0 = tape 1 +
      dot (coms.map (·.2.2)) (List.ofFn (powers α coms.length)) := by
    rw [hw2, List.getD, List.getElem?_set_self (by omega), hold]
    have := w1_hi 1
    simp only [List.getD_cons_succ, List.getD_cons_zero] at this
    rw [show m + 2 = m + 1 + 1 by omega, this]; rfl
  have hpow : ∀ m' ∈ map.msgs_map, (List.ofFn (powers α coms.length)).getD m'.commitment_crs_id 0 =
      α ^ (m'.commitment_crs_id + 1) := by
    intro m' hm'
    obtain ⟨-, -, -, hcrs, -⟩ := hwf.mem m' hm'
    exact getD_powers _ _ _ (by simpa using hcrs)
  have hval : ∀ m' ∈ map.msgs_map, (List.ofFn (powers α coms.length)).getD m'.commitment_crs_id 0 *
      w2.getD m'.position_in_witness 0 =
      α ^ (m'.commitment_crs_id + 1) * msgs.getD m'.msg_id 0 := by
    intro m' hm'
    have := hpm _ (List.mem_map_of_mem hm')
    rw [hpow m' hm', w2_ne _ (by omega), hpos m' hm']
  have a3' : ∀ i, w3.getD i 0 = w2.getD i 0 +
      ((map.msgs_map.filter fun m => m.commitment_index == i).map fun m =>
        α ^ (m.commitment_crs_id + 1) * msgs.getD m.msg_id 0).sum := by
    intro i
    rw [a3 i]
    congr 2
    apply List.map_congr_left
    intro m' hm'
    exact hval m' (List.mem_of_mem_filter hm')
  have hempty : ∀ i, i ∉ (coms.map (·.1)).flatten →
      ((map.msgs_map.filter fun m => m.commitment_index == i).map fun m =>
        α ^ (m.commitment_crs_id + 1) * msgs.getD m.msg_id 0).sum = 0 := by
    intro i hi
    rw [List.filter_eq_nil_iff.2]
    · simp
    · intro m' hm'
      obtain ⟨-, -, hci, -⟩ := hwf.mem m' hm'
      simp only [beq_iff_eq]
      intro he; exact hi (he ▸ hci)
  have w3_lo : ∀ i, i < m + 1 → w3.getD i 0 = copyWitness w map msgs α i := by
    intro i hi
    rw [a3' i, w2_ne i (by omega)]
    by_cases hin : i ∈ map.msgs_map.map (·.position_in_witness)
    · obtain ⟨m', hm', rfl⟩ := List.mem_map.1 hin
      obtain ⟨-, -, -, -, -, -, hno⟩ := hwf.mem m' hm'
      rw [hpos m' hm', copyWitness_pos hwf _ _ _ m' hm', hempty _ hno, add_zero]
    · rw [p3 i hin, copyWitness_else _ _ _ _ hin]
      congr 1
      exact hpad i hi
  have w3_hi : ∀ i, m + 1 ≤ i → w3.getD i 0 = w2.getD i 0 := by
    intro i hi
    rw [a3' i, hempty i (fun hin => by have := hci i hin; omega), add_zero]
  have hw3 : w3 = List.ofFn (fun i : Fin (m + 1) => copyWitness w map msgs α i) ++
      [tape 0, tape 1 + dot (coms.map (·.2.2)) (List.ofFn (powers α coms.length))] := by
    apply ext_getD
    · simp [a1]
    · intro i hi
      rw [a1] at hi
      symm
      refine getD_ofFn_append _ _ _ (fun i => w3.getD i 0) (fun i => (w3_lo i i.2).symm) ?_ ?_ i hi
      · rw [w3_hi _ (by omega), w2_ne _ (by omega)]; exact w1_hi 0
      · rw [w3_hi _ (by omega)]; exact w2_last
  refine ⟨m, hm, h2, by omega, hci, ?_⟩
  have hsplit : wa = List.ofFn (fun i : Fin (m + 1) => copyWitness w map msgs α i) ∧
      wb = [tape 0, tape 1 + dot (coms.map (·.2.2)) (List.ofFn (powers α coms.length))] := by
    rw [splitAtR_le (by omega), hw3] at h14
    simp only [Except.ok.injEq, Prod.mk.injEq] at h14
    obtain ⟨h1, h2⟩ := h14
    rw [List.take_left' (by simp)] at h1
    rw [List.drop_left' (by simp)] at h2
    exact ⟨h1.symm, h2.symm⟩
  obtain ⟨rfl, rfl⟩ := hsplit
  obtain ⟨-, rfl⟩ := msm_eq_ok.1 h7
  refine ⟨by rw [← hw1, hpc], ?_, ?_⟩
  · rw [← hw3, adot, hw2, dot_set _ _ _ _ (by rw [hl1, hm]) (by omega), ← hw2, ← hw1, ← hold]
    have hlast : (old + dot (coms.map (·.2.2)) (List.ofFn (powers α coms.length)) - old) •
        Gs.getD (m + 2) 0 =
        (List.zipWith (fun (α : F) (c : List Nat × List F × F) => (α * c.2.2) • Gs.getD (m + 2) 0)
          (List.ofFn (powers α coms.length)) coms).sum := by
      rw [add_sub_cancel_left]
      generalize List.ofFn (powers α coms.length) = as
      clear * -
      induction coms generalizing as with
      | nil => simp
      | cons c cs ih =>
        cases as with
        | nil => simp
        | cons a as =>
          rw [List.map_cons, dot_cons, add_smul, ih, List.zipWith_cons_cons, List.sum_cons,
            smul_eq_mul, mul_comm]
    have hagg : (map.msgs_map.map fun m' =>
        ((List.ofFn (powers α coms.length)).getD m'.commitment_crs_id 0 *
          w2.getD m'.position_in_witness 0) • Gs.getD m'.commitment_index 0).sum =
        (List.zipWith (fun (α : F) (c : List Nat × List F × F) =>
          α • dot c.2.1 (c.1.map fun i => Gs.getD i 0))
          (List.ofFn (powers α coms.length)) coms).sum := by
      have e1 := aggregated (fun i => α ^ (i + 1)) (fun i => Gs.getD i 0) 0 coms hlen
      have e2 : List.ofFn (powers α coms.length) =
          (List.range' 0 coms.length).map fun i => α ^ (i + 1) := by
        apply List.ext_getElem
        · simp
        · intro i h1 h2; simp [powers]
      have e3 : (map.msgs_map.map fun m' =>
          ((List.ofFn (powers α coms.length)).getD m'.commitment_crs_id 0 *
            w2.getD m'.position_in_witness 0) • Gs.getD m'.commitment_index 0) =
          (List.range (coms.map fun c => c.1.length).sum).map fun k =>
            (α ^ ((crsIds 0 (coms.map (·.1))).getD k 0 + 1) *
              ((coms.map (·.2.1)).flatten).getD k 0) •
                Gs.getD ((coms.map (·.1)).flatten.getD k 0) 0 := by
        have : (map.msgs_map.map fun m' =>
            ((List.ofFn (powers α coms.length)).getD m'.commitment_crs_id 0 *
              w2.getD m'.position_in_witness 0) • Gs.getD m'.commitment_index 0) =
            map.msgs_map.map fun m' => (α ^ (m'.commitment_crs_id + 1) * msgs.getD m'.msg_id 0) •
              Gs.getD m'.commitment_index 0 := by
          apply List.map_congr_left
          intro m' hm'
          rw [hval m' hm']
        rw [this]
        obtain ⟨free, -, -, -, -, f5⟩ := hwf.free
        have hsum : (List.map List.length (coms.map (·.1))).sum = (coms.map fun c => c.1.length).sum := by
          rw [List.map_map]; rfl
        rw [f5, List.map_ofFn]
        apply List.ext_getElem
        · rw [List.length_ofFn, List.length_map, List.length_range, hsum]
        · intro i h1 h2
          rw [List.getElem_ofFn, List.getElem_map, List.getElem_range]
          rfl
      rw [e3, e2, List.zipWith_map_left]
      exact e1
    rw [hagg, hlast]
    have hadd : ∀ (as : List F) (cs : List (List Nat × List F × F)),
        (List.zipWith (fun (α : F) (c : List Nat × List F × F) =>
          α • (dot c.2.1 (c.1.map fun i => Gs.getD i 0) + c.2.2 • Gs.getD (m + 2) 0)) as cs).sum =
        (List.zipWith (fun (α : F) (c : List Nat × List F × F) =>
          α • dot c.2.1 (c.1.map fun i => Gs.getD i 0)) as cs).sum +
        (List.zipWith (fun (α : F) (c : List Nat × List F × F) => (α * c.2.2) • Gs.getD (m + 2) 0)
          as cs).sum := by
      intro as
      induction as with
      | nil => simp
      | cons a as ih =>
        intro cs
        cases cs with
        | nil => simp
        | cons c cs =>
          simp only [List.zipWith_cons_cons, List.sum_cons, ih cs]
          module
    rw [hadd]
    abel
  · rw [pushCopyMatrices_spec _ map α ?_ _ hwf.nodup hnot ?_ c1] at h13
    · cases h13
      exact ⟨rfl, rfl, rfl⟩
    · intro m' hm'
      obtain ⟨-, -, -, hcrs, -⟩ := hwf.mem m' hm'
      rw [List.length_map] at hcrs
      rw [List.getElem?_ofFn, dif_pos hcrs]; rfl
    · intro m' hm'
      exact hpm _ (List.mem_map_of_mem hm')

theorem create_ok (cx : Ctx G) (tr tr' : Transcript) (tape tape' : Tape F) (Gs Hs : List G) (Q : G)
    (map : Mapping) (block : BlockMatrix F) (w : List F) (coms : List (List Nat × List F × F))
    (p : Proof F) (hwf : WF Gs.length w.length (coms.map (·.1)) map)
    (hlen : ∀ c ∈ coms, c.1.length = c.2.1.length)
    (h : create cx tr tape Gs Hs Q map block w (coms.map (·.2)) = .ok (p, tr', tape')) :
    ∃ m, Gs.length = m + 3 ∧ w[0]? = some 1 ∧ w.length ≤ m + 1 ∧
      (∀ c ∈ (coms.map (·.1)).flatten, c < m + 1) ∧
      let msgs := (coms.map (·.2.1)).flatten
      let α := copyAlpha F cx.ro tr.log p.C_w
      let r1 := tape 1 + dot (coms.map (·.2.2)) (List.ofFn (powers α coms.length))
      let C_w := dot (List.ofFn (fun i : Fin (m + 1) => copyWitness w map msgs 0 i) ++
        [tape 0, tape 1]) Gs
      p.C_w = cx.compress C_w ∧
      dot (List.ofFn (fun i : Fin (m + 1) => copyWitness w map msgs α i) ++ [tape 0, r1]) Gs =
        (List.zipWith (fun (α : F) (c : List Nat × List F × F) =>
          α • (dot c.2.1 (c.1.map fun i => Gs.getD i 0) + c.2.2 • Gs.getD (m + 2) 0))
          (List.ofFn (powers α coms.length)) coms).sum + C_w ∧
      Inner.create cx ⟨tr.log ++ [.msg "c_w" p.C_w, .chal "alpha" 64]⟩ (fun i => tape (i + 2)) Gs
        Hs Q ⟨block.block ++ map.unique_commitment_indices.map fun c =>
          rows (copyConstraint m map α c)⟩
          (List.ofFn fun i : Fin (m + 1) => copyWitness w map msgs α i) [tape 0, r1] =
            .ok (p.inner, tr', tape') := by
  obtain ⟨w1, C_w, old, w2, w3, gamma, wa, wb, h2, hn2, hwk, h6, h7, hpc, hcl, h10, h11, h12, h13, h14,
    h15⟩ := create_steps _ _ _ _ _ _ _ _ _ _ _ _ _ h
  obtain ⟨m, hm, e1, e2, e3, e4, e5, rfl, rfl, rfl⟩ := steps_values cx tr.log tape Gs map block w coms p.C_w hwf
    hlen w1 C_w old w2 w3 gamma wa wb h2 hn2 hwk h6 h7 hpc h10 h11 h12 h13 h14
  exact ⟨m, hm, e1, e2, e3, e4, e5, h15⟩

omit [Field F] [DecidableEq F] in
theorem placeMessages_ok (msgs : List F) (ms : List MessageMap) (w : List F)
    (h : ∀ m ∈ ms, m.position_in_witness < w.length) : ∃ r, placeMessages msgs ms w = .ok r := by
  induction msgs generalizing ms w with
  | nil => exact ⟨w, by simp [placeMessages]⟩
  | cons x msgs ih =>
    cases ms with
    | nil => exact ⟨w, by simp [placeMessages]⟩
    | cons m ms =>
      unfold placeMessages
      rw [setIdx_eq_ok.2 ⟨h m List.mem_cons_self, rfl⟩, ok_bind]
      exact ih ms _ (fun m' hm' => by rw [List.length_set]; exact h m' (List.mem_cons_of_mem _ hm'))

omit [DecidableEq F] in
theorem aggregate_ok (alphas : List F) (ms : List MessageMap) (w : List F)
    (h : ∀ m ∈ ms, m.position_in_witness < w.length ∧ m.commitment_crs_id < alphas.length ∧
      m.commitment_index < w.length) : ∃ r, aggregate alphas ms w = .ok r := by
  induction ms generalizing w with
  | nil => exact ⟨w, rfl⟩
  | cons m ms ih =>
    obtain ⟨h1, h2, h3⟩ := h m List.mem_cons_self
    unfold aggregate
    rw [idx_eq_ok.2 (List.getElem?_eq_getElem h1), ok_bind, idx_eq_ok.2 (List.getElem?_eq_getElem h2), ok_bind,
      idx_eq_ok.2 (List.getElem?_eq_getElem h3), ok_bind, setIdx_eq_ok.2 ⟨h3, rfl⟩, ok_bind]
    exact ih _ (fun m' hm' => by rw [List.length_set]; exact h m' (List.mem_cons_of_mem _ hm'))

/-- The converse of `create_ok`: nothing else can go wrong. -/
theorem create_returns (cx : Ctx G) (tr tr' : Transcript) (tape tape' : Tape F) (Gs Hs : List G) (Q : G)
    (map : Mapping) (block : BlockMatrix F) (w : List F) (coms : List (List Nat × List F × F)) (m : Nat)
    (q : Inner.Proof F) (hwf : WF Gs.length w.length (coms.map (·.1)) map)
    (hlen : ∀ c ∈ coms, c.1.length = c.2.1.length)
    (hm : Gs.length = m + 3) (h0 : w[0]? = some 1) (hwl : w.length ≤ m + 1)
    (hci : ∀ c ∈ (coms.map (·.1)).flatten, c < m + 1)
    (pC : Comp) (hpC : pC = cx.compress (dot (List.ofFn (fun i : Fin (m + 1) =>
        copyWitness w map (coms.map (·.2.1)).flatten 0 i) ++ [tape 0, tape 1]) Gs))
    (h : let msgs := (coms.map (·.2.1)).flatten
      let α := copyAlpha F cx.ro tr.log pC
      let r1 := tape 1 + dot (coms.map (·.2.2)) (List.ofFn (powers α coms.length))
      Inner.create cx ⟨tr.log ++ [.msg "c_w" pC, .chal "alpha" 64]⟩ (fun i => tape (i + 2)) Gs
        Hs Q ⟨block.block ++ map.unique_commitment_indices.map fun c =>
          rows (copyConstraint m map α c)⟩
          (List.ofFn fun i : Fin (m + 1) => copyWitness w map msgs α i) [tape 0, r1] =
            .ok (q, tr', tape')) :
    create cx tr tape Gs Hs Q map block w (coms.map (·.2)) = .ok (⟨pC, q⟩, tr', tape') := by
  have hlt : ∀ m' ∈ map.msgs_map, m'.position_in_witness < m + 1 ∧ m'.commitment_crs_id < coms.length ∧
      m'.commitment_index < m + 1 := by
    intro m' hm'
    obtain ⟨-, -, hc, hcrs, -, hlt, -⟩ := hwf.mem m' hm'
    exact ⟨by omega, by simpa using hcrs, hci _ hc⟩
  have hcl : 0 < coms.length := by
    have := hwf.pos
    rcases Nat.eq_zero_or_pos coms.length with h0 | h0
    · rw [List.length_eq_zero_iff.1 h0] at this; simp at this
    · exact h0
  have hnot : ∀ m' ∈ map.msgs_map, m'.position_in_witness ∉ map.unique_commitment_indices := by
    intro m' hm' hin
    obtain ⟨-, -, -, -, -, -, hno⟩ := hwf.mem m' hm'
    rw [hwf.uniq, mem_setCollect] at hin
    exact hno hin
  have hl0 : (w ++ List.replicate (Gs.length - 2 - w.length) 0 ++ [tape 0, tape 1]).length = m + 3 := by
    simp; omega
  obtain ⟨w1, h6⟩ := placeMessages_ok (coms.map (·.2.1)).flatten map.msgs_map
    (w ++ List.replicate (Gs.length - 2 - w.length) 0 ++ [tape 0, tape 1])
    (fun m' hm' => by have := (hlt m' hm').1; omega)
  have hl1 : w1.length = m + 3 := by rw [(placeMessages_spec _ _ _ _ hwf.nodup h6).1, hl0]
  have h7 := msm_eq (s := w1) (p := Gs) (by omega)
  have h10 : idx w1 (Gs.length - 1) = .ok (w1[m + 2]'(by omega)) :=
    idx_eq_ok.2 (by rw [hm]; exact List.getElem?_eq_getElem _)
  set α' := copyAlpha F cx.ro tr.log (cx.compress (dot w1 Gs)) with hα'
  obtain ⟨w2, h11⟩ : ∃ w2, setIdx w1 (Gs.length - 1) ((w1[m + 2]'(by omega)) + dot (coms.map (·.2.2))
      (List.ofFn (powers α' coms.length))) = .ok w2 := ⟨_, setIdx_eq_ok.2 ⟨by omega, rfl⟩⟩
  have hl2 : w2.length = m + 3 := by rw [(setIdx_eq_ok.1 h11).2, List.length_set, hl1]
  obtain ⟨w3, h12⟩ := aggregate_ok (List.ofFn (powers α' coms.length)) map.msgs_map w2 (fun m' hm' => by
    obtain ⟨e1, e2, e3⟩ := hlt m' hm'
    rw [List.length_ofFn, hl2]
    exact ⟨Nat.lt_of_lt_of_le e1 (by omega), e2, Nat.lt_of_lt_of_le e3 (by omega)⟩)
  have h13' := pushCopyMatrices_spec (k := m) (List.ofFn (powers α' coms.length)) map α' (by
      intro m' hm'
      have hcrs := (hlt m' hm').2.1
      rw [List.getElem?_ofFn, dif_pos hcrs]; rfl) map.unique_commitment_indices hwf.nodup hnot
      (fun m' hm' => (hlt m' hm').1) (fun c hc => by
        rw [hwf.uniq, mem_setCollect] at hc; exact hci c hc) block
  have hdis : ∀ m1 ∈ map.msgs_map, ∀ m2 ∈ map.msgs_map,
      m1.position_in_witness ≠ m2.commitment_index := by
    intro m1 hm1 m2 hm2 he
    obtain ⟨-, -, -, -, -, -, hno⟩ := hwf.mem m1 hm1
    obtain ⟨-, -, hc, -⟩ := hwf.mem m2 hm2
    exact hno (he ▸ hc)
  have hl3 : w3.length = m + 3 := by
    rw [(aggregate_spec _ _ _ _ hdis h12).1, hl2]
  obtain ⟨gamma, h13⟩ : ∃ gamma, pushCopyMatrices (Gs.length - 2) (List.ofFn (powers α' coms.length))
      map.msgs_map map.unique_commitment_indices block = .ok gamma :=
    ⟨_, by rw [show Gs.length - 2 = m + 1 by omega]; exact h13'⟩
  have h14 := splitAtR_le (l := w3) (i := Gs.length - 2) (by omega)
  obtain ⟨m', hm', -, -, -, e4, -, e5, e6, e7⟩ := steps_values cx tr.log tape Gs map block w coms _ hwf
    hlen w1 _ _ _ w3 _ _ _ h0 (by omega) (by omega) h6 h7 rfl h10 h11 h12 h13 h14
  obtain rfl : m' = m := by omega
  rw [← e4] at hpC
  subst hpC
  have hmsgs : ((coms.map (·.2)).map fun o => o.1).flatten = (coms.map (·.2.1)).flatten := by
    rw [List.map_map]; rfl
  have hrand : ∀ as : List F, (List.zipWith (fun rnd alpha => rnd * alpha)
      ((coms.map (·.2)).map fun o => o.2) as).sum = dot (coms.map (·.2.2)) as := by
    intro as
    rw [List.map_map, dot]; rfl
  have hsq : squeeze F cx.ro (tr.log ++ [Event.msg "c_w" (cx.compress (dot w1 Gs))] ++
      [Event.chal "alpha" 64]) = α' := by
    simp [hα', copyAlpha]
  unfold create
  simp only [rassert_true (show map.num_commitments = coms.length by rw [hwf.num]; simp),
    idx_eq_ok.2 h0, rassert_True, ok_bind, usub_le (show 2 ≤ Gs.length by omega),
    usub_le (show w.length ≤ Gs.length - 2 by omega), drawN, draw, hmsgs, hrand,
    Ipa.challengeScalar_eq, Transcript.appendMessage, List.length_map,
    Inner.vandemondeChallenge_eq _ hcl, usub_le (show 1 ≤ Gs.length by omega)]
  rw [h6, ok_bind]
  simp only [h7, ok_bind, hsq, h10, h11, h12, h13, h14]
  rw [e5, e6, e7]
  simp only [List.append_assoc, List.cons_append, List.nil_append]
  rw [h]
  rfl

end Qesa.Copy
