import Mathlib.Data.Fintype.CardEmbedding
import Verif.Model.Tests
import Verif.Props.Copy
/- The test of `compute_mapping`: C76. -/
namespace Qesa.Props
open Qesa Spec Copy Tests

theorem assertEach_eq_ok {α : Type} {c : α → Prop} [DecidablePred c] {l : List α} :
    assertEach c l = .ok () ↔ ∀ x ∈ l, c x := by
  induction l with
  | nil => simp [assertEach]
  | cons x xs ih =>
    by_cases h : c x
    · simp [assertEach, ih, h]
    · simp [assertEach, h]

theorem chunks_ok (sets : List (List Nat)) : ∀ (c : Nat) (ms : List MessageMap), c + sets.length ≤ 65536 →
    ms.map (·.commitment_crs_id) = crsIds c sets →
    ∃ ch, chunkMaps sets ms = .ok ch ∧ checkCrs c ch = .ok () := by
  induction sets with
  | nil => intro c ms _ _; exact ⟨[], rfl, rfl⟩
  | cons s ss ih =>
    intro c ms hc h
    rw [List.length_cons] at hc
    rw [crsIds] at h
    have hl : s.length ≤ ms.length := by
      have := congrArg List.length h
      simp at this; omega
    obtain ⟨ch, h1, h2⟩ := ih (c + 1) (ms.drop s.length) (by omega) (by
      rw [List.map_drop, h, List.drop_left' (by simp)])
    refine ⟨ms.take s.length :: ch, ?_, ?_⟩
    · simp [chunkMaps, splitAtR, hl, h1]
    · have : assertEach (fun m : MessageMap => m.commitment_crs_id = asU16 c) (ms.take s.length) = .ok () := by
        rw [assertEach_eq_ok]
        intro m hm
        have : m.commitment_crs_id ∈ (ms.take s.length).map (·.commitment_crs_id) := List.mem_map_of_mem hm
        rw [List.map_take, h, List.take_left' (by simp)] at this
        rw [List.eq_of_mem_replicate this, asU16, Nat.mod_eq_of_lt (by omega)]
      simp [checkCrs, this, h2]

/-- The sets of indices of the test. -/
def drawnSets (r : Fin 4 → Fin 2 → Nat) : List (List Nat) :=
  List.ofFn fun c => setInsert (r c 1) (setInsert (r c 0) [])

/-- The checks of the test hold whenever `compute_mapping` returns. -/
theorem checks_pass {n : Nat} (hn : n < 65536) (r : Fin 4 → Fin 2 → Nat) {map : Mapping}
    (h : computeMapping n 1 (drawnSets r) = .ok map) : testComputeMapping n r = .ok () := by
  have hs : (drawnSets r).length = 4 := by simp [drawnSets]
  have hwf := computeMapping_wf hn (by omega) (by omega) h
  have hpos := hwf.pos
  obtain ⟨free, f1, f2, f3, f4, f5⟩ := hwf.free
  unfold testComputeMapping
  change (do
    let map ← computeMapping n 1 (drawnSets r)
    rassert (4 = map.num_commitments)
    let total := ((drawnSets r).map List.length).sum
    assertEach (fun id => (map.msgs_map.find? fun x => x.msg_id == id).isSome = true) (List.range total)
    let last ← usub total 1
    let m ← idx map.msgs_map last
    rassert (m.position_in_witness = map.last_index)
    let chunked ← chunkMaps (drawnSets r) map.msgs_map
    checkCrs 0 chunked : R Unit) = .ok ()
  have e1 : assertEach (fun id => (map.msgs_map.find? fun x => x.msg_id == id).isSome = true)
      (List.range ((drawnSets r).map List.length).sum) = .ok () := by
    rw [assertEach_eq_ok]
    intro i hi
    rw [List.mem_range] at hi
    rw [List.find?_isSome]
    exact ⟨_, by rw [f5]; exact List.mem_ofFn.2 ⟨⟨i, hi⟩, rfl⟩, by simp⟩
  obtain ⟨ch, h1, h2⟩ := chunks_ok (drawnSets r) 0 map.msgs_map (by omega) (by
    rw [f5, List.map_ofFn]
    apply List.ext_getElem
    · rw [List.length_ofFn, crsIds_length]
    · intro i hi hi'
      rw [List.getElem_ofFn]
      simp only [Function.comp]
      rw [List.getD_eq_getElem _ _ hi'])
  have e2 : idx map.msgs_map (((drawnSets r).map List.length).sum - 1) =
      .ok ⟨((drawnSets r).map List.length).sum - 1,
        (drawnSets r).flatten.getD (((drawnSets r).map List.length).sum - 1) 0,
        (crsIds 0 (drawnSets r)).getD (((drawnSets r).map List.length).sum - 1) 0,
        map.last_index⟩ := by
    rw [idx_eq_ok, f5, List.getElem?_ofFn, dif_pos (by omega), f4]
  simp only [h, ok_bind, rassert_true (show 4 = map.num_commitments by rw [hwf.num, hs]), e1,
    usub_le (show 1 ≤ ((drawnSets r).map List.length).sum by omega), e2, rassert_True, h1, h2]

theorem mem_drawnSets (r : Fin 4 → Fin 2 → Nat) (x : Nat) :
    (∀ s ∈ drawnSets r, x ∉ s) ↔ x ∉ Finset.univ.image fun p : Fin 4 × Fin 2 => r p.1 p.2 := by
  simp only [drawnSets, List.mem_ofFn, forall_exists_index, forall_apply_eq_imp_iff, mem_setInsert,
    Finset.mem_image, Finset.mem_univ, true_and, Prod.exists, Fin.exists_fin_two, List.not_mem_nil, or_false]
  constructor
  · rintro h ⟨c, h' | h'⟩
    · exact h c (Or.inr h'.symm)
    · exact h c (Or.inl h'.symm)
  · rintro h c (h' | h')
    · exact h ⟨c, Or.inr h'.symm⟩
    · exact h ⟨c, Or.inl h'.symm⟩

theorem sum_drawnSets (r : Fin 4 → Fin 2 → Nat) :
    ((drawnSets r).map List.length).sum = ∑ c, (Finset.univ.image (r c)).card := by
  rw [drawnSets, List.map_ofFn, List.sum_ofFn]
  apply Finset.sum_congr rfl
  intro c _
  have hp : (setInsert (r c 1) (setInsert (r c 0) [])).Pairwise (· < ·) :=
    pairwise_setInsert _ _ (pairwise_setInsert _ _ List.Pairwise.nil)
  rw [Function.comp, ← List.toFinset_card_of_nodup (hp.imp fun h => Nat.ne_of_lt h)]
  congr 1
  ext x
  simp only [List.mem_toFinset, mem_setInsert, Finset.mem_image, Finset.mem_univ, true_and,
    Fin.exists_fin_two, List.not_mem_nil, or_false]
  tauto

/-- C76: the test fails exactly when the number of different indices and the number of messages (the sum of
the sizes of the sets) exceed `n - 3` together. -/
theorem C76_test_iff {n : Nat} (hn : n < 65536) (r : Fin 4 → Fin 2 → Nat)
    (hr : ∀ c j, 2 ≤ r c j ∧ r c j < n - 3) :
    Panics (testComputeMapping n r) ↔
      n - 3 < (Finset.univ.image fun p : Fin 4 × Fin 2 => r p.1 p.2).card +
        ∑ c, (Finset.univ.image (r c)).card := by
  have hn5 := hr 0 0
  have hpan : Panics (testComputeMapping n r) ↔ Panics (computeMapping n 1 (drawnSets r)) := by
    cases h : computeMapping n 1 (drawnSets r) with
    | ok map =>
      rw [checks_pass hn r h]
      simp [Panics]
    | error e =>
      have : testComputeMapping n r = .error e := by
        unfold testComputeMapping
        simp only [drawnSets] at h
        simp only [h, error_bind]
      rw [this]
      simp [Panics]
  have hcard : ((Finset.Ico 1 (n - 2)).filter fun x => ∀ s ∈ drawnSets r, x ∉ s).card =
      n - 3 - (Finset.univ.image fun p : Fin 4 × Fin 2 => r p.1 p.2).card := by
    simp only [mem_drawnSets]
    rw [Finset.filter_notMem_eq_sdiff, Finset.card_sdiff_of_subset, Nat.card_Ico]
    · omega
    · intro x hx
      obtain ⟨p, -, rfl⟩ := Finset.mem_image.1 hx
      have := hr p.1 p.2
      rw [Finset.mem_Ico]; omega
  have hle : (Finset.univ.image fun p : Fin 4 × Fin 2 => r p.1 p.2).card ≤ n - 3 := by
    calc _ ≤ (Finset.Ico 1 (n - 2)).card := Finset.card_le_card (by
            intro x hx
            obtain ⟨p, -, rfl⟩ := Finset.mem_image.1 hx
            have := hr p.1 p.2
            rw [Finset.mem_Ico]; omega)
      _ = n - 3 := by rw [Nat.card_Ico]; omega
  rw [hpan, C35_panics_iff hn (by omega), hcard, sum_drawnSets]
  constructor
  · rintro (h | h | h)
    · omega
    · have := h _ (List.mem_ofFn.2 ⟨0, rfl⟩)
      have h0 : r 0 1 ∈ setInsert (r 0 1) (setInsert (r 0 0) []) := by simp [mem_setInsert]
      rw [this] at h0
      simp at h0
    · omega
  · intro h
    right; right; omega

/-- C76: with the size 18 of the code the test fails exactly when the eight random indices are different. -/
theorem C76_test_eighteen (r : Fin 4 → Fin 2 → Nat) (hr : ∀ c j, 2 ≤ r c j ∧ r c j < 15) :
    Panics (testComputeMapping 18 r) ↔ Function.Injective fun p : Fin 4 × Fin 2 => r p.1 p.2 := by
  rw [C76_test_iff (by omega) r hr]
  have h8 : (Finset.univ : Finset (Fin 4 × Fin 2)).card = 8 := by decide
  have hd := (Finset.card_image_le (s := Finset.univ) (f := fun p : Fin 4 × Fin 2 => r p.1 p.2)).trans_eq h8
  have ht : ∑ c, (Finset.univ.image (r c)).card ≤ 8 := by
    calc _ ≤ ∑ _c : Fin 4, 2 := Finset.sum_le_sum fun c _ => Finset.card_image_le.trans_eq (by simp)
      _ = 8 := by simp
  constructor
  · intro h
    rw [← Set.injOn_univ, ← Finset.coe_univ, ← Finset.card_image_iff]
    omega
  · intro h
    rw [Finset.card_image_of_injective _ h, h8]
    have : ∀ c, (Finset.univ.image (r c)).card = 2 := by
      intro c
      rw [Finset.card_image_of_injective]
      · simp
      · intro i j hij
        have := h (a₁ := (c, i)) (a₂ := (c, j)) hij
        exact congrArg Prod.snd this
    simp [this]

/-- C76: of the `13^8` equally likely outcomes `13·12·…·6` make the test fail: more than six in a hundred. -/
theorem C76_test_count :
    Nat.card {r : Fin 4 → Fin 2 → Fin 13 // Panics (testComputeMapping 18 fun c j => r c j + 2)} = 51891840 ∧
    Nat.card (Fin 4 → Fin 2 → Fin 13) = 815730721 := by
  constructor
  · have e : {r : Fin 4 → Fin 2 → Fin 13 // Panics (testComputeMapping 18 fun c j => r c j + 2)} ≃
        (Fin 4 × Fin 2 ↪ Fin 13) :=
      ((Equiv.curry (Fin 4) (Fin 2) (Fin 13)).symm.subtypeEquiv fun r => by
        rw [C76_test_eighteen _ fun c j => ⟨by omega, by omega⟩]
        constructor
        · intro h p q hpq
          apply h
          have : r p.1 p.2 = r q.1 q.2 := hpq
          simp only [this]
        · intro h p q hpq
          apply h
          have : ((r p.1 p.2 : Fin 13) : Nat) + 2 = (r q.1 q.2 : Fin 13) + 2 := hpq
          exact Fin.ext (show ((r p.1 p.2 : Fin 13) : Nat) = (r q.1 q.2 : Fin 13) by omega)).trans (Equiv.subtypeInjectiveEquivEmbedding _ _)
    rw [Nat.card_congr e, Nat.card_eq_fintype_card, Fintype.card_embedding_eq]
    rfl
  · rw [Nat.card_eq_fintype_card]
    simp

/-- C76: with a size of at least 19 it passes whatever the random indices are. -/
theorem C76_test_nineteen {n : Nat} (h19 : 19 ≤ n) (hn : n < 65536) (r : Fin 4 → Fin 2 → Nat)
    (hr : ∀ c j, 2 ≤ r c j ∧ r c j < n - 3) : testComputeMapping n r = .ok () := by
  have h8 : (Finset.univ : Finset (Fin 4 × Fin 2)).card = 8 := by decide
  have hd := (Finset.card_image_le (s := Finset.univ) (f := fun p : Fin 4 × Fin 2 => r p.1 p.2)).trans_eq h8
  have ht : ∑ c, (Finset.univ.image (r c)).card ≤ 8 := by
    calc _ ≤ ∑ _c : Fin 4, 2 := Finset.sum_le_sum fun c _ => Finset.card_image_le.trans_eq (by simp)
      _ = 8 := by simp
  cases h : testComputeMapping n r with
  | ok u => rfl
  | error e =>
    have := (C76_test_iff hn r hr).1 ⟨e, h⟩
    omega

/-- A run of the test that passes (index 4 is drawn twice) and one that fails. -/
example : testComputeMapping 18 ![![2, 3], ![4, 5], ![6, 7], ![4, 14]] = .ok () ∧
    testComputeMapping 18 ![![2, 3], ![4, 5], ![6, 7], ![8, 14]] = .error .assertFail ∧
    testComputeMapping 19 ![![2, 3], ![4, 5], ![6, 7], ![8, 14]] = .ok () := by
  decide +kernel

end Qesa.Props
