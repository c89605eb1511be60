import Mathlib.Order.Interval.Finset.Nat
import Verif.Proofs.Copy
import Verif.Props.Qesa
/- Properties of src/copy: C32-C41. -/
namespace Qesa.Props
open Qesa Spec Copy
variable {F G : Type} [Field F] [AddCommGroup G] [Module F G]

/-! ### C32, C33: commitments -/

/-- C32: the commitment is `∑ mⱼ G_{iⱼ} + r G_last`. -/
theorem C32_commit_value {n k : Nat} (g : Fin (n + 1) → G) (i : Fin k → Fin (n + 1)) (m : Fin k → F)
    (r : F) :
    commit (List.ofFn g) (List.ofFn fun j => (i j).val) (List.ofFn m) r =
      .ok (∑ j, m j • g (i j) + r • g (Fin.last n)) := by
  rw [commit_eq_ok]
  refine ⟨by simp, ?_, g (Fin.last n), ?_, ?_⟩
  · intro x hx
    obtain ⟨j, rfl⟩ := List.mem_ofFn.1 hx
    simpa using (i j).2
  · rw [List.getLast?_eq_getElem?, List.length_ofFn, List.getElem?_ofFn, dif_pos (by omega)]
    rfl
  · rw [List.map_ofFn, dot_ofFn]
    congr 1
    apply Finset.sum_congr rfl
    intro j _
    simp only [Function.comp]
    rw [List.getD_eq_getElem _ _ (by simpa using (i j).2), List.getElem_ofFn]

/-- C32: when `commit` panics. -/
theorem C32_commit_panics (Gs : List G) (is : List Nat) (msg : List F) (r : F) :
    Panics (commit Gs is msg r) ↔
      is.length ≠ msg.length ∨ (∃ i ∈ is, Gs.length ≤ i) ∨ Gs = [] := by
  constructor
  · rintro ⟨e, he⟩
    by_contra hcon
    simp only [not_or, not_not, not_exists, not_and, not_le] at hcon
    obtain ⟨h1, h2, h3⟩ := hcon
    have := (commit_eq_ok Gs is msg r _).2 ⟨h1, h2, Gs.getLast h3,
      List.getLast?_eq_some_getLast h3, rfl⟩
    rw [this] at he; cases he
  · intro h
    cases hc : commit Gs is msg r with
    | error e => exact ⟨e, rfl⟩
    | ok c =>
      obtain ⟨h1, h2, l, h3, -⟩ := (commit_eq_ok _ _ _ _ _).1 hc
      rcases h with h | ⟨i, hi, h⟩ | rfl
      · exact absurd h1 h
      · exact absurd (h2 i hi) (by omega)
      · simp at h3

/-- C32: `commit` is linear in message and blinding. -/
theorem C32_homomorphic (Gs : List G) (is : List Nat) (m1 m2 : List F) (r1 r2 x y : F) (c1 c2 : G)
    (h1 : commit Gs is m1 r1 = .ok c1) (h2 : commit Gs is m2 r2 = .ok c2) :
    commit Gs is (List.zipWith (fun a b => x * a + y * b) m1 m2) (x * r1 + y * r2) =
      .ok (x • c1 + y • c2) := by
  obtain ⟨l1, i1, g1, e1, rfl⟩ := (commit_eq_ok _ _ _ _ _).1 h1
  obtain ⟨l2, -, g2, e2, rfl⟩ := (commit_eq_ok _ _ _ _ _).1 h2
  rw [commit_eq_ok]
  refine ⟨by simp; omega, i1, g1, e1, ?_⟩
  rw [e1] at e2
  cases e2
  rw [dot_comb_left _ _ _ (by omega)]
  module

/-- C33: perfectly hiding. If the last generator generates the group, blindings can be matched one
to one such that two messages have the same commitments. -/
theorem C33_hiding (Gs : List G) (last : G) (hlast : Gs.getLast? = some last)
    (hgen : ∀ g : G, ∃ d : F, g = d • last) (is : List Nat) (hi : ∀ i ∈ is, i < Gs.length)
    (m1 m2 : List F) (l1 : is.length = m1.length) (l2 : is.length = m2.length) :
    ∃ σ : F ≃ F, ∀ r, ∃ c, commit Gs is m1 r = .ok c ∧ commit Gs is m2 (σ r) = .ok c := by
  obtain ⟨d, hd⟩ := hgen (dot m1 (is.map fun i => Gs.getD i 0) - dot m2 (is.map fun i => Gs.getD i 0))
  refine ⟨Equiv.addRight d, fun r => ⟨_, (commit_eq_ok _ _ _ _ _).2 ⟨l1, hi, last, hlast, rfl⟩,
    (commit_eq_ok _ _ _ _ _).2 ⟨l2, hi, last, hlast, ?_⟩⟩⟩
  rw [Equiv.coe_addRight, add_smul, ← hd]
  abel

/-- C33: binding up to linear relations. Two different openings of one commitment give a non-trivial
relation between the generators. -/
theorem C33_binding {n k : Nat} (g : Fin (n + 1) → G) (i : Fin k → Fin (n + 1))
    (hinj : Function.Injective i) (hi : ∀ j, i j ≠ Fin.last n) (m1 m2 : Fin k → F) (r1 r2 : F)
    (hne : m1 ≠ m2 ∨ r1 ≠ r2) (c : G)
    (h1 : commit (List.ofFn g) (List.ofFn fun j => (i j).val) (List.ofFn m1) r1 = .ok c)
    (h2 : commit (List.ofFn g) (List.ofFn fun j => (i j).val) (List.ofFn m2) r2 = .ok c) :
    ∃ a : Fin (n + 1) → F, a ≠ 0 ∧ ∑ j, a j • g j = 0 := by
  rw [C32_commit_value] at h1 h2
  rw [← h2] at h1
  have h := Except.ok.inj h1
  let a : Fin (n + 1) → F := fun l =>
    (∑ j, if i j = l then m1 j - m2 j else 0) + if l = Fin.last n then r1 - r2 else 0
  have ha1 : ∀ j, a (i j) = m1 j - m2 j := by
    intro j
    simp only [a, if_neg (hi j), add_zero]
    rw [Finset.sum_eq_single j]
    · simp
    · intro j' _ hj'
      rw [if_neg fun he => hj' (hinj he)]
    · simp
  have ha2 : a (Fin.last n) = r1 - r2 := by
    simp only [a, if_true]
    rw [Finset.sum_eq_zero, zero_add]
    intro j _
    rw [if_neg (hi j)]
  refine ⟨a, ?_, ?_⟩
  · intro h0
    rcases hne with hne | hne
    · apply hne; funext j
      have := ha1 j
      rw [h0] at this
      exact (sub_eq_zero.1 this.symm)
    · apply hne
      rw [h0] at ha2
      exact (sub_eq_zero.1 ha2.symm)
  · simp only [a, add_smul, Finset.sum_add_distrib, Finset.sum_smul]
    rw [Finset.sum_comm]
    have e1 : ∀ j, ∑ l, (if i j = l then m1 j - m2 j else 0) • g l = (m1 j - m2 j) • g (i j) := by
      intro j
      rw [Finset.sum_eq_single (i j)]
      · simp
      · intro l _ hl
        rw [if_neg (Ne.symm hl), zero_smul]
      · simp
    have e2 : ∑ l, (if l = Fin.last n then r1 - r2 else 0) • g l = (r1 - r2) • g (Fin.last n) := by
      rw [Finset.sum_eq_single (Fin.last n)]
      · simp
      · intro l _ hl
        rw [if_neg hl, zero_smul]
      · simp
    simp only [e1, e2, sub_smul, Finset.sum_sub_distrib]
    rw [← sub_eq_zero] at h
    rw [← h]; abel

/-- A commitment with generators `3, 5, 8, 13` in `ZMod 101`, and another opening of it. -/
example : commit [3, 5, 8, (13 : Toy.K)] [1, 2] [(10 : Toy.K), 20] 7 = .ok (50 + 160 + 91) ∧
    commit [3, 5, 8, (13 : Toy.K)] [1, 2] [(11 : Toy.K), 20] (7 - 5 * 13⁻¹) = .ok (50 + 160 + 91) := by
  decide +kernel

/-! ### C34-C36: the mapping -/

/-- C34: what `compute_mapping` returns: message `j` of set `c` has the number
`|set 0| + … + |set (c-1)| + j`, and a slot of its own in `[witness_size, n-2)` that is no commitment
index. -/
theorem C34_mapping {n ws : Nat} {sets : List (List Nat)} {map : Mapping} (hn : n < 65536)
    (hws : ws < 65536) (hs : sets.length ≤ 65536) (h : computeMapping n ws sets = .ok map) :
    map.num_commitments = sets.length ∧
    map.msgs_map.length = (sets.map List.length).sum ∧
    (∀ c j, (hc : c < sets.length) → (hj : j < sets[c].length) →
      ∃ p, map.msgs_map[((sets.take c).map List.length).sum + j]? =
          some ⟨((sets.take c).map List.length).sum + j, sets[c][j], c, p⟩ ∧
        ws ≤ p ∧ p + 2 < n ∧ ∀ s ∈ sets, p ∉ s) ∧
    (map.msgs_map.map (·.position_in_witness)).Pairwise (· < ·) ∧
    (map.msgs_map.getLast?.map (·.position_in_witness)) = some map.last_index ∧
    map.unique_commitment_indices.Pairwise (· < ·) ∧
    (∀ i, i ∈ map.unique_commitment_indices ↔ ∃ s ∈ sets, i ∈ s) := by
  have hwf := computeMapping_wf hn hws hs h
  obtain ⟨free, f1, f2, f3, f4, f5⟩ := hwf.free
  refine ⟨hwf.num, hwf.length, ?_, hwf.positions, ?_, ?_, ?_⟩
  · intro c j hc hj
    have e1 := getElem?_flatten sets c j hc hj
    have e2 := getElem?_crsIds sets 0 c j hc hj
    have hlt : ((sets.take c).map List.length).sum + j < (sets.map List.length).sum := by
      have := (List.getElem?_eq_some_iff.1 e1).1
      rwa [List.length_flatten] at this
    refine ⟨free.getD (((sets.take c).map List.length).sum + j) 0, ?_, ?_⟩
    · rw [f5, List.getElem?_ofFn, dif_pos hlt]
      simp only [List.getD, e1, e2, Option.getD_some, Nat.zero_add]
    · rw [List.getD_eq_getElem _ _ (by omega)]
      obtain ⟨g1, g2, g3⟩ := (f3 _).1 (List.getElem_mem (l := free)
        (n := ((sets.take c).map List.length).sum + j) (by omega))
      exact ⟨g1, g2, fun s hs hin => g3 (List.mem_flatten.2 ⟨s, hs, hin⟩)⟩
  · have := hwf.pos
    rw [List.getLast?_eq_getElem?, f5, List.length_ofFn, List.getElem?_ofFn, dif_pos (by omega), f4]
    rfl
  · rw [hwf.uniq]; exact setCollect_pairwise _
  · intro i
    rw [hwf.uniq, mem_setCollect, List.mem_flatten]

/-- C35: the slots are the lowest free ones. -/
theorem C35_lowest {n ws : Nat} {sets : List (List Nat)} {map : Mapping} (hn : n < 65536)
    (hws : ws < 65536) (hs : sets.length ≤ 65536) (h : computeMapping n ws sets = .ok map)
    (x : Nat) (h1 : ws ≤ x) (h2 : x ≤ map.last_index) (h3 : ∀ s ∈ sets, x ∉ s) :
    ∃ m ∈ map.msgs_map, m.position_in_witness = x := by
  have hwf := computeMapping_wf hn hws hs h
  obtain ⟨free, f1, f2, f3, f4, f5⟩ := hwf.free
  have hpos := hwf.pos
  have hlast : map.last_index = free[(sets.map List.length).sum - 1] := by
    rw [f4, List.getD_eq_getElem _ _ (by omega)]
  have hl := (f3 map.last_index).1 (by rw [hlast]; exact List.getElem_mem _)
  have hx : x ∈ free := (f3 x).2 ⟨h1, by omega, fun hin => by
    obtain ⟨s, hs, hin⟩ := List.mem_flatten.1 hin
    exact h3 s hs hin⟩
  obtain ⟨i, hi, rfl⟩ := List.getElem_of_mem hx
  have hit : i < (sets.map List.length).sum := by
    by_contra hge
    have := List.pairwise_iff_getElem.1 f1 ((sets.map List.length).sum - 1) i (by omega) hi (by omega)
    omega
  refine ⟨_, by rw [f5]; exact List.mem_ofFn.2 ⟨⟨i, hit⟩, rfl⟩, ?_⟩
  simp only
  rw [List.getD_eq_getElem _ _ hi]

/-- C35: `compute_mapping` panics exactly when there is no message, `n < 2`, or there are fewer free
slots than messages. -/
theorem C35_panics_iff {n ws : Nat} {sets : List (List Nat)} (hn : n < 65536) (hws : ws < 65536) :
    Panics (computeMapping n ws sets) ↔ n < 2 ∨ (∀ s ∈ sets, s = []) ∨
      ((Finset.Ico ws (n - 2)).filter fun x => ∀ s ∈ sets, x ∉ s).card <
        (sets.map List.length).sum := by
  have hcard : (slots n ws (setCollect sets.flatten)).length =
      ((Finset.Ico ws (n - 2)).filter fun x => ∀ s ∈ sets, x ∉ s).card := by
    have hnd : (slots n ws (setCollect sets.flatten)).Nodup :=
      (slots_pairwise n ws _).imp fun h => Nat.ne_of_lt h
    rw [← List.toFinset_card_of_nodup hnd]
    congr 1
    ext x
    simp only [List.mem_toFinset, mem_slots, mem_setCollect, Finset.mem_filter, Finset.mem_Ico,
      List.mem_flatten, not_exists, not_and]
    constructor
    · rintro ⟨h1, h2, h3⟩; exact ⟨⟨h1, by omega⟩, h3⟩
    · rintro ⟨⟨h1, h2⟩, h3⟩; exact ⟨h1, by omega, h3⟩
  have hzero : (sets.map List.length).sum = 0 ↔ ∀ s ∈ sets, s = [] := by
    rw [List.sum_eq_zero_iff]
    simp
  rw [computeMapping_eq, ← hcard, ← hzero]
  simp only [Nat.mod_eq_of_lt hn, Nat.mod_eq_of_lt hws]
  set free := slots n ws (setCollect sets.flatten)
  split
  · next h => exact ⟨fun _ => .inl h, fun _ => ⟨_, rfl⟩⟩
  · next h =>
    split
    · next h' =>
      refine ⟨fun _ => .inr ?_, fun _ => ⟨_, rfl⟩⟩
      rcases h' with h' | h'
      · exact .inl h'
      · by_cases h0 : (sets.map List.length).sum = 0
        · exact .inl h0
        · right; rw [h']; simp only [List.length_nil]; omega
    · next h' =>
      rw [not_or] at h'
      split
      · next h'' => exact ⟨fun _ => .inr (.inr h''), fun _ => ⟨_, rfl⟩⟩
      · next h'' =>
        constructor
        · rintro ⟨e, he⟩; cases he
        · rintro (h3 | h3 | h3)
          · exact absurd h3 h
          · exact absurd h3 h'.1
          · exact absurd h3 h''

/-- C36, finding: the sizes are cut to 16 bits. -/
theorem C36_truncated (n ws : Nat) (sets : List (List Nat)) :
    computeMapping n ws sets = computeMapping (n % 65536) (ws % 65536) sets := by
  rw [computeMapping_eq, computeMapping_eq, Nat.mod_mod, Nat.mod_mod]

/-- C36, finding: with `2 ^ 16` or more generators (a power of two, as the arguments require)
`compute_mapping` always panics. -/
theorem C36_large_panics (q ws : Nat) (hq : 16 ≤ q) (sets : List (List Nat)) :
    Panics (computeMapping (2 ^ q) ws sets) := by
  obtain ⟨d, rfl⟩ := Nat.exists_eq_add_of_le hq
  rw [computeMapping_eq]
  have : 2 ^ (16 + d) % 65536 = 0 := by
    rw [pow_add]; exact Nat.mul_mod_right _ _
  simp only [this]
  exact ⟨_, rfl⟩

/-- C36: below that size every slot lies behind the user's witness. -/
theorem C36_behind_witness {n ws : Nat} {sets : List (List Nat)} {map : Mapping} (hn : n < 65536)
    (hws : ws < 65536) (hs : sets.length ≤ 65536) (h : computeMapping n ws sets = .ok map)
    (m : MessageMap) (hm : m ∈ map.msgs_map) :
    ws ≤ m.position_in_witness ∧ m.position_in_witness + 2 < n :=
  have h := (computeMapping_wf hn hws hs h).mem m hm
  ⟨h.2.2.2.2.1, h.2.2.2.2.2.1⟩

/-- C36, finding: for other large sizes a slot can lie inside the user's witness: `n = 65536 + 10`,
a witness with `65536 + 3` entries, and the message is put in slot 3. -/
example : computeMapping (65536 + 10) (65536 + 3) [[7]] = .ok ⟨1, [⟨0, 7, 0, 3⟩], [7], 3⟩ := by
  decide +kernel

/-- C34, C35: two overlapping sets. -/
example : computeMapping 16 2 [[3, 5], [2, 3]] =
    .ok ⟨2, [⟨0, 3, 0, 4⟩, ⟨1, 5, 0, 6⟩, ⟨2, 2, 1, 7⟩, ⟨3, 3, 1, 8⟩], [2, 3, 5], 8⟩ ∧
    Panics (computeMapping 16 2 [[3, 4, 5, 6, 7], [8, 9]]) ∧ Panics (computeMapping 16 2 [[], []]) := by
  refine ⟨by decide +kernel, ⟨.assertFail, by decide +kernel⟩, ⟨.unwrapNone, by decide +kernel⟩⟩

/-! ### C37: the constraints -/

/-- C37: a vector with first component one satisfies the constraint of `c` iff its slot `c` holds the
challenge-weighted sum of the slots of the messages committed at `c`. -/
theorem C37_meaning {k : Nat} (map : Mapping) (α : F) (c : Nat) (v : Fin (k + 1) → F)
    (hc : c < k + 1) (hp : ∀ m ∈ map.msgs_map, m.position_in_witness < k + 1) (h0 : v 0 = 1) :
    quad (copyConstraint k map α c) v = 0 ↔
      slot v c = ((map.msgs_map.filter fun m => m.commitment_index == c).map fun m =>
        α ^ (m.commitment_crs_id + 1) * slot v m.position_in_witness).sum := by
  rw [quad_copyConstraint map α c v hc hp, h0, one_mul, sub_eq_zero, eq_comm]

omit [Field F] in
theorem map_rows_eq {k : Nat} (L : List (Matrix (Fin k) (Fin k) F)) :
    L.map rows = List.ofFn fun i : Fin L.length => rows (L.get i) := by
  apply List.ext_getElem
  · simp
  · intro i h1 h2; simp

theorem push_system {k : Nat} {ws : Nat} {sets : List (List Nat)} {map : Mapping}
    (hwf : WF (k + 3) ws sets map) (hi : ∀ c ∈ sets.flatten, c < k + 1) (α : F)
    (Us : List (Matrix (Fin (k + 1)) (Fin (k + 1)) F)) :
    pushCopyMatrices (k + 1) (List.ofFn (powers α sets.length)) map.msgs_map
      map.unique_commitment_indices ⟨Us.map rows⟩ = .ok ⟨(copySystem Us map α).map rows⟩ := by
  rw [pushCopyMatrices_spec _ map α ?_ _ hwf.nodup ?_ ?_ ?_]
  · simp [copySystem, Function.comp_def]
  · intro m hm
    obtain ⟨-, -, -, hcrs, -⟩ := hwf.mem m hm
    rw [List.getElem?_ofFn, dif_pos hcrs]; rfl
  · intro m hm hin
    obtain ⟨-, -, -, -, -, -, hno⟩ := hwf.mem m hm
    rw [hwf.uniq, mem_setCollect] at hin
    exact hno hin
  · intro m hm
    obtain ⟨-, -, -, -, -, hlt, -⟩ := hwf.mem m hm
    omega
  · intro c hc
    rw [hwf.uniq, mem_setCollect] at hc
    exact hi c hc

/-- C37: `Copy::verify` runs `qesa_inner` on the user's equations followed by the constraints of all
used commitment indices in increasing order, with the commitment `∑ αᶜ⁺¹ C_c + C_w` in place of
`c'_w`. -/
theorem C37_verifier [DecidableEq G] {k ws : Nat} (cx : Ctx G) (p : Copy.Proof F) (tr : Transcript)
    (Gs Hs : List G) (Q : G) (Us : List (Matrix (Fin (k + 1)) (Fin (k + 1)) F))
    (sets : List (List Nat)) (map : Mapping) (Cs : List G) (C_w : G) (hG : Gs.length = k + 3)
    (hn : Gs.length < 65536) (hws : ws < 65536) (hs : sets.length ≤ 65536)
    (hmap : computeMapping Gs.length ws sets = .ok map)
    (hi : ∀ s ∈ sets, ∀ i ∈ s, i < k + 1) (hC : Cs.length = sets.length)
    (hCw : cx.decompress p.C_w = some C_w) :
    let α := copyAlpha F cx.ro tr.log p.C_w
    let C' := dot (List.ofFn (powers α Cs.length)) Cs + C_w
    p.verify cx tr Gs Hs Q ⟨Us.map rows⟩ map Cs =
      (⟨p.inner.alm_zk, cx.compress C', p.inner.c_prime_prime_w⟩ : Inner.Proof F).verify cx
        ⟨tr.log ++ [.msg "c_w" p.C_w, .chal "alpha" 64]⟩ Gs Hs Q
        ⟨(copySystem Us map α).map rows⟩ := by
  have hwf := computeMapping_wf hn hws hs hmap
  have hpos := hwf.pos
  have hC0 : 0 < Cs.length := by
    rw [hC]
    rcases Nat.eq_zero_or_pos sets.length with h0 | h0
    · rw [List.length_eq_zero_iff.1 h0] at hpos; simp at hpos
    · exact h0
  unfold Copy.Proof.verify
  have hα : squeeze F cx.ro (tr.log ++ [Event.msg "c_w" p.C_w] ++
      [Event.chal "alpha" 64]) = copyAlpha F cx.ro tr.log p.C_w := by
    simp [copyAlpha]
  simp only [Ipa.challengeScalar_eq, Transcript.appendMessage, hα]
  generalize copyAlpha F cx.ro tr.log p.C_w = α
  rw [Inner.vandemondeChallenge_eq _ hC0]
  simp only [ok_bind, hCw, unwrapR]
  rw [usub_le (by omega)]
  simp only [ok_bind]
  rw [show Gs.length - 2 = k + 1 by omega, hC, push_system (hG ▸ hwf) (by
    intro c hc
    obtain ⟨s, hs, hc⟩ := List.mem_flatten.1 hc
    exact hi s hs c hc)]
  simp only [ok_bind, List.append_assoc, List.cons_append, List.nil_append]
  rfl

theorem commits_spec (Gs : List G) (coms : List (List Nat × List F × F)) (Cs : List G) (m : Nat)
    (hm : Gs.length = m + 3)
    (h : coms.mapM (fun c => commit Gs c.1 c.2.1 c.2.2) = .ok Cs) :
    (∀ c ∈ coms, c.1.length = c.2.1.length) ∧
    Cs = coms.map fun c => dot c.2.1 (c.1.map fun i => Gs.getD i 0) + c.2.2 • Gs.getD (m + 2) 0 := by
  rw [mapM_eq_ok] at h
  induction h with
  | nil => simp
  | cons h1 _ ih =>
    obtain ⟨i1, i2⟩ := ih
    obtain ⟨l1, -, last, l2, l3⟩ := (commit_eq_ok _ _ _ _ _).1 h1
    have : last = Gs.getD (m + 2) 0 := by
      rw [List.getLast?_eq_getElem?, hm, show m + 3 - 1 = m + 2 by omega] at l2
      rw [List.getD, l2]; rfl
    refine ⟨?_, ?_⟩
    · intro c hc
      rcases List.mem_cons.1 hc with rfl | hc
      · exact l1
      · exact i1 c hc
    · rw [List.map_cons, ← i2, l3, this]

section honest
variable [DecidableEq F]

/-- C37: `copy::create` runs `qesa_inner` on the same system, with the witness `copyWitness`, and the
commitment of that run is the one the verifier computes from the commitments `C_c` and `C_w`. -/
theorem C37_prover {k : Nat} (cx : Ctx G) (tr tr' : Transcript) (tape tape' : Tape F)
    (Gs Hs : List G) (Q : G) (Us : List (Matrix (Fin (k + 1)) (Fin (k + 1)) F)) (w : List F)
    (coms : List (List Nat × List F × F)) (map : Mapping) (Cs : List G) (p : Copy.Proof F)
    (hG : Gs.length = k + 3) (hn : Gs.length < 65536) (hs : coms.length ≤ 65536)
    (hmap : computeMapping Gs.length w.length (coms.map (·.1)) = .ok map)
    (hcom : coms.mapM (fun c => commit Gs c.1 c.2.1 c.2.2) = .ok Cs)
    (h : Copy.create cx tr tape Gs Hs Q map ⟨Us.map rows⟩ w (coms.map (·.2)) =
      .ok (p, tr', tape')) :
    let msgs := (coms.map (·.2.1)).flatten
    let α := copyAlpha F cx.ro tr.log p.C_w
    let v := fun i : Fin (k + 1) => copyWitness w map msgs α i
    let r1 := tape 1 + dot (coms.map (·.2.2)) (List.ofFn (powers α coms.length))
    w[0]? = some 1 ∧ w.length ≤ k + 1 ∧ (∀ s ∈ coms.map (·.1), ∀ i ∈ s, i < k + 1) ∧
    ∃ C_w, p.C_w = cx.compress C_w ∧
      dot (List.ofFn v ++ [tape 0, r1]) Gs = dot (List.ofFn (powers α Cs.length)) Cs + C_w ∧
      Inner.create cx ⟨tr.log ++ [.msg "c_w" p.C_w, .chal "alpha" 64]⟩ (fun i => tape (i + 2)) Gs Hs
        Q ⟨(copySystem Us map α).map rows⟩ (List.ofFn v) [tape 0, r1] =
          .ok (p.inner, tr', tape') := by
  obtain ⟨hlen, hCs⟩ := commits_spec Gs coms Cs k hG hcom
  have hwl : w.length < 65536 := by
    obtain ⟨_, _, _, _, _, _, _, _, -, -, hle, -⟩ := create_steps _ _ _ _ _ _ _ _ _ _ _ _ _ h
    omega
  have hwf := computeMapping_wf hn hwl (by simpa using hs) hmap
  obtain ⟨m, hm, h0, h1, h2, h3, h4, h5⟩ := create_ok cx tr tr' tape tape' Gs Hs Q map ⟨Us.map rows⟩ w
    coms p hwf hlen h
  obtain rfl : m = k := by omega
  refine ⟨h0, h1, fun s hs i hi => h2 i (List.mem_flatten.2 ⟨s, hs, hi⟩), _, h3, ?_, ?_⟩
  · rw [h4, hCs]
    congr 1
    rw [dot, List.zipWith_map_right, List.length_map]
  · simp only [copySystem, List.map_append, List.map_map]
    exact h5

/-! ### C41, C38: the honest prover -/

omit [DecidableEq F] in
/-- C41: for the honest prover the constraint of commitment index `c` has the value `-w'₀ w_c`, where
`w_c` is the entry of the user's own witness at `c` (zero behind its end). It is satisfied only when
the user's witness is zero at `c`. -/
theorem C41_honest_constraint {k : Nat} {n ws : Nat} {sets : List (List Nat)} {map : Mapping}
    (hn : n < 65536) (hws : ws < 65536) (hs : sets.length ≤ 65536)
    (hmap : computeMapping n ws sets = .ok map) (hk : n = k + 3) (w msgs : List F) (α : F) (c : Nat)
    (hc : c < k + 1) (hcs : ∃ s ∈ sets, c ∈ s) :
    quad (copyConstraint k map α c) (fun i => copyWitness w map msgs α i) =
      -(copyWitness w map msgs α 0 * w.getD c 0) := by
  have hwf := computeMapping_wf hn hws hs hmap
  have hp : ∀ m ∈ map.msgs_map, m.position_in_witness < k + 1 := by
    intro m hm
    obtain ⟨-, -, -, -, -, hlt, -⟩ := hwf.mem m hm
    omega
  rw [quad_copyConstraint map α c _ hc hp]
  have hcn : c ∉ map.msgs_map.map (·.position_in_witness) := by
    intro hin
    obtain ⟨m, hm, rfl⟩ := List.mem_map.1 hin
    obtain ⟨-, -, -, -, -, -, hno⟩ := hwf.mem m hm
    obtain ⟨s, h1, h2⟩ := hcs
    exact hno (List.mem_flatten.2 ⟨s, h1, h2⟩)
  have hslot : ∀ i, i < k + 1 →
      slot (fun i : Fin (k + 1) => copyWitness w map msgs α i) i = copyWitness w map msgs α i := by
    intro i hi; simp [slot, hi]
  have : ((map.msgs_map.filter fun m => m.commitment_index == c).map fun m =>
      α ^ (m.commitment_crs_id + 1) *
        slot (fun i : Fin (k + 1) => copyWitness w map msgs α i) m.position_in_witness) =
      (map.msgs_map.filter fun m => m.commitment_index == c).map fun m =>
        α ^ (m.commitment_crs_id + 1) * msgs.getD m.msg_id 0 := by
    apply List.map_congr_left
    intro m hm
    have hm := List.mem_of_mem_filter hm
    rw [hslot _ (hp m hm), copyWitness_pos hwf _ _ _ m hm]
  rw [this, hslot c hc, copyWitness_else _ _ _ _ hcn, Fin.val_zero]
  ring

variable [DecidableEq G]

/-- C38: completeness of the Copy argument. The commitments are made by `commit`, the mapping by
`compute_mapping`, all commitment indices lie outside the user's witness, and the user's equations
hold for the extended witness. -/
theorem C38_copy_completeness {k : Nat} (cx : Ctx G) (tr tr' : Transcript) (tape tape' : Tape F)
    (Gs Hs : List G) (Q : G) (Us : List (Matrix (Fin (k + 1)) (Fin (k + 1)) F)) (w : List F)
    (coms : List (List Nat × List F × F)) (map : Mapping) (Cs : List G) (p : Copy.Proof F)
    (hG : Gs.length = k + 3) (hn : Gs.length < 65536) (hs : coms.length ≤ 65536)
    (hmap : computeMapping Gs.length w.length (coms.map (·.1)) = .ok map)
    (hcom : coms.mapM (fun c => commit Gs c.1 c.2.1 c.2.2) = .ok Cs)
    (hout : ∀ c ∈ coms, ∀ i ∈ c.1, w.length ≤ i)
    (h : Copy.create cx tr tape Gs Hs Q map ⟨Us.map rows⟩ w (coms.map (·.2)) =
      .ok (p, tr', tape'))
    (hU : let α := copyAlpha F cx.ro tr.log p.C_w
      ∀ U ∈ Us, quad U (fun i => copyWitness w map (coms.map (·.2.1)).flatten α i) = 0)
    (hf : let α := copyAlpha F cx.ro tr.log p.C_w
      QesaFine cx (tr.log ++ [.msg "c_w" p.C_w, .chal "alpha" 64]) (fun i => tape (i + 2)) Gs Hs Q
        (fun i => (copySystem Us map α).get i)
        (fun i : Fin (k + 1) => copyWitness w map (coms.map (·.2.1)).flatten α i) (tape 0)
        (tape 1 + dot (coms.map (·.2.2)) (List.ofFn (powers α coms.length))) p.inner) :
    p.verify cx tr Gs Hs Q ⟨Us.map rows⟩ map Cs = .ok (true, tr') := by
  obtain ⟨h0, hwk, hi, C_w, hCw, hdot, hin⟩ := C37_prover cx tr tr' tape tape' Gs Hs Q Us w coms map Cs
    p hG hn hs hmap hcom h
  have hwl : w.length < 65536 := by omega
  have hwf := computeMapping_wf hn hwl (by simpa using hs) hmap
  have hCl : Cs.length = coms.length := (mapM_eq_ok.1 hcom).length_eq.symm
  have hv := C37_verifier cx p tr Gs Hs Q Us (coms.map (·.1)) map Cs C_w hG hn hwl (by simpa using hs)
    hmap hi (by simpa using hCl) (by rw [hCw, cx.decompress_compress])
  simp only at hv hdot hin hU hf
  rw [hv, ← hdot]
  generalize hα : copyAlpha F cx.ro tr.log p.C_w = α at *
  have hne : (copySystem Us map α).length ≠ 0 := by
    intro h0
    have h1 := List.length_eq_zero_iff.1 h0
    unfold copySystem at h1
    obtain ⟨-, h2⟩ := List.append_eq_nil_iff.1 h1
    rw [List.map_eq_nil_iff, hwf.uniq] at h2
    obtain ⟨free, -, -, -, -, f5⟩ := hwf.free
    have hpos := hwf.pos
    have hl : 0 < map.msgs_map.length := by rw [hwf.length]; exact hpos
    obtain ⟨-, -, hci, -⟩ := hwf.mem _ (List.getElem_mem hl)
    rw [← mem_setCollect, h2] at hci
    simp at hci
  have hw0 : copyWitness w map (coms.map (·.2.1)).flatten α 0 = 1 := by
    have hw : 0 < w.length := (List.getElem?_eq_some_iff.1 h0).1
    rw [copyWitness_else]
    · rw [List.filter_eq_nil_iff.2]
      · simp [List.getD, h0]
      · intro m hm
        obtain ⟨-, -, hci, -⟩ := hwf.mem m hm
        obtain ⟨s, hs, hci⟩ := List.mem_flatten.1 hci
        obtain ⟨c, hc, rfl⟩ := List.mem_map.1 hs
        have := hout c hc _ hci
        simp only [beq_iff_eq]; omega
    · intro hin
      obtain ⟨m, hm, he⟩ := List.mem_map.1 hin
      obtain ⟨-, -, -, -, hle, -⟩ := hwf.mem m hm
      omega
  obtain ⟨l, hl⟩ := Nat.exists_eq_succ_of_ne_zero hne
  -- the system as a family indexed by `Fin (l + 1)`
  have key : ∀ (L : List (Matrix (Fin (k + 1)) (Fin (k + 1)) F)) (l : Nat) (hl : L.length = l + 1)
      (hq : ∀ A ∈ L, quad A (fun i => copyWitness w map (coms.map (·.2.1)).flatten α i) = 0)
      (hf : QesaFine cx (tr.log ++ [.msg "c_w" p.C_w, .chal "alpha" 64]) (fun i => tape (i + 2)) Gs Hs Q
        (fun i => L.get i)
        (fun i : Fin (k + 1) => copyWitness w map (coms.map (·.2.1)).flatten α i) (tape 0)
        (tape 1 + dot (coms.map (·.2.2)) (List.ofFn (powers α coms.length))) p.inner)
      (hin : Inner.create cx ⟨tr.log ++ [.msg "c_w" p.C_w, .chal "alpha" 64]⟩ (fun i => tape (i + 2)) Gs
        Hs Q ⟨L.map rows⟩
        (List.ofFn fun i : Fin (k + 1) => copyWitness w map (coms.map (·.2.1)).flatten α i)
        [tape 0, tape 1 + dot (coms.map (·.2.2)) (List.ofFn (powers α coms.length))] =
          .ok (p.inner, tr', tape')),
      p.inner.verify cx ⟨tr.log ++ [.msg "c_w" p.C_w, .chal "alpha" 64]⟩ Gs Hs Q ⟨L.map rows⟩ =
          .ok (true, tr') ∧
        p.inner.c_prime_w = cx.compress (dot ((List.ofFn fun i : Fin (k + 1) =>
          copyWitness w map (coms.map (·.2.1)).flatten α i) ++
          [tape 0, tape 1 + dot (coms.map (·.2.2)) (List.ofFn (powers α coms.length))]) Gs) := by
    intro L l hl hq hf hin
    have hr : L.map rows = List.ofFn fun i : Fin (l + 1) => rows (L.get (Fin.cast hl.symm i)) := by
      rw [map_rows_eq]
      apply List.ext_getElem
      · simp [hl]
      · intro i h1 h2
        rw [List.getElem_ofFn, List.getElem_ofFn]; rfl
    rw [hr] at hin ⊢
    have hf' : QesaFine cx (tr.log ++ [.msg "c_w" p.C_w, .chal "alpha" 64]) (fun i => tape (i + 2)) Gs Hs Q
        (fun i : Fin (l + 1) => L.get (Fin.cast hl.symm i))
        (fun i : Fin (k + 1) => copyWitness w map (coms.map (·.2.1)).flatten α i) (tape 0)
        (tape 1 + dot (coms.map (·.2.2)) (List.ofFn (powers α coms.length))) p.inner := by
      have : ∀ n, ∀ h : L.length = n, QesaFine cx (tr.log ++ [.msg "c_w" p.C_w, .chal "alpha" 64])
          (fun i => tape (i + 2)) Gs Hs Q (fun i : Fin n => L.get (Fin.cast h.symm i))
          (fun i : Fin (k + 1) => copyWitness w map (coms.map (·.2.1)).flatten α i) (tape 0)
          (tape 1 + dot (coms.map (·.2.2)) (List.ofFn (powers α coms.length))) p.inner := by
        intro n hn; subst hn; exact hf
      exact this _ hl
    refine ⟨C26_inner_completeness cx _ tr' _ tape' Gs Hs Q _ _ _ _ p.inner hin (by omega) ?_ ?_ hf', ?_⟩
    · exact hw0
    · intro i
      exact hq _ (List.getElem_mem _)
    · exact (C28_prover_value _ _ _ _ _ _ _ _ _ _ _ _ _ hin).1
  obtain ⟨k1, k2⟩ := key (copySystem Us map α) l hl (by
    intro A hA
    unfold copySystem at hA
    rcases List.mem_append.1 hA with hA | hA
    · exact hU A hA
    · obtain ⟨c, hc, rfl⟩ := List.mem_map.1 hA
      rw [hwf.uniq, mem_setCollect] at hc
      obtain ⟨s, hs', hcs⟩ := List.mem_flatten.1 hc
      rw [C41_honest_constraint hn hwl (by simpa using hs) hmap hG w _ α c (hi s hs' c hcs)
        ⟨s, hs', hcs⟩]
      obtain ⟨c', hc', rfl⟩ := List.mem_map.1 hs'
      have := hout c' hc' c hcs
      rw [List.getD, List.getElem?_eq_none this]
      simp) hf hin
  rw [← k2]
  exact k1

end honest

/-- C38: equations that have no coefficient in the rows and columns of the commitment indices do not
depend on the challenge, so that they can be checked before the proof is made. -/
theorem C38_untouched {k n ws : Nat} {sets : List (List Nat)} {map : Mapping}
    (hn : n < 65536) (hws : ws < 65536) (hs : sets.length ≤ 65536)
    (hmap : computeMapping n ws sets = .ok map) (w msgs : List F) (α : F)
    (U : Matrix (Fin (k + 1)) (Fin (k + 1)) F)
    (hU : ∀ i j : Fin (k + 1), (∃ s ∈ sets, i.val ∈ s ∨ j.val ∈ s) → U i j = 0) :
    quad U (fun i => copyWitness w map msgs α i) = quad U (fun i => copyWitness w map msgs 0 i) := by
  have hwf := computeMapping_wf hn hws hs hmap
  have key : ∀ i, (∀ s ∈ sets, i ∉ s) → ∀ β : F, copyWitness w map msgs β i =
      copyWitness w map msgs 0 i := by
    intro i hi β
    unfold copyWitness
    split
    · rfl
    · have : (map.msgs_map.filter fun m => m.commitment_index == i) = [] := by
        rw [List.filter_eq_nil_iff]
        intro m hm
        obtain ⟨-, -, hci, -⟩ := hwf.mem m hm
        obtain ⟨s, hs, hci⟩ := List.mem_flatten.1 hci
        simp only [beq_iff_eq]
        rintro rfl
        exact hi s hs hci
      rw [this]; rfl
  unfold quad
  refine Finset.sum_congr rfl fun i _ => Finset.sum_congr rfl fun j _ => ?_
  by_cases h : ∃ s ∈ sets, i.val ∈ s ∨ j.val ∈ s
  · rw [hU i j h]; simp
  · push Not at h
    simp only
    rw [key i (fun s hs => (h s hs).1), key j (fun s hs => (h s hs).2)]

/-! ### C39: the constraints force equality -/

/-- Two messages committed at the same index are in different commitments. -/
theorem crs_injective {n ws : Nat} {sets : List (List Nat)} {map : Mapping} (hn : n < 65536)
    (hws : ws < 65536) (hs : sets.length ≤ 65536) (hmap : computeMapping n ws sets = .ok map)
    (hsets : ∀ s ∈ sets, s.Pairwise (· < ·)) (m m' : MessageMap) (hm : m ∈ map.msgs_map)
    (hm' : m' ∈ map.msgs_map) (h1 : m.commitment_index = m'.commitment_index)
    (h2 : m.commitment_crs_id = m'.commitment_crs_id) : m = m' := by
  obtain ⟨-, hl, hget, -⟩ := C34_mapping hn hws hs hmap
  -- every message is message `j` of set `c` for some `c` and `j`
  have hall : ∀ (sets : List (List Nat)) (N : Nat), N < (sets.map List.length).sum →
      ∃ c j, ∃ (hc : c < sets.length) (_ : j < sets[c].length),
        N = ((sets.take c).map List.length).sum + j := by
    intro sets
    induction sets with
    | nil => intro N h; simp at h
    | cons s ss ih =>
      intro N h
      rw [List.map_cons, List.sum_cons] at h
      by_cases hN : N < s.length
      · exact ⟨0, N, by simp, by simpa using hN, by simp⟩
      · obtain ⟨c, j, hc, hj, he⟩ := ih (N - s.length) (by omega)
        refine ⟨c + 1, j, by simpa using hc, by simpa using hj, ?_⟩
        rw [List.take_succ_cons, List.map_cons, List.sum_cons]
        omega
  have hdesc : ∀ m ∈ map.msgs_map, ∃ c j, ∃ (hc : c < sets.length) (hj : j < sets[c].length),
      m.commitment_index = sets[c][j] ∧ m.commitment_crs_id = c ∧
      map.msgs_map[((sets.take c).map List.length).sum + j]? = some m := by
    intro m hm
    obtain ⟨N, hN, rfl⟩ := List.getElem_of_mem hm
    obtain ⟨c, j, hc, hj, he⟩ := hall sets N (by rw [← hl]; exact hN)
    obtain ⟨p, hp, -⟩ := hget c j hc hj
    subst he
    have hp' := hp
    rw [List.getElem?_eq_getElem hN] at hp
    rw [Option.some.inj hp]
    exact ⟨c, j, hc, hj, rfl, rfl, hp'⟩
  obtain ⟨c, j, hc, hj, e1, e2, e3⟩ := hdesc m hm
  obtain ⟨c', j', hc', hj', e1', e2', e3'⟩ := hdesc m' hm'
  obtain rfl : c = c' := by rw [← e2, h2, e2']
  have hj : j = j' := by
    have hp := hsets _ (List.getElem_mem hc)
    have hnd : sets[c].Nodup := hp.imp fun h => Nat.ne_of_lt h
    exact (hnd.getElem_inj_iff).1 (by rw [← e1, ← e1', h1])
  subst hj
  rw [e3] at e3'
  exact Option.some.inj e3'

/-- C39: let `v₀` be the vector committed in `C_w`, and let the commitments contain `msgs`. If for more
challenges than there are commitments the aggregated vector `v₀ + ∑ αᶜ⁺¹ (messages of commitment c)`
has first component one and satisfies the constraints, then every message slot of `v₀` holds the
message that was committed, and `v₀` is zero at the commitment indices. -/
theorem C39_copy_equality {k n ws : Nat} {sets : List (List Nat)} {map : Mapping} (hn : n < 65536)
    (hws : ws < 65536) (hs : sets.length ≤ 65536) (hmap : computeMapping n ws sets = .ok map)
    (hk : n = k + 3) (hsets : ∀ s ∈ sets, s.Pairwise (· < ·)) (hi : ∀ s ∈ sets, ∀ i ∈ s, i < k + 1)
    (msgs : List F) (v0 : Fin (k + 1) → F) (S : Finset F) (hS : sets.length < S.card)
    (h : ∀ α ∈ S, ∀ v : Fin (k + 1) → F,
      (∀ i, v i = v0 i + ((map.msgs_map.filter fun m => m.commitment_index == i.val).map fun m =>
        α ^ (m.commitment_crs_id + 1) * msgs.getD m.msg_id 0).sum) →
      v 0 = 1 ∧ ∀ c ∈ map.unique_commitment_indices, quad (copyConstraint k map α c) v = 0) :
    ∀ m ∈ map.msgs_map, slot v0 m.position_in_witness = msgs.getD m.msg_id 0 ∧
      slot v0 m.commitment_index = 0 := by
  have hwf := computeMapping_wf hn hws hs hmap
  have hpos : ∀ m ∈ map.msgs_map, m.position_in_witness < k + 1 := by
    intro m hm
    obtain ⟨-, -, -, -, -, hlt, -⟩ := hwf.mem m hm
    omega
  intro m hm
  obtain ⟨-, -, hci, hcrs, -⟩ := hwf.mem m hm
  set c := m.commitment_index with hc
  have hcu : c ∈ map.unique_commitment_indices := by rw [hwf.uniq, mem_setCollect]; exact hci
  have hck : c < k + 1 := by
    obtain ⟨s, h1, h2⟩ := List.mem_flatten.1 hci
    exact hi s h1 c h2
  set L := map.msgs_map.filter fun m => m.commitment_index == c with hL
  -- the messages at `c` as a finite set
  let d : MessageMap → F := fun m => msgs.getD m.msg_id 0 - slot v0 m.position_in_witness
  let P : Polynomial F := Polynomial.C (slot v0 c) +
    (L.map fun m => Polynomial.C (d m) * Polynomial.X ^ (m.commitment_crs_id + 1)).sum
  have hdeg : P.natDegree ≤ sets.length := by
    refine (Polynomial.natDegree_add_le _ _).trans (max_le (by simp) ?_)
    have : ∀ l : List MessageMap, (∀ m ∈ l, m.commitment_crs_id < sets.length) →
        ((l.map fun m => Polynomial.C (d m) *
          Polynomial.X ^ (m.commitment_crs_id + 1)).sum).natDegree ≤ sets.length := by
      intro l
      induction l with
      | nil => simp
      | cons a l ih =>
        intro hl
        rw [List.map_cons, List.sum_cons]
        refine (Polynomial.natDegree_add_le _ _).trans (max_le ?_ (ih fun m hm =>
          hl m (List.mem_cons_of_mem _ hm)))
        have := hl a List.mem_cons_self
        exact (Polynomial.natDegree_C_mul_X_pow_le _ _).trans (by omega)
    refine this L fun m hm => ?_
    obtain ⟨-, -, -, h', -⟩ := hwf.mem m (List.mem_of_mem_filter hm)
    exact h'
  have heval : ∀ α ∈ S, P.eval α = 0 := by
    intro α hα
    obtain ⟨h0, hq⟩ := h α hα _ fun _ => rfl
    have hq := (C37_meaning map α c _ hck hpos h0).1 (hq c hcu)
    have e1 : ∀ m ∈ map.msgs_map, (map.msgs_map.filter fun m' =>
        m'.commitment_index == m.position_in_witness) = [] := by
      intro m hm
      obtain ⟨-, -, -, -, -, -, hno⟩ := hwf.mem m hm
      rw [List.filter_eq_nil_iff]
      intro m' hm' he
      obtain ⟨-, -, hin, -⟩ := hwf.mem m' hm'
      rw [beq_iff_eq] at he
      rw [he] at hin
      exact hno hin
    have e2 : ∀ m ∈ L, α ^ (m.commitment_crs_id + 1) * slot (fun i : Fin (k + 1) => v0 i +
        ((map.msgs_map.filter fun m => m.commitment_index == i.val).map fun m =>
        α ^ (m.commitment_crs_id + 1) * msgs.getD m.msg_id 0).sum) m.position_in_witness =
        α ^ (m.commitment_crs_id + 1) * slot v0 m.position_in_witness := by
      intro m hm
      have hm := List.mem_of_mem_filter hm
      simp only [slot, hpos m hm, dif_pos, e1 m hm]
      simp
    rw [List.map_congr_left e2] at hq
    have e3 : slot (fun i : Fin (k + 1) => v0 i +
        ((map.msgs_map.filter fun m => m.commitment_index == i.val).map fun m =>
        α ^ (m.commitment_crs_id + 1) * msgs.getD m.msg_id 0).sum) c = slot v0 c + (L.map fun m =>
        α ^ (m.commitment_crs_id + 1) * msgs.getD m.msg_id 0).sum := by
      simp only [slot, hck, dif_pos, hL]
    rw [e3] at hq
    have e4 : P.eval α = slot v0 c + ((L.map fun m =>
        α ^ (m.commitment_crs_id + 1) * msgs.getD m.msg_id 0).sum - (L.map fun m =>
        α ^ (m.commitment_crs_id + 1) * slot v0 m.position_in_witness).sum) := by
      simp only [P, Polynomial.eval_add, Polynomial.eval_C]
      congr 1
      clear_value L
      clear hq e2 e3 hL hdeg P
      induction L with
      | nil => simp
      | cons a l ih =>
        simp only [List.map_cons, List.sum_cons, Polynomial.eval_add, ih]
        simp only [Polynomial.eval_mul, Polynomial.eval_C, Polynomial.eval_pow, Polynomial.eval_X, d]
        ring
    rw [e4, ← add_sub_assoc, hq, sub_self]
  have hP : P = 0 := by
    classical
    by_contra hne
    have h1 : S ⊆ P.roots.toFinset := by
      intro α hα
      rw [Multiset.mem_toFinset, Polynomial.mem_roots hne]
      exact heval α hα
    have h2 := Finset.card_le_card h1
    have h3 := (Multiset.toFinset_card_le P.roots).trans (P.card_roots'.trans hdeg)
    omega
  have hcoef : ∀ N, (L.map fun m => (Polynomial.C (d m) *
      Polynomial.X ^ (m.commitment_crs_id + 1) : Polynomial F)).sum.coeff N =
      (L.map fun m => if N = m.commitment_crs_id + 1 then d m else 0).sum := by
    intro N
    generalize L = l
    induction l with
    | nil => simp
    | cons a l ih =>
      simp only [List.map_cons, List.sum_cons, Polynomial.coeff_add, ih, Polynomial.coeff_C_mul_X_pow]
  constructor
  · have h1 : P.coeff (m.commitment_crs_id + 1) = 0 := by rw [hP]; simp
    simp only [P, Polynomial.coeff_add, Polynomial.coeff_C_succ, zero_add, hcoef] at h1
    have hmL : m ∈ L := List.mem_filter.2 ⟨hm, by simp [hc]⟩
    have hnd : L.Nodup := by
      have : map.msgs_map.Nodup := hwf.nodup.of_map _
      exact this.filter _
    have h2 : ∀ l : List MessageMap, l.Nodup → (∀ a ∈ l, a ∈ L) →
        (l.map fun a => if m.commitment_crs_id + 1 = a.commitment_crs_id + 1 then d a else 0).sum =
          if m ∈ l then d m else 0 := by
      intro l
      induction l with
      | nil => simp
      | cons a l ih =>
        intro hnd' hl
        rw [List.map_cons, List.sum_cons, ih hnd'.of_cons fun b hb => hl b (List.mem_cons_of_mem _ hb)]
        by_cases ha : a = m
        · subst ha
          have : a ∉ l := (List.nodup_cons.1 hnd').1
          simp [this]
        · have haL := hl a List.mem_cons_self
          have : m.commitment_crs_id ≠ a.commitment_crs_id := by
            intro he
            apply ha
            have h5 := List.mem_filter.1 haL
            exact crs_injective hn hws hs hmap hsets a m h5.1 hm (by simpa using h5.2) he.symm
          rw [if_neg (by omega), zero_add]
          simp [List.mem_cons, Ne.symm ha]
    rw [h2 L hnd fun _ h => h, if_pos hmL, sub_eq_zero] at h1
    exact h1.symm
  · have h1 : P.coeff 0 = 0 := by rw [hP]; simp
    simp only [P, Polynomial.coeff_add, Polynomial.coeff_C_zero, hcoef] at h1
    have : (L.map fun m => if 0 = m.commitment_crs_id + 1 then d m else 0).sum = 0 := by
      apply List.sum_eq_zero
      intro x hx
      obtain ⟨a, -, rfl⟩ := List.mem_map.1 hx
      simp
    rwa [this, add_zero] at h1

/-! ### C40: forged Copy proofs -/

section forgery
variable [DecidableEq G]

/-- A forger for Copy: it knows no witness and no opening of the commitments `Cs`. -/
def forgeCopy {k : Nat} (cx : Ctx G) (tr : Transcript) (Gs Hs : List G) (Q : G)
    (Us : List (Matrix (Fin (k + 1)) (Fin (k + 1)) F)) (map : Mapping) (Cs : List G) (C_w : G) :
    R (Copy.Proof F × Transcript) := do
  let c_w := cx.compress C_w
  let α := copyAlpha F cx.ro tr.log c_w
  let (p, tr) ← forge cx ⟨tr.log ++ [.msg "c_w" c_w, .chal "alpha" 64]⟩ Gs Hs Q
    (fun i => (copySystem Us map α).get i) (dot (List.ofFn (powers α Cs.length)) Cs + C_w)
  return (⟨c_w, p.inner⟩, tr)

omit [DecidableEq G] in
theorem forge_commitment {m k : Nat} (cx : Ctx G) (tr tr' : Transcript) (Gs Hs : List G) (Q : G)
    (Ms : Fin k → Matrix (Fin m) (Fin m) F) (C' : G) (p : Zk.Proof F)
    (h : forge cx tr Gs Hs Q Ms C' = .ok (p, tr')) : p.inner.c_prime_w = cx.compress C' := by
  unfold forge at h
  obtain ⟨r, -, h⟩ := bind_eq_ok.1 h
  cases h; rfl

/-- C40, finding: Copy is not sound. For every system of equations, every mapping and *every* list of
commitments -- whether or not anyone can open them -- the forger returns a proof, and `Copy::verify`
accepts it unless the challenge `alpha` of the inner argument happens to be zero. -/
theorem C40_copy_forgery {k ws q : Nat} (hq : k + 3 = 2 ^ q) (cx : Ctx G) (tr : Transcript)
    (Gs Hs : List G) (Q : G) (Us : List (Matrix (Fin (k + 1)) (Fin (k + 1)) F))
    (sets : List (List Nat)) (map : Mapping) (Cs : List G) (C_w : G) (hG : Gs.length = k + 3)
    (hH : Hs.length = k + 3) (hn : Gs.length < 65536) (hws : ws < 65536) (hs : sets.length ≤ 65536)
    (hmap : computeMapping Gs.length ws sets = .ok map)
    (hi : ∀ s ∈ sets, ∀ i ∈ s, i < k + 1) (hC : Cs.length = sets.length) :
    ∃ p tr', forgeCopy cx tr Gs Hs Q Us map Cs C_w = .ok (p, tr') ∧ p.C_w = cx.compress C_w ∧
      let α := copyAlpha F cx.ro tr.log p.C_w
      let log := tr.log ++ [.msg "c_w" p.C_w, .chal "alpha" 64]
      let c' := p.inner.c_prime_w
      let c'' := p.inner.c_prime_prime_w
      let x := qesaX F cx.ro log c'
      let s := qesaS F cx.ro log c' c''
      let b := qesaB F cx.ro log c' c''
      let u := (challengeVector s b (k + 1)).map fun y => -y
      let v := challengeImage (batched (k + 3) (fun i => (copySystem Us map α).get i) x) s b
      let C := dot u (rescaled (x ^ 2) Gs) + dot v Hs
      (almAlpha cx (log ++ qesaHead c' c'' (cx.compress C)) Q C 0 (dot u v) (k + 3) ≠ 0 →
      p.verify cx tr Gs Hs Q ⟨Us.map rows⟩ map Cs = .ok (true, tr')) := by
  have hwf := computeMapping_wf hn hws hs hmap
  have hv := fun p : Copy.Proof F => C37_verifier cx p tr Gs Hs Q Us sets map Cs C_w hG hn hws hs hmap
    hi hC
  have h64 : q < 64 := by
    by_contra h
    have : 2 ^ 64 ≤ 2 ^ q := Nat.pow_le_pow_right (by decide) (by omega)
    omega
  unfold forgeCopy
  simp only at hv ⊢
  set α := copyAlpha F cx.ro tr.log (cx.compress C_w) with hα
  have hne : (copySystem Us map α) ≠ [] := by
    intro h1
    unfold copySystem at h1
    obtain ⟨-, h2⟩ := List.append_eq_nil_iff.1 h1
    rw [List.map_eq_nil_iff, hwf.uniq] at h2
    have hpos := hwf.pos
    have hl : 0 < map.msgs_map.length := by rw [hwf.length]; exact hpos
    obtain ⟨-, -, hci, -⟩ := hwf.mem _ (List.getElem_mem hl)
    rw [← mem_setCollect, h2] at hci
    simp at hci
  set C' := dot (List.ofFn (powers α Cs.length)) Cs + C_w with hC'
  set tr0 : Transcript := ⟨tr.log ++ [.msg "c_w" (cx.compress C_w), .chal "alpha" 64]⟩ with htr0
  have hN : (copySystem Us map α).length ≠ 0 := fun h => hne (List.length_eq_zero_iff.1 h)
  have hforge : ∀ (N : Nat) (_ : N ≠ 0) (Ms : Fin N → Matrix (Fin (k + 1)) (Fin (k + 1)) F),
      ∃ p tr', forge cx tr0 Gs Hs Q Ms C' = .ok (p, tr') ∧
      let x := qesaX F cx.ro tr0.log p.inner.c_prime_w
      let s := qesaS F cx.ro tr0.log p.inner.c_prime_w p.inner.c_prime_prime_w
      let b := qesaB F cx.ro tr0.log p.inner.c_prime_w p.inner.c_prime_prime_w
      let u := (challengeVector s b (k + 1)).map fun y => -y
      let v := challengeImage (batched (k + 3) Ms x) s b
      let C_w := dot u (rescaled (x ^ 2) Gs) + dot v Hs
      (almAlpha cx (tr0.log ++ qesaHead p.inner.c_prime_w p.inner.c_prime_prime_w (cx.compress C_w)) Q
        C_w 0 (dot u v) (k + 3) ≠ 0 →
      p.verify cx tr0 Gs Hs Q ⟨List.ofFn fun i => rows (Ms i)⟩ = .ok (true, tr')) := by
    intro N hN Ms
    obtain ⟨N, rfl⟩ := Nat.exists_eq_succ_of_ne_zero hN
    exact C29_qesa_forgery (by omega) hq h64 cx tr0 Gs Hs Q hG hH Ms C'
  obtain ⟨p, tr', hp, hacc⟩ := hforge _ hN fun i => (copySystem Us map α).get i
  refine ⟨⟨cx.compress C_w, p.inner⟩, tr', by rw [hp, ok_bind]; rfl, rfl, ?_⟩
  simp only
  intro h
  have hacc := hacc h
  rw [hv ⟨cx.compress C_w, p.inner⟩ (by rw [cx.decompress_compress])]
  simp only [← hα]
  rw [← hC', ← forge_commitment cx _ _ Gs Hs Q _ C' p hp, map_rows_eq]
  exact hacc

end forgery

/-! ### C41: commitment index zero -/

/-- C41: `compute_mapping` accepts the commitment index 0, the slot of the constant one. -/
theorem C41_zero_accepted (n ws : Nat) (hn : n < 65536) (hws : ws + 3 ≤ n) (h1 : 1 ≤ ws) :
    computeMapping n ws [[0]] = .ok ⟨1, [⟨0, 0, 0, ws⟩], [0], ws⟩ := by
  rw [computeMapping_eq]
  simp only [Nat.mod_eq_of_lt hn, Nat.mod_eq_of_lt (show ws < 65536 by omega)]
  have e : slots n ws (setCollect ([[0]] : List (List Nat)).flatten) =
      ws :: slots n (ws + 1) [0] := by
    unfold slots
    rw [show n - 2 - ws = (n - 2 - (ws + 1)) + 1 by omega, List.range'_succ]
    rw [List.filter_cons_of_pos]
    · rfl
    · have : ws ≠ 0 := by omega
      simp [setCollect, setInsert, this]
  rw [if_neg (by omega), e]
  simp [messages, setCollect, setInsert, asU16, crsIds]

/-- C41: if 0 is among the commitment indices, the vector of the honest prover either violates the
constraint of index 0 or has first component zero instead of one. -/
theorem C41_zero_unsatisfied {k n ws : Nat} {sets : List (List Nat)} {map : Mapping}
    (hn : n < 65536) (hws : ws < 65536) (hs : sets.length ≤ 65536)
    (hmap : computeMapping n ws sets = .ok map) (hk : n = k + 3) (w msgs : List F) (α : F)
    (hw : w[0]? = some 1) (h0 : ∃ s ∈ sets, 0 ∈ s) :
    quad (copyConstraint k map α 0) (fun i => copyWitness w map msgs α i) ≠ 0 ∨
      copyWitness w map msgs α 0 = 0 := by
  rw [C41_honest_constraint hn hws hs hmap hk w msgs α 0 (by omega) h0]
  have : w.getD 0 0 = 1 := by simp [List.getD, hw]
  rw [this, mul_one]
  by_cases h : copyWitness w map msgs α 0 = 0
  · exact Or.inr h
  · left; simpa using h

/-! ### C57, C58: transcripts and panics -/

/-- What `qesa_inner` appends to the transcript. -/
def qesaLog (cx : Ctx G) (c' : Comp) (p : Inner.Proof F) (n : Nat) (C_w P : G) : List Event :=
  [.msg "c_prime_w" c', .chal "x" 64, .msg "c_prime_prime_w" p.c_prime_prime_w, .chal "s" 64,
    .chal "b" 64, .msg "c_w" (cx.compress C_w), .msg "C_r" p.alm_zk.C_r, .chal "beta" 64,
    .msg "P" (cx.compress P), .msg "n" (u64le n), .chal "alpha" 64] ++
  (List.zip p.alm_zk.NoZK.L_vec p.alm_zk.NoZK.R_vec).flatMap
    (fun LR => [.msg "L" LR.1, .msg "R" LR.2, .chal "x_i" 64])

theorem copySystem_ne_nil {k n ws : Nat} {sets : List (List Nat)} {map : Mapping}
    (hwf : WF n ws sets map) (Us : List (Matrix (Fin (k + 1)) (Fin (k + 1)) F)) (α : F) :
    (copySystem Us map α).length ≠ 0 := by
  intro h0
  have h1 := List.length_eq_zero_iff.1 h0
  unfold copySystem at h1
  obtain ⟨-, h2⟩ := List.append_eq_nil_iff.1 h1
  rw [List.map_eq_nil_iff, hwf.uniq] at h2
  have hpos := hwf.pos
  have hl : 0 < map.msgs_map.length := by rw [hwf.length]; exact hpos
  obtain ⟨-, -, hci, -⟩ := hwf.mem _ (List.getElem_mem hl)
  rw [← mem_setCollect, h2] at hci
  simp at hci

/-- C57: everything `Copy::verify` does to the transcript, for every proof and verdict. The proof's
own `c_prime_w` is not looked at; the commitment computed from the statement is absorbed. -/
theorem C57_copy_verify_log [DecidableEq G] {k ws : Nat} (cx : Ctx G) (p : Copy.Proof F)
    (tr tr' : Transcript) (Gs Hs : List G) (Q : G)
    (Us : List (Matrix (Fin (k + 1)) (Fin (k + 1)) F)) (sets : List (List Nat)) (map : Mapping)
    (Cs : List G) (C_w : G) (v : Bool) (hG : Gs.length = k + 3)
    (hn : Gs.length < 65536) (hws : ws < 65536) (hs : sets.length ≤ 65536)
    (hmap : computeMapping Gs.length ws sets = .ok map)
    (hi : ∀ s ∈ sets, ∀ i ∈ s, i < k + 1) (hC : Cs.length = sets.length)
    (hCw : cx.decompress p.C_w = some C_w)
    (h : p.verify cx tr Gs Hs Q ⟨Us.map rows⟩ map Cs = .ok (v, tr')) :
    let α := copyAlpha F cx.ro tr.log p.C_w
    let C' := dot (List.ofFn (powers α Cs.length)) Cs + C_w
    ∃ C P : G, tr'.log = tr.log ++ [.msg "c_w" p.C_w, .chal "alpha" 64] ++
      qesaLog cx (cx.compress C') p.inner Hs.length C P := by
  have hwf := computeMapping_wf hn hws hs hmap
  rw [C37_verifier cx p tr Gs Hs Q Us sets map Cs C_w hG hn hws hs hmap hi hC hCw] at h
  simp only at h ⊢
  generalize copyAlpha F cx.ro tr.log p.C_w = α at *
  have hN := copySystem_ne_nil hwf Us α
  rw [map_rows_eq] at h
  have key : ∀ (N : Nat) (_ : N ≠ 0) (Ms : Fin N → Matrix (Fin (k + 1)) (Fin (k + 1)) F)
      (q : Inner.Proof F) (tr : Transcript),
      q.verify cx tr Gs Hs Q ⟨List.ofFn fun i => rows (Ms i)⟩ = .ok (v, tr') →
      ∃ C P : G, tr'.log = tr.log ++ qesaLog cx q.c_prime_w q Hs.length C P := by
    intro N hN Ms q tr h
    obtain ⟨N, rfl⟩ := Nat.exists_eq_succ_of_ne_zero hN
    obtain ⟨C, P, h⟩ := C56_verify_log cx ⟨q⟩ tr tr' Gs Hs Q Ms v h
    exact ⟨C, P, by rw [h, qesaLog]; simp⟩
  obtain ⟨C, P, h⟩ := key _ hN _ _ _ h
  exact ⟨C, P, h⟩

/-- C57: everything `copy::create` does to the transcript. -/
theorem C57_copy_create_log [DecidableEq F] {k : Nat} (cx : Ctx G) (tr tr' : Transcript)
    (tape tape' : Tape F) (Gs Hs : List G) (Q : G)
    (Us : List (Matrix (Fin (k + 1)) (Fin (k + 1)) F)) (w : List F)
    (coms : List (List Nat × List F × F)) (map : Mapping) (Cs : List G) (p : Copy.Proof F)
    (hG : Gs.length = k + 3) (hn : Gs.length < 65536) (hs : coms.length ≤ 65536)
    (hmap : computeMapping Gs.length w.length (coms.map (·.1)) = .ok map)
    (hcom : coms.mapM (fun c => commit Gs c.1 c.2.1 c.2.2) = .ok Cs)
    (h : Copy.create cx tr tape Gs Hs Q map ⟨Us.map rows⟩ w (coms.map (·.2)) =
      .ok (p, tr', tape')) :
    ∃ C P : G, tr'.log = tr.log ++ [.msg "c_w" p.C_w, .chal "alpha" 64] ++
      qesaLog cx p.inner.c_prime_w p.inner Gs.length C P := by
  obtain ⟨h0, hwk, hi, C_w, hCw, hdot, hin⟩ := C37_prover cx tr tr' tape tape' Gs Hs Q Us w coms map Cs
    p hG hn hs hmap hcom h
  have hwf := computeMapping_wf hn (show w.length < 65536 by omega) (by simpa using hs) hmap
  generalize copyAlpha F cx.ro tr.log p.C_w = α at *
  have hN := copySystem_ne_nil hwf Us α
  rw [map_rows_eq] at hin
  have key : ∀ (N : Nat) (_ : N ≠ 0) (Ms : Fin N → Matrix (Fin (k + 1)) (Fin (k + 1)) F)
      (q : Inner.Proof F) (tr : Transcript) (tape : Tape F) (w : Fin (k + 1) → F) (r0 r1 : F),
      Inner.create cx tr tape Gs Hs Q ⟨List.ofFn fun i => rows (Ms i)⟩ (List.ofFn w) [r0, r1] =
        .ok (q, tr', tape') →
      ∃ C P : G, tr'.log = tr.log ++ qesaLog cx q.c_prime_w q Gs.length C P := by
    intro N hN Ms q tr tape w r0 r1 h
    obtain ⟨N, rfl⟩ := Nat.exists_eq_succ_of_ne_zero hN
    have h2 : Zk.create cx tr (fun i => if i = 0 then r0 else if i = 1 then r1 else tape (i - 2)) Gs Hs
        Q ⟨List.ofFn fun i => rows (Ms i)⟩ (List.ofFn w) = .ok (⟨q⟩, tr', tape') := by
      generalize (⟨List.ofFn fun i => rows (Ms i)⟩ : BlockMatrix F) = B at h ⊢
      generalize List.ofFn w = W at h ⊢
      have : Zk.create cx tr (fun i => if i = 0 then r0 else if i = 1 then r1 else tape (i - 2)) Gs Hs Q
          B W = Inner.create cx tr tape Gs Hs Q B W [r0, r1] >>= fun r => pure (⟨r.1⟩, r.2.1, r.2.2) :=
        rfl
      rw [this, h, ok_bind]
      rfl
    obtain ⟨C, P, h⟩ := C56_create_log cx tr tr' _ tape' Gs Hs Q Ms w ⟨q⟩ h2
    exact ⟨C, P, by rw [h, qesaLog]; simp⟩
  obtain ⟨C, P, h⟩ := key _ hN _ _ _ _ _ _ _ hin
  exact ⟨C, P, h⟩

/-- C58: on square systems and for a mapping made by `compute_mapping`, `Copy::verify` returns a verdict
exactly when all the points of the proof other than the ignored `c_prime_w` decompress, `H` is as long
as `G`, and their length is two to the number of points `L`. -/
theorem C58_copy_verify_returns_iff [DecidableEq G] {k ws : Nat} (cx : Ctx G) (p : Copy.Proof F)
    (tr : Transcript) (Gs Hs : List G) (Q : G) (Us : List (Matrix (Fin (k + 1)) (Fin (k + 1)) F))
    (sets : List (List Nat)) (map : Mapping) (Cs : List G) (hG : Gs.length = k + 3)
    (hn : Gs.length < 65536) (hws : ws < 65536) (hs : sets.length ≤ 65536)
    (hmap : computeMapping Gs.length ws sets = .ok map)
    (hi : ∀ s ∈ sets, ∀ i ∈ s, i < k + 1) (hC : Cs.length = sets.length) :
    (∃ r, p.verify cx tr Gs Hs Q ⟨Us.map rows⟩ map Cs = .ok r) ↔
      (cx.decompress p.C_w).isSome ∧ Hs.length = k + 3 ∧
      (cx.decompress p.inner.c_prime_prime_w).isSome ∧
      (cx.decompress p.inner.alm_zk.C_r).isSome ∧
      (∀ c ∈ p.inner.alm_zk.NoZK.L_vec, (cx.decompress c).isSome) ∧
      (∀ c ∈ p.inner.alm_zk.NoZK.R_vec, (cx.decompress c).isSome) ∧
      k + 3 = 2 ^ p.inner.alm_zk.NoZK.L_vec.length := by
  have hwf := computeMapping_wf hn hws hs hmap
  cases hd : cx.decompress p.C_w with
  | none =>
    simp only [Option.isSome_none, Bool.false_eq_true, false_and, iff_false, not_exists]
    intro r h
    unfold Copy.Proof.verify at h
    simp only at h
    obtain ⟨_, -, h⟩ := bind_eq_ok.1 h
    rw [hd] at h
    cases h
  | some C_w =>
    rw [C37_verifier cx p tr Gs Hs Q Us sets map Cs C_w hG hn hws hs hmap hi hC hd]
    generalize copyAlpha F cx.ro tr.log p.C_w = α at *
    have hN := copySystem_ne_nil hwf Us α
    rw [map_rows_eq]
    have key : ∀ (N : Nat) (_ : N ≠ 0) (Ms : Fin N → Matrix (Fin (k + 1)) (Fin (k + 1)) F)
        (q : Inner.Proof F) (tr : Transcript),
        (∃ r, q.verify cx tr Gs Hs Q ⟨List.ofFn fun i => rows (Ms i)⟩ = .ok r) ↔
      0 < k + 1 ∧ Gs.length = k + 1 + 2 ∧ Hs.length = k + 1 + 2 ∧
      (cx.decompress q.c_prime_w).isSome ∧ (cx.decompress q.c_prime_prime_w).isSome ∧
      (cx.decompress q.alm_zk.C_r).isSome ∧
      (∀ c ∈ q.alm_zk.NoZK.L_vec, (cx.decompress c).isSome) ∧
      (∀ c ∈ q.alm_zk.NoZK.R_vec, (cx.decompress c).isSome) ∧
      q.alm_zk.NoZK.L_vec.length < 64 ∧ k + 1 + 2 = 2 ^ q.alm_zk.NoZK.L_vec.length := by
      intro N hN Ms q tr
      obtain ⟨N, rfl⟩ := Nat.exists_eq_succ_of_ne_zero hN
      exact C31_zk_verify_returns_iff cx ⟨q⟩ tr Gs Hs Q Ms
    rw [key _ hN]
    simp only [cx.decompress_compress, Option.isSome_some, true_and, hG]
    constructor
    · rintro ⟨-, h1, h2, h3, h4, h5, -, h6⟩
      exact ⟨h1, h2, h3, h4, h5, h6⟩
    · rintro ⟨h1, h2, h3, h4, h5, h6⟩
      refine ⟨by omega, h1, h2, h3, h4, h5, ?_, h6⟩
      by_contra hc
      have : 2 ^ 64 ≤ 2 ^ p.inner.alm_zk.NoZK.L_vec.length :=
        Nat.pow_le_pow_right (by decide) (by omega)
      omega

/-- C58: whatever the mapping and the equations, `copy::create` returns only if the witness starts with
one and fits into `n - 2` slots, there is at least one commitment and as many as in the mapping, and
the generator vectors have one common length `2 ^ q >= 4`. -/
theorem C58_copy_create_shapes [DecidableEq F] (cx : Ctx G) (tr : Transcript) (tape : Tape F)
    (Gs Hs : List G) (Q : G) (map : Mapping) (block : BlockMatrix F) (w : List F)
    (openings : List (List F × F)) (res : Copy.Proof F × Transcript × Tape F)
    (h : Copy.create cx tr tape Gs Hs Q map block w openings = .ok res) :
    w[0]? = some 1 ∧ w.length + 2 ≤ Gs.length ∧ openings ≠ [] ∧
      map.num_commitments = openings.length ∧ (∃ q, 2 ≤ q ∧ Gs.length = 2 ^ q) ∧
      Hs.length = Gs.length := by
  obtain ⟨p, tr', tape'⟩ := res
  have hop : openings = (openings.map fun o => (([] : List Nat), o)).map (·.2) := by
    simp [Function.comp_def]
  have hnum : map.num_commitments = openings.length := by
    unfold Copy.create at h
    obtain ⟨_, h1, h⟩ := bind_eq_ok.1 h
    exact rassert_eq_ok.1 h1
  rw [hop] at h
  obtain ⟨_, _, _, _, _, _, _, _, s1, s2, s3, -, -, -, s4, -, -, -, -, -, s5⟩ :=
    create_steps _ _ _ _ _ _ _ _ _ _ _ _ _ h
  obtain ⟨t1, t2, -⟩ := C31_inner_create_shapes _ _ _ _ _ _ _ _ _ _ s5
  refine ⟨s1, by omega, ?_, hnum, t1, t2⟩
  rintro rfl
  simp at s4

section
open Toy

def exG : List K := [3, 5, 8, 13, 21, 34, 55, 89]
def exH : List K := [2, 7, 1, 8, 28, 18, 28, 45]
def exTapeC : Tape K := fun i => (i * i + 3 * i + 5 : K)
def exU : Matrix (Fin 6) (Fin 6) K := Matrix.of fun i j => if i = 1 ∧ j = 1 then 1 else
  if i = 0 ∧ j = 0 then -9 else 0

example : computeMapping 8 2 [[3], [3]] = .ok ⟨2, [⟨0, 3, 0, 2⟩, ⟨1, 3, 1, 4⟩], [3], 4⟩ := by
  decide +kernel

/-- An honest Copy run: witness `(1, 3)`, equation `w₁² = 9 w₀²`, two commitments with one message each
at index 3. The proof is accepted, and rejected for another commitment. -/
example : (match computeMapping 8 2 [[3], [3]] with
    | .error _ => false
    | .ok map => match commit exG [3] [(10 : K)] 7, commit exG [3] [(20 : K)] 9,
        Copy.create cx ⟨[]⟩ exTapeC exG exH (17 : K) map ⟨[rows exU]⟩ [1, 3] [([10], 7), ([20], 9)] with
      | .ok C1, .ok C2, .ok (p, _, _) =>
        (p.verify cx ⟨[]⟩ exG exH 17 ⟨[rows exU]⟩ map [C1, C2]).map Prod.fst == .ok true &&
        (p.verify cx ⟨[]⟩ exG exH 17 ⟨[rows exU]⟩ map [C1, C2 + 1]).map Prod.fst == .ok false
      | _, _, _ => false) = true := by
  decide +kernel

/-- C39: with the messages 10 and 20 at index 3 and in the slots 2 and 4, the constraint holds for every
challenge; with 21 in slot 4 it holds for no challenge but zero. -/
example :
    let map : Mapping := ⟨2, [⟨0, 3, 0, 2⟩, ⟨1, 3, 1, 4⟩], [3], 4⟩
    (∀ α : K, quad (copyConstraint 5 map α 3) ![1, 3, 10, α * 10 + α ^ 2 * 20, 20, 0] = 0) ∧
    (∀ α : K, quad (copyConstraint 5 map α 3) ![1, 3, 10, α * 10 + α ^ 2 * 20, 21, 0] = 0 ↔ α = 0) := by
  decide +kernel

/-- C40: a forged Copy proof for the equation `w₀² = 0` and two arbitrary points in place of
commitments is accepted. -/
example : (match computeMapping 8 2 [[3], [3]] with
    | .error _ => false
    | .ok map => match forgeCopy cx ⟨[]⟩ exG exH (17 : K)
        [(Matrix.of fun i j : Fin 6 => if i = 0 ∧ j = 0 then (1 : K) else 0)] map [44, 66] 0 with
      | .ok (p, _) => (p.verify cx ⟨[]⟩ exG exH 17
          ⟨[rows (Matrix.of fun i j : Fin 6 => if i = 0 ∧ j = 0 then (1 : K) else 0)]⟩ map
          [44, 66]).map Prod.fst == .ok true
      | _ => false) = true := by
  decide +kernel

/-- C41: an honest run with commitment index 0 is rejected. -/
example : (match computeMapping 8 2 [[0]] with
    | .error _ => false
    | .ok map => match commit exG [0] [(10 : K)] 7,
        Copy.create cx ⟨[]⟩ exTapeC exG exH (17 : K) map ⟨[rows exU]⟩ [1, 3] [([10], 7)] with
      | .ok C1, .ok (p, _, _) =>
        (p.verify cx ⟨[]⟩ exG exH 17 ⟨[rows exU]⟩ map [C1]).map Prod.fst == .ok false
      | _, _ => false) = true := by
  decide +kernel
end

end Qesa.Props
