import Mathlib.Tactic.FieldSimp
import Verif.Model.GramSchmidt
import Verif.Proofs.Lists
/- Helper lemmas about src/ipa/gramschmidt.rs. -/
namespace Qesa
open Spec
variable {F : Type} [Field F] [DecidableEq F]

omit [DecidableEq F] in
theorem zipWith_sub_map (x : F) (a b : List F) :
    List.zipWith (fun r s => r - s) b (a.map fun k => k * x) =
      List.zipWith (fun u v => 1 * u + (-x) * v) b a := by
  rw [List.zipWith_map_right]
  congr 1; funext u v; ring

theorem orth_eq (a b : List F) : orth a b = if dot a b = 0 then .error .assertFail else
    .ok (List.zipWith (fun u v => 1 * u + (-(dot a b * (dot a a)⁻¹)) * v) b a) := by
  unfold orth
  simp only [innerProduct_eq_dot, zipWith_sub_map, R_pure]
  by_cases h : dot a b = 0
  · rw [if_pos h, rassert_false (c := 0 ≠ dot a b) (by simp [h])]; rfl
  · rw [if_neg h, rassert_true (c := 0 ≠ dot a b) (fun e => h e.symm)]; rfl

theorem orth_eq_ok {a b o : List F} (h : orth a b = .ok o) : dot a b ≠ 0 ∧
    o = List.zipWith (fun u v => 1 * u + (-(dot a b * (dot a a)⁻¹)) * v) b a := by
  rw [orth_eq] at h
  split at h
  · simp at h
  · next hne => exact ⟨hne, (Except.ok.inj h).symm⟩

theorem orth_length {a b o : List F} (h : orth a b = .ok o) (hl : a.length = b.length) :
    o.length = a.length := by
  obtain ⟨_, rfl⟩ := orth_eq_ok h
  simp [hl]

/-- Inner product of the result with anything. -/
theorem orth_dot {a b o : List F} (h : orth a b = .ok o) (hl : a.length = b.length) (c : List F) :
    dot c o = dot c b - dot a b * (dot a a)⁻¹ * dot c a := by
  obtain ⟨_, rfl⟩ := orth_eq_ok h
  rw [dot_comm, dot_comb_left _ _ _ hl.symm, dot_comm b c, dot_comm a c]
  simp; ring

theorem orth_dot_self {a b o : List F} (h : orth a b = .ok o) (hl : a.length = b.length)
    (ha : dot a a ≠ 0) : dot a o = 0 := by
  rw [orth_dot h hl]; field_simp; ring

/-! ### Sampling -/

/-- Writes consecutive tape entries at the given positions. -/
def writeAll (r : List F) : List Nat → Tape F → List F × Tape F
  | [], tape => (r, tape)
  | p :: ps, tape => writeAll (r.set p (tape 0)) ps (fun i => tape (i + 1))

omit [Field F] [DecidableEq F] in
theorem writeAll_append (r : List F) (ps qs : List Nat) (tape : Tape F) :
    writeAll r (ps ++ qs) tape = writeAll (writeAll r ps tape).1 qs (writeAll r ps tape).2 := by
  induction ps generalizing r tape with
  | nil => rfl
  | cons p ps ih => simp [writeAll, ih]

omit [Field F] [DecidableEq F] in
theorem writeAll_tape (r : List F) (ps : List Nat) (tape : Tape F) :
    (writeAll r ps tape).2 = fun i => tape (i + ps.length) := by
  induction ps generalizing r tape with
  | nil => rfl
  | cons p ps ih =>
    simp only [writeAll, ih, List.length_cons]
    funext i; congr 1

omit [Field F] [DecidableEq F] in
theorem writeAll_length (r : List F) (ps : List Nat) (tape : Tape F) :
    (writeAll r ps tape).1.length = r.length := by
  induction ps generalizing r tape with
  | nil => rfl
  | cons p ps ih => simp [writeAll, ih]

/-- The tape index of the last write to position `j`. -/
def lastWrite (ps : List Nat) (j : Nat) : Nat := ps.length - 1 - ps.reverse.idxOf j

theorem lastWrite_lt {ps : List Nat} {j : Nat} (h : j ∈ ps) :
    lastWrite ps j < ps.length ∧ ps[lastWrite ps j]? = some j := by
  have h1 : ps.reverse.idxOf j < ps.reverse.length := List.idxOf_lt_length_iff.2 (by simpa using h)
  have h2 : ps.reverse[ps.reverse.idxOf j] = j := List.getElem_idxOf h1
  simp only [List.length_reverse] at h1
  unfold lastWrite
  refine ⟨by omega, ?_⟩
  rw [List.getElem_reverse] at h2
  rw [List.getElem?_eq_getElem (by omega), h2]

omit [Field F] [DecidableEq F] in
theorem writeAll_getElem? (ps : List Nat) (r : List F) (tape : Tape F) (j : Nat)
    (hj : j < r.length) :
    (writeAll r ps tape).1[j]? = if j ∈ ps then some (tape (lastWrite ps j)) else r[j]? := by
  induction ps using List.reverseRecOn with
  | nil => simp [writeAll]
  | append_singleton ps p ih =>
    rw [writeAll_append, writeAll_tape]
    simp only [writeAll, zero_add]
    by_cases hp : p = j
    · subst hp
      rw [List.getElem?_set_self (by rw [writeAll_length]; exact hj)]
      simp [lastWrite]
    · rw [List.getElem?_set_ne hp, ih]
      have h1 : j ∈ ps ++ [p] ↔ j ∈ ps := by simp [Ne.symm hp]
      have h2 : lastWrite (ps ++ [p]) j = lastWrite ps j := by
        simp only [lastWrite, List.length_append, List.length_singleton, List.reverse_append,
          List.reverse_singleton, List.singleton_append, List.idxOf_cons]
        have hb : (p == j) = false := by simpa using hp
        rw [hb]; simp only [cond_false]; omega
      simp only [h1, h2]

/-- The positions written by the loop. -/
def loopPositions (n : Nat) : Nat → Nat → List Nat
  | 0, _ => []
  | fuel + 1, i => if i ≤ n then i / 2 :: (i / 2 + 1) :: loopPositions n fuel (i * 2) else []

theorem mem_loopPositions (n fuel : Nat) (e0 j : Nat) (hf : n < 2 ^ (e0 + 1) + fuel) :
    j ∈ loopPositions n fuel (2 ^ (e0 + 1)) ↔
      ∃ e, e0 ≤ e ∧ 2 ^ (e + 1) ≤ n ∧ (j = 2 ^ e ∨ j = 2 ^ e + 1) := by
  induction fuel generalizing e0 with
  | zero =>
    simp only [loopPositions, List.not_mem_nil, false_iff]
    rintro ⟨e, h1, h2, -⟩
    have : 2 ^ (e0 + 1) ≤ 2 ^ (e + 1) := Nat.pow_le_pow_right (by omega) (by omega)
    omega
  | succ fuel ih =>
    have hd : 2 ^ (e0 + 1) / 2 = 2 ^ e0 := by rw [pow_succ]; omega
    have hm : 2 ^ (e0 + 1) * 2 = 2 ^ (e0 + 1 + 1) := (pow_succ _ _).symm
    have hpos : 0 < 2 ^ (e0 + 1) := Nat.pos_of_ne_zero (by simp)
    unfold loopPositions
    split
    · next h =>
      rw [hd, hm, List.mem_cons, List.mem_cons, ih (e0 + 1) (by rw [← hm]; omega)]
      constructor
      · rintro (h1 | h1 | ⟨e, h1, h2⟩)
        · exact ⟨e0, le_rfl, h, .inl h1⟩
        · exact ⟨e0, le_rfl, h, .inr h1⟩
        · exact ⟨e, by omega, h2⟩
      · rintro ⟨e, h1, h2, h3⟩
        rcases Nat.eq_or_lt_of_le h1 with rfl | h1
        · rcases h3 with h3 | h3
          · exact .inl h3
          · exact .inr (.inl h3)
        · exact .inr (.inr ⟨e, h1, h2, h3⟩)
    · next h =>
      simp only [List.not_mem_nil, false_iff]
      rintro ⟨e, h1, h2, -⟩
      have : 2 ^ (e0 + 1) ≤ 2 ^ (e + 1) := Nat.pow_le_pow_right (by omega) (by omega)
      omega

omit [Field F] [DecidableEq F] in
theorem sampleLoop_eq (n : Nat) : ∀ (fuel i : Nat) (r : List F) (tape : Tape F), 4 ≤ i →
    n + 1 < i + fuel → 0 < fuel → r.length = n →
    sampleLoop n fuel i r tape = .ok (writeAll r (loopPositions n fuel i) tape) := by
  intro fuel
  induction fuel with
  | zero => intro i r tape _ _ h; omega
  | succ fuel ih =>
    intro i r tape hi hf _ hr
    unfold sampleLoop loopPositions
    split
    · next h =>
      simp only [draw]
      rw [setIdx_lt _ (by omega), ok_bind, setIdx_lt _ (by rw [List.length_set]; omega), ok_bind,
        ih _ _ _ (by omega) (by omega) (by omega) (by simpa using hr)]
      rfl
    · rfl

/-- All positions written for a vector of length `n`, in the order of the writes. -/
def samplePositions (n : Nat) : List Nat :=
  [0, 1] ++ loopPositions n (n + 1) 4 ++ [n - 2, n - 1]

omit [DecidableEq F] in
theorem sampleMNPlus_eq (n : Nat) (hn : 2 ≤ n) (tape : Tape F) :
    sampleMNPlus n tape = .ok (writeAll (List.replicate n 0) (samplePositions n) tape) := by
  unfold sampleMNPlus
  simp only [draw]
  rw [setIdx_lt _ (by simp; omega), ok_bind, setIdx_lt _ (by simp; omega), ok_bind,
    sampleLoop_eq n (n + 1) 4 _ _ (by omega) (by omega) (by omega) (by simp), ok_bind]
  simp only [usub_le hn, ok_bind]
  rw [setIdx_lt _ (by rw [writeAll_length]; simp; omega), ok_bind, usub_le (by omega), ok_bind,
    setIdx_lt _ (by rw [List.length_set, writeAll_length]; simp; omega), ok_bind,
    rassert_true (by simp [writeAll_length])]
  simp only [ok_bind, R_pure, samplePositions, writeAll_append]
  rfl

omit [DecidableEq F] in
theorem sampleMNPlus_panics (n : Nat) (hn : n < 2) (tape : Tape F) :
    sampleMNPlus n tape = .error .indexOOB := by
  unfold sampleMNPlus
  rcases Nat.lt_or_ge n 1 with h | h
  · have : n = 0 := by omega
    subst this; rfl
  · have : n = 1 := by omega
    subst this; rfl

omit [DecidableEq F] in
theorem sampleMNPlus_length {n : Nat} {tape : Tape F} {r : List F × Tape F}
    (h : sampleMNPlus n tape = .ok r) : r.1.length = n := by
  rcases Nat.lt_or_ge n 2 with hn | hn
  · rw [sampleMNPlus_panics n hn] at h; simp at h
  · rw [sampleMNPlus_eq n hn, Except.ok.injEq] at h
    subst h
    rw [writeAll_length]; simp

theorem mem_samplePositions (n j : Nat) : j ∈ samplePositions n ↔
    j = 0 ∨ j = 1 ∨ (∃ e, 1 ≤ e ∧ 2 ^ (e + 1) ≤ n ∧ (j = 2 ^ e ∨ j = 2 ^ e + 1)) ∨
      j = n - 2 ∨ j = n - 1 := by
  unfold samplePositions
  have := mem_loopPositions n (n + 1) 1 j (by omega)
  simp only [List.mem_append, List.mem_cons, List.not_mem_nil, or_false]
  rw [show (4 : Nat) = 2 ^ (1 + 1) from rfl, this, or_assoc, or_assoc]

/-! ### The two samplers -/

theorem sampleGramSchmidt_ok {a o : List F} {tape tape' : Tape F}
    (h : sampleGramSchmidt a tape = .ok (o, tape')) :
    ∃ s, s.length = a.length ∧ orth a s = .ok o := by
  unfold sampleGramSchmidt at h
  obtain ⟨⟨s, t⟩, h1, h⟩ := bind_eq_ok.1 h
  obtain ⟨o', h2, h⟩ := bind_eq_ok.1 h
  simp only [R_pure, Except.ok.injEq, Prod.mk.injEq] at h
  obtain ⟨rfl, rfl⟩ := h
  exact ⟨s, sampleMNPlus_length h1, h2⟩

theorem sampleGramSchmidtTwice_ok {a b r : List F} {tape tape' : Tape F}
    (h : sampleGramSchmidtTwice a b tape = .ok (r, tape')) :
    ∃ o s, orth a b = .ok o ∧ sampleGramSchmidt a tape = .ok (s, tape') ∧ orth o s = .ok r := by
  unfold sampleGramSchmidtTwice at h
  obtain ⟨o, h1, h⟩ := bind_eq_ok.1 h
  obtain ⟨⟨s, t⟩, h2, h⟩ := bind_eq_ok.1 h
  obtain ⟨r', h3, h⟩ := bind_eq_ok.1 h
  simp only [R_pure, Except.ok.injEq, Prod.mk.injEq] at h
  obtain ⟨rfl, rfl⟩ := h
  exact ⟨o, s, h1, h2, h3⟩

end Qesa
