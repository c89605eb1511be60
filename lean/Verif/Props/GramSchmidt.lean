import Verif.Proofs.GramSchmidt
import Verif.Toy
/- Properties C12-C15 of src/ipa/gramschmidt.rs. -/
namespace Qesa.Props
open Qesa Spec
variable {F : Type} [Field F] [DecidableEq F]

/-! ### C12: orth -/

/-- C12: panics iff `⟨a, b⟩ = 0`. -/
theorem C12_orth_panics_iff (a b : List F) :
    (dot a b = 0 → orth a b = .error .assertFail) ∧ (dot a b ≠ 0 → ∃ o, orth a b = .ok o) := by
  rw [orth_eq]
  constructor
  · intro h; simp [h]
  · intro h; simp [h]

/-- C12: the result has the length of the arguments, differs from `b` by a multiple of `a`, and is
orthogonal to `a` exactly when `⟨a, a⟩ ≠ 0`. -/
theorem C12_orth (a b o : List F) (hl : a.length = b.length) (h : orth a b = .ok o) :
    o.length = a.length ∧ (∃ c, o = List.zipWith (fun u v => u - c * v) b a) ∧
      (dot a o = 0 ↔ dot a a ≠ 0) := by
  refine ⟨orth_length h hl, ?_, ?_⟩
  · obtain ⟨_, rfl⟩ := orth_eq_ok h
    refine ⟨dot a b * (dot a a)⁻¹, ?_⟩
    congr 1; funext u v; ring
  · refine ⟨fun h0 ha => ?_, orth_dot_self h hl⟩
    rw [orth_dot h hl, ha] at h0
    simp only [mul_zero, sub_zero] at h0
    exact (orth_eq_ok h).1 h0

/-- C12: for an isotropic first argument the second one is returned unchanged, and it is not
orthogonal to the first. -/
theorem C12_orth_isotropic (a b o : List F) (hl : a.length = b.length) (h : orth a b = .ok o)
    (ha : dot a a = 0) : o = b ∧ dot a o ≠ 0 := by
  have hne := (C12_orth a b o hl h).2.2
  obtain ⟨h0, rfl⟩ := orth_eq_ok h
  refine ⟨?_, fun e => (hne.1 e) ha⟩
  apply List.ext_getElem
  · simp [hl]
  · intro i h1 h2; simp [ha]

open Toy in
example : dot [1, 2] [(3 : K), 4] ≠ 0 ∧ dot [1, 2] [(1 : K), 2] ≠ 0 ∧
    orth [1, 2] [(3 : K), 4] = .ok [(3 : K) - 11 / 5, 4 - 22 / 5] := by decide +kernel

open Toy in
/-- Isotropic vectors exist: `10 ^ 2 = -1` in `ZMod 101`. -/
example : dot [1, 10] [(1 : K), 10] = 0 ∧ orth [1, 10] [(3 : K), 4] = .ok [3, 4] := by
  decide +kernel

/-! ### C13, C14: sample_gram_schmidt -/

/-- C13: the result is orthogonal to `a`. -/
theorem C13_sample_gram_schmidt (a o : List F) (tape tape' : Tape F)
    (h : sampleGramSchmidt a tape = .ok (o, tape')) (ha : dot a a ≠ 0) :
    o.length = a.length ∧ dot a o = 0 := by
  obtain ⟨s, hs, ho⟩ := sampleGramSchmidt_ok h
  exact ⟨orth_length ho hs.symm, orth_dot_self ho hs.symm ha⟩

/-- C13: it returns for every vector of length at least two and every tape for which the sparse
sample is not orthogonal to the vector already; otherwise it panics. -/
theorem C13_sample_gram_schmidt_returns_iff (a : List F) (tape : Tape F) :
    (∃ r, sampleGramSchmidt a tape = .ok r) ↔
      2 ≤ a.length ∧ ∃ s tape', sampleMNPlus a.length tape = .ok (s, tape') ∧ dot a s ≠ 0 := by
  unfold sampleGramSchmidt
  constructor
  · rintro ⟨r, h⟩
    obtain ⟨⟨s, t⟩, h1, h⟩ := bind_eq_ok.1 h
    obtain ⟨o', h2, h⟩ := bind_eq_ok.1 h
    refine ⟨?_, s, t, h1, (orth_eq_ok h2).1⟩
    rw [← Nat.not_lt]
    intro hn
    rw [sampleMNPlus_panics _ hn] at h1
    simp at h1
  · rintro ⟨_, s, t, h1, h2⟩
    obtain ⟨o, ho⟩ := (C12_orth_panics_iff a s).2 h2
    exact ⟨(o, t), by rw [h1, ok_bind]; simp [ho]⟩

/-- C14: the result is orthogonal to both arguments. -/
theorem C14_sample_gram_schmidt_twice (a b r o : List F) (tape tape' : Tape F)
    (hl : a.length = b.length) (h : sampleGramSchmidtTwice a b tape = .ok (r, tape'))
    (ha : dot a a ≠ 0) (ho : orth a b = .ok o) (hoo : dot o o ≠ 0) :
    r.length = a.length ∧ dot a r = 0 ∧ dot b r = 0 := by
  obtain ⟨o', s, h1, h2, h3⟩ := sampleGramSchmidtTwice_ok h
  rw [ho, Except.ok.injEq] at h1
  subst h1
  obtain ⟨hs, has⟩ := C13_sample_gram_schmidt a s tape tape' h2 ha
  have hol := orth_length ho hl
  have hos : o.length = s.length := by omega
  have hr := orth_length h3 hos
  have hor : dot o r = 0 := orth_dot_self h3 hos hoo
  have har : dot a r = 0 := by
    rw [orth_dot h3 hos, has, orth_dot_self ho hl ha]; simp
  refine ⟨by omega, har, ?_⟩
  have hb : dot r o = dot r b - dot a b * (dot a a)⁻¹ * dot r a := orth_dot ho hl r
  rw [dot_comm r o, hor, dot_comm r a, har] at hb
  rw [dot_comm]
  simpa using hb.symm

open Toy in
example : dot [1, 2, 3, 4] [(1 : K), 2, 3, 4] ≠ 0 ∧
    ∃ o, orth [1, 2, 3, 4] [(5 : K), 6, 7, 9] = .ok o ∧ dot o o ≠ 0 ∧
      (sampleGramSchmidtTwice [1, 2, 3, 4] [(5 : K), 6, 7, 9] (fun i => (i * i + 1 : K))).isOk :=
  ⟨by decide +kernel, _, rfl, by decide +kernel, by decide +kernel⟩

/-! ### C15: the sparse sampler -/

/-- The positions that carry randomness. -/
def SparsePosition (n j : Nat) : Prop :=
  j = 0 ∨ j = 1 ∨ (∃ e, 1 ≤ e ∧ 2 ^ (e + 1) ≤ n ∧ (j = 2 ^ e ∨ j = 2 ^ e + 1)) ∨
    j = n - 2 ∨ j = n - 1

omit [DecidableEq F] in
/-- C15: for `n ≥ 2` the sampler returns a vector of length `n`; each sparse position carries its own
tape entry (entry `f j`, the same for every tape), every other position is zero, and the tape entries
after the `d` drawn ones are left. -/
theorem C15_sparse_sampling (n : Nat) (hn : 2 ≤ n) :
    ∃ (f : Nat → Nat) (d : Nat),
      (∀ j, SparsePosition n j → f j < d) ∧
      (∀ i j, SparsePosition n i → SparsePosition n j → f i = f j → i = j) ∧
      ∀ tape : Tape F, ∃ r, sampleMNPlus n tape = .ok (r, fun i => tape (i + d)) ∧ r.length = n ∧
        ∀ j (hj : j < r.length), (SparsePosition n j → r[j] = tape (f j)) ∧
          (¬ SparsePosition n j → r[j] = 0) := by
  refine ⟨lastWrite (samplePositions n), (samplePositions n).length, ?_, ?_, ?_⟩
  · intro j hj
    exact (lastWrite_lt ((mem_samplePositions n j).2 hj)).1
  · intro i j hi hj e
    have h1 := (lastWrite_lt ((mem_samplePositions n i).2 hi)).2
    have h2 := (lastWrite_lt ((mem_samplePositions n j).2 hj)).2
    rw [e, h2] at h1
    exact (Option.some.inj h1).symm
  · intro tape
    refine ⟨(writeAll (List.replicate n 0) (samplePositions n) tape).1, ?_, ?_, ?_⟩
    · rw [sampleMNPlus_eq n hn, ← writeAll_tape (List.replicate n 0)]
    · rw [writeAll_length]; simp
    · intro j hj
      have hj' : j < n := by rw [writeAll_length] at hj; simpa using hj
      have h := writeAll_getElem? (samplePositions n) (List.replicate n 0) tape j (by simpa using hj')
      rw [List.getElem?_eq_getElem hj] at h
      constructor
      · intro hs
        rw [if_pos ((mem_samplePositions n j).2 hs)] at h
        exact Option.some.inj h
      · intro hs
        rw [if_neg (fun hm => hs ((mem_samplePositions n j).1 hm))] at h
        simpa [hj'] using h

omit [DecidableEq F] in
/-- C15: for `n < 2` it panics. -/
theorem C15_sparse_sampling_panics (n : Nat) (hn : n < 2) (tape : Tape F) :
    sampleMNPlus n tape = .error .indexOOB := sampleMNPlus_panics n hn tape

/-- For `n = 12` the positions are 0-5, 10, 11 (not 8, 9, since `16 > 12`). -/
example : (sampleMNPlus (F := ℚ) 12 fun _ => 1).map Prod.fst =
    .ok [1, 1, 1, 1, 1, 1, 0, 0, 0, 0, 1, 1] := by decide +kernel

end Qesa.Props
