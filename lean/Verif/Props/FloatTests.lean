import Mathlib.Data.Rat.Lemmas
import Mathlib.Data.Nat.Prime.Basic
import Mathlib.Algebra.Field.Rat
import Mathlib.Algebra.Order.Floor.Defs
import Mathlib.Data.Rat.Floor
import Mathlib.Tactic.FieldSimp
import Verif.Proofs.FloatTests
import Verif.Proofs.FloatHom
/- The three tests on `f64` numbers: C82. -/
namespace Qesa.Props
open Qesa Spec LmpaK FloatTests

section
variable {T : Type} [Field T]

theorem exists_ofFn {α : Type} {n : Nat} {l : List α} (h : l.length = n) :
    ∃ f : Fin n → α, l = List.ofFn f := by
  subst h
  exact ⟨fun i => l[i], by simp⟩

omit [Field T] in
theorem exists_rows' {m n : Nat} {A : List (List T)} (hA : A.length = m) (h : Width n A) :
    ∃ M : Matrix (Fin m) (Fin n) T, A = rows M := by
  subst hA
  exact exists_rows A n h

/-- The loop of `test_lmpa_noZK_float` over a field: for every matrix, vector and target, the
comparison at the end succeeds exactly if the target is the product. -/
theorem C82_float_loop {c k d m fuel : Nat} (hm : 0 < m) (hc : 0 < c) (hck : c < k) (hf : d < fuel)
    {x : T} (hx : x ≠ 0) {A : List (List T)} {w t : List T} (hA : A.length = m)
    (hA' : Width (c * k ^ d) A) (hw : w.length = c * k ^ d) (ht : t.length = m) :
    ∃ A' w' t', foldLoop x m k fuel (c * k ^ d) A w t = .ok (A', w', t') ∧
      (matrixVectorMulGeneral A' w' 0 = t' ↔ matrixVectorMulGeneral A w 0 = t) := by
  obtain ⟨M, rfl⟩ := exists_rows' hA hA'
  obtain ⟨v, rfl⟩ := exists_ofFn hw
  obtain ⟨tt, rfl⟩ := exists_ofFn ht
  obtain ⟨M', w', tt', h1, h2⟩ := foldLoop_field hm hc hck x hx d _ fuel M v tt rfl hf
  refine ⟨_, _, _, h1, ?_⟩
  rw [← Nat.cast_zero, mul_general, mul_general, matrixpointVectorMul_rows, matrixpointVectorMul_rows,
    List.ofFn_inj, List.ofFn_inj]
  constructor
  · intro h
    rw [← h, sub_self] at h2
    exact (sub_eq_zero.1 h2.symm).symm
  · intro h
    rw [← h, sub_self] at h2
    exact (sub_eq_zero.1 h2).symm

/-- The two vectors which `test_lmpa_noZK_float` compares agree for every matrix and vector. -/
theorem C82_float_run {c k d m fuel : Nat} (hm : 0 < m) (hc : 0 < c) (hck : c < k) (hf : d < fuel)
    {x : T} (hx : x ≠ 0) {A : List (List T)} {w : List T} (hA : A.length = m)
    (hA' : Width (c * k ^ d) A) (hw : w.length = c * k ^ d) :
    ∃ v, floatRun fuel x (c * k ^ d) m k A w = .ok (v, v) := by
  obtain ⟨A', w', t', h1, h2⟩ := C82_float_loop hm hc hck hf hx hA hA' hw
    (t := matrixVectorMulGeneral A w ((0 : ℕ) : T)) (by simp [matrixVectorMulGeneral, hA])
  rw [Nat.cast_zero] at h2
  refine ⟨t', ?_⟩
  unfold floatRun
  simp only
  rw [h1]
  change Except.ok (_, t') = _
  rw [Nat.cast_zero, h2.2 rfl]

theorem length_range {α : Type} [NatCast α] (a n : Nat) : (FloatTests.range a n : List α).length = n := by
  simp [FloatTests.range]

theorem width_rangeMatrix {T : Type} [NatCast T] (m n : Nat) :
    Width n (rangeMatrix m n : List (List T)) := by
  intro row h
  obtain ⟨i, _, rfl⟩ := List.mem_map.1 h
  exact length_range _ _

/-- With exact arithmetic `test_lmpa_noZK_float` passes for all sizes. -/
theorem C82_test_float [DecidableEq T] (h2 : (2 : T) ≠ 0) {k d m fuel : Nat} (hk : 2 ≤ k) (hm : 0 < m)
    (hf : d < fuel) : testFloat (T := T) fuel k d m = .ok () := by
  obtain ⟨v, h⟩ := C82_float_run (T := T) (c := 1) (k := k) (d := d) (m := m) hm (by omega) (by omega) hf
    (x := ((2 : ℕ) : T)) (by exact_mod_cast h2) (A := rangeMatrix m (k ^ d)) (w := FloatTests.range 0 (k ^ d))
    (by simp [rangeMatrix]) (by rw [one_mul]; exact width_rangeMatrix _ _)
    (by rw [one_mul]; exact length_range _ _)
  rw [one_mul] at h
  unfold testFloat
  simp only
  rw [h]
  simp [rassert, bind, Except.bind]

omit [Field T] in
theorem exists_pairs {m n : Nat} : ∀ {H : List (List (List T))} {wAll : List (List T)},
    wAll.length = H.length → (∀ h ∈ H, h.length = m ∧ Width n h) → Width n wAll →
    ∃ qs : List (Matrix (Fin m) (Fin n) T × (Fin n → T)),
      H = qs.map (fun p => rows p.1) ∧ wAll = qs.map (fun p => List.ofFn p.2)
  | [], wAll, hl, _, _ => ⟨[], rfl, by simpa using hl⟩
  | h :: H, [], hl, _, _ => by simp at hl
  | h :: H, w :: wAll, hl, hH, hw => by
    obtain ⟨qs, h1, h2⟩ := exists_pairs (H := H) (wAll := wAll) (by simpa using hl)
      (fun h' hh => hH h' (by simp [hh])) (fun r hr => hw r (by simp [hr]))
    obtain ⟨M, hM⟩ := exists_rows' (hH h (by simp)).1 (hH h (by simp)).2
    obtain ⟨v, hv⟩ := exists_ofFn (hw w (by simp))
    exact ⟨(M, v) :: qs, by simp [h1, hM], by simp [h2, hv]⟩

/-- The two vectors which `test_lmpa_almSnd_float_1` compares agree for all matrices and vectors, and
for every target. -/
theorem C82_alm1_run {c k m fuel : Nat} (hm : 0 < m) (hc : 0 < c) (hck : c < k) (hf : 1 < fuel)
    {x : T} (hx : x ≠ 0) {H : List (List (List T))} {wAll : List (List T)} (t : List T) (h0 : H ≠ [])
    (hl : wAll.length = H.length) (hH : ∀ h ∈ H, h.length = m ∧ Width (k * c) h)
    (hw : Width (k * c) wAll) :
    ∃ v, v.length = m ∧ alm1Run fuel x (k * c) m k H wAll t = .ok (v, v) := by
  obtain ⟨qs, rfl, rfl⟩ := exists_pairs hl hH hw
  exact alm1_field hm hc hck x hx t fuel hf qs (by simpa using h0)

/-- The two vectors which `test_lmpa_almSnd_float_2` compares agree for all matrices and vectors, and
for every target. -/
theorem C82_alm2_run {n m fuel : Nat} (hm : 0 < m) (hn : 0 < n) (hf : n + m * n < (m + 1) ^ fuel)
    {x : T} (hx : x ≠ 0) {H : List (List (List T))} {wAll : List (List T)} (A : List (List T))
    (w t : List T) (hl : H.length = m + 1) (hl' : wAll.length = m + 1)
    (hH : ∀ h ∈ H, h.length = m ∧ Width n h) (hw : Width n wAll) :
    ∃ v, v.length = m ∧ alm2Run fuel x n m H wAll A w t = .ok (v, v) := by
  have e1 : H = List.ofFn fun i : Fin (m + 1) =>
      rows (Matrix.of fun (r : Fin m) (s : Fin n) => ((H.getD i []).getD r []).getD s 0) := by
    apply List.ext_getElem (by simp [hl])
    intro i h1 h2
    rw [List.getElem_ofFn]
    obtain ⟨h3, h4⟩ := hH _ (List.getElem_mem h1)
    apply List.ext_getElem (by simp [h3])
    intro r h5 h6
    have h7 := h4 _ (List.getElem_mem h5)
    rw [getElem_rows]
    apply List.ext_getElem (by simp [h7])
    intro s h8 h9
    simp [h1, h5, h8]
  have e2 : wAll = List.ofFn fun j : Fin (m + 1) =>
      List.ofFn ((Matrix.of fun (_ : Fin 1) (s : Fin n) => ((wAll.getD j []).getD s 0)) 0) := by
    apply List.ext_getElem (by simp [hl'])
    intro i h1 h2
    have h3 := hw _ (List.getElem_mem h1)
    rw [List.getElem_ofFn]
    apply List.ext_getElem (by simp [h3])
    intro s h5 h6
    simp [h1, h5]
  obtain ⟨A', w', t', h1, h2⟩ := alm2Loop_field hm x hx
    (fun i => Matrix.of fun (r : Fin m) (s : Fin n) => ((H.getD i []).getD r []).getD s 0)
    (fun j => Matrix.of fun (_ : Fin 1) (s : Fin n) => ((wAll.getD j []).getD s 0))
  have h3 := h2.1 fuel (n + m * n) A w t hf ?_ (Or.inl ?_)
  · rw [← e1, ← e2] at h3
    refine ⟨t', h2.2, ?_⟩
    unfold alm2Run
    rw [h3]
    change Except.ok (_, t') = _
    rw [← h1]
  · rcases Nat.eq_zero_or_pos fuel with h | h
    · subst h
      rw [pow_zero] at hf
      omega
    · exact h
  · have := Nat.mul_le_mul_left m hn
    omega

end

/-! ### The data of the two tests -/

section
variable {T : Type} [Add T] [Mul T] [NatCast T]

omit [Add T] [Mul T] in
theorem rowMatrices_ok (m n : Nat) : ∀ c i : Nat, i + c ≤ m →
    ∃ H : List (List (List T)), rowMatrices m n c i = .ok H ∧ H.length = c ∧
      ∀ h ∈ H, h.length = m ∧ Width n h := by
  intro c
  induction c with
  | zero => intro i _; exact ⟨[], rfl, rfl, by simp⟩
  | succ c ih =>
    intro i hi
    obtain ⟨H, h1, h2, h3⟩ := ih (i + 1) (by omega)
    have hz : i < (zeros m n : List (List T)).length := by simp [zeros]; omega
    refine ⟨(zeros m n).set i (FloatTests.range (i * n) n) :: H, ?_, by simp [h2], ?_⟩
    · rw [rowMatrices, setIdx, if_pos hz, ok_bind, h1]
      rfl
    · intro h hh
      rcases List.mem_cons.1 hh with rfl | hh
      · refine ⟨by simp [zeros], ?_⟩
        intro row hr
        rcases List.mem_or_eq_of_mem_set hr with hr | rfl
        · rw [zeros] at hr
          rw [List.eq_of_mem_replicate hr, List.length_replicate]
        · exact length_range _ _
      · exact h3 h hh

omit [NatCast T] in
theorem sumTargets_ok (m : Nat) : ∀ (ts : List (List T)) (xs acc : List T), acc.length = m →
    (∀ t ∈ ts, t.length = m) → ∃ v, sumTargets ts xs acc = .ok v := by
  intro ts
  induction ts with
  | nil => intro xs acc _ _; exact ⟨acc, by cases xs <;> rfl⟩
  | cons t ts ih =>
    intro xs acc h1 h2
    cases xs with
    | nil => exact ⟨acc, rfl⟩
    | cons x xs =>
      have h3 := h2 t (by simp)
      have e : rowRowAddGeneral acc (vectorScalarMulGeneral t x) =
          .ok (List.zipWith (fun a b => a + b) acc (vectorScalarMulGeneral t x)) := by
        unfold rowRowAddGeneral
        rw [rassert, if_pos (by simp [vectorScalarMulGeneral, h1, h3])]
        rfl
      obtain ⟨v, hv⟩ := ih xs (List.zipWith (fun a b => a + b) acc (vectorScalarMulGeneral t x))
        (by simp [vectorScalarMulGeneral, h1, h3]) fun t' ht => h2 t' (by simp [ht])
      exact ⟨v, by rw [sumTargets, e, ok_bind, hv]⟩

theorem almData_ok (n m : Nat) : ∃ (H : List (List (List T))) (wAll : List (List T)) (t : List T),
    almData n m = .ok (H, wAll, t) ∧ H.length = m + 1 ∧ wAll.length = m + 1 ∧
      (∀ h ∈ H, h.length = m ∧ Width n h) ∧ Width n wAll := by
  obtain ⟨tmps, h1, h2, h3⟩ := rowMatrices_ok (T := T) m n m 0 (by omega)
  have hH : ∀ h ∈ (rangeMatrix m n :: tmps : List (List (List T))), h.length = m ∧ Width n h := by
    intro h hh
    rcases List.mem_cons.1 hh with rfl | hh
    · exact ⟨by simp [rangeMatrix], width_rangeMatrix _ _⟩
    · exact h3 h hh
  have hr : ∀ v ∈ (FloatTests.range 0 n :: (List.range m).map fun i => FloatTests.range i n : List (List T)),
      v.length = n := by
    intro v hv
    rcases List.mem_cons.1 hv with rfl | hv
    · exact length_range _ _
    · obtain ⟨i, _, rfl⟩ := List.mem_map.1 hv
      exact length_range _ _
  obtain ⟨v, hv⟩ := sumTargets_ok m (List.zipWith (fun h v => matrixVectorMulGeneral h v ((0 : ℕ) : T))
      (rangeMatrix m n :: tmps) (FloatTests.range 0 n :: (List.range m).map fun i => FloatTests.range i n))
    (FloatTests.range 2 (m + 1)) (List.replicate m ((0 : ℕ) : T)) (by simp) (by
      intro t ht
      obtain ⟨i, hi, rfl⟩ := List.getElem_of_mem ht
      rw [List.getElem_zipWith]
      simp only [matrixVectorMulGeneral, List.length_map]
      exact (hH _ (List.getElem_mem _)).1)
  refine ⟨_, List.zipWith (fun v x => vectorScalarMulGeneral v x)
    (FloatTests.range 0 n :: (List.range m).map fun i => FloatTests.range i n) (FloatTests.range 2 (m + 1)),
    v, ?_, ?_, ?_, hH, ?_⟩
  · unfold almData
    rw [h1, ok_bind]
    simp only
    rw [hv, ok_bind]
    rfl
  · simp [h2]
  · simp [length_range]
  · intro row hrow
    obtain ⟨i, hi, rfl⟩ := List.getElem_of_mem hrow
    rw [List.getElem_zipWith]
    simp only [vectorScalarMulGeneral, List.length_map]
    exact hr _ (List.getElem_mem _)

end

section
variable {T : Type} [Field T] [DecidableEq T]

/-- With exact arithmetic `test_lmpa_almSnd_float_1` passes. -/
theorem C82_test_alm1 (h2 : (2 : T) ≠ 0) {k m fuel : Nat} (hk : 2 ≤ k) (hm : 0 < m) (hf : 1 < fuel) :
    testAlm1 (T := T) fuel k 1 m = .ok () := by
  obtain ⟨H, wAll, t, h, h3, h4, h5, h6⟩ := almData_ok (T := T) (k ^ 1) m
  have e : k ^ 1 = k * 1 := by ring
  rw [e] at h5 h6
  obtain ⟨v, _, hv⟩ := C82_alm1_run (T := T) (c := 1) hm (by omega) (by omega) hf
    (x := ((2 : ℕ) : T)) (by exact_mod_cast h2) t (by intro h0; simp [h0] at h3) (h4.trans h3.symm) h5 h6
  unfold testAlm1
  simp only
  rw [h, ok_bind]
  simp only
  rw [e, hv]
  simp [rassert, bind, Except.bind]

/-- With exact arithmetic `test_lmpa_almSnd_float_2` passes. -/
theorem C82_test_alm2 (h2 : (2 : T) ≠ 0) {k d m fuel : Nat} (hk : 0 < k) (hm : 0 < m)
    (hf : k ^ d + m * k ^ d < (m + 1) ^ fuel) : testAlm2 (T := T) fuel k d m = .ok () := by
  obtain ⟨H, wAll, t, h, h3, h4, h5, h6⟩ := almData_ok (T := T) (k ^ d) m
  obtain ⟨v, _, hv⟩ := C82_alm2_run (T := T) hm (Nat.pow_pos hk) hf
    (x := ((2 : ℕ) : T)) (by exact_mod_cast h2) (rangeMatrix m (k ^ d)) (FloatTests.range 0 (k ^ d)) t h3 h4 h5 h6
  unfold testAlm2
  simp only
  rw [h, ok_bind]
  simp only
  rw [hv]
  simp [rassert, bind, Except.bind]

end

/-! ### The targets are not used -/

section
variable {T : Type} [Add T] [Mul T] [Div T] [NatCast T]

omit [Div T] in
theorem uInner_target {α : Type} (get : α → R (List T)) (t t' : List T) (shift i : Nat)
    (At : List (List T)) (wT : List α) (j : Nat) (u : List (List T)) :
    uInner true get t shift i At j wT u = uInner true get t' shift i At j wT u := by
  induction wT generalizing j u with
  | nil => rfl
  | cons w wT ih => simp only [uInner, true_or, if_true, ih]

omit [Div T] in
theorem uOuter_target {α : Type} (get : α → R (List T)) (t t' : List T) (shift : Nat)
    (wT : List α) (AT : List (List (List T))) (i : Nat) (u : List (List T)) :
    uOuter true get t shift wT i AT u = uOuter true get t' shift wT i AT u := by
  induction AT generalizing i u with
  | nil => rfl
  | cons w wT ih =>
    unfold uOuter
    rw [uInner_target get t t']
    simp only [ih]

omit [Div T] in
theorem messages_target (fuel n m k : Nat) (t t' : List T) (wAll : List (List T)) (i : Nat)
    (H : List (List (List T))) : messages fuel n m k t wAll i H = messages fuel n m k t' wAll i H := by
  have e : ∀ (A : List (List T)) (w : List T) (fuel n : Nat),
      messageLoop m k t A w fuel n = messageLoop m k t' A w fuel n := by
    intro A w fuel
    induction fuel with
    | zero => intro n; rfl
    | succ fuel ih =>
      intro n
      unfold messageLoop
      simp only [ih, uOuter_target _ t t']
  induction H generalizing i with
  | nil => rfl
  | cons h H ih => simp only [messages, ih, e]

/-- `test_lmpa_almSnd_float_1` compares the same vectors whatever the target `t_expected` is. -/
theorem C82_alm1_target (fuel : Nat) (x : T) {n m k : Nat} (hk : k ≤ n) {H : List (List (List T))}
    (hH : H ≠ []) (wAll : List (List T)) (t t' : List T) :
    alm1Run fuel x n m k H wAll t = alm1Run fuel x n m k H wAll t' := by
  have e : ∀ uAll : List (List T), ∀ (H : List (List (List T))) (i : Nat), H ≠ [] →
      foldAll fuel n x k uAll wAll i H t = foldAll fuel n x k uAll wAll i H t' := by
    intro uAll H i hH
    cases H with
    | nil => exact absurd rfl hH
    | cons h H =>
      have : ∀ w, foldAllLoop x k uAll fuel n h w t = foldAllLoop x k uAll fuel n h w t' := by
        intro w
        cases fuel with
        | zero => rfl
        | succ fuel =>
          unfold foldAllLoop
          simp only [if_neg (show ¬ n < k by omega)]
      simp only [foldAll, this]
  unfold alm1Run
  simp only [messages_target fuel n m k t t', fun u => e u H 0 hH]

/-- The same for `test_lmpa_almSnd_float_2`. -/
theorem C82_alm2_target (fuel : Nat) (x : T) {n m : Nat} (hn : 0 < n) (H : List (List (List T)))
    (wAll A : List (List T)) (w t t' : List T) :
    alm2Run fuel x n m H wAll A w t = alm2Run fuel x n m H wAll A w t' := by
  have : alm2Loop x m (m + 1) H wAll fuel (n + m * n) A w t =
      alm2Loop x m (m + 1) H wAll fuel (n + m * n) A w t' := by
    cases fuel with
    | zero => rfl
    | succ fuel =>
      have := Nat.mul_le_mul_left m hn
      unfold alm2Loop
      simp only [if_neg (show ¬ n + m * n < m + 1 by omega), uOuter_target _ t t']
  unfold alm2Run
  rw [this]

end

/-! ### The numbers of type `f64` -/

/-- The numbers with a 53-bit significand and an exponent in the range of `f64`. -/
def F64 (q : ℚ) : Prop := ∃ s e : ℤ, |s| < 2 ^ 53 ∧ -1074 ≤ e ∧ e ≤ 971 ∧ q = s * 2 ^ e

/-- Rational numbers, with every result rounded by `fl`. -/
structure Rounded (fl : ℚ → ℚ) where
  val : ℚ
  deriving DecidableEq

section
variable {fl : ℚ → ℚ}

instance : Add (Rounded fl) := ⟨fun a b => ⟨fl (a.val + b.val)⟩⟩
instance : Mul (Rounded fl) := ⟨fun a b => ⟨fl (a.val * b.val)⟩⟩
instance : Div (Rounded fl) := ⟨fun a b => ⟨fl (a.val / b.val)⟩⟩
instance : NatCast (Rounded fl) := ⟨fun n => ⟨fl n⟩⟩

/-- A sufficient condition for `F64` that can be computed. -/
def dyadic (q : ℚ) : Bool := decide (q.den ∣ 2 ^ 64) && decide (q.num.natAbs < 2 ^ 53)

theorem dyadic_f64 {q : ℚ} (h : dyadic q = true) : F64 q := by
  unfold dyadic at h
  rw [Bool.and_eq_true, decide_eq_true_eq, decide_eq_true_eq] at h
  obtain ⟨e, he, hd⟩ := (Nat.dvd_prime_pow Nat.prime_two).1 h.1
  refine ⟨q.num, -e, ?_, by omega, by omega, ?_⟩
  · rw [Int.abs_eq_natAbs]
    exact_mod_cast h.2
  · rw [zpow_neg, zpow_natCast, ← div_eq_mul_inv]
    conv_lhs => rw [← Rat.num_div_den q, hd]
    push_cast
    rfl

/-- Numbers that remember whether all results on the way were representable. -/
structure Checked where
  val : ℚ
  exact : Bool
  deriving DecidableEq

instance : Add Checked := ⟨fun a b => ⟨a.val + b.val, a.exact && b.exact && dyadic (a.val + b.val)⟩⟩
instance : Mul Checked := ⟨fun a b => ⟨a.val * b.val, a.exact && b.exact && dyadic (a.val * b.val)⟩⟩
instance : Div Checked := ⟨fun a b => ⟨a.val / b.val, a.exact && b.exact && dyadic (a.val / b.val)⟩⟩
instance : NatCast Checked := ⟨fun n => ⟨n, dyadic n⟩⟩

/-- A rounded number together with the exact one. -/
structure Both (fl : ℚ → ℚ) where
  a : Rounded fl
  b : Checked
  h : b.exact = true → a.val = b.val

theorem Both.step (f : ℚ → ℚ → ℚ) (hfl : ∀ q, F64 q → fl q = q) (p q : Both fl)
    (h : (p.b.exact && q.b.exact && dyadic (f p.b.val q.b.val)) = true) :
    fl (f p.a.val q.a.val) = f p.b.val q.b.val := by
  rw [Bool.and_eq_true, Bool.and_eq_true] at h
  rw [p.h h.1.1, q.h h.1.2, hfl _ (dyadic_f64 h.2)]

/-- The two runs give the same result if the exact one has representable numbers only. -/
theorem both_runs (run : (T : Type) → [Add T] → [Mul T] → [Div T] → [NatCast T] → R (List T × List T))
    (hom : ∀ {S T : Type} [Add S] [Mul S] [Div S] [NatCast S] [Add T] [Mul T] [Div T] [NatCast T]
      {h : S → T}, Hom h → run T = (run S).map fun p => (p.1.map h, p.2.map h))
    (hc : ∃ v, run Checked = .ok (v, v) ∧ ∀ c ∈ v, c.exact = true)
    (hfl : ∀ q, F64 q → fl q = q) : ∃ v, run (Rounded fl) = .ok (v, v) := by
  let _ : Add (Both fl) := ⟨fun p q => ⟨p.a + q.a, p.b + q.b, Both.step (· + ·) hfl p q⟩⟩
  let _ : Mul (Both fl) := ⟨fun p q => ⟨p.a * q.a, p.b * q.b, Both.step (· * ·) hfl p q⟩⟩
  let _ : Div (Both fl) := ⟨fun p q => ⟨p.a / q.a, p.b / q.b, Both.step (· / ·) hfl p q⟩⟩
  let _ : NatCast (Both fl) := ⟨fun n => ⟨n, n, fun h => hfl _ (dyadic_f64 h)⟩⟩
  have h1 := hom (S := Both fl) (T := Rounded fl) (h := Both.a)
    ⟨fun _ _ => rfl, fun _ _ => rfl, fun _ _ => rfl, fun _ => rfl⟩
  have h2 := hom (S := Both fl) (T := Checked) (h := Both.b)
    ⟨fun _ _ => rfl, fun _ _ => rfl, fun _ _ => rfl, fun _ => rfl⟩
  obtain ⟨v, hv, he⟩ := hc
  rw [hv] at h2
  cases hr : run (Both fl) with
  | error e => rw [hr] at h2; cases h2
  | ok p =>
    rw [hr] at h1 h2
    obtain ⟨p1, p2⟩ := p
    have h3 : v = p1.map Both.b ∧ v = p2.map Both.b := by
      injection h2 with h2
      injection h2 with h3 h4
      exact ⟨h3, h4⟩
    have key : ∀ l : List (Both fl), v = l.map Both.b → l.map Both.a = v.map fun c => ⟨c.val⟩ := by
      intro l hl
      rw [hl, List.map_map]
      apply List.map_congr_left
      intro q hq
      have : q.b.exact = true := he _ (by rw [hl]; exact List.mem_map_of_mem hq)
      have h5 := q.h this
      cases q with
      | mk a b h => cases a; simp only [Function.comp] at h5 ⊢; rw [h5]
    refine ⟨v.map fun c => ⟨c.val⟩, ?_⟩
    rw [h1, map_ok]
    simp only
    rw [key p1 h3.1, key p2 h3.2]

/-- The run of the exact numbers gives two equal lists of representable numbers. -/
def goodRun (r : R (List Checked × List Checked)) : Bool :=
  match r with
  | .ok (v, w) => decide (v = w) && v.all fun c => c.exact
  | .error _ => false

theorem goodRun_ok {r : R (List Checked × List Checked)} (h : goodRun r = true) :
    ∃ v, r = .ok (v, v) ∧ ∀ c ∈ v, c.exact = true := by
  cases r with
  | error e => cases h
  | ok p =>
    obtain ⟨v, w⟩ := p
    unfold goodRun at h
    rw [Bool.and_eq_true, decide_eq_true_eq, List.all_eq_true] at h
    exact ⟨v, by rw [h.1], h.2⟩

/-- With any rounding that keeps the representable numbers, the three tests pass. -/
theorem C82_f64 (hfl : ∀ q, F64 q → fl q = q) :
    testFloat (T := Rounded fl) 4 4 3 1 = .ok () ∧ testAlm1 (T := Rounded fl) 2 7 1 3 = .ok () ∧
      testAlm2 (T := Rounded fl) 3 4 1 3 = .ok () := by
  refine ⟨?_, ?_, ?_⟩
  · obtain ⟨v, hv⟩ := both_runs (fl := fl)
      (fun T _ _ _ _ => floatRun 4 ((2 : ℕ) : T) (4 ^ 3) 1 4 (rangeMatrix 1 (4 ^ 3)) (FloatTests.range 0 (4 ^ 3)))
      (fun {S T} _ _ _ _ _ _ _ _ {h} hh => by
        rw [← floatRun_hom hh, ← rangeMatrix_hom hh, ← range_hom hh, hh.cast])
      (goodRun_ok (by decide +kernel)) hfl
    unfold testFloat
    simp only
    rw [hv]
    simp [rassert, bind, Except.bind]
  · obtain ⟨v, hv⟩ := both_runs (fl := fl)
      (fun T _ _ _ _ => almData (T := T) (7 ^ 1) 3 >>= fun p => alm1Run 2 ((2 : ℕ) : T) (7 ^ 1) 3 7 p.1 p.2.1 p.2.2)
      (fun {S T} _ _ _ _ _ _ _ _ {h} hh => by
        rw [almData_hom hh, bind_map, map_bind]
        congr 1
        funext p
        rw [← alm1Run_hom hh, hh.cast]
        rfl)
      (goodRun_ok (by decide +kernel)) hfl
    have : testAlm1 (T := Rounded fl) 2 7 1 3 = ((almData (T := Rounded fl) (7 ^ 1) 3 >>= fun p =>
        alm1Run 2 ((2 : ℕ) : Rounded fl) (7 ^ 1) 3 7 p.1 p.2.1 p.2.2) >>= fun q => rassert (q.1 = q.2)) := by
      rw [bind_assoc]
      rfl
    rw [this, hv]
    simp [rassert, bind, Except.bind]
  · obtain ⟨v, hv⟩ := both_runs (fl := fl)
      (fun T _ _ _ _ => almData (T := T) (4 ^ 1) 3 >>= fun p => alm2Run 3 ((2 : ℕ) : T) (4 ^ 1) 3 p.1 p.2.1
        (rangeMatrix 3 (4 ^ 1)) (FloatTests.range 0 (4 ^ 1)) p.2.2)
      (fun {S T} _ _ _ _ _ _ _ _ {h} hh => by
        rw [almData_hom hh, bind_map, map_bind]
        congr 1
        funext p
        rw [← alm2Run_hom hh, hh.cast, ← rangeMatrix_hom hh, ← range_hom hh]
        rfl)
      (goodRun_ok (by decide +kernel)) hfl
    have : testAlm2 (T := Rounded fl) 3 4 1 3 = ((almData (T := Rounded fl) (4 ^ 1) 3 >>= fun p =>
        alm2Run 3 ((2 : ℕ) : Rounded fl) (4 ^ 1) 3 p.1 p.2.1 (rangeMatrix 3 (4 ^ 1)) (FloatTests.range 0 (4 ^ 1))
          p.2.2) >>= fun q => rassert (q.1 = q.2)) := by
      rw [bind_assoc]
      rfl
    rw [this, hv]
    simp [rassert, bind, Except.bind]

/-- The tests pass with exact arithmetic, and fail with a rounding to two binary places. -/
example : testFloat (T := Rounded id) 4 4 3 1 = .ok () := (C82_f64 fun _ _ => rfl).1
example : testFloat (T := Rounded fun q => (⌊4 * q⌋ : ℚ) / 4) 4 4 3 1 = .error .assertFail := by
  decide +kernel
/-- The loop with a wrong target. -/
example : (foldLoop (2 : ℚ) 1 2 3 4 [[1, 2, 3, 4]] [5, 6, 7, 8] [70]).toOption =
    some ([[27]], [27 / 2], [729 / 2]) ∧ (matrixVectorMulGeneral [[27]] [27 / 2] 0 : List ℚ) = [729 / 2] ∧
    (foldLoop (2 : ℚ) 1 2 3 4 [[1, 2, 3, 4]] [5, 6, 7, 8] [71]).toOption =
      some ([[27]], [27 / 2], [731 / 2]) := by
  decide +kernel
/-- The target `[0]` is wrong, and the vectors agree. -/
example : (alm1Run 2 (2 : ℚ) 2 1 2 [[[1, 2]], [[3, 4]]] [[5, 6], [7, 8]] [0]).toOption =
    some ([161], [161]) := by
  decide +kernel
example : (alm2Run 3 (2 : ℚ) 2 1 [[[1, 2]], [[3, 4]]] [[5, 6], [7, 8]] [] [] [0]).toOption =
    some ([319 / 2], [319 / 2]) := by
  decide +kernel

end

end Qesa.Props
