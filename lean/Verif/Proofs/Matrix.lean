import Mathlib.Data.List.OfFn
import Mathlib.LinearAlgebra.Matrix.ConjTranspose
import Verif.Proofs.Lists
/- Helper lemmas about the model of src/math_utils.rs and src/matrix.rs. -/
namespace Qesa
open Spec
variable {F G T : Type}

theorem powersLoop_eq [Monoid T] (x : T) (k : Nat) (last : T) :
    powersLoop x k last = List.ofFn fun i : Fin k => last * x ^ (i.val + 1) := by
  induction k generalizing last with
  | zero => simp [powersLoop]
  | succ k ih =>
    rw [powersLoop, ih, List.ofFn_succ]
    congr 1
    · simp
    · congr 1; funext i
      rw [Fin.val_succ, mul_assoc, ← pow_succ' x]

theorem zipWith_ofFn {α β γ : Type} {n : Nat} (f : α → β → γ) (v : Fin n → α) (w : Fin n → β) :
    List.zipWith f (List.ofFn v) (List.ofFn w) = List.ofFn fun i => f (v i) (w i) := by
  apply List.ext_getElem <;> simp

theorem dot_ofFn [Field F] [AddCommGroup G] [Module F G] {n : Nat} (v : Fin n → F) (w : Fin n → G) :
    dot (List.ofFn v) (List.ofFn w) = ∑ i, v i • w i := by
  rw [dot, zipWith_ofFn, List.sum_ofFn]

theorem zipWithR_eq_ok {α β γ : Type} {f : α → β → R γ} {as : List α} {bs : List β}
    (h : as.length = bs.length) {cs : List γ} :
    zipWithR f as bs = .ok cs ↔ cs.length = as.length ∧
      ∀ (i : Nat) (h1 : i < as.length) (h2 : i < bs.length) (h3 : i < cs.length),
        f as[i] bs[i] = .ok cs[i] := by
  induction as generalizing bs cs with
  | nil => cases cs <;> simp [zipWithR]
  | cons a as ih => cases bs with
    | nil => simp at h
    | cons b bs =>
      rw [zipWithR]
      constructor
      · intro e
        obtain ⟨c, h1, e⟩ := bind_eq_ok.1 e
        obtain ⟨cs', h2, e⟩ := bind_eq_ok.1 e
        simp only [R_pure, Except.ok.injEq] at e
        subst e
        obtain ⟨h3, h4⟩ := (ih (by simpa using h)).1 h2
        refine ⟨by simp [h3], ?_⟩
        intro i h5 h6 h7
        cases i with
        | zero => simpa using h1
        | succ i => simpa using h4 i (by simpa using h5) (by simpa using h6) (by simpa using h7)
      · rintro ⟨h1, h2⟩
        cases cs with
        | nil => simp at h1
        | cons c cs =>
          have h0 := h2 0 (by simp) (by simp) (by simp)
          simp only [List.getElem_cons_zero] at h0
          have ht : zipWithR f as bs = .ok cs := (ih (by simpa using h)).2
            ⟨by simpa using h1, fun i h5 h6 h7 =>
              h2 (i + 1) (Nat.succ_lt_succ h5) (Nat.succ_lt_succ h6) (Nat.succ_lt_succ h7)⟩
          rw [h0, ht]; rfl

theorem zipWithR_ok_of {α β γ : Type} {f : α → β → R γ} {as : List α} {bs : List β}
    (h : ∀ (i : Nat) (h1 : i < as.length) (h2 : i < bs.length), ∃ c, f as[i] bs[i] = .ok c) :
    ∃ cs, zipWithR f as bs = .ok cs := by
  induction as generalizing bs with
  | nil => exact ⟨[], rfl⟩
  | cons a as ih => cases bs with
    | nil => exact ⟨[], rfl⟩
    | cons b bs =>
      obtain ⟨c, hc⟩ := h 0 (by simp) (by simp)
      obtain ⟨cs, hcs⟩ := ih (bs := bs) fun i h1 h2 =>
        h (i + 1) (Nat.succ_lt_succ h1) (Nat.succ_lt_succ h2)
      refine ⟨c :: cs, ?_⟩
      simp only [List.getElem_cons_zero] at hc
      rw [zipWithR, hc, hcs]; rfl

theorem zipWithR_error {α β γ : Type} {f : α → β → R γ} {as : List α} {bs : List β} {e : Err}
    (he : ∀ a b, (∃ c, f a b = .ok c) ∨ f a b = .error e) :
    (∃ cs, zipWithR f as bs = .ok cs) ∨ zipWithR f as bs = .error e := by
  induction as generalizing bs with
  | nil => exact .inl ⟨[], rfl⟩
  | cons a as ih => cases bs with
    | nil => exact .inl ⟨[], rfl⟩
    | cons b bs =>
      rw [zipWithR]
      rcases he a b with ⟨c, hc⟩ | hc
      · rcases ih (bs := bs) with ⟨cs, hcs⟩ | hcs
        · exact .inl ⟨c :: cs, by rw [hc, hcs]; rfl⟩
        · exact .inr (by rw [hc, hcs]; rfl)
      · exact .inr (by rw [hc]; rfl)

@[simp] theorem length_rows {m n : Nat} (M : Matrix (Fin m) (Fin n) T) : (rows M).length = m := by
  simp [rows]

@[simp] theorem getElem_rows {m n : Nat} (M : Matrix (Fin m) (Fin n) T) (i : Nat)
    (h : i < (rows M).length) : (rows M)[i] = List.ofFn (M ⟨i, by simpa using h⟩) := by
  simp [rows]

theorem width_rows {m n : Nat} (M : Matrix (Fin m) (Fin n) T) : Width n (rows M) := by
  intro row h
  obtain ⟨i, rfl⟩ := List.mem_ofFn.1 h
  simp

/-- A list of rows of one width is a matrix. -/
theorem exists_rows (A : List (List T)) (n : Nat) (h : Width n A) :
    ∃ M : Matrix (Fin A.length) (Fin n) T, A = rows M := by
  refine ⟨Matrix.of fun i j => (A[i.val])[j.val]'(by rw [h _ (List.getElem_mem _)]; exact j.2), ?_⟩
  apply List.ext_getElem (by simp)
  intro i h1 h2
  rw [getElem_rows]
  apply List.ext_getElem
  · simp [h _ (List.getElem_mem h1)]
  · intro j h3 h4; simp

theorem rowRowAdd_ofFn [Add F] {n : Nat} (v w : Fin n → F) :
    rowRowAdd (List.ofFn v) (List.ofFn w) = .ok (List.ofFn fun i => v i + w i) := by
  simp [rowRowAdd, zipWith_ofFn]

theorem matrixMatrixAdd_rows [Add F] {m n : Nat} (A B : Matrix (Fin m) (Fin n) F) :
    matrixMatrixAdd (rows A) (rows B) = .ok (rows (A + B)) := by
  unfold matrixMatrixAdd
  simp only [length_rows, rassert_True, ok_bind]
  rw [zipWithR_eq_ok (by simp)]
  refine ⟨by simp, ?_⟩
  intro i h1 h2 h3
  simp only [getElem_rows, rowRowAdd_ofFn]
  rfl

theorem matrixScalarMul_rows [Mul F] {m n : Nat} (A : Matrix (Fin m) (Fin n) F) (x : F) :
    matrixScalarMul (rows A) x = rows (Matrix.of fun i j => A i j * x) := by
  apply List.ext_getElem
  · simp [matrixScalarMul]
  · intro i h1 h2
    simp only [matrixScalarMul, List.getElem_map, getElem_rows, List.map_ofFn]
    rfl

/-! ### Transposition -/

theorem pushRow_ok_iff {α : Type} (cols : List (List α)) (row : List α) :
    (∃ c, pushRow cols row = .ok c) ↔ row.length ≤ cols.length := by
  induction cols generalizing row with
  | nil => cases row <;> simp [pushRow]
  | cons c cols ih => cases row with
    | nil => simp [pushRow]
    | cons e row =>
      rw [pushRow]
      simp only [List.length_cons, Nat.add_le_add_iff_right, ← ih row]
      constructor
      · rintro ⟨c, h⟩
        obtain ⟨c', h', _⟩ := bind_eq_ok.1 h
        exact ⟨c', h'⟩
      · rintro ⟨c', h'⟩
        exact ⟨_, by rw [h']; rfl⟩

theorem pushRow_error {α : Type} (cols : List (List α)) (row : List α)
    (h : cols.length < row.length) : pushRow cols row = .error .indexOOB := by
  induction cols generalizing row with
  | nil => cases row <;> simp_all [pushRow]
  | cons c cols ih => cases row with
    | nil => simp at h
    | cons e row => rw [pushRow, ih row (by simpa using h)]; rfl

theorem pushRow_spec {α : Type} {cols cols' : List (List α)} {row : List α}
    (h : pushRow cols row = .ok cols') : cols'.length = cols.length ∧
      ∀ j (h1 : j < cols.length) (h2 : j < cols'.length), cols'[j] = cols[j] ++ row[j]?.toList := by
  induction cols generalizing row cols' with
  | nil => cases row with
    | nil => simp_all [pushRow]
    | cons => simp [pushRow] at h
  | cons c cols ih => cases row with
    | nil =>
      simp only [pushRow, Except.ok.injEq] at h
      subst h; simp
    | cons e row =>
      rw [pushRow] at h
      obtain ⟨c', h', h⟩ := bind_eq_ok.1 h
      simp only [R_pure, Except.ok.injEq] at h
      subst h
      obtain ⟨i1, i2⟩ := ih h'
      refine ⟨by simp [i1], ?_⟩
      intro j h1 h2
      cases j with
      | zero => simp
      | succ j => simpa using i2 j (by simpa using h1) (by simpa using h2)

theorem pushRows_ok_iff {α : Type} (rs : List (List α)) (cols : List (List α)) :
    (∃ c, pushRows cols rs = .ok c) ↔ ∀ row ∈ rs, row.length ≤ cols.length := by
  induction rs generalizing cols with
  | nil => simp [pushRows]
  | cons row rs ih =>
    rw [pushRows]
    constructor
    · rintro ⟨c, h⟩
      obtain ⟨c', h', h⟩ := bind_eq_ok.1 h
      have hl := (pushRow_spec h').1
      have h1 := (pushRow_ok_iff _ _).1 ⟨_, h'⟩
      have h2 := (ih c').1 ⟨_, h⟩
      intro r hr
      rcases List.mem_cons.1 hr with rfl | hr
      · exact h1
      · rw [← hl]; exact h2 r hr
    · intro h
      obtain ⟨c', h'⟩ := (pushRow_ok_iff cols row).2 (h row (by simp))
      have hl := (pushRow_spec h').1
      rw [h']
      exact (ih c').2 fun r hr => by rw [hl]; exact h r (by simp [hr])

theorem pushRows_error {α : Type} (rs : List (List α)) (cols : List (List α))
    (h : ∃ row ∈ rs, cols.length < row.length) : pushRows cols rs = .error .indexOOB := by
  induction rs generalizing cols with
  | nil => simp at h
  | cons row rs ih =>
    rw [pushRows]
    by_cases hl : row.length ≤ cols.length
    · obtain ⟨c', h'⟩ := (pushRow_ok_iff cols row).2 hl
      rw [h', ok_bind]
      apply ih
      obtain ⟨r, hr, hr'⟩ := h
      rcases List.mem_cons.1 hr with rfl | hr
      · omega
      · exact ⟨r, hr, by rw [(pushRow_spec h').1]; exact hr'⟩
    · rw [pushRow_error _ _ (by omega)]; rfl

theorem pushRows_spec {α : Type} {rs : List (List α)} {cols cols' : List (List α)}
    (h : pushRows cols rs = .ok cols') : cols'.length = cols.length ∧
      ∀ j (h1 : j < cols.length) (h2 : j < cols'.length),
        cols'[j] = cols[j] ++ rs.filterMap (fun row => row[j]?) := by
  induction rs generalizing cols with
  | nil =>
    simp only [pushRows, Except.ok.injEq] at h
    subst h; simp
  | cons row rs ih =>
    rw [pushRows] at h
    obtain ⟨c', h', h⟩ := bind_eq_ok.1 h
    obtain ⟨i1, i2⟩ := pushRow_spec h'
    obtain ⟨j1, j2⟩ := ih h
    refine ⟨by omega, ?_⟩
    intro j h1 h2
    rw [j2 j (by omega) h2, i2 j h1 (by omega), List.filterMap_cons]
    cases row[j]? <;> simp

/-- Column `j` of the result holds, in order, the `j`-th entries of the rows that have one. -/
theorem pushRows_replicate {α : Type} {rs : List (List α)} {n : Nat}
    (h : ∀ row ∈ rs, row.length ≤ n) :
    pushRows (List.replicate n []) rs =
      .ok (List.ofFn fun j : Fin n => rs.filterMap fun row => row[j.val]?) := by
  obtain ⟨c, hc⟩ := (pushRows_ok_iff rs (List.replicate n [])).2 (by simpa using h)
  obtain ⟨h1, h2⟩ := pushRows_spec hc
  rw [hc]
  congr 1
  apply List.ext_getElem
  · simpa using h1
  · intro j h3 h4
    rw [h2 j (by simp at h4 ⊢; omega) h3]
    simp

theorem matrixTranspose_rows {m n : Nat} (M : Matrix (Fin m) (Fin n) T) (hm : 0 < m) :
    matrixTranspose (rows M) = .ok (rows M.transpose) := by
  unfold matrixTranspose
  rw [idx_lt (by simpa using hm)]
  simp only [ok_bind, getElem_rows, List.length_ofFn]
  rw [pushRows_replicate (fun row h => (width_rows M row h).le)]
  congr 1
  apply List.ext_getElem
  · simp
  · intro j h1 h2
    have hj : j < n := by simpa using h1
    simp only [List.getElem_ofFn, rows]
    rw [show (List.filterMap (fun row => row[j]?) (List.ofFn fun i => List.ofFn (M i))) =
      List.filterMap (fun row => row[j]?) (List.map (fun i => List.ofFn (M i)) (List.finRange m)) by
        rw [List.ofFn_eq_map], List.filterMap_map,
      show ((fun row : List T => row[j]?) ∘ fun i => List.ofFn (M i)) =
        fun i => some (M i ⟨j, hj⟩) by funext i; simp [hj], List.ofFn_eq_map]
    exact List.filterMap_eq_map' (f := fun i => M i ⟨j, hj⟩) ▸ rfl

/-! ### Splitting -/

theorem chunksAux_getElem? {α : Type} {c : Nat} (hc : 0 < c) : ∀ (f : Nat) (l : List α),
    l.length ≤ f → ∀ b, (chunksAux c f l)[b]? =
      if b * c < l.length then some ((l.drop (b * c)).take c) else none := by
  intro f
  induction f with
  | zero =>
    intro l h b
    have : l = [] := by cases l <;> simp_all
    subst this; simp [chunksAux]
  | succ f ih =>
    intro l h b
    cases l with
    | nil => simp [chunksAux]
    | cons a l =>
      rw [chunksAux]
      cases b with
      | zero => simp
      | succ b =>
        rw [List.getElem?_cons_succ, ih _ (by simp at h ⊢; omega)]
        simp only [List.length_drop, List.drop_drop, Nat.succ_mul]
        have : (b * c < (a :: l).length - c) ↔ (b * c + c < (a :: l).length) := by omega
        simp only [this, Nat.add_comm c]

theorem chunks_getElem? {α : Type} {c : Nat} (hc : 0 < c) (l : List α) (b : Nat) :
    (chunks c l)[b]? = if b * c < l.length then some ((l.drop (b * c)).take c) else none :=
  chunksAux_getElem? hc _ _ (le_refl _) b

theorem chunks_flatten {α : Type} {c : Nat} (hc : 0 < c) (l : List α) :
    (chunks c l).flatten = l := by
  unfold chunks
  suffices h : ∀ f (l : List α), l.length ≤ f → (chunksAux c f l).flatten = l from h _ l le_rfl
  intro f
  induction f with
  | zero => intro l h; cases l <;> simp_all [chunksAux]
  | succ f ih =>
    intro l h
    cases l with
    | nil => simp [chunksAux]
    | cons a l =>
      rw [chunksAux, List.flatten_cons, ih _ (by simp at h ⊢; omega), List.take_append_drop]

theorem chunks_length {α : Type} {c : Nat} (hc : 0 < c) {l : List α} {q : Nat}
    (h : l.length = q * c) : (chunks c l).length = q := by
  apply Nat.le_antisymm
  · rw [← Nat.not_lt]
    intro hlt
    have := chunks_getElem? hc l q
    rw [List.getElem?_eq_getElem hlt, h] at this
    simp at this
  · rw [← Nat.not_lt]
    intro hlt
    have := chunks_getElem? hc l (chunks c l).length
    rw [List.getElem?_eq_none (le_refl _), h] at this
    simp [hc, hlt] at this

end Qesa
