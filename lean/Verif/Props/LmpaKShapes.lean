import Verif.Proofs.KShapes
import Verif.Props.AlmShapes
import Verif.Props.FloatTests
import Verif.Props.LmpaK
/- C85: exactly when the k-ary functions of src/lmpa return. -/
namespace Qesa.Props
open Qesa Spec Lmpa LmpaK
set_option linter.unusedSectionVars false
section
variable {T : Type}

/-- The rows that are not empty. -/
def nonEmpty (A : List (List T)) : List (List T) := A.filter fun row => row ≠ []

theorem chunk_length {c : Nat} (hc : 0 < c) {row v : List T} {i : Nat} (h : (chunks c row)[i]? = some v) :
    i * c < row.length ∧ v.length = min c (row.length - i * c) := by
  rw [chunks_getElem? hc] at h
  split at h
  · next hl =>
    rw [Option.some.injEq] at h
    subst h
    exact ⟨hl, by simp⟩
  · cases h

theorem chunk_count {c i : Nat} (hc : 0 < c) (A : List (List T)) :
    (A.filterMap fun row => (chunks c row)[i]?).length ≤
      (A.filterMap fun row => (chunks c row)[0]?).length := by
  induction A with
  | nil => simp
  | cons row A ih =>
    simp only [List.filterMap_cons]
    cases h : (chunks c row)[i]? with
    | none => cases (chunks c row)[0]? <;> simp <;> omega
    | some v =>
      have := (chunk_length hc h).1
      have e : (chunks c row)[0]? = some ((row.drop (0 * c)).take c) := by
        rw [chunks_getElem? hc, if_pos (by omega)]
      rw [e]
      simpa using ih

theorem chunk_zero_count {c : Nat} (hc : 0 < c) (A : List (List T)) :
    (A.filterMap fun row => (chunks c row)[0]?).length = (nonEmpty A).length := by
  unfold nonEmpty
  induction A with
  | nil => rfl
  | cons row A ih =>
    simp only [List.filterMap_cons, List.filter_cons]
    cases row with
    | nil =>
      rw [chunks_getElem? hc, if_neg (by simp)]
      simpa using ih
    | cons x row =>
      rw [chunks_getElem? hc, if_pos (by simp)]
      simpa using ih

/-- If the first and the last block have the same shape, every row is empty or reaches the end. -/
theorem rows_long {c k : Nat} (hc : 0 < c) (hk : 2 ≤ k) (A : List (List T))
    (h : lens (A.filterMap fun row => (chunks c row)[0]?) =
      lens (A.filterMap fun row => (chunks c row)[k - 1]?)) :
    (∀ row ∈ A, row = [] ∨ k * c ≤ row.length) := by
  have hkc : k * c = (k - 1) * c + c := by
    obtain ⟨k', rfl⟩ : ∃ k', k = k' + 1 := ⟨k - 1, by omega⟩
    rw [Nat.add_sub_cancel, Nat.succ_mul]
  have hkc1 : c ≤ (k - 1) * c := Nat.le_mul_of_pos_left c (by omega)
  induction A with
  | nil => simp
  | cons row A ih =>
    by_cases hr : row = []
    · subst hr
      have e : ∀ i : Nat, (chunks c ([] : List T))[i]? = none := by
        intro i; rw [chunks_getElem? hc, if_neg (by simp)]
      simp only [List.filterMap_cons, e] at h
      intro r hr
      rcases List.mem_cons.1 hr with rfl | hr
      · exact .inl rfl
      · exact ih h r hr
    have h0 : 0 < row.length := List.length_pos_iff.2 hr
    have e0 : (chunks c row)[0]? = some ((row.drop (0 * c)).take c) := by
      rw [chunks_getElem? hc, if_pos (by omega)]
    cases e1 : (chunks c row)[k - 1]? with
    | none =>
      simp only [List.filterMap_cons, e0, e1] at h
      have h := congrArg List.length h
      simp only [lens, List.length_map, List.length_cons] at h
      have := chunk_count (i := k - 1) hc A
      omega
    | some v =>
      simp only [List.filterMap_cons, e0, e1, lens, List.map_cons, List.cons.injEq] at h
      obtain ⟨a1, a2⟩ := chunk_length hc e0
      obtain ⟨b1, b2⟩ := chunk_length hc e1
      intro r hr
      rcases List.mem_cons.1 hr with rfl | hr
      · right; have := h.1; omega
      · exact ih h.2 r hr

/-- Block `i < k` if every row is empty or has at least `k c` entries. -/
theorem block_lens {c k i : Nat} (hc : 0 < c) (hi : i < k) (A : List (List T))
    (h : ∀ row ∈ A, row = [] ∨ k * c ≤ row.length) :
    lens (A.filterMap fun row => (chunks c row)[i]?) = List.replicate (nonEmpty A).length c := by
  have hkc : i * c + c ≤ k * c := by
    rw [← Nat.succ_mul]; exact Nat.mul_le_mul_right c hi
  unfold nonEmpty
  induction A with
  | nil => rfl
  | cons row A ih =>
    have ih := ih fun r hr => h r (List.mem_cons_of_mem _ hr)
    simp only [List.filterMap_cons, List.filter_cons]
    rcases h row List.mem_cons_self with rfl | hr
    · rw [chunks_getElem? hc, if_neg (by simp)]
      simpa using ih
    · have h0 : row ≠ [] := by rintro rfl; simp at hr; omega
      rw [chunks_getElem? hc, if_pos (by omega)]
      simp only [h0, ne_eq, not_false_eq_true, decide_true, if_true, lens, List.map_cons, List.length_cons,
        List.replicate_succ, List.cons.injEq]
      exact ⟨by simp; omega, ih⟩

theorem lens_replicate {A : List (List T)} {m c : Nat} (h : lens A = List.replicate m c) :
    A.length = m ∧ Width c A := by
  refine ⟨by rw [← lens_length A, h, List.length_replicate], ?_⟩
  intro row hr
  have : row.length ∈ lens A := List.mem_map_of_mem hr
  rw [h] at this
  exact (List.mem_replicate.1 this).2

theorem nonEmpty_width {A : List (List T)} {c : Nat} (hc : 0 < c) (h : Width c A) : nonEmpty A = A := by
  unfold nonEmpty
  rw [List.filter_eq_self]
  intro row hr
  have := h row hr
  simp only [ne_eq, decide_eq_true_eq]
  rintro rfl
  simp at this; omega

theorem matrixSplit_nonEmpty {A : List (List T)} {c : Nat} (h0 : A.headD [] ≠ []) :
    ∀ AT, matrixSplit (nonEmpty A) c = .ok AT → matrixSplit A c = .ok AT := by
  intro AT h
  obtain ⟨row, A, rfl⟩ : ∃ row A', A = row :: A' := by
    cases A with
    | nil => simp at h0
    | cons row A => exact ⟨row, A, rfl⟩
  rw [List.headD_cons] at h0
  have e : nonEmpty (row :: A) = row :: nonEmpty A := by
    unfold nonEmpty
    rw [List.filter_cons, if_pos (by simpa using h0)]
  obtain ⟨a1, a2, a3, a4, a5, a6⟩ := matrixSplit_shape h
  rw [e, List.headD_cons] at a3 a4 a5
  have hle : ∀ r ∈ row :: A, r.length ≤ row.length := by
    intro r hr
    by_cases hr0 : r = []
    · subst hr0; simp
    · rw [← e] at a5
      exact a5 r (List.mem_filter.2 ⟨hr, by simpa using hr0⟩)
  obtain ⟨AT', h'⟩ := matrixSplit_returns (A := row :: A) (by simp) a2 (by simpa using a3)
    (by simpa using hle)
  obtain ⟨b1, b2, b3, b4, b5, b6⟩ := matrixSplit_shape h'
  rw [List.headD_cons] at b4
  rw [h', Except.ok.injEq]
  apply List.ext_getElem? 
  intro i
  by_cases hi : i < AT.length
  · rw [a6 i hi, b6 i (by omega)]
    congr 1
    unfold nonEmpty
    rw [List.filterMap_filter]
    apply List.filterMap_congr
    intro r _
    by_cases hr : r = []
    · subst hr
      rw [if_neg (by simp), chunks_getElem? a2, if_neg (by simp)]
    · rw [if_pos (by simpa using hr)]
  · rw [List.getElem?_eq_none (by omega), List.getElem?_eq_none (by omega)]
end

variable {F G : Type} [Field F] [DecidableEq F] [AddCommGroup G] [Module F G]

/-- One round of the prover, read backwards. -/
theorem createKLoop_inv (cx : Ctx G) (m k : Nat) (one : F) (zero : G) (fuel n : Nat) (A : List (List G))
    (w : List F) (t : List G) (tr : Transcript) (r) (hk : 2 ≤ k) (hn : k ≤ n)
    (h : createKLoop cx m k one zero (fuel + 1) n A w t tr = .ok r) :
    (A.headD []).length = k * (n / k) ∧ w.length = k * (n / k) ∧ t.length = m ∧
      (nonEmpty A).length = m ∧ (∀ row ∈ A, row = [] ∨ row.length = k * (n / k)) ∧
      ∃ A' w' t' tr' r', createKLoop cx m k one zero fuel (n / k) A' w' t' tr' = .ok r' ∧
        lens A' = List.replicate m (n / k) ∧ w'.length = n / k ∧ t'.length = m := by
  rw [createKLoop, if_neg (by omega), if_neg (by omega)] at h
  obtain ⟨AT, hAT, h⟩ := bind_eq_ok.1 h
  obtain ⟨wT, hwT, h⟩ := bind_eq_ok.1 h
  obtain ⟨u, hu, h⟩ := bind_eq_ok.1 h
  obtain ⟨xs, hxs, h⟩ := bind_eq_ok.1 h
  obtain ⟨ys, hys, h⟩ := bind_eq_ok.1 h
  obtain ⟨zs, hzs, h⟩ := bind_eq_ok.1 h
  obtain ⟨A', hA', h⟩ := bind_eq_ok.1 h
  obtain ⟨wM, hwM, h⟩ := bind_eq_ok.1 h
  obtain ⟨w', hw', h⟩ := bind_eq_ok.1 h
  obtain ⟨t', ht', h⟩ := bind_eq_ok.1 h
  obtain ⟨r', hr', h⟩ := bind_eq_ok.1 h
  generalize hcd : n / k = c at *
  obtain ⟨a1, a2, a3, a4, a5, a6⟩ := matrixSplit_shape hAT
  obtain ⟨b1, -, b3, b4, -, b6⟩ := matrixSplit_shape hwT
  simp only [List.headD_cons] at b3 b4
  have hwT' : ∀ B ∈ wT, ∃ b, B = [b] ∧ b.length = c := by
    intro B hB
    obtain ⟨i, hi, rfl⟩ := List.mem_iff_getElem.1 hB
    have e := b6 i hi
    rw [List.getElem?_eq_getElem hi, Option.some.injEq] at e
    have hlt : i * c + c ≤ w.length := by
      rw [← Nat.succ_mul]
      calc (i + 1) * c ≤ (w.length / c) * c := Nat.mul_le_mul_right c (by omega)
        _ = w.length := Nat.div_mul_cancel b3
    rw [List.filterMap_cons, chunks_getElem? a2, if_pos (by omega)] at e
    exact ⟨_, e, by simp; omega⟩
  obtain ⟨hwl, v, rfl, hv⟩ := combineW_shape (by omega) hwT' hwM
  have hblk := combineA_shape (by omega) hA'
  have hAl : k ≤ AT.length := by
    obtain ⟨B, hB, -⟩ := hblk (k - 1) (by omega)
    have := (List.getElem?_eq_some_iff.1 hB).1
    omega
  have hoff : OffLen (k - 1) m (List.replicate (2 * (k - 1) + 1) (List.replicate m zero)) := by
    intro l v _ hv
    have := List.mem_of_getElem? hv
    rw [List.mem_replicate] at this
    rw [this.2, List.length_replicate]
  obtain ⟨c1, -, c3, c4⟩ := uOuter_shape t (k - 1) m wT (by omega) AT 0 _ u hu hoff
  simp only [List.length_replicate, Nat.zero_add] at c4
  have hAk : AT.length = k := by
    have := (c4 (AT.length - 1) (by omega) 0 (by omega)).1
    omega
  have hwk : wT.length = k := by
    have := (c4 0 (by omega) (wT.length - 1) (by omega)).2.1
    omega
  have hW : (A.headD []).length = k * c := by
    rw [← Nat.div_mul_cancel a3, ← a4, hAk]
  have hwW : w.length = k * c := by
    rw [← Nat.div_mul_cancel b3, ← b4, hwk]
  have hu2 := combineT_shape (by omega) ht'
  have htm : t'.length = m ∧ t.length = m := by
    obtain ⟨v0, d1, d2⟩ := hu2 0 (by omega)
    obtain ⟨v1, d3, d4⟩ := hu2 (k - 1) (by omega)
    have d5 := c1 0 v0 (by omega) d1
    rw [c3 rfl (by omega), Option.some.injEq] at d3
    subst d3
    omega
  have hlens : ∀ i < k, lens (A.filterMap fun row => (chunks c row)[i]?) = lens A' := by
    intro i hi
    obtain ⟨B, d1, d2⟩ := hblk i hi
    rw [a6 i (by omega), Option.some.injEq] at d1
    rw [d1, d2]
  have hrows := rows_long a2 hk A ((hlens 0 (by omega)).trans (hlens (k - 1) (by omega)).symm)
  have hmA : (nonEmpty A).length = m := by
    rw [← chunk_zero_count a2]
    exact (c4 0 (by omega) 1 (by omega)).2.2 _ (a6 0 (by omega)) (by omega)
  refine ⟨hW, hwW, htm.2, hmA, ?_, A', w', t', _, r', hr', ?_, ?_, htm.1⟩
  · intro row hr
    rcases hrows row hr with h | h
    · exact .inl h
    · right; have := a5 row hr; omega
  · rw [← hlens 0 (by omega), block_lens a2 (by omega) A hrows, hmA]
  · simp only [List.getLast?_singleton, unwrapR, Except.ok.injEq] at hw'
    rw [← hw', hv]

theorem createKLoop_rect (cx : Ctx G) (m k : Nat) (one : F) (zero : G) (hk : 2 ≤ k) (hm : 0 < m) :
    ∀ (fuel n : Nat) (A : List (List G)) (w : List F) (t : List G) (tr : Transcript) (r),
      0 < n → lens A = List.replicate m n → createKLoop cx m k one zero fuel n A w t tr = .ok r →
      ∃ c d, 0 < c ∧ c < k ∧ n = c * k ^ d := by
  intro fuel
  induction fuel with
  | zero => intro n A w t tr r _ _ h; cases h
  | succ fuel ih =>
    intro n A w t tr r hn hA h
    by_cases hnk : n < k
    · exact ⟨n, 0, hn, hnk, by simp⟩
    obtain ⟨h1, -, -, -, -, A', w', t', tr', r', h2, h3, -, -⟩ :=
      createKLoop_inv cx m k one zero fuel n A w t tr r hk (by omega) h
    obtain ⟨c, d, hc, hck, e⟩ := ih (n / k) A' w' t' tr' r' (Nat.div_pos (by omega) (by omega)) h3 h2
    refine ⟨c, d + 1, hc, hck, ?_⟩
    obtain ⟨e1, e2⟩ := lens_replicate hA
    have : (A.headD []).length = n := by
      cases A with
      | nil => simp at e1; omega
      | cons row A => exact e2 row List.mem_cons_self
    rw [← this, h1, e, pow_succ]; ring

theorem createKLoop_one_never (cx : Ctx G) (m : Nat) (one : F) (zero : G) :
    ∀ (fuel n : Nat) (A : List (List G)) (w : List F) (t : List G) (tr : Transcript) (r),
      0 < n → createKLoop cx m 1 one zero fuel n A w t tr ≠ .ok r := by
  intro fuel
  induction fuel with
  | zero => intro n A w t tr r _ h; cases h
  | succ fuel ih =>
    intro n A w t tr r hn h
    rw [createKLoop, if_neg (by omega), if_neg (by omega)] at h
    obtain ⟨AT, hAT, h⟩ := bind_eq_ok.1 h
    obtain ⟨wT, hwT, h⟩ := bind_eq_ok.1 h
    obtain ⟨u, hu, h⟩ := bind_eq_ok.1 h
    obtain ⟨xs, hxs, h⟩ := bind_eq_ok.1 h
    obtain ⟨ys, hys, h⟩ := bind_eq_ok.1 h
    obtain ⟨zs, hzs, h⟩ := bind_eq_ok.1 h
    obtain ⟨A', hA', h⟩ := bind_eq_ok.1 h
    obtain ⟨wM, hwM, h⟩ := bind_eq_ok.1 h
    obtain ⟨w', hw', h⟩ := bind_eq_ok.1 h
    obtain ⟨t', ht', h⟩ := bind_eq_ok.1 h
    obtain ⟨r', hr', h⟩ := bind_eq_ok.1 h
    exact ih _ _ _ _ _ _ (by rw [Nat.div_one]; exact hn) hr'

/-- The loop does not see empty rows after the first row, nor what `n` has above a multiple of `k`. -/
theorem createKLoop_nonEmpty (cx : Ctx G) (m k : Nat) (one : F) (zero : G) (fuel n : Nat)
    (A : List (List G)) (w : List F) (t : List G) (tr : Transcript) (hk : 0 < k) (hn : k ≤ n)
    (h0 : A.headD [] ≠ []) :
    (∃ r, createKLoop cx m k one zero (fuel + 1) (k * (n / k)) (nonEmpty A) w t tr = .ok r) →
      ∃ r, createKLoop cx m k one zero (fuel + 1) n A w t tr = .ok r := by
  rintro ⟨r, h⟩
  have hq : 0 < n / k := Nat.div_pos hn hk
  have hkq : k ≤ k * (n / k) := Nat.le_mul_of_pos_right k hq
  refine ⟨r, ?_⟩
  rw [createKLoop, if_neg (by omega), if_neg (by omega), Nat.mul_div_cancel_left _ hk] at h
  obtain ⟨AT, hAT, h⟩ := bind_eq_ok.1 h
  rw [createKLoop, if_neg (by omega), if_neg (by omega)]
  dsimp only
  rw [matrixSplit_nonEmpty h0 AT hAT]
  exact h

/-- C85: `create_lmpa_noZK` returns exactly when `n < k`, or `k ≥ 2` and there are `c`, `d` with
`0 < c < k` such that, with `W = c k^(d+1)`: `n` is at least `W` and less than `W + k`, `w` has `W`
entries, `t` has `m` entries, the first row of `A` is not empty, every row is empty or has `W` entries,
and `m` rows are not empty. -/
theorem C85_lmpaK_create_returns_iff (cx : Ctx G) (tr : Transcript) (A : List (List G)) (w : List F)
    (t : List G) (n m k : Nat) :
    (∃ fuel r, createK cx fuel tr A w t n m k 1 0 = .ok r) ↔
      n < k ∨ 2 ≤ k ∧ ∃ c d, 0 < c ∧ c < k ∧ c * k ^ (d + 1) ≤ n ∧ n < c * k ^ (d + 1) + k ∧
        w.length = c * k ^ (d + 1) ∧ t.length = m ∧ A.headD [] ≠ [] ∧
        (A.filter fun row => row ≠ []).length = m ∧ ∀ row ∈ A, row = [] ∨ row.length = c * k ^ (d + 1) := by
  by_cases hnk : n < k
  · simp only [hnk, true_or, iff_true]
    exact ⟨1, _, by rw [createK, createKLoop, if_pos hnk]⟩
  constructor
  · rintro ⟨fuel, r, h⟩
    right
    cases fuel with
    | zero => cases h
    | succ fuel =>
    unfold createK at h
    have hk : 2 ≤ k := by
      by_contra hk
      have : k = 0 ∨ k = 1 := by omega
      rcases this with rfl | rfl
      · rw [createKLoop, if_neg hnk, if_pos rfl] at h; cases h
      · exact createKLoop_one_never cx m 1 0 _ n A w t tr r (by omega) h
    obtain ⟨h1, h2, h3, h4, h5, A', w', t', tr', r', h6, h7, -, -⟩ :=
      createKLoop_inv cx m k 1 0 fuel n A w t tr r hk (by omega) h
    have hq : 0 < n / k := Nat.div_pos (by omega) (by omega)
    have hA0 : A.headD [] ≠ [] := by
      rw [← List.length_pos_iff, h1]; exact Nat.mul_pos (by omega) hq
    have hm : 0 < m := by
      rw [← h4]
      cases A with
      | nil => simp at hA0
      | cons row A =>
        rw [List.headD_cons] at hA0
        unfold nonEmpty
        rw [List.filter_cons, if_pos (by simpa using hA0)]
        simp
    obtain ⟨c, d, hc, hck, e⟩ := createKLoop_rect cx m k 1 0 hk hm fuel (n / k) A' w' t' tr' r' hq h7 h6
    have e' : c * k ^ (d + 1) = k * (n / k) := by rw [e, pow_succ]; ring
    refine ⟨hk, c, d, hc, hck, ?_, ?_, ?_, h3, hA0, h4, ?_⟩
    · rw [e']; exact Nat.mul_div_le n k
    · rw [e']; exact Nat.lt_mul_div_succ n (by omega)
    · rw [e', h2]
    · rw [e']; exact h5
  · rintro (h | ⟨hk, c, d, hc, hck, h1, h2, h3, h4, h5, h6, h7⟩)
    · exact absurd h hnk
    have hpow : 0 < c * k ^ d := Nat.mul_pos hc (Nat.pow_pos (by omega))
    have hq : n / k = c * k ^ d := by
      rw [pow_succ, ← Nat.mul_assoc] at h1 h2
      apply Nat.div_eq_of_lt_le
      · exact h1
      · rw [Nat.succ_mul]; exact h2
    have e' : c * k ^ (d + 1) = k * (n / k) := by rw [hq, pow_succ]; ring
    have hw : Width (c * k ^ (d + 1)) (nonEmpty A) := by
      intro row hr
      obtain ⟨hr, hr0⟩ := List.mem_filter.1 hr
      rcases h7 row hr with h | h
      · simp [h] at hr0
      · exact h
    have hm : 0 < m := by
      rw [← h6]
      cases A with
      | nil => simp at h5
      | cons row A =>
        rw [List.headD_cons] at h5
        rw [List.filter_cons, if_pos (by simpa using h5)]
        simp
    obtain ⟨M, hM⟩ := exists_rows' h6 hw
    obtain ⟨v, hv⟩ := exists_ofFn h3
    obtain ⟨tt, htt⟩ := exists_ofFn h4
    obtain ⟨p, hp, -⟩ := createKLoop_eq cx hm hc hck (d + 1) _ (d + 2) M v tt tr rfl (by omega)
    refine ⟨d + 1 + 1, createKLoop_nonEmpty cx m k 1 0 (d + 1) n A w t tr (by omega) (by omega) h5
      ⟨(p, ⟨tr.log ++ kLog cx p.u_proof_Block⟩), ?_⟩⟩
    rw [← e', show nonEmpty A = rows M from hM, hv, htt]
    exact hp

/-- C85: `create_general` returns on the same inputs, whatever the random tape. -/
theorem C85_general_create_returns_iff (cx : Ctx G) (tr : Transcript) (tape : Tape F) (A : List (List G))
    (w : List F) (t : List G) (n m k : Nat) :
    (∃ fuel r, createGeneral cx fuel tr tape A w t n m k = .ok r) ↔
      n < k ∨ 2 ≤ k ∧ ∃ c d, 0 < c ∧ c < k ∧ c * k ^ (d + 1) ≤ n ∧ n < c * k ^ (d + 1) + k ∧
        w.length = c * k ^ (d + 1) ∧ t.length = m ∧ A.headD [] ≠ [] ∧
        (A.filter fun row => row ≠ []).length = m ∧ ∀ row ∈ A, row = [] ∨ row.length = c * k ^ (d + 1) := by
  rw [← C85_lmpaK_create_returns_iff cx (challengeScalar (F := F) cx.ro (absorb cx "a"
    (matrixpointVectorMul A (drawN n tape).1) tr) "beta").2 A w t n m k]
  refine exists_congr fun fuel => ?_
  constructor
  · rintro ⟨r, h⟩
    obtain ⟨r', h', -⟩ := bind_eq_ok.1 h
    exact ⟨r', h'⟩
  · intro h
    exact bind_returns h fun _ => ⟨_, rfl⟩

/-- The message `u` of a round can be used: its first `2k - 1` entries exist and have `l` entries. -/
def GoodMsg (k l : Nat) (u : List (List G)) : Prop :=
  2 * k - 1 ≤ u.length ∧ ∀ v ∈ u.take (2 * k - 1), v.length = l

/-- The shape of `A` that a round with blocks of `c` columns needs. -/
def GoodMat (k c : Nat) (A : List (List G)) : Prop :=
  A ≠ [] ∧ c ∣ (A.headD []).length ∧ (∀ row ∈ A, row.length ≤ (A.headD []).length) ∧
    k * c ≤ (A.headD []).length ∧ ∀ row ∈ A, row = [] ∨ k * c ≤ row.length

theorem verifyKLoop_inv (cx : Ctx G) (p : LmpaNoZK F G) (k : Nat) (one : F) (fuel ci n : Nat)
    (A : List (List G)) (t : List G) (tr : Transcript) (r) (hk : 2 ≤ k) (hn : k ≤ n)
    (h : verifyKLoop cx p k one (fuel + 1) ci n A t tr = .ok r) :
    GoodMat k (n / k) A ∧ ∃ u l, p.u_proof_Block[ci]? = some u ∧ GoodMsg k l u := by
  rw [verifyKLoop, if_neg (by omega), if_neg (by omega)] at h
  obtain ⟨AT, hAT, h⟩ := bind_eq_ok.1 h
  obtain ⟨u, hu, h⟩ := bind_eq_ok.1 h
  obtain ⟨xs, hxs, h⟩ := bind_eq_ok.1 h
  obtain ⟨ys, hys, h⟩ := bind_eq_ok.1 h
  obtain ⟨zs, hzs, h⟩ := bind_eq_ok.1 h
  obtain ⟨A', hA', h⟩ := bind_eq_ok.1 h
  obtain ⟨t', ht', h⟩ := bind_eq_ok.1 h
  generalize hcd : n / k = c at *
  obtain ⟨a1, a2, a3, a4, a5, a6⟩ := matrixSplit_shape hAT
  have hblk := combineA_shape (by omega) hA'
  have hAl : k ≤ AT.length := by
    obtain ⟨B, hB, -⟩ := hblk (k - 1) (by omega)
    have := (List.getElem?_eq_some_iff.1 hB).1
    omega
  have hlens : ∀ i < k, lens (A.filterMap fun row => (chunks c row)[i]?) = lens A' := by
    intro i hi
    obtain ⟨B, d1, d2⟩ := hblk i hi
    rw [a6 i (by omega), Option.some.injEq] at d1
    rw [d1, d2]
  have hrows := rows_long a2 hk A ((hlens 0 (by omega)).trans (hlens (k - 1) (by omega)).symm)
  have hu2 := combineT_shape (by omega) ht'
  refine ⟨⟨a1, a3, a5, ?_, hrows⟩, u, t'.length, idx_eq_ok.1 hu, ?_, ?_⟩
  · rw [← Nat.div_mul_cancel a3, ← a4]; exact Nat.mul_le_mul_right c hAl
  · obtain ⟨v, hv, -⟩ := hu2 (2 * (k - 1)) (by omega)
    have := (List.getElem?_eq_some_iff.1 hv).1
    omega
  · intro v hv
    obtain ⟨i, hi, rfl⟩ := List.mem_iff_getElem.1 hv
    rw [List.length_take] at hi
    obtain ⟨v', e1, e2⟩ := hu2 i (by omega)
    rw [List.getElem_take, ← e2]
    rw [List.getElem?_eq_getElem (by omega), Option.some.injEq] at e1
    rw [e1]

theorem verifyKLoop_step (cx : Ctx G) (p : LmpaNoZK F G) (k ci n l : Nat)
    (A : List (List G)) (t : List G) (tr : Transcript) (u : List (List G)) (hk : 2 ≤ k) (hn : k ≤ n)
    (hA : GoodMat k (n / k) A) (hu : p.u_proof_Block[ci]? = some u) (hu2 : GoodMsg k l u) :
    ∃ A' t' tr', (∀ fuel, verifyKLoop cx p k (1 : F) (fuel + 1) ci n A t tr =
        verifyKLoop cx p k 1 fuel (ci + 1) (n / k) A' t' tr') ∧
      lens A' = List.replicate (nonEmpty A).length (n / k) ∧ t'.length = l := by
  have hc : 0 < n / k := Nat.div_pos hn (by omega)
  obtain ⟨h1, h2, h3, h4, h5⟩ := hA
  obtain ⟨AT, hAT⟩ := matrixSplit_returns h1 hc h2 h3
  obtain ⟨-, -, -, a4, -, a6⟩ := matrixSplit_shape hAT
  have hAl : k ≤ AT.length := by
    rw [a4]; exact (Nat.le_div_iff_mul_le hc).2 h4
  set x : F := (challengeScalar (F := F) cx.ro (absorbAll cx "u_l" u tr) "challenge_x").1 with hx
  set tr' := (challengeScalar (F := F) cx.ro (absorbAll cx "u_l" u tr) "challenge_x").2 with htr'
  have hblk : ∀ j < k, ∃ B, AT[j]? = some B ∧ lens B = List.replicate (nonEmpty A).length (n / k) := by
    intro j hj
    exact ⟨_, a6 j (by omega), block_lens hc hj A h5⟩
  obtain ⟨A', hA'⟩ := combineA_returns (xs := List.ofFn fun i : Fin k => x ^ i.val) (by omega)
    (by simp) hblk
  have hblk' : ∀ j < 2 * (k - 1) + 1, ∃ v, u[j]? = some v ∧ v.length = l := by
    intro j hj
    have hju : j < u.length := by have := hu2.1; omega
    refine ⟨u[j], List.getElem?_eq_getElem hju, ?_⟩
    apply hu2.2
    rw [List.mem_iff_getElem]
    exact ⟨j, by rw [List.length_take]; omega, by rw [List.getElem_take]⟩
  obtain ⟨t', ht'⟩ := combineT_returns (zs := List.ofFn fun l : Fin (2 * (k - 1) + 1) => kWeight x k l)
    (by omega) (by simp) hblk'
  refine ⟨A', t', tr', ?_, ?_, ?_⟩
  · intro fuel
    rw [verifyKLoop, if_neg (by omega), if_neg (by omega)]
    dsimp only
    rw [hAT, ok_bind, idx_eq_ok.2 hu, ok_bind, ← hx, ← htr', vandemonde_pow x (by omega), ok_bind,
      vandemonde_pow x⁻¹ (by omega), ok_bind, z_eq k (by omega) x, ok_bind, hA', ok_bind, ht', ok_bind]
  · obtain ⟨B, e1, e2⟩ := combineA_shape (by omega) hA' 0 (by omega)
    obtain ⟨B', e3, e4⟩ := hblk 0 (by omega)
    rw [e1, Option.some.injEq] at e3
    subst e3
    rw [← e2, e4]
  · obtain ⟨v, e1, e2⟩ := combineT_shape (by omega) ht' 0 (by omega)
    obtain ⟨v', e3, e4⟩ := hblk' 0 (by omega)
    rw [e1, Option.some.injEq] at e3
    subst e3
    rw [← e2, e4]

theorem verifyKLoop_one_never (cx : Ctx G) (p : LmpaNoZK F G) (one : F) :
    ∀ (fuel ci n : Nat) (A : List (List G)) (t : List G) (tr : Transcript) (r),
      0 < n → verifyKLoop cx p 1 one fuel ci n A t tr ≠ .ok r := by
  intro fuel
  induction fuel with
  | zero => intro ci n A t tr r _ h; cases h
  | succ fuel ih =>
    intro ci n A t tr r hn h
    rw [verifyKLoop, if_neg (by omega), if_neg (by omega)] at h
    obtain ⟨AT, hAT, h⟩ := bind_eq_ok.1 h
    obtain ⟨u, hu, h⟩ := bind_eq_ok.1 h
    obtain ⟨xs, hxs, h⟩ := bind_eq_ok.1 h
    obtain ⟨ys, hys, h⟩ := bind_eq_ok.1 h
    obtain ⟨zs, hzs, h⟩ := bind_eq_ok.1 h
    obtain ⟨A', hA', h⟩ := bind_eq_ok.1 h
    obtain ⟨t', ht', h⟩ := bind_eq_ok.1 h
    exact ih _ _ _ _ _ _ (by rw [Nat.div_one]; exact hn) h

theorem verifyKLoop_rect (cx : Ctx G) (p : LmpaNoZK F G) (k m : Nat) (hk : 2 ≤ k) (hm : 0 < m) :
    ∀ (d n ci : Nat) (A : List (List G)) (t : List G) (tr : Transcript), 0 < n → Nat.log k n = d →
      lens A = List.replicate m n →
      ((∃ fuel r, verifyKLoop cx p k (1 : F) fuel ci n A t tr = .ok r ∧ r.1 ≠ []) ↔
        (∀ i < d, n / k ^ (i + 1) ∣ n / k ^ i) ∧
        (∀ i < d, ∃ u l, p.u_proof_Block[ci + i]? = some u ∧ GoodMsg k l u ∧ (i + 1 = d → l ≠ 0)) ∧
        (d = 0 → t ≠ [])) := by
  intro d
  induction d with
  | zero =>
    intro n ci A t tr hn hd hA
    have hnk : n < k := by
      rcases Nat.log_eq_zero_iff.1 hd with h | h <;> omega
    simp only [Nat.not_lt_zero, false_imp_iff, implies_true, true_and, true_imp_iff]
    constructor
    · rintro ⟨fuel, r, h, hr⟩
      cases fuel with
      | zero => cases h
      | succ fuel =>
        rw [verifyKLoop, if_pos hnk, Except.ok.injEq] at h
        subst h; exact hr
    · intro h
      exact ⟨1, (t, tr), by rw [verifyKLoop, if_pos hnk], h⟩
  | succ d ih =>
    intro n ci A t tr hn hd hA
    have hnk : k ≤ n := by
      by_contra h
      rw [Nat.log_of_lt (by omega)] at hd
      omega
    have hd' : Nat.log k (n / k) = d := by rw [Nat.log_div_base, hd]; omega
    have hq : 0 < n / k := Nat.div_pos hnk (by omega)
    obtain ⟨e1, e2⟩ := lens_replicate hA
    have hA0 : A ≠ [] := by rintro rfl; simp at e1; omega
    have hhead : (A.headD []).length = n := by
      cases A with
      | nil => exact absurd rfl hA0
      | cons row A => exact e2 row List.mem_cons_self
    have hgood : GoodMat k (n / k) A ↔ n / k ∣ n := by
      unfold GoodMat
      rw [hhead]
      constructor
      · rintro ⟨-, h, -⟩; exact h
      · intro h
        exact ⟨hA0, h, fun row hr => (e2 row hr).le, Nat.mul_div_le n k,
          fun row hr => .inr (by rw [e2 row hr]; exact Nat.mul_div_le n k)⟩
    have hdiv : ∀ i, n / k / k ^ i = n / k ^ (i + 1) := by
      intro i; rw [Nat.div_div_eq_div_mul, pow_succ, Nat.mul_comm]
    have hne : nonEmpty A = A := nonEmpty_width hn e2
    constructor
    · rintro ⟨fuel, r, h, hr⟩
      cases fuel with
      | zero => cases h
      | succ fuel =>
      obtain ⟨h1, u, l, h2, h3⟩ := verifyKLoop_inv cx p k 1 fuel ci n A t tr r hk hnk h
      obtain ⟨A', t', tr', h4, h5, h6⟩ := verifyKLoop_step (F := F) cx p k ci n l A t tr u hk hnk h1 h2 h3
      rw [hne, e1] at h5
      rw [h4] at h
      obtain ⟨i1, i2, i3⟩ := (ih (n / k) (ci + 1) A' t' tr' hq hd' h5).1 ⟨fuel, r, h, hr⟩
      refine ⟨?_, ?_, by simp⟩
      · intro i hi
        cases i with
        | zero => simpa using hgood.1 h1
        | succ i =>
          have := i1 i (by omega)
          rwa [hdiv, hdiv] at this
      · intro i hi
        cases i with
        | zero =>
          refine ⟨u, l, h2, h3, ?_⟩
          intro h0
          have := List.length_pos_iff.2 (i3 (by omega))
          omega
        | succ i =>
          obtain ⟨u', l', j1, j2, j3⟩ := i2 i (by omega)
          exact ⟨u', l', by rw [← j1]; congr 1; omega, j2, fun h => j3 (by omega)⟩
    · rintro ⟨h1, h2, -⟩
      obtain ⟨u, l, j1, j2, j3⟩ := h2 0 (by omega)
      have hg : GoodMat k (n / k) A := hgood.2 (by simpa using h1 0 (by omega))
      obtain ⟨A', t', tr', h4, h5, h6⟩ := verifyKLoop_step (F := F) cx p k ci n l A t tr u hk hnk hg j1 j2
      rw [hne, e1] at h5
      have hr1 : ∀ i < d, n / k / k ^ (i + 1) ∣ n / k / k ^ i := by
        intro i hi
        rw [hdiv, hdiv]; exact h1 (i + 1) (by omega)
      have hr2 : ∀ i < d, ∃ u l, p.u_proof_Block[ci + 1 + i]? = some u ∧ GoodMsg k l u ∧
          (i + 1 = d → l ≠ 0) := by
        intro i hi
        obtain ⟨u', l', j1, j2, j3⟩ := h2 (i + 1) (by omega)
        exact ⟨u', l', by rw [← j1]; congr 1; omega, j2, fun h => j3 (by omega)⟩
      have hr3 : d = 0 → t' ≠ [] := by
        intro h0
        rw [← List.length_pos_iff, h6]
        have := j3 (by omega)
        omega
      obtain ⟨fuel, r, h, hr⟩ := (ih (n / k) (ci + 1) A' t' tr' hq hd' h5).2 ⟨hr1, hr2, hr3⟩
      exact ⟨fuel + 1, r, by rw [h4, h], hr⟩

/-- C85: `verify_lmpa_noZK` returns exactly when `A_Matrix` of the proof is not empty and either `n < k` and
`t` is not empty, or `k ≥ 2`, `n ≥ k` and, with `c = n / k`: the first row of `A` exists, is at least as
long as the others, its length is a multiple of `c` and at least `k c`, every other row is empty or has
at least `k c` entries, in all later rounds the block size divides the width, and the messages of the
rounds have `2k - 1` entries of the same length, not zero in the last round. -/
theorem C85_lmpaK_verify_returns_iff [DecidableEq G] (cx : Ctx G) (p : LmpaNoZK F G) (tr : Transcript)
    (A : List (List G)) (t : List G) (n k : Nat) :
    (∃ fuel r, p.verify cx fuel tr A t n k 1 = .ok r) ↔ p.A_Matrix ≠ [] ∧
      (n < k ∧ t ≠ [] ∨ 2 ≤ k ∧ k ≤ n ∧ A ≠ [] ∧ n / k ∣ (A.headD []).length ∧
        k * (n / k) ≤ (A.headD []).length ∧
        (∀ row ∈ A, row = [] ∨ k * (n / k) ≤ row.length ∧ row.length ≤ (A.headD []).length) ∧
        (∀ i, 1 ≤ i → i < Nat.log k n → n / k ^ (i + 1) ∣ n / k ^ i) ∧
        ∀ i < Nat.log k n, ∃ u l, p.u_proof_Block[i]? = some u ∧ 2 * k - 1 ≤ u.length ∧
          (∀ v ∈ u.take (2 * k - 1), v.length = l) ∧ (i + 1 = Nat.log k n → l ≠ 0)) := by
  have key : (∃ fuel r, p.verify cx fuel tr A t n k 1 = .ok r) ↔
      p.A_Matrix ≠ [] ∧ ∃ fuel r, verifyKLoop cx p k (1 : F) fuel 0 n A t tr = .ok r ∧ r.1 ≠ [] := by
    constructor
    · rintro ⟨fuel, r, h⟩
      obtain ⟨r', h1, h⟩ := bind_eq_ok.1 h
      obtain ⟨e0, h2, h⟩ := bind_eq_ok.1 h
      obtain ⟨t0, h3, h⟩ := bind_eq_ok.1 h
      refine ⟨?_, fuel, r', h1, ?_⟩
      · intro h0
        rw [h0] at h2
        simp [matrixpointVectorMul, idx] at h2
      · intro h0
        rw [h0] at h3
        simp [idx] at h3
    · rintro ⟨h0, fuel, r, h1, h2⟩
      refine ⟨fuel, ?_⟩
      unfold LmpaNoZK.verify
      rw [h1, ok_bind]
      dsimp only
      rw [idx_lt (by simpa [matrixpointVectorMul] using List.length_pos_iff.2 h0), ok_bind,
        idx_lt (List.length_pos_iff.2 h2), ok_bind]
      exact ⟨_, rfl⟩
  rw [key]
  refine and_congr_right fun _ => ?_
  by_cases hnk : n < k
  · constructor
    · rintro ⟨fuel, r, h, hr⟩
      cases fuel with
      | zero => cases h
      | succ fuel =>
        rw [verifyKLoop, if_pos hnk, Except.ok.injEq] at h
        subst h; exact .inl ⟨hnk, hr⟩
    · rintro (⟨-, h⟩ | ⟨-, h, -⟩)
      · exact ⟨1, (t, tr), by rw [verifyKLoop, if_pos hnk], h⟩
      · omega
  simp only [hnk, false_and, false_or]
  have hnk := Nat.not_lt.1 hnk
  by_cases hk : 2 ≤ k
  swap
  · simp only [hk, false_and, iff_false]
    rintro ⟨fuel, r, h, -⟩
    cases fuel with
    | zero => cases h
    | succ fuel =>
    have : k = 0 ∨ k = 1 := by omega
    rcases this with rfl | rfl
    · rw [verifyKLoop, if_neg (by omega), if_pos rfl] at h; cases h
    · exact verifyKLoop_one_never cx p 1 _ 0 n A t tr r (by omega) h
  simp only [hk, hnk, true_and]
  have hq : 0 < n / k := Nat.div_pos hnk (by omega)
  obtain ⟨d, hd⟩ : ∃ d, Nat.log k n = d + 1 := by
    refine ⟨Nat.log k n - 1, ?_⟩
    have := Nat.log_pos (b := k) (n := n) (by omega) hnk
    omega
  have hd' : Nat.log k (n / k) = d := by rw [Nat.log_div_base, hd]; omega
  have hdiv : ∀ i, n / k / k ^ i = n / k ^ (i + 1) := by
    intro i; rw [Nat.div_div_eq_div_mul, pow_succ, Nat.mul_comm]
  have hmpos : GoodMat k (n / k) A → 0 < (nonEmpty A).length := by
    rintro ⟨h1, -, -, h4, -⟩
    cases A with
    | nil => exact absurd rfl h1
    | cons row A =>
      have h0 : row ≠ [] := by
        rw [← List.length_pos_iff]
        have := Nat.mul_pos (show 0 < k by omega) hq
        simp only [List.headD_cons] at h4
        omega
      unfold nonEmpty
      rw [List.filter_cons, if_pos (by simpa using h0)]
      simp
  rw [hd]
  constructor
  · rintro ⟨fuel, r, h, hr⟩
    cases fuel with
    | zero => cases h
    | succ fuel =>
    obtain ⟨h1, u, l, h2, h3⟩ := verifyKLoop_inv cx p k 1 fuel 0 n A t tr r hk hnk h
    obtain ⟨A', t', tr', h4, h5, h6⟩ := verifyKLoop_step (F := F) cx p k 0 n l A t tr u hk hnk h1 h2 h3
    rw [h4] at h
    obtain ⟨i1, i2, i3⟩ := (verifyKLoop_rect (F := F) cx p k _ hk (hmpos h1) d (n / k) 1 A' t' tr' hq hd'
      h5).1 ⟨fuel, r, h, hr⟩
    obtain ⟨g1, g2, g3, g4, g5⟩ := h1
    refine ⟨g1, g2, g4, fun row hr => (g5 row hr).imp id fun h => ⟨h, g3 row hr⟩, ?_, ?_⟩
    · intro i hi1 hi
      have := i1 (i - 1) (by omega)
      rwa [hdiv, hdiv, show i - 1 + 1 = i by omega] at this
    · intro i hi
      cases i with
      | zero =>
        refine ⟨u, l, h2, h3.1, h3.2, ?_⟩
        intro h0
        have := List.length_pos_iff.2 (i3 (by omega))
        omega
      | succ i =>
        obtain ⟨u', l', j1, j2, j3⟩ := i2 i (by omega)
        exact ⟨u', l', by rw [← j1]; congr 1; omega, j2.1, j2.2, fun h => j3 (by omega)⟩
  · rintro ⟨g1, g2, g4, g5, h1, h2⟩
    obtain ⟨u, l, j1, j2, j2', j3⟩ := h2 0 (by omega)
    have hg : GoodMat k (n / k) A := ⟨g1, g2, fun row hr => by
      rcases g5 row hr with h | h
      · simp [h]
      · exact h.2, g4, fun row hr => (g5 row hr).imp id And.left⟩
    obtain ⟨A', t', tr', h4, h5, h6⟩ :=
      verifyKLoop_step (F := F) cx p k 0 n l A t tr u hk hnk hg j1 ⟨j2, j2'⟩
    have hr1 : ∀ i < d, n / k / k ^ (i + 1) ∣ n / k / k ^ i := by
      intro i hi
      rw [hdiv, hdiv]; exact h1 (i + 1) (by omega) (by omega)
    have hr2 : ∀ i < d, ∃ u l, p.u_proof_Block[1 + i]? = some u ∧ GoodMsg k l u ∧
        (i + 1 = d → l ≠ 0) := by
      intro i hi
      obtain ⟨u', l', j1, j2, j2', j3⟩ := h2 (i + 1) (by omega)
      exact ⟨u', l', by rw [← j1]; congr 1; omega, ⟨j2, j2'⟩, fun h => j3 (by omega)⟩
    have hr3 : d = 0 → t' ≠ [] := by
      intro h0
      rw [← List.length_pos_iff, h6]
      have := j3 (by omega)
      omega
    obtain ⟨fuel, r, h, hr⟩ := (verifyKLoop_rect (F := F) cx p k _ hk (hmpos hg) d (n / k) 1 A' t' tr' hq hd'
      h5).2 ⟨hr1, hr2, hr3⟩
    exact ⟨fuel + 1, r, by rw [h4, h], hr⟩

/-- C85: `verify_general` returns on the same inputs, and with `n < k` only if `a` is not empty. -/
theorem C85_general_verify_returns_iff [DecidableEq G] (cx : Ctx G) (p : SimpleZKGeneral F G)
    (tr : Transcript) (A : List (List G)) (t : List G) (n k : Nat) :
    (∃ fuel r, p.verify cx fuel tr A t n k = .ok r) ↔ p.lamp_no_zk.A_Matrix ≠ [] ∧
      (n < k ∧ t ≠ [] ∧ p.a ≠ [] ∨ 2 ≤ k ∧ k ≤ n ∧ A ≠ [] ∧ n / k ∣ (A.headD []).length ∧
        k * (n / k) ≤ (A.headD []).length ∧
        (∀ row ∈ A, row = [] ∨ k * (n / k) ≤ row.length ∧ row.length ≤ (A.headD []).length) ∧
        (∀ i, 1 ≤ i → i < Nat.log k n → n / k ^ (i + 1) ∣ n / k ^ i) ∧
        ∀ i < Nat.log k n, ∃ u l, p.lamp_no_zk.u_proof_Block[i]? = some u ∧ 2 * k - 1 ≤ u.length ∧
          (∀ v ∈ u.take (2 * k - 1), v.length = l) ∧ (i + 1 = Nat.log k n → l ≠ 0)) := by
  unfold SimpleZKGeneral.verify
  dsimp only
  rw [C85_lmpaK_verify_returns_iff]
  have : ∀ b : F, List.zipWith (fun t a => b • t + a) t p.a ≠ [] ↔ t ≠ [] ∧ p.a ≠ [] := by
    intro b
    rw [ne_eq, List.zipWith_eq_nil_iff, not_or]
  rw [this]

section
open Toy
/-- `n = 5`, `k = 2`, rows of four entries and an empty row in between, `m = 2`: the prover returns. It
panics if the empty row comes first, if `m` counts it, if `t` has three entries or if `n = 3`. -/
example :
    (createK (F := K) cx 5 ⟨[]⟩ [[3, 5, 8, 13], [], [1, 2, 3, 4]] [1, 1, 1, 1] [29, 10] 5 2 2 1
      0).toOption.isSome ∧
    (createK (F := K) cx 5 ⟨[]⟩ [[], [3, 5, 8, 13], [1, 2, 3, 4]] [1, 1, 1, 1] [29, 10] 5 2 2 1
      0).toOption.isNone ∧
    (createK (F := K) cx 5 ⟨[]⟩ [[3, 5, 8, 13], [], [1, 2, 3, 4]] [1, 1, 1, 1] [29, 0, 10] 5 3 2 1
      0).toOption.isNone ∧
    (createK (F := K) cx 5 ⟨[]⟩ [[3, 5, 8, 13], [], [1, 2, 3, 4]] [1, 1, 1, 1] [29, 0, 10] 5 2 2 1
      0).toOption.isNone ∧
    (createK (F := K) cx 5 ⟨[]⟩ [[3, 5, 8, 13], [], [1, 2, 3, 4]] [1, 1, 1, 1] [29, 10] 3 2 2 1
      0).toOption.isNone := by
  decide +kernel
/-- With `n = 6 = 2 · 3` and rows of six entries the prover panics; the verifier returns a verdict. -/
example :
    (createK (F := K) cx 5 ⟨[]⟩ [[3, 5, 8, 13, 21, 34]] [1, 1, 1, 1, 1, 1] [84] 6 1 2 1
      0).toOption.isNone ∧
    ((⟨[[1]], [], [1], [[[1], [2], [3]], [[4], [5], [6]]]⟩ : LmpaNoZK K K).verify cx 5 ⟨[]⟩
      [[3, 5, 8, 13, 21, 34]] [84] 6 2 1).toOption.isSome ∧
    ((⟨[[1]], [], [1], [[[1], [2], [3]], [[4], [5, 5], [6]]]⟩ : LmpaNoZK K K).verify cx 5 ⟨[]⟩
      [[3, 5, 8, 13, 21, 34]] [84] 6 2 1).toOption.isNone ∧
    (⟨⟨[[1]], [], [1], []⟩, []⟩ : SimpleZKGeneral K K).verify cx 5 ⟨[]⟩ [[3]] [84] 1 2 =
      .error .indexOOB := by
  decide +kernel
end

end Qesa.Props
