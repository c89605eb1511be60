import Verif.Proofs.LmpaK
import Verif.Props.LmpaHalts
/- The shapes of the lists that the k-ary loops of src/lmpa/no_zk.rs work on: when each step returns and
what the lengths of its result are. -/
namespace Qesa.LmpaK
open Qesa Spec Lmpa
set_option linter.unusedSectionVars false
variable {F G T : Type}

/-- The lengths of the rows. -/
def lens (A : List (List T)) : List Nat := A.map List.length

theorem matrixSplit_shape {A : List (List T)} {c : Nat} {AT : List (List (List T))}
    (h : matrixSplit A c = .ok AT) :
    A ≠ [] ∧ 0 < c ∧ c ∣ (A.headD []).length ∧ AT.length = (A.headD []).length / c ∧
      (∀ row ∈ A, row.length ≤ (A.headD []).length) ∧
      ∀ i < AT.length, AT[i]? = some (A.filterMap fun row => (chunks c row)[i]?) := by
  unfold matrixSplit at h
  obtain ⟨_, h1, h⟩ := bind_eq_ok.1 h
  obtain ⟨row0, h2, h⟩ := bind_eq_ok.1 h
  have h1 := rassert_eq_ok.1 h1
  obtain ⟨row, A, rfl⟩ := List.exists_cons_of_ne_nil (List.length_pos_iff.1 h1)
  rw [idx_cons_zero, Except.ok.injEq] at h2
  subst h2
  dsimp only at h
  by_cases hc : c = 0
  · rw [if_pos hc] at h; cases h
  rw [if_neg hc] at h
  obtain ⟨_, h3, h⟩ := bind_eq_ok.1 h
  have h3 := rassert_eq_ok.1 h3
  have hc' : 0 < c := Nat.pos_of_ne_zero hc
  have hd := Nat.dvd_of_mod_eq_zero h3
  have hle := (pushRows_ok_iff _ _).1 ⟨_, h⟩
  rw [List.forall_mem_map] at hle
  simp only [List.length_replicate] at hle
  have hle' : ∀ r ∈ row :: A, r.length ≤ row.length := by
    intro r hr
    have := hle r hr
    by_contra hlt
    have e := chunks_getElem? hc' r (row.length / c)
    rw [if_pos (by rw [Nat.div_mul_cancel hd]; omega)] at e
    have := (List.getElem?_eq_some_iff.1 e).1
    omega
  rw [pushRows_replicate (by rw [List.forall_mem_map]; exact hle), Except.ok.injEq] at h
  subst h
  refine ⟨by simp, hc', by simpa using hd, by simp, by simpa using hle', ?_⟩
  intro i hi
  rw [List.length_ofFn] at hi
  rw [List.getElem?_ofFn, dif_pos hi, List.filterMap_map]
  rfl

theorem matrixSplit_returns {A : List (List T)} {c : Nat} (hA : A ≠ []) (hc : 0 < c)
    (hd : c ∣ (A.headD []).length) (hle : ∀ row ∈ A, row.length ≤ (A.headD []).length) :
    ∃ AT, matrixSplit A c = .ok AT := by
  obtain ⟨row, A, rfl⟩ := List.exists_cons_of_ne_nil hA
  unfold matrixSplit
  rw [rassert_true (by simp), ok_bind, idx_cons_zero, ok_bind]
  dsimp only
  rw [if_neg (by omega), rassert_true (Nat.mod_eq_zero_of_dvd (by simpa using hd)), ok_bind]
  refine (pushRows_ok_iff _ _).2 ?_
  rw [List.forall_mem_map]
  intro r hr
  have := hle r hr
  simp only [List.length_replicate, List.headD_cons] at this ⊢ hd
  by_contra hlt
  have e := chunks_getElem? hc r (row.length / c)
  rw [Nat.div_mul_cancel hd, if_neg (by omega)] at e
  rw [List.getElem?_eq_none_iff] at e
  omega

variable [Field F] [AddCommGroup G] [Module F G]

theorem rowAdd_shape {a b r : List G} (h : rowpointRowpointAdd a b = .ok r) :
    a.length = b.length ∧ r.length = a.length := by
  unfold rowpointRowpointAdd at h
  obtain ⟨_, h1, h⟩ := bind_eq_ok.1 h
  have h1 := rassert_eq_ok.1 h1
  simp only [R_pure, Except.ok.injEq] at h
  subst h
  simp [h1]

theorem rowAdd_returns {a b : List G} (h : a.length = b.length) :
    ∃ r, rowpointRowpointAdd a b = .ok r := by
  unfold rowpointRowpointAdd
  rw [rassert_true h]; exact ⟨_, rfl⟩

theorem zipAdd_shape {A B C : List (List G)} (hl : A.length = B.length)
    (h : zipWithR (fun a b => rowpointRowpointAdd a b) A B = .ok C) :
    lens A = lens B ∧ lens C = lens A := by
  induction A generalizing B C with
  | nil =>
    cases B with
    | nil => cases h; simp [lens]
    | cons => simp at hl
  | cons a A ih =>
    cases B with
    | nil => simp at hl
    | cons b B =>
      rw [zipWithR] at h
      obtain ⟨c, h1, h⟩ := bind_eq_ok.1 h
      obtain ⟨cs, h2, h⟩ := bind_eq_ok.1 h
      simp only [R_pure, Except.ok.injEq] at h
      subst h
      obtain ⟨e1, e2⟩ := rowAdd_shape h1
      obtain ⟨e3, e4⟩ := ih (by simpa using hl) h2
      simp only [lens, List.map_cons, List.cons.injEq] at e3 e4 ⊢
      exact ⟨⟨e1, e3⟩, e2, e4⟩

theorem matAdd_shape {A B C : List (List G)} (h : matrixpointMatrixAdd A B = .ok C) :
    lens A = lens B ∧ lens C = lens A := by
  unfold matrixpointMatrixAdd at h
  obtain ⟨_, h1, h⟩ := bind_eq_ok.1 h
  exact zipAdd_shape (rassert_eq_ok.1 h1) h

theorem lens_length (A : List (List T)) : (lens A).length = A.length := by simp [lens]

theorem matAdd_returns {A B : List (List G)} (h : lens A = lens B) :
    ∃ C, matrixpointMatrixAdd A B = .ok C := by
  unfold matrixpointMatrixAdd
  have hl : A.length = B.length := by rw [← lens_length A, h, lens_length]
  rw [rassert_true hl, ok_bind]
  apply zipWithR_ok_of
  intro i h1 h2
  apply rowAdd_returns
  have := congrArg (fun l => l[i]?) h
  simpa [lens, h1, h2] using this

theorem lens_scalarMul (A : List (List G)) (x : F) : lens (matrixpointScalarMul A x) = lens A := by
  simp [lens, matrixpointScalarMul, Function.comp_def]

theorem combineA_some_shape {AT : List (List (List G))} {xs : List F} :
    ∀ (c i : Nat) (a r : List (List G)), combineA AT xs c i (some a) = .ok r →
      lens r = lens a ∧ ∀ j < c, ∃ B, AT[i + j]? = some B ∧ lens B = lens a := by
  intro c
  induction c with
  | zero =>
    intro i a r h
    simp only [combineA, unwrapR, Except.ok.injEq] at h
    subst h; simp
  | succ c ih =>
    intro i a r h
    rw [combineA] at h
    obtain ⟨B, h1, h⟩ := bind_eq_ok.1 h
    obtain ⟨x, h2, h⟩ := bind_eq_ok.1 h
    obtain ⟨new, h3, h⟩ := bind_eq_ok.1 h
    obtain ⟨e1, e2⟩ := matAdd_shape h3
    rw [lens_scalarMul] at e1
    obtain ⟨e3, e4⟩ := ih (i + 1) new r h
    refine ⟨e3.trans e2, ?_⟩
    intro j hj
    cases j with
    | zero => exact ⟨B, by rw [Nat.add_zero]; exact idx_eq_ok.1 h1, e1.symm⟩
    | succ j =>
      obtain ⟨B', e5, e6⟩ := e4 j (by omega)
      exact ⟨B', by rw [← e5]; congr 1; omega, e6.trans e2⟩

theorem combineA_shape {AT : List (List (List G))} {xs : List F} {k : Nat} (hk : 0 < k)
    {r : List (List G)} (h : combineA AT xs k 0 none = .ok r) :
    ∀ j < k, ∃ B, AT[j]? = some B ∧ lens B = lens r := by
  obtain ⟨c, rfl⟩ := Nat.exists_eq_succ_of_ne_zero (Nat.pos_iff_ne_zero.1 hk)
  rw [combineA] at h
  obtain ⟨B, h1, h⟩ := bind_eq_ok.1 h
  obtain ⟨x, h2, h⟩ := bind_eq_ok.1 h
  obtain ⟨new, h3, h⟩ := bind_eq_ok.1 h
  simp only [Except.ok.injEq] at h3
  subst h3
  obtain ⟨e3, e4⟩ := combineA_some_shape c _ _ r h
  rw [lens_scalarMul] at e3 e4
  intro j hj
  cases j with
  | zero => exact ⟨B, idx_eq_ok.1 h1, e3.symm⟩
  | succ j =>
    obtain ⟨B', e5, e6⟩ := e4 j (by omega)
    exact ⟨B', by rw [← e5]; congr 1; omega, e6.trans e3.symm⟩

theorem combineA_some_returns {AT : List (List (List G))} {xs : List F} {ls : List Nat} :
    ∀ (c i : Nat) (a : List (List G)), i + c ≤ xs.length → lens a = ls →
      (∀ j < c, ∃ B, AT[i + j]? = some B ∧ lens B = ls) → ∃ r, combineA AT xs c i (some a) = .ok r := by
  intro c
  induction c with
  | zero => intro i a _ _ _; exact ⟨a, rfl⟩
  | succ c ih =>
    intro i a hx ha h
    obtain ⟨B, h1, h2⟩ := h 0 (by omega)
    rw [Nat.add_zero] at h1
    rw [combineA, idx_eq_ok.2 h1, ok_bind, idx_lt (by omega), ok_bind]
    dsimp only
    obtain ⟨C, hC⟩ := matAdd_returns (A := a) (B := matrixpointScalarMul B xs[i])
      (by rw [lens_scalarMul, ha, h2])
    rw [hC, ok_bind]
    apply ih (i + 1) C (by omega) ((matAdd_shape hC).2.trans ha)
    intro j hj
    obtain ⟨B', h3, h4⟩ := h (j + 1) (by omega)
    exact ⟨B', by rw [← h3]; congr 1; omega, h4⟩

theorem combineA_returns {AT : List (List (List G))} {xs : List F} {k : Nat} (hk : 0 < k) {ls : List Nat}
    (hx : xs.length = k) (h : ∀ j < k, ∃ B, AT[j]? = some B ∧ lens B = ls) :
    ∃ r, combineA AT xs k 0 none = .ok r := by
  obtain ⟨c, rfl⟩ := Nat.exists_eq_succ_of_ne_zero (Nat.pos_iff_ne_zero.1 hk)
  obtain ⟨B, h1, h2⟩ := h 0 (by omega)
  rw [combineA, idx_eq_ok.2 h1, ok_bind, idx_lt (by omega), ok_bind]
  dsimp only
  rw [ok_bind]
  apply combineA_some_returns (ls := ls) c 1 _ (by omega) (by rw [lens_scalarMul, h2])
  intro j hj
  obtain ⟨B', h3, h4⟩ := h (j + 1) (by omega)
  exact ⟨B', by rw [← h3]; congr 1; omega, h4⟩

theorem combineT_some_shape {u : List (List G)} {zs : List F} :
    ∀ (c i : Nat) (a r : List G), combineT u zs c i (some a) = .ok r →
      r.length = a.length ∧ ∀ j < c, ∃ v, u[i + j]? = some v ∧ v.length = a.length := by
  intro c
  induction c with
  | zero =>
    intro i a r h
    simp only [combineT, unwrapR, Except.ok.injEq] at h
    subst h; simp
  | succ c ih =>
    intro i a r h
    rw [combineT] at h
    obtain ⟨B, h1, h⟩ := bind_eq_ok.1 h
    obtain ⟨x, h2, h⟩ := bind_eq_ok.1 h
    obtain ⟨new, h3, h⟩ := bind_eq_ok.1 h
    obtain ⟨e1, e2⟩ := rowAdd_shape h3
    simp only [vectorpointScalarMul, List.length_map] at e1
    obtain ⟨e3, e4⟩ := ih (i + 1) new r h
    refine ⟨e3.trans e2, ?_⟩
    intro j hj
    cases j with
    | zero => exact ⟨B, by rw [Nat.add_zero]; exact idx_eq_ok.1 h1, e1.symm⟩
    | succ j =>
      obtain ⟨B', e5, e6⟩ := e4 j (by omega)
      exact ⟨B', by rw [← e5]; congr 1; omega, e6.trans e2⟩

theorem combineT_shape {u : List (List G)} {zs : List F} {k : Nat} (hk : 0 < k)
    {r : List G} (h : combineT u zs k 0 none = .ok r) :
    ∀ j < k, ∃ v, u[j]? = some v ∧ v.length = r.length := by
  obtain ⟨c, rfl⟩ := Nat.exists_eq_succ_of_ne_zero (Nat.pos_iff_ne_zero.1 hk)
  rw [combineT] at h
  obtain ⟨B, h1, h⟩ := bind_eq_ok.1 h
  obtain ⟨x, h2, h⟩ := bind_eq_ok.1 h
  obtain ⟨new, h3, h⟩ := bind_eq_ok.1 h
  simp only [Except.ok.injEq] at h3
  subst h3
  obtain ⟨e3, e4⟩ := combineT_some_shape c _ _ r h
  simp only [vectorpointScalarMul, List.length_map] at e3 e4
  intro j hj
  cases j with
  | zero => exact ⟨B, idx_eq_ok.1 h1, e3.symm⟩
  | succ j =>
    obtain ⟨B', e5, e6⟩ := e4 j (by omega)
    exact ⟨B', by rw [← e5]; congr 1; omega, e6.trans e3.symm⟩

theorem combineT_some_returns {u : List (List G)} {zs : List F} {l : Nat} :
    ∀ (c i : Nat) (a : List G), i + c ≤ zs.length → a.length = l →
      (∀ j < c, ∃ v, u[i + j]? = some v ∧ v.length = l) → ∃ r, combineT u zs c i (some a) = .ok r := by
  intro c
  induction c with
  | zero => intro i a _ _ _; exact ⟨a, rfl⟩
  | succ c ih =>
    intro i a hx ha h
    obtain ⟨B, h1, h2⟩ := h 0 (by omega)
    rw [Nat.add_zero] at h1
    rw [combineT, idx_eq_ok.2 h1, ok_bind, idx_lt (by omega), ok_bind]
    dsimp only
    obtain ⟨C, hC⟩ := rowAdd_returns (a := a) (b := vectorpointScalarMul B zs[i])
      (by rw [vectorpointScalarMul, List.length_map, ha, h2])
    rw [hC, ok_bind]
    apply ih (i + 1) C (by omega) ((rowAdd_shape hC).2.trans ha)
    intro j hj
    obtain ⟨B', h3, h4⟩ := h (j + 1) (by omega)
    exact ⟨B', by rw [← h3]; congr 1; omega, h4⟩

theorem combineT_returns {u : List (List G)} {zs : List F} {k : Nat} (hk : 0 < k) {l : Nat}
    (hx : zs.length = k) (h : ∀ j < k, ∃ v, u[j]? = some v ∧ v.length = l) :
    ∃ r, combineT u zs k 0 none = .ok r := by
  obtain ⟨c, rfl⟩ := Nat.exists_eq_succ_of_ne_zero (Nat.pos_iff_ne_zero.1 hk)
  obtain ⟨B, h1, h2⟩ := h 0 (by omega)
  rw [combineT, idx_eq_ok.2 h1, ok_bind, idx_lt (by omega), ok_bind]
  dsimp only
  rw [ok_bind]
  apply combineT_some_returns (l := l) c 1 _ (by omega)
    (by rw [vectorpointScalarMul, List.length_map, h2])
  intro j hj
  obtain ⟨B', h3, h4⟩ := h (j + 1) (by omega)
  exact ⟨B', by rw [← h3]; congr 1; omega, h4⟩

/-- `combineW` is only used on lists of one row. -/
theorem matMatAdd_shape {a b : List F} {C : List (List F)} (h : matrixMatrixAdd [a] [b] = .ok C) :
    ∃ c, C = [c] ∧ a.length = b.length ∧ c.length = a.length := by
  unfold matrixMatrixAdd at h
  obtain ⟨_, h1, h⟩ := bind_eq_ok.1 h
  simp only [zipWithR] at h
  obtain ⟨c, h2, h⟩ := bind_eq_ok.1 h
  simp only [ok_bind, R_pure, Except.ok.injEq] at h
  unfold rowRowAdd at h2
  obtain ⟨_, h3, h2⟩ := bind_eq_ok.1 h2
  have h3 := rassert_eq_ok.1 h3
  simp only [R_pure, Except.ok.injEq] at h2
  exact ⟨c, h.symm, h3, by rw [← h2]; simp [h3]⟩

theorem combineW_some_shape {wT : List (List (List F))} {ys : List F}
    (hT : ∀ B ∈ wT, ∃ b, B = [b]) :
    ∀ (c i : Nat) (a : List F) (r : List (List F)), combineW wT ys c i (some [a]) = .ok r →
      ∃ v, r = [v] ∧ v.length = a.length ∧ ∀ j < c, i + j < wT.length := by
  intro c
  induction c with
  | zero =>
    intro i a r h
    simp only [combineW, unwrapR, Except.ok.injEq] at h
    subst h; exact ⟨a, rfl, rfl, by simp⟩
  | succ c ih =>
    intro i a r h
    rw [combineW] at h
    obtain ⟨B, h1, h⟩ := bind_eq_ok.1 h
    obtain ⟨x, h2, h⟩ := bind_eq_ok.1 h
    obtain ⟨new, h3, h⟩ := bind_eq_ok.1 h
    have h1 := idx_eq_ok.1 h1
    obtain ⟨b, rfl⟩ := hT B (List.mem_of_getElem? h1)
    obtain ⟨c', rfl, e1, e2⟩ := matMatAdd_shape (b := b.map fun e => e * x) (by
      simpa [matrixScalarMul] using h3)
    obtain ⟨v, e3, e4, e5⟩ := ih (i + 1) c' r h
    refine ⟨v, e3, e4.trans e2, ?_⟩
    intro j hj
    have := (List.getElem?_eq_some_iff.1 h1).1
    cases j with
    | zero => omega
    | succ j => have := e5 j (by omega); omega

theorem combineW_shape {wT : List (List (List F))} {ys : List F} {l k : Nat} (hk : 0 < k)
    (hT : ∀ B ∈ wT, ∃ b, B = [b] ∧ b.length = l) {r : List (List F)}
    (h : combineW wT ys k 0 none = .ok r) : k ≤ wT.length ∧ ∃ v, r = [v] ∧ v.length = l := by
  obtain ⟨c, rfl⟩ := Nat.exists_eq_succ_of_ne_zero (Nat.pos_iff_ne_zero.1 hk)
  rw [combineW] at h
  obtain ⟨B, h1, h⟩ := bind_eq_ok.1 h
  obtain ⟨x, h2, h⟩ := bind_eq_ok.1 h
  obtain ⟨new, h3, h⟩ := bind_eq_ok.1 h
  have h1 := idx_eq_ok.1 h1
  obtain ⟨b, rfl, hb⟩ := hT B (List.mem_of_getElem? h1)
  simp only [Except.ok.injEq] at h3
  subst h3
  obtain ⟨v, e3, e4, e5⟩ := combineW_some_shape (fun B hB => (hT B hB).imp fun b h => h.1) c 1
    (b.map fun e => e * x) r (by simpa [matrixScalarMul] using h)
  refine ⟨?_, v, e3, by simpa [hb] using e4⟩
  have := (List.getElem?_eq_some_iff.1 h1).1
  cases c with
  | zero => omega
  | succ c => have := e5 c (by omega); omega

/-! ### The message of the prover -/

/-- All entries but the one in the middle have `m` entries. -/
def OffLen (shift m : Nat) (u : List (List G)) : Prop :=
  ∀ l v, l ≠ shift → u[l]? = some v → v.length = m

theorem uInner_shape (t : List G) (shift i m : Nat) (At : List (List G)) :
    ∀ (wT : List (List (List F))) (j : Nat) (u u' : List (List G)),
      uInner t shift i At j wT u = .ok u' → OffLen shift m u →
      u'.length = u.length ∧ OffLen shift m u' ∧
      (u[shift]? = some t → u'[shift]? = some t) ∧
      (∀ j' < wT.length, j + j' = i → u'[shift]? = some t) ∧
      ∀ j' < wT.length, i ≤ shift + (j + j') ∧ shift + (j + j') - i < u.length ∧
        (j + j' ≠ i → At.length = m) := by
  intro wT
  induction wT with
  | nil =>
    intro j u u' h hu
    simp only [uInner, Except.ok.injEq] at h
    subst h
    exact ⟨rfl, hu, id, by simp, by simp⟩
  | cons w wT ih =>
    intro j u u' h hu
    rw [uInner] at h
    obtain ⟨l, h1, h⟩ := bind_eq_ok.1 h
    have hle : i ≤ shift + j ∧ l = shift + j - i := by
      unfold usub at h1
      split at h1
      · next hle => simp only [Except.ok.injEq] at h1; exact ⟨hle, h1.symm⟩
      · cases h1
    obtain ⟨hle, rfl⟩ := hle
    have key : ∃ u1, uInner t shift i At (j + 1) wT u1 = .ok u' ∧ u1.length = u.length ∧ OffLen shift m u1 ∧ (u[shift]? = some t → u1[shift]? = some t) ∧
        (j = i → u1[shift]? = some t) ∧ shift + j - i < u.length ∧ (j ≠ i → At.length = m) := by
      by_cases hs : shift + j - i = shift
      · rw [if_neg (by simpa using hs)] at h
        obtain ⟨u1, h2, h⟩ := bind_eq_ok.1 h
        obtain ⟨h3, rfl⟩ := setIdx_eq_ok.1 h2
        rw [hs] at h h3 ⊢
        refine ⟨_, h, by simp, ?_, ?_, ?_, h3, ?_⟩
        · intro l v hl hv
          rw [List.getElem?_set_ne (Ne.symm hl)] at hv
          exact hu l v hl hv
        · intro _; rw [List.getElem?_set_self h3]
        · intro _; rw [List.getElem?_set_self h3]
        · intro hne; omega
      · rw [if_pos hs] at h
        obtain ⟨w0, h3, h⟩ := bind_eq_ok.1 h
        obtain ⟨ul, h4, h⟩ := bind_eq_ok.1 h
        obtain ⟨s, h5, h⟩ := bind_eq_ok.1 h
        obtain ⟨u1, h2, h⟩ := bind_eq_ok.1 h
        obtain ⟨h6, rfl⟩ := setIdx_eq_ok.1 h2
        obtain ⟨e1, e2⟩ := rowAdd_shape h5
        have e3 := hu _ _ hs (idx_eq_ok.1 h4)
        simp only [matrixpointVectorMul, List.length_map] at e1
        refine ⟨_, h, by simp, ?_, ?_, ?_, h6, fun _ => by omega⟩
        · intro l v hl hv
          by_cases hl' : l = shift + j - i
          · subst hl'
            rw [List.getElem?_set_self h6, Option.some.injEq] at hv
            subst hv; omega
          · rw [List.getElem?_set_ne (Ne.symm hl')] at hv
            exact hu l v hl hv
        · intro h; rwa [List.getElem?_set_ne hs]
        · intro hji; omega
    obtain ⟨u1, h, k1, k2, k3, k4, k5, k6⟩ := key
    obtain ⟨i1, i2, i3, i4, i5⟩ := ih (j + 1) u1 u' h k2
    refine ⟨i1.trans k1, i2, fun h => i3 (k3 h), ?_, ?_⟩
    · intro j' hj' e
      cases j' with
      | zero => exact i3 (k4 (by omega))
      | succ j' => exact i4 j' (by simpa using hj') (by omega)
    · intro j' hj'
      cases j' with
      | zero => exact ⟨hle, k5, k6⟩
      | succ j' =>
        obtain ⟨a1, a2, a3⟩ := i5 j' (by simpa using hj')
        refine ⟨by omega, ?_, fun h => a3 (by omega)⟩
        rw [← k1, show j + (j' + 1) = j + 1 + j' by omega]; exact a2

theorem uOuter_shape (t : List G) (shift m : Nat) (wT : List (List (List F))) (hw : 0 < wT.length) :
    ∀ (AT : List (List (List G))) (i : Nat) (u u' : List (List G)),
      uOuter t shift wT i AT u = .ok u' → OffLen shift m u →
      OffLen shift m u' ∧ (u[shift]? = some t → u'[shift]? = some t) ∧
      (i = 0 → 0 < AT.length → u'[shift]? = some t) ∧
      ∀ i' < AT.length, ∀ j < wT.length, i + i' ≤ shift + j ∧ shift + j - (i + i') < u.length ∧
        ∀ B, AT[i']? = some B → j ≠ i + i' → B.length = m := by
  intro AT
  induction AT with
  | nil =>
    intro i u u' h hu
    simp only [uOuter, Except.ok.injEq] at h
    subst h
    exact ⟨hu, id, by simp, by simp⟩
  | cons At AT ih =>
    intro i u u' h hu
    rw [uOuter] at h
    obtain ⟨u1, h1, h⟩ := bind_eq_ok.1 h
    obtain ⟨a1, a2, a3, a4, a5⟩ := uInner_shape t shift i m At wT 0 u u1 h1 hu
    obtain ⟨b1, b2, b3, b4⟩ := ih (i + 1) u1 u' h a2
    refine ⟨b1, fun h => b2 (a3 h), ?_, ?_⟩
    · intro h0 _
      exact b2 (a4 0 hw (by omega))
    · intro i' hi' j hj
      cases i' with
      | zero =>
        obtain ⟨c1, c2, c3⟩ := a5 j hj
        rw [Nat.zero_add] at c1 c2 c3
        refine ⟨c1, c2, ?_⟩
        intro B hB hne
        simp only [List.getElem?_cons_zero, Option.some.injEq] at hB
        subst hB
        exact c3 (by omega)
      | succ i' =>
        obtain ⟨c1, c2, c3⟩ := b4 i' (by simpa using hi') j hj
        refine ⟨by omega, ?_, ?_⟩
        · rw [← a1, show i + (i' + 1) = i + 1 + i' by omega]; exact c2
        · intro B hB hne
          exact c3 B (by simpa using hB) (by omega)

end Qesa.LmpaK
