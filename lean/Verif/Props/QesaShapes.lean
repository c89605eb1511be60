import Verif.Proofs.KShapes
import Verif.Props.AlmShapes
import Verif.Props.Copy
/- C86: exactly when the functions of src/ipa/qesa_inner.rs, src/qesa_zk.rs and src/copy/copy.rs return,
for matrices and mappings of any shape. -/
namespace Qesa.Props
open Qesa Spec Ipa
open _root_.Qesa.LmpaK (lens lens_length)
set_option linter.unusedSectionVars false
variable {F G : Type} [Field F]

theorem bind_sat {α β : Type} {P : α → Prop} (S : R β → Prop) {m : R α} {f : α → R β}
    (h : ∃ x, m = .ok x ∧ P x) (hf : ∀ x, P x → S (f x)) : S (m >>= f) := by
  obtain ⟨x, rfl, hx⟩ := h
  exact hf x hx

/-! ### Batching -/

theorem matMatAdd_lens {A B C : List (List F)} (h : matrixMatrixAdd A B = .ok C) :
    lens A = lens B ∧ lens C = lens A := by
  unfold matrixMatrixAdd at h
  obtain ⟨_, h1, h2⟩ := bind_eq_ok.1 h
  have hl := rassert_eq_ok.1 h1
  clear h1 h
  have h := h2
  clear h2
  induction A generalizing B C with
  | nil =>
    cases B with
    | nil => cases h; simp [lens]
    | cons => simp at hl
  | cons a A ih =>
    cases B with
    | nil => simp at hl
    | cons b B =>
      rw [zipWithR] at h
      obtain ⟨c, h1, h⟩ := bind_eq_ok.1 h
      obtain ⟨cs, h2, h⟩ := bind_eq_ok.1 h
      simp only [R_pure, Except.ok.injEq] at h
      subst h
      unfold rowRowAdd at h1
      obtain ⟨_, h3, h1⟩ := bind_eq_ok.1 h1
      have h3 := rassert_eq_ok.1 h3
      simp only [R_pure, Except.ok.injEq] at h1
      obtain ⟨e3, e4⟩ := ih (by simpa using hl) h2
      simp only [lens, List.map_cons, List.cons.injEq] at e3 e4 ⊢
      exact ⟨⟨h3, e3⟩, by rw [← h1]; simp [h3], e4⟩

theorem matMatAdd_returns {A B : List (List F)} (h : lens A = lens B) :
    ∃ C, matrixMatrixAdd A B = .ok C := by
  unfold matrixMatrixAdd
  have hl : A.length = B.length := by rw [← lens_length A, h, lens_length]
  rw [rassert_true hl, ok_bind]
  apply zipWithR_ok_of
  intro i h1 h2
  have : A[i].length = B[i].length := by
    have := congrArg (fun l => l[i]?) h
    simpa [lens, h1, h2] using this
  unfold rowRowAdd
  rw [rassert_true this]; exact ⟨_, rfl⟩

theorem sumBlocks_returns (ms : List (List (List F))) (acc : List (List F)) :
    ((∃ g, sumBlocks acc ms = .ok g) ↔ ∀ M ∈ ms, lens M = lens acc) ∧
      ∀ g, sumBlocks acc ms = .ok g → lens g = lens acc := by
  induction ms generalizing acc with
  | nil => simp [sumBlocks]
  | cons M ms ih =>
    constructor
    · constructor
      · rintro ⟨g, h⟩
        obtain ⟨acc', h1, h⟩ := bind_eq_ok.1 h
        obtain ⟨e1, e2⟩ := matMatAdd_lens h1
        intro M' hM'
        rcases List.mem_cons.1 hM' with rfl | hM'
        · exact e1.symm
        · rw [((ih acc').1.1 ⟨g, h⟩) M' hM', e2]
      · intro h
        obtain ⟨acc', h1⟩ := matMatAdd_returns (h M List.mem_cons_self).symm
        obtain ⟨e1, e2⟩ := matMatAdd_lens h1
        rw [sumBlocks, h1, ok_bind]
        apply (ih acc').1.2
        intro M' hM'
        rw [h M' (List.mem_cons_of_mem _ hM'), e2]
    · intro g h
      obtain ⟨acc', h1, h⟩ := bind_eq_ok.1 h
      rw [(ih acc').2 g h, (matMatAdd_lens h1).2]

theorem zip_scalar_lens (Ms : List (List (List F))) (cs : List F) :
    (List.zipWith (fun m c => matrixScalarMul m c) Ms cs).map lens = (Ms.take cs.length).map lens := by
  induction Ms generalizing cs with
  | nil => simp
  | cons M Ms ih =>
    cases cs with
    | nil => simp
    | cons c cs =>
      have e : lens (matrixScalarMul M c) = lens M := by simp [lens, matrixScalarMul, Function.comp_def]
      simp only [List.zipWith_cons_cons, List.map_cons, List.length_cons, List.take_succ_cons, e, ih]

/-- C86: `block_matrix_batch` returns exactly when there are a matrix and a challenge and all matrices that
get a challenge have the same number of rows and row by row the same length. The result has this shape. -/
theorem C86_batch_returns_iff (b : BlockMatrix F) (cs : List F) (ls : List Nat) :
    (∃ g, b.batch cs = .ok g ∧ g.map List.length = ls) ↔
      b.block ≠ [] ∧ cs ≠ [] ∧ ∀ M ∈ b.block.take cs.length, M.map List.length = ls := by
  unfold BlockMatrix.batch
  have hz := zip_scalar_lens b.block cs
  cases hzw : List.zipWith (fun m c => matrixScalarMul m c) b.block cs with
  | nil =>
    have := List.zipWith_eq_nil_iff.1 hzw
    constructor
    · rintro ⟨g, h, -⟩; cases h
    · rintro ⟨h1, h2, -⟩
      rcases this with h | h
      · exact absurd h h1
      · exact absurd h h2
  | cons m ms =>
    have hne : b.block ≠ [] ∧ cs ≠ [] := by
      constructor
      · intro h; rw [h] at hzw; simp at hzw
      · intro h; rw [h] at hzw; simp at hzw
    rw [hzw] at hz
    simp only [hne.1, hne.2, ne_eq, not_false_eq_true, true_and]
    have hall : (∀ M ∈ b.block.take cs.length, M.map List.length = ls) ↔ ∀ M ∈ m :: ms, lens M = ls := by
      have h1 : (∀ M ∈ b.block.take cs.length, M.map List.length = ls) ↔
          ∀ l ∈ (b.block.take cs.length).map lens, l = ls := by
        simp only [List.forall_mem_map]; rfl
      rw [h1, ← hz]
      simp only [List.forall_mem_map]
    rw [hall]
    obtain ⟨e1, e2⟩ := sumBlocks_returns ms m
    constructor
    · rintro ⟨g, h, hg⟩
      have hm : lens m = ls := by rw [← e2 g h]; exact hg
      intro M hM
      rcases List.mem_cons.1 hM with rfl | hM
      · exact hm
      · rw [e1.1 ⟨g, h⟩ M hM, hm]
    · intro h
      have hm := h m List.mem_cons_self
      obtain ⟨g, hg⟩ := e1.2 fun M hM => by rw [h M (List.mem_cons_of_mem _ hM), hm]
      exact ⟨g, hg, by rw [← hm]; exact e2 g hg⟩

/-! ### Transposing the padded matrix -/

theorem transpose_returns (A : List (List F)) (n : Nat) :
    (∃ T, matrixTranspose A = .ok T ∧ T.length = n) ↔
      A ≠ [] ∧ (A.headD []).length = n ∧ ∀ row ∈ A, row.length ≤ n := by
  rw [C06_matrix_transpose_ragged]
  cases A with
  | nil => simp
  | cons row0 A =>
    simp only [ne_eq, reduceCtorEq, not_false_eq_true, List.headD_cons, true_and]
    constructor
    · rintro ⟨T, h, hT⟩
      split at h
      · next hr =>
        cases h
        rw [List.length_ofFn] at hT
        subst hT
        exact ⟨rfl, hr⟩
      · cases h
    · rintro ⟨rfl, h⟩
      exact ⟨_, by rw [if_pos h], by simp⟩

/-- Transposing `compute_gamma_prime` of a matrix with rows of the lengths `ls`. -/
theorem gammaPrime_transpose (g : List (List F)) (n : Nat) (hn : 2 ≤ n) :
    ∃ g', Inner.computeGammaPrime g n = .ok g' ∧ ∀ n', ((∃ T, matrixTranspose g' = .ok T ∧ T.length = n') ↔
      n ≤ n' ∧ ((g.headD (List.replicate (n - 2) 0)).length + 2 = n' ∧ ∀ row ∈ g, row.length + 2 ≤ n')) := by
  unfold Inner.computeGammaPrime
  rw [usub_le hn, ok_bind]
  refine ⟨_, rfl, ?_⟩
  intro n'
  rw [transpose_returns]
  have h1 : (List.replicate (n - 2) (0 : F) ++ [0] ++ [-1]).length = n := by simp; omega
  have h2 : (List.replicate (n - 2) (0 : F) ++ [1] ++ [0]).length = n := by simp; omega
  have h3 : (((g.map fun row => row ++ [0] ++ [0]) ++ [List.replicate (n - 2) (0 : F) ++ [0] ++ [-1]] ++
      [List.replicate (n - 2) (0 : F) ++ [1] ++ [0]]).headD []).length =
      (g.headD (List.replicate (n - 2) 0)).length + 2 := by
    cases g <;> simp
  rw [h3]
  simp only [List.mem_append, List.mem_singleton, List.mem_map, or_imp, forall_and, forall_eq, h1, h2,
    forall_exists_index, and_imp, forall_apply_eq_imp_iff₂, List.length_append, List.length_cons,
    List.length_nil]
  constructor
  · rintro ⟨-, e1, ⟨e2, e3⟩, -⟩
    exact ⟨e3, e1, e2⟩
  · rintro ⟨e3, e1, e2⟩
    exact ⟨by simp, e1, ⟨e2, e3⟩, e3⟩

/-! ### Inner::verify -/
variable [DecidableEq F] [AddCommGroup G] [Module F G]

/-- The shape of the matrices that `Inner::verify` needs with `n` generators: those of the first `n`
matrices agree, there is a row, the first row has `n - 2` entries and no other one is longer. -/
def VerifierShape (n : Nat) (Ms : List (List (List F))) : Prop :=
  Ms ≠ [] ∧ ∃ ls : List Nat, (∀ M ∈ Ms.take n, M.map List.length = ls) ∧ ls.head? = some (n - 2) ∧
    ∀ l ∈ ls, l ≤ n - 2

theorem verifiable_length (cx : Ctx G) (p : NoZK F) (Gs Hs Gs' : List G) (n : Nat)
    (h : Gs'.length = Gs.length) : Verifiable cx p Gs' Hs n ↔ Verifiable cx p Gs Hs n := by
  unfold Verifiable; rw [h]

/-- C86: `Inner::verify` returns a verdict exactly when there are `n >= 3` generators on both sides, the
matrices have the shape above, all points of the proof can be decoded and `n` is two to the number of
points `L`. The number of rows of the matrices is not checked. -/
theorem C86_inner_verify_returns_iff [DecidableEq G] (cx : Ctx G) (p : Inner.Proof F) (tr : Transcript)
    (Gs Hs : List G) (Q : G) (block : BlockMatrix F) :
    (∃ r, p.verify cx tr Gs Hs Q block = .ok r) ↔
      3 ≤ Hs.length ∧ Gs.length = Hs.length ∧ VerifierShape Hs.length block.block ∧
      (cx.decompress p.c_prime_w).isSome ∧ (cx.decompress p.c_prime_prime_w).isSome ∧
      (cx.decompress p.alm_zk.C_r).isSome ∧
      (∀ c ∈ p.alm_zk.NoZK.L_vec, (cx.decompress c).isSome) ∧
      (∀ c ∈ p.alm_zk.NoZK.R_vec, (cx.decompress c).isSome) ∧
      p.alm_zk.NoZK.L_vec.length < 64 ∧ Hs.length = 2 ^ p.alm_zk.NoZK.L_vec.length := by
  constructor
  · rintro ⟨r, h⟩
    unfold Inner.Proof.verify at h
    obtain ⟨_, h1, h⟩ := bind_eq_ok.1 h
    obtain ⟨xs, h2, h⟩ := bind_eq_ok.1 h
    obtain ⟨gamma, h3, h⟩ := bind_eq_ok.1 h
    obtain ⟨_, h4, h⟩ := bind_eq_ok.1 h
    obtain ⟨_, h5, h⟩ := bind_eq_ok.1 h
    obtain ⟨Gs', h6, h⟩ := bind_eq_ok.1 h
    obtain ⟨_, h7, h⟩ := bind_eq_ok.1 h
    obtain ⟨_, h8, h⟩ := bind_eq_ok.1 h
    obtain ⟨k, h9, h⟩ := bind_eq_ok.1 h
    obtain ⟨ss, h10, h⟩ := bind_eq_ok.1 h
    obtain ⟨bs, h11, h⟩ := bind_eq_ok.1 h
    obtain ⟨_, h12, h⟩ := bind_eq_ok.1 h
    obtain ⟨gamma', h13, h⟩ := bind_eq_ok.1 h
    obtain ⟨gammaT', h14, h⟩ := bind_eq_ok.1 h
    obtain ⟨gammaT, h15, h⟩ := bind_eq_ok.1 h
    obtain ⟨m1, h16, h⟩ := bind_eq_ok.1 h
    obtain ⟨m2, h17, hfin⟩ := bind_eq_ok.1 h
    obtain ⟨hn2, rfl⟩ := usub_eq_ok.1 h9
    have h12 := rassert_eq_ok.1 h12
    have h16 := (msm_eq_ok.1 h16).1
    have h17 := (msm_eq_ok.1 h17).1
    obtain ⟨_, rfl⟩ := setIdx_eq_ok.1 h6
    simp only [List.length_set] at h17
    have hn3 : 3 ≤ Hs.length := by
      by_contra hc
      have : Hs.length - 2 = 0 := by omega
      rw [this] at h10
      cases h10
    rw [Inner.vandemondeChallenge_eq _ (by omega), Except.ok.injEq] at h2
    have hxs : xs.length = Hs.length := by rw [← h2, List.length_ofFn]
    obtain ⟨b1, -, b2⟩ := (C86_batch_returns_iff block xs _).1 ⟨gamma, h3, rfl⟩
    rw [hxs] at b2
    simp only [matrixVectorMul_eq, List.length_map] at h16
    obtain ⟨g', e1, e2⟩ := gammaPrime_transpose gamma Hs.length hn2
    rw [e1, Except.ok.injEq] at h13
    subst h13
    obtain ⟨c1, c2, c3⟩ := (e2 Hs.length).1 ⟨gammaT', h14, h16⟩
    obtain ⟨d1, -, -⟩ := (transpose_returns gamma _).1 ⟨gammaT, h15, rfl⟩
    obtain ⟨a1, a2, a3, a4, a5, -, -⟩ := (C83_alm_verify_returns_iff _ _ _ _ _ _ _ _ _).1 ⟨_, hfin⟩
    refine ⟨hn3, by omega, ⟨b1, _, b2, ?_, ?_⟩, by rw [unwrapR_eq_ok.1 h1]; rfl,
      by rw [unwrapR_eq_ok.1 h7]; rfl, a1, a2, a3, a4, a5⟩
    · cases gamma with
      | nil => exact absurd rfl d1
      | cons row gamma =>
        simp only [List.headD_cons] at c2
        simp only [List.map_cons, List.head?_cons, Option.some.injEq]
        omega
    · rw [List.forall_mem_map]
      intro row hr
      have := c3 row hr
      omega
  · rintro ⟨hn3, hG, ⟨b1, ls, b2, b3, b4⟩, h1, h2, h3, h4, h5, h6, h7⟩
    obtain ⟨C', h1⟩ := Option.isSome_iff_exists.1 h1
    obtain ⟨C'', h2⟩ := Option.isSome_iff_exists.1 h2
    have hlen : ∀ (x : F) (n : Nat), (List.ofFn (powers x n)).length = n := by simp
    unfold Inner.Proof.verify
    dsimp only
    rw [h1, h2]
    simp only [unwrapR, ok_bind]
    rw [Inner.vandemondeChallenge_eq _ (by omega), ok_bind]
    refine bind_sat (fun r => ∃ x, r = .ok x) ((C86_batch_returns_iff block _ ls).2
      ⟨b1, by rw [← List.length_pos_iff, hlen]; omega, by rw [hlen]; exact b2⟩) ?_
    intro gamma hg
    obtain ⟨row, gamma, rfl⟩ : ∃ row g, gamma = row :: g := by
      cases gamma with
      | nil => rw [← hg] at b3; simp at b3
      | cons row g => exact ⟨row, g, rfl⟩
    have hrow : row.length = Hs.length - 2 := by
      rw [← hg] at b3; simpa using b3
    have hrows : ∀ r ∈ row :: gamma, r.length ≤ Hs.length - 2 := by
      intro r hr
      apply b4
      rw [← hg]
      exact List.mem_map_of_mem hr
    rw [idx_lt (by rw [hlen]; omega), ok_bind, idx_lt (by omega), ok_bind]
    refine bind_sat (fun r => ∃ x, r = .ok x) (P := fun l => l.length = Hs.length)
      ⟨_, setIdx_eq_ok.2 ⟨by omega, rfl⟩, by simp [hG]⟩ ?_
    intro Gs' hG'
    rw [idx_lt (by omega), ok_bind, usub_le (by omega), ok_bind]
    rw [Inner.vandemondeChallenge_eq _ (by omega), ok_bind, Inner.vandemondeChallenge_eq _ (by omega),
      ok_bind]
    rw [rassert_true (by simp; omega), ok_bind]
    obtain ⟨g', e1, e2⟩ := gammaPrime_transpose (row :: gamma) Hs.length (by omega)
    rw [e1, ok_bind]
    refine bind_sat (fun r => ∃ x, r = .ok x) ((e2 Hs.length).2 ⟨le_rfl, by
      rw [List.headD_cons]; omega, fun r hr => by have := hrows r hr; omega⟩) ?_
    intro T hT
    refine bind_sat (fun r => ∃ x, r = .ok x) ((transpose_returns (row :: gamma) (Hs.length - 2)).2
      ⟨by simp, by rw [List.headD_cons, hrow], hrows⟩) ?_
    intro T' hT'
    refine bind_sat (fun r => ∃ x, r = .ok x) (P := fun _ => True)
      ⟨_, msm_eq_ok.2 ⟨by simp [matrixVectorMul, hT], rfl⟩, trivial⟩ ?_
    intro m1 _
    refine bind_sat (fun r => ∃ x, r = .ok x) (P := fun _ => True)
      ⟨_, msm_eq_ok.2 ⟨by simp; omega, rfl⟩, trivial⟩ ?_
    intro m2 _
    apply (C83_alm_verify_returns_iff _ _ _ _ _ _ _ _ _).2
    have hpos : Hs.length - 2 ^ (p.alm_zk.NoZK.L_vec.length - p.alm_zk.NoZK.R_vec.length) < Hs.length :=
      Nat.sub_lt (by omega) (Nat.two_pow_pos _)
    exact ⟨h3, h4, h5, h6, h7, by rw [hG']; exact hpos, hpos⟩

/-! ### Provers: either a proof or the assertion of `orth` -/

/-- The result is a proof or a failed assertion. -/
def OkOrAssert {α : Type} (r : R α) : Prop := (∃ x, r = .ok x) ∨ r = .error .assertFail

theorem OkOrAssert.bind {α β : Type} {P : α → Prop} {m : R α} {f : α → R β} (h : OkOrAssert m)
    (hP : ∀ x, m = .ok x → P x) (hf : ∀ x, P x → OkOrAssert (f x)) : OkOrAssert (m >>= f) := by
  rcases h with ⟨x, h⟩ | h
  · subst h; exact hf x (hP x rfl)
  · subst h; exact .inr rfl

theorem orth_okOrAssert (a b : List F) : OkOrAssert (orth a b) := by
  rw [orth_eq]
  split
  · exact .inr rfl
  · exact .inl ⟨_, rfl⟩

theorem sampleGramSchmidt_okOrAssert (a : List F) (tape : Tape F) (h : 2 ≤ a.length) :
    OkOrAssert (sampleGramSchmidt a tape) := by
  obtain ⟨f, d, -, -, hs⟩ := C15_sparse_sampling (F := F) a.length h
  obtain ⟨r, e, -⟩ := hs tape
  unfold sampleGramSchmidt
  rw [e, ok_bind]
  exact (orth_okOrAssert _ _).bind (P := fun _ => True) (fun _ _ => trivial) fun x _ => .inl ⟨_, rfl⟩

/-- C86: with vectors of the right lengths the only panic of `alm_zk::create` is the assertion of `orth`. -/
theorem C86_alm_create_shapes (cx : Ctx G) (tr : Transcript) (tape : Tape F) (Gs Hs : List G)
    (Q C_w : G) (a b : List F) (t : F) (k : Nat) (hk : 0 < k) (hG : Gs.length = 2 ^ k)
    (hH : Hs.length = 2 ^ k) (hb : b.length = 2 ^ k) (ha : 2 ^ k ≤ a.length) :
    (∃ r, createAlm cx tr tape Gs Hs Q C_w a b t = .ok r) ∨
      createAlm cx tr tape Gs Hs Q C_w a b t = .error .assertFail := by
  by_cases h : ∃ r, createAlm cx tr tape Gs Hs Q C_w a b t = .ok r
  · exact .inl h
  have h2k : 2 ≤ 2 ^ k := by
    obtain ⟨k, rfl⟩ := Nat.exists_eq_succ_of_ne_zero (Nat.pos_iff_ne_zero.1 hk)
    rw [pow_succ]
    have := Nat.two_pow_pos k
    omega
  change OkOrAssert _
  unfold createAlm
  refine (sampleGramSchmidt_okOrAssert b tape (by omega)).bind
    (P := fun x => x.1.length = b.length) ?_ ?_
  · intro x hx
    unfold sampleGramSchmidt at hx
    obtain ⟨⟨s, tp⟩, h3, hx⟩ := bind_eq_ok.1 hx
    obtain ⟨o1, h4, hx⟩ := bind_eq_ok.1 hx
    simp only [R_pure, Except.ok.injEq] at hx
    obtain ⟨-, rfl⟩ := (orth_away _ _ _).1 h4
    rw [← hx, away_length, sampleMNPlus_length h3, Nat.min_self]
  intro x hx
  dsimp only
  refine OkOrAssert.bind (P := fun y => y.1.length = 2 ^ k) ?_ ?_ ?_
  · unfold sampleGramSchmidtTwice
    refine (orth_okOrAssert _ _).bind (P := fun _ => True) (fun _ _ => trivial) fun _ _ => ?_
    refine (sampleGramSchmidt_okOrAssert _ _ (by omega)).bind (P := fun _ => True)
      (fun _ _ => trivial) fun _ _ => ?_
    exact (orth_okOrAssert _ _).bind (P := fun _ => True) (fun _ _ => trivial) fun _ _ => .inl ⟨_, rfl⟩
  · intro y hy
    obtain ⟨o, s', h5, h6, h7⟩ := sampleGramSchmidtTwice_ok (r := y.1) (tape' := y.2) hy
    unfold sampleGramSchmidt at h6
    obtain ⟨⟨s2, tp2⟩, h8, h6⟩ := bind_eq_ok.1 h6
    obtain ⟨o2, h9, h6⟩ := bind_eq_ok.1 h6
    simp only [R_pure, Except.ok.injEq, Prod.mk.injEq] at h6
    obtain ⟨rfl, -⟩ := h6
    obtain ⟨-, rfl⟩ := (orth_away _ _ _).1 h5
    obtain ⟨-, rfl⟩ := (orth_away _ _ _).1 h9
    obtain ⟨-, e⟩ := (orth_away _ _ _).1 h7
    rw [e, away_length, away_length, away_length, sampleMNPlus_length h8]
    omega
  intro y hy
  rw [msm_eq (by simp only [List.length_append]; omega), ok_bind]
  refine .inl (bind_returns ((C17_ipa_create_returns_iff cx _ Gs Hs Q _ _).2 ⟨k, ?_, ?_, hG, hH⟩)
      fun _ => ⟨_, rfl⟩)
  · simp only [List.length_zipWith]; omega
  · simp only [List.length_zipWith]; omega

/-- The shape of the matrices that `qesa_inner::create` needs: in addition there are `n - 2` rows. -/
def ProverShape (n : Nat) (Ms : List (List (List F))) : Prop :=
  Ms ≠ [] ∧ ∃ ls : List Nat, (∀ M ∈ Ms.take n, M.map List.length = ls) ∧ ls.length = n - 2 ∧
    ls.head? = some (n - 2) ∧ ∀ l ∈ ls, l ≤ n - 2

/-- C86: for matrices of any shape, `qesa_inner::create` returns only if there are `n = 2^q >= 4` generators
on both sides, `n - 2` entries of the witness, two masks, and the matrices have the shape above. -/
theorem C86_inner_create_needs (cx : Ctx G) (tr : Transcript) (tape : Tape F) (Gs Hs : List G) (Q : G)
    (block : BlockMatrix F) (w r' : List F)
    (h : ∃ r, Inner.create cx tr tape Gs Hs Q block w r' = .ok r) :
    (∃ q, 2 ≤ q ∧ Gs.length = 2 ^ q) ∧ Hs.length = Gs.length ∧ w.length + 2 = Gs.length ∧
      r'.length = 2 ∧ ProverShape Gs.length block.block := by
  obtain ⟨res, h⟩ := h
  obtain ⟨⟨q, hq, hGq⟩, hH, hw, hr, hb⟩ := C31_inner_create_shapes cx tr tape Gs Hs Q block w r' res h
  refine ⟨⟨q, hq, hGq⟩, hH, hw, hr, hb, ?_⟩
  have hn4 : 4 ≤ Gs.length := by
    rw [hGq]
    calc 4 = 2 ^ 2 := rfl
      _ ≤ 2 ^ q := Nat.pow_le_pow_right (by decide) hq
  unfold Inner.create at h
  obtain ⟨k, h1, h⟩ := bind_eq_ok.1 h
  obtain ⟨_, h2, h⟩ := bind_eq_ok.1 h
  obtain ⟨_, h3, h⟩ := bind_eq_ok.1 h
  obtain ⟨_, h4, h⟩ := bind_eq_ok.1 h
  obtain ⟨xs, h5, h⟩ := bind_eq_ok.1 h
  obtain ⟨_, h6, h⟩ := bind_eq_ok.1 h
  obtain ⟨gamma, h7, h⟩ := bind_eq_ok.1 h
  obtain ⟨_, h8, h⟩ := bind_eq_ok.1 h
  obtain ⟨_, h9, h⟩ := bind_eq_ok.1 h
  obtain ⟨_, h10, h⟩ := bind_eq_ok.1 h
  obtain ⟨_, h11, h⟩ := bind_eq_ok.1 h
  obtain ⟨_, h12, h⟩ := bind_eq_ok.1 h
  obtain ⟨_, h13, h⟩ := bind_eq_ok.1 h
  obtain ⟨ss, h14, h⟩ := bind_eq_ok.1 h
  obtain ⟨bs, h15, h⟩ := bind_eq_ok.1 h
  obtain ⟨_, h16, h⟩ := bind_eq_ok.1 h
  obtain ⟨gamma', h17, h⟩ := bind_eq_ok.1 h
  obtain ⟨gammaT', h18, h⟩ := bind_eq_ok.1 h
  obtain ⟨_, h19, h⟩ := bind_eq_ok.1 h
  obtain ⟨_, h20, h⟩ := bind_eq_ok.1 h
  have h6 := rassert_eq_ok.1 h6
  have h13 := (msm_eq_ok.1 h13).1
  obtain ⟨b1, -, b2⟩ := (C86_batch_returns_iff block xs _).1 ⟨gamma, h7, rfl⟩
  rw [h6] at b2
  simp only [matrixVectorMul_eq, List.length_append, List.length_map, List.length_cons,
    List.length_nil] at h13
  unfold rowRowAdd at h20
  obtain ⟨_, h20, -⟩ := bind_eq_ok.1 h20
  have h20 := rassert_eq_ok.1 h20
  simp only [matrixVectorMul_eq, List.length_append, List.length_map, List.length_cons,
    List.length_nil] at h20
  obtain ⟨g', e1, e2⟩ := gammaPrime_transpose gamma Gs.length (by omega)
  rw [e1, Except.ok.injEq] at h17
  rw [← h17] at h18
  obtain ⟨c1, c2, c3⟩ := (e2 Gs.length).1 ⟨gammaT', h18, by omega⟩
  refine ⟨_, b2, by simp; omega, ?_, ?_⟩
  · cases gamma with
    | nil => simp at h13; omega
    | cons row gamma =>
      simp only [List.headD_cons] at c2
      simp only [List.map_cons, List.head?_cons, Option.some.injEq]
      omega
  · rw [List.forall_mem_map]
    intro row hr
    have := c3 row hr
    omega

/-- C86: on all inputs of these shapes it returns a proof or fails an assertion of `orth`. -/
theorem C86_inner_create_shapes (cx : Ctx G) (tr : Transcript) (tape : Tape F) (Gs Hs : List G) (Q : G)
    (block : BlockMatrix F) (w r' : List F) (hG : ∃ q, 2 ≤ q ∧ Gs.length = 2 ^ q)
    (hH : Hs.length = Gs.length) (hw : w.length + 2 = Gs.length) (hr : r'.length = 2)
    (hM : ProverShape Gs.length block.block) :
    (∃ r, Inner.create cx tr tape Gs Hs Q block w r' = .ok r) ∨
      Inner.create cx tr tape Gs Hs Q block w r' = .error .assertFail := by
  change OkOrAssert _
  obtain ⟨q, hq, hGq⟩ := hG
  have hn4 : 4 ≤ Gs.length := by
    rw [hGq]
    calc 4 = 2 ^ 2 := rfl
      _ ≤ 2 ^ q := Nat.pow_le_pow_right (by decide) hq
  obtain ⟨b1, ls, b2, b5, b3, b4⟩ := hM
  have hlen : ∀ (x : F) (n : Nat), (List.ofFn (powers x n)).length = n := by simp
  unfold Inner.create
  dsimp only
  rw [usub_le (by omega), ok_bind, rassert_true (by omega), ok_bind, rassert_true hr, ok_bind,
    msm_eq (by simp; omega), ok_bind, Inner.vandemondeChallenge_eq _ (by omega), ok_bind,
    rassert_true (hlen _ _), ok_bind]
  refine bind_sat OkOrAssert ((C86_batch_returns_iff block _ ls).2
    ⟨b1, by rw [← List.length_pos_iff, hlen]; omega, by rw [hlen]; exact b2⟩) ?_
  intro gamma hg
  have hgl : gamma.length = Gs.length - 2 := by rw [← b5, ← hg, List.length_map]
  obtain ⟨row, gamma, rfl⟩ : ∃ row g, gamma = row :: g := by
    cases gamma with
    | nil => rw [← hg] at b3; simp at b3
    | cons row g => exact ⟨row, g, rfl⟩
  have hrow : row.length = Gs.length - 2 := by
    rw [← hg] at b3; simpa using b3
  have hrows : ∀ r ∈ row :: gamma, r.length ≤ Gs.length - 2 := by
    intro r hr
    apply b4
    rw [← hg]
    exact List.mem_map_of_mem hr
  rw [idx_lt (by rw [hlen]; omega), ok_bind, idx_lt (by omega), ok_bind]
  refine bind_sat OkOrAssert (P := fun l => l.length = Gs.length)
    ⟨_, setIdx_eq_ok.2 ⟨by omega, rfl⟩, by simp⟩ ?_
  intro Gs' hG'
  rw [idx_lt (by omega), ok_bind, idx_lt (by omega), ok_bind,
    msm_eq (by simp [matrixVectorMul] at hgl ⊢; omega), ok_bind,
    Inner.vandemondeChallenge_eq _ (by omega), ok_bind, Inner.vandemondeChallenge_eq _ (by omega),
    ok_bind, rassert_true (by simp; omega), ok_bind]
  obtain ⟨g', e1, e2⟩ := gammaPrime_transpose (row :: gamma) Gs.length (by omega)
  rw [e1, ok_bind]
  refine bind_sat OkOrAssert ((e2 Gs.length).2 ⟨le_rfl, by
    rw [List.headD_cons]; omega, fun r hr => by have := hrows r hr; omega⟩) ?_
  intro T hT
  refine bind_sat OkOrAssert (P := fun l => l.length = Gs.length) ?_ ?_
  · unfold rowRowSub
    rw [rassert_true (by simp; omega), ok_bind]
    exact ⟨_, rfl, by simp; omega⟩
  intro a ha
  refine bind_sat OkOrAssert (P := fun l => l.length = Gs.length) ?_ ?_
  · unfold rowRowAdd
    have e : (matrixVectorMul (row :: gamma) w).length = Gs.length - 2 := by
      simpa [matrixVectorMul] using hgl
    have e' : ∀ v : List F, (matrixVectorMul T v).length = Gs.length := by
      intro v; simpa [matrixVectorMul] using hT
    rw [rassert_true (by rw [e', List.length_append, e]; simp; omega), ok_bind]
    exact ⟨_, rfl, by rw [List.length_zipWith, e', List.length_append, e]; simp; omega⟩
  intro b hb
  rw [msm_eq (by simp; omega), ok_bind]
  refine OkOrAssert.bind (P := fun _ => True) ?_ (fun _ _ => trivial) fun x _ => .inl ⟨_, rfl⟩
  exact C86_alm_create_shapes cx _ tape Gs' Hs Q _ a b _ q (by omega) (by omega) (by omega) (by omega)
    (by omega)

/-- C86: for square systems of `m` by `m` matrices the exact condition: `m + 2` is a power of two, there are so
many generators on both sides, and the four inner products that `orth` divides by are not zero. Here `u` and
`v` are the masked witness and its image and `sp`, `sp2` are the two sparse samples. -/
theorem C86_inner_create_returns_iff {m k : Nat} (hm : 0 < m) (cx : Ctx G) (tr : Transcript) (tape : Tape F)
    (Gs Hs : List G) (Q : G) (Ms : Fin (k + 1) → Matrix (Fin m) (Fin m) F) (w : Fin m → F) (r0 r1 : F) :
    let c' := cx.compress (dot (List.ofFn w ++ [r0, r1]) Gs)
    let x := qesaX F cx.ro tr.log c'
    let M := batched (m + 2) Ms x
    let c'' := cx.compress (dot (List.ofFn (M.mulVec w) ++ [-r1, r0]) Hs)
    let u := maskedWitness w r0 r1 (qesaS F cx.ro tr.log c' c'') (qesaB F cx.ro tr.log c' c'')
    let v := maskedImage M w r0 r1 (qesaS F cx.ro tr.log c' c'') (qesaB F cx.ro tr.log c' c'')
    (∃ r, Inner.create cx tr tape Gs Hs Q ⟨List.ofFn fun i => rows (Ms i)⟩ (List.ofFn w) [r0, r1] = .ok r) ↔
      (∃ q, 2 ≤ q ∧ m + 2 = 2 ^ q) ∧ Gs.length = m + 2 ∧ Hs.length = m + 2 ∧
      ∃ sp sp2 tape1 tape2, sampleMNPlus (m + 2) tape = .ok (sp, tape1) ∧
        sampleMNPlus (m + 2) tape1 = .ok (sp2, tape2) ∧
        dot v sp ≠ 0 ∧ dot u (away v sp) ≠ 0 ∧ dot u sp2 ≠ 0 ∧
        dot (away u (away v sp)) (away u sp2) ≠ 0 := by
  intro c' x M c'' u v
  have hu : u.length = m + 2 := by simp [u, maskedWitness, challengeVector]
  have hv : v.length = m + 2 := by simp [v, maskedImage, challengeImage]
  have key : Gs.length = m + 2 → Hs.length = m + 2 →
      ((∃ r, Inner.create cx tr tape Gs Hs Q ⟨List.ofFn fun i => rows (Ms i)⟩ (List.ofFn w) [r0, r1] = .ok r) ↔
        ∃ r, createAlm cx ⟨tr.log ++ qesaHead c' c'' (cx.compress (dot u (rescaled (x ^ 2) Gs) + dot v Hs))⟩
          tape (rescaled (x ^ 2) Gs) Hs Q (dot u (rescaled (x ^ 2) Gs) + dot v Hs) u v
          (quad M w - quad M (powers (qesaS F cx.ro tr.log c' c'') m)) = .ok r) := by
    intro hG hH
    rw [Inner.create_eq hm cx tr tape Gs Hs Q Ms w r0 r1 hG hH]
    dsimp only
    cases createAlm cx ⟨tr.log ++ qesaHead c' c'' (cx.compress (dot u (rescaled (x ^ 2) Gs) + dot v Hs))⟩
          tape (rescaled (x ^ 2) Gs) Hs Q (dot u (rescaled (x ^ 2) Gs) + dot v Hs) u v
          (quad M w - quad M (powers (qesaS F cx.ro tr.log c' c'') m)) with
    | error e => simp [Except.map]
    | ok r => simp [Except.map]
  constructor
  · intro h
    obtain ⟨⟨q, hq, hGq⟩, hH, hw, -, -⟩ := C86_inner_create_needs _ _ _ _ _ _ _ _ _ h
    rw [List.length_ofFn] at hw
    obtain ⟨k, s, s2, t1, t2, -, -, -, -, -, h1, h2, h3⟩ :=
      (C83_alm_create_returns_iff _ _ _ _ _ _ _ _ _ _).1 ((key (by omega) (by omega)).1 h)
    rw [hv] at h1
    rw [hu] at h2
    exact ⟨⟨q, hq, by omega⟩, by omega, by omega, s, s2, t1, t2, h1, h2, h3⟩
  · rintro ⟨⟨q, hq, hm2⟩, hG, hH, s, s2, t1, t2, h1, h2, h3⟩
    refine (key hG hH).2 ((C83_alm_create_returns_iff _ _ _ _ _ _ _ _ _ _).2
      ⟨q, s, s2, t1, t2, by omega, ?_, by omega, by omega, by omega, by rw [hv]; exact h1,
        by rw [hu]; exact h2, h3⟩)
    rw [← hm2, ← hG]
    cases Gs <;> simp [rescaled]

/-- C86: `qesa_zk::create` in the same way. -/
theorem C86_zk_create_needs (cx : Ctx G) (tr : Transcript) (tape : Tape F) (Gs Hs : List G) (Q : G)
    (block : BlockMatrix F) (w : List F) (h : ∃ r, Zk.create cx tr tape Gs Hs Q block w = .ok r) :
    (∃ q, 2 ≤ q ∧ Gs.length = 2 ^ q) ∧ Hs.length = Gs.length ∧ w.length + 2 = Gs.length ∧
      ProverShape Gs.length block.block := by
  obtain ⟨res, h⟩ := h
  unfold Zk.create at h
  obtain ⟨x, h1, -⟩ := bind_eq_ok.1 h
  obtain ⟨a, b, c, -, d⟩ := C86_inner_create_needs _ _ _ _ _ _ _ _ _ ⟨x, h1⟩
  exact ⟨a, b, c, d⟩

/-- C86: on all inputs of these shapes it returns a proof or fails an assertion of `orth`. -/
theorem C86_zk_create_shapes (cx : Ctx G) (tr : Transcript) (tape : Tape F) (Gs Hs : List G) (Q : G)
    (block : BlockMatrix F) (w : List F) (hG : ∃ q, 2 ≤ q ∧ Gs.length = 2 ^ q)
    (hH : Hs.length = Gs.length) (hw : w.length + 2 = Gs.length)
    (hM : ProverShape Gs.length block.block) :
    (∃ r, Zk.create cx tr tape Gs Hs Q block w = .ok r) ∨
      Zk.create cx tr tape Gs Hs Q block w = .error .assertFail := by
  change OkOrAssert _
  unfold Zk.create
  dsimp only [draw]
  exact OkOrAssert.bind (P := fun _ => True)
    (C86_inner_create_shapes cx tr _ Gs Hs Q block w _ hG hH hw rfl hM) (fun _ _ => trivial)
    fun x _ => .inl ⟨_, rfl⟩

/-! ### Copy -/

theorem placeMessages_length {msgs : List F} {ms : List Copy.MessageMap} {w r : List F}
    (h : Copy.placeMessages msgs ms w = .ok r) :
    r.length = w.length ∧ ∀ x ∈ msgs.zip ms, x.2.position_in_witness < w.length := by
  induction msgs generalizing ms w with
  | nil => simp only [Copy.placeMessages, Except.ok.injEq] at h; subst h; simp
  | cons x msgs ih =>
    cases ms with
    | nil => simp only [Copy.placeMessages, Except.ok.injEq] at h; subst h; simp
    | cons m ms =>
      unfold Copy.placeMessages at h
      obtain ⟨w1, h1, h⟩ := bind_eq_ok.1 h
      obtain ⟨h2, rfl⟩ := setIdx_eq_ok.1 h1
      obtain ⟨e1, e2⟩ := ih h
      rw [List.length_set] at e1 e2
      refine ⟨e1, ?_⟩
      rw [List.zip_cons_cons, List.forall_mem_cons]
      exact ⟨h2, e2⟩

theorem placeMessages_returns {msgs : List F} {ms : List Copy.MessageMap} {w : List F}
    (h : ∀ x ∈ msgs.zip ms, x.2.position_in_witness < w.length) :
    ∃ r, Copy.placeMessages msgs ms w = .ok r := by
  induction msgs generalizing ms w with
  | nil => exact ⟨w, by simp [Copy.placeMessages]⟩
  | cons x msgs ih =>
    cases ms with
    | nil => exact ⟨w, by simp [Copy.placeMessages]⟩
    | cons m ms =>
      rw [List.zip_cons_cons, List.forall_mem_cons] at h
      unfold Copy.placeMessages
      rw [setIdx_eq_ok.2 ⟨h.1, rfl⟩, ok_bind]
      exact ih (by rw [List.length_set]; exact h.2)

theorem aggregate_length {alphas : List F} {ms : List Copy.MessageMap} {w r : List F}
    (h : Copy.aggregate alphas ms w = .ok r) :
    r.length = w.length ∧ ∀ m ∈ ms, m.position_in_witness < w.length ∧
      m.commitment_crs_id < alphas.length ∧ m.commitment_index < w.length := by
  induction ms generalizing w with
  | nil => simp only [Copy.aggregate, Except.ok.injEq] at h; subst h; simp
  | cons m ms ih =>
    unfold Copy.aggregate at h
    obtain ⟨_, h1, h⟩ := bind_eq_ok.1 h
    obtain ⟨_, h2, h⟩ := bind_eq_ok.1 h
    obtain ⟨_, h3, h⟩ := bind_eq_ok.1 h
    obtain ⟨_, h4, h⟩ := bind_eq_ok.1 h
    obtain ⟨h5, rfl⟩ := setIdx_eq_ok.1 h4
    obtain ⟨e1, e2⟩ := ih h
    rw [List.length_set] at e1 e2
    refine ⟨e1, ?_⟩
    rw [List.forall_mem_cons]
    exact ⟨⟨(List.getElem?_eq_some_iff.1 (idx_eq_ok.1 h1)).1,
      (List.getElem?_eq_some_iff.1 (idx_eq_ok.1 h2)).1, h5⟩, e2⟩

theorem fillEqn_length {alphas : List F} {ms : List Copy.MessageMap} {e r : List F}
    (h : Copy.fillEqn alphas ms e = .ok r) :
    r.length = e.length ∧ ∀ m ∈ ms, m.position_in_witness < e.length ∧
      m.commitment_crs_id < alphas.length := by
  induction ms generalizing e with
  | nil => simp only [Copy.fillEqn, Except.ok.injEq] at h; subst h; simp
  | cons m ms ih =>
    unfold Copy.fillEqn at h
    obtain ⟨_, h1, h⟩ := bind_eq_ok.1 h
    obtain ⟨_, h4, h⟩ := bind_eq_ok.1 h
    obtain ⟨h5, rfl⟩ := setIdx_eq_ok.1 h4
    obtain ⟨e1, e2⟩ := ih h
    rw [List.length_set] at e1 e2
    refine ⟨e1, ?_⟩
    rw [List.forall_mem_cons]
    exact ⟨⟨h5, (List.getElem?_eq_some_iff.1 (idx_eq_ok.1 h1)).1⟩, e2⟩

/-- What the two loops that build the copy matrices read and write is there: all commitment indices are below
`k`, and every message of such an index is at a position below `k` and belongs to one of `c` commitments. -/
def CopyFits (k c : Nat) (map : Copy.Mapping) : Prop :=
  ∀ ci ∈ map.unique_commitment_indices, ci < k ∧ ∀ m ∈ map.msgs_map, m.commitment_index = ci →
    m.position_in_witness < k ∧ m.commitment_crs_id < c

/-- The matrices of the proof system together with a `k` by `k` matrix for each commitment index. -/
def withSquares (k : Nat) (map : Copy.Mapping) (Ms : List (List (List F))) : List (List (List F)) :=
  Ms ++ map.unique_commitment_indices.map fun _ => List.replicate k (List.replicate k 0)

theorem pushCopyMatrices_returns (k : Nat) (alphas : List F) (mm : List Copy.MessageMap) (cis : List Nat)
    (g : BlockMatrix F) :
    ((∃ g', Copy.pushCopyMatrices k alphas mm cis g = .ok g') ↔
      ∀ ci ∈ cis, ci < k ∧ ∀ m ∈ mm, m.commitment_index = ci →
        m.position_in_witness < k ∧ m.commitment_crs_id < alphas.length) ∧
    ∀ g', Copy.pushCopyMatrices k alphas mm cis g = .ok g' → g'.block.map lens =
      (g.block ++ cis.map fun _ => List.replicate k (List.replicate k (0 : F))).map lens := by
  have key : ∀ ci, ((∃ M, Copy.copyMatrix k alphas mm ci = .ok M) ↔
      ci < k ∧ ∀ m ∈ mm, m.commitment_index = ci →
        m.position_in_witness < k ∧ m.commitment_crs_id < alphas.length) ∧
      ∀ M, Copy.copyMatrix k alphas mm ci = .ok M →
        lens M = lens (List.replicate k (List.replicate k (0 : F))) := by
    intro ci
    unfold Copy.copyMatrix
    refine ⟨⟨?_, ?_⟩, ?_⟩
    · rintro ⟨M, h⟩
      obtain ⟨e, h1, h⟩ := bind_eq_ok.1 h
      obtain ⟨e', h2, h⟩ := bind_eq_ok.1 h
      obtain ⟨h3, rfl⟩ := setIdx_eq_ok.1 h1
      obtain ⟨-, h4⟩ := fillEqn_length h2
      simp only [List.length_set, List.length_replicate] at h3 h4
      refine ⟨h3, fun m hm hc => h4 m ?_⟩
      rw [List.mem_filter]
      exact ⟨hm, by simpa using hc⟩
    · rintro ⟨h1, h2⟩
      rw [setIdx_eq_ok.2 ⟨by simpa using h1, rfl⟩, ok_bind]
      obtain ⟨r, hr⟩ := Copy.fillEqn_ok alphas (mm.filter fun m => m.commitment_index == ci)
        ((List.replicate k (0 : F)).set ci (-1)) (by
          intro m hm
          rw [List.mem_filter] at hm
          simpa using h2 m hm.1 (by simpa using hm.2))
      rw [hr]
      exact ⟨_, rfl⟩
    · intro M h
      obtain ⟨e, h1, h⟩ := bind_eq_ok.1 h
      obtain ⟨e', h2, hfin⟩ := bind_eq_ok.1 h
      obtain ⟨h3, rfl⟩ := setIdx_eq_ok.1 h1
      obtain ⟨h4, -⟩ := fillEqn_length h2
      simp only [List.length_set, List.length_replicate] at h3 h4
      simp only [R_pure, Except.ok.injEq] at hfin
      subst hfin
      obtain ⟨k, rfl⟩ := Nat.exists_eq_succ_of_ne_zero (show k ≠ 0 by omega)
      simp [lens, h4, List.replicate_succ]
  induction cis generalizing g with
  | nil => simp [Copy.pushCopyMatrices]
  | cons ci cis ih =>
    unfold Copy.pushCopyMatrices
    refine ⟨⟨?_, ?_⟩, ?_⟩
    · rintro ⟨g', h⟩
      obtain ⟨M, h1, h⟩ := bind_eq_ok.1 h
      rw [List.forall_mem_cons]
      exact ⟨(key ci).1.1 ⟨M, h1⟩, (ih _).1.1 ⟨g', h⟩⟩
    · intro h
      rw [List.forall_mem_cons] at h
      obtain ⟨M, h1⟩ := (key ci).1.2 h.1
      rw [h1, ok_bind]
      exact (ih _).1.2 h.2
    · intro g' h
      obtain ⟨M, h1, h⟩ := bind_eq_ok.1 h
      rw [(ih _).2 g' h]
      simp [BlockMatrix.push, (key ci).2 M h1]

theorem take_lens_congr {Ms Ns : List (List (List F))} (h : Ms.map lens = Ns.map lens) (n : Nat)
    (ls : List Nat) : (∀ M ∈ Ms.take n, M.map List.length = ls) ↔ ∀ M ∈ Ns.take n, M.map List.length = ls := by
  have e : ∀ L : List (List (List F)), (∀ M ∈ L.take n, M.map List.length = ls) ↔
      ∀ l ∈ (L.map lens).take n, l = ls := by
    intro L
    rw [← List.map_take]
    simp only [List.forall_mem_map]; rfl
  rw [e, e, h]

theorem ne_nil_lens_congr {Ms Ns : List (List (List F))} (h : Ms.map lens = Ns.map lens) :
    Ms ≠ [] ↔ Ns ≠ [] := by
  have := congrArg List.length h
  simp only [List.length_map] at this
  rw [← List.length_pos_iff, ← List.length_pos_iff, this]

theorem verifierShape_congr {n : Nat} {Ms Ns : List (List (List F))} (h : Ms.map lens = Ns.map lens) :
    VerifierShape n Ms ↔ VerifierShape n Ns := by
  unfold VerifierShape
  simp only [take_lens_congr h, ne_nil_lens_congr h]

theorem proverShape_congr {n : Nat} {Ms Ns : List (List (List F))} (h : Ms.map lens = Ns.map lens) :
    ProverShape n Ms ↔ ProverShape n Ns := by
  unfold ProverShape
  simp only [take_lens_congr h, ne_nil_lens_congr h]

/-- C86: `Copy::verify` returns, with `true` or `false`, exactly when there is a commitment, the mapping fits,
the matrices with the copy matrices have the shape that `qesa_inner` needs, all points of the proof can be
decoded (and the sum computed for `c_prime_w`, too) and the number of generators is two to the number of points
`L`. For mappings of any form. -/
theorem C86_copy_verify_returns_iff [DecidableEq G] (cx : Ctx G) (p : Copy.Proof F) (tr : Transcript)
    (Gs Hs : List G) (Q : G) (block : BlockMatrix F) (map : Copy.Mapping) (Cs : List G) :
    (∃ r, p.verify cx tr Gs Hs Q block map Cs = .ok r) ↔
      Cs ≠ [] ∧ CopyFits (Hs.length - 2) Cs.length map ∧
      3 ≤ Hs.length ∧ Gs.length = Hs.length ∧
      VerifierShape Hs.length (withSquares (Hs.length - 2) map block.block) ∧
      (∃ C, cx.decompress p.C_w = some C ∧ (cx.decompress (cx.compress ((List.zipWith (fun (a : F) (c : G) => a • c)
        (List.ofFn (powers (copyAlpha F cx.ro tr.log p.C_w) Cs.length)) Cs).sum + C))).isSome) ∧
      (cx.decompress p.inner.c_prime_prime_w).isSome ∧
      (cx.decompress p.inner.alm_zk.C_r).isSome ∧
      (∀ c ∈ p.inner.alm_zk.NoZK.L_vec, (cx.decompress c).isSome) ∧
      (∀ c ∈ p.inner.alm_zk.NoZK.R_vec, (cx.decompress c).isSome) ∧
      p.inner.alm_zk.NoZK.L_vec.length < 64 ∧ Hs.length = 2 ^ p.inner.alm_zk.NoZK.L_vec.length := by
  have hα : squeeze F cx.ro (tr.log ++ [Event.msg "c_w" p.C_w] ++
      [Event.chal "alpha" 64]) = copyAlpha F cx.ro tr.log p.C_w := by
    simp [copyAlpha]
  unfold Copy.Proof.verify
  simp only [Ipa.challengeScalar_eq, Transcript.appendMessage, hα]
  constructor
  · rintro ⟨r, h⟩
    obtain ⟨alphas, h1, h⟩ := bind_eq_ok.1 h
    obtain ⟨C, h2, h⟩ := bind_eq_ok.1 h
    obtain ⟨k, h3, h⟩ := bind_eq_ok.1 h
    obtain ⟨g, h4, hfin⟩ := bind_eq_ok.1 h
    obtain ⟨hn2, rfl⟩ := usub_eq_ok.1 h3
    have hc : Cs ≠ [] := by
      rintro rfl
      cases h1
    have hcl : 0 < Cs.length := List.length_pos_iff.2 hc
    rw [Inner.vandemondeChallenge_eq _ (by omega), Except.ok.injEq] at h1
    subst h1
    obtain ⟨a1, a2, a3, a4, a5, a6, a7, a8, a9, a10⟩ :=
      (C86_inner_verify_returns_iff cx _ _ Gs Hs Q g).1 ⟨r, hfin⟩
    obtain ⟨e1, e2⟩ := pushCopyMatrices_returns (Gs.length - 2)
      (List.ofFn (powers (copyAlpha F cx.ro tr.log p.C_w) Cs.length)) map.msgs_map
      map.unique_commitment_indices block
    have e1 := e1.1 ⟨g, h4⟩
    rw [List.length_ofFn, a2] at e1
    have e2 := e2 g h4
    rw [a2] at e2
    exact ⟨hc, e1, a1, a2, (verifierShape_congr e2).1 a3, ⟨C, unwrapR_eq_ok.1 h2, a4⟩, a5, a6, a7, a8, a9, a10⟩
  · rintro ⟨hc, e1, a1, a2, a3, ⟨C, h2, a4⟩, a5, a6, a7, a8, a9, a10⟩
    have hcl : 0 < Cs.length := List.length_pos_iff.2 hc
    rw [Inner.vandemondeChallenge_eq _ (by omega), ok_bind, h2]
    simp only [unwrapR, ok_bind]
    rw [usub_le (by omega), ok_bind]
    obtain ⟨f1, f2⟩ := pushCopyMatrices_returns (Gs.length - 2)
      (List.ofFn (powers (copyAlpha F cx.ro tr.log p.C_w) Cs.length)) map.msgs_map
      map.unique_commitment_indices block
    obtain ⟨g, hg⟩ := f1.2 (by rw [List.length_ofFn, a2]; exact e1)
    rw [hg, ok_bind]
    have f2 := f2 g hg
    rw [a2] at f2
    exact (C86_inner_verify_returns_iff cx _ _ Gs Hs Q g).2
      ⟨a1, a2, (verifierShape_congr f2).2 a3, a4, a5, a6, a7, a8, a9, a10⟩

/-- What `copy::create` needs: `n = 2^q >= 4` generators on both sides, an opening for each of the commitments
that the mapping counts and at least one, a witness that starts with 1 and has at most `n - 2` entries, and a
mapping whose indices are in range. -/
def CopyShape (Gs Hs : List G) (map : Copy.Mapping) (Ms : List (List (List F))) (w : List F)
    (openings : List (List F × F)) : Prop :=
  (∃ q, 2 ≤ q ∧ Gs.length = 2 ^ q) ∧ Hs.length = Gs.length ∧
  map.num_commitments = openings.length ∧ openings ≠ [] ∧ w[0]? = some 1 ∧ w.length + 2 ≤ Gs.length ∧
  (∀ m ∈ map.msgs_map, m.position_in_witness < Gs.length ∧ m.commitment_crs_id < openings.length ∧
    m.commitment_index < Gs.length) ∧
  CopyFits (Gs.length - 2) openings.length map ∧
  ProverShape Gs.length (withSquares (Gs.length - 2) map Ms)

/-- C86: `copy::create` returns only on inputs of this shape, for mappings of any form. -/
theorem C86_copy_create_needs (cx : Ctx G) (tr : Transcript) (tape : Tape F) (Gs Hs : List G) (Q : G)
    (map : Copy.Mapping) (block : BlockMatrix F) (w : List F) (openings : List (List F × F))
    (h : ∃ r, Copy.create cx tr tape Gs Hs Q map block w openings = .ok r) :
    CopyShape Gs Hs map block.block w openings := by
  obtain ⟨⟨p, tr', tape'⟩, h⟩ := h
  have h1 := h
  unfold Copy.create at h1
  obtain ⟨_, h1, -⟩ := bind_eq_ok.1 h1
  have h1 := rassert_eq_ok.1 h1
  have ho : openings = (openings.map fun o => (([] : List Nat), o)).map (·.2) := by simp [Function.comp_def]
  rw [ho] at h
  obtain ⟨w1, C_w, old, w2, w3, gamma, wa, wb, h2, hn2, hwk, h6, h7, -, hcl, h10, h11, h12, h13, h14,
    h15⟩ := Copy.create_steps _ _ _ _ _ _ _ _ _ _ _ _ _ h
  obtain ⟨a1, a2, a3, a4, a5⟩ := C86_inner_create_needs _ _ _ _ _ _ _ _ _ ⟨_, h15⟩
  rw [List.length_map] at hcl
  obtain ⟨e1, e2⟩ := aggregate_length h12
  obtain ⟨e3, rfl⟩ := setIdx_eq_ok.1 h11
  obtain ⟨e4, -⟩ := placeMessages_length h6
  have e5 : w1.length = Gs.length := by
    rw [e4]; simp; omega
  rw [List.length_set, e5] at e2
  simp only [List.length_ofFn, List.length_map] at e2
  obtain ⟨f1, f2⟩ := pushCopyMatrices_returns (Gs.length - 2) _ map.msgs_map
      map.unique_commitment_indices block
  have f1 := f1.1 ⟨_, h13⟩
  have f2 := f2 _ h13
  rw [List.length_ofFn, List.length_map] at f1
  exact ⟨a1, a2, h1, by rintro rfl; simp at hcl, h2, by omega, e2, f1, (proverShape_congr f2).1 a5⟩

/-- C86: on all inputs of this shape `copy::create` returns a proof or fails an assertion of `orth`. -/
theorem C86_copy_create_shapes (cx : Ctx G) (tr : Transcript) (tape : Tape F) (Gs Hs : List G) (Q : G)
    (map : Copy.Mapping) (block : BlockMatrix F) (w : List F) (openings : List (List F × F))
    (h : CopyShape Gs Hs map block.block w openings) :
    (∃ r, Copy.create cx tr tape Gs Hs Q map block w openings = .ok r) ∨
      Copy.create cx tr tape Gs Hs Q map block w openings = .error .assertFail := by
  obtain ⟨⟨q, hq, hGq⟩, a2, a3, a4, a5, a6, a7, a8, a9⟩ := h
  have hn4 : 4 ≤ Gs.length := by
    rw [hGq]
    calc 4 = 2 ^ 2 := rfl
      _ ≤ 2 ^ q := Nat.pow_le_pow_right (by decide) hq
  have ho : 0 < openings.length := List.length_pos_iff.2 a4
  change OkOrAssert _
  unfold Copy.create
  dsimp only [drawN, draw]
  rw [rassert_true a3, ok_bind, idx_eq_ok.2 a5, ok_bind, rassert_true rfl, ok_bind, usub_le (by omega),
    ok_bind, usub_le (by omega), ok_bind]
  have hl : ∀ x : List F, x.length = 2 → (w ++ List.replicate (Gs.length - 2 - w.length) 0 ++ x).length =
      Gs.length := by
    intro x hx; simp [hx]; omega
  refine bind_sat OkOrAssert (P := fun r => r.length = Gs.length) ?_ ?_
  · obtain ⟨r, hr⟩ := placeMessages_returns (w := w ++ List.replicate (Gs.length - 2 - w.length) 0 ++
      [tape 0, tape (0 + 1)]) (msgs := (openings.map fun o => o.1).flatten) (ms := map.msgs_map) (by
        intro x hx
        rw [hl _ rfl]
        exact (a7 _ (List.of_mem_zip hx).2).1)
    exact ⟨r, hr, by rw [(placeMessages_length hr).1, hl _ rfl]⟩
  intro w1 hw1
  rw [msm_eq hw1, ok_bind, Inner.vandemondeChallenge_eq _ (by omega), ok_bind, usub_le (by omega), ok_bind,
    idx_lt (by omega), ok_bind, setIdx_eq_ok.2 ⟨by omega, rfl⟩, ok_bind]
  refine bind_sat OkOrAssert (P := fun r => r.length = Gs.length) ?_ ?_
  · have key : ∀ (al v : List F), al.length = openings.length → v.length = Gs.length →
        ∃ r, Copy.aggregate al map.msgs_map v = .ok r ∧ r.length = Gs.length := by
      intro al v h1 h2
      obtain ⟨r, hr⟩ := Copy.aggregate_ok al map.msgs_map v (by rw [h1, h2]; exact a7)
      exact ⟨r, hr, by rw [(aggregate_length hr).1, h2]⟩
    exact key _ _ (by simp) (by simp [hw1])
  intro w3 hw3
  refine bind_sat OkOrAssert (P := fun g => ProverShape Gs.length g.block) ?_ ?_
  · obtain ⟨f1, f2⟩ := pushCopyMatrices_returns (Gs.length - 2) (List.ofFn (powers _ openings.length))
      map.msgs_map map.unique_commitment_indices block
    obtain ⟨g, hg⟩ := f1.2 (by rw [List.length_ofFn]; exact a8)
    exact ⟨g, hg, (proverShape_congr (f2 g hg)).2 a9⟩
  intro g hg
  refine bind_sat OkOrAssert (P := fun x => x.1.length + 2 = Gs.length ∧ x.2.length = 2) ?_ ?_
  · refine ⟨_, splitAtR_le (by omega), ?_, ?_⟩ <;> simp <;> omega
  rintro ⟨wa, wb⟩ ⟨h1, h2⟩
  dsimp only
  exact OkOrAssert.bind (P := fun _ => True)
    (C86_inner_create_shapes cx _ _ Gs Hs Q g wa wb ⟨q, hq, hGq⟩ a2 h1 h2 hg) (fun _ _ => trivial)
    fun x _ => .inl ⟨_, rfl⟩

section
open Toy Copy
/-- A run of `qesa_zk` on a matrix whose second row is shorter: prover and verifier return, and the proof for
the witness `(1, 2)` of `4 w₀² + 0 w₀ w₁ - 2 w₁ w₀ = 0` is rejected, but accepted if the row is padded with a
zero. (The transposition moves the entries below a short row up.) With one row the prover panics and the verifier
returns; with a first row that is too short, both panic; with rows of different lengths in two matrices, too. -/
example :
    let p : Inner.Proof K := ⟨⟨[100], ⟨[[3], [4]], [[5], [6]], 1, 1⟩⟩, [7], [8]⟩
    (match Zk.create cx ⟨[]⟩ exTape2 [3, 5, 8, 13] [21, 34, 55, 89] (7 : K) ⟨[[[4, 0], [-2]]]⟩ [1, (2 : K)] with
      | .ok (p, _, _) => (p.verify cx ⟨[]⟩ [3, 5, 8, 13] [21, 34, 55, 89] 7 ⟨[[[4, 0], [-2]]]⟩).map Prod.fst
      | .error e => .error e) = .ok false ∧
    (match Zk.create cx ⟨[]⟩ exTape2 [3, 5, 8, 13] [21, 34, 55, 89] (7 : K) ⟨[[[4, 0], [-2, 0]]]⟩ [1, (2 : K)] with
      | .ok (p, _, _) => (p.verify cx ⟨[]⟩ [3, 5, 8, 13] [21, 34, 55, 89] 7 ⟨[[[4, 0], [-2, 0]]]⟩).map Prod.fst
      | .error e => .error e) = .ok true ∧
    (Zk.create cx ⟨[]⟩ exTape [3, 5, 8, 13] [21, 34, 55, 89] (7 : K) ⟨[[[4, 0]]]⟩ [1, (2 : K)]).toOption.isNone ∧
    (Zk.create cx ⟨[]⟩ exTape [3, 5, 8, 13] [21, 34, 55, 89] (7 : K) ⟨[[[4], [1, 2]]]⟩ [1, (2 : K)]).toOption.isNone ∧
    (p.verify cx ⟨[]⟩ [3, 5, 8, 13] [21, 34, 55, 89] (7 : K) ⟨[[[4, 0]]]⟩).toOption.isSome ∧
    (p.verify cx ⟨[]⟩ [3, 5, 8, 13] [21, 34, 55, 89] (7 : K) ⟨[[[4, 0], [1], [2, 3], []]]⟩).toOption.isSome ∧
    (p.verify cx ⟨[]⟩ [3, 5, 8, 13] [21, 34, 55, 89] (7 : K) ⟨[[[4], [1, 2]]]⟩).toOption.isNone ∧
    (p.verify cx ⟨[]⟩ [3, 5, 8, 13] [21, 34, 55, 89] (7 : K) ⟨[[[4, 0], [1]], [[4, 0], [1, 2]]]⟩).toOption.isNone := by
  decide +kernel

/-- A Copy run with a mapping that `compute_mapping` does not make: the message is at position 4 of the witness and
its commitment index is 3. The prover and the verifier return. If the position is in the masks (7) or the
index 8, the prover panics; if only the verifier's mapping names a third commitment, the verifier does. -/
example : (match commit exG [3] [(10 : K)] 7,
        Copy.create cx ⟨[]⟩ exTapeC exG exH (17 : K) ⟨1, [⟨0, 3, 0, 4⟩], [3], 4⟩ ⟨[rows exU]⟩ [1, 3] [([10], 7)] with
      | .ok C, .ok (p, _, _) =>
        (p.verify cx ⟨[]⟩ exG exH 17 ⟨[rows exU]⟩ ⟨1, [⟨0, 3, 0, 4⟩], [3], 4⟩ [C]).map Prod.fst == .ok true &&
        (p.verify cx ⟨[]⟩ exG exH 17 ⟨[rows exU]⟩ ⟨1, [⟨0, 3, 2, 4⟩], [3], 4⟩ [C]).toOption.isNone
      | _, _ => false) = true ∧
    (Copy.create cx ⟨[]⟩ exTapeC exG exH (17 : K) ⟨1, [⟨0, 3, 0, 7⟩], [3], 7⟩ ⟨[rows exU]⟩ [1, 3]
      [([10], 7)]).toOption.isNone ∧
    (Copy.create cx ⟨[]⟩ exTapeC exG exH (17 : K) ⟨1, [⟨0, 8, 0, 4⟩], [8], 4⟩ ⟨[rows exU]⟩ [1, 3]
      [([10], 7)]).toOption.isNone := by
  decide +kernel
end

end Qesa.Props
