import Verif.Props.LmpaHalts
import Verif.Proofs.Lmpa
import Verif.Toy
/- C84: on which inputs the provers and verifiers of lmpa::no_zk and lmpa::simple_zk (binary folding)
return. "Returns" means: for some amount of fuel the model is `.ok`. -/
namespace Qesa.Props
open Qesa Spec Lmpa
set_option linter.unusedSectionVars false
variable {F G : Type} [Field F] [AddCommGroup G] [Module F G] [DecidableEq G]

theorem two_pow_dvd_half {q l : Nat} (h : l % 2 = 0) : 2 ^ q ∣ l / 2 ↔ 2 ^ (q + 1) ∣ l := by
  obtain ⟨c, rfl⟩ := Nat.dvd_of_mod_eq_zero h
  rw [Nat.mul_div_cancel_left c (by omega), pow_succ, mul_comm, Nat.mul_dvd_mul_iff_left (by omega)]

theorem even_of_two_pow_dvd {q l : Nat} (h : 2 ^ (q + 1) ∣ l) : l % 2 = 0 :=
  Nat.mod_eq_zero_of_dvd ((Dvd.intro_left (2 ^ q) (by rw [pow_succ])).trans h)

theorem rows_fold (x : F) (A : List (List G)) (q : Nat) (h : ∀ row ∈ A, row.length % 2 = 0) :
    (∀ row ∈ A.map (foldRow x), 2 ^ q ∣ row.length) ↔ ∀ row ∈ A, 2 ^ (q + 1) ∣ row.length := by
  rw [List.forall_mem_map]
  refine forall₂_congr fun row hr => ?_
  rw [foldRow_length, two_pow_dvd_half (h row hr)]

theorem createLoop_returns (cx : Ctx G) : ∀ (q fuel n : Nat) (A : List (List G)) (w : List F)
    (tr : Transcript), 2 ^ q ≤ n → n < 2 ^ (q + 1) → q < fuel →
    ((∃ r, createLoop cx fuel n A w tr = .ok r) ↔ (∀ row ∈ A, 2 ^ q ∣ row.length) ∧ 2 ^ q ≤ w.length) := by
  intro q
  induction q with
  | zero =>
    intro fuel n A w tr h1 h2 hf
    obtain ⟨fuel, rfl⟩ := Nat.exists_eq_succ_of_ne_zero (Nat.pos_iff_ne_zero.1 hf)
    obtain rfl : n = 1 := by simp at h1 h2; omega
    unfold createLoop
    rw [if_pos rfl]
    cases w with
    | nil => simp [idx]
    | cons a w => simp [idx]
  | succ q ih =>
    intro fuel n A w tr h1 h2 hf
    obtain ⟨fuel, rfl⟩ := Nat.exists_eq_succ_of_ne_zero (show fuel ≠ 0 by omega)
    have hp := Nat.two_pow_pos q
    have e1 : 2 ^ (q + 1) = 2 * 2 ^ q := by rw [pow_succ]; ring
    have e2 : 2 ^ (q + 1 + 1) = 2 * 2 ^ (q + 1) := by rw [pow_succ]; ring
    unfold createLoop
    rw [if_neg (by omega)]
    simp only [absorb_eq, Ipa.challengeScalar_eq]
    by_cases he : ∀ row ∈ A, row.length % 2 = 0
    · rw [foldA_eq _ _ he, ok_bind]
      have := ih fuel (n / 2) (A.map (foldRow (squeeze F cx.ro (tr.log ++
        pointsLog cx "L" (matrixpointVectorMul (leftHalves A) (w.drop (w.length / 2))) ++
        pointsLog cx "R" (matrixpointVectorMul (rightHalves A) (w.take (w.length / 2))) ++
        [Event.chal "challenge" 64]))))
        (List.zipWith (fun a b => a * (squeeze F cx.ro (tr.log ++
        pointsLog cx "L" (matrixpointVectorMul (leftHalves A) (w.drop (w.length / 2))) ++
        pointsLog cx "R" (matrixpointVectorMul (rightHalves A) (w.take (w.length / 2))) ++
        [Event.chal "challenge" 64])) + b) (w.take (w.length / 2)) (w.drop (w.length / 2)))
        ⟨tr.log ++ pointsLog cx "L" (matrixpointVectorMul (leftHalves A) (w.drop (w.length / 2))) ++
        pointsLog cx "R" (matrixpointVectorMul (rightHalves A) (w.take (w.length / 2))) ++
        [Event.chal "challenge" 64]⟩ (by omega) (by omega) (by omega)
      rw [rows_fold _ _ _ he] at this
      have hw : 2 ^ q ≤ (List.zipWith (fun a b => a * (squeeze F cx.ro (tr.log ++
        pointsLog cx "L" (matrixpointVectorMul (leftHalves A) (w.drop (w.length / 2))) ++
        pointsLog cx "R" (matrixpointVectorMul (rightHalves A) (w.take (w.length / 2))) ++
        [Event.chal "challenge" 64])) + b) (w.take (w.length / 2)) (w.drop (w.length / 2))).length ↔
        2 ^ (q + 1) ≤ w.length := by
        simp only [List.length_zipWith, List.length_take, List.length_drop]; omega
      rw [hw] at this
      rw [← this]
      constructor
      · rintro ⟨r, h⟩
        obtain ⟨r', h', -⟩ := bind_eq_ok.1 h
        exact ⟨r', h'⟩
      · rintro ⟨r, h⟩
        rw [h]; exact ⟨_, rfl⟩
    · push Not at he
      rw [foldA_error _ _ he]
      constructor
      · rintro ⟨r, h⟩; cases h
      · rintro ⟨h, -⟩
        obtain ⟨row, hr, ho⟩ := he
        exact absurd (even_of_two_pow_dvd (h row hr)) ho

theorem foldT_ne_nil (x : F) (L R t : List G) : foldT x L R t ≠ [] ↔ L ≠ [] ∧ R ≠ [] ∧ t ≠ [] := by
  cases L <;> cases R <;> cases t <;> simp [foldT]

theorem take_drop_succ {α : Type} (l : List α) (i q : Nat) (h : i < l.length) :
    (l.drop i).take (q + 1) = l[i] :: (l.drop (i + 1)).take q := by
  rw [List.drop_eq_getElem_cons h, List.take_succ_cons]

theorem verifyLoop_returns (cx : Ctx G) (p : NoZK F G) : ∀ (q fuel ci n : Nat) (A : List (List G))
    (t : List G) (tr : Transcript), 2 ^ q ≤ n → n < 2 ^ (q + 1) → q < fuel →
    ci ≤ p.L_Vec.length → ci ≤ p.R_Vec.length →
    ((∃ r, verifyLoop cx p fuel ci n A t tr = .ok r ∧ r.1 ≠ [] ∧ r.2.1 ≠ []) ↔
      (∀ row ∈ A, 2 ^ q ∣ row.length) ∧ A ≠ [] ∧ t ≠ [] ∧ ci + q ≤ p.L_Vec.length ∧
        ci + q ≤ p.R_Vec.length ∧ (∀ L ∈ (p.L_Vec.drop ci).take q, L ≠ []) ∧
        ∀ R ∈ (p.R_Vec.drop ci).take q, R ≠ []) := by
  intro q
  induction q with
  | zero =>
    intro fuel ci n A t tr h1 h2 hf hL hR
    obtain ⟨fuel, rfl⟩ := Nat.exists_eq_succ_of_ne_zero (Nat.pos_iff_ne_zero.1 hf)
    obtain rfl : n = 1 := by simp at h1 h2; omega
    unfold verifyLoop
    rw [if_pos rfl]
    simp [hL, hR]
  | succ q ih =>
    intro fuel ci n A t tr h1 h2 hf hL hR
    obtain ⟨fuel, rfl⟩ := Nat.exists_eq_succ_of_ne_zero (show fuel ≠ 0 by omega)
    have hp := Nat.two_pow_pos q
    have e1 : 2 ^ (q + 1) = 2 * 2 ^ q := by rw [pow_succ]; ring
    have e2 : 2 ^ (q + 1 + 1) = 2 * 2 ^ (q + 1) := by rw [pow_succ]; ring
    unfold verifyLoop
    rw [if_neg (by omega)]
    by_cases hl : ci < p.L_Vec.length
    swap
    · rw [idx_ge (by omega)]
      constructor
      · rintro ⟨r, h, -⟩; cases h
      · rintro ⟨-, -, -, h, -⟩; omega
    rw [idx_lt hl, ok_bind]
    by_cases hr : ci < p.R_Vec.length
    swap
    · rw [idx_ge (by omega)]
      constructor
      · rintro ⟨r, h, -⟩; cases h
      · rintro ⟨-, -, -, -, h, -⟩; omega
    rw [idx_lt hr, ok_bind]
    simp only [absorb_eq, Ipa.challengeScalar_eq]
    by_cases he : ∀ row ∈ A, row.length % 2 = 0
    · rw [foldA_eq _ _ he, ok_bind, ih fuel (ci + 1) (n / 2) _ _ _ (by omega) (by omega) (by omega) hl hr,
        rows_fold _ _ _ he, foldT_ne_nil, take_drop_succ _ _ _ hl, take_drop_succ _ _ _ hr,
        List.forall_mem_cons, List.forall_mem_cons, show ci + 1 + q = ci + (q + 1) by omega]
      simp only [ne_eq, List.map_eq_nil_iff]
      tauto
    · push Not at he
      rw [foldA_error _ _ he]
      constructor
      · rintro ⟨r, h, -⟩; cases h
      · rintro ⟨h, -⟩
        obtain ⟨row, hr, ho⟩ := he
        exact absurd (even_of_two_pow_dvd (h row hr)) ho

/-- The number of rounds is the binary logarithm, rounded down. -/
theorem rounds (n : Nat) (h : n ≠ 0) : 2 ^ Nat.log 2 n ≤ n ∧ n < 2 ^ (Nat.log 2 n + 1) :=
  ⟨Nat.pow_log_le_self 2 h, Nat.lt_pow_succ_log_self (by omega) n⟩

theorem createLoop_zero_never (cx : Ctx G) : ∀ (fuel : Nat) (A : List (List G)) (w : List F)
    (tr : Transcript) (r : NoZK F G × Transcript), createLoop cx fuel 0 A w tr ≠ .ok r
  | 0, _, _, _, _ => by intro h; cases h
  | fuel + 1, A, w, tr, r => by
    intro h
    rw [createLoop, if_neg (by simp)] at h
    obtain ⟨A', -, h⟩ := bind_eq_ok.1 h
    obtain ⟨r', h', -⟩ := bind_eq_ok.1 h
    exact createLoop_zero_never cx fuel A' _ _ r' h'

/-- C84: the binary prover returns exactly when `G_Vec` is not empty and, with `q` the binary logarithm
of its length rounded down, the length of every row of `A` is a multiple of `2^q` and `w` has at least
`2^q` entries. (`n` need not be a power of two; rows and `w` need not have `n` entries.) -/
theorem C84_lmpa_create_returns_iff (cx : Ctx G) (tr : Transcript) (A : List (List G)) (Gs : List G)
    (w : List F) :
    (∃ fuel r, create cx fuel tr A Gs w = .ok r) ↔
      Gs ≠ [] ∧ (∀ row ∈ A, 2 ^ Nat.log 2 Gs.length ∣ row.length) ∧
        2 ^ Nat.log 2 Gs.length ≤ w.length := by
  constructor
  · rintro ⟨fuel, r, h⟩
    have h0 : Gs ≠ [] := by
      rintro rfl
      exact createLoop_zero_never cx fuel A w tr r h
    obtain ⟨h1, h2⟩ := rounds Gs.length (by simpa using h0)
    have h3 := C49_lmpa_fuel cx fuel (Nat.log 2 Gs.length + 1) tr A Gs w (by rw [h]; simp)
    rw [h] at h3
    exact ⟨h0, (createLoop_returns cx _ _ _ A w tr h1 h2 (by omega)).1 ⟨r, h3⟩⟩
  · rintro ⟨h0, h⟩
    obtain ⟨h1, h2⟩ := rounds Gs.length (by simpa using h0)
    obtain ⟨r, hr⟩ := (createLoop_returns cx _ (Nat.log 2 Gs.length + 1) _ A w tr h1 h2 (by omega)).2 h
    exact ⟨_, r, hr⟩

/-- C84: so with a rectangular `A` that has one column per generator, `n` has to be a power of two. -/
theorem C84_lmpa_create_rectangular (cx : Ctx G) (tr : Transcript) (A : List (List G)) (Gs : List G)
    (w : List F) (hA : A ≠ []) (hw : Width Gs.length A) :
    (∃ fuel r, create cx fuel tr A Gs w = .ok r) ↔
      (∃ q, Gs.length = 2 ^ q) ∧ Gs.length ≤ w.length := by
  rw [C84_lmpa_create_returns_iff]
  have hrow : (∀ row ∈ A, 2 ^ Nat.log 2 Gs.length ∣ row.length) ↔ 2 ^ Nat.log 2 Gs.length ∣ Gs.length := by
    constructor
    · intro h
      obtain ⟨row, A', rfl⟩ := List.exists_cons_of_ne_nil hA
      have := h row List.mem_cons_self
      rwa [hw row List.mem_cons_self] at this
    · intro h row hr
      rwa [hw row hr]
  rw [hrow]
  constructor
  · rintro ⟨h0, h, h3⟩
    obtain ⟨h1, h2⟩ := rounds Gs.length (by simpa using h0)
    obtain ⟨c, hc⟩ := h
    have : Gs.length = 2 ^ Nat.log 2 Gs.length := by
      rw [pow_succ] at h2
      have hp := Nat.two_pow_pos (Nat.log 2 Gs.length)
      generalize 2 ^ Nat.log 2 Gs.length = e at *
      have : c < 2 := by
        by_contra hc2
        have : e * 2 ≤ e * c := Nat.mul_le_mul_left _ (by omega)
        omega
      have : c ≠ 0 := by rintro rfl; rw [Nat.mul_zero] at hc; omega
      have : c = 1 := by omega
      subst this; omega
    exact ⟨⟨_, this⟩, by omega⟩
  · rintro ⟨⟨q, hq⟩, h⟩
    have hl : Nat.log 2 Gs.length = q := by rw [hq, Nat.log_pow (by omega)]
    have hp := Nat.two_pow_pos q
    refine ⟨by rintro rfl; simp at hq; omega, ?_, ?_⟩
    · rw [hl, hq]
    · rw [hl]; omega

/-- C84: the binary verifier returns exactly when `n` is the length of `G_Vec`, not zero, `A` and `t` are
not empty and, with `q` the binary logarithm of `n` rounded down, the length of every row of `A` is a
multiple of `2^q` and the proof has at least `q` messages `L` and `R`, the first `q` of which are not
empty. -/
theorem C84_lmpa_verify_returns_iff (cx : Ctx G) (p : NoZK F G) (tr : Transcript) (A : List (List G))
    (Gs : List G) (n : Nat) (t : List G) :
    (∃ fuel r, p.verify cx fuel tr A Gs n t = .ok r) ↔
      n = Gs.length ∧ n ≠ 0 ∧ A ≠ [] ∧ t ≠ [] ∧ (∀ row ∈ A, 2 ^ Nat.log 2 n ∣ row.length) ∧
        Nat.log 2 n ≤ p.L_Vec.length ∧ Nat.log 2 n ≤ p.R_Vec.length ∧
        (∀ L ∈ p.L_Vec.take (Nat.log 2 n), L ≠ []) ∧ ∀ R ∈ p.R_Vec.take (Nat.log 2 n), R ≠ [] := by
  have key : ∀ fuel, (∃ r, p.verify cx fuel tr A Gs n t = .ok r) ↔ n = Gs.length ∧
      ∃ r, verifyLoop cx p fuel 0 n A t tr = .ok r ∧ r.1 ≠ [] ∧ r.2.1 ≠ [] := by
    intro fuel
    unfold NoZK.verify
    by_cases h : n = Gs.length
    swap
    · rw [rassert_false h]
      constructor
      · rintro ⟨r, h⟩; cases h
      · rintro ⟨h', -⟩; exact absurd h' h
    rw [rassert_true h, ok_bind]
    constructor
    · rintro ⟨r, hr⟩
      obtain ⟨⟨A', t', tr'⟩, h1, hr⟩ := bind_eq_ok.1 hr
      obtain ⟨e0, h2, hr⟩ := bind_eq_ok.1 hr
      obtain ⟨t0, h3, hr⟩ := bind_eq_ok.1 hr
      refine ⟨h, _, h1, ?_, ?_⟩
      · rintro rfl; simp [idx, matrixpointVectorMul] at h2
      · rintro rfl; simp [idx] at h3
    · rintro ⟨-, ⟨A', t', tr'⟩, h1, h2, h3⟩
      rw [h1, ok_bind]
      obtain ⟨row, A', rfl⟩ := List.exists_cons_of_ne_nil h2
      obtain ⟨t0, t', rfl⟩ := List.exists_cons_of_ne_nil h3
      exact ⟨_, rfl⟩
  constructor
  · rintro ⟨fuel, r, h⟩
    have h3 := C49_lmpa_verify_fuel cx p fuel (Nat.log 2 n + 1) n tr A Gs t (by rw [h]; simp)
    rw [h] at h3
    obtain ⟨h4, h5⟩ := (key _).1 ⟨r, h3⟩
    have h0 : n ≠ 0 := by
      rintro rfl
      obtain ⟨e, -, he⟩ := C49_lmpa_verify_zero_panics cx p (fuel + p.L_Vec.length + 1) tr A Gs t (by omega)
      have := C49_lmpa_verify_fuel cx p fuel (p.L_Vec.length + 1) 0 tr A Gs t (by rw [h]; simp)
      rw [h, ← Nat.add_assoc, he] at this
      cases this
    obtain ⟨h1, h2⟩ := rounds n h0
    have := (verifyLoop_returns cx p _ _ 0 n A t tr h1 h2 (by omega) (by omega) (by omega)).1 h5
    simp only [Nat.zero_add, List.drop_zero] at this
    tauto
  · rintro ⟨h4, h0, h⟩
    obtain ⟨h1, h2⟩ := rounds n h0
    have := (verifyLoop_returns cx p _ (Nat.log 2 n + 1) 0 n A t tr h1 h2 (by omega) (by omega)
      (by omega)).2 (by simp only [Nat.zero_add, List.drop_zero]; tauto)
    obtain ⟨r, hr⟩ := (key _).2 ⟨h4, this⟩
    exact ⟨_, r, hr⟩

theorem drawN_length (n : Nat) (tape : Tape F) : (drawN n tape).1.length = n := by
  induction n generalizing tape with
  | zero => rfl
  | succ n ih => simp [drawN, ih]

/-- C84: `simple_zk::create` returns on the same inputs as `no_zk::create`, whatever the random tape. -/
theorem C84_simple_create_returns_iff (cx : Ctx G) (tr : Transcript) (tape : Tape F) (A : List (List G))
    (Gs : List G) (w : List F) :
    (∃ fuel r, createSimple cx fuel tr tape A Gs w = .ok r) ↔
      Gs ≠ [] ∧ (∀ row ∈ A, 2 ^ Nat.log 2 Gs.length ∣ row.length) ∧
        2 ^ Nat.log 2 Gs.length ≤ w.length := by
  have key : ∀ fuel, (∃ r, createSimple cx fuel tr tape A Gs w = .ok r) ↔
      ∃ r, create cx fuel (challengeScalar (F := F) cx.ro (absorb cx "a"
        (matrixpointVectorMul A (drawN Gs.length tape).1) tr) "beta").2 A Gs
        (List.zipWith (fun x y => (challengeScalar (F := F) cx.ro (absorb cx "a"
        (matrixpointVectorMul A (drawN Gs.length tape).1) tr) "beta").1 * x + y) w
          (drawN Gs.length tape).1) = .ok r := by
    intro fuel
    constructor
    · rintro ⟨r, h⟩
      obtain ⟨r', h', -⟩ := bind_eq_ok.1 h
      exact ⟨r', h'⟩
    · rintro ⟨r, h⟩
      unfold createSimple
      dsimp only
      rw [h]
      exact ⟨_, rfl⟩
  simp only [key]
  rw [C84_lmpa_create_returns_iff]
  refine and_congr_right fun h0 => and_congr_right fun _ => ?_
  obtain ⟨h1, h2⟩ := rounds Gs.length (by simpa using h0)
  simp only [List.length_zipWith, drawN_length]
  omega

/-- C84: `SimpleZK::verify` returns on the same inputs as `NoZK::verify`, provided that `a` is not empty. -/
theorem C84_simple_verify_returns_iff (cx : Ctx G) (p : SimpleZK F G) (tr : Transcript)
    (A : List (List G)) (Gs : List G) (n : Nat) (t : List G) :
    (∃ fuel r, p.verify cx fuel tr A Gs n t = .ok r) ↔
      n = Gs.length ∧ n ≠ 0 ∧ A ≠ [] ∧ t ≠ [] ∧ p.a ≠ [] ∧ (∀ row ∈ A, 2 ^ Nat.log 2 n ∣ row.length) ∧
        Nat.log 2 n ≤ p.no_zk.L_Vec.length ∧ Nat.log 2 n ≤ p.no_zk.R_Vec.length ∧
        (∀ L ∈ p.no_zk.L_Vec.take (Nat.log 2 n), L ≠ []) ∧
        ∀ R ∈ p.no_zk.R_Vec.take (Nat.log 2 n), R ≠ [] := by
  unfold SimpleZK.verify
  by_cases h : n = Gs.length
  swap
  · simp only [rassert_false h]
    constructor
    · rintro ⟨fuel, r, h⟩; cases h
    · rintro ⟨h', -⟩; exact absurd h' h
  simp only [rassert_true h, ok_bind]
  rw [C84_lmpa_verify_returns_iff]
  have : List.zipWith (fun t a => (challengeScalar (F := F) cx.ro (absorb cx "a" p.a tr) "beta").1 • t + a)
      t p.a ≠ [] ↔ t ≠ [] ∧ p.a ≠ [] := by
    cases t <;> cases p.a <;> simp
  rw [this]
  tauto

section
open Toy
/-- Three generators, rows of length four: one round is done and half of the columns are forgotten. A row
of length three panics, and so does a witness of length one. -/
example : (create (F := K) cx 3 ⟨[]⟩ [[3, 5, 8, 13]] [1, 2, 3] [1, 1, 1, 1]).toOption.isSome ∧
    create (F := K) cx 3 ⟨[]⟩ [[3, 5, 8]] [1, 2, 3] [1, 1, 1] = .error .assertFail ∧
    create (F := K) cx 3 ⟨[]⟩ [[3, 5, 8, 13]] [1, 2, 3] [1] = .error .indexOOB := by
  decide +kernel
/-- A proof with an empty message panics the verifier; one with a message too many does not. -/
example : (⟨[[]], [[1]], 1⟩ : NoZK K K).verify cx 3 ⟨[]⟩ [[3, 5]] [1, 2] 2 [4] = .error .indexOOB ∧
    ((⟨[[2], []], [[1]], 1⟩ : NoZK K K).verify cx 3 ⟨[]⟩ [[3, 5]] [1, 2] 2 [4]).toOption.isSome ∧
    (⟨⟨[[2]], [[1]], 1⟩, []⟩ : SimpleZK K K).verify cx 3 ⟨[]⟩ [[3, 5]] [1, 2] 2 [4] =
      .error .indexOOB := by
  decide +kernel
end

end Qesa.Props
