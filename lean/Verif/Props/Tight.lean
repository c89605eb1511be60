import Verif.Props.Knowledge
/-
C99: the soundness errors of C64 and C66 are attained, by provers that guess challenges.
-/
namespace Qesa.Props
open Qesa Spec
variable {F G : Type} [Field F] [AddCommGroup G] [Module F G]

omit [Field F] in
/-- The sequences of `d` challenges that contain one of two values. -/
theorem countChallenges_hit (S : Finset F) {x y : F} (hx : x ∈ S) (hy : y ∈ S) (hxy : x ≠ y) (d : Nat) :
    countChallenges S d (fun l => x ∈ l ∨ y ∈ l) + (S.card - 2) ^ d = S.card ^ d := by
  classical
  have e : countChallenges S d (fun l => ¬ (x ∈ l ∨ y ∈ l)) = (S.card - 2) ^ d := by
    unfold countChallenges
    trans (Fintype.piFinset fun _ : Fin d => S \ {x, y}).card
    · congr 1
      ext c
      simp only [Finset.mem_filter, Fintype.mem_piFinset, List.mem_ofFn, Finset.mem_sdiff,
        Finset.mem_insert, Finset.mem_singleton, not_or, not_exists, forall_and]
    rw [Fintype.card_piFinset, Finset.prod_const, Finset.card_univ, Fintype.card_fin,
      Finset.card_sdiff_of_subset (by intro z hz; simp at hz; rcases hz with rfl | rfl <;> assumption),
      Finset.card_pair hxy]
  rw [← e]
  unfold countChallenges
  rw [Finset.card_filter_add_card_filter_not, Fintype.card_piFinset]
  simp

omit [Field F] in
theorem countChallenges_mono (S : Finset F) (d : Nat) (A B : List F → Prop)
    (h : ∀ y : List F, y.length = d → (∀ x ∈ y, x ∈ S) → A y → B y) :
    countChallenges S d A ≤ countChallenges S d B := by
  classical
  unfold countChallenges
  refine Finset.card_le_card fun c hc => ?_
  rw [Finset.mem_filter, Fintype.mem_piFinset] at hc
  refine Finset.mem_filter.2 ⟨Fintype.mem_piFinset.2 hc.1, h _ (by simp) (fun x hx => ?_) hc.2⟩
  obtain ⟨i, rfl⟩ := List.mem_ofFn.1 hx
  exact hc.1 i

/-! ### Linear maps -/

/-- A prover of the linear-map argument for the target `⟨w, row⟩ + Z` that is right if one of the challenges
is `x₁` or `x₂`. -/
def cheatLmpa (x₁ x₂ : F) : (q : Nat) → (row : List G) → (w : List F) → (Z : G) → LmpaProver F G q
  | 0, _, w, _ => .final (w.headD 0)
  | q + 1, row, w, Z =>
    let n := 2 ^ q
    .round (dot (w.drop n) (row.take n) - ((x₁ + x₂)⁻¹ * (x₁ * x₂)) • Z)
      (dot (w.take n) (row.drop n) - (x₁ + x₂)⁻¹ • Z) fun x =>
      cheatLmpa x₁ x₂ q (Lmpa.foldRow x row)
        (List.zipWith (fun l r => x * l + 1 * r) (w.take n) (w.drop n))
        (-((x₁ + x₂)⁻¹ * ((x - x₁) * (x - x₂))) • Z)

theorem cheatLmpa_accepts (x₁ x₂ : F) (hs : x₁ + x₂ ≠ 0) : ∀ (q : Nat) (row : List G) (w xs : List F) (Z : G),
    row.length = 2 ^ q → w.length = 2 ^ q → xs.length = q → (x₁ ∈ xs ∨ x₂ ∈ xs ∨ Z = 0) →
    let c := (cheatLmpa x₁ x₂ q row w Z).talk xs
    Conversation.accepts row (dot w row + Z) c.1 c.2.1 c.2.2.1 c.2.2.2
  | 0, row, w, xs, Z, hrow, hw, hx, hZ => by
    rw [pow_zero, List.length_eq_one_iff] at hrow hw
    obtain ⟨g, rfl⟩ := hrow
    obtain ⟨y, rfl⟩ := hw
    rw [List.length_eq_zero_iff] at hx
    subst hx
    obtain rfl : Z = 0 := by simpa using hZ
    change Conversation.accepts [g] _ [] [] [] y
    simp [Conversation.accepts, foldedRow, foldedTarget, weightG, dot]
  | q + 1, row, w, x :: xs, Z, hrow, hw, hx, hZ => by
    have hp : 2 ^ (q + 1) = 2 ^ q + 2 ^ q := by rw [pow_succ]; omega
    have hx : xs.length = q := by simpa using hx
    rw [hp] at hw
    have ih := cheatLmpa_accepts x₁ x₂ hs q (Lmpa.foldRow x row)
      (List.zipWith (fun l r => x * l + 1 * r) (w.take (2 ^ q)) (w.drop (2 ^ q))) xs
      (-((x₁ + x₂)⁻¹ * ((x - x₁) * (x - x₂))) • Z)
      (by rw [Lmpa.foldRow_length, hrow, hp]; omega) (by simp; omega) hx (by
        rw [List.mem_cons, List.mem_cons] at hZ
        rcases hZ with (rfl | h) | (rfl | h) | rfl
        · simp
        · exact .inl h
        · simp
        · exact .inr (.inl h)
        · simp)
    simp only [cheatLmpa, LmpaProver.talk] at ih ⊢
    set c := LmpaProver.talk _ xs with hc
    have hl : c.2.2.1.length = q := by rw [hc, (lmpa_talk_length _ xs hx).2.2, hx]
    unfold Conversation.accepts at ih ⊢
    rw [Lmpa.foldedTarget_cons, ← Lmpa.foldedRow_fold _ _ _ (by rw [hl]; exact hrow), ih]
    congr 1
    set n := 2 ^ q
    rw [hp] at hrow
    have e : Lmpa.foldRow x row = List.zipWith (fun l r => (1 : F) • l + x • r) (row.take n) (row.drop n) := by
      unfold Lmpa.foldRow
      rw [show row.length / 2 = n by omega]
      simp
    rw [e, dot_comb_right 1 x _ (by simp; omega), dot_comb_left x 1 _ (by simp; omega),
      dot_comb_left x 1 _ (by simp; omega), ← dot_take_drop n (s := w) (p := row) (by omega)]
    have e2 : x • Z = (((x₁ + x₂)⁻¹ * (x₁ + x₂)) * x) • Z := by rw [inv_mul_cancel₀ hs, one_mul]
    rw [smul_add x _ Z, e2]
    module

variable [DecidableEq G]

/-- A conversation that satisfies the closed form of the check is accepted in some run. -/
theorem LmpaAccepted.of_talk {q : Nat} (cod : Codec G) (enc : F → Vector UInt8 64)
    (henc : ∀ y, (leNat (enc y).toList : F) = y) (P : LmpaProver F G q) (row : List G)
    (hrow : row.length = 2 ^ q) (t : G) (y : List F) (hy : y.length = q)
    (ha : Conversation.accepts row t (P.talk y).1 (P.talk y).2.1 (P.talk y).2.2.1 (P.talk y).2.2.2) :
    LmpaAccepted row t (P.talk y) := by
  obtain ⟨h1, h2, h3⟩ := lmpa_talk_length P y hy
  set c := P.talk y with hc
  obtain ⟨b, tr', e1, e2⟩ := C43_lmpa_verify_one_row (programmed cod enc y) q (q + 1) ⟨[]⟩ row row c.1 c.2.1
    c.2.2.2 t (by omega) hrow hrow h1 h2
  have hch := lmpaChallenges_programmed cod enc henc y y [] (c.1.map fun L => [L]) (c.2.1.map fun R => [R])
    (by simp [h1, hy]) (by simp [h2, hy]) rfl
  simp only [hch] at e2
  rw [h3] at ha
  refine ⟨programmed cod enc y, q + 1, ⟨[]⟩, tr', row, by rw [h3]; exact hch, ?_⟩
  rw [hrow, e1, e2.2 ha]

/-- The same for SimpleZK. -/
theorem SimpleAccepted.of_talk {q : Nat} (cod : Codec G) (enc : F → Vector UInt8 64)
    (henc : ∀ y, (leNat (enc y).toList : F) = y) (P : LmpaProver F G q) (row : List G)
    (hrow : row.length = 2 ^ q) (t a : G) (β : F) (y : List F) (hy : y.length = q)
    (ha : Conversation.accepts row (β • t + a) (P.talk y).1 (P.talk y).2.1 (P.talk y).2.2.1 (P.talk y).2.2.2) :
    SimpleAccepted row t a β (P.talk y) := by
  obtain ⟨h1, h2, h3⟩ := lmpa_talk_length P y hy
  set c := P.talk y with hc
  set cx := programmed cod enc (β :: y) with hcx
  have e1 : challengesIn (simpleLog cx [] [a]) = 1 := by simp [challengesIn, simpleLog]
  have hβ : simpleBeta F cx [] [a] = β := by
    rw [simpleBeta, hcx, squeeze_programmed _ _ henc, ← hcx, e1]; rfl
  have hch := lmpaChallenges_programmed cod enc henc (β :: y) y (simpleLog cx [] [a])
    (c.1.map fun L => [L]) (c.2.1.map fun R => [R]) (by simp [h1, hy]) (by simp [h2, hy]) (by rw [e1]; rfl)
  rw [← hcx] at hch
  obtain ⟨b, tr', v1, v2⟩ := C52_simple_verdict cx q (q + 1) ⟨[]⟩ row row c.1 c.2.1
    c.2.2.2 t a (by omega) hrow hrow h1 h2
  simp only [hch, hβ] at v2
  rw [h3] at ha
  refine ⟨cx, q + 1, ⟨[]⟩, tr', row, hβ, by rw [h3]; exact hch, ?_⟩
  rw [hrow, v1, v2.2 ha]

/-- C99: the cheating prover of the linear-map argument. For every row and every target, true or false, there
is a prover that is accepted for all but `(N - 2) ^ q` of the `N ^ q` sequences of challenges. -/
theorem C99_lmpa_cheat {q : Nat} (cod : Codec G) (enc : F → Vector UInt8 64)
    (henc : ∀ y, (leNat (enc y).toList : F) = y) (S : Finset F) {x₁ x₂ : F} (h1 : x₁ ∈ S) (h2 : x₂ ∈ S)
    (hne : x₁ ≠ x₂) (hs : x₁ + x₂ ≠ 0) (row : List G) (hrow : row.length = 2 ^ q) (t : G) :
    ∃ P : LmpaProver F G q,
      S.card ^ q ≤ countChallenges S q (fun y => LmpaAccepted row t (P.talk y)) + (S.card - 2) ^ q := by
  set w : List F := List.replicate (2 ^ q) 0 with hw
  refine ⟨cheatLmpa x₁ x₂ q row w (t - dot w row), ?_⟩
  rw [← countChallenges_hit S h1 h2 hne q]
  refine Nat.add_le_add_right (countChallenges_mono S q _ _ fun y hy _ hh => ?_) _
  have ha := cheatLmpa_accepts x₁ x₂ hs q row w y (t - dot w row) hrow (by simp [hw]) hy (by tauto)
  rw [add_sub_cancel] at ha
  exact LmpaAccepted.of_talk cod enc henc _ row hrow t y hy ha

/-- C99: the soundness error of the linear-map argument, exactly. If the target is no combination of the row,
the best prover is accepted for `N ^ q - (N - 2) ^ q` of the `N ^ q` sequences of challenges. -/
theorem C99_lmpa_exact {q : Nat} (cod : Codec G) (enc : F → Vector UInt8 64)
    (henc : ∀ y, (leNat (enc y).toList : F) = y) (S : Finset F) {x₁ x₂ : F} (h1 : x₁ ∈ S) (h2 : x₂ ∈ S)
    (hne : x₁ ≠ x₂) (hs : x₁ + x₂ ≠ 0) (row : List G) (hrow : row.length = 2 ^ q) (t : G)
    (hno : ∀ w : List F, w.length = row.length → dot w row ≠ t) :
    IsGreatest (Set.range fun P : LmpaProver F G q =>
        countChallenges S q (fun y => LmpaAccepted row t (P.talk y)))
      (S.card ^ q - (S.card - 2) ^ q) := by
  have up : ∀ P : LmpaProver F G q,
      countChallenges S q (fun y => LmpaAccepted row t (P.talk y)) + (S.card - 2) ^ q ≤ S.card ^ q := by
    intro P
    have := count_of_not_hasTree S (List.replicate q 3) (fun y => LmpaAccepted row t (P.talk y)) (by
      intro h
      obtain ⟨T, hT, hc⟩ := lmpaTree_of_hasTree S P (LmpaAccepted row t) h
      obtain ⟨l, e⟩ := C43_lmpa_sound T hT row hrow t fun c h => (hc c h).1
      exact hno _ l e)
    simpa using this
  refine ⟨?_, ?_⟩
  · obtain ⟨P, hP⟩ := C99_lmpa_cheat cod enc henc S h1 h2 hne hs row hrow t
    exact ⟨P, by have := up P; dsimp only; omega⟩
  · rintro _ ⟨P, rfl⟩
    have := up P
    dsimp only; omega

/-- C99: the same for SimpleZK: for every row and target there are a first message and a prover that is
accepted for all but `(N - 1) (N - 2) ^ q` of the `N ^ (q + 1)` sequences of challenges. -/
theorem C99_simple_cheat {q : Nat} (cod : Codec G) (enc : F → Vector UInt8 64)
    (henc : ∀ y, (leNat (enc y).toList : F) = y) (S : Finset F) {x₁ x₂ : F} (h1 : x₁ ∈ S) (h2 : x₂ ∈ S)
    (hne : x₁ ≠ x₂) (hs : x₁ + x₂ ≠ 0) (row : List G) (hrow : row.length = 2 ^ q) (t : G) :
    ∃ (a : G) (P : F → LmpaProver F G q),
      S.card ^ (q + 1) ≤ countChallenges S (q + 1) (fun y =>
        SimpleAccepted row t a (y.getD 0 0) ((P (y.getD 0 0)).talk (y.drop 1))) +
        (S.card - 1) * (S.card - 2) ^ q := by
  classical
  set w : List F := List.replicate (2 ^ q) 0 with hw
  set a : G := dot w row - x₁ • t with ha
  let P : F → LmpaProver F G q := fun β => cheatLmpa x₁ x₂ q row w (β • t + a - dot w row)
  have acc : ∀ β y, y.length = q → (x₁ ∈ y ∨ x₂ ∈ y ∨ β = x₁) → SimpleAccepted row t a β ((P β).talk y) := by
    intro β y hy hh
    have hh : x₁ ∈ y ∨ x₂ ∈ y ∨ β • t + a - dot w row = 0 := by
      rcases hh with h | h | rfl
      · exact .inl h
      · exact .inr (.inl h)
      · exact .inr (.inr (by rw [ha]; abel))
    have := cheatLmpa_accepts x₁ x₂ hs q row w y _ hrow (by simp [hw]) hy hh
    rw [add_sub_cancel] at this
    exact SimpleAccepted.of_talk cod enc henc _ row hrow t a β y hy this
  refine ⟨a, P, ?_⟩
  rw [countChallenges_succ, ← Finset.add_sum_erase S _ h1]
  simp only [List.getD_cons_zero, List.drop_succ_cons, List.drop_zero]
  rw [countChallenges_all S q _ fun y hy _ => acc x₁ y hy (.inr (.inr rfl))]
  have e : ∀ β ∈ S.erase x₁, S.card ^ q - (S.card - 2) ^ q ≤
      countChallenges S q (fun y => SimpleAccepted row t a β ((P β).talk y)) := by
    intro β _
    have := countChallenges_mono S q _ (fun y => SimpleAccepted row t a β ((P β).talk y))
      fun y hy _ (hh : x₁ ∈ y ∨ x₂ ∈ y) => acc β y hy (by tauto)
    have h := countChallenges_hit S h1 h2 hne q
    omega
  have e := Finset.card_nsmul_le_sum _ _ _ e
  rw [Finset.card_erase_of_mem h1, smul_eq_mul, Nat.mul_sub] at e
  have hle : (S.card - 1) * (S.card - 2) ^ q ≤ (S.card - 1) * S.card ^ q :=
    Nat.mul_le_mul_left _ (Nat.pow_le_pow_left (Nat.sub_le _ _) _)
  have hpos : 0 < S.card := Finset.card_pos.2 ⟨x₁, h1⟩
  have hN : S.card ^ (q + 1) = S.card ^ q + (S.card - 1) * S.card ^ q := by
    obtain ⟨k, hk⟩ : ∃ k, S.card = k + 1 := ⟨S.card - 1, by omega⟩
    rw [hk, Nat.add_sub_cancel]; ring
  omega

/-- C99: the soundness error of SimpleZK, exactly. -/
theorem C99_simple_exact {q : Nat} (cod : Codec G) (enc : F → Vector UInt8 64)
    (henc : ∀ y, (leNat (enc y).toList : F) = y) (S : Finset F) {x₁ x₂ : F} (h1 : x₁ ∈ S) (h2 : x₂ ∈ S)
    (hne : x₁ ≠ x₂) (hs : x₁ + x₂ ≠ 0) (row : List G) (hrow : row.length = 2 ^ q) (t : G)
    (hno : ∀ w : List F, w.length = row.length → dot w row ≠ t) :
    IsGreatest (Set.range fun s : G × (F → LmpaProver F G q) => countChallenges S (q + 1) (fun y =>
        SimpleAccepted row t s.1 (y.getD 0 0) ((s.2 (y.getD 0 0)).talk (y.drop 1))))
      (S.card ^ (q + 1) - (S.card - 1) * (S.card - 2) ^ q) := by
  have up : ∀ (a : G) (P : F → LmpaProver F G q), countChallenges S (q + 1) (fun y =>
        SimpleAccepted row t a (y.getD 0 0) ((P (y.getD 0 0)).talk (y.drop 1))) +
        (S.card - 1) * (S.card - 2) ^ q ≤ S.card ^ (q + 1) := by
    intro a P
    have := count_of_not_hasTree S (2 :: List.replicate q 3) (fun y =>
        SimpleAccepted row t a (y.getD 0 0) ((P (y.getD 0 0)).talk (y.drop 1))) (by
      rintro ⟨β, hβ, -, h⟩
      choose T hT hc using fun i => lmpaTree_of_hasTree S (P (β i)) (SimpleAccepted row t a (β i)) (h i)
      obtain ⟨l, e⟩ := C52_simple_sound row hrow t a β (fun h => absurd (hβ h) (by decide)) T hT
        fun i c h => (hc i c h).1
      exact hno _ l e)
    simpa using this
  refine ⟨?_, ?_⟩
  · obtain ⟨a, P, hP⟩ := C99_simple_cheat cod enc henc S h1 h2 hne hs row hrow t
    exact ⟨(a, P), by have := up a P; dsimp only; omega⟩
  · rintro _ ⟨⟨a, P⟩, rfl⟩
    have := up a P
    dsimp only; omega

/-! ### Inner products -/

open Ipa

omit [DecidableEq G] in
/-- A prover of the rounds of the inner-product argument for the point `⟨a, G⟩ + ⟨b, H⟩ + ⟨a, b⟩ Q + Z` that is
right if one of the challenges is `x₁` or `x₂`. -/
def cheatIpa (x₁ x₂ : F) (Q : G) : (q : Nat) → (Gs Hs : List G) → (a b : List F) → (Z : G) → IpaProver F G q
  | 0, _, _, a, b, _ => .final (a.headD 0) (b.headD 0)
  | q + 1, Gs, Hs, a, b, Z =>
    let n := 2 ^ q
    .round (dot (a.take n) (Gs.drop n) + dot (b.drop n) (Hs.take n) + dot (a.take n) (b.drop n) • Q -
        (x₁ + x₂)⁻¹ • Z)
      (dot (a.drop n) (Gs.take n) + dot (b.take n) (Hs.drop n) + dot (a.drop n) (b.take n) • Q -
        ((x₁ + x₂)⁻¹ * (x₁ * x₂)) • Z)
      fun x => cheatIpa x₁ x₂ Q q (foldG x Gs) (foldH x Hs)
        (List.zipWith (fun l r => l * x + r) (a.take n) (a.drop n))
        (List.zipWith (fun l r => l + x * r) (b.take n) (b.drop n))
        (-((x₁ + x₂)⁻¹ * ((x - x₁) * (x - x₂))) • Z)

omit [DecidableEq G] in
theorem cheatIpa_accepts (x₁ x₂ : F) (hs : x₁ + x₂ ≠ 0) (Q : G) : ∀ (q : Nat) (Gs Hs : List G) (a b : List F)
    (xs : List F) (Z : G), Gs.length = 2 ^ q → Hs.length = 2 ^ q → a.length = 2 ^ q → b.length = 2 ^ q →
    xs.length = q → (x₁ ∈ xs ∨ x₂ ∈ xs ∨ Z = 0) →
    ((cheatIpa x₁ x₂ Q q Gs Hs a b Z).talk xs).Accepts Gs Hs Q (dot a Gs + dot b Hs + dot a b • Q + Z)
  | 0, Gs, Hs, a, b, xs, Z, hG, hH, ha, hb, hx, hZ => by
    rw [pow_zero, List.length_eq_one_iff] at hG hH ha hb
    obtain ⟨g, rfl⟩ := hG
    obtain ⟨k, rfl⟩ := hH
    obtain ⟨y, rfl⟩ := ha
    obtain ⟨z, rfl⟩ := hb
    rw [List.length_eq_zero_iff] at hx
    subst hx
    obtain rfl : Z = 0 := by simpa using hZ
    change IpaPath.Accepts ⟨[], [], [], y, z⟩ _ _ _ _
    simp [IpaPath.Accepts, combined, foldedP, weightG, weightH]
  | q + 1, Gs, Hs, a, b, x :: xs, Z, hG, hH, ha, hb, hx, hZ => by
    classical
    have hp : 2 ^ (q + 1) = 2 ^ q + 2 ^ q := by rw [pow_succ]; omega
    rw [hp] at hG hH ha hb
    have hx : xs.length = q := by simpa using hx
    simp only [cheatIpa, IpaProver.talk]
    set c := IpaProver.talk _ xs with hc
    have hl : c.xs.length = q := by rw [hc, (talk_length _ xs hx).2.2, hx]
    rw [accepts_cons x c _ _ Gs Hs Q _ (by rw [hl, hp, hG]) (by rw [hl, hp, hH])]
    have ih := cheatIpa_accepts x₁ x₂ hs Q q (foldG x Gs) (foldH x Hs)
      (List.zipWith (fun l r => l * x + r) (a.take (2 ^ q)) (a.drop (2 ^ q)))
      (List.zipWith (fun l r => l + x * r) (b.take (2 ^ q)) (b.drop (2 ^ q))) xs
      (-((x₁ + x₂)⁻¹ * ((x - x₁) * (x - x₂))) • Z)
      (by rw [foldG_length]; omega) (by rw [foldH_length]; omega) (by simp; omega) (by simp; omega) hx (by
        rw [List.mem_cons, List.mem_cons] at hZ
        rcases hZ with (rfl | h) | (rfl | h) | rfl
        · simp
        · exact .inl h
        · simp
        · exact .inr (.inl h)
        · simp)
    convert ih using 1
    set n := 2 ^ q
    have eG : foldG x Gs = List.zipWith (fun l r => l + x • r) (Gs.take n) (Gs.drop n) := by
      unfold foldG
      rw [show Gs.length / 2 = n by omega]
      simp
    have eH : foldH x Hs = List.zipWith (fun l r => x • l + r) (Hs.take n) (Hs.drop n) := by
      unfold foldH
      rw [show Hs.length / 2 = n by omega]
      simp
    rw [eG, eH, foldA_dot x (by simp; omega) (by simp; omega), foldB_dot x (by simp; omega)
      (by simp; omega), foldAB_dot x (by simp; omega) (by simp; omega),
      ← dot_take_drop n (s := a) (p := Gs) (by omega), ← dot_take_drop n (s := b) (p := Hs) (by omega),
      ← dot_take_drop n (s := a) (p := b) (by omega)]
    have e2 : x • Z = (((x₁ + x₂)⁻¹ * (x₁ + x₂)) * x) • Z := by rw [inv_mul_cancel₀ hs, one_mul]
    rw [smul_add x _ Z, e2]
    module

/-- The symmetric functions of three challenges. -/
def sym (x₁ x₂ x₃ : F) : F × F × F := (x₁ + x₂ + x₃, x₁ * x₂ + x₁ * x₃ + x₂ * x₃, x₁ * x₂ * x₃)

omit [DecidableEq G] in
/-- A prover of the inner-product argument for the point `⟨a, G⟩ + ⟨b, H⟩ + (⟨a, b⟩ + D) Q` that is right if the
first challenge is one of three values or one of the others is `x₁` or `x₂`. The answers are those for `a` and `b`
plus a multiple of `e` and `f`, with `⟨e, f⟩` such that the term `x D` is cancelled modulo the polynomial with
the three roots. -/
def cheatFirst (x₁ x₂ x₃ : F) (Q : G) (q : Nat) (Gs Hs : List G) (a b : List F) (D : F) : IpaProver F G (q + 1) :=
  let n := 2 ^ q
  let σ₁ := (sym x₁ x₂ x₃).1
  let σ₂ := (sym x₁ x₂ x₃).2.1
  let σ₃ := (sym x₁ x₂ x₃).2.2
  let φ := D / (σ₃ - σ₁ * σ₂)
  let e : List F := 1 :: List.replicate (n - 1) 0
  let f : List F := φ :: List.replicate (n - 1) 0
  let u := dot e (b.take n) + dot (a.drop n) f
  let v := dot e (b.drop n) + dot (a.take n) f
  let L := dot (a.take n) (Gs.drop n) + dot (b.drop n) (Hs.take n) + dot (a.take n) (b.drop n) • Q -
    dot e (Gs.take n) - σ₁ • dot e (Gs.drop n) - dot f (Hs.drop n) - σ₁ • dot f (Hs.take n) +
    (φ * (σ₂ + σ₁ * σ₁) - u - σ₁ * v) • Q
  let R := dot (a.drop n) (Gs.take n) + dot (b.take n) (Hs.drop n) + dot (a.drop n) (b.take n) • Q -
    σ₂ • dot e (Gs.take n) - σ₃ • dot e (Gs.drop n) - σ₂ • dot f (Hs.drop n) - σ₃ • dot f (Hs.take n) +
    (φ * (σ₂ * σ₂ + σ₁ * σ₃) - σ₂ * u - σ₃ * v) • Q
  .round L R fun x =>
    let a' := List.zipWith (fun s r => 1 * s + -(σ₂ + x * x) * r)
      (List.zipWith (fun l r => l * x + r) (a.take n) (a.drop n)) e
    let b' := List.zipWith (fun s r => 1 * s + -(σ₂ + x * x) * r)
      (List.zipWith (fun l r => l + x * r) (b.take n) (b.drop n)) f
    cheatIpa x₁ x₂ Q q (foldG x Gs) (foldH x Hs) a' b'
      ((x * x) • L + x • (dot a Gs + dot b Hs + (dot a b + D) • Q) + R -
        (dot a' (foldG x Gs) + dot b' (foldH x Hs) + dot a' b' • Q))

omit [DecidableEq G] in
theorem cheatFirst_accepts (x₁ x₂ x₃ : F) (h12 : x₁ + x₂ ≠ 0) (h13 : x₁ + x₃ ≠ 0) (h23 : x₂ + x₃ ≠ 0) (Q : G)
    (q : Nat) (Gs Hs : List G) (a b : List F) (D x : F) (xs : List F) (hG : Gs.length = 2 ^ (q + 1))
    (hH : Hs.length = 2 ^ (q + 1)) (ha : a.length = 2 ^ (q + 1)) (hb : b.length = 2 ^ (q + 1))
    (hx : xs.length = q) (h : x₁ ∈ xs ∨ x₂ ∈ xs ∨ x = x₁ ∨ x = x₂ ∨ x = x₃) :
    ((cheatFirst x₁ x₂ x₃ Q q Gs Hs a b D).talk (x :: xs)).Accepts Gs Hs Q
      (dot a Gs + dot b Hs + (dot a b + D) • Q) := by
  classical
  have hp : 2 ^ (q + 1) = 2 ^ q + 2 ^ q := by rw [pow_succ]; omega
  have hpos : 0 < 2 ^ q := Nat.two_pow_pos q
  rw [hp] at hG hH ha hb
  simp only [cheatFirst, IpaProver.talk]
  set n := 2 ^ q with hn
  set σ₁ := (sym x₁ x₂ x₃).1 with h1
  set σ₂ := (sym x₁ x₂ x₃).2.1 with h2
  set σ₃ := (sym x₁ x₂ x₃).2.2 with h3
  set φ := D / (σ₃ - σ₁ * σ₂) with hφ
  set e : List F := 1 :: List.replicate (n - 1) 0 with he
  set f : List F := φ :: List.replicate (n - 1) 0 with hf
  have le : e.length = n := by simp [he]; omega
  have lf : f.length = n := by simp [hf]; omega
  have hef : dot e f = φ := by
    have : ∀ k, dot (List.replicate k (0 : F)) (List.replicate k (0 : F)) = 0 := by
      intro k
      induction k with
      | zero => simp [dot]
      | succ k ih => rw [List.replicate_succ, dot_cons, ih]; simp
    rw [he, hf, dot_cons, this]; simp
  set A := List.zipWith (fun l r => l * x + r) (a.take n) (a.drop n) with hA
  set B := List.zipWith (fun l r => l + x * r) (b.take n) (b.drop n) with hB
  have lA : A.length = n := by simp [hA]; omega
  have lB : B.length = n := by simp [hB]; omega
  set a' := List.zipWith (fun s r => 1 * s + -(σ₂ + x * x) * r) A e with ha'
  set b' := List.zipWith (fun s r => 1 * s + -(σ₂ + x * x) * r) B f with hb'
  set c := IpaProver.talk _ xs with hc
  have hl : c.xs.length = q := by rw [hc, (talk_length _ xs hx).2.2, hx]
  rw [accepts_cons x c _ _ Gs Hs Q _ (by rw [hl, hp, hG]) (by rw [hl, hp, hH])]
  rw [hc]
  have lG : (foldG x Gs).length = 2 ^ q := by rw [foldG_length]; omega
  have lH : (foldH x Hs).length = 2 ^ q := by rw [foldH_length]; omega
  have key := fun Z hZ => cheatIpa_accepts x₁ x₂ h12 Q q (foldG x Gs) (foldH x Hs) a' b' xs Z lG lH
    (by simp [ha', lA, le, hn]) (by simp [hb', lB, lf, hn]) hx hZ
  refine (congrArg _ (add_sub_cancel _ _)).mp (key _ ?_)
  rcases h with h | h | h
  · exact .inl h
  · exact .inr (.inl h)
  refine .inr (.inr (sub_eq_zero.2 ?_))
  have hroot : x * x * x = σ₁ * (x * x) - σ₂ * x + σ₃ := by
    rw [h1, h2, h3, sym]
    rcases h with rfl | rfl | rfl <;> ring
  have hD : D = φ * (σ₃ - σ₁ * σ₂) := by
    rw [hφ, div_mul_cancel₀]
    have : σ₃ - σ₁ * σ₂ = -((x₁ + x₂) * (x₁ + x₃) * (x₂ + x₃)) := by
      rw [h1, h2, h3, sym]; ring
    rw [this]
    exact neg_ne_zero.2 (mul_ne_zero (mul_ne_zero h12 h13) h23)
  have eG : foldG x Gs = List.zipWith (fun l r => l + x • r) (Gs.take n) (Gs.drop n) := by
    unfold foldG
    rw [show Gs.length / 2 = n by omega]
    simp
  have eH : foldH x Hs = List.zipWith (fun l r => x • l + r) (Hs.take n) (Hs.drop n) := by
    unfold foldH
    rw [show Hs.length / 2 = n by omega]
    simp
  have eG' : dot e (foldG x Gs) = dot e (Gs.take n) + x • dot e (Gs.drop n) := by
    have := dot_comb_right 1 x e (p := Gs.take n) (p' := Gs.drop n) (by simp; omega)
    simpa [eG] using this
  have eH' : dot f (foldH x Hs) = x • dot f (Hs.take n) + dot f (Hs.drop n) := by
    have := dot_comb_right x 1 f (p := Hs.take n) (p' := Hs.drop n) (by simp; omega)
    simpa [eH] using this
  have eB : dot e B = dot e (b.take n) + x * dot e (b.drop n) := by
    have := dot_comb_right (G := F) 1 x e (p := b.take n) (p' := b.drop n) (by simp; omega)
    simpa [hB] using this
  have eA : dot A f = x * dot (a.take n) f + dot (a.drop n) f := by
    have := dot_comb_left (G := F) x 1 (s := a.take n) (s' := a.drop n) f (by simp; omega)
    simpa [hA, mul_comm x] using this
  have d1 : dot a' (foldG x Gs) = dot A (foldG x Gs) - (σ₂ + x * x) • dot e (foldG x Gs) := by
    rw [ha', dot_comb_left 1 _ _ (by omega), one_smul, neg_smul, sub_eq_add_neg]
  have d2 : dot b' (foldH x Hs) = dot B (foldH x Hs) - (σ₂ + x * x) • dot f (foldH x Hs) := by
    rw [hb', dot_comb_left 1 _ _ (by omega), one_smul, neg_smul, sub_eq_add_neg]
  have r : ∀ s : List F, dot s b' = dot s B - (σ₂ + x * x) * dot s f := by
    intro s
    have := dot_comb_right (G := F) 1 (-(σ₂ + x * x)) s (p := B) (p' := f) (by omega)
    simp only [smul_eq_mul] at this
    rw [hb', this]; ring
  have d3 : dot a' b' = dot A B - (σ₂ + x * x) * (dot e B + dot A f) + (σ₂ + x * x) * (σ₂ + x * x) * φ := by
    rw [ha', dot_comb_left 1 _ _ (by omega), r, r, hef, smul_eq_mul, smul_eq_mul]; ring
  rw [d1, d2, d3, eG', eH', eB, eA, eG, eH, foldA_dot x (by simp; omega) (by simp; omega),
    foldB_dot x (by simp; omega) (by simp; omega), foldAB_dot x (by simp; omega) (by simp; omega),
    ← dot_take_drop n (s := a) (p := Gs) (by omega), ← dot_take_drop n (s := b) (p := Hs) (by omega),
    ← dot_take_drop n (s := a) (p := b) (by omega), hD]
  set u1 := dot e (Gs.take n)
  set u2 := dot e (Gs.drop n)
  set u3 := dot f (Hs.take n)
  set u4 := dot f (Hs.drop n)
  set v := dot e (b.drop n) + dot (a.take n) f with hv
  have key2 : ∀ w : G, (x * x * x) • w = (σ₁ * (x * x) - σ₂ * x + σ₃) • w := fun w => by rw [hroot]
  linear_combination (norm := module) (key2 u2) + (key2 u3) + v • (key2 Q) - (φ * (x + σ₁)) • key2 Q

omit [Field F] [AddCommGroup G] [Module F G] [DecidableEq G] in
theorem countChallenges_step (S T : Finset F) (hT : T ⊆ S) {k : Nat} (hk : T.card = k) (d K : Nat) (A : List F → Prop)
    (h1 : ∀ x ∈ T, S.card ^ d ≤ countChallenges S d fun l => A (x :: l))
    (h2 : ∀ x ∈ S, x ∉ T → S.card ^ d ≤ (countChallenges S d fun l => A (x :: l)) + K) :
    S.card ^ (d + 1) ≤ countChallenges S (d + 1) A + (S.card - k) * K := by
  subst hk
  classical
  rw [countChallenges_succ, ← Finset.card_sdiff_of_subset hT]
  have e : S.card ^ (d + 1) = ∑ _x ∈ S, S.card ^ d := by rw [Finset.sum_const, smul_eq_mul, pow_succ, mul_comm]
  rw [e, ← Finset.sum_sdiff hT, ← Finset.sum_sdiff (f := fun x => countChallenges S d fun l => A (x :: l)) hT]
  have e1 := Finset.sum_le_sum h1
  have e2 : ∑ _x ∈ S \ T, S.card ^ d ≤ ∑ x ∈ S \ T, ((countChallenges S d fun l => A (x :: l)) + K) :=
    Finset.sum_le_sum fun x hx => h2 x (Finset.mem_sdiff.1 hx).1 (Finset.mem_sdiff.1 hx).2
  rw [Finset.sum_add_distrib, Finset.sum_const (b := K), smul_eq_mul] at e2
  omega

/-- C99: a cheating prover of the inner-product argument. For a point that opens to the claimed inner product
only with another coefficient of `Q`, there is a prover that is accepted for all but
`(N - 1) (N - 3) (N - 2) ^ q` of the `N ^ (q + 2)` sequences of challenges, if there are `2 ^ (q + 1)`
generators. -/
theorem C99_ipa_cheat {q : Nat} (h64 : q + 1 < 64) (cod : Codec G) (enc : F → Vector UInt8 64)
    (henc : ∀ y, (leNat (enc y).toList : F) = y) (S : Finset F) (hS : (0 : F) ∉ S) {x₁ x₂ x₃ α₀ : F}
    (h1 : x₁ ∈ S) (h2 : x₂ ∈ S) (h3 : x₃ ∈ S) (n12 : x₁ ≠ x₂) (n13 : x₁ ≠ x₃) (n23 : x₂ ≠ x₃)
    (s12 : x₁ + x₂ ≠ 0) (s13 : x₁ + x₃ ≠ 0) (s23 : x₂ + x₃ ≠ 0) (hα : α₀ ∈ S) (Gs Hs : List G)
    (hG : Gs.length = 2 ^ (q + 1)) (hH : Hs.length = 2 ^ (q + 1)) (Q : G) (a b : List F)
    (ha : a.length = 2 ^ (q + 1)) (hb : b.length = 2 ^ (q + 1)) (s t : F)
    (hst : t - dot a b = α₀ * (t - s)) :
    ∃ P : F → IpaProver F G (q + 1),
      S.card ^ (q + 2) ≤ countChallenges S (q + 2) (fun y =>
        IpaAccepted Gs Hs Q (2 ^ (q + 1)) (dot a Gs + dot b Hs + s • Q) t (y.getD 0 0)
          ((P (y.getD 0 0)).talk (y.drop 1))) + (S.card - 1) * ((S.card - 3) * (S.card - 2) ^ q) := by
  classical
  let P : F → IpaProver F G (q + 1) := fun α =>
    if α = α₀ then honestProver (α⁻¹ • Q) (q + 1) Gs Hs a b
    else cheatFirst x₁ x₂ x₃ (α⁻¹ • Q) q Gs Hs a b (s * α - (α - 1) * t - dot a b)
  have acc : ∀ α ∈ S, ∀ y : List F, y.length = q + 1 →
      ((P α).talk y).Accepts Gs Hs (α⁻¹ • Q)
        (dot a Gs + dot b Hs + (dot a b + (s * α - (α - 1) * t - dot a b)) • (α⁻¹ • Q)) →
      IpaAccepted Gs Hs Q (2 ^ (q + 1)) (dot a Gs + dot b Hs + s • Q) t α ((P α).talk y) := by
    intro α hαS y hy h
    have hα0 : α ≠ 0 := fun h => hS (h ▸ hαS)
    obtain ⟨l1, l2, l3⟩ := talk_length (P α) y hy
    have hq : ((P α).talk y).xs.length = q + 1 := by rw [l3, hy]
    have := IpaAccepted.of_accepts cod enc henc Gs Hs Q (dot a Gs + dot b Hs + s • Q) t α ((P α).talk y)
      (by rw [hq, hG]) (by rw [hq, hH]) (by rw [hq]; exact h64) (by rw [hq, l1]) (by rw [hq, l2]) (by
        convert h using 1
        have e : Q = α • (α⁻¹ • Q) := by rw [smul_smul, mul_inv_cancel₀ hα0, one_smul]
        conv_lhs => rw [e]
        rw [smul_smul α⁻¹ α, inv_mul_cancel₀ hα0]
        module)
    rwa [hq] at this
  refine ⟨P, ?_⟩
  refine countChallenges_step S {α₀} (Finset.singleton_subset_iff.2 hα) (Finset.card_singleton α₀) _ _ _ ?_ ?_
  · intro α hα'
    obtain rfl := Finset.mem_singleton.1 hα'
    simp only [List.getD_cons_zero, List.drop_succ_cons, List.drop_zero]
    rw [countChallenges_all S _ _ fun y hy _ => acc α hα y hy ?_]
    have hD : s * α - (α - 1) * t - dot a b = 0 := by linear_combination hst
    rw [hD, add_zero]
    simp only [P, if_pos]
    exact honestProver_accepts (α⁻¹ • Q) (q + 1) Gs Hs a b y hG hH ha hb hy
  · intro α hαS hα'
    have hne : α ≠ α₀ := fun h => hα' (Finset.mem_singleton.2 h)
    simp only [List.getD_cons_zero, List.drop_succ_cons, List.drop_zero]
    have hP : ∀ x xs, xs.length = q → (x₁ ∈ xs ∨ x₂ ∈ xs ∨ x = x₁ ∨ x = x₂ ∨ x = x₃) →
        IpaAccepted Gs Hs Q (2 ^ (q + 1)) (dot a Gs + dot b Hs + s • Q) t α ((P α).talk (x :: xs)) := by
      intro x xs hxs h
      refine acc α hαS (x :: xs) (by simp [hxs]) ?_
      simp only [P, if_neg hne]
      exact cheatFirst_accepts x₁ x₂ x₃ s12 s13 s23 (α⁻¹ • Q) q Gs Hs a b _ x xs hG hH ha hb hxs h
    have c3 : ({x₁, x₂, x₃} : Finset F).card = 3 := by
      rw [Finset.card_eq_three]; exact ⟨x₁, x₂, x₃, n12, n13, n23, rfl⟩
    refine countChallenges_step S {x₁, x₂, x₃} ?_ c3 _ _ _ ?_ ?_
    · intro z hz
      simp only [Finset.mem_insert, Finset.mem_singleton] at hz
      rcases hz with rfl | rfl | rfl <;> assumption
    · intro x hx
      simp only [Finset.mem_insert, Finset.mem_singleton] at hx
      rw [countChallenges_all S _ _ fun y hy _ => hP x y hy (.inr (.inr hx))]
    · intro x _ _
      rw [← countChallenges_hit S h1 h2 n12 q]
      exact Nat.add_le_add_right (countChallenges_mono S q _ _ fun y hy _ hh => hP x y hy (by tauto)) _

/-- C99: the soundness error of the inner-product argument for two generators, exactly. If there is no relation
between the generators, the best prover of a claim as in `C99_ipa_cheat` with `s ≠ t` is accepted for
`N² - (N - 1) (N - 3)` of the `N²` pairs of challenges. -/
theorem C99_ipa_exact [DecidableEq F] (cod : Codec G) (enc : F → Vector UInt8 64)
    (henc : ∀ y, (leNat (enc y).toList : F) = y) (S : Finset F) (hS : (0 : F) ∉ S) {x₁ x₂ x₃ α₀ : F}
    (h1 : x₁ ∈ S) (h2 : x₂ ∈ S) (h3 : x₃ ∈ S) (n12 : x₁ ≠ x₂) (n13 : x₁ ≠ x₃) (n23 : x₂ ≠ x₃)
    (s12 : x₁ + x₂ ≠ 0) (s13 : x₁ + x₃ ≠ 0) (s23 : x₂ + x₃ ≠ 0) (hα : α₀ ∈ S) (Gs Hs : List G)
    (hG : Gs.length = 2) (hH : Hs.length = 2) (Q : G) (hind : ∀ r : List F × List F × F, ¬ IsRelation Gs Hs Q r)
    (a b : List F) (ha : a.length = 2) (hb : b.length = 2) (s t : F) (hne : s ≠ t)
    (hst : t - dot a b = α₀ * (t - s)) :
    IsGreatest (Set.range fun P : F → IpaProver F G 1 => countChallenges S 2 (fun y =>
        IpaAccepted Gs Hs Q 2 (dot a Gs + dot b Hs + s • Q) t (y.getD 0 0)
          ((P (y.getD 0 0)).talk (y.drop 1))))
      (S.card ^ 2 - (S.card - 1) * (S.card - 3)) := by
  have up : ∀ P : F → IpaProver F G 1, countChallenges S 2 (fun y =>
        IpaAccepted Gs Hs Q 2 (dot a Gs + dot b Hs + s • Q) t (y.getD 0 0)
          ((P (y.getD 0 0)).talk (y.drop 1))) + (S.card - 1) * (S.card - 3) ≤ S.card ^ 2 := by
    intro P
    by_contra hlt
    push Not at hlt
    obtain ⟨α, T, -, h⟩ := C64_ipa_knowledge (q := 1) S hS P Gs Hs hG hH Q _ t (by simpa using hlt)
    split at h
    · rename_i a' b' _
      obtain ⟨l1, l2, e, -⟩ := h
      refine hind (List.zipWith (fun u v => 1 * u + -1 * v) a a', List.zipWith (fun u v => 1 * u + -1 * v) b b',
        s - t) ⟨by simp [ha, l1, hG], by simp [hb, l2, hH], ⟨s - t, by simp, sub_ne_zero.2 hne⟩, ?_⟩
      rw [dot_comb_left 1 _ _ (by rw [ha, l1]; rfl), dot_comb_left 1 _ _ (by rw [hb, l2]; rfl)]
      linear_combination (norm := module) e
    · exact hind _ h
  refine ⟨?_, ?_⟩
  · obtain ⟨P, hP⟩ := C99_ipa_cheat (q := 0) (by decide) cod enc henc S hS h1 h2 h3 n12 n13 n23 s12 s13 s23 hα
      Gs Hs hG hH Q a b ha hb s t hst
    simp only [pow_zero, mul_one, Nat.zero_add, pow_one] at hP
    exact ⟨P, by have := up P; dsimp only; omega⟩
  · rintro _ ⟨P, rfl⟩
    have := up P
    dsimp only; omega

section
open Toy

/-- C99: a row of zeros, two challenges from the 100 non-zero ones: the best prover for the target 5 is accepted
for 396 of 10000 pairs. -/
example : IsGreatest (Set.range fun P : LmpaProver K K 2 =>
    countChallenges (Finset.univ.erase (0 : K)) 2 (fun y => LmpaAccepted [0, 0, 0, 0] 5 (P.talk y))) 396 := by
  have := C99_lmpa_exact (q := 2) codec exEnc exEnc_value (Finset.univ.erase (0 : K)) (x₁ := 1) (x₂ := 2)
    (by decide +kernel) (by decide +kernel) (by decide +kernel) (by decide +kernel) [0, 0, 0, 0] rfl 5 (by
      intro w hw
      have : ∀ w : List K, dot w [0, 0, 0, (0 : K)] = 0 := by
        intro w
        rcases w with _ | ⟨_, _ | ⟨_, _ | ⟨_, _ | ⟨_, w⟩⟩⟩⟩ <;> simp [dot]
      rw [this]
      decide +kernel)
  have e : (Finset.univ.erase (0 : K)).card = 100 := by decide +kernel
  rwa [e] at this

/-- C99: the same for SimpleZK with one round: 298 of 10000. -/
example : IsGreatest (Set.range fun s : K × (K → LmpaProver K K 1) =>
    countChallenges (Finset.univ.erase (0 : K)) 2 (fun y =>
      SimpleAccepted [0, 0] 5 s.1 (y.getD 0 0) ((s.2 (y.getD 0 0)).talk (y.drop 1)))) 298 := by
  have := C99_simple_exact (q := 1) codec exEnc exEnc_value (Finset.univ.erase (0 : K)) (x₁ := 1) (x₂ := 2)
    (by decide +kernel) (by decide +kernel) (by decide +kernel) (by decide +kernel) [0, 0] rfl 5 (by
      intro w hw
      have : ∀ w : List K, dot w [0, (0 : K)] = 0 := by
        intro w
        rcases w with _ | ⟨_, _ | ⟨_, w⟩⟩ <;> simp [dot]
      rw [this]
      decide +kernel)
  have e : (Finset.univ.erase (0 : K)).card = 100 := by decide +kernel
  rwa [e] at this

/-- C99: four generators in the group `K`. The claim that `(1, 2, 3, 4)` and `(5, 6, 7, 9)` have the inner product 75
(it is 74) can be made such that a prover is accepted for 58906 of a million sequences of challenges. -/
example : ∃ P : K → IpaProver K K 2, 58906 ≤ countChallenges (Finset.univ.erase (0 : K)) 3 (fun y =>
    IpaAccepted [3, 5, 8, 13] [21, 34, 55, 89] (7 : K) 4
      (dot [(1 : K), 2, 3, 4] [(3 : K), 5, 8, 13] + dot [(5 : K), 6, 7, 9] [(21 : K), 34, 55, 89] + (74 : K) • 7) 75
      (y.getD 0 0) ((P (y.getD 0 0)).talk (y.drop 1))) := by
  obtain ⟨P, h⟩ := C99_ipa_cheat (q := 1) (by decide) codec exEnc exEnc_value (Finset.univ.erase (0 : K))
    (by decide +kernel) (x₁ := 1) (x₂ := 2) (x₃ := 3) (α₀ := 1)
    (by decide +kernel) (by decide +kernel) (by decide +kernel) (by decide +kernel) (by decide +kernel)
    (by decide +kernel) (by decide +kernel) (by decide +kernel) (by decide +kernel) (by decide +kernel)
    [3, 5, 8, 13] [21, 34, 55, 89] rfl rfl (7 : K) [1, 2, 3, 4] [5, 6, 7, 9] rfl rfl 74 75 (by decide +kernel)
  have e : (Finset.univ.erase (0 : K)).card = 100 := by decide +kernel
  rw [e] at h
  exact ⟨P, Nat.le_of_add_le_add_right (b := 99 * (97 * 98)) h⟩

/-- C99: two independent generators on each side: the best prover is accepted for 397 of 10000 pairs. -/
example (cd : Codec (Fin 5 → K)) : IsGreatest (Set.range fun P : K → IpaProver K (Fin 5 → K) 1 =>
    countChallenges (Finset.univ.erase (0 : K)) 2 (fun y =>
      IpaAccepted [![1, 0, 0, 0, 0], ![0, 1, 0, 0, 0]] [![0, 0, 1, 0, 0], ![0, 0, 0, 1, 0]] ![0, 0, 0, 0, 1] 2
        (dot [(1 : K), 2] [![1, 0, 0, 0, 0], ![0, 1, 0, 0, 0]] +
          dot [(3 : K), 4] [![0, 0, 1, 0, 0], ![0, 0, 0, 1, 0]] + (11 : K) • ![0, 0, 0, 0, 1]) 12
        (y.getD 0 0) ((P (y.getD 0 0)).talk (y.drop 1)))) 397 := by
  have := C99_ipa_exact (F := K) (G := Fin 5 → K) cd exEnc exEnc_value (Finset.univ.erase (0 : K))
    (by decide +kernel) (x₁ := 1) (x₂ := 2) (x₃ := 3) (α₀ := 1)
    (by decide +kernel) (by decide +kernel) (by decide +kernel) (by decide +kernel) (by decide +kernel)
    (by decide +kernel) (by decide +kernel) (by decide +kernel) (by decide +kernel) (by decide +kernel)
    [![1, 0, 0, 0, 0], ![0, 1, 0, 0, 0]] [![0, 0, 1, 0, 0], ![0, 0, 0, 1, 0]] rfl rfl ![0, 0, 0, 0, 1]
    (by
      rintro ⟨u, v, e⟩ ⟨h1, h2, ⟨y, hy, hy0⟩, h⟩
      obtain ⟨u0, u1, rfl⟩ : ∃ a b, u = [a, b] := by
        match u, h1 with
        | [a, b], _ => exact ⟨a, b, rfl⟩
      obtain ⟨v0, v1, rfl⟩ : ∃ a b, v = [a, b] := by
        match v, h2 with
        | [a, b], _ => exact ⟨a, b, rfl⟩
      have e0 := congrFun h 0
      have e1 := congrFun h 1
      have e2 := congrFun h 2
      have e3 := congrFun h 3
      have e4 := congrFun h 4
      simp [dot] at e0 e1 e2 e3 e4
      subst e0 e1 e2 e3 e4
      simp at hy
      exact hy0 hy) [1, 2] [3, 4] rfl rfl 11 12 (by decide +kernel) (by decide +kernel)
  have e : (Finset.univ.erase (0 : K)).card = 100 := by decide +kernel
  rwa [e] at this

end

end Qesa.Props
