import Verif.Proofs.Fork
import Verif.Proofs.LmpaMachine
/-
Trees of conversations of the linear-map argument from a prover that branches.
-/
namespace Qesa.Props
open Qesa Spec Lmpa
set_option linter.unusedSectionVars false

section
variable {V E : Type}

/-- What the rounds append to the transcript. -/
def penRounds (pen : Pen V E) (Ls Rs : List (List V)) : List E :=
  (List.zip Ls Rs).flatMap fun m => pen.round m.1 m.2

theorem queries_getElem (pen : Pen V E) : ∀ (Ls Rs : List (List V)) (log : List E) (j : Nat), j < Ls.length →
    j < Rs.length →
    (lmpaQueries pen log Ls Rs)[j]? = some (log ++ penRounds pen (Ls.take (j + 1)) (Rs.take (j + 1)))
  | L :: Ls, R :: Rs, log, 0, _, _ => by
    simp [lmpaQueries, penRounds]
  | L :: Ls, R :: Rs, log, j + 1, h, h' => by
    rw [lmpaQueries, List.getElem?_cons_succ, queries_getElem pen Ls Rs _ j (by simpa using h) (by simpa using h')]
    simp [penRounds]
  | [], _, _, _, h, _ => by simp at h
  | _ :: _, [], _, _, _, h => by simp at h

theorem queries_length (pen : Pen V E) : ∀ (Ls Rs : List (List V)) (log : List E),
    (lmpaQueries pen log Ls Rs).length = min Ls.length Rs.length
  | [], _, _ => by simp [lmpaQueries]
  | _ :: _, [], _ => by simp [lmpaQueries]
  | L :: Ls, R :: Rs, log => by
    rw [lmpaQueries, List.length_cons, queries_length pen Ls Rs]; simp

/-- Equal histories: equal messages. -/
theorem penRounds_inj {pen : Pen V E} (hp : Readable pen) : ∀ {Ls Rs Ls' Rs' : List (List V)}, Ls.length = Rs.length →
    Ls'.length = Rs'.length → Ls.length = Ls'.length → penRounds pen Ls Rs = penRounds pen Ls' Rs' →
    Ls = Ls' ∧ Rs = Rs'
  | [], [], [], [], _, _, _, _ => ⟨rfl, rfl⟩
  | L :: Ls, R :: Rs, L' :: Ls', R' :: Rs', h1, h2, h3, h => by
    simp only [penRounds, List.zip_cons_cons, List.flatMap_cons] at h
    obtain ⟨rfl, rfl⟩ := hp.round h
    have := penRounds_inj hp (Ls := Ls) (Rs := Rs) (Ls' := Ls') (Rs' := Rs') (by simpa using h1) (by simpa using h2)
      (by simpa using h3) (List.append_cancel_left h)
    rw [this.1, this.2]
    exact ⟨rfl, rfl⟩
  | [], _ :: _, _, _, h, _, _, _ => by simp at h
  | _ :: _, [], _, _, h, _, _, _ => by simp at h
  | _, _, [], _ :: _, _, h, _, _ => by simp at h
  | _, _, _ :: _, [], _, h, _, _ => by simp at h
  | [], _, _ :: _, _, _, _, h, _ => by simp at h
  | _ :: _, _, [], _, _, _, h, _ => by simp at h

/-- The number of challenges in a history. -/
def chals (l : List Event) : Nat := l.countP fun e => match e with | .chal .. => true | .msg .. => false

theorem chals_append (l l' : List Event) : chals (l ++ l') = chals l + chals l' := List.countP_append

theorem chals_points (cmp : V → Comp) (s : String) (P : List V) : chals (P.map ((plainPen cmp).pt s)) = 0 := by
  induction P with
  | nil => rfl
  | cons v P ih => rw [List.map_cons, ← List.singleton_append, chals_append, ih]; rfl

theorem chals_round (cmp : V → Comp) (L R : List V) : chals ((plainPen cmp).round L R) = 1 := by
  rw [Pen.round, chals_append, chals_append, chals_points, chals_points]; rfl

theorem chals_first (cmp : V → Comp) (a : List V) : chals ((plainPen cmp).first a) = 1 := by
  rw [Pen.first, chals_append, chals_points]; rfl

theorem chals_rounds (cmp : V → Comp) (Ls Rs : List (List V)) :
    chals (penRounds (plainPen cmp) Ls Rs) = min Ls.length Rs.length := by
  rw [← List.length_zip, penRounds]
  induction List.zip Ls Rs with
  | nil => rfl
  | cons m l ih => rw [List.flatMap_cons, chals_append, ih, chals_round, List.length_cons]; omega

end

variable {F G : Type} [Field F] [AddCommGroup G] [Module F G]

theorem lmpa_accepts_cons (x : F) (xs : List F) (row : List G) (h : row.length = 2 ^ (xs.length + 1)) (L R : G)
    (Ls Rs : List G) (t : G) (w : F) :
    Conversation.accepts row t (L :: Ls) (R :: Rs) (x :: xs) w ↔
      Conversation.accepts (foldRow x row) (L + x • t + (x * x) • R) Ls Rs xs w := by
  rw [Conversation.accepts, Conversation.accepts, foldedTarget_cons, foldedRow_fold x xs row h]

section
variable (cd : Codec G) (q : Nat) (L R : Hash → List (List G)) (w : Hash → F) (lg : Hash → List Event)

/-- The challenges of the proof that is output with the hash function `ro`. -/
def linXs (F : Type) [NatCast F] (cd : Codec G) (L R : Hash → List (List G)) (lg : Hash → List Event) (ro : Hash) : List F :=
  (lmpaQueries (plainPen cd.compress) (lg ro) (L ro) (R ro)).map (squeeze F ro)

/-- The runs with `ro` and `ro'` agree up to round `j`. -/
def LinShare (F : Type) [NatCast F] (cd : Codec G) (L R : Hash → List (List G)) (lg : Hash → List Event) (j : Nat)
    (ro ro' : Hash) : Prop :=
  lg ro' = lg ro ∧ ro' (lg ro') = ro (lg ro) ∧ (L ro').take j = (L ro).take j ∧ (R ro').take j = (R ro).take j ∧
    (linXs F cd L R lg ro').take j = (linXs F cd L R lg ro).take j

theorem LinShare.refl (j : Nat) (ro : Hash) : LinShare F cd L R lg j ro ro := ⟨rfl, rfl, rfl, rfl, rfl⟩

theorem LinShare.trans {j : Nat} {ro ro1 ro2 : Hash} (h1 : LinShare F cd L R lg j ro ro1)
    (h2 : LinShare F cd L R lg (j + 1) ro1 ro2) : LinShare F cd L R lg j ro ro2 := by
  obtain ⟨a1, a2, a3, a4, a5⟩ := h1
  obtain ⟨b1, b2, b3, b4, b5⟩ := h2
  have t : ∀ {τ : Type} (A : List τ), (A.take (j + 1)).take j = A.take j := by
    intro τ A; rw [List.take_take]; congr 1; omega
  exact ⟨b1.trans a1, b2.trans a2, by rw [← t, b3, t, a3], by rw [← t, b4, t, a4], by rw [← t, b5, t, a5]⟩

theorem linXs_length (ro : Hash) : (linXs F cd L R lg ro).length = min (L ro).length (R ro).length := by
  rw [linXs, List.length_map, queries_length]

theorem linXs_getElem? (ro : Hash) (i : Nat) (h : i < (L ro).length) (h' : i < (R ro).length) :
    (linXs F cd L R lg ro)[i]? = some (squeeze F ro (lg ro ++
      penRounds (plainPen cd.compress) ((L ro).take (i + 1)) ((R ro).take (i + 1)))) := by
  rw [linXs, List.getElem?_map, queries_getElem _ _ _ _ _ h h', Option.map_some]

/-- Another answer at round `j` changes that challenge and nothing before it. -/
theorem lin_update {ro ro' : Hash} {l : List Event} {v : Vector UInt8 64} {j : Nat} (hj : j < q)
    (hro' : ro' = Function.update ro l v)
    (hL : (L ro).length = q) (hR : (R ro).length = q) (hL' : (L ro').length = q) (hR' : (R ro').length = q)
    (h : (lmpaQueries (plainPen cd.compress) (lg ro) (L ro) (R ro))[j]? = some l)
    (h' : (lmpaQueries (plainPen cd.compress) (lg ro') (L ro') (R ro'))[j]? = some l) (hlg : lg ro' = lg ro) :
    LinShare F cd L R lg j ro ro' ∧ (L ro').take (j + 1) = (L ro).take (j + 1) ∧
      (R ro').take (j + 1) = (R ro).take (j + 1) ∧
      (linXs F cd L R lg ro').take (j + 1) = (linXs F cd L R lg ro).take j ++ [((leNat v.toList : Nat) : F)] := by
  rw [queries_getElem _ _ _ _ _ (by omega) (by omega), Option.some.injEq] at h h'
  have e := h'.trans h.symm
  rw [hlg] at e
  obtain ⟨e1, e2⟩ := penRounds_inj (readable_plain cd) (by simp; omega) (by simp; omega) (by simp; omega)
    (List.append_cancel_left e)
  have hc : chals l = chals (lg ro) + (j + 1) := by
    rw [← h, chals_append, chals_rounds]; simp; omega
  have t : ∀ {τ : Type} (A : List τ) (i : Nat), i ≤ j + 1 → (A.take (j + 1)).take i = A.take i := by
    intro τ A i hi; rw [List.take_take]; congr 1; omega
  have hx : (linXs F cd L R lg ro').take (j + 1) =
      (linXs F cd L R lg ro).take j ++ [((leNat v.toList : Nat) : F)] := by
    apply List.ext_getElem?
    intro i
    by_cases hi : i < j + 1
    · rw [List.getElem?_take_of_lt hi, linXs_getElem? _ _ _ _ _ _ (by omega) (by omega), hlg,
        ← t (L ro') (i + 1) (by omega), ← t (R ro') (i + 1) (by omega), e1, e2, t _ _ (by omega), t _ _ (by omega)]
      by_cases hij : i < j
      · rw [List.getElem?_append_left (by rw [List.length_take, linXs_length]; omega), List.getElem?_take_of_lt hij,
          linXs_getElem? _ _ _ _ _ _ (by omega) (by omega), squeeze, squeeze, hro', Function.update_of_ne]
        intro e
        have := congrArg chals e
        rw [hc, chals_append, chals_rounds, List.length_take, List.length_take] at this
        omega
      · have : i = j := by omega
        subst this
        rw [List.getElem?_append_right (by rw [List.length_take]; omega), List.length_take, linXs_length,
          show i - min i (min (L ro).length (R ro).length) = 0 by omega, List.getElem?_cons_zero, h, squeeze, hro',
          Function.update_self]
    · rw [List.getElem?_eq_none (by rw [List.length_take]; omega),
        List.getElem?_eq_none (by rw [List.length_append, List.length_take]; simp; omega)]
  refine ⟨⟨hlg, ?_, ?_, ?_, ?_⟩, e1, e2, hx⟩
  · rw [hlg, hro', Function.update_of_ne]
    intro e
    have := congrArg chals e
    omega
  · rw [← t (L ro') j (by omega), e1, t _ _ (by omega)]
  · rw [← t (R ro') j (by omega), e2, t _ _ (by omega)]
  · rw [← t (linXs F cd L R lg ro') j (by omega), hx, List.take_append_of_le_length
      (by rw [List.length_take, linXs_length]; omega), List.take_take, min_self]

variable {acc : Hash → Prop} {key : Hash → Nat → Option (List Event)} (i0 : Nat)
  {K : Nat → Nat} (hK : ∀ i, 3 ≤ K i)
  (hq : ∀ ro, acc ro → (L ro).length = q ∧ (R ro).length = q)
  (hkey : ∀ ro j, acc ro → key ro (i0 + j) = (lmpaQueries (plainPen cd.compress) (lg ro) (L ro) (R ro))[j]?)
  (hlg : ∀ ro ro' l j, acc ro → acc ro' → key ro (i0 + j) = some l → key ro' (i0 + j) = some l → lg ro' = lg ro)

include hK hq hkey hlg in
/-- A prover that branches at all rounds gives a tree of accepted conversations. -/
theorem lin_tree : ∀ (d j : Nat) (ro : Hash), d + j = q → Forks (scalarOf F) acc key K d (i0 + j) ro →
    ∀ (row : List G) (t : G), row.length = 2 ^ d →
    (∀ ro', acc ro' → LinShare F cd L R lg j ro ro' → Conversation.accepts row t ((column (L ro') 0).drop j)
      ((column (R ro') 0).drop j) ((linXs F cd L R lg ro').drop j) (w ro')) →
    ∃ T : LmpaTree F G d, T.Distinct ∧ ∀ c ∈ T.paths, Conversation.accepts row t c.1 c.2.1 c.2.2.1 c.2.2.2 ∧
      ∃ ro', Reprogrammed d ro ro' ∧ acc ro' ∧ LinShare F cd L R lg j ro ro' ∧
        c = ((column (L ro') 0).drop j, (column (R ro') 0).drop j, (linXs F cd L R lg ro').drop j, w ro') := by
  intro d
  induction d with
  | zero =>
    intro j ro hj hbr row t hrow hgap
    have ha := hbr.acc
    obtain ⟨hL, hR⟩ := hq ro ha
    have hg := hgap ro ha (LinShare.refl ..)
    have d1 : (column (L ro) 0).drop j = [] := List.drop_eq_nil_of_le (by simp [column]; omega)
    have d2 : (column (R ro) 0).drop j = [] := List.drop_eq_nil_of_le (by simp [column]; omega)
    have d3 : (linXs F cd L R lg ro).drop j = [] := List.drop_eq_nil_of_le (by rw [linXs_length]; omega)
    refine ⟨.leaf (w ro), trivial, fun c hc => ?_⟩
    simp only [LmpaTree.paths, List.mem_singleton] at hc
    subst hc
    refine ⟨by rw [d1, d2, d3] at hg; exact hg, ro, Reprogrammed.refl _ _, ha, LinShare.refl .., ?_⟩
    rw [d1, d2, d3]
  | succ d ih =>
    intro j ro hj hbr row t hrow hgap
    have ha := hbr.acc
    obtain ⟨hL, hR⟩ := hq ro ha
    have hk := hkey ro j ha
    rw [queries_getElem _ _ _ _ _ (by omega) (by omega)] at hk
    set l := lg ro ++ penRounds (plainPen cd.compress) ((L ro).take (j + 1)) ((R ro).take (j + 1)) with hl
    obtain ⟨v, hv, hinj, -⟩ := Forks.pick (k := 2) hbr hk (∅ : Finset F) (by simpa using hK (i0 + j))
    have hup : ∀ m, _ := fun m => lin_update (F := F) cd q L R lg (v := v m) (l := l) (j := j) (by omega) rfl hL hR
      (hq _ (hv m).1.acc).1 (hq _ (hv m).1.acc).2 (by rw [← hkey ro _ ha]; exact hk)
      (by rw [← hkey _ _ (hv m).1.acc]; exact (hv m).2)
      (hlg ro _ l j ha (hv m).1.acc hk (hv m).2)
    have head : ∀ ro', acc ro' → ∀ m, LinShare F cd L R lg (j + 1) (Function.update ro l (v m)) ro' →
        (column (L ro') 0).drop j = ((L ro).getD j []).getD 0 0 :: (column (L ro') 0).drop (j + 1) ∧
        (column (R ro') 0).drop j = ((R ro).getD j []).getD 0 0 :: (column (R ro') 0).drop (j + 1) ∧
        (linXs F cd L R lg ro').drop j = ((leNat (v m).toList : Nat) : F) :: (linXs F cd L R lg ro').drop (j + 1) := by
      intro ro' ha' m hsh
      obtain ⟨-, -, s3, s4, s5⟩ := hsh
      obtain ⟨-, u2, u3, u4⟩ := hup m
      obtain ⟨hL', hR'⟩ := hq ro' ha'
      have get : ∀ {τ : Type} (A A' : List τ), A'.take (j + 1) = A.take (j + 1) → A'[j]? = A[j]? := by
        intro τ A A' e
        have := congrArg (fun l => l[j]?) e
        simpa only [List.getElem?_take_of_lt (Nat.lt_succ_self j)] using this
      have col : ∀ A A' : List (List G), A.length = q → A'.length = q → A'.take (j + 1) = A.take (j + 1) →
          (column A' 0).drop j = (A.getD j []).getD 0 0 :: (column A' 0).drop (j + 1) := by
        intro A A' h h' e
        rw [List.drop_eq_getElem_cons (by simp [column]; omega)]
        congr 1
        simp only [column, List.getElem_map]
        have := get A A' e
        rw [List.getElem?_eq_getElem (show j < A'.length by omega),
          List.getElem?_eq_getElem (show j < A.length by omega), Option.some.injEq] at this
        rw [this, List.getD_eq_getElem _ _ (show j < A.length by omega)]
      refine ⟨col _ _ hL hL' (s3.trans u2), col _ _ hR hR' (s4.trans u3), ?_⟩
      have hxl := linXs_length (F := F) cd L R lg ro'
      rw [List.drop_eq_getElem_cons (by omega)]
      congr 1
      have e := congrArg (fun l => l[j]?) (s5.trans u4)
      simp only [List.getElem?_take_of_lt (Nat.lt_succ_self j)] at e
      rw [List.getElem?_append_right (by rw [List.length_take]; omega), List.length_take, linXs_length,
        show j - min j (min (L ro).length (R ro).length) = 0 by omega, List.getElem?_cons_zero,
        List.getElem?_eq_getElem (by omega), Option.some.injEq] at e
      exact e
    have key : ∀ m, ∃ T : LmpaTree F G d, T.Distinct ∧ ∀ c ∈ T.paths,
        Conversation.accepts (foldRow ((leNat (v m).toList : Nat) : F) row) (((L ro).getD j []).getD 0 0 +
          ((leNat (v m).toList : Nat) : F) • t + (((leNat (v m).toList : Nat) : F) * ((leNat (v m).toList : Nat) : F)) •
            ((R ro).getD j []).getD 0 0) c.1 c.2.1 c.2.2.1 c.2.2.2 ∧
        ∃ ro', Reprogrammed d (Function.update ro l (v m)) ro' ∧ acc ro' ∧
          LinShare F cd L R lg (j + 1) (Function.update ro l (v m)) ro' ∧
          c = ((column (L ro') 0).drop (j + 1), (column (R ro') 0).drop (j + 1),
            (linXs F cd L R lg ro').drop (j + 1), w ro') := by
      intro m
      refine ih (j + 1) (Function.update ro l (v m)) (by omega) (hv m).1 _ _
        (by rw [foldRow_length, hrow, pow_succ]; omega) ?_
      intro ro' ha' hsh
      have hg := hgap ro' ha' (LinShare.trans cd L R lg (hup m).1 hsh)
      obtain ⟨h1, h2, h3⟩ := head ro' ha' m hsh
      obtain ⟨hL', hR'⟩ := hq ro' ha'
      rw [h1, h2, h3, lmpa_accepts_cons _ _ _ (by
        rw [hrow, List.length_drop, linXs_length]; congr 1; omega)] at hg
      exact hg
    choose T hT hc using key
    refine ⟨.node (((L ro).getD j []).getD 0 0) (((R ro).getD j []).getD 0 0)
      (fun m => ((leNat (v m).toList : Nat) : F)) T, ⟨hinj, hT⟩, fun c hc' => ?_⟩
    simp only [LmpaTree.paths, List.mem_flatMap, List.mem_map] at hc'
    obtain ⟨m, -, c, hcm, rfl⟩ := hc'
    obtain ⟨h1, ro', h2, h3, h4, rfl⟩ := hc m c hcm
    obtain ⟨e1, e2, e3⟩ := head ro' h3 m h4
    obtain ⟨hL', hR'⟩ := hq ro' h3
    refine ⟨(lmpa_accepts_cons _ _ _ (by
        rw [hrow, List.length_drop, linXs_length]; congr 1; omega) _ _ _ _ _ _).2 h1,
      ro', h2.update, h3, LinShare.trans cd L R lg (hup m).1 h4, ?_⟩
    rw [e1, e2, e3]

end
end Qesa.Props
