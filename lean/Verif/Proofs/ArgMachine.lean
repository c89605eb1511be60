import Verif.Proofs.FiatShamir
/-
The inner-product arguments as machines.
-/
namespace Qesa.Props
open Qesa Spec Ipa
variable {F G V : Type} [Field F] [AddCommGroup V] [Module F V]

/-- The states of AlmZK: `beta` is waiting for the commitment `C_r`, `alpha` for the first challenge of the
inner-product argument, `rounds` for the next pair of points. -/
inductive ArgState (F V : Type)
  | beta (pre : List (Note V)) (q : Nat) (Gs Hs : List V) (Q C : V) (t : F)
  | alpha (pre : List (Note V)) (q : Nat) (Gs Hs : List V) (Q P : V) (t : F)
  | rounds (q : Nat) (Gs Hs : List V) (Q P : V)
  | lost

/-- What the prover sends. -/
def ArgState.Msg : ArgState F V → Type
  | .beta .. => V
  | .alpha .. => Unit
  | .rounds 0 .. => Empty
  | .rounds (_ + 1) .. => V × V
  | .lost => Empty

/-- What is appended to the transcript. -/
def ArgState.ext (cmp : G → Comp) (ev : V → G) : (s : ArgState F V) → s.Msg → List (Note V)
  | .beta pre .., C_r => pre ++ betaNotes cmp ev (C_r : V)
  | .alpha pre q .., _ => pre ++ plain (headLog (2 ^ q))
  | .rounds (_ + 1) .., m => roundNotes cmp ev (m : V × V).1 (m : V × V).2

open Classical in
/-- The next state. -/
noncomputable def ArgState.next (cmp : G → Comp) (ev : V → G) : (s : ArgState F V) → s.Msg → F → ArgState F V
  | .beta _ q Gs Hs Q C t, C_r, β =>
      let P : V := β • C + (show V from C_r) + (β * β * t) • Q
      .alpha [(.msg "P" (cmp (ev P)), none)] q Gs Hs Q P (β * β * t)
  | .alpha _ q Gs Hs Q P t, _, α =>
      if α = 0 then .lost else .rounds q Gs Hs (α⁻¹ • Q) (P - ((α - 1) * t) • (α⁻¹ • Q))
  | .rounds (q + 1) Gs Hs Q P, m, x =>
      .rounds q (foldG x Gs) (foldH x Hs) Q ((x * x) • (m : V × V).1 + x • P + (m : V × V).2)

/-- The claim is true. -/
def ArgState.Good : ArgState F V → Prop
  | .beta _ q Gs Hs Q C t => Gs.length = 2 ^ q → Hs.length = 2 ^ q → Free (F := F) Gs Hs Q →
      AlmClaim Gs Hs C t
  | .alpha _ q Gs Hs Q P t => Gs.length = 2 ^ q → Hs.length = 2 ^ q → Free (F := F) Gs Hs Q →
      IpaClaim Gs Hs Q P t
  | .rounds q Gs Hs Q P => Gs.length = 2 ^ q → Hs.length = 2 ^ q → Free (F := F) Gs Hs Q →
      Opens F Gs Hs Q P
  | .lost => True

variable (F) in
/-- The inner-product arguments. -/
noncomputable def argMachine (cmp : G → Comp) (ev : V → G) : Machine F (Note V) where
  S := ArgState F V
  M := ArgState.Msg
  ext := ArgState.ext cmp ev
  next := ArgState.next cmp ev
  good := ArgState.Good

theorem Free.smul {Gs Hs : List V} {Q : V} (h : Free (F := F) Gs Hs Q) {c : F} (hc : c ≠ 0) :
    Free (F := F) Gs Hs (c • Q) := by
  rintro ⟨u, v, w⟩ ⟨h1, h2, ⟨y, hy, hy0⟩, h3⟩
  refine h (u, v, w * c) ⟨h1, h2, ?_, ?_⟩
  · simp only [List.mem_append, List.mem_singleton] at hy ⊢
    rcases hy with hy | rfl
    · exact ⟨y, .inl hy, hy0⟩
    · exact ⟨y * c, .inr rfl, mul_ne_zero hy0 hc⟩
  · simp only at h3 ⊢
    rw [mul_smul]; exact h3

theorem argMachine_sound (cmp : G → Comp) (ev : V → G) : (argMachine F cmp ev).Sound 3 where
  ne := by
    intro s m
    change ArgState.ext cmp ev s m ≠ []
    match s, m with
    | .beta .., _ => simp [ArgState.ext, betaNotes]
    | .alpha .., _ => simp [ArgState.ext, plain, headLog]
    | .rounds (_ + 1) .., _ => simp [ArgState.ext, roundNotes]
  free := by
    intro s m m' r r' h
    change ArgState.ext cmp ev s m ++ r = ArgState.ext cmp ev s m' ++ r' at h
    match s, m, m' with
    | .beta .., (m : V), (m' : V) =>
      simp only [ArgState.ext, betaNotes, List.append_assoc, List.append_cancel_left_eq, List.cons_append,
        List.cons.injEq, Prod.mk.injEq, Option.some.injEq] at h
      exact h.1.2
    | .alpha .., _, _ => rfl
    | .rounds (_ + 1) .., (a, b), (a', b') =>
      simp only [ArgState.ext, roundNotes, List.cons_append, List.cons.injEq, Prod.mk.injEq,
        Option.some.injEq] at h
      exact Prod.ext h.1.2 h.2.1.2
  few := by
    classical
    intro s m hs
    change ¬ ArgState.Good s at hs
    change ∃ B : Finset F, B.card ≤ 3 ∧ ∀ x, ArgState.Good (ArgState.next cmp ev s m x) → x ∈ B
    match s, m with
    | .beta pre q Gs Hs Q C t, (C_r : V) =>
      simp only [ArgState.Good, Classical.not_imp] at hs
      obtain ⟨hG, hH, hf, hC⟩ := hs
      obtain ⟨B, hB, hx⟩ := few_of_no_injection 2
        (fun β => IpaClaim Gs Hs Q (β • C + (show V from C_r) + (β * β * t) • Q) (β * β * t)) (beta_few hG hH hf hC C_r)
      exact ⟨B, by omega, fun x h => hx x (h hG hH hf)⟩
    | .alpha pre q Gs Hs Q P t, _ =>
      simp only [ArgState.Good, Classical.not_imp] at hs
      obtain ⟨hG, hH, hf, hC⟩ := hs
      obtain ⟨B, hB, hx⟩ := few_of_no_injection 1
        (fun α => α ≠ 0 ∧ Opens F Gs Hs (α⁻¹ • Q) (P - ((α - 1) * t) • (α⁻¹ • Q))) (by
          rintro ⟨α, hα, h⟩
          have := alpha_few hG hH hf hC (α 0) (α 1) (h 0).1 (h 1).1 (h 0).2 (h 1).2
          exact absurd (hα this) (by decide))
      refine ⟨insert 0 B, (Finset.card_insert_le _ _).trans (by omega), ?_⟩
      intro α h
      by_cases h0 : α = 0
      · rw [h0]; exact Finset.mem_insert_self _ _
      · apply Finset.mem_insert_of_mem
        simp only [ArgState.next, if_neg h0] at h
        exact hx α ⟨h0, h hG hH (hf.smul (inv_ne_zero h0))⟩
    | .rounds (q + 1) Gs Hs Q P, (L, R) =>
      simp only [ArgState.Good, Classical.not_imp] at hs
      obtain ⟨hG, hH, hf, hC⟩ := hs
      obtain ⟨B, hB, hx⟩ := few_of_no_injection 3
        (fun x => Opens F (foldG x Gs) (foldH x Hs) Q ((x * x) • L + x • P + R)) (round_few hG hH hf hC L R)
      refine ⟨B, hB, fun x h => hx x (h ?_ ?_ (hf.fold hG hH x))⟩
      · rw [foldG_length, hG, pow_succ]; omega
      · rw [foldH_length, hH, pow_succ]; omega
    | .lost, _ => exact absurd trivial hs

/-! ### Accepted proofs are conversations -/

omit [AddCommGroup V] in
theorem roundNotes_plain (cmp : G → Comp) (ev : V → G) (L R : V) :
    (roundNotes cmp ev L R).map Prod.fst = roundLog (cmp (ev L), cmp (ev R)) := rfl

omit [AddCommGroup V] in
theorem plain_plain (log : List Event) : (plain log : List (Note V)).map Prod.fst = log := by
  rw [plain, List.map_map]
  exact List.map_id log

theorem dot_single (a : F) (n : Nat) (Gs : List V) : dot (a :: List.replicate n 0) Gs = a • Gs.getD 0 0 := by
  cases Gs with
  | nil => simp [dot]
  | cons g Gs =>
    rw [dot_cons]
    have : ∀ (n : Nat) (Gs : List V), dot (List.replicate n (0 : F)) Gs = 0 := by
      intro n
      induction n with
      | zero => intro Gs; simp [dot]
      | succ n ih =>
        intro Gs
        cases Gs with
        | nil => simp [dot]
        | cons g Gs => rw [List.replicate_succ, dot_cons, ih]; simp
    rw [this]; simp

/-- The rounds. -/
theorem rounds_path [DecidableEq F] (cmp : G → Comp) (ev : V → G) (ro : Hash) (a b : F) (Q : V) :
    ∀ (Ls Rs : List V) (Gs Hs : List V) (P : V) (log : List (Note V)),
      let q := Ls.length
      let xs := roundChallenges F ro (log.map Prod.fst) (Ls.map fun L => cmp (ev L))
        (Rs.map fun L => cmp (ev L))
      Gs.length = 2 ^ q → Hs.length = 2 ^ q →
      a • combined (weightG xs) q xs.length Gs + b • combined (weightH xs) q xs.length Hs + (a * b) • Q =
        foldedP Ls Rs xs P →
      ∃ s', (argMachine F cmp ev).Path Prod.fst ro (.rounds q Gs Hs Q P) log
        (roundQueries cmp ev log Ls Rs) s' ∧ (argMachine F cmp ev).good s'
  | L :: Ls, R :: Rs, Gs, Hs, P, log => by
    intro q xs hG hH h
    have hxs : xs = squeeze F ro ((log ++ roundNotes cmp ev L R).map Prod.fst) ::
        roundChallenges F ro ((log ++ roundNotes cmp ev L R).map Prod.fst) (Ls.map fun L => cmp (ev L))
        (Rs.map fun L => cmp (ev L)) := by
      rw [List.map_append, roundNotes_plain]
      exact roundChallenges_cons ..
    have hq : q = Ls.length + 1 := rfl
    rw [hq] at hG hH h
    generalize hx : squeeze F ro ((log ++ roundNotes cmp ev L R).map Prod.fst) = x at hxs
    generalize hys : roundChallenges F ro ((log ++ roundNotes cmp ev L R).map Prod.fst)
      (Ls.map fun L => cmp (ev L)) (Rs.map fun L => cmp (ev L)) = ys at hxs
    have hl : ys.length ≤ Ls.length := by rw [← hys]; simp [roundChallenges]
    rw [hxs, foldedP_cons, List.length_cons] at h
    have hh : Gs.length / 2 = 2 ^ Ls.length := by rw [hG, pow_succ]; omega
    have hh' : Hs.length / 2 = 2 ^ Ls.length := by rw [hH, pow_succ]; omega
    have hpos : 0 < 2 ^ (Ls.length - ys.length) := Nat.two_pow_pos _
    rw [← combined_step (1 : F) x (weightG ys) (weightG (x :: ys)) Ls.length ys.length Gs
      (fun i hi => by rw [one_mul]; exact weightG_cons_lt x ys hi)
      (fun i hi => weightG_cons_ge x ys hi) hl (by rw [hG]; have := Nat.two_pow_pos (Ls.length + 1); omega),
      ← combined_step x (1 : F) (weightH ys) (weightH (x :: ys)) Ls.length ys.length Hs
      (fun i hi => weightH_cons_lt x ys hi)
      (fun i hi => by rw [one_mul]; exact weightH_cons_ge x ys hi) hl
      (by rw [hH]; have := Nat.two_pow_pos (Ls.length + 1); omega)] at h
    subst hys
    obtain ⟨s', hp, hs⟩ := rounds_path cmp ev ro a b Q Ls Rs (foldG x Gs) (foldH x Hs)
      ((x * x) • L + x • P + R) (log ++ roundNotes cmp ev L R) (by rw [foldG_length, hh])
      (by rw [foldH_length, hh']) (by
        rw [foldG, foldH, hh, hh']
        exact h)
    refine ⟨s', ?_, hs⟩
    subst hx
    exact Machine.Path.cons (Mc := argMachine F cmp ev) (er := Prod.fst)
      (s := ArgState.rounds (Ls.length + 1) Gs Hs Q P) (L, R) hp
  | [], Rs, Gs, Hs, P, log => by
    intro q xs hG hH h
    refine ⟨_, by unfold roundQueries; exact .nil, ?_⟩
    have hxs : xs = [] := by simp [xs, roundChallenges]
    exact rounds_done hxs hG hH h
  | L :: Ls, [], Gs, Hs, P, log => by
    intro q xs hG hH h
    refine ⟨_, by unfold roundQueries; exact .nil, ?_⟩
    have hxs : xs = [] := by simp [xs, roundChallenges]
    exact rounds_done hxs hG hH h
where
  rounds_done {q : Nat} {xs : List F} {Gs Hs : List V} {P : V} {Ls Rs : List V} (hxs : xs = [])
      (hG : Gs.length = 2 ^ q) (hH : Hs.length = 2 ^ q)
      (h : a • combined (weightG xs) q xs.length Gs + b • combined (weightH xs) q xs.length Hs + (a * b) • Q =
        foldedP Ls Rs xs P) : ArgState.Good (.rounds q Gs Hs Q P : ArgState F V) := by
    intro _ _ _
    subst hxs
    simp only [combined, foldedP, weightG, weightH] at h
    have hp := Nat.two_pow_pos q
    refine ⟨a :: List.replicate (2 ^ q - 1) 0, b :: List.replicate (2 ^ q - 1) 0, ?_, ?_, ?_⟩
    · simp [hG]; omega
    · simp [hH]; omega
    · rw [dot_single, dot_single, dot_single]
      simpa using h.symm

/-- The inner-product argument. -/
theorem alpha_path [DecidableEq F] (cmp : G → Comp) (ev : V → G) (ro : Hash) (a b : F) (Q P : V) (t : F)
    (Ls Rs Gs Hs : List V) (pre log : List (Note V)) (hG : Gs.length = 2 ^ Ls.length)
    (hH : Hs.length = 2 ^ Ls.length)
    (h : ipaGap ro ((log ++ pre).map Prod.fst) (fun L => cmp (ev L)) Gs Hs Q P t Ls Rs a b = 0) :
    ∃ ls s', (argMachine F cmp ev).Path Prod.fst ro (.alpha pre Ls.length Gs Hs Q P t) log ls s' ∧
      (argMachine F cmp ev).good s' ∧
      ∀ l ∈ ls, l ∈ ipaQueries cmp ev (log ++ pre) (2 ^ Ls.length) Ls Rs := by
  have e : (log ++ (pre ++ plain (headLog (2 ^ Ls.length)))).map Prod.fst =
      (log ++ pre).map Prod.fst ++ headLog (2 ^ Ls.length) := by
    rw [← List.append_assoc, List.map_append, plain_plain]
  by_cases h0 : ipaAlpha F ro ((log ++ pre).map Prod.fst) (2 ^ Ls.length) = 0
  · refine ⟨[log ++ (pre ++ plain (headLog (2 ^ Ls.length)))], .lost, ?_, trivial, ?_⟩
    · refine Machine.Path.cons (Mc := argMachine F cmp ev) (er := Prod.fst)
        (s := ArgState.alpha pre Ls.length Gs Hs Q P t) () ?_
      have : (argMachine F cmp ev).next (ArgState.alpha pre Ls.length Gs Hs Q P t) ()
          ((argMachine F cmp ev).chal Prod.fst ro log (s := ArgState.alpha pre Ls.length Gs Hs Q P t) ()) =
          .lost :=
        (congrArg (ArgState.next cmp ev (.alpha pre Ls.length Gs Hs Q P t) ())
          ((congrArg (squeeze F ro) e).trans h0)).trans (if_pos rfl)
      rw [this]
      exact .nil
    · intro l hl
      rw [List.mem_singleton.1 hl, ← List.append_assoc]
      exact List.mem_cons_self
  · unfold ipaGap at h
    simp only at h
    rw [sub_eq_zero] at h
    obtain ⟨s', hp, hs⟩ := rounds_path cmp ev ro a b
      ((ipaAlpha F ro ((log ++ pre).map Prod.fst) (2 ^ Ls.length))⁻¹ • Q) Ls Rs Gs Hs _
      (log ++ pre ++ plain (headLog (2 ^ Ls.length))) hG hH (by
        rw [List.append_assoc, e]
        exact h)
    refine ⟨_, s', ?_, hs, fun l hl => hl⟩
    unfold ipaQueries
    rw [List.append_assoc] at hp ⊢
    refine Machine.Path.cons (Mc := argMachine F cmp ev) (er := Prod.fst)
        (s := ArgState.alpha pre Ls.length Gs Hs Q P t) () ?_
    have : (argMachine F cmp ev).next (ArgState.alpha pre Ls.length Gs Hs Q P t) ()
        ((argMachine F cmp ev).chal Prod.fst ro log (s := ArgState.alpha pre Ls.length Gs Hs Q P t) ()) =
        .rounds Ls.length Gs Hs ((ipaAlpha F ro ((log ++ pre).map Prod.fst) (2 ^ Ls.length))⁻¹ • Q)
          (P - ((ipaAlpha F ro ((log ++ pre).map Prod.fst) (2 ^ Ls.length) - 1) * t) •
            ((ipaAlpha F ro ((log ++ pre).map Prod.fst) (2 ^ Ls.length))⁻¹ • Q)) :=
      (congrArg (ArgState.next cmp ev (.alpha pre Ls.length Gs Hs Q P t) ())
        (congrArg (squeeze F ro) e)).trans (if_neg h0)
    rw [this]
    exact hp

/-- AlmZK. -/
theorem beta_path [DecidableEq F] (cmp : G → Comp) (ev : V → G) (ro : Hash) (a b : F) (Q C C_r : V) (t : F)
    (Ls Rs Gs Hs : List V) (pre log : List (Note V)) (hG : Gs.length = 2 ^ Ls.length)
    (hH : Hs.length = 2 ^ Ls.length)
    (h : let β := almBeta F ro ((log ++ pre).map Prod.fst) (cmp (ev C_r))
      let P := β • C + C_r + (β * β * t) • Q
      ipaGap ro ((log ++ pre).map Prod.fst ++ almHead (cmp (ev C_r)) (cmp (ev P))) (fun L => cmp (ev L))
        Gs Hs Q P (β * β * t) Ls Rs a b = 0) :
    let β := almBeta F ro ((log ++ pre).map Prod.fst) (cmp (ev C_r))
    let P := β • C + C_r + (β * β * t) • Q
    ∃ ls s', (argMachine F cmp ev).Path Prod.fst ro (.beta pre Ls.length Gs Hs Q C t) log ls s' ∧
      (argMachine F cmp ev).good s' ∧
      ∀ l ∈ ls, l = log ++ pre ++ betaNotes cmp ev C_r ∨
        l ∈ ipaQueries cmp ev (log ++ pre ++ betaNotes cmp ev C_r ++ [(.msg "P" (cmp (ev P)), none)])
          (2 ^ Ls.length) Ls Rs := by
  intro β P
  have e : (log ++ (pre ++ betaNotes cmp ev C_r)).map Prod.fst =
      (log ++ pre).map Prod.fst ++ [.msg "C_r" (cmp (ev C_r)), .chal "beta" 64] := by
    rw [← List.append_assoc, List.map_append]; rfl
  obtain ⟨ls, s', hp, hs, hl⟩ := alpha_path cmp ev ro a b Q P (β * β * t) Ls Rs Gs Hs
    [(.msg "P" (cmp (ev P)), none)] (log ++ (pre ++ betaNotes cmp ev C_r)) hG hH (by
      rw [List.map_append, e, List.append_assoc]
      exact h)
  refine ⟨(log ++ (pre ++ betaNotes cmp ev C_r)) :: ls, s', ?_, hs, ?_⟩
  · refine Machine.Path.cons (Mc := argMachine F cmp ev) (er := Prod.fst)
        (s := ArgState.beta pre Ls.length Gs Hs Q C t) (show V from C_r) ?_
    have ec : (argMachine F cmp ev).chal Prod.fst ro log
          (s := ArgState.beta pre Ls.length Gs Hs Q C t) (show V from C_r) = β :=
      congrArg (squeeze F ro) e
    rw [ec]
    exact hp
  · intro l hl'
    rcases List.mem_cons.1 hl' with rfl | hl'
    · left; rw [List.append_assoc]
    · right
      have := hl l hl'
      rwa [← List.append_assoc log] at this

end Qesa.Props
