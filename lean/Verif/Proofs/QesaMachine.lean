import Verif.Proofs.FsCore
import Verif.Props.QesaSound
/-
QESA as a machine, for provers that commit as the honest prover does.
-/
namespace Qesa.Props
open Qesa Spec Ipa
variable {F G V : Type} [Field F] [AddCommGroup V] [Module F V] {m k : Nat}

/-- The states: `first` is waiting for `C'`, `second` for `C''`, `third` for the challenge `b`. -/
inductive QState (F V : Type) (m : Nat)
  | first
  | second (u : Fin (m + 1) → F) (r0 r1 x : F)
  | third (u : Fin (m + 1) → F) (r0 r1 x : F) (y : Fin (m + 1) → F) (p0 p1 s : F)
  | arg (a : ArgState F V)

/-- The vectors committed to in `C'`: the first component is one, and some equation is violated. -/
def Violates (Ms : Fin k → Matrix (Fin (m + 1)) (Fin (m + 1)) F) : Type :=
  {w : (Fin (m + 1) → F) × F × F // w.1 0 = 1 ∧ ∃ i, i.val < m + 3 ∧ quad (Ms i) w.1 ≠ 0}

/-- What the prover sends. -/
def QState.Msg (Ms : Fin k → Matrix (Fin (m + 1)) (Fin (m + 1)) F) : QState F V m → Type
  | .first => Violates Ms
  | .second .. => (Fin (m + 1) → F) × F × F
  | .third .. => Unit
  | .arg a => a.Msg

/-- The commitment to a vector and two masks. -/
def commit (Gs : List V) (w : (Fin (m + 1) → F) × F × F) : V := dot (List.ofFn w.1 ++ [w.2.1, w.2.2]) Gs

/-- What is appended to the transcript. -/
def QState.ext (cmp : G → Comp) (ev : V → G) (Gs Hs : List V)
    (Ms : Fin k → Matrix (Fin (m + 1)) (Fin (m + 1)) F) : (s : QState F V m) → s.Msg Ms → List (Note V)
  | .first, w => xNotes cmp ev (commit Gs (w : Violates Ms).1)
  | .second .., y => sNotes cmp ev (commit Hs (show (Fin (m + 1) → F) × F × F from y))
  | .third .., _ => [(.chal "b" 64, none)]
  | .arg a, w => a.ext cmp ev w

/-- The next state. -/
noncomputable def QState.next (cmp : G → Comp) (ev : V → G) (q : Nat) (Gs Hs : List V) (Q : V)
    (Ms : Fin k → Matrix (Fin (m + 1)) (Fin (m + 1)) F) :
    (s : QState F V m) → s.Msg Ms → F → QState F V m
  | .first, w, x => .second (w : Violates Ms).1.1 (w : Violates Ms).1.2.1 (w : Violates Ms).1.2.2 x
  | .second u r0 r1 x, y, s =>
      let y := show (Fin (m + 1) → F) × F × F from y
      .third u r0 r1 x y.1 y.2.1 y.2.2 s
  | .third u r0 r1 x y p0 p1 s, _, b =>
      let M := batched (m + 3) Ms x
      let C_w := qesaPoint M Gs Hs (commit Gs (u, r0, r1)) (commit Hs (y, p0, p1)) x s b
      .arg (.beta [(.msg "c_w" (cmp (ev C_w)), some C_w)] q (rescaled (x ^ 2) Gs) Hs Q C_w
        (- quad M (powers s (m + 1))))
  | .arg a, w, c => .arg (a.next cmp ev w c)

/-- What remains to be hoped for. -/
def QState.Good (Ms : Fin k → Matrix (Fin (m + 1)) (Fin (m + 1)) F) : QState F V m → Prop
  | .first => False
  | .second u _ _ x => x ≠ 0 → u 0 = 1 → quad (batched (m + 3) Ms x) u = 0
  | .third u r0 r1 x y p0 p1 s => x ≠ 0 → u 0 = 1 →
      let M := batched (m + 3) Ms x
      p0 = -r1 ∧ p1 = r0 ∧
        quad M u + (u ⬝ᵥ (y - M.mulVec u) + r0 * p0 + r1 * p1) = powers s (m + 1) ⬝ᵥ (y - M.mulVec u)
  | .arg a => a.Good

/-- QESA. -/
noncomputable def qesaMachine (cmp : G → Comp) (ev : V → G) (q : Nat) (Gs Hs : List V) (Q : V)
    (Ms : Fin k → Matrix (Fin (m + 1)) (Fin (m + 1)) F) : Machine F (Note V) where
  S := QState F V m
  M := QState.Msg Ms
  ext := QState.ext cmp ev Gs Hs Ms
  next := QState.next cmp ev q Gs Hs Q Ms
  good := QState.Good Ms

theorem rescaled_length (β : F) (Gs : List V) : (rescaled β Gs).length = Gs.length := by
  cases Gs <;> rfl

theorem rescaled_free {Gs Hs : List V} {Q : V} (h : Free (F := F) Gs Hs Q) {β : F} (hβ : β ≠ 0) :
    Free (F := F) (rescaled β Gs) Hs Q := fun r hr => h _ (unscale_relation β hβ Gs Hs Q r hr)

/-- The point handed to AlmZK, if the first component is one. -/
theorem honest_point {x s b : F} (hx : x ≠ 0) (M : Matrix (Fin (m + 1)) (Fin (m + 1)) F)
    (Gs Hs : List V) (hG : Gs.length = m + 3) (u y : Fin (m + 1) → F) (h0 : u 0 = 1) (r0 r1 p0 p1 : F) :
    qesaPoint M Gs Hs (commit Gs (u, r0, r1)) (commit Hs (y, p0, p1)) x s b =
      dot (List.zipWith (fun a b => a - b) (List.ofFn u ++ [r0, r1]) (challengeVector s b (m + 1)))
        (rescaled (x ^ 2) Gs) +
      dot (List.zipWith (fun a b => a + b) (List.ofFn y ++ [p0, p1]) (challengeImage M s b)) Hs := by
  obtain ⟨g0, Gs0, hGs⟩ : ∃ g0 Gs0, Gs = g0 :: Gs0 := by
    cases Gs with
    | nil => simp at hG
    | cons g Gs => exact ⟨g, Gs, rfl⟩
  have e1 := dot_comb_left 1 (-1) (rescaled (x ^ 2) Gs)
      (s := List.ofFn u ++ [r0, r1]) (s' := challengeVector s b (m + 1)) (by simp [challengeVector])
  have e2 := dot_comb_left 1 1 Hs (s := List.ofFn y ++ [p0, p1])
      (s' := challengeImage M s b) (by simp [challengeImage])
  simp only [one_mul, neg_mul, ← sub_eq_add_neg, one_smul, neg_smul] at e1 e2
  have hx2 : x ^ 2 ≠ 0 := pow_ne_zero 2 hx
  have e3 : dot (List.ofFn u ++ [r0, r1]) (rescaled (x ^ 2) Gs) =
      commit Gs (u, r0, r1) - ((x ^ 2 - 1) * (x ^ 2)⁻¹) • g0 := by
    subst hGs
    simp only [commit, List.ofFn_succ, List.cons_append, rescaled, dot_cons, smul_smul, h0, one_mul, one_smul]
    rw [add_sub_right_comm]
    congr 1
    have : (x ^ 2)⁻¹ = 1 - (x ^ 2 - 1) * (x ^ 2)⁻¹ := by field_simp; ring
    conv_lhs => rw [this, sub_smul, one_smul]
  unfold qesaPoint
  rw [e1, e2, e3, hGs, List.headD_cons, commit, commit]
  abel

theorem sum_swap (k n : Nat) (g : Nat → F) :
    (∑ i : Fin k, if i.val < n then g i else 0) = ∑ j : Fin n, if j.val < k then g j else 0 := by
  rw [Fin.sum_univ_eq_sum_range (fun i => if i < n then g i else 0) k,
    Fin.sum_univ_eq_sum_range (fun i => if i < k then g i else 0) n, ← Finset.sum_filter, ← Finset.sum_filter]
  apply Finset.sum_congr _ fun _ _ => rfl
  ext i
  simp only [Finset.mem_filter, Finset.mem_range]
  exact And.comm

omit [Field F] in
theorem commit_list (w w' : (Fin (m + 1) → F) × F × F)
    (h : List.ofFn w.1 ++ [w.2.1, w.2.2] = List.ofFn w'.1 ++ [w'.2.1, w'.2.2]) : w = w' := by
  obtain ⟨h1, h2⟩ := List.append_inj h (by simp)
  simp only [List.cons.injEq, and_true] at h2
  exact Prod.ext (List.ofFn_injective h1) (Prod.ext h2.1 h2.2)

theorem commit_injective {Gs Hs : List V} {Q : V} (hG : Gs.length = m + 3)
    (hf : Free (F := F) Gs Hs Q) (w w' : (Fin (m + 1) → F) × F × F) (h : commit Gs w = commit Gs w') :
    w = w' := by
  classical
  refine commit_list w w' (unique_opening Gs Hs Q hf _ _ (List.replicate Hs.length 0)
    (List.replicate Hs.length 0) (by simp [hG]) (by simp) (by simp [hG]) (by simp) ?_).1
  exact congrArg (· + _) h

theorem commit_injective' {Gs Hs : List V} {Q : V} (hH : Hs.length = m + 3)
    (hf : Free (F := F) Gs Hs Q) (w w' : (Fin (m + 1) → F) × F × F) (h : commit Hs w = commit Hs w') :
    w = w' := by
  classical
  refine commit_list w w' (unique_opening Gs Hs Q hf (List.replicate Gs.length 0)
    (List.replicate Gs.length 0) _ _ (by simp) (by simp [hH]) (by simp) (by simp [hH]) ?_).2
  exact congrArg (_ + ·) h

theorem qesaMachine_sound (cmp : G → Comp) (ev : V → G) {q : Nat} (hq : m + 3 = 2 ^ q) (Gs Hs : List V) (Q : V)
    (hG : Gs.length = m + 3) (hH : Hs.length = m + 3) (hf : Free (F := F) Gs Hs Q)
    (Ms : Fin k → Matrix (Fin (m + 1)) (Fin (m + 1)) F) :
    (qesaMachine cmp ev q Gs Hs Q Ms).Sound (m + 3) where
  ne := by
    intro s w
    change QState.ext cmp ev Gs Hs Ms s w ≠ []
    match s, w with
    | .first, _ => simp [QState.ext, xNotes]
    | .second .., _ => simp [QState.ext, sNotes]
    | .third .., _ => simp [QState.ext]
    | .arg a, w => exact (argMachine_sound (F := F) cmp ev).ne a w
  free := by
    intro s w w' r r' h
    change QState.ext cmp ev Gs Hs Ms s w ++ r = QState.ext cmp ev Gs Hs Ms s w' ++ r' at h
    match s, w, w' with
    | .first, (w : Violates Ms), (w' : Violates Ms) =>
      simp only [QState.ext, xNotes, List.cons_append, List.cons.injEq, Prod.mk.injEq,
        Option.some.injEq] at h
      exact Subtype.ext (commit_injective hG hf _ _ h.1.2)
    | .second .., w, w' =>
      simp only [QState.ext, sNotes, List.cons_append, List.cons.injEq, Prod.mk.injEq,
        Option.some.injEq] at h
      exact commit_injective' hH hf _ _ h.1.2
    | .third .., _, _ => rfl
    | .arg a, w, w' => exact (argMachine_sound (F := F) cmp ev).free a w w' r r' h
  few := by
    classical
    intro s w hs
    change ¬ QState.Good Ms s at hs
    change ∃ B : Finset F, B.card ≤ m + 3 ∧
      ∀ x, QState.Good Ms (QState.next cmp ev q Gs Hs Q Ms s w x) → x ∈ B
    match s, w with
    | .first, (⟨⟨u, r0, r1⟩, h0, i, hi, hne⟩ : Violates Ms) =>
      refine few_of_no_injection (m + 3) (fun x => x ≠ 0 → u 0 = 1 → quad (batched (m + 3) Ms x) u = 0) ?_
      rintro ⟨x, hx, h⟩
      obtain ⟨-, hz⟩ := coeffs_zero (m := m + 3) 0
        (fun j => if hj : j.val < k then quad (Ms ⟨j, hj⟩) u else 0) x hx (by
          intro l
          have hl : quad (batched (m + 3) Ms (x l)) u = 0 := by
            by_cases hx0 : x l = 0
            · rw [hx0, C27_batched_quad]
              apply Finset.sum_eq_zero
              intro j _
              simp
            · exact h l hx0 h0
          rw [C27_batched_quad] at hl
          have := sum_swap k (m + 3)
            (fun j => if hj : j < k then x l ^ (j + 1) * quad (Ms ⟨j, hj⟩) u else 0)
          simp only [Fin.is_lt, dite_true, Fin.eta] at this
          refine hl.symm.trans (this.trans ?_)
          apply Finset.sum_congr rfl
          intro j _
          by_cases hj : j.val < k
          · simp [hj]
          · simp [hj])
      apply hne
      have := hz ⟨i, hi⟩
      simpa using this
    | .second u r0 r1 x, w =>
      simp only [QState.Good, Classical.not_imp] at hs
      obtain ⟨hx, h0, hq0⟩ := hs
      generalize hw : (show (Fin (m + 1) → F) × F × F from w) = w'
      obtain ⟨y, p0, p1⟩ := w'
      obtain ⟨B, hB, hB'⟩ := few_of_no_injection (m + 1) (fun s =>
        p0 = -r1 ∧ p1 = r0 ∧ quad (batched (m + 3) Ms x) u +
          (u ⬝ᵥ (y - (batched (m + 3) Ms x).mulVec u) + r0 * p0 + r1 * p1) =
          powers s (m + 1) ⬝ᵥ (y - (batched (m + 3) Ms x).mulVec u)) (by
        rintro ⟨s, hs, h⟩
        obtain ⟨hc, hd⟩ := coeffs_zero _ _ s hs fun i => (h i).2.2
        obtain ⟨rfl, rfl, -⟩ := h 0
        have hd' : y - (batched (m + 3) Ms x).mulVec u = 0 := funext hd
        rw [hd', dotProduct_zero] at hc
        apply hq0
        linear_combination hc)
      refine ⟨B, by omega, fun s h => hB' s ?_⟩
      subst hw
      exact h hx h0
    | .third u r0 r1 x y p0 p1 s, _ =>
      simp only [QState.Good, Classical.not_imp] at hs
      obtain ⟨hx, h0, hq0⟩ := hs
      set M := batched (m + 3) Ms x with hM
      have hx2 : x ^ 2 ≠ 0 := pow_ne_zero 2 hx
      obtain ⟨B, hB, hB'⟩ := few_of_no_injection 2 (fun b =>
        AlmClaim (rescaled (x ^ 2) Gs) Hs
          (qesaPoint M Gs Hs (commit Gs (u, r0, r1)) (commit Hs (y, p0, p1)) x s b)
          (- quad M (powers s (m + 1)))) (by
        rintro ⟨b, hb, h⟩
        obtain ⟨h1, h2⟩ := coeffs_zero (m := 2)
          (quad M u + (u ⬝ᵥ (y - M.mulVec u) + r0 * p0 + r1 * p1) - powers s (m + 1) ⬝ᵥ (y - M.mulVec u))
          ![p0 + r1, p1 - r0] b hb (by
            intro i
            obtain ⟨a, c, la, lc, he, ht⟩ := h i
            rw [honest_point hx M Gs Hs hG u y h0] at he
            obtain ⟨rfl, rfl⟩ := unique_opening _ Hs Q (rescaled_free hf hx2) _ _ _ _
              (by simp [challengeVector, rescaled_length, hG]) (by simp [challengeImage, hH]) la lc he
            rw [masked_product] at ht
            rw [Fin.sum_univ_two]
            simp only [Fin.val_zero, Fin.val_one, Matrix.cons_val_zero, Matrix.cons_val_one, zero_add, pow_one]
            linear_combination ht)
        exact hq0 ⟨eq_neg_of_add_eq_zero_left (h2 0), sub_eq_zero.1 (h2 1), sub_eq_zero.1 h1⟩)
      refine ⟨B, by omega, fun b h => hB' b ?_⟩
      exact h (by rw [rescaled_length, hG, hq]) (by rw [hH, hq]) (rescaled_free hf hx2)
    | .arg a, w =>
      obtain ⟨B, hB, hx⟩ := (argMachine_sound (F := F) cmp ev).few a w hs
      exact ⟨B, by omega, hx⟩

/-- Conversations of AlmZK are the ends of conversations of QESA. -/
theorem arg_path (cmp : G → Comp) (ev : V → G) {q : Nat} (Gs Hs : List V) (Q : V)
    (Ms : Fin k → Matrix (Fin (m + 1)) (Fin (m + 1)) F) (ro : Hash) {a a' : (argMachine F cmp ev).S}
    {log : List (Note V)} {ls : List (List (Note V))}
    (h : (argMachine F cmp ev).Path Prod.fst ro a log ls a') :
    (qesaMachine cmp ev q Gs Hs Q Ms).Path Prod.fst ro (.arg a) log ls (.arg a') := by
  induction h with
  | nil => exact .nil
  | @cons s s' log ls w _ ih =>
    exact Machine.Path.cons (Mc := qesaMachine cmp ev q Gs Hs Q Ms) (er := Prod.fst)
      (s := QState.arg s) w ih

/-- QESA from the challenge `x` on. -/
theorem second_path [DecidableEq F] (cmp : G → Comp) (ev : V → G) {q : Nat} (hq : m + 3 = 2 ^ q) (Gs Hs : List V)
    (Q : V) (hG : Gs.length = m + 3) (hH : Hs.length = m + 3)
    (Ms : Fin k → Matrix (Fin (m + 1)) (Fin (m + 1)) F) (ro : Hash) (log : List (Note V))
    (p : AlgQesa F V) (w y : (Fin (m + 1) → F) × F × F) (hC' : p.C' = commit Gs w)
    (hC'' : p.C'' = commit Hs y) (hl : p.alm.ipa.Ls.length = q)
    (h : qesaGap ro (log.map Prod.fst) (fun L => cmp (ev L)) Gs Hs Q Ms p = 0) :
    ∃ ls s', (qesaMachine cmp ev q Gs Hs Q Ms).Path Prod.fst ro
        (.second w.1 w.2.1 w.2.2 (qesaX F ro (log.map Prod.fst) (cmp (ev p.C'))))
        (log ++ xNotes cmp ev p.C') ls s' ∧
      (qesaMachine cmp ev q Gs Hs Q Ms).good s' ∧
      ∀ l ∈ ls, l ∈ qesaQueries ro cmp ev log Gs Hs Q Ms p := by
  have e1 : (log ++ xNotes cmp ev p.C').map Prod.fst =
      log.map Prod.fst ++ [.msg "c_prime_w" (cmp (ev p.C')), .chal "x" 64] := by
    rw [List.map_append]; rfl
  have e2 : (log ++ xNotes cmp ev p.C' ++ sNotes cmp ev p.C'').map Prod.fst =
      log.map Prod.fst ++ [.msg "c_prime_w" (cmp (ev p.C')), .chal "x" 64,
        .msg "c_prime_prime_w" (cmp (ev p.C'')), .chal "s" 64] := by
    rw [List.map_append, e1, List.append_assoc]; rfl
  have e3 : (log ++ xNotes cmp ev p.C' ++ sNotes cmp ev p.C'' ++ [(Event.chal "b" 64, none)]).map Prod.fst =
      log.map Prod.fst ++ [.msg "c_prime_w" (cmp (ev p.C')), .chal "x" 64,
        .msg "c_prime_prime_w" (cmp (ev p.C'')), .chal "s" 64, .chal "b" 64] := by
    rw [List.map_append, e2, List.append_assoc]; rfl
  unfold qesaGap at h
  simp only at h
  generalize hx : qesaX F ro (log.map Prod.fst) (cmp (ev p.C')) = x at h
  generalize hs : qesaS F ro (log.map Prod.fst) (cmp (ev p.C')) (cmp (ev p.C'')) = s at h
  generalize hb : qesaB F ro (log.map Prod.fst) (cmp (ev p.C')) (cmp (ev p.C'')) = b at h
  set M := batched (m + 3) Ms x with hM
  set C_w := qesaPoint M Gs Hs p.C' p.C'' x s b with hCw
  have e4 : (log ++ xNotes cmp ev p.C' ++ sNotes cmp ev p.C'' ++ [(Event.chal "b" 64, none)] ++
      [(Event.msg "c_w" (cmp (ev C_w)), some C_w)]).map Prod.fst =
      log.map Prod.fst ++ qesaHead (cmp (ev p.C')) (cmp (ev p.C'')) (cmp (ev C_w)) := by
    rw [List.map_append, e3, List.append_assoc]; rfl
  obtain ⟨ls, a', hp, hg, hm⟩ := beta_path cmp ev ro p.alm.ipa.a p.alm.ipa.b Q C_w p.alm.C_r
    (- quad M (powers s (m + 1))) p.alm.ipa.Ls p.alm.ipa.Rs (rescaled (x ^ 2) Gs) Hs
    [(Event.msg "c_w" (cmp (ev C_w)), some C_w)]
    (log ++ xNotes cmp ev p.C' ++ sNotes cmp ev p.C'' ++ [(Event.chal "b" 64, none)])
    (by rw [rescaled_length, hG, hl, hq]) (by rw [hH, hl, hq]) (by
      rw [e4]
      exact h)
  rw [hl] at hp hm
  refine ⟨(log ++ xNotes cmp ev p.C' ++ sNotes cmp ev p.C'') ::
    (log ++ xNotes cmp ev p.C' ++ sNotes cmp ev p.C'' ++ [(Event.chal "b" 64, none)]) :: ls, .arg a', ?_, hg, ?_⟩
  · have p3 := arg_path cmp ev (q := q) Gs Hs Q Ms ro hp
    have p2 := Machine.Path.cons (Mc := qesaMachine cmp ev q Gs Hs Q Ms) (er := Prod.fst) (ro := ro)
      (log := log ++ xNotes cmp ev p.C' ++ sNotes cmp ev p.C'') (ls := ls) (s' := .arg a')
      (s := QState.third w.1 w.2.1 w.2.2 x y.1 y.2.1 y.2.2 s) () (by
        have : (qesaMachine cmp ev q Gs Hs Q Ms).chal Prod.fst ro
            (log ++ xNotes cmp ev p.C' ++ sNotes cmp ev p.C'')
            (s := QState.third w.1 w.2.1 w.2.2 x y.1 y.2.1 y.2.2 s) () = b :=
          (congrArg (squeeze F ro) e3).trans hb
        rw [this]
        rw [hCw, hC', hC''] at p3
        rw [hC', hC'']
        exact p3)
    have p1 := Machine.Path.cons (Mc := qesaMachine cmp ev q Gs Hs Q Ms) (er := Prod.fst) (ro := ro)
      (log := log ++ xNotes cmp ev p.C') (s' := .arg a')
      (ls := (log ++ xNotes cmp ev p.C' ++ sNotes cmp ev p.C'' ++ [(Event.chal "b" 64, none)]) :: ls)
      (s := QState.second w.1 w.2.1 w.2.2 x) (show (Fin (m + 1) → F) × F × F from y) (by
        have : (qesaMachine cmp ev q Gs Hs Q Ms).chal Prod.fst ro (log ++ xNotes cmp ev p.C')
            (s := QState.second w.1 w.2.1 w.2.2 x) (show (Fin (m + 1) → F) × F × F from y) = s := by
          rw [hC''] at e2 hs
          exact (congrArg (squeeze F ro) e2).trans hs
        rw [this]
        rw [hC''] at p2 ⊢
        exact p2)
    rw [hC', hC''] at p1 ⊢
    exact p1
  · intro l hl'
    unfold qesaQueries
    simp only
    rw [hx, hs, hb]
    simp only [List.mem_cons] at hl' ⊢
    rcases hl' with rfl | rfl | hl'
    · exact .inr (.inl rfl)
    · exact .inr (.inr (.inl rfl))
    · refine .inr (.inr (.inr ?_))
      rw [almQueries, List.mem_cons]
      have := hm l hl'
      rw [← hq] at this
      exact this

/-- QESA. -/
theorem qesa_path [DecidableEq F] (cmp : G → Comp) (ev : V → G) {q : Nat} (hq : m + 3 = 2 ^ q) (Gs Hs : List V)
    (Q : V) (hG : Gs.length = m + 3) (hH : Hs.length = m + 3)
    (Ms : Fin k → Matrix (Fin (m + 1)) (Fin (m + 1)) F) (ro : Hash) (log : List (Note V))
    (p : AlgQesa F V) (w : Violates Ms) (y : (Fin (m + 1) → F) × F × F) (hC' : p.C' = commit Gs w.1)
    (hC'' : p.C'' = commit Hs y) (hl : p.alm.ipa.Ls.length = q)
    (h : qesaGap ro (log.map Prod.fst) (fun L => cmp (ev L)) Gs Hs Q Ms p = 0) :
    ∃ ls s', (qesaMachine cmp ev q Gs Hs Q Ms).Path Prod.fst ro .first log ls s' ∧
      (qesaMachine cmp ev q Gs Hs Q Ms).good s' ∧
      ∀ l ∈ ls, l ∈ qesaQueries ro cmp ev log Gs Hs Q Ms p := by
  obtain ⟨ls, s', hp, hg, hm⟩ := second_path cmp ev hq Gs Hs Q hG hH Ms ro log p w.1 y hC' hC'' hl h
  refine ⟨(log ++ xNotes cmp ev p.C') :: ls, s', ?_, hg, ?_⟩
  · have e1 : (log ++ xNotes cmp ev p.C').map Prod.fst =
        log.map Prod.fst ++ [.msg "c_prime_w" (cmp (ev p.C')), .chal "x" 64] := by
      rw [List.map_append]; rfl
    have p0 := Machine.Path.cons (Mc := qesaMachine cmp ev q Gs Hs Q Ms) (er := Prod.fst) (ro := ro)
      (log := log) (s' := s') (ls := ls) (s := QState.first) w (by
        have : (qesaMachine cmp ev q Gs Hs Q Ms).chal Prod.fst ro log (s := QState.first) w =
            qesaX F ro (log.map Prod.fst) (cmp (ev p.C')) := by
          rw [hC'] at e1 ⊢
          exact congrArg (squeeze F ro) e1
        rw [this]
        rw [hC'] at hp ⊢
        exact hp)
    rw [hC']
    exact p0
  · intro l hl'
    rcases List.mem_cons.1 hl' with rfl | hl'
    · exact List.mem_cons_self
    · exact hm l hl'

end Qesa.Props
