import Verif.Proofs.QesaMachine
/-
QESA as a machine, for provers that commit in any way.
-/
namespace Qesa.Props
open Qesa Spec Ipa
variable {F G V : Type} [Field F] [AddCommGroup V] [Module F V] {m k : Nat}

/-- `C' + C''` commits to a solution of the batched equation, as in C61. -/
def QesaClaim (M : Matrix (Fin (m + 1)) (Fin (m + 1)) F) (x : F) (Gs Hs : List V) (C : V) : Prop :=
  ∃ (u : Fin (m + 1) → F) (r0 r1 : F), quad M u = 0 ∧
    C = dot (List.ofFn u ++ [r0, r1]) (rescaled (x ^ 2) Gs) + (1 - (x ^ 2)⁻¹) • Gs.headD 0 +
      dot (List.ofFn (M.mulVec u) ++ [-r1, r0]) Hs

/-- The provers considered: which first messages they may send, for which challenges `x` they are lucky, and
which second messages they may send. -/
structure Plan (F V : Type) where
  first : V → Prop
  lucky : V → F → Prop
  second : V → F → V → Prop

/-- The states: `first` is waiting for `C'`, `second` for `C''`, `third` for the challenge `b`. -/
inductive AnyState (F V : Type)
  | first
  | second (C' : V) (x : F)
  | third (C' C'' : V) (x s : F)
  | arg (a : ArgState F V)

/-- What the prover sends. -/
def AnyState.Msg (P : Plan F V) : AnyState F V → Type
  | .first => {C' : V // P.first C'}
  | .second C' x => {C'' : V // P.second C' x C''}
  | .third .. => Unit
  | .arg a => a.Msg

/-- What is appended to the transcript. -/
def AnyState.ext (cmp : G → Comp) (ev : V → G) (P : Plan F V) : (s : AnyState F V) → s.Msg P → List (Note V)
  | .first, C' => xNotes cmp ev (show {C' : V // P.first C'} from C').1
  | .second _ _, C'' => sNotes cmp ev (show {C'' : V // P.second _ _ C''} from C'').1
  | .third .., _ => [(.chal "b" 64, none)]
  | .arg a, w => a.ext cmp ev w

/-- The next state. -/
noncomputable def AnyState.next (cmp : G → Comp) (ev : V → G) (q : Nat) (Gs Hs : List V) (Q : V)
    (Ms : Fin k → Matrix (Fin (m + 1)) (Fin (m + 1)) F) (P : Plan F V) :
    (s : AnyState F V) → s.Msg P → F → AnyState F V
  | .first, C', x => .second (show {C' : V // P.first C'} from C').1 x
  | .second C' x, C'', s => .third C' (show {C'' : V // P.second _ _ C''} from C'').1 x s
  | .third C' C'' x s, _, b =>
      let M := batched (m + 3) Ms x
      let C_w := qesaPoint M Gs Hs C' C'' x s b
      .arg (.beta [(.msg "c_w" (cmp (ev C_w)), some C_w)] q (rescaled (x ^ 2) Gs) Hs Q C_w
        (- quad M (powers s (m + 1))))
  | .arg a, w, c => .arg (a.next cmp ev w c)

/-- What remains to be hoped for. -/
def AnyState.Good (Gs Hs : List V) (Ms : Fin k → Matrix (Fin (m + 1)) (Fin (m + 1)) F) (P : Plan F V) :
    AnyState F V → Prop
  | .first => False
  | .second C' x => P.lucky C' x
  | .third C' C'' x s => x ≠ 0 → ∃ (u : Fin (m + 1) → F) (r0 r1 : F) (y : Fin (m + 1) → F),
      let M := batched (m + 3) Ms x
      C' + C'' = dot (List.ofFn u ++ [r0, r1]) (rescaled (x ^ 2) Gs) + (1 - (x ^ 2)⁻¹) • Gs.headD 0 +
        dot (List.ofFn y ++ [-r1, r0]) Hs ∧
      quad M u + u ⬝ᵥ (y - M.mulVec u) = powers s (m + 1) ⬝ᵥ (y - M.mulVec u)
  | .arg a => a.Good

/-- QESA. -/
noncomputable def anyMachine (cmp : G → Comp) (ev : V → G) (q : Nat) (Gs Hs : List V) (Q : V)
    (Ms : Fin k → Matrix (Fin (m + 1)) (Fin (m + 1)) F) (P : Plan F V) : Machine F (Note V) where
  S := AnyState F V
  M := AnyState.Msg P
  ext := AnyState.ext cmp ev P
  next := AnyState.next cmp ev q Gs Hs Q Ms P
  good := AnyState.Good Gs Hs Ms P

/-- The point handed to AlmZK, in terms of an opening of `C' + C''`. -/
theorem any_point {x s b : F} (M : Matrix (Fin (m + 1)) (Fin (m + 1)) F) (Gs Hs : List V) (hx : x ≠ 0)
    (C' C'' : V) (w v : List F) (lw : w.length = m + 3) (lv : v.length = m + 3) :
    C' + C'' = dot w (rescaled (x ^ 2) Gs) + (1 - (x ^ 2)⁻¹) • Gs.headD 0 + dot v Hs ↔
    qesaPoint M Gs Hs C' C'' x s b =
      dot (List.zipWith (fun a b => a - b) w (challengeVector s b (m + 1))) (rescaled (x ^ 2) Gs) +
      dot (List.zipWith (fun a b => a + b) v (challengeImage M s b)) Hs := by
  have e1 := dot_comb_left 1 (-1) (rescaled (x ^ 2) Gs)
      (s := w) (s' := challengeVector s b (m + 1)) (by simp [challengeVector, lw])
  have e2 := dot_comb_left 1 1 Hs (s := v) (s' := challengeImage M s b) (by simp [challengeImage, lv])
  simp only [one_mul, neg_mul, ← sub_eq_add_neg, one_smul, neg_smul] at e1 e2
  have hx2 : x ^ 2 ≠ 0 := pow_ne_zero 2 hx
  have e3 : 1 - (x ^ 2)⁻¹ = (x ^ 2 - 1) * (x ^ 2)⁻¹ := by field_simp
  unfold qesaPoint
  rw [e1, e2, e3]
  constructor
  · intro h
    rw [eq_sub_of_add_eq h]
    abel
  · intro h
    have := congrArg (fun z => z + ((x ^ 2 - 1) * (x ^ 2)⁻¹) • Gs.headD 0 - dot (challengeImage M s b) Hs +
      dot (challengeVector s b (m + 1)) (rescaled (x ^ 2) Gs)) h
    rw [show C' + C'' = C' - ((x ^ 2 - 1) * (x ^ 2)⁻¹) • Gs.headD 0 + C'' + dot (challengeImage M s b) Hs -
      dot (challengeVector s b (m + 1)) (rescaled (x ^ 2) Gs) + ((x ^ 2 - 1) * (x ^ 2)⁻¹) • Gs.headD 0 -
      dot (challengeImage M s b) Hs + dot (challengeVector s b (m + 1)) (rescaled (x ^ 2) Gs) by abel, this]
    abel

theorem split_list {α : Type} (w : List α) (h : w.length = m + 3) : ∃ (u : Fin (m + 1) → α) (r0 r1 : α),
    w = List.ofFn u ++ [r0, r1] := by
  refine ⟨fun i => w[i], w[m + 1], w[m + 2], ?_⟩
  refine List.ext_getElem (by simp [h]) fun i h1 h2 => ?_
  rw [List.getElem_append]
  split
  · rw [List.getElem_ofFn]; rfl
  · rename_i h'
    simp only [List.length_ofFn, Nat.not_lt] at h'
    simp only [List.length_ofFn]
    obtain rfl | rfl : i = m + 1 ∨ i = m + 2 := by omega
    · simp
    · simp [show m + 2 - (m + 1) = 1 by omega]

theorem opening_injective {Gs Hs : List V} {Q : V} (hG : Gs.length = m + 3) (hH : Hs.length = m + 3)
    (hf : Free (F := F) Gs Hs Q) {x : F} (hx : x ≠ 0) (u u' y y' : Fin (m + 1) → F)
    (r0 r1 p0 p1 r0' r1' p0' p1' : F)
    (h : dot (List.ofFn u ++ [r0, r1]) (rescaled (x ^ 2) Gs) + (1 - (x ^ 2)⁻¹) • Gs.headD 0 +
        dot (List.ofFn y ++ [p0, p1]) Hs =
      dot (List.ofFn u' ++ [r0', r1']) (rescaled (x ^ 2) Gs) + (1 - (x ^ 2)⁻¹) • Gs.headD 0 +
        dot (List.ofFn y' ++ [p0', p1']) Hs) :
    u = u' ∧ r0 = r0' ∧ r1 = r1' ∧ y = y' ∧ p0 = p0' ∧ p1 = p1' := by
  classical
  have h' : dot (List.ofFn u ++ [r0, r1]) (rescaled (x ^ 2) Gs) + dot (List.ofFn y ++ [p0, p1]) Hs =
      dot (List.ofFn u' ++ [r0', r1']) (rescaled (x ^ 2) Gs) + dot (List.ofFn y' ++ [p0', p1']) Hs := by
    apply add_right_cancel (b := (1 - (x ^ 2)⁻¹) • Gs.headD 0)
    rw [add_right_comm, h, add_right_comm]
  obtain ⟨h1, h2⟩ := unique_opening _ Hs Q (rescaled_free hf (pow_ne_zero 2 hx)) _ _ _ _
    (by simp [rescaled_length, hG]) (by simp [hH]) (by simp [rescaled_length, hG]) (by simp [hH]) h'
  have a := commit_list (u, r0, r1) (u', r0', r1') h1
  have b := commit_list (y, p0, p1) (y', p0', p1') h2
  simp only [Prod.mk.injEq] at a b
  exact ⟨a.1, a.2.1, a.2.2, b.1, b.2.1, b.2.2⟩

theorem anyMachine_sound (cmp : G → Comp) (ev : V → G) {q N : Nat} (hq : m + 3 = 2 ^ q) (Gs Hs : List V) (Q : V)
    (hG : Gs.length = m + 3) (hH : Hs.length = m + 3) (hf : Free (F := F) Gs Hs Q)
    (Ms : Fin k → Matrix (Fin (m + 1)) (Fin (m + 1)) F) (P : Plan F V) (hN : m + 3 ≤ N)
    (h1 : ∀ C', P.first C' → ∃ B : Finset F, B.card ≤ N ∧ ∀ x, P.lucky C' x → x ∈ B)
    (h2 : ∀ C' x C'', ¬ P.lucky C' x → P.second C' x C'' →
      x ≠ 0 ∧ ¬ QesaClaim (batched (m + 3) Ms x) x Gs Hs (C' + C'')) :
    (anyMachine cmp ev q Gs Hs Q Ms P).Sound N where
  ne := by
    intro s w
    change AnyState.ext cmp ev P s w ≠ []
    match s, w with
    | .first, _ => simp [AnyState.ext, xNotes]
    | .second .., _ => simp [AnyState.ext, sNotes]
    | .third .., _ => simp [AnyState.ext]
    | .arg a, w => exact (argMachine_sound (F := F) cmp ev).ne a w
  free := by
    intro s w w' r r' h
    change AnyState.ext cmp ev P s w ++ r = AnyState.ext cmp ev P s w' ++ r' at h
    match s, w, w' with
    | .first, (w : {C' : V // P.first C'}), (w' : {C' : V // P.first C'}) =>
      simp only [AnyState.ext, xNotes, List.cons_append, List.cons.injEq, Prod.mk.injEq,
        Option.some.injEq] at h
      exact Subtype.ext h.1.2
    | .second C' x, (w : {C'' : V // P.second C' x C''}), (w' : {C'' : V // P.second C' x C''}) =>
      simp only [AnyState.ext, sNotes, List.cons_append, List.cons.injEq, Prod.mk.injEq,
        Option.some.injEq] at h
      exact Subtype.ext h.1.2
    | .third .., _, _ => rfl
    | .arg a, w, w' => exact (argMachine_sound (F := F) cmp ev).free a w w' r r' h
  few := by
    classical
    intro s w hs
    change ¬ AnyState.Good Gs Hs Ms P s at hs
    change ∃ B : Finset F, B.card ≤ N ∧
      ∀ x, AnyState.Good Gs Hs Ms P (AnyState.next cmp ev q Gs Hs Q Ms P s w x) → x ∈ B
    match s, w with
    | .first, (⟨C', h⟩ : {C' : V // P.first C'}) => exact h1 C' h
    | .second C' x, (⟨C'', h⟩ : {C'' : V // P.second C' x C''}) =>
      obtain ⟨hx, hc⟩ := h2 C' x C'' hs h
      set M := batched (m + 3) Ms x with hM
      obtain ⟨B, hB, hB'⟩ := few_of_no_injection (m + 1)
        (fun s => AnyState.Good Gs Hs Ms P (.third C' C'' x s)) (by
          rintro ⟨s, hs, h⟩
          obtain ⟨u, r0, r1, y, he, -⟩ := h 0 hx
          obtain ⟨e1, e2⟩ := coeffs_zero (quad M u + u ⬝ᵥ (y - M.mulVec u)) (y - M.mulVec u) s hs (by
            intro i
            obtain ⟨u', r0', r1', y', he', hi⟩ := h i hx
            obtain ⟨rfl, rfl, rfl, rfl, -, -⟩ := opening_injective hG hH hf hx _ _ _ _ _ _ _ _ _ _ _ _
              (he.symm.trans he')
            exact hi)
          have hy : y - M.mulVec u = 0 := funext e2
          rw [hy, dotProduct_zero, add_zero] at e1
          refine hc ⟨u, r0, r1, e1, ?_⟩
          rw [he, sub_eq_zero.1 hy])
      exact ⟨B, by omega, hB'⟩
    | .third C' C'' x s, _ =>
      simp only [AnyState.Good, Classical.not_imp] at hs
      obtain ⟨hx, hs⟩ := hs
      set M := batched (m + 3) Ms x with hM
      have hx2 : x ^ 2 ≠ 0 := pow_ne_zero 2 hx
      have hAlm : ∀ b, AlmClaim (rescaled (x ^ 2) Gs) Hs (qesaPoint M Gs Hs C' C'' x s b)
          (- quad M (powers s (m + 1))) → ∃ (u : Fin (m + 1) → F) (r0 r1 : F) (y : Fin (m + 1) → F) (p0 p1 : F),
          C' + C'' = dot (List.ofFn u ++ [r0, r1]) (rescaled (x ^ 2) Gs) + (1 - (x ^ 2)⁻¹) • Gs.headD 0 +
            dot (List.ofFn y ++ [p0, p1]) Hs ∧
          quad M u + (u ⬝ᵥ (y - M.mulVec u) + r0 * p0 + r1 * p1) - powers s (m + 1) ⬝ᵥ (y - M.mulVec u) =
            b * (p0 + r1) + b ^ 2 * (p1 - r0) := by
        rintro b ⟨a, c, la, lc, he, ht⟩
        rw [rescaled_length, hG] at la
        rw [hH] at lc
        obtain ⟨u, r0, r1, hu⟩ := split_list (m := m)
          (List.zipWith (fun a b => a + b) a (challengeVector s b (m + 1))) (by simp [la, challengeVector])
        obtain ⟨y, p0, p1, hy⟩ := split_list (m := m)
          (List.zipWith (fun a b => a - b) c (challengeImage M s b)) (by simp [lc, challengeImage])
        have ha : a = List.zipWith (fun a b => a - b) (List.ofFn u ++ [r0, r1]) (challengeVector s b (m + 1)) := by
          rw [← hu]
          refine List.ext_getElem (by simp [la, challengeVector]) fun i h1 h2 => ?_
          simp
        have hcc : c = List.zipWith (fun a b => a + b) (List.ofFn y ++ [p0, p1]) (challengeImage M s b) := by
          rw [← hy]
          refine List.ext_getElem (by simp [lc, challengeImage]) fun i h1 h2 => ?_
          simp
        rw [ha, hcc] at he ht
        refine ⟨u, r0, r1, y, p0, p1, (any_point M Gs Hs hx C' C'' _ _ (by simp) (by simp)).2 he, ?_⟩
        rw [masked_product] at ht
        linear_combination ht
      obtain ⟨B, hB, hB'⟩ := few_of_no_injection 2 (fun b =>
        AlmClaim (rescaled (x ^ 2) Gs) Hs (qesaPoint M Gs Hs C' C'' x s b)
          (- quad M (powers s (m + 1)))) (by
        rintro ⟨b, hb, h⟩
        obtain ⟨u, r0, r1, y, p0, p1, he, -⟩ := hAlm _ (h 0)
        obtain ⟨e1, e2⟩ := coeffs_zero (m := 2)
          (quad M u + (u ⬝ᵥ (y - M.mulVec u) + r0 * p0 + r1 * p1) - powers s (m + 1) ⬝ᵥ (y - M.mulVec u))
          ![p0 + r1, p1 - r0] b hb (by
            intro i
            obtain ⟨u', r0', r1', y', p0', p1', he', hi⟩ := hAlm _ (h i)
            obtain ⟨rfl, rfl, rfl, rfl, rfl, rfl⟩ := opening_injective hG hH hf hx _ _ _ _ _ _ _ _ _ _ _ _
              (he.symm.trans he')
            rw [Fin.sum_univ_two]
            simp only [Fin.val_zero, Fin.val_one, Matrix.cons_val_zero, Matrix.cons_val_one, zero_add, pow_one]
            exact hi)
        have f0 : p0 = -r1 := eq_neg_of_add_eq_zero_left (e2 0)
        have f1 : p1 = r0 := sub_eq_zero.1 (e2 1)
        subst f0 f1
        refine hs ⟨u, _, r1, y, he, ?_⟩
        linear_combination e1)
      refine ⟨B, by omega, fun b h => hB' b ?_⟩
      exact h (by rw [rescaled_length, hG, hq]) (by rw [hH, hq]) (rescaled_free hf hx2)
    | .arg a, w =>
      obtain ⟨B, hB, hx⟩ := (argMachine_sound (F := F) cmp ev).few a w hs
      exact ⟨B, by omega, hx⟩

/-- Conversations of AlmZK are the ends of conversations of QESA. -/
theorem any_arg_path (cmp : G → Comp) (ev : V → G) {q : Nat} (Gs Hs : List V) (Q : V)
    (Ms : Fin k → Matrix (Fin (m + 1)) (Fin (m + 1)) F) (P : Plan F V) (ro : Hash) {a a' : (argMachine F cmp ev).S}
    {log : List (Note V)} {ls : List (List (Note V))}
    (h : (argMachine F cmp ev).Path Prod.fst ro a log ls a') :
    (anyMachine cmp ev q Gs Hs Q Ms P).Path Prod.fst ro (.arg a) log ls (.arg a') := by
  induction h with
  | nil => exact .nil
  | @cons s s' log ls w _ ih =>
    exact Machine.Path.cons (Mc := anyMachine cmp ev q Gs Hs Q Ms P) (er := Prod.fst)
      (s := AnyState.arg s) w ih

/-- An accepted proof is a path. -/
theorem any_path [DecidableEq F] (cmp : G → Comp) (ev : V → G) {q : Nat} (hq : m + 3 = 2 ^ q) (Gs Hs : List V)
    (Q : V) (hG : Gs.length = m + 3) (hH : Hs.length = m + 3)
    (Ms : Fin k → Matrix (Fin (m + 1)) (Fin (m + 1)) F) (P : Plan F V) (ro : Hash) (log : List (Note V))
    (p : AlgQesa F V) (hC' : P.first p.C')
    (hC'' : P.second p.C' (qesaX F ro (log.map Prod.fst) (cmp (ev p.C'))) p.C'') (hl : p.alm.ipa.Ls.length = q)
    (h : qesaGap ro (log.map Prod.fst) (fun L => cmp (ev L)) Gs Hs Q Ms p = 0) :
    ∃ ls s', (anyMachine cmp ev q Gs Hs Q Ms P).Path Prod.fst ro .first log ls s' ∧
      (anyMachine cmp ev q Gs Hs Q Ms P).good s' ∧
      ∀ l ∈ ls, l ∈ qesaQueries ro cmp ev log Gs Hs Q Ms p := by
  have e1 : (log ++ xNotes cmp ev p.C').map Prod.fst =
      log.map Prod.fst ++ [.msg "c_prime_w" (cmp (ev p.C')), .chal "x" 64] := by
    rw [List.map_append]; rfl
  have e2 : (log ++ xNotes cmp ev p.C' ++ sNotes cmp ev p.C'').map Prod.fst =
      log.map Prod.fst ++ [.msg "c_prime_w" (cmp (ev p.C')), .chal "x" 64,
        .msg "c_prime_prime_w" (cmp (ev p.C'')), .chal "s" 64] := by
    rw [List.map_append, e1, List.append_assoc]; rfl
  have e3 : (log ++ xNotes cmp ev p.C' ++ sNotes cmp ev p.C'' ++ [(Event.chal "b" 64, none)]).map Prod.fst =
      log.map Prod.fst ++ [.msg "c_prime_w" (cmp (ev p.C')), .chal "x" 64,
        .msg "c_prime_prime_w" (cmp (ev p.C'')), .chal "s" 64, .chal "b" 64] := by
    rw [List.map_append, e2, List.append_assoc]; rfl
  unfold qesaGap at h
  simp only at h
  generalize hx : qesaX F ro (log.map Prod.fst) (cmp (ev p.C')) = x at h hC''
  generalize hs : qesaS F ro (log.map Prod.fst) (cmp (ev p.C')) (cmp (ev p.C'')) = s at h
  generalize hb : qesaB F ro (log.map Prod.fst) (cmp (ev p.C')) (cmp (ev p.C'')) = b at h
  set M := batched (m + 3) Ms x with hM
  set C_w := qesaPoint M Gs Hs p.C' p.C'' x s b with hCw
  have e4 : (log ++ xNotes cmp ev p.C' ++ sNotes cmp ev p.C'' ++ [(Event.chal "b" 64, none)] ++
      [(Event.msg "c_w" (cmp (ev C_w)), some C_w)]).map Prod.fst =
      log.map Prod.fst ++ qesaHead (cmp (ev p.C')) (cmp (ev p.C'')) (cmp (ev C_w)) := by
    rw [List.map_append, e3, List.append_assoc]; rfl
  obtain ⟨ls, a', hp, hg, hm⟩ := beta_path cmp ev ro p.alm.ipa.a p.alm.ipa.b Q C_w p.alm.C_r
    (- quad M (powers s (m + 1))) p.alm.ipa.Ls p.alm.ipa.Rs (rescaled (x ^ 2) Gs) Hs
    [(Event.msg "c_w" (cmp (ev C_w)), some C_w)]
    (log ++ xNotes cmp ev p.C' ++ sNotes cmp ev p.C'' ++ [(Event.chal "b" 64, none)])
    (by rw [rescaled_length, hG, hl, hq]) (by rw [hH, hl, hq]) (by
      rw [e4]
      exact h)
  rw [hl] at hp hm
  refine ⟨(log ++ xNotes cmp ev p.C') :: (log ++ xNotes cmp ev p.C' ++ sNotes cmp ev p.C'') ::
    (log ++ xNotes cmp ev p.C' ++ sNotes cmp ev p.C'' ++ [(Event.chal "b" 64, none)]) :: ls, .arg a', ?_, hg, ?_⟩
  · have p3 := any_arg_path cmp ev (q := q) Gs Hs Q Ms P ro hp
    have p2 := Machine.Path.cons (Mc := anyMachine cmp ev q Gs Hs Q Ms P) (er := Prod.fst) (ro := ro)
      (log := log ++ xNotes cmp ev p.C' ++ sNotes cmp ev p.C'') (ls := ls) (s' := .arg a')
      (s := AnyState.third p.C' p.C'' x s) () (by
        have : (anyMachine cmp ev q Gs Hs Q Ms P).chal Prod.fst ro
            (log ++ xNotes cmp ev p.C' ++ sNotes cmp ev p.C'')
            (s := AnyState.third p.C' p.C'' x s) () = b :=
          (congrArg (squeeze F ro) e3).trans hb
        rw [this]
        exact p3)
    have p1 := Machine.Path.cons (Mc := anyMachine cmp ev q Gs Hs Q Ms P) (er := Prod.fst) (ro := ro)
      (log := log ++ xNotes cmp ev p.C') (s' := .arg a')
      (ls := (log ++ xNotes cmp ev p.C' ++ sNotes cmp ev p.C'' ++ [(Event.chal "b" 64, none)]) :: ls)
      (s := AnyState.second p.C' x) (show {C'' : V // P.second p.C' x C''} from ⟨p.C'', hC''⟩) (by
        have : (anyMachine cmp ev q Gs Hs Q Ms P).chal Prod.fst ro (log ++ xNotes cmp ev p.C')
            (s := AnyState.second p.C' x) (show {C'' : V // P.second p.C' x C''} from ⟨p.C'', hC''⟩) = s :=
          (congrArg (squeeze F ro) e2).trans hs
        rw [this]
        exact p2)
    exact Machine.Path.cons (Mc := anyMachine cmp ev q Gs Hs Q Ms P) (er := Prod.fst) (ro := ro)
      (log := log) (s' := .arg a') (s := AnyState.first)
      (show {C' : V // P.first C'} from ⟨p.C', hC'⟩) (by
        have : (anyMachine cmp ev q Gs Hs Q Ms P).chal Prod.fst ro log (s := AnyState.first)
            (show {C' : V // P.first C'} from ⟨p.C', hC'⟩) = x :=
          (congrArg (squeeze F ro) e1).trans hx
        rw [this]
        exact p1)
  · intro l hl'
    unfold qesaQueries
    simp only
    rw [hx, hs, hb]
    simp only [List.mem_cons] at hl' ⊢
    rcases hl' with rfl | rfl | rfl | hl'
    · exact .inl rfl
    · exact .inr (.inl rfl)
    · exact .inr (.inr (.inl rfl))
    · refine .inr (.inr (.inr ?_))
      rw [almQueries, List.mem_cons]
      have := hm l hl'
      rw [← hq] at this
      exact this

end Qesa.Props
