import Verif.Proofs.QesaAny
import Verif.Proofs.CopyMachine
/-
Copy as a machine, for provers that commit in any way.
-/
namespace Qesa.Props
open Qesa Spec Copy
variable {F G V : Type} [Field F] [AddCommGroup V] [Module F V] {m : Nat}

/-- The provers considered: which first messages they may send, for which challenges `alpha` they are lucky, and
how they may go on. -/
structure CopyPlan (F V : Type) where
  start : V → Prop
  lucky : V → F → Prop
  rest : V → F → Plan F V

/-- The states: `start` is waiting for `C_w`. -/
inductive CAState (F V : Type)
  | start
  | run (C_w : V) (α : F) (s : AnyState F V)

variable (Us : List (Matrix (Fin (m + 1)) (Fin (m + 1)) F)) (map : Mapping) (P : CopyPlan F V)

/-- What the prover sends. -/
def CAState.Msg : CAState F V → Type
  | .start => {C : V // P.start C}
  | .run C α s => s.Msg (P.rest C α)

/-- What is appended to the transcript. -/
def CAState.ext (cmp : G → Comp) (ev : V → G) : (s : CAState F V) → s.Msg P → List (Note V)
  | .start, C => alphaNotes cmp ev (show {C : V // P.start C} from C).1
  | .run C α s, w => s.ext cmp ev (P.rest C α) w

/-- The next state. -/
noncomputable def CAState.next (cmp : G → Comp) (ev : V → G) (q : Nat) (Gs Hs : List V) (Q : V) :
    (s : CAState F V) → s.Msg P → F → CAState F V
  | .start, C, α => .run (show {C : V // P.start C} from C).1 α .first
  | .run C α s, w, c => .run C α (s.next cmp ev q Gs Hs Q (copySystem Us map α).get (P.rest C α) w c)

/-- What remains to be hoped for. -/
def CAState.Good (Gs Hs : List V) : CAState F V → Prop
  | .start => False
  | .run C α s => P.lucky C α ∨ s.Good Gs Hs (copySystem Us map α).get (P.rest C α)

/-- Copy. -/
noncomputable def copyAnyMachine (cmp : G → Comp) (ev : V → G) (q : Nat) (Gs Hs : List V) (Q : V) :
    Machine F (Note V) where
  S := CAState F V
  M := CAState.Msg P
  ext := CAState.ext P cmp ev
  next := CAState.next Us map P cmp ev q Gs Hs Q
  good := CAState.Good Us map P Gs Hs

variable {Us map P}

theorem copyAnyMachine_sound (cmp : G → Comp) (ev : V → G) {q N : Nat} (hq : m + 3 = 2 ^ q) (Gs Hs : List V)
    (Q : V) (hG : Gs.length = m + 3) (hH : Hs.length = m + 3) (hf : Free (F := F) Gs Hs Q) (hN : m + 3 ≤ N)
    (h0 : ∀ C, P.start C → ∃ B : Finset F, B.card ≤ N ∧ ∀ α, P.lucky C α → α ∈ B)
    (h1 : ∀ C α C', (P.rest C α).first C' →
      ∃ B : Finset F, B.card ≤ N ∧ ∀ x, (P.rest C α).lucky C' x → x ∈ B)
    (h2 : ∀ C α C' x C'', ¬ (P.rest C α).lucky C' x → (P.rest C α).second C' x C'' →
      x ≠ 0 ∧ ¬ QesaClaim (batched (m + 3) (copySystem Us map α).get x) x Gs Hs (C' + C'')) :
    (copyAnyMachine Us map P cmp ev q Gs Hs Q).Sound N where
  ne := by
    intro s w
    change CAState.ext P cmp ev s w ≠ []
    match s, w with
    | .start, _ => simp [CAState.ext, alphaNotes]
    | .run C α s, w =>
      exact (anyMachine_sound cmp ev hq Gs Hs Q hG hH hf (copySystem Us map α).get (P.rest C α) hN
        (h1 C α) (h2 C α)).ne s w
  free := by
    intro s w w' r r' h
    change CAState.ext P cmp ev s w ++ r = CAState.ext P cmp ev s w' ++ r' at h
    match s, w, w' with
    | .start, (w : {C : V // P.start C}), (w' : {C : V // P.start C}) =>
      simp only [CAState.ext, alphaNotes, List.cons_append, List.cons.injEq, Prod.mk.injEq,
        Option.some.injEq] at h
      exact Subtype.ext h.1.2
    | .run C α s, w, w' =>
      exact (anyMachine_sound cmp ev hq Gs Hs Q hG hH hf (copySystem Us map α).get (P.rest C α) hN
        (h1 C α) (h2 C α)).free s w w' r r' h
  few := by
    intro s w hs
    change ¬ CAState.Good Us map P Gs Hs s at hs
    change ∃ B : Finset F, B.card ≤ N ∧
      ∀ x, CAState.Good Us map P Gs Hs (CAState.next Us map P cmp ev q Gs Hs Q s w x) → x ∈ B
    match s, w with
    | .start, (⟨C, h⟩ : {C : V // P.start C}) =>
      obtain ⟨B, hB, hx⟩ := h0 C h
      exact ⟨B, hB, fun α h => hx α (h.resolve_right fun h => h)⟩
    | .run C α s, w =>
      obtain ⟨hl, hs⟩ := not_or.1 hs
      obtain ⟨B, hB, hx⟩ := (anyMachine_sound cmp ev hq Gs Hs Q hG hH hf (copySystem Us map α).get (P.rest C α) hN
        (h1 C α) (h2 C α)).few s w hs
      exact ⟨B, hB, fun x h => hx x (h.resolve_left hl)⟩

/-- Conversations of QESA are the ends of conversations of Copy. -/
theorem copyAny_run_path (cmp : G → Comp) (ev : V → G) {q : Nat} (Gs Hs : List V) (Q : V) (C : V) (α : F)
    (ro : Hash) {a a' : (anyMachine cmp ev q Gs Hs Q (copySystem Us map α).get (P.rest C α)).S}
    {log : List (Note V)} {ls : List (List (Note V))}
    (h : (anyMachine cmp ev q Gs Hs Q (copySystem Us map α).get (P.rest C α)).Path Prod.fst ro a log ls a') :
    (copyAnyMachine Us map P cmp ev q Gs Hs Q).Path Prod.fst ro (.run C α a) log ls (.run C α a') := by
  induction h with
  | nil => exact .nil
  | @cons s s' log ls w _ ih =>
    exact Machine.Path.cons (Mc := copyAnyMachine Us map P cmp ev q Gs Hs Q) (er := Prod.fst)
      (s := CAState.run C α s) w ih

/-- An accepted proof is a path. -/
theorem copyAny_path [DecidableEq F] (cmp : G → Comp) (ev : V → G) {q : Nat} (hq : m + 3 = 2 ^ q) (Gs Hs : List V)
    (Q : V) (hG : Gs.length = m + 3) (hH : Hs.length = m + 3) (Cs : List V) (ro : Hash) (log : List (Note V))
    (p : AlgCopy F V) (hC : P.start p.C_w)
    (hr : let α := copyAlpha F ro (log.map Prod.fst) (cmp (ev p.C_w))
      P.lucky p.C_w α ∨
      (P.rest p.C_w α).first (p.qesa Cs α).C' ∧
      (P.rest p.C_w α).second (p.qesa Cs α).C' (qesaX F ro (log.map Prod.fst ++
        [.msg "c_w" (cmp (ev p.C_w)), .chal "alpha" 64]) (cmp (ev (p.qesa Cs α).C'))) p.C'')
    (hl : p.alm.ipa.Ls.length = q)
    (h : copyGap ro (log.map Prod.fst) (fun L => cmp (ev L)) Gs Hs Q Us map Cs p = 0) :
    ∃ ls s', (copyAnyMachine Us map P cmp ev q Gs Hs Q).Path Prod.fst ro .start log ls s' ∧
      (copyAnyMachine Us map P cmp ev q Gs Hs Q).good s' ∧
      ∀ l ∈ ls, l ∈ copyQueries ro cmp ev log Gs Hs Q Us map Cs p := by
  have e0 : (log ++ alphaNotes cmp ev p.C_w).map Prod.fst =
      log.map Prod.fst ++ [.msg "c_w" (cmp (ev p.C_w)), .chal "alpha" 64] := by
    rw [List.map_append]; rfl
  unfold copyGap at h
  simp only at h hr
  generalize hα : copyAlpha F ro (log.map Prod.fst) (cmp (ev p.C_w)) = α at h hr
  have first : ∀ {ls s'}, (copyAnyMachine Us map P cmp ev q Gs Hs Q).Path Prod.fst ro (.run p.C_w α .first)
      (log ++ alphaNotes cmp ev p.C_w) ls s' →
      (copyAnyMachine Us map P cmp ev q Gs Hs Q).Path Prod.fst ro .start log
        ((log ++ alphaNotes cmp ev p.C_w) :: ls) s' := by
    intro ls s' hp
    refine Machine.Path.cons (Mc := copyAnyMachine Us map P cmp ev q Gs Hs Q) (er := Prod.fst) (ro := ro)
      (log := log) (s' := s') (ls := ls) (s := CAState.start)
      (show {C : V // P.start C} from ⟨p.C_w, hC⟩) ?_
    have : (copyAnyMachine Us map P cmp ev q Gs Hs Q).chal Prod.fst ro log (s := CAState.start)
        (show {C : V // P.start C} from ⟨p.C_w, hC⟩) = α :=
      (congrArg (squeeze F ro) e0).trans hα
    rw [this]
    exact hp
  rcases hr with hr | ⟨hr1, hr2⟩
  · refine ⟨[log ++ alphaNotes cmp ev p.C_w], .run p.C_w α .first, first .nil, .inl hr, ?_⟩
    intro l hl'
    rw [List.mem_singleton.1 hl']
    exact List.mem_cons_self
  · rw [← e0] at h hr2
    obtain ⟨ls, s', hp, hg, hm⟩ := any_path cmp ev hq Gs Hs Q hG hH (copySystem Us map α).get (P.rest p.C_w α) ro
      (log ++ alphaNotes cmp ev p.C_w) (p.qesa Cs α) hr1 hr2 hl h
    refine ⟨_, .run p.C_w α s', first (copyAny_run_path cmp ev Gs Hs Q p.C_w α ro hp), .inr hg, ?_⟩
    intro l hl'
    unfold copyQueries
    simp only
    rw [hα]
    rcases List.mem_cons.1 hl' with rfl | hl'
    · exact List.mem_cons_self
    · exact List.mem_cons_of_mem _ (hm l hl')

end Qesa.Props
