import Verif.Proofs.Oracle
/-
Arguments made non-interactive: the prover sends messages, every challenge is the hash of everything so far.
-/
namespace Qesa.Spec

/-- A public-coin argument: in state `s` the prover sends `m`, which appends `ext s m` to the transcript, and
the challenge leads to the next state. `good s`: an unbounded prover may hope to be accepted from `s`. -/
structure Machine (F E : Type) where
  S : Type
  M : S → Type
  ext : (s : S) → M s → List E
  next : (s : S) → M s → F → S
  good : S → Prop

namespace Machine
variable {F E : Type} [Field F] (er : E → Event) (Mc : Machine F E)

/-- The challenge after `m`. -/
def chal (ro : Hash) (log : List E) {s : Mc.S} (m : Mc.M s) : F :=
  squeeze F ro ((log ++ Mc.ext s m).map er)

/-- The challenge squeezed out of `l` leads from a bad state to a good one. -/
inductive Flips (ro : Hash) : Mc.S → List E → List E → Prop
  | here {s : Mc.S} {log : List E} (m : Mc.M s) : ¬ Mc.good s →
      Mc.good (Mc.next s m (Mc.chal er ro log m)) → Flips ro s log (log ++ Mc.ext s m)
  | later {s : Mc.S} {log l : List E} (m : Mc.M s) :
      Flips ro (Mc.next s m (Mc.chal er ro log m)) (log ++ Mc.ext s m) l → Flips ro s log l

/-- A conversation from `s` to another state, with the histories out of which the challenges are squeezed. -/
inductive Path (ro : Hash) : Mc.S → List E → List (List E) → Mc.S → Prop
  | nil {s : Mc.S} {log : List E} : Path ro s log [] s
  | cons {s s' : Mc.S} {log : List E} {ls : List (List E)} (m : Mc.M s) :
      Path ro (Mc.next s m (Mc.chal er ro log m)) (log ++ Mc.ext s m) ls s' →
      Path ro s log ((log ++ Mc.ext s m) :: ls) s'

theorem Path.flips {ro : Hash} {s s' : Mc.S} {log : List E} {ls : List (List E)}
    (h : Mc.Path er ro s log ls s') (hs : ¬ Mc.good s) (hs' : Mc.good s') :
    ∃ l ∈ ls, Mc.Flips er ro s log l := by
  induction h with
  | nil => exact absurd hs' hs
  | @cons s s' log ls m _ ih =>
    by_cases hg : Mc.good (Mc.next s m (Mc.chal er ro log m))
    · exact ⟨_, List.mem_cons_self, .here m hs hg⟩
    · obtain ⟨l, hl, hf⟩ := ih hg hs'
      exact ⟨l, List.mem_cons_of_mem _ hl, .later m hf⟩

/-- Messages can be read off the transcript, and from a bad state only few challenges help. -/
structure Sound (k : Nat) : Prop where
  ne : ∀ s m, Mc.ext s m ≠ []
  free : ∀ s m m' r r', Mc.ext s m ++ r = Mc.ext s m' ++ r' → m = m'
  few : ∀ s m, ¬ Mc.good s → ∃ B : Finset F, B.card ≤ k ∧ ∀ x, Mc.good (Mc.next s m x) → x ∈ B

variable {Mc}

theorem Flips.longer {ro : Hash} {s : Mc.S} {log l : List E} (h : Mc.Flips er ro s log l) :
    ∃ m r, l = log ++ Mc.ext s m ++ r := by
  induction h with
  | here m => exact ⟨m, [], by simp⟩
  | later m _ ih =>
    obtain ⟨m', r, rfl⟩ := ih
    exact ⟨m, Mc.ext _ m' ++ r, by simp⟩

open Classical in
theorem count_flips {k B : Nat} (hS : Mc.Sound k)
    (hB : ∀ c : F, Nat.card {v : Vector UInt8 64 // ((leNat v.toList : Nat) : F) = c} ≤ B) :
    ∀ (n : Nat) (ro : Hash) (s : Mc.S) (log l : List E), l.length ≤ log.length + n →
    (Finset.univ.filter fun v => Mc.Flips er (Function.update ro (l.map er) v) s log l).card ≤ k * B := by
  intro n
  induction n with
  | zero =>
    intro ro s log l hl
    have : (Finset.univ.filter fun v => Mc.Flips er (Function.update ro (l.map er) v) s log l) = ∅ := by
      rw [Finset.filter_eq_empty_iff]
      intro v _ hf
      obtain ⟨m, r, rfl⟩ := hf.longer
      have := List.length_pos_of_ne_nil (hS.ne s m)
      simp only [List.length_append] at hl
      omega
    rw [this]; simp
  | succ n ih =>
    intro ro s log l hl
    by_cases hm : ∃ m r, l = log ++ Mc.ext s m ++ r
    swap
    · have : (Finset.univ.filter fun v => Mc.Flips er (Function.update ro (l.map er) v) s log l) = ∅ := by
        rw [Finset.filter_eq_empty_iff]
        intro v _ hf
        exact hm hf.longer
      rw [this]; simp
    obtain ⟨m, r, rfl⟩ := hm
    have hm' : ∀ m' r', log ++ Mc.ext s m ++ r = log ++ Mc.ext s m' ++ r' → m' = m ∧ r' = r := by
      intro m' r' e
      rw [List.append_assoc, List.append_assoc, List.append_cancel_left_eq] at e
      have := hS.free s m m' r r' e
      subst this
      exact ⟨rfl, (List.append_cancel_left e).symm⟩
    have hpos := List.length_pos_of_ne_nil (hS.ne s m)
    by_cases hr : r = []
    · -- the challenge itself
      subst hr
      by_cases hg : Mc.good s
      · have : (Finset.univ.filter fun v => Mc.Flips er
            (Function.update ro ((log ++ Mc.ext s m ++ []).map er) v) s log (log ++ Mc.ext s m ++ [])) = ∅ := by
          rw [Finset.filter_eq_empty_iff]
          intro v _ hf
          generalize hl' : log ++ Mc.ext s m ++ [] = l' at hf
          cases hf with
          | here m' hn _ => exact hn hg
          | later m' hf =>
            obtain ⟨m'', r'', e⟩ := hf.longer
            have e := (hl'.trans e).trans (List.append_assoc ..)
            have := (hm' m' _ e).2
            have h2 := List.length_pos_of_ne_nil (hS.ne _ m'')
            simp only [List.append_eq_nil_iff] at this
            exact hS.ne _ _ this.1
        rw [this]; simp
      · obtain ⟨C, hC, hfew⟩ := hS.few s m hg
        have hsub : (Finset.univ.filter fun v => Mc.Flips er
            (Function.update ro ((log ++ Mc.ext s m ++ []).map er) v) s log (log ++ Mc.ext s m ++ [])) ⊆
            C.biUnion fun c => Finset.univ.filter fun v : Vector UInt8 64 =>
              ((leNat v.toList : Nat) : F) = c := by
          intro v hv
          simp only [Finset.mem_filter, Finset.mem_univ, true_and] at hv
          simp only [Finset.mem_biUnion, Finset.mem_filter, Finset.mem_univ, true_and]
          refine ⟨_, ?_, rfl⟩
          apply hfew
          generalize hl' : log ++ Mc.ext s m ++ [] = l' at hv
          cases hv with
          | here m' hn hg' =>
            have := (hm' m' [] (by simpa using hl')).1
            subst this
            simpa [chal, squeeze] using hg'
          | later m' hf =>
            obtain ⟨m'', r'', e⟩ := hf.longer
            have e := (hl'.trans e).trans (List.append_assoc ..)
            have := (hm' m' _ e).2
            simp only [List.append_eq_nil_iff] at this
            exact absurd this.1 (hS.ne _ _)
        refine (Finset.card_le_card hsub).trans (Finset.card_biUnion_le.trans ?_)
        refine (Finset.sum_le_card_nsmul _ _ B fun c _ => ?_).trans ?_
        · have := hB c
          rwa [Nat.card_eq_fintype_card, Fintype.card_subtype] at this
        · rw [smul_eq_mul]; exact Nat.mul_le_mul_right _ hC
    · -- a later challenge
      have hne : ((log ++ Mc.ext s m).map er) ≠ ((log ++ Mc.ext s m ++ r).map er) := by
        intro e
        have := congrArg List.length e
        simp only [List.length_map, List.length_append] at this
        exact hr (List.length_eq_zero_iff.1 (by omega))
      have hsub : (Finset.univ.filter fun v => Mc.Flips er
            (Function.update ro ((log ++ Mc.ext s m ++ r).map er) v) s log (log ++ Mc.ext s m ++ r)) ⊆
          (Finset.univ.filter fun v => Mc.Flips er
            (Function.update ro ((log ++ Mc.ext s m ++ r).map er) v)
            (Mc.next s m (Mc.chal er ro log m)) (log ++ Mc.ext s m) (log ++ Mc.ext s m ++ r)) := by
        intro v hv
        simp only [Finset.mem_filter, Finset.mem_univ, true_and] at hv ⊢
        generalize hl' : log ++ Mc.ext s m ++ r = l' at hv hne
        cases hv with
        | here m' hn hg' =>
          exact absurd (hm' m' [] (by simpa using hl')).2.symm hr
        | later m' hf =>
          obtain ⟨m'', r'', e⟩ := hf.longer
          have e := (hl'.trans e).trans (List.append_assoc ..)
          have := (hm' m' _ e).1
          subst this
          have hc : Mc.chal er (Function.update ro (l'.map er) v) log m' = Mc.chal er ro log m' := by
            unfold chal squeeze
            rw [Function.update_of_ne hne]
          rwa [hc] at hf
      refine (Finset.card_le_card hsub).trans (ih _ _ _ _ ?_)
      simp only [List.length_append] at hl ⊢
      omega

/-- The non-interactive argument in the random-oracle model: an algorithm that asks at most `T` queries,
including those of the verifier, rarely reaches a good state from a bad one. -/
theorem Sound.count {α : Type} {k B : Nat} (hS : Mc.Sound k)
    (hB : ∀ c : F, Nat.card {v : Vector UInt8 64 // ((leNat v.toList : Nat) : F) = c} ≤ B)
    (ro : Hash) (D : Finset (List Event)) (A : Algo E α) (T : Nat) (hT : A.AtMost T)
    (hD : ∀ f, ∀ l ∈ A.asked er (patch ro D f), l.map er ∈ D) (s : Mc.S) (log : List E)
    (hs : ¬ Mc.good s) (Win : Hash → Prop)
    (hWin : ∀ ro, Win ro →
      (∀ l ∈ A.asked er ro, ∀ l' ∈ A.asked er ro, l.map er = l'.map er → l = l') ∧
      ∃ ls s', Mc.Path er ro s log ls s' ∧ Mc.good s' ∧ ∀ l ∈ ls, l ∈ A.asked er ro) :
    countHashes ro D Win * 2 ^ 512 ≤ T * (k * B) * (2 ^ 512) ^ D.card := by
  classical
  refine le_trans (Nat.mul_le_mul_right _ ?_)
    (count_bad er ro D A T hT hD (fun ro l => Mc.Flips er ro s log l) (k * B) ?_)
  · unfold countHashes
    rw [Nat.card_eq_fintype_card, Nat.card_eq_fintype_card]
    apply Fintype.card_subtype_mono
    intro f hf
    obtain ⟨hc, ls, s', hp, hg, hl⟩ := hWin _ hf
    obtain ⟨l, h1, h2⟩ := hp.flips er Mc hs hg
    exact ⟨hc, l, hl l h1, h2⟩
  · intro ro l
    exact count_flips er hS hB l.length ro s log l (by omega)

end Machine
end Qesa.Spec
