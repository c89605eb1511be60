import Verif.Props.Explain
import Verif.Props.Extract
/-
C112: extraction from sessions. For each proof of a session there is a program that runs the prover a bounded number of times
on average and computes a witness or a relation between the generators, whenever the proof is accepted, but with a small
probability.
-/
namespace Qesa.Props
open Qesa Spec Ipa Lmpa
set_option linter.unusedSectionVars false
set_option exponentiation.threshold 600
variable {F G σ : Type} [Field F] [DecidableEq F] [AddCommGroup G] [Module F G] [DecidableEq G]

/-- A prover that forks sticks to its statement. -/
theorem forks_fix {scalar : Vector UInt8 64 → F} {acc : Hash → Prop} {key key' : Hash → Nat → Option (List Event)}
    {K : Nat → Nat} (st : Hash → σ) (s : σ)
    (hst : ∀ (ro ro' : Hash) (l : List Event) (i : Nat), key ro i = some l → key ro' i = some l → st ro' = st ro)
    (hkey : ∀ ro i, st ro = s → key' ro i = key ro i) : ∀ (d i : Nat) (ro : Hash), st ro = s →
    Forks scalar acc key K d i ro → Forks scalar (fun ro => acc ro ∧ st ro = s) key' K d i ro
  | 0, _, _, hs, h => ⟨h, hs⟩
  | d + 1, i, ro, hs, h => by
    refine ⟨forks_fix st s hst hkey d (i + 1) ro hs h.1, fun l hl => ?_⟩
    rw [hkey ro i hs] at hl
    obtain ⟨v, h1, h2⟩ := h.2 l hl
    refine ⟨v, h1, fun j => ?_⟩
    have e := (hst ro _ l i hl (h2 j).2).trans hs
    exact ⟨forks_fix st s hst hkey d (i + 1) _ e (h2 j).1, by rw [hkey _ _ e]; exact (h2 j).2⟩

/-- The extractor for one of the proofs of a prover `A`. `W` computes the statement and the proof out of what the prover
outputs, with queries of its own. -/
theorem adaptive_extractor {α π : Type} {w k B d N r : Nat} {loss : ℚ} (W : α → Algo Event (σ × π))
    (hW : ∀ a, (W a).AtMost w) (V : σ × π → Algo Event Unit) (hV : ∀ y, (V y).AtMost k) (ok : Hash → α → Prop)
    (acc : Hash → σ → π → Prop) (keyOf : Hash → σ → π → Nat → Option (List Event))
    (hask : ∀ ro y p i l, acc ro y p → keyOf ro y p i = some l → l ∈ (V (y, p)).asked id ro)
    (hst : ∀ ro ro' y y' p p' i l, keyOf ro y p i = some l → keyOf ro' y' p' i = some l → y' = y)
    (K : Nat → Nat) (hK : ∀ i, 1 ≤ K i)
    (hB : ∀ c : F, Nat.card {v : Vector UInt8 64 // ((leNat v.toList : Nat) : F) = c} ≤ B)
    (hN : ∏ j ∈ Finset.range d, K j = N)
    (he : ∑ j ∈ Finset.range d, ((K j - 1 : ℚ) / (r + 1) + (K j * (K j - 1) / 2 : ℚ) * ((B : ℚ) / 2 ^ 512)) = loss)
    (good : Hash → (Hash → σ × π) → (Hash → Prop) → Prop)
    (hgood : ∀ ro (y : Hash → σ × π) (S : Hash → Prop), Forks (scalarOf F)
      (fun ro' => S ro' ∧ acc ro' (y ro).1 (y ro').2 ∧ (y ro').1 = (y ro).1)
      (fun ro' i => keyOf ro' (y ro).1 (y ro').2 i) K d 0 ro → good ro y S) :
    ∃ E : Hash → Rewinder α (Option (List (Hash × α))), ∀ (T : Nat) (A : Algo Event α), A.AtMost T →
    ∃ D0 : Finset (List Event), ∀ D, D0 ⊆ D → ∀ ro,
      let P := fun ro => A.run id ro
      let y := fun ro => (W (P ro)).run id ro
      mean ro D (fun ro => (E ro).runs P) ≤ 1 + (T + (w + k) : Nat) * ((N : ℚ) - 1) ∧
      chance ro D (fun ro => ok ro (P ro) ∧ acc ro (y ro).1 (y ro).2) ≤
        mean ro D (fun ro => (E ro).chance P fun o => ∃ runs, o = some runs ∧ runs.length ≤ N ∧
          (ok ro (P ro) ∧ (ro, P ro) ∈ runs) ∧ good ro y fun ro' => (ro', P ro') ∈ runs) + (T + (w + k) : Nat) * loss := by
  classical
  refine ⟨Rewinder.rewind (scalarOf F)
    (fun ro a => decide (ok ro a ∧ acc ro ((W a).run id ro).1 ((W a).run id ro).2))
    (fun ro a => keyOf ro ((W a).run id ro).1 ((W a).run id ro).2) K r d, fun T A hT => ?_⟩
  obtain ⟨D0, h0⟩ := domain_andThen A fun a => (W a).andThen V
  refine ⟨D0, fun D hD ro => ?_⟩
  intro P y
  refine extractor_by hT (fun a => (W a).andThen V) (fun a => Algo.andThen_atMost V k hV _ w (hW a)) ?_ hK
    (fun ro l hl => hD (h0 ro l hl)) hB hN he (fun ro => decide_eq_true_iff) ?_
  · intro ro i l h hl
    rw [decide_eq_true_iff] at h
    rw [Algo.asked_andThen]
    exact List.mem_append_right _ (List.mem_append_right _ (hask ro _ _ i l h.2 hl))
  · intro ro runs h
    refine ⟨⟨h.acc.1.1, h.acc.2⟩, hgood ro y _ ?_⟩
    refine (forks_fix (fun ro => (y ro).1) (y ro).1 (fun ro ro' l i h h' => hst _ _ _ _ _ _ i l h h')
      (key' := fun ro' i => keyOf ro' (y ro).1 (y ro').2 i) (fun ro' i e => by rw [← e]) d 0 ro rfl h).mono ?_
    rintro ro' ⟨⟨⟨-, h1⟩, h2⟩, h3⟩
    refine ⟨h2, ?_, h3⟩
    rw [← h3]
    exact h1

/-- There is an extractor as in C112 for a proof that `W` computes out of the output of the prover. -/
def Extractable {α : Type} (cd : Codec G) (fuel : Nat) (gens : Generators G) (B r w : Nat) (s : Slot)
    (st : σ → s.Statement F G) (enc : σ → List Event) (W : α → Algo Event (σ × s.Proof F G)) (ok : Hash → α → Prop) : Prop :=
  ∃ E : Hash → Rewinder α (Option (List (Hash × α))), ∀ (T : Nat) (A : Algo Event α), A.AtMost T →
    ∃ D0 : Finset (List Event), ∀ D, D0 ⊆ D → ∀ ro,
      let P := fun ro => A.run id ro
      let y := fun ro => (W (P ro)).run id ro
      mean ro D (fun ro => (E ro).runs P) ≤ 1 + (T + (w + s.challenges) : Nat) * ((s.treeSize : ℚ) - 1) ∧
      chance ro D (fun ro => ok ro (P ro) ∧ (∃ tr', s.verify ⟨cd, ro⟩ fuel gens ⟨enc (y ro).1⟩ (st (y ro).1) (y ro).2 =
          .ok (true, tr')) ∧ s.Nonzero cd ro (enc (y ro).1) (st (y ro).1) (y ro).2) ≤
        mean ro D (fun ro => (E ro).chance P fun o => ∃ runs, o = some runs ∧ runs.length ≤ s.treeSize ∧
          (ok ro (P ro) ∧ (ro, P ro) ∈ runs) ∧ s.ExplainedBy cd fuel gens (fun ro' => (ro', P ro') ∈ runs) (enc (y ro).1)
            (fun ro' => (st (y ro').1, (y ro').2)) ro) + (T + (w + s.challenges) : Nat) * s.loss B r

section
variable {α : Type} {B r w fuel : Nat} (cd : Codec G) (gens : Generators G) (enc : σ → List Event)
  (henc : ∀ s s' r r', enc s ++ r = enc s' ++ r' → s = s')
  (hB : ∀ c : F, Nat.card {v : Vector UInt8 64 // ((leNat v.toList : Nat) : F) = c} ≤ B) (ok : Hash → α → Prop)
include henc hB

omit henc hB in
theorem ipaHistories_prefix {log : List Event} {n i : Nat} {p : NoZK F} {l : List Event}
    (h : (ipaHistories log n p)[i]? = some l) : ∃ t, l = log ++ t := by
  rw [ipaHistories_getElem, ipaKey] at h
  split at h
  · rw [Option.some.injEq] at h
    exact ⟨_, by rw [← h, List.append_assoc]⟩
  · cases h

omit henc hB in
theorem almHistories_prefix {ro : Hash} {log : List Event} {n i : Nat} {Q C : G} {t : F} {p : AlmZK F} {l : List Event}
    (h : (almHistories cd ro log n Q C t p)[i]? = some l) : ∃ t, l = log ++ t := by
  unfold almHistories at h
  cases i with
  | zero =>
    rw [List.getElem?_cons_zero, Option.some.injEq] at h
    exact ⟨_, h.symm⟩
  | succ i =>
    rw [List.getElem?_cons_succ, ipaHistories_getElem, ipaKey] at h
    split at h
    · rw [Option.some.injEq, almLog, List.append_assoc, List.append_assoc] at h
      exact ⟨_, h.symm⟩
    · cases h

theorem ipa_extractable {k : Nat} (hs : (Slot.ipa k).Fits fuel gens) (st : σ → G × F)
    (W : α → Algo Event (σ × NoZK F)) (hW : ∀ a, (W a).AtMost w) :
    Extractable (F := F) cd fuel gens B r w (.ipa k) st enc W ok := by
  refine adaptive_extractor (F := F) (d := k + 1) (r := r) W hW
    (fun y => Algo.askAll () ((ipaHistories (enc y.1) (2 ^ k) y.2).take (k + 1)))
    (fun p => Algo'.askAll_atMost _ _ _ (List.length_take_le _ _)) ok
    (fun ro y p => (∃ tr', p.verify ⟨cd, ro⟩ ⟨enc y⟩ (gens.G k) (gens.H k) gens.Q (2 ^ k) (st y).1 (st y).2 =
      .ok (true, tr')) ∧ True)
    (fun ro y p i => (ipaHistories (enc y) (2 ^ k) p)[i]?) ?_ ?_ (fun _ => 4) (fun _ => by norm_num) hB (by simp [Slot.treeSize]) ?_
    (fun ro y S => (Slot.ipa k).ExplainedBy cd fuel gens S (enc (y ro).1) (fun ro' => (st (y ro').1, (y ro').2)) ro) ?_
  · rintro ro y p i l ⟨⟨tr', h⟩, -⟩ hl
    rw [Algo'.askAll_asked]
    have hv := (C22_ipa_verify_returns_iff _ _ _ _ _ _ _ _ _).1 ⟨_, h⟩
    have hq : p.L_vec.length = k := (Nat.pow_right_injective le_rfl hv.2.2.2.1).symm
    rw [List.take_of_length_le (by simp [ipaHistories]; omega)]
    exact List.mem_of_getElem? hl
  · intro ro ro' y y' p p' i l h h'
    obtain ⟨t, e⟩ := ipaHistories_prefix h
    obtain ⟨t', e'⟩ := ipaHistories_prefix h'
    exact henc _ _ _ _ (e'.symm.trans e)
  · rw [error_const]
    simp only [Slot.loss]
    push_cast
    ring
  · intro ro y S h
    obtain ⟨α, T, h1, h2⟩ := ipa_extraction cd (gens.G k) (gens.H k) hs.1 hs.2 gens.Q (st (y ro).1).1 (st (y ro).1).2
      (enc (y ro).1) (fun _ => le_rfl) (fun ro' => (y ro').2) _ (fun _ h => h.2.1.1) ro h
    refine ⟨α, T, fun i c hc => ?_, h2⟩
    obtain ⟨ro', e1, e2, e3⟩ := h1 i c hc
    exact ⟨ro', ⟨e2.1, e1, congrArg st e2.2.2, e2.2.1.1⟩, e3⟩

theorem alm_extractable {k : Nat} (hs : (Slot.alm k).Fits fuel gens) (st : σ → G × F)
    (W : α → Algo Event (σ × AlmZK F)) (hW : ∀ a, (W a).AtMost w) :
    Extractable (F := F) cd fuel gens B r w (.alm k) st enc W ok := by
  refine adaptive_extractor (F := F) (d := k + 2) (r := r) W hW
    (fun y => almVerifierQueries cd (enc y.1) (2 ^ k) (k + 1) gens.Q (st y.1).1 (st y.1).2 y.2)
    (fun y => almVerifierQueries_atMost cd _ _ _ gens.Q _ _ _) ok
    (fun ro y p => (∃ tr', p.verify ⟨cd, ro⟩ ⟨enc y⟩ (gens.G k) (gens.H k) gens.Q (2 ^ k) (st y).1 (st y).2 =
      .ok (true, tr')) ∧ True)
    (fun ro y p i => (almHistories cd ro (enc y) (2 ^ k) gens.Q (st y).1 (st y).2 p)[i]?) ?_ ?_ (fun _ => 4)
    (fun _ => by norm_num) hB (by simp [Slot.treeSize]) ?_
    (fun ro y S => (Slot.alm k).ExplainedBy cd fuel gens S (enc (y ro).1) (fun ro' => (st (y ro').1, (y ro').2)) ro) ?_
  · rintro ro y p i l ⟨⟨tr', h⟩, -⟩ hl
    rw [almVerifierQueries_asked]
    have hq := alm_rounds h
    rw [List.take_of_length_le (by simp [almHistories, ipaHistories]; omega)]
    exact List.mem_of_getElem? hl
  · intro ro ro' y y' p p' i l h h'
    obtain ⟨t, e⟩ := almHistories_prefix cd h
    obtain ⟨t', e'⟩ := almHistories_prefix cd h'
    exact henc _ _ _ _ (e'.symm.trans e)
  · rw [error_const]
    simp only [Slot.loss]
    push_cast
    ring
  · intro ro y S h
    obtain ⟨β, α, T, h1, h2⟩ := alm_extraction cd (gens.G k) (gens.H k) hs.1 hs.2 gens.Q (st (y ro).1).1 (st (y ro).1).2
      (enc (y ro).1) (fun _ => le_rfl) (fun ro' => (y ro').2) _ (fun _ h => h.2.1.1) ro h
    refine ⟨β, α, T, fun i j c hc => ?_, h2⟩
    obtain ⟨ro', e1, e2, e3⟩ := h1 i j c hc
    exact ⟨ro', ⟨e2.1, e1, congrArg st e2.2.2, e2.2.1.1⟩, e3⟩

theorem qesa_extractable {m e k : Nat} (hs : (Slot.qesa m e k).Fits fuel gens)
    (st : σ → Fin (k + 1) → Matrix (Fin (m + 1)) (Fin (m + 1)) F)
    (W : α → Algo Event (σ × Zk.Proof F)) (hW : ∀ a, (W a).AtMost w) :
    Extractable (F := F) cd fuel gens B r w (.qesa m e k) st enc W ok := by
  obtain ⟨hq, hG, hH⟩ := hs
  refine adaptive_extractor (F := F) (d := e + 4) (r := r) W hW
    (fun y => qesaVerifierQueries cd (enc y.1) (gens.G e) (gens.H e) gens.Q (st y.1) (e + 1) y.2.inner)
    (fun y => qesaVerifierQueries_atMost cd _ _ _ gens.Q _ _ _) ok
    (fun ro y p => (∃ tr', p.verify ⟨cd, ro⟩ ⟨enc y⟩ (gens.G e) (gens.H e) gens.Q ⟨List.ofFn fun i => rows (st y i)⟩ =
      .ok (true, tr')) ∧ qesaX F ro (enc y) p.inner.c_prime_w ≠ 0)
    (fun ro y p i => (qesaHistories cd ro (enc y) (gens.G e) (gens.H e) gens.Q (st y) p.inner)[i + 1]?) ?_ ?_
    (firstMore (max (m + 2) 4)) (fun i => by unfold firstMore; split <;> omega) hB (firstMore_prod _ (e + 3))
    (firstMore_error _ (e + 3) r _)
    (fun ro y S => (Slot.qesa m e k).ExplainedBy cd fuel gens S (enc (y ro).1) (fun ro' => (st (y ro').1, (y ro').2)) ro) ?_
  · rintro ro y p i l ⟨⟨tr', h⟩, -⟩ hl
    rw [qesaVerifierQueries_asked]
    have hr := qesa_rounds (m := m + 1) hq hG hH (show p.inner.verify _ _ _ _ _ _ = _ from h)
    rw [List.take_of_length_le (by simp [qesaHistories, almHistories, ipaHistories]; omega)]
    exact List.mem_of_getElem? hl
  · intro ro ro' y y' p p' i l h h'
    obtain ⟨t, e, -⟩ := qesaHistories_shape h
    obtain ⟨t', e', -⟩ := qesaHistories_shape h'
    exact henc _ _ _ _ (e'.symm.trans e)
  · intro ro y S h _
    have h' := forks_shift (K := fun i => firstMore (max (m + 2) 4) (i - 1))
      (key := fun ro' i => (qesaHistories cd ro' (enc (y ro).1) (gens.G e) (gens.H e) gens.Q (st (y ro).1)
        (y ro').2.inner)[i]?) 1 (e + 4) 0 ro (by exact h)
    obtain ⟨C', C'', s, b, β, α, T, h1, h2, h3, h4⟩ := qesa_extraction (m := m + 1) hq cd (gens.G e) (gens.H e) hG hH
      gens.Q (st (y ro).1) (enc (y ro).1) (K := fun i => firstMore (max (m + 2) 4) (i - 1))
      (fun i => by simp only [firstMore]; split <;> omega) (le_max_left _ _)
      (fun ro' => (y ro').2) _ (fun _ h => h.2.1.1) ro h' h.acc.2.1.2
    refine ⟨C', C'', s, b, β, α, T, h1, h2, fun i j l a c hc => ?_, h4⟩
    obtain ⟨ro', e1, e2, e3⟩ := h3 i j l a c hc
    exact ⟨ro', ⟨e2.1, e1, congrArg st e2.2.2, e2.2.1.1⟩, e3⟩

omit henc hB in
theorem copy_explained {m e N : Nat} (hs : (Slot.copy m e N).Fits fuel gens) (st : σ → CopyClaim F G m N)
    (ro : Hash) (y : Hash → σ × Copy.Proof F) (S : Hash → Prop) (h : Forks (scalarOf F)
      (fun ro' => S ro' ∧ ((∃ tr', (y ro').2.verify ⟨cd, ro'⟩ ⟨enc (y ro).1⟩ (gens.G e) (gens.H e) gens.Q
        ⟨(st (y ro).1).Us.map rows⟩ (st (y ro).1).map (st (y ro).1).Cs = .ok (true, tr')) ∧
        qesaX F ro' (enc (y ro).1 ++ [.msg "c_w" (y ro').2.C_w, .chal "alpha" 64])
        (copyInner cd ro' (enc (y ro).1) (st (y ro).1).Cs (y ro').2).c_prime_w ≠ 0) ∧ (y ro').1 = (y ro).1)
      (fun ro' i => (copyHistories cd ro' (enc (y ro).1) (gens.G e) (gens.H e) gens.Q (st (y ro).1).Us (st (y ro).1).map
        (st (y ro).1).Cs (y ro').2)[i + 2]?) (firstMore (max (m + 2) 4)) (e + 4) 0 ro) :
    (Slot.copy m e N).ExplainedBy cd fuel gens S (enc (y ro).1) (fun ro' => (st (y ro').1, (y ro').2)) ro := by
  obtain ⟨hq, hG, hH, hn, hN⟩ := hs
  intro _
  have h' := forks_shift (K := fun i => firstMore (max (m + 2) 4) (i - 2))
    (key := fun ro' i => (copyHistories cd ro' (enc (y ro).1) (gens.G e) (gens.H e) gens.Q (st (y ro).1).Us
      (st (y ro).1).map (st (y ro).1).Cs (y ro').2)[i]?) 2 (e + 4) 0 ro (by exact h)
  obtain ⟨C_w, C'', s, b, β, α, T, h1, h2, h0, h3, h4⟩ := copy_extraction hq cd (gens.G e) (gens.H e) hG hH
    gens.Q (st (y ro).1).Us (st (y ro).1).sets (st (y ro).1).map (st (y ro).1).Cs hn (st (y ro).1).size
    ((st (y ro).1).count.trans hN) (st (y ro).1).mapping (st (y ro).1).small (st (y ro).1).commitments
    (enc (y ro).1) (K := fun i => firstMore (max (m + 2) 4) (i - 2))
    (fun i => by simp only [firstMore]; split <;> omega) (le_max_left _ _)
    (fun ro' => (y ro').2) _ (fun _ h => h.2.1.1) ro h' h.acc.2.1.2
  refine ⟨C_w, C'', s, b, β, α, T, h1, h2, h0, fun i j l a c hc => ?_, h4⟩
  obtain ⟨ro', e1, e2, e3⟩ := h3 i j l a c hc
  exact ⟨ro', ⟨e2.1, e1, congrArg st e2.2.2, e2.2.1.1⟩, e3⟩

omit henc hB in
theorem copy_asked {m e N : Nat} (hs : (Slot.copy m e N).Fits fuel gens) (st : CopyClaim F G m N) (log : List Event)
    (ro : Hash) (p : Copy.Proof F) (i : Nat) (l : List Event) (tr' : Transcript)
    (h : p.verify ⟨cd, ro⟩ ⟨log⟩ (gens.G e) (gens.H e) gens.Q ⟨st.Us.map rows⟩ st.map st.Cs = .ok (true, tr'))
    (hl : (copyHistories cd ro log (gens.G e) (gens.H e) gens.Q st.Us st.map st.Cs p)[i]? = some l) :
    l ∈ (copyVerifierQueries cd log (gens.G e) (gens.H e) gens.Q st.Us st.map st.Cs (e + 1) p).asked id ro := by
  obtain ⟨hq, hG, hH, hn, hN⟩ := hs
  rw [copyVerifierQueries_asked]
  obtain ⟨-, k, -, hk, h⟩ := copy_accepted hG hn (CopyClaim.size _) ((CopyClaim.count _).trans hN)
    (CopyClaim.mapping _) (CopyClaim.small _) (CopyClaim.commitments _) h
  rw [hk] at h
  have hr := qesa_rounds hq hG hH h
  simp only [copyInner] at hr
  rw [List.take_of_length_le (by
    simp [copyHistories, copyInner, qesaHistories, almHistories, ipaHistories]; omega)]
  exact List.mem_of_getElem? hl

theorem copy_extractable {m e N : Nat} (hs : (Slot.copy m e N).Fits fuel gens) (st : σ → CopyClaim F G m N)
    (W : α → Algo Event (σ × Copy.Proof F)) (hW : ∀ a, (W a).AtMost w) :
    Extractable (F := F) cd fuel gens B r w (.copy m e N) st enc W ok := by
  obtain ⟨hq, hG, hH, hn, hN⟩ := hs
  have := adaptive_extractor (F := F) (d := e + 4) (r := r) W hW
    (fun y => copyVerifierQueries cd (enc y.1) (gens.G e) (gens.H e) gens.Q (st y.1).Us (st y.1).map (st y.1).Cs (e + 1) y.2)
    (fun y => copyVerifierQueries_atMost cd _ _ _ gens.Q _ _ _ _ _) ok
    (fun ro y p => (∃ tr', p.verify ⟨cd, ro⟩ ⟨enc y⟩ (gens.G e) (gens.H e) gens.Q ⟨(st y).Us.map rows⟩ (st y).map (st y).Cs =
      .ok (true, tr')) ∧ qesaX F ro (enc y ++ [.msg "c_w" p.C_w, .chal "alpha" 64])
        (copyInner cd ro (enc y) (st y).Cs p).c_prime_w ≠ 0)
    (fun ro y p i => (copyHistories cd ro (enc y) (gens.G e) (gens.H e) gens.Q (st y).Us (st y).map (st y).Cs p)[i + 2]?)
    (by
      rintro ro y p i l ⟨⟨tr', h⟩, -⟩ hl
      exact copy_asked (fuel := fuel) cd gens ⟨hq, hG, hH, hn, hN⟩ (st y) (enc y) ro p _ l tr' h hl)
    (by
      intro ro ro' y y' p p' i l h h'
      obtain ⟨t, e1, -⟩ := copyHistories_prefix h
      obtain ⟨t', e2, -⟩ := copyHistories_prefix h'
      exact henc _ _ _ _ (e2.symm.trans e1)) (firstMore (max (m + 2) 4)) (fun i => by unfold firstMore; split <;> omega) hB (firstMore_prod _ (e + 3))
    (firstMore_error _ (e + 3) r _)
    (fun ro y S => (Slot.copy m e N).ExplainedBy cd fuel gens S (enc (y ro).1) (fun ro' => (st (y ro').1, (y ro').2)) ro)
    (fun ro y S h => copy_explained cd gens enc ⟨hq, hG, hH, hn, hN⟩ st ro y S h)
  obtain ⟨E, hE⟩ := this
  refine ⟨E, fun T A hT => ?_⟩
  obtain ⟨D0, h⟩ := hE T A hT
  refine ⟨D0, fun D hD ro => ?_⟩
  obtain ⟨h1, h2⟩ := h D hD ro
  refine ⟨?_, ?_⟩
  · exact h1
  · refine (chance_mono fun ro h => ?_).trans (h2.trans ?_)
    · refine ⟨h.1, h.2.1, ?_⟩
      exact h.2.2
    · exact le_refl _

theorem lmpa_extractable {q : Nat} (st : σ → LinearClaim G q)
    (W : α → Algo Event (σ × Lmpa.NoZK F G)) (hW : ∀ a, (W a).AtMost w) :
    Extractable (F := F) cd fuel gens B r w (.lmpa q) st enc W ok := by
  refine adaptive_extractor (F := F) (d := q) (r := r) W hW
    (fun y => Algo.askAll () (lmpaQueries (plainPen cd.compress) (enc y.1) (y.2.L_Vec.take q) (y.2.R_Vec.take q)))
    (fun p => Algo'.askAll_atMost _ _ _ ((lmpaQueries_length ..).trans (List.length_take_le _ _))) ok
    (fun ro y p => (∃ tr', p.verify ⟨cd, ro⟩ fuel ⟨enc y⟩ ((st y).row :: (st y).rows) (gens.G q) (2 ^ q)
      ((st y).t :: (st y).ts) = .ok (true, tr')) ∧ True)
    (fun ro y p i => (lmpaQueries (plainPen cd.compress) (enc y) (p.L_Vec.take q) (p.R_Vec.take q))[i]?) ?_ ?_ (fun _ => 3)
    (fun _ => by norm_num) hB (by simp [Slot.treeSize]) ?_
    (fun ro y S => (Slot.lmpa q).ExplainedBy cd fuel gens S (enc (y ro).1) (fun ro' => (st (y ro').1, (y ro').2)) ro) ?_
  · intro ro y p i l _ hl
    rw [Algo'.askAll_asked]
    exact List.mem_of_getElem? hl
  · intro ro ro' y y' p p' i l h h'
    have hi := (List.getElem?_eq_some_iff.1 h).1
    have hi' := (List.getElem?_eq_some_iff.1 h').1
    rw [queries_length] at hi hi'
    rw [queries_getElem _ _ _ _ _ (by omega) (by omega), Option.some.injEq] at h h'
    exact henc _ _ _ _ (h'.trans h.symm)
  · rw [error_const]
    simp only [Slot.loss]
    push_cast
    ring
  · intro ro y S h
    obtain ⟨T, h1, h2⟩ := lmpa_extraction (fuel := fuel) cd (st (y ro).1).row (st (y ro).1).rows (gens.G q) (st (y ro).1).t
      (st (y ro).1).ts (st (y ro).1).width (enc (y ro).1) (fun _ => le_rfl) (fun ro' => (y ro').2) _ (fun _ h => h.2.1.1) ro h
    refine ⟨T, fun c hc => ?_, h2⟩
    obtain ⟨ro', e1, e2, e3⟩ := h1 c hc
    exact ⟨ro', ⟨e2.1, e1, congrArg st e2.2.2, e2.2.1.1⟩, e3⟩

theorem simple_extractable {q : Nat} (st : σ → LinearClaim G q)
    (W : α → Algo Event (σ × SimpleZK F G)) (hW : ∀ a, (W a).AtMost w) :
    Extractable (F := F) cd fuel gens B r w (.simple q) st enc W ok := by
  refine adaptive_extractor (F := F) (d := q + 1) (r := r) W hW
    (fun y => Algo.askAll () (simpleKeys cd (enc y.1) q y.2))
    (fun p => Algo'.askAll_atMost _ _ _ ?_) ok
    (fun ro y p => (∃ tr', p.verify ⟨cd, ro⟩ fuel ⟨enc y⟩ ((st y).row :: (st y).rows) (gens.G q) (2 ^ q)
      ((st y).t :: (st y).ts) = .ok (true, tr')) ∧ True)
    (fun ro y p i => (simpleKeys cd (enc y) q p)[i]?) ?_ ?_ (fun _ => 3)
    (fun _ => by norm_num) hB (by simp [Slot.treeSize]) ?_
    (fun ro y S => (Slot.simple q).ExplainedBy cd fuel gens S (enc (y ro).1) (fun ro' => (st (y ro').1, (y ro').2)) ro) ?_
  · rw [simpleKeys, simpleQueries, List.length_cons]
    exact Nat.succ_le_succ ((lmpaQueries_length ..).trans (List.length_take_le _ _))
  · intro ro y p i l _ hl
    rw [Algo'.askAll_asked]
    exact List.mem_of_getElem? hl
  · intro ro ro' y y' p p' i l h h'
    unfold simpleKeys simpleQueries at h h'
    cases i with
    | zero =>
      rw [List.getElem?_cons_zero, Option.some.injEq] at h h'
      exact henc _ _ _ _ (h'.trans h.symm)
    | succ i =>
      rw [List.getElem?_cons_succ] at h h'
      have hi := (List.getElem?_eq_some_iff.1 h).1
      have hi' := (List.getElem?_eq_some_iff.1 h').1
      rw [queries_length] at hi hi'
      rw [queries_getElem _ _ _ _ _ (by omega) (by omega), Option.some.injEq, List.append_assoc] at h h'
      exact henc _ _ _ _ (h'.trans h.symm)
  · rw [error_const]
    simp only [Slot.loss]
    push_cast
    ring
  · intro ro y S h
    obtain ⟨β, T, h1, h2⟩ := simple_extraction (fuel := fuel) cd (st (y ro).1).row (st (y ro).1).rows (gens.G q)
      (st (y ro).1).t (st (y ro).1).ts (st (y ro).1).width (enc (y ro).1) (fun _ => le_rfl) (fun ro' => (y ro').2) _
      (fun _ h => h.2.1.1) ro h
    refine ⟨β, T, fun i c hc => ?_, h2⟩
    obtain ⟨ro', e1, e2, e3⟩ := h1 i c hc
    exact ⟨ro', ⟨e2.1, e1, congrArg st e2.2.2, e2.2.1.1⟩, e3⟩

/-- The extractor for all kinds of proofs. -/
theorem slot_extractable (s : Slot) (hs : s.Fits fuel gens) (st : σ → s.Statement F G)
    (W : α → Algo Event (σ × s.Proof F G)) (hW : ∀ a, (W a).AtMost w) :
    Extractable cd fuel gens B r w s st enc W ok := by
  cases s with
  | ipa k => exact ipa_extractable cd gens enc henc hB ok hs st W hW
  | alm k => exact alm_extractable cd gens enc henc hB ok hs st W hW
  | qesa m e k => exact qesa_extractable cd gens enc henc hB ok hs st W hW
  | copy m e N => exact copy_extractable cd gens enc henc hB ok hs st W hW
  | lmpa q => exact lmpa_extractable cd gens enc henc hB ok st W hW
  | simple q => exact simple_extractable cd gens enc henc hB ok st W hW
end

/-! ### Sessions -/

/-- What a prover outputs for the proofs from here on, and the history so far, determine statement, history and proof number
`i` by the queries of the verifier for the proofs before it. -/
theorem reach_proof {fuel : Nat} (cd : Codec G) (gens : Generators G) (enc : (s : Slot) → s.Statement F G → List Event) :
    ∀ (m : Nat) (slots : Fin m → Slot) (i : Fin m), (∀ i, (slots i).Fits fuel gens) →
    (∀ i, ∀ st st' r r', enc (slots i) st ++ r = enc (slots i) st' ++ r' → st = st') →
    (∀ i st, chals (enc (slots i) st) = 0) →
    ∀ (Λ : Type) (start : Λ → List Event) (c : Nat), (∀ a a' r r', start a ++ r = start a' ++ r' → a = a') →
    (∀ a, chals (start a) = c) →
    ∃ (σ : Type) (st : σ → (slots i).Statement F G) (e : σ → List Event)
      (W : Λ × ((i : Fin m) → (slots i).Statement F G × (slots i).Proof F G) → Algo Event (σ × (slots i).Proof F G)),
      (∀ s s' r r', e s ++ r = e s' ++ r' → s = s') ∧ (∀ y, (W y).AtMost (challengesBefore m slots i)) ∧
      ∀ ro y, st ((W y).run id ro).1 = (y.2 i).1 ∧ ((W y).run id ro).2 = (y.2 i).2 ∧
        ∀ h, Reached cd fuel gens enc ro m slots i y.2 ⟨start y.1⟩ h → e ((W y).run id ro).1 = h
  | 0, _, i, _, _, _, _, _, _, _, _ => i.elim0
  | m + 1, slots, i, hp, henc, hch, Λ, start, c, hst, hc => by
    classical
    induction i using Fin.cases with
    | zero =>
      refine ⟨Λ × (slots 0).Statement F G, fun y => y.2, fun y => start y.1 ++ enc (slots 0) y.2,
        fun y => .done ((y.1, (y.2 0).1), (y.2 0).2), ?_, fun _ => trivial, fun ro y => ⟨rfl, rfl, fun h hr => ?_⟩⟩
      · rintro ⟨a, st⟩ ⟨a', st'⟩ r r' h
        simp only [List.append_assoc] at h
        obtain rfl := hst _ _ _ _ h
        rw [henc 0 st st' r r' (List.append_cancel_left h)]
      · rw [Reached] at hr
        exact hr.symm
    | succ i =>
      let d := (slots 0).challenges
      have hd : 0 < d := challenges_pos _ (hp 0)
      let Λ' := {l : List Event // chals l = c + d ∧ Ends l}
      let dflt : Λ' := ⟨List.replicate (c + d) (.chal "" 0), by
        have : ∀ n, chals (List.replicate n (.chal "" 0)) = n := by
          intro n
          induction n with
          | zero => rfl
          | succ n ih => rw [List.replicate_succ, ← List.singleton_append, chals_append, ih, Nat.add_comm]; rfl
        exact this _, ⟨List.replicate (c + d - 1) (.chal "" 0), "", 0, by
          rw [← List.replicate_succ', Nat.sub_add_cancel (by omega)]⟩⟩
      obtain ⟨σ, st, e, W, h1, h2, h3⟩ := reach_proof cd gens enc m (fun i => slots i.succ) i (fun i => hp i.succ)
        (fun i => henc i.succ) (fun i => hch i.succ) Λ' (fun l => l.1) (c + d)
        (fun a a' r r' h => Subtype.ext (a.2.2.cancel a'.2.2 (a.2.1.trans a'.2.1.symm) h)) (fun a => a.2.1)
      refine ⟨σ, st, e, fun y => (slotFollow cd gens (start y.1 ++ enc (slots 0) (y.2 0).1) (slots 0) (y.2 0).1
        (y.2 0).2).andThen fun l => W (if h : chals l = c + d ∧ Ends l then ⟨l, h⟩ else dflt, fun i => y.2 i.succ), h1,
        fun y => ?_, fun ro y => ?_⟩
      · exact Algo.andThen_atMost _ _ (fun l => h2 _) _ _ (slotFollow_atMost cd gens _ _ _ _)
      · rw [Algo.run_andThen]
        refine ⟨(h3 ro _).1, (h3 ro _).2.1, fun h hr => ?_⟩
        rw [Reached] at hr
        obtain ⟨b, tr', hv, hreg, hr⟩ := hr
        obtain ⟨e1, e2, e3⟩ := slot_follow cd gens (slots 0) (hp 0) ro _ _ _ b tr' hv hreg
        rw [chals_append, hc, hch 0, Nat.add_zero] at e2
        refine (h3 ro _).2.2 h ?_
        rw [e1, dif_pos ⟨e2, e3⟩]
        exact hr

/-- C112: extraction from sessions. The kinds of the proofs are fixed, the prover chooses the statements, and before each
proof the encoding of its statement is hashed. For each proof `i` of the session there is a program such that for every
prover with `T` queries, on average over the hash functions, the following holds. Let `q` be `T` and the number of challenges
of the proofs up to proof `i`. The program runs the prover no more than `1 + q (N - 1)` times, where `N` is the size of the
tree. If the verifier gets to proof `i` and accepts it, with `x ≠ 0` for QESA and Copy, then but with probability `q` times
the loss the program returns no more than `N` runs of the prover that explain the proof. -/
theorem C112_session_extractor {B fuel m : Nat} (cd : Codec G) (gens : Generators G)
    (enc : (s : Slot) → s.Statement F G → List Event)
    (hB : ∀ c : F, Nat.card {v : Vector UInt8 64 // ((leNat v.toList : Nat) : F) = c} ≤ B)
    (slots : Fin m → Slot) (hp : ∀ i, (slots i).Fits fuel gens)
    (henc : ∀ i, ∀ st st' r r', enc (slots i) st ++ r = enc (slots i) st' ++ r' → st = st')
    (hch : ∀ i st lab n, .chal lab n ∉ enc (slots i) st) (log : List Event) (i : Fin m) (r : Nat) :
    let X := (i : Fin m) → (slots i).Statement F G × (slots i).Proof F G
    ∃ E : Hash → Rewinder X (Option (List (Hash × X))), ∀ (T : Nat) (A : Algo Event X), A.AtMost T →
    ∃ D0 : Finset (List Event), ∀ D, D0 ⊆ D → ∀ ro,
      let P := fun ro => A.run id ro
      let q := T + (challengesBefore m slots i + (slots i).challenges)
      mean ro D (fun ro => (E ro).runs P) ≤ 1 + (q : Nat) * (((slots i).treeSize : ℚ) - 1) ∧
      chance ro D (fun ro => ∃ h, Reached cd fuel gens enc ro m slots i (P ro) ⟨log⟩ h ∧
          (∃ tr', (slots i).verify ⟨cd, ro⟩ fuel gens ⟨h⟩ (P ro i).1 (P ro i).2 = .ok (true, tr')) ∧
          (slots i).Nonzero cd ro h (P ro i).1 (P ro i).2) ≤
        mean ro D (fun ro => (E ro).chance P fun o => ∃ runs, o = some runs ∧ runs.length ≤ (slots i).treeSize ∧
          ∃ h, Reached cd fuel gens enc ro m slots i (P ro) ⟨log⟩ h ∧
            (slots i).ExplainedBy cd fuel gens (fun ro' => (ro', P ro') ∈ runs) h (fun ro' => P ro' i) ro) +
        (q : Nat) * (slots i).loss B r := by
  intro X
  have hch' : ∀ i st, chals (enc (slots i) st) = 0 := by
    intro i st
    refine List.countP_eq_zero.2 fun e he => ?_
    cases e with
    | msg => simp
    | chal lab n => exact absurd he (hch i st lab n)
  obtain ⟨σ, st, e, W, h1, h2, h3⟩ := reach_proof cd gens enc m slots i hp henc hch' Unit (fun _ => log) (chals log)
    (fun _ _ _ _ _ => rfl) (fun _ => rfl)
  obtain ⟨E, hE⟩ := slot_extractable (r := r) cd gens e h1 hB
    (fun ro (a : X) => ∃ h, Reached cd fuel gens enc ro m slots i a ⟨log⟩ h) (slots i) (hp i) st
    (fun a => W ((), a)) (fun a => h2 _)
  refine ⟨E, fun T A hT => ?_⟩
  obtain ⟨D0, h0⟩ := hE T A hT
  refine ⟨D0, fun D hD ro => ?_⟩
  intro P q
  obtain ⟨g1, g2⟩ := h0 D hD ro
  have hy : ∀ ro, (st ((W ((), P ro)).run id ro).1, ((W ((), P ro)).run id ro).2) = P ro i := fun ro =>
    Prod.ext (h3 ro ((), P ro)).1 (h3 ro ((), P ro)).2.1
  refine ⟨g1, (chance_mono fun ro h => ?_).trans (g2.trans (add_le_add (mean_mono _ _ fun ro =>
    Rewinder.expect_mono _ (fun o => ?_) _) (le_refl _)))⟩
  · obtain ⟨h, hr, hv, hn⟩ := h
    refine ⟨⟨h, hr⟩, ?_⟩
    have e1 := (h3 ro ((), P ro)).2.2 h hr
    have e2 := (h3 ro ((), P ro)).1
    have e3 := (h3 ro ((), P ro)).2.1
    simp only
    rw [e1, e2, e3]
    exact ⟨hv, hn⟩
  · by_cases h : ∃ runs, o = some runs ∧ runs.length ≤ (slots i).treeSize ∧
          ∃ h, Reached cd fuel gens enc ro m slots i (P ro) ⟨log⟩ h ∧
            (slots i).ExplainedBy cd fuel gens (fun ro' => (ro', P ro') ∈ runs) h (fun ro' => P ro' i) ro
    · rw [if_pos h]
      split_ifs <;> norm_num
    · rw [if_neg h, if_neg]
      rintro ⟨runs, r1, r2, ⟨⟨h', hr⟩, -⟩, r3⟩
      refine h ⟨runs, r1, r2, h', hr, ?_⟩
      have e1 := (h3 ro ((), P ro)).2.2 h' hr
      rw [← e1, show (fun ro' => P ro' i) = _ from (funext hy).symm]
      exact r3

/-! ### Examples -/
section
open Toy

/-- C112: a session of an inner-product argument, a proof of SimpleZK and a proof of QESA in a group of prime order. There is
a program for the second proof that runs every prover with two queries at most 57 times on average; it returns at most 9 runs
that explain the proof, with a probability that is at most 45 % smaller than that the verifier gets to the proof and accepts
it. (The field of the example has only 101 elements.) -/
example (cd : Codec K) (ro : Hash) (log : List Event) :
    let slots : Fin 3 → Slot := ![.ipa 2, .simple 1, .qesa 1 2 0]
    let X := (i : Fin 3) → (slots i).Statement K K × (slots i).Proof K K
    ∃ (enc : (s : Slot) → s.Statement K K → List Event) (E : Hash → Rewinder X (Option (List (Hash × X)))),
    ∀ (A : Algo Event X), A.AtMost 2 → ∃ D,
      let P := fun ro => A.run id ro
      mean ro D (fun ro => (E ro).runs P) ≤ 57 ∧
      chance ro D (fun ro => ∃ h, Reached cd 2 primeGens enc ro 3 slots 1 (P ro) ⟨log⟩ h ∧
          (∃ tr', (slots 1).verify ⟨cd, ro⟩ 2 primeGens ⟨h⟩ (P ro 1).1 (P ro 1).2 = .ok (true, tr')) ∧
          (slots 1).Nonzero cd ro h (P ro 1).1 (P ro 1).2) ≤
        mean ro D (fun ro => (E ro).chance P fun o => ∃ runs, o = some runs ∧ runs.length ≤ 9 ∧
          ∃ h, Reached cd 2 primeGens enc ro 3 slots 1 (P ro) ⟨log⟩ h ∧
            (slots 1).ExplainedBy cd 2 primeGens (fun ro' => (ro', P ro') ∈ runs) h (fun ro' => P ro' 1) ro) + 45 / 100 := by
  intro slots X
  obtain ⟨enc, he, hn⟩ := C111_encoding K K
  obtain ⟨E, hE⟩ := C112_session_extractor (fuel := 2) cd primeGens enc (C67_scalars 101) slots
    (fun i => by
      match i with
      | 0 => exact ⟨rfl, rfl⟩
      | 1 => exact ⟨rfl, by decide⟩
      | 2 => exact ⟨rfl, rfl, rfl⟩)
    (fun i => he _) (fun i => hn _) log 1 999
  refine ⟨enc, E, fun A hT => ?_⟩
  obtain ⟨D, h⟩ := hE 2 A hT
  obtain ⟨h1, h2⟩ := h D subset_rfl ro
  refine ⟨D, h1.trans ?_, h2.trans (add_le_add le_rfl ?_)⟩
  · show 1 + ((2 + ((3 + 0) + 2) : Nat) : ℚ) * ((3 ^ (1 + 1) : Nat) - 1) ≤ 57
    norm_num
  · show ((2 + ((3 + 0) + 2) : Nat) : ℚ) * (((1 : Nat) + 1) * (2 / ((999 : Nat) + 1) +
      3 * (((2 ^ 512 / 101 + 1 : Nat) : ℚ) / 2 ^ 512))) ≤ 45 / 100
    norm_num

/-- The statement that `31` is a value of the row `5, 7`. -/
def exLinClaim : LinearClaim K 1 := ⟨[5, 7], [], 31, [], by simp⟩

/-- The honest prover of the linear-map argument for this statement, twice in a session. -/
def exTwice (code : List Event) : Algo Event (Fin 2 → LinearClaim K 1 × Lmpa.NoZK K K) :=
  let round := (plainPen codec.compress).round [15] [14]
  .ask (code ++ round) fun v => .ask (code ++ round ++ code ++ round) fun v' => .done fun i =>
    (exLinClaim, ⟨[[15]], [[14]], (leNat (if i = 0 then v else v').toList : Nat) * 2 + 3⟩)

theorem exLinClaim_accepted (ro : Hash) (log : List Event) (x : K)
    (hx : x = ((leNat (ro (log ++ (plainPen codec.compress).round [15] [14])).toList : Nat) : K)) :
    Lmpa.NoZK.verify ⟨codec, ro⟩ 3 (⟨[[15]], [[14]], x * 2 + 3⟩ : Lmpa.NoZK K K) ⟨log⟩ [[5, 7]] [1, 2] (2 ^ 1) [(31 : K)] =
      .ok (true, ⟨log ++ (plainPen codec.compress).round [15] [14]⟩) := by
  have := verify_eq (⟨codec, ro⟩ : Ctx K) (⟨[[15]], [[14]], x * 2 + 3⟩ : Lmpa.NoZK K K) 1 3 ⟨log⟩ [[5, 7]] [1, 2] [31]
    (by omega) rfl (by simp [Width])
  simp only at this
  rw [if_pos (by simp)] at this
  refine this.trans ?_
  have hc : lmpaChallenges K (⟨codec, ro⟩ : Ctx K) log ([[15]].take 1) ([[14]].take 1) = [x] := by
    rw [← lmpaChallenges_queries]
    simp [lmpaQueries, squeeze, hx]
  simp only [hc]
  have h7 : foldedRow [x] ([5, 7] : List K) = 5 + x * 7 := by
    simp [foldedRow, weightG, Finset.sum_range_succ]
  have h8 : foldedTarget [x] (column ([[15]].take 1) 0) (column ([[14]].take 1) 0) (31 : K) = x * 31 + (15 + x * x * 14) := by
    simp [foldedTarget, column]
  have h9 : lmpaLog (⟨codec, ro⟩ : Ctx K) ([[15]].take 1) ([[14]].take 1) = (plainPen codec.compress).round [15] [14] := rfl
  simp only [List.headD_cons, h7, h8, h9, smul_eq_mul]
  rw [decide_eq_true (by ring)]

theorem exTwice_run (code : List Event) (ro : Hash) :
    let round := (plainPen codec.compress).round [15] [14]
    (exTwice code).run id ro 0 = (exLinClaim, ⟨[[15]], [[14]], (leNat (ro (code ++ round)).toList : Nat) * 2 + 3⟩) ∧
    (exTwice code).run id ro 1 =
      (exLinClaim, ⟨[[15]], [[14]], (leNat (ro (code ++ round ++ code ++ round)).toList : Nat) * 2 + 3⟩) := by
  simp [exTwice, Algo.run]

theorem exTwice_accepted (enc : (s : Slot) → s.Statement K K → List Event) (ro : Hash) :
    let x : (i : Fin 2) → (Slot.lmpa 1).Statement K K × (Slot.lmpa 1).Proof K K :=
      (exTwice (enc (.lmpa 1) exLinClaim)).run id ro
    ∃ h, Reached codec 3 primeGens enc ro 2 (fun _ => .lmpa 1) 1 x ⟨[]⟩ h ∧
      (∃ tr', (Slot.lmpa 1).verify ⟨codec, ro⟩ 3 primeGens ⟨h⟩ (x 1).1 (x 1).2 = .ok (true, tr')) ∧
      (Slot.lmpa 1).Nonzero codec ro h (x 1).1 (x 1).2 := by
  intro x
  have hg : primeGens.G 1 = [1, 2] := by decide
  obtain ⟨e0, e1⟩ := exTwice_run (enc (.lmpa 1) exLinClaim) ro
  refine ⟨enc (.lmpa 1) exLinClaim ++ (plainPen codec.compress).round [15] [14] ++ enc (.lmpa 1) exLinClaim,
    ⟨true, ⟨enc (.lmpa 1) exLinClaim ++ (plainPen codec.compress).round [15] [14]⟩, ?_, trivial, rfl⟩, ?_, trivial⟩
  · show Lmpa.NoZK.verify ⟨codec, ro⟩ 3 ((exTwice (enc (.lmpa 1) exLinClaim)).run id ro 0).2
      ⟨enc (.lmpa 1) exLinClaim⟩ [[5, 7]] (primeGens.G 1) (2 ^ 1) [31] = _
    rw [hg, e0]
    exact exLinClaim_accepted ro _ _ rfl
  · show ∃ tr', Lmpa.NoZK.verify ⟨codec, ro⟩ 3 ((exTwice (enc (.lmpa 1) exLinClaim)).run id ro 1).2
      ⟨_⟩ [[5, 7]] (primeGens.G 1) (2 ^ 1) [31] = .ok (true, tr')
    rw [hg, e1]
    exact ⟨_, exLinClaim_accepted ro _ _ rfl⟩

/-- C112: in the session with two honest proofs, the program for the second proof runs the prover at most 9 times on average
and delivers at most 3 runs that explain it, with a probability above 85 %. -/
example (ro : Hash) :
    let X := (i : Fin 2) → (Slot.lmpa 1).Statement K K × (Slot.lmpa 1).Proof K K
    ∃ (enc : (s : Slot) → s.Statement K K → List Event) (E : Hash → Rewinder X (Option (List (Hash × X)))) (D : _),
      let A := exTwice (enc (.lmpa 1) exLinClaim)
      mean ro D (fun ro => (E ro).runs (A.run id)) ≤ 9 ∧
      85 / 100 ≤ mean ro D (fun ro => (E ro).chance (A.run id) fun o => ∃ runs, o = some runs ∧ runs.length ≤ 3 ∧
          ∃ h, (Slot.lmpa 1).ExplainedBy codec 3 primeGens (fun ro' => (ro', A.run id ro') ∈ runs) h
            (fun ro' => A.run id ro' 1) ro) := by
  intro X
  obtain ⟨enc, he, hn⟩ := C111_encoding K K
  obtain ⟨E, hE⟩ := C112_session_extractor (fuel := 3) codec primeGens enc (C67_scalars 101) (fun _ : Fin 2 => .lmpa 1)
    (fun i => ⟨rfl, by decide⟩) (fun i => he _) (fun i => hn _) [] 1 999
  obtain ⟨D, h⟩ := hE 2 (exTwice (enc (.lmpa 1) exLinClaim)) (fun _ _ => trivial)
  obtain ⟨h1, h2⟩ := h D subset_rfl ro
  refine ⟨enc, E, D, h1.trans ?_, ?_⟩
  · show 1 + ((2 + ((1 + 0) + 1) : Nat) : ℚ) * ((3 ^ 1 : Nat) - 1) ≤ 9
    norm_num
  have h4 : ((2 + ((1 + 0) + 1) : Nat) : ℚ) * ((1 : Nat) * (2 / ((999 : Nat) + 1) +
      3 * (((2 ^ 512 / 101 + 1 : Nat) : ℚ) / 2 ^ 512))) ≤ 15 / 100 := by
    norm_num
  have h5 : (85 / 100 : ℚ) ≤ 1 - 15 / 100 := by norm_num
  have h6 := (chance_true ro D (exTwice_accepted enc)).symm.le.trans h2
  refine h5.trans ((sub_le_sub_left h4 1).trans ((sub_le_iff_le_add.2 h6).trans (mean_mono _ _ fun ro =>
    Rewinder.expect_mono _ (fun o => ?_) _)))
  split_ifs with c1 c2 c2
  · exact le_rfl
  · exfalso
    obtain ⟨runs, r1, r2, h, -, r3⟩ := c1
    exact c2 ⟨runs, r1, r2, h, r3⟩
  · norm_num
  · exact le_rfl
end
end Qesa.Props
