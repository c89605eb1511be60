import Verif.SpecExplain
import Verif.Props.Slots
import Verif.Props.Grinding
/-
C111: knowledge soundness of sessions. Whatever the group, the accepted proofs of a session are explained by witnesses or
relations that can be computed from further runs of the prover, but with a small probability.
-/
namespace Qesa.Props
open Qesa Spec Ipa Lmpa
set_option linter.unusedSectionVars false
variable {F G σ : Type} [Field F] [DecidableEq F] [AddCommGroup G] [Module F G] [DecidableEq G]

/-! ### One proof -/

/-- Knowledge soundness of Copy for provers that choose the equations, the commitments and the mapping. -/
theorem copy_known {T B c fuel m e N : Nat} (cd : Codec G) (gens : Generators G) (hs : (Slot.copy m e N).Fits fuel gens)
    (st : σ → CopyClaim F G m N) (enc : σ → List Event) (hinj : Function.Injective enc) (hc : ∀ s, chals (enc s) = c)
    (hB : ∀ c : F, Nat.card {v : Vector UInt8 64 // ((leNat v.toList : Nat) : F) = c} ≤ B)
    (A : Algo Event (σ × Copy.Proof F)) (hT : A.AtMost T) :
    ∃ D0 : Finset (List Event), ∀ D, D0 ⊆ D → ∀ ro, chance ro D (fun ro =>
      (∃ tr', (A.run id ro).2.verify ⟨cd, ro⟩ ⟨enc (A.run id ro).1⟩ (gens.G e) (gens.H e) gens.Q
        ⟨(st (A.run id ro).1).Us.map rows⟩ (st (A.run id ro).1).map (st (A.run id ro).1).Cs = .ok (true, tr')) ∧
      ¬ (Slot.copy m e N).Explained cd fuel gens (enc (A.run id ro).1)
        (fun ro' => (st (A.run id ro').1, (A.run id ro').2)) ro) ≤
    ((T + (e + 6)) * (max (m + 1) 3 * B) : Nat) / 2 ^ 512 := by
  obtain ⟨hq, hG, hH, hn, hN⟩ := hs
  obtain ⟨D0, h0⟩ := C96_copy_domain cd enc (gens.G e) (gens.H e) gens.Q (fun y => CopyClaim.Us (st y))
    (fun y => CopyClaim.map (st y)) (fun y => CopyClaim.Cs (st y)) A
  refine ⟨D0, fun D hD ro => ?_⟩
  set key : Hash → List (List Event) := fun ro => copyHistories cd ro (enc (A.run id ro).1) (gens.G e) (gens.H e) gens.Q
    (CopyClaim.Us (st (A.run id ro).1)) (CopyClaim.map (st (A.run id ro).1)) (CopyClaim.Cs (st (A.run id ro).1))
    (A.run id ro).2 with hkey
  set Acc : Hash → Prop := fun ro => ∃ tr', (A.run id ro).2.verify ⟨cd, ro⟩ ⟨enc (A.run id ro).1⟩
    (gens.G e) (gens.H e) gens.Q ⟨(st (A.run id ro).1).Us.map rows⟩ (st (A.run id ro).1).map (st (A.run id ro).1).Cs = .ok (true, tr') with hAcc
  refine (chance_mono fun ro h => ?_).trans (forking_by (M := max (m + 1) 3 * B + 1) (d := e + 6) chals A hT
    (fun p => copyVerifierQueries cd (enc p.1) (gens.G e) (gens.H e) gens.Q (CopyClaim.Us (st p.1))
      (CopyClaim.map (st p.1)) (CopyClaim.Cs (st p.1)) (e + 1) p.2)
    (fun p => copyVerifierQueries_atMost cd _ _ _ gens.Q _ _ _ _ p.2) Acc key (fun i => c + 1 + i)
    (fun i j h => by simp only at h; omega) ?_ ro D ?_)
  · obtain ⟨ha, hno⟩ := h
    refine ⟨ha, fun hb => hno fun hx => ?_⟩
    set s := (A.run id ro).1 with hs0
    have hb' := branches_fix (key' := fun ro i => (copyHistories cd ro (enc s) (gens.G e) (gens.H e) gens.Q
        (CopyClaim.Us (st s)) (CopyClaim.map (st s)) (CopyClaim.Cs (st s)) (A.run id ro).2)[i]?)
      (fun ro => (A.run id ro).1) s (by
      intro ro l v i _ _ h h'
      obtain ⟨t, e1, e2⟩ := copyHistories_prefix h
      obtain ⟨t', e1', e2'⟩ := copyHistories_prefix h'
      exact hinj (List.append_inj' (e1'.symm.trans e1) (e2'.trans e2.symm)).1) (by
      intro ro' i e
      simp only [hkey, e]) (e + 6) 0 ro rfl hb
    obtain ⟨C_w, C'', s', b, β, α, T, h1, h2, h3, h4, h5⟩ := copy_extraction hq cd (gens.G e) (gens.H e) hG hH gens.Q
      (CopyClaim.Us (st s)) (CopyClaim.sets (st s)) (CopyClaim.map (st s)) (CopyClaim.Cs (st s)) hn
      (CopyClaim.size (st s)) ((CopyClaim.count (st s)).trans hN) (CopyClaim.mapping (st s)) (CopyClaim.small (st s))
      (CopyClaim.commitments (st s)) (enc s) (K := fun _ => max (m + 1) 3 + 1)
      (fun _ => Nat.succ_le_succ (le_max_right _ _)) (Nat.succ_le_succ (le_max_left _ _)) (fun ro => (A.run id ro).2)
      (fun ro => Acc ro ∧ (A.run id ro).1 = s) (by
        rintro ro' ⟨h, e⟩
        simp only [hAcc, e] at h
        exact h) ro (hb'.1.1.forks hB (Nat.lt_succ_self _)) hx
    refine ⟨C_w, C'', s', b, β, α, T, h1, h2, h3, fun i j l a c hc => ?_, h5⟩
    obtain ⟨ro', e1, ⟨e2, e3⟩, e4⟩ := h4 i j l a c hc
    simp only [hAcc, e3] at e2
    exact ⟨ro', ⟨trivial, e1, congrArg st e3, e2⟩, e4⟩
  · intro ro h i l hl
    obtain ⟨tr', h⟩ := h
    refine ⟨by rw [copyHistories_chals hl, hc], List.mem_append_right _ ?_⟩
    rw [copyVerifierQueries_asked]
    obtain ⟨-, k, -, hk, h⟩ := copy_accepted hG hn (CopyClaim.size _) ((CopyClaim.count _).trans hN)
      (CopyClaim.mapping _) (CopyClaim.small _) (CopyClaim.commitments _) h
    rw [hk] at h
    have hr := qesa_rounds hq hG hH h
    simp only [copyInner] at hr
    rw [List.take_of_length_le (by
      simp [copyHistories, copyInner, qesaHistories, almHistories, ipaHistories]; omega)]
    exact List.mem_of_getElem? hl
  · intro ro l hl
    apply hD
    apply h0 ro
    rw [copyVerifierQueries_asked] at hl
    rcases List.mem_append.1 hl with hl | hl
    · exact List.mem_append_left _ hl
    · exact List.mem_append_right _ (List.mem_of_mem_take hl)

/-- Knowledge soundness for all kinds of proofs and provers that choose the statement. -/
theorem slot_known {T B c fuel : Nat} (cd : Codec G) (gens : Generators G) (s : Slot) (hs : s.Fits fuel gens)
    (st : σ → s.Statement F G) (enc : σ → List Event) (henc : ∀ s s' r r', enc s ++ r = enc s' ++ r' → s = s')
    (hc : ∀ s, chals (enc s) = c)
    (hB : ∀ c : F, Nat.card {v : Vector UInt8 64 // ((leNat v.toList : Nat) : F) = c} ≤ B)
    (A : Algo Event (σ × s.Proof F G)) (hT : A.AtMost T) :
    ∃ D0 : Finset (List Event), ∀ D, D0 ⊆ D → ∀ ro, chance ro D (fun ro =>
      (∃ tr', s.verify ⟨cd, ro⟩ fuel gens ⟨enc (A.run id ro).1⟩ (st (A.run id ro).1) (A.run id ro).2 = .ok (true, tr')) ∧
      ¬ s.Explained cd fuel gens (enc (A.run id ro).1) (fun ro' => (st (A.run id ro').1, (A.run id ro').2)) ro) ≤
    ((T + s.challenges) * (s.extractionFactor * B) : Nat) / 2 ^ 512 := by
  have hinj : Function.Injective enc := fun s s' h => henc s s' [] [] (by rw [h])
  -- a further run with the same statement
  have again : ∀ {n ro ro'}, Reprogrammed n ro ro' → (∃ tr', s.verify ⟨cd, ro'⟩ fuel gens ⟨enc (A.run id ro').1⟩
      (st (A.run id ro').1) (A.run id ro').2 = .ok (true, tr')) → (A.run id ro').1 = (A.run id ro).1 →
      Slot.Again cd fuel gens (fun _ => True) s (enc (A.run id ro).1) (fun ro' => (st (A.run id ro').1, (A.run id ro').2)) n ro ro' := by
    intro n ro ro' h1 h2 e
    rw [e] at h2
    exact ⟨trivial, h1, congrArg st e, h2⟩
  cases s with
  | ipa k =>
    obtain ⟨D0, h0⟩ := C96_ipa_domain enc (2 ^ k) A
    refine ⟨D0, fun D hD ro => (chance_mono fun ro h => ⟨h.1, fun he => h.2 ?_⟩).trans
      (C96_ipa_knowledge cd _ _ hs.1 hs.2 gens.Q (fun x => (st x).1) (fun x => (st x).2) enc hinj hc hB
      A hT ro D (fun ro l hl => hD (h0 ro l hl)))⟩
    obtain ⟨α, T, h1, h2⟩ := he
    refine ⟨α, T, fun i c hc => ?_, h2⟩
    obtain ⟨ro', e1, e2, e3, e4⟩ := h1 i c hc
    exact ⟨ro', again e1 e2 e3, e4⟩
  | alm k =>
    obtain ⟨D0, h0⟩ := C96_alm_domain cd enc (2 ^ k) gens.Q (fun x => (st x).1) (fun x => (st x).2) A
    refine ⟨D0, fun D hD ro => (chance_mono fun ro h => ⟨h.1, fun he => h.2 ?_⟩).trans
      (C96_alm_knowledge cd _ _ hs.1 hs.2 gens.Q (fun x => (st x).1) (fun x => (st x).2) enc hinj hc hB
      A hT ro D (fun ro l hl => hD (h0 ro l hl)))⟩
    obtain ⟨β, α, T, h1, h2⟩ := he
    refine ⟨β, α, T, fun i j c hc => ?_, h2⟩
    obtain ⟨ro', e1, e2, e3, e4⟩ := h1 i j c hc
    exact ⟨ro', again e1 e2 e3, e4⟩
  | qesa m e k =>
    obtain ⟨D0, h0⟩ := C96_qesa_domain cd enc (gens.G e) (gens.H e) gens.Q st A
    refine ⟨D0, fun D hD ro => (chance_mono fun ro h => ?_).trans
      (C96_qesa_knowledge (m := m + 1) hs.1 cd _ _ hs.2.1 hs.2.2 gens.Q st enc hinj hc hB
      A hT ro D (fun ro l hl => hD (h0 ro l hl)))⟩
    obtain ⟨ha, h⟩ := h
    refine ⟨ha, fun hx => h fun hx' => absurd hx hx', fun he => h fun _ => ?_⟩
    obtain ⟨C', C'', s, b, β, α, T, h1, h2, h3, h4⟩ := he
    refine ⟨C', C'', s, b, β, α, T, h1, h2, fun i j l a c hc => ?_, h4⟩
    obtain ⟨ro', e1, e2, e3, e4⟩ := h3 i j l a c hc
    exact ⟨ro', again e1 e2 e3, e4⟩
  | copy m e N => exact copy_known cd gens hs st enc hinj hc hB A hT
  | lmpa q =>
    obtain ⟨D0, h0⟩ := C96_lmpa_domain cd enc q A
    refine ⟨D0, fun D hD ro => (chance_mono fun ro h => ⟨h.1, fun he => h.2 ?_⟩).trans
      (C96_lmpa_knowledge (fuel := fuel) cd (fun x => (st x).row) (fun x => (st x).rows) (gens.G q) (fun x => (st x).t)
      (fun x => (st x).ts) (fun x => (st x).width) enc henc hc hB A hT ro D (fun ro l hl => hD (h0 ro l hl)))⟩
    obtain ⟨T, h1, h2⟩ := he
    refine ⟨T, fun c hc => ?_, h2⟩
    obtain ⟨ro', e1, e2, e3, e4⟩ := h1 c hc
    exact ⟨ro', again e1 e2 e3, e4⟩
  | simple q =>
    obtain ⟨D0, h0⟩ := C96_simple_domain cd enc q A
    refine ⟨D0, fun D hD ro => (chance_mono fun ro h => ⟨h.1, fun he => h.2 ?_⟩).trans
      (C96_simple_knowledge (fuel := fuel) cd (fun x => (st x).row) (fun x => (st x).rows) (gens.G q) (fun x => (st x).t)
      (fun x => (st x).ts) (fun x => (st x).width) enc henc hc hB A hT ro D (fun ro l hl => hD (h0 ro l hl)))⟩
    obtain ⟨β, T, h1, h2⟩ := he
    refine ⟨β, T, fun i c hc => ?_, h2⟩
    obtain ⟨ro', e1, e2, e3, e4⟩ := h1 i c hc
    exact ⟨ro', again e1 e2 e3, e4⟩

/-! ### Sessions -/

/-- Sessions whose start is chosen by the prover among histories that are not prefixes of each other. -/
theorem slots_known {B fuel : Nat} (cd : Codec G) (gens : Generators G)
    (enc : (s : Slot) → s.Statement F G → List Event)
    (hB : ∀ c : F, Nat.card {v : Vector UInt8 64 // ((leNat v.toList : Nat) : F) = c} ≤ B) :
    ∀ (m : Nat) (slots : Fin m → Slot), (∀ i, (slots i).Fits fuel gens) →
    (∀ i, ∀ st st' r r', enc (slots i) st ++ r = enc (slots i) st' ++ r' → st = st') →
    (∀ i st, chals (enc (slots i) st) = 0) →
    ∀ (Λ : Type) (start : Λ → List Event) (c T : Nat), (∀ a a' r r', start a ++ r = start a' ++ r' → a = a') →
    (∀ a, chals (start a) = c) →
    ∀ A : Algo Event (Λ × ((i : Fin m) → (slots i).Statement F G × (slots i).Proof F G)), A.AtMost T →
    ∃ D0 : Finset (List Event), ∀ D, D0 ⊆ D → ∀ ro, chance ro D (fun ro =>
      Unexplained cd fuel gens enc m slots (fun ro' => (A.run id ro').2) ⟨start (A.run id ro).1⟩ ro) ≤
        extractionError B m slots T
  | 0, slots, _, _, _, Λ, start, c, T, _, _, A, _ => ⟨∅, fun D _ ro => by
      simp [Unexplained, extractionError, chance, countHashes]⟩
  | m + 1, slots, hp, henc, hch, Λ, start, c, T, hst, hc, A, hT => by
    classical
    let d := (slots 0).challenges
    have hd : 0 < d := challenges_pos _ (hp 0)
    -- the first proof
    let A0 : Algo Event ((Λ × (slots 0).Statement F G) × (slots 0).Proof F G) :=
      A.andThen fun y => .done ((y.1, (y.2 0).1), (y.2 0).2)
    have hA0 : A0.AtMost T := Algo.andThen_atMost (fun y => .done ((y.1, (y.2 0).1), (y.2 0).2)) 0 (fun _ => trivial) A T hT
    obtain ⟨D1, h1⟩ := slot_known (c := c) (fuel := fuel) cd gens (slots 0) (hp 0) (fun y : Λ × _ => y.2)
      (fun y => start y.1 ++ enc (slots 0) y.2) (by
        rintro ⟨a, st⟩ ⟨a', st'⟩ r r' h
        simp only [List.append_assoc] at h
        obtain rfl := hst _ _ _ _ h
        rw [henc 0 st st' r r' (List.append_cancel_left h)])
      (fun y => by rw [chals_append, hc, hch 0]; rfl) hB A0 hA0
    -- the others
    let Λ' := {l : List Event // chals l = c + d ∧ Ends l}
    let dflt : Λ' := ⟨List.replicate (c + d) (.chal "" 0), by
      have : ∀ n, chals (List.replicate n (.chal "" 0)) = n := by
        intro n
        induction n with
        | zero => rfl
        | succ n ih => rw [List.replicate_succ, ← List.singleton_append, chals_append, ih, Nat.add_comm]; rfl
      exact this _, ⟨List.replicate (c + d - 1) (.chal "" 0), "", 0, by
        rw [← List.replicate_succ', Nat.sub_add_cancel (by omega)]⟩⟩
    let A' : Algo Event (Λ' × ((i : Fin m) → (slots i.succ).Statement F G × (slots i.succ).Proof F G)) :=
      A.andThen fun y => (slotFollow cd gens (start y.1 ++ enc (slots 0) (y.2 0).1) (slots 0) (y.2 0).1 (y.2 0).2).andThen
        fun l => .done (if h : chals l = c + d ∧ Ends l then ⟨l, h⟩ else dflt, fun i => y.2 i.succ)
    have hA' : A'.AtMost (T + d) := Algo.andThen_atMost _ d (fun y => by
      have := Algo.andThen_atMost (fun l => Algo.done (if h : chals l = c + d ∧ Ends l then (⟨l, h⟩ : Λ') else dflt,
        fun i : Fin m => y.2 i.succ)) 0 (fun _ => trivial)
        (slotFollow cd gens (start y.1 ++ enc (slots 0) (y.2 0).1) (slots 0) (y.2 0).1 (y.2 0).2) d
        (slotFollow_atMost cd gens _ _ _ _)
      exact this) A T hT
    obtain ⟨D2, h2⟩ := slots_known cd gens enc hB m (fun i => slots i.succ) (fun i => hp i.succ) (fun i => henc i.succ)
      (fun i => hch i.succ) Λ' (fun l => l.1) (c + d) (T + d)
      (fun a a' r r' h => Subtype.ext (a.2.2.cancel a'.2.2 (a.2.1.trans a'.2.1.symm) h)) (fun a => a.2.1) A' hA'
    refine ⟨D1 ∪ D2, fun D hD ro => ?_⟩
    have b1 := h1 D (Finset.union_subset_left hD) ro
    have b2 := h2 D (Finset.union_subset_right hD) ro
    refine (chance_mono fun ro h => ?_).trans ((chance_or ro D _ _).trans (add_le_add b1 b2))
    rw [Unexplained] at h
    rcases h with h | ⟨b, tr', hv, hr, hf⟩
    · refine .inl ?_
      simp only [A0, Algo.run_andThen, Algo.run]
      exact h
    · refine .inr ?_
      obtain ⟨e1, e2, e3⟩ := slot_follow cd gens (slots 0) (hp 0) ro _ _ _ b tr' hv hr
      rw [chals_append, hc, hch 0, Nat.add_zero] at e2
      simp only [A', Algo.run_andThen, Algo.run]
      rw [e1, dif_pos ⟨e2, e3⟩]
      exact hf

/-- C111: knowledge soundness of sessions, in any group. A prover with at most `T` queries outputs statements and proofs for
a session whose kinds of proofs were fixed in advance; before each proof the encoding of its statement is hashed, which
contains no challenges and of which no other encoding is a prefix. The probability that the verifier accepts some proof that
is not explained is at most the sum of the bounds for the proofs, where the queries of the verifier are counted as well. -/
theorem C111_session_knowledge {B fuel m T : Nat} (cd : Codec G) (gens : Generators G)
    (enc : (s : Slot) → s.Statement F G → List Event)
    (hB : ∀ c : F, Nat.card {v : Vector UInt8 64 // ((leNat v.toList : Nat) : F) = c} ≤ B)
    (slots : Fin m → Slot) (hp : ∀ i, (slots i).Fits fuel gens)
    (henc : ∀ i, ∀ st st' r r', enc (slots i) st ++ r = enc (slots i) st' ++ r' → st = st')
    (hch : ∀ i st lab n, .chal lab n ∉ enc (slots i) st) (log : List Event)
    (A : Algo Event ((i : Fin m) → (slots i).Statement F G × (slots i).Proof F G)) (hT : A.AtMost T) :
    ∃ D0 : Finset (List Event), ∀ D, D0 ⊆ D → ∀ ro, chance ro D (fun ro =>
      Unexplained cd fuel gens enc m slots (A.run id) ⟨log⟩ ro) ≤ extractionError B m slots T := by
  have hch' : ∀ i st, chals (enc (slots i) st) = 0 := by
    intro i st
    refine List.countP_eq_zero.2 fun e he => ?_
    cases e with
    | msg => simp
    | chal lab n => exact absurd he (hch i st lab n)
  obtain ⟨D0, h⟩ := slots_known (fuel := fuel) cd gens enc hB m slots hp henc hch' Unit (fun _ => log) (chals log) T
    (fun _ _ _ _ _ => rfl) (fun _ => rfl) (A.andThen fun y => .done ((), y))
    (Algo.andThen_atMost (fun y => .done ((), y)) 0 (fun _ => trivial) A T hT)
  refine ⟨D0, fun D hD ro => ?_⟩
  have := h D hD ro
  simp only [Algo.run_andThen, Algo.run] at this
  exact this

/-! ### Encodings of statements -/

omit [DecidableEq F] [AddCommGroup G] [Module F G] [DecidableEq G] in
theorem copyClaim_countable [Countable F] [Countable G] (m N : Nat) : Countable (CopyClaim F G m N) := by
  have : Countable (Matrix (Fin (m + 1)) (Fin (m + 1)) F) := inferInstanceAs (Countable (Fin (m + 1) → Fin (m + 1) → F))
  refine Function.Injective.countable (f := fun c : CopyClaim F G m N => (c.Us, c.Cs, c.sets, c.ws)) ?_
  rintro ⟨Us, sets, ws, map, Cs, _, _, h1, _, _, _, _, _, _⟩ ⟨Us', sets', ws', map', Cs', _, _, h2, _, _, _, _, _, _⟩ h
  simp only [Prod.mk.injEq] at h
  obtain ⟨rfl, rfl, rfl, rfl⟩ := h
  rw [h1] at h2
  cases h2
  rfl

omit [AddCommGroup G] [DecidableEq G] in
theorem linearClaim_countable [Countable G] (q : Nat) : Countable (LinearClaim G q) := by
  refine Function.Injective.countable (f := fun c : LinearClaim G q => (c.row, c.rows, c.t, c.ts)) ?_
  rintro ⟨⟩ ⟨⟩ h
  simp at h
  simp [h]

/-- Encodings as in C109 and C111 exist, for all kinds of proofs at once. -/
theorem C111_encoding (F G : Type) [Field F] [Countable F] [Countable G] :
    ∃ enc : (s : Slot) → s.Statement F G → List Event,
      (∀ s st st' r r', enc s st ++ r = enc s st' ++ r' → st = st') ∧ ∀ s st lab n, .chal lab n ∉ enc s st := by
  have hc : ∀ s : Slot, Countable (s.Statement F G) := by
    intro s
    cases s with
    | ipa k => exact inferInstanceAs (Countable (G × F))
    | alm k => exact inferInstanceAs (Countable (G × F))
    | qesa m e k => exact inferInstanceAs (Countable (Fin (k + 1) → Fin (m + 1) → Fin (m + 1) → F))
    | copy m e N => exact copyClaim_countable m N
    | lmpa q => exact linearClaim_countable q
    | simple q => exact linearClaim_countable q
  choose f hf using fun s => (hc s).exists_injective_nat'
  refine ⟨fun s st => [.msg "statement" (List.replicate (f s st) 0)], fun s st st' r r' h => hf s ?_, by simp⟩
  simp only [List.singleton_append, List.cons.injEq, Event.msg.injEq, true_and] at h
  simpa using congrArg List.length h.1

/-! ### Examples -/
section
open Toy
set_option exponentiation.threshold 600

/-- Generators in the group of order 101. -/
def primeGens : Generators K where
  G k := (List.range (2 ^ k)).map fun i => (i : K) + 1
  H k := (List.range (2 ^ k)).map fun i => (i : K) + 50
  Q := 100

theorem mixed_slots (B : Nat) : extractionError B 3 ![.ipa 2, .simple 1, .qesa 1 2 0] 2 = ((71 * B : Nat) : ℚ) / 2 ^ 512 := by
  show (((2 + 3) * (3 * B) : Nat) : ℚ) / 2 ^ 512 + ((((2 + 3 + 2) * (2 * B) : Nat) : ℚ) / 2 ^ 512 +
    ((((2 + 3 + 2 + 7) * (3 * B) : Nat) : ℚ) / 2 ^ 512 + 0)) = _
  generalize (2 : ℚ) ^ 512 = N
  rw [add_zero, ← add_div, ← add_div, ← Nat.cast_add, ← Nat.cast_add]
  congr 2
  ring

/-- C111: a session of an inner-product argument, a proof of SimpleZK and a proof of QESA in a group of prime order. There are
relations between the generators, such that C109 says nothing. A prover that chooses the statements and makes two queries is
accepted with a proof that is not explained with probability at most `71 (1/101 + 2⁻⁵¹²)`, and there is such an encoding. -/
example (cd : Codec K) (ro : Hash) (log : List Event) :
    ¬ (Slot.ipa 2).Proper K 2 primeGens ∧
    ∃ enc : (s : Slot) → s.Statement K K → List Event,
    ∀ (A : Algo Event ((i : Fin 3) → (![Slot.ipa 2, .simple 1, .qesa 1 2 0] i).Statement K K ×
      (![Slot.ipa 2, .simple 1, .qesa 1 2 0] i).Proof K K)), A.AtMost 2 →
    ∃ D, chance ro D (fun ro => Unexplained cd 2 primeGens enc 3 ![.ipa 2, .simple 1, .qesa 1 2 0] (A.run id) ⟨log⟩ ro) ≤
      71 * (1 / 101 + 1 / 2 ^ 512) := by
  refine ⟨fun h => h.2.2 ([2, -1, 0, 0], [0, 0, 0, 0], 0) ⟨rfl, rfl, by decide +kernel, by decide +kernel⟩, ?_⟩
  obtain ⟨enc, he, hn⟩ := C111_encoding K K
  refine ⟨enc, fun A hT => ?_⟩
  obtain ⟨D, h⟩ := C111_session_knowledge (fuel := 2) cd primeGens enc (C67_scalars 101) ![.ipa 2, .simple 1, .qesa 1 2 0]
    (fun i => by
      match i with
      | 0 => exact ⟨rfl, rfl⟩
      | 1 => exact ⟨rfl, by decide⟩
      | 2 => exact ⟨rfl, rfl, rfl⟩)
    (fun i => he _) (fun i => hn _) log A hT
  refine ⟨D, (h D subset_rfl ro).trans ?_⟩
  have e := bound_aux 71 101 (2 ^ 512) (by positivity)
  rw [mixed_slots]
  exact_mod_cast e

/-- C111: proofs are explained. A prover that always gives the same proof that `5 * 1 + 0 * 50 + 0 * 100` is a commitment to
`5` and `0` with product `0` is accepted, and so there are a tree of further runs and an extracted witness or relation for some
hash function. -/
example (cd : Codec K) : ∃ ro, (Slot.ipa 0).Explained cd 0 primeGens []
    (fun _ => (((5 * 1 + 0 * 50 + 0 * 100, 0) : K × K), (⟨[], [], 5, 0⟩ : Ipa.NoZK K))) ro := by
  by_contra hno
  push Not at hno
  have hacc : ∀ ro : Hash, ∃ tr', Ipa.NoZK.verify (⟨cd, ro⟩ : Ctx K) (⟨[], [], 5, 0⟩ : Ipa.NoZK K) ⟨[]⟩ (primeGens.G 0)
      (primeGens.H 0) primeGens.Q (2 ^ 0) (5 * 1 + 0 * 50 + 0 * 100) 0 = .ok (true, tr') := by
    intro ro
    have := C19_ipa_verdict (⟨cd, ro⟩ : Ctx K) (⟨[], [], 5, 0⟩ : Ipa.NoZK K) ⟨[]⟩ [1] [50] 100 1
      (5 * 1 + 0 * 50 + 0 * 100) 0 [] [] rfl rfl ⟨by simp, by simp, by simp, by simp, by simp, by simp⟩
    refine ⟨⟨headLog 1⟩, this.trans ?_⟩
    rw [decide_eq_true]
    · simp [roundsLog]
    refine (gap_nil (5 : K) 0 _ 0 [] [] [1] [50] _).2 ?_
    simp
  obtain ⟨D, h⟩ := slot_known (σ := Unit) (T := 0) (c := 0) cd primeGens (.ipa 0) (fuel := 0) ⟨rfl, rfl⟩
    (fun _ => ((5 * 1 + 0 * 50 + 0 * 100, 0) : K × K)) (fun _ => []) (fun _ _ _ _ _ => rfl) (fun _ => rfl) (C67_scalars 101)
    (.done ((), (⟨[], [], 5, 0⟩ : Ipa.NoZK K))) trivial
  have h := h D subset_rfl fun _ => Vector.replicate 64 0
  rw [chance_true _ _ fun ro => ⟨hacc ro, hno ro⟩] at h
  have e := bound_aux 3 101 (2 ^ 512) (by positivity)
  have h' : (1 : ℚ) ≤ ((3 * (2 ^ 512 / 101 + 1) : Nat) : ℚ) / ((2 ^ 512 : Nat) : ℚ) := by
    refine h.trans (le_of_eq ?_)
    rw [Nat.cast_pow]
    rfl
  have h'' := h'.trans e
  norm_num at h''

/-- C111: the hypothesis that the statements are hashed is needed. The proof of the late prover of C96 is not explained, for
every hash function with `alpha ≠ 0`, if the statement is not hashed. -/
example (cd : Codec (Fin 3 → K)) (ro : Hash) (hα : ipaAlpha K ro [] 1 ≠ 0) :
    let A := lateProver (F := K) [] ![1, 0, 0] ![0, 1, 0] ![0, 0, 1]
    A.AtMost 1 ∧ Unexplained cd 0 ⟨fun _ => [![1, 0, 0]], fun _ => [![0, 1, 0]], ![0, 0, 1]⟩ (fun _ _ => []) 1
      (fun _ => .ipa 0) (fun ro _ => A.run id ro) ⟨[]⟩ ro := by
  have hind : ∀ r : List K × List K × K, ¬ IsRelation [![1, 0, 0]] [![0, 1, 0]] (![0, 0, 1] : Fin 3 → K) r := by
    rintro ⟨u, v, c⟩ ⟨h1, h2, h4, h3⟩
    match u, h1, v, h2 with
    | [a], _, [b], _ =>
      have e0 := congrFun h3 0
      have e1 := congrFun h3 1
      have e2 := congrFun h3 2
      simp [dot_cons] at e0 e1 e2
      simp [e0, e1, e2] at h4
  have h := C96_ipa_unhashed (F := K) cd ![1, 0, 0] ![0, 1, 0] ![0, 0, 1] hind []
  refine ⟨h.1, .inl ⟨(h.2 ro hα).1, ?_⟩⟩
  rintro ⟨α, T, -, hx⟩
  revert hx
  split
  · intro hx
    exact (h.2 ro hα).2 ⟨_, _, hx⟩
  · exact hind _

end
end Qesa.Props
