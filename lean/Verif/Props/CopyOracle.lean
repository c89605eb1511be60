import Verif.Proofs.CopyMachine
import Verif.Props.QesaOracle
/-
C70: soundness of Copy in the random-oracle model, for algebraic provers that commit as the honest prover does.
-/
namespace Qesa.Props
open Qesa Spec Copy

section
variable {F G V : Type} [Field F] [DecidableEq F] [AddCommGroup V] [Module F V] {m : Nat}

/-- The queries of the verifier of Copy. -/
def copyAsk {α : Type} (cmp : G → Comp) (ev : V → G) (log : List (Note V)) (Gs Hs : List V) (Q : V) (j : Nat)
    (Us : List (Matrix (Fin (m + 1)) (Fin (m + 1)) F)) (map : Mapping) (Cs : List V) (p : AlgCopy F V) (o : α) :
    Algo (Note V) α :=
  .ask (log ++ alphaNotes cmp ev p.C_w) fun v =>
    let a : F := (leNat v.toList : Nat)
    qesaAsk cmp ev (log ++ alphaNotes cmp ev p.C_w) Gs Hs Q j (copySystem Us map a).get (p.qesa Cs a) o

omit [DecidableEq F] in
theorem copyAsk_asked {α : Type} (cmp : G → Comp) (ev : V → G) (log : List (Note V)) (Gs Hs : List V) (Q : V)
    (j : Nat) (Us : List (Matrix (Fin (m + 1)) (Fin (m + 1)) F)) (map : Mapping) (Cs : List V)
    (p : AlgCopy F V) (o : α) (ro : Hash) :
    (copyAsk cmp ev log Gs Hs Q j Us map Cs p o).asked Prod.fst ro =
      (copyQueries ro cmp ev log Gs Hs Q Us map Cs p).take (j + 5) := by
  simp only [copyAsk, Algo.asked, qesaAsk_asked, copyQueries, List.take_succ_cons]
  have e : (log ++ alphaNotes cmp ev p.C_w).map Prod.fst =
      log.map Prod.fst ++ [.msg "c_w" (cmp (ev p.C_w)), .chal "alpha" 64] := by
    rw [List.map_append]; rfl
  rw [e]
  rfl

omit [DecidableEq F] in
theorem copyAsk_atMost {α : Type} (cmp : G → Comp) (ev : V → G) (log : List (Note V)) (Gs Hs : List V) (Q : V)
    (j : Nat) (Us : List (Matrix (Fin (m + 1)) (Fin (m + 1)) F)) (map : Mapping) (Cs : List V)
    (p : AlgCopy F V) (o : α) : (copyAsk cmp ev log Gs Hs Q j Us map Cs p o).AtMost (j + 5) :=
  fun _ => qesaAsk_atMost cmp ev _ Gs Hs Q j _ _ o

omit [DecidableEq F] in
theorem copyQueries_length (ro : Hash) (cmp : G → Comp) (ev : V → G) (log : List (Note V)) (Gs Hs : List V)
    (Q : V) (Us : List (Matrix (Fin (m + 1)) (Fin (m + 1)) F)) (map : Mapping) (Cs : List V)
    (p : AlgCopy F V) :
    (copyQueries ro cmp ev log Gs Hs Q Us map Cs p).length ≤ p.alm.ipa.Ls.length + 6 := by
  simp only [copyQueries, qesaQueries, almQueries, ipaQueries, List.length_cons]
  have := roundQueries_length cmp ev p.alm.ipa.Ls p.alm.ipa.Rs
  simpa [AlgCopy.qesa] using this _

theorem copy_core {α : Type} {q B T : Nat} (hq : m + 3 = 2 ^ q) (cmp : G → Comp) (ev : V → G) (Gs Hs : List V)
    (Q : V) (hG : Gs.length = m + 3) (hH : Hs.length = m + 3) (hf : Free (F := F) Gs Hs Q)
    (Us : List (Matrix (Fin (m + 1)) (Fin (m + 1)) F)) (map : Mapping)
    (coms : List (List Nat × List F × F)) {ws : Nat} (hn : m + 3 < 65536) (hws : ws < 65536)
    (hs : coms.length ≤ 65536) (hmap : computeMapping (m + 3) ws (coms.map (·.1)) = .ok map)
    (hlen : ∀ c ∈ coms, c.1.length = c.2.1.length)
    (hsets : ∀ c ∈ coms, c.1.Pairwise (· < ·)) (hi : ∀ c ∈ coms, ∀ i ∈ c.1, i < m + 1)
    (h0 : ∀ c ∈ coms, 0 ∉ c.1)
    (hU : ∀ U ∈ Us, ∀ i j : Fin (m + 1), (∃ c ∈ coms, i.val ∈ c.1 ∨ j.val ∈ c.1) → U i j = 0)
    (hfit : Us.length + map.unique_commitment_indices.length ≤ m + 3) (log : List (Note V))
    (hB : ∀ c : F, Nat.card {v : Vector UInt8 64 // ((leNat v.toList : Nat) : F) = c} ≤ B)
    (A : Algo (Note V) α) (hT : A.AtMost T) (out : α → AlgCopy F V) (ro : Hash) (D : Finset (List Event))
    (hD : ∀ ro, ∀ l ∈ A.asked Prod.fst ro ++ copyQueries ro cmp ev log Gs Hs Q Us map
      (coms.map (messageCommit Gs)) (out (A.run Prod.fst ro)), l.map Prod.fst ∈ D)
    (Win : Hash → Prop)
    (hWin : ∀ ro, Win ro → let p := out (A.run Prod.fst ro)
      NoConflict (A.asked Prod.fst ro ++ copyQueries ro cmp ev log Gs Hs Q Us map
        (coms.map (messageCommit Gs)) p) ∧
      p.alm.ipa.Ls.length = q ∧ (∃ w : Fails Us map (coms.map (·.2.1)).flatten, p.C_w = commit Gs w.1) ∧
      (∃ y : (Fin (m + 1) → F) × F × F, p.C'' = commit Hs y) ∧
      copyGap ro (log.map Prod.fst) (fun L => cmp (ev L)) Gs Hs Q Us map (coms.map (messageCommit Gs)) p = 0) :
    countHashes ro D Win * 2 ^ 512 ≤
      (T + (q + 6)) * (max (m + 3) coms.length * B) * (2 ^ 512) ^ D.card := by
  set Cs := coms.map (messageCommit Gs) with hCs
  set vf : α → Algo (Note V) α := fun o => copyAsk cmp ev log Gs Hs Q (q + 1) Us map Cs (out o) o with hvf
  have hask : ∀ ro, (A.andThen vf).asked Prod.fst ro = A.asked Prod.fst ro ++
      (copyQueries ro cmp ev log Gs Hs Q Us map Cs (out (A.run Prod.fst ro))).take (q + 6) := by
    intro ro
    rw [Algo.asked_andThen, hvf, copyAsk_asked]
  refine (copyMachine_sound cmp ev hq Gs Hs Q hG hH hf hn hws hs hmap hsets hi h0 hU hfit).count Prod.fst hB ro
    D (A.andThen vf) (T + (q + 6)) ?_ ?_ .start log (fun h => h) Win ?_
  · refine Algo.andThen_atMost vf (q + 6) (fun o => ?_) _ _ hT
    exact copyAsk_atMost cmp ev log Gs Hs Q (q + 1) Us map Cs (out o) o
  · intro f l hl
    rw [hask] at hl
    apply hD (patch ro D f)
    rcases List.mem_append.1 hl with hl | hl
    · exact List.mem_append_left _ hl
    · exact List.mem_append_right _ (List.mem_of_mem_take hl)
  · intro ro hw
    obtain ⟨hc, hl, ⟨w, hC⟩, ⟨y, hC''⟩, hg⟩ := hWin ro hw
    rw [hask]
    constructor
    · apply hc.mono
      intro l hl
      rcases List.mem_append.1 hl with hl | hl
      · exact List.mem_append_left _ hl
      · exact List.mem_append_right _ (List.mem_of_mem_take hl)
    · obtain ⟨ls, s', hp, hs', hm⟩ := copy_path cmp ev hq Gs Hs Q hG hH
        (computeMapping_wf hn hws (by simpa using hs) hmap) hlen hi ro log _ w y hC hC'' hl hg
      refine ⟨ls, s', hp, hs', fun l h => List.mem_append_right _ ?_⟩
      rw [List.take_of_length_le]
      · exact hm l h
      · have := copyQueries_length ro cmp ev log Gs Hs Q Us map Cs (out (A.run Prod.fst ro))
        rwa [hl] at this

end

section
variable {F G : Type} [Field F] [DecidableEq F] [AddCommGroup G] [Module F G] [DecidableEq G] {m : Nat}

omit [DecidableEq F] [DecidableEq G] in
theorem map_messageCommit {V : Type} [AddCommGroup V] [Module F V] (ev : V →ₗ[F] G) (Gs : List V)
    (c : List Nat × List F × F) : ev (messageCommit Gs c) = messageCommit (Gs.map ev) c := by
  have e : ∀ i, ev (Gs.getD i 0) = (Gs.map ev).getD i 0 := by
    intro i
    rw [List.getD, List.getD, List.getElem?_map]
    cases Gs[i]? <;> simp
  rw [messageCommit, messageCommit, map_add, map_smul, map_dot, e, List.length_map, List.map_map]
  congr 3
  exact funext e

omit [DecidableEq F] [DecidableEq G] in
theorem map_copyGap {V : Type} [AddCommGroup V] [Module F V] (ev : V →ₗ[F] G) (ro : Hash) (log : List Event)
    (cmp : G → Comp) (Gs Hs : List V) (Q : V) (Us : List (Matrix (Fin (m + 1)) (Fin (m + 1)) F))
    (map : Mapping) (Cs : List V) (p : AlgCopy F V) :
    ev (copyGap ro log (fun L => cmp (ev L)) Gs Hs Q Us map Cs p) =
      copyGap ro log cmp (Gs.map ev) (Hs.map ev) (ev Q) Us map (Cs.map ev)
        ⟨ev p.C_w, ev p.C'', ⟨ev p.alm.C_r, ⟨p.alm.ipa.Ls.map ev, p.alm.ipa.Rs.map ev, p.alm.ipa.a,
          p.alm.ipa.b⟩⟩, p.overwritten⟩ := by
  unfold copyGap
  simp only [map_qesaGap, AlgCopy.qesa, map_add, map_dot, List.length_map]
  rfl

omit [DecidableEq F] in
theorem copy_accepts_iff {q ws : Nat} (hq : m + 3 = 2 ^ q) (cx : Ctx G) (tr : Transcript)
    (Gs Hs : List G) (Q : G) (Us : List (Matrix (Fin (m + 1)) (Fin (m + 1)) F)) (sets : List (List Nat))
    (map : Mapping) (Cs : List G) (p : AlgCopy F G) (hG : Gs.length = m + 3) (hH : Hs.length = m + 3)
    (hn : m + 3 < 65536) (hws : ws < 65536) (hs : sets.length ≤ 65536)
    (hmap : computeMapping (m + 3) ws sets = .ok map)
    (hi : ∀ s ∈ sets, ∀ i ∈ s, i < m + 1) (hC : Cs.length = sets.length) :
    (∃ tr', (p.proof cx.compress id).verify cx tr Gs Hs Q ⟨Us.map rows⟩ map Cs = .ok (true, tr')) ↔
      p.alm.ipa.Ls.length = q ∧ q < 64 ∧ copyGap cx.ro tr.log cx.compress Gs Hs Q Us map Cs p = 0 := by
  have e := C37_verifier cx (p.proof cx.compress id) tr Gs Hs Q Us sets map Cs p.C_w hG (hG ▸ hn) hws hs
    (hG ▸ hmap) hi hC (cx.decompress_compress _)
  simp only at e
  rw [e]
  have hwf := computeMapping_wf hn hws hs hmap
  unfold copyGap
  simp only
  have hw : (p.proof cx.compress id).C_w = cx.compress p.C_w := rfl
  rw [hw]
  generalize copyAlpha F cx.ro tr.log (cx.compress p.C_w) = α
  have hN := copySystem_ne_nil hwf Us α
  rw [map_rows_eq]
  have key : ∀ (N : Nat) (_ : N ≠ 0) (Ms : Fin N → Matrix (Fin (m + 1)) (Fin (m + 1)) F),
      (∃ tr', ((p.qesa Cs α).proof cx.compress id).verify cx
        ⟨tr.log ++ [.msg "c_w" (cx.compress p.C_w), .chal "alpha" 64]⟩ Gs Hs Q
        ⟨List.ofFn fun i => rows (Ms i)⟩ = .ok (true, tr')) ↔
      p.alm.ipa.Ls.length = q ∧ q < 64 ∧ qesaGap cx.ro
        (tr.log ++ [.msg "c_w" (cx.compress p.C_w), .chal "alpha" 64]) cx.compress Gs Hs Q Ms
        (p.qesa Cs α) = 0 := by
    intro N hN Ms
    obtain ⟨N, rfl⟩ := Nat.exists_eq_succ_of_ne_zero hN
    exact qesa_accepts_iff (Nat.succ_pos m) hq cx _ Gs Hs Q Ms _ hG hH
  exact key _ hN _

omit [DecidableEq F] [AddCommGroup G] [Module F G] [DecidableEq G] in
theorem truthful_copy {V : Type} [AddCommGroup V] [Module F V] (cd : Codec G) (ev : V → G) (log : List (Note V))
    (ro : Hash) (Gs Hs : List V) (Q : V) (Us : List (Matrix (Fin (m + 1)) (Fin (m + 1)) F)) (map : Mapping)
    (Cs : List V) (p : AlgCopy F V) (h : ∀ e ∈ log, Truthful cd ev e) :
    ∀ l ∈ copyQueries ro cd.compress ev log Gs Hs Q Us map Cs p, ∀ e ∈ l, Truthful cd ev e := by
  have h1 : ∀ e ∈ log ++ alphaNotes cd.compress ev p.C_w, Truthful cd ev e := by
    intro e he
    simp only [List.mem_append, alphaNotes, List.mem_cons, List.not_mem_nil, or_false] at he
    rcases he with he | rfl | rfl
    · exact h e he
    · exact truthful_point cd ev "c_w" (by decide) _
    · exact truthful_plain cd ev _ rfl
  intro l hl
  rw [copyQueries] at hl
  rcases List.mem_cons.1 hl with rfl | hl
  · exact h1
  · exact truthful_qesa cd ev _ ro Gs Hs Q _ _ h1 l hl

omit [DecidableEq F] in
theorem fails_coeff (Us : List (Matrix (Fin (m + 1)) (Fin (m + 1)) F)) (map : Mapping) (msgs : List F)
    (C : Coeffs F (m + 3)) (h0 : C.1 0 = 1) (h1 : C.2.1 = 0) (h2 : C.2.2 = 0)
    (h : ¬ CopyHolds Us map msgs (fun j => C.1 (Fin.castAdd 2 j))) :
    ∃ w : Fails Us map msgs, C = commit (coeffG F (m + 3)) w.1 := by
  have e : (Fin.castAdd 2 (0 : Fin (m + 1)) : Fin (m + 3)) = 0 := Fin.ext (by simp)
  exact ⟨⟨(fun j : Fin (m + 1) => C.1 (Fin.castAdd 2 j), C.1 ⟨m + 1, by omega⟩, C.1 ⟨m + 2, by omega⟩),
    (congrArg C.1 e).trans h0, h⟩, commit_coeffG C h1 h2⟩

/-- The relations that a prover of Copy and the verifier can read off: the difference of the two sides of the
verification equation, and the differences of any two representations sent to the hash function. -/
def copyCandidates {n : Nat} (ro : Hash) (cd : Codec G) (Gs Hs : Fin n → G) (Q : G)
    (Us : List (Matrix (Fin (m + 1)) (Fin (m + 1)) F)) (map : Mapping) (coms : List (List Nat × List F × F))
    (log : List (Note (Coeffs F n))) (asked : List (List (Note (Coeffs F n)))) (p : AlgCopy F (Coeffs F n)) :
    List (Coeffs F n) :=
  let ev := evalCoeffs Gs Hs Q
  let Cs := coms.map (messageCommit (coeffG F n))
  copyGap ro (log.map Prod.fst) (fun L => cd.compress (ev L)) (coeffG F n) (coeffH F n) (coeffQ F n) Us map
      Cs p ::
    differences (notes (asked ++
      copyQueries ro cd.compress ev log (coeffG F n) (coeffH F n) (coeffQ F n) Us map Cs p))

/-- C70: soundness of Copy in the random-oracle model, for algebraic provers that commit the way the honest
prover does. Fix the user's equations and the commitments `Cs` to messages at the given indices. The prover
chooses everything else, as a function of the challenges it asks for; `C_w` is a commitment in `G` with first
coefficient one, `C''` one in `H`. For all but a fraction `(T + q + 6) max(m + 3, |Cs|) B / 2^512` of the hash
functions, the proof is rejected, or the vector in `C_w` solves the user's equations and contains in the slots
of the messages exactly the messages that the `Cs` were made of, or one of the candidates is a non-trivial
relation between the generators. -/
theorem C70_copy_algebraic {q T B ws : Nat} (hq : m + 3 = 2 ^ q) (cd : Codec G) (Gs Hs : Fin (m + 3) → G) (Q : G)
    (Us : List (Matrix (Fin (m + 1)) (Fin (m + 1)) F)) (map : Mapping)
    (coms : List (List Nat × List F × F)) (Cs : List G)
    (hcom : coms.mapM (fun c => Copy.commit (List.ofFn Gs) c.1 c.2.1 c.2.2) = .ok Cs)
    (hn : m + 3 < 65536) (hws : ws < 65536) (hs : coms.length ≤ 65536)
    (hmap : computeMapping (m + 3) ws (coms.map (·.1)) = .ok map)
    (hsets : ∀ c ∈ coms, c.1.Pairwise (· < ·)) (hi : ∀ c ∈ coms, ∀ i ∈ c.1, i < m + 1)
    (h0 : ∀ c ∈ coms, 0 ∉ c.1)
    (hU : ∀ U ∈ Us, ∀ i j : Fin (m + 1), (∃ c ∈ coms, i.val ∈ c.1 ∨ j.val ∈ c.1) → U i j = 0)
    (hfit : Us.length + map.unique_commitment_indices.length ≤ m + 3)
    (log : List (Note (Coeffs F (m + 3)))) (hlog : ∀ e ∈ log, Truthful cd (evalCoeffs Gs Hs Q) e)
    (hB : ∀ c : F, Nat.card {v : Vector UInt8 64 // ((leNat v.toList : Nat) : F) = c} ≤ B)
    (A : Algo (Note (Coeffs F (m + 3))) (AlgCopy F (Coeffs F (m + 3)))) (hT : A.AtMost T)
    (hA : ∀ ro, ∀ l ∈ A.asked Prod.fst ro, ∀ e ∈ l, Truthful cd (evalCoeffs Gs Hs Q) e)
    (ro : Hash) (D : Finset (List Event))
    (hD : ∀ ro, ∀ l ∈ A.asked Prod.fst ro ++ copyQueries ro cd.compress (evalCoeffs Gs Hs Q) log
      (coeffG F _) (coeffH F _) (coeffQ F _) Us map (coms.map (messageCommit (coeffG F _)))
      (A.run Prod.fst ro), l.map Prod.fst ∈ D) :
    chance ro D (fun ro =>
      let p := A.run Prod.fst ro
      (∃ tr', (p.proof cd.compress (evalCoeffs Gs Hs Q)).verify ⟨cd, ro⟩ ⟨log.map Prod.fst⟩ (List.ofFn Gs)
        (List.ofFn Hs) Q ⟨Us.map rows⟩ map Cs = .ok (true, tr')) ∧
      (p.C_w.1 0 = 1 ∧ p.C_w.2.1 = 0 ∧ p.C_w.2.2 = 0) ∧ (p.C''.1 = 0 ∧ p.C''.2.2 = 0) ∧
      ¬ CopyHolds Us map (coms.map (·.2.1)).flatten (fun j => p.C_w.1 (Fin.castAdd 2 j)) ∧
      ∀ c ∈ copyCandidates ro cd Gs Hs Q Us map coms log (A.asked Prod.fst ro) p,
        evalCoeffs Gs Hs Q c = 0 → c = 0) ≤
    ((T + (q + 6)) * (max (m + 3) coms.length * B) : Nat) / 2 ^ 512 := by
  obtain ⟨hlen, hCs⟩ := commits_spec (List.ofFn Gs) coms Cs m (by simp) hcom
  have hCs' : Cs = (coms.map (messageCommit (coeffG F (m + 3)))).map (evalCoeffs Gs Hs Q) := by
    rw [hCs, List.map_map]
    refine List.map_congr_left fun c _ => ?_
    rw [Function.comp_apply, map_messageCommit, eval_coeffG, messageCommit, List.length_ofFn]
    rfl
  apply chance_le
  refine copy_core hq cd.compress (evalCoeffs Gs Hs Q) (coeffG F _) (coeffH F _) (coeffQ F _)
    (by simp [coeffG]) (by simp [coeffH]) coeff_free Us map coms hn hws hs hmap hlen hsets hi h0 hU hfit log hB
    A hT id ro D hD _ ?_
  rintro ro ⟨⟨tr', hv⟩, ⟨h0', hg1, hg2⟩, ⟨hh1, hh2⟩, hviol, hc⟩
  set p := A.run Prod.fst ro
  have hver := (copy_accepts_iff (q := q) hq ⟨cd, ro⟩ ⟨log.map Prod.fst⟩
    (List.ofFn Gs) (List.ofFn Hs) Q Us (coms.map (·.1)) map Cs
    ⟨evalCoeffs Gs Hs Q p.C_w, evalCoeffs Gs Hs Q p.C'', ⟨evalCoeffs Gs Hs Q p.alm.C_r,
      ⟨p.alm.ipa.Ls.map (evalCoeffs Gs Hs Q), p.alm.ipa.Rs.map (evalCoeffs Gs Hs Q), p.alm.ipa.a,
        p.alm.ipa.b⟩⟩, p.overwritten⟩ (by simp) (by simp) hn hws (by simpa using hs) hmap (by simpa using hi)
        (by rw [hCs]; simp)).1 ⟨tr', by
      unfold AlgCopy.proof AlgAlm.proof AlgIpa.proof at hv ⊢
      simp only [List.map_map]
      exact hv⟩
  obtain ⟨h1, -, h2⟩ := hver
  refine ⟨?_, by simpa using h1, fails_coeff Us map _ p.C_w h0' hg1 hg2 hviol,
    ⟨_, commit_coeffH p.C'' hh1 hh2⟩, ?_⟩
  · apply noConflict_of_truthful cd (evalCoeffs Gs Hs Q)
    · intro l hl
      rcases List.mem_append.1 hl with hl | hl
      · exact hA ro l hl
      · exact truthful_copy cd _ _ _ _ _ _ _ _ _ _ hlog l hl
    · exact fun c h => hc c (List.mem_cons_of_mem _ h)
  · refine hc _ List.mem_cons_self ?_
    rw [map_copyGap, eval_coeffG, eval_coeffH, eval_coeffQ, ← hCs']
    exact h2

omit [DecidableEq F] [AddCommGroup G] [Module F G] [DecidableEq G] in
/-- C70: for every prover there is a finite set of histories as in C70_copy_algebraic. -/
theorem C70_domain {V : Type} [AddCommGroup V] [Module F V] (cmp : G → Comp) (ev : V → G)
    (log : List (Note V)) (Gs Hs : List V) (Q : V) (Us : List (Matrix (Fin (m + 1)) (Fin (m + 1)) F))
    (map : Mapping) (Cs : List V) (A : Algo (Note V) (AlgCopy F V)) :
    ∃ D : Finset (List Event), ∀ ro, ∀ l ∈ A.asked Prod.fst ro ++ copyQueries ro cmp ev log Gs Hs Q Us map Cs
      (A.run Prod.fst ro), l.map Prod.fst ∈ D := by
  obtain ⟨D, hD⟩ := exists_domain Prod.fst (fun _ _ => []) (by simp) (A.andThen fun p =>
    copyAsk cmp ev log Gs Hs Q (p.alm.ipa.Ls.length + 1) Us map Cs p p)
  refine ⟨D, fun ro l hl => (hD ro).1 l ?_⟩
  rw [Algo.asked_andThen, copyAsk_asked]
  rcases List.mem_append.1 hl with hl | hl
  · exact List.mem_append_left _ hl
  · refine List.mem_append_right _ ?_
    rw [List.take_of_length_le]
    · exact hl
    · exact copyQueries_length ..

end

/-! ### Example -/
section
open Toy

/-- One commitment, to the message 10 at index 2 with blinding 7. -/
def exComs : List (List Nat × List K × K) := [([2], [10], 7)]

/-- Where the message is put: slot 1. -/
def exMap : Mapping := ⟨1, [⟨0, 2, 0, 1⟩], [2], 1⟩

/-- The user's equation `w₃ = w₁`. -/
def exUser : Matrix (Fin (5 + 1)) (Fin (5 + 1)) K := Matrix.of fun i j =>
  if i = 0 ∧ j = 3 then 1 else if i = 0 ∧ j = 1 then -1 else 0

/-- A commitment to a vector with 9 in slots 1 and 3. It solves the user's equation, but the message is wrong. -/
def exCw : Coeffs K (5 + 3) := (![1, 9, 0, 9, 0, 0, 5, 7], 0, 0)

/-- A prover of Copy that looks at `alpha` and lets everything else depend on it. -/
def exCopyProver (Gs Hs : Fin (5 + 3) → K) (Q : K) :
    Algo (Note (Coeffs K (5 + 3))) (AlgCopy K (Coeffs K (5 + 3))) :=
  .ask (alphaNotes codec.compress (evalCoeffs (F := K) Gs Hs Q) exCw) fun v =>
    let x : K := (leNat v.toList : Nat)
    .done ⟨exCw, (0, ![x, x ^ 2, 5, 7, 0, 0, 1, 2], 0), ⟨(![x, 0, 0, 1, 0, 0, 0, 0], 0, 1),
      ⟨[(![x, 0, 0, 0, 0, 0, 0, 0], 0, 1), 0, 0], [(0, ![0, x, 0, 0, 0, 0, 0, 0], 2), 0, 0], x, 1⟩⟩,
      []⟩

example : computeMapping (5 + 3) 1 (exComs.map (·.1)) = .ok exMap := by decide +kernel

/-- C70 for this prover. -/
example (Gs Hs : Fin (5 + 3) → K) (Q : K) (ro : Hash) : ∃ D : Finset (List Event),
    chance ro D (fun ro =>
      let p := (exCopyProver Gs Hs Q).run Prod.fst ro
      (∃ tr', (p.proof codec.compress (evalCoeffs (F := K) Gs Hs Q)).verify ⟨codec, ro⟩ ⟨[]⟩ (List.ofFn Gs)
        (List.ofFn Hs) Q ⟨[exUser].map rows⟩ exMap [10 * Gs 2 + 7 * Gs 7] = .ok (true, tr')) ∧
      ∀ c ∈ copyCandidates ro codec Gs Hs Q [exUser] exMap exComs [] ((exCopyProver Gs Hs Q).asked Prod.fst ro) p,
        evalCoeffs Gs Hs Q c = 0 → c = 0) ≤ 80 * (1 / 101 + 1 / 2 ^ 512) := by
  obtain ⟨D, hD⟩ := C70_domain codec.compress (evalCoeffs (F := K) Gs Hs Q) [] (coeffG K _) (coeffH K _)
    (coeffQ K _) [exUser] exMap (exComs.map (messageCommit (coeffG K _))) (exCopyProver Gs Hs Q)
  refine ⟨D, ?_⟩
  have hcom : exComs.mapM (fun c => Copy.commit (List.ofFn Gs) c.1 c.2.1 c.2.2) =
      .ok [10 * Gs 2 + 7 * Gs 7] := by
    have := C32_commit_value (F := K) Gs ![(2 : Fin (7 + 1))] ![(10 : K)] 7
    simp only [Fin.sum_univ_one] at this
    have e : Copy.commit (List.ofFn Gs) [2] [(10 : K)] 7 = .ok (10 * Gs 2 + 7 * Gs 7) := this
    rw [exComs]
    simp only [List.mapM_cons, List.mapM_nil]
    rw [e]
    rfl
  have := C70_copy_algebraic (m := 5) (q := 3) (T := 1) (ws := 1) (F := K) rfl codec Gs Hs Q [exUser] exMap
    exComs _ hcom (by decide) (by decide) (by decide) (by decide +kernel) (by decide) (by decide) (by decide)
    (by
      intro U hU i j hij
      obtain ⟨c, hc, h⟩ := hij
      rw [List.mem_singleton.1 hc, List.mem_singleton, List.mem_singleton] at h
      rw [List.mem_singleton.1 hU]
      rw [exUser, Matrix.of_apply, if_neg, if_neg]
      · rintro ⟨rfl, rfl⟩
        exact absurd h (by decide)
      · rintro ⟨rfl, rfl⟩
        exact absurd h (by decide))
    (by decide) []
    (by simp) (fun c => C67_scalars 101 c) (exCopyProver Gs Hs Q) (fun _ => True.intro) (by
      intro ro l hl e he
      simp only [exCopyProver, Algo.asked, List.mem_singleton] at hl
      subst hl
      simp only [alphaNotes, List.mem_cons, List.not_mem_nil, or_false] at he
      rcases he with rfl | rfl
      · exact truthful_point _ _ "c_w" (by decide) _
      · exact truthful_plain _ _ _ rfl) ro D hD
  refine (chance_mono fun ro h => ?_).trans (this.trans ?_)
  · refine ⟨h.1, (show (exCw.1 0 = 1 ∧ exCw.2.1 = 0 ∧ exCw.2.2 = 0) by decide +kernel), ⟨rfl, rfl⟩, ?_, h.2⟩
    intro hh
    have h1 := (hh.2 ⟨0, 2, 0, 1⟩ (by simp [exMap])).1
    exact absurd h1 (show ¬ slot (fun j : Fin (5 + 1) => exCw.1 (Fin.castAdd 2 j)) 1 =
      (exComs.map (·.2.1)).flatten.getD 0 0 by decide +kernel)
  · rw [show ∀ B, (1 + (3 + 6)) * (max (5 + 3) exComs.length * B) = 80 * B from fun B => by
      rw [show max (5 + 3) exComs.length = 8 from rfl]; omega]
    exact C67_bound 80 101

end
end Qesa.Props
