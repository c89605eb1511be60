import Verif.Proofs.QesaMachine
import Verif.Props.RandomOracle
/-
C69: soundness of QESA in the random-oracle model, for algebraic provers that commit as the honest prover does.
-/
namespace Qesa.Props
open Qesa Spec Ipa

section
variable {F G V : Type} [Field F] [DecidableEq F] [AddCommGroup V] [Module F V] {m k : Nat}

/-- The queries of the verifier of QESA. -/
def qesaAsk {α : Type} (cmp : G → Comp) (ev : V → G) (log : List (Note V)) (Gs Hs : List V) (Q : V) (j : Nat)
    (Ms : Fin k → Matrix (Fin m) (Fin m) F) (p : AlgQesa F V) (o : α) : Algo (Note V) α :=
  let log1 := log ++ xNotes cmp ev p.C'
  let log2 := log1 ++ sNotes cmp ev p.C''
  let log3 := log2 ++ [(.chal "b" 64, none)]
  .ask log1 fun vx => .ask log2 fun vs => .ask log3 fun vb =>
    let x : F := (leNat vx.toList : Nat)
    let s : F := (leNat vs.toList : Nat)
    let b : F := (leNat vb.toList : Nat)
    let M := batched (m + 2) Ms x
    let C_w := qesaPoint M Gs Hs p.C' p.C'' x s b
    almAsk cmp ev (log3 ++ [(.msg "c_w" (cmp (ev C_w)), some C_w)]) (m + 2) j Q C_w (- quad M (powers s m)) p.alm o

omit [DecidableEq F] in
theorem qesaAsk_asked {α : Type} (cmp : G → Comp) (ev : V → G) (log : List (Note V)) (Gs Hs : List V) (Q : V)
    (j : Nat) (Ms : Fin k → Matrix (Fin m) (Fin m) F) (p : AlgQesa F V) (o : α) (ro : Hash) :
    (qesaAsk cmp ev log Gs Hs Q j Ms p o).asked Prod.fst ro =
      (qesaQueries ro cmp ev log Gs Hs Q Ms p).take (j + 4) := by
  simp only [qesaAsk, Algo.asked, almAsk_asked, qesaQueries, List.take_succ_cons]
  have e1 : (log ++ xNotes cmp ev p.C').map Prod.fst =
      log.map Prod.fst ++ [.msg "c_prime_w" (cmp (ev p.C')), .chal "x" 64] := by
    rw [List.map_append]; rfl
  have e2 : (log ++ xNotes cmp ev p.C' ++ sNotes cmp ev p.C'').map Prod.fst =
      log.map Prod.fst ++ [.msg "c_prime_w" (cmp (ev p.C')), .chal "x" 64,
        .msg "c_prime_prime_w" (cmp (ev p.C'')), .chal "s" 64] := by
    rw [List.map_append, e1, List.append_assoc]; rfl
  have e3 : (log ++ xNotes cmp ev p.C' ++ sNotes cmp ev p.C'' ++ [(Event.chal "b" 64, none)]).map Prod.fst =
      log.map Prod.fst ++ [.msg "c_prime_w" (cmp (ev p.C')), .chal "x" 64,
        .msg "c_prime_prime_w" (cmp (ev p.C'')), .chal "s" 64, .chal "b" 64] := by
    rw [List.map_append, e2, List.append_assoc]; rfl
  rw [e1, e2, e3]
  rfl

omit [DecidableEq F] in
theorem qesaAsk_atMost {α : Type} (cmp : G → Comp) (ev : V → G) (log : List (Note V)) (Gs Hs : List V) (Q : V)
    (j : Nat) (Ms : Fin k → Matrix (Fin m) (Fin m) F) (p : AlgQesa F V) (o : α) :
    (qesaAsk cmp ev log Gs Hs Q j Ms p o).AtMost (j + 4) :=
  fun _ _ _ => almAsk_atMost cmp ev _ _ j Q _ _ p.alm o

theorem qesa_core {α : Type} {q B T : Nat} (hq : m + 3 = 2 ^ q) (cmp : G → Comp) (ev : V → G) (Gs Hs : List V)
    (Q : V) (hG : Gs.length = m + 3) (hH : Hs.length = m + 3) (hf : Free (F := F) Gs Hs Q)
    (Ms : Fin k → Matrix (Fin (m + 1)) (Fin (m + 1)) F) (log : List (Note V))
    (hB : ∀ c : F, Nat.card {v : Vector UInt8 64 // ((leNat v.toList : Nat) : F) = c} ≤ B)
    (A : Algo (Note V) α) (hT : A.AtMost T) (out : α → AlgQesa F V) (ro : Hash) (D : Finset (List Event))
    (hD : ∀ ro, ∀ l ∈ A.asked Prod.fst ro ++
      qesaQueries ro cmp ev log Gs Hs Q Ms (out (A.run Prod.fst ro)), l.map Prod.fst ∈ D)
    (Win : Hash → Prop)
    (hWin : ∀ ro, Win ro → let p := out (A.run Prod.fst ro)
      NoConflict (A.asked Prod.fst ro ++ qesaQueries ro cmp ev log Gs Hs Q Ms p) ∧
      p.alm.ipa.Ls.length = q ∧ (∃ w : Violates Ms, p.C' = commit Gs w.1) ∧
      (∃ y : (Fin (m + 1) → F) × F × F, p.C'' = commit Hs y) ∧
      qesaGap ro (log.map Prod.fst) (fun L => cmp (ev L)) Gs Hs Q Ms p = 0) :
    countHashes ro D Win * 2 ^ 512 ≤ (T + (q + 5)) * ((m + 3) * B) * (2 ^ 512) ^ D.card := by
  set vf : α → Algo (Note V) α := fun o => qesaAsk cmp ev log Gs Hs Q (q + 1) Ms (out o) o with hvf
  have hask : ∀ ro, (A.andThen vf).asked Prod.fst ro = A.asked Prod.fst ro ++
      (qesaQueries ro cmp ev log Gs Hs Q Ms (out (A.run Prod.fst ro))).take (q + 5) := by
    intro ro
    rw [Algo.asked_andThen, hvf, qesaAsk_asked]
  refine (qesaMachine_sound cmp ev hq Gs Hs Q hG hH hf Ms).count Prod.fst hB ro D (A.andThen vf) (T + (q + 5))
    ?_ ?_ .first log (fun h => h) Win ?_
  · refine Algo.andThen_atMost vf (q + 5) (fun o => ?_) _ _ hT
    exact qesaAsk_atMost cmp ev log Gs Hs Q (q + 1) Ms (out o) o
  · intro f l hl
    rw [hask] at hl
    apply hD (patch ro D f)
    rcases List.mem_append.1 hl with hl | hl
    · exact List.mem_append_left _ hl
    · exact List.mem_append_right _ (List.mem_of_mem_take hl)
  · intro ro hw
    obtain ⟨hc, hl, ⟨w, hC'⟩, ⟨y, hC''⟩, hg⟩ := hWin ro hw
    rw [hask]
    constructor
    · apply hc.mono
      intro l hl
      rcases List.mem_append.1 hl with hl | hl
      · exact List.mem_append_left _ hl
      · exact List.mem_append_right _ (List.mem_of_mem_take hl)
    · obtain ⟨ls, s', hp, hs, hm⟩ := qesa_path cmp ev hq Gs Hs Q hG hH Ms ro log _ w y hC' hC'' hl hg
      refine ⟨ls, s', hp, hs, fun l h => List.mem_append_right _ ?_⟩
      rw [List.take_of_length_le]
      · exact hm l h
      · simp only [qesaQueries, almQueries, ipaQueries, List.length_cons]
        have := roundQueries_length cmp ev (out (A.run Prod.fst ro)).alm.ipa.Ls
          (out (A.run Prod.fst ro)).alm.ipa.Rs
        rw [hl] at this
        simpa using this _

end

section
variable {F G : Type} [Field F] [DecidableEq F] [AddCommGroup G] [Module F G] [DecidableEq G] {m k : Nat}

omit [DecidableEq F] [DecidableEq G] in
theorem map_dot {V : Type} [AddCommGroup V] [Module F V] (ev : V →ₗ[F] G) : ∀ (u : List F) (Gs : List V),
    ev (dot u Gs) = dot u (Gs.map ev)
  | [], _ => by simp [dot]
  | _ :: _, [] => by simp [dot]
  | a :: u, g :: Gs => by rw [List.map_cons, dot_cons, dot_cons, map_add, map_smul, map_dot ev u Gs]

omit [DecidableEq F] [DecidableEq G] in
theorem map_rescaled {V : Type} [AddCommGroup V] [Module F V] (ev : V →ₗ[F] G) (β : F) (Gs : List V) :
    (rescaled β Gs).map ev = rescaled β (Gs.map ev) := by
  cases Gs with
  | nil => rfl
  | cons g Gs => simp [rescaled]

omit [DecidableEq F] [DecidableEq G] in
theorem map_qesaPoint {V : Type} [AddCommGroup V] [Module F V] (ev : V →ₗ[F] G)
    (M : Matrix (Fin m) (Fin m) F) (Gs Hs : List V) (C' C'' : V) (x s b : F) :
    ev (qesaPoint M Gs Hs C' C'' x s b) = qesaPoint M (Gs.map ev) (Hs.map ev) (ev C') (ev C'') x s b := by
  unfold qesaPoint
  simp only [map_add, map_sub, map_smul, map_dot, map_rescaled]
  congr 5
  cases Gs <;> simp

omit [DecidableEq F] [DecidableEq G] in
theorem map_qesaGap {V : Type} [AddCommGroup V] [Module F V] (ev : V →ₗ[F] G) (ro : Hash) (log : List Event)
    (cmp : G → Comp) (Gs Hs : List V) (Q : V) (Ms : Fin k → Matrix (Fin m) (Fin m) F) (p : AlgQesa F V) :
    ev (qesaGap ro log (fun L => cmp (ev L)) Gs Hs Q Ms p) =
      qesaGap ro log cmp (Gs.map ev) (Hs.map ev) (ev Q) Ms
        ⟨ev p.C', ev p.C'', ⟨ev p.alm.C_r, ⟨p.alm.ipa.Ls.map ev, p.alm.ipa.Rs.map ev, p.alm.ipa.a,
          p.alm.ipa.b⟩⟩⟩ := by
  unfold qesaGap
  simp only [map_almGap, map_qesaPoint, map_rescaled]

omit [DecidableEq F] in
theorem qesa_accepts_iff {q : Nat} (hm : 0 < m) (hq : m + 2 = 2 ^ q) (cx : Ctx G) (tr : Transcript)
    (Gs Hs : List G) (Q : G) (Ms : Fin (k + 1) → Matrix (Fin m) (Fin m) F) (p : AlgQesa F G)
    (hG : Gs.length = m + 2) (hH : Hs.length = m + 2) :
    (∃ tr', (p.proof cx.compress id).verify cx tr Gs Hs Q ⟨List.ofFn fun i => rows (Ms i)⟩ =
        .ok (true, tr')) ↔
      p.alm.ipa.Ls.length = q ∧ q < 64 ∧ qesaGap cx.ro tr.log cx.compress Gs Hs Q Ms p = 0 := by
  obtain ⟨g0, Gs0, hGs⟩ : ∃ g0 Gs0, Gs = g0 :: Gs0 := by
    cases Gs with
    | nil => simp at hG
    | cons g Gs => exact ⟨g, Gs, rfl⟩
  have e := Inner.verify_eq hm cx (p.proof cx.compress id).inner tr Gs Hs Q Ms p.C' p.C'' rfl rfl g0 Gs0 hGs
    hG hH
  have e' : (p.proof cx.compress id).verify cx tr Gs Hs Q ⟨List.ofFn fun i => rows (Ms i)⟩ =
      (p.proof cx.compress id).inner.verify cx tr Gs Hs Q ⟨List.ofFn fun i => rows (Ms i)⟩ := rfl
  rw [e', e]
  simp only
  rw [hq]
  refine (alm_accepts_iff (q := q) cx _ _ Hs Q _ _ p.alm (by rw [rescaled_length, hG, hq]) (by rw [hH, hq])).trans ?_
  simp only [qesaGap, qesaPoint, hGs, List.headD_cons, hq]
  rfl

omit [DecidableEq F] [AddCommGroup G] [Module F G] [DecidableEq G] in
theorem truthful_qesa {V : Type} [AddCommGroup V] [Module F V] (cd : Codec G) (ev : V → G) (log : List (Note V))
    (ro : Hash) (Gs Hs : List V) (Q : V) (Ms : Fin k → Matrix (Fin m) (Fin m) F) (p : AlgQesa F V)
    (h : ∀ e ∈ log, Truthful cd ev e) :
    ∀ l ∈ qesaQueries ro cd.compress ev log Gs Hs Q Ms p, ∀ e ∈ l, Truthful cd ev e := by
  have h1 : ∀ e ∈ log ++ xNotes cd.compress ev p.C', Truthful cd ev e := by
    intro e he
    simp only [List.mem_append, xNotes, List.mem_cons, List.not_mem_nil, or_false] at he
    rcases he with he | rfl | rfl
    · exact h e he
    · exact truthful_point cd ev "c_prime_w" (by decide) _
    · exact truthful_plain cd ev _ rfl
  have h2 : ∀ e ∈ log ++ xNotes cd.compress ev p.C' ++ sNotes cd.compress ev p.C'', Truthful cd ev e := by
    intro e he
    rcases List.mem_append.1 he with he | he
    · exact h1 e he
    simp only [sNotes, List.mem_cons, List.not_mem_nil, or_false] at he
    rcases he with rfl | rfl
    · exact truthful_point cd ev "c_prime_prime_w" (by decide) _
    · exact truthful_plain cd ev _ rfl
  have h3 : ∀ e ∈ log ++ xNotes cd.compress ev p.C' ++ sNotes cd.compress ev p.C'' ++ [(.chal "b" 64, none)],
      Truthful cd ev e := by
    intro e he
    rcases List.mem_append.1 he with he | he
    · exact h2 e he
    · rw [List.mem_singleton.1 he]
      exact truthful_plain cd ev _ rfl
  intro l hl
  rw [qesaQueries] at hl
  simp only [List.mem_cons] at hl
  rcases hl with rfl | rfl | rfl | hl
  · exact h1
  · exact h2
  · exact h3
  · refine truthful_alm cd ev _ _ _ _ _ _ _ ?_ l hl
    intro e he
    rcases List.mem_append.1 he with he | he
    · exact h3 e he
    · rw [List.mem_singleton.1 he]
      exact truthful_point cd ev "c_w" (by decide) _

omit [Field F] [DecidableEq F] in
theorem ofFn_split (f : Fin (m + 3) → F) :
    List.ofFn f = List.ofFn (fun j : Fin (m + 1) => f (Fin.castAdd 2 j)) ++
      [f ⟨m + 1, by omega⟩, f ⟨m + 2, by omega⟩] := by
  refine List.ext_getElem (by simp) fun i h1 h2 => ?_
  rw [List.length_ofFn] at h1
  rw [List.getElem_ofFn, List.getElem_append]
  split
  · rw [List.getElem_ofFn]; rfl
  · rename_i h
    simp only [List.length_ofFn, Nat.not_lt] at h
    simp only [List.length_ofFn]
    obtain rfl | rfl : i = m + 1 ∨ i = m + 2 := by omega
    · simp
    · simp [show m + 2 - (m + 1) = 1 by omega]

omit [DecidableEq F] in
theorem commit_coeffG (C : Coeffs F (m + 3)) (h1 : C.2.1 = 0) (h2 : C.2.2 = 0) :
    C = commit (coeffG F (m + 3)) (fun j : Fin (m + 1) => C.1 (Fin.castAdd 2 j), C.1 ⟨m + 1, by omega⟩,
      C.1 ⟨m + 2, by omega⟩) := by
  rw [commit, ← ofFn_split, dot_coeffG]
  exact Prod.ext rfl (Prod.ext h1 h2)

omit [DecidableEq F] in
theorem commit_coeffH (C : Coeffs F (m + 3)) (h1 : C.1 = 0) (h2 : C.2.2 = 0) :
    C = commit (coeffH F (m + 3)) (fun j : Fin (m + 1) => C.2.1 (Fin.castAdd 2 j), C.2.1 ⟨m + 1, by omega⟩,
      C.2.1 ⟨m + 2, by omega⟩) := by
  rw [commit, ← ofFn_split, dot_coeffH]
  exact Prod.ext h1 (Prod.ext rfl h2)

omit [DecidableEq F] in
theorem violates_coeff (Ms : Fin k → Matrix (Fin (m + 1)) (Fin (m + 1)) F) (C : Coeffs F (m + 3))
    (h0 : C.1 0 = 1) (h1 : C.2.1 = 0) (h2 : C.2.2 = 0)
    (h : ∃ i, i.val < m + 3 ∧ quad (Ms i) (fun j => C.1 (Fin.castAdd 2 j)) ≠ 0) :
    ∃ w : Violates Ms, C = commit (coeffG F (m + 3)) w.1 := by
  have e : (Fin.castAdd 2 (0 : Fin (m + 1)) : Fin (m + 3)) = 0 := Fin.ext (by simp)
  exact ⟨⟨(fun j : Fin (m + 1) => C.1 (Fin.castAdd 2 j), C.1 ⟨m + 1, by omega⟩, C.1 ⟨m + 2, by omega⟩),
    (congrArg C.1 e).trans h0, h⟩, commit_coeffG C h1 h2⟩

/-- The relations that a prover of QESA and the verifier can read off: the difference of the two sides of the
verification equation, and the differences of any two representations sent to the hash function. -/
def qesaCandidates {n : Nat} (ro : Hash) (cd : Codec G) (Gs Hs : Fin n → G) (Q : G)
    (Ms : Fin k → Matrix (Fin m) (Fin m) F) (log : List (Note (Coeffs F n)))
    (asked : List (List (Note (Coeffs F n)))) (p : AlgQesa F (Coeffs F n)) : List (Coeffs F n) :=
  let ev := evalCoeffs Gs Hs Q
  qesaGap ro (log.map Prod.fst) (fun L => cd.compress (ev L)) (coeffG F n) (coeffH F n) (coeffQ F n) Ms p ::
    differences (notes (asked ++
      qesaQueries ro cd.compress ev log (coeffG F n) (coeffH F n) (coeffQ F n) Ms p))

/-- C69: soundness of QESA in the random-oracle model, for algebraic provers that commit the way the honest
prover does. Fix the equations. The prover chooses everything else, as a function of the challenges it asks for;
its two first messages are commitments in `G` with first coefficient one, and in `H`. For all but a fraction
`(T + q + 5) (m + 3) B / 2^512` of the hash functions, the proof is rejected, or the vector in the first message
solves every equation that the verifier looks at, or one of the candidates is a non-trivial relation between
the generators. -/
theorem C69_qesa_algebraic {q T B : Nat} (hq : m + 3 = 2 ^ q) (cd : Codec G) (Gs Hs : Fin (m + 3) → G) (Q : G)
    (Ms : Fin (k + 1) → Matrix (Fin (m + 1)) (Fin (m + 1)) F)
    (log : List (Note (Coeffs F (m + 3)))) (hlog : ∀ e ∈ log, Truthful cd (evalCoeffs Gs Hs Q) e)
    (hB : ∀ c : F, Nat.card {v : Vector UInt8 64 // ((leNat v.toList : Nat) : F) = c} ≤ B)
    (A : Algo (Note (Coeffs F (m + 3))) (AlgQesa F (Coeffs F (m + 3)))) (hT : A.AtMost T)
    (hA : ∀ ro, ∀ l ∈ A.asked Prod.fst ro, ∀ e ∈ l, Truthful cd (evalCoeffs Gs Hs Q) e)
    (ro : Hash) (D : Finset (List Event))
    (hD : ∀ ro, ∀ l ∈ A.asked Prod.fst ro ++ qesaQueries ro cd.compress (evalCoeffs Gs Hs Q) log
      (coeffG F _) (coeffH F _) (coeffQ F _) Ms (A.run Prod.fst ro), l.map Prod.fst ∈ D) :
    chance ro D (fun ro =>
      let p := A.run Prod.fst ro
      (∃ tr', (p.proof cd.compress (evalCoeffs Gs Hs Q)).verify ⟨cd, ro⟩ ⟨log.map Prod.fst⟩ (List.ofFn Gs)
        (List.ofFn Hs) Q ⟨List.ofFn fun i => rows (Ms i)⟩ = .ok (true, tr')) ∧
      (p.C'.1 0 = 1 ∧ p.C'.2.1 = 0 ∧ p.C'.2.2 = 0) ∧ (p.C''.1 = 0 ∧ p.C''.2.2 = 0) ∧
      (∃ i, i.val < m + 3 ∧ quad (Ms i) (fun j => p.C'.1 (Fin.castAdd 2 j)) ≠ 0) ∧
      ∀ c ∈ qesaCandidates ro cd Gs Hs Q Ms log (A.asked Prod.fst ro) p, evalCoeffs Gs Hs Q c = 0 → c = 0) ≤
    ((T + (q + 5)) * ((m + 3) * B) : Nat) / 2 ^ 512 := by
  apply chance_le
  refine qesa_core hq cd.compress (evalCoeffs Gs Hs Q) (coeffG F _) (coeffH F _) (coeffQ F _)
    (by simp [coeffG]) (by simp [coeffH]) coeff_free Ms log hB A hT id ro D hD _ ?_
  rintro ro ⟨⟨tr', hv⟩, ⟨h0, hg1, hg2⟩, ⟨hh1, hh2⟩, hviol, hc⟩
  set p := A.run Prod.fst ro
  have hver := (qesa_accepts_iff (m := m + 1) (q := q) (Nat.succ_pos m) hq ⟨cd, ro⟩ ⟨log.map Prod.fst⟩
    (List.ofFn Gs) (List.ofFn Hs) Q Ms
    ⟨evalCoeffs Gs Hs Q p.C', evalCoeffs Gs Hs Q p.C'', ⟨evalCoeffs Gs Hs Q p.alm.C_r,
      ⟨p.alm.ipa.Ls.map (evalCoeffs Gs Hs Q), p.alm.ipa.Rs.map (evalCoeffs Gs Hs Q), p.alm.ipa.a,
        p.alm.ipa.b⟩⟩⟩ (by simp) (by simp)).1 ⟨tr', by
      unfold AlgQesa.proof AlgAlm.proof AlgIpa.proof at hv ⊢
      simp only [List.map_map]
      exact hv⟩
  obtain ⟨h1, -, h2⟩ := hver
  refine ⟨?_, by simpa using h1, violates_coeff Ms p.C' h0 hg1 hg2 hviol,
    ⟨_, commit_coeffH p.C'' hh1 hh2⟩, ?_⟩
  · apply noConflict_of_truthful cd (evalCoeffs Gs Hs Q)
    · intro l hl
      rcases List.mem_append.1 hl with hl | hl
      · exact hA ro l hl
      · exact truthful_qesa cd _ _ _ _ _ _ _ _ hlog l hl
    · exact fun c h => hc c (List.mem_cons_of_mem _ h)
  · refine hc _ List.mem_cons_self ?_
    rw [map_qesaGap, eval_coeffG, eval_coeffH, eval_coeffQ]
    exact h2

omit [DecidableEq F] [AddCommGroup G] [Module F G] [DecidableEq G] in
/-- C69: for every prover there is a finite set of histories as in C69_qesa_algebraic. -/
theorem C69_domain {V : Type} [AddCommGroup V] [Module F V] (cmp : G → Comp) (ev : V → G)
    (log : List (Note V)) (Gs Hs : List V) (Q : V) (Ms : Fin k → Matrix (Fin m) (Fin m) F)
    (A : Algo (Note V) (AlgQesa F V)) :
    ∃ D : Finset (List Event), ∀ ro, ∀ l ∈ A.asked Prod.fst ro ++ qesaQueries ro cmp ev log Gs Hs Q Ms
      (A.run Prod.fst ro), l.map Prod.fst ∈ D := by
  obtain ⟨D, hD⟩ := exists_domain Prod.fst (fun _ _ => []) (by simp) (A.andThen fun p =>
    qesaAsk cmp ev log Gs Hs Q (p.alm.ipa.Ls.length + 1) Ms p p)
  refine ⟨D, fun ro l hl => (hD ro).1 l ?_⟩
  rw [Algo.asked_andThen, qesaAsk_asked]
  rcases List.mem_append.1 hl with hl | hl
  · exact List.mem_append_left _ hl
  · refine List.mem_append_right _ ?_
    rw [List.take_of_length_le]
    · exact hl
    · simp only [qesaQueries, almQueries, ipaQueries, List.length_cons]
      have := roundQueries_length cmp ev (A.run Prod.fst ro).alm.ipa.Ls (A.run Prod.fst ro).alm.ipa.Rs
      simpa using this _

end

/-! ### Example -/
section
open Toy

/-- A commitment to `(1, 2)` with masks `5` and `7`. -/
def exFirst : Coeffs K (1 + 3) := (![1, 2, 5, 7], 0, 0)

/-- The equation `w₁² = w₁`. -/
def exBit : Fin (0 + 1) → Matrix (Fin (1 + 1)) (Fin (1 + 1)) K := fun _ => !![0, -1; 0, 1]

/-- A prover of QESA that commits to `(1, 2)`, looks at `x`, and lets everything else depend on it. -/
def exQesaProver (Gs Hs : Fin (1 + 3) → K) (Q : K) : Algo (Note (Coeffs K (1 + 3))) (AlgQesa K (Coeffs K (1 + 3))) :=
  .ask (xNotes codec.compress (evalCoeffs (F := K) Gs Hs Q) exFirst) fun v =>
    let x : K := (leNat v.toList : Nat)
    .done ⟨exFirst, (0, ![x, x ^ 2, 5, 7], 0), ⟨(![x, 0, 0, 1], 0, 1),
      ⟨[(![x, 0, 0, 0], 0, 1), 0], [(0, ![0, x, 0, 0], 2), 0], x, 1⟩⟩⟩

/-- C69 for this prover and the equation `w₁² = w₁`, which the committed vector does not solve. -/
example (Gs Hs : Fin (1 + 3) → K) (Q : K) (ro : Hash) : ∃ D : Finset (List Event),
    chance ro D (fun ro =>
      let p := (exQesaProver Gs Hs Q).run Prod.fst ro
      (∃ tr', (p.proof codec.compress (evalCoeffs (F := K) Gs Hs Q)).verify ⟨codec, ro⟩ ⟨[]⟩ (List.ofFn Gs)
        (List.ofFn Hs) Q ⟨List.ofFn fun i => rows (exBit i)⟩ = .ok (true, tr')) ∧
      ∀ c ∈ qesaCandidates ro codec Gs Hs Q exBit [] ((exQesaProver Gs Hs Q).asked Prod.fst ro) p,
        evalCoeffs Gs Hs Q c = 0 → c = 0) ≤ 32 * (1 / 101 + 1 / 2 ^ 512) := by
  obtain ⟨D, hD⟩ := C69_domain codec.compress (evalCoeffs (F := K) Gs Hs Q) [] (coeffG K _) (coeffH K _)
    (coeffQ K _) exBit (exQesaProver Gs Hs Q)
  refine ⟨D, ?_⟩
  have := C69_qesa_algebraic (m := 1) (q := 2) (T := 1) (F := K) rfl codec Gs Hs Q exBit []
    (by simp) (fun c => C67_scalars 101 c) (exQesaProver Gs Hs Q) (fun _ => True.intro) (by
      intro ro l hl e he
      simp only [exQesaProver, Algo.asked, List.mem_singleton] at hl
      subst hl
      simp only [xNotes, List.mem_cons, List.not_mem_nil, or_false] at he
      rcases he with rfl | rfl
      · exact truthful_point _ _ "c_prime_w" (by decide) _
      · exact truthful_plain _ _ _ rfl) ro D hD
  refine (chance_mono fun ro h => ?_).trans (this.trans ?_)
  · exact ⟨h.1, (show (exFirst.1 0 = 1 ∧ exFirst.2.1 = 0 ∧ exFirst.2.2 = 0) by decide +kernel), ⟨rfl, rfl⟩,
      ⟨0, by decide, (show quad (exBit 0) (fun j => exFirst.1 (Fin.castAdd 2 j)) ≠ 0 by decide +kernel)⟩, h.2⟩
  · rw [show ∀ B, (1 + (2 + 5)) * ((1 + 3) * B) = 32 * B from fun B => by omega]
    exact C67_bound 32 101

end
end Qesa.Props
