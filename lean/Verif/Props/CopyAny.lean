import Verif.Proofs.CopyAny
import Verif.Proofs.CopyDrift
import Verif.Props.QesaAny
import Verif.Props.CopyOracle
/-
C91: what an accepted proof of Copy says in the random-oracle model, for all algebraic provers.
-/
namespace Qesa.Props
open Qesa Spec Copy

section
variable {F G V : Type} [Field F] [DecidableEq F] [AddCommGroup V] [Module F V] {m : Nat}

theorem copyAny_core {α : Type} {q B T N : Nat} (hq : m + 3 = 2 ^ q) (cmp : G → Comp) (ev : V → G) (Gs Hs : List V)
    (Q : V) (hG : Gs.length = m + 3) (hH : Hs.length = m + 3) (hf : Free (F := F) Gs Hs Q)
    (Us : List (Matrix (Fin (m + 1)) (Fin (m + 1)) F)) (map : Mapping) (P : CopyPlan F V) (hN : m + 3 ≤ N)
    (h0 : ∀ C, P.start C → ∃ B : Finset F, B.card ≤ N ∧ ∀ α, P.lucky C α → α ∈ B)
    (h1 : ∀ C α C', (P.rest C α).first C' →
      ∃ B : Finset F, B.card ≤ N ∧ ∀ x, (P.rest C α).lucky C' x → x ∈ B)
    (h2 : ∀ C α C' x C'', ¬ (P.rest C α).lucky C' x → (P.rest C α).second C' x C'' →
      x ≠ 0 ∧ ¬ QesaClaim (batched (m + 3) (copySystem Us map α).get x) x Gs Hs (C' + C''))
    (Cs : List V) (log : List (Note V))
    (hB : ∀ c : F, Nat.card {v : Vector UInt8 64 // ((leNat v.toList : Nat) : F) = c} ≤ B)
    (A : Algo (Note V) α) (hT : A.AtMost T) (out : α → AlgCopy F V) (ro : Hash) (D : Finset (List Event))
    (hD : ∀ ro, ∀ l ∈ A.asked Prod.fst ro ++ copyQueries ro cmp ev log Gs Hs Q Us map Cs
      (out (A.run Prod.fst ro)), l.map Prod.fst ∈ D)
    (Win : Hash → Prop)
    (hWin : ∀ ro, Win ro → let p := out (A.run Prod.fst ro)
      NoConflict (A.asked Prod.fst ro ++ copyQueries ro cmp ev log Gs Hs Q Us map Cs p) ∧
      p.alm.ipa.Ls.length = q ∧ P.start p.C_w ∧
      (let α := copyAlpha F ro (log.map Prod.fst) (cmp (ev p.C_w)); P.lucky p.C_w α ∨
        (P.rest p.C_w α).first (p.qesa Cs α).C' ∧
        (P.rest p.C_w α).second (p.qesa Cs α).C' (qesaX F ro (log.map Prod.fst ++
          [.msg "c_w" (cmp (ev p.C_w)), .chal "alpha" 64]) (cmp (ev (p.qesa Cs α).C'))) p.C'') ∧
      copyGap ro (log.map Prod.fst) (fun L => cmp (ev L)) Gs Hs Q Us map Cs p = 0) :
    countHashes ro D Win * 2 ^ 512 ≤ (T + (q + 6)) * (N * B) * (2 ^ 512) ^ D.card := by
  set vf : α → Algo (Note V) α := fun o => copyAsk cmp ev log Gs Hs Q (q + 1) Us map Cs (out o) o with hvf
  have hask : ∀ ro, (A.andThen vf).asked Prod.fst ro = A.asked Prod.fst ro ++
      (copyQueries ro cmp ev log Gs Hs Q Us map Cs (out (A.run Prod.fst ro))).take (q + 6) := by
    intro ro
    rw [Algo.asked_andThen, hvf, copyAsk_asked]
  refine (copyAnyMachine_sound cmp ev hq Gs Hs Q hG hH hf hN h0 h1 h2).count Prod.fst hB ro
    D (A.andThen vf) (T + (q + 6)) ?_ ?_ .start log (fun h => h) Win ?_
  · refine Algo.andThen_atMost vf (q + 6) (fun o => ?_) _ _ hT
    exact copyAsk_atMost cmp ev log Gs Hs Q (q + 1) Us map Cs (out o) o
  · intro f l hl
    rw [hask] at hl
    apply hD (patch ro D f)
    rcases List.mem_append.1 hl with hl | hl
    · exact List.mem_append_left _ hl
    · exact List.mem_append_right _ (List.mem_of_mem_take hl)
  · intro ro hw
    obtain ⟨hc, hl, hC, hr, hg⟩ := hWin ro hw
    rw [hask]
    constructor
    · apply hc.mono
      intro l hl
      rcases List.mem_append.1 hl with hl | hl
      · exact List.mem_append_left _ hl
      · exact List.mem_append_right _ (List.mem_of_mem_take hl)
    · obtain ⟨ls, s', hp, hs', hm⟩ := copyAny_path cmp ev hq Gs Hs Q hG hH Cs ro log _ hC hr hl hg
      refine ⟨ls, s', hp, hs', fun l h => List.mem_append_right _ ?_⟩
      rw [List.take_of_length_le]
      · exact hm l h
      · have := copyQueries_length ro cmp ev log Gs Hs Q Us map Cs (out (A.run Prod.fst ro))
        rwa [hl] at this

end

section
variable {F : Type} [Field F] {m k : Nat}

/-- The coefficients of the aggregated commitment. -/
theorem agg_coeffs {ws : Nat} {map : Mapping} (coms : List (List Nat × List F × F))
    (hwf : WF (m + 3) ws (coms.map (·.1)) map) (hlen : ∀ c ∈ coms, c.1.length = c.2.1.length)
    (hi : ∀ c ∈ coms, ∀ i ∈ c.1, i < m + 1) (α : F) (C : Coeffs F (m + 3)) :
    (fun j : Fin (m + 1) => (dot (List.ofFn (powers α (coms.map (messageCommit (coeffG F (m + 3)))).length))
      (coms.map (messageCommit (coeffG F (m + 3)))) + C).1 (Fin.castAdd 2 j)) =
    copyVector map (coms.map (·.2.1)).flatten α (fun j => C.1 (Fin.castAdd 2 j)) := by
  have e := commit_copyVector coms hwf hlen hi (coeffG F (m + 3)) (by simp [coeffG]) α
    (fun j => C.1 (Fin.castAdd 2 j)) (C.1 ⟨m + 1, by omega⟩) (C.1 ⟨m + 2, by omega⟩)
  have e1 : ∀ (a : Fin (m + 1) → F) (b c : F) (j : Fin (m + 1)),
      (commit (coeffG F (m + 3)) (a, b, c)).1 (Fin.castAdd 2 j) = a j := by
    intro a b c j
    have : List.ofFn a ++ [b, c] = List.ofFn (fun i : Fin (m + 3) =>
        if h : i.val < m + 1 then a ⟨i, h⟩ else if i.val = m + 1 then b else c) := by
      rw [ofFn_split]
      simp
    rw [commit, this, dot_coeffG]
    exact dif_pos j.2
  funext j
  have := congrArg (fun C : Coeffs F (m + 3) => C.1 (Fin.castAdd 2 j)) e
  simp only [Prod.fst_add, Pi.add_apply, e1] at this
  rw [this, List.length_map]
  rfl

theorem few_one (n : Nat) (Ms : Fin k → Matrix (Fin (m + 1)) (Fin (m + 1)) F) (w : Fin (m + 1) → F) (h1 : w 0 = 1)
    (h : ∃ i : Fin k, i.val < n ∧ quad (Ms i) w ≠ 0) :
    ∃ B : Finset F, B.card ≤ n ∧ ∀ x, x = 0 ∨ quad (batched n Ms x) (shifted x w) = 0 → x ∈ B := by
  refine few_of_no_injection n (fun x => x = 0 ∨ quad (batched n Ms x) (shifted x w) = 0) ?_
  rintro ⟨x, hx, h'⟩
  obtain ⟨i, hi, hne⟩ := h
  have e : ∀ x, shifted x w = w := by
    intro x
    rw [shifted, h1, sub_self, mul_zero, add_zero, ← h1, Function.update_eq_self]
  obtain ⟨-, hz⟩ := coeffs_zero (m := n) 0 (fun j => quad (seen n Ms j) w) x hx (by
    intro l
    rw [Fin.sum_univ_eq_sum_range (fun j => x l ^ (j + 1) * quad (seen n Ms j) w) n]
    rcases h' l with h0 | h0
    · rw [h0]
      exact (Finset.sum_eq_zero fun j _ => by simp).symm
    · rw [e] at h0
      rw [← quad_seen, h0])
  have := hz ⟨i, hi⟩
  rw [seen, dif_pos ⟨i.2, hi⟩] at this
  exact hne this

end

section
variable {F G : Type} [Field F] [DecidableEq F] [AddCommGroup G] [Module F G] [DecidableEq G] {m : Nat}

/-- As `copyCandidates`, for commitments `Cs` given by any representations. -/
def copyAnyCandidates {n : Nat} (ro : Hash) (cd : Codec G) (Gs Hs : Fin n → G) (Q : G)
    (Us : List (Matrix (Fin (m + 1)) (Fin (m + 1)) F)) (map : Mapping) (Cs : List (Coeffs F n))
    (log : List (Note (Coeffs F n))) (asked : List (List (Note (Coeffs F n)))) (p : AlgCopy F (Coeffs F n)) :
    List (Coeffs F n) :=
  let ev := evalCoeffs Gs Hs Q
  copyGap ro (log.map Prod.fst) (fun L => cd.compress (ev L)) (coeffG F n) (coeffH F n) (coeffQ F n) Us map
      Cs p ::
    differences (notes (asked ++
      copyQueries ro cd.compress ev log (coeffG F n) (coeffH F n) (coeffQ F n) Us map Cs p))

omit [DecidableEq F] in
theorem copyAny_win {q ws : Nat} (hq : m + 3 = 2 ^ q) (cd : Codec G) (Gs Hs : Fin (m + 3) → G) (Q : G)
    (Us : List (Matrix (Fin (m + 1)) (Fin (m + 1)) F)) (map : Mapping) (sets : List (List Nat))
    (hn : m + 3 < 65536) (hws : ws < 65536) (hs : sets.length ≤ 65536)
    (hmap : computeMapping (m + 3) ws sets = .ok map) (hi : ∀ s ∈ sets, ∀ i ∈ s, i < m + 1)
    (Cs : List (Coeffs F (m + 3))) (hC : Cs.length = sets.length)
    (log : List (Note (Coeffs F (m + 3)))) (hlog : ∀ e ∈ log, Truthful cd (evalCoeffs Gs Hs Q) e)
    (asked : List (List (Note (Coeffs F (m + 3)))))
    (hA : ∀ l ∈ asked, ∀ e ∈ l, Truthful cd (evalCoeffs Gs Hs Q) e) (ro : Hash)
    (p : AlgCopy F (Coeffs F (m + 3)))
    (hv : ∃ tr', (p.proof cd.compress (evalCoeffs Gs Hs Q)).verify ⟨cd, ro⟩ ⟨log.map Prod.fst⟩ (List.ofFn Gs)
        (List.ofFn Hs) Q ⟨Us.map rows⟩ map (Cs.map (evalCoeffs Gs Hs Q)) = .ok (true, tr'))
    (hc : ∀ c ∈ copyAnyCandidates ro cd Gs Hs Q Us map Cs log asked p, evalCoeffs Gs Hs Q c = 0 → c = 0) :
    NoConflict (asked ++ copyQueries ro cd.compress (evalCoeffs Gs Hs Q) log (coeffG F _) (coeffH F _)
      (coeffQ F _) Us map Cs p) ∧ p.alm.ipa.Ls.length = q ∧
    copyGap ro (log.map Prod.fst) (fun L => cd.compress (evalCoeffs Gs Hs Q L)) (coeffG F _) (coeffH F _)
      (coeffQ F _) Us map Cs p = 0 := by
  obtain ⟨tr', hv⟩ := hv
  have hver := (copy_accepts_iff (q := q) hq ⟨cd, ro⟩ ⟨log.map Prod.fst⟩
    (List.ofFn Gs) (List.ofFn Hs) Q Us sets map (Cs.map (evalCoeffs Gs Hs Q))
    ⟨evalCoeffs Gs Hs Q p.C_w, evalCoeffs Gs Hs Q p.C'', ⟨evalCoeffs Gs Hs Q p.alm.C_r,
      ⟨p.alm.ipa.Ls.map (evalCoeffs Gs Hs Q), p.alm.ipa.Rs.map (evalCoeffs Gs Hs Q), p.alm.ipa.a,
        p.alm.ipa.b⟩⟩, p.overwritten⟩ (by simp) (by simp) hn hws hs hmap hi
        (by simpa using hC)).1 ⟨tr', by
      unfold AlgCopy.proof AlgAlm.proof AlgIpa.proof at hv ⊢
      simp only [List.map_map]
      exact hv⟩
  obtain ⟨h1, -, h2⟩ := hver
  refine ⟨?_, by simpa using h1, ?_⟩
  · apply noConflict_of_truthful cd (evalCoeffs Gs Hs Q)
    · intro l hl
      rcases List.mem_append.1 hl with hl | hl
      · exact hA l hl
      · exact truthful_copy cd _ _ _ _ _ _ _ _ _ _ hlog l hl
    · exact fun c h => hc c (List.mem_cons_of_mem _ h)
  · refine hc _ List.mem_cons_self ?_
    rw [map_copyGap, eval_coeffG, eval_coeffH, eval_coeffQ]
    exact h2

/-- C91: what an accepted proof of Copy says, for every algebraic prover and all commitments `Cs`, whatever their
representations. Let `C = ∑ alphaʲ Cⱼ + C_w + C''` and let `(g, h, c)` be its coefficients. For all but a fraction
`(T + q + 6) (m + 3) B / 2^512` of the hash functions, the proof is rejected, or one of the candidates is a
non-trivial relation between the generators, or: `c` is zero, and `u`, the vector `g` with first component
`1 + x² (g₀ - 1)`, solves the batched equation, and `h` is the image of `u` and of the masks under the batched
matrix. -/
theorem C91_copy_any {q T B ws : Nat} (hq : m + 3 = 2 ^ q) (cd : Codec G) (Gs Hs : Fin (m + 3) → G) (Q : G)
    (Us : List (Matrix (Fin (m + 1)) (Fin (m + 1)) F)) (map : Mapping) (sets : List (List Nat))
    (hn : m + 3 < 65536) (hws : ws < 65536) (hs : sets.length ≤ 65536)
    (hmap : computeMapping (m + 3) ws sets = .ok map) (hi : ∀ s ∈ sets, ∀ i ∈ s, i < m + 1)
    (Cs : List (Coeffs F (m + 3))) (hC : Cs.length = sets.length)
    (log : List (Note (Coeffs F (m + 3)))) (hlog : ∀ e ∈ log, Truthful cd (evalCoeffs Gs Hs Q) e)
    (hB : ∀ c : F, Nat.card {v : Vector UInt8 64 // ((leNat v.toList : Nat) : F) = c} ≤ B)
    (A : Algo (Note (Coeffs F (m + 3))) (AlgCopy F (Coeffs F (m + 3)))) (hT : A.AtMost T)
    (hA : ∀ ro, ∀ l ∈ A.asked Prod.fst ro, ∀ e ∈ l, Truthful cd (evalCoeffs Gs Hs Q) e)
    (ro : Hash) (D : Finset (List Event))
    (hD : ∀ ro, ∀ l ∈ A.asked Prod.fst ro ++ copyQueries ro cd.compress (evalCoeffs Gs Hs Q) log
      (coeffG F _) (coeffH F _) (coeffQ F _) Us map Cs (A.run Prod.fst ro), l.map Prod.fst ∈ D) :
    chance ro D (fun ro =>
      let p := A.run Prod.fst ro
      let c_w := cd.compress (evalCoeffs Gs Hs Q p.C_w)
      let α := copyAlpha F ro (log.map Prod.fst) c_w
      let C' := dot (List.ofFn (powers α Cs.length)) Cs + p.C_w
      let x := qesaX F ro (log.map Prod.fst ++ [.msg "c_w" c_w, .chal "alpha" 64])
        (cd.compress (evalCoeffs Gs Hs Q C'))
      let M := batched (m + 3) (copySystem Us map α).get x
      let C := C' + p.C''
      let u := shifted x fun j => C.1 (Fin.castAdd 2 j)
      (∃ tr', (p.proof cd.compress (evalCoeffs Gs Hs Q)).verify ⟨cd, ro⟩ ⟨log.map Prod.fst⟩ (List.ofFn Gs)
        (List.ofFn Hs) Q ⟨Us.map rows⟩ map (Cs.map (evalCoeffs Gs Hs Q)) = .ok (true, tr')) ∧
      ¬ (quad M u = 0 ∧ (∀ j, C.2.1 (Fin.castAdd 2 j) = M.mulVec u j) ∧
        C.2.1 ⟨m + 1, by omega⟩ = - C.1 ⟨m + 2, by omega⟩ ∧ C.2.1 ⟨m + 2, by omega⟩ = C.1 ⟨m + 1, by omega⟩ ∧
        C.2.2 = 0) ∧
      ∀ c ∈ copyAnyCandidates ro cd Gs Hs Q Us map Cs log (A.asked Prod.fst ro) p,
        evalCoeffs Gs Hs Q c = 0 → c = 0) ≤
    ((T + (q + 6)) * ((m + 3) * B) : Nat) / 2 ^ 512 := by
  apply chance_le
  refine copyAny_core hq cd.compress (evalCoeffs Gs Hs Q) (coeffG F _) (coeffH F _) (coeffQ F _)
    (by simp [coeffG]) (by simp [coeffH]) coeff_free Us map
    ⟨fun _ => True, fun _ _ => False, fun _ α => ⟨fun _ => True, fun _ x => x = 0, fun C' x C'' =>
      let M := batched (m + 3) (copySystem Us map α).get x
      let C := C' + C''
      let u := shifted x fun j => C.1 (Fin.castAdd 2 j)
      ¬ (quad M u = 0 ∧ (∀ j, C.2.1 (Fin.castAdd 2 j) = M.mulVec u j) ∧
        C.2.1 ⟨m + 1, by omega⟩ = - C.1 ⟨m + 2, by omega⟩ ∧ C.2.1 ⟨m + 2, by omega⟩ = C.1 ⟨m + 1, by omega⟩ ∧
        C.2.2 = 0)⟩⟩ le_rfl
    (fun _ _ => ⟨∅, by simp, fun _ h => h.elim⟩)
    (fun _ _ _ _ => ⟨{0}, by simp, fun x hx => by simpa using hx⟩)
    (fun _ _ C' x C'' hx h => ⟨hx, fun hc => h (claim_coeffs _ hx _ hc)⟩) Cs log hB A hT id ro D hD _ ?_
  rintro ro ⟨hv, hno, hc⟩
  obtain ⟨h1, h2, h3⟩ := copyAny_win hq cd Gs Hs Q Us map sets hn hws hs hmap hi Cs hC log hlog _ (hA ro) ro _ hv hc
  exact ⟨h1, h2, True.intro, .inr ⟨True.intro, hno⟩, h3⟩

/-- C91: the case of a prover whose second commitment has no component on the generators `G`. The commitments `Cs`
and `C_w` are arbitrary, `w` are the first coefficients of `∑ alphaʲ Cⱼ + C_w` on `G`. For all but a fraction
`(T + q + 6) (m + 7) B / 2^512` of the hash functions, the proof is rejected, or one of the candidates is a relation,
or all numbers `drift` of the system for `alpha` vanish for `w`. -/
theorem C91_copy_first {q T B ws : Nat} (hq : m + 3 = 2 ^ q) (cd : Codec G) (Gs Hs : Fin (m + 3) → G) (Q : G)
    (Us : List (Matrix (Fin (m + 1)) (Fin (m + 1)) F)) (map : Mapping) (sets : List (List Nat))
    (hn : m + 3 < 65536) (hws : ws < 65536) (hs : sets.length ≤ 65536)
    (hmap : computeMapping (m + 3) ws sets = .ok map) (hi : ∀ s ∈ sets, ∀ i ∈ s, i < m + 1)
    (Cs : List (Coeffs F (m + 3))) (hC : Cs.length = sets.length)
    (log : List (Note (Coeffs F (m + 3)))) (hlog : ∀ e ∈ log, Truthful cd (evalCoeffs Gs Hs Q) e)
    (hB : ∀ c : F, Nat.card {v : Vector UInt8 64 // ((leNat v.toList : Nat) : F) = c} ≤ B)
    (A : Algo (Note (Coeffs F (m + 3))) (AlgCopy F (Coeffs F (m + 3)))) (hT : A.AtMost T)
    (hA : ∀ ro, ∀ l ∈ A.asked Prod.fst ro, ∀ e ∈ l, Truthful cd (evalCoeffs Gs Hs Q) e)
    (ro : Hash) (D : Finset (List Event))
    (hD : ∀ ro, ∀ l ∈ A.asked Prod.fst ro ++ copyQueries ro cd.compress (evalCoeffs Gs Hs Q) log
      (coeffG F _) (coeffH F _) (coeffQ F _) Us map Cs (A.run Prod.fst ro), l.map Prod.fst ∈ D) :
    chance ro D (fun ro =>
      let p := A.run Prod.fst ro
      let α := copyAlpha F ro (log.map Prod.fst) (cd.compress (evalCoeffs Gs Hs Q p.C_w))
      let C' := dot (List.ofFn (powers α Cs.length)) Cs + p.C_w
      (∃ tr', (p.proof cd.compress (evalCoeffs Gs Hs Q)).verify ⟨cd, ro⟩ ⟨log.map Prod.fst⟩ (List.ofFn Gs)
        (List.ofFn Hs) Q ⟨Us.map rows⟩ map (Cs.map (evalCoeffs Gs Hs Q)) = .ok (true, tr')) ∧
      p.C''.1 = 0 ∧
      (∃ j, drift (m + 3) (copySystem Us map α).get (fun j => C'.1 (Fin.castAdd 2 j)) j ≠ 0) ∧
      ∀ c ∈ copyAnyCandidates ro cd Gs Hs Q Us map Cs log (A.asked Prod.fst ro) p,
        evalCoeffs Gs Hs Q c = 0 → c = 0) ≤
    ((T + (q + 6)) * ((m + 7) * B) : Nat) / 2 ^ 512 := by
  apply chance_le
  refine copyAny_core hq cd.compress (evalCoeffs Gs Hs Q) (coeffG F _) (coeffH F _) (coeffQ F _)
    (by simp [coeffG]) (by simp [coeffH]) coeff_free Us map
    ⟨fun _ => True, fun _ _ => False, fun _ α =>
      ⟨fun C' => ∃ j, drift (m + 3) (copySystem Us map α).get (fun j => C'.1 (Fin.castAdd 2 j)) j ≠ 0,
      fun C' x => x = 0 ∨
        quad (batched (m + 3) (copySystem Us map α).get x) (shifted x fun j => C'.1 (Fin.castAdd 2 j)) = 0,
      fun _ _ C'' => C''.1 = 0⟩⟩ (by omega)
    (fun _ _ => ⟨∅, by simp, fun _ h => h.elim⟩)
    (fun _ α C' h => few_drift (m + 3) (copySystem Us map α).get _ h)
    (fun _ α C' x C'' hx h => by
      obtain ⟨hx, hno⟩ := not_or.1 hx
      refine ⟨hx, fun hc => hno ?_⟩
      have := (claim_coeffs _ hx _ hc).1
      rwa [show (C' + C'').1 = C'.1 by rw [Prod.fst_add, h, add_zero]] at this)
    Cs log hB A hT id ro D hD _ ?_
  rintro ro ⟨hv, hz, hd, hc⟩
  obtain ⟨h1, h2, h3⟩ := copyAny_win hq cd Gs Hs Q Us map sets hn hws hs hmap hi Cs hC log hlog _ (hA ro) ro _ hv hc
  exact ⟨h1, h2, True.intro, .inr ⟨hd, hz⟩, h3⟩

/-- C91: what Copy says about the vector in `C_w` when that vector starts with one. As C70_copy_algebraic, but `C_w`
may have components on `H` and `Q`, and `C''` on `Q`. -/
theorem C91_copy_one {q T B ws : Nat} (hq : m + 3 = 2 ^ q) (cd : Codec G) (Gs Hs : Fin (m + 3) → G) (Q : G)
    (Us : List (Matrix (Fin (m + 1)) (Fin (m + 1)) F)) (map : Mapping)
    (coms : List (List Nat × List F × F)) (Cs : List G)
    (hcom : coms.mapM (fun c => Copy.commit (List.ofFn Gs) c.1 c.2.1 c.2.2) = .ok Cs)
    (hn : m + 3 < 65536) (hws : ws < 65536) (hs : coms.length ≤ 65536)
    (hmap : computeMapping (m + 3) ws (coms.map (·.1)) = .ok map)
    (hsets : ∀ c ∈ coms, c.1.Pairwise (· < ·)) (hi : ∀ c ∈ coms, ∀ i ∈ c.1, i < m + 1)
    (h0 : ∀ c ∈ coms, 0 ∉ c.1)
    (hU : ∀ U ∈ Us, ∀ i j : Fin (m + 1), (∃ c ∈ coms, i.val ∈ c.1 ∨ j.val ∈ c.1) → U i j = 0)
    (hfit : Us.length + map.unique_commitment_indices.length ≤ m + 3)
    (log : List (Note (Coeffs F (m + 3)))) (hlog : ∀ e ∈ log, Truthful cd (evalCoeffs Gs Hs Q) e)
    (hB : ∀ c : F, Nat.card {v : Vector UInt8 64 // ((leNat v.toList : Nat) : F) = c} ≤ B)
    (A : Algo (Note (Coeffs F (m + 3))) (AlgCopy F (Coeffs F (m + 3)))) (hT : A.AtMost T)
    (hA : ∀ ro, ∀ l ∈ A.asked Prod.fst ro, ∀ e ∈ l, Truthful cd (evalCoeffs Gs Hs Q) e)
    (ro : Hash) (D : Finset (List Event))
    (hD : ∀ ro, ∀ l ∈ A.asked Prod.fst ro ++ copyQueries ro cd.compress (evalCoeffs Gs Hs Q) log
      (coeffG F _) (coeffH F _) (coeffQ F _) Us map (coms.map (messageCommit (coeffG F _)))
      (A.run Prod.fst ro), l.map Prod.fst ∈ D) :
    chance ro D (fun ro =>
      let p := A.run Prod.fst ro
      (∃ tr', (p.proof cd.compress (evalCoeffs Gs Hs Q)).verify ⟨cd, ro⟩ ⟨log.map Prod.fst⟩ (List.ofFn Gs)
        (List.ofFn Hs) Q ⟨Us.map rows⟩ map Cs = .ok (true, tr')) ∧
      p.C_w.1 0 = 1 ∧ p.C''.1 = 0 ∧
      ¬ CopyHolds Us map (coms.map (·.2.1)).flatten (fun j => p.C_w.1 (Fin.castAdd 2 j)) ∧
      ∀ c ∈ copyCandidates ro cd Gs Hs Q Us map coms log (A.asked Prod.fst ro) p,
        evalCoeffs Gs Hs Q c = 0 → c = 0) ≤
    ((T + (q + 6)) * (max (m + 3) coms.length * B) : Nat) / 2 ^ 512 := by
  obtain ⟨hlen, hCs⟩ := commits_spec (List.ofFn Gs) coms Cs m (by simp) hcom
  have hCs' : Cs = (coms.map (messageCommit (coeffG F (m + 3)))).map (evalCoeffs Gs Hs Q) := by
    rw [hCs, List.map_map]
    refine List.map_congr_left fun c _ => ?_
    rw [Function.comp_apply, map_messageCommit, eval_coeffG, messageCommit, List.length_ofFn]
    rfl
  have hwf := computeMapping_wf hn hws (by simpa using hs) hmap
  apply chance_le
  refine copyAny_core hq cd.compress (evalCoeffs Gs Hs Q) (coeffG F _) (coeffH F _) (coeffQ F _)
    (by simp [coeffG]) (by simp [coeffH]) coeff_free Us map
    ⟨fun C => C.1 0 = 1 ∧ ¬ CopyHolds Us map (coms.map (·.2.1)).flatten (fun j => C.1 (Fin.castAdd 2 j)),
      fun C α => copyVector map (coms.map (·.2.1)).flatten α (fun j => C.1 (Fin.castAdd 2 j)) 0 = 1 →
        ∀ i : Fin (copySystem Us map α).length, i.val < m + 3 → quad ((copySystem Us map α).get i)
          (copyVector map (coms.map (·.2.1)).flatten α fun j => C.1 (Fin.castAdd 2 j)) = 0,
      fun _ α => ⟨fun C' => C'.1 (Fin.castAdd 2 (0 : Fin (m + 1))) = 1 ∧
        ∃ i : Fin (copySystem Us map α).length, i.val < m + 3 ∧
          quad ((copySystem Us map α).get i) (fun j => C'.1 (Fin.castAdd 2 j)) ≠ 0,
      fun C' x => x = 0 ∨
        quad (batched (m + 3) (copySystem Us map α).get x) (shifted x fun j => C'.1 (Fin.castAdd 2 j)) = 0,
      fun _ _ C'' => C''.1 = 0⟩⟩ (le_max_left _ _)
    (fun C hC => by
      obtain ⟨hC0, hno⟩ := hC
      obtain ⟨B, hB, hx⟩ := copy_few hn hws hs hmap hsets hi h0 hU hfit (fun j => C.1 (Fin.castAdd 2 j)) hC0 hno
      exact ⟨B, hB.trans (le_max_right _ _), hx⟩)
    (fun _ α C' h => by
      obtain ⟨B, hB, hx⟩ := few_one (m + 3) (copySystem Us map α).get _ h.1 h.2
      exact ⟨B, hB.trans (le_max_left _ _), hx⟩)
    (fun _ α C' x C'' hx h => by
      obtain ⟨hx, hno⟩ := not_or.1 hx
      refine ⟨hx, fun hc => hno ?_⟩
      have := (claim_coeffs _ hx _ hc).1
      rwa [show (C' + C'').1 = C'.1 by rw [Prod.fst_add, h, add_zero]] at this)
    (coms.map (messageCommit (coeffG F _))) log hB A hT id ro D hD _ ?_
  rintro ro ⟨hv, h1', hz, hno, hc⟩
  rw [hCs'] at hv
  obtain ⟨h1, h2, h3⟩ := copyAny_win hq cd Gs Hs Q Us map (coms.map (·.1)) hn hws (by simpa using hs) hmap
    (by simpa using hi) _ (by simp) log hlog _ (hA ro) ro _ hv hc
  refine ⟨h1, h2, ⟨h1', hno⟩, ?_, h3⟩
  intro α
  refine or_iff_not_imp_left.2 fun hl => ?_
  simp only [Classical.not_imp, not_forall] at hl
  have e := agg_coeffs coms hwf hlen hi α (A.run Prod.fst ro).C_w
  obtain ⟨hl0, i, hi', hne⟩ := hl
  refine ⟨⟨?_, i, hi', ?_⟩, hz⟩
  · exact (congrFun e 0).trans hl0
  · have e' : (fun j : Fin (m + 1) => (AlgCopy.qesa (id (A.run Prod.fst ro))
        (coms.map (messageCommit (coeffG F (m + 3)))) α).C'.1 (Fin.castAdd 2 j)) = _ := e
    rw [e']
    exact hne

omit [DecidableEq F] in
/-- If not all numbers `drift` vanish for every `alpha`, or the messages are not in their slots, then the numbers
vanish for few `alpha` only. -/
theorem few_messages {ws : Nat} {Us : List (Matrix (Fin (m + 1)) (Fin (m + 1)) F)} {map : Mapping}
    {coms : List (List Nat × List F × F)} (hn : m + 3 < 65536) (hw0 : 0 < ws) (hws : ws < 65536)
    (hs : coms.length ≤ 65536) (hmap : computeMapping (m + 3) ws (coms.map (·.1)) = .ok map)
    (hsets : ∀ c ∈ coms, c.1.Pairwise (· < ·)) (hi : ∀ c ∈ coms, ∀ i ∈ c.1, i < m + 1)
    (h0 : ∀ c ∈ coms, 0 ∉ c.1)
    (hU : ∀ U ∈ Us, ∀ i j : Fin (m + 1), (∃ c ∈ coms, i.val ∈ c.1 ∨ j.val ∈ c.1) → U i j = 0)
    (hfit : Us.length + map.unique_commitment_indices.length ≤ m + 3) (v : Fin (m + 1) → F)
    (hno : ¬ ((∀ α j, drift (m + 3) (copySystem Us map α).get
        (copyVector map (coms.map (·.2.1)).flatten α v) j = 0) ∧
        ∀ e ∈ map.msgs_map, slot v e.position_in_witness = (coms.map (·.2.1)).flatten.getD e.msg_id 0)) :
    ∃ B : Finset F, B.card ≤ coms.length ∧ ∀ α, (∀ j, drift (m + 3) (copySystem Us map α).get
      (copyVector map (coms.map (·.2.1)).flatten α v) j = 0) → α ∈ B := by
  have hwf := computeMapping_wf hn hws (by simpa using hs) hmap
  have hi' : ∀ s ∈ coms.map (·.1), ∀ i ∈ s, i < m + 1 := by simpa using hi
  have h0' : ∀ s ∈ coms.map (·.1), 0 ∉ s := by simpa using h0
  have hU' : ∀ U ∈ Us, ∀ i j : Fin (m + 1), (∃ s ∈ coms.map (·.1), i.val ∈ s ∨ j.val ∈ s) → U i j = 0 := by
    rintro U hUm i j ⟨s, hs, hij⟩
    obtain ⟨c, hc, rfl⟩ := List.mem_map.1 hs
    exact hU U hUm i j ⟨c, hc, hij⟩
  refine few_of_no_injection coms.length (fun α => ∀ j, drift (m + 3) (copySystem Us map α).get
    (copyVector map (coms.map (·.2.1)).flatten α v) j = 0) ?_
  rintro ⟨x, hx, hl⟩
  have hall : ∀ α j, drift (m + 3) (copySystem Us map α).get
      (copyVector map (coms.map (·.2.1)).flatten α v) j = 0 := by
    intro α j
    have hp := drift_isPoly hwf hi' h0' Us hU' (coms.map (·.2.1)).flatten v (m + 3) j
    rw [List.length_map] at hp
    exact hp.zero x hx (fun i => hl i j) α
  refine hno ⟨hall, messages_of_drift hn hws (by simpa using hs) hmap hw0 (by simpa using hsets) hi' h0' Us
    hU' hfit _ _ (Finset.univ.map ⟨x, hx⟩) ?_ hall⟩
  simp

/-- C91: what Copy says about the vector in `C_w` in general. Fix the user's equations and the commitments `Cs` to
messages, as in C70_copy_algebraic. The prover's `C''` has no component on `G`, and `C_w` is arbitrary; `v` are its
first coefficients on `G`. For all but a fraction `(T + q + 6) max(m + 7, |Cs|) B / 2^512` of the hash functions, the
proof is rejected, or one of the candidates is a relation, or: the numbers `drift` of the aggregated vector vanish for
every value of `alpha`, and the slots of the messages in `v` contain the messages that the `Cs` were made of. -/
theorem C91_copy_messages {q T B ws : Nat} (hq : m + 3 = 2 ^ q) (cd : Codec G) (Gs Hs : Fin (m + 3) → G) (Q : G)
    (Us : List (Matrix (Fin (m + 1)) (Fin (m + 1)) F)) (map : Mapping)
    (coms : List (List Nat × List F × F)) (Cs : List G)
    (hcom : coms.mapM (fun c => Copy.commit (List.ofFn Gs) c.1 c.2.1 c.2.2) = .ok Cs)
    (hn : m + 3 < 65536) (hw0 : 0 < ws) (hws : ws < 65536) (hs : coms.length ≤ 65536)
    (hmap : computeMapping (m + 3) ws (coms.map (·.1)) = .ok map)
    (hsets : ∀ c ∈ coms, c.1.Pairwise (· < ·)) (hi : ∀ c ∈ coms, ∀ i ∈ c.1, i < m + 1)
    (h0 : ∀ c ∈ coms, 0 ∉ c.1)
    (hU : ∀ U ∈ Us, ∀ i j : Fin (m + 1), (∃ c ∈ coms, i.val ∈ c.1 ∨ j.val ∈ c.1) → U i j = 0)
    (hfit : Us.length + map.unique_commitment_indices.length ≤ m + 3)
    (log : List (Note (Coeffs F (m + 3)))) (hlog : ∀ e ∈ log, Truthful cd (evalCoeffs Gs Hs Q) e)
    (hB : ∀ c : F, Nat.card {v : Vector UInt8 64 // ((leNat v.toList : Nat) : F) = c} ≤ B)
    (A : Algo (Note (Coeffs F (m + 3))) (AlgCopy F (Coeffs F (m + 3)))) (hT : A.AtMost T)
    (hA : ∀ ro, ∀ l ∈ A.asked Prod.fst ro, ∀ e ∈ l, Truthful cd (evalCoeffs Gs Hs Q) e)
    (ro : Hash) (D : Finset (List Event))
    (hD : ∀ ro, ∀ l ∈ A.asked Prod.fst ro ++ copyQueries ro cd.compress (evalCoeffs Gs Hs Q) log
      (coeffG F _) (coeffH F _) (coeffQ F _) Us map (coms.map (messageCommit (coeffG F _)))
      (A.run Prod.fst ro), l.map Prod.fst ∈ D) :
    chance ro D (fun ro =>
      let p := A.run Prod.fst ro
      let v := fun j : Fin (m + 1) => p.C_w.1 (Fin.castAdd 2 j)
      let msgs := (coms.map (·.2.1)).flatten
      (∃ tr', (p.proof cd.compress (evalCoeffs Gs Hs Q)).verify ⟨cd, ro⟩ ⟨log.map Prod.fst⟩ (List.ofFn Gs)
        (List.ofFn Hs) Q ⟨Us.map rows⟩ map Cs = .ok (true, tr')) ∧
      p.C''.1 = 0 ∧
      ¬ ((∀ α j, drift (m + 3) (copySystem Us map α).get (copyVector map msgs α v) j = 0) ∧
        ∀ e ∈ map.msgs_map, slot v e.position_in_witness = msgs.getD e.msg_id 0) ∧
      ∀ c ∈ copyCandidates ro cd Gs Hs Q Us map coms log (A.asked Prod.fst ro) p,
        evalCoeffs Gs Hs Q c = 0 → c = 0) ≤
    ((T + (q + 6)) * (max (m + 7) coms.length * B) : Nat) / 2 ^ 512 := by
  obtain ⟨hlen, hCs⟩ := commits_spec (List.ofFn Gs) coms Cs m (by simp) hcom
  have hCs' : Cs = (coms.map (messageCommit (coeffG F (m + 3)))).map (evalCoeffs Gs Hs Q) := by
    rw [hCs, List.map_map]
    refine List.map_congr_left fun c _ => ?_
    rw [Function.comp_apply, map_messageCommit, eval_coeffG, messageCommit, List.length_ofFn]
    rfl
  have hwf := computeMapping_wf hn hws (by simpa using hs) hmap
  have hi' : ∀ s ∈ coms.map (·.1), ∀ i ∈ s, i < m + 1 := by simpa using hi
  apply chance_le
  refine copyAny_core hq cd.compress (evalCoeffs Gs Hs Q) (coeffG F _) (coeffH F _) (coeffQ F _)
    (by simp [coeffG]) (by simp [coeffH]) coeff_free Us map
    ⟨fun C => ¬ ((∀ α j, drift (m + 3) (copySystem Us map α).get
        (copyVector map (coms.map (·.2.1)).flatten α fun j => C.1 (Fin.castAdd 2 j)) j = 0) ∧
        ∀ e ∈ map.msgs_map, slot (fun j : Fin (m + 1) => C.1 (Fin.castAdd 2 j)) e.position_in_witness =
          (coms.map (·.2.1)).flatten.getD e.msg_id 0),
      fun C α => ∀ j, drift (m + 3) (copySystem Us map α).get
        (copyVector map (coms.map (·.2.1)).flatten α fun j => C.1 (Fin.castAdd 2 j)) j = 0,
      fun _ α => ⟨fun C' => ∃ j, drift (m + 3) (copySystem Us map α).get (fun j => C'.1 (Fin.castAdd 2 j)) j ≠ 0,
      fun C' x => x = 0 ∨
        quad (batched (m + 3) (copySystem Us map α).get x) (shifted x fun j => C'.1 (Fin.castAdd 2 j)) = 0,
      fun _ _ C'' => C''.1 = 0⟩⟩ (by omega)
    (fun C hC => by
      obtain ⟨B, hB, hx⟩ := few_messages hn hw0 hws hs hmap hsets hi h0 hU hfit (fun j => C.1 (Fin.castAdd 2 j)) hC
      exact ⟨B, hB.trans (le_max_right _ _), hx⟩)
    (fun _ α C' h => by
      obtain ⟨B, hB, hx⟩ := few_drift (m + 3) (copySystem Us map α).get _ h
      exact ⟨B, hB.trans (le_max_left _ _), hx⟩)
    (fun _ α C' x C'' hx h => by
      obtain ⟨hx, hno⟩ := not_or.1 hx
      refine ⟨hx, fun hc => hno ?_⟩
      have := (claim_coeffs _ hx _ hc).1
      rwa [show (C' + C'').1 = C'.1 by rw [Prod.fst_add, h, add_zero]] at this)
    (coms.map (messageCommit (coeffG F _))) log hB A hT id ro D hD _ ?_
  rintro ro ⟨hv, hz, hno, hc⟩
  rw [hCs'] at hv
  obtain ⟨h1, h2, h3⟩ := copyAny_win hq cd Gs Hs Q Us map (coms.map (·.1)) hn hws (by simpa using hs) hmap
    hi' _ (by simp) log hlog _ (hA ro) ro _ hv hc
  refine ⟨h1, h2, hno, ?_, h3⟩
  intro α
  refine or_iff_not_imp_left.2 fun hl => ?_
  obtain ⟨j, hj⟩ := not_forall.1 hl
  refine ⟨⟨j, ?_⟩, hz⟩
  have e' : (fun j : Fin (m + 1) => (AlgCopy.qesa (id (A.run Prod.fst ro))
      (coms.map (messageCommit (coeffG F (m + 3)))) α).C'.1 (Fin.castAdd 2 j)) = _ :=
    agg_coeffs coms hwf hlen hi α (A.run Prod.fst ro).C_w
  rw [e']
  exact hj

/-- C91, converse: if the numbers `drift` vanish for every `alpha`, the prover that commits to `v` on the generators
`G` in `C_w` and goes on as `shiftedProver` is accepted, unless the challenge `x` or the last challenge is zero. -/
theorem C91_copy_accepted {q ws : Nat} (hq : m + 3 = 2 ^ q) (cx : Ctx G) (tr : Transcript) (Gs Hs : List G) (Q : G)
    (hG : Gs.length = m + 3) (hH : Hs.length = m + 3)
    (Us : List (Matrix (Fin (m + 1)) (Fin (m + 1)) F)) (map : Mapping)
    (coms : List (List Nat × List F × F)) (Cs : List G)
    (hcom : coms.mapM (fun c => Copy.commit Gs c.1 c.2.1 c.2.2) = .ok Cs)
    (hn : m + 3 < 65536) (hws : ws < 65536) (hs : coms.length ≤ 65536)
    (hmap : computeMapping (m + 3) ws (coms.map (·.1)) = .ok map)
    (hi : ∀ c ∈ coms, ∀ i ∈ c.1, i < m + 1) (v : Fin (m + 1) → F) (r0 r1 : F)
    (hv : ∀ α j, drift (m + 3) (copySystem Us map α).get
      (copyVector map (coms.map (·.2.1)).flatten α v) j = 0) :
    let c_w := cx.compress (dot (List.ofFn v ++ [r0, r1]) Gs)
    let α := copyAlpha F cx.ro tr.log c_w
    let w := copyVector map (coms.map (·.2.1)).flatten α v
    let r1' := r1 + dot (coms.map (·.2.2)) (List.ofFn (powers α coms.length))
    let tr1 : Transcript := ⟨tr.log ++ [.msg "c_w" c_w, .chal "alpha" 64]⟩
    ∃ p tr', shiftedProver cx tr1 Gs Hs Q (copySystem Us map α).get w r0 r1' = .ok (p, tr') ∧
      let x := qesaX F cx.ro tr1.log p.inner.c_prime_w
      let s := qesaS F cx.ro tr1.log p.inner.c_prime_w p.inner.c_prime_prime_w
      let b := qesaB F cx.ro tr1.log p.inner.c_prime_w p.inner.c_prime_prime_w
      let M := batched (m + 3) (copySystem Us map α).get x
      let u := maskedWitness (shifted x w) r0 r1' s b
      let u' := maskedImage M (shifted x w) r0 r1' s b
      let C := dot u (rescaled (x ^ 2) Gs) + dot u' Hs
      (x ≠ 0 →
        almAlpha cx (tr1.log ++ qesaHead p.inner.c_prime_w p.inner.c_prime_prime_w (cx.compress C)) Q
          C 0 (dot u u') (m + 3) ≠ 0 →
        (⟨c_w, p.inner⟩ : Copy.Proof F).verify cx tr Gs Hs Q ⟨Us.map rows⟩ map Cs = .ok (true, tr')) := by
  obtain ⟨hlen, hCs⟩ := commits_spec Gs coms Cs m hG hcom
  have hwf := computeMapping_wf hn hws (by simpa using hs) hmap
  have h64 : q < 64 := by
    by_contra h
    have : 2 ^ 64 ≤ 2 ^ q := Nat.pow_le_pow_right (by omega) (by omega)
    omega
  have hCs' : Cs = coms.map (messageCommit Gs) := by
    rw [hCs]
    refine List.map_congr_left fun c _ => ?_
    rw [messageCommit, hG, show m + 3 - 1 = m + 2 by omega]
  intro c_w α w r1' tr1
  have key : ∀ (N : Nat) (_ : N ≠ 0) (Ms : Fin N → Matrix (Fin (m + 1)) (Fin (m + 1)) F),
      (∀ j, drift (m + 3) Ms w j = 0) →
      ∃ p tr', shiftedProver cx tr1 Gs Hs Q Ms w r0 r1' = .ok (p, tr') ∧
      p.inner.c_prime_w = cx.compress (dot (List.ofFn w ++ [r0, r1']) Gs) ∧
      let x := qesaX F cx.ro tr1.log p.inner.c_prime_w
      let s := qesaS F cx.ro tr1.log p.inner.c_prime_w p.inner.c_prime_prime_w
      let b := qesaB F cx.ro tr1.log p.inner.c_prime_w p.inner.c_prime_prime_w
      let M := batched (m + 3) Ms x
      let u := maskedWitness (shifted x w) r0 r1' s b
      let u' := maskedImage M (shifted x w) r0 r1' s b
      let C := dot u (rescaled (x ^ 2) Gs) + dot u' Hs
      (x ≠ 0 →
        almAlpha cx (tr1.log ++ qesaHead p.inner.c_prime_w p.inner.c_prime_prime_w (cx.compress C)) Q
          C 0 (dot u u') (m + 3) ≠ 0 →
        p.verify cx tr1 Gs Hs Q ⟨List.ofFn fun i => rows (Ms i)⟩ = .ok (true, tr')) := by
    intro N hN Ms hd
    obtain ⟨N, rfl⟩ := Nat.exists_eq_succ_of_ne_zero hN
    obtain ⟨p, tr', h1, h2, -, h4⟩ := C89_qesa_first_accepted hq h64 cx tr1 Gs Hs Q hG hH Ms w r0 r1' hd
    exact ⟨p, tr', h1, h2, h4⟩
  obtain ⟨p, tr', h1, h2, h3⟩ := key _ (copySystem_ne_nil hwf Us α) _ (hv α)
  refine ⟨p, tr', h1, fun hx hα => ?_⟩
  have h4 := h3 hx hα
  have e := C37_verifier cx ⟨c_w, p.inner⟩ tr Gs Hs Q Us (coms.map (·.1)) map Cs (dot (List.ofFn v ++ [r0, r1]) Gs)
    hG (hG ▸ hn) hws (by simpa using hs) (hG ▸ hmap) (by simpa using hi) (by rw [hCs]; simp)
    (cx.decompress_compress _)
  simp only at e
  rw [e, map_rows_eq]
  have e2 := commit_copyVector coms hwf hlen hi Gs hG α v r0 r1
  rw [← hCs'] at e2
  have e3 : cx.compress (dot (List.ofFn (powers α Cs.length)) Cs + dot (List.ofFn v ++ [r0, r1]) Gs) =
      p.inner.c_prime_w := by
    rw [h2]
    congr 1
    rw [show Cs.length = coms.length by rw [hCs]; simp]
    exact e2.symm
  change (⟨p.inner.alm_zk, cx.compress (dot (List.ofFn (powers α Cs.length)) Cs + dot (List.ofFn v ++ [r0, r1]) Gs),
    p.inner.c_prime_prime_w⟩ : Inner.Proof F).verify cx tr1 Gs Hs Q _ = _
  rw [e3]
  exact h4

end

/-! ### Example -/
section
open Toy

/-- The equations `w₃ = 1`, `0 = 0`, `w₃ = 0`. -/
def exNever : List (Matrix (Fin (5 + 1)) (Fin (5 + 1)) K) :=
  [Matrix.of fun i j => if i = 0 ∧ j = 3 then 1 else if i = 0 ∧ j = 0 then -1 else 0, 0,
    Matrix.of fun i j => if i = 0 ∧ j = 3 then 1 else 0]

/-- A vector with the message 10 in slot 1, but with first component two. -/
def exTwo : Fin (5 + 1) → K := ![2, 10, 0, 1, 0, 0]

/-- No vector with first component one solves these equations, but all numbers `drift` vanish for `exTwo`,
whatever `alpha` is. With a wrong message they do not. -/
example : (∀ α : K, ∀ j < 12, drift 8 (copySystem exNever exMap α).get (copyVector exMap [10] α exTwo) j = 0) ∧
    drift 8 (copySystem exNever exMap 5).get (copyVector exMap [11] 5 exTwo) 3 ≠ 0 := by
  decide +kernel

example (v : Fin (5 + 1) → K) (h0 : v 0 = 1) : ¬ ∀ U ∈ exNever, quad U v = 0 := by
  intro h
  have h1 := h _ (List.mem_cons_self)
  have h2 := h _ (List.mem_cons_of_mem _ (List.mem_cons_of_mem _ List.mem_cons_self))
  simp [quad, Fin.sum_univ_six, h0] at h1 h2
  rw [h2] at h1
  simp at h1

/-- The prover of C91_copy_accepted for `exTwo`, and what the verifier says. -/
def exForged : R Bool :=
  let Gs : List K := [3, 5, 8, 13, 21, 34, 55, 89]
  let Hs : List K := [7, 11, 18, 29, 47, 76, 22, 98]
  let c_w := cx.compress (dot (List.ofFn exTwo ++ [4, 6]) Gs)
  let α := copyAlpha K cx.ro [] c_w
  do
    let (p, _) ← shiftedProver cx ⟨[.msg "c_w" c_w, .chal "alpha" 64]⟩ Gs Hs 17 (copySystem exNever exMap α).get
      (copyVector exMap [10] α exTwo) 4 (6 + 7 * α)
    let (b, _) ← (⟨c_w, p.inner⟩ : Copy.Proof K).verify cx ⟨[]⟩ Gs Hs 17 ⟨exNever.map rows⟩ exMap [10 * 8 + 7 * 89]
    return b

example : exForged = .ok true := by decide +kernel

/-- A commitment with components on all generators; the vector on `G` starts with two and has 9 in slots 1 and 3. -/
def exCwAny : Coeffs K (5 + 3) := (![2, 9, 0, 9, 0, 0, 5, 7], ![1, 0, 0, 0, 0, 0, 0, 3], 4)

/-- A prover of Copy that commits to `exCwAny`, looks at `alpha`, and lets everything else depend on it. -/
def exCopyAny (Gs Hs : Fin (5 + 3) → K) (Q : K) :
    Algo (Note (Coeffs K (5 + 3))) (AlgCopy K (Coeffs K (5 + 3))) :=
  .ask (alphaNotes codec.compress (evalCoeffs (F := K) Gs Hs Q) exCwAny) fun v =>
    let x : K := (leNat v.toList : Nat)
    .done ⟨exCwAny, (0, ![x, x ^ 2, 5, 7, 0, 0, 1, 2], x), ⟨(![x, 0, 0, 1, 0, 0, 0, 0], 0, 1),
      ⟨[(![x, 0, 0, 0, 0, 0, 0, 0], 0, 1), 0, 0], [(0, ![0, x, 0, 0, 0, 0, 0, 0], 2), 0, 0], x, 1⟩⟩,
      []⟩

/-- C91 for this prover. -/
example (Gs Hs : Fin (5 + 3) → K) (Q : K) (ro : Hash) : ∃ D : Finset (List Event),
    chance ro D (fun ro =>
      let p := (exCopyAny Gs Hs Q).run Prod.fst ro
      (∃ tr', (p.proof codec.compress (evalCoeffs (F := K) Gs Hs Q)).verify ⟨codec, ro⟩ ⟨[]⟩ (List.ofFn Gs)
        (List.ofFn Hs) Q ⟨[exUser].map rows⟩ exMap [10 * Gs 2 + 7 * Gs 7] = .ok (true, tr')) ∧
      ∀ c ∈ copyCandidates ro codec Gs Hs Q [exUser] exMap exComs [] ((exCopyAny Gs Hs Q).asked Prod.fst ro) p,
        evalCoeffs Gs Hs Q c = 0 → c = 0) ≤ 120 * (1 / 101 + 1 / 2 ^ 512) := by
  obtain ⟨D, hD⟩ := C70_domain codec.compress (evalCoeffs (F := K) Gs Hs Q) [] (coeffG K _) (coeffH K _)
    (coeffQ K _) [exUser] exMap (exComs.map (messageCommit (coeffG K _))) (exCopyAny Gs Hs Q)
  refine ⟨D, ?_⟩
  have hcom : exComs.mapM (fun c => Copy.commit (List.ofFn Gs) c.1 c.2.1 c.2.2) =
      .ok [10 * Gs 2 + 7 * Gs 7] := by
    have := C32_commit_value (F := K) Gs ![(2 : Fin (7 + 1))] ![(10 : K)] 7
    simp only [Fin.sum_univ_one] at this
    have e : Copy.commit (List.ofFn Gs) [2] [(10 : K)] 7 = .ok (10 * Gs 2 + 7 * Gs 7) := this
    rw [exComs]
    simp only [List.mapM_cons, List.mapM_nil]
    rw [e]
    rfl
  have := C91_copy_messages (m := 5) (q := 3) (T := 1) (ws := 1) (F := K) rfl codec Gs Hs Q [exUser] exMap
    exComs _ hcom (by decide) (by decide) (by decide) (by decide) (by decide +kernel) (by decide) (by decide)
    (by decide)
    (by
      intro U hU i j hij
      obtain ⟨c, hc, h⟩ := hij
      rw [List.mem_singleton.1 hc, List.mem_singleton, List.mem_singleton] at h
      rw [List.mem_singleton.1 hU]
      rw [exUser, Matrix.of_apply, if_neg, if_neg]
      · rintro ⟨rfl, rfl⟩
        exact absurd h (by decide)
      · rintro ⟨rfl, rfl⟩
        exact absurd h (by decide))
    (by decide) []
    (by simp) (fun c => C67_scalars 101 c) (exCopyAny Gs Hs Q) (fun _ => True.intro) (by
      intro ro l hl e he
      simp only [exCopyAny, Algo.asked, List.mem_singleton] at hl
      subst hl
      simp only [alphaNotes, List.mem_cons, List.not_mem_nil, or_false] at he
      rcases he with rfl | rfl
      · exact truthful_point _ _ "c_w" (by decide) _
      · exact truthful_plain _ _ _ rfl) ro D hD
  refine (chance_mono fun ro h => ?_).trans (this.trans ?_)
  · refine ⟨h.1, rfl, ?_, h.2⟩
    intro hh
    have h1 := hh.2 ⟨0, 2, 0, 1⟩ (by simp [exMap])
    exact absurd h1 (show ¬ slot (fun j : Fin (5 + 1) => exCwAny.1 (Fin.castAdd 2 j)) 1 =
      (exComs.map (·.2.1)).flatten.getD 0 0 by decide +kernel)
  · rw [show ∀ B, (1 + (3 + 6)) * (max (5 + 7) exComs.length * B) = 120 * B from fun B => by
      rw [show max (5 + 7) exComs.length = 12 from rfl]; omega]
    exact C67_bound 120 101

end
end Qesa.Props
