import Verif.Props.Reduction
/-
Computational soundness of Copy: a prover that shows openings of its commitments and is accepted for a vector that does
not solve the equations or does not hold the messages leads to a relation between the generators (C98).
-/
namespace Qesa.Props
open Qesa Spec
variable {F G : Type} [Field F] [AddCommGroup G] [Module F G] [DecidableEq F] [DecidableEq G] {m : Nat}

/-- The number of answers wanted: `k0`, `k1` and `k2` at the first three challenges, four at the others. -/
def firstThree (k0 k1 k2 : Nat) (i : Nat) : Nat := if i = 0 then k0 else firstTwo k1 k2 (i - 1)

theorem firstThree_prod (k0 k1 k2 d : Nat) :
    ∏ j ∈ Finset.range (d + 3), firstThree k0 k1 k2 j = k0 * (k1 * (k2 * 4 ^ d)) := by
  rw [Finset.prod_range_succ', Nat.mul_comm]
  exact congrArg (k0 * ·) (firstTwo_prod k1 k2 d)

theorem firstThree_error (k0 k1 k2 d r : Nat) (κ : ℚ) :
    ∑ j ∈ Finset.range (d + 3), ((firstThree k0 k1 k2 j - 1 : ℚ) / (r + 1) +
        (firstThree k0 k1 k2 j * (firstThree k0 k1 k2 j - 1) / 2 : ℚ) * κ) =
      (k0 - 1) / (r + 1) + k0 * (k0 - 1) / 2 * κ + ((k1 - 1) / (r + 1) + k1 * (k1 - 1) / 2 * κ +
        ((k2 - 1) / (r + 1) + k2 * (k2 - 1) / 2 * κ + d * (3 / (r + 1) + 6 * κ))) := by
  rw [Finset.sum_range_succ', add_comm]
  exact congrArg (_ + ·) (firstTwo_error k1 k2 d r κ)

omit [AddCommGroup G] [Module F G] [DecidableEq G] in
instance (Us : List (Matrix (Fin (m + 1)) (Fin (m + 1)) F)) (map : Copy.Mapping) (msgs : List F) (v : Fin (m + 1) → F) :
    Decidable (CopyHolds Us map msgs v) := by
  unfold CopyHolds; infer_instance

/-- The program that looks for a relation: `|Cs| + 4` different values of `alpha`, `n + 5` of `x`, `n` or four of `s` and
four of the other challenges, for accepted runs with right openings of a vector with first component one that does not do
what Copy is to show. -/
def copyReduction (cd : Codec G) (log : List Event) (Gs Hs : List G) (Q : G)
    (Us : List (Matrix (Fin (m + 1)) (Fin (m + 1)) F)) (map : Copy.Mapping) (msgs : List F) (Cs : List G) (q r : Nat) :
    Hash → Rewinder (Copy.Proof F × Openings F m) (Option (List (Hash × Copy.Proof F × Openings F m))) :=
  Rewinder.rewind (scalarOf F) (fun ro p =>
      accepted (p.1.verify ⟨cd, ro⟩ ⟨log⟩ Gs Hs Q ⟨Us.map rows⟩ map Cs) &&
        decide (p.2.Fits cd Gs Hs p.1.C_w p.1.inner.c_prime_prime_w ∧ p.2.w 0 = 1 ∧ ¬ CopyHolds Us map msgs p.2.w))
    (fun ro p i => (copyHistories cd ro log Gs Hs Q Us map Cs p.1)[i]?)
    (firstThree (Cs.length + 4) (m + 8) (max (m + 2) 4)) r (q + 6)

set_option exponentiation.threshold 600 in
/-- C98: computational soundness of Copy, in any group. The commitments `Cs` are made of messages. Let a prover show,
together with the proof, openings of `C_w` on the generators `G` and `H` and of `C''` on the generators `H`. If it is accepted with a vector
in `C_w` with first component one that violates one of the user's equations or does not hold the messages of the `Cs` in
their slots, the program `copyReduction` finds accepted runs that give a relation between the generators: either two
different openings of `C_w`, or the result of the extractor of C61 is a relation or differs from the opening that follows
from the one that was shown and from the messages. -/
theorem C98_copy_reduction {q T B ws : Nat} (hq : m + 3 = 2 ^ q) (cd : Codec G) (Gs Hs : List G)
    (hG : Gs.length = m + 3) (hH : Hs.length = m + 3) (Q : G)
    (Us : List (Matrix (Fin (m + 1)) (Fin (m + 1)) F)) (map : Copy.Mapping)
    (coms : List (List Nat × List F × F)) (Cs : List G)
    (hcom : coms.mapM (fun c => Copy.commit Gs c.1 c.2.1 c.2.2) = .ok Cs)
    (hn : m + 3 < 65536) (hws : ws < 65536) (hs : coms.length ≤ 65536)
    (hmap : Copy.computeMapping (m + 3) ws (coms.map (·.1)) = .ok map)
    (hsets : ∀ c ∈ coms, c.1.Pairwise (· < ·)) (hi : ∀ c ∈ coms, ∀ i ∈ c.1, i < m + 1)
    (h0 : ∀ c ∈ coms, 0 ∉ c.1)
    (hU : ∀ U ∈ Us, ∀ i j : Fin (m + 1), (∃ c ∈ coms, i.val ∈ c.1 ∨ j.val ∈ c.1) → U i j = 0)
    (hfit : Us.length + map.unique_commitment_indices.length ≤ m + 3) (log : List Event)
    (hB : ∀ c : F, Nat.card {v : Vector UInt8 64 // ((leNat v.toList : Nat) : F) = c} ≤ B)
    (A : Algo Event (Copy.Proof F × Openings F m)) (hT : A.AtMost T) (r : Nat) (ro : Hash) (D : Finset (List Event))
    (hD : ∀ ro, ∀ l ∈ A.asked id ro ++ copyHistories cd ro log Gs Hs Q Us map Cs (A.run id ro).1, l ∈ D) :
    let msgs := (coms.map (·.2.1)).flatten
    let E := copyReduction cd log Gs Hs Q Us map msgs Cs q r
    let P := fun ro => (A.run id ro).1
    let O := fun ro => (A.run id ro).2
    let Acc := fun ro => ∃ tr', (P ro).verify ⟨cd, ro⟩ ⟨log⟩ Gs Hs Q ⟨Us.map rows⟩ map Cs = .ok (true, tr')
    let k0 := Cs.length + 4
    let k1 := m + 8
    let k2 := max (m + 2) 4
    mean ro D (fun ro => (E ro).runs fun ro => A.run id ro) ≤
      1 + (T + (q + 6) : Nat) * ((k0 * (k1 * (k2 * 4 ^ (q + 3))) : Nat) - 1) ∧
    chance ro D (fun ro => Acc ro ∧ (O ro).Fits cd Gs Hs (P ro).C_w (P ro).inner.c_prime_prime_w ∧
        (O ro).w 0 = 1 ∧ ¬ CopyHolds Us map msgs (O ro).w) ≤
      mean ro D (fun ro => (E ro).chance (fun ro => A.run id ro) fun o =>
      ∃ runs, o = some runs ∧ runs.length ≤ k0 * (k1 * (k2 * 4 ^ (q + 3))) ∧
      ∃ ro1, (ro1, A.run id ro1) ∈ runs ∧
      ((∃ ro2, (ro2, A.run id ro2) ∈ runs ∧ (P ro2).C_w = (P ro1).C_w ∧
        ∃ rel, difference (O ro1).first (O ro2).first = some rel ∧ IsRelation Gs Hs Q rel) ∨
      let c_w := (P ro1).C_w
      let α₀ := copyAlpha F ro1 log c_w
      GivesRelation cd (log ++ [.msg "c_w" c_w, .chal "alpha" 64]) Gs Hs Q (copySystem Us map α₀).get q
        (fun ro' => (ro', A.run id ro') ∈ runs ∧ Reprogrammed (q + 6) ro ro' ∧ Acc ro' ∧ (P ro').C_w = c_w ∧
          copyAlpha F ro' log c_w = α₀) (fun ro => copyInner cd ro log Cs (P ro)) ro1
        ((O ro1).aggregated map coms α₀))) +
      (T + (q + 6) : Nat) * ((k0 - 1 : ℚ) / (r + 1) + k0 * (k0 - 1 : ℚ) / 2 * (B / 2 ^ 512) +
        ((k1 - 1 : ℚ) / (r + 1) + k1 * (k1 - 1 : ℚ) / 2 * (B / 2 ^ 512) +
          ((k2 - 1 : ℚ) / (r + 1) + k2 * (k2 - 1 : ℚ) / 2 * (B / 2 ^ 512) +
            (q + 3 : Nat) * (3 / (r + 1) + 6 * (B / 2 ^ 512))))) := by
  intro msgs E P O Acc k0 k1 k2
  obtain ⟨hlen, hCs⟩ := commits_spec Gs coms Cs m hG hcom
  have hCs' : Cs = coms.map (messageCommit Gs) := by
    rw [hCs]
    refine List.map_congr_left fun c _ => ?_
    rw [messageCommit, hG]
    rfl
  have hCl : Cs.length = coms.length := by rw [hCs', List.length_map]
  have hwf := Copy.computeMapping_wf hn hws (by simpa using hs) hmap
  have hi' : ∀ s ∈ coms.map (·.1), ∀ i ∈ s, i < m + 1 := by simpa using hi
  have hs' : (coms.map (·.1)).length ≤ 65536 := by simpa using hs
  have hC : Cs.length = (coms.map (·.1)).length := by simpa using hCl
  have hK : ∀ i, 4 ≤ firstThree k0 k1 k2 i := fun i => by
    simp only [firstThree, firstTwo, firstMore]
    split
    · omega
    · split
      · omega
      · split <;> omega
  refine extractor_by (d := q + 6) hT (fun p => copyVerifierQueries cd log Gs Hs Q Us map Cs (q + 1) p.1)
    (fun p => copyVerifierQueries_atMost cd log Gs Hs Q Us map Cs _ p.1) ?_ (fun i => (by have := hK i; omega)) ?_ hB
    (firstThree_prod k0 k1 k2 (q + 3)) (firstThree_error k0 k1 k2 (q + 3) r _)
    (Acc := fun ro => Acc ro ∧ (O ro).Fits cd Gs Hs (P ro).C_w (P ro).inner.c_prime_prime_w ∧
        (O ro).w 0 = 1 ∧ ¬ CopyHolds Us map msgs (O ro).w) (fun ro => ?_) ?_
  · intro ro i l h hl
    obtain ⟨tr', h⟩ := (accepted_iff _).1 (Bool.and_eq_true_iff.1 h).1
    refine List.mem_append_right _ ?_
    rw [copyVerifierQueries_asked]
    obtain ⟨-, k, -, hk, h⟩ := copy_accepted hG hn hws hs' hmap hi' hC h
    rw [hk] at h
    have hr := qesa_rounds hq hG hH h
    simp only [copyInner] at hr
    rw [List.take_of_length_le (by
      simp [copyHistories, copyInner, qesaHistories, almHistories, ipaHistories]; omega)]
    exact List.mem_of_getElem? hl
  · intro ro l hl
    apply hD ro
    rw [copyVerifierQueries_asked] at hl
    rcases List.mem_append.1 hl with hl | hl
    · exact List.mem_append_left _ hl
    · exact List.mem_append_right _ (List.mem_of_mem_take hl)
  · rw [Bool.and_eq_true_iff, accepted_iff, decide_eq_true_iff]
  · intro ro runs h
    have ha := h.acc
    set acc : Hash → Prop := fun ro => (Acc ro ∧ (O ro).Fits cd Gs Hs (P ro).C_w (P ro).inner.c_prime_prime_w ∧
        (O ro).w 0 = 1 ∧ ¬ CopyHolds Us map msgs (O ro).w) ∧ (ro, A.run id ro) ∈ runs with hacc
    -- different openings of the same point
    have two : ∀ ro1 ro2, acc ro1 → acc ro2 → (P ro2).C_w = (P ro1).C_w → (O ro1).first ≠ (O ro2).first →
        ∃ rel, difference (O ro1).first (O ro2).first = some rel ∧ IsRelation Gs Hs Q rel := by
      intro ro1 ro2 a1 a2 e hne
      obtain ⟨f1, f2, f3, f4⟩ := a1.1.2.1
      obtain ⟨g1, g2, g3, g4⟩ := a2.1.2.1
      refine two_openings Gs Hs Q _ _ hne (by simp [Openings.first, hG])
        (by simp [Openings.first, hH, f1]) (by simp [Openings.first, hG]) (by simp [Openings.first, hH, g1]) ?_
      rw [e, f3, Option.some.injEq] at g3
      exact g3
    have same : ∀ ro1 ro2, (O ro1).first = (O ro2).first → (O ro1).w = (O ro2).w := fun ro1 ro2 he =>
      List.ofFn_injective (List.append_inj_left (congrArg Prod.fst he) (by simp))
    -- another value of `alpha`
    have hk0 : (copyHistories cd ro log Gs Hs Q Us map Cs (P ro))[0]? =
        some (log ++ [.msg "c_w" (P ro).C_w, .chal "alpha" 64]) := rfl
    obtain ⟨S, hS, hfew⟩ := copy_few hn hws hs hmap hsets hi h0 hU hfit (O ro).w ha.1.2.2.1 ha.1.2.2.2
    obtain ⟨v, hv, -, hne⟩ := Forks.pick (k := 0) h hk0 S (by
      rw [show firstThree k0 k1 k2 0 = Cs.length + 4 from rfl]; omega)
    obtain ⟨hf, hkey⟩ := hv 0
    set l := log ++ [.msg "c_w" (P ro).C_w, .chal "alpha" 64] with hl
    set ro1 := Function.update ro l (v 0) with hro1
    have eC : (P ro1).C_w = (P ro).C_w := by
      have : some (log ++ [.msg "c_w" (P ro1).C_w, .chal "alpha" 64]) = some l := hkey
      simpa [hl] using this
    have eα : copyAlpha F ro1 log (P ro1).C_w = ((leNat (v 0).toList : Nat) : F) := by
      rw [copyAlpha, squeeze, eC, ← hl, hro1, Function.update_self]
    have ha1 := hf.acc
    by_cases heq : (O ro1).first = (O ro).first
    swap
    · exact ⟨ro1, ha1.2, Or.inl ⟨ro, ha.2, eC.symm, two _ _ ha1 ha eC.symm heq⟩⟩
    set α₀ := copyAlpha F ro1 log (P ro1).C_w with hα₀
    have hdr : ∃ j, drift (m + 3) (copySystem Us map α₀).get (copyVector map msgs α₀ (O ro1).w) j ≠ 0 := by
      by_contra hno
      push Not at hno
      rw [same _ _ heq] at hno
      refine hne 0 ?_
      rw [← eα]
      exact hfew _ fun h1 i hi => (C89_drift_one (m + 3) _ _ h1).1 hno i hi
    -- another value of `x`
    obtain ⟨S', hS', hfew'⟩ := few_drift (m + 3) _ _ hdr
    set log1 := log ++ [.msg "c_w" (P ro1).C_w, .chal "alpha" 64] with hlog1
    have hk1 : (copyHistories cd ro1 log Gs Hs Q Us map Cs (P ro1))[1]? =
        some (log1 ++ [.msg "c_prime_w" (copyInner cd ro1 log Cs (P ro1)).c_prime_w, .chal "x" 64]) := rfl
    obtain ⟨y, hy, -, hne'⟩ := Forks.pick (k := 0) hf hk1 S' (by
      rw [show firstThree k0 k1 k2 1 = m + 8 from rfl]; omega)
    obtain ⟨hg, hkey'⟩ := hy 0
    set l' := log1 ++ [.msg "c_prime_w" (copyInner cd ro1 log Cs (P ro1)).c_prime_w, .chal "x" 64] with hl'
    set ro2 := Function.update ro1 l' (y 0) with hro2
    obtain ⟨eC2, eα2⟩ := copy_stable (j := 0) hk1 (by exact hkey')
    have eC2 : (P ro2).C_w = (P ro1).C_w := eC2
    have eα2 : copyAlpha F ro2 log (P ro2).C_w = α₀ := eα2
    have ha2 := hg.acc
    have ex : qesaX F ro2 (log ++ [.msg "c_w" (P ro2).C_w, .chal "alpha" 64])
        (copyInner cd ro2 log Cs (P ro2)).c_prime_w = ((leNat (y 0).toList : Nat) : F) := by
      have : some (log ++ [.msg "c_w" (P ro2).C_w, .chal "alpha" 64] ++
        [.msg "c_prime_w" (copyInner cd ro2 log Cs (P ro2)).c_prime_w, .chal "x" 64]) = some l' := hkey'
      rw [qesaX, squeeze, Option.some.inj this, hro2, Function.update_self]
    have hx : qesaX F ro2 (log ++ [.msg "c_w" (P ro2).C_w, .chal "alpha" 64])
        (copyInner cd ro2 log Cs (P ro2)).c_prime_w ≠ 0 := by
      rw [ex]
      exact fun h0 => hne' 0 (hfew' _ (Or.inl h0))
    refine ⟨ro2, ha2.2, ?_⟩
    by_cases heq' : (O ro2).first = (O ro1).first
    swap
    · exact Or.inl ⟨ro1, ha1.2, eC2.symm, two _ _ ha2 ha1 eC2.symm heq'⟩
    right
    obtain ⟨g1, g2, g3, g4⟩ := ha2.1.2.1
    obtain ⟨C_w, C'', s, b, β, α, T, h1, h2, h5, h3, h4⟩ := copy_extraction hq cd Gs Hs hG hH Q Us (coms.map (·.1)) map Cs
      hn hws hs' hmap hi' hC log (K := firstThree k0 k1 k2) hK (le_max_left _ _)
      (fun ro => P ro) acc (fun _ h => h.1.1) ro2 hg hx
    refine ⟨s, b, β, α, T, fun i j l e c hc => ?_, ?_⟩
    · obtain ⟨ro', e1, e2, e3, e4, e5, e6, e7⟩ := h3 i j l e c hc
      refine ⟨ro', ⟨e2.2, e1.update.update, e2.1.1, e3, e4⟩, ?_, e5, e6, e7⟩
      show (copyInner cd ro' log Cs (P ro')).c_prime_w = (copyInner cd ro2 log Cs (P ro2)).c_prime_w
      have e3 : (P ro').C_w = (P ro2).C_w := e3
      simp only [copyInner, e3, e4]
    · split at h4
      · rename_i w v he
        obtain ⟨u, p0, p1, rfl, rfl, hz, hC'⟩ := h4
        rw [he]
        dsimp only
        rw [h1, cd.decompress_compress, Option.some.injEq] at g3
        rw [h2, cd.decompress_compress, Option.some.injEq] at g4
        refine two_openings Gs Hs Q _ _ (fun e => ?_) (by cases hu : List.ofFn u ++ [p0, p1] with
          | nil => simp at hu
          | cons a l =>
            have := congrArg List.length hu
            simp [unscaled] at this ⊢
            omega) (by simp [hH]) (by simp [Openings.aggregated, hG]) (by simp [Openings.aggregated, hH, g1, g2]) ?_
        · have e1 := unscaled_inj hx (congrArg Prod.fst e)
          refine hne' 0 (hfew' _ (Or.inr ?_))
          rw [← ex, ← same _ _ heq']
          rw [e1] at hz
          rw [← eα2]
          exact hz
        · have agg := commit_copyVector coms hwf hlen hi Gs hG (copyAlpha F ro2 log (P ro2).C_w) (O ro2).w (O ro2).r0
            (O ro2).r1
          dsimp only [Openings.aggregated]
          rw [dot_unscaled u p0 p1 hG, (dot_zip (m + 3) _ _ Hs g1 g2).1, ← hC', g3, g4]
          have agg' : dot (List.ofFn (copyVector map msgs (copyAlpha F ro2 log (P ro2).C_w) (O ro2).w) ++ [(O ro2).r0,
              (O ro2).r1 + dot (coms.map (·.2.2)) (List.ofFn (powers (copyAlpha F ro2 log (P ro2).C_w) coms.length))]) Gs =
              dot (List.ofFn (powers (copyAlpha F ro2 log (P ro2).C_w) Cs.length)) Cs + dot (O ro2).first.1 Gs := by
            rw [hCl, hCs']
            exact agg
          rw [agg', add_assoc, add_assoc, add_assoc]
          rfl
      · rename_i rel he
        rw [he]
        exact h4

omit [DecidableEq F] [DecidableEq G] in
/-- C98: for every prover of Copy there is a finite set of histories as above. -/
theorem C98_copy_domain {τ : Type} (cd : Codec G) (log : List Event) (Gs Hs : List G) (Q : G)
    (Us : List (Matrix (Fin (m + 1)) (Fin (m + 1)) F)) (map : Copy.Mapping) (Cs : List G)
    (A : Algo Event (Copy.Proof F × τ)) :
    ∃ D : Finset (List Event), ∀ ro, ∀ l ∈ A.asked id ro ++ copyHistories cd ro log Gs Hs Q Us map Cs (A.run id ro).1,
      l ∈ D := by
  let V : Copy.Proof F × τ → Algo Event Unit := fun p =>
    copyVerifierQueries cd log Gs Hs Q Us map Cs (p.1.inner.alm_zk.NoZK.L_vec.length + 1) p.1
  obtain ⟨D, hD⟩ := exists_domain id (fun _ (_ : Unit) => ([] : List (List Event))) (by
    intro p
    simp) (A.andThen V)
  refine ⟨D, fun ro l hl => ?_⟩
  have := (hD ro).1 l
  rw [Algo.asked_andThen, copyVerifierQueries_asked,
    List.take_of_length_le (by simp [copyHistories, copyInner, qesaHistories, almHistories, ipaHistories])] at this
  simpa using this hl

set_option exponentiation.threshold 600 in
/-- C98 with the scalars of the repository: the commitment `10 G_2 + 7 G_7` contains the message 10, to be copied to slot 1,
and there are no equations of the user. A prover with up to `2^60` questions shows an opening with first component one and
another number in slot 1. The chance that it is accepted is at most the chance that the program finds a relation between the
generators, plus `2^-44`. On average the program runs the prover at most `2^81` times. -/
example {G : Type} [AddCommGroup G] [Module RistrettoScalar G] [DecidableEq G] (cd : Codec G) (g : Fin 8 → G)
    (Hs : List G) (hH : Hs.length = 8) (Q : G) (log : List Event)
    (A : Algo Event (Copy.Proof RistrettoScalar × Openings RistrettoScalar 5)) (hT : A.AtMost (2 ^ 60)) (ro : Hash) :
    ∃ D : Finset (List Event),
    let Gs := List.ofFn g
    let Cs := [(10 : RistrettoScalar) • g 2 + (7 : RistrettoScalar) • g 7]
    let E := copyReduction (m := 5) cd log Gs Hs Q [] exMap [10] Cs 3 (2 ^ 110)
    mean ro D (fun ro => (E ro).runs fun ro => A.run id ro) ≤ 2 ^ 81 ∧
    chance ro D (fun ro =>
        let (p, o) := A.run id ro
        (∃ tr', p.verify ⟨cd, ro⟩ ⟨log⟩ Gs Hs Q ⟨[]⟩ exMap Cs = .ok (true, tr')) ∧
        o.Fits cd Gs Hs p.C_w p.inner.c_prime_prime_w ∧ o.w 0 = 1 ∧ o.w 1 ≠ 10) ≤
      mean ro D (fun ro => (E ro).chance (fun ro => A.run id ro) fun o =>
        ∃ runs, o = some runs ∧ ∃ ro1, (ro1, A.run id ro1) ∈ runs ∧
        ((∃ ro2, (ro2, A.run id ro2) ∈ runs ∧ ∃ rel, difference (A.run id ro1).2.first (A.run id ro2).2.first = some rel ∧
          IsRelation Gs Hs Q rel) ∨
        let c_w := (A.run id ro1).1.C_w
        let α₀ := copyAlpha RistrettoScalar ro1 log c_w
        GivesRelation cd (log ++ [.msg "c_w" c_w, .chal "alpha" 64]) Gs Hs Q (copySystem (k := 5) [] exMap α₀).get 3
          (fun ro' => (ro', A.run id ro') ∈ runs) (fun ro => copyInner cd ro log Cs (A.run id ro).1) ro1
          ((A.run id ro1).2.aggregated exMap [([2], [10], 7)] α₀))) + 1 / 2 ^ 44 := by
  obtain ⟨D, hD⟩ := C98_copy_domain (m := 5) cd log (List.ofFn g) Hs Q [] exMap
    [(10 : RistrettoScalar) • g 2 + (7 : RistrettoScalar) • g 7] A
  have hcom : [(([2] : List Nat), [(10 : RistrettoScalar)], (7 : RistrettoScalar))].mapM
      (fun c => Copy.commit (List.ofFn g) c.1 c.2.1 c.2.2) =
      .ok [(10 : RistrettoScalar) • g 2 + (7 : RistrettoScalar) • g 7] := by
    have := C32_commit_value (F := RistrettoScalar) (n := 7) g ![(2 : Fin (7 + 1))] ![(10 : RistrettoScalar)] 7
    simp only [Fin.sum_univ_one] at this
    simp only [List.mapM_cons, List.mapM_nil]
    rw [show Copy.commit (List.ofFn g) [2] [(10 : RistrettoScalar)] 7 =
      .ok ((10 : RistrettoScalar) • g 2 + (7 : RistrettoScalar) • g 7) from this]
    rfl
  obtain ⟨h1, h2⟩ := C98_copy_reduction (q := 3) (m := 5) (ws := 1) rfl cd (List.ofFn g) Hs (by simp) hH Q [] exMap
    [([2], [10], 7)] _ hcom (by decide) (by decide) (by decide) (by decide +kernel) (by simp) (by simp) (by simp)
    (by simp) (by decide) log C87_scalars A hT (2 ^ 110) ro D hD
  refine ⟨D, h1.trans (by norm_num), (chance_mono fun ro h => ?_).trans (h2.trans (add_le_add (mean_mono _ _ fun ro =>
    Rewinder.expect_mono _ (fun o => ?_) _) (by norm_num)))⟩
  · obtain ⟨i1, i2, i3, i4⟩ := h
    exact ⟨i1, i2, i3, fun hh => i4 (hh.2 ⟨0, 2, 0, 1⟩ (by simp [exMap])).1⟩
  · split_ifs with c1 c2 c2
    · exact le_rfl
    · obtain ⟨runs, hr, -, ro1, hm, h⟩ := c1
      refine absurd ⟨runs, hr, ro1, hm, ?_⟩ c2
      rcases h with ⟨ro2, h3, -, h4⟩ | ⟨s, b, β, α, T, h, h'⟩
      · exact Or.inl ⟨ro2, h3, h4⟩
      · refine Or.inr ⟨s, b, β, α, T, fun i j l e c hc => ?_, h'⟩
        obtain ⟨ro', e1, e2⟩ := h i j l e c hc
        exact ⟨ro', e1.1, e2⟩
    · norm_num
    · exact le_rfl

end Qesa.Props
