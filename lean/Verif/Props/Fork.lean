import Verif.Proofs.IpaFork
import Verif.Proofs.FsCore
import Verif.Props.HonestTrees
import Verif.Props.RandomOracle
import Verif.Toy
/-
Rewinding in the random-oracle model, for arbitrary provers: the forking lemma, and knowledge soundness of the
inner-product arguments (C92).
-/
namespace Qesa.Props
open Qesa Spec Ipa
variable {F G : Type} [Field F] [DecidableEq F] [AddCommGroup G] [Module F G]

/-- C92: the forking lemma. Let `A` be an algorithm with at most `T` queries. Let `hist ro` be the histories behind
the challenges of its output, such that no history belongs to challenges with different numbers and all are queried by
`A` or afterwards by the verifier `V` with at most `k` queries. For at most `(T + k) (M - 1)` out of `2 ^ 512` hash
functions `A` is accepted but does not branch `M`-fold at its first `d` challenges. -/
theorem C92_forking {α : Type} {T k M d : Nat} (A : Algo Event α) (hT : A.AtMost T) (V : α → Algo Event Unit)
    (hV : ∀ a, (V a).AtMost k) (acc : Hash → Prop) (hist : Hash → List (List Event))
    (hnum : ∀ (ro ro' : Hash) (i i' : Nat) (l : List Event), acc ro → acc ro' →
      (hist ro)[i]? = some l → (hist ro')[i']? = some l → i = i')
    (hhist : ∀ ro, acc ro → ∀ l ∈ hist ro, l ∈ A.asked id ro ++ (V (A.run id ro)).asked id ro)
    (ro : Hash) (D : Finset (List Event))
    (hD : ∀ ro, ∀ l ∈ A.asked id ro ++ (V (A.run id ro)).asked id ro, l ∈ D) :
    chance ro D (fun ro => acc ro ∧ ¬ Branches acc (fun ro i => (hist ro)[i]?) M d 0 ro) ≤
      ((T + k) * (M - 1) : Nat) / 2 ^ 512 := by
  apply chance_le
  have hask : ∀ ro, (A.andThen V).asked id ro = A.asked id ro ++ (V (A.run id ro)).asked id ro :=
    fun ro => Algo.asked_andThen id ro V A
  refine count_unbranched acc _ M d (A.andThen V) (T + k) (Algo.andThen_atMost V k hV A T hT) ?_ hnum ro D ?_
  · intro ro i l ha hl
    rw [hask]
    exact hhist ro ha l (List.mem_of_getElem? hl)
  · intro f l hl
    rw [hask] at hl
    exact hD _ l hl

/-- The histories are recognizable by some measure, such as their length. -/
theorem forking_by {α : Type} {T k M d : Nat} (measure : List Event → Nat) (A : Algo Event α) (hT : A.AtMost T)
    (V : α → Algo Event Unit)
    (hV : ∀ a, (V a).AtMost k) (acc : Hash → Prop) (hist : Hash → List (List Event)) (len : Nat → Nat)
    (hlen : Function.Injective len)
    (hhist : ∀ ro, acc ro → ∀ i l, (hist ro)[i]? = some l → measure l = len i ∧
      l ∈ A.asked id ro ++ (V (A.run id ro)).asked id ro)
    (ro : Hash) (D : Finset (List Event))
    (hD : ∀ ro, ∀ l ∈ A.asked id ro ++ (V (A.run id ro)).asked id ro, l ∈ D) :
    chance ro D (fun ro => acc ro ∧ ¬ Branches acc (fun ro i => (hist ro)[i]?) M d 0 ro) ≤
      ((T + k) * (M - 1) : Nat) / 2 ^ 512 := by
  refine C92_forking A hT V hV acc hist ?_ ?_ ro D hD
  · intro ro ro' i i' l ha ha' hl hl'
    exact hlen ((hhist ro ha i l hl).1.symm.trans (hhist ro' ha' i' l hl').1)
  · intro ro ha l hl
    obtain ⟨i, hi⟩ := List.mem_iff_getElem?.1 hl
    exact (hhist ro ha i l hi).2

omit [DecidableEq F] [AddCommGroup G] [Module F G] in
theorem ipaHistories_mem_length {lg : List Event} {n i : Nat} {p : NoZK F} {l : List Event}
    (h : (ipaHistories lg n p)[i]? = some l) : l.length = lg.length + 2 + 3 * i := by
  classical
  rw [ipaHistories_getElem, ipaKey] at h
  split at h
  · rename_i hi
    rw [Option.some.injEq] at h
    rw [← h, List.length_append, roundsLog_take_length _ _ _ hi, List.length_append]
    rfl
  · cases h

section
variable [DecidableEq G]

/-! ### The inner-product argument -/

omit [DecidableEq F] in
/-- C92: a prover of the inner-product argument that is accepted can be rewound at all challenges. The branching
number `M` is arbitrary: of the `2 ^ 512` answers at least `M` lead on. -/
theorem C92_ipa_rewinding {q T M : Nat} (cd : Codec G) (Gs Hs : List G) (Q P : G) (t : F) (log : List Event)
    (A : Algo Event (NoZK F)) (hT : A.AtMost T) (ro : Hash) (D : Finset (List Event))
    (hD : ∀ ro, ∀ l ∈ A.asked id ro ++ ipaHistories log (2 ^ q) (A.run id ro), l ∈ D) :
    let Acc := fun ro => ∃ tr', (A.run id ro).verify ⟨cd, ro⟩ ⟨log⟩ Gs Hs Q (2 ^ q) P t = .ok (true, tr')
    chance ro D (fun ro => Acc ro ∧
      ¬ Branches Acc (fun ro i => (ipaHistories log (2 ^ q) (A.run id ro))[i]?) M (q + 1) 0 ro) ≤
    ((T + (q + 1)) * (M - 1) : Nat) / 2 ^ 512 := by
  intro Acc
  refine forking_by List.length A hT (fun p => Algo.askAll () ((ipaHistories log (2 ^ q) p).take (q + 1)))
    (fun p => Algo'.askAll_atMost _ _ _ (List.length_take_le _ _)) Acc
    (fun ro => ipaHistories log (2 ^ q) (A.run id ro)) (fun i => log.length + 2 + 3 * i) (fun i j h => by
      simp only at h; omega) ?_ ro D ?_
  · rintro ro ⟨tr', h⟩ i l hl
    refine ⟨ipaHistories_mem_length hl, List.mem_append_right _ ?_⟩
    rw [Algo'.askAll_asked]
    have hv := (C22_ipa_verify_returns_iff _ _ _ _ _ _ _ _ _).1 ⟨_, h⟩
    have hq : (A.run id ro).L_vec.length = q := (Nat.pow_right_injective le_rfl hv.2.2.2.1).symm
    rw [List.take_of_length_le (by simp [ipaHistories]; omega)]
    exact List.mem_of_getElem? hl
  · intro ro l hl
    apply hD ro
    rw [Algo'.askAll_asked] at hl
    rcases List.mem_append.1 hl with hl | hl
    · exact List.mem_append_left _ hl
    · exact List.mem_append_right _ (List.mem_of_mem_take hl)

/-- A prover that forks delivers; `Acc` may contain further conditions. -/
theorem ipa_extraction {q : Nat} (cd : Codec G) (Gs Hs : List G) (hG : Gs.length = 2 ^ q)
    (hH : Hs.length = 2 ^ q) (Q P : G) (t : F) (log : List Event)
    {K : Nat → Nat} (hK : ∀ i, 4 ≤ K i) (A : Hash → NoZK F) (Acc : Hash → Prop)
    (hAcc : ∀ ro, Acc ro → ∃ tr', (A ro).verify ⟨cd, ro⟩ ⟨log⟩ Gs Hs Q (2 ^ q) P t = .ok (true, tr')) (ro : Hash)
    (h : Forks (scalarOf F) Acc (fun ro i => (ipaHistories log (2 ^ q) (A ro))[i]?) K (q + 1) 0 ro) :
    ∃ (α : Fin 2 → F) (T : Fin 2 → IpaTree F G q),
      (∀ i, ∀ c ∈ (T i).paths, ∃ ro', Reprogrammed (q + 1) ro ro' ∧ Acc ro' ∧ ipaAlpha F ro' log (2 ^ q) = α i ∧
        Continues cd (A ro')
          (ipaChallenges F ro' log (2 ^ q) (A ro').L_vec (A ro').R_vec) c) ∧
      match extractIpa t α fun i => (T i).scalars with
      | .inl (a, b) => a.length = 2 ^ q ∧ b.length = 2 ^ q ∧ P = dot a Gs + dot b Hs + t • Q ∧ dot a b = t
      | .inr r => IsRelation Gs Hs Q r := by
  obtain ⟨α, T, h1, h2, h3, h4⟩ := ipa_forks cd hK (acc := Acc)
    (key := fun ro i => (ipaHistories log (2 ^ q) (A ro))[i]?) 0 (fun _ => log) (fun _ => ())
    (fun _ => Gs) (fun _ => Hs) (fun _ => hG) (fun _ => hH) Q (fun _ => P) (fun _ => t) (fun ro => A ro)
    hAcc (fun ro j _ => by rw [Nat.zero_add]) (fun _ _ _ _ _ _ _ _ => rfl) ro h
  refine ⟨α, T, fun i c hc => ?_, ipa_special_soundness_of_accepts α T h1 h2 h3 Gs Hs hG hH Q P t
    fun i c hc => (h4 i c hc).1⟩
  obtain ⟨-, ro', e1, e2, -, -, e3, e4⟩ := h4 i c hc
  exact ⟨ro', e1, e2, e3, e4⟩

/-- C92: a prover that can be rewound delivers. `B` bounds the number of byte strings that reduce to the same scalar.
All conversations of the trees come from accepted runs of the prover with hash functions that differ in at most
`q + 1` answers, and from their scalars the extractor of C21 computes a witness, or else a relation between the
generators. -/
theorem C92_ipa_extraction {q B M : Nat} (cd : Codec G) (Gs Hs : List G) (hG : Gs.length = 2 ^ q)
    (hH : Hs.length = 2 ^ q) (Q P : G) (t : F) (log : List Event)
    (hB : ∀ c : F, Nat.card {v : Vector UInt8 64 // ((leNat v.toList : Nat) : F) = c} ≤ B) (hM : 3 * B < M)
    (A : Algo Event (NoZK F)) (ro : Hash) :
    let Acc := fun ro => ∃ tr', (A.run id ro).verify ⟨cd, ro⟩ ⟨log⟩ Gs Hs Q (2 ^ q) P t = .ok (true, tr')
    Branches Acc (fun ro i => (ipaHistories log (2 ^ q) (A.run id ro))[i]?) M (q + 1) 0 ro →
    ∃ (α : Fin 2 → F) (T : Fin 2 → IpaTree F G q),
      (∀ i, ∀ c ∈ (T i).paths, ∃ ro', Reprogrammed (q + 1) ro ro' ∧ Acc ro' ∧ ipaAlpha F ro' log (2 ^ q) = α i ∧
        Continues cd (A.run id ro')
          (ipaChallenges F ro' log (2 ^ q) (A.run id ro').L_vec (A.run id ro').R_vec) c) ∧
      match extractIpa t α fun i => (T i).scalars with
      | .inl (a, b) => a.length = 2 ^ q ∧ b.length = 2 ^ q ∧ P = dot a Gs + dot b Hs + t • Q ∧ dot a b = t
      | .inr r => IsRelation Gs Hs Q r :=
  fun h => ipa_extraction cd Gs Hs hG hH Q P t log (K := fun _ => 3 + 1) (fun _ => le_rfl) (fun ro => A.run id ro) _
    (fun _ h => h) ro (h.forks hB hM)

/-- C92: knowledge soundness of the inner-product argument in the random-oracle model. Whatever the prover is, for at
most `3 B (T + q + 1)` out of `2 ^ 512` hash functions it is accepted without a tree of conversations, obtained by
rewinding it, from which the extractor of C21 computes a witness or else a relation between the generators. -/
theorem C92_ipa_knowledge {q T B : Nat} (cd : Codec G) (Gs Hs : List G) (hG : Gs.length = 2 ^ q)
    (hH : Hs.length = 2 ^ q) (Q P : G) (t : F) (log : List Event)
    (hB : ∀ c : F, Nat.card {v : Vector UInt8 64 // ((leNat v.toList : Nat) : F) = c} ≤ B)
    (A : Algo Event (NoZK F)) (hT : A.AtMost T) (ro : Hash) (D : Finset (List Event))
    (hD : ∀ ro, ∀ l ∈ A.asked id ro ++ ipaHistories log (2 ^ q) (A.run id ro), l ∈ D) :
    let Acc := fun ro => ∃ tr', (A.run id ro).verify ⟨cd, ro⟩ ⟨log⟩ Gs Hs Q (2 ^ q) P t = .ok (true, tr')
    chance ro D (fun ro => Acc ro ∧ ¬ ∃ (α : Fin 2 → F) (T : Fin 2 → IpaTree F G q),
      (∀ i, ∀ c ∈ (T i).paths, ∃ ro', Reprogrammed (q + 1) ro ro' ∧ Acc ro' ∧ ipaAlpha F ro' log (2 ^ q) = α i ∧
        Continues cd (A.run id ro')
          (ipaChallenges F ro' log (2 ^ q) (A.run id ro').L_vec (A.run id ro').R_vec) c) ∧
      match extractIpa t α fun i => (T i).scalars with
      | .inl (a, b) => a.length = 2 ^ q ∧ b.length = 2 ^ q ∧ P = dot a Gs + dot b Hs + t • Q ∧ dot a b = t
      | .inr r => IsRelation Gs Hs Q r) ≤
    ((T + (q + 1)) * (3 * B) : Nat) / 2 ^ 512 := by
  intro Acc
  refine (chance_mono fun ro h => ?_).trans (C92_ipa_rewinding (M := 3 * B + 1) cd Gs Hs Q P t log A hT ro D hD)
  exact ⟨h.1, fun hb => h.2 (C92_ipa_extraction cd Gs Hs hG hH Q P t log hB (Nat.lt_succ_self _) A ro hb)⟩

/-- C92: if the claim is false and there is no relation between the generators at all, no prover is accepted with a
greater chance. -/
theorem C92_ipa_false {q T B : Nat} (cd : Codec G) (Gs Hs : List G) (hG : Gs.length = 2 ^ q)
    (hH : Hs.length = 2 ^ q) (Q P : G) (t : F) (log : List Event)
    (hB : ∀ c : F, Nat.card {v : Vector UInt8 64 // ((leNat v.toList : Nat) : F) = c} ≤ B)
    (A : Algo Event (NoZK F)) (hT : A.AtMost T) (ro : Hash) (D : Finset (List Event))
    (hD : ∀ ro, ∀ l ∈ A.asked id ro ++ ipaHistories log (2 ^ q) (A.run id ro), l ∈ D)
    (hind : ∀ r : List F × List F × F, ¬ IsRelation Gs Hs Q r)
    (hfalse : ¬ ∃ a b : List F, a.length = 2 ^ q ∧ b.length = 2 ^ q ∧ P = dot a Gs + dot b Hs + t • Q ∧ dot a b = t) :
    chance ro D (fun ro => ∃ tr', (A.run id ro).verify ⟨cd, ro⟩ ⟨log⟩ Gs Hs Q (2 ^ q) P t = .ok (true, tr')) ≤
    ((T + (q + 1)) * (3 * B) : Nat) / 2 ^ 512 := by
  refine (chance_mono fun ro h => ?_).trans (C92_ipa_knowledge cd Gs Hs hG hH Q P t log hB A hT ro D hD)
  refine ⟨h, ?_⟩
  rintro ⟨α, T, -, h⟩
  split at h
  · exact hfalse ⟨_, _, h⟩
  · exact hind _ h

/-! ### AlmZK -/

/-- The queries of the verifier of AlmZK. -/
def almVerifierQueries (cd : Codec G) (log : List Event) (n k : Nat) (Q C_w : G) (t : F) (p : AlmZK F) :
    Algo Event Unit :=
  .ask (log ++ [.msg "C_r" p.C_r, .chal "beta" 64]) fun v =>
    let β : F := (leNat v.toList : Nat)
    Algo.askAll () ((ipaHistories (log ++ almHead p.C_r (cd.compress
      (β • C_w + (cd.decompress p.C_r).getD 0 + (β * β * t) • Q))) n p.NoZK).take k)

omit [DecidableEq F] [DecidableEq G] in
theorem almVerifierQueries_asked (cd : Codec G) (log : List Event) (n k : Nat) (Q C_w : G) (t : F) (p : AlmZK F)
    (ro : Hash) : (almVerifierQueries cd log n k Q C_w t p).asked id ro =
      (almHistories cd ro log n Q C_w t p).take (k + 1) := by
  simp only [almVerifierQueries, Algo.asked, Algo'.askAll_asked, almHistories, List.take_succ_cons, List.map_id]
  rfl

omit [DecidableEq F] [DecidableEq G] in
theorem almVerifierQueries_atMost (cd : Codec G) (log : List Event) (n k : Nat) (Q C_w : G) (t : F) (p : AlmZK F) :
    (almVerifierQueries cd log n k Q C_w t p).AtMost (k + 1) :=
  fun _ => Algo'.askAll_atMost _ _ _ (List.length_take_le _ _)

omit [DecidableEq F] [DecidableEq G] in
theorem almHistories_mem_length {cd : Codec G} {ro : Hash} {lg : List Event} {n i : Nat} {Q C : G} {t : F} {p : AlmZK F}
    {l : List Event} (h : (almHistories cd ro lg n Q C t p)[i]? = some l) :
    l.length = lg.length + 2 + 3 * i := by
  unfold almHistories at h
  cases i with
  | zero =>
    rw [List.getElem?_cons_zero, Option.some.injEq] at h
    rw [← h]; simp
  | succ i =>
    rw [List.getElem?_cons_succ] at h
    rw [ipaHistories_mem_length h]
    simp [almLog, almHead]; omega

omit [DecidableEq F] in
/-- An accepted proof of AlmZK has `q` points `L`. -/
theorem alm_rounds {cx : Ctx G} {p : AlmZK F} {tr tr' : Transcript} {Gs Hs : List G} {Q C_w : G} {t : F} {q : Nat}
    (h : p.verify cx tr Gs Hs Q (2 ^ q) C_w t = .ok (true, tr')) : p.NoZK.L_vec.length = q := by
  cases hd : cx.decompress p.C_r with
  | none => rw [alm_verify_undecodable cx p tr Gs Hs Q _ C_w t hd] at h; simp at h
  | some C_r =>
    rw [alm_verify_eq cx p tr Gs Hs Q _ C_w t C_r (cx.compress_decompress _ _ hd).symm] at h
    have hv := (C22_ipa_verify_returns_iff _ _ _ _ _ _ _ _ _).1 ⟨_, h⟩
    exact (Nat.pow_right_injective le_rfl hv.2.2.2.1).symm

omit [DecidableEq F] in
/-- C92: a prover of AlmZK that is accepted can be rewound at all challenges. -/
theorem C92_alm_rewinding {q T M : Nat} (cd : Codec G) (Gs Hs : List G) (Q C_w : G) (t : F) (log : List Event)
    (A : Algo Event (AlmZK F)) (hT : A.AtMost T) (ro : Hash) (D : Finset (List Event))
    (hD : ∀ ro, ∀ l ∈ A.asked id ro ++ almHistories cd ro log (2 ^ q) Q C_w t (A.run id ro), l ∈ D) :
    let Acc := fun ro => ∃ tr', (A.run id ro).verify ⟨cd, ro⟩ ⟨log⟩ Gs Hs Q (2 ^ q) C_w t = .ok (true, tr')
    chance ro D (fun ro => Acc ro ∧
      ¬ Branches Acc (fun ro i => (almHistories cd ro log (2 ^ q) Q C_w t (A.run id ro))[i]?) M (q + 2) 0 ro) ≤
    ((T + (q + 2)) * (M - 1) : Nat) / 2 ^ 512 := by
  intro Acc
  refine forking_by List.length A hT (almVerifierQueries cd log (2 ^ q) (q + 1) Q C_w t)
    (fun p => almVerifierQueries_atMost cd log _ _ Q C_w t p) Acc
    (fun ro => almHistories cd ro log (2 ^ q) Q C_w t (A.run id ro)) (fun i => log.length + 2 + 3 * i)
    (fun i j h => by simp only at h; omega) ?_ ro D ?_
  · rintro ro ⟨tr', h⟩ i l hl
    refine ⟨almHistories_mem_length hl, List.mem_append_right _ ?_⟩
    rw [almVerifierQueries_asked]
    have hq := alm_rounds h
    rw [List.take_of_length_le (by simp [almHistories, ipaHistories]; omega)]
    exact List.mem_of_getElem? hl
  · intro ro l hl
    apply hD ro
    rw [almVerifierQueries_asked] at hl
    rcases List.mem_append.1 hl with hl | hl
    · exact List.mem_append_left _ hl
    · exact List.mem_append_right _ (List.mem_of_mem_take hl)

/-- A prover of AlmZK that forks delivers; `Acc` may contain further conditions. -/
theorem alm_extraction {q : Nat} (cd : Codec G) (Gs Hs : List G) (hG : Gs.length = 2 ^ q)
    (hH : Hs.length = 2 ^ q) (Q C_w : G) (t : F) (log : List Event)
    {K : Nat → Nat} (hK : ∀ i, 4 ≤ K i) (A : Hash → AlmZK F) (Acc : Hash → Prop)
    (hAcc : ∀ ro, Acc ro → ∃ tr', (A ro).verify ⟨cd, ro⟩ ⟨log⟩ Gs Hs Q (2 ^ q) C_w t = .ok (true, tr')) (ro : Hash)
    (h : Forks (scalarOf F) Acc (fun ro i => (almHistories cd ro log (2 ^ q) Q C_w t (A ro))[i]?) K (q + 2) 0 ro) :
    ∃ (β : Fin 3 → F) (α : Fin 3 → Fin 2 → F) (T : Fin 3 → Fin 2 → IpaTree F G q),
      (∀ i j, ∀ c ∈ (T i j).paths, ∃ ro', Reprogrammed (q + 2) ro ro' ∧ Acc ro' ∧
        let p := A ro'
        let lg := almLog cd ro' log Q C_w t p.C_r
        p.C_r = (A ro).C_r ∧ almBeta F ro' log p.C_r = β i ∧ ipaAlpha F ro' lg (2 ^ q) = α i j ∧
        Continues cd p.NoZK (ipaChallenges F ro' lg (2 ^ q) p.NoZK.L_vec p.NoZK.R_vec) c) ∧
      match extractAlm t β α fun i j => (T i j).scalars with
      | .inl (u, v) => u.length = 2 ^ q ∧ v.length = 2 ^ q ∧ C_w = dot u Gs + dot v Hs ∧ dot u v = t
      | .inr r => IsRelation Gs Hs Q r := by
  obtain ⟨C_r, β, α, T, h1, h2, h3, h4, h5⟩ := alm_forks cd hK (acc := fun ro' => Acc ro')
    (key := fun ro i => (almHistories cd ro log (2 ^ q) Q C_w t (A ro))[i]?) 0 (fun _ => log)
    (fun ro => (A ro).C_r)
    (fun _ => Gs) (fun _ => Hs) (fun _ => hG) (fun _ => hH) Q (fun _ => C_w) (fun _ => t) (fun ro => A ro)
    hAcc (fun ro j _ => by rw [Nat.zero_add]) (by
      intro ro l v j _ _ hk hk'
      simp only [Nat.zero_add, almHistories] at hk hk'
      cases j with
      | zero =>
        rw [List.getElem?_cons_zero, Option.some.injEq] at hk hk'
        have := (List.append_inj' (hk'.trans hk.symm) rfl).2
        simp only [List.cons.injEq, Event.msg.injEq, true_and, and_true] at this
        exact this
      | succ j =>
        rw [List.getElem?_cons_succ, ipaHistories_getElem] at hk hk'
        have := (List.append_inj' (ipaKey_inj hk hk').1 rfl).2
        simp only [almHead, List.cons.injEq, Event.msg.injEq, true_and, and_true] at this
        exact this.1) ro h
  refine ⟨β, α, T, fun i j c hc => ?_, alm_special_soundness_of_accepts β α T h1 h2 h3 h4 Gs Hs hG hH Q C_w C_r t
    fun i j c hc => (h5 i j c hc).1⟩
  obtain ⟨-, ro', e1, e2, e3, -, -, e4, e5, e6⟩ := h5 i j c hc
  exact ⟨ro', e1, e2, e3, e4, e5, e6⟩

/-- C92: a prover of AlmZK that can be rewound delivers. -/
theorem C92_alm_extraction {q B M : Nat} (cd : Codec G) (Gs Hs : List G) (hG : Gs.length = 2 ^ q)
    (hH : Hs.length = 2 ^ q) (Q C_w : G) (t : F) (log : List Event)
    (hB : ∀ c : F, Nat.card {v : Vector UInt8 64 // ((leNat v.toList : Nat) : F) = c} ≤ B) (hM : 3 * B < M)
    (A : Algo Event (AlmZK F)) (ro : Hash) :
    let Acc := fun ro => ∃ tr', (A.run id ro).verify ⟨cd, ro⟩ ⟨log⟩ Gs Hs Q (2 ^ q) C_w t = .ok (true, tr')
    Branches Acc (fun ro i => (almHistories cd ro log (2 ^ q) Q C_w t (A.run id ro))[i]?) M (q + 2) 0 ro →
    ∃ (β : Fin 3 → F) (α : Fin 3 → Fin 2 → F) (T : Fin 3 → Fin 2 → IpaTree F G q),
      (∀ i j, ∀ c ∈ (T i j).paths, ∃ ro', Reprogrammed (q + 2) ro ro' ∧ Acc ro' ∧
        let p := A.run id ro'
        let lg := almLog cd ro' log Q C_w t p.C_r
        p.C_r = (A.run id ro).C_r ∧ almBeta F ro' log p.C_r = β i ∧ ipaAlpha F ro' lg (2 ^ q) = α i j ∧
        Continues cd p.NoZK (ipaChallenges F ro' lg (2 ^ q) p.NoZK.L_vec p.NoZK.R_vec) c) ∧
      match extractAlm t β α fun i j => (T i j).scalars with
      | .inl (u, v) => u.length = 2 ^ q ∧ v.length = 2 ^ q ∧ C_w = dot u Gs + dot v Hs ∧ dot u v = t
      | .inr r => IsRelation Gs Hs Q r :=
  fun h => alm_extraction cd Gs Hs hG hH Q C_w t log (K := fun _ => 3 + 1) (fun _ => le_rfl) (fun ro => A.run id ro) _
    (fun _ h => h) ro (h.forks hB hM)

/-- C92: knowledge soundness of AlmZK in the random-oracle model. -/
theorem C92_alm_knowledge {q T B : Nat} (cd : Codec G) (Gs Hs : List G) (hG : Gs.length = 2 ^ q)
    (hH : Hs.length = 2 ^ q) (Q C_w : G) (t : F) (log : List Event)
    (hB : ∀ c : F, Nat.card {v : Vector UInt8 64 // ((leNat v.toList : Nat) : F) = c} ≤ B)
    (A : Algo Event (AlmZK F)) (hT : A.AtMost T) (ro : Hash) (D : Finset (List Event))
    (hD : ∀ ro, ∀ l ∈ A.asked id ro ++ almHistories cd ro log (2 ^ q) Q C_w t (A.run id ro), l ∈ D) :
    let Acc := fun ro => ∃ tr', (A.run id ro).verify ⟨cd, ro⟩ ⟨log⟩ Gs Hs Q (2 ^ q) C_w t = .ok (true, tr')
    chance ro D (fun ro => Acc ro ∧
      ¬ ∃ (β : Fin 3 → F) (α : Fin 3 → Fin 2 → F) (T : Fin 3 → Fin 2 → IpaTree F G q),
      (∀ i j, ∀ c ∈ (T i j).paths, ∃ ro', Reprogrammed (q + 2) ro ro' ∧ Acc ro' ∧
        let p := A.run id ro'
        let lg := almLog cd ro' log Q C_w t p.C_r
        p.C_r = (A.run id ro).C_r ∧ almBeta F ro' log p.C_r = β i ∧ ipaAlpha F ro' lg (2 ^ q) = α i j ∧
        Continues cd p.NoZK (ipaChallenges F ro' lg (2 ^ q) p.NoZK.L_vec p.NoZK.R_vec) c) ∧
      match extractAlm t β α fun i j => (T i j).scalars with
      | .inl (u, v) => u.length = 2 ^ q ∧ v.length = 2 ^ q ∧ C_w = dot u Gs + dot v Hs ∧ dot u v = t
      | .inr r => IsRelation Gs Hs Q r) ≤
    ((T + (q + 2)) * (3 * B) : Nat) / 2 ^ 512 := by
  intro Acc
  refine (chance_mono fun ro h => ?_).trans (C92_alm_rewinding (M := 3 * B + 1) cd Gs Hs Q C_w t log A hT ro D hD)
  exact ⟨h.1, fun hb => h.2 (C92_alm_extraction cd Gs Hs hG hH Q C_w t log hB (Nat.lt_succ_self _) A ro hb)⟩

/-- C92: if the claim is false and there is no relation between the generators at all, no prover of AlmZK is accepted
with a greater chance. -/
theorem C92_alm_false {q T B : Nat} (cd : Codec G) (Gs Hs : List G) (hG : Gs.length = 2 ^ q)
    (hH : Hs.length = 2 ^ q) (Q C_w : G) (t : F) (log : List Event)
    (hB : ∀ c : F, Nat.card {v : Vector UInt8 64 // ((leNat v.toList : Nat) : F) = c} ≤ B)
    (A : Algo Event (AlmZK F)) (hT : A.AtMost T) (ro : Hash) (D : Finset (List Event))
    (hD : ∀ ro, ∀ l ∈ A.asked id ro ++ almHistories cd ro log (2 ^ q) Q C_w t (A.run id ro), l ∈ D)
    (hind : ∀ r : List F × List F × F, ¬ IsRelation Gs Hs Q r)
    (hfalse : ¬ ∃ u v : List F, u.length = 2 ^ q ∧ v.length = 2 ^ q ∧ C_w = dot u Gs + dot v Hs ∧ dot u v = t) :
    chance ro D (fun ro => ∃ tr', (A.run id ro).verify ⟨cd, ro⟩ ⟨log⟩ Gs Hs Q (2 ^ q) C_w t = .ok (true, tr')) ≤
    ((T + (q + 2)) * (3 * B) : Nat) / 2 ^ 512 := by
  refine (chance_mono fun ro h => ?_).trans (C92_alm_knowledge cd Gs Hs hG hH Q C_w t log hB A hT ro D hD)
  refine ⟨h, ?_⟩
  rintro ⟨β, α, T, -, h⟩
  split at h
  · exact hfalse ⟨_, _, h⟩
  · exact hind _ h

omit [Field F] [DecidableEq F] [AddCommGroup G] [Module F G] [DecidableEq G] in
/-- C92: for every prover of the inner-product argument there is a finite set of histories as above. -/
theorem C92_ipa_domain (log : List Event) (n : Nat) (A : Algo Event (NoZK F)) :
    ∃ D : Finset (List Event), ∀ ro, ∀ l ∈ A.asked id ro ++ ipaHistories log n (A.run id ro), l ∈ D := by
  obtain ⟨D, hD⟩ := exists_domain id (fun _ p => ipaHistories log n p) (by
    intro p
    simp only [exists_const]
    exact List.finite_toSet _) A
  refine ⟨D, fun ro l hl => ?_⟩
  rcases List.mem_append.1 hl with hl | hl
  · simpa using (hD ro).1 l hl
  · exact (hD ro).2 _ hl

omit [DecidableEq F] [DecidableEq G] in
/-- C92: for every prover of AlmZK there is a finite set of histories as above. -/
theorem C92_alm_domain (cd : Codec G) (log : List Event) (n : Nat) (Q C_w : G) (t : F) (A : Algo Event (AlmZK F)) :
    ∃ D : Finset (List Event), ∀ ro, ∀ l ∈ A.asked id ro ++ almHistories cd ro log n Q C_w t (A.run id ro),
      l ∈ D := by
  obtain ⟨D, hD⟩ := exists_domain id (fun ro p => almHistories cd ro log n Q C_w t p) (by
    intro p
    let f : Vector UInt8 64 → List (List Event) := fun v => almHistories cd (fun _ => v) log n Q C_w t p
    refine (Set.finite_iUnion fun v => List.finite_toSet (f v)).subset ?_
    rintro l ⟨ro, hl⟩
    exact Set.mem_iUnion.2 ⟨_, hl⟩) A
  refine ⟨D, fun ro l hl => ?_⟩
  rcases List.mem_append.1 hl with hl | hl
  · simpa using (hD ro).1 l hl
  · exact (hD ro).2 _ hl

end

/-! ### Examples -/

section
open Toy
set_option exponentiation.threshold 600

/-- C92: a false claim for four independent generators. Whatever the prover does with `T` queries, it is accepted with
a chance of at most `3 (T + 3) (1/101 + 2⁻⁵¹²)`. -/
example (cd : Codec (Fin 9 → K)) {T : Nat} (A : Algo Event (NoZK K)) (hT : A.AtMost T) (ro : Hash) :
    ∃ D : Finset (List Event), chance ro D (fun ro => ∃ tr', (A.run id ro).verify ⟨cd, ro⟩ ⟨[]⟩ unitG unitH unitQ 4 0
      (1 : K) = .ok (true, tr')) ≤ ((T + 3) * 3 : Nat) * (1 / 101 + 1 / 2 ^ 512) := by
  obtain ⟨D, hD⟩ := C92_ipa_domain [] (2 ^ 2) A
  refine ⟨D, ?_⟩
  refine (C92_ipa_false (q := 2) cd unitG unitH rfl rfl unitQ 0 1 [] (C67_scalars 101) A hT ro D hD unit_no_relation
    ?_).trans ?_
  · rintro ⟨a, b, ha, hb, h, -⟩
    match a, ha, b, hb with
    | [a0, a1, a2, a3], _, [b0, b1, b2, b3], _ =>
      have := congrFun h 8
      simp [unitG, unitH, unitQ, dot_cons] at this
  · have := bound_aux ((T + 3) * 3) 101 (2 ^ 512) (by positivity)
    rw [← Nat.mul_assoc]
    exact_mod_cast this

/-- C92: rewinding is possible. The prover that sends the witness for the claim `2 G + 3 H + 6 Q` is accepted unless
`alpha = 0`, and branches as often as the extraction needs. -/
example : ∃ ro : Hash, Branches
    (fun ro => ∃ tr', (⟨[], [], 2, 3⟩ : NoZK K).verify ⟨codec, ro⟩ ⟨[]⟩ [5] [7] (9 : K) 1 (2 * 5 + 3 * 7 + 6 * 9) 6 =
      .ok (true, tr'))
    (fun _ i => (ipaHistories (F := K) [] 1 ⟨[], [], 2, 3⟩)[i]?) (3 * (2 ^ 512 / 101 + 1) + 1) 1 0 ro := by
  have key : ∀ ro, ipaAlpha K ro [] 1 ≠ 0 → ∃ tr',
      (⟨[], [], 2, 3⟩ : NoZK K).verify ⟨codec, ro⟩ ⟨[]⟩ [5] [7] (9 : K) 1 (2 * 5 + 3 * 7 + 6 * 9) 6 = .ok (true, tr') := by
    intro ro hα
    have := C19_ipa_verdict (⟨codec, ro⟩ : Ctx K) (⟨[], [], 2, 3⟩ : NoZK K) ⟨[]⟩ [5] [7] (9 : K) 1
      (2 * 5 + 3 * 7 + 6 * 9) 6 [] [] rfl rfl ⟨by simp, by simp, by simp, by simp, by simp, by simp⟩
    refine ⟨⟨headLog 1⟩, this.trans ?_⟩
    rw [decide_eq_true]
    · simp [roundsLog]
    · refine (gap_nil (2 : K) 3 _ 0 [] [] [5] [7] _).2 ?_
      simp only [List.getD_cons_zero, smul_eq_mul]
      field_simp
      ring
  have hl : ∀ l, (ipaHistories (F := K) [] 1 ⟨[], [], 2, 3⟩)[0]? = some l → l = headLog 1 := by
    intro l h
    simp [ipaHistories, roundsLog] at h
    exact h.symm
  refine ⟨fun _ => Vector.ofFn fun i => if i.val = 0 then 1 else 0, key _ (by decide +kernel), fun l h => ?_⟩
  have hc : Nat.card {v : Vector UInt8 64 // ¬ ((leNat v.toList : Nat) : K) = 0} ≤
      Nat.card {v : Vector UInt8 64 // (∃ tr', (⟨[], [], 2, 3⟩ : NoZK K).verify
        ⟨codec, Function.update (fun _ => Vector.ofFn fun i => if i.val = 0 then 1 else 0) l v⟩ ⟨[]⟩ [5] [7] (9 : K) 1
        (2 * 5 + 3 * 7 + 6 * 9) 6 = .ok (true, tr')) ∧
        (ipaHistories (F := K) [] 1 ⟨[], [], 2, 3⟩)[0]? = some l} := by
    refine Nat.card_le_card_of_injective (fun v => ⟨v.1, key _ ?_, h⟩) fun v w h => Subtype.ext (by simpa using h)
    rw [ipaAlpha, squeeze, List.nil_append, hl l h, Function.update_self]
    exact v.2
  refine le_trans ?_ hc
  have h0 := C67_scalars 101 0
  rw [Nat.card_eq_fintype_card] at h0 ⊢
  rw [Fintype.card_subtype_compl, card_bytes]
  omega

end
end Qesa.Props
