import Verif.Props.ForkQesa
import Verif.Props.CopyAny
/-
C94: forking for Copy. Provers are arbitrary: they need not be algebraic.
-/
namespace Qesa.Props
open Qesa Spec Ipa Copy
variable {F G : Type} [Field F] [DecidableEq F] [AddCommGroup G] [Module F G] [DecidableEq G] {m : Nat}

/-- The length of the histories of Copy after the start of the argument. -/
def copyRest : Nat → Nat
  | 0 => 2
  | j + 1 => 2 + qesaRest j

theorem copyRest_injective : Function.Injective copyRest := by
  have h0 : ∀ j, 0 < qesaRest j := fun j => by unfold qesaRest; split <;> omega
  intro i j h
  match i, j with
  | 0, 0 => rfl
  | 0, j + 1 => have := h0 j; simp only [copyRest] at h; omega
  | i + 1, 0 => have := h0 i; simp only [copyRest] at h; omega
  | i + 1, j + 1 =>
    simp only [copyRest] at h
    rw [qesaRest_injective (by omega : qesaRest i = qesaRest j)]

/-- The matrices of a system, by number. -/
def numbered (k : Nat) (L : List (Matrix (Fin (m + 1)) (Fin (m + 1)) F)) :
    Fin k → Matrix (Fin (m + 1)) (Fin (m + 1)) F := fun i => L.getD i 0

omit [DecidableEq F] in
theorem numbered_eq {k : Nat} {L : List (Matrix (Fin (m + 1)) (Fin (m + 1)) F)} (h : L.length = k) {α : Type}
    (f : (k : Nat) → (Fin k → Matrix (Fin (m + 1)) (Fin (m + 1)) F) → α) :
    f L.length L.get = f k (numbered k L) := by
  subst h
  congr 1
  funext i
  simp [numbered]

omit [DecidableEq F] in
theorem copySystem_length (Us : List (Matrix (Fin (m + 1)) (Fin (m + 1)) F)) (map : Mapping) (α : F) :
    (copySystem Us map α).length = Us.length + map.unique_commitment_indices.length := by
  simp [copySystem]

omit [DecidableEq F] [DecidableEq G] in
theorem copyHistories_eq (cd : Codec G) (ro : Hash) (log : List Event) (Gs Hs : List G) (Q : G)
    (Us : List (Matrix (Fin (m + 1)) (Fin (m + 1)) F)) (map : Mapping) (Cs : List G) (p : Copy.Proof F) :
    copyHistories cd ro log Gs Hs Q Us map Cs p = (log ++ [.msg "c_w" p.C_w, .chal "alpha" 64]) ::
      qesaHistories cd ro (log ++ [.msg "c_w" p.C_w, .chal "alpha" 64]) Gs Hs Q
        (numbered (Us.length + map.unique_commitment_indices.length)
          (copySystem Us map (copyAlpha F ro log p.C_w))) (copyInner cd ro log Cs p) := by
  exact congrArg (List.cons _) (numbered_eq (copySystem_length Us map _) fun k Ms => qesaHistories cd ro
    (log ++ [.msg "c_w" p.C_w, .chal "alpha" 64]) Gs Hs Q Ms (copyInner cd ro log Cs p))

omit [DecidableEq F] in
theorem copyHistories_length {cd : Codec G} {ro : Hash} {log : List Event} {Gs Hs : List G} {Q : G}
    {Us : List (Matrix (Fin (m + 1)) (Fin (m + 1)) F)} {map : Mapping} {Cs : List G} {p : Copy.Proof F} {j : Nat}
    {l : List Event} (h : (copyHistories cd ro log Gs Hs Q Us map Cs p)[j]? = some l) :
    l.length = log.length + copyRest j := by
  classical
  cases j with
  | zero =>
    simp only [copyHistories, List.getElem?_cons_zero, Option.some.injEq] at h
    rw [← h]; simp [copyRest]
  | succ j =>
    simp only [copyHistories, List.getElem?_cons_succ] at h
    obtain ⟨t, h1, h2, -⟩ := qesaHistories_shape h
    rw [h1, List.length_append, h2]
    simp [copyRest]
    omega

/-- The queries of the verifier of Copy. -/
def copyVerifierQueries (cd : Codec G) (log : List Event) (Gs Hs : List G) (Q : G)
    (Us : List (Matrix (Fin (m + 1)) (Fin (m + 1)) F)) (map : Mapping) (Cs : List G) (r : Nat) (p : Copy.Proof F) :
    Algo Event Unit :=
  .ask (log ++ [.msg "c_w" p.C_w, .chal "alpha" 64]) fun v =>
    let α : F := (leNat v.toList : Nat)
    qesaVerifierQueries cd (log ++ [.msg "c_w" p.C_w, .chal "alpha" 64]) Gs Hs Q (copySystem Us map α).get r
      ⟨p.inner.alm_zk, cd.compress (dot (List.ofFn (powers α Cs.length)) Cs + (cd.decompress p.C_w).getD 0),
        p.inner.c_prime_prime_w⟩

omit [DecidableEq F] [DecidableEq G] in
theorem copyVerifierQueries_asked (cd : Codec G) (log : List Event) (Gs Hs : List G) (Q : G)
    (Us : List (Matrix (Fin (m + 1)) (Fin (m + 1)) F)) (map : Mapping) (Cs : List G) (r : Nat) (p : Copy.Proof F)
    (ro : Hash) : (copyVerifierQueries cd log Gs Hs Q Us map Cs r p).asked id ro =
      (copyHistories cd ro log Gs Hs Q Us map Cs p).take (r + 5) := by
  rw [copyVerifierQueries, Algo.asked]
  dsimp only
  rw [qesaVerifierQueries_asked, List.map_id]
  rfl

omit [DecidableEq F] [DecidableEq G] in
theorem copyVerifierQueries_atMost (cd : Codec G) (log : List Event) (Gs Hs : List G) (Q : G)
    (Us : List (Matrix (Fin (m + 1)) (Fin (m + 1)) F)) (map : Mapping) (Cs : List G) (r : Nat) (p : Copy.Proof F) :
    (copyVerifierQueries cd log Gs Hs Q Us map Cs r p).AtMost (r + 5) :=
  fun _ => qesaVerifierQueries_atMost _ _ _ _ _ _ r _

omit [DecidableEq F] in
/-- An accepted proof of Copy contains an accepted proof of QESA. -/
theorem copy_accepted {ws : Nat} {cd : Codec G} {ro : Hash} {log : List Event} {Gs Hs : List G} {Q : G}
    {Us : List (Matrix (Fin (m + 1)) (Fin (m + 1)) F)} {sets : List (List Nat)} {map : Mapping} {Cs : List G}
    {p : Copy.Proof F} {tr' : Transcript} (hG : Gs.length = m + 3) (hn : m + 3 < 65536) (hws : ws < 65536)
    (hs : sets.length ≤ 65536) (hmap : computeMapping (m + 3) ws sets = .ok map)
    (hi : ∀ s ∈ sets, ∀ i ∈ s, i < m + 1) (hC : Cs.length = sets.length)
    (h : p.verify ⟨cd, ro⟩ ⟨log⟩ Gs Hs Q ⟨Us.map rows⟩ map Cs = .ok (true, tr')) :
    ∃ C_w k, cd.decompress p.C_w = some C_w ∧ Us.length + map.unique_commitment_indices.length = k + 1 ∧
      (copyInner cd ro log Cs p).verify ⟨cd, ro⟩ ⟨log ++ [.msg "c_w" p.C_w, .chal "alpha" 64]⟩ Gs Hs Q
        ⟨List.ofFn fun i => rows (numbered (Us.length + map.unique_commitment_indices.length)
          (copySystem Us map (copyAlpha F ro log p.C_w)) i)⟩ = .ok (true, tr') := by
  have hwf := computeMapping_wf hn hws hs hmap
  cases hd : cd.decompress p.C_w with
  | none =>
    exfalso
    unfold Copy.Proof.verify at h
    simp only [challengeScalar_eq] at h
    have hC0 : 0 < Cs.length := by
      have := hwf.pos
      rw [hC]
      rcases Nat.eq_zero_or_pos sets.length with h0 | h0
      · rw [List.length_eq_zero_iff.1 h0] at this; simp at this
      · exact h0
    rw [Inner.vandemondeChallenge_eq _ hC0] at h
    simp only [ok_bind, hd, unwrapR] at h
    cases h
  | some C_w =>
    have e := C37_verifier ⟨cd, ro⟩ p ⟨log⟩ Gs Hs Q Us sets map Cs C_w hG (hG ▸ hn) hws hs (hG ▸ hmap) hi hC hd
    simp only at e
    rw [e, (map_rows_eq _).trans (numbered_eq (copySystem_length Us map (copyAlpha F ro log p.C_w)) fun k Ms =>
      List.ofFn fun i => rows (Ms i))] at h
    have hN := copySystem_ne_nil hwf Us (0 : F)
    rw [copySystem_length] at hN
    obtain ⟨k, hk⟩ := Nat.exists_eq_succ_of_ne_zero hN
    refine ⟨C_w, k, rfl, hk, ?_⟩
    rw [copyInner, hd]
    exact h

/-- The chance that a prover is accepted but cannot be rewound; `Acc` may contain further conditions. -/
theorem copy_rewinding {q T M ws : Nat} (hq : m + 3 = 2 ^ q) (cd : Codec G) (Gs Hs : List G) (hG : Gs.length = m + 3)
    (hH : Hs.length = m + 3) (Q : G) (Us : List (Matrix (Fin (m + 1)) (Fin (m + 1)) F)) (sets : List (List Nat))
    (map : Mapping) (Cs : List G) (hn : m + 3 < 65536) (hws : ws < 65536)
    (hs : sets.length ≤ 65536) (hmap : computeMapping (m + 3) ws sets = .ok map)
    (hi : ∀ s ∈ sets, ∀ i ∈ s, i < m + 1) (hC : Cs.length = sets.length) (log : List Event)
    (A : Algo Event (Copy.Proof F)) (hT : A.AtMost T) (ro : Hash) (D : Finset (List Event))
    (hD : ∀ ro, ∀ l ∈ A.asked id ro ++ copyHistories cd ro log Gs Hs Q Us map Cs (A.run id ro), l ∈ D)
    (Acc : Hash → Prop) (hAcc : ∀ ro, Acc ro → ∃ tr', (A.run id ro).verify ⟨cd, ro⟩ ⟨log⟩ Gs Hs Q ⟨Us.map rows⟩ map Cs =
      .ok (true, tr')) :
    chance ro D (fun ro => Acc ro ∧
      ¬ Branches Acc (fun ro i => (copyHistories cd ro log Gs Hs Q Us map Cs (A.run id ro))[i]?) M (q + 6) 0 ro) ≤
    ((T + (q + 6)) * (M - 1) : Nat) / 2 ^ 512 := by
  refine forking_by List.length A hT (fun p => copyVerifierQueries cd log Gs Hs Q Us map Cs (q + 1) p)
    (fun p => copyVerifierQueries_atMost cd log Gs Hs Q Us map Cs _ p) Acc
    (fun ro => copyHistories cd ro log Gs Hs Q Us map Cs (A.run id ro)) (fun i => log.length + copyRest i)
    (fun i j h => copyRest_injective (by simpa using h)) ?_ ro D ?_
  · intro ro h i l hl
    obtain ⟨tr', h⟩ := hAcc ro h
    refine ⟨copyHistories_length hl, List.mem_append_right _ ?_⟩
    rw [copyVerifierQueries_asked]
    obtain ⟨-, k, -, hk, h⟩ := copy_accepted hG hn hws hs hmap hi hC h
    rw [hk] at h
    have hr := qesa_rounds hq hG hH h
    simp only [copyInner] at hr
    rw [List.take_of_length_le (by
      simp [copyHistories, copyInner, qesaHistories, almHistories, ipaHistories]; omega)]
    exact List.mem_of_getElem? hl
  · intro ro l hl
    apply hD ro
    rw [copyVerifierQueries_asked] at hl
    rcases List.mem_append.1 hl with hl | hl
    · exact List.mem_append_left _ hl
    · exact List.mem_append_right _ (List.mem_of_mem_take hl)

/-- C94: a prover of Copy that is accepted can be rewound at all challenges. -/
theorem C94_copy_rewinding {q T M ws : Nat} (hq : m + 3 = 2 ^ q) (cd : Codec G) (Gs Hs : List G)
    (hG : Gs.length = m + 3) (hH : Hs.length = m + 3) (Q : G) (Us : List (Matrix (Fin (m + 1)) (Fin (m + 1)) F))
    (sets : List (List Nat)) (map : Mapping) (Cs : List G) (hn : m + 3 < 65536) (hws : ws < 65536)
    (hs : sets.length ≤ 65536) (hmap : computeMapping (m + 3) ws sets = .ok map)
    (hi : ∀ s ∈ sets, ∀ i ∈ s, i < m + 1) (hC : Cs.length = sets.length) (log : List Event)
    (A : Algo Event (Copy.Proof F)) (hT : A.AtMost T) (ro : Hash) (D : Finset (List Event))
    (hD : ∀ ro, ∀ l ∈ A.asked id ro ++ copyHistories cd ro log Gs Hs Q Us map Cs (A.run id ro), l ∈ D) :
    let Acc := fun ro => ∃ tr', (A.run id ro).verify ⟨cd, ro⟩ ⟨log⟩ Gs Hs Q ⟨Us.map rows⟩ map Cs = .ok (true, tr')
    chance ro D (fun ro => Acc ro ∧
      ¬ Branches Acc (fun ro i => (copyHistories cd ro log Gs Hs Q Us map Cs (A.run id ro))[i]?) M (q + 6) 0 ro) ≤
    ((T + (q + 6)) * (M - 1) : Nat) / 2 ^ 512 :=
  copy_rewinding hq cd Gs Hs hG hH Q Us sets map Cs hn hws hs hmap hi hC log A hT ro D hD _ fun _ h => h

omit [DecidableEq F] in
/-- Another answer at a challenge after `alpha` does not change `C_w` and `alpha`. -/
theorem copy_stable {cd : Codec G} {ro : Hash} {log : List Event} {Gs Hs : List G} {Q : G}
    {Us : List (Matrix (Fin (m + 1)) (Fin (m + 1)) F)} {map : Mapping} {Cs : List G} {p p' : Copy.Proof F} {j : Nat}
    {l : List Event} {v : Vector UInt8 64} (h : (copyHistories cd ro log Gs Hs Q Us map Cs p)[j + 1]? = some l)
    (h' : (copyHistories cd (Function.update ro l v) log Gs Hs Q Us map Cs p')[j + 1]? = some l) :
    p'.C_w = p.C_w ∧ copyAlpha F (Function.update ro l v) log p'.C_w = copyAlpha F ro log p.C_w := by
  classical
  simp only [copyHistories, List.getElem?_cons_succ] at h h'
  obtain ⟨t, h1, h2, -⟩ := qesaHistories_shape h
  obtain ⟨t', h1', h2', -⟩ := qesaHistories_shape h'
  obtain ⟨e, -⟩ := List.append_inj' (h1'.symm.trans h1) (h2'.trans h2.symm)
  have e : p'.C_w = p.C_w := by simpa using e
  refine ⟨e, ?_⟩
  rw [e, copyAlpha, copyAlpha, squeeze, squeeze, Function.update_of_ne]
  intro hl
  have := congrArg List.length (hl.trans h1)
  rw [List.length_append (bs := t), h2] at this
  have : 0 < qesaRest j := by unfold qesaRest; split <;> omega
  omega

section
variable {k ws : Nat} {cd : Codec G} {Gs Hs : List G} {Q : G} {Us : List (Matrix (Fin (m + 1)) (Fin (m + 1)) F)}
  {sets : List (List Nat)} {map : Mapping} {Cs : List G} {log : List Event} {A : Hash → Copy.Proof F}
  {Acc : Hash → Prop}

omit [DecidableEq F] in
theorem copy_hacc (hk : Us.length + map.unique_commitment_indices.length = k + 1)
    (hG : Gs.length = m + 3) (hn : m + 3 < 65536) (hws : ws < 65536)
    (hs : sets.length ≤ 65536) (hmap : computeMapping (m + 3) ws sets = .ok map)
    (hi : ∀ s ∈ sets, ∀ i ∈ s, i < m + 1) (hC : Cs.length = sets.length)
    (hAcc : ∀ ro, Acc ro → ∃ tr', (A ro).verify ⟨cd, ro⟩ ⟨log⟩ Gs Hs Q ⟨Us.map rows⟩ map Cs = .ok (true, tr'))
    (ro : Hash) (h : Acc ro) : ∃ tr', (copyInner cd ro log Cs (A ro)).verify ⟨cd, ro⟩
      ⟨log ++ [.msg "c_w" (A ro).C_w, .chal "alpha" 64]⟩ Gs Hs Q
      ⟨List.ofFn fun i => rows (numbered (k + 1) (copySystem Us map (copyAlpha F ro log (A ro).C_w)) i)⟩ =
        .ok (true, tr') := by
  obtain ⟨tr', h⟩ := hAcc ro h
  obtain ⟨-, -, -, -, h⟩ := copy_accepted hG hn hws hs hmap hi hC h
  rw [hk] at h
  exact ⟨tr', h⟩

omit [DecidableEq F] [DecidableEq G] in
theorem copy_hkey (hk : Us.length + map.unique_commitment_indices.length = k + 1) (ro : Hash) (j : Nat) (_ : Acc ro) :
    (fun ro i => (copyHistories cd ro log Gs Hs Q Us map Cs (A ro))[i]?) ro (1 + j) =
      (qesaHistories cd ro (log ++ [.msg "c_w" (A ro).C_w, .chal "alpha" 64]) Gs Hs Q
        (numbered (k + 1) (copySystem Us map (copyAlpha F ro log (A ro).C_w)))
        (copyInner cd ro log Cs (A ro)))[j]? := by
  simp only
  rw [copyHistories_eq, hk, Nat.add_comm 1 j, List.getElem?_cons_succ]

omit [DecidableEq F] in
theorem copy_hctx (ro : Hash) (l : List Event) (v : Vector UInt8 64) (j : Nat) (_ : Acc ro)
    (_ : Acc (Function.update ro l v))
    (h : (fun ro i => (copyHistories cd ro log Gs Hs Q Us map Cs (A ro))[i]?) ro (1 + j) = some l)
    (h' : (fun ro i => (copyHistories cd ro log Gs Hs Q Us map Cs (A ro))[i]?) (Function.update ro l v) (1 + j) =
      some l) : copyAlpha F (Function.update ro l v) log (A (Function.update ro l v)).C_w =
        copyAlpha F ro log (A ro).C_w := by
  simp only at h h'
  rw [Nat.add_comm 1 j] at h h'
  exact (copy_stable h h').2

end

/-- A prover of Copy that forks at the challenges after `x` delivers; `Acc` may contain further conditions. -/
theorem copy_extraction {q ws : Nat} (hq : m + 3 = 2 ^ q) (cd : Codec G) (Gs Hs : List G)
    (hG : Gs.length = m + 3) (hH : Hs.length = m + 3) (Q : G) (Us : List (Matrix (Fin (m + 1)) (Fin (m + 1)) F))
    (sets : List (List Nat)) (map : Mapping) (Cs : List G) (hn : m + 3 < 65536) (hws : ws < 65536)
    (hs : sets.length ≤ 65536) (hmap : computeMapping (m + 3) ws sets = .ok map)
    (hi : ∀ s ∈ sets, ∀ i ∈ s, i < m + 1) (hC : Cs.length = sets.length) (log : List Event)
    {K : Nat → Nat} (hK : ∀ i, 4 ≤ K i) (hKm : m + 2 ≤ K 2) (A : Hash → Copy.Proof F) (Acc : Hash → Prop)
    (hAcc : ∀ ro, Acc ro → ∃ tr', (A ro).verify ⟨cd, ro⟩ ⟨log⟩ Gs Hs Q ⟨Us.map rows⟩ map Cs = .ok (true, tr'))
    (ro : Hash) :
    let c_w := (A ro).C_w
    let c'' := (A ro).inner.c_prime_prime_w
    let α₀ := copyAlpha F ro log c_w
    let log1 := log ++ [.msg "c_w" c_w, .chal "alpha" 64]
    let c' := (copyInner cd ro log Cs (A ro)).c_prime_w
    let x := qesaX F ro log1 c'
    let M' := batched (m + 3) (copySystem Us map α₀).get x
    Forks (scalarOf F) Acc (fun ro i => (copyHistories cd ro log Gs Hs Q Us map Cs (A ro))[i]?) K (q + 4) 2 ro → x ≠ 0 →
    ∃ (C_w C'' : G) (s : Fin (m + 2) → F) (b : Fin (m + 2) → Fin 3 → F)
      (β : Fin (m + 2) → Fin 3 → Fin 3 → F) (α : Fin (m + 2) → Fin 3 → Fin 3 → Fin 2 → F)
      (T : Fin (m + 2) → Fin 3 → Fin 3 → Fin 2 → IpaTree F G q),
      let C' := dot (List.ofFn (powers α₀ Cs.length)) Cs + C_w;
      c_w = cd.compress C_w ∧ c'' = cd.compress C'' ∧ c' = cd.compress C' ∧
      (∀ i j l e, ∀ c ∈ (T i j l e).paths, ∃ ro', Reprogrammed (q + 4) ro ro' ∧ Acc ro' ∧
        let p := A ro'
        let pi := copyInner cd ro' log Cs p
        let Ms := (copySystem Us map α₀).get
        let lg1 := Spec.qesaLog cd ro' log1 Gs Hs Ms pi
        let c1 := qesaClaimed cd ro' log1 Gs Hs Ms pi
        let lg2 := almLog cd ro' lg1 Q c1.1 c1.2 p.inner.alm_zk.C_r
        p.C_w = c_w ∧ copyAlpha F ro' log c_w = α₀ ∧ p.inner.c_prime_prime_w = c'' ∧
        qesaX F ro' log1 c' = x ∧ qesaS F ro' log1 c' c'' = s i ∧
        qesaB F ro' log1 c' c'' = b i j ∧ almBeta F ro' lg1 p.inner.alm_zk.C_r = β i j l ∧
        ipaAlpha F ro' lg2 (2 ^ q) = α i j l e ∧
        Continues cd p.inner.alm_zk.NoZK (ipaChallenges F ro' lg2 (2 ^ q) p.inner.alm_zk.NoZK.L_vec
          p.inner.alm_zk.NoZK.R_vec) c) ∧
      match extractQesa M' x s b fun i j => extractAlm (- quad M' (powers (s i) (m + 1))) (β i j) (α i j)
          fun l e => (T i j l e).scalars with
      | .inl (w, v) => ∃ (u : Fin (m + 1) → F) (r0 r1 : F),
          w = List.ofFn u ++ [r0, r1] ∧ v = List.ofFn (M'.mulVec u) ++ [-r1, r0] ∧ quad M' u = 0 ∧
          C' + C'' = dot w (rescaled (x ^ 2) Gs) + (1 - (x ^ 2)⁻¹) • Gs.headD 0 + dot v Hs
      | .inr r => IsRelation Gs Hs Q r := by
  intro c_w c'' α₀ log1 c' x M' hbr hx
  obtain ⟨tr', ha⟩ := hAcc ro hbr.acc
  obtain ⟨C_w, k, hd, hk, -⟩ := copy_accepted hG hn hws hs hmap hi hC ha
  have hacc := copy_hacc (Acc := Acc) (A := A) hk hG hn hws hs hmap hi hC hAcc
  have hac := qesa_accepted_alm (acc := Acc) cd (fun ro => log ++ [.msg "c_w" (A ro).C_w, .chal "alpha" 64])
    (fun ro => copyAlpha F ro log (A ro).C_w) hq Gs Hs hG hH Q (fun α => numbered (k + 1) (copySystem Us map α))
    (fun ro => copyInner cd ro log Cs (A ro)) (by exact hacc) ro hbr.acc
  obtain ⟨s, b, C_r, β, α, T, h1, h2, h3, h4, h5, h6, h7⟩ := qesa_forks cd hK (acc := Acc)
    (key := fun ro i => (copyHistories cd ro log Gs Hs Q Us map Cs (A ro))[i]?) 1
    hKm (fun ro => log ++ [.msg "c_w" (A ro).C_w, .chal "alpha" 64])
    (fun ro => copyAlpha F ro log (A ro).C_w) hq Gs Hs hG hH Q (fun α => numbered (k + 1) (copySystem Us map α))
    (fun ro => copyInner cd ro log Cs (A ro)) (by exact hacc) (by exact copy_hkey hk) (by exact copy_hctx) ro
    hbr
  have hlen : (copySystem Us map α₀).length = k + 1 := (copySystem_length _ _ _).trans hk
  have eM : M' = batched (m + 3) (numbered (k + 1) (copySystem Us map α₀)) x :=
    numbered_eq hlen fun k Ms => batched (m + 3) Ms x
  have e' : c' = cd.compress (dot (List.ofFn (powers α₀ Cs.length)) Cs + C_w) := by
    show cd.compress (_ + (cd.decompress c_w).getD 0) = _
    rw [show cd.decompress c_w = some C_w from hd]
    rfl
  have e'' : (cd.decompress (copyInner cd ro log Cs (A ro)).c_prime_w).getD 0 =
      dot (List.ofFn (powers α₀ Cs.length)) Cs + C_w := by
    rw [show (copyInner cd ro log Cs (A ro)).c_prime_w = _ from e', cd.decompress_compress]
    rfl
  refine ⟨C_w, _, s, b, β, α, T, (cd.compress_decompress _ _ hd).symm, hac.2.2.1, e', fun i j l e c hc => ?_, ?_⟩
  · obtain ⟨-, ro', e1, e2, e3, e4, e5, e6, e7, e8, e9, -, e10, e11, e12⟩ := h7 i j l e c hc
    have hCw : (A ro').C_w = c_w := by simpa using e4
    simp only [xOf, sOf, bOf, e5, e6] at e7 e8 e9
    simp only [hCw] at e3 e7 e8 e9 e10 e11 e12
    have f1 : ∀ p, Spec.qesaLog cd ro' log1 Gs Hs (copySystem Us map α₀).get p = Spec.qesaLog cd ro' log1 Gs Hs
        (numbered (k + 1) (copySystem Us map α₀)) p :=
      fun p => numbered_eq hlen fun k Ms => Spec.qesaLog cd ro' log1 Gs Hs Ms p
    have f2 : ∀ p, qesaClaimed cd ro' log1 Gs Hs (copySystem Us map α₀).get p = qesaClaimed cd ro' log1 Gs Hs
        (numbered (k + 1) (copySystem Us map α₀)) p :=
      fun p => numbered_eq hlen fun k Ms => qesaClaimed cd ro' log1 Gs Hs Ms p
    refine ⟨ro', e1, e2, ?_⟩
    simp only [f1, f2]
    rw [e3] at e10 e11 e12
    exact ⟨hCw, e3, e6, e7, e8, e9, e10, e11, e12⟩
  · have := qesa_special_soundness_of_accepts hq Gs Hs hG hH Q _ _ (numbered (k + 1) (copySystem Us map α₀)) x hx s h1 b h2
      C_r β h3 α h4 h5 T h6 fun i j l e c hc => (h7 i j l e c hc).1
    rw [e''] at this
    rw [eM]
    exact this

/-- C94: a prover of Copy that can be rewound at the challenges after `x` delivers. All conversations of the trees come
from accepted runs of the prover with the same points `C_w` and `C''` and the same `alpha` and `x ≠ 0`, and from their
scalars the extractor of C61 computes an opening of `∑ alpha^j C_j + C_w + C''` to a solution of the batched equation of the
system of Copy, or else a relation. -/
theorem C94_copy_extraction {q B M ws : Nat} (hq : m + 3 = 2 ^ q) (cd : Codec G) (Gs Hs : List G)
    (hG : Gs.length = m + 3) (hH : Hs.length = m + 3) (Q : G) (Us : List (Matrix (Fin (m + 1)) (Fin (m + 1)) F))
    (sets : List (List Nat)) (map : Mapping) (Cs : List G) (hn : m + 3 < 65536) (hws : ws < 65536)
    (hs : sets.length ≤ 65536) (hmap : computeMapping (m + 3) ws sets = .ok map)
    (hi : ∀ s ∈ sets, ∀ i ∈ s, i < m + 1) (hC : Cs.length = sets.length) (log : List Event)
    (hB : ∀ c : F, Nat.card {v : Vector UInt8 64 // ((leNat v.toList : Nat) : F) = c} ≤ B) (hM : max (m + 1) 3 * B < M)
    (A : Algo Event (Copy.Proof F)) (ro : Hash) :
    let Acc := fun ro => ∃ tr', (A.run id ro).verify ⟨cd, ro⟩ ⟨log⟩ Gs Hs Q ⟨Us.map rows⟩ map Cs = .ok (true, tr')
    let c_w := (A.run id ro).C_w
    let c'' := (A.run id ro).inner.c_prime_prime_w
    let α₀ := copyAlpha F ro log c_w
    let log1 := log ++ [.msg "c_w" c_w, .chal "alpha" 64]
    let c' := (copyInner cd ro log Cs (A.run id ro)).c_prime_w
    let x := qesaX F ro log1 c'
    let M' := batched (m + 3) (copySystem Us map α₀).get x
    Branches Acc (fun ro i => (copyHistories cd ro log Gs Hs Q Us map Cs (A.run id ro))[i]?) M (q + 4) 2 ro → x ≠ 0 →
    ∃ (C_w C'' : G) (s : Fin (m + 2) → F) (b : Fin (m + 2) → Fin 3 → F)
      (β : Fin (m + 2) → Fin 3 → Fin 3 → F) (α : Fin (m + 2) → Fin 3 → Fin 3 → Fin 2 → F)
      (T : Fin (m + 2) → Fin 3 → Fin 3 → Fin 2 → IpaTree F G q),
      let C' := dot (List.ofFn (powers α₀ Cs.length)) Cs + C_w;
      c_w = cd.compress C_w ∧ c'' = cd.compress C'' ∧ c' = cd.compress C' ∧
      (∀ i j l e, ∀ c ∈ (T i j l e).paths, ∃ ro', Reprogrammed (q + 4) ro ro' ∧ Acc ro' ∧
        let p := A.run id ro'
        let pi := copyInner cd ro' log Cs p
        let Ms := (copySystem Us map α₀).get
        let lg1 := Spec.qesaLog cd ro' log1 Gs Hs Ms pi
        let c1 := qesaClaimed cd ro' log1 Gs Hs Ms pi
        let lg2 := almLog cd ro' lg1 Q c1.1 c1.2 p.inner.alm_zk.C_r
        p.C_w = c_w ∧ copyAlpha F ro' log c_w = α₀ ∧ p.inner.c_prime_prime_w = c'' ∧
        qesaX F ro' log1 c' = x ∧ qesaS F ro' log1 c' c'' = s i ∧
        qesaB F ro' log1 c' c'' = b i j ∧ almBeta F ro' lg1 p.inner.alm_zk.C_r = β i j l ∧
        ipaAlpha F ro' lg2 (2 ^ q) = α i j l e ∧
        Continues cd p.inner.alm_zk.NoZK (ipaChallenges F ro' lg2 (2 ^ q) p.inner.alm_zk.NoZK.L_vec
          p.inner.alm_zk.NoZK.R_vec) c) ∧
      match extractQesa M' x s b fun i j => extractAlm (- quad M' (powers (s i) (m + 1))) (β i j) (α i j)
          fun l e => (T i j l e).scalars with
      | .inl (w, v) => ∃ (u : Fin (m + 1) → F) (r0 r1 : F),
          w = List.ofFn u ++ [r0, r1] ∧ v = List.ofFn (M'.mulVec u) ++ [-r1, r0] ∧ quad M' u = 0 ∧
          C' + C'' = dot w (rescaled (x ^ 2) Gs) + (1 - (x ^ 2)⁻¹) • Gs.headD 0 + dot v Hs
      | .inr r => IsRelation Gs Hs Q r :=
  fun h => copy_extraction hq cd Gs Hs hG hH Q Us sets map Cs hn hws hs hmap hi hC log (K := fun _ => max (m + 1) 3 + 1)
    (fun _ => Nat.succ_le_succ (le_max_right _ _)) (Nat.succ_le_succ (le_max_left _ _)) (fun ro => A.run id ro) _
    (fun _ h => h) ro (h.forks hB hM)

/-- C94: knowledge soundness of Copy in the random-oracle model, for all provers. -/
theorem C94_copy_knowledge {q T B ws : Nat} (hq : m + 3 = 2 ^ q) (cd : Codec G) (Gs Hs : List G)
    (hG : Gs.length = m + 3) (hH : Hs.length = m + 3) (Q : G) (Us : List (Matrix (Fin (m + 1)) (Fin (m + 1)) F))
    (sets : List (List Nat)) (map : Mapping) (Cs : List G) (hn : m + 3 < 65536) (hws : ws < 65536)
    (hs : sets.length ≤ 65536) (hmap : computeMapping (m + 3) ws sets = .ok map)
    (hi : ∀ s ∈ sets, ∀ i ∈ s, i < m + 1) (hC : Cs.length = sets.length) (log : List Event)
    (hB : ∀ c : F, Nat.card {v : Vector UInt8 64 // ((leNat v.toList : Nat) : F) = c} ≤ B)
    (A : Algo Event (Copy.Proof F)) (hT : A.AtMost T) (ro : Hash) (D : Finset (List Event))
    (hD : ∀ ro, ∀ l ∈ A.asked id ro ++ copyHistories cd ro log Gs Hs Q Us map Cs (A.run id ro), l ∈ D) :
    let Acc := fun ro => ∃ tr', (A.run id ro).verify ⟨cd, ro⟩ ⟨log⟩ Gs Hs Q ⟨Us.map rows⟩ map Cs = .ok (true, tr')
    chance ro D (fun ro =>
      let c_w := (A.run id ro).C_w
      let c'' := (A.run id ro).inner.c_prime_prime_w
      let α₀ := copyAlpha F ro log c_w
      let log1 := log ++ [.msg "c_w" c_w, .chal "alpha" 64]
      let c' := (copyInner cd ro log Cs (A.run id ro)).c_prime_w
      let x := qesaX F ro log1 c'
      let M' := batched (m + 3) (copySystem Us map α₀).get x
      Acc ro ∧ x ≠ 0 ∧ ¬ ∃ (C_w C'' : G) (s : Fin (m + 2) → F) (b : Fin (m + 2) → Fin 3 → F)
          (β : Fin (m + 2) → Fin 3 → Fin 3 → F) (α : Fin (m + 2) → Fin 3 → Fin 3 → Fin 2 → F)
          (T : Fin (m + 2) → Fin 3 → Fin 3 → Fin 2 → IpaTree F G q),
          let C' := dot (List.ofFn (powers α₀ Cs.length)) Cs + C_w;
          c_w = cd.compress C_w ∧ c'' = cd.compress C'' ∧ c' = cd.compress C' ∧
          (∀ i j l e, ∀ c ∈ (T i j l e).paths, ∃ ro', Reprogrammed (q + 4) ro ro' ∧ Acc ro' ∧
            let p := A.run id ro'
            let pi := copyInner cd ro' log Cs p
            let Ms := (copySystem Us map α₀).get
            let lg1 := Spec.qesaLog cd ro' log1 Gs Hs Ms pi
            let c1 := qesaClaimed cd ro' log1 Gs Hs Ms pi
            let lg2 := almLog cd ro' lg1 Q c1.1 c1.2 p.inner.alm_zk.C_r
            p.C_w = c_w ∧ copyAlpha F ro' log c_w = α₀ ∧ p.inner.c_prime_prime_w = c'' ∧
            qesaX F ro' log1 c' = x ∧ qesaS F ro' log1 c' c'' = s i ∧
            qesaB F ro' log1 c' c'' = b i j ∧ almBeta F ro' lg1 p.inner.alm_zk.C_r = β i j l ∧
            ipaAlpha F ro' lg2 (2 ^ q) = α i j l e ∧
            Continues cd p.inner.alm_zk.NoZK (ipaChallenges F ro' lg2 (2 ^ q) p.inner.alm_zk.NoZK.L_vec
              p.inner.alm_zk.NoZK.R_vec) c) ∧
          match extractQesa M' x s b fun i j => extractAlm (- quad M' (powers (s i) (m + 1))) (β i j) (α i j)
              fun l e => (T i j l e).scalars with
          | .inl (w, v) => ∃ (u : Fin (m + 1) → F) (r0 r1 : F),
              w = List.ofFn u ++ [r0, r1] ∧ v = List.ofFn (M'.mulVec u) ++ [-r1, r0] ∧ quad M' u = 0 ∧
              C' + C'' = dot w (rescaled (x ^ 2) Gs) + (1 - (x ^ 2)⁻¹) • Gs.headD 0 + dot v Hs
          | .inr r => IsRelation Gs Hs Q r) ≤
    ((T + (q + 6)) * (max (m + 1) 3 * B) : Nat) / 2 ^ 512 := by
  intro Acc
  refine (chance_mono fun ro h => ?_).trans
    (C94_copy_rewinding (M := max (m + 1) 3 * B + 1) hq cd Gs Hs hG hH Q Us sets map Cs hn hws hs hmap hi hC log A hT
      ro D hD)
  exact ⟨h.1, fun hb => h.2.2 (C94_copy_extraction hq cd Gs Hs hG hH Q Us sets map Cs hn hws hs hmap hi hC log hB
    (Nat.lt_succ_self _) A ro hb.1.1 h.2.1)⟩

omit [DecidableEq F] [DecidableEq G] in
/-- C94: the case that is left out, `x = 0`, is rare. -/
theorem C94_copy_zero {T B : Nat} (cd : Codec G) (Gs Hs : List G) (Q : G)
    (Us : List (Matrix (Fin (m + 1)) (Fin (m + 1)) F)) (map : Mapping) (Cs : List G) (log : List Event)
    (hB : ∀ c : F, Nat.card {v : Vector UInt8 64 // ((leNat v.toList : Nat) : F) = c} ≤ B)
    (A : Algo Event (Copy.Proof F)) (hT : A.AtMost T) (ro : Hash) (D : Finset (List Event))
    (hD : ∀ ro, ∀ l ∈ A.asked id ro ++ copyHistories cd ro log Gs Hs Q Us map Cs (A.run id ro), l ∈ D) :
    chance ro D (fun ro => qesaX F ro (log ++ [.msg "c_w" (A.run id ro).C_w, .chal "alpha" 64])
      (copyInner cd ro log Cs (A.run id ro)).c_prime_w = 0) ≤ ((T + 2) * B : Nat) / 2 ^ 512 := by
  apply chance_le
  set V : Copy.Proof F → Algo Event Unit := fun p =>
    .ask (log ++ [.msg "c_w" p.C_w, .chal "alpha" 64]) fun v =>
      .ask (log ++ [.msg "c_w" p.C_w, .chal "alpha" 64] ++ [.msg "c_prime_w" (cd.compress (dot (List.ofFn
        (powers ((leNat v.toList : Nat) : F) Cs.length)) Cs + (cd.decompress p.C_w).getD 0)), .chal "x" 64])
        fun _ => .done () with hV
  have hask : ∀ ro, (A.andThen V).asked id ro = A.asked id ro ++
      (copyHistories cd ro log Gs Hs Q Us map Cs (A.run id ro)).take 2 := by
    intro ro
    rw [Algo.asked_andThen, hV]
    simp only [Algo.asked, List.map_id]
    rfl
  have := count_bad id ro D (A.andThen V) (T + 2)
    (Algo.andThen_atMost V 2 (fun p _ _ => trivial) A T hT)
    (by
      intro f l hl
      rw [hask] at hl
      rw [List.map_id]
      refine hD (patch ro D f) l ?_
      rcases List.mem_append.1 hl with hl | hl
      · exact List.mem_append_left _ hl
      · exact List.mem_append_right _ (List.mem_of_mem_take hl))
    (fun ro l => ((leNat (ro l).toList : Nat) : F) = 0) B (by
      classical
      intro ro l
      simp only [List.map_id, Function.update_self]
      refine le_trans (le_of_eq ?_) (hB 0)
      rw [Nat.card_eq_fintype_card, Fintype.card_subtype])
  refine le_trans (Nat.mul_le_mul_right _ ?_) this
  refine Nat.card_le_card_of_injective (Subtype.map id fun f h => ⟨fun l _ l' _ h => by simpa using h, _, ?_, h⟩)
    (Subtype.map_injective _ Function.injective_id)
  rw [hask]
  refine List.mem_append_right _ ?_
  simp [copyHistories, qesaHistories]

/-- A prover of Copy that branches at all challenges, with a second commitment on `H`, is committed to a vector on `G`,
and for an `alpha` outside of any given small set, the numbers `drift` of the aggregated vector vanish. -/
theorem copy_sound_forks {q B M ws : Nat} (hq : m + 3 = 2 ^ q) (cd : Codec G) (Gs Hs : List G)
    (hG : Gs.length = m + 3) (hH : Hs.length = m + 3) (Q : G)
    (hind : ∀ r : List F × List F × F, ¬ IsRelation Gs Hs Q r)
    (Us : List (Matrix (Fin (m + 1)) (Fin (m + 1)) F)) (map : Mapping)
    (coms : List (List Nat × List F × F)) (Cs : List G)
    (hcom : coms.mapM (fun c => Copy.commit Gs c.1 c.2.1 c.2.2) = .ok Cs)
    (hn : m + 3 < 65536) (hws : ws < 65536) (hs : coms.length ≤ 65536)
    (hmap : computeMapping (m + 3) ws (coms.map (·.1)) = .ok map)
    (hi : ∀ c ∈ coms, ∀ i ∈ c.1, i < m + 1) (log : List Event)
    (hB : ∀ c : F, Nat.card {v : Vector UInt8 64 // ((leNat v.toList : Nat) : F) = c} ≤ B)
    (hM : max (m + 7) coms.length * B < M) (A : Algo Event (Copy.Proof F)) {Acc : Hash → Prop}
    (hAcc : ∀ ro, Acc ro → ∃ tr', (A.run id ro).verify ⟨cd, ro⟩ ⟨log⟩ Gs Hs Q ⟨Us.map rows⟩ map Cs = .ok (true, tr'))
    (hsec : ∀ ro, Acc ro → ∃ h : List F, h.length = m + 3 ∧
      cd.decompress (A.run id ro).inner.c_prime_prime_w = some (dot h Hs)) (ro : Hash)
    (hb : Branches Acc (fun ro i => (copyHistories cd ro log Gs Hs Q Us map Cs (A.run id ro))[i]?) M (q + 6) 0 ro) :
    ∃ (v : Fin (m + 1) → F) (r0 r1 : F) (h : List F), h.length = m + 3 ∧
      cd.decompress (A.run id ro).C_w = some (dot (List.ofFn v ++ [r0, r1]) Gs + dot h Hs) ∧
      ∀ S : Finset F, S.card ≤ coms.length → ∃ α ∉ S, ∀ j, drift (m + 3) (copySystem Us map α).get
        (copyVector map (coms.map (·.2.1)).flatten α v) j = 0 := by
  obtain ⟨hlen, hCs⟩ := commits_spec Gs coms Cs m hG hcom
  have hCs' : Cs = coms.map (messageCommit Gs) := by
    rw [hCs]
    refine List.map_congr_left fun c _ => ?_
    rw [messageCommit, hG]
    rfl
  have hCl : Cs.length = coms.length := by rw [hCs', List.length_map]
  have hwf := computeMapping_wf hn hws (by simpa using hs) hmap
  have hi' : ∀ s ∈ coms.map (·.1), ∀ i ∈ s, i < m + 1 := by simpa using hi
  have hs' : (coms.map (·.1)).length ≤ 65536 := by simpa using hs
  have hC : Cs.length = (coms.map (·.1)).length := by simpa using hCl
  obtain ⟨tr', ha⟩ := hAcc ro hb.acc
  obtain ⟨C_w, k, hd, hk, -⟩ := copy_accepted hG hn hws hs' hmap hi' hC ha
  have hacc := copy_hacc (A := fun ro => A.run id ro) hk hG hn hws hs' hmap hi' hC hAcc
  have agg : ∀ (α : F) (v : Fin (m + 1) → F) (r0 r1 : F), dot (List.ofFn (copyVector map (coms.map (·.2.1)).flatten α v) ++
      [r0, r1 + dot (coms.map (·.2.2)) (List.ofFn (powers α coms.length))]) Gs =
      dot (List.ofFn (powers α Cs.length)) Cs + dot (List.ofFn v ++ [r0, r1]) Gs := by
    intro α v r0 r1
    have := commit_copyVector coms hwf hlen hi Gs hG α v r0 r1
    rw [hCl, hCs']
    exact this
  -- what is extracted for a value of `alpha`
  have ext : ∀ ro, Branches Acc (fun ro i => (copyHistories cd ro log Gs Hs Q Us map Cs (A.run id ro))[i]?) M (q + 5) 1
      ro → ∀ C, cd.decompress (A.run id ro).C_w = some C → ∃ (w : Fin (m + 1) → F) (r0 r1 : F) (h : List F),
        h.length = m + 3 ∧ dot (List.ofFn (powers (copyAlpha F ro log (A.run id ro).C_w) Cs.length)) Cs + C =
          dot (List.ofFn w ++ [r0, r1]) Gs + dot h Hs ∧
        ∀ j, drift (m + 3) (copySystem Us map (copyAlpha F ro log (A.run id ro).C_w)).get w j = 0 := by
    intro ro hb C hC
    obtain ⟨w, r0, r1, h, hh, hw, hdr⟩ := qesa_sound_forks cd hB
      (lt_of_le_of_lt (Nat.mul_le_mul_right _ (le_max_left _ _)) hM) (acc := Acc)
      (key := fun ro i => (copyHistories cd ro log Gs Hs Q Us map Cs (A.run id ro))[i]?) 1
      (fun ro => log ++ [.msg "c_w" (A.run id ro).C_w, .chal "alpha" 64])
      (fun ro => copyAlpha F ro log (A.run id ro).C_w) hq Gs Hs hG hH Q hind
      (fun α => numbered (k + 1) (copySystem Us map α)) (fun ro => copyInner cd ro log Cs (A.run id ro))
      (by exact hacc) (by exact copy_hkey hk) (by exact copy_hctx) (by exact hsec) ro hb
    simp only [copyInner, hC, Option.getD_some, cd.decompress_compress, Option.some.injEq] at hw
    refine ⟨w, r0, r1, h, hh, hw, fun j => ?_⟩
    rw [numbered_eq ((copySystem_length Us map _).trans hk) fun k Ms => drift (m + 3) Ms w j]
    exact hdr j
  obtain ⟨w, r0, r1, h, hh, hw, -⟩ := ext ro hb.1 C_w hd
  set α₀ := copyAlpha F ro log (A.run id ro).C_w with hα₀
  set rr := dot (coms.map (·.2.2)) (List.ofFn (powers α₀ coms.length)) with hrr
  have hvec : copyVector map (coms.map (·.2.1)).flatten α₀
      (fun i => w i - copyVector map (coms.map (·.2.1)).flatten α₀ (fun _ => 0) i) = w := by
    funext i
    simp only [copyVector, zero_add, sub_add_cancel]
  have e0 := agg α₀ (fun i => w i - copyVector map (coms.map (·.2.1)).flatten α₀ (fun _ => 0) i) r0 (r1 - rr)
  rw [hvec, ← hrr, sub_add_cancel] at e0
  rw [e0, add_assoc, add_right_inj] at hw
  refine ⟨_, r0, r1 - rr, h, hh, by rw [hd, hw], fun S hS => ?_⟩
  set v := fun i => w i - copyVector map (coms.map (·.2.1)).flatten α₀ (fun _ => 0) i with hv
  have hk0 : (copyHistories cd ro log Gs Hs Q Us map Cs (A.run id ro))[0]? =
      some (log ++ [.msg "c_w" (A.run id ro).C_w, .chal "alpha" 64]) := rfl
  obtain ⟨u, hu, -, hne⟩ := exists_distinct (k := 0) S hB _
    ((show (0 + S.card) * B < M from
      lt_of_le_of_lt (Nat.mul_le_mul_right _ (by rw [Nat.zero_add]; exact hS.trans (le_max_right _ _))) hM).trans_le
        (hb.2 _ hk0))
  obtain ⟨hb', hk'⟩ := hu 0
  set l := log ++ [.msg "c_w" (A.run id ro).C_w, .chal "alpha" 64] with hl
  set ro' := Function.update ro l (u 0) with hro'
  have eC : (A.run id ro').C_w = (A.run id ro).C_w := by
    have : some (log ++ [.msg "c_w" (A.run id ro').C_w, .chal "alpha" 64]) = some l := hk'
    simpa [hl] using this
  have eα : copyAlpha F ro' log (A.run id ro').C_w = ((leNat (u 0).toList : Nat) : F) := by
    rw [copyAlpha, squeeze, eC, ← hl, hro', Function.update_self]
  obtain ⟨w', r0', r1', h', hh', hw', hdr⟩ := ext ro' hb' C_w (by rw [eC, hd])
  rw [eα] at hw' hdr
  refine ⟨_, hne 0, ?_⟩
  rw [hw, ← add_assoc, ← agg] at hw'
  obtain ⟨e1, -⟩ := unique_opening Gs Hs Q hind _ _ _ _ (by simp [hG]) (hh.trans hH.symm) (by simp [hG])
    (hh'.trans hH.symm) hw'
  rw [List.ofFn_injective (List.append_inj_left e1 (by simp))]
  exact hdr

/-- C94: soundness of Copy for all provers that send a combination of the generators `H` as second commitment, if there
is no relation between the generators at all. The commitments `Cs` are made of messages. But for a fraction
`(T + q + 6) max(m + 7, |Cs|) B / 2^512` of the hash functions, an accepted proof has in `C_w` a commitment to a vector
`v` on the generators `G` (and anything on `H`) such that the numbers `drift` of the aggregated vector vanish for every
value of `alpha`, and the slots of the messages in `v` contain the messages that the `Cs` were made of. -/
theorem C94_copy_messages {q T B ws : Nat} (hq : m + 3 = 2 ^ q) (cd : Codec G) (Gs Hs : List G)
    (hG : Gs.length = m + 3) (hH : Hs.length = m + 3) (Q : G)
    (hind : ∀ r : List F × List F × F, ¬ IsRelation Gs Hs Q r)
    (Us : List (Matrix (Fin (m + 1)) (Fin (m + 1)) F)) (map : Mapping)
    (coms : List (List Nat × List F × F)) (Cs : List G)
    (hcom : coms.mapM (fun c => Copy.commit Gs c.1 c.2.1 c.2.2) = .ok Cs)
    (hn : m + 3 < 65536) (hw0 : 0 < ws) (hws : ws < 65536) (hs : coms.length ≤ 65536)
    (hmap : computeMapping (m + 3) ws (coms.map (·.1)) = .ok map)
    (hsets : ∀ c ∈ coms, c.1.Pairwise (· < ·)) (hi : ∀ c ∈ coms, ∀ i ∈ c.1, i < m + 1)
    (h0 : ∀ c ∈ coms, 0 ∉ c.1)
    (hU : ∀ U ∈ Us, ∀ i j : Fin (m + 1), (∃ c ∈ coms, i.val ∈ c.1 ∨ j.val ∈ c.1) → U i j = 0)
    (hfit : Us.length + map.unique_commitment_indices.length ≤ m + 3) (log : List Event)
    (hB : ∀ c : F, Nat.card {v : Vector UInt8 64 // ((leNat v.toList : Nat) : F) = c} ≤ B)
    (A : Algo Event (Copy.Proof F)) (hT : A.AtMost T) (ro : Hash) (D : Finset (List Event))
    (hD : ∀ ro, ∀ l ∈ A.asked id ro ++ copyHistories cd ro log Gs Hs Q Us map Cs (A.run id ro), l ∈ D) :
    chance ro D (fun ro =>
      let p := A.run id ro
      let msgs := (coms.map (·.2.1)).flatten
      (∃ tr', p.verify ⟨cd, ro⟩ ⟨log⟩ Gs Hs Q ⟨Us.map rows⟩ map Cs = .ok (true, tr')) ∧
      (∃ h : List F, h.length = m + 3 ∧ cd.decompress p.inner.c_prime_prime_w = some (dot h Hs)) ∧
      ¬ ∃ (v : Fin (m + 1) → F) (r0 r1 : F) (h : List F), h.length = m + 3 ∧
        cd.decompress p.C_w = some (dot (List.ofFn v ++ [r0, r1]) Gs + dot h Hs) ∧
        (∀ α j, drift (m + 3) (copySystem Us map α).get (copyVector map msgs α v) j = 0) ∧
        ∀ e ∈ map.msgs_map, slot v e.position_in_witness = msgs.getD e.msg_id 0) ≤
    ((T + (q + 6)) * (max (m + 7) coms.length * B) : Nat) / 2 ^ 512 := by
  have hC : Cs.length = (coms.map (·.1)).length := by
    rw [(commits_spec Gs coms Cs m hG hcom).2, List.length_map, List.length_map]
  refine (chance_mono fun ro h => ?_).trans (copy_rewinding (M := max (m + 7) coms.length * B + 1) hq cd Gs Hs hG hH Q Us
    (coms.map (·.1)) map Cs hn hws (by simpa using hs) hmap (by simpa using hi) hC log A hT ro D hD (fun ro =>
      (∃ tr', (A.run id ro).verify ⟨cd, ro⟩ ⟨log⟩ Gs Hs Q ⟨Us.map rows⟩ map Cs = .ok (true, tr')) ∧
      ∃ h : List F, h.length = m + 3 ∧ cd.decompress (A.run id ro).inner.c_prime_prime_w = some (dot h Hs))
    fun _ h => h.1)
  obtain ⟨h1, h2, h3⟩ := h
  refine ⟨⟨h1, h2⟩, fun hb => h3 ?_⟩
  obtain ⟨v, r0, r1, h, hh, hd, hS⟩ := copy_sound_forks hq cd Gs Hs hG hH Q hind Us map coms Cs hcom hn hws hs hmap hi log
    hB (Nat.lt_succ_self _) A (fun _ h => h.1) (fun _ h => h.2) ro hb
  refine ⟨v, r0, r1, h, hh, hd, ?_⟩
  by_contra hno
  obtain ⟨S, hS1, hS2⟩ := few_messages hn hw0 hws hs hmap hsets hi h0 hU hfit v hno
  obtain ⟨α, hα, hdr⟩ := hS S hS1
  exact hα (hS2 α hdr)

/-- C94: a false claim is not accepted. If there is no relation between the generators, no prover is accepted with a
commitment `C_w` to a vector `v` on `G` with first component one (and anything on `H`) that violates one of the user's
equations or does not hold the messages of the `Cs` in their slots, and a second commitment on `H`, but with the chance of
`C94_copy_messages`. -/
theorem C94_copy_false {q T B ws : Nat} (hq : m + 3 = 2 ^ q) (cd : Codec G) (Gs Hs : List G)
    (hG : Gs.length = m + 3) (hH : Hs.length = m + 3) (Q : G)
    (hind : ∀ r : List F × List F × F, ¬ IsRelation Gs Hs Q r)
    (Us : List (Matrix (Fin (m + 1)) (Fin (m + 1)) F)) (map : Mapping)
    (coms : List (List Nat × List F × F)) (Cs : List G)
    (hcom : coms.mapM (fun c => Copy.commit Gs c.1 c.2.1 c.2.2) = .ok Cs)
    (hn : m + 3 < 65536) (hws : ws < 65536) (hs : coms.length ≤ 65536)
    (hmap : computeMapping (m + 3) ws (coms.map (·.1)) = .ok map)
    (hsets : ∀ c ∈ coms, c.1.Pairwise (· < ·)) (hi : ∀ c ∈ coms, ∀ i ∈ c.1, i < m + 1)
    (h0 : ∀ c ∈ coms, 0 ∉ c.1)
    (hU : ∀ U ∈ Us, ∀ i j : Fin (m + 1), (∃ c ∈ coms, i.val ∈ c.1 ∨ j.val ∈ c.1) → U i j = 0)
    (hfit : Us.length + map.unique_commitment_indices.length ≤ m + 3) (log : List Event)
    (hB : ∀ c : F, Nat.card {v : Vector UInt8 64 // ((leNat v.toList : Nat) : F) = c} ≤ B)
    (A : Algo Event (Copy.Proof F)) (hT : A.AtMost T) (ro : Hash) (D : Finset (List Event))
    (hD : ∀ ro, ∀ l ∈ A.asked id ro ++ copyHistories cd ro log Gs Hs Q Us map Cs (A.run id ro), l ∈ D) :
    chance ro D (fun ro =>
      let p := A.run id ro
      (∃ tr', p.verify ⟨cd, ro⟩ ⟨log⟩ Gs Hs Q ⟨Us.map rows⟩ map Cs = .ok (true, tr')) ∧
      (∃ h : List F, h.length = m + 3 ∧ cd.decompress p.inner.c_prime_prime_w = some (dot h Hs)) ∧
      ∃ (v : Fin (m + 1) → F) (r0 r1 : F) (h : List F), h.length = m + 3 ∧
        cd.decompress p.C_w = some (dot (List.ofFn v ++ [r0, r1]) Gs + dot h Hs) ∧ v 0 = 1 ∧
        ¬ CopyHolds Us map (coms.map (·.2.1)).flatten v) ≤
    ((T + (q + 6)) * (max (m + 7) coms.length * B) : Nat) / 2 ^ 512 := by
  have hC : Cs.length = (coms.map (·.1)).length := by
    rw [(commits_spec Gs coms Cs m hG hcom).2, List.length_map, List.length_map]
  refine (chance_mono fun ro h => ?_).trans (copy_rewinding (M := max (m + 7) coms.length * B + 1) hq cd Gs Hs hG hH Q Us
    (coms.map (·.1)) map Cs hn hws (by simpa using hs) hmap (by simpa using hi) hC log A hT ro D hD (fun ro =>
      (∃ tr', (A.run id ro).verify ⟨cd, ro⟩ ⟨log⟩ Gs Hs Q ⟨Us.map rows⟩ map Cs = .ok (true, tr')) ∧
      ∃ h : List F, h.length = m + 3 ∧ cd.decompress (A.run id ro).inner.c_prime_prime_w = some (dot h Hs))
    fun _ h => h.1)
  obtain ⟨h1, h2, v, r0, r1, h, hh, hd, hv, hno⟩ := h
  refine ⟨⟨h1, h2⟩, fun hb => ?_⟩
  obtain ⟨v', r0', r1', h', hh', hd', hS⟩ := copy_sound_forks hq cd Gs Hs hG hH Q hind Us map coms Cs hcom hn hws hs hmap hi
    log hB (Nat.lt_succ_self _) A (fun _ h => h.1) (fun _ h => h.2) ro hb
  rw [hd, Option.some.injEq] at hd'
  obtain ⟨e, -⟩ := unique_opening Gs Hs Q hind _ _ _ _ (by simp [hG]) (hh.trans hH.symm) (by simp [hG])
    (hh'.trans hH.symm) hd'
  have e := List.ofFn_injective (List.append_inj_left e (by simp))
  obtain ⟨S, hS1, hS2⟩ := copy_few hn hws hs hmap hsets hi h0 hU hfit v hv hno
  obtain ⟨α, hα, hdr⟩ := hS S hS1
  rw [← e] at hdr
  exact hα (hS2 α fun h1 i hi => (C89_drift_one (m + 3) _ _ h1).1 hdr i hi)

omit [DecidableEq F] [DecidableEq G] in
/-- C94: for every prover of Copy there is a finite set of histories as above. -/
theorem C94_copy_domain (cd : Codec G) (log : List Event) (Gs Hs : List G) (Q : G)
    (Us : List (Matrix (Fin (m + 1)) (Fin (m + 1)) F)) (map : Mapping) (Cs : List G) (A : Algo Event (Copy.Proof F)) :
    ∃ D : Finset (List Event), ∀ ro, ∀ l ∈ A.asked id ro ++ copyHistories cd ro log Gs Hs Q Us map Cs (A.run id ro),
      l ∈ D := by
  let V : Copy.Proof F → Algo Event Unit := fun p =>
    copyVerifierQueries cd log Gs Hs Q Us map Cs (p.inner.alm_zk.NoZK.L_vec.length + 1) p
  obtain ⟨D, hD⟩ := exists_domain id (fun _ (_ : Unit) => ([] : List (List Event))) (by
    intro p
    simp) (A.andThen V)
  refine ⟨D, fun ro l hl => ?_⟩
  have := (hD ro).1 l
  rw [Algo.asked_andThen, copyVerifierQueries_asked,
    List.take_of_length_le (by simp [copyHistories, copyInner, qesaHistories, almHistories, ipaHistories])] at this
  simpa using this hl

set_option exponentiation.threshold 600 in
open Toy in
/-- C94: the commitment contains the message 10. Whoever tries at most `T` values of the hash function and puts another
number in the slot of the message is accepted with a chance of at most `12 (T + 9) / 101`. -/
example (cd : Codec (Coeffs K (5 + 3))) {T : Nat} (A : Algo Event (Copy.Proof K)) (hT : A.AtMost T) (ro : Hash) :
    ∃ D : Finset (List Event), chance ro D (fun ro =>
      let p := A.run id ro
      (∃ tr', p.verify ⟨cd, ro⟩ ⟨[]⟩ (coeffG K 8) (coeffH K 8) (coeffQ K 8) ⟨[exUser].map rows⟩ exMap
        [(![0, 0, 10, 0, 0, 0, 0, 7], 0, 0)] = .ok (true, tr')) ∧
      ∃ (v : Fin 8 → K) (h h' : Fin 8 → K), cd.decompress p.C_w = some (v, h, 0) ∧
        cd.decompress p.inner.c_prime_prime_w = some (0, h', 0) ∧ v 1 ≠ 10) ≤
        ((T + 9) * 12 : Nat) * (1 / 101 + 1 / 2 ^ 512) := by
  obtain ⟨D, hD⟩ := C94_copy_domain cd [] (coeffG K 8) (coeffH K 8) (coeffQ K 8) [exUser] exMap
    [(![0, 0, 10, 0, 0, 0, 0, 7], 0, 0)] A
  refine ⟨D, ?_⟩
  have hcom : exComs.mapM (fun c => Copy.commit (coeffG K 8) c.1 c.2.1 c.2.2) =
      .ok [(![0, 0, 10, 0, 0, 0, 0, 7], 0, 0)] := by
    have := C32_commit_value (F := K) (fun i => (Pi.single i 1, 0, 0) : Fin (7 + 1) → Coeffs K 8) ![(2 : Fin (7 + 1))]
      ![(10 : K)] 7
    simp only [Fin.sum_univ_one] at this
    have e : Copy.commit (coeffG K 8) [2] [(10 : K)] 7 = .ok (![0, 0, 10, 0, 0, 0, 0, 7], 0, 0) := by
      refine Eq.trans this (congrArg Except.ok ?_)
      decide +kernel
    rw [exComs]
    simp only [List.mapM_cons, List.mapM_nil]
    rw [e]
    rfl
  have := C94_copy_messages (m := 5) (q := 3) (ws := 1) (F := K) rfl cd (coeffG K 8) (coeffH K 8) rfl rfl (coeffQ K 8)
    coeff_free [exUser] exMap exComs [(![0, 0, 10, 0, 0, 0, 0, 7], 0, 0)] hcom (by decide) (by decide)
    (by decide) (by decide) (by decide +kernel) (by decide) (by decide) (by decide)
    (by
      intro U hU i j hij
      obtain ⟨c, hc, h⟩ := hij
      rw [List.mem_singleton.1 hc, List.mem_singleton, List.mem_singleton] at h
      rw [List.mem_singleton.1 hU]
      rw [exUser, Matrix.of_apply, if_neg, if_neg]
      · rintro ⟨rfl, rfl⟩
        exact absurd h (by decide)
      · rintro ⟨rfl, rfl⟩
        exact absurd h (by decide))
    (by decide) [] (C67_scalars 101) A hT ro D hD
  refine (chance_mono fun ro h => ?_).trans (this.trans ?_)
  · obtain ⟨h1, v, h, h', e1, e2, hne⟩ := h
    refine ⟨h1, ⟨List.ofFn h', by simp, by rw [e2, dot_coeffH]⟩, ?_⟩
    rintro ⟨w, r0, r1, t, ht, e3, -, hm⟩
    have := hm ⟨0, 2, 0, 1⟩ (by simp [exMap])
    obtain ⟨t, rfl⟩ := exists_ofFn (n := 8) ht
    rw [e1, Option.some.injEq, show List.ofFn w ++ [r0, r1] = List.ofFn (![w 0, w 1, w 2, w 3, w 4, w 5, r0, r1]) from rfl,
      dot_coeffG, dot_coeffH] at e3
    apply hne
    have e4 := congrArg (fun c : Coeffs K 8 => c.1 1) e3
    simp only [Prod.fst_add, add_zero] at e4
    exact e4.trans this
  · have := bound_aux ((T + 9) * 12) 101 (2 ^ 512) (by positivity)
    rw [show max (5 + 7) exComs.length = 12 from rfl, ← Nat.mul_assoc]
    exact_mod_cast this

end Qesa.Props
