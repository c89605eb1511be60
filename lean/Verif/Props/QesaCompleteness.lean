import Verif.Proofs.QesaRun
import Verif.Props.Copy
/- C75: how often honest QESA and Copy provers fail. -/
namespace Qesa.Props
open Qesa Spec Ipa Copy

variable {F G : Type} [Field F] [Fintype F] [DecidableEq F] [AddCommGroup G] [Module F G] [DecidableEq G]

/-- C75: completeness error of `qesa_zk`. For every satisfied system, random tape and random hash function an
honest run (prover and verifier) fails with probability at most `7 / |F| + 14 B / 2^512`. `D0` contains the
histories at which challenges are taken. -/
theorem C75_zk_completeness_error (h2 : (2 : F) ≠ 0) {m k e N B : Nat} (he : 2 ≤ e) (he' : e < 64)
    (hm : m + 3 = 2 ^ e) (hN : 4 * e + 4 ≤ N) (cd : Codec G) (log : List Event) (Gs Hs : List G) (Q : G)
    (hG : Gs.length = m + 3) (hH : Hs.length = m + 3)
    (Ms : Fin (k + 1) → Matrix (Fin (m + 1)) (Fin (m + 1)) F) (w : Fin (m + 1) → F) (h0 : w 0 = 1)
    (hw : ∀ i, quad (Ms i) w = 0)
    (hB : ∀ c : F, Nat.card {v : Vector UInt8 64 // ((leNat v.toList : Nat) : F) = c} ≤ B) (rest : Tape F) :
    ∃ D0 : Finset (List Event), ∀ D, D0 ⊆ D → ∀ ro,
      chanceBoth ro D rest (2 + N) (fun ro τ => ¬ ∃ p tr' τ',
        Zk.create ⟨cd, ro⟩ ⟨log⟩ τ Gs Hs Q ⟨List.ofFn fun i => rows (Ms i)⟩ (List.ofFn w) = .ok (p, tr', τ') ∧
        p.verify ⟨cd, ro⟩ ⟨log⟩ Gs Hs Q ⟨List.ofFn fun i => rows (Ms i)⟩ = .ok (true, tr')) ≤
      7 / Fintype.card F + (14 * B : Nat) / 2 ^ 512 := by
  refine qesa_error h2 he he' hm hN cd Gs Hs Q hG hH (P := Unit) (L := log.length)
    (fun _ y z => ⟨log, Ms, w, y, z⟩) (fun _ _ _ => ()) (fun _ _ _ => rfl) (fun _ _ _ _ _ _ => rfl)
    (fun _ _ _ => h0) (fun _ _ _ => hw) hB rest _ ?_
  rintro ro τ hA ⟨p, tr', τ', h1, h2⟩
  refine hA ⟨⟨p⟩, tr', τ', ?_, h2⟩
  unfold Zk.create
  simp only [draw]
  simp only at h1
  rw [h1]
  rfl

/-- C75: completeness error of the Copy argument. The commitments are made by `commit`, the mapping by
`compute_mapping`, all commitment indices lie outside the user's witness, and the user's equations hold for the
extended witness (for every challenge; `C38_untouched` is a condition for this). -/
theorem C75_copy_completeness_error (h2 : (2 : F) ≠ 0) {m e N B : Nat} (he : 2 ≤ e) (he' : e < 16)
    (hm : m + 3 = 2 ^ e) (hN : 4 * e + 4 ≤ N) (cd : Codec G) (log : List Event) (Gs Hs : List G) (Q : G)
    (hG : Gs.length = m + 3) (hH : Hs.length = m + 3) (Us : List (Matrix (Fin (m + 1)) (Fin (m + 1)) F))
    (w : List F) (coms : List (List Nat × List F × F)) (map : Mapping) (Cs : List G)
    (hs : coms.length ≤ 65536) (h0 : w[0]? = some 1) (hwl : w.length ≤ m + 1)
    (hmap : computeMapping Gs.length w.length (coms.map (·.1)) = .ok map)
    (hcom : coms.mapM (fun c => commit Gs c.1 c.2.1 c.2.2) = .ok Cs)
    (hout : ∀ c ∈ coms, ∀ i ∈ c.1, w.length ≤ i ∧ i < m + 1)
    (hU : ∀ α, ∀ U ∈ Us, quad U (fun i => copyWitness w map (coms.map (·.2.1)).flatten α i) = 0)
    (hB : ∀ c : F, Nat.card {v : Vector UInt8 64 // ((leNat v.toList : Nat) : F) = c} ≤ B) (rest : Tape F) :
    ∃ D0 : Finset (List Event), ∀ D, D0 ⊆ D → ∀ ro,
      chanceBoth ro D rest (2 + N) (fun ro τ => ¬ ∃ p tr' τ',
        Copy.create ⟨cd, ro⟩ ⟨log⟩ τ Gs Hs Q map ⟨Us.map rows⟩ w (coms.map (·.2)) = .ok (p, tr', τ') ∧
        p.verify ⟨cd, ro⟩ ⟨log⟩ Gs Hs Q ⟨Us.map rows⟩ map Cs = .ok (true, tr')) ≤
      7 / Fintype.card F + (14 * B : Nat) / 2 ^ 512 := by
  have hn : Gs.length < 65536 := by
    rw [hG, hm]; exact Nat.pow_lt_pow_right (n := 16) (by decide) he'
  have hwl' : w.length < 65536 := by omega
  have hwf := computeMapping_wf hn hwl' (by simpa using hs) hmap
  obtain ⟨hlen, hCs⟩ := commits_spec Gs coms Cs m hG hcom
  have hi : ∀ s ∈ coms.map (·.1), ∀ i ∈ s, i < m + 1 := by
    intro s hs i hi
    obtain ⟨c, hc, rfl⟩ := List.mem_map.1 hs
    exact (hout c hc i hi).2
  have hci : ∀ c ∈ (coms.map (·.1)).flatten, c < m + 1 := by
    intro c hc
    obtain ⟨s, hs, hcs⟩ := List.mem_flatten.1 hc
    exact hi s hs c hcs
  set msgs := (coms.map (·.2.1)).flatten with hmsgs
  have hw0 : ∀ α, copyWitness w map msgs α 0 = 1 := by
    intro α
    have hw : 0 < w.length := (List.getElem?_eq_some_iff.1 h0).1
    rw [copyWitness_else]
    · rw [List.filter_eq_nil_iff.2]
      · simp [List.getD, h0]
      · intro m hm
        obtain ⟨-, -, hci, -⟩ := hwf.mem m hm
        obtain ⟨s, hs, hci⟩ := List.mem_flatten.1 hci
        obtain ⟨c, hc, rfl⟩ := List.mem_map.1 hs
        have := hout c hc _ hci
        simp only [beq_iff_eq]; omega
    · intro hin
      obtain ⟨m, hm, he⟩ := List.mem_map.1 hin
      obtain ⟨-, -, -, -, hle, -⟩ := hwf.mem m hm
      omega
  have hq : ∀ α, ∀ A ∈ copySystem Us map α, quad A (fun i => copyWitness w map msgs α i) = 0 := by
    intro α A hA
    unfold copySystem at hA
    rcases List.mem_append.1 hA with hA | hA
    · exact hU α A hA
    · obtain ⟨c, hc, rfl⟩ := List.mem_map.1 hA
      rw [hwf.uniq, mem_setCollect] at hc
      obtain ⟨s, hs', hcs⟩ := List.mem_flatten.1 hc
      rw [C41_honest_constraint hn hwl' (by simpa using hs) hmap hG w _ α c (hi s hs' c hcs)
        ⟨s, hs', hcs⟩]
      obtain ⟨c', hc', rfl⟩ := List.mem_map.1 hs'
      have := (hout c' hc' c hcs).1
      rw [List.getD, List.getElem?_eq_none this]
      simp
  obtain ⟨l, hl⟩ : ∃ l, ∀ α : F, (copySystem Us map α).length = l + 1 := by
    have hpos : 0 < map.unique_commitment_indices.length := by
      have hl : 0 < map.msgs_map.length := by rw [hwf.length]; exact hwf.pos
      obtain ⟨-, -, hci, -⟩ := hwf.mem _ (List.getElem_mem hl)
      rw [← mem_setCollect, ← hwf.uniq] at hci
      exact List.length_pos_of_mem hci
    refine ⟨Us.length + map.unique_commitment_indices.length - 1, fun α => ?_⟩
    unfold copySystem
    rw [List.length_append, List.length_map]
    omega
  have hr : ∀ α : F, (⟨(Us.map rows) ++ map.unique_commitment_indices.map fun c =>
      rows (copyConstraint m map α c)⟩ : BlockMatrix F) =
      ⟨List.ofFn fun i : Fin (l + 1) => rows ((copySystem Us map α).get (Fin.cast (hl α).symm i))⟩ := by
    intro α
    congr 1
    rw [show (Us.map rows) ++ map.unique_commitment_indices.map (fun c => rows (copyConstraint m map α c)) =
      (copySystem Us map α).map rows by simp only [copySystem, List.map_append, List.map_map]; rfl, map_rows_eq]
    apply List.ext_getElem
    · simp [hl]
    · intro i h1 h2
      rw [List.getElem_ofFn, List.getElem_ofFn]; rfl
  let Cw : F → F → G := fun y z => dot (List.ofFn (fun i : Fin (m + 1) => copyWitness w map msgs 0 i) ++ [y, z]) Gs
  refine qesa_error h2 he (by omega) hm hN cd Gs Hs Q hG hH (P := F) (L := log.length + 2) (k := l)
    (fun α y z => ⟨log ++ [.msg "c_w" (cd.compress (Cw y z)), .chal "alpha" 64],
      fun i => (copySystem Us map α).get (Fin.cast (hl α).symm i), fun i => copyWitness w map msgs α i, y,
      z + dot (coms.map (·.2.2)) (List.ofFn (powers α coms.length))⟩)
    (fun ro y z => copyAlpha F ro log (cd.compress (Cw y z))) (fun _ _ _ => by simp) ?_
    (fun α _ _ => hw0 α) (fun α _ _ i => hq α _ (List.getElem_mem _)) hB rest _ ?_
  · intro ro h v y z hlen
    simp only [copyAlpha, squeeze]
    rw [Function.update_of_ne]
    rintro rfl
    simp at hlen
  rintro ro τ hA ⟨p, tr', τ', h1, h2⟩
  simp only at h1 h2
  have hc := create_returns ⟨cd, ro⟩ ⟨log⟩ tr' τ τ' Gs Hs Q map ⟨Us.map rows⟩ w coms m p hwf hlen hG h0 hwl hci
    (cd.compress (Cw (τ 0) (τ 1))) rfl (by
      simp only
      rw [hr]
      exact h1)
  refine hA ⟨_, tr', τ', hc, ?_⟩
  obtain ⟨-, -, -, C, hC, hdot, -⟩ := C37_prover ⟨cd, ro⟩ ⟨log⟩ tr' τ τ' Gs Hs Q Us w coms map Cs _ hG hn hs hmap
    hcom hc
  have hCl : Cs.length = coms.length := (mapM_eq_ok.1 hcom).length_eq.symm
  have hv := C37_verifier ⟨cd, ro⟩ ⟨cd.compress (Cw (τ 0) (τ 1)), p⟩ ⟨log⟩ Gs Hs Q Us (coms.map (·.1)) map Cs C hG hn
    hwl' (by simpa using hs) hmap hi (by simpa using hCl) (by
      rw [show (cd.compress (Cw (τ 0) (τ 1))) = cd.compress C from hC]
      exact cd.decompress_compress _)
  simp only at hv hdot
  rw [hv, ← hdot]
  have hp := (C28_prover_value _ _ _ _ _ _ _ _ _ _ _ _ _ h1).1
  rw [show (copySystem Us map (copyAlpha F ro log (cd.compress (Cw (τ 0) (τ 1))))).map rows =
    (⟨(Us.map rows) ++ map.unique_commitment_indices.map fun c =>
      rows (copyConstraint m map (copyAlpha F ro log (cd.compress (Cw (τ 0) (τ 1)))) c)⟩ : BlockMatrix F).block by
      simp only [copySystem, List.map_append, List.map_map]; rfl, hr]
  rw [← h2]
  congr 1
  cases p
  simp only at hp
  rw [hp]

section
open Toy

/-- An honest QESA run over `ZMod 101` with four generators: the equation `w₁² = 9` and the witness `3`. -/
example (Gs Hs : Fin 4 → K) (Q : K) (rest : Tape K) : ∃ D0 : Finset (List Event), ∀ D, D0 ⊆ D → ∀ ro,
    chanceBoth ro D rest (2 + 12) (fun ro τ => ¬ ∃ p tr' τ',
      Zk.create ⟨codec, ro⟩ ⟨[]⟩ τ (List.ofFn Gs) (List.ofFn Hs) Q
        ⟨List.ofFn fun i : Fin 1 => rows (![!![-9, 0; 0, 1]] i)⟩ (List.ofFn ![1, 3]) = .ok (p, tr', τ') ∧
      p.verify ⟨codec, ro⟩ ⟨[]⟩ (List.ofFn Gs) (List.ofFn Hs) Q
        ⟨List.ofFn fun i : Fin 1 => rows (![!![-9, 0; 0, 1]] i)⟩ = .ok (true, tr')) ≤
    7 / Fintype.card K + (14 * (2 ^ 512 / 101 + 1) : Nat) / 2 ^ 512 :=
  C75_zk_completeness_error (F := K) (m := 1) (k := 0) (e := 2) (by decide +kernel) (by decide) (by decide)
    (by decide) (by decide) codec [] (List.ofFn Gs) (List.ofFn Hs) Q (by simp) (by simp) _ _ rfl
    (by decide +kernel) (C67_scalars 101) rest

/-- An honest Copy run with eight generators: the messages 7 and 8 are committed to at indices 1 and 2. -/
example (Gs Hs : Fin 8 → K) (Q : K) (rest : Tape K) : ∃ map Cs,
    computeMapping 8 1 [[1, 2]] = .ok map ∧
    [([1, 2], [(7 : K), 8], (3 : K))].mapM (fun c => commit (List.ofFn Gs) c.1 c.2.1 c.2.2) = .ok Cs ∧
    ∃ D0 : Finset (List Event), ∀ D, D0 ⊆ D → ∀ ro,
    chanceBoth ro D rest (2 + 16) (fun ro τ => ¬ ∃ p tr' τ',
      Copy.create ⟨codec, ro⟩ ⟨[]⟩ τ (List.ofFn Gs) (List.ofFn Hs) Q map ⟨[]⟩ [1] [([7, 8], 3)] =
        .ok (p, tr', τ') ∧
      p.verify ⟨codec, ro⟩ ⟨[]⟩ (List.ofFn Gs) (List.ofFn Hs) Q ⟨[]⟩ map Cs = .ok (true, tr')) ≤
    7 / Fintype.card K + (14 * (2 ^ 512 / 101 + 1) : Nat) / 2 ^ 512 := by
  refine ⟨_, _, rfl, rfl, ?_⟩
  exact C75_copy_completeness_error (F := K) (m := 5) (e := 3) (by decide +kernel) (by decide) (by decide)
    (by decide) (by decide) codec [] (List.ofFn Gs) (List.ofFn Hs) Q (by simp) (by simp) [] [1]
    [([1, 2], [7, 8], 3)] _ _ (by decide) rfl (by decide) rfl rfl (by decide) (by simp) (C67_scalars 101) rest
end

end Qesa.Props
