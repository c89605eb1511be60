import Verif.Proofs.ArgMachine
/-
The inner-product arguments in the random-oracle model, for algorithms that annotate the points of their
queries with elements of a module `V`.
-/
namespace Qesa.Props
open Qesa Spec Ipa

namespace Algo'
variable {E α : Type} (er : E → Event)

theorem askAll_asked (ro : Hash) (a : α) : ∀ ls : List (List E), (Algo.askAll a ls).asked er ro = ls
  | [] => rfl
  | l :: ls => by rw [Algo.askAll, Algo.asked, askAll_asked]

theorem askAll_atMost (a : α) : ∀ (ls : List (List E)) (T : Nat), ls.length ≤ T →
    (Algo.askAll a ls).AtMost T
  | [], _, _ => trivial
  | _ :: _, 0, h => absurd h (by simp)
  | _ :: ls, T + 1, h => fun _ => askAll_atMost a ls T (by simpa using h)

end Algo'

theorem exists_finite {E α : Type} (er : E → Event) (more : Hash → α → List (List Event))
    (hmore : ∀ a, Set.Finite {l | ∃ ro, l ∈ more ro a}) : ∀ A : Algo E α,
    ∃ D : Set (List Event), D.Finite ∧
      ∀ ro, (∀ l ∈ A.asked er ro, l.map er ∈ D) ∧ ∀ l ∈ more ro (A.run er ro), l ∈ D
  | .done a => ⟨_, hmore a, fun ro => ⟨by simp [Algo.asked], fun l hl => ⟨ro, hl⟩⟩⟩
  | .ask log next => by
    choose D hf hD using fun v => exists_finite er more hmore (next v)
    refine ⟨insert (log.map er) (⋃ v, D v), (Set.finite_iUnion hf).insert _, fun ro => ⟨?_, ?_⟩⟩
    · intro l hl
      rw [Algo.asked, List.mem_cons] at hl
      rcases hl with rfl | hl
      · exact Set.mem_insert _ _
      · exact Set.mem_insert_of_mem _ (Set.mem_iUnion.2 ⟨_, (hD _ ro).1 l hl⟩)
    · intro l hl
      exact Set.mem_insert_of_mem _ (Set.mem_iUnion.2 ⟨_, (hD _ ro).2 l hl⟩)

/-- A finite set that contains all queries of an algorithm, and those that depend on its result, always
exists. -/
theorem exists_domain {E α : Type} (er : E → Event) (more : Hash → α → List (List Event))
    (hmore : ∀ a, Set.Finite {l | ∃ ro, l ∈ more ro a}) (A : Algo E α) :
    ∃ D : Finset (List Event), ∀ ro, (∀ l ∈ A.asked er ro, l.map er ∈ D) ∧
      ∀ l ∈ more ro (A.run er ro), l ∈ D := by
  obtain ⟨D, hf, hD⟩ := exists_finite er more hmore A
  refine ⟨hf.toFinset, fun ro => ?_⟩
  simp only [Set.Finite.mem_toFinset]
  exact hD ro

section
variable {F G V : Type} [Field F] [DecidableEq F] [AddCommGroup V] [Module F V]

/-- No two queries are equal except for the notes. -/
def NoConflict (ls : List (List (Note V))) : Prop :=
  ∀ l ∈ ls, ∀ l' ∈ ls, l.map Prod.fst = l'.map Prod.fst → l = l'

omit [AddCommGroup V] in
theorem NoConflict.mono {ls ls' : List (List (Note V))} (h : NoConflict ls) (hs : ∀ l ∈ ls', l ∈ ls) :
    NoConflict ls' := fun l hl l' hl' => h l (hs l hl) l' (hs l' hl')

omit [AddCommGroup V] in
theorem roundQueries_length (cmp : G → Comp) (ev : V → G) : ∀ (Ls Rs : List V) (log : List (Note V)),
    (roundQueries cmp ev log Ls Rs).length ≤ Ls.length
  | [], _, _ => by simp [roundQueries]
  | _ :: _, [], _ => by simp [roundQueries]
  | L :: Ls, R :: Rs, log => by
    rw [roundQueries, List.length_cons, List.length_cons]
    exact Nat.succ_le_succ (roundQueries_length cmp ev Ls Rs _)

/-- The inner-product argument. -/
theorem ipa_core {α : Type} {q B T : Nat} (cmp : G → Comp) (ev : V → G) (Gs Hs : List V) (Q P : V) (t : F)
    (hG : Gs.length = 2 ^ q) (hH : Hs.length = 2 ^ q) (hf : Free (F := F) Gs Hs Q)
    (hP : ¬ IpaClaim Gs Hs Q P t) (log : List (Note V))
    (hB : ∀ c : F, Nat.card {v : Vector UInt8 64 // ((leNat v.toList : Nat) : F) = c} ≤ B)
    (A : Algo (Note V) α) (hT : A.AtMost T) (out : α → AlgIpa F V) (ro : Hash) (D : Finset (List Event))
    (hD : ∀ ro, ∀ l ∈ A.asked Prod.fst ro ++
      ipaQueries cmp ev log (2 ^ q) (out (A.run Prod.fst ro)).Ls (out (A.run Prod.fst ro)).Rs,
      l.map Prod.fst ∈ D) (Win : Hash → Prop)
    (hWin : ∀ ro, Win ro → let p := out (A.run Prod.fst ro)
      NoConflict (A.asked Prod.fst ro ++ ipaQueries cmp ev log (2 ^ q) p.Ls p.Rs) ∧ p.Ls.length = q ∧
      ipaGap ro (log.map Prod.fst) (fun L => cmp (ev L)) Gs Hs Q P t p.Ls p.Rs p.a p.b = 0) :
    countHashes ro D Win * 2 ^ 512 ≤ (T + (q + 1)) * (3 * B) * (2 ^ 512) ^ D.card := by
  have hask : ∀ ro, (A.andThen fun o => Algo.askAll o
      ((ipaQueries cmp ev log (2 ^ q) (out o).Ls (out o).Rs).take (q + 1))).asked Prod.fst ro =
      A.asked Prod.fst ro ++ (ipaQueries cmp ev log (2 ^ q) (out (A.run Prod.fst ro)).Ls
        (out (A.run Prod.fst ro)).Rs).take (q + 1) := by
    intro ro
    rw [Algo.asked_andThen, Algo'.askAll_asked]
  refine (argMachine_sound cmp ev).count Prod.fst hB ro D (A.andThen fun o => Algo.askAll o
    ((ipaQueries cmp ev log (2 ^ q) (out o).Ls (out o).Rs).take (q + 1))) (T + (q + 1)) ?_ ?_
    (.alpha [] q Gs Hs Q P t) log ?_ Win ?_
  · exact Algo.andThen_atMost _ _ (fun o => Algo'.askAll_atMost _ _ _ (List.length_take_le _ _)) _ _ hT
  · intro f l hl
    rw [hask] at hl
    apply hD (patch ro D f)
    rcases List.mem_append.1 hl with hl | hl
    · exact List.mem_append_left _ hl
    · exact List.mem_append_right _ (List.mem_of_mem_take hl)
  · change ¬ (_ → _ → _ → _)
    exact fun h => hP (h hG hH hf)
  · intro ro hw
    obtain ⟨hc, hl, hg⟩ := hWin ro hw
    rw [hask]
    constructor
    · apply hc.mono
      intro l hl
      rcases List.mem_append.1 hl with hl | hl
      · exact List.mem_append_left _ hl
      · exact List.mem_append_right _ (List.mem_of_mem_take hl)
    · obtain ⟨ls, s', hp, hs, hm⟩ := alpha_path cmp ev ro _ _ Q P t _ _ Gs Hs [] log (hl ▸ hG) (hl ▸ hH)
        (by rw [List.append_nil]; exact hg)
      rw [List.append_nil, hl] at hm
      rw [hl] at hp
      refine ⟨ls, s', hp, hs, fun l h => List.mem_append_right _ ?_⟩
      rw [List.take_of_length_le]
      · exact hm l h
      · rw [ipaQueries, List.length_cons]
        exact Nat.succ_le_succ ((roundQueries_length ..).trans hl.le)

/-- The queries of the verifier of AlmZK. -/
def almAsk {α : Type} (cmp : G → Comp) (ev : V → G) (log : List (Note V)) (n k : Nat) (Q C : V) (t : F)
    (p : AlgAlm F V) (o : α) : Algo (Note V) α :=
  .ask (log ++ betaNotes cmp ev p.C_r) fun v =>
    let β : F := (leNat v.toList : Nat)
    let P := β • C + p.C_r + (β * β * t) • Q
    Algo.askAll o ((ipaQueries cmp ev
      (log ++ betaNotes cmp ev p.C_r ++ [(.msg "P" (cmp (ev P)), none)]) n p.ipa.Ls p.ipa.Rs).take k)

omit [DecidableEq F] in
theorem almAsk_asked {α : Type} (cmp : G → Comp) (ev : V → G) (log : List (Note V)) (n k : Nat) (Q C : V)
    (t : F) (p : AlgAlm F V) (o : α) (ro : Hash) :
    (almAsk cmp ev log n k Q C t p o).asked Prod.fst ro =
      (almQueries ro cmp ev log n Q C t p).take (k + 1) := by
  simp only [almAsk, Algo.asked]
  rw [Algo'.askAll_asked, almQueries, List.take_succ_cons]
  simp only [List.map_append]
  rfl

omit [DecidableEq F] in
theorem almAsk_atMost {α : Type} (cmp : G → Comp) (ev : V → G) (log : List (Note V)) (n k : Nat) (Q C : V)
    (t : F) (p : AlgAlm F V) (o : α) : (almAsk cmp ev log n k Q C t p o).AtMost (k + 1) :=
  fun _ => Algo'.askAll_atMost _ _ _ (List.length_take_le _ _)

/-- AlmZK. -/
theorem alm_core {α : Type} {q B T : Nat} (cmp : G → Comp) (ev : V → G) (Gs Hs : List V) (Q C : V) (t : F)
    (hG : Gs.length = 2 ^ q) (hH : Hs.length = 2 ^ q) (hf : Free (F := F) Gs Hs Q)
    (hC : ¬ AlmClaim Gs Hs C t) (log : List (Note V))
    (hB : ∀ c : F, Nat.card {v : Vector UInt8 64 // ((leNat v.toList : Nat) : F) = c} ≤ B)
    (A : Algo (Note V) α) (hT : A.AtMost T) (out : α → AlgAlm F V) (ro : Hash) (D : Finset (List Event))
    (hD : ∀ ro, ∀ l ∈ A.asked Prod.fst ro ++
      almQueries ro cmp ev log (2 ^ q) Q C t (out (A.run Prod.fst ro)), l.map Prod.fst ∈ D)
    (Win : Hash → Prop)
    (hWin : ∀ ro, Win ro → let p := out (A.run Prod.fst ro)
      NoConflict (A.asked Prod.fst ro ++ almQueries ro cmp ev log (2 ^ q) Q C t p) ∧ p.ipa.Ls.length = q ∧
      almGap ro (log.map Prod.fst) (fun L => cmp (ev L)) Gs Hs Q C t p = 0) :
    countHashes ro D Win * 2 ^ 512 ≤ (T + (q + 2)) * (3 * B) * (2 ^ 512) ^ D.card := by
  set vf : α → Algo (Note V) α := fun o => almAsk cmp ev log (2 ^ q) (q + 1) Q C t (out o) o with hvf
  have hask : ∀ ro, (A.andThen vf).asked Prod.fst ro = A.asked Prod.fst ro ++
      (almQueries ro cmp ev log (2 ^ q) Q C t (out (A.run Prod.fst ro))).take (q + 2) := by
    intro ro
    rw [Algo.asked_andThen, hvf, almAsk_asked]
  refine (argMachine_sound cmp ev).count Prod.fst hB ro D (A.andThen vf) (T + (q + 2)) ?_ ?_
    (.beta [] q Gs Hs Q C t) log ?_ Win ?_
  · refine Algo.andThen_atMost vf (q + 2) (fun o => ?_) _ _ hT
    exact almAsk_atMost cmp ev log _ _ Q C t (out o) o
  · intro f l hl
    rw [hask] at hl
    apply hD (patch ro D f)
    rcases List.mem_append.1 hl with hl | hl
    · exact List.mem_append_left _ hl
    · exact List.mem_append_right _ (List.mem_of_mem_take hl)
  · change ¬ (_ → _ → _ → _)
    exact fun h => hC (h hG hH hf)
  · intro ro hw
    obtain ⟨hc, hl, hg⟩ := hWin ro hw
    rw [hask]
    constructor
    · apply hc.mono
      intro l hl
      rcases List.mem_append.1 hl with hl | hl
      · exact List.mem_append_left _ hl
      · exact List.mem_append_right _ (List.mem_of_mem_take hl)
    · obtain ⟨ls, s', hp, hs, hm⟩ := beta_path cmp ev ro _ _ Q C (out (A.run Prod.fst ro)).C_r t _ _ Gs Hs []
        log (hl ▸ hG) (hl ▸ hH) (by rw [List.append_nil]; exact hg)
      rw [List.append_nil, hl] at hm
      rw [hl] at hp
      refine ⟨ls, s', hp, hs, fun l h => List.mem_append_right _ ?_⟩
      rw [List.take_of_length_le]
      · exact List.mem_cons.2 (hm l h)
      · rw [almQueries, List.length_cons, ipaQueries, List.length_cons]
        exact Nat.succ_le_succ (Nat.succ_le_succ ((roundQueries_length ..).trans hl.le))

end

/-! ### Linear maps -/
section
variable {F G V : Type} [Field F] [AddCommGroup G] [Module F G] [AddCommGroup V] [Module F V]

theorem map_combined (ev : V →ₗ[F] G) (w : Nat → F) (k r : Nat) (Gs : List V) :
    ev (combined w k r Gs) = combined w k r (Gs.map ev) := by
  unfold combined
  rw [map_sum]
  apply Finset.sum_congr rfl
  intro i _
  rw [map_smul, ← map_zero ev, List.getD_map]

theorem map_foldedP (ev : V →ₗ[F] G) (Ls Rs : List V) (xs : List F) (P : V) :
    ev (foldedP Ls Rs xs P) = foldedP (Ls.map ev) (Rs.map ev) xs (ev P) := by
  unfold foldedP
  rw [map_add, map_smul, map_sum]
  congr 1
  apply Finset.sum_congr rfl
  intro i _
  rw [map_smul, map_add, map_smul, ← map_zero ev, List.getD_map, List.getD_map]

theorem map_ipaGap (ev : V →ₗ[F] G) (ro : Hash) (log : List Event) (cmp : G → Comp) (Gs Hs : List V)
    (Q P : V) (t : F) (Ls Rs : List V) (a b : F) :
    ev (ipaGap ro log (fun L => cmp (ev L)) Gs Hs Q P t Ls Rs a b) =
      ipaGap ro log cmp (Gs.map ev) (Hs.map ev) (ev Q) (ev P) t (Ls.map ev) (Rs.map ev) a b := by
  unfold ipaGap
  simp only [map_sub, map_add, map_smul, map_combined, map_foldedP, List.length_map, List.map_map]
  rfl

variable [DecidableEq G]

/-- The verdict of the code, in terms of the difference. -/
theorem ipa_accepts_iff {q : Nat} (cx : Ctx G) (tr : Transcript) (Gs Hs : List G) (Q P : G) (t : F)
    (Ls Rs : List G) (a b : F) (hG : Gs.length = 2 ^ q) (hH : Hs.length = 2 ^ q) :
    (∃ tr', (⟨Ls.map cx.compress, Rs.map cx.compress, a, b⟩ : NoZK F).verify cx tr Gs Hs Q (2 ^ q) P t =
        .ok (true, tr')) ↔
      Ls.length = q ∧ q < 64 ∧ ipaGap cx.ro tr.log cx.compress Gs Hs Q P t Ls Rs a b = 0 := by
  have hver : Verifiable cx (⟨Ls.map cx.compress, Rs.map cx.compress, a, b⟩ : NoZK F) Gs Hs (2 ^ q) ↔
      Ls.length = q ∧ q < 64 := by
    unfold Verifiable
    simp only [List.length_map, hG, hH, List.mem_map, forall_exists_index, and_imp,
      forall_apply_eq_imp_iff₂, cx.decompress_compress, Option.isSome_some, implies_true, true_and]
    constructor
    · rintro ⟨h1, h2, -⟩
      have := Nat.pow_right_injective (le_refl 2) h2
      exact ⟨this.symm, by omega⟩
    · rintro ⟨rfl, h⟩
      have : 0 < 2 ^ (Ls.length - Rs.length) := Nat.two_pow_pos _
      have : 0 < 2 ^ Ls.length := Nat.two_pow_pos _
      exact ⟨h, rfl, by omega, by omega⟩
  by_cases hv : Verifiable cx (⟨Ls.map cx.compress, Rs.map cx.compress, a, b⟩ : NoZK F) Gs Hs (2 ^ q)
  · rw [C19_ipa_verdict cx _ tr Gs Hs Q (2 ^ q) P t Ls Rs rfl rfl hv]
    obtain ⟨rfl, h64⟩ := hver.1 hv
    simp only [true_and, h64, Except.ok.injEq, Prod.mk.injEq, decide_eq_true_eq, exists_and_left,
      exists_eq', and_true, ipaGap, sub_eq_zero, List.length_map, ipaChallenges_length]
  · constructor
    · rintro ⟨tr', h⟩
      exact absurd ((C22_ipa_verify_returns_iff ..).1 ⟨_, h⟩) hv
    · rintro ⟨h1, h2, -⟩
      exact absurd (hver.2 ⟨h1, h2⟩) hv

end
end Qesa.Props
