import Verif.Proofs.Oracle
import Verif.SpecFork
/-
The forking lemma: an accepted prover can nearly always be made to branch at all of its challenges.
-/
namespace Qesa.Spec

theorem Branches.acc {acc : Hash → Prop} {key : Hash → Nat → Option (List Event)} {M : Nat} :
    ∀ {d i : Nat} {ro : Hash}, Branches acc key M d i ro → acc ro
  | 0, _, _, h => h
  | _ + 1, _, _, h => Branches.acc h.1

/-- If the branching fails, it fails at some challenge. -/
theorem exists_unbranched {acc : Hash → Prop} {key : Hash → Nat → Option (List Event)} {M : Nat} {ro : Hash}
    (ha : acc ro) : ∀ {d i : Nat}, ¬ Branches acc key M d i ro → ∃ j e l, i + d = j + e + 1 ∧
      Branches acc key M e (j + 1) ro ∧ key ro j = some l ∧
      Nat.card {v : Vector UInt8 64 // Branches acc key M e (j + 1) (Function.update ro l v) ∧
        key (Function.update ro l v) j = some l} < M
  | 0, _, h => absurd ha h
  | d + 1, i, h => by
    by_cases hb : Branches acc key M d (i + 1) ro
    · rw [Branches] at h
      push Not at h
      obtain ⟨l, hl, hc⟩ := h hb
      exact ⟨i, d, l, by omega, hb, hl, hc⟩
    · obtain ⟨j, e, l, h1, h2⟩ := exists_unbranched ha hb
      exact ⟨j, e, l, by omega, h2⟩

open Classical in
/-- The forking lemma. -/
theorem count_unbranched {α : Type} (acc : Hash → Prop) (key : Hash → Nat → Option (List Event)) (M d : Nat)
    (A : Algo Event α) (T : Nat) (hT : A.AtMost T)
    (hask : ∀ ro i l, acc ro → key ro i = some l → l ∈ A.asked id ro)
    (hlev : ∀ ro ro' i i' l, acc ro → acc ro' → key ro i = some l → key ro' i' = some l → i = i')
    (ro : Hash) (D : Finset (List Event)) (hD : ∀ f, ∀ l ∈ A.asked id (patch ro D f), l ∈ D) :
    countHashes ro D (fun ro => acc ro ∧ ¬ Branches acc key M d 0 ro) * 2 ^ 512 ≤
      T * (M - 1) * (2 ^ 512) ^ D.card := by
  let Bad : Hash → List Event → Prop := fun ro l => ∃ j e, d = j + e + 1 ∧ Branches acc key M e (j + 1) ro ∧
    key ro j = some l ∧ Nat.card {v : Vector UInt8 64 // Branches acc key M e (j + 1) (Function.update ro l v) ∧
        key (Function.update ro l v) j = some l} < M
  refine le_trans (Nat.mul_le_mul_right _ ?_)
    (count_bad id ro D A T hT (fun f l hl => by rw [List.map_id]; exact hD f l hl) Bad (M - 1) ?_)
  · unfold countHashes
    rw [Nat.card_eq_fintype_card, Nat.card_eq_fintype_card]
    apply Fintype.card_subtype_mono
    rintro f ⟨ha, hb⟩
    obtain ⟨j, e, l, h1, h2, h3, h4⟩ := exists_unbranched ha hb
    exact ⟨fun l _ l' _ h => by simpa using h, l, hask _ j l ha h3, j, e, by omega, h2, h3, h4⟩
  · intro ro l
    rw [List.map_id]
    by_cases hne : ∃ v, Bad (Function.update ro l v) l
    · obtain ⟨v0, j, e, hd, hb0, hk0, hc⟩ := hne
      simp only [Function.update_idem] at hc
      rw [Nat.card_eq_fintype_card, Fintype.card_subtype] at hc
      refine le_trans (Finset.card_le_card ?_) (Nat.le_sub_one_of_lt hc)
      intro v hv
      simp only [Finset.mem_filter, Finset.mem_univ, true_and] at hv ⊢
      obtain ⟨j', e', hd', hb, hk, -⟩ := hv
      have : j' = j := hlev _ _ _ _ l hb.acc hb0.acc hk hk0
      subst this
      have : e' = e := by omega
      subst this
      exact ⟨hb, hk⟩
    · push Not at hne
      rw [Finset.filter_false_of_mem fun v _ => hne v]
      simp

/-- Enough answers give enough different challenges. -/
theorem exists_distinct' {V F : Type} [Fintype V] (f : V → F) {B k : Nat} (bad : Finset F)
    (hB : ∀ c : F, Nat.card {v : V // f v = c} ≤ B) (S : V → Prop) (hS : (k + bad.card) * B < Nat.card {v // S v}) :
    ∃ v : Fin (k + 1) → V, (∀ j, S (v j)) ∧ Function.Injective (fun j => f (v j)) ∧ ∀ j, f (v j) ∉ bad := by
  classical
  set X : Finset V := Finset.univ.filter S with hX
  set I : Finset F := X.image f with hI
  have h1 : X.card ≤ B * I.card := by
    refine Finset.card_le_mul_card_image X B fun c _ => ?_
    refine le_trans (Finset.card_le_card (t := Finset.univ.filter fun v => f v = c) ?_)
      (le_trans (le_of_eq ?_) (hB c))
    · exact Finset.filter_subset_filter _ (Finset.subset_univ _)
    · rw [Nat.card_eq_fintype_card, Fintype.card_subtype]
  have h2 : k + bad.card < I.card := by
    rw [Nat.card_eq_fintype_card, Fintype.card_subtype] at hS
    rw [mul_comm] at h1
    exact lt_of_mul_lt_mul_right (hS.trans_le h1) (Nat.zero_le _)
  have h3 : k + 1 ≤ (I \ bad).card := by
    have := Finset.le_card_sdiff bad I
    omega
  obtain ⟨J, hJ, hJc⟩ := Finset.exists_subset_card_eq h3
  have hex : ∀ c : J, ∃ v, S v ∧ f v = c.1 := by
    rintro ⟨c, hc⟩
    have := (Finset.mem_sdiff.1 (hJ hc)).1
    rw [hI, Finset.mem_image] at this
    obtain ⟨v, hv, rfl⟩ := this
    exact ⟨v, (Finset.mem_filter.1 hv).2, rfl⟩
  choose w hw1 hw2 using hex
  let e : Fin (k + 1) ≃ J := (J.equivFinOfCardEq hJc).symm
  refine ⟨fun j => w (e j), fun j => hw1 _, fun i j h => ?_, fun j => ?_⟩
  · simp only [hw2] at h
    exact e.injective (Subtype.ext h)
  · rw [hw2]
    exact (Finset.mem_sdiff.1 (hJ (e j).2)).2

theorem exists_distinct {F : Type} [NatCast F] {B k : Nat} (bad : Finset F)
    (hB : ∀ c : F, Nat.card {v : Vector UInt8 64 // ((leNat v.toList : Nat) : F) = c} ≤ B) (S : Vector UInt8 64 → Prop)
    (hS : (k + bad.card) * B < Nat.card {v // S v}) :
    ∃ v : Fin (k + 1) → Vector UInt8 64, (∀ j, S (v j)) ∧
      Function.Injective (fun j => ((leNat (v j).toList : Nat) : F)) ∧
      ∀ j, ((leNat (v j).toList : Nat) : F) ∉ bad :=
  exists_distinct' (fun v : Vector UInt8 64 => ((leNat v.toList : Nat) : F)) bad hB S hS

theorem Forks.acc {F : Type} {scalar : Vector UInt8 64 → F} {acc : Hash → Prop}
    {key : Hash → Nat → Option (List Event)} {K : Nat → Nat} :
    ∀ {d i : Nat} {ro : Hash}, Forks scalar acc key K d i ro → acc ro
  | 0, _, _, h => h
  | _ + 1, _, _, h => Forks.acc h.1

theorem Forks.mono {F : Type} {scalar : Vector UInt8 64 → F} {acc acc' : Hash → Prop}
    {key : Hash → Nat → Option (List Event)} {K : Nat → Nat} (h : ∀ ro, acc ro → acc' ro) :
    ∀ {d i : Nat} {ro : Hash}, Forks scalar acc key K d i ro → Forks scalar acc' key K d i ro
  | 0, _, _, hf => h _ hf
  | d + 1, i, ro, hf => ⟨Forks.mono h hf.1, fun l hl => by
    obtain ⟨v, hv, hj⟩ := hf.2 l hl
    exact ⟨v, hv, fun j => ⟨Forks.mono h (hj j).1, (hj j).2⟩⟩⟩

/-- Some of the answers, away from finitely many scalars. -/
theorem pick {F : Type} [NatCast F] {K k : Nat} (bad : Finset F) (hK : k + 1 + bad.card ≤ K) {S : Vector UInt8 64 → Prop}
    (h : ∃ v : Fin K → Vector UInt8 64, Function.Injective (fun j => scalarOf F (v j)) ∧ ∀ j, S (v j)) :
    ∃ v : Fin (k + 1) → Vector UInt8 64, (∀ j, S (v j)) ∧
      Function.Injective (fun j => ((leNat (v j).toList : Nat) : F)) ∧
      ∀ j, ((leNat (v j).toList : Nat) : F) ∉ bad := by
  obtain ⟨v, hv, hS⟩ := h
  obtain ⟨u, -, hu, hb⟩ := exists_distinct' (V := Fin K) (k := k) (B := 1) (fun j => scalarOf F (v j)) bad
    (fun c => by
      have : Subsingleton {j : Fin K // scalarOf F (v j) = c} :=
        ⟨fun a b => Subtype.ext (hv (a.2.trans b.2.symm))⟩
      exact Finite.card_le_one_iff_subsingleton.2 this) (fun _ => True) (by
      rw [Nat.card_eq_fintype_card, Fintype.card_subtype_true, Fintype.card_fin]
      omega)
  exact ⟨fun j => v (u j), fun j => hS _, hu, hb⟩

theorem Forks.pick {F : Type} [NatCast F] {acc : Hash → Prop} {key : Hash → Nat → Option (List Event)} {K : Nat → Nat}
    {d i k : Nat} {ro : Hash} (h : Forks (scalarOf F) acc key K (d + 1) i ro) {l : List Event} (hl : key ro i = some l)
    (bad : Finset F) (hK : k + 1 + bad.card ≤ K i) :
    ∃ v : Fin (k + 1) → Vector UInt8 64,
      (∀ j, Forks (scalarOf F) acc key K d (i + 1) (Function.update ro l (v j)) ∧
        key (Function.update ro l (v j)) i = some l) ∧
      Function.Injective (fun j => ((leNat (v j).toList : Nat) : F)) ∧
      ∀ j, ((leNat (v j).toList : Nat) : F) ∉ bad :=
  Spec.pick (S := fun v => Forks (scalarOf F) acc key K d (i + 1) (Function.update ro l v) ∧
    key (Function.update ro l v) i = some l) bad hK (h.2 l hl)

/-- Many answers contain some with different scalars. -/
theorem Branches.forks {F : Type} [NatCast F] {acc : Hash → Prop} {key : Hash → Nat → Option (List Event)} {M B k : Nat}
    (hB : ∀ c : F, Nat.card {v : Vector UInt8 64 // ((leNat v.toList : Nat) : F) = c} ≤ B) (hM : k * B < M) :
    ∀ {d i : Nat} {ro : Hash}, Branches acc key M d i ro → Forks (scalarOf F) acc key (fun _ => k + 1) d i ro
  | 0, _, _, h => h
  | d + 1, i, ro, h => ⟨Branches.forks hB hM h.1, fun l hl => by
    obtain ⟨v, hv, hinj, -⟩ := exists_distinct (k := k) (∅ : Finset F) hB _
      ((by simpa using hM : (k + (∅ : Finset F).card) * B < M).trans_le (h.2 l hl))
    exact ⟨v, hinj, fun j => ⟨Branches.forks hB hM (hv j).1, (hv j).2⟩⟩⟩

theorem Reprogrammed.refl (k : Nat) (ro : Hash) : Reprogrammed k ro ro := ⟨∅, by simp, fun _ _ => rfl⟩

theorem Reprogrammed.update {k : Nat} {ro ro' : Hash} {l : List Event} {v : Vector UInt8 64}
    (h : Reprogrammed k (Function.update ro l v) ro') : Reprogrammed (k + 1) ro ro' := by
  obtain ⟨s, hs, h⟩ := h
  classical
  refine ⟨insert l s, (Finset.card_insert_le _ _).trans (by omega), fun l' hl' => ?_⟩
  rw [Finset.mem_insert, not_or] at hl'
  rw [h l' hl'.2, Function.update_of_ne hl'.1]

theorem Reprogrammed.mono {k k' : Nat} {ro ro' : Hash} (h : Reprogrammed k ro ro') (hk : k ≤ k') :
    Reprogrammed k' ro ro' := by
  obtain ⟨s, hs, h⟩ := h
  exact ⟨s, hs.trans hk, h⟩

end Qesa.Spec
