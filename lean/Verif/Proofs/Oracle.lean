import Mathlib.Data.Fintype.Pi
import Mathlib.Data.Fintype.BigOperators
import Mathlib.Algebra.Order.BigOperators.Group.Finset
import Mathlib.Logic.Function.Basic
import Verif.Props.Challenge
import Verif.SpecOracle
/-
Random-oracle arguments: a bad event that is decided by the answer to a fresh query is rare.
-/
namespace Qesa.Spec

/-! ### Resampling one entry of a table -/

section
variable {D V β : Type} [Fintype D] [DecidableEq D] [Fintype V]

open Classical in
/-- If the entry `pos b` to look at does not depend on the value of that entry, and at most `K` of its values
are bad, then at most `K` out of `|V|` tables are bad. -/
theorem resample (sel : (D → V) → Option β) (pos : β → D) (Bad : (D → V) → β → Prop) (K : Nat)
    (hsel : ∀ f b v, sel f = some b → sel (Function.update f (pos b) v) = some b)
    (hBad : ∀ f b, (Finset.univ.filter fun v => Bad (Function.update f (pos b) v) b).card ≤ K) :
    (Finset.univ.filter fun f => ∃ b, sel f = some b ∧ Bad f b).card * Fintype.card V ≤
      K * Fintype.card (D → V) := by
  set X := Finset.univ.filter fun f => ∃ b, sel f = some b ∧ Bad f b with hX
  set Y : (D → V) → Finset V := fun g =>
    Finset.univ.filter fun v => ∃ b, sel g = some b ∧ Bad (Function.update g (pos b) v) b with hY
  have hYK : ∀ g, (Y g).card ≤ K := by
    intro g
    cases hg : sel g with
    | none => simp [hY, hg]
    | some b =>
      refine le_trans (Finset.card_le_card ?_) (hBad g b)
      intro v hv
      simp only [hY, Finset.mem_filter, Finset.mem_univ, true_and, hg, Option.some.injEq] at hv ⊢
      obtain ⟨b', rfl, h⟩ := hv
      exact h
  have h1 : X.card * Fintype.card V = (X ×ˢ (Finset.univ : Finset V)).card := by
    rw [Finset.card_product, Finset.card_univ]
  have h2 : (X ×ˢ (Finset.univ : Finset V)).card ≤
      ((Finset.univ : Finset (D → V)).sigma fun g => Y g).card := by
    refine Finset.card_le_card_of_injOn (fun p => match sel p.1 with
      | some b => ⟨Function.update p.1 (pos b) p.2, p.1 (pos b)⟩
      | none => ⟨p.1, p.2⟩) ?_ ?_
    · rintro ⟨f, v⟩ hp
      simp only [Finset.coe_product, Set.mem_prod, Finset.mem_coe, hX, Finset.mem_filter,
        Finset.mem_univ, true_and, and_true] at hp
      obtain ⟨b, hb, hbad⟩ := hp
      simp only [hb, Finset.coe_sigma, Set.mem_sigma_iff, Finset.mem_coe, Finset.mem_univ, true_and,
        hY, Finset.mem_filter]
      exact ⟨b, hsel f b v hb, by simpa using hbad⟩
    · rintro ⟨f, v⟩ hp ⟨f', v'⟩ hp' he
      simp only [Finset.coe_product, Set.mem_prod, Finset.mem_coe, hX, Finset.mem_filter,
        Finset.mem_univ, true_and, and_true] at hp hp'
      obtain ⟨b, hb, -⟩ := hp
      obtain ⟨b', hb', -⟩ := hp'
      simp only [hb, hb'] at he
      obtain ⟨h1, h2⟩ := Sigma.mk.inj_iff.1 he
      have h2 := eq_of_heq h2
      have hbb : b = b' := by
        have e := hsel f b v hb
        rw [h1, hsel f' b' v' hb'] at e
        exact (Option.some.inj e).symm
      subst hbb
      have hv : v = v' := by
        have := congrFun h1 (pos b)
        simpa using this
      have hf : f = f' := by
        funext d
        by_cases hd : d = pos b
        · subst hd; exact h2
        · have := congrFun h1 d
          simpa [Function.update_of_ne hd] using this
      rw [hv, hf]
  rw [h1]
  refine h2.trans ?_
  rw [Finset.card_sigma]
  refine (Finset.sum_le_card_nsmul _ _ K fun g _ => hYK g).trans ?_
  rw [Finset.card_univ, smul_eq_mul, mul_comm]

end

/-! ### Queries -/

namespace Algo
variable {E α β : Type} (er : E → Event)

theorem asked_length (ro : Hash) : ∀ (A : Algo E α) (T : Nat), A.AtMost T → (A.asked er ro).length ≤ T
  | .done _, _, _ => by simp [asked]
  | .ask _ _, 0, h => h.elim
  | .ask log next, T + 1, h => by
    rw [asked, List.length_cons]
    exact Nat.succ_le_succ (asked_length ro (next _) T (h _))

theorem run_andThen (ro : Hash) (k : α → Algo E β) : ∀ A : Algo E α,
    (A.andThen k).run er ro = (k (A.run er ro)).run er ro
  | .done _ => rfl
  | .ask log next => by rw [andThen, run, run, run_andThen ro k]

theorem asked_andThen (ro : Hash) (k : α → Algo E β) : ∀ A : Algo E α,
    (A.andThen k).asked er ro = A.asked er ro ++ (k (A.run er ro)).asked er ro
  | .done _ => rfl
  | .ask log next => by rw [andThen, asked, asked, run, asked_andThen ro k, List.cons_append]

theorem andThen_atMost (k : α → Algo E β) (T' : Nat) (hk : ∀ a, (k a).AtMost T') :
    ∀ (A : Algo E α) (T : Nat), A.AtMost T → (A.andThen k).AtMost (T + T')
  | .done a, T, _ => by
    rw [andThen]
    have : ∀ (B : Algo E β) (m n : Nat), m ≤ n → B.AtMost m → B.AtMost n := by
      intro B
      induction B with
      | done _ => intros; trivial
      | ask log next ih =>
        intro m n hmn h
        cases m with
        | zero => exact h.elim
        | succ m =>
          cases n with
          | zero => omega
          | succ n => exact fun v => ih v m n (by omega) (h v)
    exact this _ T' _ (by omega) (hk a)
  | .ask _ _, 0, h => h.elim
  | .ask log next, T + 1, h => by
    rw [andThen, show T + 1 + T' = (T + T') + 1 by omega]
    exact fun v => andThen_atMost k T' hk (next v) T (h v)

/-- The queries up to the first one at the changed position stay the same. -/
theorem asked_update (ro : Hash) (v : Vector UInt8 64) : ∀ (A : Algo E α) (j : Nat) (l : List E),
    (A.asked er ro)[j]? = some l → (∀ l' ∈ (A.asked er ro).take j, l'.map er ≠ l.map er) →
    (A.asked er (Function.update ro (l.map er) v)).take (j + 1) = (A.asked er ro).take (j + 1)
  | .done _, j, l, h, _ => by simp [asked] at h
  | .ask log next, 0, l, h, _ => by simp [asked]
  | .ask log next, j + 1, l, h, hn => by
    rw [asked] at h hn ⊢
    rw [List.getElem?_cons_succ] at h
    rw [List.take_succ_cons] at hn
    have h0 : log.map er ≠ l.map er := hn log List.mem_cons_self
    rw [asked, List.take_succ_cons, List.take_succ_cons, Function.update_of_ne h0,
      asked_update ro v (next _) j l h fun l' hl' => hn l' (List.mem_cons_of_mem _ hl')]

end Algo

/-! ### Counting hash functions -/

noncomputable instance : Fintype (Vector UInt8 64) := Fintype.ofEquiv _ bytesEquiv.symm

theorem card_bytes : Fintype.card (Vector UInt8 64) = 2 ^ 512 := by
  rw [Fintype.card_congr bytesEquiv, Fintype.card_fin, show (256 : Nat) = 2 ^ 8 from rfl, ← pow_mul]

theorem patch_update (ro : Hash) (D : Finset (List Event)) (f : D → Vector UInt8 64) (d : D)
    (v : Vector UInt8 64) :
    patch ro D (Function.update f d v) = Function.update (patch ro D f) d.1 v := by
  funext log
  unfold patch
  by_cases h : log ∈ D
  · simp only [h, dite_true]
    by_cases hd : log = d.1
    · subst hd; simp
    · have : (⟨log, h⟩ : D) ≠ d := fun e => hd (congrArg Subtype.val e)
      rw [Function.update_of_ne this, Function.update_of_ne hd]
      simp [h]
  · have hd : log ≠ d.1 := fun e => h (e ▸ d.2)
    rw [Function.update_of_ne hd]
    simp [h]

section
variable {E α : Type} (er : E → Event)

open Classical in
/-- A property `Bad` of the hash function and a query that at most `K` of the answers to the query have is
rarely met at a query of an algorithm. The queries must not contradict each other in their notes. -/
theorem count_bad (ro : Hash) (D : Finset (List Event)) (A : Algo E α) (T : Nat) (hT : A.AtMost T)
    (hD : ∀ f, ∀ l ∈ A.asked er (patch ro D f), l.map er ∈ D) (Bad : Hash → List E → Prop) (K : Nat)
    (hBad : ∀ ro l, (Finset.univ.filter fun v => Bad (Function.update ro (l.map er) v) l).card ≤ K) :
    countHashes ro D (fun ro => (∀ l ∈ A.asked er ro, ∀ l' ∈ A.asked er ro, l.map er = l'.map er → l = l') ∧
      ∃ l ∈ A.asked er ro, Bad ro l) * 2 ^ 512 ≤ T * K * (2 ^ 512) ^ D.card := by
  -- the `j`-th query, if it is a new one
  let sel : Nat → (D → Vector UInt8 64) → Option {l : List E // l.map er ∈ D} := fun j f =>
    if h : ∃ l : {l : List E // l.map er ∈ D}, (A.asked er (patch ro D f))[j]? = some l.1 ∧
        ∀ l' ∈ (A.asked er (patch ro D f)).take j, l'.map er ≠ l.1.map er then some h.choose else none
  have sel_spec : ∀ j f (l : {l : List E // l.map er ∈ D}), sel j f = some l ↔
      (A.asked er (patch ro D f))[j]? = some l.1 ∧
        ∀ l' ∈ (A.asked er (patch ro D f)).take j, l'.map er ≠ l.1.map er := by
    intro j f l
    constructor
    · intro h
      simp only [sel] at h
      split at h
      · rename_i h'
        have := h'.choose_spec
        rw [Option.some.inj h] at this
        exact this
      · simp at h
    · intro h
      simp only [sel]
      have h' : ∃ l : {l : List E // l.map er ∈ D}, (A.asked er (patch ro D f))[j]? = some l.1 ∧
        ∀ l' ∈ (A.asked er (patch ro D f)).take j, l'.map er ≠ l.1.map er := ⟨l, h⟩
      rw [dif_pos h']
      exact congrArg some (Subtype.ext (Option.some.inj (h'.choose_spec.1.symm.trans h.1)))
  let X : Nat → Finset (D → Vector UInt8 64) := fun j =>
    Finset.univ.filter fun f => ∃ l, sel j f = some l ∧ Bad (patch ro D f) l.1
  have hX : ∀ j, (X j).card * 2 ^ 512 ≤ K * (2 ^ 512) ^ D.card := by
    intro j
    have := resample (sel j) (fun l => ⟨l.1.map er, l.2⟩) (fun f l => Bad (patch ro D f) l.1) K
      (by
        intro f l v h
        rw [sel_spec] at h ⊢
        rw [patch_update]
        have hu := Algo.asked_update er (patch ro D f) v A j l.1 h.1 h.2
        refine ⟨?_, ?_⟩
        · have := congrArg (·[j]?) hu
          simp only [List.getElem?_take, Nat.lt_succ_self, if_true] at this
          rw [this, h.1]
        · have := congrArg (List.take j) hu
          rw [List.take_take, List.take_take, Nat.min_eq_left (by omega)] at this
          rw [this]
          exact h.2)
      (by
        intro f l
        simp only [patch_update]
        exact hBad _ _)
    rwa [card_bytes, Fintype.card_fun, card_bytes, Fintype.card_coe] at this
  have hsub : countHashes ro D (fun ro => (∀ l ∈ A.asked er ro, ∀ l' ∈ A.asked er ro,
      l.map er = l'.map er → l = l') ∧ ∃ l ∈ A.asked er ro, Bad ro l) ≤
      ((Finset.range T).biUnion X).card := by
    unfold countHashes
    rw [Nat.card_eq_fintype_card, Fintype.card_subtype]
    apply Finset.card_le_card
    intro f hf
    simp only [Finset.mem_filter, Finset.mem_univ, true_and] at hf
    obtain ⟨hc, l, hl, hbad⟩ := hf
    rw [Finset.mem_biUnion]
    -- the first query with this history
    have hex : ∃ j : Nat, ∃ l' : List E, (A.asked er (patch ro D f))[j]? = some l' ∧ l'.map er = l.map er := by
      obtain ⟨j, hj⟩ := List.mem_iff_getElem?.1 hl
      exact ⟨j, l, hj, rfl⟩
    obtain ⟨l', hj, hl'⟩ := Nat.find_spec hex
    have hmin := fun m (hm : m < Nat.find hex) => Nat.find_min hex hm
    set j := Nat.find hex
    have : l' = l := hc l' (List.mem_of_getElem? hj) l hl hl'
    subst this
    refine ⟨j, ?_, ?_⟩
    · rw [Finset.mem_range]
      have h1 := Algo.asked_length er (patch ro D f) A T hT
      obtain ⟨h2, -⟩ := List.getElem?_eq_some_iff.1 hj
      omega
    · simp only [X, Finset.mem_filter, Finset.mem_univ, true_and]
      refine ⟨⟨l', hD f l' hl⟩, ?_, hbad⟩
      rw [sel_spec]
      refine ⟨hj, ?_⟩
      intro l'' hl'' he
      obtain ⟨m, hm⟩ := List.mem_iff_getElem?.1 hl''
      rw [List.getElem?_take] at hm
      split at hm
      · rename_i hmj
        exact hmin m hmj ⟨l'', hm, he⟩
      · simp at hm
  calc _ ≤ ((Finset.range T).biUnion X).card * 2 ^ 512 := Nat.mul_le_mul_right _ hsub
    _ ≤ (∑ j ∈ Finset.range T, (X j).card) * 2 ^ 512 := Nat.mul_le_mul_right _ Finset.card_biUnion_le
    _ = ∑ j ∈ Finset.range T, (X j).card * 2 ^ 512 := Finset.sum_mul ..
    _ ≤ ∑ _j ∈ Finset.range T, K * (2 ^ 512) ^ D.card := Finset.sum_le_sum fun j _ => hX j
    _ = T * K * (2 ^ 512) ^ D.card := by rw [Finset.sum_const, Finset.card_range, smul_eq_mul, mul_assoc]

end

end Qesa.Spec
