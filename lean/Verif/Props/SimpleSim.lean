import Verif.Props.Completeness
import Verif.Props.SimpleZk
import Verif.Proofs.FsCore
import Verif.SpecSim
/- C79: `simple_zk` is perfectly zero knowledge in the random-oracle model. -/
namespace Qesa.Props
open Qesa Spec Lmpa

variable {F G : Type} [Field F] [AddCommGroup G] [Module F G]

/-- The first message of the simulator: `A z - beta t`. -/
def simA (A : List (List G)) (t : List G) {n : Nat} (z : Fin n → F) (v : Vector UInt8 64) : List G :=
  List.zipWith (fun row t => dot (List.ofFn z) row - ((leNat v.toList : Nat) : F) • t) A t

/-- The history at which it programs the hash function. -/
def simHistory (cd : Codec G) (log : List Event) (A : List (List G)) (t : List G) {n : Nat} (z : Fin n → F)
    (v : Vector UInt8 64) : List Event :=
  log ++ ((simA A t z v).map fun P => .msg "a" (cd.compress P)) ++ [.chal "beta" 64]

/-- The simulated hash function: it answers `v` at that history. -/
def simHash (cd : Codec G) (log : List Event) (A : List (List G)) (t : List G) {n : Nat} (ro : Hash)
    (z : Fin n → F) (v : Vector UInt8 64) : Hash :=
  program ro (simHistory cd log A t z v) v

/-- The simulated proof (and transcript): `no_zk::create` on the random vector `z`. The witness is not used. -/
def simProof (cd : Codec G) (fuel : Nat) (log : List Event) (A : List (List G)) (Gs t : List G) {n : Nat}
    (ro : Hash) (z : Fin n → F) (v : Vector UInt8 64) : R (SimpleZK F G × Transcript) :=
  (Lmpa.create ⟨cd, simHash cd log A t ro z v⟩ fuel ⟨simHistory cd log A t z v⟩ A Gs (List.ofFn z)).map
    fun x => (⟨x.1, simA A t z v⟩, x.2)

theorem patch_update (ro : Hash) (D : Finset (List Event)) (f : D → Vector UInt8 64) (h : D)
    (v : Vector UInt8 64) : patch ro D (Function.update f h v) = program (patch ro D f) h.1 v := by
  funext l
  unfold patch program
  by_cases e : l = h.1
  · subst e
    rw [dif_pos h.2]
    simp
  · rw [Function.update_of_ne e]
    by_cases hl : l ∈ D
    · rw [dif_pos hl, dif_pos hl, Function.update_of_ne]
      intro he
      exact e (congrArg Subtype.val he)
    · rw [dif_neg hl, dif_neg hl]

omit [Field F] in
theorem tapeOf_first {n : Nat} (rest : Tape F) (r : Fin n → F) :
    (List.ofFn fun i : Fin n => tapeOf rest r i) = List.ofFn r := by
  congr 1
  funext i
  simp [tapeOf]

/-- `A (r + c w) - c t = A r`. -/
theorem simA_shift (A : List (List G)) {n : Nat} (w r : Fin n → F) (v : Vector UInt8 64) :
    simA A (A.map fun row => dot (List.ofFn w) row) (fun i => ((leNat v.toList : Nat) : F) * w i + r i) v =
      A.map fun row => dot (List.ofFn r) row := by
  unfold simA
  rw [List.zipWith_map_right, List.zipWith_self]
  apply List.map_congr_left
  intro row _
  have h := dot_comb_left (((leNat v.toList : Nat) : F)) 1 row (s := List.ofFn w) (s' := List.ofFn r) (by simp)
  rw [zipWith_ofFn] at h
  simp only [one_mul, one_smul] at h
  rw [h]
  abel

/-- C79: perfect zero knowledge of `simple_zk` in the random-oracle model. For every event `E` that depends on
the hash function and on the result of the prover (proof, transcript, panic) the probability is the same for the
prover with witness `w`, random tape and random hash function, and for the simulator, which gets `t = A w` instead
of `w` and chooses one value of the hash function. -/
theorem C79_simple_zero_knowledge [Fintype F] (cd : Codec G) (fuel : Nat) (log : List Event) (A : List (List G))
    (Gs : List G) {n : Nat} (hG : Gs.length = n) (w : Fin n → F) :
    ∃ D0 : Finset (List Event), ∀ D, D0 ⊆ D → ∀ (ro : Hash) (rest : Tape F)
      (E : Hash → R (SimpleZK F G × Transcript) → Prop),
      chanceBoth ro D rest n (fun ro τ => E ro ((createSimple ⟨cd, ro⟩ fuel ⟨log⟩ τ A Gs (List.ofFn w)).map
        fun x => (x.1, x.2.1))) =
      chanceSim ro D n fun ro z v => E (simHash cd log A (A.map fun row => dot (List.ofFn w) row) ro z v)
        (simProof cd fuel log A Gs (A.map fun row => dot (List.ofFn w) row) ro z v) := by
  classical
  subst hG
  set t := A.map fun row => dot (List.ofFn w) row with ht
  let hist : (Fin Gs.length → F) → List Event := fun r =>
    log ++ ((A.map fun row => dot (List.ofFn r) row).map fun P => .msg "a" (cd.compress P)) ++ [.chal "beta" 64]
  refine ⟨Finset.univ.image hist, fun D hD ro rest E => ?_⟩
  have hm : ∀ r, hist r ∈ D := fun r => hD (Finset.mem_image_of_mem _ (Finset.mem_univ _))
  let val : Vector UInt8 64 → F := fun v => ((leNat v.toList : Nat) : F)
  have hsim : ∀ r v, simHistory cd log A t (fun i => val v * w i + r i) v = hist r := by
    intro r v
    unfold simHistory
    rw [ht, simA_shift]
  let e : ((D → Vector UInt8 64) × (Fin Gs.length → F)) × Vector UInt8 64 ≃
      (D → Vector UInt8 64) × (Fin Gs.length → F) × Vector UInt8 64 :=
    { toFun := fun x => (Function.update x.1.1 ⟨hist x.1.2, hm _⟩ x.2,
        fun i => val (x.1.1 ⟨hist x.1.2, hm _⟩) * w i + x.1.2 i, x.1.1 ⟨hist x.1.2, hm _⟩)
      invFun := fun s => ((Function.update s.1 ⟨hist fun i => s.2.1 i - val s.2.2 * w i, hm _⟩ s.2.2,
        fun i => s.2.1 i - val s.2.2 * w i), s.1 ⟨hist fun i => s.2.1 i - val s.2.2 * w i, hm _⟩)
      left_inv := by
        rintro ⟨⟨f, r⟩, u⟩
        simp
      right_inv := by
        rintro ⟨f, z, v⟩
        simp }
  have key : ∀ x : ((D → Vector UInt8 64) × (Fin Gs.length → F)) × Vector UInt8 64,
      (E (patch ro D x.1.1) ((createSimple ⟨cd, patch ro D x.1.1⟩ fuel ⟨log⟩ (tapeOf rest x.1.2) A Gs
        (List.ofFn w)).map fun x => (x.1, x.2.1))) ↔
      E (simHash cd log A t (patch ro D (e x).1) (e x).2.1 (e x).2.2)
        (simProof cd fuel log A Gs t (patch ro D (e x).1) (e x).2.1 (e x).2.2) := by
    rintro ⟨⟨f, r⟩, u⟩
    have h1 : simHash cd log A t (patch ro D (e ((f, r), u)).1) (e ((f, r), u)).2.1 (e ((f, r), u)).2.2 =
        patch ro D f := by
      unfold simHash
      change program (patch ro D (Function.update f ⟨hist r, hm _⟩ u))
        (simHistory cd log A t (fun i => val (f ⟨hist r, hm _⟩) * w i + r i) (f ⟨hist r, hm _⟩))
        (f ⟨hist r, hm _⟩) = _
      rw [hsim, patch_update, program, program, Function.update_idem]
      apply Function.update_eq_self_iff.2
      simp [patch, hm r]
    unfold simProof
    rw [h1]
    change _ ↔ E _ ((Lmpa.create ⟨cd, patch ro D f⟩ fuel
      ⟨simHistory cd log A t (fun i => val (f ⟨hist r, hm _⟩) * w i + r i) (f ⟨hist r, hm _⟩)⟩ A Gs
      (List.ofFn fun i => val (f ⟨hist r, hm _⟩) * w i + r i)).map fun x =>
        (⟨x.1, simA A t (fun i => val (f ⟨hist r, hm _⟩) * w i + r i) (f ⟨hist r, hm _⟩)⟩, x.2))
    rw [hsim, ht, simA_shift, createSimple_eq]
    dsimp only
    rw [tapeOf_first]
    have hβ : simpleBeta F (⟨cd, patch ro D f⟩ : Ctx G) log (A.map fun row => dot (List.ofFn r) row) =
        val (f ⟨hist r, hm _⟩) := by
      unfold simpleBeta squeeze
      change ((leNat (patch ro D f (hist r)).toList : Nat) : F) = _
      simp [patch, hm r, val]
    rw [hβ, zipWith_ofFn]
    apply iff_of_eq
    congr 1
    change Except.map _ (Except.map _ (Lmpa.create _ fuel ⟨hist r⟩ A Gs _)) = _
    cases Lmpa.create ⟨cd, patch ro D f⟩ fuel ⟨hist r⟩ A Gs
      (List.ofFn fun i => val (f ⟨hist r, hm _⟩) * w i + r i) <;> rfl
  have hc : Nat.card {s : (D → Vector UInt8 64) × (Fin Gs.length → F) × Vector UInt8 64 //
        E (simHash cd log A t (patch ro D s.1) s.2.1 s.2.2) (simProof cd fuel log A Gs t (patch ro D s.1) s.2.1 s.2.2)} =
      Nat.card {x : (D → Vector UInt8 64) × (Fin Gs.length → F) //
        E (patch ro D x.1) ((createSimple ⟨cd, patch ro D x.1⟩ fuel ⟨log⟩ (tapeOf rest x.2) A Gs
          (List.ofFn w)).map fun x => (x.1, x.2.1))} * Nat.card (Vector UInt8 64) := by
    rw [← Nat.card_prod]
    refine Nat.card_congr ((e.subtypeEquiv key).symm.trans ?_)
    exact
      { toFun := fun z => (⟨z.1.1, z.2⟩, z.1.2)
        invFun := fun z => ⟨(z.1.1, z.2), z.1.2⟩
        left_inv := fun _ => rfl
        right_inv := fun _ => rfl }
  unfold chanceBoth chanceSim
  rw [hc, Nat.card_eq_fintype_card (α := Vector UInt8 64), card_bytes, Nat.cast_mul, Nat.cast_pow, Nat.cast_ofNat]
  rw [mul_div_mul_right _ _ (by positivity)]

/-- C79: simulated proofs are accepted, also for false statements: every target `t` will do. -/
theorem C79_simulated_accepted [DecidableEq G] (cd : Codec G) (q fuel : Nat) (log : List Event)
    (A : List (List G)) (Gs t : List G) (hA0 : A ≠ []) (hA : Width (2 ^ q) A) (hG : Gs.length = 2 ^ q)
    (ht : t.length = A.length) (hf : q < fuel) (ro : Hash) (z : Fin (2 ^ q) → F) (v : Vector UInt8 64) :
    ∃ p tr', simProof cd fuel log A Gs t ro z v = .ok (p, tr') ∧
      p.verify ⟨cd, simHash cd log A t ro z v⟩ fuel ⟨log⟩ A Gs (2 ^ q) t = .ok (true, tr') := by
  obtain ⟨p, tr', h1, h2⟩ := C42_lmpa_completeness ⟨cd, simHash cd log A t ro z v⟩ q fuel
    ⟨simHistory cd log A t z v⟩ A Gs (List.ofFn z) hA0 hA (by simp) hG hf
  refine ⟨⟨p, simA A t z v⟩, tr', by unfold simProof; rw [h1]; rfl, ?_⟩
  rw [simple_verify_eq]
  dsimp only
  change p.verify _ fuel ⟨simHistory cd log A t z v⟩ A Gs (2 ^ q) _ = _
  rw [← h2, hG]
  congr 1
  have hβ : simpleBeta F (⟨cd, simHash cd log A t ro z v⟩ : Ctx G) log (simA A t z v) =
      ((leNat v.toList : Nat) : F) := by
    unfold simpleBeta squeeze simHash program
    change ((leNat (Function.update ro (simHistory cd log A t z v) v (simHistory cd log A t z v)).toList : Nat) : F) = _
    rw [Function.update_self]
  rw [hβ]
  apply List.ext_getElem
  · simp [simA, ht]
  · intro i h3 h4
    simp [simA]

/-! ### Statements that the adversary chooses after hash queries -/

theorem simHash_real (cd : Codec G) (log : List Event) (A : List (List G)) {n : Nat} (w r : Fin n → F) (ro : Hash)
    (u v : Vector UInt8 64) (hv : v = ro (log ++ ((A.map fun row => dot (List.ofFn r) row).map fun P =>
      .msg "a" (cd.compress P)) ++ [.chal "beta" 64])) :
    simHash cd log A (A.map fun row => dot (List.ofFn w) row) (program ro (log ++ ((A.map fun row =>
      dot (List.ofFn r) row).map fun P => .msg "a" (cd.compress P)) ++ [.chal "beta" 64]) u)
      (fun i => ((leNat v.toList : Nat) : F) * w i + r i) v = ro := by
  unfold simHash simHistory
  rw [simA_shift, program, program, Function.update_idem, hv, Function.update_eq_self]

theorem simProof_real (cd : Codec G) (fuel : Nat) (log : List Event) (A : List (List G)) (Gs : List G) {n : Nat}
    (hG : Gs.length = n) (w r : Fin n → F) (ro : Hash) (rest : Tape F) (u v : Vector UInt8 64)
    (hv : v = ro (log ++ ((A.map fun row => dot (List.ofFn r) row).map fun P =>
      .msg "a" (cd.compress P)) ++ [.chal "beta" 64])) :
    simProof cd fuel log A Gs (A.map fun row => dot (List.ofFn w) row) (program ro (log ++ ((A.map fun row =>
      dot (List.ofFn r) row).map fun P => .msg "a" (cd.compress P)) ++ [.chal "beta" 64]) u)
      (fun i => ((leNat v.toList : Nat) : F) * w i + r i) v =
    (createSimple ⟨cd, ro⟩ fuel ⟨log⟩ (tapeOf rest r) A Gs (List.ofFn w)).map fun x => (x.1, x.2.1) := by
  subst hG
  unfold simProof
  rw [simHash_real cd log A w r ro u v hv]
  unfold simHistory
  rw [simA_shift, createSimple_eq]
  dsimp only
  rw [tapeOf_first]
  have hβ : simpleBeta F (⟨cd, ro⟩ : Ctx G) log (A.map fun row => dot (List.ofFn r) row) =
      ((leNat v.toList : Nat) : F) := by rw [hv]; rfl
  rw [hβ, zipWith_ofFn]
  change _ = Except.map _ (Except.map _ (Lmpa.create _ fuel ⟨log ++ ((A.map fun row =>
      dot (List.ofFn r) row).map fun P => .msg "a" (cd.compress P)) ++ [.chal "beta" 64]⟩ A Gs _))
  cases Lmpa.create ⟨cd, ro⟩ fuel ⟨log ++ ((A.map fun row =>
      dot (List.ofFn r) row).map fun P => .msg "a" (cd.compress P)) ++ [.chal "beta" 64]⟩ A Gs
    (List.ofFn fun i => ((leNat v.toList : Nat) : F) * w i + r i) <;> rfl

/-- What the adversary chooses: transcript history, matrix, generators and witness. -/
structure SimpleClaim (F G : Type) (n : Nat) where
  log : List Event
  A : List (List G)
  Gs : List G
  w : Fin n → F

/-- The target. -/
def SimpleClaim.t {n : Nat} (c : SimpleClaim F G n) : List G := c.A.map fun row => dot (List.ofFn c.w) row

/-- A history is hit by few random vectors. -/
theorem card_hit [Fintype F] (cd : Codec G) (log : List Event) (A : List (List G)) (t : List G) {n : Nat}
    (β : F) (row : List G) (hrow : row ∈ A) (d : Fin n → F) (hd : dot (List.ofFn d) row ≠ 0)
    (ht : t.length = A.length) (L : List (List Event)) :
    Nat.card {z : Fin n → F // log ++ ((List.zipWith (fun row t => dot (List.ofFn z) row - β • t) A t).map
      fun P => .msg "a" (cd.compress P)) ++ [.chal "beta" 64] ∈ L} * Nat.card F ≤
      L.length * Nat.card (Fin n → F) := by
  classical
  induction L with
  | nil => simp
  | cons l L ih =>
    simp only [List.mem_cons, List.length_cons]
    have h1 := card_line (F := F) d (fun z : Fin n → F => log ++ ((List.zipWith (fun row t =>
      dot (List.ofFn z) row - β • t) A t).map fun P => .msg "a" (cd.compress P)) ++ [.chal "beta" 64] = l) 1 ?_
    · have h2 := Nat.mul_le_mul_right (Nat.card F) (card_or (fun z : Fin n → F => log ++ ((List.zipWith
        (fun row t => dot (List.ofFn z) row - β • t) A t).map fun P => .msg "a" (cd.compress P)) ++
        [.chal "beta" 64] = l) (fun z : Fin n → F => log ++ ((List.zipWith
        (fun row t => dot (List.ofFn z) row - β • t) A t).map fun P => .msg "a" (cd.compress P)) ++
        [.chal "beta" 64] ∈ L))
      refine h2.trans ?_
      rw [add_mul, add_mul, add_comm]
      exact add_le_add ih h1
    · intro z
      have : Subsingleton {y : F // log ++ ((List.zipWith (fun row t => dot (List.ofFn (z + y • d)) row - β • t)
          A t).map fun P => .msg "a" (cd.compress P)) ++ [.chal "beta" 64] = l} := by
        refine ⟨fun x y => Subtype.ext ?_⟩
        have e := x.2.trans y.2.symm
        rw [List.append_cancel_right_eq, List.append_cancel_left_eq] at e
        obtain ⟨i, hi, rfl⟩ := List.getElem_of_mem hrow
        have e' := congrArg (fun l => l[i]?) e
        simp only [List.getElem?_map, List.getElem?_zipWith, List.getElem?_eq_getElem hi,
          List.getElem?_eq_getElem (ht.symm ▸ hi : i < t.length), Option.map_some, Option.some.injEq,
          Event.msg.injEq, true_and] at e'
        have e2 := congrArg cd.decompress e'
        rw [cd.decompress_compress, cd.decompress_compress, Option.some.injEq, sub_left_inj] at e2
        have lin : ∀ y : F, dot (List.ofFn (z + y • d)) A[i] =
            dot (List.ofFn z) A[i] + y • dot (List.ofFn d) A[i] := by
          intro y
          have h := dot_comb_left 1 y A[i] (s := List.ofFn z) (s' := List.ofFn d) (by simp)
          rw [zipWith_ofFn] at h
          simp only [one_mul, one_smul] at h
          exact h
        rw [lin, lin, add_right_inj] at e2
        by_contra hne
        have := sub_eq_zero.2 e2
        rw [← sub_smul] at this
        rcases smul_eq_zero.1 this with h | h
        · exact hne (sub_eq_zero.1 h)
        · exact hd h
      exact Finite.card_le_one_iff_subsingleton.2 this

/-- An algorithm does not notice a change at a history it does not ask for. -/
theorem unasked {α : Type} (ro : Hash) (l : List Event) (v : Vector UInt8 64) : ∀ P : Algo Event α,
    l ∉ P.asked id ro → P.run id (program ro l v) = P.run id ro ∧ P.asked id (program ro l v) = P.asked id ro
  | .done _, _ => ⟨rfl, rfl⟩
  | .ask log next, h => by
    rw [Algo.asked, List.mem_cons, not_or] at h
    have e : program ro l v (log.map id) = ro (log.map id) := by
      rw [List.map_id]
      exact Function.update_of_ne (Ne.symm h.1) _ _
    obtain ⟨h1, h2⟩ := unasked ro l v (next (ro (log.map id))) h.2
    rw [Algo.run, Algo.run, Algo.asked, Algo.asked, e, h1, h2]
    exact ⟨rfl, rfl⟩

theorem card_transfer {X Y : Type} [Finite X] [Finite Y] (gx P : X → Prop) (gy Q : Y → Prop)
    (e : {x // gx x} ≃ {y // gy y}) (h : ∀ x, P x.1 ↔ Q (e x).1) :
    Nat.card {x // P x} ≤ Nat.card {y // Q y} + Nat.card {x // ¬ gx x} := by
  have h1 : Nat.card {x // P x} ≤ Nat.card {x // gx x ∧ P x} + Nat.card {x // ¬ gx x} :=
    (card_imp fun x hx => by by_cases hg : gx x; exact Or.inl ⟨hg, hx⟩; exact Or.inr hg).trans
      (card_or (fun x => gx x ∧ P x) fun x => ¬ gx x)
  refine h1.trans (Nat.add_le_add_right ?_ _)
  refine Nat.card_le_card_of_injective (fun x : {x // gx x ∧ P x} =>
    (⟨(e ⟨x.1, x.2.1⟩).1, (h ⟨x.1, x.2.1⟩).1 x.2.2⟩ : {y // Q y})) ?_
  intro x y hxy
  simp only [Subtype.mk.injEq] at hxy
  have := e.injective (Subtype.ext hxy)
  simp only [Subtype.mk.injEq] at this
  exact Subtype.ext this

theorem div_bound {R S b1 b2 T f M : ℕ} (hM : 0 < M) (hf : 0 < f) (h1 : R ≤ S + b1) (h2 : S ≤ R + b2)
    (hb1 : b1 * f ≤ T * M) (hb2 : b2 * f ≤ T * M) : |((R : ℚ) / M) - (S : ℚ) / M| ≤ (T : ℚ) / f := by
  have hM' : (0 : ℚ) < M := by exact_mod_cast hM
  have hf' : (0 : ℚ) < f := by exact_mod_cast hf
  rw [← sub_div, abs_div, abs_of_pos hM', div_le_div_iff₀ hM' hf']
  have e1 : (R : ℚ) ≤ S + b1 := by exact_mod_cast h1
  have e2 : (S : ℚ) ≤ R + b2 := by exact_mod_cast h2
  have e3 : (b1 : ℚ) * f ≤ T * M := by exact_mod_cast hb1
  have e4 : (b2 : ℚ) * f ≤ T * M := by exact_mod_cast hb2
  rcases abs_cases ((R : ℚ) - S) with ⟨h, -⟩ | ⟨h, -⟩ <;> rw [h]
  · refine le_trans (mul_le_mul_of_nonneg_right (by linarith) hf'.le) e3
  · refine le_trans (mul_le_mul_of_nonneg_right (by linarith) hf'.le) e4

/-- C79: the same for statements chosen by an adversary `P` after at most `T` hash queries (`claim` reads off the
statement and the witness from its result, which is also passed on to the event). The matrix must not be zero. The
simulator changes the hash function after `P` has made its queries. The probabilities differ by at most
`T / |F|`. -/
theorem C79_adaptive_zero_knowledge [Fintype F] {α : Type} (cd : Codec G) (fuel : Nat) {n T : Nat}
    (P : Algo Event α) (hT : P.AtMost T) (claim : α → SimpleClaim F G n) (hG : ∀ a, (claim a).Gs.length = n)
    (hA : ∀ a, ∃ row ∈ (claim a).A, ∃ d : Fin n → F, dot (List.ofFn d) row ≠ 0) :
    ∃ D0 : Finset (List Event), ∀ D, D0 ⊆ D → ∀ (ro : Hash) (rest : Tape F)
      (E : Hash → α → R (SimpleZK F G × Transcript) → Prop),
      |chanceBoth ro D rest n (fun ro τ => let c := claim (P.run id ro)
          E ro (P.run id ro) ((createSimple ⟨cd, ro⟩ fuel ⟨c.log⟩ τ c.A c.Gs (List.ofFn c.w)).map
            fun x => (x.1, x.2.1))) -
        chanceSim ro D n fun ro z v => let c := claim (P.run id ro)
          E (simHash cd c.log c.A c.t ro z v) (P.run id ro) (simProof cd fuel c.log c.A c.Gs c.t ro z v)| ≤
      T / Fintype.card F := by
  classical
  let hist : α → (Fin n → F) → List Event := fun a r => (claim a).log ++ (((claim a).A.map fun row =>
    dot (List.ofFn r) row).map fun P => .msg "a" (cd.compress P)) ++ [.chal "beta" 64]
  let val : Vector UInt8 64 → F := fun v => ((leNat v.toList : Nat) : F)
  obtain ⟨D0, hD0⟩ := exists_domain (E := Event) id (fun _ a => (Finset.univ : Finset (Fin n → F)).toList.map (hist a))
    (fun a => by
      simp only [exists_const]
      exact List.finite_toSet _) P
  refine ⟨D0, fun D hD ro rest E => ?_⟩
  have hm : ∀ ro r, hist (P.run id ro) r ∈ D := fun ro r =>
    hD ((hD0 ro).2 _ (List.mem_map_of_mem (Finset.mem_toList.2 (Finset.mem_univ r))))
  have hsim : ∀ a z v, simHistory cd (claim a).log (claim a).A (claim a).t z v =
      hist a fun i => z i - val v * (claim a).w i := by
    intro a z v
    have : z = fun i => val v * (claim a).w i + (z i - val v * (claim a).w i) := by funext i; ring
    conv_lhs => rw [this]
    unfold simHistory SimpleClaim.t
    rw [simA_shift]
  let run : (D → Vector UInt8 64) → α := fun f => P.run id (patch ro D f)
  let asked : (D → Vector UInt8 64) → List (List Event) := fun f => P.asked id (patch ro D f)
  have hun : ∀ f r u, hist (run f) r ∉ asked f →
      run (Function.update f ⟨hist (run f) r, hm _ _⟩ u) = run f ∧
      asked (Function.update f ⟨hist (run f) r, hm _ _⟩ u) = asked f := by
    intro f r u h
    simp only [run, asked, patch_update]
    exact unasked _ _ _ P h
  let gx : ((D → Vector UInt8 64) × (Fin n → F)) × Vector UInt8 64 → Prop := fun x =>
    hist (run x.1.1) x.1.2 ∉ asked x.1.1
  let gy : (D → Vector UInt8 64) × (Fin n → F) × Vector UInt8 64 → Prop := fun s =>
    hist (run s.1) (fun i => s.2.1 i - val s.2.2 * (claim (run s.1)).w i) ∉ asked s.1
  let fwd : ((D → Vector UInt8 64) × (Fin n → F)) × Vector UInt8 64 →
      (D → Vector UInt8 64) × (Fin n → F) × Vector UInt8 64 := fun x =>
    (Function.update x.1.1 ⟨hist (run x.1.1) x.1.2, hm _ _⟩ x.2,
      fun i => val (x.1.1 ⟨hist (run x.1.1) x.1.2, hm _ _⟩) * (claim (run x.1.1)).w i + x.1.2 i,
      x.1.1 ⟨hist (run x.1.1) x.1.2, hm _ _⟩)
  let fro : (D → Vector UInt8 64) × (Fin n → F) × Vector UInt8 64 →
      ((D → Vector UInt8 64) × (Fin n → F)) × Vector UInt8 64 := fun s =>
    ((Function.update s.1 ⟨hist (run s.1) fun i => s.2.1 i - val s.2.2 * (claim (run s.1)).w i, hm _ _⟩ s.2.2,
      fun i => s.2.1 i - val s.2.2 * (claim (run s.1)).w i),
      s.1 ⟨hist (run s.1) fun i => s.2.1 i - val s.2.2 * (claim (run s.1)).w i, hm _ _⟩)
  have hto : ∀ x, gx x → gy (fwd x) ∧ fro (fwd x) = x := by
    rintro ⟨⟨f, r⟩, u⟩ h
    obtain ⟨h1, h2⟩ := hun f r u h
    simp only [gy, fwd, fro, h1, h2, add_sub_cancel_left]
    refine ⟨h, ?_⟩
    simp
  have hfro : ∀ s, gy s → gx (fro s) ∧ fwd (fro s) = s := by
    rintro ⟨f, z, v⟩ h
    obtain ⟨h1, h2⟩ := hun f _ v h
    simp only [gx, fwd, fro, h1, h2]
    refine ⟨h, ?_⟩
    simp
  let e : {x // gx x} ≃ {s // gy s} :=
    { toFun := fun x => ⟨fwd x.1, (hto x.1 x.2).1⟩
      invFun := fun s => ⟨fro s.1, (hfro s.1 s.2).1⟩
      left_inv := fun x => Subtype.ext (hto x.1 x.2).2
      right_inv := fun s => Subtype.ext (hfro s.1 s.2).2 }
  let PR : ((D → Vector UInt8 64) × (Fin n → F)) × Vector UInt8 64 → Prop := fun x =>
    E (patch ro D x.1.1) (run x.1.1) ((createSimple ⟨cd, patch ro D x.1.1⟩ fuel ⟨(claim (run x.1.1)).log⟩
      (tapeOf rest x.1.2) (claim (run x.1.1)).A (claim (run x.1.1)).Gs (List.ofFn (claim (run x.1.1)).w)).map
        fun x => (x.1, x.2.1))
  let PS : (D → Vector UInt8 64) × (Fin n → F) × Vector UInt8 64 → Prop := fun s =>
    E (simHash cd (claim (run s.1)).log (claim (run s.1)).A (claim (run s.1)).t (patch ro D s.1) s.2.1 s.2.2)
      (run s.1) (simProof cd fuel (claim (run s.1)).log (claim (run s.1)).A (claim (run s.1)).Gs
        (claim (run s.1)).t (patch ro D s.1) s.2.1 s.2.2)
  have hPP : ∀ x : {x // gx x}, PR x.1 ↔ PS (e x).1 := by
    rintro ⟨⟨⟨f, r⟩, u⟩, h⟩
    obtain ⟨h1, h2⟩ := hun f r u h
    have hv : f ⟨hist (run f) r, hm _ _⟩ = patch ro D f (hist (run f) r) := by
      have := hm (patch ro D f) r
      simp only [patch]
      rw [dif_pos this]
    change PR ((f, r), u) ↔ PS (fwd ((f, r), u))
    simp only [PR, PS, fwd, h1]
    rw [patch_update]
    apply iff_of_eq
    have e1 := simHash_real cd (claim (run f)).log (claim (run f)).A (claim (run f)).w r (patch ro D f) u _ hv
    have e2 := simProof_real cd fuel (claim (run f)).log (claim (run f)).A (claim (run f)).Gs (hG _)
      (claim (run f)).w r (patch ro D f) rest u _ hv
    unfold SimpleClaim.t
    rw [← e2]
    exact congrArg (fun h => E h _ _) e1.symm
  have hbx : Nat.card {x // ¬ gx x} * Nat.card F ≤ T * (Nat.card (D → Vector UInt8 64) * Nat.card (Fin n → F) *
      Nat.card (Vector UInt8 64)) := by
    have := card_joint_left (X := (D → Vector UInt8 64) × (Fin n → F)) (Y := Vector UInt8 64) (fun x => ¬ gx x)
      (Nat.card F) T fun u => by
        rw [Nat.card_prod]
        refine card_joint_right (fun x => ¬ gx (x, u)) (Nat.card F) T fun f => ?_
        obtain ⟨row, hrow, d, hd⟩ := hA (run f)
        have h1 := card_hit cd (claim (run f)).log (claim (run f)).A (claim (run f)).t (0 : F) row hrow d hd
          (by simp [SimpleClaim.t]) (asked f)
        refine le_trans (le_of_eq ?_) (h1.trans (Nat.mul_le_mul_right _ (Algo.asked_length id _ P T hT)))
        congr 1
        refine Nat.card_congr (Equiv.subtypeEquivRight fun z => ?_)
        simp only [gx, not_not, hist]
        rw [show (List.zipWith (fun row t => dot (List.ofFn z) row - (0 : F) • t) (claim (run f)).A
          (claim (run f)).t) = (claim (run f)).A.map fun row => dot (List.ofFn z) row by
            unfold SimpleClaim.t
            rw [List.zipWith_map_right, List.zipWith_self]
            simp]
    rwa [Nat.card_prod] at this
  have hby : Nat.card {s // ¬ gy s} * Nat.card F ≤ T * (Nat.card (D → Vector UInt8 64) * Nat.card (Fin n → F) *
      Nat.card (Vector UInt8 64)) := by
    have := card_joint_right (X := D → Vector UInt8 64) (Y := (Fin n → F) × Vector UInt8 64) (fun s => ¬ gy s)
      (Nat.card F) T fun f => by
        rw [Nat.card_prod]
        refine card_joint_left (fun s => ¬ gy (f, s)) (Nat.card F) T fun v => ?_
        obtain ⟨row, hrow, d, hd⟩ := hA (run f)
        have h1 := card_hit cd (claim (run f)).log (claim (run f)).A (claim (run f)).t (val v) row hrow d hd
          (by simp [SimpleClaim.t]) (asked f)
        refine le_trans (le_of_eq ?_) (h1.trans (Nat.mul_le_mul_right _ (Algo.asked_length id _ P T hT)))
        congr 1
        refine Nat.card_congr (Equiv.subtypeEquivRight fun z => ?_)
        simp only [gy, not_not]
        rw [← hsim]
        rfl
    rw [Nat.card_prod] at this
    rwa [mul_assoc (Nat.card (D → Vector UInt8 64))]
  have h1 := card_transfer gx PR gy PS e hPP
  have h2 := card_transfer gy PS gx PR e.symm fun s => by
    rw [hPP (e.symm s), Equiv.apply_symm_apply]
  have hM : 0 < Nat.card (D → Vector UInt8 64) * Nat.card (Fin n → F) * Nat.card (Vector UInt8 64) :=
    Nat.mul_pos (Nat.mul_pos Nat.card_pos Nat.card_pos) Nat.card_pos
  have key := div_bound hM (Nat.card_pos (α := F)) h1 h2 hbx hby
  have hprod : Nat.card {x // PR x} = Nat.card {x : (D → Vector UInt8 64) × (Fin n → F) //
      E (patch ro D x.1) (run x.1) ((createSimple ⟨cd, patch ro D x.1⟩ fuel ⟨(claim (run x.1)).log⟩
      (tapeOf rest x.2) (claim (run x.1)).A (claim (run x.1)).Gs (List.ofFn (claim (run x.1)).w)).map
        fun x => (x.1, x.2.1))} * Nat.card (Vector UInt8 64) := by
    rw [← Nat.card_prod]
    exact Nat.card_congr
      { toFun := fun z => (⟨z.1.1, z.2⟩, z.1.2)
        invFun := fun z => ⟨(z.1.1, z.2), z.1.2⟩
        left_inv := fun _ => rfl
        right_inv := fun _ => rfl }
  rw [hprod] at key
  have hV : Nat.card (Vector UInt8 64) = 2 ^ 512 := by rw [Nat.card_eq_fintype_card, card_bytes]
  have hD' : Nat.card (D → Vector UInt8 64) = (2 ^ 512) ^ D.card := by
    rw [Nat.card_fun, hV, Nat.card_eq_fintype_card, Fintype.card_coe]
  have hF : Nat.card (Fin n → F) = Nat.card F ^ n := by
    rw [Nat.card_fun, Nat.card_eq_fintype_card (α := Fin n), Fintype.card_fin]
  rw [hD', hF, hV] at key
  unfold chanceBoth chanceSim
  rw [← Nat.card_eq_fintype_card]
  simp only [Nat.cast_mul, Nat.cast_pow, Nat.cast_ofNat] at key
  rw [mul_div_mul_right _ _ (by positivity)] at key
  exact key

section
open Toy

/-- A simulated proof of the false statement `0 w = 5`: the verifier accepts it under the simulated hash function,
and rejects it under the original one. -/
example : (match simProof (F := K) codec 2 [] [[0, 0]] [1, 1] [5] cx.ro ![3, 4] (Vector.replicate 64 7) with
    | .ok (p, _) =>
      (p.verify ⟨codec, simHash codec [] [[0, 0]] [5] cx.ro ![(3 : K), 4] (Vector.replicate 64 7)⟩ 2 ⟨[]⟩ [[0, 0]] [1, 1]
        2 [5]).map Prod.fst == .ok true &&
      (p.verify cx 2 ⟨[]⟩ [[0, 0]] [1, 1] 2 [5]).map Prod.fst == .ok false
    | .error _ => false) = true := by
  decide +kernel

/-- The theorem for a true statement with two columns, and the event that the last scalar of the proof is 7. -/
example : ∃ D0 : Finset (List Event), ∀ D, D0 ⊆ D → ∀ (ro : Hash) (rest : Tape K),
    chanceBoth ro D rest 2 (fun ro τ => ∃ p tr' τ',
      createSimple ⟨codec, ro⟩ 2 ⟨[]⟩ τ [[2, 3]] [1, 1] (List.ofFn ![5, 6]) = .ok (p, tr', τ') ∧ p.no_zk.w = 7) =
    chanceSim ro D 2 fun ro (z : Fin 2 → K) v => ∃ p tr',
      simProof codec 2 [] [[2, 3]] [1, 1] [28] ro z v = .ok (p, tr') ∧ p.no_zk.w = 7 := by
  obtain ⟨D0, h⟩ := C79_simple_zero_knowledge codec 2 [] [[(2 : K), 3]] [1, 1] rfl ![(5 : K), 6]
  refine ⟨D0, fun D hD ro rest => ?_⟩
  have e : ∀ x : R (SimpleZK K K × Transcript × Tape K), (∃ p tr' τ', x = .ok (p, tr', τ') ∧ p.no_zk.w = 7) ↔
      ∃ p tr', (x.map fun x => (x.1, x.2.1)) = .ok (p, tr') ∧ p.no_zk.w = 7 := by
    rintro (e | ⟨p, tr', τ'⟩)
    · simp [Except.map]
    · simp [Except.map]
  simp only [e]
  exact h D hD ro rest fun _ x => ∃ p tr', x = .ok (p, tr') ∧ p.no_zk.w = 7
/-- An adversary with one query, which puts the answer into the matrix and the witness. -/
example : ∃ D0 : Finset (List Event), ∀ D, D0 ⊆ D → ∀ (ro : Hash) (rest : Tape K)
    (E : Hash → Vector UInt8 64 → R (SimpleZK K K × Transcript) → Prop),
    |chanceBoth ro D rest 2 (fun ro τ => E ro (ro []) ((createSimple ⟨codec, ro⟩ 2 ⟨[]⟩ τ
        [[1, squeeze K ro []]] [1, 1] (List.ofFn ![squeeze K ro [], 2])).map fun x => (x.1, x.2.1))) -
      chanceSim ro D 2 fun ro z v => let t := [dot (List.ofFn ![squeeze K ro [], 2]) [1, squeeze K ro []]]
        E (simHash codec [] [[1, squeeze K ro []]] t ro z v) (ro [])
          (simProof codec 2 [] [[1, squeeze K ro []]] [1, 1] t ro z v)| ≤ (1 : Nat) / Fintype.card K :=
  C79_adaptive_zero_knowledge (F := K) (G := K) (T := 1) codec 2 (.ask [] fun v => .done v) (fun _ => trivial)
    (fun v => ⟨[], [[1, ((leNat v.toList : Nat) : K)]], [1, 1], ![((leNat v.toList : Nat) : K), 2]⟩) (fun _ => rfl)
    fun v => ⟨_, List.mem_singleton.2 rfl, ![1, 0], by simp [dot]⟩
end

end Qesa.Props
