import Verif.Proofs.LmpaMachine
import Verif.Props.RandomOracle
import Verif.Props.LmpaSound
/-
C71: soundness of the linear-map arguments of src/lmpa in the random-oracle model.
-/
namespace Qesa.Props
open Qesa Spec Lmpa

/-! ### The generic statement -/
section
variable {F V E : Type} [Field F] [AddCommGroup V] [Module F V]

omit [AddCommGroup V] in
theorem lmpaQueries_length (pen : Pen V E) : ∀ (Ls Rs : List (List V)) (log : List E),
    (lmpaQueries pen log Ls Rs).length ≤ Ls.length
  | [], _, _ => by simp [lmpaQueries]
  | _ :: _, [], _ => by simp [lmpaQueries]
  | L :: Ls, R :: Rs, log => by
    rw [lmpaQueries, List.length_cons, List.length_cons]
    exact Nat.succ_le_succ (lmpaQueries_length pen Ls Rs _)

/-- The messages of the first `q` rounds are not empty. -/
def Rounds (q : Nat) (p : Lmpa.NoZK F V) : Prop :=
  q ≤ p.L_Vec.length ∧ q ≤ p.R_Vec.length ∧ (∀ L ∈ p.L_Vec.take q, L ≠ []) ∧ ∀ R ∈ p.R_Vec.take q, R ≠ []

theorem lmpa_core {α : Type} {q B T : Nat} {pen : Pen V E} (hpen : Readable pen) (er : E → Event)
    (row : List V) (t : V) (hrow : row.length = 2 ^ q) (hno : ¬ LinClaim F row t) (log : List E)
    (hB : ∀ c : F, Nat.card {v : Vector UInt8 64 // ((leNat v.toList : Nat) : F) = c} ≤ B)
    (A : Algo E α) (hT : A.AtMost T) (out : α → Lmpa.NoZK F V) (ro : Hash) (D : Finset (List Event))
    (hD : ∀ ro, ∀ l ∈ A.asked er ro ++ lmpaQueries pen log ((out (A.run er ro)).L_Vec.take q)
      ((out (A.run er ro)).R_Vec.take q), l.map er ∈ D) (Win : Hash → Prop)
    (hWin : ∀ ro, Win ro → let p := out (A.run er ro)
      (∀ l ∈ A.asked er ro ++ lmpaQueries pen log (p.L_Vec.take q) (p.R_Vec.take q),
        ∀ l' ∈ A.asked er ro ++ lmpaQueries pen log (p.L_Vec.take q) (p.R_Vec.take q),
        l.map er = l'.map er → l = l') ∧
      Rounds q p ∧ lmpaGap pen er ro log q row t p = 0) :
    countHashes ro D Win * 2 ^ 512 ≤ (T + q) * (2 * B) * (2 ^ 512) ^ D.card := by
  set qs : α → List (List E) := fun o =>
    lmpaQueries pen log ((out o).L_Vec.take q) ((out o).R_Vec.take q) with hqs
  have hask : ∀ ro, (A.andThen fun o => Algo.askAll o (qs o)).asked er ro =
      A.asked er ro ++ qs (A.run er ro) := by
    intro ro
    rw [Algo.asked_andThen, Algo'.askAll_asked]
  refine (linMachine_sound hpen).count er hB ro D (A.andThen fun o => Algo.askAll o (qs o)) (T + q) ?_ ?_
    (.rounds q row t) log (fun h => hno (h hrow)) Win ?_
  · exact Algo.andThen_atMost _ _ (fun o => Algo'.askAll_atMost _ _ _
      ((lmpaQueries_length ..).trans (List.length_take_le _ _))) _ _ hT
  · intro f l hl
    rw [hask] at hl
    exact hD (patch ro D f) l hl
  · intro ro hw
    obtain ⟨hc, ⟨h1, h2, h3, h4⟩, hg⟩ := hWin ro hw
    rw [hask]
    refine ⟨hc, ?_⟩
    obtain ⟨s', hp, hs⟩ := lin_rounds_path pen er ro (out (A.run er ro)).w q
      ((out (A.run er ro)).L_Vec.take q) ((out (A.run er ro)).R_Vec.take q) row t log (by simp [h1])
      (by simp [h2]) h3 h4 hrow (sub_eq_zero.1 hg)
    exact ⟨_, s', hp, hs, fun l h => List.mem_append_right _ h⟩

theorem simple_core {α : Type} {q B T : Nat} {pen : Pen V E} (hpen : Readable pen) (er : E → Event)
    (row : List V) (t : V) (hrow : row.length = 2 ^ q) (hno : ¬ LinClaim F row t) (log : List E)
    (hB : ∀ c : F, Nat.card {v : Vector UInt8 64 // ((leNat v.toList : Nat) : F) = c} ≤ B)
    (A : Algo E α) (hT : A.AtMost T) (out : α → SimpleZK F V) (ro : Hash) (D : Finset (List Event))
    (hD : ∀ ro, ∀ l ∈ A.asked er ro ++ simpleQueries pen log (out (A.run er ro)).a
      ((out (A.run er ro)).no_zk.L_Vec.take q) ((out (A.run er ro)).no_zk.R_Vec.take q), l.map er ∈ D)
    (Win : Hash → Prop)
    (hWin : ∀ ro, Win ro → let p := out (A.run er ro)
      (∀ l ∈ A.asked er ro ++ simpleQueries pen log p.a (p.no_zk.L_Vec.take q) (p.no_zk.R_Vec.take q),
        ∀ l' ∈ A.asked er ro ++ simpleQueries pen log p.a (p.no_zk.L_Vec.take q) (p.no_zk.R_Vec.take q),
        l.map er = l'.map er → l = l') ∧
      p.a ≠ [] ∧ Rounds q p.no_zk ∧ simpleGap pen er ro log q row t p = 0) :
    countHashes ro D Win * 2 ^ 512 ≤ (T + (q + 1)) * (2 * B) * (2 ^ 512) ^ D.card := by
  set qs : α → List (List E) := fun o =>
    simpleQueries pen log (out o).a ((out o).no_zk.L_Vec.take q) ((out o).no_zk.R_Vec.take q) with hqs
  have hask : ∀ ro, (A.andThen fun o => Algo.askAll o (qs o)).asked er ro =
      A.asked er ro ++ qs (A.run er ro) := by
    intro ro
    rw [Algo.asked_andThen, Algo'.askAll_asked]
  refine (linMachine_sound hpen).count er hB ro D (A.andThen fun o => Algo.askAll o (qs o)) (T + (q + 1)) ?_ ?_
    (.beta q row t) log (fun h => hno (h hrow)) Win ?_
  · refine Algo.andThen_atMost _ _ (fun o => Algo'.askAll_atMost _ _ _ ?_) _ _ hT
    simp only [hqs, simpleQueries, List.length_cons]
    exact Nat.succ_le_succ ((lmpaQueries_length ..).trans (List.length_take_le _ _))
  · intro f l hl
    rw [hask] at hl
    exact hD (patch ro D f) l hl
  · intro ro hw
    obtain ⟨hc, ha, ⟨h1, h2, h3, h4⟩, hg⟩ := hWin ro hw
    rw [hask]
    refine ⟨hc, ?_⟩
    obtain ⟨a, as, e⟩ := List.exists_cons_of_ne_nil ha
    unfold simpleGap at hg
    rw [e] at hg
    obtain ⟨s', hp, hs⟩ := lin_beta_path pen er ro (out (A.run er ro)).no_zk.w q
      ((out (A.run er ro)).no_zk.L_Vec.take q) ((out (A.run er ro)).no_zk.R_Vec.take q) row t a as log
      (by simp [h1]) (by simp [h2]) h3 h4 hrow (sub_eq_zero.1 hg)
    refine ⟨_, s', hp, hs, fun l h => List.mem_append_right _ ?_⟩
    simp only [hqs, e]
    exact h

end

/-! ### The verdict -/
section
variable {F G V : Type} [Field F] [AddCommGroup G] [Module F G] [AddCommGroup V] [Module F V]

omit [AddCommGroup G] [AddCommGroup V] in
theorem lmpaQueries_erase {E : Type} (pen : Pen V E) (er : E → Event) (cmp : G → Comp) (ev : V → G)
    (h1 : ∀ l v, er (pen.pt l v) = .msg l (cmp (ev v))) (h2 : ∀ l, er (pen.ch l) = .chal l 64) :
    ∀ (Ls Rs : List (List V)) (log : List E),
    (lmpaQueries pen log Ls Rs).map (List.map er) =
      lmpaQueries (plainPen cmp) (log.map er) (Ls.map (List.map ev)) (Rs.map (List.map ev))
  | [], _, _ => by simp [lmpaQueries]
  | _ :: _, [], _ => by simp [lmpaQueries]
  | L :: Ls, R :: Rs, log => by
    have e : (log ++ pen.round L R).map er = log.map er ++ (plainPen cmp).round (L.map ev) (R.map ev) := by
      simp [Pen.round, plainPen, h1, h2, Function.comp_def]
    rw [lmpaQueries, List.map_cons, List.map_cons, List.map_cons, lmpaQueries,
      lmpaQueries_erase pen er cmp ev h1 h2 Ls Rs, e]

theorem lmpaChallenges_queries (cx : Ctx G) : ∀ (Ls Rs : List (List G)) (log : List Event),
    (lmpaQueries (plainPen cx.compress) log Ls Rs).map (squeeze F cx.ro) = lmpaChallenges F cx log Ls Rs
  | [], _, _ => by simp [lmpaQueries, lmpaChallenges]
  | _ :: _, [], _ => by simp [lmpaQueries, lmpaChallenges]
  | L :: Ls, R :: Rs, log => by
    rw [lmpaChallenges_cons, lmpaQueries, List.map_cons, lmpaChallenges_queries cx Ls Rs]
    rfl

theorem map_foldedRow (ev : V →ₗ[F] G) (xs : List F) (row : List V) :
    ev (foldedRow xs row) = foldedRow xs (row.map ev) := by
  unfold foldedRow
  rw [map_sum]
  refine Finset.sum_congr rfl fun i _ => ?_
  rw [map_smul, ← map_zero ev, List.getD_map]

theorem map_foldedTarget (ev : V →ₗ[F] G) (xs : List F) (Ls Rs : List V) (t : V) :
    ev (foldedTarget xs Ls Rs t) = foldedTarget xs (Ls.map ev) (Rs.map ev) (ev t) := by
  unfold foldedTarget
  rw [map_add, map_smul, map_sum]
  congr 1
  refine Finset.sum_congr rfl fun i _ => ?_
  rw [map_smul, map_add, map_smul, ← map_zero ev, List.getD_map, List.getD_map]

theorem column_map (ev : V →ₗ[F] G) (Ls : List (List V)) :
    (column Ls 0).map ev = column (Ls.map (List.map ev)) 0 := by
  unfold column
  rw [List.map_map, List.map_map]
  refine List.map_congr_left fun L _ => ?_
  simp only [Function.comp_apply]
  rw [← map_zero ev, List.getD_map]

theorem map_lmpaGap {E : Type} (pen : Pen V E) (er : E → Event) (cmp : G → Comp) (ev : V →ₗ[F] G)
    (h1 : ∀ l v, er (pen.pt l v) = .msg l (cmp (ev v))) (h2 : ∀ l, er (pen.ch l) = .chal l 64)
    (ro : Hash) (log : List E) (q : Nat) (row : List V) (t : V) (p : Lmpa.NoZK F V) :
    ev (lmpaGap pen er ro log q row t p) =
      lmpaGap (plainPen cmp) id ro (log.map er) q (row.map ev) (ev t) (lmpaProof ev p) := by
  unfold lmpaGap lmpaProof
  simp only [map_sub, map_smul, map_foldedRow, map_foldedTarget, column_map, List.map_take, List.map_id]
  have e : ∀ Ls Rs : List (List V), (lmpaQueries pen log Ls Rs).map (fun l => squeeze F ro (l.map er)) =
      (lmpaQueries (plainPen cmp) (log.map er) (Ls.map (List.map ev)) (Rs.map (List.map ev))).map
        (squeeze F ro) := by
    intro Ls Rs
    rw [← lmpaQueries_erase pen er cmp ev h1 h2, List.map_map]
    rfl
  rw [e, List.map_take, List.map_take]

theorem map_simpleGap {E : Type} (pen : Pen V E) (er : E → Event) (cmp : G → Comp) (ev : V →ₗ[F] G)
    (h1 : ∀ l v, er (pen.pt l v) = .msg l (cmp (ev v))) (h2 : ∀ l, er (pen.ch l) = .chal l 64)
    (ro : Hash) (log : List E) (q : Nat) (row : List V) (t : V) (p : SimpleZK F V) :
    ev (simpleGap pen er ro log q row t p) =
      simpleGap (plainPen cmp) id ro (log.map er) q (row.map ev) (ev t) (simpleProof ev p) := by
  have e : (log ++ pen.first p.a).map er = log.map er ++ (plainPen cmp).first (p.a.map ev) := by
    simp [Pen.first, plainPen, h1, h2, Function.comp_def]
  unfold simpleGap simpleProof
  rw [map_lmpaGap pen er cmp ev h1 h2, e, map_add, map_smul, List.map_id]
  congr 2
  cases p.a <;> simp

variable [DecidableEq G]

/-- An accepted proof. -/
theorem lmpa_accepted {q fuel : Nat} (cx : Ctx G) (tr tr' : Transcript) (row : List G) (rows : List (List G))
    (Gs : List G) (t : G) (ts : List G) (hA : Width (2 ^ q) (row :: rows)) (p : Lmpa.NoZK F G)
    (h : p.verify cx fuel tr (row :: rows) Gs (2 ^ q) (t :: ts) = .ok (true, tr')) :
    Rounds q p ∧ lmpaGap (plainPen cx.compress) id cx.ro tr.log q row t p = 0 := by
  have hG : Gs.length = 2 ^ q := by
    by_contra hne
    unfold NoZK.verify at h
    rw [rassert_false (fun h => hne h.symm)] at h
    cases h
  have h' := C49_lmpa_verify_fuel cx p fuel (q + 1) (2 ^ q) tr (row :: rows) Gs (t :: ts) (by rw [h]; simp)
  rw [h, verify_eq cx p q (fuel + (q + 1)) tr _ Gs _ (by omega) hG hA] at h'
  simp only at h'
  split at h'
  · rename_i hc
    obtain ⟨h1, h2, -, -, h3, h4⟩ := hc
    refine ⟨⟨h1, h2, h3, h4⟩, ?_⟩
    simp only [Except.ok.injEq, Prod.mk.injEq, decide_eq_true_eq] at h'
    unfold lmpaGap
    simp only [List.map_id]
    rw [sub_eq_zero, lmpaChallenges_queries]
    exact h'.1
  · cases h'

/-- An accepted proof. -/
theorem simple_accepted {q fuel : Nat} (cx : Ctx G) (tr tr' : Transcript) (row : List G) (rows : List (List G))
    (Gs : List G) (t : G) (ts : List G) (hA : Width (2 ^ q) (row :: rows)) (p : SimpleZK F G)
    (h : p.verify cx fuel tr (row :: rows) Gs (2 ^ q) (t :: ts) = .ok (true, tr')) :
    p.a ≠ [] ∧ Rounds q p.no_zk ∧ simpleGap (plainPen cx.compress) id cx.ro tr.log q row t p = 0 := by
  have hG : Gs.length = 2 ^ q := by
    by_contra hne
    unfold SimpleZK.verify at h
    rw [rassert_false (fun h => hne h.symm)] at h
    cases h
  rw [simple_verify_eq] at h
  cases ha : p.a with
  | nil =>
    exfalso
    rw [ha] at h
    have h' := C49_lmpa_verify_fuel cx p.no_zk fuel (q + 1) (2 ^ q) _ (row :: rows) Gs _ (by rw [h]; simp)
    rw [h, verify_eq cx p.no_zk q (fuel + (q + 1)) _ _ Gs _ (by omega) hG hA] at h'
    simp at h'
  | cons a as =>
    rw [ha] at h
    obtain ⟨h1, h2⟩ := lmpa_accepted cx _ _ row rows Gs _ _ hA p.no_zk h
    refine ⟨by simp, h1, ?_⟩
    unfold simpleGap
    rw [ha, List.map_id, ← h2, simpleBeta, simpleLog]
    simp only [Pen.first, plainPen, List.append_assoc, List.headD_cons]

end

/-! ### C71 -/
section
variable {F G : Type} [Field F] [AddCommGroup G] [Module F G] [DecidableEq G]

/-- C71: soundness of `NoZK` of src/lmpa in the random-oracle model, for arbitrary provers. Fix a statement whose
first row has no pre-image of the first entry of the target. A prover that asks at most `T` queries has its proof
accepted for a fraction `2 (T + q) B / 2^512` of the hash functions at most. -/
theorem C71_lmpa_oracle {q T B fuel : Nat} (cd : Codec G) (row : List G) (rows : List (List G)) (Gs : List G)
    (t : G) (ts : List G) (hA : ∀ r ∈ row :: rows, r.length = 2 ^ q)
    (hno : ∀ w : List F, w.length = 2 ^ q → dot w row ≠ t) (log : List Event)
    (hB : ∀ c : F, Nat.card {v : Vector UInt8 64 // ((leNat v.toList : Nat) : F) = c} ≤ B)
    (A : Algo Event (Lmpa.NoZK F G)) (hT : A.AtMost T) (ro : Hash) (D : Finset (List Event))
    (hD : ∀ ro, ∀ l ∈ A.asked id ro ++ lmpaQueries (plainPen cd.compress) log ((A.run id ro).L_Vec.take q)
      ((A.run id ro).R_Vec.take q), l ∈ D) :
    chance ro D (fun ro => ∃ tr', (A.run id ro).verify ⟨cd, ro⟩ fuel ⟨log⟩ (row :: rows) Gs (2 ^ q) (t :: ts) =
      .ok (true, tr')) ≤ ((T + q) * (2 * B) : Nat) / 2 ^ 512 := by
  have hrow := hA row List.mem_cons_self
  apply chance_le
  refine lmpa_core (readable_plain cd) id row t hrow (fun ⟨w, h1, h2⟩ => hno w (h1.trans hrow) h2) log hB A hT id
    ro D (fun ro l hl => by rw [List.map_id]; exact hD ro l hl) _ ?_
  rintro ro ⟨tr', hv⟩
  refine ⟨fun l _ l' _ h => by rwa [List.map_id, List.map_id] at h, ?_⟩
  exact lmpa_accepted (F := F) ⟨cd, ro⟩ ⟨log⟩ tr' row rows Gs t ts hA (A.run id ro) hv

/-- C71: the same for `SimpleZK`. -/
theorem C71_simple_oracle {q T B fuel : Nat} (cd : Codec G) (row : List G) (rows : List (List G)) (Gs : List G)
    (t : G) (ts : List G) (hA : ∀ r ∈ row :: rows, r.length = 2 ^ q)
    (hno : ∀ w : List F, w.length = 2 ^ q → dot w row ≠ t) (log : List Event)
    (hB : ∀ c : F, Nat.card {v : Vector UInt8 64 // ((leNat v.toList : Nat) : F) = c} ≤ B)
    (A : Algo Event (SimpleZK F G)) (hT : A.AtMost T) (ro : Hash) (D : Finset (List Event))
    (hD : ∀ ro, ∀ l ∈ A.asked id ro ++ simpleQueries (plainPen cd.compress) log (A.run id ro).a
      ((A.run id ro).no_zk.L_Vec.take q) ((A.run id ro).no_zk.R_Vec.take q), l ∈ D) :
    chance ro D (fun ro => ∃ tr', (A.run id ro).verify ⟨cd, ro⟩ fuel ⟨log⟩ (row :: rows) Gs (2 ^ q) (t :: ts) =
      .ok (true, tr')) ≤ ((T + (q + 1)) * (2 * B) : Nat) / 2 ^ 512 := by
  have hrow := hA row List.mem_cons_self
  apply chance_le
  refine simple_core (readable_plain cd) id row t hrow (fun ⟨w, h1, h2⟩ => hno w (h1.trans hrow) h2) log hB A hT
    id ro D (fun ro l hl => by rw [List.map_id]; exact hD ro l hl) _ ?_
  rintro ro ⟨tr', hv⟩
  refine ⟨fun l _ l' _ h => by rwa [List.map_id, List.map_id] at h, ?_⟩
  exact simple_accepted (F := F) ⟨cd, ro⟩ ⟨log⟩ tr' row rows Gs t ts hA (A.run id ro) hv

omit [AddCommGroup G] [DecidableEq G] in
theorem truthful_pen {V : Type} (cd : Codec G) (ev : V → G) : ∀ (Ls Rs : List (List V))
    (log : List (Note V)), (∀ e ∈ log, Truthful cd ev e) →
    ∀ l ∈ lmpaQueries (notePen cd.compress ev) log Ls Rs, ∀ e ∈ l, Truthful cd ev e
  | [], _, _, _ => by simp [lmpaQueries]
  | _ :: _, [], _, _ => by simp [lmpaQueries]
  | L :: Ls, R :: Rs, log, h => by
    have h' : ∀ e ∈ log ++ (notePen cd.compress ev).round L R, Truthful cd ev e := by
      intro e he
      simp only [List.mem_append, Pen.round, List.mem_map, List.mem_singleton] at he
      rcases he with he | (⟨v, -, rfl⟩ | ⟨v, -, rfl⟩) | rfl
      · exact h e he
      · exact truthful_point cd ev "L" (by decide) v
      · exact truthful_point cd ev "R" (by decide) v
      · exact truthful_plain cd ev _ rfl
    intro l hl
    rw [lmpaQueries, List.mem_cons] at hl
    rcases hl with rfl | hl
    · exact h'
    · exact truthful_pen cd ev Ls Rs _ h' l hl

omit [AddCommGroup G] [DecidableEq G] in
theorem truthful_first {V : Type} (cd : Codec G) (ev : V → G) (a : List V)
    (log : List (Note V)) (h : ∀ e ∈ log, Truthful cd ev e) :
    ∀ e ∈ log ++ (notePen cd.compress ev).first a, Truthful cd ev e := by
  intro e he
  simp only [List.mem_append, Pen.first, List.mem_map, List.mem_singleton] at he
  rcases he with he | ⟨v, -, rfl⟩ | rfl
  · exact h e he
  · exact truthful_point cd ev "a" (by decide) v
  · exact truthful_plain cd ev _ rfl

/-- The vectors among which a non-trivial relation between the generators is found, when an algebraic prover has a
proof of a statement accepted whose coefficients do not fit. -/
def lmpaCandidates {m : Nat} (ro : Hash) (cd : Codec G) (Gen : Fin m → G) (q : Nat) (row : List (Fin m → F))
    (t : Fin m → F) (log : List (Note (Fin m → F))) (asked : List (List (Note (Fin m → F))))
    (p : Lmpa.NoZK F (Fin m → F)) : List (Fin m → F) :=
  let pen := notePen cd.compress (evalVec (F := F) Gen)
  lmpaGap pen Prod.fst ro log q row t p ::
    differences (notes (asked ++ lmpaQueries pen log (p.L_Vec.take q) (p.R_Vec.take q)))

/-- The same for `SimpleZK`. -/
def simpleCandidates {m : Nat} (ro : Hash) (cd : Codec G) (Gen : Fin m → G) (q : Nat) (row : List (Fin m → F))
    (t : Fin m → F) (log : List (Note (Fin m → F))) (asked : List (List (Note (Fin m → F))))
    (p : SimpleZK F (Fin m → F)) : List (Fin m → F) :=
  let pen := notePen cd.compress (evalVec (F := F) Gen)
  simpleGap pen Prod.fst ro log q row t p ::
    differences (notes (asked ++ simpleQueries pen log p.a (p.no_zk.L_Vec.take q) (p.no_zk.R_Vec.take q)))

/-- C71: soundness of `NoZK` of src/lmpa in the random-oracle model, for algebraic provers. The points of the first
row and the first entry of the target are given by coefficients with respect to generators `Gen`, and no linear
combination of the coefficient vectors of the row is that of the target (the points themselves may well be linear
combinations of each other). For all but a fraction `2 (T + q) B / 2^512` of the hash functions, the proof is
rejected, or one of the candidates is a non-trivial relation between the generators. -/
theorem C71_lmpa_algebraic {m q T B fuel : Nat} (cd : Codec G) (Gen : Fin m → G) (row : List (Fin m → F))
    (rows : List (List G)) (Gs : List G) (t : Fin m → F) (ts : List G) (hrow : row.length = 2 ^ q)
    (hrows : ∀ r ∈ rows, r.length = 2 ^ q) (hno : ∀ w : List F, w.length = 2 ^ q → dot w row ≠ t)
    (log : List (Note (Fin m → F))) (hlog : ∀ e ∈ log, Truthful cd (evalVec (F := F) Gen) e)
    (hB : ∀ c : F, Nat.card {v : Vector UInt8 64 // ((leNat v.toList : Nat) : F) = c} ≤ B)
    (A : Algo (Note (Fin m → F)) (Lmpa.NoZK F (Fin m → F))) (hT : A.AtMost T)
    (hA : ∀ ro, ∀ l ∈ A.asked Prod.fst ro, ∀ e ∈ l, Truthful cd (evalVec (F := F) Gen) e)
    (ro : Hash) (D : Finset (List Event))
    (hD : ∀ ro, ∀ l ∈ A.asked Prod.fst ro ++ lmpaQueries (notePen cd.compress (evalVec (F := F) Gen)) log
      ((A.run Prod.fst ro).L_Vec.take q) ((A.run Prod.fst ro).R_Vec.take q), l.map Prod.fst ∈ D) :
    chance ro D (fun ro =>
      let p := A.run Prod.fst ro
      (∃ tr', (lmpaProof (evalVec Gen) p).verify ⟨cd, ro⟩ fuel ⟨log.map Prod.fst⟩
        (row.map (evalVec Gen) :: rows) Gs (2 ^ q) (evalVec Gen t :: ts) = .ok (true, tr')) ∧
      ∀ c ∈ lmpaCandidates ro cd Gen q row t log (A.asked Prod.fst ro) p, evalVec Gen c = 0 → c = 0) ≤
    ((T + q) * (2 * B) : Nat) / 2 ^ 512 := by
  apply chance_le
  refine lmpa_core (readable_note cd.compress (evalVec (F := F) Gen)) Prod.fst row t hrow
    (fun ⟨w, h1, h2⟩ => hno w (h1.trans hrow) h2) log hB A hT id ro D hD _ ?_
  rintro ro ⟨⟨tr', hv⟩, hc⟩
  obtain ⟨h1, h2⟩ := lmpa_accepted (F := F) ⟨cd, ro⟩ _ tr' _ rows Gs _ ts (by
    intro r hr
    rcases List.mem_cons.1 hr with rfl | hr
    · simpa using hrow
    · exact hrows r hr) _ hv
  refine ⟨?_, ?_, ?_⟩
  · refine noConflict_of_truthful cd (evalVec Gen) _ ?_ fun c h => hc c (List.mem_cons_of_mem _ h)
    intro l hl
    rcases List.mem_append.1 hl with hl | hl
    · exact hA ro l hl
    · exact truthful_pen cd _ _ _ _ hlog l hl
  · obtain ⟨a1, a2, a3, a4⟩ := h1
    simp only [lmpaProof, List.length_map, ← List.map_take, List.mem_map, forall_exists_index, and_imp,
      forall_apply_eq_imp_iff₂, ne_eq, List.map_eq_nil_iff] at a1 a2 a3 a4
    exact ⟨a1, a2, a3, a4⟩
  · refine hc _ List.mem_cons_self ?_
    rw [id, map_lmpaGap (notePen cd.compress (evalVec (F := F) Gen)) Prod.fst cd.compress (evalVec Gen)
      (fun _ _ => rfl) (fun _ => rfl)]
    exact h2

/-- C71: the same for `SimpleZK`. -/
theorem C71_simple_algebraic {m q T B fuel : Nat} (cd : Codec G) (Gen : Fin m → G) (row : List (Fin m → F))
    (rows : List (List G)) (Gs : List G) (t : Fin m → F) (ts : List G) (hrow : row.length = 2 ^ q)
    (hrows : ∀ r ∈ rows, r.length = 2 ^ q) (hno : ∀ w : List F, w.length = 2 ^ q → dot w row ≠ t)
    (log : List (Note (Fin m → F))) (hlog : ∀ e ∈ log, Truthful cd (evalVec (F := F) Gen) e)
    (hB : ∀ c : F, Nat.card {v : Vector UInt8 64 // ((leNat v.toList : Nat) : F) = c} ≤ B)
    (A : Algo (Note (Fin m → F)) (SimpleZK F (Fin m → F))) (hT : A.AtMost T)
    (hA : ∀ ro, ∀ l ∈ A.asked Prod.fst ro, ∀ e ∈ l, Truthful cd (evalVec (F := F) Gen) e)
    (ro : Hash) (D : Finset (List Event))
    (hD : ∀ ro, ∀ l ∈ A.asked Prod.fst ro ++ simpleQueries (notePen cd.compress (evalVec (F := F) Gen)) log
      (A.run Prod.fst ro).a ((A.run Prod.fst ro).no_zk.L_Vec.take q) ((A.run Prod.fst ro).no_zk.R_Vec.take q),
      l.map Prod.fst ∈ D) :
    chance ro D (fun ro =>
      let p := A.run Prod.fst ro
      (∃ tr', (simpleProof (evalVec Gen) p).verify ⟨cd, ro⟩ fuel ⟨log.map Prod.fst⟩
        (row.map (evalVec Gen) :: rows) Gs (2 ^ q) (evalVec Gen t :: ts) = .ok (true, tr')) ∧
      ∀ c ∈ simpleCandidates ro cd Gen q row t log (A.asked Prod.fst ro) p, evalVec Gen c = 0 → c = 0) ≤
    ((T + (q + 1)) * (2 * B) : Nat) / 2 ^ 512 := by
  apply chance_le
  refine simple_core (readable_note cd.compress (evalVec (F := F) Gen)) Prod.fst row t hrow
    (fun ⟨w, h1, h2⟩ => hno w (h1.trans hrow) h2) log hB A hT id ro D hD _ ?_
  rintro ro ⟨⟨tr', hv⟩, hc⟩
  obtain ⟨h0, h1, h2⟩ := simple_accepted (F := F) ⟨cd, ro⟩ _ tr' _ rows Gs _ ts (by
    intro r hr
    rcases List.mem_cons.1 hr with rfl | hr
    · simpa using hrow
    · exact hrows r hr) _ hv
  refine ⟨?_, ?_, ?_, ?_⟩
  · refine noConflict_of_truthful cd (evalVec Gen) _ ?_ fun c h => hc c (List.mem_cons_of_mem _ h)
    intro l hl
    rcases List.mem_append.1 hl with hl | hl
    · exact hA ro l hl
    · have h' := truthful_first cd (evalVec (F := F) Gen) (A.run Prod.fst ro).a log hlog
      rcases List.mem_cons.1 hl with rfl | hl
      · exact h'
      · exact truthful_pen cd _ _ _ _ h' l hl
  · simpa [simpleProof] using h0
  · obtain ⟨a1, a2, a3, a4⟩ := h1
    simp only [simpleProof, lmpaProof, List.length_map, ← List.map_take, List.mem_map, forall_exists_index, and_imp,
      forall_apply_eq_imp_iff₂, ne_eq, List.map_eq_nil_iff] at a1 a2 a3 a4
    exact ⟨a1, a2, a3, a4⟩
  · refine hc _ List.mem_cons_self ?_
    rw [id, map_simpleGap (notePen cd.compress (evalVec (F := F) Gen)) Prod.fst cd.compress (evalVec Gen)
      (fun _ _ => rfl) (fun _ => rfl)]
    exact h2

omit [Field F] [AddCommGroup G] [Module F G] [DecidableEq G] in
/-- C71: for every prover there is a finite set of histories as in the theorems. -/
theorem C71_domain {V E : Type} (pen : Pen V E) (er : E → Event) (log : List E) (q : Nat)
    (A : Algo E (Lmpa.NoZK F V)) : ∃ D : Finset (List Event), ∀ ro, ∀ l ∈ A.asked er ro ++ lmpaQueries pen log
      ((A.run er ro).L_Vec.take q) ((A.run er ro).R_Vec.take q), l.map er ∈ D := by
  obtain ⟨D, hD⟩ := exists_domain er
    (fun _ p => (lmpaQueries pen log (p.L_Vec.take q) (p.R_Vec.take q)).map (List.map er)) (by
      intro p
      simp only [exists_const]
      exact List.finite_toSet _) A
  refine ⟨D, fun ro l hl => ?_⟩
  rcases List.mem_append.1 hl with hl | hl
  · exact (hD ro).1 l hl
  · exact (hD ro).2 _ (List.mem_map_of_mem hl)

omit [Field F] [AddCommGroup G] [Module F G] [DecidableEq G] in
/-- C71: for every prover there is a finite set of histories as in the theorems. -/
theorem C71_simple_domain {V E : Type} (pen : Pen V E) (er : E → Event) (log : List E) (q : Nat)
    (A : Algo E (SimpleZK F V)) : ∃ D : Finset (List Event), ∀ ro, ∀ l ∈ A.asked er ro ++ simpleQueries pen log
      (A.run er ro).a ((A.run er ro).no_zk.L_Vec.take q) ((A.run er ro).no_zk.R_Vec.take q), l.map er ∈ D := by
  obtain ⟨D, hD⟩ := exists_domain er
    (fun _ p => (simpleQueries pen log p.a (p.no_zk.L_Vec.take q) (p.no_zk.R_Vec.take q)).map (List.map er)) (by
      intro p
      simp only [exists_const]
      exact List.finite_toSet _) A
  refine ⟨D, fun ro l hl => ?_⟩
  rcases List.mem_append.1 hl with hl | hl
  · exact (hD ro).1 l hl
  · exact (hD ro).2 _ (List.mem_map_of_mem hl)

end

/-! ### Examples -/
section
open Toy

/-- A prover of the linear-map argument that looks at a challenge before it decides on its answer. -/
def exLmpaProver : Algo Event (Lmpa.NoZK K K) :=
  .ask ((plainPen codec.compress).round [5] [0]) fun v => .done ⟨[[5]], [[0]], (leNat v.toList : Nat)⟩

/-- C71 for this prover and the false statement that a linear combination of `0, 0` is 7. -/
example (ro : Hash) : ∃ D : Finset (List Event), chance ro D (fun ro =>
    ∃ tr', (exLmpaProver.run id ro).verify ⟨codec, ro⟩ 3 ⟨[]⟩ [[0, 0]] [1, 2] (2 ^ 1) [7] = .ok (true, tr')) ≤
      4 * (1 / 101 + 1 / 2 ^ 512) := by
  obtain ⟨D, hD⟩ := C71_domain (plainPen codec.compress) id [] 1 exLmpaProver
  refine ⟨D, ?_⟩
  have := C71_lmpa_oracle (q := 1) (T := 1) (fuel := 3) (F := K) codec [0, 0] [] [1, 2] 7 [] (by simp)
    (fun w _ h => by
      have := dot_zeros (G := K) w 2
      rw [show List.replicate 2 (0 : K) = [0, 0] from rfl, h] at this
      exact absurd this (by decide +kernel)) []
    (fun c => C67_scalars 101 c) exLmpaProver (fun _ => True.intro) ro D
    (fun ro l hl => by simpa using hD ro l hl)
  refine this.trans ?_
  rw [show ∀ B, (1 + 1) * (2 * B) = 4 * B from fun B => by omega]
  exact C67_bound 4 101

/-- An algebraic prover of `SimpleZK` with the generators `Gen 0`, `Gen 1`. -/
def exSimpleProver (Gen : Fin 2 → K) : Algo (Note (Fin 2 → K)) (SimpleZK K (Fin 2 → K)) :=
  .ask ((notePen codec.compress (evalVec (F := K) Gen)).first [![1, 2]]) fun v =>
    let β : K := (leNat v.toList : Nat)
    .done ⟨⟨[[![β, 0]]], [[![0, β]]], β⟩, [![1, 2]]⟩

/-- C71 for this prover and the row `Gen 0, 2 Gen 0` with the target `3 Gen 0 + Gen 1`. -/
example (Gen : Fin 2 → K) (ro : Hash) : ∃ D : Finset (List Event), chance ro D (fun ro =>
      let p := (exSimpleProver Gen).run Prod.fst ro
      (∃ tr', (simpleProof (evalVec Gen) p).verify ⟨codec, ro⟩ 3 ⟨[]⟩
        [[![1, 0], ![2, 0]].map (evalVec (F := K) Gen)] [1, 2] (2 ^ 1) [evalVec (F := K) Gen ![3, 1]] =
          .ok (true, tr')) ∧
      ∀ c ∈ simpleCandidates ro codec Gen 1 [![1, 0], ![2, 0]] ![3, 1] [] ((exSimpleProver Gen).asked Prod.fst ro) p,
        evalVec Gen c = 0 → c = 0) ≤ 6 * (1 / 101 + 1 / 2 ^ 512) := by
  obtain ⟨D, hD⟩ := C71_simple_domain (notePen codec.compress (evalVec (F := K) Gen)) Prod.fst [] 1
    (exSimpleProver Gen)
  refine ⟨D, ?_⟩
  have := C71_simple_algebraic (q := 1) (T := 1) (fuel := 3) (F := K) codec Gen [![1, 0], ![2, 0]] [] [1, 2]
    ![3, 1] [] rfl (by simp) (by
      intro w hw h
      obtain ⟨a, b, rfl⟩ := List.length_eq_two.1 hw
      have := congrFun h 1
      simp [dot] at this) [] (by simp) (fun c => C67_scalars 101 c) (exSimpleProver Gen) (fun _ => True.intro) (by
      intro ro l hl
      simp only [exSimpleProver, Algo.asked, List.mem_singleton] at hl
      subst hl
      exact truthful_first codec (evalVec (F := K) Gen) [![1, 2]] [] (by simp)) ro D hD
  refine this.trans ?_
  rw [show ∀ B, (1 + (1 + 1)) * (2 * B) = 6 * B from fun B => by omega]
  exact C67_bound 6 101

end
end Qesa.Props
