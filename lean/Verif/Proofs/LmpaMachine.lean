import Verif.Proofs.FsCore
import Verif.SpecLmpaAgm
import Verif.Props.SimpleZk
/-
The linear-map arguments as machines.
-/
namespace Qesa.Props
open Qesa Spec Lmpa
variable {F G V E : Type} [Field F] [AddCommGroup V] [Module F V]

/-- Points and labels can be read off the queries. -/
structure Readable (pen : Pen V E) : Prop where
  pt : ∀ l v l' v', pen.pt l v = pen.pt l' v' → l = l' ∧ v = v'
  ch : ∀ l v l', pen.pt l v ≠ pen.ch l'

omit [AddCommGroup V] in
theorem readable_note (cmp : G → Comp) (ev : V → G) : Readable (notePen cmp ev) where
  pt l v l' v' h := by
    simp only [notePen, Prod.mk.injEq, Event.msg.injEq, Option.some.injEq] at h
    exact ⟨h.1.1, h.2⟩
  ch l v l' h := by simp [notePen] at h

theorem readable_plain (cd : Codec G) : Readable (plainPen cd.compress) where
  pt l v l' v' h := by
    simp only [plainPen, Event.msg.injEq] at h
    have := congrArg cd.decompress h.2
    rw [cd.decompress_compress, cd.decompress_compress] at this
    exact ⟨h.1, Option.some.inj this⟩
  ch l v l' h := by simp [plainPen] at h

omit [AddCommGroup V] in
theorem Readable.points {pen : Pen V E} (hp : Readable pen) (l : String) : ∀ (P P' : List V) (r r' : List E),
    (∀ v, r.head? ≠ some (pen.pt l v)) → (∀ v, r'.head? ≠ some (pen.pt l v)) →
    P.map (pen.pt l) ++ r = P'.map (pen.pt l) ++ r' → P = P' ∧ r = r'
  | [], [], r, r', _, _, h => ⟨rfl, h⟩
  | [], v :: P', r, r', hr, _, h => by
    simp only [List.map_nil, List.nil_append, List.map_cons, List.cons_append] at h
    exact absurd (by rw [h]; rfl) (hr v)
  | v :: P, [], r, r', _, hr', h => by
    simp only [List.map_nil, List.nil_append, List.map_cons, List.cons_append] at h
    exact absurd (by rw [← h]; rfl) (hr' v)
  | v :: P, v' :: P', r, r', hr, hr', h => by
    simp only [List.map_cons, List.cons_append, List.cons.injEq] at h
    obtain ⟨h1, h2⟩ := Readable.points hp l P P' r r' hr hr' h.2
    rw [(hp.pt _ _ _ _ h.1).2, h1]
    exact ⟨rfl, h2⟩

omit [AddCommGroup V] in
theorem Readable.round {pen : Pen V E} (hp : Readable pen) {L R L' R' : List V} {r r' : List E}
    (h : pen.round L R ++ r = pen.round L' R' ++ r') : L = L' ∧ R = R' := by
  unfold Pen.round at h
  simp only [List.append_assoc, List.singleton_append] at h
  have hc : ∀ (r : List E) l v, (pen.ch "challenge" :: r).head? ≠ some (pen.pt l v) :=
    fun r l v h => hp.ch _ _ _ (Option.some.inj h).symm
  have hR : ∀ (R : List V) (r : List E) v,
      (R.map (pen.pt "R") ++ pen.ch "challenge" :: r).head? ≠ some (pen.pt "L" v) := by
    intro R r v h
    cases R with
    | nil => exact hc _ _ _ h
    | cons w R =>
      have := (hp.pt _ _ _ _ (Option.some.inj h)).1
      exact absurd this (by decide)
  obtain ⟨h1, h2⟩ := hp.points "L" _ _ _ _ (hR R r) (hR R' r') h
  exact ⟨h1, (hp.points "R" _ _ _ _ (hc _ _) (hc _ _) h2).1⟩

omit [AddCommGroup V] in
theorem Readable.first {pen : Pen V E} (hp : Readable pen) {a a' : List V} {r r' : List E}
    (h : pen.first a ++ r = pen.first a' ++ r') : a = a' := by
  unfold Pen.first at h
  simp only [List.append_assoc, List.singleton_append] at h
  have hc : ∀ (r : List E) l v, (pen.ch "beta" :: r).head? ≠ some (pen.pt l v) :=
    fun r l v h => hp.ch _ _ _ (Option.some.inj h).symm
  exact (hp.points "a" _ _ _ _ (hc _ _) (hc _ _) h).1

/-- There is a pre-image of `t`. -/
def LinClaim (F : Type) [Field F] [Module F V] (row : List V) (t : V) : Prop :=
  ∃ w : List F, w.length = row.length ∧ dot w row = t

/-- The states: `beta` is waiting for the first message of `SimpleZK`, `rounds` for the next round, `dead` is
reached by messages on which the verifier panics. -/
inductive LinState (V : Type)
  | beta (q : Nat) (row : List V) (t : V)
  | rounds (q : Nat) (row : List V) (t : V)
  | dead

/-- What the prover sends. -/
def LinState.Msg : LinState V → Type
  | .beta .. => List V
  | .rounds 0 .. => Empty
  | .rounds (_ + 1) .. => List V × List V
  | .dead => Empty

/-- What is appended to the transcript. -/
def LinState.ext (pen : Pen V E) : (s : LinState V) → s.Msg → List E
  | .beta .., a => pen.first (a : List V)
  | .rounds (_ + 1) .., m => pen.round (m : List V × List V).1 (m : List V × List V).2

/-- The next state of `beta`. -/
def LinState.afterBeta (q : Nat) (row : List V) (t : V) (β : F) : List V → LinState V
  | a :: _ => .rounds q row (β • t + a)
  | [] => .dead

/-- The next state of `rounds`. -/
def LinState.afterRound (q : Nat) (row : List V) (t : V) (x : F) : List V × List V → LinState V
  | (L :: _, R :: _) => .rounds q (foldRow x row) (L + x • t + (x * x) • R)
  | _ => .dead

/-- The next state. -/
def LinState.next : (s : LinState V) → s.Msg → F → LinState V
  | .beta q row t, a, β => afterBeta q row t β (show List V from a)
  | .rounds (q + 1) row t, m, x => afterRound q row t x (show List V × List V from m)

/-- The claim is true. -/
def LinState.Good (F : Type) [Field F] [Module F V] : LinState V → Prop
  | .beta q row t => row.length = 2 ^ q → LinClaim F row t
  | .rounds q row t => row.length = 2 ^ q → LinClaim F row t
  | .dead => False

variable (F) in
/-- The linear-map arguments. -/
def linMachine (pen : Pen V E) : Machine F E where
  S := LinState V
  M := LinState.Msg
  ext := LinState.ext pen
  next := LinState.next
  good := LinState.Good F

/-- Two challenges of a round at most. -/
theorem lin_round_few {q : Nat} {row : List V} {t : V} (hrow : row.length = 2 ^ (q + 1))
    (h : ¬ LinClaim F row t) (L R : V) : ¬ ∃ x : Fin 3 → F, Function.Injective x ∧
      ∀ i, LinClaim F (foldRow (x i) row) (L + x i • t + (x i * x i) • R) := by
  rintro ⟨x, hx, hw⟩
  choose w hl hd using hw
  have := lmpa_combine row hrow x hx w (fun i => by rw [hl, foldRow_length, hrow, pow_succ]; omega) L R t hd
  exact h ⟨_, this.1.trans hrow.symm, this.2⟩

/-- One `beta` at most. -/
theorem lin_beta_few {row : List V} {t : V} (h : ¬ LinClaim F row t) (a : V) :
    ¬ ∃ β : Fin 2 → F, Function.Injective β ∧ ∀ i, LinClaim F row (β i • t + a) := by
  rintro ⟨β, hβ, hw⟩
  choose w hl hd using hw
  have hne : β 0 - β 1 ≠ 0 := sub_ne_zero.2 fun h => by simpa using hβ h
  refine h ⟨List.zipWith (fun x y => (β 0 - β 1)⁻¹ * x + -(β 0 - β 1)⁻¹ * y) (w 0) (w 1), by simp [hl], ?_⟩
  rw [dot_comb_left _ _ _ (by rw [hl, hl]), hd, hd, neg_smul, ← sub_eq_add_neg, ← smul_sub,
    add_sub_add_right_eq_sub, ← sub_smul, smul_smul, inv_mul_cancel₀ hne, one_smul]

theorem linMachine_sound {pen : Pen V E} (hp : Readable pen) : (linMachine F pen).Sound 2 where
  ne := by
    intro s m
    change LinState.ext pen s m ≠ []
    match s, m with
    | .beta .., _ => simp [LinState.ext, Pen.first]
    | .rounds (_ + 1) .., _ => simp [LinState.ext, Pen.round]
  free := by
    intro s m m' r r' h
    change LinState.ext pen s m ++ r = LinState.ext pen s m' ++ r' at h
    match s, m, m' with
    | .beta .., (m : List V), (m' : List V) => exact hp.first h
    | .rounds (_ + 1) .., (a, b), (a', b') => exact Prod.ext (hp.round h).1 (hp.round h).2
  few := by
    intro s m hs
    change ¬ LinState.Good F s at hs
    change ∃ B : Finset F, B.card ≤ 2 ∧ ∀ x, LinState.Good F (LinState.next s m x) → x ∈ B
    match s, m with
    | .beta q row t, ([] : List V) => exact ⟨∅, by simp, fun x h => h.elim⟩
    | .beta q row t, (a :: _ : List V) =>
      simp only [LinState.Good, Classical.not_imp] at hs
      obtain ⟨B, hB, hx⟩ := few_of_no_injection 1 (fun β : F => LinClaim F row (β • t + a))
        (lin_beta_few hs.2 a)
      exact ⟨B, by omega, fun x h => hx x (h hs.1)⟩
    | .rounds (q + 1) row t, ([], R) => exact ⟨∅, by simp, fun x h => h.elim⟩
    | .rounds (q + 1) row t, (_ :: _, []) => exact ⟨∅, by simp, fun x h => h.elim⟩
    | .rounds (q + 1) row t, (L :: _, R :: _) =>
      simp only [LinState.Good, Classical.not_imp] at hs
      obtain ⟨B, hB, hx⟩ := few_of_no_injection 2
        (fun x : F => LinClaim F (foldRow x row) (L + x • t + (x * x) • R)) (lin_round_few hs.1 hs.2 L R)
      refine ⟨B, hB, fun x h => hx x (h ?_)⟩
      rw [foldRow_length, hs.1, pow_succ]; omega

/-! ### Accepted proofs are conversations -/

/-- The rounds. -/
theorem lin_rounds_path (pen : Pen V E) (er : E → Event) (ro : Hash) (w : F) : ∀ (q : Nat) (Ls Rs : List (List V))
    (row : List V) (t : V) (log : List E), Ls.length = q → Rs.length = q → (∀ L ∈ Ls, L ≠ []) → (∀ R ∈ Rs, R ≠ []) →
    row.length = 2 ^ q →
    let xs := (lmpaQueries pen log Ls Rs).map fun l => squeeze F ro (l.map er)
    w • foldedRow xs row = foldedTarget xs (column Ls 0) (column Rs 0) t →
    ∃ s', (linMachine F pen).Path er ro (.rounds q row t) log (lmpaQueries pen log Ls Rs) s' ∧
      (linMachine F pen).good s'
  | 0, Ls, Rs, row, t, log => by
    intro hL hR _ _ hrow xs h
    rw [List.length_eq_zero_iff] at hL hR
    subst hL hR
    refine ⟨_, .nil, fun _ => ?_⟩
    rw [pow_zero, List.length_eq_one_iff] at hrow
    obtain ⟨a, rfl⟩ := hrow
    refine ⟨[w], rfl, ?_⟩
    simpa [xs, lmpaQueries, foldedRow, foldedTarget, weightG, dot] using h
  | q + 1, (L :: L') :: Ls, (R :: R') :: Rs, row, t, log => by
    intro hL hR nL nR hrow xs h
    have hlen : ((lmpaQueries pen (log ++ pen.round (L :: L') (R :: R')) Ls Rs).map
        fun l => squeeze F ro (l.map er)).length = q := by
      rw [List.length_map]
      have : ∀ (Ls Rs : List (List V)) (log : List E) (q : Nat), Ls.length = q → Rs.length = q →
          (lmpaQueries pen log Ls Rs).length = q := by
        intro Ls
        induction Ls with
        | nil => intro Rs log q h _; simpa [lmpaQueries] using h
        | cons L Ls ih =>
          intro Rs log q h h'
          cases Rs with
          | nil => simp at h h'; omega
          | cons R Rs =>
            cases q with
            | zero => simp at h
            | succ q =>
              rw [lmpaQueries, List.length_cons, ih Rs _ q (by simpa using h) (by simpa using h')]
      exact this Ls Rs _ q (by simpa using hL) (by simpa using hR)
    set x := squeeze F ro ((log ++ pen.round (L :: L') (R :: R')).map er) with hx
    have h : w • foldedRow (x :: ((lmpaQueries pen (log ++ pen.round (L :: L') (R :: R')) Ls Rs).map
        fun l => squeeze F ro (l.map er))) row = foldedTarget (x :: ((lmpaQueries pen
          (log ++ pen.round (L :: L') (R :: R')) Ls Rs).map fun l => squeeze F ro (l.map er)))
          (L :: column Ls 0) (R :: column Rs 0) t := h
    rw [foldedTarget_cons, ← foldedRow_fold _ _ _ (by rw [hlen]; exact hrow)] at h
    obtain ⟨s', hp, hs⟩ := lin_rounds_path pen er ro w q Ls Rs (foldRow x row) (L + x • t + (x * x) • R)
      (log ++ pen.round (L :: L') (R :: R')) (by simpa using hL) (by simpa using hR)
      (fun L hL => nL L (List.mem_cons_of_mem _ hL)) (fun L hL => nR L (List.mem_cons_of_mem _ hL))
      (by rw [foldRow_length, hrow, pow_succ]; omega) h
    refine ⟨s', ?_, hs⟩
    exact Machine.Path.cons (Mc := linMachine F pen) (er := er) (s := LinState.rounds (q + 1) row t)
      (show List V × List V from (L :: L', R :: R')) hp
  | q + 1, [], _, _, _, _ => by intro h; simp at h
  | q + 1, _, [], _, _, _ => by intro _ h; simp at h
  | q + 1, [] :: _, _, _, _, _ => by intro _ _ h; simp at h
  | q + 1, _, [] :: _, _, _, _ => by intro _ _ _ h; simp at h

/-- `SimpleZK`. -/
theorem lin_beta_path (pen : Pen V E) (er : E → Event) (ro : Hash) (w : F) (q : Nat) (Ls Rs : List (List V))
    (row : List V) (t a : V) (as : List V) (log : List E) (hL : Ls.length = q) (hR : Rs.length = q)
    (nL : ∀ L ∈ Ls, L ≠ []) (nR : ∀ R ∈ Rs, R ≠ []) (hrow : row.length = 2 ^ q)
    (h : let log1 := log ++ pen.first (a :: as)
      let xs := (lmpaQueries pen log1 Ls Rs).map fun l => squeeze F ro (l.map er)
      w • foldedRow xs row = foldedTarget xs (column Ls 0) (column Rs 0) (squeeze F ro (log1.map er) • t + a)) :
    ∃ s', (linMachine F pen).Path er ro (.beta q row t) log (simpleQueries pen log (a :: as) Ls Rs) s' ∧
      (linMachine F pen).good s' := by
  obtain ⟨s', hp, hs⟩ := lin_rounds_path pen er ro w q Ls Rs row _ _ hL hR nL nR hrow h
  refine ⟨s', ?_, hs⟩
  exact Machine.Path.cons (Mc := linMachine F pen) (er := er) (s := LinState.beta q row t)
    (show List V from a :: as) hp

end Qesa.Props
