import Verif.Props.SimpleSim
import Verif.Props.Jobs
import Verif.SpecSimSession
/- C108: sessions of SimpleZK proofs are perfectly zero knowledge in the random-oracle model. -/
namespace Qesa.Props
open Qesa Spec Lmpa

variable {F G : Type} [Field F] [AddCommGroup G] [Module F G]

/-- The simulator of a session: it gets the statements without witnesses, and programs the hash function before each
proof. It returns the hash function at the end and the proofs and the transcript. -/
def simSession {n : Nat} (cd : Codec G) (fuel : Nat) (next : List (SimpleZK F G) → PublicClaim G) :
    (m : Nat) → List (SimpleZK F G) → List Event → Hash → (Fin m → Fin n → F) → (Fin m → Vector UInt8 64) →
      Hash × R (List (SimpleZK F G) × Transcript)
  | 0, past, log, ro, _, _ => (ro, .ok (past, ⟨log⟩))
  | m + 1, past, log, ro, z, v =>
    let c := next past
    let ro' := simHash cd log c.A c.t ro (z 0) (v 0)
    match simProof cd fuel log c.A c.Gs c.t ro (z 0) (v 0) with
    | .error e => (ro', .error e)
    | .ok (p, tr') => simSession cd fuel next m (past ++ [p]) tr'.log ro' (fun i => z i.succ) fun i => v i.succ

/-! ### One proof -/

/-- The history of `beta` if the masks are `r`. -/
def maskHistory (cd : Codec G) (log : List Event) (A : List (List G)) {n : Nat} (r : Fin n → F) : List Event :=
  log ++ ((A.map fun row => dot (List.ofFn r) row).map fun P => .msg "a" (cd.compress P)) ++ [.chal "beta" 64]

def byteVal (F : Type) [Field F] (v : Vector UInt8 64) : F := ((leNat v.toList : Nat) : F)

theorem simHistory_mask (cd : Codec G) (log : List Event) (A : List (List G)) {n : Nat} (w r : Fin n → F)
    (v : Vector UInt8 64) :
    simHistory cd log A (A.map fun row => dot (List.ofFn w) row) (fun i => byteVal F v * w i + r i) v =
      maskHistory cd log A r := by
  unfold simHistory maskHistory byteVal
  rw [simA_shift]

/-- The proof (or panic) and transcript of one honest prover. -/
def oneProof (cd : Codec G) (fuel : Nat) (rest : Tape F) (log : List Event) {n : Nat} (c : KnownClaim F G n) (ro : Hash)
    (r : Fin n → F) : R (SimpleZK F G × Transcript) :=
  (createSimple ⟨cd, ro⟩ fuel ⟨log⟩ (tapeOf rest r) c.A c.Gs (List.ofFn c.w)).map fun x => (x.1, x.2.1)

theorem simProof_oneProof (cd : Codec G) (fuel : Nat) (rest : Tape F) (log : List Event) {n : Nat} (c : KnownClaim F G n)
    (ro ro' : Hash) (r : Fin n → F)
    (h : program ro' (maskHistory cd log c.A r) (ro (maskHistory cd log c.A r)) = ro) :
    simProof cd fuel log c.A c.Gs c.toPublic.t ro'
      (fun i => byteVal F (ro (maskHistory cd log c.A r)) * c.w i + r i) (ro (maskHistory cd log c.A r)) =
      oneProof cd fuel rest log c ro r := by
  obtain ⟨A, Gs, w, hs⟩ := c
  subst hs
  unfold simProof simHash oneProof KnownClaim.toPublic
  simp only at h ⊢
  rw [simHistory_mask, h, createSimple_eq]
  dsimp only
  rw [tapeOf_first]
  have hβ : simpleBeta F (⟨cd, ro⟩ : Ctx G) log (A.map fun row => dot (List.ofFn r) row) =
      byteVal F (ro (maskHistory cd log A r)) := rfl
  rw [hβ, zipWith_ofFn]
  unfold byteVal
  rw [simA_shift]
  change _ = Except.map _ (Except.map _ (Lmpa.create _ fuel ⟨maskHistory cd log A r⟩ A Gs _))
  cases Lmpa.create ⟨cd, ro⟩ fuel ⟨maskHistory cd log A r⟩ A Gs
    (List.ofFn fun i => ((leNat (ro (maskHistory cd log A r)).toList : Nat) : F) * w i + r i) <;> rfl

theorem oneProof_log {cd : Codec G} {fuel : Nat} {rest : Tape F} {log : List Event} {n : Nat} {c : KnownClaim F G n}
    {ro : Hash} {r : Fin n → F} {x : SimpleZK F G × Transcript} (h : oneProof cd fuel rest log c ro r = .ok x) :
    maskHistory cd log c.A r <+: x.2.log ∧
      ∀ ro', (∀ l, ro' l ≠ ro l → x.2.log.length < l.length) → oneProof cd fuel rest log c ro' r = .ok x := by
  classical
  obtain ⟨A, Gs, w, hs⟩ := c
  subst hs
  unfold oneProof at h ⊢
  simp only at h ⊢
  obtain ⟨y, hy, e⟩ := map_eq_ok h
  subst e
  obtain ⟨p, tr', tape'⟩ := y
  constructor
  · rw [createSimple_eq] at hy
    dsimp only at hy
    rw [tapeOf_first] at hy
    obtain ⟨u, hu, e⟩ := map_eq_ok hy
    simp only [Prod.mk.injEq] at e
    obtain ⟨-, rfl, -⟩ := e
    exact (C105_lmpa_create _ _ _ _ _ _ _ _ _ hu).1
  · intro ro' hro
    rw [(C105_simple_create _ _ _ _ _ _ _ _ _ _ _ hy).2 ro' fun l s h1 h2 => by
      by_contra hne
      exact absurd h2.length_le (by have := hro _ hne; simp only at this ⊢; omega)]
    rfl

/-! ### Finitely many proofs -/

omit [AddCommGroup G] in
theorem challengesIn_points (label : String) (f : G → Comp) (l : List G) :
    challengesIn (l.map fun P => Event.msg label (f P)) = 0 := by
  induction l with
  | nil => rfl
  | cons a l ih => exact ih

theorem createLoop_challenges (cx : Ctx G) : ∀ (fuel n : Nat) (A : List (List G)) (w : List F) (tr : Transcript)
    (r : NoZK F G × Transcript), createLoop cx fuel n A w tr = .ok r →
    challengesIn r.2.log ≤ challengesIn tr.log + fuel := by
  intro fuel
  induction fuel with
  | zero => intro n A w tr r h; cases h
  | succ fuel ih =>
    intro n A w tr r h
    rw [createLoop] at h
    split at h
    · obtain ⟨w0, -, h⟩ := bind_eq_ok.1 h
      cases h
      exact Nat.le_add_right _ _
    · simp only [Ipa.challengeScalar_eq, absorb_eq] at h
      obtain ⟨A', -, h⟩ := bind_eq_ok.1 h
      obtain ⟨⟨p, tr'⟩, h1, h⟩ := bind_eq_ok.1 h
      cases h
      have := ih _ _ _ _ _ h1
      simp only [challengesIn_append, pointsLog, challengesIn_points] at this
      have e : challengesIn [Event.chal "challenge" 64] = 1 := rfl
      simp only [e] at this ⊢
      omega

theorem oneProof_challenges {cd : Codec G} {fuel : Nat} {rest : Tape F} {log : List Event} {n : Nat}
    {c : KnownClaim F G n} {ro : Hash} {r : Fin n → F} {x : SimpleZK F G × Transcript}
    (h : oneProof cd fuel rest log c ro r = .ok x) : challengesIn x.2.log ≤ challengesIn log + 1 + fuel := by
  unfold oneProof at h
  obtain ⟨y, hy, e⟩ := map_eq_ok h
  subst e
  rw [createSimple_eq] at hy
  obtain ⟨u, hu, e⟩ := map_eq_ok hy
  subst e
  have := createLoop_challenges _ _ _ _ _ _ _ hu
  have e : challengesIn [Event.chal "beta" 64] = 1 := rfl
  simpa only [simpleLog, challengesIn_append, pointsLog, challengesIn_points, e, Nat.add_zero] using this

theorem oneProof_finite [Finite F] (cd : Codec G) (fuel : Nat) (rest : Tape F) (log : List Event) {n : Nat}
    (c : KnownClaim F G n) : {x | ∃ ro r, oneProof cd fuel rest log c ro r = .ok x}.Finite := by
  classical
  have h : ∀ r, {x | ∃ ro, oneProof cd fuel rest log c ro r = .ok x}.Finite := fun r => by
    refine (finite_outcomes (fun ro x => oneProof cd fuel rest log c ro r = .ok x) (fun x => asked x.2.log) ?_ ?_
      (challengesIn log + 1 + fuel) ∅ (fun _ => default)).subset ?_
    · intro ro x hx ro' hro
      unfold oneProof at hx ⊢
      obtain ⟨⟨p, tr', tape'⟩, hy, e⟩ := map_eq_ok hx
      subst e
      rw [(C105_simple_create _ _ _ _ _ _ _ _ _ _ _ hy).2 ro' (agree_of_asked hro)]
      rfl
    · intro ro a a' h1 h2
      rw [h1] at h2
      cases h2
      rfl
    · rintro x ⟨ro, hx⟩
      refine ⟨ro, by simp, hx, ?_⟩
      rw [Finset.sdiff_empty]
      exact (card_asked _).trans (oneProof_challenges hx)
  refine (Set.finite_iUnion h).subset ?_
  rintro x ⟨ro, r, hx⟩
  exact Set.mem_iUnion.2 ⟨r, ro, hx⟩

/-! ### Sessions -/

/-- The exchange of real and simulated sessions. -/
theorem session_exchange [Finite F] {n : Nat} (cd : Codec G) (fuel : Nat) (rest : Tape F)
    (next : List (SimpleZK F G) → KnownClaim F G n) : ∀ (m : Nat) (past : List (SimpleZK F G)) (log : List Event),
    ∃ (D0 : Finset (List Event)) (e : Hash × (Fin m → Fin n → F) × (Fin m → Vector UInt8 64) →
      Hash × (Fin m → Fin n → F) × (Fin m → Vector UInt8 64)), Function.Injective e ∧
      ∀ x, (∀ l, (e x).1 l ≠ x.1 l → l ∈ D0 ∧ log.length < l.length) ∧
        simSession cd fuel (fun past => (next past).toPublic) m past log (e x).1 (e x).2.1 (e x).2.2 =
          (x.1, proverSession ⟨cd, x.1⟩ fuel next m past ⟨log⟩ fun i => tapeOf rest (x.2.1 i)) := by
  classical
  let _ := Fintype.ofFinite F
  intro m
  induction m with
  | zero => exact fun past log => ⟨∅, id, Function.injective_id, fun x => ⟨fun l h => absurd rfl h, rfl⟩⟩
  | succ m ih =>
    intro past log
    choose D' e' inj' spec' using ih
    set c := next past with hc
    let later : R (SimpleZK F G × Transcript) → Hash × (Fin m → Fin n → F) × (Fin m → Vector UInt8 64) →
        Hash × (Fin m → Fin n → F) × (Fin m → Vector UInt8 64) := fun res => match res with
      | .ok x => e' (past ++ [x.1]) x.2.log
      | .error _ => id
    have later_inj : ∀ res, Function.Injective (later res) := by
      rintro (_ | x)
      · exact Function.injective_id
      · exact inj' _ _
    have hfin := oneProof_finite cd fuel rest log c
    let H : (Fin n → F) → List Event := maskHistory cd log c.A
    let D0 : Finset (List Event) := Finset.univ.image H ∪ hfin.toFinset.biUnion fun x => D' (past ++ [x.1]) x.2.log
    have hl : ∀ (h : Hash) (r : Fin n → F) (u : (Fin m → Fin n → F) × (Fin m → Vector UInt8 64)),
        (∀ l, (later (oneProof cd fuel rest log c h r) (h, u)).1 l ≠ h l → l ∈ D0 ∧ (H r).length < l.length) ∧
        oneProof cd fuel rest log c (later (oneProof cd fuel rest log c h r) (h, u)).1 r =
          oneProof cd fuel rest log c h r := by
      intro h r u
      cases hres : oneProof cd fuel rest log c h r with
      | error err => exact ⟨fun l hne => absurd rfl hne, hres⟩
      | ok x =>
        have sp := (spec' (past ++ [x.1]) x.2.log (h, u)).1
        obtain ⟨g1, g2⟩ := oneProof_log hres
        refine ⟨fun l hne => ?_, g2 _ fun l hne => (sp l hne).2⟩
        have := sp l hne
        refine ⟨Finset.mem_union_right _ (Finset.mem_biUnion.2 ⟨x, hfin.mem_toFinset.2 ⟨h, r, hres⟩, this.1⟩), ?_⟩
        exact g1.length_le.trans_lt this.2
    have keep : ∀ (h : Hash) (r : Fin n → F) (u : (Fin m → Fin n → F) × (Fin m → Vector UInt8 64)),
        (later (oneProof cd fuel rest log c h r) (h, u)).1 (H r) = h (H r) := by
      intro h r u
      by_contra hne
      exact absurd ((hl h r u).1 _ hne).2 (lt_irrefl _)
    have hlog : ∀ r, log.length < (H r).length := by
      intro r
      simp only [H, maskHistory, List.length_append, List.length_map, List.length_singleton]
      omega
    let y : Hash × (Fin (m + 1) → Fin n → F) × (Fin (m + 1) → Vector UInt8 64) →
        Hash × (Fin m → Fin n → F) × (Fin m → Vector UInt8 64) := fun x =>
      later (oneProof cd fuel rest log c x.1 (x.2.1 0)) (x.1, (fun i => x.2.1 i.succ), fun i => x.2.2 i.succ)
    let e : Hash × (Fin (m + 1) → Fin n → F) × (Fin (m + 1) → Vector UInt8 64) →
        Hash × (Fin (m + 1) → Fin n → F) × (Fin (m + 1) → Vector UInt8 64) := fun x =>
      (Function.update (y x).1 (H (x.2.1 0)) (x.2.2 0),
        Fin.cons (fun i => byteVal F (x.1 (H (x.2.1 0))) * c.w i + x.2.1 0 i) (y x).2.1,
        Fin.cons (x.1 (H (x.2.1 0))) (y x).2.2)
    refine ⟨D0, e, ?_, ?_⟩
    · intro x x' hx
      simp only [e, Prod.mk.injEq, Fin.cons_inj] at hx
      obtain ⟨h1, ⟨h2, h3⟩, h4, h5⟩ := hx
      have hr : x.2.1 0 = x'.2.1 0 := by
        funext i
        have := congrFun h2 i
        rw [h4] at this
        exact add_left_cancel this
      rw [hr] at h1 h4
      have hy1 : (y x).1 = (y x').1 := by
        funext l
        by_cases hlH : l = H (x'.2.1 0)
        · have k1 := keep x.1 (x.2.1 0) ((fun i => x.2.1 i.succ), fun i => x.2.2 i.succ)
          have k2 := keep x'.1 (x'.2.1 0) ((fun i => x'.2.1 i.succ), fun i => x'.2.2 i.succ)
          rw [hr] at k1
          rw [hlH]
          simp only [y, hr]
          rw [k1, k2, h4]
        · have := congrFun h1 l
          rwa [Function.update_of_ne hlH, Function.update_of_ne hlH] at this
      have hv : x.2.2 0 = x'.2.2 0 := by
        have := congrFun h1 (H (x'.2.1 0))
        rwa [Function.update_self, Function.update_self] at this
      have hone : oneProof cd fuel rest log c x.1 (x.2.1 0) = oneProof cd fuel rest log c x'.1 (x'.2.1 0) := by
        rw [← (hl x.1 (x.2.1 0) ((fun i => x.2.1 i.succ), fun i => x.2.2 i.succ)).2,
          ← (hl x'.1 (x'.2.1 0) ((fun i => x'.2.1 i.succ), fun i => x'.2.2 i.succ)).2]
        change oneProof cd fuel rest log c (y x).1 _ = oneProof cd fuel rest log c (y x').1 _
        rw [hy1, hr]
      have hy : y x = y x' := Prod.ext hy1 (Prod.ext h3 h5)
      simp only [y, hone] at hy
      have := later_inj _ hy
      simp only [Prod.mk.injEq] at this
      obtain ⟨a1, a2, a3⟩ := this
      refine Prod.ext a1 (Prod.ext ?_ ?_)
      · funext i
        refine Fin.cases hr (fun i => congrFun a2 i) i
      · funext i
        refine Fin.cases hv (fun i => congrFun a3 i) i
    · intro x
      have k := keep x.1 (x.2.1 0) ((fun i => x.2.1 i.succ), fun i => x.2.2 i.succ)
      have hx := hl x.1 (x.2.1 0) ((fun i => x.2.1 i.succ), fun i => x.2.2 i.succ)
      change (y x).1 _ = _ at k
      change (∀ l, (y x).1 l ≠ _ → _) ∧ oneProof cd fuel rest log c (y x).1 _ = _ at hx
      constructor
      · intro l hne
        by_cases hlH : l = H (x.2.1 0)
        · rw [hlH]
          exact ⟨Finset.mem_union_left _ (Finset.mem_image_of_mem _ (Finset.mem_univ _)), hlog _⟩
        · simp only [e] at hne
          rw [Function.update_of_ne hlH] at hne
          obtain ⟨b1, b2⟩ := hx.1 l hne
          exact ⟨b1, (hlog _).trans b2⟩
      · have hprog : program (e x).1 (H (x.2.1 0)) (x.1 (H (x.2.1 0))) = (y x).1 := by
          simp only [e, program, Function.update_idem]
          exact Function.update_eq_self_iff.2 k.symm
        have hsh : simHash cd log c.A c.toPublic.t (e x).1 ((e x).2.1 0) ((e x).2.2 0) = (y x).1 := by
          unfold simHash
          simp only [e, Fin.cons_zero, KnownClaim.toPublic]
          rw [simHistory_mask]
          exact hprog
        have hsp : simProof cd fuel log c.A c.Gs c.toPublic.t (e x).1 ((e x).2.1 0) ((e x).2.2 0) =
            oneProof cd fuel rest log c x.1 (x.2.1 0) := by
          rw [← hx.2]
          have := simProof_oneProof cd fuel rest log c (y x).1 (e x).1 (x.2.1 0) (by rw [k]; exact hprog)
          rw [k] at this
          exact this
        rw [simSession, proverSession]
        simp only
        rw [← hc]
        change (match simProof cd fuel log c.A c.Gs c.toPublic.t (e x).1 ((e x).2.1 0) ((e x).2.2 0) with
          | .error err => (simHash cd log c.A c.toPublic.t (e x).1 ((e x).2.1 0) ((e x).2.2 0), Except.error err)
          | .ok (p, tr') => simSession cd fuel (fun past => (next past).toPublic) m (past ++ [p]) tr'.log
              (simHash cd log c.A c.toPublic.t (e x).1 ((e x).2.1 0) ((e x).2.2 0)) (fun i => (e x).2.1 i.succ)
              fun i => (e x).2.2 i.succ) = _
        rw [hsh, hsp]
        cases hres : oneProof cd fuel rest log c x.1 (x.2.1 0) with
        | error err =>
          have hyx : (y x).1 = x.1 := by simp only [y, hres]; rfl
          unfold oneProof at hres
          simp only [hyx]
          cases hcs : createSimple ⟨cd, x.1⟩ fuel ⟨log⟩ (tapeOf rest (x.2.1 0)) c.A c.Gs (List.ofFn c.w) with
          | error err' => rw [hcs] at hres; cases hres; rfl
          | ok _ => rw [hcs] at hres; cases hres
        | ok r =>
          have hyx : y x = e' (past ++ [r.1]) r.2.log (x.1, (fun i => x.2.1 i.succ), fun i => x.2.2 i.succ) := by
            simp only [y, hres]; rfl
          have sp := (spec' (past ++ [r.1]) r.2.log (x.1, (fun i => x.2.1 i.succ), fun i => x.2.2 i.succ)).2
          rw [← hyx] at sp
          unfold oneProof at hres
          cases hcs : createSimple ⟨cd, x.1⟩ fuel ⟨log⟩ (tapeOf rest (x.2.1 0)) c.A c.Gs (List.ofFn c.w) with
          | error err' => rw [hcs] at hres; cases hres
          | ok u => rw [hcs] at hres; cases hres; exact sp

/-- C108: sessions of SimpleZK proofs are perfectly zero knowledge in the random-oracle model. The statements may depend on
the earlier proofs. For every event `E` that depends on the whole hash function and on the result of the session (proofs,
transcript, panic) the probability is the same for the prover, which uses the witnesses, and for the simulator, which gets
the statements only and chooses one value of the hash function per proof. -/
theorem C108_session_zero_knowledge [Finite F] {n : Nat} (cd : Codec G) (fuel : Nat) (rest : Tape F)
    (next : List (SimpleZK F G) → KnownClaim F G n) (m : Nat) (log : List Event) :
    ∃ D0 : Finset (List Event), ∀ D, D0 ⊆ D → ∀ (ro : Hash)
      (E : Hash → R (List (SimpleZK F G) × Transcript) → Prop),
      chanceSession ro D rest n m (fun ro τ => E ro (proverSession ⟨cd, ro⟩ fuel next m [] ⟨log⟩ τ)) =
      chanceSessionSim ro D n m fun ro z v =>
        let s := simSession cd fuel (fun past => (next past).toPublic) m [] log ro z v
        E s.1 s.2 := by
  classical
  obtain ⟨D0, e, inj, spec⟩ := session_exchange cd fuel rest next m [] log
  refine ⟨D0, fun D hD ro E => ?_⟩
  let X := (D → Vector UInt8 64) × (Fin m → Fin n → F) × (Fin m → Vector UInt8 64)
  let lift : X → Hash × (Fin m → Fin n → F) × (Fin m → Vector UInt8 64) := fun x => (patch ro D x.1, x.2)
  have lift_inj : Function.Injective lift := by
    intro x x' h
    simp only [lift, Prod.mk.injEq] at h
    refine Prod.ext (funext fun l => ?_) h.2
    have := congrFun h.1 l.1
    simpa [patch] using this
  let g : X → X := fun x => (fun l => (e (lift x)).1 l.1, (e (lift x)).2)
  have hg : ∀ x, lift (g x) = e (lift x) := by
    intro x
    refine Prod.ext (funext fun l => ?_) rfl
    simp only [lift, g, patch]
    by_cases hl : l ∈ D
    · rw [dif_pos hl]
    · rw [dif_neg hl]
      by_contra hne
      have h2 := (spec (lift x)).1 l fun h => hne (by rw [h]; simp [lift, patch, hl])
      exact hl (hD h2.1)
  have g_inj : Function.Injective g := fun x x' h => lift_inj (inj (by rw [← hg, ← hg, h]))
  let q : X ≃ X := Equiv.ofBijective g (Finite.injective_iff_bijective.1 g_inj)
  have key : ∀ x : X, E (patch ro D x.1) (proverSession ⟨cd, patch ro D x.1⟩ fuel next m [] ⟨log⟩
        fun i => tapeOf rest (x.2.1 i)) ↔
      E (simSession cd fuel (fun past => (next past).toPublic) m [] log (patch ro D (q x).1) (q x).2.1 (q x).2.2).1
        (simSession cd fuel (fun past => (next past).toPublic) m [] log (patch ro D (q x).1) (q x).2.1 (q x).2.2).2 := by
    intro x
    have h := (spec (lift x)).2
    rw [← hg] at h
    change simSession cd fuel (fun past => (next past).toPublic) m [] log (patch ro D (q x).1) (q x).2.1 (q x).2.2 = _ at h
    rw [h]
  have hcard : Nat.card {s : X // E (simSession cd fuel (fun past => (next past).toPublic) m [] log (patch ro D s.1) s.2.1
        s.2.2).1 (simSession cd fuel (fun past => (next past).toPublic) m [] log (patch ro D s.1) s.2.1 s.2.2).2} =
      Nat.card {x : (D → Vector UInt8 64) × (Fin m → Fin n → F) // E (patch ro D x.1) (proverSession ⟨cd, patch ro D x.1⟩
        fuel next m [] ⟨log⟩ fun i => tapeOf rest (x.2 i))} * Nat.card (Fin m → Vector UInt8 64) := by
    rw [← Nat.card_prod]
    refine Nat.card_congr ((q.subtypeEquiv key).symm.trans ?_)
    exact
      { toFun := fun z => (⟨(z.1.1, z.1.2.1), z.2⟩, z.1.2.2)
        invFun := fun z => ⟨(z.1.1.1, z.1.1.2, z.2), z.1.2⟩
        left_inv := fun _ => rfl
        right_inv := fun _ => rfl }
  unfold chanceSession chanceSessionSim
  have hb : Nat.card (Fin m → Vector UInt8 64) = (2 ^ 512) ^ m := by
    rw [Nat.card_fun, Nat.card_eq_fintype_card (α := Vector UInt8 64), card_bytes, Nat.card_eq_fintype_card, Fintype.card_fin]
  dsimp only
  rw [hcard, hb, Nat.cast_mul, Nat.cast_pow, Nat.cast_pow, Nat.cast_ofNat]
  rw [mul_div_mul_right _ _ (by positivity)]

section
open Toy

/-- The statement of each proof of a session: the matrix depends on the first message of the first proof. -/
def exSimNext (past : List (SimpleZK K K)) : KnownClaim K K 2 :=
  match past.flatMap fun p => p.a with
  | [] => ⟨[[3, 5]], [1, 1], ![2, 5], rfl⟩
  | x :: _ => ⟨[[x, 2 * x]], [1, 1], ![4, 0], rfl⟩

/-- The simulator makes two proofs without the witnesses; under the hash function that it returns the verifier accepts them
one after the other and ends in the transcript of the simulator. Under the original hash function it rejects the first. -/
example : (match simSession codec 3 (fun past => (exSimNext past).toPublic) 2 [] [] cx.ro ![![3, 4], ![5, 6]]
      ![Vector.replicate 64 7, Vector.replicate 64 8] with
    | (ro, .ok ([p, q], tr)) =>
      (match p.verify ⟨codec, ro⟩ 3 ⟨[]⟩ (exSimNext []).A [1, 1] 2 (exSimNext []).toPublic.t with
      | .ok (b, tr₁) => b && decide (q.verify ⟨codec, ro⟩ 3 tr₁ (exSimNext [p]).A [1, 1] 2 (exSimNext [p]).toPublic.t =
          .ok (true, tr))
      | .error _ => false) &&
      (p.verify cx 3 ⟨[]⟩ (exSimNext []).A [1, 1] 2 (exSimNext []).toPublic.t).map Prod.fst == .ok false
    | _ => false) = true := by
  decide +kernel

/-- The theorem for this session and the event that both proofs end with the same scalar. -/
example : ∃ D0 : Finset (List Event), ∀ D, D0 ⊆ D → ∀ ro : Hash,
    chanceSession ro D exTape 2 2 (fun ro τ => ∃ p q tr', proverSession ⟨codec, ro⟩ 3 exSimNext 2 [] ⟨[]⟩ τ =
      .ok ([p, q], tr') ∧ p.no_zk.w = q.no_zk.w) =
    chanceSessionSim ro D 2 2 fun ro (z : Fin 2 → Fin 2 → K) v => ∃ p q tr',
      (simSession codec 3 (fun past => (exSimNext past).toPublic) 2 [] [] ro z v).2 = .ok ([p, q], tr') ∧
        p.no_zk.w = q.no_zk.w := by
  obtain ⟨D0, h⟩ := C108_session_zero_knowledge codec 3 exTape exSimNext 2 []
  exact ⟨D0, fun D hD ro => h D hD ro fun _ x => ∃ p q tr', x = .ok ([p, q], tr') ∧ p.no_zk.w = q.no_zk.w⟩
end

end Qesa.Props
