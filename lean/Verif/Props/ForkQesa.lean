import Verif.Proofs.QesaFork
import Verif.Props.Fork
import Verif.Props.QesaAny
/-
C93: forking for QESA. Provers are arbitrary: they need not be algebraic.
-/
namespace Qesa.Props
open Qesa Spec Ipa
variable {F G : Type} [Field F] [DecidableEq F] [AddCommGroup G] [Module F G] [DecidableEq G] {m k : Nat}

/-- The queries of the verifier of QESA. -/
def qesaVerifierQueries (cd : Codec G) (log : List Event) (Gs Hs : List G) (Q : G)
    (Ms : Fin k → Matrix (Fin m) (Fin m) F) (r : Nat) (p : Inner.Proof F) : Algo Event Unit :=
  .ask (log ++ [.msg "c_prime_w" p.c_prime_w, .chal "x" 64]) fun vx =>
  .ask (log ++ [.msg "c_prime_w" p.c_prime_w, .chal "x" 64, .msg "c_prime_prime_w" p.c_prime_prime_w,
    .chal "s" 64]) fun vs =>
  .ask (log ++ [.msg "c_prime_w" p.c_prime_w, .chal "x" 64, .msg "c_prime_prime_w" p.c_prime_prime_w,
    .chal "s" 64, .chal "b" 64]) fun vb =>
    let x : F := (leNat vx.toList : Nat)
    let s : F := (leNat vs.toList : Nat)
    let b : F := (leNat vb.toList : Nat)
    let M := batched (m + 2) Ms x
    let C_w := qesaPoint M Gs Hs ((cd.decompress p.c_prime_w).getD 0) ((cd.decompress p.c_prime_prime_w).getD 0) x s b
    almVerifierQueries cd (log ++ qesaHead p.c_prime_w p.c_prime_prime_w (cd.compress C_w)) (m + 2) r Q C_w
      (- quad M (powers s m)) p.alm_zk

omit [DecidableEq F] [DecidableEq G] in
theorem qesaVerifierQueries_asked (cd : Codec G) (log : List Event) (Gs Hs : List G) (Q : G)
    (Ms : Fin k → Matrix (Fin m) (Fin m) F) (r : Nat) (p : Inner.Proof F) (ro : Hash) :
    (qesaVerifierQueries cd log Gs Hs Q Ms r p).asked id ro =
      (qesaHistories cd ro log Gs Hs Q Ms p).take (r + 4) := by
  simp only [qesaVerifierQueries, Algo.asked, almVerifierQueries_asked, qesaHistories, List.take_succ_cons, List.map_id]
  rfl

omit [DecidableEq F] [DecidableEq G] in
theorem qesaVerifierQueries_atMost (cd : Codec G) (log : List Event) (Gs Hs : List G) (Q : G)
    (Ms : Fin k → Matrix (Fin m) (Fin m) F) (r : Nat) (p : Inner.Proof F) :
    (qesaVerifierQueries cd log Gs Hs Q Ms r p).AtMost (r + 4) :=
  fun _ _ _ => almVerifierQueries_atMost _ _ _ r _ _ _ _

/-- An accepted proof of QESA has `q` points `L`. -/
theorem qesa_rounds {cd : Codec G} {ro : Hash} {log : List Event} {Gs Hs : List G} {Q : G} {q : Nat}
    {Ms : Fin (k + 1) → Matrix (Fin m) (Fin m) F} {p : Inner.Proof F} {tr' : Transcript} (hq : m + 2 = 2 ^ q)
    (hG : Gs.length = m + 2) (hH : Hs.length = m + 2)
    (h : p.verify ⟨cd, ro⟩ ⟨log⟩ Gs Hs Q ⟨List.ofFn fun i => rows (Ms i)⟩ = .ok (true, tr')) :
    p.alm_zk.NoZK.L_vec.length = q := by
  obtain ⟨-, -, -, tr'', h⟩ := qesa_accepted_alm cd (fun _ => log) (fun _ => ()) (acc := fun ro' => ro' = ro) hq Gs Hs hG
    hH Q (fun _ => Ms) (fun _ => p) (by rintro _ rfl; exact ⟨tr', h⟩) ro rfl
  exact alm_rounds h

/-- The chance that a prover is accepted but cannot be rewound; `acc` may contain further conditions. -/
theorem qesa_rewinding {q T M : Nat} (hq : m + 2 = 2 ^ q) (cd : Codec G) (Gs Hs : List G) (hG : Gs.length = m + 2)
    (hH : Hs.length = m + 2) (Q : G) (Ms : Fin (k + 1) → Matrix (Fin m) (Fin m) F) (log : List Event)
    (A : Algo Event (Zk.Proof F)) (hT : A.AtMost T) (ro : Hash) (D : Finset (List Event))
    (hD : ∀ ro, ∀ l ∈ A.asked id ro ++ qesaHistories cd ro log Gs Hs Q Ms (A.run id ro).inner, l ∈ D)
    (Acc : Hash → Prop) (hAcc : ∀ ro, Acc ro → ∃ tr', (A.run id ro).verify ⟨cd, ro⟩ ⟨log⟩ Gs Hs Q
      ⟨List.ofFn fun i => rows (Ms i)⟩ = .ok (true, tr')) :
    chance ro D (fun ro => Acc ro ∧
      ¬ Branches Acc (fun ro i => (qesaHistories cd ro log Gs Hs Q Ms (A.run id ro).inner)[i]?) M (q + 5) 0 ro) ≤
    ((T + (q + 5)) * (M - 1) : Nat) / 2 ^ 512 := by
  refine forking_by List.length A hT (fun p => qesaVerifierQueries cd log Gs Hs Q Ms (q + 1) p.inner)
    (fun p => qesaVerifierQueries_atMost cd log Gs Hs Q Ms _ p.inner) Acc
    (fun ro => qesaHistories cd ro log Gs Hs Q Ms (A.run id ro).inner) (fun i => log.length + qesaRest i)
    (fun i j h => qesaRest_injective (by simpa using h)) ?_ ro D ?_
  · intro ro h i l hl
    obtain ⟨tr', h⟩ := hAcc ro h
    obtain ⟨t, h1, h2, -⟩ := qesaHistories_shape hl
    refine ⟨by rw [h1, List.length_append, h2], List.mem_append_right _ ?_⟩
    rw [qesaVerifierQueries_asked]
    have hr := qesa_rounds hq hG hH (show (A.run id ro).inner.verify _ _ _ _ _ _ = _ from h)
    rw [List.take_of_length_le (by simp [qesaHistories, almHistories, ipaHistories]; omega)]
    exact List.mem_of_getElem? hl
  · intro ro l hl
    apply hD ro
    rw [qesaVerifierQueries_asked] at hl
    rcases List.mem_append.1 hl with hl | hl
    · exact List.mem_append_left _ hl
    · exact List.mem_append_right _ (List.mem_of_mem_take hl)

/-- C93: a prover of QESA that is accepted can be rewound at all challenges. -/
theorem C93_qesa_rewinding {q T M : Nat} (hq : m + 2 = 2 ^ q) (cd : Codec G) (Gs Hs : List G) (hG : Gs.length = m + 2)
    (hH : Hs.length = m + 2) (Q : G) (Ms : Fin (k + 1) → Matrix (Fin m) (Fin m) F) (log : List Event)
    (A : Algo Event (Zk.Proof F)) (hT : A.AtMost T) (ro : Hash) (D : Finset (List Event))
    (hD : ∀ ro, ∀ l ∈ A.asked id ro ++ qesaHistories cd ro log Gs Hs Q Ms (A.run id ro).inner, l ∈ D) :
    let Acc := fun ro => ∃ tr', (A.run id ro).verify ⟨cd, ro⟩ ⟨log⟩ Gs Hs Q ⟨List.ofFn fun i => rows (Ms i)⟩ =
      .ok (true, tr')
    chance ro D (fun ro => Acc ro ∧
      ¬ Branches Acc (fun ro i => (qesaHistories cd ro log Gs Hs Q Ms (A.run id ro).inner)[i]?) M (q + 5) 0 ro) ≤
    ((T + (q + 5)) * (M - 1) : Nat) / 2 ^ 512 :=
  qesa_rewinding hq cd Gs Hs hG hH Q Ms log A hT ro D hD _ fun _ h => h

/-- A prover of QESA that forks at the challenges after `x` delivers; `Acc` may contain further conditions. -/
theorem qesa_extraction {q : Nat} (hq : m + 2 = 2 ^ q) (cd : Codec G) (Gs Hs : List G)
    (hG : Gs.length = m + 2) (hH : Hs.length = m + 2) (Q : G) (Ms : Fin (k + 1) → Matrix (Fin m) (Fin m) F)
    (log : List Event)
    {K : Nat → Nat} (hK : ∀ i, 4 ≤ K i) (hKm : m + 1 ≤ K 1) (A : Hash → Zk.Proof F) (Acc : Hash → Prop)
    (hAcc : ∀ ro, Acc ro → ∃ tr', (A ro).verify ⟨cd, ro⟩ ⟨log⟩ Gs Hs Q ⟨List.ofFn fun i => rows (Ms i)⟩ = .ok (true, tr'))
    (ro : Hash) :
    let c' := (A ro).inner.c_prime_w
    let c'' := (A ro).inner.c_prime_prime_w
    let x := qesaX F ro log c'
    let M' := batched (m + 2) Ms x
    Forks (scalarOf F) Acc (fun ro i => (qesaHistories cd ro log Gs Hs Q Ms (A ro).inner)[i]?) K (q + 4) 1 ro → x ≠ 0 →
    ∃ (C' C'' : G) (s : Fin (m + 1) → F) (b : Fin (m + 1) → Fin 3 → F)
      (β : Fin (m + 1) → Fin 3 → Fin 3 → F) (α : Fin (m + 1) → Fin 3 → Fin 3 → Fin 2 → F)
      (T : Fin (m + 1) → Fin 3 → Fin 3 → Fin 2 → IpaTree F G q),
      c' = cd.compress C' ∧ c'' = cd.compress C'' ∧
      (∀ i j l e, ∀ c ∈ (T i j l e).paths, ∃ ro', Reprogrammed (q + 4) ro ro' ∧ Acc ro' ∧
        let p := (A ro').inner
        let lg1 := qesaLog cd ro' log Gs Hs Ms p
        let c1 := qesaClaimed cd ro' log Gs Hs Ms p
        let lg2 := almLog cd ro' lg1 Q c1.1 c1.2 p.alm_zk.C_r
        p.c_prime_w = c' ∧ p.c_prime_prime_w = c'' ∧ qesaX F ro' log c' = x ∧ qesaS F ro' log c' c'' = s i ∧
        qesaB F ro' log c' c'' = b i j ∧ almBeta F ro' lg1 p.alm_zk.C_r = β i j l ∧
        ipaAlpha F ro' lg2 (2 ^ q) = α i j l e ∧
        Continues cd p.alm_zk.NoZK (ipaChallenges F ro' lg2 (2 ^ q) p.alm_zk.NoZK.L_vec p.alm_zk.NoZK.R_vec) c) ∧
      match extractQesa M' x s b fun i j => extractAlm (- quad M' (powers (s i) m)) (β i j) (α i j)
          fun l e => (T i j l e).scalars with
      | .inl (w, v) => ∃ (u : Fin m → F) (r0 r1 : F),
          w = List.ofFn u ++ [r0, r1] ∧ v = List.ofFn (M'.mulVec u) ++ [-r1, r0] ∧ quad M' u = 0 ∧
          C' + C'' = dot w (rescaled (x ^ 2) Gs) + (1 - (x ^ 2)⁻¹) • Gs.headD 0 + dot v Hs
      | .inr r => IsRelation Gs Hs Q r := by
  intro c' c'' x M' hbr hx
  have hac := qesa_accepted_alm cd (fun _ => log) (fun _ => ()) (acc := Acc) hq Gs Hs hG
    hH Q (fun _ => Ms) (fun ro => (A ro).inner) hAcc ro hbr.acc
  obtain ⟨s, b, C_r, β, α, T, h1, h2, h3, h4, h5, h6, h7⟩ := qesa_forks cd hK (acc := Acc)
    (key := fun ro i => (qesaHistories cd ro log Gs Hs Q Ms (A ro).inner)[i]?) 0
    hKm (fun _ => log) (fun _ => ()) hq Gs Hs hG hH Q (fun _ => Ms) (fun ro => (A ro).inner) hAcc
    (fun ro j _ => by rw [Nat.zero_add]) (fun _ _ _ _ _ _ _ _ => rfl) ro hbr
  refine ⟨_, _, s, b, β, α, T, hac.2.1, hac.2.2.1, fun i j l e c hc => ?_,
    qesa_special_soundness_of_accepts hq Gs Hs hG hH Q _ _ Ms x hx s h1 b h2 C_r β h3 α h4 h5 T h6
      fun i j l e c hc => (h7 i j l e c hc).1⟩
  obtain ⟨-, ro', e1, e2, -, -, e3, e4, e5, e6, e7, -, e8, e9, e10⟩ := h7 i j l e c hc
  simp only [xOf, sOf, bOf, e3, e4] at e5 e6 e7
  exact ⟨ro', e1, e2, e3, e4, e5, e6, e7, e8, e9, e10⟩

/-- C93: a prover of QESA that can be rewound at the challenges after `x` delivers. All conversations of the trees come
from accepted runs of the prover with the same points `C'` and `C''` and the same `x ≠ 0`, and from their scalars the
extractor of C61 computes an opening of `C' + C''` to a solution of the batched equation, or else a relation. -/
theorem C93_qesa_extraction {q B M : Nat} (hq : m + 2 = 2 ^ q) (cd : Codec G) (Gs Hs : List G)
    (hG : Gs.length = m + 2) (hH : Hs.length = m + 2) (Q : G) (Ms : Fin (k + 1) → Matrix (Fin m) (Fin m) F)
    (log : List Event)
    (hB : ∀ c : F, Nat.card {v : Vector UInt8 64 // ((leNat v.toList : Nat) : F) = c} ≤ B) (hM : max m 3 * B < M)
    (A : Algo Event (Zk.Proof F)) (ro : Hash) :
    let Acc := fun ro => ∃ tr', (A.run id ro).verify ⟨cd, ro⟩ ⟨log⟩ Gs Hs Q ⟨List.ofFn fun i => rows (Ms i)⟩ =
      .ok (true, tr')
    let c' := (A.run id ro).inner.c_prime_w
    let c'' := (A.run id ro).inner.c_prime_prime_w
    let x := qesaX F ro log c'
    let M' := batched (m + 2) Ms x
    Branches Acc (fun ro i => (qesaHistories cd ro log Gs Hs Q Ms (A.run id ro).inner)[i]?) M (q + 4) 1 ro → x ≠ 0 →
    ∃ (C' C'' : G) (s : Fin (m + 1) → F) (b : Fin (m + 1) → Fin 3 → F)
      (β : Fin (m + 1) → Fin 3 → Fin 3 → F) (α : Fin (m + 1) → Fin 3 → Fin 3 → Fin 2 → F)
      (T : Fin (m + 1) → Fin 3 → Fin 3 → Fin 2 → IpaTree F G q),
      c' = cd.compress C' ∧ c'' = cd.compress C'' ∧
      (∀ i j l e, ∀ c ∈ (T i j l e).paths, ∃ ro', Reprogrammed (q + 4) ro ro' ∧ Acc ro' ∧
        let p := (A.run id ro').inner
        let lg1 := qesaLog cd ro' log Gs Hs Ms p
        let c1 := qesaClaimed cd ro' log Gs Hs Ms p
        let lg2 := almLog cd ro' lg1 Q c1.1 c1.2 p.alm_zk.C_r
        p.c_prime_w = c' ∧ p.c_prime_prime_w = c'' ∧ qesaX F ro' log c' = x ∧ qesaS F ro' log c' c'' = s i ∧
        qesaB F ro' log c' c'' = b i j ∧ almBeta F ro' lg1 p.alm_zk.C_r = β i j l ∧
        ipaAlpha F ro' lg2 (2 ^ q) = α i j l e ∧
        Continues cd p.alm_zk.NoZK (ipaChallenges F ro' lg2 (2 ^ q) p.alm_zk.NoZK.L_vec p.alm_zk.NoZK.R_vec) c) ∧
      match extractQesa M' x s b fun i j => extractAlm (- quad M' (powers (s i) m)) (β i j) (α i j)
          fun l e => (T i j l e).scalars with
      | .inl (w, v) => ∃ (u : Fin m → F) (r0 r1 : F),
          w = List.ofFn u ++ [r0, r1] ∧ v = List.ofFn (M'.mulVec u) ++ [-r1, r0] ∧ quad M' u = 0 ∧
          C' + C'' = dot w (rescaled (x ^ 2) Gs) + (1 - (x ^ 2)⁻¹) • Gs.headD 0 + dot v Hs
      | .inr r => IsRelation Gs Hs Q r :=
  fun h => qesa_extraction hq cd Gs Hs hG hH Q Ms log (K := fun _ => max m 3 + 1)
    (fun _ => Nat.succ_le_succ (le_max_right _ _)) (Nat.succ_le_succ (le_max_left _ _)) (fun ro => A.run id ro) _
    (fun _ h => h) ro (h.forks hB hM)

/-- C93: knowledge soundness of QESA in the random-oracle model, for all provers. -/
theorem C93_qesa_knowledge {q T B : Nat} (hq : m + 2 = 2 ^ q) (cd : Codec G) (Gs Hs : List G)
    (hG : Gs.length = m + 2) (hH : Hs.length = m + 2) (Q : G) (Ms : Fin (k + 1) → Matrix (Fin m) (Fin m) F)
    (log : List Event)
    (hB : ∀ c : F, Nat.card {v : Vector UInt8 64 // ((leNat v.toList : Nat) : F) = c} ≤ B)
    (A : Algo Event (Zk.Proof F)) (hT : A.AtMost T) (ro : Hash) (D : Finset (List Event))
    (hD : ∀ ro, ∀ l ∈ A.asked id ro ++ qesaHistories cd ro log Gs Hs Q Ms (A.run id ro).inner, l ∈ D) :
    let Acc := fun ro => ∃ tr', (A.run id ro).verify ⟨cd, ro⟩ ⟨log⟩ Gs Hs Q ⟨List.ofFn fun i => rows (Ms i)⟩ =
      .ok (true, tr')
    chance ro D (fun ro =>
      let c' := (A.run id ro).inner.c_prime_w
      let c'' := (A.run id ro).inner.c_prime_prime_w
      let x := qesaX F ro log c'
      let M' := batched (m + 2) Ms x
      Acc ro ∧ x ≠ 0 ∧ ¬ ∃ (C' C'' : G) (s : Fin (m + 1) → F) (b : Fin (m + 1) → Fin 3 → F)
        (β : Fin (m + 1) → Fin 3 → Fin 3 → F) (α : Fin (m + 1) → Fin 3 → Fin 3 → Fin 2 → F)
        (T : Fin (m + 1) → Fin 3 → Fin 3 → Fin 2 → IpaTree F G q),
        c' = cd.compress C' ∧ c'' = cd.compress C'' ∧
        (∀ i j l e, ∀ c ∈ (T i j l e).paths, ∃ ro', Reprogrammed (q + 4) ro ro' ∧ Acc ro' ∧
          let p := (A.run id ro').inner
          let lg1 := qesaLog cd ro' log Gs Hs Ms p
          let c1 := qesaClaimed cd ro' log Gs Hs Ms p
          let lg2 := almLog cd ro' lg1 Q c1.1 c1.2 p.alm_zk.C_r
          p.c_prime_w = c' ∧ p.c_prime_prime_w = c'' ∧ qesaX F ro' log c' = x ∧ qesaS F ro' log c' c'' = s i ∧
          qesaB F ro' log c' c'' = b i j ∧ almBeta F ro' lg1 p.alm_zk.C_r = β i j l ∧
          ipaAlpha F ro' lg2 (2 ^ q) = α i j l e ∧
          Continues cd p.alm_zk.NoZK (ipaChallenges F ro' lg2 (2 ^ q) p.alm_zk.NoZK.L_vec p.alm_zk.NoZK.R_vec) c) ∧
        match extractQesa M' x s b fun i j => extractAlm (- quad M' (powers (s i) m)) (β i j) (α i j)
            fun l e => (T i j l e).scalars with
        | .inl (w, v) => ∃ (u : Fin m → F) (r0 r1 : F),
            w = List.ofFn u ++ [r0, r1] ∧ v = List.ofFn (M'.mulVec u) ++ [-r1, r0] ∧ quad M' u = 0 ∧
            C' + C'' = dot w (rescaled (x ^ 2) Gs) + (1 - (x ^ 2)⁻¹) • Gs.headD 0 + dot v Hs
        | .inr r => IsRelation Gs Hs Q r) ≤
    ((T + (q + 5)) * (max m 3 * B) : Nat) / 2 ^ 512 := by
  intro Acc
  refine (chance_mono fun ro h => ?_).trans
    (C93_qesa_rewinding (M := max m 3 * B + 1) hq cd Gs Hs hG hH Q Ms log A hT ro D hD)
  exact ⟨h.1, fun hb => h.2.2 (C93_qesa_extraction hq cd Gs Hs hG hH Q Ms log hB (Nat.lt_succ_self _) A ro hb.1 h.2.1)⟩

omit [DecidableEq F] [DecidableEq G] in
/-- C93: the case that is left out, `x = 0`, is rare. -/
theorem C93_qesa_zero {T B : Nat} (cd : Codec G) (Gs Hs : List G) (Q : G)
    (Ms : Fin k → Matrix (Fin m) (Fin m) F) (log : List Event)
    (hB : ∀ c : F, Nat.card {v : Vector UInt8 64 // ((leNat v.toList : Nat) : F) = c} ≤ B)
    (A : Algo Event (Zk.Proof F)) (hT : A.AtMost T) (ro : Hash) (D : Finset (List Event))
    (hD : ∀ ro, ∀ l ∈ A.asked id ro ++ qesaHistories cd ro log Gs Hs Q Ms (A.run id ro).inner, l ∈ D) :
    chance ro D (fun ro => qesaX F ro log (A.run id ro).inner.c_prime_w = 0) ≤ ((T + 1) * B : Nat) / 2 ^ 512 := by
  apply chance_le
  set V : Zk.Proof F → Algo Event Unit := fun p =>
    Algo.askAll () [log ++ [.msg "c_prime_w" p.inner.c_prime_w, .chal "x" 64]] with hV
  have hask : ∀ ro, (A.andThen V).asked id ro = A.asked id ro ++
      [log ++ [.msg "c_prime_w" (A.run id ro).inner.c_prime_w, .chal "x" 64]] := by
    intro ro
    rw [Algo.asked_andThen, hV, Algo'.askAll_asked]
  have := count_bad id ro D (A.andThen V) (T + 1)
    (Algo.andThen_atMost V 1 (fun p => Algo'.askAll_atMost _ _ _ (by simp)) A T hT)
    (by
      intro f l hl
      rw [hask] at hl
      rw [List.map_id]
      refine hD (patch ro D f) l ?_
      rcases List.mem_append.1 hl with hl | hl
      · exact List.mem_append_left _ hl
      · rw [List.mem_singleton.1 hl]
        exact List.mem_append_right _ (List.mem_cons_self ..))
    (fun ro l => ((leNat (ro l).toList : Nat) : F) = 0) B (by
      classical
      intro ro l
      simp only [List.map_id, Function.update_self]
      refine le_trans (le_of_eq ?_) (hB 0)
      rw [Nat.card_eq_fintype_card, Fintype.card_subtype])
  refine le_trans (Nat.mul_le_mul_right _ ?_) this
  refine Nat.card_le_card_of_injective (Subtype.map id fun f h => ⟨fun l _ l' _ h => by simpa using h, _, ?_, h⟩)
    (Subtype.map_injective _ Function.injective_id)
  rw [hask]
  exact List.mem_append_right _ (List.mem_singleton_self _)

omit [DecidableEq F] [DecidableEq G] in
/-- The opening of `C' + C''` in the terms of the generators themselves. -/
theorem claim_opening {M : Matrix (Fin (m + 1)) (Fin (m + 1)) F} {x : F} {Gs Hs : List G} {C : G}
    (hG : Gs.length = m + 3) (h : QesaClaim M x Gs Hs C) :
    ∃ (w : Fin (m + 1) → F) (r0 r1 : F) (v : List F), v.length = m + 3 ∧
      C = dot (List.ofFn w ++ [r0, r1]) Gs + dot v Hs := by
  obtain ⟨u, r0, r1, -, hC⟩ := h
  cases Gs with
  | nil => simp at hG
  | cons g Gs =>
    refine ⟨Fin.cons (u 0 * (x ^ 2)⁻¹ + (1 - (x ^ 2)⁻¹)) fun i => u i.succ, r0, r1, List.ofFn (M.mulVec u) ++ [-r1, r0],
      by simp, ?_⟩
    rw [hC, List.headD_cons]
    congr 1
    simp only [List.ofFn_succ, List.cons_append, rescaled, dot_cons, smul_smul, add_smul, Fin.cons_zero, Fin.cons_succ]
    abel

omit [DecidableEq G] in
/-- If there is no relation, the opening is unique. -/
theorem claim_vector {M : Matrix (Fin (m + 1)) (Fin (m + 1)) F} {x : F} (hx : x ≠ 0) {Gs Hs : List G} {Q C : G}
    (hG : Gs.length = m + 3) (hH : Hs.length = m + 3) (hind : ∀ r : List F × List F × F, ¬ IsRelation Gs Hs Q r)
    (h : QesaClaim M x Gs Hs C) (w : Fin (m + 1) → F) (r0 r1 : F) (v : List F) (hv : v.length = m + 3)
    (hC : C = dot (List.ofFn w ++ [r0, r1]) Gs + dot v Hs) : quad M (shifted x w) = 0 := by
  obtain ⟨u, p0, p1, hu, hC'⟩ := h
  suffices e : u = shifted x w by rw [← e]; exact hu
  have hx2 : x ^ 2 ≠ 0 := pow_ne_zero 2 hx
  cases Gs with
  | nil => simp at hG
  | cons g Gs =>
    have e : dot (List.ofFn u ++ [p0, p1]) (rescaled (x ^ 2) (g :: Gs)) + (1 - (x ^ 2)⁻¹) • g =
        dot ((u 0 * (x ^ 2)⁻¹ + (1 - (x ^ 2)⁻¹)) :: (List.ofFn (fun i : Fin m => u i.succ) ++ [p0, p1]))
          (g :: Gs) := by
      simp only [List.ofFn_succ, List.cons_append, rescaled, dot_cons, smul_smul, add_smul]
      abel
    rw [List.headD_cons, e, hC] at hC'
    obtain ⟨h1, -⟩ := unique_opening (g :: Gs) Hs Q hind _ _ _ _ (by simp [hG]) (hv.trans hH.symm)
      (by simp [← hG]) (by simp [hH]) hC'
    simp only [List.ofFn_succ, List.cons_append, List.cons.injEq] at h1
    obtain ⟨h0, h1⟩ := h1
    have h2 := List.ofFn_injective (List.append_inj_left h1 (by simp))
    funext i
    refine Fin.cases ?_ (fun i => ?_) i
    · simp only [shifted, Function.update_self, h0]
      field_simp
      ring
    · simp only [shifted, ne_eq, Fin.succ_ne_zero, not_false_eq_true, Function.update_of_ne]
      exact (congrFun h2 i).symm

omit [DecidableEq F] [DecidableEq G] in
theorem dot_zip (n : Nat) : ∀ (u v : List F) (Gs : List G), u.length = n → v.length = n →
    dot (List.zipWith (fun y z => y + z) u v) Gs = dot u Gs + dot v Gs ∧
    dot (List.zipWith (fun y z => y - z) u v) Gs = dot u Gs - dot v Gs := by
  induction n with
  | zero =>
    intro u v Gs hu hv
    rw [List.length_eq_zero_iff.1 hu, List.length_eq_zero_iff.1 hv]
    simp [dot]
  | succ n ih =>
    intro u v Gs hu hv
    match u, v, Gs, hu, hv with
    | a :: u, b :: v, [], _, _ => simp [dot]
    | a :: u, b :: v, g :: Gs, hu, hv =>
      obtain ⟨h1, h2⟩ := ih u v Gs (by simpa using hu) (by simpa using hv)
      simp only [List.zipWith_cons_cons, dot_cons, h1, h2, sub_smul, add_smul]
      exact ⟨by abel, by abel⟩

section
variable {γ : Type}

/-- A prover of QESA that branches at all challenges, with a second commitment on `H`, is committed to a vector all of
whose numbers `drift` vanish, or else there is a relation. -/
theorem qesa_sound_forks (cd : Codec G) {q B M : Nat}
    (hB : ∀ c : F, Nat.card {v : Vector UInt8 64 // ((leNat v.toList : Nat) : F) = c} ≤ B) (hM : (m + 7) * B < M)
    {acc : Hash → Prop} {key : Hash → Nat → Option (List Event)} (i0 : Nat) (lg : Hash → List Event) (ctx : Hash → γ)
    (hq : m + 3 = 2 ^ q) (Gs Hs : List G) (hG : Gs.length = m + 3) (hH : Hs.length = m + 3) (Q : G)
    (hind : ∀ r : List F × List F × F, ¬ IsRelation Gs Hs Q r)
    (Ms : γ → Fin (k + 1) → Matrix (Fin (m + 1)) (Fin (m + 1)) F) (p : Hash → Inner.Proof F)
    (hacc : ∀ ro, acc ro → ∃ tr', (p ro).verify ⟨cd, ro⟩ ⟨lg ro⟩ Gs Hs Q ⟨List.ofFn fun i => rows (Ms (ctx ro) i)⟩ =
      .ok (true, tr'))
    (hkey : ∀ ro j, acc ro → key ro (i0 + j) = (qesaHistories cd ro (lg ro) Gs Hs Q (Ms (ctx ro)) (p ro))[j]?)
    (hctx : ∀ ro l v j, acc ro → acc (Function.update ro l v) → key ro (i0 + j) = some l →
      key (Function.update ro l v) (i0 + j) = some l → ctx (Function.update ro l v) = ctx ro)
    (hsec : ∀ ro, acc ro → ∃ h : List F, h.length = m + 3 ∧ cd.decompress (p ro).c_prime_prime_w = some (dot h Hs))
    (ro : Hash) (hb : Branches acc key M (q + 5) i0 ro) :
    ∃ (w : Fin (m + 1) → F) (r0 r1 : F) (h : List F), h.length = m + 3 ∧
      cd.decompress (p ro).c_prime_w = some (dot (List.ofFn w ++ [r0, r1]) Gs + dot h Hs) ∧
      ∀ j, drift (m + 3) (Ms (ctx ro)) w j = 0 := by
  -- what is extracted for a value of `x`
  have ext : ∀ ro, Branches acc key M (q + 4) (i0 + 1) ro → xOf F lg p ro ≠ 0 →
      ∃ (C' : G) (h : List F), h.length = m + 3 ∧ cd.decompress (p ro).c_prime_w = some C' ∧
        QesaClaim (batched (m + 3) (Ms (ctx ro)) (xOf F lg p ro)) (xOf F lg p ro) Gs Hs (C' + dot h Hs) := by
    intro ro hb hx
    obtain ⟨h, hh, hd⟩ := hsec ro hb.acc
    obtain ⟨s, b, C_r, β, α, T, h1, h2, h3, h4, h5, h6, h7⟩ := qesa_forks cd (K := fun _ => m + 7 + 1)
      (fun _ => by omega) i0 (by omega) lg ctx hq Gs Hs hG hH Q Ms p hacc hkey hctx ro (hb.forks hB hM)
    have hac := qesa_accepted_alm cd lg ctx hq Gs Hs hG hH Q Ms p hacc ro hb.acc
    refine ⟨(cd.decompress (p ro).c_prime_w).getD 0, h, hh, ?_, ?_⟩
    · rw [hac.2.1, cd.decompress_compress]; rfl
    have := qesa_special_soundness_of_accepts hq Gs Hs hG hH Q _ _ (Ms (ctx ro)) _ hx s h1 b h2 C_r β h3 α h4 h5 T h6
      fun i j l e c hc => (h7 i j l e c hc).1
    simp only at this
    split at this
    · obtain ⟨u, r0, r1, rfl, rfl, e1, e2⟩ := this
      rw [hd, Option.getD_some] at e2
      exact ⟨u, r0, r1, e1, e2⟩
    · exact absurd this (hind _)
  have ha := hb.acc
  have hk : key ro (i0 + 0) = some (lg ro ++ [.msg "c_prime_w" (p ro).c_prime_w, .chal "x" 64]) := by
    rw [hkey ro 0 ha]; rfl
  have hcard := hb.2 _ hk
  set l := lg ro ++ [.msg "c_prime_w" (p ro).c_prime_w, .chal "x" 64] with hl
  have up : ∀ v, Branches acc key M (q + 4) (i0 + 1) (Function.update ro l v) →
      key (Function.update ro l v) i0 = some l →
      (p (Function.update ro l v)).c_prime_w = (p ro).c_prime_w ∧
      xOf F lg p (Function.update ro l v) = ((leNat v.toList : Nat) : F) ∧ ctx (Function.update ro l v) = ctx ro := by
    intro v hv hv'
    obtain ⟨-, e1, -, -, -, e2, -⟩ := qesa_stable (F := F) cd i0 lg ctx Gs Hs Q Ms p hkey ha hv.acc hk hv'
    exact ⟨e1, e2 rfl, hctx ro l v 0 ha hv.acc hk hv'⟩
  -- one value of `x` gives the vector
  obtain ⟨v, hv, -, hne⟩ := exists_distinct (k := 0) ({0} : Finset F) hB _
    ((show (0 + ({0} : Finset F).card) * B < M by
      rw [Finset.card_singleton]; exact lt_of_le_of_lt (Nat.mul_le_mul_right _ (by omega)) hM).trans_le hcard)
  obtain ⟨u1, u2, -⟩ := up _ (hv 0).1 (hv 0).2
  obtain ⟨C', h, hh, hd, hC⟩ := ext _ (hv 0).1 (by rw [u2]; simpa using hne 0)
  obtain ⟨w, r0, r1, t, ht, hw⟩ := claim_opening hG hC
  rw [u1] at hd
  have hC' : C' = dot (List.ofFn w ++ [r0, r1]) Gs + dot (List.zipWith (fun y z => y - z) t h) Hs := by
    rw [(dot_zip (m + 3) t h Hs ht hh).2, ← add_sub_assoc, ← hw, add_sub_cancel_right]
  refine ⟨w, r0, r1, List.zipWith (fun y z => y - z) t h, by simp [ht, hh], by rw [hd, hC'], ?_⟩
  by_contra hdr
  push Not at hdr
  -- another value shows that it is a solution
  obtain ⟨S, hS, hbad⟩ := few_drift (m + 3) (Ms (ctx ro)) w hdr
  obtain ⟨v', hv', -, hne'⟩ := exists_distinct (k := 0) S hB _
    ((show (0 + S.card) * B < M from
      lt_of_le_of_lt (Nat.mul_le_mul_right _ (by omega)) hM).trans_le hcard)
  obtain ⟨u1', u2', u3'⟩ := up _ (hv' 0).1 (hv' 0).2
  have hx0 : ((leNat (v' 0).toList : Nat) : F) ≠ 0 := fun h0 => hne' 0 (hbad _ (Or.inl h0))
  obtain ⟨C2, h2, hh2, hd2, hc2⟩ := ext _ (hv' 0).1 (by rw [u2']; exact hx0)
  rw [u1', hd, Option.some.injEq] at hd2
  rw [u2', u3', ← hd2, hC'] at hc2
  refine hne' 0 (hbad _ (Or.inr ?_))
  refine claim_vector hx0 hG hH hind hc2 w r0 r1 (List.zipWith (fun y z => y + z) (List.zipWith (fun y z => y - z) t h) h2)
    (by simp [ht, hh, hh2]) ?_
  rw [(dot_zip (m + 3) (List.zipWith (fun y z => y - z) t h) h2 Hs (by simp [ht, hh]) hh2).1, add_assoc]

end

/-- C93: soundness of QESA for all provers that send a combination of the generators `H` as second commitment, if there
is no relation between the generators at all. But for a fraction `(T + q + 5) (m + 7) B / 2^512` of the hash functions, an
accepted proof has a first commitment to a vector `w` on the generators `G` (and anything on `H`) for which all numbers
`drift` vanish, cf. C89. -/
theorem C93_qesa_sound {q T B : Nat} (hq : m + 3 = 2 ^ q) (cd : Codec G) (Gs Hs : List G)
    (hG : Gs.length = m + 3) (hH : Hs.length = m + 3) (Q : G)
    (hind : ∀ r : List F × List F × F, ¬ IsRelation Gs Hs Q r)
    (Ms : Fin (k + 1) → Matrix (Fin (m + 1)) (Fin (m + 1)) F) (log : List Event)
    (hB : ∀ c : F, Nat.card {v : Vector UInt8 64 // ((leNat v.toList : Nat) : F) = c} ≤ B)
    (A : Algo Event (Zk.Proof F)) (hT : A.AtMost T) (ro : Hash) (D : Finset (List Event))
    (hD : ∀ ro, ∀ l ∈ A.asked id ro ++ qesaHistories cd ro log Gs Hs Q Ms (A.run id ro).inner, l ∈ D) :
    chance ro D (fun ro =>
      let p := A.run id ro
      (∃ tr', p.verify ⟨cd, ro⟩ ⟨log⟩ Gs Hs Q ⟨List.ofFn fun i => rows (Ms i)⟩ = .ok (true, tr')) ∧
      (∃ h : List F, h.length = m + 3 ∧ cd.decompress p.inner.c_prime_prime_w = some (dot h Hs)) ∧
      ¬ ∃ (w : Fin (m + 1) → F) (r0 r1 : F) (h : List F), h.length = m + 3 ∧
        cd.decompress p.inner.c_prime_w = some (dot (List.ofFn w ++ [r0, r1]) Gs + dot h Hs) ∧
        ∀ j, drift (m + 3) Ms w j = 0) ≤
    ((T + (q + 5)) * ((m + 7) * B) : Nat) / 2 ^ 512 := by
  refine (chance_mono fun ro h => ?_).trans (qesa_rewinding (M := (m + 7) * B + 1) hq cd Gs Hs hG hH Q Ms log A hT ro
    D hD (fun ro =>
      (∃ tr', (A.run id ro).verify ⟨cd, ro⟩ ⟨log⟩ Gs Hs Q ⟨List.ofFn fun i => rows (Ms i)⟩ = .ok (true, tr')) ∧
      ∃ h : List F, h.length = m + 3 ∧ cd.decompress (A.run id ro).inner.c_prime_prime_w = some (dot h Hs))
    fun _ h => h.1)
  obtain ⟨h1, h2, h3⟩ := h
  exact ⟨⟨h1, h2⟩, fun hb => h3 (qesa_sound_forks cd hB (Nat.lt_succ_self _) 0 (fun _ => log) (fun _ => ()) hq Gs Hs hG
    hH Q hind (fun _ => Ms) (fun ro => (A.run id ro).inner) (fun _ h => h.1) (fun ro j _ => by rw [Nat.zero_add])
    (fun _ _ _ _ _ _ _ _ => rfl) (fun _ h => h.2) ro hb)⟩

/-- C93: a false claim is not accepted. If there is no relation between the generators, no prover is accepted with a
first commitment to a vector `w` on `G` with first component one that violates one of the first `n` equations and a second
commitment on `H`, but with the chance of `C93_qesa_sound`. -/
theorem C93_qesa_false {q T B : Nat} (hq : m + 3 = 2 ^ q) (cd : Codec G) (Gs Hs : List G)
    (hG : Gs.length = m + 3) (hH : Hs.length = m + 3) (Q : G)
    (hind : ∀ r : List F × List F × F, ¬ IsRelation Gs Hs Q r)
    (Ms : Fin (k + 1) → Matrix (Fin (m + 1)) (Fin (m + 1)) F) (log : List Event)
    (hB : ∀ c : F, Nat.card {v : Vector UInt8 64 // ((leNat v.toList : Nat) : F) = c} ≤ B)
    (A : Algo Event (Zk.Proof F)) (hT : A.AtMost T) (ro : Hash) (D : Finset (List Event))
    (hD : ∀ ro, ∀ l ∈ A.asked id ro ++ qesaHistories cd ro log Gs Hs Q Ms (A.run id ro).inner, l ∈ D) :
    chance ro D (fun ro =>
      let p := A.run id ro
      (∃ tr', p.verify ⟨cd, ro⟩ ⟨log⟩ Gs Hs Q ⟨List.ofFn fun i => rows (Ms i)⟩ = .ok (true, tr')) ∧
      (∃ h : List F, h.length = m + 3 ∧ cd.decompress p.inner.c_prime_prime_w = some (dot h Hs)) ∧
      ∃ (w : Fin (m + 1) → F) (r0 r1 : F) (h : List F), h.length = m + 3 ∧
        cd.decompress p.inner.c_prime_w = some (dot (List.ofFn w ++ [r0, r1]) Gs + dot h Hs) ∧
        w 0 = 1 ∧ ∃ i : Fin (k + 1), i.val < m + 3 ∧ quad (Ms i) w ≠ 0) ≤
    ((T + (q + 5)) * ((m + 7) * B) : Nat) / 2 ^ 512 := by
  refine (chance_mono fun ro h => ?_).trans (C93_qesa_sound hq cd Gs Hs hG hH Q hind Ms log hB A hT ro D hD)
  obtain ⟨h1, h2, w, r0, r1, h, hh, hd, hw, i, hi, hne⟩ := h
  refine ⟨h1, h2, ?_⟩
  rintro ⟨w', r0', r1', h', hh', hd', hz⟩
  rw [hd, Option.some.injEq] at hd'
  obtain ⟨e, -⟩ := unique_opening Gs Hs Q hind _ _ _ _ (by simp [hG]) (hh.trans hH.symm) (by simp [hG])
    (hh'.trans hH.symm) hd'
  have e := List.ofFn_injective (List.append_inj_left e (by simp))
  rw [← e] at hz
  exact hne ((C89_drift_one (m + 3) Ms w hw).1 hz i hi)

omit [DecidableEq F] [DecidableEq G] in
/-- C93: for every prover of QESA there is a finite set of histories as above. -/
theorem C93_qesa_domain (cd : Codec G) (log : List Event) (Gs Hs : List G) (Q : G)
    (Ms : Fin k → Matrix (Fin m) (Fin m) F) (A : Algo Event (Zk.Proof F)) :
    ∃ D : Finset (List Event), ∀ ro, ∀ l ∈ A.asked id ro ++ qesaHistories cd ro log Gs Hs Q Ms (A.run id ro).inner,
      l ∈ D := by
  let V : Zk.Proof F → Algo Event Unit := fun p =>
    qesaVerifierQueries cd log Gs Hs Q Ms (p.inner.alm_zk.NoZK.L_vec.length + 1) p.inner
  obtain ⟨D, hD⟩ := exists_domain id (fun _ (_ : Unit) => ([] : List (List Event))) (by
    intro p
    simp) (A.andThen V)
  refine ⟨D, fun ro l hl => ?_⟩
  have := (hD ro).1 l
  rw [Algo.asked_andThen, qesaVerifierQueries_asked,
    List.take_of_length_le (by simp [qesaHistories, almHistories, ipaHistories])] at this
  simpa using this hl

set_option exponentiation.threshold 600 in
open Toy in
/-- C93: whoever tries at most `T` values of the hash function and is bound to the witness `(1, 3)` makes a proof of
`w_0 w_1 = 2 w_0^2` with a chance of at most `8 (T + 7) / 101`. -/
example (cd : Codec (Fin 9 → K)) {T : Nat} (A : Algo Event (Zk.Proof K)) (hT : A.AtMost T) (ro : Hash)
    (r0 r1 : K) : ∃ D : Finset (List Event), chance ro D (fun ro =>
      let p := A.run id ro
      (∃ tr', p.verify ⟨cd, ro⟩ ⟨[]⟩ unitG unitH unitQ ⟨[rows !![-2, 1; 0, 0]]⟩ = .ok (true, tr')) ∧
      cd.decompress p.inner.c_prime_w = some (dot [1, 3, r0, r1] unitG) ∧
      ∃ h : List K, h.length = 4 ∧ cd.decompress p.inner.c_prime_prime_w = some (dot h unitH)) ≤
        ((T + 7) * 8 : Nat) * (1 / 101 + 1 / 2 ^ 512) := by
  obtain ⟨D, hD⟩ := C93_qesa_domain cd [] unitG unitH unitQ (fun _ : Fin 1 => !![-2, 1; 0, 0]) A
  refine ⟨D, ?_⟩
  refine ((chance_mono fun ro h => ?_).trans (C93_qesa_false (q := 2) (m := 1) (k := 0) rfl cd unitG unitH rfl rfl unitQ
    unit_no_relation (fun _ => !![-2, 1; 0, 0]) [] (C67_scalars 101) A hT ro D hD)).trans ?_
  · obtain ⟨h1, h2, h3⟩ := h
    exact ⟨h1, h3, ![1, 3], r0, r1, [0, 0, 0, 0], rfl, by simpa [dot, unitH] using h2, rfl, 0, by simp, by decide +kernel⟩
  · have := bound_aux ((T + 7) * 8) 101 (2 ^ 512) (by positivity)
    rw [← Nat.mul_assoc]
    exact_mod_cast this

end Qesa.Props
