import Verif.SpecProver
import Verif.Props.QesaSound
/-
C63, C64: the conversations asked for by the soundness theorems exist, in every instance.
-/
namespace Qesa.Props
open Qesa Spec Ipa
variable {F G : Type} [Field F] [AddCommGroup G] [Module F G]

/-! ### A programmed hash function -/

/-- The number of challenges in a log. -/
def challengesIn (log : List Event) : Nat :=
  (log.filter fun e => match e with
    | .chal _ _ => true
    | .msg _ _ => false).length

theorem challengesIn_append (l l' : List Event) :
    challengesIn (l ++ l') = challengesIn l + challengesIn l' := by
  simp [challengesIn, List.filter_append]

/-- A context whose hash function makes the challenges `ys`, one after the other. -/
def programmed (cod : Codec G) (enc : F → Vector UInt8 64) (ys : List F) : Ctx G :=
  { cod with ro := fun log => enc (ys.getD (challengesIn log - 1) 0) }

omit [AddCommGroup G] [Module F G] in
theorem squeeze_programmed (cod : Codec G) (enc : F → Vector UInt8 64)
    (henc : ∀ y, (leNat (enc y).toList : F) = y) (ys : List F) (log : List Event) :
    squeeze F (programmed cod enc ys).ro log = ys.getD (challengesIn log - 1) 0 := henc _

omit [AddCommGroup G] [Module F G] in
theorem roundChallenges_programmed (cod : Codec G) (enc : F → Vector UInt8 64)
    (henc : ∀ y, (leNat (enc y).toList : F) = y) (ys : List F) : ∀ (xs : List F) (log : List Event)
    (Ls Rs : List Comp), Ls.length = xs.length → Rs.length = xs.length →
    ys.drop (challengesIn log) = xs → roundChallenges F (programmed cod enc ys).ro log Ls Rs = xs
  | [], log, Ls, Rs, hL, hR, h => by
    rw [List.length_nil, List.length_eq_zero_iff] at hL hR
    subst hL hR
    simp [roundChallenges]
  | x :: xs, log, L :: Ls, R :: Rs, hL, hR, h => by
    have h1 : challengesIn (log ++ roundLog (L, R)) = challengesIn log + 1 := by
      rw [challengesIn_append]; rfl
    rw [roundChallenges_cons, squeeze_programmed _ _ henc, h1,
      roundChallenges_programmed cod enc henc ys xs _ Ls Rs (by simpa using hL) (by simpa using hR)
        (by rw [h1, ← List.drop_drop, h]; rfl)]
    congr 1
    have : ys[challengesIn log]? = some x := by
      have := congrArg (fun l => l[0]?) h
      simpa using this
    rw [Nat.add_sub_cancel, List.getD_eq_getElem?_getD, this]
    rfl

/-! ### From the closed form to a run -/

variable [DecidableEq G]

/-- A conversation that satisfies the closed form of the check is accepted in some run. -/
theorem QesaAccepted.of_accepts {m k : Nat} (hm : 0 < m) (cod : Codec G) (enc : F → Vector UInt8 64)
    (henc : ∀ y, (leNat (enc y).toList : F) = y) (Gs Hs : List G) (hG : Gs.length = m + 2)
    (hH : Hs.length = m + 2) (Q : G) (Ms : Fin (k + 1) → Matrix (Fin m) (Fin m) F) (C' C'' : G)
    (x s b : F) (C_r : G) (β α : F) (c : IpaPath F G) (hq : m + 2 = 2 ^ c.xs.length)
    (h64 : c.xs.length < 64) (hL : c.Ls.length = c.xs.length) (hR : c.Rs.length = c.xs.length)
    (h : let t := - quad (batched (m + 2) Ms x) (powers s m)
      let P := β • qesaPoint (batched (m + 2) Ms x) Gs Hs C' C'' x s b + C_r + (β * β * t) • Q
      c.Accepts (rescaled (x ^ 2) Gs) Hs (α⁻¹ • Q) (P - ((α - 1) * (β * β * t)) • (α⁻¹ • Q))) :
    QesaAccepted Gs Hs Q Ms C' C'' x s b C_r β α c := by
  obtain ⟨g0, Gs0, hGs⟩ : ∃ g0 Gs0, Gs = g0 :: Gs0 := by
    cases Gs with
    | nil => simp at hG
    | cons g Gs => exact ⟨g, Gs, rfl⟩
  set cx := programmed cod enc (x :: s :: b :: β :: α :: c.xs) with hcx
  have sq : ∀ log, squeeze F cx.ro log = _ := squeeze_programmed cod enc henc _
  set a : AlmZK F := ⟨cx.compress C_r, ⟨c.Ls.map cx.compress, c.Rs.map cx.compress, c.a, c.b⟩⟩ with ha
  set M := batched (m + 2) Ms x with hM
  set t := - quad M (powers s m) with ht
  set C_w := qesaPoint M Gs Hs C' C'' x s b with hCw
  set log := [] ++ qesaHead (cx.compress C') (cx.compress C'') (cx.compress C_w) with hlog
  set log' := log ++ almHead a.C_r (cx.compress (β • C_w + C_r + (β * β * t) • Q)) with hlog'
  have c1 : qesaX F cx.ro [] (cx.compress C') = x := by rw [qesaX, sq]; rfl
  have c2 : qesaS F cx.ro [] (cx.compress C') (cx.compress C'') = s := by rw [qesaS, sq]; rfl
  have c3 : qesaB F cx.ro [] (cx.compress C') (cx.compress C'') = b := by rw [qesaB, sq]; rfl
  have c4 : almBeta F cx.ro log a.C_r = β := by rw [almBeta, sq]; rfl
  have c5 : ipaAlpha F cx.ro log' (m + 2) = α := by rw [ipaAlpha, sq]; rfl
  have c6 : ipaChallenges F cx.ro log' (m + 2) a.NoZK.L_vec a.NoZK.R_vec = c.xs :=
    roundChallenges_programmed cod enc henc _ c.xs _ _ _ (by simp [ha, hL]) (by simp [ha, hR]) rfl
  refine ⟨cx, ⟨[]⟩, ⟨log' ++ headLog (m + 2) ++ roundsLog a.NoZK.L_vec a.NoZK.R_vec⟩, c1, c2, c3, c4, c5, c6,
    ?_⟩
  unfold Zk.Proof.verify
  rw [Inner.verify_eq hm cx _ ⟨[]⟩ Gs Hs Q Ms C' C'' rfl rfl g0 Gs0 hGs hG hH]
  simp only [c1, c2, c3]
  have e : C' - ((x ^ 2 - 1) * (x ^ 2)⁻¹) • g0 + C'' + dot (challengeImage M s b) Hs -
      dot (challengeVector s b m) (rescaled (x ^ 2) Gs) = C_w := by
    rw [hCw, qesaPoint, hGs, List.headD_cons]
  rw [e, alm_verify_eq cx _ _ _ _ _ _ _ _ C_r rfl]
  simp only
  rw [show almBeta F cx.ro ([] ++ qesaHead (cx.compress C') (cx.compress C'') (cx.compress C_w))
    (cx.compress C_r) = β from c4]
  have lG : (rescaled (x ^ 2) Gs).length = m + 2 := by rw [← hG, hGs]; rfl
  have hv : Verifiable cx a.NoZK (rescaled (x ^ 2) Gs) Hs (m + 2) := by
    refine ⟨?_, ?_, by simp [ha, hL, h64], by simp [ha, hL, hq], ?_, ?_⟩
    · intro y hy
      obtain ⟨L, -, rfl⟩ := List.mem_map.1 hy
      rw [cx.decompress_compress]; rfl
    · intro y hy
      obtain ⟨L, -, rfl⟩ := List.mem_map.1 hy
      rw [cx.decompress_compress]; rfl
    · rw [lG]; simp [ha, hL, hR]
    · rw [hH]; simp [ha, hL, hR]
  have := C19_ipa_verdict cx a.NoZK ⟨log'⟩ (rescaled (x ^ 2) Gs) Hs Q (m + 2)
    (β • C_w + C_r + (β * β * t) • Q) (β * β * t) c.Ls c.Rs rfl rfl hv
  rw [this]
  simp only [c5, c6]
  congr 2
  rw [decide_eq_true_eq]
  have lL : a.NoZK.L_vec.length = c.xs.length := by simp [ha, hL]
  have lR : a.NoZK.R_vec.length = c.xs.length := by simp [ha, hR]
  rw [lL, lR, min_self]
  exact h

/-! ### Trees of the honest prover -/

omit [DecidableEq G] in
/-- The honest prover of the rounds of the inner-product argument. -/
def honestProver (Q : G) : (q : Nat) → (Gs Hs : List G) → (a b : List F) → IpaProver F G q
  | 0, _, _, a, b => .final (a.headD 0) (b.headD 0)
  | q + 1, Gs, Hs, a, b =>
    let n := 2 ^ q
    .round (dot (a.take n) (Gs.drop n) + dot (b.drop n) (Hs.take n) + dot (a.take n) (b.drop n) • Q)
      (dot (a.drop n) (Gs.take n) + dot (b.take n) (Hs.drop n) + dot (a.drop n) (b.take n) • Q)
      fun x => honestProver Q q (foldG x Gs) (foldH x Hs)
        (List.zipWith (fun l r => l * x + r) (a.take n) (a.drop n))
        (List.zipWith (fun l r => l + x * r) (b.take n) (b.drop n))

omit [AddCommGroup G] [Module F G] [DecidableEq G] in
theorem talk_length : ∀ {q : Nat} (P : IpaProver F G q) (xs : List F), xs.length = q →
    (P.talk xs).Ls.length = q ∧ (P.talk xs).Rs.length = q ∧ (P.talk xs).xs = xs
  | _, .final a b, xs, h => by
    rw [List.length_eq_zero_iff] at h
    subst h
    simp [IpaProver.talk]
  | q + 1, .round L R next, x :: xs, h => by
    obtain ⟨h1, h2, h3⟩ := talk_length (next x) xs (by simpa using h)
    simp [IpaProver.talk, h1, h2, h3]

omit [DecidableEq G] in
/-- The honest prover is accepted for all challenges. -/
theorem honestProver_accepts (Q : G) : ∀ (q : Nat) (Gs Hs : List G) (a b : List F) (xs : List F),
    Gs.length = 2 ^ q → Hs.length = 2 ^ q → a.length = 2 ^ q → b.length = 2 ^ q → xs.length = q →
    ((honestProver Q q Gs Hs a b).talk xs).Accepts Gs Hs Q (dot a Gs + dot b Hs + dot a b • Q)
  | 0, Gs, Hs, a, b, xs, hG, hH, ha, hb, hx => by
    rw [pow_zero, List.length_eq_one_iff] at hG hH ha hb
    obtain ⟨g, rfl⟩ := hG
    obtain ⟨k, rfl⟩ := hH
    obtain ⟨y, rfl⟩ := ha
    obtain ⟨z, rfl⟩ := hb
    rw [List.length_eq_zero_iff] at hx
    subst hx
    change IpaPath.Accepts ⟨[], [], [], y, z⟩ _ _ _ _
    simp [IpaPath.Accepts, combined, foldedP, weightG, weightH]
  | q + 1, Gs, Hs, a, b, x :: xs, hG, hH, ha, hb, hx => by
    classical
    have hp : 2 ^ (q + 1) = 2 ^ q + 2 ^ q := by rw [pow_succ]; omega
    rw [hp] at hG hH ha hb
    have hx : xs.length = q := by simpa using hx
    simp only [honestProver, IpaProver.talk]
    set c := IpaProver.talk _ xs with hc
    have hl : c.xs.length = q := by rw [hc, (talk_length _ xs hx).2.2, hx]
    rw [accepts_cons x c _ _ Gs Hs Q _ (by rw [hl, hp, hG]) (by rw [hl, hp, hH])]
    have ih := honestProver_accepts Q q (foldG x Gs) (foldH x Hs)
      (List.zipWith (fun l r => l * x + r) (a.take (2 ^ q)) (a.drop (2 ^ q)))
      (List.zipWith (fun l r => l + x * r) (b.take (2 ^ q)) (b.drop (2 ^ q))) xs
      (by rw [foldG_length]; omega) (by rw [foldH_length]; omega) (by simp; omega) (by simp; omega) hx
    convert ih using 1
    set n := 2 ^ q
    have eG : foldG x Gs = List.zipWith (fun l r => l + x • r) (Gs.take n) (Gs.drop n) := by
      unfold foldG
      rw [show Gs.length / 2 = n by omega]
      simp
    have eH : foldH x Hs = List.zipWith (fun l r => x • l + r) (Hs.take n) (Hs.drop n) := by
      unfold foldH
      rw [show Hs.length / 2 = n by omega]
      simp
    rw [eG, eH, foldA_dot x (by simp; omega) (by simp; omega), foldB_dot x (by simp; omega)
      (by simp; omega), foldAB_dot x (by simp; omega) (by simp; omega),
      ← dot_take_drop n (s := a) (p := Gs) (by omega), ← dot_take_drop n (s := b) (p := Hs) (by omega),
      ← dot_take_drop n (s := a) (p := b) (by omega)]
    module

/-- The conversations of a prover with the same four challenges in each round. -/
def _root_.Qesa.Spec.IpaProver.tree (x : Fin 4 → F) : {q : Nat} → IpaProver F G q → IpaTree F G q
  | _, .final a b => .leaf a b
  | _, .round L R next => .node L R x fun i => (next (x i)).tree x

omit [Field F] [AddCommGroup G] [Module F G] [DecidableEq G] in
theorem tree_distinct (x : Fin 4 → F) (hx : Function.Injective x) : ∀ {q : Nat} (P : IpaProver F G q),
    (P.tree x).Distinct
  | _, .final _ _ => trivial
  | _, .round _ _ next => ⟨hx, fun i => tree_distinct x hx (next (x i))⟩

omit [AddCommGroup G] [Module F G] [DecidableEq G] in
theorem tree_paths (x : Fin 4 → F) : ∀ {q : Nat} (P : IpaProver F G q), ∀ c ∈ (P.tree x).paths,
    ∃ xs : List F, xs.length = q ∧ c = P.talk xs
  | _, .final a b, c, h => by
    simp only [IpaProver.tree, IpaTree.paths, List.mem_singleton] at h
    exact ⟨[], rfl, h⟩
  | _, .round L R next, c, h => by
    simp only [IpaProver.tree, IpaTree.paths, List.mem_flatMap, List.mem_map] at h
    obtain ⟨i, -, c', h', rfl⟩ := h
    obtain ⟨xs, hl, rfl⟩ := tree_paths x (next (x i)) c' h'
    exact ⟨x i :: xs, by simp [hl], rfl⟩

/-- The conversations of the honest prover, with the same four challenges in each round. -/
def honestTree (Q : G) (x : Fin 4 → F) (q : Nat) (Gs Hs : List G) (a b : List F) : IpaTree F G q :=
  (honestProver Q q Gs Hs a b).tree x

omit [DecidableEq G] in
theorem honestTree_distinct (Q : G) (x : Fin 4 → F) (hx : Function.Injective x) (q : Nat)
    (Gs Hs : List G) (a b : List F) : (honestTree Q x q Gs Hs a b).Distinct := tree_distinct x hx _

omit [DecidableEq G] in
theorem honestTree_accepts (Q : G) (x : Fin 4 → F) (q : Nat) (Gs Hs : List G) (a b : List F)
    (hG : Gs.length = 2 ^ q) (hH : Hs.length = 2 ^ q) (ha : a.length = 2 ^ q) (hb : b.length = 2 ^ q) :
    ∀ c ∈ (honestTree Q x q Gs Hs a b).paths,
      c.Accepts Gs Hs Q (dot a Gs + dot b Hs + dot a b • Q) := by
  intro c hc
  obtain ⟨xs, hl, rfl⟩ := tree_paths x _ c hc
  exact honestProver_accepts Q q Gs Hs a b xs hG hH ha hb hl

/-! ### C63 -/

/-- C63: the converse of `C63_qesa_shifted`, hence an exact description of what QESA proves. Let the field
have enough elements, let every scalar be the value of some 64 bytes (so that it can be a challenge) and let
the vector with first component `1 + x² (w₀ - 1)` solve the batched equation. Then there are accepted
conversations as in C61 with the commitment to `w`, `r₀`, `r₁` on `G` and a commitment on `H`. In particular
the hypotheses of the soundness theorems can be met in every instance. -/
theorem C63_trees_exist [DecidableEq F] {m k q : Nat} (hq : m + 3 = 2 ^ q) (h64 : q < 64)
    (cod : Codec G) (enc : F → Vector UInt8 64) (henc : ∀ y, (leNat (enc y).toList : F) = y)
    (Gs Hs : List G) (hG : Gs.length = m + 3) (hH : Hs.length = m + 3) (Q : G)
    (Ms : Fin (k + 1) → Matrix (Fin (m + 1)) (Fin (m + 1)) F) (x : F) (hx : x ≠ 0)
    (s : Fin (m + 2) → F) (hs : Function.Injective s) (y : Fin 4 → F) (hy : Function.Injective y)
    (hy0 : ∀ i, y i ≠ 0) (w : Fin (m + 1) → F) (r0 r1 : F)
    (h : quad (batched (m + 3) Ms x) (shifted x w) = 0) :
    QesaTrees q Gs Hs Q Ms (dot (List.ofFn w ++ [r0, r1]) Gs)
      (dot (List.ofFn ((batched (m + 3) Ms x).mulVec (shifted x w)) ++ [-r1, r0]) Hs) x := by
  set M := batched (m + 3) Ms x with hM
  let y3 : Fin 3 → F := fun i => y i.castSucc
  let y2 : Fin 2 → F := fun i => y i.castSucc.castSucc
  have hy3 : Function.Injective y3 := hy.comp (Fin.castSucc_injective 3)
  let u := fun i j => maskedWitness (shifted x w) r0 r1 (s i) (y3 j)
  let v := fun i j => maskedImage M (shifted x w) r0 r1 (s i) (y3 j)
  have lu : ∀ i j, (u i j).length = 2 ^ q := by
    intro i j; simp [u, maskedWitness, challengeVector, ← hq]
  have lv : ∀ i j, (v i j).length = 2 ^ q := by
    intro i j; simp [v, maskedImage, challengeImage, ← hq]
  have lG : (rescaled (x ^ 2) Gs).length = 2 ^ q := by
    rw [← hq, ← hG]
    cases Gs with
    | nil => rfl
    | cons g Gs => rfl
  refine ⟨s, fun _ => y3, fun _ _ => 0, fun _ _ => y3, fun _ _ _ => y2, fun i j l e =>
    honestTree ((y2 e)⁻¹ • Q) y q (rescaled (x ^ 2) Gs) Hs ((u i j).map fun z => z * y3 l)
      ((v i j).map fun z => z * y3 l), hs, fun _ => hy3, fun _ _ => hy3, ?_, fun _ _ _ _ => hy0 _,
    fun i j l e => honestTree_distinct _ y hy q _ _ _ _, ?_⟩
  · intro _ _ _ h
    have := hy h
    simp at this
  · intro i j l e c hc
    obtain ⟨l1, l2, l3⟩ := paths_length _ c hc
    refine QesaAccepted.of_accepts (by omega) cod enc henc Gs Hs hG hH Q Ms _ _ x (s i) (y3 j) 0 (y3 l) (y2 e)
      c (by rw [l1, hq]) (by rw [l1]; exact h64) (by rw [l1, l2]) (by rw [l1, l3]) ?_
    have hacc := honestTree_accepts ((y2 e)⁻¹ • Q) y q (rescaled (x ^ 2) Gs) Hs
      ((u i j).map fun z => z * y3 l) ((v i j).map fun z => z * y3 l) lG (by rw [hH, hq]) (by simp [lu])
      (by simp [lv]) c hc
    have hprod : dot (u i j) (v i j) = - quad M (powers (s i) (m + 1)) := by
      simp only [u, v]
      rw [Inner.product_eq, h, zero_sub]
    have e2 : dot ((u i j).map fun z => z * y3 l) ((v i j).map fun z => z * y3 l) =
        y3 l * y3 l * dot (u i j) (v i j) := by
      rw [dot_map_mul_left, dot_comm (u i j), dot_map_mul_left, dot_comm (v i j)]
      simp only [smul_eq_mul, mul_assoc]
    rw [e2, dot_map_mul_left, dot_map_mul_left, ← smul_add, hprod] at hacc
    intro t P
    convert hacc using 1
    simp only [P]
    rw [← hM, shifted_point hx M Gs Hs hG w r0 r1]
    simp only [u, v, t, ← hM, add_zero]
    have hα : y2 e ≠ 0 := hy0 _
    rw [add_sub_assoc]
    congr 1
    rw [smul_smul, smul_smul, ← sub_smul]
    congr 1
    field_simp
    ring

/-- C63: for generators without relations and challenges as above, conversations as in C61 with the
commitment to `w` exist exactly if the vector with first component `1 + x² (w₀ - 1)` solves the batched
equation. -/
theorem C63_trees_iff [DecidableEq F] {m k q : Nat} (hq : m + 3 = 2 ^ q) (h64 : q < 64)
    (cod : Codec G) (enc : F → Vector UInt8 64) (henc : ∀ y, (leNat (enc y).toList : F) = y)
    (Gs Hs : List G) (hG : Gs.length = m + 3) (hH : Hs.length = m + 3) (Q : G)
    (hind : ∀ r : List F × List F × F, ¬ IsRelation Gs Hs Q r)
    (Ms : Fin (k + 1) → Matrix (Fin (m + 1)) (Fin (m + 1)) F) (x : F) (hx : x ≠ 0)
    (s : Fin (m + 2) → F) (hs : Function.Injective s) (y : Fin 4 → F) (hy : Function.Injective y)
    (hy0 : ∀ i, y i ≠ 0) (w : Fin (m + 1) → F) (r0 r1 : F) :
    (∃ v : List F, v.length = Hs.length ∧
      QesaTrees q Gs Hs Q Ms (dot (List.ofFn w ++ [r0, r1]) Gs) (dot v Hs) x) ↔
      quad (batched (m + 3) Ms x) (shifted x w) = 0 := by
  constructor
  · rintro ⟨v, lv, h⟩
    exact C63_qesa_shifted hq Gs Hs hG hH Q _ _ hind Ms x hx h w r0 r1 rfl ⟨v, lv, rfl⟩
  · intro h
    exact ⟨_, by simp [hH], C63_trees_exist hq h64 cod enc henc Gs Hs hG hH Q Ms x hx s hs y hy hy0 w r0 r1 h⟩

section
open Toy

/-- The bytes of a scalar of the example instance. -/
def exEnc (y : K) : Vector UInt8 64 := Vector.ofFn fun i => if i.val = 0 then UInt8.ofNat y.val else 0

theorem exEnc_value : ∀ y : K, (leNat (exEnc y).toList : K) = y := by decide +kernel

/-- Two equations with the solution `(1, 2)`. -/
def exEqs : Fin 2 → Matrix (Fin 2) (Fin 2) K := ![!![4, 0; 0, -1], !![0, 1; 0, 50]]

/-- C61, C63: all hypotheses can be met in the example instance. -/
example : QesaTrees 2 [3, 5, 8, 13] [21, 34, 55, 89] (7 : K) exEqs
    (dot (List.ofFn (![1, 2] : Fin 2 → K) ++ [3, 4]) [3, 5, 8, 13])
    (dot (List.ofFn ((batched 4 exEqs 2).mulVec (shifted (2 : K) ![1, 2])) ++ [-4, 3])
      [21, 34, 55, 89]) 2 :=
  C63_trees_exist (m := 1) (q := 2) rfl (by decide) codec exEnc exEnc_value _ _ rfl rfl _ exEqs 2
    (by decide +kernel) ![0, 1, 2] (by decide +kernel) ![1, 2, 3, 4] (by decide +kernel) (by decide +kernel)
    ![1, 2] _ _ (by decide +kernel)

/-- C61: the extractor finds the solution and the masks 3 and 4 in the conversations of an honest prover. -/
example :
    let G : List K := [3, 5, 8, 13]
    let H : List K := [21, 34, 55, 89]
    let M := batched 4 exEqs 2
    let y3 : Fin 3 → K := ![1, 2, 3]
    let y2 : Fin 2 → K := ![1, 2]
    extractQesa M 2 y3 (fun _ => y3) (fun i j => extractAlm (- quad M (powers (y3 i) 2))
      y3 (fun _ => y2) fun l e => (honestTree ((y2 e)⁻¹ * 7) ![1, 2, 3, 4] 2 (rescaled (2 ^ 2 : K) G) H
        ((maskedWitness ![1, 2] 3 4 (y3 i) (y3 j)).map fun z => z * y3 l)
        ((maskedImage M ![1, 2] 3 4 (y3 i) (y3 j)).map fun z => z * y3 l)).scalars) =
      .inl ([1, 2, 3, 4], List.ofFn (M.mulVec ![1, 2]) ++ [-4, 3]) := by
  decide +kernel

/-- Generators without a relation: the unit vectors of `K⁹`. -/
def unitG : List (Fin 9 → K) := [Pi.single 0 1, Pi.single 1 1, Pi.single 2 1, Pi.single 3 1]
def unitH : List (Fin 9 → K) := [Pi.single 4 1, Pi.single 5 1, Pi.single 6 1, Pi.single 7 1]
def unitQ : Fin 9 → K := Pi.single 8 1

theorem unit_no_relation : ∀ r : List K × List K × K, ¬ IsRelation unitG unitH unitQ r := by
  rintro ⟨u, v, e⟩ ⟨h1, h2, ⟨y, hy, hy0⟩, h⟩
  obtain ⟨u0, u1, u2, u3, rfl⟩ : ∃ a b c d, u = [a, b, c, d] := by
    match u, h1 with
    | [a, b, c, d], _ => exact ⟨a, b, c, d, rfl⟩
  obtain ⟨v0, v1, v2, v3, rfl⟩ : ∃ a b c d, v = [a, b, c, d] := by
    match v, h2 with
    | [a, b, c, d], _ => exact ⟨a, b, c, d, rfl⟩
  have h' := fun i => congrFun h i
  simp only [unitG, unitH, unitQ, dot_cons, dot_nil_left, Pi.add_apply, Pi.smul_apply, Pi.single_apply, smul_eq_mul] at h'
  have e0 := h' 0
  have e1 := h' 1
  have e2 := h' 2
  have e3 := h' 3
  have e4 := h' 4
  have e5 := h' 5
  have e6 := h' 6
  have e7 := h' 7
  have e8 := h' 8
  simp [Fin.ext_iff] at e0 e1 e2 e3 e4 e5 e6 e7 e8
  subst e0 e1 e2 e3 e4 e5 e6 e7 e8
  simp at hy
  exact hy0 hy

open Classical in
/-- An encoding of points from an injective map to bytes. -/
noncomputable def codecOf {G : Type} (f : G → Comp) (hf : Function.Injective f) : Codec G where
  compress := f
  decompress c := if h : ∃ p, f p = c then some h.choose else none
  decompress_compress p := by
    have h : ∃ p', f p' = f p := ⟨p, rfl⟩
    rw [dif_pos h, hf h.choose_spec]
  compress_decompress c p h := by
    split at h
    · next hc => cases h; exact hc.choose_spec
    · cases h

theorem encode_injective : Function.Injective fun p : Fin 9 → K => List.ofFn fun i => UInt8.ofNat (p i).val := by
  intro p p' h
  have h := List.ofFn_injective h
  have key : ∀ a b : K, UInt8.ofNat a.val = UInt8.ofNat b.val → a = b := by decide +kernel
  exact funext fun i => key _ _ (congrFun h i)

/-- C63: an instance that meets all hypotheses of the soundness theorem, with generators without
relations: accepted conversations for two values of `x`. -/
example : ∀ i, quad (exEqs i) ![1, 2] = 0 := by
  have key := C63_qesa_sound (m := 1) (q := 2) rfl unitG unitH rfl rfl unitQ unit_no_relation exEqs ![1, 2] rfl
    3 4 ![1, 2] (by decide +kernel) (by decide +kernel) (fun i => List.ofFn ((batched 4 exEqs
      ((![1, 2] : Fin 2 → K) i)).mulVec (shifted ((![1, 2] : Fin 2 → K) i) ![1, 2])) ++ [-4, 3])
    (fun i => by simp [unitH])
    (fun i => C63_trees_exist (m := 1) (q := 2) rfl (by decide) (codecOf _ encode_injective) exEnc exEnc_value
      _ _ rfl rfl _ exEqs _ (by revert i; decide +kernel) ![0, 1, 2] (by decide +kernel) ![1, 2, 3, 4]
      (by decide +kernel) (by decide +kernel) ![1, 2] _ _ (by revert i; decide +kernel))
  exact fun i => key i (by omega)
end

end Qesa.Props
