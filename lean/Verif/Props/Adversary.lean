import Verif.SpecAdversary
import Verif.Props.Jobs
import Verif.SpecSimSession
/- C110: zero knowledge of several SimpleZK proofs against an adversary with hash queries. -/
namespace Qesa.Props
open Qesa Spec Lmpa

set_option linter.unusedSectionVars false
variable {F G : Type} [Field F] [AddCommGroup G] [Module F G]

/-! ### The prover as an algorithm -/

theorem andThen_done_atMost {E α β : Type} (f : α → β) (B : Algo E α) (T : Nat) (h : B.AtMost T) :
    (B.andThen fun r => .done (f r)).AtMost T :=
  Algo.andThen_atMost (fun r => .done (f r)) 0 (fun _ => trivial) B T h

/-- The loop of `create`, with its hash queries made explicit. -/
def loopAlgo (cd : Codec G) : Nat → Nat → List (List G) → List F → List Event →
    Algo Event (R (NoZK F G × Transcript))
  | 0, _, _, _, _ => .done (.error .outOfFuel)
  | fuel + 1, n, A, w, log =>
    if n = 1 then .done ((idx w 0).map fun w0 => (⟨[], [], w0⟩, ⟨log⟩))
    else
      let L := matrixpointVectorMul (leftHalves A) (w.drop (w.length / 2))
      let R := matrixpointVectorMul (rightHalves A) (w.take (w.length / 2))
      let log := (absorb (⟨cd, fun _ => Vector.replicate 64 0⟩ : Ctx G) "R" R
        (absorb (⟨cd, fun _ => Vector.replicate 64 0⟩ : Ctx G) "L" L ⟨log⟩)).log ++ [.chal "challenge" 64]
      .ask log fun v =>
        let x : F := ((leNat v.toList : Nat) : F)
        match matrixpointMatrixAdd (leftHalves A) (matrixpointScalarMul (rightHalves A) x) with
        | .error e => .done (.error e)
        | .ok A' => (loopAlgo cd fuel (n / 2) A' (List.zipWith (fun a b => a * x + b) (w.take (w.length / 2))
            (w.drop (w.length / 2))) log).andThen fun r =>
              .done (r.map fun y => (⟨L :: y.1.L_Vec, R :: y.1.R_Vec, y.1.w⟩, y.2))

theorem absorb_ro (cd : Codec G) (ro ro' : Hash) (label : String) : ∀ (us : List G) (tr : Transcript),
    absorb (⟨cd, ro⟩ : Ctx G) label us tr = absorb ⟨cd, ro'⟩ label us tr
  | [], _ => rfl
  | u :: us, tr => by
    unfold absorb
    exact absorb_ro cd ro ro' label us _

theorem run_loopAlgo (cd : Codec G) (ro : Hash) : ∀ (fuel n : Nat) (A : List (List G)) (w : List F) (log : List Event),
    (loopAlgo cd fuel n A w log).run id ro = createLoop ⟨cd, ro⟩ fuel n A w ⟨log⟩
  | 0, _, _, _, _ => rfl
  | fuel + 1, n, A, w, log => by
    unfold loopAlgo createLoop
    by_cases hn : n = 1
    · rw [if_pos hn, if_pos hn]
      cases idx w 0 <;> rfl
    · rw [if_neg hn, if_neg hn]
      simp only [Algo.run, List.map_id, Ipa.challengeScalar_eq]
      rw [absorb_ro cd ro (fun _ => Vector.replicate 64 0) "L", absorb_ro cd ro (fun _ => Vector.replicate 64 0) "R"]
      unfold squeeze
      cases hA : matrixpointMatrixAdd (leftHalves A) (matrixpointScalarMul (rightHalves A) ((leNat (ro ((absorb
        (⟨cd, fun _ => Vector.replicate 64 0⟩ : Ctx G) "R" (matrixpointVectorMul (rightHalves A) (w.take (w.length / 2)))
        (absorb (⟨cd, fun _ => Vector.replicate 64 0⟩ : Ctx G) "L" (matrixpointVectorMul (leftHalves A)
          (w.drop (w.length / 2))) ⟨log⟩)).log ++ [.chal "challenge" 64])).toList : Nat) : F)) with
      | error e => rfl
      | ok A' =>
        simp only [Algo.run_andThen, run_loopAlgo cd ro fuel, Algo.run, bind, Except.bind]
        generalize createLoop (F := F) (⟨cd, ro⟩ : Ctx G) fuel _ _ _ _ = c
        cases c <;> rfl

theorem loopAlgo_atMost (cd : Codec G) : ∀ (fuel n k : Nat) (A : List (List G)) (w : List F) (log : List Event),
    0 < n → n < 2 ^ (k + 1) → (loopAlgo cd fuel n A w log).AtMost k
  | 0, _, _, _, _, _, _, _ => trivial
  | fuel + 1, n, k, A, w, log, h0, hk => by
    unfold loopAlgo
    by_cases hn : n = 1
    · rw [if_pos hn]; trivial
    · rw [if_neg hn]
      cases k with
      | zero => omega
      | succ k =>
        intro v
        dsimp only
        split
        · trivial
        · exact andThen_done_atMost _ _ k
            (loopAlgo_atMost cd fuel (n / 2) k _ _ _ (by omega) (by rw [pow_succ] at hk; omega))

/-- `lmpa::simple_zk`, with its hash queries made explicit. -/
def simpleAlgo (cd : Codec G) (fuel : Nat) {n : Nat} (c : SimpleClaim F G n) (τ : Tape F) :
    Algo Event (R (SimpleZK F G × Transcript)) :=
  let r := List.ofFn fun i : Fin c.Gs.length => τ i
  let a := c.A.map fun row => dot r row
  let log := simpleLog (⟨cd, fun _ => Vector.replicate 64 0⟩ : Ctx G) c.log a
  .ask log fun v =>
    (loopAlgo cd fuel c.Gs.length c.A (List.zipWith (fun w r => ((leNat v.toList : Nat) : F) * w + r) (List.ofFn c.w) r)
      log).andThen fun x => .done (x.map fun x => (⟨x.1, a⟩, x.2))

theorem run_simpleAlgo (cd : Codec G) (ro : Hash) (fuel : Nat) {n : Nat} (c : SimpleClaim F G n) (τ : Tape F) :
    (simpleAlgo cd fuel c τ).run id ro =
      (createSimple ⟨cd, ro⟩ fuel ⟨c.log⟩ τ c.A c.Gs (List.ofFn c.w)).map fun x => (x.1, x.2.1) := by
  rw [createSimple_eq]
  unfold simpleAlgo create
  simp only [Algo.run, Algo.run_andThen, run_loopAlgo, List.map_id]
  have e : simpleLog (⟨cd, fun _ => Vector.replicate 64 0⟩ : Ctx G) = simpleLog (⟨cd, ro⟩ : Ctx G) := rfl
  rw [e]
  unfold simpleBeta squeeze
  generalize createLoop (F := F) (⟨cd, ro⟩ : Ctx G) fuel _ _ _ _ = c
  cases c <;> rfl

theorem simpleAlgo_atMost (cd : Codec G) (fuel : Nat) {n : Nat} (hn : 0 < n) (c : SimpleClaim F G n)
    (hG : c.Gs.length = n) (τ : Tape F) : (simpleAlgo cd fuel c τ).AtMost (Nat.log 2 n + 1) := by
  intro v
  exact andThen_done_atMost _ _ (Nat.log 2 n)
    (loopAlgo_atMost cd fuel _ _ _ _ _ (by omega) (hG.trans_lt (Nat.lt_pow_succ_log_self (by omega) n)))

/-- The adversary and `m` proofs with fixed random tapes as one algorithm. -/
def realAlgo {α : Type} {n : Nat} (P : Adversary F G α n) (cd : Codec G) (fuel : Nat) :
    (m : Nat) → (Fin m → Tape F) → Algo Event α
  | 0, _ => P.start
  | m + 1, τ => (realAlgo P cd fuel m fun i => τ i.castSucc).andThen fun a =>
      (simpleAlgo cd fuel (P.claim a) (τ (Fin.last m))).andThen fun r => P.step a r

theorem run_realAlgo {α : Type} {n : Nat} (P : Adversary F G α n) (cd : Codec G) (fuel : Nat) (ro : Hash) :
    ∀ (m : Nat) (τ : Fin m → Tape F), (realAlgo P cd fuel m τ).run id ro = P.real cd fuel ro m τ
  | 0, _ => rfl
  | m + 1, τ => by
    unfold realAlgo Adversary.real
    simp only [Algo.run_andThen, run_realAlgo P cd fuel ro m, run_simpleAlgo]

theorem realAlgo_atMost {α : Type} {n T₀ T₁ : Nat} (hn : 0 < n) (P : Adversary F G α n) (cd : Codec G) (fuel : Nat)
    (h0 : P.start.AtMost T₀) (h1 : ∀ a r, (P.step a r).AtMost T₁) (hG : ∀ a, (P.claim a).Gs.length = n) :
    ∀ (m : Nat) (τ : Fin m → Tape F), (realAlgo P cd fuel m τ).AtMost (T₀ + m * (Nat.log 2 n + 1 + T₁))
  | 0, _ => by simpa [realAlgo] using h0
  | m + 1, τ => by
    unfold realAlgo
    rw [Nat.succ_mul, ← Nat.add_assoc]
    refine Algo.andThen_atMost (fun a => (simpleAlgo cd fuel (P.claim a) (τ (Fin.last m))).andThen fun r => P.step a r)
      _ (fun a => ?_) _ _ (realAlgo_atMost hn P cd fuel h0 h1 hG m _)
    exact Algo.andThen_atMost (fun r => P.step a r) _ (h1 a) _ _ (simpleAlgo_atMost cd fuel hn _ (hG a) _)

/-! ### Averages -/

/-- The mean of a function on a finite type. -/
def avg (X : Type) [Fintype X] (g : X → ℚ) : ℚ := (∑ x, g x) / Fintype.card X

theorem avg_congr {X : Type} [Fintype X] {g g' : X → ℚ} (h : ∀ x, g x = g' x) : avg X g = avg X g' := by
  rw [funext h]

theorem avg_prod {X Y : Type} [Fintype X] [Fintype Y] (g : X × Y → ℚ) :
    avg (X × Y) g = avg X fun x => avg Y fun y => g (x, y) := by
  unfold avg
  rw [Fintype.sum_prod_type, ← Finset.sum_div, div_div, Fintype.card_prod, Nat.cast_mul, mul_comm]

theorem avg_comm {X Y : Type} [Fintype X] [Fintype Y] (g : X → Y → ℚ) :
    (avg X fun x => avg Y fun y => g x y) = avg Y fun y => avg X fun x => g x y := by
  unfold avg
  rw [← Finset.sum_div, ← Finset.sum_div, Finset.sum_comm, div_div, div_div, mul_comm]

theorem avg_equiv {X Y : Type} [Fintype X] [Fintype Y] (e : X ≃ Y) (g : Y → ℚ) : avg Y g = avg X fun x => g (e x) := by
  unfold avg
  rw [Equiv.sum_comp e g, Fintype.card_congr e]

theorem avg_close {X : Type} [Fintype X] [Nonempty X] {g g' : X → ℚ} {c : ℚ} (h : ∀ x, |g x - g' x| ≤ c) :
    |avg X g - avg X g'| ≤ c := by
  unfold avg
  have hc : (0 : ℚ) < Fintype.card X := by exact_mod_cast Fintype.card_pos
  rw [← sub_div, ← Finset.sum_sub_distrib, abs_div, abs_of_pos hc, div_le_iff₀ hc]
  refine (Finset.abs_sum_le_sum_abs _ _).trans ((Finset.sum_le_sum fun x _ => h x).trans ?_)
  rw [Finset.sum_const, Finset.card_univ, nsmul_eq_mul, mul_comm]

theorem avg_snoc {X : Type} [Fintype X] (m : Nat) (g : (Fin (m + 1) → X) → ℚ) :
    avg (Fin (m + 1) → X) g = avg X fun x => avg (Fin m → X) fun t => g (Fin.snoc t x) := by
  rw [avg_equiv (Fin.snocEquiv fun _ : Fin (m + 1) => X) g, avg_prod]
  rfl

theorem chanceSession_avg [Fintype F] (ro : Hash) (D : Finset (List Event)) (rest : Tape F) (N m : Nat)
    (A : Hash → (Fin m → Tape F) → Prop) : chanceSession ro D rest N m A =
      avg (Fin m → Fin N → F) fun t => chance ro D fun ro => A ro fun i => tapeOf rest (t i) := by
  classical
  exact chanceSession_eq ro D rest N m A

theorem chanceBoth_avg [Fintype F] (ro : Hash) (D : Finset (List Event)) (rest : Tape F) (N : Nat)
    (A : Hash → Tape F → Prop) : chanceBoth ro D rest N A =
      avg (Fin N → F) fun t => chance ro D fun ro => A ro (tapeOf rest t) := by
  classical
  unfold avg
  rw [sum_chanceBoth, mul_div_assoc, div_self, mul_one]
  exact_mod_cast Fintype.card_ne_zero

theorem chanceSim_avg [Fintype F] (ro : Hash) (D : Finset (List Event)) (n : Nat)
    (A : Hash → (Fin n → F) → Vector UInt8 64 → Prop) : chanceSim ro D n A =
      avg (Fin n → F) fun z => avg (Vector UInt8 64) fun v => chance ro D fun ro => A ro z v := by
  rw [← avg_prod (fun x : (Fin n → F) × Vector UInt8 64 => chance ro D fun ro => A ro x.1 x.2)]
  unfold chanceSim chance countHashes avg
  rw [card_pairs (fun f (t : (Fin n → F) × Vector UInt8 64) => A (patch ro D f) t.1 t.2), ← Finset.sum_div, div_div]
  rw [Fintype.card_prod, card_bytes]
  simp only [Nat.card_eq_fintype_card, Fintype.card_fun, Fintype.card_fin, Nat.cast_pow, Nat.cast_mul, Nat.cast_sum,
    mul_assoc, Nat.cast_ofNat]

theorem chanceSessionSim_avg [Fintype F] (ro : Hash) (D : Finset (List Event)) (n m : Nat)
    (A : Hash → (Fin m → Fin n → F) → (Fin m → Vector UInt8 64) → Prop) : chanceSessionSim ro D n m A =
      avg (Fin m → Fin n → F) fun z => avg (Fin m → Vector UInt8 64) fun v => chance ro D fun ro => A ro z v := by
  rw [← avg_prod (fun x : (Fin m → Fin n → F) × (Fin m → Vector UInt8 64) => chance ro D fun ro => A ro x.1 x.2)]
  unfold chanceSessionSim chance countHashes avg
  rw [card_pairs (fun f (t : (Fin m → Fin n → F) × (Fin m → Vector UInt8 64)) => A (patch ro D f) t.1 t.2),
    ← Finset.sum_div, div_div]
  rw [Fintype.card_prod, Fintype.card_fun (β := Vector UInt8 64), card_bytes]
  simp only [Nat.card_eq_fintype_card, Fintype.card_fun, Fintype.card_fin, Nat.cast_pow, Nat.cast_mul, Nat.cast_sum,
    mul_assoc, Nat.cast_ofNat]

/-! ### Zero knowledge -/

/-- C110: SimpleZK is zero knowledge for adversaries that choose every statement (and the history of every transcript)
after hash queries and after having seen the earlier proofs. They make at most `T₀` queries before the first proof and at
most `T₁` after each. The probability of every event about the final hash function and the final state of the adversary
differs between prover and simulator by at most `(T₀ + i (log n + 1 + T₁)) / |F|`, summed over the proofs `i`. -/
theorem C110_adaptive_sessions [Fintype F] {α : Type} {n T₀ T₁ : Nat} (cd : Codec G) (fuel : Nat) (rest : Tape F)
    (P : Adversary F G α n) (h0 : P.start.AtMost T₀) (h1 : ∀ a r, (P.step a r).AtMost T₁)
    (hG : ∀ a, (P.claim a).Gs.length = n)
    (hA : ∀ a, ∃ row ∈ (P.claim a).A, ∃ d : Fin n → F, dot (List.ofFn d) row ≠ 0) (m : Nat) :
    ∃ D0 : Finset (List Event), ∀ D, D0 ⊆ D → ∀ (ro : Hash) (E : Hash → α → Prop),
      |chanceSession ro D rest n m (fun ro τ => E ro (P.real cd fuel ro m τ)) -
        chanceSessionSim ro D n m (fun ro z v => E (P.sim cd fuel ro m z v).1 (P.sim cd fuel ro m z v).2)| ≤
      ∑ i ∈ Finset.range m, ((T₀ + i * (Nat.log 2 n + 1 + T₁) : ℕ) : ℚ) / Fintype.card F := by
  classical
  induction m with
  | zero =>
    refine ⟨∅, fun D _ ro E => ?_⟩
    rw [chanceSession_avg, chanceSessionSim_avg]
    simp only [avg, Adversary.real, Adversary.sim]
    simp
  | succ m ih =>
    obtain ⟨D1, hD1⟩ := ih
    have hn : ∀ a : α, 0 < n := by
      intro a
      obtain ⟨row, -, d, hd⟩ := hA a
      rcases Nat.eq_zero_or_pos n with h | h
      · subst h
        simp [dot] at hd
      · exact h
    have hn := hn (P.start.run id fun _ => Vector.replicate 64 0)
    have step := fun t : Fin m → Fin n → F => C79_adaptive_zero_knowledge cd fuel
      (realAlgo P cd fuel m fun i => tapeOf rest (t i)) (realAlgo_atMost hn P cd fuel h0 h1 hG m _) P.claim hG hA
    choose D2 hD2 using step
    refine ⟨D1 ∪ Finset.univ.biUnion D2, fun D hD ro E => ?_⟩
    have hDD1 : D1 ⊆ D := Finset.union_subset_left hD
    have hDD2 : ∀ t, D2 t ⊆ D := fun t =>
      (Finset.subset_biUnion_of_mem D2 (Finset.mem_univ t)).trans (Finset.union_subset_right hD)
    let E' : Hash → α → R (SimpleZK F G × Transcript) → Prop := fun ro a r => E ro ((P.step a r).run id ro)
    let Ez : (Fin n → F) → Vector UInt8 64 → Hash → α → Prop := fun z v ro a =>
      E' (simHash cd (P.claim a).log (P.claim a).A (P.claim a).t ro z v) a
        (simProof cd fuel (P.claim a).log (P.claim a).A (P.claim a).Gs (P.claim a).t ro z v)
    have r1 : chanceSession ro D rest n (m + 1) (fun ro τ => E ro (P.real cd fuel ro (m + 1) τ)) =
        avg (Fin m → Fin n → F) fun t => chanceBoth ro D rest n fun ro τ =>
          let c := P.claim ((realAlgo P cd fuel m fun i => tapeOf rest (t i)).run id ro)
          E' ro ((realAlgo P cd fuel m fun i => tapeOf rest (t i)).run id ro)
            ((createSimple ⟨cd, ro⟩ fuel ⟨c.log⟩ τ c.A c.Gs (List.ofFn c.w)).map fun x => (x.1, x.2.1)) := by
      rw [chanceSession_avg, avg_snoc, avg_comm]
      refine avg_congr fun t => ?_
      rw [chanceBoth_avg]
      refine avg_congr fun r => ?_
      simp only [Adversary.real, run_realAlgo, Fin.snoc_castSucc, Fin.snoc_last, E']
    have r2 : (avg (Fin m → Fin n → F) fun t => chanceSim ro D n fun ro z v =>
          let c := P.claim ((realAlgo P cd fuel m fun i => tapeOf rest (t i)).run id ro)
          E' (simHash cd c.log c.A c.t ro z v) ((realAlgo P cd fuel m fun i => tapeOf rest (t i)).run id ro)
            (simProof cd fuel c.log c.A c.Gs c.t ro z v)) =
        avg (Fin n → F) fun z => avg (Vector UInt8 64) fun v =>
          chanceSession ro D rest n m fun ro τ => Ez z v ro (P.real cd fuel ro m τ) := by
      simp only [chanceSim_avg, chanceSession_avg, run_realAlgo]
      rw [avg_comm]
      refine avg_congr fun z => ?_
      rw [avg_comm]
    have r3 : chanceSessionSim ro D n (m + 1) (fun ro z v => E (P.sim cd fuel ro (m + 1) z v).1
          (P.sim cd fuel ro (m + 1) z v).2) =
        avg (Fin n → F) fun z => avg (Vector UInt8 64) fun v =>
          chanceSessionSim ro D n m fun ro z' v' => Ez z v (P.sim cd fuel ro m z' v').1 (P.sim cd fuel ro m z' v').2 := by
      rw [chanceSessionSim_avg, avg_snoc]
      refine avg_congr fun z => ?_
      simp only [avg_snoc, chanceSessionSim_avg]
      rw [avg_comm]
      refine avg_congr fun v => avg_congr fun z' => avg_congr fun v' => ?_
      simp only [Adversary.sim, Fin.snoc_castSucc, Fin.snoc_last, Ez, E']
    have : Nonempty (Vector UInt8 64) := ⟨Vector.replicate 64 0⟩
    have s1 := avg_close fun t : Fin m → Fin n → F => hD2 t D (hDD2 t) ro rest E'
    rw [← r1, r2] at s1
    have s2 : |(avg (Fin n → F) fun z => avg (Vector UInt8 64) fun v =>
          chanceSession ro D rest n m fun ro τ => Ez z v ro (P.real cd fuel ro m τ)) -
        avg (Fin n → F) fun z => avg (Vector UInt8 64) fun v =>
          chanceSessionSim ro D n m fun ro z' v' => Ez z v (P.sim cd fuel ro m z' v').1 (P.sim cd fuel ro m z' v').2| ≤
        ∑ i ∈ Finset.range m, ((T₀ + i * (Nat.log 2 n + 1 + T₁) : ℕ) : ℚ) / Fintype.card F := by
      apply avg_close
      intro z
      apply avg_close
      intro v
      exact hD1 D hDD1 ro (Ez z v)
    rw [← r3] at s2
    rw [Finset.sum_range_succ]
    refine (abs_sub_le _ _ _).trans ((add_le_add s1 s2).trans (le_of_eq ?_))
    exact add_comm _ _

section
open Toy

/-- An adversary that starts with a query, puts the answer into its first witness, and queries the transcript of every proof
for the next witness. It remembers the proofs. -/
def exAdversary : Adversary K K (K × List (SimpleZK K K)) 2 where
  start := .ask [.chal "x" 64] fun v => .done ((leNat v.toList : Nat), [])
  claim s := ⟨[.msg "number" [UInt8.ofNat s.2.length]], [[1, 3]], [1, 1], ![s.1, 5]⟩
  step s r := match r with
    | .ok (p, tr) => .ask (tr.log ++ [.chal "more" 64]) fun v => .done ((leNat v.toList : Nat), s.2 ++ [p])
    | .error _ => .done s

/-- Three proofs: the adversary distinguishes with probability at most 12/101. -/
example : ∃ D0 : Finset (List Event), ∀ D, D0 ⊆ D → ∀ (ro : Hash) (E : Hash → K × List (SimpleZK K K) → Prop),
    |chanceSession ro D exTape 2 3 (fun ro τ => E ro (exAdversary.real codec 3 ro 3 τ)) -
      chanceSessionSim ro D 2 3 (fun ro z v => E (exAdversary.sim codec 3 ro 3 z v).1
        (exAdversary.sim codec 3 ro 3 z v).2)| ≤ 12 / 101 := by
  obtain ⟨D0, h⟩ := C110_adaptive_sessions (T₀ := 1) (T₁ := 1) codec 3 exTape exAdversary (fun _ => trivial)
    (fun s r => by
      cases r with
      | ok x => exact fun _ => trivial
      | error e => trivial)
    (fun _ => rfl) (fun s => ⟨[1, 3], by simp [exAdversary], ![1, 0], by decide +kernel⟩) 3
  refine ⟨D0, fun D hD ro E => (h D hD ro E).trans (le_of_eq ?_)⟩
  have h2 : Nat.log 2 2 = 1 := by decide +kernel
  have h101 : Fintype.card K = 101 := ZMod.card 101
  rw [h2, h101]
  norm_num [Finset.sum_range_succ]

/-- Two simulated proofs: both are accepted under the final hash function. -/
example : (match exAdversary.sim codec 3 cx.ro 2 ![![3, 4], ![5, 6]] ![Vector.replicate 64 7, Vector.replicate 64 8] with
    | (ro, _, [p, q]) =>
      let s := exAdversary.sim codec 3 cx.ro 1 ![![3, 4]] ![Vector.replicate 64 7]
      let c := exAdversary.claim s.2
      let c0 := exAdversary.claim (exAdversary.start.run id cx.ro)
      decide ((p.verify ⟨codec, ro⟩ 3 ⟨c0.log⟩ c0.A c0.Gs 2 c0.t).map Prod.fst = .ok true) &&
      decide ((q.verify ⟨codec, ro⟩ 3 ⟨c.log⟩ c.A c.Gs 2 c.t).map Prod.fst = .ok true) &&
      decide ((q.verify cx 3 ⟨c.log⟩ c.A c.Gs 2 c.t).map Prod.fst = .ok false)
    | _ => false) = true := by
  decide +kernel

/-- Why the matrix must not be zero: this adversary knows the first message in advance and asks for the challenge. -/
def exZeroAdversary : Adversary K K K 2 where
  start := .ask [.msg "a" (codec.compress 0), .chal "beta" 64] fun v => .done (leNat v.toList : Nat)
  claim _ := ⟨[], [[0, 0]], [1, 1], ![2, 5]⟩
  step s _ := .done s

/-- The answer it got is the challenge of every real proof, but not of this simulated one. -/
example : (∀ ro τ, exZeroAdversary.real codec 3 ro 1 τ = squeeze K ro [.msg "a" (codec.compress 0), .chal "beta" 64]) ∧
    (let s := exZeroAdversary.sim codec 3 cx.ro 1 ![![3, 4]] ![Vector.replicate 64 7]
     s.2 ≠ squeeze K s.1 [.msg "a" (codec.compress 0), .chal "beta" 64]) := by
  refine ⟨fun ro τ => rfl, ?_⟩
  decide +kernel
end

end Qesa.Props
