import Verif.Props.SimpleZk
import Verif.Props.Qesa
import Verif.Props.RandomOracle
import Verif.Proofs.QesaMachine
import Verif.Proofs.IpaFork
import Verif.Props.Fork
import Mathlib.Tactic.LinearCombination
import Mathlib.Tactic.Module
/- C103: what verifiers say about proofs that the provers make from a wrong witness. -/
namespace Qesa.Props
open Qesa Qesa.Spec Qesa.Ipa
variable {F G : Type} [Field F] [AddCommGroup G] [Module F G] [DecidableEq G]

/-! ### Linear maps -/

/-- C103: the proof that `create` makes from `w` is accepted for the target `t` exactly if the first entry of `t` is
that of `A w`, unless a challenge is zero. -/
theorem C103_lmpa_verdict (cx : Ctx G) (q fuel : Nat) (tr tr' : Transcript) (row : List G) (A : List (List G))
    (Gs : List G) (w : List F) (hA : Width (2 ^ q) (row :: A)) (hw : w.length = 2 ^ q) (hG : Gs.length = 2 ^ q)
    (hf : q < fuel) (p : Lmpa.NoZK F G) (h : Lmpa.create cx fuel tr (row :: A) Gs w = .ok (p, tr')) (t₀ : G)
    (t : List G) :
    p.verify cx fuel tr (row :: A) Gs Gs.length (t₀ :: t) =
      .ok (decide ((lmpaChallenges F cx tr.log p.L_Vec p.R_Vec).prod • (t₀ - dot w row) = 0), tr') := by
  obtain ⟨p', h1, h2, h3, h4, h5, h6⟩ := Lmpa.createLoop_eq cx q fuel (row :: A) w tr hf hA hw
  rw [Lmpa.create, hG, h1, Except.ok.injEq, Prod.mk.injEq] at h
  obtain ⟨rfl, rfl⟩ := h
  rw [hG, Lmpa.verify_eq cx p' q fuel tr _ Gs _ hf hG hA]
  rw [List.take_of_length_le (by omega), List.take_of_length_le (by omega)]
  simp only
  rw [if_pos]
  · have := h6 0 (by simp)
    simp only [List.getElem_cons_zero] at this
    congr 2
    rw [decide_eq_decide]
    simp only [List.headD_cons]
    rw [this]
    simp only [foldedTarget]
    rw [add_left_inj, smul_sub, sub_eq_zero, eq_comm]
  · refine ⟨by omega, by omega, by simp, by simp, ?_, ?_⟩
    · intro L hL h0
      have := h4 L hL
      rw [h0] at this; simp at this
    · intro R hR h0
      have := h5 R hR
      rw [h0] at this; simp at this

/-- C103: in particular a wrong first entry is rejected. -/
theorem C103_lmpa_rejected (cx : Ctx G) (q fuel : Nat) (tr tr' : Transcript) (row : List G) (A : List (List G))
    (Gs : List G) (w : List F) (hA : Width (2 ^ q) (row :: A)) (hw : w.length = 2 ^ q) (hG : Gs.length = 2 ^ q)
    (hf : q < fuel) (p : Lmpa.NoZK F G) (h : Lmpa.create cx fuel tr (row :: A) Gs w = .ok (p, tr')) (t₀ : G)
    (t : List G) (hx : 0 ∉ lmpaChallenges F cx tr.log p.L_Vec p.R_Vec) (ht : t₀ ≠ dot w row) :
    p.verify cx fuel tr (row :: A) Gs Gs.length (t₀ :: t) = .ok (false, tr') := by
  rw [C103_lmpa_verdict cx q fuel tr tr' row A Gs w hA hw hG hf p h t₀ t, decide_eq_false]
  rw [smul_eq_zero, List.prod_eq_zero_iff, sub_eq_zero]
  tauto

/-- C103: the same for SimpleZK. -/
theorem C103_simple_verdict (cx : Ctx G) (q fuel : Nat) (tr tr' : Transcript) (tape tape' : Tape F) (row : List G)
    (A : List (List G)) (Gs : List G) (w : List F) (hA : Width (2 ^ q) (row :: A)) (hw : w.length = 2 ^ q)
    (hG : Gs.length = 2 ^ q) (hf : q < fuel) (p : Lmpa.SimpleZK F G)
    (h : Lmpa.createSimple cx fuel tr tape (row :: A) Gs w = .ok (p, tr', tape')) (t₀ : G) (t : List G) :
    let β := simpleBeta F cx tr.log p.a
    p.verify cx fuel tr (row :: A) Gs Gs.length (t₀ :: t) =
      .ok (decide ((β * (lmpaChallenges F cx (simpleLog cx tr.log p.a) p.no_zk.L_Vec p.no_zk.R_Vec).prod) •
        (t₀ - dot w row) = 0), tr') := by
  rw [createSimple_eq] at h
  dsimp only at h
  set r := List.ofFn fun i : Fin Gs.length => tape i with hr
  have hrl : r.length = 2 ^ q := by rw [hr, List.length_ofFn, hG]
  obtain ⟨⟨p1, tr1⟩, h1, h2⟩ := bind_eq_ok.1 h
  simp only [Except.ok.injEq, Prod.mk.injEq] at h2
  obtain ⟨rfl, rfl, -⟩ := h2
  rw [simple_verify_eq]
  dsimp only
  set a := (row :: A).map fun row => dot r row with ha
  set β := simpleBeta F cx tr.log a with hβ
  have hz : List.zipWith (fun t a => β • t + a) (t₀ :: t) a =
      (β • t₀ + dot r row) :: List.zipWith (fun t a => β • t + a) t (A.map fun row => dot r row) := by
    rw [ha]; simp
  have hw' : (List.zipWith (fun w r => β * w + r) w r).length = 2 ^ q := by simp [hw, hrl]
  rw [hz, C103_lmpa_verdict cx q fuel _ _ row A Gs _ hA hw' hG hf p1 h1]
  congr 2
  rw [decide_eq_decide]
  have := dot_comb_left β 1 row (s := w) (s' := r) (by rw [hw, hrl])
  simp only [one_mul, one_smul] at this
  rw [this, mul_comm, mul_smul, smul_sub β, add_sub_add_right_eq_sub]

/-- C103: in particular a wrong first entry is rejected. -/
theorem C103_simple_rejected (cx : Ctx G) (q fuel : Nat) (tr tr' : Transcript) (tape tape' : Tape F) (row : List G)
    (A : List (List G)) (Gs : List G) (w : List F) (hA : Width (2 ^ q) (row :: A)) (hw : w.length = 2 ^ q)
    (hG : Gs.length = 2 ^ q) (hf : q < fuel) (p : Lmpa.SimpleZK F G)
    (h : Lmpa.createSimple cx fuel tr tape (row :: A) Gs w = .ok (p, tr', tape')) (t₀ : G) (t : List G)
    (hβ : simpleBeta F cx tr.log p.a ≠ 0)
    (hx : 0 ∉ lmpaChallenges F cx (simpleLog cx tr.log p.a) p.no_zk.L_Vec p.no_zk.R_Vec) (ht : t₀ ≠ dot w row) :
    p.verify cx fuel tr (row :: A) Gs Gs.length (t₀ :: t) = .ok (false, tr') := by
  have := C103_simple_verdict cx q fuel tr tr' tape tape' row A Gs w hA hw hG hf p h t₀ t
  dsimp only at this
  rw [this, decide_eq_false]
  rw [smul_eq_zero, mul_eq_zero, List.prod_eq_zero_iff, sub_eq_zero]
  tauto

/-! ### Inner products -/

variable [DecidableEq F]

/-- C103: `create` of AlmZK run with a claimed product `t` for vectors `a`, `b`: unless a challenge is zero or the masks
are degenerate, the proof is accepted exactly if `t = ⟨a, b⟩` (if `Q` is not the identity). -/
theorem C103_alm_verdict (cx : Ctx G) (tr tr' : Transcript) (tape tape' : Tape F)
    (Gs Hs : List G) (Q : G) (a b : List F) (t : F) (p : AlmZK F) (hlen : a.length = b.length)
    (h : createAlm cx tr tape Gs Hs Q (dot a Gs + dot b Hs) a b t = .ok (p, tr', tape'))
    (hn : Gs.length < 2 ^ 64) (hm : MasksFine a b tape) (C_r : G) (hC : cx.decompress p.C_r = some C_r)
    (hα : almAlpha cx tr.log Q (dot a Gs + dot b Hs) C_r t Gs.length ≠ 0)
    (hx : 0 ∉ ipaChallenges F cx.ro (tr.log ++ almHead p.C_r (cx.compress
      (almBeta F cx.ro tr.log p.C_r • (dot a Gs + dot b Hs) + C_r +
        (almBeta F cx.ro tr.log p.C_r * almBeta F cx.ro tr.log p.C_r * t) • Q))) Gs.length p.NoZK.L_vec p.NoZK.R_vec) :
    p.verify cx tr Gs Hs Q Gs.length (dot a Gs + dot b Hs) t =
      .ok (decide ((almBeta F cx.ro tr.log p.C_r ^ 2 * (t - dot a b)) • Q = 0), tr') := by
  obtain ⟨r', r'', tape1, k, h1, h2, lG, lH, lb, lr', lr'', la, hC', hc⟩ :=
    createAlm_ok cx tr tr' tape tape' Gs Hs Q _ a b _ p h
  obtain ⟨haa, hbb, hoo⟩ := hm
  have eC : C_r = dot r' Gs + dot r'' Hs := by
    rw [hC', cx.decompress_compress] at hC
    exact (Option.some.inj hC).symm
  subst eC
  rw [alm_verify_eq cx p tr Gs Hs Q _ _ _ _ hC']
  obtain ⟨-, hbr⟩ := C13_sample_gram_schmidt b r' tape tape1 h1 hbb
  obtain ⟨o, _, ho, _, _⟩ := sampleGramSchmidtTwice_ok h2
  obtain ⟨-, har, hrr⟩ := C14_sample_gram_schmidt_twice a r' r'' o tape1 tape' (by omega) h2 haa ho
    (hoo r' tape1 o h1 ho)
  rw [almAlpha, ← hC'] at hα
  set β := almBeta F cx.ro tr.log p.C_r
  have hprod : dot (List.zipWith (fun a r => β * a + r) a r')
      (List.zipWith (fun b r => β * b + r) b r'') = β * β * dot a b := by
    rw [Ipa.masked_product β a b r' r'' (by omega) (by omega), har, hbr, hrr]; ring
  dsimp only
  rw [C18_ipa_honest_proof_verdict cx _ tr' Gs Hs Q _ _ p.NoZK hc hn _ _ hα hx]
  rw [hprod, masked_dot _ _ _ _ (by omega), masked_dot _ _ _ _ (by omega)]
  congr 2
  rw [decide_eq_decide, ← sub_eq_zero]
  constructor <;> intro h
  · linear_combination (norm := module) h
  · linear_combination (norm := module) h

/-- C103: in particular a wrong product is rejected. -/
theorem C103_alm_rejected (cx : Ctx G) (tr tr' : Transcript) (tape tape' : Tape F)
    (Gs Hs : List G) (Q : G) (hQ : Q ≠ 0) (a b : List F) (t : F) (p : AlmZK F) (hlen : a.length = b.length)
    (h : createAlm cx tr tape Gs Hs Q (dot a Gs + dot b Hs) a b t = .ok (p, tr', tape'))
    (hn : Gs.length < 2 ^ 64) (hm : MasksFine a b tape) (C_r : G) (hC : cx.decompress p.C_r = some C_r)
    (hβ : almBeta F cx.ro tr.log p.C_r ≠ 0)
    (hα : almAlpha cx tr.log Q (dot a Gs + dot b Hs) C_r t Gs.length ≠ 0)
    (hx : 0 ∉ ipaChallenges F cx.ro (tr.log ++ almHead p.C_r (cx.compress
      (almBeta F cx.ro tr.log p.C_r • (dot a Gs + dot b Hs) + C_r +
        (almBeta F cx.ro tr.log p.C_r * almBeta F cx.ro tr.log p.C_r * t) • Q))) Gs.length p.NoZK.L_vec p.NoZK.R_vec)
    (ht : t ≠ dot a b) :
    p.verify cx tr Gs Hs Q Gs.length (dot a Gs + dot b Hs) t = .ok (false, tr') := by
  rw [C103_alm_verdict cx tr tr' tape tape' Gs Hs Q a b t p hlen h hn hm C_r hC hα hx, decide_eq_false]
  rw [smul_eq_zero, mul_eq_zero, pow_eq_zero_iff (by decide), sub_eq_zero]
  tauto

/-! ### A fixed proof of the inner-product argument -/

/-- The histories out of which the verifier squeezes `alpha` and the challenges of the rounds. -/
def ipaHistories (log : List Event) (n : Nat) (L R : List Comp) : List (List Event) :=
  (List.range (L.length + 1)).map fun j => log ++ headLog n ++
    ((List.zip L R).take j).flatMap fun LR => [.msg "L" LR.1, .msg "R" LR.2, .chal "x_i" 64]

omit [Field F] [AddCommGroup G] [Module F G] [DecidableEq G] [DecidableEq F] in
theorem roundQueries_history (cmp : G → Comp) : ∀ (Ls Rs : List G) (log : List (Note G)),
    ∀ l ∈ roundQueries cmp id log Ls Rs, ∃ j ≤ Ls.length, l.map Prod.fst = log.map Prod.fst ++
      ((List.zip (Ls.map cmp) (Rs.map cmp)).take j).flatMap fun LR =>
        [.msg "L" LR.1, .msg "R" LR.2, .chal "x_i" 64]
  | [], _, _ => by simp [roundQueries]
  | _ :: _, [], _ => by simp [roundQueries]
  | L :: Ls, R :: Rs, log => by
    intro l hl
    rw [roundQueries, List.mem_cons] at hl
    rcases hl with rfl | hl
    · exact ⟨1, by simp, by simp [roundNotes]⟩
    · obtain ⟨j, hj, e⟩ := roundQueries_history cmp Ls Rs _ l hl
      exact ⟨j + 1, by simpa using hj, by rw [e]; simp [roundNotes]⟩

/-- C103: a fixed proof of the inner-product argument for a false claim: the part of the answers of the hash function
to the queries of the verifier with which it is accepted. -/
theorem C103_ipa_fixed_proof {q B : Nat} (cd : Codec G) (Gs Hs : List G) (Q P : G) (t : F) (hG : Gs.length = 2 ^ q)
    (hH : Hs.length = 2 ^ q) (hind : ∀ r : List F × List F × F, ¬ IsRelation Gs Hs Q r)
    (hP : ¬ ∃ a b : List F, a.length = Gs.length ∧ b.length = Hs.length ∧ P = dot a Gs + dot b Hs + t • Q ∧
      dot a b = t)
    (hB : ∀ c : F, Nat.card {v : Vector UInt8 64 // ((leNat v.toList : Nat) : F) = c} ≤ B)
    (log : List Event) (p : NoZK F) (ro : Hash) (D : Finset (List Event))
    (hD : ∀ l ∈ ipaHistories log (2 ^ q) p.L_vec p.R_vec, l ∈ D) :
    chance ro D (fun ro => ∃ tr', p.verify ⟨cd, ro⟩ ⟨log⟩ Gs Hs Q (2 ^ q) P t = .ok (true, tr')) ≤
      ((q + 1) * (3 * B) : Nat) / 2 ^ 512 := by
  by_cases hv : Verifiable ⟨cd, ro⟩ p Gs Hs (2 ^ q)
  swap
  · have : ∀ ro', ¬ ∃ tr', p.verify ⟨cd, ro'⟩ ⟨log⟩ Gs Hs Q (2 ^ q) P t = .ok (true, tr') := by
      rintro ro' ⟨tr', h⟩
      exact hv ((C22_ipa_verify_returns_iff ⟨cd, ro'⟩ _ _ _ _ _ _ _ _).1 ⟨_, h⟩)
    unfold chance countHashes
    simp only [this]
    simp only [Nat.card_of_isEmpty, Nat.cast_zero, zero_div]
    positivity
  obtain ⟨Ls, hL⟩ := (decodable_iff (⟨cd, ro⟩ : Ctx G) _).1 hv.1
  obtain ⟨Rs, hR⟩ := (decodable_iff (⟨cd, ro⟩ : Ctx G) _).1 hv.2.1
  obtain ⟨pL, pR, a, b⟩ := p
  simp only at hL hR
  subst hL hR
  let log' : List (Note G) := log.map fun e => (e, (pointBytes e).bind cd.decompress)
  have hlog : log'.map Prod.fst = log := by simp [log', Function.comp_def]
  have htr : ∀ e ∈ log', Truthful cd (LinearMap.id (R := F) (M := G)) e := by
    intro e he
    obtain ⟨e, -, rfl⟩ := List.mem_map.1 he
    unfold Truthful
    cases (pointBytes e).bind cd.decompress with
    | none => rfl
    | some r => exact ⟨r, rfl, rfl⟩
  apply chance_le
  have := ipa_core (T := 0) cd.compress (LinearMap.id (R := F) (M := G)) Gs Hs Q P t hG hH hind hP log' hB
    (Algo.done (⟨Ls, Rs, a, b⟩ : AlgIpa F G)) trivial id ro D ?_ 
    (fun ro => ∃ tr', (⟨Ls.map cd.compress, Rs.map cd.compress, a, b⟩ : NoZK F).verify ⟨cd, ro⟩ ⟨log⟩ Gs Hs Q (2 ^ q) P t =
      .ok (true, tr')) ?_
  · rw [Nat.zero_add] at this
    exact this
  · intro ro l hl
    apply hD
    simp only [Algo.asked, Algo.run, List.nil_append, id, ipaQueries, List.mem_cons] at hl
    simp only [ipaHistories, List.mem_map, List.mem_range]
    rcases hl with rfl | hl
    · exact ⟨0, by omega, by simp [hlog, plain, Function.comp_def]⟩
    · obtain ⟨j, hj, e⟩ := roundQueries_history cd.compress Ls Rs _ l hl
      exact ⟨j, by simpa [Nat.lt_succ_iff] using hj, by rw [e]; simp [hlog, plain, Function.comp_def]⟩
  · rintro ro hw
    obtain ⟨h1, -, h2⟩ := (ipa_accepts_iff (⟨cd, ro⟩ : Ctx G) ⟨log⟩ Gs Hs Q P t Ls Rs a b hG hH).1 hw
    refine ⟨?_, h1, ?_⟩
    · refine noConflict_of_truthful cd (LinearMap.id (R := F) (M := G)) _ ?_ (fun c _ h => h)
      intro l hl
      exact truthful_ipa cd _ _ _ _ _ htr l (by simpa [Algo.asked] using hl)
    · rw [hlog]
      exact h2

/-! ### Quadratic equations -/

/-- C103: if the verifier of a QESA proof ends in the transcript of the prover, then `w₀ = 1` and the batched equation
holds (for a challenge `x` other than `0`, `1`, `-1`, and `β ≠ 0`). -/
theorem C103_qesa_transcripts {m k : Nat} (cx : Ctx G) (tr tr' : Transcript) (tape tape' : Tape F)
    (g0 : G) (Gs Hs : List G) (Q : G) (hg : g0 ≠ 0) (hQ : Q ≠ 0)
    (Ms : Fin (k + 1) → Matrix (Fin (m + 1)) (Fin (m + 1)) F)
    (w : Fin (m + 1) → F) (r0 r1 : F) (p : Inner.Proof F)
    (h : Inner.create cx tr tape (g0 :: Gs) Hs Q ⟨List.ofFn fun i => rows (Ms i)⟩ (List.ofFn w)
      [r0, r1] = .ok (p, tr', tape'))
    (hx : qesaX F cx.ro tr.log p.c_prime_w ≠ 0) (hx1 : qesaX F cx.ro tr.log p.c_prime_w ^ 2 ≠ 1)
    (hβ : almBeta F cx.ro (tr'.log.take (tr.log.length + 6)) p.alm_zk.C_r ≠ 0)
    (v : Bool) (hv : p.verify cx tr (g0 :: Gs) Hs Q ⟨List.ofFn fun i => rows (Ms i)⟩ = .ok (v, tr')) :
    w 0 = 1 ∧ quad (batched (m + 3) Ms (qesaX F cx.ro tr.log p.c_prime_w)) w = 0 := by
  obtain ⟨-, -, h3, h4⟩ := C28_prover_value _ _ _ _ _ _ _ _ _ _ _ _ _ h
  have e := C30_verifier_commitment cx tr tr' tape tape' g0 Gs Hs Q Ms w r0 r1 p h hx
  dsimp only at e h4
  rw [hv] at e
  obtain ⟨C1, hC1, l1⟩ := C11_alm_create_log _ _ _ _ _ _ _ _ _ _ _ _ _ h4
  obtain ⟨C2, hC2, l2⟩ := C11_alm_verify_log _ _ _ _ _ _ _ _ _ _ _ e.symm
  rw [hC1, Option.some.injEq] at hC2
  subst hC2
  dsimp only at l1 l2
  have hb : tr'.log.take (tr.log.length + 6) = tr.log ++ qesaHead p.c_prime_w p.c_prime_prime_w
      (cx.compress (dot (maskedWitness w r0 r1 (qesaS F cx.ro tr.log p.c_prime_w p.c_prime_prime_w)
        (qesaB F cx.ro tr.log p.c_prime_w p.c_prime_prime_w)) (rescaled (qesaX F cx.ro tr.log p.c_prime_w ^ 2) (g0 :: Gs)) +
        dot (maskedImage (batched (m + 3) Ms (qesaX F cx.ro tr.log p.c_prime_w)) w r0 r1
        (qesaS F cx.ro tr.log p.c_prime_w p.c_prime_prime_w)
        (qesaB F cx.ro tr.log p.c_prime_w p.c_prime_prime_w)) Hs)) := by
    rw [l1, List.append_assoc, List.take_left' (by simp [qesaHead])]
  rw [l1] at l2
  simp only [List.append_assoc, List.append_cancel_left_eq, qesaHead, List.cons_append, List.nil_append,
    List.cons.injEq, Event.msg.injEq, true_and] at l2
  have hw0 : w 0 = 1 := by
    have := compress_inj cx.toCodec l2.1
    rcases (C30_pinned _ _ _ _).1 this.symm with h | h | h
    · exact h
    · exact absurd h hx1
    · exact absurd h hg
  refine ⟨hw0, ?_⟩
  simp only [hw0, sub_self, zero_mul, zero_smul, add_zero, true_and] at l2
  rw [hb] at hβ
  have := compress_inj cx.toCodec l2.1
  rw [add_right_inj, h3] at this
  rw [← sub_eq_zero, ← sub_smul, smul_eq_zero, or_iff_left hQ, ← mul_sub] at this
  rcases mul_eq_zero.1 this with e | e
  · exact absurd e (mul_ne_zero hβ hβ)
  · linear_combination e

theorem chance_mono_patch {ro : Hash} {D : Finset (List Event)} {A B : Hash → Prop}
    (h : ∀ f, A (patch ro D f) → B (patch ro D f)) : chance ro D A ≤ chance ro D B := by
  unfold chance countHashes
  refine div_le_div_of_nonneg_right ?_ (by positivity)
  refine Nat.cast_le.2 (Nat.card_le_card_of_injective (Subtype.map id fun f => h f) ?_)
  exact Subtype.map_injective _ Function.injective_id

omit [DecidableEq G] in
/-- C103: a QESA proof made from `w` with `w₀ = 1` that violates the batched equation. The verifier needs answers of the
hash function that the prover did not ask for; among these answers, the part with which the proof is accepted is
small. -/
theorem C103_qesa_rejected [DecidableEq G] {m k q B : Nat} (hq : m + 3 = 2 ^ q) (cd : Codec G) (ro : Hash)
    (tr tr' tr₁ : Transcript) (tape tape' : Tape F) (Gs Hs : List G) (Q : G)
    (hind : ∀ r : List F × List F × F, ¬ IsRelation Gs Hs Q r)
    (Ms : Fin (k + 1) → Matrix (Fin (m + 1)) (Fin (m + 1)) F) (w : Fin (m + 1) → F) (r0 r1 : F) (p : Inner.Proof F)
    (h : Inner.create ⟨cd, ro⟩ tr tape Gs Hs Q ⟨List.ofFn fun i => rows (Ms i)⟩ (List.ofFn w) [r0, r1] =
      .ok (p, tr', tape')) (h0 : w 0 = 1)
    (hx : qesaX F ro tr.log p.c_prime_w ≠ 0)
    (hw : quad (batched (m + 3) Ms (qesaX F ro tr.log p.c_prime_w)) w ≠ 0)
    (hβ : almBeta F ro (tr'.log.take (tr.log.length + 6)) p.alm_zk.C_r ≠ 0)
    (hm : MasksFine
      (maskedWitness w r0 r1 (qesaS F ro tr.log p.c_prime_w p.c_prime_prime_w)
        (qesaB F ro tr.log p.c_prime_w p.c_prime_prime_w))
      (maskedImage (batched (m + 3) Ms (qesaX F ro tr.log p.c_prime_w)) w r0 r1
        (qesaS F ro tr.log p.c_prime_w p.c_prime_prime_w) (qesaB F ro tr.log p.c_prime_w p.c_prime_prime_w)) tape)
    (hB : ∀ c : F, Nat.card {v : Vector UInt8 64 // ((leNat v.toList : Nat) : F) = c} ≤ B)
    (v : Bool) (hv : p.verify ⟨cd, ro⟩ tr Gs Hs Q ⟨List.ofFn fun i => rows (Ms i)⟩ = .ok (v, tr₁))
    (D : Finset (List Event)) (hD : ∀ l, l ∈ D ↔ l ∈ ipaHistories (tr₁.log.take (tr.log.length + 9)) (m + 3)
      p.alm_zk.NoZK.L_vec p.alm_zk.NoZK.R_vec) :
    (∀ l ∈ D, ¬ l <+: tr'.log) ∧
    chance ro D (fun ro' => ∃ tr'', p.verify ⟨cd, ro'⟩ tr Gs Hs Q ⟨List.ofFn fun i => rows (Ms i)⟩ =
      .ok (true, tr'')) ≤ ((q + 1) * (3 * B) : Nat) / 2 ^ 512 := by
  obtain ⟨hm0, hG, hH, -, -⟩ := Inner.create_shapes _ _ _ _ _ _ _ _ _ _ h
  obtain ⟨g0, Gs, rfl⟩ : ∃ g0 Gs0, Gs = g0 :: Gs0 := by
    cases Gs with
    | nil => simp at hG
    | cons g Gs => exact ⟨g, Gs, rfl⟩
  obtain ⟨h1, h2, h3, h4⟩ := C28_prover_value _ _ _ _ _ _ _ _ _ _ _ _ _ h
  have e := C30_verifier_commitment ⟨cd, ro⟩ tr tr' tape tape' g0 Gs Hs Q Ms w r0 r1 p h hx
  dsimp only at e h4 h3
  rw [h0, sub_self, zero_mul, zero_smul, add_zero] at e
  set x := qesaX F ro tr.log p.c_prime_w with hxe
  set s := qesaS F ro tr.log p.c_prime_w p.c_prime_prime_w with hse
  set b := qesaB F ro tr.log p.c_prime_w p.c_prime_prime_w with hbe
  set M := batched (m + 3) Ms x with hM
  set u := maskedWitness w r0 r1 s b with hu
  set y := maskedImage M w r0 r1 s b with hy
  set C_w := dot u (rescaled (x ^ 2) (g0 :: Gs)) + dot y Hs with hC
  set base := tr.log ++ qesaHead p.c_prime_w p.c_prime_prime_w (cd.compress C_w) with hbase
  obtain ⟨r', r'', tape1, kk, s1, s2, lG, lH, lb, lr', lr'', la, hC', -⟩ := createAlm_ok _ _ _ _ _ _ _ _ _ _ _ _ _ h4
  have lGs : (rescaled (x ^ 2) (g0 :: Gs)).length = 2 ^ q := by rw [rescaled_length, hG, ← hq]
  have lHs : Hs.length = 2 ^ q := by rw [hH, ← hq]
  have hkk : 2 ^ kk = 2 ^ q := lH.symm.trans lHs
  have lu : u.length = 2 ^ q := by simp [u, maskedWitness, challengeVector, ← hq]
  set C_r := dot r' (rescaled (x ^ 2) (g0 :: Gs)) + dot r'' Hs with hCr
  set β := almBeta F ro base p.alm_zk.C_r with hβe
  set t := - quad M (powers s (m + 1)) with ht
  set P := β • C_w + C_r + (β * β * t) • Q with hP
  -- the transcripts
  obtain ⟨C1, hC1, l1⟩ := C11_alm_create_log _ _ _ _ _ _ _ _ _ _ _ _ _ h4
  obtain rfl : C1 = C_r := by
    rw [hC', cd.decompress_compress] at hC1
    exact (Option.some.inj hC1).symm
  have l2 : tr₁.log = base ++ [.msg "C_r" p.alm_zk.C_r, .chal "beta" 64, .msg "P" (cd.compress P), .msg "n" (u64le (m + 3)),
      .chal "alpha" 64] ++ (List.zip p.alm_zk.NoZK.L_vec p.alm_zk.NoZK.R_vec).flatMap
          (fun LR => [.msg "L" LR.1, .msg "R" LR.2, .chal "x_i" 64]) := by
    obtain ⟨C2, hC2, l2⟩ := C11_alm_verify_log _ _ _ _ _ _ _ _ _ _ _ (e.symm.trans hv)
    rw [hC1, Option.some.injEq] at hC2
    subst hC2
    exact l2
  dsimp only at l1
  have hlb : base.length = tr.log.length + 6 := by simp [base, qesaHead]
  have htake : tr₁.log.take (tr.log.length + 9) = base ++ almHead p.alm_zk.C_r (cd.compress P) := by
    rw [l2]
    have : base ++ [.msg "C_r" p.alm_zk.C_r, .chal "beta" 64, .msg "P" (cd.compress P), .msg "n" (u64le (m + 3)),
      .chal "alpha" 64] = base ++ almHead p.alm_zk.C_r (cd.compress P) ++ headLog (m + 3) := by simp [almHead, headLog]
    rw [this, List.append_assoc, List.take_left' (by simp [almHead, hlb])]
  have htake' : tr'.log.take (tr.log.length + 6) = base := by
    rw [l1, List.append_assoc, List.take_left' hlb]
  rw [htake', ← hβe] at hβ
  rw [htake] at hD
  have hfalse : β * β * dot u y ≠ β * β * t := by
    intro e
    have := mul_left_cancel₀ (mul_ne_zero hβ hβ) e
    rw [h3, ht] at this
    apply hw
    linear_combination this
  have hQ : Q ≠ 0 := by
    rintro rfl
    exact hind (List.replicate (g0 :: Gs).length 0, List.replicate Hs.length 0, 1) ⟨by simp, by simp, ⟨1, by simp, one_ne_zero⟩,
      by simp [dot_replicate_zero]⟩
  refine ⟨?_, ?_⟩
  · intro l hl hp
    rw [hD, ipaHistories, List.mem_map] at hl
    obtain ⟨j, -, rfl⟩ := hl
    rw [List.append_assoc (base ++ _)] at hp
    have hp := (List.prefix_append _ _).trans hp
    rw [l1] at hp
    have : base ++ almHead p.alm_zk.C_r (cd.compress P) <+: base ++ almHead p.alm_zk.C_r
        (cd.compress (β • C_w + C_r + (β * β * dot u y) • Q)) := by
      refine List.prefix_of_prefix_length_le hp ?_ (by simp [almHead])
      exact ⟨[.msg "n" (u64le (rescaled (x ^ 2) (g0 :: Gs)).length), .chal "alpha" 64] ++
        (List.zip p.alm_zk.NoZK.L_vec p.alm_zk.NoZK.R_vec).flatMap
          (fun LR => [.msg "L" LR.1, .msg "R" LR.2, .chal "x_i" 64]), by simp [almHead]; rfl⟩
    have := this.eq_of_length (by simp [almHead])
    simp only [almHead, List.append_cancel_left_eq, List.cons.injEq, Event.msg.injEq, true_and, and_true] at this
    have := compress_inj cd this
    rw [hP, add_right_inj, ← sub_eq_zero, ← sub_smul, smul_eq_zero, or_iff_left hQ, sub_eq_zero] at this
    exact hfalse this.symm
  · have hold : ∀ f l, l.length ≤ base.length + 2 → patch ro D f l = ro l := by
      intro f l hl
      unfold patch
      rw [dif_neg]
      intro hd
      rw [hD, ipaHistories, List.mem_map] at hd
      obtain ⟨j, -, rfl⟩ := hd
      simp only [List.length_append, almHead, headLog, List.length_cons, List.length_nil] at hl
      omega
    refine (chance_mono_patch (B := fun ro' => ∃ tr'', p.alm_zk.NoZK.verify ⟨cd, ro'⟩
      ⟨base ++ almHead p.alm_zk.C_r (cd.compress P)⟩ (rescaled (x ^ 2) (g0 :: Gs)) Hs Q (2 ^ q) P (β * β * t) =
      .ok (true, tr'')) ?_).trans (C103_ipa_fixed_proof cd _ Hs Q P (β * β * t) lGs lHs
        (rescaled_free hind (pow_ne_zero 2 hx)) ?_ hB _ _ ro D (fun l hl => (hD l).2 (hq ▸ hl)))
    · rintro f ⟨tr'', hacc⟩
      refine ⟨tr'', ?_⟩
      have hver := fun ro' : Hash => Inner.verify_eq hm0 ⟨cd, ro'⟩ p tr (g0 :: Gs) Hs Q Ms _ _ h1 h2 g0 Gs rfl hG hH
      have e1 := hver ro
      have e2 := hver (patch ro D f)
      have x1 : qesaX F (patch ro D f) tr.log p.c_prime_w = x := by
        unfold x qesaX squeeze
        rw [hold _ _ (by simp [hlb])]
      have x2 : qesaS F (patch ro D f) tr.log p.c_prime_w p.c_prime_prime_w = s := by
        unfold s qesaS squeeze
        rw [hold _ _ (by simp [hlb])]
      have x3 : qesaB F (patch ro D f) tr.log p.c_prime_w p.c_prime_prime_w = b := by
        unfold b qesaB squeeze
        rw [hold _ _ (by simp [hlb])]
      dsimp only at e1 e2
      rw [x1, x2, x3] at e2
      rw [← hxe, ← hse, ← hbe, hv] at e1
      obtain ⟨C2, -, l3⟩ := C11_alm_verify_log _ _ _ _ _ _ _ _ _ _ _ e1.symm
      rw [l2] at l3
      simp only [hbase, List.append_assoc, List.append_cancel_left_eq, qesaHead, List.cons_append, List.nil_append,
        List.cons.injEq, Event.msg.injEq, true_and] at l3
      rw [← compress_inj cd l3.1, hacc, alm_verify_eq (⟨cd, patch ro D f⟩ : Ctx G) _ _ _ _ _ _ _ _ _ hC'] at e2
      have x4 : almBeta F (patch ro D f) base p.alm_zk.C_r = β := by
        unfold β almBeta squeeze
        rw [hold _ _ (by simp)]
      dsimp only at e2
      rw [← hbase, x4] at e2
      rw [← hq]
      exact e2.symm
    · rintro ⟨a', b', la', lb', hPe, hab⟩
      have hop := unique_opening (rescaled (x ^ 2) (g0 :: Gs)) Hs Q (rescaled_free hind (pow_ne_zero 2 hx)) a'
        (List.zipWith (fun a r => β * a + r) u r') b' (List.zipWith (fun b r => β * b + r) y r'') la' lb'
        (by simp only [List.length_zipWith]; omega) (by simp only [List.length_zipWith]; omega) (by
          rw [masked_dot _ _ _ _ (by omega), masked_dot _ _ _ _ (by omega)]
          rw [hP, hC, hCr] at hPe
          linear_combination (norm := module) -hPe)
      obtain ⟨rfl, rfl⟩ := hop
      obtain ⟨haa, hbb, hoo⟩ := hm
      obtain ⟨-, hbr⟩ := C13_sample_gram_schmidt y r' tape tape1 s1 hbb
      obtain ⟨o, _, ho, _, _⟩ := sampleGramSchmidtTwice_ok s2
      obtain ⟨-, har, hrr⟩ := C14_sample_gram_schmidt_twice u r' r'' o tape1 tape' (by omega) s2 haa ho
        (hoo r' tape1 o s1 ho)
      rw [Ipa.masked_product β u y r' r'' (by omega) (by omega), har, hbr, hrr] at hab
      apply hfalse
      linear_combination hab

section
open Toy

/-- Verdicts on proofs made from the right and from wrong data: a linear map with a wrong first entry, the same with
masks, and an inner product. -/
example : (match Lmpa.create cx 5 ⟨[]⟩ exA exGs [(2 : K), 7, 1, 8] with
      | .ok (p, tr') => p.verify cx 5 ⟨[]⟩ exA exGs 4 [53, 39] == .ok (false, tr') &&
          decide (0 ∉ lmpaChallenges K cx [] p.L_Vec p.R_Vec)
      | .error _ => false) = true ∧
    (match Lmpa.createSimple cx 5 ⟨[]⟩ exTape exA exGs [(2 : K), 7, 1, 8] with
      | .ok (p, tr', _) => p.verify cx 5 ⟨[]⟩ exA exGs 4 [53, 39] == .ok (false, tr') &&
          p.verify cx 5 ⟨[]⟩ exA exGs 4 [52, 39] == .ok (true, tr') && simpleBeta K cx [] p.a != 0
      | .error _ => false) = true ∧
    (match createAlm cx ⟨[]⟩ exTape [3, 5, 8, 13] [21, 34, 55, 89] 7
        (dot [1, 2, 3, 4] [3, 5, 8, 13] + dot [5, 6, 7, 9] [21, 34, 55, (89 : K)] : K)
        [1, 2, 3, 4] [5, 6, 7, 9] (dot [1, 2, 3, 4] [5, 6, 7, (9 : K)] + 1) with
      | .ok (p, tr', _) => p.verify cx ⟨[]⟩ [3, 5, 8, 13] [21, 34, 55, 89] 7 4
          (dot [1, 2, 3, 4] [3, 5, 8, 13] + dot [5, 6, 7, 9] [21, 34, 55, (89 : K)])
          (dot [1, 2, 3, 4] [5, 6, 7, (9 : K)] + 1) == .ok (false, tr') && almBeta K cx.ro [] p.C_r != 0
      | .error _ => false) = true := by
  decide +kernel

/-- A fixed proof for the claim that the identity is a commitment to vectors with product 1. -/
example (cd : Codec (Fin 9 → K)) (p : NoZK K) (ro : Hash) (D : Finset (List Event))
    (hD : ∀ l ∈ ipaHistories [] (2 ^ 2) p.L_vec p.R_vec, l ∈ D) :
    chance ro D (fun ro => ∃ tr', p.verify ⟨cd, ro⟩ ⟨[]⟩ unitG unitH unitQ (2 ^ 2) 0 1 = .ok (true, tr')) ≤
      9 * (1 / 101 + 1 / 2 ^ 512) := by
  refine (C103_ipa_fixed_proof (q := 2) cd unitG unitH unitQ 0 (1 : K) rfl rfl unit_no_relation ?_ (C67_scalars 101)
    [] p ro D hD).trans ?_
  · rintro ⟨a, b, la, lb, h, -⟩
    exact unit_no_relation (a, b, 1) ⟨la, lb, ⟨1, by simp, one_ne_zero⟩, h.symm⟩
  · have := C67_bound 9 101
    rw [show (2 + 1) * (3 * (2 ^ 512 / 101 + 1)) = 9 * (2 ^ 512 / 101 + 1) by ring]
    exact this

/-- A QESA proof from `(1, 3)`, which violates the first equation: it is rejected, and the verifier ends in another
transcript than the prover. -/
example : let Ms : Fin 2 → Matrix (Fin 2) (Fin 2) K := ![!![4, 0; 0, -1], !![0, 1; 0, 50]]
    quad (Ms 0) ![1, 3] ≠ 0 ∧
    (match Zk.create cx ⟨[]⟩ exTape2 [3, 5, 8, 13] [21, 34, 55, 89] (7 : K)
      ⟨List.ofFn fun i => rows (Ms i)⟩ [1, 3] with
    | .ok (p, tr', _) =>
      let x := qesaX K cx.ro [] p.inner.c_prime_w
      x != 0 && x ^ 2 != 1 && quad (batched 4 Ms x) ![1, 3] != 0 &&
      almBeta K cx.ro (tr'.log.take 6) p.inner.alm_zk.C_r != 0 &&
      (match p.verify cx ⟨[]⟩ [3, 5, 8, 13] [21, 34, 55, 89] (7 : K) ⟨List.ofFn fun i => rows (Ms i)⟩ with
        | .ok (v, tr₁) => !v && tr₁ != tr' && tr₁.log.take 8 == tr'.log.take 8
        | .error _ => false)
    | .error _ => false) = true := by
  decide +kernel
end

end Qesa.Props
