import Mathlib.Data.Fintype.Pi
import Mathlib.Data.Fintype.Card
import Verif.Props.Lmpa
import Verif.Proofs.Matrix
/-
C45, C50-C52: the argument of src/lmpa/simple_zk.rs (`create`, `SimpleZK::verify`).
-/
namespace Qesa.Props
open Qesa Spec Lmpa
variable {F G : Type} [Field F] [AddCommGroup G] [Module F G]

/-- The log after the first message of `simple_zk::create`. -/
def simpleLog (cx : Ctx G) (log : List Event) (a : List G) : List Event :=
  log ++ (a.map fun P => .msg "a" (cx.compress P)) ++ [.chal "beta" 64]

/-- The challenge `beta`. -/
def simpleBeta (F : Type) [NatCast F] (cx : Ctx G) (log : List Event) (a : List G) : F :=
  squeeze F cx.ro (simpleLog cx log a)

omit [Field F] in
theorem drawN_eq (n : Nat) (tape : Tape F) :
    drawN n tape = (List.ofFn fun i : Fin n => tape i, fun i => tape (i + n)) := by
  induction n generalizing tape with
  | zero => rfl
  | succ n ih =>
    simp only [drawN, draw, ih, List.ofFn_succ]
    congr 1

theorem createSimple_eq (cx : Ctx G) (fuel : Nat) (tr : Transcript) (tape : Tape F)
    (A : List (List G)) (Gs : List G) (w : List F) :
    createSimple cx fuel tr tape A Gs w =
      let r := List.ofFn fun i : Fin Gs.length => tape i
      let a := A.map fun row => dot r row
      let β := simpleBeta F cx tr.log a
      (create cx fuel ⟨simpleLog cx tr.log a⟩ A Gs (List.zipWith (fun w r => β * w + r) w r)).map
        fun x => (⟨x.1, a⟩, x.2, fun i => tape (i + Gs.length)) := by
  unfold createSimple
  dsimp only
  rw [drawN_eq]
  simp only [matrixpointVectorMul_eq, absorb_eq, Ipa.challengeScalar_eq]
  have : ∀ (c : R (NoZK F G × Transcript)) (a : List G) (tape : Tape F),
      (c >>= fun x => pure (⟨x.1, a⟩, x.2, tape)) =
        c.map fun x => ((⟨x.1, a⟩, x.2, tape) : SimpleZK F G × Transcript × Tape F) := by
    intro c a tape; cases c <;> rfl
  exact this _ _ _

theorem simple_verify_eq [DecidableEq G] (cx : Ctx G) (p : SimpleZK F G) (fuel n : Nat)
    (tr : Transcript) (A : List (List G)) (Gs t : List G) :
    p.verify cx fuel tr A Gs n t =
      p.no_zk.verify cx fuel ⟨simpleLog cx tr.log p.a⟩ A Gs n
        (List.zipWith (fun t a => simpleBeta F cx tr.log p.a • t + a) t p.a) := by
  unfold SimpleZK.verify
  simp only [absorb_eq, Ipa.challengeScalar_eq]
  by_cases h : n = Gs.length
  · rw [rassert_true h, ok_bind]; rfl
  · rw [C44_lmpa_verify_size cx p.no_zk fuel n ⟨simpleLog cx tr.log p.a⟩ A Gs _ h, rassert_false h]; rfl

/-! ### C50 -/

/-- C50: for `A` with at least one row and `2 ^ q` columns, every witness and every random tape, `create`
returns a proof, `SimpleZK::verify` accepts it for `t = A w`, both end in the same transcript state, and
`2 ^ q` scalars have been drawn. There is no condition on the challenges. -/
theorem C50_simple_completeness [DecidableEq G] (cx : Ctx G) (q fuel : Nat) (tr : Transcript)
    (tape : Tape F) (A : List (List G)) (Gs : List G) (w : List F) (hA0 : A ≠ [])
    (hA : Width (2 ^ q) A) (hw : w.length = 2 ^ q) (hG : Gs.length = 2 ^ q) (hf : q < fuel) :
    ∃ (p : SimpleZK F G) (tr' : Transcript),
      createSimple cx fuel tr tape A Gs w = .ok (p, tr', fun i => tape (i + 2 ^ q)) ∧
      p.verify cx fuel tr A Gs Gs.length (A.map fun row => dot w row) = .ok (true, tr') := by
  rw [createSimple_eq]
  dsimp only
  set r := List.ofFn fun i : Fin Gs.length => tape i with hr
  set a := A.map fun row => dot r row with ha
  set β := simpleBeta F cx tr.log a with hβ
  have hrl : r.length = 2 ^ q := by rw [hr, List.length_ofFn, hG]
  obtain ⟨p, tr', h1, h2⟩ := C42_lmpa_completeness cx q fuel ⟨simpleLog cx tr.log a⟩ A Gs
    (List.zipWith (fun w r => β * w + r) w r) hA0 hA (by simp [hw, hrl]) hG hf
  refine ⟨⟨p, a⟩, tr', by rw [h1, hG]; rfl, ?_⟩
  rw [simple_verify_eq]
  dsimp only
  rw [← hβ, ← h2]
  congr 1
  rw [ha, List.zipWith_map, List.zipWith_self]
  apply List.map_congr_left
  intro row _
  have := dot_comb_left β 1 row (s := w) (s' := r) (by rw [hw, hrl])
  simpa using this.symm

/-- C46: what `simple_zk::create` does to the transcript: the points of `a = A r`, the challenge `beta`,
then the log of `no_zk::create`. -/
theorem C46_simple_create_log (cx : Ctx G) (q fuel : Nat) (tr : Transcript) (tape : Tape F)
    (A : List (List G)) (Gs : List G) (w : List F) (hA : Width (2 ^ q) A)
    (hw : w.length = 2 ^ q) (hG : Gs.length = 2 ^ q) (hf : q < fuel) :
    ∃ p : SimpleZK F G, createSimple cx fuel tr tape A Gs w = .ok (p, ⟨tr.log ++
        (p.a.map fun P => .msg "a" (cx.compress P)) ++ [.chal "beta" 64] ++
        lmpaLog cx p.no_zk.L_Vec p.no_zk.R_Vec⟩, fun i => tape (i + 2 ^ q)) ∧
      p.a = (A.map fun row => dot (List.ofFn fun i : Fin (2 ^ q) => tape i) row) ∧
      p.no_zk.L_Vec.length = q ∧ p.no_zk.R_Vec.length = q := by
  rw [createSimple_eq]
  dsimp only
  rw [hG]
  set r := List.ofFn fun i : Fin (2 ^ q) => tape i with hr
  set a := A.map fun row => dot r row with ha
  obtain ⟨p, h1, h2, h3, -⟩ := C46_lmpa_create_log cx q fuel ⟨simpleLog cx tr.log a⟩ A Gs
    (List.zipWith (fun w r => simpleBeta F cx tr.log a * w + r) w r) hA (by simp [hw, hr]) hG hf
  exact ⟨⟨p, a⟩, by rw [h1]; rfl, rfl, h2, h3⟩

/-- C46: `SimpleZK::verify` is `NoZK::verify` on `beta t + a`, after absorbing `a` and drawing `beta`. -/
theorem C46_simple_verify_log [DecidableEq G] (cx : Ctx G) (p : SimpleZK F G) (fuel n : Nat)
    (tr : Transcript) (A : List (List G)) (Gs t : List G) :
    let log := tr.log ++ (p.a.map fun P => .msg "a" (cx.compress P)) ++ [.chal "beta" 64]
    p.verify cx fuel tr A Gs n t = p.no_zk.verify cx fuel ⟨log⟩ A Gs n
      (List.zipWith (fun t a => squeeze F cx.ro log • t + a) t p.a) :=
  simple_verify_eq cx p fuel n tr A Gs t

/-! ### C51 -/

/-- The tape whose first `n` entries are `r`. -/
def withPrefix {n : Nat} (r : Fin n → F) (rest : Tape F) : Tape F :=
  fun i => if h : i < n then r ⟨i, h⟩ else rest (i - n)

/-- C51: perfect witness indistinguishability. For two witnesses with `A w₁ = A w₂` the `n` random
scalars can be permuted such that the whole outcome (proof, transcript, rest of the tape, or panic) for
`w₁` with scalars `r` is the outcome for `w₂` with scalars `φ r`. -/
theorem C51_simple_witness_indistinguishable (cx : Ctx G) (fuel n : Nat) (tr : Transcript)
    (A : List (List G)) (Gs : List G) (w₁ w₂ : Fin n → F) (hG : Gs.length = n)
    (h : ∀ row ∈ A, dot (List.ofFn w₁) row = dot (List.ofFn w₂) row) :
    ∃ φ : Equiv.Perm (Fin n → F), ∀ (r : Fin n → F) (rest : Tape F),
      createSimple cx fuel tr (withPrefix r rest) A Gs (List.ofFn w₁) =
        createSimple cx fuel tr (withPrefix (φ r) rest) A Gs (List.ofFn w₂) := by
  subst hG
  set β : (Fin Gs.length → F) → F := fun r => simpleBeta F cx tr.log (A.map fun row => dot (List.ofFn r) row)
    with hβ
  have hdot : ∀ (c : F) (r : Fin Gs.length → F), ∀ row ∈ A,
      dot (List.ofFn fun i => r i + c * (w₁ i - w₂ i)) row = dot (List.ofFn r) row := by
    intro c r row hrow
    have e : (List.ofFn fun i => r i + c * (w₁ i - w₂ i)) =
        List.zipWith (fun x y => 1 * x + c * y) (List.ofFn r)
          (List.zipWith (fun x y => 1 * x + (-1) * y) (List.ofFn w₁) (List.ofFn w₂)) := by
      apply List.ext_getElem <;> simp [sub_eq_add_neg]
    rw [e, dot_comb_left _ _ _ (by simp), dot_comb_left _ _ _ (by simp), h row hrow]
    simp
  have hβinv : ∀ (c : F) (r : Fin Gs.length → F), β (fun i => r i + c * (w₁ i - w₂ i)) = β r := by
    intro c r
    simp only [hβ]
    rw [List.map_congr_left fun row hrow => hdot c r row hrow]
  have hfirst : ∀ (r : Fin Gs.length → F) (rest : Tape F),
      (List.ofFn fun i : Fin Gs.length => withPrefix r rest i) = List.ofFn r := by
    intro r rest
    apply List.ext_getElem <;> simp [withPrefix]
  have hrest : ∀ (r : Fin Gs.length → F) (rest : Tape F),
      (fun i => withPrefix r rest (i + Gs.length)) = rest := by
    intro r rest
    funext i
    simp [withPrefix]
  refine ⟨⟨fun r i => r i + β r * (w₁ i - w₂ i), fun r i => r i + -β r * (w₁ i - w₂ i), ?_, ?_⟩, ?_⟩
  · intro r
    funext i
    simp only [hβinv]
    ring
  · intro r
    funext i
    simp only [hβinv]
    ring
  · intro r rest
    rw [createSimple_eq, createSimple_eq]
    simp only [hfirst, hrest, Equiv.coe_fn_mk]
    rw [List.map_congr_left fun row hrow => hdot (β r) r row hrow]
    have : List.zipWith (fun w r' => β r * w + r') (List.ofFn w₁) (List.ofFn r) =
        List.zipWith (fun w r' => β r * w + r') (List.ofFn w₂)
          (List.ofFn fun i => r i + β r * (w₁ i - w₂ i)) := by
      apply List.ext_getElem (by simp)
      intro i h1 h2
      simp only [List.getElem_zipWith, List.getElem_ofFn]
      ring
    simp only [hβ] at this ⊢
    rw [this]

/-- C51: in terms of counting: over a finite field every outcome of the prover has the same number of
random choices for `w₁` as for `w₂`. -/
theorem C51_simple_same_distribution [Fintype F] (cx : Ctx G) (fuel n : Nat) (tr : Transcript)
    (A : List (List G)) (Gs : List G) (w₁ w₂ : Fin n → F) (hG : Gs.length = n)
    (h : ∀ row ∈ A, dot (List.ofFn w₁) row = dot (List.ofFn w₂) row) (rest : Tape F)
    (out : R (SimpleZK F G × Transcript × Tape F)) :
    Nat.card {r : Fin n → F // createSimple cx fuel tr (withPrefix r rest) A Gs (List.ofFn w₁) = out} =
      Nat.card {r : Fin n → F // createSimple cx fuel tr (withPrefix r rest) A Gs (List.ofFn w₂) = out} := by
  obtain ⟨φ, hφ⟩ := C51_simple_witness_indistinguishable cx fuel n tr A Gs w₁ w₂ hG h
  exact Nat.card_congr (φ.subtypeEquiv fun r => by rw [hφ])

/-! ### C52, C45 -/

/-- C52: the verdict of `SimpleZK::verify` on a one-row statement: the conversation for
`t' = beta t + a` is accepting. -/
theorem C52_simple_verdict [DecidableEq G] (cx : Ctx G) (q fuel : Nat) (tr : Transcript)
    (row Gs Ls Rs : List G) (w : F) (t a : G) (hf : q < fuel) (hG : Gs.length = 2 ^ q)
    (hrow : row.length = 2 ^ q) (hL : Ls.length = q) (hR : Rs.length = q) :
    let p : SimpleZK F G := ⟨⟨Ls.map fun L => [L], Rs.map fun R => [R], w⟩, [a]⟩
    ∃ b tr', p.verify cx fuel tr [row] Gs (2 ^ q) [t] = .ok (b, tr') ∧
      (b = true ↔ Conversation.accepts row (simpleBeta F cx tr.log [a] • t + a) Ls Rs
        (lmpaChallenges F cx (simpleLog cx tr.log [a]) p.no_zk.L_Vec p.no_zk.R_Vec) w) := by
  intro p
  rw [simple_verify_eq]
  exact C43_lmpa_verify_one_row cx q fuel ⟨simpleLog cx tr.log [a]⟩ row Gs Ls Rs w _ hf hG hrow hL hR

/-- The extractor, from the scalars of trees for two values of `beta`. -/
def extractSimple {q : Nat} (β : Fin 2 → F) (T : Fin 2 → LmpaTree F Unit q) : List F :=
  List.zipWith (fun x y => (β 0 - β 1)⁻¹ * x + -(β 0 - β 1)⁻¹ * y) (extractLmpa (T 0)) (extractLmpa (T 1))

/-- C52: special soundness. For the same `a` and two values of `beta`, each with a tree of accepting
conversations, the extractor computes a pre-image of `t`. -/
theorem C52_simple_special_soundness {q : Nat} (row : List G) (hrow : row.length = 2 ^ q) (t a : G)
    (β : Fin 2 → F) (hβ : β 0 ≠ β 1) (T : Fin 2 → LmpaTree F G q) (hT : ∀ i, (T i).Distinct)
    (h : ∀ i, ∀ c ∈ (T i).paths, Conversation.accepts row (β i • t + a) c.1 c.2.1 c.2.2.1 c.2.2.2) :
    (extractSimple β fun i => (T i).scalars).length = 2 ^ q ∧
      dot (extractSimple β fun i => (T i).scalars) row = t := by
  obtain ⟨l₁, d₁⟩ := C43_lmpa_special_soundness (T 0) (hT 0) row hrow _ (h 0)
  obtain ⟨l₂, d₂⟩ := C43_lmpa_special_soundness (T 1) (hT 1) row hrow _ (h 1)
  refine ⟨by simp [extractSimple, l₁, l₂], ?_⟩
  rw [extractSimple, dot_comb_left _ _ _ (by rw [l₁, l₂]), d₁, d₂, neg_smul, ← sub_eq_add_neg, ← smul_sub,
    add_sub_add_right_eq_sub, ← sub_smul, smul_smul, inv_mul_cancel₀ (sub_ne_zero.2 hβ), one_smul]

/-- C45, finding: `SimpleZK` has the same gap, for every `q` including `n = 1`: for the zero row and
every `g ≠ 0` a proof of `⟨w, 0⟩ = t` with `t ≠ 0` is accepted, unless one particular value of the hash
is zero. -/
theorem C45_simple_false_statement [DecidableEq G] (cx : Ctx G) (q fuel : Nat) (tr : Transcript)
    (Gs : List G) (g : G) (hg : g ≠ 0) (hf : q < fuel) (hG : Gs.length = 2 ^ q)
    (hβ : simpleBeta F cx tr.log [g] ≠ 0) :
    ∃ (p : SimpleZK F G) (t : G) (tr' : Transcript),
      p.verify cx fuel tr [List.replicate (2 ^ q) 0] Gs (2 ^ q) [t] = .ok (true, tr') ∧
      ∀ w' : List F, dot w' (List.replicate (2 ^ q) (0 : G)) ≠ t := by
  set β := simpleBeta F cx tr.log [g] with hβ'
  refine ⟨⟨⟨(List.replicate q 0).map fun L => [L], (List.replicate q 0).map fun R => [R], 0⟩, [g]⟩,
    -(β⁻¹ • g), ?_⟩
  obtain ⟨b, tr', h1, h2⟩ := C52_simple_verdict cx q fuel tr (List.replicate (2 ^ q) 0) Gs
    (List.replicate q 0) (List.replicate q 0) (0 : F) (-(β⁻¹ • g)) g hf hG (by simp) (by simp) (by simp)
  refine ⟨tr', ?_, ?_⟩
  · rw [h1]
    have : b = true := by
      rw [h2]
      unfold Conversation.accepts
      rw [zero_smul, foldedTarget_zeros, ← hβ', smul_neg, smul_smul, mul_inv_cancel₀ hβ, one_smul,
        neg_add_cancel, smul_zero]
    rw [this]
  · intro w' h
    rw [dot_zeros] at h
    have h0 : β⁻¹ • g = 0 := neg_eq_zero.1 h.symm
    have := congrArg (β • ·) h0
    simp only [smul_smul, mul_inv_cancel₀ hβ, one_smul, smul_zero] at this
    exact hg this

section
open Toy
def exTapeS : Tape K := fun i => (i * i + 3 : Nat)

/-- C50: a run with a non-trivial tape, and a rejected wrong target. -/
example : (match createSimple cx 5 ⟨[]⟩ exTapeS exA exGs [7, 4, 9, 2] with
    | .ok (p, tr', _) =>
      p.verify cx 5 ⟨[]⟩ exA exGs 4 (exA.map fun row => dot [7, 4, 9, 2] row) == .ok (true, tr') &&
      (p.verify cx 5 ⟨[]⟩ exA exGs 4 [1, 2]).map Prod.fst == .ok false
    | .error _ => false) = true := by
  decide +kernel

/-- C51: the premise holds for different witnesses: `(1, 0)` and `(0, 1)` for the row `(3, 3)`. -/
example : ∀ row ∈ [[(3 : K), 3]], dot (List.ofFn ![(1 : K), 0]) row = dot (List.ofFn ![(0 : K), 1]) row := by
  decide +kernel
end

end Qesa.Props
