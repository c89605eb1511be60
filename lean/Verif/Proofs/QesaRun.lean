import Mathlib.Tactic.ComputeDegree
import Verif.Props.Completeness
import Verif.Props.Qesa
/- Honest runs of the QESA argument as a function of the challenges and the tape. -/
namespace Qesa.Props
open Qesa Spec Ipa

variable {F G : Type} [Field F]

/-- A list as a vector. -/
def vec (n : Nat) (l : List F) : Fin n → F := fun i => l.getD i.val 0

theorem ofFn_vec {n : Nat} {l : List F} (h : l.length = n) : List.ofFn (vec n l) = l := by
  apply List.ext_getElem
  · simp [h]
  · intro i h1 h2
    simp [vec, List.getD, List.getElem?_eq_getElem h2]

theorem vec_dot {n : Nat} {l l' : List F} (h : l.length = n) (h' : l'.length = n) :
    vec n l ⬝ᵥ vec n l' = dot l l' := by
  rw [← dot_ofFn_vec, ofFn_vec h, ofFn_vec h']

/-! ### Bad values of the challenge `b` -/

noncomputable def quarticPoly (A r0 r1 : F) : Polynomial F :=
  Polynomial.X ^ 4 + Polynomial.C (1 - 2 * r1) * Polynomial.X ^ 2 + Polynomial.C (-2 * r0) * Polynomial.X +
    Polynomial.C (r0 ^ 2 + r1 ^ 2 + A)

theorem quartic_eval (A r0 r1 b : F) :
    (quarticPoly A r0 r1).eval b = A + ((r0 - b) * (r0 - b) + (r1 - b ^ 2) * (r1 - b ^ 2)) := by
  simp only [quarticPoly, Polynomial.eval_add, Polynomial.eval_mul, Polynomial.eval_pow, Polynomial.eval_X,
    Polynomial.eval_C]
  ring

theorem quartic_degree (A r0 r1 : F) : (quarticPoly A r0 r1).natDegree = 4 := by
  unfold quarticPoly
  compute_degree!

open Classical in
/-- The values of `b` with `A + (r0 - b)² + (r1 - b²)² = 0`. -/
noncomputable def quarticRoots (A r0 r1 : F) : Finset F := (quarticPoly A r0 r1).roots.toFinset

theorem quarticRoots_card (A r0 r1 : F) : (quarticRoots A r0 r1).card ≤ 4 := by
  classical
  have h := (Multiset.toFinset_card_le (quarticPoly A r0 r1).roots).trans (Polynomial.card_roots' _)
  rw [quartic_degree] at h
  exact h

theorem mem_quarticRoots (A r0 r1 b : F) : b ∈ quarticRoots A r0 r1 ↔
    A + ((r0 - b) * (r0 - b) + (r1 - b ^ 2) * (r1 - b ^ 2)) = 0 := by
  have h0 : quarticPoly A r0 r1 ≠ 0 := by
    intro e
    have := quartic_degree A r0 r1
    rw [e] at this
    simp at this
  classical
  unfold quarticRoots
  rw [Multiset.mem_toFinset, Polynomial.mem_roots h0, Polynomial.IsRoot, quartic_eval]

variable [AddCommGroup G] [Module F G] [DecidableEq F]

/-- The commitment to the masks. -/
def maskPoint (a b : List F) (τ : Tape F) (Gs Hs : List G) : G :=
  match sampleGramSchmidt b τ with
  | .ok (r', τ1) =>
    match sampleGramSchmidtTwice a r' τ1 with
    | .ok (r'', _) => dot r' Gs + dot r'' Hs
    | .error _ => 0
  | .error _ => 0

/-- The inputs of an inner QESA argument. -/
structure Setup (F : Type) (m k : Nat) where
  log : List Event
  Ms : Fin (k + 1) → Matrix (Fin (m + 1)) (Fin (m + 1)) F
  w : Fin (m + 1) → F
  r0 : F
  r1 : F

namespace Setup
variable {m k : Nat} (cd : Codec G) (Gs Hs : List G) (Q : G) (S : Setup F m k)

def c1 : Comp := cd.compress (dot (List.ofFn S.w ++ [S.r0, S.r1]) Gs)
def M (x : F) : Matrix (Fin (m + 1)) (Fin (m + 1)) F := batched (m + 1 + 2) S.Ms x
def c2 (x : F) : Comp := cd.compress (dot (List.ofFn ((S.M x).mulVec S.w) ++ [-S.r1, S.r0]) Hs)
def u (s b : F) : List F := maskedWitness S.w S.r0 S.r1 s b
def v (x s b : F) : List F := maskedImage (S.M x) S.w S.r0 S.r1 s b
def C_w (x s b : F) : G := dot (S.u s b) (rescaled (x ^ 2) Gs) + dot (S.v x s b) Hs
def mask (x s b : F) (τ : Tape F) : G := maskPoint (S.u s b) (S.v x s b) τ (rescaled (x ^ 2) Gs) Hs

/-- The history at which `x` is taken. -/
def q1 : List Event := S.log ++ [.msg "c_prime_w" (S.c1 cd Gs), .chal "x" 64]

/-- The history at which `s` is taken. -/
def qs (x : F) : List Event := S.log ++ [.msg "c_prime_w" (S.c1 cd Gs), .chal "x" 64,
  .msg "c_prime_prime_w" (S.c2 cd Hs x), .chal "s" 64]

/-- The history at which `b` is taken. -/
def q2 (x : F) : List Event := S.log ++ [.msg "c_prime_w" (S.c1 cd Gs), .chal "x" 64,
  .msg "c_prime_prime_w" (S.c2 cd Hs x), .chal "s" 64, .chal "b" 64]

/-- The history at which `beta` is taken. -/
def qb (τ : Tape F) (x s b : F) : List Event :=
  S.log ++ qesaHead (S.c1 cd Gs) (S.c2 cd Hs x) (cd.compress (S.C_w Gs Hs x s b)) ++
    [.msg "C_r" (cd.compress (S.mask Gs Hs x s b τ)), .chal "beta" 64]

/-- The history at which `alpha` is taken. -/
def q3 (τ : Tape F) (x s b β : F) : List Event :=
  S.log ++ qesaHead (S.c1 cd Gs) (S.c2 cd Hs x) (cd.compress (S.C_w Gs Hs x s b)) ++
    almHead (cd.compress (S.mask Gs Hs x s b τ)) (cd.compress (β • S.C_w Gs Hs x s b + S.mask Gs Hs x s b τ +
      (β * β * dot (S.u s b) (S.v x s b)) • Q)) ++ headLog (m + 3)

/-- The values of `b` for which the vectors are degenerate. -/
noncomputable def badB (x s : F) : Finset F :=
  quarticRoots 0 S.r0 S.r1 ∪
    (quarticRoots (dot (List.ofFn fun i => S.w i - powers s (m + 1) i) (List.ofFn fun i => S.w i - powers s (m + 1) i))
      S.r0 S.r1 ∪
    quarticRoots (dot (List.ofFn ((S.M x).mulVec S.w + (S.M x).transpose.mulVec (powers s (m + 1))))
      (List.ofFn ((S.M x).mulVec S.w + (S.M x).transpose.mulVec (powers s (m + 1))))) S.r0 S.r1)

theorem badB_card (x s : F) : (S.badB x s).card ≤ 12 := by
  unfold badB
  refine (Finset.card_union_le _ _).trans ?_
  have h1 := quarticRoots_card 0 S.r0 S.r1
  refine (Nat.add_le_add h1 ((Finset.card_union_le _ _).trans
    (Nat.add_le_add (quarticRoots_card _ _ _) (quarticRoots_card _ _ _)))).trans ?_
  decide

omit [DecidableEq F] in
theorem u_eq (s b : F) : S.u s b =
    List.ofFn (fun i => S.w i - powers s (m + 1) i) ++ [S.r0 - b, S.r1 - b ^ 2] := by
  unfold u maskedWitness challengeVector
  rw [List.zipWith_append (by simp), zipWith_ofFn]
  rfl

omit [DecidableEq F] in
theorem v_eq (x s b : F) : S.v x s b =
    List.ofFn ((S.M x).mulVec S.w + (S.M x).transpose.mulVec (powers s (m + 1))) ++
      [-S.r1 + b ^ 2, S.r0 + -b] := by
  unfold v maskedImage challengeImage
  rw [List.zipWith_append (by simp), zipWith_ofFn]
  rfl

omit [DecidableEq F] in
theorem u_length (s b : F) : (S.u s b).length = m + 3 := by rw [u_eq]; simp

omit [DecidableEq F] in
theorem v_length (x s b : F) : (S.v x s b).length = m + 3 := by rw [v_eq]; simp

theorem not_badB {x s b : F} (h : b ∉ S.badB x s) :
    (S.r0 - b) * (S.r0 - b) + (S.r1 - b ^ 2) * (S.r1 - b ^ 2) ≠ 0 ∧ dot (S.u s b) (S.u s b) ≠ 0 ∧
      dot (S.v x s b) (S.v x s b) ≠ 0 := by
  unfold badB at h
  simp only [Finset.mem_union, not_or, mem_quarticRoots, zero_add] at h
  obtain ⟨h1, h2, h3⟩ := h
  refine ⟨h1, ?_, ?_⟩
  · rw [u_eq, dot_append (by simp)]
    simp only [dot_cons, dot_nil_left, smul_eq_mul, add_zero]
    exact h2
  · rw [v_eq, dot_append (by simp)]
    simp only [dot_cons, dot_nil_left, smul_eq_mul, add_zero]
    intro e
    apply h3
    rw [← e]
    ring

/-- The tape gives masks for the two vectors. -/
def good (x s b : F) (τ : Tape F) : Prop := goodTape (m + 3) (vec _ (S.u s b)) (vec _ (S.v x s b)) τ

/-- Few tapes are bad. -/
theorem card_not_good [Fintype F] (h2 : (2 : F) ≠ 0) {e N : Nat} (he : 2 ≤ e) (hm : m + 3 = 2 ^ e)
    (hN : 4 * e + 4 ≤ N) (rest : Tape F) {x s b : F} (hb : b ∉ S.badB x s) :
    Nat.card {t : Fin N → F // ¬ S.good x s b (tapeOf rest t)} * Nat.card F ≤ 7 * Nat.card (Fin N → F) := by
  obtain ⟨h1, -, -⟩ := S.not_badB hb
  have last : ∀ (l : List F) (y z : F), l.length = m + 1 → (l ++ [y, z]).getD (m + 1) 0 = y ∧
      (l ++ [y, z]).getD (m + 2) 0 = z := by
    intro l y z hl
    constructor
    · simp [List.getD, hl]
    · rw [List.getD, List.getElem?_append_right (by omega)]
      simp [hl]
  obtain ⟨u1, u2⟩ := last (List.ofFn (fun i => S.w i - powers s (m + 1) i)) (S.r0 - b) (S.r1 - b ^ 2) (by simp)
  obtain ⟨v1, v2⟩ := last (List.ofFn ((S.M x).mulVec S.w + (S.M x).transpose.mulVec (powers s (m + 1))))
    (-S.r1 + b ^ 2) (S.r0 + -b) (by simp)
  rw [← u_eq] at u1 u2
  rw [← v_eq] at v1 v2
  -- a combination that does not vanish in both of the last two entries
  have key : ∀ y z : F, (y ≠ 0 ∨ z ≠ 0) → ∃ j : Fin (m + 3), SparsePosition (m + 3) j.val ∧
      y * vec (m + 3) (S.u s b) j + z * vec (m + 3) (S.v x s b) j ≠ 0 := by
    intro y z hyz
    by_contra hno
    push Not at hno
    have a1 := hno ⟨m + 1, by omega⟩ (.inr (.inr (.inr (.inl (by simp)))))
    have a2 := hno ⟨m + 2, by omega⟩ (.inr (.inr (.inr (.inr (by simp)))))
    simp only [vec] at a1 a2
    rw [u1, v1] at a1
    rw [u2, v2] at a2
    have hy : y * ((S.r0 - b) * (S.r0 - b) + (S.r1 - b ^ 2) * (S.r1 - b ^ 2)) = 0 := by
      linear_combination (S.r0 - b) * a1 + (S.r1 - b ^ 2) * a2
    have hz : z * ((S.r0 - b) * (S.r0 - b) + (S.r1 - b ^ 2) * (S.r1 - b ^ 2)) = 0 := by
      linear_combination (S.r0 - b) * a2 - (S.r1 - b ^ 2) * a1
    rcases hyz with h | h
    · exact (mul_ne_zero h h1) hy
    · exact (mul_ne_zero h h1) hz
  unfold good
  generalize hn : m + 3 = n at *
  subst hm
  refine card_bad_tapes h2 he hN rest _ _ ?_ ?_ ?_
  · obtain ⟨j, hj, h⟩ := key 1 0 (.inl one_ne_zero)
    exact ⟨j, hj, by simpa using h⟩
  · obtain ⟨j, hj, h⟩ := key 0 1 (.inr one_ne_zero)
    exact ⟨j, hj, by simpa using h⟩
  · obtain ⟨j, hj, h⟩ := key 1 (-(vec (2 ^ e) (S.u s b) ⬝ᵥ vec (2 ^ e) (S.v x s b) *
      (vec (2 ^ e) (S.v x s b) ⬝ᵥ vec (2 ^ e) (S.v x s b))⁻¹)) (.inl one_ne_zero)
    refine ⟨j, hj, fun h' => h ?_⟩
    linear_combination h'

/-- The run with the challenges of a hash function. -/
theorem run [DecidableEq G] {e : Nat} (he : 2 ≤ e) (he' : e < 64) (hm : m + 3 = 2 ^ e) (ro : Hash)
    (hG : Gs.length = m + 3) (hH : Hs.length = m + 3) (h0 : S.w 0 = 1) (hw : ∀ i, quad (S.Ms i) S.w = 0)
    (τ : Tape F) {x s b β : F} (hx : x = squeeze F ro (S.q1 cd Gs)) (hs : s = squeeze F ro (S.qs cd Gs Hs x))
    (hb : b = squeeze F ro (S.q2 cd Gs Hs x)) (hβ : β = squeeze F ro (S.qb cd Gs Hs τ x s b)) (hx0 : x ≠ 0)
    (hbad : b ∉ S.badB x s) (hgood : S.good x s b τ) (hα : squeeze F ro (S.q3 cd Gs Hs Q τ x s b β) ≠ 0) :
    ∃ p tr' τ', Inner.create ⟨cd, ro⟩ ⟨S.log⟩ τ Gs Hs Q ⟨List.ofFn fun i => rows (S.Ms i)⟩ (List.ofFn S.w)
        [S.r0, S.r1] = .ok (p, tr', τ') ∧
      p.verify ⟨cd, ro⟩ ⟨S.log⟩ Gs Hs Q ⟨List.ofFn fun i => rows (S.Ms i)⟩ = .ok (true, tr') := by
  obtain ⟨-, huu, hvv⟩ := S.not_badB hbad
  have hx' : qesaX F ro S.log (S.c1 cd Gs) = x := hx.symm
  have hs' : qesaS F ro S.log (S.c1 cd Gs) (S.c2 cd Hs x) = s := hs.symm
  have hb' : qesaB F ro S.log (S.c1 cd Gs) (S.c2 cd Hs x) = b := hb.symm
  have lu := S.u_length s b
  have lv := S.v_length x s b
  have lG : (rescaled (x ^ 2) Gs).length = 2 ^ e := by
    rw [← hm, ← hG]; cases Gs <;> rfl
  have hn : 2 ≤ 2 ^ e := by calc 2 = 2 ^ 1 := rfl
    _ ≤ 2 ^ e := Nat.pow_le_pow_right (by decide) (by omega)
  have hcreate := Inner.create_eq (Nat.succ_pos m) ⟨cd, ro⟩ ⟨S.log⟩ τ Gs Hs Q S.Ms S.w S.r0 S.r1 hG hH
  have hcreate' : Inner.create ⟨cd, ro⟩ ⟨S.log⟩ τ Gs Hs Q ⟨List.ofFn fun i => rows (S.Ms i)⟩ (List.ofFn S.w)
      [S.r0, S.r1] = (createAlm ⟨cd, ro⟩ ⟨S.log ++ qesaHead (S.c1 cd Gs) (S.c2 cd Hs x)
        (cd.compress (S.C_w Gs Hs x s b))⟩ τ (rescaled (x ^ 2) Gs) Hs Q (S.C_w Gs Hs x s b) (S.u s b) (S.v x s b)
        (quad (S.M x) S.w - quad (S.M x) (powers s (m + 1)))).map
          fun r => (⟨r.1, S.c1 cd Gs, S.c2 cd Hs x⟩, r.2.1, r.2.2) := by
    rw [hcreate]
    change (let x := qesaX F ro S.log (S.c1 cd Gs)
      let c'' := S.c2 cd Hs x
      let s := qesaS F ro S.log (S.c1 cd Gs) c''
      let b := qesaB F ro S.log (S.c1 cd Gs) c''
      (createAlm ⟨cd, ro⟩ ⟨S.log ++ qesaHead (S.c1 cd Gs) c'' (cd.compress (S.C_w Gs Hs x s b))⟩ τ
        (rescaled (x ^ 2) Gs) Hs Q (S.C_w Gs Hs x s b) (S.u s b) (S.v x s b)
        (quad (S.M x) S.w - quad (S.M x) (powers s (m + 1)))).map
          fun r => ((⟨r.1, S.c1 cd Gs, c''⟩ : Inner.Proof F), r.2.1, r.2.2)) = _
    simp only [hx', hs', hb']
  have hgood' : goodTape (2 ^ e) (vec _ (S.u s b)) (vec _ (S.v x s b)) τ := by
    have := hgood
    unfold good at this
    generalize m + 3 = n at this hm
    subst hm
    exact this
  have eu := ofFn_vec (lu.trans hm)
  have ev := ofFn_vec (lv.trans hm)
  have duu : vec (2 ^ e) (S.u s b) ⬝ᵥ vec (2 ^ e) (S.u s b) ≠ 0 := by
    rwa [vec_dot (lu.trans hm) (lu.trans hm)]
  have dvv : vec (2 ^ e) (S.v x s b) ⬝ᵥ vec (2 ^ e) (S.v x s b) ≠ 0 := by
    rwa [vec_dot (lv.trans hm) (lv.trans hm)]
  obtain ⟨⟨q, tr', τ'⟩, hq⟩ := createAlm_returns ⟨cd, ro⟩ ⟨S.log ++ qesaHead (S.c1 cd Gs) (S.c2 cd Hs x)
        (cd.compress (S.C_w Gs Hs x s b))⟩ (rescaled (x ^ 2) Gs) Hs Q (S.C_w Gs Hs x s b) (by omega)
    (vec _ (S.u s b)) (vec _ (S.v x s b)) (quad (S.M x) S.w - quad (S.M x) (powers s (m + 1))) τ lG
    (hH.trans hm) duu hgood'
  rw [eu, ev] at hq
  rw [hq] at hcreate'
  refine ⟨_, tr', τ', hcreate', ?_⟩
  refine C26_inner_completeness ⟨cd, ro⟩ ⟨S.log⟩ tr' τ τ' Gs Hs Q S.Ms S.w S.r0 S.r1 _ hcreate'
    (by rw [hG, hm]; exact Nat.pow_lt_pow_right (by decide) he') h0 hw ?_
  unfold QesaFine
  simp only [hx', hs', hb']
  refine ⟨hx0, ?_, ?_⟩
  · have := masksFine_ofFn hn _ _ τ duu dvv hgood'
    rw [eu, ev] at this
    exact this
  · intro C_r hC
    obtain ⟨r', r'', τ1, _, e1, e2, -, -, -, -, -, -, e3, -⟩ := createAlm_ok _ _ _ _ _ _ _ _ _ _ _ _ _ hq
    have hmask : S.mask Gs Hs x s b τ = dot r' (rescaled (x ^ 2) Gs) + dot r'' Hs := by
      simp only [mask, maskPoint, e1, e2]
    rw [e3] at hC
    have hC' : C_r = S.mask Gs Hs x s b τ := by
      have e : cd.decompress (cd.compress (dot r' (rescaled (x ^ 2) Gs) + dot r'' Hs)) = some C_r := hC
      rw [cd.decompress_compress] at e
      rw [hmask]
      exact (Option.some.inj e).symm
    subst hC'
    subst hβ
    exact hα

omit [DecidableEq F] in
theorem q1_length : (S.q1 cd Gs).length = S.log.length + 2 := by simp [q1]
omit [DecidableEq F] in
theorem qs_length (x : F) : (S.qs cd Gs Hs x).length = S.log.length + 4 := by simp [qs]
omit [DecidableEq F] in
theorem q2_length (x : F) : (S.q2 cd Gs Hs x).length = S.log.length + 5 := by simp [q2]
theorem qb_length (τ : Tape F) (x s b : F) : (S.qb cd Gs Hs τ x s b).length = S.log.length + 8 := by
  simp [qb, qesaHead]
theorem q3_length (τ : Tape F) (x s b β : F) : (S.q3 cd Gs Hs Q τ x s b β).length = S.log.length + 11 := by
  simp [q3, qesaHead, almHead, headLog]

end Setup

/-! ### Counting runs -/

theorem count_or (ro : Hash) (D : Finset (List Event)) (A B : Hash → Prop) :
    countHashes ro D (fun ro => A ro ∨ B ro) ≤ countHashes ro D A + countHashes ro D B :=
  card_or _ _

omit [Field F] [DecidableEq F] in
theorem tapeOf_append {N : Nat} (rest : Tape F) (r : Fin 2 → F) (t : Fin N → F) :
    tapeOf rest (Fin.append r t) 0 = r 0 ∧ tapeOf rest (Fin.append r t) 1 = r 1 ∧
      (fun i => tapeOf rest (Fin.append r t) (i + 2)) = tapeOf (fun i => rest (i + 2)) t := by
  refine ⟨?_, ?_, ?_⟩
  · rw [tapeOf, dif_pos (by omega)]
    exact Fin.append_left r t 0
  · rw [tapeOf, dif_pos (by omega)]
    exact Fin.append_left r t 1
  · funext i
    unfold tapeOf
    by_cases h : i < N
    · rw [dif_pos (by omega), dif_pos h]
      rw [← Fin.append_right r t ⟨i, h⟩]
      congr 1
      exact Fin.ext (by simp [Nat.add_comm])
    · rw [dif_neg (by omega), dif_neg h]

/-- How often a run fails whose inputs may depend on the first two entries of the tape and on an earlier
challenge. -/
theorem qesa_error [Fintype F] [DecidableEq G] (h2 : (2 : F) ≠ 0) {m k e N B L : Nat} (he : 2 ≤ e) (he' : e < 64)
    (hm : m + 3 = 2 ^ e) (hN : 4 * e + 4 ≤ N) (cd : Codec G) (Gs Hs : List G) (Q : G) (hG : Gs.length = m + 3)
    (hH : Hs.length = m + 3) {P : Type} [Fintype P] (S : P → F → F → Setup F m k) (par : Hash → F → F → P)
    (hL : ∀ p y z, (S p y z).log.length = L)
    (hpar : ∀ ro h v y z, L < h.length → par (Function.update ro h v) y z = par ro y z)
    (h0 : ∀ p y z, (S p y z).w 0 = 1) (hw : ∀ p y z i, quad ((S p y z).Ms i) (S p y z).w = 0)
    (hB : ∀ c : F, Nat.card {v : Vector UInt8 64 // ((leNat v.toList : Nat) : F) = c} ≤ B)
    (rest : Tape F) (A : Hash → Tape F → Prop)
    (hA : ∀ ro τ, A ro τ → ¬ ∃ p tr' τ', 
      Inner.create ⟨cd, ro⟩ ⟨(S (par ro (τ 0) (τ 1)) (τ 0) (τ 1)).log⟩ (fun i => τ (i + 2)) Gs Hs Q
        ⟨List.ofFn fun i => rows ((S (par ro (τ 0) (τ 1)) (τ 0) (τ 1)).Ms i)⟩
        (List.ofFn (S (par ro (τ 0) (τ 1)) (τ 0) (τ 1)).w) [(S (par ro (τ 0) (τ 1)) (τ 0) (τ 1)).r0,
          (S (par ro (τ 0) (τ 1)) (τ 0) (τ 1)).r1] = .ok (p, tr', τ') ∧
      p.verify ⟨cd, ro⟩ ⟨(S (par ro (τ 0) (τ 1)) (τ 0) (τ 1)).log⟩ Gs Hs Q
        ⟨List.ofFn fun i => rows ((S (par ro (τ 0) (τ 1)) (τ 0) (τ 1)).Ms i)⟩ = .ok (true, tr')) :
    ∃ D0 : Finset (List Event), ∀ D, D0 ⊆ D → ∀ ro,
      chanceBoth ro D rest (2 + N) A ≤ 7 / Fintype.card F + (14 * B : Nat) / 2 ^ 512 := by
  classical
  let pS : Hash → Tape F → Setup F m k := fun ro τ => S (par ro (τ 0) (τ 1)) (τ 0) (τ 1)
  let fx : Hash → Tape F → F := fun ro τ => squeeze F ro ((pS ro τ).q1 cd Gs)
  let fs : Hash → Tape F → F := fun ro τ => squeeze F ro ((pS ro τ).qs cd Gs Hs (fx ro τ))
  let fb : Hash → Tape F → F := fun ro τ => squeeze F ro ((pS ro τ).q2 cd Gs Hs (fx ro τ))
  let fβ : Hash → Tape F → F := fun ro τ =>
    squeeze F ro ((pS ro τ).qb cd Gs Hs (fun i => τ (i + 2)) (fx ro τ) (fs ro τ) (fb ro τ))
  let Q1 : Tape F → Hash → List Event := fun τ ro => (pS ro τ).q1 cd Gs
  let Q2 : Tape F → Hash → List Event := fun τ ro => (pS ro τ).q2 cd Gs Hs (fx ro τ)
  let Q3 : Tape F → Hash → List Event := fun τ ro =>
    (pS ro τ).q3 cd Gs Hs Q (fun i => τ (i + 2)) (fx ro τ) (fs ro τ) (fb ro τ) (fβ ro τ)
  have hlog : ∀ ro τ, (pS ro τ).log.length = L := fun ro τ => hL _ _ _
  have upd : ∀ (ro : Hash) (h l : List Event) (v : Vector UInt8 64), l.length ≠ h.length →
      squeeze F (Function.update ro h v) l = squeeze F ro l := by
    intro ro h l v hl
    unfold squeeze
    rw [Function.update_of_ne]
    rintro rfl
    exact hl rfl
  have iS : ∀ ro τ h v, L < h.length → pS (Function.update ro h v) τ = pS ro τ := by
    intro ro τ h v hl
    simp only [pS]
    rw [hpar ro h v _ _ hl]
  have ix : ∀ ro τ h v, L + 2 < h.length → fx (Function.update ro h v) τ = fx ro τ := by
    intro ro τ h v hl
    simp only [fx]
    rw [iS ro τ h v (by omega), upd]
    rw [Setup.q1_length, hlog]; omega
  have is' : ∀ ro τ h v, L + 4 < h.length → fs (Function.update ro h v) τ = fs ro τ := by
    intro ro τ h v hl
    simp only [fs]
    rw [iS ro τ h v (by omega), ix ro τ h v (by omega), upd]
    rw [Setup.qs_length, hlog]; omega
  have ib : ∀ ro τ h v, L + 5 < h.length → fb (Function.update ro h v) τ = fb ro τ := by
    intro ro τ h v hl
    simp only [fb]
    rw [iS ro τ h v (by omega), ix ro τ h v (by omega), upd]
    rw [Setup.q2_length, hlog]; omega
  have iβ : ∀ ro τ h v, L + 8 < h.length → fβ (Function.update ro h v) τ = fβ ro τ := by
    intro ro τ h v hl
    simp only [fβ]
    rw [iS ro τ h v (by omega), ix ro τ h v (by omega), is' ro τ h v (by omega), ib ro τ h v (by omega), upd]
    rw [Setup.qb_length, hlog]; omega
  have l1 : ∀ τ ro, (Q1 τ ro).length = L + 2 := fun τ ro => by simp only [Q1]; rw [Setup.q1_length, hlog]
  have l2 : ∀ τ ro, (Q2 τ ro).length = L + 5 := fun τ ro => by simp only [Q2]; rw [Setup.q2_length, hlog]
  have l3 : ∀ τ ro, (Q3 τ ro).length = L + 11 := fun τ ro => by simp only [Q3]; rw [Setup.q3_length, hlog]
  have i1 : ∀ τ ro v, Q1 τ (Function.update ro (Q1 τ ro) v) = Q1 τ ro := by
    intro τ ro v
    have h := iS ro τ (Q1 τ ro) v (by rw [l1]; omega)
    generalize Function.update ro (Q1 τ ro) v = ro' at h ⊢
    simp only [Q1]
    rw [h]
  have i2 : ∀ τ ro v, Q2 τ (Function.update ro (Q2 τ ro) v) = Q2 τ ro := by
    intro τ ro v
    have h := iS ro τ (Q2 τ ro) v (by rw [l2]; omega)
    have h' := ix ro τ (Q2 τ ro) v (by rw [l2]; omega)
    generalize Function.update ro (Q2 τ ro) v = ro' at h h' ⊢
    simp only [Q2]
    rw [h, h']
  have i3 : ∀ τ ro v, Q3 τ (Function.update ro (Q3 τ ro) v) = Q3 τ ro := by
    intro τ ro v
    have a1 := iS ro τ (Q3 τ ro) v (by rw [l3]; omega)
    have a2 := ix ro τ (Q3 τ ro) v (by rw [l3]; omega)
    have a3 := is' ro τ (Q3 τ ro) v (by rw [l3]; omega)
    have a4 := ib ro τ (Q3 τ ro) v (by rw [l3]; omega)
    have a5 := iβ ro τ (Q3 τ ro) v (by rw [l3]; omega)
    generalize Function.update ro (Q3 τ ro) v = ro' at a1 a2 a3 a4 a5 ⊢
    simp only [Q3]
    rw [a1, a2, a3, a4, a5]
  -- the histories
  refine ⟨Finset.univ.biUnion fun z : P × (Fin (2 + N) → F) × F × F × F × F =>
    let τ := tapeOf rest z.2.1
    let T := S z.1 (τ 0) (τ 1)
    {T.q1 cd Gs, T.q2 cd Gs Hs z.2.2.1, T.q3 cd Gs Hs Q (fun i => τ (i + 2)) z.2.2.1 z.2.2.2.1 z.2.2.2.2.1
      z.2.2.2.2.2}, ?_⟩
  intro D hD ro
  have d1 : ∀ (t : Fin (2 + N) → F) ro, Q1 (tapeOf rest t) ro ∈ D := fun t ro =>
    hD (Finset.mem_biUnion.2 ⟨(par ro (tapeOf rest t 0) (tapeOf rest t 1), t, 0, 0, 0, 0), Finset.mem_univ _, by
      simp only [Finset.mem_insert, Finset.mem_singleton]; exact .inl rfl⟩)
  have d2 : ∀ (t : Fin (2 + N) → F) ro, Q2 (tapeOf rest t) ro ∈ D := fun t ro =>
    hD (Finset.mem_biUnion.2 ⟨(par ro (tapeOf rest t 0) (tapeOf rest t 1), t, fx ro (tapeOf rest t), 0, 0, 0),
      Finset.mem_univ _, by simp only [Finset.mem_insert, Finset.mem_singleton]; exact .inr (.inl rfl)⟩)
  have d3 : ∀ (t : Fin (2 + N) → F) ro, Q3 (tapeOf rest t) ro ∈ D := fun t ro =>
    hD (Finset.mem_biUnion.2 ⟨(par ro (tapeOf rest t 0) (tapeOf rest t 1), t, fx ro (tapeOf rest t),
      fs ro (tapeOf rest t), fb ro (tapeOf rest t), fβ ro (tapeOf rest t)),
      Finset.mem_univ _, by simp only [Finset.mem_insert, Finset.mem_singleton]; exact .inr (.inr rfl)⟩)
  rw [← Nat.card_eq_fintype_card]
  refine chanceBoth_le
    (fun ro τ => fb ro τ ∉ (pS ro τ).badB (fx ro τ) (fs ro τ) ∧
      ¬ (pS ro τ).good (fx ro τ) (fs ro τ) (fb ro τ) fun i => τ (i + 2))
    (fun ro τ => fx ro τ = 0 ∨ (fb ro τ ∈ (pS ro τ).badB (fx ro τ) (fs ro τ) ∨ squeeze F ro (Q3 τ ro) = 0))
    ?_ 7 (14 * B) ?_ ?_
  · intro ro τ h
    by_contra hno
    push Not at hno
    obtain ⟨n1, n2, n3, n4⟩ := hno
    exact hA ro τ h ((pS ro τ).run cd Gs Hs Q he he' hm ro hG hH (h0 _ _ _) (hw _ _ _) (fun i => τ (i + 2)) rfl rfl
      rfl rfl n2 n3 (n1 n3) n4)
  · intro ro
    have := card_joint_right (X := Fin 2 → F) (Y := Fin N → F)
      (fun z => fb ro (tapeOf rest (Fin.append z.1 z.2)) ∉ (pS ro (tapeOf rest (Fin.append z.1 z.2))).badB
        (fx ro (tapeOf rest (Fin.append z.1 z.2))) (fs ro (tapeOf rest (Fin.append z.1 z.2))) ∧
      ¬ (pS ro (tapeOf rest (Fin.append z.1 z.2))).good (fx ro (tapeOf rest (Fin.append z.1 z.2)))
        (fs ro (tapeOf rest (Fin.append z.1 z.2))) (fb ro (tapeOf rest (Fin.append z.1 z.2)))
        fun i => tapeOf rest (Fin.append z.1 z.2) (i + 2)) (Nat.card F) 7 (by
      intro r
      have e1 : ∀ t : Fin N → F, pS ro (tapeOf rest (Fin.append r t)) = S (par ro (r 0) (r 1)) (r 0) (r 1) := by
        intro t
        obtain ⟨a1, a2, -⟩ := tapeOf_append rest r t
        simp only [pS, a1, a2]
      simp only [fb, fs, fx, e1, (tapeOf_append rest r _).2.2]
      set T := S (par ro (r 0) (r 1)) (r 0) (r 1)
      by_cases hb : squeeze F ro (T.q2 cd Gs Hs (squeeze F ro (T.q1 cd Gs))) ∈
          T.badB (squeeze F ro (T.q1 cd Gs)) (squeeze F ro (T.qs cd Gs Hs (squeeze F ro (T.q1 cd Gs))))
      · simp [hb]
      · simp only [hb, not_false_iff, true_and]
        exact T.card_not_good h2 he hm hN _ hb)
    have hc : Nat.card (Fin 2 → F) * Nat.card (Fin N → F) = Nat.card (Fin (2 + N) → F) := by
      rw [← Nat.card_prod]; exact Nat.card_congr (Fin.appendEquiv 2 N)
    rw [hc] at this
    refine le_trans (le_of_eq ?_) this
    congr 1
    exact Nat.card_congr ((Fin.appendEquiv 2 N).subtypeEquiv fun z => Iff.rfl).symm
  · intro t
    set τ := tapeOf rest t
    have c1 := count_history ro D (Q1 τ) (i1 τ) (d1 t) (fun ro => fx ro τ = 0) B (by
      intro ro
      refine le_trans (card_imp fun v hv => ?_) (hB 0)
      have hq := i1 τ ro v
      have : squeeze F (Function.update ro (Q1 τ ro) v) (Q1 τ (Function.update ro (Q1 τ ro) v)) = 0 := hv
      rw [hq, squeeze, Function.update_self] at this
      exact this)
    have c2 := count_history ro D (Q2 τ) (i2 τ) (d2 t)
      (fun ro => fb ro τ ∈ (pS ro τ).badB (fx ro τ) (fs ro τ)) (12 * B) (by
      intro ro
      refine le_trans (card_imp fun v hv => ?_) ((card_challenge hB ((pS ro τ).badB (fx ro τ) (fs ro τ))).trans
        (Nat.mul_le_mul_right B ((pS ro τ).badB_card _ _)))
      have hq := i2 τ ro v
      rw [iS ro τ _ v (by rw [l2]; omega), ix ro τ _ v (by rw [l2]; omega), is' ro τ _ v (by rw [l2]; omega)] at hv
      have e : fb (Function.update ro (Q2 τ ro) v) τ =
        squeeze F (Function.update ro (Q2 τ ro) v) (Q2 τ (Function.update ro (Q2 τ ro) v)) := rfl
      rw [e, hq, squeeze, Function.update_self] at hv
      exact hv)
    have c3 := count_history ro D (Q3 τ) (i3 τ) (d3 t) (fun ro => squeeze F ro (Q3 τ ro) = 0) B (by
      intro ro
      refine le_trans (card_imp fun v hv => ?_) (hB 0)
      have hq := i3 τ ro v
      rw [hq, squeeze, Function.update_self] at hv
      exact hv)
    have all := (count_or ro D (fun ro => fx ro τ = 0) (fun ro => fb ro τ ∈ (pS ro τ).badB (fx ro τ) (fs ro τ) ∨
      squeeze F ro (Q3 τ ro) = 0)).trans (Nat.add_le_add_left (count_or ro D _ _) _)
    refine (Nat.mul_le_mul_right _ all).trans ?_
    generalize (2 ^ 512 : Nat) = H at *
    generalize H ^ D.card = W at *
    rw [add_mul, add_mul]
    calc _ ≤ B * W + (12 * B * W + B * W) := Nat.add_le_add c1 (Nat.add_le_add c2 c3)
      _ = 14 * B * W := by ring

end Qesa.Props
