import Mathlib.Tactic.LinearCombination
import Mathlib.Tactic.FieldSimp
import Verif.Props.Copy
/- C73: the commitments in QESA and Copy proofs hide the witness perfectly. -/
namespace Qesa.Props
open Qesa Spec
variable {F G : Type} [Field F] [AddCommGroup G] [Module F G]

/-- Two blinding scalars on two points each: every pair of points is reached exactly once. -/
theorem blind_pair {B : G} (hB : B ≠ 0) (hcyc : ∀ P : G, ∃ c : F, P = c • B) (γ₀ γ₁ η₀ η₁ : F)
    (hdet : γ₀ * η₀ + γ₁ * η₁ ≠ 0) (X Y : G) :
    ∃ r₀ r₁ : F, ∀ s₀ s₁ : F,
      (s₀ • γ₀ • B + s₁ • γ₁ • B = X ∧ -s₁ • η₀ • B + s₀ • η₁ • B = Y) ↔ s₀ = r₀ ∧ s₁ = r₁ := by
  obtain ⟨x, rfl⟩ := hcyc X
  obtain ⟨y, rfl⟩ := hcyc Y
  refine ⟨(η₀ * x + γ₁ * y) / (γ₀ * η₀ + γ₁ * η₁), (η₁ * x - γ₀ * y) / (γ₀ * η₀ + γ₁ * η₁),
    fun s₀ s₁ => ?_⟩
  have inj : ∀ c d : F, c • B = d • B ↔ c = d := fun c d =>
    ⟨fun h => smul_left_injective F hB h, fun h => by rw [h]⟩
  simp only [smul_smul, ← add_smul, inj]
  rw [eq_div_iff hdet, eq_div_iff hdet]
  constructor
  · rintro ⟨h1, h2⟩
    exact ⟨by linear_combination η₀ * h1 + γ₁ * h2, by linear_combination η₁ * h1 - γ₀ * h2⟩
  · rintro ⟨h1, h2⟩
    constructor
    · apply mul_right_cancel₀ hdet
      linear_combination γ₀ * h1 + γ₁ * h2
    · apply mul_right_cancel₀ hdet
      linear_combination η₁ * h1 - η₀ * h2

/-- The part of a commitment that belongs to the last two generators. -/
theorem dot_last_two {m : Nat} (w : Fin m → F) (a b : F) (Gs : List G) (g₀ g₁ : G)
    (hG : Gs.length = m + 2) (h0 : Gs[m]? = some g₀) (h1 : Gs[m + 1]? = some g₁) :
    dot (List.ofFn w ++ [a, b]) Gs = dot (List.ofFn w) (Gs.take m) + (a • g₀ + b • g₁) := by
  have hd : Gs.drop m = [g₀, g₁] := by
    apply List.ext_getElem?
    intro i
    rw [List.getElem?_drop]
    rcases i with _ | _ | i
    · simpa using h0
    · simpa using h1
    · rw [List.getElem?_eq_none (by omega)]; simp
  conv_lhs => rw [← List.take_append_drop m Gs, hd]
  rw [dot_append (by simp [hG])]
  simp

variable [DecidableEq F]

/-- C73: the two commitments of a QESA proof are perfectly hiding, jointly.  Points are multiples of
`B`, and the last two generators of the two vectors are `γ₀B, γ₁B` and `η₀B, η₁B` with
`γ₀η₀ + γ₁η₁ ≠ 0`.  For every witness and every pair of points there is exactly one choice of the
first two random scalars for which the proof contains this pair. -/
theorem C73_qesa_hiding {m k : Nat} (cx : Ctx G) (tr : Transcript) (Gs Hs : List G) (Q : G)
    (Ms : Fin (k + 1) → Matrix (Fin m) (Fin m) F) (w : Fin m → F) {B : G} (hB : B ≠ 0)
    (hcyc : ∀ P : G, ∃ c : F, P = c • B) (γ₀ γ₁ η₀ η₁ : F) (hdet : γ₀ * η₀ + γ₁ * η₁ ≠ 0)
    (hg₀ : Gs[m]? = some (γ₀ • B)) (hg₁ : Gs[m + 1]? = some (γ₁ • B))
    (hh₀ : Hs[m]? = some (η₀ • B)) (hh₁ : Hs[m + 1]? = some (η₁ • B)) (X Y : G) :
    ∃ r₀ r₁ : F, ∀ (tape tape' : Tape F) (tr' : Transcript) (p : Zk.Proof F),
      Zk.create cx tr tape Gs Hs Q ⟨List.ofFn fun i => rows (Ms i)⟩ (List.ofFn w) =
        .ok (p, tr', tape') →
      ((p.inner.c_prime_w = cx.compress X ∧ p.inner.c_prime_prime_w = cx.compress Y) ↔
        tape 0 = r₀ ∧ tape 1 = r₁) := by
  set M := batched (m + 2) Ms (qesaX F cx.ro tr.log (cx.compress X)) with hM
  obtain ⟨r₀, r₁, hr⟩ := blind_pair hB hcyc γ₀ γ₁ η₀ η₁ hdet
    (X - dot (List.ofFn w) (Gs.take m)) (Y - dot (List.ofFn (M.mulVec w)) (Hs.take m))
  refine ⟨r₀, r₁, fun tape tape' tr' p h => ?_⟩
  unfold Zk.create at h
  simp only [draw] at h
  obtain ⟨⟨q, tr2, tape2⟩, h1, h⟩ := bind_eq_ok.1 h
  simp only [R_pure, Except.ok.injEq, Prod.mk.injEq] at h
  obtain ⟨rfl, rfl, rfl⟩ := h
  obtain ⟨hm, hG, hH, -, -⟩ := Inner.create_shapes _ _ _ _ _ _ _ _ _ _ h1
  obtain ⟨c1, c2, -, -⟩ := C28_prover_value _ _ _ _ _ _ _ _ _ _ _ _ _ h1
  have inj : ∀ P P' : G, cx.compress P = cx.compress P' ↔ P = P' := fun P P' =>
    ⟨fun e => by
      have := congrArg cx.decompress e
      rwa [cx.decompress_compress, cx.decompress_compress, Option.some.injEq] at this,
     fun e => by rw [e]⟩
  rw [← hr]
  constructor
  · rintro ⟨e1, e2⟩
    rw [c2, e1, ← hM, inj, dot_last_two _ _ _ _ _ _ hH hh₀ hh₁] at e2
    rw [c1, inj, dot_last_two _ _ _ _ _ _ hG hg₀ hg₁] at e1
    exact ⟨eq_sub_of_add_eq' e1, eq_sub_of_add_eq' e2⟩
  · rintro ⟨e1, e2⟩
    have f1 : q.c_prime_w = cx.compress X := by
      rw [c1, inj, dot_last_two _ _ _ _ _ _ hG hg₀ hg₁]
      exact add_eq_of_eq_sub' e1
    refine ⟨f1, ?_⟩
    rw [c2, f1, ← hM, inj, dot_last_two _ _ _ _ _ _ hH hh₀ hh₁]
    exact add_eq_of_eq_sub' e2

omit [DecidableEq F] in
/-- The two commitments of the inner argument for a system given as a list. -/
theorem inner_commitments [DecidableEq F] {m : Nat} (cx : Ctx G) (tr tr' : Transcript)
    (tape tape' : Tape F) (Gs Hs : List G) (Q : G) (L : List (Matrix (Fin m) (Fin m) F))
    (hL : L.length ≠ 0) (w : Fin m → F) (r0 r1 : F) (q : Inner.Proof F)
    (h : Inner.create cx tr tape Gs Hs Q ⟨L.map rows⟩ (List.ofFn w) [r0, r1] =
      .ok (q, tr', tape')) :
    Hs.length = m + 2 ∧ q.c_prime_w = cx.compress (dot (List.ofFn w ++ [r0, r1]) Gs) ∧
    q.c_prime_prime_w = cx.compress (dot (List.ofFn
      ((batched (m + 2) L.get (qesaX F cx.ro tr.log q.c_prime_w)).mulVec w) ++ [-r1, r0]) Hs) := by
  rw [map_rows_eq] at h
  have key : ∀ (N : Nat) (_ : N ≠ 0) (Ms : Fin N → Matrix (Fin m) (Fin m) F),
      Inner.create cx tr tape Gs Hs Q ⟨List.ofFn fun i => rows (Ms i)⟩ (List.ofFn w) [r0, r1] =
        .ok (q, tr', tape') →
      Hs.length = m + 2 ∧ q.c_prime_w = cx.compress (dot (List.ofFn w ++ [r0, r1]) Gs) ∧
      q.c_prime_prime_w = cx.compress (dot (List.ofFn
        ((batched (m + 2) Ms (qesaX F cx.ro tr.log q.c_prime_w)).mulVec w) ++ [-r1, r0]) Hs) := by
    intro N hN Ms h
    obtain ⟨N, rfl⟩ := Nat.exists_eq_succ_of_ne_zero hN
    obtain ⟨-, -, hH, -, -⟩ := Inner.create_shapes _ _ _ _ _ _ _ _ _ _ h
    obtain ⟨c1, c2, -, -⟩ := C28_prover_value _ _ _ _ _ _ _ _ _ _ _ _ _ h
    exact ⟨hH, c1, c2⟩
  exact key _ hL _ h

section
open Toy

/-- The generators of the example runs meet the hypotheses of C73, and two runs with the different
witnesses `(1, 2)` and `(1, -2)` of the equation `4 w₀² = w₁²` produce the same commitments. -/
example : (8 * 55 + 13 * 89 : K) ≠ 0 ∧ (∀ P : K, ∃ c : K, P = c • (1 : K)) ∧
    let run (t : Tape K) (w1 : K) :=
      (Zk.create cx ⟨[]⟩ t [3, 5, 8, 13] [21, 34, 55, 89] (7 : K) ⟨[[[4, 0], [0, -1]]]⟩
        [1, w1]).map fun r => (r.1.inner.c_prime_w, r.1.inner.c_prime_prime_w)
    run exTape2 2 = .ok ([30], [69]) ∧
    run (fun i => if i = 0 then 57 else if i = 1 then 61 else exTape2 i) (-2) =
      .ok ([30], [69]) := by
  refine ⟨by decide, fun P => ⟨P, by simp⟩, ?_⟩
  decide +kernel
end

/-- C73: the same for the Copy argument.  Its commitment `C_w` and the commitment to the image of the
witness hide the witness, the committed messages and their randomness. -/
theorem C73_copy_hiding {k : Nat} (cx : Ctx G) (tr : Transcript) (Gs Hs : List G) (Q : G)
    (Us : List (Matrix (Fin (k + 1)) (Fin (k + 1)) F)) (w : List F)
    (coms : List (List Nat × List F × F)) (map : Copy.Mapping) (Cs : List G)
    (hG : Gs.length = k + 3) (hn : Gs.length < 65536) (hs : coms.length ≤ 65536)
    (hmap : Copy.computeMapping Gs.length w.length (coms.map (·.1)) = .ok map)
    (hcom : coms.mapM (fun c => Copy.commit Gs c.1 c.2.1 c.2.2) = .ok Cs)
    {B : G} (hB : B ≠ 0) (hcyc : ∀ P : G, ∃ c : F, P = c • B) (γ₀ γ₁ η₀ η₁ : F)
    (hdet : γ₀ * η₀ + γ₁ * η₁ ≠ 0)
    (hg₀ : Gs[k + 1]? = some (γ₀ • B)) (hg₁ : Gs[k + 2]? = some (γ₁ • B))
    (hh₀ : Hs[k + 1]? = some (η₀ • B)) (hh₁ : Hs[k + 2]? = some (η₁ • B)) (X Y : G) :
    ∃ r₀ r₁ : F, ∀ (tape tape' : Tape F) (tr' : Transcript) (p : Copy.Proof F),
      Copy.create cx tr tape Gs Hs Q map ⟨Us.map rows⟩ w (coms.map (·.2)) = .ok (p, tr', tape') →
      ((p.C_w = cx.compress X ∧ p.inner.c_prime_prime_w = cx.compress Y) ↔
        tape 0 = r₀ ∧ tape 1 = r₁) := by
  set α := copyAlpha F cx.ro tr.log (cx.compress X) with hα
  set v := fun i : Fin (k + 1) => copyWitness w map (coms.map (·.2.1)).flatten α i with hv
  set S := dot (List.ofFn (powers α Cs.length)) Cs with hS
  set e := dot (coms.map (·.2.2)) (List.ofFn (powers α coms.length)) with he
  set M := batched (k + 1 + 2) (copySystem Us map α).get
    (qesaX F cx.ro (tr.log ++ [.msg "c_w" (cx.compress X), .chal "alpha" 64])
      (cx.compress (S + X))) with hM
  obtain ⟨r₀, r₁, hr⟩ := blind_pair hB hcyc γ₀ γ₁ η₀ η₁ hdet
    (X - dot (List.ofFn fun i : Fin (k + 1) => copyWitness w map (coms.map (·.2.1)).flatten 0 i)
      (Gs.take (k + 1)))
    (Y - dot (List.ofFn (M.mulVec v)) (Hs.take (k + 1)) + e • η₀ • B)
  refine ⟨r₀, r₁, fun tape tape' tr' p h => ?_⟩
  obtain ⟨-, hwk, -, C_w, hCw, hdot, hin⟩ := C37_prover cx tr tr' tape tape' Gs Hs Q Us w coms map Cs
    p hG hn hs hmap hcom h
  have hwf := Copy.computeMapping_wf hn (by omega) (by simpa using hs) hmap
  obtain ⟨m, hm, -, -, -, hX, -, -⟩ := Copy.create_ok cx tr tr' tape tape' Gs Hs Q map ⟨Us.map rows⟩ w
    coms p hwf (commits_spec Gs coms Cs k hG hcom).1 h
  obtain rfl : m = k := by omega
  have inj : ∀ P P' : G, cx.compress P = cx.compress P' ↔ P = P' := fun P P' =>
    ⟨fun e => by
      have := congrArg cx.decompress e
      rwa [cx.decompress_compress, cx.decompress_compress, Option.some.injEq] at this,
     fun e => by rw [e]⟩
  have first : p.C_w = cx.compress X ↔ tape 0 • γ₀ • B + tape 1 • γ₁ • B =
      X - dot (List.ofFn fun i : Fin (m + 1) => copyWitness w map (coms.map (·.2.1)).flatten 0 i)
        (Gs.take (m + 1)) := by
    rw [hX, inj, dot_last_two _ _ _ _ _ _ hG hg₀ hg₁, eq_sub_iff_add_eq']
  rw [← hr, ← first]
  refine and_congr_right fun e1 => ?_
  have hC : C_w = X := by rw [← inj, ← hCw, e1]
  simp only [e1, ← hα] at hin hdot
  obtain ⟨hH, c1, c2⟩ := inner_commitments _ _ _ _ _ _ _ _ _ (copySystem_ne_nil hwf Us _) _ _ _ _ hin
  rw [c2, c1, hdot, hC]
  rw [inj, dot_last_two _ _ _ _ _ _ hH hh₀ hh₁, ← hM, ← sub_eq_iff_eq_add, eq_sub_iff_add_eq']
  have : -tape 1 • η₀ • B + tape 0 • η₁ • B - e • η₀ • B =
      -(tape 1 + e) • η₀ • B + tape 0 • η₁ • B := by module
  rw [this]

end Qesa.Props
