import Mathlib.Algebra.Order.Field.Rat
import Mathlib.Tactic.Positivity
import Verif.Proofs.FsCore
import Verif.Props.Challenge
/-
C67, C68: soundness of the non-interactive arguments in the random-oracle model, for algebraic provers.
-/
namespace Qesa.Props
open Qesa Spec Ipa

theorem chance_le {ro : Hash} {D : Finset (List Event)} {A : Hash → Prop} {k : Nat}
    (h : countHashes ro D A * 2 ^ 512 ≤ k * (2 ^ 512) ^ D.card) : chance ro D A ≤ k / 2 ^ 512 := by
  unfold chance
  rw [div_le_div_iff₀ (by positivity) (by positivity)]
  exact_mod_cast h

theorem chance_mono {ro : Hash} {D : Finset (List Event)} {A B : Hash → Prop} (h : ∀ ro, A ro → B ro) :
    chance ro D A ≤ chance ro D B := by
  unfold chance countHashes
  refine div_le_div_of_nonneg_right ?_ (by positivity)
  refine Nat.cast_le.2 (Nat.card_le_card_of_injective (Subtype.map id fun f => h _) ?_)
  exact Subtype.map_injective _ Function.injective_id

theorem card_hashes (D : Finset (List Event)) : Nat.card (D → Vector UInt8 64) = (2 ^ 512) ^ D.card := by
  classical
  rw [Nat.card_eq_fintype_card, Fintype.card_fun, card_bytes, Fintype.card_coe]

/-- C67: `chance` is a probability: the certain event has chance one. -/
theorem C67_chance_true (ro : Hash) (D : Finset (List Event)) : chance ro D (fun _ => True) = 1 := by
  unfold chance countHashes
  rw [Nat.card_congr (Equiv.subtypeUnivEquiv fun _ => trivial), card_hashes, Nat.cast_pow, Nat.cast_pow,
    Nat.cast_ofNat]
  exact div_self (by positivity)

/-- C67: the chance of an event does not depend on the finite set of histories, as long as it contains all those
that the event looks at. -/
theorem C67_chance_domain (ro ro' : Hash) (D D' : Finset (List Event)) (hD : D ⊆ D') (A : Hash → Prop)
    (hA : ∀ r r' : Hash, (∀ l ∈ D, r l = r' l) → A r → A r') : chance ro D A = chance ro' D' A := by
  classical
  let e1 : D ≃ {x : D' // x.1 ∈ D} :=
    ⟨fun x => ⟨⟨x.1, hD x.2⟩, x.2⟩, fun x => ⟨x.1.1, x.2⟩, fun _ => rfl, fun _ => rfl⟩
  let e : (D' → Vector UInt8 64) ≃ (D → Vector UInt8 64) × ({x : D' // x.1 ∉ D} → Vector UInt8 64) :=
    (Equiv.piEquivPiSubtypeProd (fun x : D' => x.1 ∈ D) fun _ => Vector UInt8 64).trans
      (Equiv.prodCongr (Equiv.arrowCongr e1.symm (Equiv.refl _)) (Equiv.refl _))
  have he : ∀ (f : D' → Vector UInt8 64) (l : List Event) (h : l ∈ D), patch ro D (e f).1 l = patch ro' D' f l := by
    intro f l h
    unfold patch
    rw [dif_pos h, dif_pos (hD h)]
    rfl
  have h1 : (2 ^ 512) ^ D'.card = (2 ^ 512) ^ D.card * Nat.card ({x : D' // x.1 ∉ D} → Vector UInt8 64) := by
    rw [← card_hashes D', ← card_hashes D, Nat.card_congr e, Nat.card_prod]
  have h2 : countHashes ro' D' A = countHashes ro D A * Nat.card ({x : D' // x.1 ∉ D} → Vector UInt8 64) := by
    unfold countHashes
    rw [← Nat.card_prod]
    refine Nat.card_congr ((e.subtypeEquiv (q := fun x => A (patch ro D x.1)) fun f =>
      ⟨hA _ _ fun l h => (he f l h).symm, hA _ _ fun l h => he f l h⟩).trans ?_)
    exact ⟨fun x => (⟨x.1.1, x.2⟩, x.1.2), fun x => ⟨(x.1.1, x.2), x.1.2⟩, fun _ => rfl, fun _ => rfl⟩
  have h3 : ((2 : ℚ) ^ 512) ^ D'.card =
      (2 ^ 512) ^ D.card * Nat.card ({x : D' // x.1 ∉ D} → Vector UInt8 64) := by
    simpa only [Nat.cast_pow, Nat.cast_mul, Nat.cast_ofNat] using congrArg (Nat.cast (R := ℚ)) h1
  unfold chance
  rw [h2, h3, Nat.cast_mul]
  refine (mul_div_mul_right _ _ ?_).symm
  intro h0
  rw [h0, mul_zero] at h3
  exact absurd h3 (by positivity)

/-! ### Notes -/
section
variable {F G V : Type} [Field F] [AddCommGroup G] [Module F G] [AddCommGroup V] [Module F V]

theorem noConflict_of_truthful (cd : Codec G) (ev : V →ₗ[F] G) (ls : List (List (Note V)))
    (hT : ∀ l ∈ ls, ∀ e ∈ l, Truthful cd ev e)
    (hinj : ∀ c ∈ differences (notes ls), ev c = 0 → c = 0) : NoConflict ls := by
  intro l hl l' hl' h
  have hlen : l.length = l'.length := by simpa using congrArg List.length h
  refine List.ext_getElem hlen fun i h1 h2 => ?_
  have e1 : l[i].1 = l'[i].1 := by
    have := congrArg (fun l => l[i]?) h
    simpa [List.getElem?_eq_getElem h1, List.getElem?_eq_getElem h2] using this
  refine Prod.ext e1 ?_
  have t1 := hT l hl _ (List.getElem_mem h1)
  have t2 := hT l' hl' _ (List.getElem_mem h2)
  unfold Truthful at t1 t2
  rw [← e1] at t2
  cases hp : (pointBytes l[i].1).bind cd.decompress with
  | none => rw [hp] at t1 t2; exact t1.trans t2.symm
  | some p =>
    rw [hp] at t1 t2
    obtain ⟨r, hr, er⟩ := t1
    obtain ⟨r', hr', er'⟩ := t2
    rw [hr, hr']
    have m1 : r ∈ notes ls := List.mem_flatMap.2 ⟨l, hl, List.mem_filterMap.2 ⟨_, List.getElem_mem h1, hr⟩⟩
    have m2 : r' ∈ notes ls :=
      List.mem_flatMap.2 ⟨l', hl', List.mem_filterMap.2 ⟨_, List.getElem_mem h2, hr'⟩⟩
    have := hinj (r - r') (List.mem_flatMap.2 ⟨r, m1, List.mem_map.2 ⟨r', m2, rfl⟩⟩)
      (by rw [map_sub, er, er', sub_self])
    rw [sub_eq_zero.1 this]

omit [AddCommGroup G] [AddCommGroup V] in
theorem truthful_plain (cd : Codec G) (ev : V → G) (e : Event) (h : pointBytes e = none) :
    Truthful cd ev (e, none) := by
  unfold Truthful; rw [h]; rfl

omit [AddCommGroup G] [AddCommGroup V] in
theorem truthful_point (cd : Codec G) (ev : V → G) (l : String)
    (h : l ∈ ["c_w", "c_prime_w", "c_prime_prime_w", "C_r", "L", "R", "a"]) (r : V) :
    Truthful cd ev (.msg l (cd.compress (ev r)), some r) := by
  unfold Truthful pointBytes
  simp only [h, if_true, Option.bind_some, cd.decompress_compress]
  exact ⟨r, rfl, rfl⟩

omit [AddCommGroup G] [AddCommGroup V] in
theorem truthful_rounds (cd : Codec G) (ev : V → G) : ∀ (Ls Rs : List V) (log : List (Note V)),
    (∀ e ∈ log, Truthful cd ev e) →
    ∀ l ∈ roundQueries cd.compress ev log Ls Rs, ∀ e ∈ l, Truthful cd ev e
  | [], _, _, _ => by simp [roundQueries]
  | _ :: _, [], _, _ => by simp [roundQueries]
  | L :: Ls, R :: Rs, log, h => by
    have h' : ∀ e ∈ log ++ roundNotes cd.compress ev L R, Truthful cd ev e := by
      intro e he
      simp only [List.mem_append, roundNotes, List.mem_cons, List.not_mem_nil, or_false] at he
      rcases he with he | rfl | rfl | rfl
      · exact h e he
      · exact truthful_point cd ev "L" (by decide) L
      · exact truthful_point cd ev "R" (by decide) R
      · exact truthful_plain cd ev _ rfl
    intro l hl
    rw [roundQueries, List.mem_cons] at hl
    rcases hl with rfl | hl
    · exact h'
    · exact truthful_rounds cd ev Ls Rs _ h' l hl

omit [AddCommGroup G] [AddCommGroup V] in
theorem truthful_ipa (cd : Codec G) (ev : V → G) (Ls Rs : List V) (log : List (Note V)) (n : Nat)
    (h : ∀ e ∈ log, Truthful cd ev e) :
    ∀ l ∈ ipaQueries cd.compress ev log n Ls Rs, ∀ e ∈ l, Truthful cd ev e := by
  have h' : ∀ e ∈ log ++ plain (headLog n), Truthful cd ev e := by
    intro e he
    simp only [List.mem_append, plain, headLog, List.map_cons, List.map_nil, List.mem_cons, List.not_mem_nil,
      or_false] at he
    rcases he with he | rfl | rfl
    · exact h e he
    · exact truthful_plain cd ev _ (by simp [pointBytes])
    · exact truthful_plain cd ev _ rfl
  intro l hl
  rw [ipaQueries, List.mem_cons] at hl
  rcases hl with rfl | hl
  · exact h'
  · exact truthful_rounds cd ev Ls Rs _ h' l hl

omit [AddCommGroup G] in
theorem truthful_alm (cd : Codec G) (ev : V → G) (log : List (Note V)) (n : Nat) (ro : Hash) (Q C : V) (t : F)
    (p : AlgAlm F V) (h : ∀ e ∈ log, Truthful cd ev e) :
    ∀ l ∈ almQueries ro cd.compress ev log n Q C t p, ∀ e ∈ l, Truthful cd ev e := by
  have h' : ∀ e ∈ log ++ betaNotes cd.compress ev p.C_r, Truthful cd ev e := by
    intro e he
    simp only [List.mem_append, betaNotes, List.mem_cons, List.not_mem_nil, or_false] at he
    rcases he with he | rfl | rfl
    · exact h e he
    · exact truthful_point cd ev "C_r" (by decide) _
    · exact truthful_plain cd ev _ rfl
  intro l hl
  rw [almQueries, List.mem_cons] at hl
  rcases hl with rfl | hl
  · exact h'
  · refine truthful_ipa cd ev _ _ _ _ ?_ l hl
    intro e he
    rcases List.mem_append.1 he with he | he
    · exact h' e he
    · rw [List.mem_singleton.1 he]
      exact truthful_plain cd ev _ (by simp [pointBytes])

end

/-! ### Coefficients -/
section
variable {F G : Type} [Field F] [AddCommGroup G] [Module F G] {n : Nat}

theorem dot_coeffG (u : Fin n → F) : dot (List.ofFn u) (coeffG F n) = ((u, 0, 0) : Coeffs F n) := by
  rw [coeffG, dot_ofFn]
  refine Prod.ext ?_ (Prod.ext ?_ ?_)
  · funext j
    simp [Prod.fst_sum, Finset.sum_apply, Pi.single_apply]
  · simp [Prod.snd_sum]
  · simp [Prod.snd_sum]

theorem dot_coeffH (u : Fin n → F) : dot (List.ofFn u) (coeffH F n) = ((0, u, 0) : Coeffs F n) := by
  rw [coeffH, dot_ofFn]
  refine Prod.ext ?_ (Prod.ext ?_ ?_)
  · simp [Prod.fst_sum]
  · funext j
    simp [Prod.fst_sum, Prod.snd_sum, Finset.sum_apply, Pi.single_apply]
  · simp [Prod.snd_sum]

omit [Field F] in
theorem exists_ofFn {u : List F} (h : u.length = n) : ∃ f : Fin n → F, u = List.ofFn f := by
  subst h
  exact ⟨u.get, (List.ofFn_get u).symm⟩

theorem coeff_value (u v : Fin n → F) (w : F) :
    dot (List.ofFn u) (coeffG F n) + dot (List.ofFn v) (coeffH F n) + w • coeffQ F n = (u, v, w) := by
  rw [dot_coeffG, dot_coeffH, coeffQ]
  simp

theorem coeff_free : Free (F := F) (coeffG F n) (coeffH F n) (coeffQ F n) := by
  rintro ⟨u, v, w⟩ ⟨h1, h2, ⟨y, hy, hy0⟩, h3⟩
  obtain ⟨u, rfl⟩ := exists_ofFn (n := n) (h1.trans (by simp [coeffG]))
  obtain ⟨v, rfl⟩ := exists_ofFn (n := n) (h2.trans (by simp [coeffH]))
  simp only at h3 hy
  rw [coeff_value] at h3
  simp only [Prod.mk_eq_zero] at h3
  obtain ⟨rfl, rfl, rfl⟩ := h3
  apply hy0
  simp only [List.mem_append, List.mem_ofFn, Pi.zero_apply, List.mem_singleton] at hy
  rcases hy with (⟨_, rfl⟩ | ⟨_, rfl⟩) | rfl <;> rfl

theorem ipaClaim_coeff (P : Coeffs F n) (t : F) :
    IpaClaim (coeffG F n) (coeffH F n) (coeffQ F n) P t ↔ P.2.2 = t ∧ P.1 ⬝ᵥ P.2.1 = t := by
  constructor
  · rintro ⟨a, b, h1, h2, h3, h4⟩
    obtain ⟨a, rfl⟩ := exists_ofFn (n := n) (h1.trans (by simp [coeffG]))
    obtain ⟨b, rfl⟩ := exists_ofFn (n := n) (h2.trans (by simp [coeffH]))
    rw [coeff_value] at h3
    subst h3
    rw [dot_ofFn] at h4
    exact ⟨rfl, h4⟩
  · rintro ⟨h1, h2⟩
    refine ⟨List.ofFn P.1, List.ofFn P.2.1, by simp [coeffG], by simp [coeffH], ?_, ?_⟩
    · rw [coeff_value, ← h1]
    · rw [dot_ofFn]; exact h2

theorem almClaim_coeff (C : Coeffs F n) (t : F) :
    AlmClaim (coeffG F n) (coeffH F n) C t ↔ C.2.2 = 0 ∧ C.1 ⬝ᵥ C.2.1 = t := by
  have e : ∀ u v : Fin n → F, dot (List.ofFn u) (coeffG F n) + dot (List.ofFn v) (coeffH F n) = (u, v, 0) := by
    intro u v
    rw [← coeff_value u v 0, zero_smul, add_zero]
  constructor
  · rintro ⟨a, b, h1, h2, h3, h4⟩
    obtain ⟨a, rfl⟩ := exists_ofFn (n := n) (h1.trans (by simp [coeffG]))
    obtain ⟨b, rfl⟩ := exists_ofFn (n := n) (h2.trans (by simp [coeffH]))
    rw [e] at h3
    subst h3
    rw [dot_ofFn] at h4
    exact ⟨rfl, h4⟩
  · rintro ⟨h1, h2⟩
    refine ⟨List.ofFn C.1, List.ofFn C.2.1, by simp [coeffG], by simp [coeffH], ?_, ?_⟩
    · rw [e, ← h1]
    · rw [dot_ofFn]; exact h2

theorem eval_coeffG (Gs Hs : Fin n → G) (Q : G) :
    (coeffG F n).map (evalCoeffs Gs Hs Q) = List.ofFn Gs := by
  rw [coeffG, List.map_ofFn]
  congr 1
  funext i
  simp [evalCoeffs, Pi.single_apply]

theorem eval_coeffH (Gs Hs : Fin n → G) (Q : G) :
    (coeffH F n).map (evalCoeffs Gs Hs Q) = List.ofFn Hs := by
  rw [coeffH, List.map_ofFn]
  congr 1
  funext i
  simp [evalCoeffs, Pi.single_apply]

theorem eval_coeffQ (Gs Hs : Fin n → G) (Q : G) : evalCoeffs Gs Hs Q (coeffQ F n) = Q := by
  simp [evalCoeffs, coeffQ]

end

/-! ### C67 -/
section
variable {F G : Type} [Field F] [DecidableEq F] [AddCommGroup G] [Module F G] [DecidableEq G]

/-- The vectors among which a non-trivial relation between the generators is found, when an algebraic prover
has a proof of a false claim accepted: the difference between the two sides of the verification equation, and
the differences between any two representations that were written down. -/
def ipaCandidates {n : Nat} (ro : Hash) (cd : Codec G) (Gs Hs : Fin n → G) (Q : G) (P : Coeffs F n) (t : F)
    (log : List (Note (Coeffs F n))) (asked : List (List (Note (Coeffs F n)))) (p : AlgIpa F (Coeffs F n)) :
    List (Coeffs F n) :=
  let ev := evalCoeffs Gs Hs Q
  ipaGap ro (log.map Prod.fst) (fun L => cd.compress (ev L)) (coeffG F n) (coeffH F n) (coeffQ F n) P t
      p.Ls p.Rs p.a p.b ::
    differences (notes (asked ++ ipaQueries cd.compress ev log n p.Ls p.Rs))

/-- C67: soundness of the inner-product argument in the random-oracle model, for algebraic provers. Fix the
statement `(P, t)` together with coefficients of `P` for which it is false. A prover that asks at most `T`
queries and writes down coefficients of every point it puts into a query or into its proof: for all but a
fraction `3 (T + q + 1) B / 2^512` of the hash functions, the proof is rejected, or one of the candidates is a
non-trivial relation between the generators. `B` is the number of byte strings that reduce to the same scalar
at most, so that `B / 2^512` is about the inverse of the group order (C67_scalars). -/
theorem C67_ipa_algebraic {q T B : Nat} (cd : Codec G) (Gs Hs : Fin (2 ^ q) → G) (Q : G)
    (P : Coeffs F (2 ^ q)) (t : F) (hP : ¬ (P.2.2 = t ∧ P.1 ⬝ᵥ P.2.1 = t))
    (log : List (Note (Coeffs F (2 ^ q)))) (hlog : ∀ e ∈ log, Truthful cd (evalCoeffs Gs Hs Q) e)
    (hB : ∀ c : F, Nat.card {v : Vector UInt8 64 // ((leNat v.toList : Nat) : F) = c} ≤ B)
    (A : Algo (Note (Coeffs F (2 ^ q))) (AlgIpa F (Coeffs F (2 ^ q)))) (hT : A.AtMost T)
    (hA : ∀ ro, ∀ l ∈ A.asked Prod.fst ro, ∀ e ∈ l, Truthful cd (evalCoeffs Gs Hs Q) e)
    (ro : Hash) (D : Finset (List Event))
    (hD : ∀ ro, ∀ l ∈ A.asked Prod.fst ro ++ ipaQueries cd.compress (evalCoeffs Gs Hs Q) log (2 ^ q)
      (A.run Prod.fst ro).Ls (A.run Prod.fst ro).Rs, l.map Prod.fst ∈ D) :
    chance ro D (fun ro =>
      let p := A.run Prod.fst ro
      (∃ tr', (p.proof cd.compress (evalCoeffs Gs Hs Q)).verify ⟨cd, ro⟩ ⟨log.map Prod.fst⟩ (List.ofFn Gs)
        (List.ofFn Hs) Q (2 ^ q) (evalCoeffs Gs Hs Q P) t = .ok (true, tr')) ∧
      ∀ c ∈ ipaCandidates ro cd Gs Hs Q P t log (A.asked Prod.fst ro) p, evalCoeffs Gs Hs Q c = 0 → c = 0) ≤
    ((T + (q + 1)) * (3 * B) : Nat) / 2 ^ 512 := by
  apply chance_le
  refine ipa_core cd.compress (evalCoeffs Gs Hs Q) (coeffG F _) (coeffH F _) (coeffQ F _) P t
    (by simp [coeffG]) (by simp [coeffH]) coeff_free (fun h => hP ((ipaClaim_coeff P t).1 h)) log hB A hT id ro D
    hD _ ?_
  rintro ro ⟨⟨tr', hv⟩, hc⟩
  set p := A.run Prod.fst ro
  have hver := (ipa_accepts_iff (q := q) ⟨cd, ro⟩ ⟨log.map Prod.fst⟩ (List.ofFn Gs) (List.ofFn Hs) Q
    (evalCoeffs Gs Hs Q P) t (p.Ls.map (evalCoeffs Gs Hs Q)) (p.Rs.map (evalCoeffs Gs Hs Q)) p.a p.b (by simp)
    (by simp)).1 ⟨tr', by
      rw [List.map_map, List.map_map]
      exact hv⟩
  obtain ⟨h1, -, h2⟩ := hver
  refine ⟨?_, by simpa using h1, ?_⟩
  · apply noConflict_of_truthful cd (evalCoeffs Gs Hs Q)
    · intro l hl
      rcases List.mem_append.1 hl with hl | hl
      · exact hA ro l hl
      · exact truthful_ipa cd _ _ _ _ _ hlog l hl
    · exact fun c h => hc c (List.mem_cons_of_mem _ h)
  · refine hc _ List.mem_cons_self ?_
    rw [map_ipaGap, eval_coeffG, eval_coeffH, eval_coeffQ]
    exact h2

/-- C68: the same for AlmZK. The candidates. -/
def almCandidates {n : Nat} (ro : Hash) (cd : Codec G) (Gs Hs : Fin n → G) (Q : G) (C : Coeffs F n) (t : F)
    (log : List (Note (Coeffs F n))) (asked : List (List (Note (Coeffs F n)))) (p : AlgAlm F (Coeffs F n)) :
    List (Coeffs F n) :=
  let ev := evalCoeffs Gs Hs Q
  almGap ro (log.map Prod.fst) (fun L => cd.compress (ev L)) (coeffG F n) (coeffH F n) (coeffQ F n) C t p ::
    differences (notes (asked ++ almQueries ro cd.compress ev log n (coeffQ F n) C t p))

omit [DecidableEq F] [DecidableEq G] in
theorem map_almGap {V : Type} [AddCommGroup V] [Module F V] (ev : V →ₗ[F] G) (ro : Hash) (log : List Event)
    (cmp : G → Comp) (Gs Hs : List V) (Q C : V) (t : F) (p : AlgAlm F V) :
    ev (almGap ro log (fun L => cmp (ev L)) Gs Hs Q C t p) =
      almGap ro log cmp (Gs.map ev) (Hs.map ev) (ev Q) (ev C) t
        ⟨ev p.C_r, ⟨p.ipa.Ls.map ev, p.ipa.Rs.map ev, p.ipa.a, p.ipa.b⟩⟩ := by
  unfold almGap
  simp only [map_ipaGap, map_add, map_smul]

omit [DecidableEq F] in
theorem alm_accepts_iff {q : Nat} (cx : Ctx G) (tr : Transcript) (Gs Hs : List G) (Q C : G) (t : F)
    (p : AlgAlm F G) (hG : Gs.length = 2 ^ q) (hH : Hs.length = 2 ^ q) :
    (∃ tr', (p.proof cx.compress id).verify cx tr Gs Hs Q (2 ^ q) C t = .ok (true, tr')) ↔
      p.ipa.Ls.length = q ∧ q < 64 ∧ almGap cx.ro tr.log cx.compress Gs Hs Q C t p = 0 := by
  rw [alm_verify_eq cx _ tr Gs Hs Q _ C t p.C_r rfl]
  exact ipa_accepts_iff cx _ Gs Hs Q _ _ p.ipa.Ls p.ipa.Rs p.ipa.a p.ipa.b hG hH

/-- C68: soundness of AlmZK in the random-oracle model, for algebraic provers. Fix the statement `(C_w, t)`
together with coefficients of `C_w` for which it is false: `Q` occurs, or the inner product of the two
vectors is not `t`. For all but a fraction `3 (T + q + 2) B / 2^512` of the hash functions, the proof is
rejected, or one of the candidates is a non-trivial relation between the generators. -/
theorem C68_alm_algebraic {q T B : Nat} (cd : Codec G) (Gs Hs : Fin (2 ^ q) → G) (Q : G)
    (C : Coeffs F (2 ^ q)) (t : F) (hC : ¬ (C.2.2 = 0 ∧ C.1 ⬝ᵥ C.2.1 = t))
    (log : List (Note (Coeffs F (2 ^ q)))) (hlog : ∀ e ∈ log, Truthful cd (evalCoeffs Gs Hs Q) e)
    (hB : ∀ c : F, Nat.card {v : Vector UInt8 64 // ((leNat v.toList : Nat) : F) = c} ≤ B)
    (A : Algo (Note (Coeffs F (2 ^ q))) (AlgAlm F (Coeffs F (2 ^ q)))) (hT : A.AtMost T)
    (hA : ∀ ro, ∀ l ∈ A.asked Prod.fst ro, ∀ e ∈ l, Truthful cd (evalCoeffs Gs Hs Q) e)
    (ro : Hash) (D : Finset (List Event))
    (hD : ∀ ro, ∀ l ∈ A.asked Prod.fst ro ++ almQueries ro cd.compress (evalCoeffs Gs Hs Q) log (2 ^ q)
      (coeffQ F _) C t (A.run Prod.fst ro), l.map Prod.fst ∈ D) :
    chance ro D (fun ro =>
      let p := A.run Prod.fst ro
      (∃ tr', (p.proof cd.compress (evalCoeffs Gs Hs Q)).verify ⟨cd, ro⟩ ⟨log.map Prod.fst⟩ (List.ofFn Gs)
        (List.ofFn Hs) Q (2 ^ q) (evalCoeffs Gs Hs Q C) t = .ok (true, tr')) ∧
      ∀ c ∈ almCandidates ro cd Gs Hs Q C t log (A.asked Prod.fst ro) p, evalCoeffs Gs Hs Q c = 0 → c = 0) ≤
    ((T + (q + 2)) * (3 * B) : Nat) / 2 ^ 512 := by
  apply chance_le
  refine alm_core cd.compress (evalCoeffs Gs Hs Q) (coeffG F _) (coeffH F _) (coeffQ F _) C t
    (by simp [coeffG]) (by simp [coeffH]) coeff_free (fun h => hC ((almClaim_coeff C t).1 h)) log hB A hT id ro D
    hD _ ?_
  rintro ro ⟨⟨tr', hv⟩, hc⟩
  set p := A.run Prod.fst ro
  have hver := (alm_accepts_iff (q := q) ⟨cd, ro⟩ ⟨log.map Prod.fst⟩ (List.ofFn Gs) (List.ofFn Hs) Q
    (evalCoeffs Gs Hs Q C) t ⟨evalCoeffs Gs Hs Q p.C_r, ⟨p.ipa.Ls.map (evalCoeffs Gs Hs Q),
      p.ipa.Rs.map (evalCoeffs Gs Hs Q), p.ipa.a, p.ipa.b⟩⟩ (by simp) (by simp)).1 ⟨tr', by
      unfold AlgAlm.proof AlgIpa.proof at hv ⊢
      simp only [List.map_map]
      exact hv⟩
  obtain ⟨h1, -, h2⟩ := hver
  refine ⟨?_, by simpa using h1, ?_⟩
  · apply noConflict_of_truthful cd (evalCoeffs Gs Hs Q)
    · intro l hl
      rcases List.mem_append.1 hl with hl | hl
      · exact hA ro l hl
      · exact truthful_alm cd _ _ _ _ _ _ _ _ hlog l hl
    · exact fun c h => hc c (List.mem_cons_of_mem _ h)
  · refine hc _ List.mem_cons_self ?_
    rw [map_almGap, eval_coeffG, eval_coeffH, eval_coeffQ]
    exact h2

omit [Field F] [DecidableEq F] [AddCommGroup G] [Module F G] [DecidableEq G] in
/-- C67: for every prover there is a finite set of histories as in C67_ipa_algebraic. -/
theorem C67_domain {V : Type} (cmp : G → Comp) (ev : V → G) (log : List (Note V)) (n : Nat)
    (A : Algo (Note V) (AlgIpa F V)) :
    ∃ D : Finset (List Event), ∀ ro, ∀ l ∈ A.asked Prod.fst ro ++ ipaQueries cmp ev log n
      (A.run Prod.fst ro).Ls (A.run Prod.fst ro).Rs, l.map Prod.fst ∈ D := by
  obtain ⟨D, hD⟩ := exists_domain Prod.fst
    (fun _ p => (ipaQueries cmp ev log n p.Ls p.Rs).map (List.map Prod.fst)) (by
      intro p
      simp only [exists_const]
      exact List.finite_toSet _) A
  refine ⟨D, fun ro l hl => ?_⟩
  rcases List.mem_append.1 hl with hl | hl
  · exact (hD ro).1 l hl
  · exact (hD ro).2 _ (List.mem_map_of_mem hl)

omit [DecidableEq F] [AddCommGroup G] [Module F G] [DecidableEq G] in
/-- C68: for every prover there is a finite set of histories as in C68_alm_algebraic. -/
theorem C68_domain {V : Type} [AddCommGroup V] [Module F V] (cmp : G → Comp) (ev : V → G)
    (log : List (Note V)) (n : Nat) (Q C : V) (t : F) (A : Algo (Note V) (AlgAlm F V)) :
    ∃ D : Finset (List Event), ∀ ro, ∀ l ∈ A.asked Prod.fst ro ++ almQueries ro cmp ev log n Q C t
      (A.run Prod.fst ro), l.map Prod.fst ∈ D := by
  obtain ⟨D, hD⟩ := exists_domain Prod.fst
    (fun ro p => (almQueries ro cmp ev log n Q C t p).map (List.map Prod.fst)) (by
      intro p
      let f : Vector UInt8 64 → List (List Event) := fun v =>
        (almQueries (fun _ => v) cmp ev log n Q C t p).map (List.map Prod.fst)
      refine (Set.finite_iUnion fun v => List.finite_toSet (f v)).subset ?_
      rintro l ⟨ro, hl⟩
      exact Set.mem_iUnion.2 ⟨_, hl⟩) A
  refine ⟨D, fun ro l hl => ?_⟩
  rcases List.mem_append.1 hl with hl | hl
  · exact (hD ro).1 l hl
  · exact (hD ro).2 _ (List.mem_map_of_mem hl)

end

/-- C67: the bound `B` for scalars modulo `ℓ`. -/
theorem C67_scalars (l : Nat) [NeZero l] (c : ZMod l) :
    Nat.card {v : Vector UInt8 64 // ((leNat v.toList : Nat) : ZMod l) = c} ≤ 2 ^ 512 / l + 1 := by
  rw [C10_almost_uniform]
  split <;> omega

theorem bound_aux (k l N : Nat) (hN : 0 < N) :
    ((k * (N / l + 1) : Nat) : ℚ) / N ≤ k * (1 / l + 1 / N) := by
  rcases Nat.eq_zero_or_pos l with rfl | hl
  · rw [Nat.div_zero]
    apply le_of_eq
    simp
    ring
  have hN' : (0 : ℚ) < N := by exact_mod_cast hN
  have hl' : (0 : ℚ) < l := by exact_mod_cast hl
  have h : ((N / l : Nat) : ℚ) * l ≤ N := by exact_mod_cast Nat.div_mul_le_self N l
  rw [Nat.cast_mul, Nat.cast_add, Nat.cast_one, mul_div_assoc]
  refine mul_le_mul_of_nonneg_left ?_ (Nat.cast_nonneg _)
  rw [add_div]
  refine add_le_add ?_ le_rfl
  rw [div_le_div_iff₀ hN' hl', one_mul]
  exact h

/-- C67: with this `B`, the bounds of C67 and C68 in terms of the group order: `k B / 2^512` is at most
`k (1/ℓ + 2^-512)`. -/
theorem C67_bound (k l : Nat) :
    ((k * (2 ^ 512 / l + 1) : Nat) : ℚ) / 2 ^ 512 ≤ k * (1 / l + 1 / 2 ^ 512) := by
  have := bound_aux k l (2 ^ 512) (Nat.two_pow_pos 512)
  simpa only [Nat.cast_pow, Nat.cast_ofNat] using this

/-! ### Examples -/
section
open Toy

/-- A prover of the inner-product argument: it looks at `alpha` and answers with points that depend on it. -/
def exProver : Algo (Note (Coeffs K (2 ^ 1))) (AlgIpa K (Coeffs K (2 ^ 1))) :=
  .ask (plain (headLog 2)) fun v =>
    let α : K := (leNat v.toList : Nat)
    .done ⟨[(![α, 0], 0, 1)], [(0, ![0, α], 2)], α, 1⟩

/-- `3 G₀ + 5 H₀ + 7 Q`. -/
def exClaim : Coeffs K (2 ^ 1) := (![3, 0], ![5, 0], 7)

/-- C67 for this prover and the false claim that `3 G₀ + 5 H₀ + 7 Q` is a commitment to two vectors with
product 7. -/
example (Gs Hs : Fin (2 ^ 1) → K) (Q : K) (ro : Hash) : ∃ D : Finset (List Event),
    chance ro D (fun ro =>
      let p := exProver.run Prod.fst ro
      (∃ tr', (p.proof codec.compress (evalCoeffs (F := K) Gs Hs Q)).verify ⟨codec, ro⟩ ⟨[]⟩ (List.ofFn Gs)
        (List.ofFn Hs) Q (2 ^ 1) (evalCoeffs Gs Hs Q exClaim) 7 = .ok (true, tr')) ∧
      ∀ c ∈ ipaCandidates ro codec Gs Hs Q exClaim 7 [] (exProver.asked Prod.fst ro) p,
        evalCoeffs Gs Hs Q c = 0 → c = 0) ≤ 9 * (1 / 101 + 1 / 2 ^ 512) := by
  obtain ⟨D, hD⟩ := C67_domain codec.compress (evalCoeffs (F := K) Gs Hs Q) [] (2 ^ 1) exProver
  refine ⟨D, ?_⟩
  have := C67_ipa_algebraic (T := 1) (F := K) codec Gs Hs Q exClaim 7 (by decide +kernel) []
    (by simp) (fun c => C67_scalars 101 c) exProver (fun _ => True.intro) (by
      intro ro l hl e he
      simp only [exProver, Algo.asked, List.mem_singleton] at hl
      subst hl
      simp only [plain, headLog, List.map_cons, List.map_nil, List.mem_cons, List.not_mem_nil, or_false] at he
      rcases he with rfl | rfl
      · exact truthful_plain _ _ _ (by simp [pointBytes])
      · exact truthful_plain _ _ _ rfl) ro D hD
  refine this.trans ?_
  rw [show ∀ B, (1 + (1 + 1)) * (3 * B) = 9 * B from fun B => by omega]
  exact C67_bound 9 101

/-- A prover of AlmZK: it commits to some mask, looks at `beta` and answers with points that depend on it. -/
def exAlmProver (Gs Hs : Fin (2 ^ 1) → K) (Q : K) :
    Algo (Note (Coeffs K (2 ^ 1))) (AlgAlm K (Coeffs K (2 ^ 1))) :=
  .ask (betaNotes codec.compress (evalCoeffs (F := K) Gs Hs Q) (![1, 2], ![3, 4], 5)) fun v =>
    let β : K := (leNat v.toList : Nat)
    .done ⟨(![1, 2], ![3, 4], 5), ⟨[(![β, 0], 0, 1)], [(0, ![0, β], 2)], β, 1⟩⟩

/-- `3 G₀ + 5 H₀`. -/
def exAlmClaim : Coeffs K (2 ^ 1) := (![3, 0], ![5, 0], 0)

/-- C68 for this prover and the false claim that the two vectors committed to by `3 G₀ + 5 H₀` have product 16. -/
example (Gs Hs : Fin (2 ^ 1) → K) (Q : K) (ro : Hash) : ∃ D : Finset (List Event),
    chance ro D (fun ro =>
      let p := (exAlmProver Gs Hs Q).run Prod.fst ro
      (∃ tr', (p.proof codec.compress (evalCoeffs (F := K) Gs Hs Q)).verify ⟨codec, ro⟩ ⟨[]⟩ (List.ofFn Gs)
        (List.ofFn Hs) Q (2 ^ 1) (evalCoeffs Gs Hs Q exAlmClaim) 16 = .ok (true, tr')) ∧
      ∀ c ∈ almCandidates ro codec Gs Hs Q exAlmClaim 16 [] ((exAlmProver Gs Hs Q).asked Prod.fst ro) p,
        evalCoeffs Gs Hs Q c = 0 → c = 0) ≤ 12 * (1 / 101 + 1 / 2 ^ 512) := by
  obtain ⟨D, hD⟩ := C68_domain codec.compress (evalCoeffs (F := K) Gs Hs Q) [] (2 ^ 1) (coeffQ K _) exAlmClaim 16
    (exAlmProver Gs Hs Q)
  refine ⟨D, ?_⟩
  have := C68_alm_algebraic (T := 1) (F := K) codec Gs Hs Q exAlmClaim 16 (by decide +kernel) []
    (by simp) (fun c => C67_scalars 101 c) (exAlmProver Gs Hs Q) (fun _ => True.intro) (by
      intro ro l hl e he
      simp only [exAlmProver, Algo.asked, List.mem_singleton] at hl
      subst hl
      simp only [betaNotes, List.mem_cons, List.not_mem_nil, or_false] at he
      rcases he with rfl | rfl
      · exact truthful_point _ _ "C_r" (by decide) _
      · exact truthful_plain _ _ _ rfl) ro D hD
  refine this.trans ?_
  rw [show ∀ B, (1 + (1 + 2)) * (3 * B) = 12 * B from fun B => by omega]
  exact C67_bound 12 101

end
end Qesa.Props
