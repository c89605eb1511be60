import Verif.SpecQesaAny
import Verif.Proofs.QesaAny
import Verif.Props.QesaOracle
/-
C89: what an accepted proof of QESA says in the random-oracle model, for all algebraic provers.
-/
namespace Qesa.Props
open Qesa Spec Ipa

section
variable {F G V : Type} [Field F] [DecidableEq F] [AddCommGroup V] [Module F V] {m k : Nat}

theorem any_core {α : Type} {q B T N : Nat} (hq : m + 3 = 2 ^ q) (cmp : G → Comp) (ev : V → G) (Gs Hs : List V)
    (Q : V) (hG : Gs.length = m + 3) (hH : Hs.length = m + 3) (hf : Free (F := F) Gs Hs Q)
    (Ms : Fin k → Matrix (Fin (m + 1)) (Fin (m + 1)) F) (P : Plan F V) (hN : m + 3 ≤ N)
    (h1 : ∀ C', P.first C' → ∃ B : Finset F, B.card ≤ N ∧ ∀ x, P.lucky C' x → x ∈ B)
    (h2 : ∀ C' x C'', ¬ P.lucky C' x → P.second C' x C'' →
      x ≠ 0 ∧ ¬ QesaClaim (batched (m + 3) Ms x) x Gs Hs (C' + C'')) (log : List (Note V))
    (hB : ∀ c : F, Nat.card {v : Vector UInt8 64 // ((leNat v.toList : Nat) : F) = c} ≤ B)
    (A : Algo (Note V) α) (hT : A.AtMost T) (out : α → AlgQesa F V) (ro : Hash) (D : Finset (List Event))
    (hD : ∀ ro, ∀ l ∈ A.asked Prod.fst ro ++
      qesaQueries ro cmp ev log Gs Hs Q Ms (out (A.run Prod.fst ro)), l.map Prod.fst ∈ D)
    (Win : Hash → Prop)
    (hWin : ∀ ro, Win ro → let p := out (A.run Prod.fst ro)
      NoConflict (A.asked Prod.fst ro ++ qesaQueries ro cmp ev log Gs Hs Q Ms p) ∧
      p.alm.ipa.Ls.length = q ∧ P.first p.C' ∧
      P.second p.C' (qesaX F ro (log.map Prod.fst) (cmp (ev p.C'))) p.C'' ∧
      qesaGap ro (log.map Prod.fst) (fun L => cmp (ev L)) Gs Hs Q Ms p = 0) :
    countHashes ro D Win * 2 ^ 512 ≤ (T + (q + 5)) * (N * B) * (2 ^ 512) ^ D.card := by
  set vf : α → Algo (Note V) α := fun o => qesaAsk cmp ev log Gs Hs Q (q + 1) Ms (out o) o with hvf
  have hask : ∀ ro, (A.andThen vf).asked Prod.fst ro = A.asked Prod.fst ro ++
      (qesaQueries ro cmp ev log Gs Hs Q Ms (out (A.run Prod.fst ro))).take (q + 5) := by
    intro ro
    rw [Algo.asked_andThen, hvf, qesaAsk_asked]
  refine (anyMachine_sound cmp ev hq Gs Hs Q hG hH hf Ms P hN h1 h2).count Prod.fst hB ro D (A.andThen vf)
    (T + (q + 5)) ?_ ?_ .first log (fun h => h) Win ?_
  · refine Algo.andThen_atMost vf (q + 5) (fun o => ?_) _ _ hT
    exact qesaAsk_atMost cmp ev log Gs Hs Q (q + 1) Ms (out o) o
  · intro f l hl
    rw [hask] at hl
    apply hD (patch ro D f)
    rcases List.mem_append.1 hl with hl | hl
    · exact List.mem_append_left _ hl
    · exact List.mem_append_right _ (List.mem_of_mem_take hl)
  · intro ro hw
    obtain ⟨hc, hl, hC', hC'', hg⟩ := hWin ro hw
    rw [hask]
    constructor
    · apply hc.mono
      intro l hl
      rcases List.mem_append.1 hl with hl | hl
      · exact List.mem_append_left _ hl
      · exact List.mem_append_right _ (List.mem_of_mem_take hl)
    · obtain ⟨ls, s', hp, hs, hm⟩ := any_path cmp ev hq Gs Hs Q hG hH Ms P ro log _ hC' hC'' hl hg
      refine ⟨ls, s', hp, hs, fun l h => List.mem_append_right _ ?_⟩
      rw [List.take_of_length_le]
      · exact hm l h
      · simp only [qesaQueries, almQueries, ipaQueries, List.length_cons]
        have := roundQueries_length cmp ev (out (A.run Prod.fst ro)).alm.ipa.Ls
          (out (A.run Prod.fst ro)).alm.ipa.Rs
        rw [hl] at this
        simpa using this _

end

section
variable {F : Type} [Field F] {m k : Nat}

theorem quad_update (M : Matrix (Fin (m + 1)) (Fin (m + 1)) F) (v : Fin (m + 1) → F) (t : F) :
    quad M (v + t • Pi.single 0 1) = quad M v + t * slope M v + t ^ 2 * M 0 0 := by
  rw [Inner.quad_eq, Inner.quad_eq, Matrix.mulVec_add, Matrix.mulVec_smul, add_dotProduct, dotProduct_add,
    dotProduct_add, smul_dotProduct, smul_dotProduct, dotProduct_smul, dotProduct_smul]
  simp only [Matrix.mulVec_single_one, single_one_dotProduct, smul_eq_mul, slope, Matrix.col_apply]
  rw [show (M.mulVec v) 0 = ∑ i, M 0 i * v i from rfl,
    show v ⬝ᵥ M.col 0 = ∑ i, v i * M i 0 from rfl]
  have : ∑ i, (M 0 i + M i 0) * v i = ∑ i, M 0 i * v i + ∑ i, v i * M i 0 := by
    rw [← Finset.sum_add_distrib]
    exact Finset.sum_congr rfl fun i _ => by ring
  rw [this]
  ring

theorem shifted_eq (x : F) (w : Fin (m + 1) → F) :
    shifted x w = Function.update w 0 1 + (x ^ 2 * (w 0 - 1)) • Pi.single 0 1 := by
  funext i
  by_cases hi : i = 0
  · subst hi; simp [shifted]
  · simp [shifted, hi]

theorem quad_seen (n : Nat) (Ms : Fin k → Matrix (Fin m) (Fin m) F) (x : F) (w : Fin m → F) :
    quad (batched n Ms x) w = ∑ j ∈ Finset.range n, x ^ (j + 1) * quad (seen n Ms j) w := by
  rw [C27_batched_quad]
  have := sum_swap k n (fun j => if hj : j < k then x ^ (j + 1) * quad (Ms ⟨j, hj⟩) w else 0)
  simp only [Fin.is_lt, dite_true, Fin.eta] at this
  rw [this, Fin.sum_univ_eq_sum_range (fun j => if j < k then
    (if hj : j < k then x ^ (j + 1) * quad (Ms ⟨j, hj⟩) w else 0) else 0) n]
  apply Finset.sum_congr rfl
  intro j hj
  have hj' : j < n := Finset.mem_range.1 hj
  by_cases hk : j < k
  · simp [seen, hk, hj']
  · simp [seen, hk, quad]

theorem seen_beyond (n : Nat) (Ms : Fin k → Matrix (Fin m) (Fin m) F) {j : Nat} (h : n ≤ j) :
    seen n Ms j = 0 := by
  rw [seen, dif_neg (by omega)]

/-- C89: the equation that the verifier checks is the equation with coefficients `drift`. -/
theorem C89_drift (n : Nat) (Ms : Fin k → Matrix (Fin (m + 1)) (Fin (m + 1)) F) (x : F) (w : Fin (m + 1) → F) :
    quad (batched n Ms x) (shifted x w) = ∑ j ∈ Finset.range (n + 4), x ^ (j + 1) * drift n Ms w j := by
  have e : ∀ (f : Nat → F), (∀ j, n ≤ j → f j = 0) → ∀ i, ∑ j ∈ Finset.range (n + i), f j =
      ∑ j ∈ Finset.range n, f j := by
    intro f hf i
    induction i with
    | zero => rfl
    | succ i ih => rw [← Nat.add_assoc, Finset.sum_range_succ, ih, hf _ (by omega), add_zero]
  simp only [drift, mul_add, Finset.sum_add_distrib]
  rw [quad_seen]
  simp only [shifted_eq, quad_update, mul_add, Finset.sum_add_distrib]
  congr 1
  · congr 1
    · rw [e _ (fun j hj => by rw [seen_beyond n Ms hj]; simp [quad])]
    · rw [Finset.sum_range_succ', Finset.sum_range_succ']
      simp only [Nat.not_ofNat_le_one, nonpos_iff_eq_zero, OfNat.ofNat_ne_zero, if_false, mul_zero, add_zero,
        zero_add, show ∀ j : Nat, 2 ≤ j + 1 + 1 from fun j => by omega, if_true,
        show ∀ j : Nat, j + 1 + 1 - 2 = j from fun j => by omega]
      rw [e _ (fun j hj => by rw [seen_beyond n Ms hj]; simp [slope])]
      exact Finset.sum_congr rfl fun j _ => by ring
  · rw [Finset.sum_range_succ', Finset.sum_range_succ', Finset.sum_range_succ', Finset.sum_range_succ']
    simp only [show ¬ 4 ≤ 0 + 1 + 1 + 1 from by omega, show ¬ 4 ≤ 0 + 1 + 1 from by omega,
      show ¬ 4 ≤ 0 + 1 from by omega, show ¬ 4 ≤ 0 from by omega, if_false, mul_zero, add_zero,
      show ∀ j : Nat, 4 ≤ j + 1 + 1 + 1 + 1 from fun j => by omega, if_true,
      show ∀ j : Nat, j + 1 + 1 + 1 + 1 - 4 = j from fun j => by omega]
    have := e (fun j => x ^ (j + 1 + 1 + 1 + 1 + 1) * ((w 0 - 1) ^ 2 * seen n Ms j 0 0))
      (fun j hj => by rw [seen_beyond n Ms hj]; simp) 0
    exact Finset.sum_congr rfl fun j _ => by ring

theorem drift_beyond (n : Nat) (Ms : Fin k → Matrix (Fin (m + 1)) (Fin (m + 1)) F) (w : Fin (m + 1) → F) {j : Nat}
    (h : n + 4 ≤ j) : drift n Ms w j = 0 := by
  simp only [drift]
  rw [seen_beyond n Ms (by omega), seen_beyond n Ms (show n ≤ j - 2 by omega),
    seen_beyond n Ms (show n ≤ j - 4 by omega)]
  simp [quad, slope]

/-- C89: for a vector with first component one these are the equations themselves. -/
theorem C89_drift_one (n : Nat) (Ms : Fin k → Matrix (Fin (m + 1)) (Fin (m + 1)) F) (w : Fin (m + 1) → F)
    (h : w 0 = 1) : (∀ j, drift n Ms w j = 0) ↔ ∀ i : Fin k, i.val < n → quad (Ms i) w = 0 := by
  have e : ∀ j, drift n Ms w j = quad (seen n Ms j) w := by
    intro j
    simp only [drift, h, sub_self, zero_mul, ne_eq, OfNat.ofNat_ne_zero, not_false_eq_true, zero_pow, ite_self,
      add_zero]
    congr 1
    rw [← h, Function.update_eq_self]
  simp only [e]
  constructor
  · intro H i hi
    have := H i
    rwa [seen, dif_pos ⟨i.2, hi⟩] at this
  · intro H j
    by_cases hj : j < k ∧ j < n
    · rw [seen, dif_pos hj]
      exact H _ hj.2
    · rw [seen, dif_neg hj]
      simp [quad]

theorem few_drift (n : Nat) (Ms : Fin k → Matrix (Fin (m + 1)) (Fin (m + 1)) F) (w : Fin (m + 1) → F)
    (h : ∃ j, drift n Ms w j ≠ 0) :
    ∃ B : Finset F, B.card ≤ n + 4 ∧ ∀ x, x = 0 ∨ quad (batched n Ms x) (shifted x w) = 0 → x ∈ B := by
  refine few_of_no_injection (n + 4) (fun x => x = 0 ∨ quad (batched n Ms x) (shifted x w) = 0) ?_
  rintro ⟨x, hx, h'⟩
  obtain ⟨j, hj⟩ := h
  have hlt : j < n + 4 := by
    by_contra hge
    exact hj (drift_beyond n Ms w (by omega))
  obtain ⟨-, hz⟩ := coeffs_zero (m := n + 4) 0 (fun j => drift n Ms w j) x hx (by
    intro l
    rw [Fin.sum_univ_eq_sum_range (fun j => x l ^ (j + 1) * drift n Ms w j) (n + 4)]
    rcases h' l with h0 | h0
    · rw [h0]
      exact (Finset.sum_eq_zero fun j _ => by simp).symm
    · rw [← C89_drift, h0])
  exact hj (hz ⟨j, hlt⟩)

/-- A commitment on the generators to a solution of the batched equation, in coefficients. -/
theorem claim_coeffs (M : Matrix (Fin (m + 1)) (Fin (m + 1)) F) {x : F} (hx : x ≠ 0) (C : Coeffs F (m + 3))
    (h : QesaClaim M x (coeffG F _) (coeffH F _) C) :
    let u := shifted x fun j => C.1 (Fin.castAdd 2 j)
    quad M u = 0 ∧ (∀ j, C.2.1 (Fin.castAdd 2 j) = M.mulVec u j) ∧ C.2.1 ⟨m + 1, by omega⟩ = - C.1 ⟨m + 2, by omega⟩ ∧
      C.2.1 ⟨m + 2, by omega⟩ = C.1 ⟨m + 1, by omega⟩ ∧ C.2.2 = 0 := by
  obtain ⟨u, r0, r1, hu, hC⟩ := h
  have hx2 : x ^ 2 ≠ 0 := pow_ne_zero 2 hx
  have key : ∀ (a : Fin (m + 1) → F) (b c : F), ∃ f : Fin (m + 3) → F, List.ofFn a ++ [b, c] = List.ofFn f ∧
      (∀ j, f (Fin.castAdd 2 j) = a j) ∧ f ⟨m + 1, by omega⟩ = b ∧ f ⟨m + 2, by omega⟩ = c := by
    intro a b c
    refine ⟨fun i => if h : i.val < m + 1 then a ⟨i, h⟩ else if i.val = m + 1 then b else c, ?_, ?_, ?_, ?_⟩
    · rw [ofFn_split]
      simp
    · intro j
      exact dif_pos j.2
    · simp
    · simp
  have hresc : dot (List.ofFn u ++ [r0, r1]) (rescaled (x ^ 2) (coeffG F (m + 3))) +
      (1 - (x ^ 2)⁻¹) • (coeffG F (m + 3)).headD 0 =
      dot (List.ofFn (Function.update u 0 (u 0 * (x ^ 2)⁻¹ + (1 - (x ^ 2)⁻¹))) ++ [r0, r1]) (coeffG F (m + 3)) := by
    obtain ⟨g0, Gs0, hGs⟩ : ∃ g0 Gs0, coeffG F (m + 3) = g0 :: Gs0 := ⟨_, _, List.ofFn_succ⟩
    rw [hGs, rescaled, List.ofFn_succ, List.ofFn_succ]
    simp only [List.cons_append, dot_cons, List.headD_cons, Function.update_self, ne_eq, Fin.succ_ne_zero,
      not_false_eq_true, Function.update_of_ne, smul_smul, add_smul]
    abel
  obtain ⟨f, hf, f1, f2, f3⟩ := key (Function.update u 0 (u 0 * (x ^ 2)⁻¹ + (1 - (x ^ 2)⁻¹))) r0 r1
  obtain ⟨g, hg, g1, g2, g3⟩ := key (M.mulVec u) (-r1) r0
  rw [hresc, hf, hg, dot_coeffG, dot_coeffH] at hC
  have c1 : C.1 = f := by rw [hC]; simp
  have c2 : C.2.1 = g := by rw [hC]; simp
  have c3 : C.2.2 = 0 := by rw [hC]; simp
  have hu' : (shifted x fun j => C.1 (Fin.castAdd 2 j)) = u := by
    funext j
    by_cases hj : j = 0
    · subst hj
      simp only [shifted, Function.update_self, c1, f1]
      field_simp
      ring
    · simp only [shifted, ne_eq, hj, not_false_eq_true, Function.update_of_ne, c1, f1]
  intro u'
  rw [show u' = u from hu', c1, c2]
  exact ⟨hu, g1, by rw [g2, f3], by rw [g3, f2], c3⟩

end

section
variable {F G : Type} [Field F] [DecidableEq F] [AddCommGroup G] [Module F G] [DecidableEq G] {m k : Nat}

omit [DecidableEq F] in
theorem any_win {q : Nat} (hq : m + 3 = 2 ^ q) (cd : Codec G) (Gs Hs : Fin (m + 3) → G) (Q : G)
    (Ms : Fin (k + 1) → Matrix (Fin (m + 1)) (Fin (m + 1)) F)
    (log : List (Note (Coeffs F (m + 3)))) (hlog : ∀ e ∈ log, Truthful cd (evalCoeffs Gs Hs Q) e)
    (asked : List (List (Note (Coeffs F (m + 3)))))
    (hA : ∀ l ∈ asked, ∀ e ∈ l, Truthful cd (evalCoeffs Gs Hs Q) e) (ro : Hash)
    (p : AlgQesa F (Coeffs F (m + 3)))
    (hv : ∃ tr', (p.proof cd.compress (evalCoeffs Gs Hs Q)).verify ⟨cd, ro⟩ ⟨log.map Prod.fst⟩ (List.ofFn Gs)
        (List.ofFn Hs) Q ⟨List.ofFn fun i => rows (Ms i)⟩ = .ok (true, tr'))
    (hc : ∀ c ∈ qesaCandidates ro cd Gs Hs Q Ms log asked p, evalCoeffs Gs Hs Q c = 0 → c = 0) :
    NoConflict (asked ++ qesaQueries ro cd.compress (evalCoeffs Gs Hs Q) log (coeffG F _) (coeffH F _)
      (coeffQ F _) Ms p) ∧ p.alm.ipa.Ls.length = q ∧
    qesaGap ro (log.map Prod.fst) (fun L => cd.compress (evalCoeffs Gs Hs Q L)) (coeffG F _) (coeffH F _)
      (coeffQ F _) Ms p = 0 := by
  obtain ⟨tr', hv⟩ := hv
  have hver := (qesa_accepts_iff (m := m + 1) (q := q) (Nat.succ_pos m) hq ⟨cd, ro⟩ ⟨log.map Prod.fst⟩
    (List.ofFn Gs) (List.ofFn Hs) Q Ms
    ⟨evalCoeffs Gs Hs Q p.C', evalCoeffs Gs Hs Q p.C'', ⟨evalCoeffs Gs Hs Q p.alm.C_r,
      ⟨p.alm.ipa.Ls.map (evalCoeffs Gs Hs Q), p.alm.ipa.Rs.map (evalCoeffs Gs Hs Q), p.alm.ipa.a,
        p.alm.ipa.b⟩⟩⟩ (by simp) (by simp)).1 ⟨tr', by
      unfold AlgQesa.proof AlgAlm.proof AlgIpa.proof at hv ⊢
      simp only [List.map_map]
      exact hv⟩
  obtain ⟨h1, -, h2⟩ := hver
  refine ⟨?_, by simpa using h1, ?_⟩
  · apply noConflict_of_truthful cd (evalCoeffs Gs Hs Q)
    · intro l hl
      rcases List.mem_append.1 hl with hl | hl
      · exact hA l hl
      · exact truthful_qesa cd _ _ _ _ _ _ _ _ hlog l hl
    · exact fun c h => hc c (List.mem_cons_of_mem _ h)
  · refine hc _ List.mem_cons_self ?_
    rw [map_qesaGap, eval_coeffG, eval_coeffH, eval_coeffQ]
    exact h2

/-- C89: what an accepted proof says about the two commitments, for every algebraic prover. Let `(g, h, c)` be
the coefficients of `C' + C''` and `x` the first challenge. For all but a fraction `(T + q + 5) (m + 3) B / 2^512`
of the hash functions, the proof is rejected, or one of the candidates is a non-trivial relation between the
generators, or: `c` is zero, and `u`, the vector `g` with first component `1 + x² (g₀ - 1)`, solves the batched
equation, and `h` is the image of `u` and of the masks under the batched matrix. -/
theorem C89_qesa_any {q T B : Nat} (hq : m + 3 = 2 ^ q) (cd : Codec G) (Gs Hs : Fin (m + 3) → G) (Q : G)
    (Ms : Fin (k + 1) → Matrix (Fin (m + 1)) (Fin (m + 1)) F)
    (log : List (Note (Coeffs F (m + 3)))) (hlog : ∀ e ∈ log, Truthful cd (evalCoeffs Gs Hs Q) e)
    (hB : ∀ c : F, Nat.card {v : Vector UInt8 64 // ((leNat v.toList : Nat) : F) = c} ≤ B)
    (A : Algo (Note (Coeffs F (m + 3))) (AlgQesa F (Coeffs F (m + 3)))) (hT : A.AtMost T)
    (hA : ∀ ro, ∀ l ∈ A.asked Prod.fst ro, ∀ e ∈ l, Truthful cd (evalCoeffs Gs Hs Q) e)
    (ro : Hash) (D : Finset (List Event))
    (hD : ∀ ro, ∀ l ∈ A.asked Prod.fst ro ++ qesaQueries ro cd.compress (evalCoeffs Gs Hs Q) log
      (coeffG F _) (coeffH F _) (coeffQ F _) Ms (A.run Prod.fst ro), l.map Prod.fst ∈ D) :
    chance ro D (fun ro =>
      let p := A.run Prod.fst ro
      let x := qesaX F ro (log.map Prod.fst) (cd.compress (evalCoeffs Gs Hs Q p.C'))
      let M := batched (m + 3) Ms x
      let C := p.C' + p.C''
      let u := shifted x fun j => C.1 (Fin.castAdd 2 j)
      (∃ tr', (p.proof cd.compress (evalCoeffs Gs Hs Q)).verify ⟨cd, ro⟩ ⟨log.map Prod.fst⟩ (List.ofFn Gs)
        (List.ofFn Hs) Q ⟨List.ofFn fun i => rows (Ms i)⟩ = .ok (true, tr')) ∧
      ¬ (quad M u = 0 ∧ (∀ j, C.2.1 (Fin.castAdd 2 j) = M.mulVec u j) ∧
        C.2.1 ⟨m + 1, by omega⟩ = - C.1 ⟨m + 2, by omega⟩ ∧ C.2.1 ⟨m + 2, by omega⟩ = C.1 ⟨m + 1, by omega⟩ ∧
        C.2.2 = 0) ∧
      ∀ c ∈ qesaCandidates ro cd Gs Hs Q Ms log (A.asked Prod.fst ro) p, evalCoeffs Gs Hs Q c = 0 → c = 0) ≤
    ((T + (q + 5)) * ((m + 3) * B) : Nat) / 2 ^ 512 := by
  apply chance_le
  refine any_core hq cd.compress (evalCoeffs Gs Hs Q) (coeffG F _) (coeffH F _) (coeffQ F _)
    (by simp [coeffG]) (by simp [coeffH]) coeff_free Ms
    ⟨fun _ => True, fun _ x => x = 0, fun C' x C'' =>
      let M := batched (m + 3) Ms x
      let C := C' + C''
      let u := shifted x fun j => C.1 (Fin.castAdd 2 j)
      ¬ (quad M u = 0 ∧ (∀ j, C.2.1 (Fin.castAdd 2 j) = M.mulVec u j) ∧
        C.2.1 ⟨m + 1, by omega⟩ = - C.1 ⟨m + 2, by omega⟩ ∧ C.2.1 ⟨m + 2, by omega⟩ = C.1 ⟨m + 1, by omega⟩ ∧
        C.2.2 = 0)⟩ le_rfl
    (fun _ _ => ⟨{0}, by simp, fun x hx => by simpa using hx⟩)
    (fun C' x C'' hx h => ⟨hx, fun hc => h (claim_coeffs _ hx _ hc)⟩) log hB A hT id ro D hD _ ?_
  rintro ro ⟨hv, hn, hc⟩
  obtain ⟨h1, h2, h3⟩ := any_win hq cd Gs Hs Q Ms log hlog _ (hA ro) ro _ hv hc
  exact ⟨h1, h2, True.intro, hn, h3⟩

/-- C89: what an accepted proof says about the first commitment, for every algebraic prover whose second
commitment has no component on the generators `G`. The first commitment is arbitrary, `w` are its first
coefficients on `G`. For all but a fraction `(T + q + 5) (m + 7) B / 2^512` of the hash functions, the proof is
rejected, or one of the candidates is a relation, or all numbers `drift` vanish for `w`. -/
theorem C89_qesa_first {q T B : Nat} (hq : m + 3 = 2 ^ q) (cd : Codec G) (Gs Hs : Fin (m + 3) → G) (Q : G)
    (Ms : Fin (k + 1) → Matrix (Fin (m + 1)) (Fin (m + 1)) F)
    (log : List (Note (Coeffs F (m + 3)))) (hlog : ∀ e ∈ log, Truthful cd (evalCoeffs Gs Hs Q) e)
    (hB : ∀ c : F, Nat.card {v : Vector UInt8 64 // ((leNat v.toList : Nat) : F) = c} ≤ B)
    (A : Algo (Note (Coeffs F (m + 3))) (AlgQesa F (Coeffs F (m + 3)))) (hT : A.AtMost T)
    (hA : ∀ ro, ∀ l ∈ A.asked Prod.fst ro, ∀ e ∈ l, Truthful cd (evalCoeffs Gs Hs Q) e)
    (ro : Hash) (D : Finset (List Event))
    (hD : ∀ ro, ∀ l ∈ A.asked Prod.fst ro ++ qesaQueries ro cd.compress (evalCoeffs Gs Hs Q) log
      (coeffG F _) (coeffH F _) (coeffQ F _) Ms (A.run Prod.fst ro), l.map Prod.fst ∈ D) :
    chance ro D (fun ro =>
      let p := A.run Prod.fst ro
      (∃ tr', (p.proof cd.compress (evalCoeffs Gs Hs Q)).verify ⟨cd, ro⟩ ⟨log.map Prod.fst⟩ (List.ofFn Gs)
        (List.ofFn Hs) Q ⟨List.ofFn fun i => rows (Ms i)⟩ = .ok (true, tr')) ∧
      p.C''.1 = 0 ∧ (∃ j, drift (m + 3) Ms (fun j => p.C'.1 (Fin.castAdd 2 j)) j ≠ 0) ∧
      ∀ c ∈ qesaCandidates ro cd Gs Hs Q Ms log (A.asked Prod.fst ro) p, evalCoeffs Gs Hs Q c = 0 → c = 0) ≤
    ((T + (q + 5)) * ((m + 7) * B) : Nat) / 2 ^ 512 := by
  apply chance_le
  refine any_core hq cd.compress (evalCoeffs Gs Hs Q) (coeffG F _) (coeffH F _) (coeffQ F _)
    (by simp [coeffG]) (by simp [coeffH]) coeff_free Ms
    ⟨fun C' => ∃ j, drift (m + 3) Ms (fun j => C'.1 (Fin.castAdd 2 j)) j ≠ 0,
      fun C' x => x = 0 ∨ quad (batched (m + 3) Ms x) (shifted x fun j => C'.1 (Fin.castAdd 2 j)) = 0,
      fun _ _ C'' => C''.1 = 0⟩ (by omega)
    (fun C' h => few_drift (m + 3) Ms _ h)
    (fun C' x C'' hx h => by
      obtain ⟨hx, hn⟩ := not_or.1 hx
      refine ⟨hx, fun hc => hn ?_⟩
      have := (claim_coeffs _ hx _ hc).1
      rwa [show (C' + C'').1 = C'.1 by rw [Prod.fst_add, h, add_zero]] at this) log hB A hT id ro D hD _ ?_
  rintro ro ⟨hv, h0, hd, hc⟩
  obtain ⟨h1, h2, h3⟩ := any_win hq cd Gs Hs Q Ms log hlog _ (hA ro) ro _ hv hc
  exact ⟨h1, h2, hd, h0, h3⟩

/-- C89, converse: if all numbers `drift` vanish for `w`, a prover that commits to `w` before it sees the
challenge `x`, and then to a vector on the generators `H`, is accepted, unless the challenge `x` or `alpha` is
zero. -/
theorem C89_qesa_first_accepted {q : Nat} (hq : m + 3 = 2 ^ q)
    (h64 : q < 64) (cx : Ctx G) (tr : Transcript) (Gs Hs : List G) (Q : G) (hG : Gs.length = m + 3)
    (hH : Hs.length = m + 3) (Ms : Fin (k + 1) → Matrix (Fin (m + 1)) (Fin (m + 1)) F)
    (w : Fin (m + 1) → F) (r0 r1 : F) (hw : ∀ j, drift (m + 3) Ms w j = 0) :
    ∃ p tr', shiftedProver cx tr Gs Hs Q Ms w r0 r1 = .ok (p, tr') ∧
      p.inner.c_prime_w = cx.compress (dot (List.ofFn w ++ [r0, r1]) Gs) ∧
      (∃ v : List F, v.length = Hs.length ∧ p.inner.c_prime_prime_w = cx.compress (dot v Hs)) ∧
      let x := qesaX F cx.ro tr.log p.inner.c_prime_w
      let s := qesaS F cx.ro tr.log p.inner.c_prime_w p.inner.c_prime_prime_w
      let b := qesaB F cx.ro tr.log p.inner.c_prime_w p.inner.c_prime_prime_w
      let M := batched (m + 3) Ms x
      let u := maskedWitness (shifted x w) r0 r1 s b
      let v := maskedImage M (shifted x w) r0 r1 s b
      let C_w := dot u (rescaled (x ^ 2) Gs) + dot v Hs
      (x ≠ 0 →
        almAlpha cx (tr.log ++ qesaHead p.inner.c_prime_w p.inner.c_prime_prime_w (cx.compress C_w)) Q
          C_w 0 (dot u v) (m + 3) ≠ 0 →
        p.verify cx tr Gs Hs Q ⟨List.ofFn fun i => rows (Ms i)⟩ = .ok (true, tr')) := by
  obtain ⟨p, tr', h1, h2, h3, h4⟩ := C62_shifted_accepted hq h64 cx tr Gs Hs Q hG hH Ms w r0 r1
  refine ⟨p, tr', h1, h2, h3, fun hx hα => h4 hx ?_ hα⟩
  rw [C89_drift]
  exact Finset.sum_eq_zero fun j _ => by rw [hw, mul_zero]

end

/-! ### Example -/
section
open Toy

/-- The system `y = 1`, `0 = 0`, `y = 0` of C62: no vector with first component one solves it, but all numbers
`drift` vanish for `(2, 1)`, and not for `(3, 1)`. -/
example : (∀ j < 8, drift 4 (contradiction K 0) ![2, 1] j = 0) ∧ drift 4 (contradiction K 0) ![3, 1] 2 ≠ 0 := by
  decide +kernel

/-- The numbers `drift` of the system `w₁² = w₁`, `w₀² = 3 w₀ w₁` at `(5, 2)`: the last two come from the rescaling
of the first generator. -/
example : (List.range 7).map (drift 4 (![!![0, -1; 0, 1], !![1, -3; 0, 0]] : Fin 2 → Matrix (Fin 2) (Fin 2) K) ![5, 2]) =
    [2, -5, -8, -16, 0, 16, 0] := by
  decide +kernel

/-- A commitment with components on all generators; the vector on `G` starts with `(5, 2)`. -/
def exAnyFirst : Coeffs K (1 + 3) := (![5, 2, 5, 7], ![1, 0, 0, 9], 4)

/-- A prover of QESA that commits to `exAnyFirst`, looks at `x`, and lets everything else depend on it. -/
def exAnyProver (Gs Hs : Fin (1 + 3) → K) (Q : K) : Algo (Note (Coeffs K (1 + 3))) (AlgQesa K (Coeffs K (1 + 3))) :=
  .ask (xNotes codec.compress (evalCoeffs (F := K) Gs Hs Q) exAnyFirst) fun v =>
    let x : K := (leNat v.toList : Nat)
    .done ⟨exAnyFirst, (0, ![x, x ^ 2, 5, 7], -4), ⟨(![x, 0, 0, 1], 0, 1),
      ⟨[(![x, 0, 0, 0], 0, 1), 0], [(0, ![0, x, 0, 0], 2), 0], x, 1⟩⟩⟩

/-- C89 for this prover and the equation `w₁² = w₁`. -/
example (Gs Hs : Fin (1 + 3) → K) (Q : K) (ro : Hash) : ∃ D : Finset (List Event),
    chance ro D (fun ro =>
      let p := (exAnyProver Gs Hs Q).run Prod.fst ro
      (∃ tr', (p.proof codec.compress (evalCoeffs (F := K) Gs Hs Q)).verify ⟨codec, ro⟩ ⟨[]⟩ (List.ofFn Gs)
        (List.ofFn Hs) Q ⟨List.ofFn fun i => rows (exBit i)⟩ = .ok (true, tr')) ∧
      ∀ c ∈ qesaCandidates ro codec Gs Hs Q exBit [] ((exAnyProver Gs Hs Q).asked Prod.fst ro) p,
        evalCoeffs Gs Hs Q c = 0 → c = 0) ≤ 64 * (1 / 101 + 1 / 2 ^ 512) := by
  obtain ⟨D, hD⟩ := C69_domain codec.compress (evalCoeffs (F := K) Gs Hs Q) [] (coeffG K _) (coeffH K _)
    (coeffQ K _) exBit (exAnyProver Gs Hs Q)
  refine ⟨D, ?_⟩
  have := C89_qesa_first (m := 1) (q := 2) (T := 1) (F := K) rfl codec Gs Hs Q exBit []
    (by simp) (fun c => C67_scalars 101 c) (exAnyProver Gs Hs Q) (fun _ => True.intro) (by
      intro ro l hl e he
      simp only [exAnyProver, Algo.asked, List.mem_singleton] at hl
      subst hl
      simp only [xNotes, List.mem_cons, List.not_mem_nil, or_false] at he
      rcases he with rfl | rfl
      · exact truthful_point _ _ "c_prime_w" (by decide) _
      · exact truthful_plain _ _ _ rfl) ro D hD
  refine (chance_mono fun ro h => ?_).trans (this.trans ?_)
  · exact ⟨h.1, rfl,
      ⟨0, (show drift (1 + 3) exBit (fun j => exAnyFirst.1 (Fin.castAdd 2 j)) 0 ≠ 0 by decide +kernel)⟩, h.2⟩
  · rw [show ∀ B, (1 + (2 + 5)) * ((1 + 7) * B) = 64 * B from fun B => by omega]
    exact C67_bound 64 101

end
end Qesa.Props
