import Verif.SpecReduction
import Verif.Props.Extract
/-
Computational soundness of QESA: a prover that shows openings of its commitments and is accepted for a vector that does
not solve the equations leads to a relation between the generators (C98).
-/
namespace Qesa.Props
open Qesa Spec
variable {F G : Type} [Field F] [AddCommGroup G] [Module F G] [DecidableEq F] [DecidableEq G] {m k : Nat}

omit [DecidableEq G] in
/-- Two different openings of a point give a relation. -/
theorem two_openings (Gs Hs : List G) (Q : G) (e e' : List F × List F) (hne : e ≠ e')
    (l1 : e.1.length = Gs.length) (l2 : e.2.length = Hs.length) (l1' : e'.1.length = Gs.length)
    (l2' : e'.2.length = Hs.length) (h : dot e.1 Gs + dot e.2 Hs = dot e'.1 Gs + dot e'.2 Hs) :
    ∃ r, difference e e' = some r ∧ IsRelation Gs Hs Q r := by
  cases hd : difference e e' with
  | none =>
    unfold difference at hd
    split at hd
    · next h => exact absurd h hne
    · cases hd
  | some r => exact ⟨r, rfl, difference_relation Gs Hs Q _ _ _ r hd l1 l2 l1' l2' h rfl⟩

omit [AddCommGroup G] [Module F G] [DecidableEq G] [Field F] [DecidableEq F] in
/-- A weaker property of the result is more probable. -/
theorem found_mono {α β : Type} {ro : Hash} {D : Finset (List Event)} {E : Hash → Rewinder α β} {P : Hash → α}
    {X Y : Hash → β → Prop} (h : ∀ ro o, X ro o → Y ro o) :
    mean ro D (fun ro => (E ro).chance P (X ro)) ≤ mean ro D (fun ro => (E ro).chance P (Y ro)) := by
  refine mean_mono _ _ fun ro => Rewinder.expect_mono _ (fun o => ?_) _
  split_ifs with c1 c2 c2
  · exact le_rfl
  · exact absurd (h _ _ c1) c2
  · norm_num
  · exact le_rfl

set_option exponentiation.threshold 600 in
/-- C98: computational soundness of the inner-product argument, in any group. Whoever knows an opening `(a', b')` of `P`
with another inner product than `t` makes relations between the generators out of a prover that is accepted: the extractor
of C97 returns runs from which C21 computes a relation or an opening that differs from `(a', b')`. -/
theorem C98_ipa_reduction {q T B : Nat} (cd : Codec G) (Gs Hs : List G) (hG : Gs.length = 2 ^ q)
    (hH : Hs.length = 2 ^ q) (Q P : G) (t : F) (a' b' : List F) (ha : a'.length = 2 ^ q) (hb : b'.length = 2 ^ q)
    (hP : P = dot a' Gs + dot b' Hs + t • Q) (hne : dot a' b' ≠ t) (log : List Event)
    (hB : ∀ c : F, Nat.card {v : Vector UInt8 64 // ((leNat v.toList : Nat) : F) = c} ≤ B)
    (A : Algo Event (Ipa.NoZK F)) (hT : A.AtMost T) (r : Nat) (ro : Hash) (D : Finset (List Event))
    (hD : ∀ ro, ∀ l ∈ A.asked id ro ++ ipaHistories log (2 ^ q) (A.run id ro), l ∈ D) :
    let E := ipaExtractor cd log Gs Hs Q P t q r
    let Acc := fun ro => ∃ tr', (A.run id ro).verify ⟨cd, ro⟩ ⟨log⟩ Gs Hs Q (2 ^ q) P t = .ok (true, tr')
    mean ro D (fun ro => (E ro).runs fun ro => A.run id ro) ≤
      1 + (T + (q + 1) : Nat) * ((4 ^ (q + 1) : Nat) - 1) ∧
    chance ro D Acc ≤ mean ro D (fun ro => (E ro).chance (fun ro => A.run id ro) fun o =>
      ∃ runs, o = some runs ∧ runs.length ≤ 4 ^ (q + 1) ∧ ∃ (α : Fin 2 → F) (T : Fin 2 → IpaTree F G q),
        (∀ i, ∀ c ∈ (T i).paths, ∃ ro', (ro', A.run id ro') ∈ runs ∧ Reprogrammed (q + 1) ro ro' ∧ Acc ro' ∧
          ipaAlpha F ro' log (2 ^ q) = α i ∧ Continues cd (A.run id ro')
            (ipaChallenges F ro' log (2 ^ q) (A.run id ro').L_vec (A.run id ro').R_vec) c) ∧
        match extractIpa t α fun i => (T i).scalars with
        | .inl e => ∃ rel, difference e (a', b') = some rel ∧ IsRelation Gs Hs Q rel
        | .inr rel => IsRelation Gs Hs Q rel) +
      (T + (q + 1) : Nat) * ((q + 1) * (3 / (r + 1) + 6 * (B / 2 ^ 512))) := by
  intro E Acc
  obtain ⟨h1, h2⟩ := C97_ipa_extractor cd Gs Hs hG hH Q P t log hB A hT r ro D hD
  refine ⟨h1, h2.trans (add_le_add_left (found_mono fun ro o => ?_) _)⟩
  rintro ⟨runs, hr, hl, α, T, h3, h4⟩
  refine ⟨runs, hr, hl, α, T, h3, ?_⟩
  rcases he : extractIpa t α fun i => (T i).scalars with ⟨a, b⟩ | rel <;> rw [he] at h4
  · obtain ⟨l1, l2, h5, h6⟩ := h4
    refine two_openings Gs Hs Q _ _ (fun h => hne ?_) (l1.trans hG.symm) (l2.trans hH.symm) (ha.trans hG.symm)
      (hb.trans hH.symm) ?_
    · obtain ⟨rfl, rfl⟩ := Prod.mk.inj h
      exact h6
    · rw [hP, add_left_inj] at h5
      exact h5.symm
  · exact h4

set_option exponentiation.threshold 600 in
/-- C98: computational soundness of AlmZK, in any group. -/
theorem C98_alm_reduction {q T B : Nat} (cd : Codec G) (Gs Hs : List G) (hG : Gs.length = 2 ^ q)
    (hH : Hs.length = 2 ^ q) (Q C_w : G) (t : F) (a' b' : List F) (ha : a'.length = 2 ^ q) (hb : b'.length = 2 ^ q)
    (hP : C_w = dot a' Gs + dot b' Hs) (hne : dot a' b' ≠ t) (log : List Event)
    (hB : ∀ c : F, Nat.card {v : Vector UInt8 64 // ((leNat v.toList : Nat) : F) = c} ≤ B)
    (A : Algo Event (Ipa.AlmZK F)) (hT : A.AtMost T) (r : Nat) (ro : Hash) (D : Finset (List Event))
    (hD : ∀ ro, ∀ l ∈ A.asked id ro ++ almHistories cd ro log (2 ^ q) Q C_w t (A.run id ro), l ∈ D) :
    let E := almExtractor cd log Gs Hs Q C_w t q r
    let Acc := fun ro => ∃ tr', (A.run id ro).verify ⟨cd, ro⟩ ⟨log⟩ Gs Hs Q (2 ^ q) C_w t = .ok (true, tr')
    mean ro D (fun ro => (E ro).runs fun ro => A.run id ro) ≤
      1 + (T + (q + 2) : Nat) * ((4 ^ (q + 2) : Nat) - 1) ∧
    chance ro D Acc ≤ mean ro D (fun ro => (E ro).chance (fun ro => A.run id ro) fun o =>
      ∃ runs, o = some runs ∧ runs.length ≤ 4 ^ (q + 2) ∧
        ∃ (β : Fin 3 → F) (α : Fin 3 → Fin 2 → F) (T : Fin 3 → Fin 2 → IpaTree F G q),
        (∀ i j, ∀ c ∈ (T i j).paths, ∃ ro', (ro', A.run id ro') ∈ runs ∧ Reprogrammed (q + 2) ro ro' ∧ Acc ro' ∧
          let p := A.run id ro'
          let lg := almLog cd ro' log Q C_w t p.C_r
          p.C_r = (A.run id ro).C_r ∧ almBeta F ro' log p.C_r = β i ∧ ipaAlpha F ro' lg (2 ^ q) = α i j ∧
          Continues cd p.NoZK (ipaChallenges F ro' lg (2 ^ q) p.NoZK.L_vec p.NoZK.R_vec) c) ∧
        match extractAlm t β α fun i j => (T i j).scalars with
        | .inl e => ∃ rel, difference e (a', b') = some rel ∧ IsRelation Gs Hs Q rel
        | .inr rel => IsRelation Gs Hs Q rel) +
      (T + (q + 2) : Nat) * ((q + 2) * (3 / (r + 1) + 6 * (B / 2 ^ 512))) := by
  intro E Acc
  obtain ⟨h1, h2⟩ := C97_alm_extractor cd Gs Hs hG hH Q C_w t log hB A hT r ro D hD
  refine ⟨h1, h2.trans (add_le_add_left (found_mono fun ro o => ?_) _)⟩
  rintro ⟨runs, hr, hl, β, α, T, h3, h4⟩
  refine ⟨runs, hr, hl, β, α, T, h3, ?_⟩
  rcases he : extractAlm t β α fun i j => (T i j).scalars with ⟨a, b⟩ | rel <;> rw [he] at h4
  · obtain ⟨l1, l2, h5, h6⟩ := h4
    refine two_openings Gs Hs Q _ _ (fun h => hne ?_) (l1.trans hG.symm) (l2.trans hH.symm) (ha.trans hG.symm)
      (hb.trans hH.symm) ?_
    · obtain ⟨rfl, rfl⟩ := Prod.mk.inj h
      exact h6
    · rw [hP] at h5
      exact h5.symm
  · exact h4

set_option exponentiation.threshold 600 in
open Toy in
/-- C98: `P = 1·5 + 2·7 + 3·11 + 4·13 + 12·17` with the claim that the inner product is 12. It is 11, so runs of an accepted
prover give relations between `5, 7, 11, 13, 17` modulo 101. -/
example {T : Nat} (A : Algo Event (Ipa.NoZK K)) (hT : A.AtMost T) (ro : Hash) :
    ∃ D : Finset (List Event),
    let E := ipaExtractor codec [] [5, 7] [11, 13] (17 : K) 5 (12 : K) 1 999
    mean ro D (fun ro => (E ro).runs fun ro => A.run id ro) ≤ 1 + (T + 2 : Nat) * 15 ∧
    chance ro D (fun ro => ∃ tr', (A.run id ro).verify ⟨codec, ro⟩ ⟨[]⟩ [5, 7] [11, 13] (17 : K) 2 5 (12 : K) =
        .ok (true, tr')) ≤
      mean ro D (fun ro => (E ro).chance (fun ro => A.run id ro) fun o => ∃ runs, o = some runs ∧
        ∃ (α : Fin 2 → K) (T : Fin 2 → IpaTree K K 1), match extractIpa 12 α fun i => (T i).scalars with
        | .inl e => ∃ rel, difference e ([1, 2], [3, 4]) = some rel ∧ IsRelation [5, 7] [11, 13] (17 : K) rel
        | .inr rel => IsRelation [5, 7] [11, 13] (17 : K) rel) + (T + 2 : Nat) * (2 * (3 / 1000 + 6 * (1 / 100))) := by
  obtain ⟨D, hD⟩ := C92_ipa_domain [] 2 A
  obtain ⟨h1, h2⟩ := C98_ipa_reduction (q := 1) codec [5, 7] [11, 13] rfl rfl (17 : K) 5 12 [1, 2] [3, 4] rfl rfl
    (by decide +kernel) (by decide +kernel) [] (C67_scalars 101) A hT 999 ro D hD
  refine ⟨D, h1.trans (by norm_num), h2.trans (add_le_add (found_mono fun ro o => ?_) ?_)⟩
  · rintro ⟨runs, hr, -, α, T, -, h⟩
    refine ⟨runs, hr, α, T, ?_⟩
    rcases he : extractIpa 12 α fun i => (T i).scalars with e | r <;> rw [he] at h <;> exact h
  · refine mul_le_mul_of_nonneg_left (by norm_num) (Nat.cast_nonneg _)

omit [DecidableEq F] [DecidableEq G] in
theorem dot_unscaled {x : F} (u : Fin (m + 1) → F) (r0 r1 : F) {Gs : List G} (hG : Gs.length = m + 3) :
    dot (unscaled x (List.ofFn u ++ [r0, r1])) Gs =
      dot (List.ofFn u ++ [r0, r1]) (rescaled (x ^ 2) Gs) + (1 - (x ^ 2)⁻¹) • Gs.headD 0 := by
  cases Gs with
  | nil => simp at hG
  | cons g Gs =>
    simp only [List.ofFn_succ, List.cons_append, rescaled, unscaled, dot_cons, smul_smul, add_smul, List.headD_cons]
    abel

omit [DecidableEq F] in
theorem unscaled_inj {x : F} (hx : x ≠ 0) {u w : Fin (m + 1) → F} {p0 p1 r0 r1 : F}
    (h : unscaled x (List.ofFn u ++ [p0, p1]) = List.ofFn w ++ [r0, r1]) : u = shifted x w := by
  have hx2 : x ^ 2 ≠ 0 := pow_ne_zero 2 hx
  simp only [List.ofFn_succ, List.cons_append, unscaled, List.cons.injEq] at h
  obtain ⟨h0, h1⟩ := h
  have h2 := List.ofFn_injective (List.append_inj_left h1 (by simp))
  funext i
  refine Fin.cases ?_ (fun i => ?_) i
  · simp only [shifted, Function.update_self, ← h0]
    field_simp
    ring
  · simp only [shifted, ne_eq, Fin.succ_ne_zero, not_false_eq_true, Function.update_of_ne]
    exact congrFun h2 i

/-- The number of answers wanted: `k0` at the first challenge, `k1` at the second, four at the others. -/
def firstTwo (k0 k1 : Nat) (i : Nat) : Nat := if i = 0 then k0 else firstMore k1 (i - 1)

theorem firstTwo_prod (k0 k1 d : Nat) : ∏ j ∈ Finset.range (d + 2), firstTwo k0 k1 j = k0 * (k1 * 4 ^ d) := by
  rw [Finset.prod_range_succ', Nat.mul_comm]
  exact congrArg (k0 * ·) (firstMore_prod k1 d)

theorem firstTwo_error (k0 k1 d r : Nat) (κ : ℚ) :
    ∑ j ∈ Finset.range (d + 2), ((firstTwo k0 k1 j - 1 : ℚ) / (r + 1) + (firstTwo k0 k1 j * (firstTwo k0 k1 j - 1) / 2 : ℚ) * κ) =
      (k0 - 1) / (r + 1) + k0 * (k0 - 1) / 2 * κ +
        ((k1 - 1) / (r + 1) + k1 * (k1 - 1) / 2 * κ + d * (3 / (r + 1) + 6 * κ)) := by
  rw [Finset.sum_range_succ', add_comm]
  exact congrArg (_ + ·) (firstMore_error k1 d r κ)

/-- The program that looks for a relation: the extractor of QESA with `n + 5` different values of `x`, for accepted runs
with right openings of a vector that is `bad`. -/
def qesaReduction (cd : Codec G) (log : List Event) (Gs Hs : List G) (Q : G)
    (Ms : Fin (k + 1) → Matrix (Fin (m + 1)) (Fin (m + 1)) F) (bad : (Fin (m + 1) → F) → Bool) (q r : Nat) :
    Hash → Rewinder (Zk.Proof F × Openings F m) (Option (List (Hash × Zk.Proof F × Openings F m))) :=
  Rewinder.rewind (scalarOf F) (fun ro p =>
      accepted (p.1.verify ⟨cd, ro⟩ ⟨log⟩ Gs Hs Q ⟨List.ofFn fun i => rows (Ms i)⟩) &&
        (decide (p.2.Fits cd Gs Hs p.1.inner.c_prime_w p.1.inner.c_prime_prime_w) && bad p.2.w))
    (fun ro p i => (qesaHistories cd ro log Gs Hs Q Ms p.1.inner)[i]?) (firstTwo (m + 8) (max (m + 2) 4)) r (q + 5)

omit [DecidableEq G] [DecidableEq F] in
theorem drift_any (Ms : Fin (k + 1) → Matrix (Fin (m + 1)) (Fin (m + 1)) F) [DecidableEq F] (w : Fin (m + 1) → F) :
    ((List.range (m + 7)).any fun j => decide (drift (m + 3) Ms w j ≠ 0)) = true ↔ ∃ j, drift (m + 3) Ms w j ≠ 0 := by
  rw [List.any_eq_true]
  constructor
  · rintro ⟨j, -, h⟩
    exact ⟨j, of_decide_eq_true h⟩
  · rintro ⟨j, h⟩
    refine ⟨j, ?_, decide_eq_true h⟩
    rw [List.mem_range]
    by_contra hge
    exact h (drift_beyond _ _ _ (by omega))

set_option exponentiation.threshold 600 in
/-- C98: computational soundness of QESA, in any group. Let a prover show, together with the proof, openings of `C'` on
the generators `G` and `H` and of `C''` on the generators `H`. If it is accepted with a `bad` vector, one for which not
all numbers `drift` vanish (cf. C89), the program `qesaReduction` finds accepted runs that give a relation between the
generators: either two different openings of `C'`, or the result of the extractor of C61 is a relation or differs from the
opening that was shown. -/
theorem C98_qesa_reduction {q T B : Nat} (hq : m + 3 = 2 ^ q) (cd : Codec G) (Gs Hs : List G)
    (hG : Gs.length = m + 3) (hH : Hs.length = m + 3) (Q : G)
    (Ms : Fin (k + 1) → Matrix (Fin (m + 1)) (Fin (m + 1)) F) (bad : (Fin (m + 1) → F) → Bool)
    (hbad : ∀ w, bad w = true → ∃ j, drift (m + 3) Ms w j ≠ 0) (log : List Event)
    (hB : ∀ c : F, Nat.card {v : Vector UInt8 64 // ((leNat v.toList : Nat) : F) = c} ≤ B)
    (A : Algo Event (Zk.Proof F × Openings F m)) (hT : A.AtMost T) (r : Nat) (ro : Hash) (D : Finset (List Event))
    (hD : ∀ ro, ∀ l ∈ A.asked id ro ++ qesaHistories cd ro log Gs Hs Q Ms (A.run id ro).1.inner, l ∈ D) :
    let E := qesaReduction cd log Gs Hs Q Ms bad q r
    let P := fun ro => (A.run id ro).1
    let O := fun ro => (A.run id ro).2
    let Acc := fun ro => ∃ tr', (P ro).verify ⟨cd, ro⟩ ⟨log⟩ Gs Hs Q ⟨List.ofFn fun i => rows (Ms i)⟩ = .ok (true, tr')
    let k0 := m + 8
    let k1 := max (m + 2) 4
    mean ro D (fun ro => (E ro).runs fun ro => A.run id ro) ≤
      1 + (T + (q + 5) : Nat) * ((k0 * (k1 * 4 ^ (q + 3)) : Nat) - 1) ∧
    chance ro D (fun ro => Acc ro ∧ (O ro).Fits cd Gs Hs (P ro).inner.c_prime_w (P ro).inner.c_prime_prime_w ∧
        bad (O ro).w = true) ≤
      mean ro D (fun ro => (E ro).chance (fun ro => A.run id ro) fun o =>
      ∃ runs, o = some runs ∧ runs.length ≤ k0 * (k1 * 4 ^ (q + 3)) ∧
      ∃ ro1, (ro1, A.run id ro1) ∈ runs ∧
      ((∃ ro2, (ro2, A.run id ro2) ∈ runs ∧ (P ro2).inner.c_prime_w = (P ro1).inner.c_prime_w ∧
        ∃ rel, difference (O ro1).first (O ro2).first = some rel ∧ IsRelation Gs Hs Q rel) ∨
      GivesRelation cd log Gs Hs Q Ms q
        (fun ro' => (ro', A.run id ro') ∈ runs ∧ Reprogrammed (q + 5) ro ro' ∧ Acc ro') (fun ro => (P ro).inner) ro1
        (O ro1).both)) +
      (T + (q + 5) : Nat) * ((k0 - 1 : ℚ) / (r + 1) + k0 * (k0 - 1 : ℚ) / 2 * (B / 2 ^ 512) +
        ((k1 - 1 : ℚ) / (r + 1) + k1 * (k1 - 1 : ℚ) / 2 * (B / 2 ^ 512) +
          (q + 3 : Nat) * (3 / (r + 1) + 6 * (B / 2 ^ 512)))) := by
  intro E P O Acc k0 k1
  refine extractor_by (d := q + 5) hT (fun p => qesaVerifierQueries cd log Gs Hs Q Ms (q + 1) p.1.inner)
    (fun p => qesaVerifierQueries_atMost cd log Gs Hs Q Ms _ p.1.inner) ?_ (fun i => ?_) ?_ hB
    (firstTwo_prod k0 k1 (q + 3)) (firstTwo_error k0 k1 (q + 3) r _)
    (Acc := fun ro => Acc ro ∧ (O ro).Fits cd Gs Hs (P ro).inner.c_prime_w (P ro).inner.c_prime_prime_w ∧
        bad (O ro).w = true) (fun ro => ?_) ?_
  · intro ro i l h hl
    obtain ⟨tr', h⟩ := (accepted_iff _).1 (Bool.and_eq_true_iff.1 h).1
    refine List.mem_append_right _ ?_
    rw [qesaVerifierQueries_asked]
    have hr := qesa_rounds hq hG hH (show (A.run id ro).1.inner.verify _ _ _ _ _ _ = _ from h)
    rw [List.take_of_length_le (by simp [qesaHistories, almHistories, ipaHistories]; omega)]
    exact List.mem_of_getElem? hl
  · simp only [firstTwo, firstMore]
    split
    · omega
    · split <;> omega
  · intro ro l hl
    apply hD ro
    rw [qesaVerifierQueries_asked] at hl
    rcases List.mem_append.1 hl with hl | hl
    · exact List.mem_append_left _ hl
    · exact List.mem_append_right _ (List.mem_of_mem_take hl)
  · rw [Bool.and_eq_true_iff, Bool.and_eq_true_iff, accepted_iff, decide_eq_true_iff]
  · intro ro runs h
    have ha := h.acc
    set acc : Hash → Prop := fun ro => (Acc ro ∧ (O ro).Fits cd Gs Hs (P ro).inner.c_prime_w (P ro).inner.c_prime_prime_w ∧
        bad (O ro).w = true) ∧ (ro, A.run id ro) ∈ runs with hacc
    set l := log ++ [.msg "c_prime_w" (P ro).inner.c_prime_w, .chal "x" 64] with hl
    have hk : (qesaHistories cd ro log Gs Hs Q Ms (P ro).inner)[0]? = some l := rfl
    have up : ∀ v, Forks (scalarOf F) acc (fun ro i => (qesaHistories cd ro log Gs Hs Q Ms (P ro).inner)[i]?)
        (firstTwo k0 k1) (q + 4) 1 (Function.update ro l v) →
        (qesaHistories cd (Function.update ro l v) log Gs Hs Q Ms (P (Function.update ro l v)).inner)[0]? = some l →
        (P (Function.update ro l v)).inner.c_prime_w = (P ro).inner.c_prime_w ∧
        qesaX F (Function.update ro l v) log (P (Function.update ro l v)).inner.c_prime_w =
          ((leNat v.toList : Nat) : F) := by
      intro v hv hv'
      obtain ⟨-, e1, -, -, -, e2, -⟩ := qesa_stable (F := F) cd 0 (fun _ => log) (fun _ => ()) Gs Hs Q (fun _ => Ms)
        (fun ro => (P ro).inner) (acc := acc)
        (key := fun ro i => (qesaHistories cd ro log Gs Hs Q Ms (P ro).inner)[i]?)
        (fun ro j _ => by rw [Nat.zero_add]) (j := 0) ha hv.acc hk hv'
      exact ⟨e1, e2 rfl⟩
    obtain ⟨S, hS, hfew⟩ := few_drift (m + 3) Ms (O ro).w (hbad _ ha.1.2.2)
    obtain ⟨v, hv, -, hne⟩ := Forks.pick (k := 0) h hk S (by
      rw [show firstTwo k0 k1 0 = m + 8 from rfl]; omega)
    obtain ⟨hf, hkey⟩ := hv 0
    obtain ⟨u1, u2⟩ := up _ hf hkey
    set ro1 := Function.update ro l (v 0) with hro1
    have ha1 := hf.acc
    obtain ⟨f1, f2, f3, f4⟩ := ha.1.2.1
    obtain ⟨g1, g2, g3, g4⟩ := ha1.1.2.1
    refine ⟨ro1, ha1.2, ?_⟩
    by_cases heq : (O ro1).first = (O ro).first
    · right
      have hx : qesaX F ro1 log (P ro1).inner.c_prime_w ≠ 0 := by
        rw [u2]
        exact fun h0 => hne 0 (hfew _ (Or.inl h0))
      obtain ⟨C', C'', s, b, β, α, T, h1, h2, h3, h4⟩ := qesa_extraction hq cd Gs Hs hG hH Q Ms log
        (K := firstTwo k0 k1) (fun i => by
          simp only [firstTwo, firstMore]
          split
          · omega
          · split <;> omega) (le_max_left _ _)
        (fun ro => P ro) acc (fun _ h => h.1.1) ro1 hf hx
      refine ⟨s, b, β, α, T, fun i j l e c hc => ?_, ?_⟩
      · obtain ⟨ro', e1, e2, e3⟩ := h3 i j l e c hc
        exact ⟨ro', ⟨e2.2, e1.update, e2.1.1⟩, e3⟩
      · split at h4
        · rename_i w v he
          obtain ⟨u, p0, p1, rfl, rfl, hz, hC⟩ := h4
          rw [he]
          dsimp only
          rw [h1, cd.decompress_compress, Option.some.injEq] at g3
          rw [h2, cd.decompress_compress, Option.some.injEq] at g4
          refine two_openings Gs Hs Q _ _ (fun e => ?_) (by cases hu : List.ofFn u ++ [p0, p1] with
            | nil => simp at hu
            | cons a l =>
              have := congrArg List.length hu
              simp [unscaled] at this ⊢
              omega) (by simp [hH]) (by simp [Openings.both, hG]) (by simp [Openings.both, hH, g1, g2]) ?_
          · have e1 := unscaled_inj hx (congrArg Prod.fst e)
            have ew : (O ro1).w = (O ro).w := by
              have := congrArg Prod.fst heq
              exact List.ofFn_injective (List.append_inj_left this (by simp))
            refine hne 0 (hfew _ (Or.inr ?_))
            rw [← u2, ← ew, ← e1]
            exact hz
          · dsimp only [Openings.both]
            rw [dot_unscaled u p0 p1 hG, (dot_zip (m + 3) _ _ Hs g1 g2).1, ← hC, g3, g4, ← add_assoc]
            rfl
        · rename_i rel he
          rw [he]
          exact h4
    · left
      refine ⟨ro, ha.2, u1.symm, two_openings Gs Hs Q _ _ heq (by simp [Openings.first, hG])
        (by simp [Openings.first, hH, g1]) (by simp [Openings.first, hG]) (by simp [Openings.first, hH, f1]) ?_⟩
      rw [u1, f3, Option.some.injEq] at g3
      exact g3.symm

/-- C98: the numbers `drift` are a possible choice of `bad` vectors, and so are vectors with first component one that
violate one of the first `n` equations. -/
theorem C98_qesa_bad (Ms : Fin (k + 1) → Matrix (Fin (m + 1)) (Fin (m + 1)) F) (w : Fin (m + 1) → F) :
    (((List.range (m + 7)).any fun j => decide (drift (m + 3) Ms w j ≠ 0)) = true ↔ ∃ j, drift (m + 3) Ms w j ≠ 0) ∧
    (decide (w 0 = 1 ∧ ∃ i, i.val < m + 3 ∧ quad (Ms i) w ≠ 0) = true → ∃ j, drift (m + 3) Ms w j ≠ 0) := by
  refine ⟨drift_any Ms w, fun h => ?_⟩
  obtain ⟨h0, i, hi, hne⟩ := of_decide_eq_true h
  by_contra hno
  push Not at hno
  exact hne ((C89_drift_one (m + 3) Ms w h0).1 hno i hi)

omit [DecidableEq F] [DecidableEq G] in
/-- C98: for every prover there is a finite set of histories as above. -/
theorem C98_qesa_domain {τ : Type} (cd : Codec G) (log : List Event) (Gs Hs : List G) (Q : G)
    (Ms : Fin k → Matrix (Fin m) (Fin m) F) (A : Algo Event (Zk.Proof F × τ)) :
    ∃ D : Finset (List Event), ∀ ro, ∀ l ∈ A.asked id ro ++ qesaHistories cd ro log Gs Hs Q Ms (A.run id ro).1.inner,
      l ∈ D := by
  let V : Zk.Proof F × τ → Algo Event Unit := fun p =>
    qesaVerifierQueries cd log Gs Hs Q Ms (p.1.inner.alm_zk.NoZK.L_vec.length + 1) p.1.inner
  obtain ⟨D, hD⟩ := exists_domain id (fun _ (_ : Unit) => ([] : List (List Event))) (by
    intro p
    simp) (A.andThen V)
  refine ⟨D, fun ro l hl => ?_⟩
  have := (hD ro).1 l
  rw [Algo.asked_andThen, qesaVerifierQueries_asked,
    List.take_of_length_le (by simp [qesaHistories, almHistories, ipaHistories])] at this
  simpa using this hl

set_option exponentiation.threshold 600 in
/-- C98 with the scalars of the repository: up to 64 equations in 62 variables and a prover with up to `2^60` questions. The chance that it
is accepted with an opening to a vector that violates one of the equations is at most the chance that the program finds
runs that give a relation between the generators, plus `2^-42`. On average the program runs the prover at most `2^91` times. -/
example {G : Type} [AddCommGroup G] [Module RistrettoScalar G] [DecidableEq G] (cd : Codec G) (Gs Hs : List G)
    (hG : Gs.length = 64) (hH : Hs.length = 64) (Q : G) (Ms : Fin (k + 1) → Matrix (Fin 62) (Fin 62) RistrettoScalar)
    (hk : k < 64) (log : List Event) (A : Algo Event (Zk.Proof RistrettoScalar × Openings RistrettoScalar 61))
    (hT : A.AtMost (2 ^ 60)) (ro : Hash) :
    ∃ D : Finset (List Event),
    let bad := fun w : Fin 62 → RistrettoScalar => decide (w 0 = 1 ∧ ∃ i, i.val < 64 ∧ quad (Ms i) w ≠ 0)
    let E := qesaReduction cd log Gs Hs Q Ms bad 6 (2 ^ 110)
    mean ro D (fun ro => (E ro).runs fun ro => A.run id ro) ≤ 2 ^ 91 ∧
    chance ro D (fun ro =>
        let (p, o) := A.run id ro
        (∃ tr', p.verify ⟨cd, ro⟩ ⟨log⟩ Gs Hs Q ⟨List.ofFn fun i => rows (Ms i)⟩ = .ok (true, tr')) ∧
        o.Fits cd Gs Hs p.inner.c_prime_w p.inner.c_prime_prime_w ∧ o.w 0 = 1 ∧ ∃ i, quad (Ms i) o.w ≠ 0) ≤
      mean ro D (fun ro => (E ro).chance (fun ro => A.run id ro) fun o =>
        ∃ runs, o = some runs ∧ ∃ ro1, (ro1, A.run id ro1) ∈ runs ∧
        ((∃ ro2, (ro2, A.run id ro2) ∈ runs ∧ ∃ rel, difference (A.run id ro1).2.first (A.run id ro2).2.first = some rel ∧
          IsRelation Gs Hs Q rel) ∨
        GivesRelation cd log Gs Hs Q Ms 6 (fun ro' => (ro', A.run id ro') ∈ runs) (fun ro => (A.run id ro).1.inner) ro1
          (A.run id ro1).2.both)) + 1 / 2 ^ 42 := by
  obtain ⟨D, hD⟩ := C98_qesa_domain cd log Gs Hs Q Ms A
  obtain ⟨h1, h2⟩ := C98_qesa_reduction (q := 6) (m := 61) rfl cd Gs Hs hG hH Q Ms
    (fun w => decide (w 0 = 1 ∧ ∃ i, i.val < 64 ∧ quad (Ms i) w ≠ 0)) (fun w h => (C98_qesa_bad Ms w).2 h) log
    C87_scalars A hT (2 ^ 110) ro D hD
  refine ⟨D, h1.trans (by norm_num), (chance_mono fun ro h => ?_).trans (h2.trans (add_le_add (mean_mono _ _ fun ro =>
    Rewinder.expect_mono _ (fun o => ?_) _) (by norm_num)))⟩
  · obtain ⟨i1, i2, i3, i, i4⟩ := h
    exact ⟨i1, i2, decide_eq_true ⟨i3, i, by omega, i4⟩⟩
  · split_ifs with c1 c2 c2
    · exact le_rfl
    · obtain ⟨runs, hr, -, ro1, hm, h⟩ := c1
      refine absurd ⟨runs, hr, ro1, hm, ?_⟩ c2
      rcases h with ⟨ro2, h3, -, h4⟩ | ⟨s, b, β, α, T, h, h'⟩
      · exact Or.inl ⟨ro2, h3, h4⟩
      · refine Or.inr ⟨s, b, β, α, T, fun i j l e c hc => ?_, h'⟩
        obtain ⟨ro', e1, e2⟩ := h i j l e c hc
        exact ⟨ro', e1.1, e2⟩
    · norm_num
    · exact le_rfl

end Qesa.Props
