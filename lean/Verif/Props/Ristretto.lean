import Verif.Proofs.Ristretto
import Verif.Props.CopyOracle
import Verif.Props.LmpaOracle
import Verif.Props.TestQesa
import Verif.Props.LmpaKCompleteness
import Verif.Props.SimpleSim
import Mathlib.Algebra.Field.ZMod
import Mathlib.Algebra.Module.ZMod
/- C87: the bounds for the group that the repository uses. -/
namespace Qesa.Props
open Qesa Spec Ipa Copy Lmpa LmpaK Tests
set_option exponentiation.threshold 600

/-- The order of the Ristretto group: the modulus of `curve25519_dalek::scalar::Scalar`. -/
def ristrettoOrder : Nat := 2 ^ 252 + 27742317777372353535851937790883648493

/-- C87: the order of the Ristretto group is a prime. -/
theorem C87_order_prime : Nat.Prime (2 ^ 252 + 27742317777372353535851937790883648493) := by
  rw [show 2 ^ 252 + 27742317777372353535851937790883648493 =
    7237005577332262213973186563042994240857116359379907606001950938285454250989 by norm_num]
  exact Ristretto.prime_order

instance : Fact ristrettoOrder.Prime := ⟨C87_order_prime⟩

/-- The scalars of the repository. They are a field (`ZMod.instField`). -/
abbrev RistrettoScalar := ZMod ristrettoOrder

/-- C87: every commutative group in which `ℓ x = 0` is a vector space over the scalars, and multiplication with a
scalar is repeated addition. -/
theorem C87_points {G : Type} [AddCommGroup G]
    (h : ∀ x : G, (2 ^ 252 + 27742317777372353535851937790883648493) • x = 0) :
    ∃ _ : Module RistrettoScalar G, ∀ (n : Nat) (x : G), ((n : RistrettoScalar) • x : G) = n • x :=
  ⟨AddCommGroup.zmodModule (n := ristrettoOrder) h, fun n x => by
    let := AddCommGroup.zmodModule (n := ristrettoOrder) h
    exact Nat.cast_smul_eq_nsmul RistrettoScalar n x⟩

theorem order_le : 2 ^ 512 / ristrettoOrder + 1 ≤ 2 ^ 260 := by
  rw [ristrettoOrder]; norm_num

/-- C87: at most `2^260` of the `2^512` byte strings reduce to the same scalar. -/
theorem C87_scalars (c : RistrettoScalar) :
    Nat.card {v : Vector UInt8 64 // ((leNat v.toList : Nat) : RistrettoScalar) = c} ≤ 2 ^ 260 :=
  (C67_scalars ristrettoOrder c).trans order_le

theorem two_ne : (2 : RistrettoScalar) ≠ 0 := by
  intro h
  have h' : ((2 : Nat) : RistrettoScalar) = 0 := by exact_mod_cast h
  rw [ZMod.natCast_eq_zero_iff] at h'
  have := Nat.le_of_dvd (by decide) h'
  rw [ristrettoOrder] at this
  norm_num at this

theorem card_ge : (2 ^ 252 : ℚ) ≤ Fintype.card RistrettoScalar := by
  rw [ZMod.card, ristrettoOrder]; norm_num

theorem card_div_le (k : Nat) : (k : ℚ) / Fintype.card RistrettoScalar ≤ k / 2 ^ 252 :=
  div_le_div_of_nonneg_left (Nat.cast_nonneg _) (by positivity) card_ge

theorem bits_le {a b : Nat} (k : Nat) (h : a * 2 ^ k ≤ 2 ^ 512) (hb : b = a) : ((b : Nat) : ℚ) / 2 ^ 512 ≤ 1 / 2 ^ k := by
  subst hb
  rw [div_le_div_iff₀ (by positivity) (by positivity), one_mul]
  exact_mod_cast h

theorem error_le (k j : Nat) (h : k + j ≤ 64) :
    (k : ℚ) / Fintype.card RistrettoScalar + (j * 2 ^ 260 : Nat) / 2 ^ 512 ≤ 1 / 2 ^ 246 := by
  refine (add_le_add (card_div_le k) le_rfl).trans ?_
  have h' : (k : ℚ) + j ≤ 64 := by exact_mod_cast h
  push_cast
  calc (k : ℚ) / 2 ^ 252 + j * 2 ^ 260 / 2 ^ 512 = (k + j) / 2 ^ 252 := by ring
    _ ≤ 64 / 2 ^ 252 := by gcongr
    _ = 1 / 2 ^ 246 := by norm_num

section
variable {G : Type} [AddCommGroup G] [Module RistrettoScalar G] [DecidableEq G]

/-- C87: soundness of QESA over the Ristretto group, with at most `2^16` generators, against algebraic provers that
ask at most `2^100` hash queries (C69): the probability of a false proof that does not give away a relation between
the generators is at most `2^-135`. -/
theorem C87_qesa_soundness {m k q T : Nat} (hq : m + 3 = 2 ^ q) (hq' : q ≤ 16) (hT' : T ≤ 2 ^ 100) (cd : Codec G)
    (Gs Hs : Fin (m + 3) → G) (Q : G)
    (Ms : Fin (k + 1) → Matrix (Fin (m + 1)) (Fin (m + 1)) RistrettoScalar)
    (log : List (Note (Coeffs RistrettoScalar (m + 3)))) (hlog : ∀ e ∈ log, Truthful cd (evalCoeffs Gs Hs Q) e)
    (A : Algo (Note (Coeffs RistrettoScalar (m + 3))) (AlgQesa RistrettoScalar (Coeffs RistrettoScalar (m + 3))))
    (hT : A.AtMost T) (hA : ∀ ro, ∀ l ∈ A.asked Prod.fst ro, ∀ e ∈ l, Truthful cd (evalCoeffs Gs Hs Q) e)
    (ro : Hash) (D : Finset (List Event))
    (hD : ∀ ro, ∀ l ∈ A.asked Prod.fst ro ++ qesaQueries ro cd.compress (evalCoeffs Gs Hs Q) log
      (coeffG RistrettoScalar _) (coeffH RistrettoScalar _) (coeffQ RistrettoScalar _) Ms (A.run Prod.fst ro),
      l.map Prod.fst ∈ D) :
    chance ro D (fun ro =>
      let p := A.run Prod.fst ro
      (∃ tr', (p.proof cd.compress (evalCoeffs Gs Hs Q)).verify ⟨cd, ro⟩ ⟨log.map Prod.fst⟩ (List.ofFn Gs)
        (List.ofFn Hs) Q ⟨List.ofFn fun i => rows (Ms i)⟩ = .ok (true, tr')) ∧
      (p.C'.1 0 = 1 ∧ p.C'.2.1 = 0 ∧ p.C'.2.2 = 0) ∧ (p.C''.1 = 0 ∧ p.C''.2.2 = 0) ∧
      (∃ i, i.val < m + 3 ∧ quad (Ms i) (fun j => p.C'.1 (Fin.castAdd 2 j)) ≠ 0) ∧
      ∀ c ∈ qesaCandidates ro cd Gs Hs Q Ms log (A.asked Prod.fst ro) p, evalCoeffs Gs Hs Q c = 0 → c = 0) ≤
    1 / 2 ^ 135 := by
  refine (C69_qesa_algebraic hq cd Gs Hs Q Ms log hlog C87_scalars A hT hA ro D hD).trans (bits_le 135 ?_ rfl)
  have h1 : m + 3 ≤ 2 ^ 16 := hq ▸ Nat.pow_le_pow_right (by decide) hq'
  calc (T + (q + 5)) * ((m + 3) * 2 ^ 260) * 2 ^ 135 ≤ (2 ^ 100 + (16 + 5)) * (2 ^ 16 * 2 ^ 260) * 2 ^ 135 := by gcongr
    _ ≤ 2 ^ 512 := by norm_num

/-- C87: the same for Copy (C70). The bound on the number of messages is the one of `compute_mapping`. -/
theorem C87_copy_soundness {m q T ws : Nat} (hq : m + 3 = 2 ^ q) (hT' : T ≤ 2 ^ 100) (cd : Codec G)
    (Gs Hs : Fin (m + 3) → G) (Q : G)
    (Us : List (Matrix (Fin (m + 1)) (Fin (m + 1)) RistrettoScalar)) (map : Mapping)
    (coms : List (List Nat × List RistrettoScalar × RistrettoScalar)) (Cs : List G)
    (hcom : coms.mapM (fun c => Copy.commit (List.ofFn Gs) c.1 c.2.1 c.2.2) = .ok Cs)
    (hn : m + 3 < 65536) (hws : ws < 65536) (hs : coms.length ≤ 65536)
    (hmap : computeMapping (m + 3) ws (coms.map (·.1)) = .ok map)
    (hsets : ∀ c ∈ coms, c.1.Pairwise (· < ·)) (hi : ∀ c ∈ coms, ∀ i ∈ c.1, i < m + 1)
    (h0 : ∀ c ∈ coms, 0 ∉ c.1)
    (hU : ∀ U ∈ Us, ∀ i j : Fin (m + 1), (∃ c ∈ coms, i.val ∈ c.1 ∨ j.val ∈ c.1) → U i j = 0)
    (hfit : Us.length + map.unique_commitment_indices.length ≤ m + 3)
    (log : List (Note (Coeffs RistrettoScalar (m + 3)))) (hlog : ∀ e ∈ log, Truthful cd (evalCoeffs Gs Hs Q) e)
    (A : Algo (Note (Coeffs RistrettoScalar (m + 3))) (AlgCopy RistrettoScalar (Coeffs RistrettoScalar (m + 3))))
    (hT : A.AtMost T) (hA : ∀ ro, ∀ l ∈ A.asked Prod.fst ro, ∀ e ∈ l, Truthful cd (evalCoeffs Gs Hs Q) e)
    (ro : Hash) (D : Finset (List Event))
    (hD : ∀ ro, ∀ l ∈ A.asked Prod.fst ro ++ copyQueries ro cd.compress (evalCoeffs Gs Hs Q) log
      (coeffG RistrettoScalar _) (coeffH RistrettoScalar _) (coeffQ RistrettoScalar _) Us map
      (coms.map (messageCommit (coeffG RistrettoScalar _))) (A.run Prod.fst ro), l.map Prod.fst ∈ D) :
    chance ro D (fun ro =>
      let p := A.run Prod.fst ro
      (∃ tr', (p.proof cd.compress (evalCoeffs Gs Hs Q)).verify ⟨cd, ro⟩ ⟨log.map Prod.fst⟩ (List.ofFn Gs)
        (List.ofFn Hs) Q ⟨Us.map rows⟩ map Cs = .ok (true, tr')) ∧
      (p.C_w.1 0 = 1 ∧ p.C_w.2.1 = 0 ∧ p.C_w.2.2 = 0) ∧ (p.C''.1 = 0 ∧ p.C''.2.2 = 0) ∧
      ¬ CopyHolds Us map (coms.map (·.2.1)).flatten (fun j => p.C_w.1 (Fin.castAdd 2 j)) ∧
      ∀ c ∈ copyCandidates ro cd Gs Hs Q Us map coms log (A.asked Prod.fst ro) p,
        evalCoeffs Gs Hs Q c = 0 → c = 0) ≤
    1 / 2 ^ 135 := by
  refine (C70_copy_algebraic hq cd Gs Hs Q Us map coms Cs hcom hn hws hs hmap hsets hi h0 hU hfit log hlog C87_scalars
    A hT hA ro D hD).trans (bits_le 135 ?_ rfl)
  have h1 : max (m + 3) coms.length ≤ 2 ^ 16 := max_le (by omega) (by omega)
  have h2 : q ≤ 16 := by
    have h : 2 ^ q < 2 ^ 16 := hq ▸ hn
    exact ((Nat.pow_lt_pow_iff_right (by decide)).1 h).le
  calc (T + (q + 6)) * (max (m + 3) coms.length * 2 ^ 260) * 2 ^ 135
      ≤ (2 ^ 100 + (16 + 6)) * (2 ^ 16 * 2 ^ 260) * 2 ^ 135 := by gcongr
    _ ≤ 2 ^ 512 := by norm_num

/-- C87: soundness of the binary arguments of src/lmpa for systems with at most `2^64` columns against arbitrary
provers that ask at most `2^100` hash queries (C71): a false statement is accepted with probability at most
`2^-150`. -/
theorem C87_lmpa_soundness {q T fuel : Nat} (hq : q ≤ 64) (hT' : T ≤ 2 ^ 100) (cd : Codec G) (row : List G)
    (rows : List (List G)) (Gs : List G) (t : G) (ts : List G) (hA : ∀ r ∈ row :: rows, r.length = 2 ^ q)
    (hno : ∀ w : List RistrettoScalar, w.length = 2 ^ q → dot w row ≠ t) (log : List Event) (ro : Hash) :
    (∀ A : Algo Event (Lmpa.NoZK RistrettoScalar G), A.AtMost T → ∀ D : Finset (List Event),
      (∀ ro, ∀ l ∈ A.asked id ro ++ lmpaQueries (plainPen cd.compress) log ((A.run id ro).L_Vec.take q)
        ((A.run id ro).R_Vec.take q), l ∈ D) →
      chance ro D (fun ro => ∃ tr', (A.run id ro).verify ⟨cd, ro⟩ fuel ⟨log⟩ (row :: rows) Gs (2 ^ q) (t :: ts) =
        .ok (true, tr')) ≤ 1 / 2 ^ 150) ∧
    (∀ A : Algo Event (SimpleZK RistrettoScalar G), A.AtMost T → ∀ D : Finset (List Event),
      (∀ ro, ∀ l ∈ A.asked id ro ++ simpleQueries (plainPen cd.compress) log (A.run id ro).a
        ((A.run id ro).no_zk.L_Vec.take q) ((A.run id ro).no_zk.R_Vec.take q), l ∈ D) →
      chance ro D (fun ro => ∃ tr', (A.run id ro).verify ⟨cd, ro⟩ fuel ⟨log⟩ (row :: rows) Gs (2 ^ q) (t :: ts) =
        .ok (true, tr')) ≤ 1 / 2 ^ 150) := by
  refine ⟨fun A hT D hD => ?_, fun A hT D hD => ?_⟩
  · refine (C71_lmpa_oracle cd row rows Gs t ts hA hno log C87_scalars A hT ro D hD).trans (bits_le 150 ?_ rfl)
    calc (T + q) * (2 * 2 ^ 260) * 2 ^ 150 ≤ (2 ^ 100 + 64) * (2 * 2 ^ 260) * 2 ^ 150 := by gcongr
      _ ≤ 2 ^ 512 := by norm_num
  · refine (C71_simple_oracle cd row rows Gs t ts hA hno log C87_scalars A hT ro D hD).trans (bits_le 150 ?_ rfl)
    calc (T + (q + 1)) * (2 * 2 ^ 260) * 2 ^ 150 ≤ (2 ^ 100 + (64 + 1)) * (2 * 2 ^ 260) * 2 ^ 150 := by gcongr
      _ ≤ 2 ^ 512 := by norm_num

/-- C87: an honest run of QESA over the Ristretto group fails with probability at most `2^-246` (C75). -/
theorem C87_qesa_completeness {m k e N : Nat} (he : 2 ≤ e) (he' : e < 64)
    (hm : m + 3 = 2 ^ e) (hN : 4 * e + 4 ≤ N) (cd : Codec G) (log : List Event) (Gs Hs : List G) (Q : G)
    (hG : Gs.length = m + 3) (hH : Hs.length = m + 3)
    (Ms : Fin (k + 1) → Matrix (Fin (m + 1)) (Fin (m + 1)) RistrettoScalar) (w : Fin (m + 1) → RistrettoScalar)
    (h0 : w 0 = 1) (hw : ∀ i, quad (Ms i) w = 0) (rest : Tape RistrettoScalar) :
    ∃ D0 : Finset (List Event), ∀ D, D0 ⊆ D → ∀ ro,
      chanceBoth ro D rest (2 + N) (fun ro τ => ¬ ∃ p tr' τ',
        Zk.create ⟨cd, ro⟩ ⟨log⟩ τ Gs Hs Q ⟨List.ofFn fun i => rows (Ms i)⟩ (List.ofFn w) = .ok (p, tr', τ') ∧
        p.verify ⟨cd, ro⟩ ⟨log⟩ Gs Hs Q ⟨List.ofFn fun i => rows (Ms i)⟩ = .ok (true, tr')) ≤ 1 / 2 ^ 246 := by
  obtain ⟨D0, h⟩ := C75_zk_completeness_error two_ne he he' hm hN cd log Gs Hs Q hG hH Ms w h0 hw C87_scalars rest
  exact ⟨D0, fun D hD ro => (h D hD ro).trans (error_le 7 14 (by decide))⟩

/-- C87: an honest run of Copy over the Ristretto group fails with probability at most `2^-246` (C75). -/
theorem C87_copy_completeness {m e N : Nat} (he : 2 ≤ e) (he' : e < 16)
    (hm : m + 3 = 2 ^ e) (hN : 4 * e + 4 ≤ N) (cd : Codec G) (log : List Event) (Gs Hs : List G) (Q : G)
    (hG : Gs.length = m + 3) (hH : Hs.length = m + 3)
    (Us : List (Matrix (Fin (m + 1)) (Fin (m + 1)) RistrettoScalar))
    (w : List RistrettoScalar) (coms : List (List Nat × List RistrettoScalar × RistrettoScalar)) (map : Mapping)
    (Cs : List G) (hs : coms.length ≤ 65536) (h0 : w[0]? = some 1) (hwl : w.length ≤ m + 1)
    (hmap : computeMapping Gs.length w.length (coms.map (·.1)) = .ok map)
    (hcom : coms.mapM (fun c => Copy.commit Gs c.1 c.2.1 c.2.2) = .ok Cs)
    (hout : ∀ c ∈ coms, ∀ i ∈ c.1, w.length ≤ i ∧ i < m + 1)
    (hU : ∀ α, ∀ U ∈ Us, quad U (fun i => copyWitness w map (coms.map (·.2.1)).flatten α i) = 0)
    (rest : Tape RistrettoScalar) :
    ∃ D0 : Finset (List Event), ∀ D, D0 ⊆ D → ∀ ro,
      chanceBoth ro D rest (2 + N) (fun ro τ => ¬ ∃ p tr' τ',
        Copy.create ⟨cd, ro⟩ ⟨log⟩ τ Gs Hs Q map ⟨Us.map rows⟩ w (coms.map (·.2)) = .ok (p, tr', τ') ∧
        p.verify ⟨cd, ro⟩ ⟨log⟩ Gs Hs Q ⟨Us.map rows⟩ map Cs = .ok (true, tr')) ≤ 1 / 2 ^ 246 := by
  obtain ⟨D0, h⟩ := C75_copy_completeness_error two_ne he he' hm hN cd log Gs Hs Q hG hH Us w coms map Cs hs h0 hwl
    hmap hcom hout hU C87_scalars rest
  exact ⟨D0, fun D hD ro => (h D hD ro).trans (error_le 7 14 (by decide))⟩

/-- C87: the tests of C78, C80 and C81, over the Ristretto group: each of them fails with probability at most
`2^-246`. (The number behind `rest` is the number of scalars that the test draws.) -/
theorem C87_tests (cd : Codec G) (pts : Tape G) (Q : G) (rest : Tape RistrettoScalar) :
    ∃ D0 : Finset (List Event), ∀ D, D0 ⊆ D → ∀ ro,
      chanceBoth ro D rest 8 (fun _ τ => testOrth τ ≠ .ok ()) ≤ 1 / 2 ^ 246 ∧
      chanceBoth ro D rest 10 (fun _ τ => testSampleGramSchmidt τ ≠ .ok ()) ≤ 1 / 2 ^ 246 ∧
      chanceBoth ro D rest 14 (fun _ τ => testSampleGramSchmidtTwice τ ≠ .ok ()) ≤ 1 / 2 ^ 246 ∧
      chance ro D (fun ro => testNoZK ⟨cd, ro⟩ rest pts Q ≠ .ok ()) ≤ 1 / 2 ^ 246 ∧
      chanceBoth ro D rest 20 (fun ro τ => testAlmZK ⟨cd, ro⟩ τ pts Q ≠ .ok ()) ≤ 1 / 2 ^ 246 ∧
      chanceBoth ro D rest 444 (fun _ τ => testHelperSolutions τ ≠ .ok ()) ≤ 1 / 2 ^ 246 ∧
      chanceBoth ro D rest 24 (fun ro τ => testQesaInner ⟨cd, ro⟩ τ pts Q ≠ .ok ()) ≤ 1 / 2 ^ 246 ∧
      chanceBoth ro D rest 24 (fun ro τ => testQesaVitalik ⟨cd, ro⟩ τ pts Q ≠ .ok ()) ≤ 1 / 2 ^ 246 ∧
      chanceBoth ro D rest 33 (fun ro τ => testCopy ⟨cd, ro⟩ τ pts Q ≠ .ok ()) ≤ 1 / 2 ^ 246 ∧
      chanceBoth ro D rest 22 (fun ro τ => testCopySingle ⟨cd, ro⟩ τ pts Q ≠ .ok ()) ≤ 1 / 2 ^ 246 ∧
      chance ro D (fun ro => testLmpaK ⟨cd, ro⟩ 4 5 3 4 rest pts ≠ .ok ()) ≤ 1 / 2 ^ 246 ∧
      chance ro D (fun ro => testLmpaGeneral ⟨cd, ro⟩ 4 5 3 4 rest pts ≠ .ok ()) ≤ 1 / 2 ^ 246 := by
  obtain ⟨D1, h1⟩ := C80_test_nozk cd rest pts Q (C87_scalars 0)
  obtain ⟨D2, h2⟩ := C80_test_almzk two_ne cd pts Q rest (C87_scalars 0)
  obtain ⟨D3, h3⟩ := C81_test_qesa_inner two_ne cd pts Q rest C87_scalars
  obtain ⟨D4, h4⟩ := C81_test_qesa_vitalik two_ne cd pts Q rest C87_scalars
  obtain ⟨D5, h5⟩ := C81_test_copy two_ne cd pts Q rest C87_scalars
  obtain ⟨D6, h6⟩ := C81_test_copy_single two_ne cd pts Q rest C87_scalars
  obtain ⟨D7, h7⟩ := C78_test_lmpaK cd 4 5 3 4 (by decide) (by decide) (by decide) rest pts (C87_scalars 0)
  obtain ⟨D8, h8⟩ := C78_test_general cd 4 5 2 4 (by decide) (by decide) (by decide) rest pts (C87_scalars 0)
  have only : ∀ k : Nat, k ≤ 64 → (k : ℚ) / Fintype.card RistrettoScalar ≤ 1 / 2 ^ 246 := fun k hk => by
    simpa using error_le k 0 (by omega)
  have zero : ∀ j : Nat, j ≤ 64 → ((j * 2 ^ 260 : Nat) : ℚ) / 2 ^ 512 ≤ 1 / 2 ^ 246 := fun j hj => by
    simpa using error_le 0 j (by omega)
  refine ⟨D1 ∪ D2 ∪ D3 ∪ D4 ∪ D5 ∪ D6 ∪ D7 ∪ D8, fun D hD ro => ?_⟩
  have sub : D1 ⊆ D ∧ D2 ⊆ D ∧ D3 ⊆ D ∧ D4 ⊆ D ∧ D5 ⊆ D ∧ D6 ⊆ D ∧ D7 ⊆ D ∧ D8 ⊆ D := by
    simp only [Finset.union_subset_iff] at hD
    tauto
  obtain ⟨s1, s2, s3, s4, s5, s6, s7, s8⟩ := sub
  refine ⟨(C80_test_orth_error rest ro D).trans (only 3 (by decide)),
    (C80_test_sample_error rest ro D).trans (only 3 (by decide)),
    (C80_test_sample_twice_error two_ne rest ro D).trans (only 7 (by decide)),
    (h1 D s1 ro).trans ?_, (h2 D s2 ro).trans ?_,
    (C81_test_helper_solutions_error rest ro D).trans (only 38 (by decide)),
    (h3 D s3 ro).trans (error_le 13 14 (by decide)), (h4 D s4 ro).trans (error_le 7 14 (by decide)),
    (h5 D s5 ro).trans (error_le 7 14 (by decide)), (h6 D s6 ro).trans (error_le 7 14 (by decide)),
    (h7 D s7 ro).trans (zero 3 (by decide)), (h8 D s8 ro).trans (zero 3 (by decide))⟩
  · simpa using zero 1 (by decide)
  · simpa using error_le 12 1 (by decide)

end

/-! ### Examples -/

/-- A codec of the additive group of the scalars: 32 bytes, little-endian, reduced. -/
def scalarCodec : Codec RistrettoScalar where
  compress x := List.ofFn fun i : Fin 32 => UInt8.ofNat (x.val / 256 ^ i.val)
  decompress c := if c.length = 32 ∧ leNat c < ristrettoOrder then some ((leNat c : Nat) : RistrettoScalar) else none
  decompress_compress x := by
    have h : leNat (List.ofFn fun i : Fin 32 => UInt8.ofNat (x.val / 256 ^ i.val)) = x.val := by
      rw [leNat_digits, Nat.mod_eq_of_lt ((ZMod.val_lt x).trans (by rw [ristrettoOrder]; norm_num))]
    rw [h, if_pos ⟨by simp, ZMod.val_lt x⟩, ZMod.natCast_zmod_val]
  compress_decompress c x h := by
    split_ifs at h with hc
    simp only [Option.some.injEq] at h
    subst h
    apply leNat_injective
    · simp [hc.1]
    · rw [leNat_digits, ZMod.val_natCast, Nat.mod_eq_of_lt hc.2, Nat.mod_eq_of_lt]
      exact hc.2.trans (by rw [ristrettoOrder]; norm_num)

/-- The additive group of the scalars is a group as in C87_points. -/
example (x : RistrettoScalar) : (2 ^ 252 + 27742317777372353535851937790883648493) • x = 0 :=
  ZModModule.char_nsmul_eq_zero ristrettoOrder x

/-- An honest proof that `2` is a solution of `x² = 4`, with four generators. -/
example (Gs Hs : Fin 4 → RistrettoScalar) (Q : RistrettoScalar) (rest : Tape RistrettoScalar) :
    ∃ D0 : Finset (List Event), ∀ D, D0 ⊆ D → ∀ ro,
      chanceBoth ro D rest (2 + 12) (fun ro τ => ¬ ∃ p tr' τ',
        Zk.create ⟨scalarCodec, ro⟩ ⟨[]⟩ τ (List.ofFn Gs) (List.ofFn Hs) Q
          ⟨List.ofFn fun _ : Fin 1 => rows !![(-4 : RistrettoScalar), 0; 0, 1]⟩ (List.ofFn ![1, 2]) = .ok (p, tr', τ') ∧
        p.verify ⟨scalarCodec, ro⟩ ⟨[]⟩ (List.ofFn Gs) (List.ofFn Hs) Q
          ⟨List.ofFn fun _ : Fin 1 => rows !![(-4 : RistrettoScalar), 0; 0, 1]⟩ = .ok (true, tr')) ≤ 1 / 2 ^ 246 :=
  C87_qesa_completeness (m := 1) (k := 0) (e := 2) (N := 12) le_rfl (by decide) rfl (by decide) scalarCodec []
    (List.ofFn Gs) (List.ofFn Hs) Q (by simp) (by simp) (fun _ => !![-4, 0; 0, 1]) ![1, 2] rfl
    (fun i => by
      simp [quad, Fin.sum_univ_two]
      norm_num) rest

/-- The target `1` is not a combination of the points `0, 0`: a proof that does not depend on the hash function is
accepted with probability at most `2^-150`. -/
example (p : Lmpa.NoZK RistrettoScalar RistrettoScalar) (ro : Hash) : ∃ D : Finset (List Event),
    chance ro D (fun ro => ∃ tr', p.verify ⟨scalarCodec, ro⟩ 3 ⟨[]⟩ [[0, 0]] [1, 1] (2 ^ 1) [1] = .ok (true, tr')) ≤
      1 / 2 ^ 150 :=
  ⟨(lmpaQueries (plainPen scalarCodec.compress) [] (p.L_Vec.take 1) (p.R_Vec.take 1)).toFinset,
    (C87_lmpa_soundness (q := 1) (T := 0) (by decide) (by decide) scalarCodec [0, 0] [] [1, 1] 1 [] (by simp)
      (by
        rintro w hw h
        obtain ⟨a, b, rfl⟩ := List.length_eq_two.1 hw
        simp [dot] at h) [] ro).1 (.done p) True.intro _ fun _ l hl => by simpa [Algo.asked, Algo.run] using hl⟩

end Qesa.Props
