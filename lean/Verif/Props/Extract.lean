import Verif.Proofs.Extract
import Verif.Props.Fork
import Verif.Props.ForkLmpa
import Verif.Props.ForkQesa
import Verif.Props.ForkCopy
import Verif.Props.Ristretto
import Verif.Props.HonestTrees
/-
Extractors that run the prover as a black box: an expected number of runs, a probability of success, and what the runs
deliver (C97).
-/
namespace Qesa.Props
open Qesa Spec
variable {F G : Type} [Field F] [AddCommGroup G] [Module F G] [DecidableEq F]

theorem accepted_iff {τ : Type} (r : R (Bool × τ)) : accepted r = true ↔ ∃ t, r = .ok (true, t) := by
  match r with
  | .ok (true, t) => simp [accepted]
  | .ok (false, t) => simp [accepted]
  | .error e => simp [accepted]

omit [Field F] [DecidableEq F] in
theorem forks_shift {scalar : Vector UInt8 64 → F} {acc : Hash → Prop} {key : Hash → Nat → Option (List Event)}
    {K : Nat → Nat} (s : Nat) : ∀ (d i : Nat) (ro : Hash),
    Forks scalar acc (fun ro i => key ro (i + s)) (fun i => K (i + s)) d i ro → Forks scalar acc key K d (i + s) ro
  | 0, _, _, h => h
  | d + 1, i, ro, ⟨h0, h⟩ => by
    have e : i + 1 + s = i + s + 1 := by omega
    refine ⟨e ▸ forks_shift s d (i + 1) ro h0, fun l hl => ?_⟩
    obtain ⟨v, h1, h2⟩ := h l hl
    exact ⟨v, h1, fun j => ⟨e ▸ forks_shift s d (i + 1) _ (h2 j).1, (h2 j).2⟩⟩

set_option exponentiation.threshold 600 in
/-- C97: the extractor for a proof system. `A` is any prover with at most `T` questions to the hash function, `V` asks
the at most `k` questions of the verifier, `test` is the verdict of the verifier and `key` gives the questions behind the
challenges. On average over the hash functions on `D` and the random choices of the program, `Rewinder.rewind` runs the
prover at most `1 + (T + k) (N - 1)` times, if `N` is the size of the tree. It returns a tree of accepted runs with
almost the probability that the prover is accepted. -/
theorem C97_extractor {α : Type} {T k B : Nat} (A : Algo Event α) (hT : A.AtMost T) (V : α → Algo Event Unit)
    (hV : ∀ p, (V p).AtMost k) (test : Hash → α → Bool) (key : Hash → α → Nat → Option (List Event))
    (hask : ∀ ro i l, test ro (A.run id ro) = true → key ro (A.run id ro) i = some l →
      l ∈ A.asked id ro ++ (V (A.run id ro)).asked id ro)
    (K : Nat → Nat) (hK : ∀ i, 1 ≤ K i) (r : Nat) (ro : Hash) (D : Finset (List Event))
    (hD : ∀ ro, ∀ l ∈ A.asked id ro ++ (V (A.run id ro)).asked id ro, l ∈ D)
    (hB : ∀ c : F, Nat.card {v : Vector UInt8 64 // ((leNat v.toList : Nat) : F) = c} ≤ B) (d : Nat) :
    let P := fun ro => A.run id ro
    let E := Rewinder.rewind (scalarOf F) test key K r d
    mean ro D (fun ro => (E ro).runs P) ≤ 1 + (T + k : Nat) * (∏ j ∈ Finset.range d, (K j : ℚ) - 1) ∧
    chance ro D (fun ro => test ro (P ro) = true) ≤
      mean ro D (fun ro => (E ro).chance P fun o => ∃ runs, o = some runs ∧ runs.length ≤ ∏ j ∈ Finset.range d, K j ∧
        Forks (scalarOf F) (fun ro' => test ro' (P ro') = true ∧ (ro', P ro') ∈ runs) (fun ro => key ro (P ro)) K d 0 ro) +
      (T + k : Nat) * ∑ j ∈ Finset.range d, ((K j - 1 : ℚ) / (r + 1) + (K j * (K j - 1) / 2 : ℚ) * ((B : ℚ) / 2 ^ 512)) := by
  intro P E
  have hT' : ∀ ro, (((A.andThen V).asked id ro).toFinset).card ≤ T + k := fun ro =>
    (List.toFinset_card_le _).trans (Algo.asked_length id ro _ _ (Algo.andThen_atMost V k hV A T hT))
  have hupd : ∀ ro l v, l ∉ ((A.andThen V).asked id ro).toFinset →
      ((A.andThen V).asked id (Function.update ro l v)).toFinset = ((A.andThen V).asked id ro).toFinset := by
    intro ro l v h
    rw [List.mem_toFinset] at h
    rw [Algo.asked_update_of_not_mem ro l v _ h]
  have hD' : ∀ ro, ((A.andThen V).asked id ro).toFinset ⊆ D := by
    intro ro l hl
    rw [List.mem_toFinset, Algo.asked_andThen] at hl
    exact hD ro l hl
  have hask' : ∀ ro i l, test ro (P ro) = true → key ro (P ro) i = some l →
      l ∈ ((A.andThen V).asked id ro).toFinset := by
    intro ro i l h1 h2
    rw [List.mem_toFinset, Algo.asked_andThen]
    exact hask ro i l h1 h2
  exact ⟨Rewinder.mean_rewind P (scalarOf F) test key K r ro D hD' hT' hupd hask' hK d,
    Rewinder.chance_rewind P (scalarOf F) test key K r ro D hD' hT' hupd hask' hK hB d⟩

set_option exponentiation.threshold 600 in
/-- The extractor, if all trees have a property `Good`. -/
theorem extractor_by {α : Type} {T k B d : Nat} {A : Algo Event α} (hT : A.AtMost T) (V : α → Algo Event Unit)
    (hV : ∀ p, (V p).AtMost k) {test : Hash → α → Bool} {key : Hash → α → Nat → Option (List Event)}
    (hask : ∀ ro i l, test ro (A.run id ro) = true → key ro (A.run id ro) i = some l →
      l ∈ A.asked id ro ++ (V (A.run id ro)).asked id ro)
    {K : Nat → Nat} (hK : ∀ i, 1 ≤ K i) {r : Nat} {ro : Hash} {D : Finset (List Event)}
    (hD : ∀ ro, ∀ l ∈ A.asked id ro ++ (V (A.run id ro)).asked id ro, l ∈ D)
    (hB : ∀ c : F, Nat.card {v : Vector UInt8 64 // ((leNat v.toList : Nat) : F) = c} ≤ B)
    {N : Nat} (hN : ∏ j ∈ Finset.range d, K j = N) {e : ℚ}
    (he : ∑ j ∈ Finset.range d, ((K j - 1 : ℚ) / (r + 1) + (K j * (K j - 1) / 2 : ℚ) * ((B : ℚ) / 2 ^ 512)) = e)
    {Acc : Hash → Prop} (hAcc : ∀ ro, test ro (A.run id ro) = true ↔ Acc ro)
    {Good : Hash → List (Hash × α) → Prop}
    (hgood : ∀ ro runs, Forks (scalarOf F) (fun ro' => Acc ro' ∧ (ro', A.run id ro') ∈ runs)
      (fun ro => key ro (A.run id ro)) K d 0 ro → Good ro runs) :
    mean ro D (fun ro => (Rewinder.rewind (scalarOf F) test key K r d ro).runs fun ro => A.run id ro) ≤
      1 + (T + k : Nat) * ((N : ℚ) - 1) ∧
    chance ro D Acc ≤ mean ro D (fun ro => (Rewinder.rewind (scalarOf F) test key K r d ro).chance
      (fun ro => A.run id ro) fun o => ∃ runs, o = some runs ∧ runs.length ≤ N ∧ Good ro runs) + (T + k : Nat) * e := by
  obtain ⟨h1, h2⟩ := C97_extractor (F := F) A hT V hV test key hask K hK r ro D hD hB d
  have hN' : ∏ j ∈ Finset.range d, (K j : ℚ) = N := by rw [← hN, Nat.cast_prod]
  rw [hN'] at h1
  rw [hN, he] at h2
  have e1 : (fun ro => test ro (A.run id ro) = true) = Acc := funext fun ro => propext (hAcc ro)
  have e2 : (fun ro => test ro ((fun ro => A.run id ro) ro) = true) = Acc := e1
  rw [e2] at h2
  refine ⟨h1, h2.trans (add_le_add (mean_mono _ _ fun ro => Rewinder.expect_mono _ (fun o => ?_) _) (le_refl _))⟩
  by_cases h : ∃ runs, o = some runs ∧ runs.length ≤ N ∧ Good ro runs
  · rw [if_pos h]
    split_ifs <;> norm_num
  · rw [if_neg h, if_neg]
    rintro ⟨runs, hr1, hr2, hr3⟩
    refine h ⟨runs, hr1, hr2, hgood ro runs (hr3.mono fun ro h => ⟨(hAcc ro).1 h.1, h.2⟩)⟩

/-- The sum of the errors if all challenges need the same number of answers. -/
theorem error_const (d k r : Nat) (κ : ℚ) :
    ∑ j ∈ Finset.range d, (((fun _ => k) j - 1 : ℚ) / (r + 1) + ((fun _ => k) j * ((fun _ => k) j - 1) / 2 : ℚ) * κ) =
      d * ((k - 1) / (r + 1) + k * (k - 1) / 2 * κ) := by
  rw [Finset.sum_const, Finset.card_range, nsmul_eq_mul]

/-- The number of answers wanted: `k0` at the first challenge, four at the others. -/
def firstMore (k0 : Nat) (i : Nat) : Nat := if i = 0 then k0 else 4

theorem firstMore_prod (k0 d : Nat) : ∏ j ∈ Finset.range (d + 1), firstMore k0 j = k0 * 4 ^ d := by
  rw [Finset.prod_range_succ', Nat.mul_comm]
  simp [firstMore]

theorem firstMore_error (k0 d r : Nat) (κ : ℚ) :
    ∑ j ∈ Finset.range (d + 1), ((firstMore k0 j - 1 : ℚ) / (r + 1) + (firstMore k0 j * (firstMore k0 j - 1) / 2 : ℚ) * κ) =
      (k0 - 1) / (r + 1) + k0 * (k0 - 1) / 2 * κ + d * (3 / (r + 1) + 6 * κ) := by
  rw [Finset.sum_range_succ', add_comm]
  have : ∀ j, firstMore k0 (j + 1) = 4 := fun j => rfl
  simp only [this, Finset.sum_const, Finset.card_range, nsmul_eq_mul]
  have : firstMore k0 0 = k0 := rfl
  rw [this]
  push_cast
  ring

section
variable [DecidableEq G]

/-! ### The inner-product argument -/

/-- The extractor for the inner-product argument: four answers at each of the `q + 1` challenges. -/
def ipaExtractor (cd : Codec G) (log : List Event) (Gs Hs : List G) (Q P : G) (t : F) (q r : Nat) :
    Hash → Rewinder (Ipa.NoZK F) (Option (List (Hash × Ipa.NoZK F))) :=
  Rewinder.rewind (scalarOf F) (fun ro p => accepted (p.verify ⟨cd, ro⟩ ⟨log⟩ Gs Hs Q (2 ^ q) P t))
    (fun _ p i => (ipaHistories log (2 ^ q) p)[i]?) (fun _ => 4) r (q + 1)

set_option exponentiation.threshold 600 in
/-- C97: the inner-product argument is a proof of knowledge in the random-oracle model. For every prover, the extractor
runs it at most `1 + (T + q + 1) (4 ^ (q + 1) - 1)` times on average and returns, with almost the probability that the
prover is accepted, accepted runs that contain a tree of conversations. From the scalars of the tree, C21 computes a
witness or a relation between the generators. -/
theorem C97_ipa_extractor {q T B : Nat} (cd : Codec G) (Gs Hs : List G) (hG : Gs.length = 2 ^ q)
    (hH : Hs.length = 2 ^ q) (Q P : G) (t : F) (log : List Event)
    (hB : ∀ c : F, Nat.card {v : Vector UInt8 64 // ((leNat v.toList : Nat) : F) = c} ≤ B)
    (A : Algo Event (Ipa.NoZK F)) (hT : A.AtMost T) (r : Nat) (ro : Hash) (D : Finset (List Event))
    (hD : ∀ ro, ∀ l ∈ A.asked id ro ++ ipaHistories log (2 ^ q) (A.run id ro), l ∈ D) :
    let E := ipaExtractor cd log Gs Hs Q P t q r
    let Acc := fun ro => ∃ tr', (A.run id ro).verify ⟨cd, ro⟩ ⟨log⟩ Gs Hs Q (2 ^ q) P t = .ok (true, tr')
    mean ro D (fun ro => (E ro).runs fun ro => A.run id ro) ≤
      1 + (T + (q + 1) : Nat) * ((4 ^ (q + 1) : Nat) - 1) ∧
    chance ro D Acc ≤ mean ro D (fun ro => (E ro).chance (fun ro => A.run id ro) fun o =>
      ∃ runs, o = some runs ∧ runs.length ≤ 4 ^ (q + 1) ∧ ∃ (α : Fin 2 → F) (T : Fin 2 → IpaTree F G q),
        (∀ i, ∀ c ∈ (T i).paths, ∃ ro', (ro', A.run id ro') ∈ runs ∧ Reprogrammed (q + 1) ro ro' ∧ Acc ro' ∧
          ipaAlpha F ro' log (2 ^ q) = α i ∧ Continues cd (A.run id ro')
            (ipaChallenges F ro' log (2 ^ q) (A.run id ro').L_vec (A.run id ro').R_vec) c) ∧
        match extractIpa t α fun i => (T i).scalars with
        | .inl (a, b) => a.length = 2 ^ q ∧ b.length = 2 ^ q ∧ P = dot a Gs + dot b Hs + t • Q ∧ dot a b = t
        | .inr r => IsRelation Gs Hs Q r) +
      (T + (q + 1) : Nat) * ((q + 1) * (3 / (r + 1) + 6 * (B / 2 ^ 512))) := by
  intro E Acc
  refine extractor_by hT (fun p => Algo.askAll () ((ipaHistories log (2 ^ q) p).take (q + 1)))
    (fun p => Algo'.askAll_atMost _ _ _ (List.length_take_le _ _)) ?_ (fun _ => by norm_num) ?_ hB (by simp) ?_
    (fun ro => accepted_iff _) ?_
  · intro ro i l h hl
    obtain ⟨tr', h⟩ := (accepted_iff _).1 h
    refine List.mem_append_right _ ?_
    rw [Algo'.askAll_asked]
    have hv := (C22_ipa_verify_returns_iff _ _ _ _ _ _ _ _ _).1 ⟨_, h⟩
    have hq : (A.run id ro).L_vec.length = q := (Nat.pow_right_injective le_rfl hv.2.2.2.1).symm
    rw [List.take_of_length_le (by simp [ipaHistories]; omega)]
    exact List.mem_of_getElem? hl
  · intro ro l hl
    apply hD ro
    rw [Algo'.askAll_asked] at hl
    rcases List.mem_append.1 hl with hl | hl
    · exact List.mem_append_left _ hl
    · exact List.mem_append_right _ (List.mem_of_mem_take hl)
  · rw [error_const]
    push_cast
    ring
  · intro ro runs h
    obtain ⟨α, T, h1, h2⟩ := ipa_extraction cd Gs Hs hG hH Q P t log (fun _ => le_rfl) (fun ro => A.run id ro) _
      (fun _ h => h.1) ro h
    refine ⟨α, T, fun i c hc => ?_, h2⟩
    obtain ⟨ro', e1, e2, e3⟩ := h1 i c hc
    exact ⟨ro', e2.2, e1, e2.1, e3⟩

/-! ### AlmZK -/

/-- The extractor for AlmZK: four answers at each of the `q + 2` challenges. -/
def almExtractor (cd : Codec G) (log : List Event) (Gs Hs : List G) (Q C_w : G) (t : F) (q r : Nat) :
    Hash → Rewinder (Ipa.AlmZK F) (Option (List (Hash × Ipa.AlmZK F))) :=
  Rewinder.rewind (scalarOf F) (fun ro p => accepted (p.verify ⟨cd, ro⟩ ⟨log⟩ Gs Hs Q (2 ^ q) C_w t))
    (fun ro p i => (almHistories cd ro log (2 ^ q) Q C_w t p)[i]?) (fun _ => 4) r (q + 2)

set_option exponentiation.threshold 600 in
/-- C97: AlmZK is a proof of knowledge in the random-oracle model. -/
theorem C97_alm_extractor {q T B : Nat} (cd : Codec G) (Gs Hs : List G) (hG : Gs.length = 2 ^ q)
    (hH : Hs.length = 2 ^ q) (Q C_w : G) (t : F) (log : List Event)
    (hB : ∀ c : F, Nat.card {v : Vector UInt8 64 // ((leNat v.toList : Nat) : F) = c} ≤ B)
    (A : Algo Event (Ipa.AlmZK F)) (hT : A.AtMost T) (r : Nat) (ro : Hash) (D : Finset (List Event))
    (hD : ∀ ro, ∀ l ∈ A.asked id ro ++ almHistories cd ro log (2 ^ q) Q C_w t (A.run id ro), l ∈ D) :
    let E := almExtractor cd log Gs Hs Q C_w t q r
    let Acc := fun ro => ∃ tr', (A.run id ro).verify ⟨cd, ro⟩ ⟨log⟩ Gs Hs Q (2 ^ q) C_w t = .ok (true, tr')
    mean ro D (fun ro => (E ro).runs fun ro => A.run id ro) ≤
      1 + (T + (q + 2) : Nat) * ((4 ^ (q + 2) : Nat) - 1) ∧
    chance ro D Acc ≤ mean ro D (fun ro => (E ro).chance (fun ro => A.run id ro) fun o =>
      ∃ runs, o = some runs ∧ runs.length ≤ 4 ^ (q + 2) ∧
        ∃ (β : Fin 3 → F) (α : Fin 3 → Fin 2 → F) (T : Fin 3 → Fin 2 → IpaTree F G q),
        (∀ i j, ∀ c ∈ (T i j).paths, ∃ ro', (ro', A.run id ro') ∈ runs ∧ Reprogrammed (q + 2) ro ro' ∧ Acc ro' ∧
          let p := A.run id ro'
          let lg := almLog cd ro' log Q C_w t p.C_r
          p.C_r = (A.run id ro).C_r ∧ almBeta F ro' log p.C_r = β i ∧ ipaAlpha F ro' lg (2 ^ q) = α i j ∧
          Continues cd p.NoZK (ipaChallenges F ro' lg (2 ^ q) p.NoZK.L_vec p.NoZK.R_vec) c) ∧
        match extractAlm t β α fun i j => (T i j).scalars with
        | .inl (u, v) => u.length = 2 ^ q ∧ v.length = 2 ^ q ∧ C_w = dot u Gs + dot v Hs ∧ dot u v = t
        | .inr r => IsRelation Gs Hs Q r) +
      (T + (q + 2) : Nat) * ((q + 2) * (3 / (r + 1) + 6 * (B / 2 ^ 512))) := by
  intro E Acc
  refine extractor_by hT (almVerifierQueries cd log (2 ^ q) (q + 1) Q C_w t)
    (fun p => almVerifierQueries_atMost cd log _ _ Q C_w t p) ?_ (fun _ => by norm_num) ?_ hB (by simp) ?_
    (fun ro => accepted_iff _) ?_
  · intro ro i l h hl
    obtain ⟨tr', h⟩ := (accepted_iff _).1 h
    refine List.mem_append_right _ ?_
    rw [almVerifierQueries_asked]
    have hq := alm_rounds h
    rw [List.take_of_length_le (by simp [almHistories, ipaHistories]; omega)]
    exact List.mem_of_getElem? hl
  · intro ro l hl
    apply hD ro
    rw [almVerifierQueries_asked] at hl
    rcases List.mem_append.1 hl with hl | hl
    · exact List.mem_append_left _ hl
    · exact List.mem_append_right _ (List.mem_of_mem_take hl)
  · rw [error_const]
    push_cast
    ring
  · intro ro runs h
    obtain ⟨β, α, T, h1, h2⟩ := alm_extraction cd Gs Hs hG hH Q C_w t log (fun _ => le_rfl) (fun ro => A.run id ro) _
      (fun _ h => h.1) ro h
    refine ⟨β, α, T, fun i j c hc => ?_, h2⟩
    obtain ⟨ro', e1, e2, e3⟩ := h1 i j c hc
    exact ⟨ro', e2.2, e1, e2.1, e3⟩

/-! ### QESA -/

section
variable {m k : Nat}

/-- The extractor for QESA: `max (m + 1) 4` answers at the challenge `s`, four at each of the `q + 3` challenges that
follow. -/
def qesaExtractor (cd : Codec G) (log : List Event) (Gs Hs : List G) (Q : G)
    (Ms : Fin (k + 1) → Matrix (Fin m) (Fin m) F) (q r : Nat) :
    Hash → Rewinder (Zk.Proof F) (Option (List (Hash × Zk.Proof F))) :=
  Rewinder.rewind (scalarOf F) (fun ro p =>
      accepted (p.verify ⟨cd, ro⟩ ⟨log⟩ Gs Hs Q ⟨List.ofFn fun i => rows (Ms i)⟩) &&
        decide (qesaX F ro log p.inner.c_prime_w ≠ 0))
    (fun ro p i => (qesaHistories cd ro log Gs Hs Q Ms p.inner)[i + 1]?) (firstMore (max (m + 1) 4)) r (q + 4)

set_option exponentiation.threshold 600 in
/-- C97: QESA is a proof of knowledge in the random-oracle model. The extractor works if the challenge `x` is not 0 (the
chance of the opposite is bounded in C93). -/
theorem C97_qesa_extractor {q T B : Nat} (hq : m + 2 = 2 ^ q) (cd : Codec G) (Gs Hs : List G)
    (hG : Gs.length = m + 2) (hH : Hs.length = m + 2) (Q : G) (Ms : Fin (k + 1) → Matrix (Fin m) (Fin m) F)
    (log : List Event)
    (hB : ∀ c : F, Nat.card {v : Vector UInt8 64 // ((leNat v.toList : Nat) : F) = c} ≤ B)
    (A : Algo Event (Zk.Proof F)) (hT : A.AtMost T) (r : Nat) (ro : Hash) (D : Finset (List Event))
    (hD : ∀ ro, ∀ l ∈ A.asked id ro ++ qesaHistories cd ro log Gs Hs Q Ms (A.run id ro).inner, l ∈ D) :
    let E := qesaExtractor cd log Gs Hs Q Ms q r
    let Acc := fun ro => (∃ tr', (A.run id ro).verify ⟨cd, ro⟩ ⟨log⟩ Gs Hs Q ⟨List.ofFn fun i => rows (Ms i)⟩ =
      .ok (true, tr')) ∧ qesaX F ro log (A.run id ro).inner.c_prime_w ≠ 0
    let k0 := max (m + 1) 4
    mean ro D (fun ro => (E ro).runs fun ro => A.run id ro) ≤
      1 + (T + (q + 5) : Nat) * ((k0 * 4 ^ (q + 3) : Nat) - 1) ∧
    chance ro D Acc ≤ mean ro D (fun ro => (E ro).chance (fun ro => A.run id ro) fun o =>
      let c' := (A.run id ro).inner.c_prime_w
      let c'' := (A.run id ro).inner.c_prime_prime_w
      let x := qesaX F ro log c'
      let M' := batched (m + 2) Ms x
      ∃ runs, o = some runs ∧ runs.length ≤ k0 * 4 ^ (q + 3) ∧
      ∃ (C' C'' : G) (s : Fin (m + 1) → F) (b : Fin (m + 1) → Fin 3 → F)
        (β : Fin (m + 1) → Fin 3 → Fin 3 → F) (α : Fin (m + 1) → Fin 3 → Fin 3 → Fin 2 → F)
        (T : Fin (m + 1) → Fin 3 → Fin 3 → Fin 2 → IpaTree F G q),
        c' = cd.compress C' ∧ c'' = cd.compress C'' ∧
        (∀ i j l e, ∀ c ∈ (T i j l e).paths, ∃ ro', (ro', A.run id ro') ∈ runs ∧ Reprogrammed (q + 4) ro ro' ∧ Acc ro' ∧
          let p := (A.run id ro').inner
          let lg1 := Spec.qesaLog cd ro' log Gs Hs Ms p
          let c1 := qesaClaimed cd ro' log Gs Hs Ms p
          let lg2 := almLog cd ro' lg1 Q c1.1 c1.2 p.alm_zk.C_r
          p.c_prime_w = c' ∧ p.c_prime_prime_w = c'' ∧ qesaX F ro' log c' = x ∧ qesaS F ro' log c' c'' = s i ∧
          qesaB F ro' log c' c'' = b i j ∧ almBeta F ro' lg1 p.alm_zk.C_r = β i j l ∧
          ipaAlpha F ro' lg2 (2 ^ q) = α i j l e ∧
          Continues cd p.alm_zk.NoZK (ipaChallenges F ro' lg2 (2 ^ q) p.alm_zk.NoZK.L_vec p.alm_zk.NoZK.R_vec) c) ∧
        match extractQesa M' x s b fun i j => extractAlm (- quad M' (powers (s i) m)) (β i j) (α i j)
            fun l e => (T i j l e).scalars with
        | .inl (w, v) => ∃ (u : Fin m → F) (r0 r1 : F),
            w = List.ofFn u ++ [r0, r1] ∧ v = List.ofFn (M'.mulVec u) ++ [-r1, r0] ∧ quad M' u = 0 ∧
            C' + C'' = dot w (rescaled (x ^ 2) Gs) + (1 - (x ^ 2)⁻¹) • Gs.headD 0 + dot v Hs
        | .inr r => IsRelation Gs Hs Q r) +
      (T + (q + 5) : Nat) * ((k0 - 1 : ℚ) / (r + 1) + k0 * (k0 - 1 : ℚ) / 2 * (B / 2 ^ 512) +
        (q + 3 : Nat) * (3 / (r + 1) + 6 * (B / 2 ^ 512))) := by
  intro E Acc k0
  refine extractor_by (d := q + 4) hT (fun p => qesaVerifierQueries cd log Gs Hs Q Ms (q + 1) p.inner)
    (fun p => qesaVerifierQueries_atMost cd log Gs Hs Q Ms _ p.inner) ?_ (fun i => ?_) ?_ hB
    (firstMore_prod k0 (q + 3)) (firstMore_error k0 (q + 3) r _) (Acc := Acc) (fun ro => ?_) ?_
  · intro ro i l h hl
    obtain ⟨tr', h⟩ := (accepted_iff _).1 (Bool.and_eq_true_iff.1 h).1
    refine List.mem_append_right _ ?_
    rw [qesaVerifierQueries_asked]
    have hr := qesa_rounds hq hG hH (show (A.run id ro).inner.verify _ _ _ _ _ _ = _ from h)
    rw [List.take_of_length_le (by simp [qesaHistories, almHistories, ipaHistories]; omega)]
    exact List.mem_of_getElem? hl
  · unfold firstMore
    split <;> omega
  · intro ro l hl
    apply hD ro
    rw [qesaVerifierQueries_asked] at hl
    rcases List.mem_append.1 hl with hl | hl
    · exact List.mem_append_left _ hl
    · exact List.mem_append_right _ (List.mem_of_mem_take hl)
  · rw [Bool.and_eq_true_iff, accepted_iff, decide_eq_true_iff]
  · intro ro runs h
    have h' := forks_shift (K := fun i => firstMore k0 (i - 1))
      (key := fun ro i => (qesaHistories cd ro log Gs Hs Q Ms (A.run id ro).inner)[i]?) 1 (q + 4) 0 ro (by exact h)
    obtain ⟨C', C'', s, b, β, α, T, h1, h2, h3, h4⟩ := qesa_extraction hq cd Gs Hs hG hH Q Ms log
      (K := fun i => firstMore k0 (i - 1)) (fun i => by simp only [firstMore]; split <;> omega) (le_max_left _ _)
      (fun ro => A.run id ro) _ (fun _ h => h.1.1) ro h' h.acc.1.2
    refine ⟨C', C'', s, b, β, α, T, h1, h2, fun i j l e c hc => ?_, h4⟩
    obtain ⟨ro', e1, e2, e3⟩ := h3 i j l e c hc
    exact ⟨ro', e2.2, e1, e2.1, e3⟩

/-! ### Copy -/

/-- The extractor for Copy: `max (m + 2) 4` answers at the challenge `s`, four at each of the `q + 3` challenges that
follow. -/
def copyExtractor (cd : Codec G) (log : List Event) (Gs Hs : List G) (Q : G)
    (Us : List (Matrix (Fin (m + 1)) (Fin (m + 1)) F)) (map : Copy.Mapping) (Cs : List G) (q r : Nat) :
    Hash → Rewinder (Copy.Proof F) (Option (List (Hash × Copy.Proof F))) :=
  Rewinder.rewind (scalarOf F) (fun ro p =>
      accepted (p.verify ⟨cd, ro⟩ ⟨log⟩ Gs Hs Q ⟨Us.map rows⟩ map Cs) &&
        decide (qesaX F ro (log ++ [.msg "c_w" p.C_w, .chal "alpha" 64]) (copyInner cd ro log Cs p).c_prime_w ≠ 0))
    (fun ro p i => (copyHistories cd ro log Gs Hs Q Us map Cs p)[i + 2]?) (firstMore (max (m + 2) 4)) r (q + 4)

set_option exponentiation.threshold 600 in
/-- C97: Copy is a proof of knowledge in the random-oracle model. The extractor works if the challenge `x` is not 0 (the
chance of the opposite is bounded in C94). -/
theorem C97_copy_extractor {q T B ws : Nat} (hq : m + 3 = 2 ^ q) (cd : Codec G) (Gs Hs : List G)
    (hG : Gs.length = m + 3) (hH : Hs.length = m + 3) (Q : G) (Us : List (Matrix (Fin (m + 1)) (Fin (m + 1)) F))
    (sets : List (List Nat)) (map : Copy.Mapping) (Cs : List G) (hn : m + 3 < 65536) (hws : ws < 65536)
    (hs : sets.length ≤ 65536) (hmap : Copy.computeMapping (m + 3) ws sets = .ok map)
    (hi : ∀ s ∈ sets, ∀ i ∈ s, i < m + 1) (hC : Cs.length = sets.length) (log : List Event)
    (hB : ∀ c : F, Nat.card {v : Vector UInt8 64 // ((leNat v.toList : Nat) : F) = c} ≤ B)
    (A : Algo Event (Copy.Proof F)) (hT : A.AtMost T) (r : Nat) (ro : Hash) (D : Finset (List Event))
    (hD : ∀ ro, ∀ l ∈ A.asked id ro ++ copyHistories cd ro log Gs Hs Q Us map Cs (A.run id ro), l ∈ D) :
    let E := copyExtractor cd log Gs Hs Q Us map Cs q r
    let logOf := fun ro => log ++ [.msg "c_w" (A.run id ro).C_w, .chal "alpha" 64]
    let Acc := fun ro => (∃ tr', (A.run id ro).verify ⟨cd, ro⟩ ⟨log⟩ Gs Hs Q ⟨Us.map rows⟩ map Cs = .ok (true, tr')) ∧
      qesaX F ro (logOf ro) (copyInner cd ro log Cs (A.run id ro)).c_prime_w ≠ 0
    let k0 := max (m + 2) 4
    mean ro D (fun ro => (E ro).runs fun ro => A.run id ro) ≤
      1 + (T + (q + 6) : Nat) * ((k0 * 4 ^ (q + 3) : Nat) - 1) ∧
    chance ro D Acc ≤ mean ro D (fun ro => (E ro).chance (fun ro => A.run id ro) fun o =>
      let c_w := (A.run id ro).C_w
      let c'' := (A.run id ro).inner.c_prime_prime_w
      let α₀ := copyAlpha F ro log c_w
      let log1 := logOf ro
      let c' := (copyInner cd ro log Cs (A.run id ro)).c_prime_w
      let x := qesaX F ro log1 c'
      let M' := batched (m + 3) (copySystem Us map α₀).get x
      ∃ runs, o = some runs ∧ runs.length ≤ k0 * 4 ^ (q + 3) ∧
      ∃ (C_w C'' : G) (s : Fin (m + 2) → F) (b : Fin (m + 2) → Fin 3 → F)
        (β : Fin (m + 2) → Fin 3 → Fin 3 → F) (α : Fin (m + 2) → Fin 3 → Fin 3 → Fin 2 → F)
        (T : Fin (m + 2) → Fin 3 → Fin 3 → Fin 2 → IpaTree F G q),
        let C' := dot (List.ofFn (powers α₀ Cs.length)) Cs + C_w;
        c_w = cd.compress C_w ∧ c'' = cd.compress C'' ∧ c' = cd.compress C' ∧
        (∀ i j l e, ∀ c ∈ (T i j l e).paths, ∃ ro', (ro', A.run id ro') ∈ runs ∧ Reprogrammed (q + 4) ro ro' ∧ Acc ro' ∧
          let p := A.run id ro'
          let pi := copyInner cd ro' log Cs p
          let Ms := (copySystem Us map α₀).get
          let lg1 := Spec.qesaLog cd ro' log1 Gs Hs Ms pi
          let c1 := qesaClaimed cd ro' log1 Gs Hs Ms pi
          let lg2 := almLog cd ro' lg1 Q c1.1 c1.2 p.inner.alm_zk.C_r
          p.C_w = c_w ∧ copyAlpha F ro' log c_w = α₀ ∧ p.inner.c_prime_prime_w = c'' ∧
          qesaX F ro' log1 c' = x ∧ qesaS F ro' log1 c' c'' = s i ∧
          qesaB F ro' log1 c' c'' = b i j ∧ almBeta F ro' lg1 p.inner.alm_zk.C_r = β i j l ∧
          ipaAlpha F ro' lg2 (2 ^ q) = α i j l e ∧
          Continues cd p.inner.alm_zk.NoZK (ipaChallenges F ro' lg2 (2 ^ q) p.inner.alm_zk.NoZK.L_vec
            p.inner.alm_zk.NoZK.R_vec) c) ∧
        match extractQesa M' x s b fun i j => extractAlm (- quad M' (powers (s i) (m + 1))) (β i j) (α i j)
            fun l e => (T i j l e).scalars with
        | .inl (w, v) => ∃ (u : Fin (m + 1) → F) (r0 r1 : F),
            w = List.ofFn u ++ [r0, r1] ∧ v = List.ofFn (M'.mulVec u) ++ [-r1, r0] ∧ quad M' u = 0 ∧
            C' + C'' = dot w (rescaled (x ^ 2) Gs) + (1 - (x ^ 2)⁻¹) • Gs.headD 0 + dot v Hs
        | .inr r => IsRelation Gs Hs Q r) +
      (T + (q + 6) : Nat) * ((k0 - 1 : ℚ) / (r + 1) + k0 * (k0 - 1 : ℚ) / 2 * (B / 2 ^ 512) +
        (q + 3 : Nat) * (3 / (r + 1) + 6 * (B / 2 ^ 512))) := by
  intro E logOf Acc k0
  refine extractor_by (d := q + 4) hT (fun p => copyVerifierQueries cd log Gs Hs Q Us map Cs (q + 1) p)
    (fun p => copyVerifierQueries_atMost cd log Gs Hs Q Us map Cs _ p) ?_ (fun i => ?_) ?_ hB
    (firstMore_prod k0 (q + 3)) (firstMore_error k0 (q + 3) r _) (Acc := Acc) (fun ro => ?_) ?_
  · intro ro i l h hl
    obtain ⟨tr', h⟩ := (accepted_iff _).1 (Bool.and_eq_true_iff.1 h).1
    refine List.mem_append_right _ ?_
    rw [copyVerifierQueries_asked]
    obtain ⟨-, k, -, hk, h⟩ := copy_accepted hG hn hws hs hmap hi hC h
    rw [hk] at h
    have hr := qesa_rounds hq hG hH h
    simp only [copyInner] at hr
    rw [List.take_of_length_le (by
      simp [copyHistories, copyInner, qesaHistories, almHistories, ipaHistories]; omega)]
    exact List.mem_of_getElem? hl
  · unfold firstMore
    split <;> omega
  · intro ro l hl
    apply hD ro
    rw [copyVerifierQueries_asked] at hl
    rcases List.mem_append.1 hl with hl | hl
    · exact List.mem_append_left _ hl
    · exact List.mem_append_right _ (List.mem_of_mem_take hl)
  · rw [Bool.and_eq_true_iff, accepted_iff, decide_eq_true_iff]
  · intro ro runs h
    have h' := forks_shift (K := fun i => firstMore k0 (i - 2))
      (key := fun ro i => (copyHistories cd ro log Gs Hs Q Us map Cs (A.run id ro))[i]?) 2 (q + 4) 0 ro (by exact h)
    obtain ⟨C_w, C'', s, b, β, α, T, h1, h2, h0, h3, h4⟩ := copy_extraction hq cd Gs Hs hG hH Q Us sets map Cs hn hws hs
      hmap hi hC log (K := fun i => firstMore k0 (i - 2)) (fun i => by simp only [firstMore]; split <;> omega)
      (le_max_left _ _) (fun ro => A.run id ro) _ (fun _ h => h.1.1) ro h' h.acc.1.2
    refine ⟨C_w, C'', s, b, β, α, T, h1, h2, h0, fun i j l e c hc => ?_, h4⟩
    obtain ⟨ro', e1, e2, e3⟩ := h3 i j l e c hc
    exact ⟨ro', e2.2, e1, e2.1, e3⟩

end

/-! ### The linear-map arguments -/

/-- The extractor for the linear-map argument: three answers at each of the `q` challenges. -/
def lmpaExtractor (cd : Codec G) (fuel : Nat) (log : List Event) (A : List (List G)) (Gs t : List G) (q r : Nat) :
    Hash → Rewinder (Lmpa.NoZK F G) (Option (List (Hash × Lmpa.NoZK F G))) :=
  Rewinder.rewind (scalarOf F) (fun ro p => accepted (p.verify ⟨cd, ro⟩ fuel ⟨log⟩ A Gs (2 ^ q) t))
    (fun _ p i => (lmpaQueries (plainPen cd.compress) log (p.L_Vec.take q) (p.R_Vec.take q))[i]?) (fun _ => 3) r q

set_option exponentiation.threshold 600 in
/-- C97: the linear-map argument is a proof of knowledge of a pre-image of the first entry under the first row, in the
random-oracle model. -/
theorem C97_lmpa_extractor {q T B fuel : Nat} (cd : Codec G) (row : List G) (rows : List (List G)) (Gs : List G)
    (t : G) (ts : List G) (hA : ∀ r ∈ row :: rows, r.length = 2 ^ q) (log : List Event)
    (hB : ∀ c : F, Nat.card {v : Vector UInt8 64 // ((leNat v.toList : Nat) : F) = c} ≤ B)
    (P : Algo Event (Lmpa.NoZK F G)) (hT : P.AtMost T) (r : Nat) (ro : Hash) (D : Finset (List Event))
    (hD : ∀ ro, ∀ l ∈ P.asked id ro ++ lmpaQueries (plainPen cd.compress) log ((P.run id ro).L_Vec.take q)
      ((P.run id ro).R_Vec.take q), l ∈ D) :
    let E := lmpaExtractor cd fuel log (row :: rows) Gs (t :: ts) q r
    let Acc := fun ro => ∃ tr', (P.run id ro).verify ⟨cd, ro⟩ fuel ⟨log⟩ (row :: rows) Gs (2 ^ q) (t :: ts) =
      .ok (true, tr')
    mean ro D (fun ro => (E ro).runs fun ro => P.run id ro) ≤ 1 + (T + q : Nat) * ((3 ^ q : Nat) - 1) ∧
    chance ro D Acc ≤ mean ro D (fun ro => (E ro).chance (fun ro => P.run id ro) fun o =>
      ∃ runs, o = some runs ∧ runs.length ≤ 3 ^ q ∧ ∃ T : LmpaTree F G q,
        (∀ c ∈ T.paths, ∃ ro', (ro', P.run id ro') ∈ runs ∧ Reprogrammed q ro ro' ∧ Acc ro' ∧
          let p := P.run id ro'
          c = (column (p.L_Vec.take q) 0, column (p.R_Vec.take q) 0,
            lmpaChallenges F ⟨cd, ro'⟩ log (p.L_Vec.take q) (p.R_Vec.take q), p.w)) ∧
        (extractLmpa T.scalars).length = 2 ^ q ∧ dot (extractLmpa T.scalars) row = t) +
      (T + q : Nat) * (q * (2 / (r + 1) + 3 * (B / 2 ^ 512))) := by
  intro E Acc
  refine extractor_by hT (fun p => Algo.askAll () (lmpaQueries (plainPen cd.compress) log (p.L_Vec.take q)
      (p.R_Vec.take q)))
    (fun p => Algo'.askAll_atMost _ _ _ ((lmpaQueries_length ..).trans (List.length_take_le _ _))) ?_
    (fun _ => by norm_num) ?_ hB (by simp) ?_ (fun ro => accepted_iff _) ?_
  · intro ro i l _ hl
    refine List.mem_append_right _ ?_
    rw [Algo'.askAll_asked]
    exact List.mem_of_getElem? hl
  · intro ro l hl
    rw [Algo'.askAll_asked] at hl
    exact hD ro l hl
  · rw [error_const]
    push_cast
    ring
  · intro ro runs h
    obtain ⟨T, h1, h2⟩ := lmpa_extraction cd row rows Gs t ts hA log (fun _ => le_rfl) (fun ro => P.run id ro) _
      (fun _ h => h.1) ro h
    refine ⟨T, fun c hc => ?_, h2⟩
    obtain ⟨ro', e1, e2, e3⟩ := h1 c hc
    exact ⟨ro', e2.2, e1, e2.1, e3⟩

/-- The extractor for SimpleZK: three answers at each of the `q + 1` challenges. -/
def simpleExtractor (cd : Codec G) (fuel : Nat) (log : List Event) (A : List (List G)) (Gs t : List G) (q r : Nat) :
    Hash → Rewinder (Lmpa.SimpleZK F G) (Option (List (Hash × Lmpa.SimpleZK F G))) :=
  Rewinder.rewind (scalarOf F) (fun ro p => accepted (p.verify ⟨cd, ro⟩ fuel ⟨log⟩ A Gs (2 ^ q) t))
    (fun _ p i => (simpleQueries (plainPen cd.compress) log p.a (p.no_zk.L_Vec.take q) (p.no_zk.R_Vec.take q))[i]?)
    (fun _ => 3) r (q + 1)

set_option exponentiation.threshold 600 in
/-- C97: SimpleZK is a proof of knowledge of a pre-image of the first entry under the first row, in the random-oracle
model. -/
theorem C97_simple_extractor {q T B fuel : Nat} (cd : Codec G) (row : List G) (rows : List (List G)) (Gs : List G)
    (t : G) (ts : List G) (hA : ∀ r ∈ row :: rows, r.length = 2 ^ q) (log : List Event)
    (hB : ∀ c : F, Nat.card {v : Vector UInt8 64 // ((leNat v.toList : Nat) : F) = c} ≤ B)
    (P : Algo Event (Lmpa.SimpleZK F G)) (hT : P.AtMost T) (r : Nat) (ro : Hash) (D : Finset (List Event))
    (hD : ∀ ro, ∀ l ∈ P.asked id ro ++ simpleQueries (plainPen cd.compress) log (P.run id ro).a
      ((P.run id ro).no_zk.L_Vec.take q) ((P.run id ro).no_zk.R_Vec.take q), l ∈ D) :
    let E := simpleExtractor cd fuel log (row :: rows) Gs (t :: ts) q r
    let Acc := fun ro => ∃ tr', (P.run id ro).verify ⟨cd, ro⟩ fuel ⟨log⟩ (row :: rows) Gs (2 ^ q) (t :: ts) =
      .ok (true, tr')
    mean ro D (fun ro => (E ro).runs fun ro => P.run id ro) ≤ 1 + (T + (q + 1) : Nat) * ((3 ^ (q + 1) : Nat) - 1) ∧
    chance ro D Acc ≤ mean ro D (fun ro => (E ro).chance (fun ro => P.run id ro) fun o =>
      ∃ runs, o = some runs ∧ runs.length ≤ 3 ^ (q + 1) ∧ ∃ (β : Fin 2 → F) (T : Fin 2 → LmpaTree F G q),
        (∀ i, ∀ c ∈ (T i).paths, ∃ ro', (ro', P.run id ro') ∈ runs ∧ Reprogrammed (q + 1) ro ro' ∧ Acc ro' ∧
          let p := P.run id ro'
          p.a = (P.run id ro).a ∧ simpleBeta F ⟨cd, ro'⟩ log p.a = β i ∧
          c = (column (p.no_zk.L_Vec.take q) 0, column (p.no_zk.R_Vec.take q) 0,
            lmpaChallenges F ⟨cd, ro'⟩ (simpleLog ⟨cd, ro'⟩ log p.a) (p.no_zk.L_Vec.take q) (p.no_zk.R_Vec.take q),
            p.no_zk.w)) ∧
        (extractSimple β fun i => (T i).scalars).length = 2 ^ q ∧
        dot (extractSimple β fun i => (T i).scalars) row = t) +
      (T + (q + 1) : Nat) * ((q + 1) * (2 / (r + 1) + 3 * (B / 2 ^ 512))) := by
  intro E Acc
  refine extractor_by hT (fun p => Algo.askAll () (simpleKeys cd log q p))
    (fun p => Algo'.askAll_atMost _ _ _ ?_) ?_ (fun _ => by norm_num) ?_ hB (by simp) ?_ (fun ro => accepted_iff _) ?_
  · rw [simpleKeys, simpleQueries, List.length_cons]
    exact Nat.succ_le_succ ((lmpaQueries_length ..).trans (List.length_take_le _ _))
  · intro ro i l _ hl
    refine List.mem_append_right _ ?_
    rw [Algo'.askAll_asked]
    exact List.mem_of_getElem? hl
  · intro ro l hl
    rw [Algo'.askAll_asked] at hl
    exact hD ro l hl
  · rw [error_const]
    push_cast
    ring
  · intro ro runs h
    obtain ⟨β, T, h1, h2⟩ := simple_extraction cd row rows Gs t ts hA log (fun _ => le_rfl) (fun ro => P.run id ro) _
      (fun _ h => h.1) ro h
    refine ⟨β, T, fun i c hc => ?_, h2⟩
    obtain ⟨ro', e1, e2, e3⟩ := h1 i c hc
    exact ⟨ro', e2.2, e1, e2.1, e3⟩

end

/-! ### Examples -/
section
open Toy
set_option exponentiation.threshold 600

/-- C97: the honest prover of the linear-map argument for the row `5, 7` is always accepted. The extractor, with up to
999 attempts for every further run, runs it at most 5 times on average and delivers with a probability above 90 %. -/
example (ro : Hash) : ∃ D : Finset (List Event),
    mean ro D (fun ro => (lmpaExtractor codec 3 [] [[5, 7]] [1, 2] [(31 : K)] 1 999 ro).runs
      fun ro => exLinProver.run id ro) ≤ 5 ∧
    9 / 10 ≤ mean ro D (fun ro => (lmpaExtractor codec 3 [] [[5, 7]] [1, 2] [(31 : K)] 1 999 ro).chance
      (fun ro => exLinProver.run id ro) fun o => ∃ runs, o = some runs ∧ runs.length ≤ 3 ∧
        ∃ T : LmpaTree K K 1, dot (extractLmpa T.scalars) [5, 7] = (31 : K) ∧
          ∀ c ∈ T.paths, ∃ ro', (ro', exLinProver.run id ro') ∈ runs ∧ c.2.2.2 = (exLinProver.run id ro').w) := by
  have hT : exLinProver.AtMost 1 := fun v => trivial
  have hq : ∀ ro, lmpaQueries (plainPen codec.compress) [] ((exLinProver.run id ro).L_Vec.take 1)
      ((exLinProver.run id ro).R_Vec.take 1) = [(plainPen codec.compress).round [15] [14]] := by
    intro ro
    simp [exLinProver, Algo.run, lmpaQueries]
  refine ⟨{(plainPen codec.compress).round [15] [14]}, ?_⟩
  obtain ⟨h1, h2⟩ := C97_lmpa_extractor (q := 1) (fuel := 3) codec [5, 7] [] [1, 2]
    (31 : K) [] (by simp) [] (C67_scalars 101) exLinProver hT 999 ro {(plainPen codec.compress).round [15] [14]} (by
      intro ro l hl
      rw [hq] at hl
      simpa [exLinProver, Algo.asked] using hl)
  refine ⟨h1.trans (by norm_num), ?_⟩
  have h3 : chance ro {(plainPen codec.compress).round [15] [14]} (fun ro => ∃ tr', (exLinProver.run id ro).verify
      ⟨codec, ro⟩ 3 ⟨[]⟩ [[5, 7]] [1, 2] (2 ^ 1) [(31 : K)] = .ok (true, tr')) = 1 := by
    rw [chance_eq_mean]
    simp only [exLinProver_accepted, if_true, mean_const]
  rw [h3] at h2
  have h4 : ((1 + 1 : Nat) : ℚ) * ((1 : Nat) * (2 / ((999 : Nat) + 1) + 3 * (((2 ^ 512 / 101 + 1 : Nat) : ℚ) / 2 ^ 512))) ≤
      1 / 10 := by
    norm_num
  have h5 : (9 / 10 : ℚ) ≤ 1 - 1 / 10 := by norm_num
  refine h5.trans ((sub_le_sub_left h4 1).trans ((sub_le_iff_le_add.2 h2).trans (mean_mono _ _ fun ro =>
    Rewinder.expect_mono _ (fun o => ?_) _)))
  split_ifs with c1 c2 c2
  · exact le_rfl
  · exfalso
    obtain ⟨runs, hr, hl, T, ht, -, hd⟩ := c1
    refine c2 ⟨runs, hr, hl, T, hd, fun c hc => ?_⟩
    obtain ⟨ro', hm, -, -, he⟩ := ht c hc
    exact ⟨ro', hm, by rw [he]⟩
  · norm_num
  · exact le_rfl

/-- C97: a prover of QESA for the equation `w_0 w_1 = 2` with 4 generators of each kind. -/
example (cd : Codec (Fin 9 → K)) {T : Nat} (A : Algo Event (Zk.Proof K)) (hT : A.AtMost T) (ro : Hash) :
    ∃ D : Finset (List Event), mean ro D (fun ro => (qesaExtractor cd [] unitG unitH unitQ
      (fun _ : Fin 1 => !![-2, 1; 0, 0]) 2 999 ro).runs fun ro => A.run id ro) ≤ 1 + (T + 7 : Nat) * 4095 := by
  obtain ⟨D, hD⟩ := C93_qesa_domain cd [] unitG unitH unitQ (fun _ : Fin 1 => !![-2, 1; 0, 0]) A
  exact ⟨D, (C97_qesa_extractor (q := 2) (m := 2) (k := 0) rfl cd unitG unitH rfl rfl unitQ (fun _ => !![-2, 1; 0, 0]) []
    (C67_scalars 101) A hT 999 ro D hD).1.trans (by norm_num)⟩

/-- C97 with the scalars of the repository: the inner-product argument with `n = 64` and a prover with up to `2^60`
questions. With up to `2^110` attempts for every run, the extractor loses less than `2^-43`, and it runs the prover at
most `2^75` times on average. -/
example {G : Type} [AddCommGroup G] [Module RistrettoScalar G] [DecidableEq G] (cd : Codec G) (Gs Hs : List G)
    (hG : Gs.length = 64) (hH : Hs.length = 64) (Q P : G) (t : RistrettoScalar) (log : List Event)
    (A : Algo Event (Ipa.NoZK RistrettoScalar)) (hT : A.AtMost (2 ^ 60)) (ro : Hash) :
    ∃ D : Finset (List Event),
    let E := ipaExtractor cd log Gs Hs Q P t 6 (2 ^ 110)
    mean ro D (fun ro => (E ro).runs fun ro => A.run id ro) ≤ 2 ^ 75 ∧
    chance ro D (fun ro => ∃ tr', (A.run id ro).verify ⟨cd, ro⟩ ⟨log⟩ Gs Hs Q 64 P t = .ok (true, tr')) ≤
      mean ro D (fun ro => (E ro).chance (fun ro => A.run id ro) fun o =>
        ∃ runs, o = some runs ∧ runs.length ≤ 4 ^ 7 ∧ ∃ (α : Fin 2 → RistrettoScalar)
          (T : Fin 2 → IpaTree RistrettoScalar G 6), match extractIpa t α fun i => (T i).scalars with
          | .inl (a, b) => a.length = 2 ^ 6 ∧ b.length = 2 ^ 6 ∧ P = dot a Gs + dot b Hs + t • Q ∧ dot a b = t
          | .inr r => IsRelation Gs Hs Q r) + 1 / 2 ^ 43 := by
  obtain ⟨D, hD⟩ := C92_ipa_domain log 64 A
  obtain ⟨h1, h2⟩ := C97_ipa_extractor (q := 6) cd Gs Hs hG hH Q P t log C87_scalars A hT (2 ^ 110) ro D hD
  refine ⟨D, h1.trans (by norm_num), h2.trans (add_le_add (mean_mono _ _ fun ro =>
    Rewinder.expect_mono _ (fun o => ?_) _) (by norm_num))⟩
  split_ifs with c1 c2 c2
  · exact le_rfl
  · obtain ⟨runs, hr, hl, α, T, -, h⟩ := c1
    refine absurd ⟨runs, hr, hl, α, T, ?_⟩ c2
    rcases he : extractIpa t α fun i => (T i).scalars with ⟨a, b⟩ | r <;> rw [he] at h <;> exact h
  · norm_num
  · exact le_rfl

end
end Qesa.Props
