import Verif.SpecSlots
import Verif.SpecFork
import Verif.Props.SimpleZk
import Verif.SpecCopy
/-
What it means that the accepted proofs of a session are explained by witnesses (or relations between the generators) that
can be computed from further runs of the prover.
-/
namespace Qesa.Spec
open Qesa Props Ipa Lmpa
variable {F G : Type} [Field F] [DecidableEq F] [AddCommGroup G] [Module F G] [DecidableEq G]

/-- `ro'` is among the hash functions `S` and differs from `ro` at no more than `n` histories; with it the prover outputs the
same statement, and its proof is accepted on the transcript `h`. -/
def Slot.Again (cd : Codec G) (fuel : Nat) (gens : Generators G) (S : Hash → Prop) (s : Slot) (h : List Event)
    (run : Hash → s.Statement F G × s.Proof F G) (n : Nat) (ro ro' : Hash) : Prop :=
  S ro' ∧ Reprogrammed n ro ro' ∧ (run ro').1 = (run ro).1 ∧
    ∃ tr', s.verify ⟨cd, ro'⟩ fuel gens ⟨h⟩ (run ro).1 (run ro').2 = .ok (true, tr')

/-- The proof that `run ro` gives on the transcript `h` is explained: there is a tree of challenges and proofs, each of which
comes from a further accepted run with a hash function in `S`, out of which the extractors of C21, C25, C61, C43 and C52 compute a witness or (not for the
linear maps) a relation between the generators. For QESA and Copy the first challenge must not be zero. -/
def Slot.ExplainedBy (cd : Codec G) (fuel : Nat) (gens : Generators G) (S : Hash → Prop) : (s : Slot) → (h : List Event) →
    (run : Hash → s.Statement F G × s.Proof F G) → Hash → Prop
  | .ipa k, h, run, ro =>
    let P : G := (run ro).1.1
    let t : F := (run ro).1.2
    ∃ (α : Fin 2 → F) (T : Fin 2 → IpaTree F G k),
      (∀ i, ∀ c ∈ (T i).paths, ∃ ro', Slot.Again cd fuel gens S (.ipa k) h run (k + 1) ro ro' ∧
        let p : Ipa.NoZK F := (run ro').2
        ipaAlpha F ro' h (2 ^ k) = α i ∧ Continues cd p (ipaChallenges F ro' h (2 ^ k) p.L_vec p.R_vec) c) ∧
      match extractIpa t α fun i => (T i).scalars with
      | .inl (a, b) => a.length = 2 ^ k ∧ b.length = 2 ^ k ∧ P = dot a (gens.G k) + dot b (gens.H k) + t • gens.Q ∧
          dot a b = t
      | .inr r => IsRelation (gens.G k) (gens.H k) gens.Q r
  | .alm k, h, run, ro =>
    let C_w : G := (run ro).1.1
    let t : F := (run ro).1.2
    ∃ (β : Fin 3 → F) (α : Fin 3 → Fin 2 → F) (T : Fin 3 → Fin 2 → IpaTree F G k),
      (∀ i j, ∀ c ∈ (T i j).paths, ∃ ro', Slot.Again cd fuel gens S (.alm k) h run (k + 2) ro ro' ∧
        let p : Ipa.AlmZK F := (run ro').2
        let lg := almLog cd ro' h gens.Q C_w t p.C_r
        p.C_r = Ipa.AlmZK.C_r (run ro).2 ∧ almBeta F ro' h p.C_r = β i ∧ ipaAlpha F ro' lg (2 ^ k) = α i j ∧
        Continues cd p.NoZK (ipaChallenges F ro' lg (2 ^ k) p.NoZK.L_vec p.NoZK.R_vec) c) ∧
      match extractAlm t β α fun i j => (T i j).scalars with
      | .inl (u, v) => u.length = 2 ^ k ∧ v.length = 2 ^ k ∧ C_w = dot u (gens.G k) + dot v (gens.H k) ∧ dot u v = t
      | .inr r => IsRelation (gens.G k) (gens.H k) gens.Q r
  | .qesa m e k, h, run, ro =>
    let Ms : Fin (k + 1) → Matrix (Fin (m + 1)) (Fin (m + 1)) F := (run ro).1
    let c' := (Zk.Proof.inner (run ro).2).c_prime_w
    let c'' := (Zk.Proof.inner (run ro).2).c_prime_prime_w
    let x := qesaX F ro h c'
    let M' := batched (m + 3) Ms x
    x ≠ 0 → ∃ (C' C'' : G) (s : Fin (m + 2) → F) (b : Fin (m + 2) → Fin 3 → F) (β : Fin (m + 2) → Fin 3 → Fin 3 → F)
      (α : Fin (m + 2) → Fin 3 → Fin 3 → Fin 2 → F) (T : Fin (m + 2) → Fin 3 → Fin 3 → Fin 2 → IpaTree F G e),
      c' = cd.compress C' ∧ c'' = cd.compress C'' ∧
      (∀ i j l a, ∀ c ∈ (T i j l a).paths, ∃ ro', Slot.Again cd fuel gens S (.qesa m e k) h run (e + 4) ro ro' ∧
        let p := Zk.Proof.inner (run ro').2
        let lg1 := Spec.qesaLog cd ro' h (gens.G e) (gens.H e) Ms p
        let c1 := qesaClaimed cd ro' h (gens.G e) (gens.H e) Ms p
        let lg2 := almLog cd ro' lg1 gens.Q c1.1 c1.2 p.alm_zk.C_r
        p.c_prime_w = c' ∧ p.c_prime_prime_w = c'' ∧ qesaX F ro' h c' = x ∧
        qesaS F ro' h c' c'' = s i ∧ qesaB F ro' h c' c'' = b i j ∧
        almBeta F ro' lg1 p.alm_zk.C_r = β i j l ∧ ipaAlpha F ro' lg2 (2 ^ e) = α i j l a ∧
        Continues cd p.alm_zk.NoZK (ipaChallenges F ro' lg2 (2 ^ e) p.alm_zk.NoZK.L_vec p.alm_zk.NoZK.R_vec) c) ∧
      match extractQesa M' x s b fun i j => extractAlm (- quad M' (powers (s i) (m + 1))) (β i j) (α i j)
          fun l a => (T i j l a).scalars with
      | .inl (w, v) => ∃ (u : Fin (m + 1) → F) (r0 r1 : F),
          w = List.ofFn u ++ [r0, r1] ∧ v = List.ofFn (M'.mulVec u) ++ [-r1, r0] ∧ quad M' u = 0 ∧
          C' + C'' = dot w (rescaled (x ^ 2) (gens.G e)) + (1 - (x ^ 2)⁻¹) • (gens.G e).headD 0 + dot v (gens.H e)
      | .inr r => IsRelation (gens.G e) (gens.H e) gens.Q r
  | .copy m e N, h, run, ro =>
    let st : CopyClaim F G m N := (run ro).1
    let c_w := Copy.Proof.C_w (run ro).2
    let c'' := (Copy.Proof.inner (run ro).2).c_prime_prime_w
    let α₀ := copyAlpha F ro h c_w
    let log1 := h ++ [.msg "c_w" c_w, .chal "alpha" 64]
    let c' := (copyInner cd ro h st.Cs (run ro).2).c_prime_w
    let x := qesaX F ro log1 c'
    let Ms := (copySystem st.Us st.map α₀).get
    let M' := batched (m + 3) Ms x
    x ≠ 0 → ∃ (C_w C'' : G) (s : Fin (m + 2) → F) (b : Fin (m + 2) → Fin 3 → F) (β : Fin (m + 2) → Fin 3 → Fin 3 → F)
      (α : Fin (m + 2) → Fin 3 → Fin 3 → Fin 2 → F) (T : Fin (m + 2) → Fin 3 → Fin 3 → Fin 2 → IpaTree F G e),
      let C' := dot (List.ofFn (powers α₀ st.Cs.length)) st.Cs + C_w
      c_w = cd.compress C_w ∧ c'' = cd.compress C'' ∧ c' = cd.compress C' ∧
      (∀ i j l a, ∀ c ∈ (T i j l a).paths, ∃ ro', Slot.Again cd fuel gens S (.copy m e N) h run (e + 4) ro ro' ∧
        let p : Copy.Proof F := (run ro').2
        let pi := copyInner cd ro' h st.Cs p
        let lg1 := Spec.qesaLog cd ro' log1 (gens.G e) (gens.H e) Ms pi
        let c1 := qesaClaimed cd ro' log1 (gens.G e) (gens.H e) Ms pi
        let lg2 := almLog cd ro' lg1 gens.Q c1.1 c1.2 p.inner.alm_zk.C_r
        p.C_w = c_w ∧ copyAlpha F ro' h c_w = α₀ ∧ p.inner.c_prime_prime_w = c'' ∧
        qesaX F ro' log1 c' = x ∧ qesaS F ro' log1 c' c'' = s i ∧
        qesaB F ro' log1 c' c'' = b i j ∧ almBeta F ro' lg1 p.inner.alm_zk.C_r = β i j l ∧
        ipaAlpha F ro' lg2 (2 ^ e) = α i j l a ∧
        Continues cd p.inner.alm_zk.NoZK (ipaChallenges F ro' lg2 (2 ^ e) p.inner.alm_zk.NoZK.L_vec
          p.inner.alm_zk.NoZK.R_vec) c) ∧
      match extractQesa M' x s b fun i j => extractAlm (- quad M' (powers (s i) (m + 1))) (β i j) (α i j)
          fun l a => (T i j l a).scalars with
      | .inl (w, v) => ∃ (u : Fin (m + 1) → F) (r0 r1 : F),
          w = List.ofFn u ++ [r0, r1] ∧ v = List.ofFn (M'.mulVec u) ++ [-r1, r0] ∧ quad M' u = 0 ∧
          C' + C'' = dot w (rescaled (x ^ 2) (gens.G e)) + (1 - (x ^ 2)⁻¹) • (gens.G e).headD 0 + dot v (gens.H e)
      | .inr r => IsRelation (gens.G e) (gens.H e) gens.Q r
  | .lmpa q, h, run, ro =>
    let st : LinearClaim G q := (run ro).1
    ∃ T : LmpaTree F G q,
      (∀ c ∈ T.paths, ∃ ro', Slot.Again cd fuel gens S (.lmpa q) h run q ro ro' ∧
        let p : Lmpa.NoZK F G := (run ro').2
        c = (column (p.L_Vec.take q) 0, column (p.R_Vec.take q) 0,
          lmpaChallenges F ⟨cd, ro'⟩ h (p.L_Vec.take q) (p.R_Vec.take q), p.w)) ∧
      (extractLmpa T.scalars).length = 2 ^ q ∧ dot (extractLmpa T.scalars) st.row = st.t
  | .simple q, h, run, ro =>
    let st : LinearClaim G q := (run ro).1
    ∃ (β : Fin 2 → F) (T : Fin 2 → LmpaTree F G q),
      (∀ i, ∀ c ∈ (T i).paths, ∃ ro', Slot.Again cd fuel gens S (.simple q) h run (q + 1) ro ro' ∧
        let p : Lmpa.SimpleZK F G := (run ro').2
        p.a = Lmpa.SimpleZK.a (run ro).2 ∧ simpleBeta F ⟨cd, ro'⟩ h p.a = β i ∧
        c = (column (p.no_zk.L_Vec.take q) 0, column (p.no_zk.R_Vec.take q) 0,
          lmpaChallenges F ⟨cd, ro'⟩ (simpleLog ⟨cd, ro'⟩ h p.a) (p.no_zk.L_Vec.take q) (p.no_zk.R_Vec.take q),
          p.no_zk.w)) ∧
      (extractSimple β fun i => (T i).scalars).length = 2 ^ q ∧
      dot (extractSimple β fun i => (T i).scalars) st.row = st.t

/-- The same with further runs with any hash functions. -/
def Slot.Explained (cd : Codec G) (fuel : Nat) (gens : Generators G) (s : Slot) (h : List Event)
    (run : Hash → s.Statement F G × s.Proof F G) (ro : Hash) : Prop :=
  s.ExplainedBy cd fuel gens (fun _ => True) h run ro

/-- With the hash function `ro` the prover `x` of a session is accepted for some proof that is not explained. As in `Fooled`,
statements are hashed before their proofs, and panics and irregular proofs end the session. -/
def Unexplained (cd : Codec G) (fuel : Nat) (gens : Generators G) (enc : (s : Slot) → s.Statement F G → List Event) :
    (m : Nat) → (slots : Fin m → Slot) → (Hash → (i : Fin m) → (slots i).Statement F G × (slots i).Proof F G) →
    Transcript → Hash → Prop
  | 0, _, _, _, _ => False
  | m + 1, slots, x, tr, ro =>
    let h := tr.log ++ enc (slots 0) (x ro 0).1
    let result := (slots 0).verify ⟨cd, ro⟩ fuel gens ⟨h⟩ (x ro 0).1 (x ro 0).2
    ((∃ tr', result = .ok (true, tr')) ∧ ¬ (slots 0).Explained cd fuel gens h (fun ro' => x ro' 0) ro) ∨
    ∃ b tr', result = .ok (b, tr') ∧ (slots 0).Regular (x ro 0).2 ∧
      Unexplained cd fuel gens enc m (fun i => slots i.succ) (fun ro' i => x ro' i.succ) tr' ro

/-- As `Slot.factor`, but here only the extraction may fail. -/
def Slot.extractionFactor : Slot → Nat
  | .ipa _ | .alm _ => 3
  | .qesa m _ _ | .copy m _ _ => max (m + 1) 3
  | .lmpa _ | .simple _ => 2

/-- The bound for a prover with `T` queries, as `slotsError`. -/
def extractionError (B : Nat) : (m : Nat) → (Fin m → Slot) → Nat → ℚ
  | 0, _, _ => 0
  | m + 1, slots, T =>
    ((T + (slots 0).challenges) * ((slots 0).extractionFactor * B) : Nat) / 2 ^ 512 +
      extractionError B m (fun i => slots i.succ) (T + (slots 0).challenges)

/-! ### Extraction with a bounded number of runs -/

/-- For QESA and Copy: the challenge `x` is not zero. -/
def Slot.Nonzero (cd : Codec G) (ro : Hash) (h : List Event) : (s : Slot) → s.Statement F G → s.Proof F G → Prop
  | .qesa .., _, p => qesaX F ro h (Zk.Proof.inner p).c_prime_w ≠ 0
  | .copy .., st, p => qesaX F ro (h ++ [.msg "c_w" (Copy.Proof.C_w p), .chal "alpha" 64])
      (copyInner cd ro h (CopyClaim.Cs st) p).c_prime_w ≠ 0
  | .ipa _, _, _ | .alm _, _, _ | .lmpa _, _, _ | .simple _, _, _ => True

/-- The verifier returns for all proofs before proof `i` of the session, these are regular, and `h` is the history of the
transcript on which proof `i` is checked. -/
def Reached (cd : Codec G) (fuel : Nat) (gens : Generators G) (enc : (s : Slot) → s.Statement F G → List Event) (ro : Hash) :
    (m : Nat) → (slots : Fin m → Slot) → Fin m → ((i : Fin m) → (slots i).Statement F G × (slots i).Proof F G) →
    Transcript → List Event → Prop
  | 0, _, i, _, _, _ => i.elim0
  | m + 1, slots, i, x, tr, h =>
    let h0 := tr.log ++ enc (slots 0) (x 0).1
    Fin.cases (h = h0) (fun j => ∃ b tr', (slots 0).verify ⟨cd, ro⟩ fuel gens ⟨h0⟩ (x 0).1 (x 0).2 = .ok (b, tr') ∧
      (slots 0).Regular (x 0).2 ∧ Reached cd fuel gens enc ro m (fun i => slots i.succ) j (fun i => x i.succ) tr' h) i

/-- The number of challenges of the proofs before proof `i`. -/
def challengesBefore : (m : Nat) → (Fin m → Slot) → Fin m → Nat
  | 0, _, i => i.elim0
  | m + 1, slots, i => Fin.cases 0 (fun j => (slots 0).challenges + challengesBefore m (fun i => slots i.succ) j) i

/-- The number of runs in a tree, as in C97. -/
def Slot.treeSize : Slot → Nat
  | .ipa k => 4 ^ (k + 1)
  | .alm k => 4 ^ (k + 2)
  | .qesa m e _ | .copy m e _ => max (m + 2) 4 * 4 ^ (e + 3)
  | .lmpa q => 3 ^ q
  | .simple q => 3 ^ (q + 1)

/-- The probability that is lost for each query, with `r` attempts for each further run, as in C97. -/
def Slot.loss (B r : Nat) : Slot → ℚ
  | .ipa k => (k + 1) * (3 / (r + 1) + 6 * (B / 2 ^ 512))
  | .alm k => (k + 2) * (3 / (r + 1) + 6 * (B / 2 ^ 512))
  | .qesa m e _ | .copy m e _ =>
    let k0 : Nat := max (m + 2) 4
    (k0 - 1 : ℚ) / (r + 1) + k0 * (k0 - 1 : ℚ) / 2 * (B / 2 ^ 512) + (e + 3 : Nat) * (3 / (r + 1) + 6 * (B / 2 ^ 512))
  | .lmpa q => q * (2 / (r + 1) + 3 * (B / 2 ^ 512))
  | .simple q => (q + 1) * (2 / (r + 1) + 3 * (B / 2 ^ 512))

/-- The logarithm of the number of generators that are used. -/
def Slot.size : Slot → Nat
  | .ipa k | .alm k => k
  | .qesa _ e _ | .copy _ e _ => e
  | .lmpa q | .simple q => q

end Qesa.Spec
