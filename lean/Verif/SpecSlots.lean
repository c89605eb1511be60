import Verif.Model.Lmpa
import Verif.Model.QesaInner
import Verif.Spec
import Verif.SpecSound
import Verif.SpecOracle
import Verif.SpecQesa
import Verif.SpecCopyAgm
/- Sessions in which a verifier checks proofs of chosen statements on one transcript. -/
namespace Qesa.Spec
open Qesa

/-- The kinds of the proofs of a session with their sizes, agreed upon in advance: inner-product arguments with `2 ^ k`
generators, QESA with `k + 1` matrices of size `m + 1` and `m + 3 = 2 ^ e` generators, Copy with matrices and generators of
this size and at most `N` commitments, linear-map arguments with `2 ^ q` columns. -/
inductive Slot
  | ipa (k : Nat)
  | alm (k : Nat)
  | qesa (m e k : Nat)
  | copy (m e N : Nat)
  | lmpa (q : Nat)
  | simple (q : Nat)

/-- A statement of the linear-map arguments: the first row of the matrix and the others, the first entry of the target and
the others. -/
structure LinearClaim (G : Type) (q : Nat) where
  row : List G
  rows : List (List G)
  t : G
  ts : List G
  width : ∀ r ∈ row :: rows, r.length = 2 ^ q

/-- A statement of Copy: the equations of the user, the index sets of the commitments, the size of the witness, the mapping,
the commitments. As in C96 the index sets must be sorted and lie within the witness, without the first entry, the equations
must not touch them, and there must be room for all equations. -/
structure CopyClaim (F G : Type) [Field F] (m N : Nat) where
  Us : List (Matrix (Fin (m + 1)) (Fin (m + 1)) F)
  sets : List (List Nat)
  ws : Nat
  map : Copy.Mapping
  Cs : List G
  count : sets.length ≤ N
  size : ws < 65536
  mapping : Copy.computeMapping (m + 3) ws sets = .ok map
  sorted : ∀ c ∈ sets, c.Pairwise (· < ·)
  small : ∀ c ∈ sets, ∀ i ∈ c, i < m + 1
  nonzero : ∀ c ∈ sets, 0 ∉ c
  untouched : ∀ U ∈ Us, ∀ i j : Fin (m + 1), (∃ c ∈ sets, i.val ∈ c ∨ j.val ∈ c) → U i j = 0
  room : Us.length + map.unique_commitment_indices.length ≤ m + 3
  commitments : Cs.length = sets.length

/-- Generators for each size. -/
structure Generators (Γ : Type) where
  G : Nat → List Γ
  H : Nat → List Γ
  Q : Γ

def Slot.Statement (F G : Type) [Field F] : Slot → Type
  | .ipa _ | .alm _ => G × F
  | .qesa m _ k => Fin (k + 1) → Matrix (Fin (m + 1)) (Fin (m + 1)) F
  | .copy m _ N => CopyClaim F G m N
  | .lmpa q | .simple q => LinearClaim G q

def Slot.Proof (F G : Type) : Slot → Type
  | .ipa _ => Ipa.NoZK F
  | .alm _ => Ipa.AlmZK F
  | .qesa .. => Zk.Proof F
  | .copy .. => Copy.Proof F
  | .lmpa _ => Lmpa.NoZK F G
  | .simple _ => Lmpa.SimpleZK F G

variable {F G : Type} [Field F] [DecidableEq F] [AddCommGroup G] [Module F G] [DecidableEq G]

/-- The verifier of the library for the proof of a slot. -/
def Slot.verify (cx : Ctx G) (fuel : Nat) (gens : Generators G) (tr : Transcript) :
    (s : Slot) → s.Statement F G → s.Proof F G → R (Bool × Transcript)
  | .ipa k, st, p => Ipa.NoZK.verify cx p tr (gens.G k) (gens.H k) gens.Q (2 ^ k) st.1 st.2
  | .alm k, st, p => Ipa.AlmZK.verify cx p tr (gens.G k) (gens.H k) gens.Q (2 ^ k) st.1 st.2
  | .qesa _ e _, st, p => Zk.Proof.verify cx p tr (gens.G e) (gens.H e) gens.Q ⟨List.ofFn fun i => rows (st i)⟩
  | .copy _ e _, st, p => Copy.Proof.verify cx p tr (gens.G e) (gens.H e) gens.Q
      ⟨(CopyClaim.Us st).map rows⟩ (CopyClaim.map st) (CopyClaim.Cs st)
  | .lmpa q, st, p => Lmpa.NoZK.verify cx fuel p tr (st.row :: st.rows) (gens.G q) (2 ^ q) (st.t :: st.ts)
  | .simple q, st, p => Lmpa.SimpleZK.verify cx fuel p tr (st.row :: st.rows) (gens.G q) (2 ^ q) (st.t :: st.ts)

/-- What must not happen if the proof is accepted. For QESA the commitments in the proof open to vectors such that an
equation is violated, for Copy to vectors such that an equation of the user is violated or the messages in the commitments
are not in their places; for the linear maps the first entry of the target is not a value of the first row. -/
def Slot.Wrong (cd : Codec G) (gens : Generators G) : (s : Slot) → s.Statement F G → s.Proof F G → Prop
  | .ipa k, st, _ => ¬ ∃ a b : List F, a.length = 2 ^ k ∧ b.length = 2 ^ k ∧
      st.1 = dot a (gens.G k) + dot b (gens.H k) + st.2 • gens.Q ∧ dot a b = st.2
  | .alm k, st, _ => ¬ ∃ a b : List F, a.length = 2 ^ k ∧ b.length = 2 ^ k ∧
      st.1 = dot a (gens.G k) + dot b (gens.H k) ∧ dot a b = st.2
  | .qesa m e k, st, p =>
      (∃ h : List F, h.length = m + 3 ∧
        cd.decompress (Zk.Proof.inner p).c_prime_prime_w = some (dot h (gens.H e))) ∧
      ∃ (w : Fin (m + 1) → F) (r0 r1 : F) (h : List F), h.length = m + 3 ∧
        cd.decompress (Zk.Proof.inner p).c_prime_w =
          some (dot (List.ofFn w ++ [r0, r1]) (gens.G e) + dot h (gens.H e)) ∧
        w 0 = 1 ∧ ∃ i : Fin (k + 1), i.val < m + 3 ∧ quad (st i) w ≠ 0
  | .copy m e _, st, p =>
      (∃ h : List F, h.length = m + 3 ∧
        cd.decompress (Copy.Proof.inner p).c_prime_prime_w = some (dot h (gens.H e))) ∧
      ∃ coms : List (List Nat × List F × F), coms.map (·.1) = CopyClaim.sets st ∧
        coms.mapM (fun c => Copy.commit (gens.G e) c.1 c.2.1 c.2.2) = .ok (CopyClaim.Cs st) ∧
        ∃ (v : Fin (m + 1) → F) (r0 r1 : F) (h : List F), h.length = m + 3 ∧
          cd.decompress (Copy.Proof.C_w p) = some (dot (List.ofFn v ++ [r0, r1]) (gens.G e) + dot h (gens.H e)) ∧ v 0 = 1 ∧
          ¬ CopyHolds (CopyClaim.Us st) (CopyClaim.map st) (coms.map (·.2.1)).flatten v
  | .lmpa q, st, _ | .simple q, st, _ => ∀ w : List F, w.length = 2 ^ q → dot w st.row ≠ st.t

/-- The proof has as many points `R` as points `L`, or more (the verifiers of the inner-product arguments do not check this;
those of the linear-map arguments do). -/
def Slot.Regular : (s : Slot) → s.Proof F G → Prop
  | .ipa _, p => (Ipa.NoZK.L_vec p).length ≤ (Ipa.NoZK.R_vec p).length
  | .alm _, p => (Ipa.AlmZK.NoZK p).L_vec.length ≤ (Ipa.AlmZK.NoZK p).R_vec.length
  | .qesa .., p => (Zk.Proof.inner p).alm_zk.NoZK.L_vec.length ≤ (Zk.Proof.inner p).alm_zk.NoZK.R_vec.length
  | .copy .., p => (Copy.Proof.inner p).alm_zk.NoZK.L_vec.length ≤ (Copy.Proof.inner p).alm_zk.NoZK.R_vec.length
  | .lmpa _, _ | .simple _, _ => True

/-- The sizes fit; there is no known relation between the generators (for the inner-product arguments); there is at least
one challenge. -/
def Slot.Proper (F : Type) {G : Type} [Field F] [AddCommGroup G] [Module F G] (fuel : Nat) (gens : Generators G) :
    Slot → Prop
  | .ipa k | .alm k => (gens.G k).length = 2 ^ k ∧ (gens.H k).length = 2 ^ k ∧
      ∀ r : List F × List F × F, ¬ IsRelation (gens.G k) (gens.H k) gens.Q r
  | .qesa m e _ => m + 3 = 2 ^ e ∧ (gens.G e).length = m + 3 ∧ (gens.H e).length = m + 3 ∧
      ∀ r : List F × List F × F, ¬ IsRelation (gens.G e) (gens.H e) gens.Q r
  | .copy m e N => m + 3 = 2 ^ e ∧ (gens.G e).length = m + 3 ∧ (gens.H e).length = m + 3 ∧
      (∀ r : List F × List F × F, ¬ IsRelation (gens.G e) (gens.H e) gens.Q r) ∧ m + 3 < 65536 ∧ N ≤ 65536
  | .lmpa q => (gens.G q).length = 2 ^ q ∧ q < fuel ∧ 0 < q
  | .simple q => (gens.G q).length = 2 ^ q ∧ q < fuel

/-- The sizes fit; there is at least one challenge. Nothing is said about relations between the generators. -/
def Slot.Fits {G : Type} (fuel : Nat) (gens : Generators G) : Slot → Prop
  | .ipa k | .alm k => (gens.G k).length = 2 ^ k ∧ (gens.H k).length = 2 ^ k
  | .qesa m e _ => m + 3 = 2 ^ e ∧ (gens.G e).length = m + 3 ∧ (gens.H e).length = m + 3
  | .copy m e N => m + 3 = 2 ^ e ∧ (gens.G e).length = m + 3 ∧ (gens.H e).length = m + 3 ∧ m + 3 < 65536 ∧ N ≤ 65536
  | .lmpa q => (gens.G q).length = 2 ^ q ∧ q < fuel ∧ 0 < q
  | .simple q => (gens.G q).length = 2 ^ q ∧ q < fuel

/-- The number of challenges of a proof. -/
def Slot.challenges : Slot → Nat
  | .ipa k => k + 1
  | .alm k => k + 2
  | .qesa _ e _ => e + 5
  | .copy _ e _ => e + 6
  | .lmpa q => q
  | .simple q => q + 1

/-- The largest number of answers to one question that can help a cheating prover, divided by the number of byte strings
for one scalar. -/
def Slot.factor : Slot → Nat
  | .ipa _ | .alm _ => 3
  | .qesa m _ _ => m + 7
  | .copy m _ N => max (m + 7) N
  | .lmpa _ | .simple _ => 2

/-- The verifier checks the proofs `x 0`, `x 1`, … on one transcript. Before each proof the encoding of its statement is
hashed. It is fooled if some proof is accepted that should not be. A rejected proof does not end the session; a panic and
an irregular proof do. -/
def Fooled (cx : Ctx G) (fuel : Nat) (gens : Generators G) (enc : (s : Slot) → s.Statement F G → List Event) :
    (m : Nat) → (slots : Fin m → Slot) → ((i : Fin m) → (slots i).Statement F G × (slots i).Proof F G) → Transcript → Prop
  | 0, _, _, _ => False
  | m + 1, slots, x, tr =>
    let result := (slots 0).verify cx fuel gens ⟨tr.log ++ enc (slots 0) (x 0).1⟩ (x 0).1 (x 0).2
    ((∃ tr', result = .ok (true, tr')) ∧ (slots 0).Wrong cx.toCodec gens (x 0).1 (x 0).2) ∨
    ∃ b tr', result = .ok (b, tr') ∧ (slots 0).Regular (x 0).2 ∧
      Fooled cx fuel gens enc m (fun i => slots i.succ) (fun i => x i.succ) tr'

/-- The bound for a prover with `T` queries: `(T + N) f B / 2 ^ 512` for each proof, where `N` is the number of challenges
up to its end. -/
def slotsError (B : Nat) : (m : Nat) → (Fin m → Slot) → Nat → ℚ
  | 0, _, _ => 0
  | m + 1, slots, T =>
    ((T + (slots 0).challenges) * ((slots 0).factor * B) : Nat) / 2 ^ 512 +
      slotsError B m (fun i => slots i.succ) (T + (slots 0).challenges)

end Qesa.Spec
