import Verif.SpecTape
import Verif.Model.Copy
import Verif.Model.Lmpa
import Verif.SpecCopy
import Verif.Props.GramSchmidt
/- Several honest proofs that are made and checked one after the other on one transcript. -/
namespace Qesa.Spec
open Qesa Ipa Copy

/-- A statement of one of the kinds that the library proves, together with its witness. The vector arguments of `copy` are
the witness, the index sets with their messages and blinding scalars, and the commitments; `lmpaK` and `general` have
`c * k ^ d` columns. -/
inductive Job (F G : Type)
  | ipa (Gs Hs : List G) (Q : G) (a b : List F)
  | alm (Gs Hs : List G) (Q : G) (a b : List F)
  | qesa (Gs Hs : List G) (Q : G) (S : BlockMatrix F) (w : List F)
  | copy (Gs Hs : List G) (Q : G) (S : BlockMatrix F) (map : Mapping) (w : List F)
      (coms : List (List Nat × List F × F)) (Cs : List G)
  | lmpa (A : List (List G)) (Gs : List G) (w : List F)
  | lmpaK (A : List (List G)) (w : List F) (c k d : Nat)
  | simple (A : List (List G)) (Gs : List G) (w : List F)
  | general (A : List (List G)) (w : List F) (c k d : Nat)

variable {F G : Type} [Field F] [DecidableEq F] [AddCommGroup G] [Module F G] [DecidableEq G]

/-- The prover, with its transcript in the state `tr`, makes a proof; the verifier, with its transcript in the same state,
accepts it; both transcripts then have the state `tr'`. -/
def Job.Works (cx : Ctx G) (fuel : Nat) (tr : Transcript) (tape : Tape F) (tr' : Transcript) : Job F G → Prop
  | .ipa Gs Hs Q a b => ∃ p, Ipa.create cx tr Gs Hs Q a b = .ok (p, tr') ∧
      p.verify cx tr Gs Hs Q Gs.length (dot a Gs + dot b Hs + dot a b • Q) (dot a b) = .ok (true, tr')
  | .alm Gs Hs Q a b => ∃ p tape', createAlm cx tr tape Gs Hs Q (dot a Gs + dot b Hs) a b (dot a b) =
        .ok (p, tr', tape') ∧
      p.verify cx tr Gs Hs Q Gs.length (dot a Gs + dot b Hs) (dot a b) = .ok (true, tr')
  | .qesa Gs Hs Q S w => ∃ p tape', Zk.create cx tr tape Gs Hs Q S w = .ok (p, tr', tape') ∧
      p.verify cx tr Gs Hs Q S = .ok (true, tr')
  | .copy Gs Hs Q S map w coms Cs => ∃ p tape', Copy.create cx tr tape Gs Hs Q map S w (coms.map (·.2)) =
        .ok (p, tr', tape') ∧
      p.verify cx tr Gs Hs Q S map Cs = .ok (true, tr')
  | .lmpa A Gs w => ∃ p, Lmpa.create cx fuel tr A Gs w = .ok (p, tr') ∧
      p.verify cx fuel tr A Gs Gs.length (A.map fun row => dot w row) = .ok (true, tr')
  | .lmpaK A w c k d => ∃ p, Lmpa.createK cx fuel tr A w (A.map fun row => dot w row) (c * k ^ d) A.length k 1 0 =
        .ok (p, tr') ∧
      p.verify cx fuel tr A (A.map fun row => dot w row) (c * k ^ d) k 1 = .ok (true, tr')
  | .simple A Gs w => ∃ p tape', Lmpa.createSimple cx fuel tr tape A Gs w = .ok (p, tr', tape') ∧
      p.verify cx fuel tr A Gs Gs.length (A.map fun row => dot w row) = .ok (true, tr')
  | .general A w c k d => ∃ p tape', Lmpa.createGeneral cx fuel tr tape A w (A.map fun row => dot w row) (c * k ^ d)
        A.length k = .ok (p, tr', tape') ∧
      p.verify cx fuel tr A (A.map fun row => dot w row) (c * k ^ d) k = .ok (true, tr')

/-- The jobs are done one after the other, each with its own random numbers. -/
def SessionWorks (cx : Ctx G) (fuel : Nat) : (js : List (Job F G)) → (Fin js.length → Tape F) → Transcript →
    Transcript → Prop
  | [], _, tr, tr' => tr' = tr
  | j :: js, τ, tr, tr' => ∃ tr₁, j.Works cx fuel tr (τ 0) tr₁ ∧ SessionWorks cx fuel js (fun i => τ i.succ) tr₁ tr'

/-- The statement is true and the arguments have the sizes that the library asks for. For `alm` the witness has to be
generic. -/
def Job.Honest (fuel : Nat) : Job F G → Prop
  | .ipa Gs Hs _ a b => ∃ k < 64, a.length = 2 ^ k ∧ b.length = 2 ^ k ∧ Gs.length = 2 ^ k ∧ Hs.length = 2 ^ k
  | .alm Gs Hs _ a b => ∃ (k : Nat) (a' b' : Fin (2 ^ k) → F), 2 ≤ k ∧ k < 64 ∧ a = List.ofFn a' ∧ b = List.ofFn b' ∧
      Gs.length = 2 ^ k ∧ Hs.length = 2 ^ k ∧ a' ⬝ᵥ a' ≠ 0 ∧ b' ⬝ᵥ b' ≠ 0 ∧
      (∃ j, Props.SparsePosition (2 ^ k) j.val ∧ a' j ≠ 0) ∧ (∃ j, Props.SparsePosition (2 ^ k) j.val ∧ b' j ≠ 0) ∧
      ∃ j, Props.SparsePosition (2 ^ k) j.val ∧ a' j - a' ⬝ᵥ b' * (b' ⬝ᵥ b')⁻¹ * b' j ≠ 0
  | .qesa Gs Hs _ S w => ∃ (m k e : Nat) (Ms : Fin (k + 1) → Matrix (Fin (m + 1)) (Fin (m + 1)) F) (w' : Fin (m + 1) → F),
      2 ≤ e ∧ e < 64 ∧ m + 3 = 2 ^ e ∧ Gs.length = m + 3 ∧ Hs.length = m + 3 ∧
      S = ⟨List.ofFn fun i => rows (Ms i)⟩ ∧ w = List.ofFn w' ∧ w' 0 = 1 ∧ ∀ i, quad (Ms i) w' = 0
  | .copy Gs Hs _ S map w coms Cs => ∃ (m e : Nat) (Us : List (Matrix (Fin (m + 1)) (Fin (m + 1)) F)),
      2 ≤ e ∧ e < 16 ∧ m + 3 = 2 ^ e ∧ Gs.length = m + 3 ∧ Hs.length = m + 3 ∧ S = ⟨Us.map rows⟩ ∧
      coms.length ≤ 65536 ∧ w[0]? = some 1 ∧ w.length ≤ m + 1 ∧
      computeMapping Gs.length w.length (coms.map (·.1)) = .ok map ∧
      coms.mapM (fun c => commit Gs c.1 c.2.1 c.2.2) = .ok Cs ∧
      (∀ c ∈ coms, ∀ i ∈ c.1, w.length ≤ i ∧ i < m + 1) ∧
      ∀ α, ∀ U ∈ Us, quad U (fun i => copyWitness w map (coms.map (·.2.1)).flatten α i) = 0
  | .lmpa A Gs w => ∃ q, A ≠ [] ∧ Width (2 ^ q) A ∧ w.length = 2 ^ q ∧ Gs.length = 2 ^ q ∧ q < fuel
  | .lmpaK A w c k d => A ≠ [] ∧ 0 < c ∧ c < k ∧ Width (c * k ^ d) A ∧ w.length = c * k ^ d ∧ d < fuel
  | .simple A Gs w => ∃ q, A ≠ [] ∧ Width (2 ^ q) A ∧ w.length = 2 ^ q ∧ Gs.length = 2 ^ q ∧ q < fuel
  | .general A w c k d => A ≠ [] ∧ 0 < c ∧ c < k ∧ 0 < d ∧ Width (c * k ^ d) A ∧ w.length = c * k ^ d ∧ d < fuel

/-- The completeness error of a job if the field has `N` elements and no scalar is the value of more than `B` strings of
64 bytes. -/
def Job.error (N B : Nat) : Job F G → ℚ
  | .ipa .. => B / 2 ^ 512
  | .alm .. => 7 / N + B / 2 ^ 512
  | .qesa .. | .copy .. => 7 / N + (14 * B : Nat) / 2 ^ 512
  | .lmpa .. | .simple .. => 0
  | .lmpaK _ _ _ _ d | .general _ _ _ _ d => (d * B : Nat) / 2 ^ 512

/-- The probability of `A` for a uniformly random hash function on `D` and, independently, `m` tapes with uniformly random
scalars in the first `N` places. -/
noncomputable def chanceSession {F : Type} (ro : Hash) (D : Finset (List Event)) (rest : Tape F) (N m : Nat)
    (A : Hash → (Fin m → Tape F) → Prop) : ℚ :=
  Nat.card {z : (D → Vector UInt8 64) × (Fin m → Fin N → F) // A (patch ro D z.1) fun i => tapeOf rest (z.2 i)} /
    ((2 ^ 512) ^ D.card * ((Nat.card F) ^ N) ^ m)

end Qesa.Spec
