import Verif.Model.Copy
import Verif.Model.Lmpa
/- Several arguments that start from the same transcript or follow each other on one transcript. -/
namespace Qesa.Spec
open Qesa

/-- The arguments of the library. `SimpleZK` and `SimpleZK_general` count as one (`simple`). -/
inductive ArgKind
  | ipa | alm | qesa | copy | lmpa | lmpaK | simple
  deriving DecidableEq, Repr

/-- A verifier of the given kind, with any arguments and any proof, or a prover of the given kind with any arguments and
any random numbers, returns and takes the transcript from `tr` to `tr'`. -/
def Runs (F : Type) {G : Type} [Field F] [DecidableEq F] [AddCommGroup G] [Module F G] [DecidableEq G] (cx : Ctx G)
    (tr tr' : Transcript) : ArgKind → Prop
  | .ipa =>
    (∃ (p : Ipa.NoZK F) (Gs Hs : List G) (Q : G) (n : Nat) (P : G) (t : F) (v : Bool),
      p.verify cx tr Gs Hs Q n P t = .ok (v, tr')) ∨
    ∃ (Gs Hs : List G) (Q : G) (a b : List F) (p : Ipa.NoZK F), Ipa.create cx tr Gs Hs Q a b = .ok (p, tr')
  | .alm =>
    (∃ (p : Ipa.AlmZK F) (Gs Hs : List G) (Q : G) (n : Nat) (C : G) (t : F) (v : Bool),
      p.verify cx tr Gs Hs Q n C t = .ok (v, tr')) ∨
    ∃ (tape tape' : Tape F) (Gs Hs : List G) (Q C : G) (a b : List F) (t : F) (p : Ipa.AlmZK F),
      Ipa.createAlm cx tr tape Gs Hs Q C a b t = .ok (p, tr', tape')
  | .qesa =>
    (∃ (p : Zk.Proof F) (Gs Hs : List G) (Q : G) (S : BlockMatrix F) (v : Bool),
      p.verify cx tr Gs Hs Q S = .ok (v, tr')) ∨
    ∃ (tape tape' : Tape F) (Gs Hs : List G) (Q : G) (S : BlockMatrix F) (w : List F) (p : Zk.Proof F),
      Zk.create cx tr tape Gs Hs Q S w = .ok (p, tr', tape')
  | .copy =>
    (∃ (p : Copy.Proof F) (Gs Hs : List G) (Q : G) (S : BlockMatrix F) (map : Copy.Mapping) (Cs : List G) (v : Bool),
      p.verify cx tr Gs Hs Q S map Cs = .ok (v, tr')) ∨
    ∃ (tape tape' : Tape F) (Gs Hs : List G) (Q : G) (map : Copy.Mapping) (S : BlockMatrix F) (w : List F)
      (os : List (List F × F)) (p : Copy.Proof F), Copy.create cx tr tape Gs Hs Q map S w os = .ok (p, tr', tape')
  | .lmpa =>
    (∃ (fuel : Nat) (p : Lmpa.NoZK F G) (A : List (List G)) (Gs : List G) (n : Nat) (t : List G) (v : Bool),
      p.verify cx fuel tr A Gs n t = .ok (v, tr')) ∨
    ∃ (fuel : Nat) (A : List (List G)) (Gs : List G) (w : List F) (p : Lmpa.NoZK F G),
      Lmpa.create cx fuel tr A Gs w = .ok (p, tr')
  | .lmpaK =>
    (∃ (fuel : Nat) (p : Lmpa.LmpaNoZK F G) (A : List (List G)) (t : List G) (n k : Nat) (one : F) (v : Bool),
      p.verify cx fuel tr A t n k one = .ok (v, tr')) ∨
    ∃ (fuel : Nat) (A : List (List G)) (w : List F) (t : List G) (n m k : Nat) (one : F) (zero : G)
      (p : Lmpa.LmpaNoZK F G), Lmpa.createK cx fuel tr A w t n m k one zero = .ok (p, tr')
  | .simple =>
    (∃ (fuel : Nat) (p : Lmpa.SimpleZK F G) (A : List (List G)) (Gs : List G) (n : Nat) (t : List G) (v : Bool),
      p.verify cx fuel tr A Gs n t = .ok (v, tr')) ∨
    (∃ (fuel : Nat) (tape tape' : Tape F) (A : List (List G)) (Gs : List G) (w : List F) (p : Lmpa.SimpleZK F G),
      Lmpa.createSimple cx fuel tr tape A Gs w = .ok (p, tr', tape')) ∨
    (∃ (fuel : Nat) (p : Lmpa.SimpleZKGeneral F G) (A : List (List G)) (t : List G) (n k : Nat) (v : Bool),
      p.verify cx fuel tr A t n k = .ok (v, tr')) ∨
    ∃ (fuel : Nat) (tape tape' : Tape F) (A : List (List G)) (w : List F) (t : List G) (n m k : Nat)
      (p : Lmpa.SimpleZKGeneral F G), Lmpa.createGeneral cx fuel tr tape A w t n m k = .ok (p, tr', tape')

/-- The histories for which the hash function was evaluated between two states of a transcript. -/
def questions (tr tr' : Transcript) : Set (List Event) :=
  {l | l <+: tr'.log ∧ tr.log.length < l.length ∧ ∃ l₀ name, l = l₀ ++ [.chal name 64]}

end Qesa.Spec
