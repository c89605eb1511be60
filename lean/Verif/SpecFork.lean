import Verif.SpecOracle
import Verif.SpecSound
import Verif.SpecQesaSound
import Verif.Model.QesaInner
import Verif.SpecCopy
/-
Rewinding in the random-oracle model: the same prover is run again with a hash function that gives another answer
to one of the queries behind the challenges of its proof.
-/
namespace Qesa.Spec
variable {F G : Type}

/-- The hash functions differ in at most `k` histories. -/
def Reprogrammed (k : Nat) (ro ro' : Hash) : Prop :=
  ∃ s : Finset (List Event), s.card ≤ k ∧ ∀ l ∉ s, ro' l = ro l

/-- `acc ro`: with the hash function `ro` the prover is accepted. `key ro i`: the history out of which challenge number
`i` of its proof is squeezed, if there is such a challenge. `Branches acc key M d i ro`: the prover is accepted, and for each of the challenges
`i, …, i + d - 1` there are at least `M` answers that lead to the same question and to a run with the same property
for the challenges that follow. -/
def Branches (acc : Hash → Prop) (key : Hash → Nat → Option (List Event)) (M : Nat) : Nat → Nat → Hash → Prop
  | 0, _, ro => acc ro
  | d + 1, i, ro => Branches acc key M d (i + 1) ro ∧ ∀ l, key ro i = some l →
      M ≤ Nat.card {v : Vector UInt8 64 // Branches acc key M d (i + 1) (Function.update ro l v) ∧
        key (Function.update ro l v) i = some l}

/-- The scalar that an answer of 64 bytes stands for (dalek's reduction of a wide number modulo the group order). -/
abbrev scalarOf (F : Type) [NatCast F] (v : Vector UInt8 64) : F := ((leNat v.toList : Nat) : F)

/-- For each of the challenges `i, …, i + d - 1` there are `K j` answers that stand for different scalars and lead to
the same question and to a run with the same property for the challenges that follow. -/
def Forks {F : Type} (scalar : Vector UInt8 64 → F) (acc : Hash → Prop) (key : Hash → Nat → Option (List Event))
    (K : Nat → Nat) : Nat → Nat → Hash → Prop
  | 0, _, ro => acc ro
  | d + 1, i, ro => Forks scalar acc key K d (i + 1) ro ∧ ∀ l, key ro i = some l →
      ∃ v : Fin (K i) → Vector UInt8 64, Function.Injective (fun j => scalar (v j)) ∧
        ∀ j, Forks scalar acc key K d (i + 1) (Function.update ro l (v j)) ∧
          key (Function.update ro l (v j)) i = some l

/-- The conversation `c` is the proof `p` with the challenges `xs`. If the proof has fewer points `R` than points `L`, the
verifier stops after `xs.length` rounds; then `c` goes on as the honest prover would with the vectors `(a, 0, …, 0)`
and `(b, 0, …, 0)`. -/
def Continues [Mul F] [One F] (cd : Codec G) (p : Ipa.NoZK F) (xs : List F) (c : IpaPath F G) : Prop :=
  (c.Ls.take xs.length).map cd.compress = p.L_vec.take xs.length ∧
  (c.Rs.take xs.length).map cd.compress = p.R_vec.take xs.length ∧ c.xs.take xs.length = xs ∧
  c.a = (c.xs.drop xs.length).prod * p.a ∧ c.b = p.b

/-- The histories out of which the challenges `alpha` and `x_j` of an inner-product argument are squeezed. -/
def ipaHistories (log : List Event) (n : Nat) (p : Ipa.NoZK F) : List (List Event) :=
  (List.range (min p.L_vec.length p.R_vec.length + 1)).map fun j =>
    log ++ headLog n ++ roundsLog (p.L_vec.take j) (p.R_vec.take j)

/-- The history after which the inner-product argument in AlmZK starts. -/
def almLog [Field F] [AddCommGroup G] [Module F G] (cd : Codec G) (ro : Hash) (log : List Event) (Q C_w : G) (t : F)
    (C_r : Comp) : List Event :=
  let β := almBeta F ro log C_r
  log ++ almHead C_r (cd.compress (β • C_w + (cd.decompress C_r).getD 0 + (β * β * t) • Q))

/-- The histories out of which the challenges `beta`, `alpha` and `x_j` of AlmZK are squeezed. -/
def almHistories [Field F] [AddCommGroup G] [Module F G] (cd : Codec G) (ro : Hash) (log : List Event) (n : Nat)
    (Q C_w : G) (t : F) (p : Ipa.AlmZK F) : List (List Event) :=
  (log ++ [.msg "C_r" p.C_r, .chal "beta" 64]) :: ipaHistories (almLog cd ro log Q C_w t p.C_r) n p.NoZK

/-- The statement about which the AlmZK argument in a proof of QESA is made: a point and an inner product. -/
def qesaClaimed [Field F] [AddCommGroup G] [Module F G] {m k : Nat} (cd : Codec G) (ro : Hash) (log : List Event)
    (Gs Hs : List G) (Ms : Fin k → Matrix (Fin m) (Fin m) F) (p : Inner.Proof F) : G × F :=
  let x := qesaX F ro log p.c_prime_w
  let s := qesaS F ro log p.c_prime_w p.c_prime_prime_w
  let b := qesaB F ro log p.c_prime_w p.c_prime_prime_w
  let M := batched (m + 2) Ms x
  (qesaPoint M Gs Hs ((cd.decompress p.c_prime_w).getD 0) ((cd.decompress p.c_prime_prime_w).getD 0) x s b,
    - quad M (powers s m))

/-- The history after which the AlmZK argument in a proof of QESA starts. -/
def qesaLog [Field F] [AddCommGroup G] [Module F G] {m k : Nat} (cd : Codec G) (ro : Hash) (log : List Event)
    (Gs Hs : List G) (Ms : Fin k → Matrix (Fin m) (Fin m) F) (p : Inner.Proof F) : List Event :=
  log ++ qesaHead p.c_prime_w p.c_prime_prime_w (cd.compress (qesaClaimed cd ro log Gs Hs Ms p).1)

/-- The histories out of which the challenges `x`, `s`, `b`, `beta`, `alpha` and `x_j` of QESA are squeezed. -/
def qesaHistories [Field F] [AddCommGroup G] [Module F G] {m k : Nat} (cd : Codec G) (ro : Hash) (log : List Event)
    (Gs Hs : List G) (Q : G) (Ms : Fin k → Matrix (Fin m) (Fin m) F) (p : Inner.Proof F) : List (List Event) :=
  let c := qesaClaimed cd ro log Gs Hs Ms p
  (log ++ [.msg "c_prime_w" p.c_prime_w, .chal "x" 64]) ::
  (log ++ [.msg "c_prime_w" p.c_prime_w, .chal "x" 64, .msg "c_prime_prime_w" p.c_prime_prime_w, .chal "s" 64]) ::
  (log ++ [.msg "c_prime_w" p.c_prime_w, .chal "x" 64, .msg "c_prime_prime_w" p.c_prime_prime_w, .chal "s" 64,
    .chal "b" 64]) ::
  almHistories cd ro (qesaLog cd ro log Gs Hs Ms p) (m + 2) Q c.1 c.2 p.alm_zk

/-- The proof of QESA that `Copy::verify` makes out of a proof of Copy. -/
def copyInner [Field F] [AddCommGroup G] [Module F G] (cd : Codec G) (ro : Hash) (log : List Event) (Cs : List G)
    (p : Copy.Proof F) : Inner.Proof F :=
  ⟨p.inner.alm_zk, cd.compress (dot (List.ofFn (powers (copyAlpha F ro log p.C_w) Cs.length)) Cs +
    (cd.decompress p.C_w).getD 0), p.inner.c_prime_prime_w⟩

/-- The histories out of which the challenges `alpha`, `x`, `s`, `b`, `beta`, `alpha` and `x_j` of Copy are squeezed. -/
def copyHistories [Field F] [AddCommGroup G] [Module F G] {m : Nat} (cd : Codec G) (ro : Hash) (log : List Event)
    (Gs Hs : List G) (Q : G) (Us : List (Matrix (Fin (m + 1)) (Fin (m + 1)) F)) (map : Copy.Mapping) (Cs : List G)
    (p : Copy.Proof F) : List (List Event) :=
  let log1 := log ++ [.msg "c_w" p.C_w, .chal "alpha" 64]
  log1 :: qesaHistories cd ro log1 Gs Hs Q (copySystem Us map (copyAlpha F ro log p.C_w)).get
    (copyInner cd ro log Cs p)

end Qesa.Spec
