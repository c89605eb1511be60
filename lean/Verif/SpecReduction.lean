import Verif.SpecExtract
import Verif.SpecQesaSound
import Verif.SpecQesa
import Verif.SpecCopyAgm
/-
Openings of the commitments of a proof of QESA or Copy, shown by the prover together with the proof, and what it means
that runs of the prover give a relation between the generators.
-/
namespace Qesa.Spec

/-- Openings of the two commitments of QESA (or Copy): `C'` (or `C_w`) is `(w, r0, r1)` on the generators `G` and `h1` on
the generators `H`, and `C''` is `h2` on the generators `H`. -/
structure Openings (F : Type) (m : Nat) where
  w : Fin (m + 1) → F
  r0 : F
  r1 : F
  h1 : List F
  h2 : List F

namespace Openings
variable {F : Type} {m : Nat}

/-- The opening of `C'`. -/
def first (o : Openings F m) : List F × List F := (List.ofFn o.w ++ [o.r0, o.r1], o.h1)

/-- The opening of `C' + C''`. -/
def both [Add F] (o : Openings F m) : List F × List F :=
  (List.ofFn o.w ++ [o.r0, o.r1], List.zipWith (fun y z => y + z) o.h1 o.h2)

/-- For Copy: the opening of `∑ alpha^j C_j + C_w + C''` if the `C_j` are commitments to the messages `coms`. -/
def aggregated [Field F] (o : Openings F m) (map : Copy.Mapping) (coms : List (List Nat × List F × F)) (α : F) :
    List F × List F :=
  (List.ofFn (copyVector map (coms.map (·.2.1)).flatten α o.w) ++
    [o.r0, o.r1 + dot (coms.map (·.2.2)) (List.ofFn (powers α coms.length))],
    List.zipWith (fun y z => y + z) o.h1 o.h2)

/-- The openings are right. -/
def Fits {G : Type} [Field F] [AddCommGroup G] [Module F G] (o : Openings F m) (cd : Codec G) (Gs Hs : List G)
    (c' c'' : Comp) : Prop :=
  o.h1.length = m + 3 ∧ o.h2.length = m + 3 ∧ cd.decompress c' = some (dot o.first.1 Gs + dot o.first.2 Hs) ∧
  cd.decompress c'' = some (dot o.h2 Hs)

instance {G : Type} [Field F] [AddCommGroup G] [Module F G] [DecidableEq G] (o : Openings F m) (cd : Codec G)
    (Gs Hs : List G) (c' c'' : Comp) : Decidable (o.Fits cd Gs Hs c' c'') := by
  unfold Fits; infer_instance

end Openings

/-- The opening that the extractor of QESA returns is on the rescaled generators. This is the same opening on the
generators themselves. -/
def unscaled {F : Type} [Field F] (x : F) : List F → List F
  | [] => []
  | a :: l => (a * (x ^ 2)⁻¹ + (1 - (x ^ 2)⁻¹)) :: l

/-- Runs of a prover of QESA give a relation between the generators. `runs ro'` says which runs may be used, `inner ro'` is the proof in
such a run, and `shown` is an opening of `C' + C''` in the run with the hash function `ro`. The conversations of the trees `T`
come from runs with the same points `C'` and `C''` and the same `x` as in the run with `ro`. From their scalars the extractor
of C61 computes a relation, or an opening of `C' + C''` that differs from the one that was shown. -/
def GivesRelation {F G : Type} [Field F] [DecidableEq F] [AddCommGroup G] [Module F G] {m k : Nat} (cd : Codec G)
    (log : List Event) (Gs Hs : List G) (Q : G) (Ms : Fin k → Matrix (Fin (m + 1)) (Fin (m + 1)) F) (q : Nat)
    (runs : Hash → Prop) (inner : Hash → Inner.Proof F) (ro : Hash) (shown : List F × List F) : Prop :=
  let c' := (inner ro).c_prime_w
  let c'' := (inner ro).c_prime_prime_w
  let x := qesaX F ro log c'
  let M' := batched (m + 3) Ms x
  ∃ (s : Fin (m + 2) → F) (b : Fin (m + 2) → Fin 3 → F)
    (β : Fin (m + 2) → Fin 3 → Fin 3 → F) (α : Fin (m + 2) → Fin 3 → Fin 3 → Fin 2 → F)
    (T : Fin (m + 2) → Fin 3 → Fin 3 → Fin 2 → IpaTree F G q),
    (∀ i j l e, ∀ c ∈ (T i j l e).paths, ∃ ro', runs ro' ∧
      let p := inner ro'
      let lg1 := qesaLog cd ro' log Gs Hs Ms p
      let c1 := qesaClaimed cd ro' log Gs Hs Ms p
      let lg2 := almLog cd ro' lg1 Q c1.1 c1.2 p.alm_zk.C_r
      p.c_prime_w = c' ∧ p.c_prime_prime_w = c'' ∧ qesaX F ro' log c' = x ∧ qesaS F ro' log c' c'' = s i ∧
      qesaB F ro' log c' c'' = b i j ∧ almBeta F ro' lg1 p.alm_zk.C_r = β i j l ∧
      ipaAlpha F ro' lg2 (2 ^ q) = α i j l e ∧
      Continues cd p.alm_zk.NoZK (ipaChallenges F ro' lg2 (2 ^ q) p.alm_zk.NoZK.L_vec p.alm_zk.NoZK.R_vec) c) ∧
    match extractQesa M' x s b fun i j => extractAlm (- quad M' (powers (s i) (m + 1))) (β i j) (α i j)
        fun l e => (T i j l e).scalars with
    | .inl (w, v) => ∃ rel, difference (unscaled x w, v) shown = some rel ∧ IsRelation Gs Hs Q rel
    | .inr rel => IsRelation Gs Hs Q rel

end Qesa.Spec
