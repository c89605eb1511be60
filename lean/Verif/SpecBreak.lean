import Verif.SpecExplain
import Verif.SpecReduction
import Verif.Props.QesaSound
/-
False openings shown by a prover of a session, and relations between the generators that follow from them (C114).
-/
namespace Qesa.Spec
open Ipa Lmpa Qesa.Props
variable {F G : Type} [Field F] [DecidableEq F] [AddCommGroup G] [Module F G] [DecidableEq G]

/-- `o` is an opening of the commitments of a statement and its proof that shows that the statement is false, or (QESA and
Copy) that the equation that `x` selects is violated. For QESA and Copy this is an opening of the sum `C' + C''`; the vector
`shifted x w` is `w` if its first entry is one. The linear maps have no commitments. -/
def Slot.FalseOpening (cd : Codec G) (gens : Generators G) (ro : Hash) (h : List Event) :
    (s : Slot) → s.Statement F G → s.Proof F G → List F × List F → Prop
  | .ipa k, st, _, o => o.1.length = 2 ^ k ∧ o.2.length = 2 ^ k ∧
      st.1 = dot o.1 (gens.G k) + dot o.2 (gens.H k) + (st.2 : F) • gens.Q ∧ dot o.1 o.2 ≠ st.2
  | .alm k, st, _, o => o.1.length = 2 ^ k ∧ o.2.length = 2 ^ k ∧ st.1 = dot o.1 (gens.G k) + dot o.2 (gens.H k) ∧
      dot o.1 o.2 ≠ st.2
  | .qesa m e k, st, p, o =>
    let Ms : Fin (k + 1) → Matrix (Fin (m + 1)) (Fin (m + 1)) F := st
    let i := Zk.Proof.inner p
    let x := qesaX F ro h i.c_prime_w
    x ≠ 0 ∧ ∃ (w : Fin (m + 1) → F) (r0 r1 : F) (C' C'' : G), o.1 = List.ofFn w ++ [r0, r1] ∧ o.2.length = m + 3 ∧
      cd.decompress i.c_prime_w = some C' ∧ cd.decompress i.c_prime_prime_w = some C'' ∧
      C' + C'' = dot o.1 (gens.G e) + dot o.2 (gens.H e) ∧ quad (batched (m + 3) Ms x) (shifted x w) ≠ 0
  | .copy m e N, st, p, o =>
    let st : CopyClaim F G m N := st
    let c_w := Copy.Proof.C_w p
    let log1 := h ++ [.msg "c_w" c_w, .chal "alpha" 64]
    let i := copyInner cd ro h st.Cs p
    let x := qesaX F ro log1 i.c_prime_w
    x ≠ 0 ∧ ∃ (w : Fin (m + 1) → F) (r0 r1 : F) (C' C'' : G), o.1 = List.ofFn w ++ [r0, r1] ∧ o.2.length = m + 3 ∧
      cd.decompress i.c_prime_w = some C' ∧ cd.decompress i.c_prime_prime_w = some C'' ∧
      C' + C'' = dot o.1 (gens.G e) + dot o.2 (gens.H e) ∧
      quad (batched (m + 3) (copySystem st.Us st.map (copyAlpha F ro h c_w)).get x) (shifted x w) ≠ 0
  | .lmpa _, _, _, _ | .simple _, _, _, _ => False

/-- A tree of further accepted runs with hash functions in `S`, as in `Slot.ExplainedBy`, and the opening `o` give a relation
between the generators: it is what the extractor returns, or the difference of `o` and the opening that the extractor
returns. -/
def Slot.BrokenBy (cd : Codec G) (fuel : Nat) (gens : Generators G) (S : Hash → Prop) : (s : Slot) → (h : List Event) →
    (run : Hash → s.Statement F G × s.Proof F G) → List F × List F → Hash → Prop
  | .ipa k, h, run, o, ro =>
    let t : F := (run ro).1.2
    ∃ (α : Fin 2 → F) (T : Fin 2 → IpaTree F G k),
      (∀ i, ∀ c ∈ (T i).paths, ∃ ro', Slot.Again cd fuel gens S (.ipa k) h run (k + 1) ro ro' ∧
        let p : Ipa.NoZK F := (run ro').2
        ipaAlpha F ro' h (2 ^ k) = α i ∧ Continues cd p (ipaChallenges F ro' h (2 ^ k) p.L_vec p.R_vec) c) ∧
      match extractIpa t α fun i => (T i).scalars with
      | .inl e => ∃ rel, difference e o = some rel ∧ IsRelation (gens.G k) (gens.H k) gens.Q rel
      | .inr rel => IsRelation (gens.G k) (gens.H k) gens.Q rel
  | .alm k, h, run, o, ro =>
    let C_w : G := (run ro).1.1
    let t : F := (run ro).1.2
    ∃ (β : Fin 3 → F) (α : Fin 3 → Fin 2 → F) (T : Fin 3 → Fin 2 → IpaTree F G k),
      (∀ i j, ∀ c ∈ (T i j).paths, ∃ ro', Slot.Again cd fuel gens S (.alm k) h run (k + 2) ro ro' ∧
        let p : Ipa.AlmZK F := (run ro').2
        let lg := almLog cd ro' h gens.Q C_w t p.C_r
        p.C_r = Ipa.AlmZK.C_r (run ro).2 ∧ almBeta F ro' h p.C_r = β i ∧ ipaAlpha F ro' lg (2 ^ k) = α i j ∧
        Continues cd p.NoZK (ipaChallenges F ro' lg (2 ^ k) p.NoZK.L_vec p.NoZK.R_vec) c) ∧
      match extractAlm t β α fun i j => (T i j).scalars with
      | .inl e => ∃ rel, difference e o = some rel ∧ IsRelation (gens.G k) (gens.H k) gens.Q rel
      | .inr rel => IsRelation (gens.G k) (gens.H k) gens.Q rel
  | .qesa m e k, h, run, o, ro =>
    let Ms : Fin (k + 1) → Matrix (Fin (m + 1)) (Fin (m + 1)) F := (run ro).1
    GivesRelation cd h (gens.G e) (gens.H e) gens.Q Ms e (Slot.Again cd fuel gens S (.qesa m e k) h run (e + 4) ro)
      (fun ro' => Zk.Proof.inner (run ro').2) ro o
  | .copy m e N, h, run, o, ro =>
    let st : CopyClaim F G m N := (run ro).1
    let c_w := Copy.Proof.C_w (run ro).2
    GivesRelation cd (h ++ [.msg "c_w" c_w, .chal "alpha" 64]) (gens.G e) (gens.H e) gens.Q
      (copySystem st.Us st.map (copyAlpha F ro h c_w)).get e (fun ro' =>
        Slot.Again cd fuel gens S (.copy m e N) h run (e + 4) ro ro' ∧ Copy.Proof.C_w (run ro').2 = c_w ∧
          copyAlpha F ro' h c_w = copyAlpha F ro h c_w)
      (fun ro' => copyInner cd ro' h st.Cs (run ro').2) ro o
  | .lmpa _, _, _, _, _ | .simple _, _, _, _, _ => False

end Qesa.Spec
