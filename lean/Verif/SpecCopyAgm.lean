import Verif.SpecAgm
import Verif.SpecCopy
/-
Algebraic provers of Copy.
-/
namespace Qesa.Spec
variable {F G V : Type}

/-- A proof of Copy with the representations of its points. The proof has another field for a point, which
`Copy::verify` overwrites. -/
structure AlgCopy (F V : Type) where
  C_w : V
  C'' : V
  alm : AlgAlm F V
  overwritten : Comp

/-- The proof proper. -/
def AlgCopy.proof (cmp : G → Comp) (ev : V → G) (p : AlgCopy F V) : Copy.Proof F :=
  ⟨cmp (ev p.C_w), ⟨p.alm.proof cmp ev, p.overwritten, cmp (ev p.C'')⟩⟩

/-- What Copy appends to the transcript before the challenge `alpha`. -/
def alphaNotes (cmp : G → Comp) (ev : V → G) (C_w : V) : List (Note V) :=
  [(.msg "c_w" (cmp (ev C_w)), some C_w), (.chal "alpha" 64, none)]

/-- The commitment to messages at some indices: `∑ mⱼ G_{iⱼ} + r G_last`. -/
def messageCommit [Field F] [AddCommGroup V] [Module F V] (Gs : List V) (c : List Nat × List F × F) : V :=
  dot c.2.1 (c.1.map fun i => Gs.getD i 0) + c.2.2 • Gs.getD (Gs.length - 1) 0

/-- The proof of QESA inside, for the commitments `Cs` and the challenge `α`. -/
def AlgCopy.qesa [Field F] [AddCommGroup V] [Module F V] (p : AlgCopy F V) (Cs : List V) (α : F) :
    AlgQesa F V :=
  ⟨dot (List.ofFn (powers α Cs.length)) Cs + p.C_w, p.C'', p.alm⟩

/-- The histories out of which the challenges of Copy are squeezed. -/
def copyQueries [Field F] [AddCommGroup V] [Module F V] {m : Nat} (ro : Hash) (cmp : G → Comp) (ev : V → G)
    (log : List (Note V)) (Gs Hs : List V) (Q : V) (Us : List (Matrix (Fin (m + 1)) (Fin (m + 1)) F))
    (map : Copy.Mapping) (Cs : List V) (p : AlgCopy F V) : List (List (Note V)) :=
  let α := copyAlpha F ro (log.map Prod.fst) (cmp (ev p.C_w))
  let log1 := log ++ alphaNotes cmp ev p.C_w
  log1 :: qesaQueries ro cmp ev log1 Gs Hs Q (copySystem Us map α).get (p.qesa Cs α)

/-- What the two sides of the verification equation of Copy differ by. -/
def copyGap [Field F] [AddCommGroup V] [Module F V] {m : Nat} (ro : Hash) (log : List Event) (cmp : V → Comp)
    (Gs Hs : List V) (Q : V) (Us : List (Matrix (Fin (m + 1)) (Fin (m + 1)) F)) (map : Copy.Mapping)
    (Cs : List V) (p : AlgCopy F V) : V :=
  let α := copyAlpha F ro log (cmp p.C_w)
  qesaGap ro (log ++ [.msg "c_w" (cmp p.C_w), .chal "alpha" 64]) cmp Gs Hs Q (copySystem Us map α).get
    (p.qesa Cs α)

/-- What Copy is to show about the vector committed to in `C_w`: it solves the user's equations, the slot of
every message holds the message, and the slots of the commitment indices are empty. -/
def CopyHolds [Field F] {m : Nat} (Us : List (Matrix (Fin (m + 1)) (Fin (m + 1)) F)) (map : Copy.Mapping)
    (msgs : List F) (v : Fin (m + 1) → F) : Prop :=
  (∀ U ∈ Us, quad U v = 0) ∧
    ∀ e ∈ map.msgs_map, slot v e.position_in_witness = msgs.getD e.msg_id 0 ∧ slot v e.commitment_index = 0

/-- The vector with the aggregated messages added at the commitment indices. -/
def copyVector [Field F] {m : Nat} (map : Copy.Mapping) (msgs : List F) (α : F) (v : Fin (m + 1) → F) :
    Fin (m + 1) → F := fun i =>
  v i + ((map.msgs_map.filter fun e => e.commitment_index == i.val).map fun e =>
    α ^ (e.commitment_crs_id + 1) * msgs.getD e.msg_id 0).sum

end Qesa.Spec
