import Verif.SpecIpa
/- Specification vocabulary for the almost zero-knowledge inner-product argument. -/
namespace Qesa.Spec

/-- The challenge `beta` of an AlmZK argument that starts after `log` with commitment `C_r`. -/
def almBeta (F : Type) [NatCast F] (ro : Hash) (log : List Event) (C_r : Comp) : F :=
  squeeze F ro (log ++ [.msg "C_r" C_r, .chal "beta" 64])

/-- What AlmZK does to the transcript before the inner-product argument proper. -/
def almHead (C_r P : Comp) : List Event := [.msg "C_r" C_r, .chal "beta" 64, .msg "P" P]

/-- The challenge `alpha` of an AlmZK argument for `(C_w, t)` with `n` generators that starts after
`log` with commitment `C_r`. -/
def almAlpha {F G : Type} [Field F] [AddCommGroup G] [Module F G] (cx : Ctx G) (log : List Event)
    (Q C_w C_r : G) (t : F) (n : Nat) : F :=
  let β := almBeta F cx.ro log (cx.compress C_r)
  ipaAlpha F cx.ro
    (log ++ almHead (cx.compress C_r) (cx.compress (β • C_w + C_r + (β * β * t) • Q))) n

end Qesa.Spec
