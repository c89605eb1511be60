import Verif.Model.Copy
/- What a build without overflow checks makes of a proof. -/
namespace Qesa.Spec
variable {F G : Type}

/-- The proof without the points of `L_vec` that do not count once `1 << L_vec.len()` is taken modulo `2^64`: of `m`
points the first `m % 64` remain. Nothing changes if there are fewer than 64. -/
def trunc (p : Ipa.NoZK F) : Ipa.NoZK F := { p with L_vec := p.L_vec.take (p.L_vec.length % 64) }

/-- `L_vec` has fewer than 64 points; or all of them are decodable and the others are not used by any challenge. -/
def Padded (cd : Codec G) (p : Ipa.NoZK F) : Prop :=
  p.L_vec.length < 64 ∨
    (∀ c ∈ p.L_vec, (cd.decompress c).isSome) ∧ p.R_vec.length ≤ p.L_vec.length % 64

def truncAlm (p : Ipa.AlmZK F) : Ipa.AlmZK F := { p with NoZK := trunc p.NoZK }
def truncInner (p : Inner.Proof F) : Inner.Proof F := { p with alm_zk := truncAlm p.alm_zk }
def truncZk (p : Zk.Proof F) : Zk.Proof F := ⟨truncInner p.inner⟩
def truncCopy (p : Copy.Proof F) : Copy.Proof F := { p with inner := truncInner p.inner }

end Qesa.Spec
