import Mathlib.Algebra.Field.ZMod
import Verif.Model.Transcript
/-
A small concrete instance used by the `example`s beside the theorems: scalars and points are
`ZMod 101` (so the "discrete logarithm" of every point is known), points are encoded in one byte.
-/
namespace Qesa.Toy

instance : Fact (Nat.Prime 101) := ⟨by decide⟩

/-- Scalars and points of the example instance. -/
abbrev K := ZMod 101

/-- One-byte encoding; bytes above 100 and other lengths are invalid. -/
def codec : Codec K where
  compress x := [UInt8.ofNat x.val]
  decompress
    | [b] => if b.toNat < 101 then some (b.toNat : K) else none
    | _ => none
  decompress_compress := by decide
  compress_decompress := by
    intro c p h
    match c, h with
    | [b], h =>
      by_cases hb : b.toNat < 101
      · simp only [hb, if_true, Option.some.injEq] at h
        subst h
        simp [ZMod.val_natCast, Nat.mod_eq_of_lt hb]
      · simp [hb] at h

/-- Sum of the bytes in a log. -/
def byteSum (log : List Event) : Nat :=
  log.foldl (fun s e => match e with
    | .msg _ d => s + (d.map UInt8.toNat).sum
    | .chal _ _ => s + 3) 0

/-- A hash that depends on the whole log. -/
def hash (log : List Event) : Vector UInt8 64 :=
  Vector.ofFn fun i => if i.val = 0 then UInt8.ofNat (byteSum log + log.length) else 0

/-- The example instance. -/
def cx : Ctx K := { codec with ro := hash }

end Qesa.Toy
