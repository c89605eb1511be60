import Mathlib.Data.Nat.Cast.Defs
import Verif.Model.Basic
/-
Model of the Merlin transcript as it is used through src/transcript.rs.

Merlin's STROBE sponge is not modelled: a transcript is the list of everything that was done to
it, and the bytes squeezed out are an arbitrary function (`Hash`) of that list.  All theorems
quantify over every such function.
-/
namespace Qesa

/-- One operation on a Merlin transcript. -/
inductive Event
  /-- `append_message(label, data)` -/
  | msg (label : String) (data : List UInt8)
  /-- `challenge_bytes(label, &mut buf)` with `buf.len() = len` -/
  | chal (label : String) (len : Nat)
  deriving DecidableEq, Repr

/-- `merlin::Transcript`: the history of operations. -/
structure Transcript where
  log : List Event
  deriving DecidableEq, Repr

/-- What Merlin squeezes out for a history that ends in a 64-byte challenge request. -/
abbrev Hash := List Event → Vector UInt8 64

/-- `Transcript::append_message` (merlin). -/
def Transcript.appendMessage (t : Transcript) (label : String) (data : List UInt8) : Transcript :=
  ⟨t.log ++ [.msg label data]⟩

/-- Little-endian encoding of a `u64`. -/
def u64le (n : Nat) : List UInt8 :=
  (List.range 8).map fun i => UInt8.ofNat (n / 256 ^ i)

/-- `Transcript::append_u64` (merlin): appends the eight little-endian bytes. -/
def Transcript.appendU64 (t : Transcript) (label : String) (n : Nat) : Transcript :=
  t.appendMessage label (u64le n)

/-- The number whose little-endian bytes are given. -/
def leNat : List UInt8 → Nat
  | [] => 0
  | b :: bs => b.toNat + 256 * leNat bs

/-- src/transcript.rs:12-17 `challenge_scalar`: request 64 bytes under `label`, reduce them modulo
the group order.  `Scalar::from_bytes_mod_order_wide` is the cast of the little-endian number into
the scalar field `F`. -/
def challengeScalar {F : Type} [NatCast F] (ro : Hash) (t : Transcript) (label : String) :
    F × Transcript :=
  let log := t.log ++ [.chal label 64]
  ((leNat (ro log).toList : F), ⟨log⟩)

/-- A compressed point (`CompressedRistretto`): its bytes. -/
abbrev Comp := List UInt8

/-- `RistrettoPoint::compress` / `CompressedRistretto::decompress` of curve25519-dalek, with the two
facts about them that are trusted: decompression inverts compression, and only canonical
encodings decompress. -/
structure Codec (G : Type) where
  compress : G → Comp
  decompress : Comp → Option G
  decompress_compress : ∀ p, decompress (compress p) = some p
  compress_decompress : ∀ c p, decompress c = some p → compress p = c

/-- Everything outside the repository that the code calls: hash and point encoding. -/
structure Ctx (G : Type) extends Codec G where
  ro : Hash

end Qesa
