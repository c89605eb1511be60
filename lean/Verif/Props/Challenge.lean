import Mathlib.Data.Int.CardIntervalMod
import Mathlib.Data.ZMod.Basic
import Mathlib.SetTheory.Cardinal.Finite
import Mathlib.Data.List.OfFn
import Mathlib.Tactic.Ring
import Verif.Model.Transcript
/- Property C10: challenge_scalar of src/transcript.rs. -/
namespace Qesa

theorem leNat_lt (l : List UInt8) : leNat l < 256 ^ l.length := by
  induction l with
  | nil => simp [leNat]
  | cons b l ih =>
    have := b.toNat_lt
    rw [leNat, List.length_cons, pow_succ]; omega

theorem leNat_injective (l l' : List UInt8) (hl : l.length = l'.length) (h : leNat l = leNat l') :
    l = l' := by
  induction l generalizing l' with
  | nil => cases l' <;> simp_all
  | cons b l ih => cases l' with
    | nil => simp at hl
    | cons b' l' =>
      have h1 := b.toNat_lt
      have h2 := b'.toNat_lt
      simp only [leNat] at h
      have h3 : b.toNat = b'.toNat := by omega
      rw [UInt8.toNat_inj.1 h3, ih l' (by simpa using hl) (by omega)]

theorem leNat_digits (m n : Nat) :
    leNat (List.ofFn fun i : Fin m => UInt8.ofNat (n / 256 ^ i.val)) = n % 256 ^ m := by
  induction m generalizing n with
  | zero => simp [leNat, Nat.mod_one]
  | succ m ih =>
    rw [List.ofFn_succ, leNat]
    have : (fun i : Fin m => UInt8.ofNat (n / 256 ^ i.succ.val)) =
        fun i : Fin m => UInt8.ofNat (n / 256 / 256 ^ i.val) := by
      funext i; rw [Fin.val_succ, pow_succ', Nat.div_div_eq_div_mul]
    rw [this, ih, pow_succ', Nat.mod_mul]
    simp

/-- 64 bytes are the numbers below `256 ^ 64`. -/
def bytesEquiv : Vector UInt8 64 ≃ Fin (256 ^ 64) where
  toFun v := ⟨leNat v.toList, by simpa using leNat_lt v.toList⟩
  invFun n := ⟨(List.ofFn fun i : Fin 64 => UInt8.ofNat (n.val / 256 ^ i.val)).toArray, by simp⟩
  left_inv v := by
    apply Vector.toList_inj.1
    apply leNat_injective
    · simp
    · simp only [Vector.toList_mk]
      rw [leNat_digits, Nat.mod_eq_of_lt]
      simpa using leNat_lt v.toList
  right_inv n := by
    apply Fin.ext
    simp only [Vector.toList_mk]
    rw [leNat_digits, Nat.mod_eq_of_lt n.2]

namespace Props

/-- C10: `challenge_scalar` requests 64 bytes under the label and returns their little-endian value in
the scalar field. -/
theorem C10_challenge_scalar {F : Type} [NatCast F] (ro : Hash) (t : Transcript) (label : String) :
    (challengeScalar (F := F) ro t label).2.log = t.log ++ [.chal label 64] ∧
    (challengeScalar (F := F) ro t label).1 =
      ((leNat (ro (t.log ++ [.chal label 64])).toList : Nat) : F) := ⟨rfl, rfl⟩

/-- C10: the little-endian value is the sum of the bytes weighted by powers of 256. -/
theorem C10_little_endian (l : List UInt8) :
    leNat l = ((List.range l.length).map fun i => (l.getD i 0).toNat * 256 ^ i).sum := by
  induction l with
  | nil => rfl
  | cons b l ih =>
    rw [leNat, ih, List.length_cons, List.range_succ_eq_map, List.map_cons, List.sum_cons,
      List.map_map, ← List.sum_map_mul_left]
    simp only [List.getD_cons_zero, pow_zero, mul_one, Function.comp_def, List.getD_cons_succ,
      Nat.succ_eq_add_one, pow_succ]
    congr 2
    apply List.map_congr_left
    intro i _; ring

/-- C10: for a group of order `q`, every scalar is hit by `⌊2^512/q⌋` or `⌊2^512/q⌋ + 1` of the
`2^512` byte strings. -/
theorem C10_almost_uniform (q : Nat) [NeZero q] (x : ZMod q) :
    Nat.card {v : Vector UInt8 64 // ((leNat v.toList : Nat) : ZMod q) = x} =
      2 ^ 512 / q + if x.val < 2 ^ 512 % q then 1 else 0 := by
  have hq : 0 < q := Nat.pos_of_ne_zero (NeZero.ne q)
  have e1 : Nat.card {v : Vector UInt8 64 // ((leNat v.toList : Nat) : ZMod q) = x} =
      Nat.card {i : Fin (256 ^ 64) // i.val ≡ x.val [MOD q]} := by
    apply Nat.card_congr
    apply Equiv.subtypeEquiv bytesEquiv
    intro v
    rw [← ZMod.natCast_eq_natCast_iff, ZMod.natCast_zmod_val]
    rfl
  have e2 : Nat.card {i : Fin (256 ^ 64) // i.val ≡ x.val [MOD q]} =
      (256 ^ 64 : Nat).count (fun i => i ≡ x.val [MOD q]) := by
    rw [Nat.count_eq_card_fintype]
    rw [← @Nat.card_eq_fintype_card _ (Nat.CountSet.fintype _ _)]
    apply Nat.card_congr
    exact
      { toFun := fun i => ⟨i.1.1, i.1.2, i.2⟩
        invFun := fun i => ⟨⟨i.1, i.2.1⟩, i.2.2⟩
        left_inv := fun _ => rfl
        right_inv := fun _ => rfl }
  have hp : (256 ^ 64 : Nat) = 2 ^ 512 := by
    rw [show (256 : Nat) = 2 ^ 8 from rfl, ← pow_mul]
  rw [e1, e2, Nat.count_modEq_card _ hq, hp, Nat.mod_eq_of_lt (ZMod.val_lt x)]

/-- A scalar and a label: two of the bytes set. -/
example : leNat [1, 2, 0] = 513 := rfl

end Props
end Qesa
