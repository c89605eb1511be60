import Mathlib.NumberTheory.LucasPrimality
import Mathlib.Tactic.NormNum.Prime
import Mathlib.Tactic.Ring
/- The order of the Ristretto group is a prime.  Certificates after Pratt. -/
namespace Qesa.Ristretto

/-- `a ^ n % p` by squaring, for `n < 2 ^ fuel`. -/
def powMod : Nat → Nat → Nat → Nat → Nat
  | 0, _, _, p => 1 % p
  | fuel + 1, a, n, p =>
    let h := powMod fuel (a * a % p) (n / 2) p
    if n % 2 = 1 then a * h % p else h

theorem powMod_eq (fuel a n p : Nat) (h : n < 2 ^ fuel) : powMod fuel a n p = a ^ n % p := by
  induction fuel generalizing a n with
  | zero =>
    obtain rfl : n = 0 := by simpa using h
    simp [powMod]
  | succ f ih =>
    have hn : n / 2 < 2 ^ f := by rw [pow_succ] at h; omega
    have e : (a * a % p) ^ (n / 2) % p = a ^ (2 * (n / 2)) % p := by
      rw [← Nat.pow_mod, pow_mul, pow_two]
    simp only [powMod, ih _ _ hn, e]
    split_ifs with h2
    · conv_rhs => rw [show n = 2 * (n / 2) + 1 by omega, pow_succ, mul_comm]
      rw [Nat.mul_mod, Nat.mod_mod, ← Nat.mul_mod]
    · rw [show 2 * (n / 2) = n by omega]

/-- What is computed to check a certificate: `fs` are the prime factors of `p - 1` and `a` is a primitive root. -/
def check (p a : Nat) (fs : List Nat) : Bool :=
  decide (1 < p) && decide (p < 2 ^ 256) && decide (fs.prod = p - 1) && decide (powMod 256 a (p - 1) p = 1) &&
    fs.all fun q => decide (powMod 256 a ((p - 1) / q) p ≠ 1)

theorem pratt (p a : Nat) (fs : List Nat) (hc : check p a fs = true) (hfs : ∀ q ∈ fs, q.Prime) : p.Prime := by
  simp only [check, Bool.and_eq_true, decide_eq_true_eq, List.all_eq_true] at hc
  obtain ⟨⟨⟨⟨hp, hb⟩, h⟩, h1⟩, h2⟩ := hc
  rw [powMod_eq _ _ _ _ (by omega)] at h1
  have key : ∀ n, ((a : ZMod p) ^ n = 1 ↔ a ^ n % p = 1) := by
    intro n
    have : ((a : ZMod p) ^ n = 1) ↔ ((a ^ n : Nat) : ZMod p) = ((1 : Nat) : ZMod p) := by push_cast; rfl
    rw [this, ZMod.natCast_eq_natCast_iff]
    unfold Nat.ModEq
    rw [Nat.mod_eq_of_lt hp]
  refine lucas_primality p a ((key _).2 h1) ?_
  intro q hq hd
  rw [← h] at hd
  obtain ⟨r, hr, hqr⟩ := (Prime.dvd_prod_iff hq.prime).1 hd
  rw [(Nat.prime_dvd_prime_iff_eq hq (hfs r hr)).1 hqr]
  have h3 := h2 r hr
  rw [powMod_eq _ _ _ _ (lt_of_le_of_lt (Nat.div_le_self _ _) (by omega))] at h3
  exact fun he => h3 ((key _).1 he)

theorem prime_14741173 : Nat.Prime 14741173 :=
  pratt 14741173 2 [2, 2, 3, 3, 409477] (by decide +kernel)
    (by simp only [List.forall_mem_cons, List.not_mem_nil, false_imp_iff, implies_true, and_true]
        exact ⟨by norm_num, by norm_num, by norm_num, by norm_num, by norm_num⟩)

theorem prime_58964693 : Nat.Prime 58964693 :=
  pratt 58964693 2 [2, 2, 14741173] (by decide +kernel)
    (by simp only [List.forall_mem_cons, List.not_mem_nil, false_imp_iff, implies_true, and_true]
        exact ⟨by norm_num, by norm_num, prime_14741173⟩)

theorem prime_3044861653679985063343 : Nat.Prime 3044861653679985063343 :=
  pratt 3044861653679985063343 5 [2, 3, 11, 30703, 82163, 132667, 137849] (by decide +kernel)
    (by simp only [List.forall_mem_cons, List.not_mem_nil, false_imp_iff, implies_true, and_true]
        exact ⟨by norm_num, by norm_num, by norm_num, by norm_num, by norm_num, by norm_num, by norm_num⟩)

theorem prime_198211423230930754013084525763697 : Nat.Prime 198211423230930754013084525763697 :=
  pratt 198211423230930754013084525763697 5 [2, 2, 2, 2, 3, 23, 58964693, 3044861653679985063343] (by decide +kernel)
    (by simp only [List.forall_mem_cons, List.not_mem_nil, false_imp_iff, implies_true, and_true]
        exact ⟨by norm_num, by norm_num, by norm_num, by norm_num, by norm_num, by norm_num, prime_58964693, prime_3044861653679985063343⟩)

theorem prime_292386187 : Nat.Prime 292386187 :=
  pratt 292386187 2 [2, 3, 3, 3, 3, 307, 5879] (by decide +kernel)
    (by simp only [List.forall_mem_cons, List.not_mem_nil, false_imp_iff, implies_true, and_true]
        exact ⟨by norm_num, by norm_num, by norm_num, by norm_num, by norm_num, by norm_num, by norm_num⟩)

theorem prime_213441916511 : Nat.Prime 213441916511 :=
  pratt 213441916511 13 [2, 5, 73, 292386187] (by decide +kernel)
    (by simp only [List.forall_mem_cons, List.not_mem_nil, false_imp_iff, implies_true, and_true]
        exact ⟨by norm_num, by norm_num, by norm_num, prime_292386187⟩)

theorem prime_1224481 : Nat.Prime 1224481 :=
  pratt 1224481 13 [2, 2, 2, 2, 2, 3, 5, 2551] (by decide +kernel)
    (by simp only [List.forall_mem_cons, List.not_mem_nil, false_imp_iff, implies_true, and_true]
        exact ⟨by norm_num, by norm_num, by norm_num, by norm_num, by norm_num, by norm_num, by norm_num, by norm_num⟩)

theorem prime_1257559732178653 : Nat.Prime 1257559732178653 :=
  pratt 1257559732178653 2 [2, 2, 3, 7, 23, 531581, 1224481] (by decide +kernel)
    (by simp only [List.forall_mem_cons, List.not_mem_nil, false_imp_iff, implies_true, and_true]
        exact ⟨by norm_num, by norm_num, by norm_num, by norm_num, by norm_num, by norm_num, prime_1224481⟩)

theorem prime_4434155615661930479 : Nat.Prime 4434155615661930479 :=
  pratt 4434155615661930479 17 [2, 41, 43, 1257559732178653] (by decide +kernel)
    (by simp only [List.forall_mem_cons, List.not_mem_nil, false_imp_iff, implies_true, and_true]
        exact ⟨by norm_num, by norm_num, by norm_num, prime_1257559732178653⟩)

theorem prime_172054593956031949258510691 : Nat.Prime 172054593956031949258510691 :=
  pratt 172054593956031949258510691 2 [2, 5, 1361, 2851, 4434155615661930479] (by decide +kernel)
    (by simp only [List.forall_mem_cons, List.not_mem_nil, false_imp_iff, implies_true, and_true]
        exact ⟨by norm_num, by norm_num, by norm_num, by norm_num, prime_4434155615661930479⟩)

theorem prime_19757330305831588566944191468367130476339 : Nat.Prime 19757330305831588566944191468367130476339 :=
  pratt 19757330305831588566944191468367130476339 2 [2, 269, 213441916511, 172054593956031949258510691] (by decide +kernel)
    (by simp only [List.forall_mem_cons, List.not_mem_nil, false_imp_iff, implies_true, and_true]
        exact ⟨by norm_num, by norm_num, prime_213441916511, prime_172054593956031949258510691⟩)

theorem prime_276602624281642239937218680557139826668747 : Nat.Prime 276602624281642239937218680557139826668747 :=
  pratt 276602624281642239937218680557139826668747 2 [2, 7, 19757330305831588566944191468367130476339] (by decide +kernel)
    (by simp only [List.forall_mem_cons, List.not_mem_nil, false_imp_iff, implies_true, and_true]
        exact ⟨by norm_num, by norm_num, prime_19757330305831588566944191468367130476339⟩)

theorem prime_order : Nat.Prime 7237005577332262213973186563042994240857116359379907606001950938285454250989 :=
  pratt 7237005577332262213973186563042994240857116359379907606001950938285454250989 2 [2, 2, 3, 11, 198211423230930754013084525763697, 276602624281642239937218680557139826668747] (by decide +kernel)
    (by simp only [List.forall_mem_cons, List.not_mem_nil, false_imp_iff, implies_true, and_true]
        exact ⟨by norm_num, by norm_num, by norm_num, by norm_num, prime_198211423230930754013084525763697, prime_276602624281642239937218680557139826668747⟩)

end Qesa.Ristretto
