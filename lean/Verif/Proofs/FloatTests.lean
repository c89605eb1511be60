import Verif.Model.TestsFloat
import Verif.Proofs.LmpaK
/- The loops of the tests on `f64` numbers, for numbers of a field. -/
namespace Qesa.FloatTests
open Qesa Spec LmpaK
variable {T : Type} [Field T]

theorem mul_general (A : List (List T)) (w : List T) :
    matrixVectorMulGeneral A w ((0 : ℕ) : T) = matrixpointVectorMul A w := by
  unfold matrixVectorMulGeneral matrixpointVectorMul
  simp only [Nat.cast_zero, smul_eq_mul, mul_comm]

theorem zInner_field (shift i : Nat) (x : T) : ∀ (ys : List T) (j : Nat) (z : List T),
    zInner shift i x j ys z = Lmpa.zInner shift i x j ys z := by
  intro ys
  induction ys with
  | nil => intro j z; rfl
  | cons y ys ih => intro j z; unfold zInner Lmpa.zInner; simp only [ih]

theorem zOuter_field (shift : Nat) (ys : List T) : ∀ (xs : List T) (i : Nat) (z : List T),
    zOuter shift ys i xs z = Lmpa.zOuter shift ys i xs z := by
  intro xs
  induction xs with
  | nil => intro i z; rfl
  | cons x xs ih => intro i z; unfold zOuter Lmpa.zOuter; simp only [ih, zInner_field]

theorem combineM_field (AT : List (List (List T))) (xs : List T) : ∀ (c i : Nat)
    (acc : Option (List (List T))), combineM AT xs c i acc = Lmpa.combineW AT xs c i acc := by
  intro c
  induction c with
  | zero => intro i acc; rfl
  | succ c ih => intro i acc; unfold combineM Lmpa.combineW; simp only [ih]; rfl

theorem combineV_field (u : List (List T)) (zs : List T) : ∀ (c i : Nat)
    (acc : Option (List T)), combineV u zs c i acc = Lmpa.combineT u zs c i acc := by
  have e : ∀ (v : List T) (x : T), vectorScalarMulGeneral v x = vectorpointScalarMul v x := by
    intro v x
    simp only [vectorScalarMulGeneral, vectorpointScalarMul, smul_eq_mul, mul_comm]
  intro c
  induction c with
  | zero => intro i acc; rfl
  | succ c ih => intro i acc; unfold combineV Lmpa.combineT; simp only [ih, e]; rfl

theorem vandemonde_field (x : T) (n : Nat) :
    vandemondeVectorGeneral x n ((1 : ℕ) : T) = vandemondeVector x n := by
  unfold vandemondeVectorGeneral vandemondeVector
  rw [Nat.cast_one]

theorem uInner_field (t : List T) (shift i : Nat) (At : List (List T)) :
    ∀ (wT : List (List (List T))) (j : Nat) (u : List (List T)),
    uInner false (fun v => idx v 0) t shift i At j wT u = Lmpa.uInner t shift i At j wT u := by
  intro wT
  induction wT with
  | nil => intro j u; rfl
  | cons w wT ih =>
    intro j u
    unfold uInner Lmpa.uInner
    simp only [ih, mul_general, Bool.false_eq_true, false_or]
    rfl

theorem uOuter_field (t : List T) (shift : Nat) (wT : List (List (List T))) :
    ∀ (AT : List (List (List T))) (i : Nat) (u : List (List T)),
    uOuter false (fun v => idx v 0) t shift wT i AT u = Lmpa.uOuter t shift wT i AT u := by
  intro AT
  induction AT with
  | nil => intro i u; rfl
  | cons A AT ih => intro i u; unfold uOuter Lmpa.uOuter; simp only [ih, uInner_field]

theorem zeros_rep (L m : Nat) : (zeros L m : List (List T)) = rep L fun _ => (0 : Fin m → T) := by
  unfold rep zeros
  rw [List.ofFn_const]
  congr 1
  rw [← List.ofFn_const, Nat.cast_zero]; rfl

theorem uInner_all {α : Type} {m c L : Nat} (get : α → R (List T)) (t : List T) (shift i : Nat)
    (B : Matrix (Fin m) (Fin c) T) (a : ℕ → α) (W : ℕ → Matrix (Fin 1) (Fin c) T) (hi : i ≤ shift) :
    ∀ (b j0 : Nat) (U : ℕ → Fin m → T), shift + (j0 + b) ≤ L + i →
    (∀ j, j < j0 + b → get (a j) = .ok (List.ofFn (W j 0))) →
    uInner true get t shift i (rows B) j0 (List.ofFn fun j : Fin b => a (j0 + j)) (rep L U) =
      .ok (rep L fun l => U l + ∑ j ∈ Finset.range b,
        if shift + (j0 + j) - i = l then P B (W (j0 + j)) else 0) := by
  intro b
  induction b with
  | zero => intro j0 U _ _; simp [uInner]
  | succ b ih =>
    intro j0 U h hg
    rw [List.ofFn_succ, uInner, usub_le (by omega), ok_bind]
    simp only [Fin.val_zero, Nat.add_zero, Fin.val_succ, true_or, if_true]
    have e : (List.ofFn fun j : Fin b => a (j0 + (j.val + 1))) =
        List.ofFn fun j : Fin b => a (j0 + 1 + j.val) := by
      congr 1; funext j; congr 1; omega
    rw [e]
    have e2 : ∀ l : Nat, (∑ j ∈ Finset.range (b + 1), if shift + (j0 + j) - i = l then P B (W (j0 + j)) else 0)
        = (∑ j ∈ Finset.range b, if shift + (j0 + 1 + j) - i = l then P B (W (j0 + 1 + j)) else 0) +
          if shift + j0 - i = l then P B (W j0) else 0 := by
      intro l
      rw [Finset.sum_range_succ']
      simp only [Nat.add_zero, add_assoc, add_comm 1]
    rw [hg j0 (by omega)]
    simp only [ok_bind]
    rw [idx_rep _ _ (by omega), ok_bind, mul_general, matrixpointVectorMul_rows]
    rw [show rowRowAddGeneral (T := T) = rowpointRowpointAdd from rfl, rowpointRowpointAdd_ofFn, ok_bind,
      setIdx_rep _ _ _ (by omega), ok_bind, ih (j0 + 1) _ (by omega) fun j hj => hg j (by omega)]
    congr 2
    funext l
    rw [e2]
    by_cases hl2 : shift + j0 - i = l
    · rw [if_pos hl2, hl2, Function.update_self, add_comm (∑ j ∈ _, _), ← add_assoc]
      rfl
    · rw [if_neg hl2, Function.update_of_ne (by omega), add_zero]

theorem uOuter_all {α : Type} {m c L k : Nat} (get : α → R (List T)) (t : List T) (shift : Nat)
    (B : ℕ → Matrix (Fin m) (Fin c) T) (a : ℕ → α) (W : ℕ → Matrix (Fin 1) (Fin c) T)
    (hL : shift + k ≤ L) (hg : ∀ j, j < k → get (a j) = .ok (List.ofFn (W j 0))) :
    ∀ (b i0 : Nat) (U : ℕ → Fin m → T), i0 + b ≤ shift + 1 →
    uOuter true get t shift (List.ofFn fun j : Fin k => a j) i0
        (List.ofFn fun i : Fin b => rows (B (i0 + i))) (rep L U) =
      .ok (rep L fun l => U l + ∑ i ∈ Finset.range b, ∑ j ∈ Finset.range k,
          if shift + j - (i0 + i) = l then P (B (i0 + i)) (W j) else 0) := by
  intro b
  induction b with
  | zero => intro i0 U _; simp [uOuter]
  | succ b ih =>
    intro i0 U h'
    rw [List.ofFn_succ, uOuter]
    simp only [Fin.val_zero, Nat.add_zero, Fin.val_succ]
    have := uInner_all get t shift i0 (B i0) a W (by omega) (L := L) k 0 U (by omega)
      fun j hj => hg j (by omega)
    simp only [Nat.zero_add] at this
    rw [this, ok_bind]
    have e : (List.ofFn fun i : Fin b => rows (B (i0 + (i.val + 1)))) =
        List.ofFn fun i : Fin b => rows (B (i0 + 1 + i.val)) := by
      congr 1; funext j; congr 2; omega
    rw [e, ih (i0 + 1) _ (by omega)]
    congr 2
    funext l
    rw [Finset.sum_range_succ', add_assoc]
    congr 1
    simp only [Nat.add_zero, add_assoc, add_comm 1]
    exact add_comm _ _

/-- The message of a prover who does not use the target. -/
def messageAll {m c : Nat} (k : Nat) (B : ℕ → Matrix (Fin m) (Fin c) T)
    (W : ℕ → Matrix (Fin 1) (Fin c) T) : ℕ → Fin m → T := fun l =>
  ∑ i ∈ Finset.range k, ∑ j ∈ Finset.range k, if k - 1 + j - i = l then P (B i) (W j) else 0

theorem message_all {α : Type} {m c k : Nat} (hk : 0 < k) (get : α → R (List T)) (t : List T)
    (B : ℕ → Matrix (Fin m) (Fin c) T) (a : ℕ → α) (W : ℕ → Matrix (Fin 1) (Fin c) T)
    (hg : ∀ j, j < k → get (a j) = .ok (List.ofFn (W j 0))) :
    uOuter true get t (k - 1) (List.ofFn fun j : Fin k => a j) 0
        (List.ofFn fun i : Fin k => rows (B i)) (zeros (2 * (k - 1) + 1) m) =
      .ok (rep (2 * (k - 1) + 1) (messageAll k B W)) := by
  have := uOuter_all (L := 2 * (k - 1) + 1) get t (k - 1) B a W (by omega) hg k 0 (fun _ => 0) (by omega)
  simp only [zero_add] at this
  rw [zeros_rep, this]
  rfl

theorem fold_sum {m c : Nat} (k : Nat) (B : ℕ → Matrix (Fin m) (Fin c) T)
    (W : ℕ → Matrix (Fin 1) (Fin c) T) (x : T) (hx : x ≠ 0) :
    foldTarget k x (messageAll k B W) =
      P (∑ i ∈ Finset.range k, x ^ i • B i) (∑ j ∈ Finset.range k, x⁻¹ ^ j • W j) := by
  have hw : ∀ l, kWeight x k l = x ^ (k - 1) * x⁻¹ ^ l := by
    intro l
    unfold kWeight
    split
    · rename_i h; rw [h, ← mul_pow, mul_inv_cancel₀ hx, one_pow]
    · rfl
  have hleft : foldTarget k x (messageAll k B W) =
      ∑ i ∈ Finset.range k, ∑ j ∈ Finset.range k, (x ^ i * x⁻¹ ^ j) • P (B i) (W j) := by
    unfold foldTarget messageAll
    simp only [Finset.smul_sum]
    rw [Finset.sum_comm]
    apply Finset.sum_congr rfl
    intro i hi
    rw [Finset.sum_comm]
    apply Finset.sum_congr rfl
    intro j hj
    rw [Finset.mem_range] at hi hj
    rw [Finset.sum_eq_single (k - 1 + j - i)]
    · rw [if_pos rfl, hw]
      congr 1
      have e1 : k - 1 + j - i = (k - 1 - i) + j := by omega
      have h2 : x ^ (k - 1) = x ^ i * x ^ (k - 1 - i) := by rw [← pow_add]; congr 1; omega
      rw [e1, h2, pow_add, mul_assoc, ← mul_assoc (x ^ (k - 1 - i)), ← mul_pow, mul_inv_cancel₀ hx,
        one_pow, one_mul]
    · intro l _ hne
      rw [if_neg (fun h => hne h.symm), smul_zero]
    · intro h
      rw [Finset.mem_range] at h
      omega
  rw [hleft]
  funext r
  simp only [Finset.sum_apply, Pi.smul_apply, P, Matrix.sum_apply, Matrix.smul_apply]
  simp only [smul_eq_mul, Finset.sum_mul, Finset.mul_sum]
  rw [Finset.sum_comm (s := Finset.univ)]
  apply Finset.sum_congr rfl
  intro i _
  rw [Finset.sum_comm]
  apply Finset.sum_congr rfl
  intro s _
  apply Finset.sum_congr rfl
  intro j _
  ring

theorem fold_field {m c k : Nat} (hk : 0 < k) (x : T) (B : ℕ → Matrix (Fin m) (Fin c) T)
    (W : ℕ → Matrix (Fin 1) (Fin c) T) (U : ℕ → Fin m → T) :
    fold x k (List.ofFn fun i : Fin k => rows (B i)) (List.ofFn fun j : Fin k => rows (W j))
        (rep (2 * (k - 1) + 1) U) =
      .ok (rows (∑ i ∈ Finset.range k, x ^ i • B i),
        List.ofFn ((∑ j ∈ Finset.range k, x⁻¹ ^ j • W j) 0), List.ofFn (foldTarget k x U)) := by
  unfold fold
  simp only [vandemonde_field, zOuter_field, combineM_field, combineV_field]
  rw [Nat.cast_one, one_div]
  rw [vandemonde_pow x hk, ok_bind, vandemonde_pow _ hk, ok_bind, z_eq k hk, ok_bind,
    combineW_eq _ _ B (fun i => x ^ i) k hk fun j hj =>
      ⟨idx_ofFn (fun i => rows (B i)) j hj, idx_ofFn (fun i => x ^ i) j hj⟩, ok_bind,
    combineW_eq _ _ W (fun i => x⁻¹ ^ i) k hk fun j hj =>
      ⟨idx_ofFn (fun i => rows (W i)) j hj, idx_ofFn (fun i => x⁻¹ ^ i) j hj⟩, ok_bind,
    foldT_round]
  simp [rows, unwrapR]

theorem foldTarget_shift {m k c : Nat} (hk : 0 < k) (M : Matrix (Fin m) (Fin (k * c)) T)
    (w : Fin (k * c) → T) (tt : Fin m → T) (x : T) (hx : x ≠ 0) :
    foldTarget k x (message M w tt) =
      (fun r => ∑ s, foldW w x s • foldM M x r s) + (tt - fun r => ∑ s, w s • M r s) := by
  rw [← fold_invariant hk M w x hx]
  unfold foldTarget
  have hmem : k - 1 ∈ Finset.range (2 * (k - 1) + 1) := by rw [Finset.mem_range]; omega
  have hone : kWeight x k (k - 1) = 1 := by rw [kWeight, if_pos rfl]
  rw [← Finset.add_sum_erase _ _ hmem, ← Finset.add_sum_erase _ _ hmem, hone, one_smul, one_smul]
  have : ∀ t' : Fin m → T, message M w t' (k - 1) = t' := by intro t'; rw [message, if_pos rfl]
  rw [this, this]
  have e : (∑ l ∈ (Finset.range (2 * (k - 1) + 1)).erase (k - 1), kWeight x k l • message M w tt l) =
      ∑ l ∈ (Finset.range (2 * (k - 1) + 1)).erase (k - 1),
        kWeight x k l • message M w (fun r => ∑ s, w s • M r s) l := by
    apply Finset.sum_congr rfl
    intro l hl
    have hne := Finset.ne_of_mem_erase hl
    rw [message, message, if_neg hne, if_neg hne]
  rw [e]
  abel

theorem foldLoop_field {m k c : Nat} (hm : 0 < m) (hc : 0 < c) (hck : c < k) (x : T) (hx : x ≠ 0) :
    ∀ (d n fuel : Nat) (M : Matrix (Fin m) (Fin n) T) (w : Fin n → T) (tt : Fin m → T),
    n = c * k ^ d → d < fuel →
    ∃ (M' : Matrix (Fin m) (Fin c) T) (w' : Fin c → T) (tt' : Fin m → T),
      foldLoop x m k fuel n (rows M) (List.ofFn w) (List.ofFn tt) =
        .ok (rows M', List.ofFn w', List.ofFn tt') ∧
      (tt' - fun r => ∑ s, w' s • M' r s) = tt - fun r => ∑ s, w s • M r s := by
  intro d
  induction d with
  | zero =>
    intro n fuel M w tt hn hf
    obtain ⟨fuel, rfl⟩ := Nat.exists_eq_succ_of_ne_zero (Nat.ne_zero_of_lt hf)
    rw [pow_zero, mul_one] at hn
    subst hn
    exact ⟨M, w, tt, by rw [foldLoop, if_pos hck], rfl⟩
  | succ d ih =>
    intro n fuel M w tt hn hf
    obtain ⟨fuel, rfl⟩ := Nat.exists_eq_succ_of_ne_zero (Nat.ne_zero_of_lt hf)
    have hk : 0 < k := by omega
    have hn' : n = k * (c * k ^ d) := by rw [hn, pow_succ]; ring
    subst hn'
    have hp : 0 < c * k ^ d := Nat.mul_pos hc (Nat.pow_pos hk)
    have hdiv : k * (c * k ^ d) / k = c * k ^ d := Nat.mul_div_cancel_left _ hk
    have h1 : ¬ k * (c * k ^ d) < k := by
      have := Nat.mul_le_mul_left k hp
      omega
    obtain ⟨M', w', tt', h, h'⟩ := ih (c * k ^ d) fuel (foldM M x) (foldW w x)
      (foldTarget k x (message M w tt)) rfl (by omega)
    refine ⟨M', w', tt', ?_, ?_⟩
    · rw [foldLoop, if_neg h1, if_neg (by omega)]
      simp only [hdiv]
      rw [split_round hm hp, ok_bind, splitW_round hp, ok_bind, uOuter_field]
      have hz : (zeros (2 * (k - 1) + 1) m : List (List T)) =
        List.replicate (2 * (k - 1) + 1) (List.replicate m 0) := by
        rw [zeros, Nat.cast_zero]
      rw [hz, message_eq hk, ok_bind, fold_field hk, ok_bind]
      exact h
    · rw [h', foldTarget_shift hk M w tt x hx, add_sub_cancel_left]

/-- The sums of one message of the first pass of `test_lmpa_almSnd_float_1`. -/
def msg {m k c : Nat} (p : Matrix (Fin m) (Fin (k * c)) T × (Fin (k * c) → T)) : ℕ → Fin m → T :=
  messageAll k (block p.1) (block (Matrix.of fun _ : Fin 1 => p.2))

theorem messageLoop_field {m k c : Nat} (hm : 0 < m) (hc : 0 < c) (hck : c < k) (t : List T)
    (fuel : Nat) (hf : 1 < fuel) (p : Matrix (Fin m) (Fin (k * c)) T × (Fin (k * c) → T)) :
    messageLoop m k t (rows p.1) (List.ofFn p.2) fuel (k * c) =
      .ok [rep (2 * (k - 1) + 1) (msg p)] := by
  obtain ⟨fuel, rfl⟩ := Nat.exists_eq_add_of_lt hf
  have hk : 0 < k := by omega
  have h1 : ¬ k * c < k := by
    have := Nat.mul_le_mul_left k hc
    omega
  rw [show 1 + fuel + 1 = fuel + 1 + 1 by omega, messageLoop, if_neg h1, if_neg (by omega)]
  simp only [Nat.mul_div_cancel_left _ hk]
  rw [split_round hm hc, ok_bind, splitW_round hc, ok_bind,
    message_all hk _ t (block p.1) (fun j => rows (block (Matrix.of fun _ : Fin 1 => p.2) j))
      (block (Matrix.of fun _ : Fin 1 => p.2)) fun j _ => by rw [idx_lt (by simp)]; simp]
  rw [ok_bind, messageLoop, if_pos hck]
  rfl

theorem messages_field {m k c : Nat} (hm : 0 < m) (hc : 0 < c) (hck : c < k) (t : List T)
    (fuel : Nat) (hf : 1 < fuel) : ∀ (qs ps : List (Matrix (Fin m) (Fin (k * c)) T × (Fin (k * c) → T))),
    messages fuel (k * c) m k t ((ps ++ qs).map fun p => List.ofFn p.2) ps.length
        (qs.map fun p => rows p.1) =
      .ok (qs.map fun p => rep (2 * (k - 1) + 1) (msg p)) := by
  intro qs
  induction qs with
  | nil => intro ps; rfl
  | cons q qs ih =>
    intro ps
    have := ih (ps ++ [q])
    rw [List.append_assoc, List.singleton_append, List.length_append, List.length_singleton] at this
    rw [List.map_cons, messages, idx_lt (by simp), ok_bind]
    simp only [List.getElem_map, List.getElem_append_right (le_refl ps.length), Nat.sub_self,
      List.getElem_cons_zero]
    rw [messageLoop_field hm hc hck t fuel hf, ok_bind, this]
    rfl

theorem add_rep {m L : Nat} (U V : ℕ → Fin m → T) :
    matrixMatrixAddGeneral (rep L U) (rep L V) = .ok (rep L fun l => U l + V l) := by
  have e : ∀ U : ℕ → Fin m → T, rep L U = rows (Matrix.of fun (l : Fin L) r => U l r) := fun _ => rfl
  rw [e, e, show matrixMatrixAddGeneral (T := T) = matrixpointMatrixAdd from rfl,
    matrixpointMatrixAdd_rows]
  rfl

theorem sumMessages_field {m L : Nat} {α : Type} (f : α → ℕ → Fin m → T) : ∀ (qs : List α) (U : ℕ → Fin m → T),
    sumMessages (qs.map fun q => rep L (f q)) (rep L U) =
      .ok (rep L fun l => U l + (qs.map fun q => f q l).sum) := by
  intro qs
  induction qs with
  | nil => intro U; simp [sumMessages]
  | cons q qs ih =>
    intro U
    rw [List.map_cons, sumMessages, add_rep, ok_bind, ih]
    simp only [List.map_cons, List.sum_cons, add_assoc]

theorem foldAllLoop_field {m k c : Nat} (hm : 0 < m) (hc : 0 < c) (hck : c < k) (x : T) (t : List T)
    (U : ℕ → Fin m → T) (fuel : Nat) (hf : 1 < fuel)
    (p : Matrix (Fin m) (Fin (k * c)) T × (Fin (k * c) → T)) :
    foldAllLoop x k (rep (2 * (k - 1) + 1) U) fuel (k * c) (rows p.1) (List.ofFn p.2) t =
      .ok (rows (foldM p.1 x), List.ofFn (foldW p.2 x), List.ofFn (foldTarget k x U)) := by
  obtain ⟨fuel, rfl⟩ := Nat.exists_eq_add_of_lt hf
  have hk : 0 < k := by omega
  have h1 : ¬ k * c < k := by
    have := Nat.mul_le_mul_left k hc
    omega
  rw [show 1 + fuel + 1 = fuel + 1 + 1 by omega, foldAllLoop, if_neg h1, if_neg (by omega)]
  simp only [Nat.mul_div_cancel_left _ hk]
  rw [split_round hm hc, ok_bind, splitW_round hc, ok_bind, fold_field hk, ok_bind]
  rw [foldAllLoop, if_pos hck]
  rfl

theorem foldAll_field {m k c : Nat} (hm : 0 < m) (hc : 0 < c) (hck : c < k) (x : T)
    (U : ℕ → Fin m → T) (fuel : Nat) (hf : 1 < fuel) :
    ∀ (qs ps : List (Matrix (Fin m) (Fin (k * c)) T × (Fin (k * c) → T))) (t : List T),
    foldAll fuel (k * c) x k (rep (2 * (k - 1) + 1) U) ((ps ++ qs).map fun p => List.ofFn p.2)
        ps.length (qs.map fun p => rows p.1) t =
      .ok (qs.map fun p => (rows (foldM p.1 x), List.ofFn (foldW p.2 x)),
        if qs = [] then t else List.ofFn (foldTarget k x U)) := by
  intro qs
  induction qs with
  | nil => intro ps t; rfl
  | cons q qs ih =>
    intro ps t
    have := ih (ps ++ [q]) (List.ofFn (foldTarget k x U))
    rw [List.append_assoc, List.singleton_append, List.length_append, List.length_singleton, ite_self]
      at this
    rw [List.map_cons, foldAll, idx_lt (by simp), ok_bind]
    simp only [List.getElem_map, List.getElem_append_right (le_refl ps.length), Nat.sub_self,
      List.getElem_cons_zero]
    rw [foldAllLoop_field hm hc hck x t U fuel hf]
    simp only [ok_bind]
    rw [this]
    rfl

theorem sumProducts_field {m c : Nat} {α : Type} (f : α → Matrix (Fin m) (Fin c) T)
    (g : α → Fin c → T) : ∀ (qs : List α) (v : Fin m → T),
    sumProducts (qs.map fun q => (rows (f q), List.ofFn (g q))) (List.ofFn v) =
      .ok (List.ofFn (v + (qs.map fun q r => ∑ s, g q s • f q r s).sum)) := by
  intro qs
  induction qs with
  | nil => intro v; simp [sumProducts]
  | cons q qs ih =>
    intro v
    rw [List.map_cons, sumProducts, mul_general, matrixpointVectorMul_rows,
      show rowRowAddGeneral (T := T) = rowpointRowpointAdd from rfl, rowpointRowpointAdd_ofFn, ok_bind, ih]
    simp only [List.map_cons, List.sum_cons, add_assoc]

theorem foldTarget_sum {m : Nat} (k : Nat) (x : T) {α : Type} (f : α → ℕ → Fin m → T) (qs : List α) :
    foldTarget k x (fun l => (qs.map fun q => f q l).sum) = (qs.map fun q => foldTarget k x (f q)).sum := by
  induction qs with
  | nil => simp [foldTarget]
  | cons q qs ih =>
    rw [List.map_cons, List.sum_cons, ← ih]
    unfold foldTarget
    simp only [List.map_cons, List.sum_cons, smul_add, Finset.sum_add_distrib]

theorem alm1_field {m k c : Nat} (hm : 0 < m) (hc : 0 < c) (hck : c < k) (x : T) (hx : x ≠ 0)
    (t : List T) (fuel : Nat) (hf : 1 < fuel)
    (qs : List (Matrix (Fin m) (Fin (k * c)) T × (Fin (k * c) → T))) (hq : qs ≠ []) :
    ∃ v, v.length = m ∧
      alm1Run fuel x (k * c) m k (qs.map fun p => rows p.1) (qs.map fun p => List.ofFn p.2) t =
        .ok (v, v) := by
  have h1 := messages_field hm hc hck t fuel hf qs []
  have h2 := foldAll_field hm hc hck x (fun l => (qs.map fun q => msg q l).sum) fuel hf qs [] t
  rw [List.nil_append, List.length_nil] at h1 h2
  rw [if_neg hq] at h2
  refine ⟨List.ofFn (qs.map fun q r => ∑ s, foldW q.2 x s • foldM q.1 x r s).sum, by simp, ?_⟩
  unfold alm1Run
  rw [h1, ok_bind, zeros_rep, sumMessages_field]
  simp only [zero_add, ok_bind]
  rw [h2, ok_bind]
  have hz : List.replicate m ((0 : ℕ) : T) = List.ofFn (0 : Fin m → T) := by
    rw [Nat.cast_zero, ← List.ofFn_const]; rfl
  simp only
  rw [hz, sumProducts_field
    (fun p : Matrix (Fin m) (Fin (k * c)) T × (Fin (k * c) → T) => foldM p.1 x) (fun p => foldW p.2 x), ok_bind, foldTarget_sum]
  have : ∀ q : Matrix (Fin m) (Fin (k * c)) T × (Fin (k * c) → T),
      foldTarget k x (msg q) = fun r => ∑ s, foldW q.2 x s • foldM q.1 x r s := by
    intro q
    unfold msg
    rw [fold_sum k _ _ x hx]
    rfl
  simp only [this, zero_add]
  rfl

theorem alm2Loop_field {m n' : Nat} (hm : 0 < m) (x : T) (hx : x ≠ 0)
    (B : ℕ → Matrix (Fin m) (Fin n') T) (W : ℕ → Matrix (Fin 1) (Fin n') T) :
    ∃ A' w' t', (t' = matrixVectorMulGeneral A' w' ((0 : ℕ) : T)) ∧
      (∀ (fuel n : Nat) (A : List (List T)) (w t : List T), n < (m + 1) ^ fuel → 0 < fuel →
      (m + 1 ≤ n ∨ (A, w, t) = (A', w', t')) →
      alm2Loop x m (m + 1) (List.ofFn fun i : Fin (m + 1) => rows (B i))
        (List.ofFn fun j : Fin (m + 1) => List.ofFn (W j 0)) fuel n A w t = .ok (A', w', t')) ∧
      t'.length = m := by
  refine ⟨rows (∑ i ∈ Finset.range (m + 1), x ^ i • B i),
    List.ofFn ((∑ j ∈ Finset.range (m + 1), x⁻¹ ^ j • W j) 0),
    List.ofFn (foldTarget (m + 1) x (messageAll (m + 1) B W)), ?_, ?_, by simp⟩
  rotate_left
  · intro fuel
    induction fuel with
    | zero => intro n A w t _ h; exact absurd h (by omega)
    | succ fuel ih =>
      intro n A w t hn _ h
      by_cases hk : n < m + 1
      · rcases h with h | h
        · omega
        · rw [alm2Loop, if_pos hk, h]
      · rw [alm2Loop, if_neg hk, if_neg (by omega),
          message_all (by omega) _ t B (fun j => List.ofFn (W j 0)) W fun j _ => rfl]
        have e : ((List.ofFn fun j : Fin (m + 1) => List.ofFn (W j 0)).map fun w => [w]) =
            List.ofFn fun j : Fin (m + 1) => rows (W j) := by
          rw [List.map_ofFn]
          congr 1
        simp only [ok_bind]
        rw [e, fold_field (by omega)]
        simp only [ok_bind]
        have hlt : n / (m + 1) < (m + 1) ^ fuel := by
          rw [Nat.div_lt_iff_lt_mul (by omega), ← pow_succ]; exact hn
        apply ih _ _ _ _ hlt
        · rcases Nat.eq_zero_or_pos fuel with h0 | h0
          · subst h0
            rw [pow_zero] at hlt
            have : 1 ≤ n / (m + 1) := (Nat.one_le_div_iff (by omega)).2 (by omega)
            omega
          · exact h0
        · right; rfl
  · rw [fold_sum _ _ _ x hx, mul_general, matrixpointVectorMul_rows]
    rfl

end Qesa.FloatTests
