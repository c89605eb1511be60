import Verif.Model.Release
import Verif.SpecRelease
import Verif.Proofs.Qesa
import Verif.Proofs.IpaVerify
import Verif.Proofs.Copy
/- Proofs about builds without overflow checks. -/
namespace Qesa
open Spec

/-- `x` returns exactly if `C` holds and `y` returns, and then the same. -/
def SameIf {α : Type} (C : Prop) (x y : R α) : Prop := ∀ r, x = .ok r ↔ C ∧ y = .ok r

namespace SameIf
variable {α β : Type} {C : Prop}

theorem refl (x : R α) : SameIf True x x := fun _ => by rw [true_and]

theorem of_eq {x y : R α} (h : x = y) : SameIf True x y := h ▸ refl x

theorem bind {x y : R α} {f g : α → R β} (h : SameIf True x y) (hf : ∀ a, y = .ok a → SameIf C (f a) (g a)) :
    SameIf C (x >>= f) (y >>= g) := by
  intro r
  rw [bind_eq_ok, bind_eq_ok]
  constructor
  · rintro ⟨a, h1, h2⟩
    have h3 := ((h a).1 h1).2
    obtain ⟨hC, h4⟩ := (hf a h3 r).1 h2
    exact ⟨hC, a, h3, h4⟩
  · rintro ⟨hC, a, h1, h2⟩
    exact ⟨a, (h a).2 ⟨True.intro, h1⟩, (hf a h1 r).2 ⟨hC, h2⟩⟩

theorem step {x : R α} {f g : α → R β} (hf : ∀ a, x = .ok a → SameIf C (f a) (g a)) :
    SameIf C (x >>= f) (x >>= g) := bind (refl x) hf

/-- Both fail. -/
theorem fail {x y : R α} (hx : ∀ r, x ≠ .ok r) (hy : ∀ r, y ≠ .ok r) : SameIf C x y :=
  fun r => ⟨fun h => absurd h (hx r), fun h => absurd h.2 (hy r)⟩

theorem error_right {x : R α} {e : Err} (hx : ∀ r, x ≠ .ok r) : SameIf C x (.error e) :=
  fail hx (fun r h => by cases h)

end SameIf

theorem bind_fails {α β : Type} {x : R α} {f : α → R β} (h : ∀ a, x = .ok a → ∀ r, f a ≠ .ok r) (r : β) :
    (x >>= f) ≠ .ok r := by
  rw [Ne, bind_eq_ok]
  rintro ⟨a, h1, h2⟩
  exact h a h1 r h2

theorem release_sub {a b : Nat} (h : b ≤ a) (ha : a < 2 ^ 64) : release.sub a b = .ok (a - b) := by
  simp only [release]
  rw [show a + 2 ^ 64 - b = (a - b) + 2 ^ 64 by omega, Nat.add_mod_right, Nat.mod_eq_of_lt (by omega)]

theorem release_wrap {a b : Nat} (h : a < b) (_hb : b ≤ 2 ^ 64) : release.sub a b = .ok (a + 2 ^ 64 - b) := by
  simp only [release]
  rw [Nat.mod_eq_of_lt (by omega)]

theorem release_room {k : Nat} (h : k < 2 ^ 58) : release.room k = .ok () := if_pos h
theorem release_no_room {k : Nat} (h : 2 ^ 58 ≤ k) : release.room k = .error .underflow := if_neg (by omega)

variable {F G : Type} [Field F] [DecidableEq F] [AddCommGroup G] [Module F G] [DecidableEq G]

omit [DecidableEq F] in
theorem same_vandemondeChallenge (x : F) {n : Nat} (hn : n ≤ 2 ^ 58) :
    SameIf True (release.vandemondeChallenge x n) (vandemondeChallenge x n) := by
  unfold Arith.vandemondeChallenge vandemondeChallenge
  rcases Nat.eq_zero_or_pos n with rfl | h0
  · rw [release_wrap (by decide) (by decide), ok_bind, release_no_room (by decide)]
    exact .fail (fun r h => by cases h) (fun r h => by cases h)
  · rw [release_sub h0 (by omega), usub_le h0, ok_bind, ok_bind, release_room (by omega), ok_bind]
    exact .refl _

omit [DecidableEq F] in
theorem same_vandemondeVector (x : F) {n : Nat} (hn : n ≤ 2 ^ 58) :
    SameIf True (release.vandemondeVector x n) (vandemondeVector x n) := by
  unfold Arith.vandemondeVector vandemondeVector
  rcases Nat.eq_zero_or_pos n with rfl | h0
  · rw [release_wrap (by decide) (by decide), ok_bind, release_no_room (by decide)]
    exact .fail (fun r h => by cases h) (fun r h => by cases h)
  · rw [release_sub h0 (by omega), usub_le h0, ok_bind, ok_bind, release_room (by omega), ok_bind]
    exact .refl _

omit [DecidableEq F] in
theorem same_sampleMNPlus {n : Nat} (hn : n < 2 ^ 64) (tape : Tape F) :
    SameIf True (release.sampleMNPlus n tape) (sampleMNPlus n tape) := by
  unfold Arith.sampleMNPlus sampleMNPlus
  refine .step fun r0 h0 => .step fun r1 h1 => ?_
  obtain ⟨h1, -⟩ := setIdx_eq_ok.1 h1
  obtain ⟨h0, e⟩ := setIdx_eq_ok.1 h0
  have h2 : 2 ≤ n := by rw [e, List.length_set, List.length_replicate] at h1; omega
  refine .step fun q _ => ?_
  obtain ⟨r, tape⟩ := q
  simp only [release_sub h2 hn, usub_le h2, release_sub (show 1 ≤ n by omega) hn, usub_le (show 1 ≤ n by omega)]
  exact .refl _

theorem same_sampleGramSchmidt {a : List F} (hn : a.length < 2 ^ 64) (tape : Tape F) :
    SameIf True (release.sampleGramSchmidt a tape) (sampleGramSchmidt a tape) := by
  unfold Arith.sampleGramSchmidt sampleGramSchmidt
  exact .bind (same_sampleMNPlus hn tape) fun _ _ => .refl _

theorem same_sampleGramSchmidtTwice {a : List F} (b : List F) (hn : a.length < 2 ^ 64) (tape : Tape F) :
    SameIf True (release.sampleGramSchmidtTwice a b tape) (sampleGramSchmidtTwice a b tape) := by
  unfold Arith.sampleGramSchmidtTwice sampleGramSchmidtTwice
  exact .step fun _ _ => .bind (same_sampleGramSchmidt hn tape) fun _ _ => .refl _

omit [DecidableEq G] in
theorem same_almCreate (cx : Ctx G) (tr : Transcript) (tape : Tape F) (Gs Hs : List G) (Q C_w : G) {a b : List F}
    (t : F) (ha : a.length < 2 ^ 64) (hb : b.length < 2 ^ 64) :
    SameIf True (release.almCreate cx tr tape Gs Hs Q C_w a b t) (Ipa.createAlm cx tr tape Gs Hs Q C_w a b t) := by
  unfold Arith.almCreate Ipa.createAlm
  refine .bind (same_sampleGramSchmidt hb tape) fun q _ => ?_
  exact .bind (same_sampleGramSchmidtTwice _ ha _) fun _ _ => .refl _

omit [DecidableEq F] in
theorem same_computeGammaPrime (gamma : List (List F)) {n : Nat} (hn : n < 2 ^ 58) :
    SameIf True (release.computeGammaPrime gamma n) (Inner.computeGammaPrime gamma n) := by
  unfold Arith.computeGammaPrime Inner.computeGammaPrime
  by_cases h2 : 2 ≤ n
  · rw [release_sub h2 (by omega), usub_le h2, ok_bind, ok_bind, release_room (by omega), ok_bind]
    exact .refl _
  · rw [release_wrap (by omega) (by decide), ok_bind, release_no_room (by omega), usub, if_neg h2]
    exact .fail (fun r h => by cases h) (fun r h => by cases h)

omit [DecidableEq F] in
theorem rowRowSub_length {a b c : List F} (h : rowRowSub a b = .ok c) : c.length = a.length := by
  unfold rowRowSub at h
  obtain ⟨_, h1, h2⟩ := bind_eq_ok.1 h
  rw [rassert_eq_ok] at h1
  cases h2
  simp [h1]

omit [DecidableEq F] in
theorem rowRowAdd_length {a b c : List F} (h : rowRowAdd a b = .ok c) : c.length = a.length := by
  unfold rowRowAdd at h
  obtain ⟨_, h1, h2⟩ := bind_eq_ok.1 h
  rw [rassert_eq_ok] at h1
  cases h2
  simp [h1]

omit [DecidableEq G] in
theorem same_innerCreate (cx : Ctx G) (tr : Transcript) (tape : Tape F) (Gs Hs : List G) (Q : G)
    (gammaI : BlockMatrix F) (w r' : List F) (hG : Gs.length < 2 ^ 58) (hH : Hs.length < 2 ^ 58)
    (hw : w.length < 2 ^ 58) :
    SameIf True (release.innerCreate cx tr tape Gs Hs Q gammaI w r') (Inner.create cx tr tape Gs Hs Q gammaI w r') := by
  unfold Arith.innerCreate Inner.create
  dsimp only
  by_cases h2 : 2 ≤ Gs.length
  swap
  · refine .fail (fun r => ?_) (fun r => ?_)
    · rw [release_wrap (by omega) (by decide), ok_bind, rassert, if_neg (by omega)]
      exact fun h => by cases h
    · rw [usub, if_neg h2]
      exact fun h => by cases h
  rw [release_sub h2 (by omega), usub_le h2, ok_bind, ok_bind]
  refine .step fun _ _ => .step fun _ _ => .step fun cw hcw => ?_
  refine .bind (same_vandemondeChallenge _ (by omega)) fun xs _ => ?_
  refine .step fun _ _ => .step fun _ _ => .step fun _ _ => .step fun _ _ => .step fun Gs' _ => .step fun _ _ =>
    .step fun _ _ => .step fun cw' hcw' => ?_
  refine .bind (same_vandemondeChallenge _ (by omega)) fun ss _ => ?_
  refine .bind (same_vandemondeChallenge _ (by decide)) fun bs _ => ?_
  refine .step fun _ _ => .bind (same_computeGammaPrime _ hG) fun _ _ => .step fun _ _ => .step fun a ha =>
    .step fun b hb => .step fun _ _ => ?_
  have la := rowRowSub_length ha
  have lb := rowRowAdd_length hb
  rw [(msm_eq_ok.1 hcw).1] at la
  rw [(msm_eq_ok.1 hcw').1] at lb
  exact .bind (same_almCreate _ _ _ _ _ _ _ _ (by omega) (by omega)) fun _ _ => .refl _

omit [DecidableEq G] in
theorem same_zkCreate (cx : Ctx G) (tr : Transcript) (tape : Tape F) (Gs Hs : List G) (Q : G)
    (gammaI : BlockMatrix F) (w : List F) (hG : Gs.length < 2 ^ 58) (hH : Hs.length < 2 ^ 58)
    (hw : w.length < 2 ^ 58) :
    SameIf True (release.zkCreate cx tr tape Gs Hs Q gammaI w) (Zk.create cx tr tape Gs Hs Q gammaI w) := by
  unfold Arith.zkCreate Zk.create
  exact .bind (same_innerCreate cx tr _ Gs Hs Q gammaI w _ hG hH hw) fun _ _ => .refl _

omit [DecidableEq G] in
theorem same_copyCreate (cx : Ctx G) (tr : Transcript) (tape : Tape F) (Gs Hs : List G) (Q : G) (map : Copy.Mapping)
    (gammaI : BlockMatrix F) (w : List F) (openings : List (List F × F)) (hG : Gs.length < 2 ^ 58)
    (hH : Hs.length < 2 ^ 58) (hw : w.length < 2 ^ 58) (ho : openings.length ≤ 2 ^ 58) :
    SameIf True (release.copyCreate cx tr tape Gs Hs Q map gammaI w openings)
      (Copy.create cx tr tape Gs Hs Q map gammaI w openings) := by
  unfold Arith.copyCreate Copy.create
  dsimp only
  refine .step fun _ _ => .step fun w0 h0 => .step fun _ _ => ?_
  have hw0 : 0 < w.length := (List.getElem?_eq_some_iff.1 (idx_eq_ok.1 h0)).1
  by_cases h2 : 2 ≤ Gs.length
  swap
  · refine .fail (fun r => ?_) (fun r => ?_)
    · rw [release_wrap (by omega) (by decide), ok_bind, release_sub (by omega) (by omega), ok_bind,
        release_no_room (by omega)]
      exact fun h => by cases h
    · rw [usub, if_neg h2]
      exact fun h => by cases h
  rw [release_sub h2 (by omega), usub_le h2, ok_bind, ok_bind]
  by_cases h3 : w.length ≤ Gs.length - 2
  swap
  · refine .fail (fun r => ?_) (fun r => ?_)
    · rw [release_wrap (by omega) (by omega), ok_bind, release_no_room (by omega)]
      exact fun h => by cases h
    · rw [usub, if_neg h3]
      exact fun h => by cases h
  rw [release_sub h3 (by omega), usub_le h3, ok_bind, ok_bind, release_room (by omega), ok_bind]
  refine .step fun w' hw' => .step fun _ hC => .bind (same_vandemondeChallenge _ ho) fun al _ => ?_
  rw [release_sub (show 1 ≤ Gs.length by omega) (by omega), usub_le (show 1 ≤ Gs.length by omega), ok_bind, ok_bind,
    release_room (by omega)]
  refine .step fun _ _ => .step fun w1 h1 => .step fun w2 h4 => ?_
  rw [ok_bind]
  refine .step fun _ _ => .step fun q hq => ?_
  obtain ⟨u, r'⟩ := q
  have hu : u.length ≤ Gs.length - 2 := by
    unfold splitAtR at hq
    split at hq
    · cases hq; simp
    · cases hq
  exact .bind (same_innerCreate _ _ _ _ _ _ _ _ _ hG hH (Nat.lt_of_le_of_lt hu (by omega))) fun _ _ => .refl _

/-! ### The verifiers -/

omit [DecidableEq F] [DecidableEq G] in
theorem foldGens_empty (xs : List F) : ∀ (Hs : List G) (r : List G × List G),
    Ipa.foldGens 0 [] Hs xs = .ok r → r.1 = [] := by
  induction xs with
  | nil => intro Hs r h; cases h; rfl
  | cons x xs ih =>
    intro Hs r h
    simp only [Ipa.foldGens, Nat.zero_div] at h
    rw [splitAtR_le (by simp), ok_bind, splitAtR_le (by simp), ok_bind] at h
    exact ih _ r h

omit [DecidableEq F] [DecidableEq G] in
theorem foldGens_over (xs : List F) : ∀ (k : Nat) (Gs Hs : List G) (r : List G × List G), k < xs.length →
    Ipa.foldGens (2 ^ k) Gs Hs xs = .ok r → r.1 = [] := by
  induction xs with
  | nil => intro k Gs Hs r h; simp at h
  | cons x xs ih =>
    intro k Gs Hs r hk h
    simp only [Ipa.foldGens] at h
    obtain ⟨q, h1, h⟩ := bind_eq_ok.1 h
    obtain ⟨q', h2, h⟩ := bind_eq_ok.1 h
    obtain ⟨GL, GR⟩ := q
    obtain ⟨HL, HR⟩ := q'
    cases k with
    | zero =>
      rw [show 2 ^ 0 / 2 = 0 by decide] at h h1
      rw [splitAtR_le (by simp)] at h1
      cases h1
      exact foldGens_empty xs _ r h
    | succ k =>
      rw [Nat.pow_succ, Nat.mul_div_cancel _ (by decide)] at h
      exact ih k _ _ r (by simpa using hk) h

omit [DecidableEq F] in
theorem generateChallenges_take (ro : Hash) (Ls Rs : List Comp) (tr : Transcript) (m : Nat) (h : Rs.length ≤ m) :
    Ipa.generateChallenges (F := F) ro (Ls.take m) Rs tr = Ipa.generateChallenges ro Ls Rs tr := by
  induction Ls generalizing Rs tr m with
  | nil => simp
  | cons L Ls ih =>
    cases Rs with
    | nil => cases m <;> simp [Ipa.generateChallenges]
    | cons R Rs =>
      cases m with
      | zero => simp at h
      | succ m => simp only [List.take_succ_cons, Ipa.generateChallenges, ih Rs _ m (by simpa using h)]

omit [DecidableEq F] [DecidableEq G] in
theorem foldP_take (Ls Rs : List G) (xs : List F) (P : G) (m : Nat) (h : Rs.length ≤ m) :
    Ipa.foldP (Ls.take m) Rs xs P = Ipa.foldP Ls Rs xs P := by
  induction Ls generalizing Rs xs P m with
  | nil => simp
  | cons L Ls ih =>
    cases Rs with
    | nil => cases m <;> simp [Ipa.foldP]
    | cons R Rs =>
      cases m with
      | zero => simp at h
      | succ m =>
        cases xs with
        | nil => simp [Ipa.foldP]
        | cons x xs => simp only [List.take_succ_cons, Ipa.foldP, ih Rs xs _ m (by simpa using h)]

omit [DecidableEq F] in
theorem same_ipaVerify (cx : Ctx G) (p : Ipa.NoZK F) (tr : Transcript) (Gs Hs : List G) (Q : G) (n : Nat) (P : G)
    (t : F) :
    SameIf (Padded cx.toCodec p) (release.ipaVerify cx p tr Gs Hs Q n P t)
      ((trunc p).verify cx tr Gs Hs Q n P t) := by
  by_cases h64 : p.L_vec.length < 64
  · have e : trunc p = p := by
      unfold trunc
      rw [Nat.mod_eq_of_lt h64, List.take_length]
    intro r
    rw [e, and_iff_right (show Padded cx.toCodec p from Or.inl h64)]
    unfold Arith.ipaVerify Ipa.NoZK.verify
    rw [bind_eq_ok, bind_eq_ok]
    refine exists_congr fun Ls => and_congr_right fun hLs => ?_
    have hl : Ls.length < 64 := by rw [(Ipa.decode_eq_ok cx _ _).1 hLs, List.length_map] at h64; exact h64
    simp only [release, shl1, if_pos hl, Nat.mod_eq_of_lt hl]
  intro r
  constructor
  · intro h
    unfold Arith.ipaVerify at h
    obtain ⟨Ls, hLs, h⟩ := bind_eq_ok.1 h
    obtain ⟨Rs, hRs, h⟩ := bind_eq_ok.1 h
    have eL := (Ipa.decode_eq_ok cx _ _).1 hLs
    have eR := (Ipa.decode_eq_ok cx _ _).1 hRs
    have lL : p.L_vec.length = Ls.length := by rw [eL, List.length_map]
    have lR : p.R_vec.length = Rs.length := by rw [eR, List.length_map]
    have hdec : ∀ c ∈ p.L_vec, (cx.decompress c).isSome := (Ipa.decodable_iff cx _).2 ⟨Ls, eL⟩
    by_cases hR : p.R_vec.length ≤ p.L_vec.length % 64
    · refine ⟨Or.inr ⟨hdec, hR⟩, ?_⟩
      unfold Ipa.NoZK.verify
      have hT : ((trunc p).L_vec.mapM fun c => unwrapR (cx.decompress c) : R (List G)) =
          .ok (Ls.take (p.L_vec.length % 64)) := by
        rw [Ipa.decode_eq_ok]
        simp only [trunc]
        rw [eL, List.map_take]
      have hs : shl1 (Ls.take (p.L_vec.length % 64)).length = release.shl Ls.length := by
        rw [List.length_take, min_eq_left (by rw [← lL]; exact Nat.mod_le _ _), shl1, if_pos (Nat.mod_lt _ (by decide))]
        simp only [release, lL]
      rw [hT, ok_bind, show (trunc p).R_vec = p.R_vec from rfl, hRs, ok_bind, hs]
      simp only [trunc, generateChallenges_take _ _ _ _ _ hR, foldP_take _ _ _ _ _ (lR ▸ hR)]
      exact h
    · exfalso
      obtain ⟨n', hn, h⟩ := bind_eq_ok.1 h
      obtain ⟨_, hn', h⟩ := bind_eq_ok.1 h
      dsimp only at h
      obtain ⟨q, hq, h⟩ := bind_eq_ok.1 h
      obtain ⟨g0, hg, h⟩ := bind_eq_ok.1 h
      simp only [release] at hn
      cases hn
      rw [Ipa.generateChallenges_eq] at hq
      have := foldGens_over _ _ _ _ q (by
        dsimp only
        rw [Ipa.roundChallenges_length, ← lL]
        have := Nat.mod_le p.L_vec.length 64
        omega) hq
      rw [this] at hg
      cases hg
  · rintro ⟨hp, h⟩
    obtain ⟨hdec, hR⟩ := hp.resolve_left h64
    unfold Ipa.NoZK.verify at h
    unfold Arith.ipaVerify
    obtain ⟨Ls, eL⟩ := (Ipa.decodable_iff cx _).1 hdec
    have hLs := (Ipa.decode_eq_ok cx _ _).2 eL
    have lL : p.L_vec.length = Ls.length := by rw [eL, List.length_map]
    have hT : ((trunc p).L_vec.mapM fun c => unwrapR (cx.decompress c) : R (List G)) =
        .ok (Ls.take (p.L_vec.length % 64)) := by
      rw [Ipa.decode_eq_ok]
      simp only [trunc]
      rw [eL, List.map_take]
    have hs : shl1 (Ls.take (p.L_vec.length % 64)).length = release.shl Ls.length := by
      rw [List.length_take, min_eq_left (by rw [← lL]; exact Nat.mod_le _ _), shl1, if_pos (Nat.mod_lt _ (by decide))]
      simp only [release, lL]
    rw [hT, ok_bind] at h
    obtain ⟨Rs, hRs, h⟩ := bind_eq_ok.1 h
    have eR := (Ipa.decode_eq_ok cx _ _).1 hRs
    have lR : p.R_vec.length = Rs.length := by rw [← List.length_map (as := Rs) cx.compress, ← eR]; rfl
    rw [hs] at h
    simp only [trunc, generateChallenges_take _ _ _ _ _ hR, foldP_take _ _ _ _ _ (lR ▸ hR)] at h
    rw [hLs, ok_bind, show p.R_vec = (trunc p).R_vec from rfl, hRs, ok_bind]
    exact h

omit [DecidableEq F] in
theorem same_almVerify (cx : Ctx G) (p : Ipa.AlmZK F) (tr : Transcript) (Gs Hs : List G) (Q : G) (n : Nat) (C_w : G)
    (t : F) :
    SameIf (Padded cx.toCodec p.NoZK) (release.almVerify cx p tr Gs Hs Q n C_w t)
      ((truncAlm p).verify cx tr Gs Hs Q n C_w t) := by
  unfold Arith.almVerify Ipa.AlmZK.verify
  exact .step fun _ _ => same_ipaVerify _ _ _ _ _ _ _ _ _

omit [DecidableEq F] in
theorem same_innerVerify (cx : Ctx G) (p : Inner.Proof F) (tr : Transcript) (Gs Hs : List G) (Q : G)
    (gammaI : BlockMatrix F) (hH : Hs.length < 2 ^ 58) :
    SameIf (Padded cx.toCodec p.alm_zk.NoZK) (release.innerVerify cx p tr Gs Hs Q gammaI)
      ((truncInner p).verify cx tr Gs Hs Q gammaI) := by
  unfold Arith.innerVerify Inner.Proof.verify
  dsimp only
  refine .step fun _ _ => .bind (same_vandemondeChallenge _ (by omega)) fun xs hxs => .step fun _ _ =>
    .step fun b hb => ?_
  have h2 : 2 ≤ Hs.length := by
    have h1 := (List.getElem?_eq_some_iff.1 (idx_eq_ok.1 hb)).1
    rcases Nat.eq_zero_or_pos Hs.length with h0 | h0
    · rw [h0] at hxs
      cases hxs
    · rw [Inner.vandemondeChallenge_eq _ h0] at hxs
      cases hxs
      rw [List.length_ofFn] at h1
      exact h1
  refine .step fun _ _ => .step fun Gs' _ => .step fun _ _ => .step fun _ _ => ?_
  rw [release_sub h2 (by omega), usub_le h2, ok_bind, ok_bind]
  refine .bind (same_vandemondeChallenge _ (by omega)) fun ss _ => ?_
  refine .bind (same_vandemondeChallenge _ (by decide)) fun bs _ => ?_
  refine .step fun _ _ => .bind (same_computeGammaPrime _ hH) fun _ _ => .step fun _ _ => .step fun _ _ =>
    .step fun _ _ => .step fun _ _ => ?_
  exact same_almVerify _ _ _ _ _ _ _ _ _

omit [DecidableEq F] in
theorem same_copyVerify (cx : Ctx G) (p : Copy.Proof F) (tr : Transcript) (Gs Hs : List G) (Q : G)
    (gammaI : BlockMatrix F) (map : Copy.Mapping) (commitments : List G) (hG : Gs.length < 2 ^ 58)
    (hH : Hs.length < 2 ^ 58) (hc : commitments.length ≤ 2 ^ 58) :
    SameIf (Padded cx.toCodec p.inner.alm_zk.NoZK) (release.copyVerify cx p tr Gs Hs Q gammaI map commitments)
      ((truncCopy p).verify cx tr Gs Hs Q gammaI map commitments) := by
  unfold Arith.copyVerify Copy.Proof.verify
  dsimp only
  refine .bind (same_vandemondeChallenge _ hc) fun al _ => .step fun _ _ => ?_
  by_cases h2 : 2 ≤ Gs.length
  · rw [release_sub h2 (by omega), usub_le h2, ok_bind, ok_bind, release_room (by omega), ok_bind]
    exact .step fun _ _ => same_innerVerify cx
      (⟨p.inner.alm_zk, _, p.inner.c_prime_prime_w⟩ : Inner.Proof F) _ _ _ _ _ hH
  · rw [release_wrap (by omega) (by decide), ok_bind, release_no_room (by omega), usub, if_neg h2]
    exact .fail (fun r h => by cases h) (fun r h => by cases h)

/-! ### The mapping -/

theorem release_computeMapping (n ws : Nat) (sets : List (List Nat)) (h : 2 ≤ n % 65536) :
    release.computeMapping n ws sets = Copy.computeMapping n ws sets := by
  unfold Arith.computeMapping Copy.computeMapping
  dsimp only
  have e : release.sub16 (asU16 n) 2 = usub (asU16 n) 2 := by
    rw [usub_le (show 2 ≤ asU16 n from h)]
    simp only [release]
    have : n % 65536 < 65536 := Nat.mod_lt _ (by decide)
    have : asU16 n = n % 65536 := rfl
    rw [show asU16 n + 2 ^ 16 - 2 = (asU16 n - 2) + 2 ^ 16 by omega, Nat.add_mod_right, Nat.mod_eq_of_lt (by omega)]
  rw [e]

open Copy in
theorem release_computeMapping_wrap (n ws : Nat) (sets : List (List Nat)) (h : n % 65536 < 2) :
    release.computeMapping n ws sets =
      let free := slots (65536 + n % 65536) (ws % 65536) (setCollect sets.flatten)
      let total := (sets.map List.length).sum
      if total = 0 ∨ free = [] then .error .unwrapNone
      else if free.length < total then .error .assertFail
      else .ok ⟨sets.length, messages sets free, setCollect sets.flatten, free.getD (total - 1) 0⟩ := by
  unfold Arith.computeMapping
  simp only [asU16]
  have hfold : List.filter (fun x => !(setCollect sets.flatten).contains x)
      (List.range' (ws % 65536) (65536 + n % 65536 - 2 - ws % 65536)) =
      slots (65536 + n % 65536) (ws % 65536) (setCollect sets.flatten) := rfl
  have e : release.sub16 (n % 65536) 2 = .ok (65536 + n % 65536 - 2) := by
    simp only [release]
    rw [Nat.mod_eq_of_lt (by omega), Nat.add_comm, show 2 ^ 16 = 65536 from rfl]
  rw [e]
  simp only [ok_bind, hfold]
  exact mappingBody_eq sets _

open Copy in
theorem release_computeMapping_wf {n ws : Nat} {sets : List (List Nat)} {map : Mapping} (hn : n % 65536 < 2)
    (hws : ws < 65536) (hs : sets.length ≤ 65536) (h : release.computeMapping n ws sets = .ok map) :
    WF (65536 + n % 65536) ws sets map := by
  rw [release_computeMapping_wrap n ws sets hn] at h
  simp only [Nat.mod_eq_of_lt hws] at h
  split at h
  · cases h
  split at h
  · cases h
  next h2 h3 =>
  rw [not_or] at h2
  cases h
  refine ⟨by omega, by omega, rfl, rfl, _, slots_pairwise _ ws _, by omega, ?_, rfl, ?_⟩
  · intro x
    rw [mem_slots, mem_setCollect]
  · unfold messages
    simp only
    congr 1; funext k
    congr 1
    unfold asU16
    apply Nat.mod_eq_of_lt
    have hk : k.val < (crsIds 0 sets).length := by rw [crsIds_length]; exact k.2
    rw [List.getD_eq_getElem _ _ hk]
    have := crsIds_bounds 0 sets _ (List.getElem_mem hk)
    omega

/-! ### The k-ary arguments -/

theorem setIdx_length {α : Type} {l l' : List α} {i : Nat} {v : α} (h : setIdx l i v = .ok l') :
    l'.length = l.length := by
  obtain ⟨_, e⟩ := setIdx_eq_ok.1 h
  rw [e, List.length_set]

omit [DecidableEq F] in
theorem same_zInner {shift i : Nat} (hs : shift < 2 ^ 58) (hi : i ≤ shift + 1) (x : F) (ys : List F) :
    ∀ (j : Nat) (z : List F), z.length = 2 * shift + 1 → j ≤ shift + i + 1 →
      SameIf True (release.zInner shift i x j ys z) (Lmpa.zInner shift i x j ys z) := by
  induction ys with
  | nil => intro j z _ _; exact .refl _
  | cons y ys ih =>
    intro j z hz hj
    unfold Arith.zInner Lmpa.zInner
    by_cases h : i ≤ shift + j
    · rw [release_sub h (by omega), usub_le h, ok_bind, ok_bind]
      dsimp only
      by_cases e : shift + j - i = shift
      · rw [if_neg (by simpa using e), if_neg (by simpa using e), ok_bind, ok_bind]
        exact ih _ _ hz (by omega)
      · rw [if_pos e, if_pos e]
        refine .step fun z' hz' => ?_
        have := (setIdx_eq_ok.1 hz').1
        exact ih _ _ ((setIdx_length hz').trans hz) (by omega)
    · refine .fail (fun r => ?_) (fun r => ?_)
      · rw [release_wrap (by omega) (by omega), ok_bind, if_pos (by omega)]
        refine bind_fails (fun z' hz' => ?_) r
        have := (setIdx_eq_ok.1 hz').1
        omega
      · rw [usub, if_neg h]
        exact fun h => by cases h

omit [DecidableEq F] in
theorem zInner_length {shift i : Nat} (x : F) (ys : List F) :
    ∀ (j : Nat) (z z' : List F), Lmpa.zInner shift i x j ys z = .ok z' → z'.length = z.length := by
  induction ys with
  | nil => intro j z z' h; cases h; rfl
  | cons y ys ih =>
    intro j z z' h
    unfold Lmpa.zInner at h
    obtain ⟨l, _, h⟩ := bind_eq_ok.1 h
    dsimp only at h
    split at h
    · obtain ⟨z1, h1, h⟩ := bind_eq_ok.1 h
      exact (ih _ _ _ h).trans (setIdx_length h1)
    · rw [ok_bind] at h
      exact ih _ _ _ h

omit [DecidableEq F] in
theorem same_zOuter {shift : Nat} (hs : shift < 2 ^ 58) (ys : List F) (xs : List F) :
    ∀ (i : Nat) (z : List F), z.length = 2 * shift + 1 → i + xs.length ≤ shift + 2 →
      SameIf True (release.zOuter shift ys i xs z) (Lmpa.zOuter shift ys i xs z) := by
  induction xs with
  | nil => intro i z _ _; exact .refl _
  | cons x xs ih =>
    intro i z hz hi
    rw [List.length_cons] at hi
    unfold Arith.zOuter Lmpa.zOuter
    exact .bind (same_zInner hs (by omega) x ys 0 z hz (by omega)) fun z' hz' =>
      ih _ _ ((zInner_length _ _ _ _ _ hz').trans hz) (by omega)

omit [DecidableEq F] [DecidableEq G] in
theorem same_uInner (t : List G) {shift i : Nat} (hs : shift < 2 ^ 58) (hi : i ≤ shift + 1) (At : List (List G))
    (wT : List (List (List F))) :
    ∀ (j : Nat) (u : List (List G)), u.length = 2 * shift + 1 → j ≤ shift + i + 1 →
      SameIf True (release.uInner t shift i At j wT u) (Lmpa.uInner t shift i At j wT u) := by
  induction wT with
  | nil => intro j u _ _; exact .refl _
  | cons wv wT ih =>
    intro j u hu hj
    unfold Arith.uInner Lmpa.uInner
    by_cases h : i ≤ shift + j
    · rw [release_sub h (by omega), usub_le h, ok_bind, ok_bind]
      dsimp only
      by_cases e : shift + j - i = shift
      · rw [if_neg (by simpa using e), if_neg (by simpa using e)]
        exact .step fun u' hu' => ih _ _ ((setIdx_length hu').trans hu) (by omega)
      · rw [if_pos e, if_pos e]
        refine .step fun _ _ => .step fun _ _ => .step fun _ _ => .step fun u' hu' => ?_
        have := (setIdx_eq_ok.1 hu').1
        exact ih _ _ ((setIdx_length hu').trans hu) (by omega)
    · refine .fail (fun r => ?_) (fun r => ?_)
      · rw [release_wrap (by omega) (by omega), ok_bind, if_pos (by omega)]
        refine bind_fails (fun _ _ => bind_fails fun _ _ => bind_fails fun _ _ => bind_fails fun u' hu' => ?_) r
        have := (setIdx_eq_ok.1 hu').1
        omega
      · rw [usub, if_neg h]
        exact fun h => by cases h

omit [DecidableEq F] [DecidableEq G] in
theorem uInner_length' (t : List G) {shift i : Nat} (At : List (List G)) (wT : List (List (List F))) :
    ∀ (j : Nat) (u u' : List (List G)), Lmpa.uInner t shift i At j wT u = .ok u' → u'.length = u.length := by
  induction wT with
  | nil => intro j u u' h; cases h; rfl
  | cons wv wT ih =>
    intro j u u' h
    unfold Lmpa.uInner at h
    obtain ⟨l, _, h⟩ := bind_eq_ok.1 h
    dsimp only at h
    split at h
    · obtain ⟨_, _, h⟩ := bind_eq_ok.1 h
      obtain ⟨_, _, h⟩ := bind_eq_ok.1 h
      obtain ⟨_, _, h⟩ := bind_eq_ok.1 h
      obtain ⟨u1, h1, h⟩ := bind_eq_ok.1 h
      exact (ih _ _ _ h).trans (setIdx_length h1)
    · obtain ⟨u1, h1, h⟩ := bind_eq_ok.1 h
      exact (ih _ _ _ h).trans (setIdx_length h1)

omit [DecidableEq F] [DecidableEq G] in
theorem same_uOuter_nil (t : List G) (shift : Nat) (AT : List (List (List G))) :
    ∀ (i : Nat) (u : List (List G)),
      release.uOuter (F := F) t shift [] i AT u = Lmpa.uOuter (F := F) t shift [] i AT u := by
  induction AT with
  | nil => intro i u; rfl
  | cons At AT ih => intro i u; exact ih _ _

omit [DecidableEq F] [DecidableEq G] in
theorem same_uOuter (t : List G) {shift : Nat} (hs : shift < 2 ^ 58) (wT : List (List (List F)))
    (AT : List (List (List G))) :
    ∀ (i : Nat) (u : List (List G)), u.length = 2 * shift + 1 → i ≤ shift + 1 →
      SameIf True (release.uOuter t shift wT i AT u) (Lmpa.uOuter t shift wT i AT u) := by
  cases wT with
  | nil => intro i u _ _; exact .of_eq (same_uOuter_nil t shift AT i u)
  | cons wv wT =>
    induction AT with
    | nil => intro i u _ _; exact .refl _
    | cons At AT ih =>
      intro i u hu hi
      unfold Arith.uOuter Lmpa.uOuter
      refine .bind (same_uInner t hs hi At (wv :: wT) 0 u hu (by omega)) fun u' hu' => ?_
      have h0 : i ≤ shift := by
        unfold Lmpa.uInner at hu'
        obtain ⟨l, hl, -⟩ := bind_eq_ok.1 hu'
        have := (usub_eq_ok.1 hl).1
        omega
      exact ih _ _ ((uInner_length' _ _ _ _ _ _ hu').trans hu) (by omega)

omit [DecidableEq F] in
theorem vandemondeVector_length {x : F} {n : Nat} {v : List F} (h : vandemondeVector x n = .ok v) :
    v.length = n := by
  unfold vandemondeVector at h
  obtain ⟨k, hk, h⟩ := bind_eq_ok.1 h
  obtain ⟨h1, rfl⟩ := usub_eq_ok.1 hk
  cases h
  rw [List.length_cons, powersLoop_eq, List.length_ofFn]
  omega

omit [DecidableEq F] [DecidableEq G] in
theorem same_createKLoop (cx : Ctx G) (m : Nat) {k : Nat} (hk : k ≤ 2 ^ 58) (one : F) (zero : G) :
    ∀ (fuel n : Nat) (A : List (List G)) (w : List F) (t : List G) (tr : Transcript),
      SameIf True (release.createKLoop cx m k one zero fuel n A w t tr)
        (Lmpa.createKLoop cx m k one zero fuel n A w t tr) := by
  intro fuel
  induction fuel with
  | zero => intro n A w t tr; exact .refl _
  | succ fuel ih =>
    intro n A w t tr
    unfold Arith.createKLoop Lmpa.createKLoop
    by_cases h1 : n < k
    · rw [if_pos h1, if_pos h1]; exact .refl _
    rw [if_neg h1, if_neg h1]
    by_cases h0 : k = 0
    · rw [if_pos h0, if_pos h0]; exact .refl _
    rw [if_neg h0, if_neg h0]
    dsimp only
    refine .step fun AT _ => .step fun wT _ => ?_
    rw [release_sub (by omega) (by omega), ok_bind]
    refine .bind (same_uOuter t (by omega) wT AT 0 _ (by simp) (by omega)) fun u _ => ?_
    refine .bind (same_vandemondeVector _ hk) fun xs hxs => .bind (same_vandemondeVector _ hk) fun ys _ => ?_
    have := vandemondeVector_length hxs
    refine .bind (same_zOuter (by omega) ys xs 0 _ (by simp) (by omega)) fun zs _ => ?_
    refine .step fun _ _ => .step fun _ _ => .step fun _ _ => .step fun _ _ => ?_
    exact .bind (ih _ _ _ _ _) fun _ _ => .refl _

omit [DecidableEq F] [DecidableEq G] in
theorem same_verifyKLoop (cx : Ctx G) (p : Lmpa.LmpaNoZK F G) {k : Nat} (hk : k ≤ 2 ^ 58) (one : F) :
    ∀ (fuel ci n : Nat) (A : List (List G)) (t : List G) (tr : Transcript),
      SameIf True (release.verifyKLoop cx p k one fuel ci n A t tr)
        (Lmpa.verifyKLoop cx p k one fuel ci n A t tr) := by
  intro fuel
  induction fuel with
  | zero => intro ci n A t tr; exact .refl _
  | succ fuel ih =>
    intro ci n A t tr
    unfold Arith.verifyKLoop Lmpa.verifyKLoop
    by_cases h1 : n < k
    · rw [if_pos h1, if_pos h1]; exact .refl _
    rw [if_neg h1, if_neg h1]
    by_cases h0 : k = 0
    · rw [if_pos h0, if_pos h0]; exact .refl _
    rw [if_neg h0, if_neg h0]
    dsimp only
    refine .step fun AT _ => ?_
    rw [release_sub (by omega) (by omega), ok_bind]
    refine .step fun u _ => ?_
    refine .bind (same_vandemondeVector _ hk) fun xs hxs => .bind (same_vandemondeVector _ hk) fun ys _ => ?_
    have := vandemondeVector_length hxs
    refine .bind (same_zOuter (by omega) ys xs 0 _ (by simp) (by omega)) fun zs _ => ?_
    refine .step fun _ _ => .step fun _ _ => ?_
    exact ih _ _ _ _ _

omit [DecidableEq F] in
theorem same_lmpaKVerify (cx : Ctx G) (fuel : Nat) (p : Lmpa.LmpaNoZK F G) (tr : Transcript) (A : List (List G))
    (t : List G) (n : Nat) {k : Nat} (hk : k ≤ 2 ^ 58) (one : F) :
    SameIf True (release.lmpaKVerify cx fuel p tr A t n k one) (p.verify cx fuel tr A t n k one) := by
  unfold Arith.lmpaKVerify Lmpa.LmpaNoZK.verify
  exact .bind (same_verifyKLoop cx p hk one _ _ _ _ _ _) fun _ _ => .refl _

end Qesa
