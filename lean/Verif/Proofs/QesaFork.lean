import Verif.Proofs.IpaFork
import Verif.Props.Qesa
import Verif.Props.QesaSound
/-
Trees of conversations of QESA from a prover that branches.
-/
namespace Qesa.Props
open Qesa Spec Ipa
set_option linter.unusedSectionVars false
variable {F G : Type} [Field F] [DecidableEq F] [AddCommGroup G] [Module F G] [DecidableEq G]
variable {m k : Nat}

/-- What comes after the start of the argument in the history of challenge number `j`. -/
def qesaRest : Nat → Nat
  | 0 => 2
  | 1 => 4
  | 2 => 5
  | j + 3 => 8 + 3 * j

theorem qesaRest_injective : Function.Injective qesaRest := by
  intro i j h
  match i, j with
  | 0, 0 | 1, 1 | 2, 2 => rfl
  | 0, 1 | 0, 2 | 1, 0 | 1, 2 | 2, 0 | 2, 1 => simp [qesaRest] at h
  | 0, j + 3 | 1, j + 3 | 2, j + 3 => simp [qesaRest] at h; omega
  | i + 3, 0 | i + 3, 1 | i + 3, 2 => simp [qesaRest] at h; omega
  | i + 3, j + 3 => simp [qesaRest] at h; omega

theorem qesaHistories_shape {cd : Codec G} {ro : Hash} {lg : List Event} {Gs Hs : List G} {Q : G}
    {Ms : Fin k → Matrix (Fin m) (Fin m) F} {p : Inner.Proof F} {j : Nat} {l : List Event}
    (h : (qesaHistories cd ro lg Gs Hs Q Ms p)[j]? = some l) :
    ∃ t, l = lg ++ t ∧ t.length = qesaRest j ∧ t.take 4 = ([.msg "c_prime_w" p.c_prime_w, .chal "x" 64,
      .msg "c_prime_prime_w" p.c_prime_prime_w, .chal "s" 64] : List Event).take (qesaRest j) := by
  unfold qesaHistories at h
  match j with
  | 0 => simp only [List.getElem?_cons_zero, Option.some.injEq] at h; exact ⟨_, h.symm, rfl, rfl⟩
  | 1 =>
    simp only [List.getElem?_cons_succ, List.getElem?_cons_zero, Option.some.injEq] at h
    exact ⟨_, h.symm, rfl, rfl⟩
  | 2 =>
    simp only [List.getElem?_cons_succ, List.getElem?_cons_zero, Option.some.injEq] at h
    exact ⟨_, h.symm, rfl, rfl⟩
  | 3 =>
    simp only [List.getElem?_cons_succ, almHistories, List.getElem?_cons_zero, Option.some.injEq, qesaLog] at h
    rw [List.append_assoc] at h
    exact ⟨_, h.symm, rfl, rfl⟩
  | j + 4 =>
    simp only [List.getElem?_cons_succ, almHistories, ipaHistories_getElem, ipaKey] at h
    split at h
    · rename_i hj
      rw [Option.some.injEq, almLog, qesaLog] at h
      simp only [List.append_assoc] at h
      refine ⟨_, h.symm, ?_, ?_⟩
      · simp only [List.length_append, roundsLog_take_length _ _ _ hj, qesaHead, almHead, headLog, List.length_cons,
          List.length_nil, qesaRest]
        omega
      · rw [List.take_of_length_le (i := qesaRest _) (by simp only [List.length_cons, List.length_nil, qesaRest]; omega)]
        rfl
    · cases h

section
variable {γ : Type} (cd : Codec G) {q : Nat} {K : Nat → Nat} (hK : ∀ i, 4 ≤ K i)
  {acc : Hash → Prop} {key : Hash → Nat → Option (List Event)} (i0 : Nat) (hKm : m + 1 ≤ K (i0 + 1)) (lg : Hash → List Event) (ctx : Hash → γ)
  (hq : m + 2 = 2 ^ q) (Gs Hs : List G) (hG : Gs.length = m + 2) (hH : Hs.length = m + 2) (Q : G)
  (Ms : γ → Fin (k + 1) → Matrix (Fin m) (Fin m) F) (p : Hash → Inner.Proof F)
  (hacc : ∀ ro, acc ro → ∃ tr', (p ro).verify ⟨cd, ro⟩ ⟨lg ro⟩ Gs Hs Q ⟨List.ofFn fun i => rows (Ms (ctx ro) i)⟩ =
    .ok (true, tr'))
  (hkey : ∀ ro j, acc ro → key ro (i0 + j) = (qesaHistories cd ro (lg ro) Gs Hs Q (Ms (ctx ro)) (p ro))[j]?)
  (hctx : ∀ ro l v j, acc ro → acc (Function.update ro l v) → key ro (i0 + j) = some l →
    key (Function.update ro l v) (i0 + j) = some l → ctx (Function.update ro l v) = ctx ro)

def xOf (F : Type) [Field F] (lg : Hash → List Event) (p : Hash → Inner.Proof F) (ro : Hash) : F :=
  qesaX F ro (lg ro) (p ro).c_prime_w
def sOf (F : Type) [Field F] (lg : Hash → List Event) (p : Hash → Inner.Proof F) (ro : Hash) : F :=
  qesaS F ro (lg ro) (p ro).c_prime_w (p ro).c_prime_prime_w
def bOf (F : Type) [Field F] (lg : Hash → List Event) (p : Hash → Inner.Proof F) (ro : Hash) : F :=
  qesaB F ro (lg ro) (p ro).c_prime_w (p ro).c_prime_prime_w

include hkey in
/-- Another answer at challenge `j` changes nothing before it. -/
theorem qesa_stable {ro : Hash} {l : List Event} {v : Vector UInt8 64} {j : Nat} (ha : acc ro)
    (ha' : acc (Function.update ro l v)) (hk : key ro (i0 + j) = some l)
    (hk' : key (Function.update ro l v) (i0 + j) = some l) :
    lg (Function.update ro l v) = lg ro ∧ (p (Function.update ro l v)).c_prime_w = (p ro).c_prime_w ∧
    (1 ≤ j → (p (Function.update ro l v)).c_prime_prime_w = (p ro).c_prime_prime_w ∧
      xOf F lg p (Function.update ro l v) = xOf F lg p ro) ∧
    (2 ≤ j → sOf F lg p (Function.update ro l v) = sOf F lg p ro) ∧
    (3 ≤ j → bOf F lg p (Function.update ro l v) = bOf F lg p ro) ∧
    (j = 0 → xOf F lg p (Function.update ro l v) = ((leNat v.toList : Nat) : F)) ∧
    (j = 1 → sOf F lg p (Function.update ro l v) = ((leNat v.toList : Nat) : F)) ∧
    (j = 2 → bOf F lg p (Function.update ro l v) = ((leNat v.toList : Nat) : F)) := by
  have e1 := hk
  have e2 := hk'
  rw [hkey ro j ha] at e1
  rw [hkey _ j ha'] at e2
  obtain ⟨t, h1, h2, h3⟩ := qesaHistories_shape e1
  obtain ⟨t', h1', h2', h3'⟩ := qesaHistories_shape e2
  obtain ⟨hlg, ht⟩ := List.append_inj' (h1'.symm.trans h1) (h2'.trans h2.symm)
  rw [ht, h3] at h3'
  have hlen : l.length = (lg ro).length + qesaRest j := by rw [h1, List.length_append, h2]
  have hc' : (p (Function.update ro l v)).c_prime_w = (p ro).c_prime_w := by
    have := congrArg (fun l => l[0]?) h3'
    have h0 : 0 < qesaRest j := by unfold qesaRest; split <;> omega
    simp only [List.getElem?_take, h0, if_true, List.getElem?_cons_zero, Option.some.injEq, Event.msg.injEq,
      true_and] at this
    exact this.symm
  have hc'' : 1 ≤ j → (p (Function.update ro l v)).c_prime_prime_w = (p ro).c_prime_prime_w := by
    intro hj
    have h0 : 2 < qesaRest j := by
      match j, hj with
      | 1, _ | 2, _ => simp [qesaRest]
      | j + 3, _ => simp [qesaRest]; omega
    have := congrArg (fun l => l[2]?) h3'
    simp only [List.getElem?_take, h0, if_true, List.getElem?_cons_zero, List.getElem?_cons_succ, Option.some.injEq,
      Event.msg.injEq, true_and] at this
    exact this.symm
  have hmono : ∀ i, i < j → qesaRest i < qesaRest j := by
    intro i hij
    match i, j, hij with
    | 0, 1, _ | 0, 2, _ | 1, 2, _ => simp [qesaRest]
    | 0, j + 3, _ | 1, j + 3, _ | 2, j + 3, _ => simp [qesaRest]; omega
    | i + 3, j + 3, h => simp [qesaRest]; omega
  have hsame : ∀ (t : List Event) i, i < j → t.length = qesaRest i → (Function.update ro l v) (lg ro ++ t) = ro (lg ro ++ t) := by
    intro t i hij ht
    rw [Function.update_of_ne]
    intro e
    have := congrArg List.length e
    rw [hlen, List.length_append, ht] at this
    have := hmono i hij
    omega
  refine ⟨hlg, hc', fun hj => ⟨hc'' hj, ?_⟩, fun hj => ?_, fun hj => ?_, ?_, ?_, ?_⟩
  · rw [xOf, xOf, hlg, hc', qesaX, qesaX, squeeze, squeeze, hsame _ 0 (by omega) rfl]
  · rw [sOf, sOf, hlg, hc', hc'' (by omega), qesaS, qesaS, squeeze, squeeze, hsame _ 1 (by omega) rfl]
  · rw [bOf, bOf, hlg, hc', hc'' (by omega), qesaB, qesaB, squeeze, squeeze, hsame _ 2 (by omega) rfl]
  · rintro rfl
    simp only [qesaHistories, List.getElem?_cons_zero, Option.some.injEq] at e1
    rw [xOf, hlg, hc', qesaX, squeeze, e1, Function.update_self]
  · rintro rfl
    simp only [qesaHistories, List.getElem?_cons_zero, List.getElem?_cons_succ, Option.some.injEq] at e1
    rw [sOf, hlg, hc', hc'' le_rfl, qesaS, squeeze, e1, Function.update_self]
  · rintro rfl
    simp only [qesaHistories, List.getElem?_cons_zero, List.getElem?_cons_succ, Option.some.injEq] at e1
    rw [bOf, hlg, hc', hc'' (by omega), qesaB, squeeze, e1, Function.update_self]

include hq hG hH hacc in
theorem qesa_accepted_alm (ro : Hash) (ha : acc ro) : 0 < m ∧
    (p ro).c_prime_w = cd.compress ((cd.decompress (p ro).c_prime_w).getD 0) ∧
    (p ro).c_prime_prime_w = cd.compress ((cd.decompress (p ro).c_prime_prime_w).getD 0) ∧
    ∃ tr', (p ro).alm_zk.verify ⟨cd, ro⟩ ⟨qesaLog cd ro (lg ro) Gs Hs (Ms (ctx ro)) (p ro)⟩
      (rescaled (xOf F lg p ro ^ 2) Gs) Hs Q (2 ^ q) (qesaClaimed cd ro (lg ro) Gs Hs (Ms (ctx ro)) (p ro)).1
      (qesaClaimed cd ro (lg ro) Gs Hs (Ms (ctx ro)) (p ro)).2 = .ok (true, tr') := by
  obtain ⟨tr', h⟩ := hacc ro ha
  obtain ⟨hm, -, -, ⟨C', h1⟩, ⟨C'', h2⟩⟩ := verify_shapes _ _ _ _ _ _ _ _ h
  obtain ⟨g0, Gs0, hGs⟩ : ∃ g0 Gs0, Gs = g0 :: Gs0 := by
    cases Gs with
    | nil => simp at hG
    | cons g Gs => exact ⟨g, Gs, rfl⟩
  have e1 : (cd.decompress (p ro).c_prime_w).getD 0 = C' := by
    rw [show cd.decompress (p ro).c_prime_w = some C' from h1]; rfl
  have e2 : (cd.decompress (p ro).c_prime_prime_w).getD 0 = C'' := by
    rw [show cd.decompress (p ro).c_prime_prime_w = some C'' from h2]; rfl
  refine ⟨hm, ?_, ?_, tr', ?_⟩
  · rw [e1]; exact (cd.compress_decompress _ _ h1).symm
  · rw [e2]; exact (cd.compress_decompress _ _ h2).symm
  · rw [Inner.verify_eq hm _ _ _ Gs Hs Q _ C' C'' (cd.compress_decompress _ _ h1).symm
      (cd.compress_decompress _ _ h2).symm g0 Gs0 hGs hG hH] at h
    simp only [qesaLog, qesaClaimed, e1, e2, qesaPoint, hGs, List.headD_cons, xOf, ← hq] at h ⊢
    exact h

include hK hKm hq hG hH hacc hkey hctx in
/-- A prover of QESA that branches at all challenges after `x`. -/
theorem qesa_forks (ro : Hash) (hbr : Forks (scalarOf F) acc key K (q + 4) (i0 + 1) ro) :
    ∃ (s : Fin (m + 1) → F) (b : Fin (m + 1) → Fin 3 → F) (C_r : Fin (m + 1) → Fin 3 → G)
      (β : Fin (m + 1) → Fin 3 → Fin 3 → F) (α : Fin (m + 1) → Fin 3 → Fin 3 → Fin 2 → F)
      (T : Fin (m + 1) → Fin 3 → Fin 3 → Fin 2 → IpaTree F G q),
      Function.Injective s ∧ (∀ i, Function.Injective (b i)) ∧ (∀ i j, Function.Injective (β i j)) ∧
      (∀ i j l, α i j l 0 ≠ α i j l 1) ∧ (∀ i j l e, α i j l e ≠ 0) ∧ (∀ i j l e, (T i j l e).Distinct) ∧
      ∀ i j l e, ∀ c ∈ (T i j l e).paths,
        (let x := xOf F lg p ro
        let M := batched (m + 2) (Ms (ctx ro)) x
        let C_w := qesaPoint M Gs Hs ((cd.decompress (p ro).c_prime_w).getD 0)
          ((cd.decompress (p ro).c_prime_prime_w).getD 0) x (s i) (b i j);
        let t := - quad M (powers (s i) m);
        c.Accepts (rescaled (x ^ 2) Gs) Hs ((α i j l e)⁻¹ • Q)
          (β i j l • C_w + C_r i j + (β i j l * β i j l * t) • Q -
            ((α i j l e - 1) * (β i j l * β i j l * t)) • ((α i j l e)⁻¹ • Q))) ∧
        ∃ ro', Reprogrammed (q + 4) ro ro' ∧ acc ro' ∧ ctx ro' = ctx ro ∧ lg ro' = lg ro ∧
          (p ro').c_prime_w = (p ro).c_prime_w ∧ (p ro').c_prime_prime_w = (p ro).c_prime_prime_w ∧
          xOf F lg p ro' = xOf F lg p ro ∧ sOf F lg p ro' = s i ∧ bOf F lg p ro' = b i j ∧
          (p ro').alm_zk.C_r = cd.compress (C_r i j) ∧
          (let lg1 := qesaLog cd ro' (lg ro') Gs Hs (Ms (ctx ro')) (p ro');
          let c1 := qesaClaimed cd ro' (lg ro') Gs Hs (Ms (ctx ro')) (p ro');
          let lg2 := almLog cd ro' lg1 Q c1.1 c1.2 (p ro').alm_zk.C_r;
          let ip := (p ro').alm_zk.NoZK;
          almBeta F ro' lg1 (p ro').alm_zk.C_r = β i j l ∧ ipaAlpha F ro' lg2 (2 ^ q) = α i j l e ∧
          Continues cd ip (ipaChallenges F ro' lg2 (2 ^ q) ip.L_vec ip.R_vec) c) := by
  have stable := fun ro l v j => qesa_stable (F := F) cd i0 lg ctx Gs Hs Q Ms p hkey (ro := ro) (l := l) (v := v) (j := j)
  have hGr : ∀ x : F, (rescaled x Gs).length = 2 ^ q := by
    intro x
    rw [← hq, ← hG]
    cases Gs <;> rfl
  -- the levels from `beta` on
  have hA := fun ro => alm_forks cd hK (acc := acc) (key := key) (i0 + 3)
    (fun ro => qesaLog cd ro (lg ro) Gs Hs (Ms (ctx ro)) (p ro))
    (fun ro => (ctx ro, (p ro).c_prime_w, (p ro).c_prime_prime_w, xOf F lg p ro, sOf F lg p ro, bOf F lg p ro, lg ro))
    (fun c => rescaled (c.2.2.2.1 ^ 2) Gs) (fun _ => Hs) (fun c => hGr _) (fun _ => hH.trans hq) Q
    (fun c => qesaPoint (batched (m + 2) (Ms c.1) c.2.2.2.1) Gs Hs ((cd.decompress c.2.1).getD 0)
      ((cd.decompress c.2.2.1).getD 0) c.2.2.2.1 c.2.2.2.2.1 c.2.2.2.2.2.1)
    (fun c => - quad (batched (m + 2) (Ms c.1) c.2.2.2.1) (powers c.2.2.2.2.1 m)) (fun ro => (p ro).alm_zk)
    (fun ro h => (qesa_accepted_alm cd lg ctx hq Gs Hs hG hH Q Ms p hacc ro h).2.2.2)
    (by
      intro ro j h
      rw [Nat.add_assoc, hkey ro _ h, qesaHistories, Nat.add_comm 3 j, ← hq]
      rfl)
    (by
      intro ro l v j h h' hk hk'
      rw [Nat.add_assoc] at hk hk'
      obtain ⟨s1, s2, s3, s4, s5, -⟩ := stable ro l v (3 + j) h h' hk hk'
      simp only [Prod.mk.injEq]
      exact ⟨hctx ro l v _ h h' hk hk', s2, (s3 (by omega)).1, (s3 (by omega)).2, s4 (by omega), s5 (by omega), s1⟩)
    ro
  -- the levels `s` and `b`
  have ha := hbr.acc
  have hk1 : ∃ l, key ro (i0 + 1) = some l := by rw [hkey ro 1 ha, qesaHistories]; exact ⟨_, rfl⟩
  obtain ⟨l1, hk1⟩ := hk1
  obtain ⟨v1, hv1, hinj1, -⟩ := Forks.pick (k := m) hbr hk1 (∅ : Finset F) (by simpa using hKm)
  have hk2 : ∀ i, ∃ l, key (Function.update ro l1 (v1 i)) (i0 + 2) = some l := by
    intro i; rw [hkey _ 2 (hv1 i).1.acc, qesaHistories]; exact ⟨_, rfl⟩
  choose l2 hk2 using hk2
  have hv2 : ∀ i, _ := fun i => Forks.pick (k := 2) (hv1 i).1 (hk2 i) (∅ : Finset F)
    (by rw [Finset.card_empty]; exact le_trans (by omega) (hK (i0 + 1 + 1)))
  choose v2 hv2 hinj2 _ using hv2
  have e1 := fun i => stable _ _ _ _ ha (hv1 i).1.acc hk1 (hv1 i).2
  have e2 := fun i j => stable _ _ _ _ (hv1 i).1.acc (hv2 i j).1.acc (hk2 i) (hv2 i j).2
  have c1 := fun i => hctx _ _ _ _ ha (hv1 i).1.acc hk1 (hv1 i).2
  have c2 := fun i j => hctx _ _ _ _ (hv1 i).1.acc (hv2 i j).1.acc (hk2 i) (hv2 i j).2
  choose C_r β α T h1 h2 h3 h4 h5 using fun i j => hA _ (hv2 i j).1
  refine ⟨fun i => ((leNat (v1 i).toList : Nat) : F), fun i j => ((leNat (v2 i j).toList : Nat) : F), C_r, β, α, T,
    hinj1, hinj2, h2, h3, h4, h1, fun i j l e c hc => ?_⟩
  have y1 : lg (Function.update (Function.update ro l1 (v1 i)) (l2 i) (v2 i j)) = lg ro := (e2 i j).1.trans (e1 i).1
  have y2 : (p (Function.update (Function.update ro l1 (v1 i)) (l2 i) (v2 i j))).c_prime_w = (p ro).c_prime_w :=
    (e2 i j).2.1.trans (e1 i).2.1
  have y3 : (p (Function.update (Function.update ro l1 (v1 i)) (l2 i) (v2 i j))).c_prime_prime_w =
      (p ro).c_prime_prime_w := ((e2 i j).2.2.1 (by omega)).1.trans ((e1 i).2.2.1 le_rfl).1
  have y4 : xOf F lg p (Function.update (Function.update ro l1 (v1 i)) (l2 i) (v2 i j)) = xOf F lg p ro :=
    ((e2 i j).2.2.1 (by omega)).2.trans ((e1 i).2.2.1 le_rfl).2
  have y5 : sOf F lg p (Function.update (Function.update ro l1 (v1 i)) (l2 i) (v2 i j)) =
      ((leNat (v1 i).toList : Nat) : F) :=
    ((e2 i j).2.2.2.1 le_rfl).trans ((e1 i).2.2.2.2.2.2.1 rfl)
  have y6 : bOf F lg p (Function.update (Function.update ro l1 (v1 i)) (l2 i) (v2 i j)) =
      ((leNat (v2 i j).toList : Nat) : F) := (e2 i j).2.2.2.2.2.2.2 rfl
  have y7 : ctx (Function.update (Function.update ro l1 (v1 i)) (l2 i) (v2 i j)) = ctx ro := (c2 i j).trans (c1 i)
  obtain ⟨z1, ro', z2, z3, z4, z5, z6, z7, z8, z9⟩ := h5 i j l e c hc
  simp only [y2, y3, y4, y5, y6, y7] at z1
  simp only [Prod.mk.injEq, y1, y2, y3, y4, y5, y6, y7] at z4
  obtain ⟨w1, w2, w3, w4, w5, w6, w7⟩ := z4
  exact ⟨z1, ro', z2.update.update, z3, w1, w7, w2, w3, w4, w5, w6, z6, z7, z8, z9⟩

end
end Qesa.Props
