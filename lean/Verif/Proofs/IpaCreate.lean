import Verif.Proofs.IpaVerify
/- The prover of the inner-product argument and its honest verification. -/
namespace Qesa.Ipa
open Qesa Spec
variable {F G : Type} [Field F] [AddCommGroup G] [Module F G]

theorem create_spec (cx : Ctx G) (tr : Transcript) (Q : G) (k : Nat) (a b : List F)
    (Gs Hs : List G) (ha : a.length = 2 ^ k) (hb : b.length = 2 ^ k) (hG : Gs.length = 2 ^ k)
    (hH : Hs.length = 2 ^ k) :
    ∃ (p : NoZK F) (Ls Rs : List G) (g h : G),
      create cx tr Gs Hs Q a b =
        .ok (p, ⟨tr.log ++ headLog (2 ^ k) ++ roundsLog p.L_vec p.R_vec⟩) ∧
      p.L_vec = Ls.map cx.compress ∧ p.R_vec = Rs.map cx.compress ∧
      Ls.length = k ∧ Rs.length = k ∧
      foldGens (2 ^ k) Gs Hs (ipaChallenges F cx.ro tr.log (2 ^ k) p.L_vec p.R_vec) =
        .ok ([g], [h]) ∧
      ∀ P, foldedP Ls Rs (ipaChallenges F cx.ro tr.log (2 ^ k) p.L_vec p.R_vec) P =
        p.a • g + p.b • h + (p.a * p.b) • ((ipaAlpha F cx.ro tr.log (2 ^ k))⁻¹ • Q) +
          (ipaChallenges F cx.ro tr.log (2 ^ k) p.L_vec p.R_vec).prod •
            (P - com a b Gs Hs ((ipaAlpha F cx.ro tr.log (2 ^ k))⁻¹ • Q)) := by
  obtain ⟨p, tr', Ls, Rs, xs, g, h, e1, e2, e3, e4, e5, e6, e7, e8, e9⟩ :=
    createLoop_spec cx ((ipaAlpha F cx.ro tr.log (2 ^ k))⁻¹ • Q) k (2 ^ k) Nat.lt_two_pow_self
      a b Gs Hs (⟨tr.log ++ headLog (2 ^ k)⟩) ha hb hG hH
  rw [generateChallenges_eq, Prod.mk.injEq] at e7
  obtain ⟨rfl, rfl⟩ := e7
  refine ⟨p, Ls, Rs, g, h, ?_, e2, e3, e4, e5, e8, ?_⟩
  · unfold create
    simp only [hG, hH, ha, hb]
    rw [rassert_true (c := Nat.isPowerOfTwo _) ⟨k, rfl⟩]
    simp only [rassert_True, ok_bind, challengeScalar_eq, Transcript.appendU64, Transcript.appendMessage,
      List.append_assoc, List.cons_append, List.nil_append]
    simpa [List.append_assoc, ipaAlpha, headLog] using e1
  · intro P
    have := e9 P
    rwa [foldP_eq _ _ _ _ (by omega) (by omega)] at this

theorem create_ok (cx : Ctx G) (tr : Transcript) (Gs Hs : List G) (Q : G) (a b : List F)
    (r : NoZK F × Transcript) (h : create cx tr Gs Hs Q a b = .ok r) :
    ∃ k, a.length = 2 ^ k ∧ b.length = 2 ^ k ∧ Gs.length = 2 ^ k ∧ Hs.length = 2 ^ k := by
  unfold create at h
  obtain ⟨_, h1, h⟩ := bind_eq_ok.1 h
  obtain ⟨_, h2, h⟩ := bind_eq_ok.1 h
  obtain ⟨_, h3, h⟩ := bind_eq_ok.1 h
  obtain ⟨_, h4, h⟩ := bind_eq_ok.1 h
  have h1 := rassert_eq_ok.1 h1
  have h2 := rassert_eq_ok.1 h2
  have h3 := rassert_eq_ok.1 h3
  obtain ⟨k, hk⟩ := rassert_eq_ok.1 h4
  exact ⟨k, by omega, by omega, hk, by omega⟩

/-- The verdict on an honest proof, for an arbitrary claim. -/
theorem verify_create [DecidableEq G] (cx : Ctx G) (tr tr' : Transcript) (Q : G) (k : Nat)
    (h64 : k < 64) (a b : List F) (Gs Hs : List G) (p : NoZK F) (hG : Gs.length = 2 ^ k)
    (hc : create cx tr Gs Hs Q a b = .ok (p, tr')) (P : G) (t : F) :
    p.verify cx tr Gs Hs Q (2 ^ k) P t =
      .ok (decide ((ipaChallenges F cx.ro tr.log (2 ^ k) p.L_vec p.R_vec).prod •
        (P - ((ipaAlpha F cx.ro tr.log (2 ^ k) - 1) * t) •
            ((ipaAlpha F cx.ro tr.log (2 ^ k))⁻¹ • Q)
          - com a b Gs Hs ((ipaAlpha F cx.ro tr.log (2 ^ k))⁻¹ • Q)) = 0), tr') := by
  obtain ⟨k', ha, hb, hG', hH⟩ := create_ok cx tr Gs Hs Q a b _ hc
  obtain rfl : k' = k := Nat.pow_right_injective (le_refl 2) (show 2 ^ k' = 2 ^ k by rw [← hG', hG])
  obtain ⟨p', Ls, Rs, g, h, e1, e2, e3, e4, e5, e6, e7⟩ := create_spec cx tr Q k' a b Gs Hs ha hb hG hH
  rw [hc, Except.ok.injEq, Prod.mk.injEq] at e1
  obtain ⟨rfl, rfl⟩ := e1
  rw [verify_eq cx p tr Gs Hs Q P t Ls Rs e2 e3 k' e4 h64]
  simp only [e6, ok_bind, idx_cons_zero, e7, R_pure]
  congr 3
  rw [eq_iff_iff, eq_comm, add_eq_left]

/-! ### Surplus points -/

omit [AddCommGroup G] in
theorem decode_append (cx : Ctx G) (cs : List Comp) (X : List G) :
    ((cs ++ X.map cx.compress).mapM (fun c => unwrapR (cx.decompress c)) : R (List G)) =
      (cs.mapM (fun c => unwrapR (cx.decompress c)) : R (List G)) >>= fun ps => .ok (ps ++ X) := by
  cases hL : (cs.mapM fun c => unwrapR (cx.decompress c) : R (List G)) with
  | error e =>
    rw [List.mapM_append, hL]; rfl
  | ok ps =>
    rw [List.mapM_append, hL, (decode_eq_ok cx (X.map cx.compress) X).2 rfl]; rfl

theorem generateChallenges_append (ro : Hash) (Ls Rs X : List Comp) (h : Ls.length ≤ Rs.length)
    (tr : Transcript) :
    generateChallenges (F := F) ro Ls (Rs ++ X) tr = generateChallenges ro Ls Rs tr := by
  induction Ls generalizing Rs tr with
  | nil => simp [generateChallenges]
  | cons L Ls ih => cases Rs with
    | nil => simp at h
    | cons R Rs => simp [generateChallenges, ih Rs (by simpa using h)]

theorem foldP_append (Ls Rs X : List G) (xs : List F) (h : Ls.length ≤ Rs.length) (P : G) :
    foldP Ls (Rs ++ X) xs P = foldP Ls Rs xs P := by
  induction Ls generalizing Rs xs P with
  | nil => simp [foldP]
  | cons L Ls ih => cases Rs with
    | nil => simp at h
    | cons R Rs => cases xs with
      | nil => simp [foldP]
      | cons x xs => simp [foldP, ih Rs xs (by simpa using h)]

theorem roundsLog_injective (l l' : List (Comp × Comp))
    (h : l.flatMap roundLog = l'.flatMap roundLog) : l = l' := by
  induction l generalizing l' with
  | nil => cases l' with
    | nil => rfl
    | cons y l' => simp [roundLog] at h
  | cons y l ih => cases l' with
    | nil => simp [roundLog] at h
    | cons y' l' =>
      simp only [List.flatMap_cons, roundLog, List.cons_append, List.nil_append, List.cons.injEq,
        Event.msg.injEq, true_and] at h
      obtain ⟨h1, h2, h3⟩ := h
      rw [ih l' h3, Prod.ext h1 h2]

end Qesa.Ipa
