import Verif.Props.ForkAdaptive
import Verif.Props.ForkCopy
/-
C96, second part: Copy and the linear-map arguments.
-/
namespace Qesa.Props
open Qesa Spec Ipa Lmpa
variable {F G σ : Type} [Field F] [AddCommGroup G] [Module F G]

/-- A prover that branches sticks to its statement. -/
theorem branches_fix {acc : Hash → Prop} {key key' : Hash → Nat → Option (List Event)} {M : Nat} (st : Hash → σ) (s : σ)
    (hst : ∀ (ro : Hash) (l : List Event) (v : Vector UInt8 64) (i : Nat), acc ro → acc (Function.update ro l v) →
      key ro i = some l → key (Function.update ro l v) i = some l → st (Function.update ro l v) = st ro)
    (hkey : ∀ ro i, st ro = s → key' ro i = key ro i) : ∀ (d i : Nat) (ro : Hash), st ro = s →
    Branches acc key M d i ro → Branches (fun ro => acc ro ∧ st ro = s) key' M d i ro
  | 0, _, _, hs, h => ⟨h, hs⟩
  | d + 1, i, ro, hs, h => by
    refine ⟨branches_fix st s hst hkey d (i + 1) ro hs h.1, fun l hl => ?_⟩
    rw [hkey ro i hs] at hl
    refine (h.2 l hl).trans (Nat.card_le_card_of_injective (fun v => ⟨v.1, ?_⟩) fun v w e => Subtype.ext (by
      simpa using e))
    obtain ⟨hv, hk⟩ := v.2
    have e := (hst ro l v.1 i h.1.acc hv.acc hl hk).trans hs
    exact ⟨branches_fix st s hst hkey d (i + 1) _ e hv, by rw [hkey _ _ e]; exact hk⟩

section
variable [DecidableEq G]

/-! ### The linear-map arguments -/

/-- C96: knowledge soundness of the linear-map argument for provers that choose the map and the target. Here the encoding
of a statement must not be the beginning of an encoding of another, since the length of the messages depends on the
statement. -/
theorem C96_lmpa_knowledge {q T B c fuel : Nat} (cd : Codec G) (row : σ → List G) (rows : σ → List (List G))
    (Gs : List G) (t : σ → G) (ts : σ → List G) (hA : ∀ s, ∀ r ∈ row s :: rows s, r.length = 2 ^ q)
    (enc : σ → List Event) (henc : ∀ s s' r r', enc s ++ r = enc s' ++ r' → s = s') (hc : ∀ s, chals (enc s) = c)
    (hB : ∀ c : F, Nat.card {v : Vector UInt8 64 // ((leNat v.toList : Nat) : F) = c} ≤ B)
    (P : Algo Event (σ × Lmpa.NoZK F G)) (hT : P.AtMost T) (ro : Hash) (D : Finset (List Event))
    (hD : ∀ ro, ∀ l ∈ P.asked id ro ++ lmpaQueries (plainPen cd.compress) (enc (P.run id ro).1)
      ((P.run id ro).2.L_Vec.take q) ((P.run id ro).2.R_Vec.take q), l ∈ D) :
    let Acc := fun ro =>
      let s := (P.run id ro).1
      ∃ tr', (P.run id ro).2.verify ⟨cd, ro⟩ fuel ⟨enc s⟩ (row s :: rows s) Gs (2 ^ q) (t s :: ts s) = .ok (true, tr')
    chance ro D (fun ro => Acc ro ∧
      let s := (P.run id ro).1
      ¬ ∃ T : LmpaTree F G q,
      (∀ c ∈ T.paths, ∃ ro', Reprogrammed q ro ro' ∧ Acc ro' ∧ (P.run id ro').1 = s ∧
        let p := (P.run id ro').2
        c = (column (p.L_Vec.take q) 0, column (p.R_Vec.take q) 0,
          lmpaChallenges F ⟨cd, ro'⟩ (enc s) (p.L_Vec.take q) (p.R_Vec.take q), p.w)) ∧
      (extractLmpa T.scalars).length = 2 ^ q ∧ dot (extractLmpa T.scalars) (row s) = t s) ≤
    ((T + q) * (2 * B) : Nat) / 2 ^ 512 := by
  intro Acc
  refine (chance_mono fun ro h => ?_).trans (forking_by (M := 2 * B + 1) (d := q) chals P hT
    (fun p => Algo.askAll () (lmpaQueries (plainPen cd.compress) (enc p.1) (p.2.L_Vec.take q) (p.2.R_Vec.take q)))
    (fun p => Algo'.askAll_atMost _ _ _ ((lmpaQueries_length ..).trans (List.length_take_le _ _))) Acc
    (fun ro => lmpaQueries (plainPen cd.compress) (enc (P.run id ro).1) ((P.run id ro).2.L_Vec.take q)
      ((P.run id ro).2.R_Vec.take q)) (fun i => c + (i + 1)) (fun i j h => by simp only at h; omega) ?_ ro D ?_)
  · refine ⟨h.1, fun hb => h.2 ?_⟩
    obtain ⟨T, h1, h2⟩ := lmpa_extraction cd (row (P.run id ro).1) (rows (P.run id ro).1) Gs (t (P.run id ro).1)
      (ts (P.run id ro).1) (hA _) (enc (P.run id ro).1) (K := fun _ => 2 + 1) (fun _ => le_rfl) (fun ro => (P.run id ro).2)
      (fun ro' => Acc ro' ∧ (P.run id ro').1 = (P.run id ro).1) (by
        rintro ro' ⟨h, e⟩
        simp only [Acc, e] at h
        exact h) ro
      ((branches_fix (fun ro => (P.run id ro).1) _ (by
        intro ro l v i _ _ h h'
        have hi := (List.getElem?_eq_some_iff.1 h).1
        have hi' := (List.getElem?_eq_some_iff.1 h').1
        rw [queries_length] at hi hi'
        rw [queries_getElem _ _ _ _ _ (by omega) (by omega), Option.some.injEq] at h h'
        exact henc _ _ _ _ (h'.trans h.symm)) (by
        intro ro' i e
        simp only [e]) q 0 ro rfl hb).forks hB (Nat.lt_succ_self _))
    refine ⟨T, fun c hc => ?_, h2⟩
    obtain ⟨ro', e1, ⟨e2, e3⟩, e4⟩ := h1 c hc
    exact ⟨ro', e1, e2, e3, e4⟩
  · intro ro _ i l hl
    refine ⟨by rw [queries_chals hl, hc], List.mem_append_right _ ?_⟩
    rw [Algo'.askAll_asked]
    exact List.mem_of_getElem? hl
  · intro ro l hl
    rw [Algo'.askAll_asked] at hl
    exact hD ro l hl

/-- C96: no prover finds an element and an accepted proof that it lies in the image of the map, unless it does. -/
theorem C96_lmpa_false {q T B c fuel : Nat} (cd : Codec G) (row : σ → List G) (rows : σ → List (List G))
    (Gs : List G) (t : σ → G) (ts : σ → List G) (hA : ∀ s, ∀ r ∈ row s :: rows s, r.length = 2 ^ q)
    (enc : σ → List Event) (henc : ∀ s s' r r', enc s ++ r = enc s' ++ r' → s = s') (hc : ∀ s, chals (enc s) = c)
    (hB : ∀ c : F, Nat.card {v : Vector UInt8 64 // ((leNat v.toList : Nat) : F) = c} ≤ B)
    (P : Algo Event (σ × Lmpa.NoZK F G)) (hT : P.AtMost T) (ro : Hash) (D : Finset (List Event))
    (hD : ∀ ro, ∀ l ∈ P.asked id ro ++ lmpaQueries (plainPen cd.compress) (enc (P.run id ro).1)
      ((P.run id ro).2.L_Vec.take q) ((P.run id ro).2.R_Vec.take q), l ∈ D) :
    chance ro D (fun ro =>
      let s := (P.run id ro).1
      (∃ tr', (P.run id ro).2.verify ⟨cd, ro⟩ fuel ⟨enc s⟩ (row s :: rows s) Gs (2 ^ q) (t s :: ts s) =
        .ok (true, tr')) ∧ ∀ w : List F, w.length = 2 ^ q → dot w (row s) ≠ t s) ≤
    ((T + q) * (2 * B) : Nat) / 2 ^ 512 := by
  refine (chance_mono fun ro h => ?_).trans
    (C96_lmpa_knowledge (fuel := fuel) cd row rows Gs t ts hA enc henc hc hB P hT ro D hD)
  refine ⟨h.1, ?_⟩
  intro s
  rintro ⟨T, -, h1, h2⟩
  exact h.2 _ h1 h2

/-- C96: knowledge soundness of SimpleZK for provers that choose the map and the target. -/
theorem C96_simple_knowledge {q T B c fuel : Nat} (cd : Codec G) (row : σ → List G) (rows : σ → List (List G))
    (Gs : List G) (t : σ → G) (ts : σ → List G) (hA : ∀ s, ∀ r ∈ row s :: rows s, r.length = 2 ^ q)
    (enc : σ → List Event) (henc : ∀ s s' r r', enc s ++ r = enc s' ++ r' → s = s') (hc : ∀ s, chals (enc s) = c)
    (hB : ∀ c : F, Nat.card {v : Vector UInt8 64 // ((leNat v.toList : Nat) : F) = c} ≤ B)
    (P : Algo Event (σ × SimpleZK F G)) (hT : P.AtMost T) (ro : Hash) (D : Finset (List Event))
    (hD : ∀ ro, ∀ l ∈ P.asked id ro ++ simpleQueries (plainPen cd.compress) (enc (P.run id ro).1) (P.run id ro).2.a
      ((P.run id ro).2.no_zk.L_Vec.take q) ((P.run id ro).2.no_zk.R_Vec.take q), l ∈ D) :
    let Acc := fun ro =>
      let s := (P.run id ro).1
      ∃ tr', (P.run id ro).2.verify ⟨cd, ro⟩ fuel ⟨enc s⟩ (row s :: rows s) Gs (2 ^ q) (t s :: ts s) = .ok (true, tr')
    chance ro D (fun ro => Acc ro ∧
      let s := (P.run id ro).1
      ¬ ∃ (β : Fin 2 → F) (T : Fin 2 → LmpaTree F G q),
      (∀ i, ∀ c ∈ (T i).paths, ∃ ro', Reprogrammed (q + 1) ro ro' ∧ Acc ro' ∧ (P.run id ro').1 = s ∧
        let p := (P.run id ro').2
        p.a = (P.run id ro).2.a ∧ simpleBeta F ⟨cd, ro'⟩ (enc s) p.a = β i ∧
        c = (column (p.no_zk.L_Vec.take q) 0, column (p.no_zk.R_Vec.take q) 0,
          lmpaChallenges F ⟨cd, ro'⟩ (simpleLog ⟨cd, ro'⟩ (enc s) p.a) (p.no_zk.L_Vec.take q) (p.no_zk.R_Vec.take q),
          p.no_zk.w)) ∧
      (extractSimple β fun i => (T i).scalars).length = 2 ^ q ∧
      dot (extractSimple β fun i => (T i).scalars) (row s) = t s) ≤
    ((T + (q + 1)) * (2 * B) : Nat) / 2 ^ 512 := by
  intro Acc
  refine (chance_mono fun ro h => ?_).trans (forking_by (M := 2 * B + 1) (d := q + 1) chals P hT
    (fun p => Algo.askAll () (simpleKeys cd (enc p.1) q p.2))
    (fun p => Algo'.askAll_atMost _ _ _ ?_) Acc (fun ro => simpleKeys cd (enc (P.run id ro).1) q (P.run id ro).2)
    (fun i => c + (i + 1)) (fun i j h => by simp only at h; omega) ?_ ro D ?_)
  · refine ⟨h.1, fun hb => h.2 ?_⟩
    obtain ⟨β, T, h1, h2⟩ := simple_extraction cd (row (P.run id ro).1) (rows (P.run id ro).1) Gs (t (P.run id ro).1)
      (ts (P.run id ro).1) (hA _) (enc (P.run id ro).1) (K := fun _ => 2 + 1) (fun _ => le_rfl) (fun ro => (P.run id ro).2)
      (fun ro' => Acc ro' ∧ (P.run id ro').1 = (P.run id ro).1) (by
        rintro ro' ⟨h, e⟩
        simp only [Acc, e] at h
        exact h) ro
      ((branches_fix (fun ro => (P.run id ro).1) _ (by
        intro ro l v i _ _ h h'
        unfold simpleKeys simpleQueries at h h'
        cases i with
        | zero =>
          rw [List.getElem?_cons_zero, Option.some.injEq] at h h'
          exact henc _ _ _ _ (h'.trans h.symm)
        | succ i =>
          rw [List.getElem?_cons_succ] at h h'
          have hi := (List.getElem?_eq_some_iff.1 h).1
          have hi' := (List.getElem?_eq_some_iff.1 h').1
          rw [queries_length] at hi hi'
          rw [queries_getElem _ _ _ _ _ (by omega) (by omega), Option.some.injEq, List.append_assoc] at h h'
          exact henc _ _ _ _ (h'.trans h.symm)) (by
        intro ro' i e
        simp only [e, simpleKeys]) (q + 1) 0 ro rfl hb).forks hB (Nat.lt_succ_self _))
    refine ⟨β, T, fun i c hc => ?_, h2⟩
    obtain ⟨ro', e1, ⟨e2, e3⟩, e4⟩ := h1 i c hc
    exact ⟨ro', e1, e2, e3, e4⟩
  · rw [simpleKeys, simpleQueries, List.length_cons]
    exact Nat.succ_le_succ ((lmpaQueries_length ..).trans (List.length_take_le _ _))
  · intro ro _ i l hl
    refine ⟨by rw [simpleKeys_chals hl, hc], List.mem_append_right _ ?_⟩
    rw [Algo'.askAll_asked]
    exact List.mem_of_getElem? hl
  · intro ro l hl
    rw [Algo'.askAll_asked] at hl
    exact hD ro l hl

/-- C96: the same as `C96_lmpa_false` for SimpleZK. -/
theorem C96_simple_false {q T B c fuel : Nat} (cd : Codec G) (row : σ → List G) (rows : σ → List (List G))
    (Gs : List G) (t : σ → G) (ts : σ → List G) (hA : ∀ s, ∀ r ∈ row s :: rows s, r.length = 2 ^ q)
    (enc : σ → List Event) (henc : ∀ s s' r r', enc s ++ r = enc s' ++ r' → s = s') (hc : ∀ s, chals (enc s) = c)
    (hB : ∀ c : F, Nat.card {v : Vector UInt8 64 // ((leNat v.toList : Nat) : F) = c} ≤ B)
    (P : Algo Event (σ × SimpleZK F G)) (hT : P.AtMost T) (ro : Hash) (D : Finset (List Event))
    (hD : ∀ ro, ∀ l ∈ P.asked id ro ++ simpleQueries (plainPen cd.compress) (enc (P.run id ro).1) (P.run id ro).2.a
      ((P.run id ro).2.no_zk.L_Vec.take q) ((P.run id ro).2.no_zk.R_Vec.take q), l ∈ D) :
    chance ro D (fun ro =>
      let s := (P.run id ro).1
      (∃ tr', (P.run id ro).2.verify ⟨cd, ro⟩ fuel ⟨enc s⟩ (row s :: rows s) Gs (2 ^ q) (t s :: ts s) =
        .ok (true, tr')) ∧ ∀ w : List F, w.length = 2 ^ q → dot w (row s) ≠ t s) ≤
    ((T + (q + 1)) * (2 * B) : Nat) / 2 ^ 512 := by
  refine (chance_mono fun ro h => ?_).trans
    (C96_simple_knowledge (fuel := fuel) cd row rows Gs t ts hA enc henc hc hB P hT ro D hD)
  refine ⟨h.1, ?_⟩
  intro s
  rintro ⟨β, T, -, h1, h2⟩
  exact h.2 _ h1 h2

/-! ### Copy -/

section
variable [DecidableEq F] {m : Nat}
open Copy

omit [DecidableEq F] [DecidableEq G] in
theorem copyHistories_chals {cd : Codec G} {ro : Hash} {log : List Event} {Gs Hs : List G} {Q : G}
    {Us : List (Matrix (Fin (m + 1)) (Fin (m + 1)) F)} {map : Mapping} {Cs : List G} {p : Copy.Proof F} {j : Nat}
    {l : List Event} (h : (copyHistories cd ro log Gs Hs Q Us map Cs p)[j]? = some l) :
    chals l = chals log + 1 + j := by
  cases j with
  | zero =>
    simp only [copyHistories, List.getElem?_cons_zero, Option.some.injEq] at h
    rw [← h, chals_append]; rfl
  | succ j =>
    simp only [copyHistories, List.getElem?_cons_succ] at h
    rw [qesaHistories_chals h, chals_append]
    have : ∀ a, chals [.msg "c_w" a, .chal "alpha" 64] = 1 := fun _ => rfl
    rw [this]; omega

omit [DecidableEq F] in
theorem copyHistories_prefix {cd : Codec G} {ro : Hash} {log : List Event} {Gs Hs : List G} {Q : G}
    {Us : List (Matrix (Fin (m + 1)) (Fin (m + 1)) F)} {map : Mapping} {Cs : List G} {p : Copy.Proof F} {j : Nat}
    {l : List Event} (h : (copyHistories cd ro log Gs Hs Q Us map Cs p)[j]? = some l) :
    ∃ t, l = log ++ t ∧ t.length = copyRest j := by
  classical
  have hl := copyHistories_length h
  cases j with
  | zero =>
    simp only [copyHistories, List.getElem?_cons_zero, Option.some.injEq] at h
    exact ⟨_, h.symm, rfl⟩
  | succ j =>
    simp only [copyHistories, List.getElem?_cons_succ] at h
    obtain ⟨t, h1, -⟩ := qesaHistories_shape h
    rw [List.append_assoc] at h1
    refine ⟨_, h1, ?_⟩
    rw [h1, List.length_append] at hl
    omega

/-- C96: soundness of Copy for provers that choose the equations, the commitments and what they contain. If there is no
relation between the generators, no prover is accepted with a commitment `C_w` to a vector `v` on `G` with first component
one that violates one of the user's equations or does not hold the messages of the commitments in their slots, and a second
commitment on `H`, but with a chance of `(T + q + 6) max(m + 7, N) B / 2^512`, where `N` bounds the number of commitments. -/
theorem C96_copy_false {q T B N c : Nat} (hq : m + 3 = 2 ^ q) (cd : Codec G) (Gs Hs : List G)
    (hG : Gs.length = m + 3) (hH : Hs.length = m + 3) (Q : G)
    (hind : ∀ r : List F × List F × F, ¬ IsRelation Gs Hs Q r)
    (Us : σ → List (Matrix (Fin (m + 1)) (Fin (m + 1)) F)) (map : σ → Mapping)
    (coms : σ → List (List Nat × List F × F)) (Cs : σ → List G) (ws : σ → Nat)
    (hcom : ∀ s, (coms s).mapM (fun c => Copy.commit Gs c.1 c.2.1 c.2.2) = .ok (Cs s))
    (hn : m + 3 < 65536) (hws : ∀ s, ws s < 65536) (hs : ∀ s, (coms s).length ≤ 65536)
    (hN : ∀ s, (coms s).length ≤ N)
    (hmap : ∀ s, computeMapping (m + 3) (ws s) ((coms s).map (·.1)) = .ok (map s))
    (hsets : ∀ s, ∀ c ∈ coms s, c.1.Pairwise (· < ·)) (hi : ∀ s, ∀ c ∈ coms s, ∀ i ∈ c.1, i < m + 1)
    (h0 : ∀ s, ∀ c ∈ coms s, 0 ∉ c.1)
    (hU : ∀ s, ∀ U ∈ Us s, ∀ i j : Fin (m + 1), (∃ c ∈ coms s, i.val ∈ c.1 ∨ j.val ∈ c.1) → U i j = 0)
    (hfit : ∀ s, (Us s).length + (map s).unique_commitment_indices.length ≤ m + 3)
    (enc : σ → List Event) (henc : Function.Injective enc) (hc : ∀ s, chals (enc s) = c)
    (hB : ∀ c : F, Nat.card {v : Vector UInt8 64 // ((leNat v.toList : Nat) : F) = c} ≤ B)
    (A : Algo Event (σ × Copy.Proof F)) (hT : A.AtMost T) (ro : Hash) (D : Finset (List Event))
    (hD : ∀ ro, ∀ l ∈ A.asked id ro ++ (let s := (A.run id ro).1
      copyHistories cd ro (enc s) Gs Hs Q (Us s) (map s) (Cs s) (A.run id ro).2), l ∈ D) :
    chance ro D (fun ro =>
      let s := (A.run id ro).1
      let p := (A.run id ro).2
      (∃ tr', p.verify ⟨cd, ro⟩ ⟨enc s⟩ Gs Hs Q ⟨(Us s).map rows⟩ (map s) (Cs s) = .ok (true, tr')) ∧
      (∃ h : List F, h.length = m + 3 ∧ cd.decompress p.inner.c_prime_prime_w = some (dot h Hs)) ∧
      ∃ (v : Fin (m + 1) → F) (r0 r1 : F) (h : List F), h.length = m + 3 ∧
        cd.decompress p.C_w = some (dot (List.ofFn v ++ [r0, r1]) Gs + dot h Hs) ∧ v 0 = 1 ∧
        ¬ CopyHolds (Us s) (map s) ((coms s).map (·.2.1)).flatten v) ≤
    ((T + (q + 6)) * (max (m + 7) N * B) : Nat) / 2 ^ 512 := by
  have hC : ∀ s, (Cs s).length = ((coms s).map (·.1)).length := by
    intro s
    rw [(commits_spec Gs (coms s) (Cs s) m hG (hcom s)).2, List.length_map, List.length_map]
  set key : Hash → List (List Event) := fun ro => copyHistories cd ro (enc (A.run id ro).1) Gs Hs Q (Us (A.run id ro).1)
    (map (A.run id ro).1) (Cs (A.run id ro).1) (A.run id ro).2 with hkey
  set Acc : Hash → Prop := fun ro => (∃ tr', (A.run id ro).2.verify ⟨cd, ro⟩ ⟨enc (A.run id ro).1⟩ Gs Hs Q
      ⟨(Us (A.run id ro).1).map rows⟩ (map (A.run id ro).1) (Cs (A.run id ro).1) = .ok (true, tr')) ∧
    ∃ h : List F, h.length = m + 3 ∧ cd.decompress (A.run id ro).2.inner.c_prime_prime_w = some (dot h Hs) with hAcc
  refine (chance_mono fun ro h => ?_).trans (forking_by (M := max (m + 7) N * B + 1) (d := q + 6) chals A hT
    (fun p => copyVerifierQueries cd (enc p.1) Gs Hs Q (Us p.1) (map p.1) (Cs p.1) (q + 1) p.2)
    (fun p => copyVerifierQueries_atMost cd _ Gs Hs Q _ _ _ _ p.2) Acc key (fun i => c + 1 + i)
    (fun i j h => by simp only at h; omega) ?_ ro D ?_)
  · obtain ⟨h1, h2, v, r0, r1, h, hh, hd, hv, hno⟩ := h
    refine ⟨⟨h1, h2⟩, fun hb => ?_⟩
    set s := (A.run id ro).1 with hs0
    have run2 : ∀ ro, (A.andThen fun p => .done p.2).run id ro = (A.run id ro).2 := by
      intro ro
      rw [Algo.run_andThen]
      rfl
    obtain ⟨v', r0', r1', h', hh', hd', hS⟩ := copy_sound_forks hq cd Gs Hs hG hH Q hind (Us s) (map s) (coms s) (Cs s)
      (hcom s) hn (hws s) (hs s) (hmap s) (hi s) (enc s) hB
      (lt_of_le_of_lt (Nat.mul_le_mul_right _ (max_le_max le_rfl (hN s))) (Nat.lt_succ_self _))
      (A.andThen fun p => .done p.2) (Acc := fun ro => Acc ro ∧ (A.run id ro).1 = s)
      (by
        rintro ro' ⟨h, e⟩
        rw [run2]
        simp only [hAcc, e] at h
        exact h.1)
      (by
        rintro ro' ⟨h, e⟩
        rw [run2]
        exact h.2) ro
      (branches_fix (fun ro => (A.run id ro).1) s (by
        intro ro l v i _ _ h h'
        obtain ⟨t, e1, e2⟩ := copyHistories_prefix h
        obtain ⟨t', e1', e2'⟩ := copyHistories_prefix h'
        exact henc (List.append_inj' (e1'.symm.trans e1) (e2'.trans e2.symm)).1) (by
        intro ro' i e
        simp only [run2, hkey, e]) (q + 6) 0 ro rfl hb)
    rw [run2, hd, Option.some.injEq] at hd'
    obtain ⟨e, -⟩ := unique_opening Gs Hs Q hind _ _ _ _ (by simp [hG]) (hh.trans hH.symm) (by simp [hG])
      (hh'.trans hH.symm) hd'
    have e := List.ofFn_injective (List.append_inj_left e (by simp))
    obtain ⟨S, hS1, hS2⟩ := copy_few hn (hws s) (hs s) (hmap s) (hsets s) (hi s) (h0 s) (hU s) (hfit s) v hv hno
    obtain ⟨α, hα, hdr⟩ := hS S hS1
    rw [← e] at hdr
    exact hα (hS2 α fun h1 i hi => (C89_drift_one (m + 3) _ _ h1).1 hdr i hi)
  · intro ro h i l hl
    obtain ⟨⟨tr', h⟩, -⟩ := h
    refine ⟨by rw [copyHistories_chals hl, hc], List.mem_append_right _ ?_⟩
    rw [copyVerifierQueries_asked]
    obtain ⟨-, k, -, hk, h⟩ := copy_accepted hG hn (hws _) (by simpa using hs _) (hmap _) (by simpa using hi _) (hC _) h
    rw [hk] at h
    have hr := qesa_rounds hq hG hH h
    simp only [copyInner] at hr
    rw [List.take_of_length_le (by
      simp [copyHistories, copyInner, qesaHistories, almHistories, ipaHistories]; omega)]
    exact List.mem_of_getElem? hl
  · intro ro l hl
    apply hD ro
    rw [copyVerifierQueries_asked] at hl
    rcases List.mem_append.1 hl with hl | hl
    · exact List.mem_append_left _ hl
    · exact List.mem_append_right _ (List.mem_of_mem_take hl)

end

/-! ### The domain, and examples -/

/-- The histories queried by an algorithm and afterwards by another lie in a finite set. -/
theorem domain_andThen {α : Type} (A : Algo Event α) (V : α → Algo Event Unit) :
    ∃ D : Finset (List Event), ∀ ro, ∀ l ∈ A.asked id ro ++ (V (A.run id ro)).asked id ro, l ∈ D := by
  obtain ⟨D, hD⟩ := exists_domain id (fun _ (_ : Unit) => ([] : List (List Event))) (by
    intro p
    simp) (A.andThen V)
  refine ⟨D, fun ro l hl => ?_⟩
  have := (hD ro).1 l
  rw [Algo.asked_andThen] at this
  simpa using this hl

omit [Field F] in
/-- C96: for every prover of the inner-product argument there is a finite set of histories as above. -/
theorem C96_ipa_domain (enc : σ → List Event) (n : Nat) (A : Algo Event (σ × Ipa.NoZK F)) :
    ∃ D : Finset (List Event), ∀ ro, ∀ l ∈ A.asked id ro ++ ipaHistories (enc (A.run id ro).1) n (A.run id ro).2,
      l ∈ D := by
  obtain ⟨D, hD⟩ := domain_andThen A fun p => Algo.askAll () (ipaHistories (enc p.1) n p.2)
  exact ⟨D, fun ro l hl => hD ro l (by rwa [Algo'.askAll_asked])⟩

omit [DecidableEq G] in
/-- C96: for every prover of AlmZK there is a finite set of histories as above. -/
theorem C96_alm_domain (cd : Codec G) (enc : σ → List Event) (n : Nat) (Q : G) (C_w : σ → G) (t : σ → F)
    (A : Algo Event (σ × AlmZK F)) :
    ∃ D : Finset (List Event), ∀ ro, ∀ l ∈ A.asked id ro ++ almHistories cd ro (enc (A.run id ro).1) n Q
      (C_w (A.run id ro).1) (t (A.run id ro).1) (A.run id ro).2, l ∈ D := by
  obtain ⟨D, hD⟩ := domain_andThen A fun p => almVerifierQueries cd (enc p.1) n (p.2.NoZK.L_vec.length + 1) Q (C_w p.1)
    (t p.1) p.2
  refine ⟨D, fun ro l hl => hD ro l ?_⟩
  rwa [almVerifierQueries_asked, List.take_of_length_le (by simp [almHistories, ipaHistories])]

omit [DecidableEq G] in
/-- C96: for every prover of QESA there is a finite set of histories as above. -/
theorem C96_qesa_domain {m k : Nat} (cd : Codec G) (enc : σ → List Event) (Gs Hs : List G) (Q : G)
    (Ms : σ → Fin k → Matrix (Fin m) (Fin m) F) (A : Algo Event (σ × Zk.Proof F)) :
    ∃ D : Finset (List Event), ∀ ro, ∀ l ∈ A.asked id ro ++ qesaHistories cd ro (enc (A.run id ro).1) Gs Hs Q
      (Ms (A.run id ro).1) (A.run id ro).2.inner, l ∈ D := by
  obtain ⟨D, hD⟩ := domain_andThen A fun p => qesaVerifierQueries cd (enc p.1) Gs Hs Q (Ms p.1)
    (p.2.inner.alm_zk.NoZK.L_vec.length + 1) p.2.inner
  refine ⟨D, fun ro l hl => hD ro l ?_⟩
  rwa [qesaVerifierQueries_asked, List.take_of_length_le (by simp [qesaHistories, almHistories, ipaHistories])]

omit [DecidableEq G] in
/-- C96: for every prover of Copy there is a finite set of histories as above. -/
theorem C96_copy_domain {m : Nat} (cd : Codec G) (enc : σ → List Event) (Gs Hs : List G) (Q : G)
    (Us : σ → List (Matrix (Fin (m + 1)) (Fin (m + 1)) F)) (map : σ → Copy.Mapping) (Cs : σ → List G)
    (A : Algo Event (σ × Copy.Proof F)) :
    ∃ D : Finset (List Event), ∀ ro, ∀ l ∈ A.asked id ro ++ (let s := (A.run id ro).1
      copyHistories cd ro (enc s) Gs Hs Q (Us s) (map s) (Cs s) (A.run id ro).2), l ∈ D := by
  obtain ⟨D, hD⟩ := domain_andThen A fun p => copyVerifierQueries cd (enc p.1) Gs Hs Q (Us p.1) (map p.1) (Cs p.1)
    (p.2.inner.alm_zk.NoZK.L_vec.length + 1) p.2
  refine ⟨D, fun ro l hl => hD ro l ?_⟩
  rwa [copyVerifierQueries_asked,
    List.take_of_length_le (by simp [copyHistories, copyInner, qesaHistories, almHistories, ipaHistories])]

omit [Field F] [AddCommGroup G] [Module F G] [DecidableEq G] in
/-- C96: for every prover of the linear-map argument there is a finite set of histories as above. -/
theorem C96_lmpa_domain (cd : Codec G) (enc : σ → List Event) (q : Nat) (P : Algo Event (σ × Lmpa.NoZK F G)) :
    ∃ D : Finset (List Event), ∀ ro, ∀ l ∈ P.asked id ro ++ lmpaQueries (plainPen cd.compress) (enc (P.run id ro).1)
      ((P.run id ro).2.L_Vec.take q) ((P.run id ro).2.R_Vec.take q), l ∈ D := by
  obtain ⟨D, hD⟩ := domain_andThen P fun p => Algo.askAll () (lmpaQueries (plainPen cd.compress) (enc p.1)
    (p.2.L_Vec.take q) (p.2.R_Vec.take q))
  exact ⟨D, fun ro l hl => hD ro l (by rwa [Algo'.askAll_asked])⟩

omit [Field F] [AddCommGroup G] [Module F G] [DecidableEq G] in
/-- C96: for every prover of SimpleZK there is a finite set of histories as above. -/
theorem C96_simple_domain (cd : Codec G) (enc : σ → List Event) (q : Nat) (P : Algo Event (σ × SimpleZK F G)) :
    ∃ D : Finset (List Event), ∀ ro, ∀ l ∈ P.asked id ro ++ simpleQueries (plainPen cd.compress) (enc (P.run id ro).1)
      (P.run id ro).2.a ((P.run id ro).2.no_zk.L_Vec.take q) ((P.run id ro).2.no_zk.R_Vec.take q), l ∈ D := by
  obtain ⟨D, hD⟩ := domain_andThen P fun p => Algo.askAll () (simpleQueries (plainPen cd.compress) (enc p.1) p.2.a
    (p.2.no_zk.L_Vec.take q) (p.2.no_zk.R_Vec.take q))
  exact ⟨D, fun ro l hl => hD ro l (by rwa [Algo'.askAll_asked])⟩

/-- The prover that asks for `alpha` first and then chooses the statement. -/
def lateProver [DecidableEq F] (log : List Event) (g h Q : G) : Algo Event ((G × F) × Ipa.NoZK F) :=
  .ask (log ++ headLog 1) fun v =>
    let α : F := (leNat v.toList : Nat)
    .done ((g + h + α⁻¹ • Q, 0), ⟨[], [], 1, 1⟩)

/-- C96: the statement must be hashed. If the verifier is started with the same transcript for all statements, one query
is enough to find a false statement with an accepted proof, unless `alpha` is zero; cf. C59. -/
theorem C96_ipa_unhashed [DecidableEq F] (cd : Codec G) (g h Q : G)
    (hind : ∀ r : List F × List F × F, ¬ IsRelation [g] [h] Q r) (log : List Event) :
    let A := lateProver (F := F) log g h Q
    A.AtMost 1 ∧ ∀ ro, ipaAlpha F ro log 1 ≠ 0 →
      let s := (A.run id ro).1
      (∃ tr', (A.run id ro).2.verify ⟨cd, ro⟩ ⟨log⟩ [g] [h] Q (2 ^ 0) s.1 s.2 = .ok (true, tr')) ∧
      ¬ ∃ a b : List F, a.length = 2 ^ 0 ∧ b.length = 2 ^ 0 ∧ s.1 = dot a [g] + dot b [h] + s.2 • Q ∧ dot a b = s.2 := by
  refine ⟨fun _ => trivial, fun ro hα => ?_⟩
  have hr : (lateProver (F := F) log g h Q).run id ro =
      ((g + h + (ipaAlpha F ro log 1)⁻¹ • Q, 0), ⟨[], [], 1, 1⟩) := by
    simp [lateProver, Algo.run, ipaAlpha, squeeze]
  rw [hr]
  constructor
  · have := C19_ipa_verdict (⟨cd, ro⟩ : Ctx G) (⟨[], [], 1, 1⟩ : Ipa.NoZK F) ⟨log⟩ [g] [h] Q 1
      (g + h + (ipaAlpha F ro log 1)⁻¹ • Q) 0 [] [] rfl rfl ⟨by simp, by simp, by simp, by simp, by simp, by simp⟩
    refine ⟨⟨log ++ headLog 1⟩, this.trans ?_⟩
    rw [decide_eq_true]
    · simp [roundsLog]
    refine (gap_nil (1 : F) 1 _ 0 [] [] [g] [h] _).2 ?_
    simp only [List.getD_cons_zero, one_smul, one_mul, mul_zero, zero_smul, sub_zero]
  · rintro ⟨a, b, ha, hb, e, -⟩
    have h1 : g + h + (ipaAlpha F ro log 1)⁻¹ • Q = dot [(1 : F)] [g] + dot [(1 : F)] [h] + (ipaAlpha F ro log 1)⁻¹ • Q := by
      simp [dot_cons]
    obtain ⟨-, -, e3⟩ := opening_unique (n := 1) (Gs := [g]) (Hs := [h]) (Q := Q) rfl rfl hind (u := [1]) rfl ha (v := [1]) rfl hb (h1.symm.trans e)
    exact inv_ne_zero hα e3

end
section
open Toy
set_option exponentiation.threshold 600

/-- The statement `(P, t)` as bytes. -/
def claimBytes (cd : Codec (Fin 9 → K)) (s : (Fin 9 → K) × K) : List Event :=
  [.msg "P" (cd.compress s.1), .msg "t" [s.2.val.toUInt8]]

theorem claimBytes_injective (cd : Codec (Fin 9 → K)) : Function.Injective (claimBytes cd) := by
  rintro ⟨P, t⟩ ⟨P', t'⟩ h
  simp only [claimBytes, List.cons.injEq, Event.msg.injEq, true_and, and_true] at h
  obtain ⟨h1, h2⟩ := h
  refine Prod.ext (compress_inj cd h1) ?_
  exact (by decide +kernel : ∀ t t' : K, t.val.toUInt8 = t'.val.toUInt8 → t = t') t t' h2

/-- C96: a prover with `T` queries that chooses a claim about four independent generators, hashed by the verifier, is
accepted with a false claim with a chance of at most `3 (T + 3) (1/101 + 2⁻⁵¹²)`. -/
example (cd : Codec (Fin 9 → K)) {T : Nat} (A : Algo Event (((Fin 9 → K) × K) × Ipa.NoZK K)) (hT : A.AtMost T)
    (ro : Hash) : ∃ D : Finset (List Event), chance ro D (fun ro =>
      let s := (A.run id ro).1
      (∃ tr', (A.run id ro).2.verify ⟨cd, ro⟩ ⟨[.msg "P" (cd.compress s.1), .msg "t" [s.2.val.toUInt8]]⟩ unitG unitH
        unitQ 4 s.1 s.2 = .ok (true, tr')) ∧
      ¬ ∃ a b : List K, a.length = 4 ∧ b.length = 4 ∧ s.1 = dot a unitG + dot b unitH + s.2 • unitQ ∧ dot a b = s.2) ≤
    ((T + 3) * 3 : Nat) * (1 / 101 + 1 / 2 ^ 512) := by
  obtain ⟨D, hD⟩ := C96_ipa_domain (claimBytes cd) (2 ^ 2) A
  refine ⟨D, ?_⟩
  refine (C96_ipa_false (q := 2) (c := 0) cd unitG unitH rfl rfl unitQ Prod.fst Prod.snd (claimBytes cd) (claimBytes_injective cd)
    (fun _ => rfl) (C67_scalars 101) A hT ro D hD unit_no_relation).trans ?_
  have := bound_aux ((T + 3) * 3) 101 (2 ^ 512) (by positivity)
  rw [← Nat.mul_assoc]
  exact_mod_cast this

/-- C96: the same choice without hashing. For every hash function with `alpha ≠ 0` the late prover is accepted with a
false claim. -/
example (cd : Codec (Fin 3 → K)) (ro : Hash) (hα : ipaAlpha K ro [] 1 ≠ 0) :
    let s := ((lateProver (F := K) [] ![1, 0, 0] ![0, 1, 0] ![0, 0, 1]).run id ro)
    ∃ tr', s.2.verify ⟨cd, ro⟩ ⟨[]⟩ [![1, 0, 0]] [![0, 1, 0]] ![0, 0, 1] 1 s.1.1 s.1.2 = .ok (true, tr') :=
  ((C96_ipa_unhashed cd ![1, 0, 0] ![0, 1, 0] ![0, 0, 1] (by
    rintro ⟨u, v, c⟩ ⟨h1, h2, h4, h3⟩
    match u, h1, v, h2 with
    | [a], _, [b], _ =>
      have e0 := congrFun h3 0
      have e1 := congrFun h3 1
      have e2 := congrFun h3 2
      simp [dot_cons] at e0 e1 e2
      simp [e0, e1, e2] at h4) []).2 ro hα).1

end
end Qesa.Props
