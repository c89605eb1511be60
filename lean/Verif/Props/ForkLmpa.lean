import Verif.Proofs.LmpaFork
import Verif.Props.Fork
import Verif.Props.LmpaOracle
/-
Rewinding in the random-oracle model, for arbitrary provers: knowledge soundness of the linear-map arguments (C95).
-/
namespace Qesa.Props
open Qesa Spec Lmpa
variable {F G : Type} [Field F] [AddCommGroup G] [Module F G]

section
variable [DecidableEq G]

omit [Field F] [AddCommGroup G] [Module F G] [DecidableEq G] in
theorem queries_chals {cd : Codec G} {Ls Rs : List (List G)} {log l : List Event} {i : Nat}
    (h : (lmpaQueries (plainPen cd.compress) log Ls Rs)[i]? = some l) : chals l = chals log + (i + 1) := by
  have hi : i < min Ls.length Rs.length := by
    rw [← queries_length (plainPen cd.compress) Ls Rs log]
    exact (List.getElem?_eq_some_iff.1 h).1
  rw [queries_getElem _ _ _ _ _ (by omega) (by omega), Option.some.injEq] at h
  rw [← h, chals_append, chals_rounds, List.length_take, List.length_take]
  omega

/-! ### NoZK -/

/-- C95: a prover of the linear-map argument that is accepted can be rewound at all challenges. -/
theorem C95_lmpa_rewinding {q T M fuel : Nat} (cd : Codec G) (A : List (List G))
    (Gs t : List G) (log : List Event)
    (P : Algo Event (Lmpa.NoZK F G)) (hT : P.AtMost T) (ro : Hash) (D : Finset (List Event))
    (hD : ∀ ro, ∀ l ∈ P.asked id ro ++ lmpaQueries (plainPen cd.compress) log ((P.run id ro).L_Vec.take q)
      ((P.run id ro).R_Vec.take q), l ∈ D) :
    let Acc := fun ro => ∃ tr', (P.run id ro).verify ⟨cd, ro⟩ fuel ⟨log⟩ A Gs (2 ^ q) t = .ok (true, tr')
    chance ro D (fun ro => Acc ro ∧ ¬ Branches Acc (fun ro i => (lmpaQueries (plainPen cd.compress) log
      ((P.run id ro).L_Vec.take q) ((P.run id ro).R_Vec.take q))[i]?) M q 0 ro) ≤
    ((T + q) * (M - 1) : Nat) / 2 ^ 512 := by
  intro Acc
  refine forking_by chals P hT (fun p => Algo.askAll () (lmpaQueries (plainPen cd.compress) log (p.L_Vec.take q)
      (p.R_Vec.take q)))
    (fun p => Algo'.askAll_atMost _ _ _ ((lmpaQueries_length ..).trans (List.length_take_le _ _))) Acc
    (fun ro => lmpaQueries (plainPen cd.compress) log ((P.run id ro).L_Vec.take q) ((P.run id ro).R_Vec.take q))
    (fun i => chals log + (i + 1)) (fun i j h => by simp only at h; omega) ?_ ro D ?_
  · intro ro _ i l hl
    refine ⟨queries_chals hl, List.mem_append_right _ ?_⟩
    rw [Algo'.askAll_asked]
    exact List.mem_of_getElem? hl
  · intro ro l hl
    rw [Algo'.askAll_asked] at hl
    exact hD ro l hl

/-- A prover that branches delivers; `Acc` may contain further conditions. -/
theorem lmpa_extraction {q fuel : Nat} (cd : Codec G) (row : List G) (rows : List (List G)) (Gs : List G)
    (t : G) (ts : List G) (hA : ∀ r ∈ row :: rows, r.length = 2 ^ q) (log : List Event)
    {K : Nat → Nat} (hK : ∀ i, 3 ≤ K i) (P : Hash → Lmpa.NoZK F G) (Acc : Hash → Prop) (hAcc : ∀ ro, Acc ro → ∃ tr', (P ro).verify ⟨cd, ro⟩ fuel ⟨log⟩
      (row :: rows) Gs (2 ^ q) (t :: ts) = .ok (true, tr')) (ro : Hash)
    (h : Forks (scalarOf F) Acc (fun ro i => (lmpaQueries (plainPen cd.compress) log
      ((P ro).L_Vec.take q) ((P ro).R_Vec.take q))[i]?) K q 0 ro) :
    ∃ T : LmpaTree F G q,
      (∀ c ∈ T.paths, ∃ ro', Reprogrammed q ro ro' ∧ Acc ro' ∧
        let p := P ro'
        c = (column (p.L_Vec.take q) 0, column (p.R_Vec.take q) 0,
          lmpaChallenges F ⟨cd, ro'⟩ log (p.L_Vec.take q) (p.R_Vec.take q), p.w)) ∧
      (extractLmpa T.scalars).length = 2 ^ q ∧ dot (extractLmpa T.scalars) row = t := by
  have hrow := hA row List.mem_cons_self
  have hacc : ∀ ro, Acc ro → Rounds q (P ro) ∧
      lmpaGap (plainPen cd.compress) id ro log q row t (P ro) = 0 := by
    intro ro hr
    obtain ⟨tr', hv⟩ := hAcc ro hr
    exact lmpa_accepted (F := F) ⟨cd, ro⟩ ⟨log⟩ tr' row rows Gs t ts hA _ hv
  obtain ⟨T, h1, h2⟩ := lin_tree cd q (fun ro => (P ro).L_Vec.take q) (fun ro => (P ro).R_Vec.take q)
    (fun ro => (P ro).w) (fun _ => log) (acc := Acc) 0 hK
    (fun ro ha => by
      obtain ⟨⟨h1, h2, -⟩, -⟩ := hacc ro ha
      simp [h1, h2])
    (fun ro j _ => by rw [Nat.zero_add]) (fun _ _ _ _ _ _ _ _ => rfl) q 0 ro rfl h row t hrow (by
      intro ro' ha' _
      obtain ⟨-, hg⟩ := hacc ro' ha'
      simp only [lmpaGap, sub_eq_zero, List.map_id] at hg
      exact hg)
  refine ⟨T, fun c hc => ?_, C43_lmpa_special_soundness T h1 row hrow t fun c hc => (h2 c hc).1⟩
  obtain ⟨-, ro', e1, e2, -, e3⟩ := h2 c hc
  refine ⟨ro', e1, e2, ?_⟩
  dsimp only
  rw [e3, ← lmpaChallenges_queries]
  rfl

/-- C95: a prover that can be rewound delivers. All conversations of the tree come from accepted runs of the prover
with hash functions that differ in at most `q` answers. From their scalars the extractor of C43 computes a pre-image
of the first entry of the target under the first row. -/
theorem C95_lmpa_extraction {q B M fuel : Nat} (cd : Codec G) (row : List G) (rows : List (List G)) (Gs : List G)
    (t : G) (ts : List G) (hA : ∀ r ∈ row :: rows, r.length = 2 ^ q) (log : List Event)
    (hB : ∀ c : F, Nat.card {v : Vector UInt8 64 // ((leNat v.toList : Nat) : F) = c} ≤ B) (hM : 2 * B < M)
    (P : Algo Event (Lmpa.NoZK F G)) (ro : Hash) :
    let Acc := fun ro => ∃ tr', (P.run id ro).verify ⟨cd, ro⟩ fuel ⟨log⟩ (row :: rows) Gs (2 ^ q) (t :: ts) =
      .ok (true, tr')
    Branches Acc (fun ro i => (lmpaQueries (plainPen cd.compress) log
      ((P.run id ro).L_Vec.take q) ((P.run id ro).R_Vec.take q))[i]?) M q 0 ro →
    ∃ T : LmpaTree F G q,
      (∀ c ∈ T.paths, ∃ ro', Reprogrammed q ro ro' ∧ Acc ro' ∧
        let p := P.run id ro'
        c = (column (p.L_Vec.take q) 0, column (p.R_Vec.take q) 0,
          lmpaChallenges F ⟨cd, ro'⟩ log (p.L_Vec.take q) (p.R_Vec.take q), p.w)) ∧
      (extractLmpa T.scalars).length = 2 ^ q ∧ dot (extractLmpa T.scalars) row = t :=
  fun h => lmpa_extraction cd row rows Gs t ts hA log (K := fun _ => 2 + 1) (fun _ => le_rfl)
    (fun ro => P.run id ro) _ (fun _ h => h) ro (h.forks hB hM)

/-- C95: knowledge soundness of the linear-map argument in the random-oracle model. Whatever the prover is, for at most
`2 B (T + q)` out of `2 ^ 512` hash functions it is accepted without a tree of conversations, obtained by rewinding it,
from which the extractor of C43 computes a pre-image of the first entry of the target under the first row. -/
theorem C95_lmpa_knowledge {q T B fuel : Nat} (cd : Codec G) (row : List G) (rows : List (List G)) (Gs : List G)
    (t : G) (ts : List G) (hA : ∀ r ∈ row :: rows, r.length = 2 ^ q) (log : List Event)
    (hB : ∀ c : F, Nat.card {v : Vector UInt8 64 // ((leNat v.toList : Nat) : F) = c} ≤ B)
    (P : Algo Event (Lmpa.NoZK F G)) (hT : P.AtMost T) (ro : Hash) (D : Finset (List Event))
    (hD : ∀ ro, ∀ l ∈ P.asked id ro ++ lmpaQueries (plainPen cd.compress) log ((P.run id ro).L_Vec.take q)
      ((P.run id ro).R_Vec.take q), l ∈ D) :
    let Acc := fun ro => ∃ tr', (P.run id ro).verify ⟨cd, ro⟩ fuel ⟨log⟩ (row :: rows) Gs (2 ^ q) (t :: ts) =
      .ok (true, tr')
    chance ro D (fun ro => Acc ro ∧ ¬ ∃ T : LmpaTree F G q,
      (∀ c ∈ T.paths, ∃ ro', Reprogrammed q ro ro' ∧ Acc ro' ∧
        let p := P.run id ro'
        c = (column (p.L_Vec.take q) 0, column (p.R_Vec.take q) 0,
          lmpaChallenges F ⟨cd, ro'⟩ log (p.L_Vec.take q) (p.R_Vec.take q), p.w)) ∧
      (extractLmpa T.scalars).length = 2 ^ q ∧ dot (extractLmpa T.scalars) row = t) ≤
    ((T + q) * (2 * B) : Nat) / 2 ^ 512 := by
  intro Acc
  refine (chance_mono fun ro h => ?_).trans
    (C95_lmpa_rewinding (M := 2 * B + 1) (fuel := fuel) cd (row :: rows) Gs (t :: ts) log P hT ro D hD)
  exact ⟨h.1, fun hb => h.2 (C95_lmpa_extraction cd row rows Gs t ts hA log hB (Nat.lt_succ_self _) P ro hb)⟩

/-! ### SimpleZK -/

/-- The histories behind the challenges of a proof. -/
def simpleKeys (cd : Codec G) (log : List Event) (q : Nat) (p : SimpleZK F G) : List (List Event) :=
  simpleQueries (plainPen cd.compress) log p.a (p.no_zk.L_Vec.take q) (p.no_zk.R_Vec.take q)

omit [Field F] [AddCommGroup G] [Module F G] [DecidableEq G] in
theorem simpleKeys_chals {cd : Codec G} {log l : List Event} {q i : Nat} {p : SimpleZK F G}
    (h : (simpleKeys cd log q p)[i]? = some l) : chals l = chals log + (i + 1) := by
  unfold simpleKeys simpleQueries at h
  cases i with
  | zero =>
    rw [List.getElem?_cons_zero, Option.some.injEq] at h
    rw [← h, chals_append, chals_first]
  | succ i =>
    rw [List.getElem?_cons_succ] at h
    rw [queries_chals h, chals_append, chals_first]
    omega

/-- C95: a prover of SimpleZK that is accepted can be rewound at all challenges. -/
theorem C95_simple_rewinding {q T M fuel : Nat} (cd : Codec G) (A : List (List G)) (Gs t : List G) (log : List Event)
    (P : Algo Event (SimpleZK F G)) (hT : P.AtMost T) (ro : Hash) (D : Finset (List Event))
    (hD : ∀ ro, ∀ l ∈ P.asked id ro ++ simpleQueries (plainPen cd.compress) log (P.run id ro).a
      ((P.run id ro).no_zk.L_Vec.take q) ((P.run id ro).no_zk.R_Vec.take q), l ∈ D) :
    let Acc := fun ro => ∃ tr', (P.run id ro).verify ⟨cd, ro⟩ fuel ⟨log⟩ A Gs (2 ^ q) t = .ok (true, tr')
    chance ro D (fun ro => Acc ro ∧ ¬ Branches Acc (fun ro i => (simpleQueries (plainPen cd.compress) log
      (P.run id ro).a ((P.run id ro).no_zk.L_Vec.take q) ((P.run id ro).no_zk.R_Vec.take q))[i]?) M (q + 1) 0 ro) ≤
    ((T + (q + 1)) * (M - 1) : Nat) / 2 ^ 512 := by
  intro Acc
  refine forking_by chals P hT (fun p => Algo.askAll () (simpleKeys cd log q p))
    (fun p => Algo'.askAll_atMost _ _ _ ?_) Acc (fun ro => simpleKeys cd log q (P.run id ro))
    (fun i => chals log + (i + 1)) (fun i j h => by simp only at h; omega) ?_ ro D ?_
  · rw [simpleKeys, simpleQueries, List.length_cons]
    exact Nat.succ_le_succ ((lmpaQueries_length ..).trans (List.length_take_le _ _))
  · intro ro _ i l hl
    refine ⟨simpleKeys_chals hl, List.mem_append_right _ ?_⟩
    rw [Algo'.askAll_asked]
    exact List.mem_of_getElem? hl
  · intro ro l hl
    rw [Algo'.askAll_asked] at hl
    exact hD ro l hl

/-- A prover of SimpleZK that branches delivers; `Acc` may contain further conditions. -/
theorem simple_extraction {q fuel : Nat} (cd : Codec G) (row : List G) (rows : List (List G)) (Gs : List G)
    (t : G) (ts : List G) (hA : ∀ r ∈ row :: rows, r.length = 2 ^ q) (log : List Event)
    {K : Nat → Nat} (hK : ∀ i, 3 ≤ K i) (P : Hash → SimpleZK F G) (Acc : Hash → Prop) (hAcc : ∀ ro, Acc ro → ∃ tr', (P ro).verify ⟨cd, ro⟩ fuel ⟨log⟩
      (row :: rows) Gs (2 ^ q) (t :: ts) = .ok (true, tr')) (ro : Hash)
    (h : Forks (scalarOf F) Acc (fun ro i => (simpleQueries (plainPen cd.compress) log
      (P ro).a ((P ro).no_zk.L_Vec.take q) ((P ro).no_zk.R_Vec.take q))[i]?) K (q + 1) 0 ro) :
    ∃ (β : Fin 2 → F) (T : Fin 2 → LmpaTree F G q),
      (∀ i, ∀ c ∈ (T i).paths, ∃ ro', Reprogrammed (q + 1) ro ro' ∧ Acc ro' ∧
        let p := P ro'
        p.a = (P ro).a ∧ simpleBeta F ⟨cd, ro'⟩ log p.a = β i ∧
        c = (column (p.no_zk.L_Vec.take q) 0, column (p.no_zk.R_Vec.take q) 0,
          lmpaChallenges F ⟨cd, ro'⟩ (simpleLog ⟨cd, ro'⟩ log p.a) (p.no_zk.L_Vec.take q) (p.no_zk.R_Vec.take q),
          p.no_zk.w)) ∧
      (extractSimple β fun i => (T i).scalars).length = 2 ^ q ∧
      dot (extractSimple β fun i => (T i).scalars) row = t := by
  have hrow := hA row List.mem_cons_self
  have hacc : ∀ ro, Acc ro → Rounds q (P ro).no_zk ∧
      simpleGap (plainPen cd.compress) id ro log q row t (P ro) = 0 := by
    intro ro hr
    obtain ⟨tr', hv⟩ := hAcc ro hr
    exact (simple_accepted (F := F) ⟨cd, ro⟩ ⟨log⟩ tr' row rows Gs t ts hA _ hv).2
  set pen := plainPen cd.compress with hpen
  have inj : ∀ ro ro', log ++ pen.first (P ro').a = log ++ pen.first (P ro).a →
      (P ro').a = (P ro).a := by
    intro ro ro' e
    refine (readable_plain cd).first (r := []) (r' := []) ?_
    rw [List.append_nil, List.append_nil]
    exact List.append_cancel_left e
  have ha := h.acc
  have hk : (simpleQueries pen log (P ro).a ((P ro).no_zk.L_Vec.take q)
      ((P ro).no_zk.R_Vec.take q))[0]? = some (log ++ pen.first (P ro).a) := rfl
  set l := log ++ pen.first (P ro).a with hl
  obtain ⟨v, hv, hinj, -⟩ := Forks.pick (k := 1) h hk (∅ : Finset F)
    (by rw [Finset.card_empty]; exact le_trans (by omega) (hK 0))
  have hsame : ∀ i, (P (Function.update ro l (v i))).a = (P ro).a := by
    intro i
    exact inj _ _ (Option.some.inj (hv i).2)
  have key : ∀ i, ∃ T : LmpaTree F G q, T.Distinct ∧ ∀ c ∈ T.paths,
      Conversation.accepts row (((leNat (v i).toList : Nat) : F) • t + (P ro).a.headD 0) c.1 c.2.1 c.2.2.1
        c.2.2.2 ∧
      ∃ ro', Reprogrammed q (Function.update ro l (v i)) ro' ∧ Acc ro' ∧
        LinShare F cd (fun ro => (P ro).no_zk.L_Vec.take q) (fun ro => (P ro).no_zk.R_Vec.take q)
          (fun ro => log ++ pen.first (P ro).a) 0 (Function.update ro l (v i)) ro' ∧
        c = ((column ((P ro').no_zk.L_Vec.take q) 0).drop 0, (column ((P ro').no_zk.R_Vec.take q) 0).drop 0,
          (linXs F cd (fun ro => (P ro).no_zk.L_Vec.take q) (fun ro => (P ro).no_zk.R_Vec.take q)
            (fun ro => log ++ pen.first (P ro).a) ro').drop 0, (P ro').no_zk.w) := by
    intro i
    refine lin_tree cd q (fun ro => (P ro).no_zk.L_Vec.take q)
      (fun ro => (P ro).no_zk.R_Vec.take q) (fun ro => (P ro).no_zk.w)
      (fun ro => log ++ pen.first (P ro).a) (acc := Acc) 1 hK
      (fun ro ha => by
        obtain ⟨⟨h1, h2, -⟩, -⟩ := hacc ro ha
        simp [h1, h2])
      (fun ro j _ => by rw [simpleQueries, Nat.add_comm 1 j, List.getElem?_cons_succ]) ?_ q 0
      (Function.update ro l (v i)) rfl (hv i).1 row _ hrow ?_
    · intro ro ro' l' j ha ha' h h'
      rw [simpleQueries, Nat.add_comm 1 j, List.getElem?_cons_succ] at h h'
      obtain ⟨⟨h1, h2, -⟩, -⟩ := hacc ro ha
      obtain ⟨⟨h1', h2', -⟩, -⟩ := hacc ro' ha'
      have hj := (List.getElem?_eq_some_iff.1 h).1
      rw [queries_length, List.length_take, List.length_take] at hj
      rw [queries_getElem _ _ _ _ _ (by simp; omega) (by simp; omega), Option.some.injEq] at h h'
      have e := h'.trans h.symm
      rw [List.append_assoc, List.append_assoc] at e
      change log ++ pen.first _ = log ++ pen.first _
      rw [(readable_plain cd).first (List.append_cancel_left e)]
    · intro ro' ha' hsh
      obtain ⟨s1, s2, -⟩ := hsh
      obtain ⟨-, hg⟩ := hacc ro' ha'
      have ea : (P ro').a = (P ro).a := (inj _ _ s1).trans (hsame i)
      simp only [hsame i] at s2
      rw [Function.update_self] at s2
      have es : squeeze F ro' (log ++ pen.first (P ro').a) = ((leNat (v i).toList : Nat) : F) := by
        rw [squeeze, s2]
      simp only [simpleGap, lmpaGap, sub_eq_zero, List.map_id, es] at hg
      rw [Conversation.accepts, ← ea]
      exact hg
  choose T hT hc using key
  refine ⟨fun i => ((leNat (v i).toList : Nat) : F), T, fun i c hcm => ?_,
    C52_simple_special_soundness row hrow t ((P ro).a.headD 0) _ (fun e => by simpa using hinj e) T hT
      fun i c hcm => (hc i c hcm).1⟩
  obtain ⟨-, ro', e1, e2, ⟨s1, s2, -⟩, e3⟩ := hc i c hcm
  have ea : (P ro').a = (P ro).a := (inj _ _ s1).trans (hsame i)
  simp only [hsame i] at s2
  rw [Function.update_self] at s2
  have el : simpleLog (⟨cd, ro'⟩ : Ctx G) log (P ro').a = log ++ pen.first (P ro').a := by
    simp [simpleLog, Pen.first, hpen, plainPen]
  refine ⟨ro', e1.update, e2, ea, ?_, ?_⟩
  · rw [simpleBeta, el]
    change squeeze F ro' _ = _
    rw [squeeze, s2]
  · rw [e3, ← lmpaChallenges_queries, el]
    rfl

/-- C95: a prover of SimpleZK that can be rewound delivers. -/
theorem C95_simple_extraction {q B M fuel : Nat} (cd : Codec G) (row : List G) (rows : List (List G)) (Gs : List G)
    (t : G) (ts : List G) (hA : ∀ r ∈ row :: rows, r.length = 2 ^ q) (log : List Event)
    (hB : ∀ c : F, Nat.card {v : Vector UInt8 64 // ((leNat v.toList : Nat) : F) = c} ≤ B) (hM : 2 * B < M)
    (P : Algo Event (SimpleZK F G)) (ro : Hash) :
    let Acc := fun ro => ∃ tr', (P.run id ro).verify ⟨cd, ro⟩ fuel ⟨log⟩ (row :: rows) Gs (2 ^ q) (t :: ts) =
      .ok (true, tr')
    Branches Acc (fun ro i => (simpleQueries (plainPen cd.compress) log
      (P.run id ro).a ((P.run id ro).no_zk.L_Vec.take q) ((P.run id ro).no_zk.R_Vec.take q))[i]?) M (q + 1) 0 ro →
    ∃ (β : Fin 2 → F) (T : Fin 2 → LmpaTree F G q),
      (∀ i, ∀ c ∈ (T i).paths, ∃ ro', Reprogrammed (q + 1) ro ro' ∧ Acc ro' ∧
        let p := P.run id ro'
        p.a = (P.run id ro).a ∧ simpleBeta F ⟨cd, ro'⟩ log p.a = β i ∧
        c = (column (p.no_zk.L_Vec.take q) 0, column (p.no_zk.R_Vec.take q) 0,
          lmpaChallenges F ⟨cd, ro'⟩ (simpleLog ⟨cd, ro'⟩ log p.a) (p.no_zk.L_Vec.take q) (p.no_zk.R_Vec.take q),
          p.no_zk.w)) ∧
      (extractSimple β fun i => (T i).scalars).length = 2 ^ q ∧
      dot (extractSimple β fun i => (T i).scalars) row = t :=
  fun h => simple_extraction cd row rows Gs t ts hA log (K := fun _ => 2 + 1) (fun _ => le_rfl)
    (fun ro => P.run id ro) _ (fun _ h => h) ro (h.forks hB hM)

/-- C95: knowledge soundness of SimpleZK in the random-oracle model. -/
theorem C95_simple_knowledge {q T B fuel : Nat} (cd : Codec G) (row : List G) (rows : List (List G)) (Gs : List G)
    (t : G) (ts : List G) (hA : ∀ r ∈ row :: rows, r.length = 2 ^ q) (log : List Event)
    (hB : ∀ c : F, Nat.card {v : Vector UInt8 64 // ((leNat v.toList : Nat) : F) = c} ≤ B)
    (P : Algo Event (SimpleZK F G)) (hT : P.AtMost T) (ro : Hash) (D : Finset (List Event))
    (hD : ∀ ro, ∀ l ∈ P.asked id ro ++ simpleQueries (plainPen cd.compress) log (P.run id ro).a
      ((P.run id ro).no_zk.L_Vec.take q) ((P.run id ro).no_zk.R_Vec.take q), l ∈ D) :
    let Acc := fun ro => ∃ tr', (P.run id ro).verify ⟨cd, ro⟩ fuel ⟨log⟩ (row :: rows) Gs (2 ^ q) (t :: ts) =
      .ok (true, tr')
    chance ro D (fun ro => Acc ro ∧ ¬ ∃ (β : Fin 2 → F) (T : Fin 2 → LmpaTree F G q),
      (∀ i, ∀ c ∈ (T i).paths, ∃ ro', Reprogrammed (q + 1) ro ro' ∧ Acc ro' ∧
        let p := P.run id ro'
        p.a = (P.run id ro).a ∧ simpleBeta F ⟨cd, ro'⟩ log p.a = β i ∧
        c = (column (p.no_zk.L_Vec.take q) 0, column (p.no_zk.R_Vec.take q) 0,
          lmpaChallenges F ⟨cd, ro'⟩ (simpleLog ⟨cd, ro'⟩ log p.a) (p.no_zk.L_Vec.take q) (p.no_zk.R_Vec.take q),
          p.no_zk.w)) ∧
      (extractSimple β fun i => (T i).scalars).length = 2 ^ q ∧
      dot (extractSimple β fun i => (T i).scalars) row = t) ≤
    ((T + (q + 1)) * (2 * B) : Nat) / 2 ^ 512 := by
  intro Acc
  refine (chance_mono fun ro h => ?_).trans
    (C95_simple_rewinding (M := 2 * B + 1) (fuel := fuel) cd (row :: rows) Gs (t :: ts) log P hT ro D hD)
  exact ⟨h.1, fun hb => h.2 (C95_simple_extraction cd row rows Gs t ts hA log hB (Nat.lt_succ_self _) P ro hb)⟩

end

/-! ### Examples -/
section
open Toy
set_option exponentiation.threshold 600

/-- The honest prover for the row `5, 7` and the witness `2, 3`. -/
def exLinProver : Algo Event (Lmpa.NoZK K K) :=
  .ask ((plainPen codec.compress).round [15] [14]) fun v => .done ⟨[[15]], [[14]], (leNat v.toList : Nat) * 2 + 3⟩

theorem exLinProver_accepted (ro : Hash) :
    ∃ tr', (exLinProver.run id ro).verify ⟨codec, ro⟩ 3 ⟨[]⟩ [[5, 7]] [1, 2] (2 ^ 1) [(31 : K)] = .ok (true, tr') := by
  obtain ⟨x, hx⟩ : ∃ x : K, x = ((leNat (ro ((plainPen codec.compress).round [15] [14])).toList : Nat) : K) := ⟨_, rfl⟩
  have hr : exLinProver.run id ro = ⟨[[15]], [[14]], x * 2 + 3⟩ := by
    simp [exLinProver, Algo.run, hx]
  rw [hr]
  have := verify_eq (⟨codec, ro⟩ : Ctx K) (⟨[[15]], [[14]], x * 2 + 3⟩ : Lmpa.NoZK K K) 1 3 ⟨[]⟩ [[5, 7]] [1, 2] [31]
    (by omega) rfl (by simp [Width])
  simp only at this
  rw [if_pos (by simp)] at this
  refine ⟨⟨lmpaLog (⟨codec, ro⟩ : Ctx K) [[15]] [[14]]⟩, this.trans (congrArg (fun b => Except.ok (b, _)) ?_)⟩
  rw [decide_eq_true_eq]
  have hc : lmpaChallenges K (⟨codec, ro⟩ : Ctx K) [] ([[15]].take 1) ([[14]].take 1) = [x] := by
    rw [← lmpaChallenges_queries]
    simp [lmpaQueries, squeeze, hx]
  simp only [hc]
  have h7 : foldedRow [x] ([5, 7] : List K) = 5 + x * 7 := by
    simp [foldedRow, weightG, Finset.sum_range_succ]
  have h8 : foldedTarget [x] (column ([[15]].take 1) 0) (column ([[14]].take 1) 0) (31 : K) = x * 31 + (15 + x * x * 14) := by
    simp [foldedTarget, column]
  simp only [List.headD_cons, h7, h8, smul_eq_mul]
  ring

/-- C95: rewinding is possible. The honest prover branches for every hash function, as often as the extraction needs,
and the extraction delivers. -/
example (ro : Hash) : ∃ T : LmpaTree K K 1, dot (extractLmpa T.scalars) [5, 7] = (31 : K) := by
  have hq : ∀ ro, lmpaQueries (plainPen codec.compress) [] ((exLinProver.run id ro).L_Vec.take 1)
      ((exLinProver.run id ro).R_Vec.take 1) = [(plainPen codec.compress).round [15] [14]] := by
    intro ro
    simp [exLinProver, Algo.run, lmpaQueries]
  obtain ⟨T, -, -, h⟩ := C95_lmpa_extraction (q := 1) (fuel := 3) (M := 2 ^ 512) codec [5, 7] [] [1, 2] (31 : K) []
    (by simp) [] (C67_scalars 101) (by norm_num) exLinProver ro (by
      refine ⟨exLinProver_accepted ro, fun l hl => ?_⟩
      have : ∀ v, (∃ tr', (exLinProver.run id (Function.update ro l v)).verify ⟨codec, Function.update ro l v⟩ 3 ⟨[]⟩
          [[5, 7]] [1, 2] (2 ^ 1) [(31 : K)] = .ok (true, tr')) ∧
          (lmpaQueries (plainPen codec.compress) [] ((exLinProver.run id (Function.update ro l v)).L_Vec.take 1)
            ((exLinProver.run id (Function.update ro l v)).R_Vec.take 1))[0]? = some l := by
        intro v
        refine ⟨exLinProver_accepted _, ?_⟩
        rw [hq]
        exact (congrArg (fun l : List (List Event) => l[0]?) (hq ro)).symm.trans hl
      rw [← card_bytes, ← Nat.card_eq_fintype_card]
      exact Nat.card_le_card_of_injective (fun v => ⟨v, this v⟩) fun v w h => congrArg Subtype.val h)
  exact ⟨T, h⟩

/-- C95: any prover of SimpleZK for the row `5, 7` and the target 31. -/
example {T : Nat} (P : Algo Event (SimpleZK K K)) (hT : P.AtMost T) (ro : Hash) : ∃ D : Finset (List Event),
    chance ro D (fun ro => (∃ tr', (P.run id ro).verify ⟨codec, ro⟩ 3 ⟨[]⟩ [[5, 7]] [1, 2] (2 ^ 1) [(31 : K)] =
      .ok (true, tr')) ∧ ¬ ∃ (β : Fin 2 → K) (T : Fin 2 → LmpaTree K K 1),
        dot (extractSimple β fun i => (T i).scalars) [5, 7] = (31 : K)) ≤
      ((T + 2) * 2 : Nat) * (1 / 101 + 1 / 2 ^ 512) := by
  obtain ⟨D, hD⟩ := C71_simple_domain (plainPen codec.compress) id [] 1 P
  refine ⟨D, (chance_mono fun ro h => ?_).trans ((C95_simple_knowledge (q := 1) (fuel := 3) codec [5, 7] [] [1, 2]
    (31 : K) [] (by simp) [] (C67_scalars 101) P hT ro D (fun ro l hl => by simpa using hD ro l hl)).trans ?_)⟩
  · exact ⟨h.1, fun ⟨β, T, h'⟩ => h.2 ⟨β, T, h'.2.2⟩⟩
  · have := bound_aux ((T + 2) * 2) 101 (2 ^ 512) (by positivity)
    rw [← Nat.mul_assoc]
    exact_mod_cast this

end
end Qesa.Props
