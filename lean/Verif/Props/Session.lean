import Verif.SpecSession
import Verif.Props.AlmZk
import Verif.Props.Lmpa
import Verif.Proofs.LmpaK
import Verif.Toy
/- C102: which challenges different arguments share. -/
namespace Qesa.Props
open Qesa Qesa.Spec
variable {F G : Type} [Field F] [DecidableEq F] [AddCommGroup G] [Module F G] [DecidableEq G]
set_option linter.unusedSectionVars false

def eventLabel : Event → String
  | .msg l _ => l
  | .chal l _ => l

/-- `tr'` extends `tr`, and the label of the first new event, if there is one, is one of `N`. -/
def Starts (N : List String) (tr tr' : Transcript) : Prop :=
  ∃ es, tr'.log = tr.log ++ es ∧ ∀ e ∈ es.head?, eventLabel e ∈ N

theorem Starts.of_prefix {N : List String} {tr tr' : Transcript} {es : List Event} (hne : es ≠ [])
    (hN : ∀ e ∈ es, eventLabel e ∈ N) (h : tr.log ++ es <+: tr'.log) : Starts N tr tr' := by
  obtain ⟨fs, h⟩ := h
  refine ⟨es ++ fs, by rw [← h, List.append_assoc], ?_⟩
  cases es with
  | nil => exact absurd rfl hne
  | cons e es =>
    intro x hx
    simp only [List.cons_append, List.head?_cons, Option.mem_def, Option.some.injEq] at hx
    exact hx ▸ hN e List.mem_cons_self

theorem Starts.same {N : List String} {tr : Transcript} : Starts N tr tr := ⟨[], by simp, by simp⟩

theorem Starts.prefix {N : List String} {tr tr' : Transcript} (h : Starts N tr tr') : tr.log <+: tr'.log := by
  obtain ⟨es, h, -⟩ := h
  exact ⟨es, h.symm⟩

omit [AddCommGroup G] [DecidableEq G] in
theorem points_label {cx : Ctx G} {s : String} {ps : List G} : ∀ e ∈ pointsLog cx s ps, eventLabel e = s := by
  intro e he
  unfold pointsLog at he
  obtain ⟨P, -, rfl⟩ := List.mem_map.1 he
  rfl

theorem inner_verify_prefix (cx : Ctx G) (p : Inner.Proof F) (tr tr' : Transcript) (Gs Hs : List G) (Q : G)
    (S : BlockMatrix F) (v : Bool) (h : p.verify cx tr Gs Hs Q S = .ok (v, tr')) :
    tr.log ++ [.msg "c_prime_w" p.c_prime_w] <+: tr'.log := by
  unfold Inner.Proof.verify at h
  simp only [Ipa.challengeScalar_eq] at h
  iterate 17 (obtain ⟨_, -, h⟩ := bind_eq_ok.1 h)
  obtain ⟨C_r, -, e⟩ := C11_alm_verify_log _ _ _ _ _ _ _ _ _ _ _ h
  simp only [e, Transcript.appendMessage, List.append_assoc]
  simp

theorem inner_create_prefix (cx : Ctx G) (tr tr' : Transcript) (tape tape' : Tape F) (Gs Hs : List G) (Q : G)
    (S : BlockMatrix F) (w r : List F) (p : Inner.Proof F)
    (h : Inner.create cx tr tape Gs Hs Q S w r = .ok (p, tr', tape')) :
    ∃ c, tr.log ++ [.msg "c_prime_w" c] <+: tr'.log := by
  unfold Inner.create at h
  simp only [Ipa.challengeScalar_eq] at h
  iterate 21 (obtain ⟨_, -, h⟩ := bind_eq_ok.1 h)
  obtain ⟨⟨q, tr1, tape1⟩, h1, h⟩ := bind_eq_ok.1 h
  simp only [R_pure, Except.ok.injEq, Prod.mk.injEq] at h
  obtain ⟨-, rfl, -⟩ := h
  obtain ⟨C_r, -, e⟩ := C11_alm_create_log _ _ _ _ _ _ _ _ _ _ _ _ _ h1
  simp only [e, Transcript.appendMessage, List.append_assoc]
  exact ⟨_, _, by rw [List.append_assoc]⟩

theorem lmpa_createLoop_starts (cx : Ctx G) : ∀ (fuel n : Nat) (A : List (List G)) (w : List F) (tr tr' : Transcript)
    (p : Lmpa.NoZK F G), Lmpa.createLoop cx fuel n A w tr = .ok (p, tr') → Starts ["L", "R", "challenge"] tr tr' := by
  intro fuel
  induction fuel with
  | zero => intro n A w tr tr' p h; cases h
  | succ fuel ih =>
    intro n A w tr tr' p h
    unfold Lmpa.createLoop at h
    split at h
    · obtain ⟨_, -, h⟩ := bind_eq_ok.1 h
      simp only [R_pure, Except.ok.injEq, Prod.mk.injEq] at h
      exact h.2 ▸ Starts.same
    · simp only [Ipa.challengeScalar_eq, Lmpa.absorb_eq] at h
      obtain ⟨_, -, h⟩ := bind_eq_ok.1 h
      obtain ⟨⟨q, tr1⟩, h1, h⟩ := bind_eq_ok.1 h
      simp only [R_pure, Except.ok.injEq, Prod.mk.injEq] at h
      obtain ⟨-, rfl⟩ := h
      have := (ih _ _ _ _ _ _ h1).prefix
      simp only [List.append_assoc] at this
      refine Starts.of_prefix (by simp) ?_ this
      intro e he
      simp only [List.mem_append] at he
      rcases he with he | he | he
      · rw [points_label e he]; simp
      · rw [points_label e he]; simp
      · rw [List.mem_singleton.1 he]; simp [eventLabel]

theorem lmpa_verifyLoop_starts (cx : Ctx G) (p : Lmpa.NoZK F G) : ∀ (fuel ci n : Nat) (A A' : List (List G))
    (t t' : List G) (tr tr' : Transcript), Lmpa.verifyLoop cx p fuel ci n A t tr = .ok (A', t', tr') →
    Starts ["L", "R", "challenge"] tr tr' := by
  intro fuel
  induction fuel with
  | zero => intro ci n A A' t t' tr tr' h; cases h
  | succ fuel ih =>
    intro ci n A A' t t' tr tr' h
    unfold Lmpa.verifyLoop at h
    split at h
    · simp only [Except.ok.injEq, Prod.mk.injEq] at h
      exact h.2.2 ▸ Starts.same
    · simp only [Ipa.challengeScalar_eq, Lmpa.absorb_eq] at h
      obtain ⟨_, -, h⟩ := bind_eq_ok.1 h
      obtain ⟨_, -, h⟩ := bind_eq_ok.1 h
      obtain ⟨_, -, h⟩ := bind_eq_ok.1 h
      have := (ih _ _ _ _ _ _ _ _ h).prefix
      simp only [List.append_assoc] at this
      refine Starts.of_prefix (by simp) ?_ this
      intro e he
      simp only [List.mem_append] at he
      rcases he with he | he | he
      · rw [points_label e he]; simp
      · rw [points_label e he]; simp
      · rw [List.mem_singleton.1 he]; simp [eventLabel]

theorem lmpa_verify_starts (cx : Ctx G) (p : Lmpa.NoZK F G) (fuel : Nat) (tr tr' : Transcript) (A : List (List G))
    (Gs : List G) (n : Nat) (t : List G) (v : Bool) (h : p.verify cx fuel tr A Gs n t = .ok (v, tr')) :
    Starts ["L", "R", "challenge"] tr tr' := by
  unfold Lmpa.NoZK.verify at h
  obtain ⟨_, -, h⟩ := bind_eq_ok.1 h
  obtain ⟨⟨A', t', tr1⟩, h1, h⟩ := bind_eq_ok.1 h
  obtain ⟨_, -, h⟩ := bind_eq_ok.1 h
  obtain ⟨_, -, h⟩ := bind_eq_ok.1 h
  simp only [R_pure, Except.ok.injEq, Prod.mk.injEq] at h
  exact h.2 ▸ lmpa_verifyLoop_starts cx p _ _ _ _ _ _ _ _ _ h1

omit [AddCommGroup G] [DecidableEq G] in
theorem flat_points_label {cx : Ctx G} {s : String} {u : List (List G)} :
    ∀ e ∈ u.flatMap (pointsLog cx s), eventLabel e = s := by
  intro e he
  obtain ⟨ps, -, he⟩ := List.mem_flatMap.1 he
  exact points_label e he

theorem lmpaK_createLoop_starts (cx : Ctx G) (m k : Nat) (one : F) (zero : G) : ∀ (fuel n : Nat) (A : List (List G))
    (w : List F) (t : List G) (tr tr' : Transcript) (p : Lmpa.LmpaNoZK F G),
    Lmpa.createKLoop cx m k one zero fuel n A w t tr = .ok (p, tr') → Starts ["u_l", "challenge_x"] tr tr' := by
  intro fuel
  induction fuel with
  | zero => intro n A w t tr tr' p h; cases h
  | succ fuel ih =>
    intro n A w t tr tr' p h
    unfold Lmpa.createKLoop at h
    split at h
    · simp only [Except.ok.injEq, Prod.mk.injEq] at h
      exact h.2 ▸ Starts.same
    · split at h
      · cases h
      · simp only [Ipa.challengeScalar_eq, LmpaK.absorbAll_eq] at h
        iterate 10 (obtain ⟨_, -, h⟩ := bind_eq_ok.1 h)
        obtain ⟨⟨q, tr1⟩, h1, h⟩ := bind_eq_ok.1 h
        simp only [R_pure, Except.ok.injEq, Prod.mk.injEq] at h
        obtain ⟨-, rfl⟩ := h
        have := (ih _ _ _ _ _ _ _ h1).prefix
        simp only [List.append_assoc] at this
        refine Starts.of_prefix (by simp) ?_ this
        intro e he
        simp only [List.mem_append] at he
        rcases he with he | he
        · rw [flat_points_label e he]; simp
        · rw [List.mem_singleton.1 he]; simp [eventLabel]

theorem lmpaK_verifyLoop_starts (cx : Ctx G) (p : Lmpa.LmpaNoZK F G) (k : Nat) (one : F) : ∀ (fuel ci n : Nat)
    (A : List (List G)) (t t' : List G) (tr tr' : Transcript),
    Lmpa.verifyKLoop cx p k one fuel ci n A t tr = .ok (t', tr') → Starts ["u_l", "challenge_x"] tr tr' := by
  intro fuel
  induction fuel with
  | zero => intro ci n A t t' tr tr' h; cases h
  | succ fuel ih =>
    intro ci n A t t' tr tr' h
    unfold Lmpa.verifyKLoop at h
    split at h
    · simp only [Except.ok.injEq, Prod.mk.injEq] at h
      exact h.2 ▸ Starts.same
    · split at h
      · cases h
      · simp only [Ipa.challengeScalar_eq, LmpaK.absorbAll_eq] at h
        iterate 7 (obtain ⟨_, -, h⟩ := bind_eq_ok.1 h)
        have := (ih _ _ _ _ _ _ _ h).prefix
        simp only [List.append_assoc] at this
        refine Starts.of_prefix (by simp) ?_ this
        intro e he
        simp only [List.mem_append] at he
        rcases he with he | he
        · rw [flat_points_label e he]; simp
        · rw [List.mem_singleton.1 he]; simp [eventLabel]

theorem lmpaK_verify_starts (cx : Ctx G) (p : Lmpa.LmpaNoZK F G) (fuel : Nat) (tr tr' : Transcript)
    (A : List (List G)) (t : List G) (n k : Nat) (one : F) (v : Bool)
    (h : p.verify cx fuel tr A t n k one = .ok (v, tr')) : Starts ["u_l", "challenge_x"] tr tr' := by
  unfold Lmpa.LmpaNoZK.verify at h
  obtain ⟨⟨t', tr1⟩, h1, h⟩ := bind_eq_ok.1 h
  obtain ⟨_, -, h⟩ := bind_eq_ok.1 h
  obtain ⟨_, -, h⟩ := bind_eq_ok.1 h
  simp only [R_pure, Except.ok.injEq, Prod.mk.injEq] at h
  exact h.2 ▸ lmpaK_verifyLoop_starts cx p _ _ _ _ _ _ _ _ _ _ h1

theorem simple_starts {cx : Ctx G} {N : List String} {a : List G} {tr tr' : Transcript}
    (h : Starts N ⟨tr.log ++ pointsLog cx "a" a ++ [.chal "beta" 64]⟩ tr') : Starts ["a", "beta"] tr tr' := by
  have := h.prefix
  simp only [List.append_assoc] at this
  refine Starts.of_prefix (by simp) ?_ this
  intro e he
  simp only [List.mem_append] at he
  rcases he with he | he
  · rw [points_label e he]; simp
  · rw [List.mem_singleton.1 he]; simp [eventLabel]

/-- The labels with which a run can begin. -/
def firstLabels : ArgKind → List String
  | .ipa => ["n"]
  | .alm => ["C_r"]
  | .qesa => ["c_prime_w"]
  | .copy => ["c_w"]
  | .lmpa => ["L", "R", "challenge"]
  | .lmpaK => ["u_l", "challenge_x"]
  | .simple => ["a", "beta"]

theorem runs_starts (cx : Ctx G) (tr tr' : Transcript) (k : ArgKind) (h : Runs F cx tr tr' k) :
    Starts (firstLabels k) tr tr' := by
  have one : ∀ (e : Event) (es : List Event), tr'.log = tr.log ++ e :: es → Starts [eventLabel e] tr tr' :=
    fun e es h => Starts.of_prefix (es := [e]) (by simp) (by simp) ⟨es, by simp [h]⟩
  cases k with
  | ipa =>
    rcases h with ⟨p, Gs, Hs, Q, n, P, t, v, h⟩ | ⟨Gs, Hs, Q, a, b, p, h⟩
    · have e := C11_ipa_verify_log _ _ _ _ _ _ _ _ _ _ _ h
      exact one (.msg "n" _) _ (by rw [e, List.append_assoc]; rfl)
    · have e := C11_ipa_create_log _ _ _ _ _ _ _ _ _ h
      exact one (.msg "n" _) _ (by rw [e, List.append_assoc]; rfl)
  | alm =>
    rcases h with ⟨p, Gs, Hs, Q, n, P, t, v, h⟩ | ⟨τ, τ', Gs, Hs, Q, C, a, b, t, p, h⟩
    · obtain ⟨C_r, -, e⟩ := C11_alm_verify_log _ _ _ _ _ _ _ _ _ _ _ h
      exact one (.msg "C_r" _) _ (by rw [e, List.append_assoc]; rfl)
    · obtain ⟨C_r, -, e⟩ := C11_alm_create_log _ _ _ _ _ _ _ _ _ _ _ _ _ h
      exact one (.msg "C_r" _) _ (by rw [e, List.append_assoc]; rfl)
  | qesa =>
    rcases h with ⟨p, Gs, Hs, Q, S, v, h⟩ | ⟨τ, τ', Gs, Hs, Q, S, w, p, h⟩
    · exact Starts.of_prefix (by simp) (by simp [eventLabel, firstLabels])
        (inner_verify_prefix cx p.inner tr tr' Gs Hs Q S v h)
    · unfold Zk.create at h
      simp only [draw] at h
      obtain ⟨⟨q, tr2, tape2⟩, h1, h⟩ := bind_eq_ok.1 h
      simp only [R_pure, Except.ok.injEq, Prod.mk.injEq] at h
      obtain ⟨-, rfl, -⟩ := h
      obtain ⟨c, hc⟩ := inner_create_prefix _ _ _ _ _ _ _ _ _ _ _ _ h1
      exact Starts.of_prefix (by simp) (by simp [eventLabel, firstLabels]) hc
  | copy =>
    rcases h with ⟨p, Gs, Hs, Q, S, map, Cs, v, h⟩ | ⟨τ, τ', Gs, Hs, Q, map, S, w, os, p, h⟩
    · unfold Copy.Proof.verify at h
      simp only [Ipa.challengeScalar_eq] at h
      iterate 4 (obtain ⟨_, -, h⟩ := bind_eq_ok.1 h)
      obtain ⟨es, he⟩ := inner_verify_prefix _ _ _ _ _ _ _ _ _ h
      simp only [Transcript.appendMessage, List.append_assoc, List.cons_append, List.nil_append] at he
      exact one (.msg "c_w" _) _ he.symm
    · unfold Copy.create at h
      simp only [Ipa.challengeScalar_eq] at h
      iterate 14 (obtain ⟨_, -, h⟩ := bind_eq_ok.1 h)
      obtain ⟨⟨q, tr2, tape2⟩, h1, h⟩ := bind_eq_ok.1 h
      simp only [R_pure, Except.ok.injEq, Prod.mk.injEq] at h
      obtain ⟨-, rfl, -⟩ := h
      obtain ⟨c, es, he⟩ := inner_create_prefix _ _ _ _ _ _ _ _ _ _ _ _ h1
      simp only [Transcript.appendMessage, List.append_assoc, List.cons_append, List.nil_append] at he
      exact one (.msg "c_w" _) _ he.symm
  | lmpa =>
    rcases h with ⟨fuel, p, A, Gs, n, t, v, h⟩ | ⟨fuel, A, Gs, w, p, h⟩
    · exact lmpa_verify_starts _ _ _ _ _ _ _ _ _ _ h
    · exact lmpa_createLoop_starts _ _ _ _ _ _ _ _ h
  | lmpaK =>
    rcases h with ⟨fuel, p, A, t, n, k, on, v, h⟩ | ⟨fuel, A, w, t, n, m, k, on, zero, p, h⟩
    · exact lmpaK_verify_starts _ _ _ _ _ _ _ _ _ _ _ h
    · exact lmpaK_createLoop_starts _ _ _ _ _ _ _ _ _ _ _ _ _ h
  | simple =>
    rcases h with ⟨fuel, p, A, Gs, n, t, v, h⟩ | ⟨fuel, τ, τ', A, Gs, w, p, h⟩ | ⟨fuel, p, A, t, n, k, v, h⟩ |
      ⟨fuel, τ, τ', A, w, t, n, m, k, p, h⟩
    · unfold Lmpa.SimpleZK.verify at h
      simp only [Ipa.challengeScalar_eq, Lmpa.absorb_eq] at h
      obtain ⟨_, -, h⟩ := bind_eq_ok.1 h
      exact simple_starts (lmpa_verify_starts _ _ _ _ _ _ _ _ _ _ h)
    · unfold Lmpa.createSimple at h
      simp only [Ipa.challengeScalar_eq, Lmpa.absorb_eq] at h
      obtain ⟨⟨q, tr2⟩, h1, h⟩ := bind_eq_ok.1 h
      simp only [R_pure, Except.ok.injEq, Prod.mk.injEq] at h
      obtain ⟨-, rfl, -⟩ := h
      exact simple_starts (lmpa_createLoop_starts _ _ _ _ _ _ _ _ h1)
    · unfold Lmpa.SimpleZKGeneral.verify at h
      simp only [Ipa.challengeScalar_eq, Lmpa.absorb_eq] at h
      exact simple_starts (lmpaK_verify_starts _ _ _ _ _ _ _ _ _ _ _ h)
    · unfold Lmpa.createGeneral at h
      simp only [Ipa.challengeScalar_eq, Lmpa.absorb_eq] at h
      obtain ⟨⟨q, tr2⟩, h1, h⟩ := bind_eq_ok.1 h
      simp only [R_pure, Except.ok.injEq, Prod.mk.injEq] at h
      obtain ⟨-, rfl, -⟩ := h
      exact simple_starts (lmpaK_createLoop_starts _ _ _ _ _ _ _ _ _ _ _ _ _ h1)

/-- C102: domain separation. Two runs of arguments of different kinds that start from the same transcript never
evaluate the hash function at the same history. -/
theorem C102_separate (cx : Ctx G) (tr tr₁ tr₂ : Transcript) {k₁ k₂ : ArgKind} (hk : k₁ ≠ k₂)
    (h₁ : Runs F cx tr tr₁ k₁) (h₂ : Runs F cx tr tr₂ k₂) : Disjoint (questions tr tr₁) (questions tr tr₂) := by
  rw [Set.disjoint_left]
  rintro l ⟨p₁, hl, -⟩ ⟨p₂, -, -⟩
  obtain ⟨e₁, w₁, n₁⟩ := runs_starts cx tr tr₁ k₁ h₁
  obtain ⟨e₂, w₂, n₂⟩ := runs_starts cx tr tr₂ k₂ h₂
  rw [w₁] at p₁
  rw [w₂] at p₂
  have g : ∀ e : List Event, l <+: tr.log ++ e → l[tr.log.length]? = e.head? := by
    rintro e ⟨r, hr⟩
    have : (l ++ r)[tr.log.length]? = (tr.log ++ e)[tr.log.length]? := by rw [hr]
    rw [List.getElem?_append_left hl, List.getElem?_append_right le_rfl, Nat.sub_self] at this
    rw [this, List.head?_eq_getElem?]
  obtain ⟨x, hx⟩ : ∃ x, l[tr.log.length]? = some x := ⟨_, List.getElem?_eq_getElem hl⟩
  have m₁ := n₁ x (by rw [← g _ p₁, hx]; rfl)
  have m₂ := n₂ x (by rw [← g _ p₂, hx]; rfl)
  revert m₁ m₂
  generalize eventLabel x = s
  cases k₁ <;> cases k₂ <;> first
    | exact absurd rfl hk
    | (simp only [firstLabels, List.mem_cons, List.not_mem_nil, or_false]
       intro h
       first
         | (subst h; decide)
         | (rcases h with rfl | rfl <;> decide)
         | (rcases h with rfl | rfl | rfl <;> decide))

/-- C102: in a sequence of arguments of any kinds that follow each other on one transcript no two of them share a
question. -/
theorem C102_successive (cx : Ctx G) (m : Nat) (st : Nat → Transcript)
    (h : ∀ i < m, ∃ k, Runs F cx (st i) (st (i + 1)) k) {i j : Nat} (hi : i < m) (hj : j < m) (hij : i ≠ j) :
    Disjoint (questions (st i) (st (i + 1))) (questions (st j) (st (j + 1))) := by
  have mono : ∀ d a, a + d ≤ m → (st a).log.length ≤ (st (a + d)).log.length := by
    intro d
    induction d with
    | zero => intro a _; exact le_rfl
    | succ d ih =>
      intro a ha
      obtain ⟨k, hk⟩ := h (a + d) (by omega)
      exact (ih a (by omega)).trans (runs_starts cx _ _ _ hk).prefix.length_le
  have key : ∀ a b, a < b → b < m → Disjoint (questions (st a) (st (a + 1))) (questions (st b) (st (b + 1))) := by
    intro a b hab hb
    rw [Set.disjoint_left]
    rintro x ⟨p, -, -⟩ ⟨-, q, -⟩
    have := p.length_le
    have := mono (b - (a + 1)) (a + 1) (by omega)
    rw [show a + 1 + (b - (a + 1)) = b by omega] at this
    omega
  rcases lt_or_gt_of_ne hij with g | g
  · exact key i j g hj
  · exact (key j i g hi).symm

/-- C102, finding: `SimpleZK` and `SimpleZK_general` are not separated: if their first messages are the same, so is the
challenge `beta`. -/
theorem C102_simple_shared (cx : Ctx G) (tr tr₁ tr₂ : Transcript) (p : Lmpa.SimpleZK F G)
    (p' : Lmpa.SimpleZKGeneral F G) (hp : p.a = p'.a) (f f' : Nat) (A A' : List (List G)) (Gs t t' : List G)
    (n n' k : Nat) (v v' : Bool) (h₁ : p.verify cx f tr A Gs n t = .ok (v, tr₁))
    (h₂ : p'.verify cx f' tr A' t' n' k = .ok (v', tr₂)) :
    tr.log ++ (p.a.map fun P => .msg "a" (cx.compress P)) ++ [.chal "beta" 64] ∈
      questions tr tr₁ ∩ questions tr tr₂ := by
  unfold Lmpa.SimpleZK.verify at h₁
  unfold Lmpa.SimpleZKGeneral.verify at h₂
  simp only [Ipa.challengeScalar_eq, Lmpa.absorb_eq] at h₁ h₂
  obtain ⟨_, -, h₁⟩ := bind_eq_ok.1 h₁
  have e₁ := (lmpa_verify_starts _ _ _ _ _ _ _ _ _ _ h₁).prefix
  have e₂ := (lmpaK_verify_starts _ _ _ _ _ _ _ _ _ _ _ h₂).prefix
  rw [← hp] at e₂
  exact ⟨⟨e₁, by simp, _, _, rfl⟩, ⟨e₂, by simp, _, _, rfl⟩⟩

section
open Toy

/-- C102: an IPA run and an LMPA run from the empty transcript; each asks one question. -/
example : ∃ tr₁ tr₂, Runs K cx ⟨[]⟩ tr₁ .ipa ∧ Runs K cx ⟨[]⟩ tr₂ .lmpa ∧
    [.msg "n" (u64le 1), .chal "alpha" 64] ∈ questions ⟨[]⟩ tr₁ ∧
    [.msg "L" [6], .msg "R" [5], .chal "challenge" 64] ∈ questions ⟨[]⟩ tr₂ ∧
    Disjoint (questions ⟨[]⟩ tr₁) (questions ⟨[]⟩ tr₂) := by
  have h₁ : Runs K cx ⟨[]⟩ ⟨[.msg "n" (u64le 1), .chal "alpha" 64]⟩ .ipa :=
    .inr ⟨[3], [5], 7, [1], [2], ⟨[], [], 1, 2⟩, by decide +kernel⟩
  have h₂ : Runs K cx ⟨[]⟩ ⟨[.msg "L" [6], .msg "R" [5], .chal "challenge" 64]⟩ .lmpa :=
    .inr ⟨5, [[3, 5]], [1, 1], [1, 2], ⟨[[6]], [[5]], 19⟩, by decide +kernel⟩
  exact ⟨_, _, h₁, h₂, ⟨List.prefix_rfl, by simp, [_], _, rfl⟩, ⟨List.prefix_rfl, by simp, [_, _], _, rfl⟩,
    C102_separate cx _ _ _ (by decide) h₁ h₂⟩

end

end Qesa.Props
