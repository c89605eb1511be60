import Verif.Proofs.Fork
import Verif.Props.IpaSound
/-
Trees of conversations of the inner-product argument from a prover that branches.
-/
namespace Qesa.Props
open Qesa Spec Ipa
set_option linter.unusedSectionVars false
variable {F G : Type} [Field F] [DecidableEq F] [AddCommGroup G] [Module F G]

/-- The verification equation after `xs.length` of `k` rounds. -/
def Gap (a b : F) (Q : G) (k : Nat) (xs : List F) (Ls Rs Gs Hs : List G) (P : G) : Prop :=
  a • combined (weightG xs) k xs.length Gs + b • combined (weightH xs) k xs.length Hs + (a * b) • Q =
    foldedP Ls Rs xs P

theorem gap_cons (a b : F) (Q : G) (k : Nat) (x : F) (xs : List F) (L R : G) (Ls Rs Gs Hs : List G) (P : G)
    (hx : xs.length ≤ k) (hG : Gs.length = 2 ^ (k + 1)) (hH : Hs.length = 2 ^ (k + 1)) :
    Gap a b Q (k + 1) (x :: xs) (L :: Ls) (R :: Rs) Gs Hs P ↔
      Gap a b Q k xs Ls Rs (foldG x Gs) (foldH x Hs) ((x * x) • L + x • P + R) := by
  unfold Gap
  rw [foldedP_cons, List.length_cons]
  have hh : Gs.length / 2 = 2 ^ k := by rw [hG, pow_succ]; omega
  have hh' : Hs.length / 2 = 2 ^ k := by rw [hH, pow_succ]; omega
  have hp : 0 < 2 ^ (k - xs.length) := Nat.two_pow_pos _
  have hp' : 0 < 2 ^ (k + 1) := Nat.two_pow_pos _
  rw [← combined_step (1 : F) x (weightG xs) (weightG (x :: xs)) k xs.length Gs
      (fun i hi => by rw [one_mul]; exact weightG_cons_lt x xs hi)
      (fun i hi => weightG_cons_ge x xs hi) hx (by rw [hG]; omega),
    ← combined_step x (1 : F) (weightH xs) (weightH (x :: xs)) k xs.length Hs
      (fun i hi => weightH_cons_lt x xs hi)
      (fun i hi => by rw [one_mul]; exact weightH_cons_ge x xs hi) hx (by rw [hH]; omega)]
  rw [foldG, foldH, hh, hh']

theorem gap_nil (a b : F) (Q : G) (k : Nat) (Ls Rs Gs Hs : List G) (P : G) :
    Gap a b Q k [] Ls Rs Gs Hs P ↔ a • Gs.getD 0 0 + b • Hs.getD 0 0 + (a * b) • Q = P := by
  simp [Gap, combined, foldedP, weightG, weightH]

/-- The honest prover for the vectors `(a, 0, …, 0)` and `(b, 0, …, 0)`. -/
theorem synth_tree (Q : G) (y : Fin 4 → F) (hy : Function.Injective y) (b : F) : ∀ (k : Nat) (a : F) (Gs Hs : List G)
    (P : G), Gs.length = 2 ^ k → Hs.length = 2 ^ k → a • Gs.getD 0 0 + b • Hs.getD 0 0 + (a * b) • Q = P →
    ∃ T : IpaTree F G k, T.Distinct ∧ ∀ c ∈ T.paths, c.Accepts Gs Hs Q P ∧ c.a = c.xs.prod * a ∧ c.b = b
  | 0, a, Gs, Hs, P, _, _, h => by
    refine ⟨.leaf a b, trivial, fun c hc => ?_⟩
    simp only [IpaTree.paths, List.mem_singleton] at hc
    subst hc
    refine ⟨?_, by simp, rfl⟩
    have := (gap_nil a b Q 0 [] [] Gs Hs P).2 h
    simpa [Gap, IpaPath.Accepts] using this
  | k + 1, a, Gs, Hs, P, hG, hH, h => by
    have hh : Gs.length / 2 = 2 ^ k := by rw [hG, pow_succ]; omega
    have hh' : Hs.length / 2 = 2 ^ k := by rw [hH, pow_succ]; omega
    have hp := Nat.two_pow_pos k
    have h2 : 2 ^ (k + 1) = 2 ^ k + 2 ^ k := by rw [pow_succ]; omega
    have key : ∀ i, ∃ T : IpaTree F G k, T.Distinct ∧ ∀ c ∈ T.paths, c.Accepts (foldG (y i) Gs) (foldH (y i) Hs) Q
        ((y i * y i) • (a • Gs.getD (2 ^ k) 0) + y i • P + b • Hs.getD (2 ^ k) 0) ∧
          c.a = c.xs.prod * (y i * a) ∧ c.b = b := by
      intro i
      refine synth_tree Q y hy b k _ _ _ _ (by rw [foldG_length, hh]) (by rw [foldH_length, hh']) ?_
      have e1 : (foldG (y i) Gs).getD 0 0 = Gs.getD 0 0 + y i • Gs.getD (2 ^ k) 0 := by
        rw [foldG, hh, List.getD_eq_getElem _ _ (by simp; omega), List.getElem_zipWith, List.getElem_take,
          List.getElem_drop, List.getD_eq_getElem _ _ (by omega), List.getD_eq_getElem _ _ (by omega), one_smul]
        simp
      have e2 : (foldH (y i) Hs).getD 0 0 = y i • Hs.getD 0 0 + Hs.getD (2 ^ k) 0 := by
        rw [foldH, hh', List.getD_eq_getElem _ _ (by simp; omega), List.getElem_zipWith, List.getElem_take,
          List.getElem_drop, List.getD_eq_getElem _ _ (by omega), List.getD_eq_getElem _ _ (by omega), one_smul]
        simp
      rw [e1, e2, ← h]
      module
    choose T hT hc using key
    refine ⟨.node (a • Gs.getD (2 ^ k) 0) (b • Hs.getD (2 ^ k) 0) y T, ⟨hy, hT⟩, fun c hc' => ?_⟩
    simp only [IpaTree.paths, List.mem_flatMap, List.mem_map] at hc'
    obtain ⟨i, -, c, hcm, rfl⟩ := hc'
    obtain ⟨h1, h2, h3⟩ := hc i c hcm
    have hl := (paths_length (T i) c hcm).1
    exact ⟨(accepts_cons _ _ _ _ _ _ _ _ (by rw [hl]; exact hG) (by rw [hl]; exact hH)).2 h1,
      by rw [h2, List.prod_cons]; ring, h3⟩

/-! ### The rounds -/

section
variable {γ : Type} (cd : Codec G) (n q : Nat) (p : Hash → NoZK F) (lg : Hash → List Event) (ctx : Hash → γ)

/-- The challenges of the proof that is output with the hash function `ro`. -/
def xsOf (ro : Hash) : List F := ipaChallenges F ro (lg ro) n (p ro).L_vec (p ro).R_vec

def alOf (F : Type) [NatCast F] (n : Nat) (lg : Hash → List Event) (ro : Hash) : F := ipaAlpha F ro (lg ro) n

/-- The runs with `ro` and `ro'` agree up to round `j`. -/
def Share (j : Nat) (ro ro' : Hash) : Prop :=
  ctx ro' = ctx ro ∧ lg ro' = lg ro ∧ alOf F n lg ro' = alOf F n lg ro ∧
  (p ro').L_vec.take j = (p ro).L_vec.take j ∧ (p ro').R_vec.take j = (p ro).R_vec.take j ∧
  (xsOf n p lg ro').take j = (xsOf n p lg ro).take j ∧ j ≤ (xsOf n p lg ro').length

/-- The history of challenge number `j` of the argument (0 is `alpha`). -/
def ipaKey (lg : List Event) (n : Nat) (L R : List Comp) (j : Nat) : Option (List Event) :=
  if j ≤ min L.length R.length then some (lg ++ headLog n ++ roundsLog (L.take j) (R.take j)) else none

/-- From round `j` on, `c` is the conversation of the run with `ro'`. -/
def ContFrom (j : Nat) (ro' : Hash) (c : IpaPath F G) : Prop :=
  let xs := xsOf n p lg ro'
  (c.Ls.take (xs.length - j)).map cd.compress = ((p ro').L_vec.take xs.length).drop j ∧
  (c.Rs.take (xs.length - j)).map cd.compress = ((p ro').R_vec.take xs.length).drop j ∧
  c.xs.take (xs.length - j) = xs.drop j ∧
  c.a = (c.xs.drop (xs.length - j)).prod * (p ro').a ∧ c.b = (p ro').b

theorem compress_inj (cd : Codec G) {u v : G} (h : cd.compress u = cd.compress v) : u = v := by
  have := cd.decompress_compress u
  rw [h, cd.decompress_compress] at this
  exact (Option.some.inj this).symm

theorem roundsLog_take_length (L R : List Comp) (j : Nat) (h : j ≤ min L.length R.length) :
    (roundsLog (L.take j) (R.take j)).length = 3 * j := by
  have : ∀ l : List (Comp × Comp), (l.flatMap roundLog).length = 3 * l.length := by
    intro l
    induction l with
    | nil => rfl
    | cons a l ih => rw [List.flatMap_cons, List.length_append, ih]; simp [roundLog]; omega
  rw [roundsLog, this]
  simp; omega

theorem roundsLog_inj {L R L' R' : List Comp} (h1 : L.length = R.length) (h2 : L'.length = R'.length)
    (hl : L.length = L'.length) (h : roundsLog L R = roundsLog L' R') : L = L' ∧ R = R' := by
  induction L generalizing R L' R' with
  | nil =>
    have : L' = [] := List.length_eq_zero_iff.1 hl.symm
    subst this
    exact ⟨rfl, (List.length_eq_zero_iff.1 h1.symm).trans (List.length_eq_zero_iff.1 h2.symm).symm⟩
  | cons a L ih =>
    cases R with
    | nil => simp at h1
    | cons b R =>
    cases L' with
    | nil => simp at hl
    | cons a' L' =>
    cases R' with
    | nil => simp at h2
    | cons b' R' =>
      simp only [roundsLog, List.zip_cons_cons, List.flatMap_cons, roundLog, List.cons_append, List.nil_append,
        List.cons.injEq, Event.msg.injEq, true_and] at h
      obtain ⟨rfl, rfl, h⟩ := h
      simp only [List.length_cons, Nat.add_right_cancel_iff] at h1 h2 hl
      obtain ⟨e1, e2⟩ := ih h1 h2 hl h
      exact ⟨by rw [e1], by rw [e2]⟩

/-- Equal histories: equal messages. -/
theorem ipaKey_inj {lg lg' : List Event} {n j : Nat} {L R L' R' : List Comp} {l : List Event}
    (h : ipaKey lg n L R j = some l) (h' : ipaKey lg' n L' R' j = some l) :
    lg' = lg ∧ L'.take j = L.take j ∧ R'.take j = R.take j ∧ j ≤ min L.length R.length ∧
      j ≤ min L'.length R'.length := by
  unfold ipaKey at h h'
  split at h
  · rename_i hj
    split at h'
    · rename_i hj'
      rw [Option.some.injEq] at h h'
      rw [← h] at h'
      have hl := (roundsLog_take_length L' R' j hj').trans (roundsLog_take_length L R j hj).symm
      obtain ⟨h1, h2⟩ := List.append_inj' h' hl
      obtain ⟨h1, -⟩ := List.append_inj' h1 rfl
      obtain ⟨h3, h4⟩ := roundsLog_inj (by simp; omega) (by simp; omega) (by simp; omega) h2
      exact ⟨h1, h3, h4, hj, hj'⟩
    · cases h'
  · cases h

theorem xsOf_length (ro : Hash) : (xsOf n p lg ro).length = min (p ro).L_vec.length (p ro).R_vec.length :=
  ipaChallenges_length ..

theorem xsOf_getElem (ro : Hash) (i : Nat) (hi : i < (xsOf n p lg ro).length) :
    (xsOf n p lg ro)[i] = squeeze F ro (lg ro ++ headLog n ++
      roundsLog ((p ro).L_vec.take (i + 1)) ((p ro).R_vec.take (i + 1))) := by
  simp [xsOf, ipaChallenges, roundChallenges]

variable {acc : Hash → Prop} {key : Hash → Nat → Option (List Event)} (i0 : Nat)

/-- Another answer at round `j` changes that challenge and nothing before it. -/
theorem share_update {ro : Hash} {l : List Event} {v : Vector UInt8 64} {j : Nat}
    (h : ipaKey (lg ro) n (p ro).L_vec (p ro).R_vec (j + 1) = some l)
    (h' : ipaKey (lg (Function.update ro l v)) n (p (Function.update ro l v)).L_vec
      (p (Function.update ro l v)).R_vec (j + 1) = some l)
    (hc : ctx (Function.update ro l v) = ctx ro) :
    Share n p lg ctx j ro (Function.update ro l v) ∧
    (p (Function.update ro l v)).L_vec.take (j + 1) = (p ro).L_vec.take (j + 1) ∧
    (p (Function.update ro l v)).R_vec.take (j + 1) = (p ro).R_vec.take (j + 1) ∧
    (xsOf n p lg (Function.update ro l v)).take (j + 1) =
      (xsOf n p lg ro).take j ++ [((leNat v.toList : Nat) : F)] ∧
    j + 1 ≤ (xsOf n p lg ro).length ∧ j + 1 ≤ (xsOf n p lg (Function.update ro l v)).length := by
  obtain ⟨h1, h2, h3, h4, h5⟩ := ipaKey_inj h h'
  rw [ipaKey, if_pos h4, Option.some.injEq] at h
  have hlen : l.length = (lg ro).length + 2 + 3 * (j + 1) := by
    rw [← h, List.length_append, roundsLog_take_length _ _ _ h4, List.length_append]; rfl
  set ro' := Function.update ro l v with hro'
  have t : ∀ (A : List Comp) (i : Nat), i ≤ j → (A.take (j + 1)).take (i + 1) = A.take (i + 1) := by
    intro A i hi; rw [List.take_take]; congr 1; omega
  have sq : ∀ i ≤ j, lg ro' ++ headLog n ++ roundsLog ((p ro').L_vec.take (i + 1)) ((p ro').R_vec.take (i + 1)) =
      lg ro ++ headLog n ++ roundsLog ((p ro).L_vec.take (i + 1)) ((p ro).R_vec.take (i + 1)) := by
    intro i hi
    rw [h1, ← t (p ro').L_vec i hi, ← t (p ro').R_vec i hi, h2, h3, t _ i hi, t _ i hi]
  have hx : (xsOf n p lg ro').take (j + 1) = (xsOf n p lg ro).take j ++ [((leNat v.toList : Nat) : F)] := by
    apply List.ext_getElem
    · simp [xsOf_length]; omega
    · intro i hi hi'
      have hij : i < j + 1 := by simp at hi; omega
      rw [List.getElem_take, xsOf_getElem, sq i (by omega)]
      by_cases hj : i < j
      · rw [List.getElem_append_left (by simp [xsOf_length]; omega), List.getElem_take, xsOf_getElem]
        rw [squeeze, squeeze, hro', Function.update_of_ne]
        intro e
        have := congrArg List.length e
        rw [hlen, List.length_append, roundsLog_take_length _ _ _ (by omega), List.length_append] at this
        simp only [headLog, List.length_cons, List.length_nil] at this
        omega
      · have : i = j := by omega
        subst this
        rw [h, squeeze, hro', Function.update_self, List.getElem_append_right (by simp [xsOf_length])]
        simp
  refine ⟨⟨hc, h1, ?_, ?_, ?_, ?_, by rw [xsOf_length]; omega⟩, h2, h3, hx, by rw [xsOf_length]; omega,
    by rw [xsOf_length]; omega⟩
  · rw [alOf, alOf, h1, ipaAlpha, ipaAlpha, squeeze, squeeze, hro', Function.update_of_ne]
    intro e
    have := congrArg List.length e
    rw [hlen, List.length_append] at this
    simp only [headLog, List.length_cons, List.length_nil] at this
    omega
  · have := congrArg (List.take j) h2
    simpa [List.take_take] using this
  · have := congrArg (List.take j) h3
    simpa [List.take_take] using this
  · have := congrArg (List.take j) hx
    rw [List.take_take, List.take_append_of_le_length (by simp [xsOf_length]; omega), List.take_take] at this
    simpa using this

theorem Share.trans {j : Nat} {ro ro1 ro2 : Hash} (h1 : Share n p lg ctx j ro ro1)
    (h2 : Share n p lg ctx (j + 1) ro1 ro2) : Share n p lg ctx j ro ro2 := by
  obtain ⟨a1, a2, a3, a4, a5, a6, a7⟩ := h1
  obtain ⟨b1, b2, b3, b4, b5, b6, b7⟩ := h2
  have t : ∀ {τ : Type} (A : List τ), (A.take (j + 1)).take j = A.take j := by
    intro τ A; rw [List.take_take]; congr 1; omega
  exact ⟨b1.trans a1, b2.trans a2, b3.trans a3, by rw [← t, b4, t, a4], by rw [← t, b5, t, a5],
    by rw [← t, b6, t, a6], by omega⟩

variable {K : Nat → Nat} (hK : ∀ i, 4 ≤ K i) (y : Fin 4 → F) (hy : Function.Injective y)
  (hq : ∀ ro, acc ro → ∃ Ls Rs : List G, (p ro).L_vec = Ls.map cd.compress ∧ (p ro).R_vec = Rs.map cd.compress ∧
    Ls.length = q)
  (hkey : ∀ ro j, acc ro → key ro (i0 + j) = ipaKey (lg ro) n (p ro).L_vec (p ro).R_vec j)
  (hctx : ∀ ro l v j, acc ro → acc (Function.update ro l v) → key ro (i0 + j) = some l →
    key (Function.update ro l v) (i0 + j) = some l → ctx (Function.update ro l v) = ctx ro)

include hK hy hq hkey hctx in
/-- A prover that branches at all rounds gives a tree of accepted conversations. -/
theorem ipa_tree (Q : G) : ∀ (d j : Nat) (ro : Hash), d + j = q → Forks (scalarOf F) acc key K d (i0 + (j + 1)) ro →
    j ≤ (xsOf n p lg ro).length → ∀ (Gs Hs : List G) (P : G), Gs.length = 2 ^ d → Hs.length = 2 ^ d →
    (∀ ro', acc ro' → Share n p lg ctx j ro ro' → ∀ Ls Rs : List G, (p ro').L_vec = Ls.map cd.compress →
      (p ro').R_vec = Rs.map cd.compress → Gap (p ro').a (p ro').b Q d ((xsOf n p lg ro').drop j) (Ls.drop j)
        (Rs.drop j) Gs Hs P) →
    ∃ T : IpaTree F G d, T.Distinct ∧ ∀ c ∈ T.paths, c.Accepts Gs Hs Q P ∧
      ∃ ro', Reprogrammed d ro ro' ∧ acc ro' ∧ Share n p lg ctx j ro ro' ∧ ContFrom cd n p lg j ro' c := by
  intro d
  induction d with
  | zero =>
    intro j ro hj hbr hjx Gs Hs P hG hH hgap
    have ha := hbr.acc
    obtain ⟨Ls, Rs, hL, hR, hlen⟩ := hq ro ha
    have hx : (xsOf n p lg ro).length = j := by
      have := xsOf_length n p lg ro
      rw [hL, List.length_map, hlen] at this
      omega
    have hs : Share n p lg ctx j ro ro := ⟨rfl, rfl, rfl, rfl, rfl, rfl, hjx⟩
    have hg := hgap ro ha hs Ls Rs hL hR
    rw [List.drop_eq_nil_of_le (by omega), gap_nil] at hg
    obtain ⟨T, hT, hc⟩ := synth_tree Q y hy (p ro).b 0 _ Gs Hs P hG hH hg
    refine ⟨T, hT, fun c hcm => ?_⟩
    obtain ⟨h1, h2, h3⟩ := hc c hcm
    refine ⟨h1, ro, Reprogrammed.refl _ _, ha, hs, ?_⟩
    simp only [ContFrom, hx, Nat.sub_self, List.take_zero, List.map_nil, List.drop_zero]
    refine ⟨?_, ?_, ?_, h2, h3⟩
    · rw [List.drop_eq_nil_of_le (by simp)]
    · rw [List.drop_eq_nil_of_le (by simp)]
    · rw [List.drop_eq_nil_of_le (by omega)]
  | succ d ih =>
    intro j ro hj hbr hjx Gs Hs P hG hH hgap
    have ha := hbr.acc
    obtain ⟨Ls, Rs, hL, hR, hlen⟩ := hq ro ha
    have hs : Share n p lg ctx j ro ro := ⟨rfl, rfl, rfl, rfl, rfl, rfl, hjx⟩
    have hxl := xsOf_length n p lg ro
    by_cases hx : (xsOf n p lg ro).length = j
    · -- the proof has no further rounds
      have hg := hgap ro ha hs Ls Rs hL hR
      rw [List.drop_eq_nil_of_le (by omega), gap_nil] at hg
      obtain ⟨T, hT, hc⟩ := synth_tree Q y hy (p ro).b (d + 1) _ Gs Hs P hG hH hg
      refine ⟨T, hT, fun c hcm => ?_⟩
      obtain ⟨h1, h2, h3⟩ := hc c hcm
      refine ⟨h1, ro, Reprogrammed.refl _ _, ha, hs, ?_⟩
      simp only [ContFrom, hx, Nat.sub_self, List.take_zero, List.map_nil, List.drop_zero]
      refine ⟨?_, ?_, ?_, h2, h3⟩
      · rw [List.drop_eq_nil_of_le (by simp)]
      · rw [List.drop_eq_nil_of_le (by simp)]
      · rw [List.drop_eq_nil_of_le (by omega)]
    · have hjL : j < Ls.length := by omega
      have hjR : j < Rs.length := by rw [hR, List.length_map] at hxl; omega
      have hk : key ro (i0 + (j + 1)) = some (lg ro ++ headLog n ++
          roundsLog ((p ro).L_vec.take (j + 1)) ((p ro).R_vec.take (j + 1))) := by
        rw [hkey ro _ ha, ipaKey, if_pos (by omega)]
      set l := lg ro ++ headLog n ++ roundsLog ((p ro).L_vec.take (j + 1)) ((p ro).R_vec.take (j + 1)) with hl
      obtain ⟨v, hv, hinj, -⟩ := Forks.pick (k := 3) hbr hk (∅ : Finset F) (by simpa using hK _)
      -- the messages of the round
      have hup : ∀ m, _ := fun m => share_update n p lg ctx (v := v m) (l := l)
        (by rw [← hkey ro _ ha]; exact hk) (by rw [← hkey _ _ (hv m).1.acc]; exact (hv m).2)
        (hctx ro l (v m) (j + 1) ha (hv m).1.acc hk (hv m).2)
      have key : ∀ m, ∃ T : IpaTree F G d, T.Distinct ∧ ∀ c ∈ T.paths,
          c.Accepts (foldG ((leNat (v m).toList : Nat) : F) Gs) (foldH ((leNat (v m).toList : Nat) : F) Hs) Q
            ((((leNat (v m).toList : Nat) : F) * ((leNat (v m).toList : Nat) : F)) • Ls[j] +
              ((leNat (v m).toList : Nat) : F) • P + Rs[j]) ∧
          ∃ ro', Reprogrammed d (Function.update ro l (v m)) ro' ∧ acc ro' ∧
            Share n p lg ctx (j + 1) (Function.update ro l (v m)) ro' ∧ ContFrom cd n p lg (j + 1) ro' c := by
        intro m
        obtain ⟨u1, u2, u3, u4, u5, u6⟩ := hup m
        refine ih (j + 1) (Function.update ro l (v m)) (by omega) (hv m).1 u6 _ _ _
          (by rw [foldG_length, hG, pow_succ]; omega) (by rw [foldH_length, hH, pow_succ]; omega) ?_
        intro ro' ha' hsh Ls' Rs' hL' hR'
        have hsh0 := Share.trans n p lg ctx u1 hsh
        have hg := hgap ro' ha' hsh0 Ls' Rs' hL' hR'
        obtain ⟨-, -, -, s4, s5, s6, s7⟩ := hsh
        have hxl' := xsOf_length n p lg ro'
        rw [hL', hR', List.length_map, List.length_map] at hxl'
        obtain ⟨Ls2, Rs2, hL2, -, hlen2⟩ := hq ro' ha'
        have hlen' : Ls'.length = q := by
          have := congrArg List.length (hL2.symm.trans hL')
          rw [List.length_map, List.length_map] at this; omega
        have eL : Ls'[j]'(by omega) = Ls[j] := by
          have e := s4.trans u2
          rw [hL, hL'] at e
          have := congrArg (fun l => l[j]?) e
          simp only [List.getElem?_take, Nat.lt_succ_self, if_true, List.getElem?_map,
            List.getElem?_eq_getElem (show j < Ls'.length by omega), List.getElem?_eq_getElem hjL,
            Option.map_some, Option.some.injEq] at this
          exact compress_inj cd this
        have eR : Rs'[j]'(by omega) = Rs[j] := by
          have e := s5.trans u3
          rw [hR, hR'] at e
          have := congrArg (fun l => l[j]?) e
          simp only [List.getElem?_take, Nat.lt_succ_self, if_true, List.getElem?_map,
            List.getElem?_eq_getElem (show j < Rs'.length by omega), List.getElem?_eq_getElem hjR,
            Option.map_some, Option.some.injEq] at this
          exact compress_inj cd this
        have ex : (xsOf n p lg ro')[j]'(by omega) = ((leNat (v m).toList : Nat) : F) := by
          have e := s6.trans u4
          have := congrArg (fun l => l[j]?) e
          simp only [List.getElem?_take, Nat.lt_succ_self, if_true,
            List.getElem?_eq_getElem (show j < (xsOf n p lg ro').length by omega)] at this
          rw [List.getElem?_append_right (by simp)] at this
          rw [List.length_take, min_eq_left (by omega), Nat.sub_self, List.getElem?_cons_zero,
            Option.some.injEq] at this
          exact this
        rw [List.drop_eq_getElem_cons (show j < (xsOf n p lg ro').length by omega),
          List.drop_eq_getElem_cons (show j < Ls'.length by omega),
          List.drop_eq_getElem_cons (show j < Rs'.length by omega), eL, eR, ex,
          gap_cons _ _ _ _ _ _ _ _ _ _ _ _ _ (by simp; omega) hG hH] at hg
        exact hg
      choose T hT hc using key
      refine ⟨.node Ls[j] Rs[j] (fun m => ((leNat (v m).toList : Nat) : F)) T,
        by rw [IpaTree.Distinct]; exact ⟨hinj, hT⟩, fun c hc' => ?_⟩
      simp only [IpaTree.paths, List.mem_flatMap, List.mem_map] at hc'
      obtain ⟨m, -, c, hcm, rfl⟩ := hc'
      obtain ⟨h1, ro', h2, h3, h4, h5⟩ := hc m c hcm
      have hpl := (paths_length (T m) c hcm).1
      obtain ⟨u1, u2, u3, u4, u5, u6⟩ := hup m
      refine ⟨(accepts_cons _ _ _ _ _ _ _ _ (by rw [hpl]; exact hG) (by rw [hpl]; exact hH)).2 h1,
        ro', h2.update, h3, Share.trans n p lg ctx u1 h4, ?_⟩
      obtain ⟨-, -, -, s4, s5, s6, s7⟩ := h4
      obtain ⟨c1, c2, c3, c4, c5⟩ := h5
      have hxl' := xsOf_length n p lg ro'
      have hr : (xsOf n p lg ro').length - j = ((xsOf n p lg ro').length - (j + 1)) + 1 := by omega
      have eL : (p ro').L_vec[j]? = some (cd.compress Ls[j]) := by
        have := congrArg (fun l => l[j]?) (s4.trans u2)
        simp only [List.getElem?_take, Nat.lt_succ_self, if_true] at this
        rw [this, hL, List.getElem?_map, List.getElem?_eq_getElem hjL, Option.map_some]
      have eR : (p ro').R_vec[j]? = some (cd.compress Rs[j]) := by
        have := congrArg (fun l => l[j]?) (s5.trans u3)
        simp only [List.getElem?_take, Nat.lt_succ_self, if_true] at this
        rw [this, hR, List.getElem?_map, List.getElem?_eq_getElem hjR, Option.map_some]
      have ex : (xsOf n p lg ro')[j]'(by omega) = ((leNat (v m).toList : Nat) : F) := by
        have e := s6.trans u4
        have := congrArg (fun l => l[j]?) e
        simp only [List.getElem?_take, Nat.lt_succ_self, if_true,
          List.getElem?_eq_getElem (show j < (xsOf n p lg ro').length by omega)] at this
        rw [List.getElem?_append_right (by simp)] at this
        rw [List.length_take, min_eq_left (by omega), Nat.sub_self, List.getElem?_cons_zero,
          Option.some.injEq] at this
        exact this
      have hd : ∀ (A : List Comp) (w : Comp), A[j]? = some w → j < A.length →
          (A.take (xsOf n p lg ro').length).drop j = w :: (A.take (xsOf n p lg ro').length).drop (j + 1) := by
        intro A w hw hA
        rw [List.drop_eq_getElem_cons (by simp; omega), List.getElem_take]
        rw [List.getElem?_eq_getElem hA, Option.some.injEq] at hw
        rw [hw]
      refine ⟨?_, ?_, ?_, ?_, c5⟩
      · rw [hd _ _ eL (by omega), hr, List.take_succ_cons, List.map_cons, c1]
      · rw [hd _ _ eR (by omega), hr, List.take_succ_cons, List.map_cons, c2]
      · rw [hr, List.take_succ_cons, c3, List.drop_eq_getElem_cons (show j < (xsOf n p lg ro').length by omega), ex]
      · rw [hr, List.drop_succ_cons, c4]

end

/-! ### The inner-product argument -/

theorem ipaHistories_getElem (log : List Event) (n : Nat) (p : NoZK F) (j : Nat) :
    (ipaHistories log n p)[j]? = ipaKey log n p.L_vec p.R_vec j := by
  unfold ipaHistories ipaKey
  rw [List.getElem?_map]
  split
  · rw [List.getElem?_range (by omega)]; rfl
  · rw [List.getElem?_eq_none (by simp; omega)]; rfl

section
variable {γ : Type} [DecidableEq G] (cd : Codec G) {q : Nat}
  {K : Nat → Nat} (hK : ∀ i, 4 ≤ K i)
  {acc : Hash → Prop} {key : Hash → Nat → Option (List Event)} (i0 : Nat) (lg : Hash → List Event) (ctx : Hash → γ)
  (Gs Hs : γ → List G) (hG : ∀ c, (Gs c).length = 2 ^ q) (hH : ∀ c, (Hs c).length = 2 ^ q) (Q : G) (P : γ → G)
  (t : γ → F)

include hK hG hH in
/-- A prover of the inner-product argument that branches at all challenges. -/
theorem ipa_forks (p : Hash → NoZK F)
    (hacc : ∀ ro, acc ro → ∃ tr', (p ro).verify ⟨cd, ro⟩ ⟨lg ro⟩ (Gs (ctx ro)) (Hs (ctx ro)) Q (2 ^ q) (P (ctx ro))
      (t (ctx ro)) = .ok (true, tr'))
    (hkey : ∀ ro j, acc ro → key ro (i0 + j) = (ipaHistories (lg ro) (2 ^ q) (p ro))[j]?)
    (hctx : ∀ ro l v j, acc ro → acc (Function.update ro l v) → key ro (i0 + j) = some l →
      key (Function.update ro l v) (i0 + j) = some l → ctx (Function.update ro l v) = ctx ro)
    (ro : Hash) (hbr : Forks (scalarOf F) acc key K (q + 1) i0 ro) :
    ∃ (α : Fin 2 → F) (T : Fin 2 → IpaTree F G q), (∀ i, (T i).Distinct) ∧ α 0 ≠ α 1 ∧ (∀ i, α i ≠ 0) ∧
      ∀ i, ∀ c ∈ (T i).paths,
        c.Accepts (Gs (ctx ro)) (Hs (ctx ro)) ((α i)⁻¹ • Q)
          (P (ctx ro) - ((α i - 1) * t (ctx ro)) • ((α i)⁻¹ • Q)) ∧
        ∃ ro', Reprogrammed (q + 1) ro ro' ∧ acc ro' ∧ ctx ro' = ctx ro ∧ lg ro' = lg ro ∧
          ipaAlpha F ro' (lg ro') (2 ^ q) = α i ∧
          Continues cd (p ro') (ipaChallenges F ro' (lg ro') (2 ^ q) (p ro').L_vec (p ro').R_vec) c := by
  have hkey' : ∀ ro j, acc ro → key ro (i0 + j) = ipaKey (lg ro) (2 ^ q) (p ro).L_vec (p ro).R_vec j := by
    intro ro j h; rw [hkey ro j h, ipaHistories_getElem]
  have hpts : ∀ ro, acc ro → ∃ Ls Rs : List G, (p ro).L_vec = Ls.map cd.compress ∧
      (p ro).R_vec = Rs.map cd.compress ∧ Ls.length = q := by
    intro ro h
    obtain ⟨tr', h⟩ := hacc ro h
    obtain ⟨h1, h2, h3, h4, h5, h6⟩ := (C22_ipa_verify_returns_iff _ _ _ _ _ _ _ _ _).1 ⟨_, h⟩
    obtain ⟨Ls, hL⟩ := (decodable_iff (⟨cd, ro⟩ : Ctx G) _).1 h1
    obtain ⟨Rs, hR⟩ := (decodable_iff (⟨cd, ro⟩ : Ctx G) _).1 h2
    refine ⟨Ls, Rs, hL, hR, ?_⟩
    rw [hL, List.length_map] at h4
    exact (Nat.pow_right_injective le_rfl h4).symm
  have ha := hbr.acc
  have hk : key ro i0 = some (lg ro ++ headLog (2 ^ q)) := by
    have := hkey' ro 0 ha
    rw [Nat.add_zero] at this
    rw [this, ipaKey, if_pos (Nat.zero_le _)]
    simp [roundsLog]
  set l := lg ro ++ headLog (2 ^ q) with hl
  obtain ⟨w, -, hw, -⟩ := Forks.pick (k := 3) hbr hk (∅ : Finset F) (by simpa using hK _)
  obtain ⟨v, hv, hinj, hne⟩ := Forks.pick (k := 1) hbr hk ({0} : Finset F)
    (by rw [Finset.card_singleton]; exact le_trans (by omega) (hK _))
  have hl0 : ∀ i, lg (Function.update ro l (v i)) = lg ro := by
    intro i
    have h1 := hkey' ro 0 ha
    have h2 := hkey' _ 0 (hv i).1.acc
    rw [Nat.add_zero] at h1 h2
    exact (ipaKey_inj (h1.symm.trans hk) (h2.symm.trans (hv i).2)).1
  have hc0 : ∀ i, ctx (Function.update ro l (v i)) = ctx ro := fun i =>
    hctx ro l (v i) 0 ha (hv i).1.acc hk (hv i).2
  have hα : ∀ i, alOf F (2 ^ q) lg (Function.update ro l (v i)) = ((leNat (v i).toList : Nat) : F) := by
    intro i
    rw [alOf, hl0 i, ipaAlpha, squeeze, Function.update_self]
  have tree : ∀ i, ∃ T : IpaTree F G q, T.Distinct ∧ ∀ c ∈ T.paths,
      c.Accepts (Gs (ctx ro)) (Hs (ctx ro)) (((leNat (v i).toList : Nat) : F)⁻¹ • Q)
        (P (ctx ro) - ((((leNat (v i).toList : Nat) : F) - 1) * t (ctx ro)) • (((leNat (v i).toList : Nat) : F)⁻¹ • Q)) ∧
      ∃ ro', Reprogrammed q (Function.update ro l (v i)) ro' ∧ acc ro' ∧
        Share (2 ^ q) p lg ctx 0 (Function.update ro l (v i)) ro' ∧ ContFrom cd (2 ^ q) p lg 0 ro' c := by
    intro i
    refine ipa_tree cd (2 ^ q) q p lg ctx i0 hK _ hw hpts hkey' hctx _ q 0 _ (by omega)
      (by simpa using (hv i).1) (Nat.zero_le _) _ _ _ (hG _) (hH _) ?_
    rintro ro' ha' ⟨s1, s2, s3, -⟩ Ls Rs hL hR
    obtain ⟨tr', h⟩ := hacc ro' ha'
    have hver := (C22_ipa_verify_returns_iff _ _ _ _ _ _ _ _ _).1 ⟨_, h⟩
    have := C19_ipa_verdict (⟨cd, ro'⟩ : Ctx G) (p ro') ⟨lg ro'⟩ (Gs (ctx ro')) (Hs (ctx ro')) Q (2 ^ q) (P (ctx ro'))
      (t (ctx ro')) Ls Rs hL hR hver
    rw [h] at this
    rw [Except.ok.injEq, Prod.mk.injEq] at this
    have := of_decide_eq_true this.1.symm
    have hlen : (p ro').L_vec.length = q := by
      obtain ⟨Ls', -, hL', -, hl'⟩ := hpts ro' ha'
      rw [hL', List.length_map, hl']
    have e : ipaAlpha F ro' (lg ro') (2 ^ q) = ((leNat (v i).toList : Nat) : F) := s3.trans (hα i)
    have ec : ctx ro' = ctx ro := s1.trans (hc0 i)
    simp only [List.drop_zero]
    rw [Gap, xsOf_length, hlen]
    simp only [hlen, e, ec] at this
    exact this
  choose T hT hc using tree
  refine ⟨fun i => ((leNat (v i).toList : Nat) : F), T, hT, fun h => absurd (hinj h) (by decide), fun i h => hne i (by simp [h]), fun i c hcm => ?_⟩
  obtain ⟨h1, ro', h2, h3, ⟨s1, s2, s3, -⟩, c1, c2, c3, c4, c5⟩ := hc i c hcm
  refine ⟨h1, ro', h2.update, h3, s1.trans (hc0 i), s2.trans (hl0 i), s3.trans (hα i), ?_⟩
  simp only [Nat.sub_zero, List.drop_zero] at c1 c2 c3 c4
  exact ⟨c1, c2, c3, c4, c5⟩

include hK hG hH in
/-- A prover of AlmZK that branches at all challenges. -/
theorem alm_forks (p : Hash → AlmZK F)
    (hacc : ∀ ro, acc ro → ∃ tr', (p ro).verify ⟨cd, ro⟩ ⟨lg ro⟩ (Gs (ctx ro)) (Hs (ctx ro)) Q (2 ^ q) (P (ctx ro))
      (t (ctx ro)) = .ok (true, tr'))
    (hkey : ∀ ro j, acc ro → key ro (i0 + j) =
      (almHistories cd ro (lg ro) (2 ^ q) Q (P (ctx ro)) (t (ctx ro)) (p ro))[j]?)
    (hctx : ∀ ro l v j, acc ro → acc (Function.update ro l v) → key ro (i0 + j) = some l →
      key (Function.update ro l v) (i0 + j) = some l → ctx (Function.update ro l v) = ctx ro)
    (ro : Hash) (hbr : Forks (scalarOf F) acc key K (q + 2) i0 ro) :
    ∃ (C_r : G) (β : Fin 3 → F) (α : Fin 3 → Fin 2 → F) (T : Fin 3 → Fin 2 → IpaTree F G q),
      (∀ i j, (T i j).Distinct) ∧ Function.Injective β ∧ (∀ i, α i 0 ≠ α i 1) ∧ (∀ i j, α i j ≠ 0) ∧
      ∀ i j, ∀ c ∈ (T i j).paths,
        c.Accepts (Gs (ctx ro)) (Hs (ctx ro)) ((α i j)⁻¹ • Q)
          (β i • P (ctx ro) + C_r + (β i * β i * t (ctx ro)) • Q -
            ((α i j - 1) * (β i * β i * t (ctx ro))) • ((α i j)⁻¹ • Q)) ∧
        ∃ ro', Reprogrammed (q + 2) ro ro' ∧ acc ro' ∧ ctx ro' = ctx ro ∧ lg ro' = lg ro ∧
          (p ro').C_r = cd.compress C_r ∧ almBeta F ro' (lg ro') (p ro').C_r = β i ∧
          (let lg' := almLog cd ro' (lg ro') Q (P (ctx ro')) (t (ctx ro')) (p ro').C_r;
          ipaAlpha F ro' lg' (2 ^ q) = α i j ∧
          Continues cd (p ro').NoZK (ipaChallenges F ro' lg' (2 ^ q) (p ro').NoZK.L_vec (p ro').NoZK.R_vec) c) := by
  have ha := hbr.acc
  have hk0 : ∀ ro, acc ro → key ro i0 = some (lg ro ++ [.msg "C_r" (p ro).C_r, .chal "beta" 64]) := by
    intro ro h
    have := hkey ro 0 h
    rwa [Nat.add_zero] at this
  have hk := hk0 ro ha
  set l := lg ro ++ [.msg "C_r" (p ro).C_r, .chal "beta" 64] with hl
  obtain ⟨v, hv, hinj, -⟩ := Forks.pick (k := 2) hbr hk (∅ : Finset F)
    (by rw [Finset.card_empty]; exact le_trans (by omega) (hK _))
  -- the inner argument
  set lgI : Hash → List Event := fun ro => almLog cd ro (lg ro) Q (P (ctx ro)) (t (ctx ro)) (p ro).C_r with hlgI
  set bt : Hash → F := fun ro => almBeta F ro (lg ro) (p ro).C_r with hbt
  have hpar : ∀ ro ro', lgI ro' = lgI ro → lg ro' = lg ro ∧ (p ro').C_r = (p ro).C_r := by
    intro ro ro' h
    simp only [hlgI, almLog] at h
    obtain ⟨h1, h2⟩ := List.append_inj' h rfl
    simp only [almHead, List.cons.injEq, Event.msg.injEq, true_and] at h2
    exact ⟨h1, h2.1⟩
  have hdec : ∀ ro, acc ro → ∃ C_r, (p ro).C_r = cd.compress C_r ∧ (cd.decompress (p ro).C_r).getD 0 = C_r := by
    intro ro h
    obtain ⟨tr', h⟩ := hacc ro h
    cases hd : cd.decompress (p ro).C_r with
    | none =>
      exfalso
      rw [alm_verify_undecodable (⟨cd, ro⟩ : Ctx G) _ _ _ _ _ _ _ _ hd] at h
      cases h
    | some C => exact ⟨C, (cd.compress_decompress _ _ hd).symm, rfl⟩
  have hl0 : ∀ i, lg (Function.update ro l (v i)) = lg ro ∧ (p (Function.update ro l (v i))).C_r = (p ro).C_r := by
    intro i
    have h2 := hk0 _ (hv i).1.acc
    rw [(hv i).2, Option.some.injEq] at h2
    obtain ⟨h1, h2⟩ := List.append_inj' (h2.symm.trans hl) rfl
    simp only [List.cons.injEq, Event.msg.injEq, true_and, and_true] at h2
    exact ⟨h1, h2⟩
  have hc0 : ∀ i, ctx (Function.update ro l (v i)) = ctx ro := fun i =>
    hctx ro l (v i) 0 ha (hv i).1.acc hk (hv i).2
  have hβ : ∀ i, bt (Function.update ro l (v i)) = ((leNat (v i).toList : Nat) : F) := by
    intro i
    simp only [hbt]
    rw [(hl0 i).1, (hl0 i).2, almBeta, squeeze, ← hl, Function.update_self]
  obtain ⟨C_r, hCc, hCd⟩ := hdec ro ha
  have inner := fun i => ipa_forks cd hK (acc := acc) (key := key) (i0 + 1) lgI
    (fun ro => (ctx ro, bt ro, (p ro).C_r)) (fun c => Gs c.1) (fun c => Hs c.1) (fun c => hG c.1) (fun c => hH c.1) Q
    (fun c => c.2.1 • P c.1 + (cd.decompress c.2.2).getD 0 + (c.2.1 * c.2.1 * t c.1) • Q)
    (fun c => c.2.1 * c.2.1 * t c.1) (fun ro => (p ro).NoZK)
    (by
      intro ro h
      obtain ⟨C, hC, hC'⟩ := hdec ro h
      obtain ⟨tr', h⟩ := hacc ro h
      rw [alm_verify_eq _ _ _ _ _ _ _ _ _ C hC] at h
      refine ⟨tr', ?_⟩
      simp only [hlgI, almLog, hC']
      exact h)
    (by
      intro ro j h
      rw [Nat.add_assoc, hkey ro _ h, almHistories, Nat.add_comm 1 j, List.getElem?_cons_succ])
    (by
      intro ro l v j h h' hk hk'
      have e1 := hkey ro (1 + j) h
      have e2 := hkey _ (1 + j) h'
      rw [Nat.add_assoc] at hk hk'
      rw [e1, almHistories, Nat.add_comm 1 j, List.getElem?_cons_succ, ipaHistories_getElem] at hk
      rw [e2, almHistories, Nat.add_comm 1 j, List.getElem?_cons_succ, ipaHistories_getElem] at hk'
      obtain ⟨h1, -, -, h4, -⟩ := ipaKey_inj hk hk'
      obtain ⟨h5, h6⟩ := hpar _ _ h1
      have hlen : l.length = (lg ro).length + 5 + 3 * j := by
        rw [ipaKey, if_pos h4, Option.some.injEq] at hk
        rw [← hk, List.length_append, roundsLog_take_length _ _ _ h4]
        simp [almLog, almHead, headLog]
      refine Prod.ext (hctx ro l v (1 + j) h h' ?_ ?_) (Prod.ext ?_ h6)
      · rw [e1, almHistories, Nat.add_comm 1 j, List.getElem?_cons_succ, ipaHistories_getElem, hk]
      · rw [e2, almHistories, Nat.add_comm 1 j, List.getElem?_cons_succ, ipaHistories_getElem, hk']
      · simp only [hbt]
        rw [h5, h6, almBeta, almBeta, squeeze, squeeze, Function.update_of_ne]
        intro e
        have := congrArg List.length e
        rw [hlen] at this
        simp at this
        omega)
    (Function.update ro l (v i)) (hv i).1
  choose α T hT hα hα0 hc using inner
  refine ⟨C_r, _, α, T, hT, hinj, hα, hα0, fun i j c hcm => ?_⟩
  obtain ⟨h1, ro', h2, h3, h4, h5, h6, h7⟩ := hc i j c hcm
  simp only [Prod.mk.injEq] at h4
  obtain ⟨h4a, h4b, h4c⟩ := h4
  simp only [hβ i, hc0 i, (hl0 i).2, hCd] at h1
  exact ⟨h1, ro', h2.update, h3, h4a.trans (hc0 i), (hpar _ _ h5).1.trans (hl0 i).1,
    (h4c.trans (hl0 i).2).trans hCc, h4b.trans (hβ i), h6, h7⟩

end
end Qesa.Props
