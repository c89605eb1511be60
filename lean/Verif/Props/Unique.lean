import Verif.SpecUnique
import Verif.Props.Copy
import Verif.Props.QesaSound
import Verif.Props.LmpaK
import Verif.Toy
/-
C90: which parts of a proof are ignored, and that the last message is determined by the others.
-/
namespace Qesa.Props
open Qesa Spec Ipa

section
variable {F G : Type} [Field F] [AddCommGroup G] [Module F G]

theorem dot_getD (u : List F) : ∀ Gs : List G, u.length = Gs.length →
    dot u Gs = ∑ i ∈ Finset.range Gs.length, u.getD i 0 • Gs.getD i 0 := by
  induction u with
  | nil => intro Gs h; cases Gs <;> simp_all [dot]
  | cons y u ih =>
    intro Gs h
    cases Gs with
    | nil => simp at h
    | cons g Gs =>
      rw [dot_cons, ih Gs (by simpa using h), List.length_cons, Finset.sum_range_succ', add_comm]
      simp

theorem combined_spread (w : Nat → F) (k r : Nat) (Gs : List G) :
    combined w k r Gs = dot (spread w k r Gs.length) Gs := by
  rw [dot_getD _ _ (by simp [spread])]
  have hs : 0 < 2 ^ (k - r) := Nat.two_pow_pos _
  have e : ∀ i ∈ Finset.range Gs.length, (spread w k r Gs.length).getD i 0 • Gs.getD i 0 =
      if i % 2 ^ (k - r) = 0 ∧ i / 2 ^ (k - r) < 2 ^ r then w (i / 2 ^ (k - r)) • Gs.getD i 0 else 0 := by
    intro i hi
    rw [Finset.mem_range] at hi
    rw [List.getD_eq_getElem _ _ (by simpa [spread] using hi)]
    simp only [spread, List.getElem_ofFn]
    split <;> simp
  rw [Finset.sum_congr rfl e, ← Finset.sum_filter, combined]
  have e2 : ∑ j ∈ Finset.range (2 ^ r), w j • Gs.getD (j * 2 ^ (k - r)) 0 =
      ∑ j ∈ (Finset.range (2 ^ r)).filter (fun j => j * 2 ^ (k - r) < Gs.length),
        w j • Gs.getD (j * 2 ^ (k - r)) 0 := by
    rw [Finset.sum_filter]
    refine Finset.sum_congr rfl fun j _ => ?_
    split
    · rfl
    · rename_i h
      rw [List.getD_eq_default _ _ (by omega), smul_zero]
  rw [e2]
  refine Finset.sum_nbij (fun j => j * 2 ^ (k - r)) ?_ ?_ ?_ ?_
  · intro j hj
    simp only [Finset.mem_filter, Finset.mem_range] at hj ⊢
    exact ⟨hj.2, Nat.mul_mod_left _ _, by rw [Nat.mul_div_cancel _ hs]; exact hj.1⟩
  · intro j _ j' _ h
    exact Nat.eq_of_mul_eq_mul_right hs h
  · intro i hi
    simp only [Finset.coe_filter, Finset.mem_range, Set.mem_ofPred_eq] at hi
    refine ⟨i / 2 ^ (k - r), ?_, Nat.div_mul_cancel (Nat.dvd_of_mod_eq_zero hi.2.1)⟩
    simp only [Finset.coe_filter, Finset.mem_range, Set.mem_ofPred_eq]
    exact ⟨hi.2.2, by rw [Nat.div_mul_cancel (Nat.dvd_of_mod_eq_zero hi.2.1)]; exact hi.1⟩
  · intro j _
    rw [Nat.mul_div_cancel _ hs]

omit [AddCommGroup G] [Module F G] in
theorem weightG_zero (xs : List F) : weightG xs 0 = 1 := by
  simp [weightG]

omit [AddCommGroup G] [Module F G] in
theorem weightH_last (xs : List F) : weightH xs (2 ^ xs.length - 1) = 1 := by
  unfold weightH
  refine Finset.prod_eq_one fun j _ => ?_
  rw [if_pos]
  rw [Nat.testBit_two_pow_sub_one]
  simp only [decide_eq_true_eq]
  have := j.2
  omega

/-- C90: the last message of the inner-product argument is determined by the others. If two proofs with the same
points are both accepted, for the same statement and the same transcript, and their last messages differ, then
`finalRelation` is a non-trivial relation between the generators. -/
theorem C90_ipa_unique [DecidableEq G] (cx : Ctx G) (p p' : NoZK F) (tr tr1 tr2 : Transcript) (Gs Hs : List G)
    (Q : G) (n : Nat) (P : G) (t : F) (h : p.verify cx tr Gs Hs Q n P t = .ok (true, tr1))
    (h' : p'.verify cx tr Gs Hs Q n P t = .ok (true, tr2)) (hL : p'.L_vec = p.L_vec) (hR : p'.R_vec = p.R_vec)
    (hne : ¬ (p.a = p'.a ∧ p.b = p'.b)) :
    IsRelation Gs Hs Q (finalRelation (ipaAlpha F cx.ro tr.log n)
      (ipaChallenges F cx.ro tr.log n p.L_vec p.R_vec) p.L_vec.length (min p.L_vec.length p.R_vec.length)
      Gs.length Hs.length p.a p.b p'.a p'.b) := by
  have hv := (C22_ipa_verify_returns_iff cx p tr Gs Hs Q n P t).1 ⟨_, h⟩
  have hv' := (C22_ipa_verify_returns_iff cx p' tr Gs Hs Q n P t).1 ⟨_, h'⟩
  obtain ⟨Ls, hLs⟩ := (decodable_iff cx _).1 hv.1
  obtain ⟨Rs, hRs⟩ := (decodable_iff cx _).1 hv.2.1
  rw [C19_ipa_verdict cx p tr Gs Hs Q n P t Ls Rs hLs hRs hv] at h
  rw [C19_ipa_verdict cx p' tr Gs Hs Q n P t Ls Rs (hL.trans hLs) (hR.trans hRs) hv'] at h'
  simp only [hL, hR, Except.ok.injEq, Prod.mk.injEq, decide_eq_true_eq] at h h'
  have e := h.1.trans h'.1.symm
  obtain ⟨-, -, -, hn, hG, hH⟩ := hv
  have hr := ipaChallenges_length (F := F) cx.ro tr.log n p.L_vec p.R_vec
  set xs := ipaChallenges F cx.ro tr.log n p.L_vec p.R_vec
  set k := p.L_vec.length
  set r := min k p.R_vec.length with hrdef
  set α := ipaAlpha F cx.ro tr.log n
  have hkr : k - p.R_vec.length = k - r := by omega
  rw [hkr] at hG hH
  have hs : 0 < 2 ^ (k - r) := Nat.two_pow_pos _
  have h2 : 2 ^ r * 2 ^ (k - r) = 2 ^ k := by rw [← Nat.pow_add]; congr 1; omega
  refine ⟨by simp [finalRelation, spread], by simp [finalRelation, spread], ?_, ?_⟩
  · by_cases ha : p.a = p'.a
    · have hb : p.b ≠ p'.b := fun hb => hne ⟨ha, hb⟩
      have hi : (2 ^ r - 1) * 2 ^ (k - r) < Hs.length := by
        rw [Nat.sub_mul, h2, one_mul, ← hn]; exact hH
      have e1 : (spread (weightH xs) k r Hs.length)[(2 ^ r - 1) * 2 ^ (k - r)]'(by simpa [spread] using hi) = 1 := by
        simp only [spread, List.getElem_ofFn]
        rw [if_pos ⟨Nat.mul_mod_left _ _, by
          rw [Nat.mul_div_cancel _ hs]; have := Nat.two_pow_pos r; omega⟩, Nat.mul_div_cancel _ hs, ← hr]
        exact weightH_last xs
      refine ⟨p.b - p'.b, ?_, sub_ne_zero.2 hb⟩
      refine List.mem_append_left _ (List.mem_append_right _ ?_)
      refine List.mem_map.2 ⟨1, ?_, one_mul _⟩
      rw [← e1]
      exact List.getElem_mem _
    · have e1 : (spread (weightG xs) k r Gs.length)[0]'(by simp [spread]; omega) = 1 := by
        simp only [spread, List.getElem_ofFn]
        rw [if_pos ⟨Nat.zero_mod _, by rw [Nat.zero_div]; exact Nat.two_pow_pos r⟩, Nat.zero_div]
        exact weightG_zero xs
      refine ⟨p.a - p'.a, ?_, sub_ne_zero.2 ha⟩
      refine List.mem_append_left _ (List.mem_append_left _ ?_)
      refine List.mem_map.2 ⟨1, ?_, one_mul _⟩
      rw [← e1]
      exact List.getElem_mem _
  · simp only [finalRelation, dot_map_mul_left]
    rw [← combined_spread, ← combined_spread]
    have : (p.a - p'.a) • combined (weightG xs) k r Gs + (p.b - p'.b) • combined (weightH xs) k r Hs +
        ((p.a * p.b - p'.a * p'.b) * α⁻¹) • Q =
        (p.a • combined (weightG xs) k r Gs + p.b • combined (weightH xs) k r Hs + (p.a * p.b) • (α⁻¹ • Q)) -
        (p'.a • combined (weightG xs) k r Gs + p'.b • combined (weightH xs) k r Hs +
          (p'.a * p'.b) • (α⁻¹ • Q)) := by
      simp only [sub_smul, mul_smul]
      abel
    rw [this, e, sub_self]

/-- C90: the same for AlmZK. -/
theorem C90_alm_unique [DecidableEq G] (cx : Ctx G) (p p' : AlmZK F) (tr tr1 tr2 : Transcript) (Gs Hs : List G)
    (Q : G) (n : Nat) (C_w : G) (t : F) (C_r : G) (h : p.verify cx tr Gs Hs Q n C_w t = .ok (true, tr1))
    (h' : p'.verify cx tr Gs Hs Q n C_w t = .ok (true, tr2)) (hr : cx.decompress p.C_r = some C_r)
    (hC : p'.C_r = p.C_r) (hL : p'.NoZK.L_vec = p.NoZK.L_vec) (hR : p'.NoZK.R_vec = p.NoZK.R_vec)
    (hne : ¬ (p.NoZK.a = p'.NoZK.a ∧ p.NoZK.b = p'.NoZK.b)) :
    IsRelation Gs Hs Q (almRelation cx tr.log Q n C_w t C_r Gs.length Hs.length p p') := by
  have hr := (cx.compress_decompress _ _ hr).symm
  rw [alm_verify_eq cx p tr Gs Hs Q n C_w t C_r hr] at h
  rw [alm_verify_eq cx p' tr Gs Hs Q n C_w t C_r (hC.trans hr), hC] at h'
  exact C90_ipa_unique cx p.NoZK p'.NoZK _ tr1 tr2 Gs Hs Q n _ _ h h' hL hR hne

/-- C90: the same for QESA, unless the hash yields the challenge `x = 0`. -/
theorem C90_qesa_unique [DecidableEq G] {m k : Nat} (hm : 0 < m) (cx : Ctx G) (p p' : Inner.Proof F)
    (tr tr1 tr2 : Transcript) (Gs Hs : List G) (Q : G) (Ms : Fin (k + 1) → Matrix (Fin m) (Fin m) F)
    (C' C'' C_r : G) (hG : Gs.length = m + 2) (hH : Hs.length = m + 2)
    (h : p.verify cx tr Gs Hs Q ⟨List.ofFn fun i => rows (Ms i)⟩ = .ok (true, tr1))
    (h' : p'.verify cx tr Gs Hs Q ⟨List.ofFn fun i => rows (Ms i)⟩ = .ok (true, tr2))
    (h1 : cx.decompress p.c_prime_w = some C') (h2 : cx.decompress p.c_prime_prime_w = some C'')
    (h3 : cx.decompress p.alm_zk.C_r = some C_r)
    (e1 : p'.c_prime_w = p.c_prime_w) (e2 : p'.c_prime_prime_w = p.c_prime_prime_w)
    (e3 : p'.alm_zk.C_r = p.alm_zk.C_r) (e4 : p'.alm_zk.NoZK.L_vec = p.alm_zk.NoZK.L_vec)
    (e5 : p'.alm_zk.NoZK.R_vec = p.alm_zk.NoZK.R_vec)
    (hne : ¬ (p.alm_zk.NoZK.a = p'.alm_zk.NoZK.a ∧ p.alm_zk.NoZK.b = p'.alm_zk.NoZK.b))
    (hx : qesaX F cx.ro tr.log p.c_prime_w ≠ 0) :
    IsRelation Gs Hs Q (qesaRelation cx tr.log Gs Hs Q Ms C' C'' C_r p.alm_zk p'.alm_zk) := by
  have h1 := (cx.compress_decompress _ _ h1).symm
  have h2 := (cx.compress_decompress _ _ h2).symm
  obtain ⟨g0, Gs0, hGs⟩ := List.exists_cons_of_ne_nil (l := Gs) (by rintro rfl; simp at hG)
  rw [Inner.verify_eq hm cx p tr Gs Hs Q Ms C' C'' h1 h2 g0 Gs0 hGs hG hH] at h
  rw [Inner.verify_eq hm cx p' tr Gs Hs Q Ms C' C'' (e1.trans h1) (e2.trans h2) g0 Gs0 hGs hG hH, e1, e2] at h'
  have hlen : ∀ β : F, (rescaled β Gs).length = Gs.length := by intro β; rw [hGs]; rfl
  have := C90_alm_unique cx p.alm_zk p'.alm_zk _ tr1 tr2 _ Hs Q (m + 2) _ _ C_r h h' h3 e3 e4 e5 hne
  rw [hlen] at this
  have := unscale_relation _ (pow_ne_zero 2 hx) Gs Hs Q _ this
  unfold qesaRelation
  rw [← h1, ← h2]
  have hg : Gs.headD 0 = g0 := by rw [hGs]; rfl
  rw [hg]
  exact this

/-- C90: the field `c_prime_w` of the inner proof of a Copy proof is never read. -/
theorem C90_copy_ignored [DecidableEq G] (cx : Ctx G) (p : Copy.Proof F) (c : Comp) (tr : Transcript)
    (Gs Hs : List G) (Q : G) (block : BlockMatrix F) (map : Copy.Mapping) (Cs : List G) :
    ({ p with inner := { p.inner with c_prime_w := c } } : Copy.Proof F).verify cx tr Gs Hs Q block map Cs =
      p.verify cx tr Gs Hs Q block map Cs := rfl

/-- C90: apart from that field, the last message of a Copy proof is determined by the others in the same way. -/
theorem C90_copy_unique [DecidableEq G] {m ws : Nat} (cx : Ctx G) (p p' : Copy.Proof F)
    (tr tr1 tr2 : Transcript) (Gs Hs : List G) (Q : G) (Us : List (Matrix (Fin (m + 1)) (Fin (m + 1)) F))
    (sets : List (List Nat)) (map : Copy.Mapping) (Cs : List G) (C_w C'' C_r : G) (hG : Gs.length = m + 3)
    (hH : Hs.length = m + 3) (hn : Gs.length < 65536) (hws : ws < 65536) (hs : sets.length ≤ 65536)
    (hmap : Copy.computeMapping Gs.length ws sets = .ok map)
    (hi : ∀ s ∈ sets, ∀ i ∈ s, i < m + 1) (hC : Cs.length = sets.length)
    (h : p.verify cx tr Gs Hs Q ⟨Us.map rows⟩ map Cs = .ok (true, tr1))
    (h' : p'.verify cx tr Gs Hs Q ⟨Us.map rows⟩ map Cs = .ok (true, tr2))
    (h1 : cx.decompress p.C_w = some C_w) (h2 : cx.decompress p.inner.c_prime_prime_w = some C'')
    (h3 : cx.decompress p.inner.alm_zk.C_r = some C_r) (e1 : p'.C_w = p.C_w)
    (e2 : p'.inner.c_prime_prime_w = p.inner.c_prime_prime_w)
    (e3 : p'.inner.alm_zk.C_r = p.inner.alm_zk.C_r)
    (e4 : p'.inner.alm_zk.NoZK.L_vec = p.inner.alm_zk.NoZK.L_vec)
    (e5 : p'.inner.alm_zk.NoZK.R_vec = p.inner.alm_zk.NoZK.R_vec)
    (hne : ¬ (p.inner.alm_zk.NoZK.a = p'.inner.alm_zk.NoZK.a ∧
      p.inner.alm_zk.NoZK.b = p'.inner.alm_zk.NoZK.b)) :
    let α := copyAlpha F cx.ro tr.log p.C_w
    let C' := dot (List.ofFn (powers α Cs.length)) Cs + C_w
    let log := tr.log ++ [.msg "c_w" p.C_w, .chal "alpha" 64]
    qesaX F cx.ro log (cx.compress C') ≠ 0 →
    ∃ (k : Nat) (Ms : Fin (k + 1) → Matrix (Fin (m + 1)) (Fin (m + 1)) F), copySystem Us map α = List.ofFn Ms ∧
      IsRelation Gs Hs Q (qesaRelation cx log Gs Hs Q Ms C' C'' C_r p.inner.alm_zk p'.inner.alm_zk) := by
  intro α C' log hx
  obtain ⟨k, Ms, hMs⟩ : ∃ (k : Nat) (Ms : Fin (k + 1) → Matrix (Fin (m + 1)) (Fin (m + 1)) F),
      copySystem Us map α = List.ofFn Ms := by
    have hwf := Copy.computeMapping_wf hn hws hs hmap
    have hpos := hwf.pos
    have : copySystem Us map α ≠ [] := by
      rw [← List.length_flatten] at hpos
      obtain ⟨c, hc⟩ := List.exists_mem_of_length_pos hpos
      have : c ∈ map.unique_commitment_indices := by rw [hwf.uniq, Copy.mem_setCollect]; exact hc
      intro h0
      rw [copySystem, List.append_eq_nil_iff, List.map_eq_nil_iff] at h0
      rw [h0.2] at this
      cases this
    obtain ⟨M, Ms, e⟩ := List.exists_cons_of_ne_nil this
    exact ⟨Ms.length, (M :: Ms).get, by rw [e, List.ofFn_get]⟩
  refine ⟨k, Ms, hMs, ?_⟩
  rw [C37_verifier cx p tr Gs Hs Q Us sets map Cs C_w hG hn hws hs hmap hi hC h1] at h
  rw [C37_verifier cx p' tr Gs Hs Q Us sets map Cs C_w hG hn hws hs hmap hi hC (by rw [e1]; exact h1), e1] at h'
  rw [show copySystem Us map (copyAlpha F cx.ro tr.log p.C_w) = List.ofFn Ms from hMs, List.map_ofFn] at h h'
  exact C90_qesa_unique (Nat.succ_pos m) cx ⟨p.inner.alm_zk, cx.compress C', p.inner.c_prime_prime_w⟩
    ⟨p'.inner.alm_zk, cx.compress C', p'.inner.c_prime_prime_w⟩ _ tr1 tr2 Gs Hs Q Ms C' C'' C_r hG hH h h'
    (cx.decompress_compress _) h2 h3 rfl e2 e3 e4 e5 hne hx

theorem lmpa_accepts [DecidableEq G] (cx : Ctx G) (p : Lmpa.NoZK F G) (q fuel : Nat)
    (tr tr1 : Transcript) (A : List (List G)) (Gs t : List G) (hf : q < fuel) (hG : Gs.length = 2 ^ q)
    (hA : Width (2 ^ q) A) (h : p.verify cx fuel tr A Gs (2 ^ q) t = .ok (true, tr1)) :
    p.w • foldedRow (lmpaChallenges F cx tr.log (p.L_Vec.take q) (p.R_Vec.take q)) (A.headD []) =
      foldedTarget (lmpaChallenges F cx tr.log (p.L_Vec.take q) (p.R_Vec.take q)) (column (p.L_Vec.take q) 0)
        (column (p.R_Vec.take q) 0) (t.headD 0) ∧ A ≠ [] ∧ q ≤ p.L_Vec.length ∧ q ≤ p.R_Vec.length := by
  rw [C44_lmpa_verdict cx p q fuel tr A Gs t hf hG hA] at h
  dsimp only at h
  split at h
  · next hc =>
    simp only [Except.ok.injEq, Prod.mk.injEq, decide_eq_true_eq] at h
    exact ⟨h.1, hc.2.2.1, hc.1, hc.2.1⟩
  · cases h

/-- C90: for LMPA, the final scalar is determined by the messages, unless row 0 of the matrix has a non-trivial
relation. -/
theorem C90_lmpa_unique [DecidableEq G] (cx : Ctx G) (p p' : Lmpa.NoZK F G) (q fuel : Nat)
    (tr tr1 tr2 : Transcript) (A : List (List G)) (Gs t : List G) (hf : q < fuel) (hG : Gs.length = 2 ^ q)
    (hA : Width (2 ^ q) A) (h : p.verify cx fuel tr A Gs (2 ^ q) t = .ok (true, tr1))
    (h' : p'.verify cx fuel tr A Gs (2 ^ q) t = .ok (true, tr2)) (hL : p'.L_Vec.take q = p.L_Vec.take q)
    (hR : p'.R_Vec.take q = p.R_Vec.take q) (hne : p.w ≠ p'.w) :
    let xs := lmpaChallenges F cx tr.log (p.L_Vec.take q) (p.R_Vec.take q)
    let u := (List.range (2 ^ q)).map fun i => (p.w - p'.w) * weightG xs i
    dot u (A.headD []) = 0 ∧ u.length = (A.headD []).length ∧ u.headD 0 ≠ 0 := by
  obtain ⟨e1, -, hl, hr⟩ := lmpa_accepts cx p q fuel tr tr1 A Gs t hf hG hA h
  obtain ⟨e2, hA0, -⟩ := lmpa_accepts cx p' q fuel tr tr2 A Gs t hf hG hA h'
  rw [hL, hR] at e2
  intro xs u
  obtain ⟨row, B, rfl⟩ := List.exists_cons_of_ne_nil hA0
  have hrow : row.length = 2 ^ q := hA row (by simp)
  simp only [List.headD_cons] at e1 e2 ⊢
  have hu : u.length = row.length := by simp [u, hrow]
  have hxs : xs.length = q := by simp [xs, lmpaChallenges]; omega
  refine ⟨?_, hu, ?_⟩
  · rw [dot_getD u row hu, hrow]
    have : ∀ i ∈ Finset.range (2 ^ q), u.getD i 0 • row.getD i 0 =
        (p.w - p'.w) • (weightG xs i • row.getD i 0) := by
      intro i hi
      rw [Finset.mem_range] at hi
      rw [List.getD_eq_getElem _ _ (by simpa [u] using hi), smul_smul]
      simp [u]
    rw [Finset.sum_congr rfl this, ← Finset.smul_sum, sub_smul]
    have e := e1.trans e2.symm
    unfold foldedRow at e
    rw [← hxs]
    exact sub_eq_zero.2 e
  · have : u.headD 0 = p.w - p'.w := by
      rw [List.headD_eq_getD, List.getD_eq_getElem _ _ (by simp [u])] 
      simp [u, weightG_zero]
    rw [this]
    exact sub_ne_zero.2 hne

/-- C90: LMPA reads the first `q` messages only. -/
theorem C90_lmpa_surplus [DecidableEq G] (cx : Ctx G) (p : Lmpa.NoZK F G) (q fuel : Nat)
    (tr : Transcript) (A : List (List G)) (Gs t : List G) (L R : List (List G)) (hf : q < fuel)
    (hG : Gs.length = 2 ^ q) (hA : Width (2 ^ q) A) (hl : q ≤ p.L_Vec.length) (hr : q ≤ p.R_Vec.length) :
    ({ p with L_Vec := p.L_Vec ++ L, R_Vec := p.R_Vec ++ R } : Lmpa.NoZK F G).verify cx fuel tr A Gs (2 ^ q) t =
      p.verify cx fuel tr A Gs (2 ^ q) t := by
  rw [C44_lmpa_verdict cx _ q fuel tr A Gs t hf hG hA, C44_lmpa_verdict cx p q fuel tr A Gs t hf hG hA]
  simp only [List.take_append_of_le_length hl, List.take_append_of_le_length hr, List.length_append, hl, hr,
    true_and, le_add_right hl, le_add_right hr]

/-- C90: of a k-ary LMPA proof only the first `d` messages and the product of row 0 of its matrix with its
witness vector count. -/
theorem C90_lmpaK_ignored [DecidableEq G] (cx : Ctx G) (p p' : Lmpa.LmpaNoZK F G) (c k d fuel : Nat)
    (tr : Transcript) (A : List (List G)) (t : List G) (hA0 : A ≠ []) (hc : 0 < c) (hck : c < k)
    (hA : Width (c * k ^ d) A) (hf : d < fuel)
    (hu : ∀ u ∈ p.u_proof_Block.take d, ∃ m, KShape k m u)
    (hl : d ≤ p.u_proof_Block.length) (hl' : d ≤ p'.u_proof_Block.length)
    (hm : p'.u_proof_Block.take d = p.u_proof_Block.take d) (h0 : p.A_Matrix ≠ []) (h0' : p'.A_Matrix ≠ [])
    (hd : dot p'.w_Vec (p'.A_Matrix.headD []) = dot p.w_Vec (p.A_Matrix.headD [])) :
    p'.verify cx fuel tr A t (c * k ^ d) k 1 = p.verify cx fuel tr A t (c * k ^ d) k 1 := by
  rw [C48_lmpaK_verdict cx p' c k d fuel tr A t hA0 hc hck hA hf (by rw [hm]; exact hu),
    C48_lmpaK_verdict cx p c k d fuel tr A t hA0 hc hck hA hf hu, hm, hd]
  simp only [hl, hl', h0, h0', true_and, ne_eq, not_false_eq_true]

end

section
open Toy

/-- C90: in the group of order 101, where discrete logarithms are known, `(0, 9)` is accepted in place of the
honest last message `(38, 12)`, and the two give a relation. -/
example : (match Ipa.create (F := K) cx ⟨[]⟩ [3, 5, 8, 13] [21, 34, 55, 89] 7 [1, 2, 3, 4] [5, 6, 7, 8] with
    | .ok (p, tr') =>
      let P : K := dot [(1 : K), 2, 3, 4] [3, 5, 8, 13] + dot [(5 : K), 6, 7, 8] [21, 34, 55, 89] + 70 * 7
      let r := finalRelation (ipaAlpha K cx.ro [] 4) (ipaChallenges K cx.ro [] 4 p.L_vec p.R_vec) 2 2 4 4
        p.a p.b 0 9
      p.verify cx ⟨[]⟩ [3, 5, 8, 13] [21, 34, 55, 89] 7 4 P 70 == .ok (true, tr') &&
      (⟨p.L_vec, p.R_vec, 0, 9⟩ : NoZK K).verify cx ⟨[]⟩ [3, 5, 8, 13] [21, 34, 55, 89] 7 4 P 70 == .ok (true, tr') &&
      p.a != 0 && r.1.length == 4 && r.1 != [0, 0, 0, 0] &&
      dot r.1 [3, 5, 8, (13 : K)] + dot r.2.1 [21, 34, 55, (89 : K)] + r.2.2 • 7 == (0 : K)
    | .error _ => false) = true := by
  decide +kernel

/-- C90: the same for an honest QESA proof with the last message `(70, 51)`. -/
example : let Ms : Fin 2 → Matrix (Fin 2) (Fin 2) K := ![!![4, 0; 0, -1], !![0, 1; 0, 50]]
    (match Zk.create cx ⟨[]⟩ exTape2 [3, 5, 8, 13] [21, 34, 55, 89] (7 : K)
      ⟨List.ofFn fun i => rows (Ms i)⟩ [1, 2] with
    | .ok (⟨p⟩, tr', _) =>
      let p' : Inner.Proof K := { p with alm_zk := ⟨p.alm_zk.C_r,
        ⟨p.alm_zk.NoZK.L_vec, p.alm_zk.NoZK.R_vec, 1, 51⟩⟩ }
      (match cx.decompress p.c_prime_w, cx.decompress p.c_prime_prime_w, cx.decompress p.alm_zk.C_r with
      | some C', some C'', some C_r =>
        let r := qesaRelation cx [] [3, 5, 8, 13] [21, 34, 55, 89] (7 : K) Ms C' C'' C_r p.alm_zk p'.alm_zk
        r.1 != [0, 0, 0, 0] && dot r.1 [3, 5, 8, (13 : K)] + dot r.2.1 [21, 34, 55, (89 : K)] + r.2.2 • 7 == (0 : K)
      | _, _, _ => false) &&
      p.alm_zk.NoZK.a != 1 && qesaX K cx.ro [] p.c_prime_w != 0 &&
      p.verify cx ⟨[]⟩ [3, 5, 8, 13] [21, 34, 55, 89] (7 : K) ⟨List.ofFn fun i => rows (Ms i)⟩ == .ok (true, tr') &&
      p'.verify cx ⟨[]⟩ [3, 5, 8, 13] [21, 34, 55, 89] (7 : K) ⟨List.ofFn fun i => rows (Ms i)⟩ == .ok (true, tr')
    | .error _ => false) = true := by
  decide +kernel

/-- C90: an honest Copy proof with the last message `(56, 38)` remains acceptable with `(0, 62)`, and with a byte
string that is no point in the field `c_prime_w`. -/
example : (match Copy.computeMapping 8 2 [[3], [3]] with
    | .error _ => false
    | .ok map => match Copy.commit exG [3] [(10 : K)] 7, Copy.commit exG [3] [(20 : K)] 9,
        Copy.create cx ⟨[]⟩ exTapeC exG exH (17 : K) map ⟨[rows exU]⟩ [1, 3] [([10], 7), ([20], 9)] with
      | .ok C1, .ok C2, .ok (p, tr', _) =>
        let p' : Copy.Proof K := ⟨p.C_w, ⟨⟨p.inner.alm_zk.C_r,
          ⟨p.inner.alm_zk.NoZK.L_vec, p.inner.alm_zk.NoZK.R_vec, 0, 62⟩⟩, [255, 255], p.inner.c_prime_prime_w⟩⟩
        p.inner.alm_zk.NoZK.a != 0 &&
        p.verify cx ⟨[]⟩ exG exH 17 ⟨[rows exU]⟩ map [C1, C2] == .ok (true, tr') &&
        p'.verify cx ⟨[]⟩ exG exH 17 ⟨[rows exU]⟩ map [C1, C2] == .ok (true, tr')
      | _, _, _ => false) = true := by
  decide +kernel

/-- C90: after the challenge `x`, the row `(-x, 1)` has the relation `(1, x)`, and the scalars 3 and 4 are both
accepted; a third message is not read. -/
example : let x := (lmpaChallenges K cx [] [[5]] [[6]]).headD 0
    x ≠ 0 ∧
    ((⟨[[5]], [[6]], 3⟩ : Lmpa.NoZK K K).verify cx 3 ⟨[]⟩ [[-x, 1]] [1, 1] 2 [-(5 + x * x * 6) * x⁻¹]).map Prod.fst =
      .ok true ∧
    ((⟨[[5], []], [[6], [7, 8]], 4⟩ : Lmpa.NoZK K K).verify cx 3 ⟨[]⟩ [[-x, 1]] [1, 1] 2
      [-(5 + x * x * 6) * x⁻¹]).map Prod.fst = .ok true := by
  decide +kernel

/-- C90: an honest k-ary proof, and the same with another matrix and another witness vector. -/
example : (match Lmpa.createK cx 5 ⟨[]⟩ exKA exKw (exKA.map fun row => dot exKw row) 6 2 3 1 (0 : K) with
    | .ok (p, tr') =>
      let P := dot p.w_Vec (p.A_Matrix.headD [])
      (⟨[[P]], [], [1], p.u_proof_Block ++ [[]]⟩ : Lmpa.LmpaNoZK K K).verify cx 5 ⟨[]⟩ exKA
        (exKA.map fun row => dot exKw row) 6 3 1 == .ok (true, tr')
    | .error _ => false) = true := by
  decide +kernel
end

end Qesa.Props
