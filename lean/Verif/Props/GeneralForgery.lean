import Verif.Props.LmpaK
/-
C48: `verify_general` of src/lmpa/simple_zk.rs calls the k-ary verifier and inherits its findings.
-/
namespace Qesa.Props
open Qesa Spec Lmpa
variable {F G : Type} [Field F] [AddCommGroup G] [Module F G] [DecidableEq G]

/-- C48, finding: with at least one round neither `A` nor `t` has any influence on the verdict of `verify_general`. -/
theorem C48_general_ignores_statement (cx : Ctx G) (p : SimpleZKGeneral F G) (c k d fuel : Nat)
    (hc : 0 < c) (hck : c < k) (hf : d + 1 < fuel) (tr : Transcript) (A A' : List (List G)) (t t' : List G)
    (hA0 : A ≠ []) (hA0' : A' ≠ []) (hA : Width (c * k ^ (d + 1)) A) (hA' : Width (c * k ^ (d + 1)) A')
    (hu : ∀ u ∈ p.lamp_no_zk.u_proof_Block.take (d + 1), ∃ m, KShape k m u) :
    p.verify cx fuel tr A t (c * k ^ (d + 1)) k = p.verify cx fuel tr A' t' (c * k ^ (d + 1)) k := by
  rw [general_verify_eq, general_verify_eq]
  exact C48_lmpaK_ignores_statement cx p.lamp_no_zk c k d fuel _ A A' _ _ hA0 hA0' hc hck hA hA' hf hu

/-- C48, finding: one and the same proof is accepted by `verify_general` for *every* statement `(A, t)` of the given size,
with every transcript. -/
theorem C48_general_forgery (cx : Ctx G) (c k d fuel : Nat) (hc : 0 < c) (hck : c < k) (hf : d + 1 < fuel) (a : List G) :
    ∃ p : SimpleZKGeneral F G, p.a = a ∧ ∀ (tr : Transcript) (A : List (List G)) (t : List G), A ≠ [] →
      Width (c * k ^ (d + 1)) A → ∃ tr', p.verify cx fuel tr A t (c * k ^ (d + 1)) k = .ok (true, tr') := by
  obtain ⟨p, hp⟩ := C48_lmpaK_forgery (F := F) cx c k d fuel hc hck hf
  exact ⟨⟨p, a⟩, rfl, fun tr A t h0 hA => hp _ A _ h0 hA⟩

/-- C48, finding: with no round at all (`n < k`) `verify_general` accepts for every statement a proof whose matrix is chosen
after `beta`. -/
theorem C48_general_forgery_no_round (cx : Ctx G) (c k fuel : Nat) (tr : Transcript) (A : List (List G)) (t0 : G)
    (t : List G) (hA0 : A ≠ []) (hc : 0 < c) (hck : c < k) (hA : Width c A) (hf : 0 < fuel) (a0 : G) (a : List G) :
    ∃ M : G, ∃ tr', (⟨⟨[[M]], [], [1], []⟩, a0 :: a⟩ : SimpleZKGeneral F G).verify cx fuel tr A (t0 :: t) c k =
      .ok (true, tr') := by
  refine ⟨simpleBeta F cx tr.log (a0 :: a) • t0 + a0, ⟨simpleLog cx tr.log (a0 :: a)⟩, ?_⟩
  rw [general_verify_eq]
  exact C48_lmpaK_forgery_no_round cx c k fuel _ A _ _ hA0 hc hck hA hf

/-- C48: one proof for a true and a false statement about the same matrix of width four. -/
example (cx : Ctx Toy.K) (fuel : Nat) (hf : 3 ≤ fuel) (tr : Transcript) :
    ∃ p : SimpleZKGeneral Toy.K Toy.K, p.a = [7] ∧
      (∃ tr', p.verify cx fuel tr [[1, 2, 3, 4]] [10] 4 2 = .ok (true, tr')) ∧
      (∃ tr', p.verify cx fuel tr [[0, 0, 0, 0]] [1] 4 2 = .ok (true, tr')) := by
  obtain ⟨p, h, hp⟩ := C48_general_forgery (F := Toy.K) cx 1 2 1 fuel (by decide) (by decide) (by omega) [7]
  exact ⟨p, h, hp tr [[1, 2, 3, 4]] [10] (by decide) (by intro r hr; simp at hr; simp [hr]),
    hp tr [[0, 0, 0, 0]] [1] (by decide) (by intro r hr; simp at hr; simp [hr])⟩

end Qesa.Props
