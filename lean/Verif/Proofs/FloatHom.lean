import Verif.Model.TestsFloat
import Mathlib.Data.List.Basic
/- The tests on `f64` numbers commute with maps of the numbers that preserve the operations. -/
namespace Qesa.FloatTests
open Qesa
variable {S T α β : Type} [Add S] [Mul S] [Div S] [NatCast S] [Add T] [Mul T] [Div T] [NatCast T]

/-- The map preserves the operations. -/
structure Hom (h : S → T) : Prop where
  add : ∀ a b, h (a + b) = h a + h b
  mul : ∀ a b, h (a * b) = h a * h b
  div : ∀ a b, h (a / b) = h a / h b
  cast : ∀ n : ℕ, h n = n

theorem bind_map {β γ : Type} (f : α → β) (x : R α) (g : β → R γ) :
    (Except.map f x >>= g) = (x >>= fun a => g (f a)) := by cases x <;> rfl

theorem map_bind {β γ : Type} (f : β → γ) (x : R α) (g : α → R β) :
    Except.map f (x >>= g) = (x >>= fun a => Except.map f (g a)) := by cases x <;> rfl

theorem map_ok {β : Type} (f : α → β) (a : α) : Except.map f (.ok a : R α) = .ok (f a) := rfl

theorem map_pure {β : Type} (f : α → β) (a : α) : Except.map f (pure a : R α) = .ok (f a) := rfl

theorem map_error {β : Type} (f : α → β) (e : Err) : Except.map f (.error e : R α) = .error e := rfl

theorem map_ite {β : Type} (f : α → β) (p : Prop) [Decidable p] (a b : R α) :
    Except.map f (if p then a else b) = if p then Except.map f a else Except.map f b := by
  split <;> rfl

theorem bind_ok (a : α) (g : α → R β) : ((.ok a : R α) >>= g) = g a := rfl

theorem pure_ok (a : α) : (pure a : R α) = .ok a := rfl

theorem idx_map (f : α → β) (l : List α) (i : Nat) : idx (l.map f) i = (idx l i).map f := by
  unfold idx
  rw [List.getElem?_map]
  cases l[i]? <;> rfl

theorem setIdx_map (f : α → β) (l : List α) (i : Nat) (a : α) :
    setIdx (l.map f) i (f a) = (setIdx l i a).map (List.map f) := by
  unfold setIdx
  rw [List.length_map, map_ite, map_ok, map_error, List.map_set]

theorem unwrapR_map (f : α → β) (o : Option α) : unwrapR (o.map f) = (unwrapR o).map f := by
  cases o <;> rfl

variable {h : S → T} (hh : Hom h)
include hh

theorem sumFrom_hom (a : S) (l : List S) : sumFrom (h a) (l.map h) = h (sumFrom a l) := by
  unfold sumFrom
  induction l generalizing a with
  | nil => rfl
  | cons b l ih => rw [List.map_cons, List.foldl_cons, List.foldl_cons, ← hh.add, ih]

theorem mv_hom (A : List (List S)) (w : List S) :
    matrixVectorMulGeneral (A.map (List.map h)) (w.map h) ((0 : ℕ) : T) =
      (matrixVectorMulGeneral A w ((0 : ℕ) : S)).map h := by
  unfold matrixVectorMulGeneral
  rw [List.map_map, List.map_map]
  apply List.map_congr_left
  intro row _
  simp only [Function.comp]
  rw [← hh.cast, ← sumFrom_hom hh, List.zipWith_map, List.map_zipWith]
  simp only [hh.mul]

theorem rowAdd_hom (a b : List S) :
    rowRowAddGeneral (a.map h) (b.map h) = (rowRowAddGeneral a b).map (List.map h) := by
  unfold rowRowAddGeneral
  rw [map_bind, List.length_map, List.length_map, List.zipWith_map]
  simp only [map_pure, List.map_zipWith, hh.add]
  rfl

theorem zipWithR_hom (A B : List (List S)) :
    zipWithR (fun a b => rowRowAddGeneral a b) (A.map (List.map h)) (B.map (List.map h)) =
      (zipWithR (fun a b => rowRowAddGeneral a b) A B).map (List.map (List.map h)) := by
  induction A generalizing B with
  | nil => cases B <;> rfl
  | cons a A ih =>
    cases B with
    | nil => rfl
    | cons b B =>
      simp only [List.map_cons, zipWithR, rowAdd_hom hh, ih, bind_map, map_bind, map_ok, pure_ok]

theorem matrixAdd_hom (A B : List (List S)) :
    matrixMatrixAddGeneral (A.map (List.map h)) (B.map (List.map h)) =
      (matrixMatrixAddGeneral A B).map (List.map (List.map h)) := by
  unfold matrixMatrixAddGeneral
  simp only [List.length_map, zipWithR_hom hh, map_bind]

theorem vectorMul_hom (v : List S) (x : S) :
    vectorScalarMulGeneral (v.map h) (h x) = (vectorScalarMulGeneral v x).map h := by
  simp [vectorScalarMulGeneral, hh.mul]

theorem matrixMul_hom (A : List (List S)) (x : S) :
    matrixScalarMulGeneral (A.map (List.map h)) (h x) = (matrixScalarMulGeneral A x).map (List.map h) := by
  simp [matrixScalarMulGeneral, hh.mul]

theorem powersLoop_hom (x : S) (n : Nat) (a : S) :
    powersLoop (h x) n (h a) = (powersLoop x n a).map h := by
  induction n generalizing a with
  | zero => rfl
  | succ n ih => simp only [powersLoop, ← hh.mul, ih, List.map_cons]

theorem vandemonde_hom (x : S) (n : Nat) :
    vandemondeVectorGeneral (h x) n ((1 : ℕ) : T) =
      (vandemondeVectorGeneral x n ((1 : ℕ) : S)).map (List.map h) := by
  unfold vandemondeVectorGeneral
  simp only [map_bind, ← hh.cast, powersLoop_hom hh, map_ok, pure_ok, List.map_cons]

omit hh [Add S] [Mul S] [Div S] [NatCast S] [Add T] [Mul T] [Div T] [NatCast T] in
theorem pushRow_map (f : α → β) (cols : List (List α)) (row : List α) :
    pushRow (cols.map (List.map f)) (row.map f) = (pushRow cols row).map (List.map (List.map f)) := by
  induction cols generalizing row with
  | nil => cases row <;> rfl
  | cons c cols ih =>
    cases row with
    | nil => rfl
    | cons e row => simp only [List.map_cons, pushRow, ih, bind_map, map_bind, map_ok, pure_ok,
        List.map_append, List.map_nil]

omit hh [Add S] [Mul S] [Div S] [NatCast S] [Add T] [Mul T] [Div T] [NatCast T] in
theorem pushRows_map (f : α → β) (cols rows : List (List α)) :
    pushRows (cols.map (List.map f)) (rows.map (List.map f)) =
      (pushRows cols rows).map (List.map (List.map f)) := by
  induction rows generalizing cols with
  | nil => rfl
  | cons r rows ih => simp only [List.map_cons, pushRows, pushRow_map, bind_map, map_bind, ih]

omit hh [Add S] [Mul S] [Div S] [NatCast S] [Add T] [Mul T] [Div T] [NatCast T] in
theorem chunks_map (f : α → β) (c : Nat) (row : List α) :
    chunks c (row.map f) = (chunks c row).map (List.map f) := by
  have : ∀ (n : Nat) (row : List α),
      chunksAux c n (row.map f) = (chunksAux c n row).map (List.map f) := by
    intro n
    induction n with
    | zero => intro row; rfl
    | succ n ih =>
      intro row
      cases row with
      | nil => rfl
      | cons a row =>
        rw [List.map_cons, chunksAux, chunksAux, List.map_cons, ← ih, ← List.map_cons, List.map_take,
          List.map_drop]
  unfold chunks
  rw [List.length_map, this]

omit hh [Add S] [Mul S] [Div S] [NatCast S] [Add T] [Mul T] [Div T] [NatCast T] in
theorem split_map (f : α → β) (A : List (List α)) (c : Nat) :
    matrixSplit (A.map (List.map f)) c = (matrixSplit A c).map (List.map (List.map (List.map f))) := by
  unfold matrixSplit
  simp only [List.length_map, idx_map, bind_map, map_bind, map_ite]
  congr 1
  funext _
  congr 1
  funext row
  congr 1
  congr 1
  funext _
  rw [← pushRows_map, List.map_replicate, List.map_map, List.map_map]
  congr 1
  apply List.map_congr_left
  intro row _
  exact chunks_map f c row

omit hh in
theorem split1_map (f : α → β) (w : List α) (c : Nat) :
    matrixSplit [w.map f] c = (matrixSplit [w] c).map (List.map (List.map (List.map f))) :=
  split_map f [w] c

theorem uInner_hom {α β : Type} (g : α → β) (all : Bool) (get : α → R (List S)) (get' : β → R (List T))
    (hg : ∀ a, get' (g a) = (get a).map (List.map h)) (t : List S) (shift i : Nat) (At : List (List S))
    (wT : List α) (j : Nat) (u : List (List S)) :
    uInner all get' (t.map h) shift i (At.map (List.map h)) j (wT.map g) (u.map (List.map h)) =
      (uInner all get t shift i At j wT u).map (List.map (List.map h)) := by
  induction wT generalizing j u with
  | nil => rfl
  | cons w wT ih =>
    simp only [List.map_cons, uInner, hg, idx_map, mv_hom hh, rowAdd_hom hh, setIdx_map, bind_map,
      map_bind]
    congr 1
    funext l
    split
    · simp only [map_bind, ih]
    · simp only [map_bind, ih]

theorem uOuter_hom {α β : Type} (g : α → β) (all : Bool) (get : α → R (List S)) (get' : β → R (List T))
    (hg : ∀ a, get' (g a) = (get a).map (List.map h)) (t : List S) (shift : Nat)
    (wT : List α) (AT : List (List (List S))) (i : Nat) (u : List (List S)) :
    uOuter all get' (t.map h) shift (wT.map g) i (AT.map (List.map (List.map h))) (u.map (List.map h)) =
      (uOuter all get t shift wT i AT u).map (List.map (List.map h)) := by
  induction AT generalizing i u with
  | nil => rfl
  | cons A AT ih => simp only [List.map_cons, uOuter, uInner_hom hh g all get get' hg, bind_map, map_bind, ih]

theorem zInner_hom (shift i : Nat) (x : S) (ys : List S) (j : Nat) (z : List S) :
    zInner shift i (h x) j (ys.map h) (z.map h) = (zInner shift i x j ys z).map (List.map h) := by
  induction ys generalizing j z with
  | nil => rfl
  | cons y ys ih =>
    simp only [List.map_cons, zInner, map_bind, ← hh.mul, setIdx_map]
    congr 1
    funext l
    split
    · simp only [bind_map, map_bind, ih]
    · simp only [bind_ok, ih]

theorem zOuter_hom (shift : Nat) (ys xs : List S) (i : Nat) (z : List S) :
    zOuter shift (ys.map h) i (xs.map h) (z.map h) = (zOuter shift ys i xs z).map (List.map h) := by
  induction xs generalizing i z with
  | nil => rfl
  | cons x xs ih => simp only [List.map_cons, zOuter, zInner_hom hh, bind_map, map_bind, ih]

theorem combineM_hom (AT : List (List (List S))) (xs : List S) (c i : Nat)
    (acc : Option (List (List S))) :
    combineM (AT.map (List.map (List.map h))) (xs.map h) c i (acc.map (List.map (List.map h))) =
      (combineM AT xs c i acc).map (List.map (List.map h)) := by
  induction c generalizing i acc with
  | zero => exact unwrapR_map _ acc
  | succ c ih =>
    simp only [combineM, idx_map, bind_map, map_bind, matrixMul_hom hh]
    congr 1
    funext A
    congr 1
    funext x
    cases acc with
    | none => simpa only [Option.map_none, Option.map_some, bind_ok] using ih (i + 1) (some (matrixScalarMulGeneral A x))
    | some a =>
      simp only [Option.map_some, matrixAdd_hom hh, bind_map, map_bind]
      congr 1
      funext b
      exact ih (i + 1) (some b)

theorem combineV_hom (u : List (List S)) (zs : List S) (c i : Nat) (acc : Option (List S)) :
    combineV (u.map (List.map h)) (zs.map h) c i (acc.map (List.map h)) =
      (combineV u zs c i acc).map (List.map h) := by
  induction c generalizing i acc with
  | zero => exact unwrapR_map _ acc
  | succ c ih =>
    simp only [combineV, idx_map, bind_map, map_bind, vectorMul_hom hh]
    congr 1
    funext A
    congr 1
    funext x
    cases acc with
    | none => simpa only [Option.map_none, Option.map_some, bind_ok] using ih (i + 1) (some (vectorScalarMulGeneral A x))
    | some a =>
      simp only [Option.map_some, rowAdd_hom hh, bind_map, map_bind]
      congr 1
      funext b
      exact ih (i + 1) (some b)

theorem zeros_hom (L m : Nat) : (zeros L m : List (List T)) = (zeros L m : List (List S)).map (List.map h) := by
  simp [zeros, hh.cast]

/-- The map on the values of `A`, `w` and `t`. -/
def map3 (h : S → T) (p : List (List S) × List S × List S) : List (List T) × List T × List T :=
  (p.1.map (List.map h), p.2.1.map h, p.2.2.map h)

theorem fold_hom (x : S) (k : Nat) (AT wT : List (List (List S))) (u : List (List S)) :
    fold (h x) k (AT.map (List.map (List.map h))) (wT.map (List.map (List.map h))) (u.map (List.map h)) =
      (fold x k AT wT u).map (map3 h) := by
  have e : ∀ L, List.replicate L ((1 : ℕ) : T) = (List.replicate L ((1 : ℕ) : S)).map h := by
    intro L; rw [List.map_replicate, hh.cast]
  have e1 : ((1 : ℕ) : T) / h x = h (((1 : ℕ) : S) / x) := by rw [hh.div, hh.cast]
  have e2 : ∀ (AT : List (List (List S))) xs c i, combineM (AT.map (List.map (List.map h))) (xs.map h) c i none =
      (combineM AT xs c i none).map (List.map (List.map h)) := fun AT xs c i => combineM_hom hh AT xs c i none
  have e3 : ∀ (u : List (List S)) xs c i, combineV (u.map (List.map h)) (xs.map h) c i none =
      (combineV u xs c i none).map (List.map h) := fun u xs c i => combineV_hom hh u xs c i none
  unfold fold
  simp only [e, e1, vandemonde_hom hh, zOuter_hom hh, e2, e3, bind_map, map_bind, List.getLast?_map,
    unwrapR_map]
  rfl

theorem foldLoop_hom (x : S) (m k fuel n : Nat) (A : List (List S)) (w t : List S) :
    foldLoop (h x) m k fuel n (A.map (List.map h)) (w.map h) (t.map h) =
      (foldLoop x m k fuel n A w t).map (map3 h) := by
  induction fuel generalizing n A w t with
  | zero => rfl
  | succ fuel ih =>
    have e := uOuter_hom hh (List.map (List.map h)) false (fun v => idx v 0) (fun v => idx v 0)
      fun a => idx_map _ a 0
    simp only [foldLoop, map_ite, map_ok, map_error, split_map, split1_map, bind_map, map_bind,
      zeros_hom hh, e, fold_hom hh, ← ih]
    rfl

theorem floatRun_hom (fuel : Nat) (x : S) (n m k : Nat) (A : List (List S)) (w : List S) :
    floatRun fuel (h x) n m k (A.map (List.map h)) (w.map h) =
      (floatRun fuel x n m k A w).map fun p => (p.1.map h, p.2.map h) := by
  simp only [floatRun, mv_hom hh, foldLoop_hom hh, bind_map, map_bind, map3]
  rfl

theorem range_hom (a n : Nat) : (range a n : List T) = (range a n : List S).map h := by
  simp [range, hh.cast]

theorem rangeMatrix_hom (m n : Nat) :
    (rangeMatrix m n : List (List T)) = (rangeMatrix m n : List (List S)).map (List.map h) := by
  simp only [rangeMatrix, List.map_map]
  apply List.map_congr_left
  intro i _
  exact range_hom hh _ _

theorem rowMatrices_hom (m n c i : Nat) :
    (rowMatrices m n c i : R (List (List (List T)))) =
      (rowMatrices m n c i : R (List (List (List S)))).map (List.map (List.map (List.map h))) := by
  induction c generalizing i with
  | zero => rfl
  | succ c ih =>
    simp only [rowMatrices, zeros_hom hh, range_hom hh, setIdx_map, ih, bind_map, map_bind, map_ok,
      pure_ok, List.map_cons]

theorem sumTargets_hom (ts : List (List S)) (xs acc : List S) :
    sumTargets (ts.map (List.map h)) (xs.map h) (acc.map h) = (sumTargets ts xs acc).map (List.map h) := by
  induction ts generalizing xs acc with
  | nil => rfl
  | cons t ts ih =>
    cases xs with
    | nil => rfl
    | cons x xs => simp only [List.map_cons, sumTargets, vectorMul_hom hh, rowAdd_hom hh, bind_map, map_bind, ih]

/-- The map on `H`, `w_all` and `t_expected`. -/
def mapData (h : S → T) (p : List (List (List S)) × List (List S) × List S) :
    List (List (List T)) × List (List T) × List T :=
  (p.1.map (List.map (List.map h)), p.2.1.map (List.map h), p.2.2.map h)

theorem almData_hom (n m : Nat) :
    (almData n m : R (List (List (List T)) × List (List T) × List T)) =
      (almData (T := S) n m).map (mapData h) := by
  have e1 : (range 0 n : List T) :: ((List.range m).map fun i => (range i n : List T)) =
      (range 0 n :: (List.range m).map fun i => (range i n : List S)).map (List.map h) := by
    rw [List.map_cons, ← range_hom hh, List.map_map]
    congr 1
    apply List.map_congr_left
    intro i _
    exact range_hom hh _ _
  have e2 : List.replicate m ((0 : ℕ) : T) = (List.replicate m ((0 : ℕ) : S)).map h := by
    rw [List.map_replicate, hh.cast]
  unfold almData
  rw [rowMatrices_hom hh, bind_map, map_bind]
  congr 1
  funext tmps
  simp only
  rw [rangeMatrix_hom hh, ← List.map_cons, e1, range_hom hh 2, e2, List.zipWith_map, List.zipWith_map]
  simp only [mv_hom hh, vectorMul_hom hh]
  rw [← List.map_zipWith (f := List.map h), sumTargets_hom hh, bind_map, map_bind]
  congr 1
  funext t
  rw [map_pure, pure_ok]
  unfold mapData
  rw [List.map_zipWith]

theorem messageLoop_hom (m k : Nat) (t : List S) (A : List (List S)) (w : List S) (fuel n : Nat) :
    messageLoop m k (t.map h) (A.map (List.map h)) (w.map h) fuel n =
      (messageLoop m k t A w fuel n).map (List.map (List.map (List.map h))) := by
  induction fuel generalizing n with
  | zero => rfl
  | succ fuel ih =>
    have e := uOuter_hom hh (List.map (List.map h)) true (fun v => idx v 0) (fun v => idx v 0)
      fun a => idx_map _ a 0
    simp only [messageLoop, map_ite, map_ok, map_error, split_map, split1_map, bind_map, map_bind,
      zeros_hom hh, e, ih, map_ok, pure_ok, List.map_cons, List.map_nil]

theorem messages_hom (fuel n m k : Nat) (t : List S) (wAll : List (List S)) (i : Nat)
    (H : List (List (List S))) :
    messages fuel n m k (t.map h) (wAll.map (List.map h)) i (H.map (List.map (List.map h))) =
      (messages fuel n m k t wAll i H).map (List.map (List.map (List.map h))) := by
  induction H generalizing i with
  | nil => rfl
  | cons A H ih =>
    simp only [List.map_cons, messages, idx_map, messageLoop_hom hh, ih, bind_map, map_bind, map_ok,
      pure_ok, List.map_append]

theorem sumMessages_hom (us : List (List (List S))) (acc : List (List S)) :
    sumMessages (us.map (List.map (List.map h))) (acc.map (List.map h)) =
      (sumMessages us acc).map (List.map (List.map h)) := by
  induction us generalizing acc with
  | nil => rfl
  | cons u us ih => simp only [List.map_cons, sumMessages, matrixAdd_hom hh, ih, bind_map, map_bind]

theorem foldAllLoop_hom (x : S) (k : Nat) (uAll : List (List S)) (fuel n : Nat) (A : List (List S))
    (w t : List S) :
    foldAllLoop (h x) k (uAll.map (List.map h)) fuel n (A.map (List.map h)) (w.map h) (t.map h) =
      (foldAllLoop x k uAll fuel n A w t).map (map3 h) := by
  induction fuel generalizing n A w t with
  | zero => rfl
  | succ fuel ih =>
    simp only [foldAllLoop, map_ite, map_ok, map_error, split_map, split1_map, bind_map, map_bind,
      fold_hom hh, ← ih]
    rfl

theorem foldAll_hom (fuel n : Nat) (x : S) (k : Nat) (uAll wAll : List (List S)) (i : Nat)
    (H : List (List (List S))) (t : List S) :
    foldAll fuel n (h x) k (uAll.map (List.map h)) (wAll.map (List.map h)) i
        (H.map (List.map (List.map h))) (t.map h) =
      (foldAll fuel n x k uAll wAll i H t).map fun p =>
        (p.1.map fun q => (q.1.map (List.map h), q.2.map h), p.2.map h) := by
  induction H generalizing i t with
  | nil => rfl
  | cons A H ih =>
    simp only [List.map_cons, foldAll, idx_map, foldAllLoop_hom hh, map3, ih, bind_map, map_bind,
      map_ok, pure_ok]

theorem sumProducts_hom (ps : List (List (List S) × List S)) (acc : List S) :
    sumProducts (ps.map fun q => (q.1.map (List.map h), q.2.map h)) (acc.map h) =
      (sumProducts ps acc).map (List.map h) := by
  induction ps generalizing acc with
  | nil => rfl
  | cons p ps ih => simp only [List.map_cons, sumProducts, mv_hom hh, rowAdd_hom hh, ih, bind_map, map_bind]

theorem alm1Run_hom (fuel : Nat) (x : S) (n m k : Nat) (H : List (List (List S))) (wAll : List (List S))
    (t : List S) :
    alm1Run fuel (h x) n m k (H.map (List.map (List.map h))) (wAll.map (List.map h)) (t.map h) =
      (alm1Run fuel x n m k H wAll t).map fun p => (p.1.map h, p.2.map h) := by
  have e2 : List.replicate m ((0 : ℕ) : T) = (List.replicate m ((0 : ℕ) : S)).map h := by
    rw [List.map_replicate, hh.cast]
  simp only [alm1Run, messages_hom hh, zeros_hom hh, sumMessages_hom hh, foldAll_hom hh, e2,
    sumProducts_hom hh, bind_map, map_bind, map_ok, pure_ok]

theorem alm2Loop_hom (x : S) (m k : Nat) (H : List (List (List S))) (wAll : List (List S))
    (fuel n : Nat) (A : List (List S)) (w t : List S) :
    alm2Loop (h x) m k (H.map (List.map (List.map h))) (wAll.map (List.map h)) fuel n
        (A.map (List.map h)) (w.map h) (t.map h) =
      (alm2Loop x m k H wAll fuel n A w t).map (map3 h) := by
  induction fuel generalizing n A w t with
  | zero => rfl
  | succ fuel ih =>
    have e := uOuter_hom hh (List.map h) true (fun v => .ok v) (fun v => .ok v) fun a => rfl
    have e2 : ((wAll.map (List.map h)).map fun w => [w]) =
        (wAll.map fun w => [w]).map (List.map (List.map h)) := by
      simp
    simp only [alm2Loop, map_ite, map_ok, map_error, bind_map, map_bind, zeros_hom hh, e, e2,
      fold_hom hh, ← ih]
    rfl

theorem alm2Run_hom (fuel : Nat) (x : S) (n m : Nat) (H : List (List (List S))) (wAll : List (List S))
    (A : List (List S)) (w t : List S) :
    alm2Run fuel (h x) n m (H.map (List.map (List.map h))) (wAll.map (List.map h))
        (A.map (List.map h)) (w.map h) (t.map h) =
      (alm2Run fuel x n m H wAll A w t).map fun p => (p.1.map h, p.2.map h) := by
  simp only [alm2Run, alm2Loop_hom hh, bind_map, map_bind, map3, mv_hom hh, map_ok, pure_ok]

end Qesa.FloatTests
