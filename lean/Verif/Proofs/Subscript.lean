import Verif.Model.Subscript
import Verif.Proofs.DescribedBatch
import Verif.Proofs.GatherRank

/-! # Subscripts with `...` and `None` -/

namespace T3f

variable {K : Type}

/-- How `...` is replaced. -/
def expandItem (n : ℕ) : SubItem → List SubItem
  | .ellipsis => List.replicate n (.ix .all)
  | x => [x]

theorem expandEllipsis_eq (rank : ℕ) (spec : List SubItem) :
    expandEllipsis rank spec = if 1 < spec.count .ellipsis ∨ rank < (SubItem.axes spec).length then Except.error Err.tf
      else Except.ok (spec.flatMap (expandItem (rank - (SubItem.axes spec).length))) := by
  unfold expandEllipsis
  congr 2

theorem axes_append (a b : List SubItem) : SubItem.axes (a ++ b) = SubItem.axes a ++ SubItem.axes b := by
  induction a with
  | nil => rfl
  | cons x a ih => cases x <;> simp [SubItem.axes, ih]

theorem axes_map (l : List Ix) : SubItem.axes (l.map .ix) = l := by
  induction l with
  | nil => rfl
  | cons x l ih => simp [SubItem.axes, ih]

theorem axes_replicate (n : ℕ) : SubItem.axes (List.replicate n (.ix .all)) = List.replicate n .all := by
  rw [show List.replicate n (SubItem.ix .all) = (List.replicate n Ix.all).map .ix by simp, axes_map]

theorem newAxes_map (l : List Ix) (p : ℕ) : newAxes (l.map .ix) p = [] := by
  induction l generalizing p with
  | nil => rfl
  | cons x l ih => cases x <;> simp [newAxes, ih]

/-- The number of integers of a subscript. -/
def intCount (l : List SubItem) : ℕ := ((SubItem.axes l).filter doCollapseDim).length

theorem intCount_append (a b : List SubItem) : intCount (a ++ b) = intCount a + intCount b := by
  simp [intCount, axes_append]

theorem intCount_expand (n : ℕ) (l : List SubItem) : intCount (l.flatMap (expandItem n)) = intCount l := by
  induction l with
  | nil => rfl
  | cons x l ih =>
    rw [List.flatMap_cons, intCount_append, ih, ← List.singleton_append, intCount_append]
    congr 1
    cases x with
    | ellipsis => simp [expandItem, intCount, axes_replicate, SubItem.axes, doCollapseDim]
    | ix i => rfl
    | newaxis => rfl

theorem newAxes_length (l : List SubItem) (p : ℕ) : (newAxes l p).length = l.count .newaxis := by
  induction l generalizing p with
  | nil => rfl
  | cons x l ih =>
    rcases x with ⟨_ | _ | _⟩ | _ | _ <;> simp [newAxes, ih]

theorem count_expand (n : ℕ) (l : List SubItem) : (l.flatMap (expandItem n)).count .newaxis = l.count .newaxis := by
  induction l with
  | nil => rfl
  | cons x l ih =>
    rw [List.flatMap_cons, List.count_append, ih, ← List.singleton_append, List.count_append]
    congr 1
    cases x with
    | ellipsis => simp [expandItem, List.count_replicate]
    | ix i => rfl
    | newaxis => rfl

theorem expandDims_fold_axes {l : List ℕ} {x y : Tensor K} (h : l.foldlM expandDims x = Except.ok y) : y.shape.length = x.shape.length + l.length := by
  induction l generalizing x with
  | nil => cases h; rfl
  | cons p l ih =>
    rw [List.foldlM_cons, bind_ok_iff] at h
    obtain ⟨z, hz, h⟩ := h
    rw [ih h]
    unfold expandDims at hz
    split_ifs at hz with hp
    cases hz
    rw [List.length_insertIdx_of_le_length hp, List.length_cons]
    omega

theorem getItem_axes' {x y : Tensor K} {sp : List Ix} (h : getItem x sp = Except.ok y) :
    y.shape.length + (sp.filter doCollapseDim).length = x.shape.length ∧ sp.length ≤ x.shape.length := by
  simp only [getItem, bind_ok_iff] at h
  obtain ⟨l, hl, h⟩ := h
  cases h
  exact resolveIx_axes hl

/-- Integers remove an axis, `None` adds one. -/
theorem getItems_axes {x y : Tensor K} {sp : List SubItem} (h : getItems x sp = Except.ok y) :
    y.shape.length + intCount sp = x.shape.length + sp.count .newaxis ∧ sp.count .ellipsis ≤ 1 := by
  simp only [getItems, expandEllipsis_eq, bind_ok_iff] at h
  obtain ⟨spec, hs, s, hg, h⟩ := h
  split_ifs at hs with hc
  have hs := Except.ok.inj hs
  have h1 := expandDims_fold_axes h
  have h2 := (getItem_axes' hg).1
  rw [newAxes_length, ← hs, count_expand] at h1
  rw [← hs] at h2
  have h3 := intCount_expand (x.shape.length - (SubItem.axes sp).length) sp
  unfold intCount at h3 ⊢
  omega

theorem resolveIx_too_many : ∀ {s : List ℕ} {sp : List Ix}, s.length < sp.length → resolveIx s sp = Except.error Err.tf
  | s, [], h => by simp at h
  | [], _ :: _, _ => rfl
  | n :: s, Ix.all :: sp, h => by
    rw [resolveIx, resolveIx_too_many (by simpa using h)]; rfl
  | n :: s, Ix.int i :: sp, h => by
    rw [resolveIx, resolveIx_too_many (by simpa using h)]
    unfold intPosition
    split_ifs <;> rfl
  | n :: s, Ix.slice a b c :: sp, h => by
    rw [resolveIx, resolveIx_too_many (by simpa using h)]
    split_ifs <;> rfl

theorem count_map_ix (l : List Ix) : (l.map SubItem.ix).count .ellipsis = 0 := by
  rw [List.count_eq_zero]
  simp

theorem expand_map_ix (n : ℕ) (l : List Ix) : (l.map SubItem.ix).flatMap (expandItem n) = l.map .ix := by
  induction l with
  | nil => rfl
  | cons x l ih => rw [List.map_cons, List.flatMap_cons, ih]; rfl

/-- Without `...` and `None` nothing is new. -/
theorem getItems_map (t : Tensor K) (l : List Ix) : getItems t (l.map .ix) = getItem t l := by
  unfold getItems
  rw [expandEllipsis_eq, count_map_ix, axes_map, expand_map_ix]
  by_cases h : t.shape.length < l.length
  · rw [if_pos (Or.inr h), R.error_bind, getItem, resolveIx_too_many h, R.error_bind]
  · rw [if_neg (by omega), R.ok_bind, axes_map, newAxes_map]
    cases getItem t l <;> rfl

/-- `...` between two items of a tensor with three axes. -/
theorem getItems_ellipsis {t : Tensor K} (h : t.shape.length = 3) :
    getItems t [.ix .all, .ellipsis, .ix .all] = getItem t [.all, .all, .all] := by
  unfold getItems
  rw [expandEllipsis_eq, h]
  have : ¬ (1 < [SubItem.ix .all, .ellipsis, .ix .all].count .ellipsis ∨ 3 < (SubItem.axes [SubItem.ix .all, .ellipsis, .ix .all]).length) := by decide
  rw [if_neg this, R.ok_bind]
  change (getItem t [.all, .all, .all] >>= fun s => pure s) = _
  cases getItem t [.all, .all, .all] <;> rfl

theorem matmul_axes_le [Semiring K] {a b c : Tensor K} (h : matmul a b = Except.ok c) : a.shape.length ≤ c.shape.length ∧ b.shape.length ≤ c.shape.length := by
  have key : ∀ {c}, bmatmul a b = Except.ok c → a.shape.length ≤ c.shape.length ∧ b.shape.length ≤ c.shape.length := by
    intro c h
    unfold bmatmul at h
    split at h
    · rename_i k m pa n k' pb ha hb
      split at h
      · rename_i p hp
        split_ifs at h
        cases h
        have h1 := congrArg List.length ha
        have h2 := congrArg List.length hb
        have h3 := bshape_axes hp
        simp only [List.length_reverse, List.length_cons] at h1 h2
        simp only [List.length_append, List.length_reverse, List.length_cons, List.length_nil]
        omega
      · cases h
    · cases h
  unfold matmul at h
  split at h
  · rename_i ha hb
    split_ifs at h
    cases h
    rw [ha, hb]; simp
  · rename_i ha hb
    split_ifs at h
    · cases h
      rw [ha, hb]; simp
    · exact key h
  · exact key h

end T3f
