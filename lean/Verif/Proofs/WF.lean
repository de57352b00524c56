import Verif.Proofs.Prim

/-!
# Consequences of well-formedness
-/

namespace T3f

variable {K : Type}

theorem TT.WF.pyCore [Zero K] {t : TT K} (_h : t.WF) {k : ℕ} (hk : k < t.ndims) :
    pyGet t.cores k = Except.ok (t.core k) := pyGet_of_lt _ _ _ hk

theorem TT.WF.pyRank [Zero K] {t : TT K} (h : t.WF) {k : ℕ} (hk : k ≤ t.ndims) :
    pyGet t.ttRanks k = Except.ok (t.rank k) :=
  pyGet_of_lt _ _ _ (by rw [h.ranks_len]; omega)

theorem TT.isMatrix_iff (t : TT K) : t.isMatrix ↔ t.rawShape.length = 2 := Iff.rfl

theorem TT.WF.rawShape_tensor [Zero K] {t : TT K} (h : t.WF) (hm : ¬ t.isMatrix) :
    ∃ row, t.rawShape = [row] ∧ row.length = t.ndims := by
  have h1 : t.rawShape.length = 1 := h.rows.resolve_right hm
  obtain ⟨row, hrow⟩ := List.length_eq_one_iff.1 h1
  exact ⟨row, hrow, h.rows_len row (by simp [hrow])⟩

theorem TT.WF.rawShape_matrix [Zero K] {t : TT K} (h : t.WF) (hm : t.isMatrix) :
    ∃ row0 row1, t.rawShape = [row0, row1] ∧ row0.length = t.ndims ∧ row1.length = t.ndims := by
  obtain ⟨row0, row1, hrow⟩ := List.length_eq_two.1 hm
  exact ⟨row0, row1, hrow, h.rows_len row0 (by simp [hrow]), h.rows_len row1 (by simp [hrow])⟩

/-- Number of positions of the first `k` modes. -/
def msize (M : ℕ → List ℕ) : ℕ → ℕ
  | 0 => 1
  | k + 1 => msize M k * (M k).prod

/-- Row-major position of the first `k` mode indices. -/
def mflat (M m : ℕ → List ℕ) : ℕ → ℕ
  | 0 => 0
  | k + 1 => mflat M m k * (M k).prod + ravel (M k) (m k)

theorem msize_eq (M : ℕ → List ℕ) (k : ℕ) : msize M k = ((List.range k).flatMap M).prod := by
  induction k with
  | zero => rfl
  | succ k ih => simp [msize, ih, List.range_succ, List.flatMap_append]

theorem flatMap_length_congr (M m : ℕ → List ℕ) (k : ℕ)
    (h : ∀ j < k, (m j).length = (M j).length) :
    ((List.range k).flatMap m).length = ((List.range k).flatMap M).length := by
  induction k with
  | zero => rfl
  | succ k ih =>
    simp only [List.range_succ, List.flatMap_append, List.length_append, List.flatMap_cons,
      List.flatMap_nil, List.append_nil]
    rw [ih (fun j hj => h j (by omega)), h k (by omega)]

theorem mflat_eq (M m : ℕ → List ℕ) (k : ℕ) (h : ∀ j < k, (m j).length = (M j).length) :
    mflat M m k = ravel ((List.range k).flatMap M) ((List.range k).flatMap m) := by
  induction k with
  | zero => rfl
  | succ k ih =>
    simp only [List.range_succ, List.flatMap_append, List.flatMap_cons, List.flatMap_nil,
      List.append_nil]
    rw [ravel_append _ _ (flatMap_length_congr M m k (fun j hj => h j (by omega))), mflat,
      ih (fun j hj => h j (by omega))]

theorem valid_flatMap (M m : ℕ → List ℕ) (k : ℕ) (h : ∀ j < k, Valid (M j) (m j)) :
    Valid ((List.range k).flatMap M) ((List.range k).flatMap m) := by
  induction k with
  | zero => trivial
  | succ k ih =>
    simp only [List.range_succ, List.flatMap_append, List.flatMap_cons, List.flatMap_nil,
      List.append_nil]
    exact valid_append (ih (fun j hj => h j (by omega))) (h k (by omega))

theorem mflat_lt (M m : ℕ → List ℕ) (k : ℕ) (h : ∀ j < k, Valid (M j) (m j)) :
    mflat M m k < msize M k := by
  rw [mflat_eq M m k (fun j hj => (h j hj).length_eq), msize_eq]
  exact ravel_lt (valid_flatMap M m k h)

theorem flatMap_singleton_getD (l : List ℕ) :
    (List.range l.length).flatMap (fun k => [l.getD k 0]) = l := by
  rw [← List.map_eq_flatMap]
  apply List.ext_getElem
  · simp
  · intro i h1 h2
    simp [h2]

end T3f
