import Verif.Spec.Entry

/-!
# Concrete TT objects

Used by the `example`s that accompany the theorems to show that their hypotheses can be met.
-/

namespace T3f

variable {K : Type}

instance [Zero K] (t : TT K) : Decidable t.WF :=
  decidable_of_iff
    ((0 < t.ndims ∧ t.ttRanks.length = t.ndims + 1 ∧ t.rank 0 = 1 ∧ t.rank t.ndims = 1) ∧
     ((∀ k ≤ t.ndims, 0 < t.rank k) ∧ (t.rawShape.length = 1 ∨ t.rawShape.length = 2) ∧
      (∀ row ∈ t.rawShape, row.length = t.ndims)) ∧
     (∀ k < t.ndims, (t.core k).shape = t.bpre ++ t.rank k :: (t.modes k ++ [t.rank (k + 1)])) ∧
     t.batch ≠ some 0)
    ⟨fun ⟨⟨a, b, c, d⟩, ⟨e, f, g⟩, h, i⟩ => ⟨a, b, c, d, e, f, g, h, i⟩,
     fun ⟨a, b, c, d, e, f, g, h, i⟩ => ⟨⟨a, b, c, d⟩, ⟨e, f, g⟩, h, i⟩⟩

/-- Tensor with the given shape and row-major data. -/
def Tensor.ofList [Zero K] (shape : List ℕ) (data : List K) : Tensor K :=
  ⟨shape, fun idx => data.getD (ravel shape idx) 0⟩

/-- A tensor of shape `2 × 3` and rank 2. -/
def exTensor : TT ℤ where
  cores := [.ofList [1, 2, 2] [1, 2, 3, 4], .ofList [2, 3, 1] [1, 0, -1, 2, 5, 7]]
  rawShape := [[2, 3]]
  ttRanks := [1, 2, 1]
  batch := none

/-- Another tensor of shape `2 × 3`, of rank 1. -/
def exTensor' : TT ℤ where
  cores := [.ofList [1, 2, 1] [3, -2], .ofList [1, 3, 1] [1, 4, 9]]
  rawShape := [[2, 3]]
  ttRanks := [1, 1, 1]
  batch := none

/-- A three-dimensional tensor of shape `2 × 2 × 3`. -/
def exTensor3 : TT ℤ where
  cores := [.ofList [1, 2, 2] [1, 2, 3, 4], .ofList [2, 2, 2] [1, 0, 2, 1, 0, 1, 5, -3],
    .ofList [2, 3, 1] [1, 0, -1, 2, 5, 7]]
  rawShape := [[2, 2, 3]]
  ttRanks := [1, 2, 2, 1]
  batch := none

/-- A TT-matrix with row modes `2, 2`, column modes `1, 2`. -/
def exMatrix : TT ℤ where
  cores := [.ofList [1, 2, 1, 2] [1, 2, 3, 4], .ofList [2, 2, 2, 1] [1, 0, 2, 1, 0, 1, 5, -3]]
  rawShape := [[2, 2], [1, 2]]
  ttRanks := [1, 2, 1]
  batch := none

/-- A TT-matrix with row modes `1, 2`, column modes `2, 3`. -/
def exMatrix' : TT ℤ where
  cores := [.ofList [1, 1, 2, 2] [1, 2, 3, 4], .ofList [2, 2, 3, 1] [1, 0, 2, 1, 0, 1, 5, -3, 1, 1, 2, 2]]
  rawShape := [[1, 2], [2, 3]]
  ttRanks := [1, 2, 1]
  batch := none

/-- A batch of two tensors of shape `2 × 3`. -/
def exBatch : TT ℤ where
  cores := [.ofList [2, 1, 2, 2] [1, 2, 3, 4, 5, 6, 7, 8],
    .ofList [2, 2, 3, 1] [1, 0, -1, 2, 5, 7, 1, 1, 1, 0, 0, 2]]
  rawShape := [[2, 3]]
  ttRanks := [1, 2, 1]
  batch := some 2

/-- A batch of one tensor of shape `2 × 3`. -/
def exBatch1 : TT ℤ where
  cores := [.ofList [1, 1, 2, 2] [1, 2, 3, 4], .ofList [1, 2, 3, 1] [1, 0, -1, 2, 5, 7]]
  rawShape := [[2, 3]]
  ttRanks := [1, 2, 1]
  batch := some 1

/-- A batch of two TT-matrices with row modes `2, 1`, column modes `1, 2`. -/
def exBatchMatrix : TT ℤ where
  cores := [.ofList [2, 1, 2, 1, 2] [1, 2, 3, 4, 5, 6, 7, 8],
    .ofList [2, 2, 1, 2, 1] [1, 0, -1, 2, 5, 7, 1, 1]]
  rawShape := [[2, 1], [1, 2]]
  ttRanks := [1, 2, 1]
  batch := some 2

example : exTensor.WF := by decide
example : exTensor'.WF := by decide
example : exTensor3.WF := by decide
example : exMatrix.WF := by decide
example : exMatrix'.WF := by decide
example : exBatch.WF := by decide
example : exBatch1.WF := by decide
example : exBatchMatrix.WF := by decide

end T3f
