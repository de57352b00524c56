import Verif.Spec.Entry

/-! # When cores fit together, and when metadata describes them -/

namespace T3f

variable {K : Type}

/-- Cores with these shapes (`o` leading batch axes each) form a tensor train: equal numbers of axes, the last
axis of a core is as long as the rank axis of the next one, boundary ranks one. -/
structure Consistent (o : ℕ) (shapes : List (List ℕ)) : Prop where
  same : ∀ i < shapes.length, (shapes.getD i []).length = (shapes.getD 0 []).length
  link : ∀ i, i + 1 < shapes.length → (shapes.getD (i + 1) []).getD o 0 = (shapes.getD i []).getLastD 0
  first : (shapes.getD 0 []).getD o 0 = 1
  last : (shapes.getD (shapes.length - 1) []).getLastD 0 = 1

/-- The reported raw shape, TT-ranks and batch size are those of the cores. -/
structure TT.Describes [Zero K] (t : TT K) : Prop where
  ranks_len : t.ttRanks.length = t.ndims + 1
  rows_len : ∀ row ∈ t.rawShape, row.length = t.ndims
  core_shape : ∀ k < t.ndims, (t.core k).shape = t.bpre ++ t.rank k :: (t.modes k ++ [t.rank (k + 1)])

end T3f
