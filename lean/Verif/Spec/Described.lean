import Verif.Spec.Cores

/-! # Objects whose metadata is that of their cores, empty axes allowed -/

namespace T3f

variable {K : Type}

/-- The object is a TT-tensor or TT-matrix (or a batch of them) whose reported shape, TT-ranks and batch size are those of its cores; neighbouring ranks agree and
boundary ranks are one. In contrast to `TT.WF`, ranks and batch size may be zero. -/
structure TT.Described [Zero K] (t : TT K) : Prop where
  pos : 0 < t.ndims
  rank_first : t.rank 0 = 1
  rank_last : t.rank t.ndims = 1
  rows : t.rawShape.length = 1 ∨ t.rawShape.length = 2
  describes : t.Describes

/-- The number of modes of a TT-matrix shape whose rows or columns may be omitted is not one. -/
def notOneMode (a b : Option (List ℤ)) : Prop := (∀ l ∈ a, l.length ≠ 1) ∧ ∀ l ∈ b, l.length ≠ 1

end T3f
