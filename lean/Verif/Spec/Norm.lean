import Verif.Spec.Entry

/-! # Norm of one core -/

namespace T3f

variable {K : Type}

/-- Axes of core `k` without the batch axis. -/
def TT.coreShape (t : TT K) (k : ℕ) : List ℕ := t.rank k :: (t.modes k ++ [t.rank (k + 1)])

/-- Sum of squares of the elements of core `k` (of element `p` of the batch). -/
def TT.coreNormSq [Semiring K] (t : TT K) (p : List ℕ) (k : ℕ) : K :=
  ∑ x ∈ Finset.range (t.coreShape k).prod, (t.core k).get (p ++ unravel (t.coreShape k) x) ^ 2

end T3f
