import Verif.Model.Inner

/-! # `gram_matrix` with a matrix -/

namespace T3f

variable {K : Type} [CommRing K]

/-- batch_ops.py:84-117 `gram_matrix(tt_vectors, matrix)`. -/
def gramMatrixWith (t M : TT K) : R (Tensor K) := pairwiseFlatInnerMatrix t t M

end T3f
