import Verif.Model.Complex
import Verif.Model.Riemannian

/-!
# Projection on the tangent space, for complex cores

`project` multiplies the cores of `what` by the orthogonal cores of `where` with `tf.einsum`, which does not conjugate. The parts of `Model/Riemannian.lean` that
use operations of a ring only are for all rings and are used here for the complex numbers.
-/

namespace T3f.Cx

/-- riemannian.py:246-249: the left and right orthogonal cores of `where`. -/
noncomputable def tangentFrame (qr : QRRoutine) (whr : TT ℂ) : R (TT ℂ × TT ℂ) := do
  let left ← orthogonalize qr whr true
  let right ← orthogonalize qr left false
  pure (left, right)

/-- riemannian.py:199-368 `project`. -/
noncomputable def project (qr : QRRoutine) (what whr : TT ℂ) : R (TT ℂ) := do
  projectChecks what whr
  let (left, right) ← tangentFrame qr whr
  let d := whr.ndims
  let ax := modeLabels whr
  let w ← expandBatchDim what
  let n ← w.lazyBatchSize
  let rhs ← projectRhs ax w right d n
  let lhs ← projectLhs ax w left d n
  let cores ← mapRange d fun k => do
    let wc ← pyGet w.cores k
    let lc ← pyGet left.cores k
    let rc ← pyGet right.cores k
    let proj ← projectBlock ax what.isBatch lhs rhs d k wc lc
    let elc ← extendCore whr.isMatrix what.batch lc
    let erc ← extendCore whr.isMatrix what.batch rc
    tangentCore what.leftRankDim what.rightRankDim d k (zeroBlockShape whr left right what.batch k) elc erc proj
  mkTangent what.batch cores whr.rawShape

end T3f.Cx
