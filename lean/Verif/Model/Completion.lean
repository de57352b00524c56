import Verif.Model.Gather
import Verif.Model.Full
import Mathlib.Data.Real.Basic

/-!
# Losses of the tensor completion tutorial (docs/tutorials/tensor_completion.ipynb)

Values are real numbers; the tensors are not batches. Without observations TensorFlow returns nan where Lean divides by zero; the theorems assume that there are some. Adam's update of the cores is TensorFlow's and is not modelled.
-/

namespace T3f

/-- docs/tutorials/tensor_completion.ipynb:181 (with observed_total of line 148):
`1.0 / observed_total * tf.reduce_sum((sparsity_mask * t3f.full(estimated) - sparse_observation)**2)`. -/
noncomputable def maskedLoss (estimated : TT ℝ) (sparsityMask sparseObservation : Tensor ℝ) : R ℝ := do
  let f ← full estimated
  let m ← binop (· * ·) sparsityMask f
  let d ← binop (· - ·) m sparseObservation
  pure (1 / reduceSum sparsityMask * reduceSum (d.map (· ^ 2)))

/-- docs/tutorials/tensor_completion.ipynb:187: `1.0 / total * tf.reduce_sum((t3f.full(estimated) - ground_truth)**2)` with `total = np.prod(shape)`. -/
noncomputable def completionTestLoss (estimated : TT ℝ) (groundTruth : Tensor ℝ) (shape : List ℕ) : R ℝ := do
  let f ← full estimated
  let d ← binop (· - ·) f groundTruth
  pure (1 / (shape.prod : ℝ) * reduceSum (d.map (· ^ 2)))

/-- docs/tutorials/tensor_completion.ipynb:374-376, `tf.reduce_mean((t3f.gather_nd(estimated, observation_idx) - observations) ** 2)`; the mean over all
elements is the sum divided by their number. -/
noncomputable def gatherLoss (estimated : TT ℝ) (observationIdx : Tensor ℕ) (observations : Tensor ℝ) : R ℝ := do
  let v ← ttGatherNd estimated observationIdx
  let d ← binop (· - ·) v observations
  pure (reduceSum (d.map (· ^ 2)) / (d.shape.prod : ℝ))

end T3f
