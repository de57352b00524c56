import Verif.Model.Decompositions
import Verif.Model.Inner
import Verif.Model.Gather

/-!
# Frobenius norms

Models `/repo/t3f/ops.py:922-997` (`frobenius_norm_squared`, `frobenius_norm`).
-/

namespace T3f

/-- `tf.norm(t)`: the Euclidean norm of all elements. -/
noncomputable def tfNorm (t : Tensor ℝ) : Tensor ℝ := ⟨[], fun _ => Real.sqrt (reduceSum (t.map (· ^ 2)))⟩

/-- `tf.norm(t, axis=1)` of a matrix: the Euclidean norms of the rows. -/
noncomputable def tfNormRows (t : Tensor ℝ) : R (Tensor ℝ) :=
  match t.shape with
  | [n, m] => pure ⟨[n], fun i => Real.sqrt (∑ x ∈ Finset.range m, t.get [i.getD 0 0, x] ^ 2)⟩
  | _ => Except.error Err.tf

/-- ops.py:922-973 `frobenius_norm_squared`. -/
noncomputable def frobeniusNormSquared (qr : QRRoutine) (t : TT ℝ) (differentiable : Bool) : R (Tensor ℝ) :=
  if differentiable then frobeniusNormSquaredDiff t
  else do
    let orth ← orthogonalize qr t true
    let last ← pyGet orth.cores.reverse 0
    if t.isBatch then
      let bs ← t.lazyBatchSize
      let last ← reshape last [some bs, none]
      let n ← tfNormRows last
      pure (n.map (· ^ 2))
    else pure ((tfNorm last).map (· ^ 2))

/-- ops.py:976-997 `frobenius_norm`. (`tf.sqrt` of a negative number is NaN, here zero.) -/
noncomputable def frobeniusNorm (qr : QRRoutine) (t : TT ℝ) (eps : ℝ) (differentiable : Bool) : R (Tensor ℝ) := do
  let n ← frobeniusNormSquared qr t differentiable
  pure (n.map fun x => Real.sqrt (x + eps))

end T3f
