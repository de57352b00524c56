import Verif.Tf.Tape
import Verif.Model.Norm
import Verif.Model.Autodiff
import Verif.Model.Multiply

/-!
# Orthogonalization and norms under a gradient tape

The same code as in `Model/Decompositions.lean` and `Model/Norm.lean`; the QR decompositions and square roots are recorded (`Tf/Tape.lean`).
`Props/C72Tape.lean` shows that the results are those of the functions without the tape, whatever the arguments.
-/

namespace T3f

open Taped

/-- decompositions.py:444-478 (batch: 509-541). -/
noncomputable def orthoLRStepT (qr : QRRoutine) (t : TT ℝ) (i : ℕ) (s : List (Tensor ℝ) × ℕ) : Taped (List (Tensor ℝ) × ℕ) := do
  let core ← plain (pyGet s.1 i)
  let currRank := s.2
  let nextRank ← plain (pyGet t.ttRanks (i + 1))
  let core ← plain (reshape core ((t.batch.toList ++ [currRank * (coreModes t i).prod, nextRank]).map some))
  let p ← linalgQRT qr core
  let triRows ← plain (pyGet p.2.shape t.batch.toList.length)
  let triCols ← plain (pyGet p.2.shape (t.batch.toList.length + 1))
  let newCore ← plain (reshape p.1 ((t.batch.toList ++ currRank :: (coreModes t i ++ [triRows])).map some))
  let next ← plain (pyGet s.1 (i + 1))
  let next ← plain (reshape next (t.batch.toList.map some ++ [some triCols, none]))
  let next ← plain (matmul p.2 next)
  pure ((s.1.set i newCore).set (i + 1) next, triRows)

/-- decompositions.py:421-487, 490-551. -/
noncomputable def orthoLRT (qr : QRRoutine) (t : TT ℝ) : Taped (TT ℝ) := do
  let r0 ← plain (pyGet t.ttRanks 0)
  let s ← forRangeT (orthoLRStepT qr t) 0 (t.ndims - 1) (t.cores, r0)
  let last ← plain (pyGet s.1 (t.ndims - 1))
  let last ← plain (reshape last ((t.batch.toList ++ s.2 :: (coreModes t (t.ndims - 1) ++ [1])).map some))
  let cores := s.1.set (t.ndims - 1) last
  plain (match t.batch with
    | some n => mkBatch cores (.shapes t.rawShape) none (some n)
    | none => mkTT cores (.shapes t.rawShape) none)

/-- decompositions.py:570-603. -/
noncomputable def orthoRLStepT (qr : QRRoutine) (t : TT ℝ) (i : ℕ) (s : List (Tensor ℝ) × ℕ) : Taped (List (Tensor ℝ) × ℕ) := do
  let core ← plain (pyGet s.1 i)
  let currRank := s.2
  let prevRank ← plain (pyGet t.ttRanks i)
  let core ← plain (reshape core [some prevRank, some ((coreModes t i).prod * currRank)])
  let core ← plain (transpose core [1, 0])
  let p ← linalgQRT qr core
  let core ← plain (transpose p.1 [1, 0])
  let tri ← plain (transpose p.2 [1, 0])
  let triRows ← plain (pyGet tri.shape 0)
  let triCols ← plain (pyGet tri.shape 1)
  let newCore ← plain (reshape core ((triCols :: (coreModes t i ++ [currRank])).map some))
  let prev ← plain (pyGet s.1 (i - 1))
  let prev ← plain (reshape prev [none, some triRows])
  let prev ← plain (matmul prev tri)
  pure ((s.1.set i newCore).set (i - 1) prev, triCols)

/-- decompositions.py:554-612. -/
noncomputable def orthoRLT (qr : QRRoutine) (t : TT ℝ) : Taped (TT ℝ) := do
  let rd ← plain (pyGet t.ttRanks t.ndims)
  let s ← forRangeT (fun j => orthoRLStepT qr t (t.ndims - 1 - j)) 0 (t.ndims - 1) (t.cores, rd)
  let first ← plain (pyGet s.1 0)
  let first ← plain (reshape first ((1 :: (coreModes t 0 ++ [s.2])).map some))
  plain (mkTT (s.1.set 0 first) (.shapes t.rawShape) none)

/-- decompositions.py:395-418 `orthogonalize_tt_cores`. -/
noncomputable def orthogonalizeT (qr : QRRoutine) (t : TT ℝ) (leftToRight : Bool) : Taped (TT ℝ) :=
  if leftToRight then orthoLRT qr t
  else if t.isBatch then plain (Except.error Err.notImpl)
  else orthoRLT qr t

/-- `tf.norm(t)`: the square root of the sum of the squares. -/
noncomputable def tfNormT (t : Tensor ℝ) : Taped (Tensor ℝ) := sqrtT ⟨[], fun _ => reduceSum (t.map (· ^ 2))⟩

/-- `tf.norm(t, axis=1)` of a matrix. -/
noncomputable def tfNormRowsT (t : Tensor ℝ) : Taped (Tensor ℝ) :=
  match t.shape with
  | [n, m] => sqrtT ⟨[n], fun i => ∑ x ∈ Finset.range m, t.get [i.getD 0 0, x] ^ 2⟩
  | _ => plain (Except.error Err.tf)

/-- ops.py:922-973 `frobenius_norm_squared`. -/
noncomputable def frobeniusNormSquaredT (qr : QRRoutine) (t : TT ℝ) (differentiable : Bool) : Taped (Tensor ℝ) :=
  if differentiable then plain (frobeniusNormSquaredDiff t)
  else do
    let orth ← orthogonalizeT qr t true
    let last ← plain (pyGet orth.cores.reverse 0)
    if t.isBatch then
      let bs ← plain t.lazyBatchSize
      let last ← plain (reshape last [some bs, none])
      let n ← tfNormRowsT last
      pure (n.map (· ^ 2))
    else do
      let n ← tfNormT last
      pure (n.map (· ^ 2))

/-- ops.py:976-997 `frobenius_norm`. -/
noncomputable def frobeniusNormT (qr : QRRoutine) (t : TT ℝ) (eps : ℝ) (differentiable : Bool) : Taped (Tensor ℝ) := do
  let n ← frobeniusNormSquaredT qr t differentiable
  sqrtT (n.map (· + eps))

/-- The function `lambda x: 0.5 * t3f.frobenius_norm_squared(x - w, differentiable)` under a tape. -/
noncomputable def halfDistanceT (qr : QRRoutine) (w : TT ℝ) (differentiable : Bool) (x : TT ℝ) : Taped ℝ := do
  let d ← plain (sub x w)
  let c ← frobeniusNormSquaredT qr d differentiable
  pure (0.5 * c.get [])

/-- autodiff.py:107-116 of `gradients`: the orthogonalizations of the point, the blocks, and `value_and_grad` of the function of the blocks. Only what is
needed for the backward pass to run: the gradients themselves are in `Model/Autodiff.lean`. The frames are given to `deltas_to_tangent_space`, which
then calls no QR decomposition. -/
noncomputable def gradientsT {α : Type} (qr : QRRoutine) (func : TT ℝ → Taped α) (x : TT ℝ) : R Unit := do
  let left ← orthogonalize qr x true
  let right ← orthogonalize qr left false
  let deltas ← pointDeltas right
  let p ← deltasToTangent qr deltas x (some left) (some right)
  (func p).backward

end T3f
