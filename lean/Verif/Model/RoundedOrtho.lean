import Verif.Tf.RoundedFactor
import Verif.Tf.Rounding
import Verif.Model.Decompositions
import Verif.Model.Norm

/-!
# Orthogonalization in floating point arithmetic

The same code as in `Model/Decompositions.lean` and `Model/Norm.lean`; `tf.matmul` is a routine that rounds (`Tf/Rounding.lean`), and the routine for
`tf.linalg.qr` need not be exact. With the exact matrix product they are the functions of those modules (`Props/C78OrthoAccuracy.lean`).
-/

namespace T3f

/-- decompositions.py:444-478 (batch: 509-541): one step of the left-to-right sweep. -/
noncomputable def orthoLRStepF (F : FloatRoutines) (qr : QRRoutine) (t : TT ℝ) (i : ℕ) (s : List (Tensor ℝ) × ℕ) : R (List (Tensor ℝ) × ℕ) := do
  let core ← pyGet s.1 i
  let currRank := s.2
  let nextRank ← pyGet t.ttRanks (i + 1)
  let core ← reshape core ((t.batch.toList ++ [currRank * (coreModes t i).prod, nextRank]).map some)
  let (q, tri) ← linalgQR qr core
  let triRows ← pyGet tri.shape t.batch.toList.length
  let triCols ← pyGet tri.shape (t.batch.toList.length + 1)
  let newCore ← reshape q ((t.batch.toList ++ currRank :: (coreModes t i ++ [triRows])).map some)
  let next ← pyGet s.1 (i + 1)
  let next ← reshape next (t.batch.toList.map some ++ [some triCols, none])
  let next ← F.matmul tri next
  pure ((s.1.set i newCore).set (i + 1) next, triRows)

/-- decompositions.py:421-487 `_orthogonalize_tt_cores_left_to_right`, 490-551 `_orthogonalize_batch_tt_cores_left_to_right`. -/
noncomputable def orthoLRF (F : FloatRoutines) (qr : QRRoutine) (t : TT ℝ) : R (TT ℝ) := do
  let r0 ← pyGet t.ttRanks 0
  let (cores, nextRank) ← forRange (orthoLRStepF F qr t) 0 (t.ndims - 1) (t.cores, r0)
  let last ← pyGet cores (t.ndims - 1)
  let last ← reshape last ((t.batch.toList ++ nextRank :: (coreModes t (t.ndims - 1) ++ [1])).map some)
  let cores := cores.set (t.ndims - 1) last
  match t.batch with
  | some n => mkBatch cores (.shapes t.rawShape) none (some n)
  | none => mkTT cores (.shapes t.rawShape) none

/-- decompositions.py:570-603: one step of the right-to-left sweep, for core `i`. -/
noncomputable def orthoRLStepF (F : FloatRoutines) (qr : QRRoutine) (t : TT ℝ) (i : ℕ) (s : List (Tensor ℝ) × ℕ) : R (List (Tensor ℝ) × ℕ) := do
  let core ← pyGet s.1 i
  let currRank := s.2
  let prevRank ← pyGet t.ttRanks i
  let core ← reshape core [some prevRank, some ((coreModes t i).prod * currRank)]
  let core ← transpose core [1, 0]
  let (q, tri) ← linalgQR qr core
  let core ← transpose q [1, 0]
  let tri ← transpose tri [1, 0]
  let triRows ← pyGet tri.shape 0
  let triCols ← pyGet tri.shape 1
  let newCore ← reshape core ((triCols :: (coreModes t i ++ [currRank])).map some)
  let prev ← pyGet s.1 (i - 1)
  let prev ← reshape prev [none, some triRows]
  let prev ← F.matmul prev tri
  pure ((s.1.set i newCore).set (i - 1) prev, triCols)

/-- decompositions.py:554-612 `_orthogonalize_tt_cores_right_to_left`. -/
noncomputable def orthoRLF (F : FloatRoutines) (qr : QRRoutine) (t : TT ℝ) : R (TT ℝ) := do
  let rd ← pyGet t.ttRanks t.ndims
  let (cores, prevRank) ← forRange (fun j => orthoRLStepF F qr t (t.ndims - 1 - j)) 0 (t.ndims - 1) (t.cores, rd)
  let first ← pyGet cores 0
  let first ← reshape first ((1 :: (coreModes t 0 ++ [prevRank])).map some)
  mkTT (cores.set 0 first) (.shapes t.rawShape) none

/-- decompositions.py:395-418 `orthogonalize_tt_cores`. -/
noncomputable def orthogonalizeF (F : FloatRoutines) (qr : QRRoutine) (t : TT ℝ) (leftToRight : Bool) : R (TT ℝ) :=
  if leftToRight then orthoLRF F qr t
  else if t.isBatch then Except.error Err.notImpl
  else orthoRLF F qr t

/-- `tf.norm(t)`. -/
noncomputable def tfNormF (nr : NormRoutine) (t : Tensor ℝ) : Tensor ℝ := ⟨[], fun _ => nr.norm t.shape.prod fun i => t.get (unravel t.shape i)⟩

/-- `tf.norm(t, axis=1)` of a matrix. -/
noncomputable def tfNormRowsF (nr : NormRoutine) (t : Tensor ℝ) : R (Tensor ℝ) :=
  match t.shape with
  | [n, m] => pure ⟨[n], fun i => nr.norm m fun x => t.get [i.getD 0 0, x]⟩
  | _ => Except.error Err.tf

/-- ops.py:963-973: `frobenius_norm_squared` with `differentiable=False`, the default. -/
noncomputable def frobeniusNormSquaredQRF (F : FloatRoutines) (qr : QRRoutine) (nr : NormRoutine) (t : TT ℝ) : R (Tensor ℝ) := do
  let orth ← orthogonalizeF F qr t true
  let last ← pyGet orth.cores.reverse 0
  if t.isBatch then
    let bs ← t.lazyBatchSize
    let last ← reshape last [some bs, none]
    let n ← tfNormRowsF nr last
    pure (n.map nr.square)
  else pure ((tfNormF nr last).map nr.square)

end T3f
