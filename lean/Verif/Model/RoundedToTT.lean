import Verif.Model.Decompositions
import Verif.Model.Rounded

/-!
# Decomposing dense tensors in floating point arithmetic

The same code as in `Model/Decompositions.lean`; `tf.matmul` is a routine that rounds (`Tf/Rounding.lean`), and the routine for `tf.linalg.svd` need not be
exact. With the exact matrix product they are the functions of that module (`Props/C81ToTTAccuracy.lean`).
-/

namespace T3f

/-- decompositions.py:160-187: one step of `to_tt_tensor`. The state is `tens`, `ranks` and `tt_cores`. -/
noncomputable def toTTStepF (F : FloatRoutines) (svd : SVDRoutine) (shape bounds : List ℕ) (i : ℕ) (s : Tensor ℝ × List ℕ × List (Tensor ℝ)) :
    R (Tensor ℝ × List ℕ × List (Tensor ℝ)) := do
  let mode ← pyGet shape i
  let rk ← pyGet s.2.1 i
  let rows := rk * mode
  let tens ← reshape s.1 [some rows, none]
  let columns ← pyGet tens.shape 1
  let (sv, u, v) ← linalgSVD svd tens
  let bound ← pyGet bounds (i + 1)
  let rank := keptRank bound rows columns
  let u ← takeLast u 1 rank
  let sv ← takeLast sv 0 rank
  let v ← takeLast v 1 rank
  let core ← reshape u [some rk, some mode, some rank]
  let dg ← linalgDiag sv
  let vt ← transpose v [1, 0]
  let tens ← F.matmul dg vt
  pure (tens, s.2.1.set (i + 1) rank, s.2.2 ++ [core])

/-- decompositions.py:100-194 `to_tt_tensor`. -/
noncomputable def toTTTensorF (F : FloatRoutines) (svd : SVDRoutine) (tens : Tensor ℝ) (maxRank : MaxRank) (eps : Option ℝ) : R (TT ℝ) := do
  let d := tens.shape.length
  let bounds ← maxRanks d maxRank eps
  let (rest, ranks, cores) ← forRange (toTTStepF F svd tens.shape bounds) 0 (d - 1) (tens, List.replicate (d + 1) 1, [])
  let lastMode ← pyGet tens.shape.reverse 0
  let r ← pyGet ranks (d - 1)
  let rd ← pyGet ranks d
  let last ← reshape rest [some r, some lastMode, some rd]
  mkTT (cores ++ [last]) (.flat tens.shape) (some ranks)

/-- decompositions.py:9-96 `to_tt_matrix`. Row and column shapes of different length do not form an array. Shapes are natural
numbers: `-1` is not modelled. -/
noncomputable def toTTMatrixF (F : FloatRoutines) (svd : SVDRoutine) (mat : Tensor ℝ) (rowShape colShape : Option (List ℕ)) (maxRank : MaxRank)
    (eps : Option ℝ) : R (TT ℝ) := do
  let (a, b) ← fillRows rowShape colShape
  require (a.length = b.length) Err.value
  let d := a.length
  let tens ← reshape mat ((a ++ b).map some)
  let tens ← transpose tens ((List.range d).flatMap fun k => [k, d + k])
  let tens ← reshape tens ((List.zipWith (· * ·) a b).map some)
  let tt ← toTTTensorF F svd tens maxRank eps
  let cores ← mapRange d fun i => do
    let core ← pyGet tt.cores i
    let r ← pyGet tt.ttRanks i
    let r' ← pyGet tt.ttRanks (i + 1)
    let n ← pyGet a i
    let m ← pyGet b i
    reshape core [some r, some n, some m, some r']
  mkTT cores (.shapes [a, b]) (some tt.ttRanks)

end T3f
