import Verif.Model.RoundedOrtho

/-!
# Rounding in floating point arithmetic

The same code as in `Model/Decompositions.lean`; `tf.matmul` is a routine that rounds (`Tf/Rounding.lean`), and the routines for `tf.linalg.qr` and
`tf.linalg.svd` need not be exact. With the exact matrix product they are the functions of that module (`Props/C79RoundAccuracy.lean`).
-/

namespace T3f

/-- decompositions.py:264-305 (batch: 343-381): one step of the compression, for core `i`. The state is `tt_cores` and `ranks`. -/
noncomputable def roundStepF (F : FloatRoutines) (svd : SVDRoutine) (t : TT ℝ) (bounds : List ℕ) (i : ℕ) (s : List (Tensor ℝ) × List ℕ) :
    R (List (Tensor ℝ) × List ℕ) := do
  let o := t.batch.toList.length
  let core ← pyGet s.1 i
  let nextRank ← pyGet s.2 (i + 1)
  let columns := (coreModes t i).prod * nextRank
  let core ← reshape core (t.batch.toList.map some ++ [none, some columns])
  let rows ← pyGet core.shape o
  let bound ← pyGet bounds i
  let rank := keptRank bound rows columns
  let (sv, u, v) ← linalgSVD svd core
  let u ← takeLast u (o + 1) rank
  let sv ← takeLast sv o rank
  let v ← takeLast v (o + 1) rank
  let vt ← transpose v (List.range o ++ [o + 1, o])
  let newCore ← reshape vt ((t.batch.toList ++ rank :: (coreModes t i ++ [nextRank])).map some)
  let prev ← pyGet s.1 (i - 1)
  let prev ← reshape prev (t.batch.toList.map some ++ [none, some rows])
  let prev ← F.matmul prev u
  let dg ← linalgDiag sv
  let prev ← F.matmul prev dg
  pure ((s.1.set i newCore).set (i - 1) prev, s.2.set i rank)

/-- decompositions.py:260-316 (batch: 335-392): `_round_tt` and `_round_batch_tt` after the checks. -/
noncomputable def roundWithF (F : FloatRoutines) (qr : QRRoutine) (svd : SVDRoutine) (t : TT ℝ) (bounds : List ℕ) : R (TT ℝ) := do
  let o ← orthogonalizeF F qr t true
  let (cores, ranks) ← forRange (fun j => roundStepF F svd t bounds (t.ndims - 1 - j)) 0 (t.ndims - 1)
    (o.cores, List.replicate (t.ndims + 1) 1)
  let r0 ← pyGet ranks 0
  let r1 ← pyGet ranks 1
  let first ← pyGet cores 0
  let first ← reshape first ((t.batch.toList ++ r0 :: (coreModes t 0 ++ [r1])).map some)
  let cores := cores.set 0 first
  match t.batch with
  | some n => mkBatch cores (.shapes t.rawShape) (some ranks) (some n)
  | none => mkTT cores (.shapes t.rawShape) (some ranks)

/-- decompositions.py:198-241 `round`. -/
noncomputable def ttRoundF (F : FloatRoutines) (qr : QRRoutine) (svd : SVDRoutine) (t : TT ℝ) (maxRank : MaxRank) (eps : Option ℝ) : R (TT ℝ) := do
  let bounds ← if t.isBatch then maxRanksBatch t.ndims maxRank eps else maxRanks t.ndims maxRank eps
  roundWithF F qr svd t bounds

end T3f
