import Verif.Model.TensorTrain
import Verif.Tf.Factor

/-!
# Decompositions

Models `/repo/t3f/decompositions.py`. Static shapes are known in eager mode, so the branches for undefined ranks do not
occur. The functions for batches differ from those for single objects in the leading batch axis only; both are modelled by
one definition, in which `t.batch.toList` is the list of leading axes (empty or the batch size). QR and SVD are arbitrary
routines.
-/

namespace T3f

/-- decompositions.py:452-457, 524-529, 582-587, 267-272, 345-350: `raw_shape[0][core_idx]` (and `raw_shape[1][core_idx]`);
`curr_mode` is the product. -/
def coreModes {K : Type} (t : TT K) (i : ℕ) : List ℕ := t.rawShape.map (·.getD i 0)

/-- decompositions.py:444-478 (batch: 509-541): one step of the left-to-right sweep. The state is `tt_cores` and
`next_rank`. -/
noncomputable def orthoLRStep (qr : QRRoutine) (t : TT ℝ) (i : ℕ) (s : List (Tensor ℝ) × ℕ) : R (List (Tensor ℝ) × ℕ) := do
  let core ← pyGet s.1 i
  let currRank := s.2
  let nextRank ← pyGet t.ttRanks (i + 1)
  let core ← reshape core ((t.batch.toList ++ [currRank * (coreModes t i).prod, nextRank]).map some)
  let (q, tri) ← linalgQR qr core
  let triRows ← pyGet tri.shape t.batch.toList.length
  let triCols ← pyGet tri.shape (t.batch.toList.length + 1)
  let newCore ← reshape q ((t.batch.toList ++ currRank :: (coreModes t i ++ [triRows])).map some)
  let next ← pyGet s.1 (i + 1)
  let next ← reshape next (t.batch.toList.map some ++ [some triCols, none])
  let next ← matmul tri next
  pure ((s.1.set i newCore).set (i + 1) next, triRows)

/-- decompositions.py:421-487 `_orthogonalize_tt_cores_left_to_right`, 490-551
`_orthogonalize_batch_tt_cores_left_to_right`. -/
noncomputable def orthoLR (qr : QRRoutine) (t : TT ℝ) : R (TT ℝ) := do
  let r0 ← pyGet t.ttRanks 0
  let (cores, nextRank) ← forRange (orthoLRStep qr t) 0 (t.ndims - 1) (t.cores, r0)
  let last ← pyGet cores (t.ndims - 1)
  let last ← reshape last ((t.batch.toList ++ nextRank :: (coreModes t (t.ndims - 1) ++ [1])).map some)
  let cores := cores.set (t.ndims - 1) last
  match t.batch with
  | some n => mkBatch cores (.shapes t.rawShape) none (some n)
  | none => mkTT cores (.shapes t.rawShape) none

/-- decompositions.py:570-603: one step of the right-to-left sweep, for core `i`. The state is `tt_cores` and `prev_rank`. -/
noncomputable def orthoRLStep (qr : QRRoutine) (t : TT ℝ) (i : ℕ) (s : List (Tensor ℝ) × ℕ) : R (List (Tensor ℝ) × ℕ) := do
  let core ← pyGet s.1 i
  let currRank := s.2
  let prevRank ← pyGet t.ttRanks i
  let core ← reshape core [some prevRank, some ((coreModes t i).prod * currRank)]
  let core ← transpose core [1, 0]
  let (q, tri) ← linalgQR qr core
  let core ← transpose q [1, 0]
  let tri ← transpose tri [1, 0]
  let triRows ← pyGet tri.shape 0
  let triCols ← pyGet tri.shape 1
  let newCore ← reshape core ((triCols :: (coreModes t i ++ [currRank])).map some)
  let prev ← pyGet s.1 (i - 1)
  let prev ← reshape prev [none, some triRows]
  let prev ← matmul prev tri
  pure ((s.1.set i newCore).set (i - 1) prev, triCols)

/-- decompositions.py:554-612 `_orthogonalize_tt_cores_right_to_left`. -/
noncomputable def orthoRL (qr : QRRoutine) (t : TT ℝ) : R (TT ℝ) := do
  let rd ← pyGet t.ttRanks t.ndims
  let (cores, prevRank) ← forRange (fun j => orthoRLStep qr t (t.ndims - 1 - j)) 0 (t.ndims - 1) (t.cores, rd)
  let first ← pyGet cores 0
  let first ← reshape first ((1 :: (coreModes t 0 ++ [prevRank])).map some)
  mkTT (cores.set 0 first) (.shapes t.rawShape) none

/-- decompositions.py:395-418 `orthogonalize_tt_cores`. -/
noncomputable def orthogonalize (qr : QRRoutine) (t : TT ℝ) (leftToRight : Bool) : R (TT ℝ) :=
  if leftToRight then orthoLR qr t
  else if t.isBatch then Except.error Err.notImpl
  else orthoRL qr t

/-- The argument `max_tt_rank`: `None`, `np.inf`, an integer or a list of integers. -/
inductive MaxRank where
  | none
  | inf
  | num (r : ℤ)
  | list (l : List ℤ)
  deriving DecidableEq, Repr

open Classical in
/-- decompositions.py:148-149, 252-253, 328-329: the check of `epsilon`. -/
noncomputable def checkEps (eps : Option ℝ) : R Unit := require (∀ e ∈ eps, 0 ≤ e) Err.value

/-- decompositions.py:146-156 (round: 250-259): the checks of `max_tt_rank` and `epsilon`, and the list of bounds. `np.array(None).astype(np.int32)` is a
TypeError; `np.inf` becomes the smallest int32, which is below one. -/
noncomputable def maxRanks (d : ℕ) (m : MaxRank) (eps : Option ℝ) : R (List ℕ) :=
  match m with
  | .none => Except.error Err.type
  | .inf => Except.error Err.value
  | .num r => do
      require (1 ≤ r) Err.value
      checkEps eps
      pure (List.replicate (d + 1) r.toNat)
  | .list l => do
      require (∀ r ∈ l, 1 ≤ r) Err.value
      checkEps eps
      if l.length = 1 then pure (List.replicate (d + 1) (l.getD 0 0).toNat)
      else do
        require (l.length = d + 1) Err.value
        pure (l.map Int.toNat)

/-- decompositions.py:325-334: the same for batches. The condition `max_tt_rank < 1` of a list with more than one item
is a ValueError (ambiguous truth value of an array). -/
noncomputable def maxRanksBatch (d : ℕ) (m : MaxRank) (eps : Option ℝ) : R (List ℕ) :=
  match m with
  | .list l => if 1 < l.length then Except.error Err.value else maxRanks d (.list l) eps
  | m => maxRanks d m eps

/-- decompositions.py:281-284, 359-362, 171-175: the rank that is kept. -/
def keptRank (maxRank rows columns : ℕ) : ℕ := if maxRank = 1 then 1 else min maxRank (min rows columns)

/-- `x[..., 0:r]` for a tensor with `n + 1` axes. -/
def takeLast {K : Type} (x : Tensor K) (n r : ℕ) : R (Tensor K) :=
  getItem x (List.replicate n .all ++ [.slice (some 0) (some r) 1])

/-- decompositions.py:264-305 (batch: 343-381): one step of the compression, for core `i`. The state is `tt_cores` and
`ranks`. -/
noncomputable def roundStep (svd : SVDRoutine) (t : TT ℝ) (bounds : List ℕ) (i : ℕ) (s : List (Tensor ℝ) × List ℕ) :
    R (List (Tensor ℝ) × List ℕ) := do
  let o := t.batch.toList.length
  let core ← pyGet s.1 i
  let nextRank ← pyGet s.2 (i + 1)
  let columns := (coreModes t i).prod * nextRank
  let core ← reshape core (t.batch.toList.map some ++ [none, some columns])
  let rows ← pyGet core.shape o
  let bound ← pyGet bounds i
  let rank := keptRank bound rows columns
  let (sv, u, v) ← linalgSVD svd core
  let u ← takeLast u (o + 1) rank
  let sv ← takeLast sv o rank
  let v ← takeLast v (o + 1) rank
  let vt ← transpose v (List.range o ++ [o + 1, o])
  let newCore ← reshape vt ((t.batch.toList ++ rank :: (coreModes t i ++ [nextRank])).map some)
  let prev ← pyGet s.1 (i - 1)
  let prev ← reshape prev (t.batch.toList.map some ++ [none, some rows])
  let prev ← matmul prev u
  let dg ← linalgDiag sv
  let prev ← matmul prev dg
  pure ((s.1.set i newCore).set (i - 1) prev, s.2.set i rank)

/-- decompositions.py:260-316 (batch: 335-392): `_round_tt` and `_round_batch_tt` after the checks. -/
noncomputable def roundWith (qr : QRRoutine) (svd : SVDRoutine) (t : TT ℝ) (bounds : List ℕ) : R (TT ℝ) := do
  let o ← orthogonalize qr t true
  let (cores, ranks) ← forRange (fun j => roundStep svd t bounds (t.ndims - 1 - j)) 0 (t.ndims - 1)
    (o.cores, List.replicate (t.ndims + 1) 1)
  let r0 ← pyGet ranks 0
  let r1 ← pyGet ranks 1
  let first ← pyGet cores 0
  let first ← reshape first ((t.batch.toList ++ r0 :: (coreModes t 0 ++ [r1])).map some)
  let cores := cores.set 0 first
  match t.batch with
  | some n => mkBatch cores (.shapes t.rawShape) (some ranks) (some n)
  | none => mkTT cores (.shapes t.rawShape) (some ranks)

/-- decompositions.py:198-241 `round`. -/
noncomputable def ttRound (qr : QRRoutine) (svd : SVDRoutine) (t : TT ℝ) (maxRank : MaxRank) (eps : Option ℝ) : R (TT ℝ) := do
  let bounds ← if t.isBatch then maxRanksBatch t.ndims maxRank eps else maxRanks t.ndims maxRank eps
  roundWith qr svd t bounds

/-- decompositions.py:160-187: one step of `to_tt_tensor`. The state is `tens`, `ranks` and `tt_cores`. -/
noncomputable def toTTStep (svd : SVDRoutine) (shape bounds : List ℕ) (i : ℕ) (s : Tensor ℝ × List ℕ × List (Tensor ℝ)) :
    R (Tensor ℝ × List ℕ × List (Tensor ℝ)) := do
  let mode ← pyGet shape i
  let rk ← pyGet s.2.1 i
  let rows := rk * mode
  let tens ← reshape s.1 [some rows, none]
  let columns ← pyGet tens.shape 1
  let (sv, u, v) ← linalgSVD svd tens
  let bound ← pyGet bounds (i + 1)
  let rank := keptRank bound rows columns
  let u ← takeLast u 1 rank
  let sv ← takeLast sv 0 rank
  let v ← takeLast v 1 rank
  let core ← reshape u [some rk, some mode, some rank]
  let dg ← linalgDiag sv
  let vt ← transpose v [1, 0]
  let tens ← matmul dg vt
  pure (tens, s.2.1.set (i + 1) rank, s.2.2 ++ [core])

/-- decompositions.py:100-194 `to_tt_tensor`. -/
noncomputable def toTTTensor (svd : SVDRoutine) (tens : Tensor ℝ) (maxRank : MaxRank) (eps : Option ℝ) : R (TT ℝ) := do
  let d := tens.shape.length
  let bounds ← maxRanks d maxRank eps
  let (rest, ranks, cores) ← forRange (toTTStep svd tens.shape bounds) 0 (d - 1) (tens, List.replicate (d + 1) 1, [])
  let lastMode ← pyGet tens.shape.reverse 0
  let r ← pyGet ranks (d - 1)
  let rd ← pyGet ranks d
  let last ← reshape rest [some r, some lastMode, some rd]
  mkTT (cores ++ [last]) (.flat tens.shape) (some ranks)

/-- decompositions.py:63-69: an omitted row or column shape is all ones. (Both omitted: `len(None)`.) -/
def fillRows : Option (List ℕ) → Option (List ℕ) → R (List ℕ × List ℕ)
  | none, none => Except.error Err.type
  | none, some b => pure (List.replicate b.length 1, b)
  | some a, none => pure (a, List.replicate a.length 1)
  | some a, some b => pure (a, b)

/-- decompositions.py:9-96 `to_tt_matrix`. Row and column shapes of different length do not form an array. Shapes are natural
numbers: `-1` is not modelled. -/
noncomputable def toTTMatrix (svd : SVDRoutine) (mat : Tensor ℝ) (rowShape colShape : Option (List ℕ)) (maxRank : MaxRank)
    (eps : Option ℝ) : R (TT ℝ) := do
  let (a, b) ← fillRows rowShape colShape
  require (a.length = b.length) Err.value
  let d := a.length
  let tens ← reshape mat ((a ++ b).map some)
  let tens ← transpose tens ((List.range d).flatMap fun k => [k, d + k])
  let tens ← reshape tens ((List.zipWith (· * ·) a b).map some)
  let tt ← toTTTensor svd tens maxRank eps
  let cores ← mapRange d fun i => do
    let core ← pyGet tt.cores i
    let r ← pyGet tt.ttRanks i
    let r' ← pyGet tt.ttRanks (i + 1)
    let n ← pyGet a i
    let m ← pyGet b i
    reshape core [some r, some n, some m, some r']
  mkTT cores (.shapes [a, b]) (some tt.ttRanks)

end T3f
