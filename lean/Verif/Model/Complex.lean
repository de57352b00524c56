import Verif.Model.Norm
import Verif.Model.Multiply
import Verif.Tf.Complex

/-!
# TT objects with complex cores

Nothing in t3f restricts the data type of the cores. `add`, `multiply` of two TT objects, `matmul`, `transpose`, `full`, `flat_inner`, indexing and
batches use operations of a ring only; their models are for all rings, and here they are used for the complex numbers. The functions below behave
differently for complex data types.
-/

namespace T3f.Cx

/-- ops.py:777-797 and 914-920 `multiply` by a number, for a TT object with complex cores: `fact` is a power of the absolute value, cast to the complex data
type, and `sign` is `tf.sign`. The number may be an integer, a real or a complex number. -/
noncomputable def multiplyScalar (a : TT ℂ) (c : ℂ) : R (TT ℂ) := do
  let fact := (‖c‖ : ℂ) ^ (1 / (a.ndims : ℂ))
  let cores := a.cores.map (smul fact)
  let c0 ← pyGet cores 0
  let cores := cores.set 0 (c0.map (· * tfSign c))
  mkLike a.batch cores a.rawShape a.ttRanks

/-- ops.py:777-797 and 914-920 `multiply` of a TT object with real cores by a complex number: `tf.cast` to the real data type of the cores takes the
real part of the sign (with a warning in the log). -/
noncomputable def multiplyReal (a : TT ℝ) (c : ℂ) : R (TT ℝ) := do
  let fact := ‖c‖ ^ (1 / (a.ndims : ℝ))
  let cores := a.cores.map (smul fact)
  let c0 ← pyGet cores 0
  let cores := cores.set 0 (c0.map (· * (tfSign c).re))
  mkLike a.batch cores a.rawShape a.ttRanks

/-- tensor_train_base.py:144-154 `__sub__`. -/
noncomputable def sub (a b : TT ℂ) : R (TT ℂ) := do add a (← multiplyScalar b (-1))

/-- tensor_train_base.py:156-164 `__neg__`. -/
noncomputable def neg (a : TT ℂ) : R (TT ℂ) := multiplyScalar a (-1)

/-- decompositions.py:444-478 (batch: 509-541): one step of the left-to-right sweep. The state is `tt_cores` and
`next_rank`. -/
noncomputable def orthoLRStep (qr : QRRoutine) (t : TT ℂ) (i : ℕ) (s : List (Tensor ℂ) × ℕ) : R (List (Tensor ℂ) × ℕ) := do
  let core ← pyGet s.1 i
  let currRank := s.2
  let nextRank ← pyGet t.ttRanks (i + 1)
  let core ← reshape core ((t.batch.toList ++ [currRank * (coreModes t i).prod, nextRank]).map some)
  let (q, tri) ← linalgQR qr core
  let triRows ← pyGet tri.shape t.batch.toList.length
  let triCols ← pyGet tri.shape (t.batch.toList.length + 1)
  let newCore ← reshape q ((t.batch.toList ++ currRank :: (coreModes t i ++ [triRows])).map some)
  let next ← pyGet s.1 (i + 1)
  let next ← reshape next (t.batch.toList.map some ++ [some triCols, none])
  let next ← matmul tri next
  pure ((s.1.set i newCore).set (i + 1) next, triRows)

/-- decompositions.py:421-487 `_orthogonalize_tt_cores_left_to_right`, 490-551
`_orthogonalize_batch_tt_cores_left_to_right`. -/
noncomputable def orthoLR (qr : QRRoutine) (t : TT ℂ) : R (TT ℂ) := do
  let r0 ← pyGet t.ttRanks 0
  let (cores, nextRank) ← forRange (orthoLRStep qr t) 0 (t.ndims - 1) (t.cores, r0)
  let last ← pyGet cores (t.ndims - 1)
  let last ← reshape last ((t.batch.toList ++ nextRank :: (coreModes t (t.ndims - 1) ++ [1])).map some)
  let cores := cores.set (t.ndims - 1) last
  match t.batch with
  | some n => mkBatch cores (.shapes t.rawShape) none (some n)
  | none => mkTT cores (.shapes t.rawShape) none

/-- decompositions.py:570-603: one step of the right-to-left sweep, for core `i`. The state is `tt_cores` and `prev_rank`. `tf.transpose` does not
conjugate. -/
noncomputable def orthoRLStep (qr : QRRoutine) (t : TT ℂ) (i : ℕ) (s : List (Tensor ℂ) × ℕ) : R (List (Tensor ℂ) × ℕ) := do
  let core ← pyGet s.1 i
  let currRank := s.2
  let prevRank ← pyGet t.ttRanks i
  let core ← reshape core [some prevRank, some ((coreModes t i).prod * currRank)]
  let core ← transpose core [1, 0]
  let (q, tri) ← linalgQR qr core
  let core ← transpose q [1, 0]
  let tri ← transpose tri [1, 0]
  let triRows ← pyGet tri.shape 0
  let triCols ← pyGet tri.shape 1
  let newCore ← reshape core ((triCols :: (coreModes t i ++ [currRank])).map some)
  let prev ← pyGet s.1 (i - 1)
  let prev ← reshape prev [none, some triRows]
  let prev ← matmul prev tri
  pure ((s.1.set i newCore).set (i - 1) prev, triCols)

/-- decompositions.py:554-612 `_orthogonalize_tt_cores_right_to_left`. -/
noncomputable def orthoRL (qr : QRRoutine) (t : TT ℂ) : R (TT ℂ) := do
  let rd ← pyGet t.ttRanks t.ndims
  let (cores, prevRank) ← forRange (fun j => orthoRLStep qr t (t.ndims - 1 - j)) 0 (t.ndims - 1) (t.cores, rd)
  let first ← pyGet cores 0
  let first ← reshape first ((1 :: (coreModes t 0 ++ [prevRank])).map some)
  mkTT (cores.set 0 first) (.shapes t.rawShape) none

/-- decompositions.py:395-418 `orthogonalize_tt_cores`. -/
noncomputable def orthogonalize (qr : QRRoutine) (t : TT ℂ) (leftToRight : Bool) : R (TT ℂ) :=
  if leftToRight then orthoLR qr t
  else if t.isBatch then Except.error Err.notImpl
  else orthoRL qr t

/-- `tf.norm(t)` of a complex tensor: `tf.sqrt(tf.reduce_sum(t * tf.math.conj(t)))`, a complex number. -/
noncomputable def tfNorm (t : Tensor ℂ) : Tensor ℂ := ⟨[], fun _ => (reduceSum (t.map fun z => z * starRingEnd ℂ z)) ^ (1 / 2 : ℂ)⟩

/-- `tf.norm(t, axis=1)` of a complex matrix. -/
noncomputable def tfNormRows (t : Tensor ℂ) : R (Tensor ℂ) :=
  match t.shape with
  | [n, m] => pure ⟨[n], fun i => (∑ x ∈ Finset.range m, t.get [i.getD 0 0, x] * starRingEnd ℂ (t.get [i.getD 0 0, x])) ^ (1 / 2 : ℂ)⟩
  | _ => Except.error Err.tf

/-- ops.py:922-973 `frobenius_norm_squared`. With `differentiable=True` the elements are multiplied by themselves, otherwise `tf.norm` is used. -/
noncomputable def frobeniusNormSquared (qr : QRRoutine) (t : TT ℂ) (differentiable : Bool) : R (Tensor ℂ) :=
  if differentiable then frobeniusNormSquaredDiff t
  else do
    let orth ← orthogonalize qr t true
    let last ← pyGet orth.cores.reverse 0
    if t.isBatch then
      let bs ← t.lazyBatchSize
      let last ← reshape last [some bs, none]
      let n ← tfNormRows last
      pure (n.map (· ^ 2))
    else pure ((tfNorm last).map (· ^ 2))

/-- ops.py:976-997 `frobenius_norm`. `tf.sqrt` of complex numbers is the principal root. -/
noncomputable def frobeniusNorm (qr : QRRoutine) (t : TT ℂ) (eps : ℝ) (differentiable : Bool) : R (Tensor ℂ) := do
  let n ← frobeniusNormSquared qr t differentiable
  pure (n.map fun x => (x + eps) ^ (1 / 2 : ℂ))

/-- ops.py:1300, 1317: the norm of a core in `renormalize_tt_cores`. The sum has no axes for TT objects; for batches it is over all axes but the first. -/
noncomputable def coreNorm (t : TT ℂ) (eps : ℝ) (core : Tensor ℂ) : R (Tensor ℂ) := do
  let sums : Tensor ℂ := ⟨t.batch.toList, fun p => ∑ n ∈ Finset.range (core.shape.drop t.batch.toList.length).prod,
    core.get (p ++ unravel (core.shape.drop t.batch.toList.length) n) ^ 2⟩
  let m ← maximum sums ⟨[], fun _ => eps⟩
  pure (m.map (· ^ (1 / 2 : ℂ)))

/-- ops.py:1276-1326 `renormalize_tt_cores`. (The size-one axes that `keepdims` keeps are left out; they play no role as the computation never gets past
`tf.maximum`.) -/
noncomputable def renormalize (t : TT ℂ) (eps : ℝ) : R (TT ℂ) := do
  let norms ← t.cores.mapM (coreNorm t eps)
  let fact : List ℕ → ℂ := fun p => Complex.exp ((norms.map fun n => Complex.log (n.get p)).sum / t.ndims)
  let cores := List.zipWith (fun (c n : Tensor ℂ) => (⟨c.shape, fun i => c.get i * fact (i.take t.batch.toList.length) /
    n.get (i.take t.batch.toList.length)⟩ : Tensor ℂ)) t.cores norms
  mkLike t.batch cores t.rawShape t.ttRanks

/-- decompositions.py:264-305 (batch: 343-381): one step of the compression, for core `i`. The state is `tt_cores` and
`ranks`. -/
noncomputable def roundStep (svd : SVDRoutine) (t : TT ℂ) (bounds : List ℕ) (i : ℕ) (s : List (Tensor ℂ) × List ℕ) :
    R (List (Tensor ℂ) × List ℕ) := do
  let o := t.batch.toList.length
  let core ← pyGet s.1 i
  let nextRank ← pyGet s.2 (i + 1)
  let columns := (coreModes t i).prod * nextRank
  let core ← reshape core (t.batch.toList.map some ++ [none, some columns])
  let rows ← pyGet core.shape o
  let bound ← pyGet bounds i
  let rank := keptRank bound rows columns
  let (sv, u, v) ← linalgSVD svd core
  let u ← takeLast u (o + 1) rank
  let sv ← takeLast sv o rank
  let v ← takeLast v (o + 1) rank
  let vt ← transpose v (List.range o ++ [o + 1, o])
  let newCore ← reshape vt ((t.batch.toList ++ rank :: (coreModes t i ++ [nextRank])).map some)
  let prev ← pyGet s.1 (i - 1)
  let prev ← reshape prev (t.batch.toList.map some ++ [none, some rows])
  let prev ← matmul prev u
  let dg ← linalgDiag sv
  let prev ← matmulCR prev dg
  pure ((s.1.set i newCore).set (i - 1) prev, s.2.set i rank)

/-- decompositions.py:260-316 (batch: 335-392): `_round_tt` and `_round_batch_tt` after the checks. -/
noncomputable def roundWith (qr : QRRoutine) (svd : SVDRoutine) (t : TT ℂ) (bounds : List ℕ) : R (TT ℂ) := do
  let o ← orthogonalize qr t true
  let (cores, ranks) ← forRange (fun j => roundStep svd t bounds (t.ndims - 1 - j)) 0 (t.ndims - 1)
    (o.cores, List.replicate (t.ndims + 1) 1)
  let r0 ← pyGet ranks 0
  let r1 ← pyGet ranks 1
  let first ← pyGet cores 0
  let first ← reshape first ((t.batch.toList ++ r0 :: (coreModes t 0 ++ [r1])).map some)
  let cores := cores.set 0 first
  match t.batch with
  | some n => mkBatch cores (.shapes t.rawShape) (some ranks) (some n)
  | none => mkTT cores (.shapes t.rawShape) (some ranks)

/-- decompositions.py:198-241 `round`. -/
noncomputable def ttRound (qr : QRRoutine) (svd : SVDRoutine) (t : TT ℂ) (maxRank : MaxRank) (eps : Option ℝ) : R (TT ℂ) := do
  let bounds ← if t.isBatch then maxRanksBatch t.ndims maxRank eps else maxRanks t.ndims maxRank eps
  roundWith qr svd t bounds

/-- decompositions.py:160-187: one step of `to_tt_tensor`. The state is `tens`, `ranks` and `tt_cores`. -/
noncomputable def toTTStep (svd : SVDRoutine) (shape bounds : List ℕ) (i : ℕ) (s : Tensor ℂ × List ℕ × List (Tensor ℂ)) :
    R (Tensor ℂ × List ℕ × List (Tensor ℂ)) := do
  let mode ← pyGet shape i
  let rk ← pyGet s.2.1 i
  let rows := rk * mode
  let tens ← reshape s.1 [some rows, none]
  let columns ← pyGet tens.shape 1
  let (sv, u, v) ← linalgSVD svd tens
  let bound ← pyGet bounds (i + 1)
  let rank := keptRank bound rows columns
  let u ← takeLast u 1 rank
  let sv ← takeLast sv 0 rank
  let v ← takeLast v 1 rank
  let core ← reshape u [some rk, some mode, some rank]
  let dg ← linalgDiag sv
  let vt ← transpose v [1, 0]
  let tens ← matmulRC dg vt
  pure (tens, s.2.1.set (i + 1) rank, s.2.2 ++ [core])

/-- decompositions.py:100-194 `to_tt_tensor`. -/
noncomputable def toTTTensor (svd : SVDRoutine) (tens : Tensor ℂ) (maxRank : MaxRank) (eps : Option ℝ) : R (TT ℂ) := do
  let d := tens.shape.length
  let bounds ← maxRanks d maxRank eps
  let (rest, ranks, cores) ← forRange (toTTStep svd tens.shape bounds) 0 (d - 1) (tens, List.replicate (d + 1) 1, [])
  let lastMode ← pyGet tens.shape.reverse 0
  let r ← pyGet ranks (d - 1)
  let rd ← pyGet ranks d
  let last ← reshape rest [some r, some lastMode, some rd]
  mkTT (cores ++ [last]) (.flat tens.shape) (some ranks)

end T3f.Cx
