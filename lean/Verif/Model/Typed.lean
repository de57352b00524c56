import Verif.Tf.DType
import Verif.Model.Riemannian
import Verif.Model.Multiply
import Verif.Model.BatchOps
import Verif.Model.Full
import Verif.Model.Matmul
import Verif.Model.Gather

/-!
# The library with data types

The functions of the other files, with the data types of the tensors. Everything that does not look at data types (shapes, checks, labels) is used as it is. The
two data type checks of the library are those of the constructors (tensor_train.py:160-162, tensor_train_batch.py:293-295) and of the projections
(riemannian.py:57-62, 239-244); elsewhere TensorFlow notices different data types.
-/

namespace T3f.Dt

variable {K : Type}

/-- A `TensorTrain` or `TensorTrainBatch`; see `T3f.TT`. -/
structure TT (K : Type) where
  cores : List (Tensor K)
  rawShape : List (List ℕ)
  ttRanks : List ℕ
  batch : Option ℕ

/-- The object without the data types. Shapes and other attributes are read from it. -/
def TT.erase (t : TT K) : T3f.TT K := ⟨t.cores.map (·.val), t.rawShape, t.ttRanks, t.batch⟩

/-- tensor_train_base.py:48-52 `dtype`: the data type of the first core. -/
def TT.dtype (t : TT K) : R DType := do pure (← pyGet t.cores 0).dtype

/-- tensor_train.py:160-162, tensor_train_batch.py:293-295: all cores have the data type of the first one. -/
def dtypesCoincide : List (Tensor K) → Bool
  | [] => true
  | c :: cs => cs.all fun x => x.dtype = c.dtype

/-- tensor_train.py:13-56 `TensorTrain.__init__`. -/
def mkTT (cores : List (Tensor K)) (shape : ShapeArg := .omitted) (ranks : Option (List ℕ) := none) : R (TT K) := do
  let sh ← cleanRawShape shape
  let shapes := cores.map (·.val.shape)
  if ← andR (pure (dtypesCoincide cores)) (coresValid 0 none shapes sh ranks) then
    pure ⟨cores, sh.getD (inferRawShape 0 shapes), ranks.getD (inferTTRanks 0 shapes), none⟩
  else throw Err.value

/-- tensor_train_batch.py:15-66 `TensorTrainBatch.__init__`. -/
def mkBatch (cores : List (Tensor K)) (shape : ShapeArg := .omitted) (ranks : Option (List ℕ) := none) (bs : Option ℕ := none) :
    R (TT K) := do
  let sh ← cleanRawShape shape
  let shapes := cores.map (·.val.shape)
  if ← andR (pure (dtypesCoincide cores)) (coresValid 1 bs shapes sh ranks) then
    pure ⟨cores, sh.getD (inferRawShape 1 shapes), ranks.getD (inferTTRanks 1 shapes), some (bs.getD ((shapes.headD []).headD 0))⟩
  else throw Err.value

/-- See `T3f.mkLike`. -/
def mkLike (bs : Option ℕ) (cores : List (Tensor K)) (rows : List (List ℕ)) (ranks : List ℕ) : R (TT K) :=
  match bs with
  | none => mkTT cores (.shapes rows) (some ranks)
  | some n => mkBatch cores (.shapes rows) (some ranks) (some n)

/-- shapes.py:289-308 `expand_batch_dim`. -/
def expandBatchDim (t : TT K) : R (TT K) :=
  match t.batch with
  | some _ => pure t
  | none => do
      let cores ← mapRange t.cores.length fun i => do
        let c ← pyGet t.cores i
        expandDims c 0
      mkBatch cores (.shapes t.rawShape) (some t.ttRanks) (some 1)

/-- tensor_train_batch.py:149-176 `_batch_dim_getitem`. -/
def batchDimGetItem (t : TT K) (ix : Ix) : R (TT K) := do
  let cores ← mapRange t.cores.length fun i => do
    let core ← pyGet t.cores i
    if t.erase.isMatrix then getItem core [ix, .all, .all, .all, .all]
    else getItem core [ix, .all, .all, .all]
  if doCollapseDim ix then
    mkTT cores (.shapes t.rawShape) (some t.ttRanks)
  else do
    let c0 ← pyGet cores 0
    let bs ← pyGet c0.val.shape 0
    mkBatch cores (.shapes t.rawShape) (some t.ttRanks) (some bs)

/-- shapes.py:265-286 `squeeze_batch_dim`. -/
def squeezeBatchDim (t : TT K) : R (TT K) :=
  if t.batch = some 1 then batchDimGetItem t (.int 0) else pure t

section ring

variable [CommRing K]

/-- tensor_train.py:117-135, the body of the loop over the cores. -/
def ttGetItemStep (t : TT K) (spec : List Ix) (i : ℕ) (st : List (Tensor K) × Option (Tensor K)) :
    R (List (Tensor K) × Option (Tensor K)) := do
  let core ← pyGet t.cores i
  if t.erase.isMatrix then throw Err.notImpl else
  let ix ← pyGet spec i
  let sliced ← getItem core [Ix.all, ix, Ix.all]
  if core.val.shape.length ≠ sliced.val.shape.length then
    match st.2 with
    | none => pure (st.1, some sliced)
    | some r => do
        let r ← matmul r sliced
        pure (st.1, some r)
  else
    match st.2 with
    | some r => do
        let s ← einsum (ein! "ab,bid->aid") [r, sliced]
        pure (st.1 ++ [s], none)
    | none => pure (st.1 ++ [sliced], none)

/-- tensor_train.py:102-142 `TensorTrain.__getitem__`. -/
def ttGetItem (t : TT K) (spec : List Ix) : R (TT K) := do
  require (spec.length = t.cores.length) Err.value
  let st ← forRange (ttGetItemStep t spec) 0 t.cores.length ([], none)
  match st.2 with
  | some r => do
      let last ← pyLast st.1
      let s ← einsum (ein! "aib,bd->aid") [last, r]
      mkTT (st.1.dropLast ++ [s])
  | none => mkTT st.1

/-- tensor_train_batch.py:194-221, the body of the loop over the cores of `_full_getitem`. -/
def batchFullGetItemStep (t : TT K) (b0 : Ix) (spec : List Ix) (i : ℕ)
    (st : List (Tensor K) × Option (Tensor K)) : R (List (Tensor K) × Option (Tensor K)) := do
  let core ← pyGet t.cores i
  if t.erase.isMatrix then throw Err.notImpl else
  let ix ← pyGet spec i
  let sliced ← getItem core [b0, Ix.all, ix, Ix.all]
  if doCollapseDim ix then
    match st.2 with
    | none => pure (st.1, some sliced)
    | some r => do
        let r ← if doCollapseDim b0 then einsum (ein! "ab,bd->ad") [r, sliced]
          else einsum (ein! "oab,obd->oad") [r, sliced]
        pure (st.1, some r)
  else
    match st.2 with
    | some r => do
        let s ← if doCollapseDim b0 then einsum (ein! "ab,bid->aid") [r, sliced]
          else einsum (ein! "oab,obid->oaid") [r, sliced]
        pure (st.1 ++ [s], none)
    | none => pure (st.1 ++ [sliced], none)

/-- tensor_train_batch.py:178-235 `_full_getitem`. -/
def batchFullGetItem (t : TT K) (b0 : Ix) (spec : List Ix) : R (TT K) := do
  require (spec.length + 1 = t.cores.length + 1) Err.value
  let st ← forRange (batchFullGetItemStep t b0 spec) 0 t.cores.length ([], none)
  let cores ← match st.2 with
    | some r => do
        let last ← pyLast st.1
        let s ← if doCollapseDim b0 then einsum (ein! "aib,bd->aid") [last, r]
          else einsum (ein! "oaib,obd->oaid") [last, r]
        pure (st.1.dropLast ++ [s])
    | none => pure st.1
  if doCollapseDim b0 then mkTT cores else mkBatch cores

/-- tensor_train_batch.py:237-274 `__getitem__`; see `T3f.batchGetItem`. -/
def batchGetItem (t : TT K) (b0 : Ix) (spec : List Ix) : R (TT K) :=
  if spec = [] then batchDimGetItem t b0
  else if spec.length + 1 = t.cores.length + 1 then batchFullGetItem t b0 spec
  else throw Err.value

/-- ops.py:14-103 `full`; `_full_tt` (33-66) and `_full_tt_batch` (69-103). -/
def full (t : TT K) : R (Tensor K) := do
  let shape ← t.erase.getShape
  let res ← pyGet t.cores 0
  match t.batch with
  | none => do
    let res ← forRange (fun i res => do
        let ri ← pyGet t.ttRanks i
        let res ← reshape res [none, some ri]
        let core ← pyGet t.cores i
        let currCore ← reshape core [some ri, none]
        matmul res currCore) 1 (t.cores.length - 1) res
    if t.erase.isMatrix then do
      let inter ← interleavedShape t.erase
      let res ← reshape res (inter.map some)
      let res ← transpose res (evenOddPerm t.cores.length)
      reshape res (shape.map some)
    else reshape res (shape.map some)
  | some bs => do
    let res ← forRange (fun i res => do
        let ri ← pyGet t.ttRanks i
        let res ← reshape res [some bs, none, some ri]
        let core ← pyGet t.cores i
        let currCore ← reshape core [some bs, some ri, none]
        einsum (ein! "oqb,obw->oqw") [res, currCore]) 1 (t.cores.length - 1) res
    if t.erase.isMatrix then do
      let inter ← interleavedShape t.erase
      let res ← reshape res ((bs :: inter).map some)
      let res ← transpose res (0 :: (evenOddPerm t.cores.length).map (· + 1))
      reshape res (shape.map some)
    else reshape res (shape.map some)

/-- The loop body of the four functions of ops.py:542-683; the zero blocks have the data type `d` of `tt_a` (lines 548, 578, 620, 650). -/
def addCore (d : DType) (axL axR nd i : ℕ) (upperShape lowerShape : R (List ℕ)) (a b : Tensor K) : R (Tensor K) :=
  if i = 0 then concat axR [a, b]
  else if i = nd - 1 then concat axL [a, b]
  else do
    let us ← upperShape
    let ls ← lowerShape
    let upper ← concat axR [a, zeros d us]
    let lower ← concat axR [zeros d ls, b]
    concat axL [upper, lower]

/-- ops.py:542-569 `_add_tensor_cores`. -/
def addTensorCores (a b : TT K) : R (List (Tensor K)) := do
  let d ← a.dtype
  let row ← pyGet a.rawShape 0
  mapRange a.cores.length fun i => do
    let ac ← pyGet a.cores i
    let bc ← pyGet b.cores i
    addCore d 0 2 a.cores.length i
      (do pure [← pyGet a.ttRanks i, ← pyGet row i, ← pyGet b.ttRanks (i + 1)])
      (do pure [← pyGet b.ttRanks i, ← pyGet row i, ← pyGet a.ttRanks (i + 1)]) ac bc

/-- ops.py:614-641 `_add_matrix_cores`. -/
def addMatrixCores (a b : TT K) : R (List (Tensor K)) := do
  let d ← a.dtype
  let row0 ← pyGet a.rawShape 0
  let row1 ← pyGet a.rawShape 1
  mapRange a.cores.length fun i => do
    let ac ← pyGet a.cores i
    let bc ← pyGet b.cores i
    addCore d 0 3 a.cores.length i
      (do pure [← pyGet a.ttRanks i, ← pyGet row0 i, ← pyGet row1 i, ← pyGet b.ttRanks (i + 1)])
      (do pure [← pyGet b.ttRanks i, ← pyGet row0 i, ← pyGet row1 i, ← pyGet a.ttRanks (i + 1)]) ac bc

/-- ops.py:588-611, the loop of `_add_batch_tensor_cores`. -/
def addBatchTensorBody (d : DType) (bs : ℕ) (ta tb : Bool) (a b a' b' : TT K) : R (List (Tensor K)) := do
  let row ← pyGet a.rawShape 0
  mapRange a.cores.length fun i => do
    let ac ← pyGet a'.cores i
    let ac ← if ta = true then tile ac [bs, 1, 1, 1] else pure ac
    let bc ← pyGet b'.cores i
    let bc ← if tb = true then tile bc [bs, 1, 1, 1] else pure bc
    addCore d 1 3 a.cores.length i
      (do pure [bs, ← pyGet a.ttRanks i, ← pyGet row i, ← pyGet b.ttRanks (i + 1)])
      (do pure [bs, ← pyGet b.ttRanks i, ← pyGet row i, ← pyGet a.ttRanks (i + 1)]) ac bc

/-- ops.py:572-611 `_add_batch_tensor_cores`. -/
def addBatchTensorCores (a b : TT K) : R (List (Tensor K) × ℕ) := do
  let d ← a.dtype
  let bs ← addBatchSize a.erase b.erase
  let a' ← expandBatchDim a
  let b' ← expandBatchDim b
  let cores ← addBatchTensorBody d bs (a'.batch = some 1) (b'.batch = some 1) a b a' b'
  pure (cores, bs)

/-- ops.py:660-683, the loop of `_add_batch_matrix_cores`. -/
def addBatchMatrixBody (d : DType) (bs : ℕ) (ta tb : Bool) (a b a' b' : TT K) : R (List (Tensor K)) := do
  let row0 ← pyGet a.rawShape 0
  let row1 ← pyGet a.rawShape 1
  mapRange a.cores.length fun i => do
    let ac ← pyGet a'.cores i
    let ac ← if ta = true then tile ac [bs, 1, 1, 1, 1] else pure ac
    let bc ← pyGet b'.cores i
    let bc ← if tb = true then tile bc [bs, 1, 1, 1, 1] else pure bc
    addCore d 1 4 a.cores.length i
      (do pure [bs, ← pyGet a.ttRanks i, ← pyGet row0 i, ← pyGet row1 i, ← pyGet b.ttRanks (i + 1)])
      (do pure [bs, ← pyGet b.ttRanks i, ← pyGet row0 i, ← pyGet row1 i, ← pyGet a.ttRanks (i + 1)])
      ac bc

/-- ops.py:644-683 `_add_batch_matrix_cores`. -/
def addBatchMatrixCores (a b : TT K) : R (List (Tensor K) × ℕ) := do
  let d ← a.dtype
  let bs ← addBatchSize a.erase b.erase
  let a' ← expandBatchDim a
  let b' ← expandBatchDim b
  let cores ← addBatchMatrixBody d bs (a'.batch = some 1) (b'.batch = some 1) a b a' b'
  pure (cores, bs)

/-- ops.py:686-746 `add`. -/
def add (a b : TT K) : R (TT K) := do
  require (a.erase.isMatrix ↔ b.erase.isMatrix) Err.value
  require (a.rawShape = b.rawShape) Err.value
  require (isBatchBroadcastingPossible a.erase b.erase = true) Err.value
  if a.erase.isBatch || b.erase.isBatch then
    let (cores, bs) ← if a.erase.isMatrix then addBatchMatrixCores a b else addBatchTensorCores a b
    let ranks ← addRanks a.erase b.erase
    mkBatch cores (.shapes a.rawShape) (some ranks) (some bs)
  else
    let cores ← if a.erase.isMatrix then addMatrixCores a b else addTensorCores a b
    let ranks ← addRanks a.erase b.erase
    mkTT cores (.shapes a.rawShape) (some ranks)

/-- ops.py:892-909: one core of the elementwise product, for the letters `labels` of the batch axes. -/
def mulCoreWith (labels : List Char × List Char × List Char) (a b : TT K) (i : ℕ) : R (Tensor K) := do
  let ac ← pyGet a.cores i
  let bc ← pyGet b.cores i
  let lr := (← pyGet a.ttRanks i) * (← pyGet b.ttRanks i)
  let rr := (← pyGet a.ttRanks (i + 1)) * (← pyGet b.ttRanks (i + 1))
  let (l, r, o) := labels
  let c ← if a.erase.isMatrix then do
      let e ← einsum ([l ++ chars! "aijb", r ++ chars! "cijd"], o ++ chars! "acijbd") [ac, bc]
      let row0 ← pyGet a.rawShape 0
      let row1 ← pyGet a.rawShape 1
      reshape e [none, some lr, some (← pyGet row0 i), some (← pyGet row1 i), some rr]
    else do
      let e ← einsum ([l ++ chars! "aib", r ++ chars! "cid"], o ++ chars! "acibd") [ac, bc]
      let row0 ← pyGet a.rawShape 0
      reshape e [none, some lr, some (← pyGet row0 i), some rr]
  if a.erase.isBatch || b.erase.isBatch then pure c else squeezeAxis c 0

/-- ops.py:892-909: one core of the elementwise product. -/
def mulCore (a b : TT K) (i : ℕ) : R (Tensor K) := mulCoreWith (mulLabels a.batch b.batch) a b i

/-- ops.py:749-920 `multiply` for two TT objects. -/
def multiply (a b : TT K) : R (TT K) := do
  require (a.erase.isMatrix ↔ b.erase.isMatrix) Err.value
  require (a.rawShape = b.rawShape) Err.value
  require (isBatchBroadcastingPossible a.erase b.erase = true) Err.value
  let cores ← mapRange a.cores.length (mulCore a b)
  mkLike (mulOutBatch a.batch b.batch) cores a.rawShape (List.zipWith (· * ·) a.ttRanks b.ttRanks)

/-- ops.py:162-177: one core of the matrix product. -/
def matmulCore (a b : TT K) (i : ℕ) : R (Tensor K) := do
  let ac ← pyGet a.cores i
  let bc ← pyGet b.cores i
  let e ← einsum ([bLabel 'o' a.batch ++ chars! "aijb", bLabel 'o' b.batch ++ chars! "cjkd"],
    bLabel 'o' (resBatch a.batch b.batch) ++ chars! "acikbd") [ac, bc]
  let lr := (← pyGet a.ttRanks i) * (← pyGet b.ttRanks i)
  let rr := (← pyGet a.ttRanks (i + 1)) * (← pyGet b.ttRanks (i + 1))
  let arow ← pyGet a.rawShape 0
  let lm ← pyGet arow i
  let brow ← pyGet b.rawShape 1
  let rm ← pyGet brow i
  reshape e ((resBatch a.batch b.batch).toList.map some ++ [some lr, some lm, some rm, some rr])

/-- ops.py:106-185 `tt_tt_matmul`. -/
def ttTTMatmul (a b : TT K) : R (TT K) := do
  require (a.erase.isMatrix ∧ b.erase.isMatrix) Err.value
  require (isBatchBroadcastingPossible a.erase b.erase = true) Err.value
  require (b.cores.length = a.cores.length) Err.value
  let n := a.cores.length
  let a ← squeezeBatchDim a
  let b ← squeezeBatchDim b
  let cores ← mapRange n (matmulCore a b)
  let arow ← pyGet a.rawShape 0
  let brow ← pyGet b.rawShape 1
  mkLike (resBatch a.batch b.batch) cores [arow, brow] (List.zipWith (· * ·) a.ttRanks b.ttRanks)

/-- ops.py:1000-1036 `transpose`. -/
def ttTranspose (t : TT K) : R (TT K) := do
  require t.erase.isMatrix Err.value
  let cores ← mapRange t.cores.length fun i => do
    let c ← pyGet t.cores i
    if t.erase.isBatch then transpose c [0, 1, 3, 2, 4] else transpose c [0, 2, 1, 3]
  let row0 ← pyGet t.rawShape 0
  let row1 ← pyGet t.rawShape 1
  mkLike t.batch cores [row1, row0] t.ttRanks

/-- ops.py:220-229, one iteration of the loop of `tt_dense_matmul`. -/
def denseStep (a : TT K) (k : ℕ) (data : Tensor K) : R (Tensor K) := do
  let core ← pyGet a.cores k
  let data ← einsum (ein! "aijb,rjb->ira") [core, data]
  if 0 < k then do
    let row1 ← pyGet a.rawShape 1
    reshape data [none, some (← pyGet row1 (k - 1)), some (← pyGet a.ttRanks k)]
  else pure data

/-- ops.py:188-231 `tt_dense_matmul`. -/
def ttDenseMatmul (a : TT K) (B : Tensor K) : R (Tensor K) := do
  require (a.batch = none ∧ a.erase.isMatrix) Err.value
  let sh ← a.erase.getShape
  let cols ← pyGet sh 1
  let brows ← pyGet B.val.shape 0
  require (cols = brows) Err.type
  let rows ← pyGet sh 0
  let data ← transpose B (List.range B.val.shape.length).reverse
  let row1 ← pyGet a.rawShape 1
  let data ← reshape data [none, some (← pyLast row1), some 1]
  let data ← forReversed (denseStep a) a.cores.length data
  reshape data [some rows, some (← pyGet B.val.shape 1)]

/-- ops.py:234-247 `dense_tt_matmul`. -/
def denseTTMatmul (A : Tensor K) (b : TT K) : R (Tensor K) := do
  let at' ← transpose A (List.range A.val.shape.length).reverse
  let bt ← ttTranspose b
  let r ← ttDenseMatmul bt at'
  transpose r (List.range r.val.shape.length).reverse

/-- ops.py:380-399: the contraction of `tt_tt_flat_inner`; see `T3f.innerLoop`. -/
def innerLoop (a b : TT K) (n : ℕ) (ax la lb lr : List Char) : R (Tensor K) := do
  let a0 ← pyGet a.cores 0
  let b0 ← pyGet b.cores 0
  let res ← einsum (innerSpec true ax la lb lr) [a0, b0]
  forRange (fun k res => do
    let ac ← pyGet a.cores k
    let bc ← pyGet b.cores k
    einsum (innerSpec false ax la lb lr) [res, ac, bc]) 1 (n - 1) res

/-- ops.py:321-400 `tt_tt_flat_inner`. -/
def flatInner (a b : TT K) : R (Tensor K) := do
  require (a.erase.isMatrix ↔ b.erase.isMatrix) Err.value
  require (isBatchBroadcastingPossible a.erase b.erase = true) Err.value
  require (b.cores.length = a.cores.length) Err.value
  let n := a.cores.length
  let ax := modeLabels a.erase
  let a ← squeezeBatchDim a
  let b ← squeezeBatchDim b
  let res ← innerLoop a b n ax (bLabel 'o' a.batch) (bLabel 'o' b.batch) (bLabel 'o' (resBatch a.batch b.batch))
  pure (squeezeAll res)

end ring

/-- ops.py:1190-1215 `cast` between floating point types. -/
def ttCast (d : DType) (t : TT K) : R (TT K) := do
  let cores ← mapRange t.cores.length fun i => do
    let c ← pyGet t.cores i
    pure (cast d c)
  mkLike t.batch cores t.rawShape t.ttRanks

/-- batch_ops.py:9-54 `concat_along_batch_dim`. -/
def concatAlongBatchDim (ts : List (TT K)) : R (TT K) := do
  let first ← pyGet ts 0
  let _ ← mapRange ts.length fun i => do
    let t ← pyGet ts i
    require (t.erase.isBatch = true) Err.value
  let _ ← forRange (fun i (_ : Unit) => do
    let t ← pyGet ts i
    require (t.rawShape = first.rawShape) Err.value
    require (t.ttRanks = first.ttRanks) Err.value) 1 (ts.length - 1) ()
  let cores ← mapRange first.cores.length fun k => do
    let cs ← mapRange ts.length fun i => do
      let t ← pyGet ts i
      pyGet t.cores k
    concat 0 cs
  let n := (ts.map fun t => t.batch.getD 0).sum
  mkBatch cores (.shapes first.rawShape) (some first.ttRanks) (some n)

/-- batch_ops.py:57-81 `multiply_along_batch_dim`: the weights are converted to the data type of the batch (line 71). -/
def multiplyAlongBatchDim [Mul K] (t : TT K) (w : Arg K) : R (TT K) := do
  let d ← t.dtype
  let w ← convertToTensor d w
  let w' ← expandWeights (if t.erase.isMatrix then 4 else 3) w.val
  let w' : Tensor K := ⟨w.dtype, w'⟩
  let c0 ← pyGet t.cores 0
  let c0' ← binop (· * ·) w' c0
  match t.batch with
  | none => throw Err.attr
  | some bs => mkBatch (t.cores.set 0 c0') (.shapes t.rawShape) (some t.ttRanks) (some bs)

/-- A number: of Python (or NumPy), or a 0-d tensor of any data type. -/
inductive Number where
  | python (c : ℝ)
  | tensor (d : DType) (c : ℝ)

/-- Its value. -/
def Number.value : Number → ℝ
  | python c => c
  | tensor _ c => c

/-- ops.py:777-797 and 914-920 `multiply` by a number. Lines 786 and 787 cast the root and the sign to the data type of the object, also if the number is a tensor of
another data type. -/
noncomputable def multiplyNumber (a : TT ℝ) (c : Number) : R (TT ℝ) := do
  let d ← a.dtype
  let fact := |c.value| ^ (1 / (a.cores.length : ℝ))
  let cores ← a.cores.mapM (smul d fact)
  let c0 ← pyGet cores 0
  let c0 ← mulScalar c0 d (SignType.sign c.value : ℝ)
  mkLike a.batch (cores.set 0 c0) a.rawShape a.ttRanks

/-- tensor_train_base.py:144-154 `__sub__`. -/
noncomputable def sub (a b : TT ℝ) : R (TT ℝ) := do add a (← multiplyNumber b (.python (-1)))

/-- tensor_train_base.py:156-164 `__neg__`. -/
noncomputable def neg (a : TT ℝ) : R (TT ℝ) := multiplyNumber a (.python (-1))

/-- decompositions.py:444-478 (batch: 509-541): one step of the left-to-right sweep. -/
noncomputable def orthoLRStep (qr : QRRoutine) (t : TT ℝ) (i : ℕ) (s : List (Tensor ℝ) × ℕ) : R (List (Tensor ℝ) × ℕ) := do
  let core ← pyGet s.1 i
  let currRank := s.2
  let nextRank ← pyGet t.ttRanks (i + 1)
  let core ← reshape core ((t.batch.toList ++ [currRank * (coreModes t.erase i).prod, nextRank]).map some)
  let (q, tri) ← linalgQR qr core
  let triRows ← pyGet tri.val.shape t.batch.toList.length
  let triCols ← pyGet tri.val.shape (t.batch.toList.length + 1)
  let newCore ← reshape q ((t.batch.toList ++ currRank :: (coreModes t.erase i ++ [triRows])).map some)
  let next ← pyGet s.1 (i + 1)
  let next ← reshape next (t.batch.toList.map some ++ [some triCols, none])
  let next ← matmul tri next
  pure ((s.1.set i newCore).set (i + 1) next, triRows)

/-- decompositions.py:421-487, 490-551. -/
noncomputable def orthoLR (qr : QRRoutine) (t : TT ℝ) : R (TT ℝ) := do
  let r0 ← pyGet t.ttRanks 0
  let s ← forRange (orthoLRStep qr t) 0 (t.cores.length - 1) (t.cores, r0)
  let last ← pyGet s.1 (t.cores.length - 1)
  let last ← reshape last ((t.batch.toList ++ s.2 :: (coreModes t.erase (t.cores.length - 1) ++ [1])).map some)
  let cores := s.1.set (t.cores.length - 1) last
  match t.batch with
  | some n => mkBatch cores (.shapes t.rawShape) none (some n)
  | none => mkTT cores (.shapes t.rawShape) none

/-- decompositions.py:570-603: one step of the right-to-left sweep. -/
noncomputable def orthoRLStep (qr : QRRoutine) (t : TT ℝ) (i : ℕ) (s : List (Tensor ℝ) × ℕ) : R (List (Tensor ℝ) × ℕ) := do
  let core ← pyGet s.1 i
  let currRank := s.2
  let prevRank ← pyGet t.ttRanks i
  let core ← reshape core [some prevRank, some ((coreModes t.erase i).prod * currRank)]
  let core ← transpose core [1, 0]
  let (q, tri) ← linalgQR qr core
  let core ← transpose q [1, 0]
  let tri ← transpose tri [1, 0]
  let triRows ← pyGet tri.val.shape 0
  let triCols ← pyGet tri.val.shape 1
  let newCore ← reshape core ((triCols :: (coreModes t.erase i ++ [currRank])).map some)
  let prev ← pyGet s.1 (i - 1)
  let prev ← reshape prev [none, some triRows]
  let prev ← matmul prev tri
  pure ((s.1.set i newCore).set (i - 1) prev, triCols)

/-- decompositions.py:554-612. -/
noncomputable def orthoRL (qr : QRRoutine) (t : TT ℝ) : R (TT ℝ) := do
  let rd ← pyGet t.ttRanks t.cores.length
  let s ← forRange (fun j => orthoRLStep qr t (t.cores.length - 1 - j)) 0 (t.cores.length - 1) (t.cores, rd)
  let first ← pyGet s.1 0
  let first ← reshape first ((1 :: (coreModes t.erase 0 ++ [s.2])).map some)
  mkTT (s.1.set 0 first) (.shapes t.rawShape) none

/-- decompositions.py:395-418 `orthogonalize_tt_cores`. -/
noncomputable def orthogonalize (qr : QRRoutine) (t : TT ℝ) (leftToRight : Bool) : R (TT ℝ) :=
  if leftToRight then orthoLR qr t
  else if t.erase.isBatch then Except.error Err.notImpl
  else orthoRL qr t

/-- ops.py:1276-1326 `renormalize_tt_cores`: `epsilon` is converted to the data type of the object (line 1294; it is a Python number here); the norms of all cores
and `epsilon` are combined by TensorFlow operations, which need a common data type. The numbers are those of `T3f.renormalize`. -/
noncomputable def renormalize (t : TT ℝ) (eps : ℝ) : R (TT ℝ) := do
  let d ← t.dtype
  let d ← common (⟨d, scalar eps⟩ :: t.cores)
  let r ← T3f.renormalize t.erase eps
  pure ⟨r.cores.map fun c => ⟨d, c⟩, r.rawShape, r.ttRanks, r.batch⟩

/-- `x[..., 0:r]`; see `T3f.takeLast`. -/
def takeLast (x : Tensor K) (n r : ℕ) : R (Tensor K) := lift (T3f.takeLast · n r) x

/-- decompositions.py:264-305 (batch: 343-381): one step of the compression. -/
noncomputable def roundStep (svd : SVDRoutine) (t : TT ℝ) (bounds : List ℕ) (i : ℕ) (s : List (Tensor ℝ) × List ℕ) :
    R (List (Tensor ℝ) × List ℕ) := do
  let o := t.batch.toList.length
  let core ← pyGet s.1 i
  let nextRank ← pyGet s.2 (i + 1)
  let columns := (coreModes t.erase i).prod * nextRank
  let core ← reshape core (t.batch.toList.map some ++ [none, some columns])
  let rows ← pyGet core.val.shape o
  let bound ← pyGet bounds i
  let rank := keptRank bound rows columns
  let (sv, u, v) ← linalgSVD svd core
  let u ← takeLast u (o + 1) rank
  let sv ← takeLast sv o rank
  let v ← takeLast v (o + 1) rank
  let vt ← transpose v (List.range o ++ [o + 1, o])
  let newCore ← reshape vt ((t.batch.toList ++ rank :: (coreModes t.erase i ++ [nextRank])).map some)
  let prev ← pyGet s.1 (i - 1)
  let prev ← reshape prev (t.batch.toList.map some ++ [none, some rows])
  let prev ← matmul prev u
  let dg ← linalgDiag sv
  let prev ← matmul prev dg
  pure ((s.1.set i newCore).set (i - 1) prev, s.2.set i rank)

/-- decompositions.py:260-316 (batch: 335-392): `_round_tt` and `_round_batch_tt` after the checks. -/
noncomputable def roundWith (qr : QRRoutine) (svd : SVDRoutine) (t : TT ℝ) (bounds : List ℕ) : R (TT ℝ) := do
  let o ← orthogonalize qr t true
  let (cores, ranks) ← forRange (fun j => roundStep svd t bounds (t.cores.length - 1 - j)) 0 (t.cores.length - 1)
    (o.cores, List.replicate (t.cores.length + 1) 1)
  let r0 ← pyGet ranks 0
  let r1 ← pyGet ranks 1
  let first ← pyGet cores 0
  let first ← reshape first ((t.batch.toList ++ r0 :: (coreModes t.erase 0 ++ [r1])).map some)
  let cores := cores.set 0 first
  match t.batch with
  | some n => mkBatch cores (.shapes t.rawShape) (some ranks) (some n)
  | none => mkTT cores (.shapes t.rawShape) (some ranks)

/-- decompositions.py:198-241 `round`. -/
noncomputable def ttRound (qr : QRRoutine) (svd : SVDRoutine) (t : TT ℝ) (maxRank : MaxRank) (eps : Option ℝ) : R (TT ℝ) := do
  let bounds ← if t.erase.isBatch then maxRanksBatch t.cores.length maxRank eps else maxRanks t.cores.length maxRank eps
  roundWith qr svd t bounds

end T3f.Dt
