import Verif.Tf.Tensor

/-!
# `TensorTrain`, `TensorTrainBatch`, their constructors and shape accessors

Models `/repo/t3f/tensor_train_base.py`, `/repo/t3f/tensor_train.py`,
`/repo/t3f/tensor_train_batch.py` (constructors) and `/repo/t3f/shapes.py`.

All static shapes are fully known (eager mode), therefore the "lazy" functions return the static
value. Data types are not modelled here (all cores share the scalar type `K`), so the dtype check of the
constructors (tensor_train.py:160-162, tensor_train_batch.py:293-295) never fires; see `Model/Typed.lean` for
the model with data types.
-/

namespace T3f

/-- A `TensorTrain` (`batch = none`) or a `TensorTrainBatch` (`batch = some n`).
tensor_train.py:50-56 and tensor_train_batch.py:57-66 (the stored attributes). -/
structure TT (K : Type) where
  cores : List (Tensor K)
  rawShape : List (List ℕ)
  ttRanks : List ℕ
  batch : Option ℕ

variable {K : Type}

/-- tensor_train_base.py:75-81 `ndims`. -/
def TT.ndims (t : TT K) : ℕ := t.cores.length

/-- tensor_train_base.py:93-95 `is_tt_matrix`. -/
def TT.isMatrix (t : TT K) : Prop := t.rawShape.length = 2

instance (t : TT K) : Decidable t.isMatrix := inferInstanceAs (Decidable (_ = _))

/-- `isinstance(t, TensorTrainBatch)`. -/
def TT.isBatch (t : TT K) : Bool := t.batch.isSome

/-- tensor_train.py:71-73, tensor_train_batch.py:95-97 `left_tt_rank_dim`. -/
def TT.leftRankDim (t : TT K) : ℕ := if t.isBatch then 1 else 0

/-- tensor_train.py:76-85, tensor_train_batch.py:100-109 `right_tt_rank_dim`. -/
def TT.rightRankDim (t : TT K) : ℕ :=
  (if t.isBatch then 1 else 0) + (if t.isMatrix then 3 else 2)

/-- tensor_train_base.py:26-41 and tensor_train_batch.py:68-77 `get_shape`.
A raw shape without rows raises IndexError. -/
def TT.getShape (t : TT K) : R (List ℕ) := do
  let base ← if t.isMatrix then do
      let a ← pyGet t.rawShape 0
      let b ← pyGet t.rawShape 1
      pure [a.prod, b.prod]
    else pyGet t.rawShape 0
  match t.batch with
  | none => pure base
  | some n => pure (n :: base)

/-- shapes.py:181-199 `lazy_batch_size`: ValueError for a `TensorTrain`. -/
def TT.lazyBatchSize (t : TT K) : R ℕ :=
  match t.batch with
  | none => Except.error Err.value
  | some n => Except.ok n

/-- The forms in which a `shape` argument is passed: omitted, `tf.TensorShape`s (one row for each
mode axis), a flat Python list / 1-d array, or a nested list / 2-d array. -/
inductive ShapeArg where
  | omitted
  | shapes (rows : List (List ℕ))
  | flat (l : List ℕ)
  | nested (rows : List (List ℕ))
  deriving DecidableEq, Repr

/-- shapes.py:202-231 `clean_raw_shape`. `np.squeeze` drops all axes of length one; a 0-d result makes
`len(np_shape)` raise TypeError; `shape[0]` raises IndexError on an empty list or tuple; a ragged nested list
becomes an array of lists, which `tf.TensorShape` rejects (TypeError; from numpy 1.24 on `np.array` raises ValueError). -/
def cleanRawShape : ShapeArg → R (Option (List (List ℕ)))
  | .omitted => Except.ok none
  | .shapes [] => Except.error Err.index
  | .shapes rows => Except.ok (some rows)
  | .flat [] => Except.error Err.index
  | .flat [_] => Except.error Err.type
  | .flat l => Except.ok (some [l])
  | .nested [] => Except.error Err.index
  | .nested (r :: rs) =>
      if (r :: rs).all (fun x => x.length == r.length) then
        if r.length = 1 then
          if rs.length = 0 then Except.error Err.type
          else Except.ok (some [(r :: rs).map (·.headD 0)])
        else if rs.length = 0 then Except.ok (some [r])
        else Except.ok (some (r :: rs))
      else Except.error Err.type

/-- Short-circuit conjunction of checks that may raise (`if not c: return False`). -/
def andR (a b : R Bool) : R Bool := do if ← a then b else pure false

/-- `for i in range(start, start+count): if not f(i): return False`. -/
def allRange (f : ℕ → R Bool) : (start count : ℕ) → R Bool
  | _, 0 => Except.ok true
  | a, n + 1 => andR (f a) (allRange f (a + 1) n)

/-- Python `l[-1]`. -/
def pyLast {α : Type} (l : List α) : R α :=
  match l.getLast? with
  | some a => Except.ok a
  | none => Except.error Err.index

/-- `a == b` for two subscript expressions that may raise. -/
def eqR {α : Type} [DecidableEq α] (a b : R α) : R Bool := do
  let x ← a
  let y ← b
  pure (decide (x = y))

/-- Body of the loops tensor_train.py:164-185 (`o = 0`) and tensor_train_batch.py:297-323 (`o = 1`,
with the batch-size check) for the core with index `i`. -/
def coreCheck (o : ℕ) (bs : Option ℕ) (shapes : List (List ℕ)) (shape : Option (List (List ℕ)))
    (ranks : Option (List ℕ)) (i : ℕ) : R Bool := do
  let cur ← pyGet shapes i
  let first ← pyGet shapes 0
  andR (pure (decide (cur.length = first.length))) <|
  andR (match bs with
    | none => pure true
    | some n => eqR (pyGet cur 0) (pure n)) <|
  andR (match shape with
    | none => pure true
    | some rows => allRange (fun j => eqR (pyGet cur (j + 1 + o)) (do
        let row ← pyGet rows j
        pyGet row i)) 0 rows.length) <|
  andR (if 1 ≤ i then eqR (pyGet cur o) (do
      let prev ← pyGet shapes (i - 1)
      pyLast prev) else pure true) <|
  (match ranks with
    | none => pure true
    | some rk => andR (eqR (pyGet cur o) (pyGet rk i)) (eqR (pyLast cur) (pyGet rk (i + 1))))

/-- tensor_train.py:145-192 `_are_tt_cores_valid` (`o = 0`) and tensor_train_batch.py:277-330
`_are_batch_tt_cores_valid` (`o = 1`). Works on the shapes of the cores. `tt_cores[0]` raises
IndexError for an empty core list. -/
def coresValid (o : ℕ) (bs : Option ℕ) (shapes : List (List ℕ)) (shape : Option (List (List ℕ)))
    (ranks : Option (List ℕ)) : R Bool :=
  andR (allRange (coreCheck o bs shapes shape ranks) 0 shapes.length) <|
  andR (eqR (do let f ← pyGet shapes 0
                pyGet f o) (pure 1))
       (eqR (do let l ← pyLast shapes
                pyLast l) (pure 1))

/-- tensor_train.py:195-206 `_infer_raw_shape` (`o = 0`), tensor_train_batch.py:333-344
`_infer_batch_raw_shape` (`o = 1`); called after validation only, so all cores have the number of
axes of the first one. (A number of axes below 2, resp. 3, gives `range` of a negative number: no
rows.) -/
def inferRawShape (o : ℕ) (shapes : List (List ℕ)) : List (List ℕ) :=
  (List.range ((shapes.headD []).length - (2 + o))).map fun i => shapes.map fun s => s.getD (i + 1 + o) 0

/-- tensor_train.py:209-215 `_infer_tt_ranks` (`o = 0`), tensor_train_batch.py:347-353
`_infer_batch_tt_ranks` (`o = 1`). -/
def inferTTRanks (o : ℕ) (shapes : List (List ℕ)) : List ℕ :=
  shapes.map (fun s => s.getD o 0) ++ [(shapes.getLastD []).getLastD 0]

/-- tensor_train.py:13-56 `TensorTrain.__init__`. -/
def mkTT (cores : List (Tensor K)) (shape : ShapeArg := .omitted) (ranks : Option (List ℕ) := none) :
    R (TT K) := do
  let sh ← cleanRawShape shape
  let shapes := cores.map (·.shape)
  if ← coresValid 0 none shapes sh ranks then
    pure ⟨cores, sh.getD (inferRawShape 0 shapes), ranks.getD (inferTTRanks 0 shapes), none⟩
  else throw Err.value

/-- tensor_train_batch.py:15-66 `TensorTrainBatch.__init__`. With `batch_size=None` the size is read
off the first core; the sizes of the other cores are then not checked. -/
def mkBatch (cores : List (Tensor K)) (shape : ShapeArg := .omitted)
    (ranks : Option (List ℕ) := none) (bs : Option ℕ := none) : R (TT K) := do
  let sh ← cleanRawShape shape
  let shapes := cores.map (·.shape)
  if ← coresValid 1 bs shapes sh ranks then
    pure ⟨cores, sh.getD (inferRawShape 1 shapes), ranks.getD (inferTTRanks 1 shapes),
      some (bs.getD ((shapes.headD []).headD 0))⟩
  else throw Err.value

/-- The constructor call that ends most functions: `TensorTrain(cores, raw_shape, ranks)` or
`TensorTrainBatch(cores, raw_shape, ranks, batch_size)`. -/
def mkLike (bs : Option ℕ) (cores : List (Tensor K)) (rows : List (List ℕ)) (ranks : List ℕ) :
    R (TT K) :=
  match bs with
  | none => mkTT cores (.shapes rows) (some ranks)
  | some n => mkBatch cores (.shapes rows) (some ranks) (some n)

/-- shapes.py:234-262 `is_batch_broadcasting_possible` for objects with known batch sizes; a
`TensorTrain` has no attribute `batch_size`, which is caught as AttributeError. -/
def isBatchBroadcastingPossible (a b : TT K) : Bool :=
  match a.batch, b.batch with
  | some m, some n => m = n || m = 1 || n = 1
  | _, _ => true

/-- shapes.py:234-262 `is_batch_broadcasting_possible` with statically unknown sizes: `none` is an object
without the attribute `batch_size`, `some none` an unknown size. -/
def broadcastDecision : Option (Option ℕ) → Option (Option ℕ) → Bool
  | none, _ => true
  | some _, none => true
  | some none, some none => false
  | some a, some b => decide (a = b) || decide (a = some 1) || decide (b = some 1)

/-- shapes.py:289-308 `expand_batch_dim`. -/
def expandBatchDim (t : TT K) : R (TT K) :=
  match t.batch with
  | some _ => pure t
  | none => do
      let cores ← mapRange t.ndims fun i => do
        let c ← pyGet t.cores i
        expandDims c 0
      mkBatch cores (.shapes t.rawShape) (some t.ttRanks) (some 1)

end T3f
