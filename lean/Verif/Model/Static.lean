import Verif.Model.Add
import Verif.Model.Multiply
import Verif.Model.Matmul
import Verif.Model.Full
import Verif.Model.Inner

/-!
# Sizes that are not known when a function is traced

Inside `tf.function` a tensor is symbolic: some of its sizes are known while the Python code runs (the static shape), the others
only when the traced function is executed. This file models the part of the library that looks at static shapes: the
constructors (`/repo/t3f/tensor_train.py:145-215`, `/repo/t3f/tensor_train_batch.py:277-353`), `get_shape`
(`/repo/t3f/tensor_train_base.py:26-41`), the `lazy_*` functions of `/repo/t3f/shapes.py` and the operations of `/repo/t3f/ops.py`
that use them.

In TensorFlow 2 the sizes in a `TensorShape` are Python numbers or `None`: `None` equals `None` and is different from every
number, and products and sums with `None` raise TypeError. The number of axes of every core is known here, and so is the size of
a batch (see `Model/Trace.lean` for unknown batch sizes).
-/

namespace T3f

variable {K : Type}

/-- A symbolic tensor: its static shape and the value it has when the traced function is executed. -/
structure SCore (K : Type) where
  val : Tensor K
  sh : List (Option ℕ)

/-- A `TensorTrain` (`batch = none`) or `TensorTrainBatch` of symbolic cores with its attributes.
tensor_train.py:50-56 and tensor_train_batch.py:57-66. -/
structure Sym (K : Type) where
  cores : List (SCore K)
  rawShape : List (List (Option ℕ))
  ttRanks : List (Option ℕ)
  batch : Option ℕ

/-- tensor_train_base.py:75-81 `ndims`. -/
def Sym.ndims (s : Sym K) : ℕ := s.cores.length

/-- tensor_train_base.py:93-95 `is_tt_matrix`. -/
def Sym.isMatrix (s : Sym K) : Prop := s.rawShape.length = 2

instance (s : Sym K) : Decidable s.isMatrix := inferInstanceAs (Decidable (_ = _))

/-- The values of the cores. -/
def Sym.vals (s : Sym K) : List (Tensor K) := s.cores.map (·.val)

/-- tensor_train_batch.py:300-301 and 306-307: sizes are compared only if both are known. -/
def laxR (a b : R (Option ℕ)) : R Bool := do
  let x ← a
  let y ← b
  pure (decide (x = none ∨ y = none ∨ x = y))

/-- Comparison of a mode size with the `shape` argument: strict in tensor_train.py:170-171 (`o = 0`), only of known sizes in
tensor_train_batch.py:305-307 (`o = 1`). -/
def modeR (o : ℕ) (a b : R (Option ℕ)) : R Bool := if o = 0 then eqR a b else laxR a b

/-- tensor_train_batch.py:300-303: the batch size, if given. -/
def batchR (bs : Option ℕ) (cur : List (Option ℕ)) : R Bool :=
  match bs with
  | none => Except.ok true
  | some n => laxR (pyGet cur 0) (Except.ok (some n))

/-- tensor_train.py:168-172, tensor_train_batch.py:304-309: the mode sizes of core `i`, if a shape is given. -/
def shapeR (o : ℕ) (shape : Option (List (List (Option ℕ)))) (cur : List (Option ℕ)) (i : ℕ) : R Bool :=
  match shape with
  | none => Except.ok true
  | some rows => allRange (fun j => modeR o (pyGet cur (j + 1 + o)) (do
      let row ← pyGet rows j
      pyGet row i)) 0 rows.length

/-- tensor_train.py:179-185, tensor_train_batch.py:316-322: the ranks of core `i`, if ranks are given. -/
def ranksR (o : ℕ) (ranks : Option (List (Option ℕ))) (cur : List (Option ℕ)) (i : ℕ) : R Bool :=
  match ranks with
  | none => Except.ok true
  | some rk => andR (eqR (pyGet cur o) (pyGet rk i)) (eqR (pyLast cur) (pyGet rk (i + 1)))

/-- Body of the loops tensor_train.py:164-185 (`o = 0`) and tensor_train_batch.py:297-323 (`o = 1`) for the core with index `i`,
on static shapes. -/
def coreCheckS (o : ℕ) (bs : Option ℕ) (shapes : List (List (Option ℕ))) (shape : Option (List (List (Option ℕ))))
    (ranks : Option (List (Option ℕ))) (i : ℕ) : R Bool := do
  let cur ← pyGet shapes i
  let first ← pyGet shapes 0
  andR (pure (decide (cur.length = first.length))) <|
  andR (batchR bs cur) <|
  andR (shapeR o shape cur i) <|
  andR (if 1 ≤ i then eqR (pyGet cur o) (do
      let prev ← pyGet shapes (i - 1)
      pyLast prev) else pure true) <|
  ranksR o ranks cur i

/-- tensor_train.py:145-192 `_are_tt_cores_valid` (`o = 0`) and tensor_train_batch.py:277-330 `_are_batch_tt_cores_valid`
(`o = 1`) on static shapes. -/
def coresValidS (o : ℕ) (bs : Option ℕ) (shapes : List (List (Option ℕ))) (shape : Option (List (List (Option ℕ))))
    (ranks : Option (List (Option ℕ))) : R Bool :=
  andR (allRange (coreCheckS o bs shapes shape ranks) 0 shapes.length) <|
  andR (eqR (do let f ← pyGet shapes 0
                pyGet f o) (pure (some 1)))
       (eqR (do let l ← pyLast shapes
                pyLast l) (pure (some 1)))

/-- tensor_train.py:195-206 `_infer_raw_shape` (`o = 0`), tensor_train_batch.py:333-344 (`o = 1`). -/
def inferRawShapeS (o : ℕ) (shapes : List (List (Option ℕ))) : List (List (Option ℕ)) :=
  (List.range ((shapes.headD []).length - (2 + o))).map fun i => shapes.map fun s => s.getD (i + 1 + o) none

/-- tensor_train.py:209-215 `_infer_tt_ranks` (`o = 0`), tensor_train_batch.py:347-353 (`o = 1`). -/
def inferTTRanksS (o : ℕ) (shapes : List (List (Option ℕ))) : List (Option ℕ) :=
  shapes.map (fun s => s.getD o none) ++ [(shapes.getLastD []).getLastD none]

/-- tensor_train.py:13-56 `TensorTrain.__init__` (`bs = none`) and tensor_train_batch.py:15-66 `TensorTrainBatch.__init__` with
a given batch size (`bs = some n`), for symbolic cores. The shape is omitted or given as `TensorShape`s; `clean_raw_shape` reads
`shape[0]`, IndexError if there is none. -/
def mkSym (bs : Option ℕ) (cores : List (SCore K)) (shape : Option (List (List (Option ℕ)))) (ranks : Option (List (Option ℕ))) :
    R (Sym K) := do
  require (shape ≠ some []) Err.index
  let o := if bs.isSome then 1 else 0
  let shapes := cores.map (·.sh)
  if ← coresValidS o bs shapes shape ranks then
    pure ⟨cores, shape.getD (inferRawShapeS o shapes), ranks.getD (inferTTRanksS o shapes), bs⟩
  else throw Err.value

/-- Python `x * y` for sizes. -/
def mulPy : Option ℕ → Option ℕ → R (Option ℕ)
  | some a, some b => Except.ok (some (a * b))
  | _, _ => Except.error Err.type

/-- Python `x + y` for sizes. -/
def addPy : Option ℕ → Option ℕ → R (Option ℕ)
  | some a, some b => Except.ok (some (a + b))
  | _, _ => Except.error Err.type

/-- tensor_train_base.py:36 `reduce(lambda x, y: x*y, arr)`; TypeError for an empty list. -/
def prodPy : List (Option ℕ) → R (Option ℕ)
  | [] => Except.error Err.type
  | x :: xs => xs.foldlM mulPy x

/-- tensor_train_base.py:26-41 `get_shape`. -/
def Sym.baseShape (s : Sym K) : R (List (Option ℕ)) :=
  if s.isMatrix then do
    let a ← prodPy (← pyGet s.rawShape 0)
    let b ← prodPy (← pyGet s.rawShape 1)
    pure [a, b]
  else pyGet s.rawShape 0

/-- tensor_train_batch.py:68-77 `get_shape`: with the batch size in front for batches. -/
def Sym.getShape (s : Sym K) : R (List (Option ℕ)) := do pure (s.batch.toList.map some ++ (← s.baseShape))

/-- `TensorShape.is_fully_defined` and `as_list`: the sizes, if all of them are known. -/
def allKnown (l : List (Option ℕ)) : Option (List ℕ) := l.mapM id

/-- The position of the left rank in the cores. -/
def Sym.leftDim (s : Sym K) : ℕ := if s.batch.isSome then 1 else 0

/-- shapes.py:6-26 `tt_ranks`: the ranks read off the cores when the traced function is executed. -/
def Sym.dynRanks (s : Sym K) : R (List ℕ) := do
  let l ← mapRange s.ndims fun i => do
    let c ← pyGet s.vals i
    pyGet c.shape s.leftDim
  let last ← pyLast s.vals
  pure (l ++ [← pyLast last.shape])

/-- shapes.py:115-134 `lazy_tt_ranks`. -/
def Sym.lazyRanks (s : Sym K) : R (List ℕ) :=
  match allKnown s.ttRanks with
  | some l => pure l
  | none => s.dynRanks

/-- shapes.py:59-90 `raw_shape`. -/
def Sym.dynRawShape (s : Sym K) : R (List (List ℕ)) :=
  mapRange s.rawShape.length fun ax => mapRange s.ndims fun i => do
    let c ← pyGet s.vals i
    pyGet c.shape (ax + 1 + s.leftDim)

/-- shapes.py:156-179 `lazy_raw_shape`: static if `get_shape` is fully defined, which may raise. -/
def Sym.lazyRawShape (s : Sym K) : R (List (List ℕ)) := do
  let sh ← s.getShape
  match allKnown sh, s.rawShape.mapM allKnown with
  | some _, some rows => pure rows
  | _, _ => s.dynRawShape

/-- The object with the attributes that the code reads through the `lazy_*` functions. (`lazy_shape`, shapes.py:137-154, is the
shape of this object: both variants take the products of the sizes of `lazy_raw_shape`.) -/
def Sym.run (s : Sym K) : R (TT K) := do
  let ranks ← s.lazyRanks
  let rows ← s.lazyRawShape
  pure ⟨s.vals, rows, ranks, s.batch⟩

/-- The symbolic object with the cores of `t` and all sizes known. -/
def knownSym (t : TT K) : Sym K :=
  ⟨t.cores.map fun c => ⟨c, c.shape.map some⟩, t.rawShape.map (·.map some), t.ttRanks.map some, t.batch⟩

/-- ops.py:14-103 `full`: the sizes are read through the `lazy_*` functions only. -/
def fullS [CommRing K] (s : Sym K) : R (Tensor K) := do full (← s.run)

/-- ops.py:188-231 `tt_dense_matmul` for a matrix of known shape: the sizes are read through `get_shape` and the `lazy_*`
functions only. (If the number of columns of the TT-matrix is unknown, the check of ops.py:203-206 is skipped; that case is not
modelled: unless there is only one core, `get_shape` raises TypeError then.) -/
def ttDenseMatmulS [CommRing K] (s : Sym K) (B : Tensor K) : R (Tensor K) := do
  require (s.batch = none ∧ s.isMatrix) Err.value
  ttDenseMatmul (← s.run) B

/-- ops.py:321-400 `tt_tt_flat_inner`. Of the attributes only the numbers of mode axes and the batch sizes are used
(`squeeze_batch_dim` keeps static sizes), so the object is given the attributes that belong to its cores. -/
def flatInnerS [CommRing K] (a b : Sym K) : R (Tensor K) := do
  let attrs (s : Sym K) : R (TT K) := do pure ⟨s.vals, ← s.dynRawShape, ← s.dynRanks, s.batch⟩
  flatInner (← attrs a) (← attrs b)

/-- ops.py:777-797 and 914-920 `multiply` by a number. Multiplication of a core by a scalar keeps its static shape. -/
noncomputable def multiplyScalarS (s : Sym ℝ) (c : ℝ) : R (Sym ℝ) := do
  let fact := |c| ^ (1 / (s.ndims : ℝ))
  let cores := s.cores.map fun x => (⟨smul fact x.val, x.sh⟩ : SCore ℝ)
  let c0 ← pyGet cores 0
  let cores := cores.set 0 ⟨c0.val.map (· * SignType.sign c), c0.sh⟩
  mkSym s.batch cores (some s.rawShape) (some s.ttRanks)

/-- ops.py:1000-1036 `transpose`. `tf.transpose` permutes the static shape. -/
def ttTransposeS (s : Sym K) : R (Sym K) := do
  require s.isMatrix Err.value
  let cores ← mapRange s.ndims fun i => do
    let c ← pyGet s.cores i
    let perm := if s.batch.isSome then [0, 1, 3, 2, 4] else [0, 2, 1, 3]
    pure ⟨← transpose c.val perm, perm.map fun k => c.sh.getD k none⟩
  let row0 ← pyGet s.rawShape 0
  let row1 ← pyGet s.rawShape 1
  mkSym s.batch cores (some [row1, row0]) (some s.ttRanks)

/-- ops.py:734-740: the static ranks of a sum. -/
def addRanksS (a b : Sym K) : R (List (Option ℕ)) :=
  mapRange (a.ndims - 1) fun i => do addPy (← pyGet a.ttRanks (i + 1)) (← pyGet b.ttRanks (i + 1))

/-- ops.py:180-182, 911-912: the static ranks of a product. -/
def mulRanksS (a b : Sym K) : R (List (Option ℕ)) := (a.ttRanks.zip b.ttRanks).mapM fun p => mulPy p.1 p.2

/-- ops.py:686-746 `add` for objects with known mode sizes. The cores are computed from the sizes of the `lazy_*` functions, then
the static ranks are added, which raises TypeError if one is unknown; otherwise all sizes are known. (The constructor call
follows; of the eager calls with well-formed arguments it rejects only those with a single core, where there is no rank to add.) -/
def addS [CommRing K] (a b : Sym K) : R (Sym K) := do
  let r ← add (← a.run) (← b.run)
  let _ ← addRanksS a b
  pure (knownSym r)

/-- ops.py:749-920 `multiply` for two TT objects with known mode sizes. -/
def multiplyS [CommRing K] (a b : Sym K) : R (Sym K) := do
  let r ← multiply (← a.run) (← b.run)
  let _ ← mulRanksS a b
  pure (knownSym r)

/-- ops.py:106-185 `tt_tt_matmul` for TT-matrices with known mode sizes. -/
def ttTTMatmulS [CommRing K] (a b : Sym K) : R (Sym K) := do
  let r ← ttTTMatmul (← a.run) (← b.run)
  let _ ← mulRanksS a b
  pure (knownSym r)

/-- tensor_train_base.py:144-154 `__sub__`. -/
noncomputable def subS (a b : Sym ℝ) : R (Sym ℝ) := do addS a (← multiplyScalarS b (-1))

end T3f
