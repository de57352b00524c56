import Verif.Model.TensorTrain
import Verif.Tf.Int
import Mathlib.Analysis.SpecialFunctions.Pow.Real

/-!
# Initializers

Models `/repo/t3f/initializers.py`. Shapes, ranks and batch sizes are integers (the checks that they are
integers never fire); a TT-matrix shape is a pair whose entries may be omitted (`None`). `np.int` is an alias
of `int` (NumPy below 1.24). Data types are not modelled.
-/

namespace T3f

variable {K : Type}

/-- The argument `tt_rank`: a number or a list. -/
inductive RankArg where
  | num (r : ℤ)
  | list (l : List ℤ)
  deriving DecidableEq, Repr

/-- initializers.py:44-49: the check of `batch_size`. -/
def validateBatch : Option ℤ → R Unit
  | none => pure ()
  | some b => require (1 ≤ b) Err.value

/-- initializers.py:50-69: the checks of `tt_rank`; `d` is the number of dimensions. A list of length one fails the
integer check: `tt_rank[()]` is then an array. -/
def validateRank (d : ℕ) : Option RankArg → R Unit
  | none => pure ()
  | some (.num r) => require (1 ≤ r) Err.value
  | some (.list l) => do
      require (l.length ≠ 1) Err.value
      require (∀ r ∈ l, 1 ≤ r) Err.value
      require (l.length = d + 1) Err.value

/-- initializers.py:44-69: the part of `_validate_input_parameters` about `batch_size` and `tt_rank`. -/
def validateRest (d : ℕ) (bs : Option ℤ) (rank : Option RankArg) : R Unit := do
  validateBatch bs
  validateRank d rank

/-- initializers.py:10-69 `_validate_input_parameters(is_tensor=True, ...)`. -/
def validateTensor (shape : List ℤ) (bs : Option ℤ) (rank : Option RankArg) : R Unit := do
  require (∀ n ∈ shape, 1 ≤ n) Err.value
  validateRest shape.length bs rank

/-- initializers.py:10-69 `_validate_input_parameters(is_tensor=False, ...)`. Lists of different length do not
form a 2-d array. -/
def validateMatrix (a b : List ℤ) (bs : Option ℤ) (rank : Option RankArg) : R Unit := do
  require (a.length = b.length) Err.value
  require (∀ n ∈ a ++ b, 1 ≤ n) Err.value
  validateRest a.length bs rank

/-- initializers.py:173-180 and the same lines in the other matrix initializers: an omitted row or column
shape is all ones. (Both omitted: `len(None)`.) -/
def fillShape : Option (List ℤ) → Option (List ℤ) → R (List ℤ × List ℤ)
  | none, none => Except.error Err.type
  | none, some b => pure (List.replicate b.length 1, b)
  | some a, none => pure (a, List.replicate a.length 1)
  | some a, some b => pure (a, b)

/-- initializers.py:263-266 and the same lines in the other random initializers: a scalar rank is used between two
ones. `np.ones(-1)` raises ValueError. -/
def expandRank (d : ℕ) : RankArg → R (List ℤ)
  | .num r => if d = 0 then Except.error Err.value else pure (1 :: (List.replicate (d - 1) r ++ [1]))
  | .list l => pure l

/-- The loop that makes the cores (initializers.py:90-92, 116-118, 190-192, 232-234, 271-274, 314-317, 368-372,
426-430): core `i` has the shape `(batch axis,) r_i, modes, r_{i+1}` and is made by `g i`. -/
def fillCores (g : ℕ → List ℕ → Tensor K) (pre : List ℕ) (rows : List (List ℕ)) (rk : List ℕ) (d : ℕ) :
    R (List (Tensor K)) :=
  mapRange d fun i => do
    let r ← pyGet rk i
    let ms ← rows.mapM fun row => pyGet row i
    let r' ← pyGet rk (i + 1)
    pure (g i (pre ++ r :: (ms ++ [r'])))

/-- initializers.py:72-95 `tensor_ones`, 98-120 `tensor_zeros`; `g` is `tf.ones` or `tf.zeros`. -/
def tensorConst (g : List ℕ → Tensor K) (shape : List ℤ) : R (TT K) := do
  validateTensor shape none none
  let sh := shape.map Int.toNat
  let rk := List.replicate (sh.length + 1) 1
  let cores ← fillCores (fun _ => g) [] [sh] rk sh.length
  mkTT cores (.flat sh) (some rk)

/-- initializers.py:72-95 `tensor_ones`. -/
def tensorOnes [One K] (shape : List ℤ) : R (TT K) := tensorConst ones shape

/-- initializers.py:98-120 `tensor_zeros`. -/
def tensorZeros [Zero K] (shape : List ℤ) : R (TT K) := tensorConst zeros shape

/-- initializers.py:153-193 `matrix_ones`, 196-235 `matrix_zeros`; `g` is `tf.ones` or `tf.zeros`. -/
def matrixConst (g : List ℕ → Tensor K) (a b : Option (List ℤ)) : R (TT K) := do
  let (a, b) ← fillShape a b
  validateMatrix a b none none
  let rows := [a.map Int.toNat, b.map Int.toNat]
  let rk := List.replicate (a.length + 1) 1
  let cores ← fillCores (fun _ => g) [] rows rk a.length
  mkTT cores (.nested rows) (some rk)

/-- initializers.py:153-193 `matrix_ones`. -/
def matrixOnes [One K] (a b : Option (List ℤ)) : R (TT K) := matrixConst ones a b

/-- initializers.py:196-235 `matrix_zeros`. -/
def matrixZeros [Zero K] (a b : Option (List ℤ)) : R (TT K) := matrixConst zeros a b

/-- initializers.py:123-150 `eye`. -/
def eye [Zero K] [One K] (shape : List ℤ) : R (TT K) := do
  validateTensor shape none none
  let sh := shape.map Int.toNat
  let rk := List.replicate (sh.length + 1) 1
  let cores ← mapRange sh.length fun i => do
    let n ← pyGet sh i
    reshape (eyeT n) [some 1, some n, some n, some 1]
  mkTT cores (.nested [sh, sh]) (some rk)

/-- initializers.py:435-461 `ones_like`, 464-490 `zeros_like`. `shape[0, :]` is the first row of the raw shape. -/
def constLike (g : List ℕ → Tensor K) (t : TT K) : R (TT K) := do
  let row ← pyGet t.rawShape 0
  if t.isMatrix then do
    let row' ← pyGet t.rawShape 1
    matrixConst g (some (row.map Int.ofNat)) (some (row'.map Int.ofNat))
  else tensorConst g (row.map Int.ofNat)

/-- initializers.py:435-461 `ones_like`. -/
def onesLike [One K] (t : TT K) : R (TT K) := constLike ones t

/-- initializers.py:464-490 `zeros_like`. -/
def zerosLike [Zero K] (t : TT K) : R (TT K) := constLike zeros t

/-- `tf.random.normal(shape, mean, stddev)` computed from standard normal draws `z`. -/
def randomNormal (mean stddev : ℝ) (z : List ℕ → ℝ) (shape : List ℕ) : Tensor ℝ := ⟨shape, fun idx => mean + stddev * z idx⟩

/-- initializers.py:238-276 `tensor_with_random_cores`. `z i` are the draws for core `i`. -/
def tensorWithRandomCores (z : ℕ → List ℕ → ℝ) (shape : List ℤ) (rank : RankArg) (mean stddev : ℝ) : R (TT ℝ) := do
  validateTensor shape none (some rank)
  let rk ← expandRank shape.length rank
  let sh := shape.map Int.toNat
  let rk := rk.map Int.toNat
  let cores ← fillCores (fun i => randomNormal mean stddev (z i)) [] [sh] rk sh.length
  mkTT cores (.flat sh) (some rk)

/-- initializers.py:279-318 `tensor_batch_with_random_cores`. -/
def tensorBatchWithRandomCores (z : ℕ → List ℕ → ℝ) (shape : List ℤ) (rank : RankArg) (bs : ℤ) (mean stddev : ℝ) :
    R (TT ℝ) := do
  validateTensor shape (some bs) (some rank)
  let rk ← expandRank shape.length rank
  let sh := shape.map Int.toNat
  let rk := rk.map Int.toNat
  let cores ← fillCores (fun i => randomNormal mean stddev (z i)) [bs.toNat] [sh] rk sh.length
  mkBatch cores (.flat sh) (some rk) (some bs.toNat)

/-- initializers.py:321-374 `matrix_with_random_cores`. -/
def matrixWithRandomCores (z : ℕ → List ℕ → ℝ) (a b : Option (List ℤ)) (rank : RankArg) (mean stddev : ℝ) :
    R (TT ℝ) := do
  let (a, b) ← fillShape a b
  validateMatrix a b none (some rank)
  let rk ← expandRank a.length rank
  let rows := [a.map Int.toNat, b.map Int.toNat]
  let rk := rk.map Int.toNat
  let cores ← fillCores (fun i => randomNormal mean stddev (z i)) [] rows rk a.length
  mkTT cores (.nested rows) (some rk)

/-- initializers.py:377-432 `matrix_batch_with_random_cores`. -/
def matrixBatchWithRandomCores (z : ℕ → List ℕ → ℝ) (a b : Option (List ℤ)) (rank : RankArg) (bs : ℤ)
    (mean stddev : ℝ) : R (TT ℝ) := do
  let (a, b) ← fillShape a b
  validateMatrix a b (some bs) (some rank)
  let rk ← expandRank a.length rank
  let rows := [a.map Int.toNat, b.map Int.toNat]
  let rk := rk.map Int.toNat
  let cores ← fillCores (fun i => randomNormal mean stddev (z i)) [bs.toNat] rows rk a.length
  mkBatch cores (.nested rows) (some rk) (some bs.toNat)

/-- initializers.py:535-537, 588-590, 660-662, 727-729: the standard deviation of the core entries,
`stddev ** (1 / d) * prod(tt_rank ** (-1 / (2 * d)))`, for `stddev ≥ 0`. -/
noncomputable def coreStddev (d : ℕ) (rk : List ℤ) (stddev : ℝ) : ℝ :=
  stddev ^ (1 / (d : ℝ)) * (rk.map fun r : ℤ => (r : ℝ) ^ (-1 / (2 * (d : ℝ)))).prod

/-- initializers.py:542-545, 595-598, 667-670, 736-739: only mean zero is supported. -/
noncomputable def checkMean {α : Type} (mean : ℝ) (t : α) : R α :=
  open Classical in if |mean| < 1e-8 then pure t else Except.error Err.notImpl

/-- initializers.py:493-545 `random_tensor`. -/
noncomputable def randomTensor (z : ℕ → List ℕ → ℝ) (shape : List ℤ) (rank : RankArg) (mean stddev : ℝ) : R (TT ℝ) := do
  validateTensor shape none (some rank)
  let rk ← expandRank shape.length rank
  let tt ← tensorWithRandomCores z shape (.list rk) 0 (coreStddev shape.length rk stddev)
  checkMean mean tt

/-- initializers.py:548-598 `random_tensor_batch`. -/
noncomputable def randomTensorBatch (z : ℕ → List ℕ → ℝ) (shape : List ℤ) (rank : RankArg) (bs : ℤ) (mean stddev : ℝ) :
    R (TT ℝ) := do
  validateTensor shape (some bs) (some rank)
  let rk ← expandRank shape.length rank
  let tt ← tensorBatchWithRandomCores z shape (.list rk) bs 0 (coreStddev shape.length rk stddev)
  checkMean mean tt

/-- initializers.py:601-670 `random_matrix`. -/
noncomputable def randomMatrix (z : ℕ → List ℕ → ℝ) (a b : Option (List ℤ)) (rank : RankArg) (mean stddev : ℝ) :
    R (TT ℝ) := do
  let (a, b) ← fillShape a b
  validateMatrix a b none (some rank)
  let rk ← expandRank a.length rank
  let tt ← matrixWithRandomCores z (some a) (some b) (.list rk) 0 (coreStddev a.length rk stddev)
  checkMean mean tt

/-- initializers.py:673-739 `random_matrix_batch`. -/
noncomputable def randomMatrixBatch (z : ℕ → List ℕ → ℝ) (a b : Option (List ℤ)) (rank : RankArg) (bs : ℤ)
    (mean stddev : ℝ) : R (TT ℝ) := do
  let (a, b) ← fillShape a b
  validateMatrix a b (some bs) (some rank)
  let rk ← expandRank a.length rank
  let tt ← matrixBatchWithRandomCores z (some a) (some b) (.list rk) bs 0 (coreStddev a.length rk stddev)
  checkMean mean tt

/-- initializers.py:765-781, 807-822, 848-862: `glorot_initializer`, `he_initializer`, `lecun_initializer` differ in the
variance `lamb`, which they compute from the numbers of rows and columns. `np.prod` uses 64 bit integers. (Not modelled: `lamb` being infinite or
its root not a number, when an overflow makes a number of rows or columns zero or negative; here the standard deviation is then 0.) -/
noncomputable def nnInitializer (lamb : ℤ → ℤ → ℝ) (z : ℕ → List ℕ → ℝ) (a b : Option (List ℤ)) (rank : RankArg) :
    R (TT ℝ) := do
  let (a, b) ← fillShape a b
  validateMatrix a b none (some rank)
  randomMatrix z (some a) (some b) rank 0 (Real.sqrt (lamb (int64 a.prod) (int64 b.prod)))

/-- initializers.py:742-781 `glorot_initializer`. -/
noncomputable def glorotInitializer := nnInitializer fun nin nout => 2 / (int64 (nin + nout) : ℤ)

/-- initializers.py:784-822 `he_initializer`. -/
noncomputable def heInitializer := nnInitializer fun nin _ => 2 / (nin : ℤ)

/-- initializers.py:825-862 `lecun_initializer`. -/
noncomputable def lecunInitializer := nnInitializer fun nin _ => 1 / (nin : ℤ)

end T3f
