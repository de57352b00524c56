import Verif.Tf.Factor

/-!
# Tensors with data types

TensorFlow does not convert data types implicitly: an operation with several tensors raises InvalidArgumentError if their data types differ. Only the floating
point types `tf.float32` and `tf.float64` are modelled (there is no QR decomposition on the CPU for `tf.float16`; for integers see C71, for complex numbers C73). The elements are exact real numbers for all types (rounding is the subject of C64, C68, C78, C79 and C81), so that `tf.cast` changes
the data type only.
-/

namespace T3f

/-- The floating point data types. -/
inductive DType where
  | float32 | float64
  deriving DecidableEq, Repr

namespace Dt

/-- A tensor with its data type. -/
structure Tensor (K : Type) where
  dtype : DType
  val : T3f.Tensor K

variable {K : Type}

/-- The common data type of the arguments of an operation; InvalidArgumentError if they differ (or if there are none). -/
def common : List (Tensor K) → R DType
  | [] => Except.error Err.tf
  | t :: ts => if ∀ s ∈ ts, s.dtype = t.dtype then Except.ok t.dtype else Except.error Err.tf

/-- An operation with one tensor keeps the data type. -/
def lift (f : T3f.Tensor K → R (T3f.Tensor K)) (t : Tensor K) : R (Tensor K) := do pure ⟨t.dtype, ← f t.val⟩

/-- An operation with several tensors. -/
def liftN (f : List (T3f.Tensor K) → R (T3f.Tensor K)) (ts : List (Tensor K)) : R (Tensor K) := do
  let d ← common ts
  pure ⟨d, ← f (ts.map (·.val))⟩

/-- `tf.reshape` -/
def reshape (t : Tensor K) (target : List (Option ℕ)) : R (Tensor K) := lift (T3f.reshape · target) t
/-- `tf.transpose` -/
def transpose (t : Tensor K) (perm : List ℕ) : R (Tensor K) := lift (T3f.transpose · perm) t
/-- `tf.expand_dims` -/
def expandDims (t : Tensor K) (axis : ℕ) : R (Tensor K) := lift (T3f.expandDims · axis) t
/-- `tf.squeeze(t, axis)` -/
def squeezeAxis (t : Tensor K) (axis : ℕ) : R (Tensor K) := lift (T3f.squeezeAxis · axis) t
/-- `tf.tile` -/
def tile (t : Tensor K) (mult : List ℕ) : R (Tensor K) := lift (T3f.tile · mult) t
/-- `t[spec]` -/
def getItem (t : Tensor K) (spec : List Ix) : R (Tensor K) := lift (T3f.getItem · spec) t
/-- `tf.squeeze(t)` -/
def squeezeAll (t : Tensor K) : Tensor K := ⟨t.dtype, T3f.squeezeAll t.val⟩
/-- `tf.cast(t, dtype)` -/
def cast (d : DType) (t : Tensor K) : Tensor K := ⟨d, t.val⟩
/-- `tf.zeros(shape, dtype)` -/
def zeros [Zero K] (d : DType) (s : List ℕ) : Tensor K := ⟨d, T3f.zeros s⟩
/-- `tf.ones(shape, dtype)` -/
def ones [One K] (d : DType) (s : List ℕ) : Tensor K := ⟨d, T3f.ones s⟩
/-- `tf.concat` -/
def concat (axis : ℕ) (ts : List (Tensor K)) : R (Tensor K) := liftN (T3f.concat axis) ts
/-- `tf.einsum` -/
def einsum [CommSemiring K] (spec : List (List Char) × List Char) (ts : List (Tensor K)) : R (Tensor K) := liftN (T3f.einsum spec) ts

/-- `tf.matmul` -/
def matmul [Semiring K] (a b : Tensor K) : R (Tensor K) := do
  let d ← common [a, b]
  pure ⟨d, ← T3f.matmul a.val b.val⟩

/-- Elementwise operations with broadcasting. -/
def binop (f : K → K → K) (a b : Tensor K) : R (Tensor K) := do
  let d ← common [a, b]
  pure ⟨d, ← T3f.binop f a.val b.val⟩

/-- The product of a 0-d tensor with a tensor. -/
def smul [Mul K] (d : DType) (c : K) (t : Tensor K) : R (Tensor K) := do
  let e ← common [⟨d, scalar c⟩, t]
  pure ⟨e, T3f.smul c t.val⟩

/-- The product of a tensor with a 0-d tensor. -/
def mulScalar [Mul K] (t : Tensor K) (d : DType) (c : K) : R (Tensor K) := do
  let e ← common [t, ⟨d, scalar c⟩]
  pure ⟨e, t.val.map (· * c)⟩

/-- `tf.linalg.qr`; both factors have the data type of the matrix. -/
def linalgQR (qr : QRRoutine) (A : Tensor ℝ) : R (Tensor ℝ × Tensor ℝ) := do
  let (q, r) ← T3f.linalgQR qr A.val
  pure (⟨A.dtype, q⟩, ⟨A.dtype, r⟩)

/-- `tf.linalg.svd`; all three results have the data type of the matrix. -/
def linalgSVD (svd : SVDRoutine) (A : Tensor ℝ) : R (Tensor ℝ × Tensor ℝ × Tensor ℝ) := do
  let (s, u, v) ← T3f.linalgSVD svd A.val
  pure (⟨A.dtype, s⟩, ⟨A.dtype, u⟩, ⟨A.dtype, v⟩)

/-- `tf.linalg.diag` -/
def linalgDiag (s : Tensor ℝ) : R (Tensor ℝ) := lift T3f.linalgDiag s

/-- An argument that is converted to a tensor: a Python number or (nested) list, a NumPy array, or a tensor. -/
inductive Arg (K : Type) where
  | python (x : T3f.Tensor K)
  | tensor (x : Tensor K)

/-- `tf.convert_to_tensor(x, dtype)`: Python and NumPy values are converted; a tensor of another data type raises ValueError. -/
def convertToTensor (d : DType) : Arg K → R (Tensor K)
  | .python x => Except.ok ⟨d, x⟩
  | .tensor x => if x.dtype = d then Except.ok x else Except.error Err.value

end Dt

end T3f
