import Verif.Tf.Tensor
import Verif.Tf.Int
import Mathlib.LinearAlgebra.Matrix.NonsingularInverse
import Mathlib.Analysis.SpecialFunctions.Pow.Real
import Mathlib.Data.EReal.Operations

/-!
# `tf.linalg` functions on matrices and batches of matrices

Exact arithmetic over the reals. The functions are applied to the last two axes; t3f only calls them on tensors with two
or three axes.
-/

namespace T3f

variable {K : Type}

/-- The matrix in the last two axes, at the leading index `p`. -/
def Tensor.mat (A : Tensor K) (p : List ℕ) (n m : ℕ) : Matrix (Fin n) (Fin m) K :=
  Matrix.of fun i j => A.get (p ++ [(i : ℕ), (j : ℕ)])

/-- The tensor of shape `pre ++ [n, m]` with the matrix `f p` at the leading index `p`. -/
def ofMats [Zero K] (pre : List ℕ) (n m : ℕ) (f : List ℕ → Matrix (Fin n) (Fin m) K) : Tensor K :=
  ⟨pre ++ [n, m], fun idx =>
    let i := idx.getD pre.length 0
    let j := idx.getD (pre.length + 1) 0
    if h : i < n ∧ j < m then f (idx.take pre.length) ⟨i, h.1⟩ ⟨j, h.2⟩ else 0⟩

/-- The leading axes and the size of (a batch of) square matrices. -/
def squareShape : List ℕ → R (List ℕ × ℕ)
  | [n, m] => if n = m then Except.ok ([], n) else Except.error Err.tf
  | [b, n, m] => if n = m then Except.ok ([b], n) else Except.error Err.tf
  | _ => Except.error Err.tf

/-- `tf.linalg.det`. -/
def linalgDet [CommRing K] (A : Tensor K) : R (Tensor K) := do
  let (pre, n) ← squareShape A.shape
  pure ⟨pre, fun p => (A.mat p n n).det⟩

open Classical in
/-- `tf.linalg.inv`: InvalidArgumentError if one of the matrices is singular. -/
noncomputable def linalgInv (A : Tensor ℝ) : R (Tensor ℝ) := do
  let (pre, n) ← squareShape A.shape
  if ∀ p, Valid pre p → (A.mat p n n).det ≠ 0 then pure (ofMats pre n n fun p => (A.mat p n n)⁻¹)
  else Except.error Err.tf

/-- `L` is lower triangular with positive diagonal, and `L Lᵀ` has the lower triangle of `A`. `tf.linalg.cholesky` does not
read the entries above the diagonal. -/
def CholeskyOf {n : ℕ} (A L : Matrix (Fin n) (Fin n) ℝ) : Prop :=
  (∀ i j, i < j → L i j = 0) ∧ (∀ i, 0 < L i i) ∧ ∀ i j, j ≤ i → (L * L.transpose) i j = A i j

open Classical in
/-- The Cholesky factor of one matrix, if there is one. -/
noncomputable def choleskyMat {n : ℕ} (A : Matrix (Fin n) (Fin n) ℝ) : Matrix (Fin n) (Fin n) ℝ :=
  if h : ∃ L, CholeskyOf A L then h.choose else 0

open Classical in
/-- `tf.linalg.cholesky`: InvalidArgumentError if one of the matrices has no Cholesky factor. -/
noncomputable def linalgCholesky (A : Tensor ℝ) : R (Tensor ℝ) := do
  let (pre, n) ← squareShape A.shape
  if ∀ p, Valid pre p → ∃ L, CholeskyOf (A.mat p n n) L then pure (ofMats pre n n fun p => choleskyMat (A.mat p n n))
  else Except.error Err.tf

/-- `tf.math.log` of a nonnegative number: `-inf` at zero. -/
noncomputable def tfLog (x : ℝ) : EReal := if x = 0 then ⊥ else ((Real.log x : ℝ) : EReal)

end T3f
