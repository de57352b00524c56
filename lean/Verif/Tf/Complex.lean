import Verif.Tf.Factor
import Mathlib.Analysis.SpecialFunctions.Pow.Complex
import Mathlib.LinearAlgebra.Matrix.ConjTranspose

/-!
# TensorFlow functions for complex numbers

The data types `tf.complex64` and `tf.complex128`, with exact arithmetic.
-/

namespace T3f.Cx

open Matrix

/-- `tf.sign` of a complex number: `x / |x|`, and `0` for `0`. -/
noncomputable def tfSign (c : ℂ) : ℂ := if c = 0 then 0 else c / (‖c‖ : ℂ)

/-- A routine for the reduced QR decomposition of complex matrices. -/
structure QRRoutine where
  q : ∀ n m, Matrix (Fin n) (Fin m) ℂ → Matrix (Fin n) (Fin (min n m)) ℂ
  r : ∀ n m, Matrix (Fin n) (Fin m) ℂ → Matrix (Fin (min n m)) (Fin m) ℂ

/-- The columns of `q` are orthonormal with respect to the Hermitian inner product, `r` is upper triangular, `q r` is the given matrix. -/
def QRRoutine.Correct (qr : QRRoutine) : Prop :=
  ∀ n m A, (qr.q n m A)ᴴ * qr.q n m A = 1 ∧ qr.q n m A * qr.r n m A = A ∧
    ∀ (i : Fin (min n m)) (j : Fin m), (j : ℕ) < i → qr.r n m A i j = 0

/-- `tf.linalg.qr` of complex matrices: the pair `(q, r)`. -/
def linalgQR (qr : QRRoutine) (A : Tensor ℂ) : R (Tensor ℂ × Tensor ℂ) := do
  let (pre, n, m) ← matShape A.shape
  pure (ofMats pre n (min n m) fun p => qr.q n m (A.mat p n m), ofMats pre (min n m) m fun p => qr.r n m (A.mat p n m))

/-- A routine for the reduced singular value decomposition of complex matrices. The singular values are real numbers. -/
structure SVDRoutine where
  s : ∀ n m, Matrix (Fin n) (Fin m) ℂ → Fin (min n m) → ℝ
  u : ∀ n m, Matrix (Fin n) (Fin m) ℂ → Matrix (Fin n) (Fin (min n m)) ℂ
  v : ∀ n m, Matrix (Fin n) (Fin m) ℂ → Matrix (Fin m) (Fin (min n m)) ℂ

/-- `tf.linalg.svd` of complex matrices: the triple `(s, u, v)`. The data type of `s` is real, those of `u` and `v` are complex. -/
def linalgSVD (svd : SVDRoutine) (A : Tensor ℂ) : R (Tensor ℝ × Tensor ℂ × Tensor ℂ) := do
  let (pre, n, m) ← matShape A.shape
  pure (ofVecs pre (min n m) fun p => svd.s n m (A.mat p n m), ofMats pre n (min n m) fun p => svd.u n m (A.mat p n m),
    ofMats pre m (min n m) fun p => svd.v n m (A.mat p n m))

/-- `tf.matmul(a, b)` with a complex and a real tensor: InvalidArgumentError, since TensorFlow does not convert data types. -/
def matmulCR (_ : Tensor ℂ) (_ : Tensor ℝ) : R (Tensor ℂ) := Except.error Err.tf

/-- `tf.matmul(a, b)` with a real and a complex tensor: InvalidArgumentError. -/
def matmulRC (_ : Tensor ℝ) (_ : Tensor ℂ) : R (Tensor ℂ) := Except.error Err.tf

/-- `tf.maximum` is not defined for complex data types: InvalidArgumentError (no registered kernel). -/
def maximum (_ _ : Tensor ℂ) : R (Tensor ℂ) := Except.error Err.tf

end T3f.Cx
