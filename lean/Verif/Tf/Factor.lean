import Verif.Tf.Linalg
import Mathlib.Data.Matrix.Diagonal

/-!
# QR and singular value decompositions

The factors are not unique, so `tf.linalg.qr` and `tf.linalg.svd` are given by arbitrary routines. The predicates
`Correct` state what TensorFlow documents about them; the theorems hold for every correct routine.
-/

namespace T3f

open Matrix

/-- A routine for the reduced QR decomposition (`full_matrices=False`). -/
structure QRRoutine where
  q : ∀ n m, Matrix (Fin n) (Fin m) ℝ → Matrix (Fin n) (Fin (min n m)) ℝ
  r : ∀ n m, Matrix (Fin n) (Fin m) ℝ → Matrix (Fin (min n m)) (Fin m) ℝ

/-- The columns of `q` are orthonormal, `r` is upper triangular, `q r` is the given matrix. -/
def QRRoutine.Correct (qr : QRRoutine) : Prop :=
  ∀ n m A, (qr.q n m A)ᵀ * qr.q n m A = 1 ∧ qr.q n m A * qr.r n m A = A ∧
    ∀ (i : Fin (min n m)) (j : Fin m), (j : ℕ) < i → qr.r n m A i j = 0

/-- A routine for the reduced singular value decomposition (`full_matrices=False`). -/
structure SVDRoutine where
  s : ∀ n m, Matrix (Fin n) (Fin m) ℝ → Fin (min n m) → ℝ
  u : ∀ n m, Matrix (Fin n) (Fin m) ℝ → Matrix (Fin n) (Fin (min n m)) ℝ
  v : ∀ n m, Matrix (Fin n) (Fin m) ℝ → Matrix (Fin m) (Fin (min n m)) ℝ

/-- The columns of `u` and of `v` are orthonormal, the singular values are nonnegative and in non-increasing order,
`u diag(s) vᵀ` is the given matrix. -/
def SVDRoutine.Correct (svd : SVDRoutine) : Prop :=
  ∀ n m A, (svd.u n m A)ᵀ * svd.u n m A = 1 ∧ (svd.v n m A)ᵀ * svd.v n m A = 1 ∧
    (∀ i, 0 ≤ svd.s n m A i) ∧ Antitone (svd.s n m A) ∧
    svd.u n m A * diagonal (svd.s n m A) * (svd.v n m A)ᵀ = A

/-- The leading axes and the size of (a batch of) matrices. -/
def matShape : List ℕ → R (List ℕ × ℕ × ℕ)
  | [n, m] => Except.ok ([], n, m)
  | [b, n, m] => Except.ok ([b], n, m)
  | _ => Except.error Err.tf

/-- `tf.linalg.qr`: the pair `(q, r)`. -/
def linalgQR (qr : QRRoutine) (A : Tensor ℝ) : R (Tensor ℝ × Tensor ℝ) := do
  let (pre, n, m) ← matShape A.shape
  pure (ofMats pre n (min n m) fun p => qr.q n m (A.mat p n m), ofMats pre (min n m) m fun p => qr.r n m (A.mat p n m))

/-- The tensor of shape `pre ++ [n]` with the vector `f p` at the leading index `p`. -/
def ofVecs (pre : List ℕ) (n : ℕ) (f : List ℕ → Fin n → ℝ) : Tensor ℝ :=
  ⟨pre ++ [n], fun idx =>
    let i := idx.getD pre.length 0
    if h : i < n then f (idx.take pre.length) ⟨i, h⟩ else 0⟩

/-- `tf.linalg.svd`: the triple `(s, u, v)`. -/
def linalgSVD (svd : SVDRoutine) (A : Tensor ℝ) : R (Tensor ℝ × Tensor ℝ × Tensor ℝ) := do
  let (pre, n, m) ← matShape A.shape
  pure (ofVecs pre (min n m) fun p => svd.s n m (A.mat p n m), ofMats pre n (min n m) fun p => svd.u n m (A.mat p n m),
    ofMats pre m (min n m) fun p => svd.v n m (A.mat p n m))

/-- `tf.linalg.diag` of a vector or a batch of vectors. -/
def linalgDiag (s : Tensor ℝ) : R (Tensor ℝ) :=
  match s.shape with
  | [n] => Except.ok ⟨[n, n], fun idx => if idx.getD 0 0 = idx.getD 1 0 then s.get [idx.getD 0 0] else 0⟩
  | [b, n] => Except.ok ⟨[b, n, n], fun idx =>
      if idx.getD 1 0 = idx.getD 2 0 then s.get [idx.getD 0 0, idx.getD 1 0] else 0⟩
  | _ => Except.error Err.tf

end T3f
