import Verif.Tf.Factor
import Verif.Tf.Tensor

/-!
# The replacement of `tf.linalg.svd`

Models `/repo/t3f/utils.py:18-34` (`replace_tf_svd_with_np_svd`). `np.linalg.svd` is an arbitrary routine, its specification is `NpSVDRoutine.Correct`.
-/

namespace T3f

open Matrix

/-- A routine for the reduced singular value decomposition with NumPy's order of the factors: `u`, `s`, and the transpose `vh` of `v`. -/
structure NpSVDRoutine where
  u : ∀ n m, Matrix (Fin n) (Fin m) ℝ → Matrix (Fin n) (Fin (min n m)) ℝ
  s : ∀ n m, Matrix (Fin n) (Fin m) ℝ → Fin (min n m) → ℝ
  vh : ∀ n m, Matrix (Fin n) (Fin m) ℝ → Matrix (Fin (min n m)) (Fin m) ℝ

/-- NumPy's documentation: the columns of `u` and the rows of `vh` are orthonormal, the singular values are nonnegative and in non-increasing order,
`u diag(s) vh` is the given matrix. -/
def NpSVDRoutine.Correct (np : NpSVDRoutine) : Prop :=
  ∀ n m A, (np.u n m A)ᵀ * np.u n m A = 1 ∧ np.vh n m A * (np.vh n m A)ᵀ = 1 ∧
    (∀ i, 0 ≤ np.s n m A i) ∧ Antitone (np.s n m A) ∧ np.u n m A * diagonal (np.s n m A) * np.vh n m A = A

/-- The value of `np.linalg.svd(A, False, compute_uv)`: three arrays, or the array of the singular values. -/
inductive NpSVDResult
  | usv (u s vh : Tensor ℝ)
  | onlyS (s : Tensor ℝ)

/-- `np.linalg.svd(A, False, compute_uv)`. -/
def npLinalgSVD (np : NpSVDRoutine) (A : Tensor ℝ) (computeUV : Bool) : R NpSVDResult := do
  let (pre, n, m) ← matShape A.shape
  let s := ofVecs pre (min n m) fun p => np.s n m (A.mat p n m)
  if computeUV then
    pure (.usv (ofMats pre n (min n m) fun p => np.u n m (A.mat p n m)) s (ofMats pre (min n m) m fun p => np.vh n m (A.mat p n m)))
  else pure (.onlyS s)

/-- `u, s, v = x`: a tuple of three, or an array whose first axis has length three, is unpacked; ValueError otherwise. -/
def unpack3 : NpSVDResult → R (Tensor ℝ × Tensor ℝ × Tensor ℝ)
  | .usv u s v => Except.ok (u, s, v)
  | .onlyS a =>
    match a.shape with
    | 3 :: sh => Except.ok (⟨sh, fun i => a.get (0 :: i)⟩, ⟨sh, fun i => a.get (1 :: i)⟩, ⟨sh, fun i => a.get (2 :: i)⟩)
    | _ => Except.error Err.value

/-- utils.py:29-30: `list(range(ndims))` with the last two items swapped (IndexError for less than two). -/
def swapOrder (d : ℕ) : R (List ℕ) :=
  if 2 ≤ d then Except.ok (List.range (d - 2) ++ [d - 1, d - 2]) else Except.error Err.index

/-- utils.py:25-32 `my_svd` with `full_matrices=False`; the only calls in the library use the default arguments. -/
def mySvd (np : NpSVDRoutine) (A : Tensor ℝ) (computeUV : Bool := true) : R (Tensor ℝ × Tensor ℝ × Tensor ℝ) := do
  let x ← npLinalgSVD np A computeUV
  let (u, s, v) ← unpack3 x
  let order ← swapOrder A.shape.length
  let v ← transpose v order
  pure (s, u, v)

/-- The two attributes of the module `tf` that are read and written: `tf.linalg.svd`, and `tf.original_svd` if set. -/
structure TfModule (F : Type) where
  svd : F
  originalSvd : Option F

/-- utils.py:18-34 `replace_tf_svd_with_np_svd`. -/
def replaceSvd {F : Type} (my : F) (tf : TfModule F) : TfModule F :=
  match tf.originalSvd with
  | some _ => tf
  | none => { svd := my, originalSvd := some tf.svd }

end T3f
