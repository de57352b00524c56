import Verif.Tf.Factor

/-!
# What reverse mode differentiation needs of the recorded operations

`tf.GradientTape` records the operations of the forward computation and calls their gradient functions from the last to the first. Most operations used by
the library (einsum, matmul, reshape, transpose, concat, slices, elementwise products) have gradients for all inputs. The exceptions are recorded here:

* `tf.linalg.qr`: the gradient function (`_QrGrad`, `tensorflow/python/ops/linalg_grad.py`) raises NotImplementedError if the factor `r` is not square, and
  solves triangular systems with the matrix `r`, so there is no finite result if an element of its diagonal is zero. (A TensorFlow version may raise
  InvalidArgumentError or return infinities and NaNs; both are the error `Err.tf` here.)
* `tf.sqrt`: the gradient divides by the result, so there is no finite result if it is zero.

The gradient functions are called for the operations between the variables and the result only; the computations modelled with the tape depend on the
variables from the first recorded operation on. Gradients with respect to the result of `tf.linalg.svd` are not modelled.
-/

namespace T3f

/-- A recorded operation whose gradient function can fail. -/
inductive Node where
  /-- `tf.linalg.qr` of (a batch of) matrices with this number of rows and columns; the proposition says that the diagonal of a factor `r` has a zero. -/
  | qr (rows cols : ℕ) (zero : Prop)
  /-- `tf.sqrt`; the proposition says that an element of the result is zero. -/
  | sqrt (zero : Prop)

open Classical in
/-- The call of the gradient function. The factor `r` has the shape `min(rows, cols) × cols`. -/
noncomputable def Node.grad : Node → R Unit
  | .qr n m z => if min n m ≠ m then Except.error Err.notImpl else if z then Except.error Err.tf else Except.ok ()
  | .sqrt z => if z then Except.error Err.tf else Except.ok ()

/-- The backward pass over the operations, given in the order of execution. -/
noncomputable def gradNodes : List Node → R Unit
  | [] => Except.ok ()
  | n :: l => do
    gradNodes l
    n.grad

/-- A computation that may raise and records operations. -/
structure Taped (α : Type) where
  /-- The result together with the recorded operations. -/
  run : R (α × List Node)

namespace Taped

variable {α β : Type}

instance : Monad Taped where
  pure a := ⟨Except.ok (a, [])⟩
  bind x f := ⟨x.run >>= fun p => (f p.1).run >>= fun q => Except.ok (q.1, p.2 ++ q.2)⟩

/-- A computation with operations that have gradients for all inputs. -/
def plain (x : R α) : Taped α := ⟨x.map fun a => (a, [])⟩

/-- The result, without the tape. -/
def value (x : Taped α) : R α := x.run.map Prod.fst

/-- `tape.gradient` after the computation. -/
noncomputable def backward (x : Taped α) : R Unit := x.run >>= fun p => gradNodes p.2

end Taped

/-- `for i in range(start, start + count): s = f(i, s)`. -/
def forRangeT {σ : Type} (f : ℕ → σ → Taped σ) : (start count : ℕ) → σ → Taped σ
  | _, 0, s => pure s
  | a, n + 1, s => f a s >>= forRangeT f (a + 1) n

/-- The node for `tf.linalg.qr` of a tensor of shape `pre ++ [n, m]` with the factor `r`. -/
def qrNode (pre : List ℕ) (n m : ℕ) (r : Tensor ℝ) : Node := .qr n m (∃ p, Valid pre p ∧ ∃ i < min n m, r.get (p ++ [i, i]) = 0)

/-- `tf.linalg.qr` on the tape. -/
def linalgQRT (qr : QRRoutine) (A : Tensor ℝ) : Taped (Tensor ℝ × Tensor ℝ) :=
  ⟨do
    let (pre, n, m) ← matShape A.shape
    let f ← linalgQR qr A
    pure (f, [qrNode pre n m f.2])⟩

/-- `tf.sqrt` (of nonnegative elements) on the tape. -/
noncomputable def sqrtT (A : Tensor ℝ) : Taped (Tensor ℝ) :=
  let y := A.map Real.sqrt
  ⟨Except.ok (y, [.sqrt (∃ i, Valid A.shape i ∧ y.get i = 0)])⟩

end T3f
