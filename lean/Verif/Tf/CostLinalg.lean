import Verif.Tf.Cost
import Verif.Tf.Factor

/-!
# Charges for matrix products, QR decompositions and elementwise operations

The product of an `m × k` and a `k × n` matrix is charged `m k n`, the QR decomposition of an `m × n` matrix `m n min(m, n)` (up to a constant the number of
operations of Householder's method), both for every element of the batch; an elementwise operation is charged one unit for every element of the
result.
-/

namespace T3f

variable {K : Type}

/-- The charge for `tf.matmul`. -/
def matmulCost (a b : Tensor K) : ℕ :=
  match a.shape.reverse, b.shape.reverse with
  | k :: m :: pa, n :: _ :: pb => match bshape pa pb with
      | some p => p.prod * (m * k * n)
      | none => 0
  | _, _ => 0

/-- `tf.matmul` with its charge. -/
def matmulC [Semiring K] (a b : Tensor K) : Counted (Tensor K) := Counted.charge (matmulCost a b) (matmul a b)

/-- The charge for `tf.linalg.qr`. -/
def qrCost (a : Tensor K) : ℕ :=
  match a.shape with
  | [m, n] => m * n * min m n
  | [p, m, n] => p * (m * n * min m n)
  | _ => 0

/-- `tf.linalg.qr` with its charge. -/
def linalgQRC (qr : QRRoutine) (a : Tensor ℝ) : Counted (Tensor ℝ × Tensor ℝ) := Counted.charge (qrCost a) (linalgQR qr a)

/-- The charge for an elementwise operation on two tensors. -/
def binopCost (a b : Tensor K) : ℕ := ((bshape a.shape.reverse b.shape.reverse).getD []).prod

/-- An elementwise operation with its charge. -/
def binopC (f : K → K → K) (a b : Tensor K) : Counted (Tensor K) := Counted.charge (binopCost a b) (binop f a b)

/-- `[f(k) for k in range(n)]`. -/
def mapRangeC {α : Type} (n : ℕ) (f : ℕ → Counted α) : Counted (List α) := (List.range n).mapM f

end T3f
