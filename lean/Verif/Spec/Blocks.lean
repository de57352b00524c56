import Verif.Model.Full
import Verif.Spec.Entry
import Verif.Spec.Orth
import Mathlib.Data.Real.Basic

/-! # Representability and the blocks of a summation tree -/

namespace T3f

/-- Placeholder for positions outside of a list. -/
instance {K : Type} : Inhabited (TT K) := ⟨⟨[], [], [], none⟩⟩

/-- The dense tensor with the elements `X i` has a tensor train representation with raw shape `rows` and inner TT-ranks at most `b`. -/
def HasTT (rows : List (List ℕ)) (b : ℕ → ℕ) (X : List ℕ → ℝ) : Prop :=
  ∃ S F, S.WF ∧ S.rawShape = rows ∧ S.batch = none ∧ (∀ k, 0 < k → k < S.ndims → S.rank k ≤ b k) ∧
    full S = Except.ok F ∧ ∀ i, Valid F.shape i → F.get i = X i

/-- The numbers less than `n` in the `q`-th block of length `2 ^ l`. -/
def block (n l q : ℕ) : Finset ℕ := (Finset.range n).filter fun k => k / 2 ^ l = q

/-- Summands as they should be: at least one, all of the same shape with at least two modes of positive sizes. -/
def Summands (ts : List (TT ℝ)) (rows : List (List ℕ)) (bs : Option ℕ) (d : ℕ) : Prop :=
  ts ≠ [] ∧ 2 ≤ d ∧ ∀ t ∈ ts, t.WF ∧ t.rawShape = rows ∧ t.batch = bs ∧ t.ndims = d ∧ t.ModesPos

/-- The argument `coef` of `reduce_sum_batch` for a batch of size `n`, which may be absent, a vector or a matrix with `N > 0` columns. It asks for
the sums with the weights `c k j`, `j < N`. The result is a batch of size `N` in the last case (`out = some N`). -/
inductive SumWeights (n : ℕ) : Option (Tensor ℝ) → Option ℕ → ℕ → (ℕ → ℕ → ℝ) → Prop
  | absent : SumWeights n none none 1 fun _ _ => 1
  | vector (C : Tensor ℝ) (h : C.shape = [n]) : SumWeights n (some C) none 1 fun k _ => C.get [k]
  | matrix (C : Tensor ℝ) (N : ℕ) (hN : 0 < N) (h : C.shape = [n, N]) : SumWeights n (some C) (some N) N fun k j => C.get [k, j]

end T3f
