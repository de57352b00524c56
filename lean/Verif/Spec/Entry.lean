import Verif.Model.TensorTrain

/-!
# What a tensor train means

The specification of the represented tensor; nothing here is taken from the Python code except the
data layout of the cores: `[r_{k}, n_k, r_{k+1}]`, `[r_k, n_k, m_k, r_{k+1}]`, with the batch axis
first for batches.
-/

namespace T3f

variable {K : Type}

/-- Row vector `e₀ᵀ A₀ A₁ ⋯ A_{k-1}`; `A k` is an `r k × r (k+1)` matrix. -/
def lprod [Semiring K] (r : ℕ → ℕ) (A : ℕ → ℕ → ℕ → K) : ℕ → ℕ → K
  | 0, b => if b = 0 then 1 else 0
  | k + 1, b => ∑ a ∈ Finset.range (r k), lprod r A k a * A k a b

/-- `k`-th core (meaningful for `k < ndims`). -/
def TT.core [Zero K] (t : TT K) (k : ℕ) : Tensor K := t.cores.getD k default

/-- Advertised TT-rank `r_k`. -/
def TT.rank (t : TT K) (k : ℕ) : ℕ := t.ttRanks.getD k 0

/-- Advertised mode sizes of core `k`: `[n_k]` for tensors, `[n_k, m_k]` for matrices. -/
def TT.modes (t : TT K) (k : ℕ) : List ℕ := t.rawShape.map (·.getD k 0)

/-- The leading axes of each core: none, or the batch axis. -/
def TT.bpre (t : TT K) : List ℕ := t.batch.toList

/-- The matrix selected from core `k` by the batch index `p` (`[]` or `[b]`) and the mode indices
`m k` (`[i]` for tensors, `[i, j]` for matrices). -/
def TT.slice [Zero K] (t : TT K) (p : List ℕ) (m : ℕ → List ℕ) (k a b : ℕ) : K :=
  (t.core k).get (p ++ a :: (m k ++ [b]))

/-- The entry of the represented tensor: the product of the selected core matrices. -/
def TT.entry [Semiring K] (t : TT K) (p : List ℕ) (m : ℕ → List ℕ) : K :=
  lprod t.rank (t.slice p m) t.ndims 0

/-- Mode indices of a tensor multi-index. -/
def tIdx (i : List ℕ) : ℕ → List ℕ := fun k => [i.getD k 0]

/-- Mode indices of a pair of row and column multi-indices. -/
def mIdx (i j : List ℕ) : ℕ → List ℕ := fun k => [i.getD k 0, j.getD k 0]

/-- Well-formed TT object: the metadata describes the cores, neighbouring ranks agree, boundary ranks
are one, ranks and batch size are positive, there is one mode axis (tensor) or two (matrix). -/
structure TT.WF [Zero K] (t : TT K) : Prop where
  pos : 0 < t.ndims
  ranks_len : t.ttRanks.length = t.ndims + 1
  rank_first : t.rank 0 = 1
  rank_last : t.rank t.ndims = 1
  rank_pos : ∀ k ≤ t.ndims, 0 < t.rank k
  rows : t.rawShape.length = 1 ∨ t.rawShape.length = 2
  rows_len : ∀ row ∈ t.rawShape, row.length = t.ndims
  core_shape : ∀ k < t.ndims, (t.core k).shape = t.bpre ++ t.rank k :: (t.modes k ++ [t.rank (k + 1)])
  batch_pos : t.batch ≠ some 0

/-- Dense shape of the represented object. -/
def TT.denseShape (t : TT K) : List ℕ :=
  t.bpre ++ (if t.isMatrix then t.rawShape.map List.prod else t.rawShape.headD [])

/-- Split a position of the dense object in batch index and mode indices; for matrices the row and
column numbers are row-major positions of multi-indices. -/
def TT.decode (t : TT K) (idx : List ℕ) : List ℕ × (ℕ → List ℕ) :=
  let p := idx.take t.bpre.length
  let rest := idx.drop t.bpre.length
  if t.isMatrix then
    (p, mIdx (unravel (t.rawShape.getD 0 []) (rest.getD 0 0))
             (unravel (t.rawShape.getD 1 []) (rest.getD 1 0)))
  else (p, tIdx rest)

/-- The dense tensor represented by a TT object. -/
def TT.dense [Semiring K] (t : TT K) : Tensor K :=
  ⟨t.denseShape, fun idx => t.entry (t.decode idx).1 (t.decode idx).2⟩

/-- Two dense tensors are the same: equal shapes and equal values at all valid positions. -/
def Tensor.Eqv (a b : Tensor K) : Prop :=
  a.shape = b.shape ∧ ∀ i, Valid a.shape i → a.get i = b.get i

@[inherit_doc] scoped infix:50 " ≃ₜ " => Tensor.Eqv

theorem Tensor.Eqv.refl (a : Tensor K) : a ≃ₜ a := ⟨rfl, fun _ _ => rfl⟩
theorem Tensor.Eqv.symm {a b : Tensor K} (h : a ≃ₜ b) : b ≃ₜ a :=
  ⟨h.1.symm, fun i hi => (h.2 i (h.1 ▸ hi)).symm⟩
theorem Tensor.Eqv.trans {a b c : Tensor K} (h : a ≃ₜ b) (h' : b ≃ₜ c) : a ≃ₜ c :=
  ⟨h.1.trans h'.1, fun i hi => (h.2 i hi).trans (h'.2 i (h.1 ▸ hi))⟩

end T3f
