import Verif.Spec.Blocks
import Verif.Spec.Tangent

/-! # Truncating a tensor one cut after another

Dense tensors are functions of their multi-index; `rows` are the mode sizes (row and column sizes of the cores for matrices), `s` is the shape. -/

namespace T3f

/-- `X` has a tensor train representation whose `k`-th TT-rank is at most `r`; there is no bound on the other ranks. -/
def HasCut (rows : List (List ℕ)) (k r : ℕ) (X : List ℕ → ℝ) : Prop := ∃ b, b k ≤ r ∧ HasTT rows b X

/-- Squared distance of two dense tensors of shape `s`. -/
noncomputable def sqDist (s : List ℕ) (X Y : List ℕ → ℝ) : ℝ := dot s (fun i => X i - Y i) (fun i => X i - Y i)

/-- No tensor whose `k`-th TT-rank is at most `r` is nearer to `X` than `Y`, which is one. -/
def NearestCut (rows : List (List ℕ)) (s : List ℕ) (k r : ℕ) (X Y : List ℕ → ℝ) : Prop :=
  HasCut rows k r Y ∧ ∀ Z, HasCut rows k r Z → sqDist s X Y ≤ sqDist s X Z

/-- `Y` results from `X` by nearest approximations at the cuts `ks`, one after another, with the ranks `b`. -/
inductive Truncated (rows : List (List ℕ)) (s : List ℕ) (b : ℕ → ℕ) : List ℕ → (List ℕ → ℝ) → (List ℕ → ℝ) → Prop
  | done {X Y : List ℕ → ℝ} : (∀ i, Valid s i → X i = Y i) → Truncated rows s b [] X Y
  | cut {k : ℕ} {ks : List ℕ} {X Z Y : List ℕ → ℝ} : NearestCut rows s k (b k) X Z → Truncated rows s b ks Z Y → Truncated rows s b (k :: ks) X Y

/-- The nearest approximations of `X` at the cuts `ks`, one after another, are unique: there are no ties. -/
def NoTies (rows : List (List ℕ)) (s : List ℕ) (b : ℕ → ℕ) : List ℕ → (List ℕ → ℝ) → Prop
  | [], _ => True
  | k :: ks, X => ∀ Z, NearestCut rows s k (b k) X Z →
      (∀ Z', NearestCut rows s k (b k) X Z' → ∀ i, Valid s i → Z' i = Z i) ∧ NoTies rows s b ks Z

/-- A thin singular value decomposition of the unfolding of `X` (a tensor of shape `s`) at the cut `k`: the rows are numbered by the first `k` indices,
the columns by the others. The `l`-th singular vectors are `u l` and `v l`. -/
structure CutSVD (s : List ℕ) (k : ℕ) (X : List ℕ → ℝ) (n : ℕ) (u : ℕ → List ℕ → ℝ) (σ : ℕ → ℝ) (v : ℕ → List ℕ → ℝ) : Prop where
  count : n = min (s.take k).prod (s.drop k).prod
  value : ∀ i j, Valid (s.take k) i → Valid (s.drop k) j → X (i ++ j) = ∑ l ∈ Finset.range n, u l i * σ l * v l j
  left : ∀ l < n, ∀ l' < n, dot (s.take k) (u l) (u l') = if l = l' then 1 else 0
  right : ∀ l < n, ∀ l' < n, dot (s.drop k) (v l) (v l') = if l = l' then 1 else 0
  nonneg : ∀ l < n, 0 ≤ σ l
  decreasing : ∀ l l', l ≤ l' → l' < n → σ l' ≤ σ l

/-- The tensor with the `r` largest singular values only. -/
def IsHead (s : List ℕ) (k r : ℕ) (n : ℕ) (u : ℕ → List ℕ → ℝ) (σ : ℕ → ℝ) (v : ℕ → List ℕ → ℝ) (Z : List ℕ → ℝ) : Prop :=
  ∀ i j, Valid (s.take k) i → Valid (s.drop k) j → Z (i ++ j) = ∑ l ∈ Finset.range (min r n), u l i * σ l * v l j

/-- Whenever a cut is truncated, there is a gap between the singular values that are kept and those that are dropped. -/
inductive Gaps (s : List ℕ) (b : ℕ → ℕ) : List ℕ → (List ℕ → ℝ) → (List ℕ → ℝ) → Prop
  | done {X Y : List ℕ → ℝ} : (∀ i, Valid s i → X i = Y i) → Gaps s b [] X Y
  | cut {k : ℕ} {ks : List ℕ} {X Z Y : List ℕ → ℝ} {n : ℕ} {u v : ℕ → List ℕ → ℝ} {σ : ℕ → ℝ} : 0 < k → k < s.length → CutSVD s k X n u σ v →
      (b k < n → σ (b k) < σ (b k - 1)) → IsHead s k (b k) n u σ v Z → Gaps s b ks Z Y → Gaps s b (k :: ks) X Y

/-- A matrix with row sizes `a` and column sizes `b` as a tensor: its `k`-th index numbers the pairs of the `k`-th row and column indices. -/
def paired (a b : List ℕ) (A : List ℕ → ℝ) : List ℕ → ℝ :=
  fun i => A [ravel a (List.zipWith (· / ·) i b), ravel b (List.zipWith (· % ·) i b)]

end T3f
