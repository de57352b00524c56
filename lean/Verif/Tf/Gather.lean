import Verif.Tf.Tensor

/-!
# Index tensors, gathering, reductions

Index tensors have natural entries; negative indices are not modelled. Out of range indices raise
(`tf.gather` on CPU).
-/

namespace T3f

variable {K : Type}

/-- `tf.gather(t, idx)`: the axes of `idx` take the place of the first axis of `t`. -/
def gather (t : Tensor K) (idx : Tensor ℕ) : R (Tensor K) :=
  match t.shape, idx.shape with
  | n :: s, [c] =>
      if ∀ i < c, idx.get [i] < n then
        Except.ok ⟨c :: s, fun j => t.get (idx.get [j.headD 0] :: j.tail)⟩
      else Except.error Err.tf
  | n :: s, is =>
      if ∀ k < is.prod, idx.get (unravel is k) < n then
        Except.ok ⟨is ++ s, fun j => t.get (idx.get (j.take is.length) :: j.drop is.length)⟩
      else Except.error Err.tf
  | [], _ => Except.error Err.tf

/-- The item of `t` that `tf.gather_nd(t, idx)` reads: the last axis of `idx` holds the first `q` subscripts. -/
def gatherRow (idx : Tensor ℕ) (q : ℕ) (j : List ℕ) : List ℕ := (List.range q).map fun x => idx.get (j ++ [x])

/-- `tf.gather_nd(t, idx)` in general. -/
def gatherNdAny (t : Tensor K) (idx : Tensor ℕ) : R (Tensor K) :=
  match idx.shape.reverse with
  | [] => Except.error Err.tf
  | q :: r =>
      if q ≤ t.shape.length ∧ ∀ k < r.prod, ∀ x < q, (gatherRow idx q (unravel r.reverse k)).getD x 0 < t.shape.getD x 0 then
        Except.ok ⟨r.reverse ++ t.shape.drop q, fun j => t.get (gatherRow idx q (j.take r.length) ++ j.drop r.length)⟩
      else Except.error Err.tf

/-- `tf.gather_nd(t, idx)`: a 2-d `idx` with two columns, and everything else. -/
def gatherNd2 (t : Tensor K) (idx : Tensor ℕ) : R (Tensor K) :=
  match t.shape, idx.shape with
  | m :: n :: s, [c, 2] =>
      if ∀ i < c, idx.get [i, 0] < m ∧ idx.get [i, 1] < n then
        Except.ok ⟨c :: s, fun j => t.get (idx.get [j.headD 0, 0] :: idx.get [j.headD 0, 1] :: j.tail)⟩
      else Except.error Err.tf
  | _, _ => gatherNdAny t idx

/-- `tf.stack((a, b), axis=1)`: two vectors, and everything else. -/
def stack1 (a b : Tensor K) : R (Tensor K) :=
  match a.shape, b.shape with
  | [m], [n] => if m = n then
      Except.ok ⟨[m, 2], fun j => if j.getD 1 0 = 0 then a.get [j.getD 0 0] else b.get [j.getD 0 0]⟩
    else Except.error Err.tf
  | m :: s, n :: s' => if m :: s = n :: s' then
      Except.ok ⟨m :: 2 :: s, fun j => if j.getD 1 0 = 0 then a.get (j.eraseIdx 1) else b.get (j.eraseIdx 1)⟩
    else Except.error Err.tf
  | _, _ => Except.error Err.tf

/-- `t[:, k]` for a nonnegative `k`. -/
def column (t : Tensor K) (k : ℕ) : R (Tensor K) := getItem t [.all, .int k]

/-- `tf.reduce_sum(t)`: sum of all elements. -/
def reduceSum [AddCommMonoid K] (t : Tensor K) : K :=
  ∑ n ∈ Finset.range t.shape.prod, t.get (unravel t.shape n)

/-- `tf.reduce_sum(t, axis=[1, ..., rank-1], keepdims=True)`. A tensor without axes raises. -/
def reduceSumKeepFirst [AddCommMonoid K] (t : Tensor K) : R (Tensor K) :=
  match t.shape with
  | [] => Except.error Err.tf
  | n :: s => Except.ok ⟨n :: s.map (fun _ => 1), fun j =>
      ∑ x ∈ Finset.range s.prod, t.get (j.headD 0 :: unravel s x)⟩

/-- `tf.math.cumprod(x, exclusive=True, reverse=True)` of a vector: entry `k` is the product of the
entries after `k`. -/
def cumprodExclRev (x : List ℕ) : List ℕ := (List.range x.length).map fun k => (x.drop (k + 1)).prod

/-- A list as a column (`tf.expand_dims(x, 1)` of a vector). -/
def columnOf (x : List ℕ) : Tensor ℕ := ⟨[x.length, 1], fun j => x.getD (j.headD 0) 0⟩

/-- Integer `//` and `%` with broadcasting; a zero divisor raises. -/
def intBinop (f : ℕ → ℕ → ℕ) (a : Tensor ℕ) (b : List ℕ) : R (Tensor ℕ) :=
  if a.shape.prod ≠ 0 ∧ 0 ∈ b then Except.error Err.tf else binop f a (columnOf b)

end T3f
