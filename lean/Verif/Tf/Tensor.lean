import Verif.Tf.Index
import Mathlib.Algebra.BigOperators.Group.Finset.Basic
import Mathlib.Algebra.BigOperators.Intervals
import Mathlib.Algebra.Ring.Defs

/-!
# Dense tensors and the TensorFlow / numpy primitives used by t3f

A dense tensor is a shape together with a function from multi-indices to scalars. Only the values
at multi-indices that are `Valid` for the shape are meaningful; every specification quantifies over
valid multi-indices only. Errors (Python exceptions) are values of `Err`.
-/

namespace T3f

/-- The Python exceptions that t3f code raises or lets through.
`tf` stands for `tf.errors.InvalidArgumentError` and the `ValueError`s of TF's own shape checks. -/
inductive Err where
  | value | type | notImpl | index | attr | tf
  deriving DecidableEq, Repr

/-- Result of a call that may raise. -/
abbrev R := Except Err

@[simp] theorem R.ok_bind {α β : Type} (a : α) (f : α → R β) :
    ((Except.ok a : R α) >>= f) = f a := rfl
@[simp] theorem R.error_bind {α β : Type} (e : Err) (f : α → R β) :
    ((Except.error e : R α) >>= f) = Except.error e := rfl
@[simp] theorem R.pure_eq {α : Type} (a : α) : (pure a : R α) = Except.ok a := rfl
@[simp] theorem R.throw_eq {α : Type} (e : Err) : (throw e : R α) = Except.error e := rfl
@[simp] theorem R.map_ok {α β : Type} (f : α → β) (a : α) :
    (f <$> (Except.ok a : R α)) = Except.ok (f a) := rfl

/-- Raise `e` unless `c` holds. -/
def require (c : Prop) [Decidable c] (e : Err) : R Unit :=
  if c then Except.ok () else Except.error e

@[simp] theorem require_pos {c : Prop} [Decidable c] (h : c) (e : Err) :
    require c e = Except.ok () := by simp [require, h]
@[simp] theorem require_neg {c : Prop} [Decidable c] (h : ¬ c) (e : Err) :
    require c e = Except.error e := by simp [require, h]

/-- A dense tensor: shape and values. -/
structure Tensor (K : Type) where
  shape : List ℕ
  get : List ℕ → K

instance {K : Type} [Zero K] : Inhabited (Tensor K) := ⟨⟨[0], fun _ => 0⟩⟩

variable {K : Type}

/-! ## Python control flow -/

/-- `for i in range(start, start + count): s = f(i, s)`. -/
def forRange {σ : Type} (f : ℕ → σ → R σ) : (start count : ℕ) → σ → R σ
  | _, 0, s => Except.ok s
  | a, n + 1, s => f a s >>= forRange f (a + 1) n

/-- `[f(i) for i in range(n)]`, raising as soon as one of the calls raises. -/
def mapRange {α : Type} (n : ℕ) (f : ℕ → R α) : R (List α) := (List.range n).mapM f

/-- Python `l[i]` for a nonnegative `i`. -/
def pyGet {α : Type} (l : List α) (i : ℕ) : R α :=
  match l[i]? with
  | some a => Except.ok a
  | none => Except.error Err.index

/-! ## Shape manipulation -/

/-- Product of the specified entries of a target shape. -/
def knownProd : List (Option ℕ) → ℕ
  | [] => 1
  | none :: l => knownProd l
  | some n :: l => n * knownProd l

/-- Target shape resolution of `tf.reshape`; `none` is `-1`. -/
def resolveShape (size : ℕ) (target : List (Option ℕ)) : R (List ℕ) :=
  let known := knownProd target
  match target.count none with
  | 0 => if known = size then Except.ok (target.map (·.getD 0)) else Except.error Err.tf
  | 1 => if known = 0 then Except.error Err.tf
         else if size % known = 0 then Except.ok (target.map (·.getD (size / known)))
         else Except.error Err.tf
  | _ => Except.error Err.tf

/-- `tf.reshape(t, target)`: row-major. -/
def reshape (t : Tensor K) (target : List (Option ℕ)) : R (Tensor K) := do
  let s ← resolveShape t.shape.prod target
  pure ⟨s, fun idx => t.get (unravel t.shape (ravel s idx))⟩

/-- `tf.transpose(t, perm)`. Output axis `k` is input axis `perm[k]`. -/
def transpose (t : Tensor K) (perm : List ℕ) : R (Tensor K) :=
  if perm.Perm (List.range t.shape.length) then
    Except.ok ⟨perm.map (t.shape.getD · 0),
      fun idx => t.get ((List.range t.shape.length).map fun a => idx.getD (perm.idxOf a) 0)⟩
  else Except.error Err.tf

/-- `tf.expand_dims(t, axis)` for `0 ≤ axis ≤ rank`. -/
def expandDims (t : Tensor K) (axis : ℕ) : R (Tensor K) :=
  if axis ≤ t.shape.length then
    Except.ok ⟨t.shape.insertIdx axis 1, fun idx => t.get (idx.eraseIdx axis)⟩
  else Except.error Err.tf

/-- Re-insert the coordinate 0 at the axes of size one. -/
def unsqueezeIdx : List ℕ → List ℕ → List ℕ
  | [], _ => []
  | n :: s, idx => if n = 1 then 0 :: unsqueezeIdx s idx
      else idx.headD 0 :: unsqueezeIdx s idx.tail

/-- `tf.squeeze(t)`: drop every axis of size one. -/
def squeezeAll (t : Tensor K) : Tensor K :=
  ⟨t.shape.filter (· ≠ 1), fun idx => t.get (unsqueezeIdx t.shape idx)⟩

/-- `tf.squeeze(t, axis)`: drop the given axis, which must have size one. -/
def squeezeAxis (t : Tensor K) (axis : ℕ) : R (Tensor K) :=
  if t.shape[axis]? = some 1 then
    Except.ok ⟨t.shape.eraseIdx axis, fun idx => t.get (idx.insertIdx axis 0)⟩
  else Except.error Err.tf

/-- `tf.concat([a, b], axis)`. -/
def concat2 (axis : ℕ) (a b : Tensor K) : R (Tensor K) :=
  if a.shape.length = b.shape.length ∧ axis < a.shape.length ∧
      a.shape.eraseIdx axis = b.shape.eraseIdx axis then
    let n := a.shape.getD axis 0
    Except.ok ⟨a.shape.set axis (n + b.shape.getD axis 0), fun idx =>
      let x := idx.getD axis 0
      if x < n then a.get idx else b.get (idx.set axis (x - n))⟩
  else Except.error Err.tf

/-- `tf.concat(ts, axis)`. An empty list raises. -/
def concat (axis : ℕ) : List (Tensor K) → R (Tensor K)
  | [] => Except.error Err.tf
  | [a] => if axis < a.shape.length then Except.ok a else Except.error Err.tf
  | a :: as => do
      let r ← concat axis as
      concat2 axis a r

/-- `tf.tile(t, mult)`. -/
def tile (t : Tensor K) (mult : List ℕ) : R (Tensor K) :=
  if mult.length = t.shape.length then
    Except.ok ⟨t.shape.zipWith (· * ·) mult, fun idx => t.get (idx.zipWith (· % ·) t.shape)⟩
  else Except.error Err.tf

/-- One item of a Python subscript `t[...]`: `all` is `:`, `int i` an integer (negative counts from
the end), `slice a b c` is `a:b:c` with `none` for an omitted bound. -/
inductive Ix where
  | all
  | int (i : ℤ)
  | slice (start stop : Option ℤ) (step : ℤ)
  deriving DecidableEq, Repr

/-- One bound of Python's `slice.indices(n)`: negative values count from the end, then clip. -/
def clipBound (n lower upper : ℤ) (dflt : ℤ) : Option ℤ → ℤ
  | none => dflt
  | some x => if x < 0 then max (x + n) lower else min x upper

/-- Positions selected by `start:stop:step` on an axis of size `n` (Python's `slice.indices`). -/
def slicePositions (n : ℕ) (start stop : Option ℤ) (step : ℤ) : List ℕ :=
  if 0 < step then
    let a := clipBound n 0 n 0 start
    let b := clipBound n 0 n n stop
    (List.range ((b - a + step - 1) / step).toNat).map fun (k : ℕ) => (a + k * step).toNat
  else
    let a := clipBound n (-1) (n - 1) (n - 1) start
    let b := clipBound n (-1) (n - 1) (-1) stop
    (List.range ((a - b - step - 1) / (-step)).toNat).map fun (k : ℕ) => (a + k * step).toNat

/-- Resolve an integer subscript on an axis of size `n`; out of bounds is an InvalidArgumentError. -/
def intPosition (n : ℕ) (i : ℤ) : R ℕ :=
  if 0 ≤ i ∧ i < n then Except.ok i.toNat
  else if i < 0 ∧ -n ≤ i then Except.ok (i + n).toNat
  else Except.error Err.tf

/-- What an item selects on an axis of size `n`: one position (axis dropped) or a list of them. -/
inductive Sel where
  | one (p : ℕ)
  | many (ps : List ℕ)
  deriving DecidableEq, Repr

/-- Resolve a subscript against a shape; missing items mean `:`. Too many items and a zero step raise. -/
def resolveIx : List ℕ → List Ix → R (List Sel)
  | s, [] => Except.ok (s.map fun n => Sel.many (List.range n))
  | [], _ :: _ => Except.error Err.tf
  | n :: s, Ix.all :: sp => do pure (Sel.many (List.range n) :: (← resolveIx s sp))
  | n :: s, Ix.int i :: sp => do pure (Sel.one (← intPosition n i) :: (← resolveIx s sp))
  | n :: s, Ix.slice a b c :: sp =>
      if c = 0 then Except.error Err.tf
      else do pure (Sel.many (slicePositions n a b c) :: (← resolveIx s sp))

/-- Shape of the selected region. -/
def selShape : List Sel → List ℕ
  | [] => []
  | Sel.one _ :: l => selShape l
  | Sel.many ps :: l => ps.length :: selShape l

/-- Source multi-index of an element of the selected region. -/
def selIdx : List Sel → List ℕ → List ℕ
  | [], _ => []
  | Sel.one p :: l, idx => p :: selIdx l idx
  | Sel.many ps :: l, idx => ps.getD (idx.headD 0) 0 :: selIdx l idx.tail

/-- `t[spec]` for an eager tensor. -/
def getItem (t : Tensor K) (spec : List Ix) : R (Tensor K) := do
  let l ← resolveIx t.shape spec
  pure ⟨selShape l, fun idx => t.get (selIdx l idx)⟩

/-! ## Elementwise arithmetic with numpy broadcasting -/

/-- Broadcast two reversed shapes. -/
def bshape : List ℕ → List ℕ → Option (List ℕ)
  | [], b => some b
  | a, [] => some a
  | x :: a, y :: b =>
      if x = y then (x :: ·) <$> bshape a b
      else if x = 1 then (y :: ·) <$> bshape a b
      else if y = 1 then (x :: ·) <$> bshape a b
      else none

/-- Multi-index into an operand of shape `s` that was broadcast. -/
def bproj (s idx : List ℕ) : List ℕ :=
  List.zipWith (fun n i => if n = 1 then 0 else i) s (idx.drop (idx.length - s.length))

/-- Elementwise binary operation with broadcasting. -/
def binop (f : K → K → K) (a b : Tensor K) : R (Tensor K) :=
  match bshape a.shape.reverse b.shape.reverse with
  | some s => Except.ok ⟨s.reverse, fun idx => f (a.get (bproj a.shape idx)) (b.get (bproj b.shape idx))⟩
  | none => Except.error Err.tf

/-- Elementwise unary operation. -/
def Tensor.map {L : Type} (f : K → L) (a : Tensor K) : Tensor L := ⟨a.shape, fun idx => f (a.get idx)⟩

/-- `c * t` for a Python number or 0-d tensor `c`. -/
def smul [Mul K] (c : K) (a : Tensor K) : Tensor K := a.map (c * ·)

/-- `tf.zeros(s)`. -/
def zeros [Zero K] (s : List ℕ) : Tensor K := ⟨s, fun _ => 0⟩
/-- `tf.ones(s)`. -/
def ones [One K] (s : List ℕ) : Tensor K := ⟨s, fun _ => 1⟩
/-- `tf.eye(n)`. -/
def eyeT [Zero K] [One K] (n : ℕ) : Tensor K :=
  ⟨[n, n], fun idx => if idx.getD 0 0 = idx.getD 1 0 then 1 else 0⟩
/-- A 0-d tensor. -/
def scalar (c : K) : Tensor K := ⟨[], fun _ => c⟩

/-! ## Contractions -/

/-- `tf.matmul(a, b)` in general (`BatchMatMulV2`): products of matrices, with broadcasting of the leading axes. -/
def bmatmul [Semiring K] (a b : Tensor K) : R (Tensor K) :=
  match a.shape.reverse, b.shape.reverse with
  | k :: m :: pa, n :: k' :: pb =>
      match bshape pa pb with
      | some p =>
          if k = k' then Except.ok ⟨p.reverse ++ [m, n], fun idx =>
            ∑ l ∈ Finset.range k, a.get (bproj pa.reverse (idx.take p.length) ++ [idx.getD p.length 0, l]) *
              b.get (bproj pb.reverse (idx.take p.length) ++ [l, idx.getD (p.length + 1) 0])⟩
          else Except.error Err.tf
      | none => Except.error Err.tf
  | _, _ => Except.error Err.tf

/-- `tf.matmul(a, b)`: two matrices, two batches of matrices of equal batch size, and everything else. -/
def matmul [Semiring K] (a b : Tensor K) : R (Tensor K) :=
  match a.shape, b.shape with
  | [m, k], [k', n] =>
      if k = k' then Except.ok ⟨[m, n], fun idx => match idx with
        | [i, j] => ∑ l ∈ Finset.range k, a.get [i, l] * b.get [l, j]
        | _ => 0⟩
      else Except.error Err.tf
  | [p, m, k], [p', k', n] =>
      if p = p' ∧ k = k' then Except.ok ⟨[p, m, n], fun idx => match idx with
        | [o, i, j] => ∑ l ∈ Finset.range k, a.get [o, i, l] * b.get [o, l, j]
        | _ => 0⟩
      else bmatmul a b
  | _, _ => bmatmul a b

/-- All pairs (label, axis size) of an einsum call. -/
def einDims (ins : List (List Char)) (ops : List (Tensor K)) : List (Char × ℕ) :=
  (List.zipWith (fun l t => l.zip t.shape) ins ops).flatten

/-- Sum over the labels in `cs` (label with axis size), then evaluate. -/
def sumOver [AddCommMonoid K] : List (Char × ℕ) → List (Char × ℕ) → (List (Char × ℕ) → K) → K
  | [], env, f => f env
  | (c, n) :: cs, env, f => ∑ x ∈ Finset.range n, sumOver cs ((c, x) :: env) f

/-- Value of a label under an assignment. -/
def lookupLabel (env : List (Char × ℕ)) (c : Char) : ℕ := (env.lookup c).getD 0

/-- `tf.einsum`: the spec string is given as the list of input label lists and the output labels.
Raises if an operand has the wrong rank, or a label is used with two different sizes, or an output
label does not occur in the inputs. -/
def einsum [CommSemiring K] (spec : List (List Char) × List Char) (ops : List (Tensor K)) :
    R (Tensor K) :=
  let ins := spec.1
  let out := spec.2
  let dims := einDims ins ops
  if ins.map List.length = ops.map (fun t => t.shape.length) ∧
      (∀ p ∈ dims, dims.lookup p.1 = some p.2) ∧ (∀ c ∈ out, (dims.lookup c).isSome) then
    let contracted := dims.filter fun p => p.1 ∉ out
    let contracted := contracted.eraseDupsBy (fun p q => p.1 == q.1)
    Except.ok ⟨out.map (lookupLabel dims), fun idx =>
      sumOver contracted (out.zip idx) fun env =>
        (List.zipWith (fun (l : List Char) (t : Tensor K) => t.get (l.map (lookupLabel env))) ins ops).prod⟩
  else Except.error Err.tf

/-- `chars! "abc"` is the list of characters. -/
macro "chars!" s:str : term => do
  let cs ← s.getString.toList.toArray.mapM fun c => pure (Lean.Syntax.mkCharLit c)
  `(([$[$cs],*] : List Char))

/-- `ein! "ab,bc->ac"` expands at parse time to the label lists of an einsum string. -/
macro "ein!" s:str : term => do
  let str := s.getString
  let parts := str.splitOn "->"
  let mk (w : String) : Lean.MacroM (Lean.TSyntax `term) := do
    let cs ← w.toList.toArray.mapM fun c => pure (Lean.Syntax.mkCharLit c)
    `([$[$cs],*])
  match parts with
  | [l, r] =>
    let ls ← (l.splitOn ",").toArray.mapM mk
    let rr ← mk r
    `((([$[$ls],*], $rr) : List (List Char) × List Char))
  | _ => Lean.Macro.throwError "bad einsum string"

end T3f
