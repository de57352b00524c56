import Verif.Model.Riemannian

/-!
# Operations on elements of one tangent space

Models `/repo/t3f/riemannian.py:532-887` (`pairwise_flat_inner_projected`, `add_n_projected`, `tangent_space_to_deltas`,
`deltas_to_tangent_space`). Data types are not modelled.
-/

namespace T3f

/-- A TT-object with its attribute `projection_on`. The classes do not define `__eq__`, so the attribute is compared by identity
(riemannian.py:568, 657); it is modelled by the address of the object, `none` if the attribute is missing. riemannian.py:195, 367, 528, 886 set it to
the point of the tangent space. -/
structure Projected where
  tt : TT ℝ
  on : Option ℕ

/-- `tf.add_n`: all tensors must have the same shape; the empty list raises ValueError. -/
def addNTensors : List (Tensor ℝ) → R (Tensor ℝ)
  | [] => Except.error Err.value
  | a :: l => if ∀ b ∈ l, b.shape = a.shape then Except.ok ⟨a.shape, fun i => (((a :: l).map fun b => b.get i)).sum⟩ else Except.error Err.tf

/-- riemannian.py:588-590, 596-598, 602-604 (TT-matrices) and 610-612, 618-620, 624-626 (TT-tensors): the part of a core of a batch with the given
subscripts on the axes of the TT-ranks. -/
def rankSlice (isMat : Prop) [Decidable isMat] (l r : Ix) (c : Tensor ℝ) : R (Tensor ℝ) :=
  getItem c (if isMat then [.all, l, .all, .all, r] else [.all, l, .all, r])

/-- riemannian.py:586-591, 594-599, 602-606 and 609-613, 616-621, 624-628: the contribution of one slice of the cores `k`. -/
def pairSlices (a b : TT ℝ) (l r : Ix) (k : ℕ) : R (Tensor ℝ) := do
  let ca ← pyGet a.cores k
  let cb ← pyGet b.cores k
  let da ← rankSlice a.isMatrix l r ca
  let db ← rankSlice a.isMatrix l r cb
  let ax := modeLabels a
  einsum ([chars! "pa" ++ (ax ++ ['b']), chars! "qa" ++ (ax ++ ['b'])], chars! "pq") [da, db]

/-- riemannian.py:532-628 `pairwise_flat_inner_projected`. -/
def pairwiseProjected (u v : Projected) : R (Tensor ℝ) := do
  require (u.on.isSome ∧ v.on.isSome) Err.value
  require (u.on = v.on) Err.value
  let a ← expandBatchDim u.tt
  let b ← expandBatchDim v.tt
  let d := a.ndims
  let r1 ← pyGet a.ttRanks 1
  let res ← pairSlices a b .all (.slice none (some (r1 / 2 : ℕ)) 1) 0
  let res ← forRange (fun k res => do
    let rl ← pyGet a.ttRanks k
    let rr ← pyGet a.ttRanks (k + 1)
    let e ← pairSlices a b (.slice (some (rl / 2 : ℕ)) none 1) (.slice none (some (rr / 2 : ℕ)) 1) k
    binop (· + ·) res e) 1 (d - 1) res
  let rl ← pyGet a.ttRanks (a.ttRanks.length - 2)
  let e ← pairSlices a b (.slice (some (rl / 2 : ℕ)) none 1) .all (d - 1)
  binop (· + ·) res e

/-- riemannian.py:681-686 `slice_tt_core`, also riemannian.py:784-796. -/
def sliceCore (axL axR : ℕ) (l r : Ix) (c : Tensor ℝ) : R (Tensor ℝ) :=
  getItem c (((List.replicate c.shape.length Ix.all).set axL l).set axR r)

/-- riemannian.py:664-674: the coefficients as a tensor that can be multiplied by the cores. -/
def coefTensor (t : TT ℝ) (coef : Tensor ℝ) : R (Tensor ℝ) :=
  match coef.shape with
  | n :: m :: _ => do
    let c ← pyGet t.cores 0
    reshape coef (some n :: some m :: List.replicate (c.shape.length - 1) (some 1))
  | _ => pure coef

/-- riemannian.py:664-674: the coefficients, if there are any. -/
def prepareCoef (t : TT ℝ) : Option (Tensor ℝ) → R (Option (Tensor ℝ))
  | none => pure none
  | some c => some <$> coefTensor t c

/-- riemannian.py:695-696, 718-719, 736-737: multiplication of the slice of the object `i` by its coefficient, if there is one. -/
def weighSlice (coef : Option (Tensor ℝ)) (i : ℕ) (c : Tensor ℝ) : R (Tensor ℝ) :=
  match coef with
  | none => pure c
  | some w => do
    let wi ← getItem w [.int i]
    binop (· * ·) c wi

/-- riemannian.py:690-697, 711-720, 731-738: the sum of one slice of the cores `k`, with coefficients if there are any. -/
def sumSlices (axL axR : ℕ) (l r : Ix) (coef : Option (Tensor ℝ)) (objs : List (TT ℝ)) (k : ℕ) : R (Tensor ℝ) := do
  let chunks ← mapRange objs.length fun i => do
    let t ← pyGet objs i
    let c ← pyGet t.cores k
    let c ← sliceCore axL axR l r c
    weighSlice coef i c
  addNTensors chunks

/-- riemannian.py:688-743: the core `k` of the sum. `first` and `last` are the first and the last of the objects: the variable `tt` of the
previous loop is used in lines 707 and 729. -/
def addProjectedCore (axL axR d : ℕ) (ranks : List ℕ) (coef : Option (Tensor ℝ)) (objs : List (TT ℝ)) (first last : TT ℝ) (k : ℕ) :
    R (Tensor ℝ) := do
  let fc ← pyGet first.cores k
  let lc ← pyGet last.cores k
  if k = 0 then do
    let r ← pyGet ranks 1
    let h : ℤ := (r / 2 : ℕ)
    let leftPart ← sumSlices axL axR .all (.slice (some 0) (some h) 1) coef objs k
    let rightPart ← sliceCore axL axR .all (.slice (some h) none 1) fc
    concat axR [leftPart, rightPart]
  else if k = d - 1 then do
    let r ← pyGet ranks (d - 1)
    let h : ℤ := (r / 2 : ℕ)
    let upper ← sliceCore axL axR (.slice (some 0) (some h) 1) .all lc
    let lower ← sumSlices axL axR (.slice (some h) none 1) .all coef objs k
    concat axL [upper, lower]
  else do
    let rl ← pyGet ranks k
    let rr ← pyGet ranks (k + 1)
    let hl : ℤ := (rl / 2 : ℕ)
    let hr : ℤ := (rr / 2 : ℕ)
    let upper ← sliceCore axL axR (.slice (some 0) (some hl) 1) .all lc
    let lowerRight ← sliceCore axL axR (.slice (some hl) none 1) (.slice (some hr) none 1) fc
    let lowerLeft ← sumSlices axL axR (.slice (some hl) none 1) (.slice (some 0) (some hr) 1) coef objs k
    let lower ← concat axR [lowerLeft, lowerRight]
    concat axL [upper, lower]

/-- riemannian.py:631-751 `add_n_projected`; the coefficients are given as a tensor (line 665). `tt_objects[0]` raises IndexError for an empty
list. Only objects with at least two cores are modelled (the functions that set `projection_on` return no other, see `C37_errors`). -/
def addNProjected (objs : List Projected) (coef : Option (Tensor ℝ)) : R Projected := do
  require (∀ t ∈ objs, t.on.isSome) Err.value
  let first ← pyGet objs 0
  require (∀ t ∈ objs, t.on = first.on) Err.value
  let coef ← prepareCoef first.tt coef
  let last ← pyLast objs
  let d := first.tt.ndims
  let axL := first.tt.leftRankDim
  let axR := first.tt.rightRankDim
  let cores ← mapRange d (addProjectedCore axL axR d first.tt.ttRanks coef (objs.map (·.tt)) first.tt last.tt)
  let y ← mkLike first.tt.batch cores first.tt.rawShape first.tt.ttRanks
  pure ⟨y, first.on⟩

/-- riemannian.py:784-796: the delta of the core `k`. For a single core the assignment of the last core is the one that stays. -/
def deltaCore (t : TT ℝ) (k : ℕ) : R (Tensor ℝ) := do
  let d := t.ndims
  let c ← pyGet t.cores k
  if k = d - 1 then do
    let r ← pyGet t.ttRanks (t.ttRanks.length - 2)
    sliceCore t.leftRankDim t.rightRankDim (.slice (some (r / 2 : ℕ)) none 1) .all c
  else if k = 0 then do
    let r ← pyGet t.ttRanks 1
    sliceCore t.leftRankDim t.rightRankDim .all (.slice (some 0) (some (r / 2 : ℕ)) 1) c
  else do
    let r1 ← pyGet t.ttRanks k
    let r2 ← pyGet t.ttRanks (k + 1)
    sliceCore t.leftRankDim t.rightRankDim (.slice (some (r1 / 2 : ℕ)) none 1) (.slice (some 0) (some (r2 / 2 : ℕ)) 1) c

/-- riemannian.py:754-797 `tangent_space_to_deltas`. The ranks with the numbers 1 to `d - 2` must be even (lines 779-782); the rank with the number
`d - 1` is not checked. -/
def tangentSpaceToDeltas (u : Projected) : R (List (Tensor ℝ)) := do
  require u.on.isSome Err.value
  let d := u.tt.ndims
  let _ ← mapRange (d - 2) fun i => do
    let r ← pyGet u.tt.ttRanks (i + 1)
    require (r % 2 = 0) Err.value
  mapRange d (deltaCore u.tt)

/-- riemannian.py:853-857: a core of the frame, repeated for the batch. -/
def tileCore (bs : Option ℕ) (c : Tensor ℝ) (n : ℕ) : R (Tensor ℝ) :=
  match bs with
  | none => pure c
  | some b => do
    let e ← expandDims c 0
    tile e (b :: List.replicate n 1)

/-- riemannian.py:836-839: an orthogonalization that is computed if it is not given. -/
noncomputable def frameOr (qr : QRRoutine) (t : TT ℝ) (leftToRight : Bool) : Option (TT ℝ) → R (TT ℝ)
  | some l => pure l
  | none => orthogonalize qr t leftToRight

/-- riemannian.py:866-876: the shape of the zero block. Both lists of ranks are the ranks of `left` (lines 840-841). -/
def deltaZeroShape (t left : TT ℝ) (bs : Option ℕ) (i : ℕ) : R (List ℕ) := do
  let r1 ← pyGet left.ttRanks i
  let r2 ← pyGet left.ttRanks (i + 1)
  let row0 ← pyGet left.rawShape 0
  let m ← pyGet row0 i
  if t.isMatrix then do
    let row1 ← pyGet left.rawShape 1
    let k ← pyGet row1 i
    pure (bs.toList ++ [r1, m, k, r2])
  else pure (bs.toList ++ [r1, m, r2])

/-- riemannian.py:850-881: the core `i` of the tangent vector. -/
def deltaTangentCore (deltas : List (Tensor ℝ)) (t left right : TT ℝ) (bs : Option ℕ) (i : ℕ) : R (Tensor ℝ) := do
  let lc ← pyGet left.cores i
  let rc ← pyGet right.cores i
  let n := lc.shape.length
  let lc ← tileCore bs lc n
  let rc ← tileCore bs rc n
  let delta ← pyGet deltas i
  let o := bs.toList.length
  tangentCore (left.leftRankDim + o) (left.rightRankDim + o) t.ndims i (deltaZeroShape t left bs i) lc rc delta

/-- riemannian.py:882-885: the object with the new cores. -/
def mkFromCores (bs : Option ℕ) (cores : List (Tensor ℝ)) : R (TT ℝ) :=
  match bs with
  | some n => mkBatch cores .omitted none (some n)
  | none => mkTT cores

/-- riemannian.py:800-887 `deltas_to_tangent_space` (without the attribute `projection_on` of the result, which is `t`). -/
noncomputable def deltasToTangent (qr : QRRoutine) (deltas : List (Tensor ℝ)) (t : TT ℝ) (left right : Option (TT ℝ)) : R (TT ℝ) := do
  let left ← frameOr qr t true left
  let right ← frameOr qr left false right
  let d0 ← pyGet deltas 0
  let c0 ← pyGet t.cores 0
  let bs : Option ℕ := if c0.shape.length < d0.shape.length then d0.shape.head? else none
  let cores ← mapRange t.ndims (deltaTangentCore deltas t left right bs)
  mkFromCores bs cores

end T3f
