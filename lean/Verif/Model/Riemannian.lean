import Verif.Model.Inner
import Verif.Model.Decompositions

/-!
# Projection on the tangent space

Models `/repo/t3f/riemannian.py:9-529` (`project_sum`, `project`, `project_matmul`). The three functions repeat the same code
for the checks, for the tangent cores and for the assembly of the result; the repeated parts are modelled once. Data types are
modelled in `Model/TypedTangent.lean`. The attribute `projection_on` of the result is modelled where it is read (see `Model/Tangent.lean`). The lists
`lhs`, `rhs` start as `[None] * (ndims + 1)`; `None` is modelled by an empty tensor (`default`).
-/

namespace T3f

variable {K : Type} [CommRing K]

/-- riemannian.py:46-55, 229-238, 400-409: the type and the shape of `where`. -/
def projectChecks (what whr : TT K) : R Unit := do
  require (whr.batch = none) Err.value
  require (whr.rawShape = what.rawShape) Err.value

/-- riemannian.py:64-67, 246-249, 418-421: the left and right orthogonal cores of `where`. -/
noncomputable def tangentFrame (qr : QRRoutine) (whr : TT ℝ) : R (TT ℝ × TT ℝ) := do
  let left ← orthogonalize qr whr true
  let right ← orthogonalize qr left false
  pure (left, right)

/-- riemannian.py:97-101, 275-279: body of the loop over `range(ndims - 1, 0, -1)`. -/
def rhsStep (ax : List Char) (what right : TT K) (k : ℕ) (rhs : List (Tensor K)) : R (List (Tensor K)) := do
  let wc ← pyGet what.cores k
  let rc ← pyGet right.cores k
  let nxt ← pyGet rhs (k + 1)
  let v ← einsum ([chars! "sa" ++ (ax ++ ['b']), chars! "sbd", 'c' :: (ax ++ ['d'])], chars! "sac") [wc, nxt, rc]
  pure (rhs.set k v)

/-- riemannian.py:94-101, 272-279: `rhs`. -/
def projectRhs (ax : List Char) (what right : TT K) (d n : ℕ) : R (List (Tensor K)) :=
  forRange (fun j => rhsStep ax what right (d - 1 - j)) 0 (d - 1) ((List.replicate (d + 1) default).set d (ones [n, 1, 1]))

/-- riemannian.py:109-113, 287-291: body of the loop over `range(ndims - 1)`. -/
def lhsStep (ax : List Char) (what left : TT K) (k : ℕ) (lhs : List (Tensor K)) : R (List (Tensor K)) := do
  let wc ← pyGet what.cores k
  let lc ← pyGet left.cores k
  let cur ← pyGet lhs k
  let v ← einsum ([chars! "sab", 'a' :: (ax ++ ['c']), chars! "sb" ++ (ax ++ ['d'])], chars! "scd") [cur, lc, wc]
  pure (lhs.set (k + 1) v)

/-- riemannian.py:106-113, 284-291: `lhs`. -/
def projectLhs (ax : List Char) (what left : TT K) (d n : ℕ) : R (List (Tensor K)) :=
  forRange (lhsStep ax what left) 0 (d - 1) ((List.replicate (d + 1) default).set 0 (ones [n, 1, 1]))

/-- riemannian.py:123-126, 301-304: `proj_core` before the multiplication by `rhs`. -/
def projectDiff (ax : List Char) (lhs : List (Tensor K)) (k : ℕ) (wc lc : Tensor K) : R (Tensor K) := do
  let cur ← pyGet lhs k
  let nxt ← pyGet lhs (k + 1)
  let p ← einsum ([chars! "sab", chars! "sb" ++ (ax ++ ['c'])], chars! "sa" ++ (ax ++ ['c'])) [cur, wc]
  let q ← einsum (['a' :: (ax ++ ['b']), chars! "sbc"], chars! "sa" ++ (ax ++ ['c'])) [lc, nxt]
  binop (· - ·) p q

/-- riemannian.py:122-132, 136-142, 300-316: `proj_core` (before the multiplication by the weights) with the output labels `s` (`keep = true`: one block for each
batch element) or without (the blocks are summed over the batch). -/
def projectBlock (ax : List Char) (keep : Bool) (lhs rhs : List (Tensor K)) (d k : ℕ) (wc lc : Tensor K) : R (Tensor K) :=
  let o : List Char := if keep then ['s'] else []
  if k + 1 < d then do
    let p ← projectDiff ax lhs k wc lc
    let nxt ← pyGet rhs (k + 1)
    einsum ([chars! "sa" ++ (ax ++ ['b']), chars! "sbc"], o ++ 'a' :: (ax ++ ['c'])) [p, nxt]
  else do
    let cur ← pyGet lhs k
    einsum ([chars! "sab", chars! "sb" ++ (ax ++ ['c'])], o ++ 'a' :: (ax ++ ['c'])) [cur, wc]

/-- riemannian.py:146-163, 318-335, 486-497: add a batch axis to a tangent core if the output is a batch. -/
def extendCore (isMat : Prop) [Decidable isMat] (out : Option ℕ) (c : Tensor K) : R (Tensor K) :=
  match out with
  | none => pure c
  | some n => do
    let e ← expandDims c 0
    tile e (if isMat then [n, 1, 1, 1, 1] else [n, 1, 1, 1])

/-- riemannian.py:171-181, 343-353: the shape of the zero block. -/
def zeroBlockShape (whr left right : TT K) (out : Option ℕ) (k : ℕ) : R (List ℕ) := do
  let r1 ← pyGet right.ttRanks k
  let r2 ← pyGet left.ttRanks (k + 1)
  let row0 ← pyGet whr.rawShape 0
  let n ← pyGet row0 k
  if whr.isMatrix then do
    let row1 ← pyGet whr.rawShape 1
    let m ← pyGet row1 k
    pure (out.toList ++ [r1, n, m, r2])
  else pure (out.toList ++ [r1, n, r2])

/-- riemannian.py:165-186, 337-358, 499-518: `res_core` from the extended tangent cores `lc`, `rc` and the block `proj`. -/
def tangentCore (axL axR d k : ℕ) (zeroShape : R (List ℕ)) (lc rc proj : Tensor K) : R (Tensor K) :=
  if k = 0 then concat axR [proj, lc]
  else if k = d - 1 then concat axL [rc, proj]
  else do
    let zs ← zeroShape
    let upper ← concat axR [rc, zeros zs]
    let lower ← concat axR [proj, lc]
    concat axL [upper, lower]

/-- riemannian.py:189-193, 361-365, 522-526: the object with the new cores. -/
def mkTangent (out : Option ℕ) (cores : List (Tensor K)) (rows : List (List ℕ)) : R (TT K) :=
  match out with
  | some n => mkBatch cores (.shapes rows) none (some n)
  | none => mkTT cores (.shapes rows) none

/-- riemannian.py:199-368 `project`. -/
noncomputable def project (qr : QRRoutine) (what whr : TT ℝ) : R (TT ℝ) := do
  projectChecks what whr
  let (left, right) ← tangentFrame qr whr
  let d := whr.ndims
  let ax := modeLabels whr
  let w ← expandBatchDim what
  let n ← w.lazyBatchSize
  let rhs ← projectRhs ax w right d n
  let lhs ← projectLhs ax w left d n
  let cores ← mapRange d fun k => do
    let wc ← pyGet w.cores k
    let lc ← pyGet left.cores k
    let rc ← pyGet right.cores k
    let proj ← projectBlock ax what.isBatch lhs rhs d k wc lc
    let elc ← extendCore whr.isMatrix what.batch lc
    let erc ← extendCore whr.isMatrix what.batch rc
    tangentCore what.leftRankDim what.rightRankDim d k (zeroBlockShape whr left right what.batch k) elc erc proj
  mkTangent what.batch cores whr.rawShape

/-- riemannian.py:80-89: the batch size of the result of `project_sum`. -/
def sumOutBatch : Option (Tensor K) → Option ℕ
  | none => none
  | some w => match w.shape with
    | _ :: m :: _ => if 1 < m then some m else none
    | _ => none

/-- riemannian.py:122-144: `proj_core` of `project_sum`. -/
def projectSumBlock (ax : List Char) (weights : Option (Tensor K)) (lhs rhs : List (Tensor K)) (d k : ℕ) (wc lc : Tensor K) :
    R (Tensor K) :=
  match weights with
  | none => projectBlock ax false lhs rhs d k wc lc
  | some w => do
    let o := bLabel 'o' (sumOutBatch weights)
    let p ← projectBlock ax true lhs rhs d k wc lc
    einsum (['s' :: o, chars! "sa" ++ (ax ++ ['c'])], o ++ 'a' :: (ax ++ ['c'])) [w, p]

/-- riemannian.py:9-196 `project_sum`; the weights are given as a tensor (line 44). -/
noncomputable def projectSum (qr : QRRoutine) (what whr : TT ℝ) (weights : Option (Tensor ℝ)) : R (TT ℝ) := do
  let w ← expandBatchDim what
  projectChecks w whr
  let (left, right) ← tangentFrame qr whr
  let d := whr.ndims
  let ax := modeLabels whr
  let n ← w.lazyBatchSize
  let out := sumOutBatch weights
  let o := if out.isSome then 1 else 0
  let rhs ← projectRhs ax w right d n
  let lhs ← projectLhs ax w left d n
  let cores ← mapRange d fun k => do
    let wc ← pyGet w.cores k
    let lc ← pyGet left.cores k
    let rc ← pyGet right.cores k
    let proj ← projectSumBlock ax weights lhs rhs d k wc lc
    let elc ← extendCore whr.isMatrix out lc
    let erc ← extendCore whr.isMatrix out rc
    tangentCore (whr.leftRankDim + o) (whr.rightRankDim + o) d k (zeroBlockShape whr left right out k) elc erc proj
  mkTangent out cores whr.rawShape

/-- riemannian.py:446-450: body of the loop over `range(ndims - 1, 0, -1)` of `project_matmul`. -/
def rhsMatStep (what right A : TT K) (k : ℕ) (rhs : List (Tensor K)) : R (List (Tensor K)) := do
  let wc ← pyGet what.cores k
  let rc ← pyGet right.cores k
  let mc ← pyGet A.cores k
  let nxt ← pyGet rhs (k + 1)
  let v ← einsum (ein! "bije,cikf,sdef,sajkd->sabc") [mc, rc, nxt, wc]
  pure (rhs.set k v)

/-- riemannian.py:457-462: body of the loop over `range(ndims - 1)` of `project_matmul`. -/
def lhsMatStep (what left A : TT K) (k : ℕ) (lhs : List (Tensor K)) : R (List (Tensor K)) := do
  let wc ← pyGet what.cores k
  let lc ← pyGet left.cores k
  let mc ← pyGet A.cores k
  let cur ← pyGet lhs k
  let v ← einsum (ein! "bije,aikd,sabc,scjkf->sdef") [mc, lc, cur, wc]
  pure (lhs.set (k + 1) v)

/-- riemannian.py:472-484: `proj_core` of `project_matmul`. -/
def projectMatBlock (lhs rhs : List (Tensor K)) (d k : ℕ) (wc lc mc : Tensor K) : R (Tensor K) :=
  if k + 1 < d then do
    let cur ← pyGet lhs k
    let nl ← pyGet lhs (k + 1)
    let nr ← pyGet rhs (k + 1)
    let p ← einsum (ein! "scjke,sabc,bijd->saikde") [wc, cur, mc]
    let q ← einsum (ein! "aikb,sbcd->saikcd") [lc, nl]
    let p ← binop (· - ·) p q
    einsum (ein! "saikcb,sbcd->saikd") [p, nr]
  else do
    let cur ← pyGet lhs k
    einsum (ein! "sabc,bijd,scjke->saike") [cur, mc, wc]

/-- riemannian.py:371-529 `project_matmul`. The batch size is read before `what` gets a batch axis (line 426), so a
`TensorTrain` raises ValueError. -/
noncomputable def projectMatmul (qr : QRRoutine) (what whr A : TT ℝ) : R (TT ℝ) := do
  projectChecks what whr
  let (left, right) ← tangentFrame qr whr
  let d := whr.ndims
  let n ← what.lazyBatchSize
  let w ← expandBatchDim what
  let rhs ← forRange (fun j => rhsMatStep w right A (d - 1 - j)) 0 (d - 1)
    ((List.replicate (d + 1) default).set d (ones [n, 1, 1, 1]))
  let lhs ← forRange (lhsMatStep w left A) 0 (d - 1) ((List.replicate (d + 1) default).set 0 (ones [n, 1, 1, 1]))
  let cores ← mapRange d fun k => do
    let wc ← pyGet w.cores k
    let mc ← pyGet A.cores k
    let lc ← pyGet left.cores k
    let rc ← pyGet right.cores k
    let proj ← projectMatBlock lhs rhs d k wc lc mc
    let elc ← extendCore True what.batch lc
    let erc ← extendCore True what.batch rc
    tangentCore what.leftRankDim what.rightRankDim d k (do
      let r1 ← pyGet right.ttRanks k
      let r2 ← pyGet left.ttRanks (k + 1)
      let row0 ← pyGet whr.rawShape 0
      let row1 ← pyGet whr.rawShape 1
      pure (what.batch.toList ++ [r1, ← pyGet row0 k, ← pyGet row1 k, r2])) elc erc proj
  mkTangent what.batch cores whr.rawShape

end T3f
