# Design of the formal model of t3f

Source: `/repo/t3f` (Python, TensorFlow 2, eager mode). Prover: Lean 4.33.0 with Mathlib.
All Lean modules are under `lean/Verif/`.

## 1. What is modelled and how

| layer | directory | contents |
|---|---|---|
| TensorFlow primitives | `Verif/Tf` | dense tensors (`shape : List ℕ`, `get : List ℕ → K`), row-major `reshape` with `-1`, `transpose`, `einsum` with label strings, `matmul` (with broadcasting of the leading axes), `concat`, slicing, `tile`, `squeeze`, `expand_dims`, `ones`/`zeros`/`eye`, elementwise arithmetic. Errors are values (`Except Err`) |
| the library | `Verif/Model` | one Lean definition per Python function, branch by branch, with Python exceptions as `Except.error`; each definition cites file and lines |
| specification | `Verif/Spec` | what an object *means*: the entry of a tensor train as a product of core slices, well-formedness, sums over all positions. Independent of the model's helper functions |
| helper lemmas | `Verif/Proofs` | chain algebra (block sums, Kronecker products, contraction), loop invariants, per-einsum lemmas |
| properties | `Verif/Props` | the theorems named in MANIFEST.json, each with a concrete `example` |

Objects: `TT K` holds the list of cores, the advertised raw shape, the advertised TT-ranks and
`batch : Option ℕ` (`none` = `TensorTrain`, `some n` = `TensorTrainBatch`).
Scalars are a commutative ring `K` for purely algebraic code and `ℝ` where roots, QR, SVD, logarithms,
determinants of real matrices, and norms occur.

Matrix factorizations of TensorFlow that are not unique (`tf.linalg.qr`, `tf.linalg.svd`) are not
modelled as algorithms. Theorems quantify over *every* routine satisfying the documented contract
(`A = QR`, `QᵀQ = 1`, thin sizes; `A = U diag(s) Vᵀ`, orthonormal columns, `s` nonnegative and
non-increasing), and a separate theorem shows that such a routine exists, so no statement is vacuous.

## 2. Trusted base

* Lean's kernel, and the axioms `propext`, `Classical.choice`, `Quot.sound`. No own axioms, no
  `sorry`, no `native_decide`/`bv_decide`.
* Definitions in `Verif/Tf` describe TensorFlow/numpy primitives faithfully (checked by reading the TF
  documentation; TF is not available in the sandbox).
* Definitions in `Verif/Model` mirror the cited Python lines (checked by reading).
* Scalars are exact ring elements or reals, without floating point rounding; rounding is modelled in C64 (conversion of Python numbers), C68, C69, C78, C79 and C81.

## 3. Not modelled

* graph mode with unknown sizes other than C65 (batch sizes) and C84 (TT-ranks and mode sizes); in particular `orthogonalize`, `round` and
  sums of objects with unknown mode sizes, whose static results depend on TensorFlow's shape inference,
  name scopes, devices, variable collections of TF1, dtype checks other than those of C83 and the failure of integer
  TT objects in the multiplication by a number (C71).
* random number generation itself (the scaling of the random initializers is modelled).
* TensorFlow's automatic differentiation (assumed to return the derivative). For C72 the conditions of the gradient functions of `tf.linalg.qr` and `tf.sqrt`
  are stated in `Tf/Tape.lean`; all other operations used there are assumed to have gradients. In floating point a factor `r` that is singular in exact
  arithmetic may have small nonzero elements on the diagonal; then the gradients are finite and meaningless.
* NaN/inf, overflow and underflow of floating point numbers, overflow of integers other than the sizes in C86 and C87; rounding errors of operations other than those of C68, C78, C79 and C81 (for example of projections).

## 4. Properties

See `properties.jsonl`. Per property: model and proof plan.

* C01 `full`: reshape/matmul loop of `_full_tt`, `_full_tt_batch`; loop invariant: after step k the
  accumulated matrix holds the left partial products of all multi-indices of the first k modes; the
  interleaved reshape/transposition for matrices by row-major index arithmetic.
* C02, C03 constructor: decision logic of `_are_tt_cores_valid` / batch version mirrored as a check
  loop; iff-characterisation; counterexamples for explicit metadata.
* C04, C05, C06 `add`/`sub`/`neg`: block cores by `concat`; generic lemma on products of block
  matrices; error boundary by case analysis; negated documented behaviour with witnesses.
* C07, C08 `multiply`: einsum + reshape; generic lemma on products of Kronecker products; root of
  `|c|` over reals.
* C09, C10 `matmul`: same Kronecker lemma with an inner sum; dense product by a loop invariant.
* C11, C12, C13 `flat_inner`, `frobenius_norm_squared`: contraction invariant, exchange of sums.
* C14-C19: per-core lemmas plus the chain algebra.
* C20, C21 indexing: loop invariant with a pending remainder matrix.
* C22, C23 batch ops. `multiply_along_batch_dim` is modelled for weights with any number of axes (`expandWeights`); `C22_multiply_iff` says which calls succeed for at least two cores and
  `C22_multiply_finding` what happens with one core.
* C24-C26 initializers: product of constant cores; validation iff; random scaling with
  Mathlib's measure theory: the draws are random variables that are independent with mean zero and
  variance one (`StandardDraws`), second moments of the partial products by induction over the cores.
* C27-C29 Kronecker: Mathlib determinants of Kronecker products, by induction over cores. `tf.linalg.det`,
  `inv` and `cholesky` are exact functions of the real matrices (`Tf/Linalg.lean`); `inv` raises for a singular
  matrix, `cholesky` reads the lower triangle only and raises without a factor; existence of the factor for
  positive definite matrices from Mathlib's LDL decomposition.
* C30 orthogonalization: loop invariant "new cores orthonormal, left products unchanged up to the carried matrix".
* C31, C32 `round`: the state is followed as chains of flat-indexed blocks (`Proofs/Sweep.lean`, `RoundAbs.lean`). Every carried block is the
  projection of the tensor on the orthonormal cores around it; Pythagoras for each step gives the error; Bessel's inequality and the
  best approximation property of the truncated SVD give the bound for the cuts.
* C33 `to_tt_tensor`: mirror image of the same argument; `to_tt_matrix` reduces to it by splitting and merging modes (`Proofs/Remode.lean`).
* C34: case analysis of the checks. `max_tt_rank` is an integer fitting int32 (no wrap around), `np.inf` or a list of integers; floating point
  numbers are not modelled. NumPy < 1.24 (`np.inf` cast to int32 gives the smallest integer).
* C35, C36 approximate: node `q` of level `l` of the binary tree is the sum over the block of `2^l` summands with `k / 2^l = q`; rounding is exact for every
  batch item that has a representation within the bounds (`Proofs/RoundItem.lean`). `while` loops take fuel that is proved to suffice.
* C37-C39 projections: with the left orthonormal cores `L` and the right orthonormal cores `V` of the point, the tensors
  `sum_k L..L D_k V..V` form a space; the blocks computed by the code are those of the orthogonal projection (`Proofs/TangentAbs.lean`,
  `Proofs/TangentSpace.lean`). For a nonzero point with minimal ranks the interface matrices have full rank, so this space is the
  set of sums of copies of the point with one core replaced (`Proofs/Minimal.lean`). The QR routine is a parameter with a specification.
  The calls `project_matmul` accepts are characterized by inverting the loops (`Proofs/ProjectMatmulIff.lean`); the same for
  `pairwise_flat_inner` with a matrix (C23, `Proofs/PairwiseMatrixIff.lean`).
* C40-C42 objects of one tangent space: the same block structure. The blocks of projections satisfy the gauge conditions, so the terms of different cores are
  orthogonal (`Proofs/Gauge.lean`, `Proofs/TangentGram.lean`). The code finds the blocks by halving the ranks; the theorems state the condition on the ranks of the two
  orthogonalizations, which holds for minimal ranks; without it C40 (two cores, `C40_unbalanced`) and C41 fail (`C41_unbalanced`) and `deltas_to_tangent_space` raises (`C42_rank_error`) or the deltas are not recovered (`C42_last_rank`).
* C43 Riemannian gradients: `tf.GradientTape` is a parameter with a specification (`GradRoutine.Correct`): for every function of the blocks that has a gradient
  it returns the value and the gradient; exceptions pass through. A tape that returns `None` for an unused block is not modelled. The functions are those that depend on
  the elements only, given with their gradient in the elements. Proof: the gradient in the blocks is the pullback of the gradient in the elements; enforcing the
  gauge conditions makes it the block representation of the orthogonal projection (`Proofs/Autodiff.lean`, `AutodiffGrad.lean`).
* C44-C47: small functions, mostly decision logic and refinement.
* C48 variables: eager mode. A store of tensors is threaded explicitly, a core is a tensor or an address; exceptions keep the assignments made before. Loop invariant of
  `assign`: the first `n` addresses hold the new cores, all others are unchanged. Names, scopes, collections and graph mode (reuse) are not modelled.
* C49 `KerasDense`: the layer's own code; the Keras base class (building, tracking, casting) is not modelled. Activations are a table of functions on tensors.
* C50 regularizers: the two TensorFlow APIs differ in `tf.name_scope` and `tf.logging`, modelled as a parameter.
* C51: an inductive type of expressions (`Spec/Expr.lean`) with a run, a type and a dense value; induction over the expression, one lemma per operation
  (`Proofs/Expr.lean`). Operations that are not part of the expression language have their well-formedness in their own theorems.
* C52: pairs of expressions with equal types and values, by C51. C53: positive for sizes other than one, negative with a witness for size one.
* C54: `Verif/Model/Shapes.lean` models shapes.py:6-199; the accessors are computed from the core shapes and compared to the stored attributes and to the shape of the result of `full`.
* C55: `np.linalg.svd` is a routine with a specification; the replacement is shown to be a routine with the specification assumed of `tf.linalg.svd`.
* C56: the program of `docs/tutorials/riemannian.ipynb` (`Verif/Model/Descent.lean`), on top of the models of the functions it calls; induction over the iterations. The ranks after
  rounding are computed exactly (`rdRank_attained`). Negative results with witnesses.
* C57: the functions of `autodiff_test.py` and of the tutorial as programs over the model (`Verif/Model/Losses.lean`), proved to be quadratic functions of the elements; their gradients and
  Hessians are computed with derivatives from Mathlib (`Verif/Proofs/Losses.lean`) and C43 gives the result of the library. Needs minimal ranks of `x`, as C43.
* C58: no new model. `Verif/Spec/RankBound.lean` has the recursion `DecompRanks`; the exact ranks come from the invariant of the loops of C31 and C33.
* C59: `Verif/Model/Weights.lean` models `layer.weights`, `get_weights`, `set_weights`, `count_params` of Keras (TensorFlow 2.4; trusted reading of TensorFlow) on the layer of C49.
  `C59_compress` combines C33, C58 and C49. Only one layer is modelled, not `Sequential`. The dense layer is the formula `x W + c`.
* C60: optimality for two cores is the case `d - 1 = 1` of the error bound of C32 and C33. For three cores the last core of the result depends on the last bound only
  (`roundWith_last`), so it is the one of a best approximation at the last cut; for the chosen tensor that forces the result to vanish in one slice, and the other slice has no good
  approximation of rank one. Not claimed: anything about how often rounding is best for three or more cores.
* C61: the losses are modelled over the reals in `Model/Completion.lean` (Adam is not). C18 gives the values of `gather_nd`; the masked sum is reindexed by the cells. The
  probability of duplicates counts injective functions among all functions (the draws are uniform and independent in the tutorial).
* C62: `Verif/Spec/Training.lean` says what a core gradient is (derivative along every direction, Mathlib's `HasDerivAt`) and what a mean squared error is. TensorFlow's
  `tape.gradient` is taken to return that gradient; the optimizer is any elementwise rule that does not move elements whose gradients were all zero.
* C63: `Verif/Spec/Program.lean` gives programs a meaning in terms of names, values, ranks and memory cells; `Verif/Model/Program.lean` runs them on objects whose cores are tensors
  or TensorFlow variables (C48). The proof is a simulation: blocks of addresses of different TT-variables stay disjoint. What an exception inside a program leaves behind is C48.
* C64: the only place where a type is modelled: the conversion of a Python float to `float32` in `multiply`, as any function which keeps numbers of single precision
  (24 bit mantissa, exponent unbounded) and returns such numbers. The arithmetic after the conversion is exact.
* C65: `Model/Trace.lean` models the branches on `batch_size` when it is a number, `None` or a symbolic tensor (`BSize`); a `Traced` object pairs
  the object met at run time with the static size, related by `Sound`. `Spec/Trace.lean` lists the supported combinations (`AddSizes`, `MatmulSizes`,
  `MulSizes`). Each operation is proved correct for them for every run-time size and to fail otherwise. The loops are shared with the eager model
  (bodies parametrised over the decisions). Assumed: mode sizes and TT-ranks are static; the static size of the batch axis of a core is known iff
  `batch_size` is a number; a condition on a symbolic tensor fails; errors while tracing and while running are identified. Dense matrices of
  partially unknown shape: a wrong unchecked number of rows is excluded by counting elements through the reshapes.
* C66: `Tf/Cost.lean` describes pairwise contraction of an einsum along a path and charges each contraction one unit per assignment of
  values to the labels of the two operands; the order is a parameter (`Strategy`), the default `optimize='greedy'` of `tf.einsum`
  (opt_einsum, least size of the result minus sizes of the operands) is one instance. `Model/Cost.lean` repeats the modelled functions in a monad that
  counts; erasing the count gives back the functions for all arguments. Upper bounds by comparing with one explicit path per einsum string;
  lower bound for the greedy order by computing its choice. Trusted: the description of opt_einsum's greedy rule (ties go to the first pair here);
  additions, memory traffic, reshapes are not counted. That contracting in pairs along any path gives the value of the einsum is proved
  (`C66_order_result`; sums over assignments of labels in `Proofs/Paths.lean`).
* C67: `Model/CostTangent.lean` repeats orthogonalization, the projections and `pairwise_flat_inner_projected` in the counting monad of C66; erasing the
  count gives back the functions for all arguments. Charged (`Tf/CostLinalg.lean`): `m n min(m, n)` for a QR decomposition (the order of Householder QR),
  `m k n` for a matrix product, one per element of the result of an elementwise operation, einsums as in C66. Not charged: reshapes, transpositions, slices,
  tiling, concatenation, checks. Upper bounds by rules for the counting monad (`Bound`) on top of the loop invariants of C32/C37-C39; lower bounds by
  dual rules (`AtLeast`). Trusted: these charges describe what is meant by the documented complexity.
* C68: `Tf/Rounding.lean` has the standard model of floating point arithmetic; a routine for one or two operands is described element by element by a
  circuit of additions, multiplications and fused multiply-adds which represents the sum of products, in any order, with a bounded number of roundings per
  product (`FloatRoutines.Kernels`; `naive_kernels`: adding one after the other is such a routine). An einsum with more operands contracts two at a time
  along the path of any strategy (`FloatRoutines.along`, as in C66); `along_follows` proves the error bounds (`FloatRoutines.Follows`) used by the theorems. `Model/Rounded.lean` repeats the functions with these routines;
  with exact routines they are the functions of the other modules by `rfl`. The proof runs a program three times in lockstep (`Sync`): with rounding, exactly,
  and on absolute values. Trusted: TensorFlow's kernels for two operands compute each element as such a circuit with at most as many roundings as products and factors
  (which excludes, e.g., Strassen's algorithm and reduced precision modes like TF32), `-x`, `1 * x` are exact, and the error of the root that a product with a number takes is explained by some fixed number of roundings.
* C69: `Spec/Single.lean` says what a number with 24 binary digits is and when a rounding goes to the nearest one; `Proofs/Single.lean` shows that such
  roundings exist and give an arithmetic of `Tf/Rounding.lean` (exponents unbounded: no overflow or underflow). The sum of the squares of 11591 and 11590 in
  the contraction is evaluated with the plain loops of `naiveRoutines`, along every contraction path; ties may be rounded in either direction. The square
  root is any function on nonnegative numbers; of negative numbers it is NaN (`none`). The positive part follows from C68.
* C70: `Spec/Truncation.lean` says what a nearest tensor with a bounded TT-rank at one cut is, what a sequence of such approximations is, and when
  they are unique. The routines are arbitrary functions that return correct factors (`QRRoutine.Correct`, `SVDRoutine.Correct`), as in C30-C33; the
  Eckart-Young theorem (`Proofs/Factor.lean`) is applied to each step of the loops (`Proofs/Stage.lean`). The counterexamples evaluate the
  model for routines with prescribed factors at one matrix. `C70Gaps.lean` proves
  the uniqueness from gaps of the singular values (`Gaps`: any decompositions of the unfoldings may be used to check them; uniqueness in the
  Eckart-Young theorem is in `Proofs/BestUnique.lean`); for matrices the unfoldings are those of the tensor of paired indices (`paired`).
* C71: integers of `w` bits are `BitVec w` (a commutative ring; sums and products wrap around), and the definitions of the model are used for this
  ring. `Model/Integer.lean` has the multiplication by a number, which fails in `tf.pow`. `Spec/IntExpr.lean` has the programs and their exact
  value: the dense computation over the integers, with the numbers that the cores contain. The proof applies the theorems about single operations,
  which hold in every commutative ring, and the ring homomorphism from the integers.
* C72: `Tf/Tape.lean` is a monad that records the operations whose gradient functions can fail (QR, square root) and runs them from the last to the first;
  `Model/Tape.lean` repeats `orthogonalize_tt_cores`, the norms and lines 107-116 of `gradients` in it. Erasure gives the same results as the models without
  tape (`C72_values`). The factor `r` of step `k` is square with nonzero diagonal iff the interface has independent columns, because the orthonormal cores
  before it satisfy no relation. For `gradients`, the first core of the point with augmented ranks is `[right | left]`, and the right orthonormal block is a
  combination of the left orthonormal one.
* C73: nothing in t3f restricts the data type of the cores. The models of the ring operations are for every ring and are used at `ℂ`; multiplication by a number,
  the orthogonalizations, the norms, rounding, `to_tt_tensor` and `renormalize_tt_cores` get complex versions in `Model/Complex.lean` (namespace `T3f.Cx`), with a
  complex QR routine (`Qᴴ Q = 1`). The invariants of the sweeps are those of C30 with conjugates. Trusted: `tf.matmul` of a real and a complex tensor
  and `tf.maximum` of complex tensors raise, `tf.sign` is `z / |z|`, `tf.cast` to a real type takes the real part, `tf.norm` conjugates.
  `project` uses the ring operations of `Model/Riemannian.lean` at `ℂ` (`Model/ComplexTangent.lean`); the counterexample evaluates it for two cores of rank one
  and any correct QR routine. The other functions of riemannian.py and automatic differentiation of complex objects are not modelled.
* C74: `TreeInv` and `RInv` (C35, C36) carry an arbitrary property of the nodes of the tree that is preserved by "add and round" (`TreeStep`, `ReduceStep`); what a rounding
  guarantees is collected in `RoundsTo` (result within the bounds, Pythagoras, quasi-optimality). The error bound, the bound on norms, exactness (C35, C36) and the two
  counterexamples are instances. The specification is `Spec/ElemDist.lean` (norm and distance of tensors given by elements) and `HasTT`.
* C75: `Verif/Model/Calls.lean` is a language of programs over the whole modelled API (about 65 calls; arguments by position; results appended). The proof is relational: `RR r x y`
  (both raise the same exception or both return related results) is closed under bind, loops and branches, and has one lemma per TensorFlow operation and per function of the library
  (`Proofs/ShapeRel*.lean`); induction over the program. Constants of the program (shapes, rank bounds, index lists of `gather_nd`, slices) are not data. Object identity of the base point of
  projections is its position. A call on a value of the wrong type is `Err.attr`. The QR and SVD routines are arbitrary functions whose results have the right shapes. Not part of the language:
  autodiff (its run time check looks at values, C43), variables, neural networks.
* C76: `tf.gather` with index tensors of any rank, the general `tf.gather_nd` and batch matrix products with broadcasting of the leading axes (`bmatmul`) are modelled
  (`Tf/Gather.lean`, `Tf/Tensor.lean`), so that the loop of `gather_nd` can be followed for index arrays of any number of axes. Invariant: after `k` modes the row
  has the shape `n, m, ..., 1, r_k` after broadcasting; every product needs equal or unit leading axes. The documented statement is false (`C76_not_documented`); what happens
  instead is `C76_returns_iff` and `C76_value`. Negative subscripts are not modelled.
* C77: the invariant is `TT.Described` (`Spec/Described.lean`, the definition of `TT.WF` without the conditions that ranks and batch size are positive). For every call of the language `PyCall`
  it is shown that a returned object satisfies it, without assuming anything else about the arguments (`Proofs/Described*.lean`): the validation in the constructor gives all sizes as soon as the number
  of axes of the first core, the numbers of modes and ranks and the batch axes are right, and these follow from the code of each function. The restrictions are `PyCall.Plain` (`Spec/PlainCalls.lean`);
  `C77_restrictions` shows for each kind of restriction a program that violates it and returns an object with wrong metadata.
* C78: `Model/RoundedOrtho.lean` is the code of the sweeps and of the norm with routines that round; `Tf/RoundedFactor.lean` says what is assumed of the QR decomposition (the backward error bound of
  Householder QR from the literature) and of norms of vectors. The invariant of the sweep (`Proofs/OrthoErrLR.lean`) keeps an exactly orthonormal core next to every computed one and bounds the distance of
  the chain of these to the argument, with the factor `(1 + ε)^k (1 + u)^(r_1 + … + r_k)` after `k` steps; the sweep from right to left is the mirror image (`Proofs/OrthoErrRL.lean`), and the norm adds the
  errors of the last step (`Proofs/NormErr.lean`). `C78_not_relative` computes the run for a routine with a backward error on two cores that cancel.
* C79: `Model/RoundedRound.lean` is the code of `round` with routines that round; `Tf/RoundedFactor.lean` says what is assumed of the singular value decomposition (exact for a nearby matrix, with factors near
  orthonormal ones). `Proofs/RoundErr.lean` is about chains of matrices: the exact factors next to the computed ones, the matrix that is decomposed exactly, the growth of the errors from core to core, and the
  comparison of what each truncation loses with any chain of small rank. `Proofs/SvdNear.lean` and `Proofs/RoundErrStep.lean` show one step, `Proofs/RoundErrTT.lean` the sweep.
* C80: `Model/MultiplyArray.lean` is the branch of `multiply` for arguments that are not TT objects, with arrays and broadcasting; `Spec/Fits.lean` says when an array can be broadcast to the shape of a core.
  `Proofs/MulArray.lean` characterizes broadcasting, reads off what the constructor has checked after a successful call, and computes the entries.
* C81: `Model/RoundedToTT.lean` is the code of `to_tt_tensor` and `to_tt_matrix` with a matrix product that rounds and a singular value decomposition with backward errors. `Proofs/ToTTErr.lean` bounds the error of
  one decomposition; the sweep, read from right to left, is one of C79, with the dense tensor as a chain whose first block is the tensor and whose other cores copy indices. The norm of that block is the norm of the tensor.
* C82: composition of C24, C08, C04 and C05 with the moments of C26; the recipe is written as a program of the modelled functions.
* C83: `Tf/DType.lean` adds data types to tensors (`float32`, `float64`; elements stay exact reals) and `Model/Typed.lean`, `Model/TypedTangent.lean`, `Model/TypedApprox.lean` model the functions again with them. Objects of one data type behave as in the model without data types (`Follows`); for operands of different data types the first TensorFlow operation that sees both raises (`Rejects`). Programs: induction over expressions, using C51.
* C84: `Model/Static.lean` models objects whose cores have a run-time value and a static shape with unknown entries (`Sym`), the constructors, `lazy_*`/dynamic shapes and the operations on them. `s.Is t` says that `s` stands for `t`. The dynamic sizes are those of `t`, so an operation either does what it does on `t` or fails in Python arithmetic with `None`; programs by induction.
* C85: `Model/Describe.lean` models `__str__` on lists of characters (with `str` of numbers and of `TensorShape`). The string is read from the left: a decimal number ends at the first character that is not a digit, a shape at its closing parenthesis.
* C86: the product of the sizes in `kronecker.py:46` and `99` is a product of 32 bit integers (`Tf/Int.lean`). `Proofs/KronOverflow.lean` follows the loops with an arbitrary exponent and compares with the determinant of the Kronecker product.
* C87: `shapes.py:47` multiplies 32 bit integers, `np.prod` in `initializers.py:775-776, 817, 858` 64 bit ones (`Tf/Int.lean`; on Linux). The moments are those of C26 with the wrapped size.
* C88: `Tf/Subscript.lean` is TensorFlow's subscript with `...` and `None` (`getItems`), `Model/Subscript.lean` the two `__getitem__` methods with arbitrary subscripts. For integers and slices they are the `Props/C88Axes.lean` shows that the model of TensorFlow's subscripts agrees with the description in `Spec/NewAxis.lean`: where `None` inserts axes and what `...` stands for.
  functions of C20 and C21 (`getItems_map`, `batchSubscript_single`, `batchSubscript_tuple`). The proofs count axes: a remainder with a wrong number of axes stays until an `einsum` raises.
  Index tensors with more than zero axes and subscripts of other types are not modelled.
* C89: `Spec/SameLeaves.lean` says when two objects represent the same tensors and when two programs differ in the representations only. `Props/C89Representations.lean`: programs and `flat_inner` (from the value theorems C51, C11), the tangent space (`Proofs/SameTensors.lean`: the interface matrices of a minimal representation are combinations of those of any other representation), `project`, `round` (from C70). `C89_project_nonminimal` is the counterexample for TT-ranks that are not minimal.
* C90: `Proofs/Equivariance.lean` shows that truncation commutes with all maps of dense tensors that keep TT-ranks and multiply distances by a constant, and that the tangent space at a tensor with a scaled first core (with transposed cores) is the same (the transposed) space; with C89 this holds for the cores that `multiply` and `transpose` compute. `Props/C90Equivariance.lean` states the results for `round` (without ties, as in C70) and `project` (minimal TT-ranks, as in C37).
* C91: `Spec/AtItem.lean` says when a single object represents an item of a batch and what the program on the items is. `Proofs/AtItem.lean` compares the types and values of the two programs by induction; C51 then gives the results. `Props/C91Items.lean` also has `flat_inner` (from C11), `project` (both projections are onto the same space), `round` (from C70) and the counterexample to the converse.
* C92: `Proofs/KronLaws.lean` shows that products and transposes of Kronecker-factorized matrices are Kronecker-factorized (from C09 and C14) and gives their dense matrices; the laws in `Props/C92KroneckerLaws.lean` follow with the results for C27-C29 and Mathlib's determinants and inverses.
* C93: `Proofs/Retraction.lean` expands the product of the cores moved by `s D` to first order, which gives a tensor train with the ranks of `x` at the distance `O(s²)` from `x + s v`; by the quasi-optimality of `round` (C32) the result is as near up to the factor `√(d - 1)`. The descent follows with C37 and C56.
* C94: `Proofs/Keeps.lean`. In every step of the truncation sweeps of C32 and C33 the block before truncation is a compression of the represented tensor, so it has rank at most `r_k` for every representation (Bessel's inequality). An orthonormal basis of its row space shows that the best approximation of rank `b_k` keeps the fraction `b_k / r_k`; the shares of the steps multiply.
* C95: `Props/C95Bounds.lean`. The counterexample has exact rational singular value decompositions with gaps at all cuts of both runs, so the uniqueness theorem of C70 (`C70_round_gaps`) gives the results of all routines. `Props/C95Single.lean` has a counterexample for single numbers; its decompositions in rational numbers are verified by evaluation in the kernel (`decide +kernel`) and transferred to the reals by `Proofs/RatSVD.lean`. The limits follow from C32 and C33: the result with the smaller bounds is a competitor for the larger ones.
* C96: `Props/C96Norms.lean`. Combines the dense meanings of C04, C06, C07, C09, C11, C13, C14, C15 and C23 with the inequality of Cauchy and Schwarz for finite sums.
* C97: `Props/C97Directions.lean`. As C95: exact rational decompositions with gaps at all cuts, in both orders; the limits compare each result as a competitor in C32 and C33.
* C98: `Props/C98Stability.lean`. The stability follows from C32 and C33 and the triangle inequality; the jump from the diagonal matrices with the elements `1 + eps/2` and `1` in both orders, whose rounded tensors are determined by C70.
* C99: `Props/C99Sign.lean`. The absolute values of a tensor of rank one at a cut have rank one as well and are not farther from a nonnegative tensor, so by uniqueness (C70) the nearest tensor is nonnegative; the counterexample has a rational decomposition (`Proofs/RatSVD.lean`) with the singular values 12, 9, 6.
* C100: `Props/C100Symmetry.lean`. The transposed result is a result for the transposed matrix (`Proofs/Equivariance.lean`), so by uniqueness (C70) they agree; the counterexample has a rational decomposition after pairing row and column indices. Not shown: that positive semidefinite matrices keep this property with `max_tt_rank=1`.

Status per property is in `MANIFEST.json`.
