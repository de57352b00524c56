{"id": "C01", "title": "full() returns the tensor the TT-cores stand for", "statement": "For every well-formed TT-tensor, TT-matrix, or batch of either, t3f.full succeeds, its result has the advertised shape (batch size first; matrices as prod(rows) x prod(cols)), and the element at a multi-index is the product of the core slices selected by that multi-index (row-major flattening of the row and column multi-indices for matrices).", "quantifier": "all well-formed TT objects (any number of dims, mode sizes, ranks, batch size, tensor/matrix), all element positions", "why_tests_cant": "Ranges over infinitely many shapes, ranks, numbers of cores and real entries; the tests sample a handful of random tensors with d<=4.", "anchors": ["t3f/ops.py: full, _full_tt, _full_tt_batch"]}
{"id": "C02", "title": "Constructor with inferred metadata accepts exactly consistent cores", "statement": "TensorTrain(cores) without explicit shape and ranks (first core with at least two axes) succeeds exactly when the cores all have the same number of axes, neighbouring ranks agree, and the first and last ranks are 1; the raw shape and ranks it then reports are exactly those of the cores; otherwise it raises ValueError (IndexError on an empty core list). TensorTrainBatch(cores) decides in the same way and ignores the batch sizes of all cores but the first: its metadata describes the cores if the batch sizes are equal, and cores with unequal batch sizes are accepted.", "quantifier": "all lists of cores with arbitrary shapes", "why_tests_cant": "Accept/reject boundary over all core shape lists cannot be enumerated.", "anchors": ["t3f/tensor_train.py: TensorTrain.__init__, _are_tt_cores_valid, _infer_raw_shape, _infer_tt_ranks", "t3f/tensor_train_batch.py: TensorTrainBatch.__init__, _are_batch_tt_cores_valid"]}
{"id": "C03", "title": "Constructor with explicit shape and ranks: what the check guarantees", "statement": "If TensorTrain(cores, shape, tt_ranks) is accepted then the object's reported shape and ranks describe the cores. This is false as stated (an explicit shape that is too long, or a 1-row shape for 4-d cores, or a rank list that is too long is accepted); it holds when shape has one entry per core and one row per mode axis and the rank list has one entry more than there are cores.", "quantifier": "all core lists, explicit shapes and explicit rank lists", "why_tests_cant": "A claim about all metadata; tests only pass consistent or obviously inconsistent metadata.", "anchors": ["t3f/tensor_train.py: TensorTrain.__init__, _are_tt_cores_valid", "t3f/shapes.py: clean_raw_shape"]}
{"id": "C04", "title": "add() is elementwise addition", "statement": "For two well-formed TT objects of equal raw shape with at least two dims (both non-batch; batches with equal sizes, or one of size 1; or a batch of size other than 1 plus a non-batch as the second operand) full(add(a,b)) = full(a)+full(b) with batch broadcasting, and every interior TT-rank of the result is the sum of the operands' ranks. The remaining mixed cases (non-batch plus batch, batch of size 1 plus non-batch) raise ValueError.", "quantifier": "all pairs of compatible TT objects, all element positions", "why_tests_cant": "Ranges over infinitely many shapes, ranks, numbers of cores and real entries; the tests sample a handful of random tensors with d<=4.", "anchors": ["t3f/ops.py: add, _add_tensor_cores, _add_matrix_cores, _add_batch_tensor_cores, _add_batch_matrix_cores"]}
{"id": "C05", "title": "add() error boundary", "statement": "add raises ValueError when exactly one operand is a TT-matrix, when raw shapes differ, and when batch sizes are incompatible. Documented uses that also fail: one-dimensional operands always raise ValueError; TensorTrain + TensorTrainBatch always raises ValueError, and TensorTrainBatch of size 1 + TensorTrain raises ValueError.", "quantifier": "all pairs of TT objects outside the success domain of C04", "why_tests_cant": "Claims about every input of an infinite class, including that an error is raised each time.", "anchors": ["t3f/ops.py: add", "t3f/shapes.py: lazy_batch_size, is_batch_broadcasting_possible"]}
{"id": "C06", "title": "Subtraction and negation", "statement": "full(a-b) = full(a)-full(b) and full(-a) = -full(a) for compatible TT objects.", "quantifier": "all pairs of compatible TT objects", "why_tests_cant": "Ranges over infinitely many shapes, ranks, numbers of cores and real entries; the tests sample a handful of random tensors with d<=4.", "anchors": ["t3f/tensor_train_base.py: __sub__, __neg__", "t3f/ops.py: multiply, add"]}
{"id": "C07", "title": "Elementwise (Hadamard) product", "statement": "For TT objects of equal raw shape with nonzero mode sizes, batch or not, full(multiply(a,b)) = full(a)*full(b) elementwise with batch broadcasting (non-batch and size-1 batches are broadcast), TT-ranks multiply, the result is a batch iff one of the operands is, and shape or batch-size mismatches raise ValueError.", "quantifier": "all pairs of TT objects, all element positions", "why_tests_cant": "Ranges over infinitely many shapes, ranks, numbers of cores and real entries; the tests sample a handful of random tensors with d<=4.", "anchors": ["t3f/ops.py: multiply", "t3f/shapes.py: is_batch_broadcasting_possible"]}
{"id": "C08", "title": "Multiplication by a number", "statement": "For every real c and every well-formed TT object a (batch or not), full(multiply(a,c)) = c*full(a), also for negative c and c=0, and ranks and shape do not change.", "quantifier": "all real numbers, all TT objects", "why_tests_cant": "Ranges over infinitely many shapes, ranks, numbers of cores and real entries; the tests sample a handful of random tensors with d<=4. The implementation distributes |c|^(1/d) over cores, so sign handling and root exactness matter for all c.", "anchors": ["t3f/ops.py: multiply (number branch)"]}
{"id": "C09", "title": "TT-matrix by TT-matrix product", "statement": "full(matmul(A,B)) = full(A) full(B) for TT-matrices whose inner raw shapes agree, including batches and batch broadcasting (a batch of size one is treated as a single matrix by full, so its axis may be dropped); ranks multiply; non-matrix operands raise ValueError and an inner shape mismatch raises a TensorFlow error.", "quantifier": "all pairs of compatible TT-matrices / batches", "why_tests_cant": "Ranges over infinitely many shapes, ranks, numbers of cores and real entries; the tests sample a handful of random tensors with d<=4.", "anchors": ["t3f/ops.py: tt_tt_matmul, matmul"]}
{"id": "C10", "title": "TT-matrix by dense matrix and dense by TT-matrix", "statement": "matmul(A, X) = full(A) X and matmul(X, A) = X full(A) for dense 2-D X of matching size and nonzero mode sizes; the result has shape prod(rows) x cols. Batches raise ValueError, a size mismatch raises, and sparse X raises NotImplementedError.", "quantifier": "all TT-matrices, all dense matrices of compatible size", "why_tests_cant": "Ranges over infinitely many shapes, ranks, numbers of cores and real entries; the tests sample a handful of random tensors with d<=4. The implementation interleaves reshape and einsum over all cores; an ordering error may be invisible for symmetric sizes.", "anchors": ["t3f/ops.py: tt_dense_matmul, dense_tt_matmul, matmul"]}
{"id": "C11", "title": "flat_inner of TT objects", "statement": "flat_inner(a,b) is the sum over all positions of full(a)*full(b), per batch element with broadcasting, for TT-tensors and TT-matrices (batches of size one collapse to a scalar); the result is symmetric in its arguments; a mode size mismatch raises.", "quantifier": "all pairs of TT objects of equal raw shape", "why_tests_cant": "Ranges over infinitely many shapes, ranks, numbers of cores and real entries; the tests sample a handful of random tensors with d<=4.", "anchors": ["t3f/ops.py: tt_tt_flat_inner, flat_inner"]}
{"id": "C12", "title": "flat_inner with a sparse tensor", "statement": "For a SparseTensor with arbitrary (even repeated) coordinate list, flat_inner(tt, sparse) is the sum of values times full(tt) at the coordinates, for TT-tensors and TT-matrices. The mirrored call flat_inner(sparse, tt) raises NotImplementedError, batches raise ValueError; out-of-range coordinates raise for TT-tensors and silently wrap modulo the matrix size for TT-matrices.", "quantifier": "all TT objects, all lists of valid coordinates with values", "why_tests_cant": "Ranges over infinitely many shapes, ranks, numbers of cores and real entries; the tests sample a handful of random tensors with d<=4.", "anchors": ["t3f/ops.py: tt_sparse_flat_inner, flat_inner"]}
{"id": "C13", "title": "Frobenius norm", "statement": "frobenius_norm_squared(tt) is the sum of squares of full(tt) (per batch element), for both the QR based (differentiable=False) and the contraction based (differentiable=True) implementation, so both agree; frobenius_norm is the square root of that plus epsilon (default 1e-5), hence the exact norm only for epsilon=0.", "quantifier": "all TT objects, both values of the flag", "why_tests_cant": "Ranges over infinitely many shapes, ranks, numbers of cores and real entries; the tests sample a handful of random tensors with d<=4.", "anchors": ["t3f/ops.py: frobenius_norm_squared, frobenius_norm"]}
{"id": "C14", "title": "Transpose", "statement": "full(transpose(A)) = full(A)^T for every TT-matrix / batch, transpose(transpose(A)) has the same full tensor, ranks unchanged; non-matrices raise ValueError.", "quantifier": "all TT-matrices and batches", "why_tests_cant": "Ranges over infinitely many shapes, ranks, numbers of cores and real entries; the tests sample a handful of random tensors with d<=4.", "anchors": ["t3f/ops.py: transpose"]}
{"id": "C15", "title": "bilinear_form and quadratic_form", "statement": "bilinear_form(A,b,c) = full(b)^T full(A) full(c) for TT-matrix A and TT-column-vectors b, c, and quadratic_form(A,b,c) is the same function; arguments that are no TT-matrices raise ValueError. For batches this holds when b and c are both batches of equal size; mixed batch/non-batch vectors are a documented use that fails. The call succeeds exactly if A is no batch, b and c have the same batch size, at least as many cores as A and fitting mode sizes in the first A.ndims() cores: the shapes themselves are never compared, so inconsistent shapes raise an error of TensorFlow or an IndexError instead of the documented ValueError, and vectors with more cores than A are accepted silently, their further cores being ignored.", "quantifier": "all triples of compatible TT objects", "why_tests_cant": "Ranges over infinitely many shapes, ranks, numbers of cores and real entries; the tests sample a handful of random tensors with d<=4.", "anchors": ["t3f/ops.py: bilinear_form, quadratic_form"]}
{"id": "C16", "title": "bilinear_form_two_mat", "statement": "bilinear_form_two_mat(x,A,B,y) = full(x)^T full(A) full(B) full(y) for non-batch arguments. For batches (which the docstring allows) it does not: the einsum uses the letter p both for the batch and for the inner mode. Exactly: for TT-matrices of compatible shapes the call succeeds iff A and B are no batches and x, y are either both no batches or batches of the same size q with every inner mode of size q; otherwise TensorFlow raises. In the batch case element c of the result is the sum over the single inner index (c, c, ..., c) only, not x_c^T A B y_c; an example gives 35 instead of 145. Arguments that are not TT-matrices raise ValueError.", "quantifier": "all compatible quadruples of TT objects", "why_tests_cant": "Ranges over infinitely many shapes, ranks, numbers of cores and real entries; the tests sample a handful of random tensors with d<=4.", "anchors": ["t3f/ops.py: bilinear_form_two_mat"]}
{"id": "C17", "title": "cast acts elementwise on the represented tensor", "statement": "full(cast(tt)) equals the conversion applied to full(tt) whenever the conversion is a ring homomorphism (e.g. int to real), shape, ranks and batch size unchanged. (For non-homomorphic conversions such as truncation this is false.)", "quantifier": "all TT objects, all ring-homomorphic conversions", "why_tests_cant": "Ranges over infinitely many shapes, ranks, numbers of cores and real entries; the tests sample a handful of random tensors with d<=4.", "anchors": ["t3f/ops.py: cast"]}
{"id": "C18", "title": "gather_nd reads elements of the represented tensor", "statement": "gather_nd(tt, idx) for a 2-D index array returns full(tt) at each row of idx (batch objects: first column selects the batch element); a wrong number of columns raises ValueError, TT-matrices raise NotImplementedError, out-of-range indices raise.", "quantifier": "all TT-tensors and batches, all 2-D arrays of indices", "why_tests_cant": "Ranges over infinitely many shapes, ranks, numbers of cores and real entries; the tests sample a handful of random tensors with d<=4.", "anchors": ["t3f/ops.py: gather_nd"]}
{"id": "C19", "title": "renormalize_tt_cores keeps the tensor and balances the norms", "statement": "For every epsilon > 0, full(renormalize_tt_cores(tt)) = full(tt), ranks and shape unchanged, and if the sum of squares of every core is at least epsilon all resulting cores have the same Frobenius norm (per batch element). Cores that are nonzero but smaller than that are not balanced.", "quantifier": "all TT objects and batches, all epsilon > 0", "why_tests_cant": "Ranges over infinitely many shapes, ranks, numbers of cores and real entries; the tests sample a handful of random tensors with d<=4.", "anchors": ["t3f/ops.py: renormalize_tt_cores"]}
{"id": "C20", "title": "TensorTrain indexing", "statement": "full(tt[spec]) = full(tt)[spec] for every spec mixing integers and slices with at least one slice; wrong length raises ValueError, TT-matrices raise NotImplementedError; a spec of integers only fails (IndexError) instead of returning a scalar. Indexing succeeds exactly if there is one item per dimension, at least one slice, and full(tt)[spec] succeeds.", "quantifier": "all TT-tensors, all slice specifications", "why_tests_cant": "Ranges over infinitely many shapes, ranks, numbers of cores and real entries; the tests sample a handful of random tensors with d<=4.", "anchors": ["t3f/tensor_train.py: __getitem__"]}
{"id": "C21", "title": "TensorTrainBatch indexing", "statement": "full(batch[spec]) = full(batch)[spec] for batch-only specs (integer or non-empty slice) and for full specs with a non-empty selection of batch elements; an integer in the batch position gives a TensorTrain, a slice gives a TensorTrainBatch. With a non-empty selection of batch elements, indexing succeeds exactly if full(batch)[spec] does and, for full specs, at least one tensor dimension has a slice (integers in all tensor dimensions raise).", "quantifier": "all batches, all specs", "why_tests_cant": "Ranges over infinitely many shapes, ranks, numbers of cores and real entries; the tests sample a handful of random tensors with d<=4.", "anchors": ["t3f/tensor_train_batch.py: __getitem__, _batch_dim_getitem, _full_getitem"]}
{"id": "C22", "title": "concat_along_batch_dim and multiply_along_batch_dim", "statement": "full(concat_along_batch_dim([t1..tk])) stacks full(t1)..full(tk) along the batch axis for batches of equal raw shape and TT-ranks, ValueError for non-batches and unequal raw shapes or ranks; full(multiply_along_batch_dim(b, w))[p] = w[p]*full(b)[p] for one weight per batch element (or a single weight, which is used for all); other numbers of weights raise, and for objects with at least two cores so do weights with any other number of axes; the number of axes is not checked for objects with one core, where some arrays of weights give an object with wrong metadata.", "quantifier": "all non-empty lists of TT objects / batches of equal raw shape and ranks, all weights", "why_tests_cant": "Ranges over infinitely many shapes, ranks, numbers of cores and real entries; the tests sample a handful of random tensors with d<=4.", "anchors": ["t3f/batch_ops.py: concat_along_batch_dim, multiply_along_batch_dim"]}
{"id": "C23", "title": "Gram and pairwise inner products", "statement": "gram_matrix(v)[i,j] = <full(v)[i], full(v)[j]>, pairwise_flat_inner(a,b)[i,j] = <full(a)[i], full(b)[j]>, and with a matrix argument <full(a)[i], full(M) full(b)[j]>; the Gram matrix is symmetric. The matrix version takes column vectors (TT-matrices with column dims 1); batch axes of size one are dropped from the result. Without a matrix the call for two batches succeeds exactly if the second batch has at least as many cores as the first and the same mode sizes in those cores; otherwise the error is one of TensorFlow or an IndexError. With a matrix it succeeds exactly if both arguments are batches of column vectors and the matrix is a single TT-matrix whose raw shape consists of their row sizes.", "quantifier": "all batches, all matrices", "why_tests_cant": "Ranges over infinitely many shapes, ranks, numbers of cores and real entries; the tests sample a handful of random tensors with d<=4.", "anchors": ["t3f/batch_ops.py: gram_matrix, pairwise_flat_inner"]}
{"id": "C24", "title": "Deterministic initializers", "statement": "full(tensor_ones(s)) is 1 everywhere, full(tensor_zeros(s)) 0 everywhere, same for matrix_ones/zeros, ones_like/zeros_like, and full(eye(s)) is the identity matrix, for every valid shape with at least two dims; ranks are 1; a non-positive dimension raises ValueError. With one dimension tensor_ones/zeros raise TypeError, and matrix_ones/zeros/eye return an object that is not a TT-matrix.", "quantifier": "all shapes", "why_tests_cant": "Ranges over infinitely many shapes, ranks, numbers of cores and real entries; the tests sample a handful of random tensors with d<=4.", "anchors": ["t3f/initializers.py: tensor_ones, tensor_zeros, matrix_ones, matrix_zeros, eye, ones_like, zeros_like"]}
{"id": "C25", "title": "Initializer argument validation", "statement": "With at least two dims, *_with_random_cores raise ValueError exactly for a non-positive dim, batch size < 1, a non-positive rank, a rank list of length other than ndims + 1 or not starting and ending with 1, or (matrices) row and column shapes of different length; otherwise they return a valid object with the given shape whose ranks are the given list, or the scalar rank between two ones. An omitted row or column shape means all ones. With one dim the tensor version raises TypeError.", "quantifier": "all integer shapes, ranks, batch sizes", "why_tests_cant": "Decision over all integers and list lengths.", "anchors": ["t3f/initializers.py: _validate_input_parameters, random_tensor"]}
{"id": "C26", "title": "Random initializer scaling", "statement": "random_tensor(shape, rank, stddev) for stddev >= 0 and at least two dims: if the draws are independent with mean zero and variance one, the entries of the represented tensor have mean zero, variance exactly stddev^2, and are pairwise uncorrelated; same for matrices and batches; the nn initializers give variance 2/(fan_in+fan_out), 2/fan_in, 1/fan_in, as long as these sizes are below 2^63 (see C87). A mean of 1e-8 or more raises NotImplementedError. The entries are not independent, although the documentation says i.i.d.", "quantifier": "all shapes, rank lists, stddev>=0", "why_tests_cant": "A distributional statement about an expectation; a test samples finitely many values.", "anchors": ["t3f/initializers.py: random_tensor, random_matrix, glorot_initializer, he_initializer, lecun_initializer"]}
{"id": "C27", "title": "Kronecker determinant and slog_determinant", "statement": "For a TT-matrix (or every item of a batch) with all ranks 1 and square cores of positive size whose product is below 2^31 (see C86 for larger sizes), determinant = det(full(A)) and slog_determinant = (sign det, log|det|), with (0, -inf) for a zero determinant; rank >1, non-square, or non-matrix inputs raise ValueError.", "quantifier": "all Kronecker-product matrices with any number of factors", "why_tests_cant": "Ranges over infinitely many shapes, ranks, numbers of cores and real entries; the tests sample a handful of random tensors with d<=4.", "anchors": ["t3f/kronecker.py: determinant, slog_determinant, _is_kron"]}
{"id": "C28", "title": "Kronecker inverse", "statement": "For rank-1 TT-matrices (or batches) with nonzero determinant full(inv(A)) full(A) = I = full(A) full(inv(A)); for a singular matrix inv raises InvalidArgumentError.", "quantifier": "all Kronecker-product matrices with invertible factors", "why_tests_cant": "Ranges over infinitely many shapes, ranks, numbers of cores and real entries; the tests sample a handful of random tensors with d<=4.", "anchors": ["t3f/kronecker.py: inv"]}
{"id": "C29", "title": "Kronecker Cholesky", "statement": "For rank-1 TT-matrices (or batches) with symmetric positive-definite cores, full(cholesky(A)) full(cholesky(A))^T = full(A) and full(cholesky(A)) is lower triangular with positive diagonal. A symmetric core that is not positive definite raises InvalidArgumentError, even if full(A) is positive definite as for (-1) x (-1). The entries above the diagonals of the cores are never read: the call succeeds exactly if the symmetric matrices with the lower triangles of the cores are positive definite and then factorizes their Kronecker product, so a nonsymmetric matrix can be accepted silently; full(L) full(L)^T = full(A) holds exactly if all cores are symmetric positive definite.", "quantifier": "all Kronecker products of square factors", "why_tests_cant": "Ranges over infinitely many shapes, ranks, numbers of cores and real entries; the tests sample a handful of random tensors with d<=4.", "anchors": ["t3f/kronecker.py: cholesky"]}
{"id": "C30", "title": "Orthogonalization preserves the tensor and orthogonalizes the cores", "statement": "orthogonalize_tt_cores(tt) (left-to-right for tensors, matrices and batches; right-to-left without batches) represents the same full tensor; all cores but the last (first) have orthonormal unfoldings; new ranks never exceed the old ones; the result is well formed. Right-to-left on a batch raises NotImplementedError.", "quantifier": "all TT objects with positive mode sizes, both directions, every QR routine meeting the standard contract", "why_tests_cant": "Ranges over infinitely many shapes, ranks, numbers of cores and real entries; the tests sample a handful of random tensors with d<=4.", "anchors": ["t3f/decompositions.py: orthogonalize_tt_cores, _orthogonalize_tt_cores_left_to_right, _orthogonalize_batch_tt_cores_left_to_right, _orthogonalize_tt_cores_right_to_left"]}
{"id": "C31", "title": "round respects max_tt_rank and is exact when the rank suffices", "statement": "round(tt, max_tt_rank) keeps shape and batch size, has every inner TT-rank at most its bound and at most the old rank, and represents exactly the same tensor whenever that tensor has some tensor train representation within the bounds.", "quantifier": "all TT objects with positive mode sizes (tensors, matrices, batches), all rank bounds (a number, or a list for non-batches), every QR and SVD routine meeting the standard contract", "why_tests_cant": "Ranges over infinitely many shapes, ranks, numbers of cores and real entries; the tests sample a handful of random tensors with d<=4.", "anchors": ["t3f/decompositions.py: round, _round_tt, _round_batch_tt"]}
{"id": "C32", "title": "round error bound", "statement": "For T=full(tt) and X=full(round(tt,r)): ||T-X||^2 = ||T||^2-||X||^2 in every batch item, and ||T-X||^2 is at most the sum over the d-1 cuts of the squared distance of T to any tensor train within the bound at that cut; so round is within the factor sqrt(d-1) of the best approximation of those ranks.", "quantifier": "all TT objects with positive mode sizes, all rank bounds, all competitors, every QR and SVD routine meeting the standard contract", "why_tests_cant": "A quantitative bound for all inputs.", "anchors": ["t3f/decompositions.py: round, _round_tt, _round_batch_tt"]}
{"id": "C33", "title": "to_tt_tensor / to_tt_matrix", "statement": "full(to_tt_tensor(X, max_tt_rank)) has the shape of X and ranks at most the bounds; it equals X whenever X has a tensor train representation within the bounds; the error satisfies ||X-Y||^2=||X||^2-||Y||^2 and is within the factor sqrt(d-1) of the best approximation. to_tt_matrix likewise with the given raw shape.", "quantifier": "all dense tensors with at least two axes of positive sizes (one axis: TypeError), all rank bounds, every SVD routine meeting the standard contract", "why_tests_cant": "Ranges over infinitely many shapes, ranks, numbers of cores and real entries; the tests sample a handful of random tensors with d<=4.", "anchors": ["t3f/decompositions.py: to_tt_tensor, to_tt_matrix"]}
{"id": "C34", "title": "Rank bound argument validation", "statement": "max_tt_rank<1 or a list of wrong length raises ValueError in round / to_tt_tensor; so do the documented np.inf, a list for a batch, and epsilon<0; the default None raises TypeError; a nonnegative epsilon (documented as accuracy control) never influences the result.", "quantifier": "all rank bounds and epsilons", "why_tests_cant": "Non-interference of an argument is a claim about all values.", "anchors": ["t3f/decompositions.py: round, to_tt_tensor"]}
{"id": "C35", "title": "approximate.add_n", "statement": "add_n(list, r) handles every non-empty list; for two or more summands the ranks are <= r; it equals the sum of all summands, each used exactly once, whenever the partial sums of its binary summation tree can be represented within the rank bound (in particular if r is at least the sum of the ranks). A one-element list is returned unrounded, an empty one raises IndexError.", "quantifier": "all non-empty lists of TT objects of one shape and batch size with at least two modes, of positive sizes", "why_tests_cant": "Ranges over infinitely many shapes, ranks, numbers of cores and real entries; the tests sample a handful of random tensors with d<=4.", "anchors": ["t3f/approximate.py: add_n"]}
{"id": "C36", "title": "approximate.reduce_sum_batch", "statement": "reduce_sum_batch(b, r, coef) has ranks <= r for batches of two or more, and is the (weighted) sum over the batch whenever the partial sums of its tree can be represented within the rank bound, for every batch size (not only powers of two), for no coefficients, a vector of coefficients, and a matrix of coefficients (one output per column). Coefficients of another number of axes, or a matrix with the wrong number of rows, raise ValueError.", "quantifier": "all batches, all coefficients", "why_tests_cant": "Ranges over infinitely many shapes, ranks, numbers of cores and real entries; the tests sample a handful of random tensors with d<=4.", "anchors": ["t3f/approximate.py: reduce_sum_batch"]}
{"id": "C37", "title": "project is the orthogonal projection onto the tangent space", "statement": "For every point where (at least two cores, any ranks) there is a linear space that contains where such that project(what, where) lies in it and the residual is orthogonal to it, for every item of a batch; so the map is linear, idempotent and self-adjoint, gives the nearest element of the space, and project(x,x)=x. If where is nonzero and has minimal ranks, the space is the tangent space (sums of copies of where with one core replaced). A call succeeds exactly if where is a single object with at least two cores and the raw shapes agree.", "quantifier": "all TT-tensors/matrices what and where of equal raw shape", "why_tests_cant": "Ranges over infinitely many shapes, ranks, numbers of cores and real entries; the tests sample a handful of random tensors with d<=4.", "anchors": ["t3f/riemannian.py: project, project_sum"]}
{"id": "C38", "title": "project_sum equals the projection of the (weighted) sum", "statement": "For where with at least two cores, project_sum(batch, where, weights) = sum_i weights_i project(batch_i, where); weights may be omitted (all 1), a vector with one number per item, or a matrix with at least two columns (one result per column). All other weights, also a matrix with one column, raise. A call succeeds exactly if the weights are accepted, where is a single object with at least two cores and the raw shapes agree.", "quantifier": "all batches and weights", "why_tests_cant": "Ranges over infinitely many shapes, ranks, numbers of cores and real entries; the tests sample a handful of random tensors with d<=4.", "anchors": ["t3f/riemannian.py: project_sum"]}
{"id": "C39", "title": "project_matmul", "statement": "For TT-matrices with at least two cores, project_matmul(what, where, M) = project(matmul(M, what), where) for batches what and square TT-matrices M. A call succeeds exactly if where is a single TT-matrix with at least two cores, what is a batch of the same raw shape, M is not a batch, the leading sizes of M are the row sizes of where on both sides and its rank behind these cores is one; so a non-batch what and TT-tensors raise although documented, and further cores of M are silently ignored.", "quantifier": "all batches, all TT-matrices", "why_tests_cant": "Ranges over infinitely many shapes, ranks, numbers of cores and real entries; the tests sample a handful of random tensors with d<=4.", "anchors": ["t3f/riemannian.py: project_matmul"]}
{"id": "C40", "title": "add_n_projected", "statement": "For tangent-space elements produced by project, project_sum, project_matmul or add_n_projected for the same point of minimal ranks (more generally if at every place the rank of the left orthogonalization exceeds the rank of the right one by at most one), add_n_projected(list, coefs) is the weighted sum, with ranks not growing. For every point with two cores that violates the condition there is a pair of projections for which the returned object is not the sum. Objects of different points raise ValueError.", "quantifier": "all lists of tangent elements over one point, all coefficients", "why_tests_cant": "Ranges over infinitely many shapes, ranks, numbers of cores and real entries; the tests sample a handful of random tensors with d<=4.", "anchors": ["t3f/riemannian.py: add_n_projected"]}
{"id": "C41", "title": "pairwise_flat_inner_projected", "statement": "For projections onto the same tangent space at a point of minimal ranks (more generally if at every place the rank of the left orthogonalization exceeds the rank of the right one by at most one), pairwise_flat_inner_projected(a,b)[i,j] = <full(a)[i], full(b)[j]>. If the condition fails at one place, the product of every projection with itself is at least one, even for the zero tensor.", "quantifier": "all batches of projected tensors", "why_tests_cant": "Ranges over infinitely many shapes, ranks, numbers of cores and real entries; the tests sample a handful of random tensors with d<=4.", "anchors": ["t3f/riemannian.py: pairwise_flat_inner_projected"]}
{"id": "C42", "title": "deltas <-> tangent space element", "statement": "deltas_to_tangent_space(deltas, tt) represents sum_k U..U delta_k V..V and tangent_space_to_deltas recovers the deltas, for points of minimal ranks and more generally if the ranks of the two orthogonalizations agree (the last one may differ by one). If an earlier rank differs the call fails, and if the last one differs by two or more the recovered deltas have other shapes.", "quantifier": "all points and delta lists", "why_tests_cant": "Ranges over infinitely many shapes, ranks, numbers of cores and real entries; the tests sample a handful of random tensors with d<=4.", "anchors": ["t3f/riemannian.py: tangent_space_to_deltas, deltas_to_tangent_space"]}
{"id": "C43", "title": "Riemannian gradient is the projected Euclidean gradient", "statement": "For a nonzero point x with minimal ranks and at least two cores, autodiff.gradients(f,x) = project(grad f (full x), x) for f depending on x through the represented tensor, and hessian_vector_product(f,x,z) = project(H project(z,x), x). The call fails if the runtime check is on and f(x) = 0, if the ranks of the two orthogonalizations of x differ, and for one core.", "quantifier": "all differentiable f given by their Euclidean gradient; all x", "why_tests_cant": "Quantifies over functions.", "anchors": ["t3f/autodiff.py: gradients, _enforce_gauge_conditions"]}
{"id": "C44", "title": "utils.unravel_index", "statement": "unravel_index inverts row-major raveling: for every shape and flat index n < prod(shape), the result is a valid multi-index whose row-major position is n; larger indices are taken modulo prod(shape) without an error.", "quantifier": "all shapes and flat indices", "why_tests_cant": "All integers.", "anchors": ["t3f/utils.py: unravel_index"]}
{"id": "C45", "title": "Shape cleaning", "statement": "clean_raw_shape maps a list of d>=2 sizes to one row and a pair of lists of length d>=2 (none of the lists degenerate) to two rows unchanged. For one-dimensional objects it misbehaves: a pair of one-element lists becomes a single row of two (a TT-matrix shape becomes a 2-D tensor shape) and a one-element list raises TypeError.", "quantifier": "all shape arguments", "why_tests_cant": "All shapes.", "anchors": ["t3f/shapes.py: clean_raw_shape"]}
{"id": "C46", "title": "Batch broadcasting decision", "statement": "is_batch_broadcasting_possible is true exactly if one object is not a batch, or both sizes are known and equal, or one of the sizes is known to be 1; two unknown sizes never broadcast; it is symmetric.", "quantifier": "all (possibly unknown) batch sizes", "why_tests_cant": "All sizes.", "anchors": ["t3f/shapes.py: is_batch_broadcasting_possible"]}
{"id": "C47", "title": "expand_batch_dim / squeeze_batch_dim", "statement": "expand_batch_dim(tt) is a batch of size 1 representing tt, squeeze_batch_dim undoes it and is the identity on batches of size different from 1.", "quantifier": "all TT objects", "why_tests_cant": "Ranges over infinitely many shapes, ranks, numbers of cores and real entries; the tests sample a handful of random tensors with d<=4.", "anchors": ["t3f/shapes.py: expand_batch_dim, squeeze_batch_dim"]}
{"id": "C48", "title": "Variables", "statement": "get_variable(initializer) (eager mode) creates one new variable per core, the result is the initializer's tensor and no older variable changes. assign(ref, value) with the same shape, ranks and batch size makes the variable represent value, returns an object made of the same variables, and changes no other variable; after any sequence of assignments the variable represents the last value. A value of the same kind with another shape or ranks and not more cores is rejected with ValueError or IndexError, but not atomically: an initial part of the cores is already overwritten. Found: a value with more cores can be accepted silently and gives an ill-formed object; swapping two variables of one object by assign loses one value; a missing initializer raises AttributeError, not ValueError; a regularizer that returns a loss makes get_variable fail.", "quantifier": "all stores, variables, values and sequences of assignments", "why_tests_cant": "All sequences of assignments.", "anchors": ["t3f/variables.py: get_variable, assign"]}
{"id": "C49", "title": "KerasDense forward pass", "statement": "KerasDense.call(x) = activation(x full(W) + b) for every number of rows of x and any current values of the weights; the constructor (at least two dimensions) creates only new variables, W is the named kernel initializer's matrix (uncorrelated elements of mean zero, variance 2/(m+n) for glorot, 2/m for he, 1/m for lecun, for m+n below 2^63), b is constant, and compute_output_shape is the shape of the result. Unknown kernel_initializer or inadmissible shapes raise ValueError; an unknown activation is noticed in call only. Found: with one-dimensional input_dims/output_dims the constructor succeeds but every call raises ValueError.", "quantifier": "all inputs, weights, biases", "why_tests_cant": "Ranges over infinitely many shapes, ranks, numbers of cores and real entries; the tests sample a handful of random tensors with d<=4.", "anchors": ["t3f/nn.py: KerasDense"]}
{"id": "C50", "title": "Regularizers", "statement": "l2_regularizer(scale)(tt) = scale * ||full(tt)||^2 for float scale > 0 (TF1 API), 0.0 gives no loss, scale<0 or integer scale raise ValueError; cores_regularizer sums the core penalty over cores. With the TF2 API of the pinned code every application raises TypeError (tf.name_scope with two arguments) and scale 0.0 raises AttributeError (tf.logging).", "quantifier": "all scales, all TT objects", "why_tests_cant": "All scales and tensors.", "anchors": ["t3f/regularizers.py: l2_regularizer, cores_regularizer"]}
{"id": "C51", "title": "Expressions of any depth: types, well-formedness and values", "statement": "A program of any depth built from +, -, unary -, elementwise *, number *, matmul, transpose, orthogonalize_tt_cores, renormalize_tt_cores, expand_batch_dim, squeeze_batch_dim and a[k] over well-formed objects raises exactly if a simple type computation (shapes and batch sizes) says so; otherwise its result is well-formed (cores form a chain with boundary ranks 1, and shape, ranks and batch size are those of the cores), has the computed shape and batch size, and full(result) is the dense computation the program stands for, item by item of the batch.", "quantifier": "all expressions of any depth over the modelled operations", "why_tests_cant": "Induction over expression depth.", "anchors": ["t3f/ops.py", "t3f/tensor_train.py", "t3f/tensor_train_batch.py"]}
{"id": "C52", "title": "Algebraic laws of composed expressions", "statement": "On represented tensors, whenever both sides run: add and elementwise multiply are commutative and associative, multiply distributes over add, matmul is associative and bilinear, transpose(matmul(A,B)) = matmul(transpose(B), transpose(A)), transpose is linear and an involution, flat_inner is symmetric and bilinear, ||a||^2 = flat_inner(a,a) with both implementations of the norm.", "quantifier": "all compatible TT objects", "why_tests_cant": "Ranges over infinitely many shapes, ranks, numbers of cores and real entries; the tests sample a handful of random tensors with d<=4.", "anchors": ["t3f/ops.py"]}
{"id": "C53", "title": "Batch of size one is silently collapsed", "statement": "matmul, flat_inner, bilinear_form, gram_matrix and pairwise_flat_inner on batches of size n return one result per batch element (batch axis of size n) if n is not 1; for n = 1 the batch axis is squeezed away, so the general claim is false.", "quantifier": "all batch sizes", "why_tests_cant": "The claim covers all batch sizes, the failing one is untested.", "anchors": ["t3f/ops.py: tt_tt_matmul, tt_tt_flat_inner, bilinear_form", "t3f/batch_ops.py: gram_matrix"]}
{"id": "C54", "title": "Shape accessors agree", "statement": "For every valid object (with fewer than 2^31 rows and columns if it is a matrix, see C87), tt_ranks, raw_shape, shape and batch_size (which look at the cores), the lazy_ versions, the get_ methods and the shape of full all agree, for tensors, matrices and batches; batch_size and lazy_batch_size raise ValueError for a TensorTrain.", "quantifier": "all valid TT objects, static shape known or not", "why_tests_cant": "The dynamic accessors carry a TODO saying they are untested; the claim covers all shapes, ranks and batch sizes.", "anchors": ["t3f/shapes.py: tt_ranks, shape, raw_shape, batch_size, lazy_tt_ranks, lazy_shape, lazy_raw_shape, lazy_batch_size", "t3f/tensor_train_base.py: get_shape, get_raw_shape, get_tt_ranks"]}
{"id": "C55", "title": "Replacing TensorFlow's SVD by NumPy's keeps the contract", "statement": "After replace_tf_svd_with_np_svd(), tf.linalg.svd(A) for a matrix or a batch of matrices returns (s, u, v) with the contract of TensorFlow's function: orthonormal columns of u and v, nonnegative non-increasing s, A = u diag(s) v^T; so everything proved about round and to_tt_tensor still holds. Calling it again changes nothing and keeps the original routine. Asking for singular values only (compute_uv=False) always fails.", "quantifier": "all matrices and batches of matrices, all correct NumPy routines", "why_tests_cant": "No test calls it; the claim covers all matrices.", "anchors": ["t3f/utils.py: replace_tf_svd_with_np_svd"]}
{"id": "C56", "title": "Riemannian gradient descent of the tutorial", "statement": "The loop assign(X, round(X - alpha * project(X - A, X), max_tt_rank=r)) of the tutorial never fails for any number of iterations if the ranks of X are the bounds and fit the mode sizes (each rank at most what the neighbouring core can carry), keeps shape and ranks of X, changes nothing but X, and returns half of the squared distance to A. Before the retraction the squared distance decreases by alpha (2 - alpha) ||P||^2 with P the Riemannian gradient; the retraction is quasi-optimal; stationary points are fixed. If a rank of X is larger than the unfolding allows, step raises ValueError. The functional is not guaranteed to decrease: with alpha = 1 there are X, A where it increases.", "quantifier": "all tensors, step sizes, numbers of iterations, correct QR and SVD routines", "why_tests_cant": "An invariant of a loop with any number of iterations, for all inputs; tests run one configuration.", "anchors": ["docs/tutorials/riemannian.ipynb", "t3f/riemannian.py: project", "t3f/decompositions.py: round", "t3f/variables.py: assign"]}
{"id": "C57", "title": "Riemannian derivatives of functions written with the library", "statement": "For a non-batch x with minimal ranks: gradients of 0.5*flat_inner(x, w)**2 is project(w, x)*flat_inner(x, w); of bilinear_form(A, x, x) is project(matmul(transpose(A)+A, x), x); of 0.5*frobenius_norm_squared(x - w, differentiable=True) is project(x - w, x). hessian_vector_product with z gives project(w*flat_inner(project(z, x), w), x), project(matmul(transpose(A)+A, project(z, x)), x) and project(z, x). With the runtime check the value of the function at x must not be zero.", "quantifier": "all x with minimal ranks and at least two modes, all w, A, z of matching shapes and any ranks, all correct QR and automatic differentiation routines", "why_tests_cant": "autodiff_test.py compares the two sides for one random x, w, A of one shape; its Hessian test of the bilinear form compares the wrong function (func1 twice), so that formula is never tested.", "anchors": ["t3f/autodiff.py: gradients", "t3f/autodiff.py: hessian_vector_product", "t3f/autodiff_test.py", "t3f/ops.py: bilinear_form", "t3f/ops.py: flat_inner"]}
{"id": "C58", "title": "TT-ranks of decompositions are determined by shapes and bounds", "statement": "to_tt_tensor and to_tt_matrix return TT-ranks r_{k+1} = min(max_tt_rank_{k+1}, r_k n_k, n_{k+1}...n_{d-1}) exactly (row size times column size for matrices), whatever the data and epsilon: two tensors of the same shape get the same ranks, and bounds that are large enough give the ranks of a generic tensor even for a rank-one tensor. With one bound r all inner ranks are r iff the first and last modes have at least r elements. round reduces ranks to min(bound, rank after orthogonalization, n_k r_{k+1}); rounding again with the same single bound keeps the ranks, with a list of bounds it may reduce them further.", "quantifier": "all tensors, shapes with at least two modes, bounds, epsilon, correct QR and SVD routines", "why_tests_cant": "Tests look at the ranks of a few tensors of a few shapes; data independence and the exact formula quantify over all of them.", "anchors": ["t3f/decompositions.py: to_tt_tensor", "t3f/decompositions.py: to_tt_matrix", "t3f/decompositions.py: round"]}
{"id": "C59", "title": "Weights of the Keras layer and compression of a dense layer", "statement": "The weights of KerasDense are its cores in order, then the bias; their number of elements is sum r_k I_k J_k r_{k+1} + prod J. set_weights(list(w.tt_cores) + [bias]) with a TT-matrix w of the layer's shape makes the layer multiply with w and add the bias if the TT-ranks agree, and otherwise raises ValueError and changes nothing. With w = to_tt_matrix(W) the layer then deviates from the dense layer x W + bias by at most ||x||^2 (d-1) ||W - F||^2 (squared, before activation) for every F within the rank bounds, and not at all if W is within the bounds. For tt_rank = max_tt_rank = r this works iff the first and last pair of dimensions have at least r elements, otherwise set_weights raises ValueError.", "quantifier": "all layers with at least two dimensions, weights, biases, inputs, rank bounds, correct SVD routines", "why_tests_cant": "The recipe is in a tutorial without tests; the error bound is over all matrices and inputs, and the failure for too large ranks only shows for particular dimensions.", "anchors": ["t3f/nn.py: KerasDense", "t3f/decompositions.py: to_tt_matrix", "docs/tutorials/tensor_nets.ipynb"]}
{"id": "C60", "title": "Rounding is a best approximation for two modes, and not for three", "statement": "The quick start promises that t3f.round 'finds the tensor that is of a smaller rank but is as close to the original one as possible'. For objects with two cores (tensors, TT-matrices and every item of a batch) this is true: no tensor train of the same shape whose TT-rank is within the bound is closer in Frobenius norm than the result of round; the same holds for to_tt_tensor of a dense matrix. With three modes it is false: there is a tensor of shape (2, 2, 2) such that, whatever correct QR and SVD routines TensorFlow uses, round(t, max_tt_rank=1) has squared error at least 41, while another tensor train with all TT-ranks one has squared error 32.", "quantifier": "for two cores: all well-formed objects, all bounds, all correct QR and SVD routines, all competitors; for three cores: one tensor, all correct QR and SVD routines", "why_tests_cant": "Optimality compares the result with infinitely many competitors, and the failure has to be shown for every sign and basis choice of the factorization routines.", "anchors": ["docs/quick_start.ipynb", "t3f/decompositions.py:198-316", "t3f/decompositions.py:102-196"]}
{"id": "C61", "title": "Losses of the tensor completion tutorial", "statement": "gather_nd-based loss reduce_mean((gather_nd(x, idx) - obs)**2) is the mean over observations of the squared error of the entries of full(x); the masked dense loss is the mean over observed cells; the two agree whenever the observed cells are pairwise different. The test loss is the mean squared error over all cells and is zero iff full(x) is the ground truth. If one cell is drawn twice with different values a and b among c observations, the loss of every estimate of any rank is at least (a - b)^2 / (2 c). The tutorial draws 10000 of 10^7 cells with repetition and states the probability of duplicates as 10^(-14); it is above 99%.", "quantifier": "all TT-tensors, index arrays, masks, observations; for duplicates all numbers of draws and cells", "why_tests_cant": "The equivalence of two loss functions holds for all estimates and index sets; tutorials have no tests, and the duplicate probability is a statement about all draws.", "anchors": ["docs/tutorials/tensor_completion.ipynb", "t3f/ops.py: gather_nd", "t3f/ops.py: full"]}
{"id": "C62", "title": "Training the cores with a mean squared error", "statement": "full is linear in every single core (tensors, matrices, batches). For a mean squared error over observed cells (both losses of the completion tutorial), the gradient with respect to core k exists, is unique, and is (2/c) sum over observations of the error times the element with a unit tensor in place of the core. It vanishes exactly when no other choice of that one core has a smaller loss. The inner product of gradient and core is the same number for all cores. If no observed cell has index i in mode k, the gradient is zero on slice i of core k, so any elementwise optimizer that does not move elements with zero gradients (SGD, momentum, Adam) leaves that slice at its initial value for ever: entries in a slice without observations are never learned.", "quantifier": "all TT-tensors, cores, directions, observation sets, values, numbers of steps", "why_tests_cant": "Statements over all directions and all optimization runs; numerical gradients check finitely many points.", "anchors": ["docs/tutorials/tensor_completion.ipynb", "t3f/ops.py: full", "t3f/ops.py: gather_nd"]}
{"id": "C63", "title": "Programs with variables: values, ranks, snapshots and aliases", "statement": "A straight-line program which binds names to TT-expressions (sum, difference, products, matmul, transpose, orthogonalization, renormalization, expand/squeeze, item of a batch), creates TT-variables and assigns to them runs without exception if it makes sense for ordinary dense arrays with a rank calculus, and then every name has the predicted shape, batch size, exact TT-ranks and elements, and there is one TF variable per core of every TT-variable. A statement that makes no sense raises. A name bound to a computed value is a snapshot that later assignments never change; two names of one variable are the same object, names of different variables share no core. The exceptions are documented nowhere: squeeze_batch_dim of anything but a size-one batch and expand_batch_dim of a batch return their argument, so their result follows later assignments. assign(x, x + e) and assign(x, x - e) always raise, because the ranks grow.", "quantifier": "all programs of any length, all objects, all names", "why_tests_cant": "Interleavings of assignments and reads over programs of any length; tests cover single assignments.", "anchors": ["t3f/variables.py: get_variable", "t3f/variables.py: assign", "t3f/shapes.py: squeeze_batch_dim", "t3f/shapes.py: expand_batch_dim", "t3f/ops.py: add", "t3f/ops.py: multiply", "t3f/tensor_train.py: __init__"]}
{"id": "C64", "title": "Multiplication by a Python number in double precision", "statement": "multiply(tt, c) (also c * tt) of an object of type float64 with a Python float c multiplies by c rounded to float32: tf.abs(c) and tf.sign(c) convert the number before the cast to the type of the object. So the product is exact only if c has a 24 bit mantissa; for 1/3, 0.7 or any other fraction with a denominator that is no power of two it is not, and for 0.1 every element has a relative error of at least 1e-8, although all other arithmetic is exact. Numbers with a type of their own (np.float64, tensors) are not affected, nor are negation and subtraction.", "quantifier": "all objects, all numbers, all rounding modes of the conversion", "why_tests_cant": "The tests use tolerances for float32 and small integers; the statement is about all numbers and any conversion.", "anchors": ["t3f/ops.py: multiply", "t3f/tensor_train_base.py: __mul__", "t3f/tensor_train_base.py: __neg__"]}
{"id": "C65", "title": "Operations inside tf.function with batches of unknown size", "statement": "While a tf.function is traced, batches may have an unknown (None) static size. For TT objects with statically known mode sizes and TT-ranks: (1) full of such a batch gives the dense tensors; full of a batch whose size is a symbolic tensor raises NotImplementedError. (2) add works exactly for two non-batches, known compatible sizes, a batch (size not known to be one) plus a non-batch, and a batch of unknown size with a batch of static size one; the result represents the sum for every actual size and agrees with eager mode. The result of an addition that involves an unknown size is unusable for full, add, matmul, flat_inner and products with batches: they always raise. (3) multiply works for unknown sizes too, if two batches of unknown size have the same actual size (checked at run time; no broadcasting then, unlike eager mode), agrees with eager mode, and full can be applied to the result. (4) matmul and flat_inner work for an unknown size combined with a non-batch or a batch of static size one, and raise for two batches of unknown size. (5) Products with a dense matrix of partially unknown static shape equal the eager products; a wrong number of rows of a nonempty matrix always raises, although the check is skipped; unknown rank raises ValueError. KerasDense called with an unknown number of rows computes what it computes eagerly.", "quantifier": "all TT objects with static sizes that describe them, all actual batch sizes, all dense matrices and static shapes", "why_tests_cant": "The tests trace a few functions with one batch size each; the claim is about every actual size a traced function may meet and every combination of static knowledge, and that unsupported combinations fail for all values.", "anchors": ["t3f/ops.py: full, add, multiply, tt_tt_matmul, tt_tt_flat_inner, tt_dense_matmul, dense_tt_matmul", "t3f/shapes.py: lazy_batch_size, is_batch_broadcasting_possible, squeeze_batch_dim, expand_batch_dim", "t3f/tensor_train_batch.py: __init__, get_shape", "t3f/nn.py: KerasDense.call"]}
{"id": "C66", "title": "Documented complexity of inner products", "statement": "flat_inner, pairwise_flat_inner and gram_matrix (with and without a matrix), and bilinear_form contract their arguments core by core with tf.einsum. If the pairwise contraction order of each einsum call needs at most kappa times as many multiplications as the best order (kappa = 1: optimal order), the number of multiplications is within the documented bounds for all valid arguments: flat_inner at most 2 kappa batch_size d r1 r2 n max(r1, r2); pairwise_flat_inner at most 2 kappa p q d r1 r2 n max(r1, r2) for batches of p and q elements, gram_matrix 2 kappa B^2 d r^3 n; with a matrix at most kappa p q d R r1 r2 (n r1 + n m R + m r2); bilinear_form at most kappa B d r_A r_b r_c (n r_b + n m r_A + m r_c). Whatever the order, flat_inner needs at most 2 batch_size d r1^2 r2^2 n. With tf.einsum's default greedy order, which compares the sizes of intermediate results, the documented bound O(d r^3 n) of flat_inner is false: if r^2 + 1 < 2 n the two cores are contracted first and the step needs at least n r^4 multiplications, so no constant works.", "quantifier": "all TT objects, all ranks, modes, batch sizes, all contraction strategies", "why_tests_cant": "Tests run a few sizes and do not count operations; the claim is about growth for all ranks and mode sizes and about every contraction order.", "anchors": ["t3f/ops.py: tt_tt_flat_inner, bilinear_form", "t3f/batch_ops.py: pairwise_flat_inner, gram_matrix"]}
{"id": "C67", "title": "Documented complexity of orthogonalization and of projections", "statement": "Counting one operation per multiplication of entries in a contraction or matrix product, per subtraction or addition of entries, and m n min(m, n) operations for the QR decomposition of an m x n matrix: orthogonalize_tt_cores needs at most 2 batch_size d r^3 n operations (both directions). If the contraction order of each einsum call is at most kappa times as expensive as the best, project and project_sum without weights need at most 4 d r_where^3 n + (2 kappa + 2) batch_size d r_what r_where n (r_what + r_where); project_matmul at most 4 d r_where^3 m l + (3 kappa + 2) batch_size d R r_what r_where l (m r_what + m m R + m r_where), where l bounds the column modes (1 for TT-vectors). pairwise_flat_inner_projected needs at most 3 B1 B2 d r^2 n whatever the order. The documentation of project_sum is wrong if weights with o columns are given: batch_size o d r_where^2 n operations are added in the upper bound, at least batch_size o n are needed whatever the order, so for fixed what and where the count is unbounded in o. With tf.einsum's default greedy order the documented bound of project is false too: a core of the size r x n x r with r^2 + 1 < 2 n costs at least n r^4, so no constant works.", "quantifier": "all valid TT objects, all ranks, modes, batch sizes, weights, all contraction strategies, every correct QR routine", "why_tests_cant": "Tests run a few sizes and do not count operations; the claim is about growth for all ranks and mode sizes and about every contraction order.", "anchors": ["t3f/decompositions.py: orthogonalize_tt_cores", "t3f/riemannian.py: project, project_sum, project_matmul, pairwise_flat_inner_projected"]}
{"id": "C68", "title": "Accuracy in floating point arithmetic", "statement": "Suppose every addition, multiplication or fused multiply-add of tf.matmul and tf.einsum returns the exact result with a relative error of at most u (u = 2^-24 for float32, 2^-53 for float64; no overflow or underflow), and sums of products may be computed in any order. Then (1) full computes every element with an error of at most (1+u)^N - 1 times the same element for the absolute values of the cores, where N is the sum of the inner TT-ranks: the accuracy does not depend on the mode sizes. (2) A program of sums, differences, signs, elementwise products, products with numbers, matrix products, transposes and operations on the batch axis, of any depth, raises exactly if it does in exact arithmetic; otherwise shape, ranks and batch size are the same, and every element of the dense form of the result has an error of at most (1+u)^N - 1 times the element of the same program on absolute values (with sums for differences); N adds, for each core, one for every elementwise product, q + 1 for every product with a number c (if the computed root |c|^(1/d) has an error of q roundings), the summed mode size for every matrix product, and the inner ranks of the result; sums and signs cost nothing. (3) flat_inner and frobenius_norm_squared(differentiable=True) have an error of at most (1+u)^N - 1 times their value for absolute values, with N = sum of rank*rank*mode size over the cores + d - 1, and the same for results of programs. (4) Without differences and negative numbers the relative error of each element is at most (1+u)^N - 1 <= N u / (1 - N u).", "quantifier": "all TT objects, programs of any depth, all arithmetics with unit roundoff u, all summation orders", "why_tests_cant": "Tests compare a few random examples with a tolerance; a bound for all inputs, all depths and all summation orders cannot be sampled.", "anchors": ["t3f/ops.py: full", "t3f/ops.py: add", "t3f/ops.py: multiply", "t3f/ops.py: tt_tt_matmul", "t3f/ops.py: tt_tt_flat_inner", "t3f/ops.py: frobenius_norm_squared"]}
{"id": "C69", "title": "The differentiable norm of a small difference can be NaN", "statement": "In single precision (rounding to the nearest number with 24 binary digits, no overflow or underflow), whatever the rounding of ties and the order of the contractions, frobenius_norm_squared(a - b, differentiable=True) of the tensors a, b of shape (1, 1) with the elements 11591 and 11590 is -16 although the true value is 1, so the error is 17 times the value and frobenius_norm(a - b, epsilon, differentiable=True) is NaN for every epsilon < 16 (the default is 1e-5). Conversely, if the error bound of C68, ((1+u)^N - 1) times the squared norm for the absolute values of the cores, is at most the squared norm plus epsilon, the result is a number; for nonnegative cores this holds for every epsilon >= 0 as long as (1+u)^N <= 2.", "quantifier": "all roundings to nearest in single precision and all contraction orders for the negative part; all TT objects, arithmetics and summation orders for the positive part", "why_tests_cant": "Tests use random tensors that are far from each other; cancellation shows up only for special pairs, and its absence has to be shown for all other inputs.", "anchors": ["t3f/ops.py: frobenius_norm", "t3f/ops.py: frobenius_norm_squared"]}
{"id": "C70", "title": "When results depend on the QR and SVD routines", "statement": "QR and singular value decompositions are not unique, and devices return different factors. For all routines that return correct factors: (1) round replaces the tensor at the cuts d-1, ..., 1, one after another, by a nearest tensor (in Frobenius norm) whose TT-rank at the cut is within max_tt_rank; to_tt_tensor and to_tt_matrix do this at the cuts 1, ..., d-1. For batches this holds for every item. (2) If the nearest tensors are unique at every step, the represented tensor of the result does not depend on the routines (nor on epsilon); this includes all tensors that have a representation within the bounds. They are unique if at every cut that is truncated the last singular value that is kept is larger than the first one that is dropped, and then the result is the tensor that keeps the largest singular values at each cut. (3) With two cores the error never depends on the routines. (4) If there are ties the result does depend on them: for the 2 x 2 identity and max_tt_rank=1, to_tt_tensor and round give different tensors with different correct routines. (5) orthogonalize_tt_cores represents the same tensor with all routines. (6) project on the tangent space at a nonzero point with minimal ranks gives the same tensors with all routines; at a point whose ranks are not minimal it may not: for the zero tensor with TT-rank one and what = e1 x e1 the element (1, 1) of the projection is 1 for one correct routine and 0 for another.", "quantifier": "all correct QR and SVD routines, all TT objects and dense tensors, all bounds of the ranks", "why_tests_cant": "A test runs with one routine on one device; it can neither vary the factors nor find the inputs with ties.", "anchors": ["t3f/decompositions.py: round", "t3f/decompositions.py: to_tt_tensor", "t3f/decompositions.py: to_tt_matrix", "t3f/decompositions.py: orthogonalize_tt_cores", "t3f/riemannian.py: project"]}
{"id": "C71", "title": "TT objects with integer cores", "statement": "For TT objects with w-bit integer cores (tf.int32, tf.int64; arithmetic wraps around), a program of any depth built from +, elementwise *, matmul, transpose, expand_batch_dim, squeeze_batch_dim and a[k] raises exactly if the shapes and batch sizes do not fit; otherwise every element of full(result) is the exact integer result of the dense computation modulo 2^w in the range -2^(w-1), ..., 2^(w-1)-1. So an element whose exact value fits into the data type is exact, however large the cores and intermediate results are; one that does not fit is silently replaced. The same holds for flat_inner. Found: a - b, -a and number * a raise TypeError for all integer objects (tf.pow with exponent 1.0 / ndims).", "quantifier": "all word sizes, all programs of any depth, all integer TT objects and batches", "why_tests_cant": "Overflow of intermediate results depends on sizes, ranks and values; a test sees a few values, and cannot show that overflow never harms a result that fits.", "anchors": ["t3f/ops.py: add", "t3f/ops.py: multiply", "t3f/ops.py: matmul", "t3f/ops.py: full", "t3f/ops.py: flat_inner", "t3f/tensor_train_base.py: TensorTrainBase.__sub__", "t3f/tensor_train_base.py: TensorTrainBase.__neg__"]}
{"id": "C72", "title": "Backpropagation through orthogonalization and norms", "statement": "Under tf.GradientTape, orthogonalize_tt_cores(tt) can be backpropagated through if and only if, for every batch element and every k in 1..d-1, the product of the first k cores has linearly independent columns (for left_to_right=False: the product of the last d-k cores has independent rows); otherwise the gradient function of QR raises NotImplementedError or has no finite result (for two cores: NotImplementedError exactly if the rank exceeds the size of the first mode). frobenius_norm_squared(tt) and frobenius_norm(tt) with positive epsilon can be backpropagated through if and only if in addition no batch element is zero; with differentiable=True always. All work at nonzero single objects with minimal ranks. t3f.gradients of a function of frobenius_norm_squared(x) or of 0.5*frobenius_norm_squared(x - w) without differentiable=True fails at every point x, and with differentiable=True works at every x with minimal ranks and at least two modes.", "quantifier": "all TT objects with positive mode sizes, all ranks, all correct QR routines, all w", "why_tests_cant": "Whether a gradient exists depends on linear independence of products of cores, which random tests satisfy or violate depending only on the few shapes they use; the failure of gradients with the default norm must be shown for all points. docs/troubleshooting.rst mentions the NotImplementedError only for tensors with large ranks.", "anchors": ["t3f/decompositions.py: orthogonalize_tt_cores", "t3f/ops.py: frobenius_norm_squared, frobenius_norm", "t3f/autodiff.py: gradients", "docs/troubleshooting.rst"]}
{"id": "C73", "title": "TT objects with complex cores", "statement": "For TT objects with complex cores: programs made of +, -, unary minus, elementwise products, products with complex numbers, matmul, transpose, orthogonalize_tt_cores, expand/squeeze_batch_dim and indexing with an integer raise exactly for incompatible shapes and otherwise compute the dense result over the complex numbers. orthogonalize_tt_cores returns cores that are orthonormal with respect to the Hermitian inner product, in both directions, and keeps the tensor. frobenius_norm_squared(tt) is the sum of |z|^2 over the elements, but with differentiable=True it is the sum of z^2; the two agree exactly if all elements are real, and the latter (as flat_inner(tt, tt)) is 0 for a nonzero tensor. round and to_tt_tensor raise for every complex argument with at least two dimensions, renormalize_tt_cores raises always. A TT object with real cores times a complex number c is silently the product with Re(c). cast to a real type takes real parts of the cores, which is not the real part of the tensor. project does not conjugate either: for a nonzero two-core tensor x of TT-rank one whose rows and columns have squares that sum to zero, project(x, x) is 0 instead of x.", "quantifier": "all programs of any depth, all TT objects and batches with complex cores and positive mode sizes, all complex numbers, all correct QR routines", "why_tests_cant": "The test suite has only float32/float64 objects; correctness for complex data needs an argument for all tensors because flags that agree on all real tensors disagree on complex ones.", "anchors": ["t3f/ops.py: multiply, flat_inner, frobenius_norm_squared, frobenius_norm, renormalize_tt_cores, cast", "t3f/decompositions.py: round, to_tt_tensor, orthogonalize_tt_cores"]}
{"id": "C74", "title": "Errors of add_n and reduce_sum_batch", "statement": "add_n(tts, max_tt_rank) and reduce_sum_batch(tt, max_tt_rank, coef) add along a binary tree with ceil(log2 n) levels and round after every addition. The Frobenius distance of the result from the exact sum is at most the sum, over the additions of the tree, of sqrt(d-1) * (1 + sqrt(d-1))^k times the distance of the exact partial sum at that node from ANY tensor within the rank bound, where k is the number of levels above the node; so there is no error when all partial sums fit. The norm of the result is at most the sum of the norms of the summands. No bound in terms of the exact sum alone holds: add_n([M E00, E11, -M E00], 1) is 0 for every M > 1 although the exact sum E11 fits into the bound, and add_n([M E00, -M E00, E11], 1) is exact, so the result depends on the order of the arguments; reduce_sum_batch behaves in the same way.", "quantifier": "all numbers of summands, all shapes with at least two dimensions and positive modes, all batches and weights, all rank bounds, all approximations of the partial sums, all correct QR and SVD routines", "why_tests_cant": "Tests compare with the dense sum for ranks that are large enough; an error bound for truncating ranks quantifies over all inputs and all competing tensors of the given rank.", "anchors": ["t3f/approximate.py: add_n, reduce_sum_batch"]}
{"id": "C75", "title": "Exceptions and metadata do not depend on the data", "statement": "Take any program made of calls of the library (constructors, operators, ops, indexing, batch_ops, shapes, initializers, decompositions, approximate, riemannian, Kronecker functions) and elementwise TensorFlow arithmetic, and run it twice on inputs that have the same shapes, TT-ranks and batch sizes but arbitrary, different elements; also with different (even incorrect) QR and SVD routines and different random numbers. If the program does not use inv and cholesky, either both runs raise the same exception or both return, and then every computed value has the same shape, TT-ranks, batch size, core shapes and projection_on in both runs. With inv and cholesky this still holds for the metadata when both runs return, and exceptions differ only if one of them is InvalidArgumentError; for these two functions the exception does depend on the elements. In particular no TT-rank is ever chosen by looking at the elements (round and to_tt_* ignore them, unlike an epsilon-based rounding), so a run on zeros predicts shapes, ranks and exceptions of a run on real data.", "quantifier": "all programs of any length, all starting values, all elements, all QR/SVD routines returning the right shapes, all random draws", "why_tests_cant": "Quantifies over all programs and over pairs of runs; a test sees single runs of single functions.", "anchors": ["t3f/ops.py", "t3f/shapes.py", "t3f/batch_ops.py", "t3f/decompositions.py", "t3f/approximate.py", "t3f/riemannian.py", "t3f/initializers.py", "t3f/kronecker.py", "t3f/tensor_train.py", "t3f/tensor_train_batch.py"]}
{"id": "C76", "title": "gather_nd with index arrays that do not have two axes", "statement": "The documentation of gather_nd allows indices \"with 2 or more dimensions\" and promises tf.gather_nd(full(tt), indices). For a TT-tensor with d modes and indices of shape [n, m, ..., d] with at least three axes this does not hold. gather_nd returns exactly in these cases: all axes except the second and the last have size one and m = d, or d = 1 and the product of the sizes of these axes is at most one and m >= 1; and every number indices[o, k, ...] for k < d is a valid subscript of mode k (for d = 1 too). In all other cases it raises. When it returns, the shape of the result is the shape of the indices without the last axis, as documented, but the element at [o, j, ...] is the entry of the tensor at indices[o, 0, ..., j], indices[o, 1, ..., j], ...: columns are read instead of rows, so silently wrong elements are returned. A single index vector raises InvalidArgumentError, and a last axis of the wrong size raises ValueError for every number of axes. For batches and indices with three axes gather_nd returns only for one mode and indices of shape [1, 2, 2], and then the elements are the documented ones.", "quantifier": "all well-formed TT-tensors of any dimension and rank over any commutative ring, all index arrays of any number of axes with nonnegative entries", "why_tests_cant": "The tests use two axes only; when the call returns and when it raises depends on the broadcasting rules of every step of the loop over the modes and has to be shown for all shapes.", "anchors": ["t3f/ops.py: gather_nd"]}
{"id": "C77", "title": "Metadata stays correct in all programs", "statement": "Consider any program that calls the functions of the library one after the other on tensors, numbers and the TT-objects computed so far, and starts with objects whose metadata is correct. If it returns, every TT-object it computed has correct metadata: get_raw_shape, get_tt_ranks and batch_size are the sizes of the axes of its cores, neighbouring cores fit together, the boundary ranks are one, and the object is a TT-tensor or a TT-matrix or a batch of them; if no axis is empty then full returns a tensor of the shape that the object reports. This needs only these restrictions: a constructor that is called by the user gets one size per core, one rank more than cores, cores with the number of axes that belongs to the shape and, if no batch size is given, cores with equal batch sizes; no TT-matrix with one mode is made by an initializer or by ones_like and zeros_like; multiply_along_batch_dim of objects with one core gets a vector of weights; deltas_to_tangent_space is not applied to batches. None of the restrictions can be dropped: without them objects with wrong metadata are returned.", "quantifier": "all programs (any length, any of the modelled functions with any arguments), all start values with correct metadata, all QR and SVD routines, all random numbers", "why_tests_cant": "The results of functions are arguments of others in unboundedly many combinations, and the constructors check only a part of what they are told; the property has to be an invariant of every function for every input on which it returns, including inputs with empty axes, broadcast batches and one mode.", "anchors": ["t3f/tensor_train.py: _are_tt_cores_valid", "t3f/tensor_train_batch.py: _are_batch_tt_cores_valid", "t3f/shapes.py: clean_raw_shape", "t3f/ops.py", "t3f/initializers.py", "t3f/decompositions.py", "t3f/riemannian.py", "t3f/approximate.py", "t3f/batch_ops.py", "t3f/kronecker.py"]}
{"id": "C78", "title": "Orthogonalization and norms in floating point arithmetic", "statement": "Let the matrix products round with unit roundoff u, the QR decompositions have a backward error of eps and a loss of orthogonality of at most eps (Frobenius norm), and the norms of vectors and the squares have relative errors of at most eta. orthogonalize_tt_cores (both directions) of a well-formed object does not fail, keeps shape and batch size, does not increase TT-ranks, and all cores but the last (the first) are within eps of an orthonormal core. The distance of the result to the argument is at most ((1 + eps)^(2(d-1)) (1 + u)^(r_1 + ... + r_{d-1}) - 1) times the product of the Frobenius norms of the cores. frobenius_norm_squared (not differentiable) is never negative and is wrong by at most ((1 + eta)^3 (1 + eps)^(2(d-1)) (1 + u)^(2 (r_1 + ... + r_{d-1})) - 1) times the square of that product. If all cores of the argument but the last are orthonormal, the product is the norm of the tensor times the square root of the product of the TT-ranks. In general there is no bound relative to the norm of the tensor: the zero tensor, given by cores that cancel, can become a tensor with an element eps.", "quantifier": "all floating point arithmetics and orders of summation, all QR and norm routines within the error bounds, all well-formed TT-objects (tensors, matrices, batches) without empty modes", "why_tests_cant": "Tests compare a few tensors with a tolerance on one machine; the bound holds for every order of summation, every QR routine and every number of modes, and the loss of accuracy appears only for cores that cancel.", "anchors": ["t3f/decompositions.py: orthogonalize_tt_cores", "t3f/decompositions.py: _orthogonalize_tt_cores_left_to_right", "t3f/decompositions.py: _orthogonalize_batch_tt_cores_left_to_right", "t3f/decompositions.py: _orthogonalize_tt_cores_right_to_left", "t3f/ops.py: frobenius_norm_squared"]}
{"id": "C79", "title": "Rounding to smaller TT-ranks in floating point arithmetic", "statement": "Let the matrix products round with unit roundoff u, and let the QR and singular value decompositions have backward errors and losses of orthogonality of at most eps (Frobenius norm). round of a well-formed object with valid bounds does not fail, keeps shape and batch size, the TT-ranks are at most the bounds and at most the old ranks, and all cores but the first are within eps of an orthonormal core. For every tensor train S within the bounds, the distance of the result to the argument t is at most sqrt(d-1) |t - S| plus (sqrt(d-1) + 1) ((1 + eps)^(5(d-1)) (1 + u)^(sum of r_k (2 r_k + 1)) - 1) times the product of the Frobenius norms of the cores of t. If the ranks of t are within the bounds, only the second summand remains.", "quantifier": "all floating point arithmetics and orders of summation, all QR and SVD routines within the error bounds, all well-formed TT-objects (tensors, matrices, batches) without empty modes, all valid bounds for the ranks, all tensor trains within the bounds", "why_tests_cant": "Tests round a few tensors that have small ranks exactly and compare with a tolerance; the interplay of truncation and rounding errors (a computed singular vector that is only nearly orthogonal, a truncation that is optimal only for a perturbed matrix) is not visible in them.", "anchors": ["t3f/decompositions.py: round", "t3f/decompositions.py: _round_tt", "t3f/decompositions.py: _round_batch_tt", "t3f/decompositions.py: orthogonalize_tt_cores"]}
{"id": "C80", "title": "Multiplying a tensor train by an array", "statement": "multiply(tt, A) takes every A that is not a TT object for a number without checking it. If A has not more axes than the TT-cores, the call succeeds exactly if A can be broadcast to the shape of every core; the result then has the shape, TT-ranks and batch size of tt, and its entry at (m_0, ..., m_{d-1}) is that of tt times sign(w(m_0)) prod_k |w(m_k)|^(1/d), where w(m_k) is the entry of A that meets the mode index m_k. Hence arrays with one entry act as that number, an array of shape (B, 1, 1, 1) (for TT-matrices (B, 1, 1, 1, 1)) multiplies every member of a batch of size B by its own number, every array whose last axis is longer than one is rejected (for example a vector with one number per member of a batch), and a dense array of the shape of a single tt is rejected unless all modes have size one. Other arrays can be accepted although the result is not the product of the dense tensors, and arrays with more axes than the cores can even give objects that full rejects.", "quantifier": "all well-formed TT-objects (tensors, matrices, batches), all arrays", "why_tests_cant": "The tests multiply by Python numbers only; what an array does depends on the number of modes, on whether the modes are equal and on the ranks, and the accepted wrong results raise no error.", "anchors": ["t3f/ops.py: multiply", "t3f/tensor_train_base.py: TensorTrainBase.__mul__"]}
{"id": "C81", "title": "Decomposing dense tensors and matrices in floating point arithmetic", "statement": "Let the matrix products round with unit roundoff u, and let the singular value decomposition have a backward error and a loss of orthogonality of at most eps (Frobenius norm). to_tt_tensor of a dense tensor X with at least two axes and valid bounds does not fail; the result has the shape of X, the TT-ranks of exact arithmetic (within the bounds), and all cores but the last are within eps of an orthonormal core. For every tensor train S within the bounds, the distance of the result to X is at most sqrt(d-1) |X - S| plus (sqrt(d-1) + 1) ((1 + eps)^(3(d-1)) (1 + u)^(sum of the TT-ranks of the result) - 1) |X|. So the rounding errors are small relative to the norm of X (not only relative to norms of cores, as for round), and if X has a representation within the bounds, or if max_tt_rank is large enough, only they remain. The same holds for to_tt_matrix.", "quantifier": "all floating point arithmetics and orders of summation, all SVD routines within the error bounds, all dense tensors without empty axes and all matrices, all valid bounds for the ranks, all tensor trains within the bounds", "why_tests_cant": "Tests decompose a few tensors of exactly small rank and compare with a tolerance; how the errors of one decomposition propagate through the following ones, and that they stay relative to the norm of X for any number of axes, is not visible in them.", "anchors": ["t3f/decompositions.py: to_tt_tensor", "t3f/decompositions.py: to_tt_matrix"]}
{"id": "C82", "title": "The documented recipe for random objects with a nonzero mean", "statement": "The random initializers support mean 0 only; their documentation recommends x = random_...(shape, tt_rank, stddev=stddev); x = mean * ones_like(x) + x. For random_tensor and random_matrix with at least two dimensions this works: the entries have the given mean and variance stddev^2 and are pairwise uncorrelated (for independent standardized draws), shape and type are kept, and every inner TT-rank is the requested one plus one, as documented. In general, for every TensorTrain x the recipe adds mean to every element. For random_tensor_batch and random_matrix_batch, whose documentation gives the same recipe, it always raises ValueError, whatever the batch size and the draws: ones_like of a batch is a single TensorTrain, and TensorTrain + TensorTrainBatch is not supported. x + mean * ones_like(x) works for batches, except for batches of size one.", "quantifier": "all shapes with at least two dimensions, all valid TT-ranks, all means and nonnegative standard deviations, all probability spaces with independent standardized draws, all well-formed objects for the deterministic part", "why_tests_cant": "The recipe is in docstrings only and no test runs it; a statistical test of a mean over samples could not distinguish the exact moments, and that the batch version fails for every input is a statement about all inputs.", "anchors": ["t3f/initializers.py: random_tensor", "t3f/initializers.py: random_tensor_batch", "t3f/initializers.py: random_matrix", "t3f/initializers.py: random_matrix_batch", "t3f/initializers.py: ones_like", "t3f/ops.py: add"]}
{"id": "C83", "title": "Data types of results and of mixed operands", "statement": "TensorTrain(...) and TensorTrainBatch(...) succeed exactly if the other checks pass and all cores have one data type, otherwise ValueError. Every program built from add, subtract, negate, elementwise and matrix product, multiplication by a number, transpose, orthogonalize, renormalize_tt_cores, expand/squeeze_batch_dim, integer indexing and cast keeps the data type of its operands (or of the last cast) in all cores and in full, does not change values by casting, and raises (InvalidArgumentError of TensorFlow) as soon as operands of different data types meet, also if a cast follows. Numbers given as tensors may have any data type: multiply casts them. flat_inner, round, approximate.add_n, the products with dense matrices and concat_along_batch_dim keep the data type and raise for mixed ones. project, project_sum and project_matmul raise ValueError if what and where differ in data type; project_matmul does not compare the data type of the matrix, TensorFlow raises. Weights of multiply_along_batch_dim and project_sum and coefficients of approximate.reduce_sum_batch are converted if they are Python or NumPy values, and tensors of another data type are rejected with ValueError.", "quantifier": "all programs of any depth, all well-formed TT objects of the data types float32 and float64 with any shapes, TT-ranks and batch sizes, all correct QR routines", "why_tests_cant": "The tests run each operation in one data type at a time and on fixed shapes; that no combination of operations silently mixes or changes data types is a statement about all programs.", "anchors": ["t3f/tensor_train.py: _are_tt_cores_valid", "t3f/tensor_train_batch.py: _are_batch_tt_cores_valid", "t3f/tensor_train_base.py: dtype", "t3f/ops.py: add", "t3f/ops.py: multiply", "t3f/ops.py: cast", "t3f/riemannian.py: project", "t3f/riemannian.py: project_sum", "t3f/riemannian.py: project_matmul", "t3f/batch_ops.py: concat_along_batch_dim", "t3f/batch_ops.py: multiply_along_batch_dim", "t3f/approximate.py: add_n", "t3f/approximate.py: reduce_sum_batch"]}
{"id": "C84", "title": "Tracing with unknown TT-ranks and mode sizes", "statement": "Inside tf.function TT-ranks and mode sizes may be unknown while tracing. The constructor accepts such cores exactly if neighbouring static ranks are equal (unknown ones only next to unknown ones) and the boundary ranks are statically one. full then computes the represented tensor, except for TT-matrices of at least two cores with an unknown mode size (TypeError), and flat_inner needs no static sizes at all. Programs built from add, subtract, negate, elementwise and matrix product, multiplication by a number and transpose, on objects of known mode sizes, run exactly if the eager program runs and all operands of sums and products have known TT-ranks, and then give the same tensor; otherwise TypeError (finding: the lazy_* functions suggest unknown ranks are supported).", "quantifier": "all programs of any depth, all TT-tensors, TT-matrices and batches (of known batch size), all patterns of unknown sizes, all run-time values that agree with the known sizes", "why_tests_cant": "Tests use eager execution or fully known shapes; which of the unboundedly many patterns of unknown sizes work is not tested at all.", "anchors": ["t3f/tensor_train.py: __init__", "t3f/tensor_train_batch.py: __init__", "t3f/shapes.py: lazy_tt_ranks", "t3f/shapes.py: lazy_raw_shape", "t3f/shapes.py: tt_ranks", "t3f/ops.py: full", "t3f/ops.py: flat_inner", "t3f/ops.py: add", "t3f/ops.py: multiply", "t3f/ops.py: matmul", "t3f/ops.py: transpose"]}
{"id": "C85", "title": "Printed descriptions are unambiguous", "statement": "str(tt) works for every valid object in eager mode, and while tracing for everything but TT-matrices with an unknown mode size (TypeError). Two objects are printed alike exactly if they agree in being variables or not, in the batch size (or not being batches), in the raw shape and in the TT-ranks. The size printed for a TT-matrix is the size of the represented matrix.", "quantifier": "all TT-tensors, TT-matrices and batches of known size, variables or not, all patterns of known and unknown mode sizes and TT-ranks", "why_tests_cant": "That no two different descriptions ever collide is a statement about all pairs of shapes and ranks, with numbers of any number of digits.", "anchors": ["t3f/tensor_train.py: __str__", "t3f/tensor_train_batch.py: __str__", "t3f/tensor_train_base.py: get_shape"]}
{"id": "C86", "title": "Determinants of Kronecker products of size 2^31 and more", "statement": "kronecker.determinant and slog_determinant compute the size n of the matrix with 32 bit integers. For a nonsingular matrix the logarithm returned by slog_determinant is log|det| times w/n, where w is the 32 bit number congruent to n modulo 2^32; so it is right exactly if n < 2^31 or |det| = 1. If n is a multiple of 2^32, for example for 32 factors of size 2, determinant returns 1 for every matrix and slog_determinant returns (1, 0) for every nonsingular matrix, without any error (finding).", "quantifier": "all Kronecker-product matrices and batches, any number of factors", "why_tests_cant": "The tests compare with the dense determinant, which cannot be computed for matrices of size 2^31; the claim is about exactly those sizes.", "anchors": ["t3f/kronecker.py: determinant, slog_determinant"]}
{"id": "C87", "title": "Shapes and variances for sizes that do not fit into machine integers", "statement": "shape(tt) of a TT-matrix returns the 32 bit numbers congruent to the numbers of rows and columns; it agrees with get_shape() exactly if both are below 2^31. glorot_initializer, he_initializer and lecun_initializer compute the variance 2/w, 2/w, 1/w from the 64 bit number w congruent to m+n, m, m (if w is positive); so for 23 modes of size 7 he_initializer gives more than three times the documented variance, without any error (finding).", "quantifier": "all TT-matrices and batches; all shapes with at least two modes, all admissible ranks", "why_tests_cant": "Concerns matrices that no test can convert to dense form; the wrong value depends on the residue of the product of all mode sizes.", "anchors": ["t3f/shapes.py: shape", "t3f/initializers.py: glorot_initializer, he_initializer, lecun_initializer"]}
{"id": "C88", "title": "`...` and `None` in subscripts", "statement": "Subscripts may contain `...` (Ellipsis) and `None` (tf.newaxis) besides integers and slices. tt[s] of a TT-tensor returns exactly if s is a tuple with one item per axis and without None for which the subscript with `:` in place of every `...` returns; the result is then the same, i.e. the dense tensor indexed in this way (so `...` never stands for zero or several axes, and a single item raises). For a batch with some TT-rank other than one, batch[s] returns only if s is one integer or slice or a tuple of integers and slices: `...` and None raise at every position, and so do tuples of length one. For batches whose TT-ranks are all one, `...` and None raise everywhere but in front, and in front they can return wrong objects: batch[..., :, :] may be a TT-matrix instead of a batch, batch[None] and batch[None, :, :] may be objects whose cores have too many axes.", "quantifier": "all TT-tensors and batches of TT-tensors and TT-matrices (any shape, ranks, number of cores, batch size), all subscripts made of integers, slices, `...` and None", "why_tests_cant": "Which subscripts are accepted depends on the interplay of shapes, ranks, batch size and position of the items; the tests index a few fixed tensors and never with `...` or None.", "anchors": ["t3f/tensor_train.py: TensorTrain.__getitem__", "t3f/tensor_train_batch.py: TensorTrainBatch.__getitem__, _batch_dim_getitem, _full_getitem, _do_collapse_dim"]}
{"id": "C89", "title": "Results depend on the represented tensors, not on the cores", "statement": "A tensor has many TT-representations (other cores, larger TT-ranks). If two programs built from +, -, *, scalar multiples, matmul, transpose, orthogonalize_tt_cores, renormalize_tt_cores, expand/squeeze_batch_dim and batch indexing differ only in the representations of their inputs (same t3f.full, same shape), they raise or return alike and the results have the same t3f.full; so do flat_inner and, if the best approximations are unique, round. The tangent space at a nonzero tensor is the same for all representations with minimal TT-ranks, and project(what, where) gives the same tensors for all representations of `what` and all representations of `where` with minimal TT-ranks. Minimality is needed: with larger TT-ranks of `where` the tangent vectors include those of the minimal representation, the projection is at least as close to `what`, and it can be a different tensor.", "quantifier": "all programs of any depth, all pairs of representations of the same tensors (any shape, ranks, number of cores, batch size), all correct QR and SVD routines", "why_tests_cant": "Tests use one representation of each tensor; invariance is a statement about all pairs of representations.", "anchors": ["t3f/ops.py: add, multiply, matmul, transpose, flat_inner", "t3f/decompositions.py: round, orthogonalize_tt_cores", "t3f/riemannian.py: project"]}
{"id": "C90", "title": "Rounding and projecting commute with scaling and transposition", "statement": "If the best approximations are unique, round(c * t) represents the same tensors as c * round(t) for every number c (zero included), and round(transpose(t)) the same matrices as transpose(round(t)). At a nonzero tensor x with minimal TT-ranks and for every c other than zero, the tangent space at c * x is the tangent space at x, project(what, c * x) represents the same tensors as project(what, x), and project(transpose(what), transpose(x)) the same matrices as transpose(project(what, x)).", "quantifier": "all TT-tensors, TT-matrices and batches (any shape, ranks, number of cores, batch size), all numbers c, all max_tt_rank and epsilon arguments, all correct QR and SVD routines (different ones on the two sides)", "why_tests_cant": "The two sides are computed from different cores by different floating point factorisations; tests compare single examples, while the equality of the represented tensors is a statement about all inputs and all correct routines.", "anchors": ["t3f/decompositions.py: round", "t3f/riemannian.py: project", "t3f/ops.py: multiply, transpose"]}
{"id": "C91", "title": "Batches are processed item by item", "statement": "Let a program built from +, -, *, scalar multiples, matmul, transpose, orthogonalize_tt_cores, renormalize_tt_cores, expand/squeeze_batch_dim and batch indexing return t when it is run on batches, single objects and batches of size one (which are broadcast). Then the same program run on the items k of the batches returns, and its result represents item k of t. In the same way flat_inner of batches gives the inner products of the items, project(batch, where) projects each item, and round(batch) rounds each item if the best approximations of the item are unique. So no item influences another one. The converse does not hold: right-to-left orthogonalization raises for batches but not for their items.", "quantifier": "all programs of any depth, all batches and single objects (any shape, ranks, number of cores, batch size), all k, all representations of the items, all correct QR and SVD routines", "why_tests_cant": "Tests check single operations on small batches; independence of the items is a statement about all programs, all batches and all positions, including broadcasting.", "anchors": ["t3f/ops.py: add, multiply, matmul, transpose, flat_inner", "t3f/decompositions.py: round, orthogonalize_tt_cores", "t3f/riemannian.py: project", "t3f/tensor_train_batch.py: TensorTrainBatch.__getitem__"]}
{"id": "C92", "title": "Kronecker operations compose like the dense ones", "statement": "For Kronecker-factorized matrices (all TT-ranks one, square factors) that may be batches: matmul and transpose of such matrices are such matrices again; determinant(matmul(a, b)) = determinant(a) determinant(b) and slog_determinant(matmul(a, b)) multiplies the signs and adds the logarithms, item by item with broadcasting, also for singular matrices; inv(matmul(a, b)) and matmul(inv(b), inv(a)) represent the same matrices; inv(inv(a)) represents a; determinant(inv(a)) determinant(a) = 1, and slog_determinant(inv(a)) has the same sign and the opposite logarithm; transposition keeps the determinant and commutes with inv; for L = cholesky(a), matmul(L, transpose(L)) represents a, determinant(a) = determinant(L)^2 > 0 and the logarithm of the determinant of a is twice the one of L.", "quantifier": "all Kronecker-factorized matrices of any number and sizes of factors (of order below 2^31 where determinants are computed), all batch sizes that can be broadcast", "why_tests_cant": "Tests compare single operations with NumPy on one or two small matrices; these are laws between compositions for all sizes and batches, including singular matrices.", "anchors": ["t3f/kronecker.py: determinant, slog_determinant, inv, cholesky", "t3f/ops.py: matmul, transpose"]}
{"id": "C93", "title": "Rounding is a retraction", "statement": "Let v be a TT object that represents a tangent vector at x (for example the result of project(., x)), and let the TT-ranks of x be within the bounds max_tt_rank. Then round(x + s * v, max_tt_rank) succeeds and differs from x + s v by at most a constant times s^2 in every element, for |s| <= 1, where the constant does not depend on s and on the QR and SVD routines. So the curve s -> round(x + s * v) starts at x with the velocity v. As a consequence every sufficiently small step of the Riemannian gradient descent of the tutorial, X <- round(X - alpha * project(X - A, X)), strictly decreases the distance to A unless the Riemannian gradient is zero.", "quantifier": "all tensors and TT-matrices x with at least two modes (of minimal TT-ranks for the descent), all tangent vectors, all admissible max_tt_rank, all step sizes in [-1, 1], all correct QR and SVD routines", "why_tests_cant": "It is an asymptotic statement about a whole curve, for all points and directions; tests can compare a few step sizes up to rounding errors.", "anchors": ["t3f/decompositions.py: round", "t3f/riemannian.py: project", "docs/tutorials/riemannian.ipynb"]}
{"id": "C94", "title": "Rounding and decompositions keep a guaranteed share of the norm", "statement": "If a tensor has a TT representation with TT-ranks r_k, then round, to_tt_tensor and to_tt_matrix with bounds b_k on the TT-ranks return an object whose squared Frobenius norm is at least prod_k min(b_k, r_k) / r_k times the squared norm of the argument, and whose squared error is at most the rest; for batches in every item. The representation with TT-ranks r_k need not be the one that is rounded. Consequently the result of round is zero only if the argument is zero, and its norm is never larger. The share is attained: round to rank one keeps exactly one half of the identity matrix of size two.", "quantifier": "all TT-tensors, TT-matrices and batches, all dense tensors and matrices with at least two modes, all admissible max_tt_rank and epsilon, all representations of the argument, all correct QR and SVD routines", "why_tests_cant": "It is a lower bound over all tensors; random tensors keep far more than the guaranteed share, so tests never come near the bound.", "anchors": ["t3f/decompositions.py: round", "t3f/decompositions.py: to_tt_tensor", "t3f/decompositions.py: to_tt_matrix"]}
{"id": "C95", "title": "Larger rank bounds can make rounding worse (finding), within limits", "statement": "One may expect that raising max_tt_rank never increases the error of round. This is false: for the tensor of shape (2, 2, 2, 2) with the elements 9, 12, 12, 16 at 0000, 0011, 1100, 1111 and 21 at 0101, the squared error is 625 with max_tt_rank=1 (and with [1, 1, 1, 1, 1]), and 666 with max_tt_rank=[1, 1, 1, 2, 1], whatever QR and SVD routines are used. It is false for single numbers, too: for a tensor of shape (6, 3, 3, 2) the squared error is 37741221441 with max_tt_rank=1 and 38739346312 with max_tt_rank=2. What holds: with two cores larger bounds never increase the error; with d cores the squared error with larger bounds is at most d - 1 times the squared error with smaller bounds, in every batch item, for round and to_tt_tensor; and rounding the result again with bounds that are not smaller changes nothing (so round is idempotent).", "quantifier": "all TT-tensors, TT-matrices and batches, all dense tensors with at least two axes, all pairs of admissible max_tt_rank and epsilon, all correct QR and SVD routines (the routines of the two calls may differ); the counterexample is for all correct routines", "why_tests_cant": "Random tensors behave monotonically, so tests suggest a law that is false; the limit is a statement about all tensors and all pairs of bounds.", "anchors": ["t3f/decompositions.py: round", "t3f/decompositions.py: to_tt_tensor"]}
{"id": "C96", "title": "Norms and inner products of results satisfy the laws of a Euclidean space", "statement": "For the scalars that the library returns: flat_inner(a, b)^2 <= ||a||^2 ||b||^2 (also for batches that are broadcast, with both implementations of the norm); ||a + b||^2 = ||a||^2 + 2 flat_inner(a, b) + ||b||^2, the parallelogram law for a + b and a - b, and the triangle inequality for frobenius_norm with any epsilon >= 0 (at least two cores, batches of equal sizes); ||A B|| <= ||A|| ||B|| for products of TT-matrices and ||a * b|| <= ||a|| ||b|| for elementwise products; transpose keeps the norm and is the adjoint: flat_inner(A B, C) = flat_inner(B, transpose(A) C) = bilinear_form(A, C, B); gram_matrix is positive semidefinite, and its quadratic form vanishes at w exactly if the combination of the items with the weights w is zero.", "quantifier": "all TT-tensors, TT-matrices and batches with compatible shapes, all correct QR routines, all epsilon >= 0, all weights", "why_tests_cant": "The two sides come from different functions with different contraction orders; the laws range over all shapes, ranks and real elements.", "anchors": ["t3f/ops.py: flat_inner, frobenius_norm, frobenius_norm_squared, add, multiply, matmul, transpose, bilinear_form", "t3f/batch_ops.py: gram_matrix"]}
{"id": "C97", "title": "Rounding a tensor train and decomposing the dense tensor differ (finding), within limits", "statement": "round(t, max_tt_rank) and to_tt_tensor(full(t), max_tt_rank) approximate the same tensor within the same bounds, but they truncate the cuts in opposite orders and in general return different tensors: for the tensor of shape (2, 2, 2) with the elements 63, 60, 32 at 000, 110, 101 and max_tt_rank=1, round keeps the element 63 (squared error 4624) and to_tt_tensor keeps the element 60 (squared error 4993), whatever QR and SVD routines are used. What holds: each of the two squared errors is at most d - 1 times the other, and for two cores they are equal.", "quantifier": "all TT-tensors with at least two cores, all admissible max_tt_rank and epsilon, all correct QR and SVD routines; the counterexample is for all correct routines", "why_tests_cant": "The tests compare the two functions for tensors of exactly the requested rank, where both are lossless; the limit is a statement about all tensors.", "anchors": ["t3f/decompositions.py: round", "t3f/decompositions.py: to_tt_tensor"]}
{"id": "C98", "title": "Rounding recovers low rank tensors stably, and is not continuous elsewhere (finding)", "statement": "If S has TT-ranks within the bounds and t is any object of the same shape (a perturbation of S), then round(t, max_tt_rank) has a distance from S of at most 1 + sqrt(d - 1) times the distance of t from S, in every batch item; the same holds for to_tt_tensor of a perturbed dense tensor. For tensors outside the bounds there is no such stability: for every eps > 0 there are two tensors of shape (2, 2) with a distance below eps for which the results of round with max_tt_rank=1 have a distance above one, whatever QR and SVD routines are used.", "quantifier": "all TT-tensors, TT-matrices and batches t and S of equal shapes, all dense tensors with at least two axes, all admissible max_tt_rank and epsilon, all correct QR and SVD routines", "why_tests_cant": "The bound is about all perturbations in all directions; the discontinuity needs tensors that are arbitrarily near to each other.", "anchors": ["t3f/decompositions.py: round", "t3f/decompositions.py: to_tt_tensor"]}
{"id": "C99", "title": "Rounding can make elements negative (finding), but not with TT-ranks one", "statement": "A tensor whose elements are probabilities, counts or intensities has no negative elements. If the best approximations of rank one are unique (no ties), the results of round(t, max_tt_rank=1) and to_tt_tensor(X, max_tt_rank=1) have no negative elements either, in every batch item. With larger ranks this is lost: for the tensor with the rows (8, 2, 0), (2, 9, 2), (0, 2, 10), round and to_tt_tensor with max_tt_rank=2 return a tensor with the element -4/3 at (0, 2), whatever QR and SVD routines are used, and although there are no ties.", "quantifier": "all TT-tensors, TT-matrices and batches of them, all dense tensors with at least two axes, all epsilon >= 0, all correct QR and SVD routines; the counterexample is for all correct routines", "why_tests_cant": "The claim for rank one is about all nonnegative tensors; no finite set of tensors shows that a sign is always kept.", "anchors": ["t3f/decompositions.py: round", "t3f/decompositions.py: to_tt_tensor"]}
{"id": "C100", "title": "Rounding keeps TT-matrices symmetric, but not positive definite (finding)", "statement": "If a TT-matrix with equal row and column sizes represents a symmetric matrix and the best approximations are unique (no ties), round(A, max_tt_rank) represents a symmetric matrix as well, in every batch item and for all rank bounds; the same holds for to_tt_matrix of a symmetric dense matrix. Positive definiteness is not kept: for the diagonal TT-matrix of size 9 x 9 with row and column sizes (3, 3) and the diagonal 73, 20, 2, 20, 85, 22, 2, 22, 94, round with max_tt_rank=2 returns a matrix with the diagonal element -10 at (2, 2), whatever QR and SVD routines are used, and although there are no ties.", "quantifier": "all TT-matrices and batches of them with equal row and column sizes, all dense symmetric matrices with at least two cores, all admissible max_tt_rank and epsilon, all correct QR and SVD routines; the counterexample is for all correct routines", "why_tests_cant": "Symmetry of the result is a claim about all symmetric matrices and all routines; it depends on the uniqueness of best approximations, not on the steps of the algorithm, which do not keep the symmetry of the cores.", "anchors": ["t3f/decompositions.py: round", "t3f/decompositions.py: to_tt_matrix"]}
