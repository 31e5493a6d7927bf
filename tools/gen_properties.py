import json
P=[]
def p(title, statement, quantifier, why, anchors):
    P.append(dict(id="C%02d"%(len(P)+1), title=title, statement=statement, quantifier=quantifier, why_tests_cant=why, anchors=anchors))
O="tensorD/base/ops.py"; T="tensorD/base/type.py"; L="tensorD/loss.py"; R="tensorD/dataproc/reader.py"
F="tensorD/factorization/"; N="tensorD/base/pitf_ops_numpy.py"; Q="tensorD/base/pitf_ops.py"
p("unfold places every entry where Kolda's matricization says",
  "For a tensor X of order N and a mode n in range(N), unfold(X, n) is a matrix with X.shape[n] rows whose entry in row i_n and column sum_{k != n} i_k * prod_{m < k, m != n} I_m equals X[i_0,...,i_{N-1}], for every index.",
  "every tensor (any order, any shape with shape[n] > 0, any entries), every mode, every multi-index",
  "tests fix a few shapes; the column formula is a mixed-radix identity over all orders and shapes",
  [O+"::unfold", O+"::_gen_perm"])
p("fold and unfold are mutually inverse",
  "fold(unfold(X, n), n, X.shape) = X, and unfold(fold(M, n, shape), n) = M for every matrix M of shape (shape[n], product of the other dimensions).",
  "every tensor/matrix, every shape and mode with shape[n] > 0", "round trips must hold for every shape and mode",
  [O+"::fold", O+"::unfold"])
p("unfold and fold accept exactly the modes 0..order-1",
  "unfold(X, mode) and fold(M, mode, shape) raise ValueError when mode is negative or >= order; for modes in range they succeed on every tensor whose selected dimension is non-zero (fold: whenever the element counts agree).",
  "every tensor, every integer mode", "boundary modes and degenerate shapes are unbounded families", [O+"::_gen_perm", O+"::unfold", O+"::fold"])
p("t2mat is the general matricization",
  "t2mat(X, r, c) has entry X[i] at (row, column) = (row-major rank of i restricted to r in the given order, same for c); c = -1 stands for the remaining axes in ascending order; unfold(X, n) = t2mat(X, n, remaining axes in descending order).",
  "every tensor, every split of its axes into ordered r and c", "all orders, shapes and axis orders", [O+"::t2mat"])
p("t2mat leaves its arguments unchanged",
  "Calling t2mat(tensor, r_axis, c_axis) does not modify the r_axis or c_axis object the caller passed.",
  "every call of t2mat, every argument kind", "a side effect on an argument is only visible if the test happens to look at the argument after that one combination of kinds", [O+"::t2mat"])
p("axis arguments may be an int, a list or a tuple",
  "mul(A, B, a_axis, b_axis) gives the same result whether an axis argument is written as an int, a one-element list or a tuple, as documented.",
  "every pair of tensors and every axis argument", "the documented argument kinds times all tensors", [O+"::mul", O+"::t2mat"])
p("vectorize and vec_to_tensor are inverse and row-major",
  "vectorize(X)[k] is the k-th entry of X in row-major order, vec_to_tensor(vectorize(X), X.shape) = X and vectorize(vec_to_tensor(v, s)) = v; vec_to_tensor fails when the sizes differ.",
  "every tensor, vector and shape", "all shapes", [O+"::vectorize", O+"::vec_to_tensor"])
p("mul is tensor contraction",
  "mul(A, B, a_axis, b_axis)[free indices of A ascending, free indices of B ascending] is the sum over the contracted indices of A*B; the result shape is the free dims of A followed by the free dims of B; on matrices mul(A,B,1,0) is the matrix product.",
  "every pair of tensors, every list of distinct axes with pairwise equal dimensions", "sums over arbitrary shapes and axis lists", [O+"::mul", O+"::t2mat"])
p("mul rejects contracted axes whose dimensions do not match",
  "mul(A, B, a_axis, b_axis) raises instead of returning a value when len(a_axis) != len(b_axis) or some paired dimensions differ.",
  "every pair of tensors and axis lists", "needs the exact acceptance condition over all shapes", [O+"::mul"])
p("ttm is the sequence of mode products",
  "ttm(X, [A_0,...], axis) = X x_{axis[0]} A_0 x_{axis[1]} A_1 ..., each (Y x_n A)[i] = sum_k Y[i with i_n := k] * A[i_n, k]; with transpose=True every A is replaced by its transpose; default axis is range(len(matrices)).",
  "every tensor of order at most 13, every non-empty list of conformable matrices, every list of distinct axes", "sums over arbitrary shapes, orders and axis lists", [O+"::ttm"])
p("ttm does not depend on the order in which the modes are listed",
  "Permuting the (matrix, axis) pairs given to ttm does not change the result, nor whether the call raises.",
  "every tensor of every order, every list of pairs with axes in range (conformable or not, repeated or not), every permutation of it", "all permutations of all lists", [O+"::ttm"])
p("ttm skips exactly the requested matrices",
  "ttm(X, mats, skip_matrices_index=s) equals ttm(X, [mats[i] for i not in s], axis=[i for i not in s]); giving both axis and skip_matrices_index raises ValueError, and so does a number of matrices other than the number of axes. If a matrix that is not skipped stands at a position the tensor has no mode for, both calls raise.",
  "every tensor, matrix list and skip argument (int or list, in or out of range)", "all subsets of all lists", [O+"::ttm", O+"::_skip"])
p("ttm works for tensors of any order",
  "ttm(X, mats) is the sequence of mode products whatever the order of X.",
  "every tensor order", "the index letters run out at a particular order that no test reaches", [O+"::ttm"])
p("inner is the sum of products and checks shapes",
  "inner(A, B) = sum over all indices of A[i]*B[i] when the shapes are equal and raises ValueError otherwise; it is symmetric and bilinear and is preserved by unfold.",
  "every pair of tensors", "all shapes and entries", [O+"::inner"])
p("hadamard is the entrywise product of the kept matrices",
  "hadamard(mats, skip)[i,j] = product over kept k of mats[k][i,j] for matrices of one shape, independent of the order of the list; with nothing kept it raises. Operands of different shapes are not refused: the call returns exactly if the kept shapes have a common shape under numpy broadcasting, with the entrywise product of the stretched operands, again independent of the order, and raises otherwise.",
  "every list of tensors, every skip argument", "all list lengths and subsets", [O+"::hadamard", O+"::_skip"])
p("kron is the Kronecker product",
  "kron(mats)[row, col] = product_k mats[k][r_k, c_k] where (r_k), (c_k) are the mixed-radix digits of row and col (first matrix most significant); for two matrices kron([A,B])[i*p+k, j*q+l] = A[i,j]*B[k,l]; reverse=True is kron of the reversed list. It returns exactly for 1 to 13 kept tensors that are all matrices; everything else raises ValueError.",
  "every list of 1 to 13 matrices of any sizes", "all list lengths and sizes", [O+"::kron"])
p("kron obeys the Kronecker laws",
  "kron([A,B,C]) = kron([kron([A,B]),C]) and kron([A,B]) * kron([C,D]) = kron([A*C, B*D]) and kron([A,B])^T = kron([A^T,B^T]).",
  "all conformable matrices", "algebraic law over all sizes and entries", [O+"::kron"])
p("khatri is the columnwise Kronecker product",
  "khatri(mats)[row, r] = product_k mats[k][i_k, r] where (i_k) are the mixed-radix digits of row; column r of khatri(mats) is kron of the r-th columns; reverse=True is khatri of the reversed list. It returns exactly for 1 to 25 kept matrices with a common column count, and raises otherwise (lists mixing one-column matrices with wider ones are not covered: TensorFlow may broadcast them).",
  "every list of 1 to 25 matrices with a common column count", "all list lengths and sizes", [O+"::khatri"])
p("Gram matrix of a Khatri-Rao product is the Hadamard product of Gram matrices",
  "khatri(A, skip, reverse)^T khatri(A, skip, reverse) = hadamard([A_i^T A_i], skip).",
  "every list of matrices with a common column count, every skip with something kept", "the identity CP_ALS and NCP rely on for every order and rank", [O+"::khatri", O+"::hadamard", F+"cp.py::CP_ALS.build_model"])
p("xcb equals the product of the mode-0 unfolding with the Khatri-Rao product",
  "xcb(X, C, B) = unfold(X, 0) * khatri([C, B]).",
  "every I x J x K tensor (or I x JK matrix) and conformable B, C", "the column-by-column, masked computation must agree for all entries including zeros", [O+"::xcb"])
p("skip_matrices_index means the same thing everywhere",
  "For hadamard, kron, khatri and max_single_value_mul a skip argument k or [k1,...] removes exactly the matrices at those positions, keeping order; indices outside range(len) (also negative ones) remove nothing; None removes nothing.",
  "every list, every skip argument", "all subsets and out-of-range values", [O+"::_skip"])
p("max_single_value_mul bounds the Kronecker operator",
  "If s_k is the largest singular value of mats[k], max_single_value_mul(mats) = product of s_k and is a Lipschitz constant of x -> kron(mats) x.",
  "every list of matrices, every vector", "an inequality over all vectors", [O+"::max_single_value_mul", F+"ntucker.py::NTUCKER_BCU.build_model"])
p("KTensor.extract is the weighted sum of rank-one tensors",
  "KTensor(U, lam).extract()[i_0,...,i_{N-1}] = sum_r lam_r * prod_k U[k][i_k, r]; without lambdas all weights are 1; shape is the row counts of the factors.",
  "every list of 1 to 25 factor matrices with common column count, every weight vector (1-D or column)", "all orders, ranks and entries", [T+"::KTensor"])
p("unfolding a Kruskal tensor factorizes through the Khatri-Rao product",
  "unfold(KTensor(U, lam).extract(), n) = U[n] diag(lam) khatri(U, skip n, reverse)^T.",
  "every Kruskal tensor and mode", "identity linking four functions over all orders", [T+"::KTensor.extract", O+"::unfold", O+"::khatri"])
p("rescaling a column and its weight does not change a Kruskal tensor",
  "Dividing column r of one factor by c_r and multiplying lam_r by c_r (c_r != 0) leaves KTensor(U, lam).extract() unchanged.",
  "every Kruskal tensor, mode and nonzero scaling vector", "all scalings", [T+"::KTensor", F+"cp.py::CP_ALS.build_model"])
p("KTensor accepts numpy factors with numpy weights",
  "KTensor(factors, lambdas).extract() evaluates for numpy factors and numpy lambdas of default precision, as in the documentation.",
  "every pair of numpy arguments", "depends on a dtype decision table, not on sampled values", [T+"::KTensor.__init__"])
p("TTensor.extract is the Tucker reconstruction",
  "TTensor(G, U).extract() = G x_0 U_0 x_1 U_1 ...: entry i is sum_j G[j] prod_k U[k][i_k, j_k]. A core and factors of different element types raise TypeError.",
  "every core of order at most 13 and conformable factors", "all orders and shapes", [T+"::TTensor"])
p("unfolding a Tucker tensor factorizes through the Kronecker product",
  "unfold(TTensor(G, U).extract(), n) = U[n] unfold(G, n) kron(U, skip n, reverse)^T.",
  "every Tucker tensor and mode", "identity linking four functions over all orders", [T+"::TTensor.extract", O+"::unfold", O+"::kron"])
p("DTensor.unfold depends only on the mode requested",
  "d.unfold(mode) equals unfold(d.T, mode) no matter which unfold calls were made on d before.",
  "every history of unfold calls on one DTensor", "history dependence; needs all call sequences", [T+"::DTensor.unfold"])
p("DTensor operators agree with the functional operations",
  "DTensor +, -, * act entrywise (with numpy broadcasting), mul/t2mat/vectorize/kron/khatri/fold give DTensor(ops.f(...)), for DTensor and raw tensor right operands alike, and (a+b)-b = a (when b broadcasts into the shape of a), a+b = b+a, a*b = b*a.",
  "every DTensor and right operand", "all shapes and entries", [T+"::DTensor"])
p("rmse is a normalized distance",
  "rmse(A,B) = sqrt(sum (A-B)^2 / count); it is nonnegative, symmetric, zero iff A = B, satisfies the triangle inequality, and l2(A,B) = count * rmse^2 / 2.",
  "all tensors of equal nonempty shape", "metric laws over all entries", [L+"::rmse", L+"::l2"])
p("rmse_ignore_zero looks only at nonzero entries of the reference",
  "rmse_ignore_zero(A,B) = sqrt(sum over A[i]!=0 of (A[i]-B[i])^2 / #{A[i]!=0}); changing B where A is zero changes nothing; it is zero iff B agrees with A on A's support; it equals rmse(A,B) when A has no zero entry.",
  "all pairs of equal-shape tensors with some nonzero entry in A", "all entries", [L+"::rmse_ignore_zero"])
p("the loss functions refuse tensors of different shapes",
  "rmse and rmse_ignore_zero raise TensorErr exactly when the shapes differ.",
  "all pairs of tensors", "all shapes", [L+"::rmse", L+"::rmse_ignore_zero"])
p("rmse_ignore_zero yields a number for every reference tensor",
  "rmse_ignore_zero(A,B) is a well-defined number whenever the shapes agree.",
  "all equal-shape tensors", "fails only on all-zero references", [L+"::rmse_ignore_zero"])
p("a coordinate file is read into the tensor it describes",
  "After read(), full_data at index i is the value on the last row naming i and 0 if no row names i; sparse_data lists the rows in file order.",
  "every well-formed file, every index", "all files", [R+"::TensorReader.read"])
p("the inferred shape is the smallest that holds every row",
  "Without full_shape, dimension m of the result is 1 + the largest m-th coordinate: every coordinate is in bounds and no smaller shape would do; with full_shape that shape is used.",
  "every well-formed file", "all files", [R+"::TensorReader.read"])
p("row order and blank lines do not matter",
  "Permuting rows with distinct coordinates and inserting empty lines gives the same dense tensor.",
  "every file and permutation", "all permutations", [R+"::TensorReader.read"])
p("writing a tensor in coordinate form and reading it back gives the tensor",
  "For any tensor, listing its nonzero entries (in any order) as rows 'i0,...,iN,value' and reading with full_shape returns the tensor.",
  "every tensor of order >= 1 with a nonzero entry", "round trip over all tensors", [R+"::TensorReader.read"])
p("malformed input is rejected",
  "read() raises for an unsupported extension, an empty file, a non-integer coordinate, a non-numeric value, a row with a different number of fields than the first, or a coordinate outside full_shape.",
  "every file content", "all malformed files", [R+"::TensorReader.read"])
p("predict returns the entry of the reconstructed tensor",
  "After a completed train(), predict(i_0,...,i_{N-1}) returns full[i_0,...,i_{N-1}] for every valid index (negative indices count from the end); an index out of bounds or of the wrong length raises.",
  "every model class, every trained tensor, every key", "all tensors and keys", [F+"cp.py::CP_ALS.predict", F+"ncp.py::NCP_BCU.predict", F+"ntucker.py::NTUCKER_BCU.predict", F+"tucker.py::HOSVD.predict", F+"tucker.py::HOOI.predict"])
p("predict before training raises TensorErr",
  "Calling predict on a model that has never been trained raises TensorErr.",
  "every model class and key", "all keys and histories without training", [F+"cp.py::CP_ALS.predict", F+"tucker.py::HOOI.predict", F+"tucker.py::HOSVD.predict"])
p("train_finish reports whether the last train call completed",
  "After any sequence of train calls, train_finish is true iff there was a call and the latest one returned normally.",
  "every history of train calls, failing or not", "histories", [F+"cp.py::CP_ALS.train", F+"ncp.py::NCP_BCU.train", F+"ntucker.py::NTUCKER_BCU.train", F+"tucker.py::HOOI.train"])
p("the returned history has one entry per executed step",
  "train(steps) with steps >= 1 that returns normally returns between 1 and steps entries; entry k is [loss, relative residual] of step k, in order.",
  "every number of steps, every sequence of session results", "all run lengths", [F+"cp.py::CP_ALS.train", F+"ncp.py::NCP_BCU.train", F+"ntucker.py::NTUCKER_BCU.train", F+"tucker.py::HOOI.train"])
p("train(0) is a harmless no-op",
  "train(steps) with steps <= 0 returns an empty history.",
  "every steps <= 0", "boundary of the loop", [F+"cp.py::CP_ALS.train", F+"ncp.py::NCP_BCU.train", F+"ntucker.py::NTUCKER_BCU.train", F+"tucker.py::HOOI.train"])
p("training stops exactly when it should",
  "The loop stops after step k < steps iff the relative residual of step k is below tol or the stall test held at steps k-2, k-1 and k, and k is the first such step; otherwise all steps are executed.",
  "every sequence of objective/residual values (also NaN-like ones), every tol and steps", "all sequences", [F+"cp.py::CP_ALS.train", F+"ncp.py::NCP_BCU.train", F+"ntucker.py::NTUCKER_BCU.train", F+"tucker.py::HOOI.train"])
p("a stalled objective stops the training",
  "If the objective stops changing for three consecutive steps, training stops.",
  "every objective sequence", "all sequences", [F+"cp.py::CP_ALS.train", F+"tucker.py::HOOI.train", F+"ncp.py::NCP_BCU.train", F+"ntucker.py::NTUCKER_BCU.train"])
p("full is the reconstruction from the final factors",
  "After train() returns, full equals the reconstruction from the factors (and lambdas / core) the model exposes.",
  "every run, every validation interval, every stopping step", "depends on where the run stops relative to the validation steps", [F+"cp.py::CP_ALS.train", F+"ncp.py::NCP_BCU.train", F+"ntucker.py::NTUCKER_BCU.train", F+"tucker.py::HOOI.train"])
p("the validation interval selects the reported steps",
  "Step k is reported iff k = 1, k = steps, verbose, or validation_internal divides k (and is not -1); any integer interval is accepted.",
  "every step, interval and steps", "all integers including 0 and negatives", [F+"cp.py::CP_ALS.train", F+"ncp.py::NCP_BCU.train", F+"ntucker.py::NTUCKER_BCU.train", F+"tucker.py::HOOI.train", F+"pitf.py::PITF.train"])
p("NCP and NTUCKER extrapolate only from improving iterates",
  "The reference objective kept by the loop is the minimum of all objectives so far (and first objective + 1 before); the extrapolating update runs after step k iff step k improved on it, otherwise the restart update runs.",
  "every objective sequence", "all sequences", [F+"ncp.py::NCP_BCU.train", F+"ntucker.py::NTUCKER_BCU.train"])
p("every CP mode update is a least-squares minimizer",
  "Within a CP_ALS sweep the unnormalized new factor of mode n minimizes ||X - [[A_0,..,B,..,A_{N-1}]]|| over all B, the other factors being the current ones.",
  "every tensor, factors, rank (also rank-deficient V), every competitor B", "optimality over all competitors", [F+"cp.py::CP_ALS.build_model"])
p("CP_ALS never increases the objective",
  "From step to step the objective value reported by CP_ALS does not increase (in exact arithmetic, as long as no normalizing weight is zero).",
  "every tensor, rank, initialization and number of steps", "an invariant of unbounded runs", [F+"cp.py::CP_ALS.build_model", F+"cp.py::CP_ALS.train"])
p("CP factors come out normalized",
  "After each CP_ALS step every column of every factor has maximum entry 1.",
  "every tensor, rank and step", "all inputs; fails for negative columns", [F+"cp.py::CP_ALS.build_model"])
p("NCP and NTUCKER results are nonnegative",
  "All factors, the core and the reconstructed tensor exposed by NCP_BCU and NTUCKER_BCU are entrywise nonnegative after every step.",
  "every input tensor (also with negative entries), every number of steps and branch history", "invariant over unbounded runs", [F+"ncp.py::NCP_BCU", F+"ntucker.py::NTUCKER_BCU"])
p("extrapolation weights stay in [0,1)",
  "The momentum scalar t is >= 1 and never decreases, and every extrapolation weight used by NCP/NTUCKER lies in [0,1).",
  "every run and branch history", "invariant over unbounded runs", [F+"ncp.py::NCP_BCU.build_model", F+"ntucker.py::NTUCKER_BCU.build_model"])
p("an NCP mode update without extrapolation does not increase the objective",
  "If the extrapolated point equals the current factor, the projected gradient step of NCP for that mode does not increase ||X - [[A]]||^2.",
  "every tensor, nonnegative factors, mode", "inequality over all reals", [F+"ncp.py::NCP_BCU.build_model"])
p("HOSVD with full ranks reconstructs the tensor exactly",
  "If ranks[n] >= min(I_n, product of the others) for all n, the full tensor produced by HOSVD equals the input.",
  "every tensor, every singular value decomposition the solver may return", "all inputs and all SVD sign/basis choices", [F+"tucker.py::HOSVD.build_model"])
p("Tucker factors are orthonormal and the residual is what the core misses",
  "HOSVD and HOOI factors have orthonormal columns and ||X - full||^2 = ||X||^2 - ||core||^2.",
  "every tensor, ranks and step", "all inputs", [F+"tucker.py::HOSVD.build_model", F+"tucker.py::HOOI.build_model"])
p("HOOI never increases the objective",
  "The objective reported by HOOI does not increase from step to step (exact arithmetic).",
  "every tensor, ranks, SVD choices and number of steps", "an invariant of unbounded runs", [F+"tucker.py::HOOI.build_model", F+"tucker.py::HOOI.train"])
p("HOSVD truncation error is bounded by the discarded singular values",
  "||X - full||^2 <= sum over modes of the squared singular values of unfold(X, n) beyond ranks[n].",
  "every tensor and ranks", "inequality over all inputs", [F+"tucker.py::HOSVD.build_model"])
p("a factor sweep gives the same result under every execution schedule",
  "One CP_ALS/NCP/HOOI sweep run by sess.run yields the sequential mode-by-mode (Gauss-Seidel) result whatever order the executor chooses among ready operations.",
  "every topological execution order of the graph", "schedules", [F+"cp.py::CP_ALS.build_model", F+"ncp.py::NCP_BCU.build_model", F+"tucker.py::HOOI.build_model"])
p("centralization removes the column means",
  "centralization(M) has zero column sums, is linear and idempotent, leaves zero-column-sum matrices fixed and is the nearest such matrix to M.",
  "every matrix with at least one row", "all sizes and entries", [N+"::centralization", Q+"::centralization"])
p("subspace produces matrices satisfying the pairwise-interaction constraints",
  "subspace(shape, rank, 'B'/'C') has zero column sums; mode 'A' has all column sums equal, with the total sum of the generated product; any other mode returns False; sample_rule4mat has shapes (n1,n2),(n2,n3),(n3,n1), and its numpy and TensorFlow versions agree on the same draws.",
  "every random draw, shape and rank", "all draws", [N+"::subspace", Q+"::subspace", N+"::sample_rule4mat"])
p("sampling a pairwise interaction tensor commutes with building it",
  "If T[i,j,k] = A[i,j]/sqrt(n3) + B[j,k]/sqrt(n1) + C[k,i]/sqrt(n2) then Pomega_tensor(spl, T) = Pomega_Pair(spl, A, B, C) for every in-range sample list; both have length m.",
  "every A, B, C and sample list", "all entries and samples", [N+"::Pomega_tensor", N+"::Pomega_Pair", N+"::Pomega_mat", Q+"::Pomega_Pair"])
p("adjoint_operator is the adjoint of the sampling operator",
  "<Pomega_mat(spl, M), y> * sqrt(n) = <M, adjoint_operator(spl, y)> for all matrices M and vectors y.",
  "every sample list (also with repeated positions), matrix and vector", "fails only when positions repeat", [N+"::adjoint_operator", Q+"::adjoint_operator", N+"::Pomega_mat"])
p("the numpy and TensorFlow pairwise-interaction operators agree",
  "centralization, Pomega_mat, Pomega_tensor, Pomega_Pair, adjoint_operator, SVT and shrink give the same result in both implementations.",
  "every input", "two implementations over all inputs", [N, Q])
p("shrink with zero threshold is centralization",
  "shrink(M, 0, 'normal') = centralization(M).",
  "every matrix and every SVD the solver may return", "all inputs and SVD choices", [N+"::shrink", Q+"::shrink"])
p("shrink keeps the column-sum constraints and never grows",
  "shrink(M, tao, 'normal') has zero column sums and Frobenius norm at most that of centralization(M) for tao >= 0; mode 'complicated' has all column sums equal, with total soft-thresholded.",
  "every matrix, tao >= 0 and SVD choice", "all inputs", [N+"::shrink", N+"::SVT"])
p("cone_projection_operator is the projection onto the second-order cone",
  "The returned (x', t') satisfies ||x'|| <= t', equals the input when it already does, and is the closest point of the cone to (x, t).",
  "every vector x and scalar t", "all reals", [N+"::cone_projection_operator", Q+"::cone_projection_operator"])
p("exact_recovery keeps complete records and one fixed sample set",
  "exact_recovery returns histories If = [0..steps-1], Ef, Rf of length steps; the sample positions are drawn once and used at every step; the loss recorded is sqrt(mean squared sample error).",
  "every steps >= 1, sample_num >= 1, input and draw", "all run lengths", [F+"pitf_numpy.py::PITF_np.exact_recovery", F+"pitf.py::PITF.build_model"])
p("synthetic data is nonnegative and of the requested shape",
  "synthetic_data_cp(N_list, R) and synthetic_data_tucker(N_list, Ranks) return tensors of shape N_list, entrywise >= the noise-free low-rank tensor >= 0.",
  "every shape, rank and random draw", "all draws", ["tensorD/demo/DataGenerator.py::synthetic_data_cp", "tensorD/demo/DataGenerator.py::synthetic_data_tucker"])
p("each train call starts from scratch",
  "The outcome of train() (history, factors, full) does not depend on earlier train calls on the same object: a fresh session and freshly initialized variables are used.",
  "every history of train calls", "histories", ["tensorD/factorization/env.py::Environment.sess", F+"cp.py::CP_ALS.train"])
p("CP_ALS never fits worse than the zero tensor",
  "Every relative residual in the history returned by CP_ALS.train lies in [0,1] (exact arithmetic, no zero normalizing weight).",
  "every tensor, rank, initialization and number of steps", "all inputs and step counts", [F+"cp.py::CP_ALS.build_model", F+"cp.py::CP_ALS.train"])
p("rank-one CP_ALS on positive data never breaks down",
  "With rank 1, an entrywise positive tensor and positive initial factors, no division by zero occurs in any step and train(steps) returns for every steps >= 1. With rank 2 this is false: there are a positive tensor and positive initial factors for which the first step divides by 0.",
  "every positive tensor of order 2..25, every positive initialization, every number of steps", "unbounded step counts", [F+"cp.py::CP_ALS.build_model", F+"cp.py::CP_ALS.train"])
p("HOOI runs exactly for admissible ranks",
  "On a nonzero tensor of order 2..13, HOOI.train(steps>=1) finishes without an exception exactly when ranks[n] <= I_n and ranks[n] <= product of the other ranks, for every mode n.",
  "every tensor, ranks, number of steps and SVD choice", "all rank tuples and step counts", [F+"tucker.py::HOOI.build_model", F+"tucker.py::HOOI.train"])
p("HOOI never fits worse than the zero tensor",
  "Every relative residual in the history returned by HOOI.train lies in [0,1] (exact arithmetic).",
  "every tensor, ranks and number of steps", "all inputs and step counts", [F+"tucker.py::HOOI.build_model", F+"tucker.py::HOOI.train"])
p("HOSVD core and full tensor are the Tucker contractions",
  "core[j] = sum_i X[i] prod_k A_k[i_k,j_k] and full[i] = sum_j core[j] prod_k A_k[i_k,j_k].",
  "every tensor of order 1..13, ranks and SVD choice", "all inputs and orders", [F+"tucker.py::HOSVD.build_model"])
p("NTUCKER updates without extrapolation do not increase the objective",
  "If the extrapolated core (factor) equals the current one, the projected gradient step of NTUCKER_BCU for the core (for that mode) does not increase ||X - G x A||^2; it is undefined only when a factor is zero (when that mode's factor is irrelevant).",
  "every tensor of order 2..13, ranks, reachable state and mode", "all states", [F+"ntucker.py::NTUCKER_BCU.build_model"])
p("the first two NCP and NTUCKER steps never worsen the fit",
  "In the history returned by NCP_BCU.train and NTUCKER_BCU.train the first residual is at most that of the initial point and the second is at most the first.",
  "every tensor, rank(s), random initialization, arguments and steps (exact arithmetic)", "all inputs", [F+"ncp.py::NCP_BCU.train", F+"ntucker.py::NTUCKER_BCU.train"])
p("NCP and NTUCKER recognise an exact initial fit",
  "If the initial factors (and core) reproduce a nonzero tensor exactly, train(steps>=1) with positive tolerance returns a one-entry history with residual 0.",
  "every tensor, rank(s), exact initialization and steps (exact arithmetic)", "all inputs", [F+"ncp.py::NCP_BCU.train", F+"ntucker.py::NTUCKER_BCU.train"])
p("factor sweeps rely on variables being read in place",
  "The control dependencies of build_model order the factor assignments but not the variable reads, which are shared and made outside the control blocks: if a read copies the value (resource variables), CP_ALS has a schedule in which a mode uses the stale factor, and the sweep's result depends on the schedule.",
  "the set of all schedules of the snapshot-read graph of one sweep", "existence over schedules; a test sees one schedule", [F+"cp.py::CP_ALS.build_model"])
p("the last history entry is the error of what the model exposes",
  "After train of CP_ALS, HOOI, NCP_BCU or NTUCKER_BCU, the last (loss, relative residual) pair is the error between the data and the tensor built from the exposed factors and weights/core, and full is that tensor whenever the last step was reported.",
  "every tensor, rank(s), initialization, arguments and number of steps (exact arithmetic)", "all inputs and histories", [F+"cp.py::CP_ALS.train", F+"tucker.py::HOOI.train", F+"ncp.py::NCP_BCU.train", F+"ntucker.py::NTUCKER_BCU.train"])
p("shorter training returns a prefix of longer training",
  "From the same initial values, train(m) with 1 <= m <= n returns the first m entries of the history of train(n), and the same factors and weights/core when train(n) had stopped by then.",
  "every model class, data, initial values, arguments and pair of step counts", "all pairs of step counts and histories", [F+"cp.py::CP_ALS.train", F+"tucker.py::HOOI.train", F+"ncp.py::NCP_BCU.train", F+"ntucker.py::NTUCKER_BCU.train"])
p("NCP and NTUCKER extrapolate from the best iterate and restart from it",
  "Each next NCP_BCU/NTUCKER_BCU step starts, after an improving step, at the current iterate plus w times its difference to the previous best, where w = min((tau_i - 1)/tau_(i+1), sqrt(previous/present Lipschitz constant)) with i the number of improving steps so far; after a step that does not improve, it starts at the best iterate so far.",
  "every tensor, rank(s), random initialization, arguments and number of steps (exact arithmetic)", "all histories of improving and worsening steps", [F+"ncp.py::NCP_BCU.build_model", F+"ncp.py::NCP_BCU.train", F+"ntucker.py::NTUCKER_BCU.build_model", F+"ntucker.py::NTUCKER_BCU.train"])
p("the random start of NCP and NTUCKER has the scale of the data",
  "Whatever is drawn, the initial factors (and core) are nonnegative, all have the same Frobenius norm (the N-th root of ||X|| for NCP_BCU, the (N+1)-st for NTUCKER_BCU), and the tensor they form is not larger than the data; on nonnegative data the first two relative residuals are therefore at most sqrt(2).",
  "every tensor of order >= 2, rank(s) and random draw (exact arithmetic)", "all random draws", [F+"ncp.py::NCP_BCU.build_model", F+"ntucker.py::NTUCKER_BCU.build_model"])
p("shrink is a proximal operator",
  "For tao >= 0, shrink(M, tao, 'normal') is the unique minimiser of tao*||N||_* + ||N - M||_F^2/2 over matrices N with zero column sums, shrink(M, tao, 'complicated') the unique minimiser over matrices with equal column sums, and shrink does not enlarge Frobenius distances.",
  "every matrix, tao >= 0 and every SVD the solver may return (exact arithmetic)", "optimality is over all competitors", [N+"::shrink", N+"::SVT", Q+"::shrink"])
p("exact_recovery never increases the recorded error",
  "With argDelt, argTao >= 0 and delta*(1/n0+1/n1+1/n2) <= 2 for the step size delta = argDelt*m/sqrt(n0*n1*n2), the histories Rf and Ef returned by exact_recovery are nonincreasing.",
  "every tensor, draw of samples, arguments within the bound, number of steps and SVD choice (exact arithmetic)", "all inputs, draws and run lengths", [F+"pitf_numpy.py::PITF_np.exact_recovery"])
p("exact_recovery converges to the minimiser of its convex program",
  "If no two samples share a pair of indices, 0 < delta*(1/n0+1/n1+1/n2) < 2 and the sampled entries can be reproduced at all, then the matrices returned by exact_recovery(steps) converge, as steps grows, to the unique minimiser of tao*(weighted nuclear-type norms) + half the squared Frobenius norms among the constrained matrices that reproduce the sampled entries, and the last recorded loss tends to 0. The condition on the samples is needed: when two samples share a pair of indices the returned matrices need not converge to the minimiser, whatever the step size.",
  "every tensor, draw without repeated pairs, arguments within the bound and SVD choice (exact arithmetic)", "a limit over unboundedly many steps", [F+"pitf_numpy.py::PITF_np.exact_recovery", N+"::shrink", N+"::adjoint_operator"])
p("the returned history alone tells why training stopped",
  "For CP_ALS, HOOI, NCP_BCU and NTUCKER_BCU, with the objective of step j computed from the history as (rel_j*||X||)^2/2, the history has between 1 and steps entries, the stopping test (rel < tol, or three consecutive relative changes of the objective below tol against the reference objective) fails at every entry before the last, and holds at the last unless all steps were executed. The reference is the first objective plus 1 for CP_ALS and HOOI and the best objective so far for NCP_BCU and NTUCKER_BCU.",
  "every tensor, rank(s), initialization, arguments and number of steps", "all histories", [F+"cp.py::CP_ALS.train", F+"tucker.py::HOOI.train", F+"ncp.py::NCP_BCU.train", F+"ntucker.py::NTUCKER_BCU.train"])
p("CP_ALS and HOOI never stop by stalling for small tolerances",
  "With tol <= 1/(||X||^2/2 + 2), train of CP_ALS and HOOI never stops because the objective stalls: all steps are executed unless the last relative residual is below tol, however long the residual has been constant.",
  "every tensor, rank(s), initialization and number of steps (exact arithmetic)", "all histories of any length", [F+"cp.py::CP_ALS.train", F+"tucker.py::HOOI.train"])
p("HOSVD and HOOI are quasi-optimal and recover low-rank tensors",
  "The squared error of HOSVD, and of every step of HOOI, is at most the order times the squared error of any Tucker tensor with at most the given ranks; a tensor that has such a decomposition is reproduced exactly, by HOOI in one step when tol > 0.",
  "every tensor, ranks, competitor and SVD choice (exact arithmetic)", "optimality is over all competitors", [F+"tucker.py::HOSVD.train", F+"tucker.py::HOOI.train"])
p("CP_ALS recovers rank-one tensors in one step and its weights are optimal",
  "The weights exposed after CP_ALS.train are the least-squares optimal ones for the exposed factors. If the tensor is an outer product of vectors and the rank is 1, every residual of a returned history is 0 and, with tol > 0, exactly one step is executed; for positive tensors and positive initial factors train always returns.",
  "every tensor, rank, initialization, arguments and number of steps (exact arithmetic)", "all inputs and competitors", [F+"cp.py::CP_ALS.build_model", F+"cp.py::CP_ALS.train"])
p("the momentum, restart, core and initialization runs and the run of HOSVD do not depend on the schedule",
  "However TensorFlow orders or overlaps the operations of the runs of train_op1, train_op2, the core update of NTUCKER_BCU, the scaling of the initial values, the initialization of HOOI from singular vectors and the single run of HOSVD, each of them leaves the variables (and fetches the core, the factors and the full tensor) exactly as the statements executed one after another in program order would, fails exactly when that does, and never deadlocks.",
  "every schedule of the dataflow graph, tensor, rank(s) and state of the variables (exact arithmetic)", "the number of schedules is unbounded and tests see only one of them", [F+"ncp.py::NCP_BCU.build_model", F+"ntucker.py::NTUCKER_BCU.build_model", F+"tucker.py::HOOI.build_model", F+"tucker.py::HOSVD.build_model"])
p("training does not depend on the schedule of the graph operations",
  "However TensorFlow orders or overlaps the operations of each of the runs of train (initialization, core update, main step, momentum update or restart) and even if it changes its mind from run to run, CP_ALS, HOOI, NCP_BCU and NTUCKER_BCU end with the same factors, weights or core, full tensor and finish flag, report the same steps to the event file, and return the same history or raise as well.",
  "every schedule of every run, tensor, rank(s), initialization, arguments and number of steps (exact arithmetic)", "the number of schedules is unbounded and tests see only one of them", [F+"cp.py::CP_ALS.train", F+"tucker.py::HOOI.train", F+"ncp.py::NCP_BCU.train", F+"ntucker.py::NTUCKER_BCU.train"])
p("several models in one process do not disturb each other",
  "Whatever models a program builds and trains, in whatever order, every training of a model has the outcome it would have if no other model existed. This is false of the code: train fetches the summaries of all models of the default graph but feeds only its own data, so after two calls of build_model in one graph (on two objects or on one) train of either raises. It holds when no graph holds two models.",
  "every sequence of build_model and train calls on any number of objects and graphs", "all histories of calls", [F+"cp.py::CP_ALS.train", F+"tucker.py::HOSVD.train", F+"tucker.py::HOOI.train", F+"ncp.py::NCP_BCU.train", F+"ntucker.py::NTUCKER_BCU.train", F+"env.py::Environment.sess"])
p("a training that no longer moves has found a block-wise optimum",
  "If a step of CP_ALS or HOOI returns the factors it started from, no other matrix for any one mode (with whatever weights or core) would lower the error, and all later steps return the same. For NCP_BCU and NTUCKER_BCU the whole training leaves the initial values unchanged exactly if no factor (or core) can be replaced by a nonnegative one with smaller error; and if an improving step is followed by two steps that return the same values, these cannot be improved in one block either.",
  "every tensor, rank(s), initialization, arguments, number of steps and choice of the linear algebra routines (exact arithmetic)", "optimality is over all competitors", [F+"cp.py::CP_ALS.train", F+"tucker.py::HOOI.train", F+"ncp.py::NCP_BCU.train", F+"ntucker.py::NTUCKER_BCU.train"])
p("Training of the TensorFlow pairwise-interaction class",
  "PITF.train(steps) performs exactly `steps` corrections of the sample vector, starting from zero. Step k draws positions, scatters the current vector at these positions, shrinks the three matrices, and adds delt*m/sqrt(n1 n2 n3) times the difference between the tensor and the pairwise model at the same positions. The first, the last and every validation_internal-th step (unless it is -1) are reported, each with the vector, the sampled model, the RMSE and the error rate of that very step. Without steps, with interval 0 and more than two steps, or without samples, the call raises.",
  "every tensor, sample size, step size, threshold, interval, number of steps, sequence of drawn positions and SVD solver",
  "the positions are drawn anew in each session run, so a test sees one random history",
  [F+"pitf.py::PITF.build_model", F+"pitf.py::PITF.train"])
p("The TensorFlow shrinkage keeps the constraint set, and its training is the numpy recovery up to two differences",
  "For a non-negative threshold the TensorFlow shrink returns, in normal mode, a matrix with zero column sums whose singular values are the thresholded ones and, in complicated mode, a matrix with equal column sums and the soft-thresholded total, although it is not the singular value thresholding (C66). If the solver returned the right factor transposed and the same positions were drawn in all steps, PITF.train would end with the sample vector of exact_recovery and report its errors.",
  "every matrix, threshold, solver, tensor, positions, step size, interval and number of steps",
  "needs all matrices and solvers; the two classes use different solvers conventions, so outputs of one run cannot be compared",
  [Q+"::shrink", F+"pitf.py::PITF.train", F+"pitf_numpy.py::PITF_np.exact_recovery"])
p("Truncated shrinkage",
  "shrinkageBorC(X, tao, r) raises IndexError exactly if r exceeds the number of singular values of the centralised matrix. Otherwise it returns rank r, or, if a later singular value falls below tao, max(r, c-1) with c the number of singular values reaching tao, and a matrix whose singular values are |s_j - tao| for j below that rank; shrinkageA adds the soft-thresholded total, spread evenly. It is the singular value thresholding if the left factor is symmetric and r is already right; in general it is not, because a singular value is dropped and because rows of the left factor are used instead of columns. The TensorFlow versions cannot be used: shrinkageA raises in every call and shrinkageBorC in every call but trivial ones.",
  "every matrix, threshold, initial rank and SVD solver",
  "depends on all singular value patterns and on the solver's choice of factors",
  [N+"::shrinkageBorC", N+"::shrinkageA"])
p("the result of CP_ALS does not depend on the unit of the data",
  "Training CP_ALS on c*X (c > 0) from the same initial factors goes through the same factors as training on X: every step returns the same factors, c times the weights, c times the full tensor, c times the loss and the same relative residual, and one fails exactly if the other does. If the tolerance is small compared with the data in both units, the two trainings take the same number of steps. In general they do not: the stall test adds 1 to the objective, so the unit decides when training stops.",
  "every tensor, factor c, rank, initialization, pseudo-inverse, arguments and number of steps (exact arithmetic)", "ranges over all data and all units", [F+"cp.py::CP_ALS.train", F+"cp.py::CP_ALS.build_model"])
p("the result of HOSVD and HOOI does not depend on the unit of the data",
  "HOSVD and HOOI on c*X (c > 0) return the same factors, c times the core and c times the full tensor; HOOI reports c times the loss and the same relative residual in every common step, and takes the same number of steps if the tolerance is small compared with the data in both units. This is for solvers that choose the same singular vectors for a matrix and its positive multiples, without which the factors are not determined.",
  "every tensor, factor c, ranks, arguments, number of steps and scale-respecting SVD solver (exact arithmetic)", "ranges over all data and all units", [F+"tucker.py::HOSVD.train", F+"tucker.py::HOOI.train", F+"tucker.py::HOOI.build_model"])
p("the result of NCP_BCU and NTUCKER_BCU follows the unit of the data",
  "Training NCP_BCU on a^order * X (a > 0) from the same random draws multiplies every factor by a; as far as both trainings go, the relative residuals are the same and the losses are multiplied like the data, including which steps are restarted from the previous values. NTUCKER_BCU on a^(order+1) * X likewise multiplies factors and core by a. If the tolerance is not positive (no stopping test) both trainings execute all steps, so whole histories and results correspond.",
  "every tensor of order 2 to 25 (13), scale a, rank(s), random draws, arguments, number of steps and singular value routine (exact arithmetic)", "ranges over all data and all units; a scale enters the Lipschitz constants and the extrapolation weights of every step", [F+"ncp.py::NCP_BCU.train", F+"ncp.py::NCP_BCU.build_model", F+"ntucker.py::NTUCKER_BCU.train", F+"ntucker.py::NTUCKER_BCU.build_model"])
p("CP_ALS and HOOI make only boundedly many large steps and their error converges",
  "In any training of CP_ALS or HOOI, fewer than 1/d steps lower the relative residual by more than d, however many steps are requested. Without stopping test (tolerance not positive), the last residual as a function of the number of steps is non-increasing and converges to a value between 0 and 1; for HOOI this holds for every nonzero tensor and all admissible ranks, for CP_ALS whenever the trainings return.",
  "every tensor, rank(s), initialization, arguments, number of steps and linear algebra routine (exact arithmetic)", "a statement about unboundedly long trainings", [F+"cp.py::CP_ALS.train", F+"tucker.py::HOOI.train"])
p("Relations between slices of the data hold for the reconstruction",
  "Whenever a linear combination of the slices of the data along a mode is zero, the same combination of the slices of the reconstructed tensor is zero. In particular a slice without any data is reconstructed as zero, and two equal slices are reconstructed equally. It holds for the full tensor and for the factor matrix stored by a successful CP_ALS training, whatever the random initial factors, for the tensor reconstructed by HOSVD, whatever the ranks, and, along the last mode, for the full tensor stored by a successful HOOI training.",
  "every tensor, mode and list of coefficients; for CP_ALS every rank, initial factors, number of steps and arguments; for HOSVD every list of ranks",
  "The initial factors are random and have no such relation, so the property must come from every single update; a test sees one tensor and one seed and compares floats.",
  [F+"cp.py:CP_ALS.build_model", F+"cp.py:CP_ALS.train", F+"tucker.py:HOSVD.build_model", F+"tucker.py:HOSVD.train"])
p("Decomposing synthetic data recovers it up to the added noise",
  "HOSVD and every HOOI training on the output of synthetic_data_cp(N, R, max_noise) or synthetic_data_tucker(N, Ranks, max_noise), with decomposition ranks at least the generator ranks, leave a squared error of at most the order times the squared size of the noise that was added. With max_noise 0 the data is reproduced exactly.",
  "every size list, generator rank, decomposition ranks not below it, noise level and every outcome of the random draws; for HOOI every number of steps and arguments",
  "The data and the noise are random; a test draws once and compares with a tolerance chosen by hand.",
  ["tensorD/demo/DataGenerator.py:synthetic_data_cp", "tensorD/demo/DataGenerator.py:synthetic_data_tucker", F+"tucker.py:HOSVD.train", F+"tucker.py:HOOI.train", "tensorD/ex/tucker_ex.py"])
p("An index that no line of the file names is predicted as zero",
  "If no line of a coordinate file names a certain index of a mode (a user or item without ratings), then after any successful CP_ALS training on the tensor read from the file, and after HOSVD on it, every entry of the full tensor at that index is exactly 0, whatever the random initial factors and ranks.",
  "every file, given shape, mode and unnamed index; every rank, initial factors, number of steps and arguments",
  "The initial factors of the unnamed index are random and not zero; that every training removes them completely is a statement about all files and seeds.",
  ["tensorD/dataproc/reader.py:TensorReader.read", "tensorD/dataproc/reader.py:TensorReader.full_data", F+"cp.py:CP_ALS.train", F+"cp.py:CP_ALS.full", F+"tucker.py:HOSVD.train", "tensorD/ex/ml_cp.py"])
p("HOOI on a coordinate file succeeds and is near optimal",
  "For a well-formed coordinate file describing a tensor that is not zero, and ranks that are admissible for the given shape, reading the file and training HOOI on it both succeed for every number of steps at least 1. The residuals of the returned history lie between 0 and 1, never increase, and their squares are at most the order times that of the best approximation with these ranks.",
  "every well-formed file, shape containing its coordinates, admissible ranks, number of steps and arguments with nonzero reporting interval",
  "The chain from text to history has many places to fail for particular files or ranks; a test covers one file.",
  ["tensorD/dataproc/reader.py:TensorReader.read", F+"tucker.py:HOOI.build_model", F+"tucker.py:HOOI.train", "tensorD/ex/ml_tucker.py"])
p("Rounding errors of the tensor operations are bounded entry by entry",
  "In any floating-point arithmetic with relative error u per operation, whatever the order in which sums are evaluated: inner, mul, ttm, hadamard, kron, khatri and extract of Kruskal and Tucker tensors raise the same exceptions as in exact arithmetic and return the same shape, and each entry differs from the exact one by at most (1+u)^k - 1 times the entry computed from the absolute values, where k is the number of roundings: the number of entries for inner, the contracted size for mul, matrices plus contracted size minus one for ttm, operands minus one for hadamard, kron and khatri, operands minus one plus rank for a Kruskal tensor, modes plus core size minus one for a Tucker tensor. For k u < 1 the factor is at most k u / (1 - k u).",
  "every format and rounding direction, every evaluation order of the reductions (also fused multiply-add and blocked sums), all shapes and values (no overflow or underflow); ttm and Tucker up to order 13",
  "The result of a float sum depends on the order TensorFlow happens to choose for a shape, and errors differ with every input; a test compares one result with a hand-picked tolerance.",
  ["tensorD/base/ops.py::inner", "tensorD/base/ops.py::mul", "tensorD/base/ops.py::ttm", "tensorD/base/ops.py::hadamard", "tensorD/base/ops.py::kron", "tensorD/base/ops.py::khatri", "tensorD/base/type.py::KTensor.extract", "tensorD/base/type.py::TTensor.extract"])
p("Integer data gives exact results in floating point as long as the sums fit",
  "If all entries are integers, the operations return the exact entry, without any rounding error, wherever the same operation on the absolute values gives at most 2^24 (float32; in general the largest P up to which all integers are representable). Beyond it this fails: the inner product of [4096, 1] and [8192, 1] loses the 1.",
  "every format, evaluation order, shapes and integer values",
  "Tests with small integers always pass; when exactness is lost depends on the sizes of the sums, not on the number of test cases.",
  ["tensorD/base/ops.py::inner", "tensorD/base/ops.py::mul", "tensorD/base/ops.py::ttm", "tensorD/base/ops.py::kron", "tensorD/base/ops.py::khatri", "tensorD/base/ops.py::hadamard", "tensorD/base/type.py::KTensor.extract"])
p("Products and nonnegative data keep full relative accuracy",
  "Each entry of kron and khatri, of any sign, has a relative error of at most (1+u)^(n-1) - 1 for n operands. For nonnegative data (as in NCP_BCU and NTUCKER_BCU) the same holds for mul, ttm and the evaluation of Kruskal and Tucker tensors, with the number of roundings of the operation: no digits are lost by cancellation.",
  "every format, evaluation order, shapes and values (nonnegative where stated)",
  "A statement about every entry of every result however small; absolute tolerances in tests hide a loss of relative accuracy in small entries.",
  ["tensorD/base/ops.py::kron", "tensorD/base/ops.py::khatri", "tensorD/base/ops.py::mul", "tensorD/base/ops.py::ttm", "tensorD/base/type.py::KTensor.extract", "tensorD/base/type.py::TTensor.extract"])
p("The numbering of the indices does not matter",
  "The indices along a mode are names (users, items, times). Training CP_ALS, NCP_BCU or NTUCKER_BCU on data whose indices are renumbered along any modes, from initial values whose rows are renumbered the same way, gives the same loss history, the same number of steps, the same reports and the same success or failure as the original training; the factors and the full tensor it leaves are those of the original training with their rows (indices) renumbered, and the weights or the core are the same.",
  "every tensor, every renumbering of every mode, rank(s), initialization, arguments, number of steps, earlier state of the object and arithmetic of the stopping tests (exact tensor arithmetic)",
  "all permutations of all modes of all data, over whole trainings",
  [F+"cp.py::CP_ALS.train", F+"ncp.py::NCP_BCU.train", F+"ntucker.py::NTUCKER_BCU.train", "tensorD/base/ops.py::unfold", "tensorD/base/ops.py::khatri"])
p("Quoted fields and line endings do not change what a coordinate file means",
  "A TensorReader reads the same tensor (or raises the same exception) from any two files that spell the same rows of fields: any field may be put between double quotes (quotes in it doubled; it may then hold commas and newlines), lines may end in LF, CRLF or CR, and blank lines may be added between rows. Every table without carriage returns can be written in such a way, a file spells at most one table, and writing the nonzero entries of a tensor with all fields quoted and reading them back gives the tensor. A quote that is not the first character of a coordinate field makes read raise; a quote that is never closed is read as closed at the end of the file.",
  "every table of fields, every way of spelling it, every file, path, shape and value syntax",
  "infinitely many tables and exponentially many spellings of each; a test fixes one file",
  ["tensorD/dataproc/reader.py::TensorReader.read", "tensorD/dataproc/reader.py::TensorReader.full_data"])
p("A TensorReader always shows the data of its last successful read",
  "Whatever sequence of read calls, writes and removals of files happens, sparse_data and full_data of a reader are those of its last successful read, for the contents the file had at that moment and the shape given in that call, and None before the first success. A failing read leaves both unchanged and raises what reading the current contents raises (FileNotFoundError without a file, even if the extension is not supported), independently of earlier calls; later changes of the file have no effect until the next read.",
  "all histories of file changes and read calls of any length",
  "unbounded histories interleaved with changes of the file",
  ["tensorD/dataproc/reader.py::TensorReader.__init__", "tensorD/dataproc/reader.py::TensorReader.read", "tensorD/dataproc/reader.py::TensorReader.full_data", "tensorD/dataproc/reader.py::TensorReader.sparse_data"])
p("The numbering of the components does not matter",
  "Training from initial values whose components are renumbered (the same permutation of the columns of every factor for CP_ALS and NCP_BCU; one permutation per mode, of the factor's columns and of the core's indices along that mode, for NTUCKER_BCU) gives the same history, the same number of steps, the same reports, the same success or failure and the same full tensor; factors, weights and core are those of the original training with their components renumbered in the same way.",
  "every data tensor, every rank, every permutation, all initial values, every number of steps, every arguments and every earlier state of the object",
  "a test tries one permutation on one tensor; equality of two whole trainings for all permutations, including when a division by zero or a pseudo-inverse of a singular matrix occurs, needs the pseudo-inverse, the largest singular value, the products and the projections to commute with every permutation",
  [F+"cp.py::CP_ALS.train", F+"ncp.py::NCP_BCU.train", F+"ntucker.py::NTUCKER_BCU.train"])
p("An experiment's report states the training history",
  "The file an experiment script writes has one line per entry of the history train returned, in order; each line shows both numbers with ten digits after the point, wrong by at most half a unit of the tenth digit, and infinities and NaN by name. The history can therefore be read back from the file up to a unit of the tenth digit, exactly for multiples of that unit. A process killed while writing leaves the complete lines of the first entries and the beginning of the next one, and no other file is touched.",
  "every history of any length with any finite, infinite or NaN values, and every point at which the process is killed",
  "the claim is about all numbers, including ties, values that round up to a longer number and negative numbers that round to zero, and about every crash point",
  ["tensorD/ex/cp_ex.py::cp_run", "tensorD/ex/ncp_ex.py::ncp_run", "tensorD/ex/tucker_ex.py::tucker_run", "tensorD/ex/ntucker_ex.py::ntucker_run"])
p("Every experiment keeps its own report",
  "After any sequence of different experiments, some of which may fail, the report of every successful one is there: two experiments use the same file only if they are the same experiment, a failing one changes no file, and files not named after an experiment are left alone. The shell script runs exactly the experiments it is meant to run, each once, and ends. A script runs exactly on command lines whose first six arguments are integers; the first one that is missing or no integer raises IndexError or ValueError.",
  "all sequences of experiments, all outcomes of their trainings, all arguments, all previous contents of the files",
  "a collision shows only for particular pairs of arguments and orders; the scripts make thousands of calls that take days",
  ["tensorD/ex/cp_ex.py::cp_run", "tensorD/ex/ncp_ex.py::ncp_run", "tensorD/ex/tucker_ex.py::tucker_run", "tensorD/ex/ntucker_ex.py::ntucker_run", "tensorD/ex/ex_20_shell.sh", "tensorD/ex/ex_no_noise.sh"])
p("build_model fixes the array a training decomposes",
  "A training decomposes the array the data provider returned when build_model was last called successfully for that model. Later replacing the provider's function, letting the script's variables name other arrays, and building or training other models have no effect on it until build_model is called again; writing into the array has. If the array's shape has changed train raises ValueError, and a provider that supplies nothing makes build_model raise (NotImplementedError when no function was given) and leaves an earlier binding in place. A model whose build_model never succeeded cannot be trained: TypeError.",
  "every sequence of assignments, writes into arrays, changes of providers, build_model and train calls on any number of models",
  "unbounded histories with aliasing between variables, providers and models",
  [F+"env.py::Environment.full_data", F+"env.py::Environment.full_shape", F+"cp.py::CP_ALS.build_model", F+"tucker.py::HOOI.build_model", F+"ncp.py::NCP_BCU.build_model", F+"ntucker.py::NTUCKER_BCU.build_model", "tensorD/dataproc/provider.py::Provider.full_tensor"])
p("Verbosity and reporting interval do not change a training",
  "For CP, NCP, NTUCKER and HOOI, two trainings that differ only in `verbose` and `validation_internal` return the same history or raise the same exception and leave the same factors, weights or core and finish flag, as long as the interval is not 0 in a training that is not verbose. The full tensor may come from different steps; it is the same if both settings report the last executed step.",
  "every class, arithmetic, start, number of steps, tolerance, and every two reporting settings",
  "A test compares a few settings on one tensor; the interval enters the loop through a branch at every step of every run.",
  [F+"cp.py::CP_ALS.train", F+"ncp.py::NCP_BCU.train", F+"ntucker.py::NTUCKER_BCU.train", F+"tucker.py::HOOI.train"])
p("A looser tolerance never trains longer",
  "If every number below `tol` is below `tol'`, a training with `tol'` that starts like one with `tol` that returned also returns; its history is a non-empty beginning of the other one, and if it is all of it, factors and weights or core are the same.",
  "every class, arithmetic, start and number of steps and every two such tolerances",
  "The early stop depends on a counter over the whole history of objectives; a test sees single histories.",
  [F+"cp.py::CP_ALS.train", F+"ncp.py::NCP_BCU.train", F+"ntucker.py::NTUCKER_BCU.train", F+"tucker.py::HOOI.train"])
p("A training that ran into NaN is not taken for converged",
  "A step whose objective and relative residual are NaN never ends a training early: the training executes all its steps or ends at a step with a number. If the objective of the first step is NaN, no later objective can end the training by stalling, because the reference value stays NaN, also in NCP and NTUCKER, which replace it by smaller objectives.",
  "every class, every arithmetic in which operations with NaN give NaN and comparisons with NaN are false, and every run",
  "NaN appears only on degenerate data, and at any step; the test suite never produces one.",
  [F+"cp.py::CP_ALS.train", F+"ncp.py::NCP_BCU.train", F+"ntucker.py::NTUCKER_BCU.train", F+"tucker.py::HOOI.train"])
p("The reported errors are accurate for the tensors they compare",
  "In floating-point arithmetic with unit roundoff u < 1 and any summation order, `l2`, `rmse`, `rmse_ignore_zero` and the objective and relative residual reported by the trainings differ from the exact values for the stored tensors (N entries) only by a factor between (1-u)^(N+9) and its inverse; the reported residual is 0 exactly if the reconstruction equals the data; a residual reported below `tol` is really below tol/(1-u)^(N+6).",
  "every two tensors of one shape with floating-point entries, every rounding of relative error u and every order of the additions",
  "Rounding errors depend on the values and on the summation order chosen by the kernels; a test compares a few values with a tolerance.",
  ["tensorD/loss.py::l2", "tensorD/loss.py::rmse", "tensorD/loss.py::rmse_ignore_zero", F+"cp.py::CP_ALS.build_model", F+"tucker.py::HOOI.build_model", F+"ncp.py::NCP_BCU.build_model", F+"ntucker.py::NTUCKER_BCU.build_model"])
p("Which initial factors matter for CP_ALS",
  "Training `CP_ALS` from two sets of initial factors that differ only in mode 0 is the same training: the same history or error, the same reports, the same attributes afterwards. The same holds when, in addition, columns of the other initial factors are multiplied by positive numbers, provided the least-squares problems of the first step have one solution (the rank-one tensors of the other factors are linearly independent), always the case for rank 1 with positive data and positive initial factors.",
  "every tensor of order 2 to 25, every rank, all initial factors, every pseudo-inverse routine, arguments and earlier state of the object",
  "Initial factors are random and continuous; a test compares a few draws, and equal results of two draws do not show which part of a draw matters.",
  [F+"cp.py::CP_ALS.build_model", F+"cp.py::CP_ALS.train"])
p("What a Tucker decomposition determines",
  "Singular vectors are not unique, so two installations may give different factors. Whenever the leading singular values of the matricisations (for `HOSVD`, of the data; for `HOOI`, of every matrix a step looks at) are separated from the others, everything a user sees that does not name a basis is the same with every correct singular value routine: the reconstructed tensor, the subspace spanned by each factor, the norm of the core, and for `HOOI` also the history of losses, the stopping step and all reports. Without the separation the reconstructed tensor does depend on the routine.",
  "every pair of correct SVD routines, every real tensor of order 2 to 13 and all ranks with separated singular values, all training arguments and earlier states of the object",
  "A test runs on one installation with one SVD routine; the set of correct routines is infinite.",
  [F+"tucker.py::HOSVD.train", F+"tucker.py::HOOI.build_model", F+"tucker.py::HOOI.train"])
p("Tucker decompositions do not depend on the coordinates",
  "Multiplying the data in each mode by an orthogonal matrix (in particular renumbering the indices of a mode), multiplies the tensor reconstructed by `HOSVD` and `HOOI` and the subspaces of their factors by the same matrices and leaves the norm of the core, the relative residuals, the stopping step and the reports as they were, whenever the leading singular values are separated. For renumberings the whole history is the same.",
  "every real tensor of order 2 to 13, all ranks with separated singular values, all orthogonal matrices, all renumberings, every pair of correct SVD routines, all training arguments and earlier states",
  "Orthogonal matrices form a continuum, and the data, the ranks and the number of steps are unbounded.",
  [F+"tucker.py::HOSVD.train", F+"tucker.py::HOOI.build_model", F+"tucker.py::HOOI.train"])
p("Overflow, infinities and NaN are never hidden by the tensor operations",
  "In arithmetic with a largest number, where larger results become infinite and undefined ones NaN, `inner`, `mul`, `ttm`, `hadamard`, `kron`, `khatri` and the reconstruction of Kruskal and Tucker tensors raise the same exceptions as with unbounded exponents, and every entry of the result that is a number is the number computed with unbounded exponents. An infinite operand makes every entry it enters infinite or NaN, and a NaN makes it NaN: no entry that looks like a number was computed from one that is not.",
  "all tensors with finite, infinite and NaN entries, every format, every rounding function of relative error at most 1 and every order of evaluating the sums",
  "overflow depends on the values and on the summation order; a test sees a few values in one order",
  ["tensorD/base/ops.py::inner", "tensorD/base/ops.py::mul", "tensorD/base/ops.py::ttm", "tensorD/base/ops.py::hadamard", "tensorD/base/ops.py::kron", "tensorD/base/ops.py::khatri", "tensorD/base/type.py::KTensor.extract", "tensorD/base/type.py::TTensor.extract"])
p("Overflow, infinities and NaN show in the reported errors",
  "`l2`, `rmse`, `rmse_ignore_zero` and the objective and relative residual of the trainings are numbers only if all entries of both tensors are, also at positions `rmse_ignore_zero` ignores, and they are then the numbers computed with unbounded exponents. A training that ends before its last step ends with an input and a reconstruction that consist of numbers; if the input has an infinite entry or NaN, all steps are executed and every reported residual is NaN. (For the relative residual of inputs whose squares overflow the claim about the value is false: it is reported as 0.)",
  "all tensors with finite, infinite and NaN entries, every format, rounding and order of summation, every class of model, start, tolerance and number of steps",
  "overflow depends on the values and on the summation order, and can happen at any step of a training",
  ["tensorD/loss.py::l2", "tensorD/loss.py::rmse", "tensorD/loss.py::rmse_ignore_zero", F+"cp.py::CP_ALS.train", F+"tucker.py::HOOI.train", F+"ncp.py::NCP_BCU.train", F+"ntucker.py::NTUCKER_BCU.train"])
p("With one component the iterative methods perform the same iteration",
  "With rank 1 (all ranks 1), `CP_ALS`, `NCP_BCU`, `NTUCKER_BCU` and `HOOI` report about the reconstructions of the classical alternating least squares: in every step the vector of each mode, in order, is replaced by the one that fits the data best while the other vectors are held. This holds although CP normalises the columns, NCP and NTUCKER rescale the draws, take gradient steps at extrapolated points and may restart, and NTUCKER trains a core. For a nonnegative tensor and nonnegative draws NCP and NTUCKER report, step by step, the history of CP_ALS started at the same draws; HOOI performs the iteration from the leading singular vectors, unless they are orthogonal to the tensor, which they never are for a positive one.",
  "all tensors of order 2 to 13 (CP and NCP: 25; NCP and NTUCKER: nonnegative ones), all initial draws (NCP and NTUCKER: nonnegative ones), all arguments, numbers of steps and stopping points, every pseudo-inverse and SVD routine meeting its contract",
  "the histories are compared at every step of trainings of any length for every tensor; a test compares a few steps of a few tensors up to a tolerance",
  [F+"cp.py::CP_ALS.build_model", F+"ncp.py::NCP_BCU.build_model", F+"ntucker.py::NTUCKER_BCU.build_model", F+"tucker.py::HOOI.build_model"])
p("With one component the nonnegative methods never get worse and do not break down on positive data",
  "With rank 1 the relative residuals reported by `NCP_BCU` never rise from one step to a later one, for any tensor and any draws, although the method extrapolates; with all ranks 1 the same holds for `NTUCKER_BCU` on nonnegative tensors with nonnegative draws. On a tensor with positive entries and positive draws the initialisation and every step of `NCP_BCU` and of `NTUCKER_BCU` (all ranks 1, positive core draw) succeed, so `train` returns for every number of steps. With all ranks 1 and nonnegative data the core update of `NTUCKER_BCU` returns the core that fits the data best for the current factors.",
  "all tensors of order 2 to 25 (NTUCKER: 13), all draws, tolerances and numbers of steps",
  "monotonicity must hold at every step of every training; extrapolated methods are typically not monotone and rise after many steps",
  [F+"ncp.py::NCP_BCU.train", F+"ntucker.py::NTUCKER_BCU.train", F+"ncp.py::NCP_BCU.build_model"])
p("HOSVD results with different ranks agree, and a full core has orthogonal slices",
  "HOSVD run on the same tensor with larger ranks returns the smaller result extended: the factors of the smaller run are the first columns of the factors of the larger run, the smaller core is the corner of the larger core, and the squared error of the smaller run is that of the larger run plus the squares of the core entries that were cut off, so raising any rank never makes the result worse. When the ranks keep everything, slices of the core along a mode are orthogonal to each other and their norms are the singular values of the unfolding along that mode.",
  "all real tensors with 1 to 13 modes and positive sizes, all pairs of rank lists ordered entrywise, all results of a correct singular value decomposition",
  "a test compares a few ranks on a few tensors and cannot separate a truncated singular vector from a recomputed one for every tensor and rank",
  [F+"tucker.py::HOSVD.build_model", "tensorD/base/ops.py::ttm", "tensorD/base/ops.py::unfold"])
p("The reported errors describe the exposed factors in rounded arithmetic",
  "In floating-point arithmetic with any rounding of relative error u, the residual and objective a training reports are those of the factors it exposes, up to rounding that is bounded explicitly: the reported residual lies between the exact residual of the exact Kruskal or Tucker tensor of the exposed factors minus and plus the rounding of the reconstruction, up to a factor (1-u)^(N+6) for N entries. The rounding of the reconstruction is at most (1+u)^k - 1 times the norm of the tensor built from the absolute values of the factors (for nonnegative factors: of the reconstruction itself), relative to the norm of the data. A training that stops because the reported residual is below the tolerance therefore has exposed factors whose exact residual is below the tolerance up to these terms.",
  "all data tensors, factors, weights and cores of every shape, all rounding functions with relative error below 1 and every order of summation, all tolerances",
  "the exact residual of the factors is not available in floating point, so a test can only compare two rounded numbers",
  [F+"cp.py::CP_ALS.build_model", F+"ncp.py::NCP_BCU.build_model", F+"tucker.py::HOOI.build_model", F+"ntucker.py::NTUCKER_BCU.build_model", "tensorD/base/type.py::KTensor.extract", "tensorD/base/type.py::TTensor.extract"])
p("Several tensor-times-matrix calls obey the laws of matrix algebra: composition, splitting, identity, linearity, adjoint, isometry",
  "For every tensor of order at most 13 and every non-empty list of distinct modes: ttm(ttm(X, As, modes), Bs, modes) is ttm(X, Cs, modes) with C = mul(B, A, 1, 0) for each mode; one call with the matrices of two disjoint lists of modes is the same as two calls, with or without transpose; identity matrices give X back; ttm(xX + yY, ms) = x ttm(X, ms) + y ttm(Y, ms); inner(ttm(X, ms), Y) = inner(X, ttm(Y, ms, transpose=True)); and when the columns of all matrices are orthonormal, inner(ttm(X, ms), ttm(Y, ms)) = inner(X, Y).",
  "every commutative semiring, every tensor of order at most 13, every list of distinct modes and every conformable list of matrices",
  "The laws relate several calls for all shapes, mode lists and matrices; a test compares a few of them on numbers.",
  ["tensorD/base/ops.py::ttm", "tensorD/base/ops.py::mul", "tensorD/base/ops.py::inner"])
p("A coordinate may be written in every way an integer can be written, and in no other",
  "A coordinate field of a coordinate file is accepted exactly when it consists of white space (space, tab, newline, vertical tab, form feed, carriage return), an optional sign, groups of decimal digits separated by single underscores, and white space; the coordinate is then the number these digits denote. Any other text makes read raise ValueError. Two files whose rows have equally many fields, the same coordinates however they are written, and the same values, are read alike.",
  "every file content, every table of rows with the same number of fields, every way to write each coordinate, every given shape or none",
  "The forms of one integer are unbounded (leading zeros, white space, underscores) and a parser can be wrong for one character in one position; tests try a few spellings.",
  ["tensorD/dataproc/reader.py::TensorReader.read"])
p("Inner products, sums and conversions of Kruskal and Tucker tensors can be computed from the factors",
  "The inner product of the tensors extracted from two KTensors of the same shape is the sum over r, s of lambda_r mu_s H[r, s], with H the hadamard product of the matrices mul(U_n, V_n, 0, 0). A KTensor extracts to the same tensor as the TTensor with the same factors and the weights on the superdiagonal of the core. Putting the factors of two KTensors side by side and the weights one after the other extracts to the sum. The inner product of an extracted TTensor with any tensor X is the inner product of the core with ttm(X, factors, transpose=True); for orthonormal factors the inner product of two extracted TTensors is that of their cores.",
  "every commutative semiring, every shape and rank, all factors and weights (order at most 13 for TTensor, 25 for KTensor), all cores",
  "The identities relate different code paths (khatri, einsum, mul, hadamard) for all sizes; tests check numbers for a few.",
  ["tensorD/base/type.py::KTensor.extract", "tensorD/base/type.py::TTensor.extract", "tensorD/base/ops.py::inner", "tensorD/base/ops.py::hadamard", "tensorD/base/ops.py::mul", "tensorD/base/ops.py::ttm"])
p("No training reports an error below what the ranks allow",
  "Let s_1 >= s_2 >= ... be the singular values of the mode-n unfolding of the data. Every residual r in the history of CP_ALS or NCP_BCU trained with R components, and of HOOI or NTUCKER_BCU trained with rank R in mode n, satisfies (r * ||X||)^2 >= s_{R+1}^2 + s_{R+2}^2 + ..., for every mode n, every initial value, tolerance and number of steps. The squared error of HOSVD lies between the largest of these sums over the modes and their total.",
  "all data tensors of nonempty modes, ranks, modes, initial values, tolerances, step counts, SVD and pseudoinverse routines",
  "a lower bound over all trainings is a statement about every starting point and every length; a test sees a few of them",
  [F+"cp.py::CP_ALS.train", F+"ncp.py::NCP_BCU.train", F+"tucker.py::HOOI.train", F+"tucker.py::HOSVD.train", F+"ntucker.py::NTUCKER_BCU.train", "tensorD/base/ops.py::unfold"])
p("The order of the modes does not matter, except to the methods that sweep over them",
  "Putting the modes of the data in another order commutes with everything that treats the modes alike. transpose succeeds exactly for permutations of the modes and moves every entry to the permuted index. The Kruskal tensor of the factors in another order, and the Tucker tensor of the transposed core and the factors in that order, extract to the transposed tensor. The losses and the inner product of two tensors do not change when both are transposed. HOSVD of the transposed data with the ranks in that order returns the transposed reconstruction, factors spanning the same spaces, a core of the same norm and the same reported errors, whenever the kept singular values are separated from the dropped ones. CP_ALS sweeps over the modes in order and its reports do depend on it: a symmetric 2 x 2 matrix fitted from the same two vectors, swapped, reports different residuals from the first step on.",
  "all tensors, permutations of the modes, factor lists, cores, ranks and SVD routines",
  "one transposed example cannot show invariance under every permutation of any number of modes",
  ["tensorD/base/type.py::KTensor.extract", "tensorD/base/type.py::TTensor.extract", "tensorD/loss.py::l2", "tensorD/loss.py::rmse", "tensorD/loss.py::rmse_ignore_zero", "tensorD/base/ops.py::inner", F+"tucker.py::HOSVD.train", F+"cp.py::CP_ALS.train"])
# The sizes the theorems assume where the quantifier above does not say so: the letters of one einsum run out beyond
# 13 (ttm, Tucker) or 25 (khatri, Kruskal) modes, see C13, and the unfoldings need at least two nonempty modes.
SIZES = {
    "1 to 13 matrices": ["C17", "C22"],
    "at most 25 kept matrices": ["C19"],
    "at least 2 factors, nonempty mode": ["C24"],
    "order 2 to 13, nonempty mode": ["C28"],
    "order 2 to 25, nonempty modes": ["C50", "C51", "C52", "C55", "C72", "C91", "C99"],
    "order at most 25 for NCP_BCU and 13 for NTUCKER_BCU": ["C53", "C54", "C83"],
    "order 1 to 13, nonempty modes": ["C56", "C59"],
    "order 2 to 13 (HOSVD: 1 to 13), nonempty modes": ["C57"],
    "order 2 to 13, nonempty modes": ["C58", "C74", "C75", "C90", "C100"],
    "at most 25 modes for synthetic_data_cp and 13 for synthetic_data_tucker": ["C70"],
    "1 to 13 nonempty modes, 2 to 13 for HOOI": ["C104"],
    "order 2 to 25 for CP_ALS, 2 to 13 for HOOI, nonempty modes": ["C89"],
    "order 2 to 25 for CP_ALS and NCP_BCU, 2 to 13 for HOOI and NTUCKER_BCU, nonempty modes":
        ["C78", "C79", "C81", "C84", "C95", "C102", "C103", "C105", "C110", "C113", "C133"],
    "order at most 13 for ttm and the Tucker methods": ["C106", "C124", "C129", "C134"],
}
for size, ids in SIZES.items():
    for x in P:
        if x['id'] in ids: x['quantifier'] += ' (' + size + ')'
p('A value may be written in every way the number syntax allows, and in no other',
  'The value in the last field of a row may be written with blanks around it, a sign, digits with single underscores between them, a decimal point with digits on either side, an exponent, or as inf, infinity or nan in any mixture of cases; it then stands for exactly the number so written, rounded to the format. A text writes at most one number. In a table with integer coordinates reading succeeds exactly if every value is written in such a way and raises ValueError otherwise. A tensor written with any printer whose texts stand for the values printed, infinities and NaN included, is read back unchanged, and every number of a binary format has such a text.',
  'all texts, all tables of every size and order, all formats of numbers with overflow, all tensors of every order and all printers',
  'the texts of a number are infinitely many and tests read a few of them',
  ["tensorD/dataproc/reader.py::TensorReader.read","tensorD/dataproc/reader.py::TensorReader.full_data"])
p("The nonnegative trainings stay nonnegative and complete under rounding, overflow and NaN",
  "NCP_BCU and NTUCKER_BCU run in float32: every operation is rounded, results beyond the largest number become infinite, undefined operations (0/0 after a factor has vanished, infinity minus infinity) become NaN. Whatever happens on the way, after any sequence of train calls no entry of the exposed factors, core, weights or full tensor compares less than zero, and the exposed tensors have the shapes of a decomposition of the data. Moreover no rounding, overflow, division by zero or NaN makes train raise: if the singular value routine returns something for every matrix, a call with at least one step returns its history, and factors and full tensor are exposed.",
  "every tensor of order 2..25 (NCP) or 2..13 (NTUCKER) without empty modes, with any entries including infinities and NaN; every rank, every random draw, every format (rounding function with relative error at most 1 that fixes 1, evaluation order of every sum, largest number); every singular value routine; every sequence of train calls",
  "the property concerns the worst case over roundings and overflows, which depend on hardware, data and random draws; a test sees one arithmetic and one run",
  ["tensorD/factorization/ncp.py: NCP_BCU.build_model, NCP_BCU.train", "tensorD/factorization/ntucker.py: NTUCKER_BCU.build_model, NTUCKER_BCU.train"])
p("CP_ALS in rounded arithmetic: normalised columns, numbers, and the only way to raise",
"With every operation of CP_ALS rounded, overflow giving infinities, and division by zero giving infinities or NaN: (1) after any history of train calls every column of an exposed factor whose entries are all numbers contains an entry that is exactly 1, and, if rounding preserves order, no entry of it is above 1 or none is below 1; (2) since the pseudo-inverse raises on infinities and NaN, the exposed factors of all modes but the last consist of numbers, and in a call that returns the factors of all modes after every step but the last do; the weight of a column of numbers of the last mode is a number other than zero; (3) train returns a history or raises what the pseudo-inverse raised, nothing else; (4) on the zero tensor train never returns.",
"every floating-point format with the standard model of rounding and an overflow threshold, every order of the sums inside the kernels, every tensor of order 2 to 25 with any entries including infinities and NaN, every rank, all initial factors, every pseudo-inverse, every history of train calls, every tolerance and number of steps",
"A test runs one format on one tensor; which factors can hold a NaN after some step depends on where overflow or a zero column appears, in any of unboundedly many steps.",
["tensorD/factorization/cp.py: CP_ALS.build_model, CP_ALS.train","tensorD/base/ops.py: khatri, hadamard","tensorD/base/type.py: KTensor.extract"])
p("A training that stops by its own criterion in rounded arithmetic exposes only numbers",
"When CP_ALS, HOOI, NCP_BCU or NTUCKER_BCU returns before its last step, in floating point arithmetic with rounding, overflow, infinities and NaN, then the data contain no infinity and no NaN, and everything the training exposes consists of numbers: all entries of all factors and, for CP_ALS, all weights, for HOOI and NTUCKER_BCU, all entries of the core. For CP_ALS every column of every factor contains an entry that is exactly 1 and no weight is 0; for the nonnegative trainings no exposed number is negative. An overflow or NaN anywhere in the exposed factorization therefore always uses up all the steps: it can never be taken for convergence.",
"All formats and rounding functions of the float model, all pseudo-inverses and singular value decompositions that keep sizes and all routines for singular values, all data of order 2 to 25 (HOOI and NTUCKER_BCU 2 to 13) with positive dimensions, ranks, tolerances (including infinite and NaN), numbers of steps, initial values of the variables of the right shapes, and previous states of the object.",
"The claim is about every way rounding can go wrong during a training; tests exercise a handful of well-scaled tensors on one machine.",
["tensorD/factorization/cp.py:CP_ALS.train","tensorD/factorization/tucker.py:HOOI.train","tensorD/factorization/ncp.py:NCP_BCU.train","tensorD/factorization/ntucker.py:NTUCKER_BCU.train"])
p("HOSVD and HOOI in rounded arithmetic: the only ways to raise, and what is exposed",
"With every operation of HOSVD and HOOI rounded, overflow giving infinities and undefined results NaN, and a singular value decomposition that keeps sizes but may return any entries: (1) HOSVD and, for admissible ranks (each at most its dimension and at most the product of the other ranks), HOOI training raise only what the decomposition raises, so with a decomposition that always returns they always return; (2) with such a decomposition HOOI training returns exactly when the ranks are admissible, so no NaN makes inadmissible ranks pass; (3) what is exposed has the sizes asked for (HOSVD: cut to the number of columns there are), and the exposed core is, to the last bit, the data times the transposed exposed factors as computed in that arithmetic; with verbose output the exposed full tensor is the computed reconstruction from the exposed core and factors.",
"All formats and rounding functions of the float model, all decompositions that keep sizes, all data (including infinities and NaN) of order 2 to 13 (HOSVD 1 to 13) with positive dimensions, all ranks, tolerances, numbers of steps and previous states of the object.",
"Overflow and NaN can occur in any operation of any step; tests run on a few well-scaled tensors.",
["tensorD/factorization/tucker.py:HOSVD.build_model","tensorD/factorization/tucker.py:HOSVD.train","tensorD/factorization/tucker.py:HOOI.build_model","tensorD/factorization/tucker.py:HOOI.train"])
p("With increasing precision the trainings converge to the exact ones",
"Run HOSVD, HOOI, CP_ALS, NCP_BCU or NTUCKER_BCU in a sequence of floating-point formats whose relative rounding error tends to zero and whose largest number tends to infinity, with the data, the initial factors or draws and the tolerance rounded to the format and every operation rounded, overflowing to infinities and giving NaN where undefined. If the training in exact arithmetic returns and none of the comparisons it decides on is an equality (relative residual and stall quotient against the tolerance; for the extrapolating classes the objective against its reference), then from some precision on the rounded training returns, with the same number of steps and the same reported steps, and its factors, weights or core, reconstruction, losses and relative residuals are numbers that converge to the exact ones. The library routines for singular values, pseudo-inverses and singular vectors are assumed to converge where the exact ones return; the true largest singular value and the true inverse, rounded, do. For CP_ALS with rank one, positive data and positive initial factors nothing is assumed about the pseudo-inverse beyond being the true one, rounded. For fixed data, initial values and number of steps only finitely many tolerances are ties of the residual or stall test.",
"All sequences of formats (rounding functions, overflow thresholds, orders of summation may vary) with precision and range growing without bound, all convergent library routines, all data, ranks, initial values, tolerances without ties, numbers of steps and previous states of the object.",
"The claim is about a limit: no finite set of runs at fixed precisions shows convergence, nor that the decisions of every longer loop eventually agree.",
["tensorD/factorization/cp.py:CP_ALS.train","tensorD/factorization/tucker.py:HOSVD.train","tensorD/factorization/tucker.py:HOOI.train","tensorD/factorization/ncp.py:NCP_BCU.train","tensorD/factorization/ntucker.py:NTUCKER_BCU.train"])
p("A larger tolerance only stops the same training sooner",
"Take two trainings of the same class from the same initial values with the same arguments except the tolerance. If the one with the smaller tolerance returns, so does the one with the larger tolerance; its history and its reported steps are an initial part of those of the other, and if it stops at the same step the objects are equal afterwards. This holds in exact arithmetic and, also in the presence of infinities and NaN, in rounded arithmetic.",
"All classes with a training loop (CP_ALS, HOOI, NCP_BCU, NTUCKER_BCU), all data, ranks, initial values, validation intervals, numbers of steps, previous states of the object, and all pairs of comparable tolerances (in rounded arithmetic the smaller one may be NaN).",
"The stopping rule combines two tests and a counter of stalled steps, and the extrapolating classes change their state after every comparison; that no tolerance changes the path, only its end, is a statement about all pairs of runs.",
["tensorD/factorization/cp.py:CP_ALS.train","tensorD/factorization/tucker.py:HOOI.train","tensorD/factorization/ncp.py:NCP_BCU.train","tensorD/factorization/ntucker.py:NTUCKER_BCU.train"])

p("A program with DTensor objects computes what the same program with functions computes",
  "Every program over DTensor objects (construction, mul, unfold, t2mat, vectorize, kron, khatri, fold, +, -, *, indexing, in any order and number, exceptions caught) gives statement by statement the same tensors and the same exceptions as the program written with the functions of tensorD.base.ops on plain tensors, and the tensor in an object never changes.",
  "every program, every history of calls on every object",
  "object histories: the effect of a call on later calls needs all call sequences",
  ["tensorD/base/type.py::DTensor"])
p("Indexing and iterating over a DTensor",
  "d[i_0, .., i_k] is the subtensor at these indices, negative indices count from the end, and indices out of range or too many of them raise ValueError; d[a][b] = d[a, b]. Iterating over d gives the slices d[0], d[1], ... and ends after the last one.",
  "every DTensor, every list of integer indices",
  "all shapes and indices; the end of the loop depends on which exception the last access raises",
  ["tensorD/base/type.py::DTensor.__getitem__"])
p("The random positions of the pairwise-interaction recovery are unbiased",
  "Averaged over all equally likely draws of sample3D_rule: the mean of the sampled entries is the mean of the tensor, with mean square deviation variance / sample_num; sampling a matrix and applying adjoint_operator gives the matrix times one factor, (1 - (1 - 1/(rows*cols))^sample_num) / sqrt(third size), for the numpy and the TensorFlow operators; the squared loss recorded in the first iteration of exact_recovery is the mean square of the tensor, and its relative error is 1.",
  "every tensor or matrix, every shape, every number of samples, all draws together",
  "a statement about the distribution over all draws; a test sees finitely many seeds",
  ["tensorD/base/pitf_ops_numpy.py::sample3D_rule", "tensorD/base/pitf_ops_numpy.py::adjoint_operator", "tensorD/base/pitf_ops.py::adjoint_operator", "tensorD/factorization/pitf_numpy.py::PITF_np.exact_recovery"])
p("The rating scripts turn one table of ratings into four independent reports",
  "Each of ml_cp.py, ml_ncp.py, ml_tucker.py and ml_ntucker.py decomposes exactly the 943 x 1682 x 31 tensor that the file of ratings describes and writes a report that states the training history, one line per step. A script that fails - no file, a rating outside the range, an exception of the training - leaves all files as they were. Run in any order, the scripts do not disturb each other's reports or the ratings. On every table in range, whatever its values, the scripts for NCP, Tucker and non-negative Tucker end with a report of at least one line and at most 100, 100 and 2000 lines in rounded arithmetic; the one for CP does so or raises what the pseudo-inverse raised.",
  "all contents of the file of ratings, all other files, all orders of the scripts, all random draws, all results of the linear algebra routines, all roundings",
  "The claim quantifies over file contents, execution orders and float behaviour; the scripts take hours on the data they are meant for.",
  ["tensorD/ex/ml_cp.py","tensorD/ex/ml_ncp.py","tensorD/ex/ml_tucker.py","tensorD/ex/ml_ntucker.py","tensorD/dataproc/reader.py: TensorReader.read"])
p("An axis counted from the end is never silently misread",
"When a list of axes for the tensor contraction contains a negative number, or the axis list for the tensor-times-matrix product does, the call either treats it as that axis counted from the end or raises an exception; it never returns the result for other axes. (For the contraction every negative axis raises. For the tensor-times-matrix product a negative axis raises for tensors with up to six axes, and -1 to -6 raise always; with seven axes or more an axis of -7 or below returns wrong numbers.)",
"every pair of tensors, every list of integer axes, every list of matrices, both transposition settings, every behaviour of the library's transpose on negative entries",
"A negative axis is valid in the surrounding numpy world; the code computes characters or permutations from it, so what happens depends on the number of axes and on the number itself. Tests with three or four axes see only exceptions; the silent failure starts at seven axes.",
["tensorD/base/ops.py:t2mat","tensorD/base/ops.py:mul","tensorD/base/ops.py:ttm"])
p("The contraction computes the matrix products its documentation names",
"For two matrices, contracting the second axis of A with the first of B returns AB, and contracting the first axis of A with the second of B returns BA, as the documentation says. (The first holds. The second call returns the transpose of BA, with the transposed shape; for square matrices nothing in the result shows it.)",
"every pair of matrices with fitting sizes, over every commutative ring",
"Equality of all entries of products of matrices of every size; the documented example uses random numbers and checks nothing.",
["tensorD/base/ops.py:mul"])
p("What the numpy pairwise-interaction recovery depends on",
"The numpy recovery is a function of the data and of the set of drawn positions: it returns the same matrices and histories whichever correct singular value decomposition the library computes; renumbering the indices of a mode in data and draws renumbers the result; measuring data and threshold in another unit measures the result in this unit and leaves the relative errors unchanged; and, when no pair of indices is drawn twice, the order of the draws does not matter.",
"every tensor, sizes, drawn positions, number of steps, step size, non-negative threshold, every correct decomposition, permutation of indices or of draws, non-zero unit",
"The decomposition is chosen by the platform (signs, bases for repeated singular values), so two runs on one machine cannot show independence; the statement ranges over all solvers, all permutations and all steps.",
["tensorD/factorization/pitf_numpy.py:PITF_np.exact_recovery", "tensorD/base/pitf_ops_numpy.py:shrink"])
p("The TensorFlow shrinkage does not depend on the decomposition the platform returns",
"The TensorFlow shrink of a matrix is determined by the matrix and the threshold. (False: it multiplies with V where V transposed is meant, so flipping the sign of a pair of singular vectors, which every solver is free to do, changes the result. The products of rows of the result, and with them its singular values, are determined and agree with the numpy version.)",
"every matrix of every size, every non-negative threshold, every pair of correct solvers",
"On one machine the solver is fixed; a test compares the result with itself. The counterexample is built from an arbitrary solver.",
["tensorD/base/pitf_ops.py:shrink", "tensorD/base/pitf_ops.py:SVT", "tensorD/factorization/pitf.py:PITF.train"])
p("The history bounds how far CP_ALS and HOOI are from a block-wise optimum",
"In every training of CP_ALS or HOOI: when a step comes to a mode, no matrix in its place (with whatever weights or core) has a smaller error than the step ends with. So the last factor of every iterate, also of the result, cannot be improved with the others kept; and changing only the first factor of an iterate lowers the squared error by at most ||X||^2 times the difference of the squares of its residual and the next one in the history.",
"every tensor, rank(s), initialization, arguments, number of steps, linear algebra routine, every step and mode, every replacement (exact arithmetic; order 2 to 25 for CP_ALS, 2 to 13 for HOOI, nonempty modes)",
"Ranges over all replacements of a factor at all steps of all trainings.",
["tensorD/factorization/cp.py:CP_ALS.train", "tensorD/factorization/tucker.py:HOOI.train"])
p("What the iterates of CP_ALS and HOOI converge to",
"Train without stopping test for more and more steps. If the exposed factors (and weights or core) converge, the limit is a block-wise optimum: no other matrix for any one mode, with whatever weights or core, has a smaller error. If only a subsequence converges, this holds for the first and the last mode. For HOOI there always is a convergent subsequence.",
"every tensor, rank(s), initialization and linear algebra routine, all limits and all subsequences (exact arithmetic; order 2 to 25 for CP_ALS, 2 to 13 for HOOI, nonempty modes)",
"A statement about limits of unboundedly long trainings.",
["tensorD/factorization/cp.py:CP_ALS.train", "tensorD/factorization/tucker.py:HOOI.train"])
p("What the iterates of NCP_BCU and NTUCKER_BCU converge to",
"Train without stopping test for more and more steps. If the exposed factors (and core) converge, then the limit cannot be improved by another nonnegative matrix for one mode (or another nonnegative core), or else only finitely many of the trainings end with a smaller error than all shorter ones. With one component NCP_BCU always converges to such an optimum, if it converges.",
"every tensor, rank(s), draws and singular value routine, all limits (exact arithmetic; order 2 to 25 for NCP_BCU, 2 to 13 for NTUCKER_BCU, nonempty modes)",
"A statement about limits of unboundedly long trainings.",
["tensorD/factorization/ncp.py:NCP_BCU.train", "tensorD/factorization/ntucker.py:NTUCKER_BCU.train"])
p("NCP_BCU and NTUCKER_BCU keep an exact fit for ever",
"If the normalised draws already reproduce a nonzero tensor, every training returns whatever the number of steps and the tolerance, exposes exactly the factors (and core) it started with, and reports residual 0 at every step.",
"every nonzero tensor, rank(s), draws that fit, arguments (validation interval not 0), number of steps, singular value routine (exact arithmetic; order 2 to 25 for NCP_BCU, 2 to 13 for NTUCKER_BCU, nonempty modes)",
"Ranges over all numbers of steps; a test can only show that the fit survives the steps it runs.",
["tensorD/factorization/ncp.py:NCP_BCU.train", "tensorD/factorization/ntucker.py:NTUCKER_BCU.train"])
p("On positive data NCP_BCU and NTUCKER_BCU never break down, whatever the rank",
"Let the tensor have positive entries only, and let some component (for NTUCKER_BCU: some entry of the core, which must be drawn positive, and its columns) have a positive entry in the draw of every mode. Then the initialisation and every training return, whatever the number of steps and the tolerance: no Lipschitz constant is ever 0 and nothing divides by 0. The exposed model is not zero, and every row of every exposed factor contains a positive entry. For nonnegative data this is false: the first step may already divide by 0.",
"every positive tensor, rank(s), draws as described, arguments (validation interval not 0), number of steps, singular value routine (exact arithmetic; order 2 to 25 for NCP_BCU, 2 to 13 for NTUCKER_BCU, nonempty modes)",
"The absence of a division by zero in every step of every training; a test sees the steps it runs.",
["tensorD/factorization/ncp.py:NCP_BCU.train", "tensorD/factorization/ntucker.py:NTUCKER_BCU.train"])
p("Which experiments of the shell scripts leave a report",
  "Every call of ex_20_shell2.sh ends and writes its report, with between one line and one line per step, provided the singular value routines return for every matrix. The same holds of every call of ex_20_shell.sh except those of tucker_ex.py that ask for a rank above the size of the tensor; these always raise and write nothing, so the script leaves 100 reports fewer than it plans. cp_ex.py may in addition raise what the pseudo-inverse raised, and then writes nothing.",
  "every call of the two scripts, every generated tensor, every random draw, every singular value decomposition and every rounded arithmetic",
  "The scripts run thousands of trainings on random data; whether one of them fails after an hour depends on the data, and no finite set of runs shows that all of them leave a report.",
  ["tensorD/ex/ex_20_shell.sh", "tensorD/ex/ex_20_shell2.sh", "tensorD/ex/cp_ex.py:cp_run", "tensorD/ex/ncp_ex.py:ncp_run", "tensorD/ex/tucker_ex.py:tucker_run", "tensorD/ex/ntucker_ex.py:ntucker_run"])
p("The demonstration programs run to their end and print what they should",
  "multigraph_demo.py prints 0 in every pass, however many passes it makes: each pass decomposes data that has a Tucker decomposition with the ranks it asks for, full is that data, and the models of the passes do not disturb each other. cp_demo.py, ncp_demo.py, tucker_demo.py and ntucker_demo.py end on all the data they may generate; only cp_demo.py may raise, and only what the pseudo-inverse raised.",
  "every number of passes and every singular value decomposition (multigraph_demo.py, exact arithmetic); every data of the generated size, every random draw and every rounded arithmetic (the others)",
  "The demos run on random data and with the singular vectors the platform chooses; a run shows one outcome.",
  ["tensorD/demo/multigraph_demo.py", "tensorD/demo/cp_demo.py", "tensorD/demo/ncp_demo.py", "tensorD/demo/tucker_demo.py", "tensorD/demo/ntucker_demo.py", "tensorD/factorization/tucker.py:HOOI.train"])
p("exact_recovery accepts exactly the calls it can finish, and the rank is only a gate",
  "exact_recovery(args, tensor) of the numpy version returns exactly when the tensor has three non-empty modes and any further modes have size one, sample_num and steps are at least one, and the rank is neither 0 nor two thirds of the sum of the three sizes (for these the printed degree of freedom is 0 and the call raises ZeroDivisionError). Two calls that return and differ only in the rank return the same. A refused call raises IndexError, ValueError or ZeroDivisionError and leaves np_e2.txt, np_y.txt and np_X.txt alone when the order, the sizes, a negative number of samples or the rank is refused; with no steps, no samples or further modes of another size it raises after it has overwritten the three files.",
  "all tensors of any order and shape, all integer ranks, sample counts and step counts, all step sizes and thresholds, all draws, all singular value solvers",
  "The rank that raises depends on the sizes, and the order of the checks decides which files are lost; a test fixes one shape and one rank.",
  ["tensorD/factorization/pitf_numpy.py: PITF_np.exact_recovery", "tensorD/base/pitf_ops_numpy.py: sample3D_rule, Pomega_tensor"])
p("The core HOOI stores is ordered along the last mode",
  "After a successful HOOI training the slices of the stored core tensor along the last mode are orthogonal to each other and come in order of decreasing norm: the norm of slice a is the a-th singular value of the last-mode unfolding of the data multiplied by the transposed stored factors of all other modes. Nothing is claimed for the earlier modes, whose factors belong to older factors of the later ones.",
  "every nonzero tensor of order 2 to 13 with nonempty modes, every list of ranks for which the call succeeds, every singular value decomposition the solver may return, number of steps and arguments",
  "The order of the slices depends on which factors are updated last in a sweep; a test on one tensor cannot tell an ordered core from an accidentally ordered one.",
  ["tensorD/factorization/tucker.py:HOOI.build_model", "tensorD/factorization/tucker.py:HOOI.train"])
p("The column constraints of the pairwise-interaction model are a normal form",
  "Every tensor of pairwise-interaction form A/sqrt(n2) + B/sqrt(n0) + C/sqrt(n1) is that of exactly one triple of matrices in which all column sums of A are equal and those of B and C are zero. So the matrices generated by sample_rule4mat (of either version) are determined by the tensor built from them, and by Pomega_Pair of it if every position is sampled. Samples without a repeated pair of indices, as exact_recovery needs them to converge, never determine the matrices: unless the tensor has a single entry there are always other constrained matrices that agree at all samples, so which one is recovered is decided by the objective alone.",
  "every shape with nonempty modes, all matrices, every random draw and requested ranks, every list of sampled positions",
  "Uniqueness speaks of all pairs of triples; a test compares two.",
  ["tensorD/base/pitf_ops_numpy.py::sample_rule4mat", "tensorD/base/pitf_ops_numpy.py::Pomega_Pair", "tensorD/base/pitf_ops.py::sample_rule4mat", "tensorD/base/pitf_ops.py::Pomega_Pair", "tensorD/factorization/pitf_numpy.py::PITF_np.exact_recovery"])
p("The matrices made by subspace have the requested rank",
  "subspace(shape, rank, mode) returns a matrix of rank at most rank, for every mode. FALSE for mode 'A': adding the mean back can raise the rank by one (a 2 x 2 request of rank 1 can give an invertible matrix). What holds: for 'B' and 'C' the rank is at most the requested one and at most the number of rows minus one; for 'A' it is at most the requested rank plus one.",
  "every random draw, shape with nonempty modes and requested rank, both versions",
  "The rank of a random matrix of floating point numbers cannot be observed exactly and one draw says nothing about the others.",
  ["tensorD/base/pitf_ops_numpy.py::subspace", "tensorD/base/pitf_ops.py::subspace"])
p("The loggers of the library write what their names promise and leave other loggers alone",
  "create_logger('DEBUG') and create_logger('RELEASE') return loggers that write each message of their level exactly once, and importing tensorD.base.logger and creating loggers does not change what the loggers of the application write. FALSE in two ways: create_logger sets the level of every logger to ERROR, so the 'DEBUG' logger writes no debug, info or warning message; and the import silences, for good, every logger that exists at that time outside 'DEBUG' and 'RELEASE' (create_logger with its name returns a silent logger). What holds: whatever loggers existed and whatever is created before and after, 'DEBUG' and 'RELEASE' write messages of level ERROR and above exactly once, to standard output, and nothing else; and a logger of the application made after the import writes every message once, to standard error, until create_logger is called for it or a logger above it (None: the root logger), and from then on only errors.",
  "every state of the loggers before the import, every sequence of create_logger and getLogger calls after it, every logger name and message level",
  "What a logger writes depends on all loggers made before and after the import, in any order; a test sees one process.",
  ["tensorD/base/logger.py::create_logger", "tensorD/conf/logging_config.ini"])
p("The numpy sampling operators accept exactly the samples that exist, and never skip one",
  "Pomega_mat, adjoint_operator, Pomega_tensor and Pomega_Pair of the numpy version, called with any lists of integers as samples, any number of samples and any dim, return exactly when every one of the first m samples is a position of the matrix or tensor it is used on (indices may count from the end) and the sizes needed are given; otherwise they raise IndexError (Pomega_tensor with negative m: ValueError). What is returned is the sampled entries divided by the root of the third size, or the matrix with the value of the last sample at each position and 0 elsewhere. With dim other than 0, 1, 2 nothing is looked at: Pomega_mat returns None and adjoint_operator returns -1.",
  "every sample list, matrix, tensor, shape, number of samples and dim",
  "all index lists of all lengths, also invalid ones",
  ["tensorD/base/pitf_ops_numpy.py::Pomega_mat","tensorD/base/pitf_ops_numpy.py::adjoint_operator","tensorD/base/pitf_ops_numpy.py::Pomega_tensor","tensorD/base/pitf_ops_numpy.py::Pomega_Pair"])
p("With one component the reconstructions come to rest, where no vector can be improved",
  "Consider trainings with one component: CP_ALS with rank 1 on any tensor, HOOI with all ranks 1 (unless the leading singular vectors are orthogonal to the tensor), NCP_BCU with rank 1 and NTUCKER_BCU with all ranks 1 on nonnegative data and draws. In every training that returns, whatever its arguments, the reconstruction moves between two history entries by no more than the residual falls: the squared distance is at most N (r_j² - r_{j+1}²) ‖X‖², N the order of the tensor and r_j the reported residuals. Without stopping test, the reconstructions stored after 1, 2, 3, … steps have a convergent subsequence, the distance between consecutive ones tends to 0, and every limit of a subsequence is an outer product none of whose vectors can be replaced by one that brings it closer to the data, with norm at least that of every reconstruction and with the limit of the errors as its error.",
  "all tensors of order at least two with positive dimensions, all starting points, all arguments of train; for the limits all numbers of steps and all subsequences",
  "a statement about infinitely many trainings of unbounded length and their limits; a test sees finitely many steps of one run",
  ["tensorD/factorization/cp.py:CP_ALS","tensorD/factorization/ncp.py:NCP_BCU","tensorD/factorization/ntucker.py:NTUCKER_BCU","tensorD/factorization/tucker.py:HOOI"])
p("CP_ALS moves its reconstruction no further than its residual falls",
  "In every training of CP_ALS that returns, with any rank, any initial factors and any arguments, the squared distance between the reconstructions of two consecutive history entries is at most N (r_j² - r_{j+1}²) ‖X‖², N the order of the tensor, and the squared norm of a reconstruction is (1 - r_j²) ‖X‖². Without stopping test, the reconstructions stored after 1, 2, 3, … steps therefore come to rest, even when factors and weights do not converge: the squared moves have a finite sum, a subsequence converges, and the limit of any subsequence has the limit of the errors as its error.",
  "all tensors of order 2 to 25 with positive dimensions, all ranks, initial factors and arguments of train, all pseudo-inverses; for the limits all numbers of steps and all subsequences",
  "a bound on every step of every training and a statement about limits of infinitely many steps; that small changes of the residual mean small changes of the result is not visible in finitely many runs",
  ["tensorD/factorization/cp.py:CP_ALS.build_model","tensorD/factorization/cp.py:CP_ALS.train"])
p("On matrices, one-component training converges to a best rank-one approximation",
  "Train CP_ALS, or NCP_BCU or NTUCKER_BCU on nonnegative data, with one component and no stopping test on a matrix. If the initial vector of the second mode is not orthogonal to every leading right singular vector, the reconstructions stored after 1, 2, 3, … steps converge to one matrix, and no outer product of two vectors is closer to the data than that limit. For a nonnegative matrix that is not zero, however sparse, and positive initial vectors the condition holds and every such training of the three classes returns. The condition is needed: started with a multiple of the second unit vector on diag(2, 1), every training of CP_ALS that returns stores a matrix that is not a best approximation.",
  "all real matrices with positive dimensions, all initial vectors that see a leading singular vector, all numbers of steps",
  "global optimality among all outer products of a limit of infinitely many steps; runs show finitely many steps and compare with finitely many competitors",
  ["tensorD/factorization/cp.py:CP_ALS.build_model","tensorD/factorization/cp.py:CP_ALS.train","tensorD/factorization/ncp.py:NCP_BCU.build_model","tensorD/factorization/ntucker.py:NTUCKER_BCU.build_model"])
p("With one component, when training breaks down on nonnegative data",
  "Let data and initial vectors be nonnegative. With one component, CP_ALS.train returns a history for every number of steps exactly if the data have a nonzero entry at which no initial vector of a mode other than the first is zero; NCP_BCU initialises and returns exactly if in addition the draw of the first mode is not zero. NTUCKER_BCU with all ranks 1 and a positive core draw returns if there is a nonzero entry at which no draw is zero. So with positive initial vectors all three return on every nonnegative tensor that is not zero, however sparse.",
  "all nonnegative tensors of order 2 to 25 (NTUCKER: 13) with positive dimensions, all nonnegative initial vectors, all numbers of steps, all validation intervals other than 0",
  "an equivalence over all data, starts and numbers of steps: which zero patterns lead to a division by a zero norm at some later step is not decided by sampling",
  ["tensorD/factorization/cp.py:CP_ALS.build_model","tensorD/factorization/cp.py:CP_ALS.train","tensorD/factorization/ncp.py:NCP_BCU.build_model","tensorD/factorization/ncp.py:NCP_BCU.train"])
p("On a matrix HOOI has a best low-rank approximation after its first step; HOSVD has one if the singular values are separated",
  "Training HOOI on a matrix succeeds only with two equal ranks r, at most the smaller side. Then, whatever singular vectors the SVD routine answers and also with equal singular values, every entry of the history from the first on is the error of a best approximation by matrices of rank at most r, and the factors and core, and the stored full tensor, are best approximations. For a small tolerance training nevertheless runs all requested steps unless it stops after the first. HOSVD with ranks r and r' returns a best approximation of rank at most min(r, r') whenever the first min(r, r') singular values are larger than the others or the others are zero. Without that it need not: on a quarter turn of the plane with ranks one it may return an approximation with twice the least squared error, so that the factor in C90 is the best possible for matrices.",
  "all matrices, ranks, correct SVD routines, numbers of steps, arguments and earlier states of the object",
  "A test compares with one computed approximation and one routine; optimality is against all matrices of that rank and the result depends on which singular vectors are answered.",
  ["tensorD/factorization/tucker.py:HOSVD", "tensorD/factorization/tucker.py:HOOI"])
p("The first step of CP_ALS already uses the initial factors optimally; enough components fit exactly in one step",
"No residual in the history of a `CP_ALS` training, the first one included, is larger than that of any choice of the first factor and of weights beside the initial factors of the other modes. Hence, if the R rank-one arrays made of the initial factors of modes 1, 2, ... span all arrays over these modes (for a matrix: the initial second factor has full row rank, so R is at least the number of columns), a training that returns reports loss 0 and residual 0 in every entry, stores the data themselves as reconstruction, and with a positive tolerance executes exactly one step.",
"every tensor of order 2 to 25 with nonempty modes, every rank, all initial factors, all alternatives for the first factor, every pseudo-inverse routine meeting its contract, arguments, number of steps and earlier state of the object (exact arithmetic)",
"ranges over all real tensors, initializations and alternatives; a test sees one draw and cannot distinguish an optimal step from a good one",
["tensorD/factorization/cp.py:CP_ALS.build_model", "tensorD/factorization/cp.py:CP_ALS.train"])
p("l2 compares tensors of different shapes after broadcasting",
"Unlike rmse, l2 does not refuse tensors of different shapes: it returns exactly when the shapes broadcast (aligned at the last axis, sizes equal or 1), with half the squared distance of the stretched tensors, and raises otherwise. It is 0 exactly if the stretched tensors agree, so tensors of different shapes can have l2 0. In particular for a column of shape [m,1] and a vector of shape [n] it is half the sum over all m*n pairs, and a column holding the very numbers of the vector has l2 0 only if these numbers are all equal.",
"all pairs of real tensors, of any shapes (exact arithmetic)",
"ranges over all pairs of shapes and entries; unit tests call l2 with equal shapes",
["tensorD/loss.py::l2"])
p("naming a mode twice in ttm multiplies the matrices entrywise",
  "ttm(X, [A, B, ...], axis=[n, n, ...]) does not raise and is not X times A times B along mode n: it equals ttm with the single matrix hadamard([A, B]) for mode n, so Y[i] = sum_k A[i_n,k]*B[i_n,k]*X[.., k, ..]; the same for any number of matrices of one shape given for one mode; if the rest of the call is not conformable both calls fail alike. Concrete A, B, X show that it differs from the successive products.",
  "every tensor of order at most 26, every mode, matrices of one shape, every further matrices and axes, transpose or not",
  "the silent deviation has to be characterised for all orders, sizes and entries",
  [O+"::ttm", O+"::hadamard"])
p("vectorised reconstructions are products with kron and khatri; the sensitivity to the core is max_single_value_mul",
  "vectorize(ttm(X, ms)) = kron(ms) vectorize(X), so in particular vectorize(TTensor(G, U).extract()) = kron(U) vectorize(G); vectorize(KTensor(U, lam).extract()) = khatri(U) lam (none of them reversed: all use row-major order). Consequently ||ttm(X, ms) - ttm(X', ms)|| <= max_single_value_mul(ms) ||X - X'|| for all X, X', and some X of norm 1 attains it.",
  "every tensor and every list of 1 to 13 matrices with matching column counts; every Kruskal tensor with up to 25 factors; for the bound nonempty real matrices",
  "identities over all sizes and entries; an inequality over all tensors together with its sharpness",
  [O+"::vectorize", O+"::ttm", O+"::kron", O+"::khatri", O+"::max_single_value_mul", T+"::KTensor", T+"::TTensor"])
p("the three ways to multiply a tensor by a matrix along one mode agree",
  "For a J x I_n matrix A: unfold(ttm(X, [A], axis=[n]), n) = A unfold(X, n), so ttm(X, [A], axis=[n]) = fold(A unfold(X, n), n, shape with I_n replaced by J); and mul(X, A, n, 1) holds the same numbers with the new mode moved to the end, C[(i without i_n), i_n] = Y[i].",
  "every tensor of order at most 13, every mode, every matrix with I_n columns (nonempty for the unfoldings)",
  "three different code paths (einsum, transpose and reshape, matricised contraction) have to agree for all shapes and entries",
  [O+"::ttm", O+"::unfold", O+"::fold", O+"::mul"])
p("the two numbers of a history entry are tied together",
"For data that is not all zero, every entry (loss, relative residual) of every history returned by CP_ALS, HOOI, NCP_BCU and NTUCKER_BCU belongs to one model of the requested form, and residual² times the squared norm of the data equals loss² times the number of nonzero data entries, plus the sum of squares of that model over the positions where the data is zero. Hence the loss never exceeds residual·norm/√(nonzeros), and on data without zeros the loss is the residual times the root mean square of the data: on sparse data the loss alone cannot see what the model puts on the zeros.",
"every data tensor with a nonzero entry, every rank, initial value, number of steps, tolerance and solver meeting its contract, and every entry of the history",
"A test compares the two numbers on one run; the relation has to hold for every entry of every run and explains which of the two a user may trust on sparse data.",
[F+"cp.py::CP_ALS", F+"tucker.py::HOOI", F+"ncp.py::NCP_BCU", F+"ntucker.py::NTUCKER_BCU", "tensorD/loss.py::rmse_ignore_zero"])
p("multiplying a Kruskal or Tucker tensor along its modes is multiplying its factors",
  "For matrices M_n with as many columns as U_n has rows: ttm(TTensor(G, U).extract(), M) = TTensor(G, V).extract() and ttm(KTensor(U, lam).extract(), M) = KTensor(V, lam).extract(), where V_n = mul(M_n, U_n, 1, 0). So a decomposition can be compressed, projected, subsampled or expanded without building the full tensor.",
  "every commutative semiring, every shape, rank and core, all factors, weights and conformable matrices, order at most 13",
  "an identity between two code paths (einsum on the full tensor; matrix products on the factors) for all sizes and entries",
  [O+"::ttm", O+"::mul", T+"::KTensor.extract", T+"::TTensor.extract"])
p("The TensorFlow sampling operators accept what the numpy ones accept, except negative indices in adjoint_operator",
  "Called with any lists of integers as samples (at least one sample), Pomega_mat, Pomega_tensor and Pomega_Pair of the TensorFlow version return when run exactly what the numpy version returns, and return exactly when it does. adjoint_operator returns a matrix exactly if no sample is negative and the numpy version returns that matrix: an index counted from the end is accepted by numpy and raises InvalidArgumentError in TensorFlow. If lists, samples or values are missing, IndexError or ValueError is raised while the graph is built; if they are there but outside, InvalidArgumentError when it is run. Any dim but 0, 1, 2 raises ValueError.",
  "every sample list, matrix, tensor, shape with three sizes, positive number of samples and dim",
  "acceptance and agreement of two implementations over all argument lists",
  ["tensorD/base/pitf_ops.py::Pomega_mat", "tensorD/base/pitf_ops.py::adjoint_operator", "tensorD/base/pitf_ops.py::index_value_append", "tensorD/base/pitf_ops.py::Pomega_tensor", "tensorD/base/pitf_ops.py::Pomega_Pair"])
p("Decomposing a reconstruction again changes nothing",
  "HOSVD run on the tensor an earlier HOSVD returned, or on the tensor a HOOI or NTUCKER_BCU training left in `full`, with the same ranks, returns that very tensor. The same holds for the tensor left by a CP_ALS or NCP_BCU training of rank R when every HOSVD rank is at least R. A HOOI training on such a tensor from HOSVD or HOOI, if it is not zero and the ranks are ones the training accepts, stops after one step with history [(0, 0)] and leaves the same tensor in `full`.",
  "every tensor of positive dimensions, all ranks, every correct SVD and pseudo-inverse (the two runs may use different ones), every training that returns, whatever its arguments, rounding and initial values",
  "The equality is between two whole decompositions of arbitrary data; a test sees it for one tensor, and up to rounding.",
  [F+"tucker.py:HOSVD.train", F+"tucker.py:HOOI.train", F+"cp.py:CP_ALS.train", F+"ncp.py:NCP_BCU.train", F+"ntucker.py:NTUCKER_BCU.train"])
p("The methods compared with each other on the same data",
  "With the same ranks and the same SVD, no residual reported by a HOOI training exceeds the relative error of HOSVD. For a tensor with N modes, neither the relative error of HOSVD nor any residual reported by HOOI exceeds sqrt(N) times any residual reported by an NTUCKER_BCU training with the same ranks, or by a CP_ALS or NCP_BCU training whose rank is at most every Tucker rank.",
  "every tensor with 2 to 13 modes of positive sizes, all ranks, every correct SVD and pseudo-inverse, every pair of trainings that return, every history entry of each",
  "The bound relates the outcomes of two different programs on arbitrary data and for arbitrary initial values; a test compares them on one data set.",
  [F+"tucker.py:HOSVD.train", F+"tucker.py:HOOI.train", F+"cp.py:CP_ALS.train", F+"ncp.py:NCP_BCU.train", F+"ntucker.py:NTUCKER_BCU.train"])
p("What a training prints agrees with what it returns",
  "A training of CP_ALS, NCP_BCU, HOOI or NTUCKER_BCU that returns has printed exactly: the line '<name> model initial finish', one line 'step=<n>, RMSE=<a>, relerr=<b>' for each reported step n in order, where a and b show the two numbers of entry n of the returned history to ten digits (infinities and NaN by name), and a last line '<name> model train finish, in <n> steps, with RMSE = <a>' with the length of the history and the loss of its last entry. With verbose=True every history entry has its line. A training that raises has printed nothing if no session could be opened and initialised, and otherwise the initial line and the lines of the reported steps, without a last line. Two trainings of a class that return and print the same text have histories of the same length and the same reported steps, and their entries at these steps and their last losses agree up to a unit of the tenth digit. HOSVD.train prints its initial line and, if the run returns, a line with the loss to six digits. A training that raised never prints the same text as one of the same class that returned.",
  "every training with any arguments, any number of steps, any finite, infinite or NaN values, any point at which an operation raises",
  "It relates the text to histories of any length, to any stopping step and to any failing step; a test sees the output of a few runs.",
  [F+"cp.py:CP_ALS.train", F+"ncp.py:NCP_BCU.train", F+"tucker.py:HOOI.train", F+"ntucker.py:NTUCKER_BCU.train"])
p("The predictions of trained Tucker models",
  "After HOSVD.train, and after a HOOI training that returned and reported its last step, predict(i_0, ..., i_{N-1}) is the sum over the exposed core of core[j] * prod_k factors[k][i_k, j_k], for every index inside the tensor (negative indices count from the end). After HOSVD it differs from the data entry by at most sqrt(N) times the distance of the data to any tensor of the given ranks, so data of these ranks are predicted exactly; after HOOI by at most the last reported residual times the norm of the data.",
  "every tensor with positive sizes and 1 (HOOI: 2) to 13 modes, all ranks, every correct SVD, every index, every HOOI training that returns with its last step reported",
  "It must hold for every entry of every tensor and every training; a test reads a few predictions.",
  [F+"tucker.py:HOSVD.train", F+"tucker.py:HOSVD.predict", F+"tucker.py:HOOI.train", F+"tucker.py:HOOI.predict"])
p("What exact_recovery prints and writes accounts for the run",
  "The numpy recovery prints the degree of freedom, the step size and the samples per degree of freedom, then one line for each step with the numbers of that step's entry in the returned lists. Each of np_e2.txt, np_y.txt and np_X.txt gets one record for each step, numbered from 0; the last records are the returned vector and matrix. From the data, the drawn positions and np_e2.txt one can recompute np_y.txt and every printed loss. The printed error rate is in all steps the same multiple of the printed loss. A call that raises prints no step and leaves the files as they were or empty. A shorter run with the same draws prints and writes a beginning of the longer one.",
  "every tensor, rank, number of samples and steps, step size, threshold, draw of positions and singular value decomposition",
  "The records are consistent for one run in a test; that they are for every length of run and every failing call is a statement about the loop.",
  [F+"pitf_numpy.py: PITF_np.exact_recovery"])
p("What a PITF training prints, writes and leaves behind",
  "A TensorFlow PITF training prints an initial line, one line for each step (its numbers if the step is reported, otherwise question marks) and a last line with the numbers of the last step; the number of lines does not depend on the validation interval. The two text files get one record for each reported step, in order. The object keeps the last sample vector and is marked as finished. A training raises only without steps, where nothing but the initial line is printed and the vector is kept, and with a validation interval of 0 and more than two steps, where exactly the first step is printed, written and kept; it is never newly marked as finished then. With the same draws, nothing an earlier training left in the object influences what a training prints and writes and whether it raises.",
  "every third-order tensor, number of samples (at least one), number of steps, validation interval, step size, threshold, draws and earlier state of the object",
  "One training in a test has one length and one interval; the agreement of lines, records and reported steps is an invariant of the loop.",
  [F+"pitf.py: PITF.train"])
open('/verif/properties.jsonl','w').write(''.join(json.dumps(x)+'\n' for x in P))
print(len(P))
for x in P: print(x['id'],x['title'])
