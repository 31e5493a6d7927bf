{
 "C05": "False of the code: a list row_axis is extended in place (C05_list_argument_is_modified_false). Proved for the int and tuple cases.",
 "C06": "False of the code for tuple axes of mul (TypeError). Proved for int versus one-element list.",
 "C09": "False of the code: mul only compares the products of the contracted dimensions, so different axis sizes with equal product are accepted.",
 "C12": "Skipped positions for every skip argument; C12_too_many_raise covers the lists longer than the order, C12_count_raises the lists that do not match the axes.",
 "C13": "False of the code above order 13: the letters used for matrix rows collide with those of the tensor modes; the call raises or silently returns wrong entries. Proved whenever mode + order < 26 for all used modes (so for every product up to order 13).",
 "C18": "Values for any commutative semiring. The domain theorem leaves out lists that mix one-column matrices with wider ones: einsum may broadcast them, the model does not.",
 "C26": "False of the code: numpy factors are stored as float32 but float64 weights keep their type, so extract raises TypeError for every choice of factors. Proved for float32 weights and for no weights.",
 "C29": "False of the code: the first unfold that returns is cached and every later call returns it whatever mode is asked. Proved: exactly that behaviour for every history, and the property for histories that ask for one mode only.",
 "C34": "False of the code for all-zero (or empty) references: 0/0. Proved: a number comes out iff the reference has a nonzero entry.",
 "C39": "False of the code for ragged rows: rows with more fields than the first, or with exactly one less, are accepted. Proved: the exact acceptance condition of read, and every other rejection listed.",
 "C40": "False of the code for CP, NCP and NTUCKER (predict raises ValueError for every tensor with more than one entry) and for a single index into a tensor of order >= 2. Proved for HOSVD and HOOI with one index per mode, out-of-bounds and wrong-length keys.",
 "C41": "False of the code for HOSVD/HOOI (AttributeError) and PITF (NotImplementedError). Proved for CP, NCP, NTUCKER.",
 "C42": "False of the code for HOOI, which never resets the flag. Proved for CP, NCP, NTUCKER and HOSVD over all histories; for HOOI what the flag means is proved.",
 "C44": "False of the code: every class raises UnboundLocalError for every steps <= 0.",
 "C46": "False of the code for CP and HOOI (the previous objective is never updated) and for NCP/NTUCKER stalling above their minimum. Proved for NCP and NTUCKER stalling at the minimum.",
 "C47": "False of the code: full is the tensor of the last reported step, which need not be the last executed one. Proved whenever the last step was reported (all steps executed, verbose, or interval 1).",
 "C48": "False of the code for interval 0 (ZeroDivisionError). Proved for every other interval.",
 "C52": "False of the code: a column whose maximum is negative is divided by it, which makes its minimum 1. Proved: maximum 1 for columns with positive maximum; in general the extreme entry is 1.",
 "C64": "False of the code for draws that repeat a pair: only the last sample is kept. Proved for draws without repeated pairs.",
 "C65": "False of the code for shrink (TensorFlow multiplies by v instead of its transpose) on every pair of solvers. Proved for all other operators.",
 "C66": "False of the code for the TensorFlow version. Proved for the numpy version and every SVD choice.",
 "C68": "False of the code for the TensorFlow version (TypeError for every input). Fully proved for the numpy version.",
 "C69": "False of the code for the TensorFlow version, which draws new samples in every run. Fully proved for exact_recovery.",
 "C73": "Exact arithmetic. C73_rank_one_needed: with rank 2, positive data and positive draws, the first step can divide by 0.",
 "C85": "Mode 'complicated' minimises ||N0||_* + |total|/sqrt(rc) (N0 = N without column means), not the nuclear norm (C85_complicated_false); the TensorFlow version is no proximal operator at all. Fully proved for mode 'normal' and for nonexpansiveness of the numpy version.",
 "C86": "False of the code for draws that repeat a pair (C86_repeated_false). Proved for all draws without repeated pairs.",
 "C87": "C87_converges for draws without a repeated pair; C87_distinct_needed gives a 1 x 2 x 2 tensor with two samples sharing (i, j) where no step size leads to the minimiser (adjoint_operator keeps only the last value of a cell, C64).",
 "C94": "False of the code: two build_model calls in one default graph make every later training raise (C94_second_model_false, C94_independent_false). Proved for every history in which no graph holds two models. PITF, which has no placeholder, is not part of this model.",
 "C97": "The agreement of the two classes is partial: it needs a solver that returns the right factor transposed and positions drawn once (both false of the code, C66 and C69). The invariants of the TensorFlow shrinkage are fully proved.",
 "C98": "Not the singular value thresholding: C98_drops_false (rank search stops one short) and C98_rows_false (rows instead of columns), for every solver. Rank, norm, errors and the total are fully proved. C98_tensorflow_false: the TensorFlow versions (marked 'no use' in the code) raise in all but trivial calls.",
 "C99": "False as stated for the number of steps: the stall test |obj-obj0|/(obj0+1) is not scale free (C99_stopping_false: 7 steps for the identity, 3 for three times the identity). Everything else is proved, and the number of steps too when tol*(|X|^2/2+2) <= 1 in both units.",
 "C103": "CP_ALS and HOSVD for every mode; HOOI for the last mode of the sweep only (a solver may mix null vectors into the factors of earlier modes).",
 "C107": "No overflow, no underflow (C107_underflow: with underflow no such bound holds); that TensorFlow rounds each term at most once per product and once per addition is an assumption of the model.",
 "C108": "Exactness proved for every format and evaluation order within the bound; C108_sharp shows the bound cannot be dropped. Also with gradual underflow (C108_float32_underflow).",
 "C109": "No overflow, no underflow (see C107).",
 "C110": "CP_ALS, NCP_BCU and NTUCKER_BCU over the reals; the pseudo-inverse and the largest singular value are arbitrary routines (for CP_ALS one that returns the pseudo-inverse). HOSVD and HOOI are the subject of C123.",
 "C114": "Python's float formatting is modelled as correctly rounded (round half to even on the exact value) decimal output. Buffering: a killed process leaves some prefix of the text.",
 "C115": "False: file names omit two of the three dimensions, and ex_no_noise.sh writes the same names as ex_20_shell.sh. Proved: exactly which experiments collide, and that the experiments of ex_20_shell.sh do not. ex_20_shell2.sh is modelled too: it makes exactly the planned calls, none with a file of ex_20_shell.sh.",
 "C116": "Single-threaded scripts; arrays are objects with contents; PITF (which builds the tensor into its graph) is not included.",
 "C117": "`verbose=False` with interval 0 raises ZeroDivisionError and is excluded (C43/C82 describe it).",
 "C119": "Only the comparisons and operations of the training loop; what the session returns after NaN is arbitrary. NaN handling of TensorFlow kernels is not modelled.",
 "C120": "Given the data and the reconstruction as stored (the rounding of the reconstruction itself is C107/C109). No overflow or underflow of squares; C120_zero_underflow: in float32 the residual of [1, 0] against [1, 2^-100] is reported as zero.",
 "C121": "Exact arithmetic. Mode 0: no assumption at all. Rescaled columns: linear independence in the first step (stated on the factors the first step returns); discharged for rank 1 with positive data and factors.",
 "C122": "Exact arithmetic; the SVD routine is any routine meeting the specification SvdOk. Separation is needed (C122_needs_separated) and is required of every matrix the training looks at; shown for diag(2,1).",
 "C123": "Exact arithmetic, separated singular values. For general orthogonal matrices the loss column of the history (which skips zero entries) is not compared, only the relative residuals; for renumberings the whole history is.",
 "C124": "Overflow, gradual underflow, infinities and NaN; no signed zeros. Values of entries that are numbers: every input, also raising ones. The converse direction (what shows): the operands for which the operation is defined.",
 "C125": "Proved: all losses and the objective, the visibility of infinities and NaN, the stopping behaviour. False: the value of the relative residual when the norm of the input overflows (C125_residual_false: float32, input 2^65, reconstruction 3*2^63, residual reported 0, exact 1/4); C125_residual_partial assumes that norm is a number. rmse assumes the number of entries is at most half the largest number, rmse_ignore_zero that the computed count is a number. Trainings: any main run that reports these scalars of its reconstruction; no signed zeros. The graphs of CP_ALS, NCP_BCU and NTUCKER_BCU satisfy the hypothesis on the reported numbers (cp_reports, ncp_reports, ntucker_reports in Lemmas/SpecialStop); see C138 for the consequence for the exposed factors.",
 "C126": "Spec/AlsOne.lean states the iteration on vectors and what a history entry says of a reconstruction; C126_best shows that its step is the least-squares fit. Real numbers; C126_hooi assumes the start is not orthogonal to the tensor (C126_hooi_positive discharges this for positive tensors; if it fails the core is zero and the SVD of a zero matrix decides the next vectors).",
 "C127": "Real numbers. Sharper than C54/C62, which guarantee a decrease only while the extrapolation weights are zero: with one component the update does not depend on the extrapolated point.",
 "C128": "Exact real arithmetic; tf.svd is any function that returns a thin singular value decomposition (the same function in both runs). HOSVD only; HOOI recomputes its factors for every rank list and has no such corner property.",
 "C129": "Composes C107/C109 (rounding of the reconstruction) with C120 (rounding of the reported numbers). No overflow or underflow. The factors are whatever the training exposes; how rounding inside the updates influences them is not analysed.",
 "C130": "Exact arithmetic over any commutative semiring. `C130_compose` takes the matrix products from `mul` itself. Orthonormality and the identity matrix are defined in Spec/TtmLaws.lean.",
 "C131": "The grammar of integers is Spec/IntText.lean (ASCII; int() also knows other Unicode digits and blanks, and numpy limits the range to 64 bits: not modelled). The specification of coordinate files (Spec/Coord.lean), and with it C35-C39, C105, C106, C111, C112, is stated with this grammar instead of the model's int().",
 "C132": "Exact arithmetic over any commutative semiring. The element types of weights and factors have to agree (otherwise extract raises, C26).",
 "C133": "Eckart-Young applied to every unfolding of the approximation behind each history entry (C82 reduces every entry to the last entry of a shorter training). Exact real arithmetic; singular values are those of any thin SVD of the unfolding the code computes.",
 "C134": "Over any commutative semiring for the two forms; exact real arithmetic for the losses, HOSVD and CP_ALS. transpose is TensorFlow's, specified by Spec/Transposed.lean. Separation of singular values is needed because equal ones leave the choice of the subspace to the SVD routine (C122).",
 "C135": "Python's float() is modelled as a function on text after CPython's PyFloat_FromString, for ASCII characters; that contract is trusted. The grammar is in Spec/FloatText.lean. Rounding is that of Model/Special.lean: overflow to infinity, gradual underflow, no signed zeros.",
 "C136": "Model/SpecialBcu.lean is the text of Model/Bcu.lean on numbers with rounding, overflow, infinities and NaN (Model/Special.lean). Proved for NCP_BCU and NTUCKER_BCU: nothing exposed compares less than zero after any history, with any singular value routine (it may raise), and train returns if that routine is total. relu of NaN is modelled as NaN; the claim would hold as well if it were 0. Signed zeros are not modelled. NaN entries do occur: the claim says they do not raise and are not negative, not that the results are useful (C125 says when the reported errors reveal them).",
 "C137": "Model/SpecialCp.lean runs the graph of CP_ALS on rounded numbers with infinities and NaN. The pseudo-inverse is any function that keeps the size of a square matrix; the parts about numbers assume that it raises on infinities and NaN, as numpy's does. Signed zeros are not modelled.",
 "C138": "Graphs of Model/SpecialBcu, Model/SpecialCp and Model/SpecialTucker inside the modelled training loop; floats as in C125/C136/C137 (rounding, overflow, gradual underflow, infinities, NaN; no signed zeros). The pseudo-inverse, the decomposition and the singular values are arbitrary functions. HOSVD has no loop.",
 "C139": "Model/SpecialTucker.lean runs the graphs of HOSVD and HOOI on rounded numbers with infinities and NaN. One rank per mode (HOSVD: at least). The decomposition is any function that returns U of thin size or raises; no orthogonality is assumed. No signed zeros.",
 "C140": "Specification in Spec/Limit.lean. The hypothesis NoTies excludes comparisons that are equalities in the exact run; C140_few_ties shows that for the tolerance these are finitely many values. HOOI and HOSVD assume convergent singular vectors (SvdTends), which real routines satisfy only up to signs and for simple singular values; an exact routine that raises elsewhere is allowed.",
 "C142": "True of every program that unfolds no object along two different modes (C142_programs_partial), false of the others because of the cache of DTensor.unfold (C142_two_modes_false, see C29). That the tensors in the objects never change holds of all programs.",
 "C143": "Indexing as stated. Iteration is false: the class has no __iter__, Python ends a loop over __getitem__ only on IndexError, and TensorFlow raises ValueError, so every loop over a DTensor gets all slices and then raises.",
 "C144": "Assumes what the documentation of np.random.randint says: the three index vectors are drawn independently and uniformly. adjoint_operator overwrites repeated positions (C64), which is why the factor is the chance of being drawn at all instead of the expected number of draws.",
 "C146": "mulZ/ttmZ are the integer-axis versions of the model; on natural numbers they are the functions of C08/C10 (C146_mul_nat, C146_ttm_nat). What tf.transpose does with a negative entry is a parameter, so no TensorFlow version is assumed. Missing: ttm on tensors with seven or more axes with an axis in -ndims..-7, where the claim is false of the code (C146_ttm_seven_false).",
 "C147": "C147_ab and the transposed version of the second documented product are proved for all sizes (C147_matrices covers the four axis choices). The documented 'same as BA' is false: C147_ba_false, and C147_exchange says what the call returns instead.",
 "C148": "Over the reals, with the decomposition a parameter required only to be a singular value decomposition. Solver independence from the uniqueness of the subgradient alignment (with C85); numbering and unit by transport through every step of the loop; order of draws under distinct pairs (with a repeated pair the last value wins, C64).",
 "C149": "Refuted from every correct solver: the solver with the second singular vectors negated is correct too and gives another matrix for [[1,1],[-1,-1]] at threshold 0. Proved: S S^T equals the numpy version's and is the same for all solvers.",
 "C150": "Exact arithmetic, linear algebra routines as parameters with their defining properties. The iterates are tied to the step function as in C95.",
 "C151": "Exact arithmetic. Convergence of factors means convergence of every entry. For CP_ALS existence of a convergent subsequence is not claimed (weights may diverge).",
 "C152": "Exact arithmetic. The disjunction is needed: after a step that does not improve, the reference point of the extrapolation stays where it was while the factors move on, so a limit without infinitely many improvements need not be optimal. C152_ncp_one has no such condition.",
 "C153": "Exact arithmetic. Complements C79 (positive tolerance: one step).",
 "C154": "Exact arithmetic. Extends C127 (rank 1) to all ranks and to NTUCKER_BCU; C154_positive_needed shows a nonnegative tensor for which the first step divides by 0.",
 "C155": "Proved for ex_20_shell2.sh; false of ex_20_shell.sh, whose calls of tucker_ex.py with size 20 and ranks 21 to 25 always raise. Proved: exactly those calls fail, all others leave a report. The data generated is any tensor of the size asked for; the arithmetic rounds, overflows and has NaN.",
 "C156": "The printed number of multigraph_demo.py is 0 in exact arithmetic (rounding makes it small). The other four: same argument as C155, in rounded arithmetic, for any data of the generated size.",
 "C157": "Fully proved about the call with raw arguments (recover). Whether randint refuses an empty range when no number is asked for depends on the version of numpy (stated in the model); the call raises either way.",
 "C158": "Theorem over exact arithmetic for every solver meeting the contract of a thin SVD. The earlier modes are not covered: their factors belong to older factors of later modes.",
 "C159": "Normal form, uniqueness, determination by full samples, and non-determination by pairwise distinct samples, all over the reals.",
 "C160": "C160_rank_partial: at most rank (B, C; also at most rows-1), at most rank+1 (A), both versions. C160_rank_false: a rank-1 request for 'A' giving an invertible 2x2 matrix. That generic draws reach these ranks (a probabilistic statement) is not claimed.",
 "C161": "C161_written_partial ('DEBUG', 'RELEASE' after create_logger) and C161_later (loggers of the application made after the import) hold for all states and histories; C161_debug_false and C161_silenced/C161_silenced_false refute the rest. Python's logging (getLogger, levels, propagation, fileConfig with disable_existing_loggers=True) is modelled and trusted; filters, logging.disable and the text written are not.",
 "C162": "Raw-argument model (Model/PitfRaw.lean); C162_typed ties it to the operators used by all other pairwise-interaction theorems. The matrix has two axes, the tensor three.",
 "C163": "Exact arithmetic. What is shown about limits holds for every cluster point; that the whole sequence converges to one point is not claimed. Unlike C151 the convergent subsequence exists for CP_ALS too, because reconstructions, not factors, are followed, and optimality holds in every mode, not only in the first and last.",
 "C164": "Exact arithmetic. Convergence of the whole sequence of reconstructions is not claimed.",
 "C165": "SeesLeading, BestOuter and Approaches are in Spec/AlsOneLimit.lean. C165_cp, C165_ncp, C165_ntucker: convergence to a best outer product; C165_cp_positive/_ncp_positive and C165_cp_sparse/_ncp_sparse/_ntucker_sparse: the runs also return, for positive resp. nonnegative nonzero matrices and positive starts; C165_needed: without the condition the claim fails, with a run that exists shown beside C166.",
 "C166": "C166_cp and C166_ncp are equivalences; C166_ntucker gives the sufficient direction, with the success of the initialisation. C166_cp_sparse, C166_ncp_sparse and C166_ntucker_sparse are the case of positive initial vectors. Examples: a training on diag(2,1) that returns, one on a matrix with a single nonzero entry that raises, and data that meet the hypotheses of the sparse theorems.",
 "C167": "Over the reals, with the SVD routine any function meeting its contract. BestOfRank and Gap (Spec/BestRank.lean) use Mathlib's matrix rank and the squared error over all entries. C167_hooi covers every successful training; C167_hooi_steps adds the number of steps for tolerances below 1/(|X|^2/2+2). C167_hosvd needs the gap, and C167_hosvd_needs_gap gives a matrix and a correct routine where HOSVD misses by the factor two.",
 "C168": "Exact arithmetic. C168_first_step compares every entry with every first factor and weights; C168_spanning (every entry (0, 0), stored reconstruction = data), C168_spanning_one_step, C168_matrix (row rank, Mathlib's rank). That train returns is a hypothesis, since a rank above 1 may break down (C73); eye_two_train shows a family of trainings that return.",
 "C169": "Spec: Spec/Bcast.lean (alignment at the last axis). C169_l2 (domain and value), C169_zero, C169_column, C169_column_self, C169_not_separating (concrete pair of different tensors at l2 0).",
 "C170": "Exact arithmetic over any commutative semiring; einsum by its documented meaning (TensorFlow sums a label shared by three operands over the product of all of them). Operands of one shape: see the note on broadcasting in DESIGN.md.",
 "C171": "Identities over any commutative semiring, the bound in exact real arithmetic with the largest singular value given by contract (TopSvOk, satisfiable: exists_topSvOk). TTensor.extract is ttm when the element types agree (C27).",
 "C172": "Exact arithmetic over any commutative semiring. The matrix product is tf.matmul.",
 "C173": "Exact real arithmetic. countNonzero and onZeros are plain sums over the positions of the data. Each entry is reduced to the last entry of a shorter training (C82, C81).",
 "C174": "Exact arithmetic over any commutative semiring. Multiplied (in the same file) says V_n is what mul(M_n, U_n, 1, 0) returns.",
 "C175": "Model/PitfRawTf.lean: graph construction (lengths known) followed by the run (values known). Trusted: a tensor index below zero counts from the end in a slice, and tf.sparse_tensor_to_dense refuses indices outside the shape. C175_typed ties the model to the operators of the other pairwise-interaction theorems.",
 "C176": "C176_hosvd: two HOSVD runs in a row, possibly with different SVDs. C176_hosvd_hooi: HOOI after HOSVD. C176_hooi: HOSVD and HOOI after HOOI. C176_cp, C176_ncp, C176_ntucker: HOSVD after the other trainings. Exact arithmetic in the second run.",
 "C177": "C177_hooi_hosvd: HOOI against HOSVD. C177_cp, C177_ncp, C177_ntucker: TuckerNear, that is HOSVD and HOOI against the three other methods. Exact real arithmetic in the graph operations; the stopping test uses any arithmetic.",
 "C178": "C178_returns, C178_verbose, C178_raises: the text. C178_readable: what can be read off it. Model/Console.lean repeats train with its print calls and the local variables step and loss_v; C178_same shows that it computes what train computes. Python's float formatting is modelled as in C114. C178_hosvd: the two lines of HOSVD. The pairwise-interaction classes are not covered; a print that fails itself is not modelled.",
 "C179": "C179_hosvd, C179_hooi, C179_exact. Exact real arithmetic. predict of the other classes raises for every tensor with more than one entry (C40).",
 "C180": "Records are step numbers with values over the reals; the text numpy makes of an array (abbreviated above 1000 entries) is not modelled. Calls as in C157.",
 "C181": "Values over the reals; records are arrays, not the text numpy makes of them (the code writes the unformatted 'y:%s' before each). Buffered text that an exception leaves unflushed counts as written. The run is the one of C96; build_model with no samples raises there."
}