# Formal model of TensorD in Lean 4: design

The list of properties is `properties.jsonl`; the claim-by-claim status is `MANIFEST.json`.
The Lean project is `lean/`; `lake build` in that directory checks everything.

## Layout

| directory | content |
|---|---|
| `lean/Verif/Model/` | the model: one definition per Python function, each citing file and lines in /repo |
| `lean/Verif/Spec/` | small specifications written without using the model's helpers |
| `lean/Verif/Lemmas/` | helper lemmas, no claims |
| `lean/Verif/Props/` | the property theorems, named `Cnn_...`, each with an `example` that meets its hypotheses |
| `seeded/LOG.jsonl` | log of deliberately wrong models and which theorems rejected them |

A theorem whose name ends in `_partial` proves part of a property; the docstring says what is missing.
A theorem whose name ends in `_false` proves that the property as stated does *not* hold of the code, by a
concrete witness (and, where possible, for a whole class of inputs).

## How the code is modelled

* **Tensors** are values `shape : List Nat`, `data : List α` (row-major) with the proof that the length of
  `data` is the product of `shape`. Scalars are any commutative (semi)ring / field where the code only
  uses ring operations, and `ℝ` where it uses square roots, norms or comparisons.
  Hence floating-point rounding is *not* modelled for numerical operations.
  The training-loop control flow is modelled over an *abstract* scalar type with uninterpreted
  `+ - / abs <`, so the control theorems hold for IEEE floats too (including NaN).
* **Python exceptions** are values: `Except PyErr`. TensorFlow graph-construction errors and session-time
  errors are both modelled as an error result of the function that builds the operation
  (in the code they may appear only at `sess.run`; this is a simplification noted in the definitions).
* **TensorFlow primitives** (`transpose`, `reshape`, `matmul`, `einsum`, broadcasting arithmetic,
  reductions, `svd`, ...) are modelled by their documented contract in `Model/TF.lean`. `einsum` takes the *generated
  equation text* (a list of characters), so letter collisions in TensorD's label generation are visible.
  One part of that contract is left out: TensorFlow may broadcast a label of size 1 against a larger size,
  the model refuses it. No property claims a refusal in such a case (C13's collision theorem and C18's domain say so).
* **svd / pinv / random draws** are parameters constrained only by their mathematical contract
  (orthonormal singular vectors, Penrose equations, nothing at all for draws).
* **Objects with state** (DTensor cache, model objects, lists passed by reference) are state-passing functions.
* **Sessions** are abstract state machines for the control-flow theorems and are instantiated by the
  concrete sweep functions for the numerical theorems.

## Which code is modelled where

| code in /repo/tensorD | model |
|---|---|
| `base/ops.py` (all functions) | `Model/Ops.lean` over the primitives of `Model/TF.lean`; integer axes of `mul` and `ttm` in `Model/Negative.lean` |
| `base/type.py` (DTensor, KTensor, TTensor); programs with DTensor objects, `__getitem__`, iteration | `Model/Type.lean`; `Model/Objects.lean` |
| `loss.py` | `Model/Loss.lean`; in rounded arithmetic, with the scalars of the trainings, `Model/FloatLoss.lean`; with overflow, infinities and NaN `Model/SpecialLoss.lean` |
| `dataproc/reader.py` (text in, sparse and dense tensor out) | `Model/Reader.lean` |
| `demo/DataGenerator.py` | `Model/Data.lean` |
| `factorization/cp.py`: numerical step; `train` | `Model/Cp.lean`; `Model/Train.lean`, `Model/Console.lean` |
| `factorization/tucker.py`: HOSVD, HOOI steps; `train` | `Model/Tucker.lean`; `Model/Train.lean`, `Model/Console.lean` |
| `factorization/ncp.py`, `ntucker.py`: initial values, mode and core updates, extrapolation, `train_op1/2`; `train` | `Model/Bcu.lean`; `Model/Train.lean`, `Model/Console.lean` |
| `build_model` of the four iterative classes as *graphs* (variables, assigns, control dependencies, shared reads) and the set of all schedules of a `sess.run` | `Model/Graph.lean`, `Model/Graphs.lean` |
| the graphs of `train_op1`, `train_op2`, the core run and `other_init_op` of NCP/NTUCKER (`ncp.py:86-94,136-153`, `ntucker.py:87-133,160-196`) | `Model/GraphRuns.lean` |
| the graphs of `init_op` of HOOI and of the run of HOSVD (`tucker.py:33-43,138-145,163`) | `Model/GraphTucker.lean` |
| several models in one process: default graph, `merge_all`, feeds (`cp.py:69-70,109-110,140`, `tucker.py:30,47,70,131,220`, `ncp.py:66,190`, `ntucker.py:67,224`, `env.py:31-33`); not PITF | `Model/Process.lean` |
| `base/pitf_ops_numpy.py`, `base/pitf_ops.py`, `factorization/pitf_numpy.py`, `factorization/pitf.py` | `Model/Pitf.lean`, `Model/PitfCall.lean`, `Model/PitfSays.lean`, `Model/PitfSaysTf.lean`, `Model/PitfRaw.lean`, `Model/PitfRawTf.lean` |
| `ex/cp_ex.py`, `ncp_ex.py`, `tucker_ex.py`, `ntucker_ex.py`: arguments, file name, report; `ex/ex_20_shell.sh`, `ex/ex_20_shell2.sh`, `ex/ex_no_noise.sh` | `Model/Experiment.lean`; training of the four scripts: `Model/Ratings.lean` (`exTrain`, `exRun`) |
| `demo/multigraph_demo.py`; training of `demo/cp_demo.py`, `ncp_demo.py`, `tucker_demo.py`, `ntucker_demo.py` | `Model/Demo.lean` |
| `ex/ml_cp.py`, `ml_ncp.py`, `ml_tucker.py`, `ml_ntucker.py` (ratings file in, report out) | `Model/Ratings.lean` |
| `Environment.full_data`, `full_shape`, `Provider.full_tensor`, the feed of `build_model` and `train` as array objects | `Model/Binding.lean` |
| `base/logger.py` with `conf/logging_config.ini`, on the part of Python's `logging` they act on | `Model/Logging.lean` |
| `predict`, `full`, `train_finish`, `factors` accessors, `Environment.sess` | `Model/Train.lean` |

The training loop is modelled over an abstract session (`Cls`): the same `train` function is instantiated by the
numerical step of each class, so control-flow theorems and numerical theorems talk about the same loop.

**Two views of one step.** The numerical modules give the step as a function from state to state. The graph modules
give it as a graph with every admissible execution order. C60 proves that every schedule computes the function;
C80 shows that this depends on variable reads not being snapshots.

## Trusted base

* Lean's kernel (4.33.0) and the three standard axioms `propext`, `Classical.choice`, `Quot.sound`;
  no other axiom, no `sorry`, no `native_decide`/`bv_decide`. Every property theorem depends on a subset of these three.
* The contracts of TensorFlow/numpy/csv primitives as written in `Model/TF.lean` and in the comments of the
  parameters. The solvers are arguments of the model constrained by:
  * `svd`: some decomposition `M = U diag(s) Vᵀ` with orthogonal `U`, `V` and nonincreasing `s ≥ 0` (`Spec/Svd.lean`,
    `Spec/ThinSvd.lean`); existence of such a function is proved, and every theorem holds for every such function;
  * `pinv`: the four Penrose equations;
  * `max_single_value`: first singular value of that decomposition (`Spec/TopSv.lean`);
  * random draws: arbitrary.
* TF1 reference variables: a read of a variable may be scheduled before a later assign and still see the assigned value
  (buffer aliasing). C60 assumes this, C80 proves that it is needed.
* The grammar of texts Python's `int()` and `float()` accept, for ASCII text (`Model/Reader.lean` C131, `Model/FloatText.lean` C135); that `float()`
  returns the nearest number of the format is a parameter (`Fmt`/`toFloat`).
* The reading of the Python source done by hand; each definition cites its lines.
* Mathlib definitions used in statements (`Matrix`, `Real.sqrt`, `Finset.sum`, `Filter.Tendsto`, ...).

**Reals for floats.** Numerical theorems are about exact real arithmetic, except C107-C109, C120, C124, C125, C129, C136-C140 and part of C141. These run the same model functions
of `base/ops.py` and `base/type.py` (C120: `loss.py` and the reported errors) on rounded numbers (`Model/Float.lean`): any rounding function with relative error `u`, any
evaluation order of the sums. Results below the normal range have an absolute error instead (gradual underflow); the theorems about
relative errors (C107, C109, C120, C129) assume that there is no underflow, and C107_underflow, C120_zero_underflow show that they need to. There is no overflow, Inf or NaN in `Model/Float.lean`;
`Model/Special.lean` adds a largest number, infinities and NaN (C124, C125, C135-C140), still without signed zeros. That TensorFlow's kernels
round each term no more often than once per product and once per addition is an assumption (the fields `*_passes`). `ieee p`
(round to nearest, ties up; without underflow) and `float32` (24 bits, smallest number 2^-149) are the concrete instances that show the assumptions consistent. Of the iterative trainings under rounding,
signs, shapes, normalisation, completion and exceptions are analysed at every precision (C136-C139), and the values only in the limit of
increasing precision (C140); there is no error bound for a fixed format. Divisions that produce Inf/NaN in the code are
`none` or the error `nonFinite`; theorems say when that happens. Control-flow theorems hold for any scalar type.

Not modelled: signed zeros; TensorBoard summaries, event files and `FileWriter` (the default `summary_path=None` of `Environment` is passed to it by every `train`, and TensorFlow 1 as of 2017 rejects it with a `TypeError`; the model assumes that a path is given); printing, except by HOSVD and the four iterative trainings (C178), and by the two PITF classes (C180, C181); the text of log messages;
wall-clock time; device placement; `data_queue`; `__str__`-like helpers; numpy/TF dtype promotion except in the KTensor constructor; negative
or non-integer ranks; an empty sample in the TensorFlow pairwise-interaction operators.

## What the model says about the code (false properties)

Each of these is a theorem `..._false`, with the true remainder proved as `..._partial`.

* `t2mat` extends a caller's list (C05); tuple axes of `mul` raise (C06); `mul` accepts mismatched axes of equal
  product (C09); `ttm` is wrong or raises above order 13 (C13).
* `KTensor` with default numpy weights cannot be evaluated (C26); `DTensor.unfold` caches the first mode (C29).
* `rmse_ignore_zero` is 0/0 on zero references (C34); ragged rows are read silently (C39).
* `predict` of CP/NCP/NTUCKER raises for every tensor with more than one entry (C40); untrained HOSVD/HOOI/PITF do not
  raise TensorErr (C41); HOOI's `train_finish` is never reset (C42); `train(0)` raises (C44).
* CP and HOOI never notice a stalled objective (C46); `full` may be older than the factors (C47); interval 0 raises
  (C48); a negative CP column is normalized to minimum 1 (C52).
* `adjoint_operator` loses repeated samples (C64), which lets the error of `exact_recovery` grow (C86); the TensorFlow
  `shrink` multiplies by `v` instead of its transpose (C65, C66, C85); the TensorFlow `cone_projection_operator` always
  raises (C68); the TensorFlow PITF draws new samples in every step (C69); `shrink(.., 'complicated')` is not the
  proximal operator of the nuclear norm (C85); `shrinkageBorC` drops a singular value and uses rows of the left factor,
  and its TensorFlow version raises in all but trivial calls (C98).
* After two `build_model` calls in one graph every training raises (C94).
* The stall test depends on the unit of the data: CP_ALS may stop earlier on 3X than on X (C99).
* The name of an experiment's report leaves out two dimensions, and the two shell scripts write the same files (C115).
* The relative residual is reported as 0 when the squares of the input overflow but the distance does not: the training stops as
  converged (C125).
* `subspace(…, 'A')` can exceed the requested rank by one (C160); `create_logger('DEBUG')` drops debug messages and importing
  `base/logger.py` silences the loggers of the application (C161).

## Checking the model against recorded behaviour

`Verif/Validation/Recorded.lean` evaluates the model on every input whose output the project recorded: all printed results of
`docs/source/guide_basic_ops.rst` (hadamard, kron, khatri, +, -, inner, vectorize, vec_to_tensor, unfold, t2mat, ttm, and the DTensor
methods) and the literal assertions of `tensorD/base/test/ops_test.py`. The kernel compares the values. These are tests of the model,
not proofs; they support the claim that the transcription by hand is right and they are in no claim of the manifest.

## Testing the theorems against wrong programs

`seeded/mutants.jsonl` lists edits of the model written by hand, `tools/auto_mutants.py` makes mechanical ones (swapped
operands, shifted bounds, dropped or exchanged branches) for every definition of the model. `tools/mutate.py` applies each
edit to a copy of the last commit and builds it; the declarations that no longer check are recorded, and the edit is caught
when a property theorem depends on one of them. An edit survives when the whole project builds without such a theorem.
`seeded/LOG.jsonl` has one line per attempt. A survivor leads to a tighter or additional theorem, unless the edited program
is the same function (noted in the log).

## Plan per property

- **C01** ops.unfold over `Tensor`; spec = Kolda's formula written directly; mixed-radix induction.
- **C02** round-trip theorems from the entry map of transpose and reshape.
- **C03** decision theorem on `List.remove`; error branch included.
- **C04** entry map for arbitrary axis lists; corollary relating to unfold.
- **C05** heap-passing model of the list argument; proved false for (list,int) arguments, `_partial` for the others.
- **C06** argument kinds as an inductive type; tuple branch raises TypeError; `_false` witness plus `_partial` for int/list.
- **C07** round trip on row-major data.
- **C08** entry formula with an explicit sum over the contracted index box.
- **C09** exact acceptance condition; `_false` witness (2x3 against 3x2), `_partial` for products that differ.
- **C10** einsum label semantics = fold of mode products, order <= 13.
- **C11** an Einstein sum is the same sum, or the same failure, for every order of its operands (`Lemmas/EinsumPerm.lean`); above order 26 the equation contains a character that is no letter and every call raises.
- **C12** filtering lemma; both-arguments branch; more matrices than modes: the equation has fewer terms than there are operands (`Lemmas/TtmCount.lean`).
- **C13** `_false`: letter collision for every order >= 14; positive part is C10.
- **C14** direct; data permutation lemma for unfold.
- **C15** fold of broadcast products.
- **C16** einsum + reshape; mixed-radix digits.
- **C17** from entry formulas.
- **C18** einsum + reshape.
- **C19** sum over row digits factorizes (product of sums).
- **C20** column-by-column computation against the closed formula.
- **C21** filter characterization.
- **C22** singular value as operator-norm contract; Kronecker norm inequality by iterating mode products.
- **C23** extract formula from khatri entry map and matmul.
- **C24** combination of C01, C18, C23.
- **C25** from C23.
- **C26** dtype decision table; `_false`.
- **C27** from C10.
- **C28** combination of C01, C10, C16.
- **C29** state-passing cache; `_false` witness, `_partial`: all calls return the unfolding of the first call's mode.
- **C30** direct.
- **C31** real analysis on finite sums.
- **C32** same.
- **C33** branch theorem.
- **C34** 0/0 as an explicit undefined result; `_false` for all-zero references, `_partial` otherwise.
- **C35** fold of writes, last wins.
- **C36** maximum of coordinates.
- **C37** permutation invariance of writes with distinct keys; filter of blank rows.
- **C38** round trip.
- **C39** error branches; ragged rows accepted: `_false` + `_partial`.
- **C40** numpy `.item` semantics; CP/NCP/NTUCKER `_false` for size != 1, HOSVD/HOOI `_partial`.
- **C41** CP family proved; HOSVD/HOOI raise a different exception: `_partial`.
- **C42** object state machine over histories; HOOI `_false`.
- **C43** loop invariant.
- **C44** `_false`: UnboundLocalError for all steps <= 0.
- **C45** loop invariant, first stopping index.
- **C46** CP/HOOI `_false`; NCP/NTUCKER theorem.
- **C47** `_false` witness; `_partial` for reported final steps.
- **C48** decision theorem; interval 0 raises: `_partial`.
- **C49** loop invariant.
- **C50** normal equations via Penrose axioms.
- **C51** sweep induction from C50.
- **C52** `_false` for negative columns, `_partial` for positive weight.
- **C53** invariant over all branch histories.
- **C54** scalar recurrence invariant.
- **C55** descent lemma with L an upper bound of the Gram quadratic form.
- **C56** U U^T acts as identity on unfoldings.
- **C57** orthonormal projections.
- **C58** Ky Fan maximum principle from the SVD contract.
- **C59** telescoping of orthogonal projections.
- **C60** mini graph semantics; result under ordered reads/writes; TF1 cached reads caveat: `_partial`.
- **C61** direct.
- **C62** direct.
- **C63** direct.
- **C64** `_false` with a repeated pair, `_partial` for distinct pairs.
- **C65** pairwise equality theorems; shrink differs: `_false` for it.
- **C66** SVD contract; TF version `_false`.
- **C67** SVD contract.
- **C68** Cauchy-Schwarz; TF version raises.
- **C69** loop invariant; TF version re-samples: `_false`.
- **C70** direct from C23/C27.
- **C71** state machine over histories.
- **C72** residual is a projection distance; induction over steps.
- **C73** positivity invariant over all steps. Rank 2: a 2 × 2 witness where a column of the first update has maximum 0.
- **C74** exact condition from the shapes of the unfoldings and the thin SVD.
- **C75** orthonormal projections.
- **C76** closed entry formulas of the contractions.
- **C77** descent lemma for the projected gradient step, per core and per mode.
- **C78** momentum weights of the first two steps vanish; combination of C55/C77.
- **C79** fixed-point computation.
- **C80** existence of a schedule with snapshot reads; contrast with C60.
- **C81** loop invariant linking the reported pair to the exposed values.
- **C82** two runs of the loop compared step by step.
- **C83** invariant over all histories of improving and worsening steps.
- **C84** norms of normalized draws; Kruskal/Tucker norm inequality.
- **C85** nuclear norm as dual norm, von Neumann trace inequality, subgradient characterisation.
- **C86** firm nonexpansiveness of shrink gives co-coercivity of the dual gradient; explicit witness with a repeated pair.
- **C87** dual ascent: weak duality bounds the residuals, compactness gives a multiplier, Fejer monotonicity gives convergence. That no pair of indices is drawn twice is needed: in a 1 × 2 × 2 example every iterate satisfies Y(0,1) = √2 X(0,0), the minimiser does not.
- **C88** the objectives are functions of the residuals; C45 rewritten over the history.
- **C89** the reference objective never moves and objectives are at most ||X||^2/2, so the relative change stays above tol.
- **C90** Eckart-Young per unfolding, telescoping projections (C59), monotone HOOI residuals.
- **C91** last update is optimal over weights for the final factors; on rank-one data each update gives a multiple of the true factor (induction over the sweep).
- **C92** the graphs of the remaining runs: every operation reads variables before they are overwritten (rank argument, Lemmas/OldReads), hence the values are those of the sequential loop.
- **C93** simulation between the scheduled session and the sequential model, step by step through `train`; each run by C60 and C92; an aborted run can be completed.
- **C94** process with default graph, summary collections and objects; simulation between the whole history and the calls of one object; every training fails in a shared graph.
- **C95** a loop that writes each block once and returns to its start changed nothing in between; then optimality of each block update (least squares, Eckart-Young with the optimal core, three-point inequality); converse from the three-point inequality.
- **C96** `PITF.train` as a fold over the steps with the interval test and the log; closed form of the log by induction on the number of steps.
- **C97** column sums from the SVD equation (a zero singular value or an orthogonal column), norms by orthogonal invariance; equality of the runs by induction, the operators being equal (C65).
- **C98** the search returns the first index past `r` below the threshold (`List.find?`), counted by a prefix argument for non-increasing values; the sum is `Uᵀ diag V`; counterexample with known left singular vectors.
- **C99** every operator of the step commutes with `scl c` (multiplication of all entries by c); the factors are then literally the same tensors, and trainings are compared through the run lemma `plain_run_full`; length from C88 and C89; counterexample run computed.
- **C100** as C99 with the hypothesis `SvdScales` on the solver (scaled singular values, same vectors), which `exists_scaling_svd` shows to be satisfiable.
- **C101** the states of the two trainings are related by `SRel`/`TRel` (factors and extrapolated points times a, Lipschitz constants times a power of a, momentum equal); each operator preserves the relation (`SameOp`: both fail or both succeed with related results); lengths for tol ≤ 0 because residuals and the stall quotient are never negative (`all_steps`).
- **C102** telescoping of the monotone residuals (C51, C58) in [0,1] (C72, C75); the trainings of different lengths share one sequence of residuals by C82; monotone convergence.
- **C103** (relations between slices) : `Spec/Slices.lean` states a linear relation between the slices of a mode and between the rows of a matrix. CP: the factor written by a mode update is `unfold(X, k) * (…)` divided by the weights, so a left null vector of the unfolding is one of the factor; induction over the modes of a sweep and over the steps; the stored full tensor is the Kruskal tensor of such factors. HOSVD: every left singular vector is orthogonal to the null vector or is a null vector of the unfolding itself, so the projection keeps the relation. Empty and equal slices are shown to be instances of the definition. Not stated for NCP and NTUCKER (a projected gradient step keeps part of the random initial rows) nor for HOOI (a factor column of a zero singular value stays while the other factors change).
- **C104** (synthetic data) : the noise-free part of the generated data is a Tucker tensor with the generator ranks (a Kruskal tensor is one with a diagonal core, proved by induction on the order), so C90 bounds the error by the noise, which `Spec/Synthetic.lean` writes out from the draws.
- **C105** (unnamed index) : C35 gives the entries of the tensor read, an unnamed index is an empty slice, C103 carries it to the reconstruction.
- **C106** (file to history) : C35, C74, C58, C75 and C90 composed; the bound is stated on the values of the file (`lastValue`).
- **C107** (rounding) : the reductions of the model (`tf.Red`, `tf.Ein`) are parameters; exact instances for semirings, rounded ones along evaluation trees. A ternary relation (rounded value, exact value, magnitude) graded by the number of roundings is preserved by every operation (`Lemmas/Rounding*.lean`), which gives the bound for every composition.
- **C108** (integers) : the same graded relation with "equal when the magnitude is at most P"; sharpness by a float32 witness.
- **C109** (relative accuracy) : C107 where the exact result for the absolute values is the absolute value of the exact result.
- **C110** (renumbering) : `Spec/Renumber.lean` says what renumbered data and factors are. Each graph operation commutes with renumbering (unfoldings and Khatri-Rao products have correspondingly permuted columns and rows, Gram matrices are unchanged), so each run of a fetch list does; `Lemmas/TrainMap.lean` and `TrainSim.lean` lift this to `train`. Not covered: HOSVD and HOOI, whose singular vectors are only determined up to the choice of the SVD routine.
- **C111** The model of the file reader is now the character machine of `csv.reader` (`_csv.c`, `excel` dialect) after universal
  newline translation.  `Spec/Coord.lean` says what it means for a text to spell a table (`FieldText`, `RowText`, `Lines`, `CsvOf`)
  without the machine; `csvRows_spec` (induction over the text) proves that the machine recovers the table, so C35-C39 now hold for
  quoted files and all line endings.  `C111_same_rows`, `C111_unambiguous`, `C111_quote_all`, `C111_round_trip`,
  `C111_stray_quote`, `C111_unclosed_quote`.  The machine is a library contract; it was compared with the `csv` module of
  Python 3.11 on 200000 random short texts (a test, not part of the proof).
- **C112** The object with its attributes and a changing file system (`Spec/ReaderHistory.lean`); induction over the history.
  `C112_last_success`, `C112_outcomes`, `C112_data`.
- **C113** Renumbered columns: permutations pass through Gram matrices, the pseudo-inverse (unique by the Penrose equations), the largest singular value (unique), Khatri-Rao products, mode products (a permuted mode of the core cancels the permuted columns), projections and norms; `train_translated_aux` carries this through the training loop. Not for `HOSVD`/`HOOI`, whose factors have the column order of the SVD and no initial values that enter the result.
- **C114** The format `%.10f` as round-half-even of the scaled magnitude and decimal digits; the specification reads the text (sign, digits, point, ten digits) and knows nothing of rounding. Uniqueness of the reading by splitting at separators. `C114_report`, `C114_readable`, `C114_exact`, `C114_interrupted` (prefix of the text by induction over the history).
- **C115** File names as texts: injective in what they mention (`C115_name`); induction over the sequence of runs (`C115_last`, `C115_untouched`). False in general (`C115_each_kept_false`, `C115_scripts_false`), `C115_each_kept_partial` and `C115_shell_kept` for the script's own experiments; the loops of the script are computed by an induction over the counter.
- **C116** Arrays as objects in a heap, providers as functions returning objects, variables; induction over the script. `C116_supplied`, `C116_object`, `C116_rebuild`, `C116_no_data`; `C116_not_current` shows that the binding is not refreshed.
- **C117** Simulation between two trainings: states equal up to `full` and the log of reports (`strip`). `C117_reporting`; `C117_full` from the determinism of runs.
- **C118** Simulation between the training with the tight and the loose tolerance while the loose one runs: the loose counter of stalled steps is never below the tight one. `C118_looser`.
- **C119** NaN rules as hypotheses on the arithmetic of the loop (`NanRules`, met by rationals with a NaN); the reference objective is NaN by induction. `C119_nan`, `C119_first_nan`.
- **C120** `loss.py` and the scalars of the trainings on rounded numbers (`Model/FloatLoss.lean`). Every term of the sums is nonnegative, so relative accuracy is kept: the relation "equal up to k roundings" (`Roundings`) is closed under products, quotients, roots and sums of nonnegative numbers; induction over the evaluation tree. `C120_training` compares with the exact scalars of the training model.
- **C121** The update of mode 0 does not read the factor of mode 0 (closed form of the update), so the first step, and with it the training, is a function of the other factors: `C121_first`. Rescaling columns by D turns the Khatri-Rao matrix K into KD; with KᵀK invertible the pseudo-inverse is the inverse, the update becomes N D⁻¹, and dividing by the column maximum removes D⁻¹; induction over the modes of the first step: `C121_scaled`, `C121_rank_one`.
- **C122** With separated singular values the projection A Aᵀ of the leading left singular vectors is the only maximiser of the captured energy (`Lemmas/Separated.lean`), hence does not depend on the routine. Core norm, reconstruction and the next unfolding depend on the factors only through their projections (`Turned`), so the relation is kept by every update; simulation between two trainings. `C122_hosvd`, `C122_hooi`; `C122_needs_separated` gives two correct routines with different reconstructions of the identity matrix.
- **C123** As C122 with an orthogonal matrix per mode between the two runs; permutation matrices give the renumberings. `C123_hosvd`, `C123_hooi`, `C123_hosvd_renumber`, `C123_hooi_renumber`.
- **C124** The model functions are polymorphic in the scalars; `Lemmas/Par.lean` shows that every relation between three scalar types kept by zero, products and the three kinds of sums is kept by every operation (parametricity). The three runs: the bounded format (`Model/Special.lean`), the same format with unbounded exponents, and marks in ℕ∞ (⊤ for an entry that is not a number), on which the operations are computed by the exact theorems C08-C27. `C124_mul` ... (agreement of numbers), `C124_mul_shows` ... (visibility).
- **C125** `Model/SpecialLoss.lean`; induction over the evaluation trees; sign invariant (norms, objectives and residuals are never negative, so an infinite one is never below a tolerance). `C125_l2`, `C125_rmse`, `C125_rmse_ignore_zero`, `C125_objective`, `C125_residual_partial`, `C125_residual_false`, `C125_ends_finite`, `C125_bad_input`.
- **C126** With one component the Gram matrix is 1 × 1, so its pseudo-inverse and its largest singular value are given and every update has a closed form: CP divides the best fit by its largest entry; the gradient step with step size 1/L lands on the best fit whatever point it starts from; NTUCKER's is the best fit divided by the core entry; HOOI's is the normalised best fit. `Parallel` (equal up to a scalar per mode) is kept by the updates, and the reconstruction after a fit does not depend on the scalars. `C126_cp`, `C126_ncp`, `C126_ntucker`, `C126_hooi`, `C126_hooi_positive` (Perron: replacing a leading singular vector of a positive matrix by its absolute values), `C126_agree`, `C126_best`.
- **C127** The result of a sweep does not depend on the extrapolated points, so the three-point inequality applies with the current factors (`C127_never_rises`); NTUCKER through C126 and the fit being a least-squares fit (`C127_ntucker`); positivity as an invariant of the variables (`C127_positive`, `C127_ntucker_positive`); the step size of the core update is the squared norm of the rank-one tensor, so the extrapolated core cancels and the result is the least-squares core (`C127_core`).
- **C128** `Props/HosvdCore.lean`: the factors are the first columns of a matrix of left singular vectors that does not depend on the ranks (`leading_nested`), so by C76 the core is a corner and by C57 the error differs by the cut entries; all-orthogonality from `X_n = A_n G_n Kᵀ` with `KᵀK = 1` (`unfM_tucker_orth`, `gram_core`).
- **C129** `Props/FloatFit.lean`: entrywise bound of C107 for the reconstruction, Minkowski's inequality over the box (`sqDist_near`), then C120 for the reported numbers.
- **C130** ttm is read through C10 as a chain of mode products; on each mode the chain is a sum, so the laws follow by exchanging finite sums, and by induction over the list of modes (Lemmas/TtmLaws.lean).
- **C131** `int()` is characterised by a grammar (Spec/IntText.lean): the digit reader accepts exactly non-empty groups of digits joined by single underscores (induction over the text, with the flag "the previous character was a digit"), and stripping removes exactly the blanks on both sides (Lemmas/IntText.lean).
- **C132** Entries of both forms are known (C23, C27); the inner product is a sum over a box of products over the modes, exchanged by induction over the modes; the superdiagonal core leaves one term per component; the Tucker parts are C130 (adjoint, isometry).
- **C133** By C82 every history entry is the last entry of a shorter training, so it is the error of a Kruskal tensor with R components or a Tucker tensor with the given ranks; its unfolding factors through R columns and Eckart-Young (proved in `Lemmas/LowRank.lean`) bounds the distance.
- **C134** Both forms are sums of products over the modes, and a product over the modes does not depend on their order; sums over a box are sums over the stored data, which `transpose` permutes. The Gram matrix of an unfolding is the same for the transposed data, so separated leading subspaces agree (Lemmas/Transposed.lean). The dependence of CP_ALS is C126 evaluated on `[[2,1],[1,1]]`.
- **C135** Model `float()` on text (Model/FloatText.lean): strip blanks, take off the sign, compare with the words in lower case, cut at `e` and at the point, read the digits. Prove it equivalent to a grammar of numbers (Spec/FloatText.lean), by splitting lemmas for each step. Reading and rejecting then follow from C35 and C39, and the round trip from C38. Trusted: that CPython's `float` is this function on ASCII text.
- **C136** `Model/SpecialBcu.lean` repeats the graphs of the nonnegative trainings on the numbers of `Model/Special.lean`.  Being not negative is kept by rounded sums, products, quotients and roots, so the parametricity lemmas (`Lemmas/Par.lean`) carry it through the operators; the same lemmas with the trivial relation carry shapes and success over from the exact model.  Invariants over `Reach`, then `history_exposes` and `train_safe`.
- **C137** The graph of `CP_ALS` on the numbers of C124 (`Model/SpecialCp.lean`). One mode update is split into the cases "pinv raised" and "returned with these columns" (`CP.modeUpdate_cases`); a loop invariant over the modes (`SwOk`) records which factors are numbers. The division of a number by itself rounds to exactly 1, which gives the normalisation; a monotone rounding (proved for round-to-nearest, `Lemmas/NearestMono.lean`) gives the one-sidedness. `Lemmas/TrainErr.lean` lifts "main returns or raises e" to `train`.
- **C138** A stop by the criterion means that the stored relative residual or the objective compared smaller than the tolerance, so it is not NaN, so the reconstruction and the data are free of infinities and NaN (`stop_numbers`); by the evaluation trees of the sums a finite reconstruction has finite corner terms, and choosing the corner for each factor entry gives finite factors, weights and core (`kruskal_numbers`, `tucker_numbers` in `Lemmas/SpecialStop`). Combined with C136/C137 for shapes, signs and the entry 1 of each column.
- **C139** The graphs of `HOSVD` and `HOOI` on the numbers of C124 (`Model/SpecialTucker.lean`). Shapes and success of the products are carried over from the exact model by the parametricity lemmas with the trivial relation; one mode update either raises (decomposition, or a matrix of another shape when the rank does not fit) or keeps all shapes (`HOOI.modeUpdate_cases`); induction over the modes gives admissibility exactly when a run returns, and `train_err` lifts this to `train`.
- **C140** Every operation of the float model (`Model/Special*.lean`) is shown to be continuous in the sense of `Spec/Limit.lean`: operands that tend to real numbers give results that tend to the exact result, from some format on without overflow (`Lemmas/Limit*.lean`: scalars, sums along evaluation trees, einsum by parametricity, one sweep of each class). The loop is a simulation: strict inequalities in the exact run are eventually the same in the rounded run, so the decisions agree, by induction over the steps (`train_tends`). Largest singular values are 1-Lipschitz, the inverse is continuous at invertible matrices. Ties: by C141 all histories for different tolerances are initial parts of each other, so each step contributes at most two tolerances.
- **C141** Simulation of two loops that differ in the tolerance and the stall counter only; the counter of the larger tolerance is never smaller (`Lemmas/Tolerance.lean`).
- **C142** programs over a heap of `DTensor` objects (`Model/Objects.lean`) against programs over a list of tensors (`Spec/Objects.lean`): simulation, the invariant says that a cached unfolding is the one every later statement asks for.
- **C143** `__getitem__` with integers and the legacy iteration protocol; `tf.Tensor.__getitem__` is a library contract (integers only, `ValueError` out of range).
- **C144** averages over the finite type of all sample lists (`Spec/Average.lean`); independence as the average of a product over a function space (`Lemmas/Average.lean`).
- **C145** `Model/Ratings.lean` composes the reader, the trainings in rounded arithmetic and the report; the parts are C35, C39, C114, C136, C137, C139, and the theorem is about the composition with the constants of the scripts.
- **C146** `Model/Negative.lean` gives `mul`, `t2mat` (as `mul` calls it) and `ttm` with integers for the axes; the behaviour of `tf.transpose` on negative entries is an arbitrary parameter. On natural numbers they equal the model of `Model/Ops.lean`. `mul`: the permutation is longer than the number of axes (pigeonhole), so it is refused. `ttm`: the character computed from `-1..-6` is none of the letters `tf.einsum` accepts. Witness for seven axes by evaluation.
- **C147** from the entry formula C08 for the four choices of axes; the documented `BA` refuted by a pair of 2x2 matrices.
- **C148** the shrunk matrix is characterised (with its centred argument) by alignment, which no other matrix meets; so any decomposition gives it. Unit, numbering and order: a map on iterates that commutes with one step, then induction over the steps including the early exits.
- **C149** the solver negating the second pair of singular vectors is shown correct for all sizes; equality of the two results would make the columns of a concrete matrix orthogonal. The positive part by cancelling `V Vᵀ`.
- **C150** the loop over the modes is cut at every stage (`fold_stages`): before mode `n` the list holds the new factors below `n` and the old ones from `n` on; each stage minimises over its block and no later stage increases the error.
- **C151** trainings of all lengths are parts of one endless run; the inequality of C150 passes to the limit because the error is continuous in the entries. Existence for HOOI by compactness (orthonormal columns, core bounded by the data).
- **C152** one endless run as in C151; at the steps after improving ones the extrapolated point lies between two iterates and converges with them, the Lipschitz constants stay bounded (Gram matrices of the limit), so the three-point inequality of the proximal step passes to the limit. One component: the sweep does not depend on the extrapolation.
- **C153** invariant: factors, reference and extrapolated point coincide and fit, no Lipschitz constant is 0; the three-point inequality with error 0 forces the new block to equal the old one.
- **C154** invariant: the model is not zero. If a gradient step from any nonnegative point towards positive data ended with a zero row, testing the optimality condition of the row with a nonnegative eigenvector of the Gram matrix for its largest eigenvalue (exists because the matrix is nonnegative) would give a contradiction; so every row of the new factor is nonzero in the model, hence the next Lipschitz constant is not 0.
- **C155** Which experiments leave a report: the four scripts as a training followed by the report (`exRun`), in rounded arithmetic; from C136, C137, C139 and C43 for every data tensor of the right size; the calls of the two shell scripts from C115; the negation for `ex_20_shell.sh` with the exact set of exceptions.
- **C156** The demos: `multigraph_demo.py` as calls of the process model (C94) on exact arithmetic, with C90 (the data has multilinear ranks 2, 2, 2) and C81 for `full`; induction over the passes. The other demos as in C155.
- **C157** `exact_recovery` on raw arguments (`Model/PitfCall.lean`): the checks that the code makes by raising, in its order, around the typed run of C69; case analysis, `fd = r (2 (n0 + n1 + n2) - 3 r)`.
- **C158** (`Props/HooiLast.lean`): the last update of a sweep takes the leading left singular vectors of the compressed data `W`; the core's unfolding is their transpose times that of `W`, i.e. rows `σ_a v_aᵀ`, which are orthogonal with norms `σ_a`. The same fact gives C103 for HOOI along the last mode: a column of the factor is orthogonal to the relation or belongs to a zero slice of the core.
- **C159** the difference of two triples is a vanishing pairwise interaction; summing it over one or two indices gives that each part vanishes. Non-determination by counting: the constraints and samples are fewer linear equations than unknowns. `Props/PitfUnique.lean`.
- **C160** `subspace` as a product of inner size k (k+1 for 'A'); the witness is an explicit 2 × 2 draw. `Props/PitfRank.lean`.
- **C161** every call changes one logger, and only its level; the state after any calls in closed form, then the chain of loggers above a name. `Model/Logging.lean`, `Props/Logging.lean`.
- **C162** loops over the samples as `mapM`/`foldlM`; the invariant of the scatter loop says which sample wrote an entry last.
- **C163** each fit projects the data onto a subspace that contains the reconstruction before it, so by Pythagoras it moves exactly as far as the error falls; moves add up along a step, the errors converge, hence the moves vanish and all stages of a step share the limits. The directions of the vectors are read off the reconstruction itself (quotients of entries), so they converge with it and the optimality of each fit passes to the limit. `Lemmas/AlsOneMove.lean`, `Props/AlsOneLimit.lean`.
- **C164** as C163, with the linear family of all matrices of one mode in place of vectors: minimality on a line gives Pythagoras. `Lemmas/CpMove.lean`, `Props/CpMove.lean`.
- **C165** a step maps the second vector to a multiple of XᵀX applied to it; in an orthonormal eigenbasis of XᵀX the iteration is the power method, whose normalised square sums converge to the projection onto the leading eigenspace. The reconstruction is a continuous function of the normalised vector. `Lemmas/PowerLimit.lean`, `Props/PowerLimit.lean`.
- **C166** an entry at which data and vectors are positive stays one through every update (C73 and C127 with one entry in place of all); conversely the first update raises if every term of its sum is zero. `Lemmas/CpNonneg.lean`, `Lemmas/AlsOneAt.lean`, `Lemmas/AlsOneTuckerAt.lean`, `Props/OneNonneg.lean`.
- **C167** Matrices (`Spec/BestRank`, `Lemmas/MatrixBest`, `Props/MatrixBest`). For two modes the squared norm of the core is `‖Bᵀ X C‖²` (`coreSq_two`), a competitor of rank `r` factors through `r` columns (`rank_factor`) and Eckart-Young (C90) bounds its error below. HOOI: after the start the second factor spans the leading right singular vectors, and the first update is at least as good as the columns that span `X C`, which lose nothing; later steps do not increase the error (C58). HOSVD: with a gap the span of the leading left vectors is unique (C122's Ky Fan argument), so that the two projections agree; the counterexample without a gap is a quarter turn, with a routine that answers the identity as left vectors for it and for its transpose.
- **C168** The state after a first step does not depend on the first factor (C121), so each step bound of C51 holds with any first factor in its place; a spanning family of rank-one arrays makes the bound 0. Theorems in Props/FirstStep.lean, with a training that meets the hypotheses.
- **C169** l2 composed with the broadcasting difference: domain, value, zeros, and the column-against-vector case written out as a double sum. Props/L2Bcast.lean.
- **C170** Two operands of an Einstein sum with equal labels and shapes can be multiplied entrywise first (`einsumL_merge`, Lemmas/EinsumMerge.lean, for any other operands and any output); `ttm` is one Einstein sum (`ttm_einsumL`), so a repeated axis collapses to the Hadamard product, `C170_repeat`, `C170_all` by induction, `C170_entry` with C10, `C170_not_successive` on a swap matrix.
- **C171** Entrywise from C27/C23 (reconstructions as sums over a box), C16/C18 (entries of kron/khatri at mixed-radix positions) and C07 (vectorize is row-major), re-indexing a sum over a box as a sum over positions. `C171_ttm`, `C171_kruskal`; with C22 the sharp bound `C171_sensitivity`.
- **C172** Entrywise from C10, C01, C02 and C08: Kolda's column number does not depend on the size or the index of the unfolded mode (`koldaCol_set`), and putting the contracted index back (`place`) is setting coordinate `n` (`place_one`). `C172_unfold`, `C172_mul`.
- **C173** The two formulas of `Reports` (C81) differ only in the positions where the data is zero; splitting the sum over all positions there gives the identity, and `all_entries` carries it to every entry. `C173_cp`, `C173_hooi`, `C173_ncp`, `C173_ntucker`.
- **C174** `TTensor.extract` is ttm on the core, so C130's composition law gives the Tucker case; a Kruskal tensor is a Tucker tensor with superdiagonal core (C132), which gives the other. `C174_tucker`, `C174_kruskal`.
- **C175** `Model/PitfRawTf.lean` models a call in two phases, building the graph and running it; a loop of both phases succeeds when each sample passes both (`two_phase`), which is the condition of the numpy loop (C162), except that sparse tensors refuse negative indices. `C175_matrix`, `C175_tensor`, `C175_pair`, `C175_adjoint`, the `_else` theorems for what is raised, `C175_adjoint_negative` for the difference, `C175_typed` for the tie to the other theorems.
- **C176** `Props/Again.lean`: the tensor each training exposes is a Tucker tensor of the ranks asked for (a Kruskal tensor with a diagonal core), so the exact-recovery theorems of C90 apply to it.
- **C177** `Props/Compare.lean`: the first HOOI step starts from the factors of HOSVD and later steps do not increase the error; the reconstructions of the other methods are competitors in the quasi-optimality bound of C90.
- **C178** `Model/Console.lean` carries the printed text and the variables `step` and `loss_v` through the loop; invariant: the lines so far are those of the reported steps with their history entries, and the variables hold the number of entries and the last loss.
- **C179** `Props/Predictions.lean`: C40 gives the entry of `full`, C76 and C81 write it with the core and the factors, and one entry of the error is at most its norm, bounded by C90 or by the last history entry.
- **C180** `exact_recovery` of the numpy PITF with its console lines and the records of its three files (`Model/PitfSays.lean`), proved by a closed form of the loop: same result as without output, the lines are the returned lists, the files account for the run, nothing is recorded when a call raises, shorter runs give prefixes (`Props/PitfSays.lean`).
- **C181** `PITF.train` with its console lines, the records of its two files and the object left behind (`Model/PitfSaysTf.lean`), by a closed form of the loop from any step on, compared with the returned log of C96; the two raising cases are computed (`Props/PitfSaysTf.lean`).
