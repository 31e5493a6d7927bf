import Mathlib.Analysis.Real.Sqrt
import Verif.Model.Py
import Verif.Model.Loss
import Verif.Spec.Svd

/-!
# Pairwise-interaction operators
(`base/pitf_ops_numpy.py`, `base/pitf_ops.py`, `factorization/pitf_numpy.py`, `factorization/pitf.py`)

Exact real arithmetic.  Matrices are Mathlib matrices, so shapes always fit.  Random draws
(`np.random.randn`, `np.random.randint`, ...) are arguments.  The SVD solver is an argument `svd`; theorems
assume that it returns a decomposition (`Spec/Svd.lean`).

A sample list `[a, b, c]` of `m` positions of a tensor of shape `n 0, n 1, n 2` is a function
`spl : (d : Fin 3) → Fin m → Fin (n d)`; `sample3D_rule` (`pitf_ops_numpy.py:57-64`, `pitf_ops.py:171-208`)
draws such positions.
-/
namespace TD.pitf
open TD Matrix Spec

/-- Third-order tensor of shape `n 0, n 1, n 2` (`pitf_ops_numpy.py:123-130`). -/
abbrev Tensor3 (n : Fin 3 → Nat) := Fin (n 0) → Fin (n 1) → Fin (n 2) → ℝ

/-- Sample list (`pitf_ops_numpy.py:57-64`). -/
abbrev Samples (n : Fin 3 → Nat) (m : Nat) := (d : Fin 3) → Fin m → Fin (n d)

/-- `np.ones((r, c))` (`pitf_ops_numpy.py:15`, `pitf_ops_numpy.py:181-182`). -/
def ones (r c : Nat) : Mat r c := fun _ _ => 1

/-- Number of rows and columns of the matrix handled with `dim` = 0, 1, 2 (`pitf_ops_numpy.py:67-95`). -/
def rowDim (n : Fin 3 → Nat) : Fin 3 → Nat
  | 0 => n 0
  | 1 => n 1
  | 2 => n 2

/-- As above (`pitf_ops_numpy.py:67-95`). -/
def colDim (n : Fin 3 → Nat) : Fin 3 → Nat
  | 0 => n 1
  | 1 => n 2
  | 2 => n 0

/-! ## numpy version -/
namespace np

/-- `pitf_ops_numpy.py:14-17` `centralization`. -/
noncomputable def centralization {r c : Nat} (mat : Mat r c) : Mat r c :=
  let tmp := (r : ℝ)⁻¹ • (ones r r * mat)
  mat - tmp

/-- `pitf_ops_numpy.py:20-47` `subspace`; `U`, `V` are drawn by `generate` (8-11).  `none` is `False`. -/
noncomputable def subspace {r c k : Nat} (U : Mat r k) (V : Mat c k) (mode : String) : Option (Mat r c) :=
  let tmp := U * Vᵀ
  if mode = "B" then some (centralization tmp)
  else if mode = "C" then some (centralization tmp)
  else if mode = "A" then
    let vec1 := ones r 1
    let vec2 := ones c 1
    some (centralization tmp + ((vec1ᵀ * tmp * vec2) 0 0 / ((r : ℝ) * c)) • (vec1 * vec2ᵀ))
  else none

/-- `pitf_ops_numpy.py:50-54` `sample_rule4mat`. -/
noncomputable def sampleRule4mat (n : Fin 3 → Nat) {ra rb rc : Nat} (UA : Mat (n 0) ra) (VA : Mat (n 1) ra)
    (UB : Mat (n 1) rb) (VB : Mat (n 2) rb) (UC : Mat (n 2) rc) (VC : Mat (n 0) rc) :
    Option (Mat (n 0) (n 1)) × Option (Mat (n 1) (n 2)) × Option (Mat (n 2) (n 0)) :=
  (subspace UA VA "A", subspace UB VB "B", subspace UC VC "C")

/-- `pitf_ops_numpy.py:67-95` `Pomega_mat`, the branches `dim` = 0, 1, 2 (any other `dim` returns `None`). -/
noncomputable def PomegaMat {n : Fin 3 → Nat} {m : Nat} (spl : Samples n m) :
    (dim : Fin 3) → Mat (rowDim n dim) (colDim n dim) → Fin m → ℝ
  | 0, X => fun i => X (spl 0 i) (spl 1 i) / √(n 2)
  | 1, Y => fun i => Y (spl 1 i) (spl 2 i) / √(n 0)
  | 2, Z => fun i => Z (spl 2 i) (spl 0 i) / √(n 1)

/-- `X[i][j] = x` on a matrix (`pitf_ops_numpy.py:104`). -/
def assign {r c : Nat} (X : Mat r c) (p : Fin r × Fin c) (x : ℝ) : Mat r c :=
  fun i j => if (i, j) = p then x else X i j

/-- `pitf_ops_numpy.py:98-120` `adjoint_operator`, the branches `dim` = 0, 1, 2 (any other `dim` prints and
returns -1). -/
noncomputable def adjointOperator {n : Fin 3 → Nat} {m : Nat} (spl : Samples n m) (y : Fin m → ℝ) :
    (dim : Fin 3) → Mat (rowDim n dim) (colDim n dim)
  | 0 => (List.finRange m).foldl (fun X i => assign X (spl 0 i, spl 1 i) (y i)) 0
  | 1 => (List.finRange m).foldl (fun Y i => assign Y (spl 1 i, spl 2 i) (y i)) 0
  | 2 => (List.finRange m).foldl (fun Z i => assign Z (spl 2 i, spl 0 i) (y i)) 0

/-- `pitf_ops_numpy.py:123-130` `Pomega_tensor`. -/
def PomegaTensor {n : Fin 3 → Nat} {m : Nat} (spl : Samples n m) (T : Tensor3 n) : Fin m → ℝ :=
  fun i => T (spl 0 i) (spl 1 i) (spl 2 i)

/-- `pitf_ops_numpy.py:133-139` `Pomega_Pair`. -/
noncomputable def PomegaPair {n : Fin 3 → Nat} {m : Nat} (spl : Samples n m) (X : Mat (n 0) (n 1))
    (Y : Mat (n 1) (n 2)) (Z : Mat (n 2) (n 0)) : Fin m → ℝ :=
  PomegaMat spl 0 X + PomegaMat spl 1 Y + PomegaMat spl 2 Z

/-- Euclidean norm of a vector (`np.linalg.norm(x, ord=2)`) (`pitf_ops_numpy.py:143`). -/
noncomputable def norm {k : Nat} (x : Fin k → ℝ) : ℝ := √(∑ i, x i ^ 2)

/-- `pitf_ops_numpy.py:142-150` `cone_projection_operator`; `none` is `None` (falling off the end).
Simplification: the Python number 0 returned for `x` is the zero vector. -/
noncomputable def coneProjection {k : Nat} (x : Fin k → ℝ) (t : ℝ) : Option ((Fin k → ℝ) × ℝ) :=
  let nx := norm x
  if nx ≤ t then some (x, t)
  else if t ≤ -nx then some (0, 0)
  else if t ≥ -nx ∧ t ≤ nx then
    let tmp := (nx + t) / (2 * nx)
    some (tmp • x, tmp * nx)
  else none

/-- What `np.linalg.svd(M, full_matrices=True)` returns: `u, s, vh` (`pitf_ops_numpy.py:154`). -/
abbrev Svd := {m n : Nat} → Mat m n → Mat m m × (Fin (min m n) → ℝ) × Mat n n

/-- `pitf_ops_numpy.py:153-158` `SVT`. -/
noncomputable def SVT (svd : Svd) {r c : Nat} (mat : Mat r c) (tao : ℝ) :
    Mat r r × (Fin (min r c) → ℝ) × Mat c c :=
  let usv := svd (centralization mat)
  (usv.1, fun i => max 0 (usv.2.1 i - tao), usv.2.2)

/-- `pitf_ops_numpy.py:173-186` `shrink`; `none` is `None` (unknown mode). -/
noncomputable def shrink (svd : Svd) {r c : Nat} (mat : Mat r c) (tao : ℝ) (mode : String := "normal") :
    Option (Mat r c) :=
  let usv := SVT svd mat tao
  let sm : Mat r c := diagRect usv.2.1
  if mode = "normal" then some (usv.1 * sm * usv.2.2)
  else if mode = "complicated" then
    let vecr1 := ones r 1
    let vecr2 := ones c 1
    let delta := (vecr1ᵀ * mat * vecr2) 0 0 / √((r : ℝ) * c)
    let tmp1 := usv.1 * sm * usv.2.2
    let tmp2 := ((max 0 (delta - tao) + min 0 (delta + tao)) / √((r : ℝ) * c)) • ones r c
    some (tmp1 + tmp2)
  else none

/-- The values of one iteration of `exact_recovery` (`pitf_numpy.py:73-121`). -/
structure Iter (n : Fin 3 → Nat) (m : Nat) where
  y : Fin m → ℝ
  X : Mat (n 0) (n 1)
  Y : Mat (n 1) (n 2)
  Z : Mat (n 2) (n 0)
  erate : Option ℝ
  loss : Option ℝ

/-- The `for` loop of `exact_recovery` (`pitf_numpy.py:73-121`), iteration `i` with sample vector `y`.  The
matrices produced by `shrink` exist for the two modes used. -/
noncomputable def recoveryStep (svd : Svd) {n : Fin 3 → Nat} {m : Nat} (spl : Samples n m) (T : Tensor3 n)
    (delt tao : ℝ) (y : Fin m → ℝ) : Iter n m :=
  let X := (1 / √(n 2)) • (shrink svd (adjointOperator spl y 0) tao "complicated").getD 0
  let Y := (1 / √(n 0)) • (shrink svd (adjointOperator spl y 1) tao "normal").getD 0
  let Z := (1 / √(n 1)) • (shrink svd (adjointOperator spl y 2) tao "normal").getD 0
  let e1 := PomegaTensor spl T
  let e2 := PomegaPair spl X Y Z
  let e := e1 - e2
  { y := y + delt • e
    X := X
    Y := Y
    Z := Z
    erate := loss.fdiv (norm e) (norm e1)
    loss := loss.fsqrt (loss.fdiv (∑ i, e i ^ 2) m) }

/-- What `exact_recovery` returns (`pitf_numpy.py:129`). -/
structure Recovery (n : Fin 3 → Nat) (m : Nat) where
  last : Iter n m
  If : List Nat
  Ef : List (Option ℝ)
  Rf : List (Option ℝ)

/-- The loop with `k` iterations left, at iteration `i`, current `y`, the last iteration if any, and the
three histories (`pitf_numpy.py:73-122`). -/
noncomputable def recoveryLoop (svd : Svd) {n : Fin 3 → Nat} {m : Nat} (spl : Samples n m) (T : Tensor3 n)
    (delt tao : ℝ) : Nat → Nat → (Fin m → ℝ) → Option (Iter n m) →
    List Nat × List (Option ℝ) × List (Option ℝ) → Option (Iter n m) × List Nat × List (Option ℝ) × List (Option ℝ)
  | 0, _, _, last, h => (last, h)
  | k + 1, i, y, _, (If, Ef, Rf) =>
    let it := recoveryStep svd spl T delt tao y
    recoveryLoop svd spl T delt tao k (i + 1) it.y (some it) (If ++ [i], Ef ++ [it.erate], Rf ++ [it.loss])

/-- `pitf_numpy.py:37-129` `exact_recovery`; `spl` are the positions drawn before the loop (line 58).  With
`steps = 0` the returned `X` is unbound.  Without samples `RMSE_t / spn` divides the integer 0 by 0 in the first step (lines 97-100).
For the rank, and for data that is not a third-order tensor, see `recover` (`Model/PitfCall.lean`). -/
noncomputable def exactRecovery (svd : Svd) {n : Fin 3 → Nat} {m : Nat} (argDelt argTao : ℝ) (steps : Nat)
    (T : Tensor3 n) (spl : Samples n m) : Res (Recovery n m) :=
  let delt := argDelt * m / √((n 0 : ℝ) * n 1 * n 2)
  let tao := argTao * √((n 0 : ℝ) * n 1 * n 2)
  if m = 0 ∧ steps ≠ 0 then .error .zeroDivision
  else match recoveryLoop svd spl T delt tao steps 0 0 none ([], [], []) with
  | (none, _) => .error .unboundLocal
  | (some it, If, Ef, Rf) => .ok ⟨it, If, Ef, Rf⟩

/-- `pitf_ops_numpy.py:190-223` `shrinkageBorC`: the rank is searched from `r + 1` on. -/
noncomputable def searchRank (s : List ℝ) (tao : ℝ) (r : Nat) : Nat :=
  match (List.range' (r + 1) (s.length - (r + 1))).find? fun i => decide (s.getD i 0 < tao) with
  | some i => i - 1
  | none => r

/-- `pitf_ops_numpy.py:190-223` `shrinkageBorC`: the sum of the first `r'` terms `(S[j]-tao) * U[j,:]ᵀ V[j,:]`, with
the *rows* of `U` as written; a row or singular value that does not exist raises `IndexError`.  Simplification: the
empty sum, the Python number 0, is the zero matrix. -/
noncomputable def shrinkageBorC (svd : Svd) {p q : Nat} (Xhat : Mat p q) (tao : ℝ) (r : Nat) : Res (Mat p q × Nat) :=
  let usv := svd (centralization Xhat)
  let S := List.ofFn usv.2.1
  let r' := searchRank S tao r
  if h : r' ≤ min p q then
    .ok (∑ j : Fin r', (S.getD j 0 - tao) •
      vecMulVec (usv.1 ⟨j, by omega⟩) (usv.2.2 ⟨j, by omega⟩), r')
  else .error .indexError

/-- `pitf_ops_numpy.py:226-235` `shrinkageA`. -/
noncomputable def shrinkageA (svd : Svd) {p q : Nat} (Xhat : Mat p q) (tao : ℝ) (r : Nat) : Res (Mat p q × Nat) := do
  let Xr ← shrinkageBorC svd Xhat tao r
  let delta := ∑ i, ∑ j, Xhat i j
  let gamma := (max 0 (delta - tao) + min 0 (delta + tao)) / ((p : ℝ) * q)
  .ok (Xr.1 + gamma • (ones p 1 * ones 1 q), Xr.2)

end np

/-! ## TensorFlow version -/
namespace tfl

/-- `pitf_ops.py:49-75` `centralization`. -/
noncomputable def centralization {r c : Nat} (mat : Mat r c) : Mat r c :=
  let tmp := (r : ℝ)⁻¹ • (ones r r * mat)
  mat - tmp

/-- `pitf_ops.py:78-132` `subspace`; `none` is `False`. -/
noncomputable def subspace {r c k : Nat} (U : Mat r k) (V : Mat c k) (mode : String) : Option (Mat r c) :=
  let tmp := U * Vᵀ
  if mode = "B" then some (centralization tmp)
  else if mode = "C" then some (centralization tmp)
  else if mode = "A" then
    let vec1 := ones r 1
    let vec2 := ones c 1
    some (centralization tmp + ((vec1ᵀ * tmp * vec2) 0 0 / ((r : ℝ) * c)) • (vec1 * vec2ᵀ))
  else none

/-- `pitf_ops.py:135-168` `sample_rule4mat`; the matrices `U`, `V` are drawn by `generate` (`pitf_ops.py:13-46`). -/
noncomputable def sampleRule4mat (n : Fin 3 → Nat) {ra rb rc : Nat} (UA : Mat (n 0) ra) (VA : Mat (n 1) ra)
    (UB : Mat (n 1) rb) (VB : Mat (n 2) rb) (UC : Mat (n 2) rc) (VC : Mat (n 0) rc) :
    Option (Mat (n 0) (n 1)) × Option (Mat (n 1) (n 2)) × Option (Mat (n 2) (n 0)) :=
  (subspace UA VA "A", subspace UB VB "B", subspace UC VC "C")

/-- `pitf_ops.py:211-287` `Pomega_mat` (any other `dim` raises `ValueError`). -/
noncomputable def PomegaMat {n : Fin 3 → Nat} {m : Nat} (spl : Samples n m) :
    (dim : Fin 3) → Mat (rowDim n dim) (colDim n dim) → Fin m → ℝ
  | 0, mat => fun i => mat (spl 0 i) (spl 1 i) / √(n 2)
  | 1, mat => fun i => mat (spl 1 i) (spl 2 i) / √(n 0)
  | 2, mat => fun i => mat (spl 2 i) (spl 0 i) / √(n 1)

/-- `pitf_ops.py:290-335` `index_value_append`. -/
def indexValueAppend {m r c : Nat} (l1 : Fin m → Fin r) (l2 : Fin m → Fin c) (y : Fin m → ℝ) :
    List ((Fin r × Fin c) × ℝ) :=
  (List.finRange m).map fun i => ((l1 i, l2 i), y i)

/-- `tf.sparse_tensor_to_dense(validate_indices=False)`: later values overwrite earlier ones (`pitf_ops.py:395`). -/
noncomputable def sparseToDense {r c : Nat} (e : List ((Fin r × Fin c) × ℝ)) : Mat r c := fun i j =>
  ((e.filter fun p => p.1 = (i, j)).map Prod.snd).getLastD 0

/-- `pitf_ops.py:338-425` `adjoint_operator` (any other `dim` raises `ValueError`). -/
noncomputable def adjointOperator {n : Fin 3 → Nat} {m : Nat} (spl : Samples n m) (y : Fin m → ℝ) :
    (dim : Fin 3) → Mat (rowDim n dim) (colDim n dim)
  | 0 => (0 : Mat (n 0) (n 1)) + sparseToDense (indexValueAppend (spl 0) (spl 1) y)
  | 1 => (0 : Mat (n 1) (n 2)) + sparseToDense (indexValueAppend (spl 1) (spl 2) y)
  | 2 => (0 : Mat (n 2) (n 0)) + sparseToDense (indexValueAppend (spl 2) (spl 0) y)

/-- `pitf_ops.py:428-467` `Pomega_tensor`. -/
def PomegaTensor {n : Fin 3 → Nat} {m : Nat} (spl : Samples n m) (T : Tensor3 n) : Fin m → ℝ :=
  fun i => T (spl 0 i) (spl 1 i) (spl 2 i)

/-- `pitf_ops.py:470-517` `Pomega_Pair`. -/
noncomputable def PomegaPair {n : Fin 3 → Nat} {m : Nat} (spl : Samples n m) (X : Mat (n 0) (n 1))
    (Y : Mat (n 1) (n 2)) (Z : Mat (n 2) (n 0)) : Fin m → ℝ :=
  PomegaMat spl 0 X + PomegaMat spl 1 Y + PomegaMat spl 2 Z

/-- `pitf_ops.py:520-555` `cone_projection_operator`: the first `if` tests a graph tensor, which raises
`TypeError`. -/
def coneProjection {k : Nat} (_x : Fin k → ℝ) (_t : ℝ) : Res ((Fin k → ℝ) × ℝ) := .error .typeError

/-- What `tf.svd(M, full_matrices=True)` returns: `s, u, v` with `M = u diag(s) vᵀ` (`pitf_ops.py:585`). -/
abbrev Svd := {m n : Nat} → Mat m n → (Fin (min m n) → ℝ) × Mat m m × Mat n n

/-- `pitf_ops.py:558-596` `SVT`. -/
noncomputable def SVT (svd : Svd) {r c : Nat} (mat : Mat r c) (tao : ℝ) :
    (Fin (min r c) → ℝ) × Mat r r × Mat c c :=
  let suv := svd (centralization mat)
  (fun i => max 0 (suv.1 i - tao), suv.2.1, suv.2.2)

/-- `pitf_ops.py:598-665` `shrink`; `none` is `None`.  `v` is used as returned (not transposed). -/
noncomputable def shrink (svd : Svd) {r c : Nat} (mat : Mat r c) (tao : ℝ) (mode : String := "normal") :
    Option (Mat r c) :=
  let suv := SVT svd mat tao
  let sm : Mat r c := diagRect suv.1
  if mode = "normal" then some (suv.2.1 * sm * suv.2.2)
  else if mode = "complicated" then
    let vecr1 := ones r 1
    let vecr2 := ones c 1
    let delta := (vecr1ᵀ * mat * vecr2) 0 0 / √((r : ℝ) * c)
    let tmp1 := suv.2.1 * sm * suv.2.2
    let tmp2 := ((max 0 (delta - tao) + min 0 (delta + tao)) / √((r : ℝ) * c)) • ones r c
    some (tmp1 + tmp2)
  else none

/-- `pitf_ops.py:668-701` `shrinkageBorC` (`session`: is there a default session).  `tf.svd` returns `s, u, v`, so `U` is the vector of the
singular values and `S` the `p` × `min p q` matrix of left vectors: `tf.size(S).eval()` (689) needs a default session; if the loop is entered,
`S[r + 1]` (690) must be a row, and `if` tests a graph tensor; else `U[j,:]` (698) has more indices than axes.  What may be
returned is the Python number 0.  Simplification: `r` is not negative. -/
def shrinkageBorC (session : Bool) {p q : Nat} (_Xhat : Mat p q) (_tao : ℝ) (r : Nat) : Res (Int × Nat) :=
  if session = false then .error .valueError
  else if r + 1 < p * min p q then (if r + 1 < p then .error .typeError else .error .valueError)
  else if 0 < r then .error .valueError
  else .ok (0, r)

/-- `pitf_ops.py:704-714` `shrinkageA`: `tf.maximum(0, delta-tao)` (709) mixes an integer with a float, a `TypeError`. -/
def shrinkageA (session : Bool) {p q : Nat} (Xhat : Mat p q) (tao : ℝ) (r : Nat) : Res (Mat p q × Nat) := do
  let _ ← shrinkageBorC session Xhat tao r
  .error .typeError

/-- The values one `sess.run` of the training graph can return (`pitf.py:137-138`). -/
structure Fetch (m : Nat) where
  y : Fin m → ℝ
  e2 : Fin m → ℝ
  erate : Option ℝ
  loss : Option ℝ

/-- One `sess.run` of the graph built by `PITF.build_model` (`pitf.py:35-105`): `a, b, c` are random ops, so
`spl` is drawn anew in every run.  All reads of the sample vector are upstream of its assignment. -/
noncomputable def fetch (svd : Svd) {n : Fin 3 → Nat} {m : Nat} (T : Tensor3 n) (delt tao : ℝ)
    (y : Fin m → ℝ) (spl : Samples n m) : Fetch m :=
  let X := (1 / √(n 2)) • (shrink svd (adjointOperator spl y 0) tao "complicated").getD 0
  let Y := (1 / √(n 0)) • (shrink svd (adjointOperator spl y 1) tao "normal").getD 0
  let Z := (1 / √(n 1)) • (shrink svd (adjointOperator spl y 2) tao "normal").getD 0
  let e1 := PomegaTensor spl T
  let e2 := PomegaPair spl X Y Z
  let e := e1 - e2
  { y := y + delt • e
    e2 := e2
    erate := loss.fdiv (np.norm e) (np.norm e1)
    loss := loss.fsqrt (loss.fdiv (∑ i, e i ^ 2) m) }

/-- What `PITF.train` leaves behind: `_sample_vector`, and per reported step its number and the fetched values
(printed, written to `pitf_y.txt`, `pitf_e2.txt` and the summary) (`pitf.py:137-150`). -/
structure Trained (m : Nat) where
  y : Fin m → ℝ
  log : List (Nat × Fetch m)

/-- The condition of `pitf.py:135`; `step % 0` raises `ZeroDivisionError`. -/
def reports (steps : Nat) (vi : Int) (step : Nat) : Res Bool :=
  if step = steps ∨ step = 1 then .ok true
  else if vi = 0 then .error .zeroDivision
  else .ok (decide ((step : Int) % vi = 0 ∧ vi ≠ -1))

/-- `pitf.py:115-153` `PITF.train`, `draws k` being the positions drawn in the run of step `k`.  Without any step
the closing `print` uses unbound variables.  Without samples `build_model` raises `ValueError` (`pitf.py:55`: the empty list of indices
is no matrix, `pitf_ops.py:394`). -/
noncomputable def train (svd : Svd) {n : Fin 3 → Nat} {m : Nat} (argDelt argTao : ℝ) (vi : Int) (steps : Nat)
    (T : Tensor3 n) (draws : Nat → Samples n m) : Res (Trained m) := do
  let delt := argDelt * m / √((n 0 : ℝ) * n 1 * n 2)
  let tao := argTao * √((n 0 : ℝ) * n 1 * n 2)
  if m = 0 then throw .valueError
  let st ← (List.range' 1 steps).foldlM (init := (⟨0, []⟩ : Trained m)) fun st step => do
    let b ← reports steps vi step
    let f := fetch svd T delt tao st.y (draws step)
    pure (if b then ⟨f.y, st.log ++ [(step, f)]⟩ else ⟨f.y, st.log⟩)
  match st.log with
  | [] => .error .unboundLocal
  | _ :: _ => .ok st

end tfl
end TD.pitf
