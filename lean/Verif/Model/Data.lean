import Mathlib.Data.Real.Basic
import Verif.Model.Type

/-!
# `tensorD/demo/DataGenerator.py`

Random draws are arguments: `rand k i j` is the entry drawn for matrix `k`, `noise idx` the normal draw at `idx`.
-/
namespace TD.DataGenerator
open TD Tensor

/-- `np.maximum(0, a)` (`DataGenerator.py:19`, `DataGenerator.py:23`). -/
def maximum0 (t : Tensor ℝ) : Tensor ℝ := tf.map (fun x => max 0 x) t

/-- `DataGenerator.py:18-19`, `30-31`: matrix `k` is drawn with `N_list[k]` rows and `ranks[k]` columns. -/
def matrices (N ranks : List Nat) (rand : Nat → Nat → Nat → ℝ) : List (Tensor ℝ) :=
  (List.range N.length).map fun k => maximum0 (mat (N.getD k 0) (ranks.getD k 0) (rand k))

/-- `DataGenerator.py:23`, `35`. -/
def noiseOf (N : List Nat) (maxNoise : ℝ) (randn : List Nat → ℝ) : Tensor ℝ :=
  maximum0 (tf.map (fun x => maxNoise * x) (ofFn N randn))

/-- `DataGenerator.py:16-24` `synthetic_data_cp`. -/
def syntheticDataCp (N : List Nat) (R : Nat) (maxNoise : ℝ) (rand : Nat → Nat → Nat → ℝ)
    (randn : List Nat → ℝ) : Res (Tensor ℝ) := do
  let M ← KTensor.init .np .float64 (matrices N (N.map fun _ => R) rand) none
  let Mtrue ← M.extract
  tf.ewise (· + ·) Mtrue (noiseOf N maxNoise randn)

/-- `DataGenerator.py:27-36` `synthetic_data_tucker`.  Simplification: `Ranks` has the length of `N_list`
(Python raises `IndexError` when it is shorter). -/
def syntheticDataTucker (N ranks : List Nat) (maxNoise : ℝ) (randG : List Nat → ℝ) (rand : Nat → Nat → Nat → ℝ)
    (randn : List Nat → ℝ) : Res (Tensor ℝ) := do
  let G := maximum0 (ofFn ranks randG)
  let M ← TTensor.init G .float64 (matrices N ranks rand) .float64
  let Mtrue ← M.extract
  tf.ewise (· + ·) Mtrue (noiseOf N maxNoise randn)

end TD.DataGenerator
