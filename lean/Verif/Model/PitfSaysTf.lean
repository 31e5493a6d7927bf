import Verif.Model.Pitf

/-!
# What `PITF.train` prints and writes (`factorization/pitf.py`)

`tfl.train` of `Model/Pitf.lean` once more, with the console lines, the records of the two text files and the object left behind, also when it
raises.  The file format is not modelled: `print('y:%s', v, file=f1)` does not format, it writes the text `y:%s` and the array, so that a record has
no step number.
-/
namespace TD.pitf.tfl
open TD Matrix Spec

/-- A line on the console (`pitf.py:128,145,148,150`). -/
inductive Said
  | initial
  | step (i : Nat) (erate loss : Option ℝ)
  | marks
  | finish (loss erate : Option ℝ)

/-- The output so far, the records of `pitf_y.txt` and `pitf_e2.txt`, `_sample_vector`, `_is_train_finish`, and the local variables `loss_v`, `erate_v`
(`pitf.py:115-153`). -/
structure Con (m : Nat) where
  said : List Said
  fileY : List (Fin m → ℝ)
  fileE2 : List (Fin m → ℝ)
  vector : Option (Fin m → ℝ)
  finished : Bool
  vars : Option (Option ℝ × Option ℝ)

/-- The loop with `k` steps left, from `step` on; `y` is the variable of the graph (`pitf.py:133-148`). -/
noncomputable def loopSays (svd : Svd) {n : Fin 3 → Nat} {m : Nat} (T : Tensor3 n) (delt tao : ℝ) (vi : Int) (steps : Nat)
    (draws : Nat → Samples n m) : Nat → Nat → (Fin m → ℝ) → Con m → Con m × Option PyErr
  | 0, _, _, c => (c, none)
  | k + 1, step, y, c =>
    match reports steps vi step with
    | .error e => (c, some e)
    | .ok true =>
      let f := fetch svd T delt tao y (draws step)
      loopSays svd T delt tao vi steps draws k (step + 1) f.y
        { c with
          vector := some f.y
          vars := some (f.loss, f.erate)
          fileY := c.fileY ++ [f.y]
          fileE2 := c.fileE2 ++ [f.e2]
          said := c.said ++ [.step step f.erate f.loss] }
    | .ok false =>
      let f := fetch svd T delt tao y (draws step)
      loopSays svd T delt tao vi steps draws k (step + 1) f.y { c with vector := some f.y, said := c.said ++ [.marks] }

/-- `pitf.py:115-153` `PITF.train` after a `build_model` with at least one sample; `vector` is `_sample_vector` before the call (`None` in a
new object, line 25), and `finished` is `_is_train_finish` (there `None`, here false).  The last `print` reads `loss_v`, which no step has bound if there is none. -/
noncomputable def trainSays (svd : Svd) {n : Fin 3 → Nat} {m : Nat} (argDelt argTao : ℝ) (vi : Int) (steps : Nat) (T : Tensor3 n)
    (draws : Nat → Samples n m) (vector : Option (Fin m → ℝ)) (finished : Bool) : Con m × Option PyErr :=
  let delt := argDelt * m / √((n 0 : ℝ) * n 1 * n 2)
  let tao := argTao * √((n 0 : ℝ) * n 1 * n 2)
  match loopSays svd T delt tao vi steps draws steps 1 0 ⟨[.initial], [], [], vector, finished, none⟩ with
  | (c, some e) => (c, some e)
  | (c, none) =>
    match c.vars with
    | none => (c, some .unboundLocal)
    | some (loss, erate) => ({ c with said := c.said ++ [.finish loss erate], finished := true }, none)

end TD.pitf.tfl
