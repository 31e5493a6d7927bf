import Verif.Model.PitfCall

/-!
# What `exact_recovery` prints and writes (`factorization/pitf_numpy.py`)

`recover` of `Model/PitfCall.lean` once more, with the console lines and with the records of the three text files.  A record is the step number
and the printed value; how numpy writes an array as text (and that it abbreviates arrays of more than 1000 entries) is not modelled.
-/
namespace TD.pitf.np
open TD Matrix Spec

/-- A line on the console (`pitf_numpy.py:66-68,122`). -/
inductive Said
  | freedom (fd : Int)
  | delt (x : ℝ)
  | ratio (x : ℝ)
  | step (i : Nat) (erate loss : Option ℝ)

/-- The records of `np_e2.txt`, `np_y.txt` and `np_X.txt` (`pitf_numpy.py:70-72,118-120`). -/
structure Written (n : Fin 3 → Nat) (m : Nat) where
  e2 : List (Nat × (Fin m → ℝ))
  y : List (Nat × (Fin m → ℝ))
  X : List (Nat × Mat (n 0) (n 1))

/-- The loop of `recoveryLoop` with its `print` calls (`pitf_numpy.py:74-122`). -/
noncomputable def recoveryLoopSays (svd : Svd) {n : Fin 3 → Nat} {m : Nat} (spl : Samples n m) (T : Tensor3 n) (delt tao : ℝ) :
    Nat → Nat → (Fin m → ℝ) → Option (Iter n m) → List Nat × List (Option ℝ) × List (Option ℝ) → List Said → Written n m →
    (Option (Iter n m) × List Nat × List (Option ℝ) × List (Option ℝ)) × List Said × Written n m
  | 0, _, _, last, h, said, w => ((last, h), said, w)
  | k + 1, i, y, _, (If, Ef, Rf), said, w =>
    let it := recoveryStep svd spl T delt tao y
    let e2 := PomegaPair spl it.X it.Y it.Z
    recoveryLoopSays svd spl T delt tao k (i + 1) it.y (some it) (If ++ [i], Ef ++ [it.erate], Rf ++ [it.loss])
      (said ++ [.step i it.erate it.loss])
      { e2 := w.e2 ++ [(i, e2)], y := w.y ++ [(i, it.y)], X := w.X ++ [(i, it.X)] }

/-- Everything a call does: what it prints, the three files (`none`: left as they were), and what it returns or raises
(`pitf_numpy.py:37-129`). -/
structure Output (n : Fin 3 → Nat) (m : Nat) where
  said : List Said
  files : Option (Written n m)
  result : Res (Recovery n m)

/-- `pitf_numpy.py:37-129` `exact_recovery` on raw arguments, as `recover`, with its output.  The degree of freedom and `delt` are printed before
the division that may raise (66-68); the files are emptied when they are opened (70-72). -/
noncomputable def recoverSays (svd : Svd) (argDelt argTao : ℝ) (rank sampleNum steps : Int) (T : Tensor ℝ)
    (draw : (∀ d, 0 < dims T.shape d) → Samples (dims T.shape) sampleNum.toNat) : Output (dims T.shape) sampleNum.toNat :=
  let n := dims T.shape
  let size := √((n 0 : ℝ) * n 1 * n 2)
  let delt := argDelt * sampleNum.toNat / size
  if T.order < 3 then ⟨[], none, .error .indexError⟩
  else if sampleNum < 0 then ⟨[], none, .error .valueError⟩
  else if h : ∀ d, 0 < n d then
    let fd := freedom n rank
    let said := [.freedom fd, .delt delt]
    if fd = 0 then ⟨said, none, .error .zeroDivision⟩
    else
      let said := said ++ [.ratio (sampleNum / fd)]
      if 0 < steps ∧ 0 < sampleNum ∧ (T.shape.drop 3).prod ≠ 1 then ⟨said, some ⟨[], [], []⟩, .error .valueError⟩
      else if sampleNum.toNat = 0 ∧ steps.toNat ≠ 0 then ⟨said, some ⟨[], [], []⟩, .error .zeroDivision⟩
      else match recoveryLoopSays svd (draw h) (entries T) delt (argTao * size) steps.toNat 0 0 none ([], [], []) said ⟨[], [], []⟩ with
      | ((none, _), said, w) => ⟨said, some w, .error .unboundLocal⟩
      | ((some it, If, Ef, Rf), said, w) => ⟨said, some w, .ok ⟨it, If, Ef, Rf⟩⟩
  else ⟨[], none, .error .valueError⟩

end TD.pitf.np
