import Verif.Model.Pitf
import Verif.Model.Tensor

/-!
# Calls of `exact_recovery` with any arguments (`factorization/pitf_numpy.py`)

`Model/Pitf.lean` models the computation for a third-order tensor and positions that exist.  Here are the checks around it, the ones that the code
makes by raising: any order, any (integer) rank, number of samples and number of steps, and whether the three text files are overwritten.
-/
namespace TD.pitf.np
open TD

/-- `shape[0]`, `shape[1]`, `shape[2]` (`pitf_numpy.py:42-46`). -/
def dims (s : List Nat) : Fin 3 → Nat := fun d => s.getD d 0

/-- `tensor[i][j][k]` (`pitf_ops_numpy.py:128`); further axes have size one, and numpy turns the array of one entry into a number. -/
def entries (T : Tensor ℝ) : Tensor3 (dims T.shape) := fun i j k => T.at_ ([i.val, j.val, k.val] ++ List.replicate (T.order - 3) 0)

/-- A call: are `np_e2.txt`, `np_y.txt` and `np_X.txt` overwritten (`pitf_numpy.py:69-71`), and what is returned or raised. -/
structure Called (α : Type) where
  files : Bool
  result : Res α

/-- The printed degree of freedom (`pitf_numpy.py:63-65`). -/
def freedom (s : Fin 3 → Nat) (rank : Int) : Int :=
  rank * (s 0 + s 1 - rank) + rank * (s 1 + s 2 - rank) + rank * (s 2 + s 0 - rank)

/-- `pitf_numpy.py:37-129` `exact_recovery` on raw arguments, in the order of the code: `shape[2]` (46), `np.zeros(spn)` (49), the drawing of
the positions (58, `pitf_ops_numpy.py:61-63`: `randint` refuses an empty range), the division by the degree of freedom (68), the opening
of the files (70-72), and in the first step the assignment of an array to a number (`pitf_ops_numpy.py:128`).  Simplification: whether
`randint` refuses an empty range when no number is asked for depends on the version of numpy; here it does. -/
noncomputable def recover (svd : Svd) (argDelt argTao : ℝ) (rank sampleNum steps : Int) (T : Tensor ℝ)
    (draw : (∀ d, 0 < dims T.shape d) → Samples (dims T.shape) sampleNum.toNat) : Called (Recovery (dims T.shape) sampleNum.toNat) :=
  if T.order < 3 then ⟨false, .error .indexError⟩
  else if sampleNum < 0 then ⟨false, .error .valueError⟩
  else if h : ∀ d, 0 < dims T.shape d then
    if freedom (dims T.shape) rank = 0 then ⟨false, .error .zeroDivision⟩
    else if 0 < steps ∧ 0 < sampleNum ∧ (T.shape.drop 3).prod ≠ 1 then ⟨true, .error .valueError⟩
    else ⟨true, exactRecovery svd argDelt argTao steps.toNat (entries T) (draw h)⟩
  else ⟨false, .error .valueError⟩

end TD.pitf.np
