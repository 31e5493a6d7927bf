import Verif.Model.SpecialBcu
import Verif.Model.Tucker

/-!
# `HOSVD` and `HOOI` in rounded arithmetic, with overflow, infinities and NaN

The text of `Model/Tucker.lean` on the numbers of `Model/Special.lean`.  `tf.svd` is an argument.
-/
namespace TD.sp
open TD Tensor
variable {F : Fmt}

/-- What `tf.svd(M, full_matrices=False)` is here: `(s, U, V)` or an exception
(`tucker.py:35`, `tucker.py:144`, `tucker.py:157`). -/
abbrev Svd (F : Fmt) := Tensor (Num F) → Res (Tensor (Num F) × Tensor (Num F) × Tensor (Num F))

/-- `tucker.py:33-43`, as `tucker.HOSVD.run`. -/
noncomputable def HOSVD.run (svd : Svd F) (X : Tensor (Num F)) (ranks : List Nat) :
    Res (List (Tensor (Num F)) × Tensor (Num F) × Tensor (Num F)) := do
  let A ← (List.range X.order).mapM fun n => tucker.leading svd X ranks n
  let g ← ops.ttm X A none true
  let full ← NTUCKER.fullOf g A
  return (A, g, full)

/-- `tucker.py:148-158` for one `mode`, as `tucker.HOOI.modeUpdate`. -/
noncomputable def HOOI.modeUpdate (svd : Svd F) (X : Tensor (Num F)) (ranks : List Nat) (A : List (Tensor (Num F))) (mode : Nat) :
    Res (List (Tensor (Num F))) := do
  let Y ← ops.ttm X A none true (.int mode)
  let v ← tucker.leading svd Y ranks mode
  tf.assign A mode v

/-- One run of the fetch list of `tucker.py:229-238`, as `tucker.HOOI.main`. -/
noncomputable def HOOI.main (svd : Svd F) (X : Tensor (Num F)) (ranks : List Nat) (A : List (Tensor (Num F))) :
    Res (List (Tensor (Num F)) × fact.Out (List (Tensor (Num F))) (Tensor (Num F)) (Tensor (Num F)) (Num F)) := do
  let A ← (List.range X.order).foldlM (HOOI.modeUpdate svd X ranks) A
  let g ← ops.ttm X A none true
  let full ← NTUCKER.fullOf g A
  let (l, obj, rel) ← scalars X full
  return (A, ⟨A, some g, full, l, obj, rel⟩)

/-- `HOOI.train` with this graph; the variables after `init_op` are `tucker.HOOI.init svd X ranks`
(`tucker.py:207-255`). -/
noncomputable def HOOI.cls (svd : Svd F) (X : Tensor (Num F)) (ranks : List Nat) := fact.HOOI.cls (HOOI.main svd X ranks)

end TD.sp
