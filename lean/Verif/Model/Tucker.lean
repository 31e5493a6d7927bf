import Verif.Model.Cp

/-!
# The graphs built by `HOSVD.build_model` and `HOOI.build_model`
(`factorization/tucker.py:29-54`, `factorization/tucker.py:129-186`)

Sequential (mode by mode) semantics, see `Props/Schedule.lean`.  `tf.svd(M, full_matrices=False)` is an argument
returning `(s, U, V)`.
-/
namespace TD.tucker
open TD Tensor
variable {α : Type}

/-- `U[:, :r]` of a matrix (`tucker.py:36`, `tucker.py:145`, `tucker.py:158`); `r` beyond the number of columns
keeps all of them.  Simplification: ranks are natural numbers. -/
def firstCols [Zero α] (U : Tensor α) (r : Nat) : Res (Tensor α) :=
  match U.shape with
  | [m, p] => .ok (mat m (min r p) fun i j => U.at_ [i, j])
  | _ => .error .valueError

/-- `args.ranks[n]` (`tucker.py:36`, `tucker.py:145`, `tucker.py:158`). -/
def rankAt (ranks : List Nat) (n : Nat) : Res Nat :=
  match ranks[n]? with
  | some r => .ok r
  | none => .error .indexError

/-- `tucker.py:35-36`, `tucker.py:144-145`: the first `ranks[n]` left singular vectors of an unfolding. -/
def leading [Zero α] (svd : Tensor α → Res (Tensor α × Tensor α × Tensor α)) (X : Tensor α) (ranks : List Nat)
    (n : Nat) : Res (Tensor α) := do
  let M ← ops.unfold X n
  let (_, U, _) ← svd M
  let r ← rankAt ranks n
  firstCols U r

/-- `TTensor(g, A).extract()` (`tucker.py:39-43`, `tucker.py:166-167`). -/
def fullOf [CommSemiring α] (g : Tensor α) (A : List (Tensor α)) : Res (Tensor α) := do
  let t ← TTensor.init g .float32 A .float32
  t.extract

/-- `tucker.py:33-43`, the values fetched at `tucker.py:80-81`: factors, core, full tensor.  Simplification: the
loss is not modelled, it is only printed. -/
def HOSVD.run [CommSemiring α] (svd : Tensor α → Res (Tensor α × Tensor α × Tensor α)) (X : Tensor α)
    (ranks : List Nat) : Res (List (Tensor α) × Tensor α × Tensor α) := do
  let A ← (List.range X.order).mapM fun n => leading svd X ranks n
  let g ← ops.ttm X A none true
  let full ← fullOf g A
  return (A, g, full)

/-- `tucker.py:138-145`: the variables after `init_op`; `A[mode]` has shape `(shape[mode], ranks[mode])` and
assigning a value of another shape raises. -/
def HOOI.init [Zero α] (svd : Tensor α → Res (Tensor α × Tensor α × Tensor α)) (X : Tensor α)
    (ranks : List Nat) : Res (List (Tensor α)) :=
  (List.range X.order).mapM fun mode => do
    let v ← leading svd X ranks mode
    let r ← rankAt ranks mode
    if v.shape = [X.shape.getD mode 0, r] then .ok v else .error .invalidArgument

/-- `tucker.py:148-158` for one `mode`; `A` are the current values of the variables. -/
def HOOI.modeUpdate [CommSemiring α] (svd : Tensor α → Res (Tensor α × Tensor α × Tensor α)) (X : Tensor α)
    (ranks : List Nat) (A : List (Tensor α)) (mode : Nat) : Res (List (Tensor α)) := do
  let Y ← ops.ttm X A none true (.int mode)
  let v ← leading svd Y ranks mode
  tf.assign A mode v

/-- The loop `tucker.py:148-158`. -/
def HOOI.sweep [CommSemiring α] (svd : Tensor α → Res (Tensor α × Tensor α × Tensor α)) (X : Tensor α)
    (ranks : List Nat) (A : List (Tensor α)) : Res (List (Tensor α)) :=
  (List.range X.order).foldlM (HOOI.modeUpdate svd X ranks) A

/-- One run of the fetch list of `tucker.py:229-238` on variables `A`. -/
noncomputable def HOOI.main (svd : Tensor ℝ → Res (Tensor ℝ × Tensor ℝ × Tensor ℝ)) (X : Tensor ℝ)
    (ranks : List Nat) (A : List (Tensor ℝ)) :
    Res (List (Tensor ℝ) × fact.Out (List (Tensor ℝ)) (Tensor ℝ) (Tensor ℝ) ℝ) := do
  let A ← HOOI.sweep svd X ranks A
  let g ← ops.ttm X A none true
  let full ← fullOf g A
  let (l, obj, rel) ← cp.scalars X full
  return (A, ⟨A, some g, full, l, obj, rel⟩)

end TD.tucker
