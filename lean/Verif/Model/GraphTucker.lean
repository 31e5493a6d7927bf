import Verif.Model.Graphs

/-!
# The remaining runs of the Tucker classes as graphs

`HOOI`'s `init_op` (`tucker.py:141-145`, `tucker.py:163`, run at 223) and `HOSVD`'s only run (`tucker.py:33-43`,
run at 80-81).  Neither run reads a variable: all their inputs come from the fed tensor.
-/
namespace TD.graph
open TD Tensor

namespace Hooi.Init

/-- `left k`: `U[:, :args.ranks[k]]` of `tf.svd(ops.unfold(input_data, k))` (144-145); `assign k`: `init_ops[k]` (145).
`init_op` itself groups them (163) and computes nothing (`tucker.py:141-145`, `tucker.py:163`). -/
inductive Op where
  | left (k : Nat) | assign (k : Nat)
  deriving DecidableEq

/-- The graph; variable `k` is `A[k]` (`tucker.py:138-145`). -/
def build {α : Type} [Zero α] (svd : Tensor α → Res (Tensor α × Tensor α × Tensor α)) (X : Tensor α)
    (ranks : List Nat) : Graph Op Nat (Tensor α) where
  nodes := (List.range X.order).flatMap fun k => [.left k, .assign k]
  deps
    | .left _ => []
    | .assign k => [.left k]
  reads _ := []
  writes
    | .assign k => some k
    | _ => none
  kernel
    | .left k, _, _ => (tucker.leading svd X ranks k).toOption
    | .assign k, o, _ => do
        let a ← o (.left k)
        if a.shape = [X.shape.getD k 0, ranks.getD k 0] then some a else none

end Hooi.Init

namespace Hosvd

/-- `left k`: the `k`-th entry of `A` (`tucker.py:35-36`); `core`: `g` (`tucker.py:37`); `full`: `P.extract()`
(`tucker.py:39-43`). -/
inductive Op where
  | left (k : Nat) | core | full
  deriving DecidableEq

/-- The graph; there are no variables (`tucker.py:33-43`). -/
def build {α : Type} [CommSemiring α] (svd : Tensor α → Res (Tensor α × Tensor α × Tensor α)) (X : Tensor α)
    (ranks : List Nat) : Graph Op Empty (Tensor α) where
  nodes := (List.range X.order).map .left ++ [.core, .full]
  deps
    | .left _ => []
    | .core => (List.range X.order).map .left
    | .full => .core :: (List.range X.order).map .left
  reads _ := []
  writes _ := none
  kernel
    | .left k, _, _ => (tucker.leading svd X ranks k).toOption
    | .core, o, _ => do
        let A ← (List.range X.order).mapM fun k => o (.left k)
        (ops.ttm X A none true).toOption
    | .full, o, _ => do
        let g ← o .core
        let A ← (List.range X.order).mapM fun k => o (.left k)
        (tucker.fullOf g A).toOption

end Hosvd
end TD.graph
