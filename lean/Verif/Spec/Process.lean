import Verif.Model.Process

/-!
# Which models share a graph, told from the calls
-/
namespace TD.process
open TD fact
variable {S F K X R : Type}


/-- The default graph before and after each call are known from the `enter` calls; `buildsFrom cur h g` counts the calls
of `build_model` in `h` made while `g` was the default graph, if `cur` is the default graph at the beginning. -/
def buildsFrom (cur : Nat) : List (Call S F K X R) → Nat → Nat
  | [], _ => 0
  | .enter g' :: h, g => buildsFrom g' h g
  | .build _ _ :: h, g => (if cur = g then 1 else 0) + buildsFrom cur h g
  | .train _ _ _ :: h, g => buildsFrom cur h g

/-- No graph holds more than one model. -/
def OneModelPerGraph (h : List (Call S F K X R)) : Prop := ∀ g, buildsFrom 0 h g ≤ 1

/-- The calls that concern object `i`: its own, and the changes of the default graph. -/
def concerns (i : Nat) : Call S F K X R → Bool
  | .enter _ => true
  | .build j _ => j == i
  | .train j _ _ => j == i

/-- The outcomes of the `train` calls of object `i`, in order. -/
def outcomes (i : Nat) (p : Process S F K X R) : List (List Int × Res (Option (List (R × R)))) :=
  (p.out.filter fun o => o.1 == i).map Prod.snd

end TD.process
