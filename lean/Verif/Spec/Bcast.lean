import Mathlib.Data.List.Basic

/-!
# Specification of numpy broadcasting
-/
namespace TD.Spec

/-- Two sizes on the same axis combine: equal, or one of them is 1. -/
def BcastDim (x y z : Nat) : Prop := (x = y ∧ z = x) ∨ (x = 1 ∧ z = y) ∨ (y = 1 ∧ z = x)

/-- `s` is the broadcast of `a` and `b`: shapes are aligned at the last axis, missing axes count as 1. -/
def Bcast (a b s : List Nat) : Prop :=
  s.length = max a.length b.length ∧
  ∀ k < s.length, BcastDim (a.reverse.getD k 1) (b.reverse.getD k 1) (s.reverse.getD k 1)

/-- The index into an operand of shape `a` used for output index `idx`: aligned at the last axis,
coordinate 0 on axes of size 1. -/
def alignIdx (a idx : List Nat) : List Nat :=
  (List.range a.length).map fun k => if a.getD k 0 = 1 then 0 else idx.getD (idx.length - a.length + k) 0

end TD.Spec
