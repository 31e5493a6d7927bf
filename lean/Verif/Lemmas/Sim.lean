import Mathlib.Algebra.Order.AbsoluteValue.Basic
import Verif.Lemmas.Ttm
import Verif.Model.Float
import Verif.Model.Type

/-!
# Three runs of the same operation

The model functions do not look at the values of the entries, so a relation between the entries of three inputs (rounded, exact,
magnitudes) is carried to the results.
-/
namespace TD
open Tensor fl

/-- Outcomes related by `p`, or the same error. -/
def RelR {X Y Z : Type} (p : X → Y → Z → Prop) : Res X → Res Y → Res Z → Prop
  | .ok a, .ok b, .ok c => p a b c
  | .error e, .error e', .error e'' => e = e' ∧ e = e''
  | _, _, _ => False

/-- Tensors of one shape whose entries are related by `r`. -/
def TRel {α β γ : Type} [Zero α] [Zero β] [Zero γ] (r : α → β → γ → Prop) (A : Tensor α) (B : Tensor β) (C : Tensor γ) : Prop :=
  A.shape = B.shape ∧ A.shape = C.shape ∧ ∀ k, r (A.data.getD k 0) (B.data.getD k 0) (C.data.getD k 0)

section
variable {X Y Z X' Y' Z' : Type}

theorem RelR.bind {p : X → Y → Z → Prop} {q : X' → Y' → Z' → Prop} {x : Res X} {y : Res Y} {z : Res Z}
    {f : X → Res X'} {g : Y → Res Y'} {h : Z → Res Z'} (H : RelR p x y z)
    (K : ∀ a b c, p a b c → RelR q (f a) (g b) (h c)) : RelR q (x >>= f) (y >>= g) (z >>= h) := by
  match x, y, z, H with
  | .ok a, .ok b, .ok c, H => exact K a b c H
  | .error e, .error e', .error e'', H => exact H

theorem RelR.bind_eq {p : X → Y → Z → Prop} {q : X' → Y' → Z' → Prop} {x : Res X} {y : Res Y} {z : Res Z}
    {f : X → Res X'} {g : Y → Res Y'} {h : Z → Res Z'} (H : RelR p x y z)
    (K : ∀ a b c, x = .ok a → p a b c → RelR q (f a) (g b) (h c)) : RelR q (x >>= f) (y >>= g) (z >>= h) := by
  match x, y, z, H with
  | .ok a, .ok b, .ok c, H => exact K a b c rfl H
  | .error e, .error e', .error e'', H => exact H

theorem RelR.mono {p q : X → Y → Z → Prop} {x : Res X} {y : Res Y} {z : Res Z} (H : RelR p x y z)
    (K : ∀ a b c, p a b c → q a b c) : RelR q x y z := by
  match x, y, z, H with
  | .ok a, .ok b, .ok c, H => exact K a b c H
  | .error e, .error e', .error e'', H => exact H

theorem RelR.const {x : Res X} {p : X → X → X → Prop} (h : ∀ a, x = .ok a → p a a a) : RelR p x x x := by
  cases x with
  | ok a => exact h a rfl
  | error e => exact ⟨rfl, rfl⟩

theorem RelR.of_ok {p : X → Y → Z → Prop} {x : Res X} {y : Res Y} {z : Res Z} (H : RelR p x y z) {b : Y} (hy : y = .ok b) :
    ∃ a c, x = .ok a ∧ z = .ok c ∧ p a b c := by
  subst hy
  match x, z, H with
  | .ok a, .ok c, H => exact ⟨a, c, rfl, rfl, H⟩

end

namespace TRel
variable {α β γ : Type} [Zero α] [Zero β] [Zero γ] {r r' : α → β → γ → Prop} {A : Tensor α} {B : Tensor β} {C : Tensor γ}

theorem mono (h : TRel r A B C) (hr : ∀ a b c, r a b c → r' a b c) : TRel r' A B C :=
  ⟨h.1, h.2.1, fun k => hr _ _ _ (h.2.2 k)⟩

theorem at_ (h : TRel r A B C) (i : List Nat) : r (A.at_ i) (B.at_ i) (C.at_ i) := by
  unfold Tensor.at_
  rw [← h.1, ← h.2.1]
  exact h.2.2 _

theorem order (h : TRel r A B C) : A.order = B.order ∧ A.order = C.order := by
  unfold Tensor.order
  rw [← h.1, ← h.2.1]
  exact ⟨rfl, rfl⟩

theorem zero (h : TRel r A B C) : r 0 0 0 := by
  have := h.2.2 A.data.length
  rwa [List.getD_eq_default _ _ le_rfl, List.getD_eq_default _ _ (by rw [A.wf, B.wf, h.1]),
    List.getD_eq_default _ _ (by rw [A.wf, C.wf, h.2.1])] at this

theorem ofFn (h0 : r 0 0 0) (s : List Nat) {f : List Nat → α} {g : List Nat → β} {h : List Nat → γ}
    (H : ∀ i, InB s i → r (f i) (g i) (h i)) : TRel r (Tensor.ofFn s f) (Tensor.ofFn s g) (Tensor.ofFn s h) := by
  refine ⟨rfl, rfl, fun k => ?_⟩
  show r (((indices s).map f).getD k 0) (((indices s).map g).getD k 0) (((indices s).map h).getD k 0)
  simp only [List.getD_eq_getElem?_getD, List.getElem?_map]
  cases hk : (indices s)[k]? with
  | none => exact h0
  | some i =>
      exact H i (mem_indices.1 (List.mem_of_getElem? hk))

theorem mat (h0 : r 0 0 0) (m n : Nat) {f : Nat → Nat → α} {g : Nat → Nat → β} {h : Nat → Nat → γ}
    (H : ∀ i j, r (f i j) (g i j) (h i j)) : TRel r (Tensor.mat m n f) (Tensor.mat m n g) (Tensor.mat m n h) := by
  refine ofFn h0 _ fun i _ => ?_
  match i with
  | [i, j] => exact H i j
  | [] => exact H 0 0
  | [_] => exact H 0 0
  | _ :: _ :: _ :: _ => exact H 0 0

end TRel

namespace tf
variable {α β γ : Type} [Zero α] [Zero β] [Zero γ] {r q s : α → β → γ → Prop} {A : Tensor α} {B : Tensor β} {C : Tensor γ}

theorem transpose_rel (h : TRel r A B C) (p : List Nat) : RelR (TRel r) (transpose A p) (transpose B p) (transpose C p) := by
  unfold transpose
  rw [← h.order.1, ← h.order.2]
  by_cases hp : p.Perm (List.range A.order)
  · rw [if_pos hp, if_pos hp, if_pos hp, ← h.1, ← h.2.1]
    exact TRel.ofFn h.zero _ fun i _ => h.at_ _
  · rw [if_neg hp, if_neg hp, if_neg hp]; exact ⟨rfl, rfl⟩

theorem reshape_rel (h : TRel r A B C) (d : List Int) : RelR (TRel r) (reshape A d) (reshape B d) (reshape C d) := by
  have hB : B.data.length = A.data.length := by rw [A.wf, B.wf, h.1]
  have hC : C.data.length = A.data.length := by rw [A.wf, C.wf, h.2.1]
  unfold reshape
  simp only [hB, hC]
  cases reshapeDims A.data.length d with
  | error e => exact ⟨rfl, rfl⟩
  | ok dims =>
      by_cases hd : A.data.length = dims.prod
      · simp only [hd, dite_true]; exact ⟨rfl, rfl, h.2.2⟩
      · simp only [hd, dite_false]; exact ⟨rfl, rfl⟩

theorem ewise_rel {A' : Tensor α} {B' : Tensor β} {C' : Tensor γ} (h : TRel r A B C) (h' : TRel q A' B' C')
    {f : α → α → α} {g : β → β → β} {k : γ → γ → γ} (h0 : s 0 0 0)
    (H : ∀ a b c a' b' c', r a b c → q a' b' c' → s (f a a') (g b b') (k c c')) :
    RelR (TRel s) (ewise f A A') (ewise g B B') (ewise k C C') := by
  unfold ewise
  rw [← h.1, ← h.2.1, ← h'.1, ← h'.2.1]
  cases bcastShape A.shape A'.shape with
  | none => exact ⟨rfl, rfl⟩
  | some sh => exact TRel.ofFn h0 _ fun i _ => H _ _ _ _ _ _ (h.at_ _) (h'.at_ _)

end tf

namespace ops
variable {α β γ : Type} [Zero α] [Zero β] [Zero γ] {r : α → β → γ → Prop} {A : Tensor α} {B : Tensor β} {C : Tensor γ}

theorem unfold_rel (h : TRel r A B C) (m : Int) : RelR (TRel r) (unfold A m) (unfold B m) (unfold C m) := by
  unfold unfold
  rw [← h.order.1, ← h.order.2, ← h.1, ← h.2.1]
  refine RelR.bind (RelR.const (p := fun a b c => a = b ∧ a = c) fun a _ => ⟨rfl, rfl⟩) ?_
  rintro a _ _ ⟨rfl, rfl⟩
  exact RelR.bind (tf.transpose_rel h _) fun _ _ _ h => tf.reshape_rel h _

theorem vectorize_rel (h : TRel r A B C) : RelR (TRel r) (vectorize A) (vectorize B) (vectorize C) := tf.reshape_rel h _

theorem t2mat_rel (h : TRel r A B C) (ra : Axis) (c : CAxis) : RelR (TRel r) (t2mat A ra c) (t2mat B ra c) (t2mat C ra c) := by
  have hfin : ∀ (rd indies cl : List Nat), RelR (TRel r)
      (do let cd ← dimsAt A.shape cl
          let tr ← tf.transpose A indies
          tf.reshape tr [((rd.prod : Nat) : Int), ((cd.prod : Nat) : Int)])
      (do let cd ← dimsAt A.shape cl
          let tr ← tf.transpose B indies
          tf.reshape tr [((rd.prod : Nat) : Int), ((cd.prod : Nat) : Int)])
      (do let cd ← dimsAt A.shape cl
          let tr ← tf.transpose C indies
          tf.reshape tr [((rd.prod : Nat) : Int), ((cd.prod : Nat) : Int)]) := by
    intro rd indies cl
    refine RelR.bind (RelR.const (p := fun a b c => a = b ∧ a = c) fun a _ => ⟨rfl, rfl⟩) ?_
    rintro a _ _ ⟨rfl, rfl⟩
    exact RelR.bind (tf.transpose_rel h _) fun _ _ _ h => tf.reshape_rel h _
  unfold t2mat t2matSt
  rw [← h.order.1, ← h.order.2, ← h.1, ← h.2.1]
  cases ra <;> cases c with
  | rest =>
      dsimp only
      split
      · exact ⟨rfl, rfl⟩
      · first | exact hfin _ _ _ | exact ⟨rfl, rfl⟩
  | ax a =>
      dsimp only
      split
      · exact ⟨rfl, rfl⟩
      · cases a <;> first | exact hfin _ _ _ | exact ⟨rfl, rfl⟩

end ops
end TD
