import Verif.Model.SpecialLoss
import Mathlib.Logic.Function.Basic
import Mathlib.Tactic.Linarith

/-! # Evaluation trees on numbers with infinities and NaN -/
set_option linter.unusedSimpArgs false

namespace TD.sp
open TD fl
variable {F : Fmt} {ι : Type}

namespace Num

theorem round_fin {x v : ℝ} {h} (e : round F x = .fin v h) : v = F.arith.rnd x := by
  unfold round at e
  split at e
  · simp only [Num.fin.injEq] at e; exact e.symm
  · cases e

theorem round_cases (x : ℝ) : (∃ h, round F x = .fin (F.arith.rnd x) h) ∨ round F x = .inf (decide (x < 0)) := by
  unfold round
  split
  · rename_i h; exact Or.inl ⟨⟨F.arith.rnd_rnd x, h⟩, rfl⟩
  · exact Or.inr rfl

theorem zero_def : (0 : Num F) = .fin 0 ⟨F.arith.rnd_zero, by rw [abs_zero]; exact zero_le_one.trans F.one_le_big⟩ := rfl
theorem one_def : (1 : Num F) = .fin 1 ⟨F.arith.rnd_one, by rw [abs_one]; exact F.one_le_big⟩ := rfl

theorem finite_elim {x : Num F} (h : x.Finite) : ∃ v hv, x = .fin v hv := by
  cases x with
  | fin v hv => exact ⟨v, hv, rfl⟩
  | inf _ => exact False.elim h
  | nan => exact False.elim h

theorem finite_fin {v : ℝ} {h} : (Num.fin v h : Num F).Finite := trivial

/-! ### Definitions of the operations by cases -/

theorem add_fin (x y : ℝ) (h h') : (.fin x h + .fin y h' : Num F) = round F (x + y) := rfl
theorem add_fin_inf (x : ℝ) (h t) : (.fin x h + .inf t : Num F) = .inf t := rfl
theorem add_inf_fin (x : ℝ) (h t) : (.inf t + .fin x h : Num F) = .inf t := rfl
theorem add_inf_inf (s t : Bool) : (.inf s + .inf t : Num F) = if s = t then .inf s else .nan := rfl
theorem nan_add (x : Num F) : .nan + x = (.nan : Num F) := by cases x <;> rfl
theorem add_nan (x : Num F) : x + .nan = (.nan : Num F) := by cases x <;> rfl
theorem sub_fin (x y : ℝ) (h h') : (.fin x h - .fin y h' : Num F) = round F (x - y) := rfl
theorem sub_fin_inf (x : ℝ) (h t) : (.fin x h - .inf t : Num F) = .inf (!t) := rfl
theorem sub_inf_fin (x : ℝ) (h t) : (.inf t - .fin x h : Num F) = .inf t := rfl
theorem sub_inf_inf (s t : Bool) : (.inf s - .inf t : Num F) = if s = t then .nan else .inf s := rfl
theorem nan_sub (x : Num F) : .nan - x = (.nan : Num F) := by cases x <;> rfl
theorem sub_nan (x : Num F) : x - .nan = (.nan : Num F) := by cases x <;> rfl
theorem mul_fin (x y : ℝ) (h h') : (.fin x h * .fin y h' : Num F) = round F (x * y) := rfl
theorem mul_fin_inf (x : ℝ) (h t) : (.fin x h * .inf t : Num F) = if x = 0 then .nan else .inf (xor (decide (x < 0)) t) := rfl
theorem mul_inf_fin (y : ℝ) (h s) : (.inf s * .fin y h : Num F) = if y = 0 then .nan else .inf (xor s (decide (y < 0))) := rfl
theorem mul_inf_inf (s t : Bool) : (.inf s * .inf t : Num F) = .inf (xor s t) := rfl
theorem nan_mul (x : Num F) : .nan * x = (.nan : Num F) := by cases x <;> rfl
theorem mul_nan (x : Num F) : x * .nan = (.nan : Num F) := by cases x <;> rfl
theorem div_fin (x y : ℝ) (h h') : (.fin x h / .fin y h' : Num F) =
    if y = 0 then (if x = 0 then .nan else .inf (decide (x < 0))) else round F (x / y) := rfl
theorem div_fin_inf (x : ℝ) (h t) : (.fin x h / .inf t : Num F) = 0 := rfl
theorem div_inf_fin (y : ℝ) (h s) : (.inf s / .fin y h : Num F) = .inf (xor s (decide (y < 0))) := rfl
theorem div_inf_inf (s t : Bool) : (.inf s / .inf t : Num F) = .nan := rfl
theorem nan_div (x : Num F) : .nan / x = (.nan : Num F) := by cases x <;> rfl
theorem div_nan (x : Num F) : x / .nan = (.nan : Num F) := by cases x <;> rfl

/-! ### Properties that no operation removes -/

/-- A property of numbers that sums and products inherit from each operand. -/
structure Absorbing (P : Num F → Prop) : Prop where
  add : ∀ x y, P x ∨ P y → P (x + y)
  sub : ∀ x y, P x ∨ P y → P (x - y)
  mul : ∀ x y, P x ∨ P y → P (x * y)
  fma : ∀ x y z, P x ∨ P y ∨ P z → P (fma x y z)
  zero : ¬ P 0
  one : ¬ P 1

theorem absorbing_nan : Absorbing (fun x : Num F => x = .nan) where
  add := by
    rintro x y (rfl | rfl)
    exacts [nan_add _, add_nan _]
  sub := by
    rintro x y (rfl | rfl)
    exacts [nan_sub _, sub_nan _]
  mul := by
    rintro x y (rfl | rfl)
    exacts [nan_mul _, mul_nan _]
  fma := by
    rintro x y z (rfl | rfl | rfl)
    · cases y <;> cases z <;> rfl
    · cases x <;> cases z <;> rfl
    · cases x <;> cases y <;> first | rfl | exact add_nan _
  zero := by rw [zero_def]; simp
  one := by rw [one_def]; simp

theorem absorbing_infinite : Absorbing (fun x : Num F => ¬ x.Finite) where
  add := by
    intro x y h
    cases x <;> cases y <;> simp only [add_fin, add_fin_inf, add_inf_fin, add_inf_inf, nan_add, add_nan, Finite, not_true, not_false_eq_true, or_self, or_true, true_or] at h ⊢
    split_ifs <;> simp [Finite]
  sub := by
    intro x y h
    cases x <;> cases y <;> simp only [sub_fin, sub_fin_inf, sub_inf_fin, sub_inf_inf, nan_sub, sub_nan, Finite, not_true, not_false_eq_true, or_self, or_true, true_or] at h ⊢
    split_ifs <;> simp [Finite]
  mul := by
    intro x y h
    cases x <;> cases y <;> simp only [mul_fin, mul_fin_inf, mul_inf_fin, mul_inf_inf, nan_mul, mul_nan, Finite, not_true, not_false_eq_true, or_self, or_true, true_or] at h ⊢
    all_goals split_ifs <;> simp [Finite]
  fma := by
    have hm : ∀ x y : Num F, ¬ x.Finite ∨ ¬ y.Finite → ¬ (x * y).Finite := by
      intro x y h
      cases x <;> cases y <;> simp only [mul_fin, mul_fin_inf, mul_inf_fin, mul_inf_inf, nan_mul, mul_nan, Finite, not_true, not_false_eq_true, or_self, or_true, true_or] at h ⊢
      all_goals split_ifs <;> simp [Finite]
    have ha : ∀ x y : Num F, ¬ x.Finite → ¬ (x + y).Finite := by
      intro x y h
      cases x <;> cases y <;> simp only [add_fin, add_fin_inf, add_inf_fin, add_inf_inf, nan_add, add_nan, Finite, not_true, not_false_eq_true] at h ⊢
      split_ifs <;> simp [Finite]
    intro x y z h
    cases x with
    | fin x hx =>
        cases y with
        | fin y hy =>
            cases z with
            | fin z hz => simp [Finite] at h
            | inf t => simp [Num.fma, Finite]
            | nan => simp [Num.fma, Finite]
        | inf t => cases z <;> exact ha _ _ (hm _ _ (Or.inr (by simp [Finite])))
        | nan => cases z <;> exact ha _ _ (hm _ _ (Or.inr (by simp [Finite])))
    | inf t => cases y <;> cases z <;> exact ha _ _ (hm _ _ (Or.inl (by simp [Finite])))
    | nan => cases y <;> cases z <;> exact ha _ _ (hm _ _ (Or.inl (by simp [Finite])))
  zero := by rw [zero_def]; simp [Finite]
  one := by rw [one_def]; simp [Finite]

/-! ### Operands of an evaluation tree -/

/-- The operand occurs in the tree. -/
def Occ (i : ι) : Expr ι → Prop
  | .leaf j => j = i
  | .zero => False
  | .one => False
  | .add a b => Occ i a ∨ Occ i b
  | .mul a b => Occ i a ∨ Occ i b
  | .fma a b c => Occ i a ∨ Occ i b ∨ Occ i c

theorem Absorbing.eval {P : Num F → Prop} (hP : Absorbing P) {f : ι → Num F} {i : ι} (hi : P (f i)) :
    ∀ {t : Expr ι}, Occ i t → P (eval f t)
  | .leaf j, h => by cases h; exact hi
  | .zero, h => h.elim
  | .one, h => h.elim
  | .add _ _, h => hP.add _ _ (h.imp (hP.eval hi) (hP.eval hi))
  | .mul _ _, h => hP.mul _ _ (h.imp (hP.eval hi) (hP.eval hi))
  | .fma _ _ _, h => hP.fma _ _ _ (h.imp (hP.eval hi) (Or.imp (hP.eval hi) (hP.eval hi)))

theorem exact_update [DecidableEq ι] {i : ι} (c : ℝ) (f : ι → ℝ) : ∀ {t : Expr ι}, ¬ Occ i t →
    t.exact (Function.update f i c) = t.exact f
  | .leaf j, h => by
      have : j ≠ i := h
      simp [Expr.exact, this]
  | .zero, _ => rfl
  | .one, _ => rfl
  | .add a b, h => by
      have h' : ¬ Occ i a ∧ ¬ Occ i b := not_or.1 h
      simp only [Expr.exact, exact_update c f h'.1, exact_update c f h'.2]
  | .mul a b, h => by
      have h' : ¬ Occ i a ∧ ¬ Occ i b := not_or.1 h
      simp only [Expr.exact, exact_update c f h'.1, exact_update c f h'.2]
  | .fma a b d, h => by
      have h' : ¬ Occ i a ∧ ¬ (Occ i b ∨ Occ i d) := not_or.1 h
      have h'' := not_or.1 h'.2
      simp only [Expr.exact, exact_update c f h'.1, exact_update c f h''.1, exact_update c f h''.2]

theorem occ_of_ne {i : ι} {t : Expr ι} {f : ι → ℝ} {c : ℝ} [DecidableEq ι]
    (h : t.exact (Function.update f i c) ≠ t.exact f) : Occ i t := by
  by_contra hn
  exact h (exact_update c f hn)

/-- A number is changed in a list of numbers: the sum changes. -/
theorem sum_lt_of {β : Type} {l : List β} {f g : β → ℝ} (hle : ∀ b ∈ l, f b ≤ g b) {b : β} (hb : b ∈ l) (hlt : f b < g b) :
    (l.map f).sum < (l.map g).sum :=
  List.sum_lt_sum _ _ hle ⟨b, hb, hlt⟩

theorem occ_sum (S : Arith) {n i : Nat} (hi : i < n) : Occ i (S.sumTree n) := by
  refine occ_of_ne (f := fun _ => 0) (c := 1) (ne_of_gt ?_)
  rw [S.sum_exact, S.sum_exact]
  refine sum_lt_of (fun b _ => ?_) (List.mem_range.2 hi) ?_
  · rw [Function.update_apply]; split <;> norm_num
  · simp

theorem occ_dot (S : Arith) {n i : Nat} (hi : i < n) (b : Bool) : Occ (i, b) (S.dotTree n) := by
  refine occ_of_ne (f := fun _ => 1) (c := 2) (ne_of_gt ?_)
  rw [S.dot_exact, S.dot_exact]
  refine sum_lt_of (fun k _ => ?_) (List.mem_range.2 hi) ?_
  · simp only [Function.update_apply]; split <;> split <;> norm_num
  · simp only [Function.update_apply]
    cases b <;> simp

theorem occ_ein (S : Arith) {n : Nat} {dims v : List Nat} {k : Nat} (hv : v ∈ indices dims) (hk : k < n) :
    Occ (v, k) (S.einTree n dims) := by
  refine occ_of_ne (f := fun _ => 1) (c := 2) (ne_of_gt ?_)
  rw [S.ein_exact, S.ein_exact]
  have key : ∀ (l : List Nat) (w : List Nat), 1 ≤ (l.map fun k' => Function.update (fun _ => (1 : ℝ)) (v, k) 2 (w, k')).prod := by
    intro l w
    induction l with
    | nil => simp
    | cons a l ih =>
        rw [List.map_cons, List.prod_cons, Function.update_apply]
        split <;> linarith
  have hk' : ∀ l : List Nat, k ∈ l → 1 < (l.map fun k' => Function.update (fun _ => (1 : ℝ)) (v, k) 2 (v, k')).prod := by
    intro l
    induction l with
    | nil => simp
    | cons a l ih =>
        intro ha
        rw [List.map_cons, List.prod_cons]
        have := key l v
        rcases List.mem_cons.1 ha with rfl | ha
        · rw [Function.update_self]; linarith
        · have := ih ha
          rw [Function.update_apply]; split <;> linarith
  refine sum_lt_of (fun w _ => ?_) hv ?_
  · have := key (List.range n) w
    simpa using this
  · have := hk' (List.range n) (List.mem_range.2 hk)
    simpa using this

end Num
end TD.sp
