import Verif.Lemmas.RoundingOps
import Verif.Spec.Rounding

/-! # The two relations: rounding error and exactness on integers -/
namespace TD
open Tensor fl Spec
variable {S : Arith}

/-- The computed value is within `gamma d` times the magnitude. -/
def Close (S : Arith) (d : Nat) (x : Fl S) (y a : ℝ) : Prop := |x.val - y| ≤ ((1 + S.u) ^ d - 1) * a ∧ |y| ≤ a

theorem one_le_pow_u (S : Arith) (d : Nat) : 1 ≤ (1 + S.u) ^ d := one_le_pow₀ (by linarith [S.u_nonneg])

theorem close_round {u x y a : ℝ} {r : ℝ} {d : Nat} (hu : 0 ≤ u) (hr : |r - x| ≤ u * |x|)
    (h : |x - y| ≤ ((1 + u) ^ d - 1) * a) (ha : |y| ≤ a) : |r - y| ≤ ((1 + u) ^ (d + 1) - 1) * a := by
  have hx : |x| ≤ (1 + u) ^ d * a := by
    have : |x| ≤ |x - y| + |y| := by simpa using abs_add_le (x - y) y
    nlinarith
  have h1 : |r - y| ≤ |r - x| + |x - y| := by simpa using abs_add_le (r - x) (x - y)
  have h2 := mul_le_mul_of_nonneg_left hx hu
  have : ((1 + u) ^ (d + 1) - 1) * a = u * ((1 + u) ^ d * a) + ((1 + u) ^ d - 1) * a := by ring
  linarith

theorem close_mul {u x x' y y' a a' : ℝ} {d e : Nat} (hu : 0 ≤ u) (h : |x - y| ≤ ((1 + u) ^ d - 1) * a) (ha : |y| ≤ a)
    (h' : |x' - y'| ≤ ((1 + u) ^ e - 1) * a') (ha' : |y'| ≤ a') :
    |x * x' - y * y'| ≤ ((1 + u) ^ (d + e) - 1) * (a * a') := by
  have hx : |x'| ≤ (1 + u) ^ e * a' := by
    have : |x'| ≤ |x' - y'| + |y'| := by simpa using abs_add_le (x' - y') y'
    nlinarith
  have h0 : 0 ≤ a := (abs_nonneg _).trans ha
  have h0' : 0 ≤ a' := (abs_nonneg _).trans ha'
  have hd : 0 ≤ (1 + u) ^ d - 1 := by linarith [one_le_pow₀ (n := d) (show 1 ≤ 1 + u by linarith)]
  have h1 : |x * x' - y * y'| ≤ |x - y| * |x'| + |y| * |x' - y'| := by
    rw [← abs_mul, ← abs_mul]
    have : x * x' - y * y' = (x - y) * x' + y * (x' - y') := by ring
    rw [this]; exact abs_add_le _ _
  have h2 : |x - y| * |x'| ≤ (((1 + u) ^ d - 1) * a) * ((1 + u) ^ e * a') :=
    mul_le_mul h hx (abs_nonneg _) (mul_nonneg hd h0)
  have h3 : |y| * |x' - y'| ≤ a * (((1 + u) ^ e - 1) * a') := mul_le_mul ha h' (abs_nonneg _) h0
  have : ((1 + u) ^ (d + e) - 1) * (a * a') =
      (((1 + u) ^ d - 1) * a) * ((1 + u) ^ e * a') + a * (((1 + u) ^ e - 1) * a') := by rw [pow_add]; ring
  linarith

theorem close_mono {u x y a : ℝ} {d d' : Nat} (hu : 0 ≤ u) (hd : d ≤ d') (h : |x - y| ≤ ((1 + u) ^ d - 1) * a)
    (ha : |y| ≤ a) : |x - y| ≤ ((1 + u) ^ d' - 1) * a := by
  refine h.trans (mul_le_mul_of_nonneg_right ?_ ((abs_nonneg _).trans ha))
  linarith [pow_le_pow_right₀ (show 1 ≤ 1 + u by linarith) hd]

theorem close_add {u x x' y y' a a' : ℝ} {d : Nat} (h : |x - y| ≤ ((1 + u) ^ d - 1) * a)
    (h' : |x' - y'| ≤ ((1 + u) ^ d - 1) * a') : |x + x' - (y + y')| ≤ ((1 + u) ^ d - 1) * (a + a') := by
  have : |x + x' - (y + y')| ≤ |x - y| + |x' - y'| := by
    have e : x + x' - (y + y') = (x - y) + (x' - y') := by ring
    rw [e]; exact abs_add_le _ _
  linarith

theorem abs_add_le' {y y' a a' : ℝ} (h : |y| ≤ a) (h' : |y'| ≤ a') : |y + y'| ≤ a + a' :=
  (abs_add_le y y').trans (add_le_add h h')

theorem abs_mul_le' {y y' a a' : ℝ} (h : |y| ≤ a) (h' : |y'| ≤ a') : |y * y'| ≤ a * a' := by
  rw [abs_mul]; exact mul_le_mul h h' (abs_nonneg _) ((abs_nonneg _).trans h)

/-- Rounding errors along an evaluation tree. -/
theorem close_tree [S.NoUnderflow] {ι : Type} (x : ι → Fl S) (y a : ι → ℝ) (e : ι → Nat) (h : ∀ i, Close S (e i) (x i) (y i) (a i)) :
    ∀ t : Expr ι, Close S (t.passes e) (run t x) (t.exact y) (t.exact a)
  | .leaf i => h i
  | .zero => by
      show |(0 : ℝ) - 0| ≤ _ ∧ |(0 : ℝ)| ≤ 0
      simp [Expr.exact]
  | .one => by
      show |(1 : ℝ) - 1| ≤ ((1 + S.u) ^ 0 - 1) * 1 ∧ |(1 : ℝ)| ≤ 1
      simp
  | .add s t => by
      obtain ⟨h1, h2⟩ := close_tree x y a e h s
      obtain ⟨h3, h4⟩ := close_tree x y a e h t
      have hu := S.u_nonneg
      refine ⟨close_round hu (S.rel_err _) (close_add (close_mono hu (le_max_left _ _) h1 h2)
        (close_mono hu (le_max_right _ _) h3 h4)) (abs_add_le' h2 h4), abs_add_le' h2 h4⟩
  | .mul s t => by
      obtain ⟨h1, h2⟩ := close_tree x y a e h s
      obtain ⟨h3, h4⟩ := close_tree x y a e h t
      have hu := S.u_nonneg
      exact ⟨close_round hu (S.rel_err _) (close_mul hu h1 h2 h3 h4) (abs_mul_le' h2 h4), abs_mul_le' h2 h4⟩
  | .fma s t w => by
      obtain ⟨h1, h2⟩ := close_tree x y a e h s
      obtain ⟨h3, h4⟩ := close_tree x y a e h t
      obtain ⟨h5, h6⟩ := close_tree x y a e h w
      have hu := S.u_nonneg
      have hm := abs_mul_le' h2 h4
      exact ⟨close_round hu (S.rel_err _) (close_add (close_mono hu (le_max_left _ _) (close_mul hu h1 h2 h3 h4) hm)
        (close_mono hu (le_max_right _ _) h5 h6)) (abs_add_le' hm h6), abs_add_le' hm h6⟩

theorem graded_close [S.NoUnderflow] : Graded S (Close S) where
  mono hd h := ⟨close_mono S.u_nonneg hd h.1 h.2, h.2⟩
  tree t x y a e h := close_tree x y a e h t

/-! ### Integers -/

/-- The value and the magnitude are integers, and the computed value is exact as long as the magnitude is at most `P`. -/
def IntRel (S : Arith) (P : ℝ) (_ : Nat) (x : Fl S) (y a : ℝ) : Prop :=
  (a ≤ P → x.val = y) ∧ |y| ≤ a ∧ (∃ k : ℤ, y = k) ∧ ∃ m : ℕ, a = m

theorem intrel_mul {P x x' y y' a a' : ℝ} (hP : 0 ≤ P) (h : (a ≤ P → x = y) ∧ |y| ≤ a ∧ (∃ k : ℤ, y = k) ∧ ∃ m : ℕ, a = m)
    (h' : (a' ≤ P → x' = y') ∧ |y'| ≤ a' ∧ (∃ k : ℤ, y' = k) ∧ ∃ m : ℕ, a' = m) :
    (a * a' ≤ P → x * x' = y * y') ∧ |y * y'| ≤ a * a' ∧ (∃ k : ℤ, y * y' = k) ∧ ∃ m : ℕ, a * a' = m := by
  obtain ⟨h1, h2, ⟨k, hk⟩, m, hm⟩ := h
  obtain ⟨h1', h2', ⟨k', hk'⟩, m', hm'⟩ := h'
  refine ⟨fun ha => ?_, abs_mul_le' h2 h2', ⟨k * k', by rw [hk, hk']; push_cast; ring⟩, m * m', by rw [hm, hm']; push_cast; ring⟩
  rcases Nat.eq_zero_or_pos m with rfl | hmp
  · have e : a = 0 := by rw [hm]; simp
    have hy : y = 0 := abs_nonpos_iff.1 (by rw [← e]; exact h2)
    rw [h1 (by rw [e]; exact hP), hy, zero_mul, zero_mul]
  rcases Nat.eq_zero_or_pos m' with rfl | hmp'
  · have e : a' = 0 := by rw [hm']; simp
    have hy : y' = 0 := abs_nonpos_iff.1 (by rw [← e]; exact h2')
    rw [h1' (by rw [e]; exact hP), hy, mul_zero, mul_zero]
  have e1 : (1 : ℝ) ≤ m := by exact_mod_cast hmp
  have e2 : (1 : ℝ) ≤ m' := by exact_mod_cast hmp'
  rw [hm, hm'] at ha
  rw [h1 (by rw [hm]; nlinarith), h1' (by rw [hm']; nlinarith)]

theorem intrel_add {P x x' y y' a a' : ℝ} (h : (a ≤ P → x = y) ∧ |y| ≤ a ∧ (∃ k : ℤ, y = k) ∧ ∃ m : ℕ, a = m)
    (h' : (a' ≤ P → x' = y') ∧ |y'| ≤ a' ∧ (∃ k : ℤ, y' = k) ∧ ∃ m : ℕ, a' = m) :
    (a + a' ≤ P → x + x' = y + y') ∧ |y + y'| ≤ a + a' ∧ (∃ k : ℤ, y + y' = k) ∧ ∃ m : ℕ, a + a' = m := by
  obtain ⟨h1, h2, ⟨k, hk⟩, m, hm⟩ := h
  obtain ⟨h1', h2', ⟨k', hk'⟩, m', hm'⟩ := h'
  refine ⟨fun ha => ?_, abs_add_le' h2 h2', ⟨k + k', by rw [hk, hk']; push_cast; ring⟩, m + m', by rw [hm, hm']; push_cast; ring⟩
  have e1 := (abs_nonneg _).trans h2
  have e2 := (abs_nonneg _).trans h2'
  rw [h1 (by linarith), h1' (by linarith)]

theorem intrel_round {P x y a : ℝ} (hS : Holds S P) (h : (a ≤ P → x = y) ∧ |y| ≤ a ∧ (∃ k : ℤ, y = k) ∧ ∃ m : ℕ, a = m) :
    (a ≤ P → S.rnd x = y) ∧ |y| ≤ a ∧ (∃ k : ℤ, y = k) ∧ ∃ m : ℕ, a = m := by
  refine ⟨fun ha => ?_, h.2⟩
  obtain ⟨k, hk⟩ := h.2.2.1
  rw [h.1 ha, hk]
  exact hS k (by rw [← hk]; exact h.2.1.trans ha)

theorem intrel_tree {P : ℝ} (hP : 0 ≤ P) (hS : Holds S P) {ι : Type} (x : ι → Fl S) (y a : ι → ℝ) (e : ι → Nat)
    (h : ∀ i, IntRel S P (e i) (x i) (y i) (a i)) :
    ∀ t : Expr ι, IntRel S P (t.passes e) (run t x) (t.exact y) (t.exact a)
  | .leaf i => h i
  | .zero => ⟨fun _ => rfl, by simp [Expr.exact], ⟨0, by simp [Expr.exact]⟩, 0, by simp [Expr.exact]⟩
  | .one => ⟨fun _ => rfl, by simp [Expr.exact], ⟨1, by simp [Expr.exact]⟩, 1, by simp [Expr.exact]⟩
  | .add s t => intrel_round hS (intrel_add (intrel_tree hP hS x y a e h s) (intrel_tree hP hS x y a e h t))
  | .mul s t => intrel_round hS (intrel_mul hP (intrel_tree hP hS x y a e h s) (intrel_tree hP hS x y a e h t))
  | .fma s t w => intrel_round hS (intrel_add (intrel_mul hP (intrel_tree hP hS x y a e h s) (intrel_tree hP hS x y a e h t))
      (intrel_tree hP hS x y a e h w))

theorem graded_int {P : ℝ} (hP : 0 ≤ P) (hS : Holds S P) : Graded S (IntRel S P) where
  mono _ h := h
  tree t x y a e h := intrel_tree hP hS x y a e h t

/-! ### Inputs and outcomes -/

theorem getD_vals (A : Tensor (Fl S)) (k : Nat) : (vals A).data.getD k 0 = (A.data.getD k 0).val := by
  simp only [vals, tf.map, List.getD_eq_getElem?_getD, List.getElem?_map]
  cases A.data[k]? <;> rfl

theorem getD_mags (A : Tensor (Fl S)) (k : Nat) : (mags A).data.getD k 0 = |(A.data.getD k 0).val| := by
  simp only [mags, tf.map, List.getD_eq_getElem?_getD, List.getElem?_map]
  cases A.data[k]? with
  | none => exact (abs_zero).symm
  | some x => rfl

theorem at_vals (A : Tensor (Fl S)) (i : List Nat) : (vals A).at_ i = (A.at_ i).val := getD_vals A _
theorem at_mags (A : Tensor (Fl S)) (i : List Nat) : (mags A).at_ i = |(A.at_ i).val| := getD_mags A _

theorem close_input (A : Tensor (Fl S)) : TRel (Close S 0) A (vals A) (mags A) :=
  ⟨rfl, rfl, fun k => by rw [getD_vals, getD_mags]; simp [Close]⟩

theorem int_input {A : Tensor (Fl S)} (h : Integral A) (P : ℝ) : TRel (IntRel S P 0) A (vals A) (mags A) := by
  refine ⟨rfl, rfl, fun k => ?_⟩
  rw [getD_vals, getD_mags]
  have hk : ∃ m : ℤ, (A.data.getD k 0).val = m := by
    rw [List.getD_eq_getElem?_getD]
    cases hk : A.data[k]? with
    | none => exact ⟨0, by simp; rfl⟩
    | some x => exact h x (List.mem_of_getElem? hk)
  obtain ⟨m, hm⟩ := hk
  refine ⟨fun _ => rfl, le_rfl, ⟨m, hm⟩, m.natAbs, ?_⟩
  rw [hm, Nat.cast_natAbs, Int.cast_abs]

theorem within_of {d : Nat} {x : Res (Tensor (Fl S))} {y z : Res (Tensor ℝ)} (h : RelR (TRel (Close S d)) x y z) :
    Within (gamma S d) x y z := by
  match x, y, z, h with
  | .ok _, .ok _, .ok _, h => exact ⟨h.1, h.2.1, fun i _ => (h.at_ i).1⟩
  | .error _, .error _, .error _, h => exact h.1

theorem exact_of {P : ℝ} {d : Nat} {x : Res (Tensor (Fl S))} {y z : Res (Tensor ℝ)} (h : RelR (TRel (IntRel S P d)) x y z) :
    ExactUpTo P x y z := by
  match x, y, z, h with
  | .ok _, .ok _, .ok _, h => exact ⟨h.1, h.2.1, fun i _ => (h.at_ i).1⟩
  | .error _, .error _, .error _, h => exact h.1

end TD

namespace TD
open Tensor fl Spec ops
variable {S : Arith}

theorem khatri_cols {α : Type} [Zero α] [tf.Ein α] {ms : List (Tensor α)} {K : Tensor α} (h : khatri ms = .ok K) :
    ∃ m, K.shape = [m, ((ms.head?.map Tensor.shape).getD []).getD 1 0] := by
  unfold khatri at h
  simp only [ops.skip, Bool.false_eq_true, if_false] at h
  cases he : tf.einsum (khatriEq ms.length) ms with
  | error e => rw [he] at h; cases h
  | ok T =>
      rw [he, ok_bind] at h
      cases hd : dimOfEach ms 0 with
      | error e => rw [hd] at h; cases h
      | ok r =>
          rw [hd, ok_bind] at h
          cases ms with
          | nil => cases h
          | cons M ms =>
              simp only at h
              cases hc : M.shape[(1 : Nat)]? with
              | none => rw [hc] at h; cases h
              | some c =>
                  rw [hc] at h
                  refine ⟨r.prod, ?_⟩
                  rw [reshape2_shape h]
                  simp [List.getD_eq_getElem?_getD, hc]

namespace Graded
variable {G : Nat → Fl S → ℝ → ℝ → Prop} (hG : Graded S G)
include hG

theorem kextract {d : Nat} {L : List (Triple S)} (h : ∀ p ∈ L, TRel (G d) p.1 p.2.1 p.2.2) {A : Tensor (Fl S)}
    {B C : Tensor ℝ} (hA : TRel (G d) A B C) (ud ld : DType) :
    RelR (TRel (G (L.length * d + (L.length - 1) + d + (((L.map fun p => p.1).head?.map Tensor.shape).getD []).getD 1 0)))
      (KTensor.extract ⟨L.map fun p => p.1, ud, A, ld⟩) (KTensor.extract ⟨L.map fun p => p.2.1, ud, B, ld⟩)
      (KTensor.extract ⟨L.map fun p => p.2.2, ud, C, ld⟩) := by
  unfold KTensor.extract
  refine RelR.bind_eq (hG.ops_khatri h .none false) fun K K1 K2 hK hr => ?_
  obtain ⟨m, hKs⟩ := khatri_cols hK
  dsimp only
  rw [(dims_eq h 0).1, (dims_eq h 0).2]
  refine RelR.bind (RelR.const (p := fun a b c => a = b ∧ a = c) fun a _ => ⟨rfl, rfl⟩) ?_
  rintro a _ _ ⟨rfl, rfl⟩
  by_cases hd : ud = ld
  · rw [if_pos hd, if_pos hd, if_pos hd]
    refine RelR.bind (hG.matmul hr hA ?_) fun _ _ _ hh => tf.reshape_rel hh _
    intro a0 a1 hs
    rw [hKs] at hs
    simp only [List.cons.injEq] at hs
    simp only [Bool.false_eq_true, if_false]
    rw [hs.2.1]
  · rw [if_neg hd, if_neg hd, if_neg hd]; exact ⟨rfl, rfl⟩

end Graded
end TD
