import Verif.Lemmas.Bcu
import Verif.Props.Kron

/-! # Operator norms of Kronecker products -/
namespace TD
open Spec Tensor tf ops Matrix

/-- `‖M y‖² ≤ c ‖y‖²` for every vector. -/
def VecBound (M : Tensor ℝ) (c : ℝ) : Prop := 0 ≤ c ∧ ∀ y : Nat → ℝ,
  ∑ a ∈ Finset.range (M.shape.getD 0 0), (∑ b ∈ Finset.range (M.shape.getD 1 0), M.at_ [a, b] * y b) ^ 2 ≤
    c * ∑ b ∈ Finset.range (M.shape.getD 1 0), y b ^ 2

theorem vec_frob (m n : Nat) (M : Tensor ℝ) (y : Nat → ℝ) :
    ∑ a ∈ Finset.range m, (∑ b ∈ Finset.range n, M.at_ [a, b] * y b) ^ 2 =
      frobSq (toMat M m n * Matrix.of fun (b : Fin n) (_ : Fin 1) => y b) := by
  rw [frobSq, Finset.sum_range]
  refine Finset.sum_congr rfl fun i _ => ?_
  rw [Finset.univ_unique, Finset.sum_singleton, Matrix.mul_apply, Finset.sum_range]
  rfl

theorem vec_frob' (n : Nat) (y : Nat → ℝ) :
    ∑ b ∈ Finset.range n, y b ^ 2 = frobSq (Matrix.of fun (b : Fin n) (_ : Fin 1) => y b) := by
  rw [frobSq, Finset.sum_range]
  refine Finset.sum_congr rfl fun i _ => ?_
  rw [Finset.univ_unique, Finset.sum_singleton, of_apply]

theorem vecBound_of_topSv {M : Tensor ℝ} {s : ℝ} (h : IsTopSv (toMat M (M.shape.getD 0 0) (M.shape.getD 1 0)) s) :
    VecBound M (s ^ 2) := by
  refine ⟨sq_nonneg _, fun y => ?_⟩
  rw [vec_frob, vec_frob']
  exact h.mul_le _

theorem vecBound_of_gram {M : Tensor ℝ} {s : ℝ} (h : IsTopSv ((toMat M (M.shape.getD 0 0) (M.shape.getD 1 0))ᵀ *
    toMat M (M.shape.getD 0 0) (M.shape.getD 1 0)) s) : VecBound M s := by
  refine ⟨h.nonneg, fun y => ?_⟩
  rw [vec_frob, vec_frob']
  exact h.gram_le _

/-- Bounds multiply along a Kronecker product. -/
theorem kron_bound {ms : List (Tensor ℝ)} {cs : List ℝ} (h : List.Forall₂ VecBound ms cs) (x : List Nat → ℝ) :
    boxSum (rowDims ms) (fun i => (boxSum (colDims ms) fun j => kronEntry ms i j * x j) ^ 2) ≤
      cs.prod * boxSum (colDims ms) fun j => x j ^ 2 := by
  induction h generalizing x with
  | nil => simp [rowDims, colDims, boxSum, kronEntry]
  | @cons M c ms cs hM h ih =>
      have hc : ∀ f : List Nat → ℝ, boxSum (colDims (M :: ms)) f =
          ∑ b ∈ Finset.range (M.shape.getD 1 0), boxSum (colDims ms) fun j => f (b :: j) := fun f => rfl
      have hr : ∀ f : List Nat → ℝ, boxSum (rowDims (M :: ms)) f =
          ∑ a ∈ Finset.range (M.shape.getD 0 0), boxSum (rowDims ms) fun i => f (a :: i) := fun f => rfl
      rw [hr, hc]
      set y : List Nat → Nat → ℝ := fun i b => boxSum (colDims ms) fun j => kronEntry ms i j * x (b :: j) with hy
      have e1 : ∀ a i, boxSum (colDims (M :: ms)) (fun j => kronEntry (M :: ms) (a :: i) j * x j) =
          ∑ b ∈ Finset.range (M.shape.getD 1 0), M.at_ [a, b] * y i b := by
        intro a i
        rw [hc]
        refine Finset.sum_congr rfl fun b _ => ?_
        rw [hy, ← boxSum_mul_left]
        refine boxSum_congr fun j _ => ?_
        simp only [kronEntry]; ring
      simp only [e1]
      rw [← boxSum_comm]
      refine le_trans (loss.boxSum_le _ (g := fun i => c * ∑ b ∈ Finset.range (M.shape.getD 1 0), y i b ^ 2)
        fun i _ => hM.2 (y i)) ?_
      rw [boxSum_mul_left, boxSum_comm, List.prod_cons, mul_assoc]
      refine mul_le_mul_of_nonneg_left ?_ hM.1
      rw [Finset.mul_sum]
      exact Finset.sum_le_sum fun b _ => ih fun j => x (b :: j)

/-- The bound of a Kronecker product is attained when those of the members are. -/
theorem kron_attained {ms : List (Tensor ℝ)} {cs : List ℝ} (h : List.Forall₂ (fun M c => ∃ y : Nat → ℝ,
    ∑ b ∈ Finset.range (M.shape.getD 1 0), y b ^ 2 = 1 ∧
    ∑ a ∈ Finset.range (M.shape.getD 0 0), (∑ b ∈ Finset.range (M.shape.getD 1 0), M.at_ [a, b] * y b) ^ 2 = c) ms cs) :
    ∃ x : List Nat → ℝ, boxSum (colDims ms) (fun j => x j ^ 2) = 1 ∧
      boxSum (rowDims ms) (fun i => (boxSum (colDims ms) fun j => kronEntry ms i j * x j) ^ 2) = cs.prod := by
  induction h with
  | nil => exact ⟨fun _ => 1, by simp [colDims, boxSum], by simp [rowDims, colDims, boxSum, kronEntry]⟩
  | @cons M c ms cs hM h ih =>
      obtain ⟨y, y1, y2⟩ := hM
      obtain ⟨x, x1, x2⟩ := ih
      have hc : ∀ f : List Nat → ℝ, boxSum (colDims (M :: ms)) f =
          ∑ b ∈ Finset.range (M.shape.getD 1 0), boxSum (colDims ms) fun j => f (b :: j) := fun f => rfl
      have hr : ∀ f : List Nat → ℝ, boxSum (rowDims (M :: ms)) f =
          ∑ a ∈ Finset.range (M.shape.getD 0 0), boxSum (rowDims ms) fun i => f (a :: i) := fun f => rfl
      refine ⟨fun j => y (j.getD 0 0) * x j.tail, ?_, ?_⟩
      · rw [hc]
        have : ∀ b, boxSum (colDims ms) (fun j => (y ((b :: j).getD 0 0) * x (b :: j).tail) ^ 2) = y b ^ 2 * 1 := by
          intro b
          rw [← x1, ← boxSum_mul_left]
          exact boxSum_congr fun j _ => by simp [mul_pow]
        simp only [this, mul_one]
        exact y1
      · rw [hr]
        set z : List Nat → ℝ := fun i => boxSum (colDims ms) fun j => kronEntry ms i j * x j with hz
        have e1 : ∀ a i, boxSum (colDims (M :: ms)) (fun j => kronEntry (M :: ms) (a :: i) j *
            (y (j.getD 0 0) * x j.tail)) =
            (∑ b ∈ Finset.range (M.shape.getD 1 0), M.at_ [a, b] * y b) * z i := by
          intro a i
          rw [hc, Finset.sum_mul]
          refine Finset.sum_congr rfl fun b _ => ?_
          rw [hz, ← boxSum_mul_left]
          refine boxSum_congr fun j _ => ?_
          simp only [kronEntry, List.getD_cons_zero, List.tail_cons]; ring
        simp only [e1, mul_pow]
        rw [List.prod_cons, ← y2, Finset.sum_mul]
        refine Finset.sum_congr rfl fun a _ => ?_
        rw [boxSum_mul_left, x2]

theorem topSv_vec {M : Tensor ℝ} {s : ℝ} (h : IsTopSv (toMat M (M.shape.getD 0 0) (M.shape.getD 1 0)) s) :
    ∃ y : Nat → ℝ, ∑ b ∈ Finset.range (M.shape.getD 1 0), y b ^ 2 = 1 ∧
      ∑ a ∈ Finset.range (M.shape.getD 0 0), (∑ b ∈ Finset.range (M.shape.getD 1 0), M.at_ [a, b] * y b) ^ 2 = s ^ 2 := by
  obtain ⟨v, v1, v2⟩ := h.attained
  let y : Nat → ℝ := fun b => if hb : b < M.shape.getD 1 0 then v ⟨b, hb⟩ 0 else 0
  have hy : (Matrix.of fun (b : Fin (M.shape.getD 1 0)) (_ : Fin 1) => y b) = v := by
    ext i j
    rw [of_apply]
    have : j = 0 := Subsingleton.elim _ _
    subst this
    exact dif_pos i.isLt
  refine ⟨y, ?_, ?_⟩
  · rw [vec_frob', hy, v1]
  · rw [vec_frob, hy, v2]

theorem foldlM_mul (x : ℝ) (l : List ℝ) : l.foldlM (fun a b => (.ok (a * b) : Res ℝ)) x = .ok (x * l.prod) := by
  induction l generalizing x with
  | nil => simp [pure, Except.pure]
  | cons y l ih =>
      rw [List.foldlM_cons, ok_bind, ih, List.prod_cons, mul_assoc]

theorem pyReduce_mul {l : List ℝ} (h : l ≠ []) : pyReduce (fun a b => (.ok (a * b) : Res ℝ)) l = .ok l.prod := by
  cases l with
  | nil => exact absurd rfl h
  | cons x l => rw [pyReduce, foldlM_mul, List.prod_cons]

/-- `max_single_value_mul` on non-empty matrices. -/
theorem maxSingleValueMul_ok {topSv : Tensor ℝ → Res ℝ} (ht : TopSvOk topSv) {ms : List (Tensor ℝ)} (hm : AllMat ms)
    (hne : ms ≠ []) (hpos : ∀ M ∈ ms, 0 < M.shape.getD 0 0 ∧ 0 < M.shape.getD 1 0) :
    ∃ s : List ℝ, maxSingleValueMul topSv ms = .ok s.prod ∧
      List.Forall₂ (fun M x => IsTopSv (toMat M (M.shape.getD 0 0) (M.shape.getD 1 0)) x) ms s := by
  have key : ∀ l : List (Tensor ℝ), (∀ M ∈ l, M ∈ ms) → ∃ s : List ℝ, l.mapM topSv = .ok s ∧
      List.Forall₂ (fun M x => IsTopSv (toMat M (M.shape.getD 0 0) (M.shape.getD 1 0)) x) l s := by
    intro l
    induction l with
    | nil => intro _; exact ⟨[], rfl, List.Forall₂.nil⟩
    | cons M l ih =>
        intro hl
        obtain ⟨s, s1, s2⟩ := ih fun N hN => hl N (by simp [hN])
        have hM := hl M (by simp)
        obtain ⟨x, x1, x2⟩ := ht M _ _ (hm.shape_eq hM) (hpos M hM).1 (hpos M hM).2
        refine ⟨x :: s, ?_, List.Forall₂.cons x2 s2⟩
        rw [List.mapM_cons, x1, ok_bind, s1, ok_bind]; rfl
  obtain ⟨s, s1, s2⟩ := key ms fun _ h => h
  refine ⟨s, ?_, s2⟩
  unfold maxSingleValueMul
  rw [show skip ms .none = ms by rw [skip_eq_kept, kept_none], s1, ok_bind]
  refine pyReduce_mul ?_
  intro e
  have := s2.length_eq
  rw [e] at this
  exact hne (List.eq_nil_of_length_eq_zero this)

end TD
