import Verif.Props.LowRank
import Verif.Props.Demo
import Verif.Props.Predict

/-!
# C179 : the predictions of trained Tucker models
-/
namespace TD.Props
open TD Spec Tensor ops fact

/-- One square is at most the sum of all. -/
theorem sq_le_distSqT {X Y : Tensor ℝ} {i : List Nat} (hi : InB X.shape i) : (X.at_ i - Y.at_ i) ^ 2 ≤ distSqT X Y := by
  rw [← boxSum_single hi ((X.at_ i - Y.at_ i) ^ 2)]
  unfold distSqT
  refine loss.boxSum_le _ fun j _ => ?_
  split
  · rename_i h; subst h; rfl
  · exact sq_nonneg _

/-- The key has one index per mode and names the entry `idx`; negative indices count from the end. -/
def KeyOf (shape : List Nat) (key : List Int) (idx : List Nat) : Prop :=
  key.length = shape.length ∧ List.Forall₂ (fun (p : Nat × Int) i => Denotes p.1 p.2 i) (shape.zip key) idx

/-- **C179** for `HOSVD`: `predict` after `train` evaluates the exposed core and factors at the index, and is no further
from the data than `√N` times the distance of the data from any tensor of the given ranks. -/
theorem C179_hosvd (svd : Tensor ℝ → Res (Tensor ℝ × Tensor ℝ × Tensor ℝ)) (hs : SvdOk svd) (X : Tensor ℝ)
    (ranks : List Nat) (h1 : 1 ≤ X.order) (h13 : X.order ≤ 13) (hpos : ∀ d ∈ X.shape, 0 < d)
    (hr : X.order ≤ ranks.length) (self : Self (List (Tensor ℝ)) (Tensor ℝ) (Tensor ℝ)) :
    ∃ self' A g, HOSVD.train (fun _ : Unit => tucker.HOSVD.run svd X ranks) (.ok ()) self = (self', .ok ()) ∧
      self'.factors = some A ∧ self'.aux = some g ∧
      ∀ key idx, KeyOf X.shape key idx → ∃ v, barePredict self'.full key = .ok v ∧
        v = (boxSum g.shape fun j => g.at_ j * kronEntry A idx j) ∧
        ∀ Y, TuckerRankLe X.shape ranks Y → |v - X.at_ idx| ≤ Real.sqrt (X.order * distSqT X Y) := by
  obtain ⟨A, g, full, e1, -, -, -, e2, -⟩ := C57_hosvd svd hs X ranks h1 h13 hpos hr
  refine ⟨_, A, g, by unfold HOSVD.train; simp only [e1]; rfl, rfl, rfl, fun key idx ⟨k1, k2⟩ => ?_⟩
  have eo : full.order = X.order := congrArg List.length e2
  obtain ⟨hin, hv⟩ := C40_entry_partial full key idx (by omega) (by rw [eo]; exact k1) (by rw [e2]; exact k2)
  rw [e2] at hin
  refine ⟨_, hv, (C76_hosvd_entries svd hs X ranks h1 h13 hpos hr A g full e1).2 idx hin, fun Y hY => ?_⟩
  obtain ⟨A', g', full', f1, -, f3⟩ := C90_hosvd_quasi_optimal svd hs X ranks h1 h13 hpos hr Y hY
  rw [e1] at f1
  cases f1
  rw [abs_sub_comm]
  exact Real.abs_le_sqrt ((sq_le_distSqT hin).trans f3)

/-- **C179** for `HOOI`, if the last step was reported: `predict` evaluates the exposed core and factors, and the last
reported residual times the norm of the data bounds the error of every prediction. -/
theorem C179_hooi (svd : Tensor ℝ → Res (Tensor ℝ × Tensor ℝ × Tensor ℝ)) (hs : SvdOk svd) (X : Tensor ℝ)
    (ranks : List Nat) (h2 : 2 ≤ X.order) (h13 : X.order ≤ 13) (hpos : ∀ d ∈ X.shape, 0 < d)
    (hlen : X.order ≤ ranks.length) (h0 : ∃ i, InB X.shape i ∧ X.at_ i ≠ 0) (Ar : Arith ℝ) (args : Args ℝ) (steps : Int)
    (self self' : Self (List (Tensor ℝ)) (Tensor ℝ) (Tensor ℝ)) (ev : List Int) (hist : List (ℝ × ℝ))
    (h : train Ar (HOOI.cls (tucker.HOOI.main svd X ranks)) args steps (tucker.HOOI.init svd X ranks) self =
      (self', ev, .ok hist)) (hrep : Reported args steps (hist.length - 1)) :
    ∃ A g p, self'.factors = some A ∧ self'.aux = some g ∧ hist.getLast? = some p ∧
      ∀ key idx, KeyOf X.shape key idx → ∃ v, barePredict self'.full key = .ok v ∧
        v = (boxSum g.shape fun j => g.at_ j * kronEntry A idx j) ∧ |v - X.at_ idx| ≤ p.2 * Real.sqrt (normSqT X) := by
  obtain ⟨A, g, Y, p, q1, q2, q3, q4, q5, q6⟩ :=
    C81_hooi_last_entry svd hs X ranks h2 h13 hpos hlen Ar args steps self self' ev hist h
  refine ⟨A, g, p, q1, q2, q3, fun key idx ⟨k1, k2⟩ => ?_⟩
  have eo : Y.order = X.order := congrArg List.length q4.1
  obtain ⟨hin, hv⟩ := C40_entry_partial Y key idx (by omega) (by rw [eo]; exact k1) (by rw [q4.1]; exact k2)
  rw [q4.1] at hin
  refine ⟨_, by rw [q6 hrep]; exact hv, q4.2 idx hin, ?_⟩
  have hX : 0 < normSqT X := by
    obtain ⟨i0, hi0, hx0⟩ := h0
    refine lt_of_le_of_ne (loss.boxSum_nonneg _ fun i _ => sq_nonneg _) fun e => ?_
    exact hx0 (by simpa using (loss.boxSum_eq_zero X.shape fun i _ => sq_nonneg _).1 e.symm i0 hi0)
  have e : p.2 = Real.sqrt (distSqT X Y) / Real.sqrt (normSqT X) := q5.2
  rw [e, div_mul_cancel₀ _ (Real.sqrt_pos.2 hX).ne', abs_sub_comm]
  exact Real.abs_le_sqrt (sq_le_distSqT hin)

/-- **C179**, exact data: if the data have the given ranks, `HOSVD` predicts every entry of the data. -/
theorem C179_exact (svd : Tensor ℝ → Res (Tensor ℝ × Tensor ℝ × Tensor ℝ)) (hs : SvdOk svd) (X : Tensor ℝ)
    (ranks : List Nat) (h1 : 1 ≤ X.order) (h13 : X.order ≤ 13) (hpos : ∀ d ∈ X.shape, 0 < d)
    (hr : X.order ≤ ranks.length) (hX : TuckerRankLe X.shape ranks X)
    (self : Self (List (Tensor ℝ)) (Tensor ℝ) (Tensor ℝ)) :
    ∃ self', HOSVD.train (fun _ : Unit => tucker.HOSVD.run svd X ranks) (.ok ()) self = (self', .ok ()) ∧
      ∀ key idx, KeyOf X.shape key idx → barePredict self'.full key = .ok (X.at_ idx) := by
  obtain ⟨self', A, g, e1, -, -, e4⟩ := C179_hosvd svd hs X ranks h1 h13 hpos hr self
  refine ⟨self', e1, fun key idx hk => ?_⟩
  obtain ⟨v, v1, -, v3⟩ := e4 key idx hk
  have := v3 X hX
  have hz : distSqT X X = 0 := by
    unfold distSqT
    simp only [sub_self]
    exact (loss.boxSum_eq_zero X.shape fun i _ => by simp).2 fun i _ => by simp
  rw [hz, mul_zero, Real.sqrt_zero] at this
  rw [v1, sub_eq_zero.1 (abs_nonpos_iff.1 this)]

/-- The key `(-1, 0)` names the entry in the last row and the first column of a 2 × 3 matrix. -/
example : KeyOf [2, 3] [-1, 0] [1, 0] := by
  refine ⟨rfl, ?_⟩
  simp [Denotes]

/-- The hypotheses of C179 are met: `HOSVD` with ranks `[1, 1]` on the 2 × 3 matrix with entries `1 + i + j` can be trained
and asked for `predict(-1, 0)`. -/
example (svd : Tensor ℝ → Res (Tensor ℝ × Tensor ℝ × Tensor ℝ)) (hs : SvdOk svd)
    (self : Self (List (Tensor ℝ)) (Tensor ℝ) (Tensor ℝ)) :
    let X : Tensor ℝ := mat 2 3 fun i j => (i : ℝ) + j + 1
    ∃ self' v, HOSVD.train (fun _ : Unit => tucker.HOSVD.run svd X [1, 1]) (.ok ()) self = (self', .ok ()) ∧
      barePredict self'.full [-1, 0] = .ok v := by
  intro X
  obtain ⟨self', A, g, e1, -, -, e4⟩ := C179_hosvd svd hs X [1, 1] (by show 1 ≤ 2; omega) (by show 2 ≤ 13; omega)
    (by intro d hd; have : d ∈ [2, 3] := hd; simp at this; omega) (le_refl 2) self
  obtain ⟨v, hv, -⟩ := e4 [-1, 0] [1, 0] (by
    show KeyOf [2, 3] _ _
    exact ⟨rfl, by simp [Denotes]⟩)
  exact ⟨self', v, e1, hv⟩

end TD.Props
