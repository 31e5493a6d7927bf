import Verif.Lemmas.RotateTrain
import Verif.Props.Hooi

/-! # A training with separated singular values -/
namespace TD
open Spec Tensor ops Matrix fact
noncomputable section

/-- `diag(2, 1)`. -/
def diag21 : Tensor ℝ := mat 2 2 fun i j => if i = j then (if i = 0 then 2 else 1) else 0

theorem diag21_at (i j : Fin 2) : diag21.at_ [i, j] = (!![2, 0; 0, 1] : Mat 2 2) i j := by
  unfold diag21
  rw [at_mat _ i.isLt j.isLt]
  fin_cases i <;> fin_cases j <;> simp

theorem diag21_unfM {n : Nat} (hn : n < 2) : unfM diag21 n 2 2 = !![2, 0; 0, 1] := by
  ext i j
  change diag21.at_ (unkolda [2, 2] n i j) = _
  match n, hn with
  | 0, _ =>
      have : unkolda [2, 2] 0 i j = [(i : Nat), (j : Nat)] := by fin_cases i <;> fin_cases j <;> rfl
      rw [this]; exact diag21_at i j
  | 1, _ =>
      have : unkolda [2, 2] 1 i j = [(j : Nat), (i : Nat)] := by fin_cases i <;> fin_cases j <;> rfl
      rw [this, diag21_at]
      fin_cases i <;> fin_cases j <;> rfl

theorem diag21_svd : IsThinSVD (!![2, 0; 0, 1] : Mat 2 2) (1 : Mat 2 2) ![2, 1] (1 : Mat 2 2) := by
  refine ⟨by simp, by simp, ?_, ?_, ?_⟩
  · intro i; fin_cases i <;> simp
  · intro i j h
    fin_cases i <;> fin_cases j <;> simp at h ⊢
  · ext i j
    fin_cases i <;> fin_cases j <;> simp [Matrix.diagonal]

theorem diag21_separated {n : Nat} (hn : n < 2) {M : Tensor ℝ} (hM : unfold diag21 n = .ok M) :
    Separated (toMat M (diag21.shape.getD n 0) (otherSize diag21.shape n)) 1 := by
  have hd : diag21.shape.getD n 0 = 2 := by
    match n, hn with
    | 0, _ => rfl
    | 1, _ => rfl
  have ho : otherSize diag21.shape n = 2 := by
    match n, hn with
    | 0, _ => decide
    | 1, _ => decide
  have hu := unfold_closed diag21 (n := n) hn (by rw [hd]; norm_num)
  rw [hu] at hM
  cases hM
  rw [toMat_mat]
  change Separated (unfM diag21 n (diag21.shape.getD n 0) (otherSize diag21.shape n)) 1
  rw [hd, ho, diag21_unfM hn]
  refine Or.inr ⟨![2, 1], ⟨(1 : Mat 2 2), (1 : Mat 2 2), diag21_svd⟩, ?_, ?_⟩
  · intro i hi
    have hi : i = (0 : Fin 2) := Fin.ext (by simpa using hi)
    subst hi; norm_num
  · intro i j hi hj
    have hi : i = (0 : Fin 2) := Fin.ext (by simpa using hi)
    have hj : j = (1 : Fin 2) := Fin.ext (by have := j.isLt; simp at this ⊢; omega)
    subst hi hj; norm_num

/-- A column vector that is not zero has one singular value, which is positive. -/
theorem separated_col {m k : Nat} (hk : k = 1) {M : Mat m k} (h : M ≠ 0) : Separated M 1 := by
  subst hk
  obtain ⟨U, s, V, hs⟩ := exists_thinSvd M
  refine Or.inr ⟨s, ⟨U, V, hs⟩, fun i hi => ?_, fun i j hi hj => ?_⟩
  · refine lt_of_le_of_ne (hs.nonneg i) fun e => h ?_
    have : s = 0 := by
      funext j
      have : j = i := Fin.ext (by have := i.isLt; have := j.isLt; omega)
      rw [this, ← e]; rfl
    rw [hs.eq, this]
    ext a b
    simp
  · have := j.isLt; omega

theorem ortho_col {B : Tensor ℝ} (h : OrthoCols B 2 1) : B.at_ [0, 0] ^ 2 + B.at_ [1, 0] ^ 2 = 1 := by
  have := congrFun (congrFun h.2 0) 0
  rw [Matrix.mul_apply, Fin.sum_univ_two] at this
  simp only [transpose_apply, Matrix.one_apply_eq] at this
  change B.at_ [0, 0] * B.at_ [0, 0] + B.at_ [1, 0] * B.at_ [1, 0] = 1 at this
  nlinarith

def e0 : Tensor ℝ := mat 2 1 fun i _ => if i = 0 then 1 else 0

theorem e0_ortho : OrthoCols e0 2 1 := by
  refine ⟨rfl, ?_⟩
  ext i j
  rw [Matrix.mul_apply, Fin.sum_univ_two]
  have hi : i = 0 := Subsingleton.elim _ _
  have hj : j = 0 := Subsingleton.elim _ _
  subst hi hj
  change e0.at_ [0, 0] * e0.at_ [0, 0] + e0.at_ [1, 0] * e0.at_ [1, 0] = _
  unfold e0
  rw [at_mat _ (by norm_num) (by norm_num), at_mat _ (by norm_num) (by norm_num)]
  simp

/-- The squared norm of the core of two columns. -/
theorem diag21_coreSq {B C : Tensor ℝ} (hB : B.shape = [2, 1]) (hC : C.shape = [2, 1]) :
    coreSq diag21 [B, C] = (2 * B.at_ [0, 0] * C.at_ [0, 0] + B.at_ [1, 0] * C.at_ [1, 0]) ^ 2 := by
  have hT : TuckerShapes diag21.shape [1, 1] [B, C] := by
    refine ⟨rfl, fun k M hM => ?_⟩
    match k, hM with
    | 0, hM => cases hM; exact hB
    | 1, hM => cases hM; exact hC
  obtain ⟨g, Y, e1, -, hgs, -, hge, -⟩ := tucker_entries (X := diag21) (by decide) (by decide) hT.allMat hT.rowDims_eq
  unfold coreSq
  rw [e1]
  simp only
  have hgs : g.shape = [1, 1] := by rw [hgs]; unfold Spec.colDims; simp [hB, hC]
  unfold normSqT
  rw [hgs]
  have hg : g.at_ [0, 0] = 2 * B.at_ [0, 0] * C.at_ [0, 0] + B.at_ [1, 0] * C.at_ [1, 0] := by
    rw [hge [0, 0] (by rw [hgs]; decide)]
    change boxSum [2, 2] _ = _
    have h00 := diag21_at 0 0
    have h01 := diag21_at 0 1
    have h10 := diag21_at 1 0
    have h11 := diag21_at 1 1
    simp only [Fin.isValue, Fin.val_zero, Fin.val_one] at h00 h01 h10 h11
    simp only [boxSum, Finset.sum_range_succ, Finset.sum_range_zero, kronEntry, h00, h01, h10, h11]
    simp
    ring
  simp only [boxSum, Finset.sum_range_succ, Finset.sum_range_zero, hg, zero_add]

/-- Two unit vectors along the first axis, up to sign. -/
def Aligned (A : List (Tensor ℝ)) : Prop :=
  ∃ B C, A = [B, C] ∧ OrthoCols B 2 1 ∧ OrthoCols C 2 1 ∧ B.at_ [1, 0] = 0 ∧ C.at_ [1, 0] = 0

theorem Aligned.shapes {A : List (Tensor ℝ)} (h : Aligned A) : TuckerShapes diag21.shape [1, 1] A := by
  obtain ⟨B, C, rfl, hB, hC, -⟩ := h
  refine ⟨rfl, fun k M hM => ?_⟩
  match k, hM with
  | 0, hM => cases hM; exact hB.1
  | 1, hM => cases hM; exact hC.1

theorem leading_diag21 {svd : Tensor ℝ → Res (Tensor ℝ × Tensor ℝ × Tensor ℝ)} (hs : SvdOk svd) {n : Nat} (hn : n < 2) :
    ∃ B, tucker.leading svd diag21 [1, 1] n = .ok B ∧ OrthoCols B 2 1 ∧ B.at_ [1, 0] = 0 := by
  obtain ⟨B, U, s, V, h, b1, b2, b3, b4⟩ := leading_ok hs (X := diag21) (ranks := [1, 1]) (n := n) (m := 2) (J := 2) (r := 1) hn
    (by match n, hn with
      | 0, _ => rfl
      | 1, _ => rfl)
    (by match n, hn with
      | 0, _ => decide
      | 1, _ => decide) (by norm_num)
    (by match n, hn with
      | 0, _ => rfl
      | 1, _ => rfl)
  have ho : OrthoCols B 2 1 := ⟨b2, by
    change (toMat B 2 (min 1 (min 2 2)))ᵀ * toMat B 2 (min 1 (min 2 2)) = 1
    rw [b4]; exact cols_orth b3.orthU h⟩
  refine ⟨B, b1, ho, ?_⟩
  have hk := b3.kyFan h (Q := toMat e0 2 1) e0_ortho.2
  rw [← b4, diag21_unfM hn] at hk
  change frobSq ((toMat e0 2 1)ᵀ * (!![2, 0; 0, 1] : Mat 2 2)) ≤ frobSq ((toMat B 2 1)ᵀ * (!![2, 0; 0, 1] : Mat 2 2)) at hk
  have hf : ∀ T : Tensor ℝ, frobSq ((toMat T 2 1)ᵀ * (!![2, 0; 0, 1] : Mat 2 2)) = 4 * T.at_ [0, 0] ^ 2 + T.at_ [1, 0] ^ 2 := by
    intro T
    unfold frobSq
    simp only [Finset.univ_unique, Finset.sum_singleton, Fin.sum_univ_two, Matrix.mul_apply, transpose_apply]
    change ((T.at_ [0, 0] * 2 + T.at_ [1, 0] * 0) ^ 2 + (T.at_ [0, 0] * 0 + T.at_ [1, 0] * 1) ^ 2) = _
    ring
  rw [hf, hf] at hk
  have h0 : e0.at_ [0, 0] = 1 ∧ e0.at_ [1, 0] = 0 := by
    unfold e0
    rw [at_mat _ (by norm_num) (by norm_num), at_mat _ (by norm_num) (by norm_num)]
    simp
  rw [h0.1, h0.2] at hk
  have := ortho_col ho
  nlinarith [sq_nonneg (B.at_ [1, 0])]

theorem visits_diag21 {svd : Tensor ℝ → Res (Tensor ℝ × Tensor ℝ × Tensor ℝ)} (hs : SvdOk svd) {A : List (Tensor ℝ)} {n : Nat}
    (h : Visits svd diag21 [1, 1] A n) : Aligned A := by
  induction h with
  | start h =>
      obtain ⟨B, b1, b2, b3⟩ := leading_diag21 hs (n := 0) (by norm_num)
      obtain ⟨C, c1, c2, c3⟩ := leading_diag21 hs (n := 1) (by norm_num)
      have : tucker.HOOI.init svd diag21 [1, 1] = .ok [B, C] := by
        have key : ∀ n D, tucker.leading svd diag21 [1, 1] n = .ok D → D.shape = [2, 1] → n < 2 → (do
            let v ← tucker.leading svd diag21 [1, 1] n
            let r ← tucker.rankAt [1, 1] n
            if v.shape = [diag21.shape.getD n 0, r] then .ok v else .error .invalidArgument : Res (Tensor ℝ)) = .ok D := by
          intro n D hD hsh hn
          rw [hD, ok_bind]
          match n, hn with
          | 0, _ => exact if_pos hsh
          | 1, _ => exact if_pos hsh
        unfold tucker.HOOI.init
        change [0, 1].mapM _ = _
        rw [List.mapM_cons, key 0 B b1 b2.1 (by norm_num), ok_bind, List.mapM_cons, key 1 C c1 c2.1 (by norm_num), ok_bind]
        rfl
      rw [this] at h
      cases h
      exact ⟨B, C, rfl, b2, c2, b3, c3⟩
  | @next A A' n hv hn hu ih =>
      have hT := ih.shapes
      obtain ⟨B, C, rfl, hB, hC, hb, hc⟩ := ih
      have h0 : e0.at_ [0, 0] = 1 ∧ e0.at_ [1, 0] = 0 := by
        unfold e0
        rw [at_mat _ (by norm_num) (by norm_num), at_mat _ (by norm_num) (by norm_num)]
        simp
      have q1 := ortho_col hB
      have q2 := ortho_col hC
      rw [hb] at q1
      rw [hc] at q2
      obtain ⟨D, d1, d2, d3⟩ := (hooi_update hs (X := diag21) (by decide) (by decide) (by decide) (by decide) hT hn).1 (by
        match n, hn with
        | 0, _ => decide
        | 1, _ => decide)
      rw [hu] at d1
      cases d1
      match n, hn with
      | 0, _ =>
          have d2 : OrthoCols D 2 1 := d2
          have := d3 e0 e0_ortho
          change coreSq diag21 [e0, C] ≤ coreSq diag21 [D, C] at this
          rw [diag21_coreSq e0_ortho.1 hC.1, diag21_coreSq d2.1 hC.1, h0.1, h0.2, hc] at this
          have q3 := ortho_col d2
          refine ⟨D, C, rfl, d2, hC, ?_, hc⟩
          nlinarith [sq_nonneg (D.at_ [1, 0]), sq_nonneg (C.at_ [0, 0])]
      | 1, _ =>
          have d2 : OrthoCols D 2 1 := d2
          have := d3 e0 e0_ortho
          change coreSq diag21 [B, e0] ≤ coreSq diag21 [B, D] at this
          rw [diag21_coreSq hB.1 e0_ortho.1, diag21_coreSq hB.1 d2.1, h0.1, h0.2, hb] at this
          have q3 := ortho_col d2
          refine ⟨B, D, rfl, hB, d2, hb, ?_⟩
          nlinarith [sq_nonneg (D.at_ [1, 0]), sq_nonneg (B.at_ [0, 0])]
  | again _ ih => exact ih

/-- All updates of `HOOI` on `diag(2, 1)` with ranks one are determined. -/
theorem diag21_training {svd : Tensor ℝ → Res (Tensor ℝ × Tensor ℝ × Tensor ℝ)} (hs : SvdOk svd) :
    SeparatedTraining svd diag21 [1, 1] := by
  refine ⟨fun n hn M hM => ?_, fun A n hv hn Y M hY hM => ?_⟩
  · have : [1, 1].getD n 0 = 1 := by
      match n, hn with
      | 0, _ => rfl
      | 1, _ => rfl
    rw [this]
    exact diag21_separated hn hM
  · have hr : [1, 1].getD n 0 = 1 := by
      match n, hn with
      | 0, _ => rfl
      | 1, _ => rfl
    have hal := visits_diag21 hs hv
    have hT := hal.shapes
    obtain ⟨B, C, rfl, hB, hC, hb, hc⟩ := hal
    obtain ⟨Y', hY', hYe⟩ := hooi_Y (X := diag21) (by decide) (by decide) hT hn
    rw [hY] at hY'
    cases hY'
    obtain ⟨y1, y2, y3⟩ := hooi_Y_shape hT (n := n)
    rw [← hYe] at y1 y2 y3
    have hd : diag21.shape.getD n 0 = 2 := by
      match n, hn with
      | 0, _ => rfl
      | 1, _ => rfl
    have ho : ∏ m ∈ (Finset.range diag21.order).erase n, [1, 1].getD m 0 = 1 := by
      match n, hn with
      | 0, _ => decide
      | 1, _ => decide
    have hu := unfold_closed Y (n := n) (by rw [y1]; exact hn) (by rw [y2, hd]; norm_num)
    rw [hu] at hM
    cases hM
    rw [toMat_mat, hr]
    refine separated_col (by rw [y3, ho]) ?_
    change unfM Y n (Y.shape.getD n 0) (otherSize Y.shape n) ≠ 0
    intro hz
    have hget : [B, C][n]? = some ([B, C].getD n B) := by
      match n, hn with
      | 0, _ => rfl
      | 1, _ => rfl
    have hcore := coreSq_eq (X := diag21) (by decide) (by decide) hT hn hget y2.symm rfl y3.symm
    rw [← hYe, hz, diag21_coreSq hB.1 hC.1, hb, hc] at hcore
    have q1 := ortho_col hB
    have q2 := ortho_col hC
    rw [hb] at q1
    rw [hc] at q2
    have : frobSq ((toMat ([B, C].getD n B) (Y.shape.getD n 0) ([1, 1].getD n 0))ᵀ *
        (0 : Mat (Y.shape.getD n 0) (otherSize Y.shape n))) = 0 := by
      rw [Matrix.mul_zero]
      unfold frobSq
      simp
    rw [this] at hcore
    nlinarith

/-! ### Equal singular values -/

open Classical in
/-- A routine that answers `U` on the identity. -/
def svdWith (U : Tensor ℝ) (base : Tensor ℝ → Res (Tensor ℝ × Tensor ℝ × Tensor ℝ)) (M : Tensor ℝ) :
    Res (Tensor ℝ × Tensor ℝ × Tensor ℝ) :=
  if M = eyeT 2 then .ok (ofFn [2] fun _ => 1, U, U) else base M

theorem svdWith_ok {U : Tensor ℝ} (hU : OrthoCols U 2 2) {base : Tensor ℝ → Res (Tensor ℝ × Tensor ℝ × Tensor ℝ)}
    (hb : SvdOk base) : SvdOk (svdWith U base) := by
  intro M m n hM
  unfold svdWith
  by_cases e : M = eyeT 2
  · rw [if_pos e]
    subst e
    have hM : [2, 2] = [m, n] := hM
    simp only [List.cons.injEq, and_true] at hM
    obtain ⟨rfl, rfl⟩ := hM
    refine ⟨_, U, U, rfl, rfl, hU.1, hU.1, hU.2, hU.2, ?_, ?_, ?_⟩
    · intro i
      rw [at_ofFn _ (by rw [InB_cons]; exact ⟨i.isLt, (InB_nil _).2 rfl⟩)]
      norm_num
    · intro i j _
      rw [at_ofFn _ (by rw [InB_cons]; exact ⟨j.isLt, (InB_nil _).2 rfl⟩),
        at_ofFn _ (by rw [InB_cons]; exact ⟨i.isLt, (InB_nil _).2 rfl⟩)]
    · have hd : (fun i : Fin (min 2 2) => (ofFn [2] fun _ => (1 : ℝ)).at_ [(i : Nat)]) = fun _ => 1 := by
        funext i
        rw [at_ofFn _ (by rw [InB_cons]; exact ⟨i.isLt, (InB_nil _).2 rfl⟩)]
      rw [toMat_eyeT, hd, Matrix.diagonal_one, Matrix.mul_one]
      exact (mul_eq_one_comm.1 hU.2).symm
  · rw [if_neg e]
    exact hb M m n hM

theorem unfold_eyeT {n : Nat} (hn : n < 2) : unfold (eyeT 2) n = .ok (eyeT 2) := by
  have hd : (eyeT 2).shape.getD n 0 = 2 := by
    match n, hn with
    | 0, _ => rfl
    | 1, _ => rfl
  have ho : otherSize (eyeT 2).shape n = 2 := by
    match n, hn with
    | 0, _ => decide
    | 1, _ => decide
  rw [unfold_closed (eyeT 2) hn (by rw [hd]; norm_num), hd, ho]
  congr 1
  refine ext_mat rfl rfl fun i hi j hj => ?_
  rw [at_mat _ hi hj]
  have he : (eyeT 2).at_ [i, j] = (eyeT 2).at_ [j, i] := by
    unfold eyeT
    rw [at_mat _ hi hj, at_mat _ hj hi]
    by_cases h : i = j
    · simp [h]
    · simp [h, Ne.symm h]
  change (eyeT 2).at_ (unkolda [2, 2] n i j) = _
  match n, hn with
  | 0, _ =>
      have : unkolda [2, 2] 0 i j = [i, j] := by
        interval_cases i <;> interval_cases j <;> rfl
      rw [this]
  | 1, _ =>
      have : unkolda [2, 2] 1 i j = [j, i] := by
        interval_cases i <;> interval_cases j <;> rfl
      rw [this, he]

/-- With equal singular values the result is whatever vector the routine puts first. -/
theorem hosvd_ties {U : Tensor ℝ} (hU : OrthoCols U 2 2) {base : Tensor ℝ → Res (Tensor ℝ × Tensor ℝ × Tensor ℝ)}
    (hb : SvdOk base) : ∃ A g full, tucker.HOSVD.run (svdWith U base) (eyeT 2) [1, 1] = .ok (A, g, full) ∧
      full.at_ [0, 0] = U.at_ [0, 0] ^ 2 := by
  set C : Tensor ℝ := mat 2 1 fun i j => U.at_ [i, j] with hC
  have hlead : ∀ n < 2, tucker.leading (svdWith U base) (eyeT 2) [1, 1] n = .ok C := by
    intro n hn
    unfold tucker.leading
    rw [unfold_eyeT hn, ok_bind]
    unfold svdWith
    rw [if_pos rfl]
    have hr : tucker.rankAt [1, 1] n = .ok 1 := by
      match n, hn with
      | 0, _ => rfl
      | 1, _ => rfl
    simp only [ok_bind, hr, tucker.firstCols, hU.1]
    rfl
  obtain ⟨A, g, Y, e1, -, -, -, -, -⟩ := hosvd_ok (svdWith_ok hU hb) (X := eyeT 2) (ranks := [1, 1]) (by decide) (by decide)
    (by decide) (by decide)
  have hA : A = [C, C] := by
    unfold tucker.HOSVD.run at e1
    have hm : ((List.range (eyeT 2).order).mapM fun n => tucker.leading (svdWith U base) (eyeT 2) [1, 1] n) = .ok [C, C] := by
      change [0, 1].mapM _ = _
      rw [List.mapM_cons, hlead 0 (by norm_num), ok_bind, List.mapM_cons, hlead 1 (by norm_num), ok_bind]
      rfl
    rw [hm, ok_bind] at e1
    cases h1 : ttm (eyeT 2) [C, C] none true with
    | error e => rw [h1] at e1; cases e1
    | ok g1 =>
        rw [h1, ok_bind] at e1
        cases h2 : tucker.fullOf g1 [C, C] with
        | error e => rw [h2] at e1; cases e1
        | ok Y1 => rw [h2] at e1; cases e1; rfl
  subst hA
  refine ⟨_, g, Y, e1, ?_⟩
  obtain ⟨f1, f2⟩ := Props.C76_hosvd_entries (svdWith U base) (svdWith_ok hU hb) (eyeT 2) [1, 1] (by decide) (by decide)
    (by decide) (by decide) _ _ _ e1
  obtain ⟨A', g', Y', e1', -, -, hgs, hYs, -⟩ := Props.C57_hosvd (svdWith U base) (svdWith_ok hU hb) (eyeT 2) [1, 1] (by decide)
    (by decide) (by decide) (by decide)
  rw [e1] at e1'
  cases e1'
  have hgs : g.shape = [1, 1] := hgs
  have h0 : C.at_ [0, 0] = U.at_ [0, 0] := by rw [hC, at_mat _ (by norm_num) (by norm_num)]
  have h1 : C.at_ [1, 0] = U.at_ [1, 0] := by rw [hC, at_mat _ (by norm_num) (by norm_num)]
  have hg : g.at_ [0, 0] = 1 := by
    have i00 : (eyeT 2).at_ [0, 0] = 1 := by unfold eyeT; rw [at_mat _ (by norm_num) (by norm_num)]; simp
    have i01 : (eyeT 2).at_ [0, 1] = 0 := by unfold eyeT; rw [at_mat _ (by norm_num) (by norm_num)]; simp
    have i10 : (eyeT 2).at_ [1, 0] = 0 := by unfold eyeT; rw [at_mat _ (by norm_num) (by norm_num)]; simp
    have i11 : (eyeT 2).at_ [1, 1] = 1 := by unfold eyeT; rw [at_mat _ (by norm_num) (by norm_num)]; simp
    rw [f1 [0, 0] (by rw [hgs]; decide)]
    change boxSum [2, 2] _ = _
    simp only [boxSum, Finset.sum_range_succ, Finset.sum_range_zero, kronEntry, i00, i01, i10, i11, h0, h1]
    have := congrFun (congrFun hU.2 0) 0
    rw [Matrix.mul_apply, Fin.sum_univ_two] at this
    change U.at_ [0, 0] * U.at_ [0, 0] + U.at_ [1, 0] * U.at_ [1, 0] = 1 at this
    linarith
  rw [f2 [0, 0] (by decide), hgs]
  simp only [boxSum, Finset.sum_range_succ, Finset.sum_range_zero, kronEntry, hg, h0]
  ring

end
end TD
