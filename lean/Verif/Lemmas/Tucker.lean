import Verif.Lemmas.ThinSvd
import Verif.Lemmas.Cp
import Verif.Props.Tucker
import Verif.Model.Tucker

/-! # Tucker decompositions -/
namespace TD
open Spec Tensor tf ops Matrix

/-- The mode-`n` unfolding as an `m × J` matrix. -/
noncomputable def unfM (X : Tensor ℝ) (n m J : Nat) : Mat m J :=
  Matrix.of fun (i : Fin m) (j : Fin J) => X.at_ (unkolda X.shape n i j)

theorem otherSize_set (s : List Nat) (n d : Nat) : otherSize (s.set n d) n = otherSize s n := by
  rw [otherSize_eq_prod, otherSize_eq_prod, List.eraseIdx_set_eq]

theorem unkolda_set (s : List Nat) (n d i j : Nat) : unkolda (s.set n d) n i j = unkolda s n i j := by
  unfold unkolda
  rw [List.eraseIdx_set_eq]

theorem unkolda_set_self {s : List Nat} {n : Nat} (hn : n < s.length) (i j k : Nat) :
    (unkolda s n i j).set n k = unkolda s n k j := by
  obtain ⟨h1, h2, h3⟩ := unkolda_facts hn i j
  obtain ⟨g1, g2, g3⟩ := unkolda_facts hn k j
  refine List.ext_getElem (by simp [h1, g1]) fun p hp hp' => ?_
  rw [List.length_set] at hp
  by_cases e : n = p
  · subst e
    rw [List.getElem_set_self, ← List.getD_eq_getElem _ 0 hp', g2]
  · rw [List.getElem_set_ne e]
    have h4 : (unkolda s n i j).eraseIdx n = (unkolda s n k j).eraseIdx n := by rw [h3, g3]
    rcases Nat.lt_or_gt_of_ne e with hlt | hgt
    · have := congrArg (fun l => l[p - 1]?) h4
      simp only [List.getElem?_eraseIdx] at this
      rw [if_neg (by omega), if_neg (by omega), show p - 1 + 1 = p by omega, List.getElem?_eq_getElem hp,
        List.getElem?_eq_getElem hp'] at this
      exact Option.some.inj this
    · have := congrArg (fun l => l[p]?) h4
      simp only [List.getElem?_eraseIdx] at this
      rw [if_pos hgt, if_pos hgt, List.getElem?_eq_getElem hp, List.getElem?_eq_getElem hp'] at this
      exact Option.some.inj this

theorem normSqT_unfM (X : Tensor ℝ) {n m J : Nat} (hn : n < X.order) (hm : X.shape.getD n 0 = m)
    (hJ : otherSize X.shape n = J) : normSqT X = frobSq (unfM X n m J) := by
  subst hm hJ
  exact boxSum_sq_unfold hn X.at_

theorem distSqT_unfM {X Y : Tensor ℝ} {n m J : Nat} (hs : Y.shape = X.shape) (hn : n < X.order)
    (hm : X.shape.getD n 0 = m) (hJ : otherSize X.shape n = J) :
    distSqT X Y = frobSq (unfM X n m J - unfM Y n m J) := by
  subst hm hJ
  rw [distSqT, boxSum_sq_unfold hn (fun i => X.at_ i - Y.at_ i)]
  unfold unfM
  rw [hs]
  rfl

/-- A mode product multiplies the unfolding from the left. -/
theorem unfM_modeProd {X A : Tensor ℝ} {n m k J : Nat} (hn : n < X.order) (hA : A.shape = [m, k])
    (hk : X.shape.getD n 0 = k) (hJ : otherSize X.shape n = J) :
    unfM (modeProd X n A) n m J = toMat A m k * unfM X n k J := by
  subst hk hJ
  have hsh : (modeProd X n A).shape = X.shape.set n m := by
    change X.shape.set n (A.shape.getD 0 0) = _
    rw [hA]; rfl
  ext i j
  rw [Matrix.mul_apply]
  unfold unfM
  rw [of_apply, hsh, unkolda_set]
  have hin : InB (X.shape.set n m) (unkolda X.shape n i j) := by
    rw [← unkolda_set X.shape n m]
    refine (unkolda_spec (by rw [List.length_set]; exact hn) ?_ (by rw [otherSize_set]; exact j.isLt)).1
    rw [List.getD_eq_getElem _ _ (by rw [List.length_set]; exact hn), List.getElem_set_self]
    exact i.isLt
  rw [modeProd_at (by rw [hsh]; exact hin), (unkolda_facts hn i j).2.1, Finset.sum_range]
  refine Finset.sum_congr rfl fun l _ => ?_
  rw [unkolda_set_self hn]
  rfl

theorem modeProd_shape {X A : Tensor ℝ} {n m k : Nat} (hA : A.shape = [m, k]) :
    (modeProd X n A).shape = X.shape.set n m := by
  change X.shape.set n (A.shape.getD 0 0) = _
  rw [hA]; rfl

theorem set_getD_self (s : List Nat) (n : Nat) : s.set n (s.getD n 0) = s := by
  by_cases h : n < s.length
  · rw [List.getD_eq_getElem _ _ h, List.set_getElem_self]
  · rw [List.set_eq_of_length_le (by omega)]

/-! ### Products of projections -/

/-- `P` is an orthogonal projection `Q Qᵀ` along mode `n` of a tensor of the given shape. -/
def IsProj (shape : List Nat) (p : Nat × Tensor ℝ) : Prop :=
  p.1 < shape.length ∧ p.2.shape = [shape.getD p.1 0, shape.getD p.1 0] ∧
    ∃ r, ∃ Q : Mat (shape.getD p.1 0) r, Qᵀ * Q = 1 ∧ toMat p.2 (shape.getD p.1 0) (shape.getD p.1 0) = Q * Qᵀ

theorem modeProds_proj_shape {X : Tensor ℝ} {ps : List (Nat × Tensor ℝ)} (h : ∀ p ∈ ps, IsProj X.shape p) :
    (modeProds X ps).shape = X.shape := by
  induction ps using List.reverseRecOn with
  | nil => rfl
  | append_singleton ps p ih =>
      have ih := ih fun q hq => h q (by simp [hq])
      have hp := h p (by simp)
      rw [modeProds_append]
      change (modeProd (modeProds X ps) p.1 p.2).shape = _
      rw [modeProd_shape hp.2.1, ih, set_getD_self]

/-- Projecting along several modes costs at most the sum of the single errors. -/
theorem distSqT_projs {X : Tensor ℝ} {ps : List (Nat × Tensor ℝ)} (h : ∀ p ∈ ps, IsProj X.shape p) :
    distSqT X (modeProds X ps) ≤ (ps.map fun p => distSqT X (modeProd X p.1 p.2)).sum := by
  induction ps using List.reverseRecOn with
  | nil =>
      simp only [modeProds, List.foldl_nil, distSqT, sub_self, List.map_nil, List.sum_nil]
      rw [boxSum_congr (g := fun _ => (0 : ℝ)) (fun i _ => by norm_num), boxSum_zero]
  | append_singleton ps p ih =>
      have ih := ih fun q hq => h q (by simp [hq])
      obtain ⟨hn, hs, r, Q, hQ, hP⟩ := h p (by simp)
      have hZ := modeProds_proj_shape (X := X) (ps := ps) fun q hq => h q (by simp [hq])
      rw [List.map_append, List.sum_append, modeProds_append, List.map_singleton, List.sum_singleton]
      change distSqT X (modeProd (modeProds X ps) p.1 p.2) ≤ _
      set Z := modeProds X ps with hZd
      have hZn : p.1 < Z.order := by unfold order; rw [hZ]; exact hn
      rw [distSqT_unfM (n := p.1) (by rw [modeProd_shape hs, hZ, set_getD_self]) hn rfl rfl,
        unfM_modeProd hZn hs (by rw [hZ]) (by rw [hZ]), hP, frobSq_proj hQ,
        distSqT_unfM (Y := modeProd X p.1 p.2) (n := p.1) (by rw [modeProd_shape hs, set_getD_self]) hn rfl rfl,
        unfM_modeProd hn hs rfl rfl, hP, add_comm]
      refine add_le_add ?_ (le_refl _)
      refine le_trans (frobSq_tmul_le hQ _) ?_
      rw [← distSqT_unfM hZ hn rfl rfl]
      exact ih

/-! ### Orthonormal factors -/

theorem Spec.OrthoFactors.allMat {shape : List Nat} {U : List (Tensor ℝ)} (h : OrthoFactors shape U) : AllMat U := by
  intro M hM
  obtain ⟨k, hk⟩ := List.mem_iff_getElem?.1 hM
  rw [(h.2 k M hk).1]; rfl

theorem Spec.OrthoFactors.rowDims {shape : List Nat} {U : List (Tensor ℝ)} (h : OrthoFactors shape U) :
    rowDims U = shape := by
  refine List.ext_getElem (by simpa using h.1) fun k hk hk' => ?_
  have hk'' : k < U.length := by rw [h.1]; exact hk'
  have := (h.2 k U[k] (List.getElem?_eq_getElem hk'')).1
  simp only [Spec.rowDims, List.getElem_map]
  rw [this]
  rw [← List.getD_eq_getElem _ 0 hk']; rfl

theorem kron_gram {U : List (Tensor ℝ)} : ∀ {shape : List Nat}, OrthoFactors shape U → ∀ j j', InB (colDims U) j →
    InB (colDims U) j' →
    boxSum shape (fun i => kronEntry U i j * kronEntry U i j') = if j = j' then 1 else 0 := by
  induction U with
  | nil =>
      intro shape h j j' hj hj'
      have : shape = [] := List.length_eq_zero_iff.1 h.1.symm
      subst this
      have e1 : j = [] := by simpa [colDims] using hj.length
      have e2 : j' = [] := by simpa [colDims] using hj'.length
      subst e1 e2
      simp [boxSum, kronEntry]
  | cons M U ih =>
      intro shape h j j' hj hj'
      cases shape with
      | nil => exact absurd h.1 (by simp)
      | cons d shape =>
          have hU : OrthoFactors shape U := ⟨by simpa using h.1, fun k N hk => h.2 (k + 1) N (by simpa using hk)⟩
          have hM : OrthoCols M d (M.shape.getD 1 0) := h.2 0 M rfl
          cases j with
          | nil => exact absurd hj.length (by simp [colDims])
          | cons a j =>
              cases j' with
              | nil => exact absurd hj'.length (by simp [colDims])
              | cons a' j' =>
                  have hj2 : InB (M.shape.getD 1 0 :: colDims U) (a :: j) := hj
                  have hj2' : InB (M.shape.getD 1 0 :: colDims U) (a' :: j') := hj'
                  rw [InB_cons] at hj2 hj2'
                  have hg := congrFun (congrFun hM.2 ⟨a, hj2.1⟩) ⟨a', hj2'.1⟩
                  rw [Matrix.mul_apply, Matrix.one_apply] at hg
                  have hsum : ∑ l ∈ Finset.range d, M.at_ [l, a] * M.at_ [l, a'] = if a = a' then 1 else 0 := by
                    rw [Finset.sum_range]
                    refine Eq.trans ?_ (hg.trans (by simp [Fin.ext_iff]))
                    rfl
                  rw [boxSum]
                  have : ∀ l, boxSum shape (fun i => kronEntry (M :: U) (l :: i) (a :: j) *
                      kronEntry (M :: U) (l :: i) (a' :: j')) =
                      M.at_ [l, a] * M.at_ [l, a'] * if j = j' then 1 else 0 := by
                    intro l
                    rw [← ih hU j j' hj2.2 hj2'.2, ← boxSum_mul_left]
                    refine boxSum_congr fun i _ => ?_
                    simp only [kronEntry]; ring
                  simp only [this]
                  rw [← Finset.sum_mul, hsum]
                  by_cases e1 : a = a' <;> by_cases e2 : j = j' <;> simp [e1, e2]

theorem boxSum_swap (s t : List Nat) (f : List Nat → List Nat → ℝ) :
    boxSum s (fun i => boxSum t fun j => f i j) = boxSum t fun j => boxSum s fun i => f i j := by
  induction s generalizing f with
  | nil => rfl
  | cons d s ih =>
      simp only [boxSum, ih]
      rw [boxSum_comm]

theorem boxSum_single {s : List Nat} {j : List Nat} (hj : InB s j) (c : ℝ) :
    boxSum s (fun i => if i = j then c else 0) = c := by
  induction s generalizing j with
  | nil =>
      have : j = [] := by simpa using hj.length
      subst this
      simp [boxSum]
  | cons d s ih =>
      cases j with
      | nil => exact absurd hj.length (by simp)
      | cons a j =>
          rw [InB_cons] at hj
          rw [boxSum, Finset.sum_eq_single a]
          · rw [boxSum_congr (g := fun i => if i = j then c else 0) (fun i _ => by simp), ih hj.2]
          · intro b _ hb
            rw [boxSum_congr (g := fun _ => (0 : ℝ)) (fun i _ => by simp [hb]), boxSum_zero]
          · intro h; exact absurd (Finset.mem_range.2 hj.1) h

theorem kronEntry_matT {U : List (Tensor ℝ)} (hm : AllMat U) : ∀ {i j : List Nat}, InB (rowDims U) i →
    InB (colDims U) j → kronEntry (U.map matT) j i = kronEntry U i j := by
  induction U with
  | nil => intro i j _ _; cases i <;> cases j <;> rfl
  | cons M U ih =>
      intro i j hi hj
      cases i with
      | nil => exact absurd hi.length (by simp [rowDims])
      | cons a i =>
          cases j with
          | nil => exact absurd hj.length (by simp [colDims])
          | cons b j =>
              have hi2 : InB (M.shape.getD 0 0 :: rowDims U) (a :: i) := hi
              have hj2 : InB (M.shape.getD 1 0 :: colDims U) (b :: j) := hj
              rw [InB_cons] at hi2 hj2
              simp only [List.map_cons, kronEntry]
              rw [ih (fun N hN => hm N (by simp [hN])) hi2.2 hj2.2, matT, at_mat _ hj2.1 hi2.1]

/-- Core and reconstruction of a Tucker model with factors `U`, entry by entry. -/
theorem tucker_entries {X : Tensor ℝ} {U : List (Tensor ℝ)} (hne : X.shape ≠ []) (h13 : X.order ≤ 13)
    (hm : AllMat U) (hr : rowDims U = X.shape) :
    ∃ g Y, ttm X U none true = .ok g ∧ tucker.fullOf g U = .ok Y ∧ g.shape = colDims U ∧ Y.shape = X.shape ∧
      (∀ j, InB g.shape j → g.at_ j = boxSum X.shape fun i => kronEntry U i j * X.at_ i) ∧
      (∀ i, InB X.shape i → Y.at_ i = boxSum g.shape fun j => g.at_ j * kronEntry U i j) := by
  have hlen : U.length = X.order := by
    have := congrArg List.length hr
    rw [rowDims, List.length_map] at this
    exact this
  have hUne : U ≠ [] := by
    intro e; rw [e] at hr; exact hne hr.symm
  have hcT : X.shape = colDims (U.map matT) := by
    rw [← hr]; unfold rowDims colDims
    rw [List.map_map]; rfl
  have hrT : rowDims (U.map matT) = colDims U := by
    unfold rowDims colDims
    rw [List.map_map]; rfl
  have hg := Props.C10_ttm_default_axis X U true h13 hUne (by omega) (by
    refine ⟨by simp, fun p hp => ?_⟩
    obtain ⟨k, hk, rfl⟩ := List.getElem_of_mem hp
    have hk' : k < U.length := by simpa using hk
    simp only [List.getElem_zip, List.getElem_range, if_true]
    refine ⟨U[k].shape.getD 1 0, ?_⟩
    have h1 := hm.shape_eq (M := U[k]) (by simp)
    have h2 : X.shape.getD k 0 = U[k].shape.getD 0 0 := by
      rw [← hr, rowDims, List.getD_eq_getElem _ _ (by simpa using hk')]
      simp
    rw [h2]; exact h1)
  obtain ⟨a1, a2⟩ := modeProds_all X (U.map matT) hcT
  rw [List.length_map] at a1 a2
  rw [if_pos rfl] at hg
  obtain ⟨t, Y, ht, hY, hYs, hYe⟩ := Props.C27_extract_entry
    (modeProds X ((List.range U.length).zip (U.map matT))) .float32 U hUne (by omega) hm (by rw [a1, hrT])
  refine ⟨_, Y, hg, ?_, by rw [a1, hrT], by rw [hYs, hr], fun j hj => ?_, fun i hi => hYe i (by rw [hr]; exact hi)⟩
  · unfold tucker.fullOf
    rw [ht]; exact hY
  · rw [a1] at hj
    rw [a2 j hj]
    refine boxSum_congr fun i hi => ?_
    rw [kronEntry_matT hm (by rw [hr]; exact hi) (by rw [← hrT]; exact hj)]

/-- What the core misses is the residual. -/
theorem tucker_residual {X g Y : Tensor ℝ} {U : List (Tensor ℝ)} (hne : X.shape ≠ []) (h13 : X.order ≤ 13)
    (ho : OrthoFactors X.shape U) (hg : ttm X U none true = .ok g) (hY : tucker.fullOf g U = .ok Y) :
    Y.shape = X.shape ∧ distSqT X Y = normSqT X - normSqT g := by
  obtain ⟨g', Y', e1, e2, hgs, hYs, hge, hYe⟩ := tucker_entries hne h13 ho.allMat ho.rowDims
  rw [hg] at e1; cases e1
  rw [hY] at e2; cases e2
  refine ⟨hYs, ?_⟩
  have hin : boxSum X.shape (fun i => X.at_ i * Y.at_ i) = normSqT g := by
    rw [boxSum_congr (g := fun i => boxSum g.shape fun j => g.at_ j * (kronEntry U i j * X.at_ i)) (fun i hi => by
      rw [hYe i hi, ← boxSum_mul_left]; exact boxSum_congr fun j _ => by ring), boxSum_swap]
    refine boxSum_congr fun j hj => ?_
    rw [boxSum_mul_left, ← hge j hj]; ring
  have hYY : boxSum X.shape (fun i => Y.at_ i ^ 2) = normSqT g := by
    rw [boxSum_congr (g := fun i => boxSum g.shape fun j => boxSum g.shape fun j' => g.at_ j * g.at_ j' *
      (kronEntry U i j * kronEntry U i j')) (fun i hi => by
        rw [sq]
        conv_lhs => rw [hYe i hi]
        rw [mul_comm, ← boxSum_mul_left]
        refine boxSum_congr fun j _ => ?_
        rw [mul_comm, ← boxSum_mul_left]
        refine boxSum_congr fun j' _ => ?_
        ring), boxSum_swap]
    refine boxSum_congr fun j hj => ?_
    rw [boxSum_swap, boxSum_congr (g := fun j' => g.at_ j * g.at_ j' * if j = j' then 1 else 0) (fun j' hj' => by
      rw [boxSum_mul_left, kron_gram ho j j' (by rw [← hgs]; exact hj) (by rw [← hgs]; exact hj')])]
    rw [boxSum_congr (g := fun j' => if j' = j then g.at_ j ^ 2 else 0) (fun j' _ => by
      by_cases e : j = j'
      · subst e; simp [sq]
      · rw [if_neg e, if_neg (Ne.symm e), mul_zero])]
    exact boxSum_single hj _
  have e : distSqT X Y = normSqT X + (boxSum X.shape (fun i => -2 * (X.at_ i * Y.at_ i)) +
      boxSum X.shape fun i => Y.at_ i ^ 2) := by
    rw [normSqT, ← boxSum_add, ← boxSum_add]
    exact boxSum_congr fun i _ => by ring
  rw [e, boxSum_mul_left, hin, hYY]
  ring

end TD
