import Verif.Lemmas.AlsOneMove
import Verif.Lemmas.Stages

/-! # CP_ALS: how far a step moves the reconstruction -/
namespace TD
open Spec Tensor tf ops Filter Topology

/-- Entry `i` of the tensor with factors `A` and weights `w`. -/
noncomputable def cpRec (R : Nat) (A : List (Tensor ℝ)) (w : Nat → ℝ) (i : List Nat) : ℝ :=
  ∑ r ∈ Finset.range R, w r * khatriEntry r A i

theorem cpErr_rec (X : Tensor ℝ) (R : Nat) (A : List (Tensor ℝ)) (w : Nat → ℝ) :
    cpErr X R A w = boxSum X.shape fun i => (X.at_ i - cpRec R A w i) ^ 2 := rfl

/-- If no point of a line is closer to `x` than `y`, moving along the line costs what Pythagoras says. -/
theorem line_min {s : List Nat} {x y d : List Nat → ℝ}
    (h : ∀ t : ℝ, boxSum s (fun i => (x i - y i) ^ 2) ≤ boxSum s fun i => (x i - (y i + t * d i)) ^ 2) :
    boxSum s (fun i => d i ^ 2) = boxSum s (fun i => (x i - (y i + d i)) ^ 2) - boxSum s fun i => (x i - y i) ^ 2 := by
  simp only [boxSum_eq_sum_range] at h ⊢
  set m := Finset.range s.prod
  set u := unravel s
  have e : ∀ t : ℝ, ∑ k ∈ m, (x (u k) - (y (u k) + t * d (u k))) ^ 2 =
      ∑ k ∈ m, (x (u k) - y (u k)) ^ 2 - 2 * t * ∑ k ∈ m, (x (u k) - y (u k)) * d (u k) + t ^ 2 * ∑ k ∈ m, d (u k) ^ 2 := by
    intro t
    rw [Finset.mul_sum, Finset.mul_sum, ← Finset.sum_sub_distrib, ← Finset.sum_add_distrib]
    exact Finset.sum_congr rfl fun k _ => by ring
  have hc : ∑ k ∈ m, (x (u k) - y (u k)) * d (u k) = 0 := by
    set C := ∑ k ∈ m, (x (u k) - y (u k)) * d (u k)
    set D := ∑ k ∈ m, d (u k) ^ 2 with hD
    have hD0 : 0 ≤ D := Finset.sum_nonneg fun _ _ => sq_nonneg _
    have h1 := h (C / (D + 1))
    rw [e] at h1
    have hp : 0 < D + 1 := by linarith
    have h3 : 2 * (C / (D + 1)) * C - (C / (D + 1)) ^ 2 * D ≤ 0 := by linarith
    have h4 : 2 * (C / (D + 1)) * C - (C / (D + 1)) ^ 2 * D = C ^ 2 * (D + 2) / (D + 1) ^ 2 := by
      field_simp; ring
    rw [h4] at h3
    have h5 : 0 ≤ C ^ 2 * (D + 2) / (D + 1) ^ 2 := by positivity
    have h6 : C ^ 2 * (D + 2) / (D + 1) ^ 2 = 0 := le_antisymm h3 h5
    have h7 : C ^ 2 * (D + 2) = 0 := by
      rcases div_eq_zero_iff.1 h6 with h | h
      · exact h
      · exact absurd h (by positivity)
    rcases mul_eq_zero.1 h7 with h | h
    · exact pow_eq_zero_iff two_ne_zero |>.1 h
    · linarith
  have := e 1
  rw [hc] at this
  simp only [one_mul] at this
  linarith

namespace cp

theorem rec_set {X : Tensor ℝ} {R n : Nat} {A : List (Tensor ℝ)} (hA : FactorsFor X.shape R A) (hn : n < X.order) (B : Tensor ℝ)
    (w : Nat → ℝ) {i : List Nat} (hi : InB X.shape i) :
    cpRec R (A.set n B) w i =
      ∑ r ∈ Finset.range R, w r * B.at_ [i.getD n 0, r] * khatriEntry r (A.eraseIdx n) (i.eraseIdx n) := by
  have hl : i.length = (A.set n B).length := by rw [List.length_set, hA.length]; exact hi.length
  refine Finset.sum_congr rfl fun r _ => ?_
  rw [khatriEntry_eraseIdx r (n := n) (A := B) hl (List.getElem?_set_self (by rw [hA.length]; exact hn)), List.eraseIdx_set_eq,
    mul_assoc]

/-- The fit of one mode: moving from any matrix to the fitted one. -/
theorem modeUpdate_gap {pinv : Tensor ℝ → Res (Tensor ℝ)} (hp : PinvOk pinv) {X : Tensor ℝ} {R n : Nat}
    {A : List (Tensor ℝ)} (hA : FactorsFor X.shape R A) (h2 : 2 ≤ X.order) (h25 : X.order ≤ 25)
    (hn : n < X.order) (hpos : 0 < X.shape.getD n 0) {u : Upd ℝ} (h : modeUpdate pinv X R A n = .ok u) (B : Tensor ℝ) (w : Nat → ℝ) :
    boxSum X.shape (fun i => (cpRec R (A.set n B) w i - cpRec R u.A (wt u.lam) i) ^ 2) =
      cpErr X R (A.set n B) w - cpErr X R u.A (wt u.lam) := by
  obtain ⟨-, -, hmin, -⟩ := modeUpdate_descends hp hA h2 h25 hn hpos h
  obtain ⟨U, hU⟩ := cp.modeUpdate_set h
  have key := line_min (s := X.shape) (x := X.at_) (y := cpRec R u.A (wt u.lam))
    (d := fun i => cpRec R (A.set n B) w i - cpRec R u.A (wt u.lam) i) (fun t => by
      let C : Tensor ℝ := mat (X.shape.getD n 0) R fun a r => (1 - t) * (wt u.lam r * U.at_ [a, r]) + t * (w r * B.at_ [a, r])
      have := hmin C (fun _ => 1) rfl
      refine this.trans (le_of_eq (boxSum_congr fun i hi => ?_))
      congr 2
      change cpRec R (A.set n C) (fun _ => 1) i = _
      rw [hU, rec_set hA hn _ _ hi, rec_set hA hn _ _ hi, rec_set hA hn _ _ hi, ← Finset.sum_sub_distrib, Finset.mul_sum,
        ← Finset.sum_add_distrib]
      refine Finset.sum_congr rfl fun r hr => ?_
      have ha : i.getD n 0 < X.shape.getD n 0 := (InB_iff_getD.1 hi).2 n hn
      rw [show C.at_ [i.getD n 0, r] = _ from at_mat _ ha (Finset.mem_range.1 hr)]
      ring)
  simp only [add_sub_cancel] at key
  exact key

theorem modeUpdate_move {pinv : Tensor ℝ → Res (Tensor ℝ)} (hp : PinvOk pinv) {X : Tensor ℝ} {R n : Nat}
    {A : List (Tensor ℝ)} (hA : FactorsFor X.shape R A) (h2 : 2 ≤ X.order) (h25 : X.order ≤ 25)
    (hn : n < X.order) (hpos : 0 < X.shape.getD n 0) {u : Upd ℝ} (h : modeUpdate pinv X R A n = .ok u) (w : Nat → ℝ) :
    boxSum X.shape (fun i => (cpRec R A w i - cpRec R u.A (wt u.lam) i) ^ 2) = cpErr X R A w - cpErr X R u.A (wt u.lam) := by
  have hn' : n < A.length := by rw [hA.length]; exact hn
  have := modeUpdate_gap hp hA h2 h25 hn hpos h A[n] w
  rwa [List.set_getElem_self] at this

theorem modeUpdate_norm {pinv : Tensor ℝ → Res (Tensor ℝ)} (hp : PinvOk pinv) {X : Tensor ℝ} {R n : Nat}
    {A : List (Tensor ℝ)} (hA : FactorsFor X.shape R A) (h2 : 2 ≤ X.order) (h25 : X.order ≤ 25)
    (hn : n < X.order) (hpos : 0 < X.shape.getD n 0) {u : Upd ℝ} (h : modeUpdate pinv X R A n = .ok u) :
    boxSum X.shape (fun i => cpRec R u.A (wt u.lam) i ^ 2) = normSqT X - cpErr X R u.A (wt u.lam) := by
  have := modeUpdate_gap hp hA h2 h25 hn hpos h (mat (X.shape.getD n 0) R fun _ _ => 0) fun _ => 0
  have e : ∀ A i, cpRec R A (fun _ => 0) i = 0 := fun A i => Finset.sum_eq_zero fun r _ => zero_mul _
  rw [cpErr_rec X R (A.set n _)] at this
  simp only [e, zero_sub, neg_sq, sub_zero] at this
  exact this

theorem move_trans (s : List Nat) (f g k : List Nat → ℝ) {m : ℝ} (hm : 0 < m) :
    boxSum s (fun i => (f i - k i) ^ 2) ≤
      (1 + m) * boxSum s (fun i => (f i - g i) ^ 2) + (1 + m⁻¹) * boxSum s fun i => (g i - k i) ^ 2 := by
  simp only [boxSum_eq_sum_range]
  rw [Finset.mul_sum, Finset.mul_sum, ← Finset.sum_add_distrib]
  refine Finset.sum_le_sum fun i _ => ?_
  generalize f _ = a
  generalize g _ = b
  generalize k _ = c
  have h : 0 ≤ m⁻¹ * (m * (a - b) - (b - c)) ^ 2 := mul_nonneg (inv_nonneg.2 hm.le) (sq_nonneg _)
  have e : m⁻¹ * (m * (a - b) - (b - c)) ^ 2 = m * (a - b) ^ 2 - 2 * (a - b) * (b - c) + m⁻¹ * (b - c) ^ 2 := by
    field_simp
    ring
  rw [e] at h
  nlinarith [h]

theorem sweep_move {pinv : Tensor ℝ → Res (Tensor ℝ)} (hp : PinvOk pinv) {X : Tensor ℝ} {R : Nat}
    {A A' : List (Tensor ℝ)} {lam : Tensor ℝ} (hA : FactorsFor X.shape R A) (h2 : 2 ≤ X.order) (h25 : X.order ≤ 25)
    (hpos : ∀ d ∈ X.shape, 0 < d) (h : sweep pinv X R A = .ok (A', lam)) :
    (∀ w, boxSum X.shape (fun i => (cpRec R A w i - cpRec R A' (wt lam) i) ^ 2) ≤
        X.order * (cpErr X R A w - cpErr X R A' (wt lam))) ∧
      boxSum X.shape (fun i => cpRec R A' (wt lam) i ^ 2) = normSqT X - cpErr X R A' (wt lam) := by
  have key : ∀ (l : List Nat) (st st' : List (Tensor ℝ) × Option (Tensor ℝ)), (∀ n ∈ l, n < X.order) →
      FactorsFor X.shape R st.1 →
      l.foldlM (fun (st : List (Tensor ℝ) × Option (Tensor ℝ)) mode => (do
        let u ← modeUpdate pinv X R st.1 mode
        return (u.A, some u.lam) : Res _)) st = .ok st' → l ≠ [] →
      ∃ lam, st'.2 = some lam ∧
        (∀ w, boxSum X.shape (fun i => (cpRec R st.1 w i - cpRec R st'.1 (wt lam) i) ^ 2) ≤
          l.length * (cpErr X R st.1 w - cpErr X R st'.1 (wt lam))) ∧
        boxSum X.shape (fun i => cpRec R st'.1 (wt lam) i ^ 2) = normSqT X - cpErr X R st'.1 (wt lam) := by
    intro l
    induction l with
    | nil => intro st st' _ _ _ hne; exact absurd rfl hne
    | cons n l ih =>
        intro st st' hl hst hf _
        rw [List.foldlM_cons] at hf
        cases hu : modeUpdate pinv X R st.1 n with
        | error e => rw [hu] at hf; cases hf
        | ok u =>
            have hn := hl n (by simp)
            have hpn : 0 < X.shape.getD n 0 := getD_pos hpos hn
            obtain ⟨a1, -⟩ := modeUpdate_descends hp hst h2 h25 hn hpn hu
            have hm := modeUpdate_move hp hst h2 h25 hn hpn hu
            have hnm := modeUpdate_norm hp hst h2 h25 hn hpn hu
            rw [hu] at hf
            have hf' : l.foldlM (fun (st : List (Tensor ℝ) × Option (Tensor ℝ)) mode => (do
              let u ← modeUpdate pinv X R st.1 mode
              return (u.A, some u.lam) : Res _)) (u.A, some u.lam) = .ok st' := hf
            by_cases hln : l = []
            · subst hln
              cases hf'
              refine ⟨u.lam, rfl, fun w => ?_, hnm⟩
              rw [hm w]; simp
            · obtain ⟨lam, b1, b2, b3⟩ := ih (u.A, some u.lam) st' (fun m hm => hl m (by simp [hm])) a1 hf' hln
              refine ⟨lam, b1, fun w => ?_, b3⟩
              have hlp : (0 : ℝ) < l.length := by exact_mod_cast List.length_pos_iff.2 hln
              have ht := move_trans X.shape (cpRec R st.1 w) (cpRec R u.A (wt u.lam)) (cpRec R st'.1 (wt lam)) hlp
              rw [hm w] at ht
              have h3 := mul_le_mul_of_nonneg_left (b2 (wt u.lam)) (show (0 : ℝ) ≤ 1 + (l.length : ℝ)⁻¹ by positivity)
              have e : (1 + (l.length : ℝ)⁻¹) * (l.length * (cpErr X R u.A (wt u.lam) - cpErr X R st'.1 (wt lam))) =
                  (l.length + 1) * (cpErr X R u.A (wt u.lam) - cpErr X R st'.1 (wt lam)) := by field_simp
              change _ ≤ (1 + (l.length : ℝ)⁻¹) * (l.length * (cpErr X R u.A (wt u.lam) - cpErr X R st'.1 (wt lam))) at h3
              rw [e] at h3
              rw [List.length_cons]
              push_cast
              change (1 + (l.length : ℝ)⁻¹) * (boxSum X.shape fun i => (cpRec R u.A (wt u.lam) i - cpRec R st'.1 (wt lam) i) ^ 2) ≤ _ at h3
              linarith
  unfold sweep at h
  cases hf : (List.range X.order).foldlM (fun (st : List (Tensor ℝ) × Option (Tensor ℝ)) mode => (do
        let u ← modeUpdate pinv X R st.1 mode
        return (u.A, some u.lam) : Res _)) (A, none) with
  | error e => rw [hf] at h; cases h
  | ok st' =>
      rw [hf, ok_bind] at h
      obtain ⟨lam', b1, b2, b3⟩ := key (List.range X.order) (A, none) st' (by simp) hA hf (by
        intro e; have := congrArg List.length e; simp at this; omega)
      rw [b1] at h
      cases h
      rw [List.length_range] at b2
      exact ⟨b2, b3⟩

/-- One step from factors `A` after a step that returned the reconstruction `Y` with weights `lam0`. -/
theorem main_move {pinv : Tensor ℝ → Res (Tensor ℝ)} (hp : PinvOk pinv) {X : Tensor ℝ} {R : Nat}
    {A A' : List (Tensor ℝ)} {o : fact.Out (List (Tensor ℝ)) (Tensor ℝ) (Tensor ℝ) ℝ}
    (hA : FactorsFor X.shape R A) (h2 : 2 ≤ X.order) (h25 : X.order ≤ 25)
    (hpos : ∀ d ∈ X.shape, 0 < d) (h : main pinv X R A = .ok (A', o)) :
    normSqT o.full = normSqT X - distSqT X o.full ∧
    ∀ lam0 Y, lam0.shape = [R] → fullOf A lam0 = .ok Y →
      distSqT Y o.full ≤ X.order * (distSqT X Y - distSqT X o.full) := by
  obtain ⟨lam, m1, m2, m3, -, -, m4, m5, m6, -⟩ := main_ok hp hA h2 h25 hpos h
  obtain ⟨s1, s2⟩ := sweep_move hp hA h2 h25 hpos m1
  have hne : X.shape ≠ [] := by intro e; unfold order at h2; rw [e] at h2; simp at h2
  obtain ⟨Z, z1, z2, z3⟩ := fullOf_spec m2 hne h25 m3
  rw [m4] at z1; cases z1
  have hZ : ∀ i, InB X.shape i → o.full.at_ i = cpRec R A' (wt lam) i := z3
  refine ⟨?_, fun lam0 Y hl hY => ?_⟩
  · rw [m6, ← s2]
    unfold normSqT
    rw [m5]
    exact boxSum_congr fun i hi => by rw [hZ i hi]
  · obtain ⟨Y', y1, y2, y3⟩ := fullOf_spec hA hne h25 hl
    rw [hY] at y1; cases y1
    have := s1 (wt lam0)
    have e1 : distSqT X Y = cpErr X R A (wt lam0) := boxSum_congr fun i hi => by rw [y3 i hi]
    have e2 : distSqT Y o.full = boxSum X.shape fun i => (cpRec R A (wt lam0) i - cpRec R A' (wt lam) i) ^ 2 := by
      unfold distSqT
      rw [y2]
      exact boxSum_congr fun i hi => by rw [y3 i hi, hZ i hi]; rfl
    rw [e1, e2, m6]
    exact this

end cp

/-- Projections that move no further than they gain. -/
theorem comes_to_rest {X : Tensor ℝ} {Y : ℕ → Tensor ℝ} (hs : ∀ n, (Y n).shape = X.shape)
    (hn : ∀ n, normSqT (Y n) = normSqT X - distSqT X (Y n))
    (hm : ∀ n, distSqT (Y n) (Y (n + 1)) ≤ X.order * (distSqT X (Y n) - distSqT X (Y (n + 1))))
    (ha : Antitone fun n => distSqT X (Y n)) : ComesToRest X Y := by
  have he : ∃ e, Tendsto (fun n => distSqT X (Y n)) atTop (𝓝 e) :=
    ⟨_, tendsto_atTop_ciInf ha ⟨0, by rintro _ ⟨j, rfl⟩; exact distSqT_nonneg _ _⟩⟩
  obtain ⟨e, he⟩ := he
  refine ⟨fun n => ?_, ?_, ?_, fun φ L hφ hL => ?_⟩
  · induction n with
    | zero => simp
    | succ n ih =>
        rw [Finset.sum_range_succ]
        have := hm n
        linarith
  · have h2 := (he.sub (he.comp (tendsto_add_atTop_nat 1))).const_mul (X.order : ℝ)
    rw [sub_self, mul_zero] at h2
    exact squeeze_zero (fun j => distSqT_nonneg _ _) hm h2
  · obtain ⟨φ, L, hφ, hL⟩ := exists_limit (F := fun m => [Y m]) (shapes := [X.shape]) (fun n => by simp [hs])
      (c := Real.sqrt (normSqT X)) (by
        intro n M hM x hx
        obtain rfl := List.mem_singleton.1 hM
        refine (abs_le_of_normSqT hx).trans (Real.sqrt_le_sqrt ?_)
        rw [hn]
        linarith [distSqT_nonneg X (Y n)])
    have hl : L.length = 1 := (hL.1 0).symm
    obtain ⟨M, K, g1, g2, g3⟩ := hL.2 0 (by omega)
    refine ⟨φ, K, hφ, ?_⟩
    have : M = fun m => Y (φ m) := funext fun m => by
      have := g1 m
      simp only [List.getElem?_cons_zero, Option.some.injEq] at this
      exact this.symm
    rwa [this] at g3
  · have hd : Tendsto (fun n => distSqT X (Y n)) atTop (𝓝 (distSqT X L)) := by
      rw [tendsto_nhds_unique (distSqT_tendsto (B := X) hL) (he.comp hφ.tendsto_atTop)]
      exact he
    have hs' : L.shape = X.shape := by rw [← hL.1 0, hs]
    have hnn : Tendsto (fun n => normSqT (Y (φ n))) atTop (𝓝 (normSqT L)) := by
      unfold normSqT
      have := boxSum_tendsto (s := X.shape) fun i => (hL.all i).pow 2
      rw [hs']
      simpa only [hs] using this
    refine ⟨fun n => ge_of_tendsto hnn ?_, hd⟩
    filter_upwards [eventually_ge_atTop n] with m hm'
    rw [hn, hn]
    have : distSqT X (Y (φ m)) ≤ distSqT X (Y n) := ha (hm'.trans (hφ.id_le m))
    linarith

end TD
