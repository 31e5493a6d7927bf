import Verif.Props.InitFactor
import Verif.Props.LowerBound
import Verif.Props.RankOne
import Verif.Props.Scale

/-!
# C168 : the first step of `CP_ALS`
-/
namespace TD.Props
open TD Spec Tensor tf ops fact

/-- **C168**: no history entry of `CP_ALS`, the first one included, is worse than any choice of the first factor and of
weights beside the initial factors of the other modes. -/
theorem C168_first_step (pinv : Tensor ℝ → Res (Tensor ℝ)) (hp : PinvOk pinv) (X : Tensor ℝ) (R : Nat)
    (U0 : Tensor ℝ) (U : List (Tensor ℝ)) (hU : FactorsFor X.shape R (U0 :: U)) (h2 : 2 ≤ X.order) (h25 : X.order ≤ 25)
    (hpos : ∀ d ∈ X.shape, 0 < d) (Ar : Arith ℝ) (args : Args ℝ) (steps : Int)
    (self self' : Self (List (Tensor ℝ)) (Tensor ℝ) (Tensor ℝ)) (ev : List Int) (hist : List (ℝ × ℝ))
    (h : train Ar (CP_ALS.cls (cp.main pinv X R)) args steps (.ok (U0 :: U)) self = (self', ev, .ok hist))
    (B : Tensor ℝ) (hB : B.shape = U0.shape) (w : Nat → ℝ) :
    ∀ p ∈ hist, p.2 ^ 2 * normSqT X ≤ cpErr X R (B :: U) w := by
  have hBU : FactorsFor X.shape R (B :: U) := by
    unfold FactorsFor at hU ⊢
    rw [← hU, List.map_cons, List.map_cons, hB]
  rw [C121_first pinv X R h2 h25 U0 B U hU hBU] at h
  obtain ⟨s0, o, k, hs0, -, hlen, hrun, hh⟩ := C43_history Ar _ args steps _ self self' ev hist h
  cases hs0
  obtain ⟨σ, h0, hσ⟩ := cp_run hp hBU h2 h25 hpos hrun
  have key : ∀ j < hist.length, (o j).rel ^ 2 * normSqT X ≤ cpErr X R (B :: U) w ∧
      ∀ s, cp.main pinv X R (σ j) = .ok (s, o j) → ∃ v, cpErr X R s v ≤ cpErr X R (B :: U) w := by
    intro j
    induction j with
    | zero =>
        intro hj
        obtain ⟨hf, s, hm, -⟩ := hσ 0 hj
        obtain ⟨lam, -, -, -, -, -, -, -, -, -, e2, hX, hle, -⟩ := cp.main_ok hp hf h2 h25 hpos hm
        rw [h0] at hle
        have hn : 0 ≤ cpErr X R s (cp.wt lam) := loss.boxSum_nonneg _ fun _ _ => sq_nonneg _
        refine ⟨?_, fun s' hs' => ?_⟩
        · rw [e2, div_pow, Real.sq_sqrt hn, Real.sq_sqrt hX.le, div_mul_cancel₀ _ hX.ne']
          exact hle w
        · rw [hm] at hs'
          cases hs'
          exact ⟨_, hle w⟩
    | succ j ih =>
        intro hj
        obtain ⟨hf, s, hm, hn⟩ := hσ j (by omega)
        obtain ⟨v, hv⟩ := (ih (by omega)).2 s hm
        obtain ⟨hf', s', hm', -⟩ := hσ (j + 1) hj
        obtain ⟨lam, -, -, -, -, -, -, -, -, -, e2, hX, hle, -⟩ := cp.main_ok hp hf' h2 h25 hpos hm'
        rw [hn hj] at hle
        have h0' : 0 ≤ cpErr X R s' (cp.wt lam) := loss.boxSum_nonneg _ fun _ _ => sq_nonneg _
        refine ⟨?_, fun t ht => ?_⟩
        · rw [e2, div_pow, Real.sq_sqrt h0', Real.sq_sqrt hX.le, div_mul_cancel₀ _ hX.ne']
          exact (hle v).trans hv
        · rw [hm'] at ht
          cases ht
          exact ⟨_, (hle v).trans hv⟩
  intro p hpm
  obtain ⟨j, hj, rfl⟩ := List.mem_iff_getElem.1 hpm
  have := hh j hj
  rw [List.getElem?_eq_getElem hj, Option.some.injEq] at this
  rw [this]
  exact (key j hj).1

/-- An approximation at distance 0 is reported as two zeros. -/
theorem reports_zero {X Y : Tensor ℝ} {p : ℝ × ℝ} (h : Reports X Y p) (h0 : distSqT X Y = 0) : p = (0, 0) := by
  have he := (loss.boxSum_eq_zero X.shape fun i _ => sq_nonneg (X.at_ i - Y.at_ i)).1 h0
  obtain ⟨h1, h2⟩ := h
  have e : distSqT X Y = boxSum X.shape fun i => (X.at_ i - Y.at_ i) ^ 2 := rfl
  rw [← e, h0, Real.sqrt_zero, zero_div] at h2
  rw [(boxSum_congr fun i hi => by rw [he i hi, ite_self]).trans (boxSum_zero _), zero_div, Real.sqrt_zero] at h1
  exact Prod.ext h1 h2

/-- **C168** (enough components): if every array over the modes other than the first is a combination of the `R` rank-one
arrays made of the initial factors of these modes, a training that returns fits exactly from its first step on. -/
theorem C168_spanning (pinv : Tensor ℝ → Res (Tensor ℝ)) (hp : PinvOk pinv) (X : Tensor ℝ) (R : Nat)
    (U0 : Tensor ℝ) (U : List (Tensor ℝ)) (hU : FactorsFor X.shape R (U0 :: U)) (h2 : 2 ≤ X.order) (h25 : X.order ≤ 25)
    (hpos : ∀ d ∈ X.shape, 0 < d) 
    (hspan : ∀ f : List Nat → ℝ, ∃ c : Nat → ℝ, ∀ i, InB X.shape.tail i → f i = ∑ r ∈ Finset.range R, c r * khatriEntry r U i)
    (Ar : Arith ℝ) (args : Args ℝ) (steps : Int)
    (self self' : Self (List (Tensor ℝ)) (Tensor ℝ) (Tensor ℝ)) (ev : List Int) (hist : List (ℝ × ℝ))
    (h : train Ar (CP_ALS.cls (cp.main pinv X R)) args steps (.ok (U0 :: U)) self = (self', ev, .ok hist)) :
    (∀ p ∈ hist, p = (0, 0)) ∧ (Reported args steps (hist.length - 1) → self'.full = some X) := by
  obtain ⟨d, ds, hd⟩ : ∃ d ds, X.shape = d :: ds := by
    unfold order at h2
    cases hs : X.shape with
    | nil => rw [hs] at h2; simp at h2
    | cons d ds => exact ⟨d, ds, rfl⟩
  have hU0 : U0.shape = [d, R] := by
    unfold FactorsFor at hU
    rw [hd] at hU
    exact (List.cons.inj hU).1
  rw [hd, List.tail_cons] at hspan
  choose c hc using fun a : Nat => hspan fun i => X.at_ (a :: i)
  have hz : ∀ steps self' ev hist,
      train Ar (CP_ALS.cls (cp.main pinv X R)) args steps (.ok (U0 :: U)) self = (self', ev, .ok hist) →
      ∀ p ∈ hist, p.2 ^ 2 * normSqT X ≤ 0 := by
    intro steps self' ev hist h p hpm
    refine (C168_first_step pinv hp X R U0 U hU h2 h25 hpos Ar args steps self self' ev hist h
      (mat d R fun a r => c a r) (by rw [hU0]; rfl) (fun _ => 1) p hpm).trans (le_of_eq ?_)
    unfold cpErr
    refine (boxSum_congr fun i hi => ?_).trans (boxSum_zero _)
    rw [hd] at hi
    match i, hi with
    | a :: i, hi =>
        obtain ⟨ha, hi'⟩ := List.forall₂_cons.1 hi
        rw [hc a i hi', sub_eq_zero.2, zero_pow two_ne_zero]
        refine Finset.sum_congr rfl fun r hr => ?_
        rw [one_mul, khatriEntry, at_mat _ ha (Finset.mem_range.1 hr)]
  have hlast : ∀ steps self' ev hist,
      train Ar (CP_ALS.cls (cp.main pinv X R)) args steps (.ok (U0 :: U)) self = (self', ev, .ok hist) →
      ∃ Y p, hist.getLast? = some p ∧ Y.shape = X.shape ∧ Reports X Y p ∧ distSqT X Y = 0 ∧
        (Reported args steps (hist.length - 1) → self'.full = some Y) := by
    intro steps self' ev hist h
    obtain ⟨F, lam, Y, p, -, -, e1, e2, e3, e4⟩ := C81_cp_last_entry pinv hp X R _ hU h2 h25 hpos Ar args steps self self' ev hist h
    obtain ⟨s0, o, k, hs0, -, hlen, hrun, hh⟩ := C43_history Ar _ args steps _ self self' ev hist h
    cases hs0
    obtain ⟨σ, h0, hσ⟩ := cp_run hp hU h2 h25 hpos hrun
    have hl : 0 < hist.length := List.length_pos_iff.2 (by rintro rfl; cases e1)
    obtain ⟨hf, s, hm, -⟩ := hσ 0 hl
    obtain ⟨-, -, -, -, -, -, -, -, -, -, -, hX, -⟩ := cp.main_ok hp hf h2 h25 hpos hm
    refine ⟨Y, p, e1, e2.1, e3, le_antisymm ?_ (distSqT_nonneg X Y), e4⟩
    rw [← e3.dist hX]
    exact hz _ _ _ _ h p (List.mem_of_getLast? e1)
  refine ⟨all_entries (fun n self' ev hist p h hl => ?_) h, fun hr => ?_⟩
  · obtain ⟨Y, p', e1, -, e3, e4, -⟩ := hlast _ _ _ _ h
    rw [hl] at e1
    cases e1
    exact reports_zero e3 e4
  · obtain ⟨Y, p', -, e2, -, e4, e5⟩ := hlast _ _ _ _ h
    rw [e5 hr]
    have he := (loss.boxSum_eq_zero X.shape fun i _ => sq_nonneg (X.at_ i - Y.at_ i)).1 e4
    exact congrArg some (ext_at e2 fun i hi => by
      rw [e2] at hi
      have := he i hi
      have := pow_eq_zero_iff two_ne_zero |>.1 this
      linarith)

/-- **C168** (one step): under the same condition and with a positive tolerance exactly one step is executed. -/
theorem C168_spanning_one_step (pinv : Tensor ℝ → Res (Tensor ℝ)) (hp : PinvOk pinv) (X : Tensor ℝ) (R : Nat)
    (U0 : Tensor ℝ) (U : List (Tensor ℝ)) (hU : FactorsFor X.shape R (U0 :: U)) (h2 : 2 ≤ X.order) (h25 : X.order ≤ 25)
    (hpos : ∀ d ∈ X.shape, 0 < d)
    (hspan : ∀ f : List Nat → ℝ, ∃ c : Nat → ℝ, ∀ i, InB X.shape.tail i → f i = ∑ r ∈ Finset.range R, c r * khatriEntry r U i)
    (args : Args ℝ) (ht : 0 < args.tol) (steps : Int)
    (self self' : Self (List (Tensor ℝ)) (Tensor ℝ) (Tensor ℝ)) (ev : List Int) (hist : List (ℝ × ℝ))
    (h : train (exactArith ℝ) (CP_ALS.cls (cp.main pinv X R)) args steps (.ok (U0 :: U)) self = (self', ev, .ok hist)) :
    hist = [(0, 0)] := by
  have hz := (C168_spanning pinv hp X R U0 U hU h2 h25 hpos hspan _ args steps self self' ev hist h).1
  obtain ⟨h1, -, h3, -⟩ := C88_cp_stop pinv X R _ _ args steps self self' ev hist h
  have hlen1 : hist.length = 1 := by
    by_contra hne
    refine h3 0 (by omega) (Or.inl ?_)
    change decide (histRel hist 0 < args.tol) = true
    unfold histRel
    rw [List.getElem?_eq_getElem (by omega), Option.getD_some, hz _ (List.getElem_mem _)]
    exact decide_eq_true ht
  obtain ⟨p, rfl⟩ := List.length_eq_one_iff.1 hlen1
  rw [hz p (by simp)]

/-- **C168** on matrices: the condition is that the initial second factor has the full row rank. -/
theorem C168_matrix (pinv : Tensor ℝ → Res (Tensor ℝ)) (hp : PinvOk pinv) (X : Tensor ℝ) (m n R : Nat) (hX : X.shape = [m, n])
    (hm : 0 < m) (hn : 0 < n) (U0 U1 : Tensor ℝ) (hU0 : U0.shape = [m, R]) (hU1 : U1.shape = [n, R])
    (hr : (toMat U1 n R).rank = n) (args : Args ℝ) (ht : 0 < args.tol) (steps : Int)
    (self self' : Self (List (Tensor ℝ)) (Tensor ℝ) (Tensor ℝ)) (ev : List Int) (hist : List (ℝ × ℝ))
    (h : train (exactArith ℝ) (CP_ALS.cls (cp.main pinv X R)) args steps (.ok [U0, U1]) self = (self', ev, .ok hist)) :
    hist = [(0, 0)] := by
  have ho : X.order = 2 := by unfold order; rw [hX]; rfl
  refine C168_spanning_one_step pinv hp X R U0 [U1] (by simp [FactorsFor, hX, hU0, hU1]) (by omega) (by omega)
    (by rw [hX]; simp [hm, hn]) (fun f => ?_) args ht steps self self' ev hist h
  have hsur : Function.Surjective (toMat U1 n R).mulVec := by
    have : LinearMap.range (toMat U1 n R).mulVecLin = ⊤ := by
      apply Submodule.eq_top_of_finrank_eq
      rw [Module.finrank_fin_fun]
      exact hr
    exact LinearMap.range_eq_top.1 this
  obtain ⟨v, hv⟩ := hsur fun j : Fin n => f [j.val]
  refine ⟨fun r => if h : r < R then v ⟨r, h⟩ else 0, fun i hi => ?_⟩
  rw [hX] at hi
  match i, hi with
  | [j], hi =>
      have hj : j < n := (List.forall₂_cons.1 hi).1
      have e := congrFun hv ⟨j, hj⟩
      change _ = f [j] at e
      rw [← e, Matrix.mulVec, dotProduct, Finset.sum_range]
      refine Finset.sum_congr rfl fun r _ => ?_
      have e1 : (fun r => if h : r < R then v ⟨r, h⟩ else 0) r.val = v r := dif_pos r.isLt
      have e2 : khatriEntry r.val [U1] [j] = U1.at_ [j, r.val] := mul_one _
      rw [e1, e2, mul_comm, toMat_apply]

/-- The unit matrix as factor of itself is left as it is. -/
theorem eye_two_mode {pinv : Tensor ℝ → Res (Tensor ℝ)} (hp : PinvOk pinv) (n : Nat) (hn : n < 2) :
    ∃ lam N, cp.modeUpdate pinv eyeX 2 [eyeX, eyeX] n = .ok ⟨[eyeX, eyeX], lam, N⟩ ∧ lam.shape = [2] := by
  have hF : FactorsFor eyeX.shape 2 [eyeX, eyeX] := rfl
  have hd : eyeX.shape.getD n 0 = 2 := by interval_cases n <;> rfl
  have ho : otherSize eyeX.shape n = 2 := by interval_cases n <;> decide
  obtain ⟨K, N, lam, P, hK, hKs, hNs, hls, hP, hN, hmax, he⟩ := cp.modeUpdate_eq (n := n) hp hF (by decide) (by decide) hn (by omega)
  obtain ⟨K', hK', -, hKe⟩ := khatri_skip_reverse (n := n) hF.allMat hF.cols (by simp) (by simpa using hn) (by simp)
  obtain rfl : K = K' := Except.ok.inj (hK.symm.trans hK')
  have hE : ∀ i j, i < 2 → j < 2 → eyeX.at_ [i, j] = if i = j then 1 else 0 := by
    intro i j hi hj
    interval_cases i <;> interval_cases j <;> rfl
  have hKv : ∀ j r, j < 2 → r < 2 → K.at_ [j, r] = if j = r then 1 else 0 := by
    intro j r hj hr
    have := hKe [j, j] r (by rw [hF.rowDims]; simp [InB, eyeX, hj]) hr
    have e : K.at_ [j, r] = eyeX.at_ [j, r] := by
      have hR : rowDims [eyeX, eyeX] = [2, 2] := rfl
      rw [hR] at this
      interval_cases n <;> simpa [ravel, khatriEntry] using this
    rw [e]; exact hE j r hj hr
  have hXv : ∀ i j, i < 2 → j < 2 → eyeX.at_ (unkolda eyeX.shape n i j) = if i = j then 1 else 0 := by
    intro i j hi hj
    interval_cases n <;> interval_cases i <;> interval_cases j <;> rfl
  rw [hd] at he hmax
  revert hP hN
  rw [hd]
  generalize otherSize eyeX.shape n = J at *
  subst ho
  intro hP hN
  have hK1 : toMat K 2 2 = 1 := by
    ext i j
    rw [toMat_apply, hKv i j i.isLt j.isLt, Matrix.one_apply]
    simp only [Fin.ext_iff]
  rw [hK1, Matrix.transpose_one, Matrix.one_mul, Matrix.one_mul, Matrix.mul_one] at hP
  have hNv : ∀ i r, i < 2 → r < 2 → N.at_ [i, r] = if i = r then 1 else 0 := by
    intro i r hi hr
    have e := congrFun (congrFun hN ⟨i, hi⟩) ⟨r, hr⟩
    rw [hP, hK1, Matrix.mul_one, Matrix.mul_one, Matrix.of_apply, toMat_apply] at e
    rw [e]; exact hXv i r hi hr
  have hl : ∀ r < 2, lam.at_ [r] = 1 := by
    intro r hr
    obtain ⟨h1, i, hi, h3⟩ := hmax r hr
    have a := h1 r hr
    rw [hNv r r hr hr, if_pos rfl] at a
    rw [hNv i r hi hr] at h3
    split_ifs at h3 <;> linarith
  have h0 : (0 : ℝ) ∉ lam.data := by
    intro hc
    rw [data_eq lam, hls] at hc
    have : (indices [2]).map lam.at_ = [lam.at_ [0], lam.at_ [1]] := rfl
    rw [this, hl 0 (by omega), hl 1 (by omega)] at hc
    simp at hc
  have hmat : mat 2 2 (fun i r => N.at_ [i, r] / lam.at_ [r]) = eyeX := ext_at rfl fun i hi => by
    obtain ⟨a, b, rfl, ha, hb⟩ := InB_pair.1 hi
    rw [at_mat _ ha hb, hNv a b ha hb, hl b hb, div_one, hE a b ha hb]
  refine ⟨lam, N, ?_, hls⟩
  rw [he, if_neg h0, hmat]
  interval_cases n <;> rfl

/-- The hypotheses are met: the unit matrix with rank 2, started from unit matrices, is trained and fitted in one step. -/
theorem eye_two_train {pinv : Tensor ℝ → Res (Tensor ℝ)} (hp : PinvOk pinv) (args : Args ℝ)
    (hv : args.validationInternal ≠ 0) (steps : Int) (h1 : 1 ≤ steps) (self : Self (List (Tensor ℝ)) (Tensor ℝ) (Tensor ℝ)) :
    ∃ self' ev hist, train (exactArith ℝ) (CP_ALS.cls (cp.main pinv eyeX 2)) args steps (.ok [eyeX, eyeX]) self = (self', ev, .ok hist) := by
  obtain ⟨l0, N0, e0, -⟩ := eye_two_mode hp 0 (by omega)
  obtain ⟨l1, N1, e1, hl1⟩ := eye_two_mode hp 1 (by omega)
  have hs : cp.sweep pinv eyeX 2 [eyeX, eyeX] = .ok ([eyeX, eyeX], l1) := by
    unfold cp.sweep
    have : List.range eyeX.order = [0, 1] := rfl
    simp only [this, List.foldlM_cons, List.foldlM_nil, e0, e1, ok_bind, pure_bind]
  obtain ⟨Y, y1, y2, -⟩ := cp.fullOf_spec (shape := eyeX.shape) (A := [eyeX, eyeX]) (R := 2) rfl (by simp [eyeX]) (by decide) hl1
  obtain ⟨⟨l, obj, rel⟩, hq⟩ := cp.scalars_total (X := eyeX) (Y := Y) y2 ⟨[0, 0], by decide, one_ne_zero⟩
  have hm : cp.main pinv eyeX 2 [eyeX, eyeX] = .ok ([eyeX, eyeX], ⟨[eyeX, eyeX], some l1, Y, l, obj, rel⟩) := by
    unfold cp.main
    rw [hs, ok_bind]
    simp only [y1, ok_bind, hq]
    rfl
  obtain ⟨hist, h⟩ := train_safe (A := exactArith ℝ) (c := CP_ALS.cls (cp.main pinv eyeX 2)) (I := fun t => t = [eyeX, eyeX])
    (args := args) (steps := steps)
    ⟨by rintro t rfl; exact ⟨_, _, hm, rfl⟩, by rintro f ⟨⟩, by rintro f ⟨⟩⟩ rfl (Or.inl hv) h1 self
  exact ⟨_, _, hist, Prod.ext rfl (Prod.ext rfl h)⟩

example {pinv : Tensor ℝ → Res (Tensor ℝ)} (hp : PinvOk pinv) (args : Args ℝ) (ht : 0 < args.tol)
    (hv : args.validationInternal ≠ 0) (steps : Int) (h1 : 1 ≤ steps) (self : Self (List (Tensor ℝ)) (Tensor ℝ) (Tensor ℝ)) :
    ∃ self' ev, train (exactArith ℝ) (CP_ALS.cls (cp.main pinv eyeX 2)) args steps (.ok [eyeX, eyeX]) self =
      (self', ev, .ok [(0, 0)]) := by
  obtain ⟨self', ev, hist, h⟩ := eye_two_train hp args hv steps h1 self
  have hr : (toMat eyeX 2 2).rank = 2 := by
    have : toMat eyeX 2 2 = 1 := by
      ext i j; fin_cases i <;> fin_cases j <;> rfl
    rw [this, Matrix.rank_one, Fintype.card_fin]
  rw [C168_matrix pinv hp eyeX 2 2 2 rfl (by omega) (by omega) eyeX eyeX rfl rfl hr args ht steps self self' ev hist h] at h
  exact ⟨self', ev, h⟩

end TD.Props
