import Verif.Props.LowRank
import Verif.Props.Scripts
import Verif.Model.Demo

/-!
# C90 (what is exposed) and C156 : the demonstration programs
-/
namespace TD.Props
open TD Spec Tensor fact

/-- **C90**, what is exposed: a training of `HOOI` on a tensor that has such a decomposition returns after one step, reports the errors 0
and exposes the tensor itself as `full`. -/
theorem C90_hooi_full (svd : Tensor ℝ → Res (Tensor ℝ × Tensor ℝ × Tensor ℝ)) (hs : SvdOk svd) (X : Tensor ℝ)
    (ranks : List Nat) (h2 : 2 ≤ X.order) (h13 : X.order ≤ 13) (hpos : ∀ d ∈ X.shape, 0 < d) (hlen : X.order ≤ ranks.length)
    (h0 : ∃ i, InB X.shape i ∧ X.at_ i ≠ 0) (ha : Admissible X.shape ranks) (hX : TuckerRankLe X.shape ranks X) (args : Args ℝ)
    (hv : args.validationInternal ≠ 0) (ht : 0 < args.tol) (steps : Int) (h1 : 1 ≤ steps)
    (self : Self (List (Tensor ℝ)) (Tensor ℝ) (Tensor ℝ)) :
    ∃ self' ev, train (exactArith ℝ) (HOOI.cls (tucker.HOOI.main svd X ranks)) args steps (tucker.HOOI.init svd X ranks) self =
      (self', ev, .ok [(0, 0)]) ∧ self'.full = some X := by
  obtain ⟨hist, hh⟩ := (C74_hooi_admissible svd hs X ranks h2 h13 hpos h0 hlen (exactArith ℝ) args hv steps h1 self).2 ha
  have h : train (exactArith ℝ) (HOOI.cls (tucker.HOOI.main svd X ranks)) args steps (tucker.HOOI.init svd X ranks) self =
    (_, _, .ok hist) := Prod.ext rfl (Prod.ext rfl hh)
  obtain ⟨l, rfl⟩ := C90_hooi_exact svd hs X ranks h2 h13 hpos hlen hX args ht steps self _ _ _ h
  obtain ⟨F, g, Y, p, -, -, hp, hY, hr, hf⟩ := C81_hooi_last_entry svd hs X ranks h2 h13 hpos hlen _ args steps self _ _ _ h
  simp at hp
  subst hp
  obtain ⟨i0, hi0, hx0⟩ := h0
  have hn : 0 < boxSum X.shape fun i => X.at_ i ^ 2 := by
    refine lt_of_le_of_ne (loss.boxSum_nonneg _ fun i _ => sq_nonneg _) fun e => ?_
    exact hx0 (by simpa using (loss.boxSum_eq_zero X.shape fun i _ => sq_nonneg _).1 e.symm i0 hi0)
  have hd : (boxSum X.shape fun i => (X.at_ i - Y.at_ i) ^ 2) = 0 := by
    have hge : 0 ≤ boxSum X.shape fun i => (X.at_ i - Y.at_ i) ^ 2 := loss.boxSum_nonneg _ fun i _ => sq_nonneg _
    rcases div_eq_zero_iff.1 hr.2.symm with e | e
    · exact (Real.sqrt_eq_zero hge).1 e
    · exact absurd e (Real.sqrt_pos.2 hn).ne'
  have hz := (loss.boxSum_eq_zero X.shape fun i _ => sq_nonneg _).1 hd
  have he : Y = X := by
    refine ext_at hY.1 fun i hi => ?_
    rw [hY.1] at hi
    have := hz i hi
    have := pow_eq_zero_iff (two_ne_zero) |>.1 this
    linarith
  subst he
  have hl : l = 0 := by
    have e : l = _ := hr.1
    rw [e]
    have e0 : (boxSum Y.shape fun i => if Y.at_ i ≠ 0 then (Y.at_ i - Y.at_ i) ^ 2 else 0) = 0 :=
      (loss.boxSum_eq_zero Y.shape fun i _ => by simp).2 fun i _ => by simp
    rw [e0, zero_div, Real.sqrt_zero]
  subst hl
  exact ⟨_, _, h, hf (by simp [Reported])⟩

theorem arange_at {i a b c : Nat} (ha : a < 3) (hb : b < 4) (hc : c < 5) : (demo.arange i).at_ [a, b, c] = 20 * a + 5 * b + c + i := by
  rw [demo.arange, at_ofFn _ (by simp [InB, ha, hb, hc])]
  simp [ravel]
  ring

theorem arange_tucker (i : Nat) : TuckerRankLe (demo.arange i).shape [2, 2, 2] (demo.arange i) := by
  refine ⟨ofFn [2, 2, 2] fun j => if j.sum = 1 then 1 else 0,
    [mat 3 2 fun a k => if k = 0 then 1 else 20 * (a : ℝ), mat 4 2 fun a k => if k = 0 then 1 else 5 * (a : ℝ),
      mat 5 2 fun a k => if k = 0 then 1 else (a : ℝ) + i], rfl, rfl, ?_, rfl, ?_⟩
  · intro k hk
    have hk : k < 3 := hk
    interval_cases k <;> exact le_refl _
  · intro idx hi
    have hi : InB [3, 4, 5] idx := hi
    match idx, hi with
    | [a, b, c], hi =>
      simp [InB] at hi
      obtain ⟨ha, hb, hc⟩ := hi
      rw [arange_at ha hb hc]
      change _ = boxSum [2, 2, 2] _
      simp only [boxSum, Finset.sum_range_succ, Finset.sum_range_zero, zero_add, kronEntry, mul_one]
      rw [at_mat _ ha (by omega), at_mat _ hb (by omega), at_mat _ hc (by omega), at_mat _ ha (by omega), at_mat _ hb (by omega), at_mat _ hc (by omega)]
      simp only [at_ofFn _ (show InB [2, 2, 2] [0, 0, 0] by decide), at_ofFn _ (show InB [2, 2, 2] [0, 0, 1] by decide),
        at_ofFn _ (show InB [2, 2, 2] [0, 1, 0] by decide), at_ofFn _ (show InB [2, 2, 2] [0, 1, 1] by decide),
        at_ofFn _ (show InB [2, 2, 2] [1, 0, 0] by decide), at_ofFn _ (show InB [2, 2, 2] [1, 0, 1] by decide),
        at_ofFn _ (show InB [2, 2, 2] [1, 1, 0] by decide), at_ofFn _ (show InB [2, 2, 2] [1, 1, 1] by decide)]
      simp
      ring

theorem pass_zero {svd : Tensor ℝ → Res (Tensor ℝ × Tensor ℝ × Tensor ℝ)} (hs : SvdOk svd) {p : demo.HooiProcess} {i : Nat}
    (hp : ∀ g, 2 * i < g → p.summaries g = []) :
    ∃ p', demo.pass (exactArith ℝ) svd p i = .ok (p', 0) ∧ ∀ g, 2 * (i + 1) < g → p'.summaries g = [] := by
  have hsh : (demo.arange i).shape = [3, 4, 5] := rfl
  have ho : (demo.arange i).order = 3 := rfl
  obtain ⟨self', ev, ht, hf⟩ := C90_hooi_full svd hs (demo.arange i) [2, 2, 2] (by rw [ho]; decide) (by rw [ho]; decide) (by rw [hsh]; decide)
    (by rw [ho]; decide)
    ⟨[0, 0, 1], by rw [hsh]; decide, by rw [arange_at (by decide) (by decide) (by decide)]; norm_num; positivity⟩
    (by rw [hsh]; change ∀ n < 3, _; decide) (arange_tucker i)
    { validationInternal := 5, verbose := false, tol := 1 / 10 ^ 4 } (by simp) (by norm_num) 100 (by decide) (p.self i)
  have hg := hp (2 * i + 1) (by omega)
  have hw := tf.ewise_same (fun x y : ℝ => x - y) (rfl : (demo.arange i).shape = (demo.arange i).shape)
  have hz : tf.reduceSum (ofFn (demo.arange i).shape fun idx => (demo.arange i).at_ idx - (demo.arange i).at_ idx) = 0 := by
    simp [tf.reduceSum, ofFn, tf.total_eq]
  unfold demo.pass
  simp only [process.Process.step, process.Process.train, Function.update_self, hg, process.alone, ht, hf, hw, hz, List.nil_append, List.all_cons, List.all_nil, beq_self_eq_true,
    ne_eq, not_true_eq_false, if_false, Bool.and_self, if_true, ok_bind, Except.map]
  refine ⟨_, rfl, fun g hg' => ?_⟩
  simp only [Function.update_of_ne (show g ≠ 2 * i + 1 by omega)]
  exact hp g (by omega)

/-- **C156.** `multigraph_demo.py` prints 0 in every pass, however many passes it makes and whatever singular value decomposition is used:
the data of each pass has a Tucker decomposition with the ranks 2, 2, 2, and the models of the passes do not disturb each other. -/
theorem C156_multigraph (svd : Tensor ℝ → Res (Tensor ℝ × Tensor ℝ × Tensor ℝ)) (hs : SvdOk svd) (n : Nat) :
    demo.multigraph (exactArith ℝ) svd n = .ok (List.replicate n 0) := by
  have : ∀ n, ∃ p : demo.HooiProcess, ((List.range n).foldlM (init := (({}, []) : demo.HooiProcess × List ℝ)) fun st i => do
      let (p, v) ← demo.pass (exactArith ℝ) svd st.1 i
      return (p, st.2 ++ [v])) = .ok (p, List.replicate n 0) ∧ ∀ g, 2 * n < g → p.summaries g = [] := by
    intro n
    induction n with
    | zero => exact ⟨{}, rfl, fun _ _ => rfl⟩
    | succ n ih =>
      obtain ⟨p, h, hp⟩ := ih
      obtain ⟨p', h', hp'⟩ := pass_zero hs hp
      refine ⟨p', ?_, hp'⟩
      rw [List.range_succ, List.foldlM_append, h, ok_bind]
      simp only [List.foldlM_cons, h', ok_bind, List.foldlM_nil, List.replicate_succ']
      rfl
  obtain ⟨p, h, -⟩ := this n
  unfold demo.multigraph
  rw [h]; rfl

/-- **C156.** The other programs end on all data of the size 20 × 20 × 20 they generate, whatever the draws, if the singular value routines
return for every matrix; only `cp_demo.py` may raise, what the pseudo-inverse raised.  (In arithmetic with rounding, overflow, infinities and
NaN.) -/
theorem C156_single (F : sp.Fmt) (w : ex.World F) (hp : PinvSize w.pinv) (hs : SvdSize w.svd) (h1 : ∀ M, ∃ l, w.topSv M = .ok l)
    (h2 : ∀ M, ∃ q, w.svd M = .ok q) (T : Tensor (sp.Num F)) (hT : T.shape = [20, 20, 20]) (hd : ExDrawsFit w 20 20 20 10) (alg : ex.Alg) :
    demo.single w alg T = .ok () ∨ alg = .cp ∧ ∃ e V, w.pinv V = .error e ∧ demo.single w alg T = .error e := by
  have ho : T.order = 3 := by rw [order, hT]; rfl
  have hpos : ∀ d ∈ T.shape, 0 < d := by rw [hT]; decide
  obtain ⟨d1, d2, d3, d4⟩ := hd
  cases alg with
  | cp =>
      rcases C137_raises F w.pinv hp T 10 (by omega) (by omega) hpos w.Ar ⟨5, false, w.tol⟩ (Or.inl (by simp)) 100 (by decide) w.cp
        (by rw [hT]; exact d1) {} with ⟨self', ev, hist, h⟩ | ⟨self', ev, e, h, V, hV⟩
      · left; simp only [demo.single, h, Except.map]
      · right; exact ⟨rfl, e, V, hV, by simp only [demo.single, h, Except.map]⟩
  | ncp =>
      left
      obtain ⟨self', ev, hist, h, -⟩ := C136_ncp_completes F w.topSv h1 T 10 (by omega) (by omega) hpos w.Ar ⟨10, false, w.tol⟩
        (Or.inl (by simp)) 1000 (by decide) _ ⟨w.ncp, by rw [hT]; exact d2, rfl⟩ {}
      simp only [demo.single, h, Except.map]
  | tucker =>
      left
      obtain ⟨hist, h⟩ := (C139_hooi_returns F w.svd hs h2 T [10, 10, 10] (by rw [hT]; rfl) (by omega) (by omega) hpos w.Ar ⟨5, false, w.tol⟩
        (Or.inl (by simp)) 50 (by decide) {}).2 (by rw [hT]; exact (admissible_cube (by decide)).2 (by decide))
      simp only [demo.single, h, Except.map]
  | ntucker =>
      left
      obtain ⟨self', ev, hist, h, -⟩ := C136_ntucker_completes F w.topSv h1 T [10, 10, 10] (by rw [hT]; rfl) (by omega) (by omega) hpos
        (by simp) w.Ar ⟨10, false, w.tol⟩ (Or.inl (by simp)) 2000 (by decide) _
        ⟨w.ntucker, w.core, by rw [hT]; exact d3, d4, rfl⟩ {}
      simp only [demo.single, h, Except.map]

/-- The hypotheses of C155_reports and C156_single can be met. -/
example : ∃ (F : sp.Fmt) (w : ex.World F) (T : Tensor (sp.Num F)), PinvSize w.pinv ∧ SvdSize w.svd ∧ (∀ M, ∃ l, w.topSv M = .ok l) ∧
    (∀ M, ∃ q, w.svd M = .ok q) ∧ T.shape = [20, 20, 20] ∧ ExDrawsFit w 20 20 20 10 := by
  let z (s : List Nat) : Tensor (sp.Num sp.f32) := ofFn s fun _ => 1
  exact ⟨sp.f32, ⟨sp.Num.loopArith sp.f32, 0, .ok, fun _ => .ok 1, svdEx, [z [20, 10], z [20, 10], z [20, 10]], [z [20, 10], z [20, 10], z [20, 10]],
    [z [20, 10], z [20, 10], z [20, 10]], z [10, 10, 10]⟩, z [20, 20, 20], fun V P R h e => by cases e; exact h, svdEx_size, fun M => ⟨1, rfl⟩,
    fun M => ⟨_, rfl⟩, rfl, rfl, rfl, rfl, rfl⟩

end TD.Props
