import Verif.Lemmas.AlsOneRun
import Verif.Props.Cp
import Verif.Props.Momentum
import Verif.Lemmas.AlsOnePos
import Verif.Lemmas.AlsOneHooiPos
import Verif.Lemmas.AlsOneTucker
import Verif.Lemmas.AlsOneBest

/-! # C126, C127: with one component the methods perform the same iteration

`alsOne X v j` is the reconstruction after `j` sweeps of the classical alternating least squares started at the vectors
`v` (`Spec/AlsOne.lean`): vector `n` is replaced by the one that fits `X` best while the others stay. -/
namespace TD.Props
open TD Spec Tensor tf ops fact bcu

/-! ### CP_ALS -/

/-- **C126** (CP): every history entry of a training with one component reports about the reconstruction of the
alternating least squares, and the stored reconstruction is that of the last reported step. -/
theorem C126_cp (pinv : Tensor ℝ → Res (Tensor ℝ)) (hp : PinvOk pinv) (X : Tensor ℝ) (A0 : List (Tensor ℝ))
    (hA : FactorsFor X.shape 1 A0) (h2 : 2 ≤ X.order) (h25 : X.order ≤ 25) (hpos : ∀ d ∈ X.shape, 0 < d) (Ar : Arith ℝ)
    (args : Args ℝ) (steps : Int) (self self' : Self (List (Tensor ℝ)) (Tensor ℝ) (Tensor ℝ)) (ev : List Int)
    (hist : List (ℝ × ℝ))
    (h : train Ar (CP_ALS.cls (cp.main pinv X 1)) args steps (.ok A0) self = (self', ev, .ok hist)) :
    (∀ j p, hist[j]? = some p → EntryOf X (alsOne X (firstCol A0) (j + 1)) p) ∧
    ∃ p < hist.length, Reported args steps p ∧ (∀ q, p < q → q < hist.length → ¬ Reported args steps q) ∧
      self'.full = some (alsOne X (firstCol A0) (p + 1)) := by
  refine train_reports h fun s0 n o k e hr hn => ?_
  cases e
  refine run_stages (good := fun j o => o.full = alsOne X (firstCol A0) (j + 1) ∧
      EntryOf X (alsOne X (firstCol A0) (j + 1)) (o.loss, o.rel))
    (Q := fun j s => FactorsFor X.shape 1 s ∧ Parallel X.shape (firstCol s) ((refitAll X)^[j] (firstCol A0)))
    ⟨hA, Parallel.refl _ _⟩ (fun j _ s k o s' hq hrun => ?_) (fun j s s' a b hq hu => ?_) hr
  · obtain ⟨q1, q2⟩ := hq
    replace hrun : cp.main pinv X 1 s = .ok (s', o) := hrun.2
    obtain ⟨lam, m1, m2, m3, -, -, m4, m5, -⟩ := cp.main_ok hp q1 h2 h25 hpos hrun
    obtain ⟨p1, p2⟩ := cp.sweep_one hp q1 h2 h25 hpos m1 q2
    have hne : X.shape ≠ [] := by intro e; rw [Tensor.order, e] at h2; simp at h2
    obtain ⟨Y, y1, y2, y3⟩ := cp.fullOf_spec m2 hne h25 m3
    rw [m4] at y1; cases y1
    have hY : o.full = alsOne X (firstCol A0) (j + 1) := alsOne_eq m5 fun i hi => by
      rw [y3 i hi, Finset.sum_range_one, p2 i hi]
    refine ⟨⟨hY, ?_⟩, m2, by rw [Function.iterate_succ_apply']; exact p1⟩
    rw [← hY]
    unfold cp.main at hrun
    rw [m1, ok_bind] at hrun
    simp only [m4, ok_bind] at hrun
    cases hsc : cp.scalars X o.full with
    | error e => rw [hsc] at hrun; cases hrun
    | ok r =>
        obtain ⟨l, ob, rl⟩ := r
        rw [hsc, ok_bind] at hrun
        have := (Prod.ext_iff.1 (Except.ok.inj hrun)).2
        have h1 : o.loss = l := (congrArg Out.loss this).symm
        have h3 : o.rel = rl := (congrArg Out.rel this).symm
        rw [h1, h3]
        exact scalars_entry m5 hsc
  · have : s' = s := hu
    rw [this]; exact hq

/-! ### NCP_BCU -/

theorem ncp_one_stages {topSv : Tensor ℝ → Res ℝ} (ht : TopSvOk topSv) {X : Tensor ℝ} {draws : List (Tensor ℝ)} {s0 : State}
    (hd : FactorsFor X.shape 1 draws) (hdn : ∀ d ∈ draws, Nonneg d) (hi : bcu.init X X.order draws = .ok s0)
    (h2 : 2 ≤ X.order) (h25 : X.order ≤ 25) (hpos : ∀ d ∈ X.shape, 0 < d) (hX : ∀ i, InB X.shape i → 0 ≤ X.at_ i)
    {Ar : Arith ℝ} {tol : ℝ} {n : Nat} {o : Nat → Out (List (Tensor ℝ)) (Tensor ℝ) (Tensor ℝ) ℝ}
    {k : Nat → Option (Tensor ℝ)} (hr : Run Ar (NCP.cls topSv X 1) tol s0 n o k) :
    ∀ j < n, (o j).full = alsOne X (firstCol draws) (j + 1) ∧
      EntryOf X (alsOne X (firstCol draws) (j + 1)) ((o j).loss, (o j).rel) := by
  have hne : X.shape ≠ [] := by intro e; rw [Tensor.order, e] at h2; simp at h2
  obtain ⟨i1, i2, i3, i4⟩ := init_inv hi
  rw [show draws.map Tensor.shape = X.shape.map fun d => [d, 1] from hd] at i1
  have ip : 0 < normSqT X → Parallel X.shape (firstCol s0.A) (firstCol draws) := by
    intro hX0
    unfold bcu.init at hi
    cases h1 : draws.mapM (fun d => normInit X X.order (relu d)) with
    | error e => rw [h1] at hi; cases hi
    | ok A =>
        rw [h1, ok_bind] at hi
        cases hi
        exact init_par hX0 hdn hd h1
  refine run_stages (good := fun j o => o.full = alsOne X (firstCol draws) (j + 1) ∧
      EntryOf X (alsOne X (firstCol draws) (j + 1)) (o.loss, o.rel))
    (Q := fun j s => FactorsOk (X.shape.map fun d => [d, 1]) s ∧ MomentumOk s ∧
      (0 < normSqT X → Parallel X.shape (firstCol s.A) ((refitAll X)^[j] (firstCol draws))))
    ⟨i1, i2, ip⟩ (fun j _ s k o s' hq hrun => ?_) (fun j s s' a b hq hu => ?_) hr
  · obtain ⟨q1, q2, q3⟩ := hq
    replace hrun : NCP.main topSv X s = .ok (s', o) := hrun.2
    obtain ⟨m1, m2, -, -, -, m3, m4, m5, -, -, -, -, m6⟩ := NCP.main_ok q1 hne h25 hrun
    obtain ⟨p1, p2⟩ := NCP.main_one ht q1 h2 h25 hpos hX hrun (q3 m6)
    have hY : o.full = alsOne X (firstCol draws) (j + 1) := alsOne_eq m4 fun i hi => by
      rw [m5 i hi, Finset.sum_range_one, p2 i hi]
    obtain ⟨-, -, -, -, -, -, hsc⟩ := NCP.main_inv hrun
    refine ⟨⟨hY, ?_⟩, m1, (m2 q2).1, fun _ => by rw [Function.iterate_succ_apply']; exact p1⟩
    rw [← hY]
    exact scalars_entry m4 hsc
  · obtain ⟨q1, q2, q3⟩ := hq
    change (if Ar.lt a b then NCP.op1 X.order s = .ok s' else NCP.op2 s = .ok s') at hu
    cases hb : Ar.lt a b with
    | true =>
        rw [hb, if_pos rfl] at hu
        obtain ⟨e1, e2, e3, -⟩ := NCP.op1_ok q1 q2 hu
        exact ⟨e1, e2, by rw [e3]; exact q3⟩
    | false =>
        rw [hb, if_neg (by simp)] at hu
        obtain ⟨e1, e2, -⟩ := NCP.op2_ok q1 q2 hu
        have : s'.A = s.A := by cases hu; rfl
        exact ⟨e1, e2, by rw [this]; exact q3⟩

/-- **C126** (NCP): for a nonnegative tensor and nonnegative drawn vectors `NCP_BCU` performs the same iteration, although
it starts at rescaled draws, takes gradient steps at extrapolated points and decides whether to restart. -/
theorem C126_ncp (topSv : Tensor ℝ → Res ℝ) (ht : TopSvOk topSv) (X : Tensor ℝ) (draws : List (Tensor ℝ)) (s0 : State)
    (hd : FactorsFor X.shape 1 draws) (hdn : ∀ d ∈ draws, Nonneg d) (hi : bcu.init X X.order draws = .ok s0)
    (h2 : 2 ≤ X.order) (h25 : X.order ≤ 25) (hpos : ∀ d ∈ X.shape, 0 < d) (hX : ∀ i, InB X.shape i → 0 ≤ X.at_ i)
    (Ar : Arith ℝ) (args : Args ℝ) (steps : Int) (self self' : Self (List (Tensor ℝ)) (Tensor ℝ) (Tensor ℝ)) (ev : List Int)
    (hist : List (ℝ × ℝ)) (h : train Ar (NCP.cls topSv X 1) args steps (.ok s0) self = (self', ev, .ok hist)) :
    (∀ j p, hist[j]? = some p → EntryOf X (alsOne X (firstCol draws) (j + 1)) p) ∧
    ∃ p < hist.length, Reported args steps p ∧ (∀ q, p < q → q < hist.length → ¬ Reported args steps q) ∧
      self'.full = some (alsOne X (firstCol draws) (p + 1)) := by
  refine train_reports h fun s n o k e hr hn => ?_
  cases e
  exact ncp_one_stages ht hd hdn hi h2 h25 hpos hX hr

/-! ### NTUCKER_BCU -/

/-- **C126** (NTUCKER): so does `NTUCKER_BCU` with all ranks one, whatever the core is. -/
theorem C126_ntucker (topSv : Tensor ℝ → Res ℝ) (ht : TopSvOk topSv) (X : Tensor ℝ) (draws : List (Tensor ℝ))
    (gdraw : Tensor ℝ) (s0 : TState) (hd : FactorsFor X.shape 1 draws) (hdn : ∀ d ∈ draws, Nonneg d)
    (hg : gdraw.shape = List.replicate X.shape.length 1) (hi : NTUCKER.init X draws gdraw = .ok s0)
    (h2 : 2 ≤ X.order) (h13 : X.order ≤ 13) (hpos : ∀ d ∈ X.shape, 0 < d) (hX : ∀ i, InB X.shape i → 0 ≤ X.at_ i)
    (Ar : Arith ℝ) (args : Args ℝ) (steps : Int) (self self' : Self (List (Tensor ℝ)) (Tensor ℝ) (Tensor ℝ)) (ev : List Int)
    (hist : List (ℝ × ℝ)) (h : train Ar (NTUCKER.cls topSv X) args steps (.ok s0) self = (self', ev, .ok hist)) :
    (∀ j p, hist[j]? = some p → EntryOf X (alsOne X (firstCol draws) (j + 1)) p) ∧
    ∃ p < hist.length, Reported args steps p ∧ (∀ q, p < q → q < hist.length → ¬ Reported args steps q) ∧
      self'.full = some (alsOne X (firstCol draws) (p + 1)) := by
  refine train_reports h fun s n o k e hr hn => ?_
  cases e
  obtain ⟨i1, i2, -⟩ := NTUCKER.init_inv hi (tuckerShapes_iff.2 (tucker_ones.2 hd)) hg
  have ip : 0 < normSqT X → Parallel X.shape (firstCol s0.A) (firstCol draws) := by
    intro hX0
    unfold NTUCKER.init bcu.init at hi
    cases h1 : draws.mapM (fun d => normInit X (X.order + 1) (relu d)) with
    | error e => rw [h1] at hi; cases hi
    | ok A =>
        rw [h1] at hi
        cases h3 : normInit X (X.order + 1) (relu gdraw) with
        | error e => rw [h3] at hi; cases hi
        | ok g =>
            rw [h3] at hi
            cases hi
            exact init_par hX0 hdn hd h1
  refine run_stages (good := fun j o => o.full = alsOne X (firstCol draws) (j + 1) ∧
      EntryOf X (alsOne X (firstCol draws) (j + 1)) (o.loss, o.rel))
    (Q := fun j s => TkOk X.shape (List.replicate X.shape.length 1) s ∧ MomentumOk s.toState ∧
      (0 < normSqT X → Parallel X.shape (firstCol s.A) ((refitAll X)^[j] (firstCol draws))))
    ⟨i1, i2, ip⟩ (fun j _ s k o s' hq hrun => ?_) (fun j s s' a b hq hu => ?_) hr
  · obtain ⟨q1, q2, q3⟩ := hq
    obtain ⟨s1, v, hc, -, hrun⟩ := hrun
    replace hc : NTUCKER.core topSv X s = .ok (s1, v) := hc
    replace hrun : NTUCKER.main topSv X s1 = .ok (s', o) := hrun
    obtain ⟨c1, c2, -, -, c3, -⟩ := NTUCKER.core_ok q1 hc
    obtain ⟨m1, m2, -, -, -, -, -, -, -, m4, -, -, -, -, -, m6⟩ := NTUCKER.main_ok c1 (by simp) (by omega) h13 hrun
    obtain ⟨p1, p2⟩ := NTUCKER.main_one ht c1 h2 h13 hpos hX hrun (by rw [c3]; exact q3 m6)
    have hY : o.full = alsOne X (firstCol draws) (j + 1) := alsOne_eq m4 p2
    obtain ⟨-, -, -, -, -, -, hsc⟩ := NTUCKER.main_inv hrun
    refine ⟨⟨hY, ?_⟩, m1, (m2 (c2 q2)).1, fun _ => by rw [Function.iterate_succ_apply']; exact p1⟩
    rw [← hY]
    exact scalars_entry m4 hsc
  · obtain ⟨q1, q2, q3⟩ := hq
    change (if Ar.lt a b then NTUCKER.op1 X.order s = .ok s' else NTUCKER.op2 s = .ok s') at hu
    cases hb : Ar.lt a b with
    | true =>
        rw [hb, if_pos rfl] at hu
        obtain ⟨e1, e2, e3, -⟩ := NTUCKER.op1_ok q1 q2 hu
        exact ⟨e1, e2, by rw [e3]; exact q3⟩
    | false =>
        rw [hb, if_neg (by simp)] at hu
        obtain ⟨e1, e2, -⟩ := NTUCKER.op2_ok q1 q2 hu
        have : s'.A = s.A := by cases hu; rfl
        exact ⟨e1, e2, by rw [this]; exact q3⟩

/-! ### HOOI -/

/-- **C126** (HOOI): with all ranks one HOOI performs the same iteration from the leading singular vectors, unless these
are orthogonal to the tensor (the core is zero). -/
theorem C126_hooi (svd : Tensor ℝ → Res (Tensor ℝ × Tensor ℝ × Tensor ℝ)) (hs : SvdOk svd) (X : Tensor ℝ) (ranks : List Nat)
    (h2 : 2 ≤ X.order) (h13 : X.order ≤ 13) (hpos : ∀ d ∈ X.shape, 0 < d) (hlen : X.order ≤ ranks.length)
    (hr : ∀ n < X.order, ranks.getD n 0 = 1) (A0 : List (Tensor ℝ)) (hi : tucker.HOOI.init svd X ranks = .ok A0)
    (hcore : boxSum X.shape (fun i => X.at_ i * outerEntry X.order (firstCol A0) i) ≠ 0) (Ar : Arith ℝ) (args : Args ℝ)
    (steps : Int) (self self' : Self (List (Tensor ℝ)) (Tensor ℝ) (Tensor ℝ)) (ev : List Int) (hist : List (ℝ × ℝ))
    (h : train Ar (HOOI.cls (tucker.HOOI.main svd X ranks)) args steps (tucker.HOOI.init svd X ranks) self =
      (self', ev, .ok hist)) :
    (∀ j p, hist[j]? = some p → EntryOf X (alsOne X (firstCol A0) (j + 1)) p) ∧
    ∃ p < hist.length, Reported args steps p ∧ (∀ q, p < q → q < hist.length → ¬ Reported args steps q) ∧
      self'.full = some (alsOne X (firstCol A0) (p + 1)) := by
  refine train_reports h fun s n o k e hrun hn => ?_
  rw [hi] at e
  cases e
  obtain ⟨i1, i2, -⟩ := hooi_init_one hs hpos hlen hr hi
  refine run_stages (good := fun j o => o.full = alsOne X (firstCol A0) (j + 1) ∧
      EntryOf X (alsOne X (firstCol A0) (j + 1)) (o.loss, o.rel))
    (Q := fun j s => HooiOne X ranks s ∧ Parallel X.shape (firstCol s) ((refitAll X)^[j] (firstCol A0)))
    ⟨⟨i1, i2, hcore⟩, Parallel.refl _ _⟩ (fun j _ s k o s' hq hrun => ?_) (fun j s s' a b hq hu => ?_) hrun
  · obtain ⟨q1, q2⟩ := hq
    replace hrun : tucker.HOOI.main svd X ranks s = .ok (s', o) := hrun.2
    obtain ⟨m1, m2, m3, m4, m5⟩ := hooi_main_one hs h2 h13 hpos hlen hr q1 hrun q2
    have hY : o.full = alsOne X (firstCol A0) (j + 1) := alsOne_eq m3 m4
    refine ⟨⟨hY, ?_⟩, m1, by rw [Function.iterate_succ_apply']; exact m2⟩
    rw [← hY]
    exact scalars_entry m3 m5
  · have : s' = s := hu
    rw [this]; exact hq

/-- **C126** (HOOI, positive tensors): the leading singular vectors of a positive tensor are never orthogonal to it. -/
theorem C126_hooi_positive (svd : Tensor ℝ → Res (Tensor ℝ × Tensor ℝ × Tensor ℝ)) (hs : SvdOk svd) (X : Tensor ℝ)
    (ranks : List Nat) (h2 : 2 ≤ X.order) (h13 : X.order ≤ 13) (hpos : ∀ d ∈ X.shape, 0 < d) (hlen : X.order ≤ ranks.length)
    (hr : ∀ n < X.order, ranks.getD n 0 = 1) (hX : ∀ i, InB X.shape i → 0 < X.at_ i) (Ar : Arith ℝ) (args : Args ℝ)
    (steps : Int) (self self' : Self (List (Tensor ℝ)) (Tensor ℝ) (Tensor ℝ)) (ev : List Int) (hist : List (ℝ × ℝ))
    (h : train Ar (HOOI.cls (tucker.HOOI.main svd X ranks)) args steps (tucker.HOOI.init svd X ranks) self =
      (self', ev, .ok hist)) :
    ∃ A0, tucker.HOOI.init svd X ranks = .ok A0 ∧
      (∀ j p, hist[j]? = some p → EntryOf X (alsOne X (firstCol A0) (j + 1)) p) ∧
      ∃ p < hist.length, Reported args steps p ∧ (∀ q, p < q → q < hist.length → ¬ Reported args steps q) ∧
        self'.full = some (alsOne X (firstCol A0) (p + 1)) := by
  obtain ⟨s0, n, o, kc, h0, -⟩ := train_ok h
  exact ⟨s0, h0, C126_hooi svd hs X ranks h2 h13 hpos hlen hr s0 h0 ((hooi_init_one hs hpos hlen hr h0).2.2 hX) Ar args steps
    self self' ev hist h⟩

/-! ### Agreement -/

theorem reports_unique {X Y : Tensor ℝ} {p q : ℝ × ℝ} (h1 : EntryOf X Y p) (h2 : EntryOf X Y q) : p = q := by
  refine Prod.ext ?_ (h1.2.trans h2.2.symm)
  exact Option.some.inj (Except.ok.inj (h1.1.symm.trans h2.1))

/-- **C126** (agreement): `CP_ALS`, `NCP_BCU` and `NTUCKER_BCU` with one component, started from the same nonnegative
draws on a nonnegative tensor, report the same history as far as they run, whatever their other arguments are. -/
theorem C126_agree (pinv : Tensor ℝ → Res (Tensor ℝ)) (hp : PinvOk pinv) (topSv : Tensor ℝ → Res ℝ) (ht : TopSvOk topSv)
    (X : Tensor ℝ) (draws : List (Tensor ℝ)) (gdraw : Tensor ℝ) (s0 : State) (t0 : TState) (hd : FactorsFor X.shape 1 draws)
    (hdn : ∀ d ∈ draws, Nonneg d) (hg : gdraw.shape = List.replicate X.shape.length 1)
    (hi : bcu.init X X.order draws = .ok s0) (hti : NTUCKER.init X draws gdraw = .ok t0) (h2 : 2 ≤ X.order)
    (h13 : X.order ≤ 13) (hpos : ∀ d ∈ X.shape, 0 < d) (hX : ∀ i, InB X.shape i → 0 ≤ X.at_ i) (Ar Ar' Ar'' : Arith ℝ)
    (args args' args'' : Args ℝ) (steps steps' steps'' : Int)
    (self self' self1 self1' self2 self2' : Self (List (Tensor ℝ)) (Tensor ℝ) (Tensor ℝ)) (ev ev' ev'' : List Int)
    (hist hist' hist'' : List (ℝ × ℝ))
    (h : train Ar (CP_ALS.cls (cp.main pinv X 1)) args steps (.ok draws) self = (self', ev, .ok hist))
    (h' : train Ar' (NCP.cls topSv X 1) args' steps' (.ok s0) self1 = (self1', ev', .ok hist'))
    (h'' : train Ar'' (NTUCKER.cls topSv X) args'' steps'' (.ok t0) self2 = (self2', ev'', .ok hist'')) (j : Nat) :
    (j < hist.length → j < hist'.length → hist[j]? = hist'[j]?) ∧
    (j < hist.length → j < hist''.length → hist[j]? = hist''[j]?) ∧
    (j < hist'.length → j < hist''.length → hist'[j]? = hist''[j]?) := by
  have a := (C126_cp pinv hp X draws hd h2 (by omega) hpos Ar args steps self self' ev hist h).1 j
  have b := (C126_ncp topSv ht X draws s0 hd hdn hi h2 (by omega) hpos hX Ar' args' steps' self1 self1' ev' hist' h').1 j
  have c := (C126_ntucker topSv ht X draws gdraw t0 hd hdn hg hti h2 h13 hpos hX Ar'' args'' steps'' self2 self2' ev'' hist''
    h'').1 j
  refine ⟨fun u v => ?_, fun u v => ?_, fun u v => ?_⟩ <;>
    rw [List.getElem?_eq_getElem u, List.getElem?_eq_getElem v]
  · exact congrArg some (reports_unique (a _ (List.getElem?_eq_getElem u)) (b _ (List.getElem?_eq_getElem v)))
  · exact congrArg some (reports_unique (a _ (List.getElem?_eq_getElem u)) (c _ (List.getElem?_eq_getElem v)))
  · exact congrArg some (reports_unique (b _ (List.getElem?_eq_getElem u)) (c _ (List.getElem?_eq_getElem v)))

/-- **C126** (what a fit is): among all vectors for mode `n`, the one that `refit` takes gives the smallest squared
distance to the data. -/
theorem C126_best (X : Tensor ℝ) (n : Nat) (hn : n < X.order) (v : Nat → Nat → ℝ) (u : Nat → ℝ) :
    boxSum X.shape (fun i => (X.at_ i - outerEntry X.order (refit X v n) i) ^ 2) ≤
      boxSum X.shape fun i => (X.at_ i - outerEntry X.order (Function.update v n u) i) ^ 2 := refit_best hn v u

/-! ### C127 -/

/-- **C127**: with one component the residuals reported by `NCP_BCU` never rise, at any step, for any tensor and any
draws (with more components this is only guaranteed while the extrapolation weights are zero, C54). -/
theorem C127_never_rises (topSv : Tensor ℝ → Res ℝ) (ht : TopSvOk topSv) (X : Tensor ℝ) (s0 : State) (h0 : NcpInit X 1 s0)
    (h2 : 2 ≤ X.order) (h25 : X.order ≤ 25) (hpos : ∀ d ∈ X.shape, 0 < d)
    (args : Args ℝ) (steps : Int) (self self' : Self (List (Tensor ℝ)) (Tensor ℝ) (Tensor ℝ)) (ev : List Int)
    (hist : List (ℝ × ℝ))
    (h : train (exactArith ℝ) (NCP.cls topSv X 1) args steps (.ok s0) self = (self', ev, .ok hist)) (i j : Nat) (hij : i ≤ j)
    (p q : ℝ × ℝ) (hp : hist[i]? = some p) (hq : hist[j]? = some q) : q.2 ≤ p.2 := by
  have hne : X.shape ≠ [] := by intro e; rw [Tensor.order, e] at h2; simp at h2
  obtain ⟨F, M, lip, -, -, -, -, hF⟩ := ncp_iterates topSv X 1 hne h25 s0 h0 args steps self self' ev hist h
  have hres : ∀ i p, hist[i]? = some p → p.2 = Real.sqrt (cpErr X 1 (F (i + 1)) fun _ => 1) / Real.sqrt (normSqT X) := by
    intro i p hp
    have := (hF i (List.getElem?_eq_some_iff.1 hp).1).1
    rw [hp] at this
    exact Option.some.inj this
  have key : ∀ d, i + d < hist.length → cpErr X 1 (F (i + d + 1)) (fun _ => 1) ≤ cpErr X 1 (F (i + 1)) fun _ => 1 := by
    intro d
    induction d with
    | zero => intro _; exact le_refl _
    | succ d ih =>
        intro hd
        obtain ⟨-, ⟨s, s', o, a, b, c, -, e, -⟩, -⟩ := hF (i + (d + 1)) hd
        have := NCP.main_one_descends ht a h2 h25 hpos b
        rw [c, e] at this
        exact le_trans this (ih (by omega))
  rw [hres i p hp, hres j q hq]
  obtain ⟨d, rfl⟩ := Nat.exists_eq_add_of_le hij
  exact div_le_div_of_nonneg_right (Real.sqrt_le_sqrt (key d (List.getElem?_eq_some_iff.1 hq).1)) (Real.sqrt_nonneg _)

/-- **C127** (NTUCKER): on a nonnegative tensor with nonnegative draws the residuals reported by `NTUCKER_BCU` with all
ranks one never rise either. -/
theorem C127_ntucker (topSv : Tensor ℝ → Res ℝ) (ht : TopSvOk topSv) (X : Tensor ℝ) (draws : List (Tensor ℝ))
    (gdraw : Tensor ℝ) (s0 : TState) (hd : FactorsFor X.shape 1 draws) (hdn : ∀ d ∈ draws, Nonneg d)
    (hg : gdraw.shape = List.replicate X.shape.length 1) (hi : NTUCKER.init X draws gdraw = .ok s0)
    (h2 : 2 ≤ X.order) (h13 : X.order ≤ 13) (hpos : ∀ d ∈ X.shape, 0 < d) (hX : ∀ i, InB X.shape i → 0 ≤ X.at_ i)
    (Ar : Arith ℝ) (args : Args ℝ) (steps : Int) (self self' : Self (List (Tensor ℝ)) (Tensor ℝ) (Tensor ℝ)) (ev : List Int)
    (hist : List (ℝ × ℝ)) (h : train Ar (NTUCKER.cls topSv X) args steps (.ok s0) self = (self', ev, .ok hist))
    (i j : Nat) (hij : i ≤ j) (p q : ℝ × ℝ) (hp : hist[i]? = some p) (hq : hist[j]? = some q) : q.2 ≤ p.2 :=
  entries_le (C126_ntucker topSv ht X draws gdraw s0 hd hdn hg hi h2 h13 hpos hX Ar args steps self self' ev hist h).1 hij hp hq

/-- **C127** (no breakdown): on a positive tensor with positive draws the initialisation succeeds and `train` returns, for
every number of steps. -/
theorem C127_positive (topSv : Tensor ℝ → Res ℝ) (ht : TopSvOk topSv) (X : Tensor ℝ) (draws : List (Tensor ℝ))
    (hd : FactorsFor X.shape 1 draws) (hdp : ∀ M ∈ draws, ∀ i < M.shape.getD 0 0, 0 < M.at_ [i, 0]) (h2 : 2 ≤ X.order)
    (h25 : X.order ≤ 25) (hpos : ∀ d ∈ X.shape, 0 < d) (hX : ∀ i, InB X.shape i → 0 < X.at_ i) (Ar : Arith ℝ)
    (args : Args ℝ) (hv : args.validationInternal ≠ 0) (steps : Int) (hs : 1 ≤ steps)
    (self : Self (List (Tensor ℝ)) (Tensor ℝ) (Tensor ℝ)) :
    ∃ s0 hist, bcu.init X X.order draws = .ok s0 ∧ (train Ar (NCP.cls topSv X 1) args steps (.ok s0) self).2.2 = .ok hist := by
  have hsh : ∀ M ∈ draws, ∃ k < X.order, draws[k]? = some M ∧ M.shape = [X.shape.getD k 0, 1] := fun M hM => by
    obtain ⟨k, hk⟩ := List.getElem?_of_mem hM
    exact ⟨k, by have := (List.getElem?_eq_some_iff.1 hk).1; rw [hd.length] at this; exact this, hk, hd.get hk⟩
  have hnn : ∀ M ∈ draws, Nonneg M := fun M hM => by
    obtain ⟨k, hk, -, e⟩ := hsh M hM
    refine nonneg_of_at fun i hi => ?_
    rw [e] at hi
    obtain ⟨a, b, rfl, ha, hb⟩ := InB_pair.1 hi
    obtain rfl : b = 0 := by omega
    exact (hdp M hM a (by rw [e]; exact ha)).le
  have hX0 : 0 < normSqT X := by
    have h0 : InB X.shape (unravel X.shape 0) := unravel_inB (List.prod_pos hpos)
    refine lt_of_le_of_ne (loss.boxSum_nonneg _ fun i _ => sq_nonneg _) fun e => ?_
    have := (loss.boxSum_eq_zero X.shape (fun i _ => sq_nonneg (X.at_ i))).1 e.symm _ h0
    exact (hX _ h0).ne' (by simpa using this)
  have hinit : ∃ A, draws.mapM (fun d => normInit X X.order (relu d)) = .ok A := by
    have : ∀ l : List (Tensor ℝ), (∀ M ∈ l, M ∈ draws) → ∃ A, l.mapM (fun d => normInit X X.order (relu d)) = .ok A := by
      intro l
      induction l with
      | nil => intro _; exact ⟨[], rfl⟩
      | cons M l ih =>
          intro hl
          obtain ⟨A, hA⟩ := ih fun M hM => hl M (by simp [hM])
          have hM := hl M (by simp)
          obtain ⟨k, hk, -, e⟩ := hsh M hM
          have hp := cp.getD_pos hpos hk
          have : tf.norm (relu M) ≠ 0 := by
            rw [relu_of_nonneg (hnn M hM), tf.norm, reduceSum_sq]
            refine (Real.sqrt_pos.2 (lt_of_le_of_ne (loss.boxSum_nonneg _ fun i _ => sq_nonneg _) fun h => ?_)).ne'
            have hz := (loss.boxSum_eq_zero M.shape (fun i _ => sq_nonneg (M.at_ i))).1 h.symm [0, 0]
              (by rw [e]; exact InB_pair.2 ⟨0, 0, rfl, hp, Nat.one_pos⟩)
            exact (hdp M hM 0 (by rw [e]; exact hp)).ne' (by simpa using hz)
          have h1 : ∃ B, normInit X X.order (relu M) = .ok B := by
            unfold normInit
            rw [if_neg this]
            exact ⟨_, rfl⟩
          obtain ⟨B, hB⟩ := h1
          exact ⟨B :: A, by rw [List.mapM_cons, hB, ok_bind, hA, ok_bind]; rfl⟩
    exact this draws fun M hM => hM
  obtain ⟨A, hA⟩ := hinit
  have hi : bcu.init X X.order draws = .ok ⟨A, A, A, fun _ => 1, fun _ => 1, fun _ => 1, 1, 1⟩ := by
    unfold bcu.init; rw [hA]; rfl
  obtain ⟨i1, i2, -⟩ := init_inv hi
  rw [show draws.map Tensor.shape = X.shape.map fun d => [d, 1] from hd] at i1
  have hpar := init_par_pos hX0 hnn hd hA
  have hone : OnePos X ⟨A, A, A, fun _ => 1, fun _ => 1, fun _ => 1, 1, 1⟩ := by
    refine ⟨i1, i2, fun k hk a ha => ?_, fun _ _ => one_ne_zero⟩
    obtain ⟨c, c1, c2⟩ := hpar
    rw [c2 k hk a ha]
    have hk' : k < draws.length := by rw [hd.length]; exact hk
    rw [firstCol_get (List.getElem?_eq_getElem hk')]
    exact mul_pos (c1 k hk) (hdp _ (List.getElem_mem hk') a (by
      rw [hd.get (List.getElem?_eq_getElem hk')]; exact ha))
  obtain ⟨hist, hh⟩ := train_safe (A := Ar) (c := NCP.cls topSv X 1) (I := OnePos X)
    ⟨fun s hI => hI.main ht h2 h25 hpos hX, by rintro f ⟨⟩, by
      rintro p hp s hI
      cases hp
      exact ⟨hI.op1, hI.op2⟩⟩ hone (Or.inl hv) hs self
  exact ⟨_, hist, hi, hh⟩

/-- The hypotheses of C126 and C127 are met by a 2 × 3 tensor with entries `1 + i + j` and draws of ones: both
trainings return. -/
example : let X : Tensor ℝ := mat 2 3 fun i j => (i : ℝ) + j + 1
    let draws : List (Tensor ℝ) := [mat 2 1 fun _ _ => 1, mat 3 1 fun _ _ => 1]
    FactorsFor X.shape 1 draws ∧ (∀ M ∈ draws, ∀ i < M.shape.getD 0 0, 0 < M.at_ [i, 0]) ∧ 2 ≤ X.order ∧
      X.order ≤ 25 ∧ (∀ d ∈ X.shape, 0 < d) ∧ ∀ i, InB X.shape i → 0 < X.at_ i := by
  refine ⟨rfl, ?_, by decide, by decide, by decide, ?_⟩
  · intro M hM i hi
    simp only [List.mem_cons, List.not_mem_nil, or_false] at hM
    rcases hM with rfl | rfl
    · have hi : i < 2 := hi
      rw [at_mat _ hi (by omega)]; norm_num
    · have hi : i < 3 := hi
      rw [at_mat _ hi (by omega)]; norm_num
  · intro i hi
    obtain ⟨a, b, rfl, ha, hb⟩ := InB_pair.1 hi
    rw [at_mat _ ha hb]
    positivity

end TD.Props
