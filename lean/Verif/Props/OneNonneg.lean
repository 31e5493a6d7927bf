import Verif.Lemmas.CpNonneg
import Verif.Lemmas.AlsOneTuckerAt
import Verif.Props.PowerLimit

/-!
# C166 : when one-component training on nonnegative data breaks down
-/
namespace TD.Props
open TD Spec Tensor tf ops fact bcu Filter Topology

/-- **C166** (CP): with one component, nonnegative data and nonnegative initial vectors `train` returns, for every number of steps,
exactly if the data have a nonzero entry at which no initial vector of a mode other than the first is zero. -/
theorem C166_cp (pinv : Tensor ℝ → Res (Tensor ℝ)) (hp : PinvOk pinv) (X : Tensor ℝ) (A0 : List (Tensor ℝ))
    (hA : FactorsFor X.shape 1 A0) (hA0 : ∀ k < X.order, ∀ a < X.shape.getD k 0, 0 ≤ firstCol A0 k a) (h2 : 2 ≤ X.order)
    (h25 : X.order ≤ 25) (hpos : ∀ d ∈ X.shape, 0 < d) (hX : ∀ i, InB X.shape i → 0 ≤ X.at_ i) (Ar : Arith ℝ)
    (args : Args ℝ) (hv : args.validationInternal ≠ 0) (steps : Int) (hs : 1 ≤ steps)
    (self : Self (List (Tensor ℝ)) (Tensor ℝ) (Tensor ℝ)) :
    (∃ hist, (train Ar (CP_ALS.cls (cp.main pinv X 1)) args steps (.ok A0) self).2.2 = .ok hist) ↔
      ∃ e, InB X.shape e ∧ X.at_ e ≠ 0 ∧ ∀ k, 1 ≤ k → k < X.order → firstCol A0 k (e.getD k 0) ≠ 0 := by
  have hlt : ∀ {k : Nat} {M : Tensor ℝ}, A0[k]? = some M → k < X.order := fun hk => by
    have := (List.getElem?_eq_some_iff.1 hk).1
    rw [hA.length] at this; exact this
  constructor
  · rintro ⟨hist, hh⟩
    obtain ⟨s0, n, o, kc, h0, h1, -, hr, -, -, -, ⟨p, hp', -⟩, -⟩ := train_ok (Prod.ext rfl (Prod.ext rfl hh) :
      train Ar (CP_ALS.cls (cp.main pinv X 1)) args steps (.ok A0) self = (_, _, .ok hist))
    cases h0
    obtain ⟨σ, hσ, hrun⟩ := hr.ran
    obtain ⟨s, hr0, -⟩ := hrun 0 (by omega)
    have hm : cp.main pinv X 1 (σ 0) = .ok (s, o 0) := hr0.2
    rw [hσ] at hm
    have hu : ∃ u, cp.modeUpdate pinv X 1 A0 0 = .ok u := by
      unfold cp.main cp.sweep at hm
      obtain ⟨N, hN⟩ : ∃ N, X.order = N + 1 := ⟨X.order - 1, by omega⟩
      rw [hN, List.range_succ_eq_map, List.foldlM_cons] at hm
      cases hu : cp.modeUpdate pinv X 1 A0 0 with
      | error e => simp only [hu] at hm; cases hm
      | ok u => exact ⟨u, rfl⟩
    obtain ⟨u, hu⟩ := hu
    obtain ⟨e, he, hXe, hf⟩ := cp.modeUpdate_entry hp hA h2 h25 (by omega) (cp.getD_pos hpos (show 0 < X.order by omega)) hu
    refine ⟨e, he, hXe, fun k h1 hk => ?_⟩
    have hk' : A0[k]? = some (A0[k]'(by rw [hA.length]; exact hk)) := List.getElem?_eq_getElem _
    rw [firstCol_get hk']
    exact hf k _ (by omega) hk'
  · rintro ⟨e, he, hXe, hf⟩
    have hXe : 0 < X.at_ e := lt_of_le_of_ne (hX e he) (Ne.symm hXe)
    refine train_safe (I := cp.PosAt X.shape e (1 ≤ ·)) ⟨fun s hI => ?_, by rintro f ⟨⟩, by rintro f ⟨⟩⟩
      ⟨hA, fun k M _ hk i hi => ?_, fun k M h1 hk => ?_⟩ (Or.inl hv) hs self
    · obtain ⟨A', lam, h1, h3⟩ := cp.sweep_at hp hI h2 h25 hX he hXe
      obtain ⟨-, hl, -⟩ := cp.sweep_descends hp hI.1 h2 h25 hpos h1
      have hne : X.shape ≠ [] := by
        intro e; unfold order at h2; rw [e] at h2; simp at h2
      obtain ⟨Y, y1, y2, -⟩ := cp.fullOf_spec h3.1 hne h25 hl
      obtain ⟨⟨l, obj, rel⟩, hq⟩ := cp.scalars_total y2 ⟨_, he, hXe.ne'⟩
      refine ⟨A', ⟨A', some lam, Y, l, obj, rel⟩, ?_, h3⟩
      change cp.main pinv X 1 s = _
      unfold cp.main
      rw [h1, ok_bind]
      simp only [y1, ok_bind, hq]
      rfl
    · have := hA0 k (hlt hk) i (by rw [hA.get hk] at hi; exact hi)
      rwa [firstCol_get hk] at this
    · have h3 := hf k h1 (hlt hk)
      have h4 := hA0 k (hlt hk) (e.getD k 0) ((InB_iff_getD.1 he).2 k (hlt hk))
      rw [firstCol_get hk] at h3 h4
      exact lt_of_le_of_ne h4 (Ne.symm h3)

/-- **C166** (NCP): with one component, nonnegative data and nonnegative draws the initialisation succeeds and `train` returns, for
every number of steps, exactly if the draw of the first mode is not zero and the data have a nonzero entry at which no draw of another
mode is zero. -/
theorem C166_ncp (topSv : Tensor ℝ → Res ℝ) (ht : TopSvOk topSv) (X : Tensor ℝ) (draws : List (Tensor ℝ))
    (hd : FactorsFor X.shape 1 draws) (hdn : ∀ M ∈ draws, Nonneg M) (h2 : 2 ≤ X.order)
    (h25 : X.order ≤ 25) (hpos : ∀ d ∈ X.shape, 0 < d) (hX : ∀ i, InB X.shape i → 0 ≤ X.at_ i) (Ar : Arith ℝ)
    (args : Args ℝ) (hv : args.validationInternal ≠ 0) (steps : Int) (hs : 1 ≤ steps)
    (self : Self (List (Tensor ℝ)) (Tensor ℝ) (Tensor ℝ)) :
    (∃ s0 hist, bcu.init X X.order draws = .ok s0 ∧ (train Ar (NCP.cls topSv X 1) args steps (.ok s0) self).2.2 = .ok hist) ↔
      (∃ a < X.shape.getD 0 0, firstCol draws 0 a ≠ 0) ∧
      ∃ e, InB X.shape e ∧ X.at_ e ≠ 0 ∧ ∀ k, 1 ≤ k → k < X.order → firstCol draws k (e.getD k 0) ≠ 0 := by
  have hsh : ∀ M ∈ draws, ∃ k < X.order, draws[k]? = some M ∧ M.shape = [X.shape.getD k 0, 1] := fun M hM => by
    obtain ⟨k, hk⟩ := List.getElem?_of_mem hM
    exact ⟨k, by have := (List.getElem?_eq_some_iff.1 hk).1; rw [hd.length] at this; exact this, hk, hd.get hk⟩
  constructor
  · rintro ⟨s0, hist, hi, hh⟩
    obtain ⟨A, hA, rfl⟩ : ∃ A, draws.mapM (fun d => normInit X X.order (relu d)) = .ok A ∧
        (⟨A, A, A, fun _ => 1, fun _ => 1, fun _ => 1, 1, 1⟩ : State) = s0 := by
      unfold bcu.init at hi
      cases hA : draws.mapM (fun d => normInit X X.order (relu d)) with
      | error e => rw [hA] at hi; cases hi
      | ok A => rw [hA] at hi; exact ⟨A, rfl, Except.ok.inj hi⟩
    obtain ⟨i1, i2, -⟩ := init_inv hi
    rw [show draws.map Tensor.shape = X.shape.map fun d => [d, 1] from hd] at i1
    obtain ⟨f1, -, f3⟩ := i1.factorsFor
    have hf := bcu.mapM_inv hA
    refine ⟨?_, ?_⟩
    · have h0 : 0 < draws.length := by rw [hd.length]; exact (by omega : 0 < X.order)
      have hg : draws[0]? = some draws[0] := List.getElem?_eq_getElem h0
      by_contra hn
      push Not at hn
      have hz : tf.norm (relu draws[0]) = 0 := by
        rw [relu_of_nonneg (hdn _ (List.getElem_mem h0)), tf.norm, reduceSum_sq]
        refine Real.sqrt_eq_zero'.2 (le_of_eq ?_)
        unfold normSqT
        rw [hd.get hg]
        refine (boxSum_congr fun i hi => ?_).trans (boxSum_zero (α := ℝ) _)
        obtain ⟨a, b, rfl, ha, hb⟩ := InB_pair.1 hi
        obtain rfl : b = 0 := by omega
        have := hn a ha
        rw [firstCol_get hg] at this
        show _ ^ 2 = (0 : ℝ)
        rw [this]; ring
      obtain ⟨B, hB⟩ : ∃ B, normInit X X.order (relu draws[0]) = .ok B := ⟨_, hf.get h0 (by rw [← hf.length_eq]; exact h0)⟩
      unfold normInit at hB
      rw [if_pos hz] at hB
      cases hB
    · obtain ⟨s0, n, o, kc, h0, h1, -, hr, -, -, -, ⟨p, hp', -⟩, -⟩ := train_ok (Prod.ext rfl (Prod.ext rfl hh) :
        train Ar (NCP.cls topSv X 1) args steps (.ok _) self = (_, _, .ok hist))
      cases h0
      obtain ⟨σ, hσ, hrun⟩ := hr.ran
      obtain ⟨s, hr0, -⟩ := hrun 0 (by omega)
      have hm : NCP.main topSv X (σ 0) = .ok (s, o 0) := hr0.2
      rw [hσ] at hm
      obtain ⟨u, w, hu, hw⟩ : ∃ u w, NCP.modeUpdate topSv X ⟨A, A, A, fun _ => 1, fun _ => 1, fun _ => 1, 1, 1⟩ 0 = .ok u ∧
          NCP.modeUpdate topSv X u 1 = .ok w := by
        unfold NCP.main at hm
        obtain ⟨N, hN⟩ : ∃ N, X.order = N + 1 + 1 := ⟨X.order - 2, by omega⟩
        rw [hN, List.range_succ_eq_map, List.range_succ_eq_map, List.map_cons, List.foldlM_cons] at hm
        cases hu : NCP.modeUpdate topSv X ⟨A, A, A, fun _ => 1, fun _ => 1, fun _ => 1, 1, 1⟩ 0 with
        | error e => simp only [hu] at hm; cases hm
        | ok u =>
          simp only [hu, ok_bind, List.foldlM_cons] at hm
          cases hw : NCP.modeUpdate topSv X u 1 with
          | error e => simp only [hw] at hm; cases hm
          | ok w => exact ⟨u, w, rfl, hw⟩
      have hfit := NCP.modeUpdate_fit ht i1 h2 h25 (by omega) hpos hX hu
      obtain ⟨g1, -, g3⟩ := hfit.1.factorsFor
      obtain ⟨r, hr', hne⟩ := (NCP.modeUpdate_defined ht g1 g3 h2 h25 (by omega) Nat.one_pos
        (cp.getD_pos hpos (show 1 < X.order by omega))).1 ⟨w, hw⟩
      obtain rfl : r = 0 := by omega
      have hl0 : 0 < u.A.length := by rw [g1.length]; exact (by omega : 0 < X.order)
      have hg0 : u.A[0]? = some u.A[0] := List.getElem?_eq_getElem hl0
      obtain ⟨a, ha, hna⟩ := hne _ (List.mem_eraseIdx_iff_getElem?.2 ⟨0, by decide, hg0⟩)
      rw [g1.get hg0] at ha
      have hfa := hfit.2.1 a ha
      rw [firstCol_get hg0] at hfa
      rw [hfa] at hna
      have hsum : sliceSum X.shape 0 a (fun i => X.at_ i * restEntry X.order (firstCol A) 0 i) ≠ 0 := fun hz => by
        refine hna ?_
        unfold bestVec
        exact (congrArg (· / _) hz).trans (zero_div _)
      obtain ⟨e, he, hXe⟩ : ∃ e, InB X.shape e ∧ X.at_ e * restEntry X.order (firstCol A) 0 e ≠ 0 := by
        by_contra hn
        push Not at hn
        refine hsum ((boxSum_congr fun i hi => ?_).trans (boxSum_zero (α := ℝ) _))
        split
        · exact hn i hi
        · rfl
      refine ⟨e, he, left_ne_zero_of_mul hXe, fun k h1 hk => ?_⟩
      have hX0 : 0 < normSqT X := boxSum_pos_at he (fun i _ => sq_nonneg _) (pow_pos (lt_of_le_of_ne (hX e he)
        (Ne.symm (left_ne_zero_of_mul hXe))) 2)
      obtain ⟨c, c1, c2⟩ := init_par_pos hX0 hdn hd hA
      have h3 := Finset.prod_ne_zero_iff.1 (right_ne_zero_of_mul hXe) k
        (Finset.mem_erase.2 ⟨by omega, Finset.mem_range.2 hk⟩)
      rw [c2 k hk _ ((InB_iff_getD.1 he).2 k hk)] at h3
      exact right_ne_zero_of_mul h3
  · rintro ⟨⟨a0, ha0, hda⟩, e, he, hXe, hde⟩
    have hXe : 0 < X.at_ e := lt_of_le_of_ne (hX e he) (Ne.symm hXe)
    have hde : ∀ k, 1 ≤ k → k < X.order → 0 < firstCol draws k (e.getD k 0) := fun k h1 hk =>
      lt_of_le_of_ne (firstCol_nonneg hdn _ _) (Ne.symm (hde k h1 hk))
    have hda : 0 < firstCol draws 0 a0 := lt_of_le_of_ne (firstCol_nonneg hdn _ _) (Ne.symm hda)
    have hX0 : 0 < normSqT X := boxSum_pos_at he (fun i _ => sq_nonneg _) (pow_pos hXe 2)
    obtain ⟨A, hA⟩ := mapM_all (f := fun d => normInit X X.order (relu d)) (l := draws) fun M hM => by
      obtain ⟨k, hk, hkM, hsM⟩ := hsh M hM
      by_cases hk0 : k = 0
      · subst hk0
        rw [firstCol_get hkM] at hda
        exact normInit_pos (hdn M hM) (i := [a0, 0]) (by rw [hsM]; exact InB_pair.2 ⟨_, 0, rfl, ha0, Nat.one_pos⟩) hda
      · have := hde k (by omega) hk
        rw [firstCol_get hkM] at this
        exact normInit_pos (hdn M hM) (i := [e.getD k 0, 0])
          (by rw [hsM]; exact InB_pair.2 ⟨_, 0, rfl, (InB_iff_getD.1 he).2 k hk, Nat.one_pos⟩) this
    have hi : bcu.init X X.order draws = .ok ⟨A, A, A, fun _ => 1, fun _ => 1, fun _ => 1, 1, 1⟩ := by
      unfold bcu.init; rw [hA]; rfl
    obtain ⟨i1, i2, -⟩ := init_inv hi
    rw [show draws.map Tensor.shape = X.shape.map fun d => [d, 1] from hd] at i1
    have hpar := init_par_pos hX0 hdn hd hA
    have hone : OneAt X e (1 ≤ ·) ⟨A, A, A, fun _ => 1, fun _ => 1, fun _ => 1, 1, 1⟩ := by
      refine ⟨i1, i2, fun k hk h1 => ?_, fun _ _ => one_ne_zero⟩
      obtain ⟨c, c1, c2⟩ := hpar
      rw [c2 k hk _ ((InB_iff_getD.1 he).2 k hk)]
      exact mul_pos (c1 k hk) (hde k h1 hk)
    obtain ⟨hist, hh⟩ := train_safe (A := Ar) (c := NCP.cls topSv X 1) (I := OneAt X e (1 ≤ ·))
      ⟨fun s hI => by
        obtain ⟨s', o, h1, h3⟩ := hI.main ht h2 h25 hpos hX he hXe fun k hk => Nat.one_le_iff_ne_zero.2 hk
        exact ⟨s', o, h1, h3.weaken fun _ _ => trivial⟩, by rintro f ⟨⟩, by
        rintro p hp s hI
        cases hp
        exact ⟨hI.op1, hI.op2⟩⟩ hone (Or.inl hv) hs self
    exact ⟨_, hist, hi, hh⟩

/-- **C166** (NTUCKER), all ranks one: nonnegative data and draws, and a nonzero entry at which no draw is zero. -/
theorem C166_ntucker (topSv : Tensor ℝ → Res ℝ) (ht : TopSvOk topSv) (X : Tensor ℝ) (draws : List (Tensor ℝ))
    (gdraw : Tensor ℝ) (hd : FactorsFor X.shape 1 draws) (hdn : ∀ M ∈ draws, Nonneg M)
    (hg : gdraw.shape = List.replicate X.shape.length 1) (hgp : 0 < gdraw.at_ (List.replicate X.shape.length 0))
    (h2 : 2 ≤ X.order) (h13 : X.order ≤ 13) (hpos : ∀ d ∈ X.shape, 0 < d) (hX : ∀ i, InB X.shape i → 0 ≤ X.at_ i) (e : List Nat)
    (he : InB X.shape e) (hXe : X.at_ e ≠ 0) (hde : ∀ k < X.order, firstCol draws k (e.getD k 0) ≠ 0)
    (Ar : Arith ℝ) (args : Args ℝ) (hv : args.validationInternal ≠ 0) (steps : Int) (hs : 1 ≤ steps)
    (self : Self (List (Tensor ℝ)) (Tensor ℝ) (Tensor ℝ)) :
    ∃ s0 hist, NTUCKER.init X draws gdraw = .ok s0 ∧
      (train Ar (NTUCKER.cls topSv X) args steps (.ok s0) self).2.2 = .ok hist := by
  have hXe : 0 < X.at_ e := lt_of_le_of_ne (hX e he) (Ne.symm hXe)
  have hde : ∀ k < X.order, 0 < firstCol draws k (e.getD k 0) := fun k hk =>
    lt_of_le_of_ne (firstCol_nonneg hdn _ _) (Ne.symm (hde k hk))
  have hsh : ∀ M ∈ draws, ∃ k < X.order, draws[k]? = some M ∧ M.shape = [X.shape.getD k 0, 1] := fun M hM => by
    obtain ⟨k, hk⟩ := List.getElem?_of_mem hM
    exact ⟨k, by have := (List.getElem?_eq_some_iff.1 hk).1; rw [hd.length] at this; exact this, hk, hd.get hk⟩
  have hgn : Nonneg gdraw := nonneg_of_at fun i hi => by
    rw [hg] at hi
    have : i = List.replicate X.shape.length 0 := by
      rw [← unravel_ravel hi]
      exact unravel_ones (ravel_lt hi)
    rw [this]; exact hgp.le
  have hX0 : 0 < normSqT X := boxSum_pos_at he (fun i _ => sq_nonneg _) (pow_pos hXe 2)
  obtain ⟨A, hA⟩ := mapM_all (f := fun d => normInit X (X.order + 1) (relu d)) (l := draws) fun M hM => by
    obtain ⟨k, hk, hkM, hsM⟩ := hsh M hM
    have := hde k hk
    rw [firstCol_get hkM] at this
    exact normInit_pos (hdn M hM) (i := [e.getD k 0, 0])
      (by rw [hsM]; exact InB_pair.2 ⟨_, 0, rfl, (InB_iff_getD.1 he).2 k hk, Nat.one_pos⟩) this
  obtain ⟨g, hgi⟩ := normInit_pos (X := X) (p := X.order + 1) hgn (by rw [hg]; exact InB_zeros _) hgp
  have hi : NTUCKER.init X draws gdraw =
      .ok { toState := ⟨A, A, A, fun _ => 1, fun _ => 1, fun _ => 1, 1, 1⟩, g := g, g0 := g, gm := g } := by
    unfold NTUCKER.init bcu.init
    rw [hA, ok_bind]
    change (normInit X (X.order + 1) (relu gdraw) >>= _) = _
    rw [hgi]; rfl
  obtain ⟨i1, i2, -⟩ := NTUCKER.init_inv hi (tuckerShapes_iff.2 (tucker_ones.2 hd)) hg
  obtain ⟨c, c1, c2⟩ := init_par_pos hX0 hdn hd hA
  have hgpos : 0 < coreOne X g := by
    unfold normInit at hgi
    by_cases h0 : tf.norm (relu gdraw) = 0
    · rw [if_pos h0] at hgi; cases hgi
    rw [if_neg h0] at hgi
    cases hgi
    unfold coreOne
    rw [relu_of_nonneg hgn] at h0 ⊢
    rw [at_map _ _ (by rw [hg]; exact InB_zeros _)]
    refine mul_pos (div_pos hgp (lt_of_le_of_ne (Real.sqrt_nonneg _) (Ne.symm h0))) (Real.rpow_pos_of_pos ?_ _)
    rw [tf.norm, reduceSum_sq]
    exact Real.sqrt_pos.2 hX0
  have hone : TkOneAt X e { toState := ⟨A, A, A, fun _ => 1, fun _ => 1, fun _ => 1, 1, 1⟩, g := g, g0 := g, gm := g } := by
    refine ⟨i1, i2, fun k hk => ?_, fun _ _ => one_ne_zero, hgpos⟩
    change 0 < firstCol A k (e.getD k 0)
    rw [c2 k hk _ ((InB_iff_getD.1 he).2 k hk)]
    exact mul_pos (c1 k hk) (hde k hk)
  obtain ⟨hist, hh⟩ := train_safe (A := Ar) (c := NTUCKER.cls topSv X) (I := TkOneAt X e)
    ⟨fun s hI => hI.main ht h2 h13 hpos hX he hXe, by
      rintro f hf s hI
      cases hf
      exact hI.coreRun ht (by omega) h13 hpos hX he hXe, by
      rintro p hp s hI
      cases hp
      exact ⟨hI.op1, hI.op2⟩⟩ hone (Or.inl hv) hs self
  exact ⟨_, hist, hi, hh⟩

/-- Positive initial vectors suffice for any nonnegative tensor that is not zero. -/
theorem entry_of_norm {X : Tensor ℝ} (h : 0 < normSqT X) : ∃ e, InB X.shape e ∧ X.at_ e ≠ 0 := by
  by_contra hn
  push Not at hn
  have : normSqT X = boxSum X.shape fun _ => (0 : ℝ) := boxSum_congr fun i hi => by rw [hn i hi]; ring
  rw [this, boxSum_zero] at h
  exact lt_irrefl _ h

/-- **C166** (sparse data): if the initial vectors are positive, as draws from `(0, 1)` are, `CP_ALS` with one component returns on
every nonnegative tensor that is not zero, however sparse. -/
theorem C166_cp_sparse (pinv : Tensor ℝ → Res (Tensor ℝ)) (hp : PinvOk pinv) (X : Tensor ℝ) (A0 : List (Tensor ℝ))
    (hA : FactorsFor X.shape 1 A0) (hA0 : ∀ k < X.order, ∀ a < X.shape.getD k 0, 0 < firstCol A0 k a) (h2 : 2 ≤ X.order)
    (h25 : X.order ≤ 25) (hpos : ∀ d ∈ X.shape, 0 < d) (hX : ∀ i, InB X.shape i → 0 ≤ X.at_ i) (h0 : 0 < normSqT X) (Ar : Arith ℝ)
    (args : Args ℝ) (hv : args.validationInternal ≠ 0) (steps : Int) (hs : 1 ≤ steps)
    (self : Self (List (Tensor ℝ)) (Tensor ℝ) (Tensor ℝ)) :
    ∃ hist, (train Ar (CP_ALS.cls (cp.main pinv X 1)) args steps (.ok A0) self).2.2 = .ok hist := by
  obtain ⟨e, he, hXe⟩ := entry_of_norm h0
  exact (C166_cp pinv hp X A0 hA (fun k hk a ha => (hA0 k hk a ha).le) h2 h25 hpos hX Ar args hv steps hs self).2
    ⟨e, he, hXe, fun k _ hk => (hA0 k hk _ ((InB_iff_getD.1 he).2 k hk)).ne'⟩

theorem nonneg_of_firstCol {X : Tensor ℝ} {draws : List (Tensor ℝ)} (hd : FactorsFor X.shape 1 draws)
    (hdp : ∀ k < X.order, ∀ a < X.shape.getD k 0, 0 < firstCol draws k a) : ∀ M ∈ draws, Nonneg M := by
  intro M hM
  obtain ⟨k, hk⟩ := List.getElem?_of_mem hM
  have hk' : k < X.order := by
    have := (List.getElem?_eq_some_iff.1 hk).1
    rw [hd.length] at this; exact this
  have hsh := hd.get hk
  refine nonneg_of_at fun i hi => ?_
  rw [hsh] at hi
  obtain ⟨a, b, rfl, ha, hb⟩ := InB_pair.1 hi
  obtain rfl : b = 0 := by omega
  have := hdp k hk' a ha
  rw [firstCol_get hk] at this
  exact this.le

/-- **C166** (sparse data, NCP). -/
theorem C166_ncp_sparse (topSv : Tensor ℝ → Res ℝ) (ht : TopSvOk topSv) (X : Tensor ℝ) (draws : List (Tensor ℝ))
    (hd : FactorsFor X.shape 1 draws) (hdp : ∀ k < X.order, ∀ a < X.shape.getD k 0, 0 < firstCol draws k a) (h2 : 2 ≤ X.order)
    (h25 : X.order ≤ 25) (hpos : ∀ d ∈ X.shape, 0 < d) (hX : ∀ i, InB X.shape i → 0 ≤ X.at_ i) (h0 : 0 < normSqT X) (Ar : Arith ℝ)
    (args : Args ℝ) (hv : args.validationInternal ≠ 0) (steps : Int) (hs : 1 ≤ steps)
    (self : Self (List (Tensor ℝ)) (Tensor ℝ) (Tensor ℝ)) :
    ∃ s0 hist, bcu.init X X.order draws = .ok s0 ∧ (train Ar (NCP.cls topSv X 1) args steps (.ok s0) self).2.2 = .ok hist := by
  obtain ⟨e, he, hXe⟩ := entry_of_norm h0
  exact (C166_ncp topSv ht X draws hd (nonneg_of_firstCol hd hdp) h2 h25 hpos hX Ar args hv steps hs self).2
    ⟨⟨0, cp.getD_pos hpos (show 0 < X.order by omega), (hdp 0 (by omega) 0 (cp.getD_pos hpos (show 0 < X.order by omega))).ne'⟩, e, he, hXe,
      fun k _ hk => (hdp k hk _ ((InB_iff_getD.1 he).2 k hk)).ne'⟩

/-- **C166** (sparse data, NTUCKER with all ranks one). -/
theorem C166_ntucker_sparse (topSv : Tensor ℝ → Res ℝ) (ht : TopSvOk topSv) (X : Tensor ℝ) (draws : List (Tensor ℝ))
    (gdraw : Tensor ℝ) (hd : FactorsFor X.shape 1 draws) (hdp : ∀ k < X.order, ∀ a < X.shape.getD k 0, 0 < firstCol draws k a)
    (hg : gdraw.shape = List.replicate X.shape.length 1) (hgp : 0 < gdraw.at_ (List.replicate X.shape.length 0))
    (h2 : 2 ≤ X.order) (h13 : X.order ≤ 13) (hpos : ∀ d ∈ X.shape, 0 < d) (hX : ∀ i, InB X.shape i → 0 ≤ X.at_ i)
    (h0 : 0 < normSqT X) (Ar : Arith ℝ) (args : Args ℝ) (hv : args.validationInternal ≠ 0) (steps : Int) (hs : 1 ≤ steps)
    (self : Self (List (Tensor ℝ)) (Tensor ℝ) (Tensor ℝ)) :
    ∃ s0 hist, NTUCKER.init X draws gdraw = .ok s0 ∧
      (train Ar (NTUCKER.cls topSv X) args steps (.ok s0) self).2.2 = .ok hist := by
  obtain ⟨e, he, hXe⟩ := entry_of_norm h0
  exact C166_ntucker topSv ht X draws gdraw hd (nonneg_of_firstCol hd hdp) hg hgp h2 h13 hpos hX e he hXe
    (fun k hk => (hdp k hk _ ((InB_iff_getD.1 he).2 k hk)).ne') Ar args hv steps hs self

/-- **C165** (sparse matrices): with positive initial vectors every training of `CP_ALS` with one component on a nonnegative matrix
that is not zero returns, and the reconstructions converge to a best rank-one approximation. -/
theorem C165_cp_sparse (pinv : Tensor ℝ → Res (Tensor ℝ)) (hp : PinvOk pinv) (X : Tensor ℝ) (A0 : List (Tensor ℝ))
    (hA : FactorsFor X.shape 1 A0) (hA0 : ∀ k < X.order, ∀ a < X.shape.getD k 0, 0 < firstCol A0 k a) (h2 : X.order = 2)
    (hpos : ∀ d ∈ X.shape, 0 < d) (hX : ∀ i, InB X.shape i → 0 ≤ X.at_ i) (h0 : 0 < normSqT X) (args : Args ℝ) (ht : args.tol ≤ 0)
    (hv : args.validationInternal ≠ 0) (self : Self (List (Tensor ℝ)) (Tensor ℝ) (Tensor ℝ)) :
    ∃ (Y : Nat → Tensor ℝ) (L : Tensor ℝ), (∀ n : Nat,
      (∃ hist, (train (exactArith ℝ) (CP_ALS.cls (cp.main pinv X 1)) args ((n : Int) + 1) (.ok A0) self).2.2 = .ok hist) ∧
      (train (exactArith ℝ) (CP_ALS.cls (cp.main pinv X 1)) args ((n : Int) + 1) (.ok A0) self).1.full = some (Y n)) ∧
      Approaches Y L ∧ BestOuter X L := by
  have hr := fun n : Nat => C166_cp_sparse pinv hp X A0 hA hA0 (by omega) (by omega) hpos hX h0 (exactArith ℝ) args hv
    ((n : Int) + 1) (by omega) self
  choose hist hr using hr
  have hsee : SeesLeading X (firstCol A0 1) := by
    obtain ⟨m, n, hS⟩ := List.length_eq_two.1 h2
    exact seesLeading_pos hS (hpos n (by simp [hS])) hX fun b hb => hA0 1 (by omega) b (by rw [hS]; exact hb)
  obtain ⟨Y, L, h1, h3⟩ := C165_cp pinv hp X A0 hA h2 hpos hsee args ht self
    (fun n => (train (exactArith ℝ) (CP_ALS.cls (cp.main pinv X 1)) args ((n : Int) + 1) (.ok A0) self).1)
    (fun n => (train (exactArith ℝ) (CP_ALS.cls (cp.main pinv X 1)) args ((n : Int) + 1) (.ok A0) self).2.1) hist
    fun n => Prod.ext rfl (Prod.ext rfl (hr n))
  exact ⟨Y, L, fun n => ⟨⟨hist n, hr n⟩, h1 n⟩, h3⟩

/-- **C165** (sparse matrices, NCP). -/
theorem C165_ncp_sparse (topSv : Tensor ℝ → Res ℝ) (ht : TopSvOk topSv) (X : Tensor ℝ) (draws : List (Tensor ℝ))
    (hd : FactorsFor X.shape 1 draws) (hdp : ∀ k < X.order, ∀ a < X.shape.getD k 0, 0 < firstCol draws k a) (h2 : X.order = 2)
    (hpos : ∀ d ∈ X.shape, 0 < d) (hX : ∀ i, InB X.shape i → 0 ≤ X.at_ i) (h0 : 0 < normSqT X) (args : Args ℝ) (htol : args.tol ≤ 0)
    (hv : args.validationInternal ≠ 0) (self : Self (List (Tensor ℝ)) (Tensor ℝ) (Tensor ℝ)) :
    ∃ (s0 : State) (Y : Nat → Tensor ℝ) (L : Tensor ℝ), bcu.init X X.order draws = .ok s0 ∧ (∀ n : Nat,
      (∃ hist, (train (exactArith ℝ) (NCP.cls topSv X 1) args ((n : Int) + 1) (.ok s0) self).2.2 = .ok hist) ∧
      (train (exactArith ℝ) (NCP.cls topSv X 1) args ((n : Int) + 1) (.ok s0) self).1.full = some (Y n)) ∧
      Approaches Y L ∧ BestOuter X L := by
  have hr := fun n : Nat => C166_ncp_sparse topSv ht X draws hd hdp (by omega) (by omega) hpos hX h0 (exactArith ℝ) args hv
    ((n : Int) + 1) (by omega) self
  choose s hist h0 hr using hr
  have hs : ∀ n, s n = s 0 := fun n => Except.ok.inj ((h0 n).symm.trans (h0 0))
  simp only [hs] at hr
  have hsee : SeesLeading X (firstCol draws 1) := by
    obtain ⟨m, n, hS⟩ := List.length_eq_two.1 h2
    exact seesLeading_pos hS (hpos n (by simp [hS])) hX fun b hb => hdp 1 (by omega) b (by rw [hS]; exact hb)
  obtain ⟨Y, L, h1, h3⟩ := C165_ncp topSv ht X draws (s 0) hd (nonneg_of_firstCol hd hdp) (h0 0) h2 hpos hX hsee args htol self
    (fun n => (train (exactArith ℝ) (NCP.cls topSv X 1) args ((n : Int) + 1) (.ok (s 0)) self).1)
    (fun n => (train (exactArith ℝ) (NCP.cls topSv X 1) args ((n : Int) + 1) (.ok (s 0)) self).2.1) hist
    fun n => Prod.ext rfl (Prod.ext rfl (hr n))
  exact ⟨s 0, Y, L, h0 0, fun n => ⟨⟨hist n, hr n⟩, h1 n⟩, h3⟩

/-- **C165** (sparse matrices, NTUCKER with all ranks one). -/
theorem C165_ntucker_sparse (topSv : Tensor ℝ → Res ℝ) (ht : TopSvOk topSv) (X : Tensor ℝ) (draws : List (Tensor ℝ))
    (gdraw : Tensor ℝ) (hd : FactorsFor X.shape 1 draws) (hdp : ∀ k < X.order, ∀ a < X.shape.getD k 0, 0 < firstCol draws k a)
    (hg : gdraw.shape = List.replicate X.shape.length 1) (hgp : 0 < gdraw.at_ (List.replicate X.shape.length 0)) (h2 : X.order = 2)
    (hpos : ∀ d ∈ X.shape, 0 < d) (hX : ∀ i, InB X.shape i → 0 ≤ X.at_ i) (h0 : 0 < normSqT X) (args : Args ℝ) (htol : args.tol ≤ 0)
    (hv : args.validationInternal ≠ 0) (self : Self (List (Tensor ℝ)) (Tensor ℝ) (Tensor ℝ)) :
    ∃ (s0 : TState) (Y : Nat → Tensor ℝ) (L : Tensor ℝ), NTUCKER.init X draws gdraw = .ok s0 ∧ (∀ n : Nat,
      (∃ hist, (train (exactArith ℝ) (NTUCKER.cls topSv X) args ((n : Int) + 1) (.ok s0) self).2.2 = .ok hist) ∧
      (train (exactArith ℝ) (NTUCKER.cls topSv X) args ((n : Int) + 1) (.ok s0) self).1.full = some (Y n)) ∧
      Approaches Y L ∧ BestOuter X L := by
  have hr := fun n : Nat => C166_ntucker_sparse topSv ht X draws gdraw hd hdp hg hgp (by omega) (by omega) hpos hX h0 (exactArith ℝ)
    args hv ((n : Int) + 1) (by omega) self
  choose s hist h0 hr using hr
  have hs : ∀ n, s n = s 0 := fun n => Except.ok.inj ((h0 n).symm.trans (h0 0))
  simp only [hs] at hr
  have hsee : SeesLeading X (firstCol draws 1) := by
    obtain ⟨m, n, hS⟩ := List.length_eq_two.1 h2
    exact seesLeading_pos hS (hpos n (by simp [hS])) hX fun b hb => hdp 1 (by omega) b (by rw [hS]; exact hb)
  obtain ⟨Y, L, h1, h3⟩ := C165_ntucker topSv ht X draws gdraw (s 0) hd (nonneg_of_firstCol hd hdp) hg (h0 0) h2 hpos hX hsee args
    htol self (fun n => (train (exactArith ℝ) (NTUCKER.cls topSv X) args ((n : Int) + 1) (.ok (s 0)) self).1)
    (fun n => (train (exactArith ℝ) (NTUCKER.cls topSv X) args ((n : Int) + 1) (.ok (s 0)) self).2.1) hist
    fun n => Prod.ext rfl (Prod.ext rfl (hr n))
  exact ⟨s 0, Y, L, h0 0, fun n => ⟨⟨hist n, hr n⟩, h1 n⟩, h3⟩

/-- The runs C165_needed speaks about exist: the data have the nonzero entry `(1, 1)`, and the second initial vector is not zero there. -/
example (pinv : Tensor ℝ → Res (Tensor ℝ)) (hp : PinvOk pinv) (steps : Int) (hs : 1 ≤ steps) :
    let A0 : List (Tensor ℝ) := [⟨[2, 1], [1, 1], rfl⟩, ⟨[2, 1], [0, 1], rfl⟩]
    FactorsFor [2, 2] 1 A0 ∧ firstCol A0 1 0 = 0 ∧ firstCol A0 1 1 ≠ 0 ∧
    ∃ hist, (train (exactArith ℝ) (CP_ALS.cls (cp.main pinv diag21 1)) { tol := 0 } steps (.ok A0) {}).2.2 = .ok hist := by
  intro A0
  refine ⟨rfl, rfl, one_ne_zero, ?_⟩
  refine (C166_cp pinv hp diag21 A0 rfl ?_ (le_refl 2) (by decide) (by simp [diag21]) ?_ _ _ (by decide) steps hs _).2
    ⟨[1, 1], InB_pair.2 ⟨1, 1, rfl, by decide, by decide⟩, one_ne_zero, fun k h1 h3 => ?_⟩
  · intro k hk a ha
    have hk : k < 2 := hk
    interval_cases k
    · have ha : a < 2 := ha
      interval_cases a <;> exact zero_le_one
    · have ha : a < 2 := ha
      interval_cases a
      · exact le_refl (0 : ℝ)
      · exact zero_le_one
  · intro i hi
    obtain ⟨a, b, rfl, ha, hb⟩ := InB_pair.1 hi
    interval_cases a <;> interval_cases b
    · exact zero_le_two
    · exact le_refl (0 : ℝ)
    · exact le_refl (0 : ℝ)
    · exact zero_le_one
  · have h3 : k < 2 := h3
    obtain rfl : k = 1 := by omega
    exact one_ne_zero

/-- If the only nonzero entry meets a zero of the second initial vector, the training raises, by C166. -/
example (pinv : Tensor ℝ → Res (Tensor ℝ)) (hp : PinvOk pinv) (steps : Int) (hs : 1 ≤ steps) :
    let X : Tensor ℝ := ⟨[2, 2], [2, 0, 0, 0], rfl⟩
    let A0 : List (Tensor ℝ) := [⟨[2, 1], [1, 1], rfl⟩, ⟨[2, 1], [0, 1], rfl⟩]
    ¬ ∃ hist, (train (exactArith ℝ) (CP_ALS.cls (cp.main pinv X 1)) { tol := 0 } steps (.ok A0) {}).2.2 = .ok hist := by
  intro X A0
  rw [C166_cp pinv hp X A0 rfl ?_ (le_refl 2) (by decide) (by simp [X]) ?_ _ _ (by decide) steps hs _]
  · rintro ⟨e, he, hXe, hf⟩
    obtain ⟨a, b, rfl, ha, hb⟩ := InB_pair.1 he
    interval_cases a <;> interval_cases b
    · exact hf 1 (by decide) (by decide) rfl
    · exact hXe rfl
    · exact hXe rfl
    · exact hXe rfl
  · intro k hk a ha
    have hk : k < 2 := hk
    interval_cases k
    · have ha : a < 2 := ha
      interval_cases a <;> exact zero_le_one
    · have ha : a < 2 := ha
      interval_cases a
      · exact le_refl (0 : ℝ)
      · exact zero_le_one
  · intro i hi
    obtain ⟨a, b, rfl, ha, hb⟩ := InB_pair.1 hi
    interval_cases a <;> interval_cases b
    · exact zero_le_two
    · exact le_refl (0 : ℝ)
    · exact le_refl (0 : ℝ)
    · exact le_refl (0 : ℝ)

/-- The hypotheses of the sparse theorems are met by a diagonal matrix and positive initial vectors. -/
example : let A0 : List (Tensor ℝ) := [⟨[2, 1], [1, 1], rfl⟩, ⟨[2, 1], [1, 1], rfl⟩]
    FactorsFor diag21.shape 1 A0 ∧ (∀ k < diag21.order, ∀ a < diag21.shape.getD k 0, 0 < firstCol A0 k a) ∧ diag21.order = 2 ∧
    (∀ d ∈ diag21.shape, 0 < d) ∧ (∀ i, InB diag21.shape i → 0 ≤ diag21.at_ i) ∧ 0 < normSqT diag21 ∧
    ∃ gdraw : Tensor ℝ, gdraw.shape = List.replicate diag21.shape.length 1 ∧ 0 < gdraw.at_ (List.replicate diag21.shape.length 0) := by
  refine ⟨rfl, fun k hk a ha => ?_, rfl, by simp [diag21], fun i hi => ?_, ?_, ⟨[1, 1], [1], rfl⟩, rfl, zero_lt_one⟩
  · have hk : k < 2 := hk
    interval_cases k <;> (have ha : a < 2 := ha; interval_cases a <;> exact zero_lt_one)
  · obtain ⟨a, b, rfl, ha, hb⟩ := InB_pair.1 hi
    interval_cases a <;> interval_cases b
    · exact zero_le_two
    · exact le_refl (0 : ℝ)
    · exact le_refl (0 : ℝ)
    · exact zero_le_one
  · show (0 : ℝ) < boxSum [2, 2] _
    rw [boxSum_pair]
    simp only [Finset.sum_range_succ, Finset.sum_range_zero]
    show (0 : ℝ) < 0 + (0 + 2 ^ 2 + 0 ^ 2) + (0 + 0 ^ 2 + 1 ^ 2)
    norm_num

end TD.Props
