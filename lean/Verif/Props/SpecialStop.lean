import Verif.Lemmas.SpecialStop
import Verif.Props.SpecialCp

/-!
# C138: a training that stops by its own criterion in rounded arithmetic exposes numbers
-/
namespace TD.Props
open TD Spec Tensor fact sp Num
variable {F : Fmt}

/-- **C138** (`CP_ALS`): a training that returns before its last step exposes factors and weights that consist of numbers, whatever
happened on the way; every column of every factor contains an entry that is exactly 1, and no weight is zero.  The data consist of
numbers too. -/
theorem C138_cp (F : Fmt) (pinv : Tensor (Num F) → Res (Tensor (Num F))) (hp : PinvSize pinv) (X : Tensor (Num F)) (R : Nat)
    (h2 : 2 ≤ X.order) (h25 : X.order ≤ 25) (hpos : ∀ d ∈ X.shape, 0 < d) (args : Args (Num F)) (steps : Int)
    (A : List (Tensor (Num F))) (hA : FactorsFor X.shape R A)
    (self self' : Self (List (Tensor (Num F))) (Tensor (Num F)) (Tensor (Num F))) (ev : List Int) (hist : List (Num F × Num F))
    (ht : train (loopArith F) (CP.cls pinv X R) args steps (.ok A) self = (self', ev, .ok hist)) (hlt : (hist.length : Int) < steps) :
    AllFinite X ∧ ∃ f lam, self'.factors = some f ∧ self'.aux = some lam ∧ FactorsFor X.shape R f ∧ lam.shape = [R] ∧
      (∀ M ∈ f, AllFinite M) ∧ AllFinite lam ∧
      (∀ n M, f[n]? = some M → ∀ r < R, ColumnHasOne M (X.shape.getD n 0) r) ∧ ∀ r < R, lam.at_ [r] ≠ 0 := by
  obtain ⟨s0, n, o, kc, hs0, h1, -, hrun, hstop, hhist, -, -, hfac, haux, -⟩ := train_ok ht
  have hlen : hist.length = n := by rw [hhist]; simp
  obtain ⟨hX, hfull⟩ := stop_numbers (cp_reports pinv X R) h1 hrun (hstop.resolve_left (by omega))
  obtain ⟨σ, -, hσ⟩ := run_reach (init := FactorsFor X.shape R) (by cases hs0; exact hA) hrun
  obtain ⟨hre, s, -, hruns, -⟩ := hσ (n - 1) (by omega)
  have hm : CP.main pinv X R (σ (n - 1)) = .ok (s, o (n - 1)) := hruns.2
  have hne : X.shape ≠ [] := by intro e; unfold order at h2; rw [e] at h2; simp at h2
  rcases CP.main_cases hp h2 h25 hpos (cp_reach_fl hp h2 h25 hpos hre) with ⟨V, e, -, h⟩ | ⟨B, lam, full, l, obj, rel, h, hsw, hfs⟩
  · cases hm.symm.trans h
  · obtain ⟨l', hl', hls, hcol⟩ := hsw.lam (by omega)
    cases hl'
    have heq := Except.ok.inj (hm.symm.trans h)
    have ho : o (n - 1) = ⟨B, some lam, full, l, obj, rel⟩ := (Prod.mk.inj heq).2
    rw [ho] at hfull hfac haux
    simp only at hfull hfac haux
    have hext : KTensor.extract ⟨B, .float32, KTensor.expandLast lam, .float32⟩ = .ok full := by
      unfold CP.main at h
      obtain ⟨⟨A1, lam1⟩, -, h⟩ := bind_ok_of h
      obtain ⟨full1, h4, h⟩ := bind_ok_of h
      obtain ⟨⟨l1, obj1, rel1⟩, -, h⟩ := bind_ok_of h
      cases h
      unfold CP.fullOf at h4
      obtain ⟨k, hk, h4⟩ := bind_ok_of h4
      have : k = ⟨B, .float32, KTensor.expandLast lam, .float32⟩ := by
        unfold KTensor.init at hk
        cases B with
        | nil => cases hk
        | cons b bs =>
            simp only at hk
            rw [if_pos (by unfold order; rw [hls]; rfl)] at hk
            exact (Except.ok.inj hk).symm
      rw [← this]
      exact h4
    obtain ⟨hB, hlam⟩ := kruskal_numbers hsw.fac hne h25 hpos (by show lam.shape ++ [1] = _; rw [hls]; rfl) hext hfull
    have hat : ∀ r < R, (KTensor.expandLast lam).at_ [r, 0] = lam.at_ [r] := by
      intro r hr
      unfold KTensor.expandLast Tensor.at_
      simp only [hls]
      simp [ravel]
    have hcolf : ∀ k M, B[k]? = some M → ∀ r < R, ColumnFinite M (X.shape.getD k 0) r := by
      intro k M hM r hr i hi
      refine hB M (List.mem_of_getElem? hM) _ ?_
      rw [hsw.fac.get hM]
      exact InB_pair.2 ⟨i, r, rfl, hi, hr⟩
    refine ⟨hX, B, lam, hfac, haux lam (by simp [CP.cls, CP_ALS.cls]), hsw.fac, hls, hB, ?_, ?_, ?_⟩
    · intro i hi
      rw [hls] at hi
      obtain ⟨r, hr, rfl⟩ : ∃ r < R, i = [r] := by
        obtain ⟨r, t, rfl⟩ : ∃ r t, i = r :: t := by
          cases i with
          | nil => exact absurd hi.length_eq (by simp)
          | cons r t => exact ⟨r, t, rfl⟩
        have := (InB_cons R r [] t).1 hi
        obtain rfl := (InB_nil _).1 this.2
        exact ⟨r, this.1, rfl⟩
      rw [← hat r hr]
      exact hlam r hr
    · intro k M hM r hr
      have hk : k < X.order := by
        have := (List.getElem?_eq_some_iff.1 hM).1
        rw [hsw.fac.length] at this
        exact this
      exact (hsw.cols k hk M hM r hr (hcolf k M hM r hr)).1
    · intro r hr
      have hl : X.order - 1 < B.length := by rw [hsw.fac.length]; unfold order at h2 ⊢; omega
      obtain ⟨x, hx, hx0, e⟩ := hcol _ (List.getElem?_eq_getElem hl) r hr (hcolf _ _ (List.getElem?_eq_getElem hl) r hr)
      rw [e]
      intro h
      rw [Num.zero_def] at h
      exact hx0 (by simpa using h)

/-- **C138** (`NCP_BCU`): a training that returns before its last step exposes factors that consist of numbers that are not
negative. -/
theorem C138_ncp (F : Fmt) (topSv : Tensor (Num F) → Res (Num F)) (X : Tensor (Num F)) (R : Nat) (h2 : 2 ≤ X.order)
    (h25 : X.order ≤ 25) (hpos : ∀ d ∈ X.shape, 0 < d) (args : Args (Num F)) (steps : Int) (s0 : State F) (hs : FreshNcp X R s0)
    (self self' : Self (List (Tensor (Num F))) (Tensor (Num F)) (Tensor (Num F))) (ev : List Int) (hist : List (Num F × Num F))
    (ht : train (loopArith F) (NCP.cls topSv X R) args steps (.ok s0) self = (self', ev, .ok hist)) (hlt : (hist.length : Int) < steps) :
    AllFinite X ∧ ∃ f, self'.factors = some f ∧ FactorsFor X.shape R f ∧ ∀ M ∈ f, AllFinite M ∧ NotNegative M := by
  obtain ⟨s1, n, o, kc, hs0, h1, -, hrun, hstop, hhist, -, -, hfac, -⟩ := train_ok ht
  have hlen : hist.length = n := by rw [hhist]; simp
  obtain ⟨hX, hfull⟩ := stop_numbers (ncp_reports topSv X R) h1 hrun (hstop.resolve_left (by omega))
  obtain ⟨σ, -, hσ⟩ := run_reach (init := FreshNcp X R) (by cases hs0; exact hs) hrun
  obtain ⟨hre, s, -, hruns, -⟩ := hσ (n - 1) (by omega)
  have hm : NCP.main topSv X (σ (n - 1)) = .ok (s, o (n - 1)) := hruns.2
  have hne : X.shape ≠ [] := by intro e; unfold order at h2; rw [e] at h2; simp at h2
  obtain ⟨s', o', e, -, hF, hN, -⟩ := NCP.main_ok (tot_total topSv) h2 h25 hpos (ncp_reach_fl h2 h25 hpos hre)
  cases (NCP.main_mono hm).symm.trans e
  refine ⟨hX, _, hfac, hF, ?_⟩
  have hF' : FactorsFor X.shape R (o (n - 1)).factors := hF
  have hext : ∃ lam, lam.shape = [R, 1] ∧ KTensor.extract ⟨(o (n - 1)).factors, .float32, lam, .float32⟩ = .ok (o (n - 1)).full := by
    unfold NCP.main at hm
    obtain ⟨st, -, h⟩ := bind_ok_of hm
    obtain ⟨full1, h4, h⟩ := bind_ok_of h
    obtain ⟨⟨l1, obj1, rel1⟩, -, h⟩ := bind_ok_of h
    have ho := (Prod.mk.inj (Except.ok.inj h)).2
    rw [← ho] at hF' ⊢
    simp only at hF' ⊢
    unfold NCP.fullOf at h4
    obtain ⟨k, hk, h4⟩ := bind_ok_of h4
    unfold KTensor.init at hk
    cases hA : st.A with
    | nil => rw [hA] at hk; cases hk
    | cons b bs =>
        rw [hA] at hk hF'
        simp only at hk
        obtain ⟨r, hr, hk⟩ := bind_ok_of hk
        cases hk
        have hb : b.shape = [X.shape.getD 0 0, R] := hF'.get (n := 0) rfl
        have : r = R := by
          unfold ops.dimOf at hr
          rw [hb] at hr
          simpa using hr.symm
        subst this
        exact ⟨_, rfl, h4⟩
  obtain ⟨lam, hl, hext⟩ := hext
  exact fun M hM => ⟨(kruskal_numbers hF' hne h25 hpos hl hext hfull).1 M hM, notNegative_of (hN M hM)⟩

/-- **C138** (`NTUCKER_BCU`): a training that returns before its last step exposes factors and a core that consist of numbers that
are not negative. -/
theorem C138_ntucker (F : Fmt) (topSv : Tensor (Num F) → Res (Num F)) (X : Tensor (Num F)) (ranks : List Nat)
    (hr : ranks.length = X.shape.length) (h2 : 2 ≤ X.order) (h13 : X.order ≤ 13) (hpos : ∀ d ∈ X.shape, 0 < d)
    (hrp : ∀ d ∈ ranks, 0 < d) (args : Args (Num F)) (steps : Int) (s0 : TState F) (hs : FreshNtucker X ranks s0)
    (self self' : Self (List (Tensor (Num F))) (Tensor (Num F)) (Tensor (Num F))) (ev : List Int) (hist : List (Num F × Num F))
    (ht : train (loopArith F) (NTUCKER.cls topSv X) args steps (.ok s0) self = (self', ev, .ok hist)) (hlt : (hist.length : Int) < steps) :
    AllFinite X ∧ ∃ f g, self'.factors = some f ∧ self'.aux = some g ∧ f.map Tensor.shape = tuckerShapes X.shape ranks ∧
      g.shape = ranks ∧ (∀ M ∈ f, AllFinite M ∧ NotNegative M) ∧ AllFinite g ∧ NotNegative g := by
  obtain ⟨s1, n, o, kc, hs0, h1, -, hrun, hstop, hhist, -, -, hfac, haux, -⟩ := train_ok ht
  have hlen : hist.length = n := by rw [hhist]; simp
  obtain ⟨hX, hfull⟩ := stop_numbers (ntucker_reports topSv X) h1 hrun (hstop.resolve_left (by omega))
  obtain ⟨σ, -, hσ⟩ := run_reach (init := FreshNtucker X ranks) (by cases hs0; exact hs) hrun
  obtain ⟨hre, s, -, hruns, -⟩ := hσ (n - 1) (by omega)
  obtain ⟨s2, v, hcore, hkc, hm⟩ : ∃ s1 v, NTUCKER.core topSv X (σ (n - 1)) = .ok (s1, v) ∧ kc (n - 1) = some v ∧
    NTUCKER.main topSv X s1 = .ok (s, o (n - 1)) := hruns
  obtain ⟨s3, k, e1, hst, hks, hkn⟩ := NTUCKER.core_ok (tot_total topSv) hr (by omega) h13 (ntucker_reach_fl hr h2 h13 hpos hrp hre)
  cases (NTUCKER.core_mono hcore).symm.trans e1
  obtain ⟨s', o', e, -, hF, hN, haux', -⟩ := NTUCKER.main_ok (tot_total topSv) hr h2 h13 hpos hrp hst
  cases (NTUCKER.main_mono hm).symm.trans e
  have hgv : s2.g = v := by
    unfold NTUCKER.core at hcore
    iterate 9
      have hcore' := hcore
      clear hcore
      obtain ⟨_, -, hcore⟩ := bind_ok_of hcore'
      clear hcore'
    cases hcore
    rfl
  have hext : TTensor.extract ⟨v, .float32, (o (n - 1)).factors, .float32⟩ = .ok (o (n - 1)).full := by
    unfold NTUCKER.main at hm
    obtain ⟨st, -, h⟩ := bind_ok_of hm
    obtain ⟨full1, h4, h⟩ := bind_ok_of h
    obtain ⟨⟨l1, obj1, rel1⟩, -, h⟩ := bind_ok_of h
    have ho := (Prod.mk.inj (Except.ok.inj h)).2
    rw [← ho]
    simp only
    unfold NTUCKER.fullOf at h4
    obtain ⟨k, hk, h4⟩ := bind_ok_of h4
    unfold TTensor.init at hk
    cases hA : st.A with
    | nil => rw [hA] at hk; cases hk
    | cons b bs =>
        rw [hA] at hk
        cases hk
        rw [← hgv]
        exact h4
  have hl : (o (n - 1)).factors.length = X.order := by
    have := congrArg List.length hF
    simpa [tuckerShapes, order] using this
  have hget : ∀ k M, (o (n - 1)).factors[k]? = some M → M.shape = [X.shape.getD k 0, ranks.getD k 0] := by
    intro k M hM
    have hk := (List.getElem?_eq_some_iff.1 hM).1
    have h3 := congrArg (fun l => l[k]?) hF
    simp only [List.getElem?_map, hM, Option.map_some] at h3
    unfold tuckerShapes at h3
    rw [List.getElem?_map, List.getElem?_range (by rw [hl] at hk; exact hk)] at h3
    exact Option.some.inj h3
  have hrow : rowDims (o (n - 1)).factors = X.shape := by
    refine List.ext_getElem (by simp only [rowDims, List.length_map]; exact hl) fun k h3 h4 => ?_
    unfold rowDims at h3 ⊢
    rw [List.getElem_map, hget k _ (List.getElem?_eq_getElem (by simpa using h3)), List.getD_cons_zero, List.getD_eq_getElem _ _ h4]
  have hcolD : colDims (o (n - 1)).factors = ranks := by
    refine List.ext_getElem (by simp only [colDims, List.length_map]; rw [hl, hr]; rfl) fun k h3 h4 => ?_
    unfold colDims at h3 ⊢
    rw [List.getElem_map, hget k _ (List.getElem?_eq_getElem (by simpa using h3)), List.getD_cons_succ, List.getD_cons_zero,
      List.getD_eq_getElem _ _ h4]
  have hmat : AllMat (o (n - 1)).factors := by
    intro M hM
    obtain ⟨k, hk⟩ := List.getElem?_of_mem hM
    rw [hget k M hk]; rfl
  obtain ⟨hfin, hg⟩ := tucker_numbers (by intro e; rw [e] at hl; simp at hl; omega) (by rw [hl]; exact h13) hmat
    (by rw [hks, hcolD]) (by rw [hrow]; exact hpos) (by rw [hcolD]; exact hrp) hext hfull
  refine ⟨hX, _, v, hfac, haux v (by simp [NTUCKER.cls, NTUCKER_BCU.cls, haux', hkc]), hF, hks,
    fun M hM => ⟨hfin M hM, notNegative_of (hN M hM)⟩, hg, notNegative_of hkn⟩

/-! The hypotheses of `C138_cp` are met: a training with seven steps in float32 that stops after its first step. -/

theorem round_nought : Num.round F 0 = 0 := by
  have h : |F.arith.rnd 0| ≤ F.big := by rw [F.arith.rnd_zero, abs_zero]; exact zero_le_one.trans F.one_le_big
  rw [Num.zero_def]
  unfold Num.round
  rw [dif_pos h]
  simp only [F.arith.rnd_zero]

theorem rel_ex : relResidual oneEx (⟨[1, 1], [1 * 1 * 1], rfl⟩ : Tensor (Num f32)) = .ok 0 := by
  refine Eq.trans (b := .ok ((((1 * 1 * 1 - 1) * (1 * 1 * 1 - 1) : Num f32)).sqrt / (1 * 1 : Num f32).sqrt)) rfl ?_
  have h0 : (1 - 1 : Num f32) = 0 := by
    rw [Num.one_def]
    show Num.round f32 (1 - 1) = 0
    rw [sub_self]
    exact round_nought
  have h1 : (0 * 0 : Num f32) = 0 := by
    rw [Num.zero_def, Num.mul_fin, mul_zero, round_nought, Num.zero_def]
  have h2 : (0 : Num f32).sqrt = 0 := by
    rw [Num.zero_def]
    show (if (0 : ℝ) < 0 then Num.nan else Num.round f32 (Real.sqrt 0)) = _
    rw [if_neg (lt_irrefl _), Real.sqrt_zero, round_nought, Num.zero_def]
  have h3 : (1 : Num f32).sqrt = 1 := by
    rw [Num.one_def]
    show (if (1 : ℝ) < 0 then Num.nan else Num.round f32 (Real.sqrt 1)) = _
    rw [if_neg (by norm_num), Real.sqrt_one]
    exact round_one
  have h4 : (0 / 1 : Num f32) = 0 := by
    rw [Num.zero_def, Num.one_def, Num.div_fin, if_neg one_ne_zero, zero_div, round_nought, Num.zero_def]
  rw [one_mul_one_fl, one_mul_one_fl, h0, h1, h2, h3, h4]

theorem lt_ex : (0 : Num f32).lt 1 = true := by
  rw [Num.zero_def, Num.one_def]
  unfold Num.lt
  simp only [Num.val]
  exact decide_eq_true (by exact_mod_cast zero_lt_one)

example : PinvSize pinvEx ∧ FactorsFor oneEx.shape 1 [oneEx, oneEx] ∧
    ∃ self' ev hist, train (Num.loopArith f32) (CP.cls pinvEx oneEx 1) { tol := 1 } 7 (.ok [oneEx, oneEx]) {} =
      (self', ev, .ok hist) ∧ (hist.length : Int) < 7 := by
  refine ⟨pinvEx_size, rfl, ?_⟩
  have hsafe : Safe (CP.cls pinvEx oneEx 1) (fun s => s = [oneEx, oneEx]) := by
    refine ⟨fun s hs => ?_, fun f hf s hs => ?_, fun p hp s hs => ?_⟩
    · obtain ⟨o, h⟩ := main_ex
      rw [hs]
      exact ⟨_, o, h, rfl⟩
    · cases hf
    · cases hp
  obtain ⟨hist, e⟩ := train_safe (A := Num.loopArith f32) (args := { tol := 1 }) hsafe rfl (Or.inl (by decide)) (by decide : (1:Int) ≤ 7) {}
  obtain ⟨self', ev, h⟩ : ∃ self' ev, train (Num.loopArith f32) (CP.cls pinvEx oneEx 1) { tol := 1 } 7 (.ok [oneEx, oneEx]) {} =
      (self', ev, .ok hist) := by
    generalize train (Num.loopArith f32) (CP.cls pinvEx oneEx 1) { tol := 1 } 7 (.ok [oneEx, oneEx]) {} = q at e ⊢
    obtain ⟨self', ev, h⟩ := q
    exact ⟨self', ev, by rw [← e]⟩
  refine ⟨self', ev, hist, h, ?_⟩
  obtain ⟨s0, n, o, kc, hs0, h1, -, hrun, -, hhist, -⟩ := train_ok h
  cases hs0
  have hlen : hist.length = n := by rw [hhist]; simp
  rw [hlen]
  by_contra hn
  refine hrun.goes 0 (by omega) (Or.inl ?_)
  obtain ⟨σ, hσ0, hσ⟩ := hrun.ran
  obtain ⟨s, hr, -⟩ := hσ 0 (by omega)
  have hm : CP.main pinvEx oneEx 1 (σ 0) = .ok (s, o 0) := hr.2
  rw [hσ0] at hm
  unfold CP.main at hm
  rw [sweep_ex, ok_bind] at hm
  obtain ⟨full, h4, hm⟩ := bind_ok_of hm
  have h5 : full = ⟨[1, 1], [1 * 1 * 1], rfl⟩ := (Except.ok.inj (Eq.trans (b := CP.fullOf [oneEx, oneEx] ⟨[1], [1], rfl⟩) rfl h4)).symm
  obtain ⟨⟨l1, obj1, rel1⟩, h6, hm⟩ := bind_ok_of hm
  unfold scalars at h6
  obtain ⟨_, -, h6⟩ := bind_ok_of h6
  obtain ⟨_, -, h6⟩ := bind_ok_of h6
  obtain ⟨r, h7, h6⟩ := bind_ok_of h6
  rw [h5, rel_ex] at h7
  have ho := (Prod.mk.inj (Except.ok.inj hm)).2
  have hr : r = 0 := (Except.ok.inj h7).symm
  have : rel1 = 0 := by rw [← hr]; exact ((Prod.mk.inj (Prod.mk.inj (Except.ok.inj h6)).2).2).symm
  show Num.lt (o 0).rel 1 = true
  rw [← ho]
  simp only
  rw [this]
  exact lt_ex

end TD.Props
