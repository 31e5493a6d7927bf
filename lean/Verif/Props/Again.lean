import Verif.Props.LowerBound
import Verif.Props.Demo
import Verif.Props.Synthetic

/-!
# C176 : decomposing a reconstruction again changes nothing
-/
namespace TD.Props
open TD Spec Tensor ops Matrix fact bcu

/-- A weighted Kruskal tensor is a Tucker tensor with a diagonal core. -/
theorem tuckerRank_weighted {shape ranks : List Nat} {R : Nat} {U : List (Tensor ℝ)} {w : Nat → ℝ} {C : Tensor ℝ}
    (hU : U.map Tensor.shape = shape.map fun d => [d, R]) (hne : shape ≠ [])
    (hC : IsKruskal shape R U w C)
    (hr : ∀ k < shape.length, R ≤ ranks.getD k 0) : TuckerRankLe shape ranks C := by
  have hl : U.length = shape.length := by simpa using congrArg List.length hU
  have hgd : ∀ k < shape.length, (List.replicate shape.length R).getD k 0 = R := fun k hk => by
    rw [List.getD_eq_getElem _ _ (by simpa using hk), List.getElem_replicate]
  refine ⟨ofFn (List.replicate shape.length R) fun j => if ∀ a ∈ j, a = j.headD 0 then w (j.headD 0) else 0, U, ?_,
    List.length_replicate, fun k hk => ?_, hC.1, fun i hi => ?_⟩
  · rw [hU]
    refine List.ext_getElem (by simp) fun k h1 h2 => ?_
    have hk : k < shape.length := by simpa using h1
    simp only [List.getElem_map, List.getElem_range]
    show [shape[k], R] = [_, (List.replicate shape.length R).getD k 0]
    rw [hgd k hk, List.getD_eq_getElem _ _ hk]
  · show (List.replicate shape.length R).getD k 0 ≤ _
    rw [hgd k hk]; exact hr k hk
  · rw [hC.2 i hi]
    show _ = boxSum (List.replicate shape.length R) _
    rw [boxSum_congr (g := fun j => (if ∀ a ∈ j, a = j.headD 0 then w (j.headD 0) else 0) * kronEntry U i j)
      (fun j hj => by rw [at_ofFn _ hj])]
    cases shape with
    | nil => exact absurd rfl hne
    | cons d s =>
      rw [List.length_cons, List.replicate_succ]
      show _ = ∑ r ∈ Finset.range R, _
      refine Finset.sum_congr rfl fun r hr' => ?_
      have := boxSum_diag r R (Finset.mem_range.1 hr') s.length (fun j => w r * kronEntry U i (r :: j))
      rw [boxSum_congr (g := fun j => (if ∀ a ∈ j, a = r then 1 else 0) * (w r * kronEntry U i (r :: j)))
        (fun j _ => by by_cases h : ∀ a ∈ j, a = r <;> simp [h]), this, ← List.replicate_succ,
        show s.length + 1 = U.length from hl.symm, kronEntry_replicate r U i (by rw [hi.length, hl])]

/-- The tensor `HOSVD` returns has the ranks asked for. -/
theorem hosvd_rank {svd : Tensor ℝ → Res (Tensor ℝ × Tensor ℝ × Tensor ℝ)} (hs : SvdOk svd) {X : Tensor ℝ}
    {ranks : List Nat} (h1 : 1 ≤ X.order) (h13 : X.order ≤ 13) (hpos : ∀ d ∈ X.shape, 0 < d)
    (hr : X.order ≤ ranks.length) :
    ∃ A g Y, tucker.HOSVD.run svd X ranks = .ok (A, g, Y) ∧ Y.shape = X.shape ∧ TuckerRankLe X.shape ranks Y := by
  obtain ⟨A, g, Y, e1, e2, e3, ho, hgs, hA⟩ := hosvd_ok hs h1 h13 hpos hr
  have hne : X.shape ≠ [] := by intro e; unfold order at h1; rw [e] at h1; simp at h1
  obtain ⟨g', Y', f1, f2, -, f3, -, f4⟩ := tucker_entries hne h13 ho.allMat ho.rowDims
  rw [e2] at f1; cases f1
  rw [e3] at f2; cases f2
  have hl : A.length = X.shape.length := ho.1
  have hcol : ∀ k < X.shape.length, A[k]?.map Tensor.shape = some [X.shape.getD k 0, g.shape.getD k 0] ∧
      g.shape.getD k 0 ≤ ranks.getD k 0 := fun k hk => by
    obtain ⟨M, U, s, V, h, a1, a2, -⟩ := hA k hk
    have : g.shape.getD k 0 = min (ranks.getD k 0) (min (X.shape.getD k 0) (otherSize X.shape k)) := by
      rw [hgs]; simp [colDims, a1, a2]
    rw [a1, this, Option.map_some, a2]
    exact ⟨rfl, Nat.min_le_left _ _⟩
  refine ⟨A, g, Y, e1, f3, g, A, ?_, ?_, fun k hk => (hcol k hk).2, f3, f4⟩
  · refine List.ext_getElem (by simp [hl]) fun k h1 h2 => ?_
    have hk : k < X.shape.length := by simpa using h2
    have := (hcol k hk).1
    rw [List.getElem?_eq_getElem (by omega), Option.map_some, Option.some.injEq] at this
    simp only [List.getElem_map, List.getElem_range]
    exact this
  · rw [hgs, colDims, List.length_map]; exact hl

/-- **C176** for `HOSVD`: run again on the tensor it returned, with the same ranks, it returns that tensor. -/
theorem C176_hosvd (svd svd' : Tensor ℝ → Res (Tensor ℝ × Tensor ℝ × Tensor ℝ)) (hs : SvdOk svd) (hs' : SvdOk svd')
    (X : Tensor ℝ) (ranks : List Nat) (h1 : 1 ≤ X.order) (h13 : X.order ≤ 13) (hpos : ∀ d ∈ X.shape, 0 < d)
    (hr : X.order ≤ ranks.length) :
    ∃ A g Y, tucker.HOSVD.run svd X ranks = .ok (A, g, Y) ∧
      ∃ A' g', tucker.HOSVD.run svd' Y ranks = .ok (A', g', Y) := by
  obtain ⟨A, g, Y, e1, e2, e3⟩ := hosvd_rank hs h1 h13 hpos hr
  have eo : Y.order = X.order := congrArg List.length e2
  exact ⟨A, g, Y, e1, C90_hosvd_exact svd' hs' Y ranks (by omega) (by omega) (by rwa [e2]) (by omega) (by rwa [e2])⟩

/-- **C176** for `HOOI` after `HOSVD`: on a nonzero tensor returned by `HOSVD` the training stops after one step,
reports no error and exposes that tensor. -/
theorem C176_hosvd_hooi (svd svd' : Tensor ℝ → Res (Tensor ℝ × Tensor ℝ × Tensor ℝ)) (hs : SvdOk svd) (hs' : SvdOk svd')
    (X : Tensor ℝ) (ranks : List Nat) (h2 : 2 ≤ X.order) (h13 : X.order ≤ 13) (hpos : ∀ d ∈ X.shape, 0 < d)
    (hr : X.order ≤ ranks.length) (ha : Admissible X.shape ranks) (args : Args ℝ)
    (hv : args.validationInternal ≠ 0) (ht : 0 < args.tol) (steps : Int) (h1 : 1 ≤ steps)
    (self : Self (List (Tensor ℝ)) (Tensor ℝ) (Tensor ℝ)) :
    ∃ A g Y, tucker.HOSVD.run svd X ranks = .ok (A, g, Y) ∧ ((∃ i, InB X.shape i ∧ Y.at_ i ≠ 0) →
      ∃ self' ev, train (exactArith ℝ) (HOOI.cls (tucker.HOOI.main svd' Y ranks)) args steps
        (tucker.HOOI.init svd' Y ranks) self = (self', ev, .ok [(0, 0)]) ∧ self'.full = some Y) := by
  obtain ⟨A, g, Y, e1, e2, e3⟩ := hosvd_rank hs (by omega) h13 hpos hr
  have eo : Y.order = X.order := congrArg List.length e2
  exact ⟨A, g, Y, e1, fun h0 => C90_hooi_full svd' hs' Y ranks (by omega) (by omega) (by rwa [e2]) (by omega)
    (by rwa [e2]) (by rwa [e2]) (by rwa [e2]) args hv ht steps h1 self⟩

/-- **C176** for `HOOI`: `HOSVD` returns the tensor a training exposed, and a further training on it, if it is not zero,
stops after one step with no error. -/
theorem C176_hooi (svd svd' : Tensor ℝ → Res (Tensor ℝ × Tensor ℝ × Tensor ℝ)) (hs : SvdOk svd) (hs' : SvdOk svd')
    (X : Tensor ℝ) (ranks : List Nat) (h2 : 2 ≤ X.order) (h13 : X.order ≤ 13) (hpos : ∀ d ∈ X.shape, 0 < d)
    (hlen : X.order ≤ ranks.length) (Ar : Arith ℝ) (args : Args ℝ) (steps : Int)
    (self self' : Self (List (Tensor ℝ)) (Tensor ℝ) (Tensor ℝ)) (ev : List Int) (hist : List (ℝ × ℝ))
    (h : train Ar (HOOI.cls (tucker.HOOI.main svd X ranks)) args steps (tucker.HOOI.init svd X ranks) self =
      (self', ev, .ok hist)) :
    ∃ Y, self'.full = some Y ∧ (∃ A g, tucker.HOSVD.run svd' Y ranks = .ok (A, g, Y)) ∧
      ∀ args' : Args ℝ, args'.validationInternal ≠ 0 → 0 < args'.tol → ∀ steps' : Int, 1 ≤ steps' →
        Admissible X.shape ranks → (∃ i, InB X.shape i ∧ Y.at_ i ≠ 0) → ∀ self1,
        ∃ self2 ev', train (exactArith ℝ) (HOOI.cls (tucker.HOOI.main svd' Y ranks)) args' steps'
          (tucker.HOOI.init svd' Y ranks) self1 = (self2, ev', .ok [(0, 0)]) ∧ self2.full = some Y := by
  obtain ⟨s0, k, o, k', e, -, -, h4, -, -, -, ⟨p, hp, -, -, hfull⟩, -⟩ := train_ok h
  obtain ⟨i1, -⟩ := hooi_init hs hpos hlen e
  obtain ⟨σ, -, hσ⟩ := hooi_run hs h2 h13 hpos hlen i1 h4
  obtain ⟨hf, s, hm, -⟩ := hσ p hp
  obtain ⟨g, a1, a2, -, a3, a4, a5, a6, a7, -⟩ := hooi_main hs h2 h13 hpos hlen hf hm
  have hne : X.shape ≠ [] := by intro e; unfold order at h2; rw [e] at h2; simp at h2
  have ho : OrthoFactors X.shape s := by
    refine ⟨a1.1, fun k M hM => ?_⟩
    have := a2 k M hM
    have e : M.shape.getD 1 0 = ranks.getD k 0 := by rw [this.1]; rfl
    rw [e]; exact this
  obtain ⟨g', Y', f1, f2, f5, -, f3, f4⟩ := tucker_entries hne h13 ho.allMat ho.rowDims
  rw [a5] at f1; cases f1
  rw [a6] at f2; cases f2
  have hT : TuckerRankLe X.shape ranks (o p).full := by
    refine tuckerRank_of a1 ⟨a7, f4⟩ ?_ fun j hj => ?_
    · rw [f5, colDims, List.length_map]; exact a1.1
    · rw [f5]
      have hj' : j < s.length := by rw [a1.1]; exact hj
      simp [colDims, hj', a1.2 j _ (List.getElem?_eq_getElem hj')]
  have eo : (o p).full.order = X.order := congrArg List.length a7
  exact ⟨(o p).full, hfull,
    C90_hosvd_exact svd' hs' _ ranks (by omega) (by omega) (by rwa [a7]) (by omega) (by rwa [a7]),
    fun args' hv ht steps' h1 ha h0 self1 => C90_hooi_full svd' hs' _ ranks (by omega) (by omega) (by rwa [a7]) (by omega)
      (by rwa [a7]) (by rwa [a7]) (by rwa [a7]) args' hv ht steps' h1 self1⟩

/-- **C176** for `CP_ALS`: with at least the rank of the training in every mode, `HOSVD` returns the tensor the training
exposed. -/
theorem C176_cp (svd : Tensor ℝ → Res (Tensor ℝ × Tensor ℝ × Tensor ℝ)) (hs : SvdOk svd)
    (pinv : Tensor ℝ → Res (Tensor ℝ)) (hp : PinvOk pinv) (X : Tensor ℝ) (R : Nat)
    (A0 : List (Tensor ℝ)) (hA : FactorsFor X.shape R A0) (h2 : 2 ≤ X.order) (h13 : X.order ≤ 13)
    (hpos : ∀ d ∈ X.shape, 0 < d) (Ar : Arith ℝ) (args : Args ℝ) (steps : Int)
    (self self' : Self (List (Tensor ℝ)) (Tensor ℝ) (Tensor ℝ)) (ev : List Int) (hist : List (ℝ × ℝ))
    (h : train Ar (CP_ALS.cls (cp.main pinv X R)) args steps (.ok A0) self = (self', ev, .ok hist))
    (ranks : List Nat) (hr : X.order ≤ ranks.length) (hR : ∀ k < X.order, R ≤ ranks.getD k 0) :
    ∃ Y, self'.full = some Y ∧ ∃ A g, tucker.HOSVD.run svd Y ranks = .ok (A, g, Y) := by
  obtain ⟨s0, k, o, k', e, -, -, h4, -, -, -, ⟨p, hp', -, -, hfull⟩, -⟩ := train_ok h
  cases e
  obtain ⟨σ, -, hσ⟩ := cp_run hp hA h2 (by omega) hpos h4
  obtain ⟨hf, s, hm, -⟩ := hσ p hp'
  obtain ⟨lam, -, a1, a2, a3, a4, a5, a6, -⟩ := cp.main_ok hp hf h2 (by omega) hpos hm
  have hne : X.shape ≠ [] := by intro e; unfold order at h2; rw [e] at h2; simp at h2
  obtain ⟨Y, y1, y2, y3⟩ := cp.fullOf_spec a1 hne (le_trans h13 (by omega)) a2
  rw [a5] at y1; cases y1
  have eo : (o p).full.order = X.order := congrArg List.length a6
  have hT : TuckerRankLe X.shape ranks (o p).full := tuckerRank_weighted a1 hne ⟨y2, y3⟩ hR
  exact ⟨(o p).full, hfull,
    C90_hosvd_exact svd hs _ ranks (by omega) (by omega) (by rwa [a6]) (by omega) (by rwa [a6])⟩

/-- **C176** for `NCP_BCU`. -/
theorem C176_ncp (svd : Tensor ℝ → Res (Tensor ℝ × Tensor ℝ × Tensor ℝ)) (hs : SvdOk svd)
    (topSv : Tensor ℝ → Res ℝ) (X : Tensor ℝ) (R : Nat) (h1 : 1 ≤ X.order) (h13 : X.order ≤ 13)
    (hpos : ∀ d ∈ X.shape, 0 < d) (s0 : State) (h0 : NcpInit X R s0) (Ar : Arith ℝ) (args : Args ℝ) (steps : Int)
    (self self' : Self (List (Tensor ℝ)) (Tensor ℝ) (Tensor ℝ)) (ev : List Int) (hist : List (ℝ × ℝ))
    (h : train Ar (NCP.cls topSv X R) args steps (.ok s0) self = (self', ev, .ok hist))
    (ranks : List Nat) (hr : X.order ≤ ranks.length) (hR : ∀ k < X.order, R ≤ ranks.getD k 0) :
    ∃ Y, self'.full = some Y ∧ ∃ A g, tucker.HOSVD.run svd Y ranks = .ok (A, g, Y) := by
  have hne : X.shape ≠ [] := by intro e; unfold order at h1; rw [e] at h1; simp at h1
  obtain ⟨s1, k, o, k', e, -, -, h4, -, -, -, ⟨p, hp', -, -, hfull⟩, -⟩ := train_ok h
  cases e
  obtain ⟨σ, -, hσ⟩ := run_reach (init := NcpInit X R) h0 h4
  obtain ⟨hre, s', -, hrun, -⟩ := hσ p hp'
  have hm : NCP.main topSv X _ = .ok (s', o p) := hrun.2
  obtain ⟨f1, -, -, -, -, a6, a7, a8, -⟩ := NCP.main_ok (ncp_reach hne (by omega) hre).1 hne (by omega) hm
  have eo : (o p).full.order = X.order := congrArg List.length a7
  have hT : TuckerRankLe X.shape ranks (o p).full :=
    tuckerRank_weighted (w := fun _ => 1) f1.factorsFor.1 hne ⟨a7, by simpa using a8⟩ hR
  exact ⟨(o p).full, hfull,
    C90_hosvd_exact svd hs _ ranks (by omega) (by omega) (by rwa [a7]) (by omega) (by rwa [a7])⟩

/-- **C176** for `NTUCKER_BCU`, with the same ranks. -/
theorem C176_ntucker (svd : Tensor ℝ → Res (Tensor ℝ × Tensor ℝ × Tensor ℝ)) (hs : SvdOk svd)
    (topSv : Tensor ℝ → Res ℝ) (X : Tensor ℝ) (ranks : List Nat)
    (hr : ranks.length = X.shape.length) (h1 : 1 ≤ X.order) (h13 : X.order ≤ 13) (hpos : ∀ d ∈ X.shape, 0 < d)
    (s0 : TState) (h0 : NtuckerInit X ranks s0) (Ar : Arith ℝ) (args : Args ℝ) (steps : Int)
    (self self' : Self (List (Tensor ℝ)) (Tensor ℝ) (Tensor ℝ)) (ev : List Int) (hist : List (ℝ × ℝ))
    (h : train Ar (NTUCKER.cls topSv X) args steps (.ok s0) self = (self', ev, .ok hist)) :
    ∃ Y, self'.full = some Y ∧ ∃ A g, tucker.HOSVD.run svd Y ranks = .ok (A, g, Y) := by
  obtain ⟨s1, k, o, k', e, -, -, h4, -, -, -, ⟨p, hp', -, -, hfull⟩, -⟩ := train_ok h
  cases e
  obtain ⟨σ, -, hσ⟩ := run_reach (init := NtuckerInit X ranks) h0 h4
  obtain ⟨hre, s', -, hrun, -⟩ := hσ p hp'
  obtain ⟨s1, v, hc, -, hm⟩ := hrun
  have hre' := hre.core rfl hc
  obtain ⟨t1, -, -, -, -, b6, -, b8, b9, b10, b11, -⟩ :=
    NTUCKER.main_ok (ntucker_reach hr h1 h13 hre').1 hr h1 h13 hm
  have hT : TuckerRankLe X.shape ranks (o p).full := by
    refine tuckerRank_of (tuckerShapes_iff.1 t1.factors.A) ⟨b10, b11⟩ ?_ fun j hj => ?_
    · rw [t1.g, hr]
    · rw [t1.g]
  have eo : (o p).full.order = X.order := congrArg List.length b10
  exact ⟨(o p).full, hfull, C90_hosvd_exact svd hs _ ranks (by omega) (by omega) (by rwa [b10])
    (by rw [eo]; exact hr.ge) (by rwa [b10])⟩

/-- The hypotheses of C176 are met: on `diag(2, 1)` with one column per mode `HOSVD` returns a tensor other than
`diag(2, 1)`, and returns that tensor again when run on it. -/
example : ∃ svd, SvdOk svd ∧ ∃ A g Y, tucker.HOSVD.run svd diagX [1, 1] = .ok (A, g, Y) ∧ Y ≠ diagX ∧
    ∃ A' g', tucker.HOSVD.run svd Y [1, 1] = .ok (A', g', Y) := by
  obtain ⟨svd, hs⟩ := exists_svdOk
  have hpos : ∀ d ∈ diagX.shape, 0 < d := by intro d hd; have : d ∈ [2, 2] := hd; simp at this; omega
  obtain ⟨A, g, Y, e1, e2⟩ := C176_hosvd svd svd hs hs diagX [1, 1] (by show 1 ≤ 2; omega) (by show 2 ≤ 13; omega) hpos
    (le_refl 2)
  refine ⟨svd, hs, A, g, Y, e1, ?_, e2⟩
  rintro rfl
  obtain ⟨A', g', Y', f1, f2, f3⟩ := hosvd_rank hs (X := diagX) (ranks := [1, 1]) (by show 1 ≤ 2; omega)
    (by show 2 ≤ 13; omega) hpos (le_refl 2)
  rw [e1] at f1
  cases f1
  obtain ⟨q, B, C, hq, hBC⟩ := f3.unf (n := 0) (by show 0 < 2; omega)
  have := unfold_bound (X := diagX) (Y := diagX) (n := 0) (r := 1) (by show 0 < 2; omega) hpos rfl (σ := ![2, 1]) diagX_sv hq hBC
  have e : distSqT diagX diagX = 0 := by
    unfold distSqT
    simp only [sub_self]
    exact (loss.boxSum_eq_zero diagX.shape fun i _ => by simp).2 fun i _ => by simp
  rw [e] at this
  have e' : (∑ i : Fin 2, if 1 ≤ i.val then (![2, 1] : Fin 2 → ℝ) i ^ 2 else 0) = 1 := by simp [Fin.sum_univ_two]
  exact absurd (e'.symm.le.trans this) (by norm_num)

end TD.Props
