import Verif.Props.LowRank
import Verif.Props.Report
import Verif.Props.Fixed

/-!
# C133 : no training reports an error below what the ranks allow
-/
namespace TD.Props
open TD Spec Tensor ops Matrix fact bcu

/-- The mode-`n` unfolding of a Kruskal tensor has its columns in the range of factor `n`. -/
theorem unfM_kruskal {shape : List Nat} {R n : Nat} {A : List (Tensor ℝ)} {w : Nat → ℝ} {Y : Tensor ℝ}
    (hA : FactorsFor shape R A) (hY : IsKruskal shape R A w Y) (hn : n < shape.length) :
    ∃ (B : Mat (shape.getD n 0) R) (C : Mat R (otherSize shape n)),
      unfM Y n (shape.getD n 0) (otherSize shape n) = B * C := by
  have hl : A.length = shape.length := hA.length
  have hAn : A[n]? = some A[n] := List.getElem?_eq_getElem (by omega)
  refine ⟨toMat A[n] _ _, Matrix.of fun r j => w r * khatriEntry r (A.eraseIdx n) ((unkolda shape n 0 j).eraseIdx n), ?_⟩
  ext i j
  obtain ⟨k1, k2, -⟩ := unkolda_spec hn i.isLt j.isLt
  obtain ⟨-, -, f1⟩ := unkolda_facts (shape := shape) hn i j
  obtain ⟨-, -, f2⟩ := unkolda_facts (shape := shape) hn 0 j
  unfold unfM
  rw [Matrix.of_apply, hY.1, hY.2 _ k1, Matrix.mul_apply, Finset.sum_range]
  refine Finset.sum_congr rfl fun r _ => ?_
  rw [toMat_apply, Matrix.of_apply, khatriEntry_eraseIdx _ (by rw [k1.length, hl]) hAn, k2, f1, f2]
  ring

/-- The reported error squared, times `‖X‖²`, is `‖X - Y‖²`. -/
theorem _root_.TD.Spec.Reports.dist {X Y : Tensor ℝ} {p : ℝ × ℝ} (h : Reports X Y p) (hX : 0 < normSqT X) :
    p.2 ^ 2 * normSqT X = distSqT X Y := by
  have e : p.2 = Real.sqrt (distSqT X Y) / Real.sqrt (normSqT X) := h.2
  rw [e, div_pow, Real.sq_sqrt (distSqT_nonneg X Y), Real.sq_sqrt hX.le]
  exact div_mul_cancel₀ _ hX.ne'

/-- Eckart-Young for an unfolding as the code computes it. -/
theorem unfold_bound {X Y : Tensor ℝ} {n q r : Nat} (hn : n < X.order) (hpos : ∀ d ∈ X.shape, 0 < d) (hYs : Y.shape = X.shape)
    {σ : Fin (min (X.shape.getD n 0) (otherSize X.shape n)) → ℝ}
    (hσ : ∃ M, unfold X n = .ok M ∧ SingularValues (toMat M (X.shape.getD n 0) (otherSize X.shape n)) σ)
    {B : Mat (X.shape.getD n 0) q} {C : Mat q (otherSize X.shape n)} (hq : q ≤ r)
    (hBC : unfM Y n (X.shape.getD n 0) (otherSize X.shape n) = B * C) :
    (∑ i, if r ≤ i.val then σ i ^ 2 else 0) ≤ distSqT X Y := by
  obtain ⟨M, hM, U, V, hsv⟩ := hσ
  rw [(toMat_unfold hn (getD_pos_of hpos hn) hM).2] at hsv
  rw [distSqT_unfM hYs hn rfl rfl, hBC]
  exact hsv.eckart_young B C hq

/-- What holds of the last entry of every run holds of every entry. -/
theorem all_entries {S F K X R : Type} {A : Arith R} {c : Cls S F K X R} {args : Args R} {fresh : Res S} {self : Self F K X}
    {P : R × R → Prop}
    (hP : ∀ n self' ev hist p, train A c args n fresh self = (self', ev, .ok hist) → hist.getLast? = some p → P p)
    {n : Int} {self' : Self F K X} {ev : List Int} {hist : List (R × R)}
    (h : train A c args n fresh self = (self', ev, .ok hist)) : ∀ p ∈ hist, P p := by
  intro p hp
  obtain ⟨j, hj, rfl⟩ := List.mem_iff_getElem.1 hp
  obtain ⟨s0, o, k, -, -, hl, -⟩ := C43_history A c args n fresh self self' ev hist h
  obtain ⟨s'', ev', h', -⟩ := C82_prefix A c args n (j + 1) fresh self self' ev hist h (by omega) (by omega)
  refine hP _ _ _ _ _ h' ?_
  have : ((j : Int) + 1).toNat = j + 1 := by omega
  rw [this, List.getLast?_eq_getElem?, List.length_take, Nat.min_eq_left hj, Nat.succ_sub_one,
    List.getElem?_take, if_pos (by omega), List.getElem?_eq_getElem hj]

/-- **C133** for `CP_ALS`: with `R` components every reported residual satisfies
`(residual · ‖X‖)² ≥ ∑_{i ≥ R} σ_i²` for the singular values of every unfolding of the data. -/
theorem C133_cp (pinv : Tensor ℝ → Res (Tensor ℝ)) (hp : PinvOk pinv) (X : Tensor ℝ) (R : Nat)
    (A0 : List (Tensor ℝ)) (hA : FactorsFor X.shape R A0) (h2 : 2 ≤ X.order) (h25 : X.order ≤ 25)
    (hpos : ∀ d ∈ X.shape, 0 < d) (Ar : Arith ℝ) (args : Args ℝ) (steps : Int)
    (self self' : Self (List (Tensor ℝ)) (Tensor ℝ) (Tensor ℝ)) (ev : List Int) (hist : List (ℝ × ℝ))
    (h : train Ar (CP_ALS.cls (cp.main pinv X R)) args steps (.ok A0) self = (self', ev, .ok hist))
    (n : Nat) (hn : n < X.order) (σ : Fin (min (X.shape.getD n 0) (otherSize X.shape n)) → ℝ)
    (hσ : ∃ M, unfold X n = .ok M ∧ SingularValues (toMat M (X.shape.getD n 0) (otherSize X.shape n)) σ) :
    ∀ p ∈ hist, (∑ i, if R ≤ i.val then σ i ^ 2 else 0) ≤ p.2 ^ 2 * normSqT X := by
  refine all_entries (fun m self' ev hist p h hl => ?_) h
  obtain ⟨s, s', o, k, hr, hrun, e1, e2, e3, e4⟩ := train_last (init := CpInit X R) (by rintro s ⟨⟩; exact hA) h
  have hm : cp.main pinv X R s = .ok (s', o) := hrun.2
  obtain ⟨lam, -, a1, a2, a3, a4, a5, a6, -, -, -, a9, -⟩ := cp.main_ok hp (cp_reach hp h2 h25 hpos hr) h2 h25 hpos hm
  have hne : X.shape ≠ [] := by intro e; unfold order at h2; rw [e] at h2; simp at h2
  obtain ⟨Y, y1, y2, y3⟩ := cp.fullOf_spec a1 hne h25 a2
  rw [a5] at y1; cases y1
  rw [e1] at hl; cases hl
  rw [(scalars_reports a6 (cp_main_scalars hm)).dist a9]
  obtain ⟨B, C, hBC⟩ := unfM_kruskal a1 ⟨y2, y3⟩ hn
  exact unfold_bound hn hpos a6 hσ (le_refl _) hBC

/-- **C133** for `NCP_BCU`. -/
theorem C133_ncp (topSv : Tensor ℝ → Res ℝ) (X : Tensor ℝ) (R : Nat) (hne : X.shape ≠ []) (h25 : X.order ≤ 25)
    (hpos : ∀ d ∈ X.shape, 0 < d)
    (s0 : State) (h0 : NcpInit X R s0) (Ar : Arith ℝ) (args : Args ℝ) (steps : Int)
    (self self' : Self (List (Tensor ℝ)) (Tensor ℝ) (Tensor ℝ)) (ev : List Int) (hist : List (ℝ × ℝ))
    (h : train Ar (NCP.cls topSv X R) args steps (.ok s0) self = (self', ev, .ok hist))
    (n : Nat) (hn : n < X.order) (σ : Fin (min (X.shape.getD n 0) (otherSize X.shape n)) → ℝ)
    (hσ : ∃ M, unfold X n = .ok M ∧ SingularValues (toMat M (X.shape.getD n 0) (otherSize X.shape n)) σ) :
    ∀ p ∈ hist, (∑ i, if R ≤ i.val then σ i ^ 2 else 0) ≤ p.2 ^ 2 * normSqT X := by
  refine all_entries (fun m self' ev hist p h hl => ?_) h
  obtain ⟨s, s', o, k, hr, hrun, e1, e2, e3, e4⟩ := train_last (init := NcpInit X R) (by rintro s ⟨⟩; exact h0) h
  have hm : NCP.main topSv X s = .ok (s', o) := hrun.2
  obtain ⟨f1, -, -, -, -, a6, a7, a8, -, -, -, -, a9⟩ := NCP.main_ok (ncp_reach hne h25 hr).1 hne h25 hm
  obtain ⟨-, -, -, -, -, -, hsc⟩ := NCP.main_inv hm
  rw [e1] at hl; cases hl
  rw [(scalars_reports a7 hsc).dist a9]
  obtain ⟨B, C, hBC⟩ := unfM_kruskal (w := fun _ => 1) f1.factorsFor.1 ⟨a7, by simpa using a8⟩ hn
  exact unfold_bound hn hpos a7 hσ (le_refl _) hBC

/-- Factors of the given ranks. -/
theorem tuckerRank_of {shape ranks : List Nat} {g Y : Tensor ℝ} {A : List (Tensor ℝ)} (hA : TuckerShapes shape ranks A)
    (hY : IsTucker shape g A Y) (hg : g.shape.length = shape.length)
    (hgk : ∀ k < shape.length, g.shape.getD k 0 = ranks.getD k 0) : TuckerRankLe shape ranks Y := by
  refine ⟨g, A, ?_, hg, fun k hk => (hgk k hk).le, hY⟩
  refine List.ext_getElem (by simp [hA.1]) fun k h1 h2 => ?_
  have hk : k < shape.length := by simpa using h2
  simp only [List.getElem_map, List.getElem_range]
  rw [hA.2 k _ (List.getElem?_eq_getElem (by rw [hA.1]; exact hk)), hgk k hk]

/-- **C133** for `HOOI`: the ranks bound the residual in each mode. -/
theorem C133_hooi (svd : Tensor ℝ → Res (Tensor ℝ × Tensor ℝ × Tensor ℝ)) (hs : SvdOk svd) (X : Tensor ℝ)
    (ranks : List Nat) (h2 : 2 ≤ X.order) (h13 : X.order ≤ 13) (hpos : ∀ d ∈ X.shape, 0 < d)
    (hlen : X.order ≤ ranks.length) (Ar : Arith ℝ) (args : Args ℝ) (steps : Int)
    (self self' : Self (List (Tensor ℝ)) (Tensor ℝ) (Tensor ℝ)) (ev : List Int) (hist : List (ℝ × ℝ))
    (h : train Ar (HOOI.cls (tucker.HOOI.main svd X ranks)) args steps (tucker.HOOI.init svd X ranks) self =
      (self', ev, .ok hist))
    (n : Nat) (hn : n < X.order) (σ : Fin (min (X.shape.getD n 0) (otherSize X.shape n)) → ℝ)
    (hσ : ∃ M, unfold X n = .ok M ∧ SingularValues (toMat M (X.shape.getD n 0) (otherSize X.shape n)) σ) :
    ∀ p ∈ hist, (∑ i, if ranks.getD n 0 ≤ i.val then σ i ^ 2 else 0) ≤ p.2 ^ 2 * normSqT X := by
  refine all_entries (fun m self' ev hist p h hl => ?_) h
  obtain ⟨s0, k, o, k', e, h2', -, h4, -, h6, -⟩ := train_ok h
  have hlk : hist.length = k := by rw [h6]; simp
  obtain ⟨i1, i2, -⟩ := hooi_init hs hpos hlen e
  obtain ⟨σ', h0, hσ'⟩ := hooi_run hs h2 h13 hpos hlen i1 h4
  obtain ⟨hf, s, hm, -⟩ := hσ' (k - 1) (by omega)
  obtain ⟨g, a1, a2, -, a3, a4, a5, a6, a7, -, -, -, a9, -⟩ := hooi_main hs h2 h13 hpos hlen hf hm
  have hne : X.shape ≠ [] := by intro e; unfold order at h2; rw [e] at h2; simp at h2
  have ho : OrthoFactors X.shape s := by
    refine ⟨a1.1, fun k M hM => ?_⟩
    have := a2 k M hM
    have e : M.shape.getD 1 0 = ranks.getD k 0 := by rw [this.1]; rfl
    rw [e]; exact this
  obtain ⟨g', Y', f1, f2, f5, -, f3, f4⟩ := tucker_entries hne h13 ho.allMat ho.rowDims
  rw [a5] at f1; cases f1
  rw [a6] at f2; cases f2
  rw [List.getLast?_eq_getElem?, hlk, h6] at hl
  simp only [List.getElem?_map, List.getElem?_range (show k - 1 < k by omega), Option.map_some, Option.some.injEq] at hl
  subst hl
  rw [(scalars_reports a7 (hooi_main_scalars hm)).dist a9]
  have hT : TuckerRankLe X.shape ranks (o (k - 1)).full := by
    refine tuckerRank_of a1 ⟨a7, f4⟩ ?_ fun j hj => ?_
    · rw [f5, colDims, List.length_map]; exact a1.1
    · rw [f5]
      have hj' : j < s.length := by rw [a1.1]; exact hj
      simp [colDims, hj', a1.2 j _ (List.getElem?_eq_getElem hj')]
  obtain ⟨q, B, C, hq, hBC⟩ := hT.unf hn
  exact unfold_bound hn hpos a7 hσ hq hBC

/-- **C133** for `NTUCKER_BCU`. -/
theorem C133_ntucker (topSv : Tensor ℝ → Res ℝ) (X : Tensor ℝ) (ranks : List Nat)
    (hr : ranks.length = X.shape.length) (h1 : 1 ≤ X.order) (h13 : X.order ≤ 13) (hpos : ∀ d ∈ X.shape, 0 < d)
    (s0 : TState) (h0 : NtuckerInit X ranks s0) (Ar : Arith ℝ) (args : Args ℝ) (steps : Int)
    (self self' : Self (List (Tensor ℝ)) (Tensor ℝ) (Tensor ℝ)) (ev : List Int) (hist : List (ℝ × ℝ))
    (h : train Ar (NTUCKER.cls topSv X) args steps (.ok s0) self = (self', ev, .ok hist))
    (n : Nat) (hn : n < X.order) (σ : Fin (min (X.shape.getD n 0) (otherSize X.shape n)) → ℝ)
    (hσ : ∃ M, unfold X n = .ok M ∧ SingularValues (toMat M (X.shape.getD n 0) (otherSize X.shape n)) σ) :
    ∀ p ∈ hist, (∑ i, if ranks.getD n 0 ≤ i.val then σ i ^ 2 else 0) ≤ p.2 ^ 2 * normSqT X := by
  refine all_entries (fun m self' ev hist p h hl => ?_) h
  obtain ⟨s, s', o, k, hre, hrun, e1, e2, e3, e4⟩ := train_last (init := NtuckerInit X ranks) (by rintro s ⟨⟩; exact h0) h
  obtain ⟨s1, v, hc, rfl, hm⟩ := hrun
  have hre' := hre.core rfl hc
  obtain ⟨t1, -, -, -, -, b6, -, b8, b9, b10, b11, -, -, -, -, a9⟩ :=
    NTUCKER.main_ok (ntucker_reach hr h1 h13 hre').1 hr h1 h13 hm
  obtain ⟨-, -, -, -, -, -, hsc⟩ := NTUCKER.main_inv hm
  rw [e1] at hl; cases hl
  rw [(scalars_reports b10 hsc).dist a9]
  have hT : TuckerRankLe X.shape ranks o.full := by
    refine tuckerRank_of (tuckerShapes_iff.1 t1.factors.A) ⟨b10, b11⟩ ?_ fun j hj => ?_
    · rw [t1.g, hr]
    · rw [t1.g]
  obtain ⟨q, B, C, hq, hBC⟩ := hT.unf hn
  exact unfold_bound hn hpos b10 hσ hq hBC

/-- **C133** for `HOSVD`: its squared error lies between the largest and the sum of the discarded parts. -/
theorem C133_hosvd (svd : Tensor ℝ → Res (Tensor ℝ × Tensor ℝ × Tensor ℝ)) (hs : SvdOk svd) (X : Tensor ℝ)
    (ranks : List Nat) (h1 : 1 ≤ X.order) (h13 : X.order ≤ 13) (hpos : ∀ d ∈ X.shape, 0 < d)
    (hr : X.order ≤ ranks.length)
    (σ : (n : Nat) → Fin (min (X.shape.getD n 0) (otherSize X.shape n)) → ℝ)
    (hσ : ∀ n < X.order, ∃ M, unfold X n = .ok M ∧
      SingularValues (toMat M (X.shape.getD n 0) (otherSize X.shape n)) (σ n)) :
    ∃ A g full, tucker.HOSVD.run svd X ranks = .ok (A, g, full) ∧ full.shape = X.shape ∧
      (∀ n < X.order, (∑ i, if ranks.getD n 0 ≤ i.val then σ n i ^ 2 else 0) ≤ distSqT X full) ∧
      distSqT X full ≤ ∑ n ∈ Finset.range X.order, ∑ i, if ranks.getD n 0 ≤ i.val then σ n i ^ 2 else 0 := by
  obtain ⟨A, g, full, e1, e2, e3⟩ := C59_hosvd_error svd hs X ranks h1 h13 hpos hr σ hσ
  refine ⟨A, g, full, e1, e2, fun n hn => ?_, e3⟩
  obtain ⟨A', g', Y, e1', e2', e3', ho, hgs, hA⟩ := hosvd_ok hs h1 h13 hpos hr
  rw [e1] at e1'; cases e1'
  have hne : X.shape ≠ [] := by intro e; unfold order at h1; rw [e] at h1; simp at h1
  obtain ⟨g', Y', f1, f2, -, -, -, f4⟩ := tucker_entries hne h13 ho.allMat ho.rowDims
  rw [e2'] at f1; cases f1
  rw [e3'] at f2; cases f2
  obtain ⟨M, U, s, V, h, a1, a2, -⟩ := hA n hn
  obtain ⟨C, hC⟩ := unfM_tucker (n := n) ⟨e2, f4⟩ ho.rowDims hgs a1 a2 rfl
  exact unfold_bound hn hpos e2 (hσ n hn) (Nat.min_le_left _ _) hC

/-- The singular values of `diag(2, 1)`. -/
theorem diagX_sv : ∃ M, unfold diagX ((0 : Nat) : Int) = .ok M ∧ SingularValues (toMat M 2 2) ![2, 1] := by
  let I : Matrix (Fin 2) (Fin 2) ℝ := 1
  have hI : Iᵀ * I = 1 := by rw [Matrix.transpose_one, Matrix.one_mul]
  refine ⟨diagX, rfl, I, I, hI, hI, ?_, ?_, ?_⟩
  · intro i; fin_cases i <;> simp
  · intro i j h
    fin_cases i <;> fin_cases j <;> simp_all
  · change toMat diagX 2 2 = (I * (diagonal ![2, 1] : Matrix (Fin 2) (Fin 2) ℝ) * Iᵀ : Matrix (Fin 2) (Fin 2) ℝ)
    rw [Matrix.one_mul, Matrix.transpose_one, Matrix.mul_one]
    ext i j
    fin_cases i <;> fin_cases j <;> simp [toMat, diagX, at_, ravel]

/-- The hypotheses of C133 are met: on `diag(2, 1)` one component leaves a residual of at least `1/√5`, from every
initial value, for every tolerance and number of steps (trainings that return exist, see the examples of C95). -/
example (pinv : Tensor ℝ → Res (Tensor ℝ)) (hp : PinvOk pinv) (A0 : List (Tensor ℝ)) (hA : FactorsFor diagX.shape 1 A0)
    (args : Args ℝ) (steps : Int) (self self' : Self (List (Tensor ℝ)) (Tensor ℝ) (Tensor ℝ)) (ev : List Int)
    (hist : List (ℝ × ℝ))
    (h : train (exactArith ℝ) (CP_ALS.cls (cp.main pinv diagX 1)) args steps (.ok A0) self = (self', ev, .ok hist)) :
    ∀ p ∈ hist, 1 ≤ p.2 ^ 2 * 5 := by
  intro p hp'
  have := C133_cp pinv hp diagX 1 A0 hA (le_refl 2) (by show 2 ≤ 25; omega)
    (by intro d hd; have : d ∈ [2, 2] := hd; simp at this; omega) _ args steps self self' ev hist h 0 (by show 0 < 2; omega)
    ![2, 1] diagX_sv p hp'
  have e : normSqT diagX = 5 := by
    simp [normSqT, diagX, boxSum, Finset.sum_range_succ, at_, ravel]
    norm_num
  have e' : (∑ i : Fin 2, if 1 ≤ i.val then (![2, 1] i : ℝ) ^ 2 else 0) = 1 := by
    simp [Fin.sum_univ_two]
  rw [e] at this
  exact le_trans (le_of_eq e'.symm) this

end TD.Props
