import Verif.Lemmas.Ncp
import Verif.Lemmas.Hooi
import Verif.Lemmas.Lipschitz
import Verif.Spec.TuckerFit

/-! # Lemmas on `NTUCKER_BCU` -/
namespace TD
open Spec Tensor tf ops Matrix

theorem tuckerShapes_iff {shape ranks : List Nat} {A : List (Tensor ℝ)} :
    A.map Tensor.shape = tuckerShapes shape ranks ↔ TuckerShapes shape ranks A := by
  unfold tuckerShapes TuckerShapes
  constructor
  · intro h
    have hl : A.length = shape.length := by simpa using congrArg List.length h
    refine ⟨hl, fun k M hM => ?_⟩
    have hk : k < shape.length := by rw [← hl]; exact (List.getElem?_eq_some_iff.1 hM).1
    have := congrArg (fun l => l[k]?) h
    simp only [List.getElem?_map, hM, Option.map_some, List.getElem?_range hk, Option.some.injEq] at this
    exact this
  · rintro ⟨hl, h⟩
    refine List.ext_getElem? fun k => ?_
    rw [List.getElem?_map, List.getElem?_map]
    by_cases hk : k < A.length
    · rw [List.getElem?_eq_getElem hk, List.getElem?_range (by rw [← hl]; exact hk), Option.map_some, Option.map_some,
        h k A[k] (List.getElem?_eq_getElem hk)]
    · rw [List.getElem?_eq_none (by omega), List.getElem?_eq_none (by simp; omega)]; rfl

theorem Spec.TuckerShapes.rowDims {shape ranks : List Nat} {A : List (Tensor ℝ)} (h : TuckerShapes shape ranks A) :
    rowDims A = shape := by
  refine List.ext_getElem (by simpa using h.1) fun k hk hk' => ?_
  have hk'' : k < A.length := by rw [h.1]; exact hk'
  simp only [Spec.rowDims, List.getElem_map]
  rw [h.2 k A[k] (List.getElem?_eq_getElem hk''), ← List.getD_eq_getElem _ 0 hk']; rfl

theorem Spec.TuckerShapes.colDims {shape ranks : List Nat} {A : List (Tensor ℝ)} (h : TuckerShapes shape ranks A)
    (hr : ranks.length = shape.length) : colDims A = ranks := by
  refine List.ext_getElem (by simpa [hr] using h.1) fun k hk hk' => ?_
  have hk'' : k < A.length := by rw [h.1, ← hr]; exact hk'
  simp only [Spec.colDims, List.getElem_map]
  rw [h.2 k A[k] (List.getElem?_eq_getElem hk''), ← List.getD_eq_getElem _ 0 hk']; rfl

/-- The tensor `Y` of a mode update. -/
theorem tk_Y {shape ranks : List Nat} {g : Tensor ℝ} {A : List (Tensor ℝ)} (h2 : 2 ≤ shape.length)
    (h13 : shape.length ≤ 13) (hA : TuckerShapes shape ranks A) (hr : ranks.length = shape.length)
    (hg : g.shape = ranks) {n : Nat} (hn : n < shape.length) :
    ttm g A none false (.int n) = .ok (modeProds g (((List.range shape.length).zip A).eraseIdx n)) := by
  have hl : A.length = shape.length := hA.1
  have ho : g.order = shape.length := by unfold order; rw [hg, hr]
  have hmem : ∀ i ∈ (List.range shape.length).eraseIdx n, i < g.order := fun i hi => by
    have := List.mem_of_mem_eraseIdx hi
    rw [ho]; simpa using this
  rw [Props.C12_ttm_skip g A false (.int n) (fun i hi _ => by omega)]
  have e1 : ((List.range A.length).filter fun i => decide (keeps (.int n) i)) = (List.range shape.length).eraseIdx n := by
    rw [← kept_int, kept, hl, List.length_range]
    have : ∀ l : List Nat, (∀ i ∈ l, i < shape.length) → l.filterMap (fun i => (List.range shape.length)[i]?) = l := by
      intro l
      induction l with
      | nil => intro _; rfl
      | cons a l ih =>
          intro h
          rw [List.filterMap_cons, List.getElem?_range (h a (by simp)), ih fun i hi => h i (by simp [hi])]
    rw [this]
    intro i hi
    simpa using (List.mem_filter.1 hi).1
  rw [e1, kept_int, Props.C10_ttm_mode_products g _ _ false (by omega) ?_ ?_ hmem ?_, if_neg (by simp)]
  · rw [zip_eraseIdx _ _ _ (by simp [hl])]
  · intro e
    have := congrArg List.length e
    rw [List.length_eraseIdx, List.length_range, if_pos hn, List.length_nil] at this
    omega
  · exact (List.nodup_range (n := shape.length)).sublist (List.eraseIdx_sublist _ _)
  · refine ⟨by rw [List.length_eraseIdx, List.length_eraseIdx, List.length_range, hl], fun p hp => ?_⟩
    rw [zip_eraseIdx _ _ _ (by simp [hl])] at hp
    obtain ⟨k, hk, rfl⟩ := List.getElem_of_mem (List.mem_of_mem_eraseIdx hp)
    have hk' : k < A.length := by rw [hl]; simpa [hl] using hk
    simp only [List.getElem_zip, List.getElem_range, Bool.false_eq_true, if_false]
    exact ⟨_, by rw [hg]; exact hA.2 k A[k] (List.getElem?_eq_getElem hk')⟩

theorem tk_set {A : List (Tensor ℝ)} {N n : Nat} (hl : A.length = N) (B : Tensor ℝ) :
    ((List.range N).zip (A.set n B)).eraseIdx n = ((List.range N).zip A).eraseIdx n := by
  rw [← zip_eraseIdx _ _ _ (by simp [hl]), ← zip_eraseIdx _ _ _ (by simp [hl]), List.eraseIdx_set_eq]

theorem tk_Y_shape {shape ranks : List Nat} {g : Tensor ℝ} {A : List (Tensor ℝ)}
    (hA : TuckerShapes shape ranks A) (hr : ranks.length = shape.length) (hg : g.shape = ranks) {n : Nat} :
    let Y := modeProds g (((List.range shape.length).zip A).eraseIdx n)
    Y.order = shape.length ∧ Y.shape.getD n 0 = ranks.getD n 0 ∧ otherSize Y.shape n = otherSize shape n := by
  intro Y
  have hl : A.length = shape.length := hA.1
  have hfst : (((List.range shape.length).zip A).eraseIdx n).map Prod.fst = (List.range shape.length).eraseIdx n := by
    rw [← zip_eraseIdx _ _ _ (by simp [hl]), List.map_fst_zip]
    rw [List.length_eraseIdx, List.length_eraseIdx]; simp [hl]
  have hnd : ((List.range shape.length).eraseIdx n).Nodup :=
    (List.nodup_range (n := shape.length)).sublist (List.eraseIdx_sublist _ _)
  have hlen : Y.shape.length = shape.length := by rw [← hr, ← hg]; exact modeProds_shape_length _ _
  refine ⟨hlen, ?_, ?_⟩
  · rw [← hg]
    refine modeProds_shape_out g ?_
    rw [hfst]
    intro hmem
    rw [List.mem_eraseIdx_iff_getElem] at hmem
    obtain ⟨i, hi, hne, e⟩ := hmem
    rw [List.getElem_range] at e
    exact hne e
  · unfold otherSize
    rw [hlen]
    refine Finset.prod_congr rfl fun m hm => ?_
    rw [Finset.mem_erase, Finset.mem_range] at hm
    have hm2 : m < shape.length := hm.2
    have hmA : m < A.length := by rw [hl]; exact hm2
    have hmem : (m, A[m]) ∈ ((List.range shape.length).zip A).eraseIdx n := by
      rw [List.mem_eraseIdx_iff_getElem]
      exact ⟨m, by simp [hl, hm2], hm.1, by simp⟩
    have := modeProds_shape_in g (by rw [hfst]; exact hnd) hmem (by rw [hg, hr]; exact hm2)
    rw [this]
    change A[m].shape.getD 0 0 = _
    rw [hA.2 m A[m] (List.getElem?_eq_getElem hmA)]
    rfl

/-- The full tensor. -/
theorem tk_full {shape ranks : List Nat} {g : Tensor ℝ} {A : List (Tensor ℝ)} (h1 : 1 ≤ shape.length)
    (h13 : shape.length ≤ 13) (hA : TuckerShapes shape ranks A) (hr : ranks.length = shape.length)
    (hg : g.shape = ranks) :
    bcu.NTUCKER.fullOf g A = .ok (modeProds g ((List.range shape.length).zip A)) ∧
    (modeProds g ((List.range shape.length).zip A)).shape = shape ∧
    ∀ i, InB shape i → (modeProds g ((List.range shape.length).zip A)).at_ i =
      boxSum g.shape fun j => g.at_ j * kronEntry A i j := by
  have hl : A.length = shape.length := hA.1
  have hne : A ≠ [] := by intro e; rw [e] at hl; simp at hl; omega
  have hc : g.shape = colDims A := by rw [hg, hA.colDims hr]
  obtain ⟨t, ht, hx⟩ := Props.C27_extract_mode_products g .float32 A hne (by omega) hA.allMat hc
  obtain ⟨hs, he⟩ := modeProds_all g A hc
  rw [hl] at hx hs he
  rw [hA.rowDims] at hs he
  refine ⟨by unfold bcu.NTUCKER.fullOf; rw [ht, ok_bind, hx], hs, fun i hi => ?_⟩
  rw [he i hi]
  exact boxSum_congr fun j _ => mul_comm _ _

theorem tkErr_eq {X g Y : Tensor ℝ} {ranks : List Nat} {A : List (Tensor ℝ)} (h1 : 1 ≤ X.order)
    (h13 : X.order ≤ 13) (hA : TuckerShapes X.shape ranks A) (hr : ranks.length = X.shape.length)
    (hg : g.shape = ranks) (hY : bcu.NTUCKER.fullOf g A = .ok Y) :
    Y.shape = X.shape ∧ distSqT X Y = tkErr X g A ∧
      ∀ i, InB X.shape i → Y.at_ i = boxSum g.shape fun j => g.at_ j * kronEntry A i j := by
  obtain ⟨e1, e2, e3⟩ := tk_full h1 h13 hA hr hg
  rw [e1] at hY; cases hY
  refine ⟨e2, ?_, e3⟩
  unfold distSqT tkErr
  exact boxSum_congr fun i hi => by rw [e3 i hi]

/-- The error as a matrix problem in the factor of mode `n`. -/
theorem tkErr_frob {X g : Tensor ℝ} {ranks : List Nat} {A : List (Tensor ℝ)} {B : Tensor ℝ} {n : Nat} (h2 : 2 ≤ X.order)
    (h13 : X.order ≤ 13) (hA : TuckerShapes X.shape ranks A) (hr : ranks.length = X.shape.length)
    (hg : g.shape = ranks) (hn : n < X.order) (hB : B.shape = [X.shape.getD n 0, ranks.getD n 0]) :
    tkErr X g (A.set n B) = frobSq (unfM X n (X.shape.getD n 0) (otherSize X.shape n) -
      toMat B (X.shape.getD n 0) (ranks.getD n 0) *
        unfM (modeProds g (((List.range X.shape.length).zip A).eraseIdx n)) n (ranks.getD n 0) (otherSize X.shape n)) := by
  have hA' := hA.set hB (n := n)
  have hl : A.length = X.shape.length := hA.1
  obtain ⟨e1, e2, e3⟩ := tk_full (by unfold order at h2; omega) h13 hA' hr hg
  obtain ⟨-, e4, -⟩ := tkErr_eq (by omega) h13 hA' hr hg e1
  obtain ⟨y1, y2, y3⟩ := tk_Y_shape hA hr hg (n := n)
  set ps := (List.range X.shape.length).zip (A.set n B) with hps
  have hlen : n < ps.length := by rw [hps]; unfold order at hn; simp [hl, hn]
  have hget : ps[n] = (n, B) := by
    simp only [hps, List.getElem_zip, List.getElem_range, List.getElem_set_self]
  have hperm : ps.Perm (ps.eraseIdx n ++ [(n, B)]) := by
    have := (List.getElem_cons_eraseIdx_perm hlen).symm
    rw [hget] at this
    exact this.trans (List.perm_append_singleton _ _).symm
  have hfull : modeProds g ps = modeProd (modeProds g (((List.range X.shape.length).zip A).eraseIdx n)) n B := by
    rw [modeProds_perm hperm ?_ g, modeProds_append, hps, tk_set hl]
    · rfl
    · rw [hps, List.map_fst_zip (by simp [hl])]
      exact List.nodup_range
  rw [← e4, distSqT_unfM e2 hn rfl rfl, hfull, unfM_modeProd (by rw [y1]; exact hn) hB y2 y3]

namespace bcu

/-- A mode update is a factor step of the matrix problem, whose matrix is an unfolding. -/
theorem NTUCKER.reduce_unf (topSv : Tensor ℝ → Res ℝ) {X g : Tensor ℝ} {ranks : List Nat} {n : Nat} {st : State}
    (hA : TuckerShapes X.shape ranks st.A) (hr : ranks.length = X.shape.length) (hg : g.shape = ranks)
    (h2 : 2 ≤ X.order) (h13 : X.order ≤ 13) (hn : n < X.order)
    (hpos : 0 < X.shape.getD n 0) (hrp : 0 < ranks.getD n 0) {K : Mat (otherSize X.shape n) (ranks.getD n 0)}
    (hK : K = (unfM (modeProds g (((List.range X.shape.length).zip st.A).eraseIdx n)) n (ranks.getD n 0) (otherSize X.shape n))ᵀ) :
    ∃ V XA : Tensor ℝ, V.shape = [ranks.getD n 0, ranks.getD n 0] ∧
      XA.shape = [X.shape.getD n 0, ranks.getD n 0] ∧
      toMat V (ranks.getD n 0) (ranks.getD n 0) = Kᵀ * K ∧
      toMat XA (X.shape.getD n 0) (ranks.getD n 0) = unfM X n (X.shape.getD n 0) (otherSize X.shape n) * K ∧
      NTUCKER.modeUpdate topSv X g st n = factorStep topSv st n V XA := by
  have hY := tk_Y h2 h13 hA hr hg hn
  obtain ⟨y1, y2, y3⟩ := tk_Y_shape hA hr hg (n := n)
  set Y := modeProds g (((List.range X.shape.length).zip st.A).eraseIdx n) with hYd
  have hnY : n < Y.order := by rw [y1]; exact hn
  obtain ⟨B, hB⟩ : ∃ B, unfold Y n = .ok B := ⟨_, unfold_closed Y hnY (by rw [y2]; exact hrp)⟩
  obtain ⟨hBs, hBm⟩ := toMat_unfold hnY (by rw [y2]; exact hrp) hB
  rw [y2, y3] at hBs
  have hBm' : toMat B (ranks.getD n 0) (otherSize X.shape n) = unfM Y n (ranks.getD n 0) (otherSize X.shape n) := by
    ext i j
    have := congrFun (congrFun hBm ⟨i, by rw [y2]; exact i.isLt⟩) ⟨j, by rw [y3]; exact j.isLt⟩
    exact this
  obtain ⟨M, hM⟩ : ∃ M, unfold X n = .ok M := ⟨_, unfold_closed X hn hpos⟩
  obtain ⟨hMs, hMm⟩ := toMat_unfold hn hpos hM
  obtain ⟨XB, hXB⟩ : ∃ XB, matmul M B false true = .ok XB := ⟨_, matmul_nt hMs hBs⟩
  obtain ⟨hXBs, hXBm⟩ := toMat_matmul_nt hMs hBs hXB
  obtain ⟨V, hV⟩ : ∃ V, matmul B B false true = .ok V := ⟨_, matmul_nt hBs hBs⟩
  obtain ⟨hVs, hVm⟩ := toMat_matmul_nt hBs hBs hV
  subst hK
  refine ⟨V, XB, hVs, hXBs, ?_, ?_, ?_⟩
  · rw [hVm, hBm', transpose_transpose]
  · rw [hXBm, hMm, hBm']; rfl
  · unfold NTUCKER.modeUpdate
    rw [hM, ok_bind, hY, ok_bind, hB, ok_bind, hXB, ok_bind, hV, ok_bind]

/-- A mode update is a factor step of the matrix problem. -/
theorem NTUCKER.reduce (topSv : Tensor ℝ → Res ℝ) {X g : Tensor ℝ} {ranks : List Nat} {n : Nat} {st : State}
    (hA : TuckerShapes X.shape ranks st.A) (hr : ranks.length = X.shape.length) (hg : g.shape = ranks)
    (h2 : 2 ≤ X.order) (h13 : X.order ≤ 13) (hn : n < X.order)
    (hpos : 0 < X.shape.getD n 0) (hrp : 0 < ranks.getD n 0) :
    ∃ (K : Mat (otherSize X.shape n) (ranks.getD n 0)) (V XA : Tensor ℝ), V.shape = [ranks.getD n 0, ranks.getD n 0] ∧
      XA.shape = [X.shape.getD n 0, ranks.getD n 0] ∧
      toMat V (ranks.getD n 0) (ranks.getD n 0) = Kᵀ * K ∧
      toMat XA (X.shape.getD n 0) (ranks.getD n 0) = unfM X n (X.shape.getD n 0) (otherSize X.shape n) * K ∧
      (∀ B, B.shape = [X.shape.getD n 0, ranks.getD n 0] → tkErr X g (st.A.set n B) =
        frobSq (unfM X n (X.shape.getD n 0) (otherSize X.shape n) - toMat B (X.shape.getD n 0) (ranks.getD n 0) * Kᵀ)) ∧
      NTUCKER.modeUpdate topSv X g st n = factorStep topSv st n V XA := by
  obtain ⟨V, XA, h1, h3, h4, h5, h6⟩ := NTUCKER.reduce_unf topSv hA hr hg h2 h13 hn hpos hrp rfl (st := st)
  refine ⟨_, V, XA, h1, h3, h4, h5, fun C hC => ?_, h6⟩
  rw [tkErr_frob h2 h13 hA hr hg hn hC, transpose_transpose]

theorem distSqT_toMat {B T : Tensor ℝ} {I R : Nat} (hB : B.shape = [I, R]) :
    distSqT B T = frobSq (toMat B I R - toMat T I R) := by
  rw [distSqT, hB, boxSum_pair, frobSq, Finset.sum_range]
  refine Finset.sum_congr rfl fun i _ => ?_
  rw [Finset.sum_range]
  rfl

/-- The three-point inequality of a mode update. -/
theorem NTUCKER.three_point {topSv : Tensor ℝ → Res ℝ} (ht : TopSvOk topSv) {X g : Tensor ℝ} {ranks : List Nat} {n : Nat}
    {st st' : State} {m : Tensor ℝ} (hA : TuckerShapes X.shape ranks st.A) (hr : ranks.length = X.shape.length)
    (hg : g.shape = ranks) (h2 : 2 ≤ X.order) (h13 : X.order ≤ 13) (hn : n < X.order)
    (hpos : 0 < X.shape.getD n 0) (hrp : 0 < ranks.getD n 0) (hm : st.Am[n]? = some m)
    (hms : m.shape = [X.shape.getD n 0, ranks.getD n 0]) (h : NTUCKER.modeUpdate topSv X g st n = .ok st') :
    ∃ Z, Z.shape = [X.shape.getD n 0, ranks.getD n 0] ∧ Nonneg Z ∧ st'.A = st.A.set n Z ∧ 0 < st'.L n ∧
      ∀ B, B.shape = [X.shape.getD n 0, ranks.getD n 0] → Nonneg B →
        tkErr X g (st.A.set n Z) ≤ tkErr X g (st.A.set n B) +
          st'.L n * distSqT B m - st'.L n * distSqT B Z := by
  obtain ⟨K, V, XA, hV, hXA, hVm, hXAm, herr, he⟩ := NTUCKER.reduce topSv hA hr hg h2 h13 hn hpos hrp (st := st)
  have hn' : n < st.A.length := by rw [hA.1]; exact hn
  have hget : st.A[n]? = some st.A[n] := List.getElem?_eq_getElem hn'
  obtain ⟨l, hl, hsv⟩ := ht V _ _ hV hrp hrp
  obtain ⟨e0, e1⟩ := factorStep_eq hV hXA hm hms hget (hA.2 n _ hget) hl
  rw [he] at h
  by_cases h0 : l = 0
  · rw [e0 h0] at h; cases h
  obtain ⟨Z, hZs, hZn, hZe, hf⟩ := e1 h0
  rw [hf] at h
  cases h
  have hlpos : 0 < l := lt_of_le_of_ne hsv.nonneg (Ne.symm h0)
  have hup : Function.update st.L n l n = l := Function.update_self _ _ _
  refine ⟨Z, hZs, hZn, rfl, by simp only; rw [hup]; exact hlpos, fun B hB hBn => ?_⟩
  simp only
  rw [hup, herr Z hZs, herr B hB, distSqT_toMat hB, distSqT_toMat hB]
  rw [hVm] at hsv
  refine prox_three_point _ _ hlpos (fun D => ?_) _ _ _ (fun i r => ?_) fun i r => hBn.at _
  · have := hsv.gram_le Dᵀ
    rwa [← frobSq_transpose, transpose_mul, transpose_transpose, frobSq_transpose] at this
  · rw [hZe i r, hVm, hXAm]

end bcu
end TD
