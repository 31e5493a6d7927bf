import Verif.Lemmas.AlsOneHooi
import Verif.Lemmas.NTuckerRun

/-! # One component: `NTUCKER_BCU` -/
namespace TD
open Spec Tensor tf ops Matrix

theorem tucker_ones {shape : List Nat} {A : List (Tensor ℝ)} :
    TuckerShapes shape (List.replicate shape.length 1) A ↔ FactorsFor shape 1 A := by
  constructor
  · exact tucker_one fun n hn => by simp [List.getD_eq_getElem?_getD, hn]
  · intro h
    refine ⟨h.length, fun k M hM => ?_⟩
    have hk : k < shape.length := by rw [← h.length]; exact (List.getElem?_eq_some_iff.1 hM).1
    rw [h.get hM]
    simp [List.getD_eq_getElem?_getD, hk]

/-- The only entry of the core. -/
noncomputable def coreOne (X g : Tensor ℝ) : ℝ := g.at_ (List.replicate X.shape.length 0)

theorem tucker_sum_one {X g : Tensor ℝ} {A : List (Tensor ℝ)} (hg : g.shape = List.replicate X.shape.length 1)
    (hA : FactorsFor X.shape 1 A) {i : List Nat} (hi : InB X.shape i) :
    (boxSum g.shape fun j => g.at_ j * kronEntry A i j) = coreOne X g * outerEntry X.order (firstCol A) i := by
  have hl := hA.length
  have := Props.kronEntry_replicate 0 A i (by rw [hi.length, hl])
  rw [hg, boxSum_ones, ← hl, this, khatriEntry_outer (by rw [hi.length, hl]), hl]
  rfl

/-- A row of the fit of a single mode. -/
theorem row_fit {I J : Nat} {F G : Nat → Nat → ℝ → ℝ}
    (h : ∀ b : Nat → ℝ, ∑ i ∈ Finset.range I, ∑ j ∈ Finset.range J, F i j (b i) =
      ∑ i ∈ Finset.range I, ∑ j ∈ Finset.range J, G i j (b i)) {a : Nat} (ha : a < I) (t : ℝ) :
    ∑ j ∈ Finset.range J, F a j t - ∑ j ∈ Finset.range J, F a j 0 =
      ∑ j ∈ Finset.range J, G a j t - ∑ j ∈ Finset.range J, G a j 0 := by
  have key : ∀ H : Nat → Nat → ℝ → ℝ, ∑ i ∈ Finset.range I, ∑ j ∈ Finset.range J, H i j (if i = a then t else 0) -
      ∑ i ∈ Finset.range I, ∑ j ∈ Finset.range J, H i j 0 =
      ∑ j ∈ Finset.range J, H a j t - ∑ j ∈ Finset.range J, H a j 0 := by
    intro H
    rw [← Finset.sum_sub_distrib, Finset.sum_eq_single a]
    · rw [if_pos rfl]
    · intro i _ hne
      rw [if_neg hne, sub_self]
    · intro hna
      exact absurd (Finset.mem_range.2 ha) hna
  rw [← key F, ← key G, h fun i => if i = a then t else 0, h fun _ => 0]

/-- Two descriptions of the same fit have the same coefficients. -/
theorem fit_coeffs {J : Nat} {M k r : Nat → ℝ}
    (h : ∀ t : ℝ, ∑ j ∈ Finset.range J, (M j - t * k j) ^ 2 - ∑ j ∈ Finset.range J, (M j - 0 * k j) ^ 2 =
      ∑ j ∈ Finset.range J, (M j - t * r j) ^ 2 - ∑ j ∈ Finset.range J, (M j - 0 * r j) ^ 2) :
    ∑ j ∈ Finset.range J, M j * k j = ∑ j ∈ Finset.range J, M j * r j ∧
      ∑ j ∈ Finset.range J, k j ^ 2 = ∑ j ∈ Finset.range J, r j ^ 2 := by
  have e : ∀ (t : ℝ) (k : Nat → ℝ), ∑ j ∈ Finset.range J, (M j - t * k j) ^ 2 - ∑ j ∈ Finset.range J, (M j - 0 * k j) ^ 2 =
      -2 * t * ∑ j ∈ Finset.range J, M j * k j + t ^ 2 * ∑ j ∈ Finset.range J, k j ^ 2 := by
    intro t k
    rw [← Finset.sum_sub_distrib, Finset.mul_sum, Finset.mul_sum, ← Finset.sum_add_distrib]
    exact Finset.sum_congr rfl fun j _ => by ring
  have h1 := h 1
  have h2 := h (-1)
  rw [e, e] at h1 h2
  constructor <;> linarith

namespace bcu

/-- One component: a mode update of `NTUCKER_BCU` is the best fit divided by the core entry, cut off at zero. -/
theorem NTUCKER.modeUpdate_one {topSv : Tensor ℝ → Res ℝ} (ht : TopSvOk topSv) {X g : Tensor ℝ} {n : Nat} {st st' : State}
    {m : Tensor ℝ} (hA : FactorsFor X.shape 1 st.A) (hg : g.shape = List.replicate X.shape.length 1) (h2 : 2 ≤ X.order)
    (h13 : X.order ≤ 13) (hn : n < X.order) (hpos : 0 < X.shape.getD n 0) (hm : st.Am[n]? = some m)
    (hms : m.shape = [X.shape.getD n 0, 1]) (h : NTUCKER.modeUpdate topSv X g st n = .ok st') :
    coreOne X g ≠ 0 ∧ st'.A = st.A.set n (mat (X.shape.getD n 0) 1 fun a _ =>
      max ((coreOne X g)⁻¹ * bestVec X (firstCol st.A) n a) 0) := by
  have hrk : (List.replicate X.shape.length 1).getD n 0 = 1 := by
    have : n < X.shape.length := hn
    simp [List.getD_eq_getElem?_getD, this]
  have hT := tucker_ones.2 hA
  have hn' : n < st.A.length := by rw [hA.length]; exact hn
  have hget : st.A[n]? = some st.A[n] := List.getElem?_eq_getElem hn'
  obtain ⟨K, V, XA, hV, hXA, hVm, hXAm, herr, he⟩ := NTUCKER.reduce topSv hT (by simp) hg h2 h13 hn hpos
    (by rw [hrk]; exact Nat.one_pos) (st := st)
  generalize hr : (List.replicate X.shape.length 1).getD n 0 = r at *
  subst hrk
  -- the coefficients of the fit
  have hco : ∀ a (ha : a < X.shape.getD n 0),
      (∑ j : Fin (otherSize X.shape n), X.at_ (unkolda X.shape n a j) * K j 0) =
        coreOne X g * sliceSum X.shape n a (fun i => X.at_ i * restEntry X.order (firstCol st.A) n i) ∧
      (∑ j : Fin (otherSize X.shape n), K j 0 ^ 2) =
        coreOne X g ^ 2 * sliceSum X.shape n a (fun i => restEntry X.order (firstCol st.A) n i ^ 2) := by
    intro a ha
    set k : Nat → ℝ := fun j => if h : j < otherSize X.shape n then K ⟨j, h⟩ 0 else 0 with hk
    have hkj : ∀ j : Fin (otherSize X.shape n), k j = K j 0 := fun j => by rw [hk]; exact dif_pos j.isLt
    have hfit : ∀ b : Nat → ℝ, ∑ i ∈ Finset.range (X.shape.getD n 0), ∑ j ∈ Finset.range (otherSize X.shape n),
        (X.at_ (unkolda X.shape n i j) - b i * k j) ^ 2 =
        ∑ i ∈ Finset.range (X.shape.getD n 0), ∑ j ∈ Finset.range (otherSize X.shape n),
          (X.at_ (unkolda X.shape n i j) - b i * (coreOne X g * restEntry X.order (firstCol st.A) n (unkolda X.shape n i j))) ^ 2 := by
      intro b
      have hB := herr (mat (X.shape.getD n 0) 1 fun i _ => b i) rfl
      have hF : FactorsFor X.shape 1 (st.A.set n (mat (X.shape.getD n 0) 1 fun i _ => b i)) := hA.set rfl
      have e1 : tkErr X g (st.A.set n (mat (X.shape.getD n 0) 1 fun i _ => b i)) =
          ∑ i ∈ Finset.range (X.shape.getD n 0), ∑ j ∈ Finset.range (otherSize X.shape n),
          (X.at_ (unkolda X.shape n i j) - b i * (coreOne X g * restEntry X.order (firstCol st.A) n (unkolda X.shape n i j))) ^ 2 := by
        unfold tkErr
        rw [boxSum_congr fun i hi => by rw [tucker_sum_one hg hF hi], boxSum_unkolda hn]
        refine Finset.sum_congr rfl fun i hi => Finset.sum_congr rfl fun j hj => ?_
        have hi' := Finset.mem_range.1 hi
        rw [outerEntry_split _ hn, firstCol_get (List.getElem?_set_self hn'),
          (unkolda_spec hn hi' (Finset.mem_range.1 hj)).2.1, at_mat _ hi' Nat.one_pos,
          show restEntry X.order (firstCol (st.A.set n (mat (X.shape.getD n 0) 1 fun i _ => b i))) n (unkolda X.shape n i j) =
            restEntry X.order (firstCol st.A) n (unkolda X.shape n i j) from
            Finset.prod_congr rfl fun k hk => firstCol_set_ne (Finset.ne_of_mem_erase hk) _ _]
        ring
      rw [← e1, hB, frobSq, Finset.sum_range]
      refine Finset.sum_congr rfl fun i _ => ?_
      rw [Finset.sum_range]
      refine Finset.sum_congr rfl fun j _ => ?_
      rw [Matrix.sub_apply, Matrix.mul_apply, Fin.sum_univ_one, transpose_apply, toMat_apply, hkj]
      rw [show (mat (X.shape.getD n 0) 1 fun i _ => b i).at_ [(i : Nat), ((0 : Fin 1) : Nat)] = b i from
        at_mat _ i.isLt Nat.one_pos]
      rfl
    have hrow := row_fit (F := fun i j t => (X.at_ (unkolda X.shape n i j) - t * k j) ^ 2)
      (G := fun i j t => (X.at_ (unkolda X.shape n i j) -
        t * (coreOne X g * restEntry X.order (firstCol st.A) n (unkolda X.shape n i j))) ^ 2) hfit ha
    obtain ⟨c1, c2⟩ := fit_coeffs (M := fun j => X.at_ (unkolda X.shape n a j)) (k := k)
      (r := fun j => coreOne X g * restEntry X.order (firstCol st.A) n (unkolda X.shape n a j)) hrow
    rw [Finset.sum_range, Finset.sum_range] at c1 c2
    constructor
    · rw [Finset.sum_congr rfl fun j _ => by rw [← hkj j], c1, sliceSum_unkolda hn ha, Finset.mul_sum]
      exact Finset.sum_congr rfl fun j _ => by ring
    · rw [Finset.sum_congr rfl fun j _ => by rw [← hkj j], c2, sliceSum_unkolda hn ha, Finset.mul_sum]
      exact Finset.sum_congr rfl fun j _ => by ring
  obtain ⟨l, hl, hsv⟩ := ht V 1 1 hV Nat.one_pos Nat.one_pos
  obtain ⟨e0, e1⟩ := factorStep_eq hV hXA hm hms hget (hA.get hget) hl
  rw [he] at h
  by_cases h0 : l = 0
  · rw [e0 h0] at h; cases h
  obtain ⟨Z, hZs, hZn, hZe, hf⟩ := e1 h0
  rw [hf] at h
  cases h
  rw [hVm] at hsv
  have hKK : (Kᵀ * K) 0 0 = ∑ j, K j 0 ^ 2 := by
    rw [Matrix.mul_apply]
    exact Finset.sum_congr rfl fun j _ => by rw [transpose_apply, pow_two]
  have hl' := topSv_one hsv (by rw [hKK]; exact Finset.sum_nonneg fun j _ => sq_nonneg _)
  have hc0 : coreOne X g ≠ 0 := by
    intro hc
    rw [hKK, (hco 0 hpos).2, hc] at hl'
    exact h0 (by rw [hl']; ring)
  refine ⟨hc0, ?_⟩
  show st.A.set n Z = _
  congr 1
  refine ext_mat hZs rfl fun a ha r hr => ?_
  obtain rfl : r = 0 := by omega
  rw [at_mat _ ha (by omega)]
  have e := hZe ⟨a, ha⟩ 0
  rw [Matrix.sub_apply, Matrix.mul_apply, Fin.sum_univ_one, hVm, ← hl', hXAm] at e
  rw [show Z.at_ [a, 0] = toMat Z (X.shape.getD n 0) 1 ⟨a, ha⟩ 0 from rfl, e]
  congr 1
  have hXK : (unfM X n (X.shape.getD n 0) (otherSize X.shape n) * K) ⟨a, ha⟩ 0 =
      coreOne X g * sliceSum X.shape n a (fun i => X.at_ i * restEntry X.order (firstCol st.A) n i) := by
    rw [Matrix.mul_apply, ← (hco a ha).1]
    rfl
  have hlv : l = coreOne X g ^ 2 * sliceSum X.shape n a (fun i => restEntry X.order (firstCol st.A) n i ^ 2) := by
    rw [hl', hKK, (hco a ha).2]
  have hs0 : sliceSum X.shape n a (fun i => restEntry X.order (firstCol st.A) n i ^ 2) ≠ 0 := by
    intro hs
    rw [hs, mul_zero] at hlv
    exact h0 hlv
  rw [hXK]
  unfold bestVec
  generalize sliceSum X.shape n a (fun i => X.at_ i * restEntry X.order (firstCol st.A) n i) = y at *
  have : ∀ x : ℝ, x - (x * l - coreOne X g * y) / l = coreOne X g * y / l := fun x => by field_simp; ring
  rw [this, hlv]
  field_simp

theorem NTUCKER.modeUpdate_fit {topSv : Tensor ℝ → Res ℝ} (ht : TopSvOk topSv) {X g : Tensor ℝ} {n : Nat} {st st' : State}
    (hst : FactorsOk (tuckerShapes X.shape (List.replicate X.shape.length 1)) st)
    (hg : g.shape = List.replicate X.shape.length 1) (hgn : Nonneg g) (h2 : 2 ≤ X.order)
    (h13 : X.order ≤ 13) (hn : n < X.order) (hpos : ∀ d ∈ X.shape, 0 < d) (hX : ∀ i, InB X.shape i → 0 ≤ X.at_ i)
    (h : NTUCKER.modeUpdate topSv X g st n = .ok st') :
    FactorsOk (tuckerShapes X.shape (List.replicate X.shape.length 1)) st' ∧ coreOne X g ≠ 0 ∧
      (∀ a < X.shape.getD n 0, firstCol st'.A n a = (coreOne X g)⁻¹ * bestVec X (firstCol st.A) n a) ∧
      ∀ k, k ≠ n → ∀ a, firstCol st'.A k a = firstCol st.A k a := by
  have f1 := tucker_ones.1 (tuckerShapes_iff.1 hst.A)
  have f3 := tucker_ones.1 (tuckerShapes_iff.1 hst.Am)
  have hnm : n < st.Am.length := by rw [f3.length]; exact hn
  have hgm : st.Am[n]? = some st.Am[n] := List.getElem?_eq_getElem hnm
  have hpn := cp.getD_pos hpos hn
  obtain ⟨c0, e⟩ := NTUCKER.modeUpdate_one ht f1 hg h2 h13 hn hpn hgm (f3.get hgm) h
  have hI := NTUCKER.sweep_inv (l := [n]) hst (by rw [List.foldlM_cons, h]; rfl)
  have hc : 0 ≤ coreOne X g := hgn.at _
  refine ⟨hI.1, c0, fun a ha => ?_, fun k hk a => ?_⟩
  · rw [e, firstCol_get (List.getElem?_set_self (by rw [f1.length]; exact hn)), at_mat _ ha (by omega)]
    exact max_eq_left (mul_nonneg (inv_nonneg.2 hc) (bestVec_nonneg hX (fun k a => firstCol_nonneg hst.nonneg k a) _ _))
  · rw [e]; exact firstCol_set_ne hk _ a

/-- One component, nonnegative data: a step of `NTUCKER_BCU` is a step of the alternating least squares. -/
theorem NTUCKER.main_one {topSv : Tensor ℝ → Res ℝ} (ht : TopSvOk topSv) {X : Tensor ℝ} {st st' : TState}
    {o : fact.Out (List (Tensor ℝ)) (Tensor ℝ) (Tensor ℝ) ℝ}
    (hst : TkOk X.shape (List.replicate X.shape.length 1) st)
    (h2 : 2 ≤ X.order) (h13 : X.order ≤ 13) (hpos : ∀ d ∈ X.shape, 0 < d) (hX : ∀ i, InB X.shape i → 0 ≤ X.at_ i)
    (h : NTUCKER.main topSv X st = .ok (st', o)) {w : Nat → Nat → ℝ} (hw : Parallel X.shape (firstCol st.A) w) :
    Parallel X.shape (firstCol st'.A) (refitAll X w) ∧
      ∀ i, InB X.shape i → o.full.at_ i = outerEntry X.order (refitAll X w) i := by
  obtain ⟨m1, -, -, -, -, mg, -, -, -, -, m2, -⟩ := NTUCKER.main_ok hst (by simp) (by omega) h13 h
  obtain ⟨s, hs, rfl, -⟩ := NTUCKER.main_inv h
  obtain ⟨s1, hs1, hl1⟩ := fold_last (by omega) hs
  have hP : ∀ (s : State) (n : Nat) (s' : State), FactorsOk (tuckerShapes X.shape (List.replicate X.shape.length 1)) s →
      n < X.order → NTUCKER.modeUpdate topSv X st.g s n = .ok s' → _ := fun s n s' a b c =>
    NTUCKER.modeUpdate_fit ht a hst.g hst.nonneg h2 h13 b hpos hX c
  obtain ⟨p1, q1⟩ := par_fold (col := fun s : State => firstCol s.A)
    (P := FactorsOk (tuckerShapes X.shape (List.replicate X.shape.length 1))) (fun s n s' a b c => by
      obtain ⟨e1, e0, e2, e3⟩ := hP s n s' a b c
      exact ⟨e1, ⟨(coreOne X st.g)⁻¹, inv_ne_zero e0, e2⟩, fun k _ hk a _ => e3 k hk a⟩)
      (List.range (X.order - 1)) (fun n hn => by have := List.mem_range.1 hn; omega) hst.factors hw hs1
  have hN : X.order - 1 < X.order := by omega
  obtain ⟨r1, r0, r2, r3⟩ := hP _ _ _ p1 hN hl1
  rw [refitAll_last (by omega)]
  refine ⟨q1.refit (inv_ne_zero r0) r2 fun k _ hk a _ => r3 k hk a, fun i hi => ?_⟩
  rw [m2 i hi, tucker_sum_one m1.g (tucker_ones.1 m1.shapes) hi]
  change coreOne X st.g * outerEntry X.order (firstCol s.A) i = _
  rw [← outerEntry_refit_par q1 hN hi, outerEntry_split _ hN, outerEntry_split _ hN]
  unfold refit
  rw [restEntry_update, Function.update_self, r2 _ ((InB_iff_getD.1 hi).2 _ hN), ← mul_assoc, mul_inv_cancel_left₀ r0]
  congr 1
  exact Finset.prod_congr rfl fun k hk => r3 k (Finset.ne_of_mem_erase hk) _

end bcu
end TD
