import Verif.Lemmas.AlsOne

/-! # One component: `CP_ALS` and `NCP_BCU` -/
namespace TD
open Spec Tensor tf ops Matrix

/-- One component: a mode update of `CP_ALS` is the best fit, divided by its largest entry. -/
theorem cp.modeUpdate_one {pinv : Tensor ℝ → Res (Tensor ℝ)} (hp : PinvOk pinv) {X : Tensor ℝ} {n : Nat}
    {A : List (Tensor ℝ)} (hA : FactorsFor X.shape 1 A) (h2 : 2 ≤ X.order) (h25 : X.order ≤ 25)
    (hn : n < X.order) (hpos : 0 < X.shape.getD n 0) {u : Upd ℝ} (h : modeUpdate pinv X 1 A n = .ok u) :
    FactorsFor X.shape 1 u.A ∧ u.lam.shape = [1] ∧ wt u.lam 0 ≠ 0 ∧
      (∀ a < X.shape.getD n 0, wt u.lam 0 * firstCol u.A n a = bestVec X (firstCol A) n a) ∧
      ∀ k, k ≠ n → ∀ a, firstCol u.A k a = firstCol A k a := by
  obtain ⟨K, N, lam, P, hK, hKs, hNs, hls, hP, hN, hmax, he⟩ := modeUpdate_eq hp hA h2 h25 hn hpos
  rw [he] at h
  by_cases h0 : (0 : ℝ) ∈ lam.data
  · rw [if_pos h0] at h; cases h
  rw [if_neg h0] at h
  cases h
  have hn' : n < A.length := by rw [hA.length]; exact hn
  have hl : lam.at_ [0] ≠ 0 := at_ne_zero h0 (by rw [hls]; simp)
  refine ⟨hA.set rfl, hls, hl, fun a ha => ?_, fun k hk a => firstCol_set_ne hk _ a⟩
  rw [firstCol_get (List.getElem?_set_self hn'), at_mat _ ha (by omega)]
  unfold wt
  rw [mul_div_cancel₀ _ hl]
  obtain ⟨f1, f2⟩ := fit_sums hA h2 h25 hn hK ⟨a, ha⟩
  have e := congrFun (congrFun hN ⟨a, ha⟩) 0
  rw [Matrix.mul_apply, Fin.sum_univ_one, f1] at e
  have e' := congrFun (congrFun hP 0) 0
  rw [Matrix.mul_apply, Fin.sum_univ_one, Matrix.mul_apply, Fin.sum_univ_one, f2] at e'
  unfold bestVec
  change N.at_ [a, 0] = _ at e
  rw [e]
  set V := sliceSum X.shape n a fun i => restEntry X.order (firstCol A) n i ^ 2
  set B := sliceSum X.shape n a fun i => X.at_ i * restEntry X.order (firstCol A) n i
  by_cases hV : V = 0
  · obtain ⟨-, i0, hi0, hie⟩ := hmax 0 (by omega)
    obtain ⟨g1, g2⟩ := fit_sums hA h2 h25 hn hK ⟨i0, hi0⟩
    have hK0 : toMat K (otherSize X.shape n) 1 = 0 := by
      refine frobSq_eq_zero ?_
      rw [← hV, ← f2, frobSq, Matrix.mul_apply]
      refine Finset.sum_congr rfl fun j _ => ?_
      rw [Fin.sum_univ_one, transpose_apply, pow_two]
    have eN := congrFun (congrFun hN ⟨i0, hi0⟩) 0
    rw [hK0, Matrix.mul_zero, Matrix.zero_mul] at eN
    change N.at_ [i0, 0] = 0 at eN
    rw [eN] at hie
    exact absurd hie.symm hl
  · have : V * P 0 0 = 1 := by
      have := mul_right_cancel₀ hV (e'.trans (one_mul V).symm)
      exact this
    have hP' : P 0 0 = V⁻¹ := eq_inv_of_mul_eq_one_right this
    rw [hP']
    rfl

/-- One component: a step of `CP_ALS` is a step of the alternating least squares. -/
theorem cp.sweep_one {pinv : Tensor ℝ → Res (Tensor ℝ)} (hp : PinvOk pinv) {X : Tensor ℝ}
    {A A' : List (Tensor ℝ)} {lam : Tensor ℝ} (hA : FactorsFor X.shape 1 A) (h2 : 2 ≤ X.order) (h25 : X.order ≤ 25)
    (hpos : ∀ d ∈ X.shape, 0 < d) (h : sweep pinv X 1 A = .ok (A', lam)) {w : Nat → Nat → ℝ}
    (hw : Parallel X.shape (firstCol A) w) :
    Parallel X.shape (firstCol A') (refitAll X w) ∧
      ∀ i, InB X.shape i → wt lam 0 * khatriEntry 0 A' i = outerEntry X.order (refitAll X w) i := by
  unfold sweep at h
  cases hf : (List.range X.order).foldlM (fun (st : List (Tensor ℝ) × Option (Tensor ℝ)) mode => (do
        let u ← modeUpdate pinv X 1 st.1 mode
        return (u.A, some u.lam) : Res _)) (A, none) with
  | error e => rw [hf] at h; cases h
  | ok st' =>
  rw [hf, ok_bind] at h
  have hst : st' = (A', some lam) := by
    obtain ⟨a, b⟩ := st'
    cases b with
    | none => cases h
    | some l => cases h; rfl
  subst hst
  have hstep : ∀ (s : List (Tensor ℝ) × Option (Tensor ℝ)) n s', FactorsFor X.shape 1 s.1 → n < X.order →
      (do let u ← modeUpdate pinv X 1 s.1 n
          return (u.A, some u.lam) : Res (List (Tensor ℝ) × Option (Tensor ℝ))) = .ok s' →
      FactorsFor X.shape 1 s'.1 ∧ (∃ d : ℝ, d ≠ 0 ∧ ∀ a < X.shape.getD n 0,
        firstCol s'.1 n a = d * bestVec X (firstCol s.1) n a) ∧
      (∀ k < X.order, k ≠ n → ∀ a < X.shape.getD k 0, firstCol s'.1 k a = firstCol s.1 k a) ∧
      (∃ l, s'.2 = some l ∧ ∀ a < X.shape.getD n 0, wt l 0 * firstCol s'.1 n a = bestVec X (firstCol s.1) n a) ∧
      ∀ k, k ≠ n → ∀ a, firstCol s'.1 k a = firstCol s.1 k a := by
    intro s n s' hs hn hu
    cases hm : modeUpdate pinv X 1 s.1 n with
    | error e => rw [hm] at hu; cases hu
    | ok u =>
        rw [hm] at hu
        cases hu
        obtain ⟨m1, m2, m3, m4, m5⟩ := modeUpdate_one hp hs h2 h25 hn (getD_pos hpos hn) hm
        refine ⟨m1, ⟨(wt u.lam 0)⁻¹, inv_ne_zero m3, fun a ha => ?_⟩, fun k _ hk a _ => m5 k hk a, ⟨_, rfl, m4⟩, m5⟩
        rw [← m4 a ha, inv_mul_cancel_left₀ m3]
  obtain ⟨s1, hs1, hl1⟩ := fold_last (by omega) hf
  obtain ⟨p1, q1⟩ := par_fold (col := fun s : List (Tensor ℝ) × Option (Tensor ℝ) => firstCol s.1)
    (P := fun s => FactorsFor X.shape 1 s.1) (fun s n s' a b c => ⟨(hstep s n s' a b c).1, (hstep s n s' a b c).2.1,
      (hstep s n s' a b c).2.2.1⟩) (List.range (X.order - 1)) (fun n hn => by have := List.mem_range.1 hn; omega) hA hw hs1
  obtain ⟨r1, ⟨d, hd, r2⟩, r3, ⟨l, hl, r4⟩, r5⟩ := hstep s1 (X.order - 1) _ p1 (by omega) hl1
  cases hl
  have hN : X.order - 1 < X.order := by omega
  rw [refitAll_last (by omega)]
  refine ⟨q1.refit hd r2 r3, fun i hi => ?_⟩
  rw [← outerEntry_refit_par q1 hN hi, khatriEntry_outer (by rw [hi.length, r1.length]), r1.length]
  change wt lam 0 * outerEntry X.order (firstCol A') i = _
  rw [outerEntry_split _ hN, outerEntry_split _ hN]
  unfold refit
  rw [restEntry_update, Function.update_self, ← mul_assoc, r4 _ ((InB_iff_getD.1 hi).2 _ hN)]
  congr 1
  exact Finset.prod_congr rfl fun k hk => r5 k (Finset.ne_of_mem_erase hk) _

namespace bcu

/-- The largest singular value of a 1 × 1 matrix. -/
theorem topSv_one {M : Mat 1 1} {L : ℝ} (h : IsTopSv M L) (h0 : 0 ≤ M 0 0) : L = M 0 0 := by
  have hL := h.nonneg
  have fro : ∀ E : Mat 1 1, frobSq E = E 0 0 ^ 2 := fun E => by simp [frobSq]
  have h1 := h.mul_le (1 : Mat 1 1)
  rw [mul_one, fro, fro] at h1
  simp only [Matrix.one_apply_eq, one_pow, mul_one] at h1
  obtain ⟨D, hD0, hD⟩ := h.attained
  rw [fro] at hD0 hD
  rw [Matrix.mul_apply, Fin.sum_univ_one, mul_pow, hD0, mul_one] at hD
  exact ((sq_eq_sq₀ h0 hL).1 hD).symm

/-- One component: a mode update of `NCP_BCU` is the best fit cut off at zero, whatever the extrapolated point is; it is
defined exactly when the other vectors are not zero. -/
theorem NCP.modeUpdate_one {topSv : Tensor ℝ → Res ℝ} (ht : TopSvOk topSv) {X : Tensor ℝ} {n : Nat} {st st' : State}
    {m : Tensor ℝ} (hA : FactorsFor X.shape 1 st.A) (h2 : 2 ≤ X.order) (h25 : X.order ≤ 25) (hn : n < X.order)
    (hpos : 0 < X.shape.getD n 0) (hm : st.Am[n]? = some m) (hms : m.shape = [X.shape.getD n 0, 1])
    (h : NCP.modeUpdate topSv X st n = .ok st') :
    ∃ l, st' = { st with
      A := st.A.set n (mat (X.shape.getD n 0) 1 fun a _ => max (bestVec X (firstCol st.A) n a) 0)
      L0 := Function.update st.L0 n (st.L n)
      L := Function.update st.L n l } := by
  obtain ⟨K, V, XA, hK, hV, hXA, hVm, hXAm, he⟩ := NCP.reduce topSv hA h2 h25 hn hpos (st := st)
  have hn' : n < st.A.length := by rw [hA.length]; exact hn
  have hget : st.A[n]? = some st.A[n] := List.getElem?_eq_getElem hn'
  obtain ⟨l, hl, hsv⟩ := ht V 1 1 hV (by omega) (by omega)
  obtain ⟨e0, e1⟩ := factorStep_eq hV hXA hm hms hget (hA.get hget) hl
  rw [he] at h
  by_cases h0 : l = 0
  · rw [e0 h0] at h; cases h
  obtain ⟨Z, hZs, hZn, hZe, hf⟩ := e1 h0
  rw [hf] at h
  cases h
  refine ⟨l, ?_⟩
  congr 2
  refine ext_mat hZs rfl fun a ha r hr => ?_
  obtain rfl : r = 0 := by omega
  rw [at_mat _ ha (by omega)]
  have e := hZe ⟨a, ha⟩ 0
  obtain ⟨f1, f2⟩ := fit_sums hA h2 h25 hn hK ⟨a, ha⟩
  rw [hVm] at hsv
  have hl' := topSv_one hsv (by
    rw [Matrix.mul_apply]
    exact Finset.sum_nonneg fun j _ => by rw [transpose_apply]; exact mul_self_nonneg _)
  rw [Matrix.sub_apply, Matrix.mul_apply, Fin.sum_univ_one, hVm, ← hl', hXAm, f1] at e
  rw [show Z.at_ [a, 0] = toMat Z (X.shape.getD n 0) 1 ⟨a, ha⟩ 0 from rfl, e]
  congr 1
  unfold bestVec
  rw [← f2, ← hl']
  field_simp
  ring

theorem firstCol_nonneg {A : List (Tensor ℝ)} (h : ∀ M ∈ A, Nonneg M) (k a : Nat) : 0 ≤ firstCol A k a := by
  unfold firstCol
  cases e : A[k]? with
  | none => exact le_refl _
  | some M => exact (h M (List.mem_of_getElem? e)).at _

theorem bestVec_nonneg {X : Tensor ℝ} (hX : ∀ i, InB X.shape i → 0 ≤ X.at_ i) {v : Nat → Nat → ℝ} (hv : ∀ k a, 0 ≤ v k a)
    (n a : Nat) : 0 ≤ bestVec X v n a := by
  refine div_nonneg (loss.boxSum_nonneg _ fun i hi => ?_) (loss.boxSum_nonneg _ fun i hi => ?_)
  · split
    · exact mul_nonneg (hX i hi) (Finset.prod_nonneg fun k _ => hv _ _)
    · exact le_refl _
  · split
    · exact sq_nonneg _
    · exact le_refl _

/-- One component, nonnegative data: a mode update of `NCP_BCU` is the best fit. -/
theorem NCP.modeUpdate_fit {topSv : Tensor ℝ → Res ℝ} (ht : TopSvOk topSv) {X : Tensor ℝ} {n : Nat} {st st' : State}
    (hst : FactorsOk (X.shape.map fun d => [d, 1]) st) (h2 : 2 ≤ X.order) (h25 : X.order ≤ 25) (hn : n < X.order)
    (hpos : ∀ d ∈ X.shape, 0 < d) (hX : ∀ i, InB X.shape i → 0 ≤ X.at_ i) (h : NCP.modeUpdate topSv X st n = .ok st') :
    FactorsOk (X.shape.map fun d => [d, 1]) st' ∧
      (∀ a < X.shape.getD n 0, firstCol st'.A n a = bestVec X (firstCol st.A) n a) ∧
      ∀ k, k ≠ n → ∀ a, firstCol st'.A k a = firstCol st.A k a := by
  obtain ⟨f1, f2, f3⟩ := hst.factorsFor
  have hnm : n < st.Am.length := by rw [f3.length]; exact hn
  have hgm : st.Am[n]? = some st.Am[n] := List.getElem?_eq_getElem hnm
  have hpn := cp.getD_pos hpos hn
  obtain ⟨l, e⟩ := NCP.modeUpdate_one ht f1 h2 h25 hn hpn hgm (f3.get hgm) h
  have hI := NCP.sweep_inv (l := [n]) hst (by rw [List.foldlM_cons, h]; rfl)
  refine ⟨hI.1, fun a ha => ?_, fun k hk a => ?_⟩
  · rw [e, firstCol_get (List.getElem?_set_self (by rw [f1.length]; exact hn)), at_mat _ ha (by omega)]
    exact max_eq_left (bestVec_nonneg hX (fun k a => firstCol_nonneg hst.nonneg k a) _ _)
  · rw [e]; exact firstCol_set_ne hk _ a

/-- One component, nonnegative data: a step of `NCP_BCU` is a step of the alternating least squares. -/
theorem NCP.main_one {topSv : Tensor ℝ → Res ℝ} (ht : TopSvOk topSv) {X : Tensor ℝ} {st st' : State}
    {o : fact.Out (List (Tensor ℝ)) (Tensor ℝ) (Tensor ℝ) ℝ} (hst : FactorsOk (X.shape.map fun d => [d, 1]) st)
    (h2 : 2 ≤ X.order) (h25 : X.order ≤ 25) (hpos : ∀ d ∈ X.shape, 0 < d) (hX : ∀ i, InB X.shape i → 0 ≤ X.at_ i)
    (h : NCP.main topSv X st = .ok (st', o)) {w : Nat → Nat → ℝ} (hw : Parallel X.shape (firstCol st.A) w) :
    Parallel X.shape (firstCol st'.A) (refitAll X w) ∧
      ∀ i, InB X.shape i → khatriEntry 0 st'.A i = outerEntry X.order (refitAll X w) i := by
  obtain ⟨s, hs, rfl, -⟩ := NCP.main_inv h
  obtain ⟨s1, hs1, hl1⟩ := fold_last (by omega) hs
  obtain ⟨p1, q1⟩ := par_fold (col := fun s : State => firstCol s.A)
    (P := FactorsOk (X.shape.map fun d => [d, 1])) (fun s n s' a b c => by
      obtain ⟨e1, e2, e3⟩ := NCP.modeUpdate_fit ht a h2 h25 b hpos hX c
      exact ⟨e1, ⟨1, one_ne_zero, fun a ha => by rw [one_mul, e2 a ha]⟩, fun k _ hk a _ => e3 k hk a⟩)
      (List.range (X.order - 1)) (fun n hn => by have := List.mem_range.1 hn; omega) hst hw hs1
  have hN : X.order - 1 < X.order := by omega
  obtain ⟨r1, r2, r3⟩ := NCP.modeUpdate_fit ht p1 h2 h25 hN hpos hX hl1
  rw [refitAll_last (by omega)]
  refine ⟨q1.refit (d := 1) one_ne_zero (fun a ha => by rw [one_mul]; exact r2 a ha) fun k _ hk a _ => r3 k hk a,
    fun i hi => ?_⟩
  have hl := r1.factorsFor.1.length
  change khatriEntry 0 s.A i = _
  rw [← outerEntry_refit_par q1 hN hi, khatriEntry_outer (by rw [hi.length, hl]), hl]
  change outerEntry X.order (firstCol s.A) i = _
  rw [outerEntry_split _ hN, outerEntry_split _ hN]
  unfold refit
  rw [restEntry_update, Function.update_self, r2 _ ((InB_iff_getD.1 hi).2 _ hN)]
  congr 1
  exact Finset.prod_congr rfl fun k hk => r3 k (Finset.ne_of_mem_erase hk) _

/-! ### Extrapolation plays no role -/

/-- The result of the sweep does not depend on the extrapolated points. -/
theorem NCP.sweep_any_Am {topSv : Tensor ℝ → Res ℝ} (ht : TopSvOk topSv) {X : Tensor ℝ} (h2 : 2 ≤ X.order)
    (h25 : X.order ≤ 25) (hpos : ∀ d ∈ X.shape, 0 < d) : ∀ {l : List Nat} {s t s' : State}, (∀ n ∈ l, n < X.order) →
    FactorsFor X.shape 1 s.A → FactorsFor X.shape 1 s.Am → FactorsFor X.shape 1 t.Am → t.A = s.A →
    l.foldlM (NCP.modeUpdate topSv X) s = .ok s' → ∃ t', l.foldlM (NCP.modeUpdate topSv X) t = .ok t' ∧ t'.A = s'.A
  | [], s, t, s', _, _, _, _, e, h => by cases h; exact ⟨t, rfl, e⟩
  | n :: l, s, t, s', hl, hA, hs, ht', e, h => by
      have hn := hl n (by simp)
      have hpn := cp.getD_pos hpos hn
      rw [List.foldlM_cons] at h
      cases hf : NCP.modeUpdate topSv X s n with
      | error e => rw [hf] at h; cases h
      | ok s1 =>
          rw [hf] at h
          have hd := (NCP.modeUpdate_defined ht hA hs h2 h25 hn Nat.one_pos hpn).1 ⟨_, hf⟩
          obtain ⟨t1, ht1⟩ := (NCP.modeUpdate_defined (st := t) ht (by rw [e]; exact hA) ht' h2 h25 hn Nat.one_pos hpn).2
            (by rw [e]; exact hd)
          have gs : s.Am[n]? = some (s.Am[n]'(by rw [hs.length]; exact hn)) := List.getElem?_eq_getElem _
          have gt : t.Am[n]? = some (t.Am[n]'(by rw [ht'.length]; exact hn)) := List.getElem?_eq_getElem _
          obtain ⟨a, ea⟩ := NCP.modeUpdate_one ht hA h2 h25 hn hpn gs (hs.get gs) hf
          obtain ⟨b, eb⟩ := NCP.modeUpdate_one (st := t) ht (by rw [e]; exact hA) h2 h25 hn hpn gt (ht'.get gt) ht1
          obtain ⟨t', h1, h3⟩ := NCP.sweep_any_Am (s := s1) (t := t1) ht h2 h25 hpos (fun m hm => hl m (by simp [hm]))
            (by rw [ea]; exact hA.set rfl) (by rw [ea]; exact hs) (by rw [eb]; exact ht') (by rw [ea, eb]; simp only [e]) h
          exact ⟨t', by rw [List.foldlM_cons, ht1]; exact h1, h3⟩

/-- One component: a step of `NCP_BCU` does not increase the error, whatever the extrapolated points are. -/
theorem NCP.main_one_descends {topSv : Tensor ℝ → Res ℝ} (ht : TopSvOk topSv) {X : Tensor ℝ} {st st' : State}
    {o : fact.Out (List (Tensor ℝ)) (Tensor ℝ) (Tensor ℝ) ℝ} (hst : FactorsOk (X.shape.map fun d => [d, 1]) st)
    (h2 : 2 ≤ X.order) (h25 : X.order ≤ 25) (hpos : ∀ d ∈ X.shape, 0 < d) (h : NCP.main topSv X st = .ok (st', o)) :
    cpErr X 1 st'.A (fun _ => 1) ≤ cpErr X 1 st.A fun _ => 1 := by
  obtain ⟨s, hs, rfl, -⟩ := NCP.main_inv h
  obtain ⟨f1, f2, f3⟩ := hst.factorsFor
  obtain ⟨t', h1, h3⟩ := NCP.sweep_any_Am (t := { st with Am := st.A }) ht h2 h25 hpos (fun n hn => List.mem_range.1 hn)
    f1 f3 f1 rfl hs
  have := NCP.sweep_descends ht h2 h25 Nat.one_pos hpos List.nodup_range (fun n hn => List.mem_range.1 hn)
    (st := { st with Am := st.A }) ⟨hst.A, hst.A0, hst.A, hst.nonneg, hst.nonneg0⟩ (fun _ _ => rfl) h1
  rw [h3] at this
  exact this

end bcu
end TD
