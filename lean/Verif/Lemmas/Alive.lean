import Verif.Lemmas.Perron
import Verif.Lemmas.ExactBcu
import Verif.Props.Momentum

/-! # Positive data: the models of `NCP_BCU` and `NTUCKER_BCU` never vanish -/
namespace TD
open Spec Tensor tf ops Matrix

/-- The tensor of zeros. -/
noncomputable def zeroT (s : List Nat) : Tensor ℝ := ofFn s fun _ => 0

theorem zeroT_shape (s : List Nat) : (zeroT s).shape = s := rfl
theorem zeroT_at {s i : List Nat} (hi : InB s i) : (zeroT s).at_ i = 0 := at_ofFn _ hi

/-- No row of any factor vanishes. -/
def RowsPos (A : List (Tensor ℝ)) : Prop := ∀ M ∈ A, ∀ i < M.shape.getD 0 0, ∃ r < M.shape.getD 1 0, 0 < M.at_ [i, r]

theorem ne_zero_of_entry {m n : Nat} {E : Mat m n} {i : Fin m} {j : Fin n} (h : 0 < E i j) : E ≠ 0 := by
  rintro rfl
  exact lt_irrefl _ h

theorem exists_of_mul_pos {m n k : Nat} {Z : Mat m k} {K : Mat n k} (hZ : ∀ i r, 0 ≤ Z i r) {i : Fin m} {j : Fin n}
    (h : 0 < (Z * Kᵀ) i j) : ∃ r, 0 < Z i r := by
  by_contra hno
  push Not at hno
  rw [Matrix.mul_apply, Finset.sum_eq_zero fun r _ => by rw [le_antisymm (hno r) (hZ i r), zero_mul]] at h
  exact lt_irrefl _ h

theorem frobSq_zero_sub {m n : Nat} {O E : Mat m n} (h : ∀ i j, O i j = 0) : frobSq (O - E) = frobSq E := by
  have : O = 0 := by ext i j; exact h i j
  rw [this, zero_sub]
  simp [frobSq]

/-- The model of a list of factors vanishes. -/
theorem cp_zero_iff {shape : List Nat} {R : Nat} {A : List (Tensor ℝ)} :
    cpErr (zeroT shape) R A (fun _ => 1) ≠ 0 ↔ ∃ i, InB shape i ∧ ∑ r ∈ Finset.range R, khatriEntry r A i ≠ 0 := by
  have := loss.boxSum_eq_zero shape (fun i _ => sq_nonneg ((zeroT shape).at_ i - ∑ r ∈ Finset.range R, (1 : ℝ) * khatriEntry r A i))
  rw [← not_iff_not, not_not]
  refine this.trans ⟨fun h => ?_, fun h i hi => ?_⟩
  · rintro ⟨i, hi, hne⟩
    have := pow_eq_zero_iff (by norm_num) |>.1 (h i hi)
    rw [zeroT_at hi] at this
    simp only [one_mul, zero_sub, neg_eq_zero] at this
    exact hne this
  · push Not at h
    simp only [one_mul]
    rw [zeroT_at hi, h i hi]; norm_num

theorem tk_zero_iff {shape : List Nat} {g : Tensor ℝ} {A : List (Tensor ℝ)} :
    tkErr (zeroT shape) g A ≠ 0 ↔ ∃ i, InB shape i ∧ boxSum g.shape (fun j => g.at_ j * kronEntry A i j) ≠ 0 := by
  have := loss.boxSum_eq_zero shape (fun i _ => sq_nonneg ((zeroT shape).at_ i - boxSum g.shape fun j => g.at_ j * kronEntry A i j))
  rw [← not_iff_not, not_not]
  refine this.trans ⟨fun h => ?_, fun h i hi => ?_⟩
  · rintro ⟨i, hi, hne⟩
    have := pow_eq_zero_iff (by norm_num) |>.1 (h i hi)
    rw [zeroT_at hi, zero_sub, neg_eq_zero] at this
    exact hne this
  · push Not at h
    rw [zeroT_at hi, h i hi]; norm_num

namespace bcu

/-! ### NCP -/

/-- One mode update: it succeeds, the model stays nonzero and no row of the new factor vanishes. -/
theorem NCP.modeUpdate_alive {topSv : Tensor ℝ → Res ℝ} (ht : TopSvOk topSv) {X : Tensor ℝ} {R n : Nat} {st : State}
    (hok : FactorsOk (X.shape.map fun d => [d, R]) st) (h2 : 2 ≤ X.order) (h25 : X.order ≤ 25) (hn : n < X.order) (hR : 0 < R)
    (hpos : ∀ d ∈ X.shape, 0 < d) (hX : ∀ i, InB X.shape i → 0 < X.at_ i)
    (h : cpErr (zeroT X.shape) R st.A (fun _ => 1) ≠ 0) :
    ∃ st' Z, NCP.modeUpdate topSv X st n = .ok st' ∧ st'.A = st.A.set n Z ∧ Z.shape = [X.shape.getD n 0, R] ∧
      cpErr (zeroT X.shape) R st'.A (fun _ => 1) ≠ 0 ∧ ∀ i < X.shape.getD n 0, ∃ r < R, 0 < Z.at_ [i, r] := by
  obtain ⟨hA, -, hAm⟩ := hok.factorsFor
  have hpn := cp.getD_pos hpos hn
  obtain ⟨K, V, XA, hK, hV, hXA, hVm, hXAm, he⟩ := NCP.reduce topSv hA h2 h25 hn hpn (st := st)
  have hn' : n < st.A.length := by rw [hA.length]; exact hn
  have hget : st.A[n]? = some st.A[n] := List.getElem?_eq_getElem hn'
  have hnm : n < st.Am.length := by rw [hAm.length]; exact hn
  have hgm : st.Am[n]? = some st.Am[n] := List.getElem?_eq_getElem hnm
  obtain ⟨l, hl, hsv⟩ := ht V R R hV hR hR
  obtain ⟨e0, e1⟩ := factorStep_eq hV hXA hgm (hAm.get hgm) hget (hA.get hget) hl
  have herr : ∀ B : Tensor ℝ, B.shape = [X.shape.getD n 0, R] → cpErr (zeroT X.shape) R (st.A.set n B) (fun _ => 1) =
      frobSq (toMat B (X.shape.getD n 0) R * (toMat K (otherSize X.shape n) R)ᵀ) := by
    intro B hB
    rw [(cpErr_frob (X := zeroT X.shape) _ hA h2 h25 hn hB hK).2, frobSq_zero_sub fun i j => ?_]
    · rw [of_mul_one]; rfl
    · exact zeroT_at (unkolda_spec hn i.isLt j.isLt).1
  rw [hVm] at hsv
  have hl0 : l ≠ 0 := by
    intro hz
    have hK0 := hsv.gram_eq_zero.1 hz
    apply h
    have := herr _ (hA.get hget)
    rw [List.set_getElem_self, hK0] at this
    rw [this]; simp [frobSq]
  obtain ⟨Z, hZs, hZn, hZe, hf⟩ := e1 hl0
  have hrow : ∀ i : Fin (X.shape.getD n 0), ∃ j, 0 < (toMat Z (X.shape.getD n 0) R * (toMat K (otherSize X.shape n) R)ᵀ) i j := by
    refine prox_row_pos (M := Matrix.of fun (i : Fin (X.shape.getD n 0)) (j : Fin (otherSize X.shape n)) =>
      X.at_ (unkolda X.shape n i j)) (lt_of_le_of_ne hsv.nonneg (Ne.symm hl0)) hsv.topRow (fun j r => ?_)
      (fun i j => hX _ (unkolda_spec hn i.isLt j.isLt).1) fun i r => by rw [hZe i r, hVm, hXAm]
    obtain ⟨K', hK', -, hKe⟩ := khatri_skip_reverse (n := n) hA.allMat hA.cols (by rw [hA.length]; unfold order at h25; omega) hn'
      (by rw [hA.length]; exact h2)
    rw [hK] at hK'; cases hK'
    obtain ⟨q1, -, q3⟩ := unkolda_spec hn hpn j.isLt
    have := hKe _ r (by rw [hA.rowDims]; exact q1) r.isLt
    rw [hA.rowDims, ← koldaCol_eq_ravel n q1.length, q3] at this
    rw [toMat_apply, this]
    exact nonneg_khatriEntry (fun M hM => hok.nonneg M (List.mem_of_mem_eraseIdx hM)) _ _
  refine ⟨_, Z, he.trans hf, rfl, hZs, ?_, fun i hi => ?_⟩
  · show cpErr _ R (st.A.set n Z) _ ≠ 0
    rw [herr Z hZs]
    obtain ⟨j, hj⟩ := hrow ⟨0, hpn⟩
    exact fun hz => ne_zero_of_entry hj (frobSq_eq_zero hz)
  · obtain ⟨j, hj⟩ := hrow ⟨i, hi⟩
    obtain ⟨r, hr⟩ := exists_of_mul_pos (fun i r => hZn.at _) hj
    exact ⟨r, r.isLt, hr⟩

/-- A sweep over the first modes. -/
theorem NCP.sweep_alive {topSv : Tensor ℝ → Res ℝ} (ht : TopSvOk topSv) {X : Tensor ℝ} {R : Nat} {st : State}
    (hok : FactorsOk (X.shape.map fun d => [d, R]) st) (h2 : 2 ≤ X.order) (h25 : X.order ≤ 25) (hR : 0 < R)
    (hpos : ∀ d ∈ X.shape, 0 < d) (hX : ∀ i, InB X.shape i → 0 < X.at_ i)
    (h : cpErr (zeroT X.shape) R st.A (fun _ => 1) ≠ 0) : ∀ n ≤ X.order,
    ∃ st', (List.range n).foldlM (NCP.modeUpdate topSv X) st = .ok st' ∧ cpErr (zeroT X.shape) R st'.A (fun _ => 1) ≠ 0 ∧
      ∀ k < n, ∀ M, st'.A[k]? = some M → ∀ i < X.shape.getD k 0, ∃ r < R, 0 < M.at_ [i, r] := by
  intro n
  induction n with
  | zero => intro _; exact ⟨st, rfl, h, fun k hk => absurd hk (by omega)⟩
  | succ n ih =>
      intro hn
      obtain ⟨s1, e1, l1, r1⟩ := ih (by omega)
      obtain ⟨f1, -⟩ := NCP.sweep_inv hok e1
      obtain ⟨s2, Z, e2, hA, -, l2, r2⟩ := NCP.modeUpdate_alive ht f1 h2 h25 (n := n) (by omega) hR hpos hX l1
      refine ⟨s2, by rw [List.range_succ, List.foldlM_append, e1, ok_bind, List.foldlM_cons, e2]; rfl, l2, fun k hk M hM => ?_⟩
      rw [hA] at hM
      by_cases hkn : n = k
      · subst hkn
        rw [List.getElem?_set_self (by rw [f1.factorsFor.1.length]; exact hn)] at hM
        cases hM
        exact r2
      · rw [List.getElem?_set_ne hkn] at hM
        exact r1 k (by omega) M hM

/-- One step: it succeeds, the model is not zero and no row of a factor vanishes. -/
theorem NCP.main_alive {topSv : Tensor ℝ → Res ℝ} (ht : TopSvOk topSv) {X : Tensor ℝ} {R : Nat} {st : State}
    (hok : FactorsOk (X.shape.map fun d => [d, R]) st) (h2 : 2 ≤ X.order) (h25 : X.order ≤ 25) (hR : 0 < R)
    (hpos : ∀ d ∈ X.shape, 0 < d) (hX : ∀ i, InB X.shape i → 0 < X.at_ i)
    (h : cpErr (zeroT X.shape) R st.A (fun _ => 1) ≠ 0) :
    ∃ st' o, NCP.main topSv X st = .ok (st', o) ∧ cpErr (zeroT X.shape) R st'.A (fun _ => 1) ≠ 0 ∧ RowsPos st'.A := by
  obtain ⟨s, e, l, r⟩ := NCP.sweep_alive ht hok h2 h25 hR hpos hX h X.order (le_refl _)
  have hne : X.shape ≠ [] := by intro e; rw [Tensor.order, e] at h2; simp at h2
  obtain ⟨f1, -⟩ := NCP.sweep_inv hok e
  obtain ⟨Y, y1, y2, -⟩ := NCP.fullOf_spec f1.factorsFor.1 hne h25
  have h0 : InB X.shape (unravel X.shape 0) := unravel_inB (List.prod_pos hpos)
  obtain ⟨⟨l', obj, rel⟩, hq⟩ := cp.scalars_total y2 ⟨_, h0, ne_of_gt (hX _ h0)⟩
  refine ⟨tUpdate s, ⟨s.A, none, Y, l', obj, rel⟩, by unfold NCP.main; rw [e, ok_bind, y1, ok_bind, hq]; rfl, l, fun M hM i hi => ?_⟩
  obtain ⟨k, hk⟩ := List.getElem?_of_mem hM
  have hk : s.A[k]? = some M := hk
  have hk' : k < X.order := by
    have := (List.getElem?_eq_some_iff.1 hk).1
    have h3 : s.A.length = X.order := f1.factorsFor.1.length
    omega
  have hs := f1.factorsFor.1.get hk
  rw [hs] at hi ⊢
  exact r k hk' M hk i hi

/-- The states of a training that does not break down. -/
structure Alive (X : Tensor ℝ) (R : Nat) (st : State) : Prop where
  ok : FactorsOk (X.shape.map fun d => [d, R]) st
  mom : MomentumOk st
  live : cpErr (zeroT X.shape) R st.A (fun _ => 1) ≠ 0
  lip : ∀ k < X.order, st.L k ≠ 0

theorem Alive.main {topSv : Tensor ℝ → Res ℝ} (ht : TopSvOk topSv) {X : Tensor ℝ} {R : Nat} {st : State} (h2 : 2 ≤ X.order)
    (h25 : X.order ≤ 25) (hR : 0 < R) (hpos : ∀ d ∈ X.shape, 0 < d) (hX : ∀ i, InB X.shape i → 0 < X.at_ i) (h : Alive X R st) :
    ∃ st' o, NCP.main topSv X st = .ok (st', o) ∧ Alive X R st' := by
  have hne : X.shape ≠ [] := by intro e; rw [Tensor.order, e] at h2; simp at h2
  obtain ⟨st', o, hm, l, -⟩ := NCP.main_alive ht h.ok h2 h25 hR hpos hX h.live
  obtain ⟨a, b, -⟩ := NCP.main_ok h.ok hne h25 hm
  obtain ⟨s, e, rfl, -⟩ := NCP.main_inv hm
  exact ⟨_, o, hm, a, (b h.mom).1, l, fun k hk => (sweep_lip_ne NCP.modeUpdate_inv h.lip e k hk : s.L k ≠ 0)⟩

theorem Alive.op1 {X : Tensor ℝ} {R : Nat} {st : State} (h : Alive X R st) :
    ∃ st', NCP.op1 X.order st = .ok st' ∧ Alive X R st' := by
  obtain ⟨w, hw, -⟩ := weight_ok h.mom
  have : ∃ st', NCP.op1 X.order st = .ok st' ∧ st'.L = st.L := by
    rcases extrapolate_range (w := w) (st := st) ⟨h.ok.A, h.ok.A0, h.ok.Am⟩ X.order (by simp [Tensor.order]) with ⟨-, k, hk, e, he⟩ |
      ⟨s, hs, -, -, -, -, hL, -⟩
    · unfold cappedWeight loss.fdiv at he
      rw [if_neg (h.lip k hk)] at he
      cases he
    · refine ⟨{ s with t0 := s.t }, ?_, hL⟩
      unfold NCP.op1
      rw [hw, ok_bind, hs]
      rfl
  obtain ⟨st', e, hL⟩ := this
  obtain ⟨a, b, c, -⟩ := NCP.op1_ok h.ok h.mom e
  exact ⟨st', e, a, b, by rw [c]; exact h.live, by rw [hL]; exact h.lip⟩

theorem Alive.op2 {X : Tensor ℝ} {R : Nat} {st : State} (h : Alive X R st) : ∃ st', NCP.op2 st = .ok st' ∧ Alive X R st' := by
  refine ⟨_, rfl, ?_⟩
  obtain ⟨a, b, -⟩ := NCP.op2_ok h.ok h.mom rfl
  exact ⟨a, b, h.live, h.lip⟩

/-! ### NTUCKER -/

theorem modeProds_nonneg : ∀ {ps : List (Nat × Tensor ℝ)} {g : Tensor ℝ}, (∀ p ∈ ps, Nonneg p.2) → Nonneg g → Nonneg (modeProds g ps)
  | [], _, _, hg => hg
  | p :: ps, g, h, hg => modeProds_nonneg (ps := ps) (fun q hq => h q (by simp [hq])) <| nonneg_of_at fun i hi => by
      have hi : InB (g.shape.set p.1 (p.2.shape.getD 0 0)) i := hi
      change 0 ≤ (modeProd g p.1 p.2).at_ i
      rw [modeProd, at_ofFn _ hi]
      exact Finset.sum_nonneg fun k _ => mul_nonneg ((h p (by simp)).at _) (hg.at _)

/-- One mode update of `NTUCKER_BCU`. -/
theorem NTUCKER.modeUpdate_alive {topSv : Tensor ℝ → Res ℝ} (ht : TopSvOk topSv) {X g : Tensor ℝ} {ranks : List Nat} {n : Nat} {st : State}
    (hok : FactorsOk (tuckerShapes X.shape ranks) st) (hr : ranks.length = X.shape.length) (hg : g.shape = ranks) (hgn : Nonneg g)
    (h2 : 2 ≤ X.order) (h13 : X.order ≤ 13) (hn : n < X.order) (hrp : ∀ d ∈ ranks, 0 < d)
    (hpos : ∀ d ∈ X.shape, 0 < d) (hX : ∀ i, InB X.shape i → 0 < X.at_ i) (h : tkErr (zeroT X.shape) g st.A ≠ 0) :
    ∃ st' Z, NTUCKER.modeUpdate topSv X g st n = .ok st' ∧ st'.A = st.A.set n Z ∧ Z.shape = [X.shape.getD n 0, ranks.getD n 0] ∧
      tkErr (zeroT X.shape) g st'.A ≠ 0 ∧ ∀ i < X.shape.getD n 0, ∃ r < ranks.getD n 0, 0 < Z.at_ [i, r] := by
  have hA := tuckerShapes_iff.1 hok.A
  have hAm := tuckerShapes_iff.1 hok.Am
  have hpn := cp.getD_pos hpos hn
  have hrn : 0 < ranks.getD n 0 := cp.getD_pos hrp (by rw [hr]; exact hn)
  set K : Mat (otherSize X.shape n) (ranks.getD n 0) := (unfM (modeProds g (((List.range X.shape.length).zip st.A).eraseIdx n)) n
    (ranks.getD n 0) (otherSize X.shape n))ᵀ with hKd
  obtain ⟨V, XA, hV, hXA, hVm, hXAm, he⟩ := NTUCKER.reduce_unf topSv hA hr hg h2 h13 hn hpn hrn hKd (st := st)
  have hn' : n < st.A.length := by rw [hA.1]; exact hn
  have hget : st.A[n]? = some st.A[n] := List.getElem?_eq_getElem hn'
  have hnm : n < st.Am.length := by rw [hAm.1]; exact hn
  have hgm : st.Am[n]? = some st.Am[n] := List.getElem?_eq_getElem hnm
  obtain ⟨l, hl, hsv⟩ := ht V _ _ hV hrn hrn
  obtain ⟨e0, e1⟩ := factorStep_eq hV hXA hgm (hAm.2 n _ hgm) hget (hA.2 n _ hget) hl
  have herr : ∀ B : Tensor ℝ, B.shape = [X.shape.getD n 0, ranks.getD n 0] → tkErr (zeroT X.shape) g (st.A.set n B) =
      frobSq (toMat B (X.shape.getD n 0) (ranks.getD n 0) * Kᵀ) := by
    intro B hB
    rw [tkErr_frob (X := zeroT X.shape) h2 h13 hA hr hg hn hB, frobSq_zero_sub fun i j => ?_]
    · rfl
    · exact zeroT_at (unkolda_spec hn i.isLt j.isLt).1
  rw [hVm] at hsv
  have hl0 : l ≠ 0 := by
    intro hz
    have hK0 := hsv.gram_eq_zero.1 hz
    apply h
    have := herr _ (hA.2 n _ hget)
    rw [List.set_getElem_self, hK0] at this
    rw [this]; simp [frobSq]
  obtain ⟨Z, hZs, hZn, hZe, hf⟩ := e1 hl0
  have hrow : ∀ i : Fin (X.shape.getD n 0), ∃ j, 0 < (toMat Z (X.shape.getD n 0) (ranks.getD n 0) * Kᵀ) i j := by
    refine prox_row_pos (M := unfM X n (X.shape.getD n 0) (otherSize X.shape n)) (lt_of_le_of_ne hsv.nonneg (Ne.symm hl0)) hsv.topRow
      (fun j r => ?_) (fun i j => hX _ (unkolda_spec hn i.isLt j.isLt).1) fun i r => by rw [hZe i r, hVm, hXAm]
    rw [hKd, transpose_apply]
    refine (modeProds_nonneg (fun p hp => ?_) hgn).at _
    exact hok.nonneg _ (List.of_mem_zip (List.mem_of_mem_eraseIdx hp)).2
  refine ⟨_, Z, he.trans hf, rfl, hZs, ?_, fun i hi => ?_⟩
  · show tkErr _ g (st.A.set n Z) ≠ 0
    rw [herr Z hZs]
    obtain ⟨j, hj⟩ := hrow ⟨0, hpn⟩
    exact fun hz => ne_zero_of_entry hj (frobSq_eq_zero hz)
  · obtain ⟨j, hj⟩ := hrow ⟨i, hi⟩
    obtain ⟨r, hr⟩ := exists_of_mul_pos (fun i r => hZn.at _) hj
    exact ⟨r, r.isLt, hr⟩

theorem NTUCKER.sweep_alive {topSv : Tensor ℝ → Res ℝ} (ht : TopSvOk topSv) {X g : Tensor ℝ} {ranks : List Nat} {st : State}
    (hok : FactorsOk (tuckerShapes X.shape ranks) st) (hr : ranks.length = X.shape.length) (hg : g.shape = ranks) (hgn : Nonneg g)
    (h2 : 2 ≤ X.order) (h13 : X.order ≤ 13) (hrp : ∀ d ∈ ranks, 0 < d)
    (hpos : ∀ d ∈ X.shape, 0 < d) (hX : ∀ i, InB X.shape i → 0 < X.at_ i) (h : tkErr (zeroT X.shape) g st.A ≠ 0) : ∀ n ≤ X.order,
    ∃ st', (List.range n).foldlM (NTUCKER.modeUpdate topSv X g) st = .ok st' ∧ tkErr (zeroT X.shape) g st'.A ≠ 0 ∧
      ∀ k < n, ∀ M, st'.A[k]? = some M → ∀ i < X.shape.getD k 0, ∃ r < ranks.getD k 0, 0 < M.at_ [i, r] := by
  intro n
  induction n with
  | zero => intro _; exact ⟨st, rfl, h, fun k hk => absurd hk (by omega)⟩
  | succ n ih =>
      intro hn
      obtain ⟨s1, e1, l1, r1⟩ := ih (by omega)
      obtain ⟨f1, -⟩ := NTUCKER.sweep_inv hok e1
      obtain ⟨s2, Z, e2, hA, -, l2, r2⟩ := NTUCKER.modeUpdate_alive ht f1 hr hg hgn h2 h13 (n := n) (by omega) hrp hpos hX l1
      refine ⟨s2, by rw [List.range_succ, List.foldlM_append, e1, ok_bind, List.foldlM_cons, e2]; rfl, l2, fun k hk M hM => ?_⟩
      rw [hA] at hM
      by_cases hkn : n = k
      · subst hkn
        rw [List.getElem?_set_self (by rw [(tuckerShapes_iff.1 f1.A).1]; exact hn)] at hM
        cases hM
        exact r2
      · rw [List.getElem?_set_ne hkn] at hM
        exact r1 k (by omega) M hM

theorem NTUCKER.main_alive {topSv : Tensor ℝ → Res ℝ} (ht : TopSvOk topSv) {X : Tensor ℝ} {ranks : List Nat} {st : TState}
    (hok : TkOk X.shape ranks st) (hr : ranks.length = X.shape.length)
    (h2 : 2 ≤ X.order) (h13 : X.order ≤ 13) (hrp : ∀ d ∈ ranks, 0 < d)
    (hpos : ∀ d ∈ X.shape, 0 < d) (hX : ∀ i, InB X.shape i → 0 < X.at_ i) (h : tkErr (zeroT X.shape) st.g st.A ≠ 0) :
    ∃ st' o, NTUCKER.main topSv X st = .ok (st', o) ∧ tkErr (zeroT X.shape) st'.g st'.A ≠ 0 ∧ RowsPos st'.A := by
  obtain ⟨s, e, l, r⟩ := NTUCKER.sweep_alive ht hok.factors hr hok.g hok.nonneg h2 h13 hrp hpos hX h X.order (le_refl _)
  obtain ⟨f1, -⟩ := NTUCKER.sweep_inv hok.factors e
  obtain ⟨y1, y2, -⟩ := tk_full (by unfold order at h2; omega) h13 (tuckerShapes_iff.1 f1.A) hr hok.g
  have h0 : InB X.shape (unravel X.shape 0) := unravel_inB (List.prod_pos hpos)
  obtain ⟨⟨l', obj, rel⟩, hq⟩ := cp.scalars_total y2 ⟨_, h0, ne_of_gt (hX _ h0)⟩
  refine ⟨{ st with toState := tUpdate s }, ⟨s.A, none, _, l', obj, rel⟩, by
    unfold NTUCKER.main; rw [e, ok_bind, y1, ok_bind, hq]; rfl, l, fun M hM i hi => ?_⟩
  obtain ⟨k, hk⟩ := List.getElem?_of_mem hM
  have hk : s.A[k]? = some M := hk
  have hk' : k < X.order := by
    have := (List.getElem?_eq_some_iff.1 hk).1
    have h3 : s.A.length = X.order := (tuckerShapes_iff.1 f1.A).1
    omega
  have hs := (tuckerShapes_iff.1 f1.A).2 k M hk
  rw [hs] at hi ⊢
  exact r k hk' M hk i hi

/-- The core update: the bound it uses is attained. -/
theorem kronMat_topRow {shape ranks : List Nat} {A : List (Tensor ℝ)} {s : List ℝ} (hr : rowDims A = shape) (hc : colDims A = ranks)
    (h : List.Forall₂ (fun M s => IsTopSv (toMat (gramOf M) (M.shape.getD 1 0) (M.shape.getD 1 0)) s) A s) :
    TopRow (kronMat shape ranks A) s.prod := by
  refine ⟨kronMat_le hr hc h, ?_⟩
  obtain ⟨x, x1, x2⟩ := kron_attained (ms := A) (cs := s) (h.imp fun M c hM => by
    rw [toMat_gramOf] at hM
    obtain ⟨D, d1, d2⟩ := hM.topRow.att
    refine ⟨fun b => if hb : b < M.shape.getD 1 0 then D 0 ⟨b, hb⟩ else 0, ?_, ?_⟩
    · rw [vec_frob', ← d1, ← frobSq_transpose D]
      congr 1
      ext i j
      rw [of_apply, dif_pos i.isLt, transpose_apply, Subsingleton.elim j 0]
    · rw [vec_frob, ← d2, ← frobSq_transpose (D * _), transpose_mul, transpose_transpose]
      congr 2
      ext i j
      rw [of_apply, dif_pos i.isLt, transpose_apply, Subsingleton.elim j 0])
  refine ⟨rowVec ranks x, ?_, ?_⟩
  · rw [frobSq_rowVec, ← x1, hc]
  · rw [rowVec_kron, frobSq_rowVec, ← x2, hc, hr]

theorem NTUCKER.core_alive {topSv : Tensor ℝ → Res ℝ} (ht : TopSvOk topSv) {X : Tensor ℝ} {ranks : List Nat} {st : TState}
    (hok : TkOk X.shape ranks st) (hr : ranks.length = X.shape.length)
    (h1 : 1 ≤ X.order) (h13 : X.order ≤ 13) (hrp : ∀ d ∈ ranks, 0 < d) (hX : ∀ i, InB X.shape i → 0 < X.at_ i)
    (h : tkErr (zeroT X.shape) st.g st.A ≠ 0) :
    ∃ st' k, NTUCKER.core topSv X st = .ok (st', k) ∧ tkErr (zeroT X.shape) st'.g st'.A ≠ 0 ∧ st'.L X.order ≠ 0 ∧
      ∀ k, k ≠ X.order → st'.L k = st.L k := by
  have hA := hok.shapes
  have hc := hA.colDims hr
  obtain ⟨s, hs, e0, e1⟩ := NTUCKER.core_formula ht hok hr h1 h13 hrp
  have htop := kronMat_topRow hA.rowDims hc hs
  have herr : ∀ B : Tensor ℝ, B.shape = ranks → tkErr (zeroT X.shape) B st.A =
      frobSq (rowVec ranks B.at_ * (kronMat X.shape ranks st.A)ᵀ) := by
    intro B hB
    rw [tkErr_rowVec (X := zeroT X.shape) hB, frobSq_zero_sub fun i j => ?_]
    · rfl
    · exact zeroT_at (unravel_inB j.isLt)
  have hl0 : s.prod ≠ 0 := by
    intro hz
    apply h
    have := htop.le (rowVec ranks st.g.at_)
    rw [hz, zero_mul, ← herr _ hok.g] at this
    exact le_antisymm this (loss.boxSum_nonneg _ fun _ _ => sq_nonneg _)
  obtain ⟨Z, hZ, hZs, hZn, hZe⟩ := e1 hl0
  obtain ⟨j, hj⟩ := prox_row_pos (M := rowVec X.shape X.at_) (lt_of_le_of_ne htop.nonneg (Ne.symm hl0)) htop
    (fun i j => nonneg_kronEntry hok.factors.nonneg _ _) (fun i j => hX _ (unravel_inB j.isLt)) hZe 0
  refine ⟨_, Z, hZ, ?_, ?_, fun k hk => Function.update_of_ne hk _ _⟩
  · show tkErr _ Z st.A ≠ 0
    rw [herr Z hZs]
    exact fun hz => ne_zero_of_entry hj (frobSq_eq_zero hz)
  · show Function.update st.L X.order s.prod X.order ≠ 0
    rw [Function.update_self]; exact hl0

structure TAlive (X : Tensor ℝ) (ranks : List Nat) (st : TState) : Prop where
  ok : TkOk X.shape ranks st
  mom : MomentumOk st.toState
  live : tkErr (zeroT X.shape) st.g st.A ≠ 0
  lip : ∀ k < X.order + 1, st.L k ≠ 0

theorem TAlive.core {topSv : Tensor ℝ → Res ℝ} (ht : TopSvOk topSv) {X : Tensor ℝ} {ranks : List Nat} {st : TState}
    (hr : ranks.length = X.shape.length) (h1 : 1 ≤ X.order) (h13 : X.order ≤ 13) (hrp : ∀ d ∈ ranks, 0 < d)
    (hX : ∀ i, InB X.shape i → 0 < X.at_ i) (h : TAlive X ranks st) :
    ∃ st' k, NTUCKER.core topSv X st = .ok (st', k) ∧ TAlive X ranks st' := by
  obtain ⟨st', k, e, l, l1, l2⟩ := NTUCKER.core_alive ht h.ok hr h1 h13 hrp hX h.live
  obtain ⟨a, b, -⟩ := NTUCKER.core_ok h.ok e
  refine ⟨st', k, e, a, b h.mom, l, fun k hk => ?_⟩
  by_cases hkn : k = X.order
  · subst hkn; exact l1
  · rw [l2 k hkn]; exact h.lip k hk

theorem TAlive.main {topSv : Tensor ℝ → Res ℝ} (ht : TopSvOk topSv) {X : Tensor ℝ} {ranks : List Nat} {st : TState}
    (hr : ranks.length = X.shape.length) (h2 : 2 ≤ X.order) (h13 : X.order ≤ 13) (hrp : ∀ d ∈ ranks, 0 < d)
    (hpos : ∀ d ∈ X.shape, 0 < d) (hX : ∀ i, InB X.shape i → 0 < X.at_ i) (h : TAlive X ranks st) :
    ∃ st' o, NTUCKER.main topSv X st = .ok (st', o) ∧ TAlive X ranks st' := by
  obtain ⟨st', o, hm, l, -⟩ := NTUCKER.main_alive ht h.ok hr h2 h13 hrp hpos hX h.live
  obtain ⟨a, b, -⟩ := NTUCKER.main_ok h.ok hr (by omega) h13 hm
  obtain ⟨-, hL, -⟩ := NTUCKER.main_lip hm
  refine ⟨st', o, hm, a, (b h.mom).1, l, fun k hk => ?_⟩
  by_cases hkn : k = X.order
  · subst hkn; rw [hL]; exact h.lip _ hk
  · obtain ⟨s, e, rfl, -⟩ := NTUCKER.main_inv hm
    exact sweep_lip_ne NTUCKER.modeUpdate_inv (N := X.order) (fun k hk => h.lip k (by omega)) e k (by omega)

theorem TAlive.op1 {X : Tensor ℝ} {ranks : List Nat} {st : TState} (h : TAlive X ranks st) :
    ∃ st', NTUCKER.op1 X.order st = .ok st' ∧ TAlive X ranks st' := by
  obtain ⟨w, hw, -⟩ := weight_ok h.mom
  have : ∃ st', NTUCKER.op1 X.order st = .ok st' := by
    rcases extrapolate_range (w := w) (st := st.toState) ⟨h.ok.factors.A, h.ok.factors.A0, h.ok.factors.Am⟩ X.order
      (by simp [Tensor.order, tuckerShapes]) with ⟨-, k, hk, e, he⟩ | ⟨s, hs, -, -, -, -, hL, -⟩
    · unfold cappedWeight loss.fdiv at he
      rw [if_neg (h.lip k (by omega))] at he
      cases he
    · have hw' : ∃ wk, cappedWeight s w X.order = .ok wk := by
        unfold cappedWeight loss.fdiv
        rw [hL, if_neg (h.lip _ (by omega))]
        exact ⟨_, rfl⟩
      obtain ⟨wk, hwk⟩ := hw'
      have hx : ∃ m, extrapolate wk st.g st.g0 = .ok m ∧ m.shape = st.g.shape := by
        unfold extrapolate
        rw [ewise_same _ (by rw [h.ok.g, h.ok.g0]), ok_bind]
        exact ⟨_, ewise_same _ rfl, rfl⟩
      obtain ⟨m, hm, hms⟩ := hx
      unfold NTUCKER.op1 assignCore
      rw [hw, ok_bind, hs, ok_bind, hwk, ok_bind, hm, ok_bind, if_pos (by rw [hms, h.ok.g, h.ok.gm]), ok_bind]
      exact ⟨_, rfl⟩
  obtain ⟨st', e⟩ := this
  obtain ⟨a, b, c, -, -, d1, -⟩ := NTUCKER.op1_ok h.ok h.mom e
  exact ⟨st', e, a, b, by rw [c, d1]; exact h.live, by rw [(NTUCKER.op1_weight e).2]; exact h.lip⟩

theorem TAlive.op2 {X : Tensor ℝ} {ranks : List Nat} {st : TState} (h : TAlive X ranks st) :
    ∃ st', NTUCKER.op2 st = .ok st' ∧ TAlive X ranks st' := by
  refine ⟨_, rfl, ?_⟩
  obtain ⟨a, b, -⟩ := NTUCKER.op2_ok h.ok h.mom rfl
  exact ⟨a, b, h.live, h.lip⟩

end bcu
end TD
