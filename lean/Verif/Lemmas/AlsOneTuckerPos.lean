import Verif.Lemmas.AlsOneTucker
import Verif.Lemmas.AlsOnePos

/-! # One component, positive data: `NTUCKER_BCU` never breaks down -/
namespace TD
open Spec Tensor tf ops Matrix

theorem kronEntry_one {X : Tensor ℝ} {A : List (Tensor ℝ)} (hA : FactorsFor X.shape 1 A) {i : List Nat} (hi : InB X.shape i) :
    kronEntry A i (List.replicate X.shape.length 0) = outerEntry X.order (firstCol A) i := by
  have hl := hA.length
  have := Props.kronEntry_replicate 0 A i (by rw [hi.length, hl])
  rw [hl] at this
  rw [this, khatriEntry_outer (by rw [hi.length, hl]), hl]
  rfl

theorem InB_zeros (N : Nat) : InB (List.replicate N 1) (List.replicate N 0) := by
  refine InB_iff_getD.2 ⟨by simp, fun k hk => ?_⟩
  rw [List.length_replicate] at hk
  simp [List.getD_eq_getElem?_getD, hk]

theorem unravel_ones {N k : Nat} (h : k < (List.replicate N 1).prod) :
    unravel (List.replicate N 1) k = List.replicate N 0 := by
  obtain ⟨h1, h2⟩ := InB_iff_getD.1 (unravel_inB h)
  refine List.ext_getElem (by rw [h1]; simp) fun i hi hi' => ?_
  have hi2 : i < N := by simpa using hi'
  have := h2 i (by simpa using hi2)
  rw [List.getD_eq_getElem _ _ hi] at this
  simp [List.getD_eq_getElem?_getD, hi2] at this
  rw [this]; simp

theorem ones_colDims {X : Tensor ℝ} {A : List (Tensor ℝ)} (hA : FactorsFor X.shape 1 A) :
    colDims A = List.replicate X.shape.length 1 := by
  rw [← hA.length]
  exact List.eq_replicate_iff.2 ⟨by simp [colDims], fun b hb => by
    obtain ⟨M, hM, rfl⟩ := List.mem_map.1 hb
    exact hA.cols M hM⟩

theorem outerEntry_pos {X : Tensor ℝ} {v : Nat → Nat → ℝ} (hv : ∀ k < X.order, ∀ a < X.shape.getD k 0, 0 < v k a)
    {i : List Nat} (hi : InB X.shape i) : 0 < outerEntry X.order v i :=
  Finset.prod_pos fun k hk => hv k (Finset.mem_range.1 hk) _ ((InB_iff_getD.1 hi).2 k (Finset.mem_range.1 hk))

theorem boxSum_pos {s : List Nat} {f : List Nat → ℝ} (hs : ∀ d ∈ s, 0 < d) (h : ∀ i, InB s i → 0 < f i) : 0 < boxSum s f := by
  have h0 := unravel_inB (k := 0) (List.prod_pos hs)
  refine lt_of_le_of_ne (loss.boxSum_nonneg _ fun i hi => (h i hi).le) fun e => ?_
  exact (h _ h0).ne' ((loss.boxSum_eq_zero s fun i hi => (h i hi).le).1 e.symm _ h0)

/-- The product of the largest singular values of 1 × 1 Gram matrices. -/
theorem prod_gram_one {A : List (Tensor ℝ)} {s : List ℝ} (h1 : ∀ M ∈ A, M.shape.getD 1 0 = 1)
    (h : List.Forall₂ (fun M s => IsTopSv (toMat (gramOf M) (M.shape.getD 1 0) (M.shape.getD 1 0)) s) A s) :
    s.prod = kronEntry (A.map gramOf) (List.replicate A.length 0) (List.replicate A.length 0) := by
  induction h with
  | nil => rfl
  | @cons M c A s hM _ ih =>
      have e := h1 M (by simp)
      rw [List.prod_cons, ih fun N hN => h1 N (by simp [hN])]
      simp only [List.map_cons, List.length_cons, List.replicate_succ, kronEntry]
      congr 1
      rw [e] at hM
      refine (bcu.topSv_one hM ?_).trans rfl
      change 0 ≤ (gramOf M).at_ [0, 0]
      rw [gramOf, at_mat _ (by omega) (by omega)]
      exact Finset.sum_nonneg fun i _ => mul_self_nonneg _

/-- A positive draw can be normalised. -/
theorem normInit_pos {X M : Tensor ℝ} {p : Nat} (hM : Nonneg M) {i : List Nat} (hi : InB M.shape i) (h : 0 < M.at_ i) :
    ∃ B, bcu.normInit X p (bcu.relu M) = .ok B := by
  have : tf.norm (bcu.relu M) ≠ 0 := by
    rw [relu_of_nonneg hM, tf.norm, reduceSum_sq]
    refine (Real.sqrt_pos.2 (lt_of_le_of_ne (loss.boxSum_nonneg _ fun i _ => sq_nonneg _) fun e => ?_)).ne'
    have hz := (loss.boxSum_eq_zero M.shape (fun i _ => sq_nonneg (M.at_ i))).1 e.symm _ hi
    exact h.ne' (by simpa using hz)
  unfold bcu.normInit
  rw [if_neg this]
  exact ⟨_, rfl⟩

theorem mapM_all {β : Type} {f : β → Res β} : ∀ {l : List β}, (∀ x ∈ l, ∃ y, f x = .ok y) → ∃ r, l.mapM f = .ok r
  | [], _ => ⟨[], rfl⟩
  | x :: l, h => by
      obtain ⟨y, hy⟩ := h x (by simp)
      obtain ⟨r, hr⟩ := mapM_all fun z hz => h z (List.mem_cons_of_mem _ hz)
      exact ⟨y :: r, by rw [List.mapM_cons, hy, ok_bind, hr, ok_bind]; rfl⟩

namespace bcu

/-- One component: the core entry becomes the best multiple of the rank-one tensor, whatever the extrapolated point is. -/
theorem NTUCKER.core_one {topSv : Tensor ℝ → Res ℝ} (ht : TopSvOk topSv) {X : Tensor ℝ} {st : TState}
    (hst : TkOk X.shape (List.replicate X.shape.length 1) st) (h1 : 1 ≤ X.order) (h13 : X.order ≤ 13)
    (hb : (boxSum X.shape fun i => outerEntry X.order (firstCol st.A) i ^ 2) ≠ 0) :
    ∃ Z, NTUCKER.core topSv X st = .ok ({ st with
        g := Z, L0 := Function.update st.L0 X.order (st.L X.order),
        L := Function.update st.L X.order (boxSum X.shape fun i => outerEntry X.order (firstCol st.A) i ^ 2) }, Z) ∧
      coreOne X Z = max (along X (firstCol st.A) / boxSum X.shape fun i => outerEntry X.order (firstCol st.A) i ^ 2) 0 := by
  have hA := hst.shapes
  have hF := tucker_ones.1 hA
  have hc := ones_colDims hF
  obtain ⟨s, hs, -, e1⟩ := NTUCKER.core_formula ht hst (by simp) h1 h13 (fun d hd => by
    rw [List.eq_of_mem_replicate hd]; exact Nat.one_pos)
  have hp : s.prod = boxSum X.shape fun i => outerEntry X.order (firstCol st.A) i ^ 2 := by
    rw [prod_gram_one hF.cols hs, hF.length]
    rw [kronEntry_gramOf (by rw [hc]; exact InB_zeros _) (by rw [hc]; exact InB_zeros _), hA.rowDims]
    exact boxSum_congr fun i hi => by rw [kronEntry_one hF hi, pow_two]
  rw [hp] at e1
  obtain ⟨Z, hZ, hZs, -, hZe⟩ := e1 hb
  refine ⟨Z, hZ, ?_⟩
  have hlt : 0 < (List.replicate X.shape.length 1).prod := by simp
  have := hZe 0 ⟨0, hlt⟩
  rw [← Matrix.mul_assoc, Matrix.sub_apply] at this
  rw [rowVec_kron, rowVec_kron', rowVec_kron'] at this
  simp only [rowVec, of_apply, unravel_ones hlt, boxSum_ones] at this
  unfold coreOne
  rw [this]
  have f1 : (boxSum X.shape fun i => kronEntry st.A i (List.replicate X.shape.length 0) *
      (kronEntry st.A i (List.replicate X.shape.length 0) * st.gm.at_ (List.replicate X.shape.length 0))) =
      st.gm.at_ (List.replicate X.shape.length 0) * boxSum X.shape fun i => outerEntry X.order (firstCol st.A) i ^ 2 := by
    rw [← boxSum_mul_left]
    exact boxSum_congr fun i hi => by rw [kronEntry_one hF hi]; ring
  have f2 : (boxSum X.shape fun i => kronEntry st.A i (List.replicate X.shape.length 0) * X.at_ i) =
      along X (firstCol st.A) := boxSum_congr fun i hi => by rw [kronEntry_one hF hi, mul_comm]
  rw [f1, f2]
  congr 1
  field_simp
  ring

/-- The states of a training with all ranks one that never break down. -/
structure TkOnePos (X : Tensor ℝ) (st : TState) : Prop where
  ok : TkOk X.shape (List.replicate X.shape.length 1) st
  mom : MomentumOk st.toState
  pos : ∀ k < X.order, ∀ a < X.shape.getD k 0, 0 < firstCol st.A k a
  lip : ∀ k ≤ X.order, st.L k ≠ 0
  core : 0 < coreOne X st.g

theorem TkOnePos.coreRun {topSv : Tensor ℝ → Res ℝ} (ht : TopSvOk topSv) {X : Tensor ℝ} (h1 : 1 ≤ X.order)
    (h13 : X.order ≤ 13) (hpos : ∀ d ∈ X.shape, 0 < d) (hX : ∀ i, InB X.shape i → 0 < X.at_ i) {st : TState}
    (h : TkOnePos X st) : ∃ st' k, NTUCKER.core topSv X st = .ok (st', k) ∧ TkOnePos X st' := by
  have hb : 0 < boxSum X.shape fun i => outerEntry X.order (firstCol st.A) i ^ 2 :=
    boxSum_pos hpos fun i hi => pow_pos (outerEntry_pos h.pos hi) 2
  obtain ⟨Z, hZ, hc⟩ := NTUCKER.core_one ht h.ok h1 h13 hb.ne'
  obtain ⟨c1, c2, -⟩ := NTUCKER.core_ok h.ok hZ
  refine ⟨_, Z, hZ, c1, c2 h.mom, h.pos, fun k hk => ?_, ?_⟩
  · change Function.update st.L X.order _ k ≠ 0
    by_cases e : k = X.order
    · subst e; rw [Function.update_self]; exact hb.ne'
    · rw [Function.update_of_ne e]; exact h.lip k hk
  · change 0 < coreOne X Z
    rw [hc]
    exact lt_max_of_lt_left (div_pos (boxSum_pos hpos fun i hi => mul_pos (hX i hi) (outerEntry_pos h.pos hi)) hb)

theorem TkOnePos.modeUpdate {topSv : Tensor ℝ → Res ℝ} (ht : TopSvOk topSv) {X : Tensor ℝ} (h2 : 2 ≤ X.order)
    (h13 : X.order ≤ 13) (hpos : ∀ d ∈ X.shape, 0 < d) (hX : ∀ i, InB X.shape i → 0 < X.at_ i) {st : TState}
    (h : TkOnePos X st) {n : Nat} (hn : n < X.order) :
    ∃ s, NTUCKER.modeUpdate topSv X st.g st.toState n = .ok s ∧ TkOnePos X { st with toState := s } := by
  have hA := tuckerShapes_iff.1 h.ok.factors.A
  have hAm := tuckerShapes_iff.1 h.ok.factors.Am
  have hpn := cp.getD_pos hpos hn
  have hrk : (List.replicate X.shape.length 1).getD n 0 = 1 := by
    have : n < X.shape.length := hn
    simp [List.getD_eq_getElem?_getD, this]
  have hrp : 0 < (List.replicate X.shape.length 1).getD n 0 := by rw [hrk]; exact Nat.one_pos
  have hF := tucker_ones.1 hA
  rcases NTUCKER.modeUpdate_total ht hA hAm (by simp) h.ok.g h2 h13 hn hpn hrp with ⟨s, e⟩ | ⟨-, e⟩
  · refine ⟨s, e, ?_⟩
    obtain ⟨g1, -, g2, g3⟩ := NTUCKER.modeUpdate_fit ht h.ok.factors h.ok.g h.ok.nonneg h2 h13 hn hpos
      (fun i hi => (hX i hi).le) e
    have gm : st.Am[n]? = some (st.Am[n]'(by rw [hAm.1]; exact hn)) := List.getElem?_eq_getElem _
    obtain ⟨Z, -, -, -, hL, -⟩ := NTUCKER.three_point ht hA (by simp) h.ok.g h2 h13 hn hpn hrp gm (hAm.2 n _ gm) e
    have hI := NTUCKER.sweep_inv (l := [n]) h.ok.factors (by rw [List.foldlM_cons, e]; rfl)
    obtain ⟨l, hl⟩ : ∃ l, s.L = Function.update st.L n l := by
      obtain ⟨V, XA, hf⟩ := NTUCKER.modeUpdate_inv e
      obtain ⟨l, Z, -, -, -, -, -, rfl⟩ := factorStep_inv hf
      exact ⟨l, rfl⟩
    refine ⟨⟨g1, h.ok.g, h.ok.g0, h.ok.gm, h.ok.nonneg, h.ok.nonneg0⟩, ⟨?_, ?_⟩, fun k hk a ha => ?_, fun k hk => ?_, h.core⟩
    · change 1 ≤ s.t0
      rw [hI.2.2.1]; exact h.mom.1
    · change s.t = s.t0 ∨ s.t = phi s.t0
      rw [hI.2.2.1, hI.2.1]; exact h.mom.2
    · change 0 < firstCol s.A k a
      by_cases hkn : k = n
      · subst hkn
        rw [g2 a ha]
        exact mul_pos (inv_pos.2 h.core) (bestVec_pos hpos hX h.pos hn ha)
      · rw [g3 k hkn]; exact h.pos k hk a ha
    · change s.L k ≠ 0
      by_cases hkn : k = n
      · subst hkn; exact hL.ne'
      · rw [hl, Function.update_of_ne hkn]; exact h.lip k hk
  · exfalso
    have hn' : n < st.A.length := by rw [hA.1]; exact hn
    have hscale : ∀ t : ℝ, tkErr X st.g (st.A.set n (mat (X.shape.getD n 0) 1 fun a _ => t * firstCol st.A n a)) =
        normSqT X + -2 * (t * coreOne X st.g) * along X (firstCol st.A) +
          (t * coreOne X st.g) ^ 2 * boxSum X.shape fun i => outerEntry X.order (firstCol st.A) i ^ 2 := by
      intro t
      have hF' : FactorsFor X.shape 1 (st.A.set n (mat (X.shape.getD n 0) 1 fun a _ => t * firstCol st.A n a)) := by
        refine tucker_ones.1 ⟨by rw [List.length_set]; exact hA.1, fun k M hM => ?_⟩
        rw [List.getElem?_set] at hM
        by_cases hkn : n = k
        · subst hkn
          rw [if_pos rfl, if_pos hn'] at hM
          cases hM
          rw [hrk]; rfl
        · rw [if_neg hkn] at hM
          exact hA.2 k M hM
      unfold tkErr normSqT along
      rw [← boxSum_mul_left, ← boxSum_mul_left, ← boxSum_add, ← boxSum_add]
      refine boxSum_congr fun i hi => ?_
      rw [tucker_sum_one h.ok.g hF' hi]
      have : outerEntry X.order (firstCol (st.A.set n (mat (X.shape.getD n 0) 1 fun a _ => t * firstCol st.A n a))) i =
          t * outerEntry X.order (firstCol st.A) i := by
        rw [outerEntry_split _ hn, outerEntry_split _ hn, firstCol_get (List.getElem?_set_self hn'),
          at_mat _ ((InB_iff_getD.1 hi).2 n hn) (by omega)]
        rw [mul_assoc]
        congr 2
        exact Finset.prod_congr rfl fun k hk => firstCol_set_ne (Finset.ne_of_mem_erase hk) _ _
      rw [this]; ring
    have h1 := hscale 1
    have h2 := hscale 2
    rw [e _ (by rw [hrk]; rfl)] at h1 h2
    have ha : 0 < along X (firstCol st.A) := boxSum_pos hpos fun i hi => mul_pos (hX i hi) (outerEntry_pos h.pos hi)
    have := mul_pos h.core ha
    nlinarith

theorem TkOnePos.main {topSv : Tensor ℝ → Res ℝ} (ht : TopSvOk topSv) {X : Tensor ℝ} (h2 : 2 ≤ X.order)
    (h13 : X.order ≤ 13) (hpos : ∀ d ∈ X.shape, 0 < d) (hX : ∀ i, InB X.shape i → 0 < X.at_ i) {st : TState}
    (h : TkOnePos X st) : ∃ st' o, NTUCKER.main topSv X st = .ok (st', o) ∧ TkOnePos X st' := by
  have fold : ∀ l : List Nat, (∀ n ∈ l, n < X.order) → ∀ s, TkOnePos X { st with toState := s } →
      ∃ s', l.foldlM (NTUCKER.modeUpdate topSv X st.g) s = .ok s' ∧ TkOnePos X { st with toState := s' } := by
    intro l
    induction l with
    | nil => intro _ s h; exact ⟨s, rfl, h⟩
    | cons n l ih =>
        intro hl s h
        obtain ⟨s1, e1, h1⟩ := h.modeUpdate ht h2 h13 hpos hX (hl n (by simp))
        obtain ⟨s2, e2, h2⟩ := ih (fun m hm => hl m (by simp [hm])) s1 h1
        exact ⟨s2, by rw [List.foldlM_cons]; exact (congrArg (· >>= _) e1).trans e2, h2⟩
  obtain ⟨s, e, hs⟩ := fold (List.range X.order) (fun n hn => List.mem_range.1 hn) st.toState h
  obtain ⟨y1, y2, -⟩ := tk_full (by show 1 ≤ X.order; omega) h13 hs.ok.shapes (by simp) h.ok.g
  have h0 : InB X.shape (unravel X.shape 0) := unravel_inB (List.prod_pos hpos)
  obtain ⟨⟨l, obj, rel⟩, hq⟩ := cp.scalars_total y2 ⟨_, h0, ne_of_gt (hX _ h0)⟩
  refine ⟨{ st with toState := tUpdate s }, ⟨s.A, none, modeProds st.g ((List.range X.shape.length).zip s.A), l, obj, rel⟩, ?_,
    ⟨⟨⟨hs.ok.factors.A, hs.ok.factors.A0, hs.ok.factors.Am, hs.ok.factors.nonneg, hs.ok.factors.nonneg0⟩, h.ok.g, h.ok.g0,
      h.ok.gm, h.ok.nonneg, h.ok.nonneg0⟩, MomentumOk.tUpdate hs.mom |>.1, hs.pos, hs.lip, h.core⟩⟩
  unfold NTUCKER.main
  rw [e, ok_bind]
  rw [show NTUCKER.fullOf st.g s.A = _ from y1, ok_bind, hq]
  rfl

theorem TkOnePos.op1 {X : Tensor ℝ} {st : TState} (h : TkOnePos X st) :
    ∃ st', NTUCKER.op1 X.order st = .ok st' ∧ TkOnePos X st' := by
  obtain ⟨w, hw, -⟩ := weight_ok h.mom
  have : ∃ st', NTUCKER.op1 X.order st = .ok st' ∧ st'.L = st.L ∧ st'.g = st.g := by
    rcases extrapolate_range (w := w) (st := st.toState) ⟨h.ok.factors.A, h.ok.factors.A0, h.ok.factors.Am⟩ X.order
      (by simp [Tensor.order, tuckerShapes]) with ⟨-, k, hk, e, he⟩ | ⟨s, hs, -, -, -, -, hL, hL0, -⟩
    · unfold cappedWeight loss.fdiv at he
      rw [if_neg (h.lip k hk.le)] at he
      cases he
    · have hc : ∃ wk, cappedWeight s w X.order = .ok wk := by
        unfold cappedWeight loss.fdiv
        rw [hL, if_neg (h.lip _ (le_refl _))]
        exact ⟨_, rfl⟩
      obtain ⟨wk, hwk⟩ := hc
      have hx : ∃ m, extrapolate wk st.g st.g0 = .ok m ∧ m.shape = st.g.shape := by
        unfold extrapolate
        rw [ewise_same _ (by rw [h.ok.g, h.ok.g0]), ok_bind]
        exact ⟨_, ewise_same _ rfl, rfl⟩
      obtain ⟨m, hm, hms⟩ := hx
      refine ⟨{ toState := { s with wA := Function.update s.wA X.order wk, t0 := s.t }, g := st.g, g0 := st.g, gm := m }, ?_, hL, rfl⟩
      · unfold NTUCKER.op1
        rw [hw, ok_bind, hs, ok_bind, hwk, ok_bind, hm, ok_bind]
        unfold assignCore
        rw [if_pos (by rw [hms, h.ok.g, h.ok.gm]), ok_bind]
        rfl
  obtain ⟨st', e, hL, hg⟩ := this
  obtain ⟨a, b, c, -⟩ := NTUCKER.op1_ok h.ok h.mom e
  exact ⟨st', e, a, b, by rw [c]; exact h.pos, by rw [hL]; exact h.lip, by rw [hg]; exact h.core⟩

theorem TkOnePos.op2 {X : Tensor ℝ} {st : TState} (h : TkOnePos X st) : ∃ st', NTUCKER.op2 st = .ok st' ∧ TkOnePos X st' := by
  refine ⟨_, rfl, ?_⟩
  obtain ⟨a, b, -⟩ := NTUCKER.op2_ok h.ok h.mom rfl
  exact ⟨a, b, h.pos, h.lip, h.core⟩

end bcu
end TD
