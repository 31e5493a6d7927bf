import Verif.Lemmas.AlsOneTuckerPos
import Verif.Lemmas.AlsOneAt

/-! # One component, nonnegative data: `NTUCKER_BCU` never breaks down -/
namespace TD
open Spec Tensor tf ops fact Matrix

theorem boxSum_pos_at {s : List Nat} {f : List Nat → ℝ} {e : List Nat} (he : InB s e) (h : ∀ i, InB s i → 0 ≤ f i) (hfe : 0 < f e) :
    0 < boxSum s f := by
  refine lt_of_le_of_ne (loss.boxSum_nonneg _ h) fun h0 => ?_
  exact hfe.ne' ((loss.boxSum_eq_zero s h).1 h0.symm _ he)

namespace bcu

/-- The states of a training with all ranks one that never break down on nonnegative data: the entries of the factors that the
entry `e` is computed from are positive, and so is the core. -/
structure TkOneAt (X : Tensor ℝ) (e : List Nat) (st : TState) : Prop where
  ok : TkOk X.shape (List.replicate X.shape.length 1) st
  mom : MomentumOk st.toState
  pos : ∀ k < X.order, 0 < firstCol st.A k (e.getD k 0)
  lip : ∀ k ≤ X.order, st.L k ≠ 0
  core : 0 < coreOne X st.g

theorem TkOneAt.nonneg {X : Tensor ℝ} {e : List Nat} {st : TState} (h : TkOneAt X e st) (k a : Nat) : 0 ≤ firstCol st.A k a :=
  firstCol_nonneg h.ok.factors.nonneg k a

theorem TkOneAt.outer {X : Tensor ℝ} {e : List Nat} {st : TState} (h : TkOneAt X e st) : 0 < outerEntry X.order (firstCol st.A) e :=
  Finset.prod_pos fun k hk => h.pos k (Finset.mem_range.1 hk)

theorem TkOneAt.coreRun {topSv : Tensor ℝ → Res ℝ} (ht : TopSvOk topSv) {X : Tensor ℝ} (h1 : 1 ≤ X.order)
    (h13 : X.order ≤ 13) (hpos : ∀ d ∈ X.shape, 0 < d) {e : List Nat}
    (hX : ∀ i, InB X.shape i → 0 ≤ X.at_ i) (hi : InB X.shape e) (hXe : 0 < X.at_ e) {st : TState}
    (h : TkOneAt X e st) : ∃ st' k, NTUCKER.core topSv X st = .ok (st', k) ∧ TkOneAt X e st' := by
  have hb : 0 < boxSum X.shape fun i => outerEntry X.order (firstCol st.A) i ^ 2 :=
    boxSum_pos_at hi (fun i _ => sq_nonneg _) (pow_pos h.outer 2)
  obtain ⟨Z, hZ, hc⟩ := NTUCKER.core_one ht h.ok h1 h13 hb.ne'
  obtain ⟨c1, c2, -⟩ := NTUCKER.core_ok h.ok hZ
  refine ⟨_, Z, hZ, c1, c2 h.mom, h.pos, fun k hk => ?_, ?_⟩
  · change Function.update st.L X.order _ k ≠ 0
    by_cases hk' : k = X.order
    · subst hk'; rw [Function.update_self]; exact hb.ne'
    · rw [Function.update_of_ne hk']; exact h.lip k hk
  · change 0 < coreOne X Z
    rw [hc]
    exact lt_max_of_lt_left (div_pos (boxSum_pos_at hi (fun i hi => mul_nonneg (hX i hi) (Finset.prod_nonneg fun k _ => h.nonneg k _)) (mul_pos hXe h.outer)) hb)

theorem TkOneAt.modeUpdate {topSv : Tensor ℝ → Res ℝ} (ht : TopSvOk topSv) {X : Tensor ℝ} (h2 : 2 ≤ X.order)
    (h13 : X.order ≤ 13) (hpos : ∀ d ∈ X.shape, 0 < d) {e : List Nat}
    (hX : ∀ i, InB X.shape i → 0 ≤ X.at_ i) (hi : InB X.shape e) (hXe : 0 < X.at_ e) {st : TState}
    (h : TkOneAt X e st) {n : Nat} (hn : n < X.order) :
    ∃ s, NTUCKER.modeUpdate topSv X st.g st.toState n = .ok s ∧ TkOneAt X e { st with toState := s } := by
  have hA := tuckerShapes_iff.1 h.ok.factors.A
  have hAm := tuckerShapes_iff.1 h.ok.factors.Am
  have hpn := cp.getD_pos hpos hn
  have hrk : (List.replicate X.shape.length 1).getD n 0 = 1 := by
    have : n < X.shape.length := hn
    simp [List.getD_eq_getElem?_getD, this]
  have hrp : 0 < (List.replicate X.shape.length 1).getD n 0 := by rw [hrk]; exact Nat.one_pos
  have hF := tucker_ones.1 hA
  rcases NTUCKER.modeUpdate_total ht hA hAm (by simp) h.ok.g h2 h13 hn hpn hrp with ⟨s, eq⟩ | ⟨-, eq⟩
  · refine ⟨s, eq, ?_⟩
    obtain ⟨g1, -, g2, g3⟩ := NTUCKER.modeUpdate_fit ht h.ok.factors h.ok.g h.ok.nonneg h2 h13 hn hpos
      hX eq
    have gm : st.Am[n]? = some (st.Am[n]'(by rw [hAm.1]; exact hn)) := List.getElem?_eq_getElem _
    obtain ⟨Z, -, -, -, hL, -⟩ := NTUCKER.three_point ht hA (by simp) h.ok.g h2 h13 hn hpn hrp gm (hAm.2 n _ gm) eq
    have hI := NTUCKER.sweep_inv (l := [n]) h.ok.factors (by rw [List.foldlM_cons, eq]; rfl)
    obtain ⟨l, hl⟩ : ∃ l, s.L = Function.update st.L n l := by
      obtain ⟨V, XA, hf⟩ := NTUCKER.modeUpdate_inv eq
      obtain ⟨l, Z, -, -, -, -, -, rfl⟩ := factorStep_inv hf
      exact ⟨l, rfl⟩
    refine ⟨⟨g1, h.ok.g, h.ok.g0, h.ok.gm, h.ok.nonneg, h.ok.nonneg0⟩, ⟨?_, ?_⟩, fun k hk => ?_, fun k hk => ?_, h.core⟩
    · change 1 ≤ s.t0
      rw [hI.2.2.1]; exact h.mom.1
    · change s.t = s.t0 ∨ s.t = phi s.t0
      rw [hI.2.2.1, hI.2.1]; exact h.mom.2
    · change 0 < firstCol s.A k (e.getD k 0)
      by_cases hkn : k = n
      · subst hkn
        rw [g2 _ ((InB_iff_getD.1 hi).2 k hk)]
        exact mul_pos (inv_pos.2 h.core) (bestVec_at hi hX hXe (fun k hk a _ => h.nonneg k a) fun k hk _ => h.pos k hk)
      · rw [g3 k hkn]; exact h.pos k hk
    · change s.L k ≠ 0
      by_cases hkn : k = n
      · subst hkn; exact hL.ne'
      · rw [hl, Function.update_of_ne hkn]; exact h.lip k hk
  · exfalso
    have hn' : n < st.A.length := by rw [hA.1]; exact hn
    have hscale : ∀ t : ℝ, tkErr X st.g (st.A.set n (mat (X.shape.getD n 0) 1 fun a _ => t * firstCol st.A n a)) =
        normSqT X + -2 * (t * coreOne X st.g) * along X (firstCol st.A) +
          (t * coreOne X st.g) ^ 2 * boxSum X.shape fun i => outerEntry X.order (firstCol st.A) i ^ 2 := by
      intro t
      have hF' : FactorsFor X.shape 1 (st.A.set n (mat (X.shape.getD n 0) 1 fun a _ => t * firstCol st.A n a)) := by
        refine tucker_ones.1 ⟨by rw [List.length_set]; exact hA.1, fun k M hM => ?_⟩
        rw [List.getElem?_set] at hM
        by_cases hkn : n = k
        · subst hkn
          rw [if_pos rfl, if_pos hn'] at hM
          cases hM
          rw [hrk]; rfl
        · rw [if_neg hkn] at hM
          exact hA.2 k M hM
      unfold tkErr normSqT along
      rw [← boxSum_mul_left, ← boxSum_mul_left, ← boxSum_add, ← boxSum_add]
      refine boxSum_congr fun i hi => ?_
      rw [tucker_sum_one h.ok.g hF' hi]
      have : outerEntry X.order (firstCol (st.A.set n (mat (X.shape.getD n 0) 1 fun a _ => t * firstCol st.A n a))) i =
          t * outerEntry X.order (firstCol st.A) i := by
        rw [outerEntry_split _ hn, outerEntry_split _ hn, firstCol_get (List.getElem?_set_self hn'),
          at_mat _ ((InB_iff_getD.1 hi).2 n hn) (by omega)]
        rw [mul_assoc]
        congr 2
        exact Finset.prod_congr rfl fun k hk => firstCol_set_ne (Finset.ne_of_mem_erase hk) _ _
      rw [this]; ring
    have h1 := hscale 1
    have h2 := hscale 2
    rw [eq _ (by rw [hrk]; rfl)] at h1 h2
    have ha : 0 < along X (firstCol st.A) := boxSum_pos_at hi (fun i hi => mul_nonneg (hX i hi) (Finset.prod_nonneg fun k _ => h.nonneg k _)) (mul_pos hXe h.outer)
    have := mul_pos h.core ha
    nlinarith

theorem TkOneAt.main {topSv : Tensor ℝ → Res ℝ} (ht : TopSvOk topSv) {X : Tensor ℝ} (h2 : 2 ≤ X.order)
    (h13 : X.order ≤ 13) (hpos : ∀ d ∈ X.shape, 0 < d) {e : List Nat}
    (hX : ∀ i, InB X.shape i → 0 ≤ X.at_ i) (hi : InB X.shape e) (hXe : 0 < X.at_ e) {st : TState}
    (h : TkOneAt X e st) : ∃ st' o, NTUCKER.main topSv X st = .ok (st', o) ∧ TkOneAt X e st' := by
  have fold : ∀ l : List Nat, (∀ n ∈ l, n < X.order) → ∀ s, TkOneAt X e { st with toState := s } →
      ∃ s', l.foldlM (NTUCKER.modeUpdate topSv X st.g) s = .ok s' ∧ TkOneAt X e { st with toState := s' } := by
    intro l
    induction l with
    | nil => intro _ s h; exact ⟨s, rfl, h⟩
    | cons n l ih =>
        intro hl s h
        obtain ⟨s1, e1, h1⟩ := h.modeUpdate ht h2 h13 hpos hX hi hXe (hl n (by simp))
        obtain ⟨s2, e2, h2⟩ := ih (fun m hm => hl m (by simp [hm])) s1 h1
        exact ⟨s2, by rw [List.foldlM_cons]; exact (congrArg (· >>= _) e1).trans e2, h2⟩
  obtain ⟨s, eq, hs⟩ := fold (List.range X.order) (fun n hn => List.mem_range.1 hn) st.toState h
  obtain ⟨y1, y2, -⟩ := tk_full (by show 1 ≤ X.order; omega) h13 hs.ok.shapes (by simp) h.ok.g
  obtain ⟨⟨l, obj, rel⟩, hq⟩ := cp.scalars_total y2 ⟨e, hi, hXe.ne'⟩
  refine ⟨{ st with toState := tUpdate s }, ⟨s.A, none, modeProds st.g ((List.range X.shape.length).zip s.A), l, obj, rel⟩, ?_,
    ⟨⟨⟨hs.ok.factors.A, hs.ok.factors.A0, hs.ok.factors.Am, hs.ok.factors.nonneg, hs.ok.factors.nonneg0⟩, h.ok.g, h.ok.g0,
      h.ok.gm, h.ok.nonneg, h.ok.nonneg0⟩, MomentumOk.tUpdate hs.mom |>.1, hs.pos, hs.lip, h.core⟩⟩
  unfold NTUCKER.main
  rw [eq, ok_bind]
  rw [show NTUCKER.fullOf st.g s.A = _ from y1, ok_bind, hq]
  rfl

theorem TkOneAt.op1 {X : Tensor ℝ} {e : List Nat} {st : TState} (h : TkOneAt X e st) :
    ∃ st', NTUCKER.op1 X.order st = .ok st' ∧ TkOneAt X e st' := by
  obtain ⟨w, hw, -⟩ := weight_ok h.mom
  have : ∃ st', NTUCKER.op1 X.order st = .ok st' ∧ st'.L = st.L ∧ st'.g = st.g := by
    rcases extrapolate_range (w := w) (st := st.toState) ⟨h.ok.factors.A, h.ok.factors.A0, h.ok.factors.Am⟩ X.order
      (by simp [Tensor.order, tuckerShapes]) with ⟨-, k, hk, err, he⟩ | ⟨s, hs, -, -, -, -, hL, hL0, -⟩
    · unfold cappedWeight loss.fdiv at he
      rw [if_neg (h.lip k hk.le)] at he
      cases he
    · have hc : ∃ wk, cappedWeight s w X.order = .ok wk := by
        unfold cappedWeight loss.fdiv
        rw [hL, if_neg (h.lip _ (le_refl _))]
        exact ⟨_, rfl⟩
      obtain ⟨wk, hwk⟩ := hc
      have hx : ∃ m, extrapolate wk st.g st.g0 = .ok m ∧ m.shape = st.g.shape := by
        unfold extrapolate
        rw [ewise_same _ (by rw [h.ok.g, h.ok.g0]), ok_bind]
        exact ⟨_, ewise_same _ rfl, rfl⟩
      obtain ⟨m, hm, hms⟩ := hx
      refine ⟨{ toState := { s with wA := Function.update s.wA X.order wk, t0 := s.t }, g := st.g, g0 := st.g, gm := m }, ?_, hL, rfl⟩
      · unfold NTUCKER.op1
        rw [hw, ok_bind, hs, ok_bind, hwk, ok_bind, hm, ok_bind]
        unfold assignCore
        rw [if_pos (by rw [hms, h.ok.g, h.ok.gm]), ok_bind]
        rfl
  obtain ⟨st', eq, hL, hg⟩ := this
  obtain ⟨a, b, c, -⟩ := NTUCKER.op1_ok h.ok h.mom eq
  exact ⟨st', eq, a, b, by rw [c]; exact h.pos, by rw [hL]; exact h.lip, by rw [hg]; exact h.core⟩

theorem TkOneAt.op2 {X : Tensor ℝ} {e : List Nat} {st : TState} (h : TkOneAt X e st) : ∃ st', NTUCKER.op2 st = .ok st' ∧ TkOneAt X e st' := by
  refine ⟨_, rfl, ?_⟩
  obtain ⟨a, b, -⟩ := NTUCKER.op2_ok h.ok h.mom rfl
  exact ⟨a, b, h.pos, h.lip, h.core⟩

end bcu
end TD
