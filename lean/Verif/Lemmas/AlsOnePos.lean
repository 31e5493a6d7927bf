import Verif.Lemmas.AlsOneCp
import Verif.Lemmas.RunsSeq

/-! # One component, positive data: `NCP_BCU` never breaks down -/
namespace TD
open Spec Tensor tf ops

theorem bestVec_pos {X : Tensor ℝ} (hpos : ∀ d ∈ X.shape, 0 < d) (hX : ∀ i, InB X.shape i → 0 < X.at_ i)
    {v : Nat → Nat → ℝ} (hv : ∀ k < X.order, ∀ a < X.shape.getD k 0, 0 < v k a) {n a : Nat} (hn : n < X.order)
    (ha : a < X.shape.getD n 0) : 0 < bestVec X v n a := by
  have hr : ∀ i, InB X.shape i → 0 < restEntry X.order v n i := fun i hi => Finset.prod_pos fun k hk => by
    have hk' := Finset.mem_range.1 (Finset.mem_of_mem_erase hk)
    exact hv k hk' _ ((InB_iff_getD.1 hi).2 k hk')
  have hs : ∀ f : List Nat → ℝ, (∀ i, InB X.shape i → 0 < f i) → 0 < sliceSum X.shape n a f := by
    intro f hf
    have h0 : ∀ i, InB X.shape i → 0 ≤ if i.getD n 0 = a then f i else 0 := fun i hi => by
      split
      · exact (hf i hi).le
      · exact le_refl _
    refine lt_of_le_of_ne (loss.boxSum_nonneg _ h0) fun e => ?_
    have hi : InB X.shape ((List.replicate X.shape.length 0).set n a) := by
      refine InB_iff_getD.2 ⟨by simp, fun k hk => ?_⟩
      have hp := cp.getD_pos hpos hk
      by_cases hkn : n = k
      · subst hkn
        rw [List.getD_eq_getElem?_getD, List.getElem?_set_self (by simpa using hk)]
        exact ha
      · rw [List.getD_eq_getElem?_getD, List.getElem?_set_ne hkn, List.getElem?_replicate, if_pos hk]
        exact hp
    have := (loss.boxSum_eq_zero X.shape h0).1 e.symm _ hi
    rw [if_pos (by
      rw [List.getD_eq_getElem?_getD, List.getElem?_set_self (by rw [List.length_replicate]; exact hn)]; rfl)] at this
    exact (hf _ hi).ne' this
  exact div_pos (hs _ fun i hi => mul_pos (hX i hi) (hr i hi)) (hs _ fun i hi => by have := hr i hi; positivity)

namespace bcu

/-- The states of a training with one component that never break down. -/
structure OnePos (X : Tensor ℝ) (st : State) : Prop where
  ok : FactorsOk (X.shape.map fun d => [d, 1]) st
  mom : MomentumOk st
  pos : ∀ k < X.order, ∀ a < X.shape.getD k 0, 0 < firstCol st.A k a
  lip : ∀ k < X.order, st.L k ≠ 0

theorem OnePos.modeUpdate {topSv : Tensor ℝ → Res ℝ} (ht : TopSvOk topSv) {X : Tensor ℝ} (h2 : 2 ≤ X.order)
    (h25 : X.order ≤ 25) (hpos : ∀ d ∈ X.shape, 0 < d) (hX : ∀ i, InB X.shape i → 0 < X.at_ i) {st : State}
    (h : OnePos X st) {n : Nat} (hn : n < X.order) : ∃ st', NCP.modeUpdate topSv X st n = .ok st' ∧ OnePos X st' := by
  obtain ⟨f1, f2, f3⟩ := h.ok.factorsFor
  have hpn := cp.getD_pos hpos hn
  obtain ⟨st', e⟩ := (NCP.modeUpdate_defined ht f1 f3 h2 h25 hn Nat.one_pos hpn).2 ⟨0, Nat.one_pos, fun M hM => by
    obtain ⟨k, hk⟩ := List.getElem?_of_mem (List.mem_of_mem_eraseIdx hM)
    have hk' : k < X.order := by
      have := (List.getElem?_eq_some_iff.1 hk).1
      rw [f1.length] at this; exact this
    have hs := f1.get hk
    refine ⟨0, by rw [hs]; exact cp.getD_pos hpos hk', ?_⟩
    have := h.pos k hk' 0 (cp.getD_pos hpos hk')
    rw [firstCol_get hk] at this
    exact this.ne'⟩
  refine ⟨st', e, ?_⟩
  obtain ⟨g1, g2, g3⟩ := NCP.modeUpdate_fit ht h.ok h2 h25 hn hpos (fun i hi => (hX i hi).le) e
  have gm : st.Am[n]? = some (st.Am[n]'(by rw [f3.length]; exact hn)) := List.getElem?_eq_getElem _
  obtain ⟨l, hl⟩ := NCP.modeUpdate_one ht f1 h2 h25 hn hpn gm (f3.get gm) e
  obtain ⟨Z, -, -, -, hL, -⟩ := NCP.three_point ht f1 h2 h25 hn Nat.one_pos hpn gm (f3.get gm) e
  refine ⟨g1, by rw [hl]; exact h.mom, fun k hk a ha => ?_, fun k hk => ?_⟩
  · by_cases hkn : k = n
    · subst hkn
      rw [g2 a ha]
      exact bestVec_pos hpos hX h.pos hn ha
    · rw [g3 k hkn]; exact h.pos k hk a ha
  · by_cases hkn : k = n
    · subst hkn; exact hL.ne'
    · rw [hl]
      show Function.update st.L n l k ≠ 0
      rw [Function.update_of_ne hkn]
      exact h.lip k hk

theorem OnePos.main {topSv : Tensor ℝ → Res ℝ} (ht : TopSvOk topSv) {X : Tensor ℝ} (h2 : 2 ≤ X.order)
    (h25 : X.order ≤ 25) (hpos : ∀ d ∈ X.shape, 0 < d) (hX : ∀ i, InB X.shape i → 0 < X.at_ i) {st : State}
    (h : OnePos X st) : ∃ st' o, NCP.main topSv X st = .ok (st', o) ∧ OnePos X st' := by
  have fold : ∀ l : List Nat, (∀ n ∈ l, n < X.order) → ∀ st, OnePos X st →
      ∃ st', l.foldlM (NCP.modeUpdate topSv X) st = .ok st' ∧ OnePos X st' := by
    intro l
    induction l with
    | nil => intro _ st h; exact ⟨st, rfl, h⟩
    | cons n l ih =>
        intro hl st h
        obtain ⟨s1, e1, h1⟩ := h.modeUpdate ht h2 h25 hpos hX (hl n (by simp))
        obtain ⟨s2, e2, h2⟩ := ih (fun m hm => hl m (by simp [hm])) s1 h1
        exact ⟨s2, by rw [List.foldlM_cons, e1]; exact e2, h2⟩
  obtain ⟨s, e, hs⟩ := fold (List.range X.order) (fun n hn => List.mem_range.1 hn) st h
  have hne : X.shape ≠ [] := by intro e; rw [Tensor.order, e] at h2; simp at h2
  obtain ⟨Y, y1, y2, -⟩ := NCP.fullOf_spec hs.ok.factorsFor.1 hne h25
  have h0 : InB X.shape (unravel X.shape 0) := unravel_inB (List.prod_pos hpos)
  obtain ⟨⟨l, obj, rel⟩, hq⟩ := cp.scalars_total y2 ⟨_, h0, ne_of_gt (hX _ h0)⟩
  refine ⟨tUpdate s, ⟨s.A, none, Y, l, obj, rel⟩, ?_, ⟨⟨hs.ok.A, hs.ok.A0, hs.ok.Am, hs.ok.nonneg, hs.ok.nonneg0⟩,
    hs.mom.tUpdate.1, hs.pos, hs.lip⟩⟩
  unfold NCP.main
  rw [e, ok_bind, y1, ok_bind, hq]
  rfl

theorem OnePos.op1 {X : Tensor ℝ} {st : State} (h : OnePos X st) : ∃ st', NCP.op1 X.order st = .ok st' ∧ OnePos X st' := by
  obtain ⟨w, hw, -⟩ := weight_ok h.mom
  have : ∃ st', NCP.op1 X.order st = .ok st' ∧ st'.L = st.L := by
    rcases extrapolate_range (w := w) (st := st) ⟨h.ok.A, h.ok.A0, h.ok.Am⟩ X.order (by simp [Tensor.order]) with ⟨-, k, hk, e, he⟩ |
      ⟨s, hs, -, -, -, -, hL, -⟩
    · unfold cappedWeight loss.fdiv at he
      rw [if_neg (h.lip k hk)] at he
      cases he
    · refine ⟨{ s with t0 := s.t }, ?_, hL⟩
      unfold NCP.op1
      rw [hw, ok_bind, hs]
      rfl
  obtain ⟨st', e, hL⟩ := this
  obtain ⟨a, b, c, -⟩ := NCP.op1_ok h.ok h.mom e
  exact ⟨st', e, a, b, by rw [c]; exact h.pos, by rw [hL]; exact h.lip⟩

theorem OnePos.op2 {X : Tensor ℝ} {st : State} (h : OnePos X st) : ∃ st', NCP.op2 st = .ok st' ∧ OnePos X st' := by
  refine ⟨_, rfl, ?_⟩
  obtain ⟨a, b, -⟩ := NCP.op2_ok h.ok h.mom rfl
  exact ⟨a, b, h.pos, h.lip⟩

end bcu
end TD
