import Verif.Lemmas.AlsOnePos

/-! # One component, nonnegative data: `NCP_BCU` never breaks down -/
namespace TD
open Spec Tensor tf ops

theorem bestVec_at {X : Tensor ℝ} {e : List Nat} (he : InB X.shape e) (hX : ∀ i, InB X.shape i → 0 ≤ X.at_ i) (hXe : 0 < X.at_ e)
    {v : Nat → Nat → ℝ} (hv : ∀ k < X.order, ∀ a < X.shape.getD k 0, 0 ≤ v k a) {n : Nat}
    (hve : ∀ k < X.order, k ≠ n → 0 < v k (e.getD k 0)) : 0 < bestVec X v n (e.getD n 0) := by
  have hr : ∀ i, InB X.shape i → 0 ≤ restEntry X.order v n i := fun i hi => Finset.prod_nonneg fun k hk => by
    have hk' := Finset.mem_range.1 (Finset.mem_of_mem_erase hk)
    exact hv k hk' _ ((InB_iff_getD.1 hi).2 k hk')
  have hre : 0 < restEntry X.order v n e := Finset.prod_pos fun k hk =>
    hve k (Finset.mem_range.1 (Finset.mem_of_mem_erase hk)) (Finset.ne_of_mem_erase hk)
  have hs : ∀ f : List Nat → ℝ, (∀ i, InB X.shape i → 0 ≤ f i) → 0 < f e → 0 < sliceSum X.shape n (e.getD n 0) f := by
    intro f hf hfe
    have h0 : ∀ i, InB X.shape i → 0 ≤ if i.getD n 0 = e.getD n 0 then f i else 0 := fun i hi => by
      split
      · exact hf i hi
      · exact le_refl _
    refine lt_of_le_of_ne (loss.boxSum_nonneg _ h0) fun h => ?_
    have := (loss.boxSum_eq_zero X.shape h0).1 h.symm _ he
    rw [if_pos rfl] at this
    exact hfe.ne' this
  exact div_pos (hs _ (fun i hi => mul_nonneg (hX i hi) (hr i hi)) (mul_pos hXe hre))
    (hs _ (fun i hi => sq_nonneg _) (pow_pos hre 2))

namespace bcu

/-- The states of a training with one component that never break down on nonnegative data: the entries of the factors of
the modes `p` that the entry `e` is computed from are positive. -/
structure OneAt (X : Tensor ℝ) (e : List Nat) (p : Nat → Prop) (st : State) : Prop where
  ok : FactorsOk (X.shape.map fun d => [d, 1]) st
  mom : MomentumOk st
  pos : ∀ k < X.order, p k → 0 < firstCol st.A k (e.getD k 0)
  lip : ∀ k < X.order, st.L k ≠ 0

theorem OneAt.weaken {X : Tensor ℝ} {e : List Nat} {p q : Nat → Prop} {st : State} (h : OneAt X e p st) (hq : ∀ k, q k → p k) :
    OneAt X e q st := ⟨h.ok, h.mom, fun k hk hqk => h.pos k hk (hq k hqk), h.lip⟩

theorem OneAt.nonneg {X : Tensor ℝ} {e : List Nat} {p : Nat → Prop} {st : State} (h : OneAt X e p st) {k a : Nat} (hk : k < X.order)
    (ha : a < X.shape.getD k 0) : 0 ≤ firstCol st.A k a := by
  obtain ⟨f1, -, -⟩ := h.ok.factorsFor
  have hk' : k < st.A.length := by rw [f1.length]; exact hk
  rw [firstCol_get (List.getElem?_eq_getElem hk')]
  exact (h.ok.nonneg _ (List.getElem_mem hk')).at _

theorem OneAt.modeUpdate {topSv : Tensor ℝ → Res ℝ} (ht : TopSvOk topSv) {X : Tensor ℝ} (h2 : 2 ≤ X.order)
    (h25 : X.order ≤ 25) (hpos : ∀ d ∈ X.shape, 0 < d) {e : List Nat}
    (hX : ∀ i, InB X.shape i → 0 ≤ X.at_ i) (hi : InB X.shape e) (hXe : 0 < X.at_ e) {p : Nat → Prop} {st : State}
    (h : OneAt X e p st) {n : Nat} (hn : n < X.order) (hpn' : ∀ k, k ≠ n → p k) :
    ∃ st', NCP.modeUpdate topSv X st n = .ok st' ∧ OneAt X e (fun _ => True) st' := by
  obtain ⟨f1, f2, f3⟩ := h.ok.factorsFor
  have hpn := cp.getD_pos hpos hn
  obtain ⟨st', he⟩ := (NCP.modeUpdate_defined ht f1 f3 h2 h25 hn Nat.one_pos hpn).2 ⟨0, Nat.one_pos, fun M hM => by
    obtain ⟨k, hkn, hk⟩ := List.mem_eraseIdx_iff_getElem?.1 hM
    have hk' : k < X.order := by
      have := (List.getElem?_eq_some_iff.1 hk).1
      rw [f1.length] at this; exact this
    have hs := f1.get hk
    refine ⟨e.getD k 0, by rw [hs]; exact (InB_iff_getD.1 hi).2 k hk', ?_⟩
    have := h.pos k hk' (hpn' k hkn)
    rw [firstCol_get hk] at this
    exact this.ne'⟩
  refine ⟨st', he, ?_⟩
  obtain ⟨g1, g2, g3⟩ := NCP.modeUpdate_fit ht h.ok h2 h25 hn hpos hX he
  have gm : st.Am[n]? = some (st.Am[n]'(by rw [f3.length]; exact hn)) := List.getElem?_eq_getElem _
  obtain ⟨l, hl⟩ := NCP.modeUpdate_one ht f1 h2 h25 hn hpn gm (f3.get gm) he
  obtain ⟨Z, -, -, -, hL, -⟩ := NCP.three_point ht f1 h2 h25 hn Nat.one_pos hpn gm (f3.get gm) he
  refine ⟨g1, by rw [hl]; exact h.mom, fun k hk _ => ?_, fun k hk => ?_⟩
  · by_cases hkn : k = n
    · subst hkn
      rw [g2 _ ((InB_iff_getD.1 hi).2 k hk)]
      exact bestVec_at hi hX hXe (fun k hk a ha => h.nonneg hk ha) fun k hk hkn => h.pos k hk (hpn' k hkn)
    · rw [g3 k hkn]; exact h.pos k hk (hpn' k hkn)
  · by_cases hkn : k = n
    · subst hkn; exact hL.ne'
    · rw [hl]
      show Function.update st.L n l k ≠ 0
      rw [Function.update_of_ne hkn]
      exact h.lip k hk

theorem OneAt.main {topSv : Tensor ℝ → Res ℝ} (ht : TopSvOk topSv) {X : Tensor ℝ} (h2 : 2 ≤ X.order)
    (h25 : X.order ≤ 25) (hpos : ∀ d ∈ X.shape, 0 < d) {e : List Nat}
    (hX : ∀ i, InB X.shape i → 0 ≤ X.at_ i) (hi : InB X.shape e) (hXe : 0 < X.at_ e) {p : Nat → Prop} {st : State}
    (h : OneAt X e p st) (hp0 : ∀ k, k ≠ 0 → p k) : ∃ st' o, NCP.main topSv X st = .ok (st', o) ∧ OneAt X e (fun _ => True) st' := by
  have fold : ∀ l : List Nat, (∀ n ∈ l, n < X.order) → ∀ st, OneAt X e (fun _ => True) st →
      ∃ st', l.foldlM (NCP.modeUpdate topSv X) st = .ok st' ∧ OneAt X e (fun _ => True) st' := by
    intro l
    induction l with
    | nil => intro _ st h; exact ⟨st, rfl, h⟩
    | cons n l ih =>
        intro hl st h
        obtain ⟨s1, e1, h1⟩ := h.modeUpdate ht h2 h25 hpos hX hi hXe (hl n (by simp)) fun _ _ => trivial
        obtain ⟨s2, e2, h2⟩ := ih (fun m hm => hl m (by simp [hm])) s1 h1
        exact ⟨s2, by rw [List.foldlM_cons, e1]; exact e2, h2⟩
  obtain ⟨s, he, hs⟩ : ∃ s, (List.range X.order).foldlM (NCP.modeUpdate topSv X) st = .ok s ∧ OneAt X e (fun _ => True) s := by
    obtain ⟨s1, e1, h1⟩ := h.modeUpdate ht h2 h25 hpos hX hi hXe (n := 0) (by omega) hp0
    obtain ⟨N, hN⟩ : ∃ N, X.order = N + 1 := ⟨X.order - 1, by omega⟩
    obtain ⟨s2, e2, h2⟩ := fold ((List.range N).map Nat.succ) (fun n hn => by
      obtain ⟨m, hm, rfl⟩ := List.mem_map.1 hn
      have := List.mem_range.1 hm
      omega) s1 h1
    exact ⟨s2, by rw [hN, List.range_succ_eq_map, List.foldlM_cons, e1]; exact e2, h2⟩
  have hne : X.shape ≠ [] := by intro e; rw [Tensor.order, e] at h2; simp at h2
  obtain ⟨Y, y1, y2, -⟩ := NCP.fullOf_spec hs.ok.factorsFor.1 hne h25
  obtain ⟨⟨l, obj, rel⟩, hq⟩ := cp.scalars_total y2 ⟨_, hi, hXe.ne'⟩
  refine ⟨tUpdate s, ⟨s.A, none, Y, l, obj, rel⟩, ?_, ⟨⟨hs.ok.A, hs.ok.A0, hs.ok.Am, hs.ok.nonneg, hs.ok.nonneg0⟩,
    hs.mom.tUpdate.1, hs.pos, hs.lip⟩⟩
  unfold NCP.main
  rw [he, ok_bind, y1, ok_bind, hq]
  rfl

theorem OneAt.op1 {X : Tensor ℝ} {e : List Nat} {p : Nat → Prop} {st : State} (h : OneAt X e p st) : ∃ st', NCP.op1 X.order st = .ok st' ∧ OneAt X e p st' := by
  obtain ⟨w, hw, -⟩ := weight_ok h.mom
  have : ∃ st', NCP.op1 X.order st = .ok st' ∧ st'.L = st.L := by
    rcases extrapolate_range (w := w) (st := st) ⟨h.ok.A, h.ok.A0, h.ok.Am⟩ X.order (by simp [Tensor.order]) with ⟨-, k, hk, _, he⟩ |
      ⟨s, hs, -, -, -, -, hL, -⟩
    · unfold cappedWeight loss.fdiv at he
      rw [if_neg (h.lip k hk)] at he
      cases he
    · refine ⟨{ s with t0 := s.t }, ?_, hL⟩
      unfold NCP.op1
      rw [hw, ok_bind, hs]
      rfl
  obtain ⟨st', he, hL⟩ := this
  obtain ⟨a, b, c, -⟩ := NCP.op1_ok h.ok h.mom he
  exact ⟨st', he, a, b, by rw [c]; exact h.pos, by rw [hL]; exact h.lip⟩

theorem OneAt.op2 {X : Tensor ℝ} {e : List Nat} {p : Nat → Prop} {st : State} (h : OneAt X e p st) : ∃ st', NCP.op2 st = .ok st' ∧ OneAt X e p st' := by
  refine ⟨_, rfl, ?_⟩
  obtain ⟨a, b, -⟩ := NCP.op2_ok h.ok h.mom rfl
  exact ⟨a, b, h.pos, h.lip⟩

end bcu
end TD
