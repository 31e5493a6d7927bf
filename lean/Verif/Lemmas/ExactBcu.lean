import Verif.Lemmas.EndlessBcu
import Verif.Lemmas.RunsSeq

/-! # An exact fit is kept by `NCP_BCU` and `NTUCKER_BCU` -/
namespace TD.bcu
open Spec Tensor tf ops fact

/-- No Lipschitz constant is zero after a sweep if none was before. -/
theorem sweep_lip_ne {f : State → Nat → Res State} {topSv : Tensor ℝ → Res ℝ}
    (hf : ∀ {s n s'}, f s n = .ok s' → ∃ V XA, factorStep topSv s n V XA = .ok s') {N : Nat} {l : List Nat} {st st' : State}
    (h0 : ∀ k < N, st.L k ≠ 0) (h : l.foldlM f st = .ok st') : ∀ k < N, st'.L k ≠ 0 := by
  refine foldlM_inv (P := fun s : State => ∀ k < N, s.L k ≠ 0) (Q := fun _ => True) ?_ (fun _ _ => trivial) h0 h
  intro s n s' hs _ e k hk
  obtain ⟨V, XA, e⟩ := hf e
  obtain ⟨l, Z, -, hl, -, -, -, rfl⟩ := factorStep_inv e
  show Function.update s.L n l k ≠ 0
  by_cases hkn : k = n
  · subst hkn; rw [Function.update_self]; exact hl
  · rw [Function.update_of_ne hkn]; exact hs k hk

/-- Extrapolating from a point that equals its reference does nothing. -/
theorem still_list {A Am A0 : List (Tensor ℝ)} {N : Nat} {w : Nat → ℝ} (l1 : A.length = N) (l2 : Am.length = N) (l3 : A0.length = N)
    (h : ∀ k < N, ∃ a a0 m, A[k]? = some a ∧ A[k]? = some a0 ∧ Am[k]? = some m ∧ A0[k]? = some a ∧ m.shape = a.shape ∧
      ∀ i, InB a.shape i → m.at_ i = a.at_ i + w k * (a.at_ i - a0.at_ i)) : Am = A ∧ A0 = A := by
  constructor
  all_goals
    refine List.ext_getElem? fun k => ?_
    by_cases hk : k < N
    · obtain ⟨a, a0, m, e1, e2, e3, e4, e5, e6⟩ := h k hk
      rw [e1, Option.some.injEq] at e2
      subst e2
      first
      | (rw [e3, e1, Option.some.injEq]
         refine ext_at e5 fun i hi => ?_
         rw [e6 i (by rw [← e5]; exact hi)]; ring)
      | rw [e4, e1]
    · rw [List.getElem?_eq_none (by omega), List.getElem?_eq_none (by omega)]

/-! ### NCP -/

/-- The variables of `NCP_BCU` at an exact fit `F`. -/
structure Still (X : Tensor ℝ) (R : Nat) (F : List (Tensor ℝ)) (st : State) : Prop where
  ok : FactorsOk (X.shape.map fun d => [d, R]) st
  mom : MomentumOk st
  A : st.A = F
  A0 : st.A0 = F
  Am : st.Am = F
  lip : ∀ k < X.order, st.L k ≠ 0

theorem Still.main {topSv : Tensor ℝ → Res ℝ} (ht : TopSvOk topSv) {X : Tensor ℝ} {R : Nat} {A : List (Tensor ℝ)} (h2 : 2 ≤ X.order)
    (h25 : X.order ≤ 25) (hR : 0 < R) (hpos : ∀ d ∈ X.shape, 0 < d) (hX : ∃ i, InB X.shape i ∧ X.at_ i ≠ 0)
    (h0 : cpErr X R A (fun _ => 1) = 0) {st : State} (h : Still X R A st) :
    ∃ st' o, NCP.main topSv X st = .ok (st', o) ∧ Still X R A st' := by
  have hne : X.shape ≠ [] := by intro e; unfold order at h2; rw [e] at h2; simp at h2
  obtain ⟨st', o, hm, -⟩ := NCP.main_exact ht h2 h25 hR hpos hX h.ok (h.Am.trans h.A.symm) (by rw [h.A]; exact h0)
  obtain ⟨a, b, -, c, d, -⟩ := NCP.main_ok h.ok hne h25 hm
  have hA := NCP.main_optimal ht h.ok h2 h25 hR hpos (h.Am.trans h.A.symm) hm (by
    intro n _ B _ _
    rw [h.A, h0]
    exact loss.boxSum_nonneg _ fun _ _ => sq_nonneg _)
  obtain ⟨s, e, rfl, -⟩ := NCP.main_inv hm
  exact ⟨_, o, hm, a, (b h.mom).1, hA.trans h.A, d.trans h.A0, c.trans h.Am,
    fun k hk => (sweep_lip_ne NCP.modeUpdate_inv h.lip e k hk : s.L k ≠ 0)⟩

theorem Still.op1 {X : Tensor ℝ} {R : Nat} {A : List (Tensor ℝ)} {st : State} (h : Still X R A st) :
    ∃ st', NCP.op1 X.order st = .ok st' ∧ Still X R A st' := by
  obtain ⟨w, hw, -⟩ := weight_ok h.mom
  have : ∃ st', NCP.op1 X.order st = .ok st' ∧ st'.L = st.L := by
    rcases extrapolate_range (w := w) (st := st) ⟨h.ok.A, h.ok.A0, h.ok.Am⟩ X.order (by simp [Tensor.order]) with ⟨-, k, hk, e, he⟩ |
      ⟨s, hs, -, -, -, -, hL, -⟩
    · unfold cappedWeight loss.fdiv at he
      rw [if_neg (h.lip k hk)] at he
      cases he
    · refine ⟨{ s with t0 := s.t }, ?_, hL⟩
      unfold NCP.op1
      rw [hw, ok_bind, hs]
      rfl
  obtain ⟨st', e, hL⟩ := this
  obtain ⟨a, b, c, -, -, d⟩ := NCP.op1_ok h.ok h.mom e
  obtain ⟨e1, e2⟩ := still_list (A := A) (w := st'.wA) (by rw [← h.A]; exact h.ok.factorsFor.1.length) a.factorsFor.2.2.length
    a.factorsFor.2.1.length (fun k hk => by
      obtain ⟨-, -, -, d⟩ := d k hk
      rw [h.A, h.A0] at d
      exact d)
  exact ⟨st', e, a, b, c.trans h.A, e2, e1, by rw [hL]; exact h.lip⟩

theorem Still.op2 {X : Tensor ℝ} {R : Nat} {A : List (Tensor ℝ)} {st : State} (h : Still X R A st) :
    ∃ st', NCP.op2 st = .ok st' ∧ Still X R A st' := by
  refine ⟨_, rfl, ?_⟩
  obtain ⟨a, b, -⟩ := NCP.op2_ok h.ok h.mom rfl
  exact ⟨a, b, h.A, h.A0, h.A0, h.lip⟩

/-! ### NTUCKER -/

/-- The variables of `NTUCKER_BCU` at an exact fit `F`, `G`. -/
structure TStill (X : Tensor ℝ) (ranks : List Nat) (F : List (Tensor ℝ)) (G : Tensor ℝ) (st : TState) : Prop where
  ok : TkOk X.shape ranks st
  mom : MomentumOk st.toState
  A : st.A = F
  A0 : st.A0 = F
  Am : st.Am = F
  g : st.g = G
  g0 : st.g0 = G
  gm : st.gm = G
  lip : ∀ k < X.order + 1, st.L k ≠ 0

theorem TStill.core {topSv : Tensor ℝ → Res ℝ} (ht : TopSvOk topSv) {X g : Tensor ℝ} {ranks : List Nat} {A : List (Tensor ℝ)}
    (hr : ranks.length = X.shape.length) (h2 : 2 ≤ X.order) (h13 : X.order ≤ 13) (hrp : ∀ d ∈ ranks, 0 < d)
    (hX : ∃ i, InB X.shape i ∧ X.at_ i ≠ 0) (h0 : tkErr X g A = 0) {st : TState} (h : TStill X ranks A g st) :
    ∃ st' k, NTUCKER.core topSv X st = .ok (st', k) ∧ TStill X ranks A g st' := by
  rcases NTUCKER.core_spec ht h.ok hr (by omega) h13 hrp with ⟨-, M, hM, hz⟩ | ⟨-, Z, l, e, l0, z1, z2, z3⟩
  · obtain ⟨a, ha, b, hb, hne⟩ := tkErr_zero_factors hr h.ok.shapes h.ok.g hX (by rw [h.A, h.g]; exact h0) M hM
    exact absurd (hz a ha b hb) hne
  · obtain ⟨c1, c2, -⟩ := NTUCKER.core_ok h.ok e
    have hd := z3 st.g h.ok.g h.ok.nonneg
    rw [h.gm, h.g, h.A, distSqT_self, h0] at hd
    have h3 : 0 ≤ tkErr X Z A := loss.boxSum_nonneg _ fun _ _ => sq_nonneg _
    have hZ : Z = g := distSqT_zero (by rw [z1, ← h.g]; exact h.ok.g.symm) (by nlinarith)
    refine ⟨_, _, e, c1, c2 h.mom, h.A, h.A0, h.Am, hZ, h.g0, h.gm, fun k hk => ?_⟩
    show Function.update st.L X.order l k ≠ 0
    by_cases hkn : k = X.order
    · subst hkn; rw [Function.update_self]; exact l0.ne'
    · rw [Function.update_of_ne hkn]; exact h.lip k hk

theorem TStill.main {topSv : Tensor ℝ → Res ℝ} (ht : TopSvOk topSv) {X g : Tensor ℝ} {ranks : List Nat} {A : List (Tensor ℝ)}
    (hr : ranks.length = X.shape.length) (h2 : 2 ≤ X.order) (h13 : X.order ≤ 13) (hrp : ∀ d ∈ ranks, 0 < d)
    (hpos : ∀ d ∈ X.shape, 0 < d)
    (hX : ∃ i, InB X.shape i ∧ X.at_ i ≠ 0) (h0 : tkErr X g A = 0) {st : TState} (h : TStill X ranks A g st) :
    ∃ st' o, NTUCKER.main topSv X st = .ok (st', o) ∧ TStill X ranks A g st' := by
  have hXn : 0 < normSqT X := by
    obtain ⟨i, hi, hne⟩ := hX
    refine lt_of_le_of_ne (loss.boxSum_nonneg _ fun _ _ => sq_nonneg _) fun hz => hne ?_
    have := (loss.boxSum_eq_zero X.shape (fun i _ => sq_nonneg (X.at_ i))).1 hz.symm i hi
    exact pow_eq_zero_iff (by norm_num) |>.1 this
  obtain ⟨s2, e2, f2⟩ := NTUCKER.sweep_exact ht hr h.ok.g h2 h13 hrp hpos hXn List.nodup_range
    (fun n hn => List.mem_range.1 hn) h.ok.factors (fun n _ => by rw [h.Am, h.A]) (by rw [h.g, h.A]; exact h0)
  obtain ⟨f1, -⟩ := NTUCKER.sweep_inv h.ok.factors e2
  obtain ⟨y1, y2, -⟩ := tk_full (by unfold order at h2; omega) h13 (tuckerShapes_iff.1 f1.A) hr h.ok.g
  obtain ⟨⟨l, obj, rel⟩, q⟩ := cp.scalars_total y2 hX
  have hm : NTUCKER.main topSv X st = .ok ({ st with toState := tUpdate s2 }, ⟨s2.A, none,
      modeProds st.g ((List.range X.shape.length).zip s2.A), l, obj, rel⟩) := by
    unfold NTUCKER.main
    rw [e2, ok_bind, y1, ok_bind, q, ok_bind]; rfl
  obtain ⟨a, b, -, c1, c2, c3, c4, -⟩ := NTUCKER.main_ok h.ok hr (by omega) h13 hm
  obtain ⟨-, hL, -, -, c5⟩ := NTUCKER.main_lip hm
  have l1 : A.length = X.order := by rw [← h.A]; exact h.ok.shapes.1
  have l2 : s2.A.length = X.order := a.shapes.1
  -- mode by mode nothing moves
  have hmode : ∀ n ≤ X.order, s2.A.take n = A.take n := by
    intro n
    induction n with
    | zero => intro _; simp
    | succ n ih =>
        intro hn
        have hn' : n < X.order := by omega
        have eA : A[n]? = some (A[n]'(by omega)) := List.getElem?_eq_getElem _
        have eZ : s2.A[n]? = some (s2.A[n]'(by omega)) := List.getElem?_eq_getElem _
        obtain ⟨l, l0, -, hl⟩ := NTUCKER.main_stages ht h.ok hr h2 h13 hpos hrp hm hn' (by rw [h.Am]; exact eA) eZ
        have hsh : (A[n]'(by omega)).shape = [X.shape.getD n 0, ranks.getD n 0] := by
          have := h.ok.shapes.2 n (A[n]'(by omega)) (by rw [h.A]; exact eA)
          exact this
        have hshZ : (s2.A[n]'(by omega)).shape = [X.shape.getD n 0, ranks.getD n 0] := a.shapes.2 n _ eZ
        have hb := hl _ hsh (h.ok.factors.nonneg _ (by rw [h.A]; exact List.getElem_mem _))
        have hat : (atMode st.A s2.A n).set n (A[n]'(by omega)) = A := by
          have : atMode st.A s2.A n = A := by
            rw [h.A, TD.atMode, ih (by omega), List.take_append_drop]
          rw [this, List.set_getElem_self]
        change tkErr X st.g (atMode st.A s2.A (n + 1)) ≤ tkErr X st.g ((atMode st.A s2.A n).set n _) + _ - _ at hb
        rw [hat, h.g, h0, distSqT_self] at hb
        have h3 : 0 ≤ tkErr X g (atMode st.A s2.A (n + 1)) := loss.boxSum_nonneg _ fun _ _ => sq_nonneg _
        have hZ : s2.A[n]'(by omega) = A[n]'(by omega) := distSqT_zero (by rw [hshZ, hsh]) (by nlinarith)
        rw [List.take_succ_eq_append_getElem (by omega), List.take_succ_eq_append_getElem (by omega), ih (by omega), hZ]
  have hA : s2.A = A := by
    have := hmode X.order (le_refl _)
    rwa [List.take_of_length_le (by omega), List.take_of_length_le (by omega)] at this
  refine ⟨_, _, hm, a, (b h.mom).1, hA, c2.trans h.A0, c1.trans h.Am, h.g, h.g0, h.gm, fun k hk => ?_⟩
  by_cases hkn : k = X.order
  · subst hkn; rw [hL]; exact h.lip _ hk
  · exact sweep_lip_ne NTUCKER.modeUpdate_inv (N := X.order) (fun k hk => h.lip k (by omega)) e2 k (by omega)

theorem TStill.op1 {X g : Tensor ℝ} {ranks : List Nat} {A : List (Tensor ℝ)}
    {st : TState} (h : TStill X ranks A g st) : ∃ st', NTUCKER.op1 X.order st = .ok st' ∧ TStill X ranks A g st' := by
  obtain ⟨w, hw, -⟩ := weight_ok h.mom
  have : ∃ st', NTUCKER.op1 X.order st = .ok st' := by
    rcases extrapolate_range (w := w) (st := st.toState) ⟨h.ok.factors.A, h.ok.factors.A0, h.ok.factors.Am⟩ X.order
      (by simp [Tensor.order, tuckerShapes]) with ⟨-, k, hk, e, he⟩ | ⟨s, hs, -, -, -, -, hL, -⟩
    · unfold cappedWeight loss.fdiv at he
      rw [if_neg (h.lip k (by omega))] at he
      cases he
    · have hw' : ∃ wk, cappedWeight s w X.order = .ok wk := by
        unfold cappedWeight loss.fdiv
        rw [hL, if_neg (h.lip _ (by omega))]
        exact ⟨_, rfl⟩
      obtain ⟨wk, hwk⟩ := hw'
      have hx : ∃ m, extrapolate wk st.g st.g0 = .ok m ∧ m.shape = st.g.shape := by
        unfold extrapolate
        rw [ewise_same _ (by rw [h.ok.g, h.ok.g0]), ok_bind]
        exact ⟨_, ewise_same _ rfl, rfl⟩
      obtain ⟨m, hm, hms⟩ := hx
      unfold NTUCKER.op1 assignCore
      rw [hw, ok_bind, hs, ok_bind, hwk, ok_bind, hm, ok_bind, if_pos (by rw [hms, h.ok.g, h.ok.gm]), ok_bind]
      exact ⟨_, rfl⟩
  obtain ⟨st', e⟩ := this
  obtain ⟨a, b, c, -, -, d1, d2, d, -, -, -, dg⟩ := NTUCKER.op1_ok h.ok h.mom e
  obtain ⟨e1, e2⟩ := still_list (A := A) (w := st'.wA) (N := X.order) (by rw [← h.A]; exact h.ok.shapes.1)
    (tuckerShapes_iff.1 a.factors.Am).1 (tuckerShapes_iff.1 a.factors.A0).1 (fun k hk => by
      obtain ⟨-, -, -, d⟩ := d k hk
      rw [h.A, h.A0] at d
      exact d)
  refine ⟨st', e, a, b, c.trans h.A, e2, e1, d1.trans h.g, d2.trans h.g, ?_, by rw [(NTUCKER.op1_weight e).2]; exact h.lip⟩
  rw [h.g, h.g0] at dg
  have hs : st'.gm.shape = g.shape := by rw [a.gm, ← h.g]; exact h.ok.g.symm
  refine ext_at hs fun i hi => ?_
  rw [dg i (by rw [← hs]; exact hi)]; ring

theorem TStill.op2 {X g : Tensor ℝ} {ranks : List Nat} {A : List (Tensor ℝ)}
    {st : TState} (h : TStill X ranks A g st) : ∃ st', NTUCKER.op2 st = .ok st' ∧ TStill X ranks A g st' := by
  refine ⟨_, rfl, ?_⟩
  obtain ⟨a, b, -⟩ := NTUCKER.op2_ok h.ok h.mom rfl
  exact ⟨a, b, h.A, h.A0, h.A0, h.g, h.g0, h.g0, h.lip⟩

end TD.bcu
