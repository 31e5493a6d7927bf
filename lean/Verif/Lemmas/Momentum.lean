import Verif.Lemmas.NTuckerRun
import Verif.Spec.Momentum

/-!
# Lipschitz constants and weights along a step
-/
namespace TD.bcu
open TD Tensor Spec tf ops

theorem extrapolateAll_weight {w : ℝ} : ∀ {l : List Nat} {st st' : State}, l.Nodup →
    l.foldlM (extrapolateMode w) st = .ok st' →
    (∀ k ∈ l, st'.wA k = min w (Real.sqrt (st.L0 k / st.L k))) ∧ st'.L = st.L ∧ st'.L0 = st.L0 := by
  intro l
  induction l with
  | nil => intro st st' _ h; cases h; exact ⟨fun k hk => absurd hk (by simp), rfl, rfl⟩
  | cons k l ih =>
      intro st st' hnd h
      rw [List.foldlM_cons] at h
      cases e : extrapolateMode w st k with
      | error e' => rw [e] at h; cases h
      | ok s1 =>
          rw [e, ok_bind] at h
          obtain ⟨wk, a, a0, m, c1, -, -, -, -, -, -, rfl⟩ := extrapolateMode_inv e
          obtain ⟨hkl, hnd'⟩ := List.nodup_cons.1 hnd
          obtain ⟨f1, f2, f3⟩ := ih hnd' h
          refine ⟨fun j hj => ?_, f2, f3⟩
          by_cases hjk : j = k
          · subst hjk
            have hw : wk = min w (Real.sqrt (st.L0 j / st.L j)) := by
              unfold cappedWeight loss.fdiv at c1
              by_cases hL : st.L j = 0
              · rw [if_pos hL] at c1; cases c1
              · rw [if_neg hL] at c1; cases c1; rfl
            have : ∀ {l : List Nat} {s s' : State}, j ∉ l → l.foldlM (extrapolateMode w) s = .ok s' → s'.wA j = s.wA j := by
              intro l
              induction l with
              | nil => intro s s' _ h; cases h; rfl
              | cons k l ih =>
                  intro s s' hj h
                  rw [List.foldlM_cons] at h
                  cases e : extrapolateMode w s k with
                  | error e' => rw [e] at h; cases h
                  | ok s1 =>
                      rw [e, ok_bind] at h
                      obtain ⟨wk, a, a0, m, -, -, -, -, -, -, -, rfl⟩ := extrapolateMode_inv e
                      simp only [List.mem_cons, not_or] at hj
                      rw [ih hj.2 h]
                      exact Function.update_of_ne hj.1 _ _
            rw [this hkl h, ← hw]
            exact Function.update_self _ _ _
          · rcases List.mem_cons.1 hj with h | h
            · exact absurd h hjk
            · exact f1 j h

/-- A sweep remembers the Lipschitz constants of the previous sweep. -/
theorem sweep_lip {f : State → Nat → Res State} {topSv : Tensor ℝ → Res ℝ}
    (hf : ∀ {s n s'}, f s n = .ok s' → ∃ V XA, factorStep topSv s n V XA = .ok s') :
    ∀ {l : List Nat} {st st' : State}, l.Nodup → l.foldlM f st = .ok st' →
      (∀ k ∈ l, st'.L0 k = st.L k) ∧ ∀ k, k ∉ l → st'.L0 k = st.L0 k ∧ st'.L k = st.L k := by
  intro l
  induction l with
  | nil => intro st st' _ h; cases h; exact ⟨fun k hk => absurd hk (by simp), fun _ _ => ⟨rfl, rfl⟩⟩
  | cons n l ih =>
      intro st st' hnd h
      rw [List.foldlM_cons] at h
      cases e : f st n with
      | error e' => rw [e] at h; cases h
      | ok s1 =>
          rw [e, ok_bind] at h
          obtain ⟨V, XA, e⟩ := hf e
          obtain ⟨l', Z, -, -, -, -, -, rfl⟩ := factorStep_inv e
          obtain ⟨hkl, hnd'⟩ := List.nodup_cons.1 hnd
          obtain ⟨f1, f2⟩ := ih hnd' h
          constructor
          · intro k hk
            by_cases hkn : k = n
            · subst hkn
              rw [(f2 k hkl).1]
              exact Function.update_self _ _ _
            · rcases List.mem_cons.1 hk with h | h
              · exact absurd h hkn
              · rw [f1 k h]
                exact Function.update_of_ne hkn _ _
          · intro k hk
            simp only [List.mem_cons, not_or] at hk
            rw [(f2 k hk.2).1, (f2 k hk.2).2]
            exact ⟨Function.update_of_ne hk.1 _ _, Function.update_of_ne hk.1 _ _⟩

theorem NCP.main_lip {topSv : Tensor ℝ → Res ℝ} {X : Tensor ℝ} {st st' : State}
    {o : fact.Out (List (Tensor ℝ)) (Tensor ℝ) (Tensor ℝ) ℝ} (h : NCP.main topSv X st = .ok (st', o)) :
    (∀ k < X.order, st'.L0 k = st.L k) ∧ st'.t = (1 + Real.sqrt (1 + 4 * st'.t0 ^ 2)) / 2 := by
  obtain ⟨s, h1, rfl, -⟩ := NCP.main_inv h
  refine ⟨fun k hk => ?_, rfl⟩
  exact (sweep_lip NCP.modeUpdate_inv List.nodup_range h1).1 k (List.mem_range.2 hk)

theorem NCP.op1_weight {N : Nat} {st st' : State} (h : NCP.op1 N st = .ok st') :
    (∀ k < N, st'.wA k = min ((st.t0 - 1) / st.t) (Real.sqrt (st.L0 k / st.L k))) ∧ st'.L = st.L := by
  unfold NCP.op1 at h
  cases hw : weight st with
  | error e => rw [hw] at h; cases h
  | ok w =>
  rw [hw, ok_bind] at h
  have hwe : w = (st.t0 - 1) / st.t := by
    unfold weight loss.fdiv at hw
    by_cases h0 : st.t = 0
    · rw [if_pos h0] at hw; cases hw
    · rw [if_neg h0] at hw; cases hw; rfl
  cases h1 : (List.range N).foldlM (extrapolateMode w) st with
  | error e => rw [h1] at h; cases h
  | ok s =>
      rw [h1, ok_bind] at h
      cases h
      obtain ⟨a, b, -⟩ := extrapolateAll_weight List.nodup_range h1
      exact ⟨fun k hk => by rw [← hwe]; exact a k (List.mem_range.2 hk), b⟩

theorem NTUCKER.main_lip {topSv : Tensor ℝ → Res ℝ} {X : Tensor ℝ} {st st' : TState}
    {o : fact.Out (List (Tensor ℝ)) (Tensor ℝ) (Tensor ℝ) ℝ} (h : NTUCKER.main topSv X st = .ok (st', o)) :
    (∀ k < X.order, st'.L0 k = st.L k) ∧ st'.L X.order = st.L X.order ∧ st'.L0 X.order = st.L0 X.order ∧
      st'.t = (1 + Real.sqrt (1 + 4 * st'.t0 ^ 2)) / 2 ∧ st'.g0 = st.g0 := by
  obtain ⟨s, h1, rfl, -⟩ := NTUCKER.main_inv h
  obtain ⟨a, b⟩ := sweep_lip NTUCKER.modeUpdate_inv List.nodup_range h1
  exact ⟨fun k hk => a k (List.mem_range.2 hk), (b X.order (by simp)).2, (b X.order (by simp)).1, rfl, rfl⟩

theorem NTUCKER.op1_weight {N : Nat} {st st' : TState} (h : NTUCKER.op1 N st = .ok st') :
    (∀ k ≤ N, st'.wA k = min ((st.t0 - 1) / st.t) (Real.sqrt (st.L0 k / st.L k))) ∧ st'.L = st.L := by
  unfold NTUCKER.op1 at h
  cases hw : weight st.toState with
  | error e => rw [hw] at h; cases h
  | ok w =>
  rw [hw, ok_bind] at h
  have hwe : w = (st.t0 - 1) / st.t := by
    unfold weight loss.fdiv at hw
    by_cases h0 : st.t = 0
    · rw [if_pos h0] at hw; cases hw
    · rw [if_neg h0] at hw; cases hw; rfl
  cases h1 : (List.range N).foldlM (extrapolateMode w) st.toState with
  | error e => rw [h1] at h; cases h
  | ok s =>
      rw [h1, ok_bind] at h
      obtain ⟨a, b, b'⟩ := extrapolateAll_weight List.nodup_range h1
      cases h2 : cappedWeight s w N with
      | error e => rw [h2] at h; cases h
      | ok wk =>
      rw [h2, ok_bind] at h
      cases h3 : extrapolate wk st.g st.g0 with
      | error e => rw [h3] at h; cases h
      | ok m =>
      rw [h3, ok_bind] at h
      cases h4 : assignCore st.gm m with
      | error e => rw [h4] at h; cases h
      | ok gm =>
      rw [h4, ok_bind] at h
      cases h
      refine ⟨fun k hk => ?_, b⟩
      simp only
      rw [← hwe]
      by_cases hkN : k = N
      · subst hkN
        rw [Function.update_self]
        unfold cappedWeight loss.fdiv at h2
        rw [b, b'] at h2
        by_cases hL : st.L k = 0
        · rw [if_pos hL] at h2; cases h2
        · rw [if_neg hL] at h2; cases h2; rfl
      · rw [Function.update_of_ne hkN]
        exact a k (List.mem_range.2 (by omega))

end TD.bcu
