import Verif.Props.Schedule
import Verif.Lemmas.RunsSeq

/-!
# C92: the other session runs do not depend on the schedule
-/
namespace TD.Props
open TD Tensor graph fact bcu

/-- Equality of factor variables given entry by entry. -/
theorem facVars_of_get {α : Type} {B : List (Tensor α)} {v : Tensor α} {i : Nat} (h : B[i]? = some v) : facVars B i = v := by
  simp [facVars, List.getD_eq_getElem?_getD, h]

theorem facVars_of_none {α : Type} {A B : List (Tensor α)} (hl : A.length = B.length) {i : Nat} (h : A.length ≤ i) :
    facVars A i = facVars B i := by
  have e1 : A[i]? = none := by rw [List.getElem?_eq_none_iff]; omega
  have e2 : B[i]? = none := by rw [List.getElem?_eq_none_iff]; omega
  simp [facVars, List.getD_eq_getElem?_getD, e1, e2]

/-- `old` holds the factor and scalar variables of `st`. -/
def Holds (old : Bcu.Var → Tensor ℝ) (st : State) : Prop := ∀ v, v ≠ .g → v ≠ .g0 → v ≠ .gm → old v = Bcu.vars st v

theorem vars_shape {sh : List (List Nat)} {l : List (Tensor ℝ)} (h : l.map Tensor.shape = sh) {k : Nat} (hk : k < sh.length) :
    l[k]? = some (facVars l k) ∧ (facVars l k).shape = sh.getD k [] := by
  obtain ⟨a, ha, hs⟩ := get_of_shapes h hk
  rw [facVars_of_get ha]
  exact ⟨ha, hs⟩

theorem fsqrt_of_capped {st : State} {w wk : ℝ} {k : Nat} (h : cappedWeight st w k = .ok wk) :
    ∃ r, loss.fsqrt (loss.fdiv (st.L0 k) (st.L k)) = some r ∧ wk = min w r := by
  unfold cappedWeight at h
  cases hq : loss.fsqrt (loss.fdiv (st.L0 k) (st.L k)) with
  | none => rw [hq] at h; cases h
  | some r => rw [hq] at h; exact ⟨r, rfl, (Except.ok.inj h).symm⟩

theorem fsqrt_of_capped_error {st : State} {w : ℝ} {k : Nat} {e : PyErr} (h : cappedWeight st w k = .error e) :
    loss.fsqrt (loss.fdiv (st.L0 k) (st.L k)) = none := by
  unfold cappedWeight at h
  cases hq : loss.fsqrt (loss.fdiv (st.L0 k) (st.L k)) with
  | none => rfl
  | some r => rw [hq] at h; cases h

theorem fdiv_of_weight {st : State} {w : ℝ} (h : weight st = .ok w) : loss.fdiv (st.t0 - 1) st.t = some w := by
  unfold weight at h
  cases hq : loss.fdiv (st.t0 - 1) st.t with
  | none => rw [hq] at h; cases h
  | some r => rw [hq] at h; exact congrArg some (Except.ok.inj h)

theorem fdiv_of_weight_error {st : State} {e : PyErr} (h : weight st = .error e) : loss.fdiv (st.t0 - 1) st.t = none := by
  unfold weight at h
  cases hq : loss.fdiv (st.t0 - 1) st.t with
  | none => rfl
  | some r => rw [hq] at h; cases h

/-- A complete run of `train_op1` of either class, compared with the loop over the modes. -/
theorem op1_run {N : Nat} (h0 : 0 < N) {core : Bool} {shape : Nat → List Nat} {sh : List (List Nat)} (hlen : sh.length = N)
    (hshape : ∀ k < N, sh.getD k [] = shape k) {st : State} (hS : AllShapes sh st) {old : Bcu.Var → Tensor ℝ}
    (hold : Holds old st) (hcore : core = true → (old .g).shape = shape N ∧ (old .g0).shape = shape N)
    {c : Cfg Bcu.Op1.Op Bcu.Var (Tensor ℝ)} (hr : Reaches (Bcu.Op1.build N core shape) old c)
    (hc : Complete (Bcu.Op1.build N core shape) c) :
    ((∃ e, weight st = .error e) → Failed (Bcu.Op1.build N core shape) c) ∧
    ∀ w, weight st = .ok w →
      ((∃ e, (List.range N).foldlM (extrapolateMode w) st = .error e) → Failed (Bcu.Op1.build N core shape) c) ∧
      (core = true → (∃ e, cappedWeight st w N = .error e) → Failed (Bcu.Op1.build N core shape) c) ∧
      ∀ s, (List.range N).foldlM (extrapolateMode w) st = .ok s →
        AllShapes sh s ∧ s.L = st.L ∧ s.L0 = st.L0 ∧
        ∀ wk, (core = true → cappedWeight st w N = .ok wk) →
          ¬ Failed (Bcu.Op1.build N core shape) c ∧
          Holds c.vars { s with wA := if core then Function.update s.wA N wk else s.wA, t0 := s.t } ∧
          c.vars .g = old .g ∧ (core = false → c.vars .g0 = old .g0 ∧ c.vars .gm = old .gm) ∧
          (core = true → c.vars .g0 = old .g ∧ extrapolate wk (old .g) (old .g0) = .ok (c.vars .gm)) := by
  have hslot : ∀ k ∈ Bcu.slots N core, (old (Bcu.cur N k)).shape = shape k ∧ (old (Bcu.best N k)).shape = shape k := by
    intro k hk
    rw [Bcu.mem_slots] at hk
    by_cases hkN : k < N
    · simp only [Bcu.cur, Bcu.best, if_pos hkN]
      rw [hold _ (by simp) (by simp) (by simp), hold _ (by simp) (by simp) (by simp), ← hshape k hkN]
      exact ⟨(vars_shape hS.A (by omega)).2, (vars_shape hS.A0 (by omega)).2⟩
    · have : k = N := by omega
      subst this
      simp only [Bcu.cur, Bcu.best, lt_irrefl, if_false]
      exact hcore (hk.resolve_left hkN).1
  obtain ⟨hok, hbad, hkeep⟩ := Bcu.Op1.run h0 hr hc hslot
  have ht : Bcu.the (old .t0) = st.t0 := by rw [hold _ (by simp) (by simp) (by simp)]; rfl
  have ht' : Bcu.the (old .t) = st.t := by rw [hold _ (by simp) (by simp) (by simp)]; rfl
  have hL : ∀ k, Bcu.the (old (.L k)) = st.L k := fun _ => by rw [hold _ (by simp) (by simp) (by simp)]; rfl
  have hL0 : ∀ k, Bcu.the (old (.L0 k)) = st.L0 k := fun _ => by rw [hold _ (by simp) (by simp) (by simp)]; rfl
  simp only [ht, ht', hL, hL0] at hok hbad
  refine ⟨fun ⟨e, he⟩ => hbad (.inl (fdiv_of_weight_error he)), fun w hw => ⟨?_, ?_, ?_⟩⟩
  · rintro ⟨e, he⟩
    rcases extrapolate_range (w := w) hS N (le_of_eq hlen.symm) with ⟨h1, k, hk, e', he'⟩ | ⟨s, hs, -⟩
    · exact hbad (.inr ⟨k, by rw [Bcu.mem_slots]; exact .inl hk, fsqrt_of_capped_error he'⟩)
    · rw [hs] at he; cases he
  · rintro hcr ⟨e, he⟩
    exact hbad (.inr ⟨N, by rw [Bcu.mem_slots]; exact .inr ⟨hcr, rfl⟩, fsqrt_of_capped_error he⟩)
  · intro s hs
    rcases extrapolate_range (w := w) hS N (le_of_eq hlen.symm) with ⟨h1, -⟩ | ⟨s', hs', sS, sA, st', st0, sL, sL0, hlt, hge⟩
    · rw [hs] at h1; cases h1
    rw [hs] at hs'
    obtain rfl := Except.ok.inj hs'
    refine ⟨sS, sL, sL0, fun wk hwk => ?_⟩
    have hr' : ∀ k ∈ Bcu.slots N core, ∃ r, loss.fsqrt (loss.fdiv (st.L0 k) (st.L k)) = some r ∧
        (if k < N then s.wA k else wk) = min w r := by
      intro k hk
      rw [Bcu.mem_slots] at hk
      by_cases hkN : k < N
      · obtain ⟨a, a0, m, e1, -⟩ := hlt k hkN
        rw [if_pos hkN]
        exact fsqrt_of_capped e1
      · have : k = N := by omega
        subst this
        rw [if_neg hkN]
        exact fsqrt_of_capped (hwk (hk.resolve_left hkN).1)
    choose! r hr1 hr2 using hr'
    obtain ⟨hnf, htt, hv⟩ := hok w (fdiv_of_weight hw) r hr1
    have hin : ∀ k < N, k ∈ Bcu.slots N core := by intro k hk; rw [Bcu.mem_slots]; exact .inl hk
    have hl : ∀ {l : List (Tensor ℝ)}, l.map Tensor.shape = sh → l.length = N := by
      intro l h
      rw [← hlen, ← h, List.length_map]
    have hnw : ∀ v, Bcu.tag v ≠ 1 → Bcu.tag v ≠ 2 → Bcu.tag v ≠ 3 → v ≠ .t0 → c.vars v = old v := by
      intro v h1 h2 h3 h4
      refine hkeep v h4 fun k hk => ⟨?_, ?_, ?_⟩
      · rintro rfl; exact h3 rfl
      · rintro rfl; exact h2 (Bcu.tag_mid ..)
      · rintro rfl; exact h1 (Bcu.tag_best ..)
    refine ⟨hnf, ?_, hnw .g (by simp [Bcu.tag]) (by simp [Bcu.tag]) (by simp [Bcu.tag]) (by simp), ?_, ?_⟩
    · intro v n1 n2 n3
      cases v with
      | A i =>
          rw [hnw (.A i) (by simp [Bcu.tag]) (by simp [Bcu.tag]) (by simp [Bcu.tag]) (by simp),
            hold _ (by simp) (by simp) (by simp)]
          simp [Bcu.vars, sA]
      | L i =>
          rw [hnw (.L i) (by simp [Bcu.tag]) (by simp [Bcu.tag]) (by simp [Bcu.tag]) (by simp),
            hold _ (by simp) (by simp) (by simp)]
          simp [Bcu.vars, sL]
      | L0 i =>
          rw [hnw (.L0 i) (by simp [Bcu.tag]) (by simp [Bcu.tag]) (by simp [Bcu.tag]) (by simp),
            hold _ (by simp) (by simp) (by simp)]
          simp [Bcu.vars, sL0]
      | t =>
          rw [hnw .t (by simp [Bcu.tag]) (by simp [Bcu.tag]) (by simp [Bcu.tag]) (by simp),
            hold _ (by simp) (by simp) (by simp)]
          simp [Bcu.vars, st']
      | t0 =>
          rw [htt, hold _ (by simp) (by simp) (by simp)]
          simp [Bcu.vars, st']
      | g => exact absurd rfl n1
      | g0 => exact absurd rfl n2
      | gm => exact absurd rfl n3
      | wA i =>
          by_cases hi : i < N
          · rw [(hv i (hin i hi)).1, ← hr2 i (hin i hi), if_pos hi]
            simp only [Bcu.vars]
            split
            · rw [Function.update_of_ne (by omega)]
            · rfl
          · by_cases hiN : core = true ∧ i = N
            · obtain ⟨hcr, rfl⟩ := hiN
              have hm : i ∈ Bcu.slots i core := by rw [Bcu.mem_slots]; exact .inr ⟨hcr, rfl⟩
              rw [(hv i hm).1, ← hr2 i hm, if_neg hi]
              simp [Bcu.vars, hcr]
            · rw [hkeep (.wA i) (by simp) (by
                intro k hk
                refine ⟨?_, ?_, ?_⟩
                · intro h
                  rw [Bcu.mem_slots] at hk
                  simp only [Bcu.Var.wA.injEq] at h
                  rcases hk with h' | ⟨h', h''⟩
                  · omega
                  · exact hiN ⟨h', h.trans h''⟩
                · intro h; have := congrArg Bcu.tag h; simp [Bcu.tag_mid, Bcu.tag_wA] at this
                · intro h; have := congrArg Bcu.tag h; simp [Bcu.tag_best, Bcu.tag_wA] at this),
                hold _ (by simp) (by simp) (by simp)]
              simp only [Bcu.vars]
              rw [← (hge i (by omega)).1]
              split
              · rename_i hcr
                rw [Function.update_of_ne (by rintro rfl; exact hiN ⟨hcr, rfl⟩)]
              · rfl
      | A0 i =>
          by_cases hi : i < N
          · have := (hv i (hin i hi)).2.2
            simp only [Bcu.best, if_pos hi, Bcu.cur] at this
            obtain ⟨a, a0, m, e1, e2, e3, e4, e5, e6⟩ := hlt i hi
            rw [this, hold _ (by simp) (by simp) (by simp)]
            simp only [Bcu.vars]
            rw [facVars_of_get e6, facVars_of_get e2]
          · rw [hkeep (.A0 i) (by simp) (by
              intro k hk
              refine ⟨by simp, ?_, ?_⟩
              · intro h; have := congrArg Bcu.tag h; rw [Bcu.tag_mid] at this; simp [Bcu.tag] at this
              · unfold Bcu.best
                split
                · simp; omega
                · simp), hold _ (by simp) (by simp) (by simp)]
            exact facVars_of_none (by rw [hl hS.A0, hl sS.A0]) (by rw [hl hS.A0]; omega)
      | Am i =>
          by_cases hi : i < N
          · have := (hv i (hin i hi)).2.1
            simp only [Bcu.best, Bcu.mid, if_pos hi, Bcu.cur] at this
            obtain ⟨a, a0, m, e1, e2, e3, e4, e5, e6⟩ := hlt i hi
            have hw' := hr2 i (hin i hi)
            rw [if_pos hi] at hw'
            rw [← hw', hold (.A i) (by simp) (by simp) (by simp), hold (.A0 i) (by simp) (by simp) (by simp)] at this
            simp only [Bcu.vars] at this ⊢
            rw [facVars_of_get e2, facVars_of_get e3, e4] at this
            rw [facVars_of_get e5]
            exact (Except.ok.inj this).symm
          · rw [hkeep (.Am i) (by simp) (by
              intro k hk
              refine ⟨by simp, ?_, ?_⟩
              · unfold Bcu.mid
                split
                · simp; omega
                · simp
              · intro h; have := congrArg Bcu.tag h; rw [Bcu.tag_best] at this; simp [Bcu.tag] at this),
              hold _ (by simp) (by simp) (by simp)]
            exact facVars_of_none (by rw [hl hS.Am, hl sS.Am]) (by rw [hl hS.Am]; omega)
    · intro hcr
      have hlt' : ∀ k ∈ Bcu.slots N core, k < N := by intro k hk; rw [Bcu.mem_slots, hcr] at hk; simpa using hk
      refine ⟨hkeep .g0 (by simp) fun k hk => ?_, hkeep .gm (by simp) fun k hk => ?_⟩ <;>
        simp [Bcu.mid, Bcu.best, hlt' k hk]
    · intro hcr
      have hm : N ∈ Bcu.slots N core := by rw [Bcu.mem_slots]; exact .inr ⟨hcr, rfl⟩
      obtain ⟨v1, v2, v3⟩ := hv N hm
      have hw' := hr2 N hm
      simp only [Bcu.mid, Bcu.best, Bcu.cur, lt_irrefl, if_false] at v2 v3 hw'
      exact ⟨v3, by rw [hw']; exact v2⟩

theorem ncp_getD (X : Tensor ℝ) (rank k : Nat) (hk : k < X.order) :
    (X.shape.map fun d => [d, rank]).getD k [] = ncpShape X rank k := by
  have : k < X.shape.length := hk
  simp [ncpShape, List.getD_eq_getElem?_getD, this]

theorem ntucker_getD (X : Tensor ℝ) (ranks : List Nat) (hrk : ranks.length = X.order) (k : Nat) (hk : k < X.order) :
    (List.zipWith (fun d r => [d, r]) X.shape ranks).getD k [] = ntuckerShape X ranks k := by
  have h1 : k < X.shape.length := hk
  have h2 : k < ranks.length := by omega
  simp [ntuckerShape, if_pos hk, List.getD_eq_getElem?_getD, h1, h2]

/-- **C92** for `train_op1` of `NCP_BCU` (`ncp.py:228`): whatever the schedule, the variables end as the loop over the
modes leaves them, and the run fails exactly when that loop does. -/
theorem C92_ncp_op1 (X : Tensor ℝ) (rank : Nat) (h0 : 0 < X.order) (st : State) (hS : NcpVars X rank st)
    (c : Cfg Bcu.Op1.Op Bcu.Var (Tensor ℝ))
    (hr : Reaches (Bcu.Op1.build X.order false (ncpShape X rank)) (Bcu.vars st) c)
    (hc : Complete (Bcu.Op1.build X.order false (ncpShape X rank)) c) :
    match NCP.op1 X.order st with
    | .ok st' => c.vars = Bcu.vars st' ∧ ¬ Failed (Bcu.Op1.build X.order false (ncpShape X rank)) c
    | .error _ => Failed (Bcu.Op1.build X.order false (ncpShape X rank)) c := by
  obtain ⟨h1, h2⟩ := op1_run h0 (by simp [Tensor.order]) (fun k hk => ncp_getD X rank k hk) hS (fun _ _ _ _ => rfl)
    (by simp) hr hc
  unfold NCP.op1
  cases hw : weight st with
  | error e => exact h1 ⟨e, hw⟩
  | ok w =>
  simp only [ok_bind]
  obtain ⟨h3, -, h4⟩ := h2 w hw
  cases hs : (List.range X.order).foldlM (extrapolateMode w) st with
  | error e => exact h3 ⟨e, hs⟩
  | ok s =>
  simp only [ok_bind]
  obtain ⟨-, -, -, h5⟩ := h4 s hs
  obtain ⟨h6, h7, h8, h9, -⟩ := h5 0 (by simp)
  obtain ⟨h10, h11⟩ := h9 rfl
  refine ⟨?_, h6⟩
  funext v
  by_cases n1 : v = .g
  · subst n1; rw [h8]; rfl
  by_cases n2 : v = .g0
  · subst n2; rw [h10]; rfl
  by_cases n3 : v = .gm
  · subst n3; rw [h11]; rfl
  exact h7 v n1 n2 n3

/-- **C92** for `train_op1` of `NTUCKER_BCU` (`ntucker.py:262`). -/
theorem C92_ntucker_op1 (X : Tensor ℝ) (ranks : List Nat) (hrk : ranks.length = X.order) (h0 : 0 < X.order) (st : TState)
    (hS : NtuckerVars X ranks st) (c : Cfg Bcu.Op1.Op Bcu.Var (Tensor ℝ))
    (hr : Reaches (Bcu.Op1.build X.order true (ntuckerShape X ranks)) (Bcu.tvars st) c)
    (hc : Complete (Bcu.Op1.build X.order true (ntuckerShape X ranks)) c) :
    match NTUCKER.op1 X.order st with
    | .ok st' => c.vars = Bcu.tvars st' ∧ ¬ Failed (Bcu.Op1.build X.order true (ntuckerShape X ranks)) c
    | .error _ => Failed (Bcu.Op1.build X.order true (ntuckerShape X ranks)) c := by
  have hN : ntuckerShape X ranks X.order = ranks := by simp [ntuckerShape]
  obtain ⟨h1, h2⟩ := op1_run h0 (by simp [Tensor.order] at hrk ⊢; omega) (fun k hk => ntucker_getD X ranks hrk k hk) hS.factors
    (old := Bcu.tvars st) (by intro v n1 n2 n3; cases v <;> first | rfl | contradiction)
    (fun _ => ⟨hS.g.trans hN.symm, hS.g0.trans hN.symm⟩) hr hc
  unfold NTUCKER.op1
  cases hw : weight st.toState with
  | error e => exact h1 ⟨e, hw⟩
  | ok w =>
  simp only [ok_bind]
  obtain ⟨h3, h3', h4⟩ := h2 w hw
  cases hs : (List.range X.order).foldlM (extrapolateMode w) st.toState with
  | error e => exact h3 ⟨e, hs⟩
  | ok s =>
  simp only [ok_bind]
  obtain ⟨-, sL, sL0, h5⟩ := h4 s hs
  have hcap : cappedWeight s w X.order = cappedWeight st.toState w X.order := by unfold cappedWeight; rw [sL, sL0]
  rw [hcap]
  cases hwk : cappedWeight st.toState w X.order with
  | error e => exact h3' rfl ⟨e, hwk⟩
  | ok wk =>
  obtain ⟨h6, h7, h8, -, h9⟩ := h5 wk (fun _ => hwk)
  obtain ⟨h10, h11⟩ := h9 rfl
  simp only [ok_bind]
  obtain ⟨d, m, -, -, e3, e4⟩ := extrapolate_ok wk (hS.g.trans hS.g0.symm)
  have hm : m = c.vars .gm := by
    have h12 : extrapolate wk st.g st.g0 = .ok (c.vars .gm) := h11
    rw [e3] at h12
    exact Except.ok.inj h12
  rw [e3, ok_bind]
  unfold assignCore
  rw [if_pos (by rw [e4, hS.g, hS.gm]), ok_bind]
  refine ⟨?_, h6⟩
  funext v
  by_cases n1 : v = .g
  · subst n1; rw [h8]; rfl
  by_cases n2 : v = .g0
  · subst n2; rw [h10]; rfl
  by_cases n3 : v = .gm
  · subst n3; rw [← hm]; rfl
  rw [h7 v n1 n2 n3]
  cases v <;> first | rfl | contradiction

/-- **C92** for `train_op2` of `NCP_BCU` (`ncp.py:231`). -/
theorem C92_ncp_op2 (X : Tensor ℝ) (rank : Nat) (st : State) (hS : NcpVars X rank st)
    (c : Cfg Bcu.Op2.Op Bcu.Var (Tensor ℝ))
    (hr : Reaches (Bcu.Op2.build X.order false (ncpShape X rank)) (Bcu.vars st) c)
    (hc : Complete (Bcu.Op2.build X.order false (ncpShape X rank)) c) :
    ∃ st', NCP.op2 st = .ok st' ∧ c.vars = Bcu.vars st' ∧ ¬ Failed (Bcu.Op2.build X.order false (ncpShape X rank)) c := by
  have hin : ∀ k, k ∈ Bcu.slots X.order false ↔ k < X.order := by intro k; rw [Bcu.mem_slots]; simp
  have hlen : ∀ {l : List (Tensor ℝ)}, l.map Tensor.shape = (X.shape.map fun d => [d, rank]) → l.length = X.order := by
    intro l h
    simpa [Tensor.order] using congrArg List.length h
  obtain ⟨h1, h2, h3⟩ := Bcu.Op2.run hr hc fun k hk => by
    have hk' := (hin k).1 hk
    simp only [Bcu.best, if_pos hk', Bcu.vars]
    rw [(vars_shape hS.A0 (by simpa [Tensor.order] using hk')).2, ncp_getD X rank k hk']
  refine ⟨_, rfl, ?_, h1⟩
  funext v
  by_cases hv : ∃ i < X.order, v = .Am i
  · obtain ⟨i, hi, rfl⟩ := hv
    have := h2 i ((hin i).2 hi)
    simp only [Bcu.mid, Bcu.best, if_pos hi] at this
    rw [this]; rfl
  · rw [h3 v (by
      intro k hk h
      have hk' := (hin k).1 hk
      simp only [Bcu.mid, if_pos hk'] at h
      exact hv ⟨k, hk', h⟩)]
    cases v with
    | Am i =>
        have hi : X.order ≤ i := by
          by_contra hlt
          exact hv ⟨i, by omega, rfl⟩
        exact facVars_of_none (by rw [hlen hS.Am, hlen hS.A0]) (by rw [hlen hS.Am]; exact hi)
    | _ => rfl

/-- **C92** for `train_op2` of `NTUCKER_BCU` (`ntucker.py:265`). -/
theorem C92_ntucker_op2 (X : Tensor ℝ) (ranks : List Nat) (hrk : ranks.length = X.order) (st : TState)
    (hS : NtuckerVars X ranks st) (c : Cfg Bcu.Op2.Op Bcu.Var (Tensor ℝ))
    (hr : Reaches (Bcu.Op2.build X.order true (ntuckerShape X ranks)) (Bcu.tvars st) c)
    (hc : Complete (Bcu.Op2.build X.order true (ntuckerShape X ranks)) c) :
    ∃ st', NTUCKER.op2 st = .ok st' ∧ c.vars = Bcu.tvars st' ∧
      ¬ Failed (Bcu.Op2.build X.order true (ntuckerShape X ranks)) c := by
  have hz : (List.zipWith (fun d r => [d, r]) X.shape ranks).length = X.order := by
    simp only [Tensor.order, List.length_zipWith] at hrk ⊢
    omega
  have hin : ∀ k, k ∈ Bcu.slots X.order true ↔ k < X.order ∨ k = X.order := by intro k; rw [Bcu.mem_slots]; simp
  have hlen : ∀ {l : List (Tensor ℝ)}, l.map Tensor.shape = (List.zipWith (fun d r => [d, r]) X.shape ranks) →
      l.length = X.order := by
    intro l h
    have := congrArg List.length h
    rw [List.length_map] at this
    omega
  obtain ⟨h1, h2, h3⟩ := Bcu.Op2.run hr hc fun k hk => by
    rcases (hin k).1 hk with hk' | rfl
    · simp only [Bcu.best, if_pos hk', Bcu.tvars, Bcu.vars]
      rw [(vars_shape hS.factors.A0 (by omega)).2, ntucker_getD X ranks hrk k hk']
    · simp only [Bcu.best, lt_irrefl, if_false, Bcu.tvars]
      rw [hS.g0]; simp [ntuckerShape]
  refine ⟨_, rfl, ?_, h1⟩
  funext v
  by_cases hg : v = .gm
  · subst hg
    have := h2 X.order ((hin _).2 (.inr rfl))
    simp only [Bcu.mid, Bcu.best, lt_irrefl, if_false] at this
    rw [this]; rfl
  by_cases hv : ∃ i < X.order, v = .Am i
  · obtain ⟨i, hi, rfl⟩ := hv
    have := h2 i ((hin i).2 (.inl hi))
    simp only [Bcu.mid, Bcu.best, if_pos hi] at this
    rw [this]; rfl
  · rw [h3 v (by
      intro k hk h
      rcases (hin k).1 hk with hk' | rfl
      · simp only [Bcu.mid, if_pos hk'] at h
        exact hv ⟨k, hk', h⟩
      · simp only [Bcu.mid, lt_irrefl, if_false] at h
        exact hg h)]
    cases v with
    | Am i =>
        have hi : X.order ≤ i := by
          by_contra hlt
          exact hv ⟨i, by omega, rfl⟩
        exact facVars_of_none (by rw [hlen hS.factors.Am, hlen hS.factors.A0]) (by rw [hlen hS.factors.Am]; exact hi)
    | gm => exact absurd rfl hg
    | _ => rfl

/-- **C92** for the core run of `NTUCKER_BCU` (`ntucker.py:233`): the variables and the fetched core. -/
theorem C92_ntucker_core (topSv : Tensor ℝ → Res ℝ) (X : Tensor ℝ) (ranks : List Nat) (hrk : ranks.length = X.order)
    (st : TState) (hS : NtuckerVars X ranks st) (c : Cfg Bcu.Core.Op Bcu.Var (Tensor ℝ))
    (hr : Reaches (Bcu.Core.build topSv X ranks) (Bcu.tvars st) c) (hc : Complete (Bcu.Core.build topSv X ranks) c) :
    match NTUCKER.core topSv X st with
    | .ok (st', g) => c.vars = Bcu.tvars st' ∧ c.done .assign = some (some g) ∧ ¬ Failed (Bcu.Core.build topSv X ranks) c
    | .error _ => Failed (Bcu.Core.build topSv X ranks) c := by
  refine Bcu.Core.run ?_ hS.g hr hc
  have := congrArg List.length hS.factors.A
  simp only [List.length_map, List.length_zipWith] at this
  simp only [Tensor.order] at hrk ⊢
  omega

/-! ### The initialiser -/

theorem mapM_error {β γ : Type} {f : β → Res γ} : ∀ {l : List β} {e : PyErr}, l.mapM f = .error e →
    ∃ i : Nat, ∃ x e', l[i]? = some x ∧ f x = .error e'
  | [], e, h => by cases h
  | x :: l, e, h => by
      rw [List.mapM_cons] at h
      cases h1 : f x with
      | error e1 => exact ⟨0, x, e1, rfl, h1⟩
      | ok y =>
          rw [h1, ok_bind] at h
          cases h2 : l.mapM f with
          | error e2 =>
              obtain ⟨i, z, e', hz, hf⟩ := mapM_error h2
              exact ⟨i + 1, z, e', by simpa using hz, hf⟩
          | ok ys => rw [h2, ok_bind] at h; cases h

theorem mapM_get {β γ : Type} {f : β → Res γ} {l : List β} {r : List γ} (h : l.mapM f = .ok r) :
    r.length = l.length ∧ ∀ (i : Nat) x, l[i]? = some x → ∃ y, r[i]? = some y ∧ f x = .ok y := by
  have := mapM_inv h
  refine ⟨this.length_eq.symm, ?_⟩
  clear h
  induction this with
  | nil => intro i x hx; simp at hx
  | cons h1 _ ih =>
      intro i x hx
      cases i with
      | zero => simp only [List.getElem?_cons_zero, Option.some.injEq] at hx; subst hx; exact ⟨_, rfl, h1⟩
      | succ i => exact ih i x (by simpa using hx)

/-- A complete run of the initialiser of either class. -/
theorem init_run {X : Tensor ℝ} {p N : Nat} {core : Bool} {shape : Nat → List Nat} {draws : List (Tensor ℝ)}
    (hd : draws.length = N) (hsh : ∀ k d, draws[k]? = some d → d.shape = shape k) {old : Bcu.Var → Tensor ℝ}
    (hold : Holds old (Bcu.fresh draws)) (hcore : core = true → (old .g).shape = shape N)
    {c : Cfg Bcu.Init.Op Bcu.Var (Tensor ℝ)} (hr : Reaches (Bcu.Init.build X p N core shape) old c)
    (hc : Complete (Bcu.Init.build X p N core shape) c) :
    ((∃ e, bcu.init X p draws = .error e) → Failed (Bcu.Init.build X p N core shape) c) ∧
    (core = true → (∃ e, normInit X p (old .g) = .error e) → Failed (Bcu.Init.build X p N core shape) c) ∧
    ∀ st, bcu.init X p draws = .ok st → (core = true → ∃ g, normInit X p (old .g) = .ok g) →
      ¬ Failed (Bcu.Init.build X p N core shape) c ∧ Holds c.vars st ∧
      (core = false → c.vars .g = old .g ∧ c.vars .g0 = old .g0 ∧ c.vars .gm = old .gm) ∧
      (core = true → normInit X p (old .g) = .ok (c.vars .g) ∧ c.vars .g0 = c.vars .g ∧ c.vars .gm = c.vars .g) := by
  have hA : ∀ k d, draws[k]? = some d → old (.A k) = relu d := by
    intro k d hk
    rw [hold _ (by simp) (by simp) (by simp)]
    exact facVars_of_get (by simp [Bcu.fresh, hk])
  have hdr : ∀ k < N, ∃ d, draws[k]? = some d := fun k hk => ⟨draws[k]'(by omega), List.getElem?_eq_getElem (by omega)⟩
  have hcur : ∀ k ∈ Bcu.slots N core, (old (Bcu.cur N k)).shape = shape k := by
    intro k hk
    rw [Bcu.mem_slots] at hk
    by_cases hkN : k < N
    · obtain ⟨d, hd'⟩ := hdr k hkN
      simp only [Bcu.cur, if_pos hkN, hA k d hd']
      exact hsh k d hd'
    · have hkN' := hk.resolve_left hkN
      obtain rfl := hkN'.2
      simp only [Bcu.cur, lt_irrefl, if_false]
      exact hcore hkN'.1
  obtain ⟨h1, h2, h3⟩ := Bcu.Init.run hr hc hcur
  refine ⟨?_, ?_, ?_⟩
  · rintro ⟨e, he⟩
    unfold bcu.init at he
    cases hm : draws.mapM fun d => normInit X p (relu d) with
    | ok A => rw [hm] at he; cases he
    | error e' =>
        obtain ⟨i, d, e'', hi, hf⟩ := mapM_error hm
        have hiN : i < N := by
          have := (List.getElem?_eq_some_iff.1 hi).1
          omega
        refine h2 ⟨i, by rw [Bcu.mem_slots]; exact .inl hiN, e'', ?_⟩
        simp only [Bcu.cur, if_pos hiN, hA i d hi]
        exact hf
  · rintro hcr ⟨e, he⟩
    refine h2 ⟨N, by rw [Bcu.mem_slots]; exact .inr ⟨hcr, rfl⟩, e, ?_⟩
    simpa only [Bcu.cur, lt_irrefl, if_false] using he
  · intro st hst hg
    unfold bcu.init at hst
    cases hm : draws.mapM fun d => normInit X p (relu d) with
    | error e => rw [hm] at hst; cases hst
    | ok A =>
    rw [hm, ok_bind] at hst
    obtain rfl := Except.ok.inj hst
    obtain ⟨hlA, hget⟩ := mapM_get hm
    have hall : ∀ k ∈ Bcu.slots N core, ∃ v, normInit X p (old (Bcu.cur N k)) = .ok v := by
      intro k hk
      rw [Bcu.mem_slots] at hk
      by_cases hkN : k < N
      · obtain ⟨d, hd'⟩ := hdr k hkN
        obtain ⟨y, _, hy⟩ := hget k d hd'
        exact ⟨y, by simp only [Bcu.cur, if_pos hkN, hA k d hd']; exact hy⟩
      · have hkN' := hk.resolve_left hkN
        obtain rfl := hkN'.2
        obtain ⟨g, hg'⟩ := hg hkN'.1
        exact ⟨g, by simp only [Bcu.cur, lt_irrefl, if_false]; exact hg'⟩
    obtain ⟨hnf, hv⟩ := h1 hall
    have hfac : ∀ k < N, ∃ a, A[k]? = some a ∧ c.vars (.A k) = a ∧ c.vars (.A0 k) = a ∧ c.vars (.Am k) = a := by
      intro k hk
      obtain ⟨d, hd'⟩ := hdr k hk
      obtain ⟨y, hy1, hy2⟩ := hget k d hd'
      obtain ⟨e1, e2, e3⟩ := hv k (by rw [Bcu.mem_slots]; exact .inl hk)
      simp only [Bcu.cur, Bcu.best, Bcu.mid, if_pos hk, hA k d hd'] at e1 e2 e3
      rw [hy2] at e1
      have := Except.ok.inj e1
      exact ⟨y, hy1, this.symm, e2.trans this.symm, e3.trans this.symm⟩
    have hkeep : ∀ v, Bcu.tag v ≠ 0 → Bcu.tag v ≠ 1 → Bcu.tag v ≠ 2 → c.vars v = old v := by
      intro v t0 t1 t2
      refine h3 v fun k hk => ⟨?_, ?_, ?_⟩
      · rintro rfl; exact t0 (Bcu.tag_cur ..)
      · rintro rfl; exact t2 (Bcu.tag_mid ..)
      · rintro rfl; exact t1 (Bcu.tag_best ..)
    have hout : ∀ k, N ≤ k → c.vars (.A k) = old (.A k) ∧ c.vars (.A0 k) = old (.A0 k) ∧ c.vars (.Am k) = old (.Am k) := by
      intro k hk
      refine ⟨h3 _ fun j hj => ?_, h3 _ fun j hj => ?_, h3 _ fun j hj => ?_⟩ <;>
        (unfold Bcu.cur Bcu.mid Bcu.best; split <;> simp <;> omega)
    refine ⟨hnf, ?_, ?_, ?_⟩
    · intro v n1 n2 n3
      cases v with
      | A i =>
          by_cases hi : i < N
          · obtain ⟨a, e, e1, e2, e3⟩ := hfac i hi
            rw [e1]; exact (facVars_of_get e).symm
          · rw [(hout i (by omega)).1, hold _ (by simp) (by simp) (by simp)]
            exact facVars_of_none (by simp [Bcu.fresh, hlA]) (by simp [Bcu.fresh]; omega)
      | A0 i =>
          by_cases hi : i < N
          · obtain ⟨a, e, e1, e2, e3⟩ := hfac i hi
            rw [e2]; exact (facVars_of_get e).symm
          · rw [(hout i (by omega)).2.1, hold _ (by simp) (by simp) (by simp)]
            exact facVars_of_none (by simp [Bcu.fresh, hlA]) (by simp [Bcu.fresh]; omega)
      | Am i =>
          by_cases hi : i < N
          · obtain ⟨a, e, e1, e2, e3⟩ := hfac i hi
            rw [e3]; exact (facVars_of_get e).symm
          · rw [(hout i (by omega)).2.2, hold _ (by simp) (by simp) (by simp)]
            exact facVars_of_none (by simp [Bcu.fresh, hlA]) (by simp [Bcu.fresh]; omega)
      | g => exact absurd rfl n1
      | g0 => exact absurd rfl n2
      | gm => exact absurd rfl n3
      | L i => rw [hkeep _ (by simp [Bcu.tag]) (by simp [Bcu.tag]) (by simp [Bcu.tag]), hold _ (by simp) (by simp) (by simp)]; rfl
      | L0 i => rw [hkeep _ (by simp [Bcu.tag]) (by simp [Bcu.tag]) (by simp [Bcu.tag]), hold _ (by simp) (by simp) (by simp)]; rfl
      | wA i => rw [hkeep _ (by simp [Bcu.tag]) (by simp [Bcu.tag]) (by simp [Bcu.tag]), hold _ (by simp) (by simp) (by simp)]; rfl
      | t => rw [hkeep _ (by simp [Bcu.tag]) (by simp [Bcu.tag]) (by simp [Bcu.tag]), hold _ (by simp) (by simp) (by simp)]; rfl
      | t0 => rw [hkeep _ (by simp [Bcu.tag]) (by simp [Bcu.tag]) (by simp [Bcu.tag]), hold _ (by simp) (by simp) (by simp)]; rfl
    · intro hcr
      have hlt' : ∀ k ∈ Bcu.slots N core, k < N := by intro k hk; rw [Bcu.mem_slots, hcr] at hk; simpa using hk
      refine ⟨h3 _ fun k hk => ?_, h3 _ fun k hk => ?_, h3 _ fun k hk => ?_⟩ <;>
        simp [Bcu.cur, Bcu.mid, Bcu.best, hlt' k hk]
    · intro hcr
      have hm : N ∈ Bcu.slots N core := by rw [Bcu.mem_slots]; exact .inr ⟨hcr, rfl⟩
      have := hv N hm
      simpa only [Bcu.cur, Bcu.mid, Bcu.best, lt_irrefl, if_false] using this

/-- **C92** for `other_init_op` of `NCP_BCU` (`ncp.py:194`): the variables after `init_op` (`ncp.py:193`) drew
`draws`. -/
theorem C92_ncp_init (X : Tensor ℝ) (rank : Nat) (draws : List (Tensor ℝ))
    (hd : draws.map Tensor.shape = X.shape.map fun d => [d, rank]) (c : Cfg Bcu.Init.Op Bcu.Var (Tensor ℝ))
    (hr : Reaches (Bcu.Init.build X X.order X.order false (ncpShape X rank)) (Bcu.vars (Bcu.fresh draws)) c)
    (hc : Complete (Bcu.Init.build X X.order X.order false (ncpShape X rank)) c) :
    match bcu.init X X.order draws with
    | .ok st => c.vars = Bcu.vars st ∧ ¬ Failed (Bcu.Init.build X X.order X.order false (ncpShape X rank)) c
    | .error _ => Failed (Bcu.Init.build X X.order X.order false (ncpShape X rank)) c := by
  have hl : draws.length = X.order := by simpa [Tensor.order] using congrArg List.length hd
  obtain ⟨h1, -, h2⟩ := init_run hl (shape := ncpShape X rank) (by
    intro k d hk
    have hk' := (List.getElem?_eq_some_iff.1 hk).1
    rw [← ncp_getD X rank k (by omega), ← hd]
    simp [List.getD_eq_getElem?_getD, hk]) (fun _ _ _ _ => rfl) (by simp) hr hc
  cases hi : bcu.init X X.order draws with
  | error e => exact h1 ⟨e, hi⟩
  | ok st =>
  obtain ⟨h3, h4, h5, -⟩ := h2 st hi (by simp)
  obtain ⟨g1, g2, g3⟩ := h5 rfl
  refine ⟨?_, h3⟩
  funext v
  by_cases n1 : v = .g
  · subst n1; rw [g1]; rfl
  by_cases n2 : v = .g0
  · subst n2; rw [g2]; rfl
  by_cases n3 : v = .gm
  · subst n3; rw [g3]; rfl
  exact h4 v n1 n2 n3

/-- **C92** for `other_init_op` of `NTUCKER_BCU` (`ntucker.py:227`). -/
theorem C92_ntucker_init (X : Tensor ℝ) (ranks : List Nat) (hrk : ranks.length = X.order) (draws : List (Tensor ℝ))
    (gdraw : Tensor ℝ) (hd : draws.map Tensor.shape = List.zipWith (fun d r => [d, r]) X.shape ranks)
    (hg : gdraw.shape = ranks) (c : Cfg Bcu.Init.Op Bcu.Var (Tensor ℝ))
    (hr : Reaches (Bcu.Init.build X (X.order + 1) X.order true (ntuckerShape X ranks)) (Bcu.tvars (Bcu.tfresh draws gdraw)) c)
    (hc : Complete (Bcu.Init.build X (X.order + 1) X.order true (ntuckerShape X ranks)) c) :
    match NTUCKER.init X draws gdraw with
    | .ok st => c.vars = Bcu.tvars st ∧ ¬ Failed (Bcu.Init.build X (X.order + 1) X.order true (ntuckerShape X ranks)) c
    | .error _ => Failed (Bcu.Init.build X (X.order + 1) X.order true (ntuckerShape X ranks)) c := by
  have hl : draws.length = X.order := by
    have := congrArg List.length hd
    simp only [List.length_map, List.length_zipWith] at this
    simp only [Tensor.order] at hrk ⊢
    omega
  obtain ⟨h1, h1', h2⟩ := init_run hl (shape := ntuckerShape X ranks) (by
    intro k d hk
    have hk' := (List.getElem?_eq_some_iff.1 hk).1
    rw [← ntucker_getD X ranks hrk k (by omega), ← hd]
    simp [List.getD_eq_getElem?_getD, hk]) (by intro v n1 n2 n3; cases v <;> first | rfl | contradiction)
    (fun _ => (show gdraw.shape = _ by rw [hg]; simp [ntuckerShape])) hr hc
  unfold NTUCKER.init
  cases hi : bcu.init X (X.order + 1) draws with
  | error e => exact h1 ⟨e, hi⟩
  | ok st =>
  simp only [ok_bind]
  cases hgi : normInit X (X.order + 1) (relu gdraw) with
  | error e => exact h1' rfl ⟨e, hgi⟩
  | ok g =>
  simp only [ok_bind]
  obtain ⟨h3, h4, -, h5⟩ := h2 st hi (fun _ => ⟨g, hgi⟩)
  obtain ⟨g1, g2, g3⟩ := h5 rfl
  have hgg : g = c.vars .g := Except.ok.inj (hgi.symm.trans g1)
  refine ⟨?_, h3⟩
  funext v
  by_cases n1 : v = .g
  · subst n1; rw [← hgg]; rfl
  by_cases n2 : v = .g0
  · subst n2; rw [g2, ← hgg]; rfl
  by_cases n3 : v = .gm
  · subst n3; rw [g3, ← hgg]; rfl
  rw [h4 v n1 n2 n3]
  cases v <;> first | rfl | contradiction

/-- No execution of these runs gets stuck. -/
theorem C92_op1_completes (N : Nat) (h0 : 0 < N) (core : Bool) (shape : Nat → List Nat) (old : Bcu.Var → Tensor ℝ)
    (c : Cfg Bcu.Op1.Op Bcu.Var (Tensor ℝ)) (hr : Reaches (Bcu.Op1.build N core shape) old c) :
    ∃ c', Relation.ReflTransGen (Step (Bcu.Op1.build N core shape)) c c' ∧ Complete (Bcu.Op1.build N core shape) c' :=
  (Bcu.Op1.readsOld h0).completes hr

theorem C92_op2_completes (N : Nat) (core : Bool) (shape : Nat → List Nat) (old : Bcu.Var → Tensor ℝ)
    (c : Cfg Bcu.Op2.Op Bcu.Var (Tensor ℝ)) (hr : Reaches (Bcu.Op2.build N core shape) old c) :
    ∃ c', Relation.ReflTransGen (Step (Bcu.Op2.build N core shape)) c c' ∧ Complete (Bcu.Op2.build N core shape) c' :=
  Bcu.Op2.readsOld.completes hr

theorem C92_init_completes (X : Tensor ℝ) (p N : Nat) (core : Bool) (shape : Nat → List Nat) (old : Bcu.Var → Tensor ℝ)
    (c : Cfg Bcu.Init.Op Bcu.Var (Tensor ℝ)) (hr : Reaches (Bcu.Init.build X p N core shape) old c) :
    ∃ c', Relation.ReflTransGen (Step (Bcu.Init.build X p N core shape)) c c' ∧
      Complete (Bcu.Init.build X p N core shape) c' :=
  Bcu.Init.readsOld.completes hr

theorem C92_core_completes (topSv : Tensor ℝ → Res ℝ) (X : Tensor ℝ) (ranks : List Nat) (old : Bcu.Var → Tensor ℝ)
    (c : Cfg Bcu.Core.Op Bcu.Var (Tensor ℝ)) (hr : Reaches (Bcu.Core.build topSv X ranks) old c) :
    ∃ c', Relation.ReflTransGen (Step (Bcu.Core.build topSv X ranks)) c c' ∧ Complete (Bcu.Core.build topSv X ranks) c' :=
  Bcu.Core.readsOld.completes hr

/-! ### The hypotheses can be met -/

example : ∃ (X : Tensor ℝ) (st : State) (c : Cfg Bcu.Op1.Op Bcu.Var (Tensor ℝ)), X.shape = [2, 3] ∧ NcpVars X 2 st ∧
    (∃ st', NCP.op1 X.order st = .ok st') ∧
    Reaches (Bcu.Op1.build X.order false (ncpShape X 2)) (Bcu.vars st) c ∧
    Complete (Bcu.Op1.build X.order false (ncpShape X 2)) c := by
  let X : Tensor ℝ := Tensor.ofFn [2, 3] fun _ => 1
  let A : List (Tensor ℝ) := [Tensor.ofFn [2, 2] fun _ => 1, Tensor.ofFn [3, 2] fun _ => 1]
  let st : State := ⟨A, A, A, fun _ => 1, fun _ => 1, fun _ => 1, 1, 1⟩
  have hS : NcpVars X 2 st := ⟨rfl, rfl, rfl⟩
  obtain ⟨c, h1, h2⟩ := C92_op1_completes X.order (by decide) false (ncpShape X 2) (Bcu.vars st) _ .refl
  refine ⟨X, st, c, rfl, hS, ?_, h1, h2⟩
  have hw : weight st = .ok 0 := by
    unfold weight loss.fdiv
    simp [st]
  unfold NCP.op1
  rw [hw, ok_bind]
  rcases extrapolate_range (sh := X.shape.map fun d => [d, 2]) (w := 0) (st := st) hS X.order (by decide) with h | h
  · obtain ⟨-, k, -, e, he⟩ := h
    unfold cappedWeight loss.fdiv loss.fsqrt at he
    simp [st] at he
  · obtain ⟨s, hs, -⟩ := h
    rw [hs]
    exact ⟨_, rfl⟩

example (topSv : Tensor ℝ → Res ℝ) : ∃ (X : Tensor ℝ) (st : TState) (c : Cfg Bcu.Core.Op Bcu.Var (Tensor ℝ)),
    X.shape = [2, 3] ∧ NtuckerVars X [2, 1] st ∧
    Reaches (Bcu.Core.build topSv X [2, 1]) (Bcu.tvars st) c ∧ Complete (Bcu.Core.build topSv X [2, 1]) c := by
  let X : Tensor ℝ := Tensor.ofFn [2, 3] fun _ => 1
  let A : List (Tensor ℝ) := [Tensor.ofFn [2, 2] fun _ => 1, Tensor.ofFn [3, 1] fun _ => 1]
  let g : Tensor ℝ := Tensor.ofFn [2, 1] fun _ => 1
  let st : TState := { toState := ⟨A, A, A, fun _ => 1, fun _ => 1, fun _ => 1, 1, 1⟩, g := g, g0 := g, gm := g }
  obtain ⟨c, h1, h2⟩ := C92_core_completes topSv X [2, 1] (Bcu.tvars st) _ .refl
  exact ⟨X, st, c, rfl, ⟨⟨rfl, rfl, rfl⟩, rfl, rfl, rfl⟩, h1, h2⟩

example : ∃ (X : Tensor ℝ) (draws : List (Tensor ℝ)) (c : Cfg Bcu.Init.Op Bcu.Var (Tensor ℝ)), X.shape = [2, 3] ∧
    draws.map Tensor.shape = X.shape.map (fun d => [d, 2]) ∧
    Reaches (Bcu.Init.build X X.order X.order false (ncpShape X 2)) (Bcu.vars (Bcu.fresh draws)) c ∧
    Complete (Bcu.Init.build X X.order X.order false (ncpShape X 2)) c := by
  let X : Tensor ℝ := Tensor.ofFn [2, 3] fun _ => 1
  let A : List (Tensor ℝ) := [Tensor.ofFn [2, 2] fun _ => 1, Tensor.ofFn [3, 2] fun _ => 1]
  obtain ⟨c, h1, h2⟩ := C92_init_completes X X.order X.order false (ncpShape X 2) (Bcu.vars (Bcu.fresh A)) _ .refl
  exact ⟨X, A, c, rfl, rfl, h1, h2⟩

end TD.Props
