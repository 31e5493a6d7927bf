import Verif.Lemmas.Ncp
import Verif.Lemmas.Exposed
import Verif.Props.Lipschitz
import Verif.Props.Train

/-!
# C53, C54, C55, C78, C79 for `NCP_BCU`
-/
namespace TD.Props
open TD Spec Tensor fact bcu

/-- After any history of `train` calls, returning or raising, the object exposes only results of session runs. -/
theorem history_exposes {S F K X R : Type} {Ar : Arith R} {c : Cls S F K X R} {init : S → Prop}
    {calls : List (Call S R)} (h : ∀ cs ∈ calls, ∀ s, cs.fresh = .ok s → init s) :
    Exposes c init (history Ar c calls).1 := by
  induction calls with
  | nil => exact exposes_new
  | cons cs rest ih =>
      simp only [history]
      exact train_exposes (ih fun c hc => h c (by simp [hc])) (h cs (by simp))

/-- Freshly initialised NCP variables: any random draws of the right shapes. -/
def NcpInit (X : Tensor ℝ) (R : Nat) (s : State) : Prop :=
  ∃ draws, FactorsFor X.shape R draws ∧ bcu.init X X.order draws = .ok s

theorem ncp_reach {topSv : Tensor ℝ → Res ℝ} {X : Tensor ℝ} {R : Nat} (hne : X.shape ≠ []) (h25 : X.order ≤ 25)
    {s : State} (h : Reach (NCP.cls topSv X R) (NcpInit X R) s) :
    FactorsOk (X.shape.map fun d => [d, R]) s ∧ MomentumOk s := by
  induction h with
  | fresh hi =>
      obtain ⟨draws, hd, hi⟩ := hi
      obtain ⟨a, b, -, -⟩ := init_inv hi
      rw [show draws.map Tensor.shape = X.shape.map fun d => [d, R] from hd] at a
      exact ⟨a, b⟩
  | core _ hc _ => cases hc
  | main _ hm ih =>
      obtain ⟨a, b, -⟩ := NCP.main_ok ih.1 hne h25 hm
      exact ⟨a, (b ih.2).1⟩
  | op1 _ hu hf ih =>
      cases hu
      obtain ⟨a, b, -⟩ := NCP.op1_ok ih.1 ih.2 hf
      exact ⟨a, b⟩
  | op2 _ hu hf ih =>
      cases hu
      obtain ⟨a, b, -⟩ := NCP.op2_ok ih.1 ih.2 hf
      exact ⟨a, b⟩

/-- **C53** for `NCP_BCU`: after any history of `train` calls on one object, with any random draws, all exposed
factors, the exposed full tensor and the exposed weights are entrywise nonnegative.  Nothing is assumed about the
entries of `X`, the singular value routine or the arithmetic of the stopping test. -/
theorem C53_ncp_nonneg (topSv : Tensor ℝ → Res ℝ) (X : Tensor ℝ) (R : Nat) (hne : X.shape ≠ []) (h25 : X.order ≤ 25)
    (Ar : Arith ℝ) (calls : List (Call State ℝ)) (hc : ∀ c ∈ calls, ∀ s, c.fresh = .ok s → NcpInit X R s) :
    (∀ f, (history Ar (NCP.cls topSv X R) calls).1.factors = some f → ∀ M ∈ f, Nonneg M) ∧
    (∀ x, (history Ar (NCP.cls topSv X R) calls).1.full = some x → Nonneg x) ∧
    (∀ w, (history Ar (NCP.cls topSv X R) calls).1.aux = some w → Nonneg w) := by
  have h := history_exposes (Ar := Ar) (c := NCP.cls topSv X R) (init := NcpInit X R) hc
  refine ⟨fun f hf => ?_, fun x hx => ?_, fun w hw => ?_⟩
  · obtain ⟨s, s', o, hr, hm, rfl⟩ := h.factors f hf
    obtain ⟨a, -, -, -, -, e, -⟩ := NCP.main_ok (ncp_reach hne h25 hr).1 hne h25 hm
    rw [e]; exact a.nonneg
  · obtain ⟨s, s', o, hr, hm, rfl⟩ := h.full x hx
    obtain ⟨-, -, -, -, -, -, -, -, e, -⟩ := NCP.main_ok (ncp_reach hne h25 hr).1 hne h25 hm
    exact e
  · rcases h.aux w hw with h | ⟨s, s', o, hr, hm, e⟩ | ⟨s, s', f, hr, hc, -⟩
    · cases h
      intro x hx
      obtain ⟨i, -, rfl⟩ := List.mem_map.1 (show x ∈ (indices [1, R]).map fun _ => (1 : ℝ) from hx)
      exact zero_le_one
    · obtain ⟨s2, -, -, -, e2, -⟩ := NCP.main_inv hm
      rw [e2] at e; cases e
    · cases hc

/-- **C54** for `NCP_BCU`: in every reachable state, after any history of session runs, `1 ≤ t0 ≤ t`; the main run
never decreases `t`; and `train_op1` uses for each mode a weight in `[0,1)`, the extrapolated point being
`A + w (A - A0)`. -/
theorem C54_ncp_momentum (topSv : Tensor ℝ → Res ℝ) (X : Tensor ℝ) (R : Nat) (hne : X.shape ≠ []) (h25 : X.order ≤ 25)
    (s : State) (h : Reach (NCP.cls topSv X R) (NcpInit X R) s) :
    1 ≤ s.t0 ∧ s.t0 ≤ s.t ∧
    (∀ s' o, NCP.main topSv X s = .ok (s', o) → s.t ≤ s'.t ∧ s'.t = (1 + Real.sqrt (1 + 4 * s'.t0 ^ 2)) / 2) ∧
    (∀ s', NCP.op2 s = .ok s' → s.t ≤ s'.t) ∧
    ∀ s', NCP.op1 X.order s = .ok s' → s.t ≤ s'.t ∧ s.t0 ≤ s'.t0 ∧ ∀ k < X.order, 0 ≤ s'.wA k ∧ s'.wA k < 1 ∧
      ∃ a a0 m, s.A[k]? = some a ∧ s.A0[k]? = some a0 ∧ s'.Am[k]? = some m ∧ m.shape = a.shape ∧
        ∀ i, InB a.shape i → m.at_ i = a.at_ i + s'.wA k * (a.at_ i - a0.at_ i) := by
  obtain ⟨hf, hm⟩ := ncp_reach hne h25 h
  refine ⟨hm.1, hm.le, fun s' o h' => ?_, fun s' h' => ?_, fun s' h' => ?_⟩
  · obtain ⟨-, b, -⟩ := NCP.main_ok hf hne h25 h'
    refine ⟨(b hm).2, ?_⟩
    obtain ⟨s1, -, rfl, -⟩ := NCP.main_inv h'
    rfl
  · exact le_of_eq (NCP.op2_ok hf hm h').2.2.symm
  · obtain ⟨-, -, -, e1, e2, e3⟩ := NCP.op1_ok hf hm h'
    refine ⟨le_of_eq e1.symm, by rw [e2]; exact hm.le, fun k hk => ?_⟩
    obtain ⟨a1, a2, -, a, a0, m, b1, b2, b3, -, b5, b6⟩ := e3 k hk
    exact ⟨a1, a2, a, a0, m, b1, b2, b3, b5, b6⟩

/-- The states of a `train` run are reachable, so C54 speaks about them. -/
theorem run_reach {S F K X R : Type} {A : Arith R} {c : Cls S F K X R} {tol : R} {s0 : S} {n : Nat}
    {o : Nat → Out F K X R} {k : Nat → Option K} {init : S → Prop} (h0 : init s0) (h : Run A c tol s0 n o k) :
    ∃ σ : Nat → S, σ 0 = s0 ∧ ∀ j < n, Reach c init (σ j) ∧ ∃ s, Reach c init s ∧ Runs c (σ j) (k j) (o j) s ∧
      (j + 1 < n → Updates A c (o j).obj (refObj A c.update.isSome (fun i => (o i).obj) j) s (σ (j + 1))) := by
  obtain ⟨⟨σ, e0, hs⟩, -⟩ := h
  refine ⟨σ, e0, fun j => ?_⟩
  have hrun : ∀ {s s' : S} {k : Option K} {o : Out F K X R}, Reach c init s → Runs c s k o s' → Reach c init s' := by
    intro s s' k o hr h
    unfold Runs at h
    cases hc : c.core with
    | none => rw [hc] at h; exact hr.main h.2
    | some f =>
        rw [hc] at h
        obtain ⟨s1, v, h1, -, h2⟩ := h
        exact (hr.core hc h1).main h2
  have hup : ∀ {s s' : S} {a b : R}, Reach c init s → Updates A c a b s s' → Reach c init s' := by
    intro s s' a b hr h
    unfold Updates at h
    cases hu : c.update with
    | none => rw [hu] at h; simp only at h; rw [h]; exact hr
    | some p =>
        obtain ⟨op1, op2⟩ := p
        rw [hu] at h
        simp only at h
        cases hb : A.lt a b with
        | true => rw [hb, if_pos rfl] at h; exact hr.op1 hu h
        | false => rw [hb, if_neg (by simp)] at h; exact hr.op2 hu h
  induction j with
  | zero =>
      intro hj
      obtain ⟨s, hr, hu⟩ := hs 0 hj
      have : Reach c init (σ 0) := by rw [e0]; exact Reach.fresh h0
      exact ⟨this, s, hrun this hr, hr, hu⟩
  | succ j ih =>
      intro hj
      obtain ⟨-, s, hr, -, hu⟩ := ih (by omega)
      obtain ⟨s', hr', hu'⟩ := hs (j + 1) hj
      have := hup hr (hu hj)
      exact ⟨this, s', hrun this hr', hr', hu'⟩

/-- **C55**: an NCP mode update is defined unless no component is nonzero in all the other factors (then the
program divides by zero).  If the extrapolated point equals the current factor it does not increase `‖X - [[A]]‖²`, and keeps the other
factors. -/
theorem C55_mode_update_descends (topSv : Tensor ℝ → Res ℝ) (ht : TopSvOk topSv) (X : Tensor ℝ) (R n : Nat) (st : State)
    (hA : FactorsFor X.shape R st.A) (hAm : FactorsFor X.shape R st.Am) (hnn : ∀ M ∈ st.A, Nonneg M)
    (h2 : 2 ≤ X.order) (h25 : X.order ≤ 25) (hn : n < X.order) (hR : 0 < R) (hpos : 0 < X.shape.getD n 0)
    (heq : st.Am[n]? = st.A[n]?) :
    (¬ (∃ r < R, ∀ M ∈ st.A.eraseIdx n, ∃ a < M.shape.getD 0 0, M.at_ [a, r] ≠ 0) ∧
      NCP.modeUpdate topSv X st n = .error .nonFinite) ∨
    ∃ st', NCP.modeUpdate topSv X st n = .ok st' ∧
      cpErr X R st'.A (fun _ => 1) ≤ cpErr X R st.A (fun _ => 1) ∧
      (∀ k ≠ n, st'.A[k]? = st.A[k]?) ∧ FactorsFor X.shape R st'.A ∧ ∀ M ∈ st'.A, Nonneg M := by
  rcases NCP.modeUpdate_total ht hA hAm h2 h25 hn hR hpos with ⟨st', e⟩ | e
  · right
    refine ⟨st', e, ?_⟩
    have hn' : n < st.A.length := by rw [hA.length]; exact hn
    have hget : st.A[n]? = some st.A[n] := List.getElem?_eq_getElem hn'
    rw [hget] at heq
    obtain ⟨Z, z1, z2, z3, z4, z5⟩ := NCP.three_point ht hA h2 h25 hn hR hpos heq (hA.get hget) e
    have hd := z5 st.A[n] (hA.get hget) (hnn _ (List.getElem_mem hn'))
    rw [List.set_getElem_self, ← z3] at hd
    have h0 : distSqT st.A[n] st.A[n] = 0 := by
      unfold distSqT
      rw [boxSum_congr (g := fun _ => (0 : ℝ)) (fun i _ => by ring), boxSum_zero]
    have h3 := mul_nonneg z4.le (distSqT_nonneg st.A[n] Z)
    obtain ⟨V, XA, hf⟩ := NCP.modeUpdate_inv e
    obtain ⟨l, Z', -, -, -, -, hmap, rfl⟩ := factorStep_inv hf
    refine ⟨by rw [h0] at hd; linarith, fun k hk => ?_, hmap.trans hA, by rw [z3]; exact nonneg_set hnn z2⟩
    exact List.getElem?_set_ne (Ne.symm hk)
  · refine Or.inl ⟨fun hd => ?_, e⟩
    obtain ⟨st', e'⟩ := (NCP.modeUpdate_defined ht hA hAm h2 h25 hn hR hpos).2 hd
    rw [e] at e'; cases e'

/-- **C55** (general extrapolated point `m`): against every nonnegative competitor `B` for this mode,
`f(new) ≤ f(B) + L ‖B - m‖² - L ‖B - new‖²`. -/
theorem C55_three_point (topSv : Tensor ℝ → Res ℝ) (ht : TopSvOk topSv) (X : Tensor ℝ) (R n : Nat) (st st' : State)
    (m : Tensor ℝ) (hA : FactorsFor X.shape R st.A) (h2 : 2 ≤ X.order) (h25 : X.order ≤ 25) (hn : n < X.order)
    (hR : 0 < R) (hpos : 0 < X.shape.getD n 0) (hm : st.Am[n]? = some m) (hms : m.shape = [X.shape.getD n 0, R])
    (h : NCP.modeUpdate topSv X st n = .ok st') :
    ∃ Z, Z.shape = [X.shape.getD n 0, R] ∧ Nonneg Z ∧ st'.A = st.A.set n Z ∧ 0 < st'.L n ∧
      ∀ B, B.shape = [X.shape.getD n 0, R] → Nonneg B →
        cpErr X R st'.A (fun _ => 1) ≤ cpErr X R (st.A.set n B) (fun _ => 1) +
          st'.L n * distSqT B m - st'.L n * distSqT B Z := by
  obtain ⟨Z, z1, z2, z3, z4, z5⟩ := NCP.three_point ht hA h2 h25 hn hR hpos hm hms h
  exact ⟨Z, z1, z2, z3, z4, fun B hB hB' => by rw [z3]; exact z5 B hB hB'⟩

/-- **C78** for `NCP_BCU`: the first residual is at most that of the initial factors, and the second
is at most the first (after the first step the extrapolation weight is 0).  From step 3 on the objective may rise. -/
theorem C78_ncp_first_two_steps (topSv : Tensor ℝ → Res ℝ) (ht : TopSvOk topSv) (X : Tensor ℝ) (R : Nat)
    (h2 : 2 ≤ X.order) (h25 : X.order ≤ 25) (hR : 0 < R) (hpos : ∀ d ∈ X.shape, 0 < d) (s0 : State)
    (h0 : NcpInit X R s0) (args : Args ℝ) (steps : Int)
    (self self' : Self (List (Tensor ℝ)) (Tensor ℝ) (Tensor ℝ)) (ev : List Int) (hist : List (ℝ × ℝ))
    (h : train (exactArith ℝ) (NCP.cls topSv X R) args steps (.ok s0) self = (self', ev, .ok hist)) :
    (∀ p, hist[0]? = some p → p.2 ≤ Real.sqrt (cpErr X R s0.A fun _ => 1) / Real.sqrt (normSqT X)) ∧
    ∀ p q, hist[0]? = some p → hist[1]? = some q → q.2 ≤ p.2 := by
  have hne : X.shape ≠ [] := by intro e; unfold order at h2; rw [e] at h2; simp at h2
  obtain ⟨s1, o, k, hs1, hlen, -, hrun, hh⟩ := C43_history _ _ args steps _ self self' ev hist h
  cases hs1
  obtain ⟨σ, e0, hσ⟩ := run_reach (init := NcpInit X R) h0 hrun
  obtain ⟨hr0, s, hrs, hrun0, hup0⟩ := hσ 0 (by omega)
  have hm0 : NCP.main topSv X s0 = .ok (s, o 0) := by rw [← e0]; exact hrun0.2
  obtain ⟨draws, hd, hi⟩ := h0
  obtain ⟨i1, i2, i3, i4⟩ := init_inv hi
  rw [show draws.map Tensor.shape = X.shape.map fun d => [d, R] from hd] at i1
  obtain ⟨a1, a2, a3, a4, a5, a6, a7, a8, a9, a10, a11, a12, a13⟩ := NCP.main_ok i1 hne h25 hm0
  have hdesc := NCP.main_descends ht h2 h25 hR hpos i1 i3 hm0
  have hX := Real.sqrt_pos.2 a13
  constructor
  · intro p hp
    rw [hh 0 (by omega)] at hp
    cases hp
    simp only
    rw [a12]
    gcongr
  · intro p q hp hq
    have hl1 : 1 < hist.length := (List.getElem?_eq_some_iff.1 hq).1
    rw [hh 0 (by omega)] at hp
    rw [hh 1 hl1] at hq
    cases hp; cases hq
    simp only
    obtain ⟨hr1, s', hrs', hrun1, -⟩ := hσ 1 hl1
    have hop : NCP.op1 X.order s = .ok (σ 1) := by
      have := hup0 hl1
      have hlt : (exactArith ℝ).lt (o 0).obj (refObj (exactArith ℝ) (NCP.cls topSv X R).update.isSome
          (fun i => (o i).obj) 0) = true := decide_eq_true (by exact lt_add_one _)
      change if (exactArith ℝ).lt (o 0).obj _ = true then NCP.op1 X.order s = .ok (σ (0 + 1)) else _ at this
      rw [if_pos hlt] at this
      exact this
    have hms := (a2 i2).1
    obtain ⟨b1, b2, b3, b4, b5, b6⟩ := NCP.op1_ok a1 hms hop
    have ht0 : s.t0 = 1 := by
      rw [a3]
      unfold bcu.init at hi
      cases h1 : draws.mapM (fun d => normInit X X.order (relu d)) with
      | error e => rw [h1] at hi; cases hi
      | ok A => rw [h1, ok_bind] at hi; cases hi; rfl
    have hAm : (σ 1).Am = (σ 1).A := by
      refine List.ext_getElem? fun k => ?_
      have hl : (σ 1).A.length = X.order := b1.factorsFor.1.length
      have hlm : (σ 1).Am.length = X.order := b1.factorsFor.2.2.length
      by_cases hk : k < X.order
      · obtain ⟨w0, -, w1, a, a0, m, c1, c2, c3, c4, c5, c6⟩ := b6 k hk
        have hw : (σ 1).wA k = 0 := by
          rw [ht0, sub_self, zero_div] at w1
          exact le_antisymm w1 w0
        rw [c3, b3, c1]
        congr 1
        exact ext_at c5 fun i hi' => by
          rw [c5] at hi'
          rw [c6 i hi', hw]; ring
      · rw [List.getElem?_eq_none (by omega), List.getElem?_eq_none (by omega)]
    have hm1 : NCP.main topSv X (σ 1) = .ok (s', o 1) := hrun1.2
    have hd1 := NCP.main_descends ht h2 h25 hR hpos b1 hAm hm1
    obtain ⟨-, -, -, -, -, -, -, -, -, -, -, c12, -⟩ := NCP.main_ok b1 hne h25 hm1
    rw [c12, a12]
    rw [b3] at hd1
    gcongr

/-- **C79** for `NCP_BCU`: if the initial factors reproduce a nonzero tensor exactly, `train` (any `steps ≥ 1`, positive
tolerance) is defined, stops after the first step and reports residual 0. -/
theorem C79_ncp_exact_fit (topSv : Tensor ℝ → Res ℝ) (ht : TopSvOk topSv) (X : Tensor ℝ) (R : Nat)
    (h2 : 2 ≤ X.order) (h25 : X.order ≤ 25) (hR : 0 < R) (hpos : ∀ d ∈ X.shape, 0 < d)
    (hX : ∃ i, InB X.shape i ∧ X.at_ i ≠ 0) (s0 : State) (h0 : NcpInit X R s0)
    (hfit : ∀ i, InB X.shape i → X.at_ i = ∑ r ∈ Finset.range R, khatriEntry r s0.A i) (args : Args ℝ)
    (htol : 0 < args.tol) (steps : Int) (h1 : 1 ≤ steps) (self : Self (List (Tensor ℝ)) (Tensor ℝ) (Tensor ℝ)) :
    ∃ self' ev l, train (exactArith ℝ) (NCP.cls topSv X R) args steps (.ok s0) self = (self', ev, .ok [(l, 0)]) := by
  obtain ⟨draws, hd, hi⟩ := h0
  obtain ⟨i1, -, i3, -⟩ := init_inv hi
  rw [show draws.map Tensor.shape = X.shape.map fun d => [d, R] from hd] at i1
  have hz : cpErr X R s0.A (fun _ => 1) = 0 := by
    unfold cpErr
    rw [boxSum_congr (g := fun _ => (0 : ℝ)) (fun i hi => by rw [hfit i hi]; simp), boxSum_zero]
  obtain ⟨s, o, hm, hrel⟩ := NCP.main_exact ht h2 h25 hR hpos hX i1 i3 hz
  have hh := train_first (A := exactArith ℝ) (c := NCP.cls topSv X R) (args := args) self h1 (Or.inl ⟨rfl, rfl⟩) hm
    (decide_eq_true (by rw [hrel]; exact htol))
  rw [hrel] at hh
  exact ⟨_, _, o.loss, Prod.ext rfl (Prod.ext rfl hh)⟩

/-! ### A concrete run -/

/-- A 2×2 matrix of ones, and draws of ones for rank 1. -/
def onesX : Tensor ℝ := ⟨[2, 2], [1, 1, 1, 1], rfl⟩
@[inherit_doc onesX] def onesDraw : Tensor ℝ := ⟨[2, 1], [1, 1], rfl⟩

theorem ones_norm : tf.norm onesX = 2 := by
  simp [tf.norm, tf.reduceSum, tf.total_eq, tf.map, onesX]
  rw [show (1 + (1 + (1 + 1)) : ℝ) = 2 ^ 2 by norm_num, Real.sqrt_sq (by norm_num)]

theorem ones_relu : relu onesDraw = onesDraw := by
  simp [relu, tf.map, onesDraw]

theorem ones_draw_norm : tf.norm onesDraw = Real.sqrt 2 := by
  simp [tf.norm, tf.reduceSum, tf.total_eq, tf.map, onesDraw]
  norm_num

theorem ones_normInit : normInit onesX 2 (relu onesDraw) = .ok onesDraw := by
  have h : Real.sqrt 2 ≠ 0 := by positivity
  have h2 : (1 : ℝ) / Real.sqrt 2 * Real.rpow 2 (1 / ((2 : ℕ) : ℝ)) = 1 := by
    have : Real.rpow 2 (1 / ((2 : ℕ) : ℝ)) = Real.sqrt 2 := by
      rw [Real.sqrt_eq_rpow]; norm_num
    rw [this]; field_simp
  unfold normInit
  rw [ones_relu, ones_draw_norm, if_neg h, ones_norm]
  congr 1
  unfold onesDraw tf.map
  simp only [List.map_cons, List.map_nil, h2]

/-- The state those draws lead to. -/
def onesState : State :=
  ⟨[onesDraw, onesDraw], [onesDraw, onesDraw], [onesDraw, onesDraw], fun _ => 1, fun _ => 1, fun _ => 1, 1, 1⟩

theorem ones_init : NcpInit onesX 1 onesState := by
  refine ⟨[onesDraw, onesDraw], rfl, ?_⟩
  have h : [onesDraw, onesDraw].mapM (fun d => normInit onesX onesX.order (relu d)) = .ok [onesDraw, onesDraw] := by
    have h : normInit onesX onesX.order (relu onesDraw) = .ok onesDraw := ones_normInit
    rw [List.mapM_cons, List.mapM_cons, List.mapM_nil, h]; rfl
  unfold bcu.init
  rw [h]; rfl

theorem ones_exact : cpErr onesX 1 onesState.A (fun _ => 1) = 0 := by
  unfold cpErr
  simp [onesX, onesState, onesDraw, boxSum, khatriEntry, at_, ravel, Finset.sum_range_succ]

/-- The hypotheses of C53–C55 are met together, and `train` returns, for instance here. -/
theorem ncp_example : ∃ topSv, TopSvOk topSv ∧ ∃ self' ev hist, train (exactArith ℝ) (NCP.cls topSv onesX 1)
    { tol := 1 } 1 (.ok onesState) {} = (self', ev, .ok hist) ∧ self'.factors.isSome := by
  obtain ⟨topSv, ht⟩ := exists_topSvOk
  have hst : FactorsOk (onesX.shape.map fun d => [d, 1]) onesState := by
    obtain ⟨draws, hd, hi⟩ := ones_init
    have := (init_inv hi).1
    rwa [show draws.map Tensor.shape = onesX.shape.map fun d => [d, 1] from hd] at this
  obtain ⟨s, o, hm, hrel⟩ := NCP.main_exact ht (X := onesX) (R := 1) (le_refl 2) (by show 2 ≤ 25; omega) Nat.one_pos
    (by intro d hd; have : d ∈ [2, 2] := hd; simp at this; omega)
    ⟨[0, 0], by simp [onesX, InB], by simp [onesX, at_, ravel]⟩ hst rfl ones_exact
  have hh := train_one (A := exactArith ℝ) (c := NCP.cls topSv onesX 1) (args := { tol := 1 }) {} rfl hm
    (decide_eq_true (by rw [hrel]; norm_num))
  generalize hr : train (exactArith ℝ) (NCP.cls topSv onesX 1) { tol := 1 } 1 (.ok onesState) {} = r at hh
  obtain ⟨self', ev, h⟩ := r
  simp only at hh
  subst hh
  refine ⟨topSv, ht, self', ev, _, hr, ?_⟩
  obtain ⟨_, _, _, _, -, -, -, -, -, -, -, -, hf, -⟩ := train_ok hr
  rw [hf]; rfl

end TD.Props
