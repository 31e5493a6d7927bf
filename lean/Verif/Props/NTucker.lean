import Verif.Lemmas.NTuckerRun
import Verif.Props.Ncp

/-!
# C53, C54, C77, C78, C79 for `NTUCKER_BCU`
-/
namespace TD.Props
open TD Spec Tensor fact bcu

/-- Freshly initialised NTUCKER variables: any random draws of the right shapes. -/
def NtuckerInit (X : Tensor ℝ) (ranks : List Nat) (s : TState) : Prop :=
  ∃ draws gdraw, TuckerShapes X.shape ranks draws ∧ gdraw.shape = ranks ∧ NTUCKER.init X draws gdraw = .ok s

theorem ntucker_reach {topSv : Tensor ℝ → Res ℝ} {X : Tensor ℝ} {ranks : List Nat} (hr : ranks.length = X.shape.length)
    (h1 : 1 ≤ X.order) (h13 : X.order ≤ 13) {s : TState} (h : Reach (NTUCKER.cls topSv X) (NtuckerInit X ranks) s) :
    TkOk X.shape ranks s ∧ MomentumOk s.toState := by
  induction h with
  | fresh hi =>
      obtain ⟨draws, gdraw, hd, hg, hi⟩ := hi
      obtain ⟨a, b, -⟩ := NTUCKER.init_inv hi (tuckerShapes_iff.2 hd) hg
      exact ⟨a, b⟩
  | core _ hc hf ih =>
      cases hc
      obtain ⟨a, b, -⟩ := NTUCKER.core_ok ih.1 hf
      exact ⟨a, b ih.2⟩
  | main _ hm ih =>
      obtain ⟨a, b, -⟩ := NTUCKER.main_ok ih.1 hr h1 h13 hm
      exact ⟨a, (b ih.2).1⟩
  | op1 _ hu hf ih =>
      cases hu
      obtain ⟨a, b, -⟩ := NTUCKER.op1_ok ih.1 ih.2 hf
      exact ⟨a, b⟩
  | op2 _ hu hf ih =>
      cases hu
      obtain ⟨a, b, -⟩ := NTUCKER.op2_ok ih.1 ih.2 hf
      exact ⟨a, b⟩

/-- **C53** for `NTUCKER_BCU`: after any history of `train` calls on one object, with any random draws, all exposed
factors, the exposed core and the exposed full tensor are entrywise nonnegative.  Nothing is assumed about the entries
of `X`, the singular value routine or the arithmetic of the stopping test. -/
theorem C53_ntucker_nonneg (topSv : Tensor ℝ → Res ℝ) (X : Tensor ℝ) (ranks : List Nat)
    (hr : ranks.length = X.shape.length) (h1 : 1 ≤ X.order) (h13 : X.order ≤ 13)
    (Ar : Arith ℝ) (calls : List (Call TState ℝ)) (hc : ∀ c ∈ calls, ∀ s, c.fresh = .ok s → NtuckerInit X ranks s) :
    (∀ f, (history Ar (NTUCKER.cls topSv X) calls).1.factors = some f → ∀ M ∈ f, Nonneg M) ∧
    (∀ x, (history Ar (NTUCKER.cls topSv X) calls).1.full = some x → Nonneg x) ∧
    (∀ g, (history Ar (NTUCKER.cls topSv X) calls).1.aux = some g → Nonneg g) := by
  have h := history_exposes (Ar := Ar) (c := NTUCKER.cls topSv X) (init := NtuckerInit X ranks) hc
  refine ⟨fun f hf => ?_, fun x hx => ?_, fun g hg => ?_⟩
  · obtain ⟨s, s', o, hs, hm, rfl⟩ := h.factors f hf
    obtain ⟨a, -, -, -, -, -, -, e, -⟩ := NTUCKER.main_ok (ntucker_reach hr h1 h13 hs).1 hr h1 h13 hm
    rw [e]; exact a.factors.nonneg
  · obtain ⟨s, s', o, hs, hm, rfl⟩ := h.full x hx
    obtain ⟨-, -, -, -, -, -, -, -, -, -, -, e, -⟩ := NTUCKER.main_ok (ntucker_reach hr h1 h13 hs).1 hr h1 h13 hm
    exact e
  · rcases h.aux g hg with h | ⟨s, s', o, hs, hm, e⟩ | ⟨s, s', f, hs, hc, hf⟩
    · cases h
    · obtain ⟨s2, -, -, -, e2, -⟩ := NTUCKER.main_inv hm
      rw [e2] at e; cases e
    · cases hc
      obtain ⟨-, -, -, -, -, -, -, -, e, -⟩ := NTUCKER.core_ok (ntucker_reach hr h1 h13 hs).1 hf
      exact e

/-- **C54** for `NTUCKER_BCU`: in every reachable state, after any history of session runs, `1 ≤ t0 ≤ t`; no run
decreases `t`; and `train_op1` uses for each mode and for the core a weight in `[0,1)`, the extrapolated points being
`A + w (A - A0)` and `g + w (g - g0)`. -/
theorem C54_ntucker_momentum (topSv : Tensor ℝ → Res ℝ) (X : Tensor ℝ) (ranks : List Nat)
    (hr : ranks.length = X.shape.length) (h1 : 1 ≤ X.order) (h13 : X.order ≤ 13)
    (s : TState) (h : Reach (NTUCKER.cls topSv X) (NtuckerInit X ranks) s) :
    1 ≤ s.t0 ∧ s.t0 ≤ s.t ∧
    (∀ s' k, NTUCKER.core topSv X s = .ok (s', k) → s.t ≤ s'.t) ∧
    (∀ s' o, NTUCKER.main topSv X s = .ok (s', o) → s.t ≤ s'.t ∧ s'.t = (1 + Real.sqrt (1 + 4 * s'.t0 ^ 2)) / 2) ∧
    (∀ s', NTUCKER.op2 s = .ok s' → s.t ≤ s'.t) ∧
    ∀ s', NTUCKER.op1 X.order s = .ok s' → s.t ≤ s'.t ∧ s.t0 ≤ s'.t0 ∧ (∀ k < X.order, 0 ≤ s'.wA k ∧ s'.wA k < 1 ∧
      ∃ a a0 m, s.A[k]? = some a ∧ s.A0[k]? = some a0 ∧ s'.Am[k]? = some m ∧ m.shape = a.shape ∧
        ∀ i, InB a.shape i → m.at_ i = a.at_ i + s'.wA k * (a.at_ i - a0.at_ i)) ∧
      0 ≤ s'.wA X.order ∧ s'.wA X.order < 1 ∧ s'.gm.shape = s.g.shape ∧
      ∀ i, InB s.g.shape i → s'.gm.at_ i = s.g.at_ i + s'.wA X.order * (s.g.at_ i - s.g0.at_ i) := by
  obtain ⟨hf, hm⟩ := ntucker_reach hr h1 h13 h
  refine ⟨hm.1, hm.le, fun s' k h' => ?_, fun s' o h' => ?_, fun s' h' => ?_, fun s' h' => ?_⟩
  · exact le_of_eq (NTUCKER.core_ok hf h').2.2.1.symm
  · obtain ⟨-, b, -⟩ := NTUCKER.main_ok hf hr h1 h13 h'
    refine ⟨(b hm).2, ?_⟩
    obtain ⟨s1, -, rfl, -⟩ := NTUCKER.main_inv h'
    rfl
  · exact le_of_eq (NTUCKER.op2_ok hf hm h').2.2.symm
  · obtain ⟨e0, -, -, e1, e2, -, -, e3, e4, e5, -, e6⟩ := NTUCKER.op1_ok hf hm h'
    refine ⟨le_of_eq e1.symm, by rw [e2]; exact hm.le, fun k hk => ?_, e4, e5, by rw [e0.gm, hf.g], e6⟩
    obtain ⟨a1, a2, -, a, a0, m, b1, b2, b3, -, b5, b6⟩ := e3 k hk
    exact ⟨a1, a2, a, a0, m, b1, b2, b3, b5, b6⟩

/-- **C77** (core): the core update is undefined (division by zero) iff a factor is zero.  Otherwise against every
nonnegative competitor `B`, `f(new) ≤ f(B) + L ‖B - gm‖² - L ‖B - new‖²`; so if the extrapolated core equals the current one the
error does not increase. -/
theorem C77_core_update_descends (topSv : Tensor ℝ → Res ℝ) (ht : TopSvOk topSv) (X : Tensor ℝ) (ranks : List Nat)
    (hr : ranks.length = X.shape.length) (h1 : 1 ≤ X.order) (h13 : X.order ≤ 13) (hrp : ∀ d ∈ ranks, 0 < d)
    (s : TState) (h : Reach (NTUCKER.cls topSv X) (NtuckerInit X ranks) s) :
    (NTUCKER.core topSv X s = .error .nonFinite ∧
      ∃ M ∈ s.A, ∀ a < M.shape.getD 0 0, ∀ b < M.shape.getD 1 0, M.at_ [a, b] = 0) ∨
    (∀ M ∈ s.A, ∃ a < M.shape.getD 0 0, ∃ b < M.shape.getD 1 0, M.at_ [a, b] ≠ 0) ∧
    ∃ s' Z, NTUCKER.core topSv X s = .ok (s', Z) ∧ s'.g = Z ∧ s'.A = s.A ∧ 0 < s'.L X.order ∧ Nonneg Z ∧
      (∀ B, B.shape = ranks → Nonneg B →
        tkErr X Z s.A ≤ tkErr X B s.A + s'.L X.order * distSqT B s.gm - s'.L X.order * distSqT B Z) ∧
      (s.gm = s.g → tkErr X s'.g s'.A ≤ tkErr X s.g s.A) := by
  obtain ⟨hf, -⟩ := ntucker_reach hr h1 h13 h
  rcases NTUCKER.core_spec ht hf hr h1 h13 hrp with h | ⟨hne, Z, l, e, l0, z1, z2, z3⟩
  · exact Or.inl h
  · refine Or.inr ⟨hne, _, Z, e, rfl, rfl, ?_, z2, ?_, fun hgm => ?_⟩
    · simp only [Function.update_self]; exact l0
    · simp only [Function.update_self]; exact z3
    · have := z3 s.g hf.g hf.nonneg
      rw [hgm, distSqT_self] at this
      have h3 := mul_nonneg l0.le (distSqT_nonneg s.g Z)
      simp only
      linarith

/-- **C77** (mode): the update of factor `n` either divides by zero, and then that factor does not matter (the error
is `‖X‖²` whatever it is), or satisfies the three-point inequality against every nonnegative competitor; so if the
extrapolated point equals the current factor the error does not increase. -/
theorem C77_mode_update_descends (topSv : Tensor ℝ → Res ℝ) (ht : TopSvOk topSv) (X g : Tensor ℝ) (ranks : List Nat)
    (n : Nat) (st : State) (m a : Tensor ℝ) (hA : TuckerShapes X.shape ranks st.A) (hAm : TuckerShapes X.shape ranks st.Am)
    (hr : ranks.length = X.shape.length) (hg : g.shape = ranks) (h2 : 2 ≤ X.order) (h13 : X.order ≤ 13)
    (hn : n < X.order) (hpos : 0 < X.shape.getD n 0) (hrp : 0 < ranks.getD n 0)
    (hm : st.Am[n]? = some m) (ha : st.A[n]? = some a) (hnn : Nonneg a) :
    (NTUCKER.modeUpdate topSv X g st n = .error .nonFinite ∧
      ∀ B, B.shape = [X.shape.getD n 0, ranks.getD n 0] → tkErr X g (st.A.set n B) = normSqT X) ∨
    ∃ st' Z, NTUCKER.modeUpdate topSv X g st n = .ok st' ∧ st'.A = st.A.set n Z ∧ Nonneg Z ∧ Z.shape = a.shape ∧
      0 < st'.L n ∧
      (∀ B, B.shape = [X.shape.getD n 0, ranks.getD n 0] → Nonneg B →
        tkErr X g st'.A ≤ tkErr X g (st.A.set n B) + st'.L n * distSqT B m - st'.L n * distSqT B Z) ∧
      (m = a → tkErr X g st'.A ≤ tkErr X g st.A) := by
  rcases NTUCKER.modeUpdate_total ht hA hAm hr hg h2 h13 hn hpos hrp with ⟨st', e⟩ | h
  · obtain ⟨Z, z1, z2, z3, z4, z5⟩ := NTUCKER.three_point ht hA hr hg h2 h13 hn hpos hrp hm (hAm.2 n _ hm) e
    refine Or.inr ⟨st', Z, e, z3, z2, by rw [z1, hA.2 n _ ha], z4, fun B hB hB' => by rw [z3]; exact z5 B hB hB', fun hma => ?_⟩
    have hd := z5 a (hA.2 n _ ha) hnn
    obtain ⟨hn', hget⟩ := List.getElem?_eq_some_iff.1 ha
    have hset : st.A.set n a = st.A := by rw [← hget]; exact List.set_getElem_self _
    rw [hset, hma, distSqT_self] at hd
    have h3 := mul_nonneg z4.le (distSqT_nonneg a Z)
    rw [z3]
    linarith
  · exact Or.inl h

/-- **C78** for `NTUCKER_BCU`: the first residual is at most that of the initial core and factors, and the second is at
most the first. -/
theorem C78_ntucker_first_two_steps (topSv : Tensor ℝ → Res ℝ) (ht : TopSvOk topSv) (X : Tensor ℝ) (ranks : List Nat)
    (hr : ranks.length = X.shape.length) (h2 : 2 ≤ X.order) (h13 : X.order ≤ 13) (hrp : ∀ d ∈ ranks, 0 < d)
    (hpos : ∀ d ∈ X.shape, 0 < d) (s0 : TState)
    (h0 : NtuckerInit X ranks s0) (args : Args ℝ) (steps : Int)
    (self self' : Self (List (Tensor ℝ)) (Tensor ℝ) (Tensor ℝ)) (ev : List Int) (hist : List (ℝ × ℝ))
    (h : train (exactArith ℝ) (NTUCKER.cls topSv X) args steps (.ok s0) self = (self', ev, .ok hist)) :
    (∀ p, hist[0]? = some p → p.2 ≤ Real.sqrt (tkErr X s0.g s0.A) / Real.sqrt (normSqT X)) ∧
    ∀ p q, hist[0]? = some p → hist[1]? = some q → q.2 ≤ p.2 := by
  have h1 : 1 ≤ X.order := by omega
  obtain ⟨s1, o, k, hs1, hlen, -, hrun, hh⟩ := C43_history _ _ args steps _ self self' ev hist h
  cases hs1
  obtain ⟨σ, e0, hσ⟩ := run_reach (init := NtuckerInit X ranks) h0 hrun
  obtain ⟨hr0, s, hrs, hrun0, hup0⟩ := hσ 0 (by omega)
  rw [e0] at hrun0
  obtain ⟨c, v, hc0, -, hm0⟩ : ∃ c v, NTUCKER.core topSv X s0 = .ok (c, v) ∧ some v = k 0 ∧
      NTUCKER.main topSv X c = .ok (s, o 0) := by
    obtain ⟨c, v, a, b, d⟩ := hrun0
    exact ⟨c, v, a, b.symm, d⟩
  obtain ⟨draws, gdraw, hd, hg, hi⟩ := h0
  obtain ⟨i1, i2, i3, -, i5, -, i7⟩ := NTUCKER.init_inv hi (tuckerShapes_iff.2 hd) hg
  obtain ⟨d1, d2⟩ := NTUCKER.step_descends ht hr h2 h13 hrp hpos i1 i3 i5 hc0 hm0
  obtain ⟨c1, c2, c3, c4, -⟩ := NTUCKER.core_ok i1 hc0
  obtain ⟨a1, a2, a3, -, -, -, -, -, -, -, -, -, -, -, a15, a16⟩ := NTUCKER.main_ok c1 hr h1 h13 hm0
  have hX := Real.sqrt_pos.2 a16
  constructor
  · intro p hp
    rw [hh 0 (by omega)] at hp
    cases hp
    simp only
    rw [a15]
    have := d2.trans d1
    gcongr
  · intro p q hp hq
    have hl1 : 1 < hist.length := (List.getElem?_eq_some_iff.1 hq).1
    rw [hh 0 (by omega)] at hp
    rw [hh 1 hl1] at hq
    cases hp; cases hq
    simp only
    obtain ⟨hr1, s', hrs', hrun1, -⟩ := hσ 1 hl1
    have hop : NTUCKER.op1 X.order s = .ok (σ 1) := by
      have := hup0 hl1
      have hlt : (exactArith ℝ).lt (o 0).obj (refObj (exactArith ℝ) (NTUCKER.cls topSv X).update.isSome
          (fun i => (o i).obj) 0) = true := decide_eq_true (by exact lt_add_one _)
      change if (exactArith ℝ).lt (o 0).obj _ = true then NTUCKER.op1 X.order s = .ok (σ (0 + 1)) else _ at this
      rw [if_pos hlt] at this
      exact this
    have hms := (a2 (c2 i2)).1
    obtain ⟨b1, b2, b3, b4, b5, bg, -, b6, w0, -, w1, w2⟩ := NTUCKER.op1_ok a1 hms hop
    have ht0 : s.t0 = 1 := by rw [a3, c4, i7]
    have hz : (s.t0 - 1) / s.t = 0 := by rw [ht0, sub_self, zero_div]
    have hAm : (σ 1).Am = (σ 1).A := by
      refine List.ext_getElem? fun k => ?_
      have hl : (σ 1).A.length = X.order := b1.shapes.1
      have hlm : (σ 1).Am.length = X.order := (tuckerShapes_iff.1 b1.factors.Am).1
      by_cases hk : k < X.order
      · obtain ⟨w0, -, w1, a, a0, m, c1, c2, c3, c4, c5, c6⟩ := b6 k hk
        have hw : (σ 1).wA k = 0 := by
          rw [hz] at w1
          exact le_antisymm w1 w0
        rw [c3, b3, c1]
        congr 1
        exact ext_at c5 fun i hi' => by
          rw [c5] at hi'
          rw [c6 i hi', hw]; ring
      · rw [List.getElem?_eq_none (by omega), List.getElem?_eq_none (by omega)]
    have hgm : (σ 1).gm = (σ 1).g := by
      refine ext_at (by rw [b1.gm, b1.g]) fun i hi' => ?_
      rw [b1.gm, ← a1.g] at hi'
      have hw : (σ 1).wA X.order = 0 := by
        rw [hz] at w1
        exact le_antisymm w1 w0
      rw [w2 i hi', bg, hw]; ring
    obtain ⟨c', v', hc1, -, hm1⟩ : ∃ c v, NTUCKER.core topSv X (σ 1) = .ok (c, v) ∧ some v = k 1 ∧
        NTUCKER.main topSv X c = .ok (s', o 1) := by
      obtain ⟨c, v, a, b, d⟩ := hrun1
      exact ⟨c, v, a, b.symm, d⟩
    obtain ⟨f1, f2⟩ := NTUCKER.step_descends ht hr h2 h13 hrp hpos b1 hAm hgm hc1 hm1
    obtain ⟨g1, -⟩ := NTUCKER.core_ok b1 hc1
    obtain ⟨-, -, -, -, -, -, -, -, -, -, -, -, -, -, g15, -⟩ := NTUCKER.main_ok g1 hr h1 h13 hm1
    rw [g15, a15]
    have := f2.trans f1
    rw [bg, b3] at this
    gcongr

/-- **C79** for `NTUCKER_BCU`: if the initial core and factors reproduce a nonzero tensor exactly, `train` (any
`steps ≥ 1`, positive tolerance) is defined, stops after the first step and reports residual 0. -/
theorem C79_ntucker_exact_fit (topSv : Tensor ℝ → Res ℝ) (ht : TopSvOk topSv) (X : Tensor ℝ) (ranks : List Nat)
    (hr : ranks.length = X.shape.length) (h2 : 2 ≤ X.order) (h13 : X.order ≤ 13) (hrp : ∀ d ∈ ranks, 0 < d)
    (hpos : ∀ d ∈ X.shape, 0 < d) (hX : ∃ i, InB X.shape i ∧ X.at_ i ≠ 0) (s0 : TState) (h0 : NtuckerInit X ranks s0)
    (hfit : ∀ i, InB X.shape i → X.at_ i = boxSum ranks fun j => s0.g.at_ j * kronEntry s0.A i j) (args : Args ℝ)
    (htol : 0 < args.tol) (steps : Int) (h1 : 1 ≤ steps) (self : Self (List (Tensor ℝ)) (Tensor ℝ) (Tensor ℝ)) :
    ∃ self' ev l, train (exactArith ℝ) (NTUCKER.cls topSv X) args steps (.ok s0) self = (self', ev, .ok [(l, 0)]) := by
  obtain ⟨draws, gdraw, hd, hg, hi⟩ := h0
  obtain ⟨i1, -, i3, -, i5, -⟩ := NTUCKER.init_inv hi (tuckerShapes_iff.2 hd) hg
  have hz : tkErr X s0.g s0.A = 0 := by
    unfold tkErr
    rw [boxSum_congr (g := fun _ => (0 : ℝ)) (fun i hi => by rw [hfit i hi, i1.g]; simp), boxSum_zero]
  obtain ⟨s, k, st', o, e1, e2, hrel⟩ := NTUCKER.step_exact ht hr h2 h13 hrp hpos hX i1 i3 i5 hz
  have hh := train_first (A := exactArith ℝ) (c := NTUCKER.cls topSv X) (args := args) self h1
    (Or.inr ⟨_, k, rfl, e1⟩) e2 (decide_eq_true (by rw [hrel]; exact htol))
  rw [hrel] at hh
  exact ⟨_, _, o.loss, Prod.ext rfl (Prod.ext rfl hh)⟩

/-! ### A concrete run -/

/-- Core draw and cube root of 2 for the 2×2 matrix of ones, ranks `[1, 1]`. -/
def onesG : Tensor ℝ := ⟨[1, 1], [1], rfl⟩
@[inherit_doc onesG] noncomputable def cbrt2 : ℝ := Real.rpow 2 (1 / ((3 : ℕ) : ℝ))

theorem cbrt2_cube : cbrt2 * cbrt2 * cbrt2 = 2 := by
  unfold cbrt2
  have : Real.rpow 2 (1 / ((3 : ℕ) : ℝ)) = (2 : ℝ) ^ (((3 : ℕ) : ℝ)⁻¹) := by rw [one_div]; rfl
  rw [this]
  have h := Real.rpow_inv_natCast_pow (x := 2) (n := 3) (by norm_num) (by norm_num)
  calc _ = ((2 : ℝ) ^ (((3 : ℕ) : ℝ)⁻¹)) ^ 3 := by ring
    _ = 2 := h

@[inherit_doc onesG] noncomputable def onesA : Tensor ℝ :=
  ⟨[2, 1], [1 / Real.sqrt 2 * cbrt2, 1 / Real.sqrt 2 * cbrt2], rfl⟩
@[inherit_doc onesG] noncomputable def onesCore : Tensor ℝ := ⟨[1, 1], [cbrt2], rfl⟩

/-- The state those draws lead to. -/
noncomputable def onesTState : TState :=
  { A := [onesA, onesA], A0 := [onesA, onesA], Am := [onesA, onesA], L := fun _ => 1, L0 := fun _ => 1, wA := fun _ => 1,
    t := 1, t0 := 1, g := onesCore, g0 := onesCore, gm := onesCore }

theorem onesT_init : NtuckerInit onesX [1, 1] onesTState := by
  refine ⟨[onesDraw, onesDraw], onesG, ⟨rfl, fun k M hM => ?_⟩, rfl, ?_⟩
  · match k, hM with
    | 0, hM => cases hM; rfl
    | 1, hM => cases hM; rfl
    | k + 2, hM => simp at hM
  · have h : Real.sqrt 2 ≠ 0 := by positivity
    have hA : normInit onesX (onesX.order + 1) (relu onesDraw) = .ok onesA := by
      unfold normInit
      rw [ones_relu, ones_draw_norm, if_neg h, ones_norm]
      rfl
    have hg : tf.norm onesG = 1 := by simp [tf.norm, tf.reduceSum, tf.total_eq, tf.map, onesG]
    have hgr : relu onesG = onesG := by simp [relu, tf.map, onesG]
    have hG : normInit onesX (onesX.order + 1) (relu onesG) = .ok onesCore := by
      unfold normInit
      rw [hgr, hg, if_neg one_ne_zero, ones_norm]
      congr 1
      unfold onesG tf.map onesCore
      simp only [List.map_cons, List.map_nil, div_one, one_mul]
      rfl
    have hl : [onesDraw, onesDraw].mapM (fun d => normInit onesX (onesX.order + 1) (relu d)) = .ok [onesA, onesA] := by
      rw [List.mapM_cons, List.mapM_cons, List.mapM_nil, hA]; rfl
    unfold NTUCKER.init bcu.init
    rw [hl, ok_bind, hG]; rfl

theorem onesT_exact : tkErr onesX onesTState.g onesTState.A = 0 := by
  have h : (1 : ℝ) - cbrt2 * ((Real.sqrt 2)⁻¹ * cbrt2 * ((Real.sqrt 2)⁻¹ * cbrt2)) = 0 := by
    have h2 : (Real.sqrt 2)⁻¹ * (Real.sqrt 2)⁻¹ = 1 / 2 := by
      rw [← mul_inv, Real.mul_self_sqrt (by norm_num)]; norm_num
    have : cbrt2 * ((Real.sqrt 2)⁻¹ * cbrt2 * ((Real.sqrt 2)⁻¹ * cbrt2)) =
        ((Real.sqrt 2)⁻¹ * (Real.sqrt 2)⁻¹) * (cbrt2 * cbrt2 * cbrt2) := by ring
    rw [this, h2, cbrt2_cube]; norm_num
  unfold tkErr
  simp [onesX, onesTState, onesA, onesCore, boxSum, kronEntry, at_, ravel, Finset.sum_range_succ, h]

/-- The hypotheses of C53, C54, C77 and C78 are met together, and `train` returns, for instance here. -/
theorem ntucker_example : ∃ topSv, TopSvOk topSv ∧ ∀ steps : Int, 1 ≤ steps → ∃ self' ev hist,
    train (exactArith ℝ) (NTUCKER.cls topSv onesX) { tol := 1 } steps (.ok onesTState) {} = (self', ev, .ok hist) ∧
    self'.factors.isSome := by
  obtain ⟨topSv, ht⟩ := exists_topSvOk
  refine ⟨topSv, ht, fun steps h1 => ?_⟩
  obtain ⟨draws, gdraw, hd, hg, hi⟩ := onesT_init
  obtain ⟨i1, -⟩ := NTUCKER.init_inv hi (tuckerShapes_iff.2 hd) hg
  obtain ⟨s, k, st', o, e1, e2, e3⟩ := NTUCKER.step_exact ht (X := onesX) (ranks := [1, 1]) rfl (le_refl 2)
    (by show 2 ≤ 13; omega) (by simp) (by intro d hd; have : d ∈ [2, 2] := hd; simp at this; omega)
    ⟨[0, 0], by simp [onesX, InB], by simp [onesX, at_, ravel]⟩ i1 rfl rfl onesT_exact
  have hh := train_first (A := exactArith ℝ) (c := NTUCKER.cls topSv onesX) (args := { tol := 1 }) {} h1
    (Or.inr ⟨_, k, rfl, e1⟩) e2 (decide_eq_true (by rw [e3]; norm_num))
  generalize hr : train (exactArith ℝ) (NTUCKER.cls topSv onesX) { tol := 1 } steps (.ok onesTState) {} = r at hh
  obtain ⟨self', ev, h⟩ := r
  simp only at hh
  subst hh
  refine ⟨self', ev, _, rfl, ?_⟩
  obtain ⟨_, _, _, _, -, -, -, -, -, -, -, -, hf, -⟩ := train_ok hr
  rw [hf]; rfl

end TD.Props
