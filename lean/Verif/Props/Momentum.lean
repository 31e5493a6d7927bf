import Verif.Lemmas.Momentum
import Verif.Props.NTucker

/-!
# C83 : where `NCP_BCU` and `NTUCKER_BCU` restart and extrapolate from
-/
namespace TD.Props
open TD Spec Tensor fact bcu

theorem improves_half {e o : Nat → ℝ} {n j : Nat} (h : ∀ i < n, o i = e i / 2) (hj : j < n) :
    (∀ i < j, o j < o i) ↔ Improves e j := by
  refine forall_congr' fun i => forall_congr' fun hi => ?_
  rw [h j hj, h i (by omega)]
  constructor <;> intro h <;> linarith

/-- C83 for `NCP_BCU` together with the shapes of the variables. -/
theorem ncp_iterates (topSv : Tensor ℝ → Res ℝ) (X : Tensor ℝ) (R : Nat) (hne : X.shape ≠ [])
    (h25 : X.order ≤ 25) (s0 : State) (h0 : NcpInit X R s0) (args : Args ℝ) (steps : Int)
    (self self' : Self (List (Tensor ℝ)) (Tensor ℝ) (Tensor ℝ)) (ev : List Int) (hist : List (ℝ × ℝ))
    (h : train (exactArith ℝ) (NCP.cls topSv X R) args steps (.ok s0) self = (self', ev, .ok hist)) :
    ∃ (F M : Nat → List (Tensor ℝ)) (lip : Nat → Nat → ℝ), F 0 = s0.A ∧ M 0 = s0.A ∧ (∀ k, lip 0 k = 1) ∧
      self'.factors = some (F hist.length) ∧
      ∀ j < hist.length,
        hist[j]?.map Prod.snd = some (Real.sqrt (cpErr X R (F (j + 1)) fun _ => 1) / Real.sqrt (normSqT X)) ∧
        (∃ s s' o, FactorsOk (X.shape.map fun d => [d, R]) s ∧ NCP.main topSv X s = .ok (s', o) ∧ s.A = F j ∧ s.Am = M j ∧ s'.A = F (j + 1) ∧ o.factors = F (j + 1) ∧
          ∀ k < X.order, s'.L k = lip (j + 1) k) ∧
        (j + 1 < hist.length →
          let e := fun i => cpErr X R (F (i + 1)) fun _ => 1
          (Improves e j → ∀ k < X.order, ∃ a b m, (F (j + 1))[k]? = some a ∧ (F (best e j))[k]? = some b ∧
            (M (j + 1))[k]? = some m ∧ m.shape = a.shape ∧ ∀ i, InB a.shape i →
              m.at_ i = a.at_ i + extraWeight e j (lip j k) (lip (j + 1) k) * (a.at_ i - b.at_ i)) ∧
          (¬ Improves e j → M (j + 1) = F (best e j))) := by
  classical
  obtain ⟨s0', o, kc, σ, hs0, hσ0, hh, hfac, -, hst⟩ := extrapolate_run _ _ _ rfl args steps _ self self' ev hist h
  cases hs0
  have hlen : 1 ≤ hist.length := (C43_history _ _ args steps _ self self' ev hist h).choose_spec.choose_spec.choose_spec.2.1
  generalize hn : hist.length = n at hh hst hfac hlen
  have hst' : ∀ j, ∃ s, j < n → NCP.main topSv X (σ j) = .ok (s, o j) ∧ (j + 1 < n →
      ((∀ i < j, (o j).obj < (o i).obj) → NCP.op1 X.order s = .ok (σ (j + 1))) ∧
      ((∃ i < j, (o i).obj ≤ (o j).obj) → NCP.op2 s = .ok (σ (j + 1)))) := by
    intro j
    by_cases hj : j < n
    · obtain ⟨s, a, b⟩ := hst j hj
      exact ⟨s, fun _ => ⟨a.2, b⟩⟩
    · exact ⟨s0, fun h => absurd h hj⟩
  choose s hs using hst'
  obtain ⟨draws, hd, hi⟩ := h0
  obtain ⟨i1, i2, i3, i4⟩ := init_inv hi
  rw [show draws.map Tensor.shape = X.shape.map fun d => [d, R] from hd] at i1
  have hiv : s0.t0 = 1 ∧ s0.L = fun _ => 1 := by
    unfold bcu.init at hi
    cases h1 : draws.mapM (fun d => normInit X X.order (relu d)) with
    | error e => rw [h1] at hi; cases hi
    | ok A => rw [h1, ok_bind] at hi; cases hi; exact ⟨rfl, rfl⟩
  obtain ⟨F, hF⟩ : ∃ F : Nat → List (Tensor ℝ), F = fun j => match j with | 0 => s0.A | j + 1 => (s j).A := ⟨_, rfl⟩
  obtain ⟨lip, hlip⟩ : ∃ lip : Nat → Nat → ℝ, lip = fun j => match j with | 0 => s0.L | j + 1 => (s j).L := ⟨_, rfl⟩
  have hF0 : F 0 = s0.A := by rw [hF]
  have hF1 : ∀ j, F (j + 1) = (s j).A := fun j => by rw [hF]
  have hl0 : lip 0 = s0.L := by rw [hlip]
  have hl1 : ∀ j, lip (j + 1) = (s j).L := fun j => by rw [hlip]
  clear hF hlip
  obtain ⟨e, he⟩ : ∃ e : Nat → ℝ, e = fun i => cpErr X R (F (i + 1)) fun _ => 1 := ⟨_, rfl⟩
  have hev : ∀ i, e i = cpErr X R (s i).A fun _ => 1 := fun i => by rw [he]; simp only [hF1]
  -- facts about every state before a step
  have hok : ∀ j < n, FactorsOk (X.shape.map fun d => [d, R]) (σ j) ∧ MomentumOk (σ j) := by
    intro j
    induction j with
    | zero => intro _; rw [hσ0]; exact ⟨i1, i2⟩
    | succ j ih =>
        intro hj
        obtain ⟨a, b⟩ := ih (by omega)
        obtain ⟨hm, hu⟩ := hs j (by omega)
        obtain ⟨a', b', -⟩ := NCP.main_ok a hne h25 hm
        obtain ⟨u1, u2⟩ := hu hj
        by_cases hi : ∀ i < j, (o j).obj < (o i).obj
        · obtain ⟨c, d, -⟩ := NCP.op1_ok a' (b' b).1 (u1 hi)
          exact ⟨c, d⟩
        · push Not at hi
          obtain ⟨c, d, -⟩ := NCP.op2_ok a' (b' b).1 (u2 hi)
          exact ⟨c, d⟩
  have hobj : ∀ j < n, (o j).obj = e j / 2 := by
    intro j hj
    obtain ⟨-, -, -, -, -, -, -, -, -, -, a, -⟩ := NCP.main_ok (hok j hj).1 hne h25 (hs j hj).1
    rw [a, hev]
  have hinv : ∀ j < n, (σ j).A = F j ∧ (σ j).A0 = F (best e j) ∧ (σ j).t0 = tau (improvements e j) ∧
      ∀ k < X.order, (σ j).L k = lip j k := by
    intro j
    induction j with
    | zero =>
        intro _
        rw [hσ0]
        exact ⟨hF0.symm, by rw [i4, best, hF0], by rw [hiv.1]; rfl, fun k _ => by rw [hl0]⟩
    | succ j ih =>
        intro hj
        obtain ⟨a1, a2, a3, a4⟩ := ih (by omega)
        obtain ⟨f1, f2⟩ := hok j (by omega)
        obtain ⟨hm, hu⟩ := hs j (by omega)
        obtain ⟨b1, b2, b3, b4, b5, -⟩ := NCP.main_ok f1 hne h25 hm
        obtain ⟨c1, c2⟩ := NCP.main_lip hm
        obtain ⟨u1, u2⟩ := hu hj
        have himp := improves_half hobj (show j < n by omega)
        by_cases hi : Improves e j
        · have hop := u1 (himp.2 hi)
          obtain ⟨d1, d2, d3, d4, d5, d6⟩ := NCP.op1_ok b1 (b2 f2).1 hop
          obtain ⟨-, g2⟩ := NCP.op1_weight hop
          refine ⟨by rw [d3, hF1], ?_, ?_, fun k _ => by rw [g2, hl1]⟩
          · rw [best, if_pos hi, hF1]
            refine List.ext_getElem? fun k => ?_
            by_cases hk : k < X.order
            · obtain ⟨-, -, -, a, -, -, e1, -, -, e2, -⟩ := d6 k hk
              rw [e1, e2]
            · have l1 : (σ (j + 1)).A0.length = X.order := d1.factorsFor.2.1.length
              have l2 : (s j).A.length = X.order := b1.factorsFor.1.length
              rw [List.getElem?_eq_none (by omega), List.getElem?_eq_none (by omega)]
          · rw [d5, c2, b3, a3, improvements, if_pos hi, tau]
        · have hop := u2 (by have := mt himp.1 hi; push Not at this; exact this)
          obtain hop := Except.ok.inj hop
          rw [← hop]
          refine ⟨(hF1 j).symm, ?_, ?_, fun k _ => by rw [hl1]⟩
          · simp only [best, if_neg hi]; rw [b5, a2]
          · simp only [improvements, if_neg hi]; rw [b3, a3]
  refine ⟨F, fun j => (σ j).Am, lip, hF0, by simp only [hσ0]; rw [i3], fun k => by rw [hl0, hiv.2], ?_, fun j hj => ?_⟩
  · obtain ⟨m, rfl⟩ : ∃ m, n = m + 1 := ⟨n - 1, by omega⟩
    obtain ⟨-, -, -, -, -, b6, -⟩ := NCP.main_ok (hok m (by omega)).1 hne h25 (hs m (by omega)).1
    rw [hfac, hF1, ← b6]; rfl
  · obtain ⟨a1, a2, a3, a4⟩ := hinv j hj
    obtain ⟨f1, f2⟩ := hok j hj
    obtain ⟨hm, hu⟩ := hs j hj
    obtain ⟨b1, b2, b3, b4, b5, b6, -, -, -, -, -, b12, -⟩ := NCP.main_ok f1 hne h25 hm
    obtain ⟨c1, c2⟩ := NCP.main_lip hm
    refine ⟨?_, ⟨σ j, s j, o j, f1, hm, a1, rfl, (hF1 j).symm, by rw [b6, hF1], fun k _ => by rw [hl1]⟩, fun hj1 => ?_⟩
    · rw [hh]
      simp only [List.getElem?_map, List.getElem?_range hj, Option.map_some]
      rw [b12, hF1]
    · obtain ⟨u1, u2⟩ := hu hj1
      have himp := improves_half hobj hj
      simp only
      rw [← he]
      refine ⟨fun hi k hk => ?_, fun hi => ?_⟩
      · have hop := u1 (himp.2 hi)
        obtain ⟨d1, d2, d3, d4, d5, d6⟩ := NCP.op1_ok b1 (b2 f2).1 hop
        obtain ⟨w1, -⟩ := NCP.op1_weight hop
        obtain ⟨-, -, -, a, b, m, e1, e2, e3, -, e5, e6⟩ := d6 k hk
        refine ⟨a, b, m, by rw [hF1]; exact e1, by rw [← a2, ← b5]; exact e2, e3, e5, fun i hi' => ?_⟩
        rw [e6 i hi', w1 k hk, c1 k hk, a4 k hk, c2, b3, a3, ← hl1]
        rfl
      · have hop := u2 (by have := mt himp.1 hi; push Not at this; exact this)
        rw [← Except.ok.inj hop]
        simp only
        rw [b5, a2]

/-- **C83** for `NCP_BCU`.  In a call of `train` that returns, let iterate 0 be the initial factors and iterate `j + 1`
the factors fetched by step `j`.  Step `j` starts from iterate `j` with extrapolated points `M j` (initially iterate 0).
If it has the smallest error so far, the next extrapolated points are `a + w (a - b)` with `a` iterate `j + 1`, `b` the
best iterate before, and `w = min((τ_i - 1)/τ_{i+1}, √(L/L'))` where `i` counts the earlier improvements and `L`, `L'` are
the Lipschitz constants of the previous and this step.  Otherwise they are the best iterate.  A rejected iterate is not
undone: it remains the starting point of the next step, and is what the object exposes at the end. -/
theorem C83_ncp_extrapolation (topSv : Tensor ℝ → Res ℝ) (X : Tensor ℝ) (R : Nat) (hne : X.shape ≠ [])
    (h25 : X.order ≤ 25) (s0 : State) (h0 : NcpInit X R s0) (args : Args ℝ) (steps : Int)
    (self self' : Self (List (Tensor ℝ)) (Tensor ℝ) (Tensor ℝ)) (ev : List Int) (hist : List (ℝ × ℝ))
    (h : train (exactArith ℝ) (NCP.cls topSv X R) args steps (.ok s0) self = (self', ev, .ok hist)) :
    ∃ (F M : Nat → List (Tensor ℝ)) (lip : Nat → Nat → ℝ), F 0 = s0.A ∧ M 0 = s0.A ∧ (∀ k, lip 0 k = 1) ∧
      self'.factors = some (F hist.length) ∧
      ∀ j < hist.length,
        hist[j]?.map Prod.snd = some (Real.sqrt (cpErr X R (F (j + 1)) fun _ => 1) / Real.sqrt (normSqT X)) ∧
        (∃ s s' o, NCP.main topSv X s = .ok (s', o) ∧ s.A = F j ∧ s.Am = M j ∧ s'.A = F (j + 1) ∧ o.factors = F (j + 1) ∧
          ∀ k < X.order, s'.L k = lip (j + 1) k) ∧
        (j + 1 < hist.length →
          let e := fun i => cpErr X R (F (i + 1)) fun _ => 1
          (Improves e j → ∀ k < X.order, ∃ a b m, (F (j + 1))[k]? = some a ∧ (F (best e j))[k]? = some b ∧
            (M (j + 1))[k]? = some m ∧ m.shape = a.shape ∧ ∀ i, InB a.shape i →
              m.at_ i = a.at_ i + extraWeight e j (lip j k) (lip (j + 1) k) * (a.at_ i - b.at_ i)) ∧
          (¬ Improves e j → M (j + 1) = F (best e j))) := by
  obtain ⟨F, M, lip, h1, h2, h3, h4, h5⟩ := ncp_iterates topSv X R hne h25 s0 h0 args steps self self' ev hist h
  refine ⟨F, M, lip, h1, h2, h3, h4, fun j hj => ?_⟩
  obtain ⟨a, ⟨s, s', o, -, b⟩, c⟩ := h5 j hj
  exact ⟨a, ⟨s, s', o, b⟩, c⟩

/-- C83 for `NTUCKER_BCU` together with the shapes of the variables. -/
theorem ntucker_iterates (topSv : Tensor ℝ → Res ℝ) (X : Tensor ℝ) (ranks : List Nat)
    (hr : ranks.length = X.shape.length) (h1 : 1 ≤ X.order) (h13 : X.order ≤ 13)
    (s0 : TState) (h0 : NtuckerInit X ranks s0) (args : Args ℝ) (steps : Int)
    (self self' : Self (List (Tensor ℝ)) (Tensor ℝ) (Tensor ℝ)) (ev : List Int) (hist : List (ℝ × ℝ))
    (h : train (exactArith ℝ) (NTUCKER.cls topSv X) args steps (.ok s0) self = (self', ev, .ok hist)) :
    ∃ (F M : Nat → List (Tensor ℝ)) (G N : Nat → Tensor ℝ) (lip : Nat → Nat → ℝ),
      F 0 = s0.A ∧ M 0 = s0.A ∧ G 0 = s0.g ∧ N 0 = s0.g ∧ (∀ k, lip 0 k = 1) ∧
      self'.factors = some (F hist.length) ∧ self'.aux = some (G hist.length) ∧
      ∀ j < hist.length,
        hist[j]?.map Prod.snd = some (Real.sqrt (tkErr X (G (j + 1)) (F (j + 1))) / Real.sqrt (normSqT X)) ∧
        (∃ s s1 s' o, TkOk X.shape ranks s ∧ NTUCKER.core topSv X s = .ok (s1, G (j + 1)) ∧ NTUCKER.main topSv X s1 = .ok (s', o) ∧
          s.A = F j ∧ s.Am = M j ∧ s.g = G j ∧ s.gm = N j ∧ s'.A = F (j + 1) ∧ s'.g = G (j + 1) ∧ o.factors = F (j + 1) ∧
          ∀ k ≤ X.order, s'.L k = lip (j + 1) k) ∧
        (j + 1 < hist.length →
          let e := fun i => tkErr X (G (i + 1)) (F (i + 1))
          (Improves e j →
            (∀ k < X.order, ∃ a b m, (F (j + 1))[k]? = some a ∧ (F (best e j))[k]? = some b ∧
              (M (j + 1))[k]? = some m ∧ m.shape = a.shape ∧ ∀ i, InB a.shape i →
                m.at_ i = a.at_ i + extraWeight e j (lip j k) (lip (j + 1) k) * (a.at_ i - b.at_ i)) ∧
            (N (j + 1)).shape = ranks ∧ ∀ i, InB ranks i →
              (N (j + 1)).at_ i = (G (j + 1)).at_ i + extraWeight e j (lip j X.order) (lip (j + 1) X.order) *
                ((G (j + 1)).at_ i - (G (best e j)).at_ i)) ∧
          (¬ Improves e j → M (j + 1) = F (best e j) ∧ N (j + 1) = G (best e j))) := by
  classical
  obtain ⟨s0', o, kc, σ, hs0, hσ0, hh, hfac, haux, hst⟩ := extrapolate_run _ _ _ rfl args steps _ self self' ev hist h
  cases hs0
  have hlen : 1 ≤ hist.length := (C43_history _ _ args steps _ self self' ev hist h).choose_spec.choose_spec.choose_spec.2.1
  generalize hn : hist.length = n at hh hst hfac haux hlen
  have hst' : ∀ j, ∃ s c, j < n → (∃ v, NTUCKER.core topSv X (σ j) = .ok (c, v) ∧ kc j = some v) ∧
      NTUCKER.main topSv X c = .ok (s, o j) ∧ (j + 1 < n →
      ((∀ i < j, (o j).obj < (o i).obj) → NTUCKER.op1 X.order s = .ok (σ (j + 1))) ∧
      ((∃ i < j, (o i).obj ≤ (o j).obj) → NTUCKER.op2 s = .ok (σ (j + 1)))) := by
    intro j
    by_cases hj : j < n
    · obtain ⟨s, a, b⟩ := hst j hj
      obtain ⟨c, v, a1, a2, a3⟩ := a
      exact ⟨s, c, fun _ => ⟨⟨v, a1, a2⟩, a3, b⟩⟩
    · exact ⟨s0, s0, fun h => absurd h hj⟩
  choose s c hs using hst'
  obtain ⟨draws, gdraw, hd, hg, hi⟩ := h0
  obtain ⟨i1, i2, i3, i4, i5, i6, i7⟩ := NTUCKER.init_inv hi (tuckerShapes_iff.2 hd) hg
  have hiv : s0.L = fun _ => 1 := by
    unfold NTUCKER.init bcu.init at hi
    cases h1 : draws.mapM (fun d => normInit X (X.order + 1) (relu d)) with
    | error e => rw [h1] at hi; cases hi
    | ok A =>
        rw [h1, ok_bind] at hi
        simp only [pure_bind] at hi
        cases h2 : normInit X (X.order + 1) (relu gdraw) with
        | error e => rw [h2] at hi; cases hi
        | ok g => rw [h2] at hi; cases hi; rfl
  obtain ⟨F, hF⟩ : ∃ F : Nat → List (Tensor ℝ), F = fun j => match j with | 0 => s0.A | j + 1 => (s j).A := ⟨_, rfl⟩
  obtain ⟨G, hG⟩ : ∃ G : Nat → Tensor ℝ, G = fun j => match j with | 0 => s0.g | j + 1 => (s j).g := ⟨_, rfl⟩
  obtain ⟨lip, hlip⟩ : ∃ lip : Nat → Nat → ℝ, lip = fun j => match j with | 0 => s0.L | j + 1 => (s j).L := ⟨_, rfl⟩
  have hF0 : F 0 = s0.A := by rw [hF]
  have hF1 : ∀ j, F (j + 1) = (s j).A := fun j => by rw [hF]
  have hG0 : G 0 = s0.g := by rw [hG]
  have hG1 : ∀ j, G (j + 1) = (s j).g := fun j => by rw [hG]
  have hl0 : lip 0 = s0.L := by rw [hlip]
  have hl1 : ∀ j, lip (j + 1) = (s j).L := fun j => by rw [hlip]
  clear hF hG hlip
  obtain ⟨e, he⟩ : ∃ e : Nat → ℝ, e = fun i => tkErr X (G (i + 1)) (F (i + 1)) := ⟨_, rfl⟩
  have hev : ∀ i, e i = tkErr X (s i).g (s i).A := fun i => by rw [he]; simp only [hF1, hG1]
  have hok : ∀ j < n, TkOk X.shape ranks (σ j) ∧ MomentumOk (σ j).toState := by
    intro j
    induction j with
    | zero => intro _; rw [hσ0]; exact ⟨i1, i2⟩
    | succ j ih =>
        intro hj
        obtain ⟨a, b⟩ := ih (by omega)
        obtain ⟨⟨v, hc, -⟩, hm, hu⟩ := hs j (by omega)
        obtain ⟨a0, b0, -⟩ := NTUCKER.core_ok a hc
        obtain ⟨a', b', -⟩ := NTUCKER.main_ok a0 hr h1 h13 hm
        obtain ⟨u1, u2⟩ := hu hj
        by_cases hi : ∀ i < j, (o j).obj < (o i).obj
        · obtain ⟨c, d, -⟩ := NTUCKER.op1_ok a' (b' (b0 b)).1 (u1 hi)
          exact ⟨c, d⟩
        · push Not at hi
          obtain ⟨c, d, -⟩ := NTUCKER.op2_ok a' (b' (b0 b)).1 (u2 hi)
          exact ⟨c, d⟩
  -- everything a step does to the variables
  have hstep : ∀ j < n, TkOk X.shape ranks (s j) ∧ MomentumOk (s j).toState ∧ (s j).t0 = (σ j).t0 ∧
      (s j).A0 = (σ j).A0 ∧ (s j).g0 = (σ j).g0 ∧ (s j).t = (1 + Real.sqrt (1 + 4 * (s j).t0 ^ 2)) / 2 ∧
      (∀ k ≤ X.order, (s j).L0 k = (σ j).L k) ∧ kc j = some (s j).g ∧
      NTUCKER.core topSv X (σ j) = .ok (c j, (s j).g) ∧ (o j).factors = (s j).A ∧
      (o j).obj = tkErr X (s j).g (s j).A / 2 ∧
      (o j).rel = Real.sqrt (tkErr X (s j).g (s j).A) / Real.sqrt (normSqT X) ∧ (o j).aux = none := by
    intro j hj
    obtain ⟨a, b⟩ := hok j hj
    obtain ⟨⟨v, hc, hk⟩, hm, -⟩ := hs j hj
    obtain ⟨a0, b0, -, d4, d5, d6, d7, d8, -⟩ := NTUCKER.core_ok a hc
    obtain ⟨a', b', f3, f4, f5, f6, f7, f8, f9, -, -, -, -, f14, f15, -⟩ := NTUCKER.main_ok a0 hr h1 h13 hm
    obtain ⟨m1, m2, m3, m4, m5⟩ := NTUCKER.main_lip hm
    have hgv : v = (s j).g := by rw [f6, d8]
    obtain ⟨l, -, -, hcj⟩ := NTUCKER.core_inv hc
    refine ⟨a', (b' (b0 b)).1, by rw [f3, d4], by rw [f5, hcj], by rw [m5, hcj], m4, fun k hk => ?_, by rw [hk, hgv],
      by rw [hc, hgv], f8, f14, f15, f9⟩
    by_cases hkN : k = X.order
    · subst hkN
      rw [m3, hcj]
      simp only [Function.update_self]
    · rw [m1 k (by omega), hcj]
      simp only [Function.update_of_ne hkN]
  have hobj : ∀ j < n, (o j).obj = e j / 2 := by
    intro j hj
    obtain ⟨-, -, -, -, -, -, -, -, -, -, a, -⟩ := hstep j hj
    rw [a, hev]
  have hinv : ∀ j < n, (σ j).A = F j ∧ (σ j).A0 = F (best e j) ∧ (σ j).g = G j ∧ (σ j).g0 = G (best e j) ∧
      (σ j).t0 = tau (improvements e j) ∧ ∀ k ≤ X.order, (σ j).L k = lip j k := by
    intro j
    induction j with
    | zero =>
        intro _
        rw [hσ0]
        exact ⟨hF0.symm, by rw [i4, best, hF0], hG0.symm, by rw [i6, best, hG0], by rw [i7]; rfl, fun k _ => by rw [hl0]⟩
    | succ j ih =>
        intro hj
        obtain ⟨a1, a2, a3, a4, a5, a6⟩ := ih (by omega)
        obtain ⟨b1, b2, b3, b4, b5, b6, b7, -⟩ := hstep j (by omega)
        obtain ⟨-, -, hu⟩ := hs j (by omega)
        obtain ⟨u1, u2⟩ := hu hj
        have himp := improves_half hobj (show j < n by omega)
        by_cases hi : Improves e j
        · have hop := u1 (himp.2 hi)
          obtain ⟨d1, d2, d3, d4, d5, d6, d7, d8, -⟩ := NTUCKER.op1_ok b1 b2 hop
          obtain ⟨-, g2⟩ := NTUCKER.op1_weight hop
          refine ⟨by rw [d3, hF1], ?_, by rw [d6, hG1], by rw [best, if_pos hi, hG1, d7], ?_, fun k _ => by rw [g2, hl1]⟩
          · rw [best, if_pos hi, hF1]
            refine List.ext_getElem? fun k => ?_
            by_cases hk : k < X.order
            · obtain ⟨-, -, -, a, -, -, e1, -, -, e2, -⟩ := d8 k hk
              rw [e1, e2]
            · have l1 : (σ (j + 1)).A0.length = X.order := (tuckerShapes_iff.1 d1.factors.A0).1
              have l2 : (s j).A.length = X.order := b1.shapes.1
              rw [List.getElem?_eq_none (by omega), List.getElem?_eq_none (by omega)]
          · rw [d5, b6, b3, a5, improvements, if_pos hi, tau]
        · have hop := u2 (by have := mt himp.1 hi; push Not at this; exact this)
          rw [← Except.ok.inj hop]
          refine ⟨(hF1 j).symm, ?_, (hG1 j).symm, ?_, ?_, fun k _ => by rw [hl1]⟩
          · simp only [best, if_neg hi]; rw [b4, a2]
          · simp only [best, if_neg hi]; rw [b5, a4]
          · simp only [improvements, if_neg hi]; rw [b3, a5]
  refine ⟨F, fun j => (σ j).Am, G, fun j => (σ j).gm, lip, hF0, by simp only [hσ0]; rw [i3], hG0,
    by simp only [hσ0]; rw [i5], fun k => by rw [hl0, hiv], ?_, ?_, fun j hj => ?_⟩
  · obtain ⟨m, rfl⟩ : ∃ m, n = m + 1 := ⟨n - 1, by omega⟩
    obtain ⟨-, -, -, -, -, -, -, -, -, b, -⟩ := hstep m (by omega)
    rw [hfac, hF1, ← b]; rfl
  · obtain ⟨m, rfl⟩ : ∃ m, n = m + 1 := ⟨n - 1, by omega⟩
    obtain ⟨-, -, -, -, -, -, -, b, -, -, -, -, b'⟩ := hstep m (by omega)
    refine haux _ ?_
    rw [Nat.add_sub_cancel, b', b, hG1]; rfl
  · obtain ⟨a1, a2, a3, a4, a5, a6⟩ := hinv j hj
    obtain ⟨b1, b2, b3, b4, b5, b6, b7, -, b9, b10, -, b12, -⟩ := hstep j hj
    obtain ⟨-, hm, hu⟩ := hs j hj
    refine ⟨?_, ⟨σ j, c j, s j, o j, (hok j hj).1, by rw [hG1]; exact b9, hm, a1, rfl, a3, rfl, (hF1 j).symm, (hG1 j).symm,
      by rw [b10, hF1], fun k _ => by rw [hl1]⟩, fun hj1 => ?_⟩
    · rw [hh]
      simp only [List.getElem?_map, List.getElem?_range hj, Option.map_some]
      rw [b12, hF1, hG1]
    · obtain ⟨u1, u2⟩ := hu hj1
      have himp := improves_half hobj hj
      simp only
      rw [← he]
      refine ⟨fun hi => ?_, fun hi => ?_⟩
      · have hop := u1 (himp.2 hi)
        obtain ⟨d1, d2, d3, d4, d5, d6, d7, d8, -, -, -, d12⟩ := NTUCKER.op1_ok b1 b2 hop
        obtain ⟨w1, -⟩ := NTUCKER.op1_weight hop
        refine ⟨fun k hk => ?_, d1.gm, fun i hi' => ?_⟩
        · obtain ⟨-, -, -, a, b, m, e1, e2, e3, -, e5, e6⟩ := d8 k hk
          refine ⟨a, b, m, by rw [hF1]; exact e1, by rw [← a2, ← b4]; exact e2, e3, e5, fun i hi' => ?_⟩
          rw [e6 i hi', w1 k hk.le, b7 k hk.le, a6 k hk.le, b6, b3, a5, ← hl1]
          rfl
        · rw [d12 i (by rw [b1.g]; exact hi'), w1 _ le_rfl, b7 _ le_rfl, a6 _ le_rfl, b6, b3, a5, b5, a4, hG1, ← hl1]
          rfl
      · have hop := u2 (by have := mt himp.1 hi; push Not at this; exact this)
        rw [← Except.ok.inj hop]
        simp only
        rw [b4, a2, b5, a4]
        exact ⟨rfl, rfl⟩

/-- **C83** for `NTUCKER_BCU`: as for `NCP_BCU`, with the core treated like one more factor (`G` are the core iterates,
`N` the extrapolated cores; `X.order` is the index of the core's constants). -/
theorem C83_ntucker_extrapolation (topSv : Tensor ℝ → Res ℝ) (X : Tensor ℝ) (ranks : List Nat)
    (hr : ranks.length = X.shape.length) (h1 : 1 ≤ X.order) (h13 : X.order ≤ 13)
    (s0 : TState) (h0 : NtuckerInit X ranks s0) (args : Args ℝ) (steps : Int)
    (self self' : Self (List (Tensor ℝ)) (Tensor ℝ) (Tensor ℝ)) (ev : List Int) (hist : List (ℝ × ℝ))
    (h : train (exactArith ℝ) (NTUCKER.cls topSv X) args steps (.ok s0) self = (self', ev, .ok hist)) :
    ∃ (F M : Nat → List (Tensor ℝ)) (G N : Nat → Tensor ℝ) (lip : Nat → Nat → ℝ),
      F 0 = s0.A ∧ M 0 = s0.A ∧ G 0 = s0.g ∧ N 0 = s0.g ∧ (∀ k, lip 0 k = 1) ∧
      self'.factors = some (F hist.length) ∧ self'.aux = some (G hist.length) ∧
      ∀ j < hist.length,
        hist[j]?.map Prod.snd = some (Real.sqrt (tkErr X (G (j + 1)) (F (j + 1))) / Real.sqrt (normSqT X)) ∧
        (∃ s s1 s' o, NTUCKER.core topSv X s = .ok (s1, G (j + 1)) ∧ NTUCKER.main topSv X s1 = .ok (s', o) ∧
          s.A = F j ∧ s.Am = M j ∧ s.g = G j ∧ s.gm = N j ∧ s'.A = F (j + 1) ∧ s'.g = G (j + 1) ∧ o.factors = F (j + 1) ∧
          ∀ k ≤ X.order, s'.L k = lip (j + 1) k) ∧
        (j + 1 < hist.length →
          let e := fun i => tkErr X (G (i + 1)) (F (i + 1))
          (Improves e j →
            (∀ k < X.order, ∃ a b m, (F (j + 1))[k]? = some a ∧ (F (best e j))[k]? = some b ∧
              (M (j + 1))[k]? = some m ∧ m.shape = a.shape ∧ ∀ i, InB a.shape i →
                m.at_ i = a.at_ i + extraWeight e j (lip j k) (lip (j + 1) k) * (a.at_ i - b.at_ i)) ∧
            (N (j + 1)).shape = ranks ∧ ∀ i, InB ranks i →
              (N (j + 1)).at_ i = (G (j + 1)).at_ i + extraWeight e j (lip j X.order) (lip (j + 1) X.order) *
                ((G (j + 1)).at_ i - (G (best e j)).at_ i)) ∧
          (¬ Improves e j → M (j + 1) = F (best e j) ∧ N (j + 1) = G (best e j))) := by
  obtain ⟨F, M, G, N, lip, i1, i2, i3, i4, i5, i6, i7, h5⟩ :=
    ntucker_iterates topSv X ranks hr h1 h13 s0 h0 args steps self self' ev hist h
  refine ⟨F, M, G, N, lip, i1, i2, i3, i4, i5, i6, i7, fun j hj => ?_⟩
  obtain ⟨a, ⟨s, s1, s', o, -, b⟩, c⟩ := h5 j hj
  exact ⟨a, ⟨s, s1, s', o, b⟩, c⟩

/-- The hypotheses of C83 are met. -/
example : ∃ topSv self' ev hist, train (exactArith ℝ) (NCP.cls topSv onesX 1) { tol := 1 } 1 (.ok onesState) {} =
    (self', ev, .ok hist) ∧ NcpInit onesX 1 onesState := by
  obtain ⟨topSv, -, self', ev, hist, h, -⟩ := ncp_example
  exact ⟨topSv, self', ev, hist, h, ones_init⟩

/-- The first weights: nothing is extrapolated after the first step, later the cap is positive and below one. -/
example (e : Nat → ℝ) (l l' : ℝ) : extraWeight e 0 l l' = 0 := by
  have : (0 : ℝ) ≤ Real.sqrt (l / l') := Real.sqrt_nonneg _
  simp [extraWeight, improvements, tau, this]

end TD.Props
