import Verif.Lemmas.ExactBcu
import Verif.Lemmas.AlsOneCp
import Verif.Props.NTucker

/-!
# C152 : what the iterates of `NCP_BCU` and `NTUCKER_BCU` converge to; C153 : they keep an exact fit
-/
namespace TD.Props
open TD Spec Tensor fact bcu Filter Topology

/-- The reference point is the result of the last improving step. -/
theorem reference_late {σ : Type} {r F : Nat → σ} {I : Nat → Prop} (h1 : ∀ j, I j → r (j + 1) = F j) (h2 : ∀ j, ¬ I j → r (j + 1) = r j) :
    ∀ j p, I p → p < j → ∃ i, p ≤ i ∧ i < j ∧ r j = F i := by
  intro j
  induction j with
  | zero => intro p _ h; omega
  | succ j ih =>
      intro p hp hj
      by_cases hi : I j
      · exact ⟨j, by omega, by omega, h1 j hi⟩
      · rw [h2 j hi]
        rcases Nat.lt_or_ge p j with h | h
        · obtain ⟨i, a, b, c⟩ := ih p hp h
          exact ⟨i, a, by omega, c⟩
        · have : p = j := by omega
          subst this
          exact absurd hp hi

/-- Infinitely many improving steps in order, with the reference points in between. -/
theorem improving_steps {σ : Type} {r F : Nat → σ} {I : Nat → Prop} (h1 : ∀ j, I j → r (j + 1) = F j) (h2 : ∀ j, ¬ I j → r (j + 1) = r j)
    (hI : ∀ p, ∃ j, p ≤ j ∧ I j) :
    ∃ φ ψ : Nat → Nat, Tendsto φ atTop atTop ∧ Tendsto ψ atTop atTop ∧ ∀ k, I (φ k) ∧ r (φ k) = F (ψ k) := by
  obtain ⟨χ, hχ, hχI⟩ := extraction_of_frequently_atTop (frequently_atTop.2 hI)
  have hr := fun k => reference_late h1 h2 (χ (k + 1)) (χ k) (hχI k) (hχ (by omega))
  choose ψ g1 g2 g3 using hr
  refine ⟨fun k => χ (k + 1), ψ, hχ.tendsto_atTop.comp (tendsto_add_atTop_nat 1),
    tendsto_atTop_mono g1 hχ.tendsto_atTop, fun k => ⟨hχI _, g3 k⟩⟩

/-- **C152** for `NCP_BCU` without stopping test (tolerance not positive): let `F n` be the factors exposed by the training with `n + 1`
steps.  If they converge, then either no other nonnegative matrix for any one mode has a smaller error than the limit, or from some
number of steps on no training ends with a smaller error than all shorter ones. -/
theorem C152_ncp (topSv : Tensor ℝ → Res ℝ) (ht : TopSvOk topSv) (X : Tensor ℝ) (R : Nat) (h2 : 2 ≤ X.order)
    (h25 : X.order ≤ 25) (hR : 0 < R) (hpos : ∀ d ∈ X.shape, 0 < d) (s0 : State) (h0 : NcpInit X R s0) (args : Args ℝ) (htol : args.tol ≤ 0)
    (self : Self (List (Tensor ℝ)) (Tensor ℝ) (Tensor ℝ)) (self' : Nat → Self (List (Tensor ℝ)) (Tensor ℝ) (Tensor ℝ))
    (ev : Nat → List Int) (hist : Nat → List (ℝ × ℝ))
    (h : ∀ n : Nat, train (exactArith ℝ) (NCP.cls topSv X R) args ((n : Int) + 1) (.ok s0) self = (self' n, ev n, .ok (hist n)))
    (F : Nat → List (Tensor ℝ)) (hF : ∀ n, (self' n).factors = some (F n)) (L : List (Tensor ℝ)) (hL : FactorsApproach F L) :
    NcpOptimal X R L ∨ ∃ p, ∀ j, p ≤ j → ¬ Improves (fun n => cpErr X R (F n) fun _ => 1) j := by
  have hne : X.shape ≠ [] := by intro e; unfold order at h2; rw [e] at h2; simp at h2
  have hl : ∀ n, (hist n).length = n + 1 := fun n => by
    have := all_steps (X := X) (fun _ _ _ hm => (NCP.main_inv hm).choose_spec.2.2.2.2.2) htol (h n)
    omega
  obtain ⟨σ, s, o, k, hs0, hrun⟩ := endless_extrapolate rfl h hl
  obtain rfl := Except.ok.inj hs0
  have hm : ∀ n, NCP.main topSv X (σ n) = .ok (s n, o n) := fun n => (hrun n).1.2
  obtain ⟨draws, hd, hi⟩ := h0
  obtain ⟨i1, i2, i3, i4⟩ := init_inv hi
  rw [show draws.map Tensor.shape = X.shape.map fun d => [d, R] from hd] at i1
  have hok : ∀ j, FactorsOk (X.shape.map fun d => [d, R]) (σ j) ∧ MomentumOk (σ j) := by
    intro j
    induction j with
    | zero => exact ⟨i1, i2⟩
    | succ j ih =>
        obtain ⟨a', b', -⟩ := NCP.main_ok ih.1 hne h25 (hm j)
        by_cases hi : ∀ i < j, (o j).obj < (o i).obj
        · obtain ⟨c, d, -⟩ := NCP.op1_ok a' (b' ih.2).1 ((hrun j).2.1 hi)
          exact ⟨c, d⟩
        · push Not at hi
          obtain ⟨c, d, -⟩ := NCP.op2_ok a' (b' ih.2).1 ((hrun j).2.2.1 hi)
          exact ⟨c, d⟩
  have hsF : ∀ j, FactorsOk (X.shape.map fun d => [d, R]) (s j) ∧ MomentumOk (s j) ∧ (s j).A = F j ∧ (s j).A0 = (σ j).A0 ∧
      (o j).obj = cpErr X R (F j) (fun _ => 1) / 2 := by
    intro j
    obtain ⟨a', b', -, -, b5, b6, -, -, -, -, b11, -⟩ := NCP.main_ok (hok j).1 hne h25 (hm j)
    have e := (hrun j).2.2.2.1
    rw [hF, b6, Option.some.injEq] at e
    exact ⟨a', (b' (hok j).2).1, e.symm, b5, by rw [b11, ← e]⟩
  set e : Nat → ℝ := fun n => cpErr X R (F n) fun _ => 1 with he
  have himp : ∀ j, (∀ i < j, (o j).obj < (o i).obj) ↔ Improves e j := fun j =>
    improves_half (n := j + 1) (fun i _ => (hsF i).2.2.2.2) (by omega)
  have hop1 : ∀ j, Improves e j → NCP.op1 X.order (s j) = .ok (σ (j + 1)) := fun j hi => (hrun j).2.1 ((himp j).2 hi)
  have hop2 : ∀ j, ¬ Improves e j → NCP.op2 (s j) = .ok (σ (j + 1)) := fun j hi => (hrun j).2.2.1 (by
    have := mt (himp j).1 hi; push Not at this; exact this)
  by_cases hinf : ∀ p, ∃ j, p ≤ j ∧ Improves e j
  swap
  · right
    push Not at hinf
    exact hinf
  left
  have hr1 : ∀ j, Improves e j → (σ (j + 1)).A0 = F j := by
    intro j hi
    obtain ⟨d1, -, d3, -, -, d6⟩ := NCP.op1_ok (hsF j).1 (hsF j).2.1 (hop1 j hi)
    rw [← (hsF j).2.2.1]
    refine List.ext_getElem? fun k => ?_
    by_cases hk : k < X.order
    · obtain ⟨-, -, -, a, -, -, e1, -, -, e2, -⟩ := d6 k hk
      rw [e1, e2]
    · have l1 : (σ (j + 1)).A0.length = X.order := d1.factorsFor.2.1.length
      have l2 : (s j).A.length = X.order := (hsF j).1.factorsFor.1.length
      rw [List.getElem?_eq_none (by omega), List.getElem?_eq_none (by omega)]
  have hr2 : ∀ j, ¬ Improves e j → (σ (j + 1)).A0 = (σ j).A0 := by
    intro j hi
    rw [← Except.ok.inj (hop2 j hi)]
    exact (hsF j).2.2.2.1
  obtain ⟨φ, ψ, hφ, hψ, hst⟩ := improving_steps (r := fun j => (σ j).A0) hr1 hr2 hinf
  have hlenL : L.length = X.order := by rw [← hL.1 0, ← (hsF 0).2.2.1]; exact (hsF 0).1.factorsFor.1.length
  intro n hn B hB hBn
  have hL0 := hL.comp hφ
  have hL1 := hL.comp ((tendsto_add_atTop_nat 1).comp hφ)
  have hLb := hL.comp hψ
  obtain ⟨a, T, a1, a2, a3⟩ := hL.2 n (by rw [hlenL]; exact hn)
  -- the extrapolated points before the steps that follow the improving ones
  have hx : ∀ k, ∃ (m : Tensor ℝ) (w : ℝ), (σ (φ k + 1)).Am[n]? = some m ∧ (0 ≤ w ∧ w < 1) ∧ m.shape = (a (φ k)).shape ∧
      ∀ i, InB (a (φ k)).shape i → m.at_ i = (a (φ k)).at_ i + w * ((a (φ k)).at_ i - (a (ψ k)).at_ i) := by
    intro k
    obtain ⟨-, -, -, -, -, d6⟩ := NCP.op1_ok (hsF (φ k)).1 (hsF (φ k)).2.1 (hop1 _ (hst k).1)
    obtain ⟨w0, w1, -, x, y, m, e1, e2, e3, -, e5, e6⟩ := d6 n hn
    rw [(hsF (φ k)).2.2.1, a1, Option.some.injEq] at e1
    rw [(hsF (φ k)).2.2.2.1, (hst k).2, a1, Option.some.injEq] at e2
    subst e1 e2
    exact ⟨m, _, e3, ⟨w0, w1⟩, e5, e6⟩
  choose m w m1 m2 m3 m4 using hx
  have hmL : Approaches m T := extrapolated_tendsto (a3.comp hφ) (a3.comp hψ) m2 m3 m4
  have hA : ∀ j, (σ (j + 1)).A = F j := by
    intro j
    by_cases hi : Improves e j
    · obtain ⟨-, -, d3, -⟩ := NCP.op1_ok (hsF j).1 (hsF j).2.1 (hop1 j hi)
      rw [d3, (hsF j).2.2.1]
    · rw [← Except.ok.inj (hop2 j hi)]
      exact (hsF j).2.2.1
  have htp := fun k => NCP.main_stages ht (hok (φ k + 1)).1 h2 h25 hR hpos (hm (φ k + 1)) hn (m1 k)
    (by rw [(hsF (φ k + 1)).2.2.1]; exact a1 (φ k + 1))
  choose l l1 l2 l3 using htp
  simp only [hA, (hsF _).2.2.1] at l2 l3
  have c0 := hL0.atMode hL1 n
  refine three_point_limit (fun k => l3 k B hB hBn)
    (cpErr_tendsto (X := X) (R := R) (w := fun _ _ => 1) (v := fun _ => 1) (hL0.atMode hL1 (n + 1)) fun _ => tendsto_const_nhds)
    (cpErr_tendsto (X := X) (R := R) (w := fun _ _ => 1) (v := fun _ => 1) (c0.set n B) fun _ => tendsto_const_nhds)
    (fun k => (l1 k).le) l2 (spikeBound_tendsto (E := fun C => cpErr X R (L.set n C) fun _ => 1) fun C => cpErr_tendsto (c0.set n C) fun _ => tendsto_const_nhds)
    (distSqT_tendsto hmL) (distSqT_tendsto (a3.comp ((tendsto_add_atTop_nat 1).comp hφ)))

/-- **C152** for `NTUCKER_BCU`, with the core as one more block: `G n` is the core exposed by the training with `n + 1` steps. -/
theorem C152_ntucker (topSv : Tensor ℝ → Res ℝ) (ht : TopSvOk topSv) (X : Tensor ℝ) (ranks : List Nat)
    (hr : ranks.length = X.shape.length) (h2 : 2 ≤ X.order) (h13 : X.order ≤ 13) (hpos : ∀ d ∈ X.shape, 0 < d)
    (hrp : ∀ d ∈ ranks, 0 < d) (s0 : TState) (h0 : NtuckerInit X ranks s0) (args : Args ℝ) (htol : args.tol ≤ 0)
    (self : Self (List (Tensor ℝ)) (Tensor ℝ) (Tensor ℝ)) (self' : Nat → Self (List (Tensor ℝ)) (Tensor ℝ) (Tensor ℝ))
    (ev : Nat → List Int) (hist : Nat → List (ℝ × ℝ))
    (h : ∀ n : Nat, train (exactArith ℝ) (NTUCKER.cls topSv X) args ((n : Int) + 1) (.ok s0) self = (self' n, ev n, .ok (hist n)))
    (F : Nat → List (Tensor ℝ)) (G : Nat → Tensor ℝ) (hF : ∀ n, (self' n).factors = some (F n)) (hG : ∀ n, (self' n).aux = some (G n))
    (L : List (Tensor ℝ)) (g : Tensor ℝ) (hL : FactorsApproach F L) (hg : Approaches G g) :
    NtuckerOptimal X ranks g L ∨ ∃ p, ∀ j, p ≤ j → ¬ Improves (fun n => tkErr X (G n) (F n)) j := by
  have h1 : 1 ≤ X.order := by omega
  have hl : ∀ n, (hist n).length = n + 1 := fun n => by
    have := all_steps (X := X) (fun _ _ _ hm => (NTUCKER.main_inv hm).choose_spec.2.2.2.2.2) htol (h n)
    omega
  obtain ⟨σ, s, o, k, hs0, hrun⟩ := endless_extrapolate rfl h hl
  obtain rfl := Except.ok.inj hs0
  have hm : ∀ n, ∃ c v, NTUCKER.core topSv X (σ n) = .ok (c, v) ∧ k n = some v ∧ NTUCKER.main topSv X c = .ok (s n, o n) := fun n => (hrun n).1
  choose c v hc hk hm using hm
  obtain ⟨draws, gdraw, hd, hgd, hi⟩ := h0
  obtain ⟨i1, i2, i3, i4, i5, i6, i7⟩ := NTUCKER.init_inv hi (tuckerShapes_iff.2 hd) hgd
  have hok : ∀ j, TkOk X.shape ranks (σ j) ∧ MomentumOk (σ j).toState := by
    intro j
    induction j with
    | zero => exact ⟨i1, i2⟩
    | succ j ih =>
        obtain ⟨a0, b0, -⟩ := NTUCKER.core_ok ih.1 (hc j)
        obtain ⟨a', b', -⟩ := NTUCKER.main_ok a0 hr h1 h13 (hm j)
        by_cases hi : ∀ i < j, (o j).obj < (o i).obj
        · obtain ⟨c, d, -⟩ := NTUCKER.op1_ok a' (b' (b0 ih.2)).1 ((hrun j).2.1 hi)
          exact ⟨c, d⟩
        · push Not at hi
          obtain ⟨c, d, -⟩ := NTUCKER.op2_ok a' (b' (b0 ih.2)).1 ((hrun j).2.2.1 hi)
          exact ⟨c, d⟩
  have hsF : ∀ j, TkOk X.shape ranks (s j) ∧ MomentumOk (s j).toState ∧ (s j).A = F j ∧ (s j).A0 = (σ j).A0 ∧
      (o j).obj = tkErr X (G j) (F j) / 2 ∧ v j = G j ∧ (s j).g = G j ∧ (s j).g0 = (σ j).g0 ∧
      TkOk X.shape ranks (c j) ∧ (c j).A = (σ j).A ∧ (c j).Am = (σ j).Am ∧ (c j).g = G j := by
    intro j
    obtain ⟨a0, b0, -, -, d5, d6, -, d8, -⟩ := NTUCKER.core_ok (hok j).1 (hc j)
    obtain ⟨a', b', -, -, f5, f6, -, f8, f9, -, -, -, -, f14, -⟩ := NTUCKER.main_ok a0 hr h1 h13 (hm j)
    obtain ⟨-, -, -, -, m5⟩ := NTUCKER.main_lip (hm j)
    obtain ⟨l, -, -, hcj⟩ := NTUCKER.core_inv (hc j)
    have e := (hrun j).2.2.2.1
    rw [hF, f8, Option.some.injEq] at e
    have e2 := (hrun j).2.2.2.2 (v j) (by rw [f9, hk j]; rfl)
    rw [hG, Option.some.injEq] at e2
    have hgj : (s j).g = G j := by rw [f6, d8, e2]
    refine ⟨a', (b' (b0 (hok j).2)).1, e.symm, by rw [f5, hcj], by rw [f14, hgj, ← e], e2.symm, hgj, by rw [m5, hcj], a0, d5, d6, by rw [d8, e2]⟩
  set e : Nat → ℝ := fun n => tkErr X (G n) (F n) with he
  have himp : ∀ j, (∀ i < j, (o j).obj < (o i).obj) ↔ Improves e j := fun j =>
    improves_half (n := j + 1) (fun i _ => (hsF i).2.2.2.2.1) (by omega)
  have hop1 : ∀ j, Improves e j → NTUCKER.op1 X.order (s j) = .ok (σ (j + 1)) := fun j hi => (hrun j).2.1 ((himp j).2 hi)
  have hop2 : ∀ j, ¬ Improves e j → NTUCKER.op2 (s j) = .ok (σ (j + 1)) := fun j hi => (hrun j).2.2.1 (by
    have := mt (himp j).1 hi; push Not at this; exact this)
  by_cases hinf : ∀ p, ∃ j, p ≤ j ∧ Improves e j
  swap
  · right
    push Not at hinf
    exact hinf
  left
  have hr1 : ∀ j, Improves e j → ((σ (j + 1)).A0, (σ (j + 1)).g0) = (F j, G j) := by
    intro j hi
    obtain ⟨d1, d2, d3, d4, d5, d6, d7, d8, -⟩ := NTUCKER.op1_ok (hsF j).1 (hsF j).2.1 (hop1 j hi)
    rw [d7, (hsF j).2.2.2.2.2.2.1, ← (hsF j).2.2.1]
    congr 1
    refine List.ext_getElem? fun k => ?_
    by_cases hk : k < X.order
    · obtain ⟨-, -, -, a, -, -, e1, -, -, e2, -⟩ := d8 k hk
      rw [e1, e2]
    · have l1 : (σ (j + 1)).A0.length = X.order := (tuckerShapes_iff.1 d1.factors.A0).1
      have l2 : (s j).A.length = X.order := (hsF j).1.shapes.1
      rw [List.getElem?_eq_none (by omega), List.getElem?_eq_none (by omega)]
  have hr2 : ∀ j, ¬ Improves e j → ((σ (j + 1)).A0, (σ (j + 1)).g0) = ((σ j).A0, (σ j).g0) := by
    intro j hi
    rw [← Except.ok.inj (hop2 j hi)]
    obtain ⟨-, -, -, a, -, -, -, b, -⟩ := hsF j
    simp only
    rw [a, b]
  obtain ⟨φ, ψ, hφ, hψ, hst⟩ := improving_steps (r := fun j => ((σ j).A0, (σ j).g0)) (F := fun j => (F j, G j)) hr1 hr2 hinf
  have hlenL : L.length = X.order := by rw [← hL.1 0, ← (hsF 0).2.2.1]; exact (hsF 0).1.shapes.1
  have hφ1 : Tendsto (fun k => φ k + 1) atTop atTop := (tendsto_add_atTop_nat 1).comp hφ
  have hL0 := hL.comp hφ
  have hL1 := hL.comp hφ1
  have hA : ∀ j, (σ (j + 1)).A = F j := by
    intro j
    by_cases hi : Improves e j
    · obtain ⟨-, -, d3, -⟩ := NTUCKER.op1_ok (hsF j).1 (hsF j).2.1 (hop1 j hi)
      rw [d3, (hsF j).2.2.1]
    · rw [← Except.ok.inj (hop2 j hi)]
      exact (hsF j).2.2.1
  refine ⟨fun n hn B hB hBn => ?_, fun B hB hBn => ?_⟩
  · obtain ⟨a, T, a1, a2, a3⟩ := hL.2 n (by rw [hlenL]; exact hn)
    have hx : ∀ k, ∃ (m : Tensor ℝ) (w : ℝ), (σ (φ k + 1)).Am[n]? = some m ∧ (0 ≤ w ∧ w < 1) ∧ m.shape = (a (φ k)).shape ∧
        ∀ i, InB (a (φ k)).shape i → m.at_ i = (a (φ k)).at_ i + w * ((a (φ k)).at_ i - (a (ψ k)).at_ i) := by
      intro k
      obtain ⟨-, -, -, -, -, -, -, d8, -⟩ := NTUCKER.op1_ok (hsF (φ k)).1 (hsF (φ k)).2.1 (hop1 _ (hst k).1)
      obtain ⟨w0, w1, -, x, y, m, e1, e2, e3, -, e5, e6⟩ := d8 n hn
      rw [(hsF (φ k)).2.2.1, a1, Option.some.injEq] at e1
      rw [(hsF (φ k)).2.2.2.1, (Prod.mk.inj (hst k).2).1, a1, Option.some.injEq] at e2
      subst e1 e2
      exact ⟨m, _, e3, ⟨w0, w1⟩, e5, e6⟩
    choose m w m1 m2 m3 m4 using hx
    have hmL : Approaches m T := extrapolated_tendsto (a3.comp hφ) (a3.comp hψ) m2 m3 m4
    have htp := fun k => NTUCKER.main_stages ht (hsF (φ k + 1)).2.2.2.2.2.2.2.2.1 hr h2 h13 hpos hrp (hm (φ k + 1)) hn
      (by rw [(hsF (φ k + 1)).2.2.2.2.2.2.2.2.2.2.1]; exact m1 k) (by rw [(hsF (φ k + 1)).2.2.1]; exact a1 (φ k + 1))
    choose l l1 l2 l3 using htp
    simp only [(hsF _).2.2.2.2.2.2.2.2.2.1, (hsF _).2.2.2.2.2.2.2.2.2.2.2, hA, (hsF _).2.2.1] at l2 l3
    have c0 := hL0.atMode hL1 n
    exact three_point_limit (fun k => l3 k B hB hBn) (tkErr_tendsto (X := X) (hL0.atMode hL1 (n + 1)) (hg.comp hφ1))
      (tkErr_tendsto (X := X) (c0.set n B) (hg.comp hφ1)) (fun k => (l1 k).le) l2
      (spikeBound_tendsto (E := fun C => tkErr X g (L.set n C)) fun C => tkErr_tendsto (c0.set n C) (hg.comp hφ1))
      (distSqT_tendsto hmL) (distSqT_tendsto (a3.comp hφ1))
  · have hgm : Approaches (fun k => (σ (φ k + 1)).gm) g := by
      have hop := fun k => NTUCKER.op1_ok (hsF (φ k)).1 (hsF (φ k)).2.1 (hop1 _ (hst k).1)
      have hgs : ∀ j, (G j).shape = ranks := fun j => by rw [← (hsF j).2.2.2.2.2.2.1]; exact (hsF j).1.g
      refine extrapolated_tendsto (w := fun k => (σ (φ k + 1)).wA X.order) (hg.comp hφ) (hg.comp hψ)
        (fun k => ?_) (fun k => by rw [hgs]; exact (hok _).1.gm) (fun k i hi => ?_)
      · obtain ⟨-, -, -, -, -, -, -, -, w0, w1, -⟩ := hop k
        exact ⟨w0, w1⟩
      · obtain ⟨-, -, -, -, -, -, -, -, -, -, -, d⟩ := hop k
        rw [(hsF (φ k)).2.2.2.2.2.2.1, (hsF (φ k)).2.2.2.2.2.2.2.1, (Prod.mk.inj (hst k).2).2] at d
        exact d i hi
    have htp := fun k => NTUCKER.core_stage ht (hok (φ k + 1)).1 hr h1 h13 hrp (hc (φ k + 1))
    choose l l1 l2 l3 using htp
    simp only [(hsF _).2.2.2.2.2.1, hA] at l2 l3
    exact three_point_limit (fun k => l3 k B hB hBn) (tkErr_tendsto (X := X) hL0 (hg.comp hφ1))
      (tkErr_tendsto (X := X) hL0 (Approaches.const B)) (fun k => (l1 k).le) l2 (normProd_tendsto hL0)
      (distSqT_tendsto hgm) (distSqT_tendsto (hg.comp hφ1))

/-- **C152** for `NCP_BCU` with one component: the limit of the factors is a block-wise optimum, without any condition on the errors. -/
theorem C152_ncp_one (topSv : Tensor ℝ → Res ℝ) (ht : TopSvOk topSv) (X : Tensor ℝ) (h2 : 2 ≤ X.order)
    (h25 : X.order ≤ 25) (hpos : ∀ d ∈ X.shape, 0 < d) (s0 : State) (h0 : NcpInit X 1 s0) (args : Args ℝ) (htol : args.tol ≤ 0)
    (self : Self (List (Tensor ℝ)) (Tensor ℝ) (Tensor ℝ)) (self' : Nat → Self (List (Tensor ℝ)) (Tensor ℝ) (Tensor ℝ))
    (ev : Nat → List Int) (hist : Nat → List (ℝ × ℝ))
    (h : ∀ n : Nat, train (exactArith ℝ) (NCP.cls topSv X 1) args ((n : Int) + 1) (.ok s0) self = (self' n, ev n, .ok (hist n)))
    (F : Nat → List (Tensor ℝ)) (hF : ∀ n, (self' n).factors = some (F n)) (L : List (Tensor ℝ)) (hL : FactorsApproach F L) :
    NcpOptimal X 1 L := by
  have hne : X.shape ≠ [] := by intro e; unfold order at h2; rw [e] at h2; simp at h2
  have hl : ∀ n, (hist n).length = n + 1 := fun n => by
    have := all_steps (X := X) (fun _ _ _ hm => (NCP.main_inv hm).choose_spec.2.2.2.2.2) htol (h n)
    omega
  obtain ⟨σ, s, o, k, hs0, hrun⟩ := endless_extrapolate rfl h hl
  obtain rfl := Except.ok.inj hs0
  have hm : ∀ n, NCP.main topSv X (σ n) = .ok (s n, o n) := fun n => (hrun n).1.2
  obtain ⟨draws, hd, hi⟩ := h0
  obtain ⟨i1, i2, i3, i4⟩ := init_inv hi
  rw [show draws.map Tensor.shape = X.shape.map fun d => [d, 1] from hd] at i1
  have hok : ∀ j, FactorsOk (X.shape.map fun d => [d, 1]) (σ j) ∧ MomentumOk (σ j) ∧ (0 < j → (σ j).A = F (j - 1)) := by
    intro j
    induction j with
    | zero => exact ⟨i1, i2, fun h => by omega⟩
    | succ j ih =>
        obtain ⟨a', b', -, -, -, b6, -⟩ := NCP.main_ok ih.1 hne h25 (hm j)
        have e := (hrun j).2.2.2.1
        rw [hF, b6, Option.some.injEq] at e
        by_cases hi : ∀ i < j, (o j).obj < (o i).obj
        · obtain ⟨c, d, d3, -⟩ := NCP.op1_ok a' (b' ih.2.1).1 ((hrun j).2.1 hi)
          exact ⟨c, d, fun _ => d3.trans e.symm⟩
        · push Not at hi
          have h' := (hrun j).2.2.1 hi
          obtain ⟨c, d, -⟩ := NCP.op2_ok a' (b' ih.2.1).1 h'
          exact ⟨c, d, fun _ => by rw [← Except.ok.inj h']; exact e.symm⟩
  have hA : ∀ j, (σ (j + 1)).A = F j := fun j => (hok (j + 1)).2.2 (Nat.succ_pos j)
  -- the sweep does the same as one that starts without extrapolation
  have hsw : ∀ j, ∃ t, FactorsOk (X.shape.map fun d => [d, 1]) { σ (j + 1) with Am := F j } ∧
      (List.range X.order).foldlM (NCP.modeUpdate topSv X) { σ (j + 1) with Am := F j } = .ok t ∧ t.A = F (j + 1) := by
    intro j
    have hst := (hok (j + 1)).1
    obtain ⟨f1, f2, f3⟩ := hst.factorsFor
    obtain ⟨w, hw, hw', -⟩ := NCP.main_inv (hm (j + 1))
    obtain ⟨t, h1, h3⟩ := NCP.sweep_any_Am (t := { σ (j + 1) with Am := F j }) ht h2 h25 hpos (fun n hn => List.mem_range.1 hn)
      f1 f3 (by rw [← hA]; exact f1) rfl hw
    have e : (s (j + 1)).A = F (j + 1) := by
      have e := (hrun (j + 1)).2.2.2.1
      obtain ⟨-, -, -, -, -, b6, -⟩ := NCP.main_ok hst hne h25 (hm (j + 1))
      rw [hF, b6, Option.some.injEq] at e
      exact e.symm
    refine ⟨t, ⟨hst.A, hst.A0, by rw [← hA]; exact hst.A, hst.nonneg, hst.nonneg0⟩, h1, ?_⟩
    rw [h3, ← e, hw']
    rfl
  choose t t1 t2 t3 using hsw
  have hlenL : L.length = X.order := by rw [← hL.1 0, ← hA 0]; exact (hok 1).1.factorsFor.1.length
  intro n hn B hB hBn
  have hL1 := hL.comp (tendsto_add_atTop_nat 1)
  obtain ⟨a, T, a1, a2, a3⟩ := hL.2 n (by rw [hlenL]; exact hn)
  have htp := fun j => NCP.sweep_stages ht (t1 j) h2 h25 Nat.one_pos hpos (t2 j) hn (a1 j) (by rw [t3 j]; exact a1 (j + 1))
  choose l l1 l2 l3 using htp
  simp only [hA, t3] at l2 l3
  have c0 := hL.atMode hL1 n
  exact three_point_limit (fun j => l3 j B hB hBn)
    (cpErr_tendsto (X := X) (R := 1) (w := fun _ _ => 1) (v := fun _ => 1) (hL.atMode hL1 (n + 1)) fun _ => tendsto_const_nhds)
    (cpErr_tendsto (X := X) (R := 1) (w := fun _ _ => 1) (v := fun _ => 1) (c0.set n B) fun _ => tendsto_const_nhds)
    (fun j => (l1 j).le) l2
    (spikeBound_tendsto (E := fun C => cpErr X 1 (L.set n C) fun _ => 1) fun C => cpErr_tendsto (c0.set n C) fun _ => tendsto_const_nhds)
    (distSqT_tendsto a3) (distSqT_tendsto (a3.comp (tendsto_add_atTop_nat 1)))

/-! ### C153 -/

/-- **C153** for `NCP_BCU`: if the factors after the initialisation reproduce a nonzero tensor, then every training (any number of
steps, tolerance, arithmetic of the loop) returns and exposes these factors. -/
theorem C153_ncp (topSv : Tensor ℝ → Res ℝ) (ht : TopSvOk topSv) (X : Tensor ℝ) (R : Nat) (h2 : 2 ≤ X.order) (h25 : X.order ≤ 25)
    (hR : 0 < R) (hpos : ∀ d ∈ X.shape, 0 < d) (hX : ∃ i, InB X.shape i ∧ X.at_ i ≠ 0) (s0 : State) (h0 : NcpInit X R s0)
    (hfit : ∀ i, InB X.shape i → X.at_ i = ∑ r ∈ Finset.range R, khatriEntry r s0.A i) (args : Args ℝ) (hv : args.validationInternal ≠ 0)
    (steps : Int) (h1 : 1 ≤ steps) (self : Self (List (Tensor ℝ)) (Tensor ℝ) (Tensor ℝ)) :
    ∃ self' ev hist, train (exactArith ℝ) (NCP.cls topSv X R) args steps (.ok s0) self = (self', ev, .ok hist) ∧
      self'.factors = some s0.A ∧ ∀ p ∈ hist, p.2 = 0 := by
  have h0' := h0
  obtain ⟨draws, hd, hi⟩ := h0
  obtain ⟨i1, i2, i3, i4⟩ := init_inv hi
  rw [show draws.map Tensor.shape = X.shape.map fun d => [d, R] from hd] at i1
  have hz : cpErr X R s0.A (fun _ => 1) = 0 := by
    unfold cpErr
    rw [boxSum_congr (g := fun _ => (0 : ℝ)) (fun i hi => by rw [hfit i hi]; simp), boxSum_zero]
  have hL : s0.L = fun _ => 1 := by
    unfold bcu.init at hi
    cases hm : draws.mapM (fun d => normInit X X.order (relu d)) with
    | error e => rw [hm] at hi; cases hi
    | ok A => rw [hm] at hi; cases hi; rfl
  obtain ⟨hist, hh⟩ := train_safe (A := exactArith ℝ) (c := NCP.cls topSv X R) (I := Still X R s0.A)
    ⟨fun s hI => hI.main ht h2 h25 hR hpos hX hz, by rintro f ⟨⟩, by
      rintro p hp s hI
      cases hp
      exact ⟨hI.op1, hI.op2⟩⟩ ⟨i1, i2, rfl, i4, i3, fun k _ => by rw [hL]; exact one_ne_zero⟩ (Or.inl hv) h1 self
  have hh' : train (exactArith ℝ) (NCP.cls topSv X R) args steps (.ok s0) self = (_, _, .ok hist) := Prod.ext rfl (Prod.ext rfl hh)
  obtain ⟨F, f0, f1, f2, f3, -⟩ := C95_ncp_fixed topSv ht X R h2 h25 hR hpos s0 h0' args steps self _ _ hist hh'
  have hF := f3.2 (by
    intro n _ B _ _
    rw [f0, hz]
    exact loss.boxSum_nonneg _ fun _ _ => sq_nonneg _)
  refine ⟨_, _, hist, hh', by rw [f1, hF _ (le_refl _), f0], fun p hp => ?_⟩
  obtain ⟨j, hj, rfl⟩ := List.getElem_of_mem hp
  have := (f2 j hj).2
  rw [List.getElem?_eq_getElem hj, hF (j + 1) hj, f0, hz] at this
  have := Option.some.inj this
  rw [this]
  simp

/-- **C153** for `NTUCKER_BCU`. -/
theorem C153_ntucker (topSv : Tensor ℝ → Res ℝ) (ht : TopSvOk topSv) (X : Tensor ℝ) (ranks : List Nat)
    (hr : ranks.length = X.shape.length) (h2 : 2 ≤ X.order) (h13 : X.order ≤ 13) (hrp : ∀ d ∈ ranks, 0 < d)
    (hpos : ∀ d ∈ X.shape, 0 < d) (hX : ∃ i, InB X.shape i ∧ X.at_ i ≠ 0) (s0 : TState) (h0 : NtuckerInit X ranks s0)
    (hfit : ∀ i, InB X.shape i → X.at_ i = boxSum ranks fun j => s0.g.at_ j * kronEntry s0.A i j) (args : Args ℝ)
    (hv : args.validationInternal ≠ 0) (steps : Int) (h1 : 1 ≤ steps) (self : Self (List (Tensor ℝ)) (Tensor ℝ) (Tensor ℝ)) :
    ∃ self' ev hist, train (exactArith ℝ) (NTUCKER.cls topSv X) args steps (.ok s0) self = (self', ev, .ok hist) ∧
      self'.factors = some s0.A ∧ self'.aux = some s0.g ∧ ∀ p ∈ hist, p.2 = 0 := by
  have h0' := h0
  obtain ⟨draws, gdraw, hd, hg, hi⟩ := h0
  obtain ⟨i1, i2, i3, i4, i5, i6, -⟩ := NTUCKER.init_inv hi (tuckerShapes_iff.2 hd) hg
  have hz : tkErr X s0.g s0.A = 0 := by
    unfold tkErr
    rw [boxSum_congr (g := fun _ => (0 : ℝ)) (fun i hi => by rw [hfit i hi, i1.g]; simp), boxSum_zero]
  have hL : s0.L = fun _ => 1 := by
    unfold NTUCKER.init bcu.init at hi
    cases h1 : draws.mapM (fun d => normInit X (X.order + 1) (relu d)) with
    | error e => rw [h1] at hi; cases hi
    | ok A =>
        rw [h1] at hi
        cases h3 : normInit X (X.order + 1) (relu gdraw) with
        | error e => rw [h3] at hi; cases hi
        | ok g => rw [h3] at hi; cases hi; rfl
  obtain ⟨hist, hh⟩ := train_safe (A := exactArith ℝ) (c := NTUCKER.cls topSv X) (I := TStill X ranks s0.A s0.g)
    ⟨fun s hI => hI.main ht hr h2 h13 hrp hpos hX hz, by
      rintro f hf s hI
      cases hf
      exact hI.core ht hr h2 h13 hrp hX hz, by
      rintro p hp s hI
      cases hp
      exact ⟨hI.op1, hI.op2⟩⟩ ⟨i1, i2, rfl, i4, i3, rfl, i6, i5, fun k _ => by rw [hL]; exact one_ne_zero⟩ (Or.inl hv) h1 self
  have hh' : train (exactArith ℝ) (NTUCKER.cls topSv X) args steps (.ok s0) self = (_, _, .ok hist) := Prod.ext rfl (Prod.ext rfl hh)
  obtain ⟨F, G, f0, g0, f1, g1, f2, f3, -⟩ := C95_ntucker_fixed topSv ht X ranks hr hrp h2 h13 hpos s0 h0' args steps self _ _ hist hh'
  have hF := f3.2 (by
    refine ⟨fun n _ B _ _ => ?_, fun B _ _ => ?_⟩
    all_goals
      rw [f0, g0, hz]
      exact loss.boxSum_nonneg _ fun _ _ => sq_nonneg _)
  refine ⟨_, _, hist, hh', by rw [f1, (hF _ (le_refl _)).1, f0], by rw [g1, (hF _ (le_refl _)).2, g0], fun p hp => ?_⟩
  obtain ⟨j, hj, rfl⟩ := List.getElem_of_mem hp
  have := (f2 j hj).2
  rw [List.getElem?_eq_getElem hj, (hF (j + 1) hj).1, (hF (j + 1) hj).2, f0, g0, hz] at this
  have := Option.some.inj this
  rw [this]
  simp

/-! ### Examples -/

theorem ones_shape_pos : ∀ d ∈ onesX.shape, 0 < d := by intro d hd; have : d ∈ [2, 2] := hd; simp at this; omega
theorem ones_ne_zero : ∃ i, InB onesX.shape i ∧ onesX.at_ i ≠ 0 := ⟨[0, 0], by simp [onesX, InB], by simp [onesX, at_, ravel]⟩
theorem ones_fit : ∀ i, InB onesX.shape i → onesX.at_ i = ∑ r ∈ Finset.range 1, khatriEntry r onesState.A i := by
  intro i hi
  have := (loss.boxSum_eq_zero onesX.shape (fun i _ => sq_nonneg (onesX.at_ i - ∑ r ∈ Finset.range 1, (1 : ℝ) * khatriEntry r onesState.A i))).1
    ones_exact i hi
  have := sub_eq_zero.1 (pow_eq_zero_iff (by norm_num) |>.1 this)
  simpa using this
theorem onesT_fit : ∀ i, InB onesX.shape i → onesX.at_ i = boxSum [1, 1] fun j => onesTState.g.at_ j * kronEntry onesTState.A i j := by
  intro i hi
  have := (loss.boxSum_eq_zero onesX.shape (fun i _ => sq_nonneg (onesX.at_ i - boxSum onesTState.g.shape fun j =>
    onesTState.g.at_ j * kronEntry onesTState.A i j))).1 onesT_exact i hi
  exact sub_eq_zero.1 (pow_eq_zero_iff (by norm_num) |>.1 this)

theorem factors_const (A : List (Tensor ℝ)) : FactorsApproach (fun _ => A) A :=
  ⟨fun _ => rfl, fun k hk => ⟨fun _ => A[k], A[k], fun _ => List.getElem?_eq_getElem hk, List.getElem?_eq_getElem hk, .const _⟩⟩

/-- The hypotheses of `C152_ncp`, `C152_ncp_one` and `C153_ncp` are met by the 2 × 2 tensor of ones, rank 1 and draws of ones. -/
example : ∃ topSv, TopSvOk topSv ∧ NcpInit onesX 1 onesState ∧
    ∃ (self' : Nat → Self (List (Tensor ℝ)) (Tensor ℝ) (Tensor ℝ)) (ev : Nat → List Int) (hist : Nat → List (ℝ × ℝ)),
      (∀ n : Nat, train (exactArith ℝ) (NCP.cls topSv onesX 1) { tol := 0 } ((n : Int) + 1) (.ok onesState) {} =
        (self' n, ev n, .ok (hist n))) ∧
      (∀ n, (self' n).factors = some onesState.A) ∧ FactorsApproach (fun _ => onesState.A) onesState.A := by
  obtain ⟨topSv, ht⟩ := exists_topSvOk
  have h := fun n : Nat => C153_ncp topSv ht onesX 1 (le_refl 2) (by show 2 ≤ 25; omega) Nat.one_pos ones_shape_pos ones_ne_zero onesState ones_init
    ones_fit { tol := 0 } (by decide) ((n : Int) + 1) (by omega) {}
  choose self' ev hist h1 h2 _ using h
  exact ⟨topSv, ht, ones_init, self', ev, hist, h1, h2, factors_const _⟩

/-- Those of `C152_ntucker` and `C153_ntucker` by the same tensor with ranks `[1, 1]`. -/
example : ∃ topSv, TopSvOk topSv ∧ NtuckerInit onesX [1, 1] onesTState ∧
    ∃ (self' : Nat → Self (List (Tensor ℝ)) (Tensor ℝ) (Tensor ℝ)) (ev : Nat → List Int) (hist : Nat → List (ℝ × ℝ)),
      (∀ n : Nat, train (exactArith ℝ) (NTUCKER.cls topSv onesX) { tol := 0 } ((n : Int) + 1) (.ok onesTState) {} =
        (self' n, ev n, .ok (hist n))) ∧
      (∀ n, (self' n).factors = some onesTState.A) ∧ (∀ n, (self' n).aux = some onesTState.g) ∧
      FactorsApproach (fun _ => onesTState.A) onesTState.A ∧ Approaches (fun _ => onesTState.g) onesTState.g := by
  obtain ⟨topSv, ht⟩ := exists_topSvOk
  have h := fun n : Nat => C153_ntucker topSv ht onesX [1, 1] rfl (le_refl 2) (by show 2 ≤ 13; omega) (by simp) ones_shape_pos ones_ne_zero
    onesTState onesT_init onesT_fit { tol := 0 } (by decide) ((n : Int) + 1) (by omega) {}
  choose self' ev hist h1 h2 h3 _ using h
  exact ⟨topSv, ht, onesT_init, self', ev, hist, h1, h2, h3, factors_const _, .const _⟩

end TD.Props
