import Verif.Lemmas.Fixed
import Verif.Props.Momentum
import Verif.Props.Hooi

/-!
# C95 : a training that no longer moves has found a block-wise optimum
-/
namespace TD.Props
open TD Spec Tensor fact bcu

/-- The states and fetched values of a call of `train` of a class without a core step and without extrapolation. -/
theorem plain_run_full {S F K X R : Type} {Ar : Arith R} {c : Cls S F K X R} (hu : c.update = none) (hc : c.core = none)
    {args : Args R} {steps : Int} {fresh : Res S} {self self' : Self F K X} {ev : List Int} {hist : List (R × R)}
    (h : train Ar c args steps fresh self = (self', ev, .ok hist)) :
    ∃ (s0 : S) (σ : Nat → S) (o : Nat → Out F K X R), fresh = .ok s0 ∧ σ 0 = s0 ∧ 1 ≤ hist.length ∧
      (∀ j < hist.length, hist[j]? = some ((o j).loss, (o j).rel)) ∧
      self'.factors = some (o (hist.length - 1)).factors ∧
      (∀ v, (c.lambdasAfter <|> (o (hist.length - 1)).aux) = some v → self'.aux = some v) ∧
      (∀ j < hist.length, c.main (σ j) = .ok (σ (j + 1), o j)) ∧
      ∃ p < hist.length, Reported args steps p ∧ (∀ q, p < q → q < hist.length → ¬ Reported args steps q) ∧
        self'.full = some (o p).full := by
  obtain ⟨s0, n, o, k, h1, h2, h3, h4, h5, h6, -, h7, h8, h9, -⟩ := train_ok h
  have hl : hist.length = n := by rw [h6]; simp
  rw [hl]
  obtain ⟨σ, hσ0, hσ⟩ := h4.ran
  have hst : ∀ j < n, ∃ s, c.main (σ j) = .ok (s, o j) ∧ k j = none ∧ (j + 1 < n → σ (j + 1) = s) := by
    intro j hj
    obtain ⟨s, a, b⟩ := hσ j hj
    unfold Runs at a
    rw [hc] at a
    refine ⟨s, a.2, a.1, fun hj' => ?_⟩
    have := b hj'
    unfold Updates at this
    rw [hu] at this
    exact this
  obtain ⟨s, a, b, -⟩ := hst (n - 1) (by omega)
  refine ⟨s0, fun j => if j < n then σ j else s, o, h1, ?_, h2, fun j hj => ?_, h8, fun v hv => h9 v ?_, fun j hj => ?_, h7⟩
  · simp only; rw [if_pos (by omega), hσ0]
  · rw [h6]
    simp [List.getElem?_range hj]
  · rw [b]
    cases hla : c.lambdasAfter with
    | none =>
        rw [hla] at hv
        cases hx : (o (n - 1)).aux with
        | none => rw [hx] at hv; cases hv
        | some x => rw [hx] at hv; exact hv
    | some x => rw [hla] at hv; exact hv
  · obtain ⟨s1, a1, -, a3⟩ := hst j hj
    simp only
    rw [if_pos hj]
    by_cases hj' : j + 1 < n
    · rw [if_pos hj', a1, a3 hj']
    · rw [if_neg hj']
      obtain rfl : j = n - 1 := by omega
      exact a

/-- The same without the full tensor. -/
theorem plain_run {S F K X R : Type} {Ar : Arith R} {c : Cls S F K X R} (hu : c.update = none) (hc : c.core = none)
    {args : Args R} {steps : Int} {fresh : Res S} {self self' : Self F K X} {ev : List Int} {hist : List (R × R)}
    (h : train Ar c args steps fresh self = (self', ev, .ok hist)) :
    ∃ (s0 : S) (σ : Nat → S) (o : Nat → Out F K X R), fresh = .ok s0 ∧ σ 0 = s0 ∧ 1 ≤ hist.length ∧
      (∀ j < hist.length, hist[j]? = some ((o j).loss, (o j).rel)) ∧
      self'.factors = some (o (hist.length - 1)).factors ∧
      (∀ v, (c.lambdasAfter <|> (o (hist.length - 1)).aux) = some v → self'.aux = some v) ∧
      ∀ j < hist.length, c.main (σ j) = .ok (σ (j + 1), o j) := by
  obtain ⟨s0, σ, o, h1, h2, h3, h4, h5, h6, h7, -⟩ := plain_run_full hu hc h
  exact ⟨s0, σ, o, h1, h2, h3, h4, h5, h6, h7⟩

/-- A step of the same state gives the same result, so a run that has not moved once never moves again. -/
theorem stays {S F K X R : Type} {f : S → Res (S × Out F K X R)} {n : Nat} {σ : Nat → S} {o : Nat → Out F K X R}
    (h : ∀ j < n, f (σ j) = .ok (σ (j + 1), o j)) {j : Nat} (hj : σ (j + 1) = σ j) :
    ∀ i < n, j ≤ i → σ (i + 1) = σ j ∧ o i = o j := by
  intro i
  induction i with
  | zero => intro _ h; obtain rfl : j = 0 := by omega
            exact ⟨hj, rfl⟩
  | succ i ih =>
      intro hi hji
      rcases Nat.lt_or_ge i j with hlt | hge
      · obtain rfl : j = i + 1 := by omega
        exact ⟨hj, rfl⟩
      · have h1 := h (i + 1) hi
        rw [(ih (by omega) hge).1, h j (by omega)] at h1
        have h1 := Prod.mk.inj (Except.ok.inj h1)
        exact ⟨by rw [← h1.1, hj], h1.2.symm⟩

/-- **C95** for `CP_ALS`.  In a call of `train` that returns, let iterate 0 be the initial factors and iterate `j + 1` the
factors fetched by step `j` (the object exposes the last one), with weights `lam (j + 1)`.  If step `j` returns the
factors it started from, then no other matrix for any one mode, with whatever weights, would lower the error, and every
later step returns the same factors, the same weights and the same residual. -/
theorem C95_cp_fixed (pinv : Tensor ℝ → Res (Tensor ℝ)) (hp : PinvOk pinv) (X : Tensor ℝ) (R : Nat)
    (A0 : List (Tensor ℝ)) (hA : FactorsFor X.shape R A0) (h2 : 2 ≤ X.order) (h25 : X.order ≤ 25)
    (hpos : ∀ d ∈ X.shape, 0 < d) (Ar : Arith ℝ) (args : Args ℝ) (steps : Int)
    (self self' : Self (List (Tensor ℝ)) (Tensor ℝ) (Tensor ℝ)) (ev : List Int) (hist : List (ℝ × ℝ))
    (h : train Ar (CP_ALS.cls (cp.main pinv X R)) args steps (.ok A0) self = (self', ev, .ok hist)) :
    ∃ (F : Nat → List (Tensor ℝ)) (lam : Nat → Tensor ℝ), F 0 = A0 ∧
      self'.factors = some (F hist.length) ∧ self'.aux = some (lam hist.length) ∧
      ∀ j < hist.length,
        (∃ o, cp.main pinv X R (F j) = .ok (F (j + 1), o) ∧ o.factors = F (j + 1) ∧ o.aux = some (lam (j + 1))) ∧
        hist[j]?.map Prod.snd = some (Real.sqrt (cpErr X R (F (j + 1)) fun r => (lam (j + 1)).at_ [r]) /
          Real.sqrt (normSqT X)) ∧
        (F (j + 1) = F j → CpOptimal X R (F j) (fun r => (lam (j + 1)).at_ [r]) ∧
          ∀ i < hist.length, j ≤ i → F (i + 1) = F j ∧ lam (i + 1) = lam (j + 1) ∧ hist[i]? = hist[j]?) := by
  obtain ⟨s0, σ, o, h0, hσ0, hn, hh, hf, ha, hm⟩ := plain_run rfl rfl h
  cases h0
  have hok : ∀ j ≤ hist.length, FactorsFor X.shape R (σ j) := by
    intro j
    induction j with
    | zero => intro _; rw [hσ0]; exact hA
    | succ j ih =>
        intro hj
        obtain ⟨lam, -, hf', -⟩ := cp.main_ok hp (ih (by omega)) h2 h25 hpos (hm j hj)
        exact hf'
  have hl : ∀ j, ∃ lam, j < hist.length → (o j).factors = σ (j + 1) ∧ (o j).aux = some lam ∧
      (o j).rel = Real.sqrt (cpErr X R (σ (j + 1)) (cp.wt lam)) / Real.sqrt (normSqT X) := by
    intro j
    by_cases hj : j < hist.length
    · obtain ⟨lam, -, -, -, a, b, -, -, -, -, c, -⟩ := cp.main_ok hp (hok j hj.le) h2 h25 hpos (hm j hj)
      exact ⟨lam, fun _ => ⟨a, b, c⟩⟩
    · exact ⟨X, fun h => absurd h hj⟩
  choose lam hl using hl
  have hlast : hist.length - 1 + 1 = hist.length := by omega
  refine ⟨σ, fun j => lam (j - 1), hσ0, ?_, ?_, fun j hj => ⟨⟨o j, hm j hj, (hl j hj).1, (hl j hj).2.1⟩, ?_, fun hfix => ⟨?_, ?_⟩⟩⟩
  · rw [hf, (hl _ (by omega)).1, hlast]
  · exact ha _ (by rw [(hl _ (by omega)).2.1]; rfl)
  · rw [hh j hj, Option.map_some, (hl j hj).2.2]; rfl
  · have h1 := hm j hj
    rw [hfix] at h1
    obtain ⟨l, l1, l2⟩ := cp.main_fixed hp (hok j hj.le) h2 h25 hpos h1
    rw [(hl j hj).2.1, Option.some.injEq] at l1
    rw [← l1] at l2
    exact l2
  · intro i hi hji
    obtain ⟨a, b⟩ := stays (f := cp.main pinv X R) hm hfix i hi hji
    refine ⟨a, ?_, by rw [hh i hi, hh j hj, b]⟩
    have := (hl i hi).2.1
    rw [b, (hl j hj).2.1, Option.some.injEq] at this
    exact this.symm

/-- **C95** for `HOOI`: if step `j` returns the factors it started from, then no other matrix for any one mode, with
orthonormal columns or not, with whatever core, would lower the error, and every later step returns the same factors,
the same core and the same residual. -/
theorem C95_hooi_fixed (svd : Tensor ℝ → Res (Tensor ℝ × Tensor ℝ × Tensor ℝ)) (hs : SvdOk svd) (X : Tensor ℝ)
    (ranks : List Nat) (h2 : 2 ≤ X.order) (h13 : X.order ≤ 13) (hpos : ∀ d ∈ X.shape, 0 < d)
    (hlen : ranks.length = X.order) (Ar : Arith ℝ) (args : Args ℝ) (steps : Int)
    (self self' : Self (List (Tensor ℝ)) (Tensor ℝ) (Tensor ℝ)) (ev : List Int) (hist : List (ℝ × ℝ))
    (h : train Ar (HOOI.cls (tucker.HOOI.main svd X ranks)) args steps (tucker.HOOI.init svd X ranks) self =
      (self', ev, .ok hist)) :
    ∃ (F : Nat → List (Tensor ℝ)) (G : Nat → Tensor ℝ), tucker.HOOI.init svd X ranks = .ok (F 0) ∧
      self'.factors = some (F hist.length) ∧ self'.aux = some (G hist.length) ∧
      ∀ j < hist.length,
        (∃ o, tucker.HOOI.main svd X ranks (F j) = .ok (F (j + 1), o) ∧ o.factors = F (j + 1) ∧
          o.aux = some (G (j + 1))) ∧
        hist[j]?.map Prod.snd = some (Real.sqrt (tkErr X (G (j + 1)) (F (j + 1))) / Real.sqrt (normSqT X)) ∧
        (F (j + 1) = F j → TuckerOptimal X ranks (G (j + 1)) (F j) ∧
          ∀ i < hist.length, j ≤ i → F (i + 1) = F j ∧ G (i + 1) = G (j + 1) ∧ hist[i]? = hist[j]?) := by
  obtain ⟨s0, σ, o, h0, hσ0, hn, hh, hf, ha, hm⟩ := plain_run rfl rfl h
  obtain ⟨i1, -⟩ := hooi_init hs hpos hlen.ge h0
  have hok : ∀ j ≤ hist.length, TuckerShapes X.shape ranks (σ j) := by
    intro j
    induction j with
    | zero => intro _; rw [hσ0]; exact i1
    | succ j ih =>
        intro hj
        obtain ⟨g, hf', -⟩ := hooi_main hs h2 h13 hpos hlen.ge (ih (by omega)) (hm j hj)
        exact hf'
  have hl : ∀ j, ∃ g, j < hist.length → (o j).factors = σ (j + 1) ∧ (o j).aux = some g ∧
      (o j).rel = Real.sqrt (tkErr X g (σ (j + 1))) / Real.sqrt (normSqT X) := by
    intro j
    by_cases hj : j < hist.length
    · obtain ⟨g, b1, b2, -, a, b, b6, b7, b8, -, -, c, -⟩ := hooi_main hs h2 h13 hpos hlen.ge (hok j hj.le) (hm j hj)
      refine ⟨g, fun _ => ⟨a, b, ?_⟩⟩
      have ho : OrthoFactors X.shape (σ (j + 1)) := by
        refine ⟨b1.1, fun k M hM => ?_⟩
        have := b2 k M hM
        have e : M.shape.getD 1 0 = ranks.getD k 0 := by rw [this.1]; rfl
        rw [e]; exact this
      have hne : X.shape ≠ [] := by intro e; unfold order at h2; rw [e] at h2; simp at h2
      obtain ⟨g1, Y, e1, e2, hgs, hYs, -, hYe⟩ := tucker_entries hne h13 ho.allMat ho.rowDims
      rw [b6] at e1; cases e1
      rw [e2] at b7
      have hY := Except.ok.inj b7
      rw [c, ← hY]
      congr 2
      exact boxSum_congr fun i hi => by rw [hYe i hi]
    · exact ⟨X, fun h => absurd h hj⟩
  choose g hl using hl
  have hlast : hist.length - 1 + 1 = hist.length := by omega
  refine ⟨σ, fun j => g (j - 1), by rw [hσ0]; exact h0, ?_, ?_, fun j hj => ⟨⟨o j, hm j hj, (hl j hj).1, (hl j hj).2.1⟩, ?_,
    fun hfix => ⟨?_, ?_⟩⟩⟩
  · rw [hf, (hl _ (by omega)).1, hlast]
  · exact ha _ (by rw [(hl _ (by omega)).2.1]; rfl)
  · rw [hh j hj, Option.map_some, (hl j hj).2.2]; rfl
  · have h1 := hm j hj
    rw [hfix] at h1
    obtain ⟨l, l1, -, l2⟩ := hooi_fixed hs h2 h13 hpos hlen (hok j hj.le) h1
    rw [(hl j hj).2.1, Option.some.injEq] at l1
    rw [← l1] at l2
    exact l2
  · intro i hi hji
    obtain ⟨a, b⟩ := stays (f := tucker.HOOI.main svd X ranks) hm hfix i hi hji
    refine ⟨a, ?_, by rw [hh i hi, hh j hj, b]⟩
    have := (hl i hi).2.1
    rw [b, (hl j hj).2.1, Option.some.injEq] at this
    exact this.symm

/-- **C95** for `NCP_BCU`: the iterates are all equal exactly if the initial factors are block-wise optimal among the
nonnegative ones; and if a step has the smallest error so far and the next two steps return the same factors, these are
block-wise optimal.  (Two equal iterates in a row say nothing in general: the step may have started at an extrapolated
point.) -/
theorem C95_ncp_fixed (topSv : Tensor ℝ → Res ℝ) (ht : TopSvOk topSv) (X : Tensor ℝ) (R : Nat) (h2 : 2 ≤ X.order)
    (h25 : X.order ≤ 25) (hR : 0 < R) (hpos : ∀ d ∈ X.shape, 0 < d) (s0 : State) (h0 : NcpInit X R s0)
    (args : Args ℝ) (steps : Int)
    (self self' : Self (List (Tensor ℝ)) (Tensor ℝ) (Tensor ℝ)) (ev : List Int) (hist : List (ℝ × ℝ))
    (h : train (exactArith ℝ) (NCP.cls topSv X R) args steps (.ok s0) self = (self', ev, .ok hist)) :
    ∃ F : Nat → List (Tensor ℝ), F 0 = s0.A ∧ self'.factors = some (F hist.length) ∧
      (∀ j < hist.length,
        (∃ s s' o, NCP.main topSv X s = .ok (s', o) ∧ s.A = F j ∧ o.factors = F (j + 1)) ∧
        hist[j]?.map Prod.snd = some (Real.sqrt (cpErr X R (F (j + 1)) fun _ => 1) / Real.sqrt (normSqT X))) ∧
      ((∀ j ≤ hist.length, F j = F 0) ↔ NcpOptimal X R (F 0)) ∧
      ∀ j, j + 2 < hist.length →
        (∀ i < j, cpErr X R (F (j + 1)) (fun _ => 1) < cpErr X R (F (i + 1)) fun _ => 1) →
        F (j + 2) = F (j + 1) → F (j + 3) = F (j + 1) → NcpOptimal X R (F (j + 1)) := by
  have hne : X.shape ≠ [] := by intro e; unfold order at h2; rw [e] at h2; simp at h2
  obtain ⟨F, M, lip, f0, m0, -, hf, hs⟩ := ncp_iterates topSv X R hne h25 s0 h0 args steps self self' ev hist h
  have hlen : 1 ≤ hist.length := (C43_history _ _ args steps _ self self' ev hist h).choose_spec.choose_spec.choose_spec.2.1
  have hfwd : ∀ j < hist.length, M j = F j → F (j + 1) = F j → NcpOptimal X R (F j) := by
    intro j hj e1 e2
    obtain ⟨-, ⟨s, s', o, a1, a2, a3, a4, a5, -⟩, -⟩ := hs j hj
    rw [← a3] at e1 ⊢
    exact NCP.main_fixed ht a1 h2 h25 hR hpos (a4.trans e1) a2 (by rw [a5, e2, a3])
  have hbwd : ∀ j < hist.length, M j = F j → NcpOptimal X R (F j) → F (j + 1) = F j := by
    intro j hj e1 ho
    obtain ⟨-, ⟨s, s', o, a1, a2, a3, a4, a5, -⟩, -⟩ := hs j hj
    have := NCP.main_optimal ht a1 h2 h25 hR hpos (by rw [a4, a3, e1]) a2 (by rw [a3]; exact ho)
    rw [← a5, this, a3]
  refine ⟨F, f0, hf, fun j hj => ?_, ⟨fun hall => ?_, fun ho => ?_⟩, fun j hj hi e1 e2 => ?_⟩
  · obtain ⟨b, ⟨s, s', o, a1, a2, a3, a4, a5, a6, -⟩, -⟩ := hs j hj
    exact ⟨⟨s, s', o, a2, a3, a6⟩, b⟩
  · exact hfwd 0 hlen (by rw [m0, f0]) (hall 1 hlen)
  · have key : ∀ j ≤ hist.length, (∀ i ≤ j, F i = F 0) ∧ (j < hist.length → M j = F 0) := by
      intro j
      induction j with
      | zero => intro _; exact ⟨fun i hi => by rw [Nat.le_zero.1 hi], fun _ => by rw [m0, f0]⟩
      | succ j ih =>
          intro hj
          obtain ⟨i1, i2⟩ := ih (by omega)
          have e1 : F (j + 1) = F 0 := by
            rw [hbwd j hj (by rw [i2 hj, i1 j le_rfl]) (by rw [i1 j le_rfl]; exact ho), i1 j le_rfl]
          refine ⟨fun i hi => ?_, fun hj' => ?_⟩
          · rcases Nat.lt_or_ge i (j + 1) with h | h
            · exact i1 i (by omega)
            · obtain rfl : i = j + 1 := by omega
              exact e1
          · obtain ⟨-, -, hu⟩ := hs j hj
            obtain ⟨u1, u2⟩ := hu hj'
            have hb : ∀ (e : Nat → ℝ) (k : Nat), best e k ≤ k := by
              intro e k
              induction k with
              | zero => exact le_rfl
              | succ k ih => rw [best]; split_ifs <;> omega
            set e := fun i => cpErr X R (F (i + 1)) fun _ => 1
            by_cases hi : Improves e j
            · obtain ⟨-, ⟨s, s', o, a1, a2, a3, a4, -⟩, -⟩ := hs (j + 1) hj'
              refine List.ext_getElem? fun k => ?_
              by_cases hk : k < X.order
              · obtain ⟨a, b, m, p1, p2, p3, p4, p5⟩ := u1 hi k hk
                rw [e1] at p1
                rw [i1 _ (hb e j), p1, Option.some.injEq] at p2
                rw [p3, p1]
                congr 1
                refine ext_at p4 fun i hi => ?_
                rw [p5 i (by rw [← p4]; exact hi), ← p2]
                ring
              · have l1 : (M (j + 1)).length = X.order := by rw [← a4]; exact a1.factorsFor.2.2.length
                have l2 : (F 0).length = X.order := by rw [← e1, ← a3]; exact a1.factorsFor.1.length
                rw [List.getElem?_eq_none (by omega), List.getElem?_eq_none (by omega)]
            · rw [u2 hi, i1 _ (hb e j)]
    exact fun j hj => (key j hj).1 j le_rfl
  · obtain ⟨-, -, hu⟩ := hs (j + 1) (by omega)
    obtain ⟨-, u2⟩ := hu (by omega)
    set e := fun i => cpErr X R (F (i + 1)) fun _ => 1 with he
    have hni : ¬ Improves e (j + 1) := by
      intro hI
      have := hI j (by omega)
      simp only [he] at this
      rw [e1] at this
      exact lt_irrefl _ this
    have hM := u2 hni
    rw [best, if_pos (show Improves e j from hi)] at hM
    rw [← e1]
    exact hfwd (j + 2) hj (by rw [hM, e1]) (by rw [e2, e1])

/-- **C95** for `NTUCKER_BCU`, with the core as one more block. -/
theorem C95_ntucker_fixed (topSv : Tensor ℝ → Res ℝ) (ht : TopSvOk topSv) (X : Tensor ℝ) (ranks : List Nat)
    (hr : ranks.length = X.shape.length) (hrp : ∀ d ∈ ranks, 0 < d) (h2 : 2 ≤ X.order) (h13 : X.order ≤ 13)
    (hpos : ∀ d ∈ X.shape, 0 < d) (s0 : TState) (h0 : NtuckerInit X ranks s0)
    (args : Args ℝ) (steps : Int)
    (self self' : Self (List (Tensor ℝ)) (Tensor ℝ) (Tensor ℝ)) (ev : List Int) (hist : List (ℝ × ℝ))
    (h : train (exactArith ℝ) (NTUCKER.cls topSv X) args steps (.ok s0) self = (self', ev, .ok hist)) :
    ∃ (F : Nat → List (Tensor ℝ)) (G : Nat → Tensor ℝ), F 0 = s0.A ∧ G 0 = s0.g ∧
      self'.factors = some (F hist.length) ∧ self'.aux = some (G hist.length) ∧
      (∀ j < hist.length,
        (∃ s s1 s' o, NTUCKER.core topSv X s = .ok (s1, G (j + 1)) ∧ NTUCKER.main topSv X s1 = .ok (s', o) ∧
          s.A = F j ∧ s.g = G j ∧ o.factors = F (j + 1)) ∧
        hist[j]?.map Prod.snd = some (Real.sqrt (tkErr X (G (j + 1)) (F (j + 1))) / Real.sqrt (normSqT X))) ∧
      ((∀ j ≤ hist.length, F j = F 0 ∧ G j = G 0) ↔ NtuckerOptimal X ranks (G 0) (F 0)) ∧
      ∀ j, j + 2 < hist.length →
        (∀ i < j, tkErr X (G (j + 1)) (F (j + 1)) < tkErr X (G (i + 1)) (F (i + 1))) →
        F (j + 2) = F (j + 1) → G (j + 2) = G (j + 1) → F (j + 3) = F (j + 1) → G (j + 3) = G (j + 1) →
        NtuckerOptimal X ranks (G (j + 1)) (F (j + 1)) := by
  obtain ⟨F, M, G, N, lip, f0, m0, g0, n0, -, hf, hg, hs⟩ :=
    ntucker_iterates topSv X ranks hr (by omega) h13 s0 h0 args steps self self' ev hist h
  have hlen : 1 ≤ hist.length := (C43_history _ _ args steps _ self self' ev hist h).choose_spec.choose_spec.choose_spec.2.1
  have hfwd : ∀ j < hist.length, M j = F j → N j = G j → F (j + 1) = F j → G (j + 1) = G j →
      NtuckerOptimal X ranks (G j) (F j) := by
    intro j hj e1 e2 e3 e4
    obtain ⟨-, ⟨s, s1, s', o, a0, a1, a2, a3, a4, a5, a6, a7, a8, -⟩, -⟩ := hs j hj
    rw [← a3, ← a5]
    exact NTUCKER.step_fixed ht hr h2 h13 hrp hpos a0 (by rw [a4, a3, e1]) (by rw [a6, a5, e2]) a1 a2 (by rw [a5, e4])
      (by rw [a7, a3, e3])
  have hbwd : ∀ j < hist.length, M j = F j → N j = G j → NtuckerOptimal X ranks (G j) (F j) →
      F (j + 1) = F j ∧ G (j + 1) = G j := by
    intro j hj e1 e2 ho
    obtain ⟨-, ⟨s, s1, s', o, a0, a1, a2, a3, a4, a5, a6, a7, a8, -⟩, -⟩ := hs j hj
    obtain ⟨b1, b2⟩ := NTUCKER.step_optimal ht hr h2 h13 hrp hpos a0 (by rw [a4, a3, e1]) (by rw [a6, a5, e2]) a1 a2
      (by rw [a3, a5]; exact ho)
    exact ⟨by rw [← a7, b2, a3], by rw [b1, a5]⟩
  refine ⟨F, G, f0, g0, hf, hg, fun j hj => ?_, ⟨fun hall => ?_, fun ho => ?_⟩, fun j hj hi e1 e2 e3 e4 => ?_⟩
  · obtain ⟨b, ⟨s, s1, s', o, a0, a1, a2, a3, a4, a5, a6, a7, a8, a9, -⟩, -⟩ := hs j hj
    exact ⟨⟨s, s1, s', o, a1, a2, a3, a5, a9⟩, b⟩
  · exact hfwd 0 hlen (by rw [m0, f0]) (by rw [n0, g0]) (hall 1 hlen).1 (hall 1 hlen).2
  · have key : ∀ j ≤ hist.length, (∀ i ≤ j, F i = F 0 ∧ G i = G 0) ∧ (j < hist.length → M j = F 0 ∧ N j = G 0) := by
      intro j
      induction j with
      | zero => intro _; exact ⟨fun i hi => by rw [Nat.le_zero.1 hi]; exact ⟨rfl, rfl⟩, fun _ => by rw [m0, f0, n0, g0]; exact ⟨rfl, rfl⟩⟩
      | succ j ih =>
          intro hj
          obtain ⟨i1, i2⟩ := ih (by omega)
          have e1 : F (j + 1) = F 0 ∧ G (j + 1) = G 0 := by
            have := hbwd j hj (by rw [(i2 hj).1, (i1 j le_rfl).1]) (by rw [(i2 hj).2, (i1 j le_rfl).2])
              (by rw [(i1 j le_rfl).1, (i1 j le_rfl).2]; exact ho)
            rw [(i1 j le_rfl).1, (i1 j le_rfl).2] at this
            exact this
          refine ⟨fun i hi => ?_, fun hj' => ?_⟩
          · rcases Nat.lt_or_ge i (j + 1) with h | h
            · exact i1 i (by omega)
            · obtain rfl : i = j + 1 := by omega
              exact e1
          · obtain ⟨-, -, hu⟩ := hs j hj
            obtain ⟨u1, u2⟩ := hu hj'
            have hb : ∀ (e : Nat → ℝ) (k : Nat), best e k ≤ k := by
              intro e k
              induction k with
              | zero => exact le_rfl
              | succ k ih => rw [best]; split_ifs <;> omega
            set e := fun i => tkErr X (G (i + 1)) (F (i + 1))
            by_cases hi : Improves e j
            · obtain ⟨-, ⟨s, s1, s', o, a0, a1, a2, a3, a4, a5, a6, a7, a8, a9, -⟩, -⟩ := hs (j + 1) hj'
              obtain ⟨v1, v2, v3⟩ := u1 hi
              refine ⟨List.ext_getElem? fun k => ?_, ?_⟩
              · by_cases hk : k < X.order
                · obtain ⟨a, b, m, p1, p2, p3, p4, p5⟩ := v1 k hk
                  rw [e1.1] at p1
                  rw [(i1 _ (hb e j)).1, p1, Option.some.injEq] at p2
                  rw [p3, p1]
                  congr 1
                  refine ext_at p4 fun i hi => ?_
                  rw [p5 i (by rw [← p4]; exact hi), ← p2]
                  ring
                · have l1 : (M (j + 1)).length = X.order := by
                    rw [← a4]; exact (tuckerShapes_iff.1 a0.factors.Am).1
                  have l2 : (F 0).length = X.order := by rw [← e1.1, ← a3]; exact a0.shapes.1
                  rw [List.getElem?_eq_none (by omega), List.getElem?_eq_none (by omega)]
              · have hgs : (G 0).shape = ranks := by rw [← e1.2, ← a5]; exact a0.g
                refine ext_at (by rw [v2, hgs]) fun i hi => ?_
                rw [v3 i (by rw [← v2]; exact hi), e1.2, (i1 _ (hb e j)).2]
                ring
            · rw [(u2 hi).1, (u2 hi).2]
              exact i1 _ (hb e j)
    exact fun j hj => (key j hj).1 j le_rfl
  · obtain ⟨-, -, hu⟩ := hs (j + 1) (by omega)
    obtain ⟨-, u2⟩ := hu (by omega)
    set e := fun i => tkErr X (G (i + 1)) (F (i + 1)) with he
    have hni : ¬ Improves e (j + 1) := by
      intro hI
      have := hI j (by omega)
      simp only [he] at this
      rw [e1, e2] at this
      exact lt_irrefl _ this
    obtain ⟨hM, hN⟩ := u2 hni
    rw [best, if_pos (show Improves e j from hi)] at hM hN
    rw [← e1, ← e2]
    exact hfwd (j + 2) hj (by rw [hM, e1]) (by rw [hN, e2]) (by rw [e3, e1]) (by rw [e4, e2])

/-! ### Examples -/

/-- The hypotheses of C95 for `NCP_BCU` are met, and its equivalence holds with both sides true here. -/
example : ∃ topSv self' ev hist, TopSvOk topSv ∧ train (exactArith ℝ) (NCP.cls topSv onesX 1) { tol := 1 } 1 (.ok onesState) {} =
    (self', ev, .ok hist) ∧ NcpInit onesX 1 onesState ∧ NcpOptimal onesX 1 onesState.A := by
  obtain ⟨topSv, ht, self', ev, hist, h, -⟩ := ncp_example
  refine ⟨topSv, self', ev, hist, ht, h, ones_init, fun n _ B _ _ => ?_⟩
  rw [ones_exact]
  exact loss.boxSum_nonneg _ fun _ _ => sq_nonneg _

/-- The initial factors need not be optimal: doubling one of them is better here. -/
example : ¬ NcpOptimal (⟨[2, 2], [2, 2, 2, 2], rfl⟩ : Tensor ℝ) 1 [onesDraw, onesDraw] := by
  intro h
  have := h 0 (by decide) ⟨[2, 1], [2, 2], rfl⟩ rfl (by intro x hx; simp at hx; rw [hx]; norm_num)
  revert this
  simp only [cpErr, onesDraw]
  norm_num [boxSum, khatriEntry, at_, ravel, Finset.sum_range_succ]

/-- The hypotheses of C95 for `NTUCKER_BCU` are met, and its equivalence holds with both sides true here. -/
example : ∃ topSv self' ev hist, TopSvOk topSv ∧ train (exactArith ℝ) (NTUCKER.cls topSv onesX) { tol := 1 } 3
    (.ok onesTState) {} = (self', ev, .ok hist) ∧ NtuckerInit onesX [1, 1] onesTState ∧
    NtuckerOptimal onesX [1, 1] onesTState.g onesTState.A := by
  obtain ⟨topSv, ht, h⟩ := ntucker_example
  obtain ⟨self', ev, hist, h, -⟩ := h 3 (by omega)
  refine ⟨topSv, self', ev, hist, ht, h, onesT_init, fun n _ B _ _ => ?_, fun g _ _ => ?_⟩
  all_goals
    rw [onesT_exact]
    exact loss.boxSum_nonneg _ fun _ _ => sq_nonneg _

/-- `diag(2, 1)`, its first column, and the first unit vector. -/
def diagX : Tensor ℝ := ⟨[2, 2], [2, 0, 0, 1], rfl⟩
@[inherit_doc diagX] def diagCol : Tensor ℝ := ⟨[2, 1], [2, 0], rfl⟩
@[inherit_doc diagX] def diagRow : Tensor ℝ := ⟨[1, 2], [2, 0], rfl⟩
@[inherit_doc diagX] def unitV : Tensor ℝ := ⟨[2, 1], [1, 0], rfl⟩

/-- For `CP_ALS` the condition of C95 is met with residual `1/√5`: on `diag(2, 1)` with rank 1, a step that starts at the
unit vectors returns them, whatever the pseudoinverse routine. -/
theorem cp_fixed_example (pinv : Tensor ℝ → Res (Tensor ℝ)) (hp : PinvOk pinv) :
    ∃ o, cp.main pinv diagX 1 [unitV, unitV] = .ok ([unitV, unitV], o) := by
  have hA : FactorsFor diagX.shape 1 [unitV, unitV] := rfl
  have hpos : ∀ d ∈ diagX.shape, 0 < d := by intro d hd; have : d ∈ [2, 2] := hd; simp at this; omega
  have hup : ∀ n < 2, ∃ lam N, cp.modeUpdate pinv diagX 1 [unitV, unitV] n = .ok ⟨[unitV, unitV], lam, N⟩ := by
    intro n hn
    have hn' : n < diagX.order := hn
    obtain ⟨K, N, lam, P, hK, hKs, hNs, hls, hP, hN, hmax, he⟩ :=
      cp.modeUpdate_eq hp hA (le_refl 2) (by show 2 ≤ 25; omega) hn' (cp.getD_pos hpos hn')
    have hd : diagX.shape.getD n 0 = 2 := by
      rcases (show n = 0 ∨ n = 1 by omega) with rfl | rfl <;> rfl
    rw [hd] at hNs hmax he
    have hle : cpErr diagX 1 ([unitV, unitV].set n N) (fun _ => 1) ≤ cpErr diagX 1 ([unitV, unitV].set n diagCol) fun _ => 1 := by
      rw [(cpErr_frob _ hA (le_refl 2) (by show 2 ≤ 25; omega) hn' (by rw [hd]; exact hNs) hK).2,
        (cpErr_frob _ hA (le_refl 2) (by show 2 ≤ 25; omega) hn' (by rw [hd]; rfl) hK).2]
      have e : (Matrix.of fun (i : Fin (diagX.shape.getD n 0)) (r : Fin 1) => N.at_ [(i : Nat), (r : Nat)] * 1) =
          toMat N (diagX.shape.getD n 0) 1 := by
        ext i r; rw [Matrix.of_apply, mul_one]; rfl
      rw [e, hN]
      exact least_squares_le _ _ _ hP _
    have hN01 : N.at_ [0, 0] = 2 ∧ N.at_ [1, 0] = 0 := by
      have h1 : cpErr diagX 1 ([unitV, unitV].set n N) (fun _ => 1) = (2 - N.at_ [0, 0]) ^ 2 + N.at_ [1, 0] ^ 2 + 1 := by
        rcases (show n = 0 ∨ n = 1 by omega) with rfl | rfl
        all_goals
          simp only [cpErr, diagX, unitV, List.set]
          norm_num [boxSum, khatriEntry, at_, ravel, Finset.sum_range_succ]
          try ring
      have h2 : cpErr diagX 1 ([unitV, unitV].set n diagCol) (fun _ => 1) = 1 := by
        rcases (show n = 0 ∨ n = 1 by omega) with rfl | rfl
        all_goals
          simp only [cpErr, diagX, unitV, diagCol, List.set]
          norm_num [boxSum, khatriEntry, at_, ravel, Finset.sum_range_succ]
      rw [h1, h2] at hle
      have a1 := sq_nonneg (2 - N.at_ [0, 0])
      have a2 := sq_nonneg (N.at_ [1, 0])
      have b1 : (2 - N.at_ [0, 0]) ^ 2 = 0 := by linarith
      have b2 : (N.at_ [1, 0]) ^ 2 = 0 := by linarith
      have b1 := pow_eq_zero_iff (by norm_num) |>.1 b1
      have b2 := pow_eq_zero_iff (by norm_num) |>.1 b2
      exact ⟨by linarith, b2⟩
    obtain ⟨m1, i, hi, m2⟩ := hmax 0 (by omega)
    have hlam : lam.at_ [0] = 2 := by
      have hge := m1 0 (by omega)
      rw [hN01.1] at hge
      rcases (show i = 0 ∨ i = 1 by omega) with rfl | rfl
      · rw [← m2, hN01.1]
      · rw [hN01.2] at m2
        rw [← m2] at hge
        norm_num at hge
    have hdata : lam.data = [2] := by
      have := data_eq lam
      rw [hls] at this
      rw [this]
      simp [indices, hlam]
    have hU : (mat 2 1 fun i r => N.at_ [i, r] / lam.at_ [r]) = unitV := by
      refine ext_mat (m := 2) (n := 1) rfl rfl fun a ha b hb => ?_
      obtain rfl : b = 0 := by omega
      rw [at_mat _ ha hb, hlam]
      rcases (show a = 0 ∨ a = 1 by omega) with rfl | rfl
      · rw [hN01.1]; norm_num [unitV, at_, ravel]
      · rw [hN01.2]; norm_num [unitV, at_, ravel]
    refine ⟨lam, N, ?_⟩
    rw [he, hdata, if_neg (by norm_num), hU]
    rcases (show n = 0 ∨ n = 1 by omega) with rfl | rfl <;> rfl
  obtain ⟨l0, N0, u0⟩ := hup 0 (by omega)
  obtain ⟨l1, N1, u1⟩ := hup 1 (by omega)
  have hsw : cp.sweep pinv diagX 1 [unitV, unitV] = .ok ([unitV, unitV], l1) := by
    unfold cp.sweep
    rw [show List.range diagX.order = [0, 1] from rfl]
    have key : ∀ f : (List (Tensor ℝ) × Option (Tensor ℝ)) → Nat → Res (List (Tensor ℝ) × Option (Tensor ℝ)),
        f ([unitV, unitV], none) 0 = .ok ([unitV, unitV], some l0) →
        f ([unitV, unitV], some l0) 1 = .ok ([unitV, unitV], some l1) →
        [0, 1].foldlM f ([unitV, unitV], none) = .ok ([unitV, unitV], some l1) := by
      intro f a b
      rw [List.foldlM_cons, a, ok_bind, List.foldlM_cons, b, ok_bind]
      rfl
    rw [key (fun st mode => do
      let u ← cp.modeUpdate pinv diagX 1 st.1 mode
      return (u.A, some u.lam)) (by simp only [u0]; rfl) (by simp only [u1]; rfl)]
    rfl
  obtain ⟨a1, a2, -⟩ := cp.sweep_descends hp hA (le_refl 2) (by show 2 ≤ 25; omega) hpos hsw
  obtain ⟨Y, y1, y2, -⟩ := cp.fullOf_spec a1 (by simp [diagX]) (by show 2 ≤ 25; omega) a2
  obtain ⟨⟨l, obj, rel⟩, hq⟩ := cp.scalars_total y2
    ⟨[0, 0], InB_pair.2 ⟨0, 0, rfl, by decide, by decide⟩, by simp [diagX, at_, ravel]⟩
  refine ⟨⟨[unitV, unitV], some l1, Y, l, obj, rel⟩, ?_⟩
  unfold cp.main
  rw [hsw, ok_bind]
  simp only [y1, ok_bind, hq]
  rfl

/-- By C95 the unit vectors are block-wise optimal, and `train` returns for every number of steps. -/
example (pinv : Tensor ℝ → Res (Tensor ℝ)) (hp : PinvOk pinv) (steps : Int) (hs : 1 ≤ steps) :
    ∃ hist, (train (exactArith ℝ) (CP_ALS.cls (cp.main pinv diagX 1)) { tol := 0 } steps (.ok [unitV, unitV]) {}).2.2 = .ok hist := by
  refine train_safe (I := (· = [unitV, unitV])) ⟨?_, by rintro f ⟨⟩, by rintro f ⟨⟩⟩ rfl (Or.inl (by decide)) hs {}
  rintro s rfl
  obtain ⟨o, ho⟩ := cp_fixed_example pinv hp
  exact ⟨_, o, ho, rfl⟩

/-- For `HOOI` the condition of C95 is met on `diag(2, 1)` with ranks `(1, 1)`: the first step returns the initial factors. -/
theorem hooi_fixed_example : ∃ svd, SvdOk svd ∧ tucker.HOOI.init svd diagX [1, 1] = .ok [unitV, unitV] ∧
    tucker.HOOI.sweep svd diagX [1, 1] [unitV, unitV] = .ok [unitV, unitV] := by
  classical
  obtain ⟨svd, hs⟩ := exists_svdOk
  have hne : diagCol ≠ diagX := by
    intro e
    have := congrArg shape e
    simp [diagCol, diagX] at this
  let svd' : Tensor ℝ → Res (Tensor ℝ × Tensor ℝ × Tensor ℝ) := fun M =>
    if M = diagX then .ok (⟨[2], [2, 1], rfl⟩, ⟨[2, 2], [1, 0, 0, 1], rfl⟩, ⟨[2, 2], [1, 0, 0, 1], rfl⟩)
    else if M = diagCol then .ok (⟨[1], [2], rfl⟩, unitV, ⟨[1, 1], [1], rfl⟩) else svd M
  have e1 : svd' diagX = .ok (⟨[2], [2, 1], rfl⟩, ⟨[2, 2], [1, 0, 0, 1], rfl⟩, ⟨[2, 2], [1, 0, 0, 1], rfl⟩) := if_pos rfl
  have e2 : svd' diagCol = .ok (⟨[1], [2], rfl⟩, unitV, ⟨[1, 1], [1], rfl⟩) := by
    change (if diagCol = diagX then _ else _) = _
    rw [if_neg hne, if_pos rfl]
  have l0 : tucker.leading svd' diagX [1, 1] 0 = .ok unitV := by
    unfold tucker.leading
    rw [show ops.unfold diagX ((0 : Nat) : Int) = .ok diagX from rfl, ok_bind, e1]
    rfl
  have l1 : tucker.leading svd' diagX [1, 1] 1 = .ok unitV := by
    unfold tucker.leading
    rw [show ops.unfold diagX ((1 : Nat) : Int) = .ok diagX from rfl, ok_bind, e1]
    rfl
  have c0 : tucker.leading svd' diagCol [1, 1] 0 = .ok unitV := by
    unfold tucker.leading
    rw [show ops.unfold diagCol ((0 : Nat) : Int) = .ok diagCol from rfl, ok_bind, e2]
    rfl
  have c1 : tucker.leading svd' diagRow [1, 1] 1 = .ok unitV := by
    unfold tucker.leading
    rw [show ops.unfold diagRow ((1 : Nat) : Int) = .ok diagCol from rfl, ok_bind, e2]
    rfl
  have t0 : ops.ttm diagX [unitV, unitV] none true (.int ((0 : Nat) : Int)) = .ok diagCol := by
    have : ops.ttm diagX [unitV, unitV] none true (.int ((0 : Nat) : Int)) =
        .ok ⟨[2, 1], [(2 : ℝ) * (1 * 1) + (0 * (0 * 1) + 0), 0 * (1 * 1) + (1 * (0 * 1) + 0)], rfl⟩ := rfl
    rw [this]
    norm_num [diagCol]
  have t1 : ops.ttm diagX [unitV, unitV] none true (.int ((1 : Nat) : Int)) = .ok diagRow := by
    have : ops.ttm diagX [unitV, unitV] none true (.int ((1 : Nat) : Int)) =
        .ok ⟨[1, 2], [(2 : ℝ) * (1 * 1) + (0 * (0 * 1) + 0), 0 * (1 * 1) + (1 * (0 * 1) + 0)], rfl⟩ := rfl
    rw [this]
    norm_num [diagRow]
  refine ⟨svd', fun M m n hM => ?_, ?_, ?_⟩
  · by_cases h1 : M = diagX
    · subst h1
      obtain ⟨rfl, rfl⟩ : 2 = m ∧ 2 = n := by simpa [diagX] using hM
      refine ⟨_, _, _, e1, rfl, rfl, rfl, ?_⟩
      change @IsThinSVD 2 2 _ (toMat _ 2 2) (fun i : Fin 2 => _) (toMat _ 2 2)
      refine ⟨?_, ?_, ?_, ?_, ?_⟩
      · ext i j; fin_cases i <;> fin_cases j <;> simp [Matrix.mul_apply, toMat, at_, ravel, Fin.sum_univ_two]
      · ext i j; fin_cases i <;> fin_cases j <;> simp [Matrix.mul_apply, toMat, at_, ravel, Fin.sum_univ_two]
      · intro i; fin_cases i <;> simp [at_, ravel]
      · intro i j h; fin_cases i <;> fin_cases j <;> simp [at_, ravel] at h ⊢
      · have : toMat diagX 2 2 = toMat ⟨[2, 2], [1, 0, 0, 1], rfl⟩ 2 2 *
            Matrix.diagonal (fun i : Fin 2 => (⟨[2], [2, 1], rfl⟩ : Tensor ℝ).at_ [(i : Nat)]) *
            (toMat ⟨[2, 2], [1, 0, 0, 1], rfl⟩ 2 2).transpose := by
          ext i j
          fin_cases i <;> fin_cases j <;>
            simp [Matrix.mul_apply, toMat, at_, ravel, Fin.sum_univ_two, Matrix.diagonal, diagX]
        exact this
    · by_cases h2 : M = diagCol
      · subst h2
        obtain ⟨rfl, rfl⟩ : 2 = m ∧ 1 = n := by simpa [diagCol] using hM
        refine ⟨_, _, _, e2, rfl, rfl, rfl, ?_⟩
        change @IsThinSVD 2 1 _ (toMat _ 2 1) (fun i : Fin 1 => _) (toMat _ 1 1)
        refine ⟨?_, ?_, ?_, ?_, ?_⟩
        · ext i j; fin_cases i; fin_cases j; simp [Matrix.mul_apply, toMat, at_, ravel, Fin.sum_univ_two, unitV]
        · ext i j; fin_cases i; fin_cases j; simp [Matrix.mul_apply, toMat, at_, ravel]
        · intro i; fin_cases i; simp [at_, ravel]
        · intro i j h; fin_cases i; fin_cases j; simp [at_, ravel]
        · have : toMat diagCol 2 1 = toMat unitV 2 1 *
              Matrix.diagonal (fun i : Fin 1 => (⟨[1], [2], rfl⟩ : Tensor ℝ).at_ [(i : Nat)]) *
              (toMat ⟨[1, 1], [1], rfl⟩ 1 1).transpose := by
            ext i j
            fin_cases i <;> fin_cases j <;>
              simp [Matrix.mul_apply, toMat, at_, ravel, Matrix.diagonal, diagCol, unitV]
          exact this
      · have : svd' M = svd M := by
          change (if M = diagX then _ else _) = _
          rw [if_neg h1, if_neg h2]
        rw [this]
        exact hs M m n hM
  · unfold tucker.HOOI.init
    rw [show List.range diagX.order = [0, 1] from rfl]
    simp only [List.mapM_cons, List.mapM_nil, l0, l1, ok_bind]
    rfl
  · unfold tucker.HOOI.sweep
    rw [show List.range diagX.order = [0, 1] from rfl]
    have m0 : tucker.HOOI.modeUpdate svd' diagX [1, 1] [unitV, unitV] 0 = .ok [unitV, unitV] := by
      unfold tucker.HOOI.modeUpdate
      rw [t0, ok_bind, c0]
      rfl
    have m1 : tucker.HOOI.modeUpdate svd' diagX [1, 1] [unitV, unitV] 1 = .ok [unitV, unitV] := by
      unfold tucker.HOOI.modeUpdate
      rw [t1, ok_bind, c1]
      rfl
    simp only [List.foldlM_cons, List.foldlM_nil, m0, m1, ok_bind]
    rfl

/-- By C74 `train` returns for every number of steps there. -/
example (svd : Tensor ℝ → Res (Tensor ℝ × Tensor ℝ × Tensor ℝ)) (hs : SvdOk svd) (steps : Int) (h1 : 1 ≤ steps) :
    ∃ hist, (train (exactArith ℝ) (HOOI.cls (tucker.HOOI.main svd diagX [1, 1])) { tol := 0 } steps
      (tucker.HOOI.init svd diagX [1, 1]) {}).2.2 = .ok hist := by
  refine (C74_hooi_admissible svd hs diagX [1, 1] (le_refl 2) (by show 2 ≤ 13; omega) (by
    intro d hd; have : d ∈ [2, 2] := hd; simp at this; omega)
    ⟨[0, 0], InB_pair.2 ⟨0, 0, rfl, by decide, by decide⟩, by simp [diagX, at_, ravel]⟩ (le_refl 2) _ _
    (by decide) steps h1 {}).2 ?_
  change ∀ n < 2, [1, 1].getD n 0 ≤ [2, 2].getD n 0 ∧
    [1, 1].getD n 0 ≤ ∏ m ∈ (Finset.range 2).erase n, [1, 1].getD m 0
  decide

end TD.Props
