import Verif.Lemmas.Approach
import Verif.Props.Stages

/-!
# C151 : what the iterates of `CP_ALS` and `HOOI` converge to
-/
namespace TD.Props
open TD Spec Tensor fact bcu Filter Topology

/-- Trainings of all lengths from one start are parts of one endless run. -/
theorem endless {S F K X R : Type} {Ar : Arith R} {c : Cls S F K X R} (hu : c.update = none) (hc : c.core = none)
    {args : Args R} {fresh : Res S} {self : Self F K X} {self' : Nat → Self F K X} {ev : Nat → List Int} {hist : Nat → List (R × R)}
    (h : ∀ n : Nat, train Ar c args ((n : Int) + 1) fresh self = (self' n, ev n, .ok (hist n)))
    (hl : ∀ n, (hist n).length = n + 1) :
    ∃ (σ : Nat → S) (o : Nat → Out F K X R), fresh = .ok (σ 0) ∧ ∀ n, c.main (σ n) = .ok (σ (n + 1), o n) ∧
      (self' n).factors = some (o n).factors ∧ (∀ v, (c.lambdasAfter <|> (o n).aux) = some v → (self' n).aux = some v) := by
  have hr := fun n => plain_run hu hc (h n)
  choose s0 σ o h0 hσ0 hn hh hf ha hm using hr
  have hs0 : ∀ n, s0 n = s0 0 := fun n => by
    have := (h0 n).symm.trans (h0 0)
    exact Except.ok.inj this
  have key : ∀ j n, j ≤ n → σ n j = σ j j := by
    intro j
    induction j with
    | zero => intro n _; rw [hσ0, hσ0, hs0 n]
    | succ j ih =>
        intro n hn
        have a := hm n j (by rw [hl]; omega)
        have b := hm (j + 1) j (by rw [hl]; omega)
        rw [ih n (by omega)] at a
        rw [ih (j + 1) (by omega), a] at b
        exact (Prod.mk.inj (Except.ok.inj b)).1
  refine ⟨fun j => σ j j, fun j => o j j, by show fresh = .ok (σ 0 0); rw [h0 0, hσ0], fun n => ⟨?_, ?_, ?_⟩⟩
  · have a := hm n n (by rw [hl]; omega)
    have b := hm (n + 1) n (by rw [hl]; omega)
    rw [key n (n + 1) (by omega)] at b
    rw [a] at b ⊢
    have := Prod.mk.inj (Except.ok.inj b)
    rw [this.1]
  · have := hf n
    rw [hl] at this
    exact this
  · have := ha n
    rw [hl] at this
    exact this

/-- **C151** for `CP_ALS` without stopping test (tolerance not positive): let `F n` and `lam n` be the factors and weights exposed by
the training with `n + 1` steps.  If factors and weights converge, no other matrix for any one mode, with whatever weights, has a
smaller error than the limit.  If only a subsequence converges, this holds for the first and the last mode. -/
theorem C151_cp (pinv : Tensor ℝ → Res (Tensor ℝ)) (hp : PinvOk pinv) (X : Tensor ℝ) (R : Nat)
    (A0 : List (Tensor ℝ)) (hA : FactorsFor X.shape R A0) (h2 : 2 ≤ X.order) (h25 : X.order ≤ 25)
    (hpos : ∀ d ∈ X.shape, 0 < d) (args : Args ℝ) (ht : args.tol ≤ 0)
    (self : Self (List (Tensor ℝ)) (Tensor ℝ) (Tensor ℝ)) (self' : Nat → Self (List (Tensor ℝ)) (Tensor ℝ) (Tensor ℝ))
    (ev : Nat → List Int) (hist : Nat → List (ℝ × ℝ))
    (h : ∀ n : Nat, train (exactArith ℝ) (CP_ALS.cls (cp.main pinv X R)) args ((n : Int) + 1) (.ok A0) self =
      (self' n, ev n, .ok (hist n))) (F : Nat → List (Tensor ℝ)) (lam : Nat → Tensor ℝ)
    (hF : ∀ n, (self' n).factors = some (F n)) (hlam : ∀ n, (self' n).aux = some (lam n)) :
    (∀ L l, FactorsApproach F L → Approaches lam l → CpOptimal X R L fun r => l.at_ [r]) ∧
    ∀ φ L l, StrictMono φ → FactorsApproach (fun n => F (φ n)) L → Approaches (fun n => lam (φ n)) l →
      ∀ n, n = 0 ∨ n = X.order - 1 → ∀ B : Tensor ℝ, B.shape = [X.shape.getD n 0, R] → ∀ w,
        cpErr X R L (fun r => l.at_ [r]) ≤ cpErr X R (L.set n B) w := by
  have hl : ∀ n, (hist n).length = n + 1 := fun n => by
    have := all_steps (X := X) (fun _ _ _ hm => (cp_main_inv hm).choose_spec.2.2.2) ht (h n)
    omega
  obtain ⟨σ, o, h0, hm⟩ := endless rfl rfl h hl
  cases h0
  have hok : ∀ j, FactorsFor X.shape R (σ j) := by
    intro j
    induction j with
    | zero => exact hA
    | succ j ih =>
        obtain ⟨lam, -, hf', -⟩ := cp.main_ok hp ih h2 h25 hpos (hm j).1
        exact hf'
  have hval : ∀ j, F j = σ (j + 1) ∧ (o j).aux = some (lam j) ∧ ∀ w, cpErr X R (σ (j + 1)) (cp.wt (lam j)) ≤ cpErr X R (σ j) w := by
    intro j
    obtain ⟨l, -, -, -, a, b, -, -, -, -, -, -, c, -⟩ := cp.main_ok hp (hok j) h2 h25 hpos (hm j).1
    have e1 := (hm j).2.1
    rw [hF, a, Option.some.injEq] at e1
    have e2 := (hm j).2.2 l (by rw [b]; rfl)
    rw [hlam, Option.some.injEq] at e2
    rw [e2]
    exact ⟨e1, b, c⟩
  have hst : ∀ j, ∀ n < X.order, ∀ B : Tensor ℝ, B.shape = [X.shape.getD n 0, R] → ∀ w,
      cpErr X R (F (j + 1)) (fun r => (lam (j + 1)).at_ [r]) ≤ cpErr X R ((atMode (F j) (F (j + 1)) n).set n B) w := by
    intro j n hn B hB w
    obtain ⟨l, l1, l2⟩ := cp.main_stages hp (hok (j + 1)) h2 h25 hpos (hm (j + 1)).1
    rw [(hval (j + 1)).2.1, Option.some.injEq] at l1
    rw [← l1] at l2
    have := l2 n hn B hB w
    rw [← (hval j).1, ← (hval (j + 1)).1] at this
    exact this
  have hanti : Antitone fun n => cpErr X R (F n) fun r => (lam n).at_ [r] := antitone_nat_of_succ_le fun n => by
    have := (hval (n + 1)).2.2 (fun r => (lam n).at_ [r])
    rw [← (hval (n + 1)).1, ← (hval n).1] at this
    exact this
  have hlim : ∀ {φ : ℕ → ℕ} {L : List (Tensor ℝ)} {l : Tensor ℝ}, StrictMono φ → FactorsApproach (fun n => F (φ n)) L →
      Approaches (fun n => lam (φ n)) l → ∀ m, cpErr X R L (fun r => l.at_ [r]) ≤ cpErr X R (F m) fun r => (lam m).at_ [r] := by
    intro φ L l hφ hL hll m
    have ht := cpErr_tendsto (X := X) (R := R) hL (fun r => hll.all [r])
    refine le_of_tendsto ht ?_
    filter_upwards [eventually_ge_atTop m] with n hn
    exact hanti (hn.trans (hφ.id_le n))
  refine ⟨fun L l hL hll n hn B hB w => ?_, fun φ L l hφ hL hll n hn B hB w => ?_⟩
  · have hL1 := hL.comp (tendsto_add_atTop_nat 1)
    have h2 := cpErr_tendsto (X := X) (R := R) (w := fun _ => w) ((hL.atMode hL1 n).set n B) fun r => tendsto_const_nhds
    exact ge_of_tendsto h2 (Eventually.of_forall fun m => (hlim strictMono_id hL hll (m + 1)).trans (hst m n hn B hB w))
  · have h2' := cpErr_tendsto (X := X) (R := R) (w := fun _ => w) (hL.set n B) fun r => tendsto_const_nhds
    refine ge_of_tendsto h2' ((eventually_ge_atTop 1).mono fun m hm1 => ?_)
    rcases hn with rfl | rfl
    · have := hst (φ m) 0 (by omega) B hB w
      rw [atMode_zero] at this
      exact (hlim hφ hL hll _).trans this
    · have h1 : 1 ≤ φ m := hm1.trans (hφ.id_le m)
      have := hst (φ m - 1) (X.order - 1) (by omega) B hB w
      rw [show φ m - 1 + 1 = φ m by omega, atMode_last (N := X.order) (by rw [(hval _).1]; exact (hok _).length)
        (by rw [(hval _).1]; exact (hok _).length) (by omega)] at this
      exact (hlim hφ hL hll _).trans this

/-- **C151** for `HOOI`, with the core in place of the weights. -/
theorem C151_hooi (svd : Tensor ℝ → Res (Tensor ℝ × Tensor ℝ × Tensor ℝ)) (hs : SvdOk svd) (X : Tensor ℝ)
    (ranks : List Nat) (h2 : 2 ≤ X.order) (h13 : X.order ≤ 13) (hpos : ∀ d ∈ X.shape, 0 < d)
    (hlen : ranks.length = X.order) (args : Args ℝ) (ht : args.tol ≤ 0)
    (self : Self (List (Tensor ℝ)) (Tensor ℝ) (Tensor ℝ)) (self' : Nat → Self (List (Tensor ℝ)) (Tensor ℝ) (Tensor ℝ))
    (ev : Nat → List Int) (hist : Nat → List (ℝ × ℝ))
    (h : ∀ n : Nat, train (exactArith ℝ) (HOOI.cls (tucker.HOOI.main svd X ranks)) args ((n : Int) + 1)
      (tucker.HOOI.init svd X ranks) self = (self' n, ev n, .ok (hist n))) (F : Nat → List (Tensor ℝ)) (G : Nat → Tensor ℝ)
    (hF : ∀ n, (self' n).factors = some (F n)) (hG : ∀ n, (self' n).aux = some (G n)) :
    (∀ L g, FactorsApproach F L → Approaches G g → TuckerOptimal X ranks g L) ∧
    (∀ φ L g, StrictMono φ → FactorsApproach (fun n => F (φ n)) L → Approaches (fun n => G (φ n)) g →
      ∀ n, n = 0 ∨ n = X.order - 1 → ∀ B g' : Tensor ℝ, B.shape = [X.shape.getD n 0, ranks.getD n 0] → g'.shape = ranks →
        tkErr X g L ≤ tkErr X g' (L.set n B)) ∧
    ∃ φ L g, StrictMono φ ∧ FactorsApproach (fun n => F (φ n)) L ∧ Approaches (fun n => G (φ n)) g := by
  have hl : ∀ n, (hist n).length = n + 1 := fun n => by
    have := all_steps (X := X) (fun _ _ _ hm => (hooi_main_inv hm).choose_spec.2.2.2) ht (h n)
    omega
  obtain ⟨σ, o, h0, hm⟩ := endless rfl rfl h hl
  obtain ⟨i1, i2, -⟩ := hooi_init hs hpos hlen.ge h0
  have hok : ∀ j, TuckerShapes X.shape ranks (σ j) ∧
      ∀ k M, (σ j)[k]? = some M → OrthoCols M (X.shape.getD k 0) (ranks.getD k 0) := by
    intro j
    induction j with
    | zero => exact ⟨i1, i2⟩
    | succ j ih =>
        obtain ⟨g, hf', ho', -⟩ := hooi_main hs h2 h13 hpos hlen.ge ih.1 (hm j).1
        exact ⟨hf', ho'⟩
  have hne : X.shape ≠ [] := by intro e; unfold order at h2; rw [e] at h2; simp at h2
  have hval : ∀ j, F j = σ (j + 1) ∧ (o j).aux = some (G j) ∧ (G j).shape = ranks ∧ tkErr X (G j) (σ (j + 1)) = normSqT X - normSqT (G j) ∧
      coreSq X (σ (j + 1)) = normSqT (G j) ∧ coreSq X (σ j) ≤ coreSq X (σ (j + 1)) := by
    intro j
    obtain ⟨g, a1, a2, a3, a4, a5, a6, a7, a8, a9, -, -, -, a13, a14⟩ := hooi_main hs h2 h13 hpos hlen.ge (hok j).1 (hm j).1
    have e1 := (hm j).2.1
    rw [hF, a4, Option.some.injEq] at e1
    have e2 := (hm j).2.2 g (by rw [a5]; rfl)
    rw [hG, Option.some.injEq] at e2
    rw [e2]
    have ho : OrthoFactors X.shape (σ (j + 1)) := by
      refine ⟨a1.1, fun k M hM => ?_⟩
      have := a2 k M hM
      have e : M.shape.getD 1 0 = ranks.getD k 0 := by rw [this.1]; rfl
      rw [e]; exact this
    obtain ⟨g1, Y, e1', e2', hgs, hYs, -, hYe⟩ := tucker_entries hne h13 ho.allMat ho.rowDims
    rw [a6] at e1'; cases e1'
    refine ⟨e1, a5, by rw [hgs, a1.colDims hlen], ?_, a13, a14 (hok j).2⟩
    rw [e2'] at a7; cases a7
    rw [← a9]
    exact (boxSum_congr fun i hi => by rw [hYe i hi]).symm
  have hst : ∀ j, ∀ n < X.order, ∀ B g : Tensor ℝ, B.shape = [X.shape.getD n 0, ranks.getD n 0] → g.shape = ranks →
      tkErr X (G (j + 1)) (F (j + 1)) ≤ tkErr X g ((atMode (F j) (F (j + 1)) n).set n B) := by
    intro j n hn B g hB hg
    obtain ⟨l, l1, -, l2⟩ := hooi_stages hs h2 h13 hpos hlen (hok (j + 1)).1 (hok (j + 1)).2 (hm (j + 1)).1
    rw [(hval (j + 1)).2.1, Option.some.injEq] at l1
    rw [← l1] at l2
    have := l2 n hn B g hB hg
    rw [← (hval j).1, ← (hval (j + 1)).1] at this
    exact this
  have hanti : Antitone fun n => tkErr X (G n) (F n) := antitone_nat_of_succ_le fun n => by
    rw [(hval (n + 1)).1, (hval (n + 1)).2.2.2.1, (hval n).1, (hval n).2.2.2.1, ← (hval (n + 1)).2.2.2.2.1, ← (hval n).2.2.2.2.1]
    have := (hval (n + 1)).2.2.2.2.2
    linarith
  have hlim : ∀ {φ : ℕ → ℕ} {L : List (Tensor ℝ)} {g : Tensor ℝ}, StrictMono φ → FactorsApproach (fun n => F (φ n)) L →
      Approaches (fun n => G (φ n)) g → ∀ m, tkErr X g L ≤ tkErr X (G m) (F m) := by
    intro φ L g hφ hL hg m
    refine le_of_tendsto (tkErr_tendsto (X := X) hL hg) ?_
    filter_upwards [eventually_ge_atTop m] with n hn
    exact hanti (hn.trans (hφ.id_le n))
  refine ⟨fun L g hL hg n hn B g' hB hg' => ?_, fun φ L g hφ hL hg n hn B g' hB hg' => ?_, ?_⟩
  · have hL1 := hL.comp (tendsto_add_atTop_nat 1)
    have h2 := tkErr_tendsto (X := X) ((hL.atMode hL1 n).set n B) (Approaches.const g')
    have hgr : g'.shape = ranks := by rw [hg', ← hg.1 0, (hval 0).2.2.1]
    exact ge_of_tendsto h2 (Eventually.of_forall fun m => (hlim strictMono_id hL hg (m + 1)).trans (hst m n hn B g' hB hgr))
  · have h2' := tkErr_tendsto (X := X) (hL.set n B) (Approaches.const g')
    refine ge_of_tendsto h2' ((eventually_ge_atTop 1).mono fun m hm1 => ?_)
    rcases hn with rfl | rfl
    · have := hst (φ m) 0 (by omega) B g' hB hg'
      rw [atMode_zero] at this
      exact (hlim hφ hL hg _).trans this
    · have h1 : 1 ≤ φ m := hm1.trans (hφ.id_le m)
      have := hst (φ m - 1) (X.order - 1) (by omega) B g' hB hg'
      rw [show φ m - 1 + 1 = φ m by omega, atMode_last (N := X.order) (by rw [(hval _).1]; exact (hok _).1.1)
        (by rw [(hval _).1]; exact (hok _).1.1) (by omega)] at this
      exact (hlim hφ hL hg _).trans this
  · have hsh : ∀ n, (F n ++ [G n]).map shape = tuckerShapes X.shape ranks ++ [ranks] := by
      intro n
      rw [List.map_append, List.map_singleton, (hval n).2.2.1, (hval n).1]
      congr 1
      exact tuckerShapes_iff.2 (hok (n + 1)).1
    obtain ⟨φ, L, hφ, hL⟩ := exists_limit hsh (c := 1 + Real.sqrt (normSqT X)) (by
      intro n M hM x hx
      rcases List.mem_append.1 hM with hM | hM
      · rw [(hval n).1] at hM
        obtain ⟨k, hk⟩ := List.mem_iff_getElem?.1 hM
        have := abs_le_of_ortho ((hok (n + 1)).2 k M hk) hx
        have := Real.sqrt_nonneg (normSqT X)
        linarith
      · obtain rfl := List.mem_singleton.1 hM
        have h1 := abs_le_of_normSqT hx
        have h3 : normSqT (G n) ≤ normSqT X := by
          have := (hval n).2.2.2.1
          have := tkErr_nonneg (X := X) (g := G n) (U := σ (n + 1))
          linarith
        have := Real.sqrt_le_sqrt h3
        linarith)
    obtain ⟨L', g, a1, a2⟩ := FactorsApproach.split (F := fun n => F (φ n)) (G := fun n => G (φ n)) (N := X.order)
      (fun n => by rw [(hval _).1]; exact (hok _).1.1) hL
    exact ⟨φ, L', g, hφ, a1, a2⟩

/-- For `HOOI` the conditions of C151 are met by every nonzero tensor with admissible ranks. -/
example (svd : Tensor ℝ → Res (Tensor ℝ × Tensor ℝ × Tensor ℝ)) (hs : SvdOk svd) (X : Tensor ℝ)
    (ranks : List Nat) (h2 : 2 ≤ X.order) (h13 : X.order ≤ 13) (hpos : ∀ d ∈ X.shape, 0 < d)
    (hX : ∃ i, InB X.shape i ∧ X.at_ i ≠ 0) (hlen : ranks.length = X.order) (hr : Admissible X.shape ranks) :
    ∃ (self' : Nat → Self (List (Tensor ℝ)) (Tensor ℝ) (Tensor ℝ)) (ev : Nat → List Int) (hist : Nat → List (ℝ × ℝ))
      (F : Nat → List (Tensor ℝ)) (G : Nat → Tensor ℝ),
      (∀ n : Nat, train (exactArith ℝ) (HOOI.cls (tucker.HOOI.main svd X ranks)) { tol := 0 } ((n : Int) + 1)
        (tucker.HOOI.init svd X ranks) {} = (self' n, ev n, .ok (hist n))) ∧
      (∀ n, (self' n).factors = some (F n)) ∧ ∀ n, (self' n).aux = some (G n) := by
  have h := fun n : Nat => (C74_hooi_admissible svd hs X ranks h2 h13 hpos hX hlen.ge (exactArith ℝ) { tol := 0 } (by decide) ((n : Int) + 1)
    (by omega) {}).2 hr
  choose hist h using h
  have h' : ∀ n : Nat, train (exactArith ℝ) (HOOI.cls (tucker.HOOI.main svd X ranks)) { tol := 0 } ((n : Int) + 1)
      (tucker.HOOI.init svd X ranks) {} = (_, _, .ok (hist n)) := fun n => Prod.ext rfl (Prod.ext rfl (h n))
  have hv := fun n => C95_hooi_fixed svd hs X ranks h2 h13 hpos hlen _ _ _ _ _ _ _ (h' n)
  choose F G _ hF hG _ using hv
  exact ⟨_, _, hist, _, _, h', hF, hG⟩

/-- For `CP_ALS` they are met, with factors that do not move, by `diag(2, 1)` with rank 1 and the unit vectors. -/
example (pinv : Tensor ℝ → Res (Tensor ℝ)) (hp : PinvOk pinv) :
    ∃ (self' : Nat → Self (List (Tensor ℝ)) (Tensor ℝ) (Tensor ℝ)) (ev : Nat → List Int) (hist : Nat → List (ℝ × ℝ)) (lam : Tensor ℝ),
      (∀ n : Nat, train (exactArith ℝ) (CP_ALS.cls (cp.main pinv diagX 1)) { tol := 0 } ((n : Int) + 1) (.ok [unitV, unitV]) {} =
        (self' n, ev n, .ok (hist n))) ∧
      (∀ n, (self' n).factors = some [unitV, unitV]) ∧ (∀ n, (self' n).aux = some lam) ∧
      FactorsApproach (fun _ => [unitV, unitV]) [unitV, unitV] ∧ Approaches (fun _ => lam) lam := by
  obtain ⟨o, ho⟩ := cp_fixed_example pinv hp
  have hA : FactorsFor diagX.shape 1 [unitV, unitV] := rfl
  have hpos : ∀ d ∈ diagX.shape, 0 < d := by intro d hd; have : d ∈ [2, 2] := hd; simp at this; omega
  have h := fun n : Nat => train_safe (A := exactArith ℝ) (c := CP_ALS.cls (cp.main pinv diagX 1)) (args := { tol := 0 })
    (I := (· = [unitV, unitV])) (s := [unitV, unitV]) ⟨by rintro s rfl; exact ⟨_, o, ho, rfl⟩, by rintro f ⟨⟩, by rintro f ⟨⟩⟩ rfl
    (Or.inl (by decide)) (show 1 ≤ (n : Int) + 1 by omega) {}
  choose hist h using h
  have h' : ∀ n : Nat, train (exactArith ℝ) (CP_ALS.cls (cp.main pinv diagX 1)) { tol := 0 } ((n : Int) + 1) (.ok [unitV, unitV]) {} =
      (_, _, .ok (hist n)) := fun n => Prod.ext rfl (Prod.ext rfl (h n))
  obtain ⟨lam, -, -, -, a, b, -⟩ := cp.main_ok hp hA (le_refl 2) (by show 2 ≤ 25; omega) hpos ho
  have hl : ∀ n, (hist n).length = n + 1 := fun n => by
    have := all_steps (X := diagX) (fun _ _ _ hm => (cp_main_inv hm).choose_spec.2.2.2) (le_refl _) (h' n)
    omega
  obtain ⟨σ, o', h0, hm⟩ := endless rfl rfl h' hl
  have h0 := (Except.ok.inj h0).symm
  have hσ : ∀ n, σ n = [unitV, unitV] := by
    intro n
    induction n with
    | zero => exact h0
    | succ n ih =>
        have := (hm n).1
        rw [ih] at this
        exact (Prod.mk.inj (Except.ok.inj (ho.symm.trans this))).1.symm
  have ho' : ∀ n, o' n = o := fun n => by
    have := (hm n).1
    rw [hσ n] at this
    exact (Prod.mk.inj (Except.ok.inj (ho.symm.trans this))).2.symm
  refine ⟨_, _, hist, lam, h', fun n => ?_, fun n => ?_, ⟨fun _ => rfl, fun k hk => ?_⟩, .const lam⟩
  · rw [(hm n).2.1, ho' n, a]
  · exact (hm n).2.2 lam (by rw [ho' n, b]; rfl)
  · exact ⟨fun _ => [unitV, unitV][k], [unitV, unitV][k], fun _ => List.getElem?_eq_getElem hk, List.getElem?_eq_getElem hk, .const _⟩

end TD.Props
