import Verif.Lemmas.ScaleBcu
import Verif.Props.Scale
import Verif.Props.NTucker

/-!
# The unit of the data in `NCP_BCU` and `NTUCKER_BCU` (C101)

The initial values are scaled to the norm of the data, so multiplying the data by `c = a ^ p`, where `p` is the number of
blocks (the modes, and the core), multiplies every block by `a`.
-/
namespace TD.Props
open TD Spec Tensor tf ops fact bcu

theorem SameOp.ok {S T : Type} {Rel : S → T → Prop} {x : Res S} {y : Res T} {s : S} {t : T} (h : SameOp Rel x y)
    (hx : x = .ok s) (hy : y = .ok t) : Rel s t := by
  subst hx; subst hy; exact h

/-- Two extrapolating trainings that go through related states. -/
theorem tracked_mapped {S F K X : Type} {c d : Cls S F K X ℝ} {P Q : S → S → Prop} (G : Out F K X ℝ → Out F K X ℝ)
    (gk : K → K) {op1 op2 op1' op2' : S → Res S} (hc : c.update = some (op1, op2)) (hd : d.update = some (op1', op2'))
    (hrun : ∀ s s' k k' o o' r r', P s s' → Runs c s k o r → Runs d s' k' o' r' → Q r r' ∧ o' = G o ∧ k' = k.map gk)
    (hop1 : ∀ r r' s s', Q r r' → op1 r = .ok s → op1' r' = .ok s' → P s s')
    (hop2 : ∀ r r' s s', Q r r' → op2 r = .ok s → op2' r' = .ok s' → P s s')
    (hG : ∀ o p, (G o).obj < (G p).obj ↔ o.obj < p.obj)
    {args args' : Args ℝ} {steps steps' : Int} {fresh fresh' : Res S} {self self' ta ta' : Self F K X} {ev ev' : List Int}
    {hist hist' : List (ℝ × ℝ)} (hf : ∀ s s', fresh = .ok s → fresh' = .ok s' → P s s')
    (h : train (exactArith ℝ) c args steps fresh self = (self', ev, .ok hist))
    (h' : train (exactArith ℝ) d args' steps' fresh' ta = (ta', ev', .ok hist')) :
    ∃ (o : Nat → Out F K X ℝ) (k : Nat → Option K), 1 ≤ hist.length ∧
      (∀ j < hist.length, hist[j]? = some ((o j).loss, (o j).rel)) ∧
      (∀ j < hist.length, j < hist'.length → hist'[j]? = some ((G (o j)).loss, (G (o j)).rel)) ∧
      self'.factors = some (o (hist.length - 1)).factors ∧
      (∀ v, (c.lambdasAfter <|> ((o (hist.length - 1)).aux <|> k (hist.length - 1))) = some v → self'.aux = some v) ∧
      (hist'.length = hist.length → ta'.factors = some (G (o (hist.length - 1))).factors ∧
        (∀ v, (d.lambdasAfter <|> ((G (o (hist.length - 1))).aux <|> (k (hist.length - 1)).map gk)) = some v →
          ta'.aux = some v) ∧
        (args' = args → steps' = steps → ∃ p < hist.length, self'.full = some (o p).full ∧ ta'.full = some (G (o p)).full)) ∧
      ∀ j < hist.length, ∃ s s', Runs c s (k j) (o j) s' := by
  have n1 : 1 ≤ hist.length := (C43_history _ _ args steps _ self self' ev hist h).choose_spec.choose_spec.choose_spec.2.1
  have n1' : 1 ≤ hist'.length := (C43_history _ _ args' steps' _ ta ta' ev' hist' h').choose_spec.choose_spec.choose_spec.2.1
  obtain ⟨t0, o, k, σ, e0, σ0, f1, f2, f3, ⟨p, p1, p2, p3, p4⟩, f4⟩ :=
    extrapolate_run_full c op1 op2 hc args steps fresh self self' ev hist h
  obtain ⟨t0', o', k', σ', e0', σ0', f1', f2', f3', ⟨q, q1, q2, q3, q4⟩, f4'⟩ :=
    extrapolate_run_full d op1' op2' hd args' steps' fresh' ta ta' ev' hist' h'
  have g1 : ∀ j < hist.length, hist[j]? = some ((o j).loss, (o j).rel) := fun j hj => by
    conv_lhs => rw [f1]
    simp [List.getElem?_range hj]
  have g1' : ∀ j < hist'.length, hist'[j]? = some ((o' j).loss, (o' j).rel) := fun j hj => by
    conv_lhs => rw [f1']
    simp [List.getElem?_range hj]
  have key : ∀ j, j < hist.length → j < hist'.length → P (σ j) (σ' j) ∧ ∀ i ≤ j, o' i = G (o i) ∧ k' i = (k i).map gk := by
    intro j
    induction j with
    | zero =>
        intro h1 h2
        have hP : P (σ 0) (σ' 0) := by rw [σ0, σ0']; exact hf _ _ e0 e0'
        refine ⟨hP, fun i hi => ?_⟩
        obtain rfl := Nat.le_zero.1 hi
        obtain ⟨s, a, -⟩ := f4 0 h1
        obtain ⟨s', a', -⟩ := f4' 0 h2
        exact (hrun _ _ _ _ _ _ _ _ hP a a').2
    | succ j ih =>
        intro h1 h2
        obtain ⟨hP, hi⟩ := ih (by omega) (by omega)
        obtain ⟨s, a, b⟩ := f4 j (by omega)
        obtain ⟨s', a', b'⟩ := f4' j (by omega)
        have hQ := (hrun _ _ _ _ _ _ _ _ hP a a').1
        have hP' : P (σ (j + 1)) (σ' (j + 1)) := by
          by_cases hdec : ∀ i < j, (o j).obj < (o i).obj
          · refine hop1 _ _ _ _ hQ ((b h1).1 hdec) ((b' h2).1 fun i hij => ?_)
            rw [(hi j le_rfl).1, (hi i hij.le).1]
            exact (hG _ _).2 (hdec i hij)
          · push Not at hdec
            obtain ⟨i, hij, hle⟩ := hdec
            refine hop2 _ _ _ _ hQ ((b h1).2 ⟨i, hij, hle⟩) ((b' h2).2 ⟨i, hij, ?_⟩)
            rw [(hi j le_rfl).1, (hi i hij.le).1]
            exact not_lt.1 fun hh => absurd ((hG _ _).1 hh) (not_lt.2 hle)
        refine ⟨hP', fun i hij => ?_⟩
        rcases Nat.lt_or_ge i (j + 1) with hh | hh
        · exact hi i (by omega)
        · obtain rfl : i = j + 1 := by omega
          obtain ⟨r, a, -⟩ := f4 _ h1
          obtain ⟨r', a', -⟩ := f4' _ h2
          exact (hrun _ _ _ _ _ _ _ _ hP' a a').2
  have key' : ∀ j, j < hist.length → j < hist'.length → o' j = G (o j) ∧ k' j = (k j).map gk :=
    fun j h1 h2 => (key j h1 h2).2 j le_rfl
  refine ⟨o, k, n1, g1, fun j h1 h2 => ?_, f2, f3, fun he => ?_, fun j hj => ?_⟩
  · rw [g1' j h2, (key' j h1 h2).1]
  · obtain ⟨a, b⟩ := key' (hist.length - 1) (by omega) (by omega)
    rw [he, a] at f2' f3'
    rw [b] at f3'
    refine ⟨f2', f3', ?_⟩
    rintro rfl rfl
    have hpq : q = p := by
      rcases lt_trichotomy p q with hl | hl | hl
      · exact absurd q2 (p3 q hl (by omega))
      · exact hl.symm
      · exact absurd p2 (q3 p hl (by omega))
    subst hpq
    exact ⟨q, p1, p4, by rw [q4, (key' q p1 q1).1]⟩
  · obtain ⟨s, a, -⟩ := f4 j hj
    exact ⟨_, _, a⟩

theorem outMul_lt {a c : ℝ} (hc : 0 < c) (o p : Out (List (Tensor ℝ)) (Tensor ℝ) (Tensor ℝ) ℝ) :
    (outMul a c o).obj < (outMul a c p).obj ↔ o.obj < p.obj :=
  mul_lt_mul_iff_right₀ (show 0 < c ^ 2 by positivity)

/-- **C101** for `NCP_BCU`: on data multiplied by `a ^ order`, with the same random draws, every factor is multiplied by
`a`.  As far as both histories go, the relative residuals are the same and the losses are multiplied like the data.  If
they are equally long, so are the factors (by `a`) and, with the same reporting interval, the full tensor (like the
data). -/
theorem C101_ncp_train (topSv : Tensor ℝ → Res ℝ) (ht : TopSvOk topSv) (X : Tensor ℝ) (R : Nat) (h2 : 2 ≤ X.order)
    (h25 : X.order ≤ 25) (hR : 0 < R) (hpos : ∀ d ∈ X.shape, 0 < d) (a : ℝ) (ha : 0 < a) (draws : List (Tensor ℝ))
    (hd : FactorsFor X.shape R draws) (args args' : Args ℝ) (steps steps' : Int)
    (self self' ta ta' : Self (List (Tensor ℝ)) (Tensor ℝ) (Tensor ℝ)) (ev ev' : List Int) (hist hist' : List (ℝ × ℝ))
    (h : train (exactArith ℝ) (NCP.cls topSv X R) args steps (bcu.init X X.order draws) self = (self', ev, .ok hist))
    (h' : train (exactArith ℝ) (NCP.cls topSv (scl (a ^ X.order) X) R) args' steps'
      (bcu.init (scl (a ^ X.order) X) X.order draws) ta = (ta', ev', .ok hist')) :
    (∀ j l r, j < hist'.length → hist[j]? = some (l, r) → hist'[j]? = some (a ^ X.order * l, r)) ∧
    (hist'.length = hist.length → ∃ F, self'.factors = some F ∧ ta'.factors = some (F.map (scl a)) ∧
      self'.aux = ta'.aux ∧
      (args' = args → steps' = steps → ∃ Y, self'.full = some Y ∧ ta'.full = some (scl (a ^ X.order) Y))) := by
  have hne : X.shape ≠ [] := by intro e; unfold order at h2; rw [e] at h2; simp at h2
  have hcp : 0 < a ^ X.order := by positivity
  obtain ⟨o, k, h0, h1, h2', h3, h4, h5, -⟩ := tracked_mapped (c := NCP.cls topSv X R)
    (d := NCP.cls topSv (scl (a ^ X.order) X) R)
    (P := fun s s' => SRel a (a ^ (2 * (X.order - 1))) X.order (fun _ => False) s s' ∧
      FactorsOk (X.shape.map fun d => [d, R]) s ∧ MomentumOk s)
    (Q := fun s s' => SRel a (a ^ (2 * (X.order - 1))) X.order (· < X.order) s s' ∧
      FactorsOk (X.shape.map fun d => [d, R]) s ∧ MomentumOk s)
    (outMul a (a ^ X.order)) id rfl rfl
    (fun s s' k k' o o' r r' hP hr hr' => by
      obtain ⟨k1, hr⟩ : k = none ∧ NCP.main topSv X s = .ok (r, o) := hr
      obtain ⟨k2, hr'⟩ : k' = none ∧ NCP.main topSv (scl (a ^ X.order) X) s' = .ok (r', o') := hr'
      obtain ⟨b1, b2⟩ := SameOp.ok (NCP.main_scl ht ha h2 h25 hR hpos hP.2.1 hP.1) hr hr'
      obtain ⟨c1, c2, -⟩ := NCP.main_ok hP.2.1 hne h25 hr
      exact ⟨⟨b1, c1, (c2 hP.2.2).1⟩, b2, by rw [k1, k2]; rfl⟩)
    (fun r r' s s' hQ hs hs' => by
      have hs : NCP.op1 X.order r = .ok s := hs
      obtain ⟨c1, c2, -⟩ := NCP.op1_ok hQ.2.1 hQ.2.2 hs
      exact ⟨SameOp.ok (hQ.1.op1 (by positivity)) hs hs', c1, c2⟩)
    (fun r r' s s' hQ hs hs' => by
      have hs : NCP.op2 r = .ok s := hs
      obtain ⟨c1, c2, -⟩ := NCP.op2_ok hQ.2.1 hQ.2.2 hs
      exact ⟨SameOp.ok hQ.1.op2 hs hs', c1, c2⟩)
    (outMul_lt hcp)
    (fun s s' hs hs' => by
      obtain ⟨c1, c2, -⟩ := init_inv hs
      rw [show draws.map Tensor.shape = X.shape.map fun d => [d, R] from hd] at c1
      exact ⟨SameOp.ok (init_scl ha X (by omega) X.order draws) hs hs', c1, c2⟩) h h'
  refine ⟨fun j l r hj hlr => ?_, fun he => ?_⟩
  · have hj' : j < hist.length := (List.getElem?_eq_some_iff.1 hlr).1
    rw [h1 j hj', Option.some.injEq, Prod.mk.injEq] at hlr
    rw [h2' j hj' hj, ← hlr.1, ← hlr.2]
    rfl
  · obtain ⟨b1, b2, b3⟩ := h5 he
    refine ⟨_, h3, b1, ?_, fun e1 e2 => ?_⟩
    · rw [h4 _ rfl, b2 _ rfl]
    · obtain ⟨p, -, q1, q2⟩ := b3 e1 e2
      exact ⟨_, q1, q2⟩

/-- **C101** for `NTUCKER_BCU`: on data multiplied by `a ^ (order + 1)`, with the same random draws, every factor and the
core are multiplied by `a`; the rest as for `NCP_BCU`. -/
theorem C101_ntucker_train (topSv : Tensor ℝ → Res ℝ) (ht : TopSvOk topSv) (X : Tensor ℝ) (ranks : List Nat)
    (hr : ranks.length = X.shape.length) (h2 : 2 ≤ X.order) (h13 : X.order ≤ 13) (hpos : ∀ d ∈ X.shape, 0 < d)
    (hrp : ∀ d ∈ ranks, 0 < d) (a : ℝ) (ha : 0 < a) (draws : List (Tensor ℝ)) (gdraw : Tensor ℝ)
    (hd : TuckerShapes X.shape ranks draws) (hg : gdraw.shape = ranks) (args args' : Args ℝ) (steps steps' : Int)
    (self self' ta ta' : Self (List (Tensor ℝ)) (Tensor ℝ) (Tensor ℝ)) (ev ev' : List Int) (hist hist' : List (ℝ × ℝ))
    (h : train (exactArith ℝ) (NTUCKER.cls topSv X) args steps (NTUCKER.init X draws gdraw) self = (self', ev, .ok hist))
    (h' : train (exactArith ℝ) (NTUCKER.cls topSv (scl (a ^ (X.order + 1)) X)) args' steps'
      (NTUCKER.init (scl (a ^ (X.order + 1)) X) draws gdraw) ta = (ta', ev', .ok hist')) :
    (∀ j l r, j < hist'.length → hist[j]? = some (l, r) → hist'[j]? = some (a ^ (X.order + 1) * l, r)) ∧
    (hist'.length = hist.length → ∃ F g, self'.factors = some F ∧ ta'.factors = some (F.map (scl a)) ∧
      self'.aux = some g ∧ ta'.aux = some (scl a g) ∧
      (args' = args → steps' = steps → ∃ Y, self'.full = some Y ∧ ta'.full = some (scl (a ^ (X.order + 1)) Y))) := by
  have hcp : 0 < a ^ (X.order + 1) := by positivity
  obtain ⟨o, k, h0, h1, h2', h3, h4, h5, h6⟩ := tracked_mapped (c := NTUCKER.cls topSv X)
    (d := NTUCKER.cls topSv (scl (a ^ (X.order + 1)) X))
    (P := fun s s' => TRel a (a ^ (2 * X.order)) (X.order + 1) (fun _ => False) s s' ∧
      TkOk X.shape ranks s ∧ MomentumOk s.toState)
    (Q := fun s s' => TRel a (a ^ (2 * X.order)) (X.order + 1) (· < X.order + 1) s s' ∧
      TkOk X.shape ranks s ∧ MomentumOk s.toState)
    (outMul a (a ^ (X.order + 1))) (scl a) rfl rfl
    (fun s s' k k' o o' r r' hP hr1 hr1' => by
      obtain ⟨s1, v, hk, k1, hm⟩ : ∃ s1 v, NTUCKER.core topSv X s = .ok (s1, v) ∧ k = some v ∧
        NTUCKER.main topSv X s1 = .ok (r, o) := hr1
      obtain ⟨s1', v', hk', k1', hm'⟩ : ∃ s1 v, NTUCKER.core topSv (scl (a ^ (X.order + 1)) X) s' = .ok (s1, v) ∧ k' = some v ∧
        NTUCKER.main topSv (scl (a ^ (X.order + 1)) X) s1 = .ok (r', o') := hr1'
      obtain ⟨b1, b2⟩ := SameOp.ok (TRel.core ht ha hP.2.1 hr (by omega) hrp hP.1) hk hk'
      obtain ⟨c1, c2, -⟩ := NTUCKER.core_ok hP.2.1 hk
      obtain ⟨d1, d2⟩ := SameOp.ok (NTUCKER.main_scl ht ha h2 h13 hpos hr hrp c1 b1) hm hm'
      obtain ⟨e1, e2, -⟩ := NTUCKER.main_ok c1 hr (by omega) h13 hm
      exact ⟨⟨d1, e1, (e2 (c2 hP.2.2)).1⟩, d2, by rw [k1, k1']; exact congrArg some b2⟩)
    (fun r r' s s' hQ hs hs' => by
      have hs : NTUCKER.op1 X.order r = .ok s := hs
      obtain ⟨c1, c2, -⟩ := NTUCKER.op1_ok hQ.2.1 hQ.2.2 hs
      exact ⟨SameOp.ok (hQ.1.op1 (by positivity)) hs hs', c1, c2⟩)
    (fun r r' s s' hQ hs hs' => by
      have hs : NTUCKER.op2 r = .ok s := hs
      obtain ⟨c1, c2, -⟩ := NTUCKER.op2_ok hQ.2.1 hQ.2.2 hs
      exact ⟨SameOp.ok hQ.1.op2 hs hs', c1, c2⟩)
    (outMul_lt hcp)
    (fun s s' hs hs' => by
      obtain ⟨c1, c2, -⟩ := NTUCKER.init_inv hs (tuckerShapes_iff.2 hd) hg
      exact ⟨SameOp.ok (NTUCKER.init_scl ha X (X.order + 1) draws gdraw) hs hs', c1, c2⟩) h h'
  refine ⟨fun j l r hj hlr => ?_, fun he => ?_⟩
  · have hj' : j < hist.length := (List.getElem?_eq_some_iff.1 hlr).1
    rw [h1 j hj', Option.some.injEq, Prod.mk.injEq] at hlr
    rw [h2' j hj' hj, ← hlr.1, ← hlr.2]
    rfl
  · obtain ⟨b1, b2, b3⟩ := h5 he
    obtain ⟨s, s', hrun⟩ := h6 (hist.length - 1) (by omega)
    obtain ⟨s1, v, hk, k1, hm⟩ : ∃ s1 v, NTUCKER.core topSv X s = .ok (s1, v) ∧ k (hist.length - 1) = some v ∧
        NTUCKER.main topSv X s1 = .ok (s', o (hist.length - 1)) := hrun
    obtain ⟨-, -, -, -, ea, -⟩ := NTUCKER.main_inv hm
    refine ⟨_, v, h3, b1, h4 v ?_, b2 _ ?_, fun e1 e2 => ?_⟩
    · rw [ea, k1]; rfl
    · rw [show (outMul a (a ^ (X.order + 1)) (o (hist.length - 1))).aux = none from ea, k1]; rfl
    · obtain ⟨p, -, q1, q2⟩ := b3 e1 e2
      exact ⟨_, q1, q2⟩

theorem scalars_nonneg {X Y : Tensor ℝ} {l obj rel : ℝ} (h : cp.scalars X Y = .ok (l, obj, rel)) : 0 ≤ obj ∧ 0 ≤ rel := by
  unfold cp.scalars at h
  cases h1 : loss.rmseIgnoreZero X Y with
  | error e => rw [h1] at h; cases h
  | ok ls =>
  rw [h1, ok_bind] at h
  cases h2 : ewise (· - ·) Y X with
  | error e => rw [h2] at h; cases h
  | ok d =>
  rw [h2, ok_bind] at h
  simp only at h
  split at h
  · rename_i r e
    have h := Except.ok.inj h
    simp only [Prod.mk.injEq] at h
    unfold loss.fdiv at e
    split at e
    · cases e
    · rw [← h.2.1, ← h.2.2, ← Option.some.inj e]
      exact ⟨by positivity, div_nonneg (Real.sqrt_nonneg _) (Real.sqrt_nonneg _)⟩
  · cases h

theorem refObj_nonneg {obj : Nat → ℝ} {tr : Bool} : ∀ {j : Nat}, (∀ i ≤ j, 0 ≤ obj i) → 0 ≤ refObj (exactArith ℝ) tr obj j
  | 0, h => by
      have : refObj (exactArith ℝ) tr obj 0 = obj 0 + 1 := rfl
      rw [this]; linarith [h 0 le_rfl]
  | j + 1, h => by
      unfold refObj
      split
      · exact h j (by omega)
      · exact refObj_nonneg fun i hi => h i (by omega)

/-- With a tolerance that is not positive all steps are executed. -/
theorem all_steps {S F K : Type} {c : Cls S F K (Tensor ℝ) ℝ} {X : Tensor ℝ}
    (hc : ∀ s s' o, c.main s = .ok (s', o) → cp.scalars X o.full = .ok (o.loss, o.obj, o.rel))
    {args : Args ℝ} (ht : args.tol ≤ 0) {steps : Int} {fresh : Res S} {self self' : Self F K (Tensor ℝ)}
    {ev : List Int} {hist : List (ℝ × ℝ)} (h : train (exactArith ℝ) c args steps fresh self = (self', ev, .ok hist)) :
    (hist.length : Int) = steps := by
  obtain ⟨s0, n, o, k, -, h2, -, h4, h5, h6, -⟩ := train_ok h
  have hl : hist.length = n := by rw [h6]; simp
  rw [hl]
  obtain ⟨σ, -, hσ⟩ := h4.ran
  have hn : ∀ j < n, 0 ≤ (o j).obj ∧ 0 ≤ (o j).rel := by
    intro j hj
    obtain ⟨s, hs, -⟩ := hσ j hj
    unfold Runs at hs
    split at hs
    · exact scalars_nonneg (hc _ _ _ hs.2)
    · obtain ⟨s1, v, -, -, hm⟩ := hs
      exact scalars_nonneg (hc _ _ _ hm)
  refine h5.resolve_right fun hs => ?_
  rcases hs with hs | ⟨-, -, -, hs⟩
  · have : (o (n - 1)).rel < args.tol := by simpa [exactArith] using hs
    linarith [(hn (n - 1) (by omega)).2]
  · have hr : 0 ≤ refObj (exactArith ℝ) c.update.isSome (fun i => (o i).obj) (n - 1) :=
      refObj_nonneg fun i hi => (hn i (by omega)).1
    have : |(o (n - 1)).obj - refObj (exactArith ℝ) c.update.isSome (fun i => (o i).obj) (n - 1)| /
        (refObj (exactArith ℝ) c.update.isSome (fun i => (o i).obj) (n - 1) + 1) < args.tol := by
      simpa [Stalled, exactArith] using hs
    have : 0 ≤ |(o (n - 1)).obj - refObj (exactArith ℝ) c.update.isSome (fun i => (o i).obj) (n - 1)| /
        (refObj (exactArith ℝ) c.update.isSome (fun i => (o i).obj) (n - 1) + 1) := by positivity
    linarith

theorem hist_eq {c : ℝ} {hist hist' : List (ℝ × ℝ)} (he : hist'.length = hist.length)
    (h : ∀ j l r, j < hist'.length → hist[j]? = some (l, r) → hist'[j]? = some (c * l, r)) :
    hist' = hist.map fun p => (c * p.1, p.2) := by
  refine List.ext_getElem? fun j => ?_
  rw [List.getElem?_map]
  by_cases hj : j < hist.length
  · rw [List.getElem?_eq_getElem hj, h j _ _ (by omega) (List.getElem?_eq_getElem hj)]; rfl
  · rw [List.getElem?_eq_none (by omega), List.getElem?_eq_none (by omega)]; rfl

/-- **C101** for whole trainings of `NCP_BCU` without stopping test (tolerance not positive): the same residuals, the
losses and the full tensor multiplied like the data, the factors by `a`. -/
theorem C101_ncp_same (topSv : Tensor ℝ → Res ℝ) (ht : TopSvOk topSv) (X : Tensor ℝ) (R : Nat) (h2 : 2 ≤ X.order)
    (h25 : X.order ≤ 25) (hR : 0 < R) (hpos : ∀ d ∈ X.shape, 0 < d) (a : ℝ) (ha : 0 < a) (draws : List (Tensor ℝ))
    (hd : FactorsFor X.shape R draws) (args : Args ℝ) (htol : args.tol ≤ 0) (steps : Int)
    (self self' ta ta' : Self (List (Tensor ℝ)) (Tensor ℝ) (Tensor ℝ)) (ev ev' : List Int) (hist hist' : List (ℝ × ℝ))
    (h : train (exactArith ℝ) (NCP.cls topSv X R) args steps (bcu.init X X.order draws) self = (self', ev, .ok hist))
    (h' : train (exactArith ℝ) (NCP.cls topSv (scl (a ^ X.order) X) R) args steps
      (bcu.init (scl (a ^ X.order) X) X.order draws) ta = (ta', ev', .ok hist')) :
    hist' = hist.map (fun p => (a ^ X.order * p.1, p.2)) ∧ ∃ F Y, self'.factors = some F ∧ self'.full = some Y ∧
      ta'.factors = some (F.map (scl a)) ∧ ta'.full = some (scl (a ^ X.order) Y) := by
  obtain ⟨b1, b2⟩ := C101_ncp_train topSv ht X R h2 h25 hR hpos a ha draws hd args args steps steps self self' ta ta' ev ev'
    hist hist' h h'
  have l1 := all_steps (X := X) (fun _ _ _ hm => (NCP.main_inv hm).choose_spec.2.2.2.2.2) htol h
  have l2 := all_steps (X := scl (a ^ X.order) X) (fun _ _ _ hm => (NCP.main_inv hm).choose_spec.2.2.2.2.2) htol h'
  have he : hist'.length = hist.length := by omega
  obtain ⟨F, c1, c2, -, c4⟩ := b2 he
  obtain ⟨Y, d1, d2⟩ := c4 rfl rfl
  exact ⟨hist_eq he b1, F, Y, c1, d1, c2, d2⟩

/-- **C101** for whole trainings of `NTUCKER_BCU` without stopping test. -/
theorem C101_ntucker_same (topSv : Tensor ℝ → Res ℝ) (ht : TopSvOk topSv) (X : Tensor ℝ) (ranks : List Nat)
    (hr : ranks.length = X.shape.length) (h2 : 2 ≤ X.order) (h13 : X.order ≤ 13) (hpos : ∀ d ∈ X.shape, 0 < d)
    (hrp : ∀ d ∈ ranks, 0 < d) (a : ℝ) (ha : 0 < a) (draws : List (Tensor ℝ)) (gdraw : Tensor ℝ)
    (hd : TuckerShapes X.shape ranks draws) (hg : gdraw.shape = ranks) (args : Args ℝ) (htol : args.tol ≤ 0) (steps : Int)
    (self self' ta ta' : Self (List (Tensor ℝ)) (Tensor ℝ) (Tensor ℝ)) (ev ev' : List Int) (hist hist' : List (ℝ × ℝ))
    (h : train (exactArith ℝ) (NTUCKER.cls topSv X) args steps (NTUCKER.init X draws gdraw) self = (self', ev, .ok hist))
    (h' : train (exactArith ℝ) (NTUCKER.cls topSv (scl (a ^ (X.order + 1)) X)) args steps
      (NTUCKER.init (scl (a ^ (X.order + 1)) X) draws gdraw) ta = (ta', ev', .ok hist')) :
    hist' = hist.map (fun p => (a ^ (X.order + 1) * p.1, p.2)) ∧ ∃ F g Y, self'.factors = some F ∧ self'.aux = some g ∧
      self'.full = some Y ∧ ta'.factors = some (F.map (scl a)) ∧ ta'.aux = some (scl a g) ∧
      ta'.full = some (scl (a ^ (X.order + 1)) Y) := by
  obtain ⟨b1, b2⟩ := C101_ntucker_train topSv ht X ranks hr h2 h13 hpos hrp a ha draws gdraw hd hg args args steps steps self
    self' ta ta' ev ev' hist hist' h h'
  have l1 := all_steps (X := X) (fun _ _ _ hm => (NTUCKER.main_inv hm).choose_spec.2.2.2.2.2) htol h
  have l2 := all_steps (X := scl (a ^ (X.order + 1)) X) (fun _ _ _ hm => (NTUCKER.main_inv hm).choose_spec.2.2.2.2.2) htol h'
  have he : hist'.length = hist.length := by omega
  obtain ⟨F, g, c1, c2, c3, c4, c5⟩ := b2 he
  obtain ⟨Y, d1, d2⟩ := c5 rfl rfl
  exact ⟨hist_eq he b1, F, g, Y, c1, c3, d1, c2, c4, d2⟩

/-- The hypotheses of C101 are met by the matrix of ones and by the matrix of fours: `NCP_BCU` trains on both. -/
example : ∃ topSv, TopSvOk topSv ∧ ∃ draws, FactorsFor onesX.shape 1 draws ∧ ∃ self' ta' ev ev' hist hist',
    train (exactArith ℝ) (NCP.cls topSv onesX 1) { tol := 1 } 1 (bcu.init onesX onesX.order draws) {} =
      (self', ev, .ok hist) ∧
    train (exactArith ℝ) (NCP.cls topSv (scl (2 ^ onesX.order) onesX) 1) { tol := 1 } 1
      (bcu.init (scl (2 ^ onesX.order) onesX) onesX.order draws) {} = (ta', ev', .ok hist') := by
  obtain ⟨topSv, ht⟩ := exists_topSvOk
  obtain ⟨draws, hd, hi⟩ := ones_init
  have hst : FactorsOk (onesX.shape.map fun d => [d, 1]) onesState := by
    have := (init_inv hi).1
    rwa [show draws.map Tensor.shape = onesX.shape.map fun d => [d, 1] from hd] at this
  have hpos : ∀ d ∈ onesX.shape, 0 < d := by intro d hd; have : d ∈ [2, 2] := hd; simp at this; omega
  obtain ⟨s, o, hm, hrel⟩ := NCP.main_exact ht (X := onesX) (R := 1) (le_refl 2) (by show 2 ≤ 25; omega) Nat.one_pos
    hpos ⟨[0, 0], by simp [onesX, InB], by simp [onesX, at_, ravel]⟩ hst rfl ones_exact
  have hh := train_one (A := exactArith ℝ) (c := NCP.cls topSv onesX 1) (args := { tol := 1 }) {} rfl hm
    (decide_eq_true (by rw [hrel]; norm_num))
  have hS := init_scl (κ := 2 ^ (2 * (onesX.order - 1))) (zero_lt_two (α := ℝ)) onesX (p := onesX.order)
    (by show 2 ≠ 0; omega) onesX.order draws
  rw [hi] at hS
  rcases hi' : bcu.init (scl (2 ^ onesX.order) onesX) onesX.order draws with e | t0
  · rw [hi'] at hS; exact hS.elim
  rw [hi'] at hS
  have hM := NCP.main_scl ht (zero_lt_two (α := ℝ)) (le_refl 2) (by show 2 ≤ 25; omega) Nat.one_pos hpos hst hS
  rw [hm] at hM
  rcases hm' : NCP.main topSv (scl (2 ^ onesX.order) onesX) t0 with e | ⟨t, o'⟩
  · rw [hm'] at hM; exact hM.elim
  rw [hm'] at hM
  have hh' := train_one (A := exactArith ℝ) (c := NCP.cls topSv (scl (2 ^ onesX.order) onesX) 1) (args := { tol := 1 }) {}
    rfl hm' (decide_eq_true (by
      have e : o' = outMul 2 (2 ^ onesX.order) o := hM.2
      rw [e]; show o.rel < 1; rw [hrel]; norm_num))
  have split : ∀ {α β γ : Type} (r : α × β × γ) {z : γ}, r.2.2 = z → ∃ x y, r = (x, y, z) :=
    fun r _ h => ⟨r.1, r.2.1, by rw [← h]⟩
  obtain ⟨x, y, hx⟩ := split _ hh
  obtain ⟨x', y', hx'⟩ := split _ hh'
  refine ⟨topSv, ht, draws, hd, x, x', y, y', [(o.loss, o.rel)], [(o'.loss, o'.rel)], ?_, ?_⟩
  · rw [hi]; exact hx
  · rw [hi']; exact hx'

end TD.Props
