import Verif.Lemmas.Prefix
import Verif.Props.Cp
import Verif.Props.Hooi
import Verif.Props.NTucker
import Verif.Props.Loss
import Verif.Spec.Report

/-!
# C81, C82 : what the history returned by `train` says about the result
-/
namespace TD.Props
open TD Spec Tensor fact bcu

/-- `cp.scalars` returns the numbers a history entry should hold. -/
theorem scalars_reports {X Y : Tensor ℝ} {l obj rel : ℝ} (hs : Y.shape = X.shape)
    (h : cp.scalars X Y = .ok (l, obj, rel)) : Reports X Y (l, rel) := by
  obtain ⟨-, h2, h3⟩ := cp.scalars_ok hs h
  refine ⟨?_, h2⟩
  unfold cp.scalars at h
  rw [riz_eq X Y hs.symm, ok_bind, tf.ewise_same _ hs, ok_bind] at h
  have hz : (nnz X : ℝ) = boxSum X.shape fun i => if X.at_ i ≠ 0 then 1 else 0 := by
    rw [← sum_nonzero, loss.nonzero, loss.reduceSum_map]
  cases h1 : loss.fdiv (sqDistOn X Y) (nnz X) with
  | none => rw [h1] at h; cases h
  | some v =>
      rw [h1] at h
      unfold loss.fdiv at h1
      split at h1
      · cases h1
      · cases h1
        cases h4 : loss.fdiv (tf.norm (ofFn Y.shape fun idx => Y.at_ idx - X.at_ idx)) (tf.norm X) with
        | none => rw [h4] at h; cases h
        | some r =>
            rw [h4] at h
            simp only [loss.fsqrt, Option.map_some, Except.ok.injEq, Prod.mk.injEq] at h
            obtain ⟨h, -, -⟩ := h
            rw [← h, ← hz]; rfl

/-- The last history entry of a call that returns, with the session run it comes from. -/
theorem train_last {S F K X R : Type} {A : Arith R} {c : Cls S F K X R} {args : Args R} {steps : Int} {fresh : Res S}
    {init : S → Prop} {self self' : Self F K X} {ev : List Int} {hist : List (R × R)}
    (hi : ∀ s, fresh = .ok s → init s) (h : train A c args steps fresh self = (self', ev, .ok hist)) :
    ∃ s s' o k, Reach c init s ∧ Runs c s k o s' ∧ hist.getLast? = some (o.loss, o.rel) ∧
      self'.factors = some o.factors ∧
      (∀ v, (c.lambdasAfter <|> (o.aux <|> k)) = some v → self'.aux = some v) ∧
      (Reported args steps (hist.length - 1) → self'.full = some o.full) := by
  obtain ⟨s0, n, o, k, e, h2, -, h4, -, h6, -, ⟨p, hp, hp1, hp2, hp3⟩, h8, h9, -⟩ := train_ok h
  have hl : hist.length = n := by rw [h6]; simp
  obtain ⟨σ, -, hσ⟩ := run_reach (hi s0 e) h4
  obtain ⟨hr, s', -, hrun, -⟩ := hσ (n - 1) (by omega)
  refine ⟨σ (n - 1), s', o (n - 1), k (n - 1), hr, hrun, ?_, h8, h9, fun hrep => ?_⟩
  · rw [List.getLast?_eq_getElem?, hl, h6]
    simp [List.getElem?_range (show n - 1 < n by omega)]
  · rw [hl] at hrep
    have : p = n - 1 := by
      by_contra hne
      exact hp2 (n - 1) (by omega) (by omega) hrep
    rw [hp3, this]

/-- Initial CP variables: any factors of the right shapes. -/
def CpInit (X : Tensor ℝ) (R : Nat) (A : List (Tensor ℝ)) : Prop := FactorsFor X.shape R A

theorem cp_reach {pinv : Tensor ℝ → Res (Tensor ℝ)} (hp : PinvOk pinv) {X : Tensor ℝ} {R : Nat}
    (h2 : 2 ≤ X.order) (h25 : X.order ≤ 25) (hpos : ∀ d ∈ X.shape, 0 < d) {A : List (Tensor ℝ)}
    (h : Reach (CP_ALS.cls (cp.main pinv X R)) (CpInit X R) A) : FactorsFor X.shape R A := by
  induction h with
  | fresh hi => exact hi
  | core _ hc _ => cases hc
  | main _ hm ih =>
      obtain ⟨lam, -, a, -⟩ := cp.main_ok hp ih h2 h25 hpos hm
      exact a
  | op1 _ hu _ => cases hu
  | op2 _ hu _ => cases hu

theorem cp_main_scalars {pinv : Tensor ℝ → Res (Tensor ℝ)} {X : Tensor ℝ} {R : Nat} {A A' : List (Tensor ℝ)}
    {o : Out (List (Tensor ℝ)) (Tensor ℝ) (Tensor ℝ) ℝ} (h : cp.main pinv X R A = .ok (A', o)) :
    cp.scalars X o.full = .ok (o.loss, o.obj, o.rel) := by
  unfold cp.main at h
  cases h1 : cp.sweep pinv X R A with
  | error e => rw [h1] at h; cases h
  | ok p =>
  rw [h1, ok_bind] at h
  simp only at h
  cases h2 : cp.fullOf p.1 p.2 with
  | error e => rw [h2] at h; cases h
  | ok Y =>
  rw [h2, ok_bind] at h
  cases h3 : cp.scalars X Y with
  | error e => rw [h3] at h; cases h
  | ok q =>
  rw [h3, ok_bind] at h
  cases h
  exact h3

theorem hooi_main_scalars {svd : Tensor ℝ → Res (Tensor ℝ × Tensor ℝ × Tensor ℝ)} {X : Tensor ℝ} {ranks : List Nat}
    {A A' : List (Tensor ℝ)} {o : Out (List (Tensor ℝ)) (Tensor ℝ) (Tensor ℝ) ℝ}
    (h : tucker.HOOI.main svd X ranks A = .ok (A', o)) :
    cp.scalars X o.full = .ok (o.loss, o.obj, o.rel) := by
  unfold tucker.HOOI.main at h
  cases h1 : tucker.HOOI.sweep svd X ranks A with
  | error e => rw [h1] at h; cases h
  | ok A1 =>
  rw [h1, ok_bind] at h
  cases h0 : ops.ttm X A1 none true with
  | error e => rw [h0] at h; cases h
  | ok g =>
  rw [h0, ok_bind] at h
  cases h2 : tucker.fullOf g A1 with
  | error e => rw [h2] at h; cases h
  | ok Y =>
  rw [h2, ok_bind] at h
  cases h3 : cp.scalars X Y with
  | error e => rw [h3] at h; cases h
  | ok q =>
  rw [h3, ok_bind] at h
  cases h
  exact h3

/-! ### C81 -/

/-- **C81** for `CP_ALS`: when `train` returns, its last history entry is the error of the exposed factors and
weights. -/
theorem C81_cp_last_entry (pinv : Tensor ℝ → Res (Tensor ℝ)) (hp : PinvOk pinv) (X : Tensor ℝ) (R : Nat)
    (A0 : List (Tensor ℝ)) (hA : FactorsFor X.shape R A0) (h2 : 2 ≤ X.order) (h25 : X.order ≤ 25)
    (hpos : ∀ d ∈ X.shape, 0 < d) (Ar : Arith ℝ) (args : Args ℝ) (steps : Int)
    (self self' : Self (List (Tensor ℝ)) (Tensor ℝ) (Tensor ℝ)) (ev : List Int) (hist : List (ℝ × ℝ))
    (h : train Ar (CP_ALS.cls (cp.main pinv X R)) args steps (.ok A0) self = (self', ev, .ok hist)) :
    ∃ F lam Y p, self'.factors = some F ∧ self'.aux = some lam ∧ hist.getLast? = some p ∧
      IsKruskal X.shape R F (fun r => lam.at_ [r]) Y ∧ Reports X Y p ∧
      (Reported args steps (hist.length - 1) → self'.full = some Y) := by
  obtain ⟨s, s', o, k, hr, hrun, e1, e2, e3, e4⟩ := train_last (init := CpInit X R) (by rintro s ⟨⟩; exact hA) h
  have hm : cp.main pinv X R s = .ok (s', o) := hrun.2
  obtain ⟨lam, -, a1, a2, a3, a4, a5, a6, -⟩ := cp.main_ok hp (cp_reach hp h2 h25 hpos hr) h2 h25 hpos hm
  have hne : X.shape ≠ [] := by intro e; unfold order at h2; rw [e] at h2; simp at h2
  obtain ⟨Y, y1, y2, y3⟩ := cp.fullOf_spec a1 hne h25 a2
  rw [a5] at y1; cases y1
  refine ⟨_, lam, o.full, _, e2, e3 lam (by rw [a4]; rfl), e1, ⟨y2, ?_⟩, scalars_reports a6 (cp_main_scalars hm), e4⟩
  rw [a3]; exact y3

/-- **C81** for `HOOI`: the last history entry is the error of the exposed factors and core. -/
theorem C81_hooi_last_entry (svd : Tensor ℝ → Res (Tensor ℝ × Tensor ℝ × Tensor ℝ)) (hs : SvdOk svd) (X : Tensor ℝ)
    (ranks : List Nat) (h2 : 2 ≤ X.order) (h13 : X.order ≤ 13) (hpos : ∀ d ∈ X.shape, 0 < d)
    (hlen : X.order ≤ ranks.length) (Ar : Arith ℝ) (args : Args ℝ) (steps : Int)
    (self self' : Self (List (Tensor ℝ)) (Tensor ℝ) (Tensor ℝ)) (ev : List Int) (hist : List (ℝ × ℝ))
    (h : train Ar (HOOI.cls (tucker.HOOI.main svd X ranks)) args steps (tucker.HOOI.init svd X ranks) self =
      (self', ev, .ok hist)) :
    ∃ F g Y p, self'.factors = some F ∧ self'.aux = some g ∧ hist.getLast? = some p ∧
      IsTucker X.shape g F Y ∧ Reports X Y p ∧ (Reported args steps (hist.length - 1) → self'.full = some Y) := by
  obtain ⟨s0, n, o, k, e, h2', -, h4, -, h6, -, ⟨p, hp, hp1, hp2, hp3⟩, h8, h9, -⟩ := train_ok h
  have hl : hist.length = n := by rw [h6]; simp
  obtain ⟨i1, i2, -⟩ := hooi_init hs hpos hlen e
  obtain ⟨σ, h0, hσ⟩ := hooi_run hs h2 h13 hpos hlen i1 h4
  obtain ⟨hf, s, hm, -⟩ := hσ (n - 1) (by omega)
  obtain ⟨g, a1, a2, -, a3, a4, a5, a6, a7, -⟩ := hooi_main hs h2 h13 hpos hlen hf hm
  have hne : X.shape ≠ [] := by intro e; unfold order at h2; rw [e] at h2; simp at h2
  have ho : OrthoFactors X.shape s := by
    refine ⟨a1.1, fun k M hM => ?_⟩
    have := a2 k M hM
    have e : M.shape.getD 1 0 = ranks.getD k 0 := by rw [this.1]; rfl
    rw [e]; exact this
  obtain ⟨g', Y', f1, f2, -, -, f3, f4⟩ := tucker_entries hne h13 ho.allMat ho.rowDims
  rw [a5] at f1; cases f1
  rw [a6] at f2; cases f2
  refine ⟨_, g, (o (n - 1)).full, _, h8, h9 g (by rw [a4]; rfl), ?_, ⟨a7, ?_⟩,
    scalars_reports a7 (hooi_main_scalars hm), fun hrep => ?_⟩
  · rw [List.getLast?_eq_getElem?, hl, h6]
    simp [List.getElem?_range (show n - 1 < n by omega)]
  · rw [a3]; exact f4
  · rw [hl] at hrep
    have : p = n - 1 := by
      by_contra hne
      exact hp2 (n - 1) (by omega) (by omega) hrep
    rw [hp3, this]

/-- **C81** for `NCP_BCU`: the last history entry is the error of the exposed factors (the exposed weights are ones),
even when the last step was rejected. -/
theorem C81_ncp_last_entry (topSv : Tensor ℝ → Res ℝ) (X : Tensor ℝ) (R : Nat) (hne : X.shape ≠ []) (h25 : X.order ≤ 25)
    (s0 : State) (h0 : NcpInit X R s0) (Ar : Arith ℝ) (args : Args ℝ) (steps : Int)
    (self self' : Self (List (Tensor ℝ)) (Tensor ℝ) (Tensor ℝ)) (ev : List Int) (hist : List (ℝ × ℝ))
    (h : train Ar (NCP.cls topSv X R) args steps (.ok s0) self = (self', ev, .ok hist)) :
    ∃ F lam Y p, self'.factors = some F ∧ self'.aux = some lam ∧ (∀ r < R, lam.at_ [0, r] = 1) ∧ lam.shape = [1, R] ∧
      hist.getLast? = some p ∧ IsKruskal X.shape R F (fun _ => 1) Y ∧ Reports X Y p ∧
      (Reported args steps (hist.length - 1) → self'.full = some Y) := by
  obtain ⟨s, s', o, k, hr, hrun, e1, e2, e3, e4⟩ := train_last (init := NcpInit X R) (by rintro s ⟨⟩; exact h0) h
  have hm : NCP.main topSv X s = .ok (s', o) := hrun.2
  obtain ⟨-, -, -, -, -, a6, a7, a8, -⟩ := NCP.main_ok (ncp_reach hne h25 hr).1 hne h25 hm
  obtain ⟨-, -, -, -, -, -, hsc⟩ := NCP.main_inv hm
  refine ⟨_, NCP.ones R, o.full, _, e2, e3 _ rfl, fun r hr => ?_, rfl, e1, ⟨a7, ?_⟩, scalars_reports a7 hsc, e4⟩
  · unfold NCP.ones
    rw [at_ofFn _ (by simp [InB, hr])]
  · rw [a6]; simpa using a8

/-- **C81** for `NTUCKER_BCU`: the last history entry is the error of the exposed factors and core. -/
theorem C81_ntucker_last_entry (topSv : Tensor ℝ → Res ℝ) (X : Tensor ℝ) (ranks : List Nat)
    (hr : ranks.length = X.shape.length) (h1 : 1 ≤ X.order) (h13 : X.order ≤ 13)
    (s0 : TState) (h0 : NtuckerInit X ranks s0) (Ar : Arith ℝ) (args : Args ℝ) (steps : Int)
    (self self' : Self (List (Tensor ℝ)) (Tensor ℝ) (Tensor ℝ)) (ev : List Int) (hist : List (ℝ × ℝ))
    (h : train Ar (NTUCKER.cls topSv X) args steps (.ok s0) self = (self', ev, .ok hist)) :
    ∃ F g Y p, self'.factors = some F ∧ self'.aux = some g ∧ hist.getLast? = some p ∧
      IsTucker X.shape g F Y ∧ Reports X Y p ∧ (Reported args steps (hist.length - 1) → self'.full = some Y) := by
  obtain ⟨s, s', o, k, hre, hrun, e1, e2, e3, e4⟩ := train_last (init := NtuckerInit X ranks) (by rintro s ⟨⟩; exact h0) h
  obtain ⟨s1, v, hc, rfl, hm⟩ := hrun
  have hre' := hre.core rfl hc
  obtain ⟨-, -, -, -, -, b6, -, b8, b9, b10, b11, -⟩ := NTUCKER.main_ok (ntucker_reach hr h1 h13 hre').1 hr h1 h13 hm
  obtain ⟨-, -, -, -, -, -, hsc⟩ := NTUCKER.main_inv hm
  obtain ⟨l, -, -, rfl⟩ := NTUCKER.core_inv hc
  refine ⟨_, v, o.full, _, e2, e3 v (by rw [b9]; rfl), e1, ⟨b10, ?_⟩, scalars_reports b10 hsc, e4⟩
  rw [b8]
  rw [b6] at b11
  exact b11

/-! ### C82 -/

/-- **C82**: training for fewer steps from the same initial values returns the corresponding prefix of the history,
and the same result if the longer training stopped by then.  Holds for every class. -/
theorem C82_prefix {S F K X R : Type} (A : Arith R) (c : Cls S F K X R) (args : Args R) (n m : Int) (fresh : Res S)
    (self self' : Self F K X) (ev : List Int) (hist : List (R × R))
    (h : train A c args n fresh self = (self', ev, .ok hist)) (h1 : 1 ≤ m) (hm : m ≤ n) :
    ∃ self'' ev', train A c args m fresh self = (self'', ev', .ok (hist.take m.toNat)) ∧
      ((hist.length : Int) ≤ m → self''.factors = self'.factors ∧ self''.aux = self'.aux) :=
  train_prefix h h1 hm

/-- A run of 4 steps, and the same with 2. -/
example : (train (exactArith ℚ) (CP_ALS.cls scripted) { tol := 1 / 100 } 4
      (.ok (scriptFrom 1 [(3, 1), (2, 1 / 2), (1, 1 / 20), (1, 1 / 30)])) {}).2.2 =
        .ok [(1, 1), (1 / 2, 1 / 2), (1 / 20, 1 / 20), (1 / 30, 1 / 30)] ∧
    (train (exactArith ℚ) (CP_ALS.cls scripted) { tol := 1 / 100 } 2
      (.ok (scriptFrom 1 [(3, 1), (2, 1 / 2), (1, 1 / 20), (1, 1 / 30)])) {}).2.2 =
        .ok [(1, 1), (1 / 2, 1 / 2)] := by
  constructor <;> decide +kernel

/-- The hypotheses of C81 are met, for instance by the run of `ncp_example`. -/
example : ∃ topSv self' ev hist, train (exactArith ℝ) (NCP.cls topSv onesX 1) { tol := 1 } 1 (.ok onesState) {} =
    (self', ev, .ok hist) ∧ NcpInit onesX 1 onesState := by
  obtain ⟨topSv, -, self', ev, hist, h, -⟩ := ncp_example
  exact ⟨topSv, self', ev, hist, h, ones_init⟩

end TD.Props
