import Verif.Lemmas.SpecialCp
import Verif.Lemmas.NearestMono
import Verif.Lemmas.TrainErr
import Verif.Props.Ncp

/-!
# C137: `CP_ALS` in rounded arithmetic with overflow, infinities and NaN
-/
namespace TD.Props
open TD Spec Tensor fact sp
variable {F : Fmt}

theorem cp_reach_fl {pinv : Tensor (Num F) → Res (Tensor (Num F))} (hp : PinvSize pinv) {X : Tensor (Num F)} {R : Nat}
    (h2 : 2 ≤ X.order) (h25 : X.order ≤ 25) (hpos : ∀ d ∈ X.shape, 0 < d) {s : List (Tensor (Num F))}
    (h : Reach (CP.cls pinv X R) (FactorsFor X.shape R) s) : FactorsFor X.shape R s := by
  induction h with
  | fresh hi => exact hi
  | core _ hc _ => cases hc
  | main _ hm ih =>
      rcases CP.main_cases hp h2 h25 hpos ih with ⟨V, e, -, h⟩ | ⟨B, lam, full, l, obj, rel, h, hsw, -⟩
      · cases hm.symm.trans h
      · cases hm.symm.trans h
        exact hsw.fac
  | op1 _ hu _ _ => cases hu
  | op2 _ hu _ _ => cases hu

/-- What the exposed factors are, after any history of `train` calls. -/
theorem cp_exposed_fl {pinv : Tensor (Num F) → Res (Tensor (Num F))} (hp : PinvSize pinv) {X : Tensor (Num F)} {R : Nat}
    (h2 : 2 ≤ X.order) (h25 : X.order ≤ 25) (hpos : ∀ d ∈ X.shape, 0 < d) {Ar : fact.Arith (Num F)}
    {calls : List (Call (List (Tensor (Num F))) (Num F))} (hc : ∀ c ∈ calls, ∀ s, c.fresh = .ok s → FactorsFor X.shape R s)
    {f : List (Tensor (Num F))} (hf : (history Ar (CP.cls pinv X R) calls).1.factors = some f) :
    ∃ A lam, SwOk pinv X R A X.order f (some lam) := by
  obtain ⟨s, s', o, hr, hm, rfl⟩ := (history_exposes (Ar := Ar) (c := CP.cls pinv X R) hc).factors f hf
  rcases CP.main_cases hp h2 h25 hpos (cp_reach_fl hp h2 h25 hpos hr) with ⟨V, e, -, h⟩ | ⟨B, lam, full, l, obj, rel, h, hsw, -⟩
  · cases hm.symm.trans h
  · cases hm.symm.trans h
    exact ⟨s, lam, hsw⟩

/-- **C137** (normalisation): after any history of `train` calls on one object, from any initial factors, a column of an exposed factor
whose entries are all numbers contains an entry that is exactly 1, whatever was rounded on the way.  If rounding preserves the order
of numbers, no entry of such a column is above 1 or no entry is below 1.  Nothing is assumed about the values of the pseudo-inverse or
the stopping test. -/
theorem C137_columns (F : Fmt) (pinv : Tensor (Num F) → Res (Tensor (Num F))) (hp : PinvSize pinv) (X : Tensor (Num F)) (R : Nat)
    (h2 : 2 ≤ X.order) (h25 : X.order ≤ 25) (hpos : ∀ d ∈ X.shape, 0 < d) (Ar : fact.Arith (Num F))
    (calls : List (Call (List (Tensor (Num F))) (Num F))) (hc : ∀ c ∈ calls, ∀ s, c.fresh = .ok s → FactorsFor X.shape R s)
    (f : List (Tensor (Num F))) (hf : (history Ar (CP.cls pinv X R) calls).1.factors = some f) :
    FactorsFor X.shape R f ∧ ∀ n M, f[n]? = some M → ∀ r < R, ColumnFinite M (X.shape.getD n 0) r →
      ColumnHasOne M (X.shape.getD n 0) r ∧ (Monotone F.arith.rnd → ColumnOneSided M (X.shape.getD n 0) r) := by
  obtain ⟨A, lam, hsw⟩ := cp_exposed_fl hp h2 h25 hpos hc hf
  refine ⟨hsw.fac, fun n M hM r hr hcol => hsw.cols n ?_ M hM r hr hcol⟩
  have := (List.getElem?_eq_some_iff.1 hM).1
  rw [hsw.fac.length] at this
  exact this

/-- **C137** (numbers): if the pseudo-inverse raises on infinities and NaN, the exposed factors of all modes but the last consist of
numbers, after any history of `train` calls, whether they returned or raised. -/
theorem C137_numbers (F : Fmt) (pinv : Tensor (Num F) → Res (Tensor (Num F))) (hp : PinvSize pinv) (hr : PinvRejects pinv)
    (X : Tensor (Num F)) (R : Nat) (h2 : 2 ≤ X.order) (h25 : X.order ≤ 25) (hpos : ∀ d ∈ X.shape, 0 < d) (Ar : fact.Arith (Num F))
    (calls : List (Call (List (Tensor (Num F))) (Num F))) (hc : ∀ c ∈ calls, ∀ s, c.fresh = .ok s → FactorsFor X.shape R s)
    (f : List (Tensor (Num F))) (hf : (history Ar (CP.cls pinv X R) calls).1.factors = some f) :
    ∀ n M, n + 1 < X.order → f[n]? = some M → AllFinite M := by
  obtain ⟨A, lam, hsw⟩ := cp_exposed_fl hp h2 h25 hpos hc hf
  exact fun n M hn hM => hsw.fin (by omega) hr n M (by omega) hM

/-- **C137** (steps): a `train` call that returns has gone through factors `B 0`, `B 1`, …, one list per entry of the history, and exposes
the last of them; all factors of all modes after every step but the last consist of numbers.  In the exposed result, the weight of a
column of numbers of the last mode is a number other than zero. -/
theorem C137_steps (F : Fmt) (pinv : Tensor (Num F) → Res (Tensor (Num F))) (hp : PinvSize pinv) (hr : PinvRejects pinv)
    (X : Tensor (Num F)) (R : Nat) (h2 : 2 ≤ X.order) (h25 : X.order ≤ 25) (hpos : ∀ d ∈ X.shape, 0 < d) (Ar : fact.Arith (Num F))
    (args : Args (Num F)) (steps : Int) (A : List (Tensor (Num F))) (hA : FactorsFor X.shape R A)
    (self self' : Self (List (Tensor (Num F))) (Tensor (Num F)) (Tensor (Num F))) (ev : List Int) (hist : List (Num F × Num F))
    (ht : train Ar (CP.cls pinv X R) args steps (.ok A) self = (self', ev, .ok hist)) :
    ∃ B : Nat → List (Tensor (Num F)), B 0 = A ∧ self'.factors = some (B hist.length) ∧
      (∀ j < hist.length, ∃ o, CP.main pinv X R (B j) = .ok (B (j + 1), o) ∧ hist[j]? = some (o.loss, o.rel)) ∧
      (∀ j, 0 < j → j < hist.length → ∀ M ∈ B j, AllFinite M) ∧
      ∃ lam, self'.aux = some lam ∧ lam.shape = [R] ∧ ∀ M, (B hist.length)[X.order - 1]? = some M → ∀ r < R,
        ColumnFinite M (X.shape.getD (X.order - 1) 0) r → (lam.at_ [r]).Finite ∧ lam.at_ [r] ≠ 0 := by
  obtain ⟨s0, n, o, kc, hs0, h1, -, ⟨⟨σ, hσ0, hσ⟩, -⟩, -, hhist, -, -, hfac, haux, -⟩ := train_ok ht
  cases hs0
  have hlen : hist.length = n := by rw [hhist]; simp
  have hmain : ∀ j < n, ∃ s, CP.main pinv X R (σ j) = .ok (s, o j) ∧ (j + 1 < n → σ (j + 1) = s) := by
    intro j hj
    obtain ⟨s, hr, hu⟩ := hσ j hj
    exact ⟨s, hr.2, hu⟩
  have key : ∀ j < n, FactorsFor X.shape R (σ j) ∧ ∃ lam, (o j).aux = some lam ∧
      CP.main pinv X R (σ j) = .ok ((o j).factors, o j) ∧ SwOk pinv X R (σ j) X.order (o j).factors (some lam) ∧
      (j + 1 < n → σ (j + 1) = (o j).factors) := by
    intro j
    induction j with
    | zero =>
        intro hj
        obtain ⟨s, hm, hn⟩ := hmain 0 hj
        have hf : FactorsFor X.shape R (σ 0) := hσ0 ▸ hA
        rcases CP.main_cases hp h2 h25 hpos hf with ⟨V, e, -, h⟩ | ⟨B, lam, full, l, obj, rel, h, hsw, -⟩
        · cases hm.symm.trans h
        · obtain ⟨rfl, ho⟩ := Prod.mk.inj (Except.ok.inj (hm.symm.trans h))
          rw [ho]
          rw [ho] at hm
          exact ⟨hf, lam, rfl, hm, hsw, hn⟩
    | succ j ih =>
        intro hj
        obtain ⟨-, lam0, -, -, hsw0, hn0⟩ := ih (by omega)
        obtain ⟨s, hm, hn⟩ := hmain (j + 1) hj
        have hf : FactorsFor X.shape R (σ (j + 1)) := by rw [hn0 hj]; exact hsw0.fac
        rcases CP.main_cases hp h2 h25 hpos hf with ⟨V, e, -, h⟩ | ⟨B, lam, full, l, obj, rel, h, hsw, -⟩
        · cases hm.symm.trans h
        · obtain ⟨rfl, ho⟩ := Prod.mk.inj (Except.ok.inj (hm.symm.trans h))
          rw [ho]
          rw [ho] at hm
          exact ⟨hf, lam, rfl, hm, hsw, hn⟩
  let B : Nat → List (Tensor (Num F)) := fun j => match j with
    | 0 => A
    | j + 1 => (o j).factors
  have hB : ∀ j < n, B j = σ j := by
    intro j hj
    cases j with
    | zero => exact hσ0.symm
    | succ j =>
        obtain ⟨-, -, -, -, -, h⟩ := key j (by omega)
        exact (h hj).symm
  obtain ⟨m, rfl⟩ : ∃ m, n = m + 1 := ⟨n - 1, by omega⟩
  refine ⟨B, rfl, ?_, fun j hj => ?_, fun j h0 hj M hM => ?_, ?_⟩
  · rw [hfac, hlen]; rfl
  · rw [hlen] at hj
    obtain ⟨-, lam, -, hm, -⟩ := key j hj
    refine ⟨o j, by rw [hB j hj]; exact hm, ?_⟩
    rw [hhist, List.getElem?_map, List.getElem?_range hj]
    rfl
  · rw [hlen] at hj
    obtain ⟨i, rfl⟩ : ∃ i, j = i + 1 := ⟨j - 1, by omega⟩
    obtain ⟨-, lam0, -, -, hsw0, -⟩ := key i (by omega)
    obtain ⟨-, lam1, -, -, hsw1, -⟩ := key (i + 1) hj
    obtain ⟨k, hget⟩ := List.getElem?_of_mem hM
    by_cases hk0 : k = 0
    · exact hsw0.fin (by omega) hr k _ (by omega) hget
    · rw [hB (i + 1) hj] at hget
      exact hsw1.start (by omega) hr k _ (by omega) hget
  · obtain ⟨-, lam, hl, -, hsw, -⟩ := key m (by omega)
    obtain ⟨l, hl', hls, hcol⟩ := hsw.lam (by omega)
    cases hl'
    refine ⟨lam, haux lam (by simp [hl, CP.cls, CP_ALS.cls]), hls, fun M hM r hr hc => ?_⟩
    rw [hlen] at hM
    obtain ⟨x, hx, hx0, e⟩ := hcol M hM r hr hc
    rw [e]
    refine ⟨trivial, fun h => hx0 ?_⟩
    rw [Num.zero_def] at h
    simpa using h

/-- **C137** (exceptions): no rounding, overflow, division by zero or NaN makes `train` raise by itself: with at least one step, the call
returns a history, or it raises what the pseudo-inverse raised on some matrix. -/
theorem C137_raises (F : Fmt) (pinv : Tensor (Num F) → Res (Tensor (Num F))) (hp : PinvSize pinv) (X : Tensor (Num F)) (R : Nat)
    (h2 : 2 ≤ X.order) (h25 : X.order ≤ 25) (hpos : ∀ d ∈ X.shape, 0 < d) (Ar : fact.Arith (Num F)) (args : Args (Num F))
    (hv : args.validationInternal ≠ 0 ∨ args.verbose = true) (steps : Int) (h1 : 1 ≤ steps) (A : List (Tensor (Num F)))
    (hA : FactorsFor X.shape R A) (self : Self (List (Tensor (Num F))) (Tensor (Num F)) (Tensor (Num F))) :
    (∃ self' ev hist, train Ar (CP.cls pinv X R) args steps (.ok A) self = (self', ev, .ok hist)) ∨
      ∃ self' ev e, train Ar (CP.cls pinv X R) args steps (.ok A) self = (self', ev, .error e) ∧ ∃ V, pinv V = .error e := by
  have h := train_err (A := Ar) (c := CP.cls pinv X R) (I := FactorsFor X.shape R) (E := fun e => ∃ V, pinv V = .error e)
    (args := args) rfl rfl (fun s hs => by
      rcases CP.main_cases hp h2 h25 hpos hs with ⟨V, e, h1, h⟩ | ⟨B, lam, full, l, obj, rel, h, hsw, -⟩
      · exact Or.inr ⟨e, h, V, h1⟩
      · exact Or.inl ⟨_, _, h, hsw.fac⟩) hA (hv.imp_right Or.inl) h1 self
  generalize train Ar (CP.cls pinv X R) args steps (.ok A) self = q at h
  obtain ⟨self', ev, r⟩ := q
  simp only at h
  rcases h with ⟨hist, rfl⟩ | ⟨e, rfl, hV⟩
  · exact Or.inl ⟨_, _, _, rfl⟩
  · exact Or.inr ⟨_, _, _, rfl, hV⟩

/-- **C137** (zero tensor): if the pseudo-inverse raises on infinities and NaN, training on the zero tensor never returns, from any
initial factors: the first normalisation divides by zero. -/
theorem C137_zero (F : Fmt) (pinv : Tensor (Num F) → Res (Tensor (Num F))) (hp : PinvSize pinv) (hr : PinvRejects pinv)
    (X : Tensor (Num F)) (hX : ∀ i, InB X.shape i → X.at_ i = 0) (R : Nat) (hR : 0 < R)
    (h2 : 2 ≤ X.order) (h25 : X.order ≤ 25) (hpos : ∀ d ∈ X.shape, 0 < d) (Ar : fact.Arith (Num F)) (args : Args (Num F))
    (hv : args.validationInternal ≠ 0 ∨ args.verbose = true) (steps : Int) (h1 : 1 ≤ steps) (A : List (Tensor (Num F)))
    (hA : FactorsFor X.shape R A) (self : Self (List (Tensor (Num F))) (Tensor (Num F)) (Tensor (Num F))) :
    ∃ self' ev e, train Ar (CP.cls pinv X R) args steps (.ok A) self = (self', ev, .error e) ∧ ∃ V, pinv V = .error e := by
  rcases C137_raises F pinv hp X R h2 h25 hpos Ar args hv steps h1 A hA self with ⟨self', ev, hist, ht⟩ | h
  · exfalso
    obtain ⟨s0, n, o, kc, hs0, hn, -, ⟨⟨σ, hσ0, hσ⟩, -⟩, -⟩ := train_ok ht
    cases hs0
    obtain ⟨s, hrun, -⟩ := hσ 0 (by omega)
    have hm : CP.main pinv X R (σ 0) = .ok (s, o 0) := hrun.2
    rw [hσ0] at hm
    rcases CP.main_cases hp h2 h25 hpos hA with ⟨V, e, -, h⟩ | ⟨B, lam, full, l, obj, rel, h, hsw, -⟩
    · cases hm.symm.trans h
    · have hB : 0 < B.length := by rw [hsw.fac.length]; unfold order at h2; omega
      have hget : B[0]? = some B[0] := List.getElem?_eq_getElem hB
      have hXd : ∀ x ∈ X.data, x = 0 := by
        intro x hx
        obtain ⟨k, hk, rfl⟩ := List.getElem_of_mem hx
        have hk' : k < X.shape.prod := by rw [← X.wf]; exact hk
        have := hX (unravel X.shape k) (unravel_inB hk')
        unfold Tensor.at_ at this
        rw [ravel_unravel hk', List.getD_eq_getElem _ _ hk] at this
        exact this
      refine hsw.zero hXd 0 (by omega) _ hget 0 hR fun i hi => ?_
      refine hsw.fin (by omega) hr 0 _ (by omega) hget _ ?_
      rw [hsw.fac.get hget]
      exact InB_pair.2 ⟨i, 0, rfl, hi, hR⟩
  · exact h

/-- A pseudo-inverse that raises on infinities and NaN. -/
noncomputable def pinvEx (V : Tensor (Num f32)) : Res (Tensor (Num f32)) :=
  open Classical in if AllFinite V then .ok V else .error .valueError

/-- The matrix with the entry 1. -/
noncomputable abbrev oneEx : Tensor (Num f32) := ⟨[1, 1], [1], rfl⟩

theorem pinvEx_size : PinvSize pinvEx := by
  intro V P R hV h
  unfold pinvEx at h
  split at h
  · cases h; exact hV
  · cases h

theorem pinvEx_rejects : PinvRejects pinvEx := by
  intro V P h
  unfold pinvEx at h
  split at h
  · assumption
  · cases h

theorem one_mul_one_fl : (1 : Num F) * 1 = 1 := by rw [Num.one_def, Num.mul_fin, mul_one]; exact round_one

theorem one_div_one_fl : (1 : Num F) / 1 = 1 := by
  rw [Num.one_def, Num.div_fin, if_neg one_ne_zero, div_one]; exact round_one

theorem max_one_fl : maximum (.inf true) (1 : Num F) = 1 := by
  have h : (Num.inf true : Num F).lt 1 = true := by
    rw [Num.one_def]
    unfold Num.lt
    simp only [Num.val]
    exact decide_eq_true (EReal.bot_lt_coe 1)
  unfold maximum
  rw [h]
  rfl

theorem modeUpdate_ex (k : Nat) (hk : k < 2) :
    CP.modeUpdate pinvEx oneEx 1 [oneEx, oneEx] k = .ok ⟨[oneEx, oneEx], ⟨[1], [1], rfl⟩, oneEx⟩ := by
  have h1 : ops.unfold oneEx k = .ok oneEx := by
    rcases k with _ | _ | k
    · rfl
    · rfl
    · omega
  have h2 : tf.matmul oneEx oneEx true false = .ok oneEx := by
    refine Eq.trans (b := .ok ⟨[1, 1], [1 * 1], rfl⟩) rfl ?_
    simp only [one_mul_one_fl]
  have h2' : tf.matmul oneEx oneEx = .ok oneEx := by
    refine Eq.trans (b := .ok ⟨[1, 1], [1 * 1], rfl⟩) rfl ?_
    simp only [one_mul_one_fl]
  have h3 : ops.khatri [oneEx, oneEx] (.int k) true = .ok oneEx := by
    rcases k with _ | _ | k
    · rfl
    · rfl
    · omega
  have h4 : ops.hadamard [oneEx, oneEx] (.int k) = .ok oneEx := by
    rcases k with _ | _ | k
    · rfl
    · rfl
    · omega
  have h5 : pinvEx oneEx = .ok oneEx := by
    unfold pinvEx
    rw [if_pos]
    intro i hi
    obtain ⟨a, b, rfl, ha, hb⟩ := InB_pair.1 hi
    obtain rfl : a = 0 := by omega
    obtain rfl : b = 0 := by omega
    trivial
  have h6 : reduceMax0 oneEx = .ok ⟨[1], [1], rfl⟩ := by
    refine Eq.trans (b := .ok ⟨[1], [maximum (.inf true) 1], rfl⟩) rfl ?_
    simp only [max_one_fl]
  have h7 : tf.ewise (· / ·) oneEx (⟨[1], [1], rfl⟩ : Tensor (Num f32)) = .ok oneEx := by
    refine Eq.trans (b := .ok ⟨[1, 1], [1 / 1], rfl⟩) rfl ?_
    simp only [one_div_one_fl]
  have h8 : tf.assign [oneEx, oneEx] k oneEx = .ok [oneEx, oneEx] := by
    rcases k with _ | _ | k
    · rfl
    · rfl
    · omega
  have h9 : [oneEx, oneEx].mapM (fun a => tf.matmul a a true false) = .ok [oneEx, oneEx] := by
    simp only [List.mapM_cons, List.mapM_nil, h2]
    rfl
  have h10 : tf.reshape oneEx [(oneEx.shape.getD k 0 : Nat), ((1 : Nat) : Int)] = .ok oneEx := by
    rcases k with _ | _ | k
    · rfl
    · rfl
    · omega
  unfold CP.modeUpdate
  rw [h1, ok_bind, h9, ok_bind, h3, ok_bind, h2', ok_bind, h4, ok_bind, h5, ok_bind, h2', ok_bind, h10, ok_bind, h6, ok_bind, h7,
    ok_bind, h8, ok_bind]
  rfl

theorem sweep_ex : CP.sweep pinvEx oneEx 1 [oneEx, oneEx] = .ok ([oneEx, oneEx], ⟨[1], [1], rfl⟩) := by
  unfold CP.sweep
  show ((do
    let r ← List.foldlM _ _ [0, 1]
    _) : Res _) = _
  simp only [List.foldlM_cons, List.foldlM_nil, modeUpdate_ex 0 (by omega), ok_bind, pure_bind]
  rw [modeUpdate_ex 1 (by omega)]
  rfl

theorem main_ex : ∃ o, CP.main pinvEx oneEx 1 [oneEx, oneEx] = .ok ([oneEx, oneEx], o) := by
  obtain ⟨Y, eY, hY⟩ := CP.full_ok (A := [oneEx, oneEx]) (lam := ⟨[1], [1], rfl⟩) (shape := [1, 1]) (R := 1) rfl rfl (by simp) (by simp)
  obtain ⟨⟨ls, obj, rel⟩, er⟩ := scalars_ok (X := oneEx) hY
  refine ⟨⟨[oneEx, oneEx], some ⟨[1], [1], rfl⟩, Y, ls, obj, rel⟩, ?_⟩
  unfold CP.main
  rw [sweep_ex, ok_bind]
  simp only
  rw [eY, ok_bind, er, ok_bind]
  rfl

/-- The hypotheses are met, and training returns, for instance here: float32 and a pseudo-inverse that raises on infinities and NaN. -/
example : PinvSize pinvEx ∧ PinvRejects pinvEx ∧ Monotone f32.arith.rnd ∧ FactorsFor oneEx.shape 1 [oneEx, oneEx] ∧
    ∃ self' ev hist, train (Num.loopArith f32) (CP.cls pinvEx oneEx 1) { tol := 0 } 7 (.ok [oneEx, oneEx]) {} =
      (self', ev, .ok hist) := by
  refine ⟨pinvEx_size, pinvEx_rejects, f32_mono, rfl, ?_⟩
  have hsafe : Safe (CP.cls pinvEx oneEx 1) (fun s => s = [oneEx, oneEx]) := by
    refine ⟨fun s hs => ?_, fun f hf s hs => ?_, fun p hp s hs => ?_⟩
    · obtain ⟨o, h⟩ := main_ex
      rw [hs]
      exact ⟨_, o, h, rfl⟩
    · cases hf
    · cases hp
  obtain ⟨hist, e⟩ := train_safe (A := Num.loopArith f32) (args := { tol := 0 }) hsafe rfl (Or.inl (by decide)) (by decide : (1:Int) ≤ 7) {}
  generalize train (Num.loopArith f32) (CP.cls pinvEx oneEx 1) { tol := 0 } 7 (.ok [oneEx, oneEx]) {} = q at e ⊢
  obtain ⟨self', ev, h⟩ := q
  simp only at e
  exact ⟨self', ev, hist, by rw [e]⟩

/-- The zero tensor of the last theorem. -/
example : (∀ i, InB [1, 1] i → (⟨[1, 1], [0], rfl⟩ : Tensor (Num f32)).at_ i = 0) ∧ FactorsFor [1, 1] 1 [oneEx, oneEx] := by
  refine ⟨fun i hi => ?_, rfl⟩
  obtain ⟨a, b, rfl, ha, hb⟩ := InB_pair.1 hi
  obtain rfl : a = 0 := by omega
  obtain rfl : b = 0 := by omega
  rfl

end TD.Props
