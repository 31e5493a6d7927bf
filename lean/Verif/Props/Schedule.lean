import Verif.Lemmas.CpGraph
import Verif.Lemmas.HooiGraph
import Verif.Lemmas.BcuGraph

/-!
# C60: the result of a session run does not depend on the schedule

`Reaches G vars c`: some interleaving of starting and finishing operations leads from the variable values `vars` to
`c`; `Complete G c`: all operations have finished.  In each theorem the right hand side is the sequential model used
everywhere else.
-/
namespace TD.Props
open TD Tensor graph fact

theorem facVars_get {α : Type} {A : List (Tensor α)} {i : Nat} (h : i < A.length) : A[i]? = some (facVars A i) := by
  simp [facVars, List.getD_eq_getElem?_getD, List.getElem?_eq_getElem h]

theorem facVars_ext {α : Type} {A B : List (Tensor α)} (hl : A.length = B.length)
    {v : Nat → Tensor α} (h1 : ∀ i < A.length, A[i]? = some (v i)) (h2 : ∀ i, B.length ≤ i → v i = facVars B i) :
    v = facVars A := by
  funext i
  by_cases hi : i < A.length
  · have := (h1 i hi).symm.trans (facVars_get hi)
    simpa using this
  · rw [h2 i (by omega)]
    have e1 : A[i]? = none := by rw [List.getElem?_eq_none_iff]; omega
    have e2 : B[i]? = none := by rw [List.getElem?_eq_none_iff]; omega
    simp [facVars, List.getD_eq_getElem?_getD, e1, e2]

/-- The shape of factor variable `i`. -/
theorem facVars_shape {α : Type} {A : List (Tensor α)} {sh : List (List Nat)} (h : A.map Tensor.shape = sh) {i : Nat}
    (hi : i < A.length) : (facVars A i).shape = sh.getD i [] := by
  subst h
  have := facVars_get hi
  rw [List.getElem?_eq_getElem hi] at this
  simp only [Option.some.injEq] at this
  rw [← this]
  simp [List.getD_eq_getElem?_getD, hi]

/-- What a complete run of a graph returns compared with a sequential result: `vals k` are the fetched new factors,
`full` the fetched full tensor. -/
structure Agrees {ν α : Type} (vars vars' : ν → Tensor α) (vals : Nat → Option (Option (Tensor α)))
    (full : Option (Option (Tensor α))) (factors : List (Tensor α)) (full' : Tensor α) : Prop where
  /-- every variable ends with the sequential value -/
  vars : vars = vars'
  /-- the fetched factors are the sequential ones -/
  factors : ∀ k < factors.length, vals k = some factors[k]?
  /-- the fetched full tensor is the sequential one -/
  full : full = some (some full')

/-! ### `CP_ALS` -/

/-- Variables of `CP_ALS` have the shapes given at `cp.py:76`. -/
def CpShapes (X : Tensor ℝ) (rank : Nat) (A : List (Tensor ℝ)) : Prop :=
  A.map Tensor.shape = X.shape.map fun d => [d, rank]

theorem CpShapes.den {pinv : Tensor ℝ → Res (Tensor ℝ)} {X : Tensor ℝ} {rank : Nat} {A : List (Tensor ℝ)} (h0 : 0 < X.order)
    (h : CpShapes X rank A) :
    A.length = X.order ∧ Den (Cp.build pinv X rank) (facVars A) (Cp.den pinv X rank A) (Cp.seen pinv X rank A (facVars A)) := by
  have hl : A.length = X.order := by simpa [Tensor.order] using congrArg List.length h
  refine ⟨hl, Cp.isDen h0 hl (fun i hi => facVars_get (by omega)) fun i hi => ?_⟩
  rw [facVars_shape h (by omega)]
  have : i < X.shape.length := hi
  simp [List.getD_eq_getElem?_getD, this]

/-- **C60** for `CP_ALS`: whatever the order in which the executor starts and finishes the operations of one
`sess.run` (`cp.py:150-159`), all variables, the fetched factors, the fetched weights and the fetched full tensor are
those of the mode by mode sweep; and the run fails if that sweep fails. -/
theorem C60_cp_schedule (pinv : Tensor ℝ → Res (Tensor ℝ)) (X : Tensor ℝ) (rank : Nat) (A : List (Tensor ℝ))
    (h0 : 0 < X.order) (hA : CpShapes X rank A) (c : Cfg Cp.Op Nat (Tensor ℝ))
    (hr : Reaches (Cp.build pinv X rank) (facVars A) c) (hc : Complete (Cp.build pinv X rank) c) :
    match cp.main pinv X rank A with
    | .ok (A', out) => Agrees c.vars (facVars A') (fun k => c.done (.assign k)) (c.done .full) out.factors out.full ∧
        c.done (.lam (X.order - 1)) = some out.aux ∧ ¬ Failed (Cp.build pinv X rank) c
    | .error _ => Failed (Cp.build pinv X rank) c ∨
        ∃ full, c.done .full = some (some full) ∧ (cp.scalars X full).toOption = none := by
  obtain ⟨hl, D⟩ := hA.den (pinv := pinv) h0
  obtain ⟨h1, h2, h3⟩ := complete_den D hr hc
  have hloc := Cp.pass_local pinv X rank
  have hsw := Cp.sweep_steps (pinv := pinv) (X := X) (rank := rank) (A := A)
  have hfull := h1 .full ((Cp.mem_nodes ..).2 trivial)
  have hrest : ∀ v, X.order ≤ v → c.vars v = facVars A v := by
    intro v hv
    refine h3 v fun w hw hwv => ?_
    rw [Cp.mem_nodes] at hw
    cases w <;> simp only [Cp.build, reduceCtorEq, Option.some.injEq] at hwv
    simp only [Cp.Runs] at hw
    omega
  unfold cp.main
  cases hs : cp.sweep pinv X rank A with
  | error e =>
      rw [hs] at hsw
      left
      refine ⟨.full, (Cp.mem_nodes ..).2 trivial, ?_⟩
      rw [hfull, Cp.den, hs]
      rfl
  | ok r =>
  obtain ⟨A', lam⟩ := r
  rw [hs] at hsw
  simp only [Cp.den, hs, toOption_ok, Option.bind_some] at hfull
  simp only [ok_bind]
  cases hf : cp.fullOf A' lam with
  | error e =>
      left
      exact ⟨.full, (Cp.mem_nodes ..).2 trivial, by rw [hfull, hf]; rfl⟩
  | ok full =>
  rw [hf] at hfull
  simp only [ok_bind]
  cases hq : cp.scalars X full with
  | error e =>
      right
      exact ⟨full, hfull, by rw [hq]; rfl⟩
  | ok q =>
  obtain ⟨l, obj, rel⟩ := q
  cases hst : steps (Cp.pass pinv X rank) (A, none) X.order with
  | none => rw [hst] at hsw; cases hsw
  | some s =>
  obtain ⟨lam', hl2, hdl⟩ := Cp.steps_full h0 hst
  rw [hst] at hsw
  simp only [toOption_ok, Option.bind_some, hl2, Option.map_some, Option.some.injEq, Prod.mk.injEq] at hsw
  obtain ⟨rfl, rfl⟩ := hsw
  have hlen : s.1.length = X.order := by simpa [hl] using hloc.length hst
  have hassign : ∀ k < X.order, Cp.den pinv X rank A (.assign k) = s.1[k]? := by
    intro k hk
    obtain ⟨s', e1, e2⟩ := hloc.earlier hst k hk
    rw [Cp.den, facAt, e1]
    exact e2
  have hnf : ¬ Failed (Cp.build pinv X rank) c := by
    rintro ⟨n, hn, hx⟩
    rw [h1 n hn] at hx
    simp only [Option.some.injEq] at hx
    -- every operation is needed by the last one
    have : Cp.den pinv X rank A .full = none ∨ ∃ k, k < X.order ∧ Cp.den pinv X rank A (.assign k) = none := by
      have hn' := (Cp.mem_nodes ..).1 hn
      cases n with
      | gram k i => exact .inr ⟨k, hn'.1, D.strict_before (Cp.before_gram hn'.2.1 hn'.2.2) ((Cp.mem_nodes ..).2 hn'.1) hx⟩
      | kr k i => exact .inr ⟨k, hn'.1, D.strict_before (Cp.before_kr hn'.2.1 hn'.2.2) ((Cp.mem_nodes ..).2 hn'.1) hx⟩
      | xa k =>
          refine .inr ⟨k, hn', D.strict_before (a := .xa k) ?_ ((Cp.mem_nodes ..).2 hn') hx⟩
          exact Relation.TransGen.tail (.single (b := .nn k) (by simp [Cp.build])) (by simp [Cp.build])
      | v k =>
          refine .inr ⟨k, hn', D.strict_before (a := .v k) ?_ ((Cp.mem_nodes ..).2 hn') hx⟩
          exact Relation.TransGen.tail (.single (b := .nn k) (by simp [Cp.build])) (by simp [Cp.build])
      | nn k => exact .inr ⟨k, hn', D.strict_before (a := .nn k) (.single (by simp [Cp.build])) ((Cp.mem_nodes ..).2 hn') hx⟩
      | lam k => exact .inr ⟨k, hn', D.strict_before (a := .lam k) (.single (by simp [Cp.build])) ((Cp.mem_nodes ..).2 hn') hx⟩
      | assign k => exact .inr ⟨k, hn', hx⟩
      | full => exact .inl hx
    rcases this with h | ⟨k, hk, h⟩
    · rw [Cp.den, hs] at h
      simp only [toOption_ok, Option.bind_some, hf] at h
      cases h
    · rw [hassign k hk, List.getElem?_eq_none_iff] at h
      omega
  refine ⟨⟨?_, ?_, hfull⟩, ?_, hnf⟩
  · refine facVars_ext (B := A) (by omega) (fun i hi => ?_) fun i hi => hrest i (by omega)
    have hi' : i < X.order := by omega
    have e : s.1[i]? = some (s.1[i]) := List.getElem?_eq_getElem hi
    rw [h2 (.assign i) ((Cp.mem_nodes ..).2 hi') i (s.1[i]) rfl (by rw [hassign i hi', e]), e]
  · intro k hk
    have hk' : k < X.order := by rw [← hlen]; exact hk
    rw [h1 (.assign k) ((Cp.mem_nodes ..).2 hk'), hassign k hk']
  · have hlast : Cp.Runs X.order (.lam (X.order - 1)) := by simp only [Cp.Runs]; omega
    rw [h1 _ ((Cp.mem_nodes ..).2 hlast), hdl]

/-- No execution of the CP_ALS graph gets stuck: from every moment it can be completed. -/
theorem C60_cp_completes (pinv : Tensor ℝ → Res (Tensor ℝ)) (X : Tensor ℝ) (rank : Nat) (vars : Nat → Tensor ℝ)
    (h0 : 0 < X.order) (c : Cfg Cp.Op Nat (Tensor ℝ)) (hr : Reaches (Cp.build pinv X rank) vars c) :
    ∃ c', Relation.ReflTransGen (Step (Cp.build pinv X rank)) c c' ∧ Complete (Cp.build pinv X rank) c' := by
  refine complete_exists (fun n => match n with
    | .gram k _ => 5 * k
    | .kr k _ => 5 * k
    | .xa k => 5 * k + 1
    | .v k => 5 * k + 1
    | .nn k => 5 * k + 2
    | .lam k => 5 * k + 3
    | .assign k => 5 * k + 4
    | .full => 5 * X.order + 5) ?_ c hr
  intro n hn m hm
  have hA : CpShapes X rank (X.shape.map fun d => Tensor.ofFn [d, rank] fun _ => 0) := by
    simp only [CpShapes, List.map_map]
    rfl
  refine ⟨((hA.den (pinv := pinv) h0).2).closed n hn m hm, ?_⟩
  cases n <;> simp only [Cp.build, List.mem_append, List.mem_map, mem_prev, mem_others, List.mem_cons, List.mem_range,
    List.not_mem_nil, or_false] at hm
  · obtain ⟨h1, rfl⟩ := hm; simp only; omega
  · obtain ⟨h1, rfl⟩ := hm; simp only; omega
  · rcases hm with ⟨i, h1, rfl⟩ | ⟨h1, rfl⟩ <;> simp only <;> omega
  · obtain ⟨i, h1, rfl⟩ := hm; simp only; omega
  · rcases hm with rfl | rfl <;> simp only <;> omega
  · subst hm; simp only; omega
  · rcases hm with rfl | rfl <;> simp only <;> omega
  · rcases hm with ⟨i, h1, rfl⟩ | rfl <;> simp only <;> omega

/-! ### `HOOI` -/

/-- Variables of `HOOI` have the shapes given at `tucker.py:138`. -/
def HooiShapes (X : Tensor ℝ) (ranks : List Nat) (A : List (Tensor ℝ)) : Prop :=
  A.map Tensor.shape = List.zipWith (fun d r => [d, r]) X.shape ranks

theorem HooiShapes.den {svd : Tensor ℝ → Res (Tensor ℝ × Tensor ℝ × Tensor ℝ)} {X : Tensor ℝ} {ranks : List Nat}
    {A : List (Tensor ℝ)} (hrk : ranks.length = X.order) (h : HooiShapes X ranks A) :
    A.length = X.order ∧
      Den (Hooi.build svd X ranks) (facVars A) (Hooi.den svd X ranks A) (Hooi.seen svd X ranks A (facVars A)) := by
  have hl : A.length = X.order := by
    have := congrArg List.length h
    simp only [Tensor.order, List.length_map, List.length_zipWith] at this hrk ⊢
    omega
  refine ⟨hl, Hooi.isDen hl (fun i hi => facVars_get (by omega)) fun i hi => ?_⟩
  rw [facVars_shape h (by omega)]
  have h1 : i < X.shape.length := hi
  have h2 : i < ranks.length := by omega
  simp [List.getD_eq_getElem?_getD, h1, h2]

/-- **C60** for `HOOI` (`tucker.py:229-238`): under every schedule the run returns the mode by mode result. -/
theorem C60_hooi_schedule (svd : Tensor ℝ → Res (Tensor ℝ × Tensor ℝ × Tensor ℝ)) (X : Tensor ℝ) (ranks : List Nat)
    (A : List (Tensor ℝ)) (hrk : ranks.length = X.order) (hA : HooiShapes X ranks A) (c : Cfg Hooi.Op Nat (Tensor ℝ))
    (hr : Reaches (Hooi.build svd X ranks) (facVars A) c) (hc : Complete (Hooi.build svd X ranks) c) :
    match tucker.HOOI.main svd X ranks A with
    | .ok (A', out) => Agrees c.vars (facVars A') (fun k => c.done (.assign k)) (c.done .full) out.factors out.full ∧
        c.done .core = some out.aux ∧ ¬ Failed (Hooi.build svd X ranks) c
    | .error _ => Failed (Hooi.build svd X ranks) c ∨
        ∃ full, c.done .full = some (some full) ∧ (cp.scalars X full).toOption = none := by
  obtain ⟨hl, D⟩ := hA.den (svd := svd) hrk
  obtain ⟨h1, h2, h3⟩ := complete_den D hr hc
  have hloc := Hooi.pass_local svd X ranks
  have hfull := h1 .full ((Hooi.mem_nodes ..).2 trivial)
  have hcore := h1 .core ((Hooi.mem_nodes ..).2 trivial)
  have hrest : ∀ v, X.order ≤ v → c.vars v = facVars A v := by
    intro v hv
    refine h3 v fun w hw hwv => ?_
    rw [Hooi.mem_nodes] at hw
    cases w <;> simp only [Hooi.build, reduceCtorEq, Option.some.injEq] at hwv
    simp only [Hooi.Runs] at hw
    omega
  unfold tucker.HOOI.main
  cases hs : tucker.HOOI.sweep svd X ranks A with
  | error e =>
      left
      refine ⟨.full, (Hooi.mem_nodes ..).2 trivial, ?_⟩
      rw [hfull, Hooi.den, hs]
      rfl
  | ok A' =>
  simp only [Hooi.den, hs, toOption_ok, Option.bind_some] at hfull hcore
  simp only [ok_bind]
  cases hg : ops.ttm X A' none true with
  | error e =>
      left
      exact ⟨.core, (Hooi.mem_nodes ..).2 trivial, by rw [hcore, hg]; rfl⟩
  | ok g =>
  rw [hg] at hfull hcore
  simp only [toOption_ok, Option.bind_some] at hfull hcore
  simp only [ok_bind]
  cases hf : tucker.fullOf g A' with
  | error e =>
      left
      exact ⟨.full, (Hooi.mem_nodes ..).2 trivial, by rw [hfull, hf]; rfl⟩
  | ok full =>
  rw [hf] at hfull
  simp only [ok_bind]
  cases hq : cp.scalars X full with
  | error e =>
      right
      exact ⟨full, hfull, by rw [hq]; rfl⟩
  | ok q =>
  obtain ⟨l, obj, rel⟩ := q
  have hst : steps (tucker.HOOI.modeUpdate svd X ranks) A X.order = some A' := by
    have : (tucker.HOOI.sweep svd X ranks A).toOption = some A' := by rw [hs]; rfl
    exact this
  have hlen : A'.length = X.order := by simpa [hl] using hloc.length hst
  have hassign : ∀ k < X.order, Hooi.den svd X ranks A (.assign k) = A'[k]? := by
    intro k hk
    obtain ⟨s', e1, e2⟩ := hloc.earlier hst k hk
    rw [Hooi.den, facAt, e1]
    exact e2
  have hnf : ¬ Failed (Hooi.build svd X ranks) c := by
    rintro ⟨n, hn, hx⟩
    rw [h1 n hn] at hx
    simp only [Option.some.injEq] at hx
    have : (Hooi.den svd X ranks A .core = none ∨ Hooi.den svd X ranks A .full = none) ∨
        ∃ k, k < X.order ∧ Hooi.den svd X ranks A (.assign k) = none := by
      have hn' := (Hooi.mem_nodes ..).1 hn
      cases n with
      | use k i => exact .inr ⟨k, hn'.1, D.strict_before (Hooi.before_use hn'.2.1 hn'.2.2) ((Hooi.mem_nodes ..).2 hn'.1) hx⟩
      | left k => exact .inr ⟨k, hn', D.strict_before (a := .left k) (.single (by simp [Hooi.build])) ((Hooi.mem_nodes ..).2 hn') hx⟩
      | assign k => exact .inr ⟨k, hn', hx⟩
      | core => exact .inl (.inl hx)
      | full => exact .inl (.inr hx)
    rcases this with (h | h) | ⟨k, hk, h⟩
    · rw [Hooi.den, hs] at h
      simp only [toOption_ok, Option.bind_some, hg] at h
      cases h
    · rw [Hooi.den, hs] at h
      simp only [toOption_ok, Option.bind_some, hg, hf] at h
      cases h
    · rw [hassign k hk, List.getElem?_eq_none_iff] at h
      omega
  refine ⟨⟨?_, ?_, hfull⟩, hcore, hnf⟩
  · refine facVars_ext (B := A) (by omega) (fun i hi => ?_) fun i hi => hrest i (by omega)
    have hi' : i < X.order := by omega
    have e : A'[i]? = some (A'[i]) := List.getElem?_eq_getElem hi
    rw [h2 (.assign i) ((Hooi.mem_nodes ..).2 hi') i (A'[i]) rfl (by rw [hassign i hi', e]), e]
  · intro k hk
    have hk' : k < X.order := by rw [← hlen]; exact hk
    rw [h1 (.assign k) ((Hooi.mem_nodes ..).2 hk'), hassign k hk']

/-- No execution of the HOOI graph gets stuck. -/
theorem C60_hooi_completes (svd : Tensor ℝ → Res (Tensor ℝ × Tensor ℝ × Tensor ℝ)) (X : Tensor ℝ) (ranks : List Nat)
    (vars : Nat → Tensor ℝ) (hrk : ranks.length = X.order) (c : Cfg Hooi.Op Nat (Tensor ℝ))
    (hr : Reaches (Hooi.build svd X ranks) vars c) :
    ∃ c', Relation.ReflTransGen (Step (Hooi.build svd X ranks)) c c' ∧ Complete (Hooi.build svd X ranks) c' := by
  refine complete_exists (fun n => match n with
    | .use k _ => 3 * k
    | .left k => 3 * k + 1
    | .assign k => 3 * k + 2
    | .core => 3 * X.order + 3
    | .full => 3 * X.order + 4) ?_ c hr
  intro n hn m hm
  have hA : HooiShapes X ranks (List.zipWith (fun d r => Tensor.ofFn [d, r] fun _ => 0) X.shape ranks) := by
    simp only [HooiShapes, List.map_zipWith]
    rfl
  refine ⟨((hA.den (svd := svd) hrk).2).closed n hn m hm, ?_⟩
  cases n <;> simp only [Hooi.build, List.mem_append, List.mem_map, mem_prev, mem_others, List.mem_cons, List.mem_range,
    List.not_mem_nil, or_false] at hm
  · obtain ⟨h1, rfl⟩ := hm; simp only; omega
  · rcases hm with ⟨i, h1, rfl⟩ | ⟨h1, rfl⟩ <;> simp only <;> omega
  · subst hm; simp only; omega
  · obtain ⟨i, h1, rfl⟩ := hm; simp only; omega
  · rcases hm with rfl | ⟨i, h1, rfl⟩ <;> simp only <;> omega

/-! ### `NCP_BCU` and `NTUCKER_BCU` -/

/-- Complete runs of the main graph, for either class. -/
theorem bcu_schedule {topSv : Tensor ℝ → Res ℝ} {K : Bcu.Kind} {g : Tensor ℝ} {st : bcu.State}
    {vars : Bcu.Var → Tensor ℝ} (hl : st.A.length = K.N) (hlm : st.Am.length = K.N)
    (hvars : ∀ v, v ≠ .g → v ≠ .g0 → v ≠ .gm → vars v = Bcu.vars st v)
    (hs : ∀ i < K.N, (facVars st.A i).shape = K.shape i) (hg : g = if K.core then vars .g else Bcu.num 0)
    {c : Cfg Bcu.Op Bcu.Var (Tensor ℝ)}
    (hr : Reaches (Bcu.build topSv K) vars c) (hc : Complete (Bcu.build topSv K) c) :
    c.done .full = some ((steps (K.update topSv g) st K.N).bind fun s => (K.fullOf g s.A).toOption) ∧
    (steps (K.update topSv g) st K.N = none → Failed (Bcu.build topSv K) c) ∧
    ∀ s, steps (K.update topSv g) st K.N = some s →
      (∀ v, v ≠ .g → v ≠ .g0 → v ≠ .gm → c.vars v = Bcu.vars (bcu.tUpdate s) v) ∧
      (c.vars .g = vars .g ∧ c.vars .g0 = vars .g0 ∧ c.vars .gm = vars .gm) ∧
      s.A.length = K.N ∧ (∀ k < K.N, c.done (.assign k) = some s.A[k]?) ∧
      ((K.fullOf g s.A).toOption ≠ none → ¬ Failed (Bcu.build topSv K) c) := by
  have hA : ∀ i, vars (.A i) = facVars st.A i := fun i => hvars (.A i) (by simp) (by simp) (by simp)
  have hAm : ∀ i, vars (.Am i) = facVars st.Am i := fun i => hvars (.Am i) (by simp) (by simp) (by simp)
  have hL : ∀ i, vars (.L i) = Bcu.num (st.L i) := fun i => hvars (.L i) (by simp) (by simp) (by simp)
  have ht0 : vars .t0 = Bcu.num st.t0 := hvars .t0 (by simp) (by simp) (by simp)
  have D : Den (Bcu.build topSv K) vars (Bcu.den topSv K g st vars) (Bcu.seen topSv K g st vars) :=
    Bcu.isDen hl (fun i hi => by rw [hA]; exact facVars_get (by omega)) (fun i hi => by rw [hA]; exact hs i hi)
      (fun i hi => by rw [hAm]; exact facVars_get (by omega)) hg
  obtain ⟨h1, h2, h3⟩ := complete_den D hr hc
  have hloc := Bcu.update_local topSv K g
  have hfull := h1 .full ((Bcu.mem_nodes ..).2 trivial)
  refine ⟨by rw [hfull, Bcu.den], ?_, ?_⟩
  · intro hnone
    exact ⟨.full, (Bcu.mem_nodes ..).2 trivial, by rw [hfull, Bcu.den, hnone]; rfl⟩
  intro s hst
  have hlen : s.A.length = K.N := by simpa [hl] using hloc.length hst
  obtain ⟨e1, e2, e3, e4, e5, e6, e7⟩ := Bcu.update_rest vars hst
  have hassign : ∀ k < K.N, Bcu.den topSv K g st vars (.assign k) = s.A[k]? := by
    intro k hk
    obtain ⟨s', f1, f2⟩ := hloc.earlier hst k hk
    rw [Bcu.den, facAt, f1]
    exact f2
  have hkeep : ∀ v, (∀ w, Bcu.Runs K w → (Bcu.build topSv K).writes w ≠ some v) → c.vars v = vars v :=
    fun v h => h3 v fun w hw => h w ((Bcu.mem_nodes ..).1 hw)
  have hg' : c.vars .g = vars .g ∧ c.vars .g0 = vars .g0 ∧ c.vars .gm = vars .gm := by
    refine ⟨hkeep _ ?_, hkeep _ ?_, hkeep _ ?_⟩ <;>
      (intro w _ hw; cases w <;> simp [Bcu.build] at hw)
  refine ⟨?_, hg', hlen, ?_, ?_⟩
  · intro v hv1 hv2 hv3
    cases v with
    | A i =>
        by_cases hi : i < K.N
        · have hi' : i < s.A.length := by omega
          have e : s.A[i]? = some (s.A[i]) := List.getElem?_eq_getElem hi'
          rw [h2 (.assign i) ((Bcu.mem_nodes ..).2 hi) (.A i) (s.A[i]) rfl (by rw [hassign i hi, e])]
          have := facVars_get hi'
          rw [e] at this
          simpa [Bcu.vars, bcu.tUpdate] using this
        · rw [hkeep (.A i) (by
            intro w hw hwv
            cases w <;> simp only [Bcu.build, reduceCtorEq, Option.some.injEq, Bcu.Var.A.injEq] at hwv
            subst hwv
            exact hi hw), hA]
          have f1 : s.A[i]? = none := by rw [List.getElem?_eq_none_iff]; omega
          have f2 : st.A[i]? = none := by rw [List.getElem?_eq_none_iff]; omega
          simp [Bcu.vars, bcu.tUpdate, facVars, List.getD_eq_getElem?_getD, f1, f2]
    | A0 i =>
        rw [hkeep (.A0 i) (by intro w _ hw; cases w <;> simp [Bcu.build] at hw), hvars _ (by simp) (by simp) (by simp)]
        simp [Bcu.vars, bcu.tUpdate, e2]
    | Am i =>
        rw [hkeep (.Am i) (by intro w _ hw; cases w <;> simp [Bcu.build] at hw), hAm]
        simp [Bcu.vars, bcu.tUpdate, e1]
    | wA i =>
        rw [hkeep (.wA i) (by intro w _ hw; cases w <;> simp [Bcu.build] at hw), hvars _ (by simp) (by simp) (by simp)]
        simp [Bcu.vars, bcu.tUpdate, e3]
    | t0 =>
        rw [hkeep .t0 (by intro w _ hw; cases w <;> simp [Bcu.build] at hw), ht0]
        simp [Bcu.vars, bcu.tUpdate, e5]
    | t =>
        rw [h2 .tupd ((Bcu.mem_nodes ..).2 trivial) .t _ rfl rfl]
        simp [Bcu.vars, bcu.tUpdate, e5, ht0, Bcu.the_num]
    | L i =>
        by_cases hi : i < K.N
        · rw [h2 (.l i) ((Bcu.mem_nodes ..).2 hi) (.L i) _ rfl (e6 i hi).1]
          simp [Bcu.vars, bcu.tUpdate]
        · rw [hkeep (.L i) (by
            intro w hw hwv
            cases w <;> simp only [Bcu.build, reduceCtorEq, Option.some.injEq, Bcu.Var.L.injEq] at hwv
            subst hwv
            exact hi hw), hL]
          simp [Bcu.vars, bcu.tUpdate, (e7 i (by omega)).1]
    | L0 i =>
        by_cases hi : i < K.N
        · rw [h2 (.l0 i) ((Bcu.mem_nodes ..).2 hi) (.L0 i) _ rfl rfl, hL]
          simp [Bcu.vars, bcu.tUpdate, (e6 i hi).2]
        · rw [hkeep (.L0 i) (by
            intro w hw hwv
            cases w <;> simp only [Bcu.build, reduceCtorEq, Option.some.injEq, Bcu.Var.L0.injEq] at hwv
            subst hwv
            exact hi hw), hvars _ (by simp) (by simp) (by simp)]
          simp [Bcu.vars, bcu.tUpdate, (e7 i (by omega)).2]
    | g => exact absurd rfl hv1
    | g0 => exact absurd rfl hv2
    | gm => exact absurd rfl hv3
  · intro k hk
    rw [h1 (.assign k) ((Bcu.mem_nodes ..).2 hk), hassign k hk]
  · intro hok
    rintro ⟨n, hn, hx⟩
    rw [h1 n hn] at hx
    simp only [Option.some.injEq] at hx
    have hst' : ∀ k < K.N, ∃ t, steps (K.update topSv g) st k = some t := by
      intro k hk
      cases h : steps (K.update topSv g) st k with
      | some t => exact ⟨t, rfl⟩
      | none => rw [steps_le (by omega) h] at hst; cases hst
    have : Bcu.den topSv K g st vars .full = none ∨
        ∃ k, k < K.N ∧ Bcu.den topSv K g st vars (.assign k) = none := by
      have hn' := (Bcu.mem_nodes ..).1 hn
      have hgrad : ∀ k < K.N, Bcu.den topSv K g st vars (.grad k) = none →
          ∃ k, k < K.N ∧ Bcu.den topSv K g st vars (.assign k) = none := fun k hk h =>
        ⟨k, hk, D.strict_before (a := .grad k) (.single (by simp [Bcu.build])) ((Bcu.mem_nodes ..).2 hk) h⟩
      have hl' : ∀ k < K.N, Bcu.den topSv K g st vars (.l k) = none →
          ∃ k, k < K.N ∧ Bcu.den topSv K g st vars (.assign k) = none := fun k hk h =>
        ⟨k, hk, D.strict_before (a := .l k) (.single (by simp [Bcu.build])) ((Bcu.mem_nodes ..).2 hk) h⟩
      cases n with
      | gram k i =>
          exact .inr ⟨k, hn'.2.1, D.strict_before (Bcu.before_gram hn'.1 hn'.2.2.1 hn'.2.2.2) ((Bcu.mem_nodes ..).2 hn'.2.1) hx⟩
      | use k i => exact .inr ⟨k, hn'.1, D.strict_before (Bcu.before_use hn'.2.1 hn'.2.2) ((Bcu.mem_nodes ..).2 hn'.1) hx⟩
      | core k =>
          obtain ⟨t, ht⟩ := hst' k hn'.2
          simp [Bcu.den, ht] at hx
      | b k =>
          refine .inr (hgrad k hn' (D.strict _ ((Bcu.mem_nodes ..).2 hn') (.xa k) (by simp [Bcu.build])
            (D.strict _ ((Bcu.mem_nodes ..).2 hn') (.b k) (by simp [Bcu.build]) hx)))
      | xa k => exact .inr (hgrad k hn' (D.strict _ ((Bcu.mem_nodes ..).2 hn') (.xa k) (by simp [Bcu.build]) hx))
      | v k => exact .inr (hgrad k hn' (D.strict _ ((Bcu.mem_nodes ..).2 hn') (.v k) (by simp [Bcu.build]) hx))
      | sv k => exact .inr (hl' k hn' (D.strict _ ((Bcu.mem_nodes ..).2 hn') (.sv k) (by simp [Bcu.build]) hx))
      | l0 k => simp [Bcu.den] at hx
      | l k => exact .inr (hl' k hn' hx)
      | grad k => exact .inr (hgrad k hn' hx)
      | assign k => exact .inr ⟨k, hn', hx⟩
      | full => exact .inl hx
      | tupd => simp [Bcu.den] at hx
    rcases this with h | ⟨k, hk, h⟩
    · rw [Bcu.den, hst] at h
      exact hok h
    · rw [hassign k hk, List.getElem?_eq_none_iff] at h
      omega

/-- The shapes of the variables of `NCP_BCU` (`ncp.py:74-84`). -/
structure NcpShapes (X : Tensor ℝ) (rank : Nat) (st : bcu.State) : Prop where
  A : st.A.map Tensor.shape = X.shape.map fun d => [d, rank]
  Am : st.Am.map Tensor.shape = X.shape.map fun d => [d, rank]

/-- **C60** for the main run of `NCP_BCU` (`ncp.py:201-211`): factors, Lipschitz constants, step weights and the
full tensor are those of the mode by mode sweep under every schedule. -/
theorem C60_ncp_schedule (topSv : Tensor ℝ → Res ℝ) (X : Tensor ℝ) (rank : Nat) (st : bcu.State)
    (hS : NcpShapes X rank st) (c : Cfg Bcu.Op Bcu.Var (Tensor ℝ))
    (hr : Reaches (Bcu.build topSv (Bcu.ncp X rank)) (Bcu.vars st) c)
    (hc : Complete (Bcu.build topSv (Bcu.ncp X rank)) c) :
    match bcu.NCP.main topSv X st with
    | .ok (st', out) => Agrees c.vars (Bcu.vars st') (fun k => c.done (.assign k)) (c.done .full) out.factors out.full ∧
        ¬ Failed (Bcu.build topSv (Bcu.ncp X rank)) c
    | .error _ => Failed (Bcu.build topSv (Bcu.ncp X rank)) c ∨
        ∃ full, c.done .full = some (some full) ∧ (cp.scalars X full).toOption = none := by
  have hl : st.A.length = X.order := by simpa [Tensor.order] using congrArg List.length hS.A
  have hlm : st.Am.length = X.order := by simpa [Tensor.order] using congrArg List.length hS.Am
  have hshape : ∀ i < X.order, (facVars st.A i).shape = [X.shape.getD i 0, rank] := by
    intro i hi
    rw [facVars_shape hS.A (by omega)]
    have : i < X.shape.length := hi
    simp [List.getD_eq_getElem?_getD, this]
  obtain ⟨hfull, hfail, hok⟩ := bcu_schedule (topSv := topSv) (K := Bcu.ncp X rank) (g := Bcu.num 0) (st := st)
    (vars := Bcu.vars st) hl hlm (fun _ _ _ _ => rfl) hshape rfl hr hc
  have hcongr : ((List.range X.order).foldlM (bcu.NCP.modeUpdate topSv X) st).toOption =
      steps ((Bcu.ncp X rank).update topSv (Bcu.num 0)) st X.order := by
    symm
    refine Bcu.steps_congr (Bcu.update_local topSv (Bcu.ncp X rank) (Bcu.num 0)) ?_ X.order (le_of_eq hl.symm)
    intro s k hsh _
    refine (Bcu.ncp_update topSv X (Bcu.num 0) rank s k ?_).symm
    intro a ha
    have : a.shape ∈ s.A.map Tensor.shape := List.mem_map_of_mem ha
    rw [hsh, hS.A, List.mem_map] at this
    obtain ⟨d, _, e⟩ := this
    rw [← e]; rfl
  have hN : (Bcu.ncp X rank).N = X.order := rfl
  rw [hN] at hfull hfail hok
  unfold bcu.NCP.main
  cases hs : (List.range X.order).foldlM (bcu.NCP.modeUpdate topSv X) st with
  | error e =>
      rw [hs] at hcongr
      exact .inl (hfail hcongr.symm)
  | ok s =>
  rw [hs] at hcongr
  simp only [toOption_ok] at hcongr
  obtain ⟨hv, hg, hlen, hassign, hnf⟩ := hok s hcongr.symm
  rw [← hcongr] at hfull
  simp only [Option.bind_some, Bcu.ncp] at hfull hnf
  simp only [ok_bind]
  cases hf : bcu.NCP.fullOf s.A with
  | error e =>
      left
      exact ⟨.full, (Bcu.mem_nodes ..).2 trivial, by rw [hfull, hf]; rfl⟩
  | ok full =>
  rw [hf] at hfull hnf
  simp only [ok_bind]
  cases hq : cp.scalars X full with
  | error e =>
      right
      exact ⟨full, hfull, by rw [hq]; rfl⟩
  | ok q =>
  obtain ⟨l, obj, rel⟩ := q
  refine ⟨⟨?_, fun k hk => hassign k (lt_of_lt_of_eq hk hlen), hfull⟩, hnf (by simp)⟩
  funext v
  by_cases h1 : v = .g
  · subst h1; rw [hg.1]; rfl
  by_cases h2 : v = .g0
  · subst h2; rw [hg.2.1]; rfl
  by_cases h3 : v = .gm
  · subst h3; rw [hg.2.2]; rfl
  exact hv v h1 h2 h3

/-- The shapes of the variables of `NTUCKER_BCU` (`ntucker.py:75-107`). -/
structure NtuckerShapes (X : Tensor ℝ) (ranks : List Nat) (st : bcu.TState) : Prop where
  A : st.A.map Tensor.shape = List.zipWith (fun d r => [d, r]) X.shape ranks
  Am : st.Am.map Tensor.shape = List.zipWith (fun d r => [d, r]) X.shape ranks
  g : st.g.shape = ranks

/-- **C60** for the main run of `NTUCKER_BCU` (`ntucker.py:236-246`). -/
theorem C60_ntucker_schedule (topSv : Tensor ℝ → Res ℝ) (X : Tensor ℝ) (ranks : List Nat) (st : bcu.TState)
    (hrk : ranks.length = X.order) (hS : NtuckerShapes X ranks st) (c : Cfg Bcu.Op Bcu.Var (Tensor ℝ))
    (hr : Reaches (Bcu.build topSv (Bcu.ntucker X ranks)) (Bcu.tvars st) c)
    (hc : Complete (Bcu.build topSv (Bcu.ntucker X ranks)) c) :
    match bcu.NTUCKER.main topSv X st with
    | .ok (st', out) => Agrees c.vars (Bcu.tvars st') (fun k => c.done (.assign k)) (c.done .full) out.factors out.full ∧
        ¬ Failed (Bcu.build topSv (Bcu.ntucker X ranks)) c
    | .error _ => Failed (Bcu.build topSv (Bcu.ntucker X ranks)) c ∨
        ∃ full, c.done .full = some (some full) ∧ (cp.scalars X full).toOption = none := by
  have hz : (List.zipWith (fun d r => [d, r]) X.shape ranks).length = X.order := by
    simp only [Tensor.order, List.length_zipWith] at hrk ⊢
    omega
  have hl : st.A.length = X.order := by
    have := congrArg List.length hS.A
    rw [hz] at this
    simpa using this
  have hlm : st.Am.length = X.order := by
    have := congrArg List.length hS.Am
    rw [hz] at this
    simpa using this
  have hshape : ∀ i < X.order, (facVars st.A i).shape = [X.shape.getD i 0, ranks.getD i 0] := by
    intro i hi
    rw [facVars_shape hS.A (by omega)]
    have h1 : i < X.shape.length := hi
    have h2 : i < ranks.length := by omega
    simp [List.getD_eq_getElem?_getD, h1, h2]
  obtain ⟨hfull, hfail, hok⟩ := bcu_schedule (topSv := topSv) (K := Bcu.ntucker X ranks) (g := st.g) (st := st.toState)
    (vars := Bcu.tvars st) hl hlm (fun v h1 h2 h3 => by cases v <;> first | rfl | contradiction) hshape rfl hr hc
  have hcongr : ((List.range X.order).foldlM (bcu.NTUCKER.modeUpdate topSv X st.g) st.toState).toOption =
      steps ((Bcu.ntucker X ranks).update topSv st.g) st.toState X.order := by
    symm
    refine Bcu.steps_congr (Bcu.update_local topSv (Bcu.ntucker X ranks) st.g) ?_ X.order (le_of_eq hl.symm)
    intro s k hsh _
    refine (Bcu.ntucker_update topSv X st.g ranks s k ?_ ?_).symm
    · rw [Tensor.order, hS.g, hrk]
    · have := congrArg List.length hsh
      simp only [List.length_map] at this
      rw [this, hl]
  have hN : (Bcu.ntucker X ranks).N = X.order := rfl
  rw [hN] at hfull hfail hok
  unfold bcu.NTUCKER.main
  cases hs : (List.range X.order).foldlM (bcu.NTUCKER.modeUpdate topSv X st.g) st.toState with
  | error e =>
      rw [hs] at hcongr
      exact .inl (hfail hcongr.symm)
  | ok s =>
  rw [hs] at hcongr
  simp only [toOption_ok] at hcongr
  obtain ⟨hv, hg, hlen, hassign, hnf⟩ := hok s hcongr.symm
  rw [← hcongr] at hfull
  simp only [Option.bind_some, Bcu.ntucker] at hfull hnf
  simp only [ok_bind]
  cases hf : bcu.NTUCKER.fullOf st.g s.A with
  | error e =>
      left
      exact ⟨.full, (Bcu.mem_nodes ..).2 trivial, by rw [hfull, hf]; rfl⟩
  | ok full =>
  rw [hf] at hfull hnf
  simp only [ok_bind]
  cases hq : cp.scalars X full with
  | error e =>
      right
      exact ⟨full, hfull, by rw [hq]; rfl⟩
  | ok q =>
  obtain ⟨l, obj, rel⟩ := q
  refine ⟨⟨?_, fun k hk => hassign k (lt_of_lt_of_eq hk hlen), hfull⟩, hnf (by simp)⟩
  funext v
  by_cases h1 : v = .g
  · subst h1; rw [hg.1]; rfl
  by_cases h2 : v = .g0
  · subst h2; rw [hg.2.1]; rfl
  by_cases h3 : v = .gm
  · subst h3; rw [hg.2.2]; rfl
  rw [hv v h1 h2 h3]
  cases v <;> first | rfl | contradiction

/-- No execution of the main graph of `NCP_BCU` or `NTUCKER_BCU` gets stuck. -/
theorem C60_bcu_completes (topSv : Tensor ℝ → Res ℝ) (K : Bcu.Kind) (vars : Bcu.Var → Tensor ℝ)
    (c : Cfg Bcu.Op Bcu.Var (Tensor ℝ)) (hr : Reaches (Bcu.build topSv K) vars c) :
    ∃ c', Relation.ReflTransGen (Step (Bcu.build topSv K)) c c' ∧ Complete (Bcu.build topSv K) c' := by
  refine complete_exists (fun n => match n with
    | .gram k _ => 8 * k + 1
    | .use k _ => 8 * k + 1
    | .core k => 8 * k + 1
    | .b k => 8 * k + 2
    | .xa k => 8 * k + 3
    | .v k => 8 * k + 3
    | .sv k => 8 * k + 4
    | .l0 _ => 0
    | .l k => 8 * k + 5
    | .grad k => 8 * k + 5
    | .assign k => 8 * k + 6
    | .full => 8 * K.N + 8
    | .tupd => 0) ?_ c hr
  intro n hn m hm
  rw [Bcu.mem_nodes] at hn ⊢
  cases n <;> simp only [Bcu.build, List.mem_append, List.mem_map, mem_prev, mem_others, List.mem_cons, List.mem_range,
    List.not_mem_nil, or_false] at hm
  all_goals simp only [Bcu.Runs] at hn
  case gram => obtain ⟨h1, rfl⟩ := hm; simp only [Bcu.Runs]; omega
  case use => obtain ⟨h1, rfl⟩ := hm; simp only [Bcu.Runs]; omega
  case core => obtain ⟨h1, rfl⟩ := hm; simp only [Bcu.Runs]; omega
  case b k =>
    rcases hm with (⟨i, h1, rfl⟩ | hm) | ⟨h1, rfl⟩
    · simp only [Bcu.Runs]; omega
    · split_ifs at hm with h
      · simp only [List.mem_singleton] at hm
        subst hm
        exact ⟨⟨h, hn⟩, by simp only; omega⟩
      · cases hm
    · simp only [Bcu.Runs]; omega
  case v k =>
    split_ifs at hm with h
    · simp only [List.mem_map, mem_others] at hm
      obtain ⟨i, h1, rfl⟩ := hm
      exact ⟨⟨h, hn, h1.1, h1.2⟩, by simp only; omega⟩
    · simp only [List.mem_singleton] at hm
      subst hm
      exact ⟨hn, by simp only; omega⟩
  case xa => subst hm; exact ⟨hn, by simp only; omega⟩
  case sv => subst hm; exact ⟨hn, by simp only; omega⟩
  case l => rcases hm with rfl | rfl <;> exact ⟨hn, by simp only; omega⟩
  case grad => rcases hm with rfl | rfl <;> exact ⟨hn, by simp only; omega⟩
  case assign => rcases hm with rfl | rfl <;> exact ⟨hn, by simp only; omega⟩
  case full => obtain ⟨i, h1, rfl⟩ := hm; exact ⟨h1, by simp only; omega⟩

/-- The hypotheses of C60 are met by every initial point, and complete executions exist. -/
example (pinv : Tensor ℝ → Res (Tensor ℝ)) : ∃ (X : Tensor ℝ) (A : List (Tensor ℝ)) (c : Cfg Cp.Op Nat (Tensor ℝ)),
    X.shape = [2, 3] ∧ CpShapes X 2 A ∧ Reaches (Cp.build pinv X 2) (facVars A) c ∧ Complete (Cp.build pinv X 2) c := by
  let X : Tensor ℝ := Tensor.ofFn [2, 3] fun _ => 1
  let A : List (Tensor ℝ) := [Tensor.ofFn [2, 2] fun _ => 1, Tensor.ofFn [3, 2] fun _ => 1]
  have hA : CpShapes X 2 A := rfl
  obtain ⟨c, h1, h2⟩ := C60_cp_completes pinv X 2 (facVars A) (by decide) _ .refl
  exact ⟨X, A, c, rfl, hA, h1, h2⟩

example (topSv : Tensor ℝ → Res ℝ) : ∃ (X : Tensor ℝ) (st : bcu.State) (c : Cfg Bcu.Op Bcu.Var (Tensor ℝ)),
    X.shape = [2, 3] ∧ NcpShapes X 2 st ∧ Reaches (Bcu.build topSv (Bcu.ncp X 2)) (Bcu.vars st) c ∧
      Complete (Bcu.build topSv (Bcu.ncp X 2)) c := by
  let X : Tensor ℝ := Tensor.ofFn [2, 3] fun _ => 1
  let A : List (Tensor ℝ) := [Tensor.ofFn [2, 2] fun _ => 1, Tensor.ofFn [3, 2] fun _ => 1]
  let st : bcu.State := ⟨A, A, A, fun _ => 1, fun _ => 1, fun _ => 1, 1, 1⟩
  obtain ⟨c, h1, h2⟩ := C60_bcu_completes topSv (Bcu.ncp X 2) (Bcu.vars st) _ .refl
  exact ⟨X, st, c, rfl, ⟨rfl, rfl⟩, h1, h2⟩

example (topSv : Tensor ℝ → Res ℝ) : ∃ (X : Tensor ℝ) (st : bcu.TState) (c : Cfg Bcu.Op Bcu.Var (Tensor ℝ)),
    X.shape = [2, 3] ∧ NtuckerShapes X [2, 1] st ∧ Reaches (Bcu.build topSv (Bcu.ntucker X [2, 1])) (Bcu.tvars st) c ∧
      Complete (Bcu.build topSv (Bcu.ntucker X [2, 1])) c := by
  let X : Tensor ℝ := Tensor.ofFn [2, 3] fun _ => 1
  let A : List (Tensor ℝ) := [Tensor.ofFn [2, 2] fun _ => 1, Tensor.ofFn [3, 1] fun _ => 1]
  let g : Tensor ℝ := Tensor.ofFn [2, 1] fun _ => 1
  let st : bcu.TState := { toState := ⟨A, A, A, fun _ => 1, fun _ => 1, fun _ => 1, 1, 1⟩, g := g, g0 := g, gm := g }
  obtain ⟨c, h1, h2⟩ := C60_bcu_completes topSv (Bcu.ntucker X [2, 1]) (Bcu.tvars st) _ .refl
  exact ⟨X, st, c, rfl, ⟨rfl, rfl, rfl⟩, h1, h2⟩

example (svd : Tensor ℝ → Res (Tensor ℝ × Tensor ℝ × Tensor ℝ)) :
    ∃ (X : Tensor ℝ) (A : List (Tensor ℝ)) (c : Cfg Hooi.Op Nat (Tensor ℝ)), X.shape = [2, 3] ∧ HooiShapes X [2, 1] A ∧
      Reaches (Hooi.build svd X [2, 1]) (facVars A) c ∧ Complete (Hooi.build svd X [2, 1]) c := by
  let X : Tensor ℝ := Tensor.ofFn [2, 3] fun _ => 1
  let A : List (Tensor ℝ) := [Tensor.ofFn [2, 2] fun _ => 1, Tensor.ofFn [3, 1] fun _ => 1]
  have hA : HooiShapes X [2, 1] A := rfl
  obtain ⟨c, h1, h2⟩ := C60_hooi_completes svd X [2, 1] (facVars A) rfl _ .refl
  exact ⟨X, A, c, rfl, hA, h1, h2⟩

/-! ### Reads by snapshot -/

/-- Start and finish operations one after another, if the executor may. -/
def serial {ι ν β : Type} [DecidableEq ι] [DecidableEq ν] (G : Graph ι ν β) (c : Cfg ι ν β) : List ι → Option (Cfg ι ν β)
  | [] => some c
  | n :: ns =>
      if n ∈ G.nodes ∧ (c.started n).isNone ∧ (c.done n).isNone ∧ ∀ m ∈ G.deps n, (c.done m).isSome then
        let d := c.result G n
        serial G ⟨store c.vars (G.writes n) d, Function.update c.started n (some d), Function.update c.done n (some d)⟩ ns
      else none

theorem serial_steps {ι ν β : Type} [DecidableEq ι] [DecidableEq ν] {G : Graph ι ν β} (ns : List ι) :
    ∀ {c c' : Cfg ι ν β}, serial G c ns = some c' → Relation.ReflTransGen (Step G) c c' := by
  induction ns with
  | nil => intro c c' h; cases h; exact .refl
  | cons n ns ih =>
      intro c c' h
      rw [serial] at h
      split_ifs at h with hc
      obtain ⟨h1, h2, h3, h4⟩ := hc
      refine .head (.start c n h1 (by simpa using h2) h4) (.head (.finish _ n (c.result G n) (by simp) (by simpa using h3)) ?_)
      exact ih h

/-- Pseudoinverse of a one by one matrix. -/
def racePinv (t : Tensor ℚ) : Res (Tensor ℚ) := .ok (tf.map (fun x => 1 / x) t)

/-- The matrix `[[1, 0], [0, 2]]`, to be factorized with rank one. -/
def raceX : Tensor ℚ := ⟨[2, 2], [1, 0, 0, 2], rfl⟩

/-- The initial factors. -/
def raceA : List (Tensor ℚ) := [⟨[2, 1], [1, 1], rfl⟩, ⟨[2, 1], [1, 1], rfl⟩]

/-- Operations of mode `k` in order. -/
def raceMode (k : Nat) : List (Cp.Op ⊕ Nat) :=
  [.gram k (1 - k), .kr k (1 - k), .xa k, .v k, .nn k, .lam k, .assign k].map .inl

/-- **C80** With variables read by snapshot, the result of a sweep of `CP_ALS` depends on the schedule: if `A[0]` is
read before it is assigned, mode 1 uses the old factor. -/
theorem C80_snapshot_race : ∃ c c' : Cfg (Cp.Op ⊕ Nat) Nat (Tensor ℚ),
    (Reaches (Cp.build racePinv raceX 1).snapshot (facVars raceA) c ∧ Complete (Cp.build racePinv raceX 1).snapshot c) ∧
    (Reaches (Cp.build racePinv raceX 1).snapshot (facVars raceA) c' ∧ Complete (Cp.build racePinv raceX 1).snapshot c') ∧
    (c.vars 1).data = [1/4, 1] ∧ (c'.vars 1).data = [1/2, 1] := by
  have h1 : (serial (Cp.build racePinv raceX 1).snapshot (Cfg.init (facVars raceA))
      ([.inr 1] ++ raceMode 0 ++ [.inr 0] ++ raceMode 1 ++ [.inl .full])).any (fun c =>
        (Cp.build racePinv raceX 1).snapshot.nodes.all (fun n => (c.done n).isSome) && (c.vars 1).data == [1/4, 1]) = true := by
    decide +kernel
  have h2 : (serial (Cp.build racePinv raceX 1).snapshot (Cfg.init (facVars raceA))
      ([.inr 0, .inr 1] ++ raceMode 0 ++ raceMode 1 ++ [.inl .full])).any (fun c =>
        (Cp.build racePinv raceX 1).snapshot.nodes.all (fun n => (c.done n).isSome) && (c.vars 1).data == [1/2, 1]) = true := by
    decide +kernel
  obtain ⟨c, e1, f1⟩ := (Option.any_eq_true _ _).1 h1
  obtain ⟨c', e2, f2⟩ := (Option.any_eq_true _ _).1 h2
  simp only [Bool.and_eq_true, List.all_eq_true, beq_iff_eq] at f1 f2
  exact ⟨c, c', ⟨serial_steps _ e1, f1.1⟩, ⟨serial_steps _ e2, f2.1⟩, f1.2, f2.2⟩

end TD.Props
