import Verif.Props.Runs
import Verif.Lemmas.TrainSim
import Verif.Lemmas.Ncp
import Verif.Lemmas.NTuckerRun

/-!
# C93: training does not depend on the schedule
-/
namespace TD.Props
open TD Tensor graph fact bcu

theorem fetchMain_some {ι ν : Type} {X : Tensor ℝ} {assign : Nat → ι} {full : ι}
    {aux : Cfg ι ν (Tensor ℝ) → Option (Option (Tensor ℝ))} {c : Cfg ι ν (Tensor ℝ)} {v : ν → Tensor ℝ}
    {o : Out (List (Tensor ℝ)) (Tensor ℝ) (Tensor ℝ) ℝ} (hl : o.factors.length = X.order)
    (h : Agrees c.vars v (fun k => c.done (assign k)) (c.done full) o.factors o.full) (ha : aux c = some o.aux)
    (hs : cp.scalars X o.full = .ok (o.loss, o.obj, o.rel)) : fetchMain X assign full aux c = some o := by
  have hF : (List.range X.order).mapM (fun k => c.val (assign k)) = some o.factors := by
    rw [← hl, ← mapM_range_get o.factors]
    refine mapM_congr' fun k hk => ?_
    have := h.factors k (List.mem_range.1 hk)
    simp only [Cfg.val, this, Option.join_some]
  unfold fetchMain
  rw [hF]
  simp only [Option.bind_eq_bind, Option.bind_some, ha, Cfg.val, h.full, Option.join_some, hs, toOption_ok]
  rfl

theorem fetchMain_none {ι ν : Type} {X Y : Tensor ℝ} {assign : Nat → ι} {full : ι}
    {aux : Cfg ι ν (Tensor ℝ) → Option (Option (Tensor ℝ))} {c : Cfg ι ν (Tensor ℝ)}
    (h : c.done full = some (some Y)) (hs : (cp.scalars X Y).toOption = none) : fetchMain X assign full aux c = none := by
  unfold fetchMain
  simp only [Option.bind_eq_bind, Cfg.val, h, Option.join_some, Option.bind_some, hs, Option.bind_none, Option.bind_fun_none]

/-- Runs that fetch nothing, as `Outcome.same`. -/
theorem sameOp_of {ι ν β Ω T : Type} [DecidableEq ι] [DecidableEq ν] {G : Graph ι ν β} {enc : T → ν → β}
    {run : (ν → β) × Ω → Res ((ν → β) × Ω)} (hrun : SchedulesOp G run) {Good : T → Prop} (x : ν → β) (ω : Ω) {seq : Res T}
    (hcomp : ∀ c, Reaches G x c → ∃ c', Relation.ReflTransGen (Step G) c c' ∧ Complete G c')
    (hok : ∀ t, seq = .ok t → ∀ c, Reaches G x c → Complete G c → c.vars = enc t ∧ ¬ Failed G c)
    (herr : ∀ e, seq = .error e → ∀ c, Reaches G x c → Complete G c → Failed G c)
    (hgood : ∀ t, seq = .ok t → Good t) :
    SameOp (fun (s : (ν → β) × Ω) t => s.1 = enc t ∧ Good t) (run (x, ω)) seq := by
  have H : SameRun (fun x' t => x' = enc t) (forget ((run (x, ω)).map fun s' => (s', ()))) (seq.map fun t => (t, ())) := by
    refine (hrun x ω).same hcomp ?_ ?_
    · intro t o he c hr hc
      cases seq with
      | error e => cases he
      | ok q =>
          have : q = t := congrArg Prod.fst (Except.ok.inj he)
          subst this
          obtain ⟨h1, h2⟩ := hok q rfl c hr hc
          exact ⟨h1, rfl, h2⟩
    · intro e he c hr hc
      cases seq with
      | ok q => cases he
      | error e' => exact Or.inl (herr e' rfl c hr hc)
  · revert H
    cases run (x, ω) with
    | error e =>
        cases seq with
        | error e' => intro _; trivial
        | ok q => intro h; exact h.elim
    | ok p =>
        cases seq with
        | error e' => intro h; exact h.elim
        | ok q =>
            rintro ⟨h1, -⟩
            exact ⟨h1, hgood q rfl⟩

/-- The same for runs that fetch values. -/
theorem same_of {ι ν β γ Ω T : Type} [DecidableEq ι] [DecidableEq ν] {G : Graph ι ν β} {enc : T → ν → β}
    {fetch : Cfg ι ν β → Option γ} {run : (ν → β) × Ω → Res (((ν → β) × Ω) × γ)} (hrun : Schedules G fetch run)
    {Good : T → Prop} (x : ν → β) (ω : Ω) {seq : Res (T × γ)}
    (hcomp : ∀ c, Reaches G x c → ∃ c', Relation.ReflTransGen (Step G) c c' ∧ Complete G c')
    (hok : ∀ t o, seq = .ok (t, o) → ∀ c, Reaches G x c → Complete G c → c.vars = enc t ∧ fetch c = some o ∧ ¬ Failed G c)
    (herr : ∀ e, seq = .error e → ∀ c, Reaches G x c → Complete G c → Failed G c ∨ fetch c = none)
    (hgood : ∀ t o, seq = .ok (t, o) → Good t) :
    SameRun (fun (s : (ν → β) × Ω) t => s.1 = enc t ∧ Good t) (run (x, ω)) seq := by
  have H := (hrun x ω).same (enc := enc) (seq := seq) hcomp hok herr
  revert H
  cases run (x, ω) with
  | error e =>
      cases seq with
      | error e' => intro _; trivial
      | ok q => intro h; exact h.elim
  | ok p =>
      cases seq with
      | error e' => intro h; exact h.elim
      | ok q =>
          rintro ⟨h1, h2⟩
          exact ⟨⟨h1, hgood q.1 q.2 rfl⟩, h2⟩

/-! ### `CP_ALS` -/

theorem cp_main_inv {pinv : Tensor ℝ → Res (Tensor ℝ)} {X : Tensor ℝ} {rank : Nat} {A A' : List (Tensor ℝ)}
    {o : Out (List (Tensor ℝ)) (Tensor ℝ) (Tensor ℝ) ℝ} (h : cp.main pinv X rank A = .ok (A', o)) :
    ∃ lam, cp.sweep pinv X rank A = .ok (A', lam) ∧ o.factors = A' ∧ o.aux = some lam ∧
      cp.scalars X o.full = .ok (o.loss, o.obj, o.rel) := by
  unfold cp.main at h
  cases h1 : cp.sweep pinv X rank A with
  | error e => rw [h1] at h; cases h
  | ok p =>
  obtain ⟨B, lam⟩ := p
  rw [h1, ok_bind] at h
  simp only at h
  cases h2 : cp.fullOf B lam with
  | error e => rw [h2] at h; cases h
  | ok Y =>
  rw [h2, ok_bind] at h
  cases h3 : cp.scalars X Y with
  | error e => rw [h3] at h; cases h
  | ok p =>
  obtain ⟨l, obj, rel⟩ := p
  rw [h3, ok_bind] at h
  cases h
  exact ⟨lam, rfl, rfl, rfl, h3⟩

theorem cp_sweep_shapes {pinv : Tensor ℝ → Res (Tensor ℝ)} {X : Tensor ℝ} {rank : Nat} {A A' : List (Tensor ℝ)} {lam : Tensor ℝ}
    (h : cp.sweep pinv X rank A = .ok (A', lam)) : A'.map Tensor.shape = A.map Tensor.shape := by
  have hsw := Cp.sweep_steps (pinv := pinv) (X := X) (rank := rank) (A := A)
  rw [h] at hsw
  cases hs : steps (Cp.pass pinv X rank) (A, none) X.order with
  | none => rw [hs] at hsw; cases hsw
  | some s =>
      rw [hs] at hsw
      obtain ⟨B, l⟩ := s
      have := (Cp.pass_local pinv X rank).shapes hs
      cases l with
      | none => cases hsw
      | some l => cases hsw; exact this

/-- **C93** for `CP_ALS`: whatever the executor does in each of the runs, `train` leaves the same object, reports the
same steps and returns the same history (or raises as well) as with the statements executed one after another. -/
theorem C93_cp_any_schedule {Ω : Type} (pinv : Tensor ℝ → Res (Tensor ℝ)) (X : Tensor ℝ) (rank : Nat) (h0 : 0 < X.order)
    (A : List (Tensor ℝ)) (hA : CpShapes X rank A) (ω : Ω)
    (run : (Nat → Tensor ℝ) × Ω → Res (((Nat → Tensor ℝ) × Ω) × Out (List (Tensor ℝ)) (Tensor ℝ) (Tensor ℝ) ℝ))
    (hrun : Schedules (Cp.build pinv X rank) (Cp.fetch X) run) (ar : Arith ℝ) (args : Args ℝ) (n : Int)
    (self : Self (List (Tensor ℝ)) (Tensor ℝ) (Tensor ℝ)) :
    SameCall (train ar (CP_ALS.cls run) args n (.ok (facVars A, ω)) self)
      (train ar (CP_ALS.cls (cp.main pinv X rank)) args n (.ok A) self) := by
  refine Sim.train (Rel := fun (s : (Nat → Tensor ℝ) × Ω) B => s.1 = facVars B ∧ CpShapes X rank B)
    ⟨Or.inl ⟨rfl, rfl⟩, ?_, Or.inl ⟨rfl, rfl⟩, rfl, rfl⟩ ar args n
    (fresh := .ok (facVars A, ω)) (fresh' := .ok A) ⟨rfl, hA⟩ self
  rintro ⟨x, ω⟩ B ⟨hx, hB⟩
  simp only at hx
  subst hx
  have hlen : B.length = X.order := by simpa [Tensor.order] using congrArg List.length hB
  refine same_of hrun (enc := facVars) (Good := CpShapes X rank) (facVars B) ω (seq := cp.main pinv X rank B) (fun c => C60_cp_completes pinv X rank (facVars B) h0 c) ?_ ?_
    fun B' o hm => ?_
  · intro B' o hm c hr hc
    have h1 := C60_cp_schedule pinv X rank B h0 hB c hr hc
    rw [hm] at h1
    obtain ⟨h2, h3, h4⟩ := h1
    obtain ⟨lam, h5, h6, h7, h8⟩ := cp_main_inv hm
    refine ⟨h2.vars, fetchMain_some ?_ h2 ?_ h8, h4⟩
    · rw [h6]
      have := congrArg List.length (cp_sweep_shapes h5)
      simpa [hlen] using this
    · simp only [Cfg.val, h3, h7, Option.join_some, Option.map_some]
  · intro e hm c hr hc
    have h1 := C60_cp_schedule pinv X rank B h0 hB c hr hc
    rw [hm] at h1
    rcases h1 with h1 | ⟨Y, h2, h3⟩
    · exact Or.inl h1
    · exact Or.inr (fetchMain_none h2 h3)
  · obtain ⟨k, h3, -⟩ := cp_main_inv hm
    exact (cp_sweep_shapes h3).trans hB

/-! ### `HOOI` -/

theorem hooi_main_inv {svd : Tensor ℝ → Res (Tensor ℝ × Tensor ℝ × Tensor ℝ)} {X : Tensor ℝ} {ranks : List Nat}
    {A A' : List (Tensor ℝ)} {o : Out (List (Tensor ℝ)) (Tensor ℝ) (Tensor ℝ) ℝ}
    (h : tucker.HOOI.main svd X ranks A = .ok (A', o)) :
    ∃ g, tucker.HOOI.sweep svd X ranks A = .ok A' ∧ o.factors = A' ∧ o.aux = some g ∧
      cp.scalars X o.full = .ok (o.loss, o.obj, o.rel) := by
  unfold tucker.HOOI.main at h
  cases h1 : tucker.HOOI.sweep svd X ranks A with
  | error e => rw [h1] at h; cases h
  | ok B =>
  rw [h1, ok_bind] at h
  cases h4 : ops.ttm X B none true with
  | error e => rw [h4] at h; cases h
  | ok g =>
  rw [h4, ok_bind] at h
  cases h2 : tucker.fullOf g B with
  | error e => rw [h2] at h; cases h
  | ok Y =>
  rw [h2, ok_bind] at h
  cases h3 : cp.scalars X Y with
  | error e => rw [h3] at h; cases h
  | ok p =>
  obtain ⟨l, obj, rel⟩ := p
  rw [h3, ok_bind] at h
  cases h
  exact ⟨g, rfl, rfl, rfl, h3⟩

theorem hooi_sweep_shapes {svd : Tensor ℝ → Res (Tensor ℝ × Tensor ℝ × Tensor ℝ)} {X : Tensor ℝ} {ranks : List Nat}
    {A A' : List (Tensor ℝ)} (h : tucker.HOOI.sweep svd X ranks A = .ok A') :
    A'.map Tensor.shape = A.map Tensor.shape := by
  have hs : steps (tucker.HOOI.modeUpdate svd X ranks) A X.order = some A' := by
    unfold steps
    unfold tucker.HOOI.sweep at h
    rw [h]; rfl
  exact (Hooi.pass_local svd X ranks).shapes hs

theorem hooi_same {Ω : Type} {svd : Tensor ℝ → Res (Tensor ℝ × Tensor ℝ × Tensor ℝ)} {X : Tensor ℝ}
    {ranks : List Nat} (hrk : ranks.length = X.order)
    {run : (Nat → Tensor ℝ) × Ω → Res (((Nat → Tensor ℝ) × Ω) × Out (List (Tensor ℝ)) (Tensor ℝ) (Tensor ℝ) ℝ)}
    (hrun : Schedules (Hooi.build svd X ranks) (Hooi.fetch X) run) (ar : Arith ℝ) (args : Args ℝ) (n : Int)
    {fresh : Res ((Nat → Tensor ℝ) × Ω)} {fresh' : Res (List (Tensor ℝ))}
    (hf : SameOp (fun (s : (Nat → Tensor ℝ) × Ω) B => s.1 = facVars B ∧ HooiShapes X ranks B) fresh fresh')
    (self : Self (List (Tensor ℝ)) (Tensor ℝ) (Tensor ℝ)) :
    SameCall (train ar (HOOI.cls run) args n fresh self)
      (train ar (HOOI.cls (tucker.HOOI.main svd X ranks)) args n fresh' self) := by
  refine Sim.train (Rel := fun (s : (Nat → Tensor ℝ) × Ω) B => s.1 = facVars B ∧ HooiShapes X ranks B)
    ⟨Or.inl ⟨rfl, rfl⟩, ?_, Or.inl ⟨rfl, rfl⟩, rfl, rfl⟩ ar args n hf self
  rintro ⟨x, ω⟩ B ⟨hx, hB⟩
  simp only at hx
  subst hx
  have hlen : B.length = X.order := by
    have := congrArg List.length hB
    simp only [Tensor.order, List.length_map, List.length_zipWith] at this hrk ⊢
    omega
  refine same_of hrun (enc := facVars) (Good := HooiShapes X ranks) (facVars B) ω (seq := tucker.HOOI.main svd X ranks B) (fun c => C60_hooi_completes svd X ranks (facVars B) hrk c) ?_ ?_
    fun B' o hm => ?_
  · intro B' o hm c hr hc
    have h1 := C60_hooi_schedule svd X ranks B hrk hB c hr hc
    rw [hm] at h1
    obtain ⟨h2, h3, h4⟩ := h1
    obtain ⟨g, h5, h6, h7, h8⟩ := hooi_main_inv hm
    refine ⟨h2.vars, fetchMain_some ?_ h2 ?_ h8, h4⟩
    · rw [h6]
      have := congrArg List.length (hooi_sweep_shapes h5)
      simpa [hlen] using this
    · simp only [Cfg.val, h3, h7, Option.join_some, Option.map_some]
  · intro e hm c hr hc
    have h1 := C60_hooi_schedule svd X ranks B hrk hB c hr hc
    rw [hm] at h1
    rcases h1 with h1 | ⟨Y, h2, h3⟩
    · exact Or.inl h1
    · exact Or.inr (fetchMain_none h2 h3)
  · obtain ⟨k, h3, -⟩ := hooi_main_inv hm
    exact (hooi_sweep_shapes h3).trans hB

/-- **C93** for `HOOI`. -/
theorem C93_hooi_any_schedule {Ω : Type} (svd : Tensor ℝ → Res (Tensor ℝ × Tensor ℝ × Tensor ℝ)) (X : Tensor ℝ)
    (ranks : List Nat) (hrk : ranks.length = X.order) (A : List (Tensor ℝ)) (hA : HooiShapes X ranks A) (ω : Ω)
    (run : (Nat → Tensor ℝ) × Ω → Res (((Nat → Tensor ℝ) × Ω) × Out (List (Tensor ℝ)) (Tensor ℝ) (Tensor ℝ) ℝ))
    (hrun : Schedules (Hooi.build svd X ranks) (Hooi.fetch X) run) (ar : Arith ℝ) (args : Args ℝ) (n : Int)
    (self : Self (List (Tensor ℝ)) (Tensor ℝ) (Tensor ℝ)) :
    SameCall (train ar (HOOI.cls run) args n (.ok (facVars A, ω)) self)
      (train ar (HOOI.cls (tucker.HOOI.main svd X ranks)) args n (.ok A) self) :=
  hooi_same hrk hrun ar args n (fresh := .ok (facVars A, ω)) (fresh' := .ok A) ⟨rfl, hA⟩ self

/-! ### `NCP_BCU` and `NTUCKER_BCU` -/

theorem AllShapes.fold {sh : List (List Nat)} {topSv : Tensor ℝ → Res ℝ} {f : State → Nat → Res State}
    (hf : ∀ {s n s'}, f s n = .ok s' → ∃ V XA, factorStep topSv s n V XA = .ok s') {l : List Nat} {s s' : State}
    (h : AllShapes sh s) (hs : l.foldlM f s = .ok s') : AllShapes sh s' := by
  refine foldlM_inv (P := AllShapes sh) (Q := fun _ => True) ?_ (fun _ _ => trivial) h hs
  intro s n s' h _ e
  obtain ⟨V, XA, e'⟩ := hf e
  obtain ⟨l, Z, -, -, -, -, hmap, rfl⟩ := factorStep_inv e'
  exact ⟨hmap.trans h.A, h.A0, h.Am⟩

theorem NcpVars.op1 {X : Tensor ℝ} {rank : Nat} {st st' : State} (h : NcpVars X rank st)
    (he : NCP.op1 X.order st = .ok st') : NcpVars X rank st' := by
  unfold NCP.op1 at he
  cases hw : weight st with
  | error e => rw [hw] at he; cases he
  | ok w =>
  rw [hw, ok_bind] at he
  rcases extrapolate_range (w := w) h X.order (by simp [Tensor.order]) with ⟨h1, -⟩ | ⟨s, h1, h2, -⟩
  · cases hs : (List.range X.order).foldlM (extrapolateMode w) st with
    | error e => rw [hs] at he; cases he
    | ok s => rw [hs] at h1; cases h1
  · rw [h1, ok_bind] at he
    cases he
    exact ⟨h2.A, h2.A0, h2.Am⟩

theorem init_shapes {X : Tensor ℝ} {p : Nat} {draws : List (Tensor ℝ)} {st : State} (h : bcu.init X p draws = .ok st) :
    AllShapes (draws.map Tensor.shape) st := by
  unfold bcu.init at h
  cases h1 : draws.mapM fun d => normInit X p (relu d) with
  | error e => rw [h1] at h; cases h
  | ok A =>
  rw [h1, ok_bind] at h
  cases h
  have h2 : A.map Tensor.shape = draws.map Tensor.shape := by
    obtain ⟨hl, hg⟩ := mapM_get h1
    apply List.ext_getElem (by simp [hl])
    intro i hi hi'
    simp only [List.length_map] at hi hi'
    simp only [List.getElem_map]
    obtain ⟨y, h3, h4⟩ := hg i _ (List.getElem?_eq_getElem hi')
    rw [List.getElem?_eq_getElem hi] at h3
    cases h3
    unfold normInit at h4
    split at h4
    · cases h4
    · rw [← Except.ok.inj h4]; rfl
  exact ⟨h2, h2, h2⟩

theorem NtuckerVars.op1 {X : Tensor ℝ} {ranks : List Nat} (hrk : ranks.length = X.order) {st st' : TState}
    (h : NtuckerVars X ranks st) (he : NTUCKER.op1 X.order st = .ok st') : NtuckerVars X ranks st' := by
  unfold NTUCKER.op1 at he
  cases hw : weight st.toState with
  | error e => rw [hw] at he; cases he
  | ok w =>
  rw [hw, ok_bind] at he
  rcases extrapolate_range (w := w) h.factors X.order (by simp [Tensor.order] at hrk ⊢; omega) with ⟨h1, -⟩ | ⟨s, h1, h2, -⟩
  · cases hs : (List.range X.order).foldlM (extrapolateMode w) st.toState with
    | error e => rw [hs] at he; cases he
    | ok s => rw [hs] at h1; cases h1
  · rw [h1, ok_bind] at he
    cases h3 : cappedWeight s w X.order with
    | error e => rw [h3] at he; cases he
    | ok wk =>
    rw [h3, ok_bind] at he
    cases h4 : extrapolate wk st.g st.g0 with
    | error e => rw [h4] at he; cases he
    | ok m =>
    rw [h4, ok_bind] at he
    unfold assignCore at he
    split at he
    · rename_i h5
      rw [ok_bind] at he
      cases he
      exact ⟨⟨h2.A, h2.A0, h2.Am⟩, h.g, h.g, h5.trans h.gm⟩
    · cases he

/-- **C93** for `NCP_BCU`: whatever the executor does in the initialisation, in the main runs and in the runs of
`train_op1` and `train_op2`, `train` has the same effects and the same result. -/
theorem C93_ncp_any_schedule {Ω : Type} (topSv : Tensor ℝ → Res ℝ) (X : Tensor ℝ) (rank : Nat) (h0 : 0 < X.order)
    (draws : List (Tensor ℝ)) (hd : draws.map Tensor.shape = X.shape.map fun d => [d, rank]) (ω : Ω)
    (init op1 op2 : (Bcu.Var → Tensor ℝ) × Ω → Res ((Bcu.Var → Tensor ℝ) × Ω))
    (run : (Bcu.Var → Tensor ℝ) × Ω → Res (((Bcu.Var → Tensor ℝ) × Ω) × Out (List (Tensor ℝ)) (Tensor ℝ) (Tensor ℝ) ℝ))
    (hinit : SchedulesOp (Bcu.Init.build X X.order X.order false (ncpShape X rank)) init)
    (hrun : Schedules (Bcu.build topSv (Bcu.ncp X rank)) (Bcu.fetch X) run)
    (hop1 : SchedulesOp (Bcu.Op1.build X.order false (ncpShape X rank)) op1)
    (hop2 : SchedulesOp (Bcu.Op2.build X.order false (ncpShape X rank)) op2) (ar : Arith ℝ) (args : Args ℝ) (n : Int)
    (self : Self (List (Tensor ℝ)) (Tensor ℝ) (Tensor ℝ)) :
    SameCall (train ar (NCP_BCU.cls run op1 op2 (NCP.ones rank)) args n (init (Bcu.vars (Bcu.fresh draws), ω)) self)
      (train ar (NCP.cls topSv X rank) args n (bcu.init X X.order draws) self) := by
  refine Sim.train (Rel := fun (s : (Bcu.Var → Tensor ℝ) × Ω) st => s.1 = Bcu.vars st ∧ NcpVars X rank st)
    ⟨Or.inl ⟨rfl, rfl⟩, ?_, Or.inr ⟨op1, op2, NCP.op1 X.order, NCP.op2, rfl, rfl, ?_⟩, rfl, rfl⟩ ar args n ?_ self
  · rintro ⟨x, ω⟩ st ⟨hx, hS⟩
    simp only at hx
    subst hx
    have hS' : NcpShapes X rank st := ⟨hS.A, hS.Am⟩
    have hsh : ∀ {st' o}, NCP.main topSv X st = .ok (st', o) → NcpVars X rank st' ∧ o.factors = st'.A := by
      intro st' o hm
      obtain ⟨s, h1, rfl, h2, -⟩ := NCP.main_inv hm
      have := AllShapes.fold (topSv := topSv) (fun h => NCP.modeUpdate_inv h) hS h1
      exact ⟨⟨this.A, this.A0, this.Am⟩, h2⟩
    refine same_of hrun (enc := Bcu.vars) (Good := NcpVars X rank) (Bcu.vars st) ω (seq := NCP.main topSv X st)
      (fun c => C60_bcu_completes topSv _ _ c) ?_ ?_ fun st' o hm => (hsh hm).1
    · intro st' o hm c hr hc
      have h1 := C60_ncp_schedule topSv X rank st hS' c hr hc
      rw [hm] at h1
      obtain ⟨h2, h3⟩ := h1
      obtain ⟨h4, h5⟩ := hsh hm
      obtain ⟨s, -, -, -, h6, -, h7⟩ := NCP.main_inv hm
      refine ⟨h2.vars, fetchMain_some ?_ h2 ?_ h7, h3⟩
      · rw [h5]
        simpa [Tensor.order] using congrArg List.length h4.A
      · rw [h6]
    · intro e hm c hr hc
      have h1 := C60_ncp_schedule topSv X rank st hS' c hr hc
      rw [hm] at h1
      rcases h1 with h1 | ⟨Y, h2, h3⟩
      · exact Or.inl h1
      · exact Or.inr (fetchMain_none h2 h3)
  · rintro ⟨x, ω⟩ st ⟨hx, hS⟩
    simp only at hx
    subst hx
    constructor
    · refine sameOp_of hop1 (enc := Bcu.vars) (Good := NcpVars X rank) (Bcu.vars st) ω (seq := NCP.op1 X.order st)
        (fun c => C92_op1_completes _ h0 _ _ _ c) ?_ ?_ fun st' h => NcpVars.op1 hS h
      · intro st' he c hr hc
        have := C92_ncp_op1 X rank h0 st hS c hr hc
        rw [he] at this
        exact this
      · intro e he c hr hc
        have := C92_ncp_op1 X rank h0 st hS c hr hc
        rw [he] at this
        exact this
    · refine sameOp_of hop2 (enc := Bcu.vars) (Good := NcpVars X rank) (Bcu.vars st) ω (seq := NCP.op2 st)
        (fun c => C92_op2_completes _ _ _ _ c) ?_ (fun e he => by cases he) fun st' h => ?_
      · intro st' he c hr hc
        obtain ⟨s, h1, h2⟩ := C92_ncp_op2 X rank st hS c hr hc
        rw [he] at h1
        cases h1
        exact h2
      · cases h
        exact ⟨hS.A, hS.A0, hS.A0⟩
  · refine sameOp_of hinit (enc := Bcu.vars) (Good := NcpVars X rank) _ ω (seq := bcu.init X X.order draws)
      (fun c => C92_init_completes _ _ _ _ _ _ c) ?_ ?_ fun st h => ?_
    · intro st' he c hr hc
      have := C92_ncp_init X rank draws hd c hr hc
      rw [he] at this
      exact this
    · intro e he c hr hc
      have := C92_ncp_init X rank draws hd c hr hc
      rw [he] at this
      exact this
    · have := init_shapes h
      rw [hd] at this
      exact this

/-- **C93** for `NTUCKER_BCU`, including the core runs. -/
theorem C93_ntucker_any_schedule {Ω : Type} (topSv : Tensor ℝ → Res ℝ) (X : Tensor ℝ) (ranks : List Nat)
    (hrk : ranks.length = X.order) (h0 : 0 < X.order) (draws : List (Tensor ℝ)) (gdraw : Tensor ℝ)
    (hd : draws.map Tensor.shape = List.zipWith (fun d r => [d, r]) X.shape ranks) (hg : gdraw.shape = ranks) (ω : Ω)
    (init op1 op2 : (Bcu.Var → Tensor ℝ) × Ω → Res ((Bcu.Var → Tensor ℝ) × Ω))
    (core : (Bcu.Var → Tensor ℝ) × Ω → Res (((Bcu.Var → Tensor ℝ) × Ω) × Tensor ℝ))
    (run : (Bcu.Var → Tensor ℝ) × Ω → Res (((Bcu.Var → Tensor ℝ) × Ω) × Out (List (Tensor ℝ)) (Tensor ℝ) (Tensor ℝ) ℝ))
    (hinit : SchedulesOp (Bcu.Init.build X (X.order + 1) X.order true (ntuckerShape X ranks)) init)
    (hcore : Schedules (Bcu.Core.build topSv X ranks) (fun c => c.val .assign) core)
    (hrun : Schedules (Bcu.build topSv (Bcu.ntucker X ranks)) (Bcu.fetch X) run)
    (hop1 : SchedulesOp (Bcu.Op1.build X.order true (ntuckerShape X ranks)) op1)
    (hop2 : SchedulesOp (Bcu.Op2.build X.order true (ntuckerShape X ranks)) op2) (ar : Arith ℝ) (args : Args ℝ) (n : Int)
    (self : Self (List (Tensor ℝ)) (Tensor ℝ) (Tensor ℝ)) :
    SameCall (train ar (NTUCKER_BCU.cls core run op1 op2) args n (init (Bcu.tvars (Bcu.tfresh draws gdraw), ω)) self)
      (train ar (NTUCKER.cls topSv X) args n (NTUCKER.init X draws gdraw) self) := by
  refine Sim.train (Rel := fun (s : (Bcu.Var → Tensor ℝ) × Ω) st => s.1 = Bcu.tvars st ∧ NtuckerVars X ranks st)
    ⟨Or.inr ⟨core, NTUCKER.core topSv X, rfl, rfl, ?_⟩, ?_,
      Or.inr ⟨op1, op2, NTUCKER.op1 X.order, NTUCKER.op2, rfl, rfl, ?_⟩, rfl, rfl⟩ ar args n ?_ self
  · rintro ⟨x, ω⟩ st ⟨hx, hS⟩
    simp only at hx
    subst hx
    refine same_of hcore (enc := Bcu.tvars) (Good := NtuckerVars X ranks) (Bcu.tvars st) ω (seq := NTUCKER.core topSv X st)
      (fun c => C92_core_completes topSv X ranks _ c) ?_ ?_ fun st' k hm => ?_
    · intro st' k hm c hr hc
      have h1 := C92_ntucker_core topSv X ranks hrk st hS c hr hc
      rw [hm] at h1
      obtain ⟨h2, h3, h4⟩ := h1
      exact ⟨h2, by simp only [Cfg.val, h3, Option.join_some], h4⟩
    · intro e hm c hr hc
      have h1 := C92_ntucker_core topSv X ranks hrk st hS c hr hc
      rw [hm] at h1
      exact Or.inl h1
    · obtain ⟨l, h1, -, rfl⟩ := NTUCKER.core_inv hm
      exact ⟨⟨hS.factors.A, hS.factors.A0, hS.factors.Am⟩, h1.trans hS.g, hS.g0, hS.gm⟩
  · rintro ⟨x, ω⟩ st ⟨hx, hS⟩
    simp only at hx
    subst hx
    have hS' : NtuckerShapes X ranks st := ⟨hS.factors.A, hS.factors.Am, hS.g⟩
    have hsh : ∀ {st' o}, NTUCKER.main topSv X st = .ok (st', o) → NtuckerVars X ranks st' ∧ o.factors = st'.A := by
      intro st' o hm
      obtain ⟨s, h1, rfl, h2, -⟩ := NTUCKER.main_inv hm
      have := AllShapes.fold (topSv := topSv) (fun h => NTUCKER.modeUpdate_inv h) hS.factors h1
      exact ⟨⟨⟨this.A, this.A0, this.Am⟩, hS.g, hS.g0, hS.gm⟩, h2⟩
    refine same_of hrun (enc := Bcu.tvars) (Good := NtuckerVars X ranks) (Bcu.tvars st) ω (seq := NTUCKER.main topSv X st)
      (fun c => C60_bcu_completes topSv _ _ c) ?_ ?_ fun st' o hm => (hsh hm).1
    · intro st' o hm c hr hc
      have h1 := C60_ntucker_schedule topSv X ranks st hrk hS' c hr hc
      rw [hm] at h1
      obtain ⟨h2, h3⟩ := h1
      obtain ⟨h4, h5⟩ := hsh hm
      obtain ⟨s, -, -, -, h6, -, h7⟩ := NTUCKER.main_inv hm
      refine ⟨h2.vars, fetchMain_some ?_ h2 ?_ h7, h3⟩
      · rw [h5]
        have := congrArg List.length h4.factors.A
        simp only [Tensor.order, List.length_map, List.length_zipWith] at this hrk ⊢
        omega
      · rw [h6]
    · intro e hm c hr hc
      have h1 := C60_ntucker_schedule topSv X ranks st hrk hS' c hr hc
      rw [hm] at h1
      rcases h1 with h1 | ⟨Y, h2, h3⟩
      · exact Or.inl h1
      · exact Or.inr (fetchMain_none h2 h3)
  · rintro ⟨x, ω⟩ st ⟨hx, hS⟩
    simp only at hx
    subst hx
    constructor
    · refine sameOp_of hop1 (enc := Bcu.tvars) (Good := NtuckerVars X ranks) (Bcu.tvars st) ω (seq := NTUCKER.op1 X.order st)
        (fun c => C92_op1_completes _ h0 _ _ _ c) ?_ ?_ fun st' h => NtuckerVars.op1 hrk hS h
      · intro st' he c hr hc
        have := C92_ntucker_op1 X ranks hrk h0 st hS c hr hc
        rw [he] at this
        exact this
      · intro e he c hr hc
        have := C92_ntucker_op1 X ranks hrk h0 st hS c hr hc
        rw [he] at this
        exact this
    · refine sameOp_of hop2 (enc := Bcu.tvars) (Good := NtuckerVars X ranks) (Bcu.tvars st) ω (seq := NTUCKER.op2 st)
        (fun c => C92_op2_completes _ _ _ _ c) ?_ (fun e he => by cases he) fun st' h => ?_
      · intro st' he c hr hc
        obtain ⟨s, h1, h2⟩ := C92_ntucker_op2 X ranks hrk st hS c hr hc
        rw [he] at h1
        cases h1
        exact h2
      · cases h
        exact ⟨⟨hS.factors.A, hS.factors.A0, hS.factors.A0⟩, hS.g, hS.g0, hS.g0⟩
  · refine sameOp_of hinit (enc := Bcu.tvars) (Good := NtuckerVars X ranks) _ ω (seq := NTUCKER.init X draws gdraw)
      (fun c => C92_init_completes _ _ _ _ _ _ c) ?_ ?_ fun st h => ?_
    · intro st' he c hr hc
      have := C92_ntucker_init X ranks hrk draws gdraw hd hg c hr hc
      rw [he] at this
      exact this
    · intro e he c hr hc
      have := C92_ntucker_init X ranks hrk draws gdraw hd hg c hr hc
      rw [he] at this
      exact this
    · unfold NTUCKER.init at h
      cases h1 : bcu.init X (X.order + 1) draws with
      | error e => rw [h1] at h; cases h
      | ok s =>
      rw [h1, ok_bind] at h
      cases h2 : normInit X (X.order + 1) (relu gdraw) with
      | error e => rw [h2] at h; cases h
      | ok g =>
      rw [h2, ok_bind] at h
      cases h
      have h3 := init_shapes h1
      rw [hd] at h3
      have h4 : g.shape = ranks := by
        unfold normInit at h2
        split at h2
        · cases h2
        · rw [← Except.ok.inj h2]; exact hg
      exact ⟨h3, h4, h4, h4⟩

/-! ### Such sessions exist -/

example {Ω : Type} (pinv : Tensor ℝ → Res (Tensor ℝ)) (X : Tensor ℝ) (rank : Nat) (h0 : 0 < X.order) :
    ∃ run : (Nat → Tensor ℝ) × Ω → _, Schedules (Cp.build pinv X rank) (Cp.fetch X) run :=
  schedules_exists _ _ fun x c => C60_cp_completes pinv X rank x h0 c

example {Ω : Type} (svd : Tensor ℝ → Res (Tensor ℝ × Tensor ℝ × Tensor ℝ)) (X : Tensor ℝ) (ranks : List Nat)
    (hrk : ranks.length = X.order) :
    ∃ run : (Nat → Tensor ℝ) × Ω → _, Schedules (Hooi.build svd X ranks) (Hooi.fetch X) run :=
  schedules_exists _ _ fun x c => C60_hooi_completes svd X ranks x hrk c

example {Ω : Type} (topSv : Tensor ℝ → Res ℝ) (X : Tensor ℝ) (K : Bcu.Kind) :
    ∃ run : (Bcu.Var → Tensor ℝ) × Ω → _, Schedules (Bcu.build topSv K) (Bcu.fetch X) run :=
  schedules_exists _ _ fun x c => C60_bcu_completes topSv K x c

example {Ω : Type} (topSv : Tensor ℝ → Res ℝ) (X : Tensor ℝ) (ranks : List Nat) :
    ∃ run : (Bcu.Var → Tensor ℝ) × Ω → _, Schedules (Bcu.Core.build topSv X ranks) (fun c => c.val .assign) run :=
  schedules_exists _ _ fun x c => C92_core_completes topSv X ranks x c

/-- Runs without fetched values exist if runs do. -/
theorem schedulesOp_exists {ι ν β Ω : Type} [DecidableEq ι] [DecidableEq ν] (G : Graph ι ν β)
    (hcomp : ∀ x c, Reaches G x c → ∃ c', Relation.ReflTransGen (Step G) c c' ∧ Complete G c') :
    ∃ run : (ν → β) × Ω → Res ((ν → β) × Ω), SchedulesOp G run := by
  obtain ⟨run, h⟩ := schedules_exists (Ω := Ω) G (fun _ => some ()) hcomp
  refine ⟨fun s => (run s).map Prod.fst, fun x ω => ?_⟩
  have := h x ω
  simp only
  revert this
  cases run (x, ω) with
  | error e => exact fun h => h
  | ok p => exact fun h => h

example {Ω : Type} (N : Nat) (h0 : 0 < N) (core : Bool) (shape : Nat → List Nat) :
    ∃ run : (Bcu.Var → Tensor ℝ) × Ω → _, SchedulesOp (Bcu.Op1.build N core shape) run :=
  schedulesOp_exists _ fun x c => C92_op1_completes N h0 core shape x c

example {Ω : Type} (N : Nat) (core : Bool) (shape : Nat → List Nat) :
    ∃ run : (Bcu.Var → Tensor ℝ) × Ω → _, SchedulesOp (Bcu.Op2.build N core shape) run :=
  schedulesOp_exists _ fun x c => C92_op2_completes N core shape x c

example {Ω : Type} (X : Tensor ℝ) (p N : Nat) (core : Bool) (shape : Nat → List Nat) :
    ∃ run : (Bcu.Var → Tensor ℝ) × Ω → _, SchedulesOp (Bcu.Init.build X p N core shape) run :=
  schedulesOp_exists _ fun x c => C92_init_completes X p N core shape x c

end TD.Props
