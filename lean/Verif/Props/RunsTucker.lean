import Verif.Model.GraphTucker
import Verif.Props.Runs
import Verif.Props.Scheduled

/-!
# C92, C93: the initial run of `HOOI` and the run of `HOSVD` do not depend on the schedule
-/
namespace TD.Props
open TD Tensor graph fact

namespace HooiInit
open Hooi.Init

theorem mem_nodes {α : Type} [Zero α] {svd : Tensor α → Res (Tensor α × Tensor α × Tensor α)} {X : Tensor α}
    {ranks : List Nat} {n : Op} :
    n ∈ (build svd X ranks).nodes ↔ ∃ k < X.order, n = .left k ∨ n = .assign k := by
  simp [build]

theorem readsOld {svd : Tensor ℝ → Res (Tensor ℝ × Tensor ℝ × Tensor ℝ)} {X : Tensor ℝ} {ranks : List Nat} :
    ReadsOld (build svd X ranks) (fun | .left _ => 0 | .assign _ => 1) := by
  refine ⟨?_, ?_, ?_, ?_⟩
  · intro n _ o o' x x' ho _
    cases n with
    | left k => rfl
    | assign k =>
        have := ho (.left k) (by simp [build])
        simp only [build]
        rw [this]
  · intro n hn m hm
    obtain ⟨k, hk, rfl | rfl⟩ := mem_nodes.1 hn
    · simp [build] at hm
    · simp only [build, List.mem_cons, List.not_mem_nil, or_false] at hm
      subst hm
      exact ⟨mem_nodes.2 ⟨k, hk, .inl rfl⟩, by simp⟩
  · intro m _ n _ v hm hn
    cases m <;> cases n <;> simp only [build, Option.some.injEq, reduceCtorEq] at hm hn
    rw [hm, hn]
  · intro n _ v hv
    simp [build] at hv

end HooiInit

/-- **C92** for `init_op` of `HOOI` (`tucker.py:163`, run at 223): whatever the variables held, if they held anything
(`old` is arbitrary below the order), every complete execution leaves the leading singular vectors in them; if one of
the assignments has to fail the run raises. -/
theorem C92_hooi_init (svd : Tensor ℝ → Res (Tensor ℝ × Tensor ℝ × Tensor ℝ)) (X : Tensor ℝ) (ranks : List Nat)
    (hrk : ranks.length = X.order) (old : List (Tensor ℝ)) (hold : old.length = X.order)
    (c : Cfg Hooi.Init.Op Nat (Tensor ℝ)) (hr : Reaches (Hooi.Init.build svd X ranks) (facVars old) c)
    (hc : Complete (Hooi.Init.build svd X ranks) c) :
    match tucker.HOOI.init svd X ranks with
    | .ok A => c.vars = facVars A ∧ ¬ Failed (Hooi.Init.build svd X ranks) c
    | .error _ => Failed (Hooi.Init.build svd X ranks) c := by
  obtain ⟨den, hden, hdone, hwr, hkeep, hfail⟩ := HooiInit.readsOld.run hr hc
  have hleft : ∀ k < X.order, den (.left k) = (tucker.leading svd X ranks k).toOption := by
    intro k hk
    rw [hden _ (HooiInit.mem_nodes.2 ⟨k, hk, .inl rfl⟩)]
    simp [Hooi.Init.build]
  have hone : ∀ k < X.order, den (.assign k) = (do
      let v ← tucker.leading svd X ranks k
      let r ← tucker.rankAt ranks k
      if v.shape = [X.shape.getD k 0, r] then .ok v else .error .invalidArgument : Res (Tensor ℝ)).toOption := by
    intro k hk
    have hk' : k < ranks.length := by omega
    have e1 : tucker.rankAt ranks k = .ok (ranks.getD k 0) := by
      simp [tucker.rankAt, List.getElem?_eq_getElem hk', List.getD_eq_getElem?_getD]
    rw [hden _ (HooiInit.mem_nodes.2 ⟨k, hk, .inr rfl⟩)]
    cases hl : tucker.leading svd X ranks k with
    | error e =>
        have : den (.left k) = none := by rw [hleft k hk, hl]; rfl
        simp only [Hooi.Init.build, List.all_cons, this, Option.isSome_none, List.all_nil, Bool.and_true, if_false,
          Bool.false_eq_true]
        rfl
    | ok v =>
        have : den (.left k) = some v := by rw [hleft k hk, hl]; rfl
        simp only [Hooi.Init.build, List.all_cons, this, Option.isSome_some, List.all_nil, Bool.and_true, if_true, e1,
          ok_bind, Option.bind_eq_bind, Option.bind_some]
        split <;> rfl
  cases hi : tucker.HOOI.init svd X ranks with
  | error e =>
      obtain ⟨i, x, e', hx, he⟩ := mapM_error hi
      have hx' : i < X.order ∧ i = x := by
        rw [List.getElem?_eq_some_iff] at hx
        obtain ⟨h1, h2⟩ := hx
        simp only [List.length_range, List.getElem_range] at h1 h2
        exact ⟨h1, h2⟩
      obtain ⟨h1, rfl⟩ := hx'
      refine hfail.2 ⟨.assign i, HooiInit.mem_nodes.2 ⟨i, h1, .inr rfl⟩, ?_⟩
      rw [hone i h1, he]
      rfl
  | ok A =>
      obtain ⟨hl, hget⟩ := mapM_get hi
      rw [List.length_range] at hl
      have hd : ∀ k < X.order, ∃ a, A[k]? = some a ∧ den (.assign k) = some a := by
        intro k hk
        obtain ⟨y, hy, hf⟩ := hget k k (by rw [List.getElem?_range hk])
        exact ⟨y, hy, by rw [hone k hk, hf]; rfl⟩
      refine ⟨?_, ?_⟩
      · funext k
        by_cases hk : k < X.order
        · obtain ⟨a, ha, hda⟩ := hd k hk
          rw [facVars_of_get ha]
          exact hwr (.assign k) (HooiInit.mem_nodes.2 ⟨k, hk, .inr rfl⟩) k a rfl hda
        · rw [facVars_of_none (A := A) (B := old) (by omega) (by omega)]
          refine hkeep k fun w hw hwk => ?_
          obtain ⟨j, hj, rfl | rfl⟩ := HooiInit.mem_nodes.1 hw
          · simp [Hooi.Init.build] at hwk
          · simp only [Hooi.Init.build, Option.some.injEq] at hwk
            omega
      · rw [hfail]
        rintro ⟨n, hn, hx⟩
        obtain ⟨k, hk, rfl | rfl⟩ := HooiInit.mem_nodes.1 hn
        · obtain ⟨a, -, hda⟩ := hd k hk
          have := hden (.assign k) (HooiInit.mem_nodes.2 ⟨k, hk, .inr rfl⟩)
          rw [hda] at this
          simp [Hooi.Init.build, hx] at this
        · obtain ⟨a, -, hda⟩ := hd k hk
          rw [hda] at hx
          cases hx

/-- Every execution of `init_op` of `HOOI` can be completed. -/
theorem C92_hooi_init_completes (svd : Tensor ℝ → Res (Tensor ℝ × Tensor ℝ × Tensor ℝ)) (X : Tensor ℝ) (ranks : List Nat)
    (old : Nat → Tensor ℝ) (c : Cfg Hooi.Init.Op Nat (Tensor ℝ)) (hr : Reaches (Hooi.Init.build svd X ranks) old c) :
    ∃ c', Relation.ReflTransGen (Step (Hooi.Init.build svd X ranks)) c c' ∧ Complete (Hooi.Init.build svd X ranks) c' :=
  HooiInit.readsOld.completes hr

namespace HosvdRun
open Hosvd

theorem mem_nodes {α : Type} [CommSemiring α] {svd : Tensor α → Res (Tensor α × Tensor α × Tensor α)} {X : Tensor α}
    {ranks : List Nat} {n : Op} :
    n ∈ (build svd X ranks).nodes ↔ (∃ k < X.order, n = .left k) ∨ n = .core ∨ n = .full := by
  simp only [build, List.mem_append, List.mem_map, List.mem_range, List.mem_cons, List.not_mem_nil, or_false]
  constructor
  · rintro (⟨k, hk, rfl⟩ | h)
    · exact .inl ⟨k, hk, rfl⟩
    · exact .inr h
  · rintro (⟨k, hk, rfl⟩ | h)
    · exact .inl ⟨k, hk, rfl⟩
    · exact .inr h

theorem readsOld {svd : Tensor ℝ → Res (Tensor ℝ × Tensor ℝ × Tensor ℝ)} {X : Tensor ℝ} {ranks : List Nat} :
    ReadsOld (build svd X ranks) (fun | .left _ => 0 | .core => 1 | .full => 2) := by
  refine ⟨?_, ?_, ?_, ?_⟩
  · intro n _ o o' x x' ho _
    cases n with
    | left k => rfl
    | core =>
        simp only [build]
        rw [mapM_congr' fun k hk => ho (.left k) (List.mem_map.2 ⟨k, hk, rfl⟩)]
    | full =>
        simp only [build]
        rw [mapM_congr' fun k hk => ho (.left k) (List.mem_cons_of_mem _ (List.mem_map.2 ⟨k, hk, rfl⟩)),
          ho .core (by simp [build])]
  · intro n hn m hm
    rcases n with k | _ | _
    · simp [build] at hm
    · simp only [build, List.mem_map, List.mem_range] at hm
      obtain ⟨k, hk, rfl⟩ := hm
      exact ⟨mem_nodes.2 (.inl ⟨k, hk, rfl⟩), by simp⟩
    · simp only [build, List.mem_map, List.mem_range, List.mem_cons] at hm
      rcases hm with rfl | ⟨k, hk, rfl⟩
      · exact ⟨mem_nodes.2 (.inr (.inl rfl)), by simp⟩
      · exact ⟨mem_nodes.2 (.inl ⟨k, hk, rfl⟩), by simp⟩
  · intro m _ n _ v
    exact v.elim
  · intro n _ v
    exact v.elim

end HosvdRun

/-- **C92** for the run of `HOSVD` (`tucker.py:80-81`): in every complete execution the fetched operations have the
values computed one after the other; if one of these computations raises, the run raises. -/
theorem C92_hosvd (svd : Tensor ℝ → Res (Tensor ℝ × Tensor ℝ × Tensor ℝ)) (X : Tensor ℝ) (ranks : List Nat)
    (old : Empty → Tensor ℝ) (c : Cfg Hosvd.Op Empty (Tensor ℝ)) (hr : Reaches (Hosvd.build svd X ranks) old c)
    (hc : Complete (Hosvd.build svd X ranks) c) :
    match tucker.HOSVD.run svd X ranks with
    | .ok (A, g, full) => ¬ Failed (Hosvd.build svd X ranks) c ∧ A.length = X.order ∧
        (∀ k < X.order, c.val (.left k) = A[k]?) ∧ c.val .core = some g ∧ c.val .full = some full
    | .error _ => Failed (Hosvd.build svd X ranks) c := by
  obtain ⟨den, hden, hdone, -, -, hfail⟩ := HosvdRun.readsOld.run hr hc
  have nl : ∀ k < X.order, Hosvd.Op.left k ∈ (Hosvd.build svd X ranks).nodes :=
    fun k hk => HosvdRun.mem_nodes.2 (.inl ⟨k, hk, rfl⟩)
  have nc : Hosvd.Op.core ∈ (Hosvd.build svd X ranks).nodes := HosvdRun.mem_nodes.2 (.inr (.inl rfl))
  have nf : Hosvd.Op.full ∈ (Hosvd.build svd X ranks).nodes := HosvdRun.mem_nodes.2 (.inr (.inr rfl))
  have hleft : ∀ k < X.order, den (.left k) = (tucker.leading svd X ranks k).toOption := by
    intro k hk
    rw [hden _ (nl k hk)]
    simp [Hosvd.build]
  cases hA : (List.range X.order).mapM fun n => tucker.leading svd X ranks n with
  | error e =>
      have : tucker.HOSVD.run svd X ranks = .error e := by unfold tucker.HOSVD.run; rw [hA]; rfl
      rw [this]
      obtain ⟨i, x, e', hx, he⟩ := mapM_error hA
      rw [List.getElem?_eq_some_iff] at hx
      obtain ⟨h1, h2⟩ := hx
      simp only [List.length_range, List.getElem_range] at h1 h2
      subst h2
      exact hfail.2 ⟨.left i, nl i h1, by rw [hleft i h1, he]; rfl⟩
  | ok A =>
  obtain ⟨hl, hget⟩ := mapM_get hA
  rw [List.length_range] at hl
  have hdl : ∀ k < X.order, ∃ a, A[k]? = some a ∧ den (.left k) = some a := by
    intro k hk
    obtain ⟨y, hy, hf⟩ := hget k k (by rw [List.getElem?_range hk])
    exact ⟨y, hy, by rw [hleft k hk, hf]; rfl⟩
  have hall : ((List.range X.order).map Hosvd.Op.left).all (fun m => (den m).isSome) = true := by
    simp only [List.all_map, List.all_eq_true, List.mem_range, Function.comp]
    intro k hk
    obtain ⟨a, -, h⟩ := hdl k hk
    rw [h]; rfl
  have hmap : (List.range X.order).mapM (fun k => den (.left k)) = some A := by
    have h1 : (List.range X.order).mapM (fun k => den (.left k)) =
        (List.range X.order).mapM (fun k => some (facVars A k)) := by
      refine mapM_congr' fun k hk => ?_
      obtain ⟨a, ha, hd⟩ := hdl k (List.mem_range.1 hk)
      rw [hd, facVars_of_get ha]
    rw [h1]
    have h2 : (List.range X.order).mapM (fun k => some (facVars A k)) = some ((List.range X.order).map (facVars A)) := by
      generalize List.range X.order = l
      induction l with
      | nil => rfl
      | cons a l ih => rw [List.mapM_cons, ih]; rfl
    rw [h2]
    congr 1
    apply List.ext_getElem?
    intro i
    rw [List.getElem?_map]
    by_cases hi : i < X.order
    · rw [List.getElem?_range hi]
      obtain ⟨a, ha, -⟩ := hdl i hi
      simp [ha, facVars_of_get ha]
    · rw [List.getElem?_eq_none (by simp; omega), List.getElem?_eq_none (by omega)]
      rfl
  have hcore : den .core = (ops.ttm X A none true).toOption := by
    rw [hden _ nc]
    have : ((Hosvd.build svd X ranks).deps .core).all (fun m => (den m).isSome) = true := hall
    rw [if_pos this]
    simp only [Hosvd.build, hmap, Option.bind_eq_bind, Option.bind_some]
  cases hg : ops.ttm X A none true with
  | error e =>
      have : tucker.HOSVD.run svd X ranks = .error e := by
        unfold tucker.HOSVD.run; rw [hA, ok_bind, hg]; rfl
      rw [this]
      exact hfail.2 ⟨.core, nc, by rw [hcore, hg]; rfl⟩
  | ok g =>
  rw [hg] at hcore
  have hfull : den .full = (tucker.fullOf g A).toOption := by
    rw [hden _ nf]
    have : ((Hosvd.build svd X ranks).deps .full).all (fun m => (den m).isSome) = true := by
      show (Hosvd.Op.core :: (List.range X.order).map Hosvd.Op.left).all _ = true
      rw [List.all_cons, hall, hcore]
      rfl
    rw [if_pos this]
    simp only [Hosvd.build, hmap, hcore, Except.toOption, Option.bind_eq_bind, Option.bind_some]
  cases hf : tucker.fullOf g A with
  | error e =>
      have : tucker.HOSVD.run svd X ranks = .error e := by
        unfold tucker.HOSVD.run; rw [hA, ok_bind, hg, ok_bind, hf]; rfl
      rw [this]
      exact hfail.2 ⟨.full, nf, by rw [hfull, hf]; rfl⟩
  | ok full =>
  have : tucker.HOSVD.run svd X ranks = .ok (A, g, full) := by
    unfold tucker.HOSVD.run; rw [hA, ok_bind, hg, ok_bind, hf]; rfl
  rw [this]
  rw [hf] at hfull
  refine ⟨?_, hl, ?_, ?_, ?_⟩
  · rw [hfail]
    rintro ⟨n, hn, hx⟩
    rcases HosvdRun.mem_nodes.1 hn with ⟨k, hk, rfl⟩ | rfl | rfl
    · obtain ⟨a, -, h⟩ := hdl k hk
      rw [h] at hx; cases hx
    · rw [hcore] at hx; cases hx
    · rw [hfull] at hx; cases hx
  · intro k hk
    obtain ⟨a, ha, h⟩ := hdl k hk
    simp only [Cfg.val, hdone _ (nl k hk), h, ha, Option.join_some]
  · simp only [Cfg.val, hdone _ nc, hcore, Except.toOption, Option.join_some]
  · simp only [Cfg.val, hdone _ nf, hfull, Except.toOption, Option.join_some]

/-- Every execution of the run of `HOSVD` can be completed. -/
theorem C92_hosvd_completes (svd : Tensor ℝ → Res (Tensor ℝ × Tensor ℝ × Tensor ℝ)) (X : Tensor ℝ) (ranks : List Nat)
    (old : Empty → Tensor ℝ) (c : Cfg Hosvd.Op Empty (Tensor ℝ)) (hr : Reaches (Hosvd.build svd X ranks) old c) :
    ∃ c', Relation.ReflTransGen (Step (Hosvd.build svd X ranks)) c c' ∧ Complete (Hosvd.build svd X ranks) c' :=
  HosvdRun.readsOld.completes hr

/-- The variables `init_op` leaves have the declared shapes. -/
theorem hooi_init_shapes {svd : Tensor ℝ → Res (Tensor ℝ × Tensor ℝ × Tensor ℝ)} {X : Tensor ℝ} {ranks : List Nat}
    (hrk : ranks.length = X.order) {A : List (Tensor ℝ)} (h : tucker.HOOI.init svd X ranks = .ok A) :
    HooiShapes X ranks A := by
  obtain ⟨hl, hget⟩ := mapM_get h
  rw [List.length_range] at hl
  unfold HooiShapes
  have hx : X.order = X.shape.length := rfl
  apply List.ext_getElem?
  intro i
  by_cases hi : i < X.order
  · obtain ⟨y, hy, hf⟩ := hget i i (by rw [List.getElem?_range hi])
    cases hv : tucker.leading svd X ranks i with
    | error e => rw [hv] at hf; cases hf
    | ok v =>
    rw [hv, ok_bind] at hf
    cases hr : ranks[i]? with
    | none => rw [List.getElem?_eq_none_iff] at hr; omega
    | some r =>
    rw [show tucker.rankAt ranks i = .ok r by simp [tucker.rankAt, hr], ok_bind] at hf
    split at hf
    · rename_i hs
      cases hf
      have hi' : i < X.shape.length := by omega
      rw [List.getElem?_map, hy, List.getElem?_zipWith, hr, List.getElem?_eq_getElem hi', Option.map_some, hs]
      simp [List.getD_eq_getElem?_getD, List.getElem?_eq_getElem hi']
    · cases hf
  · rw [List.getElem?_eq_none (by simp; omega), List.getElem?_eq_none (by simp; omega)]

/-- **C93** for `HOOI` with its initialisation: whatever the executor does in the run of `init_op` and in the main
runs, and whatever the variables held before, `train` has the same effects and the same result. -/
theorem C93_hooi_train {Ω : Type} (svd : Tensor ℝ → Res (Tensor ℝ × Tensor ℝ × Tensor ℝ)) (X : Tensor ℝ)
    (ranks : List Nat) (hrk : ranks.length = X.order) (old : List (Tensor ℝ)) (hold : old.length = X.order) (ω : Ω)
    (init : (Nat → Tensor ℝ) × Ω → Res ((Nat → Tensor ℝ) × Ω))
    (run : (Nat → Tensor ℝ) × Ω → Res (((Nat → Tensor ℝ) × Ω) × Out (List (Tensor ℝ)) (Tensor ℝ) (Tensor ℝ) ℝ))
    (hinit : SchedulesOp (Hooi.Init.build svd X ranks) init)
    (hrun : Schedules (Hooi.build svd X ranks) (Hooi.fetch X) run) (ar : Arith ℝ) (args : Args ℝ) (n : Int)
    (self : Self (List (Tensor ℝ)) (Tensor ℝ) (Tensor ℝ)) :
    SameCall (train ar (HOOI.cls run) args n (init (facVars old, ω)) self)
      (train ar (HOOI.cls (tucker.HOOI.main svd X ranks)) args n (tucker.HOOI.init svd X ranks) self) := by
  have hs : SameOp (fun (s : (Nat → Tensor ℝ) × Ω) B => s.1 = facVars B ∧ HooiShapes X ranks B) (init (facVars old, ω))
      (tucker.HOOI.init svd X ranks) := by
    refine sameOp_of hinit (enc := facVars) (Good := HooiShapes X ranks) _ ω
      (fun c => C92_hooi_init_completes svd X ranks _ c) ?_ ?_ fun A h => hooi_init_shapes hrk h
    · intro A he c hr hc
      have := C92_hooi_init svd X ranks hrk old hold c hr hc
      rw [he] at this
      exact this
    · intro e he c hr hc
      have := C92_hooi_init svd X ranks hrk old hold c hr hc
      rw [he] at this
      exact this
  exact hooi_same hrk hrun ar args n hs self

example {Ω : Type} (svd : Tensor ℝ → Res (Tensor ℝ × Tensor ℝ × Tensor ℝ)) (X : Tensor ℝ) (ranks : List Nat) :
    ∃ run : (Nat → Tensor ℝ) × Ω → _, SchedulesOp (Hooi.Init.build svd X ranks) run :=
  schedulesOp_exists _ fun x c => C92_hooi_init_completes svd X ranks x c

example (svd : Tensor ℝ → Res (Tensor ℝ × Tensor ℝ × Tensor ℝ)) (X : Tensor ℝ) (ranks : List Nat) :
    ∃ c, Reaches (Hosvd.build svd X ranks) Empty.elim c ∧ Complete (Hosvd.build svd X ranks) c :=
  let ⟨c, h1, h2⟩ := C92_hosvd_completes svd X ranks Empty.elim _ .refl
  ⟨c, h1, h2⟩

end TD.Props
