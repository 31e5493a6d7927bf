import Verif.Model.Graph
import Mathlib.Data.List.Basic
import Mathlib.Data.Nat.Find
import Mathlib.Data.Nat.Init

/-!
# Every execution of a race-free graph computes the same values
-/
namespace TD.graph
open TD
variable {ι ν β : Type} [DecidableEq ι] [DecidableEq ν] {G : Graph ι ν β}

/-- `a` has to finish before `b` starts. -/
def Before (G : Graph ι ν β) : ι → ι → Prop := Relation.TransGen fun a b => a ∈ G.deps b

/-- `den` gives the result of every operation and `seen n v` what operation `n` finds in variable `v`. -/
structure Den (G : Graph ι ν β) (old : ν → β) (den : ι → Option β) (seen : ι → ν → β) : Prop where
  /-- kernels look at their inputs only -/
  kernel : ∀ n ∈ G.nodes, (∀ m ∈ G.deps n, (den m).isSome) → ∀ vals vars, (∀ m ∈ G.deps n, vals m = den m) →
    (∀ v ∈ G.reads n, vars v = seen n v) → G.kernel n vals vars = den n
  /-- failures are passed on -/
  strict : ∀ n ∈ G.nodes, ∀ m ∈ G.deps n, den m = none → den n = none
  /-- inputs of operations that run do run -/
  closed : ∀ n ∈ G.nodes, ∀ m ∈ G.deps n, m ∈ G.nodes
  /-- a variable has one writer -/
  one : ∀ m ∈ G.nodes, ∀ n ∈ G.nodes, ∀ v, G.writes m = some v → G.writes n = some v → m = n
  /-- a variable that is read is written before or after, never meanwhile -/
  race : ∀ n ∈ G.nodes, ∀ v ∈ G.reads n,
    (∃ w ∈ G.nodes, G.writes w = some v ∧ Before G w n ∧ ∀ d, den w = some d → seen n v = d) ∨
      ((∀ w ∈ G.nodes, G.writes w = some v → Before G n w) ∧ seen n v = old v)

omit [DecidableEq ι] [DecidableEq ν] in
theorem Den.nodes_before {old : ν → β} {den : ι → Option β} {seen : ι → ν → β} (D : Den G old den seen) {a b : ι}
    (h : Before G a b) (hb : b ∈ G.nodes) : a ∈ G.nodes := by
  induction h with
  | single h => exact D.closed _ hb _ h
  | tail _ h ih => exact ih (D.closed _ hb _ h)

omit [DecidableEq ι] [DecidableEq ν] in
theorem Den.strict_before {old : ν → β} {den : ι → Option β} {seen : ι → ν → β} (D : Den G old den seen) {a b : ι}
    (h : Before G a b) (hb : b ∈ G.nodes) (ha : den a = none) : den b = none := by
  induction h with
  | single h => exact D.strict _ hb _ h ha
  | tail _ h ih => exact D.strict _ hb _ h (ih (D.closed _ hb _ h))

/-- What holds at every moment of every execution. -/
structure Inv (G : Graph ι ν β) (old : ν → β) (den : ι → Option β) (c : Cfg ι ν β) : Prop where
  started : ∀ n d, c.started n = some d → d = den n ∧ n ∈ G.nodes ∧ ∀ m ∈ G.deps n, (c.done m).isSome
  done : ∀ n d, c.done n = some d → c.started n = some d
  written : ∀ w v x, G.writes w = some v → c.done w = some (some x) → c.vars v = x
  kept : ∀ v, (∀ w ∈ G.nodes, G.writes w = some v → ∀ x, c.done w ≠ some (some x)) → c.vars v = old v

omit [DecidableEq ι] [DecidableEq ν] in
theorem Inv.done_node {old : ν → β} {den : ι → Option β} {c : Cfg ι ν β} (h : Inv G old den c) {n : ι}
    (hn : (c.done n).isSome) : n ∈ G.nodes := by
  obtain ⟨d, hd⟩ := Option.isSome_iff_exists.1 hn
  exact (h.started _ _ (h.done _ _ hd)).2.1

omit [DecidableEq ι] [DecidableEq ν] in
theorem Inv.before {old : ν → β} {den : ι → Option β} {c : Cfg ι ν β} (h : Inv G old den c) {a b : ι}
    (hab : Before G a b) (hb : (c.started b).isSome) : (c.done a).isSome := by
  induction hab with
  | single hd =>
      obtain ⟨d, hd'⟩ := Option.isSome_iff_exists.1 hb
      exact (h.started _ _ hd').2.2 _ hd
  | tail _ hd ih =>
      obtain ⟨d, hd'⟩ := Option.isSome_iff_exists.1 hb
      have := (h.started _ _ hd').2.2 _ hd
      obtain ⟨e, he⟩ := Option.isSome_iff_exists.1 this
      exact ih (Option.isSome_iff_exists.2 ⟨e, h.done _ _ he⟩)

omit [DecidableEq ι] [DecidableEq ν] in
theorem Inv.before' {old : ν → β} {den : ι → Option β} {c : Cfg ι ν β} (h : Inv G old den c) {a b : ι}
    (hab : Before G a b) (hb : ∀ m ∈ G.deps b, (c.done m).isSome) : (c.done a).isSome := by
  cases hab with
  | single hd => exact hb _ hd
  | tail hab hd =>
      obtain ⟨e, he⟩ := Option.isSome_iff_exists.1 (hb _ hd)
      exact h.before hab (Option.isSome_iff_exists.2 ⟨e, h.done _ _ he⟩)

omit [DecidableEq ι] [DecidableEq ν] in
theorem inv_init (old : ν → β) (den : ι → Option β) : Inv G old den (Cfg.init old) := by
  refine ⟨?_, ?_, ?_, ?_⟩
  · intro n d h; cases h
  · intro n d h; cases h
  · intro w v x _ h; cases h
  · intro v _; rfl

theorem store_ne (vars : ν → β) {w : Option ν} (d : Option β) {v : ν} (h : w ≠ some v) : store vars w d v = vars v := by
  cases w with
  | none => rfl
  | some u =>
      have : v ≠ u := by rintro rfl; exact h rfl
      cases d with
      | none => rfl
      | some x => simp [store, Function.update_of_ne this]

theorem inv_step {old : ν → β} {den : ι → Option β} {seen : ι → ν → β} (D : Den G old den seen)
    {c c' : Cfg ι ν β} (h : Inv G old den c) (hs : Step G c c') : Inv G old den c' := by
  cases hs with
  | start n hn hst hd =>
      have hval : ∀ m ∈ G.deps n, c.val m = den m := by
        intro m hm
        obtain ⟨d, hd'⟩ := Option.isSome_iff_exists.1 (hd m hm)
        have := (h.started _ _ (h.done _ _ hd')).1
        simp [Cfg.val, hd', this]
      have hk : c.result G n = den n := by
        unfold Cfg.result
        by_cases hall : ∀ m ∈ G.deps n, (den m).isSome
        · rw [if_pos (by rw [List.all_eq_true]; intro m hm; rw [hval m hm]; exact hall m hm)]
          refine D.kernel n hn hall _ _ hval ?_
          intro v hv
          rcases D.race n hn v hv with ⟨w, hwn, hwv, hb, e⟩ | ⟨hb, e⟩
          · obtain ⟨d, hd'⟩ := Option.isSome_iff_exists.1 (h.before' hb hd)
            have hdw := (h.started _ _ (h.done _ _ hd')).1
            cases hdw' : den w with
            | none =>
                exfalso
                have : ∃ m ∈ G.deps n, den m = none := by
                  cases hb with
                  | single hx => exact ⟨_, hx, hdw'⟩
                  | tail hx hy => exact ⟨_, hy, D.strict_before hx (D.closed n hn _ hy) hdw'⟩
                obtain ⟨m, hm, hm'⟩ := this
                have := hall m hm
                rw [hm'] at this
                cases this
            | some x =>
                rw [e x hdw']
                exact h.written w v x hwv (by rw [hd', hdw, hdw'])
          · rw [e]
            refine h.kept v fun w hw hwv x hdw => ?_
            have hst' := h.before (hb w hw hwv) (Option.isSome_iff_exists.2 ⟨_, h.done _ _ hdw⟩)
            obtain ⟨e', he'⟩ := Option.isSome_iff_exists.1 hst'
            rw [h.done _ _ he'] at hst
            cases hst
        · push Not at hall
          obtain ⟨m, hm, hm'⟩ := hall
          have hnone : den m = none := by simpa using hm'
          rw [D.strict n hn m hm hnone, if_neg]
          intro ht
          rw [List.all_eq_true] at ht
          have := ht m hm
          rw [hval m hm, hnone] at this
          cases this
      refine ⟨?_, ?_, h.written, h.kept⟩
      · intro m d hm
        by_cases hmn : m = n
        · subst hmn
          simp only [Function.update_self, Option.some.injEq] at hm
          exact ⟨hm ▸ hk, hn, hd⟩
        · simp only [Function.update_of_ne hmn] at hm
          exact h.started m d hm
      · intro m d hm
        have := h.done m d hm
        have hmn : m ≠ n := by rintro rfl; rw [hst] at this; cases this
        simpa only [Function.update_of_ne hmn] using this
  | finish n d hst hf =>
      obtain ⟨hd, hn, hdep⟩ := h.started n d hst
      have hmono : ∀ m, (c.done m).isSome → (Function.update c.done n (some d) m).isSome := by
        intro m hm
        by_cases hmn : m = n
        · subst hmn; simp
        · simpa [Function.update_of_ne hmn] using hm
      refine ⟨?_, ?_, ?_, ?_⟩
      · intro m e hm
        obtain ⟨h1, h2, h3⟩ := h.started m e hm
        exact ⟨h1, h2, fun k hk => hmono k (h3 k hk)⟩
      · intro m e hm
        by_cases hmn : m = n
        · subst hmn
          simp only [Function.update_self, Option.some.injEq] at hm
          rw [← hm]; exact hst
        · simp only [Function.update_of_ne hmn] at hm
          exact h.done m e hm
      · intro w v x hwv hw
        by_cases hwn : w = n
        · subst hwn
          simp only [Function.update_self, Option.some.injEq] at hw
          subst hw
          simp only [store, hwv, Function.update_self]
        · simp only [Function.update_of_ne hwn] at hw
          have hw' : w ∈ G.nodes := h.done_node (by rw [hw]; rfl)
          have hne : G.writes n ≠ some v := fun e => hwn (D.one w hw' n hn v hwv e)
          simp only [store_ne c.vars d hne]
          exact h.written w v x hwv hw
      · intro v hv
        by_cases hne : G.writes n = some v
        · cases d with
          | some x => exact absurd (by simp) (hv n hn hne x)
          | none =>
              have : store c.vars (G.writes n) none v = c.vars v := by rw [hne]; rfl
              simp only [this]
              refine h.kept v fun w hw hwv x hx => ?_
              have hwn : w = n := D.one w hw n hn v hwv hne
              subst hwn
              rw [hf] at hx; cases hx
        · simp only [store_ne c.vars d hne]
          refine h.kept v fun w hw hwv x hx => ?_
          have hwn : w ≠ n := by rintro rfl; exact hne hwv
          refine hv w hw hwv x ?_
          simpa only [Function.update_of_ne hwn] using hx

theorem inv_reaches {old : ν → β} {den : ι → Option β} {seen : ι → ν → β} (D : Den G old den seen)
    {c : Cfg ι ν β} (h : Reaches G old c) : Inv G old den c := by
  induction h with
  | refl => exact inv_init old den
  | tail _ hs ih => exact inv_step D ih hs

/-- Every complete execution computes `den`. -/
theorem complete_den {old : ν → β} {den : ι → Option β} {seen : ι → ν → β} (D : Den G old den seen)
    {c : Cfg ι ν β} (h : Reaches G old c) (hc : Complete G c) :
    (∀ n ∈ G.nodes, c.done n = some (den n)) ∧
      (∀ w ∈ G.nodes, ∀ v x, G.writes w = some v → den w = some x → c.vars v = x) ∧
      ∀ v, (∀ w ∈ G.nodes, G.writes w ≠ some v) → c.vars v = old v := by
  have I := inv_reaches D h
  have h1 : ∀ n ∈ G.nodes, c.done n = some (den n) := by
    intro n hn
    obtain ⟨d, hd⟩ := Option.isSome_iff_exists.1 (hc n hn)
    rw [hd, (I.started _ _ (I.done _ _ hd)).1]
  refine ⟨h1, ?_, ?_⟩
  · intro w hw v x hwv hx
    exact I.written w v x hwv (by rw [h1 w hw, hx])
  · intro v hv
    exact I.kept v fun w hw hwv => absurd hwv (hv w hw)

/-- Started and finished operations, whatever the kernels compute. -/
structure Shape (G : Graph ι ν β) (c : Cfg ι ν β) : Prop where
  done : ∀ n d, c.done n = some d → c.started n = some d

theorem shape_reaches {old : ν → β} {c : Cfg ι ν β} (h : Reaches G old c) : Shape G c := by
  induction h with
  | refl => exact ⟨fun n d h => by cases h⟩
  | tail _ hs ih =>
      cases hs with
      | start n hn hst hd =>
          refine ⟨fun m d hm => ?_⟩
          have := ih.done m d hm
          have hmn : m ≠ n := by rintro rfl; rw [hst] at this; cases this
          simpa only [Function.update_of_ne hmn] using this
      | finish n d hst hf =>
          refine ⟨fun m e hm => ?_⟩
          by_cases hmn : m = n
          · subst hmn
            simp only [Function.update_self, Option.some.injEq] at hm
            rw [← hm]; exact hst
          · simp only [Function.update_of_ne hmn] at hm
            exact ih.done m e hm

/-- An execution that has not finished can go on, provided the graph has no cycle. -/
theorem progress {old : ν → β} {c : Cfg ι ν β} (r : ι → Nat)
    (hr : ∀ n ∈ G.nodes, ∀ m ∈ G.deps n, m ∈ G.nodes ∧ r m < r n)
    (_h : Reaches G old c) (hc : ¬ Complete G c) : ∃ c', Step G c c' := by
  have : ∃ k, ∃ n ∈ G.nodes, c.done n = none ∧ r n = k := by
    unfold Complete at hc
    push Not at hc
    obtain ⟨n, hn, hd⟩ := hc
    exact ⟨r n, n, hn, by simpa using hd, rfl⟩
  classical
  obtain ⟨n, hn, hd, hk⟩ := Nat.find_spec this
  have hmin := fun k (hk : k < Nat.find this) => Nat.find_min this hk
  cases hs : c.started n with
  | some d => exact ⟨_, Step.finish c n d hs hd⟩
  | none =>
      refine ⟨_, Step.start c n hn hs fun m hm => ?_⟩
      by_contra hdm
      obtain ⟨h1, h2⟩ := hr n hn m hm
      exact hmin (r m) (hk ▸ h2) ⟨m, h1, by simpa using hdm, rfl⟩

/-- How much remains to be done. -/
def todo (G : Graph ι ν β) (c : Cfg ι ν β) : Nat :=
  G.nodes.countP (fun n => (c.started n).isNone) + G.nodes.countP (fun n => (c.done n).isNone)

theorem countP_update (l : List ι) (f : ι → Option (Option β)) (n : ι) (d : Option β) (hn : n ∈ l) (hf : f n = none) :
    l.countP (fun m => (Function.update f n (some d) m).isNone) < l.countP (fun m => (f m).isNone) := by
  induction l with
  | nil => cases hn
  | cons a l ih =>
      have hle : l.countP (fun m => (Function.update f n (some d) m).isNone) ≤ l.countP (fun m => (f m).isNone) := by
        refine List.countP_mono_left fun x _ hx => ?_
        by_cases hxn : x = n
        · subst hxn; simp at hx
        · simpa only [Function.update_of_ne hxn] using hx
      by_cases han : a = n
      · subst han
        simp only [List.countP_cons, Function.update_self, hf, Option.isNone_some, Option.isNone_none,
          if_true, Bool.false_eq_true, if_false]
        omega
      · have hl : n ∈ l := by
          rcases List.mem_cons.1 hn with h | h
          · exact absurd h.symm han
          · exact h
        have := ih hl
        simp only [List.countP_cons, Function.update_of_ne han]
        omega

theorem todo_step {c c' : Cfg ι ν β} (h : ∀ n d, c.started n = some d → n ∈ G.nodes)
    (hs : Step G c c') : todo G c' < todo G c := by
  cases hs with
  | start n hn hst hd =>
      have := countP_update G.nodes c.started n (c.result G n) hn hst
      simp only [todo]
      omega
  | finish n d hst hf =>
      have := countP_update G.nodes c.done n d (h n d hst) hf
      simp only [todo]
      omega

theorem started_node {old : ν → β} {c : Cfg ι ν β} (h : Reaches G old c) :
    ∀ n d, c.started n = some d → n ∈ G.nodes := by
  induction h with
  | refl => intro n d h; cases h
  | tail _ hs ih =>
      cases hs with
      | start n hn hst hd =>
          intro m d hm
          by_cases hmn : m = n
          · subst hmn; exact hn
          · simp only [Function.update_of_ne hmn] at hm
            exact ih m d hm
      | finish n d hst hf => exact ih

/-- From every moment of an execution of a graph without cycles the execution can be completed. -/
theorem complete_exists {old : ν → β} (r : ι → Nat)
    (hr : ∀ n ∈ G.nodes, ∀ m ∈ G.deps n, m ∈ G.nodes ∧ r m < r n) :
    ∀ c : Cfg ι ν β, Reaches G old c → ∃ c', Relation.ReflTransGen (Step G) c c' ∧ Complete G c' := by
  suffices H : ∀ k, ∀ c : Cfg ι ν β, todo G c = k → Reaches G old c →
      ∃ c', Relation.ReflTransGen (Step G) c c' ∧ Complete G c' from fun c h => H _ c rfl h
  intro k
  induction k using Nat.strong_induction_on with
  | _ k ih =>
      intro c hk h
      by_cases hc : Complete G c
      · exact ⟨c, .refl, hc⟩
      · obtain ⟨c', hs⟩ := progress r hr h hc
        have hlt := todo_step (started_node h) hs
        obtain ⟨c'', h1, h2⟩ := ih _ (hk ▸ hlt) c' rfl (h.tail hs)
        exact ⟨c'', Relation.ReflTransGen.head hs h1, h2⟩

end TD.graph
