import Verif.Lemmas.Sweep

/-!
# What the operations of the HOOI graph compute
-/
namespace TD.graph.Hooi
open TD Tensor
variable {α : Type} [CommSemiring α]

/-- The new factor of a mode. -/
def leftOf (svd : Tensor α → Res (Tensor α × Tensor α × Tensor α)) (X : Tensor α) (ranks : List Nat)
    (A : List (Tensor α)) (k : Nat) : Res (Tensor α) := do
  let Y ← ops.ttm X A none true (.int k)
  tucker.leading svd Y ranks k

/-- The results of the operations. -/
def den (svd : Tensor α → Res (Tensor α × Tensor α × Tensor α)) (X : Tensor α) (ranks : List Nat)
    (A : List (Tensor α)) : Op → Option (Tensor α)
  | .use k i => (steps (tucker.HOOI.modeUpdate svd X ranks) A k).bind fun s => s[i]?
  | .left k => (steps (tucker.HOOI.modeUpdate svd X ranks) A k).bind fun s => (leftOf svd X ranks s k).toOption
  | .assign k => facAt (tucker.HOOI.modeUpdate svd X ranks) id A (k + 1) k
  | .core => (tucker.HOOI.sweep svd X ranks A).toOption.bind fun r => (ops.ttm X r none true).toOption
  | .full => (tucker.HOOI.sweep svd X ranks A).toOption.bind fun r => (ops.ttm X r none true).toOption.bind fun g =>
      (tucker.fullOf g r).toOption

theorem modeUpdate_eq (svd : Tensor α → Res (Tensor α × Tensor α × Tensor α)) (X : Tensor α) (ranks : List Nat)
    (A : List (Tensor α)) (k : Nat) : (tucker.HOOI.modeUpdate svd X ranks A k).toOption =
      (leftOf svd X ranks A k).toOption.bind fun a => (tf.assign A k a).toOption := by
  unfold tucker.HOOI.modeUpdate leftOf
  simp only [toOption_bind, Option.bind_assoc]

theorem pass_local (svd : Tensor α → Res (Tensor α × Tensor α × Tensor α)) (X : Tensor α) (ranks : List Nat) :
    Local (tucker.HOOI.modeUpdate svd X ranks) id := by
  intro s k s' h
  have h' := modeUpdate_eq svd X ranks s k
  rw [h] at h'
  cases hn : (leftOf svd X ranks s k).toOption with
  | none => rw [hn] at h'; cases h'
  | some a =>
  rw [hn] at h'
  simp only [Option.bind_some, toOption_ok] at h'
  cases ha : tf.assign s k a with
  | error e => rw [ha] at h'; cases h'
  | ok A =>
  rw [ha] at h'
  cases h'
  obtain ⟨old, h1, h2, h3, _⟩ := assign_inv ha
  exact ⟨a, old, h1, h2, h3⟩

/-- Which operations run. -/
def Runs (N : Nat) : Op → Prop
  | .use k i => k < N ∧ i < N ∧ i ≠ k
  | .left k => k < N
  | .assign k => k < N
  | .core => True
  | .full => True

theorem mem_nodes (svd : Tensor α → Res (Tensor α × Tensor α × Tensor α)) (X : Tensor α) (ranks : List Nat) (n : Op) :
    n ∈ (build svd X ranks).nodes ↔ Runs X.order n := by
  simp only [build, modeOps, List.mem_append, List.mem_flatMap, List.mem_range, List.mem_map, mem_others, List.mem_cons,
    List.not_mem_nil, or_false]
  cases n <;> simp [Runs]

/-- What the operations find in the variables. -/
def seen (svd : Tensor α → Res (Tensor α × Tensor α × Tensor α)) (X : Tensor α) (ranks : List Nat)
    (A : List (Tensor α)) (vars : Nat → Tensor α) : Op → Nat → Tensor α
  | .use k _, v => seenAt (tucker.HOOI.modeUpdate svd X ranks) id A vars k v
  | _, v => vars v

section
variable {svd : Tensor α → Res (Tensor α × Tensor α × Tensor α)} {X : Tensor α} {ranks : List Nat} {A : List (Tensor α)}

theorem before_use {k i : Nat} (hi : i < X.order) (hik : i ≠ k) :
    Before (build svd X ranks) (.use k i) (.assign k) := by
  have h1 : Before (build svd X ranks) (.use k i) (.left k) :=
    .single (by simp [build, mem_others, hi, hik])
  have h2 : Before (build svd X ranks) (.left k) (.assign k) := .single (by simp [build])
  exact h1.trans h2

theorem before_assign {j k : Nat} (hjk : j < k) (hk : k < X.order) :
    Before (build svd X ranks) (.assign j) (.assign k) := by
  refine chain (G := build svd X ranks) Op.assign (fun k => Op.use k (if k = 0 then 1 else 0)) X.order ?_ ?_ hjk hk
  · intro k _
    simp [build, prev]
  · intro k hk
    refine before_use ?_ ?_
    · split <;> omega
    · split <;> omega

theorem isDen (hl : A.length = X.order) {vars : Nat → Tensor α}
    (hv : ∀ i < X.order, A[i]? = some (vars i))
    (hs : ∀ i < X.order, (vars i).shape = [X.shape.getD i 0, ranks.getD i 0]) :
    Den (build svd X ranks) vars (den svd X ranks A) (seen svd X ranks A vars) := by
  have hloc := pass_local svd X ranks
  have hold : ∀ i < (id A).length, (id A)[i]? = some (vars i) := fun i hi => hv i (hl ▸ hi)
  have hden : ∀ j, den svd X ranks A (.assign j) = facAt (tucker.HOOI.modeUpdate svd X ranks) id A (j + 1) j :=
    fun _ => rfl
  have hnone : ∀ {k i : Nat}, i < X.order → facAt (tucker.HOOI.modeUpdate svd X ranks) id A k i = none →
      steps (tucker.HOOI.modeUpdate svd X ranks) A k = none := fun hi h => hloc.facAt_none (by simpa [hl] using hi) h
  have hshape : ∀ {k : Nat} {s : List (Tensor α)}, steps (tucker.HOOI.modeUpdate svd X ranks) A k = some s →
      ∀ i < X.order, ∃ a, s[i]? = some a ∧ a.shape = [X.shape.getD i 0, ranks.getD i 0] := by
    intro k s h i hi
    have h1 := hloc.shapes h
    have h2 : s.length = X.order := by simpa [hl] using hloc.length h
    refine ⟨s[i]'(by omega), List.getElem?_eq_getElem _, ?_⟩
    have h3 := congrArg (·[i]?) h1
    simp only [List.getElem?_map, id, hv i hi] at h3
    rw [List.getElem?_eq_getElem (by omega)] at h3
    simp only [Option.map_some, Option.some.injEq] at h3
    rw [h3, hs i hi]
  have hlast : ∀ (n : Op), (∀ i < X.order, .assign i ∈ (build svd X ranks).deps n) →
      (∀ m ∈ (build svd X ranks).deps n, (den svd X ranks A m).isSome) →
      ∃ s, steps (tucker.HOOI.modeUpdate svd X ranks) A X.order = some s := by
    intro n hmem hd
    rcases Nat.eq_zero_or_pos X.order with h0 | h0
    · exact ⟨A, by rw [h0]; rfl⟩
    · have h1 := hd (.assign (X.order - 1)) (hmem _ (by omega))
      obtain ⟨s, hst⟩ := facAt_some (by rw [hden] at h1; exact h1)
      rw [show X.order - 1 + 1 = X.order by omega] at hst
      exact ⟨s, hst⟩
  have hall : ∀ (vals : Op → Option (Tensor α)), (∀ i < X.order, vals (.assign i) = den svd X ranks A (.assign i)) →
      ∀ s, steps (tucker.HOOI.modeUpdate svd X ranks) A X.order = some s →
      (List.range X.order).mapM (fun k => vals (.assign k)) = some s := by
    intro vals hvals s hst
    have h2 : s.length = X.order := by simpa [hl] using hloc.length hst
    rw [← mapM_range_get s, h2]
    refine mapM_congr' fun i hi => ?_
    have hi' : i < X.order := by simpa using hi
    rw [hvals i hi', hden]
    obtain ⟨s', h3, h4⟩ := hloc.earlier hst i hi'
    rw [facAt, h3]
    exact h4
  refine ⟨?_, ?_, ?_, ?_, ?_⟩
  · intro n hn hd vals rv hvals hrv
    rw [mem_nodes] at hn
    cases n with
    | use k i =>
        obtain ⟨s, hst⟩ := steps_of_prev (as := Op.assign) hden hd
        have e := hloc.seen hold hst (i := i) (by simpa [hl] using hn.2.1)
        have : rv i = seenAt (tucker.HOOI.modeUpdate svd X ranks) id A vars k i := hrv i (by simp [build])
        simp only [id] at e
        simp only [build, den, hst, Option.bind_some, e, this]
    | left k =>
        obtain ⟨s, hst⟩ := steps_of_prev (as := Op.assign) (k := k) hden
          (fun m hm => hd m (by simp only [build, List.mem_append]; exact .inr hm))
        have hc := hloc.collect hst
        have h2 : s.length = X.order := by simpa [hl] using hloc.length hst
        have e : (others X.order k).mapM (fun i => vals (.use k i)) = some (s.eraseIdx k) := by
          simp only [id, hl] at hc
          rw [← hc]
          refine mapM_congr' fun i hi => ?_
          rw [hvals _ (by simp only [build, List.mem_append, List.mem_map]; exact .inl ⟨i, hi, rfl⟩)]
          simp [den, hst]
        simp only [build, den, hst, Option.bind_some]
        rw [e]
        simp only [Option.bind_eq_bind, Option.bind_some, leftOf, ttm_skip X s k true h2]
    | assign k =>
        have hk : k < X.order := hn
        have h1 := hd (.left k) (by simp [build])
        have e1 := hvals (.left k) (by simp [build])
        cases hst : steps (tucker.HOOI.modeUpdate svd X ranks) A k with
        | none => simp [den, hst] at h1
        | some s =>
            obtain ⟨old, ho, hos⟩ := hshape hst k hk
            have hlen : k < s.length := (List.getElem?_eq_some_iff.1 ho).1
            simp only [build, e1]
            simp only [den, hst, Option.bind_some, Option.bind_eq_bind]
            rw [facAt, steps_succ, hst]
            simp only [Option.bind_some, modeUpdate_eq]
            cases hn' : (leftOf svd X ranks s k).toOption with
            | none => rfl
            | some a =>
            simp only [Option.bind_some]
            unfold tf.assign
            rw [ho]
            simp only [hos]
            by_cases hsh : a.shape = [X.shape.getD k 0, ranks.getD k 0]
            · rw [if_pos hsh, if_pos hsh]
              simp [hlen]
            · rw [if_neg hsh, if_neg hsh]
              rfl
    | core =>
        have hm : ∀ i < X.order, Op.assign i ∈ (build svd X ranks).deps .core := fun i hi => by
          simp only [build, List.mem_map, List.mem_range]; exact ⟨i, hi, rfl⟩
        obtain ⟨s, hst⟩ := hlast .core hm hd
        have e := hall vals (fun i hi => hvals _ (hm i hi)) s hst
        have hsw : (tucker.HOOI.sweep svd X ranks A).toOption = some s := hst
        simp only [build, den, hsw]
        rw [e]
        rfl
    | full =>
        have hm : ∀ i < X.order, Op.assign i ∈ (build svd X ranks).deps .full := fun i hi => by
          simp only [build, List.mem_cons, List.mem_map, List.mem_range]; exact .inr ⟨i, hi, rfl⟩
        obtain ⟨s, hst⟩ := hlast .full hm hd
        have e := hall vals (fun i hi => hvals _ (hm i hi)) s hst
        have hsw : (tucker.HOOI.sweep svd X ranks A).toOption = some s := hst
        have e2 := hvals .core (by simp [build])
        simp only [den, hsw, Option.bind_some] at e2
        simp only [build, den, hsw, e2]
        rw [e]
        rfl
  · intro n hn m hm hmn
    rw [mem_nodes] at hn
    have hprev : ∀ k, k ≤ X.order → k ≠ 0 → m = .assign (k - 1) →
        steps (tucker.HOOI.modeUpdate svd X ranks) A k = none := by
      rintro k hk hk0 rfl
      have := hnone (k := k - 1 + 1) (i := k - 1) (by omega) hmn
      rwa [show k - 1 + 1 = k by omega] at this
    have hfin : ∀ i < X.order, m = .assign i → (tucker.HOOI.sweep svd X ranks A).toOption = none := by
      rintro i h1 rfl
      exact steps_le (j := i + 1) (by omega) (hnone (i := i) h1 hmn)
    cases n <;> simp only [build, List.mem_append, List.mem_map, mem_prev, mem_others, List.mem_cons, List.mem_range,
      List.not_mem_nil, or_false] at hm <;> simp only [Runs] at hn
    · rw [den, hprev _ (by omega) hm.1 hm.2]; rfl
    · rename_i k
      rcases hm with ⟨i, h1, rfl⟩ | ⟨h1, h2⟩
      · have : steps (tucker.HOOI.modeUpdate svd X ranks) A k = none := hnone (i := i) h1.1 hmn
        rw [den, this]; rfl
      · rw [den, hprev _ (by omega) h1 h2]; rfl
    · rename_i k
      subst hm
      cases hst : steps (tucker.HOOI.modeUpdate svd X ranks) A k with
      | none => rw [den, facAt, steps_succ, hst]; rfl
      | some s =>
          rw [den, facAt, steps_succ, hst]
          simp only [den, hst, Option.bind_some] at hmn
          simp only [Option.bind_some, modeUpdate_eq, hmn]
          rfl
    · obtain ⟨i, h1, rfl⟩ := hm
      rw [den, hfin i h1 rfl]; rfl
    · rcases hm with rfl | ⟨i, h1, rfl⟩
      · simp only [den] at hmn ⊢
        cases h : (tucker.HOOI.sweep svd X ranks A).toOption with
        | none => rfl
        | some r =>
            rw [h] at hmn
            simp only [Option.bind_some] at hmn ⊢
            rw [hmn]; rfl
      · rw [den, hfin i h1 rfl]; rfl
  · intro n hn m hm
    rw [mem_nodes] at hn ⊢
    cases n <;> simp only [build, List.mem_append, List.mem_map, mem_prev, mem_others, List.mem_cons, List.mem_range,
      List.not_mem_nil, or_false] at hm <;> simp only [Runs] at hn
    · obtain ⟨h1, rfl⟩ := hm; simp only [Runs]; omega
    · rcases hm with ⟨i, h1, rfl⟩ | ⟨h1, rfl⟩
      · exact ⟨hn, h1⟩
      · simp only [Runs]; omega
    · subst hm; exact hn
    · obtain ⟨i, h1, rfl⟩ := hm; exact h1
    · rcases hm with rfl | ⟨i, h1, rfl⟩
      · trivial
      · exact h1
  · intro m _ n _ v h1 h2
    cases m <;> simp only [build, reduceCtorEq, Option.some.injEq] at h1
    cases n <;> simp only [build, reduceCtorEq, Option.some.injEq] at h2
    rw [h1, h2]
  · intro n hn v hvn
    rw [mem_nodes] at hn
    cases n <;> simp only [build, List.mem_cons, List.not_mem_nil, or_false] at hvn
    rename_i k i
    subst hvn
    by_cases hlt : v < k
    · left
      refine ⟨.assign v, (mem_nodes ..).2 hn.2.1, rfl, ?_, ?_⟩
      · obtain ⟨j, rfl⟩ : ∃ j, k = j + 1 := ⟨k - 1, by omega⟩
        have h1 : Before (build svd X ranks) (.assign j) (.use (j + 1) v) := .single (by simp [build, prev])
        by_cases hij : v = j
        · subst hij; exact h1
        · exact (before_assign (by omega) (by have := hn.1; omega)).trans h1
      · intro d hd
        rw [seen, seenAt, if_pos hlt, ← hden, hd]
        rfl
    · right
      refine ⟨?_, ?_⟩
      · intro w _ hw
        cases w <;> simp only [build, reduceCtorEq, Option.some.injEq] at hw
        subst hw
        exact (before_use hn.2.1 hn.2.2).trans (before_assign (by have := hn.2.2; omega) hn.2.1)
      · rw [seen, seenAt, if_neg hlt]

end

end TD.graph.Hooi
