import Verif.Lemmas.Sweep
import Verif.Lemmas.Mul

/-!
# What the operations of the CP_ALS graph compute
-/
namespace TD.graph.Cp
open TD Tensor
variable {α : Type} [Field α] [LinearOrder α]

/-- One pass of the loop of `cp.sweep`. -/
def pass (pinv : Tensor α → Res (Tensor α)) (X : Tensor α) (rank : Nat)
    (st : List (Tensor α) × Option (Tensor α)) (mode : Nat) : Res (List (Tensor α) × Option (Tensor α)) := do
  let u ← cp.modeUpdate pinv X rank st.1 mode
  return (u.A, some u.lam)

/-- `XA` of a mode. -/
def xaOf {α : Type} [CommSemiring α] (X : Tensor α) (A : List (Tensor α)) (k : Nat) : Res (Tensor α) := do
  let mat ← ops.unfold X k
  let K ← ops.khatri A (.int k) true
  tf.matmul mat K

/-- `V` of a mode. -/
def vOf {α : Type} [CommSemiring α] (A : List (Tensor α)) (k : Nat) : Res (Tensor α) := do
  let AtA ← A.mapM fun a => tf.matmul a a true false
  ops.hadamard AtA (.int k)

/-- `non_norm_A` of a mode. -/
def nonNorm (pinv : Tensor α → Res (Tensor α)) (X : Tensor α) (A : List (Tensor α)) (k : Nat) : Res (Tensor α) := do
  let XA ← xaOf X A k
  let V ← vOf A k
  let P ← pinv V
  tf.matmul XA P

/-- `lambda_op` of a mode. -/
def lamOf (X : Tensor α) (rank k : Nat) (n : Tensor α) : Res (Tensor α) := do
  let N ← tf.reshape n [(X.shape.getD k 0 : Nat), (rank : Nat)]
  tf.reduceMax0 N

/-- The results of the operations. -/
def den (pinv : Tensor α → Res (Tensor α)) (X : Tensor α) (rank : Nat) (A : List (Tensor α)) : Op → Option (Tensor α)
  | .gram k i => (steps (pass pinv X rank) (A, none) k).bind fun s => s.1[i]?.bind fun a =>
      (tf.matmul a a true false).toOption
  | .kr k i => (steps (pass pinv X rank) (A, none) k).bind fun s => s.1[i]?
  | .xa k => (steps (pass pinv X rank) (A, none) k).bind fun s => (xaOf X s.1 k).toOption
  | .v k => (steps (pass pinv X rank) (A, none) k).bind fun s => (vOf s.1 k).toOption
  | .nn k => (steps (pass pinv X rank) (A, none) k).bind fun s => (nonNorm pinv X s.1 k).toOption
  | .lam k => (steps (pass pinv X rank) (A, none) k).bind fun s =>
      (do let n ← nonNorm pinv X s.1 k
          lamOf X rank k n : Res (Tensor α)).toOption
  | .assign k => facAt (pass pinv X rank) Prod.fst (A, none) (k + 1) k
  | .full => (cp.sweep pinv X rank A).toOption.bind fun r => (cp.fullOf r.1 r.2).toOption

theorem modeUpdate_eq (pinv : Tensor α → Res (Tensor α)) (X : Tensor α) (rank : Nat) (A : List (Tensor α)) (k : Nat) :
    (cp.modeUpdate pinv X rank A k).toOption = (nonNorm pinv X A k).toOption.bind fun n =>
      (lamOf X rank k n).toOption.bind fun lam => (tf.div n lam).toOption.bind fun a =>
        (tf.assign A k a).toOption.map fun A => ⟨A, lam, n⟩ := by
  unfold cp.modeUpdate nonNorm xaOf vOf lamOf
  cases ops.unfold X k with
  | error e => rfl
  | ok mat =>
  simp only [ok_bind]
  cases A.mapM fun a => tf.matmul a a true false with
  | error e =>
      simp only [error_bind, toOption_error]
      cases ops.khatri A (.int k) true with
      | error e => rfl
      | ok K =>
      simp only [ok_bind]
      cases tf.matmul mat K <;> rfl
  | ok AtA =>
  simp only [ok_bind]
  cases ops.khatri A (.int k) true with
  | error e => rfl
  | ok K =>
  simp only [ok_bind]
  cases tf.matmul mat K with
  | error e => rfl
  | ok XA =>
  simp only [ok_bind]
  cases ops.hadamard AtA (.int k) with
  | error e => rfl
  | ok V =>
  simp only [ok_bind]
  cases pinv V with
  | error e => rfl
  | ok P =>
  simp only [ok_bind]
  cases tf.matmul XA P with
  | error e => rfl
  | ok n =>
  simp only [ok_bind, toOption_ok, Option.bind_some]
  cases tf.reshape n [(X.shape.getD k 0 : Nat), (rank : Nat)] with
  | error e => rfl
  | ok N =>
  simp only [ok_bind]
  cases tf.reduceMax0 N with
  | error e => rfl
  | ok lam =>
  simp only [ok_bind, toOption_ok, Option.bind_some]
  cases tf.div n lam with
  | error e => rfl
  | ok a =>
  simp only [ok_bind, toOption_ok, Option.bind_some]
  cases tf.assign A k a <;> rfl

theorem pass_local (pinv : Tensor α → Res (Tensor α)) (X : Tensor α) (rank : Nat) :
    Local (pass pinv X rank) Prod.fst := by
  intro s k s' h
  unfold pass at h
  have h' : (cp.modeUpdate pinv X rank s.1 k).toOption.map (fun u => (u.A, some u.lam)) = some s' := by
    cases hu : cp.modeUpdate pinv X rank s.1 k with
    | error e => rw [hu] at h; cases h
    | ok u => rw [hu] at h; cases h; rfl
  rw [modeUpdate_eq] at h'
  cases hn : (nonNorm pinv X s.1 k).toOption with
  | none => rw [hn] at h'; cases h'
  | some n =>
  rw [hn] at h'
  simp only [Option.bind_some] at h'
  cases hl : (lamOf X rank k n).toOption with
  | none => rw [hl] at h'; cases h'
  | some lam =>
  rw [hl] at h'
  simp only [Option.bind_some] at h'
  cases hd : (tf.div n lam).toOption with
  | none => rw [hd] at h'; cases h'
  | some a =>
  rw [hd] at h'
  simp only [Option.bind_some] at h'
  cases ha : tf.assign s.1 k a with
  | error e => rw [ha] at h'; cases h'
  | ok A =>
  rw [ha] at h'
  cases h'
  obtain ⟨old, h1, h2, h3, _⟩ := assign_inv ha
  exact ⟨a, old, h1, h2, h3⟩

/-- Which operations run. -/
def Runs (N : Nat) : Op → Prop
  | .gram k i => k < N ∧ i < N ∧ i ≠ k
  | .kr k i => k < N ∧ i < N ∧ i ≠ k
  | .xa k => k < N
  | .v k => k < N
  | .nn k => k < N
  | .lam k => k < N
  | .assign k => k < N
  | .full => True

theorem mem_nodes (pinv : Tensor α → Res (Tensor α)) (X : Tensor α) (rank : Nat) (n : Op) :
    n ∈ (build pinv X rank).nodes ↔ Runs X.order n := by
  simp only [build, modeOps, List.mem_append, List.mem_flatMap, List.mem_range, List.mem_map, mem_others, List.mem_cons,
    List.not_mem_nil, or_false]
  cases n <;> simp [Runs]

/-- What the operations find in the variables. -/
def seen (pinv : Tensor α → Res (Tensor α)) (X : Tensor α) (rank : Nat) (A : List (Tensor α)) (vars : Nat → Tensor α) :
    Op → Nat → Tensor α
  | .gram k _, v => seenAt (pass pinv X rank) Prod.fst (A, none) vars k v
  | .kr k _, v => seenAt (pass pinv X rank) Prod.fst (A, none) vars k v
  | _, v => vars v

section
variable {pinv : Tensor α → Res (Tensor α)} {X : Tensor α} {rank : Nat} {A : List (Tensor α)}

theorem before_gram {k i : Nat} (hi : i < X.order) (hik : i ≠ k) :
    Before (build pinv X rank) (.gram k i) (.assign k) := by
  have h1 : Before (build pinv X rank) (.gram k i) (.v k) :=
    .single (by simp [build, mem_others, hi, hik])
  have h2 : Before (build pinv X rank) (.v k) (.nn k) := .single (by simp [build])
  have h3 : Before (build pinv X rank) (.nn k) (.assign k) := .single (by simp [build])
  exact (h1.trans h2).trans h3

theorem before_kr {k i : Nat} (hi : i < X.order) (hik : i ≠ k) :
    Before (build pinv X rank) (.kr k i) (.assign k) := by
  have h1 : Before (build pinv X rank) (.kr k i) (.xa k) :=
    .single (by simp [build, mem_others, hi, hik])
  have h2 : Before (build pinv X rank) (.xa k) (.nn k) := .single (by simp [build])
  have h3 : Before (build pinv X rank) (.nn k) (.assign k) := .single (by simp [build])
  exact (h1.trans h2).trans h3

theorem before_assign {j k : Nat} (hjk : j < k) (hk : k < X.order) :
    Before (build pinv X rank) (.assign j) (.assign k) := by
  refine chain (G := build pinv X rank) Op.assign (fun k => Op.kr k (if k = 0 then 1 else 0)) X.order ?_ ?_ hjk hk
  · intro k _
    simp [build, prev]
  · intro k hk
    refine before_kr ?_ ?_
    · split <;> omega
    · split <;> omega

theorem steps_full (h : 0 < X.order) {s : List (Tensor α) × Option (Tensor α)}
    (hs : steps (pass pinv X rank) (A, none) X.order = some s) :
    ∃ lam, s.2 = some lam ∧ den pinv X rank A (.lam (X.order - 1)) = some lam := by
  obtain ⟨m, hm⟩ : ∃ m, X.order = m + 1 := ⟨X.order - 1, by omega⟩
  rw [hm, steps_succ] at hs
  cases h0 : steps (pass pinv X rank) (A, none) m with
  | none => rw [h0] at hs; cases hs
  | some t =>
  rw [h0] at hs
  simp only [Option.bind_some, pass, toOption_bind, modeUpdate_eq] at hs
  rw [hm]
  simp only [den, Nat.add_sub_cancel, h0, Option.bind_some, toOption_bind]
  cases hn : (nonNorm pinv X t.1 m).toOption with
  | none => rw [hn] at hs; cases hs
  | some n =>
  rw [hn] at hs
  simp only [Option.bind_some] at hs ⊢
  cases hl : (lamOf X rank m n).toOption with
  | none => rw [hl] at hs; cases hs
  | some lam =>
  rw [hl] at hs
  simp only [Option.bind_some] at hs ⊢
  cases hd : (tf.div n lam).toOption with
  | none => rw [hd] at hs; cases hs
  | some a =>
  rw [hd] at hs
  simp only [Option.bind_some] at hs
  cases ha : tf.assign t.1 m a with
  | error e => rw [ha] at hs; cases hs
  | ok A' =>
  rw [ha] at hs
  cases hs
  exact ⟨lam, rfl, rfl⟩

theorem sweep_steps : (cp.sweep pinv X rank A).toOption =
    (steps (pass pinv X rank) (A, none) X.order).bind fun s => s.2.map fun lam => (s.1, lam) := by
  have : cp.sweep pinv X rank A = (List.range X.order).foldlM (pass pinv X rank) (A, none) >>= fun r =>
      match r.2 with
      | none => .error .unboundLocal
      | some lam => .ok (r.1, lam) := rfl
  rw [this, toOption_bind]
  unfold steps
  congr 1
  funext s
  obtain ⟨a, b⟩ := s
  cases b <;> rfl

theorem isDen (h0 : 0 < X.order) (hl : A.length = X.order) {vars : Nat → Tensor α}
    (hv : ∀ i < X.order, A[i]? = some (vars i)) (hs : ∀ i < X.order, (vars i).shape = [X.shape.getD i 0, rank]) :
    Den (build pinv X rank) vars (den pinv X rank A) (seen pinv X rank A vars) := by
  have hloc := pass_local pinv X rank
  have hold : ∀ i < (Prod.fst (A, (none : Option (Tensor α)))).length,
      (Prod.fst (A, (none : Option (Tensor α))))[i]? = some (vars i) := fun i hi => hv i (hl ▸ hi)
  have hden : ∀ j, den pinv X rank A (.assign j) = facAt (pass pinv X rank) Prod.fst (A, none) (j + 1) j := fun _ => rfl
  have hnone : ∀ {k i : Nat}, i < X.order → facAt (pass pinv X rank) Prod.fst (A, none) k i = none →
      steps (pass pinv X rank) (A, none) k = none := fun hi h => hloc.facAt_none (by simpa [hl] using hi) h
  have hshape : ∀ {k : Nat} {s : List (Tensor α) × Option (Tensor α)}, steps (pass pinv X rank) (A, none) k = some s →
      ∀ i < X.order, ∃ a, s.1[i]? = some a ∧ a.shape = [X.shape.getD i 0, rank] := by
    intro k s h i hi
    have h1 := hloc.shapes h
    have h2 : s.1.length = X.order := by simpa [hl] using hloc.length h
    refine ⟨s.1[i]'(by omega), List.getElem?_eq_getElem _, ?_⟩
    have h3 := congrArg (·[i]?) h1
    simp only [List.getElem?_map, hv i hi] at h3
    rw [List.getElem?_eq_getElem (by omega)] at h3
    simp only [Option.map_some, Option.some.injEq] at h3
    rw [h3, hs i hi]
  have hgram : ∀ {k : Nat} {s : List (Tensor α) × Option (Tensor α)}, steps (pass pinv X rank) (A, none) k = some s →
      ∃ r, s.1.mapM (fun a => (tf.matmul a a true false).toOption) = some r := by
    intro k s h
    have h2 : s.1.length = X.order := by simpa [hl] using hloc.length h
    have : ∀ a ∈ s.1, ∃ g, tf.matmul a a true false = .ok g := by
      intro a ha
      obtain ⟨i, hi, e⟩ := List.getElem_of_mem ha
      obtain ⟨b, h3, h4⟩ := hshape h i (by omega)
      rw [List.getElem?_eq_getElem hi] at h3
      simp only [Option.some.injEq] at h3
      rw [e] at h3
      subst h3
      exact ⟨_, tf.matmul_tn h4 h4⟩
    generalize s.1 = l at this
    clear h2 h
    induction l with
    | nil => exact ⟨[], rfl⟩
    | cons a l ih =>
        obtain ⟨g, hg⟩ := this a (by simp)
        obtain ⟨r, hr⟩ := ih fun b hb => this b (by simp [hb])
        exact ⟨g :: r, by simp [List.mapM_cons, hg, hr]⟩
  refine ⟨?_, ?_, ?_, ?_, ?_⟩
  · intro n hn hd vals rv hvals hrv
    rw [mem_nodes] at hn
    cases n with
    | gram k i =>
        obtain ⟨s, hst⟩ := steps_of_prev (as := Op.assign) hden hd
        have e := hloc.seen hold hst (i := i) (by simpa [hl] using hn.2.1)
        have : rv i = seenAt (pass pinv X rank) Prod.fst (A, none) vars k i := hrv i (by simp [build])
        simp only [build, den, hst, Option.bind_some, e, this]
    | kr k i =>
        obtain ⟨s, hst⟩ := steps_of_prev (as := Op.assign) hden hd
        have e := hloc.seen hold hst (i := i) (by simpa [hl] using hn.2.1)
        have : rv i = seenAt (pass pinv X rank) Prod.fst (A, none) vars k i := hrv i (by simp [build])
        simp only [build, den, hst, Option.bind_some, e, this]
    | xa k =>
        obtain ⟨s, hst⟩ := steps_of_prev (as := Op.assign) (k := k) hden
          (fun m hm => hd m (by simp only [build, List.mem_append]; exact .inr hm))
        have hc := hloc.collect hst
        have e : (others X.order k).mapM (fun i => vals (.kr k i)) = some (s.1.eraseIdx k) := by
          rw [← hc]
          simp only [hl]
          refine mapM_congr' fun i hi => ?_
          rw [hvals _ (by simp only [build, List.mem_append, List.mem_map]; exact .inl ⟨i, hi, rfl⟩)]
          simp [den, hst]
        simp only [build, den, hst, Option.bind_some]
        rw [e]
        simp only [Option.bind_eq_bind, Option.bind_some, xaOf, khatri_skip]
    | v k =>
        cases hst : steps (pass pinv X rank) (A, none) k with
        | none =>
            have hk : k < X.order := hn
            by_cases ho : others X.order k = []
            · exfalso
              -- a single mode: nothing precedes it
              have : k = 0 := by
                by_contra h
                have : 0 ∈ others X.order k := mem_others.2 ⟨by omega, by omega⟩
                rw [ho] at this; cases this
              subst this
              cases hst
            · obtain ⟨i, hi⟩ := List.exists_mem_of_ne_nil _ ho
              have := hd (.gram k i) (by simp only [build, List.mem_map]; exact ⟨i, hi, rfl⟩)
              simp [den, hst] at this
        | some s =>
            obtain ⟨r, hr⟩ := hgram hst
            have h2 : s.1.length = X.order := by simpa [hl] using hloc.length hst
            have e : (others X.order k).mapM (fun i => vals (.gram k i)) = some (r.eraseIdx k) := by
              have := mapM_eraseIdx k ((mapM_range_bind s.1 fun a => (tf.matmul a a true false).toOption).trans hr)
              rw [h2] at this
              rw [← this]
              refine mapM_congr' fun i hi => ?_
              rw [hvals _ (by simp only [build, List.mem_map]; exact ⟨i, hi, rfl⟩)]
              simp [den, hst]
            simp only [build, den, hst, vOf, Option.bind_some, toOption_bind, toOption_mapM, hr]
            rw [e]
            simp only [Option.bind_eq_bind, Option.bind_some, hadamard_skip]
    | nn k =>
        have h1 := hd (.xa k) (by simp [build])
        have e1 := hvals (.xa k) (by simp [build])
        have e2 := hvals (.v k) (by simp [build])
        cases hst : steps (pass pinv X rank) (A, none) k with
        | none => simp [den, hst] at h1
        | some s =>
            simp only [build, e1, e2, den, hst, nonNorm, Option.bind_some, toOption_bind, Option.bind_eq_bind,
              Option.bind_assoc]
    | lam k =>
        have h1 := hd (.nn k) (by simp [build])
        have e1 := hvals (.nn k) (by simp [build])
        cases hst : steps (pass pinv X rank) (A, none) k with
        | none => simp [den, hst] at h1
        | some s =>
            simp only [build, e1, den, hst, lamOf, Option.bind_some, toOption_bind, Option.bind_eq_bind]
    | assign k =>
        have hk : k < X.order := hn
        have h1 := hd (.nn k) (by simp [build])
        have e1 := hvals (.nn k) (by simp [build])
        have e2 := hvals (.lam k) (by simp [build])
        have h2 := hd (.lam k) (by simp [build])
        cases hst : steps (pass pinv X rank) (A, none) k with
        | none => simp [den, hst] at h1
        | some s =>
            obtain ⟨old, ho, hos⟩ := hshape hst k hk
            have hlen : k < s.1.length := (List.getElem?_eq_some_iff.1 ho).1
            simp only [build, e1, e2]
            simp only [den, hst, toOption_bind, Option.bind_some, Option.bind_eq_bind] at h1 h2 ⊢
            rw [facAt, steps_succ, hst]
            simp only [Option.bind_some, pass, toOption_bind, modeUpdate_eq]
            cases hn' : (nonNorm pinv X s.1 k).toOption with
            | none => rfl
            | some n =>
            simp only [Option.bind_some]
            cases hl' : (lamOf X rank k n).toOption with
            | none => rfl
            | some lam =>
            simp only [Option.bind_some]
            cases tf.div n lam with
            | error e => rfl
            | ok a =>
            simp only [toOption_ok, Option.bind_some]
            unfold tf.assign
            rw [ho]
            simp only [hos]
            by_cases hsh : a.shape = [X.shape.getD k 0, rank]
            · rw [if_pos hsh, if_pos hsh]
              simp [hlen]
            · rw [if_neg hsh, if_neg hsh]
              rfl
    | full =>
        have h1 := hd (.assign (X.order - 1)) (by
          simp only [build, List.mem_append, List.mem_map, List.mem_range]
          exact .inl ⟨X.order - 1, by omega, rfl⟩)
        obtain ⟨s, hst⟩ := facAt_some (by rw [hden] at h1; exact h1)
        rw [show X.order - 1 + 1 = X.order by omega] at hst
        obtain ⟨lam, hlam, hdl⟩ := steps_full h0 hst
        have h2 : s.1.length = X.order := by simpa [hl] using hloc.length hst
        have e : (List.range X.order).mapM (fun k => vals (.assign k)) = some s.1 := by
          rw [← mapM_range_get s.1, h2]
          refine mapM_congr' fun i hi => ?_
          have hi' : i < X.order := by simpa using hi
          rw [hvals _ (by simp only [build, List.mem_append, List.mem_map]; exact .inl ⟨i, hi, rfl⟩), hden]
          obtain ⟨s', h3, h4⟩ := hloc.earlier hst i hi'
          rw [facAt, h3]
          exact h4
        have e2 := hvals (.lam (X.order - 1)) (by simp [build])
        rw [hdl] at e2
        simp only [build, e2, den, sweep_steps, hst]
        rw [e]
        simp [hlam]
  · intro n hn m hm hmn
    rw [mem_nodes] at hn
    have hprev : ∀ k, k ≤ X.order → k ≠ 0 → m = .assign (k - 1) → steps (pass pinv X rank) (A, none) k = none := by
      rintro k hk hk0 rfl
      have := hnone (k := k - 1 + 1) (i := k - 1) (by omega) hmn
      rwa [show k - 1 + 1 = k by omega] at this
    cases n <;> simp only [build, List.mem_append, List.mem_map, mem_prev, mem_others, List.mem_cons, List.mem_range,
      List.not_mem_nil, or_false] at hm <;> simp only [Runs] at hn
    · rw [den, hprev _ (by omega) hm.1 hm.2]; rfl
    · rw [den, hprev _ (by omega) hm.1 hm.2]; rfl
    · rename_i k
      rcases hm with ⟨i, h1, rfl⟩ | ⟨h1, h2⟩
      · have : steps (pass pinv X rank) (A, none) k = none := hnone (i := i) h1.1 hmn
        rw [den, this]; rfl
      · rw [den, hprev _ (by omega) h1 h2]; rfl
    · rename_i k
      obtain ⟨i, h1, rfl⟩ := hm
      cases hst : steps (pass pinv X rank) (A, none) k with
      | none => rw [den, hst]; rfl
      | some s =>
          exfalso
          obtain ⟨a, h3, h4⟩ := hshape hst i h1.1
          simp only [den, hst, Option.bind_some, h3, tf.matmul_tn h4 h4, toOption_ok, reduceCtorEq] at hmn
    · rename_i k
      cases hst : steps (pass pinv X rank) (A, none) k with
      | none => rw [den, hst]; rfl
      | some s =>
          rcases hm with rfl | rfl
          · simp only [den, hst, Option.bind_some, toOption_bind, nonNorm] at hmn ⊢
            rw [hmn]; rfl
          · simp only [den, hst, Option.bind_some, toOption_bind, nonNorm] at hmn ⊢
            rw [hmn]
            cases (xaOf X s.1 k).toOption <;> rfl
    · rename_i k
      cases hst : steps (pass pinv X rank) (A, none) k with
      | none => rw [den, hst]; rfl
      | some s =>
          subst hm
          simp only [den, hst, Option.bind_some, toOption_bind] at hmn ⊢
          rw [hmn]; rfl
    · rename_i k
      cases hst : steps (pass pinv X rank) (A, none) k with
      | none => rw [den, facAt, steps_succ, hst]; rfl
      | some s =>
          rw [den, facAt, steps_succ, hst]
          simp only [Option.bind_some, pass, toOption_bind, modeUpdate_eq]
          rcases hm with rfl | rfl
          · simp only [den, hst, Option.bind_some] at hmn
            rw [hmn]; rfl
          · simp only [den, hst, Option.bind_some, toOption_bind] at hmn
            cases hn' : (nonNorm pinv X s.1 k).toOption with
            | none => rfl
            | some n =>
                rw [hn'] at hmn
                simp only [Option.bind_some] at hmn ⊢
                rw [hmn]; rfl
    · have : steps (pass pinv X rank) (A, none) X.order = none := by
        rcases hm with ⟨i, h1, rfl⟩ | rfl
        · exact steps_le (j := i + 1) (by omega) (hnone (i := i) h1 hmn)
        · cases hst : steps (pass pinv X rank) (A, none) X.order with
          | none => rfl
          | some s =>
              obtain ⟨lam, _, h3⟩ := steps_full h0 hst
              rw [h3] at hmn; cases hmn
      rw [den, sweep_steps, this]; rfl
  · intro n hn m hm
    rw [mem_nodes] at hn ⊢
    cases n <;> simp only [build, List.mem_append, List.mem_map, mem_prev, mem_others, List.mem_cons, List.mem_range,
      List.not_mem_nil, or_false] at hm <;> simp only [Runs] at hn
    · obtain ⟨h1, rfl⟩ := hm; simp only [Runs]; omega
    · obtain ⟨h1, rfl⟩ := hm; simp only [Runs]; omega
    · rcases hm with ⟨i, h1, rfl⟩ | ⟨h1, rfl⟩
      · exact ⟨hn, h1⟩
      · simp only [Runs]; omega
    · obtain ⟨i, h1, rfl⟩ := hm; exact ⟨hn, h1⟩
    · rcases hm with rfl | rfl <;> exact hn
    · subst hm; exact hn
    · rcases hm with rfl | rfl <;> exact hn
    · rcases hm with ⟨i, h1, rfl⟩ | rfl
      · exact h1
      · simp only [Runs]; omega
  · intro m _ n _ v h1 h2
    cases m <;> simp only [build, reduceCtorEq, Option.some.injEq] at h1
    cases n <;> simp only [build, reduceCtorEq, Option.some.injEq] at h2
    rw [h1, h2]
  · have key : ∀ (n : Op) (k i : Nat), k < X.order → i < X.order → i ≠ k → (∀ j, k = j + 1 → .assign j ∈ (build pinv X rank).deps n) →
        Before (build pinv X rank) n (.assign k) →
        seen pinv X rank A vars n i = seenAt (pass pinv X rank) Prod.fst (A, none) vars k i →
        (∃ w ∈ (build pinv X rank).nodes, (build pinv X rank).writes w = some i ∧ Before (build pinv X rank) w n ∧
          ∀ d, den pinv X rank A w = some d → seen pinv X rank A vars n i = d) ∨
        ((∀ w ∈ (build pinv X rank).nodes, (build pinv X rank).writes w = some i → Before (build pinv X rank) n w) ∧
          seen pinv X rank A vars n i = vars i) := by
      intro n k i hk hi hik hdep hbef hseen
      by_cases hlt : i < k
      · left
        refine ⟨.assign i, (mem_nodes ..).2 hi, rfl, ?_, ?_⟩
        · obtain ⟨j, rfl⟩ : ∃ j, k = j + 1 := ⟨k - 1, by omega⟩
          have h1 : Before (build pinv X rank) (.assign j) n := .single (hdep j rfl)
          by_cases hij : i = j
          · subst hij; exact h1
          · exact (before_assign (by omega) (by omega)).trans h1
        · intro d hd
          rw [hseen, seenAt, if_pos hlt, ← hden, hd]
          rfl
      · right
        refine ⟨?_, ?_⟩
        · intro w _ hw
          cases w <;> simp only [build, reduceCtorEq, Option.some.injEq] at hw
          subst hw
          exact hbef.trans (before_assign (by omega) hi)
        · rw [hseen, seenAt, if_neg hlt]
    intro n hn v hvn
    rw [mem_nodes] at hn
    cases n <;> simp only [build, List.mem_cons, List.not_mem_nil, or_false] at hvn
    · rename_i k i
      subst hvn
      exact key _ k v hn.1 hn.2.1 hn.2.2 (by rintro j rfl; simp [build, prev]) (before_gram hn.2.1 hn.2.2) rfl
    · rename_i k i
      subst hvn
      exact key _ k v hn.1 hn.2.1 hn.2.2 (by rintro j rfl; simp [build, prev]) (before_kr hn.2.1 hn.2.2) rfl

end

end TD.graph.Cp
