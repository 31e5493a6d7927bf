import Verif.Lemmas.Sweep
import Verif.Lemmas.Mul
import Verif.Lemmas.NTucker

/-!
# What the operations of the NCP_BCU and NTUCKER_BCU graphs compute
-/
namespace TD.graph.Bcu
open TD Tensor

theorem the_num (x : ℝ) : the (num x) = x := by
  rfl

/-- `V` of a mode. -/
def Kind.v (K : Kind) (g : Tensor ℝ) (A : List (Tensor ℝ)) (k : Nat) : Res (Tensor ℝ) :=
  if K.grams then do
    let gs ← (A.eraseIdx k).mapM fun a => tf.matmul a a true false
    K.vOf k gs (num 0)
  else do
    let b ← K.bOf k (A.eraseIdx k) g
    K.vOf k [] b

/-- `XA` of a mode. -/
def Kind.xa (K : Kind) (g : Tensor ℝ) (A : List (Tensor ℝ)) (k : Nat) : Res (Tensor ℝ) := do
  let b ← K.bOf k (A.eraseIdx k) g
  K.xaOf k b

/-- One mode, one after the other. -/
noncomputable def Kind.update (topSv : Tensor ℝ → Res ℝ) (K : Kind) (g : Tensor ℝ) (st : bcu.State) (k : Nat) :
    Res bcu.State := do
  let V ← K.v g st.A k
  let XA ← K.xa g st.A k
  bcu.factorStep topSv st k V XA

/-- `Gn`. -/
noncomputable def Kind.grad (K : Kind) (g : Tensor ℝ) (A : List (Tensor ℝ)) (m : Tensor ℝ) (k : Nat) :
    Res (Tensor ℝ) := do
  let V ← K.v g A k
  let XA ← K.xa g A k
  let mV ← tf.matmul m V
  tf.ewise (· - ·) mV XA

/-- The results of the operations. -/
noncomputable def den (topSv : Tensor ℝ → Res ℝ) (K : Kind) (g : Tensor ℝ) (st : bcu.State) (vars : Var → Tensor ℝ) :
    Op → Option (Tensor ℝ)
  | .gram k i => (steps (K.update topSv g) st k).bind fun s => s.A[i]?.bind fun a => (tf.matmul a a true false).toOption
  | .use k i => (steps (K.update topSv g) st k).bind fun s => s.A[i]?
  | .core k => (steps (K.update topSv g) st k).bind fun _ => some g
  | .b k => (steps (K.update topSv g) st k).bind fun s => (K.bOf k (s.A.eraseIdx k) g).toOption
  | .xa k => (steps (K.update topSv g) st k).bind fun s => (K.xa g s.A k).toOption
  | .v k => (steps (K.update topSv g) st k).bind fun s => (K.v g s.A k).toOption
  | .sv k => (steps (K.update topSv g) st k).bind fun s => (K.v g s.A k).toOption.bind fun V =>
      (topSv V).toOption.map num
  | .l0 k => some (vars (.L k))
  | .l k => (steps (K.update topSv g) st k).bind fun s => (K.v g s.A k).toOption.bind fun V =>
      (topSv V).toOption.map num
  | .grad k => (steps (K.update topSv g) st k).bind fun s => (K.grad g s.A (vars (.Am k)) k).toOption
  | .assign k => facAt (K.update topSv g) bcu.State.A st (k + 1) k
  | .full => (steps (K.update topSv g) st K.N).bind fun s => (K.fullOf g s.A).toOption
  | .tupd => some (num ((1 + Real.sqrt (1 + 4 * the (vars .t0) ^ 2)) / 2))

theorem update_eq (topSv : Tensor ℝ → Res ℝ) (K : Kind) (g : Tensor ℝ) (st : bcu.State) (k : Nat) {m : Tensor ℝ}
    (hm : st.Am[k]? = some m) :
    (K.update topSv g st k).toOption = (K.grad g st.A m k).toOption.bind fun G => (K.v g st.A k).toOption.bind fun V =>
      (topSv V).toOption.bind fun l => (bcu.proxStep m G l).toOption.bind fun a => (tf.assign st.A k a).toOption.map
        fun A => { st with
          A := A
          L0 := Function.update st.L0 k (st.L k)
          L := Function.update st.L k l } := by
  unfold Kind.update Kind.grad bcu.factorStep bcu.getVar
  rw [hm]
  simp only [toOption_bind]
  cases (K.v g st.A k).toOption with
  | none => rfl
  | some V =>
  simp only [Option.bind_some]
  cases (K.xa g st.A k).toOption with
  | none => rfl
  | some XA =>
  simp only [Option.bind_some, toOption_ok]
  cases (topSv V).toOption with
  | none =>
      simp only [Option.bind_none]
      cases (tf.matmul m V).toOption with
      | none => rfl
      | some mV => simp [Option.bind_none]
  | some l =>
  simp only [Option.bind_some]
  cases (tf.matmul m V).toOption with
  | none => rfl
  | some mV =>
  simp only [Option.bind_some]
  cases tf.ewise (· - ·) mV XA with
  | error e => rfl
  | ok G =>
  simp only [toOption_ok, Option.bind_some]
  cases bcu.proxStep m G l with
  | error e => rfl
  | ok a =>
  simp only [toOption_ok, Option.bind_some]
  cases tf.assign st.A k a <;> rfl

/-- What a mode does to the state. -/
theorem update_inv {topSv : Tensor ℝ → Res ℝ} {K : Kind} {g : Tensor ℝ} {s s' : bcu.State} {k : Nat}
    (h : K.update topSv g s k = .ok s') :
    ∃ V l a old, K.v g s.A k = .ok V ∧ topSv V = .ok l ∧ s.A[k]? = some old ∧ a.shape = old.shape ∧
      s' = { s with
        A := s.A.set k a
        L0 := Function.update s.L0 k (s.L k)
        L := Function.update s.L k l } := by
  unfold Kind.update at h
  cases hV : K.v g s.A k with
  | error e => rw [hV] at h; cases h
  | ok V =>
  rw [hV, ok_bind] at h
  cases hX : K.xa g s.A k with
  | error e => rw [hX] at h; cases h
  | ok XA =>
  rw [hX, ok_bind] at h
  unfold bcu.factorStep at h
  cases hl : topSv V with
  | error e => rw [hl] at h; cases h
  | ok l =>
  rw [hl, ok_bind] at h
  cases hm : bcu.getVar s.Am k with
  | error e => rw [hm] at h; cases h
  | ok m =>
  rw [hm, ok_bind] at h
  cases hmV : tf.matmul m V with
  | error e => rw [hmV] at h; cases h
  | ok mV =>
  rw [hmV, ok_bind] at h
  cases hG : tf.ewise (· - ·) mV XA with
  | error e => rw [hG] at h; cases h
  | ok G =>
  rw [hG, ok_bind] at h
  cases ha : bcu.proxStep m G l with
  | error e => rw [ha] at h; cases h
  | ok a =>
  rw [ha, ok_bind] at h
  cases hA : tf.assign s.A k a with
  | error e => rw [hA] at h; cases h
  | ok A =>
  rw [hA, ok_bind] at h
  cases h
  obtain ⟨old, h1, h2, h3, _⟩ := assign_inv hA
  exact ⟨V, l, a, old, rfl, hl, h1, h2, by rw [h3]⟩

theorem update_local (topSv : Tensor ℝ → Res ℝ) (K : Kind) (g : Tensor ℝ) : Local (K.update topSv g) bcu.State.A := by
  intro s k s' h
  obtain ⟨V, l, a, old, _, _, h1, h2, h3⟩ := update_inv h
  exact ⟨a, old, h1, h2, by rw [h3]⟩

/-- The variables besides the factors, after the first `k` modes. -/
theorem update_rest {topSv : Tensor ℝ → Res ℝ} {K : Kind} {g : Tensor ℝ} {st : bcu.State} (vars : Var → Tensor ℝ) :
    ∀ {k : Nat} {s : bcu.State}, steps (K.update topSv g) st k = some s →
      s.Am = st.Am ∧ s.A0 = st.A0 ∧ s.wA = st.wA ∧ s.t = st.t ∧ s.t0 = st.t0 ∧
      (∀ j < k, den topSv K g st vars (.l j) = some (num (s.L j)) ∧ s.L0 j = st.L j) ∧
      ∀ j, k ≤ j → s.L j = st.L j ∧ s.L0 j = st.L0 j := by
  intro k
  induction k with
  | zero =>
      intro s h
      cases h
      exact ⟨rfl, rfl, rfl, rfl, rfl, fun j hj => absurd hj (by omega), fun j _ => ⟨rfl, rfl⟩⟩
  | succ k ih =>
      intro s' h
      obtain ⟨s, _, _, h1, h2, _, _, _⟩ := (update_local topSv K g).step h
      obtain ⟨V, l, a, old, hV, hl, _, _, rfl⟩ := update_inv h2
      obtain ⟨e1, e2, e3, e4, e5, e6, e7⟩ := ih h1
      refine ⟨e1, e2, e3, e4, e5, ?_, ?_⟩
      · intro j hj
        by_cases hjk : j = k
        · subst hjk
          refine ⟨?_, ?_⟩
          · simp [den, h1, hV, hl]
          · simp [(e7 j (le_refl j)).1]
        · obtain ⟨f1, f2⟩ := e6 j (by omega)
          simp only [Function.update_of_ne hjk]
          exact ⟨f1, f2⟩
      · intro j hj
        have hjk : j ≠ k := by omega
        simp only [Function.update_of_ne hjk]
        exact e7 j (by omega)

/-- Which operations run. -/
def Runs (K : Kind) : Op → Prop
  | .gram k i => K.grams = true ∧ k < K.N ∧ i < K.N ∧ i ≠ k
  | .use k i => k < K.N ∧ i < K.N ∧ i ≠ k
  | .core k => K.core = true ∧ k < K.N
  | .b k => k < K.N
  | .xa k => k < K.N
  | .v k => k < K.N
  | .sv k => k < K.N
  | .l0 k => k < K.N
  | .l k => k < K.N
  | .grad k => k < K.N
  | .assign k => k < K.N
  | .full => True
  | .tupd => True

theorem mem_nodes (topSv : Tensor ℝ → Res ℝ) (K : Kind) (n : Op) : n ∈ (build topSv K).nodes ↔ Runs K n := by
  simp only [build, modeOps, List.mem_append, List.mem_flatMap, List.mem_range]
  cases hg : K.grams <;> cases hc : K.core <;> cases n <;> simp [Runs, hg, hc, mem_others]

/-- What the operations find in the variables. -/
noncomputable def seen (topSv : Tensor ℝ → Res ℝ) (K : Kind) (g : Tensor ℝ) (st : bcu.State) (vars : Var → Tensor ℝ) :
    Op → Var → Tensor ℝ
  | .gram k _, .A i => seenAt (K.update topSv g) bcu.State.A st (fun i => vars (.A i)) k i
  | .use k _, .A i => seenAt (K.update topSv g) bcu.State.A st (fun i => vars (.A i)) k i
  | _, v => vars v

section
variable {topSv : Tensor ℝ → Res ℝ} {K : Kind}

theorem before_use {k i : Nat} (hi : i < K.N) (hik : i ≠ k) : Before (build topSv K) (.use k i) (.assign k) := by
  have h1 : Before (build topSv K) (.use k i) (.b k) := .single (by simp [build, mem_others, hi, hik])
  have h2 : Before (build topSv K) (.b k) (.xa k) := .single (by simp [build])
  have h3 : Before (build topSv K) (.xa k) (.grad k) := .single (by simp [build])
  have h4 : Before (build topSv K) (.grad k) (.assign k) := .single (by simp [build])
  exact ((h1.trans h2).trans h3).trans h4

theorem before_gram {k i : Nat} (hg : K.grams = true) (hi : i < K.N) (hik : i ≠ k) :
    Before (build topSv K) (.gram k i) (.assign k) := by
  have h1 : Before (build topSv K) (.gram k i) (.v k) := .single (by simp [build, hg, mem_others, hi, hik])
  have h3 : Before (build topSv K) (.v k) (.grad k) := .single (by simp [build])
  have h4 : Before (build topSv K) (.grad k) (.assign k) := .single (by simp [build])
  exact (h1.trans h3).trans h4

theorem before_assign {j k : Nat} (hjk : j < k) (hk : k < K.N) : Before (build topSv K) (.assign j) (.assign k) := by
  refine chain (G := build topSv K) Op.assign (fun k => Op.use k (if k = 0 then 1 else 0)) K.N ?_ ?_ hjk hk
  · intro k _
    simp [build, prev]
  · intro k hk
    refine before_use ?_ ?_
    · split <;> omega
    · split <;> omega

theorem isDen {g : Tensor ℝ} {st : bcu.State} {vars : Var → Tensor ℝ} (hl : st.A.length = K.N)
    (hv : ∀ i < K.N, st.A[i]? = some (vars (.A i))) (hs : ∀ i < K.N, (vars (.A i)).shape = K.shape i)
    (hAm : ∀ i < K.N, st.Am[i]? = some (vars (.Am i))) (hg : g = if K.core then vars .g else num 0) :
    Den (build topSv K) vars (den topSv K g st vars) (seen topSv K g st vars) := by
  have hloc := update_local topSv K g
  have hold : ∀ i < st.A.length, st.A[i]? = some ((fun i => vars (.A i)) i) := fun i hi => hv i (hl ▸ hi)
  have hden : ∀ j, den topSv K g st vars (.assign j) = facAt (K.update topSv g) bcu.State.A st (j + 1) j := fun _ => rfl
  have hnone : ∀ {k i : Nat}, i < K.N → facAt (K.update topSv g) bcu.State.A st k i = none →
      steps (K.update topSv g) st k = none := fun hi h => hloc.facAt_none (by simpa [hl] using hi) h
  have hshape : ∀ {k : Nat} {s : bcu.State}, steps (K.update topSv g) st k = some s →
      ∀ i < K.N, ∃ a, s.A[i]? = some a ∧ a.shape = K.shape i := by
    intro k s h i hi
    have h1 := hloc.shapes h
    have h2 : s.A.length = K.N := by simpa [hl] using hloc.length h
    refine ⟨s.A[i]'(by omega), List.getElem?_eq_getElem _, ?_⟩
    have h3 := congrArg (·[i]?) h1
    simp only [List.getElem?_map, hv i hi] at h3
    rw [List.getElem?_eq_getElem (by omega)] at h3
    simp only [Option.map_some, Option.some.injEq] at h3
    rw [h3, hs i hi]
  have hAm' : ∀ {k : Nat} {s : bcu.State}, steps (K.update topSv g) st k = some s → k < K.N →
      s.Am[k]? = some (vars (.Am k)) := by
    intro k s h hk
    rw [(update_rest vars h).1]
    exact hAm k hk
  have hcol : ∀ {k : Nat} {s : bcu.State}, steps (K.update topSv g) st k = some s →
      (others K.N k).mapM (fun i => s.A[i]?) = some (s.A.eraseIdx k) := by
    intro k s h
    have := hloc.collect h
    rwa [hl] at this
  refine ⟨?_, ?_, ?_, ?_, ?_⟩
  · intro n hn hd vals rv hvals hrv
    rw [mem_nodes] at hn
    cases n with
    | gram k i =>
        obtain ⟨s, hst⟩ := steps_of_prev (as := Op.assign) hden hd
        have e := hloc.seen hold hst (i := i) (by simpa [hl] using hn.2.2.1)
        have : rv (.A i) = seenAt (K.update topSv g) bcu.State.A st (fun i => vars (.A i)) k i := hrv (.A i) (by simp [build])
        simp only [build, den, hst, Option.bind_some, e, this]
    | use k i =>
        obtain ⟨s, hst⟩ := steps_of_prev (as := Op.assign) hden hd
        have e := hloc.seen hold hst (i := i) (by simpa [hl] using hn.2.1)
        have : rv (.A i) = seenAt (K.update topSv g) bcu.State.A st (fun i => vars (.A i)) k i := hrv (.A i) (by simp [build])
        simp only [build, den, hst, Option.bind_some, e, this]
    | core k =>
        obtain ⟨s, hst⟩ := steps_of_prev (as := Op.assign) hden hd
        have : rv .g = vars .g := hrv .g (by simp [build])
        have hg' : g = vars .g := by rw [hg, hn.1]; rfl
        simp only [build, den, hst, Option.bind_some, this]
        rw [hg']
    | b k =>
        obtain ⟨s, hst⟩ := steps_of_prev (as := Op.assign) (k := k) hden
          (fun m hm => hd m (by simp only [build, List.mem_append]; exact .inr hm))
        have e : (others K.N k).mapM (fun i => vals (.use k i)) = some (s.A.eraseIdx k) := by
          rw [← hcol hst]
          refine mapM_congr' fun i hi => ?_
          rw [hvals _ (by simp only [build, List.mem_append, List.mem_map]; exact .inl (.inl ⟨i, hi, rfl⟩))]
          simp [den, hst]
        have e2 : (if K.core then vals (.core k) else some (num 0)) = some g := by
          cases hc : K.core with
          | false => simp [hg, hc]
          | true =>
              simp only [if_true]
              rw [hvals _ (by simp [build, hc])]
              simp [den, hst]
        simp only [build, den, hst, Option.bind_some]
        rw [e, e2]
        simp only [Option.bind_eq_bind, Option.bind_some]
    | xa k =>
        have h1 := hd (.b k) (by simp [build])
        have e1 := hvals (.b k) (by simp [build])
        cases hst : steps (K.update topSv g) st k with
        | none => simp [den, hst] at h1
        | some s =>
            simp only [build, e1, den, hst, Kind.xa, Option.bind_some, toOption_bind, Option.bind_eq_bind]
    | v k =>
        have hk : k < K.N := hn
        by_cases hgr : K.grams = true
        · have hsome : ∃ s, steps (K.update topSv g) st k = some s := by
            cases hst : steps (K.update topSv g) st k with
            | some s => exact ⟨s, rfl⟩
            | none =>
                exfalso
                by_cases ho : others K.N k = []
                · have : k = 0 := by
                    by_contra h
                    have : 0 ∈ others K.N k := mem_others.2 ⟨by omega, by omega⟩
                    rw [ho] at this; cases this
                  subst this
                  cases hst
                · obtain ⟨i, hi⟩ := List.exists_mem_of_ne_nil _ ho
                  have := hd (.gram k i) (by simp only [build, hgr, if_true, List.mem_map]; exact ⟨i, hi, rfl⟩)
                  simp [den, hst] at this
          obtain ⟨s, hst⟩ := hsome
          have e : (others K.N k).mapM (fun i => vals (.gram k i)) =
              (s.A.eraseIdx k).mapM fun a => (tf.matmul a a true false).toOption := by
            rw [← mapM_bind (hcol hst)]
            refine mapM_congr' fun i hi => ?_
            rw [hvals _ (by simp only [build, hgr, if_true, List.mem_map]; exact ⟨i, hi, rfl⟩)]
            simp [den, hst]
          simp only [build, den, hst, Kind.v, hgr, if_true, Option.bind_some, toOption_bind, toOption_mapM]
          rw [e]
          rfl
        · have h1 := hd (.b k) (by simp [build, hgr])
          have e1 := hvals (.b k) (by simp [build, hgr])
          cases hst : steps (K.update topSv g) st k with
          | none => simp [den, hst] at h1
          | some s =>
              simp only [build, e1, den, hst, Kind.v, hgr, Bool.false_eq_true, if_false, Option.bind_some, toOption_bind,
                Option.bind_eq_bind]
    | sv k =>
        have h1 := hd (.v k) (by simp [build])
        have e1 := hvals (.v k) (by simp [build])
        cases hst : steps (K.update topSv g) st k with
        | none => simp [den, hst] at h1
        | some s => simp only [build, e1, den, hst, Option.bind_some, Option.bind_eq_bind]
    | l0 k =>
        have : rv (.L k) = vars (.L k) := hrv (.L k) (by simp [build])
        simp only [build, den, this]
    | l k =>
        have e1 := hvals (.sv k) (by simp [build])
        simp only [build, e1, den]
    | grad k =>
        have e1 := hvals (.v k) (by simp [build])
        have e2 := hvals (.xa k) (by simp [build])
        have h1 := hd (.v k) (by simp [build])
        have : rv (.Am k) = vars (.Am k) := hrv (.Am k) (by simp [build])
        cases hst : steps (K.update topSv g) st k with
        | none => simp [den, hst] at h1
        | some s =>
            simp only [build, e1, e2, this, den, hst, Kind.grad, Option.bind_some, toOption_bind, Option.bind_eq_bind]
    | assign k =>
        have hk : k < K.N := hn
        have h1 := hd (.grad k) (by simp [build])
        have e1 := hvals (.grad k) (by simp [build])
        have e2 := hvals (.l k) (by simp [build])
        have : rv (.Am k) = vars (.Am k) := hrv (.Am k) (by simp [build])
        cases hst : steps (K.update topSv g) st k with
        | none => simp [den, hst] at h1
        | some s =>
            obtain ⟨old, ho, hos⟩ := hshape hst k hk
            have hlen : k < s.A.length := (List.getElem?_eq_some_iff.1 ho).1
            simp only [build, e1, e2, this]
            simp only [den, hst, Option.bind_some, Option.bind_eq_bind]
            rw [facAt, steps_succ, hst]
            simp only [Option.bind_some, update_eq topSv K g s k (hAm' hst hk)]
            cases hG : (K.grad g s.A (vars (.Am k)) k).toOption with
            | none => rfl
            | some G =>
            simp only [Option.bind_some]
            cases hV : (K.v g s.A k).toOption with
            | none => rfl
            | some V =>
            simp only [Option.bind_some]
            cases (topSv V).toOption with
            | none => rfl
            | some l =>
            simp only [Option.map_some, Option.bind_some, the_num]
            cases bcu.proxStep (vars (.Am k)) G l with
            | error e => rfl
            | ok a =>
            simp only [toOption_ok, Option.bind_some]
            unfold tf.assign
            rw [ho]
            simp only [hos]
            by_cases hsh : a.shape = K.shape k
            · rw [if_pos hsh, if_pos hsh]
              simp [hlen]
            · rw [if_neg hsh, if_neg hsh]
              rfl
    | full =>
        have hm : ∀ i < K.N, Op.assign i ∈ (build topSv K).deps .full := fun i hi => by
          simp only [build, List.mem_map, List.mem_range]; exact ⟨i, hi, rfl⟩
        have hlast : ∃ s, steps (K.update topSv g) st K.N = some s := by
          rcases Nat.eq_zero_or_pos K.N with h0 | h0
          · exact ⟨st, by rw [h0]; rfl⟩
          · have h1 := hd (.assign (K.N - 1)) (hm _ (by omega))
            obtain ⟨s, hst⟩ := facAt_some (by rw [hden] at h1; exact h1)
            rw [show K.N - 1 + 1 = K.N by omega] at hst
            exact ⟨s, hst⟩
        obtain ⟨s, hst⟩ := hlast
        have h2 : s.A.length = K.N := by simpa [hl] using hloc.length hst
        have e : (List.range K.N).mapM (fun k => vals (.assign k)) = some s.A := by
          rw [← mapM_range_get s.A, h2]
          refine mapM_congr' fun i hi => ?_
          have hi' : i < K.N := by simpa using hi
          rw [hvals _ (hm i hi'), hden]
          obtain ⟨s', h3, h4⟩ := hloc.earlier hst i hi'
          rw [facAt, h3]
          exact h4
        have e2 : (if K.core then rv .g else num 0) = g := by
          cases hc : K.core with
          | false => simp [hg, hc]
          | true =>
              have : rv .g = vars .g := hrv .g (by simp [build, hc])
              simp [hg, hc, this]
        simp only [build, den, hst, e2]
        rw [e]
        rfl
    | tupd =>
        have : rv .t0 = vars .t0 := hrv .t0 (by simp [build])
        simp only [build, den, this]
  · intro n hn m hm hmn
    rw [mem_nodes] at hn
    have hprev : ∀ k, k ≤ K.N → k ≠ 0 → m = .assign (k - 1) → steps (K.update topSv g) st k = none := by
      rintro k hk hk0 rfl
      have := hnone (k := k - 1 + 1) (i := k - 1) (by omega) hmn
      rwa [show k - 1 + 1 = k by omega] at this
    cases n with
    | gram k i =>
        simp only [build, mem_prev] at hm
        rw [den, hprev k (by have := hn.2.1; omega) hm.1 hm.2]; rfl
    | use k i =>
        simp only [build, mem_prev] at hm
        rw [den, hprev k (by have := hn.1; omega) hm.1 hm.2]; rfl
    | core k =>
        simp only [build, mem_prev] at hm
        rw [den, hprev k (by have := hn.2; omega) hm.1 hm.2]; rfl
    | b k =>
        have hk : k < K.N := hn
        have : steps (K.update topSv g) st k = none := by
          simp only [build, List.mem_append, List.mem_map, mem_prev, mem_others] at hm
          rcases hm with (⟨i, h1, rfl⟩ | h) | ⟨h1, h2⟩
          · exact hnone (i := i) h1.1 hmn
          · cases hc : K.core with
            | false => rw [hc] at h; simp at h
            | true =>
                rw [hc] at h
                simp only [if_true, List.mem_singleton] at h
                subst h
                cases hst : steps (K.update topSv g) st k with
                | none => rfl
                | some s => simp [den, hst] at hmn
          · exact hprev k (by omega) h1 h2
        rw [den, this]; rfl
    | xa k =>
        simp only [build, List.mem_singleton] at hm
        subst hm
        cases hst : steps (K.update topSv g) st k with
        | none => rw [den, hst]; rfl
        | some s =>
            simp only [den, hst, Option.bind_some, Kind.xa, toOption_bind] at hmn ⊢
            rw [hmn]; rfl
    | v k =>
        cases hst : steps (K.update topSv g) st k with
        | none => rw [den, hst]; rfl
        | some s =>
            by_cases hgr : K.grams = true
            · simp only [build, hgr, if_true, List.mem_map] at hm
              obtain ⟨i, hi, rfl⟩ := hm
              have : (s.A.eraseIdx k).mapM (fun a => (tf.matmul a a true false).toOption) = none := by
                rw [← mapM_bind (hcol hst)]
                simp only [den, hst, Option.bind_some] at hmn
                generalize others K.N k = l at hi
                induction l with
                | nil => cases hi
                | cons a l ih =>
                    rw [List.mapM_cons]
                    rcases List.mem_cons.1 hi with rfl | h
                    · rw [hmn]; rfl
                    · rw [ih h]
                      cases (s.A[a]?.bind fun a => (tf.matmul a a true false).toOption) <;> rfl
              simp only [den, hst, Option.bind_some, Kind.v, hgr, if_true, toOption_bind, toOption_mapM, this]
              rfl
            · simp only [build, hgr, Bool.false_eq_true, if_false, List.mem_singleton] at hm
              subst hm
              simp only [den, hst, Option.bind_some] at hmn
              simp only [den, hst, Option.bind_some, Kind.v, hgr, Bool.false_eq_true, if_false, toOption_bind, hmn]
              rfl
    | sv k =>
        simp only [build, List.mem_singleton] at hm
        subst hm
        cases hst : steps (K.update topSv g) st k with
        | none => rw [den, hst]; rfl
        | some s =>
            simp only [den, hst, Option.bind_some] at hmn ⊢
            rw [hmn]; rfl
    | l0 k => simp only [build, List.not_mem_nil] at hm
    | l k =>
        simp only [build, List.mem_cons, List.not_mem_nil, or_false] at hm
        rcases hm with rfl | rfl
        · simp [den] at hmn
        · simpa only [den] using hmn
    | grad k =>
        simp only [build, List.mem_cons, List.not_mem_nil, or_false] at hm
        cases hst : steps (K.update topSv g) st k with
        | none => rw [den, hst]; rfl
        | some s =>
            simp only [den, hst, Option.bind_some, Kind.grad, toOption_bind]
            rcases hm with rfl | rfl
            · simp only [den, hst, Option.bind_some] at hmn
              rw [hmn]; rfl
            · simp only [den, hst, Option.bind_some] at hmn
              rw [hmn]
              cases (K.v g s.A k).toOption <;> rfl
    | assign k =>
        have hk : k < K.N := hn
        simp only [build, List.mem_cons, List.not_mem_nil, or_false] at hm
        cases hst : steps (K.update topSv g) st k with
        | none => rw [den, facAt, steps_succ, hst]; rfl
        | some s =>
            rw [den, facAt, steps_succ, hst]
            simp only [Option.bind_some, update_eq topSv K g s k (hAm' hst hk)]
            rcases hm with rfl | rfl
            · simp only [den, hst, Option.bind_some] at hmn
              rw [hmn]; rfl
            · simp only [den, hst, Option.bind_some] at hmn
              cases (K.grad g s.A (vars (.Am k)) k).toOption with
              | none => rfl
              | some G =>
              simp only [Option.bind_some]
              cases hV : (K.v g s.A k).toOption with
              | none => rfl
              | some V =>
              rw [hV] at hmn
              simp only [Option.bind_some, Option.map_eq_none_iff] at hmn ⊢
              rw [hmn]; rfl
    | full =>
        simp only [build, List.mem_map, List.mem_range] at hm
        obtain ⟨i, h1, rfl⟩ := hm
        have : steps (K.update topSv g) st K.N = none := steps_le (j := i + 1) (by omega) (hnone (i := i) h1 hmn)
        rw [den, this]; rfl
    | tupd => simp only [build, List.not_mem_nil] at hm
  · intro n hn m hm
    rw [mem_nodes] at hn ⊢
    cases n with
    | gram k i =>
        simp only [build, mem_prev] at hm
        obtain ⟨h1, rfl⟩ := hm; have := hn.2.1; simp only [Runs]; omega
    | use k i =>
        simp only [build, mem_prev] at hm
        obtain ⟨h1, rfl⟩ := hm; have := hn.1; simp only [Runs]; omega
    | core k =>
        simp only [build, mem_prev] at hm
        obtain ⟨h1, rfl⟩ := hm; have := hn.2; simp only [Runs]; omega
    | b k =>
        have hk : k < K.N := hn
        simp only [build, List.mem_append, List.mem_map, mem_prev, mem_others] at hm
        rcases hm with (⟨i, h1, rfl⟩ | h) | ⟨h1, rfl⟩
        · exact ⟨hk, h1⟩
        · cases hc : K.core with
          | false => rw [hc] at h; simp at h
          | true =>
              rw [hc] at h
              simp only [if_true, List.mem_singleton] at h
              subst h
              exact ⟨hc, hk⟩
        · simp only [Runs]; omega
    | xa k =>
        simp only [build, List.mem_singleton] at hm
        subst hm; exact hn
    | v k =>
        by_cases hgr : K.grams = true
        · simp only [build, hgr, if_true, List.mem_map, mem_others] at hm
          obtain ⟨i, hi, rfl⟩ := hm
          exact ⟨hgr, hn, hi⟩
        · simp only [build, hgr, Bool.false_eq_true, if_false, List.mem_singleton] at hm
          subst hm; exact hn
    | sv k =>
        simp only [build, List.mem_singleton] at hm
        subst hm; exact hn
    | l0 k => simp only [build, List.not_mem_nil] at hm
    | l k =>
        simp only [build, List.mem_cons, List.not_mem_nil, or_false] at hm
        rcases hm with rfl | rfl <;> exact hn
    | grad k =>
        simp only [build, List.mem_cons, List.not_mem_nil, or_false] at hm
        rcases hm with rfl | rfl <;> exact hn
    | assign k =>
        simp only [build, List.mem_cons, List.not_mem_nil, or_false] at hm
        rcases hm with rfl | rfl <;> exact hn
    | full =>
        simp only [build, List.mem_map, List.mem_range] at hm
        obtain ⟨i, h1, rfl⟩ := hm
        exact h1
    | tupd => simp only [build, List.not_mem_nil] at hm
  · intro m _ n _ v h1 h2
    cases m <;> simp only [build, reduceCtorEq, Option.some.injEq] at h1 <;> subst h1 <;>
      cases n <;> simp only [build, reduceCtorEq, Option.some.injEq, Var.L0.injEq, Var.L.injEq, Var.A.injEq] at h2 <;>
      first | rw [h2] | rfl
  · have key : ∀ (n : Op) (k i : Nat), k < K.N → i < K.N → i ≠ k → (∀ j, k = j + 1 → .assign j ∈ (build topSv K).deps n) →
        Before (build topSv K) n (.assign k) →
        seen topSv K g st vars n (.A i) = seenAt (K.update topSv g) bcu.State.A st (fun i => vars (.A i)) k i →
        (∃ w ∈ (build topSv K).nodes, (build topSv K).writes w = some (.A i) ∧ Before (build topSv K) w n ∧
          ∀ d, den topSv K g st vars w = some d → seen topSv K g st vars n (.A i) = d) ∨
        ((∀ w ∈ (build topSv K).nodes, (build topSv K).writes w = some (.A i) → Before (build topSv K) n w) ∧
          seen topSv K g st vars n (.A i) = vars (.A i)) := by
      intro n k i hk hi hik hdep hbef hseen
      by_cases hlt : i < k
      · left
        refine ⟨.assign i, (mem_nodes ..).2 hi, rfl, ?_, ?_⟩
        · obtain ⟨j, rfl⟩ : ∃ j, k = j + 1 := ⟨k - 1, by omega⟩
          have h1 : Before (build topSv K) (.assign j) n := .single (hdep j rfl)
          by_cases hij : i = j
          · subst hij; exact h1
          · exact (before_assign (by omega) (by omega)).trans h1
        · intro d hd
          rw [hseen, seenAt, if_pos hlt, ← hden, hd]
          rfl
      · right
        refine ⟨?_, ?_⟩
        · intro w _ hw
          cases w <;> simp only [build, reduceCtorEq, Option.some.injEq, Var.A.injEq] at hw
          subst hw
          exact hbef.trans (before_assign (by omega) hi)
        · rw [hseen, seenAt, if_neg hlt]
    intro n hn v hvn
    rw [mem_nodes] at hn
    cases n with
    | gram k i =>
        simp only [build, List.mem_singleton] at hvn
        subst hvn
        exact key _ k i hn.2.1 hn.2.2.1 hn.2.2.2 (by rintro j rfl; simp [build, prev]) (before_gram hn.1 hn.2.2.1 hn.2.2.2) rfl
    | use k i =>
        simp only [build, List.mem_singleton] at hvn
        subst hvn
        exact key _ k i hn.1 hn.2.1 hn.2.2 (by rintro j rfl; simp [build, prev]) (before_use hn.2.1 hn.2.2) rfl
    | core k =>
        simp only [build, List.mem_singleton] at hvn
        subst hvn
        right
        refine ⟨?_, rfl⟩
        intro w _ hw
        cases w <;> simp only [build, reduceCtorEq, Option.some.injEq] at hw
    | l0 k =>
        simp only [build, List.mem_singleton] at hvn
        subst hvn
        right
        refine ⟨?_, rfl⟩
        intro w _ hw
        cases w <;> simp only [build, reduceCtorEq, Option.some.injEq, Var.L.injEq] at hw
        subst hw
        exact .single (by simp [build])
    | grad k =>
        simp only [build, List.mem_singleton] at hvn
        subst hvn
        right
        refine ⟨?_, rfl⟩
        intro w _ hw
        cases w <;> simp only [build, reduceCtorEq, Option.some.injEq] at hw
    | assign k =>
        simp only [build, List.mem_singleton] at hvn
        subst hvn
        right
        refine ⟨?_, rfl⟩
        intro w _ hw
        cases w <;> simp only [build, reduceCtorEq, Option.some.injEq] at hw
    | full =>
        have : v = .g := by
          cases hc : K.core with
          | false => simp [build, hc] at hvn
          | true => simpa [build, hc] using hvn
        subst this
        right
        refine ⟨?_, rfl⟩
        intro w _ hw
        cases w <;> simp only [build, reduceCtorEq, Option.some.injEq] at hw
    | tupd =>
        simp only [build, List.mem_singleton] at hvn
        subst hvn
        right
        refine ⟨?_, rfl⟩
        intro w _ hw
        cases w <;> simp only [build, reduceCtorEq, Option.some.injEq] at hw
    | b k => simp [build] at hvn
    | xa k => simp [build] at hvn
    | v k => simp [build] at hvn
    | sv k => simp [build] at hvn
    | l k => simp [build] at hvn

end

end TD.graph.Bcu

namespace TD.graph.Bcu
open TD Tensor

/-- Sweeps whose modes agree agree. -/
theorem steps_congr {α σ : Type} {f f' : σ → Nat → Res σ} {fac : σ → List (Tensor α)} {s0 : σ} (hf : Local f fac)
    (h : ∀ s k, (fac s).map Tensor.shape = (fac s0).map Tensor.shape → k < (fac s0).length →
      (f s k).toOption = (f' s k).toOption) :
    ∀ k, k ≤ (fac s0).length → steps f s0 k = steps f' s0 k := by
  intro k
  induction k with
  | zero => intro _; rfl
  | succ k ih =>
      intro hk
      rw [steps_succ, steps_succ, ← ih (by omega)]
      cases hs : steps f s0 k with
      | none => rfl
      | some s =>
          simp only [Option.bind_some]
          exact h s k (hf.shapes hs) (by omega)

theorem ncp_update (topSv : Tensor ℝ → Res ℝ) (X g : Tensor ℝ) (rank : Nat) (st : bcu.State) (k : Nat)
    (hm : ∀ a ∈ st.A, a.shape.length = 2) :
    (bcu.NCP.modeUpdate topSv X st k).toOption = ((ncp X rank).update topSv g st k).toOption := by
  have hr : ∃ r, st.A.mapM (fun a => (tf.matmul a a true false).toOption) = some r := by
    generalize st.A = l at hm
    induction l with
    | nil => exact ⟨[], rfl⟩
    | cons a l ih =>
        obtain ⟨r, hr⟩ := ih fun b hb => hm b (by simp [hb])
        obtain ⟨x, y, hs⟩ : ∃ x y, a.shape = [x, y] := by
          have := hm a (by simp)
          match h : a.shape, this with
          | [x, y], _ => exact ⟨x, y, rfl⟩
        exact ⟨_ :: r, by rw [List.mapM_cons, tf.matmul_tn hs hs, hr]; rfl⟩
  obtain ⟨r, hr⟩ := hr
  have hr' := mapM_eraseIdx k hr
  unfold bcu.NCP.modeUpdate Kind.update Kind.v Kind.xa ncp
  simp only [if_true, toOption_bind, toOption_mapM, hr, hr', Option.bind_some, hadamard_skip, khatri_skip]
  cases ops.unfold X k with
  | error e =>
      simp only [toOption_error, Option.bind_none]
      cases (ops.khatri (st.A.eraseIdx k) .none true).toOption <;> simp
  | ok mat =>
      simp only [toOption_ok, Option.bind_some]
      cases (ops.hadamard (r.eraseIdx k)).toOption with
      | none =>
          simp only [Option.bind_none]
          cases (ops.khatri (st.A.eraseIdx k) .none true).toOption <;> simp
      | some V =>
          simp only [Option.bind_some, Option.bind_assoc]

theorem ntucker_update (topSv : Tensor ℝ → Res ℝ) (X g : Tensor ℝ) (ranks : List Nat) (st : bcu.State) (k : Nat)
    (hg : g.order = X.order) (hl : st.A.length = X.order) :
    (bcu.NTUCKER.modeUpdate topSv X g st k).toOption = ((ntucker X ranks).update topSv g st k).toOption := by
  unfold bcu.NTUCKER.modeUpdate Kind.update Kind.v Kind.xa ntucker
  have := ttm_skip g st.A k false (hl.trans hg.symm)
  rw [hg] at this
  simp only [Bool.false_eq_true, if_false, toOption_bind, this]
  cases (ops.ttm g (st.A.eraseIdx k) (some (others X.order k))).toOption with
  | none => simp
  | some Y =>
      simp only [Option.bind_some]
      cases (ops.unfold Y k).toOption with
      | none => simp
      | some B =>
          simp only [Option.bind_some]
          cases (ops.unfold X k).toOption with
          | none => simp
          | some mat =>
              simp only [Option.bind_some]
              cases (tf.matmul B B false true).toOption with
              | none => simp
              | some V => simp

end TD.graph.Bcu
