import Verif.Spec.Train
import Mathlib.Tactic.Common
import Mathlib.Data.List.Basic
import Mathlib.Logic.IsEmpty.Basic

/-!
# The training loop follows the specification
-/
namespace TD.fact
open TD Spec
variable {S F K X R : Type}

theorem refObj_congr {A : Arith R} {t : Bool} {f g : Nat → R} : ∀ {j : Nat}, (∀ i, i < j ∨ i = 0 → f i = g i) →
    refObj A t f j = refObj A t g j
  | 0, h => by simp [refObj, h 0 (Or.inr rfl)]
  | j + 1, h => by
      have ih := refObj_congr (A := A) (t := t) (f := f) (g := g) (j := j) fun i hi => h i (by omega)
      simp only [refObj, ih, h j (by omega)]

theorem stalled_congr {A : Arith R} {t : Bool} {tol : R} {f g : Nat → R} {j : Nat} (h : ∀ i ≤ j, f i = g i) :
    Stalled A t tol f j ↔ Stalled A t tol g j := by
  unfold Stalled
  rw [refObj_congr fun i hi => h i (by omega), h j (Nat.le_refl _)]

theorem stop_congr {A : Arith R} {t : Bool} {tol : R} {f g f' g' : Nat → R} {j : Nat} (h : ∀ i ≤ j, f i = g i)
    (h' : ∀ i ≤ j, f' i = g' i) : Stop A t tol f f' j ↔ Stop A t tol g g' j := by
  unfold Stop
  rw [h' j (Nat.le_refl _), stalled_congr h, stalled_congr (j := j - 1) fun i hi => h i (by omega),
    stalled_congr (j := j - 2) fun i hi => h i (by omega)]

/-- Number of consecutive stalled steps ending before step `j`. -/
noncomputable def stallCount (p : Nat → Prop) : Nat → Nat
  | 0 => 0
  | j + 1 => open Classical in if p j then stallCount p j + 1 else 0

theorem stallCount_congr {p q : Nat → Prop} : ∀ {j : Nat}, (∀ i < j, (p i ↔ q i)) → stallCount p j = stallCount q j
  | 0, _ => rfl
  | j + 1, h => by
      have ih := stallCount_congr (p := p) (q := q) (j := j) fun i hi => h i (by omega)
      simp only [stallCount, ih]
      by_cases hp : p j
      · rw [if_pos hp, if_pos ((h j (by omega)).1 hp)]
      · rw [if_neg hp, if_neg (fun hq => hp ((h j (by omega)).2 hq))]

theorem three_le_stallCount {p : Nat → Prop} {j : Nat} :
    3 ≤ stallCount p (j + 1) ↔ 2 ≤ j ∧ p (j - 2) ∧ p (j - 1) ∧ p j := by
  match j with
  | 0 => simp only [stallCount]; split <;> omega
  | 1 =>
      simp only [stallCount]
      split
      · split <;> omega
      · omega
  | j + 2 =>
      simp only [stallCount, Nat.add_sub_cancel, show j + 2 - 1 = j + 1 by omega]
      split
      · split
        · split
          · rename_i a b c; simp [a, b, c]
          · rename_i a b c; simp [a, b, c]
        · rename_i a b; simp [a, b]
      · rename_i a; simp [a]

/-- Result of the first `k` steps. -/
structure Inv (A : Arith R) (c : Cls S F K X R) (args : Args R) (steps : Int) (s0 : S) (aux0 : Option K)
    (fin0 : Bool) (k : Nat) (l : Loc S F K X R) (o : Nat → Out F K X R) (kc : Nat → Option K) (σ : Nat → S) :
    Prop where
  start : σ 0 = s0
  sess : l.sess = σ k
  ran : ∀ j < k, ∃ s, Runs c (σ j) (kc j) (o j) s ∧
    Updates A c (o j).obj (refObj A c.update.isSome (fun i => (o i).obj) j) s (σ (j + 1))
  goes : ∀ j < k, ¬ Stop A c.update.isSome args.tol (fun i => (o i).obj) (fun i => (o i).rel) j
  hist : l.hist = (List.range k).map fun j => ((o j).loss, (o j).rel)
  obj0 : l.obj0 = if k = 0 then none else some (refObj A c.update.isSome (fun i => (o i).obj) k)
  nstall : l.nstall = stallCount (Stalled A c.update.isSome args.tol fun i => (o i).obj) k
  events : l.events = ((List.range k).filter (Reported args steps)).map fun j : Nat => (j : Int) + 1
  full : 0 < k → ∃ p < k, Reported args steps p ∧ (∀ q, p < q → q < k → ¬ Reported args steps q) ∧
    l.self.full = some (o p).full
  factors : 0 < k → l.self.factors = some (o (k - 1)).factors
  aux : ∀ v, 0 < k → ((o (k - 1)).aux <|> kc (k - 1)) = some v → l.self.aux = some v
  fin : l.self.finish = fin0

/-- Result of a loop that ended after `n` steps. -/
structure Final (A : Arith R) (c : Cls S F K X R) (args : Args R) (steps : Int) (s0 : S) (fin0 : Bool) (n : Nat)
    (l : Loc S F K X R) (o : Nat → Out F K X R) (kc : Nat → Option K) : Prop where
  run : Run A c args.tol s0 n o kc
  hist : l.hist = (List.range n).map fun j => ((o j).loss, (o j).rel)
  events : l.events = ((List.range n).filter (Reported args steps)).map fun j : Nat => (j : Int) + 1
  full : 0 < n → ∃ p < n, Reported args steps p ∧ (∀ q, p < q → q < n → ¬ Reported args steps q) ∧
    l.self.full = some (o p).full
  factors : 0 < n → l.self.factors = some (o (n - 1)).factors
  aux : ∀ v, 0 < n → ((o (n - 1)).aux <|> kc (n - 1)) = some v → l.self.aux = some v
  fin : l.self.finish = fin0

theorem reported_ok {args : Args R} {steps : Int} {k : Nat} {b : Bool}
    (h : reported args steps ((k : Int) + 1) = .ok b) : b = true ↔ Reported args steps k := by
  unfold reported at h
  unfold Reported
  split at h
  · cases h; rename_i h1; simp [h1]
  · rename_i h1
    split at h
    · cases h; rename_i h2; simp [h2]
    · rename_i h2
      split at h
      · cases h; rename_i h3; have : k = 0 := by omega
        simp [this]
      · rename_i h3
        split at h
        · cases h
        · cases h
          rw [decide_eq_true_eq, ← Int.dvd_iff_emod_eq_zero]
          have : k ≠ 0 := by omega
          simp [h1, h2, this]

/-- A step that does not raise either breaks, and then the stopping test holds, or goes on. -/
theorem body_spec {A : Arith R} {c : Cls S F K X R} {args : Args R} {steps : Int} {s0 : S} {aux0 : Option K}
    {fin0 : Bool} {k : Nat} {l l' : Loc S F K X R} {o kc σ} {b : Bool}
    (hI : Inv A c args steps s0 aux0 fin0 k l o kc σ) (h : body A c args steps ((k : Int) + 1) l = (l', .ok b)) :
    ∃ o' kc' σ', if b then
        Final A c args steps s0 fin0 (k + 1) l' o' kc' ∧
          Stop A c.update.isSome args.tol (fun i => (o' i).obj) (fun i => (o' i).rel) k
      else Inv A c args steps s0 aux0 fin0 (k + 1) l' o' kc' σ' := by
  unfold body at h
  cases hcore : coreRun c l with
  | mk l1 e1 =>
  rw [hcore] at h
  cases e1 with
  | some e => simp at h
  | none =>
  simp only at h
  cases hrep : reported args steps ((k : Int) + 1) with
  | error e => rw [hrep] at h; simp at h
  | ok rep =>
  rw [hrep] at h
  simp only at h
  cases hmain : mainRun c rep ((k : Int) + 1) l1 with
  | error e => rw [hmain] at h; simp at h
  | ok lo =>
  obtain ⟨l2, ok⟩ := lo
  rw [hmain] at h
  simp only at h
  -- what the two runs did
  obtain ⟨kk, hc1, hc2⟩ : ∃ kk, Runs c l.sess kk ok l2.sess ∧
      l2 = { l with
        sess := l2.sess
        self := { l.self with
          factors := some ok.factors
          aux := ok.aux <|> (kk <|> l.self.aux)
          full := if rep then some ok.full else l.self.full }
        events := if rep then l.events ++ [(k : Int) + 1] else l.events } := by
    unfold coreRun at hcore
    unfold mainRun at hmain
    unfold Runs
    cases hcc : c.core with
    | none =>
        rw [hcc] at hcore
        simp only [Prod.mk.injEq, and_true] at hcore
        subst hcore
        cases hm : c.main l.sess with
        | error e => rw [hm] at hmain; cases hmain
        | ok so =>
            rw [hm] at hmain
            simp only [Except.ok.injEq, Prod.mk.injEq] at hmain
            obtain ⟨rfl, rfl⟩ := hmain
            exact ⟨none, ⟨rfl, rfl⟩, by simp⟩
    | some f =>
        rw [hcc] at hcore
        simp only at hcore
        cases hf : f l.sess with
        | error e => rw [hf] at hcore; simp at hcore
        | ok sk =>
            rw [hf] at hcore
            simp only [Prod.mk.injEq, and_true] at hcore
            subst hcore
            simp only at hmain
            cases hm : c.main sk.1 with
            | error e => rw [hm] at hmain; cases hmain
            | ok so =>
                rw [hm] at hmain
                simp only [Except.ok.injEq, Prod.mk.injEq] at hmain
                obtain ⟨rfl, rfl⟩ := hmain
                exact ⟨some sk.2, ⟨_, _, hf, rfl, hm⟩, by simp⟩
  -- the sequences with the new step
  let o' : Nat → Out F K X R := fun j => if j = k then ok else o j
  let kc' : Nat → Option K := fun j => if j = k then kk else kc j
  have hok : o' k = ok := if_pos rfl
  have hkk : kc' k = kk := if_pos rfl
  have holt : ∀ j < k, o' j = o j := fun j hj => if_neg (by omega)
  have hklt : ∀ j < k, kc' j = kc j := fun j hj => if_neg (by omega)
  have href : ∀ j < k, refObj A c.update.isSome (fun i => (o' i).obj) j =
      refObj A c.update.isSome (fun i => (o i).obj) j := fun j hj =>
    refObj_congr fun i hi => by rw [holt i (by omega)]
  have hstop : ∀ j < k, (Stop A c.update.isSome args.tol (fun i => (o' i).obj) (fun i => (o' i).rel) j ↔
      Stop A c.update.isSome args.tol (fun i => (o i).obj) (fun i => (o i).rel) j) := fun j hj =>
    stop_congr (fun i hi => by rw [holt i (by omega)]) (fun i hi => by rw [holt i (by omega)])
  have hsc : stallCount (Stalled A c.update.isSome args.tol fun i => (o' i).obj) k = l.nstall := by
    rw [hI.nstall]
    exact stallCount_congr fun j hj => stalled_congr fun i hi => by rw [holt i (by omega)]
  -- the reference objective of this step
  have hobj0 : (if (k : Int) + 1 = 1 then some (A.add ok.obj A.one) else l.obj0) =
      some (refObj A c.update.isSome (fun i => (o' i).obj) k) := by
    by_cases hk : k = 0
    · subst hk
      simp [refObj, hok]
    · rw [if_neg (by omega), hI.obj0, if_neg hk]
      congr 1
      exact (refObj_congr fun i hi => by rw [holt i (by omega)]).symm
  generalize hr : refObj A c.update.isSome (fun i => (o' i).obj) k = r at hobj0
  have hst : crit A args.tol ok.obj r = true ↔ Stalled A c.update.isSome args.tol (fun i => (o' i).obj) k := by
    unfold Stalled crit
    simp only [hr, hok]
  have hl2 : l2.obj0 = l.obj0 ∧ l2.nstall = l.nstall ∧ l2.hist = l.hist := by
    rw [hc2]; exact ⟨rfl, rfl, rfl⟩
  have hj : judge A args.tol ((k : Int) + 1) l2 ok =
      .ok ({ l2 with
          hist := l.hist ++ [(ok.loss, ok.rel)]
          obj0 := some r
          nstall := stallCount (Stalled A c.update.isSome args.tol fun i => (o' i).obj) (k + 1) }, r,
        decide (stallCount (Stalled A c.update.isSome args.tol fun i => (o' i).obj) (k + 1) ≥ 3) ||
          A.lt ok.rel args.tol) := by
    unfold judge
    simp only [hl2.1, hl2.2.1, hl2.2.2, hobj0]
    have : (if crit A args.tol ok.obj r = true then l.nstall + 1 else 0) =
        stallCount (Stalled A c.update.isSome args.tol fun i => (o' i).obj) (k + 1) := by
      simp only [stallCount, hsc]
      by_cases hp : crit A args.tol ok.obj r = true
      · rw [if_pos hp, if_pos (hst.1 hp)]
      · rw [if_neg hp, if_neg (fun hq => hp (hst.2 hq))]
    rw [this]
  rw [hj] at h
  have hhist : l.hist ++ [(ok.loss, ok.rel)] = (List.range (k + 1)).map fun j => ((o' j).loss, (o' j).rel) := by
    rw [hI.hist, List.range_succ, List.map_append, List.map_singleton, hok]
    congr 1
    exact List.map_congr_left fun j hj => by rw [holt j (List.mem_range.1 hj)]
  have hev : l2.events = ((List.range (k + 1)).filter (Reported args steps)).map fun j : Nat => (j : Int) + 1 := by
    rw [hc2, List.range_succ, List.filter_append, List.map_append, ← hI.events]
    simp only [List.filter_singleton]
    by_cases hR : Reported args steps k
    · rw [if_pos ((reported_ok hrep).2 hR), decide_eq_true hR]; rfl
    · rw [if_neg (fun h => hR ((reported_ok hrep).1 h)), decide_eq_false hR]; simp
  have hfull : ∃ p < k + 1, Reported args steps p ∧ (∀ q, p < q → q < k + 1 → ¬ Reported args steps q) ∧
      l2.self.full = some (o' p).full := by
    by_cases hR : Reported args steps k
    · refine ⟨k, by omega, hR, fun q h1 h2 => by omega, ?_⟩
      rw [hc2, hok]
      simp [(reported_ok hrep).2 hR]
    · have hk : 0 < k := by
        rcases Nat.eq_zero_or_pos k with h0 | h0
        · exact absurd (Or.inr (Or.inr (Or.inl h0))) hR
        · exact h0
      obtain ⟨p, hp, h1, h2, h3⟩ := hI.full hk
      refine ⟨p, by omega, h1, fun q h4 h5 => ?_, ?_⟩
      · by_cases hq : q = k
        · exact hq ▸ hR
        · exact h2 q h4 (by omega)
      · rw [hc2, holt p hp]
        have : rep = false := by
          rw [← Bool.not_eq_true, reported_ok hrep]; exact hR
        simp [this, h3]
  have hfac : l2.self.factors = some (o' k).factors := by rw [hc2, hok]
  have haux : ∀ v, ((o' k).aux <|> kc' k) = some v → l2.self.aux = some v := by
    intro v hv
    rw [hok, hkk] at hv
    rw [hc2]
    simp only
    cases ha : ok.aux with
    | some w => rw [ha] at hv; simpa using hv
    | none =>
        rw [ha] at hv
        cases hkk' : kk with
        | some w => rw [hkk'] at hv; simpa using hv
        | none => rw [hkk'] at hv; simp at hv
  have hfin : l2.self.finish = fin0 := by rw [hc2]; exact hI.fin
  by_cases hbr : decide (stallCount (Stalled A c.update.isSome args.tol fun i => (o' i).obj) (k + 1) ≥ 3) ||
          A.lt ok.rel args.tol
  · -- break
    simp only [hbr, Prod.mk.injEq, Except.ok.injEq] at h
    obtain ⟨rfl, rfl⟩ := h
    refine ⟨o', kc', σ, ?_⟩
    rw [if_pos rfl]
    refine ⟨⟨⟨⟨σ, hI.start, fun j hj => ?_⟩, fun j hj => ?_⟩, hhist, hev, fun _ => hfull, fun _ => hfac,
      fun v _ => haux v, hfin⟩, ?_⟩
    · by_cases hjk : j = k
      · subst hjk
        exact ⟨l2.sess, by rw [hok, hkk, ← hI.sess]; exact hc1, fun h => by omega⟩
      · obtain ⟨s, h1, h2⟩ := hI.ran j (by omega)
        exact ⟨s, by rw [holt j (by omega), hklt j (by omega)]; exact h1, fun _ => by
          rw [href j (by omega), holt j (by omega)]; exact h2⟩
    · rw [hstop j (by omega)]
      exact hI.goes j (by omega)
    · rw [Bool.or_eq_true, decide_eq_true_eq] at hbr
      rcases hbr with hbr | hbr
      · exact Or.inr (three_le_stallCount.1 hbr)
      · exact Or.inl (by simp only [hok]; exact hbr)
  · -- continue
    rw [Bool.not_eq_true] at hbr
    simp only [hbr] at h
    rw [Bool.or_eq_false_iff, decide_eq_false_iff_not] at hbr
    have hns : ¬ Stop A c.update.isSome args.tol (fun i => (o' i).obj) (fun i => (o' i).rel) k := by
      rintro (hs | hs)
      · simp only [hok, hbr.2] at hs; cases hs
      · exact hbr.1 (three_le_stallCount.2 hs)
    cases hafter : after A c ok r
      { l2 with
          hist := l.hist ++ [(ok.loss, ok.rel)]
          obj0 := some r
          nstall := stallCount (Stalled A c.update.isSome args.tol fun i => (o' i).obj) (k + 1) } with
    | mk l3 e3 =>
    rw [hafter] at h
    cases e3 with
    | some e => simp at h
    | none =>
    simp only [Prod.mk.injEq, Except.ok.injEq] at h
    obtain ⟨rfl, rfl⟩ := h
    -- what the update did
    have hupd : Updates A c ok.obj r l2.sess l3.sess ∧
        l3 = { l2 with
          sess := l3.sess
          hist := l.hist ++ [(ok.loss, ok.rel)]
          obj0 := some (refObj A c.update.isSome (fun i => (o' i).obj) (k + 1))
          nstall := stallCount (Stalled A c.update.isSome args.tol fun i => (o' i).obj) (k + 1) } := by
      unfold after at hafter
      unfold Updates
      simp only [refObj, hr, hok]
      cases hu : c.update with
      | none =>
          rw [hu] at hafter
          simp only [Prod.mk.injEq, and_true] at hafter
          subst hafter
          simp
      | some ops =>
          rw [hu] at hafter
          simp only at hafter
          by_cases hlt : A.lt ok.obj r
          · rw [if_pos hlt] at hafter
            cases h1 : ops.1 l2.sess with
            | error e => rw [h1] at hafter; simp at hafter
            | ok s =>
                rw [h1] at hafter
                simp only [Prod.mk.injEq, and_true] at hafter
                subst hafter
                simp [hlt, h1]
          · rw [if_neg hlt] at hafter
            cases h1 : ops.2 l2.sess with
            | error e => rw [h1] at hafter; simp at hafter
            | ok s =>
                rw [h1] at hafter
                simp only [Prod.mk.injEq, and_true] at hafter
                subst hafter
                simp [hlt, h1]
    obtain ⟨hu1, hu2⟩ := hupd
    have hself : l3.self = l2.self := by rw [hu2]
    have hevs : l3.events = l2.events := by rw [hu2]
    refine ⟨o', kc', fun j => if j = k + 1 then l3.sess else σ j, ?_⟩
    rw [if_neg (by simp)]
    refine ⟨?_, ?_, fun j hj => ?_, fun j hj => ?_, ?_, ?_, ?_, ?_, fun _ => ?_, fun _ => ?_, fun v _ => ?_, ?_⟩
    · simp [hI.start]
    · simp
    · have h1 : (if j = k + 1 then l3.sess else σ j) = σ j := if_neg (by omega)
      simp only [h1]
      by_cases hjk : j = k
      · subst hjk
        refine ⟨l2.sess, by rw [hok, hkk, ← hI.sess]; exact hc1, ?_⟩
        rw [hr, hok, if_pos rfl]
        exact hu1
      · obtain ⟨s, h1, h2⟩ := hI.ran j (by omega)
        refine ⟨s, by rw [holt j (by omega), hklt j (by omega)]; exact h1, ?_⟩
        rw [href j (by omega), holt j (by omega), if_neg (by omega)]
        exact h2
    · by_cases hjk : j = k
      · exact hjk ▸ hns
      · rw [hstop j (by omega)]
        exact hI.goes j (by omega)
    · rw [hu2]; exact hhist
    · rw [hu2, if_neg (by omega)]
    · rw [hu2]
    · rw [hevs]; exact hev
    · rw [hself]; exact hfull
    · rw [hself]; exact hfac
    · rw [hself]; exact haux v
    · rw [hself]; exact hfin

theorem loop_spec {A : Arith R} {c : Cls S F K X R} {args : Args R} {steps : Int} {s0 : S} {aux0 : Option K}
    {fin0 : Bool} : ∀ (n k : Nat) {l l' : Loc S F K X R} {o kc σ},
    Inv A c args steps s0 aux0 fin0 k l o kc σ → loop A c args steps n ((k : Int) + 1) l = (l', none) →
    ∃ N o' kc', k ≤ N ∧ N ≤ k + n ∧ (0 < n → k < N) ∧ Final A c args steps s0 fin0 N l' o' kc' ∧
      (N = k + n ∨ ∃ j, N = j + 1 ∧
        Stop A c.update.isSome args.tol (fun i => (o' i).obj) (fun i => (o' i).rel) j)
  | 0, k, l, l', o, kc, σ, hI, h => by
      simp only [loop, Prod.mk.injEq, and_true] at h
      subst h
      refine ⟨k, o, kc, (Nat.le_refl _), (Nat.le_refl _), by omega, ⟨⟨⟨σ, hI.start, fun j hj => ?_⟩, fun j hj => hI.goes j (by omega)⟩,
        hI.hist, hI.events, hI.full, hI.factors, hI.aux, hI.fin⟩, Or.inl rfl⟩
      obtain ⟨s, h1, h2⟩ := hI.ran j hj
      exact ⟨s, h1, fun _ => h2⟩
  | n + 1, k, l, l', o, kc, σ, hI, h => by
      rw [loop] at h
      cases hb : body A c args steps ((k : Int) + 1) l with
      | mk l1 r =>
      rw [hb] at h
      cases r with
      | error e => simp at h
      | ok b =>
      obtain ⟨o', kc', σ', hspec⟩ := body_spec hI hb
      cases b with
      | true =>
          simp only [Prod.mk.injEq, and_true] at h
          subst h
          rw [if_pos rfl] at hspec
          exact ⟨k + 1, o', kc', by omega, by omega, by omega, hspec.1, Or.inr ⟨k, rfl, hspec.2⟩⟩
      | false =>
          rw [if_neg (by simp)] at hspec
          simp only at h
          have h' : loop A c args steps n (((k + 1 : Nat) : Int) + 1) l1 = (l', none) := by
            rw [← h]; push_cast; rfl
          obtain ⟨N, o2, kc2, h1, h2, h3, h4, h5⟩ := loop_spec n (k + 1) hspec h'
          exact ⟨N, o2, kc2, by omega, by omega, by omega, h4, by
            rcases h5 with h5 | h5
            · left; omega
            · right; exact h5⟩

theorem out_nonempty {A : Arith R} {c : Cls S F K X R} {args : Args R} {steps step : Int} {n : Nat}
    {l l' : Loc S F K X R} (hn : 0 < n) (hl : loop A c args steps n step l = (l', none)) :
    Nonempty (Out F K X R) := by
  obtain ⟨m, rfl⟩ : ∃ m, n = m + 1 := ⟨n - 1, by omega⟩
  rw [loop] at hl
  by_contra hne
  rw [not_nonempty_iff] at hne
  have hmain : ∀ s, ∃ e, c.main s = .error e := by
    intro s
    cases hc : c.main s with
    | error e => exact ⟨e, rfl⟩
    | ok so => exact hne.elim so.2
  unfold body at hl
  cases hcore : coreRun c l with
  | mk l1 e1 =>
  rw [hcore] at hl
  cases e1 with
  | some e => simp at hl
  | none =>
  simp only at hl
  cases hrep : reported args steps step with
  | error e => rw [hrep] at hl; simp at hl
  | ok rep =>
  rw [hrep] at hl
  obtain ⟨e, he⟩ := hmain l1.sess
  simp [mainRun, he] at hl

/-- A `train` call that returns normally. -/
theorem train_ok {A : Arith R} {c : Cls S F K X R} {args : Args R} {steps : Int} {fresh : Res S}
    {self self' : Self F K X} {ev : List Int} {hist : List (R × R)}
    (h : train A c args steps fresh self = (self', ev, .ok hist)) :
    ∃ (s0 : S) (n : Nat) (o : Nat → Out F K X R) (kc : Nat → Option K), fresh = .ok s0 ∧ 1 ≤ n ∧ (n : Int) ≤ steps ∧ Run A c args.tol s0 n o kc ∧
      ((n : Int) = steps ∨ Stop A c.update.isSome args.tol (fun i => (o i).obj) (fun i => (o i).rel) (n - 1)) ∧
      hist = (List.range n).map (fun j => ((o j).loss, (o j).rel)) ∧
      ev = ((List.range n).filter (Reported args steps)).map (fun j : Nat => (j : Int) + 1) ∧
      (∃ p < n, Reported args steps p ∧ (∀ q, p < q → q < n → ¬ Reported args steps q) ∧
        self'.full = some (o p).full) ∧
      self'.factors = some (o (n - 1)).factors ∧
      (∀ v, (c.lambdasAfter <|> ((o (n - 1)).aux <|> kc (n - 1))) = some v → self'.aux = some v) ∧
      self'.finish = true := by
  unfold train at h
  cases hf : fresh with
  | error e => rw [hf] at h; simp at h
  | ok s0 =>
  rw [hf] at h
  simp only at h
  cases hl : loop A c args steps steps.toNat 1
      { sess := s0, self := if c.resets = true then { self with finish := false } else self } with
  | mk l e =>
  rw [hl] at h
  cases e with
  | some e => simp at h
  | none =>
  simp only at h
  by_cases hs : steps < 1
  · rw [if_pos hs] at h; simp at h
  rw [if_neg hs] at h
  simp only [Prod.mk.injEq, Except.ok.injEq] at h
  obtain ⟨rfl, rfl, rfl⟩ := h
  have hI : Inv A c args steps s0 none
      (if c.resets = true then { self with finish := false } else self).finish 0
      ({ sess := s0, self := if c.resets = true then { self with finish := false } else self } : Loc S F K X R)
      (fun _ => Classical.choice (out_nonempty (by omega) hl)) (fun _ => none) (fun _ => s0) := by
    refine ⟨rfl, rfl, by simp, by simp, by simp, by simp, rfl, by simp, by simp, by simp, by simp, rfl⟩
  obtain ⟨N, o, kc, h1, h2, h3, h4, h5⟩ := loop_spec steps.toNat 0 hI (by simpa using hl)
  have hN : 1 ≤ N := h3 (by omega)
  refine ⟨s0, N, o, kc, rfl, hN, by omega, h4.run, ?_, h4.hist, h4.events, ?_, ?_, ?_, rfl⟩
  · rcases h5 with h5 | ⟨j, hj, h5⟩
    · left; omega
    · right; rw [hj]; exact h5
  · obtain ⟨p, hp, x1, x2, x3⟩ := h4.full hN
    refine ⟨p, hp, x1, x2, ?_⟩
    rw [← x3]
    cases c.lambdasAfter <;> rfl
  · rw [← h4.factors hN]
    cases c.lambdasAfter <;> rfl
  · intro v hv
    cases hc : c.lambdasAfter with
    | none => rw [hc] at hv; simpa using h4.aux v hN (by simpa using hv)
    | some w => rw [hc] at hv; simpa using hv

end TD.fact

namespace TD.fact
open TD Spec
variable {S F K X R : Type}

/-! ### No operation of the loop writes the flag -/

theorem body_finish (A : Arith R) (c : Cls S F K X R) (args : Args R) (steps step : Int) (l : Loc S F K X R) :
    (body A c args steps step l).1.self.finish = l.self.finish := by
  have hcore : ∀ l : Loc S F K X R, (coreRun c l).1.self.finish = l.self.finish := by
    intro l
    unfold coreRun
    split
    · rfl
    · split <;> rfl
  have hmain : ∀ (l l' : Loc S F K X R) b o, mainRun c b step l = .ok (l', o) → l'.self.finish = l.self.finish := by
    intro l l' b o h
    unfold mainRun at h
    split at h
    · cases h
    · simp only [Except.ok.injEq, Prod.mk.injEq] at h
      rw [← h.1]
  have hjudge : ∀ (l l' : Loc S F K X R) o b r, judge A args.tol step l o = .ok (l', r, b) →
      l'.self.finish = l.self.finish := by
    intro l l' o b r h
    unfold judge at h
    simp only at h
    split at h
    · cases h
    · simp only [Except.ok.injEq, Prod.mk.injEq] at h
      rw [← h.1]
  have hafter : ∀ o r (l : Loc S F K X R), (after A c o r l).1.self.finish = l.self.finish := by
    intro o r l
    unfold after
    split
    · rfl
    · split
      · split <;> rfl
      · split <;> rfl
  unfold body
  have h1 := hcore l
  split
  · rename_i l1 e he; rw [he] at h1; exact h1
  · rename_i l1 he
    rw [he] at h1
    simp only at h1
    split
    · exact h1
    · split
      · exact h1
      · rename_i l2 o hm
        have h2 := hmain _ _ _ _ hm
        split
        · rw [h2, h1]
        · rename_i l3 _ hj
          rw [hjudge _ _ _ _ _ hj, h2, h1]
        · rename_i l3 r hj
          have h3 := hjudge _ _ _ _ _ hj
          have h4 := hafter o r l3
          split
          · rename_i l4 e ha; rw [ha] at h4; simp only at h4 ⊢; rw [h4, h3, h2, h1]
          · rename_i l4 ha; rw [ha] at h4; simp only at h4 ⊢; rw [h4, h3, h2, h1]

theorem loop_finish (A : Arith R) (c : Cls S F K X R) (args : Args R) (steps : Int) :
    ∀ (n : Nat) (step : Int) (l : Loc S F K X R), (loop A c args steps n step l).1.self.finish = l.self.finish
  | 0, _, _ => rfl
  | n + 1, step, l => by
      have h := body_finish A c args steps step l
      rw [loop]
      split
      · rename_i l1 e hb; rw [hb] at h; exact h
      · rename_i l1 hb; rw [hb] at h; exact h
      · rename_i l1 hb; rw [hb] at h; rw [loop_finish A c args steps n, h]

/-- The flag after a call. -/
theorem train_finish (A : Arith R) (c : Cls S F K X R) (args : Args R) (steps : Int) (fresh : Res S)
    (self : Self F K X) :
    (train A c args steps fresh self).1.finish =
      ((train A c args steps fresh self).2.2.toBool || (!c.resets && self.finish)) := by
  have h0 : (if c.resets = true then { self with finish := false } else self).finish =
      (!c.resets && self.finish) := by
    cases c.resets <;> simp
  unfold train
  simp only
  split
  · simp only [Except.toBool, Bool.false_or]; exact h0
  · rename_i s
    have h := loop_finish A c args steps steps.toNat 1
      { sess := s, self := if c.resets = true then { self with finish := false } else self }
    split
    · rename_i l e hl
      rw [hl] at h
      simp only [Except.toBool, Bool.false_or]
      rw [← h0]; exact h
    · rename_i l hl
      rw [hl] at h
      split
      · simp only [Except.toBool, Bool.false_or]
        rw [← h0]
        cases c.lambdasAfter <;> exact h
      · simp [Except.toBool]

/-! ### A call depends on the object only through the values it does not overwrite -/

/-- Same locals, possibly another flag and `_lambdas` / `_core`. -/
def setFA (b : Bool) (k : Option K) (l : Loc S F K X R) : Loc S F K X R :=
  { l with self := { l.self with finish := b, aux := k } }

theorem body_setFA (A : Arith R) (c : Cls S F K X R) (args : Args R) (steps step : Int) (l : Loc S F K X R)
    (b : Bool) (k : Option K) : ∃ k', body A c args steps step (setFA b k l) =
      (setFA b k' (body A c args steps step l).1, (body A c args steps step l).2) ∧
      (k = l.self.aux → k' = (body A c args steps step l).1.self.aux) := by
  have hcore : ∀ (l : Loc S F K X R) k, ∃ k', coreRun c (setFA b k l) = (setFA b k' (coreRun c l).1, (coreRun c l).2) ∧
      (k = l.self.aux → k' = (coreRun c l).1.self.aux) := by
    intro l k
    unfold coreRun
    cases c.core with
    | none => exact ⟨k, rfl, id⟩
    | some f =>
        simp only [setFA]
        cases f l.sess with
        | error e => exact ⟨k, rfl, id⟩
        | ok sk => exact ⟨some sk.2, rfl, fun _ => rfl⟩
  have hmain : ∀ (l : Loc S F K X R) r k, ∃ k', mainRun c r step (setFA b k l) =
      (mainRun c r step l).map (fun p => (setFA b k' p.1, p.2)) ∧
      ∀ l' o, mainRun c r step l = .ok (l', o) → k = l.self.aux → k' = l'.self.aux := by
    intro l r k
    unfold mainRun
    simp only [setFA]
    cases c.main l.sess with
    | error e => exact ⟨k, rfl, fun _ _ h => by cases h⟩
    | ok so =>
        refine ⟨(so.2.aux <|> k), rfl, fun l' o h hk => ?_⟩
        simp only [Except.ok.injEq, Prod.mk.injEq] at h
        rw [← h.1, hk]
  have hjudge : ∀ (l : Loc S F K X R) o k, judge A args.tol step (setFA b k l) o =
      (judge A args.tol step l o).map (fun p => (setFA b k p.1, p.2)) ∧
      ∀ p, judge A args.tol step l o = .ok p → p.1.self.aux = l.self.aux := by
    intro l o k
    unfold judge
    simp only [setFA]
    cases (if step = 1 then some (A.add o.obj A.one) else l.obj0) with
    | none => exact ⟨rfl, fun _ h => by cases h⟩
    | some r =>
        refine ⟨rfl, fun p h => ?_⟩
        simp only [Except.ok.injEq] at h
        rw [← h]
  have hafter : ∀ o r (l : Loc S F K X R) k, after A c o r (setFA b k l) =
      (setFA b k (after A c o r l).1, (after A c o r l).2) ∧ (after A c o r l).1.self.aux = l.self.aux := by
    intro o r l k
    unfold after
    cases c.update with
    | none => exact ⟨rfl, rfl⟩
    | some p =>
        simp only [setFA]
        split
        · cases p.1 l.sess <;> exact ⟨rfl, rfl⟩
        · cases p.2 l.sess <;> exact ⟨rfl, rfl⟩
  unfold body
  obtain ⟨k1, hc1, hc2⟩ := hcore l k
  rw [hc1]
  cases h1 : coreRun c l with
  | mk l1 e1 =>
  rw [h1] at hc2
  simp only at hc2
  cases e1 with
  | some e => exact ⟨k1, rfl, hc2⟩
  | none =>
  simp only
  cases h2 : reported args steps step with
  | error e => exact ⟨k1, rfl, hc2⟩
  | ok rep =>
  simp only
  obtain ⟨k2, hm1, hm2⟩ := hmain l1 rep k1
  rw [hm1]
  cases h3 : mainRun c rep step l1 with
  | error e => exact ⟨k1, rfl, hc2⟩
  | ok lo =>
  obtain ⟨l2, o⟩ := lo
  have hk2 := fun h => hm2 l2 o h3 (hc2 h)
  simp only [Except.map]
  rw [(hjudge l2 o k2).1]
  cases h4 : judge A args.tol step l2 o with
  | error e => exact ⟨k2, rfl, hk2⟩
  | ok q =>
  have hq := (hjudge l2 o k2).2 q h4
  obtain ⟨l3, r, br⟩ := q
  simp only at hq
  simp only [Except.map]
  cases br with
  | true => exact ⟨k2, rfl, fun h => (hk2 h).trans hq.symm⟩
  | false =>
  simp only
  have ha := hafter o r l3 k2
  rw [ha.1]
  cases h5 : after A c o r l3 with
  | mk l4 e4 =>
  rw [h5] at ha
  cases e4 <;> exact ⟨k2, rfl, fun h => (hk2 h).trans (hq.symm.trans ha.2.symm)⟩

theorem loop_setFA (A : Arith R) (c : Cls S F K X R) (args : Args R) (steps : Int) (b : Bool) :
    ∀ (n : Nat) (step : Int) (l : Loc S F K X R) (k : Option K), ∃ k', loop A c args steps n step (setFA b k l) =
      (setFA b k' (loop A c args steps n step l).1, (loop A c args steps n step l).2) ∧
      (k = l.self.aux → k' = (loop A c args steps n step l).1.self.aux)
  | 0, _, _, k => ⟨k, rfl, id⟩
  | n + 1, step, l, k => by
      obtain ⟨k1, h1, h2⟩ := body_setFA A c args steps step l b k
      rw [loop, h1, loop]
      cases h : body A c args steps step l with
      | mk l1 r =>
      rw [h] at h2
      cases r with
      | error e => exact ⟨k1, rfl, h2⟩
      | ok br =>
          cases br with
          | true => exact ⟨k1, rfl, h2⟩
          | false =>
              obtain ⟨k2, h3, h4⟩ := loop_setFA A c args steps b n (step + 1) l1 k1
              exact ⟨k2, h3, fun hk => h4 (h2 hk)⟩

/-- Every run of a step sets the attribute `_lambdas` / `_core`. -/
def SetsAux (c : Cls S F K X R) : Prop :=
  c.core.isSome ∨ ∀ s s' o, c.main s = .ok (s', o) → o.aux.isSome

/-- In the first step the outcome does not depend on the object, and if it does not raise all attributes
but the flag are overwritten (for classes without extra run or fetch of `_lambdas`, that one is kept). -/
theorem body_first (A : Arith R) (c : Cls S F K X R) (args : Args R) (steps : Int) (s : S) (self self' : Self F K X) :
    (body A c args steps 1 { sess := s, self := self }).2 = (body A c args steps 1 { sess := s, self := self' }).2 ∧
    (body A c args steps 1 { sess := s, self := self }).1.events =
      (body A c args steps 1 { sess := s, self := self' }).1.events ∧
    ∀ l b, body A c args steps 1 { sess := s, self := self } = (l, .ok b) →
      ∃ l', body A c args steps 1 { sess := s, self := self' } = (l', .ok b) ∧
        ∃ k, l' = setFA self'.finish k l ∧ (self.aux = self'.aux ∨ SetsAux c → k = l.self.aux) := by
  unfold body
  have hc : ∀ sf : Self F K X, coreRun c { sess := s, self := sf } =
      match c.core with
      | none => ({ sess := s, self := sf }, none)
      | some f => match f s with
        | .error e => ({ sess := s, self := sf }, some e)
        | .ok (s1, k) => ({ sess := s1, self := { sf with aux := some k } }, none) := by
    intro sf; rfl
  have hrep : ∃ rep : Bool, reported args steps 1 = .ok true := by
    unfold reported
    split
    · exact ⟨true, rfl⟩
    · split
      · exact ⟨true, rfl⟩
      · simp
  obtain ⟨-, hrep⟩ := hrep
  have hgen : ∀ (s1 : S) (a a' : Option K),
      let B := fun (sf : Self F K X) => (match mainRun c true 1 ({ sess := s1, self := sf } : Loc S F K X R) with
      | .error e => (({ sess := s1, self := sf } : Loc S F K X R), (.error e : Res Bool))
      | .ok (l, o) =>
        match judge A args.tol 1 l o with
        | .error e => (l, .error e)
        | .ok (l, _, true) => (l, .ok true)
        | .ok (l, obj0, false) =>
          match after A c o obj0 l with
          | (l, some e) => (l, .error e)
          | (l, none) => (l, .ok false))
      (B { self with aux := a }).2 = (B { self' with aux := a' }).2 ∧
      (B { self with aux := a }).1.events = (B { self' with aux := a' }).1.events ∧
      ∀ l b, B { self with aux := a } = (l, .ok b) →
        ∃ l', B { self' with aux := a' } = (l', .ok b) ∧
          ∃ k, l' = setFA self'.finish k l ∧
            (a = a' ∨ (∀ s s' o, c.main s = .ok (s', o) → o.aux.isSome) → k = l.self.aux) := by
    intro s1 a a'
    simp only [mainRun]
    cases hm : c.main s1 with
    | error e => simp
    | ok so =>
        simp only [judge, if_true, List.nil_append]
        cases hbr : (decide ((if crit A args.tol so.2.obj (A.add so.2.obj A.one) = true then 0 + 1 else 0) ≥ 3) ||
          A.lt so.2.rel args.tol) with
        | true =>
            simp only [true_and]
            intro l b h
            simp only [Prod.mk.injEq, Except.ok.injEq] at h
            obtain ⟨rfl, rfl⟩ := h
            refine ⟨_, rfl, (so.2.aux <|> a'), rfl, ?_⟩
            rintro (rfl | hs)
            · rfl
            · obtain ⟨v, hv⟩ := Option.isSome_iff_exists.1 (hs _ _ _ hm)
              simp [hv]
        | false =>
            simp only
            cases hu : c.update with
            | none =>
                simp only [after, hu, true_and]
                intro l b h
                simp only [Prod.mk.injEq, Except.ok.injEq] at h
                obtain ⟨rfl, rfl⟩ := h
                refine ⟨_, rfl, (so.2.aux <|> a'), rfl, ?_⟩
                rintro (rfl | hs)
                · rfl
                · obtain ⟨v, hv⟩ := Option.isSome_iff_exists.1 (hs _ _ _ hm)
                  simp [hv]
            | some ops =>
                simp only [after, hu]
                by_cases hlt : A.lt so.2.obj (A.add so.2.obj A.one) = true
                · simp only [if_pos hlt]
                  cases h1 : ops.1 so.1 with
                  | error e => simp
                  | ok s2 =>
                      simp only [true_and]
                      intro l b h
                      simp only [Prod.mk.injEq, Except.ok.injEq] at h
                      obtain ⟨rfl, rfl⟩ := h
                      refine ⟨_, rfl, (so.2.aux <|> a'), rfl, ?_⟩
                      rintro (rfl | hs)
                      · rfl
                      · obtain ⟨v, hv⟩ := Option.isSome_iff_exists.1 (hs _ _ _ hm)
                        simp [hv]
                · simp only [if_neg hlt]
                  cases h1 : ops.2 so.1 with
                  | error e => simp
                  | ok s2 =>
                      simp only [true_and]
                      intro l b h
                      simp only [Prod.mk.injEq, Except.ok.injEq] at h
                      obtain ⟨rfl, rfl⟩ := h
                      refine ⟨_, rfl, (so.2.aux <|> a'), rfl, ?_⟩
                      rintro (rfl | hs)
                      · rfl
                      · obtain ⟨v, hv⟩ := Option.isSome_iff_exists.1 (hs _ _ _ hm)
                        simp [hv]
  rw [hc, hc]
  cases hcc : c.core with
  | none =>
      simp only [hrep]
      obtain ⟨h1, h2, h3⟩ := hgen s self.aux self'.aux
      refine ⟨h1, h2, fun l b h => ?_⟩
      obtain ⟨l', h4, k, h5, h6⟩ := h3 l b h
      refine ⟨l', h4, k, h5, fun hor => h6 ?_⟩
      rcases hor with hor | hor
      · exact Or.inl hor
      · rcases hor with hor | hor
        · rw [hcc] at hor; simp at hor
        · exact Or.inr hor
  | some f =>
      cases hf : f s with
      | error e => simp only [hf]; simp
      | ok sk =>
          simp only [hf, hrep]
          obtain ⟨h1, h2, h3⟩ := hgen sk.1 (some sk.2) (some sk.2)
          refine ⟨h1, h2, fun l b h => ?_⟩
          obtain ⟨l', h4, k, h5, h6⟩ := h3 l b h
          exact ⟨l', h4, k, h5, fun _ => h6 (Or.inl rfl)⟩

/-- A call depends only on the fresh session: same history and same reported steps, and when it returns the
object has the same attributes, whatever happened before. -/
theorem train_indep (A : Arith R) (c : Cls S F K X R) (args : Args R) (steps : Int) (fresh : Res S)
    (self self' : Self F K X) :
    (train A c args steps fresh self).2 = (train A c args steps fresh self').2 ∧
    ((train A c args steps fresh self).2.2.toBool = true → SetsAux c ∨ c.lambdasAfter.isSome →
      (train A c args steps fresh self).1 = (train A c args steps fresh self').1) := by
  unfold train
  cases fresh with
  | error e => simp [Except.toBool]
  | ok s =>
  simp only
  generalize (if c.resets = true then { self with finish := false } else self) = sf
  generalize (if c.resets = true then { self' with finish := false } else self') = sf'
  cases hn : steps.toNat with
  | zero =>
      have : steps < 1 := by omega
      simp [loop, this, Except.toBool]
  | succ n =>
  rw [loop, loop]
  obtain ⟨h1, h2, h3⟩ := body_first A c args steps s sf sf'
  cases hb : body A c args steps 1 { sess := s, self := sf } with
  | mk l r =>
  cases hb' : body A c args steps 1 { sess := s, self := sf' } with
  | mk l' r' =>
  rw [hb, hb'] at h1 h2
  simp only at h1 h2
  subst h1
  cases r with
  | error e => simp [Except.toBool, h2]
  | ok br =>
  obtain ⟨l2, h4, k, rfl, h6⟩ := h3 l br hb
  rw [hb'] at h4
  simp only [Prod.mk.injEq, and_true] at h4
  subst h4
  have hsteps : ¬ steps < 1 := by omega
  have hend : ∀ (l : Loc S F K X R) k, (SetsAux c → k = l.self.aux) → SetsAux c ∨ c.lambdasAfter.isSome →
      ({ (match c.lambdasAfter with
        | some k => { l.self with aux := some k }
        | none => l.self : Self F K X) with finish := true } : Self F K X) =
      { (match c.lambdasAfter with
        | some k' => { (setFA sf'.finish k l).self with aux := some k' }
        | none => (setFA sf'.finish k l).self : Self F K X) with finish := true } := by
    intro l k hk hor
    cases hc : c.lambdasAfter with
    | some v => rfl
    | none =>
        rw [hc] at hor
        rcases hor with hor | hor
        · simp [setFA, hk hor]
        · simp at hor
  cases br with
  | true =>
      simp only [if_neg hsteps, setFA, true_and]
      intro _ hor
      exact hend l k (fun h => h6 (Or.inr h)) hor
  | false =>
      simp only
      obtain ⟨k2, h7, h8⟩ := loop_setFA A c args steps sf'.finish n (1 + 1) l k
      rw [h7]
      cases hl : loop A c args steps n (1 + 1) l with
      | mk l3 e =>
      rw [hl] at h8
      cases e with
      | some e => simp [Except.toBool, setFA]
      | none =>
          simp only [if_neg hsteps, setFA, true_and]
          intro _ hor
          exact hend l3 k2 (fun h => h8 (h6 (Or.inr h))) hor

end TD.fact

namespace TD.fact
open TD Spec
variable {S F K X R : Type}

/-- No run of the session raises. -/
def NeverRaises (c : Cls S F K X R) : Prop :=
  (∀ s, (c.main s).toBool) ∧ (∀ f, c.core = some f → ∀ s, (f s).toBool) ∧
    ∀ p, c.update = some p → ∀ s, (p.1 s).toBool ∧ (p.2 s).toBool

/-- `I` holds of the variables before and after every run, and no run raises on such variables. -/
def Safe (c : Cls S F K X R) (I : S → Prop) : Prop :=
  (∀ s, I s → ∃ s' o, c.main s = .ok (s', o) ∧ I s') ∧
    (∀ f, c.core = some f → ∀ s, I s → ∃ s' k, f s = .ok (s', k) ∧ I s') ∧
    ∀ p, c.update = some p → ∀ s, I s → (∃ s', p.1 s = .ok s' ∧ I s') ∧ ∃ s', p.2 s = .ok s' ∧ I s'

theorem NeverRaises.safe {c : Cls S F K X R} (h : NeverRaises c) : Safe c fun _ => True := by
  refine ⟨fun s _ => ?_, fun f hf s _ => ?_, fun p hp s _ => ⟨?_, ?_⟩⟩
  · have := h.1 s
    cases hm : c.main s with
    | error e => rw [hm] at this; cases this
    | ok so => exact ⟨_, _, rfl, trivial⟩
  · have := h.2.1 f hf s
    cases hm : f s with
    | error e => rw [hm] at this; cases this
    | ok so => exact ⟨_, _, rfl, trivial⟩
  · have := (h.2.2 p hp s).1
    cases hm : p.1 s with
    | error e => rw [hm] at this; cases this
    | ok so => exact ⟨_, rfl, trivial⟩
  · have := (h.2.2 p hp s).2
    cases hm : p.2 s with
    | error e => rw [hm] at this; cases this
    | ok so => exact ⟨_, rfl, trivial⟩

theorem body_total {A : Arith R} {c : Cls S F K X R} {I : S → Prop} {args : Args R} {steps step : Int}
    {l : Loc S F K X R} (hc : Safe c I) (hI : I l.sess) (hrep : (reported args steps step).toBool)
    (h0 : step = 1 ∨ l.obj0.isSome) :
    ∃ l' b, body A c args steps step l = (l', .ok b) ∧ l'.obj0.isSome ∧ I l'.sess := by
  obtain ⟨l1, h1, h1', i1⟩ : ∃ l1, coreRun c l = (l1, none) ∧ l1.obj0 = l.obj0 ∧ I l1.sess := by
    unfold coreRun
    cases hcc : c.core with
    | none => exact ⟨l, rfl, rfl, hI⟩
    | some f =>
        obtain ⟨s', k, hf, hs'⟩ := hc.2.1 f hcc l.sess hI
        simp only [hf]
        exact ⟨_, rfl, rfl, hs'⟩
  unfold body
  rw [h1]
  simp only
  cases hr : reported args steps step with
  | error e => rw [hr] at hrep; cases hrep
  | ok rep =>
  simp only
  obtain ⟨l2, o, h2, h2', i2⟩ : ∃ l2 o, mainRun c rep step l1 = .ok (l2, o) ∧ l2.obj0 = l.obj0 ∧ I l2.sess := by
    unfold mainRun
    obtain ⟨s', o, hm, hs'⟩ := hc.1 l1.sess i1
    rw [hm]
    exact ⟨_, _, rfl, h1', hs'⟩
  rw [h2]
  simp only
  obtain ⟨l3, r, br, h3, h3', i3⟩ : ∃ l3 r br, judge A args.tol step l2 o = .ok (l3, r, br) ∧ l3.obj0.isSome ∧
      I l3.sess := by
    unfold judge
    simp only [h2']
    by_cases hs : step = 1
    · simp [hs, i2]
    · obtain ⟨v, hv⟩ := Option.isSome_iff_exists.1 (h0.resolve_left hs)
      simp [hs, hv, i2]
  rw [h3]
  cases br with
  | true => exact ⟨_, _, rfl, h3', i3⟩
  | false =>
      simp only
      obtain ⟨l4, h4, h4', i4⟩ : ∃ l4, after A c o r l3 = (l4, none) ∧ l4.obj0.isSome ∧ I l4.sess := by
        unfold after
        cases hu : c.update with
        | none => exact ⟨_, rfl, h3', i3⟩
        | some p =>
            obtain ⟨⟨s1, g1, j1⟩, s2, g2, j2⟩ := hc.2.2 p hu l3.sess i3
            simp only [g1, g2]
            split
            · exact ⟨_, rfl, rfl, j1⟩
            · exact ⟨_, rfl, h3', j2⟩
      rw [h4]
      exact ⟨_, _, rfl, h4', i4⟩

theorem loop_total {A : Arith R} {c : Cls S F K X R} {I : S → Prop} {args : Args R} {steps : Int} (hc : Safe c I) :
    ∀ (n : Nat) (step : Int) (l : Loc S F K X R), I l.sess →
      (∀ k, step ≤ k → k < step + n → (reported args steps k).toBool) → step = 1 ∨ l.obj0.isSome →
      (loop A c args steps n step l).2 = none
  | 0, _, _, _, _, _ => rfl
  | n + 1, step, l, hI, hrep, h0 => by
      obtain ⟨l', b, hb, hb', hI'⟩ := body_total (A := A) hc hI (hrep step (by omega) (by omega)) h0
      rw [loop, hb]
      cases b with
      | true => rfl
      | false => exact loop_total hc n _ _ hI' (fun k h1 h2 => hrep k (by omega) (by omega)) (Or.inr hb')

/-- If no run raises from variables reachable from `s` and the validation interval is not 0, `train` with at
least one step returns normally. -/
theorem train_safe {A : Arith R} {c : Cls S F K X R} {I : S → Prop} {args : Args R} {steps : Int} {s : S}
    (hc : Safe c I) (hI : I s) (hv : args.validationInternal ≠ 0 ∨ args.verbose = true ∨ steps ≤ 2) (hs : 1 ≤ steps)
    (self : Self F K X) : ∃ hist, (train A c args steps (.ok s) self).2.2 = .ok hist := by
  unfold train
  simp only
  have := loop_total (A := A) (args := args) (steps := steps) hc steps.toNat 1
    { sess := s, self := if c.resets = true then { self with finish := false } else self } hI (by
      intro k h1 h2
      unfold reported
      split
      · rfl
      · split
        · rfl
        · split
          · rfl
          · split
            · rename_i a b c' d
              rcases hv with hv | hv | hv
              · exact absurd d hv
              · exact absurd hv b
              · omega
            · rfl) (Or.inl rfl)
  cases hl : loop A c args steps steps.toNat 1
    { sess := s, self := if c.resets = true then { self with finish := false } else self } with
  | mk l e =>
  rw [hl] at this
  simp only at this
  subst this
  simp only [if_neg (show ¬ steps < 1 by omega)]
  exact ⟨_, rfl⟩

/-- If no run raises and the validation interval is not 0, `train` with at least one step returns normally. -/
theorem train_total {A : Arith R} {c : Cls S F K X R} {args : Args R} {steps : Int} {s : S}
    (hc : NeverRaises c) (hv : args.validationInternal ≠ 0 ∨ args.verbose = true ∨ steps ≤ 2) (hs : 1 ≤ steps)
    (self : Self F K X) : ∃ hist, (train A c args steps (.ok s) self).2.2 = .ok hist :=
  train_safe hc.safe trivial hv hs self

/-- `steps < 1` : the loop is empty. -/
theorem train_zero {A : Arith R} {c : Cls S F K X R} {args : Args R} {steps : Int} {s : S} (hs : steps < 1)
    (self : Self F K X) : (train A c args steps (.ok s) self).2 = ([], .error .unboundLocal) := by
  unfold train
  have : steps.toNat = 0 := by omega
  simp [this, loop, hs]

/-- A call with one step that reaches the tolerance returns. -/
theorem train_one {A : Arith R} {c : Cls S F K X R} {args : Args R} {s0 s : S} {o : Out F K X R} (self : Self F K X)
    (hc : c.core = none) (hm : c.main s0 = .ok (s, o)) (ht : A.lt o.rel args.tol = true) :
    (train A c args 1 (.ok s0) self).2.2 = .ok [(o.loss, o.rel)] := by
  have h1 : (1 : Int).toNat = 1 := rfl
  unfold train
  simp only [h1, loop, body, coreRun, hc, reported, if_true, mainRun, hm, judge, ht, Bool.or_true]
  rw [if_neg (by decide)]
  simp

/-- A first step below the tolerance ends the training, whatever `steps` is. -/
theorem train_first {A : Arith R} {c : Cls S F K X R} {args : Args R} {steps : Int} {s0 s1 s : S} {o : Out F K X R}
    (self : Self F K X) (h1 : 1 ≤ steps)
    (hc : (c.core = none ∧ s1 = s0) ∨ ∃ f k, c.core = some f ∧ f s0 = .ok (s1, k))
    (hm : c.main s1 = .ok (s, o)) (ht : A.lt o.rel args.tol = true) :
    (train A c args steps (.ok s0) self).2.2 = .ok [(o.loss, o.rel)] := by
  obtain ⟨n, hn⟩ : ∃ n, steps.toNat = n + 1 := ⟨steps.toNat - 1, by omega⟩
  have hrep : reported args steps 1 = .ok true := by
    unfold reported
    by_cases a : 1 = steps
    · rw [if_pos a]
    · rw [if_neg a]
      by_cases b : args.verbose = true
      · rw [if_pos b]
      · rw [if_neg b, if_pos rfl]
  rcases hc with ⟨hc, rfl⟩ | ⟨f, k, hc, hf⟩
  · unfold train
    simp only [hn, loop, body, coreRun, hc, hrep, mainRun, hm, judge, ht, Bool.or_true, if_true]
    simp [show ¬ steps < 1 by omega]
  · unfold train
    simp only [hn, loop, body, coreRun, hc, hf, hrep, mainRun, hm, judge, ht, Bool.or_true, if_true]
    simp [show ¬ steps < 1 by omega]

end TD.fact
