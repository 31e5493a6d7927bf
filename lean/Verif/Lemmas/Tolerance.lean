import Verif.Lemmas.Prefix

/-!
# Training with a larger tolerance
-/
namespace TD.fact
open TD
variable {S F K X R : Type} {A : Arith R} {c : Cls S F K X R}

/-- The same variables with another stall counter. -/
def Loc.stall (l : Loc S F K X R) (k : Nat) : Loc S F K X R := { l with nstall := k }

theorem coreRun_stall {l l1 : Loc S F K X R} (k : Nat) (h : coreRun c l = (l1, none)) :
    coreRun c (l.stall k) = (l1.stall k, none) ∧ l1.nstall = l.nstall := by
  unfold coreRun at *
  show (match c.core with
    | none => (l.stall k, none)
    | some run => match run l.sess with
      | .error e => (l.stall k, some e)
      | .ok (s, v) => ({ l.stall k with sess := s, self := { l.self with aux := some v } }, none)) = _ ∧ _
  cases hc : c.core with
  | none => rw [hc] at h; cases h; exact ⟨rfl, rfl⟩
  | some f =>
      rw [hc] at h
      simp only at h ⊢
      cases hf : f l.sess with
      | error e => rw [hf] at h; cases h
      | ok p => rw [hf] at h; cases h; exact ⟨rfl, rfl⟩

theorem mainRun_stall {l l1 : Loc S F K X R} {o : Out F K X R} {b : Bool} {step : Int} (k : Nat)
    (h : mainRun c b step l = .ok (l1, o)) : mainRun c b step (l.stall k) = .ok (l1.stall k, o) ∧ l1.nstall = l.nstall := by
  unfold mainRun at *
  show (match c.main l.sess with
    | .error e => (.error e : Res (Loc S F K X R × Out F K X R))
    | .ok (s, o) => .ok ({ l.stall k with
      sess := s
      self := { l.self with
        factors := some o.factors
        aux := o.aux <|> l.self.aux
        full := if b then some o.full else l.self.full }
      events := if b then l.events ++ [step] else l.events }, o)) = _ ∧ _
  cases hm : c.main l.sess with
  | error e => rw [hm] at h; cases h
  | ok p =>
      rw [hm] at h
      simp only [Except.ok.injEq, Prod.mk.injEq] at h
      obtain ⟨rfl, rfl⟩ := h
      exact ⟨rfl, rfl⟩

theorem after_stall {l l1 : Loc S F K X R} {o : Out F K X R} {ob : R} (k : Nat) (h : after A c o ob l = (l1, none)) :
    after A c o ob (l.stall k) = (l1.stall k, none) ∧ l1.nstall = l.nstall := by
  unfold after at *
  show (match c.update with
    | none => (l.stall k, none)
    | some (op1, op2) =>
      if A.lt o.obj ob then
        match op1 l.sess with
        | .error e => (l.stall k, some e)
        | .ok s => ({ l.stall k with sess := s, obj0 := some o.obj }, none)
      else
        match op2 l.sess with
        | .error e => (l.stall k, some e)
        | .ok s => ({ l.stall k with sess := s }, none)) = _ ∧ _
  cases hc : c.update with
  | none => rw [hc] at h; cases h; exact ⟨rfl, rfl⟩
  | some p =>
      rw [hc] at h
      simp only at h ⊢
      by_cases ho : A.lt o.obj ob = true
      · rw [if_pos ho] at h ⊢
        cases hf : p.1 l.sess with
        | error e => rw [hf] at h; cases h
        | ok s => rw [hf] at h; cases h; exact ⟨rfl, rfl⟩
      · rw [if_neg ho] at h ⊢
        cases hf : p.2 l.sess with
        | error e => rw [hf] at h; cases h
        | ok s => rw [hf] at h; cases h; exact ⟨rfl, rfl⟩

/-- A larger tolerance counts at least as many stalls and stops at least as soon. -/
theorem judge_stall {t t' : R} (ht : ∀ x, A.lt x t' = true → A.lt x t = true) {step : Int} {l l1 : Loc S F K X R}
    {o : Out F K X R} {ob : R} {b : Bool} {k : Nat} (hk : l.nstall ≤ k) (h : judge A t' step l o = .ok (l1, ob, b)) :
    ∃ k' b', judge A t step (l.stall k) o = .ok (l1.stall k', ob, b') ∧ l1.nstall ≤ k' ∧ (b = true → b' = true) := by
  unfold judge at *
  simp only [show (l.stall k).obj0 = l.obj0 from rfl, show (l.stall k).hist = l.hist from rfl,
    show (l.stall k).nstall = k from rfl] at *
  cases ho : (if step = 1 then some (A.add o.obj A.one) else l.obj0) with
  | none => rw [ho] at h; cases h
  | some v =>
      rw [ho] at h
      simp only [Except.ok.injEq, Prod.mk.injEq] at h ⊢
      obtain ⟨rfl, rfl, rfl⟩ := h
      have hcr : crit A t' o.obj v = true → crit A t o.obj v = true := ht _
      have hle : (if crit A t' o.obj v = true then l.nstall + 1 else 0) ≤ (if crit A t o.obj v = true then k + 1 else 0) := by
        by_cases hc : crit A t' o.obj v = true
        · rw [if_pos hc, if_pos (hcr hc)]; omega
        · rw [if_neg hc]; omega
      refine ⟨_, _, ⟨rfl, rfl, rfl⟩, hle, fun hb => ?_⟩
      simp only [Bool.or_eq_true, decide_eq_true_eq] at hb ⊢
      exact hb.imp (fun h => show 3 ≤ _ from Nat.le_trans h hle) (ht _)

variable {args : Args R} {t t' : R} {steps : Int}

theorem body_stall (ht : ∀ x, A.lt x t' = true → A.lt x t = true) {step : Int} {l l1 : Loc S F K X R} {b : Bool} {k : Nat}
    (hk : l.nstall ≤ k) (h : body A c { args with tol := t' } steps step l = (l1, .ok b)) :
    ∃ l2 k' b', body A c { args with tol := t } steps step (l.stall k) = (l2, .ok b') ∧ l1.nstall ≤ k' ∧ (b = true → b' = true) ∧
      (b' = b → l2 = l1.stall k') ∧ l2.hist = l1.hist ∧ l2.events = l1.events ∧ l2.self = l1.self := by
  unfold body at h ⊢
  cases h1 : coreRun c l with
  | mk la e =>
  rw [h1] at h
  cases e with
  | some e => cases h
  | none =>
  obtain ⟨e1, n1⟩ := coreRun_stall k h1
  rw [e1]
  simp only at h ⊢
  rw [show reported { args with tol := t } steps step = reported { args with tol := t' } steps step from rfl]
  cases h2 : reported { args with tol := t' } steps step with
  | error e => rw [h2] at h; cases h
  | ok rep =>
  rw [h2] at h
  simp only at h ⊢
  cases h3 : mainRun c rep step la with
  | error e => rw [h3] at h; cases h
  | ok p =>
  obtain ⟨lb, o⟩ := p
  obtain ⟨e3, n3⟩ := mainRun_stall k h3
  rw [h3] at h
  rw [e3]
  simp only at h ⊢
  cases h4 : judge A t' step lb o with
  | error e => rw [h4] at h; cases h
  | ok q =>
  obtain ⟨lc, ob, fl⟩ := q
  obtain ⟨k', b', e4, hk', hb⟩ := judge_stall ht (k := k) (by omega) h4
  rw [h4] at h
  rw [e4]
  cases fl with
  | true =>
      obtain rfl := hb rfl
      simp only [Prod.mk.injEq, Except.ok.injEq] at h ⊢
      obtain ⟨rfl, rfl⟩ := h
      exact ⟨_, k', _, ⟨rfl, rfl⟩, hk', fun _ => rfl, fun _ => rfl, rfl, rfl, rfl⟩
  | false =>
      simp only at h
      cases h5 : after A c o ob lc with
      | mk ld e =>
      rw [h5] at h
      cases e with
      | some e => cases h
      | none =>
      obtain ⟨e5, n5⟩ := after_stall k' h5
      have hde : ld.hist = lc.hist ∧ ld.events = lc.events ∧ ld.self = lc.self := by
        unfold after at h5
        split at h5
        · cases h5; exact ⟨rfl, rfl, rfl⟩
        · split at h5 <;> (split at h5 <;> cases h5; exact ⟨rfl, rfl, rfl⟩)
      simp only [Prod.mk.injEq, Except.ok.injEq] at h
      obtain ⟨rfl, rfl⟩ := h
      cases b' with
      | true => exact ⟨_, k', _, rfl, by omega, by simp, by simp, hde.1.symm, hde.2.1.symm, hde.2.2.symm⟩
      | false => simp only [e5]; exact ⟨_, k', _, rfl, by omega, by simp, fun _ => rfl, rfl, rfl, rfl⟩

theorem body_events {step : Int} {l l1 : Loc S F K X R} {b : Bool} (h : body A c args steps step l = (l1, .ok b)) :
    l.hist <+: l1.hist ∧ l.hist.length < l1.hist.length ∧ l.events <+: l1.events := by
  unfold body at h
  cases h1 : coreRun c l with
  | mk la e =>
  rw [h1] at h
  cases e with
  | some e => cases h
  | none =>
  have a1 := coreRun_hist h1
  have a2 : la.events = l.events := by
    unfold coreRun at h1
    split at h1
    · cases h1; rfl
    · split at h1 <;> (cases h1; try rfl)
  simp only at h
  cases h2 : reported args steps step with
  | error e => rw [h2] at h; cases h
  | ok rep =>
  rw [h2] at h
  simp only at h
  cases h3 : mainRun c rep step la with
  | error e => rw [h3] at h; cases h
  | ok p =>
  obtain ⟨lb, o⟩ := p
  have b1 := mainRun_hist h3
  have b2 : l.events <+: lb.events := by
    unfold mainRun at h3
    cases hm : c.main la.sess with
    | error e => rw [hm] at h3; cases h3
    | ok p =>
        rw [hm] at h3
        simp only [Except.ok.injEq, Prod.mk.injEq] at h3
        obtain ⟨rfl, -⟩ := h3
        simp only [a2]
        cases rep with
        | true => exact List.prefix_append _ _
        | false => exact List.prefix_rfl
  rw [h3] at h
  simp only at h
  cases h4 : judge A args.tol step lb o with
  | error e => rw [h4] at h; cases h
  | ok q =>
  obtain ⟨lc, ob, fl⟩ := q
  have c1 : lc.hist = lb.hist ++ [(o.loss, o.rel)] ∧ lc.events = lb.events := by
    unfold judge at h4
    simp only at h4
    split at h4
    · cases h4
    · simp only [Except.ok.injEq, Prod.mk.injEq] at h4
      obtain ⟨rfl, -⟩ := h4
      exact ⟨rfl, rfl⟩
  have key : l.hist <+: lc.hist ∧ l.hist.length < lc.hist.length ∧ l.events <+: lc.events := by
    rw [c1.1, c1.2, b1, a1]
    exact ⟨List.prefix_append _ _, by simp, b2⟩
  rw [h4] at h
  cases fl with
  | true => cases h; exact key
  | false =>
      simp only at h
      cases h5 : after A c o ob lc with
      | mk ld e =>
      rw [h5] at h
      cases e with
      | some e => cases h
      | none =>
      have hde : ld.hist = lc.hist ∧ ld.events = lc.events := by
        unfold after at h5
        split at h5
        · cases h5; exact ⟨rfl, rfl⟩
        · split at h5 <;> (split at h5 <;> cases h5; exact ⟨rfl, rfl⟩)
      cases h
      rw [hde.1, hde.2]
      exact key

theorem loop_events : ∀ {n : Nat} {step : Int} {l lf : Loc S F K X R}, loop A c args steps n step l = (lf, none) →
    l.hist <+: lf.hist ∧ l.events <+: lf.events ∧ (0 < n → l.hist.length < lf.hist.length)
  | 0, _, l, lf, h => by cases h; exact ⟨List.prefix_rfl, List.prefix_rfl, by simp⟩
  | n + 1, step, l, lf, h => by
      rw [loop] at h
      cases hb : body A c args steps step l with
      | mk l1 e =>
      rw [hb] at h
      cases e with
      | error e => cases h
      | ok b =>
      obtain ⟨e1, e2, e3⟩ := body_events hb
      cases b with
      | true => cases h; exact ⟨e1, e3, fun _ => e2⟩
      | false =>
          obtain ⟨f1, f2, -⟩ := loop_events h
          exact ⟨e1.trans f1, e3.trans f2, fun _ => Nat.lt_of_lt_of_le e2 f1.length_le⟩

theorem loop_stall (ht : ∀ x, A.lt x t' = true → A.lt x t = true) : ∀ {n : Nat} {step : Int} {l lf : Loc S F K X R} {k : Nat},
    l.nstall ≤ k → loop A c { args with tol := t' } steps n step l = (lf, none) →
    ∃ l2, loop A c { args with tol := t } steps n step (l.stall k) = (l2, none) ∧ l2.hist <+: lf.hist ∧ l2.events <+: lf.events ∧
      (l2.hist.length = lf.hist.length → l2.self = lf.self)
  | 0, _, l, lf, k, _, h => by cases h; exact ⟨_, rfl, List.prefix_rfl, List.prefix_rfl, fun _ => rfl⟩
  | n + 1, step, l, lf, k, hk, h => by
      rw [loop] at h ⊢
      cases hb : body A c { args with tol := t' } steps step l with
      | mk l1 e =>
      rw [hb] at h
      cases e with
      | error e => cases h
      | ok b =>
      obtain ⟨l2, k', b', e1, e2, e3, e4, e5, e6, e7⟩ := body_stall ht hk hb
      rw [e1]
      cases b with
      | true =>
          obtain rfl := e3 rfl
          cases h
          obtain rfl := e4 rfl
          exact ⟨_, rfl, List.prefix_rfl, List.prefix_rfl, fun _ => rfl⟩
      | false =>
          simp only at h ⊢
          cases b' with
          | true =>
              obtain ⟨f1, f2, f3⟩ := loop_events h
              refine ⟨l2, rfl, by rwa [e5], by rwa [e6], fun he => ?_⟩
              rw [e5] at he
              by_cases hn : 0 < n
              · have := f3 hn; omega
              · obtain rfl : n = 0 := by omega
                cases h; exact e7
          | false =>
              obtain rfl := e4 rfl
              exact loop_stall ht e2 h

/-- Training with a larger tolerance. -/
theorem train_stall (ht : ∀ x, A.lt x t' = true → A.lt x t = true) {fresh : Res S} {self self' : Self F K X} {ev : List Int}
    {hist : List (R × R)} (h : train A c { args with tol := t' } steps fresh self = (self', ev, .ok hist)) :
    ∃ self2 ev2 hist2, train A c { args with tol := t } steps fresh self = (self2, ev2, .ok hist2) ∧ hist2 <+: hist ∧ ev2 <+: ev ∧
      (hist2.length = hist.length → self2 = self') := by
  unfold train at h ⊢
  cases hf : fresh with
  | error e => rw [hf] at h; simp at h
  | ok s0 =>
  rw [hf] at h
  simp only at h ⊢
  have h0 : (({ sess := s0, self := if c.resets = true then { self with finish := false } else self } :
    Loc S F K X R)).nstall = 0 := rfl
  generalize ({ sess := s0, self := if c.resets = true then { self with finish := false } else self } :
    Loc S F K X R) = l at h h0 ⊢
  cases hl : loop A c { args with tol := t' } steps steps.toNat 1 l with
  | mk lf e =>
  rw [hl] at h
  cases e with
  | some e => simp at h
  | none =>
  obtain ⟨l2, e1, e2, e3, e4⟩ := loop_stall (k := 0) ht (by omega) hl
  rw [show l.stall 0 = l by cases l; cases h0; rfl] at e1
  rw [e1]
  simp only at h ⊢
  by_cases hs : steps < 1
  · rw [if_pos hs] at h; simp at h
  rw [if_neg hs] at h ⊢
  cases h
  refine ⟨_, _, _, rfl, e2, e3, fun he => ?_⟩
  rw [e4 he]

end TD.fact
