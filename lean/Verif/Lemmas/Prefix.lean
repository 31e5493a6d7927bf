import Verif.Lemmas.Train

/-!
# Training with fewer steps
-/
namespace TD.fact
open TD
variable {S F K X R : Type}

/-- Equal up to what the reporting interval influences. -/
structure Same (l l' : Loc S F K X R) : Prop where
  sess : l'.sess = l.sess
  factors : l'.self.factors = l.self.factors
  aux : l'.self.aux = l.self.aux
  finish : l'.self.finish = l.self.finish
  hist : l'.hist = l.hist
  obj0 : l'.obj0 = l.obj0
  nstall : l'.nstall = l.nstall

theorem reported_shorter {args : Args R} {n m step : Int} {b : Bool} (h : reported args n step = .ok b)
    (hs : step ≤ m) (hm : m ≤ n) : ∃ b', reported args m step = .ok b' := by
  unfold reported at *
  by_cases h1 : step = m
  · exact ⟨true, if_pos h1⟩
  rw [if_neg h1]
  rw [if_neg (by omega)] at h
  exact ⟨b, h⟩

theorem coreRun_sim {c : Cls S F K X R} {l l' l1 : Loc S F K X R} (hl : Same l l') (h : coreRun c l = (l1, none)) :
    ∃ l1', coreRun c l' = (l1', none) ∧ Same l1 l1' := by
  unfold coreRun at *
  cases hc : c.core with
  | none => rw [hc] at h; cases h; exact ⟨l', rfl, hl⟩
  | some f =>
      rw [hc] at h
      simp only at h ⊢
      rw [hl.sess]
      cases hf : f l.sess with
      | error e => rw [hf] at h; cases h
      | ok p =>
          rw [hf] at h
          cases h
          exact ⟨_, rfl, rfl, hl.factors, rfl, hl.finish, hl.hist, hl.obj0, hl.nstall⟩

theorem mainRun_sim {c : Cls S F K X R} {l l' l1 : Loc S F K X R} {o : Out F K X R} {b : Bool} {step : Int}
    (hl : Same l l') (h : mainRun c b step l = .ok (l1, o)) (b' : Bool) :
    ∃ l1', mainRun c b' step l' = .ok (l1', o) ∧ Same l1 l1' := by
  unfold mainRun at *
  rw [hl.sess]
  cases hm : c.main l.sess with
  | error e => rw [hm] at h; cases h
  | ok p =>
      rw [hm] at h
      simp only [Except.ok.injEq, Prod.mk.injEq] at h
      obtain ⟨rfl, rfl⟩ := h
      exact ⟨_, rfl, rfl, rfl, by simp only [hl.aux], hl.finish, hl.hist, hl.obj0, hl.nstall⟩

theorem judge_sim {A : Arith R} {tol : R} {step : Int} {l l' l1 : Loc S F K X R} {o : Out F K X R} {ob : R} {b : Bool}
    (hl : Same l l') (h : judge A tol step l o = .ok (l1, ob, b)) :
    ∃ l1', judge A tol step l' o = .ok (l1', ob, b) ∧ Same l1 l1' ∧ l1.hist = l.hist ++ [(o.loss, o.rel)] := by
  unfold judge at *
  simp only [hl.hist, hl.obj0, hl.nstall] at *
  cases ho : (if step = 1 then some (A.add o.obj A.one) else l.obj0) with
  | none => rw [ho] at h; cases h
  | some v =>
      rw [ho] at h
      simp only [Except.ok.injEq, Prod.mk.injEq] at h ⊢
      obtain ⟨rfl, rfl, rfl⟩ := h
      exact ⟨_, ⟨rfl, rfl, rfl⟩, ⟨hl.sess, hl.factors, hl.aux, hl.finish, rfl, rfl, rfl⟩, rfl⟩

theorem after_sim {A : Arith R} {c : Cls S F K X R} {l l' l1 : Loc S F K X R} {o : Out F K X R} {ob : R}
    (hl : Same l l') (h : after A c o ob l = (l1, none)) :
    ∃ l1', after A c o ob l' = (l1', none) ∧ Same l1 l1' ∧ l1.hist = l.hist := by
  unfold after at *
  cases hc : c.update with
  | none => rw [hc] at h; cases h; exact ⟨l', rfl, hl, rfl⟩
  | some p =>
      rw [hc] at h
      simp only at h ⊢
      rw [hl.sess]
      split at h
      · cases hf : p.1 l.sess with
        | error e => rw [hf] at h; cases h
        | ok s => rw [hf] at h; cases h
                  exact ⟨{ l' with sess := s, obj0 := some o.obj }, by rw [if_pos ‹_›],
                    ⟨rfl, hl.factors, hl.aux, hl.finish, hl.hist, rfl, hl.nstall⟩, rfl⟩
      · cases hf : p.2 l.sess with
        | error e => rw [hf] at h; cases h
        | ok s => rw [hf] at h; cases h
                  exact ⟨{ l' with sess := s }, by rw [if_neg ‹_›],
                    ⟨rfl, hl.factors, hl.aux, hl.finish, hl.hist, hl.obj0, hl.nstall⟩, rfl⟩

theorem coreRun_hist {c : Cls S F K X R} {l l1 : Loc S F K X R} {e : Option PyErr} (h : coreRun c l = (l1, e)) :
    l1.hist = l.hist := by
  unfold coreRun at h
  split at h
  · cases h; rfl
  · split at h <;> (cases h; rfl)

theorem mainRun_hist {c : Cls S F K X R} {l l1 : Loc S F K X R} {o : Out F K X R} {b : Bool} {step : Int}
    (h : mainRun c b step l = .ok (l1, o)) : l1.hist = l.hist := by
  unfold mainRun at h
  split at h
  · cases h
  · cases h; rfl

theorem body_sim {A : Arith R} {c : Cls S F K X R} {args : Args R} {n m step : Int} {l l' l1 : Loc S F K X R} {b : Bool}
    (hl : Same l l') (hs : step ≤ m) (hm : m ≤ n) (h : body A c args n step l = (l1, .ok b)) :
    ∃ l1', body A c args m step l' = (l1', .ok b) ∧ Same l1 l1' ∧ l1.hist.length = l.hist.length + 1 ∧
      l1.hist.take l.hist.length = l.hist := by
  unfold body at h ⊢
  cases h1 : coreRun c l with
  | mk la e =>
  rw [h1] at h
  cases e with
  | some e => cases h
  | none =>
  obtain ⟨la', e1, s1⟩ := coreRun_sim hl h1
  rw [e1]
  simp only at h ⊢
  cases h2 : reported args n step with
  | error e => rw [h2] at h; cases h
  | ok rep =>
  obtain ⟨rep', e2⟩ := reported_shorter h2 hs hm
  rw [h2] at h
  rw [e2]
  simp only at h ⊢
  cases h3 : mainRun c rep step la with
  | error e => rw [h3] at h; cases h
  | ok p =>
  obtain ⟨lb, o⟩ := p
  obtain ⟨lb', e3, s3⟩ := mainRun_sim s1 h3 rep'
  rw [h3] at h
  rw [e3]
  simp only at h ⊢
  cases h4 : judge A args.tol step lb o with
  | error e => rw [h4] at h; cases h
  | ok q =>
  obtain ⟨lc, ob, fl⟩ := q
  obtain ⟨lc', e4, s4, hh⟩ := judge_sim s3 h4
  have hh' : lc.hist = l.hist ++ [(o.loss, o.rel)] := by rw [hh, mainRun_hist h3, coreRun_hist h1]
  rw [h4] at h
  rw [e4]
  cases fl with
  | true =>
      simp only [Prod.mk.injEq, Except.ok.injEq] at h ⊢
      obtain ⟨rfl, rfl⟩ := h
      exact ⟨_, ⟨rfl, rfl⟩, s4, by rw [hh']; simp, by rw [hh']; simp⟩
  | false =>
      simp only at h ⊢
      cases h5 : after A c o ob lc with
      | mk ld e =>
      rw [h5] at h
      cases e with
      | some e => cases h
      | none =>
      obtain ⟨ld', e5, s5, hk⟩ := after_sim s4 h5
      rw [e5]
      simp only [Prod.mk.injEq, Except.ok.injEq] at h ⊢
      obtain ⟨rfl, rfl⟩ := h
      exact ⟨_, ⟨rfl, rfl⟩, s5, by rw [hk, hh']; simp, by rw [hk, hh']; simp⟩

/-- The history only grows. -/
theorem loop_grows {A : Arith R} {c : Cls S F K X R} {args : Args R} {n : Int} : ∀ {k : Nat} {step : Int}
    {l lf : Loc S F K X R}, step + k ≤ n + 1 → loop A c args n k step l = (lf, none) →
    l.hist.length ≤ lf.hist.length ∧ lf.hist.take l.hist.length = l.hist
  | 0, _, l, lf, _, h => by cases h; simp
  | k + 1, step, l, lf, hk, h => by
      rw [loop] at h
      cases hb : body A c args n step l with
      | mk l1 e =>
      rw [hb] at h
      cases e with
      | error e => cases h
      | ok b =>
      obtain ⟨-, -, -, e1, e2⟩ := body_sim (l := l) (l' := l) ⟨rfl, rfl, rfl, rfl, rfl, rfl, rfl⟩ (m := n)
        (by push_cast at hk; omega) (Int.le_refl _) hb
      cases b with
      | true => cases h; exact ⟨by omega, e2⟩
      | false =>
          obtain ⟨f1, f2⟩ := loop_grows (by push_cast at hk; omega) h
          refine ⟨by omega, ?_⟩
          have : lf.hist.take l.hist.length = l1.hist.take l.hist.length := by
            rw [← f2, List.take_take, Nat.min_eq_left (by omega)]
          rw [this, e2]

theorem loop_sim {A : Arith R} {c : Cls S F K X R} {args : Args R} {n m : Int} (hm : m ≤ n) : ∀ {k d : Nat} {step : Int}
    {l l' lf : Loc S F K X R}, Same l l' → step + k = m + 1 → step + (k + d) ≤ n + 1 →
    loop A c args n (k + d) step l = (lf, none) →
    ∃ lf', loop A c args m k step l' = (lf', none) ∧ lf'.hist = lf.hist.take (l.hist.length + k) ∧
      (lf.hist.length ≤ l.hist.length + k → Same lf lf')
  | 0, d, step, l, l', lf, hl, _, hn, h => by
      obtain ⟨f1, f2⟩ := loop_grows (by push_cast; omega) h
      refine ⟨l', rfl, by rw [hl.hist, Nat.add_zero, f2], fun a => ?_⟩
      cases d with
      | zero => cases h; exact hl
      | succ d =>
          exfalso
          rw [Nat.zero_add, loop] at h
          cases hb : body A c args n step l with
          | mk l1 e =>
          rw [hb] at h
          cases e with
          | error e => cases h
          | ok b =>
          obtain ⟨-, -, -, e1, e2⟩ := body_sim hl (m := n) (by push_cast at hn; omega) (Int.le_refl _) hb
          cases b with
          | true => cases h; omega
          | false =>
              have := (loop_grows (by push_cast at hn; omega) h).1
              omega
  | k + 1, d, step, l, l', lf, hl, hk, hn, h => by
      rw [show k + 1 + d = (k + d) + 1 by omega, loop] at h
      rw [loop]
      cases hb : body A c args n step l with
      | mk l1 e =>
      rw [hb] at h
      cases e with
      | error e => cases h
      | ok b =>
      obtain ⟨l1', e0, s1, e1, e2⟩ := body_sim hl (m := m) (by push_cast at hk; omega) hm hb
      rw [e0]
      cases b with
      | true =>
          cases h
          exact ⟨l1', rfl, by rw [s1.hist, List.take_of_length_le (by omega)], fun _ => s1⟩
      | false =>
          obtain ⟨lf', g1, g2, g3⟩ := loop_sim hm (k := k) (d := d) s1 (by push_cast at hk; omega)
            (by push_cast at hn; omega) h
          refine ⟨lf', g1, by rw [g2, e1]; congr 1; omega, fun a => g3 (by omega)⟩

/-- Training for fewer steps from the same initial variables. -/
theorem train_prefix {A : Arith R} {c : Cls S F K X R} {args : Args R} {n m : Int} {fresh : Res S}
    {self self' : Self F K X} {ev : List Int} {hist : List (R × R)}
    (h : train A c args n fresh self = (self', ev, .ok hist)) (h1 : 1 ≤ m) (hm : m ≤ n) :
    ∃ self'' ev', train A c args m fresh self = (self'', ev', .ok (hist.take m.toNat)) ∧
      ((hist.length : Int) ≤ m → self''.factors = self'.factors ∧ self''.aux = self'.aux) := by
  unfold train at h ⊢
  cases hf : fresh with
  | error e => rw [hf] at h; simp at h
  | ok s0 =>
  rw [hf] at h
  simp only at h ⊢
  have h0 : (({ sess := s0, self := if c.resets = true then { self with finish := false } else self } :
    Loc S F K X R)).hist = [] := rfl
  generalize ({ sess := s0, self := if c.resets = true then { self with finish := false } else self } :
    Loc S F K X R) = l at h h0 ⊢
  cases hl : loop A c args n n.toNat 1 l with
  | mk lf e =>
  rw [hl] at h
  cases e with
  | some e => simp at h
  | none =>
  simp only at h
  rw [if_neg (by omega)] at h
  obtain ⟨d, hd⟩ : ∃ d, n.toNat = m.toNat + d := ⟨n.toNat - m.toNat, by omega⟩
  rw [hd] at hl
  obtain ⟨lf', g1, g2, g3⟩ := loop_sim hm (l' := l) ⟨rfl, rfl, rfl, rfl, rfl, rfl, rfl⟩ (by omega) (by omega) hl
  rw [g1]
  simp only
  rw [if_neg (by omega)]
  simp only [Prod.mk.injEq, Except.ok.injEq] at h
  obtain ⟨rfl, rfl, rfl⟩ := h
  rw [h0, List.length_nil, Nat.zero_add] at g2 g3
  refine ⟨_, _, by rw [g2], fun hlen => ?_⟩
  have := g3 (by omega)
  cases c.lambdasAfter with
  | none => exact ⟨this.factors, this.aux⟩
  | some k => exact ⟨this.factors, rfl⟩

end TD.fact
