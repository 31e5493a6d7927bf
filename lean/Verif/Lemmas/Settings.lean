import Verif.Lemmas.Prefix

/-!
# Trainings with other reporting settings or another tolerance
-/
namespace TD.fact
open TD
variable {S F K X R : Type}

/-- Without what only reporting changes. -/
def strip (l : Loc S F K X R) : Loc S F K X R := { l with self := { l.self with full := none }, events := [] }

theorem strip_eq {l l' : Loc S F K X R} (h : strip l = strip l') : l'.sess = l.sess ∧ l'.self.factors = l.self.factors ∧
    l'.self.aux = l.self.aux ∧ l'.self.finish = l.self.finish ∧ l'.hist = l.hist ∧ l'.obj0 = l.obj0 ∧ l'.nstall = l.nstall := by
  cases l; cases l'
  simp only [strip, Loc.mk.injEq, Self.mk.injEq] at h
  simp only
  tauto

theorem strip_of {l l' : Loc S F K X R} (h : l'.sess = l.sess ∧ l'.self.factors = l.self.factors ∧
    l'.self.aux = l.self.aux ∧ l'.self.finish = l.self.finish ∧ l'.hist = l.hist ∧ l'.obj0 = l.obj0 ∧ l'.nstall = l.nstall) :
    strip l = strip l' := by
  cases l; cases l'
  simp only [strip, Loc.mk.injEq, Self.mk.injEq] at h ⊢
  tauto

/-- The interval is never divided by. -/
theorem reported_harmless {args : Args R} (h : args.verbose = true ∨ args.validationInternal ≠ 0) (steps step : Int) :
    ∃ b, reported args steps step = .ok b := by
  unfold reported
  split
  · exact ⟨_, rfl⟩
  · split
    · exact ⟨_, rfl⟩
    · split
      · exact ⟨_, rfl⟩
      · split
        · rename_i h1 h2 h3 h4
          rcases h with h | h
          · exact absurd h h2
          · exact absurd h4 h
        · exact ⟨_, rfl⟩

theorem coreRun_strip {c : Cls S F K X R} {l l' : Loc S F K X R} (h : strip l = strip l') :
    strip (coreRun c l).1 = strip (coreRun c l').1 ∧ (coreRun c l).2 = (coreRun c l').2 := by
  obtain ⟨h1, h2, h3, h4, h5, h6, h7⟩ := strip_eq h
  unfold coreRun
  cases c.core with
  | none => exact ⟨h, rfl⟩
  | some f =>
      simp only [h1]
      cases f l.sess with
      | error e => exact ⟨h, rfl⟩
      | ok p => exact ⟨strip_of ⟨rfl, h2, rfl, h4, h5, h6, h7⟩, rfl⟩

theorem mainRun_strip {c : Cls S F K X R} {l l' : Loc S F K X R} (h : strip l = strip l') (b b' : Bool) (step : Int) :
    (∃ e, mainRun c b step l = .error e ∧ mainRun c b' step l' = .error e) ∨
      ∃ m m' o, mainRun c b step l = .ok (m, o) ∧ mainRun c b' step l' = .ok (m', o) ∧ strip m = strip m' := by
  obtain ⟨h1, h2, h3, h4, h5, h6, h7⟩ := strip_eq h
  unfold mainRun
  simp only [h1]
  cases c.main l.sess with
  | error e => exact Or.inl ⟨e, rfl, rfl⟩
  | ok p => exact Or.inr ⟨_, _, _, rfl, rfl, strip_of ⟨rfl, rfl, by simp only [h3], h4, h5, h6, h7⟩⟩

theorem judge_strip {A : Arith R} {l l' : Loc S F K X R} (h : strip l = strip l') (tol : R) (step : Int) (o : Out F K X R) :
    (∃ e, judge A tol step l o = .error e ∧ judge A tol step l' o = .error e) ∨
      ∃ m m' v b, judge A tol step l o = .ok (m, v, b) ∧ judge A tol step l' o = .ok (m', v, b) ∧ strip m = strip m' := by
  obtain ⟨h1, h2, h3, h4, h5, h6, h7⟩ := strip_eq h
  unfold judge
  simp only [h5, h6, h7]
  cases (if step = 1 then some (A.add o.obj A.one) else l.obj0) with
  | none => exact Or.inl ⟨_, rfl, rfl⟩
  | some v => exact Or.inr ⟨_, _, _, _, rfl, rfl, strip_of ⟨h1, h2, h3, h4, rfl, rfl, rfl⟩⟩

theorem after_strip {A : Arith R} {c : Cls S F K X R} {l l' : Loc S F K X R} (h : strip l = strip l') (o : Out F K X R) (v : R) :
    strip (after A c o v l).1 = strip (after A c o v l').1 ∧ (after A c o v l).2 = (after A c o v l').2 := by
  obtain ⟨h1, h2, h3, h4, h5, h6, h7⟩ := strip_eq h
  unfold after
  cases c.update with
  | none => exact ⟨h, rfl⟩
  | some p =>
      simp only [h1]
      split
      · cases p.1 l.sess with
        | error e => exact ⟨h, rfl⟩
        | ok s => exact ⟨strip_of ⟨rfl, h2, h3, h4, h5, rfl, h7⟩, rfl⟩
      · cases p.2 l.sess with
        | error e => exact ⟨h, rfl⟩
        | ok s => exact ⟨strip_of ⟨rfl, h2, h3, h4, h5, h6, h7⟩, rfl⟩

theorem body_strip {A : Arith R} {c : Cls S F K X R} {args args' : Args R} {l l' : Loc S F K X R}
    (ha : args.verbose = true ∨ args.validationInternal ≠ 0) (ha' : args'.verbose = true ∨ args'.validationInternal ≠ 0)
    (ht : args'.tol = args.tol) (h : strip l = strip l') (n m step : Int) :
    strip (body A c args n step l).1 = strip (body A c args' m step l').1 ∧
      (body A c args n step l).2 = (body A c args' m step l').2 := by
  obtain ⟨h1, h2⟩ := coreRun_strip (c := c) h
  obtain ⟨b, hb⟩ := reported_harmless ha n step
  obtain ⟨b', hb'⟩ := reported_harmless ha' m step
  unfold body
  rcases hc : coreRun c l with ⟨l1, e1⟩
  rcases hc' : coreRun c l' with ⟨l1', e1'⟩
  rw [hc, hc'] at h1 h2
  simp only at h1 h2
  subst h2
  cases e1 with
  | some e => exact ⟨h1, rfl⟩
  | none =>
      simp only [hb, hb', ht]
      rcases mainRun_strip (c := c) h1 b b' step with ⟨e, m1, m2⟩ | ⟨l2, l2', o, m1, m2, m3⟩
      · rw [m1, m2]; exact ⟨h1, rfl⟩
      · rw [m1, m2]
        simp only
        rcases judge_strip (A := A) m3 args.tol step o with ⟨e, j1, j2⟩ | ⟨l3, l3', v, fl, j1, j2, j3⟩
        · rw [j1, j2]; exact ⟨m3, rfl⟩
        · rw [j1, j2]
          cases fl with
          | true => exact ⟨j3, rfl⟩
          | false =>
              obtain ⟨a1, a2⟩ := after_strip (A := A) (c := c) j3 o v
              simp only
              rcases ha : after A c o v l3 with ⟨l4, e4⟩
              rcases ha' : after A c o v l3' with ⟨l4', e4'⟩
              rw [ha, ha'] at a1 a2
              simp only at a1 a2
              subst a2
              cases e4 with
              | none => exact ⟨a1, rfl⟩
              | some e => exact ⟨a1, rfl⟩

theorem loop_strip {A : Arith R} {c : Cls S F K X R} {args args' : Args R}
    (ha : args.verbose = true ∨ args.validationInternal ≠ 0) (ha' : args'.verbose = true ∨ args'.validationInternal ≠ 0)
    (ht : args'.tol = args.tol) (n m : Int) : ∀ (k : Nat) (step : Int) (l l' : Loc S F K X R), strip l = strip l' →
    strip (loop A c args n k step l).1 = strip (loop A c args' m k step l').1 ∧
      (loop A c args n k step l).2 = (loop A c args' m k step l').2
  | 0, _, _, _, h => ⟨h, rfl⟩
  | k + 1, step, l, l', h => by
      obtain ⟨b1, b2⟩ := body_strip (A := A) (c := c) ha ha' ht h n m step
      rw [loop, loop]
      rcases hb : body A c args n step l with ⟨l1, e1⟩
      rcases hb' : body A c args' m step l' with ⟨l1', e1'⟩
      rw [hb, hb'] at b1 b2
      simp only at b1 b2
      subst b2
      cases e1 with
      | error e => exact ⟨b1, rfl⟩
      | ok b =>
          cases b with
          | true => exact ⟨b1, rfl⟩
          | false => exact loop_strip ha ha' ht n m k (step + 1) l1 l1' b1

theorem train_strip {A : Arith R} {c : Cls S F K X R} {args args' : Args R}
    (ha : args.verbose = true ∨ args.validationInternal ≠ 0) (ha' : args'.verbose = true ∨ args'.validationInternal ≠ 0)
    (ht : args'.tol = args.tol) (steps : Int) (fresh : Res S) (self : Self F K X) :
    (train A c args' steps fresh self).2.2 = (train A c args steps fresh self).2.2 ∧
      { (train A c args' steps fresh self).1 with full := none } =
        ({ (train A c args steps fresh self).1 with full := none } : Self F K X) := by
  unfold train
  cases fresh with
  | error e => exact ⟨rfl, rfl⟩
  | ok s =>
      simp only
      obtain ⟨h1, h2⟩ := loop_strip (A := A) (c := c) ha ha' ht steps steps steps.toNat 1
        { sess := s, self := if c.resets = true then { self with finish := false } else self } _ rfl
      rcases hb : loop A c args steps steps.toNat 1
        { sess := s, self := if c.resets = true then { self with finish := false } else self } with ⟨l, e⟩
      rcases hb' : loop A c args' steps steps.toNat 1
        { sess := s, self := if c.resets = true then { self with finish := false } else self } with ⟨l', e'⟩
      rw [hb, hb'] at h1 h2
      simp only at h1 h2
      subst h2
      obtain ⟨-, f2, f3, f4, f5, -, -⟩ := strip_eq h1
      cases e with
      | some e => exact ⟨rfl, by simp [f2, f3, f4]⟩
      | none =>
          simp only
          by_cases hs : steps < 1
          · rw [if_pos hs, if_pos hs]
            refine ⟨rfl, ?_⟩
            cases c.lambdasAfter <;> simp [f2, f3, f4]
          · rw [if_neg hs, if_neg hs]
            refine ⟨by simp [f5], ?_⟩
            cases c.lambdasAfter <;> simp [f2, f3]

/-! ### A looser tolerance -/

/-- Like `Same`, but the second training may have counted more stalled steps. -/
structure Loose (l l' : Loc S F K X R) : Prop where
  sess : l'.sess = l.sess
  factors : l'.self.factors = l.self.factors
  aux : l'.self.aux = l.self.aux
  hist : l'.hist = l.hist
  obj0 : l'.obj0 = l.obj0
  nstall : l.nstall ≤ l'.nstall

theorem body_loose {A : Arith R} {c : Cls S F K X R} {args args' : Args R} {n m step : Int} {l l' l1 : Loc S F K X R} {b : Bool}
    (ha : args'.verbose = true ∨ args'.validationInternal ≠ 0)
    (ht : ∀ x, A.lt x args.tol = true → A.lt x args'.tol = true)
    (hl : Loose l l') (h : body A c args n step l = (l1, .ok b)) :
    ∃ l1', (body A c args' m step l' = (l1', .ok true) ∨ b = false ∧ body A c args' m step l' = (l1', .ok false) ∧ Loose l1 l1') ∧
      l1'.hist = l1.hist ∧ l1'.self.factors = l1.self.factors ∧ l1'.self.aux = l1.self.aux ∧
      l1.hist.length = l.hist.length + 1 := by
  obtain ⟨r, hr⟩ := reported_harmless ha m step
  unfold body at h ⊢
  rw [hr]
  cases h1 : coreRun c l with
  | mk la e =>
  rw [h1] at h
  cases e with
  | some e => cases h
  | none =>
  have s1 : ∃ la', coreRun c l' = (la', none) ∧ Loose la la' := by
    unfold coreRun at h1 ⊢
    cases hc : c.core with
    | none => rw [hc] at h1; cases h1; exact ⟨l', rfl, hl⟩
    | some f =>
        rw [hc] at h1
        simp only at h1 ⊢
        rw [hl.sess]
        cases hf : f l.sess with
        | error e => rw [hf] at h1; cases h1
        | ok p => rw [hf] at h1; cases h1; exact ⟨_, rfl, rfl, hl.factors, rfl, hl.hist, hl.obj0, hl.nstall⟩
  obtain ⟨la', e1, s1⟩ := s1
  rw [e1]
  simp only at h ⊢
  cases h2 : reported args n step with
  | error e => rw [h2] at h; cases h
  | ok rep =>
  rw [h2] at h
  simp only at h ⊢
  cases h3 : mainRun c rep step la with
  | error e => rw [h3] at h; cases h
  | ok p =>
  obtain ⟨lb, o⟩ := p
  have s3 : ∃ lb', mainRun c r step la' = .ok (lb', o) ∧ Loose lb lb' := by
    unfold mainRun at h3 ⊢
    rw [s1.sess]
    cases hm : c.main la.sess with
    | error e => rw [hm] at h3; cases h3
    | ok p =>
        rw [hm] at h3
        simp only [Except.ok.injEq, Prod.mk.injEq] at h3
        obtain ⟨rfl, rfl⟩ := h3
        exact ⟨_, rfl, rfl, rfl, by simp only [s1.aux], s1.hist, s1.obj0, s1.nstall⟩
  obtain ⟨lb', e3, s3⟩ := s3
  rw [h3] at h
  rw [e3]
  simp only at h ⊢
  cases h4 : judge A args.tol step lb o with
  | error e => rw [h4] at h; cases h
  | ok q =>
  obtain ⟨lc, ob, fl⟩ := q
  have s4 : ∃ lc' fl', judge A args'.tol step lb' o = .ok (lc', ob, fl') ∧ Loose lc lc' ∧ (fl = true → fl' = true) ∧
      lc.hist = lb.hist ++ [(o.loss, o.rel)] := by
    unfold judge at h4 ⊢
    simp only [s3.hist, s3.obj0] at h4 ⊢
    cases ho : (if step = 1 then some (A.add o.obj A.one) else lb.obj0) with
    | none => rw [ho] at h4; cases h4
    | some v =>
        rw [ho] at h4
        simp only [Except.ok.injEq, Prod.mk.injEq] at h4 ⊢
        obtain ⟨rfl, rfl, rfl⟩ := h4
        have hst : (if crit A args.tol o.obj v = true then lb.nstall + 1 else 0) ≤
            (if crit A args'.tol o.obj v = true then lb'.nstall + 1 else 0) := by
          by_cases hcr : crit A args.tol o.obj v = true
          · have : crit A args'.tol o.obj v = true := ht _ hcr
            rw [if_pos hcr, if_pos this]
            exact Nat.succ_le_succ s3.nstall
          · rw [if_neg hcr]; exact Nat.zero_le _
        refine ⟨_, _, ⟨rfl, rfl, rfl⟩, ⟨s3.sess, s3.factors, s3.aux, rfl, rfl, hst⟩, ?_, rfl⟩
        simp only [Bool.or_eq_true, decide_eq_true_eq]
        rintro (hx | hx)
        · exact Or.inl (Nat.le_trans hx hst)
        · exact Or.inr (ht _ hx)
  obtain ⟨lc', fl', e4, s4, hfl, hh⟩ := s4
  have hh' : lc.hist = l.hist ++ [(o.loss, o.rel)] := by rw [hh, mainRun_hist h3, coreRun_hist h1]
  rw [h4] at h
  rw [e4]
  cases fl with
  | true =>
      rw [hfl rfl]
      simp only [Prod.mk.injEq, Except.ok.injEq] at h ⊢
      obtain ⟨rfl, rfl⟩ := h
      exact ⟨lc', Or.inl ⟨rfl, trivial⟩, s4.hist, s4.factors, s4.aux, by rw [hh']; simp⟩
  | false =>
      simp only at h
      cases h5 : after A c o ob lc with
      | mk ld e =>
      rw [h5] at h
      cases e with
      | some e => cases h
      | none =>
      simp only [Prod.mk.injEq, Except.ok.injEq] at h
      obtain ⟨rfl, rfl⟩ := h
      have h5h : ld.hist = lc.hist ∧ ld.self = lc.self := by
        unfold after at h5
        split at h5
        · cases h5; exact ⟨rfl, rfl⟩
        · split at h5 <;> split at h5 <;> cases h5 <;> exact ⟨rfl, rfl⟩
      cases fl' with
      | true =>
          exact ⟨lc', Or.inl rfl, by rw [s4.hist, h5h.1], by rw [s4.factors, h5h.2], by rw [s4.aux, h5h.2], by rw [h5h.1, hh']; simp⟩
      | false =>
          have s5 : ∃ ld', after A c o ob lc' = (ld', none) ∧ Loose ld ld' := by
            unfold after at h5 ⊢
            cases hc : c.update with
            | none => rw [hc] at h5; cases h5; exact ⟨lc', rfl, s4⟩
            | some p =>
                rw [hc] at h5
                simp only at h5 ⊢
                rw [s4.sess]
                split at h5
                · cases hf : p.1 lc.sess with
                  | error e => rw [hf] at h5; cases h5
                  | ok s => rw [hf] at h5; cases h5
                            exact ⟨{ lc' with sess := s, obj0 := some o.obj }, by rw [if_pos ‹_›],
                              ⟨rfl, s4.factors, s4.aux, s4.hist, rfl, s4.nstall⟩⟩
                · cases hf : p.2 lc.sess with
                  | error e => rw [hf] at h5; cases h5
                  | ok s => rw [hf] at h5; cases h5
                            exact ⟨{ lc' with sess := s }, by rw [if_neg ‹_›],
                              ⟨rfl, s4.factors, s4.aux, s4.hist, s4.obj0, s4.nstall⟩⟩
          obtain ⟨ld', e5, s5⟩ := s5
          simp only [e5]
          exact ⟨ld', Or.inr ⟨trivial, rfl, s5⟩, s5.hist, s5.factors, s5.aux, by rw [h5h.1, hh']; simp⟩

theorem loop_loose {A : Arith R} {c : Cls S F K X R} {args args' : Args R} {n m : Int}
    (ha : args'.verbose = true ∨ args'.validationInternal ≠ 0)
    (ht : ∀ x, A.lt x args.tol = true → A.lt x args'.tol = true) : ∀ {k : Nat} {step : Int} {l l' lf : Loc S F K X R},
    step + k ≤ n + 1 → Loose l l' → loop A c args n k step l = (lf, none) →
    ∃ lf', loop A c args' m k step l' = (lf', none) ∧ l.hist.length ≤ lf'.hist.length ∧
      (0 < k → l.hist.length < lf'.hist.length) ∧ lf'.hist = lf.hist.take lf'.hist.length ∧
      (lf.hist.length ≤ lf'.hist.length → lf'.self.factors = lf.self.factors ∧ lf'.self.aux = lf.self.aux)
  | 0, step, l, l', lf, _, hl, h => by
      cases h
      exact ⟨l', rfl, (by rw [hl.hist]; exact Nat.le_refl _), by simp, by rw [hl.hist, List.take_length], fun _ => ⟨hl.factors, hl.aux⟩⟩
  | k + 1, step, l, l', lf, hk, hl, h => by
      rw [loop] at h
      cases hb : body A c args n step l with
      | mk l1 e =>
      rw [hb] at h
      cases e with
      | error e => cases h
      | ok b =>
      obtain ⟨l1', hb', h1, h2, h3, h4⟩ := body_loose (m := m) ha ht hl hb
      rw [loop]
      have hg : l1.hist.length ≤ lf.hist.length ∧ lf.hist.take l1.hist.length = l1.hist := by
        cases b with
        | true => cases h; simp
        | false => exact loop_grows (by push_cast at hk; omega) h
      rcases hb' with e | ⟨rfl, e, hl'⟩
      · rw [e]
        refine ⟨l1', rfl, by rw [h1]; omega, fun _ => by rw [h1]; omega, by rw [h1, hg.2], fun hle => ?_⟩
        rw [h1] at hle
        cases b with
        | true => cases h; exact ⟨h2, h3⟩
        | false =>
            simp only at h
            cases k with
            | zero => cases h; exact ⟨h2, h3⟩
            | succ k =>
                exfalso
                rw [loop] at h
                cases hb2 : body A c args n (step + 1) l1 with
                | mk l2 e2 =>
                rw [hb2] at h
                cases e2 with
                | error e2 => cases h
                | ok b2 =>
                obtain ⟨-, -, -, e3, -⟩ := body_sim (l := l1) (l' := l1) ⟨rfl, rfl, rfl, rfl, rfl, rfl, rfl⟩ (m := n)
                  (by push_cast at hk; omega) (Int.le_refl _) hb2
                cases b2 with
                | true => cases h; omega
                | false =>
                    have := (loop_grows (by push_cast at hk; omega) h).1
                    omega
      · rw [e]
        simp only at h ⊢
        obtain ⟨lf', f1, f2, -, f3, f4⟩ := loop_loose ha ht (m := m) (by push_cast at hk; omega) hl' h
        exact ⟨lf', f1, by omega, fun _ => by omega, f3, f4⟩

/-! ### A run is determined by where it starts -/

theorem runs_det {c : Cls S F K X R} {s s1 s2 : S} {k1 k2 : Option K} {o1 o2 : Out F K X R}
    (h1 : Spec.Runs c s k1 o1 s1) (h2 : Spec.Runs c s k2 o2 s2) : s1 = s2 ∧ o1 = o2 ∧ k1 = k2 := by
  unfold Spec.Runs at h1 h2
  cases hc : c.core with
  | none =>
      rw [hc] at h1 h2
      have := h1.2.symm.trans h2.2
      simp only [Except.ok.injEq, Prod.mk.injEq] at this
      exact ⟨this.1, this.2, h1.1.trans h2.1.symm⟩
  | some f =>
      rw [hc] at h1 h2
      obtain ⟨a, v, e1, e2, e3⟩ := h1
      obtain ⟨a', v', f1, f2, f3⟩ := h2
      have h := e1.symm.trans f1
      simp only [Except.ok.injEq, Prod.mk.injEq] at h
      obtain ⟨rfl, rfl⟩ := h
      have h := e3.symm.trans f3
      simp only [Except.ok.injEq, Prod.mk.injEq] at h
      exact ⟨h.1, h.2, e2.trans f2.symm⟩

theorem run_det {A : Arith R} {c : Cls S F K X R} {t t' : R} {s0 : S} {n : Nat} {o o' : Nat → Out F K X R}
    {k k' : Nat → Option K} (h : Spec.Run A c t s0 n o k) (h' : Spec.Run A c t' s0 n o' k') :
    ∀ j < n, o j = o' j ∧ k j = k' j := by
  obtain ⟨σ, z, r⟩ := h.ran
  obtain ⟨σ', z', r'⟩ := h'.ran
  have main : ∀ j, j < n → σ j = σ' j ∧ ∀ i ≤ j, o i = o' i ∧ k i = k' i := by
    intro j
    induction j with
    | zero =>
        intro hj
        obtain ⟨s, e, -⟩ := r 0 hj
        obtain ⟨s', e', -⟩ := r' 0 hj
        rw [z] at e; rw [z'] at e'
        obtain ⟨-, h2, h3⟩ := runs_det e e'
        exact ⟨z.trans z'.symm, fun i hi => by
          obtain rfl : i = 0 := by omega
          exact ⟨h2, h3⟩⟩
    | succ j ih =>
        intro hj
        obtain ⟨i1, i2⟩ := ih (by omega)
        obtain ⟨s, e, u⟩ := r j (by omega)
        obtain ⟨s', e', u'⟩ := r' j (by omega)
        rw [i1] at e
        obtain ⟨rfl, -, -⟩ := runs_det e e'
        have u := u hj
        have u' := u' hj
        rw [← (i2 j (Nat.le_refl _)).1, ← refObj_congr (f := fun i => (o i).obj) (fun i hi => by rw [(i2 i (by omega)).1])] at u'
        have hs : σ (j + 1) = σ' (j + 1) := by
          unfold Spec.Updates at u u'
          cases hc : c.update with
          | none => rw [hc] at u u'; exact u.trans u'.symm
          | some p =>
              rw [hc] at u u'
              simp only at u u'
              split at u
              · rw [if_pos ‹_›] at u'; have := u.symm.trans u'; simpa using this
              · rw [if_neg ‹_›] at u'; have := u.symm.trans u'; simpa using this
        obtain ⟨t1, g, -⟩ := r (j + 1) hj
        obtain ⟨t2, g', -⟩ := r' (j + 1) hj
        rw [hs] at g
        obtain ⟨-, q2, q3⟩ := runs_det g g'
        refine ⟨hs, fun i hi => ?_⟩
        rcases Nat.lt_or_ge j i with hlt | hge
        · obtain rfl : i = j + 1 := by omega
          exact ⟨q2, q3⟩
        · exact i2 i hge
  exact fun j hj => (main j hj).2 j (Nat.le_refl _)

end TD.fact
