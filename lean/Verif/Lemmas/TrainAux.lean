import Verif.Lemmas.RenumberTrain

/-! # A training whose fetched weights or cores are translated -/
namespace TD.fact
open TD

variable {S T F F' K K' X X' R : Type}

/-- The fetched values with weights or core translated. -/
def Out.mapAux (h : K → K') (o : Out F K X R) : Out F K' X R :=
  ⟨o.factors, o.aux.map h, o.full, o.loss, o.obj, o.rel⟩

/-- The object with weights or core translated. -/
def Self.mapAux (h : K → K') (s : Self F K X) : Self F K' X :=
  ⟨s.full, s.factors, s.aux.map h, s.finish⟩

/-- A class that fetches the translated values. -/
def Cls.mapAux (h : K → K') (c : Cls S F K X R) : Cls S F K' X R :=
  { core := c.core.map fun run s => (fun r => (r.1, h r.2)) <$> run s
    main := fun s => (fun r => (r.1, r.2.mapAux h)) <$> c.main s
    update := c.update
    resets := c.resets
    lambdasAfter := c.lambdasAfter.map h }

/-- The local variables with weights or core translated. -/
def Loc.mapAux (h : K → K') (l : Loc S F K X R) : Loc S F K' X R :=
  ⟨l.sess, l.self.mapAux h, l.hist, l.obj0, l.nstall, l.events⟩

variable (h : K → K') (A : Arith R) (c : Cls S F K X R) (args : Args R) (n : Int)

theorem coreRun_mapAux (l : Loc S F K X R) :
    coreRun (c.mapAux h) (l.mapAux h) = ((coreRun c l).1.mapAux h, (coreRun c l).2) := by
  unfold coreRun
  simp only [Cls.mapAux, Loc.mapAux]
  cases c.core with
  | none => rfl
  | some run =>
      simp only [Option.map_some]
      cases hr : run l.sess with
      | error e => rfl
      | ok p => rfl

theorem mainRun_mapAux (rep : Bool) (step : Int) (l : Loc S F K X R) :
    mainRun (c.mapAux h) rep step (l.mapAux h) =
      (fun r => (r.1.mapAux h, r.2.mapAux h)) <$> mainRun c rep step l := by
  unfold mainRun
  change (match (fun r => (r.1, r.2.mapAux h)) <$> c.main l.sess with | .error e => _ | .ok (s, o) => _) = _
  cases c.main l.sess with
  | error e => rfl
  | ok p =>
      obtain ⟨s, o⟩ := p
      simp only [Functor.map, Except.map]
      congr 1
      unfold Loc.mapAux Self.mapAux Out.mapAux
      cases o.aux <;> cases l.self.aux <;> rfl

theorem judge_mapAux (tol : R) (step : Int) (l : Loc S F K X R) (o : Out F K X R) :
    judge A tol step (l.mapAux h) (o.mapAux h) = (fun r => (r.1.mapAux h, r.2)) <$> judge A tol step l o := by
  unfold judge
  simp only [Loc.mapAux, Out.mapAux]
  cases (if step = 1 then some (A.add o.obj A.one) else l.obj0) <;> rfl

theorem after_mapAux (o : Out F K X R) (obj0 : R) (l : Loc S F K X R) :
    after A (c.mapAux h) (o.mapAux h) obj0 (l.mapAux h) = ((after A c o obj0 l).1.mapAux h, (after A c o obj0 l).2) := by
  unfold after
  change (match c.update with | none => _ | some (op1, op2) => _) = _
  cases c.update with
  | none => rfl
  | some p =>
      obtain ⟨op1, op2⟩ := p
      change (if A.lt o.obj obj0 = true then (match op1 l.sess with | .error e => _ | .ok s => _)
        else (match op2 l.sess with | .error e => _ | .ok s => _)) = _
      simp only
      split
      · cases op1 l.sess <;> rfl
      · cases op2 l.sess <;> rfl

theorem body_mapAux (step : Int) (l : Loc S F K X R) :
    body A (c.mapAux h) args n step (l.mapAux h) = ((body A c args n step l).1.mapAux h, (body A c args n step l).2) := by
  unfold body
  rw [coreRun_mapAux]
  rcases coreRun c l with ⟨l1, e1⟩
  cases e1 with
  | some e => rfl
  | none =>
  simp only
  cases reported args n step with
  | error e => rfl
  | ok rep =>
  simp only
  rw [mainRun_mapAux]
  cases mainRun c rep step l1 with
  | error e => rfl
  | ok p =>
  obtain ⟨l2, o⟩ := p
  change (match judge A args.tol step (l2.mapAux h) (o.mapAux h) with | .error e => _ | .ok (l, _, true) => _ | .ok (l, obj0, false) => _) = _
  rw [judge_mapAux]
  simp only
  cases judge A args.tol step l2 o with
  | error e => rfl
  | ok q =>
  obtain ⟨l3, ob, b⟩ := q
  cases b with
  | true => rfl
  | false =>
  change (match after A (c.mapAux h) (o.mapAux h) ob (l3.mapAux h) with | (l, some e) => _ | (l, none) => _) = _
  rw [after_mapAux]
  simp only
  rcases after A c o ob l3 with ⟨l4, e4⟩
  cases e4 <;> rfl

theorem loop_mapAux : ∀ (k : Nat) (step : Int) (l : Loc S F K X R),
    loop A (c.mapAux h) args n k step (l.mapAux h) =
      ((loop A c args n k step l).1.mapAux h, (loop A c args n k step l).2)
  | 0, _, _ => rfl
  | k + 1, step, l => by
      rw [loop, loop, body_mapAux]
      rcases body A c args n step l with ⟨l1, e1⟩
      cases e1 with
      | error e => rfl
      | ok b =>
          cases b with
          | true => rfl
          | false => exact loop_mapAux k (step + 1) l1

/-- Translating the fetched weights or cores translates what is left on the object, and nothing else. -/
theorem train_mapAux (fresh : Res S) (self : Self F K X) :
    train A (c.mapAux h) args n fresh (self.mapAux h) =
      ((train A c args n fresh self).1.mapAux h, (train A c args n fresh self).2) := by
  unfold train
  have e : (if (c.mapAux h).resets = true then { self.mapAux h with finish := false } else self.mapAux h) =
      (if c.resets = true then { self with finish := false } else self).mapAux h := by
    change (if c.resets = true then _ else _) = _
    split <;> rfl
  rw [e]
  generalize (if c.resets = true then { self with finish := false } else self) = self0
  cases fresh with
  | error e => rfl
  | ok s =>
      simp only
      have := loop_mapAux h A c args n n.toNat 1 { sess := s, self := self0 }
      change loop A (c.mapAux h) args n n.toNat 1 { sess := s, self := self0.mapAux h } = _ at this
      rw [this]
      rcases loop A c args n n.toNat 1 { sess := s, self := self0 } with ⟨l1, e1⟩
      cases e1 with
      | some e => rfl
      | none =>
          simp only [Cls.mapAux, Loc.mapAux]
          cases c.lambdasAfter <;> simp only [Option.map] <;> split <;> rfl

/-- `train_translated` with the weights or the core translated too. -/
theorem train_translated_aux {c : Cls S F K X R} {d : Cls T F' K' X' R} (f : F → F') (k : K → K') (g : X → X')
    (ren : S → T) (Inv : S → Prop)
    (hcore : (c.core = none ∧ d.core = none) ∨ ∃ a b, c.core = some a ∧ d.core = some b ∧ ∀ s, Inv s →
      b (ren s) = (fun r => (ren r.1, k r.2)) <$> a s ∧ ∀ s' v, a s = .ok (s', v) → Inv s')
    (hmain : ∀ s, Inv s → d.main (ren s) = (fun r => (ren r.1, (r.2.mapAux k).mapOut f g)) <$> c.main s ∧
      ∀ s' v, c.main s = .ok (s', v) → Inv s')
    (hupd : (c.update = none ∧ d.update = none) ∨ ∃ a a' b b', c.update = some (a, a') ∧ d.update = some (b, b') ∧
      ∀ s, Inv s → (b (ren s) = ren <$> a s ∧ ∀ s', a s = .ok s' → Inv s') ∧
        (b' (ren s) = ren <$> a' s ∧ ∀ s', a' s = .ok s' → Inv s'))
    (h1 : c.resets = d.resets) (h2 : c.lambdasAfter.map k = d.lambdasAfter) (A : Arith R) (args : Args R) (n : Int)
    {fresh : Res S} {fresh' : Res T} (hf : fresh' = ren <$> fresh) (hi : ∀ s, fresh = .ok s → Inv s) (self : Self F K X) :
    graph.SameCall (train A d args n fresh' ((self.mapAux k).mapOut f g))
      (((train A c args n fresh self).1.mapAux k).mapOut f g, (train A c args n fresh self).2) := by
  have := train_translated (c := c.mapAux k) (d := d) f g ren Inv ?_ ?_ hupd h1 h2 A args n hf hi (self.mapAux k)
  · rw [train_mapAux] at this
    exact this
  · rcases hcore with ⟨a, b⟩ | ⟨a, b, h3, h4, h5⟩
    · exact Or.inl ⟨by simp [Cls.mapAux, a], b⟩
    · refine Or.inr ⟨fun s => (fun r => (r.1, k r.2)) <$> a s, b, by simp [Cls.mapAux, h3], h4, fun s hs => ⟨?_, ?_⟩⟩
      · rw [(h5 s hs).1, Functor.map_map]
      · intro s' v hv
        cases ha : a s with
        | error e => simp only [ha] at hv; cases hv
        | ok p => simp only [ha] at hv; cases hv; exact (h5 s hs).2 _ _ ha
  · intro s hs
    refine ⟨?_, ?_⟩
    · rw [(hmain s hs).1]
      change _ = _ <$> ((fun r => (r.1, r.2.mapAux k)) <$> c.main s)
      rw [Functor.map_map]
    · intro s' v hv
      change (fun r => (r.1, r.2.mapAux k)) <$> c.main s = _ at hv
      cases ha : c.main s with
      | error e => rw [ha] at hv; cases hv
      | ok p => rw [ha] at hv; cases hv; exact (hmain s hs).2 _ _ ha

end TD.fact
