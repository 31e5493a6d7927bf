import Verif.Lemmas.TrainSim

/-! # A training whose fetched factors and full tensors are translated -/
namespace TD.fact
open TD

variable {S T F F' K X X' R : Type}

/-- The fetched values with factors and full tensor translated. -/
def Out.mapOut (f : F → F') (g : X → X') (o : Out F K X R) : Out F' K X' R :=
  ⟨f o.factors, o.aux, g o.full, o.loss, o.obj, o.rel⟩

/-- The object with factors and full tensor translated. -/
def Self.mapOut (f : F → F') (g : X → X') (s : Self F K X) : Self F' K X' :=
  ⟨s.full.map g, s.factors.map f, s.aux, s.finish⟩

/-- A class that fetches the translated values. -/
def Cls.mapOut (f : F → F') (g : X → X') (c : Cls S F K X R) : Cls S F' K X' R :=
  { core := c.core
    main := fun s => (fun r => (r.1, r.2.mapOut f g)) <$> c.main s
    update := c.update
    resets := c.resets
    lambdasAfter := c.lambdasAfter }

/-- The local variables with factors and full tensor translated. -/
def Loc.mapOut (f : F → F') (g : X → X') (l : Loc S F K X R) : Loc S F' K X' R :=
  ⟨l.sess, l.self.mapOut f g, l.hist, l.obj0, l.nstall, l.events⟩

variable (f : F → F') (g : X → X') (A : Arith R) (c : Cls S F K X R) (args : Args R) (n : Int)

theorem coreRun_mapOut (l : Loc S F K X R) :
    coreRun (c.mapOut f g) (l.mapOut f g) = ((coreRun c l).1.mapOut f g, (coreRun c l).2) := by
  unfold coreRun
  change (match c.core with | none => _ | some run => _) = _
  cases c.core with
  | none => rfl
  | some run =>
      change (match run l.sess with | .error e => _ | .ok (s, k) => _) = _
      cases h : run l.sess with
      | error e => simp only [h]
      | ok p => simp only [h]; rfl

theorem mainRun_mapOut (rep : Bool) (step : Int) (l : Loc S F K X R) :
    mainRun (c.mapOut f g) rep step (l.mapOut f g) =
      (fun r => (r.1.mapOut f g, r.2.mapOut f g)) <$> mainRun c rep step l := by
  unfold mainRun
  change (match (fun r => (r.1, r.2.mapOut f g)) <$> c.main l.sess with | .error e => _ | .ok (s, o) => _) = _
  cases c.main l.sess with
  | error e => rfl
  | ok p =>
      cases rep <;> rfl

theorem judge_mapOut (tol : R) (step : Int) (l : Loc S F K X R) (o : Out F K X R) :
    judge A tol step (l.mapOut f g) (o.mapOut f g) = (fun r => (r.1.mapOut f g, r.2)) <$> judge A tol step l o := by
  unfold judge
  simp only [Loc.mapOut, Out.mapOut]
  cases (if step = 1 then some (A.add o.obj A.one) else l.obj0) <;> rfl

theorem after_mapOut (o : Out F K X R) (obj0 : R) (l : Loc S F K X R) :
    after A (c.mapOut f g) (o.mapOut f g) obj0 (l.mapOut f g) = ((after A c o obj0 l).1.mapOut f g, (after A c o obj0 l).2) := by
  unfold after
  change (match c.update with | none => _ | some (op1, op2) => _) = _
  cases c.update with
  | none => rfl
  | some p =>
      obtain ⟨op1, op2⟩ := p
      change (if A.lt o.obj obj0 = true then (match op1 l.sess with | .error e => _ | .ok s => _)
        else (match op2 l.sess with | .error e => _ | .ok s => _)) = _
      simp only
      split
      · cases op1 l.sess <;> rfl
      · cases op2 l.sess <;> rfl

theorem body_mapOut (step : Int) (l : Loc S F K X R) :
    body A (c.mapOut f g) args n step (l.mapOut f g) = ((body A c args n step l).1.mapOut f g, (body A c args n step l).2) := by
  unfold body
  rw [coreRun_mapOut]
  rcases coreRun c l with ⟨l1, e1⟩
  cases e1 with
  | some e => rfl
  | none =>
  simp only
  cases reported args n step with
  | error e => rfl
  | ok rep =>
  simp only
  rw [mainRun_mapOut]
  cases mainRun c rep step l1 with
  | error e => rfl
  | ok p =>
  obtain ⟨l2, o⟩ := p
  change (match judge A args.tol step (l2.mapOut f g) (o.mapOut f g) with | .error e => _ | .ok (l, _, true) => _ | .ok (l, obj0, false) => _) = _
  rw [judge_mapOut]
  simp only
  cases judge A args.tol step l2 o with
  | error e => rfl
  | ok q =>
  obtain ⟨l3, ob, b⟩ := q
  cases b with
  | true => rfl
  | false =>
  change (match after A (c.mapOut f g) (o.mapOut f g) ob (l3.mapOut f g) with | (l, some e) => _ | (l, none) => _) = _
  rw [after_mapOut]
  simp only
  rcases after A c o ob l3 with ⟨l4, e4⟩
  cases e4 <;> rfl

theorem loop_mapOut : ∀ (k : Nat) (step : Int) (l : Loc S F K X R),
    loop A (c.mapOut f g) args n k step (l.mapOut f g) =
      ((loop A c args n k step l).1.mapOut f g, (loop A c args n k step l).2)
  | 0, _, _ => rfl
  | k + 1, step, l => by
      rw [loop, loop, body_mapOut]
      rcases body A c args n step l with ⟨l1, e1⟩
      cases e1 with
      | error e => rfl
      | ok b =>
          cases b with
          | true => rfl
          | false => exact loop_mapOut k (step + 1) l1

/-- Translating what is fetched translates what is left on the object, and nothing else. -/
theorem train_mapOut (fresh : Res S) (self : Self F K X) :
    train A (c.mapOut f g) args n fresh (self.mapOut f g) =
      ((train A c args n fresh self).1.mapOut f g, (train A c args n fresh self).2) := by
  unfold train
  have e : (if (c.mapOut f g).resets = true then { self.mapOut f g with finish := false } else self.mapOut f g) =
      (if c.resets = true then { self with finish := false } else self).mapOut f g := by
    change (if c.resets = true then _ else _) = _
    split <;> rfl
  rw [e]
  generalize (if c.resets = true then { self with finish := false } else self) = self0
  cases fresh with
  | error e => rfl
  | ok s =>
      simp only
      have := loop_mapOut f g A c args n n.toNat 1 { sess := s, self := self0 }
      change loop A (c.mapOut f g) args n n.toNat 1 { sess := s, self := self0.mapOut f g } = _ at this
      rw [this]
      rcases loop A c args n n.toNat 1 { sess := s, self := self0 } with ⟨l1, e1⟩
      cases e1 with
      | some e => rfl
      | none =>
          simp only [Cls.mapOut, Loc.mapOut]
          cases c.lambdasAfter <;> simp only <;> split <;> rfl

end TD.fact
