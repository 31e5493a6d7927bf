import Verif.Lemmas.TrainAux

/-! # A training whose fetched losses are translated -/
namespace TD.fact
open TD

variable {S F K X R : Type}

/-- The fetched values with the loss translated. -/
def Out.mapLoss (h : R → R) (o : Out F K X R) : Out F K X R := { o with loss := h o.loss }

/-- A class that fetches the translated loss. -/
def Cls.mapLoss (h : R → R) (c : Cls S F K X R) : Cls S F K X R :=
  { c with main := fun s => (fun r => (r.1, r.2.mapLoss h)) <$> c.main s }

/-- A history with the losses translated. -/
def mapHist (h : R → R) (l : List (R × R)) : List (R × R) := l.map fun p => (h p.1, p.2)

/-- The local variables with the losses translated. -/
def Loc.mapLoss (h : R → R) (l : Loc S F K X R) : Loc S F K X R := { l with hist := mapHist h l.hist }

variable (h : R → R) (A : Arith R) (c : Cls S F K X R) (args : Args R) (n : Int)

theorem coreRun_mapLoss (l : Loc S F K X R) :
    coreRun (c.mapLoss h) (l.mapLoss h) = ((coreRun c l).1.mapLoss h, (coreRun c l).2) := by
  unfold coreRun
  simp only [Cls.mapLoss, Loc.mapLoss]
  cases c.core with
  | none => rfl
  | some run =>
      simp only
      cases hr : run l.sess with
      | error e => rfl
      | ok p => rfl

theorem mainRun_mapLoss (rep : Bool) (step : Int) (l : Loc S F K X R) :
    mainRun (c.mapLoss h) rep step (l.mapLoss h) =
      (fun r => (r.1.mapLoss h, r.2.mapLoss h)) <$> mainRun c rep step l := by
  unfold mainRun
  change (match (fun r => (r.1, r.2.mapLoss h)) <$> c.main l.sess with | .error e => _ | .ok (s, o) => _) = _
  cases c.main l.sess with
  | error e => rfl
  | ok p => rfl

theorem judge_mapLoss (tol : R) (step : Int) (l : Loc S F K X R) (o : Out F K X R) :
    judge A tol step (l.mapLoss h) (o.mapLoss h) = (fun r => (r.1.mapLoss h, r.2)) <$> judge A tol step l o := by
  unfold judge
  simp only [Loc.mapLoss, Out.mapLoss, mapHist]
  cases (if step = 1 then some (A.add o.obj A.one) else l.obj0) with
  | none => rfl
  | some ob => simp only [Functor.map, Except.map, List.map_append, List.map_cons, List.map_nil]; rfl

theorem after_mapLoss (o : Out F K X R) (obj0 : R) (l : Loc S F K X R) :
    after A (c.mapLoss h) (o.mapLoss h) obj0 (l.mapLoss h) = ((after A c o obj0 l).1.mapLoss h, (after A c o obj0 l).2) := by
  unfold after
  change (match c.update with | none => _ | some (op1, op2) => _) = _
  cases c.update with
  | none => rfl
  | some p =>
      obtain ⟨op1, op2⟩ := p
      change (if A.lt o.obj obj0 = true then (match op1 l.sess with | .error e => _ | .ok s => _)
        else (match op2 l.sess with | .error e => _ | .ok s => _)) = _
      simp only
      split
      · cases op1 l.sess <;> rfl
      · cases op2 l.sess <;> rfl

theorem body_mapLoss (step : Int) (l : Loc S F K X R) :
    body A (c.mapLoss h) args n step (l.mapLoss h) = ((body A c args n step l).1.mapLoss h, (body A c args n step l).2) := by
  unfold body
  rw [coreRun_mapLoss]
  rcases coreRun c l with ⟨l1, e1⟩
  cases e1 with
  | some e => rfl
  | none =>
  simp only
  cases reported args n step with
  | error e => rfl
  | ok rep =>
  simp only
  rw [mainRun_mapLoss]
  cases mainRun c rep step l1 with
  | error e => rfl
  | ok p =>
  obtain ⟨l2, o⟩ := p
  change (match judge A args.tol step (l2.mapLoss h) (o.mapLoss h) with | .error e => _ | .ok (l, _, true) => _ | .ok (l, obj0, false) => _) = _
  rw [judge_mapLoss]
  simp only
  cases judge A args.tol step l2 o with
  | error e => rfl
  | ok q =>
  obtain ⟨l3, ob, b⟩ := q
  cases b with
  | true => rfl
  | false =>
  change (match after A (c.mapLoss h) (o.mapLoss h) ob (l3.mapLoss h) with | (l, some e) => _ | (l, none) => _) = _
  rw [after_mapLoss]
  simp only
  rcases after A c o ob l3 with ⟨l4, e4⟩
  cases e4 <;> rfl

theorem loop_mapLoss : ∀ (k : Nat) (step : Int) (l : Loc S F K X R),
    loop A (c.mapLoss h) args n k step (l.mapLoss h) =
      ((loop A c args n k step l).1.mapLoss h, (loop A c args n k step l).2)
  | 0, _, _ => rfl
  | k + 1, step, l => by
      rw [loop, loop, body_mapLoss]
      rcases body A c args n step l with ⟨l1, e1⟩
      cases e1 with
      | error e => rfl
      | ok b =>
          cases b with
          | true => rfl
          | false => exact loop_mapLoss k (step + 1) l1

/-- Translating the fetched losses translates the history, and nothing else. -/
theorem train_mapLoss (fresh : Res S) (self : Self F K X) :
    train A (c.mapLoss h) args n fresh self =
      ((train A c args n fresh self).1, (train A c args n fresh self).2.1, mapHist h <$> (train A c args n fresh self).2.2) := by
  unfold train
  rw [show (c.mapLoss h).resets = c.resets from rfl, show (c.mapLoss h).lambdasAfter = c.lambdasAfter from rfl]
  generalize (if c.resets = true then { self with finish := false } else self) = self0
  cases fresh with
  | error e => rfl
  | ok s =>
      simp only
      have := loop_mapLoss h A c args n n.toNat 1 { sess := s, self := self0 }
      change loop A (c.mapLoss h) args n n.toNat 1 { sess := s, self := self0 } = _ at this
      rw [this]
      rcases loop A c args n n.toNat 1 { sess := s, self := self0 } with ⟨l1, e1⟩
      cases e1 with
      | some e => rfl
      | none =>
          simp only [Loc.mapLoss]
          cases c.lambdasAfter <;> simp only <;> split <;> rfl

end TD.fact
