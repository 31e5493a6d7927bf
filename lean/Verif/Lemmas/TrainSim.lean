import Verif.Model.Train
import Verif.Spec.Scheduled
import Verif.Lemmas.Sweep

/-!
# Two sessions that agree give the same training
-/
namespace TD.fact
open TD

variable {S T F K X R : Type}

/-- Both runs fail, or both return related states and equal values. -/
def SameRun {S T γ : Type} (Rel : S → T → Prop) : Res (S × γ) → Res (T × γ) → Prop
  | .ok (s, o), .ok (t, p) => Rel s t ∧ o = p
  | .error _, .error _ => True
  | _, _ => False

/-- The same for runs without fetched values. -/
def SameOp {S T : Type} (Rel : S → T → Prop) : Res S → Res T → Prop
  | .ok s, .ok t => Rel s t
  | .error _, .error _ => True
  | _, _ => False

/-- Related states stay related. -/
structure Sim (Rel : S → T → Prop) (c : Cls S F K X R) (d : Cls T F K X R) : Prop where
  core : (c.core = none ∧ d.core = none) ∨
    ∃ f g, c.core = some f ∧ d.core = some g ∧ ∀ s t, Rel s t → SameRun Rel (f s) (g t)
  main : ∀ s t, Rel s t → SameRun Rel (c.main s) (d.main t)
  update : (c.update = none ∧ d.update = none) ∨
    ∃ f f' g g', c.update = some (f, f') ∧ d.update = some (g, g') ∧
      ∀ s t, Rel s t → SameOp Rel (f s) (g t) ∧ SameOp Rel (f' s) (g' t)
  resets : c.resets = d.resets
  lambdasAfter : c.lambdasAfter = d.lambdasAfter

/-- Equal local variables, related sessions. -/
structure LocRel (Rel : S → T → Prop) (l : Loc S F K X R) (m : Loc T F K X R) : Prop where
  sess : Rel l.sess m.sess
  self : l.self = m.self
  hist : l.hist = m.hist
  obj0 : l.obj0 = m.obj0
  nstall : l.nstall = m.nstall
  events : l.events = m.events

/-- Results of parts of the body: after an exception the sessions are not compared. -/
structure PartRel (Rel : S → T → Prop) (l : Loc S F K X R × Option PyErr) (m : Loc T F K X R × Option PyErr) : Prop where
  self : l.1.self = m.1.self
  events : l.1.events = m.1.events
  err : l.2.isSome = m.2.isSome
  ok : l.2 = none → LocRel Rel l.1 m.1

variable {Rel : S → T → Prop} {c : Cls S F K X R} {d : Cls T F K X R}

theorem LocRel.part {l : Loc S F K X R} {m : Loc T F K X R} (h : LocRel Rel l m) : PartRel Rel (l, none) (m, none) :=
  ⟨h.self, h.events, rfl, fun _ => h⟩

theorem LocRel.fail {l : Loc S F K X R} {m : Loc T F K X R} (h : LocRel Rel l m) (e e' : PyErr) :
    PartRel Rel (l, some e) (m, some e') := ⟨h.self, h.events, rfl, fun h => by cases h⟩

theorem Sim.coreRun (hs : Sim Rel c d) {l : Loc S F K X R} {m : Loc T F K X R} (h : LocRel Rel l m) :
    PartRel Rel (coreRun c l) (coreRun d m) := by
  unfold fact.coreRun
  rcases hs.core with ⟨h1, h2⟩ | ⟨f, g, h1, h2, h3⟩
  · rw [h1, h2]; exact h.part
  · rw [h1, h2]
    have := h3 _ _ h.sess
    simp only
    revert this
    cases f l.sess with
    | error e =>
        cases g m.sess with
        | error e' => intro _; exact h.fail e e'
        | ok p => intro h; exact h.elim
    | ok p =>
        cases g m.sess with
        | error e' => intro h; exact h.elim
        | ok q =>
            rintro ⟨h4, h5⟩
            refine LocRel.part ⟨h4, ?_, h.hist, h.obj0, h.nstall, h.events⟩
            simp only [h.self, h5]

theorem Sim.mainRun (hs : Sim Rel c d) {l : Loc S F K X R} {m : Loc T F K X R} (h : LocRel Rel l m) (rep : Bool) (step : Int) :
    SameRun (LocRel Rel) (mainRun c rep step l) (mainRun d rep step m) := by
  unfold fact.mainRun
  have := hs.main _ _ h.sess
  revert this
  cases c.main l.sess with
  | error e =>
      cases d.main m.sess with
      | error e' => intro _; trivial
      | ok p => intro h; exact h.elim
  | ok p =>
      cases d.main m.sess with
      | error e' => intro h; exact h.elim
      | ok q =>
          rintro ⟨h4, h5⟩
          obtain ⟨p1, p2⟩ := p
          obtain ⟨q1, q2⟩ := q
          cases h5
          refine ⟨⟨h4, ?_, h.hist, h.obj0, h.nstall, ?_⟩, rfl⟩
          · simp only [h.self]
          · simp only [h.events]

theorem judge_related {l : Loc S F K X R} {m : Loc T F K X R} (h : LocRel Rel l m) (A : Arith R) (tol : R) (step : Int)
    (o : Out F K X R) : SameRun (LocRel Rel) (judge A tol step l o) (judge A tol step m o) := by
  unfold judge
  simp only [h.obj0]
  cases (if step = 1 then some (A.add o.obj A.one) else m.obj0) with
  | none => trivial
  | some obj0 =>
      simp only [h.nstall, h.hist]
      exact ⟨⟨h.sess, h.self, rfl, rfl, rfl, h.events⟩, rfl⟩

theorem Sim.after (hs : Sim Rel c d) {l : Loc S F K X R} {m : Loc T F K X R} (h : LocRel Rel l m) (A : Arith R)
    (o : Out F K X R) (obj0 : R) : PartRel Rel (after A c o obj0 l) (after A d o obj0 m) := by
  unfold fact.after
  rcases hs.update with ⟨h1, h2⟩ | ⟨f, f', g, g', h1, h2, h3⟩
  · rw [h1, h2]; exact h.part
  · rw [h1, h2]
    obtain ⟨h4, h5⟩ := h3 _ _ h.sess
    simp only
    split
    · revert h4
      cases f l.sess with
      | error e =>
          cases g m.sess with
          | error e' => intro _; exact h.fail e e'
          | ok p => intro h; exact h.elim
      | ok p =>
          cases g m.sess with
          | error e' => intro h; exact h.elim
          | ok q => intro h4; exact LocRel.part ⟨h4, h.self, h.hist, rfl, h.nstall, h.events⟩
    · revert h5
      cases f' l.sess with
      | error e =>
          cases g' m.sess with
          | error e' => intro _; exact h.fail e e'
          | ok p => intro h; exact h.elim
      | ok p =>
          cases g' m.sess with
          | error e' => intro h; exact h.elim
          | ok q => intro h5; exact LocRel.part ⟨h5, h.self, h.hist, h.obj0, h.nstall, h.events⟩

theorem Sim.body (hs : Sim Rel c d) {l : Loc S F K X R} {m : Loc T F K X R} (h : LocRel Rel l m) (A : Arith R)
    (args : Args R) (n step : Int) :
    (body A c args n step l).1.self = (body A d args n step m).1.self ∧
    (body A c args n step l).1.events = (body A d args n step m).1.events ∧
    (body A c args n step l).2.toOption = (body A d args n step m).2.toOption ∧
    ((body A c args n step l).2.toOption ≠ none → LocRel Rel (body A c args n step l).1 (body A d args n step m).1) := by
  unfold fact.body
  have h1 := hs.coreRun h
  revert h1
  rcases fact.coreRun c l with ⟨l1, e1⟩
  rcases fact.coreRun d m with ⟨m1, e1'⟩
  intro h1
  cases e1 with
  | some e =>
      cases e1' with
      | none => cases h1.err
      | some e' => exact ⟨h1.self, h1.events, rfl, fun h => (h rfl).elim⟩
  | none =>
  cases e1' with
  | some e' => cases h1.err
  | none =>
  have h2 : LocRel Rel l1 m1 := h1.ok rfl
  simp only
  cases reported args n step with
  | error e => exact ⟨h2.self, h2.events, rfl, fun h => (h rfl).elim⟩
  | ok rep =>
  simp only
  have h3 := hs.mainRun h2 rep step
  revert h3
  cases fact.mainRun c rep step l1 with
  | error e =>
      cases fact.mainRun d rep step m1 with
      | error e' => intro _; exact ⟨h2.self, h2.events, rfl, fun h => (h rfl).elim⟩
      | ok p => intro h; exact h.elim
  | ok p =>
  cases fact.mainRun d rep step m1 with
  | error e' => intro h; exact h.elim
  | ok q =>
  obtain ⟨l2, o⟩ := p
  obtain ⟨m2, o'⟩ := q
  rintro ⟨h4, h5⟩
  cases h5
  simp only
  have h6 := judge_related h4 A args.tol step o
  revert h6
  cases judge A args.tol step l2 o with
  | error e =>
      cases judge A args.tol step m2 o with
      | error e' => intro _; exact ⟨h4.self, h4.events, rfl, fun h => (h rfl).elim⟩
      | ok p => intro h; exact h.elim
  | ok p =>
  cases judge A args.tol step m2 o with
  | error e' => intro h; exact h.elim
  | ok q =>
  obtain ⟨l3, ob, b⟩ := p
  obtain ⟨m3, ob', b'⟩ := q
  rintro ⟨h7, h8⟩
  cases h8
  cases b with
  | true => exact ⟨h7.self, h7.events, rfl, fun _ => h7⟩
  | false =>
  simp only
  have h9 := hs.after h7 A o ob
  revert h9
  rcases fact.after A c o ob l3 with ⟨l4, e4⟩
  rcases fact.after A d o ob m3 with ⟨m4, e4'⟩
  intro h9
  cases e4 with
  | some e =>
      cases e4' with
      | none => cases h9.err
      | some e' => exact ⟨h9.self, h9.events, rfl, fun h => (h rfl).elim⟩
  | none =>
  cases e4' with
  | some e' => cases h9.err
  | none => exact ⟨h9.self, h9.events, rfl, fun _ => h9.ok rfl⟩

theorem Sim.loop (hs : Sim Rel c d) (A : Arith R) (args : Args R) (n : Int) : ∀ (k : Nat) (step : Int)
    {l : Loc S F K X R} {m : Loc T F K X R}, LocRel Rel l m →
    PartRel Rel (loop A c args n k step l) (loop A d args n k step m) := by
  intro k
  induction k with
  | zero => intro step l m h; exact h.part
  | succ k ih =>
      intro step l m h
      rw [fact.loop, fact.loop]
      obtain ⟨h1, h2, h3, h4⟩ := hs.body h A args n step
      revert h1 h2 h3 h4
      rcases fact.body A c args n step l with ⟨l1, e1⟩
      rcases fact.body A d args n step m with ⟨m1, e1'⟩
      intro h1 h2 h3 h4
      cases e1 with
      | error e =>
          cases e1' with
          | ok b => cases h3
          | error e' => exact ⟨h1, h2, rfl, fun h => by cases h⟩
      | ok b =>
      cases e1' with
      | error e' => cases h3
      | ok b' =>
      cases h3
      have h5 : LocRel Rel l1 m1 := h4 (by simp)
      cases b with
      | true => exact h5.part
      | false => exact ih _ h5

/-- Sessions that agree give the same training. -/
theorem Sim.train (hs : Sim Rel c d) (A : Arith R) (args : Args R) (n : Int) {fresh : Res S} {fresh' : Res T}
    (hf : SameOp Rel fresh fresh') (self : Self F K X) :
    graph.SameCall (train A c args n fresh self) (train A d args n fresh' self) := by
  unfold fact.train
  rw [hs.resets]
  generalize (if d.resets = true then { self with finish := false } else self) = self0
  revert hf
  cases fresh with
  | error e =>
      cases fresh' with
      | error e' => intro _; exact ⟨rfl, rfl, rfl⟩
      | ok t => intro h; exact h.elim
  | ok s =>
  cases fresh' with
  | error e' => intro h; exact h.elim
  | ok t =>
  intro hf
  simp only
  have h1 := hs.loop A args n n.toNat 1 (l := { sess := s, self := self0 }) (m := { sess := t, self := self0 })
    ⟨hf, rfl, rfl, rfl, rfl, rfl⟩
  revert h1
  rcases fact.loop A c args n n.toNat 1 { sess := s, self := self0 } with ⟨l1, e1⟩
  rcases fact.loop A d args n n.toNat 1 { sess := t, self := self0 } with ⟨m1, e1'⟩
  intro h1
  cases e1 with
  | some e =>
      cases e1' with
      | none => cases h1.err
      | some e' => exact ⟨h1.self, h1.events, rfl⟩
  | none =>
  cases e1' with
  | some e' => cases h1.err
  | none =>
  have h2 : LocRel Rel l1 m1 := h1.ok rfl
  simp only [hs.lambdasAfter, h2.self, h2.events, h2.hist]
  exact ⟨rfl, rfl, rfl⟩

end TD.fact

namespace TD.graph
open TD

variable {ι ν β γ : Type} [DecidableEq ι] [DecidableEq ν] {G : Graph ι ν β}

theorem done_mono {c c' : Cfg ι ν β} (h : Relation.ReflTransGen (Step G) c c') {n : ι} {d : Option β}
    (hd : c.done n = some d) : c'.done n = some d := by
  induction h with
  | refl => exact hd
  | tail _ hs ih =>
      cases hs with
      | start m hn hst hdm => exact ih
      | finish m e hst hf =>
          simp only
          by_cases hm : n = m
          · subst hm; rw [ih] at hf; cases hf
          · rw [Function.update_of_ne hm]; exact ih

/-- A run agrees with a sequential function when every complete execution does. -/
theorem Outcome.same {fetch : Cfg ι ν β → Option γ} {x : ν → β} {r : Res ((ν → β) × γ)} {T : Type} {enc : T → ν → β}
    {seq : Res (T × γ)} (hr : Outcome G fetch x r)
    (hcomp : ∀ c, Reaches G x c → ∃ c', Relation.ReflTransGen (Step G) c c' ∧ Complete G c')
    (hok : ∀ t o, seq = .ok (t, o) → ∀ c, Reaches G x c → Complete G c → c.vars = enc t ∧ fetch c = some o ∧ ¬ Failed G c)
    (herr : ∀ e, seq = .error e → ∀ c, Reaches G x c → Complete G c → Failed G c ∨ fetch c = none) :
    fact.SameRun (fun x' t => x' = enc t) r seq := by
  cases r with
  | ok p =>
      obtain ⟨x', o⟩ := p
      obtain ⟨c, h1, h2, h3, h4, h5⟩ := hr
      cases seq with
      | error e =>
          rcases herr e rfl c h1 h2 with h | h
          · exact h3 h
          · rw [h] at h5; cases h5
      | ok q =>
          obtain ⟨t, o'⟩ := q
          obtain ⟨g1, g2, -⟩ := hok t o' rfl c h1 h2
          refine ⟨h4.symm.trans g1, ?_⟩
          rw [g2] at h5
          exact (Option.some.inj h5).symm
  | error e =>
      obtain ⟨c, h1, h2⟩ := hr
      cases seq with
      | error e' => trivial
      | ok q =>
          obtain ⟨t, o'⟩ := q
          obtain ⟨c', h3, h4⟩ := hcomp c h1
          obtain ⟨g1, g2, g3⟩ := hok t o' rfl c' (h1.trans h3) h4
          rcases h2 with ⟨n, hn, hd⟩ | ⟨h5, h6⟩
          · exact g3 ⟨n, hn, done_mono h3 hd⟩
          · obtain ⟨-, k2, -⟩ := hok t o' rfl c h1 h5
            rw [k2] at h6; cases h6

/-- A session exists for every graph that cannot get stuck. -/
theorem schedules_exists {Ω : Type} (G : Graph ι ν β) (fetch : Cfg ι ν β → Option γ)
    (hcomp : ∀ x c, Reaches G x c → ∃ c', Relation.ReflTransGen (Step G) c c' ∧ Complete G c') :
    ∃ run : (ν → β) × Ω → Res (((ν → β) × Ω) × γ), Schedules G fetch run := by
  classical
  have hx : ∀ x, ∃ c, Reaches G x c ∧ Complete G c := fun x => hcomp x _ .refl
  choose f h1 h2 using hx
  refine ⟨fun s => if Failed G (f s.1) then .error .nonFinite else
    match fetch (f s.1) with
    | some o => .ok (((f s.1).vars, s.2), o)
    | none => .error .nonFinite, fun x ω => ?_⟩
  simp only
  by_cases hf : Failed G (f x)
  · rw [if_pos hf]
    exact ⟨f x, h1 x, Or.inl hf⟩
  · rw [if_neg hf]
    cases ho : fetch (f x) with
    | none => exact ⟨f x, h1 x, Or.inr ⟨h2 x, ho⟩⟩
    | some o => exact ⟨f x, h1 x, h2 x, hf, rfl, ho⟩

end TD.graph
