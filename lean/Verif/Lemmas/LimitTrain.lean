import Verif.Lemmas.LimitCp
import Verif.Props.StopRule

/-! # The training loops tend to the exact ones when no comparison is a tie -/
namespace TD
open Tensor fl Spec sp Num Filter Topology fact Props
variable {F : ℕ → Fmt}

namespace Lim

/-- Classes on rounded numbers whose runs tend to those of the exact class `c0`. -/
structure ClsR {S : ℕ → Type} {S0 : Type} (PS : (∀ j, S j) → S0 → Prop) (X0 : Tensor ℝ)
    (c : ∀ j, Cls (S j) (List (Tensor (Num (F j)))) (Tensor (Num (F j))) (Tensor (Num (F j))) (Num (F j)))
    (c0 : Cls S0 (List (Tensor ℝ)) (Tensor ℝ) (Tensor ℝ) ℝ) : Prop where
  main : ∀ a b, PS a b → TendsR (fun x y => PS (fun j => (x j).1) y.1 ∧ Ou (fun j => (x j).2) y.2)
    (fun j => (c j).main (a j)) (c0.main b)
  core : TendsOpt (fun (f : ∀ j, S j → Res (S j × Tensor (Num (F j)))) (g : S0 → Res (S0 × Tensor ℝ)) => ∀ a b, PS a b → TendsR (fun x y => PS (fun j => (x j).1) y.1 ∧ TendsT (fun j => (x j).2) y.2)
    (fun j => f j (a j)) (g b)) (fun j => (c j).core) c0.core
  update : TendsOpt (fun (f : ∀ j, (S j → Res (S j)) × (S j → Res (S j))) (g : (S0 → Res S0) × (S0 → Res S0)) => ∀ a b, PS a b → TendsR PS (fun j => (f j).1 (a j)) (g.1 b) ∧ TendsR PS (fun j => (f j).2 (a j)) (g.2 b))
    (fun j => (c j).update) c0.update
  resets : ∀ j, (c j).resets = c0.resets
  lam : TendsOpt TendsT (fun j => (c j).lambdasAfter) c0.lambdasAfter
  obj : ∀ s s' o, c0.main s = .ok (s', o) → cp.scalars X0 o.full = .ok (o.loss, o.obj, o.rel)

variable {S : ℕ → Type} {S0 : Type} {PS : (∀ j, S j) → S0 → Prop} {X0 : Tensor ℝ}
  {c : ∀ j, Cls (S j) (List (Tensor (Num (F j)))) (Tensor (Num (F j))) (Tensor (Num (F j))) (Num (F j))}
  {c0 : Cls S0 (List (Tensor ℝ)) (Tensor ℝ) (Tensor ℝ) ℝ}

structure LR (PS : (∀ j, S j) → S0 → Prop)
    (a : ∀ j, Loc (S j) (List (Tensor (Num (F j)))) (Tensor (Num (F j))) (Tensor (Num (F j))) (Num (F j)))
    (b : Loc S0 (List (Tensor ℝ)) (Tensor ℝ) (Tensor ℝ) ℝ) : Prop where
  sess : PS (fun j => (a j).sess) b.sess
  self : TendsSelf (fun j => (a j).self) b.self
  hist : TendsHist (fun j => (a j).hist) b.hist
  obj0 : TendsOpt Tends (fun j => (a j).obj0) b.obj0
  nstall : ∀ j, (a j).nstall = b.nstall
  events : ∀ j, (a j).events = b.events

variable {a : ∀ j, Loc (S j) (List (Tensor (Num (F j)))) (Tensor (Num (F j))) (Tensor (Num (F j))) (Num (F j))}
  {b : Loc S0 (List (Tensor ℝ)) (Tensor ℝ) (Tensor ℝ) ℝ}

theorem core_tends (hc : ClsR PS X0 c c0) (h : LR PS a b) {b1} (hb : coreRun c0 b = (b1, none)) :
    ∃ a1, (∀ᶠ j in atTop, coreRun (c j) (a j) = (a1 j, none)) ∧ LR PS a1 b1 ∧ b1.hist = b.hist ∧ b1.obj0 = b.obj0 := by
  have hcore := hc.core
  unfold coreRun at hb ⊢
  cases hf : c0.core with
  | none =>
      rw [hf] at hb hcore
      cases hb
      exact ⟨a, Eventually.of_forall fun j => by rw [show (c j).core = none from hcore j], h, rfl, rfl⟩
  | some g =>
      rw [hf] at hb hcore
      obtain ⟨f, hfs, hP⟩ := hcore
      simp only at hb
      cases hg : g b.sess with
      | error e => rw [hg] at hb; cases hb
      | ok p =>
          rw [hg] at hb
          cases hb
          obtain ⟨x, hx, h1, h2⟩ := hP _ _ h.sess _ hg
          refine ⟨fun j => { a j with sess := (x j).1, self := { (a j).self with aux := some (x j).2 } }, ?_, ?_, rfl, rfl⟩
          · filter_upwards [hx] with j hj
            simp only [hfs, hj]
          · exact ⟨h1, ⟨h.self.full, h.self.factors, ⟨_, fun _ => rfl, h2⟩, h.self.finish⟩, h.hist, h.obj0, h.nstall, h.events⟩

theorem tendsOpt_or {X : ℕ → Type} {Y : Type} {P : (∀ j, X j) → Y → Prop} {x x' : ∀ j, Option (X j)} {y y' : Option Y}
    (h : TendsOpt P x y) (h' : TendsOpt P x' y') : TendsOpt P (fun j => x j <|> x' j) (y <|> y') := by
  cases y with
  | none =>
      have e : ∀ j, x j = none := h
      simpa [e] using h'
  | some y =>
      obtain ⟨z, e, hz⟩ := h
      exact ⟨z, fun j => by simp [e], hz⟩

theorem main_tends (hc : ClsR PS X0 c c0) (h : LR PS a b) (rep : Bool) (step : Int) {b1 o} (hb : mainRun c0 rep step b = .ok (b1, o)) :
    ∃ a1 o1, (∀ᶠ j in atTop, mainRun (c j) rep step (a j) = .ok (a1 j, o1 j)) ∧ LR PS a1 b1 ∧ Ou o1 o ∧ b1.hist = b.hist ∧
      b1.obj0 = b.obj0 ∧ ∃ s s', c0.main s = .ok (s', o) := by
  unfold mainRun at hb ⊢
  cases hm : c0.main b.sess with
  | error e => rw [hm] at hb; cases hb
  | ok p =>
      rw [hm] at hb
      cases hb
      obtain ⟨x, hx, h1, h2⟩ := hc.main _ _ h.sess _ hm
      refine ⟨fun j => { a j with
        sess := (x j).1
        self := { (a j).self with
          factors := some (x j).2.factors
          aux := (x j).2.aux <|> (a j).self.aux
          full := if rep then some (x j).2.full else (a j).self.full }
        events := if rep then (a j).events ++ [step] else (a j).events }, fun j => (x j).2, ?_, ?_, h2, rfl, rfl, _, _, hm⟩
      · filter_upwards [hx] with j hj
        simp only [hj]
      · refine ⟨h1, ⟨?_, ⟨_, fun _ => rfl, h2.factors⟩, tendsOpt_or h2.aux h.self.aux, h.self.finish⟩, h.hist, h.obj0, h.nstall, ?_⟩
        · cases rep
          · exact h.self.full
          · exact ⟨_, fun _ => rfl, h2.full⟩
        · intro j; simp only [h.events j]

theorem hist_append {x : ∀ j, List (Num (F j) × Num (F j))} {y : List (ℝ × ℝ)} (h : TendsHist x y) {l r : ∀ j, Num (F j)} {l0 r0 : ℝ}
    (hl : Tends l l0) (hr : Tends r r0) : TendsHist (fun j => x j ++ [(l j, r j)]) (y ++ [(l0, r0)]) := by
  refine ⟨fun j => by simp [h.1 j], fun k hk => ?_⟩
  by_cases e : k < y.length
  · have := h.2 k e
    simpa only [List.getElem?_append_left e, fun j => List.getElem?_append_left (l₂ := [(l j, r j)]) (show k < (x j).length by rw [h.1 j]; exact e)] using this
  · obtain rfl : k = y.length := by simp at hk; omega
    have e1 : (y ++ [(l0, r0)])[y.length]? = some (l0, r0) := by simp
    have e2 : ∀ j, (x j ++ [(l j, r j)])[y.length]? = some (l j, r j) := fun j => by rw [← h.1 j]; simp
    simp only [e1, e2, Option.getD_some]
    exact ⟨hl, hr⟩

theorem judge_tends (hF : Refining F) {tol : ℝ} (h : LR PS a b) (step : Int)
    {o1 : ∀ j, Out (List (Tensor (Num (F j)))) (Tensor (Num (F j))) (Tensor (Num (F j))) (Num (F j))}
    {o : Out (List (Tensor ℝ)) (Tensor ℝ) (Tensor ℝ) ℝ} (ho : Ou o1 o) {b1 ref fl}
    (hb : judge (exactArith ℝ) tol step b o = .ok (b1, ref, fl)) (h1 : o.rel ≠ tol) (h2 : |o.obj - ref| / (ref + 1) ≠ tol)
    (h3 : ref + 1 ≠ 0) :
    ∃ a1 refs, (∀ᶠ j in atTop, judge (loopArith (F j)) (.round (F j) tol) step (a j) (o1 j) = .ok (a1 j, refs j, fl)) ∧
      LR PS a1 b1 ∧ Tends refs ref := by
  have h0 : TendsOpt Tends (fun j => if step = 1 then some ((o1 j).obj + 1) else (a j).obj0)
      (if step = 1 then some (o.obj + 1) else b.obj0) := by
    by_cases e : step = 1
    · simp only [e, if_true]
      exact ⟨_, fun _ => rfl, tends_add hF ho.obj tends_one⟩
    · simp only [e, if_false]
      exact h.obj0
  unfold judge at hb ⊢
  simp only [exactArith] at hb
  simp only [loopArith]
  cases hr : (if step = 1 then some (o.obj + 1) else b.obj0) with
  | none => rw [hr] at hb; cases hb
  | some r =>
      rw [hr] at hb h0
      obtain ⟨refs, hrs, ht⟩ := h0
      simp only [Except.ok.injEq, Prod.mk.injEq] at hb
      obtain ⟨hb1, rfl, rfl⟩ := hb
      have hcrit : ∀ᶠ j in atTop, Num.lt (((o1 j).obj - refs j).abs / (refs j + 1)) (.round (F j) tol) = decide (|o.obj - r| / (r + 1) < tol) :=
        tends_lt (tends_div hF (tends_abs hF (tends_sub hF ho.obj ht)) (tends_add hF ht tends_one) h3) (tends_round hF tendsto_const_nhds) h2
      have hrel : ∀ᶠ j in atTop, (o1 j).rel.lt (.round (F j) tol) = decide (o.rel < tol) :=
        tends_lt ho.rel (tends_round hF tendsto_const_nhds) h1
      refine ⟨fun j => { a j with
        hist := (a j).hist ++ [((o1 j).loss, (o1 j).rel)]
        obj0 := some (refs j)
        nstall := b1.nstall }, refs, ?_, ?_, ht⟩
      · filter_upwards [hcrit, hrel] with j e1 e2
        simp only [hrs j, crit, e1, e2, h.nstall j]
        subst hb1
        rfl
      · subst hb1
        exact ⟨h.sess, h.self, hist_append h.hist ho.loss ho.rel, ⟨refs, fun _ => rfl, ht⟩, fun _ => rfl, h.events⟩

theorem after_tends (hc : ClsR PS X0 c c0) (h : LR PS a b)
    {o1 : ∀ j, Out (List (Tensor (Num (F j)))) (Tensor (Num (F j))) (Tensor (Num (F j))) (Num (F j))}
    {o : Out (List (Tensor ℝ)) (Tensor ℝ) (Tensor ℝ) ℝ} (ho : Ou o1 o) {refs : ∀ j, Num (F j)} {ref : ℝ} (hr : Tends refs ref)
    (hne : c0.update.isSome = true → o.obj ≠ ref) {b1} (hb : after (exactArith ℝ) c0 o ref b = (b1, none)) :
    ∃ a1, (∀ᶠ j in atTop, after (loopArith (F j)) (c j) (o1 j) (refs j) (a j) = (a1 j, none)) ∧ LR PS a1 b1 ∧ b1.hist = b.hist ∧
      b1.obj0 = (if c0.update.isSome && decide (o.obj < ref) then some o.obj else b.obj0) := by
  have hup := hc.update
  unfold after at hb ⊢
  cases hu : c0.update with
  | none =>
      rw [hu] at hb hup
      cases hb
      exact ⟨a, Eventually.of_forall fun j => by rw [show (c j).update = none from hup j], h, rfl, rfl⟩
  | some p =>
      rw [hu] at hb hup
      obtain ⟨f, hf, hP⟩ := hup
      obtain ⟨p1, p2⟩ := hP _ _ h.sess
      have hlt := tends_lt ho.obj hr (hne (by rw [hu]; rfl))
      simp only [exactArith] at hb
      by_cases hd : o.obj < ref
      · simp only [hd, decide_true, if_true] at hb
        cases hg : p.1 b.sess with
        | error e => rw [hg] at hb; cases hb
        | ok s =>
            rw [hg] at hb
            cases hb
            obtain ⟨x, hx, h1⟩ := p1 _ hg
            refine ⟨fun j => { a j with sess := x j, obj0 := some (o1 j).obj }, ?_,
              ⟨h1, h.self, h.hist, ⟨_, fun _ => rfl, ho.obj⟩, h.nstall, h.events⟩, rfl, by simp [hd]⟩
            filter_upwards [hlt, hx] with j e1 e2
            simp only [hf j, loopArith, e1, hd, decide_true, if_true, e2]
      · simp only [hd, decide_false, Bool.false_eq_true, if_false] at hb
        cases hg : p.2 b.sess with
        | error e => rw [hg] at hb; cases hb
        | ok s =>
            rw [hg] at hb
            cases hb
            obtain ⟨x, hx, h1⟩ := p2 _ hg
            refine ⟨fun j => { a j with sess := x j }, ?_, ⟨h1, h.self, h.hist, h.obj0, h.nstall, h.events⟩, rfl, by simp [hd]⟩
            filter_upwards [hlt, hx] with j e1 e2
            simp only [hf j, loopArith, e1, hd, decide_false, Bool.false_eq_true, if_false, e2]

/-! ### The exact side -/

section exact
variable {track : Bool} {tol : ℝ}

theorem histRel_prefix {h h' : List (ℝ × ℝ)} (hp : h <+: h') {k : Nat} (hk : k < h.length) : histRel h' k = histRel h k := by
  obtain ⟨t, rfl⟩ := hp
  unfold histRel
  rw [List.getElem?_append_left hk]

theorem histObj_prefix {h h' : List (ℝ × ℝ)} (hp : h <+: h') {k : Nat} (hk : k < h.length) : histObj X0 h' k = histObj X0 h k := by
  unfold histObj
  rw [histRel_prefix hp hk]

theorem ref_prefix {h h' : List (ℝ × ℝ)} (hp : h <+: h') {k : Nat} (hk : k < h.length ∨ (k ≤ h.length ∧ 0 < h.length)) :
    refObj (exactArith ℝ) track (histObj X0 h') k = refObj (exactArith ℝ) track (histObj X0 h) k :=
  fact.refObj_congr fun i hi => histObj_prefix hp (by omega)

theorem noTies_prefix {h h' : List (ℝ × ℝ)} (hp : h <+: h') (hn : NoTies (exactArith ℝ) track X0 tol h') :
    NoTies (exactArith ℝ) track X0 tol h := by
  intro k hk
  have := hn k (hk.trans_le hp.length_le)
  rwa [histRel_prefix hp hk, histObj_prefix hp hk, ref_prefix hp (.inl hk)] at this

theorem ref_nonneg {f : Nat → ℝ} (hf : ∀ i, 0 ≤ f i) : ∀ k, 0 ≤ refObj (exactArith ℝ) track f k
  | 0 => by
      have := hf 0
      simp only [refObj, exactArith]
      linarith
  | k + 1 => by
      rw [refObj]
      split
      · exact hf k
      · exact ref_nonneg hf k

theorem histObj_nonneg (h : List (ℝ × ℝ)) (k : Nat) : 0 ≤ histObj X0 h k := by
  unfold histObj; positivity

/-- Before step `k + 1`. -/
def ExInv (track : Bool) (X0 : Tensor ℝ) (k : Nat) (b : Loc S0 (List (Tensor ℝ)) (Tensor ℝ) (Tensor ℝ) ℝ) : Prop :=
  b.hist.length = k ∧ (0 < k → b.obj0 = some (refObj (exactArith ℝ) track (histObj X0 b.hist) k))

end exact

theorem body_tends (hF : Refining F) (hc : ClsR PS X0 c c0) (h : LR PS a b) {k : Nat} (hI : ExInv c0.update.isSome X0 k b)
    {args : Args ℝ} {steps : Int} {b1 fl} (hb : body (exactArith ℝ) c0 args steps ((k : Int) + 1) b = (b1, .ok fl))
    {hist : List (ℝ × ℝ)} (hp : b1.hist <+: hist) (hn : NoTies (exactArith ℝ) c0.update.isSome X0 args.tol hist) :
    ∃ a1, (∀ᶠ j in atTop, body (loopArith (F j)) (c j) (roundedArgs (F j) args) steps ((k : Int) + 1) (a j) = (a1 j, .ok fl)) ∧
      LR PS a1 b1 ∧ (fl = false → ExInv c0.update.isSome X0 (k + 1) b1) := by
  have hn := noTies_prefix hp hn
  unfold body at hb
  cases h1 : coreRun c0 b with
  | mk l1 e1 =>
  rw [h1] at hb
  cases e1 with
  | some e => cases hb
  | none =>
  simp only at hb
  obtain ⟨a1, hea1, hl1, hh1, ho1⟩ := core_tends hc h h1
  cases h2 : reported args steps ((k : Int) + 1) with
  | error e => rw [h2] at hb; cases hb
  | ok rep =>
  rw [h2] at hb
  simp only at hb
  cases h3 : mainRun c0 rep ((k : Int) + 1) l1 with
  | error e => rw [h3] at hb; cases hb
  | ok q =>
  obtain ⟨l2, o⟩ := q
  rw [h3] at hb
  simp only at hb
  obtain ⟨a2, o2, hea2, hl2, hou, hh2, ho2, s, s', hm⟩ := main_tends hc hl1 rep _ h3
  have hobj : o.obj = 1 / 2 * (o.rel * Real.sqrt (normSqT X0)) ^ 2 := scalars_obj (hc.obj _ _ _ hm)
  cases h4 : judge (exactArith ℝ) args.tol ((k : Int) + 1) l2 o with
  | error e => rw [h4] at hb; cases hb
  | ok q =>
  obtain ⟨l3, ref, fl'⟩ := q
  rw [h4] at hb
  -- the history and the reference value after the test
  have hst : (((k : Int) + 1 = 1) ↔ k = 0) := by omega
  obtain ⟨hh3, ho3, href⟩ : l3.hist = b.hist ++ [(o.loss, o.rel)] ∧ l3.obj0 = some ref ∧
      ref = refObj (exactArith ℝ) c0.update.isSome (histObj X0 (b.hist ++ [(o.loss, o.rel)])) k := by
    have hob : histObj X0 (b.hist ++ [(o.loss, o.rel)]) k = o.obj := by
      unfold histObj histRel
      rw [← hI.1]
      simp [hobj]
    unfold judge at h4
    simp only [hst] at h4
    by_cases k0 : k = 0
    · simp only [k0, if_true, Except.ok.injEq, Prod.mk.injEq] at h4
      obtain ⟨rfl, rfl, -⟩ := h4
      refine ⟨by simp only [hh2, hh1], rfl, ?_⟩
      rw [k0, refObj]
      rw [k0] at hob
      rw [hob]
    · have hob0 := hI.2 (by omega)
      simp only [k0, if_false, ho2, ho1, hob0, Except.ok.injEq, Prod.mk.injEq] at h4
      obtain ⟨rfl, rfl, -⟩ := h4
      refine ⟨by simp only [hh2, hh1], rfl, ?_⟩
      exact (ref_prefix (List.prefix_append _ _) (.inr ⟨hI.1.ge, by rw [hI.1]; omega⟩)).symm
  have hob : histObj X0 l3.hist k = o.obj := by
    unfold histObj histRel
    rw [hh3, ← hI.1]
    simp [hobj]
  have hrl : histRel l3.hist k = o.rel := by
    unfold histRel
    rw [hh3, ← hI.1]
    simp
  rw [← hh3] at href
  have hlen : l3.hist.length = k + 1 := by rw [hh3]; simp [hI.1]
  have hfin : b1.hist = l3.hist ∧ (fl = false → ExInv c0.update.isSome X0 (k + 1) b1) ∧ fl = fl' ∧
      (fl' = true → b1 = l3) ∧ (fl' = false → after (exactArith ℝ) c0 o ref l3 = (b1, none)) := by
    cases fl' with
    | true => cases hb; exact ⟨rfl, fun h => (by cases h), rfl, fun _ => rfl, fun h => (by cases h)⟩
    | false =>
        simp only at hb
        cases h5 : after (exactArith ℝ) c0 o ref l3 with
        | mk l4 e4 =>
        rw [h5] at hb
        cases e4 with
        | some e => cases hb
        | none =>
        cases hb
        have hx : b1.hist = l3.hist ∧ b1.obj0 = (if c0.update.isSome && decide (o.obj < ref) then some o.obj else l3.obj0) := by
          unfold after at h5
          cases hu : c0.update with
          | none => rw [hu] at h5; cases h5; exact ⟨rfl, rfl⟩
          | some p =>
              rw [hu] at h5
              simp only [exactArith] at h5
              by_cases hd : o.obj < ref
              · simp only [hd, decide_true, if_true] at h5
                cases hg : p.1 l3.sess with
                | error e => rw [hg] at h5; cases h5
                | ok s => rw [hg] at h5; cases h5; exact ⟨rfl, by simp [hd]⟩
              · simp only [hd, decide_false, Bool.false_eq_true, if_false] at h5
                cases hg : p.2 l3.sess with
                | error e => rw [hg] at h5; cases h5
                | ok s => rw [hg] at h5; cases h5; exact ⟨rfl, by simp [hd]⟩
        refine ⟨hx.1, fun _ => ⟨hx.1 ▸ hlen, fun _ => ?_⟩, rfl, fun h => (by cases h), fun _ => rfl⟩
        rw [hx.2, hx.1, refObj, hob, ← href, ho3]
        show (if (c0.update.isSome && decide (o.obj < ref)) = true then some o.obj else some ref) =
          some (if (c0.update.isSome && decide (o.obj < ref)) = true then o.obj else ref)
        split <;> rfl
  obtain ⟨hbh, hex, rfl, ht, hf⟩ := hfin
  rw [hbh] at hn
  obtain ⟨n1, n2, n3⟩ := hn k (by omega)
  rw [hob, ← href] at n2 n3
  rw [hrl] at n1
  have hpos : ref + 1 ≠ 0 := by
    have := ref_nonneg (track := c0.update.isSome) (fun i => histObj_nonneg (X0 := X0) l3.hist i) k
    rw [← href] at this
    positivity
  obtain ⟨a3, refs, hea3, hl3, htr⟩ := judge_tends hF hl2 _ hou h4 n1 n2 hpos
  cases fl with
  | true =>
      refine ⟨a3, ?_, ht rfl ▸ hl3, hex⟩
      filter_upwards [hea1, hea2, hea3] with j e1 e2 e3
      unfold body
      rw [e1]
      simp only
      rw [show reported (roundedArgs (F j) args) steps ((k : Int) + 1) = .ok rep from h2]
      simp only [e2]
      rw [show (roundedArgs (F j) args).tol = .round (F j) args.tol from rfl, e3]
  | false =>
      obtain ⟨a4, hea4, hl4, -⟩ := after_tends hc hl3 hou htr n3 (hf rfl)
      refine ⟨a4, ?_, hl4, hex⟩
      filter_upwards [hea1, hea2, hea3, hea4] with j e1 e2 e3 e4
      unfold body
      rw [e1]
      simp only
      rw [show reported (roundedArgs (F j) args) steps ((k : Int) + 1) = .ok rep from h2]
      simp only [e2]
      rw [show (roundedArgs (F j) args).tol = .round (F j) args.tol from rfl, e3]
      simp only [e4]

/-! ### The loop and `train` -/

theorem body_prefix {A : Arith ℝ} {args : Args ℝ} {steps step : Int} {b b1 : Loc S0 (List (Tensor ℝ)) (Tensor ℝ) (Tensor ℝ) ℝ} {fl}
    (hb : body A c0 args steps step b = (b1, .ok fl)) : b.hist <+: b1.hist := by
  unfold body at hb
  cases h1 : coreRun c0 b with
  | mk l1 e1 =>
  have e : l1.hist = b.hist := by
    unfold coreRun at h1
    split at h1
    · cases h1; rfl
    · split at h1 <;> cases h1 <;> rfl
  rw [h1] at hb
  cases e1 with
  | some e => cases hb
  | none =>
  simp only at hb
  cases h2 : reported args steps step with
  | error e => rw [h2] at hb; cases hb
  | ok rep =>
  rw [h2] at hb
  simp only at hb
  cases h3 : mainRun c0 rep step l1 with
  | error e => rw [h3] at hb; cases hb
  | ok q =>
  obtain ⟨l2, o⟩ := q
  have e' : l2.hist = l1.hist := by
    unfold mainRun at h3
    split at h3 <;> cases h3
    rfl
  rw [h3] at hb
  simp only at hb
  cases h4 : judge A args.tol step l2 o with
  | error e => rw [h4] at hb; cases hb
  | ok q =>
  obtain ⟨l3, ref, fl'⟩ := q
  have e'' : l3.hist = l2.hist ++ [(o.loss, o.rel)] := by
    unfold judge at h4
    simp only at h4
    split at h4 <;> cases h4
    rfl
  rw [h4] at hb
  have : b.hist <+: l3.hist := by rw [e'', e', e]; exact List.prefix_append _ _
  cases fl' with
  | true => cases hb; exact this
  | false =>
      simp only at hb
      cases h5 : after A c0 o ref l3 with
      | mk l4 e4 =>
      have e3 : l4.hist = l3.hist := by
        unfold after at h5
        split at h5
        · cases h5; rfl
        · split at h5 <;> split at h5 <;> cases h5 <;> rfl
      rw [h5] at hb
      cases e4 with
      | some e => cases hb
      | none => cases hb; rwa [e3]

theorem loop_prefix {A : Arith ℝ} {args : Args ℝ} {steps : Int} : ∀ (n : Nat) (step : Int)
    {b b1 : Loc S0 (List (Tensor ℝ)) (Tensor ℝ) (Tensor ℝ) ℝ}, loop A c0 args steps n step b = (b1, none) → b.hist <+: b1.hist
  | 0, _, b, b1, h => by cases h; exact List.prefix_rfl
  | n + 1, step, b, b1, h => by
      rw [loop] at h
      cases hb : body A c0 args steps step b with
      | mk l r =>
      rw [hb] at h
      cases r with
      | error e => cases h
      | ok fl =>
      cases fl with
      | true => cases h; exact body_prefix hb
      | false => exact (body_prefix hb).trans (loop_prefix n _ h)

theorem loop_tends (hF : Refining F) (hc : ClsR PS X0 c c0) {args : Args ℝ} {steps : Int} : ∀ (n k : Nat)
    {a : ∀ j, Loc (S j) (List (Tensor (Num (F j)))) (Tensor (Num (F j))) (Tensor (Num (F j))) (Num (F j))}
    {b b1 : Loc S0 (List (Tensor ℝ)) (Tensor ℝ) (Tensor ℝ) ℝ}, LR PS a b → ExInv c0.update.isSome X0 k b →
    loop (exactArith ℝ) c0 args steps n ((k : Int) + 1) b = (b1, none) →
    NoTies (exactArith ℝ) c0.update.isSome X0 args.tol b1.hist →
    ∃ a1, (∀ᶠ j in atTop, loop (loopArith (F j)) (c j) (roundedArgs (F j) args) steps n ((k : Int) + 1) (a j) = (a1 j, none)) ∧ LR PS a1 b1
  | 0, k, a, b, b1, h, _, hb, _ => by cases hb; exact ⟨a, Eventually.of_forall fun _ => rfl, h⟩
  | n + 1, k, a, b, b1, h, hI, hb, hn => by
      rw [loop] at hb
      cases hbd : body (exactArith ℝ) c0 args steps ((k : Int) + 1) b with
      | mk l r =>
      rw [hbd] at hb
      cases r with
      | error e => cases hb
      | ok fl =>
      cases fl with
      | true =>
          cases hb
          obtain ⟨a1, h1, h2, -⟩ := body_tends hF hc h hI hbd List.prefix_rfl hn
          exact ⟨a1, h1.mono fun j e => by rw [loop, e], h2⟩
      | false =>
          simp only at hb
          obtain ⟨a1, h1, h2, h3⟩ := body_tends hF hc h hI hbd (loop_prefix n _ hb) hn
          obtain ⟨a2, h4, h5⟩ := loop_tends hF hc n (k + 1) h2 (h3 rfl) (by push_cast; exact hb) hn
          refine ⟨a2, ?_, h5⟩
          filter_upwards [h1, h4] with j e1 e2
          push_cast at e2
          rw [loop, e1]
          exact e2

theorem train_tends (hF : Refining F) (hc : ClsR PS X0 c c0) {args : Args ℝ} {steps : Int} {fresh : ∀ j, Res (S j)} {fresh0 : Res S0}
    (hfr : TendsR PS fresh fresh0)
    {self : ∀ j, Self (List (Tensor (Num (F j)))) (Tensor (Num (F j))) (Tensor (Num (F j)))}
    {self0 self0' : Self (List (Tensor ℝ)) (Tensor ℝ) (Tensor ℝ)} (hs : TendsSelf self self0) {ev : List Int} {hist : List (ℝ × ℝ)}
    (ht : train (exactArith ℝ) c0 args steps fresh0 self0 = (self0', ev, .ok hist))
    (hn : NoTies (exactArith ℝ) c0.update.isSome X0 args.tol hist) :
    ∃ self' hist', (∀ᶠ j in atTop, train (loopArith (F j)) (c j) (roundedArgs (F j) args) steps (fresh j) (self j) =
      (self' j, ev, .ok (hist' j))) ∧ TendsSelf self' self0' ∧ TendsHist hist' hist := by
  unfold train at ht
  simp only at ht
  cases hf : fresh0 with
  | error e => rw [hf] at ht; cases ht
  | ok s0 =>
  rw [hf] at ht
  simp only at ht
  obtain ⟨s, hsj, hPS⟩ := hfr _ hf
  cases hl : loop (exactArith ℝ) c0 args steps steps.toNat 1
      { sess := s0, self := if c0.resets = true then { self0 with finish := false } else self0 } with
  | mk l r =>
  rw [hl] at ht
  cases r with
  | some e => cases ht
  | none =>
  simp only at ht
  by_cases hst : steps < 1
  · rw [if_pos hst] at ht; cases ht
  rw [if_neg hst] at ht
  simp only [Prod.mk.injEq, Except.ok.injEq] at ht
  obtain ⟨rfl, rfl, rfl⟩ := ht
  have hself : TendsSelf (fun j => if (c j).resets = true then { self j with finish := false } else self j)
      (if c0.resets = true then { self0 with finish := false } else self0) := by
    simp only [hc.resets]
    cases c0.resets
    · exact hs
    · exact ⟨hs.full, hs.factors, hs.aux, fun _ => rfl⟩
  have hLR : LR PS (fun j => { sess := s j, self := if (c j).resets = true then { self j with finish := false } else self j })
      { sess := s0, self := if c0.resets = true then { self0 with finish := false } else self0 } :=
    ⟨hPS, hself, ⟨fun _ => rfl, fun k hk => by simp at hk⟩, fun _ => rfl, fun _ => rfl, fun _ => rfl⟩
  obtain ⟨a1, h1, h2⟩ := loop_tends hF hc steps.toNat 0 hLR ⟨rfl, fun h => absurd h (lt_irrefl _)⟩ (by simpa using hl) hn
  have hlam := hc.lam
  refine ⟨fun j => { (match (c j).lambdasAfter with
      | some k => { (a1 j).self with aux := some k }
      | none => (a1 j).self) with finish := true }, fun j => (a1 j).hist, ?_, ?_, h2.hist⟩
  · filter_upwards [hsj, h1] with j e1 e2
    unfold train
    rw [e1]
    simp only [Nat.cast_zero, zero_add] at e2 ⊢
    rw [e2]
    simp only [if_neg hst, h2.events j]
    cases (c j).lambdasAfter <;> rfl
  · cases hla : c0.lambdasAfter with
    | none =>
        rw [hla] at hlam
        have e : ∀ j, (c j).lambdasAfter = none := hlam
        simp only [e]
        exact ⟨h2.self.full, h2.self.factors, h2.self.aux, fun _ => rfl⟩
    | some w =>
        rw [hla] at hlam
        obtain ⟨ws, e, hw⟩ := hlam
        simp only [e]
        exact ⟨h2.self.full, h2.self.factors, ⟨_, fun _ => rfl, hw⟩, fun _ => rfl⟩

end Lim
end TD
