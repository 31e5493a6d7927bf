import Verif.Lemmas.TF
import Verif.Spec.Objects

/-!
# C142, C143 : programs with `DTensor` objects, indexing and iteration
-/
namespace TD.Props
open TD Tensor DTensor Spec
variable {α : Type}

/-- The objects of the heap hold these tensors, and every cached unfolding is the one along a mode that the rest `p` of the program allows. -/
def HoldsT [Zero α] (p : List (Stmt α)) (h : List (DTensor α)) (ts : List (Tensor α)) : Prop :=
  h.map DTensor.T = ts ∧ ∀ d x u, h[d]? = some x → x.unfoldT = some u → ∀ m, Stmt.unfold d m ∈ p → ops.unfold x.T m = .ok u

theorem val_obj {h : List (DTensor α)} (d : Nat) : val (h.map DTensor.T) d = (obj h d).map DTensor.T := by
  unfold val obj
  rw [List.getElem?_map]
  cases h[d]? <;> rfl

theorem opdVal_opd {h : List (DTensor α)} (o : Opd α) : opdVal (h.map DTensor.T) o = (opd h o).map Rhs.T := by
  cases o with
  | raw t => rfl
  | obj i => simp only [opdVal, opd, val_obj]; cases obj h i <;> rfl

theorem init_T (t : Tensor α) : (init t).T = t := rfl

theorem dcall_spec [Zero α] [Add α] [Mul α] [Sub α] [tf.Red α] [tf.Ein α] {s : Stmt α} {p : List (Stmt α)} {h : List (DTensor α)}
    {ts : List (Tensor α)} (hh : HoldsT (s :: p) h ts) (hp : OneMode (s :: p)) :
    match call h s with
    | .ok (h', r) => compute ts s = .ok r.T ∧ HoldsT p (h' ++ [r]) (ts ++ [r.T])
    | .error e => compute ts s = .error e := by
  obtain ⟨rfl, hc⟩ := hh
  have keep : ∀ t, HoldsT p (h ++ [init t]) (h.map DTensor.T ++ [t]) := by
    intro t
    refine ⟨by simp [init_T], fun d x u hd hu m hm => ?_⟩
    rcases Nat.lt_or_ge d h.length with hl | hl
    · rw [List.getElem?_append_left hl] at hd
      exact hc d x u hd hu m (List.mem_cons_of_mem _ hm)
    · rw [List.getElem?_append_right hl] at hd
      rcases hz : d - h.length with _ | k
      · rw [hz] at hd
        simp only [List.getElem?_cons_zero, Option.some.injEq] at hd
        subst hd
        simp [init] at hu
      · rw [hz] at hd
        simp at hd
  cases s with
  | new t => exact ⟨rfl, keep t⟩
  | unfold d m =>
      simp only [call, compute, val_obj]
      cases hx : obj h d with
      | error e => rfl
      | ok x =>
          have hx' : h[d]? = some x := by
            unfold obj at hx
            cases hy : h[d]? with
            | none => rw [hy] at hx; cases hx
            | some y => rw [hy] at hx; cases hx; rfl
          have hl : d < h.length := by
            rcases Nat.lt_or_ge d h.length with hl | hl
            · exact hl
            · rw [List.getElem?_eq_none hl] at hx'; cases hx'
          have fin : ∀ u, ops.unfold x.T m = .ok u → HoldsT p (h.set d ⟨x.T, some u⟩ ++ [init u]) (h.map DTensor.T ++ [u]) := by
            intro u hu
            refine ⟨?_, fun e y w he hw k hk => ?_⟩
            · rw [List.map_append, List.map_set]
              congr 1
              apply List.ext_getElem?
              intro i
              rw [List.getElem?_set]
              split
              · rename_i hi; subst hi
                rw [List.getElem?_map, hx']
                simp [hl]
              · rfl
            · rcases Nat.lt_or_ge e h.length with hl' | hl'
              · rw [List.getElem?_append_left (by simpa using hl'), List.getElem?_set] at he
                split at he
                · rename_i hi; subst hi
                  simp only [hl, if_true, Option.some.injEq] at he
                  subst he
                  simp only [Option.some.injEq] at hw
                  subst hw
                  rw [← hp d m k List.mem_cons_self (List.mem_cons_of_mem _ hk)]
                  exact hu
                · exact hc e y w he hw k (List.mem_cons_of_mem _ hk)
              · rw [List.getElem?_append_right (by simpa using hl')] at he
                rcases hz : e - (h.set d ⟨x.T, some u⟩).length with _ | j
                · rw [hz] at he
                  simp only [List.getElem?_cons_zero, Option.some.injEq] at he
                  subst he
                  simp [init] at hw
                · rw [hz] at he
                  simp at he
          simp only [ok_bind, Except.map, DTensor.unfold]
          cases hu : x.unfoldT with
          | some u =>
              have hm := hc d x u hx' hu m List.mem_cons_self
              have he : x = ⟨x.T, some u⟩ := by cases x; simp only at hu; subst hu; rfl
              refine ⟨hm, ?_⟩
              have := fin u hm
              rw [← he] at this
              exact this
          | none =>
              cases hm : ops.unfold x.T m with
              | error e => rfl
              | ok u =>
                  have := fin u hm
                  simp only [ok_bind, pure, Except.pure, init_T]
                  exact ⟨trivial, this⟩
  | mul d e a b =>
      simp only [call, compute, val_obj]
      cases obj h d with
      | error e => rfl
      | ok x =>
          cases obj h e with
          | error e => rfl
          | ok y =>
              simp only [ok_bind, Except.map, DTensor.mul]
              cases ops.mul x.T y.T a b with
              | error e => rfl
              | ok t => exact ⟨rfl, keep t⟩
  | t2mat d r c =>
      simp only [call, compute, val_obj]
      cases obj h d with
      | error e => rfl
      | ok x =>
          simp only [ok_bind, Except.map, DTensor.t2mat]
          cases ops.t2mat x.T r c with
          | error e => rfl
          | ok t => exact ⟨rfl, keep t⟩
  | vectorize d =>
      simp only [call, compute, val_obj]
      cases obj h d with
      | error e => rfl
      | ok x =>
          simp only [ok_bind, Except.map, DTensor.vectorize]
          cases ops.vectorize x.T with
          | error e => rfl
          | ok t => exact ⟨rfl, keep t⟩
  | fold d m sh =>
      simp only [call, compute, val_obj]
      cases obj h d with
      | error e => rfl
      | ok x =>
          simp only [ok_bind, Except.map, DTensor.fold]
          cases ops.fold x.T m sh with
          | error e => rfl
          | ok t => exact ⟨rfl, keep t⟩
  | item d idx =>
      simp only [call, compute, val_obj]
      cases obj h d with
      | error e => rfl
      | ok x =>
          simp only [ok_bind, Except.map, DTensor.getitem]
          cases tf.item x.T idx with
          | error e => rfl
          | ok t => exact ⟨rfl, keep t⟩
  | kron d o =>
      simp only [call, compute, val_obj, opdVal_opd]
      cases obj h d with
      | error e => rfl
      | ok x =>
          cases opd h o with
          | error e => rfl
          | ok y =>
              simp only [ok_bind, Except.map, DTensor.kron]
              cases ops.kron [x.T, y.T] with
              | error e => rfl
              | ok t => exact ⟨rfl, keep t⟩
  | khatri d o =>
      simp only [call, compute, val_obj, opdVal_opd]
      cases obj h d with
      | error e => rfl
      | ok x =>
          cases opd h o with
          | error e => rfl
          | ok y =>
              simp only [ok_bind, Except.map, DTensor.khatri]
              cases ops.khatri [x.T, y.T] with
              | error e => rfl
              | ok t => exact ⟨rfl, keep t⟩
  | add d o =>
      simp only [call, compute, val_obj, opdVal_opd]
      cases obj h d with
      | error e => rfl
      | ok x =>
          cases opd h o with
          | error e => rfl
          | ok y =>
              simp only [ok_bind, Except.map, DTensor.add]
              cases tf.ewise (· + ·) x.T y.T with
              | error e => rfl
              | ok t => exact ⟨rfl, keep t⟩
  | hmul d o =>
      simp only [call, compute, val_obj, opdVal_opd]
      cases obj h d with
      | error e => rfl
      | ok x =>
          cases opd h o with
          | error e => rfl
          | ok y =>
              simp only [ok_bind, Except.map, DTensor.hmul]
              cases tf.ewise (· * ·) x.T y.T with
              | error e => rfl
              | ok t => exact ⟨rfl, keep t⟩
  | sub d o =>
      simp only [call, compute, val_obj, opdVal_opd]
      cases obj h d with
      | error e => rfl
      | ok x =>
          cases opd h o with
          | error e => rfl
          | ok y =>
              simp only [ok_bind, Except.map, DTensor.sub]
              cases tf.ewise (· - ·) x.T y.T with
              | error e => rfl
              | ok t => exact ⟨rfl, keep t⟩

theorem drun_spec [Zero α] [Add α] [Mul α] [Sub α] [tf.Red α] [tf.Ein α] (p : List (Stmt α)) :
    ∀ {h : List (DTensor α)} {ts : List (Tensor α)}, HoldsT p h ts → OneMode p →
      (DTensor.run h p).2 = (functional ts p).2 ∧ (DTensor.run h p).1.map DTensor.T = (functional ts p).1 := by
  induction p with
  | nil => intro h ts hh _; exact ⟨rfl, hh.1⟩
  | cons s p ih =>
      intro h ts hh hp
      have hp' : OneMode p := fun d m m' a b => hp d m m' (List.mem_cons_of_mem _ a) (List.mem_cons_of_mem _ b)
      have hs := dcall_spec hh hp
      unfold DTensor.run functional
      cases hc : call h s with
      | ok q =>
          obtain ⟨h', r⟩ := q
          rw [hc] at hs
          obtain ⟨h1, h2⟩ := hs
          obtain ⟨i1, i2⟩ := ih h2 hp'
          rw [h1]
          exact ⟨congrArg _ i1, i2⟩
      | error e =>
          rw [hc] at hs
          have hs : compute ts s = .error e := hs
          obtain ⟨i1, i2⟩ := ih (h := h) (ts := ts)
            ⟨hh.1, fun d x u a b m c => hh.2 d x u a b m (List.mem_cons_of_mem _ c)⟩ hp'
          rw [hs]
          exact ⟨congrArg _ i1, i2⟩

/-- **C142**, what is true of `DTensor` programs: a program that unfolds no object along two different modes gives, statement by statement, the
same tensors and the same exceptions as the program written with the functions of `tensorD.base.ops`.
Missing: programs that unfold an object along two modes, see `C142_two_modes_false`. -/
theorem C142_programs_partial [Zero α] [Add α] [Mul α] [Sub α] [tf.Red α] [tf.Ein α] (p : List (Stmt α)) (hp : OneMode p) :
    (DTensor.run [] p).2 = (functional [] p).2 ∧ (DTensor.run [] p).1.map DTensor.T = (functional [] p).1 :=
  drun_spec p ⟨rfl, fun _ _ _ h => by simp at h⟩ hp

theorem call_T [Zero α] [Add α] [Mul α] [Sub α] [tf.Red α] [tf.Ein α] {s : Stmt α} {h h' : List (DTensor α)} {r : DTensor α}
    (hc : call h s = .ok (h', r)) : h'.map DTensor.T = h.map DTensor.T := by
  have same : ∀ {β : Type} {x : Res β} {f : β → DTensor α}, (do let a ← x; return (h, f a)) = (.ok (h', r) : Res _) → h' = h := by
    intro β x f hx
    cases x with
    | error e => cases hx
    | ok a => cases hx; rfl
  cases s with
  | new t => cases hc; rfl
  | unfold d m =>
      simp only [call] at hc
      cases hx : obj h d with
      | error e => rw [hx] at hc; cases hc
      | ok x =>
          have hx' : h[d]? = some x := by
            unfold obj at hx
            cases hy : h[d]? with
            | none => rw [hy] at hx; cases hx
            | some y => rw [hy] at hx; cases hx; rfl
          rw [hx] at hc
          simp only [ok_bind] at hc
          cases hu : x.unfold m with
          | error e => rw [hu] at hc; cases hc
          | ok q =>
              rw [hu] at hc
              cases hc
              have hT : q.1.T = x.T := by
                unfold DTensor.unfold at hu
                split at hu
                · cases hm : ops.unfold x.T m with
                  | error e => rw [hm] at hu; cases hu
                  | ok u => rw [hm] at hu; cases hu; rfl
                · cases hu; rfl
              rw [List.map_set, hT]
              apply List.ext_getElem?
              intro i
              rw [List.getElem?_set]
              split
              · rename_i hi; subst hi
                rw [List.getElem?_map, hx']
                have : d < h.length := by
                  rcases Nat.lt_or_ge d h.length with hl | hl
                  · exact hl
                  · rw [List.getElem?_eq_none hl] at hx'; cases hx'
                simp [this]
              · rfl
  | mul d e a b =>
      simp only [call] at hc
      cases hx : obj h d with
      | error e => rw [hx] at hc; cases hc
      | ok x =>
          rw [hx] at hc
          cases hy : obj h e with
          | error e => rw [hy] at hc; cases hc
          | ok y => rw [hy] at hc; rw [same (f := id) hc]
  | t2mat d r c =>
      simp only [call] at hc
      cases hx : obj h d with
      | error e => rw [hx] at hc; cases hc
      | ok x => rw [hx] at hc; rw [same (f := id) hc]
  | vectorize d =>
      simp only [call] at hc
      cases hx : obj h d with
      | error e => rw [hx] at hc; cases hc
      | ok x => rw [hx] at hc; rw [same (f := id) hc]
  | fold d m sh =>
      simp only [call] at hc
      cases hx : obj h d with
      | error e => rw [hx] at hc; cases hc
      | ok x => rw [hx] at hc; rw [same (f := id) hc]
  | item d idx =>
      simp only [call] at hc
      cases hx : obj h d with
      | error e => rw [hx] at hc; cases hc
      | ok x => rw [hx] at hc; rw [same (f := init) hc]
  | kron d o =>
      simp only [call] at hc
      cases hx : obj h d with
      | error e => rw [hx] at hc; cases hc
      | ok x =>
          rw [hx] at hc
          cases hy : opd h o with
          | error e => rw [hy] at hc; cases hc
          | ok y => rw [hy] at hc; rw [same (f := id) hc]
  | khatri d o =>
      simp only [call] at hc
      cases hx : obj h d with
      | error e => rw [hx] at hc; cases hc
      | ok x =>
          rw [hx] at hc
          cases hy : opd h o with
          | error e => rw [hy] at hc; cases hc
          | ok y => rw [hy] at hc; rw [same (f := id) hc]
  | add d o =>
      simp only [call] at hc
      cases hx : obj h d with
      | error e => rw [hx] at hc; cases hc
      | ok x =>
          rw [hx] at hc
          cases hy : opd h o with
          | error e => rw [hy] at hc; cases hc
          | ok y => rw [hy] at hc; rw [same (f := id) hc]
  | hmul d o =>
      simp only [call] at hc
      cases hx : obj h d with
      | error e => rw [hx] at hc; cases hc
      | ok x =>
          rw [hx] at hc
          cases hy : opd h o with
          | error e => rw [hy] at hc; cases hc
          | ok y => rw [hy] at hc; rw [same (f := id) hc]
  | sub d o =>
      simp only [call] at hc
      cases hx : obj h d with
      | error e => rw [hx] at hc; cases hc
      | ok x =>
          rw [hx] at hc
          cases hy : opd h o with
          | error e => rw [hy] at hc; cases hc
          | ok y => rw [hy] at hc; rw [same (f := id) hc]

/-- **C142**: whatever a program does (also unfolding along several modes, also raising), the tensor in an existing object never changes, and no
object disappears. -/
theorem C142_tensors_never_change [Zero α] [Add α] [Mul α] [Sub α] [tf.Red α] [tf.Ein α] (h : List (DTensor α)) (p : List (Stmt α))
    (d : Nat) (x : DTensor α) (hd : h[d]? = some x) : ∃ y, (DTensor.run h p).1[d]? = some y ∧ y.T = x.T := by
  suffices H : ∀ (p : List (Stmt α)) (h : List (DTensor α)), h.map DTensor.T <+: (DTensor.run h p).1.map DTensor.T by
    obtain ⟨l, hl⟩ := H p h
    have : ((DTensor.run h p).1.map DTensor.T)[d]? = some x.T := by
      rw [← hl, List.getElem?_append_left (by
        rw [List.length_map]
        rcases Nat.lt_or_ge d h.length with hl | hl
        · exact hl
        · rw [List.getElem?_eq_none hl] at hd; cases hd), List.getElem?_map, hd]
      rfl
    rw [List.getElem?_map] at this
    cases hy : (DTensor.run h p).1[d]? with
    | none => rw [hy] at this; cases this
    | some y => rw [hy] at this; exact ⟨y, rfl, by simpa using this⟩
  intro p
  induction p with
  | nil => intro h; exact List.prefix_rfl
  | cons s p ih =>
      intro h
      unfold DTensor.run
      cases hc : call h s with
      | error e => exact ih h
      | ok q =>
          obtain ⟨h', r⟩ := q
          refine List.IsPrefix.trans ?_ (ih (h' ++ [r]))
          rw [List.map_append, call_T hc]
          exact List.prefix_append _ _

def exM : Tensor Int := ofFn [2, 3] fun i => 3 * (i.getD 0 0 : Int) + i.getD 1 0

/-- A program of six statements that meets the hypothesis of `C142_programs_partial`; one statement raises. -/
example : OneMode [Stmt.new exM, .unfold 0 1, .unfold 0 1, .mul 0 1 (.int 0) (.int 1), .sub 3 (.obj 1), .add 0 (.obj 0)] := by
  intro d m m' h h'
  simp only [List.mem_cons, Stmt.unfold.injEq, List.not_mem_nil, or_false, reduceCtorEq, false_or] at h h'
  omega

/-- **C142** is false of programs that unfold an object along two modes: the second unfolding is the first one. -/
theorem C142_two_modes_false :
    let p := [Stmt.new exM, .unfold 0 0, .unfold 0 1]
    (DTensor.run [] p).2 = [.ok exM, .ok exM, .ok exM] ∧
      ∃ t, (functional [] p).2 = [.ok exM, .ok exM, .ok t] ∧ t.shape = [3, 2] ∧ t ≠ exM := by
  refine ⟨by decide +kernel, ofFn [3, 2] (fun i => 3 * (i.getD 1 0 : Int) + i.getD 0 0), by decide +kernel, rfl, by decide +kernel⟩

/-! ### C143: indexing and iteration -/

theorem wrap_some {d : Nat} {i : Int} {j : Nat} : tf.wrap d i = some j ↔ Means d i j := by
  unfold tf.wrap Means
  split_ifs with h1 h2
  · simp only [Option.some.injEq]; omega
  · simp only [Option.some.injEq]; omega
  · simp only [reduceCtorEq, false_iff]; omega

theorem wraps_some : ∀ {s : List Nat} {idx : List Int} {js : List Nat},
    tf.wraps s idx = some js ↔ idx.length ≤ s.length ∧ js.length = idx.length ∧
      ∀ k (h : k < idx.length), Means (s.getD k 0) idx[k] (js.getD k 0)
  | s, [], js => by
      simp only [tf.wraps, Option.some.injEq, List.length_nil, Nat.zero_le, true_and, Nat.not_lt_zero, IsEmpty.forall_iff,
        implies_true, and_true, List.length_eq_zero_iff]
      exact eq_comm
  | [], i :: is, js => by simp [tf.wraps]
  | d :: s, i :: is, js => by
      simp only [tf.wraps, Option.bind_eq_some_iff, Option.map_eq_some_iff, wrap_some]
      constructor
      · rintro ⟨j, hj, js', hjs, rfl⟩
        obtain ⟨a, b, c⟩ := wraps_some.1 hjs
        refine ⟨by simpa using a, by simpa using b, fun k hk => ?_⟩
        cases k with
        | zero => simpa using hj
        | succ k => simpa using c k (by simpa using hk)
      · rintro ⟨a, b, c⟩
        cases js with
        | nil => simp at b
        | cons j js =>
            refine ⟨j, c 0 (Nat.succ_pos _), js, wraps_some.2 ⟨by simpa using a, by simpa using b, fun k hk => ?_⟩, rfl⟩
            exact c (k + 1) (Nat.succ_lt_succ hk)

/-- **C143**: `d[i_0, .., i_k]` with at most as many indices as axes, each in range (negative ones counted from the end), is the
subtensor at these indices. -/
theorem C143_entry [Zero α] (d : DTensor α) (idx : List Int) (js : List Nat) (hn : idx.length ≤ d.T.order) (hj : js.length = idx.length)
    (hm : ∀ k (h : k < idx.length), Means (d.T.shape.getD k 0) idx[k] (js.getD k 0)) :
    ∃ x, d.getitem idx = .ok x ∧ x.shape = d.T.shape.drop idx.length ∧
      ∀ i, InB x.shape i → x.at_ i = d.T.at_ (js ++ i) := by
  have : tf.wraps d.T.shape idx = some js := wraps_some.2 ⟨hn, hj, hm⟩
  refine ⟨_, by rw [getitem, tf.item, this], rfl, fun i hi => ?_⟩
  exact at_ofFn (fun k => d.T.at_ (js ++ k)) (by simpa using hi)

/-- **C143**: in every other case the indexing raises a `ValueError`. -/
theorem C143_raises [Zero α] (d : DTensor α) (idx : List Int) :
    d.getitem idx = .error .valueError ↔
      ¬ (idx.length ≤ d.T.order ∧ ∀ k (h : k < idx.length), ∃ j, Means (d.T.shape.getD k 0) idx[k] j) := by
  have key : (∃ js, tf.wraps d.T.shape idx = some js) ↔
      (idx.length ≤ d.T.order ∧ ∀ k (h : k < idx.length), ∃ j, Means (d.T.shape.getD k 0) idx[k] j) := by
    constructor
    · rintro ⟨js, h⟩
      obtain ⟨a, b, c⟩ := wraps_some.1 h
      exact ⟨a, fun k hk => ⟨_, c k hk⟩⟩
    · rintro ⟨a, c⟩
      choose! f hf using c
      refine ⟨(List.range idx.length).map f, wraps_some.2 ⟨a, by simp, fun k hk => ?_⟩⟩
      have := hf k hk
      simpa [List.getD_eq_getElem?_getD, hk] using this
  rw [← key, getitem, tf.item]
  cases tf.wraps d.T.shape idx <;> simp

/-- **C143**: indexing the result of an indexing is indexing by both: `d[a][b] = d[a + b]` (in whether it raises, too). -/
theorem C143_chain [Zero α] (d : DTensor α) (a b : List Int) :
    (do let x ← d.getitem a; (DTensor.init x).getitem b) = d.getitem (a ++ b) := by
  have split : ∀ (s : List Nat) (a b : List Int), tf.wraps s (a ++ b) =
      (tf.wraps s a).bind fun js => (tf.wraps (s.drop a.length) b).map (js ++ ·) := by
    intro s a
    induction a generalizing s with
    | nil => intro b; simp [tf.wraps]
    | cons i a ih =>
        intro b
        cases s with
        | nil => rfl
        | cons n s =>
            simp only [List.cons_append, tf.wraps, ih, List.length_cons, List.drop_succ_cons]
            cases tf.wrap n i <;> simp
            cases tf.wraps s a <;> simp
            cases tf.wraps (s.drop a.length) b <;> simp
  unfold getitem tf.item
  rw [split]
  cases ha : tf.wraps d.T.shape a with
  | none => rfl
  | some js =>
      simp only [ok_bind, init_T, shape_ofFn, Option.bind_some]
      cases hb : tf.wraps (d.T.shape.drop a.length) b with
      | none => rfl
      | some ks =>
          simp only [Option.map_some, List.drop_drop, List.length_append]
          congr 1
          refine ofFn_congr fun i hi => ?_
          obtain ⟨h1, h2, h3⟩ := wraps_some.1 hb
          have hin : InB (d.T.shape.drop a.length) (ks ++ i) := by
            rw [InB_iff_getD]
            rw [InB_iff_getD] at hi
            obtain ⟨hl, hi⟩ := hi
            simp only [List.length_drop] at hl h1
            refine ⟨by simp only [List.length_append, List.length_drop]; omega, fun k hk => ?_⟩
            rcases Nat.lt_or_ge k ks.length with hkk | hkk
            · have := (h3 k (by omega)).1
              simpa [List.getD_eq_getElem?_getD, List.getElem?_append_left hkk] using this
            · have := hi (k - ks.length) (by simp only [List.length_drop] at *; omega)
              simp only [List.getD_eq_getElem?_getD, List.getElem?_drop, List.getElem?_append_right hkk] at this ⊢
              rw [show a.length + b.length + (k - ks.length) = a.length + k by omega] at this
              exact this
          rw [at_ofFn _ hin, List.append_assoc]

/-- **C143**, what is true of `for x in d` on a tensor with at least one axis: the loop gets the slices `d[0]`, `d[1]`, ..., `d[n-1]` in order.
Missing: that the loop ends then; it raises, see `C143_iteration_raises_false`. -/
theorem C143_iteration_partial [Zero α] (d : DTensor α) (n : Nat) (s : List Nat) (hs : d.T.shape = n :: s) :
    d.iter.1.length = n ∧ ∀ k (h : k < d.iter.1.length), d.getitem [(k : Int)] = .ok d.iter.1[k] := by
  suffices H : ∀ m i, i + m = n → (iterFrom d i).1.length = m ∧
      ∀ k (h : k < (iterFrom d i).1.length), d.getitem [((i + k : Nat) : Int)] = .ok (iterFrom d i).1[k] by
    have := H n 0 (by omega)
    simpa [iter] using this
  intro m
  induction m with
  | zero =>
      intro i hi
      have he : tf.item d.T [(i : Int)] = .error .valueError := by
        refine (C143_raises d [(i : Int)]).2 ?_
        rintro ⟨-, h⟩
        obtain ⟨j, hj⟩ := h 0 (by simp)
        unfold Means at hj
        simp [hs] at hj
        omega
      have : iterFrom d i = ([], some .valueError) := by
        rw [iterFrom]
        split
        · rename_i x hx; rw [he] at hx; cases hx
        · rename_i hx; rw [he] at hx; cases hx
        · rename_i e _ hx; rw [he] at hx; cases hx; rfl
      rw [this]
      simp
  | succ m ih =>
      intro i hi
      obtain ⟨x, hx, -, -⟩ := C143_entry d [(i : Int)] [i] (by simp [order, hs]) rfl (by
        intro k hk
        have : k = 0 := by simpa using hk
        subst this
        simp [Means, hs]
        omega)
      have : iterFrom d i = (x :: (iterFrom d (i + 1)).1, (iterFrom d (i + 1)).2) := by
        conv_lhs => rw [iterFrom]
        split
        · rename_i y hy
          have : tf.item d.T [(i : Int)] = .ok x := hx
          rw [this] at hy; cases hy; rfl
        · rename_i hy; have : tf.item d.T [(i : Int)] = .ok x := hx; rw [this] at hy; cases hy
        · rename_i hy; have : tf.item d.T [(i : Int)] = .ok x := hx; rw [this] at hy; cases hy
      obtain ⟨h1, h2⟩ := ih (i + 1) (by omega)
      rw [this]
      refine ⟨by simp [h1], fun k hk => ?_⟩
      cases k with
      | zero => simpa using hx
      | succ k =>
          have := h2 k (by simpa using hk)
          rw [show i + (k + 1) = i + 1 + k by omega]
          simpa using this

/-- **C143** is false of iteration: whatever the tensor, `for x in d` never ends normally, it raises a `ValueError`. -/
theorem C143_iteration_raises_false [Zero α] (d : DTensor α) : d.iter.2 = some .valueError := by
  suffices H : ∀ m i, d.T.shape.headD 0 - i = m → (iterFrom d i).2 = some .valueError from H _ 0 rfl
  intro m
  induction m with
  | zero =>
      intro i hi
      rw [iterFrom]
      split
      · rename_i x hx; have := tf.item_lt hx; omega
      · rename_i hx; unfold tf.item at hx; split at hx <;> simp at hx
      · rename_i e _ hx; unfold tf.item at hx; split at hx <;> simp at hx; rw [hx]
  | succ m ih =>
      intro i hi
      rw [iterFrom]
      split
      · exact ih (i + 1) (by omega)
      · rename_i hx; unfold tf.item at hx; split at hx <;> simp at hx
      · rename_i e _ hx; unfold tf.item at hx; split at hx <;> simp at hx; rw [hx]

/-- A `2 x 3` tensor: `d[-1]` is its last row, the loop gets two rows. -/
example : (DTensor.init exM).getitem [-1] = .ok (ofFn [3] fun i => 3 + (i.getD 0 0 : Int)) ∧
    Means 2 (-1) 1 ∧ (DTensor.init exM).iter.1.length = 2 :=
  ⟨by decide +kernel, by unfold Means; omega, (C143_iteration_partial _ 2 [3] rfl).1⟩

end TD.Props
