import Verif.Lemmas.AlsOneMove
import Verif.Props.AlsOne
import Verif.Props.Endless

/-!
# C163 : with one component the reconstructions come to rest, and settle where no vector can be improved
-/
namespace TD.Props
open TD Spec Tensor tf ops fact bcu Filter Topology

/-- The reconstruction stored by a training that made all its steps. -/
theorem last_full {X : Tensor ℝ} {v : Nat → Nat → ℝ} {args : Args ℝ} {n : Nat} {full : Option (Tensor ℝ)} {len : Nat}
    (hl : (len : Int) = (n : Int) + 1)
    (h : ∃ p < len, Reported args ((n : Int) + 1) p ∧ (∀ q, p < q → q < len → ¬ Reported args ((n : Int) + 1) q) ∧
      full = some (alsOne X v (p + 1))) : full = some (alsOne X v (n + 1)) := by
  obtain ⟨p, hp, -, hq, hf⟩ := h
  have : p = n := by
    by_contra hne
    exact hq n (by omega) (by omega) (Or.inl rfl)
  rw [hf, this]

/-! ### How far a step moves the reconstruction -/

/-- **C163** (CP, moves): in every training with one component, whatever its arguments, the reconstruction moves between two
history entries by no more than the residual falls, times the order. -/
theorem C163_cp_moves (pinv : Tensor ℝ → Res (Tensor ℝ)) (hp : PinvOk pinv) (X : Tensor ℝ) (A0 : List (Tensor ℝ))
    (hA : FactorsFor X.shape 1 A0) (h2 : 2 ≤ X.order) (h25 : X.order ≤ 25) (hpos : ∀ d ∈ X.shape, 0 < d) (Ar : Arith ℝ)
    (args : Args ℝ) (steps : Int) (self self' : Self (List (Tensor ℝ)) (Tensor ℝ) (Tensor ℝ)) (ev : List Int)
    (hist : List (ℝ × ℝ))
    (h : train Ar (CP_ALS.cls (cp.main pinv X 1)) args steps (.ok A0) self = (self', ev, .ok hist)) :
    ∃ Y : Nat → Tensor ℝ, (∀ j p, hist[j]? = some p → EntryOf X (Y j) p) ∧
      (∃ p < hist.length, Reported args steps p ∧ (∀ q, p < q → q < hist.length → ¬ Reported args steps q) ∧
        self'.full = some (Y p)) ∧ SmallMoves X Y hist := by
  obtain ⟨a, b⟩ := C126_cp pinv hp X A0 hA h2 h25 hpos Ar args steps self self' ev hist h
  exact ⟨_, a, b, entries_move (by omega) a⟩

/-- **C163** (NCP, moves), for nonnegative data and draws. -/
theorem C163_ncp_moves (topSv : Tensor ℝ → Res ℝ) (ht : TopSvOk topSv) (X : Tensor ℝ) (draws : List (Tensor ℝ)) (s0 : State)
    (hd : FactorsFor X.shape 1 draws) (hdn : ∀ d ∈ draws, Nonneg d) (hi : bcu.init X X.order draws = .ok s0)
    (h2 : 2 ≤ X.order) (h25 : X.order ≤ 25) (hpos : ∀ d ∈ X.shape, 0 < d) (hX : ∀ i, InB X.shape i → 0 ≤ X.at_ i)
    (Ar : Arith ℝ) (args : Args ℝ) (steps : Int) (self self' : Self (List (Tensor ℝ)) (Tensor ℝ) (Tensor ℝ)) (ev : List Int)
    (hist : List (ℝ × ℝ)) (h : train Ar (NCP.cls topSv X 1) args steps (.ok s0) self = (self', ev, .ok hist)) :
    ∃ Y : Nat → Tensor ℝ, (∀ j p, hist[j]? = some p → EntryOf X (Y j) p) ∧
      (∃ p < hist.length, Reported args steps p ∧ (∀ q, p < q → q < hist.length → ¬ Reported args steps q) ∧
        self'.full = some (Y p)) ∧ SmallMoves X Y hist := by
  obtain ⟨a, b⟩ := C126_ncp topSv ht X draws s0 hd hdn hi h2 h25 hpos hX Ar args steps self self' ev hist h
  exact ⟨_, a, b, entries_move (by omega) a⟩

/-- **C163** (NTUCKER, moves), for nonnegative data and draws. -/
theorem C163_ntucker_moves (topSv : Tensor ℝ → Res ℝ) (ht : TopSvOk topSv) (X : Tensor ℝ) (draws : List (Tensor ℝ))
    (gdraw : Tensor ℝ) (s0 : TState) (hd : FactorsFor X.shape 1 draws) (hdn : ∀ d ∈ draws, Nonneg d)
    (hg : gdraw.shape = List.replicate X.shape.length 1) (hi : NTUCKER.init X draws gdraw = .ok s0)
    (h2 : 2 ≤ X.order) (h13 : X.order ≤ 13) (hpos : ∀ d ∈ X.shape, 0 < d) (hX : ∀ i, InB X.shape i → 0 ≤ X.at_ i)
    (Ar : Arith ℝ) (args : Args ℝ) (steps : Int) (self self' : Self (List (Tensor ℝ)) (Tensor ℝ) (Tensor ℝ)) (ev : List Int)
    (hist : List (ℝ × ℝ)) (h : train Ar (NTUCKER.cls topSv X) args steps (.ok s0) self = (self', ev, .ok hist)) :
    ∃ Y : Nat → Tensor ℝ, (∀ j p, hist[j]? = some p → EntryOf X (Y j) p) ∧
      (∃ p < hist.length, Reported args steps p ∧ (∀ q, p < q → q < hist.length → ¬ Reported args steps q) ∧
        self'.full = some (Y p)) ∧ SmallMoves X Y hist := by
  obtain ⟨a, b⟩ := C126_ntucker topSv ht X draws gdraw s0 hd hdn hg hi h2 h13 hpos hX Ar args steps self self' ev hist h
  exact ⟨_, a, b, entries_move (by omega) a⟩

/-- **C163** (HOOI, moves), unless the leading singular vectors are orthogonal to the tensor. -/
theorem C163_hooi_moves (svd : Tensor ℝ → Res (Tensor ℝ × Tensor ℝ × Tensor ℝ)) (hs : SvdOk svd) (X : Tensor ℝ)
    (ranks : List Nat) (h2 : 2 ≤ X.order) (h13 : X.order ≤ 13) (hpos : ∀ d ∈ X.shape, 0 < d) (hlen : X.order ≤ ranks.length)
    (hr : ∀ n < X.order, ranks.getD n 0 = 1) (A0 : List (Tensor ℝ)) (hi : tucker.HOOI.init svd X ranks = .ok A0)
    (hcore : boxSum X.shape (fun i => X.at_ i * outerEntry X.order (firstCol A0) i) ≠ 0) (Ar : Arith ℝ) (args : Args ℝ)
    (steps : Int) (self self' : Self (List (Tensor ℝ)) (Tensor ℝ) (Tensor ℝ)) (ev : List Int) (hist : List (ℝ × ℝ))
    (h : train Ar (HOOI.cls (tucker.HOOI.main svd X ranks)) args steps (tucker.HOOI.init svd X ranks) self =
      (self', ev, .ok hist)) :
    ∃ Y : Nat → Tensor ℝ, (∀ j p, hist[j]? = some p → EntryOf X (Y j) p) ∧
      (∃ p < hist.length, Reported args steps p ∧ (∀ q, p < q → q < hist.length → ¬ Reported args steps q) ∧
        self'.full = some (Y p)) ∧ SmallMoves X Y hist := by
  obtain ⟨a, b⟩ := C126_hooi svd hs X ranks h2 h13 hpos hlen hr A0 hi hcore Ar args steps self self' ev hist h
  exact ⟨_, a, b, entries_move (by omega) a⟩

/-! ### Where the reconstructions settle -/

/-- **C163** (CP, limits) without stopping test: the reconstructions stored by the trainings with 1, 2, 3, … steps settle at
outer products that are optimal in every mode. -/
theorem C163_cp (pinv : Tensor ℝ → Res (Tensor ℝ)) (hp : PinvOk pinv) (X : Tensor ℝ) (A0 : List (Tensor ℝ))
    (hA : FactorsFor X.shape 1 A0) (h2 : 2 ≤ X.order) (h25 : X.order ≤ 25) (hpos : ∀ d ∈ X.shape, 0 < d)
    (args : Args ℝ) (ht : args.tol ≤ 0) (self : Self (List (Tensor ℝ)) (Tensor ℝ) (Tensor ℝ))
    (self' : Nat → Self (List (Tensor ℝ)) (Tensor ℝ) (Tensor ℝ)) (ev : Nat → List Int) (hist : Nat → List (ℝ × ℝ))
    (h : ∀ n : Nat, train (exactArith ℝ) (CP_ALS.cls (cp.main pinv X 1)) args ((n : Int) + 1) (.ok A0) self =
      (self' n, ev n, .ok (hist n))) :
    ∃ Y : Nat → Tensor ℝ, (∀ n, (self' n).full = some (Y n)) ∧ SettlesAtOptima X Y := by
  refine ⟨fun n => alsOne X (firstCol A0) (n + 1), fun n => ?_, alsOne_settles h2 _⟩
  exact last_full (all_steps (X := X) (fun _ _ _ hm => (cp_main_inv hm).choose_spec.2.2.2) ht (h n))
    (C126_cp pinv hp X A0 hA h2 h25 hpos _ args _ self _ _ _ (h n)).2

/-- **C163** (NCP, limits), for nonnegative data and draws. -/
theorem C163_ncp (topSv : Tensor ℝ → Res ℝ) (ht : TopSvOk topSv) (X : Tensor ℝ) (draws : List (Tensor ℝ)) (s0 : State)
    (hd : FactorsFor X.shape 1 draws) (hdn : ∀ d ∈ draws, Nonneg d) (hi : bcu.init X X.order draws = .ok s0)
    (h2 : 2 ≤ X.order) (h25 : X.order ≤ 25) (hpos : ∀ d ∈ X.shape, 0 < d) (hX : ∀ i, InB X.shape i → 0 ≤ X.at_ i)
    (args : Args ℝ) (htol : args.tol ≤ 0) (self : Self (List (Tensor ℝ)) (Tensor ℝ) (Tensor ℝ))
    (self' : Nat → Self (List (Tensor ℝ)) (Tensor ℝ) (Tensor ℝ)) (ev : Nat → List Int) (hist : Nat → List (ℝ × ℝ))
    (h : ∀ n : Nat, train (exactArith ℝ) (NCP.cls topSv X 1) args ((n : Int) + 1) (.ok s0) self =
      (self' n, ev n, .ok (hist n))) :
    ∃ Y : Nat → Tensor ℝ, (∀ n, (self' n).full = some (Y n)) ∧ SettlesAtOptima X Y := by
  refine ⟨fun n => alsOne X (firstCol draws) (n + 1), fun n => ?_, alsOne_settles h2 _⟩
  exact last_full (all_steps (X := X) (fun _ _ _ hm => (NCP.main_inv hm).choose_spec.2.2.2.2.2) htol (h n))
    (C126_ncp topSv ht X draws s0 hd hdn hi h2 h25 hpos hX _ args _ self _ _ _ (h n)).2

/-- **C163** (NTUCKER, limits), for nonnegative data and draws. -/
theorem C163_ntucker (topSv : Tensor ℝ → Res ℝ) (ht : TopSvOk topSv) (X : Tensor ℝ) (draws : List (Tensor ℝ))
    (gdraw : Tensor ℝ) (s0 : TState) (hd : FactorsFor X.shape 1 draws) (hdn : ∀ d ∈ draws, Nonneg d)
    (hg : gdraw.shape = List.replicate X.shape.length 1) (hi : NTUCKER.init X draws gdraw = .ok s0)
    (h2 : 2 ≤ X.order) (h13 : X.order ≤ 13) (hpos : ∀ d ∈ X.shape, 0 < d) (hX : ∀ i, InB X.shape i → 0 ≤ X.at_ i)
    (args : Args ℝ) (htol : args.tol ≤ 0) (self : Self (List (Tensor ℝ)) (Tensor ℝ) (Tensor ℝ))
    (self' : Nat → Self (List (Tensor ℝ)) (Tensor ℝ) (Tensor ℝ)) (ev : Nat → List Int) (hist : Nat → List (ℝ × ℝ))
    (h : ∀ n : Nat, train (exactArith ℝ) (NTUCKER.cls topSv X) args ((n : Int) + 1) (.ok s0) self =
      (self' n, ev n, .ok (hist n))) :
    ∃ Y : Nat → Tensor ℝ, (∀ n, (self' n).full = some (Y n)) ∧ SettlesAtOptima X Y := by
  refine ⟨fun n => alsOne X (firstCol draws) (n + 1), fun n => ?_, alsOne_settles h2 _⟩
  exact last_full (all_steps (X := X) (fun _ _ _ hm => (NTUCKER.main_inv hm).choose_spec.2.2.2.2.2) htol (h n))
    (C126_ntucker topSv ht X draws gdraw s0 hd hdn hg hi h2 h13 hpos hX _ args _ self _ _ _ (h n)).2

/-- **C163** (HOOI, limits), unless the leading singular vectors are orthogonal to the tensor. -/
theorem C163_hooi (svd : Tensor ℝ → Res (Tensor ℝ × Tensor ℝ × Tensor ℝ)) (hs : SvdOk svd) (X : Tensor ℝ)
    (ranks : List Nat) (h2 : 2 ≤ X.order) (h13 : X.order ≤ 13) (hpos : ∀ d ∈ X.shape, 0 < d) (hlen : X.order ≤ ranks.length)
    (hr : ∀ n < X.order, ranks.getD n 0 = 1) (A0 : List (Tensor ℝ)) (hi : tucker.HOOI.init svd X ranks = .ok A0)
    (hcore : boxSum X.shape (fun i => X.at_ i * outerEntry X.order (firstCol A0) i) ≠ 0)
    (args : Args ℝ) (htol : args.tol ≤ 0) (self : Self (List (Tensor ℝ)) (Tensor ℝ) (Tensor ℝ))
    (self' : Nat → Self (List (Tensor ℝ)) (Tensor ℝ) (Tensor ℝ)) (ev : Nat → List Int) (hist : Nat → List (ℝ × ℝ))
    (h : ∀ n : Nat, train (exactArith ℝ) (HOOI.cls (tucker.HOOI.main svd X ranks)) args ((n : Int) + 1)
      (tucker.HOOI.init svd X ranks) self = (self' n, ev n, .ok (hist n))) :
    ∃ Y : Nat → Tensor ℝ, (∀ n, (self' n).full = some (Y n)) ∧ SettlesAtOptima X Y := by
  refine ⟨fun n => alsOne X (firstCol A0) (n + 1), fun n => ?_, alsOne_settles h2 _⟩
  exact last_full (all_steps (X := X) (fun _ _ _ hm => (hooi_main_inv hm).choose_spec.2.2.2) htol (h n))
    (C126_hooi svd hs X ranks h2 h13 hpos hlen hr A0 hi hcore _ args _ self _ _ _ (h n)).2

/-- For `NCP_BCU` the hypotheses of C163 are met by every positive tensor and all positive draws. -/
example (topSv : Tensor ℝ → Res ℝ) (ht : TopSvOk topSv) (X : Tensor ℝ) (draws : List (Tensor ℝ))
    (hd : FactorsFor X.shape 1 draws) (hdp : ∀ M ∈ draws, ∀ i < M.shape.getD 0 0, 0 < M.at_ [i, 0]) (h2 : 2 ≤ X.order)
    (h25 : X.order ≤ 25) (hpos : ∀ d ∈ X.shape, 0 < d) (hX : ∀ i, InB X.shape i → 0 < X.at_ i) :
    ∃ (s0 : State) (self' : Nat → Self (List (Tensor ℝ)) (Tensor ℝ) (Tensor ℝ)) (ev : Nat → List Int)
      (hist : Nat → List (ℝ × ℝ)), bcu.init X X.order draws = .ok s0 ∧
      ∀ n : Nat, train (exactArith ℝ) (NCP.cls topSv X 1) { tol := 0 } ((n : Int) + 1) (.ok s0) {} =
        (self' n, ev n, .ok (hist n)) := by
  have h := fun n : Nat => C127_positive topSv ht X draws hd hdp h2 h25 hpos hX (exactArith ℝ) { tol := 0 } (by decide)
    ((n : Int) + 1) (by omega) {}
  choose s hist h0 h using h
  have hs : ∀ n, s n = s 0 := fun n => Except.ok.inj ((h0 n).symm.trans (h0 0))
  refine ⟨s 0, fun n => (train (exactArith ℝ) (NCP.cls topSv X 1) { tol := 0 } ((n : Int) + 1) (.ok (s 0)) {}).1,
    fun n => (train (exactArith ℝ) (NCP.cls topSv X 1) { tol := 0 } ((n : Int) + 1) (.ok (s 0)) {}).2.1, hist, h0 0, fun n => ?_⟩
  have := h n
  rw [hs n] at this
  exact Prod.ext rfl (Prod.ext rfl this)

end TD.Props
