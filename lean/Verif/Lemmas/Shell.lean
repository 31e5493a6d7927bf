import Verif.Lemmas.Experiment

/-! # Lemmas about the experiment shell scripts -/
namespace TD
open Spec ex

theorem whileNe_count : ∀ (k fuel : Nat) (a : Int), k ≤ fuel →
    whileNe (· + 1) (a + k) fuel a = some ((List.range k).map fun i : Nat => a + i)
  | 0, fuel, a, _ => by cases fuel <;> simp [whileNe]
  | k + 1, 0, _, h => by omega
  | k + 1, fuel + 1, a, h => by
      have e : a + ((k + 1 : Nat) : Int) = a + 1 + (k : Nat) := by push_cast; ring
      rw [whileNe, if_neg (by omega), e, whileNe_count k fuel (a + 1) (by omega)]
      rw [List.range_succ_eq_map, List.map_cons, List.map_map]
      simp only [Option.map_some, Nat.cast_zero, add_zero, Option.some.injEq, List.cons.injEq, true_and]
      refine List.map_congr_left fun i _ => ?_
      simp only [Function.comp, Nat.cast_succ]
      ring

theorem whileNe_double {fuel : Nat} (h : 3 ≤ fuel) : whileNe (· * 2) 160 fuel 20 = some [20, 40, 80] := by
  obtain ⟨f, rfl⟩ := Nat.exists_eq_add_of_le h
  rw [show 3 + f = f + 1 + 1 + 1 by omega]
  have : ∀ f, whileNe (· * 2) 160 f 160 = some [] := fun f => by cases f <;> simp [whileNe]
  simp [whileNe, this]

theorem mapM_some {β γ : Type} (f : β → Option γ) (g : β → γ) (h : ∀ x, f x = some (g x)) :
    ∀ l : List β, l.mapM f = some (l.map g)
  | [] => rfl
  | x :: l => by rw [List.mapM_cons, h, mapM_some f g h l]; rfl

/-- The calls of one function of the scripts. -/
def repeatsL (alg : Alg) (last : Nat) (n gR dR : Int) : List Job :=
  (List.range last).map fun t : Nat => ⟨alg, n, n, n, gR, dR, (t : Int) + 1⟩

theorem repeats_eq {fuel last : Nat} (h : last ≤ fuel) (alg : Alg) (n gR dR : Int) {b : Int} (hb : b = last) :
    repeats fuel alg b n gR dR = some (repeatsL alg last n gR dR) := by
  have := whileNe_count last fuel 0 h
  rw [zero_add] at this
  rw [repeats, hb, this]
  simp [repeatsL, List.map_map, Function.comp_def]

theorem mem_repeatsL {alg : Alg} {last : Nat} {n gR dR : Int} {j : Job} : j ∈ repeatsL alg last n gR dR ↔
    j.alg = alg ∧ j.n1 = n ∧ j.n2 = n ∧ j.n3 = n ∧ j.gR = gR ∧ j.dR = dR ∧ 1 ≤ j.time ∧ j.time ≤ last := by
  simp only [repeatsL, List.mem_map, List.mem_range]
  constructor
  · rintro ⟨t, ht, rfl⟩
    refine ⟨rfl, rfl, rfl, rfl, rfl, rfl, ?_, ?_⟩ <;> simp only <;> omega
  · rintro ⟨h1, h2, h3, h4, h5, h6, h7, h8⟩
    refine ⟨(j.time - 1).toNat, by omega, ?_⟩
    cases j
    simp only at *
    subst h1 h2 h3 h4 h5 h6
    congr 1
    omega

theorem pairwise_repeatsL (alg : Alg) (last : Nat) (n gR dR : Int) :
    (repeatsL alg last n gR dR).Pairwise fun j j' => ¬ SameName j j' := by
  rw [repeatsL, List.pairwise_map]
  refine (List.nodup_range (n := last)).imp fun {a b} hab h => hab ?_
  have := h.2.2.2.2
  simp only at this
  omega

def body20L (n gR dR : Int) : List Job :=
  [(Alg.cp, 20), (.ncp, 20), (.tucker, 20), (.ntucker, 21)].flatMap fun p : Alg × Nat => repeatsL p.1 p.2 n gR dR

theorem body20_eq {fuel : Nat} (h : 21 ≤ fuel) (n gR dR : Int) : body20 fuel n gR dR = some (body20L n gR dR) := by
  unfold body20
  rw [repeats_eq (last := 20) (by omega) .cp _ _ _ (b := 20) rfl, repeats_eq (last := 20) (by omega) .ncp _ _ _ (b := 20) rfl,
    repeats_eq (last := 20) (by omega) .tucker _ _ _ (b := 20) rfl, repeats_eq (last := 21) (by omega) .ntucker _ _ _ (b := 21) rfl]
  simp [body20L]

theorem mem_body20L {n gR dR : Int} {j : Job} : j ∈ body20L n gR dR ↔
    j.n1 = n ∧ j.n2 = n ∧ j.n3 = n ∧ j.gR = gR ∧ j.dR = dR ∧ 1 ≤ j.time ∧ j.time ≤ if j.alg = .ntucker then 21 else 20 := by
  simp only [body20L, List.flatMap_cons, List.flatMap_nil, List.append_nil, List.mem_append, mem_repeatsL]
  cases h : j.alg <;> simp

theorem pairwise_body20L (n gR dR : Int) : (body20L n gR dR).Pairwise fun j j' => ¬ SameName j j' := by
  rw [body20L, List.pairwise_flatMap]
  refine ⟨fun p _ => pairwise_repeatsL _ _ _ _ _, ?_⟩
  have : ([(Alg.cp, 20), (.ncp, 20), (.tucker, 20), (.ntucker, 21)] : List (Alg × Nat)).Pairwise fun p q => p.1 ≠ q.1 := by decide
  exact this.imp fun {p q} hpq x hx y hy h => hpq ((mem_repeatsL.1 hx).1.symm.trans (h.1.trans (mem_repeatsL.1 hy).1))

def loopRL (n gR first : Int) (k : Nat) : List Job :=
  (List.range k).flatMap fun i : Nat => body20L n gR (first + i)

theorem loopR_eq {fuel k : Nat} (h : 21 ≤ fuel) (hk : k ≤ fuel) (n gR first stop : Int) (hs : stop = first + k) :
    loopR fuel n gR first stop = some (loopRL n gR first k) := by
  unfold loopR
  rw [hs, whileNe_count k fuel first hk]
  simp only [Option.bind_eq_bind, Option.bind_some, mapM_some _ _ (body20_eq h n gR)]
  simp [loopRL, List.flatMap, List.map_map, Function.comp_def]

theorem mem_loopRL {n gR first : Int} {k : Nat} {j : Job} : j ∈ loopRL n gR first k ↔
    j.n1 = n ∧ j.n2 = n ∧ j.n3 = n ∧ j.gR = gR ∧ first ≤ j.dR ∧ j.dR < first + k ∧ 1 ≤ j.time ∧
      j.time ≤ if j.alg = .ntucker then 21 else 20 := by
  simp only [loopRL, List.mem_flatMap, List.mem_range, mem_body20L]
  constructor
  · rintro ⟨i, hi, h1, h2, h3, h4, h5, h6, h7⟩
    exact ⟨h1, h2, h3, h4, by omega, by omega, h6, h7⟩
  · rintro ⟨h1, h2, h3, h4, h5, h5', h6, h7⟩
    exact ⟨(j.dR - first).toNat, by omega, h1, h2, h3, h4, by omega, h6, h7⟩

theorem pairwise_loopRL (n gR first : Int) (k : Nat) : (loopRL n gR first k).Pairwise fun j j' => ¬ SameName j j' := by
  rw [loopRL, List.pairwise_flatMap]
  refine ⟨fun p _ => pairwise_body20L _ _ _, ?_⟩
  refine (List.nodup_range (n := k)).imp fun {a b} hab x hx y hy h => hab ?_
  have h1 := (mem_body20L.1 hx).2.2.2.2.1
  have h2 := (mem_body20L.1 hy).2.2.2.2.1
  have h3 := h.2.2.2.1
  omega

def shell20L : List Job := [20, 40, 80].flatMap fun n : Int => loopRL n 10 5 11 ++ loopRL n 20 15 11

theorem shell20_eq {fuel : Nat} (h : 21 ≤ fuel) : shell20 fuel = some shell20L := by
  unfold shell20
  rw [whileNe_double (by omega)]
  simp only [Option.bind_eq_bind, Option.bind_some]
  rw [mapM_some _ (fun n : Int => loopRL n 10 5 11 ++ loopRL n 20 15 11)]
  · rfl
  · intro n
    rw [loopR_eq h (k := 11) (by omega) n 10 5 16 (by norm_num), loopR_eq h (k := 11) (by omega) n 20 15 26 (by norm_num)]
    rfl

theorem mem_shell20L {j : Job} : j ∈ shell20L ↔ Planned20 j := by
  simp only [shell20L, List.mem_flatMap, List.mem_cons, List.mem_append, mem_loopRL, Planned20, List.not_mem_nil, or_false]
  constructor
  · rintro ⟨n, hn, ⟨rfl, h2, h3, h4, h5, h6, h7, h8⟩ | ⟨rfl, h2, h3, h4, h5, h6, h7, h8⟩⟩
    · exact ⟨hn, h2, h3, Or.inl ⟨h4, by omega, by omega⟩, h7, h8⟩
    · exact ⟨hn, h2, h3, Or.inr ⟨h4, by omega, by omega⟩, h7, h8⟩
  · rintro ⟨hn, h2, h3, ⟨h4, h5, h6⟩ | ⟨h4, h5, h6⟩, h7, h8⟩
    · exact ⟨j.n1, hn, Or.inl ⟨rfl, h2, h3, h4, by omega, by omega, h7, h8⟩⟩
    · exact ⟨j.n1, hn, Or.inr ⟨rfl, h2, h3, h4, by omega, by omega, h7, h8⟩⟩

theorem pairwise_shell20L : shell20L.Pairwise fun j j' => ¬ SameName j j' := by
  rw [shell20L, List.pairwise_flatMap]
  refine ⟨fun n _ => ?_, ?_⟩
  · rw [List.pairwise_append]
    refine ⟨pairwise_loopRL _ _ _ _, pairwise_loopRL _ _ _ _, fun x hx y hy h => ?_⟩
    have h1 := (mem_loopRL.1 hx).2.2.2.1
    have h2 := (mem_loopRL.1 hy).2.2.2.1
    have h3 := h.2.2.1
    omega
  · have : ([20, 40, 80] : List Int).Pairwise (· ≠ ·) := by decide
    refine this.imp fun {a b} hab x hx y hy h => hab ?_
    have h1 : x.n1 = a := by
      rcases List.mem_append.1 hx with h | h <;> exact (mem_loopRL.1 h).1
    have h2 : y.n1 = b := by
      rcases List.mem_append.1 hy with h | h <;> exact (mem_loopRL.1 h).1
    rw [← h1, ← h2]
    exact h.2.1

/-! ### The second script -/

theorem whileNe_step {c : Int} (hc : 0 < c) : ∀ (k fuel : Nat) (a : Int), k ≤ fuel →
    whileNe (· + c) (a + c * k) fuel a = some ((List.range k).map fun i : Nat => a + c * i)
  | 0, fuel, a, _ => by cases fuel <;> simp [whileNe]
  | k + 1, 0, _, h => by omega
  | k + 1, fuel + 1, a, h => by
      have e : a + c * ((k + 1 : Nat) : Int) = a + c + c * (k : Nat) := by push_cast; ring
      have hne : ¬ a = a + c + c * (k : Nat) := by
        have : 0 ≤ c * (k : Int) := by positivity
        omega
      rw [whileNe, e, if_neg hne, whileNe_step hc k fuel (a + c) (by omega)]
      rw [List.range_succ_eq_map, List.map_cons, List.map_map]
      simp only [Option.map_some, Nat.cast_zero, mul_zero, add_zero, Option.some.injEq, List.cons.injEq, true_and]
      refine List.map_congr_left fun i _ => ?_
      simp only [Function.comp, Nat.cast_succ]
      ring

def loopTuckerL (n gR first c : Int) (k : Nat) : List Job :=
  (List.range k).flatMap fun i : Nat => repeatsL .tucker 20 n gR (first + c * i)

theorem loopTucker_eq {fuel k : Nat} (h : 21 ≤ fuel) (hk : k ≤ fuel) {c : Int} (hc : 0 < c) (n gR first stop : Int)
    (hs : stop = first + c * k) : loopTucker fuel n gR first c stop = some (loopTuckerL n gR first c k) := by
  unfold loopTucker
  rw [hs, whileNe_step hc k fuel first hk]
  simp only [Option.bind_eq_bind, Option.bind_some,
    mapM_some _ _ (fun d => repeats_eq (fuel := fuel) (last := 20) (by omega) .tucker n gR d (b := 20) rfl)]
  simp [loopTuckerL, List.flatMap, List.map_map, Function.comp_def]

theorem mem_loopTuckerL {n gR first c : Int} {k : Nat} {j : Job} : j ∈ loopTuckerL n gR first c k ↔
    j.alg = .tucker ∧ j.n1 = n ∧ j.n2 = n ∧ j.n3 = n ∧ j.gR = gR ∧ (∃ i < k, j.dR = first + c * i) ∧ 1 ≤ j.time ∧ j.time ≤ 20 := by
  simp only [loopTuckerL, List.mem_flatMap, List.mem_range, mem_repeatsL]
  constructor
  · rintro ⟨i, hi, h0, h1, h2, h3, h4, h5, h6, h7⟩
    exact ⟨h0, h1, h2, h3, h4, ⟨i, hi, h5⟩, h6, h7⟩
  · rintro ⟨h0, h1, h2, h3, h4, ⟨i, hi, h5⟩, h6, h7⟩
    exact ⟨i, hi, h0, h1, h2, h3, h4, h5, h6, h7⟩

theorem pairwise_loopTuckerL {c : Int} (hc : 0 < c) (n gR first : Int) (k : Nat) :
    (loopTuckerL n gR first c k).Pairwise fun j j' => ¬ SameName j j' := by
  rw [loopTuckerL, List.pairwise_flatMap]
  refine ⟨fun p _ => pairwise_repeatsL _ _ _ _ _, ?_⟩
  refine (List.nodup_range (n := k)).imp fun {a b} hab x hx y hy h => hab ?_
  have h1 := (mem_repeatsL.1 hx).2.2.2.2.2.1
  have h2 := (mem_repeatsL.1 hy).2.2.2.2.2.1
  have h3 := h.2.2.2.1
  have h4 : c * (a : Int) = c * b := by omega
  exact_mod_cast mul_left_cancel₀ hc.ne' h4

def shell20bL : List Job :=
  loopTuckerL 20 10 16 1 5 ++ loopTuckerL 40 10 16 2 13 ++ loopTuckerL 40 20 26 2 8 ++ loopTuckerL 80 10 20 5 13 ++ loopTuckerL 80 20 30 5 11

theorem shell20b_eq {fuel : Nat} (h : 21 ≤ fuel) : shell20b fuel = some shell20bL := by
  unfold shell20b
  rw [loopTucker_eq h (k := 5) (by omega) (by norm_num) 20 10 16 21 (by norm_num),
    loopTucker_eq h (k := 13) (by omega) (by norm_num) 40 10 16 42 (by norm_num),
    loopTucker_eq h (k := 8) (by omega) (by norm_num) 40 20 26 42 (by norm_num),
    loopTucker_eq h (k := 13) (by omega) (by norm_num) 80 10 20 85 (by norm_num),
    loopTucker_eq h (k := 11) (by omega) (by norm_num) 80 20 30 85 (by norm_num)]
  rfl

theorem mem_shell20bL {j : Job} : j ∈ shell20bL ↔ Planned20b j := by
  simp only [shell20bL, List.mem_append, mem_loopTuckerL, Planned20b]
  constructor
  · rintro ((((⟨h0, h1, h2, h3, h4, ⟨i, hi, h5⟩, h6, h7⟩ | ⟨h0, h1, h2, h3, h4, ⟨i, hi, h5⟩, h6, h7⟩) |
      ⟨h0, h1, h2, h3, h4, ⟨i, hi, h5⟩, h6, h7⟩) | ⟨h0, h1, h2, h3, h4, ⟨i, hi, h5⟩, h6, h7⟩) | ⟨h0, h1, h2, h3, h4, ⟨i, hi, h5⟩, h6, h7⟩) <;>
      refine ⟨h0, by omega, by omega, h6, h7, by omega, by omega⟩
  · rintro ⟨h0, h2, h3, h6, h7, h8, ⟨h1, h4, h5⟩ | ⟨h1, h5, ⟨h4, h9⟩ | ⟨h4, h9⟩⟩ | ⟨h1, h5, ⟨h4, h9⟩ | ⟨h4, h9⟩⟩⟩
    · exact Or.inl (Or.inl (Or.inl (Or.inl ⟨h0, h1, by omega, by omega, h4, ⟨(j.dR - 16).toNat, by omega, by omega⟩, h6, h7⟩)))
    · exact Or.inl (Or.inl (Or.inl (Or.inr ⟨h0, h1, by omega, by omega, h4, ⟨((j.dR - 16) / 2).toNat, by omega, by omega⟩, h6, h7⟩)))
    · exact Or.inl (Or.inl (Or.inr ⟨h0, h1, by omega, by omega, h4, ⟨((j.dR - 26) / 2).toNat, by omega, by omega⟩, h6, h7⟩))
    · exact Or.inl (Or.inr ⟨h0, h1, by omega, by omega, h4, ⟨((j.dR - 20) / 5).toNat, by omega, by omega⟩, h6, h7⟩)
    · exact Or.inr ⟨h0, h1, by omega, by omega, h4, ⟨((j.dR - 30) / 5).toNat, by omega, by omega⟩, h6, h7⟩

theorem pairwise_shell20bL : shell20bL.Pairwise fun j j' => ¬ SameName j j' := by
  simp only [shell20bL, List.pairwise_append, List.mem_append, mem_loopTuckerL]
  refine ⟨⟨⟨⟨pairwise_loopTuckerL (by norm_num) _ _ _ _, pairwise_loopTuckerL (by norm_num) _ _ _ _, ?_⟩,
    pairwise_loopTuckerL (by norm_num) _ _ _ _, ?_⟩, pairwise_loopTuckerL (by norm_num) _ _ _ _, ?_⟩,
    pairwise_loopTuckerL (by norm_num) _ _ _ _, ?_⟩ <;>
  · intro x hx y hy h
    have h1 := h.2.1
    have h2 := h.2.2.1
    omega

/-! ### The runs -/

theorem outPath_eq (j : Job) : outPath j = "/root/tensorD_f/data_out_tmp/python_out/".toList ++
    ((match j.alg with | .cp => "cp" | .ncp => "ncp" | .tucker => "tucker" | .ntucker => "ntucker").toList ++ '_' ::
      (intText j.n1 ++ '_' :: (intText j.gR ++ '_' :: (intText j.dR ++ '_' :: (intText j.time ++ '.' :: ['t', 'x', 't']))))) := by
  unfold outPath
  have : filePrefix j.alg = "/root/tensorD_f/data_out_tmp/python_out/".toList ++
    ((match j.alg with | .cp => "cp" | .ncp => "ncp" | .tucker => "tucker" | .ntucker => "ntucker").toList ++ ['_']) := by
    cases j.alg <;> decide
  rw [this]
  simp only [List.append_assoc, List.cons_append, List.nil_append]

theorem outPath_iff {j j' : Job} : outPath j = outPath j' ↔ SameName j j' := by
  constructor
  · intro h
    rw [outPath_eq, outPath_eq, List.append_right_inj] at h
    have hu : ∀ z : Int, '_' ∉ intText z := fun z => intText_no (by decide) rfl
    have hp : ∀ z : Int, '.' ∉ intText z := fun z => intText_no (by decide) rfl
    obtain ⟨h0, h⟩ := append_sep_inj (by cases j.alg <;> decide) (by cases j'.alg <;> decide) h
    obtain ⟨h1, h⟩ := append_sep_inj (hu _) (hu _) h
    obtain ⟨h2, h⟩ := append_sep_inj (hu _) (hu _) h
    obtain ⟨h3, h⟩ := append_sep_inj (hu _) (hu _) h
    obtain ⟨h4, -⟩ := append_sep_inj (hp _) (hp _) h
    refine ⟨?_, intText_inj h1, intText_inj h2, intText_inj h3, intText_inj h4⟩
    revert h0
    cases j.alg <;> cases j'.alg <;> decide
  · rintro ⟨h1, h2, h3, h4, h5⟩
    unfold outPath
    rw [h1, h2, h3, h4, h5]

theorem runs_untouched : ∀ (rs : List (Job × Res (List (PyFloat × PyFloat)))) (fs : Files) (p : List Char),
    (∀ j h, (j, .ok h) ∈ rs → outPath j ≠ p) → runs rs fs p = fs p
  | [], _, _, _ => rfl
  | (j, .error e) :: rs, fs, p, h => runs_untouched rs fs p fun j' h' hm => h j' h' (List.mem_cons_of_mem _ hm)
  | (j, .ok hi) :: rs, fs, p, h => by
      refine (runs_untouched rs _ p fun j' h' hm => h j' h' (List.mem_cons_of_mem _ hm)).trans ?_
      exact Function.update_of_ne (h j hi (by simp)).symm _ _

theorem runs_append (rs rs' : List (Job × Res (List (PyFloat × PyFloat)))) (fs : Files) :
    runs (rs ++ rs') fs = runs rs' (runs rs fs) := List.foldl_append

end TD
