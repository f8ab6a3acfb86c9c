/-
C33  Differential evolution: the recorded best cost never increases, and the final parameters are those of the best individual.
-/
import Verif.Props.C31

set_option linter.unusedSectionVars false

namespace Verif.Props

open Verif.DiffEvo

variable {K : Type*} [Field K] [LinearOrder K] [IsStrictOrderedRing K] {σ α : Type*} {d N : Nat}

/-- What is recorded: never worse than at the beginning, not worse than any trial vector since. -/
structure Rec (E : Env K σ d N) (s s' : St K σ d) : Prop where
  le : s'.minCost ≤ s.minCost
  best : Evaluated E s.minCost s.best → Evaluated E s'.minCost s'.best
  tried : (∀ x ∈ s.tried, s.minCost ≤ E.obj x) → ∀ x ∈ s'.tried, s'.minCost ≤ E.obj x
  grow : ∀ x ∈ s.tried, x ∈ s'.tried
  src : (s'.best = s.best ∧ s'.minCost = s.minCost) ∨ ∃ y ∈ s'.tried, s'.best.x = E.put y ∧ s'.minCost = E.obj y

theorem Rec.refl (E : Env K σ d N) (s : St K σ d) : Rec E s s := ⟨le_rfl, id, id, fun _ h => h, Or.inl ⟨rfl, rfl⟩⟩

theorem Rec.trans {E : Env K σ d N} {s t u : St K σ d} (h : Rec E s t) (h' : Rec E t u) : Rec E s u := by
  refine ⟨h'.le.trans h.le, fun e => h'.best (h.best e), fun e => h'.tried (h.tried e), fun x hx => h'.grow x (h.grow x hx), ?_⟩
  rcases h'.src with ⟨e, e'⟩ | e
  · rcases h.src with ⟨e2, e2'⟩ | ⟨y, e2, e3, e4⟩
    · exact Or.inl ⟨e.trans e2, e'.trans e2'⟩
    · exact Or.inr ⟨y, h'.grow _ e2, by rw [e, e3], by rw [e', e4]⟩
  · exact Or.inr e

theorem one_rec [NeZero N] (E : Env K σ d N) (pop : List (Ind K d)) (i : Nat) (p : Ind K d) (c : K) (st : St K σ d) :
    Rec E st (E.one pop i p c st).2 := by
  unfold Env.one
  simp only
  generalize E.mkTrial pop i p st = t
  split
  · next h =>
    refine ⟨h.le, fun _ => ⟨t.2.x, rfl, rfl⟩, fun hx x hxm => ?_, fun x hx => List.mem_cons_of_mem _ hx,
      Or.inr ⟨t.2.x, by simp, rfl, rfl⟩⟩
    rcases List.mem_cons.1 hxm with rfl | hxm
    · exact le_rfl
    · exact h.le.trans (hx x hxm)
  · next h =>
    refine ⟨le_rfl, id, fun hx x hxm => ?_, fun x hx => List.mem_cons_of_mem _ hx, Or.inl ⟨rfl, rfl⟩⟩
    rcases List.mem_cons.1 hxm with rfl | hxm
    · exact not_lt.1 h
    · exact hx x hxm

theorem sweep_rec [NeZero N] (E : Env K σ d N) (pop : List (Ind K d)) (i : Nat) (ps : List (Ind K d)) (cs : List K)
    (st : St K σ d) : Rec E st (E.sweep pop i ps cs st).2 := by
  induction ps generalizing i cs st with
  | nil =>
    unfold Env.sweep
    exact Rec.refl E st
  | cons p ps ih =>
    cases cs with
    | nil =>
      unfold Env.sweep
      exact Rec.refl E st
    | cons c cs =>
      unfold Env.sweep
      exact (one_rec E pop i p c st).trans (ih _ _ _)

theorem generation_rec [NeZero N] (E : Env K σ d N) (g : Gen K σ d) : Rec E g.st (E.generation g).st := by
  have h := sweep_rec E g.rows.pop 0 g.rows.pop g.rows.cost { g.st with maxCost := 0 }
  unfold Env.generation
  simp only
  generalize E.sweep g.rows.pop 0 g.rows.pop g.rows.cost { g.st with maxCost := 0 } = r at h
  have h' : Rec E g.st r.2 := ⟨h.le, h.best, h.tried, h.grow, h.src⟩
  split
  · split
    · split
      · exact ⟨h'.le, h'.best, h'.tried, h'.grow, h'.src⟩
      · exact ⟨h'.le, h'.best, h'.tried, h'.grow, h'.src⟩
    · exact ⟨h'.le, h'.best, h'.tried, h'.grow, h'.src⟩
  · exact h'

theorem iterate_rec [NeZero N] (E : Env K σ d N) (g : Gen K σ d) (n : Nat) : Rec E g.st (E.generation^[n] g).st := by
  induction n with
  | zero => exact Rec.refl E g.st
  | succ n ih =>
    rw [Function.iterate_succ_apply']
    exact ih.trans (generation_rec E _)

theorem scan_spec (ps : List (Ind K d)) (cs : List K) (hl : cs.length = ps.length) (best : Ind K d) (lo hi : K) :
    let b := scan ps cs best lo hi
    b.2.1 ≤ lo ∧ (∀ c ∈ cs, b.2.1 ≤ c) ∧ ((b.2.1 = lo ∧ b.1 = best) ∨ (b.2.1, b.1) ∈ cs.zip ps) := by
  induction ps generalizing cs best lo hi with
  | nil =>
    cases cs with
    | nil => exact ⟨le_rfl, by simp, Or.inl ⟨rfl, rfl⟩⟩
    | cons => simp at hl
  | cons p ps ih =>
    cases cs with
    | nil => simp at hl
    | cons c cs =>
      unfold scan
      simp only
      obtain ⟨h1, h2, h3⟩ := ih cs (by simpa using hl) (if c < lo then p else best) (if c < lo then c else lo) (if c > hi then c else hi)
      generalize scan ps cs (if c < lo then p else best) (if c < lo then c else lo) (if c > hi then c else hi) = b at h1 h2 h3
      rw [List.zip_cons_cons]
      by_cases e : c < lo
      · simp only [if_pos e] at h1 h3
        refine ⟨h1.trans e.le, ?_, Or.inr ?_⟩
        · intro q hq
          rcases List.mem_cons.1 hq with rfl | hq
          · exact h1
          · exact h2 q hq
        · rcases h3 with ⟨h3, h4⟩ | h3
          · rw [h3, h4]
            simp
          · exact List.mem_cons_of_mem _ h3
      · simp only [if_neg e] at h1 h3
        refine ⟨h1, ?_, h3.imp id fun h => List.mem_cons_of_mem _ h⟩
        intro q hq
        rcases List.mem_cons.1 hq with rfl | hq
        · exact h1.trans (not_lt.1 e)
        · exact h2 q hq

theorem initRows_length (E : Env K σ d N) (xi : Fin d → K) (s : σ) (l : List (Ind K d)) : (E.initRows xi s l).2.length = l.length := by
  induction l generalizing s with
  | nil => rfl
  | cons p l ih =>
    unfold Env.initRows
    simp [ih]

/-- The first population has `NP` individuals, with their costs. -/
theorem start_costs (E : Env K σ d N) (rng : σ) (xi : Fin d → K) :
    (E.start rng xi).rows.pop.length = np d ∧ CostsOf E (E.start rng xi).rows := by
  unfold Env.start Env.initPop
  simp only
  obtain ⟨-, hc2⟩ := copies_spec E xi (np d) rng
  generalize E.copies xi (np d) rng = c at hc2
  have h2 := initRows_length E xi c.1 (c.2.drop 1)
  generalize E.initRows xi c.1 (c.2.drop 1) = t at h2
  have hlen : (c.2.take 1 ++ t.2).length = np d := by
    rw [List.length_append, h2, List.length_take, List.length_drop, hc2]
    have : 1 ≤ np d := by unfold np; omega
    omega
  generalize c.2.take 1 ++ t.2 = pop at hlen
  have hlen' : (pop.map E.after).length = np d := by rw [List.length_map, hlen]
  split
  · have hsv := C32_survivors E true ⟨pop.map fun p : Ind K d => E.obj p.x, pop.map E.after⟩ hlen' (costsOf_after E pop)
    exact ⟨hsv.1, hsv.2.1⟩
  · exact ⟨hlen', costsOf_after E pop⟩

/-- **C33, monotonicity.** From generation to generation the recorded best cost does not increase, whatever the random numbers
and the objective are. -/
theorem C33_monotone [NeZero N] (E : Env K σ d N) (rng : σ) (xi : Fin d → K) (n m : Nat) (h : n ≤ m) :
    (E.generation^[m] (E.start rng xi)).st.minCost ≤ (E.generation^[n] (E.start rng xi)).st.minCost := by
  obtain ⟨k, rfl⟩ := Nat.exists_eq_add_of_le h
  rw [Nat.add_comm, Function.iterate_add_apply]
  exact (iterate_rec E _ k).le

/-- **C33, final parameters.** If some individual of the first population costs less than `10e10`, then the parameters after a
finished run are those of the recorded best individual: they are what the evaluation of a vector `y` left, the recorded cost is the value of
this evaluation, `x` is in the first population or `y` is a trial vector, and none of these costs less.  Missing for the full claim: the
condition on the first population (without it the claim is false, `C33_start_violated`), and the individuals added in opposition steps, which
may be better (`C33_jump_violated`). -/
theorem C33_partial [NeZero N] (E : Env K σ d N) (xi : Fin d → K) (rng : σ) (fuel : Nat)
    (hc : ∃ c ∈ (E.start rng xi).rows.cost, c < 10 * 10 ^ 10)
    (x : Fin d → K) (g : Gen K σ d) (hr : E.run fuel rng xi = some (x, some g)) :
    x = g.st.best.x ∧ ∃ y, x = E.put y ∧ g.st.minCost = E.obj y ∧
      ((∃ a ∈ (E.start rng xi).rows.cost.zip (E.start rng xi).rows.pop, a.1 = E.obj y ∧ a.2.x = x) ∨ y ∈ g.st.tried) ∧
      (∀ c ∈ (E.start rng xi).rows.cost, E.obj y ≤ c) ∧ ∀ z ∈ g.st.tried, E.obj y ≤ E.obj z := by
  unfold Env.run at hr
  split at hr
  · cases hr
  · obtain ⟨g', hg, he⟩ := Option.map_eq_some_iff.1 hr
    cases he
    obtain ⟨n, rfl⟩ := loop_iterate E fuel _ _ hg
    have hrec := iterate_rec E (E.start rng xi) n
    have hok := start_costs E rng xi
    obtain ⟨c, hcm, hlt⟩ := hc
    have hsc := scan_spec (E.start rng xi).rows.pop (E.start rng xi).rows.cost hok.2.1 ⟨fun _ => 0, 0, 0⟩ (10 * 10 ^ 10) 0
    have hst : (E.start rng xi).st.minCost = (scan (E.start rng xi).rows.pop (E.start rng xi).rows.cost
        ⟨fun _ => 0, 0, 0⟩ (10 * 10 ^ 10) 0).2.1 ∧ (E.start rng xi).st.best = (scan (E.start rng xi).rows.pop
        (E.start rng xi).rows.cost ⟨fun _ => 0, 0, 0⟩ (10 * 10 ^ 10) 0).1 ∧ (E.start rng xi).st.tried = [] :=
      ⟨rfl, rfl, rfl⟩
    simp only at hsc
    rw [← hst.1, ← hst.2.1] at hsc
    obtain ⟨_, h2, h3⟩ := hsc
    have h4 : ((E.start rng xi).st.minCost, (E.start rng xi).st.best) ∈ (E.start rng xi).rows.cost.zip (E.start rng xi).rows.pop := by
      rcases h3 with ⟨h3, _⟩ | h3
      · exact absurd (h2 c hcm) (by rw [h3]; exact not_le.2 hlt)
      · exact h3
    have htr := hrec.tried (by rw [hst.2.2]; simp)
    refine ⟨rfl, ?_⟩
    rcases hrec.src with ⟨e1, e2⟩ | ⟨y, e1, e2, e3⟩
    · obtain ⟨y, y1, y2⟩ := hok.2.2 _ h4
      simp only at y1 y2
      refine ⟨y, by rw [e1, y2], by rw [e2, y1], Or.inl ⟨_, h4, y1, by rw [e1]⟩, fun c hc => ?_, fun z hz => ?_⟩
      · rw [← y1]
        exact h2 c hc
      · rw [← y1, ← e2]
        exact htr z hz
    · refine ⟨y, e2, e3, Or.inr e1, fun c hc => ?_, fun z hz => ?_⟩
      · rw [← e3]
        exact hrec.le.trans (h2 c hc)
      · rw [← e3]
        exact htr z hz

/-- **C33, values.** If evaluations do not change the value of the vector, the value of the final parameters is the recorded cost, and not
above that of any individual of the first population. -/
theorem C33_value_partial [NeZero N] (E : Env K σ d N) (hput : ∀ x, E.obj (E.put x) = E.obj x) (xi : Fin d → K) (rng : σ) (fuel : Nat)
    (hc : ∃ p ∈ (E.start rng xi).rows.pop, E.obj p.x < 10 * 10 ^ 10)
    (x : Fin d → K) (g : Gen K σ d) (hr : E.run fuel rng xi = some (x, some g)) :
    g.st.minCost = E.obj x ∧ (x ∈ (E.start rng xi).rows.pop.map Ind.x ∨ ∃ y ∈ g.st.tried, x = E.put y) ∧
      (∀ p ∈ (E.start rng xi).rows.pop, E.obj x ≤ E.obj p.x) ∧ ∀ z ∈ g.st.tried, E.obj x ≤ E.obj z := by
  have he := costs_eq hput (start_costs E rng xi).2
  obtain ⟨p, hp, hlt⟩ := hc
  obtain ⟨-, y, e1, e2, e3, e4, e5⟩ := C33_partial E xi rng fuel ⟨_, by rw [he]; exact List.mem_map.2 ⟨p, hp, rfl⟩, hlt⟩ x g hr
  have e6 : E.obj x = E.obj y := by rw [e1, hput]
  refine ⟨by rw [e6, e2], ?_, fun q hq => ?_, fun z hz => by rw [e6]; exact e5 z hz⟩
  · rcases e3 with ⟨a, ha, -, h⟩ | h
    · exact Or.inl (List.mem_map.2 ⟨a.2, (List.of_mem_zip ha).2, h⟩)
    · exact Or.inr ⟨y, h, e1⟩
  · rw [e6]
    exact e4 _ (by rw [he]; exact List.mem_map.2 ⟨q, hq, rfl⟩)

/-- A tabulated potential: the parameter 1 has the start value 2. -/
def tableEnv : Env ℚ Nat 2 1 where
  obj := fun x => |x 0 + x 1|
  idx := fun _ => 1
  lo := fun _ => 0
  hi := fun _ => 0
  apot := false
  draw := fun s => (s + 1, if s % 4 = 0 then 1 / 2 else if s % 4 = 1 then 3 / 5 else 2 / 5)
  norm := fun s => (s, 0)
  pick := fun s i => (s, (i + 7) % 60, (i + 2) % 60)
  pickJ := fun s => (s, 0)
  flag := fun _ => true
  thr := 1 / 100

example : Function.Injective tableEnv.idx ∧
    ((tableEnv.start 0 ![5, 2]).rows.pop.any fun p => decide (tableEnv.obj p.x < 10 * 10 ^ 10)) = true ∧
    (tableEnv.run 2 0 ![5, 2]).any (fun r => r.2.any fun g => decide (g.st.minCost < 1 ∧
      (tableEnv.start 0 ![5, 2]).st.minCost = 1 ∧ g.st.tried.length = 60)) = true := by
  refine ⟨fun a b _ => Subsingleton.elim a b, ?_, ?_⟩ <;> decide +kernel

/-- An objective of at least `10e10` with one free and one fixed parameter. -/
def flatEnv : Env ℚ Nat 2 1 where
  obj := fun x => 10 * 10 ^ 10 + x 1
  idx := fun _ => 1
  lo := fun _ => 1
  hi := fun _ => 3
  apot := true
  draw := fun s => (s, 0)
  norm := fun s => (s + 1, if s % 3 = 0 then 0 else if s % 3 = 1 then 1 else 2)
  pick := fun s _ => (s, 0, 1)
  pickJ := fun s => (s, 0)
  flag := fun _ => true
  thr := 100

/-- **C33, bad start: violated.** If no individual costs less than `10e10`, the run ends with the zero vector: not an individual
that was ever evaluated, outside of the bounds, and with the fixed parameter lost. -/
theorem C33_start_violated : ∃ x g, flatEnv.run 1 0 ![5, 2] = some (x, some g) ∧ x 0 = 0 ∧ x 1 = 0 ∧
    ∀ y ∈ g.st.seen, y 0 = 5 := by
  have h : (flatEnv.run 1 0 ![5, 2]).any (fun r => r.2.any fun g => decide (r.1 0 = 0 ∧ r.1 1 = 0 ∧
      ∀ y ∈ g.st.seen, y 0 = 5)) = true := by decide +kernel
  cases hr : flatEnv.run 1 0 ![5, 2] with
  | none => rw [hr] at h; cases h
  | some r =>
    obtain ⟨r, g⟩ := r
    rw [hr] at h
    cases g with
    | none => cases h
    | some g =>
      simp only [Option.any_some, decide_eq_true_eq] at h
      exact ⟨r, g, rfl, h⟩

/-- An objective which is small at a point only an opposition step reaches. -/
def jumpEnv : Env ℚ Nat 1 1 where
  obj := fun x => if x 0 = 47 then 0 else x 0
  idx := fun _ => 0
  lo := fun _ => 1
  hi := fun _ => 91
  apot := true
  draw := fun s => (s, 0)
  norm := fun s => (s + 1, s / 30)
  pick := fun s _ => (s, 0, 1)
  pickJ := fun s => (s, 0)
  flag := fun _ => true
  thr := 1 / 2

/-- **C33, opposition steps: violated.** The opposition step of the only generation brings an individual of cost 0 into the
population, but cost 1 is recorded as best and its parameters are returned. -/
theorem C33_jump_violated : ∃ x g, jumpEnv.run 1 0 (fun _ => 1) = some (x, some g) ∧ jumpEnv.obj x = 1 ∧
    ∃ p ∈ g.rows.pop, jumpEnv.obj p.x = 0 := by
  have h : (jumpEnv.run 1 0 (fun _ => 1)).any (fun r => r.2.any fun g => decide (jumpEnv.obj r.1 = 1) &&
      g.rows.pop.any fun p => decide (jumpEnv.obj p.x = 0)) = true := by decide +kernel
  cases hr : jumpEnv.run 1 0 (fun _ => 1) with
  | none => rw [hr] at h; cases h
  | some r =>
    obtain ⟨r, g⟩ := r
    rw [hr] at h
    cases g with
    | none => cases h
    | some g =>
      simp only [Option.any_some, Bool.and_eq_true, List.any_eq_true, decide_eq_true_eq] at h
      exact ⟨r, g, rfl, h.1, h.2⟩

end Verif.Props
