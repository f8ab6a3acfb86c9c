/-
C109  Fits with differential evolution: what happens to the start vector, and what the fit reports.
-/
import Verif.Props.C106
import Verif.Props.C33

set_option linter.unusedSectionVars false

namespace Verif.Props

open Verif.Force hiding Cell
open Verif.Neighbors Verif.Spec Verif.SplineInit Verif.Apot Verif.ApotEval

variable {K : Type*} [Field K] [LinearOrder K] [IsStrictOrderedRing K] {σ : Type*} {d N N' M : Nat}

/-! ### Without bounds -/

/-- Tabulated potentials: the start vector is evaluated first, and nothing is discarded before the evolution begins. -/
theorem start_cost_mem {E : DiffEvo.Env K σ d N} (ha : E.apot = false) (rng : σ) (xi : Fin d → K) :
    E.obj xi ∈ (E.start rng xi).rows.cost := by
  obtain ⟨q, hq, hx⟩ : ∃ q, (E.copies xi (DiffEvo.np d) rng).2.take 1 = [q] ∧ q.x = xi := by
    obtain ⟨h1, h2⟩ := copies_spec E xi (DiffEvo.np d) rng
    have h3 : 1 ≤ DiffEvo.np d := by unfold DiffEvo.np; omega
    cases hc : (E.copies xi (DiffEvo.np d) rng).2 with
    | nil => rw [hc] at h2; simp at h2; omega
    | cons q l => exact ⟨q, rfl, h1 q (by rw [hc]; simp)⟩
  unfold DiffEvo.Env.start DiffEvo.Env.initPop
  simp only [hq, ha, Bool.false_eq_true, if_false]
  simp [hx]

/-- **Not worse than the first population.** If the cost `c` below `10e10` is one of the first population, the final parameters are what
the evaluation of a vector of value at most `c` left. -/
theorem C109_first [NeZero N] (E : DiffEvo.Env K σ d N) (xi : Fin d → K) (rng : σ) (fuel : Nat) {c : K}
    (hm : c ∈ (E.start rng xi).rows.cost) (hc : c < 10 * 10 ^ 10) (x : Fin d → K) (g : DiffEvo.Gen K σ d)
    (hr : E.run fuel rng xi = some (x, some g)) : ∃ y, x = E.put y ∧ E.obj y ≤ c := by
  obtain ⟨-, y, h1, -, -, h2, -⟩ := C33_partial E xi rng fuel ⟨c, hm, hc⟩ x g hr
  exact ⟨y, h1, h2 c hm⟩

/-- **Tabulated potentials: not worse than the start.** For all random numbers, and whether or not the algorithm is used, if evaluations do
not change the value of a vector and the start vector has a value below `10e10` (which is not needed if the algorithm is not used). Missing for
the full claim: start vectors with larger values (`C109_large_violated`) and potentials with bounds (`C109_lost_violated`). -/
theorem C109_start_partial [NeZero N] (E : DiffEvo.Env K σ d N) (hput : ∀ x, E.obj (E.put x) = E.obj x) (xi : Fin d → K) (rng : σ) (fuel : Nat)
    (hs : E.obj xi ∈ (E.start rng xi).rows.cost ∨ E.apot = false) (hc : E.obj xi < 10 * 10 ^ 10) (x : Fin d → K)
    (o : Option (DiffEvo.Gen K σ d)) (hr : E.run fuel rng xi = some (x, o)) : E.obj x ≤ E.obj xi := by
  have hm : E.obj xi ∈ (E.start rng xi).rows.cost := hs.elim id fun h => start_cost_mem h rng xi
  cases o with
  | none =>
    unfold DiffEvo.Env.run at hr
    split at hr
    · cases hr
      exact le_rfl
    · obtain ⟨g', -, he⟩ := Option.map_eq_some_iff.1 hr
      cases he
  | some g =>
    obtain ⟨y, rfl, h2⟩ := C109_first E xi rng fuel hm hc x g hr
    rw [hput]
    exact h2

example : (tableEnv.run 2 0 ![5, 2]).any (fun r => r.2.isSome) = true ∧ tableEnv.obj ![5, 2] < 10 * 10 ^ 10 ∧ tableEnv.apot = false ∧
    ∀ x, tableEnv.obj (tableEnv.put x) = tableEnv.obj x := by
  refine ⟨by decide +kernel, by decide +kernel, rfl, fun _ => rfl⟩

/-- A tabulated potential with a value of at least `10e10` wherever the parameter 1 is positive. -/
def largeEnv : DiffEvo.Env ℚ Nat 2 1 where
  obj := fun x => 20 * 10 ^ 10 - x 0 + x 1
  idx := fun _ => 1
  lo := fun _ => 0
  hi := fun _ => 0
  apot := false
  draw := fun s => (s + 1, 1 / 2)
  norm := fun s => (s, 0)
  pick := fun s _ => (s, 0, 1)
  pickJ := fun s => (s, 0)
  flag := fun _ => true
  thr := 1

/-- **Large values: violated.** The start vector has the value `12 10^10`, no individual has less than `10e10`, and the run ends with the
zero vector, whose value is larger; the fixed parameter is lost, too. -/
theorem C109_large_violated : ∃ x g, largeEnv.run 1 0 ![8 * 10 ^ 10, 2] = some (x, some g) ∧ x 0 = 0 ∧
    largeEnv.obj ![8 * 10 ^ 10, 2] < largeEnv.obj x := by
  have h : (largeEnv.run 1 0 ![8 * 10 ^ 10, 2]).any (fun r => r.2.isSome && decide (r.1 0 = 0 ∧
      largeEnv.obj ![8 * 10 ^ 10, 2] < largeEnv.obj r.1)) = true := by decide +kernel
  cases hr : largeEnv.run 1 0 ![8 * 10 ^ 10, 2] with
  | none => rw [hr] at h; cases h
  | some r =>
    obtain ⟨r, g⟩ := r
    rw [hr] at h
    cases g with
    | none => cases h
    | some g =>
      simp only [Option.any_some, Option.isSome_some, Bool.true_and, decide_eq_true_eq] at h
      exact ⟨r, g, rfl, h⟩

/-- One free parameter in [0, 96] with itself as cost; the random individuals are 2, 4, .., 88. -/
def lostEnv : DiffEvo.Env ℚ Nat 1 1 where
  obj := fun x => x 0
  idx := fun _ => 0
  lo := fun _ => 0
  hi := fun _ => 96
  apot := true
  draw := fun s => (s, 1 / 2)
  norm := fun s => (s + 1, (s + 1) / 16)
  pick := fun s i => (s, (i + 1) % 45, (i + 2) % 45)
  pickJ := fun s => (s, 0)
  flag := fun _ => true
  thr := 1 / 10

/-- **Potentials with bounds: violated.** The start vector has value 0, the smallest possible. The sort which selects the first population
discards it (C32), and the run ends with a larger value. -/
theorem C109_lost_violated : (∀ x, lostEnv.obj (lostEnv.put x) = lostEnv.obj x) ∧ lostEnv.lo 0 ≤ 0 ∧ (0 : ℚ) ≤ lostEnv.hi 0 ∧
    ∃ x g, lostEnv.run 1 0 (fun _ => 0) = some (x, some g) ∧ lostEnv.obj (fun _ => 0) < lostEnv.obj x := by
  refine ⟨fun _ => rfl, by decide +kernel, by decide +kernel, ?_⟩
  have h : (lostEnv.run 1 0 (fun _ => 0)).any (fun r => r.2.isSome && decide (
      lostEnv.obj (fun _ => 0) < lostEnv.obj r.1)) = true := by decide +kernel
  cases hr : lostEnv.run 1 0 (fun _ => 0) with
  | none => rw [hr] at h; cases h
  | some r =>
    obtain ⟨r, g⟩ := r
    rw [hr] at h
    cases g with
    | none => cases h
    | some g =>
      simp only [Option.any_some, Option.isSome_some, Bool.true_and, decide_eq_true_eq] at h
      exact ⟨r, g, rfl, h⟩

/-! ### Whole fits -/

/-- The vector of the evolution as parameter vector: it overwrites the first `d` entries (508). -/
def over (start : ℕ → K) (x : Fin d → K) (k : ℕ) : K := if h : k < d then x ⟨k, h⟩ else start k

/-- The part of a parameter vector the evolution works with (297). -/
def cut (d : ℕ) (start : ℕ → K) (k : Fin d) : K := start k

theorem over_cut (start : ℕ → K) : over start (cut d start) = start := by
  funext k
  unfold over cut
  split <;> rfl

/-- **The fit, tabulated pair potentials.** Differential evolution and then the least-squares optimiser, for all random numbers, solutions
of the linear systems and break flags: if the value for the table at the beginning is below `10e10`, the splines of the table at the end describe
the crystals not worse, and the value reported is their objective. -/
theorem C109_table_fit [NeZero N] [NeZero N'] {fmt : Format} (hh : Handles .pair fmt) {t : Cols ℝ} {n : ℕ}
    (hl : Layout (isGeneral fmt) t (n * (n + 1) / 2)) (b : Build) (hb : b.apot = false) (ew sw w : ℝ) (before : ℕ → ℝ)
    (L : List (Cell × Conf ℝ)) (hL : ∀ x ∈ L, PairSample t n before x) {obj : (ℕ → ℝ) → ℝ}
    (hobj : IsPairObjective fmt t n b ew sw w (L.map Prod.snd) obj) (xi : ℕ → ℝ)
    (D : DiffEvo.Env ℝ σ d N') (ha : D.apot = false) (hD : ∀ x, D.obj x = obj (over xi x)) (hput : D.put = id)
    (E : Powell.Env ℝ ℕ N M) (hE : ∀ x, (E.obj x).1 = obj x) (hr : E.rescale = none)
    (rng : σ) (fuel' : ℕ) (x : Fin d → ℝ) (o : Option (DiffEvo.Gen ℝ σ d)) (h1 : D.run fuel' rng (cut d xi) = some (x, o))
    (fuel : ℕ) (s : Powell.St ℝ ℕ N M) (h2 : E.run fuel (over xi x) = .ok s) (P Q : Pots ℝ)
    (hP : SplinesOf fmt t xi (n * (n + 1) / 2) (fun _ => false) P) (hQ : SplinesOf fmt t s.xi (n * (n + 1) / 2) (fun _ => false) Q)
    (hc : pairCrystals b ew sw L P < 10 * 10 ^ 10) :
    s.f = pairCrystals b ew sw L Q ∧ pairCrystals b ew sw L Q ≤ pairCrystals b ew sw L P := by
  have e0 : D.obj (cut d xi) = pairCrystals b ew sw L P := by
    rw [hD, over_cut]
    exact pairObjective_crystals hh hl hb hL hobj hP
  obtain ⟨p1, -, p3⟩ := C28_monotone E fuel (over xi x) s (by intro f hf; rw [hr] at hf; cases hf) h2
  have e1 : (E.obj s.xi).1 = pairCrystals b ew sw L Q := by
    rw [hE]
    exact pairObjective_crystals hh hl hb hL hobj hQ
  have hle := C109_start_partial D (fun x => by rw [hput]; rfl) (cut d xi) rng fuel' (Or.inr ha) (by rw [e0]; exact hc) x o h1
  refine ⟨p1.trans e1, ?_⟩
  rw [← e1, ← e0]
  refine p3.trans ?_
  rw [hE, ← hD]
  exact hle

/-- The evolution works with the evaluations of analytic potentials: their values, and the parameters they leave. -/
structure Evolves (e : ApotEval.Env) (start : ℕ → ℝ) (obj : (ℕ → ℝ) → ℝ) (D : DiffEvo.Env ℝ σ d N) : Prop where
  obj : ∀ x, D.obj x = obj (over start x)
  put : ∀ m fuel x r, After e start m → e.eval fuel (over start x) m = some (.ok r) →
    ∀ k : Fin d, IsEntry e k → D.put x k = r.xi k

section
variable {e : ApotEval.Env} {L : List (Cell × Conf ℝ)} {before : ℕ → ℝ}

/-- **Changes in place.** Functions without a phase: the vector an evaluation leaves in the population has the same value. -/
theorem C109_inplace (hw : WellPosed e L before) (hf : ∀ f ∈ e.fns, f.1 ≠ .eopp ∧ f.1 ≠ .csw2) {start : ℕ → ℝ} {obj : (ℕ → ℝ) → ℝ}
    (hobj : IsApotObjective e start obj) {D : DiffEvo.Env ℝ σ d N} (hD : Evolves e start obj D) (hd : ∀ k, IsEntry e k → k < d)
    (hm : ∃ m, After e start m) (hall : ∀ m x, After e start m → ∃ fuel r, e.eval fuel x m = some (.ok r)) (x : Fin d → ℝ) :
    D.obj (D.put x) = D.obj x := by
  obtain ⟨m, hm⟩ := hm
  obtain ⟨k1, r1, h1⟩ := hall m (over start x) hm
  obtain ⟨k2, r2, h2⟩ := hall m (over start (D.put x)) hm
  obtain ⟨k3, r3, h3⟩ := hall m r1.xi hm
  rw [hD.obj, hD.obj, hobj _ _ _ _ hm h1, hobj _ _ _ _ hm h2, ← C106_inplace hw hf hm hm h1 h3]
  have he : ∀ k, IsEntry e k → over start (D.put x) k = r1.xi k := by
    intro k hk
    unfold over
    rw [dif_pos (hd k hk)]
    exact hD.put _ _ _ _ hm h1 _ hk
  exact C106_memory hw hf hm hm h2 h3 (fun g hg => he _ (Or.inr ⟨g, hg, rfl⟩)) fun k p n hk hn _ => he _ (Or.inl ⟨k, p, n, hk, hn, rfl⟩)

/-- **The fit, analytic pair potentials.** Differential evolution and then the least-squares optimiser, for all random numbers, solutions
of the linear systems and break flags: if the start vector is in the first population (after selection) and its value is below `10e10`, the
functions for the final parameters describe the crystals, penalties included, not worse than those for the parameters at the start, and the
value reported is their objective.  Missing for the full claim: start vectors which are discarded (`C109_lost_violated`). -/
theorem C109_apot_fit_partial [NeZero N] [NeZero N'] (hw : WellPosed e L before) (hf : ∀ f ∈ e.fns, f.1 ≠ .eopp ∧ f.1 ≠ .csw2)
    {start : ℕ → ℝ} {obj : (ℕ → ℝ) → ℝ} (hobj : IsApotObjective e start obj)
    (D : DiffEvo.Env ℝ σ d N') (hD : Evolves e start obj D) (hd : ∀ k, IsEntry e k → k < d)
    (hall : ∀ m x, After e start m → ∃ fuel r, e.eval fuel x m = some (.ok r))
    (E : Powell.Env ℝ ℕ N M) (hE : ∀ x, (E.obj x).1 = obj x) (hr : E.rescale = none)
    (rng : σ) (fuel' : ℕ) (hs : obj start ∈ (D.start rng (cut d start)).rows.cost) (x : Fin d → ℝ) (o : Option (DiffEvo.Gen ℝ σ d))
    (h1 : D.run fuel' rng (cut d start) = some (x, o)) (fuel : ℕ) (s : Powell.St ℝ ℕ N M) (h2 : E.run fuel (over start x) = .ok s)
    {m0 m1 : Mem} {k0 k1 : ℕ} {r0 r1 : Res} (hm0 : After e start m0) (e0 : e.eval k0 start m0 = some (.ok r0)) (hm1 : After e start m1)
    (e1 : e.eval k1 s.xi m1 = some (.ok r1)) (P Q : Pots ℝ) (hP : FunctionsOf e start start P) (hQ : FunctionsOf e start s.xi Q)
    (hc : pairCrystals e.b e.ew e.sw L P + penalties e r0.xi < 10 * 10 ^ 10) :
    s.f = pairCrystals e.b e.ew e.sw L Q + penalties e r1.xi ∧
      pairCrystals e.b e.ew e.sw L Q + penalties e r1.xi ≤ pairCrystals e.b e.ew e.sw L P + penalties e r0.xi := by
  obtain ⟨p1, -, p3⟩ := C28_monotone E fuel (over start x) s (by intro f hf; rw [hr] at hf; cases hf) h2
  obtain ⟨q0, hq0, -, -, -, v0⟩ := C106_value hw hm0 e0
  obtain ⟨q1, hq1, -, -, -, v1⟩ := C106_value hw hm1 e1
  rw [checkParams_plain hf] at hq0 hq1
  obtain rfl := Option.some.inj hq0
  obtain rfl := Option.some.inj hq1
  have f0 : obj start = pairCrystals e.b e.ew e.sw L P + penalties e r0.xi := (hobj _ _ _ _ hm0 e0).trans (v0 P hP)
  have f1 : obj s.xi = pairCrystals e.b e.ew e.sw L Q + penalties e r1.xi := (hobj _ _ _ _ hm1 e1).trans (v1 Q hQ)
  have f2 : D.obj (cut d start) = obj start := by rw [hD.obj, over_cut]
  have hle := C109_start_partial D (C109_inplace hw hf hobj hD hd ⟨m0, hm0⟩ hall) (cut d start) rng fuel' (Or.inl (by rw [f2]; exact hs))
    (by rw [f2, f0]; exact hc) x o h1
  rw [← f0, ← f1]
  refine ⟨by rw [p1, hE], ?_⟩
  rw [← hE]
  refine p3.trans ?_
  rw [hE, ← hD.obj, ← f2]
  exact hle

end

/-! ### Examples -/

/-- An evolution of a tabulated potential which ends in the first generation at the latest. -/
noncomputable def calmEnv (obj : (ℕ → ℝ) → ℝ) (xi : ℕ → ℝ) : DiffEvo.Env ℝ ℕ 5 1 where
  obj := fun x => obj (over xi x)
  idx := fun _ => 3
  lo := fun _ => 0
  hi := fun _ => 0
  apot := false
  draw := fun s => (s + 1, 1 / 3)
  norm := fun s => (s, 0)
  pick := fun s i => (s, (i + 1) % 105, (i + 2) % 105)
  pickJ := fun s => (s, 0)
  flag := fun _ => true
  thr := 1

theorem run_once [NeZero N] (D : DiffEvo.Env K σ d N) (hf : ∀ n, D.flag n = true) (ht : D.thr ≠ 0) (rng : σ) (xi : Fin d → K) :
    ∃ x g, D.run 1 rng xi = some (x, some g) := by
  unfold DiffEvo.Env.run
  rw [if_neg ht]
  unfold DiffEvo.Env.loop
  split
  · simp only
    rw [if_pos (hf _)]
    exact ⟨_, _, rfl⟩
  · exact ⟨_, _, rfl⟩

theorem error_scale (b : Build) (E : Cell → ℝ) (ew sw V : ℝ) (c : Cell) (f : Conf ℝ) (w : ℝ) :
    crystalError b E ew sw V c { f with weight := w } = w * crystalError b E ew sw V c { f with weight := 1 } := by
  unfold crystalError
  simp only
  split <;> split <;> ring

theorem error_small (b : Build) (E : Cell → ℝ) {ew sw : ℝ} (hew : 0 ≤ ew) (hsw : 0 ≤ sw) (c : Cell) (f : Conf ℝ) :
    ∃ w, 0 < w ∧ crystalError b E ew sw (cellVolume c.box.edge) c { f with weight := w } < 1 := by
  have h0 := crystalError_nonneg b E hew hsw c { f with weight := 1 } zero_le_one
  refine ⟨1 / (1 + crystalError b E ew sw (cellVolume c.box.edge) c { f with weight := 1 }), by positivity, ?_⟩
  rw [error_scale, one_div, inv_mul_eq_div, div_lt_one (by positivity)]
  linarith

/-- Hypotheses of `C109_table_fit`. -/
example (b : Build) (hb : b.apot = false) (xi : ℕ → ℝ) : ∃ f obj x g s P Q, 0 < f.weight ∧ PairSample halfCols 1 (fun _ => 0) (thin, f) ∧
    IsPairObjective .eqDist halfCols 1 b 1 1 1 [f] obj ∧ (calmEnv obj xi).run 1 0 (cut 5 xi) = some (x, some g) ∧
    (stuckPowell obj).run 1 (over xi x) = .ok s ∧ SplinesOf .eqDist halfCols xi (1 * (1 + 1) / 2) (fun _ => false) P ∧
    SplinesOf .eqDist halfCols s.xi (1 * (1 + 1) / 2) (fun _ => false) Q ∧ pairCrystals b 1 1 [(thin, f)] P < 10 * 10 ^ 10 := by
  obtain ⟨g, hg, hn, ht, ho⟩ := thin_sample
  obtain ⟨d, hd, -⟩ := C99_fresh (rt := .pair) (fmt := .eqDist) trivial (pc := 1 * (1 + 1) / 2) (nt := 1) (halfCols_layout _) xi fun _ => 0
  have hP := refreshed_splines (rt := .pair) (fmt := .eqDist) trivial (halfCols_layout _) hd
  generalize hPP : tablePots .eqDist halfCols xi d = P at hP
  obtain ⟨w, hw, hlt⟩ := error_small b (fun y => g.chem + latticePair P y) zero_le_one zero_le_one thin g
  have hf : PairSample halfCols 1 (fun _ => 0) (thin, { g with weight := w }) := by
    refine ⟨⟨?_⟩, hn, ht, ho⟩
    obtain ⟨edge, scale, h1, h2, h3, h4⟩ := hg.made
    exact ⟨edge, scale, h1, h2, h3, h4.start, h4.count, h4.typ, h4.lists⟩
  obtain ⟨obj, ho⟩ := C101_exists (fmt := .eqDist) (t := halfCols) (n := 1) trivial (halfCols_layout _) b hb 1 1 1 (fun _ => 0)
    [(thin, { g with weight := w })] (by intro x hx; obtain rfl := List.mem_singleton.1 hx; exact hf)
  obtain ⟨x, g', hx⟩ := run_once (calmEnv obj xi) (fun _ => rfl) one_ne_zero 0 (cut 5 xi)
  obtain ⟨s, hs, -⟩ := stuckPowell_run obj (over xi x)
  obtain ⟨d', hd', -⟩ := C99_fresh (rt := .pair) (fmt := .eqDist) trivial (pc := 1 * (1 + 1) / 2) (nt := 1) (halfCols_layout _) s.xi fun _ => 0
  refine ⟨_, obj, x, g', s, P, _, hw, hf, ho, hx, hs, hP, refreshed_splines (rt := .pair) (fmt := .eqDist) trivial (halfCols_layout _) hd', ?_⟩
  simp only [pairCrystals, List.map_cons, List.map_nil, List.sum_cons, List.sum_nil, add_zero]
  refine hlt.trans (by norm_num)

/-- An evolution of the analytic potential of the chain: the global parameter is free, with equal bounds. -/
noncomputable def narrowEnv (obj : (ℕ → ℝ) → ℝ) (xi : ℕ → ℝ) : DiffEvo.Env ℝ ℕ 11 1 where
  obj := fun x => obj (over xi x)
  put := fun x k => if k = 2 then x 10 else x k
  idx := fun _ => 10
  lo := fun _ => 1
  hi := fun _ => 1
  apot := true
  draw := fun s => (s + 1, 1 / 3)
  norm := fun s => (s + 1, 2)
  pick := fun s i => (s, (i + 1) % 195, (i + 2) % 195)
  pickJ := fun s => (s, 0)
  flag := fun _ => true
  thr := 1

theorem chain_entries (b : Build) (f : Conf ℝ) (nm : String) (fn : Tails.Fn) (k : ℕ) (h : IsEntry (chainEnv b f nm fn false) k) :
    k = 10 ∨ ∃ n < 6, k = 2 + n := by
  rcases h with ⟨m, p, n, h1, h2, h3⟩ | ⟨g, h1, h2⟩
  · cases m with
    | zero =>
      cases h1
      exact Or.inr ⟨n, h2, h3⟩
    | succ m => cases h1
  · obtain rfl : g = 0 := by simpa [chainEnv] using h1
    exact Or.inl h2

theorem chain_evolves {b : Build} {f : Conf ℝ} {v : ℝ → (ℕ → ℝ) → ℝ}
    (hw : WellPosed (chainEnv b f "meopp" (.other 6 v) false) [(thin, f)] (fun _ => 0))
    (hp : ∀ g ∈ (chainEnv b f "meopp" (.other 6 v) false).fns, g.1 ≠ .eopp ∧ g.1 ≠ .csw2) (start : ℕ → ℝ) (obj : (ℕ → ℝ) → ℝ) :
    Evolves (chainEnv b f "meopp" (.other 6 v) false) start obj (narrowEnv obj start) := by
  refine ⟨fun x => rfl, fun m fuel x r hm hr k hk => ?_⟩
  obtain ⟨q, hq, a1, a2, -, -⟩ := C106_value hw hm hr
  rw [checkParams_plain hp] at hq
  obtain rfl := Option.some.inj hq
  rcases chain_entries _ _ _ _ _ hk with h | ⟨n, hn, h⟩
  · have e := a2 0
    rw [show (chainEnv b f "meopp" (.other 6 v) false).gidx + 0 = 10 from rfl] at e
    obtain rfl : k = 10 := Fin.ext h
    exact e.symm
  · have e := a1 0 _ n rfl hn
    rw [show optFirst (chainEnv b f "meopp" (.other 6 v) false).pots 0 = 2 from rfl, ← h] at e
    rcases e with ⟨g, l, g1, g2, g3⟩ | ⟨g1, g3⟩
    · obtain rfl : g = 0 := by
        have := (List.getElem?_eq_some_iff.1 g1).1
        simpa [chainEnv] using this
      cases g1
      obtain rfl : n = 0 := by simpa using g2
      obtain rfl : k = 2 := Fin.ext h
      rw [g3]
      rfl
    · have hne : k ≠ 2 := by
        rintro rfl
        obtain rfl : n = 0 := by simpa using h.symm
        exact g1 _ (List.mem_singleton.2 rfl) (by simp)
      rw [g3]
      show (if k = 2 then x 10 else x k) = over start x (2 + n)
      rw [if_neg hne, ← h]
      unfold over
      rw [dif_pos k.isLt]

/-- Hypotheses of `C109_inplace` and `C109_apot_fit_partial`. -/
example (b : Build) (hb : b.apot = true) : ∃ f obj x g s m r0 r1 P Q, 0 < f.weight ∧
    WellPosed (chainEnv b f "meopp" (.other 6 fun _ _ => 0) false) [(thin, f)] (fun _ => 0) ∧
    IsApotObjective (chainEnv b f "meopp" (.other 6 fun _ _ => 0) false) (fun _ => 1) obj ∧
    Evolves (chainEnv b f "meopp" (.other 6 fun _ _ => 0) false) (fun _ => 1) obj (narrowEnv obj fun _ => 1) ∧
    (∀ k, IsEntry (chainEnv b f "meopp" (.other 6 fun _ _ => 0) false) k → k < 11) ∧
    (∀ m x, ∃ fuel r, (chainEnv b f "meopp" (.other 6 fun _ _ => 0) false).eval fuel x m = some (.ok r)) ∧
    (obj fun _ => 1) ∈ ((narrowEnv obj fun _ => 1).start 0 (cut 11 fun _ => 1)).rows.cost ∧
    (narrowEnv obj fun _ => 1).run 1 0 (cut 11 fun _ => 1) = some (x, some g) ∧ (stuckPowell obj).run 1 (over (fun _ => 1) x) = .ok s ∧
    After (chainEnv b f "meopp" (.other 6 fun _ _ => 0) false) (fun _ => 1) m ∧
    (chainEnv b f "meopp" (.other 6 fun _ _ => 0) false).eval 0 (fun _ => 1) m = some (.ok r0) ∧
    (chainEnv b f "meopp" (.other 6 fun _ _ => 0) false).eval 0 s.xi m = some (.ok r1) ∧
    FunctionsOf (chainEnv b f "meopp" (.other 6 fun _ _ => 0) false) (fun _ => 1) (fun _ => 1) P ∧
    FunctionsOf (chainEnv b f "meopp" (.other 6 fun _ _ => 0) false) (fun _ => 1) s.xi Q ∧
    pairCrystals b 1 1 [(thin, f)] P + penalties (chainEnv b f "meopp" (.other 6 fun _ _ => 0) false) r0.xi < 10 * 10 ^ 10 := by
  have hnames : withName "universal" ["meopp"] = [] := by decide +kernel
  have hnames' : withName "eopp" ["meopp"] = [] := by decide +kernel
  obtain ⟨f', -, hw', -, hs', he'⟩ := chain_eval b hb false fun _ _ => 0
  obtain ⟨P, hP⟩ : ∃ P, FunctionsOf (chainEnv b f' "meopp" (.other 6 fun _ _ => 0) false) (fun _ => 1) (fun _ => 1) P := by
    obtain ⟨m, hm⟩ := hs' fun _ => 1
    obtain ⟨r, hr⟩ := he' m fun _ => 1
    obtain ⟨q, hq, -, -, h, -⟩ := C106_value hw' hm hr
    rw [show q = fun _ => 1 from (Option.some.inj hq).symm] at h
    exact h
  obtain ⟨w, hpos, hlt⟩ := error_small b (fun y => f'.chem + latticePair P y) zero_le_one zero_le_one thin f'
  have hf : PairSample halfCols 1 (fun _ => 0) (thin, { f' with weight := w }) := by
    obtain ⟨hg, hn, ht, ho⟩ := hw'.crystals (thin, f') (by simp)
    refine ⟨⟨?_⟩, hn, ht, ho⟩
    obtain ⟨edge, scale, h1, h2, h3, h4⟩ := hg.made
    exact ⟨edge, scale, h1, h2, h3, h4.start, h4.count, h4.typ, h4.lists⟩
  have hw : WellPosed (chainEnv b { f' with weight := w } "meopp" (.other 6 fun _ _ => 0) false) [(thin, { f' with weight := w })] (fun _ => 0) := by
    refine ⟨⟨hb, hw'.steps, hw'.ranges, hw'.cutoff, hw'.globals, hw'.bounds, hw'.free, hw'.eopp, hw'.universal⟩, rfl, hw'.number, ?_⟩
    intro x hx
    obtain rfl := List.mem_singleton.1 hx
    exact hf
  generalize hff : ({ f' with weight := w } : Conf ℝ) = f at hw hf hlt
  have hfw : 0 < f.weight := by rw [← hff]; exact hpos
  have hfc : f.chem = f'.chem := by rw [← hff]
  have hp : ∀ g ∈ (chainEnv b f "meopp" (.other 6 fun _ _ => 0) false).fns, g.1 ≠ .eopp ∧ g.1 ≠ .csw2 := by
    intro g hg
    obtain rfl := List.mem_singleton.1 hg
    constructor <;> intro h <;> cases h
  have he : ∀ m x, ∃ r, (chainEnv b f "meopp" (.other 6 fun _ _ => 0) false).eval 0 x m = some (.ok r) := by
    intro m x
    obtain ⟨s, hs⟩ := chain_update false m.xcoord false x m.list m.tab
    refine (C106_defined hw (q := x) rfl hs).2 ?_
    intro p hp
    rw [show (chainEnv b f "meopp" (.other 6 fun _ _ => 0) false).names = ["meopp"] from rfl, hnames] at hp
    cases hp
  obtain ⟨m, hm⟩ := chain_start b f "meopp" (.other 6 fun _ _ => 0) false fun _ => 1
  obtain ⟨obj, ho⟩ := C106_exists hw hp fun _ => 1
  have hev := chain_evolves hw hp (fun _ => 1) obj
  have hd : ∀ k, IsEntry (chainEnv b f "meopp" (.other 6 fun _ _ => 0) false) k → k < 11 := by
    intro k hk
    rcases chain_entries _ _ _ _ _ hk with h | ⟨n, hn, h⟩ <;> omega
  have hin := C109_inplace hw hp ho hev hd ⟨m, hm⟩ fun m x _ => ⟨0, he m x⟩
  have hmem : (obj fun _ => 1) ∈ ((narrowEnv obj fun _ => 1).start 0 (cut 11 fun _ => 1)).rows.cost := by
    obtain ⟨hlen, hcost⟩ := start_costs (narrowEnv obj fun _ => 1) 0 (cut 11 fun _ => 1)
    have hb31 := C31_partial (narrowEnv obj fun _ => 1) (fun a b _ => Subsingleton.elim a b) (cut 11 fun _ => 1)
      (fun _ j => ⟨le_rfl, le_rfl⟩) (fun _ x j h1 h2 => ⟨h1, h2⟩) (fun _ j => by
        constructor
        · show (1 : ℝ) ≤ _
          norm_num
        · show _ ≤ (1 : ℝ)
          norm_num) 0 0
    obtain ⟨p, hpm⟩ := List.exists_mem_of_length_pos (l := ((narrowEnv obj fun _ => 1).start 0 (cut 11 fun _ => 1)).rows.pop)
      (by rw [hlen]; decide)
    rw [costs_eq hin hcost]
    refine List.mem_map.2 ⟨p, hpm, ?_⟩
    obtain ⟨b1, b2⟩ := hb31 p.x (Or.inr (List.mem_map.2 ⟨p, hpm, rfl⟩))
    have hx : ∀ k : Fin 11, k ≠ 2 → p.x k = 1 := by
      intro k hk
      by_cases h10 : k = 10
      · have := b1 rfl 0
        subst h10
        exact le_antisymm this.2 this.1
      · exact b2 k (fun j h => h10 h.symm) fun y => if_neg hk
    obtain ⟨r, hr⟩ := he m (over (fun _ => 1) p.x)
    obtain ⟨r', hr'⟩ := he m fun _ => 1
    rw [hev.obj, ho _ _ _ _ hm hr, ho _ _ _ _ hm hr']
    refine C106_memory hw hp hm hm hr hr' ?_ ?_
    · intro g hg
      obtain rfl : g = 0 := by simpa [chainEnv] using hg
      show over (fun _ => 1) p.x 10 = 1
      unfold over
      rw [dif_pos (by norm_num)]
      exact hx 10 (by decide)
    · intro k q n hk hn hno
      cases k with
      | succ k => cases hk
      | zero =>
        cases hk
        have hn' : n < 6 := hn
        show over (fun _ => 1) p.x (2 + n) = 1
        unfold over
        rw [dif_pos (by omega)]
        refine hx _ ?_
        intro h
        have h2 : 2 + n = 2 := by simpa using congrArg Fin.val h
        obtain rfl : n = 0 := by omega
        exact hno _ (List.mem_singleton.2 rfl) (by simp)
  obtain ⟨x, g, hx⟩ := run_once (narrowEnv obj fun _ => 1) (fun _ => rfl) one_ne_zero 0 (cut 11 fun _ => 1)
  obtain ⟨s, hs, -⟩ := stuckPowell_run obj (over (fun _ => 1) x)
  obtain ⟨r0, h0⟩ := he m fun _ => 1
  obtain ⟨r1, h1⟩ := he m s.xi
  obtain ⟨q, hq, a1, -, -, -⟩ := C106_value hw hm h0
  obtain ⟨q', hq', -, -, ⟨Q, hQ⟩, -⟩ := C106_value hw hm h1
  rw [checkParams_plain hp] at hq hq'
  obtain rfl := Option.some.inj hq
  obtain rfl := Option.some.inj hq'
  refine ⟨f, obj, x, g, s, m, r0, r1, P, Q, hfw, hw, ho, hev, hd, fun m x => ⟨0, he m x⟩, hmem, hx, hs, hm, h0, h1, hP, hQ, ?_⟩
  have hpen : penalties (chainEnv b f "meopp" (.other 6 fun _ _ => 0) false) r0.xi = 0 := by
    have h7 : r0.xi 7 = 1 := by
      rcases a1 0 _ 5 rfl (by show 5 < 6; norm_num) with ⟨g, l, g1, g2, -⟩ | ⟨-, g⟩
      · obtain rfl := List.mem_singleton.1 (List.mem_of_getElem? g1)
        simp at g2
      · exact g
    unfold penalties
    rw [show (chainEnv b f "meopp" (.other 6 fun _ _ => 0) false).names = ["meopp"] from rfl, hnames, hnames']
    simp [chainEnv, h7, outside]
  rw [hpen, add_zero]
  simp only [pairCrystals, List.map_cons, List.map_nil, List.sum_cons, List.sum_nil, add_zero, hfc]
  exact hlt.trans (by norm_num)

end Verif.Props
