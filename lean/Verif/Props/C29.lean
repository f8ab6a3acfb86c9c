/-
C29  Simulated annealing returns the best point it has seen.
-/
import Verif.Model.Annealing
import Verif.Props.C30
import Mathlib.Tactic.Linarith

set_option linter.unusedSectionVars false

namespace Verif.Props

open Verif.Annealing

variable {K : Type*} [Field K] [LinearOrder K] [IsStrictOrderedRing K] {ι σ : Type*} [DecidableEq ι] {N : Nat}

/-- Moves of analytic potentials change only the chosen parameter. -/
def OneOnly (E : Env K ι σ N) : Prop :=
  E.apot = true → ∀ s h xi v x, x ≠ E.idx h → (E.move s h xi v).2.1 x = xi x

/-- Moves change free parameters only. -/
def FreeOnly (E : Env K ι σ N) : Prop :=
  ∀ s h xi v x, (∀ i, E.idx i ≠ x) → (E.move s h xi v).2.1 x = xi x

/-- Invariant of the annealing loop started at `x0`. -/
structure Best (E : Env K ι σ N) (x0 : ι → K) (s : Annealing.St K ι σ N) : Prop where
  cur : s.f = E.obj s.xi
  opt : s.fOpt = E.obj s.xiOpt
  le : s.fOpt ≤ s.f
  start : s.fOpt ≤ E.obj x0
  all : ∀ p ∈ s.seen, s.fOpt ≤ E.obj p
  isSeen : s.xiOpt = x0 ∨ s.xiOpt ∈ s.seen
  free : FreeOnly E → ∀ x, (∀ i, E.idx i ≠ x) → s.xi x = x0 x ∧ s.xiOpt x = x0 x

theorem step_best {E : Env K ι σ N} (ho : OneOnly E) {x0 : ι → K} (T : K) {s : Annealing.St K ι σ N} (h : Best E x0 s)
    (i : Fin N) : Best E x0 (E.step T s i) := by
  unfold Env.step
  simp only
  have hnew : (if E.apot = true then Function.update s.xi (E.idx i) ((E.move s.rng i s.xi s.v).2.1 (E.idx i))
      else (E.move s.rng i s.xi s.v).2.1) = (E.move s.rng i s.xi s.v).2.1 := by
    split
    · next ha =>
      funext x
      by_cases hx : x = E.idx i
      · rw [hx, Function.update_self]
      · rw [Function.update_of_ne hx, ho ha _ _ _ _ _ hx]
    · rfl
  rw [hnew]
  have hfree : FreeOnly E → ∀ x, (∀ i, E.idx i ≠ x) → (E.move s.rng i s.xi s.v).2.1 x = x0 x := fun hf x hx => by
    rw [hf _ _ _ _ _ hx]
    exact (h.free hf x hx).1
  split
  · next hle =>
    split
    · next hlt =>
      refine ⟨rfl, rfl, le_rfl, hlt.le.trans h.start, ?_, Or.inr (by simp), fun hf x hx => ⟨hfree hf x hx, hfree hf x hx⟩⟩
      intro p hp
      rcases List.mem_cons.1 hp with rfl | hp
      · exact le_rfl
      · exact hlt.le.trans (h.all p hp)
    · next hlt =>
      have hge := not_lt.1 hlt
      refine ⟨rfl, h.opt, hge, h.start, ?_, h.isSeen.imp id fun e => by simp [e],
        fun hf x hx => ⟨hfree hf x hx, (h.free hf x hx).2⟩⟩
      intro p hp
      rcases List.mem_cons.1 hp with rfl | hp
      · exact hge
      · exact h.all p hp
  · next hgt =>
    have hall : ∀ p ∈ (E.move s.rng i s.xi s.v).2.1 :: s.seen, s.fOpt ≤ E.obj p := by
      intro p hp
      rcases List.mem_cons.1 hp with rfl | hp
      · exact h.le.trans (not_le.1 hgt).le
      · exact h.all p hp
    split
    · exact ⟨rfl, h.opt, h.le.trans (not_le.1 hgt).le, h.start, hall, h.isSeen.imp id fun e => by simp [e],
        fun hf x hx => ⟨hfree hf x hx, (h.free hf x hx).2⟩⟩
    · exact ⟨h.cur, h.opt, h.le, h.start, hall, h.isSeen.imp id fun e => by simp [e], h.free⟩

theorem times_ind {α : Type*} (P : α → Prop) (f : α → α) (hf : ∀ a, P a → P (f a)) (n : Nat) (a : α) (h : P a) :
    P (times f n a) := by
  induction n generalizing a with
  | zero => exact h
  | succ n ih => exact ih _ (hf a h)

theorem sweeps_best {E : Env K ι σ N} (ho : OneOnly E) {x0 : ι → K} (T : K) {s : Annealing.St K ι σ N} (h : Best E x0 s) :
    Best E x0 (E.sweeps T s) := by
  unfold Env.sweeps
  refine times_ind _ _ (fun s hs => ?_) _ _ h
  generalize List.finRange N = l
  induction l generalizing s with
  | nil => exact hs
  | cons i l ih => exact ih _ (step_best ho T hs i)

theorem best_reset {E : Env K ι σ N} {x0 : ι → K} {s : Annealing.St K ι σ N} (h : Best E x0 s) :
    Best E x0 { s with xi := s.xiOpt, f := s.fOpt } :=
  ⟨h.opt, h.opt, le_rfl, h.start, h.all, h.isSeen, fun hf x hx => ⟨(h.free hf x hx).2, (h.free hf x hx).2⟩⟩

theorem temps_best {E : Env K ι σ N} (ho : OneOnly E) {x0 : ι → K} (T : K) (m : Nat) {s : Annealing.St K ι σ N}
    (h : Best E x0 s) : Best E x0 (E.temps T m s).1 := by
  induction m generalizing s with
  | zero => exact h
  | succ m ih =>
    unfold Env.temps
    simp only
    have h1 := sweeps_best ho T h
    have h2 : Best E x0 { adjust (E.sweeps T s) with looks := (adjust (E.sweeps T s)).looks + 1 } :=
      ⟨h1.cur, h1.opt, h1.le, h1.start, h1.all, h1.isSeen, h1.free⟩
    split
    · exact best_reset h2
    · exact ih h2

theorem again_best {E : Env K ι σ N} {x0 : ι → K} (old : List K) {s : Annealing.St K ι σ N} (h : Best E x0 s) :
    Best E x0 (again old s).1 := by
  unfold again
  split
  · exact h
  · split
    · exact best_reset h
    · exact h

theorem loop_best {E : Env K ι σ N} (ho : OneOnly E) {x0 : ι → K} (fuel : Nat) (T : K) (counter : Nat) (old : List K)
    {s : Annealing.St K ι σ N} (h : Best E x0 s) : Best E x0 (E.loop fuel T counter old s) := by
  induction fuel generalizing T counter old s with
  | zero => exact h
  | succ fuel ih =>
    unfold Env.loop
    simp only
    have h1 := again_best (List.drop 1 old ++ [(E.temps T (3 * N) s).1.f]) (temps_best ho T (3 * N) h)
    generalize (if (E.temps T (3 * N) s).2 = true then kMax + 1 else counter) + 1 = c
    split
    · exact ih _ _ _ h1
    · exact h1

/-- **C29.** Whatever the random numbers, the objective and the temperature are: the recorded optimum is the objective at the
returned parameters, which are the start parameters or one of the evaluated points, and neither the start value nor any point
evaluated in the annealing loop is better.  Parameters outside the free list keep their values if the trial moves keep them. -/
theorem C29_best (E : Env K ι σ N) (ho : OneOnly E) (pick : σ → σ × Fin N) (t : Temp K) (rng : σ) (xi : ι → K)
    (r : Res K ι) (hr : E.run pick t rng xi = some r) :
    r.fOpt = E.obj r.xi ∧ r.fOpt ≤ E.obj xi ∧ (∀ p ∈ r.seen, r.fOpt ≤ E.obj p) ∧ (r.xi = xi ∨ r.xi ∈ r.seen) ∧
      (FreeOnly E → ∀ x, (∀ i, E.idx i ≠ x) → r.xi x = xi x) := by
  unfold Env.run at hr
  simp only at hr
  split at hr
  · cases hr
  · next T tr ht =>
    split at hr
    · cases hr
      exact ⟨rfl, le_rfl, by simp, Or.inl rfl, fun _ _ _ => rfl⟩
    · cases hr
      have h0 : Best E xi ⟨xi, E.obj xi, xi, E.obj xi, tr.v, fun _ => 0, tr.rng, 0, []⟩ :=
        ⟨rfl, rfl, le_rfl, le_rfl, by simp, Or.inl rfl, fun _ _ _ => ⟨rfl, rfl⟩⟩
      have h := loop_best ho kMax T 0 (List.replicate nEps (E.obj xi)) h0
      exact ⟨h.opt, h.start, h.all, h.isSeen, fun hf x hx => (h.free hf x hx).2⟩

/-- Analytic potentials: the moves are of the required kind, so all parts of C29 hold. -/
theorem C29_apot (E : Env K ι σ N) (bounds : Fin N → K × K)
    (hm : E.move = fun s n xi v => apotMove E.draw E.idx bounds s n xi v) : OneOnly E ∧ FreeOnly E := by
  constructor
  · intro _ s h xi v x hx
    rw [hm]
    exact C30_apot E.draw E.idx bounds s h xi v x hx
  · intro s h xi v x hx
    rw [hm]
    exact C30_apot E.draw E.idx bounds s h xi v x (hx h).symm

/-- One free parameter with objective `x²`; the random numbers are 0.2, 0.7, 0.2, ... -/
def annealEnv : Env ℚ (Fin 2) Nat 1 where
  obj := fun x => x 0 * x 0
  idx := fun _ => 0
  move := fun s n xi v => apotMove (fun s : Nat => (s + 1, if s % 2 = 0 then 1 / 5 else (7 / 10 : ℚ))) (fun _ => 0)
    (fun _ => (-1, 1)) s n xi v
  apot := true
  draw := fun s => (s + 1, if s % 2 = 0 then 1 / 5 else 7 / 10)
  exp := fun _ => 0
  log := fun x => x
  flag := fun n => decide (1 ≤ n)

example : (annealEnv.run (fun s => (s, 0)) (.given 1) 0 ![1 / 2, 7]).any
    (fun r => decide (r.fOpt < 1 / 5 ∧ r.xi 1 = 7 ∧ r.seen.length = 20)) = true := by decide +kernel

/-- An annealer which finds a better point only in the trial steps for the start temperature: the random state counts the
moves, the third one goes to zero, all others one up. -/
def trialEnv : Env ℚ (Fin 1) Nat 1 where
  obj := fun x => x 0
  idx := fun _ => 0
  move := fun s _ xi v => (s + 1, (fun _ => if s = 3 then 0 else xi 0 + 1), v)
  apot := true
  draw := fun s => (s, 1)
  exp := fun _ => 0
  log := fun x => x
  flag := fun n => decide (1 ≤ n)

/-- **C29, trial steps: violated.** The points evaluated to find the start temperature are not considered: the best point seen
is among them and is lost. -/
theorem C29_trials_violated : ∃ r, trialEnv.run (fun s => (s, 0)) .auto 0 (fun _ => 5) = some r ∧
    ∃ p ∈ r.trials, trialEnv.obj p < r.fOpt := by
  have h : (trialEnv.run (fun s => (s, 0)) .auto 0 (fun _ => 5)).any
      (fun r => r.trials.any fun p => decide (trialEnv.obj p < r.fOpt)) = true := by decide +kernel
  cases hr : trialEnv.run (fun s => (s, 0)) .auto 0 (fun _ => 5) with
  | none => rw [hr] at h; cases h
  | some r =>
    rw [hr] at h
    simp only [Option.any_some, List.any_eq_true, decide_eq_true_eq] at h
    exact ⟨r, rfl, h⟩

/-- Annealing of the table `oneColumn`, moves by `tabMove`; only the very first move has a bump. -/
def tabEnv : Env ℚ Nat Nat 2 where
  obj := fun x => if x 0 = 0 then 1 else 0
  idx := ![2, 3]
  move := fun s n xi v => (s + 1, (tabMove (idxMem (TableRead.idxList oneColumn) (TableRead.tableLen oneColumn)) 2
    (TableRead.layout oneColumn) (fun _ => (1 : ℚ)) (if s = 1 then 2 else 0) n xi).getD xi, v)
  apot := false
  draw := fun s => (s, 1)
  exp := fun _ => 0
  log := fun x => x
  flag := fun n => decide (1 ≤ n)

/-- **C29, fixed parameters: violated** for tabulated potentials, because of C30: entry 0, not in the free list, is changed. -/
theorem C29_tab_violated : ∃ r, tabEnv.run (fun s => (s, 0)) (.given 1) 0 (fun _ => 0) = some r ∧ r.xi 0 ≠ 0 := by
  have h : (tabEnv.run (fun s => (s, 0)) (.given 1) 0 (fun _ => 0)).any (fun r => decide (r.xi 0 ≠ 0)) = true := by
    decide +kernel
  cases hr : tabEnv.run (fun s => (s, 0)) (.given 1) 0 (fun _ => 0) with
  | none => rw [hr] at h; cases h
  | some r => rw [hr] at h; exact ⟨r, rfl, by simpa using h⟩

end Verif.Props
