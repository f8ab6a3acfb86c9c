/-
One evaluation of the objective with analytic EAM potentials: `calc_forces` of `src/force_eam.c` 113-627 in a serial build with `APOT`,
without `TBEAM` and `RESCALE` (lines 145-150 and what follows), in the same way as `Model/ApotEval.lean` for pair potentials. New are
`apot_gradient` (`src/functions.c` 339-349) and the analytic embedding functions outside the sampled range (`src/force_eam.c` 364-371).
-/
import Verif.Model.ApotEval

namespace Verif.ApotEval

open Verif.Force Verif.SplineInit Verif.Props

noncomputable section

/-- `apot_gradient`, `src/functions.c` 339-349, for the function with its parameters. -/
def apotGradient (f : ℝ → Except Fault ℝ) (r : ℝ) : Except Fault ℝ :=
  let h : ℝ := 1 / 10000
  match f (r + h) with
  | .error e => .error e
  | .ok a =>
    match f (r - h) with
    | .error e => .error e
    | .ok b => .ok ((a - b) / (2 * h))

/-- A number in place of an undefined one. -/
def orElse (x : Except Fault ℝ) (u : ℝ) : ℝ :=
  match x with
  | .ok v => v
  | .error _ => u

/-- Value and slope of the analytic functions for the parameter vector `xi`, `src/force_eam.c` 366-369. Where the function is not defined
the results are arbitrary numbers (`u`). -/
def analytic (pots : List (Apot.Pot ℝ)) (u : ℝ → ℝ × ℝ) (xi : ℕ → ℝ) (col : ℕ) (rho : ℝ) : ℝ × ℝ :=
  match pots[col]? with
  | none => u rho
  | some p =>
    let f := fun r => p.fvalue r (Apot.params xi (Apot.optFirst pots col) p.nPar)
    (orElse (f rho) (u rho).1, orElse (apotGradient f rho) (u rho).2)

/-- In addition: number of atoms, `force_0` of the constraints, and the arbitrary numbers. -/
structure EamEnv extends Env where
  natoms : ℕ
  dummy0 : ℕ → ℝ
  undef : ℝ → ℝ × ℝ

/-- The memory shared. -/
structure EamMem where
  xcoord : ℕ → ℝ
  list : ℕ → ℝ
  tab : ℕ → ℝ
  d : ℕ → ℝ
  v : EamVec ℝ

/-- A result. -/
structure EamRes where
  xi : ℕ → ℝ
  mem : EamMem
  value : ℝ

/-- Program start. -/
def EamEnv.begin (e : EamEnv) (vals : List (List ℝ)) (c0 : Calc ℝ) (list0 d : ℕ → ℝ) (v : EamVec ℝ) (xi : ℕ → ℝ) : Except Fault EamMem :=
  match initCalc e.steps e.beg e.fin (e.pots.zip vals) 0 c0 with
  | .error f => .error f
  | .ok c =>
    match Apot.updateCalcTable e.steps c.xcoord e.pots e.gidx e.globals true xi list0 c.tab with
    | .error f => .error f
    | .ok s => .ok ⟨c.xcoord, s.list, s.tab, d, v⟩

/-- The functions the routine works with. -/
def EamEnv.functions (e : EamEnv) (xcoord : ℕ → ℝ) (s : Apot.Tabs ℝ) (d : ℕ → ℝ) : EamPots ℝ :=
  tableEam .analytic (e.cols xcoord) e.n (analytic e.pots e.undef s.xi) s.tab d

/-- From the sampled table on, lines 186-627. -/
def EamEnv.close (e : EamEnv) (s : Apot.Tabs ℝ) (m : EamMem) (d : ℕ → ℝ) : Except Fault EamRes :=
  match eamObjective e.b (e.functions m.xcoord s d) e.ew e.sw e.w (boundsAt e.free s.xi)
      (eoppAt (punishIndex (e.names.map String.toList)) (Apot.optFirst e.pots) s.xi)
      (univAt (punishIndex (e.names.map String.toList)) (Apot.optFirst e.pots) s.xi) e.dummy0 e.natoms e.confs m.v with
  | .error f => .error f
  | .ok (v, y) => .ok ⟨s.xi, ⟨m.xcoord, s.list, s.tab, d, v⟩, y⟩

/-- `calc_forces`. -/
def EamEnv.run (e : EamEnv) (fuel : ℕ) (xi : ℕ → ℝ) (m : EamMem) : Option (Except Fault EamRes) :=
  match Tails.checkParams false fuel e.fns xi with
  | none => none
  | some q =>
    match Apot.updateCalcTable e.steps m.xcoord e.pots e.gidx e.globals false q m.list m.tab with
    | .error f => some (.error f)
    | .ok s =>
      match refresh .eam .analytic (e.cols m.xcoord) s.tab e.pc e.n m.d with
      | .error _ => some (.error .outOfColumn)
      | .ok d => some (e.close s m d)

end

end Verif.ApotEval
