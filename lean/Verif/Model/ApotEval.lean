/-
One evaluation of the objective with analytic pair potentials: `calc_forces` of `src/force_pair.c` 106-318 in a serial build with `APOT`
(lines 138-143 and what follows), and the preparation of the sampled table at the program start (`init_calc_table0`, called by
`src/potential_input.c` 193-228, and `src/potfit.c` 108-110).

The parts are modelled elsewhere: normalisation of the parameters `Tails.checkParams`, sampled table `Apot.updateCalcTable` and
`SplineInit.initCalc`, splines `SplineInit.refresh`, forces `Force.pairObjective`, arguments of the punishments `Force.PunishIndex`. Here they
are put together in the order of the program. Doubles are real numbers.
-/
import Verif.Model.PunishIndex
import Verif.Model.Tails
import Verif.Model.TablePots

namespace Verif.ApotEval

open Verif.Force Verif.SplineInit Verif.Props

noncomputable section

/-- What does not change between evaluations: compile-time options, weights, configurations, and what was read from the potential file. -/
structure Env where
  b : Build
  ew : ℝ
  sw : ℝ
  /-- `APOT_PUNISH` -/
  w : ℝ
  /-- `ntypes` -/
  n : ℕ
  confs : List (Conf ℝ)
  /-- `APOT_STEPS` -/
  steps : ℕ
  /-- `begin` and `end` of the columns -/
  beg : ℕ → ℝ
  fin : ℕ → ℝ
  pots : List (Apot.Pot ℝ)
  /-- `apot_table.names` -/
  names : List String
  /-- the functions as `apot_check_params` tells them apart, and `smooth_pot` -/
  fns : List (Tails.Fn × Bool)
  /-- `g_pot.global_idx` and the references -/
  gidx : ℕ
  globals : List (List (ℕ × ℕ))
  /-- `opt_pot.idx` with the bounds -/
  free : List (Free ℝ)

/-- What the evaluations share: `calc_pot.xcoord`, `calc_list`, `calc_pot.table`, `calc_pot.d2tab` and the residual vector. -/
structure Mem where
  xcoord : ℕ → ℝ
  list : ℕ → ℝ
  tab : ℕ → ℝ
  d : ℕ → ℝ
  v : PairVec ℝ

/-- A result: the parameter vector (the routine writes into it), the memory left, the value returned. -/
structure Res where
  xi : ℕ → ℝ
  mem : Mem
  value : ℝ

/-- `calc_pot`. -/
def Env.cols (e : Env) (xcoord : ℕ → ℝ) : Cols ℝ := calcCols e.steps e.beg e.fin xcoord

/-- `paircol`. -/
def Env.pc (e : Env) : ℕ := e.n * (e.n + 1) / 2

/-- Program start: first samples, then all samples again. `c0`, `list0`, `d`, `v` is what the memory contained. -/
def Env.start (e : Env) (vals : List (List ℝ)) (c0 : Calc ℝ) (list0 d : ℕ → ℝ) (v : PairVec ℝ) (xi : ℕ → ℝ) : Except Fault Mem :=
  match initCalc e.steps e.beg e.fin (e.pots.zip vals) 0 c0 with
  | .error f => .error f
  | .ok c =>
    match Apot.updateCalcTable e.steps c.xcoord e.pots e.gidx e.globals true xi list0 c.tab with
    | .error f => .error f
    | .ok s => .ok ⟨c.xcoord, s.list, s.tab, d, v⟩

/-- From the sampled table on, lines 163-330. -/
def Env.finish (e : Env) (s : Apot.Tabs ℝ) (m : Mem) (d : ℕ → ℝ) : Except Fault Res :=
  match pairObjective e.b (tablePots .analytic (e.cols m.xcoord) s.tab d) e.ew e.sw e.w (boundsAt e.free s.xi)
      (eoppAt (punishIndex (e.names.map String.toList)) (Apot.optFirst e.pots) s.xi)
      (univAt (punishIndex (e.names.map String.toList)) (Apot.optFirst e.pots) s.xi) e.confs m.v with
  | .error f => .error f
  | .ok (v, y) => .ok ⟨s.xi, ⟨m.xcoord, s.list, s.tab, d, v⟩, y⟩

/-- `calc_forces`. `none`: the loops of `apot_check_params` turn more than `fuel` times. The splines are never refused
(`C99_fresh`); that outcome is `outOfColumn`. -/
def Env.eval (e : Env) (fuel : ℕ) (xi : ℕ → ℝ) (m : Mem) : Option (Except Fault Res) :=
  match Tails.checkParams false fuel e.fns xi with
  | none => none
  | some q =>
    match Apot.updateCalcTable e.steps m.xcoord e.pots e.gidx e.globals false q m.list m.tab with
    | .error f => some (.error f)
    | .ok s =>
      match refresh .pair .analytic (e.cols m.xcoord) s.tab e.pc e.n m.d with
      | .error _ => some (.error .outOfColumn)
      | .ok d => some (e.finish s m d)

end

end Verif.ApotEval
