/-
Initialisation of the splines at the start of every force evaluation: `update_splines`
(`src/force_common.c` 225-252), its callers, the loops of the force routines that do not use it, the
choice of the look-up routines (`init_force_common`, `src/force_common.c` 46-70) and the layout of
the sampled table of analytic potentials (`init_calc_table0`, `src/potential_input_f0.c` 943-992).

Simplifications: `double` is an ordered field `K`; arrays are functions of the index; reading in
front of the table is a fault.  The order in which the entries of one column of `d2tab` are written
is left out (each is written once with its final value, C04 and C08).  `spline_ed`/`spline_ne` are the
functions of `Model/Splines.lean`.
-/
import Verif.Model.Splines
import Verif.Model.Apot
import Mathlib.Logic.Function.Basic

namespace Verif.SplineInit

open Verif.Splines

/-- `g_pot.format_type`, `src/types.h`. -/
inductive Format
  | unknown
  | analytic
  | eqDist
  | nonEqDist
  | kim
deriving DecidableEq, Repr

/-- The force routines that work with splines, by file: `force_pair.c`, `force_eam.c` (with and
without `TBEAM`), `force_adp.c`, `force_meam.c`, `force_ang.c`, `force_ang_elstat.c`,
`force_elstat.c`, `force_eam_elstat.c`. -/
inductive Routine
  | pair
  | eam
  | tbeam
  | adp
  | meam
  | ang
  | angElstat
  | elstat
  | eamElstat
deriving DecidableEq, Repr

/-- How the program ends instead: `error(1, ...)` for an unknown format or for the KIM format, or one
of the faults of the spline routines. -/
inductive Stop
  | unknownFormat
  | kimFormat
  | fault (f : Fault)
deriving DecidableEq, Repr

/-- `calc_pot` without the arrays `table` and `d2tab`. -/
structure Cols (K : Type*) where
  first : ℕ → ℕ
  last : ℕ → ℕ
  beg : ℕ → K
  fin : ℕ → K
  step : ℕ → K
  invstep : ℕ → K
  xcoord : ℕ → K

variable {K : Type*} [Field K] [LinearOrder K]

/-- A fault of a spline routine ends the evaluation. -/
def lift {α : Type*} : Except Fault α → Except Stop α
  | .ok a => .ok a
  | .error f => .error (.fault f)

/-- Column `col` as the look-up routines see it. -/
def Cols.col (t : Cols K) (d2 : ℕ → K) (col : ℕ) : Column K where
  beg := t.beg col
  fin := t.fin col
  step := t.step col
  invstep := t.invstep col
  first := t.first col
  last := t.last col
  xcoord := t.xcoord
  d2tab := d2

/-- The entries `d2tab[first], …, d2tab[first + n - 1]` get the values `f 0, …, f (n-1)`. -/
def store (first : ℕ) (f : ℕ → Except Fault K) : ℕ → (ℕ → K) → Except Fault (ℕ → K)
  | 0, d => .ok d
  | n + 1, d =>
    match store first f n d with
    | .error e => .error e
    | .ok d =>
      match f n with
      | .error e => .error e
      | .ok v => .ok (Function.update d (first + n) v)

/-- `*(xi + first - back)`, `src/force_common.c` 229-230. -/
def rdBefore (xi : ℕ → K) (first back : ℕ) : Except Fault K :=
  if first < back then .error .outOfColumn else .ok (xi (first - back))

/-- A slope at an end of the column: the entry `back` places before the column, or 0. -/
def slope (used : Bool) (xi : ℕ → K) (first back : ℕ) : Except Fault K :=
  if used then rdBefore xi first back else .ok 0

/-- `spline_ed(step[col], xi + first, last - first + 1, left, right, d2tab + first)`. -/
def initEd (t : Cols K) (xi : ℕ → K) (col : ℕ) (left right : K) (d : ℕ → K) : Except Fault (ℕ → K) :=
  store (t.first col)
    (splineEd (t.step col) (fun k => xi (t.first col + k)) (t.last col - t.first col + 1) left right)
    (t.last col - t.first col + 1) d

/-- `spline_ne(xcoord + first, xi + first, last - first + 1, left, right, d2tab + first)`. -/
def initNe (t : Cols K) (xi : ℕ → K) (col : ℕ) (left right : K) (d : ℕ → K) : Except Fault (ℕ → K) :=
  store (t.first col)
    (splineNe (fun k => t.xcoord (t.first col + k)) (fun k => xi (t.first col + k))
      (t.last col - t.first col + 1) left right)
    (t.last col - t.first col + 1) d

/-- The two slopes and one of the two spline routines. -/
def initCol (ne usedLeft usedRight : Bool) (t : Cols K) (xi : ℕ → K) (col : ℕ) (d : ℕ → K) :
    Except Fault (ℕ → K) :=
  match slope usedLeft xi (t.first col) 2 with
  | .error e => .error e
  | .ok l =>
    match slope usedRight xi (t.first col) 1 with
    | .error e => .error e
    | .ok r => if ne then initNe t xi col l r d else initEd t xi col l r d

/-- A loop over the columns `start, …, start + num - 1`. -/
def colLoop (body : ℕ → (ℕ → K) → Except Stop (ℕ → K)) (start : ℕ) :
    ℕ → (ℕ → K) → Except Stop (ℕ → K)
  | 0, d => .ok d
  | num + 1, d =>
    match colLoop body start num d with
    | .error e => .error e
    | .ok d => body (start + num) d

/-- One pass of `update_splines`, `src/force_common.c` 228-250; `grad_flag` bit 0 is the left, bit 1
the right slope.  With the KIM format the function returns after a warning (247-249). -/
def updateBody (fmt : Format) (flag : ℕ) (t : Cols K) (xi : ℕ → K) (col : ℕ) (d : ℕ → K) :
    Except Stop (ℕ → K) :=
  match fmt with
  | .unknown => .error .unknownFormat
  | .analytic => lift (initCol false (flag % 2 == 1) (flag / 2 % 2 == 1) t xi col d)
  | .eqDist => lift (initCol false (flag % 2 == 1) (flag / 2 % 2 == 1) t xi col d)
  | .nonEqDist => lift (initCol true (flag % 2 == 1) (flag / 2 % 2 == 1) t xi col d)
  | .kim => .ok d

/-- `update_splines`, `src/force_common.c` 225-252. -/
def updateSplines (fmt : Format) (t : Cols K) (xi : ℕ → K) (start num flag : ℕ) (d : ℕ → K) :
    Except Stop (ℕ → K) :=
  colLoop (updateBody fmt flag t xi) start num d

/-- The loops of `src/force_meam.c` 214-229, `src/force_ang.c` 198-213 and
`src/force_ang_elstat.c` 230-245: `spline_ed` with both slopes, whatever the format is. -/
def plainLoop (t : Cols K) (xi : ℕ → K) (num : ℕ) (d : ℕ → K) : Except Stop (ℕ → K) :=
  colLoop (fun col d => lift (initCol false true true t xi col d)) 0 num d

/-- One pass of the loops of `src/force_elstat.c` 223-246 and `src/force_eam_elstat.c` 233-256,
259-283.  The case of general tables has no `break`; it goes on into the error exit of the KIM
format. -/
def switchBody (fmt : Format) (usedRight : Bool) (t : Cols K) (xi : ℕ → K) (col : ℕ) (d : ℕ → K) :
    Except Stop (ℕ → K) :=
  match fmt with
  | .unknown => .error .unknownFormat
  | .analytic => lift (initCol false true usedRight t xi col d)
  | .eqDist => lift (initCol false true usedRight t xi col d)
  | .nonEqDist =>
    match initCol true true usedRight t xi col d with
    | .error e => .error (.fault e)
    | .ok _ => .error .kimFormat
  | .kim => .error .kimFormat

def switchLoop (fmt : Format) (usedRight : Bool) (t : Cols K) (xi : ℕ → K) (start num : ℕ)
    (d : ℕ → K) : Except Stop (ℕ → K) :=
  colLoop (switchBody fmt usedRight t xi) start num d

/-- One call of `update_splines`: first column, number of columns, flag. -/
structure Call where
  start : ℕ
  num : ℕ
  flag : ℕ

def calls (fmt : Format) (t : Cols K) (xi : ℕ → K) : List Call → (ℕ → K) → Except Stop (ℕ → K)
  | [], d => .ok d
  | c :: cs, d =>
    match updateSplines fmt t xi c.start c.num c.flag d with
    | .error e => .error e
    | .ok d => calls fmt t xi cs d

/-- All splines of a force routine.  `pc` is `g_calc.paircol`, `nt` is `g_param.ntypes`.
`src/force_pair.c` 165-167, `src/force_eam.c` 174-193, `src/force_adp.c` 173-188,
`src/force_meam.c` 214-229, `src/force_ang.c` 198-213, `src/force_ang_elstat.c` 230-245,
`src/force_elstat.c` 223-246, `src/force_eam_elstat.c` 231-284. -/
def refresh (rt : Routine) (fmt : Format) (t : Cols K) (xi : ℕ → K) (pc nt : ℕ) (d : ℕ → K) :
    Except Stop (ℕ → K) :=
  match rt with
  | .pair => calls fmt t xi [⟨0, pc, 1⟩] d
  | .eam => calls fmt t xi [⟨0, pc + nt, 1⟩, ⟨pc + nt, nt, 3⟩] d
  | .tbeam => calls fmt t xi [⟨0, pc + nt, 1⟩, ⟨pc + nt, nt, 3⟩, ⟨pc + 2 * nt, nt, 1⟩,
      ⟨pc + 3 * nt, nt, 3⟩] d
  | .adp => calls fmt t xi [⟨0, pc + nt, 1⟩, ⟨pc + nt, nt, 3⟩, ⟨pc + 2 * nt, 2 * pc, 1⟩] d
  | .meam => plainLoop t xi (2 * pc + 3 * nt) d
  | .ang => plainLoop t xi (2 * pc + nt) d
  | .angElstat => plainLoop t xi (2 * pc + nt) d
  | .elstat => switchLoop fmt false t xi 0 pc d
  | .eamElstat =>
    match switchLoop fmt false t xi 0 (pc + nt) d with
    | .error e => .error e
    | .ok d => switchLoop fmt true t xi (pc + nt) nt d

/-- Number of functions of a potential file, `src/potential_input.c` 207-244. -/
def numCols (rt : Routine) (pc nt : ℕ) : ℕ :=
  match rt with
  | .pair => pc
  | .eam => pc + 2 * nt
  | .tbeam => pc + 4 * nt
  | .adp => 3 * pc + 2 * nt
  | .meam => 2 * pc + 3 * nt
  | .ang => 2 * pc + nt
  | .angElstat => 2 * pc + nt
  | .elstat => pc
  | .eamElstat => pc + 2 * nt

/-- `g_splint`, `src/force_common.c` 49-66.  With the KIM format the pointer is not set (`none`). -/
def gSplint [FloorSemiring K] (fmt : Format) (c : Column K) (xi : ℕ → K) (r : K) : Option (Except Stop K) :=
  match fmt with
  | .unknown => some (.error .unknownFormat)
  | .analytic => some (lift (splintEd c xi r))
  | .eqDist => some (lift (splintEd c xi r))
  | .nonEqDist => some (lift (splintNe c xi r))
  | .kim => none

/-- `g_splint_comb`, `src/force_common.c` 49-66. -/
def gSplintComb [FloorSemiring K] (fmt : Format) (c : Column K) (xi : ℕ → K) (r : K) :
    Option (Except Stop (K × K)) :=
  match fmt with
  | .unknown => some (.error .unknownFormat)
  | .analytic => some (lift (splintCombEd c xi r))
  | .eqDist => some (lift (splintCombEd c xi r))
  | .nonEqDist => some (lift (splintCombNe c xi r))
  | .kim => none

/-- `g_splint_grad`, `src/force_common.c` 49-66. -/
def gSplintGrad [FloorSemiring K] (fmt : Format) (c : Column K) (xi : ℕ → K) (r : K) :
    Option (Except Stop K) :=
  match fmt with
  | .unknown => some (.error .unknownFormat)
  | .analytic => some (lift (splintGradEd c xi r))
  | .eqDist => some (lift (splintGradEd c xi r))
  | .nonEqDist => some (lift (splintGradNe c xi r))
  | .kim => none

/-! ### The sampled table of analytic potentials -/

/-- The loop variable `x` of `src/potential_input_f0.c` 966-976 at the start of pass `i`. -/
def layoutX (steps : ℕ) : ℕ → ℕ
  | 0 => 0
  | i + 1 => layoutX steps i + 2 + (steps - 1) + 1

/-- `first[i] = (x += 2)`, line 974. -/
def calcFirst (steps i : ℕ) : ℕ := layoutX steps i + 2

/-- `last[i] = (x += APOT_STEPS - 1)`, line 975. -/
def calcLast (steps i : ℕ) : ℕ := layoutX steps i + 2 + (steps - 1)

/-- The columns set by `init_calc_table0`, 954-978: `begin` and `end` are those of `opt_pot`. -/
def calcCols (steps : ℕ) (beg fin : ℕ → K) (xcoord : ℕ → K) : Cols K where
  first := calcFirst steps
  last := calcLast steps
  beg := beg
  fin := fin
  step i := (fin i - beg i) / ((steps : K) - 1)
  invstep i := 1 / ((fin i - beg i) / ((steps : K) - 1))
  xcoord := xcoord

/-- The arrays `calc_pot.xcoord` and `calc_pot.table`. -/
structure Calc (K : Type*) where
  xcoord : ℕ → K
  tab : ℕ → K

/-- A first sample, 984-988.  The cutoff function is called with `begin`, not with `end`. -/
def firstSample (p : Apot.Pot K) (beg : K) (val : List K) (h x : K) : Except Fault K :=
  match p.fvalue x val with
  | .error e => .error e
  | .ok f =>
    if p.smooth then
      match Apot.apotCutoff x beg h with
      | .error e => .error e
      | .ok c => .ok (f * c)
    else .ok f

/-- The loop over the samples of column `i`, 980-990. -/
def fillSamples (p : Apot.Pot K) (steps i : ℕ) (beg step : K) (val : List K) (h : K) :
    ℕ → Calc K → Except Fault (Calc K)
  | 0, c => .ok c
  | j + 1, c =>
    match fillSamples p steps i beg step val h j c with
    | .error e => .error e
    | .ok c =>
      match firstSample p beg val h (beg + j * step) with
      | .error e => .error e
      | .ok v => .ok ⟨Function.update c.xcoord (Apot.samplePos steps i j) (beg + j * step),
          Function.update c.tab (Apot.samplePos steps i j) v⟩

/-- The two entries in front of column `i`, 972-973: `10e30` and 0. -/
def putSlopes (steps i : ℕ) (c : Calc K) : Calc K :=
  ⟨c.xcoord, Function.update (Function.update c.tab (i * steps + i * 2) (10 * 10 ^ 30))
    (i * steps + i * 2 + 1) 0⟩

/-- The loop over the potentials of `init_calc_table0`, 969-991, starting with potential `i`; a
potential comes with its parameters `values[i]`, of which the last is taken for `h` (971). -/
def initCalc (steps : ℕ) (beg fin : ℕ → K) :
    List (Apot.Pot K × List K) → ℕ → Calc K → Except Fault (Calc K)
  | [], _, c => .ok c
  | (p, val) :: ps, i, c =>
    match val.getLast? with
    | none => .error .outOfColumn
    | some h =>
      match fillSamples p steps i (beg i) ((fin i - beg i) / ((steps : K) - 1)) val h steps
          (putSlopes steps i c) with
      | .error e => .error e
      | .ok c => initCalc steps beg fin ps (i + 1) c

end Verif.SplineInit
