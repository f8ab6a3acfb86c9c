/-
Ranges of the sampled analytic potentials after reading the configurations: the minimal distances collected by
`init_neighbors` (`src/config.c` 1227-1230) and the end of `read_config` (459-571, 597-681), for builds with `APOT`
and without `KIM`.

Simplifications: doubles are elements of an ordered field; `DBL_MAX` (no distance found) is `none`;
`apot_table.begin` and `opt_pot.begin` get the same values as `calc_pot.begin` (and `calc_pot.begin` is the same array
as `opt_pot.begin`, `src/potential_input_f0.c` 953) and are not repeated; `xcoord` is `begin + j*step`.
-/
import Verif.Model.Splines
import Verif.Model.PairIndex
import Mathlib.Logic.Function.Basic

namespace Verif.Ranges

open Verif.Splines Verif.PairIndex

variable {K : Type*} [Field K] [LinearOrder K]

/-- An entry of a neighbour list, with the type of the atom it belongs to. -/
structure Stored (K : Type*) where
  typ1 : Nat
  typ2 : Nat
  r : K

/-- `MIN(mindist, r)`, where `none` is `DBL_MAX`. -/
def lower : Option K → K → Option K
  | none, r => some r
  | some m, r => some (if m < r then m else r)

/-- `mindist[col] = MIN(mindist[col], r)` for every neighbour stored, `src/config.c` 118-122, 1227-1230. -/
def mindist (nt : Nat) (l : List (Stored K)) : Nat → Option K :=
  l.foldl (fun m s => Function.update m (pairCol nt s.typ1 s.typ2) (lower (m (pairCol nt s.typ1 s.typ2)) s.r))
    fun _ => none

/-- The interactions with sampled columns. -/
inductive Kind
  | pair | eam | tbeam | adp | meam | ang
  deriving DecidableEq

/-- `g_calc.paircol`. -/
abbrev pc (nt : Nat) : Nat := paircol nt

/-- The columns `col[0], col[1], …` of a neighbour, `src/config.c` 1226-1275. -/
def columns (kind : Kind) (nt typ1 typ2 : Nat) : List Nat :=
  let col0 := pairCol nt typ1 typ2
  match kind with
  | .pair => [col0]
  | .eam => [col0, pc nt + typ2]
  | .tbeam => [col0, pc nt + typ2, pc nt + 2 * nt + typ2]
  | .adp => [col0, pc nt + typ2, pc nt + 2 * nt + col0, 2 * pc nt + 2 * nt + col0]
  | .meam => [col0, pc nt + typ2, pc nt + 2 * nt + col0]
  | .ang => [col0, pc nt + col0]

/-- Column of the angular function, `src/config.c` 1407, 1475. -/
def gcol (kind : Kind) (nt typ : Nat) : Nat :=
  match kind with
  | .meam => 2 * pc nt + 2 * nt + typ
  | _ => 2 * pc nt + typ

/-- `begin[]`, `end[]` of the columns and `rmin[]`. -/
structure Bounds (K : Type*) where
  beg : Nat → K
  fin : Nat → K
  rmin : Nat → K

/-- The pairs `(i, j)` in the order of the two loops, 463-464. -/
def typePairs (nt : Nat) : List (Nat × Nat) :=
  (List.range nt).flatMap fun i => (List.range nt).map fun j => (i, j)

/-- One turn of the loops over the pairs of types, 465-480: `none` is the exit "No atoms found in interaction range";
the second component is `min`. -/
def pairTurn (nt : Nat) (md : Nat → Option K) (s : Bounds K × Option K) (p : Nat × Nat) :
    Option (Bounds K × Option K) :=
  let k := pairCol nt p.1 p.2
  match md k with
  | none => none
  | some d =>
    some ({ s.1 with
      rmin := Function.update s.1.rmin (p.1 * nt + p.2) d
      beg := Function.update s.1.beg k (d * (95 / 100)) }, lower s.2 d)

/-- A loop setting `begin` of the columns `start, …, start + cnt - 1`. -/
def setBegin (start cnt : Nat) (v : K) (b : Bounds K) : Bounds K :=
  (List.range cnt).foldl (fun b i => { b with beg := Function.update b.beg (start + i) v }) b

/-- The loop of ADP over the two columns of every pair, 505-513. -/
def setBeginAdp (nt : Nat) (v : K) (b : Bounds K) : Bounds K :=
  (List.range (pc nt)).foldl (fun b i =>
    let b := { b with beg := Function.update b.beg (pc nt + 2 * nt + i) v }
    { b with beg := Function.update b.beg (2 * pc nt + 2 * nt + i) v }) b

/-- A loop setting `begin` and `end` of angular columns, 525-533, 547-555. -/
def setAngular (start cnt : Nat) (lo hi : K) (b : Bounds K) : Bounds K :=
  (List.range cnt).foldl (fun b i =>
    { b with beg := Function.update b.beg (start + i) lo, fin := Function.update b.fin (start + i) hi }) b

/-- The blocks after the loops over the pairs, 483-556; `v` is `min * 0.95`. -/
def others (kind : Kind) (nt : Nat) (v : K) (b : Bounds K) : Bounds K :=
  match kind with
  | .pair => b
  | .eam => setBegin (pc nt) nt v b
  | .tbeam => setBegin (pc nt + 2 * nt) nt v (setBegin (pc nt) nt v b)
  | .adp => setBeginAdp nt v (setBegin (pc nt) nt v b)
  | .meam => setAngular (2 * pc nt + 2 * nt) nt (-(11 / 10)) (11 / 10)
      (setBegin (pc nt + 2 * nt) (pc nt) v (setBegin (pc nt) nt v b))
  | .ang => setAngular (2 * pc nt) nt (-1) 1 (setBegin (pc nt) (pc nt) v b)

/-- End of `read_config`, 459-556. -/
def assign (kind : Kind) (nt : Nat) (md : Nat → Option K) (b : Bounds K) : Option (Bounds K) :=
  match (typePairs nt).foldlM (pairTurn nt md) (b, none) with
  | none => none
  | some (b', none) => some b'
  | some (b', some m) => some (others kind nt (m * (95 / 100)) b')

/-- `APOT_STEPS`, `src/defines.h` 43. -/
def steps : Nat := 500

/-- The running `x` of `init_calc_table0` before column `i`, `src/potential_input_f0.c` 967, 974-976. -/
def layout : Nat → Nat
  | 0 => 0
  | i + 1 => layout i + 2 + (steps - 1) + 1

/-- Column `i` of `calc_pot` after `step`, `invstep` and `xcoord` are recalculated, 560-569; `first` and `last` are those
of `init_calc_table0` (`src/potential_input_f0.c` 974-975). -/
def column (b : Bounds K) (d2tab : Nat → K) (i : Nat) : Column K where
  beg := b.beg i
  fin := b.fin i
  step := (b.fin i - b.beg i) / ((steps : K) - 1)
  invstep := 1 / ((b.fin i - b.beg i) / ((steps : K) - 1))
  first := layout i + 2
  last := layout i + 2 + (steps - 1)
  xcoord := fun k => b.beg i + ((k - (i * steps + (i + 1) * 2) : Nat) : K) * ((b.fin i - b.beg i) / ((steps : K) - 1))
  d2tab := d2tab

/-- Columns of a tabulated potential keep the angle entry zeroed by `memset`, 1396 (the assignments 1436-1440 are
comments, and `update_slots` exists only with `APOT`). -/
def blankAngle : ℕ × K × K := (0, 0, 0)

/-- Truncation to `int` of a double, as far as it is not negative or larger than -1. -/
def toInt [FloorSemiring K] (x : K) : Nat := ⌊x⌋₊

/-- The triple computed from the offset `rr` into the column. -/
def slotAt [FloorSemiring K] (c : Column K) (rr : K) : ℕ × K × K :=
  (toInt (rr * c.invstep) + c.first, (rr - toInt (rr * c.invstep) * c.step) * c.invstep, c.step)

/-- Angular slots of MEAM in `update_slots`, `src/config.c` 635-654. -/
def meamSlot [FloorSemiring K] (c : Column K) (cos : K) : ℕ × K × K := slotAt c (cos + 11 / 10)

/-- Angular slots of angular potentials in `update_slots`, 656-673. -/
def angSlot [FloorSemiring K] (c : Column K) (cos : K) : ℕ × K × K := slotAt c (cos - c.beg)

end Verif.Ranges
