/-
Tables for other programs: `write_lammps_table_pair`, `is_lammps_suited`, `write_lammps_table_eam_adp` of
`src/potential_output_lammps.c` 251-603 and `write_pot_table_imd` of `src/potential_output_imd.c` 170-632 (the file of
parameters for electrostatics is in `Model/ImdParams.lean`).  Simplifications: exact numbers, `none` stands for NaN and infinities; numbers written with 17 digits
are taken to be exact, only `%f` is a function `fmt`; names, comments, masses and empty lines are left out.
-/
import Verif.Model.PairIndex
import Verif.Model.Splines
import Mathlib.Algebra.Field.Basic

namespace Verif.TableOut

open Verif.PairIndex

variable {K : Type*} [Field K] [DecidableEq K]

/-- The potential functions of each column: `val` is `apot_table.fvalue` (with the current parameters) or the spline routine,
`cut` is `apot_cutoff` for columns with `smooth_pot`, `grad` the slope found by `g_splint_comb`; `zero` tells whether
the table of the column begins at 0 (`xcoord[first[k]] == 0.0`). -/
structure Fns (K : Type*) where
  val : Nat → K → Option K
  cut : Nat → Option (K → K)
  grad : Nat → K → K
  zero : Nat → Bool

/-- Multiplication by `apot_cutoff` for smooth potentials. -/
def smooth (F : Fns K) (k : Nat) (r : K) (v : Option K) : Option K :=
  match F.cut k with
  | some c => v.map (· * c r)
  | none => v

/-- A line of the table of pair potentials. -/
structure Row (K : Type*) where
  nr : Nat
  r : K
  energy : Option K
  force : Option K
deriving DecidableEq

/-- A line with analytic potentials, `potential_output_lammps.c` 294-314.  The value is replaced if it is zero and not a number
(304). -/
def pairApotRow (F : Fns K) (idx k : Nat) (r dr : K) : Row K :=
  let a := F.val idx (r + dr)
  let f := F.val idx r
  let b := F.val idx (r - dr)
  let f := if f = some 0 ∧ f = none then F.val idx (r + 1 / 1000) else f
  let a := smooth F idx (r + dr) a
  let f := smooth F idx r f
  let b := smooth F idx (r - dr) b
  ⟨k + 1, r, f, a.bind fun a => b.map fun b => -(a - b) / (2 * dr)⟩

/-- Lines `k, k+1, …` with analytic potentials, 293-322. -/
def pairApotRows (F : Fns K) (idx : Nat) (dr : K) : Nat → Nat → K → List (Row K)
  | 0, _, _ => []
  | n + 1, k, r => pairApotRow F idx k r dr :: pairApotRows F idx dr n (k + 1) (r + dr)

/-- Lines `k, k+1, …` with tabulated potentials, 293, 315-322. -/
def pairTabRows (F : Fns K) (idx : Nat) (dr : K) (steps : Nat) : Nat → Nat → K → List (Row K)
  | 0, _, _ => []
  | n + 1, k, r =>
    let r := if k = steps - 1 then r - 1 / 1000000 else r
    ⟨k + 1, r, F.val idx r, some (F.grad idx r)⟩ :: pairTabRows F idx dr steps n (k + 1) (r + dr)

/-- The table of one pair potential, 285-322; `beg` is `calc_pot.begin`, `fin` is `calc_pot.end`. -/
def pairTable (apot : Bool) (F : Fns K) (steps : Nat) (plotmin beg fin : K) (idx : Nat) : List (Row K) :=
  if apot then
    let r := if plotmin = 0 then beg else plotmin
    pairApotRows F idx ((fin - r) / (steps - 1)) steps 0 r
  else pairTabRows F idx ((fin - beg) / (steps - 1)) steps steps 0 beg

/-- `is_lammps_suited`, 334-371. -/
def suited (adp : Bool) (n : Nat) (fin : Nat → K) : Bool :=
  ((List.range (paircol n + n - 1)).all fun i => fin (i + 1) = fin 0) &&
  ((List.range n).all fun i => fin (paircol n + n + i) = fin (paircol n + n)) &&
  (!adp || (List.range (2 * paircol n)).all fun i => fin (paircol n + 2 * n + i) = fin 0)

/-- Values of an analytic function, 442-449, 472-479, 507-514, 545-553, 581-589; `mul`: times the distance. -/
def setflApot (F : Fns K) (mul : Bool) (k : Nat) (d : K) : Nat → K → List (Option K)
  | 0, _ => []
  | n + 1, r =>
    let t := F.val k r
    let t := if r = 0 ∧ t = none then F.val k (r + 1 / 1000) else t
    let t := smooth F k r t
    (if mul then t.map (r * ·) else t) :: setflApot F mul k d n (r + d)

/-- Values of a tabulated function, 442, 450-457, 480-487, 515-522, 554-561, 590-597: `last` is the step where `r` is decreased
by `eps`. -/
def setflTab (F : Fns K) (mul : Bool) (k : Nat) (d eps : K) (last : Nat) : Nat → Nat → K → List (Option K)
  | 0, _, _ => []
  | n + 1, j, r =>
    let r := if j = last then r - eps else r
    let t := F.val k r
    (if mul then t.map (r * ·) else t) :: setflTab F mul k d eps last n (j + 1) (r + d)

/-- One function: with tables not beginning at zero, 0 is written first and there is one step less, 432-440, 462-469, 498-505,
536-543, 572-579.  `full`: the comparison that finds the last step does not take this into account (556, 592). -/
def setflColumn (apot : Bool) (F : Fns K) (steps : Nat) (mul full : Bool) (d eps : K) (k : Nat) : List (Option K) :=
  if apot then setflApot F mul k d steps 0
  else if F.zero k then setflTab F mul k d eps (steps - 1) steps 0 0
  else some 0 :: setflTab F mul k d eps (if full then steps - 1 else steps - 1 - 1) (steps - 1) 0 (0 + d)

/-- Header (line 5 of the file) and values. -/
structure Setfl (K : Type*) where
  nrho : Nat
  drho : K
  nr : Nat
  dr : K
  cutoff : K
  vals : List (Option K)

/-- `write_lammps_table_eam_adp`, 373-603; `none`: nothing is written.  `fin` is `opt_pot.end` as well as `apot_table.end`, which has been
copied (`potential_input_f0.c` 136). -/
def writeSetfl (apot adp : Bool) (n steps : Nat) (F : Fns K) (fin : Nat → K) (fmt : K → K) : Option (Setfl K) :=
  if suited adp n fin then
    let drho := fin (paircol n + n) / (steps - 1)
    let dr := fin 0 / (steps - 1)
    let c := setflColumn apot F steps
    let elements := (List.range n).flatMap fun i =>
      c false false drho (1 / 100000) (paircol n + n + i) ++ c false false dr (1 / 1000000) (paircol n + i)
    let pairs := (List.range n).flatMap fun i => (List.range (i + 1)).flatMap fun j =>
      c true false dr (1 / 1000000) (pairCol n i j)
    let distortion := fun off => (List.range n).flatMap fun i => (List.range (n - i)).flatMap fun t =>
      c apot true dr (1 / 1000000) (pairCol n i (i + t) + off)
    some ⟨steps, fmt drho, steps, fmt dr, fmt (fin 0),
      elements ++ pairs ++ if adp then distortion (paircol n + 2 * n) ++ distortion (2 * (paircol n + n)) else []⟩
  else none

/-! Tables for IMD. -/

/-- One line of the information block: first and last argument, step. -/
structure Info (K : Type*) where
  beg : K
  fin : K
  step : K
deriving DecidableEq

/-- A file: information and values of all columns. -/
structure Imd (K : Type*) where
  info : List (Info K)
  vals : List (Option K)

/-- `n` values of column `k`, arguments from `x` on: loops over `k` of `potential_output_imd.c`.  `arg` is `sqrt` or nothing. -/
def imdLoop (f : K → Option K) (arg : K → K) (step : K) : Nat → K → List (Option K)
  | 0, _ => []
  | n + 1, x => f (arg x) :: imdLoop f arg step n (x + step)

def imdInfo (steps : Nat) (beg fin : K) : Info K := ⟨beg, fin, (fin - beg) / steps⟩

/-- A file over squared distances, 182-257, 262-320, 380-449, 453-522, 528-597: for each ordered pair of types the values of a
column `col i j` and a zero; `lo` is the smallest distance (`plotmin` or 0.1 with `APOT`, else the beginning of the table less `extend`
steps, but not negative). -/
def imdPair (F : Fns K) (n steps : Nat) (sqrt : K → K) (col : Nat → Nat → Nat) (lo fin : Nat → K) : Imd K :=
  let info := fun k => imdInfo steps (lo k * lo k) (fin k * fin k)
  ⟨(List.range n).flatMap fun i => (List.range n).map fun j => info (col i j),
   (List.range n).flatMap fun i => (List.range n).flatMap fun j =>
    imdLoop (fun r => smooth F (col i j) r (F.val (col i j) r)) sqrt (info (col i j)).step steps (info (col i j)).beg ++ [some 0]⟩

/-- Columns of the files `_phi`, `_rho`, `_upot`, `_wpot`, `_f_meam`. -/
def imdPhi (n i j : Nat) : Nat := imdCol n i j
def imdRho (n _i j : Nat) : Nat := n * (n + 1) / 2 + j
def imdUpot (n i j : Nat) : Nat := imdCol n i j + (paircol n + 2 * n)
def imdWpot (n i j : Nat) : Nat := imdCol n i j + (2 * paircol n + 2 * n)
def imdF (n i j : Nat) : Nat := n * (n + 5) / 2 + imdCol n i j

/-- A file over the argument itself, one column for each type: `_F`, 324-374, and `_g_meam`, 601-630. -/
def imdType (f : Nat → K → Option K) (n steps : Nat) (off : Nat) (lo fin : Nat → K) : Imd K :=
  let info := fun k => imdInfo steps (lo k) (fin k)
  ⟨(List.range n).map fun i => info (off + i),
   (List.range n).flatMap fun i => imdLoop (f (off + i)) id (info (off + i)).step (steps + 1) (info (off + i)).beg⟩

/-- Embedding functions with analytic potentials: without `apot_cutoff`, 335-337 and 361-363. -/
def imdEmbedApot (F : Fns K) (n steps : Nat) (fin : Nat → K) : Imd K :=
  imdType F.val n steps (n * (n + 3) / 2) (fun _ => 0) fin

/-- Embedding functions with tabulated potentials, 338-343 and 364-368: extended at both ends by `ext`, with an additional cubic
behind the end. -/
def imdEmbedTab [LT K] [DecidableLT K] (F : Fns K) (n steps : Nat) (ext beg fin : Nat → K) : Imd K :=
  imdType (fun k x => (F.val k x).map fun t => t + if 0 < x - fin k then 500 * ((x - fin k) * (x - fin k) * (x - fin k)) else 0)
    n steps (n * (n + 3) / 2) (fun k => beg k - ext k) (fun k => fin k + ext k)

/-- Places of the samples of column `k` of analytic potentials, `potential_input_f0.c` 974-976 with `APOT_STEPS` = 500. -/
def calcFirst (k : Nat) : Nat := 502 * k + 2
def calcLast (k : Nat) : Nat := 502 * k + 501

/-- `splint_ne` (`splines.c` 315-337) with positions `first`, `last`, `x`, `d2` of one table and values of another; `none`: a value outside
of that one. -/
def splintOf [LinearOrder K] (x d2 : Nat → K) (first last : Nat → Nat) (tab : List K) (k : Nat) (r : K) : Option K :=
  let p := Splines.bisect x r (first k) (last k)
  let h := x p.2 - x p.1
  let b := (r - x p.1) / h
  let a := 1 - b
  tab[p.1]?.bind fun y1 => tab[p.2]?.map fun y2 =>
    a * y1 + b * y2 + ((a * a * a - a) * d2 p.1 + (b * b * b - b) * d2 p.2) * (h * h) / 6

/-- Angular functions, 601-630: values are interpolated with the positions of `calc_pot` in `opt_pot.table`, i.e. with `APOT` in the
list of parameters. -/
def imdAngle [LinearOrder K] (x d2 : Nat → K) (first last : Nat → Nat) (optTable : List K) (n steps : Nat) (beg fin : Nat → K) : Imd K :=
  imdType (splintOf x d2 first last optTable) n steps (n * (n + 3)) beg fin

end Verif.TableOut
