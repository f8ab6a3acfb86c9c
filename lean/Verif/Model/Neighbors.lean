/-
Box vectors and neighbour lists: `make_box`, `init_box_vectors` and `init_neighbors` of `src/config.c`
(1511-1540, 898-955, 1081-1294) without KIM, and `vec_prod` of `src/utils.c` 55-64.

Simplifications: doubles are elements of an ordered field, for the neighbour lists real numbers; warnings are
left out; of a neighbour the fields used by the pair and EAM routines are kept.  `set_neighbor_slot` is
modelled in `Model/Splines.lean` (C12), its result is not repeated here.
-/
import Verif.Model.Force
import Verif.Model.PairIndex
import Mathlib.Analysis.Real.Sqrt
import Mathlib.Algebra.Order.Floor.Defs

namespace Verif.Neighbors

open Verif.Force

/-- Ways in which reading a configuration is aborted with `error(1, …)`. -/
inductive ConfigError where
  | parallelEdges
  | smallCell
  | overlap
  deriving DecidableEq

section
variable {K : Type*} [Field K] [LinearOrder K]

/-- `SPROD`. -/
def sprod (a b : V3 K) : K := a 0 * b 0 + a 1 * b 1 + a 2 * b 2

/-- `vec_prod`, `src/utils.c` 55-64. -/
def vecProd (u v : V3 K) : V3 K :=
  ![u 1 * v 2 - u 2 * v 1, u 2 * v 0 - u 0 * v 2, u 0 * v 1 - u 1 * v 0]

/-- `box_x/y/z` and `tbox_x/y/z`, indexed by the direction. -/
structure Box (K : Type*) where
  edge : Fin 3 → V3 K
  dual : Fin 3 → V3 K

/-- `make_box`, `src/config.c` 1511-1540: dual vectors and volume. -/
def makeBox (edge : Fin 3 → V3 K) : Except ConfigError (Box K × K) :=
  let tx := vecProd (edge 1) (edge 2)
  let ty := vecProd (edge 2) (edge 0)
  let tz := vecProd (edge 0) (edge 1)
  let volume := sprod (edge 0) tx
  if 0 = volume then .error .parallelEdges
  else .ok (⟨edge, ![fun k => tx k / volume, fun k => ty k / volume, fun k => tz k / volume]⟩, volume)

end

/-- `init_box_vectors`, 898-916: number of periodic images in each direction. -/
noncomputable def cellScale (rcutmax : ℝ) (box : Box ℝ) : Except ConfigError (Fin 3 → ℤ) :=
  let iheight : Fin 3 → ℝ := fun k => Real.sqrt (sprod (box.dual k) (box.dual k))
  if ⌈rcutmax * iheight 0⌉ > 30000 ∨ ⌈rcutmax * iheight 1⌉ > 30000 ∨ ⌈rcutmax * iheight 2⌉ > 30000 then
    .error .smallCell
  else .ok fun k => ⌈rcutmax * iheight k⌉

/-- Type and position of an atom of the configuration. -/
structure Site where
  typ : Nat
  pos : V3 ℝ

/-- The values of a loop variable running from `-n` to `n`. -/
def span (n : ℤ) : List ℤ := (List.range (2 * n + 1).toNat).map fun k : Nat => (k : ℤ) - n

/-- A periodic image of atom `j` (number within the configuration) in the cell `(n 0, n 1, n 2)`. -/
structure Image where
  j : Nat
  n : Fin 3 → ℤ

/-- The loops over `j`, `ix`, `iy`, `iz` with the `continue`, 1105-1115 (and again 1155-1164): images visited
for atom `i` of a configuration with `cnt` atoms; `full` is `THREEBODY`. -/
def visited (full : Bool) (cnt : Nat) (scale : Fin 3 → ℤ) (i : Nat) : List Image :=
  let jstart := if full then 0 else i
  ((List.range cnt).drop jstart).flatMap fun j =>
    (span (scale 0)).flatMap fun ix => (span (scale 1)).flatMap fun iy => (span (scale 2)).flatMap fun iz =>
      if i = j ∧ ix = 0 ∧ iy = 0 ∧ iz = 0 then [] else [⟨j, ![ix, iy, iz]⟩]

/-- `dd`, 1116-1118. -/
def offset (box : Box ℝ) (pi pj : V3 ℝ) (n : Fin 3 → ℤ) : V3 ℝ := fun k =>
  (pj k - pi k) + n 0 * box.edge 0 k + n 1 * box.edge 1 k + n 2 * box.edge 2 k

/-- The table of cutoff radii `g_config.rcut[type1 * ntypes + type2]`. -/
structure Cutoffs where
  rcut : Nat → Nat → ℝ
  rcutmax : ℝ

/-- Data of the configuration needed to build the lists.  `start` is `g_config.natoms` before the
configuration is added, i.e. the number of its first atom. -/
structure Cell where
  box : Box ℝ
  start : Nat
  sites : List Site
  ntypes : Nat
  paircol : Nat

/-- Type and position of atom `i`. -/
def Cell.site (c : Cell) (i : Nat) : Site := c.sites.getD i ⟨0, 0⟩

/-- Length of the distance vector to an image. -/
noncomputable def dist (c : Cell) (i : Nat) (m : Image) : ℝ :=
  let dd := offset c.box (c.site i).pos (c.site m.j).pos m.n
  Real.sqrt (sprod dd dd)

/-- The entry written for an image, 1197-1215, 1229-1242; the columns are those of pair function and transfer
function. -/
noncomputable def entryOf (c : Cell) (i : Nat) (m : Image) : Neigh ℝ :=
  let dd := offset c.box (c.site i).pos (c.site m.j).pos m.n
  let r := Real.sqrt (sprod dd dd)
  let ddr : V3 ℝ := fun k => dd k / r
  { nr := c.start + m.j
    typ := (c.site m.j).typ
    r := r
    dist := fun k => ddr k * r
    distR := ddr
    col0 := PairIndex.pairCol c.ntypes (c.site i).typ (c.site m.j).typ
    col1 := c.paircol + (c.site m.j).typ }

open Classical in
/-- `init_neighbors` for atom `i`: 1105-1146 stops if an image lies on the atom, 1155-1287 stores the images
within the cutoff. -/
noncomputable def neighbours (full : Bool) (cut : Cutoffs) (scale : Fin 3 → ℤ) (c : Cell) (i : Nat) :
    Except ConfigError (List (Neigh ℝ)) :=
  let vis := visited full c.sites.length scale i
  if ∃ m ∈ vis, dist c i m = 0 then .error .overlap
  else .ok ((vis.filter fun m =>
    decide (dist c i m ≤ cut.rcut (c.site i).typ (c.site m.j).typ)).map (entryOf c i))

/-- The loop over all atoms of the configuration, 1096-1290. -/
noncomputable def initNeighbours (full : Bool) (cut : Cutoffs) (scale : Fin 3 → ℤ) (c : Cell) :
    Except ConfigError (List (List (Neigh ℝ))) :=
  (List.range c.sites.length).mapM fun i => neighbours full cut scale c i

end Verif.Neighbors
