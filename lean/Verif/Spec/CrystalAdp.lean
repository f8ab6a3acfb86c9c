/-
ADP energy of infinite periodic crystals: dipole and quadrupole distortions of the surroundings of the atoms as lattice sums.
-/
import Verif.Spec.Crystal
import Verif.Spec.ForceAdp

namespace Verif.Spec

open Verif.Force
open Verif.Neighbors

/-- Sum over all other atoms and images; `ψ` is given the type of the other atom and the vector to it. -/
noncomputable def latticeVec (c : Cell) (i : Nat) (ψ : Nat → V3 ℝ → ℝ) : ℝ :=
  ∑ᶠ m ∈ Others c i, ψ (c.site m.j).typ (arrow c i m)

/-- Function of a column, zero beyond its end. -/
noncomputable def ranged (P : Pots ℝ) (col : Nat) (r : ℝ) : ℝ := if r < P.fin col then P.val col r else 0

/-- Columns of the dipole and quadrupole functions of two types: behind pair, transfer and embedding functions one for
each pair of types. -/
def dipoleColumn (P : EamPots ℝ) (ntypes s t : Nat) : Nat := P.paircol + 2 * P.ntypes + PairIndex.pairCol ntypes s t

def quadrupoleColumn (P : EamPots ℝ) (ntypes s t : Nat) : Nat := 2 * P.paircol + 2 * P.ntypes + PairIndex.pairCol ntypes s t

/-- Dipole distortion at atom `i`. -/
noncomputable def latticeDipole (P : EamPots ℝ) (c : Cell) (i : Nat) : V3 ℝ := fun k =>
  latticeVec c i fun t v => ranged P.toPots (dipoleColumn P c.ntypes (c.site i).typ t) (length v) * v k

/-- Quadrupole distortion at atom `i`. -/
noncomputable def latticeQuadrupole (P : EamPots ℝ) (c : Cell) (i : Nat) : Fin 3 → Fin 3 → ℝ := fun k l =>
  latticeVec c i fun t v => ranged P.toPots (quadrupoleColumn P c.ntypes (c.site i).typ t) (length v) * (v k * v l)

/-- ADP energy of the crystal per cell. -/
noncomputable def latticeAdp (b : Build) (P : EamPots ℝ) (c : Cell) : ℝ :=
  latticeEam b P c + ∑ i ∈ Finset.range c.sites.length, distortion (latticeDipole P c i) (latticeQuadrupole P c i)

end Verif.Spec
