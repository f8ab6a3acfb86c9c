/-
Energies of infinite periodic crystals as lattice sums, and crystals with one atom displaced or with the cell strained.
Neither cutoffs of neighbour lists nor the lists themselves occur.
-/
import Verif.Spec.SelfCount
import Verif.Spec.Motion
import Verif.Spec.ForceEam
import Verif.Spec.Force
import Mathlib.LinearAlgebra.Matrix.Determinant.Basic

namespace Verif.Spec

open Verif.Force
open Verif.Neighbors

/-- All atoms and periodic images seen from atom `i`, without the atom itself. -/
def Others (c : Cell) (i : Nat) : Set Image := {m | m.j < c.sites.length ∧ ¬ (m.j = i ∧ m.n = 0)}

/-- Sum over all other atoms and images; `ψ` is given the type of the other atom and the distance. -/
noncomputable def latticeSum (c : Cell) (i : Nat) (ψ : Nat → ℝ → ℝ) : ℝ :=
  ∑ᶠ m ∈ Others c i, ψ (c.site m.j).typ (length (arrow c i m))

/-- Pair energy of the crystal per cell. -/
noncomputable def latticePair (P : Pots ℝ) (c : Cell) : ℝ :=
  ∑ i ∈ Finset.range c.sites.length, (1 / 2) * latticeSum c i (phi P c.ntypes (c.site i).typ)

/-- Density at atom `i`. -/
noncomputable def latticeDensity (P : EamPots ℝ) (c : Cell) (i : Nat) : ℝ := latticeSum c i (transfer P)

/-- EAM energy of the crystal per cell. -/
noncomputable def latticeEam (b : Build) (P : EamPots ℝ) (c : Cell) : ℝ :=
  latticePair P.toPots c + ∑ i ∈ Finset.range c.sites.length,
    (embed b P (P.paircol + P.ntypes + (c.site i).typ) (latticeDensity P c i)).value

/-- The crystal with component `k` of the position of atom `j` (and of all its images) set to `y`. -/
def displaced (c : Cell) (j : Nat) (k : Fin 3) (y : ℝ) : Cell :=
  { c with sites := c.sites.modify j fun s => { s with pos := Function.update s.pos k y } }

/-- The crystal under the homogeneous strain `e` in component `α β`. -/
def strainedCell (c : Cell) (α β : Fin 3) (e : ℝ) : Cell :=
  { c with
    box := { c.box with edge := fun d => strained e α β (c.box.edge d) }
    sites := c.sites.map fun s => { s with pos := strained e α β s.pos } }

/-- Force on atom `j` in a crystal with energy `E` per cell: minus the derivative with respect to its position. -/
noncomputable def crystalForce (E : Cell → ℝ) (c : Cell) (j : Nat) : V3 ℝ := fun k =>
  -deriv (fun y => E (displaced c j k y)) ((c.site j).pos k)

/-- Stress times volume: minus the derivative with respect to the strain. -/
noncomputable def crystalVirial (E : Cell → ℝ) (c : Cell) (k : Fin 6) : ℝ :=
  -deriv (fun e => E (strainedCell c (voigt k).2 (voigt k).1 e)) 0

/-- Volume of the cell with the given vectors. -/
noncomputable def cellVolume (edge : Fin 3 → V3 ℝ) : ℝ := |(Matrix.of edge).det|

/-- Weighted squared deviations of forces, energy and stresses of one crystal from its reference data.  Of `f` only reference
data, weights and switches are used; `V` is the volume. -/
noncomputable def crystalError (b : Build) (E : Cell → ℝ) (ew sw V : ℝ) (c : Cell) (f : Conf ℝ) : ℝ :=
  (if f.uf = true then f.weight * (f.atoms.zipIdx.map fun aj =>
    if b.contrib = true ∧ aj.1.contrib = false then 0
    else ∑ k : Fin 3, ((crystalForce E c aj.2 k - f.force0 (c.start + aj.2) k) / forceScale b aj.1) ^ 2).sum else 0) +
  f.weight * ew * (E c / (c.sites.length : ℝ) - f.energy0) ^ 2 +
  (if b.stress = true ∧ f.uf = true ∧ f.us = true then
    f.weight * sw * ∑ k : Fin 6, (crystalVirial E c k / V - f.stress0 k) ^ 2 else 0)

end Verif.Spec
