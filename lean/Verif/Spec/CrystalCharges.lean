/-
Point charges in infinite periodic crystals: interactions as lattice sums of a screened Coulomb potential which is shifted to zero
at a cutoff, and self energies.
-/
import Verif.Spec.CrystalAngles
import Verif.Model.Tails
import Mathlib.Analysis.Calculus.Deriv.Basic

namespace Verif.Spec

open Verif.Force
open Verif.Neighbors

/-- Interaction of the charges `q` (by type) of the crystal per cell, with the potential `φ` between unit charges nearer than
`rc`. -/
noncomputable def latticeCharges (rc : ℝ) (q : Nat → ℝ) (φ : ℝ → ℝ) (c : Cell) : ℝ :=
  ∑ i ∈ Finset.range c.sites.length,
    (1 / 2) * latticeSum c i fun t r => if r < rc then q (c.site i).typ * q t * φ r else 0

/-- Pair functions, charges and self energies `s q²`. -/
noncomputable def latticeCoulomb (P : Pots ℝ) (rc : ℝ) (q : Nat → ℝ) (φ : ℝ → ℝ) (s : ℝ) (c : Cell) : ℝ :=
  latticePair P c + latticeCharges rc q φ c - s * ∑ i ∈ Finset.range c.sites.length, q (c.site i).typ ^ 2

/-- The same with EAM in place of pair functions. -/
noncomputable def latticeEamCoulomb (b : Build) (P : EamPots ℝ) (rc : ℝ) (q : Nat → ℝ) (φ : ℝ → ℝ) (s : ℝ) (c : Cell) : ℝ :=
  latticeEam b P c + latticeCharges rc q φ c - s * ∑ i ∈ Finset.range c.sites.length, q (c.site i).typ ^ 2

/-- The same with an angular potential. -/
noncomputable def latticeAngCoulomb (P : AngPots ℝ) (rc : ℝ) (q : Nat → ℝ) (φ : ℝ → ℝ) (s : ℝ) (c : Cell) : ℝ :=
  latticeAng P c + latticeCharges rc q φ c - s * ∑ i ∈ Finset.range c.sites.length, q (c.site i).typ ^ 2

/-- Screened Coulomb potential in eV, lengths in Å: `e²/(4πε₀) = 14.4`. -/
noncomputable def screened (κ r : ℝ) : ℝ := 14.4 * Verif.Tails.erfc (κ * r) / r

/-- Shifted by a parabola in `r` without linear term, so that value and slope vanish at the cutoff. -/
noncomputable def shiftedSquare (φ : ℝ → ℝ) (rc r : ℝ) : ℝ := φ r - φ rc - deriv φ rc / (2 * rc) * (r ^ 2 - rc ^ 2)

/-- Shifted by a straight line so that value and slope vanish at the cutoff (damped shifted forces). -/
noncomputable def shiftedForce (φ : ℝ → ℝ) (rc r : ℝ) : ℝ := φ r - φ rc - deriv φ rc * (r - rc)

/-- Self energy of a unit charge. -/
noncomputable def ewaldSelf (κ : ℝ) : ℝ := 14.4 * κ / √Real.pi

/-- With damped shifted forces. -/
noncomputable def shiftedSelf (κ rc : ℝ) : ℝ := ewaldSelf κ + (screened κ rc - rc * deriv (screened κ) rc) / 2

end Verif.Spec
