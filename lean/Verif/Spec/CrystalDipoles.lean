/-
Point charges and dipoles in infinite periodic crystals.  The dipoles are given, one for each site of the cell; all images of a site
carry the same dipole.
-/
import Verif.Spec.CrystalCharges
import Verif.Spec.ForceElstat

namespace Verif.Spec

open Verif.Force
open Verif.Neighbors

/-- Dipole of a site; sites of types which are not polarisable have none. -/
noncomputable def siteMoment (α : Nat → ℝ) (p : Nat → V3 ℝ) (c : Cell) (i : Nat) : V3 ℝ :=
  if α (c.site i).typ = 0 then 0 else p i

/-- Interaction of the dipoles of site `i` and image `m` with each other and with each other's charges.  `φ` is the
potential of a unit charge, `damp` (by column of the pair of types) the damping of the interaction of charges
and dipoles at short range. -/
noncomputable def dipoleBond (rc : ℝ) (q α : Nat → ℝ) (φ : ℝ → ℝ) (damp : Nat → ℝ → ℝ) (p : Nat → V3 ℝ) (c : Cell) (i : Nat)
    (m : Image) : ℝ :=
  let v := arrow c i m
  let r := length v
  let μ := siteMoment α p c i
  let μ' := siteMoment α p c m.j
  let g := deriv φ r / r
  if r < rc then
    g * (1 + damp (PairIndex.pairCol c.ntypes (c.site i).typ (c.site m.j).typ) r) *
      dot3 (fun k => q (c.site i).typ * μ' k - q (c.site m.j).typ * μ k) v +
    g * (3 * dot3 μ v * dot3 μ' v / r ^ 2 - dot3 μ μ')
  else 0

/-- Interaction of the dipoles of the crystal per cell. -/
noncomputable def latticeDipoles (rc : ℝ) (q α : Nat → ℝ) (φ : ℝ → ℝ) (damp : Nat → ℝ → ℝ) (p : Nat → V3 ℝ) (c : Cell) : ℝ :=
  ∑ i ∈ Finset.range c.sites.length, (1 / 2) * ∑ᶠ m ∈ Others c i, dipoleBond rc q α φ damp p c i m

/-- Field at site `i`, as the routine takes it, of the charges (damped at short range) and dipoles of all images: per unit of
polarisability the dipole it induces. -/
noncomputable def siteField (rc : ℝ) (q α : Nat → ℝ) (φ : ℝ → ℝ) (damp : Nat → ℝ → ℝ) (p : Nat → V3 ℝ) (c : Cell) (i : Nat) : V3 ℝ :=
  fun k => ∑ᶠ m ∈ Others c i,
    let v := arrow c i m
    let r := length v
    let μ := siteMoment α p c m.j
    if r < rc then deriv φ r / r * (q (c.site m.j).typ *
      (1 + damp (PairIndex.pairCol c.ntypes (c.site i).typ (c.site m.j).typ) r) * v k + (3 * dot3 μ v * v k / r ^ 2 - μ k)) else 0

/-- Mean square deviation of the dipoles from those induced. -/
noncomputable def crystalInconsistency (rc : ℝ) (q α : Nat → ℝ) (φ : ℝ → ℝ) (damp : Nat → ℝ → ℝ) (p : Nat → V3 ℝ) (c : Cell) : ℝ :=
  (∑ i ∈ Finset.range c.sites.length, if α (c.site i).typ = 0 then 0 else
    ∑ k : Fin 3, (p i k - α (c.site i).typ * siteField rc q α φ damp p c i k) ^ 2) / (3 * (c.sites.length : ℝ))

/-- What it costs to polarise the atoms of a cell. -/
noncomputable def polarisation (α : Nat → ℝ) (p : Nat → V3 ℝ) (c : Cell) : ℝ :=
  ∑ i ∈ Finset.range c.sites.length, if α (c.site i).typ = 0 then 0 else dot3 (p i) (p i) / (2 * α (c.site i).typ)

/-- Pair functions, charges, dipoles and self energies. -/
noncomputable def latticePolar (P : Pots ℝ) (rc : ℝ) (q α : Nat → ℝ) (φ : ℝ → ℝ) (damp : Nat → ℝ → ℝ) (s : ℝ) (p : Nat → V3 ℝ)
    (c : Cell) : ℝ :=
  latticeCoulomb P rc q φ s c + latticeDipoles rc q α φ damp p c + polarisation α p c

/-- The same with EAM in place of pair functions. -/
noncomputable def latticeEamPolar (b : Build) (P : EamPots ℝ) (rc : ℝ) (q α : Nat → ℝ) (φ : ℝ → ℝ) (damp : Nat → ℝ → ℝ) (s : ℝ)
    (p : Nat → V3 ℝ) (c : Cell) : ℝ :=
  latticeEamCoulomb b P rc q φ s c + latticeDipoles rc q α φ damp p c + polarisation α p c

/-- Shifted by a polynomial of second order in `r²` so that value, slope and curvature vanish at the cutoff. -/
noncomputable def shiftedFourth (φ : ℝ → ℝ) (rc r : ℝ) : ℝ :=
  shiftedSquare φ rc r - (rc * deriv (deriv φ) rc - deriv φ rc) / (8 * rc ^ 3) * (r ^ 2 - rc ^ 2) ^ 2

/-- Damping at short range: `c` times the exponential series of `b r` up to fourth order times `exp (-b r)`, in units of `e²/(4πε₀)`;
none if `b` or `c` vanish. -/
noncomputable def shortDamp (b c r : ℝ) : ℝ :=
  if b = 0 ∨ c = 0 then 0 else c / 14.4 * (∑ k ∈ Finset.range 5, (b * r) ^ k / (k.factorial : ℝ)) * Real.exp (-(b * r))

end Verif.Spec
