/-
Energies of infinite periodic crystals with angles: Stillinger-Weber, angular potentials and MEAM.  Sums run over all atoms and
images and over all pairs of them; neither neighbour lists nor their cutoffs occur.
-/
import Verif.Spec.Crystal
import Verif.Model.ThreeBody

namespace Verif.Spec

open Verif.Force
open Verif.Neighbors

/-- Cosine of the angle between two vectors. -/
noncomputable def angleCos (v w : V3 ℝ) : ℝ := (∑ k : Fin 3, v k * w k) / (length v * length w)

/-- Sum over all angles at atom `i`, that is over all pairs of different other atoms and images, each counted once; `ψ` is given
types and vectors of the two. -/
noncomputable def latticeAngles (c : Cell) (i : Nat) (ψ : Nat → V3 ℝ → Nat → V3 ℝ → ℝ) : ℝ :=
  (1 / 2) * ∑ᶠ m ∈ Others c i, ∑ᶠ n ∈ Others c i \ {m}, ψ (c.site m.j).typ (arrow c i m) (c.site n.j).typ (arrow c i n)

/-- A function of the distance between atoms of two types, cut off at its end. -/
noncomputable def endedAt (fin : Nat → ℝ) (val : Nat → ℝ → ℝ) (col : Nat) (r : ℝ) : ℝ := if r < fin col then val col r else 0

/-- Stillinger-Weber energy of an angle at an atom of type `s`. -/
noncomputable def swAngleEnergy (P : SwPots ℝ) (ntypes s t : Nat) (v : V3 ℝ) (u : Nat) (w : V3 ℝ) : ℝ :=
  P.lambda s t u * (endedAt P.fin3 P.f (PairIndex.pairCol ntypes s t) (length v) *
    endedAt P.fin3 P.f (PairIndex.pairCol ntypes s u) (length w)) * (angleCos v w + 1 / 3) ^ 2

/-- Stillinger-Weber energy of the crystal per cell. -/
noncomputable def latticeSw (P : SwPots ℝ) (c : Cell) : ℝ :=
  latticePair P.toPots c + ∑ i ∈ Finset.range c.sites.length,
    latticeAngles c i (swAngleEnergy P c.ntypes (c.site i).typ)

/-- Pair energy of the atoms of the cell with their own images. -/
noncomputable def latticeOwn (P : Pots ℝ) (c : Cell) : ℝ :=
  ∑ i ∈ Finset.range c.sites.length, (1 / 2) * ∑ᶠ m ∈ {m ∈ Others c i | m.j = i},
    phi P c.ntypes (c.site i).typ (c.site m.j).typ (length (arrow c i m))

/-- `f f g` of an angle at an atom of type `s`. -/
noncomputable def angleProduct (P : AngPots ℝ) (ntypes s t : Nat) (v : V3 ℝ) (u : Nat) (w : V3 ℝ) : ℝ :=
  endedAt P.fin P.val (P.fcol (PairIndex.pairCol ntypes s t)) (length v) *
    endedAt P.fin P.val (P.fcol (PairIndex.pairCol ntypes s u)) (length w) * P.val (P.gcol s) (angleCos v w)

/-- Energy of the crystal per cell with an angular potential. -/
noncomputable def latticeAng (P : AngPots ℝ) (c : Cell) : ℝ :=
  latticePair P.toPots c + ∑ i ∈ Finset.range c.sites.length,
    latticeAngles c i (angleProduct P c.ntypes (c.site i).typ)

/-- MEAM density at atom `i`. -/
noncomputable def latticeMeamDensity (P : AngPots ℝ) (c : Cell) (i : Nat) : ℝ :=
  latticeDensity P.toEamPots c i + latticeAngles c i (angleProduct P c.ntypes (c.site i).typ)

/-- MEAM energy of the crystal per cell. -/
noncomputable def latticeMeam (b : Build) (P : AngPots ℝ) (c : Cell) : ℝ :=
  latticePair P.toPots c + ∑ i ∈ Finset.range c.sites.length,
    (meamEmbed b P.toEamPots (P.paircol + P.ntypes + (c.site i).typ) (latticeMeamDensity P c i)).value

/-- Stillinger-Weber energy with the pair energy of atoms with their own images counted half. -/
noncomputable def latticeSwHalved (P : SwPots ℝ) (c : Cell) : ℝ := latticeSw P c - (1 / 2) * latticeOwn P.toPots c

/-- 1000 times the squared distances of MEAM densities from the range of the embedding functions. -/
noncomputable def latticeMeamExcess (P : AngPots ℝ) (c : Cell) : ℝ :=
  ∑ i ∈ Finset.range c.sites.length, 1000 * (max 0 (P.beg (P.paircol + P.ntypes + (c.site i).typ) - latticeMeamDensity P c i) +
    max 0 (latticeMeamDensity P c i - P.fin (P.paircol + P.ntypes + (c.site i).typ))) ^ 2

/-- The force vector contains energy per atom, forces and stresses of the crystal with energy `E` per cell, minus reference data. -/
def Reports (b : Build) (E : Cell → ℝ) (v : FV ℝ) (ci : Nat) (c : Cell) (f : Conf ℝ) : Prop :=
  v.energy ci = E c / (c.sites.length : ℝ) - f.energy0 ∧
  (f.uf = true → ∀ j a, f.atoms[j]? = some a → ∀ k, DifferentiableAt ℝ (fun y => E (displaced c j k y)) ((c.site j).pos k) ∧
    v.force (c.start + j) k = (crystalForce E c j k - f.force0 (c.start + j) k) / forceScale b a) ∧
  (b.stress = true → f.uf = true → f.us = true → ∀ k,
    DifferentiableAt ℝ (fun e => E (strainedCell c (voigt k).2 (voigt k).1 e)) 0 ∧
    v.stress ci k = crystalVirial E c k / f.vol - f.stress0 k)

end Verif.Spec
