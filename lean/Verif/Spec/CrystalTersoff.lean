/-
Energies of infinite periodic crystals with Tersoff potentials (J. Tersoff, Phys. Rev. B 39 (1989) 5566) and modified Tersoff
potentials (T. Kumagai et al., Comp. Mat. Sci. 39 (2007) 457).  Sums run over all atoms and images; neither neighbour lists nor
their cutoffs occur.  Powers are real powers.
-/
import Mathlib.Analysis.SpecialFunctions.Pow.Real
import Mathlib.Analysis.SpecialFunctions.Trigonometric.Basic
import Verif.Spec.CrystalAngles
import Verif.Model.Tersoff

namespace Verif.Spec

open Verif.Force
open Verif.Neighbors

/-- Sum over all bonds of atom `i`: the energy of a bond depends on its vector and on the sum of `ζ` over all other bonds of the
atom. -/
noncomputable def latticeBonds (c : Cell) (i : Nat) (bond : Nat → V3 ℝ → ℝ → ℝ) (ζ : Nat → V3 ℝ → Nat → V3 ℝ → ℝ) : ℝ :=
  ∑ᶠ m ∈ Others c i, bond (c.site m.j).typ (arrow c i m)
    (∑ᶠ n ∈ Others c i \ {m}, ζ (c.site m.j).typ (arrow c i m) (c.site n.j).typ (arrow c i n))

/-! ### Tersoff -/

/-- Cutoff function: 1 up to `R`, 0 from `S` on, half a cosine between. -/
noncomputable def cosineEnd (R S r : ℝ) : ℝ :=
  if r < R then 1 else if r < S then (1 + Real.cos (Real.pi * ((r - R) / (S - R)))) / 2 else 0

/-- Repulsion `f_C A exp(-λ r)`, a pair potential (only range and values are used). -/
noncomputable def tersoffRepulsion (p : TersPars ℝ) : Pots ℝ where
  beg := fun _ => 0
  step := fun _ => 1
  fin := p.S
  val := fun col r => cosineEnd (p.R col) (p.S col) r * (p.A col * Real.exp (-(p.lambda col * r)))
  grad := fun _ _ => 0

/-- `g(θ) = 1 + c²/d² - c²/(d² + (h - cos θ)²)`. -/
noncomputable def tersoffAngle (c d h x : ℝ) : ℝ := 1 + c ^ 2 / d ^ 2 - c ^ 2 / (d ^ 2 + (h - x) ^ 2)

/-- Contribution of an atom of type `u` at `w` to `ζ` of the bond from an atom of type `s` to one of type `t` at `v`. -/
noncomputable def tersoffZeta (p : TersPars ℝ) (ntypes s t : Nat) (v : V3 ℝ) (u : Nat) (w : V3 ℝ) : ℝ :=
  cosineEnd (p.R (PairIndex.pairCol ntypes s u)) (p.S (PairIndex.pairCol ntypes s u)) (length w) *
    p.omega (PairIndex.pairCol ntypes s u) *
    tersoffAngle (p.c (PairIndex.pairCol ntypes s t)) (p.d (PairIndex.pairCol ntypes s t)) (p.h (PairIndex.pairCol ntypes s t))
      (angleCos v w)

/-- Attraction `-½ f_C B exp(-μ r) (1 + (γ ζ)^n)^(-1/(2n))` of a bond. -/
noncomputable def tersoffBond (p : TersPars ℝ) (ntypes s t : Nat) (v : V3 ℝ) (z : ℝ) : ℝ :=
  let col := PairIndex.pairCol ntypes s t;
  -(1 / 2) * cosineEnd (p.R col) (p.S col) (length v) * p.B col * Real.exp (-(p.mu col * length v)) *
    (1 + (p.gamma col * z) ^ p.n col) ^ (-(1 / (2 * p.n col)))

/-- Tersoff energy of the crystal per cell. -/
noncomputable def latticeTersoff (p : TersPars ℝ) (c : Cell) : ℝ :=
  latticePair (tersoffRepulsion p) c + ∑ i ∈ Finset.range c.sites.length,
    latticeBonds c i (tersoffBond p c.ntypes (c.site i).typ) (tersoffZeta p c.ntypes (c.site i).typ)

/-- The same with the repulsion of atoms and their own images counted half. -/
noncomputable def latticeTersoffHalved (p : TersPars ℝ) (c : Cell) : ℝ :=
  latticeTersoff p c - (1 / 2) * latticeOwn (tersoffRepulsion p) c

/-! ### Modified Tersoff -/

/-- Cutoff function of the modified potential. -/
noncomputable def cosinesEnd (R S r : ℝ) : ℝ :=
  if r < R then 1 else if r < S then
    1 / 2 + 9 / 16 * Real.cos (Real.pi * ((r - R) / (S - R))) - 1 / 16 * Real.cos (3 * (Real.pi * ((r - R) / (S - R))))
  else 0

/-- Repulsion. -/
noncomputable def modRepulsion (p : TersModPars ℝ) : Pots ℝ where
  beg := fun _ => 0
  step := fun _ => 1
  fin := p.R2
  val := fun col r => cosinesEnd (p.R1 col) (p.R2 col) r * (p.A col * Real.exp (-(p.lambda col * r)))
  grad := fun _ _ => 0

/-- `g(θ) = c₁ + c₂ x²/(c₃ + x²) (1 + c₄ exp(-c₅ x²))` with `x = h - cos θ`. -/
noncomputable def modAngle (c1 c2 c3 c4 c5 h x : ℝ) : ℝ :=
  c1 + c2 * (h - x) ^ 2 / (c3 + (h - x) ^ 2) * (1 + c4 * Real.exp (-(c5 * (h - x) ^ 2)))

/-- Contribution to `ζ`. -/
noncomputable def modZeta (p : TersModPars ℝ) (ntypes s t : Nat) (v : V3 ℝ) (u : Nat) (w : V3 ℝ) : ℝ :=
  let col := PairIndex.pairCol ntypes s t;
  cosinesEnd (p.R1 (PairIndex.pairCol ntypes s u)) (p.R2 (PairIndex.pairCol ntypes s u)) (length w) *
    modAngle (p.c1 col) (p.c2 col) (p.c3 col) (p.c4 col) (p.c5 col) (p.h col) (angleCos v w) *
    Real.exp (p.alpha col * (length v - length w) ^ p.beta col)

/-- Attraction of a bond. -/
noncomputable def modAttraction (p : TersModPars ℝ) (ntypes s t : Nat) (v : V3 ℝ) (z : ℝ) : ℝ :=
  let col := PairIndex.pairCol ntypes s t;
  -(1 / 2) * cosinesEnd (p.R1 col) (p.R2 col) (length v) * p.B col * Real.exp (-(p.mu col * length v)) *
    (1 + z ^ p.eta col) ^ (-p.delta col)

/-- Energy of the crystal per cell. -/
noncomputable def latticeModified (p : TersModPars ℝ) (c : Cell) : ℝ :=
  latticePair (modRepulsion p) c + ∑ i ∈ Finset.range c.sites.length,
    latticeBonds c i (modAttraction p c.ntypes (c.site i).typ) (modZeta p c.ntypes (c.site i).typ)

/-- The same with the repulsion of atoms and their own images counted half. -/
noncomputable def latticeModifiedHalved (p : TersModPars ℝ) (c : Cell) : ℝ :=
  latticeModified p c - (1 / 2) * latticeOwn (modRepulsion p) c

end Verif.Spec
