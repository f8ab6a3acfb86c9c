/-
The objective as a sum of squares.
-/
import Verif.Spec.ForceEam
import Verif.Model.Objective

namespace Verif.Spec

open Verif.Force

variable {K : Type*} [Field K] [LinearOrder K]

/-- Energy deviation of a configuration with total energy `energy`. -/
def energyDev (energy : K) (c : Conf K) : K := energy / (c.atoms.length : K) - c.energy0

/-- Stress deviations. -/
def stressDev (slope : Entry K → K) (c : Conf K) (k : Fin 6) : K :=
  totalStress slope c k / c.vol - c.stress0 k

/-- Contribution of one configuration to the objective. -/
def confError (b : Build) (slope : Entry K → K) (energy ew sw : K) (c : Conf K) : K :=
  (if c.uf = true then c.weight * forceError b slope c else 0) +
  c.weight * ew * energyDev energy c ^ 2 +
  (if b.stress = true ∧ c.uf = true ∧ c.us = true then
    c.weight * sw * ∑ k : Fin 6, stressDev slope c k ^ 2 else 0)

/-- Energy of a configuration with pair interactions: chemical potential contribution and pair
energies. -/
def pairTotal (P : Pots K) (c : Conf K) : K := c.chem + totalPairEnergy P c

/-- Punishment of a parameter outside its bounds. -/
def parPenalty (q : Bound K) : K :=
  if q.value < q.lo then 10000000 * (q.lo - q.value) ^ 2
  else if q.hi < q.value then 10000000 * (q.value - q.hi) ^ 2
  else 0

/-- Punishment of an `eopp` potential with `x = eta_1 - eta_2`. -/
def eoppPenalty (w : K) (px : Nat × K) : K := if px.2 < 0 then w * (1 + px.2) ^ 2 else 0

/-- Punishment of a `universal` potential with `x = |m - n|`. -/
def universalPenalty (w : K) (px : Nat × K) : K := if px.2 < 1 / 1000000 then w / px.2 ^ 2 else 0

/-- Sum of all punishments. -/
def totalPenalty (w : K) (qs : List (Bound K)) (eopp univ : List (Nat × K)) : K :=
  (qs.map parPenalty).sum + (eopp.map (eoppPenalty w)).sum + (univ.map (universalPenalty w)).sum

/-- Slope of the embedding function of atom `x`. -/
def embGrad (b : Build) (P : EamPots K) (c : Conf K) (x : Nat) : K :=
  match c.atoms[x - c.start]? with
  | some a => (embedAt b P c (x - c.start) a).grad
  | none => 0

/-- Slope of pair and EAM interaction of an entry. -/
def eamFullSlope (b : Build) (P : EamPots K) (c : Conf K) (e : Entry K) : K :=
  pairSlope P.toPots e + eamSlope P (embGrad b P c) e

/-- Energy of a configuration with EAM interactions. -/
def eamTotal (b : Build) (P : EamPots K) (c : Conf K) : K :=
  totalPairEnergy P.toPots c + totalEmbedding b P c

/-- Punishment for densities outside the tabulated range (`RESCALE`). -/
def limitError (b : Build) (P : EamPots K) (c : Conf K) : K :=
  if b.rescale = true then
    c.weight * ((c.atoms.zipIdx.map fun ak => (embedAt b P c ak.2 ak.1).limit).sum - c.limit0) ^ 2
  else 0

/-- Mean density of all configurations. -/
def meanDensity (b : Build) (P : EamPots K) (natoms : Nat) (confs : List (Conf K)) : K :=
  (confs.map fun c => (c.atoms.zipIdx.map fun ak => (embedAt b P c ak.2 ak.1).rho).sum).sum / (natoms : K)

/-- The gauge constraints of the EAM routine: slope of each embedding function at density one, mean
density one; with `RESCALE` slope at the centre of the range relative to the reference. -/
def gaugeError (b : Build) (P : EamPots K) (dummy0 : Nat → K) (natoms : Nat) (confs : List (Conf K)) : K :=
  if b.noPunish = true then 0
  else if b.rescale = true then
    ∑ g ∈ Finset.range P.ntypes, (100 * P.grad (P.paircol + P.ntypes + g)
      ((P.beg (P.paircol + P.ntypes + g) + P.fin (P.paircol + P.ntypes + g)) / 2) - dummy0 g) ^ 2
  else
    ∑ g ∈ Finset.range P.ntypes, (100 * P.grad (P.paircol + P.ntypes + g) 1) ^ 2 +
    if 0 < (confs.map fun c => (c.atoms.zipIdx.map fun ak => (embedAt b P c ak.2 ak.1).rho).sum).sum
    then (100 * (meanDensity b P natoms confs - 1)) ^ 2 else 0

end Verif.Spec
