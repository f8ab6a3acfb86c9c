/-
What the ADP routine is meant to compute (Mishin, Mehl, Papaconstantopoulos 2005): besides the EAM energy the
penalties for dipole and quadrupole distortions of the surroundings of the atoms.
-/
import Verif.Spec.Objective
import Verif.Model.ForceAdp

namespace Verif.Spec

open Verif.Force

variable {K : Type*} [Field K] [LinearOrder K]

/-- Dipole function of an entry, zero beyond its range, and its slope. -/
def dipole (P : EamPots K) (e : Entry K) : K := if e.n.r < P.fin (P.dipCol e.n) then P.val (P.dipCol e.n) e.n.r else 0

def dipoleSlope (P : EamPots K) (e : Entry K) : K :=
  if e.n.r < P.fin (P.dipCol e.n) then P.grad (P.dipCol e.n) e.n.r else 0

/-- Quadrupole function of an entry, zero beyond its range, and its slope. -/
def quadrupole (P : EamPots K) (e : Entry K) : K :=
  if e.n.r < P.fin (P.quadCol e.n) then P.val (P.quadCol e.n) e.n.r else 0

def quadrupoleSlope (P : EamPots K) (e : Entry K) : K :=
  if e.n.r < P.fin (P.quadCol e.n) then P.grad (P.quadCol e.n) e.n.r else 0

/-- Contribution of an entry to the dipole distortion of atom `a`: both atoms see each other in opposite directions. -/
def dipoleOn (P : EamPots K) (e : Entry K) (a : Nat) : V3 K := fun k =>
  (if a = e.own then dipole P e * e.n.dist k else 0) - (if a = e.n.nr then dipole P e * e.n.dist k else 0)

/-- Contribution of an entry to the quadrupole distortion of atom `a`; an atom's own image counts once. -/
def quadrupoleOn (P : EamPots K) (e : Entry K) (a : Nat) : Fin 3 → Fin 3 → K := fun k l =>
  (if a = e.own then quadrupole P e * (e.n.dist k * e.n.dist l) else 0) +
  (if a = e.n.nr ∧ e.n.nr ≠ e.own then quadrupole P e * (e.n.dist k * e.n.dist l) else 0)

def totalDipole (P : EamPots K) (c : Conf K) (a : Nat) : V3 K := fun k => ((entries c).map fun e => dipoleOn P e a k).sum

def totalQuadrupole (P : EamPots K) (c : Conf K) (a : Nat) : Fin 3 → Fin 3 → K := fun k l =>
  ((entries c).map fun e => quadrupoleOn P e a k l).sum

/-- Energy of an atom with dipole distortion `m` and quadrupole distortion `q`. -/
def distortion (m : V3 K) (q : Fin 3 → Fin 3 → K) : K :=
  1 / 2 * ∑ k : Fin 3, m k ^ 2 + 1 / 2 * ∑ k : Fin 3, ∑ l : Fin 3, q k l ^ 2 - 1 / 6 * (∑ k : Fin 3, q k k) ^ 2

/-- Sum over all atoms. -/
def totalDistortion (P : EamPots K) (c : Conf K) : K :=
  ∑ j ∈ Finset.range c.atoms.length, distortion (totalDipole P c (c.start + j)) (totalQuadrupole P c (c.start + j))

/-- Derivative with respect to the vector of an entry of a function of its length, halved between an atom and its
own image. -/
def along (slope : Entry K → K) (e : Entry K) : V3 K := fun k =>
  e.n.distR k * (if e.n.nr = e.own then slope e / 2 else slope e)

/-- Derivative of the dipole energies with respect to the vector of an entry. -/
def dipoleVec (P : EamPots K) (mu : Nat → V3 K) (e : Entry K) : V3 K := fun k =>
  (mu e.own k - mu e.n.nr k) * dipole P e +
    (∑ l : Fin 3, (mu e.own l - mu e.n.nr l) * e.n.dist l) * dipoleSlope P e * e.n.distR k

/-- The quadrupole distortions an entry takes part in. -/
def bothQuad (lam : Nat → Fin 3 → Fin 3 → K) (e : Entry K) : Fin 3 → Fin 3 → K := fun k l =>
  lam e.own k l + if e.n.nr = e.own then 0 else lam e.n.nr k l

/-- Derivative of the quadrupole energies with respect to the vector of an entry. -/
def quadrupoleVec (P : EamPots K) (lam : Nat → Fin 3 → Fin 3 → K) (e : Entry K) : V3 K := fun k =>
  2 * quadrupole P e * (∑ l : Fin 3, bothQuad lam e k l * e.n.dist l) +
    ((∑ m : Fin 3, ∑ l : Fin 3, bothQuad lam e m l * (e.n.dist m * e.n.dist l) -
        (∑ m : Fin 3, bothQuad lam e m m) / 3 * e.n.r ^ 2) * quadrupoleSlope P e -
      2 / 3 * (∑ m : Fin 3, bothQuad lam e m m) * quadrupole P e * e.n.r) * e.n.distR k

/-- The part of it the routine leaves out between an atom and its own image. -/
def quadrupoleLost (P : EamPots K) (lam : Nat → Fin 3 → Fin 3 → K) (e : Entry K) : V3 K := fun k =>
  if e.n.nr = e.own then
    quadrupole P e * (∑ l : Fin 3, lam e.own k l * e.n.dist l) +
      (∑ m : Fin 3, ∑ l : Fin 3, lam e.own m l * (e.n.dist m * e.n.dist l)) * quadrupoleSlope P e / 2 * e.n.distR k
  else 0

/-- Derivative of the total energy with respect to the vector of an entry, `gradF` being the slopes of the embedding
functions. -/
def adpVec (P : EamPots K) (gradF : Nat → K) (mu : Nat → V3 K) (lam : Nat → Fin 3 → Fin 3 → K) (e : Entry K) : V3 K :=
  along (fun e => pairSlope P.toPots e + eamSlope P gradF e) e + dipoleVec P mu e + quadrupoleVec P lam e

/-- Force on atom `a` from the derivatives of the energy with respect to the vectors of the entries. -/
def vecForce (g : Entry K → V3 K) (c : Conf K) (a : Nat) : V3 K := fun k =>
  ((entries c).map fun e => (if a = e.own then g e k else 0) - (if a = e.n.nr then g e k else 0)).sum

/-- Stress (times volume) likewise. -/
def vecStress (g : Entry K → V3 K) (c : Conf K) (k : Fin 6) : K :=
  -((entries c).map fun e => e.n.dist (voigt k).1 * g e (voigt k).2).sum

/-- The distance vector is distance times direction. -/
def Aligned (c : Conf K) : Prop := ∀ e ∈ entries c, ∀ k, e.n.dist k = e.n.distR k * e.n.r

/-- `adpVec` with the slopes and distortions of the configuration. -/
def adpFull (b : Build) (P : EamPots K) (c : Conf K) : Entry K → V3 K :=
  adpVec P (embGrad b P c) (totalDipole P c) (totalQuadrupole P c)

/-- Total energy. -/
def adpTotal (b : Build) (P : EamPots K) (c : Conf K) : K :=
  totalPairEnergy P.toPots c + totalEmbedding b P c + totalDistortion P c

/-- Contribution of one configuration to the objective, forces from `g`, stresses from `h`. -/
def vecConfError (b : Build) (g h : Entry K → V3 K) (energy ew sw : K) (c : Conf K) : K :=
  (if c.uf = true then c.weight * (c.atoms.zipIdx.map fun ak =>
    if b.contrib = true ∧ ak.1.contrib = false then 0
    else ∑ k : Fin 3, ((vecForce g c (c.start + ak.2) k - c.force0 (c.start + ak.2) k) / forceScale b ak.1) ^ 2).sum else 0) +
  c.weight * ew * energyDev energy c ^ 2 +
  (if b.stress = true ∧ c.uf = true ∧ c.us = true then
    c.weight * sw * ∑ k : Fin 6, (vecStress h c k / c.vol - c.stress0 k) ^ 2 else 0)

/-- Limiting constraint of a configuration, counted in every build. -/
def adpLimitError (b : Build) (P : EamPots K) (c : Conf K) : K :=
  c.weight * ((c.atoms.zipIdx.map fun ak => (embedAt b P c ak.2 ak.1).limit).sum - c.limit0) ^ 2

/-- Gauge constraints; the mean density is constrained whatever its sign. -/
def adpGaugeError (b : Build) (P : EamPots K) (dummy0 : Nat → K) (natoms : Nat) (confs : List (Conf K)) : K :=
  if b.noPunish = true then 0
  else if b.rescale = true then
    ∑ g ∈ Finset.range P.ntypes, (100 * P.grad (P.paircol + P.ntypes + g)
      ((P.beg (P.paircol + P.ntypes + g) + P.fin (P.paircol + P.ntypes + g)) / 2) - dummy0 g) ^ 2
  else
    ∑ g ∈ Finset.range P.ntypes, (100 * P.grad (P.paircol + P.ntypes + g) 1) ^ 2 +
    (100 * (meanDensity b P natoms confs - 1)) ^ 2

end Verif.Spec
