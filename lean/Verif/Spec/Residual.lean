/-
The objective in terms of the residuals reported in the force vector.
-/
import Verif.Model.ThreeBody
import Verif.Spec.Terms

namespace Verif.Spec

open Verif.Force

variable {K : Type*} [Field K] [LinearOrder K]

/-- Every neighbour is an atom of the configuration. -/
def Inside (c : Conf K) : Prop :=
  ∀ a ∈ c.atoms, ∀ n ∈ a.neigh, c.start ≤ n.nr ∧ n.nr < c.start + c.atoms.length

/-- Sum of the squared force residuals of the atoms which count. -/
def forceResidual (b : Build) (v : FV K) (c : Conf K) : K :=
  (c.atoms.zipIdx.map fun ak => if b.contrib = true ∧ ak.1.contrib = false then 0
    else ∑ x : Fin 3, v.force (c.start + ak.2) x ^ 2).sum

/-- Weighted sum of the squared residuals of configuration number `k`: forces if they are used, energy, stresses if
they are used. -/
def residualError (b : Build) (ew sw : K) (v : FV K) (k : Nat) (c : Conf K) : K :=
  (if c.uf = true then c.weight * forceResidual b v c else 0) + c.weight * ew * v.energy k ^ 2 +
  if b.stress = true ∧ c.uf = true ∧ c.us = true then c.weight * sw * ∑ x : Fin 6, v.stress k x ^ 2 else 0

/-- Density of an atom in MEAM: transfer functions of its neighbours, and `f f g` of the pairs of neighbours. -/
def siteDensity (P : AngPots K) (a : Atom K) : K :=
  (a.neigh.map fun n => if n.r < P.fin n.col1 then P.val n.col1 n.r else 0).sum +
  ((pairsOf a.neigh).map fun p => (if p.1.r < P.fin (P.fcol p.1.col0) then P.val (P.fcol p.1.col0) p.1.r else 0) *
    (if p.2.r < P.fin (P.fcol p.2.col0) then P.val (P.fcol p.2.col0) p.2.r else 0) *
    P.val (P.gcol a.typ) (∑ x : Fin 3, p.1.distR x * p.2.distR x)).sum

/-- Punishment of the densities of a configuration which lie outside of the range of the embedding functions: 1000
times the squared distance from the range, summed over the atoms. -/
def meamExcess (P : AngPots K) (c : Conf K) : K :=
  (c.atoms.map fun a => 1000 * (max 0 (P.beg (P.paircol + P.ntypes + a.typ) - siteDensity P a) +
    max 0 (siteDensity P a - P.fin (P.paircol + P.ntypes + a.typ))) ^ 2).sum - c.limit0

/-- Mean density of all atoms. -/
def meamMean (P : AngPots K) (natoms : Nat) (confs : List (Conf K)) : K :=
  (confs.map fun c => (c.atoms.map fun a => siteDensity P a).sum).sum / (natoms : K)

end Verif.Spec
