/-
What the force routines are meant to compute, as sums over the neighbour lists, without running sums,
resets and orders of evaluation.
-/
import Verif.Model.Force

namespace Verif.Spec

open Verif.Force

variable {K : Type*} [Field K] [LinearOrder K]

/-- An entry of a neighbour list: number and type of the atom owning the list, and the neighbour. -/
structure Entry (K : Type*) where
  own : Nat
  otyp : Nat
  n : Neigh K

/-- All entries of the neighbour lists of atoms `i, i+1, …`. -/
def entriesFrom : Nat → List (Atom K) → List (Entry K)
  | _, [] => []
  | i, a :: as => a.neigh.map (fun n => ⟨i, a.typ, n⟩) ++ entriesFrom (i + 1) as

/-- All entries of the neighbour lists of a configuration. -/
def entries (c : Conf K) : List (Entry K) := entriesFrom c.start c.atoms

/-- The neighbour lists are half lists: a pair of atoms is stored with the atom of lower number, and
neighbours belong to the same configuration (`src/config.c` 1104-1105, `j_start = i`). -/
def HalfList (c : Conf K) : Prop :=
  ∀ e ∈ entries c, e.own ≤ e.n.nr ∧ e.n.nr < c.start + c.atoms.length

/-- Energy of one entry: an atom and its own periodic image share the interaction with the opposite
image, which is in the list as well. -/
def pairEnergy (P : Pots K) (e : Entry K) : K :=
  if e.n.r < P.fin e.n.col0 then
    if e.n.nr = e.own then P.val e.n.col0 e.n.r / 2 else P.val e.n.col0 e.n.r
  else 0

/-- Force along the connection line. -/
def pairSlope (P : Pots K) (e : Entry K) : K :=
  if e.n.r < P.fin e.n.col0 then P.grad e.n.col0 e.n.r else 0

/-- Force of one entry on atom `a`: along the connection line on the atom owning the entry, opposite on
the neighbour, none if both are the same atom. -/
def forceOn (slope : Entry K → K) (e : Entry K) (a : Nat) : V3 K :=
  if e.own = e.n.nr then 0
  else if a = e.own then fun k => e.n.distR k * slope e
  else if a = e.n.nr then fun k => -(e.n.distR k * slope e)
  else 0

/-- Total force on atom `a`. -/
def totalForce (slope : Entry K → K) (c : Conf K) (a : Nat) : V3 K :=
  ((entries c).map fun e => forceOn slope e a).sum

/-- Total energy of the pair interactions. -/
def totalPairEnergy (P : Pots K) (c : Conf K) : K := ((entries c).map (pairEnergy P)).sum

/-- The component pairs of a stress tensor in the order xx, yy, zz, xy, yz, zx. -/
def voigt : Fin 6 → Fin 3 × Fin 3 := ![(0, 0), (1, 1), (2, 2), (0, 1), (1, 2), (2, 0)]

/-- Stress of one entry: minus the product of distance vector and force, half of it between an atom and
its own image. -/
def entryStress (slope : Entry K → K) (e : Entry K) : Fin 6 → K := fun k =>
  let w : K := if e.n.nr = e.own then slope e / 2 else slope e
  e.n.dist (voigt k).1 * e.n.distR (voigt k).2 * (-w)

/-- Total stress (times volume). -/
def totalStress (slope : Entry K → K) (c : Conf K) : Fin 6 → K :=
  ((entries c).map (entryStress slope)).sum

/-- Divisor of the force deviations: `FORCE_EPS + |reference force|` with `FWEIGHT`, 1 without. -/
def forceScale (b : Build) (a : Atom K) : K := if b.fweight then 1 / 10 + a.absforce else 1

/-- Weighted force deviation of atom `i`. -/
def deviation (b : Build) (slope : Entry K → K) (c : Conf K) (a : Atom K) (i : Nat) : V3 K :=
  fun k => (totalForce slope c i k - c.force0 i k) / forceScale b a

/-- Sum of the squared force deviations of the contributing atoms. -/
def forceError (b : Build) (slope : Entry K → K) (c : Conf K) : K :=
  (c.atoms.zipIdx.map fun ak =>
    if b.contrib = true ∧ ak.1.contrib = false then 0
    else ∑ k : Fin 3, (deviation b slope c ak.1 (c.start + ak.2) k) ^ 2).sum

end Verif.Spec
