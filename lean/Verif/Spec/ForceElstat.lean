/-
What the electrostatic routine is meant to compute: interactions of charges and of given dipoles.  `tail.fn` stands for
`1/r` (times the unit of energy), `tail.grad` and `tail.ggrad` for the derivatives of `tail.fn` and `tail.grad` divided
by the distance.
-/
import Verif.Spec.ForceAdp
import Verif.Model.ForceElstat

namespace Verif.Spec

open Verif.Force

variable {K : Type*} [Field K] [LinearOrder K]

/-- Scalar product. -/
def dot3 (p q : V3 K) : K := ∑ k : Fin 3, p k * q k

/-- Between an atom and its own image half of the interaction is counted: the opposite image is in the list, too. -/
def share (e : Entry K) : K := if e.n.nr = e.own then 1 / 2 else 1

/-- Energy of two charges. -/
def coulombEnergy (E : Elec K) (e : Entry K) : K :=
  if e.n.r < E.cut then share e * (E.charge e.otyp * E.charge e.n.typ * (E.tail e.n.r).fn) else 0

/-- Its derivative with respect to the vector to the neighbour. -/
def coulombVec (E : Elec K) (e : Entry K) : V3 K := fun k =>
  if e.n.r < E.cut then share e * (E.charge e.otyp * E.charge e.n.typ * (E.tail e.n.r).grad * e.n.dist k) else 0

/-- Dipole of an atom; atoms of types without polarisability have none. -/
def moment (E : Elec K) (p : Nat → V3 K) (typ a : Nat) : V3 K := if E.alpha typ = 0 then 0 else p a

/-- Short-range damping of the charge-dipole interaction (value, derivative divided by distance); none if one of its
parameters is zero. -/
def dampTerm (E : Elec K) (n : Neigh K) : K × K :=
  if E.b n.col0 = 0 ∨ E.c n.col0 = 0 then (0, 0) else E.srTerm n.r (E.b n.col0) (E.c n.col0)

/-- Charge-dipole coupling: `p·d` times this is the energy of a unit charge and a dipole at distance `d`. -/
def coupling (E : Elec K) (n : Neigh K) : K := (E.tail n.r).grad * (1 + (dampTerm E n).1)

/-- Derivative divided by distance. -/
def couplingSlope (E : Elec K) (n : Neigh K) : K :=
  (E.tail n.r).ggrad * (1 + (dampTerm E n).1) + (E.tail n.r).grad * (dampTerm E n).2

/-- Charge of the atom times dipole of the neighbour minus charge of the neighbour times dipole of the atom. -/
def crossMoment (E : Elec K) (p : Nat → V3 K) (e : Entry K) : V3 K := fun k =>
  E.charge e.otyp * moment E p e.n.typ e.n.nr k - E.charge e.n.typ * moment E p e.otyp e.own k

/-- Energy of charges and dipoles.  (An atom and its image: the two terms cancel.) -/
def chargeDipole (E : Elec K) (p : Nat → V3 K) (e : Entry K) : K :=
  if e.n.r < E.cut then coupling E e.n * dot3 (crossMoment E p e) e.n.dist else 0

def chargeDipoleVec (E : Elec K) (p : Nat → V3 K) (e : Entry K) : V3 K := fun k =>
  if e.n.r < E.cut then couplingSlope E e.n * dot3 (crossMoment E p e) e.n.dist * e.n.dist k +
    coupling E e.n * crossMoment E p e k else 0

/-- Energy of two dipoles. -/
def dipoleDipole (E : Elec K) (p : Nat → V3 K) (e : Entry K) : K :=
  let m := moment E p e.otyp e.own
  let m' := moment E p e.n.typ e.n.nr
  if e.n.r < E.cut then
    share e * ((E.tail e.n.r).grad * (3 * dot3 m e.n.distR * dot3 m' e.n.distR - dot3 m m')) else 0

def dipoleDipoleVec (E : Elec K) (p : Nat → V3 K) (e : Entry K) : V3 K := fun k =>
  let m := moment E p e.otyp e.own
  let m' := moment E p e.n.typ e.n.nr
  if e.n.r < E.cut then
    share e * ((E.tail e.n.r).ggrad * (3 * dot3 m e.n.distR * dot3 m' e.n.distR - dot3 m m') * e.n.dist k +
      3 * (E.tail e.n.r).grad / e.n.r * (dot3 m' e.n.distR * m k + dot3 m e.n.distR * m' k -
        2 * dot3 m e.n.distR * dot3 m' e.n.distR * e.n.distR k)) else 0

/-- Self energy of the charge and energy needed to polarise the atom. -/
def atomEnergy (dip : Bool) (E : Elec K) (p : Nat → V3 K) (a : Atom K) (i : Nat) : K :=
  (if dip = true ∧ E.alpha a.typ ≠ 0 then dot3 (p i) (p i) / (2 * E.alpha a.typ) else 0) -
    E.selfCoef * E.charge a.typ ^ 2

/-- Energy of one entry of the neighbour lists apart from the pair interaction. -/
def elEntry (dip : Bool) (E : Elec K) (p : Nat → V3 K) (e : Entry K) : K :=
  coulombEnergy E e + if dip = true then chargeDipole E p e + dipoleDipole E p e else 0

def elEntryVec (dip : Bool) (E : Elec K) (p : Nat → V3 K) (e : Entry K) : V3 K :=
  coulombVec E e + if dip = true then chargeDipoleVec E p e + dipoleDipoleVec E p e else 0

/-- Energy of a configuration with dipoles `p`. -/
def elTotal (dip : Bool) (P : Pots K) (E : Elec K) (p : Nat → V3 K) (c : Conf K) : K :=
  totalPairEnergy P c + ((entries c).map (elEntry dip E p)).sum +
    (c.atoms.zipIdx.map fun ak => atomEnergy dip E p ak.1 (c.start + ak.2)).sum

/-- Derivative of the energy with respect to the vectors of the entries at fixed dipoles. -/
def elVec (dip : Bool) (P : Pots K) (E : Elec K) (p : Nat → V3 K) (e : Entry K) : V3 K :=
  along (pairSlope P) e + elEntryVec dip E p e

/-- An atom and its image are of the same type. -/
def TypesMatch (c : Conf K) : Prop := ∀ e ∈ entries c, e.n.nr = e.own → e.n.typ = e.otyp

/-- Two polarisable neighbours carry charges. -/
def PolarCharged (E : Elec K) (c : Conf K) : Prop :=
  ∀ e ∈ entries c, E.alpha e.otyp ≠ 0 → E.alpha e.n.typ ≠ 0 → E.charge e.otyp ≠ 0 ∧ E.charge e.n.typ ≠ 0

end Verif.Spec
