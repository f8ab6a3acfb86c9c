/-
Fields and dipole moments of the electrostatic routine as sums over the neighbour lists.
-/
import Verif.Spec.ForceElstat

namespace Verif.Spec

open Verif.Force

variable {K : Type*} [Field K] [LinearOrder K]

/-- Field of the charges at atom `i`. -/
def staticField (E : Elec K) (c : Conf K) (i : Nat) : V3 K := fun k =>
  ((entries c).map fun e => if e.n.r < E.cut then share e * ((E.tail e.n.r).grad * e.n.dist k *
    ((if i = e.own then E.charge e.n.typ else 0) - if i = e.n.nr then E.charge e.otyp else 0)) else 0).sum

/-- Moment induced by the short-range interaction with the charges at atom `i`; `E.srValue r α b c` is the damping
function. -/
def shortMoment (E : Elec K) (c : Conf K) (i : Nat) : V3 K := fun k =>
  ((entries c).map fun e => if e.n.r < E.cut ∧ E.b e.n.col0 ≠ 0 ∧ E.c e.n.col0 ≠ 0 then
    (E.tail e.n.r).grad * e.n.r * e.n.distR k *
      ((if i = e.own ∧ E.alpha e.otyp ≠ 0 then
          E.charge e.n.typ * E.srValue e.n.r (E.alpha e.otyp) (E.b e.n.col0) (E.c e.n.col0) else 0) -
        if i = e.n.nr ∧ e.n.nr ≠ e.own ∧ E.alpha e.n.typ ≠ 0 then
          E.charge e.otyp * E.srValue e.n.r (E.alpha e.n.typ) (E.b e.n.col0) (E.c e.n.col0) else 0) else 0).sum

/-- One term of the field of dipole `m` in direction `u`. -/
def dipoleTerm (g : K) (m u : V3 K) : V3 K := fun k => g * (3 * dot3 m u * u k - m k)

/-- The field of the dipoles `p` at atom `i` as the routine takes it (see C69 for its sign). -/
def dipoleField (E : Elec K) (c : Conf K) (p : Nat → V3 K) (i : Nat) : V3 K := fun k =>
  ((entries c).map fun e => if e.n.r < E.cut ∧ E.alpha e.otyp ≠ 0 ∧ E.alpha e.n.typ ≠ 0 then
    (if i = e.own then dipoleTerm (E.tail e.n.r).grad (p e.n.nr) e.n.distR k else 0) +
      (if i = e.n.nr ∧ e.n.nr ≠ e.own then dipoleTerm (E.tail e.n.r).grad (p e.own) e.n.distR k else 0) else 0).sum

/-- Sum over the polarisable atoms of a configuration. -/
def polarSum (E : Elec K) (c : Conf K) (f : K → Nat → K) : K :=
  (c.atoms.zipIdx.map fun ak => if E.alpha ak.1.typ = 0 then 0 else f (E.alpha ak.1.typ) (c.start + ak.2)).sum

/-- Mean square deviation of the dipoles from those induced by the fields of charges and dipoles. -/
def inconsistency (E : Elec K) (c : Conf K) (p : Nat → V3 K) : K :=
  polarSum E c (fun α i => ∑ k : Fin 3,
    (p i k - (α * (staticField E c i k + dipoleField E c p i k) + shortMoment E c i k)) ^ 2) / (3 * (c.atoms.length : K))

/-- The polarisable atoms have the dipoles of the static field. -/
def StaticOnly (E : Elec K) (c : Conf K) (p : Nat → V3 K) : Prop :=
  ∀ j a, c.atoms[j]? = some a → E.alpha a.typ ≠ 0 →
    p (c.start + j) = fun k => E.alpha a.typ * staticField E c (c.start + j) k + shortMoment E c (c.start + j) k

end Verif.Spec
