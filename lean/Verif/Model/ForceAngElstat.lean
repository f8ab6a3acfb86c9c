/-
Forces of angular potentials with electrostatics: `calc_forces` of `src/force_ang_elstat.c` 116-631, configuration by
configuration, and the value returned.  Same simplifications as `Model/ThreeBody.lean` and `Model/ForceElstat.lean`;
the charges (208-224, the statements of `src/force_elstat.c` 182-194) are `elCharges`, the tail functions belong to the current
`kappa` (347-356 and `init_forces` 60-64).  The angles of an atom are the ones within the range of both neighbours
(`init_angles`, `src/config.c`), so that `angle++` inside the test of both distances meets the right entry.
-/
import Verif.Model.ForceElstat
import Verif.Model.ObjectiveFull

namespace Verif.Force

variable {K : Type*} [Field K] [LinearOrder K]

/-- Two charges on a full neighbour list, 358-392: half of the energy, half of the force on both atoms. -/
def coulNeigh (b : Build) (E : Elec K) (uf us : Bool) (i typ : Nat) (s : Acc K) (n : Neigh K) : Acc K :=
  if n.r < E.cut ∧ (E.charge typ ≠ 0 ∨ E.charge n.typ ≠ 0) then
    let fnval := E.charge typ * E.charge n.typ * (E.tail n.r).fn
    let grad := E.charge typ * E.charge n.typ * (E.tail n.r).grad
    let s := { s with energy := s.energy + 1 / 2 * fnval }
    if uf then
      let tmp : V3 K := fun k => 1 / 2 * n.dist k * grad
      { s with
        force := scatter s.force i n.nr tmp
        stress := if b.stress && us then s.stress - virial n.dist tmp else s.stress }
    else s
  else s

/-- Second loop for one atom, 288-533: pair function and charges neighbour by neighbour, then the angles. -/
def angElAtom (b : Build) (P : AngPots K) (E : Elec K) (c : Conf K) (i : Nat) (a : Atom K) (s : Acc K) : Acc K :=
  let s := a.neigh.foldl (fun s n => coulNeigh b E c.uf c.us i a.typ (fullPair b false P.toPots c.uf c.us i s n) n) s
  let t := pairsLoop (fun nj => decide (nj.r < P.fin (P.fcol nj.col0))) (angAngle b P c.uf c.us i a.typ) a.neigh
    { s with energy := 0 }
  { t with energy := s.energy + t.energy }

/-- Third loop for one atom, 545-575: self energy of the charge, then weighting and error of the force (unlike
`src/force_ang.c` for configurations using forces only). -/
def angElClose (b : Build) (E : Elec K) (c : Conf K) (i : Nat) (a : Atom K) (s : Acc K) : Acc K :=
  closeAtom b c a i (elSelf false E (fun _ => 0) a i s)

/-- One configuration, 248-600. -/
def angElConf (b : Build) (P : AngPots K) (E : Elec K) (eweight sweight : K) (ci : Nat) (c : Conf K) (fv : FV K) :
    FV K × K :=
  let s := atomLoop (angElAtom b P E c) c.atoms c.start ⟨resetForces c fv.force, 0, 0, 0⟩
  let s := atomLoop (angElClose b E c) c.atoms c.start s
  let s := closeConfAlways b eweight sweight c s
  (⟨s.force, Function.update fv.energy ci s.energy,
    if b.stress then Function.update fv.stress ci s.stress else fv.stress, fv.limit⟩, s.err)

/-- The value, 602-633. -/
def angElObjective (b : Build) (P : AngPots K) (E : Elec K) (ew sw w : K) (qs : List (Bound K)) (eopp univ : List (Nat × K))
    (confs : List (Conf K)) (v : PairVec K) : Except Fault (PairVec K × K) :=
  sumObjective b (angElConf b P E ew sw) w qs eopp univ confs v

end Verif.Force
