/-
EAM with electrostatics: `calc_forces` of `src/force_eam_elstat.c` 115-1214, configuration by configuration, and the
closing part of the evaluation.  Same simplifications as `Model/ForceElstat.lean` and `Model/ForceEam.lean`; moreover

* the branches for `NORESCALE` are left out: they use names which are not declared (`calc_pot`, `energy_p`, `natoms`,
  556-590, 1112-1142) and do not compile.
-/
import Verif.Model.ForceElstat
import Verif.Model.ForceEam
import Verif.Model.Objective

namespace Verif.Force

variable {K : Type*} [Field K] [LinearOrder K]

/-- The density is always clamped into the range of the embedding function and the excess punished, 538-552. -/
def Build.clamped (b : Build) : Build := { b with rescale := true }

/-- State of the second loop. -/
structure EeAcc (K : Type*) where
  el : ElAcc K
  rho : Nat → K
  gradF : Nat → K
  limit : K
  rhoSum : K

/-- One neighbour in the second loop, 361-534. -/
def eeNeigh2 (b : Build) (dip : Bool) (P : EamPots K) (E : Elec K) (uf us : Bool) (i typ : Nat) (s : EeAcc K)
    (n : Neigh K) : EeAcc K :=
  { s with el := elNeigh2 b dip P.toPots E uf us i typ s.el n, rho := density P i typ s.rho n }

/-- Embedding energy of one atom, 536-592. -/
def eeEmbed (b : Build) (P : EamPots K) (a : Atom K) (i : Nat) (s : EeAcc K) : EeAcc K :=
  let m := embed b.clamped P (P.paircol + P.ntypes + a.typ) (s.rho i)
  { el := { s.el with acc := { s.el.acc with energy := s.el.acc.energy + m.value } }
    rho := Function.update s.rho i m.rho
    gradF := Function.update s.gradF i m.grad
    limit := s.limit + m.limit
    rhoSum := s.rhoSum + m.rho }

/-- Second loop over the atoms, 353-594. -/
def eeLoop2 (b : Build) (dip : Bool) (P : EamPots K) (E : Elec K) (uf us : Bool) :
    List (Atom K) → Nat → EeAcc K → EeAcc K
  | [], _, s => s
  | a :: as, i, s =>
    eeLoop2 b dip P E uf us as (i + 1) (eeEmbed b P a i (a.neigh.foldl (eeNeigh2 b dip P E uf us i a.typ) s))

/-- One neighbour in the fourth loop, 736-929.  As in `src/force_elstat.c`, except that the interaction of the dipole of
the atom with the charge of the neighbour asks for the polarisability of the neighbour (821). -/
def eeNeigh4 (b : Build) (E : Elec K) (uf us : Bool) (p : Nat → V3 K) (i typ : Nat) (s : DipAcc K) (n : Neigh K) :
    DipAcc K :=
  if n.r < E.cut ∧ (E.alpha typ ≠ 0 ∨ E.alpha n.typ ≠ 0) then
    let s := if E.charge typ ≠ 0 ∧ E.alpha n.typ ≠ 0 then monoDip b E uf us p i typ s n else s
    let s := if E.alpha n.typ ≠ 0 ∧ E.charge n.typ ≠ 0 then dipMono b E uf us p i s n else s
    if E.alpha typ ≠ 0 ∧ E.alpha n.typ ≠ 0 then dipDip b E uf us p i s n else s
  else s

/-- Fifth loop, 933-989: self energies only. -/
def eeLoop5 (dip : Bool) (E : Elec K) (p : Nat → V3 K) : List (Atom K) → Nat → Acc K → Acc K
  | [], _, s => s
  | a :: as, i, s => eeLoop5 dip E p as (i + 1) (elSelf dip E p a i s)

/-- The state carried from one configuration (and evaluation) to the next. -/
structure EeState (K : Type*) where
  fv : FV K
  dip : Dip K
  rho : Nat → K
  gradF : Nat → K

/-- Sums after the second loop, 306-594. -/
def eeStart (b : Build) (dip : Bool) (P : EamPots K) (E : Elec K) (c : Conf K) (s : EeState K) : EeAcc K :=
  eeLoop2 b dip P E c.uf c.us c.atoms c.start
    ⟨⟨⟨resetForces c s.fv.force, 0, 0, 0⟩,
      fun a => if dip = true ∧ c.start ≤ a ∧ a < c.start + c.atoms.length then 0 else s.dip.eStat a,
      fun a => if dip = true ∧ c.start ≤ a ∧ a < c.start + c.atoms.length then 0 else s.dip.pSr a⟩,
     fun a => if c.start ≤ a ∧ a < c.start + c.atoms.length then 0 else s.rho a, s.gradF, -c.limit0, 0⟩

/-- The dipoles after the third loop, 597-728. -/
def eeDipoles (b : Build) (dip : Bool) (P : EamPots K) (E : Elec K) (c : Conf K) (s : EeState K) : Dip K :=
  let t := eeStart b dip P E c s
  if dip then dipSolve E c { s.dip with eStat := t.el.eStat, pSr := t.el.pSr } else s.dip

/-- Fourth to sixth loop and the end of a configuration, 730-1089; `gradF` are the slopes of the embedding functions. -/
def eeFinish (b : Build) (dip : Bool) (P : EamPots K) (E : Elec K) (eweight sweight : K) (c : Conf K) (p : Nat → V3 K)
    (gradF : Nat → K) (s : Acc K) : Acc K :=
  let a := if dip then (overNeigh (eeNeigh4 b E c.uf c.us p) c.atoms c.start ⟨s, 0, 0⟩).acc else s
  let a := eeLoop5 dip E p c.atoms c.start a
  let a := if c.uf then forceLoop b c (fun i typ => eamNeigh3 b P c.us gradF i typ) c.atoms c.start a else a
  closeConf b eweight sweight c a

/-- One configuration, 306-1090: contributions to `tmpsum` and `rho_sum`. -/
def eeConf (b : Build) (dip : Bool) (P : EamPots K) (E : Elec K) (eweight sweight : K) (ci : Nat) (c : Conf K)
    (s : EeState K) : EeState K × K × K :=
  let t := eeStart b dip P E c s
  let d := eeDipoles b dip P E c s
  let a := eeFinish b dip P E eweight sweight c d.pInd t.gradF t.el.acc
  (⟨⟨a.force, Function.update s.fv.energy ci a.energy,
     if b.stress then Function.update s.fv.stress ci a.stress else s.fv.stress,
     Function.update s.fv.limit ci t.limit⟩, d, t.rho, t.gradF⟩,
   a.err + c.weight * (t.limit * t.limit), t.rhoSum)

/-- Force vector of the routine with the punishments and the other state. -/
structure EeVector (K : Type*) where
  st : EeState K
  par : Nat → K
  pot : Nat → K
  dummy : Nat → K

/-- Dummy section after the evaluation and the added error, 1108-1143. -/
def eeDummies (b : Build) (P : EamPots K) (dummy0 dummy : Nat → K) : (Nat → K) × K :=
  if b.noPunish then (dummy, 0)
  else
    (fun i => if i < P.ntypes then dummySlope b.clamped P dummy0 i else if i < 2 * P.ntypes then 0 else dummy i,
     ((List.range P.ntypes).map fun g => 0 * 0 + dummySlope b.clamped P dummy0 g * dummySlope b.clamped P dummy0 g).sum)

/-- The value returned, 306-1213. -/
def eeObjective (b : Build) (dip : Bool) (P : EamPots K) (E : Elec K) (ew sw w : K) (qs : List (Bound K))
    (eopp univ : List (Nat × K)) (dummy0 : Nat → K) (confs : List (Conf K)) (v : EeVector K) :
    Except Fault (EeVector K × K) := do
  let r := confLoop (eeConf b dip P E ew sw) confs 0 (v.st, (0, 0))
  let dm := eeDummies b P dummy0 v.dummy
  if b.apot then
    let p ← apotPunish w qs eopp univ v.par v.pot
    .ok (⟨r.1, p.par, p.pot, dm.1⟩, r.2.1 + p.sum + dm.2)
  else .ok (⟨r.1, v.par, v.pot, dm.1⟩, r.2.1 + dm.2)

end Verif.Force
