/-
The value returned by the force routines working on full neighbour lists: sum over the configurations, punishments,
and for MEAM the constraint on the mean density.
`src/force_stiweb.c` 352-378, `src/force_tersoff.c` 401-426 and 758-783, `src/force_ang.c` 508-527,
`src/force_meam.c` 714-759.

Simplifications as in `Model/Objective.lean`.
-/
import Verif.Model.Tersoff
import Verif.Model.Objective

namespace Verif.Force

variable {K : Type*} [Field K] [LinearOrder K]

/-- A routine without constraints of its own: `one` evaluates one configuration. -/
def sumObjective (b : Build) (one : Nat → Conf K → FV K → FV K × K) (w : K) (qs : List (Bound K))
    (eopp univ : List (Nat × K)) (confs : List (Conf K)) (v : PairVec K) : Except Fault (PairVec K × K) :=
  let r := confLoop one confs 0 (v.fv, 0)
  if b.apot then do
    let p ← apotPunish w qs eopp univ v.par v.pot
    .ok (⟨r.1, p.par, p.pot⟩, r.2 + p.sum)
  else .ok (⟨r.1, v.par, v.pot⟩, r.2)

/-- Stillinger-Weber; `apot_punish` is called always, the routine is compiled with `APOT` only. -/
def swObjective (b : Build) (P : SwPots K) (ew sw w : K) (qs : List (Bound K)) (eopp univ : List (Nat × K))
    (confs : List (Conf K)) (v : PairVec K) : Except Fault (PairVec K × K) :=
  sumObjective { b with apot := true } (swConf b P ew sw) w qs eopp univ confs v

/-- Tersoff. -/
def tersObjective (b : Build) (L : Lib K) (p : TersPars K) (ew sw w : K) (qs : List (Bound K))
    (eopp univ : List (Nat × K)) (confs : List (Conf K)) (v : PairVec K) : Except Fault (PairVec K × K) :=
  sumObjective { b with apot := true } (tersConf b L p ew sw) w qs eopp univ confs v

/-- Modified Tersoff. -/
def modObjective (b : Build) (L : Lib K) (p : TersModPars K) (ew sw w : K) (qs : List (Bound K))
    (eopp univ : List (Nat × K)) (confs : List (Conf K)) (v : PairVec K) : Except Fault (PairVec K × K) :=
  sumObjective { b with apot := true } (modConf b L p ew sw) w qs eopp univ confs v

/-- Angular potentials. -/
def angObjective (b : Build) (P : AngPots K) (ew sw w : K) (qs : List (Bound K)) (eopp univ : List (Nat × K))
    (confs : List (Conf K)) (v : PairVec K) : Except Fault (PairVec K × K) :=
  sumObjective b (angConf b P ew sw) w qs eopp univ confs v

/-- Force vector of the MEAM routine. -/
structure MeamVec (K : Type*) where
  fv : FV K
  par : Nat → K
  pot : Nat → K
  dummy : Nat → K

/-- The constraint on the mean density, `src/force_meam.c` 733-745: written without `RESCALE`, into entry `ntypes` of the
dummy section; neither `NOPUNISH` nor the sign of the sum is asked, the slopes of the embedding functions are not
constrained. -/
def meamDummy (b : Build) (ntypes natoms : Nat) (rhoSum : K) (dummy : Nat → K) : (Nat → K) × K :=
  if b.rescale then (dummy, 0)
  else
    let x := dummyWeight * (rhoSum / (natoms : K) - 1)
    (Function.update dummy ntypes x, x * x)

/-- MEAM. -/
def meamObjective (b : Build) (P : AngPots K) (ew sw w : K) (qs : List (Bound K)) (eopp univ : List (Nat × K))
    (natoms : Nat) (confs : List (Conf K)) (v : MeamVec K) : Except Fault (MeamVec K × K) :=
  let r := confLoop (meamConf b P ew sw) confs 0 (v.fv, (0, 0))
  let d := meamDummy b P.ntypes natoms r.2.2 v.dummy
  if b.apot then do
    let p ← apotPunish w qs eopp univ v.par v.pot
    .ok (⟨r.1, p.par, p.pot, d.1⟩, r.2.1 + p.sum + d.2)
  else .ok (⟨r.1, v.par, v.pot, d.1⟩, r.2.1 + d.2)

end Verif.Force
