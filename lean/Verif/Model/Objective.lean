/-
The objective: what `calc_forces` adds to the sum over the configurations, and the value it returns.
`apot_punish` (`src/functions.c` 356-405) and the dummy constraints of the EAM routine
(`src/force_eam.c` 539-604, without `TBEAM`).

Simplification: the two punishment sections and the dummy section of the force vector are functions of
their own (their positions: `Model/Sections.lean`).  The returned value is not NaN in exact arithmetic,
so the guard `10e10` does not occur; a division by zero is a fault.
-/
import Verif.Model.ForceEam

namespace Verif.Force

variable {K : Type*} [Field K] [LinearOrder K]

/-- A fitted parameter with its bounds, `pmin`/`pmax`. -/
structure Bound (K : Type*) where
  value : K
  lo : K
  hi : K

/-- `APOT_PUNISH`, `src/defines.h` 44. -/
def apotPunishConst : K := 10000000

/-- State of `apot_punish`: the sections for parameters and potentials, and `tmpsum`. -/
structure Pun (K : Type*) where
  par : Nat → K
  pot : Nat → K
  sum : K

/-- The first loop, `src/functions.c` 361-378, for parameter number `i`.  A parameter within its bounds
writes nothing. -/
def punishPar (i : Nat) (q : Bound K) (s : Pun K) : Pun K :=
  if q.value < q.lo then
    let v := apotPunishConst * (q.value - q.lo) * (q.value - q.lo)
    { s with par := Function.update s.par i v, sum := s.sum + v }
  else if q.hi < q.value then
    let v := apotPunishConst * (q.value - q.hi) * (q.value - q.hi)
    { s with par := Function.update s.par i v, sum := s.sum + v }
  else s

/-- The loop over all parameters. -/
def punishPars : List (Bound K) → Nat → Pun K → Pun K
  | [], _, s => s
  | q :: qs, i, s => punishPars qs (i + 1) (punishPar i q s)

/-- `eopp`, 380-390: potential number `p` with `x = eta_1 - eta_2`; `w` is `apot_punish_value`. -/
def punishEopp (w : K) (s : Pun K) (px : Nat × K) : Pun K :=
  if px.2 < 0 then
    let v := w * (1 + px.2) * (1 + px.2)
    { s with pot := Function.update s.pot px.1 v, sum := s.sum + v }
  else s

/-- `universal`, 392-403: `x = |m - n|`; closer than `1e-6` divides by the square. -/
def punishUniversal (w : K) (s : Pun K) (px : Nat × K) : Except Fault (Pun K) :=
  if px.2 < 1 / 1000000 then do
    let v ← cdiv w (px.2 * px.2)
    .ok { s with pot := Function.update s.pot px.1 v, sum := s.sum + v }
  else .ok s

/-- `apot_punish`: arguments are the fitted parameters, the pairs for `eopp` and `universal` potentials. -/
def apotPunish (w : K) (qs : List (Bound K)) (eopp univ : List (Nat × K)) (par pot : Nat → K) :
    Except Fault (Pun K) :=
  univ.foldlM (punishUniversal w) (eopp.foldl (punishEopp w) (punishPars qs 0 ⟨par, pot, 0⟩))

/-- Dummy constraints of one type, `src/force_eam.c` 555-583: the slope of the embedding function at
density 1, or with `RESCALE` at the centre of its range and relative to the reference. -/
def dummySlope (b : Build) (P : EamPots K) (dummy0 : Nat → K) (g : Nat) : K :=
  let col := P.paircol + P.ntypes + g
  if b.rescale then dummyWeight * P.grad col ((1 / 2) * (P.beg col + P.fin col)) - dummy0 g
  else dummyWeight * P.grad col 1

/-- Constraint on the mean density, 587-595: present unless `RESCALE`, if the sum is positive. -/
def dummyMean (b : Build) (natoms : Nat) (rhoSum : K) : K :=
  if !b.rescale && decide (0 < rhoSum) then dummyWeight * (rhoSum / (natoms : K) - 1) else 0

/-- The dummy section after the evaluation and the added error, 553-604: entries `0 … ntypes-1` the slopes,
`ntypes … 2 ntypes - 1` zero except the first, the mean density. -/
def eamDummies (b : Build) (P : EamPots K) (dummy0 : Nat → K) (natoms : Nat) (rhoSum : K)
    (dummy : Nat → K) : (Nat → K) × K :=
  if b.noPunish then (dummy, 0)
  else
    (fun i =>
      if i < P.ntypes then dummySlope b P dummy0 i
      else if i = P.ntypes ∧ b.rescale = false ∧ 0 < rhoSum then dummyMean b natoms rhoSum
      else if i < 2 * P.ntypes then 0
      else dummy i,
     ((List.range P.ntypes).map fun g =>
        dummySlope b P dummy0 g * dummySlope b P dummy0 g + 0 * 0).sum +
      dummyMean b natoms rhoSum * dummyMean b natoms rhoSum)

/-- Force vector of the pair routine including the punishment sections. -/
structure PairVec (K : Type*) where
  fv : FV K
  par : Nat → K
  pot : Nat → K

/-- `calc_forces` of `src/force_pair.c` 163-313 for given tables (`P` interpolates the current
parameters): sum over all configurations, with `APOT` the punishments, returned value. -/
def pairObjective (b : Build) (P : Pots K) (ew sw w : K) (qs : List (Bound K))
    (eopp univ : List (Nat × K)) (confs : List (Conf K)) (v : PairVec K) : Except Fault (PairVec K × K) :=
  let r := confLoop (pairConf b P ew sw) confs 0 (v.fv, 0)
  if b.apot then do
    let p ← apotPunish w qs eopp univ v.par v.pot
    .ok (⟨r.1, p.par, p.pot⟩, r.2 + p.sum)
  else .ok (⟨r.1, v.par, v.pot⟩, r.2)

/-- Force vector of the EAM routine with punishments and dummy constraints. -/
structure EamVec (K : Type*) where
  st : EamState K
  par : Nat → K
  pot : Nat → K
  dummy : Nat → K

/-- `calc_forces` of `src/force_eam.c` 189-620. -/
def eamObjective (b : Build) (P : EamPots K) (ew sw w : K) (qs : List (Bound K))
    (eopp univ : List (Nat × K)) (dummy0 : Nat → K) (natoms : Nat) (confs : List (Conf K))
    (v : EamVec K) : Except Fault (EamVec K × K) :=
  let r := confLoop (eamConf b P ew sw) confs 0 (v.st, (0, 0))
  let d := eamDummies b P dummy0 natoms r.2.2 v.dummy
  if b.apot then do
    let p ← apotPunish w qs eopp univ v.par v.pot
    .ok (⟨r.1, p.par, p.pot, d.1⟩, r.2.1 + p.sum + d.2)
  else .ok (⟨r.1, v.par, v.pot, d.1⟩, r.2.1 + d.2)

end Verif.Force
