/-
Two-band EAM: `calc_forces` of `src/force_eam.c` 113-627 with `TBEAM`, configuration by configuration, and the closing part
of the evaluation.  Same simplifications as `Model/ForceEam.lean`.

The statements for the second band (296-304, 313-318, 345-356, 392-421, 459-471, 561-575, 581-584, 596-604) repeat those of
the first band with the columns `col[2]`, `paircol + 2*ntypes + type` and `paircol + 3*ntypes + type`.  They are modelled by
the functions of the first band applied to the band's columns (`EamPots.second`, `Neigh.second`).
-/
import Verif.Model.ForceEam
import Verif.Model.Objective

namespace Verif.Force

variable {K : Type*} [Field K] [LinearOrder K]

/-- The columns of the second band: transfer functions from `paircol + 2*ntypes`, embedding functions (`col_F_s`) from
`paircol + 3*ntypes`. -/
def EamPots.second (P : EamPots K) : EamPots K := { P with paircol := P.paircol + 2 * P.ntypes }

/-- The entry with `col[2]` in place of `col[1]`, `src/config.c` 1244-1248. -/
def Neigh.second (P : EamPots K) (n : Neigh K) : Neigh K := { n with col1 := P.paircol + 2 * P.ntypes + n.typ }

/-- Running sums of one configuration: those of the first band (the energy, forces and `limit` are common) and density,
slope and sum of the densities of the second. -/
structure TbAcc (K : Type*) where
  eam : EamAcc K
  rhoS : Nat → K
  gradS : Nat → K
  rhoSumS : K

/-- One neighbour in the second loop, 235-320. -/
def tbNeigh2 (b : Build) (P : EamPots K) (c : Conf K) (i typ : Nat) (s : TbAcc K) (n : Neigh K) : TbAcc K :=
  { s with eam := eamNeigh2 b P c i typ s.eam n, rhoS := density P.second i typ s.rhoS (n.second P) }

/-- Embedding energies of both bands, 322-421. -/
def tbEmbed (b : Build) (P : EamPots K) (a : Atom K) (i : Nat) (s : TbAcc K) : TbAcc K :=
  let t := eamEmbed b P a i s.eam
  let m := embed b P.second (P.second.paircol + P.ntypes + a.typ) (s.rhoS i)
  { eam := { t with acc := { t.acc with energy := t.acc.energy + m.value }, limit := t.limit + m.limit }
    rhoS := Function.update s.rhoS i m.rho
    gradS := Function.update s.gradS i m.grad
    rhoSumS := s.rhoSumS + m.rho }

/-- Second loop over the atoms, 230-423. -/
def tbLoop2 (b : Build) (P : EamPots K) (c : Conf K) : List (Atom K) → Nat → TbAcc K → TbAcc K
  | [], _, s => s
  | a :: as, i, s => tbLoop2 b P c as (i + 1) (tbEmbed b P a i (a.neigh.foldl (tbNeigh2 b P c i a.typ) s))

/-- Slope of both bands for one entry, 443-472: the second band is looked at inside of the block of the first. -/
def tbSlopeC (P : EamPots K) (gradF gradS : Nat → K) (i typ : Nat) (n : Neigh K) : K :=
  if n.r < P.fin n.col1 ∨ n.r < P.fin (P.paircol + typ) then
    eamSlopeC P gradF i typ n + eamSlopeC P.second gradS i typ (n.second P)
  else 0

/-- One neighbour in the third loop, 433-500. -/
def tbNeigh3 (b : Build) (P : EamPots K) (us : Bool) (gradF gradS : Nat → K) (i typ : Nat) (s : Acc K) (n : Neigh K) :
    Acc K :=
  if n.r < P.fin n.col1 ∨ n.r < P.fin (P.paircol + typ) then
    let g := tbSlopeC P gradF gradS i typ n
    let g := if n.nr = i then g * (1 / 2) else g
    let tmp : V3 K := fun c => n.distR c * g
    { s with
      force := scatter s.force i n.nr tmp
      stress := if b.stress && us then s.stress - virial n.dist tmp else s.stress }
  else s

/-- The state carried from one configuration (and evaluation) to the next. -/
structure TbState (K : Type*) where
  fv : FV K
  rho : Nat → K
  gradF : Nat → K
  rhoS : Nat → K
  gradS : Nat → K

/-- One configuration, 195-537: contributions to `error_sum`, `rho_sum` and `rho_s_sum`. -/
def tbConf (b : Build) (P : EamPots K) (eweight sweight : K) (ci : Nat) (c : Conf K) (s : TbState K) :
    TbState K × K × K × K :=
  let fresh : (Nat → K) → Nat → K := fun old a => if c.start ≤ a ∧ a < c.start + c.atoms.length then 0 else old a
  let lim0 : K := if b.rescale then -c.limit0 else 0
  let t := tbLoop2 b P c c.atoms c.start
    ⟨⟨⟨resetForces c s.fv.force, 0, 0, 0⟩, fresh s.rho, s.gradF, lim0, 0⟩, fresh s.rhoS, s.gradS, 0⟩
  let a := if c.uf then
      forceLoop b c (fun i typ => tbNeigh3 b P c.us t.eam.gradF t.gradS i typ) c.atoms c.start t.eam.acc
    else t.eam.acc
  let a := closeConf b eweight sweight c a
  let err := if b.rescale then a.err + c.weight * (t.eam.limit * t.eam.limit) else a.err
  (⟨⟨a.force, Function.update s.fv.energy ci a.energy,
     if b.stress then Function.update s.fv.stress ci a.stress else s.fv.stress,
     if b.rescale then Function.update s.fv.limit ci t.eam.limit else s.fv.limit⟩,
    t.eam.rho, t.eam.gradF, t.rhoS, t.gradS⟩,
   err, t.eam.rhoSum, t.rhoSumS)

/-- The dummy section and the added error, 553-604: entries `2*ntypes … 4*ntypes-1` belong to the second band. -/
def tbDummies (b : Build) (P : EamPots K) (dummy0 : Nat → K) (natoms : Nat) (rhoSum rhoSumS : K) (dummy : Nat → K) :
    (Nat → K) × K :=
  let d := eamDummies b P dummy0 natoms rhoSum dummy
  let e := eamDummies b P.second (fun g => dummy0 (2 * P.ntypes + g)) natoms rhoSumS (fun i => dummy (2 * P.ntypes + i))
  (fun i => if i < 2 * P.ntypes then d.1 i else e.1 (i - 2 * P.ntypes), d.2 + e.2)

/-- Force vector with punishments and dummy constraints. -/
structure TbVec (K : Type*) where
  st : TbState K
  par : Nat → K
  pot : Nat → K
  dummy : Nat → K

/-- The value returned, 136-622. -/
def tbObjective (b : Build) (P : EamPots K) (ew sw w : K) (qs : List (Bound K)) (eopp univ : List (Nat × K))
    (dummy0 : Nat → K) (natoms : Nat) (confs : List (Conf K)) (v : TbVec K) : Except Fault (TbVec K × K) :=
  let r := confLoop (tbConf b P ew sw) confs 0 (v.st, (0, 0, 0))
  let d := tbDummies b P dummy0 natoms r.2.2.1 r.2.2.2 v.dummy
  if b.apot then do
    let p ← apotPunish w qs eopp univ v.par v.pot
    .ok (⟨r.1, p.par, p.pot, d.1⟩, r.2.1 + p.sum + d.2)
  else .ok (⟨r.1, v.par, v.pot, d.1⟩, r.2.1 + d.2)

end Verif.Force
