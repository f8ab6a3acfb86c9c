/-
ADP forces: `calc_forces` of `src/force_adp.c` 113-672, configuration by configuration, and the closing part of the
evaluation.  Same simplifications as `Model/Force.lean`; moreover

* the values and slopes of the dipole and quadrupole functions which the second loop stores with the neighbour
  (`u_val`, `u_grad`, `w_val`, `w_grad`) are evaluated again in the third loop, where they are used under the
  condition under which they were stored;
* `sqrdist` is computed where it is used (`src/config.c` 1217-1224);
* `col[2]`, `col[3]` are computed from `col[0]` (`src/config.c` 1264-1274).
-/
import Verif.Model.Objective

namespace Verif.Force

variable {K : Type*} [Field K] [LinearOrder K]

/-- Column of the dipole function, `src/config.c` 1266-1268. -/
def EamPots.dipCol (P : EamPots K) (n : Neigh K) : Nat := P.paircol + 2 * P.ntypes + n.col0

/-- Column of the quadrupole function, `src/config.c` 1271-1273. -/
def EamPots.quadCol (P : EamPots K) (n : Neigh K) : Nat := 2 * P.paircol + 2 * P.ntypes + n.col0

/-- `sqrdist` in the order xx, yy, zz, xy, yz, zx, `src/config.c` 1218-1223. -/
def sqrdist (n : Neigh K) : Fin 6 → K :=
  ![n.distR 0 * n.distR 0 * n.r * n.r, n.distR 1 * n.distR 1 * n.r * n.r, n.distR 2 * n.distR 2 * n.r * n.r,
    n.distR 0 * n.distR 1 * n.r * n.r, n.distR 1 * n.distR 2 * n.r * n.r, n.distR 2 * n.distR 0 * n.r * n.r]

/-- Running sums of one configuration: `mu`, `lambda` and `nu` of the atoms besides those of the EAM routine. -/
structure AdpAcc (K : Type*) where
  eam : EamAcc K
  mu : Nat → V3 K
  lam : Nat → Fin 6 → K
  nu : Nat → K

/-- `u_val` (`u_grad`), 294-298: halved between an atom and its own image. -/
def halfSelf (i : Nat) (n : Neigh K) (v : K) : K := if n.nr = i then v * (1 / 2) else v

/-- Dipole distortion, `src/force_adp.c` 286-310. -/
def adpDipole (P : EamPots K) (i : Nat) (mu : Nat → V3 K) (n : Neigh K) : Nat → V3 K :=
  if n.r < P.fin (P.dipCol n) then
    let u := halfSelf i n (P.val (P.dipCol n) n.r)
    scatter mu i n.nr (fun k => u * n.dist k)
  else mu

/-- Quadrupole distortion, 312-347. -/
def adpQuadrupole (P : EamPots K) (i : Nat) (lam : Nat → Fin 6 → K) (n : Neigh K) : Nat → Fin 6 → K :=
  if n.r < P.fin (P.quadCol n) then
    let w := halfSelf i n (P.val (P.quadCol n) n.r)
    let tmp : Fin 6 → K := fun k => w * sqrdist n k
    let lam := Function.update lam i (lam i + tmp)
    Function.update lam n.nr (lam n.nr + tmp)
  else lam

/-- One neighbour in the second loop, 235-368 (pair part and densities as in `src/force_eam.c`). -/
def adpNeigh2 (b : Build) (P : EamPots K) (c : Conf K) (i typ : Nat) (s : AdpAcc K) (n : Neigh K) : AdpAcc K :=
  { s with
    eam := eamNeigh2 b P c i typ s.eam n
    mu := adpDipole P i s.mu n
    lam := adpQuadrupole P i s.lam n }

/-- ADP energy of an atom, 418-431. -/
def adpEnergy (mu : V3 K) (lam : Fin 6 → K) : K :=
  let nu := lam 0 + lam 1 + lam 2
  let trace := nu / 3
  (0 + mu 0 * mu 0 + mu 1 * mu 1 + mu 2 * mu 2 + (lam 0 - trace) * (lam 0 - trace) + (lam 1 - trace) * (lam 1 - trace) +
    (lam 2 - trace) * (lam 2 - trace) + lam 3 * lam 3 * 2 + lam 4 * lam 4 * 2 + lam 5 * lam 5 * 2) * (1 / 2)

/-- End of the second loop for one atom, 370-432: embedding energy (as in `src/force_eam.c`), then the ADP energy. -/
def adpEmbed (b : Build) (P : EamPots K) (a : Atom K) (i : Nat) (s : AdpAcc K) : AdpAcc K :=
  let e := eamEmbed b P a i s.eam
  { s with
    eam := { e with acc := { e.acc with energy := e.acc.energy + adpEnergy (s.mu i) (s.lam i) } }
    nu := Function.update s.nu i (s.lam i 0 + s.lam i 1 + s.lam i 2) }

/-- Second loop over the atoms, 230-433. -/
def adpLoop2 (b : Build) (P : EamPots K) (c : Conf K) : List (Atom K) → Nat → AdpAcc K → AdpAcc K
  | [], _, s => s
  | a :: as, i, s => adpLoop2 b P c as (i + 1) (adpEmbed b P a i (a.neigh.foldl (adpNeigh2 b P c i a.typ) s))

/-- Forces and stresses of one interaction. -/
def applyForce (b : Build) (us : Bool) (i : Nat) (n : Neigh K) (tmp : V3 K) (s : Acc K) : Acc K :=
  { s with
    force := scatter s.force i n.nr tmp
    stress := if b.stress && us then s.stress - virial n.dist tmp else s.stress }

/-- Dipole forces, 494-528. -/
def adpNeighU (b : Build) (P : EamPots K) (us : Bool) (mu : Nat → V3 K) (i : Nat) (s : Acc K) (n : Neigh K) : Acc K :=
  if n.r < P.fin (P.dipCol n) then
    let uf : V3 K := fun k => halfSelf i n (mu i k - mu n.nr k)
    let uVal := halfSelf i n (P.val (P.dipCol n) n.r)
    let uGrad := halfSelf i n (P.grad (P.dipCol n) n.r)
    let t := (uf 0 * n.dist 0 + uf 1 * n.dist 1 + uf 2 * n.dist 2) * uGrad
    applyForce b us i n (fun k => uf k * uVal + t * n.distR k) s
  else s

/-- Quadrupole forces, 530-576. -/
def adpNeighW (b : Build) (P : EamPots K) (us : Bool) (lam : Nat → Fin 6 → K) (nus : Nat → K) (i : Nat) (s : Acc K)
    (n : Neigh K) : Acc K :=
  if n.r < P.fin (P.quadCol n) then
    let wf : Fin 6 → K := fun k => halfSelf i n (lam i k + lam n.nr k)
    let wVal := halfSelf i n (P.val (P.quadCol n) n.r)
    let wGrad := halfSelf i n (P.grad (P.quadCol n) n.r)
    let t : V3 K := ![wf 0 * n.dist 0 + wf 3 * n.dist 1 + wf 5 * n.dist 2,
      wf 3 * n.dist 0 + wf 1 * n.dist 1 + wf 4 * n.dist 2, wf 5 * n.dist 0 + wf 4 * n.dist 1 + wf 2 * n.dist 2]
    let nu := (nus i + nus n.nr) / 3
    let f1 := 2 * wVal
    let f2 := ((t 0 * n.dist 0 + t 1 * n.dist 1 + t 2 * n.dist 2) - nu * n.r * n.r) * wGrad - nu * f1 * n.r
    applyForce b us i n (fun k => f1 * t k + f2 * n.distR k) s
  else s

/-- One neighbour in the third loop, 441-577. -/
def adpNeigh3 (b : Build) (P : EamPots K) (us : Bool) (t : AdpAcc K) (i typ : Nat) (s : Acc K) (n : Neigh K) : Acc K :=
  adpNeighW b P us t.lam t.nu i (adpNeighU b P us t.mu i (eamNeigh3 b P us t.eam.gradF i typ s n) n) n

/-- The state carried from one configuration (and evaluation) to the next. -/
structure AdpState (K : Type*) where
  fv : FV K
  rho : Nat → K
  gradF : Nat → K
  mu : Nat → V3 K
  lam : Nat → Fin 6 → K
  nu : Nat → K

/-- One configuration, 191-612.  The limiting constraint is set and counted with and without `RESCALE`. -/
def adpConf (b : Build) (P : EamPots K) (eweight sweight : K) (ci : Nat) (c : Conf K) (s : AdpState K) :
    AdpState K × K × K :=
  let rho0 : Nat → K := fun a => if c.start ≤ a ∧ a < c.start + c.atoms.length then 0 else s.rho a
  let mu0 : Nat → V3 K := fun a => if c.start ≤ a ∧ a < c.start + c.atoms.length then 0 else s.mu a
  let lam0 : Nat → Fin 6 → K := fun a => if c.start ≤ a ∧ a < c.start + c.atoms.length then 0 else s.lam a
  let t := adpLoop2 b P c c.atoms c.start
    ⟨⟨⟨resetForces c s.fv.force, 0, 0, 0⟩, rho0, s.gradF, -c.limit0, 0⟩, mu0, lam0, s.nu⟩
  let a := if c.uf then forceLoop b c (fun i typ => adpNeigh3 b P c.us t i typ) c.atoms c.start t.eam.acc else t.eam.acc
  let a := closeConf b eweight sweight c a
  (⟨⟨a.force, Function.update s.fv.energy ci a.energy,
     if b.stress then Function.update s.fv.stress ci a.stress else s.fv.stress,
     Function.update s.fv.limit ci t.eam.limit⟩, t.eam.rho, t.eam.gradF, t.mu, t.lam, t.nu⟩,
   a.err + c.weight * (t.eam.limit * t.eam.limit), t.eam.rhoSum)

/-- Dummy section after the evaluation and the added error, 623-652.  Unlike the EAM routine the mean density is
constrained whether or not the sum is positive. -/
def adpDummies (b : Build) (P : EamPots K) (dummy0 : Nat → K) (natoms : Nat) (rhoSum : K) (dummy : Nat → K) :
    (Nat → K) × K :=
  if b.noPunish then (dummy, 0)
  else
    let mean := dummyWeight * (rhoSum / (natoms : K) - 1)
    (fun i =>
      if i < P.ntypes then dummySlope b P dummy0 i
      else if i = P.ntypes ∧ b.rescale = false then mean
      else if i < 2 * P.ntypes then 0
      else dummy i,
     ((List.range P.ntypes).map fun g => dummySlope b P dummy0 g * dummySlope b P dummy0 g + 0 * 0).sum +
      if b.rescale then 0 else mean * mean)

/-- Force vector of the ADP routine with punishments and dummy constraints. -/
structure AdpVec (K : Type*) where
  st : AdpState K
  par : Nat → K
  pot : Nat → K
  dummy : Nat → K

/-- `calc_forces` of `src/force_adp.c` 185-672. -/
def adpObjective (b : Build) (P : EamPots K) (ew sw w : K) (qs : List (Bound K)) (eopp univ : List (Nat × K))
    (dummy0 : Nat → K) (natoms : Nat) (confs : List (Conf K)) (v : AdpVec K) : Except Fault (AdpVec K × K) :=
  let r := confLoop (adpConf b P ew sw) confs 0 (v.st, (0, 0))
  let d := adpDummies b P dummy0 natoms r.2.2 v.dummy
  if b.apot then do
    let p ← apotPunish w qs eopp univ v.par v.pot
    .ok (⟨r.1, p.par, p.pot, d.1⟩, r.2.1 + p.sum + d.2)
  else .ok (⟨r.1, v.par, v.pot, d.1⟩, r.2.1 + d.2)

end Verif.Force
