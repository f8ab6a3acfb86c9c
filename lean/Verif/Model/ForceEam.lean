/-
EAM forces: `calc_forces` of `src/force_eam.c` 113-627 without `TBEAM`, configuration by
configuration.  Same simplifications as `Model/Force.lean`.
-/
import Verif.Model.Force

namespace Verif.Force

variable {K : Type*} [Field K] [LinearOrder K]

/-- Potential table of an EAM model.  Columns: `0 … paircol-1` pair functions, then `ntypes` transfer
functions, then `ntypes` embedding functions.  `ana col rho` is value and numerical slope of the
analytic embedding function (`fvalue`, `apot_gradient`), arbitrary. -/
structure EamPots (K : Type*) extends Pots K where
  paircol : Nat
  ntypes : Nat
  ana : Nat → K → K × K

/-- Running sums of one configuration. -/
structure EamAcc (K : Type*) where
  acc : Acc K
  rho : Nat → K
  gradF : Nat → K
  limit : K
  rhoSum : K

/-- `rho[a] += v`. -/
def addRho (rho : Nat → K) (a : Nat) (v : K) : Nat → K := Function.update rho a (rho a + v)

/-- Atomic densities, `src/force_eam.c` 286-319: `i`, `typ` number and type of the atom. -/
def density (P : EamPots K) (i typ : Nat) (rho : Nat → K) (n : Neigh K) : Nat → K :=
  if typ = n.typ then
    if n.r < P.fin n.col1 then
      let v := P.val n.col1 n.r
      let rho := addRho rho i v
      if n.nr = i then rho else addRho rho n.nr v
    else rho
  else
    let rho := if n.r < P.fin n.col1 then addRho rho i (P.val n.col1 n.r) else rho
    if n.r < P.fin (P.paircol + typ) then addRho rho n.nr (P.val (P.paircol + typ) n.r) else rho

/-- `DUMMY_WEIGHT`, `src/potfit.h`. -/
def dummyWeight : K := 100

/-- Embedding energy of one atom. -/
structure Embed (K : Type*) where
  rho : K
  value : K
  grad : K
  limit : K

/-- Embedding energy and slope, `src/force_eam.c` 329-387 (`col` is `col_F`, `x` the density):
with `RESCALE` the density is clamped into the tabulated range and the excess punished; without, the
analytic function is used outside the range and below 0.1 (`APOT`) or the function is continued
linearly, the slope on the right side being taken half a step before the end. -/
def embed (b : Build) (P : EamPots K) (col : Nat) (x : K) : Embed K :=
  if b.rescale then
    let l1 := if P.fin col < x then dummyWeight * 10 * ((x - P.fin col) * (x - P.fin col)) else 0
    let x := if P.fin col < x then P.fin col else x
    let l2 := if x < P.beg col then dummyWeight * 10 * ((P.beg col - x) * (P.beg col - x)) else 0
    let x := if x < P.beg col then P.beg col else x
    ⟨x, P.val col x, P.grad col x, l1 + l2⟩
  else if b.apot then
    if x < P.beg col ∨ P.fin col < x ∨ x < 1 / 10 then
      ⟨x, (P.ana col x).1, (P.ana col x).2, 0⟩
    else ⟨x, P.val col x, P.grad col x, 0⟩
  else
    if x < P.beg col then
      ⟨x, P.val col (P.beg col) + (x - P.beg col) * P.grad col (P.beg col), P.grad col (P.beg col), 0⟩
    else if P.fin col < x then
      let y := P.fin col - (1 / 2) * P.step col
      ⟨x, P.val col y + (x - P.fin col) * P.grad col y, P.grad col y, 0⟩
    else ⟨x, P.val col x, P.grad col x, 0⟩

/-- One neighbour in the second loop, 235-320. -/
def eamNeigh2 (b : Build) (P : EamPots K) (c : Conf K) (i typ : Nat) (s : EamAcc K) (n : Neigh K) :
    EamAcc K :=
  { s with acc := pairNeigh b P.toPots c.uf c.us i s.acc n, rho := density P i typ s.rho n }

/-- The embedding part of the second loop, 322-390. -/
def eamEmbed (b : Build) (P : EamPots K) (a : Atom K) (i : Nat) (s : EamAcc K) : EamAcc K :=
  let m := embed b P (P.paircol + P.ntypes + a.typ) (s.rho i)
  { acc := { s.acc with energy := s.acc.energy + m.value }
    rho := Function.update s.rho i m.rho
    gradF := Function.update s.gradF i m.grad
    limit := s.limit + m.limit
    rhoSum := s.rhoSum + m.rho }

/-- Second loop over the atoms, 230-423. -/
def eamLoop2 (b : Build) (P : EamPots K) (c : Conf K) : List (Atom K) → Nat → EamAcc K → EamAcc K
  | [], _, s => s
  | a :: as, i, s =>
    eamLoop2 b P c as (i + 1) (eamEmbed b P a i (a.neigh.foldl (eamNeigh2 b P c i a.typ) s))

/-- Slope of the EAM interaction of one entry, 443-455. -/
def eamSlopeC (P : EamPots K) (gradF : Nat → K) (i typ : Nat) (n : Neigh K) : K :=
  if n.r < P.fin n.col1 ∨ n.r < P.fin (P.paircol + typ) then
    let rhoGrad := if n.r < P.fin n.col1 then P.grad n.col1 n.r else 0
    let rhoGradJ := if typ = n.typ then rhoGrad
      else if n.r < P.fin (P.paircol + typ) then P.grad (P.paircol + typ) n.r else 0
    rhoGrad * gradF i + rhoGradJ * gradF n.nr
  else 0

/-- One neighbour in the third loop, 433-500. -/
def eamNeigh3 (b : Build) (P : EamPots K) (us : Bool) (gradF : Nat → K) (i typ : Nat) (s : Acc K)
    (n : Neigh K) : Acc K :=
  if n.r < P.fin n.col1 ∨ n.r < P.fin (P.paircol + typ) then
    let g := eamSlopeC P gradF i typ n
    let g := if n.nr = i then g * (1 / 2) else g
    let tmp : V3 K := fun c => n.distR c * g
    { s with
      force := scatter s.force i n.nr tmp
      stress := if b.stress && us then s.stress - virial n.dist tmp else s.stress }
  else s

/-- What the EAM routine reports for a configuration besides the force vector: contribution to
`error_sum` and to `rho_sum`.  The densities and slopes of the atoms (`atom->rho`, `atom->gradF`) are
part of the state carried along. -/
structure EamState (K : Type*) where
  fv : FV K
  rho : Nat → K
  gradF : Nat → K

/-- One configuration, 195-537. -/
def eamConf (b : Build) (P : EamPots K) (eweight sweight : K) (ci : Nat) (c : Conf K)
    (s : EamState K) : EamState K × K × K :=
  let rho0 : Nat → K := fun a =>
    if c.start ≤ a ∧ a < c.start + c.atoms.length then 0 else s.rho a
  let lim0 : K := if b.rescale then -c.limit0 else 0
  let t := eamLoop2 b P c c.atoms c.start
    ⟨⟨resetForces c s.fv.force, 0, 0, 0⟩, rho0, s.gradF, lim0, 0⟩
  let a := if c.uf then
      forceLoop b c (fun i typ => eamNeigh3 b P c.us t.gradF i typ) c.atoms c.start t.acc
    else t.acc
  let a := closeConf b eweight sweight c a
  let err := if b.rescale then a.err + c.weight * (t.limit * t.limit) else a.err
  (⟨⟨a.force, Function.update s.fv.energy ci a.energy,
     if b.stress then Function.update s.fv.stress ci a.stress else s.fv.stress,
     if b.rescale then Function.update s.fv.limit ci t.limit else s.fv.limit⟩, t.rho, t.gradF⟩,
   err, t.rhoSum)

end Verif.Force
