/-
Electrostatic forces: `calc_forces` of `src/force_elstat.c` 111-941 (point charges, with `DIPOLE` also induced
dipoles), configuration by configuration, and the closing part of the evaluation.  Same simplifications as
`Model/Force.lean`; moreover

* the charges, polarisabilities, the parameters of the short-range dipoles and `kappa` are taken as they stand after
  lines 182-216 (`elCharges` models lines 183-194);
* the tail functions stored with the neighbours (`fnval_el`, `grad_el`, `ggrad_el`) are a function of the distance:
  they are computed with the current `kappa` in the second loop (323-333), or with the fixed `kappa` in advance
  (`src/functions.c` `init_tails`);
* `r2` is `r * r` (`src/config.c` 1210);
* subtracting a vector is adding its negative;
* `sqrt` is a parameter.
-/
import Verif.Model.ForceAdp

namespace Verif.Force

variable {K : Type*} [Field K] [LinearOrder K]

/-- Tail functions of a distance, `neigh_t` members `fnval_el`, `grad_el`, `ggrad_el`. -/
structure ElTail (K : Type*) where
  fn : K
  grad : K
  ggrad : K

/-- Parameters of the electrostatic interactions: `dp_cut`, `charge`, `dp_alpha`, `dp_b`, `dp_c`, the tail functions,
`shortrange_value`, `shortrange_term`, the factor of the squared charge in the self energy (804-808, 824-830),
`dp_mix`, `dp_tol`. -/
structure Elec (K : Type*) where
  cut : K
  charge : Nat → K
  alpha : Nat → K
  b : Nat → K
  c : Nat → K
  tail : K → ElTail K
  srValue : K → K → K → K → K
  srTerm : K → K → K → K × K
  selfCoef : K
  mix : K
  tol : K
  sqrt : K → K

/-- `SPROD`, `src/potfit.h`. -/
def sprod (p q : V3 K) : K := p 0 * q 0 + p 1 * q 1 + p 2 * q 2

/-- `dsquare`, `src/potfit.h`. -/
def dsq (x : K) : K := x * x

/-- A loop over the atoms `i, i+1, …` and their neighbours; `body` gets number and type of the atom. -/
def overNeigh {σ : Type*} (body : Nat → Nat → σ → Neigh K → σ) : List (Atom K) → Nat → σ → σ
  | [], _, s => s
  | a :: as, i, s => overNeigh body as (i + 1) (a.neigh.foldl (body i a.typ) s)

/-- The charges, 182-194: `x` are the charges in the parameter vector, the last type gets what is missing to a neutral
system with the composition `ratio`. -/
def elCharges (ntypes : Nat) (ratio x : Nat → K) : Except Fault (Nat → K) :=
  let sum := ((List.range (ntypes - 1)).map fun i => ratio i * x i).sum
  if ratio (ntypes - 1) = 0 then .error .divZero
  else .ok fun i => if i = ntypes - 1 then -sum / ratio (ntypes - 1) else x i

/-- Energy and force between two charges, 388-421.  (`type1 == type2` makes `grad_j = grad_i`, the same number.) -/
def monoNeigh (b : Build) (E : Elec K) (uf us : Bool) (i typ : Nat) (s : Acc K) (n : Neigh K) : Acc K :=
  if n.r < E.cut ∧ (E.charge typ ≠ 0 ∨ E.charge n.typ ≠ 0) then
    let gradI := E.charge n.typ * (E.tail n.r).grad
    let fnval := halfSelf i n (E.charge typ * E.charge n.typ * (E.tail n.r).fn)
    let grad := halfSelf i n (E.charge typ * gradI)
    let s := { s with energy := s.energy + fnval }
    if uf then applyForce b us i n (fun k => n.dist k * grad) s else s
  else s

/-- Static field, 424-436. -/
def statNeigh (E : Elec K) (i typ : Nat) (f : Nat → V3 K) (n : Neigh K) : Nat → V3 K :=
  if n.r < E.cut ∧ (E.charge typ ≠ 0 ∨ E.charge n.typ ≠ 0) then
    let gradI := E.charge n.typ * (E.tail n.r).grad
    let gradJ := if typ = n.typ then gradI else E.charge typ * (E.tail n.r).grad
    let gradI := halfSelf i n gradI
    let gradJ := halfSelf i n gradJ
    addAt (addAt f i (fun k => n.dist k * gradI)) n.nr (fun k => -(n.dist k * gradJ))
  else f

/-- Short-range dipoles, 438-461. -/
def srNeigh (E : Elec K) (i typ : Nat) (p : Nat → V3 K) (n : Neigh K) : Nat → V3 K :=
  if n.r < E.cut ∧ (E.charge typ ≠ 0 ∨ E.charge n.typ ≠ 0) then
    let p := if E.alpha typ ≠ 0 ∧ E.b n.col0 ≠ 0 ∧ E.c n.col0 ≠ 0 then
        let t := (E.tail n.r).grad * n.r * E.srValue n.r (E.alpha typ) (E.b n.col0) (E.c n.col0)
        addAt p i (fun k => E.charge n.typ * n.distR k * t)
      else p
    if E.alpha n.typ ≠ 0 ∧ E.b n.col0 ≠ 0 ∧ E.c n.col0 ≠ 0 ∧ n.nr ≠ i then
      let t := (E.tail n.r).grad * n.r * E.srValue n.r (E.alpha n.typ) (E.b n.col0) (E.c n.col0)
      addAt p n.nr (fun k => -(E.charge typ * n.distR k * t))
    else p
  else p

/-- State of the second loop. -/
structure ElAcc (K : Type*) where
  acc : Acc K
  eStat : Nat → V3 K
  pSr : Nat → V3 K

/-- One neighbour in the second loop, 317-466. -/
def elNeigh2 (b : Build) (dip : Bool) (P : Pots K) (E : Elec K) (uf us : Bool) (i typ : Nat) (s : ElAcc K)
    (n : Neigh K) : ElAcc K :=
  { acc := monoNeigh b E uf us i typ (pairNeigh b P uf us i s.acc n) n
    eStat := if dip then statNeigh E i typ s.eStat n else s.eStat
    pSr := if dip then srNeigh E i typ s.pSr n else s.pSr }

/-- Dipole moments and fields kept with the atoms (`atom_t`). -/
structure Dip (K : Type*) where
  eStat : Nat → V3 K
  eInd : Nat → V3 K
  eOld : Nat → V3 K
  pInd : Nat → V3 K
  pSr : Nat → V3 K

/-- `E_tot` of an atom, 478-495. -/
def dipTotal (E : Elec K) (first : Bool) (d : Dip K) (i : Nat) : V3 K := fun k =>
  if first then d.eInd i k + d.eStat i k
  else (1 - E.mix) * d.eInd i k + E.mix * d.eOld i k + d.eStat i k

/-- New dipole moments; fields are saved and reset, 473-508. -/
def dipMoments (E : Elec K) (first : Bool) : List (Atom K) → Nat → Dip K → Dip K
  | [], _, d => d
  | a :: as, i, d =>
    dipMoments E first as (i + 1)
      (if E.alpha a.typ ≠ 0 then
        { d with
          pInd := Function.update d.pInd i (fun k => E.alpha a.typ * dipTotal E first d i k + d.pSr i k)
          eOld := Function.update d.eOld i (d.eInd i)
          eInd := Function.update d.eInd i 0 }
      else d)

/-- Fields of the dipoles, 510-551. -/
def dipField (E : Elec K) (p : Nat → V3 K) (i typ : Nat) (f : Nat → V3 K) (n : Neigh K) : Nat → V3 K :=
  if n.r < E.cut ∧ E.alpha typ ≠ 0 ∧ E.alpha n.typ ≠ 0 then
    let f := addAt f i fun k => (E.tail n.r).grad * (3 * sprod (p n.nr) n.distR * n.distR k - p n.nr k)
    if n.nr ≠ i then
      addAt f n.nr fun k => (E.tail n.r).grad * (3 * sprod (p i) n.distR * n.distR k - p i k)
    else f
  else f

/-- `dp_sum` before 567, 553-565. -/
def dipChange (E : Elec K) (d : Dip K) : List (Atom K) → Nat → K → K
  | [], _, s => s
  | a :: as, i, s =>
    dipChange E d as (i + 1)
      (if E.alpha a.typ ≠ 0 then
        s + dsq (E.alpha a.typ * (d.eOld i 0 - d.eInd i 0)) + dsq (E.alpha a.typ * (d.eOld i 1 - d.eInd i 1)) +
          dsq (E.alpha a.typ * (d.eOld i 2 - d.eInd i 2))
      else s)

/-- Dipoles in the static field only, 573-588. -/
def dipGiveUp (E : Elec K) : List (Atom K) → Nat → Dip K → Dip K
  | [], _, d => d
  | a :: as, i, d =>
    dipGiveUp E as (i + 1)
      (if E.alpha a.typ ≠ 0 then
        { d with
          pInd := Function.update d.pInd i (fun k => E.alpha a.typ * d.eStat i k + d.pSr i k)
          eInd := Function.update d.eInd i (d.eStat i) }
      else d)

/-- One round of the iteration without the decision whether to go on, 472-551. -/
def dipRound (E : Elec K) (c : Conf K) (first : Bool) (d : Dip K) : Dip K :=
  let d := dipMoments E first c.atoms c.start d
  { d with eInd := overNeigh (dipField E d.pInd) c.atoms c.start d.eInd }

/-- `dp_sum` after 568. -/
def dipDiff (E : Elec K) (c : Conf K) (d : Dip K) : K :=
  E.sqrt (dipChange E d c.atoms c.start 0 / (3 * (c.atoms.length : K)))

/-- The iteration, 472-597; `it` is `dp_it`, `none`: the rounds allowed by the first argument are used up. -/
def dipIter (E : Elec K) (c : Conf K) : Nat → Nat → Dip K → Option (Dip K)
  | 0, _, _ => none
  | fuel + 1, it, d =>
    let d := dipRound E c (it == 0) d
    let x := dipDiff E c d
    if it ≠ 0 ∧ (10 < x ∨ 50 < it) then some (dipGiveUp E c.atoms c.start d)
    else if x < E.tol then some d
    else dipIter E c fuel (it + 1) d

/-- The iteration to its end (`C68_terminates`: 52 rounds are always enough). -/
def dipSolve (E : Elec K) (c : Conf K) (d : Dip K) : Dip K := (dipIter E c 52 0 d).getD d

/-- State of the fourth loop: `rp_i`, `rp_j` are declared outside of the loops (602). -/
structure DipAcc (K : Type*) where
  acc : Acc K
  rpI : K
  rpJ : K

/-- `fnval_sum` and `grad_sum`, 626-640: the damping `srval`, `srgrad` is computed before the halving. -/
def elSums (E : Elec K) (i : Nat) (n : Neigh K) : K × K :=
  let f := -(E.tail n.r).grad
  let g := -(E.tail n.r).ggrad
  let t := E.srTerm n.r (E.b n.col0) (E.c n.col0)
  if E.b n.col0 ≠ 0 ∧ E.c n.col0 ≠ 0 then
    (halfSelf i n f + f * t.1, halfSelf i n g + (f * t.2 + g * t.1))
  else (halfSelf i n f, halfSelf i n g)

/-- Charge of the atom and dipole of the neighbour, 642-694. -/
def monoDip (b : Build) (E : Elec K) (uf us : Bool) (p : Nat → V3 K) (i typ : Nat) (s : DipAcc K) (n : Neigh K) :
    DipAcc K :=
  let rpJ := sprod (p n.nr) n.distR
  let fnval := E.charge typ * rpJ * (elSums E i n).1 * n.r
  let grad1 := E.charge typ * rpJ * (elSums E i n).2 * (n.r * n.r)
  let grad2 := E.charge typ * (elSums E i n).1
  let a := { s.acc with energy := s.acc.energy - fnval }
  { acc := if uf then applyForce b us i n (fun k => -(n.distR k * grad1 + p n.nr k * grad2)) a else a
    rpI := s.rpI
    rpJ := rpJ }

/-- Dipole of the atom and charge of the neighbour, 696-740. -/
def dipMono (b : Build) (E : Elec K) (uf us : Bool) (p : Nat → V3 K) (i : Nat) (s : DipAcc K) (n : Neigh K) :
    DipAcc K :=
  let rpI := sprod (p i) n.distR
  let fnval := E.charge n.typ * rpI * (elSums E i n).1 * n.r
  let grad1 := E.charge n.typ * rpI * (elSums E i n).2 * (n.r * n.r)
  let grad2 := E.charge n.typ * (elSums E i n).1
  let a := { s.acc with energy := s.acc.energy + fnval }
  { acc := if uf then applyForce b us i n (fun k => n.distR k * grad1 + p i k * grad2) a else a
    rpI := rpI
    rpJ := s.rpJ }

/-- Two dipoles, 742-797: the projections `rp_i`, `rp_j` are those of the branches above. -/
def dipDip (b : Build) (E : Elec K) (uf us : Bool) (p : Nat → V3 K) (i : Nat) (s : DipAcc K) (n : Neigh K) :
    DipAcc K :=
  let f := halfSelf i n (-(E.tail n.r).grad)
  let g := halfSelf i n (-(E.tail n.r).ggrad)
  let pp := sprod (p i) (p n.nr)
  let tmp1 := 3 * s.rpI * s.rpJ
  let tmp2 := 3 * f / (n.r * n.r)
  let fnval := -(tmp1 - pp) * f
  let grad1 := (tmp1 - pp) * g
  let grad2 := 2 * s.rpI * s.rpJ
  let a := { s.acc with energy := s.acc.energy + fnval }
  { s with
    acc := if uf then applyForce b us i n
        (fun k => -(grad1 * n.dist k - tmp2 * (grad2 * n.dist k - s.rpI * n.r * p n.nr k - s.rpJ * n.r * p i k))) a
      else a }

/-- One neighbour in the fourth loop, 611-798. -/
def elNeigh4 (b : Build) (E : Elec K) (uf us : Bool) (p : Nat → V3 K) (i typ : Nat) (s : DipAcc K) (n : Neigh K) :
    DipAcc K :=
  if n.r < E.cut ∧ (E.alpha typ ≠ 0 ∨ E.alpha n.typ ≠ 0) then
    let s := if E.charge typ ≠ 0 ∧ E.alpha n.typ ≠ 0 then monoDip b E uf us p i typ s n else s
    let s := if E.alpha typ ≠ 0 ∧ E.charge n.typ ≠ 0 then dipMono b E uf us p i s n else s
    if E.alpha typ ≠ 0 ∧ E.alpha n.typ ≠ 0 then dipDip b E uf us p i s n else s
  else s

/-- Self energies of one atom in the fifth loop, 820-838. -/
def elSelf (dip : Bool) (E : Elec K) (p : Nat → V3 K) (a : Atom K) (i : Nat) (s : Acc K) : Acc K :=
  let s := if E.charge a.typ ≠ 0 then
      { s with energy := s.energy - E.charge a.typ * E.charge a.typ * E.selfCoef } else s
  if dip = true ∧ E.alpha a.typ ≠ 0 then
    { s with energy := s.energy + sprod (p i) (p i) / (2 * E.alpha a.typ) } else s

/-- Fifth loop, 814-864. -/
def elLoop5 (b : Build) (dip : Bool) (E : Elec K) (c : Conf K) (p : Nat → V3 K) :
    List (Atom K) → Nat → Acc K → Acc K
  | [], _, s => s
  | a :: as, i, s => elLoop5 b dip E c p as (i + 1) (closeAtom b c a i (elSelf dip E p a i s))

/-- The state carried from one configuration (and evaluation) to the next. -/
structure ElState (K : Type*) where
  fv : FV K
  dip : Dip K

/-- Sums after the second loop; only the static field and the short-range dipoles are reset, 273-467. -/
def elStart (b : Build) (dip : Bool) (P : Pots K) (E : Elec K) (c : Conf K) (s : ElState K) : ElAcc K :=
  overNeigh (elNeigh2 b dip P E c.uf c.us) c.atoms c.start
    ⟨⟨resetForces c s.fv.force, 0, 0, 0⟩,
     fun a => if dip = true ∧ c.start ≤ a ∧ a < c.start + c.atoms.length then 0 else s.dip.eStat a,
     fun a => if dip = true ∧ c.start ≤ a ∧ a < c.start + c.atoms.length then 0 else s.dip.pSr a⟩

/-- The dipoles of a configuration after the third loop. -/
def elDipoles (b : Build) (dip : Bool) (P : Pots K) (E : Elec K) (c : Conf K) (s : ElState K) : Dip K :=
  let t := elStart b dip P E c s
  if dip then dipSolve E c { s.dip with eStat := t.eStat, pSr := t.pSr } else s.dip

/-- Fourth and fifth loop and the end of a configuration with given dipoles, 599-886. -/
def elFinish (b : Build) (dip : Bool) (E : Elec K) (eweight sweight : K) (c : Conf K) (p : Nat → V3 K) (s : Acc K) :
    Acc K :=
  let a := if dip then (overNeigh (elNeigh4 b E c.uf c.us p) c.atoms c.start ⟨s, 0, 0⟩).acc else s
  closeConf b eweight sweight c (elLoop5 b dip E c p c.atoms c.start a)

/-- One configuration, 268-886. -/
def elConf (b : Build) (dip : Bool) (P : Pots K) (E : Elec K) (eweight sweight : K) (ci : Nat) (c : Conf K)
    (s : ElState K) : ElState K × K :=
  let d := elDipoles b dip P E c s
  let a := elFinish b dip E eweight sweight c d.pInd (elStart b dip P E c s).acc
  (⟨⟨a.force, Function.update s.fv.energy ci a.energy,
     if b.stress then Function.update s.fv.stress ci a.stress else s.fv.stress, s.fv.limit⟩, d⟩, a.err)

/-- Force vector of the routine with the punishments, and the dipoles. -/
structure ElVector (K : Type*) where
  st : ElState K
  par : Nat → K
  pot : Nat → K

/-- The value returned, 268-938; the routine is compiled with `APOT` only. -/
def elObjective (b : Build) (dip : Bool) (P : Pots K) (E : Elec K) (ew sw w : K) (qs : List (Bound K))
    (eopp univ : List (Nat × K)) (confs : List (Conf K)) (v : ElVector K) : Except Fault (ElVector K × K) := do
  let r := confLoop (elConf b dip P E ew sw) confs 0 (v.st, 0)
  let p ← apotPunish w qs eopp univ v.par v.pot
  .ok (⟨r.1, p.par, p.pot⟩, r.2 + p.sum)

end Verif.Force
