/-
Pair forces: `calc_forces` of `src/force_pair.c` 106-318, configuration by configuration.

Simplifications:
* Doubles are elements of an ordered field `K` (no rounding, no NaN).
* The look-up routines are total functions of column and distance, `Pots.val` and `Pots.grad`; that
  the stored slot and shift give the same result as a look-up by distance, and what the look-up
  returns, is the subject of `Model/Splines.lean`.
* The one force vector of the C code is split into its sections (`FV`).  The positions of the sections
  are modelled in `Model/Sections.lean`.
* Vectors of three doubles are functions on `Fin 3`, stress tensors functions on `Fin 6`.
-/
import Verif.Model.Basic
import Mathlib.Algebra.Order.Ring.Defs
import Mathlib.Algebra.Group.Pi.Basic
import Mathlib.Algebra.Module.Pi
import Mathlib.Algebra.BigOperators.Group.List.Basic
import Mathlib.Algebra.BigOperators.Fin
import Mathlib.Data.Fin.VecNotation
import Mathlib.Logic.Function.Basic

namespace Verif.Force

/-- A vector with three components. -/
abbrev V3 (K : Type*) := Fin 3 → K

/-- The compile-time switches used by the force routines. -/
structure Build where
  stress : Bool
  fweight : Bool
  contrib : Bool
  rescale : Bool
  apot : Bool
  noPunish : Bool

/-- `neigh_t` (`src/types.h`) restricted to the fields the pair and EAM routines read.  `nr` is the
number of the neighbour in the list of all atoms, `typ` its type, `col0`/`col1` are `col[0]`, `col[1]`. -/
structure Neigh (K : Type*) where
  nr : Nat
  typ : Nat
  r : K
  dist : V3 K
  distR : V3 K
  col0 : Nat
  col1 : Nat

/-- `atom_t` restricted to the same purpose. -/
structure Atom (K : Type*) where
  typ : Nat
  neigh : List (Neigh K)
  absforce : K
  contrib : Bool

/-- One configuration with its reference data (`force_0`) and weights.  `chem` is the chemical
potential contribution added to the energy (`enable_cp`, 182-186), zero without it. -/
structure Conf (K : Type*) where
  start : Nat
  atoms : List (Atom K)
  uf : Bool
  us : Bool
  weight : K
  vol : K
  force0 : Nat → V3 K
  energy0 : K
  stress0 : Fin 6 → K
  limit0 : K
  chem : K

/-- The potential table as seen by the force routines: `calc_pot.end/begin/step`, and value and slope
of the interpolated function of a column. -/
structure Pots (K : Type*) where
  fin : Nat → K
  beg : Nat → K
  step : Nat → K
  val : Nat → K → K
  grad : Nat → K → K

/-- The sections of the force vector: three entries per atom, one energy, six stresses and one
limiting constraint per configuration. -/
structure FV (K : Type*) where
  force : Nat → V3 K
  energy : Nat → K
  stress : Nat → Fin 6 → K
  limit : Nat → K

variable {K : Type*} [Field K] [LinearOrder K]

/-- `forces[3*a + c] += v[c]`. -/
def addAt (f : Nat → V3 K) (a : Nat) (v : V3 K) : Nat → V3 K :=
  Function.update f a (f a + v)

/-- Force on atom `i`, opposite force on the neighbour: `src/force_pair.c` 229-242. -/
def scatter (f : Nat → V3 K) (i nr : Nat) (v : V3 K) : Nat → V3 K :=
  addAt (addAt f i v) nr (-v)

/-- The six products added to the stresses, 246-251. -/
def virial (dist v : V3 K) : Fin 6 → K :=
  ![dist 0 * v 0, dist 1 * v 1, dist 2 * v 2, dist 0 * v 1, dist 1 * v 2, dist 2 * v 0]

/-- Running sums of one configuration. -/
structure Acc (K : Type*) where
  force : Nat → V3 K
  energy : K
  stress : Fin 6 → K
  err : K

/-- One neighbour in the second loop: `src/force_pair.c` 205-256 (the same code:
`src/force_eam.c` 234-284). -/
def pairNeigh (b : Build) (P : Pots K) (uf us : Bool) (i : Nat) (s : Acc K) (n : Neigh K) : Acc K :=
  if n.r < P.fin n.col0 then
    let v := P.val n.col0 n.r
    let g := if uf then P.grad n.col0 n.r else 0
    let v := if n.nr = i then v * (1 / 2) else v
    let g := if n.nr = i then g * (1 / 2) else g
    let s := { s with energy := s.energy + v }
    if uf then
      let tmp : V3 K := fun c => n.distR c * g
      { s with
        force := scatter s.force i n.nr tmp
        stress := if b.stress && us then s.stress - virial n.dist tmp else s.stress }
    else s
  else s

/-- `FORCE_EPS`, `src/potfit.h`. -/
def forceEps : K := 1 / 10

/-- Sum of squares of a force vector. -/
def sq3 (v : V3 K) : K := v 0 * v 0 + v 1 * v 1 + v 2 * v 2

/-- Weighting and error contribution of one atom, 258-272 (`src/force_eam.c` 502-513). -/
def closeAtom (b : Build) (c : Conf K) (a : Atom K) (i : Nat) (s : Acc K) : Acc K :=
  if c.uf then
    let f : Nat → V3 K := if b.fweight then
        Function.update s.force i (fun k => s.force i k / (forceEps + a.absforce))
      else s.force
    { s with
      force := f
      err := if !b.contrib || a.contrib then s.err + c.weight * sq3 (f i) else s.err }
  else s

/-- A loop over the atoms, starting with atom number `i`, in which every neighbour is treated by `body`
(arguments: number and type of the atom, running sums, neighbour) and then the atom is closed: second
loop of `src/force_pair.c` 200-273, third loop of `src/force_eam.c` 428-514. -/
def forceLoop (b : Build) (c : Conf K) (body : Nat → Nat → Acc K → Neigh K → Acc K) :
    List (Atom K) → Nat → Acc K → Acc K
  | [], _, s => s
  | a :: as, i, s =>
    forceLoop b c body as (i + 1) (closeAtom b c a i (a.neigh.foldl (body i a.typ) s))

/-- The second loop of `src/force_pair.c`. -/
def pairLoop (b : Build) (P : Pots K) (c : Conf K) (s : Acc K) : Acc K :=
  forceLoop b c (fun i _ => pairNeigh b P c.uf c.us i) c.atoms c.start s

/-- First loop, 188-198: reset the forces of the atoms of the configuration. -/
def resetForces (c : Conf K) (f : Nat → V3 K) : Nat → V3 K := fun a =>
  if c.start ≤ a ∧ a < c.start + c.atoms.length then
    if c.uf then -c.force0 a else 0
  else f a

/-- End of a configuration, 275-289: energy per atom and stresses relative to the reference. -/
def closeConf (b : Build) (eweight sweight : K) (c : Conf K) (s : Acc K) : Acc K :=
  let e := s.energy / (c.atoms.length : K) - c.energy0
  let s := { s with energy := e, err := s.err + c.weight * eweight * (e * e) }
  if b.stress && c.uf && c.us then
    let st : Fin 6 → K := fun k => s.stress k / c.vol - c.stress0 k
    { s with stress := st
             err := s.err + (List.ofFn fun k => c.weight * sweight * (st k * st k)).sum }
  else s

/-- One configuration, 170-291: new force vector and contribution to `error_sum`.  `ci` is the number
of the configuration.  Without `STRESS` the stress section does not exist. -/
def pairConf (b : Build) (P : Pots K) (eweight sweight : K) (ci : Nat) (c : Conf K) (fv : FV K) :
    FV K × K :=
  let s := pairLoop b P c ⟨resetForces c fv.force, c.chem, 0, 0⟩
  let s := closeConf b eweight sweight c s
  (⟨s.force, Function.update fv.energy ci s.energy,
    if b.stress then Function.update fv.stress ci s.stress else fv.stress, fv.limit⟩, s.err)

/-- The loop over the configurations of one process, 170-291, `ci` being the number of the first.
`one` evaluates one configuration: it changes the state `τ` (the force vector and whatever else the routine
writes) and returns the summands for the sums kept outside the loop (`error_sum`, for EAM also
`rho_sum`). -/
def confLoop {σ τ ε : Type*} [Add ε] (one : Nat → σ → τ → τ × ε) : List σ → Nat → τ × ε → τ × ε
  | [], _, s => s
  | c :: cs, ci, s =>
    let r := one ci c s.1
    confLoop one cs (ci + 1) (r.1, s.2 + r.2)

end Verif.Force
