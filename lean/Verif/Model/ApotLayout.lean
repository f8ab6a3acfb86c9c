/-
Parameter vector of analytic potentials: `read_pot_table0` of `src/potential_input_f0.c` 75-313 from the point where all
numbers have been read, and the places where the parameters are looked for later.  Simplifications: names, bounds and
function pointers are left out (only whether a parameter is fixed matters here); memory is zero after `Malloc`; composition
nodes (`CN`, disabled in the code) are left out.
-/
import Mathlib.Algebra.Group.Defs
import Mathlib.Algebra.BigOperators.Group.List.Basic

namespace Verif.ApotLayout

variable {K : Type*} [Zero K]

/-- A parameter: value and `invar_par`. -/
structure Par (K : Type*) where
  val : K
  fixed : Bool
deriving DecidableEq

/-- An analytic potential: `invar_pot` and its parameters. -/
structure Fn (K : Type*) where
  frozen : Bool
  pars : List (Par K)
deriving DecidableEq

/-- Parameters besides those of potentials: nothing; chemical potentials (`PAIR` with `enable_cp`); the electrostatic
parameters (`COULOMB`: charges of all types but the last, kappa; with `DIPOLE` also polarisabilities, `dp_b`, `dp_c`), one
list for each of `values[number]`, `values[number + 1]`, … -/
inductive Extra (K : Type*)
  | none
  | chem (ps : List (Par K))
  | elstat (dipole : Bool) (secs : List (List (Par K)))
deriving DecidableEq

/-- What has been read; `used` tells whether some parameter refers to a global one. -/
structure File (K : Type*) where
  ntypes : Nat
  fns : List (Fn K)
  extra : Extra K
  globals : List (Par K)
  used : Bool

/-- An entry of the index lists `opt_pot.idx`, `idxpot`, `idxparam`. -/
structure Slot where
  pos : Nat
  pot : Nat
  par : Nat
deriving DecidableEq

/-- `val` (as the list of what has been written), `l` and the index lists (their length is `k`). -/
structure St (K : Type*) where
  table : List K
  l : Nat
  idx : List Slot

/-- Parameters `j, j+1, …` of potential `i`, 179-193 (and 221-247, 249-277, 283-294). -/
def addPars (frozen : Bool) (i : Nat) : List (Par K) → Nat → St K → St K
  | [], _, s => s
  | p :: ps, j, s =>
    addPars frozen i ps (j + 1)
      ⟨s.table ++ [p.val], s.l + 1, if !frozen && !p.fixed then s.idx ++ [⟨s.l, i, j⟩] else s.idx⟩

/-- The loop over the potentials, 178-197. -/
def addFns : List (Fn K) → Nat → St K → St K
  | [], _, s => s
  | f :: fs, i, s => addFns fs (i + 1) (addPars f.frozen i f.pars 0 ⟨s.table ++ [0, 0], s.l + 2, s.idx⟩)

/-- The chemical potentials, 203-211: `l` is not increased for a fixed one. -/
def addChem (i : Nat) : List (Par K) → Nat → St K → St K
  | [], _, s => s
  | p :: ps, j, s =>
    addChem i ps (j + 1)
      (if !p.fixed then ⟨s.table ++ [p.val], s.l + 1, s.idx ++ [⟨s.l, i, j⟩]⟩ else ⟨s.table ++ [p.val], s.l, s.idx⟩)

/-- The electrostatic parameters, 219-279. -/
def addSecs : List (List (Par K)) → Nat → St K → St K
  | [], _, s => s
  | ps :: pss, i, s => addSecs pss (i + 1) (addPars false i ps 0 s)

def addExtra (number : Nat) (x : Extra K) (s : St K) : St K :=
  match x with
  | .none => s
  | .chem ps => addChem number ps 0 s
  | .elstat _ secs => addSecs secs number s

/-- `global_pot`, 611-616. -/
def globalPot (f : File K) : Nat :=
  match f.extra with
  | .none => f.fns.length
  | .chem _ => f.fns.length + 1
  | .elstat _ _ => f.fns.length + 5

/-- `have_globals` after 102-112. -/
def haveGlobals (f : File K) : Bool := f.used && !f.globals.isEmpty

/-- Table and index lists, 172-298. -/
def build (f : File K) : St K :=
  let s := addFns f.fns 0 ⟨[], 0, []⟩
  let s := addExtra f.fns.length f.extra s
  if haveGlobals f then addPars false (globalPot f) f.globals 0 s else s

/-- `pt->last[i] + 1` for the last potential, 134-144: `first[0] = 2`, `first[i] = last[i-1] + 3`. -/
def lastEnd : List (Fn K) → Nat → Nat
  | [], e => e
  | f :: fs, e => lastEnd fs (e + 2 + f.pars.length)

/-- Number of fixed parameters, the last entry of `invar_par[i]`. -/
def nFixed (ps : List (Par K)) : Nat := (ps.filter (·.fixed)).length

/-- `pt->len`, 145-161. -/
def len (f : File K) : Nat :=
  lastEnd f.fns 0 + (if haveGlobals f then f.globals.length else 0) +
    match f.extra with
    | .none => 0
    | .chem _ => f.ntypes
    | .elstat dipole _ => 2 * f.ntypes - 1 + if dipole then f.ntypes * (f.ntypes + 2) else 0

/-- The table in memory: entries that were not written are zero.  (Writing more than `len` entries would be out of bounds.) -/
def table (f : File K) : List K := (build f).table ++ List.replicate (len f - (build f).table.length) 0

/-- `pt->idxlen`, 194-195, 212-213, 231-278, 295. -/
def idxlen (f : File K) : Int :=
  (f.fns.map fun g => if !g.frozen then ((g.pars.length : Int) - nFixed g.pars) else 0).sum +
    (match f.extra with
      | .none => 0
      | .chem ps => (f.ntypes : Int) - nFixed ps
      | .elstat dipole secs => -((secs.map fun ps => (nFixed ps : Int)).sum) + f.ntypes +
          if dipole then (f.ntypes * (f.ntypes + 2) : Int) else 0) +
    if haveGlobals f then (f.globals.length : Int) - nFixed f.globals else 0

/-- `g_pot.global_idx`, 214-215 and 299: where `update_apot_table` and `update_calc_table`
(`src/potential_input.c` 606-637) look for the global parameters. -/
def globalIdx (f : File K) : Nat :=
  (match f.extra with
    | .chem ps => f.ntypes - nFixed ps
    | _ => 0) + lastEnd f.fns 0

/-- `apt->total_par` at line 98: `globals` is added in line 609, `n_par` in line 772. -/
def totalPar (f : File K) : Nat := f.globals.length + (f.fns.map fun g => g.pars.length).sum

/-- `g_pot.cp_start`, 118-119: where `force_pair.c` 185 looks for the chemical potentials. -/
def cpStart (f : File K) : Nat := totalPar f - f.globals.length + f.ntypes * (f.ntypes + 1)

/-- `2 * size + ne`: where `calc_forces` of `src/force_elstat.c` 147-148, 183-216 looks for the electrostatic parameters
(likewise `force_eam_elstat.c`, `force_ang_elstat.c`). -/
def elStart (f : File K) : Nat := 2 * f.fns.length + totalPar f

/-- Reading entry `n` of the table; `none` outside of it. -/
def entry (f : File K) (n : Nat) : Option K := (table f)[n]?

end Verif.ApotLayout
