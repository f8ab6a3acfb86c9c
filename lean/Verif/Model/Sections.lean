/-
Positions of the sections of the force vector: `set_force_vector_pointers`, `src/force_common.c` 99-141,
and its allocated length `mdim`, `src/config.c` 405-426.  Sizes are natural numbers (no `int` overflow).
-/
import Mathlib.Init

namespace Verif.Sections

/-- The compile-time switches on which the layout depends.  `eamLike`: `EAM`, `ADP` or `MEAM`;
`tbeam` is `TBEAM` and implies `EAM`. -/
structure Flags where
  stress : Bool
  eamLike : Bool
  tbeam : Bool
  apot : Bool

/-- The sizes: `natoms`, `nconf`, `ntypes`, `opt_pot.idxlen` (equal to `ndim`, the number of fitted
parameters), `apot_table.number`, `apot_table.invar_pots`. -/
structure Sizes where
  natoms : Nat
  nconf : Nat
  ntypes : Nat
  idxlen : Nat
  number : Nat
  invar : Nat

/-- `g_calc.energy_p`, 101. -/
def energyP (z : Sizes) : Nat := 3 * z.natoms

/-- `g_calc.stress_p`, 105; exists only with `STRESS`. -/
def stressP (z : Sizes) : Nat := energyP z + z.nconf

/-- `g_calc.limit_p`, 107 or 126; exists only with EAM-like potentials. -/
def limitP (f : Flags) (z : Sizes) : Nat :=
  if f.stress then stressP z + 6 * z.nconf else energyP z + z.nconf

/-- `g_calc.dummy_p`, 108 or 127. -/
def dummyP (f : Flags) (z : Sizes) : Nat := limitP f z + z.nconf

/-- `g_calc.punish_par_p`, 110, 116, 129 or 135; exists only with `APOT`. -/
def punishParP (f : Flags) (z : Sizes) : Nat :=
  if f.stress then
    if f.eamLike then dummyP f z + 2 * z.ntypes else stressP z + 6 * z.nconf
  else
    if f.eamLike then dummyP f z + 2 * z.ntypes else energyP z + z.nconf

/-- `g_calc.punish_pot_p`, 111, 117, 130 or 136 (`number - invar_pots` is not negative: at most all
potentials are invariant). -/
def punishPotP (f : Flags) (z : Sizes) : Nat := punishParP f z + z.number - z.invar

/-- `g_calc.mdim`, `src/config.c` 405-426. -/
def mdim (f : Flags) (z : Sizes) : Nat :=
  let m := 3 * z.natoms + z.nconf
  let m := if f.stress then m + 6 * z.nconf else m
  let m := if f.eamLike then
      let m := m + z.nconf
      let m := m + 2 * z.ntypes
      if f.tbeam then m + 2 * z.ntypes else m
    else m
  if f.apot then m + z.idxlen + (z.number + 1) else m

/-- `g_calc.punish_par_p` in a program compiled with `KIM` instead of `APOT`: `set_force_vector_pointers` assigns
it only under `defined(APOT)`, so it keeps the zero of the global variable `g_calc` (`src/potfit.c` 56).  It is
used by `src/force_kim.c` 270-288. -/
def punishParKim : Nat := 0

/-- What an entry of the force vector can be used for: force component `k` of atom `i`
(`3 * i + k`), energy, stress component, limiting constraint, dummy constraint number `d`
(`src/force_eam.c` 553-604: `dummy_p + g`, `dummy_p + ntypes + g`, with `TBEAM` also `dummy_p + 2 ntypes + g`
and `dummy_p + 3 ntypes + g`), punishment of parameter `i` (`src/functions.c` 361-378) and of potential `p`
(380-403). -/
inductive Use where
  | force (i k : Nat)
  | energy (h : Nat)
  | stress (h k : Nat)
  | limit (h : Nat)
  | dummy (d : Nat)
  | par (i : Nat)
  | pot (p : Nat)
  deriving DecidableEq

/-- Index in the force vector. -/
def index (f : Flags) (z : Sizes) : Use → Nat
  | .force i k => 3 * i + k
  | .energy h => energyP z + h
  | .stress h k => stressP z + 6 * h + k
  | .limit h => limitP f z + h
  | .dummy d => dummyP f z + d
  | .par i => punishParP f z + i
  | .pot p => punishPotP f z + p

end Verif.Sections
