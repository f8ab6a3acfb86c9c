/-
The start of the program up to the first evaluation, with tabulated potentials: `read_input_files` (`src/potfit.c` 217-241) calls
`read_pot_table` (`Model/PotFile.lean`), which ends with `calculate_cutoffs` (`Model/Cutoffs.lean`), and `read_config`
(`Model/ConfigFile.lean`), which for every configuration calls `make_box`, `init_box_vectors` and `init_neighbors`
(`Model/Neighbors.lean`).

Simplifications: the configurations are read first and then given their neighbour lists, in the code every configuration gets its
lists before the next one is read (`src/config.c` 318-368); if there are two errors, another one may be reported.  Numbers are real.
-/
import Verif.Model.PotFile
import Verif.Model.ConfigFile
import Verif.Model.Cutoffs
import Verif.Model.SplineInit

namespace Verif.Setup

open Verif.Force (V3 Neigh)
open Verif.ConfigFile (Config Settings)
open Verif.Neighbors (Cell Cutoffs ConfigError)

/-- Why the program stops: an error message of one of the readers, or (`undefined`) the conversion of an infinite or undefined
number in `does_contribute`. -/
inductive Stop where
  | pot (e : PotFile.Err)
  | config (e : ConfigFile.Err)
  | cell (e : ConfigError)
  | undefined

/-- `g_pot.opt_pot` as the spline routines see it; `invstep` is set together with `step` (`src/potential_input_f3.c` 79-80,
`src/potential_input_f4.c` 140-141). -/
noncomputable def colsOf (s : PotFile.State ℝ) : SplineInit.Cols ℝ where
  first i := s.first.getD i 0
  last i := s.last.getD i 0
  beg i := s.beg.getD i 0
  fin i := s.fin.getD i 0
  step i := s.step.getD i 0
  invstep i := 1 / s.step.getD i 0
  xcoord k := s.xcoord.getD k 0

/-- The parameter array `g_pot.opt_pot.table`; `g_pot.calc_pot.table` is the same memory (`src/potential_input_f3.c` 459-474,
`src/potential_input_f4.c` 358-373). -/
noncomputable def valuesOf (s : PotFile.State ℝ) (k : Nat) : ℝ := s.table.getD k 0

/-- `g_config.rcut` and `g_config.rcutmax` after `read_pot_table`; `before` is uninitialised memory. -/
noncomputable def cutoffsOf (kind : Cut.Kind) (n : Nat) (before : Nat → ℝ) (s : PotFile.State ℝ) : Cutoffs :=
  Cut.toCutoffs n (Cut.rcut kind false n (colsOf s).fin 0 before)

/-- What `init_neighbors` finds in the configuration `i` read from the file, `src/config.c` 318-362. -/
noncomputable def cellOf (n : Nat) (cs : List (Config ℝ)) (i : Nat) (d : Config ℝ) : Except ConfigError Cell :=
  match Neighbors.makeBox d.edge with
  | .error e => .error e
  | .ok (box, _) =>
    .ok ⟨box, ConfigFile.cnfstart cs i, d.atoms.map fun a => ⟨a.typ.toNat, a.pos⟩, n, n * (n + 1) / 2⟩

/-- `init_box_vectors` and `init_neighbors`, `src/config.c` 360-362. -/
noncomputable def listsOf (full : Bool) (cut : Cutoffs) (c : Cell) : Except ConfigError (List (List (Neigh ℝ))) :=
  match Neighbors.cellScale cut.rcutmax c.box with
  | .error e => .error e
  | .ok scale => Neighbors.initNeighbours full cut scale c

/-- Neighbour lists of all atoms of the configurations from number `i` on. -/
noncomputable def listsFrom (full : Bool) (cut : Cutoffs) (n : Nat) (cs : List (Config ℝ)) :
    Nat → List (Config ℝ) → Except ConfigError (List (List (Neigh ℝ)))
  | _, [] => .ok []
  | i, d :: ds => match cellOf n cs i d with
    | .error e => .error e
    | .ok c => match listsOf full cut c with
      | .error e => .error e
      | .ok l => match listsFrom full cut n cs (i + 1) ds with
        | .error e => .error e
        | .ok r => .ok (l ++ r)

/-- `atom->contrib` of all atoms of a configuration, `src/config.c` 348-353; the field exists with `CONTRIB` only. -/
noncomputable def marks (s : Settings ℝ) (d : Config ℝ) : List (ConfigFile.RawAtom ℝ) → Option (List Bool)
  | [] => some []
  | a :: as =>
    match (if s.contrib = true then ConfigFile.contributes Real.sqrt d a.pos else some true), marks s d as with
    | some b, some bs => some (b :: bs)
    | _, _ => none

/-- The same for all configurations. -/
noncomputable def marksFrom (s : Settings ℝ) : List (Config ℝ) → Option (List Bool)
  | [] => some []
  | d :: ds => match marks s d d.atoms, marksFrom s ds with
    | some b, some bs => some (b ++ bs)
    | _, _ => none

/-- `read_config`, `src/config.c` 89-457: the configurations as the force routines find them.  There are no chemical potentials with
tabulated potentials (`src/force_pair.c` 181-186). -/
noncomputable def loadConfigs (full : Bool) (s : Settings ℝ) (f : Sections.Flags) (z : Sections.Sizes) (cut : Cutoffs)
    (ls : List (ConfigFile.Line ℝ)) : Except Stop (List (Force.Conf ℝ)) :=
  match ConfigFile.readFile s ls with
  | .error e => .error (.config e)
  | .ok cs => match marksFrom s cs with
    | none => .error .undefined
    | some ms => match listsFrom full cut s.ntypes cs 0 cs with
      | .error e => .error (.cell e)
      | .ok nl => .ok (ConfigFile.toConfs s f z (fun k => nl.getD k []) (fun k => ms.getD k true) (fun _ => 0) cs)

/-- What is known at the first evaluation. -/
structure Start where
  state : PotFile.State ℝ
  confs : List (Force.Conf ℝ)

/-- `read_pot_table` and `read_config`, `src/potfit.c` 226-227. -/
noncomputable def setup (v : PotFile.Variant) (kind : Cut.Kind) (rescale : Bool) (name : String) (full : Bool) (s : Settings ℝ)
    (f : Sections.Flags) (z : Sections.Sizes) (before : Nat → ℝ) (pot : PotFile.File ℝ) (ls : List (ConfigFile.Line ℝ)) :
    Except Stop Start :=
  match PotFile.readPot v rescale name s.ntypes pot with
  | .error e => .error (.pot e)
  | .ok st => match loadConfigs full s f z (cutoffsOf kind s.ntypes before st) ls with
    | .error e => .error e
    | .ok confs => .ok ⟨st, confs⟩

/-- The array of parameters is written to the file at the end of the program, `src/potfit.c` 140. -/
noncomputable def finish (name : String) (st : PotFile.State ℝ) (xi : Nat → ℝ) : Option (PotFile.File ℝ) :=
  PotFile.writePot name { st with table := (List.range st.len).map xi }

end Verif.Setup
