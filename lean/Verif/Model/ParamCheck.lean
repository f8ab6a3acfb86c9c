/-
`src/params.c` 411-536 `check_parameters_complete`, `read_parameters` 53-65, and the values before reading,
`src/memory.c` 134-172 `initialize_global_variables`.

Simplifications: warnings are left out; the test of the number of arguments (55-56) is not modelled.
-/
import Verif.Model.Params

namespace Verif.Params

/-- `memset(&g_param, 0, ..)`, `memset(&g_files, 0, ..)`, `memory.c` 136-172: nothing is set. The numbers which are not zero then are the
defaults in `checkComplete`. -/
def initial : St := ⟨fun _ => none, fun _ => false⟩

/-- An integer variable with its value before reading. -/
def intOf (s : St) (k : String) (d : Int) : Int :=
  match s.val k with
  | some (.int i) => i
  | _ => d

/-- A floating-point variable. -/
def dblOf (s : St) (k : String) (d : ℚ) : Dbl :=
  match s.val k with
  | some (.dbl x) => x
  | _ => .num d

/-- A string; `[]` also for the null pointer. -/
def strOf (s : St) (k : String) : List Nat :=
  match s.val k with
  | some (.str w) => w
  | _ => []

/-- 423-429: name of the final potential. -/
def withEndpot (s : St) : St :=
  if s.val "endpot" = none then s.set "endpot" (.str (strOf s "startpot" ++ codes "_end")) else s

/-- 475-480: temperature of annealing. -/
def withAnneal (b : Build) (s : St) : St :=
  if b.evo = false ∧ s.val "anneal_temp" = none ∧ intOf s "opt" 0 = 1 then s.set "anneal_temp" (.str (codes "0")) else s

/-- 495-501: file of the ensemble. -/
def withEnsemble (b : Build) (s : St) : St :=
  if b.uq = true ∧ s.val "ensemblefile" = none then s.set "ensemblefile" (.str (strOf s "output_prefix" ++ codes ".uq")) else s

/-- 514-515 -/
def withTemp (b : Build) (s : St) : St :=
  if b.uq = true ∧ dblOf s "uq_temp" 0 = .num 0 then s.set "uq_temp" (.dbl (.num 1)) else s

/-- 517-523 -/
def withHess (b : Build) (s : St) : St :=
  if b.uq = true ∧ dblOf s "hess_pert" 0 = .num 0 then s.set "hess_pert" (.dbl (.num (1 / 100000))) else s

/-- 527-530: no optimisation if model parameters are only to be printed. -/
def withOpt (b : Build) (s : St) : St :=
  if b.kim = true ∧ s.val "kim_model_params" ≠ none then s.set "opt" (.int 0) else s

/-- 532-533 -/
def checkKim (b : Build) (s : St) : Except Stop St :=
  if b.kim = true ∧ s.val "kim_model_name" = none then .error .exit else .ok s

/-- 503-533 -/
def checkUq (b : Build) (s : St) : Except Stop St :=
  if b.uq = true ∧ intOf s "acc_moves" 0 = 0 then .error .exit
  else if b.uq = true ∧ dblOf s "acc_rescaling" 0 = .num 0 then .error .exit
  else checkKim b (withOpt b (withHess b (withTemp b s)))

/-- 483-533 -/
def checkScale (b : Build) (s : St) : Except Stop St :=
  if b.bindist = true ∧ s.val "bindist_file" = none then .error .exit -- 484
  else if (dblOf s "cell_scale" 1).ltB 0 = true ∨ dblOf s "cell_scale" 1 = .num 0 then .error .exit -- 490
  else checkUq b (withEnsemble b s)

/-- 431-533 -/
def checkWeights (b : Build) (s : St) : Except Stop St :=
  if s.val "config" = none then .error .exit -- 431
  else if s.val "tempfile" = none then .error .exit -- 435
  else if (dblOf s "eng_weight" 0).ltB 0 = true then .error .exit -- 440
  else if b.stress = true ∧ (dblOf s "stress_weight" (-1)).ltB 0 = true then .error .exit -- 445
  else if s.flag "imdpot" = true ∧ intOf s "imdpotsteps" 500 < 1 then .error .exit -- 451
  else if intOf s "write_lammps" 0 ≠ 0 ∧ intOf s "lammpspotsteps" 500 < 1 then .error .exit -- 455
  else if b.apot = true ∧ (dblOf s "plotmin" 0).ltB 0 = true then .error .exit -- 460
  else if b.apot = true ∧ b.pair = true ∧ intOf s "enable_cp" 0 ≠ 0 ∧ intOf s "enable_cp" 0 ≠ 1 then .error .exit -- 464
  else if b.evo = true ∧ (dblOf s "evo_threshold" (1 / 1000000)).ltB 0 = true then .error .exit -- 471
  else checkScale b (withAnneal b s)

/-- `check_parameters_complete`, 411-536. Strings are null pointers unless set. -/
def checkComplete (b : Build) (s : St) : Except Stop St :=
  if intOf s "ntypes" 0 < 1 then .error .exit -- 413
  else if s.val "startpot" = none then .error .exit -- 418
  else checkWeights b (withEndpot s)

/-- `read_parameters`, 53-65; `buffer` is the uninitialised buffer of `read_parameter_file`. -/
def readParameters (b : Build) (strtod : List Nat → Dbl × Bool) (buffer f : List Nat) : Except Stop St :=
  match readParameterFile b strtod initial buffer f with
  | .error e => .error e
  | .ok s => checkComplete b s

end Verif.Params
