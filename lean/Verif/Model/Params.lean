/-
`src/params.c`: the parameter file, 74-405.

Characters are codes, see `Verif/Model/LineReader.lean`.  Not modelled: warnings and error texts, the line counter used in them; for
`check_parameters_complete` (411-536) see `Model/ParamCheck.lean`.  A variable of the program is named by the keyword which
sets it; no two keywords set the same variable.
-/
import Verif.Model.LineReader
import Mathlib.Algebra.Order.Ring.Rat
import Mathlib.Algebra.Order.Field.Rat

namespace Verif.Params

open Verif.LineReader

/-- A double: not a number, infinities, numbers. -/
inductive Dbl
  | nan
  | neg
  | pos
  | num (q : ℚ)
  deriving DecidableEq

/-- `*value < min`, for a number `min`. -/
def Dbl.ltB : Dbl → ℚ → Bool
  | .nan, _ => false
  | .neg, _ => true
  | .pos, _ => false
  | .num q, m => decide (q < m)

/-- `*value > max`. -/
def Dbl.gtB : Dbl → ℚ → Bool
  | .nan, _ => false
  | .neg, _ => false
  | .pos, _ => true
  | .num q, m => decide (m < q)

/-- `float.h`, `limits.h` -/
def dblMin : ℚ := 1 / 2 ^ 1022
def dblMax : ℚ := (2 ^ 53 - 1) * 2 ^ 971
def intMin : Int := -2147483648
def intMax : Int := 2147483647

/-- How a keyword is read: `get_param_int`, `get_param_double`, `get_param_string`, the same also setting a flag of its own,
`kim_model_params`. -/
inductive Kind
  | int (min max : Int)
  | dbl (min max : ℚ)
  | str
  | strFlag
  | kim
  deriving DecidableEq

/-- Compile-time options. -/
structure Build where
  apot : Bool
  pair : Bool
  coulomb : Bool
  dipole : Bool
  evo : Bool
  bindist : Bool
  stress : Bool
  uq : Bool
  kim : Bool

/-- The chain of comparisons, 99-325, in its order. -/
def table (b : Build) : List (String × Kind) :=
  [("ntypes", .int 1 intMax), ("startpot", .str), ("endpot", .str), ("output_prefix", .strFlag), ("imdpot", .strFlag),
    ("plotfile", .strFlag), ("imdpotsteps", .int 1 intMax), ("extend", .dbl dblMin dblMax), ("config", .str), ("opt", .int 0 1),
    ("flagfile", .str), ("write_pair", .int 0 1), ("plotpointfile", .str), ("tempfile", .str), ("seed", .int intMin intMax),
    ("eng_weight", .dbl 0 dblMax), ("d_eps", .dbl 0 dblMax), ("write_lammps", .int 0 1), ("lammpspotsteps", .int 1 intMax),
    ("cell_scale", .dbl 0 dblMax)] ++
  (if b.apot then
    [("apot_punish", .dbl 0 dblMax), ("plotmin", .dbl dblMin dblMax)] ++ (if b.pair then [("enable_cp", .int intMin intMax)] else [])
  else [("maxchfile", .strFlag)]) ++
  (if b.coulomb then [("dp_cut", .dbl dblMin dblMax)] else []) ++
  (if b.dipole then [("dp_tol", .dbl dblMin dblMax), ("dp_mix", .dbl dblMin dblMax)] else []) ++
  (if b.evo then [("evo_threshold", .dbl 0 dblMax)] else [("anneal_temp", .str)]) ++
  (if b.bindist then [("bindist_file", .str)] else []) ++
  (if b.stress then [("stress_weight", .dbl 0 dblMax)] else []) ++
  (if b.uq then
    [("ensemblefile", .str), ("acc_rescaling", .dbl dblMin dblMax), ("acc_moves", .int 1 intMax), ("uq_temp", .dbl dblMin 1),
      ("use_svd", .int 0 1), ("hess_pert", .dbl (-1) 1), ("eig_max", .dbl dblMin dblMax), ("write_ensemble", .int 0 intMax)]
  else []) ++
  (if b.kim then
    [("kim_model_name", .str), ("kim_model_params", .kim), ("kim_model_output_directory", .str), ("kim_model_output_name", .str)]
  else [])

/-- The values of `g_param.kim_model_params` which can be set. -/
inductive KimParams
  | dumpFile
  | dump
  | useDefault
  deriving DecidableEq

inductive Val
  | int (i : Int)
  | dbl (d : Dbl)
  | str (s : List Nat)
  | kim (k : KimParams)
  deriving DecidableEq

/-- Variables, `none` for the value before reading; flags. -/
structure St where
  val : String → Option Val
  flag : String → Bool

/-- `error(1, ..)`; undefined behaviour. -/
inductive Stop
  | exit
  | ub
  deriving DecidableEq

/-- Separators of the `strtok` calls. -/
def isDelim (c : Nat) : Bool := c = 32 || c = 9 || c = 13 || c = 10

/-- `strtok`: the next word and what is left, `none` for `NULL`. -/
def strtok (s : List Nat) : Option (List Nat × List Nat) :=
  match s.dropWhile isDelim with
  | [] => none
  | c :: t => some ((c :: t).takeWhile (fun c => !isDelim c), ((c :: t).dropWhile (fun c => !isDelim c)).drop 1)

/-- `tolower`, as in the C locale. -/
def lower (c : Nat) : Nat := if 65 ≤ c ∧ c ≤ 90 then c + 32 else c

/-- Codes of a string literal. -/
def codes (s : String) : List Nat := s.toList.map Char.toNat

/-- `strcasecmp(a, b) == 0`. -/
def caseEq (a b : List Nat) : Bool := a.map lower = b.map lower

/-- `strncasecmp(a, b, n) == 0`: equal in the first `n` characters, or equal strings if shorter. -/
def caseEqN (n : Nat) (a b : List Nat) : Bool := (a.take n).map lower = (b.take n).map lower

def isSpace (c : Nat) : Bool := c = 32 || (9 ≤ c && c ≤ 13)
def isDigit (c : Nat) : Bool := 48 ≤ c && c ≤ 57

/-- `strtol(str, &endptr, 10)`: the value, and whether `endptr == str`. -/
def strtol (s : List Nat) : Int × Bool :=
  let t := s.dropWhile isSpace
  let neg := t.head? = some 45
  let u := if t.head? = some 45 ∨ t.head? = some 43 then t.drop 1 else t
  let ds := u.takeWhile isDigit
  let n : Int := ds.foldl (fun (a : Int) (c : Nat) => 10 * a + ((c : Int) - 48)) 0
  let v := if neg then -n else n
  (max (-9223372036854775808) (min 9223372036854775807 v), ds.isEmpty)

/-- Conversion of `long` to `int`. -/
def toInt (v : Int) : Int := (v + 2147483648) % 4294967296 - 2147483648

def St.set (s : St) (k : String) (v : Val) : St := { s with val := Function.update s.val k (some v) }
def St.setFlag (s : St) (k : String) : St := { s with flag := Function.update s.flag k true }

/-- `get_param_int`, 338-359. -/
def getInt (s : St) (k : String) (rest : List Nat) (min max : Int) : Except Stop St :=
  match strtok rest with
  | none => .error .exit
  | some (str, _) =>
    let r := strtol str
    let v := toInt r.1
    if v = 0 ∧ r.2 then .error .exit else if v < min ∨ v > max then .error .exit else .ok (s.set k (.int v))

/-- `get_param_double`, 365-386. `strtod` is the library's function, with the test `endptr == str`. -/
def getDbl (strtod : List Nat → Dbl × Bool) (s : St) (k : String) (rest : List Nat) (min max : ℚ) : Except Stop St :=
  match strtok rest with
  | none => .error .exit
  | some (str, _) =>
    let r := strtod str
    if r.1 = .num 0 ∧ r.2 then .error .exit
    else if r.1.ltB min || r.1.gtB max then .error .exit else .ok (s.set k (.dbl r.1))

/-- `get_param_string`, 392-405: `error(0, ..)` returns. -/
def getStr (s : St) (k : String) (rest : List Nat) : St :=
  match strtok rest with
  | none => s
  | some (str, _) => s.set k (.str str)

/-- 296-308: `strncasecmp` of the null pointer if there is no value. -/
def getKim (s : St) (k : String) (rest : List Nat) : Except Stop St :=
  match strtok rest with
  | none => .error .ub
  | some (str, _) =>
    if caseEqN 9 (codes "dump_file") str then .ok (s.set k (.kim .dumpFile))
    else if caseEqN 4 (codes "dump") str then .ok (s.set k (.kim .dump))
    else if caseEqN 11 (codes "use_default") str then .ok (s.set k (.kim .useDefault))
    else .ok s

/-- One keyword. -/
def assign (strtod : List Nat → Dbl × Bool) (s : St) (e : String × Kind) (rest : List Nat) : Except Stop St :=
  match e.2 with
  | .int lo hi => getInt s e.1 rest lo hi
  | .dbl lo hi => getDbl strtod s e.1 rest lo hi
  | .str => .ok (getStr s e.1 rest)
  | .strFlag => .ok ((getStr s e.1 rest).setFlag e.1)
  | .kim => getKim s e.1 rest

/-- The loop body, 91-325. -/
def process (b : Build) (strtod : List Nat → Dbl × Bool) (s : St) (line : List Nat) : Except Stop St :=
  match strtok line with
  | none => .ok s
  | some (token, rest) =>
    if token.head? = some 35 then .ok s
    else
      match (table b).find? fun e => caseEq token (codes e.1) with
      | none => .ok s
      | some e => assign strtod s e rest

/-- The loop, 87-327, on a file `f` with the buffer `old` of 1024 characters. `feof` holds if nothing is left; then `fgets_potfit`
would return `NULL`. Each turn reads at least one character, so `f.length` turns suffice. -/
def loop (b : Build) (strtod : List Nat → Dbl × Bool) : Nat → St → List Nat → List Nat → Except Stop St
  | 0, s, _, _ => .ok s
  | n + 1, s, old, f =>
    match fgetsPotfit 1024 old f with
    | none => .ok s
    | some (buf, rest) =>
      match process b strtod s (cstr buf) with
      | .error e => .error e
      | .ok s => loop b strtod n s buf rest

/-- `read_parameter_file`, 74-330. -/
def readParameterFile (b : Build) (strtod : List Nat → Dbl × Bool) (s : St) (buffer f : List Nat) : Except Stop St :=
  loop b strtod f.length s buffer f

end Verif.Params
