/-
Text of analytic potential files: the reading part of `read_pot_table0` (`src/potential_input_f0.c` 318-935, called at 88-95) and
`write_pot_table0` (`src/potential_output.c` 76-262), from the end of the header on.  A file is a list of lines, each ended by a line
feed; a line is the list of its words and whether its first character is `#`.  Simplifications: a word is a number or not (`strtod`
and `sscanf` accept words beginning with a number and leave the rest); words and lines fit into `buffer` and `name` (255 characters);
composition nodes (`CN`, disabled) are left out; warnings are left out; fields not set are zero (`Malloc`).
-/
import Verif.Model.Apot
import Mathlib.Algebra.Field.Defs
import Mathlib.Data.List.Basic

namespace Verif.ApotFile

open Verif.Apot (Param checkBounds)

inductive Fault where
  /-- End of the file while looking for a section. -/
  | missing
  /-- Keyword expected but not found. -/
  | keyword
  /-- Not enough numbers. -/
  | numbers
  /-- Function not known. -/
  | function
  /-- Two global parameters with one name. -/
  | duplicate
  /-- Reference to a global parameter which is not defined. -/
  | noGlobal
  /-- `Malloc` of no or too much memory. -/
  | memory
  /-- A name of 30 or more characters is written behind its buffer. -/
  | overflow
  deriving DecidableEq, Repr

structure Line where
  hash : Bool
  words : List String
  deriving DecidableEq

variable {K : Type*} [Field K] [LinearOrder K]

/-- `strtod`, `%d`, number of parameters of a function (`apot_get_num_parameters`, −1 as `none`), `g_param.opt`. -/
structure Env (K : Type*) where
  num : String → Option K
  int : String → Option ℤ
  npar : String → Option Nat
  opt : Bool

/-- `fscanf(file, "%s", buffer)`. -/
def nextWord : List Line → Option (String × List Line)
  | [] => none
  | ⟨_, []⟩ :: ls => nextWord ls
  | ⟨h, w :: ws⟩ :: ls => some (w, ⟨h, ws⟩ :: ls)

/-- Search for a word, e.g. 736-740: the position in front of the first word accepted, `none` at the end of the file. -/
def seek (key : String → Bool) : List Line → Option (List Line)
  | [] => none
  | l :: ls => match l.words.dropWhile fun w => !key w with
    | [] => seek key ls
    | w :: ws => some (⟨l.hash, w :: ws⟩ :: ls)

/-- Up to `n` conversions `%lf` of `fscanf`. -/
def scanNums (num : String → Option K) : Nat → List Line → List K × List Line
  | 0, s => ([], s)
  | n + 1, s => match nextWord s with
    | none => ([], s)
    | some (w, s') => match num w with
      | none => ([], s)
      | some x => (x :: (scanNums num n s').1, (scanNums num n s').2)

/-- `fscanf(file, "%s %lf %lf %lf", ...)`. -/
def scanEntry (num : String → Option K) (s : List Line) : String × List K × List Line :=
  match nextWord s with
  | none => ("", [], s)
  | some (w, s') => (w, scanNums num 3 s')

/-- Up to `n` conversions `%lf` of `sscanf`. -/
def lineNums (num : String → Option K) : Nat → List String → List K
  | 0, _ => []
  | _, [] => []
  | n + 1, w :: ws => match num w with
    | none => []
    | some x => x :: lineNums num n ws

/-- A named parameter with the global parameter it stands for. -/
structure Entry (K : Type*) where
  name : String
  par : Param K
  ref : Option Nat
  deriving DecidableEq

/-- An analytic potential. -/
structure Fn (K : Type*) where
  name : String
  smooth : Bool
  cutoff : K
  pars : List (Entry K)
  deriving DecidableEq

/-- `read_chemical_potentials`, 336-407: `k` more types. -/
def chemLoop (E : Env K) : Nat → List Line → Except Fault (List (Entry K))
  | 0, _ => .ok []
  | k + 1, s =>
    let e := scanEntry E.num s
    if e.2.1.length < 3 then .error .numbers
    else if !"cp_".toList.isPrefixOf e.1.toList then .error .keyword
    else if 30 ≤ e.1.length then .error .overflow
    else match chemLoop E k e.2.2 with
      | .error f => .error f
      | .ok es => .ok (⟨e.1, checkBounds E.opt (e.2.1.getD 0 0) (e.2.1.getD 1 0) (e.2.1.getD 2 0), none⟩ :: es)

def readChem (E : Env K) (ntypes : Nat) (s : List Line) : Except Fault (List (Entry K)) :=
  match seek (fun w => "cp".toList.isPrefixOf w.toList) s with
  | none => .error .missing
  | some s => chemLoop E ntypes s

/-- `k` electrostatic parameters, e.g. 504-516: all numbers are needed, bounds are taken as they are. -/
def elstatLoop (E : Env K) : Nat → List Line → Except Fault (List (Entry K) × List Line)
  | 0, s => .ok ([], s)
  | k + 1, s =>
    let e := scanEntry E.num s
    if 30 ≤ e.1.length then .error .overflow
    else if e.2.1.length < 3 then .error .numbers
    else match elstatLoop E k e.2.2 with
      | .error f => .error f
      | .ok (es, s) =>
        .ok (⟨e.1, ⟨e.2.1.getD 0 0, e.2.1.getD 1 0, e.2.1.getD 2 0, decide (e.2.1.getD 1 0 = e.2.1.getD 2 0)⟩, none⟩ :: es, s)

/-- `read_elstat_table`, 472-581: numbers of `ratio`, then charges and kappa, with `DIPOLE` polarisabilities, `dp_b`, `dp_c`. -/
def readElstat (E : Env K) (dipole : Bool) (ntypes : Nat) (s : List Line) : Except Fault (List K × List (Entry K)) :=
  match seek (· == "elstat") s with
  | none => .error .missing
  | some s => match (nextWord s).bind fun r => nextWord r.2 with
    | none => .error .keyword
    | some (w, s) =>
      if w ≠ "ratio" then .error .keyword
      else
        let r := scanNums E.num ntypes s
        if r.1.length < ntypes then .error .numbers
        else match elstatLoop E (ntypes - 1 + 1 + if dipole then ntypes + 2 * (ntypes * (ntypes + 1) / 2) else 0) r.2 with
          | .error f => .error f
          | .ok (es, _) => .ok (r.1, es)

/-- The global parameters, 651-703: `k` more; `done` are those before. -/
def globalLoop (E : Env K) : Nat → List (Entry K) → List Line → Except Fault (List (Entry K))
  | 0, done, _ => .ok done
  | k + 1, done, s =>
    let e := scanEntry E.num s
    if 30 ≤ e.1.length then .error .overflow
    else if e.2.1.length < 3 ∧ e.1 = "type" then .error .numbers
    else if done.any (fun d => d.name == e.1) then .error .duplicate
    else globalLoop E k (done ++ [⟨e.1, checkBounds E.opt (e.2.1.getD 0 0) (e.2.1.getD 1 0) (e.2.1.getD 2 0), none⟩]) e.2.2

/-- `read_global_parameters`, 589-709; `none` if there is no such section. -/
def readGlobals (E : Env K) (s : List Line) : Except Fault (Option (List (Entry K))) :=
  match seek (· == "global") s with
  | none => .ok none
  | some s => match (nextWord s).bind fun r => nextWord r.2 with
    | none => .error .numbers
    | some (w, s) => match E.int w with
      | none => .error .numbers
      | some n =>
        if n ≤ 0 then .error .memory
        else match globalLoop E n.toNat [] s with
          | .error f => .error f
          | .ok gs => .ok (some gs)

/-- 845-853: the last global parameter whose name begins like the reference without its last character. -/
def findGlobal (gs : List (Entry K)) (name : String) : Option Nat :=
  ((List.range gs.length).filter fun k => match gs[k]? with
    | none => false
    | some g => name.toList.dropLast.isPrefixOf g.name.toList).getLast?

/-- One line with a parameter, 834-930; with `mayMiss` (last parameter of a function with smooth cutoff) it may be missing: `none`. -/
def readParam (E : Env K) (gs : List (Entry K)) (mayMiss : Bool) (l : Line) : Except Fault (Option (Entry K)) :=
  let name := l.words.headD "empty"
  if 30 ≤ name.length then .error .overflow
  else if '!' ∈ name.toList then
    match findGlobal gs name with
    | none => .error .noGlobal
    | some k => match gs[k]? with
      | none => .error .noGlobal
      | some g => .ok (some ⟨name, { g.par with invar := true }, some k⟩)
  else
    let v := lineNums E.num 3 l.words.tail
    if v.length < 3 ∧ mayMiss = false then .error .numbers
    else if v.length < 3 ∧ (name = "type" ∨ name = "empty") then .ok none
    else .ok (some ⟨name, checkBounds E.opt (v.getD 0 0) (v.getD 1 0) (v.getD 2 0), none⟩)

/-- The parameter added if none is given, 882-892. -/
def defaultH (E : Env K) : Entry K := ⟨"h", checkBounds E.opt 1 (1 / 2) 2, none⟩

/-- The loop over the parameters, 813-931: `k` more of them, comments are skipped except in front of the last one. -/
def readParams (E : Env K) (gs : List (Entry K)) (smooth : Bool) : Nat → List Line → Except Fault (List (Entry K) × List Line)
  | 0, s => .ok ([], s)
  | k + 1, s => match if k = 0 then s else s.dropWhile (·.hash) with
    | [] => .error .missing
    | l :: rest => match readParam E gs (smooth && decide (k = 0)) l with
      | .error f => .error f
      | .ok none => match readParams E gs smooth k s with
        | .error f => .error f
        | .ok (es, s) => .ok (defaultH E :: es, s)
      | .ok (some e) => match readParams E gs smooth k rest with
        | .error f => .error f
        | .ok (es, s) => .ok (e :: es, s)

/-- Name of the function and whether it ends in `_sc`, 758-767. -/
def splitName (w : String) : String × Bool :=
  let r := if "_sc".toList.isSuffixOf w.toList then (String.ofList (w.toList.take (w.toList.length - 3)), true) else (w, false)
  (if r.1 = "pohlong" then "bjs" else r.1, r.2)

/-- The lines behind `type`, 754-931. -/
def readBody (E : Env K) (gs : List (Entry K)) (w : String) (s : List Line) : Except Fault (Fn K × List Line) :=
  let name := splitName w
  match E.npar name.1 with
  | none => .error .function
  | some n => match nextWord s with
    | none => .error .numbers
    | some (c, s) => match scanNums E.num 1 s with
      | ([x], s) =>
        if c ≠ "cutoff" then .error .keyword
        else match s.tail.dropWhile (·.hash) with
          | [] => .error .missing
          | l :: rest => match readParams E gs name.2 (if name.2 then n + 1 else n) (l :: rest) with
            | .error f => .error f
            | .ok (es, s) => .ok (⟨name.1, name.2, x, es⟩, s)
      | _ => .error .numbers

/-- One potential, 743-931. -/
def readFn (E : Env K) (gs : List (Entry K)) (s : List Line) : Except Fault (Fn K × List Line) :=
  match seek (· == "type") s with
  | none => .error .missing
  | some s => match (nextWord s).bind fun r => nextWord r.2 with
    | none => .error .numbers
    | some (w, s) => readBody E gs w s

/-- `read_analytic_potentials`, 713-935. -/
def readFns (E : Env K) (gs : List (Entry K)) : Nat → List Line → Except Fault (List (Fn K))
  | 0, _ => .ok []
  | k + 1, s => match readFn E gs s with
    | .error f => .error f
    | .ok (f, s) => match readFns E gs k s with
      | .error f => .error f
      | .ok fs => .ok (f :: fs)

/-- Which other parameters the program expects. -/
inductive Extra
  | none
  | chem
  | elstat (dipole : Bool)
  deriving DecidableEq

/-- Content of the file. -/
structure Content (K : Type*) where
  ratio : List K
  extra : List (Entry K)
  globals : Option (List (Entry K))
  fns : List (Fn K)
  deriving DecidableEq

def readExtra (E : Env K) (x : Extra) (ntypes : Nat) (s : List Line) : Except Fault (List K × List (Entry K)) :=
  match x with
  | .none => .ok ([], [])
  | .chem => match readChem E ntypes s with
    | .error f => .error f
    | .ok es => .ok ([], es)
  | .elstat dipole => readElstat E dipole ntypes s

/-- The reading part of `read_pot_table0`, 88-95: each part starts from the end of the header. -/
def readFile (E : Env K) (x : Extra) (ntypes number : Nat) (s : List Line) : Except Fault (Content K) :=
  match readExtra E x ntypes s with
  | .error f => .error f
  | .ok (ratio, extra) => match readGlobals E s with
    | .error f => .error f
    | .ok gs => match readFns E (gs.getD []) number s with
      | .error f => .error f
      | .ok fs => .ok ⟨ratio, extra, gs, fs⟩

/-- Conversions of `fprintf`: `%18.8f`, `%12.4f`, `%f`, `%.10f`, `%.2f`, `%d`. -/
structure Fmt (K : Type*) where
  val : K → String
  bnd : K → String
  std : K → String
  chem : K → String
  chemBnd : K → String
  int : Nat → String

/-- A line with name, value and bounds. -/
def parLine (v b : K → String) (e : Entry K) : Line := ⟨false, [e.name, v e.par.value, b e.par.pmin, b e.par.pmax]⟩

/-- 248-257: a name ending in `!` is written alone. -/
def writePar (F : Fmt K) (e : Entry K) : Line :=
  if e.name.toList.getLast? = some '!' then ⟨false, [e.name]⟩ else parLine F.val F.bnd e

/-- 238-257, without the empty line. -/
def writeFn (F : Fmt K) (rmin : K) (f : Fn K) : List Line :=
  [⟨false, ["type", if f.smooth then f.name ++ "_sc" else f.name]⟩, ⟨false, ["cutoff", F.std f.cutoff]⟩, ⟨true, ["#", "rmin", F.std rmin]⟩] ++
  f.pars.map (writePar F)

/-- 237-260: an empty line between two potentials. -/
def writeFns (F : Fmt K) (rmin : K) : List (Fn K) → List Line
  | [] => []
  | [f] => writeFn F rmin f
  | f :: g :: fs => writeFn F rmin f ++ [⟨false, []⟩] ++ writeFns F rmin (g :: fs)

/-- 227-235. -/
def writeGlobals (F : Fmt K) : Option (List (Entry K)) → List Line
  | none => []
  | some gs => [⟨false, ["global", F.int gs.length]⟩] ++ gs.map (parLine F.val F.bnd) ++ [⟨false, []⟩]

/-- 196-225: `charge` is the line of the charge of the last type, which is not fitted. -/
def writeElstat (F : Fmt K) (dipole : Bool) (charges : List (Entry K)) (charge : String × K) (kappa : Entry K) (rest : List (Entry K)) :
    List Line :=
  [⟨false, ["elstat"]⟩] ++ charges.map (parLine F.std F.std) ++ [⟨false, [charge.1, F.std charge.2]⟩, parLine F.std F.std kappa] ++
  (if dipole then rest.map (parLine F.std F.std) else []) ++ [⟨false, []⟩]

/-- 175-194. -/
def writeChem (F : Fmt K) (es : List (Entry K)) : List Line := es.map (parLine F.chem F.chemBnd) ++ [⟨false, []⟩]

/-- `write_pot_table0` behind the header, without electrostatics. -/
def writeFile (F : Fmt K) (rmin : K) (x : Extra) (c : Content K) : List Line :=
  [⟨false, []⟩] ++ (if x = .chem then writeChem F c.extra else []) ++ writeGlobals F c.globals ++ writeFns F rmin c.fns

end Verif.ApotFile
