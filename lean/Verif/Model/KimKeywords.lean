/-
Keywords of KIM potential files: section `global` (`read_global_parameters`, `src/potential_input_f5.c` 206-317), keyword `KIM_CUTOFF`
(`read_cutoff_parameter`, 323-358), both called by `read_keywords_and_parameters` (360-370); what `read_pot_table5` stores of global
parameters (594-625); the files with parameters which the program writes: template (`print_model_parameters_impl`, 148-162) and result
(`write_pot_table5`, `src/potential_output.c` 502-529) after their headers.

Simplifications: a file is the text after the line `#E` (where `read_pot_table5` begins, `src/potential_input.c` 88-140), for the section
`global` as words, for the keyword as lines with their line feeds, shorter than 255 characters and without carriage returns (these: C37).
It ends with a line feed. `%d` and `%lf` read whole words; which words are numbers and their values are arbitrary functions. Characters are
ASCII. Words are shorter than 255 characters.
-/
import Verif.Model.ConfigText
import Verif.Model.KimParams

namespace Verif.KimKeywords

open Verif.ConfigText (tokens)

variable {K : Type} [Field K] [LinearOrder K]

/-- Ways to end: `null` and `uninit` are undefined behaviour (a null pointer is given to `strcmp`, 267; an array without content is
compared, 332-337), the others are messages. -/
inductive Fault where
  | premature
  | empty
  | null
  | letter
  | duplicate
  | blank
  | uninit
  | line
  | unknown
  deriving DecidableEq

/-- `strncmp(w, s, strlen(s)) == 0`. -/
def begins (s w : List Char) : Bool := s.isPrefixOf w

/-- `"global"`. -/
def globalWord : List Char := ['g', 'l', 'o', 'b', 'a', 'l']

/-- `"KIM_CUTOFF"`. -/
def cutoffWord : List Char := ['K', 'I', 'M', '_', 'C', 'U', 'T', 'O', 'F', 'F']

/-- The search 215-227: the words after the first one which begins with `global`. -/
def search : List (List Char) → Option (List (List Char))
  | [] => none
  | w :: ws => if begins globalWord w then some ws else search ws

/-- A global parameter: `param_name`, `values`, `pmin`, `pmax`, `invar_par` of row 1. -/
structure Global (K : Type) where
  name : List Char
  value : K
  lo : K
  hi : K
  invar : Bool
  deriving DecidableEq

/-- The test of the name, 274. -/
def refused (w : List Char) : Bool :=
  let c := (w.headD '\x00').toNat
  decide (c > 65) || (decide (c > 90) && decide (c < 97)) || decide (c > 122)

/-- Limits and value, 293-313. -/
def adjust (opt : Bool) (name : List Char) (v lo hi : K) : Global K :=
  if lo = hi then ⟨name, v, lo, hi, true⟩
  else if hi < lo then ⟨name, v, hi, lo, false⟩
  else if v < lo ∨ hi < v then
    if opt then
      let v := if v < lo then lo else v
      let v := if hi < v then hi else v
      ⟨name, v, lo, hi, false⟩
    else ⟨name, v, lo, hi, false⟩
  else ⟨name, v, lo, hi, false⟩

/-- The loop 262-314: `n` parameters still to read, `old` those read. -/
def readAll (num : List Char → Option K) (opt : Bool) : Nat → List (Global K) → List (List Char) → Except Fault (List (Global K))
  | 0, old, _ => .ok old
  | n + 1, old, w :: a :: b :: c :: ws =>
    match num a, num b, num c with
    | some v, some lo, some hi =>
      if refused w then .error .letter
      else if old.any fun g => g.name == w then .error .duplicate
      else readAll num opt n (old ++ [adjust opt w v lo hi]) ws
    | _, _, _ => .error .null
  | _ + 1, _, _ => .error .null

/-- `read_global_parameters`: `none` if there is no section. `Malloc` ends the program if the number is not positive
(`src/memory.c` 70-78). -/
def readGlobals (num : List Char → Option K) (int : List Char → Option ℤ) (opt : Bool) (ws : List (List Char)) :
    Except Fault (Option (List (Global K))) :=
  match search ws with
  | none => .ok none
  | some [] => .error .premature
  | some (c :: ws) => match int c with
    | none => .error .premature
    | some n =>
      if n ≤ 0 then .error .empty
      else match readAll num opt n.toNat [] ws with
        | .error e => .error e
        | .ok gs => .ok (some gs)

/-- The loop 329-337: content of `buffer` at its end. `name` is what was read into `name`, `buf` the content of `buffer` (`none`: nothing
yet). At the end of the file the last line is looked at again. -/
def scan : Option (List Char) → Option (List Char) → List (List Char) → Except Fault (List Char)
  | some _, some b, [] => .ok b
  | _, _, [] => .error .uninit
  | name, _, l :: ls =>
    if 1 < l.length then
      match tokens l with
      | [] => .error .blank
      | w :: _ => if begins cutoffWord w then .ok l else scan (some w) (some l) ls
    else match name with
      | none => .error .uninit
      | some w => if begins cutoffWord w then .ok l else scan (some w) (some l) ls

/-- `read_cutoff_parameter`: index of the parameter which gets `is_cutoff`. -/
def readCutoff (names : List (List Char)) (lines : List (List Char)) : Except Fault (Option Nat) :=
  match scan none none lines with
  | .error e => .error e
  | .ok b =>
    if begins cutoffWord b then
      match tokens b with
      | _ :: n :: _ => match names.findIdx? (· == n) with
        | some i => .ok (some i)
        | none => .error .unknown
      | _ => .error .line
    else .ok none

/-- `pt->len`, 597-600. -/
def tableLen (npar : Nat) (gs : Option (List (Global K))) : Nat :=
  match gs with
  | some gs => npar + gs.length
  | none => npar

/-- `pt->table`, 602-622: `Malloc` clears, the loop fills the parameters of the model. -/
def table (npar : Nat) (value : Nat → K) (k : Nat) : K := if k < npar then value k else 0

/-- One block of a file written: header, a line for each value, an empty line if another block follows (always in the template). -/
def block (name : List Char) (cutoff : Bool) (values : List (List Char)) (sep : Bool) : List (List Char) :=
  (('K' :: 'I' :: 'M' :: '_' :: ((if cutoff then ['C', 'U', 'T', 'O', 'F', 'F'] else ['P', 'A', 'R', 'A', 'M']) ++ ' ' :: name ++ ['\n'])) ::
    values) ++ if sep then [['\n']] else []

/-- The template after its header: name and lines of every parameter. `is_cutoff` is not set yet (`read_keywords_and_parameters` calls
`print_model_parameters` first). -/
def template (ps : List (List Char × List (List Char))) : List (List Char) :=
  ['\n'] :: (ps.map fun p => block p.1 false p.2 true).flatten

/-- The result after its header; `cut` is the parameter with `is_cutoff`. -/
def result (cut : Option Nat) (ps : List (List Char × List (List Char))) : List (List Char) :=
  ['\n'] :: (ps.zipIdx.map fun p => block p.1.1 (cut == some p.2) p.1.2 (decide (p.2 + 1 ≠ ps.length))).flatten

end Verif.KimKeywords
