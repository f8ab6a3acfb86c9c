/-
`src/potential_input.c` 567-591 (`read_maxch_file`): the file with the maximal changes of the parameters, for tabulated
potentials (neither `APOT` nor `KIM`), and how `src/powell_lsq.c` 240-241 looks at it.

Simplifications: doubles are elements of an ordered field; the file is the list of its words, a word which is no
number is `none`; what `fscanf` leaves behind of a word is not looked at, as the program ends there.
-/
import Verif.Model.Powell

namespace Verif.MaxChange

open Verif.Powell

variable {K : Type*} [Field K] [LinearOrder K] [IsStrictOrderedRing K] {N M : Nat}

/-- `error(1, "Could not open file")`, `error(1, "Premature end of maxch file")`. -/
inductive MaxErr
  | missing
  | premature
  deriving DecidableEq

/-- The loop over the table entries, 581-586. -/
def scanMax : Nat → List (Option K) → Except MaxErr (List K)
  | 0, _ => .ok []
  | n + 1, some v :: ts =>
    match scanMax n ts with
    | .error e => .error e
    | .ok a => .ok (v :: a)
  | _ + 1, _ => .error .premature

/-- `read_maxch_file`: `use` is `g_param.usemaxch`, `len` is `opt_pot.len`, the file is `none` if it cannot be opened; the
result is `g_calc.maxchange`, `none` if it is not allocated. -/
def readMaxch (use : Bool) (len : Nat) (file : Option (List (Option K))) : Except MaxErr (Option (List K)) :=
  if use then
    match file with
    | none => .error .missing
    | some ts =>
      match scanMax len ts with
      | .error e => .error e
      | .ok a => .ok (some a)
  else .ok none

/-- `usemaxch && maxchange[x] > 0`, and then `maxchange[x]`; `x` is an index into the table of length `len`, so the
default value of `getD` is not used. -/
def limitAt (len : Nat) (a : Option (List K)) (x : Fin len) : Option K :=
  match a with
  | none => none
  | some a => if a.getD x 0 > 0 then some (a.getD x 0) else none

/-- The optimiser for tabulated potentials with the array read. -/
def withMaxch {len : Nat} (E : Env K (Fin len) N M) (a : Option (List K)) : Env K (Fin len) N M :=
  { E with bounds := none, maxch := limitAt len a }

end Verif.MaxChange
