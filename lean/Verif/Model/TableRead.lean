/-
Bookkeeping of the readers of tabulated potentials: positions of the columns in the parameter array
and list `idx` of optimised positions.  `src/potential_input_f3.c` 67-450 (`read_pot_table3`),
`src/potential_input_f4.c` 62-344 (`read_pot_table4`).
-/
namespace Verif.TableRead

/-- What the readers know about one column.
* `nvals`: number of sampling points, at least one (`src/potential_input_f3.c` 76);
* `invar`: `g_pot.invar_pot[i]`;
* `gradient`: `g_pot.gradient[i]`, bit 1 = left slope free, bit 0 = right slope free;
* `keepLast`: the reader uses `if (!invar_pot[i])` for the points (embedding and angular functions,
  f3 213, 284, 440; f4 219, 329) instead of `(!invar_pot[i]) && (j < nvals[i] - 1)` (f3 131, 169,
  246, 321, 356; f4 137, 191, 288);
* `skipFirst`: first `f_ij` column of MEAM, whose point `j = 0` is also fixed (f3 396-399). -/
structure ColSpec where
  nvals : Nat
  invar : Bool
  gradient : Nat
  keepLast : Bool
  skipFirst : Bool

/-- `pt->idx[k++] = l++` if the flag is set, otherwise `l++`.  State: `l` and the entries of `idx`
written so far. -/
def pushIf (b : Bool) (s : Nat × List Nat) : Nat × List Nat :=
  if b then (s.1 + 1, s.2 ++ [s.1]) else (s.1 + 1, s.2)

/-- Reading one column: `src/potential_input_f3.c` 113-136 and the analogous blocks. -/
def readColumn (s : Nat × List Nat) (c : ColSpec) : Nat × List Nat :=
  let s := pushIf (!c.invar && c.gradient >>> 1 != 0) s
  let s := pushIf (!c.invar && c.gradient % 2 != 0) s
  (List.range c.nvals).foldl (fun s j =>
    pushIf (!c.invar && (c.keepLast || decide (j + 1 < c.nvals)) && !(c.skipFirst && j == 0)) s) s

/-- The list `idx[0 … idxlen-1]` after reading all columns (`k = l = 0` at the start, f3 104-105). -/
def idxList (cols : List ColSpec) : List Nat := (cols.foldl readColumn (0, [])).2

/-- `first` of a column, from `last` of the column before it: `src/potential_input_f3.c` 84-88. -/
def firstAfter : Option Nat → Nat
  | none => 2
  | some l => l + 3

/-- `first[i]`, `last[i]` of the columns, `src/potential_input_f3.c` 84-89: `first = 2` for the first
column, `last[i-1] + 3` for the others; `last = first + nvals - 1`. -/
def layoutFrom (prevLast : Option Nat) : List ColSpec → List (Nat × Nat)
  | [] => []
  | c :: cs =>
    let first := firstAfter prevLast
    let last := first + c.nvals - 1
    (first, last) :: layoutFrom (some last) cs

/-- Layout of the whole table. -/
def layout (cols : List ColSpec) : List (Nat × Nat) := layoutFrom none cols

/-- `pt->len`, `src/potential_input_f3.c` 90: `first[i] + nvals[i]` of the last column. -/
def tableLen (cols : List ColSpec) : Nat :=
  match cols.getLast?, (layout cols).getLast? with
  | some c, some (first, _) => first + c.nvals
  | _, _ => 0

end Verif.TableRead
