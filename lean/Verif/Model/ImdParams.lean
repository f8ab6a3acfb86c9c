/-
Parameter files for IMD: `write_pot_table_imd` of `src/potential_output_imd.c` 46-168 (Stillinger-Weber, Tersoff and modified Tersoff
potentials), 634-707 (electrostatics) and `write_imd_data_pair` 710-720.  A file is the list of its lines, each with its keyword
and its numbers.  Simplifications: numbers are taken as they are (`%g` and `%f` write six digits); comments, blank space
and opening of the file are left out.  Reading behind the end of an array is a fault.
-/
import Verif.Model.Pointers

namespace Verif.ImdParams

open Verif.PairIndex Verif.Pointers

inductive Trouble
  /-- access outside of an array -/
  | outside
  deriving DecidableEq

/-- What is read of `g_pot.apot_table`: `number`, `names`, `values` (row `i` has `n_par[i]` entries), `end`, `charge`, `last_charge`,
`dp_kappa[0]`, `dp_alpha`, `dp_b`, `dp_c`. -/
structure Apt (α : Type*) where
  number : Nat
  names : List String
  values : List (List α)
  fin : List α
  charge : List α
  lastCharge : α
  kappa : α
  alpha : List α
  b : List α
  c : List α

/-- Keyword and numbers of a line. -/
abbrev Line (α : Type*) := String × List α

variable {α β : Type*}

/-- Element of an array. -/
def item (l : List α) (i : Nat) : Except Trouble α :=
  match l[i]? with
  | some x => .ok x
  | none => .error .outside

/-- `apot_table.values[i][y]`. -/
def param (A : Apt α) (i y : Nat) : Except Trouble α :=
  match item A.values i with
  | .ok l => item l y
  | .error e => .error e

/-- Numbers written one after the other. -/
def collect (f : β → Except Trouble α) : List β → Except Trouble (List α)
  | [] => .ok []
  | x :: xs =>
    match f x with
    | .error e => .error e
    | .ok y =>
      match collect f xs with
      | .error e => .error e
      | .ok ys => .ok (y :: ys)

/-- A line with its keyword. -/
def line (key : String) (f : β → Except Trouble α) (l : List β) : Except Trouble (Line α) :=
  match collect f l with
  | .ok xs => .ok (key, xs)
  | .error e => .error e

/-- Lines one after the other. -/
def lines : List (Except Trouble (Line α)) → Except Trouble (List (Line α)) := collect id

/-- `write_imd_data_pair`, 710-720. -/
def pairData (n : Nat) (A : Apt α) (key : String) (offset y : Nat) : Except Trouble (Line α) :=
  line key (fun i => param A (offset + i) y) (List.range (paircol n))

/-- Pairs `(j, i)` in the order of the loops over lambda, 108-113. -/
def lambdaOrder (n : Nat) : List (Nat × Nat) := (List.range (paircol n)).flatMap fun j => (List.range n).map fun i => (j, i)

/-- Stillinger-Weber, 96-115. -/
def swFile (n : Nat) (A : Apt α) : Except Trouble (List (Line α)) := lines [
  pairData n A "stiweb_a" 0 0, pairData n A "stiweb_b" 0 1, pairData n A "stiweb_p" 0 2, pairData n A "stiweb_q" 0 3,
  pairData n A "stiweb_de" 0 4, pairData n A "stiweb_a1" 0 5, pairData n A "stiweb_ga" (paircol n) 0,
  pairData n A "stiweb_a2" (paircol n) 1,
  line "stiweb_la" (fun p => param A (A.number - 1) (p.2 * paircol n + p.1)) (lambdaOrder n)]

/-- Tersoff, 119-143; the bound of the loops over mixed pairs is `ntypes * (ntypes - 1) / 2.0`. -/
def tersFile (n : Nat) (A : Apt α) : Except Trouble (List (Line α)) := lines ([
  pairData n A "ters_a" 0 0, pairData n A "ters_b" 0 1, pairData n A "ters_la" 0 2, pairData n A "ters_mu" 0 3,
  pairData n A "ters_ga" 0 4, pairData n A "ters_n" 0 5, pairData n A "ters_c" 0 6, pairData n A "ters_d" 0 7,
  pairData n A "ters_h" 0 8, pairData n A "ters_r_cut" 0 9, pairData n A "ters_r0" 0 10] ++
  if 1 < n then [
    line "ters_chi" (fun i => param A (paircol n + i) 0) (List.range (n * (n - 1) / 2)),
    line "ters_om" (fun i => param A (paircol n + i) 1) (List.range (n * (n - 1) / 2))]
  else [])

/-- Modified Tersoff, 145-160. -/
def tersModFile (n : Nat) (A : Apt α) : Except Trouble (List (Line α)) := lines [
  pairData n A "ters_a" 0 0, pairData n A "ters_b" 0 1, pairData n A "ters_la" 0 2, pairData n A "ters_mu" 0 3,
  pairData n A "ters_eta" 0 4, pairData n A "ters_delta" 0 5, pairData n A "ters_alpha" 0 6, pairData n A "ters_beta" 0 7,
  pairData n A "ters_c1" 0 8, pairData n A "ters_c2" 0 9, pairData n A "ters_c3" 0 10, pairData n A "ters_c4" 0 11,
  pairData n A "ters_c5" 0 12, pairData n A "ters_h" 0 13, pairData n A "ters_r0" 0 14, pairData n A "ters_r_cut" 0 15]

/-- `strcmp(names[0], s) == 0 && strcmp(names[1], s) == 0 && strcmp(names[2], s) == 0`, 653-655, 665-667. -/
def firstThree (A : Apt α) (s : String) : Except Trouble Bool :=
  match item A.names 0 with
  | .error e => .error e
  | .ok a =>
    if a = s then
      match item A.names 1 with
      | .error e => .error e
      | .ok b =>
        if b = s then
          match item A.names 2 with
          | .error e => .error e
          | .ok c => .ok (decide (c = s))
        else .ok false
    else .ok false

/-- Parameter `y` of all functions, 657-658 and so on. -/
def allData (A : Apt α) (key : String) (y : Nat) : Except Trouble (Line α) :=
  line key (fun i => param A i y) (List.range A.number)

/-- The lines with the parameters of the functions, 653-678. -/
def functionLines (A : Apt α) : Except Trouble (List (Except Trouble (Line α))) :=
  match firstThree A "ms" with
  | .error e => .error e
  | .ok true => .ok [allData A "ms_D" 0, allData A "ms_gamma" 1, allData A "ms_r0" 2]
  | .ok false =>
    match firstThree A "buck" with
    | .error e => .error e
    | .ok true => .ok [allData A "buck_a" 0, allData A "buck_sigma" 1, allData A "buck_c" 2]
    | .ok false => .ok []

/-- The charges, 648-651. -/
def chargeLine (n : Nat) (A : Apt α) : Except Trouble (Line α) :=
  match collect (item A.charge) (List.range (n - 1)) with
  | .ok q => .ok ("charge", q ++ [A.lastCharge])
  | .error e => .error e

/-- File of the electrostatics, 634-703; `cut` is `dp_cut`, `dip` stands for builds with `DIPOLE`.  The numbers of `r_cut` are all
`end[0]` (684-685). -/
def elecFile (n : Nat) (dip : Bool) (cut : α) (A : Apt α) : Except Trouble (List (Line α)) :=
  match functionLines A with
  | .error e => .error e
  | .ok fs => lines ([chargeLine n A] ++ fs ++
      [.ok ("ew_rcut", [cut]), .ok ("ew_kappa", [A.kappa]), line "r_cut" (fun _ => item A.fin 0) (List.range (n * (n + 1) / 2))] ++
      if dip = true then [line "dp_alpha" (item A.alpha) (List.range n), line "dp_b" (item A.b) (List.range (n * (n + 1) / 2)),
        line "dp_c" (item A.c) (List.range (n * (n + 1) / 2))]
      else [])

/-! ### Pointers of the force routines to the parameters of pairs -/

/-- Pointers to parameter `y` of pair function `i`: each function has `m` parameters and a gap of 2, `src/force_stiweb.c` 392, 421-427
(`m = 6`), `src/force_tersoff.c` 795, 837-864 (`m = 11`, modified 16). -/
def pairPtr (m i y : Nat) : Nat := advance (m + 2) i 2 + y

/-- Pointers to `gamma` and `a2`, `src/force_stiweb.c` 458-461. -/
def radialPtr (n i y : Nat) : Nat := advance 4 i (advance 8 (paircol n) 2) + y

end Verif.ImdParams
