/-
Pointers into the parameter vector which the Stillinger-Weber and Tersoff routines keep:
`src/force_stiweb.c` 391-514 (`update_stiweb_pointers`), `src/force_tersoff.c` 793-977 (`update_tersoff_pointers`).
A pointer is the number of the entry of `xi` it points to. Simplification: only the part which sets pointers is modelled (it is executed
whenever the address of `xi` has changed); C `int` is not bounded.
-/
import Verif.Model.PairIndex

namespace Verif.Pointers

open Verif.PairIndex

/-! ### Stillinger-Weber -/

/-- `index` before the loop over `lambda`: `xi + 2`, then 6 pointers and a gap of 2 for each pair, then 2 pointers and a gap of 2,
`src/force_stiweb.c` 392, 419-424, 458-462. -/
def advance (step : Nat) : Nat → Nat → Nat
  | 0, index => index
  | n + 1, index => advance step n (index + step)

def lambdaBase (n : Nat) : Nat := advance 4 (paircol n) (advance 8 (paircol n) 2)

/-- `sw->lambda`, a pointer for each triple of types; entries not set are `none`. -/
abbrev Lambda := Nat → Nat → Nat → Option Nat

def put (lam : Lambda) (i j k a : Nat) : Lambda := fun i' j' k' =>
  if i' = i ∧ j' = j ∧ k' = k then some a else lam i' j' k'

/-- The triples in the order of the loops, `src/force_stiweb.c` 483-485. -/
def triples (n : Nat) : List (Nat × Nat × Nat) :=
  (List.range n).flatMap fun i => (List.range n).flatMap fun j => (List.range' j (n - j)).map fun k => (i, j, k)

/-- One turn, `src/force_stiweb.c` 486-487: `lambda[i][j][k] = index; lambda[i][k][j] = index++`. -/
def setOne (s : Nat × Lambda) (t : Nat × Nat × Nat) : Nat × Lambda :=
  (s.1 + 1, put (put s.2 t.1 t.2.1 t.2.2 s.1) t.1 t.2.2 t.2.1 s.1)

def initLambda (n : Nat) : Lambda := ((triples n).foldl setOne (lambdaBase n, fun _ _ _ => none)).2

/-- The search for the pair of types, `src/force_stiweb.c` 499-506:
`for (int k = ntypes - 1; k >= 0; ++k) { min_val = k * ntypes - k * (k - 1) / 2; if (temp >= min_val) { n2 = k; n3 = temp - min_val + k; break; } }`.
`k` is increased; it never gets negative, so the loop ends only by `break`. `none`: not within `fuel` turns. -/
def search (n temp : Nat) : Nat → Nat → Option (Int × Int)
  | 0, _ => none
  | fuel + 1, k =>
    let minVal : Int := (k : Int) * n - (k : Int) * (k - 1) / 2
    if (temp : Int) ≥ minVal then some (k, (temp : Int) - minVal + k) else search n temp fuel (k + 1)

/-- A place where a global parameter is used: number of the global parameter, potential and parameter it stands for
(`global_idx[i][j][0]`, `global_idx[i][j][1]`). -/
structure Use where
  glob : Nat
  pot : Nat
  par : Nat

/-- Result of the treatment of global parameters. -/
inductive Out (α : Type)
  | ok (a : α)
  /-- access outside of `lambda` -/
  | outside
  /-- the loop has not ended -/
  | running

/-- One global parameter, `src/force_stiweb.c` 493-511; `g` is `g_pot.global_idx`. -/
def setGlobal (n fuel g : Nat) (lam : Lambda) (u : Use) : Out Lambda :=
  if u.pot = 2 * paircol n then
    let n1 := u.par / paircol n
    let temp := u.par % paircol n
    match search n temp fuel (n - 1) with
    | none => .running
    | some (n2, n3) =>
      if n1 < n ∧ 0 ≤ n2 ∧ n2 < n ∧ 0 ≤ n3 ∧ n3 < n then
        .ok (put (put lam n1 n2.toNat n3.toNat (g + u.glob)) n1 n3.toNat n2.toNat (g + u.glob))
      else .outside
  else .ok lam

def setGlobals (n fuel g : Nat) : List Use → Lambda → Out Lambda
  | [], lam => .ok lam
  | u :: us, lam =>
    match setGlobal n fuel g lam u with
    | .ok lam => setGlobals n fuel g us lam
    | .outside => .outside
    | .running => .running

/-- `lambda` after `update_stiweb_pointers`. -/
def swLambda (n fuel g : Nat) (us : List Use) : Out Lambda := setGlobals n fuel g us (initLambda n)

/-! ### Tersoff -/

/-- Where `chi[i]` and `omega[i]` point to: the constant `one` or an entry of `xi`. -/
inductive Ptr
  | one
  | entry (a : Nat)
  deriving DecidableEq

/-- `index` behind the pair parameters: 11 parameters and a gap of 2 for each pair, `src/force_tersoff.c` 795, 837-864. -/
def mixBase (n : Nat) : Nat := advance 13 (paircol n) 2

/-- A place where a global parameter is used, `src/force_tersoff.c` 963-972, for column `i`; `g` is `g_pot.global_idx`. -/
def mixUse (n g i : Nat) (p : Ptr × Ptr) (u : Use) : Ptr × Ptr :=
  if u.pot = paircol n + i then
    match u.par with
    | 0 => (.entry (g + u.glob), p.2)
    | 1 => (p.1, .entry (g + u.glob))
    | _ => p
  else p

/-- One turn of the loop, `src/force_tersoff.c` 951-975: state `index` and the list of pointers so far. -/
def mixOne (n g : Nat) (us : List Use) (s : Nat × List (Ptr × Ptr)) (i : Nat) : Nat × List (Ptr × Ptr) :=
  if i % n = 0 then (s.1, s.2 ++ [us.foldl (mixUse n g i) (.one, .one)])
  else (s.1 + 2 + 2, s.2 ++ [us.foldl (mixUse n g i) (.entry s.1, .entry (s.1 + 1))])

/-- `chi` and `omega` of all columns. -/
def mix (n g : Nat) (us : List Use) : List (Ptr × Ptr) :=
  ((List.range (paircol n)).foldl (mixOne n g us) (mixBase n, [])).2

end Verif.Pointers
