/-
Cutoffs of the neighbour lists (`calculate_cutoffs`, `src/potential_input.c` 496-559) and the checks of analytic potentials
(`check_correct_apot_functions`, `src/functions.c` 168-258).

Simplifications: arrays are functions; names of functions are strings.
-/
import Verif.Model.PairIndex
import Verif.Model.Neighbors

namespace Verif.Cut

open Verif.PairIndex

/-- The interactions; electrostatics are a separate flag. -/
inductive Kind
  | pair | eam | tbeam | adp | meam | ang | stiweb | tersoff | tersoffmod
  deriving DecidableEq, Repr

/-- `defined(EAM) || defined(ADP) || defined(MEAM)`; `TBEAM` is built together with `EAM`. -/
def Kind.hasDensity : Kind → Bool
  | .eam | .tbeam | .adp | .meam => true
  | _ => false

variable {K : Type*} [LinearOrder K]

/-- Two loops over the types which change the entry `i * n + j` of an array, 520-528, 531-542, 546-551. -/
def overPairs (n : Nat) (g : Nat → Nat → K → K) (f : Nat → K) : Nat → K :=
  (List.range n).foldl (fun f i => (List.range n).foldl (fun f j => Function.update f (i * n + j) (g i j (f (i * n + j)))) f) f

/-- `g_config.rcut`, 520-552, for the ends of the columns; `before` is the uninitialised memory. -/
def rcut (kind : Kind) (coulomb : Bool) (n : Nat) (stop : Nat → K) (dpCut : K) (before : Nat → K) : Nat → K :=
  let f := overPairs n (fun i j _ => stop (pairCol n i j)) before
  let f := if kind.hasDensity then
      overPairs n (fun i j x => max (max x (stop (n * (n + 1) / 2 + i))) (stop (n * (n + 1) / 2 + j))) f
    else f
  if coulomb then overPairs n (fun _ _ x => max x dpCut) f else f

/-- `g_config.rmin`, 520-542. -/
def rmin (kind : Kind) (n : Nat) (start : Nat → K) (before : Nat → K) : Nat → K :=
  let f := overPairs n (fun i j _ => start (pairCol n i j)) before
  if kind.hasDensity then
    overPairs n (fun i j x => max (max x (start (n * (n + 1) / 2 + i))) (start (n * (n + 1) / 2 + j))) f
  else f

/-- `g_config.rcutmax`, 554-559, beginning with `m` (0 at the start of the program, `src/memory.c` 134-146). -/
def rcutMax (n : Nat) (f : Nat → K) (m : K) : K :=
  (List.range n).foldl (fun m i => (List.range n).foldl (fun m j => max m (f (i + n * j))) m) m

/-- `g_config.rcutmin`, 554-559, beginning with 999.9 (`src/memory.c` 145). -/
def rcutMin (n : Nat) (f : Nat → K) (m : K) : K :=
  (List.range n).foldl (fun m i => (List.range n).foldl (fun m j => min m (f (i + n * j))) m) m

/-- KIM, 496-508: the one cutoff of the model for all pairs. -/
def kimRcut (n : Nat) (stop0 : K) (before : Nat → K) : Nat → K :=
  (List.range (n * n)).foldl (fun f i => Function.update f i stop0) before

/-- Cutoffs as the neighbour lists use them. -/
noncomputable def toCutoffs (n : Nat) (f : Nat → ℝ) : Neighbors.Cutoffs where
  rcut a b := if a < n ∧ b < n then f (a * n + b) else 0
  rcutmax := rcutMax n f 0

/-- Columns of the functions of the distance for a neighbour of type `j` of an atom of type `i`, `src/config.c` 1239-1284.  (Where the
list of the atom is half, the transfer function of the atom itself belongs to the neighbour.) -/
def columns (kind : Kind) (n i j : Nat) : List Nat :=
  let p := n * (n + 1) / 2
  let c := pairCol n i j
  match kind with
  | .pair => [c]
  | .eam => [c, p + j, p + i]
  | .tbeam => [c, p + j, p + i, p + 2 * n + j, p + 2 * n + i]
  | .adp => [c, p + j, p + i, p + 2 * n + c, 2 * p + 2 * n + c]
  | .meam => [c, p + j, p + i, p + 2 * n + c]
  | .ang => [c, p + c]
  | .stiweb => [c, p + c]
  | .tersoff => [c]
  | .tersoffmod => [c]

/-! ### Checks of analytic potentials -/

/-- Analytic potentials: names, bounds of the parameters, cutoffs. -/
structure Apot (K : Type*) where
  name : Nat → String
  pmin : Nat → Nat → K
  pmax : Nat → Nat → K
  stop : Nat → K

/-- What the checks complain about. -/
inductive Complaint
  /-- wrong function for potential `i` -/
  | function (i : Nat)
  /-- the last function is not `lambda` -/
  | lambda
  /-- bound of the cutoff parameter `a1` of pair `i` -/
  | a1 (i : Nat)
  /-- bound of the cutoff parameter `a2` of pair `i` -/
  | a2 (i : Nat)
  /-- bounds of the two cutoff parameters of potential `i` exclude each other -/
  | bounds (i : Nat)
  deriving DecidableEq, Repr

/-- Does any of the tests fail?  The first failure ends the program. -/
def firstComplaint (tests : List (Bool × Complaint)) : Except Complaint Unit :=
  match tests.find? (·.1) with
  | some (_, c) => .error c
  | none => .ok ()

/-- `functions.c` 170-203. -/
def checkStiweb (n : Nat) (t : Apot K) : Except Complaint Unit :=
  let p := n * (n + 1) / 2
  firstComplaint
    (((List.range p).flatMap fun i =>
        [(decide (t.name i ≠ "stiweb_2"), .function i), (decide (t.name (p + i) ≠ "stiweb_3"), .function (p + i))]) ++
     [(decide (t.name (2 * p) ≠ "lambda"), .lambda)] ++
     ((List.range p).flatMap fun i =>
        [(decide (t.pmax i 5 > t.stop i), .a1 i), (decide (t.pmax (p + i) 1 > t.stop (p + i)), .a2 i)]))

/-- `functions.c` 206-234. -/
def checkTersoff (n : Nat) (t : Apot K) : Except Complaint Unit :=
  let p := n * (n + 1) / 2
  firstComplaint
    (((List.range p).map fun i => (decide (t.name i ≠ "tersoff_pot"), .function i)) ++
     ((List.range (n * (n - 1) / 2)).map fun i => (decide (t.name (p + i) ≠ "tersoff_mix"), .function (p + i))) ++
     ((List.range p).map fun i => (decide (t.pmax i 9 < t.pmin i 10), .bounds i)))

/-- `functions.c` 235-255. -/
def checkTersoffMod (n : Nat) (t : Apot K) : Except Complaint Unit :=
  let p := n * (n + 1) / 2
  firstComplaint
    (((List.range p).map fun i => (decide (t.name i ≠ "tersoff_mod_pot"), .function i)) ++
     ((List.range p).map fun i => (decide (t.pmax i 15 < t.pmin i 14), .bounds i)))

end Verif.Cut
