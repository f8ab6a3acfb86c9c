/-
Analytic potentials: bounds of the parameters (`src/potential_input_f0.c` 582-935), smooth cutoff
(`src/functions.c` 322-332) and the sampled table (`src/potential_input.c` 623-694).
Doubles are elements of an ordered field `K`.
-/
import Verif.Model.Basic
import Mathlib.Algebra.Order.Ring.Defs
import Mathlib.Logic.Function.Basic

namespace Verif.Apot

section Bounds

variable {K : Type*} [LinearOrder K]

/-- A parameter after reading: start value, bounds, `invar_par`. -/
structure Param (K : Type*) where
  value : K
  pmin : K
  pmax : K
  invar : Bool
  deriving DecidableEq

/-- The bound check of one parameter, `src/potential_input_f0.c` 679-702 (globals) and 906-930
(parameters of a potential), the same code twice.  `opt` is `g_param.opt`. -/
def checkBounds (opt : Bool) (v lo hi : K) : Param K :=
  if lo = hi then ⟨v, lo, hi, true⟩
  else if hi < lo then ⟨v, hi, lo, false⟩
  else if v < lo ∨ hi < v then
    if opt then
      let v := if v < lo then lo else v
      let v := if hi < v then hi else v
      ⟨v, lo, hi, false⟩
    else ⟨v, lo, hi, false⟩
  else ⟨v, lo, hi, false⟩

/-- One parameter line of a potential: own value and bounds, or (name ending in `!`) a reference to
global parameter `l`. -/
inductive Line (K : Type*)
  | own (v lo hi : K)
  | glob (l : Nat)

/-- One parameter of a potential, `src/potential_input_f0.c` 845-931.  A reference copies value and
bounds of the global parameter and is marked invariant (867-871); a reference to an unknown global is
an error (853), here `none`. -/
def readLine (opt : Bool) (globals : List (Param K)) : Line K → Option (Param K)
  | .own v lo hi => some (checkBounds opt v lo hi)
  | .glob l => (globals[l]?).map fun g => { g with invar := true }

/-- All parameters of the file: the globals (651-703), then the potentials (731-933). -/
def readParams (opt : Bool) (globs : List (K × K × K)) (pots : List (List (Line K))) :
    Option (List (Param K) × List (List (Param K))) :=
  let gs := globs.map fun g => checkBounds opt g.1 g.2.1 g.2.2
  (pots.mapM fun ls => List.mapM (readLine opt gs) ls).map fun ps => (gs, ps)

end Bounds

section Table

variable {K : Type*} [Field K] [LinearOrder K]

/-- `apot_cutoff`, `src/functions.c` 322-332. -/
def apotCutoff (r r0 h : K) : Except Fault K :=
  if 0 ≤ r - r0 then .ok 0
  else do
    let val ← cdiv (r - r0) h
    let val := val * val
    let val := val * val
    cdiv val (1 + val)

/-- An analytic potential: number of parameters (including the cutoff parameter `h` if `smooth`),
`smooth_pot`, `invar_pot`, `apot_table.end`, the function `fvalue` (arbitrary; a NaN is an error
outcome) and the slope `apot_gradient` at `rmin` (arbitrary). -/
structure Pot (K : Type*) where
  nPar : Nat
  smooth : Bool
  invar : Bool
  endR : K
  fvalue : K → List K → Except Fault K
  grad : List K → K

/-- The three arrays `update_calc_table` works on: parameters `xi_opt`, change cache
`g_pot.calc_list`, sampled table `xi_calc`. -/
structure Tabs (K : Type*) where
  xi : Nat → K
  list : Nat → K
  tab : Nat → K

/-- The `n` parameters stored from position `o` on. -/
def params (xi : Nat → K) (o n : Nat) : List K := (List.range n).map fun j => xi (o + j)

/-- `first[m]` of `opt_pot`, `src/potential_input_f0.c` 137-141: two slope entries precede every
block. -/
def optFirst (pots : List (Pot K)) (m : Nat) : Nat :=
  2 + ((pots.take m).map fun p => p.nPar + 2).sum

/-- Copying of the global parameters, `src/potential_input.c` 630-638.  `globals` holds for every
global parameter the list `global_idx[i]` of (potential, parameter) pairs; `gidx = g_pot.global_idx`. -/
def copyGlobals (pots : List (Pot K)) (gidx : Nat) (globals : List (List (Nat × Nat)))
    (xi : Nat → K) : Nat → K :=
  globals.zipIdx.foldl (fun xi (l, i) =>
    l.foldl (fun xi (m, n) => Function.update xi (optFirst pots m + n) (xi (gidx + i))) xi) xi

/-- Position of sample `j` of potential `i`, `src/potential_input.c` 669; `steps = APOT_STEPS`. -/
def samplePos (steps i j : Nat) : Nat := i * steps + (i + 1) * 2 + j

/-- One sampled value, `src/potential_input.c` 671-676. -/
def sampleAt (p : Pot K) (x : K) (val : List K) (h : K) : Except Fault K := do
  let f ← p.fvalue x val
  if p.smooth then
    let c ← apotCutoff x p.endR h
    .ok (f * c)
  else .ok f

/-- The sampling loop 667-688. -/
def sampleLoop (p : Pot K) (steps i : Nat) (xcoord : Nat → K) (val : List K) (h : K) :
    List Nat → (Nat → K) → Except Fault (Nat → K)
  | [], tab => .ok tab
  | j :: js, tab => do
    let v ← sampleAt p (xcoord (samplePos steps i j)) val h
    sampleLoop p steps i xcoord val h js (Function.update tab (samplePos steps i j) v)

/-- The comparison with the change cache 658-663: compares and copies `nPar` entries. -/
def checkChange (o : Nat) (xi : Nat → K) :
    List Nat → (Nat → K) → Bool → (Nat → K) × Bool
  | [], list, change => (list, change)
  | j :: js, list, change =>
    if list (o + j) = xi (o + j) then checkChange o xi js list change
    else checkChange o xi js (Function.update list (o + j) (xi (o + j))) true

/-- The cutoff parameter, 641-646; `h` is the value left by the previous pass. -/
def cutoffParam (doAll : Bool) (p : Pot K) (o : Nat) (h : K) (xi : Nat → K) : Except Fault K :=
  if p.smooth && (doAll || !p.invar) then
    if xi (o + 1 + p.nPar) = 0 then .error .zeroCutoff else .ok (xi (o + 1 + p.nPar))
  else .ok h

/-- The decision to sample again, 665. -/
def resample (steps : Nat) (xcoord : Nat → K) (doAll change : Bool) (p : Pot K) (i : Nat)
    (val : List K) (h : K) (tab : Nat → K) : Except Fault (Nat → K) :=
  if doAll || (change && !p.invar) then
    sampleLoop p steps i xcoord val h (List.range steps) tab
  else .ok tab

/-- One pass of the loop over the potentials, 640-690.  `o` is the distance of `val` from `xi_opt`
(and of `list - 2` from `calc_list`). -/
def updatePot (steps : Nat) (xcoord : Nat → K) (doAll : Bool) (p : Pot K) (i o : Nat) (h : K)
    (s : Tabs K) : Except Fault (K × Tabs K) := do
  let h ← cutoffParam doAll p o h s.xi
  let xi := Function.update s.xi o (p.grad (params s.xi (o + 2) p.nPar))
  let lc := checkChange (o + 2) xi (List.range p.nPar) s.list false
  let tab ← resample steps xcoord doAll lc.2 p i (params xi (o + 2) p.nPar) h s.tab
  .ok (h, ⟨xi, lc.1, tab⟩)

/-- The loop over the potentials, starting with potential number `i` at position `o`. -/
def updatePots (steps : Nat) (xcoord : Nat → K) (doAll : Bool) :
    List (Pot K) → Nat → Nat → K → Tabs K → Except Fault (Tabs K)
  | [], _, _, _, s => .ok s
  | p :: ps, i, o, h, s => do
    let (h, s) ← updatePot steps xcoord doAll p i o h s
    updatePots steps xcoord doAll ps (i + 1) (o + 2 + p.nPar) h s

/-- `update_calc_table`, `src/potential_input.c` 623-694.  `xi` is the parameter vector passed by the
caller, `s` holds the change cache and the sampled table left by earlier calls. -/
def updateCalcTable (steps : Nat) (xcoord : Nat → K) (pots : List (Pot K)) (gidx : Nat)
    (globals : List (List (Nat × Nat))) (doAll : Bool) (xi : Nat → K) (list tab : Nat → K) :
    Except Fault (Tabs K) :=
  updatePots steps xcoord doAll pots 0 0 0 ⟨copyGlobals pots gidx globals xi, list, tab⟩

end Table

end Verif.Apot
