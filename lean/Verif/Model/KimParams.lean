/-
Parameters of a KIM model: `read_kim_parameters_default`, `read_single_kim_parameter`, `read_kim_parameters_file`, `read_max_cutoff` and
`read_pot_table5` (`src/potential_input_f5.c` 374-630), `update_kim_model` (`src/force_kim.c` 53-113) and the parameter part of
`write_pot_table5` (`src/potential_output.c` 506-530).

Simplifications: the file is cut into blocks, each beginning with a line `KIM_…` (the lines in between are skipped by the loop 435-440;
a line which is missing in a block is the next header or the end of the file, both of which are rejected where a value is expected).
Of a line the first character and the results of `strncmp(…, "default", 7)` and of the `sscanf` calls are kept.  The KIM model is its
parameters and an arbitrary function giving influence distance and cutoffs; the calls of the KIM library succeed.  Exact arithmetic.
No section `global`.
-/
import Verif.Model.Basic
import Mathlib.Algebra.Field.Defs
import Mathlib.Algebra.Order.Field.Basic
import Mathlib.Data.Rat.Defs
import Mathlib.Algebra.Order.Ring.Rat

namespace Verif.KimParams

variable {K : Type*} [Field K] [LinearOrder K]

/-- Ways to stop with `error(1, …)`. -/
inductive Fault where
  | missing
  | order
  | line
  | limits
  | reach
  | ghost
  deriving DecidableEq

/-- Type and values of a parameter as given by the model when it was created, `src/kim.c` 110-130. -/
inductive Vals (K : Type*) where
  | ints (v : List ℤ)
  | dbls (v : List K)

/-- `extent`. -/
def Vals.extent : Vals K → Nat
  | .ints v => v.length
  | .dbls v => v.length

/-- `g_kim.params[i]`. -/
structure Param (K : Type*) where
  name : String
  vals : Vals K
  isCutoff : Bool

/-- A line with values: first character, begins with "default", `sscanf("%d")`, numbers at the beginning, numbers after the first
word. -/
structure Line (K : Type*) where
  head : Char
  isDefault : Bool
  int : Option ℤ
  nums : List K
  after : List K

/-- A header line `KIM_CUTOFF name` or `KIM_… name` and the lines up to the next one. -/
structure Block (K : Type*) where
  cutoff : Bool
  name : String
  lines : List (Line K)

/-- Row 0 of `g_pot.apot_table`; `ninvar` is the last member of `invar_par`. -/
structure Table (K : Type*) where
  value : Nat → K
  pmin : Nat → K
  pmax : Nat → K
  invar : Nat → Bool
  ninvar : Nat

/-- The table, the integers in `g_kim.params`, and the parameters inside the model. -/
structure State (K : Type*) where
  tab : Table K
  ints : Nat → Nat → ℤ
  modelInt : Nat → Nat → ℤ
  modelDbl : Nat → Nat → K

/-- Writing of one member. -/
def set2 {α : Type*} (f : Nat → Nat → α) (i j : Nat) (x : α) : Nat → Nat → α := fun a b => if a = i ∧ b = j then x else f a b

/-- `invar_par[0][offset] = 1; invar_par[0][n_par] += 1`. -/
def Table.fix (t : Table K) (o : Nat) : Table K := { t with invar := Function.update t.invar o true, ninvar := t.ninvar + 1 }

/-- `values`, `pmin`, `pmax`. -/
def Table.put (t : Table K) (o : Nat) (v lo hi : K) : Table K :=
  { t with value := Function.update t.value o v, pmin := Function.update t.pmin o lo, pmax := Function.update t.pmax o hi }

/-- The integer of a line, 462-473. -/
def lineInt (old : ℤ) (l : Line K) : Except Fault ℤ :=
  if l.isDefault then .ok old
  else if l.head = '!' then .error .line
  else if ¬ (l.head.toNat > 0x2f ∧ l.head.toNat < 0x39) then .error .line
  else match l.int with
    | none => .error .line
    | some v => .ok v

/-- An integer parameter, 462-479. -/
def stepInt (i j o : Nat) (l : Line K) (st : State K) : Except Fault (State K) :=
  match lineInt (st.ints i j) l with
  | .error e => .error e
  | .ok v => .ok { tab := st.tab.fix o, ints := set2 st.ints i j v, modelInt := set2 st.modelInt i j v, modelDbl := st.modelDbl }

/-- A line of the cutoff parameter, 481-495. -/
def stepCutoff (i j o : Nat) (l : Line K) (st : State K) : Except Fault (State K) :=
  match l.nums with
  | [] => .error .line
  | v :: _ => .ok { st with tab := (st.tab.fix o).put o v v v, modelDbl := set2 st.modelDbl i j v }

/-- Value and limits of a line, 503-513. -/
def lineVals (old : K) (l : Line K) : Except Fault (K × K × K) :=
  if l.isDefault then
    match l.after with
    | lo :: hi :: _ => .ok (old, lo, hi)
    | _ => .error .line
  else
    match l.nums with
    | v :: lo :: hi :: _ => .ok (v, lo, hi)
    | _ => .error .line

/-- Lines 515-533. -/
def storeVals (o : Nat) (v lo hi : K) (st : State K) : Except Fault (State K) :=
  let min := if lo > hi then hi else lo
  let max := if lo > hi then lo else hi
  let t := if min = max then st.tab.fix o else st.tab
  if ¬ min = max ∧ (min > v ∨ max < v) then .error .limits
  else .ok { st with tab := t.put o v min max }

/-- Another parameter of type double, 497-533; a line with a global parameter is skipped, 497-501. -/
def stepDouble (old : K) (o : Nat) (l : Line K) (st : State K) : Except Fault (State K) :=
  if l.head = '!' then .ok st
  else match lineVals old l with
    | .error e => .error e
    | .ok (v, lo, hi) => storeVals o v lo hi st

/-- Body of the loop 457-537 for line `j` of parameter `i`; `o` is `offset`. -/
def stepLine (p : Param K) (cutoff : Bool) (i j o : Nat) (l : Line K) (st : State K) : Except Fault (State K) :=
  match p.vals with
  | .ints _ => stepInt i j o l st
  | .dbls v => if cutoff then stepCutoff i j o l st else stepDouble (v.getD j 0) o l st

/-- The loop 457-537: number of lines still to read. -/
def readLines (p : Param K) (cutoff : Bool) (i pos : Nat) : Nat → Nat → List (Line K) → State K → Except Fault (State K)
  | 0, _, _, st => .ok st
  | _ + 1, _, [], _ => .error .missing
  | n + 1, j, l :: ls, st =>
    match stepLine p cutoff i j (pos + j) l st with
    | .error e => .error e
    | .ok st => readLines p cutoff i pos n (j + 1) ls st

/-- `read_single_kim_parameter`, 425-538: the name in the file is compared with the first characters of the name of the model. -/
def readSingle (p : Param K) (i pos : Nat) (b : Block K) (st : State K) : Except Fault (State K) :=
  if ¬ b.name.toList.isPrefixOf p.name.toList then .error .order
  else readLines p b.cutoff i pos p.vals.extent 0 b.lines st

/-- `read_kim_parameters_file`, 540-548. -/
def readFile : List (Param K) → Nat → Nat → List (Block K) → State K → Except Fault (State K)
  | [], _, _, _, st => .ok st
  | _ :: _, _, _, [], _ => .error .missing
  | p :: ps, i, pos, b :: bs, st =>
    match readSingle p i pos b st with
    | .error e => .error e
    | .ok st => readFile ps (i + 1) (pos + p.vals.extent) bs st

/-- Integers of the model when it was created. -/
def initInt (ps : List (Param K)) (i j : Nat) : ℤ := match ps[i]? with
  | some ⟨_, .ints v, _⟩ => v.getD j 0
  | _ => 0

/-- Doubles of the model when it was created. -/
def initDbl (ps : List (Param K)) (i j : Nat) : K := match ps[i]? with
  | some ⟨_, .dbls v, _⟩ => v.getD j 0
  | _ => 0

/-- The state before the file is read: `Malloc` returns zeros. -/
def initial (ps : List (Param K)) : State K := ⟨⟨0, 0, 0, fun _ => false, 0⟩, initInt ps, initInt ps, initDbl ps⟩

/-- `total_params`, `src/kim.c` 115. -/
def total (ps : List (Param K)) : Nat := (ps.map fun p => p.vals.extent).sum

/-- `pt->idx`: positions of the fitted parameters, 612-622. -/
def fitted (n : Nat) (t : Table K) : List Nat := (List.range n).filter fun o => !t.invar o

/-- `pt->idxlen`, 624. -/
def idxlen (n : Nat) (t : Table K) : Nat := n - t.ninvar

/-- `update_kim_model`, `src/force_kim.c` 61-75: `v` are the values of the parameter when the model was created. -/
def updateDoubles (xi : Nat → K) (i pos : Nat) : Nat → List K → (Nat → Nat → K) → Nat → Nat → K
  | _, [], m => m
  | j, v :: vs, m => updateDoubles xi i pos (j + 1) vs (if xi (pos + j) ≠ v then set2 m i j (xi (pos + j)) else m)

/-- The loop over the parameters: other types are skipped, and `pos` with them. -/
def update (xi : Nat → K) : List (Param K) → Nat → Nat → (Nat → Nat → K) → Nat → Nat → K
  | [], _, _, m => m
  | p :: ps, i, pos, m =>
    match p.vals with
    | .ints _ => update xi ps (i + 1) pos m
    | .dbls v => update xi ps (i + 1) (pos + v.length) (updateDoubles xi i pos 0 v m)

/-- What the model says about distances: influence distance, cutoff of each neighbour list, and whether the list leaves out neighbours
of images. -/
structure Reach (K : Type*) where
  influence : K
  cutoffs : List K
  noGhosts : List Bool

/-- `read_max_cutoff`, `src/potential_input_f5.c` 374-398: range of the neighbour lists. -/
def maxCutoff (r : Reach K) : Except Fault K :=
  if r.noGhosts.all id then .ok (r.cutoffs.foldl (fun m c => if c > m then c else m) r.influence) else .error .ghost

/-- Check of the cutoffs, `src/force_kim.c` 78-112: `old` is `g_kim.cutoffs`, which becomes the result.  The number of lists does not
change. -/
def checkReach (old new : Reach K) : Except Fault (Reach K) :=
  if old.influence < new.influence then .error .reach
  else if new.cutoffs ≠ [] ∧ new.noGhosts.head? = some false then .error .ghost
  else if (old.cutoffs.zip new.cutoffs).any fun p => p.1 < p.2 then .error .reach
  else .ok new

/-- `read_pot_table5`, 561-590: the cutoffs are asked for before the parameters of the file are read. -/
def readPot (reach : (Nat → Nat → K) → Reach K) (ps : List (Param K)) (bs : List (Block K)) : Except Fault (K × State K) :=
  match maxCutoff (reach (initDbl ps)) with
  | .error e => .error e
  | .ok r =>
    match readFile ps 0 0 bs (initial ps) with
    | .error e => .error e
    | .ok st => .ok (r, st)

/-- State of the evaluations: parameters of the model and `g_kim.cutoffs`. -/
structure Eval (K : Type*) where
  model : Nat → Nat → K
  old : Reach K

/-- `update_kim_model`. -/
def evaluate (reach : (Nat → Nat → K) → Reach K) (ps : List (Param K)) (xi : Nat → K) (e : Eval K) : Except Fault (Eval K) :=
  match checkReach e.old (reach (update xi ps 0 0 e.model)) with
  | .error f => .error f
  | .ok r => .ok ⟨update xi ps 0 0 e.model, r⟩

/-- Line written for a number and its limits; `rnd` is what is read again after writing with `%f`. -/
def outDouble (rnd : K → K) (v lo hi : K) : Line K := ⟨'0', false, none, [rnd v, rnd lo, rnd hi], [rnd lo, rnd hi]⟩

/-- Line written for an integer. -/
def outInt (v : ℤ) : Line K := ⟨(toString v).toList.headD ' ', false, some v, [v, v, v], [v, v]⟩

/-- `write_pot_table5`, `src/potential_output.c` 508-526. -/
def write (rnd : K → K) (t : Table K) (ints : Nat → Nat → ℤ) : List (Param K) → Nat → Nat → List (Block K)
  | [], _, _ => []
  | p :: ps, i, pos =>
    ⟨p.isCutoff, p.name, match p.vals with
      | .ints v => (List.range v.length).map fun j => outInt (ints i j)
      | .dbls v => v.zipIdx.map fun vj => outDouble rnd vj.1 (t.pmin (pos + vj.2)) (t.pmax (pos + vj.2))⟩ ::
    write rnd t ints ps (i + 1) (pos + p.vals.extent)

end Verif.KimParams
