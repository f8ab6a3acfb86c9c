/-
`src/chempot.c`: chemical potentials with composition nodes.

Simplifications: doubles are elements of an ordered field.  Reading composition nodes from the potential file is compiled only
with `CN` (`src/potential_input_f0.c` 400-457, "disabled for now"); the functions here are modelled for an arbitrary node list.
-/
import Verif.Model.DiffEvo

namespace Verif.Chempot

open Verif.DiffEvo (swapAt)

variable {K : Type*} [Field K] [LinearOrder K] [IsStrictOrderedRing K]

/-- The arrays which belong together: `compnodelist` and row `apot_table.number` of `values`, `pmin`, `pmax`. -/
structure Tab (K : Type*) where
  nodes : List K
  values : List K
  pmin : List K
  pmax : List K
  deriving DecidableEq

/-- `swap_chem_pot`, 38-54, with `nt = ntypes`. -/
def swapChem (nt : Nat) (t : Tab K) (i j : Nat) : Tab K :=
  if i ≠ j then
    ⟨swapAt t.nodes (i - nt) (j - nt), swapAt t.values i j, swapAt t.pmin i j, swapAt t.pmax i j⟩
  else t

/-- The inner loop 67-72 of `sort_chem_pot_2d`: `n` turns left, `i` the loop variable. -/
def pass (nt : Nat) : Nat → Nat → Tab K → Bool → Tab K × Bool
  | 0, _, t, sw => (t, sw)
  | n + 1, i, t, sw =>
    match t.nodes[i]?, t.nodes[i + 1]? with
    | some a, some b =>
      if a > b then pass nt n (i + 1) (swapChem nt t (nt + i) (nt + i + 1)) true else pass nt n (i + 1) t sw
    | _, _ => pass nt n (i + 1) t sw

/-- The loop 65-73; `none` if it does not end within `fuel` turns. `compnodes` is the length of the node list. -/
def sortLoop (nt : Nat) : Nat → Tab K → Option (Tab K)
  | 0, _ => none
  | fuel + 1, t =>
    let r := pass nt (t.nodes.length - 1) 0 t false
    if r.2 then sortLoop nt fuel r.1 else some r.1

/-- `sort_chem_pot_2d`, 60-77. -/
def sort (nt : Nat) (fuel : Nat) (t : Tab K) : Option (Tab K) := if t.nodes.length > 0 then sortLoop nt fuel t else some t

/-! ### Evaluation -/

/-- What can go wrong: no atoms (`0.0 / 0`), or a value behind the array is read. -/
inductive Err
  | nan
  | outside
  deriving DecidableEq, Repr

/-- The search 100-102: `fuel` turns left. Returns the index and the node indices read, the last one first. `mem` is the memory
behind `compnodelist`: the nodes, followed by `ntypes` zeros (allocated in `potential_input_f0.c` 429). -/
def search (mem : Nat → K) (n : Nat) (x : K) : Nat → Nat → List Nat → Nat × List Nat
  | 0, i, reads => (i, reads)
  | fuel + 1, i, reads => if x > mem i ∧ i < n then search mem n x fuel (i + 1) (i :: reads) else (i, i :: reads)

/-- 94-130 per atom, as a function of the composition `nfrac = x`, 0 < x < 1 with at least one node: the value and the node
indices read in the search. -/
def perAtom (nt : Nat) (nodes values : List K) (x : K) : Except Err (K × List Nat) :=
  let n := nodes.length
  let s := search (fun k => nodes.getD k 0) n x (n + 1) 0 []
  let i := s.1
  let p : K × K × Option K × Option K :=
    if i = 0 then (0, nodes.getD 0 0, values[0]?, values[2]?)
    else if i = n then (nodes.getD (n - 1) 0, 1, values[nt + n - 1]?, values[1]?)
    else (nodes.getD (i - 1) 0, nodes.getD i 0, values[nt + i - 2]?, values[nt + i - 1]?)
  match p.2.2.1, p.2.2.2 with
  | some yl, some yr => .ok (yl + (x - p.1) * (yr - yl) / (p.2.1 - p.1), s.2)
  | _, _ => .error .outside

/-- `chemical_potential_2d`, 92-131. `nt` is `ntypes`, which is 2 when this function is called. -/
def chem2 (nt : Nat) (nodes values : List K) (p0 p1 : Nat) : Except Err (K × List Nat) :=
  if p0 + p1 = 0 then .error .nan
  else
    let x : K := (p1 : K) / ((p0 + p1 : Nat) : K)
    if x = 0 ∨ x = 1 ∨ nodes.length = 0 then
      match values[0]?, values[1]? with
      | some v0, some v1 => .ok (p0 * v0 + p1 * v1, [])
      | _, _ => .error .outside
    else (perAtom nt nodes values x).map fun r => (r.1 * ((p0 + p1 : Nat) : K), r.2)

/-- `chemical_potential_multidim`, 137-145. -/
def multi (values : List K) : List Nat → Nat → K → Except Err K
  | [], _, acc => .ok acc
  | p :: ps, i, acc =>
    match values[i]? with
    | some v => multi values ps (i + 1) (acc + p * v)
    | none => .error .outside

/-- `chemical_potential`, 157-167; `positions` are the numbers of atoms of the types, `dimension` its length. -/
def chem (nodes values : List K) (positions : List Nat) : Except Err K :=
  match positions with
  | [] => .ok 0
  | [p] =>
    match values[0]? with
    | some v => .ok (p * v)
    | none => .error .outside
  | [p, q] => (chem2 2 nodes values p q).map Prod.fst
  | ps => multi values ps 0 0

end Verif.Chempot
