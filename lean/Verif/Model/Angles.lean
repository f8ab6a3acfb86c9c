/-
Angle entries of the three-body potentials: `init_angles` of `src/config.c` 1368-1505 and the loops of the force
routines reading them.

An angle entry is represented by the value `val j k` computed from the neighbours `j` and `k` of the atom
(`cos`, and what `update_slots` derives from it); memory not written is `none`.  `error` for cosines out of
range is left out.  Loop bounds are those of the C code with `int` counters (`nnn - 1` is 0 or negative for at
most one neighbour: no turn).
-/
import Mathlib.Data.List.Range
import Mathlib.Logic.Function.Basic

namespace Verif.Angles

variable {α : Type*}

/-- `angle_part`, the counter `ijk` (at the end `num_angles`) and `neigh[j].ijk_start`. -/
structure Table (α : Type*) where
  mem : Nat → Option α
  ijk : Nat
  start : Nat → Nat

/-- Body of the innermost loop, 1396-1435: entry `ijk` is written, then `ijk++`. -/
def push (s : Table α) (v : α) : Table α :=
  { s with mem := Function.update s.mem s.ijk (some v), ijk := s.ijk + 1 }

/-- One turn of the loop over `j`: `ijk_start`, then the loop over `k`. -/
def turn (val : Nat → Nat → α) (ks : Nat → List Nat) (s : Table α) (j : Nat) : Table α :=
  (ks j).foldl (fun s k => push s (val j k)) { s with start := Function.update s.start j s.ijk }

/-- The loops over `j` in `js` and `k` in `ks j`. -/
def store (val : Nat → Nat → α) (js : List Nat) (ks : Nat → List Nat) : Table α :=
  js.foldl (turn val ks) ⟨fun _ => none, 0, fun _ => 0⟩

/-- `for (k = j + 1; k < nnn; k++)`. -/
def later (n j : Nat) : List Nat := List.range' (j + 1) (n - (j + 1))

/-- `for (k = 0; k < nnn; k++) if (j == k) continue;`. -/
def others (n j : Nat) : List Nat := (List.range n).filter fun k => decide (k ≠ j)

/-- 1374-1438 without `TERSOFF`. -/
def initHalf (n : Nat) (val : Nat → Nat → α) : Table α := store val (List.range (n - 1)) (later n)

/-- 1374-1438 with `TERSOFF`. -/
def initFull (n : Nat) (val : Nat → Nat → α) : Table α := store val (List.range n) (others n)

/-- 1446-1502, `ANG`: only neighbours within the range of `f` (`inr`). -/
def initAng (n : Nat) (inr : Nat → Bool) (val : Nat → Nat → α) : Table α :=
  store val ((List.range (n - 1)).filter inr) fun j => (later n j).filter inr

/-- An angle used by a force routine: the two neighbours and the entry read. -/
structure Used (α : Type*) where
  j : Nat
  k : Nat
  entry : Option α

/-- Inner loop with a pointer which is increased for every angle. -/
def ptrInner (a : Table α) (j : Nat) (ks : List Nat) (s : List (Used α) × Nat) : List (Used α) × Nat :=
  ks.foldl (fun s k => (s.1 ++ [⟨j, k, a.mem s.2⟩], s.2 + 1)) s

/-- `src/force_meam.c` 401-423 and 578-654. -/
def meamWalk (a : Table α) (n : Nat) : List (Used α) :=
  ((List.range (n - 1)).foldl (fun s j => ptrInner a j (later n j) s) ([], 0)).1

/-- `src/force_ang.c` 351-448: the pointer moves only for pairs in range. -/
def angWalk (a : Table α) (n : Nat) (inr : Nat → Bool) : List (Used α) :=
  ((List.range (n - 1)).foldl (fun s j =>
    if inr j then ptrInner a j ((later n j).filter inr) s else s) ([], 0)).1

/-- Inner loop starting at `ijk_start`: the entry is taken (`ijk++`) before it is decided whether it is used. -/
def idxInner (a : Table α) (j : Nat) (use : Nat → Bool) (ks : List Nat) (s : List (Used α) × Nat) :
    List (Used α) × Nat :=
  ks.foldl (fun s k => (if use k then s.1 ++ [⟨j, k, a.mem s.2⟩] else s.1, s.2 + 1)) s

/-- `src/force_stiweb.c` 232-299: `in2` is the cutoff `a2`, `lam j k` is `lambda ≠ 0`. -/
def swWalk (a : Table α) (n : Nat) (in2 : Nat → Bool) (lam : Nat → Nat → Bool) : List (Used α) :=
  (List.range (n - 1)).foldl (fun out j =>
    if in2 j then (idxInner a j (fun k => lam j k && in2 k) (later n j) (out, a.start j)).1 else out) []

/-- `src/force_tersoff.c` 226-290, 559-640: `inS` is the cutoff, `b j` is `B ≠ 0`. -/
def tersoffWalk (a : Table α) (n : Nat) (inS : Nat → Bool) (b : Nat → Bool) : List (Used α) :=
  (List.range n).foldl (fun out j =>
    if inS j then if b j then (idxInner a j inS (others n j) (out, a.start j)).1 else out else out) []

end Verif.Angles
