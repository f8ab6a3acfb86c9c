/-
`src/memory.c`: the registry of allocated blocks.

The C library is an arbitrary oracle: `malloc` and `realloc` may return any address which is not the address of a live block, or
fail; the choice may depend on everything that happened before.  Address 0 is `NULL`.  Contents of blocks are not modelled.
-/
import Mathlib.Data.Finset.Basic
import Mathlib.Data.Finset.Insert

namespace Verif.Memory

abbrev Addr := Nat

/-- The allocator: number of calls so far, live blocks, size; for `realloc` also the block. `none` is a failure. -/
structure Libc where
  malloc : Nat → Finset Addr → Nat → Option Addr
  realloc : Nat → Finset Addr → Addr → Nat → Option Addr

/-- What the C standard promises. -/
structure Libc.Valid (L : Libc) : Prop where
  malloc : ∀ n live size p, L.malloc n live size = some p → p ≠ 0 ∧ p ∉ live
  realloc : ∀ n live p size q, L.realloc n live p size = some q → q ≠ 0 ∧ q ∉ live.erase p

/-- `error(1, ..)` or undefined behaviour. -/
inductive Stop
  | exit
  | ub
  deriving DecidableEq, Repr

/-- Live blocks, `g_memory.pointers[0 .. num_pointers - 1]`, the address `g_memory.pointers` of this array, calls so far. -/
structure Mem where
  live : Finset Addr
  regs : List Addr
  arr : Addr
  calls : Nat

/-- At program start. -/
def Mem.init : Mem := ⟨∅, [], 0, 0⟩

/-- `malloc` of the library. -/
def Libc.rawMalloc (L : Libc) (m : Mem) (size : Nat) : Except Stop (Addr × Mem) :=
  match L.malloc m.calls m.live size with
  | none => .error .exit
  | some p => .ok (p, { m with live := insert p m.live, calls := m.calls + 1 })

/-- `realloc` of the library; `realloc(NULL, size)` is `malloc(size)`, a dead block is undefined behaviour. -/
def Libc.rawRealloc (L : Libc) (m : Mem) (p : Addr) (size : Nat) : Except Stop (Addr × Mem) :=
  if p = 0 then L.rawMalloc m size
  else if p ∈ m.live then
    match L.realloc m.calls m.live p size with
    | none => .error .exit
    | some q => .ok (q, { m with live := insert q (m.live.erase p), calls := m.calls + 1 })
  else .error .ub

/-- `free` of the library. -/
def rawFree (m : Mem) (p : Addr) : Except Stop Mem :=
  if p = 0 then .ok m else if p ∈ m.live then .ok { m with live := m.live.erase p } else .error .ub

/-- `Malloc`, 68-97 (without `ENABLE_ASAN`). -/
def Libc.Malloc (L : Libc) (m : Mem) (size : Nat) : Except Stop (Addr × Mem) :=
  if size = 0 then .error .exit
  else
    match L.rawMalloc m size with
    | .error e => .error e
    | .ok (p, m) =>
      match L.rawRealloc m m.arr (8 * (m.regs.length + 1)) with
      | .error e => .error e
      | .ok (a, m) => .ok (p, { m with arr := a, regs := m.regs ++ [p] })

/-- `Realloc`, 107-126. -/
def Libc.Realloc (L : Libc) (m : Mem) (pvoid : Addr) (size : Nat) : Except Stop (Addr × Mem) :=
  if size = 0 then .error .exit
  else if pvoid = 0 then L.Malloc m size
  else
    match L.rawRealloc m pvoid size with
    | .error e => .error e
    | .ok (temp, m) => .ok (temp, { m with regs := m.regs.map fun r => if pvoid = r then temp else r })

/-- The loop of `free_allocated_memory`. -/
def freeList : List Addr → Mem → Except Stop Mem
  | [], m => .ok m
  | p :: ps, m =>
    match rawFree m p with
    | .error e => .error e
    | .ok m => freeList ps m

/-- `free_allocated_memory`, 252-258. -/
def freeAll (m : Mem) : Except Stop Mem :=
  match freeList m.regs m with
  | .error e => .error e
  | .ok m => rawFree m m.arr

end Verif.Memory
