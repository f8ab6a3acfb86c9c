/-
Data handed to the MPI worker processes: `src/mpi_utils.c` (`broadcast_params_mpi`, `potsync`, `create_custom_datatypes`,
`broadcast_basic_data`, `broadcast_calcpot_table`, `broadcast_apot_table`, `broadcast_configurations`, `broadcast_atoms`,
`broadcast_neighbors`, `broadcast_angles`) and `src/potfit.c` 87-112.

All processes run the same program on their own memory.  A collective call succeeds only if every process takes part with the same
count and every buffer is large enough.

Simplifications: a process' memory maps the name of a global (with the indices of the row for arrays of arrays) to its cells; the
arrays of row pointers (`na_type`, `names`, `global_idx`) are not modelled apart from their rows.  A cell holds a number or a
character whatever its type; the types in the calls are not modelled, except for the three structures.  The length of a function
name is sent as the first four bytes of a `size_t` (little endian): modelled as the number itself.  MPI calls themselves do not fail.
-/
import Verif.Model.Mpi

namespace Verif.Workers

/-- Content of a memory cell; `blank` is memory cleared by `Malloc` and not written since. -/
inductive Cell (K : Type)
  | int (n : Int)
  | dbl (x : K)
  | chr (c : Char)
  | blank
  deriving DecidableEq

/-- Name of a global variable or array, with the row for arrays of arrays. -/
abbrev Key := String × List Nat

/-- Memory of one process; `none` is an array which has not been allocated. -/
abbrev Mem (K : Type) := Key → Option (List (Cell K))

/-- What can go wrong. -/
inductive Fault
  /-- a count is read from a variable which does not hold one -/
  | unset
  /-- the processes take part in a collective call with different counts -/
  | differ
  /-- a buffer is too small -/
  | outside
  /-- `Malloc(0)` ends the program, `src/memory.c` 70-78 -/
  | empty
  /-- the processes take different branches: some wait for ever in a collective call -/
  | apart
  /-- the description of a structure does not fit its declaration -/
  | layout
  /-- `POTFIT_ERROR` of `broadcast_configurations` -/
  | refused
  deriving DecidableEq, Repr

/-- Counts in calls: numbers, entries of integer arrays, products and sums. -/
inductive Cnt
  | lit (n : Nat)
  | val (k : Key) (i : Nat)
  | mul (a b : Cnt)
  | add (a b : Cnt)
  deriving DecidableEq, Repr

variable {K : Type}

/-- An entry of an integer array. -/
def intAt (m : Mem K) (k : Key) (i : Nat) : Option Int :=
  match m k with
  | none => none
  | some a => match a[i]? with
    | some (.int z) => some z
    | _ => none

/-- Value of a count in the memory of one process. -/
def Cnt.eval (m : Mem K) : Cnt → Option Nat
  | .lit n => some n
  | .val k i => match intAt m k i with
    | some z => if 0 ≤ z then some z.toNat else none
    | none => none
  | .mul a b => match a.eval m, b.eval m with
    | some x, some y => some (x * y)
    | _, _ => none
  | .add a b => match a.eval m, b.eval m with
    | some x, some y => some (x + y)
    | _, _ => none

/-- Statements: allocation on the workers (`if (g_mpi.myid > 0) … Malloc`), broadcast from rank 0, and the exchange of a string
(length first, then the characters with the terminating zero, 612-624). -/
inductive Op
  | alloc (k : Key) (e : Cnt)
  | bcast (k : Key) (e : Cnt)
  | str (k : Key)
  deriving DecidableEq, Repr

/-- The processes: their number and the memory of every rank. -/
structure World (K : Type) where
  size : Nat
  mem : Nat → Mem K

/-- One array replaced. -/
def put (m : Mem K) (k : Key) (a : List (Cell K)) : Mem K := fun k' => if k' = k then some a else m k'

/-- `strlen`: `none` if there is no terminating zero. -/
def strlen (a : List (Cell K)) [DecidableEq K] : Option Nat := a.findIdx? (fun c => decide (c = .chr '\x00'))

/-- Is there room for `n` cells? -/
def roomFor (m : Mem K) (k : Key) (n : Nat) : Bool :=
  match m k with
  | none => false
  | some a => decide (n ≤ a.length)

/-- The buffer after receiving the cells `s`. -/
def received (m : Mem K) (k : Key) (s : List (Cell K)) : List (Cell K) := s ++ ((m k).getD []).drop s.length

/-- One statement, executed by all processes. -/
def step [DecidableEq K] (w : World K) : Op → Except Fault (World K)
  | .alloc k e =>
    if ∃ r, r < w.size ∧ 1 ≤ r ∧ e.eval (w.mem r) = none then .error .unset
    else if ∃ r, r < w.size ∧ 1 ≤ r ∧ e.eval (w.mem r) = some 0 then .error .empty
    else .ok { w with mem := fun r =>
      if r = 0 then w.mem 0 else put (w.mem r) k (List.replicate ((e.eval (w.mem r)).getD 0) .blank) }
  | .bcast k e =>
    match e.eval (w.mem 0) with
    | none => .error .unset
    | some n =>
      if ∀ r, r < w.size → e.eval (w.mem r) = some n then
        match w.mem 0 k with
        | none => .error .outside
        | some a =>
          if n ≤ a.length ∧ ∀ r, r < w.size → 1 ≤ r → roomFor (w.mem r) k n = true then
            .ok { w with mem := fun r => if r = 0 then w.mem 0 else put (w.mem r) k (received (w.mem r) k (a.take n)) }
          else .error .outside
      else .error .differ
  | .str k =>
    match w.mem 0 k with
    | none => .error .unset
    | some a =>
      match strlen a with
      | none => .error .outside
      | some l => .ok { w with mem := fun r => if r = 0 then w.mem 0 else put (w.mem r) k (a.take (l + 1)) }

/-- Statements one after the other. -/
def run [DecidableEq K] : List Op → World K → Except Fault (World K)
  | [], w => .ok w
  | o :: t, w => match step w o with
    | .error f => .error f
    | .ok w' => run t w'

/-- Statements which depend on the memory (branches and loops): every process determines its own list, they must be the same. -/
def phase [DecidableEq K] (f : Mem K → Option (List Op)) (w : World K) : Except Fault (World K) :=
  match f (w.mem 0) with
  | none => .error .unset
  | some l => if ∀ r, r < w.size → f (w.mem r) = some l then run l w else .error .apart

/-! ### The program -/

/-- Compile-time options which change what is sent. -/
structure Build where
  apot : Bool
  coulomb : Bool
  dipole : Bool
  deriving DecidableEq, Repr

/-- A scalar. -/
def sc (s : String) : Key := (s, [])

/-- Broadcast of a scalar. -/
def one (s : String) : Op := .bcast (sc s) (.lit 1)

/-- The value of a scalar as a count. -/
def v (s : String) : Cnt := .val (sc s) 0

/-- Allocation and broadcast of an array. -/
def al (s : String) (e : Cnt) : Op := .alloc (sc s) e
def bc (s : String) (e : Cnt) : Op := .bcast (sc s) e

/-- `broadcast_basic_data`, 467-509. -/
def basic (b : Build) : List Op :=
  [one "mdim", one "ntypes", one "natoms", one "nconf", one "paircol", one "opt",
   al "inconf" (v "nconf"), al "cnfstart" (v "nconf"), al "force_0" (v "mdim"), al "conf_weight" (v "nconf"),
   bc "inconf" (v "nconf"), bc "cnfstart" (v "nconf"), bc "force_0" (v "mdim"), bc "conf_weight" (v "nconf"),
   one "eweight", one "sweight", one "format_type"] ++
  (if b.coulomb then [one "dp_cut"] else []) ++
  (if b.dipole then [one "dp_tol", one "dp_mix"] else [])

/-- `broadcast_calcpot_table`, 515-555. -/
def calcpot : List Op :=
  [one "calc.len", one "calc.ncols",
   al "calc.begin" (v "calc.ncols"), al "calc.end" (v "calc.ncols"), al "calc.step" (v "calc.ncols"),
   al "calc.invstep" (v "calc.ncols"), al "calc.first" (v "calc.ncols"), al "calc.last" (v "calc.ncols"),
   al "calc.table" (v "calc.len"), al "calc.xcoord" (v "calc.len"), al "calc.d2tab" (v "calc.len"),
   bc "calc.begin" (v "calc.ncols"), bc "calc.end" (v "calc.ncols"), bc "calc.step" (v "calc.ncols"),
   bc "calc.invstep" (v "calc.ncols"), bc "calc.first" (v "calc.ncols"), bc "calc.last" (v "calc.ncols"),
   bc "calc.table" (v "calc.len"), bc "calc.d2tab" (v "calc.len"), bc "calc.xcoord" (v "calc.len")]

/-- `broadcast_apot_table`, 564-571: the scalars. -/
def apotHead (b : Build) : List Op :=
  [one "enable_cp", one "opt.len", one "number"] ++ (if b.coulomb then [one "total_ne_par"] else [])

/-- 573-582: composition of the configurations, for chemical potentials. -/
def apotComposition (m : Mem K) : Option (List Op) :=
  match intAt m (sc "enable_cp") 0, (v "nconf").eval m with
  | some cp, some n =>
    if cp ≠ 0 then
      some ((List.range (n + 1)).map (fun i => .alloc ("na_type", [i]) (v "ntypes")) ++
        (List.range (n + 1)).map (fun i => .bcast ("na_type", [i]) (v "ntypes")))
    else some []
  | _, _ => none

/-- 584-610: memory on the workers (without the arrays of pointers `names`, `fvalue`). -/
def apotAlloc (b : Build) : List Op :=
  [al "calc_list" (v "opt.len"), al "n_par" (v "number"), al "apot.begin" (v "number"), al "apot.end" (v "number"),
   al "idxpot" (v "number")] ++ (if b.coulomb then [al "ratio" (v "ntypes")] else []) ++
  [al "smooth_pot" (v "number"), al "invar_pot" (v "number"), al "rcut" (.mul (v "ntypes") (v "ntypes")),
   al "rmin" (.mul (v "ntypes") (v "ntypes")), al "opt.table" (v "opt.len"), al "opt.first" (v "number")]

/-- 612-624: names of the functions, from which the workers look up the function pointers (626-627). -/
def apotNames (m : Mem K) : Option (List Op) :=
  match (v "number").eval m with
  | some n => some ((List.range n).map fun i => .str ("names", [i]))
  | none => none

/-- 629-659. -/
def apotSend (b : Build) : List Op :=
  [bc "smooth_pot" (v "number"), bc "invar_pot" (v "number"), bc "calc_list" (v "opt.len"), bc "n_par" (v "number"),
   bc "rcut" (.mul (v "ntypes") (v "ntypes")), bc "rmin" (.mul (v "ntypes") (v "ntypes")), bc "apot.end" (v "number"),
   bc "apot.begin" (v "number"), bc "idxpot" (v "number"), one "cp_start", one "have_globals", one "global_idx", one "globals",
   bc "opt.first" (v "number")] ++
  (if b.coulomb then [one "last_charge", bc "ratio" (v "ntypes")] else [])

/-- 661-669: numbers of uses of the global parameters. -/
def apotGlobals (m : Mem K) : Option (List Op) :=
  match intAt m (sc "have_globals") 0 with
  | some g => if g ≠ 0 then some [al "n_glob" (v "globals"), bc "n_glob" (v "globals")] else some []
  | none => none

/-- All pairs `(i, j)` with `j < n_glob[i]`, in the order of the loops. -/
def globalPairs (m : Mem K) (n : Nat) : Option (List (Nat × Nat)) :=
  ((List.range n).mapM (m := Option) fun i => ((Cnt.val (sc "n_glob") i).eval m).map fun c => (List.range c).map fun j => (i, j)).map
    List.flatten

/-- 670-683: places of the global parameters.  The rows `global_idx[i]` (671-673) are arrays of pointers of length `n_glob[i]`: an
unused global parameter would need a row without memory. -/
def apotPlaces (m : Mem K) : Option (List Op) :=
  match intAt m (sc "have_globals") 0, (v "globals").eval m with
  | some g, some n =>
    if g ≠ 0 then
      (globalPairs m n).map fun ps =>
        (List.range n).map (fun i => .alloc ("global_idx", [i]) (.val (sc "n_glob") i)) ++
        ps.map (fun p => .alloc ("global_idx", [p.1, p.2]) (.lit 2)) ++
        ps.map (fun p => .bcast ("global_idx", [p.1, p.2]) (.lit 2))
    else some []
  | some g, none => if g ≠ 0 then none else some []
  | none, _ => none

/-- `potfit.c` 97, 105-108: `ndimtot = opt_pot.len` on every process, then the parameters. -/
def parameters : List Op := [bc "opt.table" (v "opt.len")]

/-- `broadcast_apot_table`, 561-686, and the parameters. -/
def apot [DecidableEq K] (b : Build) (w : World K) : Except Fault (World K) := do
  let w ← run (apotHead b) w
  let w ← phase apotComposition w
  let w ← run (apotAlloc b) w
  let w ← phase apotNames w
  let w ← run (apotSend b) w
  let w ← phase apotGlobals w
  let w ← phase apotPlaces w
  run parameters w

/-- `broadcast_params_mpi`, 119-159, up to the tables: first `init_done` (128), then the data. -/
def tables [DecidableEq K] (b : Build) (w : World K) : Except Fault (World K) := do
  let w ← run (basic b ++ calcpot) w
  if b.apot then apot b w else .ok w

/-! ### Structures -/

/-- Interaction, as far as it changes the structures. -/
inductive Inter
  | pair | eam | tbeam | adp | meam | ang | stiweb | tersoff
  deriving DecidableEq, Repr

/-- Options which change the structures. -/
structure Shape where
  inter : Inter
  coulomb : Bool
  dipole : Bool
  contrib : Bool
  deriving DecidableEq, Repr

/-- `THREEBODY`, `defines.h` 38-40. -/
def Shape.three (s : Shape) : Bool := s.inter = .meam ∨ s.inter = .stiweb ∨ s.inter = .tersoff ∨ s.inter = .ang

/-- `SLOTS`, `defines.h` 102-117 (`TBEAM` is compiled together with `EAM`). -/
def Shape.slots (s : Shape) : Nat :=
  match s.inter with
  | .eam | .stiweb | .ang => 2
  | .tbeam | .meam => 3
  | .adp => 4
  | _ => 1

/-- `EAM || ADP || MEAM`. -/
def Shape.dense (s : Shape) : Bool := s.inter = .eam ∨ s.inter = .tbeam ∨ s.inter = .adp ∨ s.inter = .meam

/-- Types of components: `int`, `double`, `vector` (3 doubles), `sym_tens` (6 doubles). -/
inductive Ty
  | int | double | vector | stens
  deriving DecidableEq, Repr

/-- A type and the number of elements. -/
abbrev Comp := Ty × Nat

/-- `neigh_t`, `types.h` 71-112. -/
def neighDecl (s : Shape) : List (String × Comp) :=
  [("type", .int, 1), ("nr", .int, 1), ("r", .double, 1), ("r2", .double, 1), ("inv_r", .double, 1), ("dist", .vector, 1),
   ("dist_r", .vector, 1), ("slot", .int, s.slots), ("shift", .double, s.slots), ("step", .double, s.slots),
   ("col", .int, s.slots)] ++
  (if s.inter = .adp then [("sqrdist", .stens, 1), ("u_val", .double, 1), ("u_grad", .double, 1), ("w_val", .double, 1),
    ("w_grad", .double, 1)] else []) ++
  (if s.coulomb then [("fnval_el", .double, 1), ("grad_el", .double, 1), ("ggrad_el", .double, 1)] else []) ++
  (if s.three then [("f", .double, 1), ("df", .double, 1), ("ijk_start", .int, 1)] else []) ++
  (if s.inter = .meam then [("drho", .double, 1)] else []) ++
  (if s.inter = .tersoff then [("dzeta", .vector, 1)] else [])

/-- `angle_t`, `types.h` 117-129. -/
def angleDecl (s : Shape) : List (String × Comp) :=
  [("cos", .double, 1)] ++ (if s.inter = .ang then [("theta", .double, 1)] else []) ++
  (if s.inter = .meam ∨ s.inter = .ang then [("slot", .int, 1), ("shift", .double, 1), ("step", .double, 1), ("g", .double, 1),
    ("dg", .double, 1)] else [])

/-- `atom_t`, `types.h` 193-240, without the pointers. -/
def atomDecl (s : Shape) : List (String × Comp) :=
  [("type", .int, 1), ("num_neigh", .int, 1), ("pos", .vector, 1), ("force", .vector, 1), ("absforce", .double, 1),
   ("conf", .int, 1)] ++
  (if s.contrib then [("contrib", .int, 1)] else []) ++
  (if s.dense then [("rho", .double, 1), ("gradF", .double, 1)] ++
    (if s.inter = .tbeam then [("rho_s", .double, 1), ("gradF_s", .double, 1)] else []) else []) ++
  (if s.inter = .adp then [("mu", .vector, 1), ("lambda", .stens, 1), ("nu", .double, 1)] else []) ++
  (if s.dipole then [("E_stat", .vector, 1), ("p_sr", .vector, 1), ("E_ind", .vector, 1), ("p_ind", .vector, 1),
    ("E_old", .vector, 1), ("E_tot", .vector, 1)] else []) ++
  (if s.three then [("num_angles", .int, 1)] ++ (if s.inter = .meam then [("rho_eam", .double, 1)] else []) else [])

/-- Types of `MPI_NEIGH`, 226-260. -/
def neighTypes (s : Shape) : List Comp :=
  [(.int, 1), (.int, 1), (.double, 1), (.double, 1), (.double, 1), (.vector, 1), (.vector, 1), (.int, s.slots),
   (.double, s.slots), (.double, s.slots), (.int, s.slots)] ++
  (if s.inter = .adp then [(.stens, 1), (.double, 1), (.double, 1), (.double, 1), (.double, 1)] else []) ++
  (if s.coulomb then [(.double, 1), (.double, 1), (.double, 1)] else []) ++
  (if s.three then [(.double, 1), (.double, 1), (.int, 1)] else []) ++
  (if s.inter = .meam then [(.double, 1)] else []) ++
  (if s.inter = .tersoff then [(.vector, 1)] else [])

/-- Addresses of `MPI_NEIGH`, 261-295. -/
def neighFields (s : Shape) : List String :=
  ["type", "nr", "r", "r2", "inv_r", "dist", "dist_r", "slot", "shift", "step", "col"] ++
  (if s.inter = .adp then ["sqrdist", "u_val", "u_grad", "w_val", "w_grad"] else []) ++
  (if s.coulomb then ["fnval_el", "grad_el", "ggrad_el"] else []) ++
  (if s.three then ["f", "df", "ijk_start"] else []) ++
  (if s.inter = .meam then ["drho"] else []) ++
  (if s.inter = .tersoff then ["dzeta"] else [])

/-- Types of `MPI_ANGL`, 319-333. -/
def angleTypes (s : Shape) : List Comp :=
  [(.double, 1)] ++ (if s.inter = .ang then [(.double, 1)] else []) ++
  (if s.inter = .meam ∨ s.inter = .ang then [(.int, 1), (.double, 1), (.double, 1), (.double, 1), (.double, 1)] else [])

/-- Addresses of `MPI_ANGL`, 335-345. -/
def angleFields (s : Shape) : List String :=
  ["cos"] ++ (if s.inter = .ang then ["theta"] else []) ++
  (if s.inter = .meam ∨ s.inter = .ang then ["slot", "shift", "step", "g", "dg"] else [])

/-- Types of `MPI_ATOM`, 369-404. -/
def atomTypes (s : Shape) : List Comp :=
  [(.int, 1), (.int, 1), (.vector, 1), (.vector, 1), (.double, 1), (.int, 1)] ++
  (if s.contrib then [(.int, 1)] else []) ++
  (if s.dense then [(.double, 1), (.double, 1)] else []) ++
  (if s.inter = .adp then [(.vector, 1), (.stens, 1), (.double, 1)] else []) ++
  (if s.dipole then [(.vector, 1), (.vector, 1), (.vector, 1), (.vector, 1), (.vector, 1), (.vector, 1)] else []) ++
  (if s.three then [(.int, 1)] ++ (if s.inter = .meam then [(.double, 1)] else []) else [])

/-- Addresses of `MPI_ATOM`, 409-440. -/
def atomFields (s : Shape) : List String :=
  ["type", "num_neigh", "pos", "force", "absforce", "conf"] ++
  (if s.contrib then ["contrib"] else []) ++
  (if s.dense then ["rho", "gradF"] else []) ++
  (if s.inter = .adp then ["mu", "lambda", "nu"] else []) ++
  (if s.dipole then ["E_stat", "p_sr", "E_ind", "p_ind", "E_old", "E_tot"] else []) ++
  (if s.three then ["num_angles"] ++ (if s.inter = .meam then ["rho_eam"] else []) else [])

/-- The arrays for the description of a structure hold 20 components, 206-210. -/
def maxComponents : Nat := 20

/-- A structure: the content of every component. -/
abbrev Rec (K : Type) := String → List (Cell K)

/-- Description of a structure: the lists of types and addresses must have the same length (299-304, 349-354, 444-449), not exceed
the arrays, and a component must be described with its type and number of elements. -/
def describe (decl : List (String × Comp)) (types : List Comp) (fields : List String) : Except Fault (List String) :=
  if types.length ≠ fields.length then .error .layout
  else if maxComponents < types.length then .error .outside
  else if ∀ p ∈ fields.zip types, decl.lookup p.1 = some p.2 then .ok fields
  else .error .layout

/-- A structure after a broadcast: the described components are those of rank 0, the others keep their content. -/
def recv (fields : List String) (src dst : Rec K) : Rec K := fun f => if f ∈ fields then src f else dst f

/-! ### Configurations, atoms, neighbours, angles -/

/-- Part of a scattered array: `MPI_Scatterv` with displacement `d` and length `n` into a buffer of `n` cells which is allocated
before (741-757). -/
def scatterv {A : Type} (a : List A) (d n : Nat) : Except Fault (List A) :=
  if n = 0 then .error .empty else if d + n ≤ a.length then .ok ((a.drop d).take n) else .error .outside

/-- Loop of `broadcast_atoms`, 772-778: `loc` is the local variable of the process, `own` its array `conf_atoms`. -/
def atomsLoop (fields : List String) (root : Bool) (first my : Nat) :
    List (Rec K) → Nat → Rec K → List (Rec K) → Except Fault (List (Rec K))
  | [], _, _, own => .ok own
  | a :: t, i, loc, own =>
    let loc := if root then a else recv fields a loc
    if first ≤ i ∧ i < first + my then
      if i - first < own.length then atomsLoop fields root first my t (i + 1) loc (own.set (i - first) loc)
      else .error .outside
    else atomsLoop fields root first my t (i + 1) loc own

/-- `broadcast_atoms`, 766-781. -/
def sendAtoms (fields : List String) (root : Bool) (first my : Nat) (atoms : List (Rec K)) (junk : Rec K) :
    Except Fault (List (Rec K)) :=
  if my = 0 then .error .empty else atomsLoop fields root first my atoms 0 junk (List.replicate my fun _ => [])

/-- The inner loop 806-812 (and 845-851): the entries one after the other; `loc` is the local variable of the process. -/
def entriesLoop (fields : List String) (root mine : Bool) : List (Rec K) → Nat → Rec K → List (Rec K) →
    Except Fault (Rec K × List (Rec K))
  | [], _, loc, own => .ok (loc, own)
  | a :: t, j, loc, own =>
    let loc := if root then a else recv fields a loc
    if mine then
      if j < own.length then entriesLoop fields root mine t (j + 1) loc (own.set j loc) else .error .outside
    else entriesLoop fields root mine t (j + 1) loc own

/-- Loop of `broadcast_neighbors`, 795-813, and `broadcast_angles`, 831-852: `skip` is the test for an empty list (800, or 836-839
with `ANG`).  The outcome are the lists of the atoms of this process. -/
def listsLoop (fields : List String) (skip root : Bool) (first my : Nat) :
    List (List (Rec K)) → Nat → Rec K → Except Fault (List (List (Rec K)))
  | [], _, _ => .ok []
  | l :: t, i, loc =>
    let mine : Bool := first ≤ i ∧ i < first + my
    if mine ∧ l.length = 0 ∧ ¬ skip then .error .empty
    else match entriesLoop fields root mine l 0 loc (List.replicate (if mine then l.length else 0) fun _ => []) with
      | .error f => .error f
      | .ok (loc, own) => match listsLoop fields skip root first my t (i + 1) loc with
        | .error f => .error f
        | .ok rest => .ok (if mine then own :: rest else rest)

/-- The input on rank 0: volumes, flags, atoms and for each atom its neighbours and angles. -/
structure Input (K : Type) where
  volume : List K
  useforce : List Int
  usestress : List Int
  atoms : List (Rec K)
  neigh : List (List (Rec K))
  angles : List (List (Rec K))

/-- What a process has afterwards. -/
structure Share (K : Type) where
  vol : List K
  uf : List Int
  us : List Int
  atoms : List (Rec K)
  neigh : List (List (Rec K))
  angles : List (List (Rec K))

/-- `MPI_ANGL` exists only for three-body interactions (312-361). -/
def describeAngles (s : Shape) : Except Fault (List String) :=
  if s.three then describe (angleDecl s) (angleTypes s) (angleFields s) else .ok []

/-- The stress flags are sent with `STRESS` (754-757). -/
def scatterStress {A : Type} (stress : Bool) (a : List A) (d n : Nat) : Except Fault (List A) :=
  if stress then scatterv a d n else .ok []

/-- `broadcast_angles`, only for three-body interactions (821-856). -/
def sendAngles (s : Shape) (fields : List String) (root : Bool) (first my : Nat) (l : List (List (Rec K))) :
    Except Fault (List (List (Rec K))) :=
  if s.three then listsLoop fields (s.inter = .ang) root first my l 0 (fun _ => [.blank]) else .ok []

/-- `create_custom_datatypes`, `broadcast_configurations`, `broadcast_atoms`, `broadcast_neighbors`, `broadcast_angles` as seen by
rank `r`; `junk` is the content of its uninitialised local variable (`neigh` and `angle` are cleared, 793, 829). -/
def share (s : Shape) (stress : Bool) (inconf : Nat → Nat) (nconf size r : Nat) (inp : Input K) (junk : Rec K) :
    Except Fault (Share K) := do
  let nf ← describe (neighDecl s) (neighTypes s) (neighFields s)
  let gf ← describeAngles s
  let af ← describe (atomDecl s) (atomTypes s) (atomFields s)
  match Mpi.distribute inconf nconf size with
  | none => .error .refused
  | some d =>
    let vol ← scatterv inp.volume (d.confDist r).toNat (d.confLen r).toNat
    let uf ← scatterv inp.useforce (d.confDist r).toNat (d.confLen r).toNat
    let us ← scatterStress stress inp.usestress (d.confDist r).toNat (d.confLen r).toNat
    let first := (d.atomDist r).toNat
    let my := (d.atomLen r).toNat
    let atoms ← sendAtoms af (r = 0) first my inp.atoms junk
    let neigh ← listsLoop nf true (r = 0) first my inp.neigh 0 (fun _ => [.blank])
    let angles ← sendAngles s gf (r = 0) first my inp.angles
    .ok ⟨vol, uf, us, atoms, neigh, angles⟩

/-! ### After rescaling -/

/-- Broadcast of the cells `off, …, off + n - 1`. -/
def sendPart {A : Type} (a b : List A) (off n : Nat) : Except Fault (List A) :=
  if off + n ≤ a.length ∧ off + n ≤ b.length then .ok (b.take off ++ (a.drop off).take n ++ b.drop (off + n)) else .error .outside

/-- `calc_pot`, `types.h` 244-258, as far as it is read when functions are evaluated. -/
structure Table (K : Type) where
  begin : List K
  stop : List K
  step : List K
  invstep : List K
  first : List Nat
  last : List Nat
  table : List K
  xcoord : List K
  deriving DecidableEq

/-- `potsync`, 167-191, on a worker with table `t`; `t0` is the table of rank 0.  The processes agree on `paircol`, `ntypes` and
`len`.  `firstval` is read by every process from its own table. -/
def potsync (paircol ntypes : Nat) (t0 t : Table K) : Except Fault (Table K) := do
  let fc := paircol + ntypes
  let begin ← sendPart t0.begin t.begin fc ntypes
  let stop ← sendPart t0.stop t.stop fc ntypes
  let step ← sendPart t0.step t.step fc ntypes
  let invstep ← sendPart t0.invstep t.invstep fc ntypes
  let first ← sendPart t0.first t.first fc ntypes
  match t0.first[paircol]?, first[paircol]? with
  | some f0, some f1 =>
    if f0 = f1 then do
      let table ← sendPart t0.table t.table f0 (t0.table.length - f0)
      .ok { t with begin, stop, step, invstep, first, table }
    else .error .differ
  | _, _ => .error .outside

/-- A call of the force routine with `flag == 2` (`force_eam.c` 151-171): the values `xi` first, over the whole length of the table,
then `potsync`. -/
def resync (paircol ntypes : Nat) (t0 t : Table K) : Except Fault (Table K) := do
  let table ← sendPart t0.table t.table 0 t0.table.length
  potsync paircol ntypes t0 { t with table }

end Verif.Workers
