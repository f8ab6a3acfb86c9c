/-
Particles and neighbour lists handed to a KIM model: `init_neighbors_kim` (`src/config.c` 963-1073), the `KIM` parts of
`init_neighbors` (1081-1294) and `get_neigh` (`src/force_kim.c` 307-328).

Simplifications: doubles are real numbers; warnings are left out; the parallel arrays `species_codes`, `particle_contributing`,
`coordinates` and `source_atom` are one list of `Particle`s, to which `pos` is the length; `atom_pos` is a function which is read
and written through `readPos` and `store`, both of which fail outside the allocated size.  The fields of `neigh_t` are those of
`Model/Neighbors.lean` and are not repeated.
-/
import Verif.Model.Neighbors
import Verif.Model.ConfigFile

namespace Verif.KimLists

open Verif.Force Verif.Neighbors

/-- Reasons to stop; `outOfBounds` is an access outside an allocated array. -/
inductive Fault where
  | overlap
  | mismatch
  | padding
  | outOfBounds
  deriving DecidableEq

/-- Members number `pos` of the four arrays. -/
structure Particle where
  species : ℤ
  contributing : Bool
  source : Nat
  pos : V3 ℝ

/-- `nx * ny * nz`, 987-989. -/
def cells (s : Fin 3 → ℤ) : ℤ := (2 * s 0 + 1) * (2 * s 1 + 1) * (2 * s 2 + 1)

/-- `num_atoms`, 990. -/
def size (s : Fin 3 → ℤ) (cnt : Nat) : ℤ := cnt * cells s

/-- First value of `atom_idx`, 1036. -/
def cellNr (s n : Fin 3 → ℤ) : ℤ := ((2 * s 1 + 1) * (n 0 + s 0) + n 1 + s 1) * (2 * s 2 + 1) + n 2 + s 2

/-- `atom_idx` of atom `j` in another cell, 1036-1040 (and 1167-1172). -/
def slot (s : Fin 3 → ℤ) (cnt j : Nat) (n : Fin 3 → ℤ) : ℤ :=
  if 2 * cellNr s n < cells s then (cellNr s n + 1) * cnt + j else cellNr s n * cnt + j

/-- `atom_idx` in the loop over the neighbours, 1164-1173. -/
def slotOf (s : Fin 3 → ℤ) (cnt j : Nat) (n : Fin 3 → ℤ) : ℤ :=
  if n 0 = 0 ∧ n 1 = 0 ∧ n 2 = 0 then j else slot s cnt j n

/-- The particles so far and `atom_pos`. -/
structure Acc where
  parts : List Particle
  atomPos : ℤ → ℤ

/-- Reading `atom_pos[k]`. -/
def readPos (num : ℤ) (a : ℤ → ℤ) (k : ℤ) : Except Fault ℤ := if 0 ≤ k ∧ k < num then .ok (a k) else .error .outOfBounds

/-- Storing a particle at the end of the arrays and its number in `atom_pos[k]`, 1055-1061. -/
def store (num : ℤ) (a : Acc) (k : ℤ) (p : Particle) : Except Fault Acc :=
  if (0 ≤ k ∧ k < num) ∧ (a.parts.length : ℤ) < num then
    .ok ⟨a.parts ++ [p], Function.update a.atomPos k a.parts.length⟩
  else .error .outOfBounds

/-- The values of `ix`, `iy`, `iz` in the order of the loops, without the cell itself, 1030-1035. -/
def otherCells (s : Fin 3 → ℤ) : List (Fin 3 → ℤ) :=
  (span (s 0)).flatMap fun ix => (span (s 1)).flatMap fun iy => (span (s 2)).flatMap fun iz =>
    if ix = 0 ∧ iy = 0 ∧ iz = 0 then [] else [![ix, iy, iz]]

/-- The atoms of the configuration, 1006-1018. -/
def ownParticle (map : Nat → ℤ) (c : Cell) (i : Nat) : Particle := ⟨map (c.site i).typ, true, c.start + i, (c.site i).pos⟩

/-- One of the atoms: `atom_pos[i] = i` and the members number `i` of the arrays. -/
def ownStep (num : ℤ) (map : Nat → ℤ) (c : Cell) (a : Acc) (i : Nat) : Except Fault Acc := store num a i (ownParticle map c i)

/-- `new_pos`, 1051-1053. -/
def shifted (c : Cell) (j : Nat) (n : Fin 3 → ℤ) : V3 ℝ := fun k =>
  (c.site j).pos k + n 0 * c.box.edge 0 k + n 1 * c.box.edge 1 k + n 2 * c.box.edge 2 k

/-- The image of an atom, 1054-1060. -/
def imageParticle (map : Nat → ℤ) (c : Cell) (m : Image) : Particle :=
  ⟨map (c.site m.j).typ, false, c.start + m.j, shifted c m.j m.n⟩

open Classical in
/-- Body of the loops, 1036-1061, for atom `i` and the image `m`. -/
noncomputable def padStep (cut : Cutoffs) (s : Fin 3 → ℤ) (map : Nat → ℤ) (c : Cell) (i : Nat) (a : Acc) (m : Image) : Except Fault Acc :=
  match readPos (size s c.sites.length) a.atomPos (slot s c.sites.length m.j m.n) with
  | .error e => .error e
  | .ok k =>
    if 0 ≤ k then .ok a
    else if dist c i m > cut.rcut (c.site i).typ (c.site m.j).typ then .ok a
    else store (size s c.sites.length) a (slot s c.sites.length m.j m.n) (imageParticle map c m)

/-- Loops over `j` and the cells. -/
def padImages (s : Fin 3 → ℤ) (cnt : Nat) : List Image :=
  (List.range cnt).flatMap fun j => (otherCells s).map fun n => ⟨j, n⟩

/-- The images within reach of atom `i`, 1024-1066. -/
noncomputable def padAtom (cut : Cutoffs) (s : Fin 3 → ℤ) (map : Nat → ℤ) (c : Cell) (a : Acc) (i : Nat) : Except Fault Acc :=
  (padImages s c.sites.length).foldlM (padStep cut s map c i) a

/-- The atoms, 999-1018. -/
def ownAtoms (s : Fin 3 → ℤ) (map : Nat → ℤ) (c : Cell) : Except Fault Acc :=
  (List.range c.sites.length).foldlM (ownStep (size s c.sites.length) map c) ⟨[], fun _ => -1⟩

/-- `init_neighbors_kim`, 986-1073: `map` is `g_kim.species_map`. -/
noncomputable def particles (cut : Cutoffs) (s : Fin 3 → ℤ) (map : Nat → ℤ) (c : Cell) : Except Fault Acc :=
  match ownAtoms s map c with
  | .error e => .error e
  | .ok a => (List.range c.sites.length).foldlM (padAtom cut s map c) a

open Classical in
/-- `num_neigh` of the first pass, 1098-1146. -/
noncomputable def counted (cut : Cutoffs) (s : Fin 3 → ℤ) (c : Cell) (i : Nat) : Nat :=
  ((visited true c.sites.length s i).filter fun m => decide (dist c i m ≤ cut.rcut (c.site i).typ (c.site m.j).typ)).length

open Classical in
/-- Body of the second pass, 1160-1224: the number of the particle is written into `kim_neighbors`, which has `num` members. -/
noncomputable def neighStep (cut : Cutoffs) (s : Fin 3 → ℤ) (c : Cell) (atomPos : ℤ → ℤ) (num i : Nat) (l : List ℤ) (m : Image) :
    Except Fault (List ℤ) :=
  match readPos (size s c.sites.length) atomPos (slotOf s c.sites.length m.j m.n) with
  | .error e => .error e
  | .ok k =>
    if k < 0 then .ok l
    else if dist c i m ≤ cut.rcut (c.site i).typ (c.site m.j).typ then
      if l.length < num then .ok (l ++ [k]) else .error .outOfBounds
    else .ok l

open Classical in
/-- `init_neighbors` for atom `i`, 1096-1289: `kim_neighbors`. -/
noncomputable def kimNeighbours (cut : Cutoffs) (s : Fin 3 → ℤ) (c : Cell) (atomPos : ℤ → ℤ) (i : Nat) : Except Fault (List ℤ) :=
  if ∃ m ∈ visited true c.sites.length s i, dist c i m = 0 then .error .overlap
  else
    match (visited true c.sites.length s i).foldlM (neighStep cut s c atomPos (counted cut s c i) i) [] with
    | .error e => .error e
    | .ok l => if counted cut s c i ≠ 0 ∧ counted cut s c i ≠ l.length then .error .mismatch else .ok l

/-- The loop over the atoms, 1096-1290. -/
noncomputable def kimLists (cut : Cutoffs) (s : Fin 3 → ℤ) (map : Nat → ℤ) (c : Cell) : Except Fault (List Particle × List (List ℤ)) :=
  match particles cut s map c with
  | .error e => .error e
  | .ok a =>
    match (List.range c.sites.length).mapM (kimNeighbours cut s c a.atomPos) with
    | .error e => .error e
    | .ok ls => .ok (a.parts, ls)

/-- `get_neigh`, `src/force_kim.c` 307-328: `lists` are the lists of all atoms, `start` and `inconf` number of the first atom and number
of the atoms of the configuration. -/
def getNeigh (lists : List (List ℤ)) (start inconf : Nat) (p : Nat) : Except Fault (List ℤ) :=
  if p > inconf then .error .padding
  else match lists[start + p]? with
    | none => .error .outOfBounds
    | some l => .ok l

/-- `species_map` before the first configuration, 968-972. -/
def noMap : Nat → ℤ := fun _ => -1

/-- Code of a species, 974-983: `codes` are names and codes of the species of the model; −1 stays if there is none. -/
def codeOf (codes : List (String × ℤ)) (name : String) : ℤ := codes.foldl (fun m p => if name = p.1 then p.2 else m) (-1)

/-- The loop 973-985 for a configuration. -/
def extendMap (codes : List (String × ℤ)) (n : ConfigFile.Names) (map : Nat → ℤ) : Nat → ℤ := fun i =>
  if i < n.fixed then if map i ≠ -1 then map i else codeOf codes (n.names.getD i "") else map i

/-- The names after the header of a configuration with or without a line `#C`, 262-266. -/
def headerNames (n : ConfigFile.Names) : Option (List String) → Option ConfigFile.Names
  | none => some n
  | some ws => ConfigFile.readElements n ws

/-- Names and `species_map` while the configurations are read; a line `#C` is read before
`init_neighbors` is called, 362.  Result: the map used for each of the configurations, and the names in the end. -/
def readMaps (codes : List (String × ℤ)) : ConfigFile.Names → (Nat → ℤ) → List (Option (List String)) → Option (List (Nat → ℤ) × ConfigFile.Names)
  | n, _, [] => some ([], n)
  | n, map, h :: hs =>
    match headerNames n h with
    | none => none
    | some n' =>
      match readMaps codes n' (extendMap codes n' map) hs with
      | none => none
      | some r => some (extendMap codes n' map :: r.1, r.2)

/-- `check_KIM_model_support`, `src/kim.c`: every element in the end is a species of the model. -/
def supported (codes : List (String × ℤ)) (n : ConfigFile.Names) : Bool := n.names.all fun w => codes.any fun p => p.1 == w

end Verif.KimLists
