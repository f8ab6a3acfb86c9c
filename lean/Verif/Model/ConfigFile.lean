/-
The reader of configuration files: `read_config` (`src/config.c` 89-457), `create_memory_for_configs` (742-796),
`read_box_vector` (802-813), `read_sphere_center` (821-842), `read_chemical_elements` (850-892), `does_contribute` (1651-1682).

Simplifications:
* A line is given by what the C library finds in it (`Line`): some characters, the numbers and words converted by `sscanf` and
  `strtok`.  All combinations are allowed.  Lines have less than 1023 characters and end with a line feed.
* The table of the atoms is read by `fscanf`, which does not care about line feeds; here an atom is one line (`Line.atom`), blank
  lines in between are skipped.
* Numbers are elements of an ordered field, `int` is `Int` without overflow.
* Warnings and messages are left out.  The element names are processed in a pass of their own (`readNames`); together with an error
  in another line this can change which of the two errors is reported.
* The neighbour lists (360-364) are the subject of `Model/Neighbors.lean`, the ranges of analytic potentials (459-571) of
  `Model/Ranges.lean`.
-/
import Verif.Model.Force
import Verif.Model.Neighbors
import Verif.Model.Sections
import Mathlib.Algebra.Order.Floor.Defs

namespace Verif.ConfigFile

open Verif.Force (V3)

/-- The seven items of the line of an atom, 324-326. -/
structure RawAtom (K : Type) where
  typ : Int
  pos : V3 K
  force : V3 K

/-- A line of the file: `res[0]`, `res[1]`, `res[3]`; what `sscanf` converts starting at `res + 3` with `"%d %d"` and with
`"%lf %lf ..."`, starting at `res + 5` with `"%lf %lf ..."`; the words found by `strtok` starting at `res + 3`; the atom found by
`fscanf`; whether there is nothing but blank space. -/
structure Line (K : Type) where
  c0 : Char
  c1 : Char
  c3 : Char
  ints : List Int
  nums : List K
  nums5 : List K
  words : List String
  atom : Option (RawAtom K)
  blank : Bool

/-- The calls of `error(1, ...)`. -/
inductive Err where
  | memoryCount
  | count
  | fewAtoms
  | incompleteHeader
  | box
  | twoBoxes
  | sphere
  | energy
  | weight
  | negativeWeight
  | stress
  | missingEnergy
  | missingBox
  | missingContrib
  | parallelEdges
  | corrupt
  | atomType
  | endOfFile
  | fewTypes
  deriving DecidableEq

/-- Compile-time switches `STRESS`, `CONTRIB`, `THREEBODY` and the parameters `ntypes` and `global_cell_scale`. -/
structure Settings (K : Type) where
  stress : Bool
  contrib : Bool
  threebody : Bool
  ntypes : Nat
  scale : K

/-- The fields of `config_state` and the entries of the global arrays set by header lines.  `haveCbox 0` to `haveCbox 3` are the
bits of `have_contrib_box_vector`, `cbox` are `cbox_o`, `cbox_a`, `cbox_b`, `cbox_c`. -/
structure Header (K : Type) where
  energy : K
  weight : K
  stress : Fin 6 → K
  haveEnergy : Bool
  haveStress : Bool
  edge : Fin 3 → V3 K
  haveBox : Fin 3 → Bool
  cbox : Fin 4 → V3 K
  haveCbox : Fin 4 → Bool
  spheres : List (V3 K × K)

/-- One configuration in the global arrays.  `cbox` is `none` if there is no box of contributing atoms. -/
structure Config (K : Type) where
  useForce : Bool
  energy : K
  weight : K
  useStress : Bool
  stress : Fin 6 → K
  edge : Fin 3 → V3 K
  volume : K
  cbox : Option (Fin 4 → V3 K)
  spheres : List (V3 K × K)
  atoms : List (RawAtom K)

/-- The cases of the `switch`, 191-291. -/
inductive Key where
  | edge (k : Fin 3)
  | contrib
  | energy
  | weight
  | elements
  | stress
  | forces
  | unknown
  deriving DecidableEq

/-- Label of the `switch` to which `res[1]` leads; the cases under `#if` exist only with the switch. -/
def key {K : Type} (s : Settings K) (c : Char) : Key :=
  if c = 'x' ∨ c = 'X' then .edge 0
  else if c = 'y' ∨ c = 'Y' then .edge 1
  else if c = 'z' ∨ c = 'Z' then .edge 2
  else if s.contrib = true ∧ (c = 'b' ∨ c = 'B') then .contrib
  else if c = 'e' ∨ c = 'E' then .energy
  else if c = 'w' ∨ c = 'W' then .weight
  else if c = 'c' ∨ c = 'C' then .elements
  else if s.stress = true ∧ (c = 's' ∨ c = 'S') then .stress
  else if c = 'f' ∨ c = 'F' then .forces
  else .unknown

/-- The cases of the inner `switch`, 211-242: origin and edges of the box, sphere. -/
inductive Part where
  | vec (k : Fin 4)
  | sphere
  | unknown
  deriving DecidableEq

/-- Label of the inner `switch` to which `res[3]` leads. -/
def part (c : Char) : Part :=
  if c = 'o' ∨ c = 'O' then .vec 0
  else if c = 'a' ∨ c = 'A' then .vec 1
  else if c = 'b' ∨ c = 'B' then .vec 2
  else if c = 'c' ∨ c = 'C' then .vec 3
  else if c = 's' ∨ c = 'S' then .sphere
  else .unknown

section
variable {K : Type} [Field K] [LinearOrder K]

/-- Multiplication by `global_cell_scale` unless it is one, 331-335, 805-809, 833-838. -/
def scaled (s : Settings K) (x : K) : K := if s.scale ≠ 1 then x * s.scale else x

/-- `read_box_vector`, 802-813. -/
def readBoxVector (s : Settings K) (nums : List K) : Except Err (V3 K) :=
  match nums with
  | x :: y :: z :: _ => .ok ![scaled s x, scaled s y, scaled s z]
  | _ => .error .box

/-- `read_sphere_center`, 821-842. -/
def readSphere (s : Settings K) (nums : List K) : Except Err (V3 K × K) :=
  match nums with
  | x :: y :: z :: r :: _ => .ok (![scaled s x, scaled s y, scaled s z], scaled s r)
  | _ => .error .sphere

/-- The state after `reset_cstate`, 710-736; the arrays are zeroed by `Malloc`, the weight is 1 (771-773). -/
def emptyHeader : Header K where
  energy := 0
  weight := 1
  stress := 0
  haveEnergy := false
  haveStress := false
  edge := 0
  haveBox := fun _ => false
  cbox := 0
  haveCbox := fun _ => false
  spheres := []

/-- The inner `switch`, 211-242. -/
def contribLine (s : Settings K) (h : Header K) (l : Line K) : Except Err (Header K) :=
  match part l.c3 with
  | .vec k =>
    if k = 0 ∧ h.haveCbox 0 = true then .error .twoBoxes
    else match readBoxVector s l.nums5 with
      | .error e => .error e
      | .ok v => .ok { h with cbox := Function.update h.cbox k v, haveCbox := Function.update h.haveCbox k true }
  | .sphere => match readSphere s l.nums5 with
    | .error e => .error e
    | .ok p => .ok { h with spheres := h.spheres ++ [p] }
  | .unknown => .ok h

/-- One line of the header, 191-291.  The test of `res[0]` only prints a warning. -/
def headerLine (s : Settings K) (h : Header K) (l : Line K) : Except Err (Header K) :=
  match key s l.c1 with
  | .edge k => match readBoxVector s l.nums with
    | .error e => .error e
    | .ok v => .ok { h with edge := Function.update h.edge k v, haveBox := Function.update h.haveBox k true }
  | .contrib => contribLine s h l
  | .energy => match l.nums with
    | x :: _ => .ok { h with energy := x, haveEnergy := true }
    | [] => .error .energy
  | .weight => match l.nums with
    | x :: _ => if x < 0 then .error .negativeWeight else .ok { h with weight := x }
    | [] => .error .weight
  | .stress => match l.nums with
    | a :: b :: c :: d :: e :: f :: _ => .ok { h with stress := ![a, b, c, d, e, f], haveStress := true }
    | _ => .error .stress
  | .elements | .forces | .unknown => .ok h

/-- The loop over the lines of the header, 173-293: it ends after the line with `res[1] == 'F'`. -/
def readHeader (s : Settings K) (h : Header K) : List (Line K) → Except Err (Header K × List (Line K))
  | [] => .error .incompleteHeader
  | l :: rest => match headerLine s h l with
    | .error e => .error e
    | .ok h' => if l.c1 = 'F' then .ok (h', rest) else readHeader s h' rest

/-- The tests after the header, 295-306, and the volume, 318. -/
def checkHeader (s : Settings K) (h : Header K) : Except Err K :=
  if h.haveEnergy = false then .error .missingEnergy
  else if ¬ ∀ k, h.haveBox k = true then .error .missingBox
  else if s.contrib = true ∧ (∃ k, h.haveCbox k = true) ∧ ¬ ∀ k, h.haveCbox k = true then .error .missingContrib
  else match Neighbors.makeBox h.edge with
    | .error _ => .error .parallelEdges
    | .ok (_, volume) => .ok volume

/-- Lines that are not blank: `fscanf` skips blank space. -/
def skipBlank (ls : List (Line K)) : List (Line K) := ls.dropWhile fun l => l.blank

/-- The loop over the atoms, 321-341: `n` atoms are still to be read. -/
def readAtoms (s : Settings K) : Nat → List (Line K) → Except Err (List (RawAtom K) × List (Line K))
  | 0, ls => .ok ([], ls)
  | n + 1, ls => match skipBlank ls with
    | [] => .error .corrupt
    | l :: rest => match l.atom with
      | none => .error .corrupt
      | some a =>
        if a.typ ≥ s.ntypes ∨ a.typ < 0 then .error .atomType
        else match readAtoms s n (skipBlank rest) with
          | .error e => .error e
          | .ok (as, rest') => .ok ({ a with pos := fun k => scaled s (a.pos k) } :: as, rest')

/-- `res[0] == '#' && res[1] == 'N'`. -/
def isCount (l : Line K) : Bool := l.c0 == '#' && l.c1 == 'N'

/-- Smallest number of atoms, 157-163. -/
def minAtoms (s : Settings K) : Int := if s.threebody then 3 else 2

/-- A configuration whose first line is `l`, 147-358. -/
def readConf (s : Settings K) (l : Line K) (ls : List (Line K)) : Except Err (Config K × List (Line K)) :=
  match l.ints with
  | n :: uf :: _ =>
    if n < minAtoms s then .error .fewAtoms
    else match readHeader s emptyHeader ls with
      | .error e => .error e
      | .ok (h, rest) => match checkHeader s h with
        | .error e => .error e
        | .ok volume => match readAtoms s n.toNat rest with
          | .error e => .error e
          | .ok (as, rest') => .ok (
            { useForce := uf ≠ 0
              energy := h.energy
              weight := h.weight
              useStress := h.haveStress
              stress := h.stress
              edge := h.edge
              volume := volume
              cbox := if h.haveCbox 0 = true then some h.cbox else none
              spheres := h.spheres
              atoms := as }, rest')
  | _ => .error .count

/-- The loop over the configurations, 138-370; a step takes at least one line, so `fuel` is not exhausted when it is larger than
the number of lines.  After the last atom `fscanf` skips blank space up to the end of the file, only then `feof` is true: after
another line the next `fgets` fails (143-144). -/
def readConfs (s : Settings K) : Nat → List (Line K) → Except Err (List (Config K))
  | 0, _ => .error .endOfFile
  | _ + 1, [] => .error .endOfFile
  | fuel + 1, l :: rest =>
    if isCount l = true then
      match readConf s l rest with
      | .error e => .error e
      | .ok (c, []) => .ok [c]
      | .ok (c, rest') => match readConfs s fuel rest' with
        | .error e => .error e
        | .ok cs => .ok (c :: cs)
    else readConfs s fuel rest

/-- `create_memory_for_configs`, 742-766: number of configurations and of atoms for which memory is allocated. -/
def countMemory : List (Line K) → Except Err (Nat × Int)
  | [] => .ok (0, 0)
  | l :: rest =>
    if isCount l = true then
      match l.ints with
      | [] => .error .memoryCount
      | n :: _ => match countMemory rest with
        | .error e => .error e
        | .ok (confs, atoms) => .ok (confs + 1, atoms + n)
    else countMemory rest

/-- `max_atom_type`, 97, 357. -/
def maxType (cs : List (Config K)) : Int :=
  (cs.flatMap fun c => c.atoms).foldl (fun m a => max m a.typ) (-1)

/-- `read_config`, 132-399. -/
def readFile (s : Settings K) (ls : List (Line K)) : Except Err (List (Config K)) :=
  match countMemory ls with
  | .error e => .error e
  | .ok _ => match readConfs s (ls.length + 1) ls with
    | .error e => .error e
    | .ok cs => if maxType cs + 1 < s.ntypes then .error .fewTypes else .ok cs

/-- `na_type[i][j]` of a configuration, 355. -/
def naType (c : Config K) (t : Nat) : Nat :=
  c.atoms.foldl (fun n a => if a.typ = (t : Int) then n + 1 else n) 0

/-- `na_type[nconf][j]`, 378-380. -/
def naTotal (cs : List (Config K)) (t : Nat) : Nat := cs.foldl (fun n c => n + naType c t) 0

/-- `g_config.natoms`, 367. -/
def natoms (cs : List (Config K)) : Nat := cs.foldl (fun n c => n + c.atoms.length) 0

/-- The entries written to `force_0`, 431-457; without reference stresses the six entries keep the zeros of `Malloc`. -/
def written (s : Settings K) (cs : List (Config K)) : List K :=
  (cs.flatMap fun c => c.atoms.flatMap fun a => [a.force 0, a.force 1, a.force 2]) ++
  (cs.map fun c => c.energy) ++
  if s.stress = true then
    cs.flatMap fun c => if c.useStress = true then
        [c.stress 0, c.stress 1, c.stress 2, c.stress 3, c.stress 4, c.stress 5]
      else [0, 0, 0, 0, 0, 0]
  else []

/-- `force_0`: `mdim` entries, 429. -/
def force0 (s : Settings K) (cs : List (Config K)) (i : Nat) : K := (written s cs).getD i 0

end

section
variable {K : Type} [Field K] [LinearOrder K] [FloorRing K]

/-- Conversion from `double` to `int`: towards zero. -/
def toInt (x : K) : Int := if 0 ≤ x then ⌊x⌋ else ⌈x⌉

/-- `n_a`, `n_b`, `n_c`, 1659-1664; `none` stands for the undefined conversion of the result of a division by zero. -/
def cellNumber (dist edge : V3 K) : Option Int :=
  if Neighbors.sprod edge edge = 0 then none else some (toInt (Neighbors.sprod dist edge / Neighbors.sprod edge edge))

/-- The test of the box, 1655-1669. -/
def inBox (c : Fin 4 → V3 K) (pos : V3 K) : Option Bool :=
  match cellNumber (pos - c 0) (c 1), cellNumber (pos - c 0) (c 2), cellNumber (pos - c 0) (c 3) with
  | some na, some nb, some nc =>
    some (decide (0 ≤ na ∧ na ≤ 1) && decide (0 ≤ nb ∧ nb ≤ 1) && decide (0 ≤ nc ∧ nc ≤ 1))
  | _, _, _ => none

/-- The loop over the spheres, 1671-1679; `sqrt` is the square root. -/
def inSphere (sqrt : K → K) (spheres : List (V3 K × K)) (pos : V3 K) : Bool :=
  spheres.any fun p => decide (sqrt (Neighbors.sprod (pos - p.1) (pos - p.1)) < p.2)

/-- `atom->contrib`, 349-352, with `does_contribute`, 1651-1682. -/
def contributes (sqrt : K → K) (c : Config K) (pos : V3 K) : Option Bool :=
  match c.cbox with
  | some box => (inBox box pos).map fun b => b || inSphere sqrt c.spheres pos
  | none => some (if c.spheres = [] then true else inSphere sqrt c.spheres pos)

end

/-- `cnfstart`, 166: number of atoms before configuration `i`. -/
def cnfstart {K : Type} [Field K] [LinearOrder K] (cs : List (Config K)) (i : Nat) : Nat := natoms (cs.take i)

/-- Sizes on which the layout of the force vector depends (for the rest of the layout see C22). -/
def sizes {K : Type} [Field K] [LinearOrder K] (cs : List (Config K)) (z : Sections.Sizes) : Sections.Sizes :=
  { z with natoms := natoms cs, nconf := cs.length }

/-- Configuration `i` as the force routines find it in the global arrays: `neigh` and `contrib` give neighbour list and `contrib` of
an atom, `z` the other sizes and `f` the switches of the force vector, `chem` the contribution of the chemical potentials. -/
noncomputable def toConf (s : Settings ℝ) (f : Sections.Flags) (z : Sections.Sizes) (neigh : Nat → List (Force.Neigh ℝ))
    (contrib : Nat → Bool) (chem : Nat → ℝ) (cs : List (Config ℝ)) (i : Nat) (c : Config ℝ) : Force.Conf ℝ where
  start := cnfstart cs i
  atoms := c.atoms.zipIdx.map fun aj =>
    { typ := aj.1.typ.toNat
      neigh := neigh (cnfstart cs i + aj.2)
      absforce := Real.sqrt (aj.1.force 0 * aj.1.force 0 + aj.1.force 1 * aj.1.force 1 + aj.1.force 2 * aj.1.force 2)
      contrib := contrib (cnfstart cs i + aj.2) }
  uf := c.useForce
  us := c.useStress
  weight := c.weight
  vol := c.volume
  force0 := fun a k => force0 s cs (Sections.index f (sizes cs z) (.force a k.1))
  energy0 := force0 s cs (Sections.index f (sizes cs z) (.energy i))
  stress0 := fun k => force0 s cs (Sections.index f (sizes cs z) (.stress i k.1))
  limit0 := force0 s cs (Sections.index f (sizes cs z) (.limit i))
  chem := chem i

/-- All configurations. -/
noncomputable def toConfs (s : Settings ℝ) (f : Sections.Flags) (z : Sections.Sizes) (neigh : Nat → List (Force.Neigh ℝ))
    (contrib : Nat → Bool) (chem : Nat → ℝ) (cs : List (Config ℝ)) : List (Force.Conf ℝ) :=
  cs.zipIdx.map fun ci => toConf s f z neigh contrib chem cs ci.2 ci.1

/-- The element names: `g_config.elements` and `num_fixed_elements`. -/
structure Names where
  names : List String
  fixed : Nat
  deriving DecidableEq

/-- `strncpy(buffer, pchar, 14)` for longer words, 858-862. -/
def clip (w : String) : String := if w.length > 14 then String.ofList (w.toList.take 14) else w

/-- Value of the leading digits. -/
def digitsVal : Nat → List Char → Nat
  | n, [] => n
  | n, c :: cs => if c.isDigit then digitsVal (10 * n + (c.toNat - 48)) cs else n

/-- `atoi` of a word (without leading blank space). -/
def atoi (w : String) : Int :=
  match w.toList with
  | '-' :: cs => -(digitsVal 0 cs : Int)
  | '+' :: cs => digitsVal 0 cs
  | cs => digitsVal 0 cs

/-- First branch, 857-867: the words, beginning with number `i`, replace the names.  The list of the names has `ntypes` members. -/
def setNames (n : Names) : Nat → List String → Names
  | _, [] => n
  | i, w :: ws =>
    if i < n.names.length then setNames { names := n.names.set i (clip w), fixed := n.fixed + 1 } (i + 1) ws else n

/-- Second branch, 869-891; `none` is the error "Mismatch". -/
def compareNames (n : Names) : Nat → List String → Option Names
  | _, [] => some n
  | i, w :: ws =>
    match n.names[i]? with
    | none => some n
    | some name =>
      if w ≠ name then
        if atoi name = i ∧ n.fixed ≤ i then
          compareNames { names := n.names.set i (clip w), fixed := n.fixed + 1 } (i + 1) ws
        else none
      else compareNames n (i + 1) ws

/-- `read_chemical_elements`, 850-892. -/
def readElements (n : Names) (ws : List String) : Option Names :=
  if n.fixed = 0 then some (setNames n 0 ws) else compareNames n 0 ws

/-- The names before the first line, 108-115: from the potential file or the numbers of the types. -/
def startNames (ntypes : Nat) (pot : Option (List String)) : Names :=
  match pot with
  | some names => ⟨names, ntypes⟩
  | none => ⟨(List.range ntypes).map fun i => toString i, 0⟩

/-- All lines `#C` of the headers, in the order of the file. -/
def readNames (n : Names) (lines : List (List String)) : Option Names := lines.foldlM readElements n

end Verif.ConfigFile
