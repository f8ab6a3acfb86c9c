/-
What a configuration file says: independent of the loops of the reader, a file is cut into pieces, one for each configuration.
-/
import Verif.Model.ConfigFile
import Mathlib.LinearAlgebra.Matrix.Determinant.Basic

namespace Verif.Spec

open Verif.Force (V3)
open Verif.ConfigFile

/-- The lines of one configuration: lines without meaning, the line `#N`, the header, the line `#F`, the table of the atoms. -/
structure Piece (K : Type) where
  before : List (Line K)
  count : Line K
  header : List (Line K)
  last : Line K
  table : List (Line K)

namespace Piece

/-- The lines in the order of the file. -/
def lines {K : Type} (g : Piece K) : List (Line K) := g.before ++ g.count :: (g.header ++ g.last :: g.table)

end Piece

section
variable {K : Type}

/-- The line is an item of the header with this letter, in lower or upper case. -/
def item (lower upper : Char) (l : Line K) : Bool := l.c1 == lower || l.c1 == upper

/-- Item of the contributing region, with the letter of the part. -/
def contribItem (lower upper : Char) (l : Line K) : Bool := item 'b' 'B' l && (l.c3 == lower || l.c3 == upper)

/-- Letters of the box vectors. -/
def edgeItem : Fin 3 → Line K → Bool := ![item 'x' 'X', item 'y' 'Y', item 'z' 'Z']

/-- Letters of origin and edges of the box of contributing atoms. -/
def cboxItem : Fin 4 → Line K → Bool :=
  ![contribItem 'o' 'O', contribItem 'a' 'A', contribItem 'b' 'B', contribItem 'c' 'C']

/-- The last line of the header with property `p`: it overrides the ones before. -/
def lastOf (p : Line K → Bool) (hs : List (Line K)) : Option (Line K) := (hs.filter p).getLast?

end

section
variable {K : Type} [Field K] [LinearOrder K]

/-- The first three numbers, multiplied by the scale of the cell. -/
def IsVec (s : Settings K) (nums : List K) (v : V3 K) : Prop :=
  3 ≤ nums.length ∧ ∀ k : Fin 3, v k = nums.getD k.1 0 * s.scale

/-- Center and radius of a sphere, multiplied by the scale of the cell. -/
def IsSphere (s : Settings K) (nums : List K) (p : V3 K × K) : Prop :=
  4 ≤ nums.length ∧ (∀ k : Fin 3, p.1 k = nums.getD k.1 0 * s.scale) ∧ p.2 = nums.getD 3 0 * s.scale

/-- The line of the table gives the atom: type in the range, scaled position, force. -/
def IsAtom (s : Settings K) (l : Line K) (a : RawAtom K) : Prop :=
  ∃ raw, l.atom = some raw ∧ 0 ≤ a.typ ∧ a.typ < s.ntypes ∧ a.typ = raw.typ ∧ a.force = raw.force ∧
    ∀ k, a.pos k = raw.pos k * s.scale

/-- The lines of a piece have the form needed: numbers are there, no negative weight, not more than one origin. -/
structure WellFormed (s : Settings K) (g : Piece K) : Prop where
  before : ∀ l ∈ g.before, ¬ (l.c0 = '#' ∧ l.c1 = 'N')
  count : g.count.c0 = '#' ∧ g.count.c1 = 'N'
  header : ∀ l ∈ g.header, l.c1 ≠ 'F'
  last : g.last.c1 = 'F'
  edges : ∀ l ∈ g.header, ∀ k, edgeItem k l = true → 3 ≤ l.nums.length
  energies : ∀ l ∈ g.header, item 'e' 'E' l = true → l.nums ≠ []
  weights : ∀ l ∈ g.header, item 'w' 'W' l = true → ∃ x, l.nums.head? = some x ∧ 0 ≤ x
  stresses : s.stress = true → ∀ l ∈ g.header, item 's' 'S' l = true → 6 ≤ l.nums.length
  cboxes : s.contrib = true → ∀ l ∈ g.header, ∀ k, cboxItem k l = true → 3 ≤ l.nums5.length
  origin : s.contrib = true → (g.header.filter (cboxItem 0)).length ≤ 1
  spheres : s.contrib = true → ∀ l ∈ g.header, contribItem 's' 'S' l = true → 4 ≤ l.nums5.length

/-- The configuration is the one described by the piece. -/
structure Describes (s : Settings K) (g : Piece K) (c : Config K) : Prop where
  /-- number of atoms and use of the forces -/
  count : ∃ uf rest, g.count.ints = (c.atoms.length : Int) :: uf :: rest ∧ (c.useForce = true ↔ uf ≠ 0)
  enough : (if s.threebody then 3 else 2) ≤ c.atoms.length
  energy : ∃ l, lastOf (item 'e' 'E') g.header = some l ∧ l.nums.head? = some c.energy
  /-- weight, 1 if there is none -/
  weight : match lastOf (item 'w' 'W') g.header with
    | some l => l.nums.head? = some c.weight
    | none => c.weight = 1
  /-- stresses, if there are any -/
  stress : match if s.stress then lastOf (item 's' 'S') g.header else none with
    | some l => c.useStress = true ∧ ∀ k : Fin 6, l.nums[k.1]? = some (c.stress k)
    | none => c.useStress = false ∧ c.stress = 0
  edge : ∀ k, ∃ l, lastOf (edgeItem k) g.header = some l ∧ IsVec s l.nums (c.edge k)
  volume : c.volume = Matrix.det (Matrix.of c.edge)
  solid : c.volume ≠ 0
  /-- box of contributing atoms: nothing or all four vectors -/
  cbox : match if s.contrib then c.cbox else none with
    | some v => ∀ k, ∃ l, lastOf (cboxItem k) g.header = some l ∧ IsVec s l.nums5 (v k)
    | none => c.cbox = none ∧ (s.contrib = true → ∀ k, lastOf (cboxItem k) g.header = none)
  spheres : List.Forall₂ (fun l p => IsSphere s l.nums5 p)
    (if s.contrib then g.header.filter (contribItem 's' 'S') else []) c.spheres
  /-- atoms: the lines of the table which are not blank -/
  atoms : List.Forall₂ (IsAtom s) (g.table.filter fun l => !l.blank) c.atoms

/-- The first line is not blank (blank lines belong to the table before). -/
def NotBlank (ls : List (Line K)) : Prop := ∀ l, ls.head? = some l → l.blank = false

/-- A file describes a list of configurations: it is cut into pieces without a rest, all lines `#N` have a number, the pieces describe
the configurations, and the last type occurs. -/
structure FileDescribes (s : Settings K) (ls : List (Line K)) (cs : List (Config K)) : Prop where
  counts : ∀ l ∈ ls, l.c0 = '#' → l.c1 = 'N' → l.ints ≠ []
  pieces : ∃ gs : List (Piece K), gs ≠ [] ∧ ls = gs.flatMap Piece.lines ∧ (∀ g ∈ gs, WellFormed s g) ∧
    (∀ g ∈ gs.tail, NotBlank g.lines) ∧ List.Forall₂ (Describes s) gs cs
  types : ∃ c ∈ cs, ∃ a ∈ c.atoms, a.typ + 1 = s.ntypes

end

end Verif.Spec
