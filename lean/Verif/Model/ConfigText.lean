/-
Configuration files as text: the part of `read_config` (`src/config.c` 89-457) and `create_memory_for_configs` (742-766) which turns
characters into lines and numbers.  What is done with them is in `Model/ConfigFile.lean`.

Simplifications:
* A text has no carriage returns and no zero bytes (for carriage returns see C37).
* `int` is `Int` without overflow.
* `%lf` is an arbitrary function of the word at the current position (`Scan`); words contain no blank space.
* The element names are left out as in `Model/ConfigFile.lean`.
* `res + 3` of a line with less than three characters points behind the string.  This happens only for lines without meaning and for
  lines in front of the end of the file, where the run ends with an error in any case.
-/
import Verif.Model.ConfigFile

namespace Verif.ConfigText

open Verif.Force (V3)
open Verif.ConfigFile

/-- `isspace`. -/
def isSpace (c : Char) : Bool := c == ' ' || c == '\t' || c == '\n' || c == '\x0b' || c == '\x0c' || c == '\r'

/-- A white space in a format of `scanf`. -/
def skip (t : List Char) : List Char := t.dropWhile isSpace

/-- The word at the beginning of a text. -/
def word (t : List Char) : List Char := t.takeWhile fun c => !isSpace c

/-- The words of a text. -/
def tokens (t : List Char) : List (List Char) := (t.splitOnP isSpace).filter fun w => w ≠ []

/-- Value of a row of digits. -/
def digitsValue (w : List Char) : Nat := w.foldl (fun n c => 10 * n + (c.toNat - 48)) 0

/-- Sign at the beginning of a word: whether there is a minus, number of characters. -/
def sign (w : List Char) : Bool × Nat :=
  match w with
  | '-' :: _ => (true, 1)
  | '+' :: _ => (false, 1)
  | _ => (false, 0)

/-- `%d` at the beginning of a word: value and number of characters used. -/
def intPrefix (w : List Char) : Option (Int × Nat) :=
  let d := (w.drop (sign w).2).takeWhile Char.isDigit
  if d = [] then none
  else some (if (sign w).1 then -(digitsValue d : Int) else digitsValue d, (sign w).2 + d.length)

/-- `%lf`: value found at the beginning of a word and number of characters used. -/
abbrev Scan (K : Type) := List Char → Option (K × Nat)

/-- Conversion of the next word by `f`: value and rest of the text. -/
def convertNext {A : Type} (f : List Char → Option (A × Nat)) (t : List Char) : Option (A × List Char) :=
  match f (word (skip t)) with
  | none => none
  | some (x, n) => some (x, (skip t).drop (min n (word (skip t)).length))

/-- Up to `n` conversions. -/
def convertAll {A : Type} (f : List Char → Option (A × Nat)) : Nat → List Char → List A
  | 0, _ => []
  | n + 1, t => match convertNext f t with
    | none => []
    | some (x, t') => x :: convertAll f n t'

/-- `fgets(buffer, n + 1, file)`: the line, the rest of the text, and whether the end of the file was met. -/
def getLine : Nat → List Char → List Char × List Char × Bool
  | 0, t => ([], t, false)
  | _ + 1, [] => ([], [], true)
  | n + 1, c :: t => if c = '\n' then ([c], t, false) else (c :: (getLine n t).1, (getLine n t).2)

/-- The size of `buffer` is 1024, 92. -/
def lineMax : Nat := 1023

section
variable {K : Type} [Field K] [LinearOrder K]

/-- A line of the table of atoms: seven words, all of them numbers. -/
def atomOf (S : Scan K) (l : List Char) : Option (RawAtom K) :=
  match tokens l with
  | [w0, w1, w2, w3, w4, w5, w6] =>
    match intPrefix w0, S w1, S w2, S w3, S w4, S w5, S w6 with
    | some (t, n0), some (x, n1), some (y, n2), some (z, n3), some (a, n4), some (b, n5), some (c, n6) =>
      if n0 = w0.length ∧ n1 = w1.length ∧ n2 = w2.length ∧ n3 = w3.length ∧ n4 = w4.length ∧ n5 = w5.length ∧ n6 = w6.length then
        some ⟨t, ![x, y, z], ![a, b, c]⟩
      else none
    | _, _, _, _, _, _, _ => none
  | _ => none

/-- What is found in a line (without its line feed). -/
def lineOf (S : Scan K) (l : List Char) : Line K where
  c0 := l.getD 0 '\x00'
  c1 := l.getD 1 '\x00'
  c3 := l.getD 3 '\x00'
  ints := convertAll intPrefix 2 (l.drop 3)
  nums := convertAll S 6 (l.drop 3)
  nums5 := convertAll S 6 (l.drop 5)
  words := (((l.drop 3).splitOnP fun c => c == ' ' || c == '\t' || c == '\r' || c == '\n').filter fun w => w ≠ []).map String.ofList
  atom := atomOf S l
  blank := l.all isSpace

/-- The line in the buffer without its line feed. -/
def chop (l : List Char) : List Char := l.takeWhile fun c => c ≠ '\n'

/-- The seven conversions of `fscanf`, 324-326, with the white space at the end of the format. -/
def scanAtom (S : Scan K) (t : List Char) : Option (RawAtom K × List Char) :=
  match convertNext intPrefix t with
  | none => none
  | some (n, t) => match convertNext S t with
    | none => none
    | some (x, t) => match convertNext S t with
      | none => none
      | some (y, t) => match convertNext S t with
        | none => none
        | some (z, t) => match convertNext S t with
          | none => none
          | some (a, t) => match convertNext S t with
            | none => none
            | some (b, t) => match convertNext S t with
              | none => none
              | some (c, t) => some (⟨n, ![x, y, z], ![a, b, c]⟩, skip t)

/-- The loop over the atoms, 321-341. -/
def atomsText (s : Settings K) (S : Scan K) : Nat → List Char → Except Err (List (RawAtom K) × List Char)
  | 0, t => .ok ([], t)
  | n + 1, t => match scanAtom S t with
    | none => .error .corrupt
    | some (a, t') =>
      if a.typ ≥ s.ntypes ∨ a.typ < 0 then .error .atomType
      else match atomsText s S n t' with
        | .error e => .error e
        | .ok (as, t'') => .ok ({ a with pos := fun k => scaled s (a.pos k) } :: as, t'')

/-- The loop over the lines of the header, 173-293; every line takes a character, so `fuel` is not exhausted if it is larger than the
number of characters. -/
def headerText (s : Settings K) (S : Scan K) : Nat → Header K → List Char → Except Err (Header K × List Char)
  | 0, _, _ => .error .incompleteHeader
  | fuel + 1, h, t =>
    if (getLine lineMax t).2.2 = true then .error .incompleteHeader
    else match headerLine s h (lineOf S (chop (getLine lineMax t).1)) with
      | .error e => .error e
      | .ok h' =>
        if (lineOf S (chop (getLine lineMax t).1)).c1 = 'F' then .ok (h', (getLine lineMax t).2.1)
        else headerText s S fuel h' (getLine lineMax t).2.1

/-- A configuration whose first line is `l`, 147-358; `t` is the text behind this line. -/
def confText (s : Settings K) (S : Scan K) (l : Line K) (t : List Char) : Except Err (Config K × List Char) :=
  match l.ints with
  | n :: uf :: _ =>
    if n < minAtoms s then .error .fewAtoms
    else match headerText s S (t.length + 1) emptyHeader t with
      | .error e => .error e
      | .ok (h, rest) => match checkHeader s h with
        | .error e => .error e
        | .ok volume => match atomsText s S n.toNat rest with
          | .error e => .error e
          | .ok (as, rest') => .ok (
            { useForce := uf ≠ 0
              energy := h.energy
              weight := h.weight
              useStress := h.haveStress
              stress := h.stress
              edge := h.edge
              volume := volume
              cbox := if h.haveCbox 0 = true then some h.cbox else none
              spheres := h.spheres
              atoms := as }, rest')
  | _ => .error .count

/-- The loop over the configurations, 138-370.  `feof` is true after the table of the atoms if nothing is left, and after a line which
ends with the file instead of a line feed. -/
def confsText (s : Settings K) (S : Scan K) : Nat → List Char → Except Err (List (Config K))
  | 0, _ => .error .endOfFile
  | fuel + 1, t =>
    if t = [] then .error .endOfFile
    else if isCount (lineOf S (chop (getLine lineMax t).1)) = true then
      match confText s S (lineOf S (chop (getLine lineMax t).1)) (getLine lineMax t).2.1 with
      | .error e => .error e
      | .ok (c, []) => .ok [c]
      | .ok (c, t') => match confsText s S fuel t' with
        | .error e => .error e
        | .ok cs => .ok (c :: cs)
    else if (getLine lineMax t).2.2 = true then .ok []
    else confsText s S fuel (getLine lineMax t).2.1

/-- `create_memory_for_configs`, 742-766. -/
def memoryText (S : Scan K) : Nat → List Char → Except Err (Nat × Int)
  | 0, _ => .ok (0, 0)
  | fuel + 1, t =>
    if (getLine lineMax t).2.2 = true then .ok (0, 0)
    else if isCount (lineOf S (chop (getLine lineMax t).1)) = true then
      match (lineOf S (chop (getLine lineMax t).1)).ints with
      | [] => .error .memoryCount
      | n :: _ => match memoryText S fuel (getLine lineMax t).2.1 with
        | .error e => .error e
        | .ok (confs, atoms) => .ok (confs + 1, atoms + n)
    else memoryText S fuel (getLine lineMax t).2.1

/-- `read_config`, 132-399. -/
def readText (s : Settings K) (S : Scan K) (t : List Char) : Except Err (List (Config K)) :=
  match memoryText S (t.length + 1) t with
  | .error e => .error e
  | .ok _ => match confsText s S (t.length + 1) t with
    | .error e => .error e
    | .ok cs => if maxType cs + 1 < s.ntypes then .error .fewTypes else .ok cs

/-- `%lf` for decimal numbers (without hexadecimal numbers, `inf` and `nan`): digits, point, digits, exponent. -/
def decimal : Scan K := fun w =>
  let u := w.drop (sign w).2
  let a := u.takeWhile Char.isDigit
  let v := u.drop a.length
  let point := v.head? = some '.'
  let b := if point then v.tail.takeWhile Char.isDigit else []
  if a = [] ∧ b = [] then none
  else
    let len := (sign w).2 + a.length + (if point then 1 + b.length else 0)
    let m : K := (if (sign w).1 then -1 else 1) * (digitsValue (a ++ b) : K) / 10 ^ b.length
    match w.drop len with
    | e :: x =>
      let d := (x.drop (sign x).2).takeWhile Char.isDigit
      if (e = 'e' ∨ e = 'E') ∧ d ≠ [] then
        some (if (sign x).1 then m / 10 ^ digitsValue d else m * 10 ^ digitsValue d, len + 1 + (sign x).2 + d.length)
      else some (m, len)
    | [] => some (m, len)

end

end Verif.ConfigText
