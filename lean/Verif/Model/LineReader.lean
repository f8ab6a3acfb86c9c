/-
`src/utils.c` 110-149, `fgets_potfit`: the line reader used for all input files.

A character is its code, a buffer is a list of characters, the C string in it ends before the first 0.
-/
import Mathlib.Data.List.Basic

namespace Verif.LineReader

/-- Codes of `\n` and `\r`. -/
def lf : Nat := 10
def cr : Nat := 13

/-- The C string stored in a buffer. -/
def cstr (b : List Nat) : List Nat := b.takeWhile (· ≠ 0)

/-- `fgets(buffer, len, f)`: at most `n = len - 1` characters up to and including the first line feed; the rest of the file. -/
def fgets : Nat → List Nat → List Nat × List Nat
  | 0, f => ([], f)
  | _, [] => ([], [])
  | n + 1, c :: f => if c = lf then ([c], f) else (c :: (fgets n f).1, (fgets n f).2)

/-- 116-125: whether a carriage return followed by a line feed occurs in the C string (the argument still contains the 0). -/
def hasCrlf : List Nat → Bool
  | c :: d :: l => if c = 0 then false else if c = cr ∧ d = lf then true else hasCrlf (d :: l)
  | _ => false

/-- 115-148, for the buffer filled by `fgets`. `new_p` holds the characters of the string other than carriage returns; `memcpy`
copies `pos` of them, not the terminating 0 (line 143). -/
def convert (b : List Nat) : List Nat :=
  if hasCrlf b then
    let new := (cstr b).filter (· ≠ cr)
    new ++ b.drop new.length
  else b

/-- `fgets_potfit(buffer, len, f)` with old buffer contents `old`: new contents and rest of the file; `none` is `NULL`. -/
def fgetsPotfit (len : Nat) (old f : List Nat) : Option (List Nat × List Nat) :=
  if f = [] ∨ len < 2 then none
  else
    let r := fgets (len - 1) f
    some (convert (r.1 ++ 0 :: old.drop (r.1.length + 1)), r.2)

end Verif.LineReader
