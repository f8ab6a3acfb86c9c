/-
Files of tabulated potentials: reading (`src/potential_input.c` 67-352, `src/potential_input_f3.c`, `src/potential_input_f4.c`) and
writing (`src/potential_output.c` 50-68, 268-376, 383-483).
Simplifications: a file is a list of header lines followed by the words of the body (the readers use `fscanf`, for which blank
space does not matter; the writers separate words by blank space); `%.16e` prints a double so that `%lf` reads the same double, so
words are numbers; `atoi`/`%d` of header lines are numbers already; negative flags and counts are not represented.
-/
import Verif.Model.TableRead
import Mathlib.Algebra.Field.Defs
import Mathlib.Algebra.Order.Field.Basic
import Mathlib.Data.List.GetD

namespace Verif.PotFile

open Verif.TableRead

/-- `error(1, ...)` of the readers, and outcomes which are no errors for the program: `divZero` a division by zero,
`outOfRange` access behind the end of `nvals`, `begin`, ... -/
inductive Err
  | header
  | premature
  | abscissa
  | gauge
  | divZero
  | outOfRange
  deriving DecidableEq

/-- A line of the header; `comment` is `##`. -/
inductive HLine
  | F (format : Nat) (n : Nat)
  | T (name : String)
  | C (names : List String)
  | I (flags : List Nat)
  | G (flags : List Nat)
  | comment
  deriving DecidableEq

/-- A word of the body. -/
inductive Tok (K : Type)
  | int (n : Nat)
  | num (x : K)
  deriving DecidableEq

/-- A file; the line `#E` stands between the two parts. -/
structure File (K : Type) where
  header : List HLine
  body : List (Tok K)

/-- `g_pot.opt_pot` and the header information, `src/types.h` 210-240, 515-530. `invstep` is `1 / step` and not represented,
`d2tab` is computed before each use. -/
structure State (K : Type) where
  format : Nat
  elements : Option (List String)
  gradient : List Nat
  invar : List Nat
  haveInvar : Bool
  beg : List K
  fin : List K
  step : List K
  first : List Nat
  last : List Nat
  len : Nat
  table : List K
  xcoord : List K
  idx : List Nat

/-- What a reader knows about the columns of one kind: slopes without `#G` line (`src/potential_input_f3.c` 114-117), whether the
density 1 must be in the range (184-191, 209-215 of f4; never with RESCALE), which points are free (see `ColSpec`). -/
structure Kind (K : Type) where
  d0 : K
  d1 : K
  gauge : Bool
  keepLast : Bool
  skipFirst : Bool

section
variable {K : Type} [Field K] [LinearOrder K]

/-- Pair, transfer and ADP dipole functions, f3 114-137, 152-175, 302-325; f4 115-143, 169-197, 266-294. -/
def kPair : Kind K := ⟨10 ^ 30, 0, false, false, false⟩

/-- Embedding functions, f3 180-219; f4 203-240. -/
def kEmb (rescale : Bool) : Kind K := ⟨10 ^ 30, 10 ^ 30, !rescale, true, false⟩

/-- s-band embedding functions of format 3, f3 255-289: no test of the range. -/
def kEmbS : Kind K := ⟨10 ^ 30, 10 ^ 30, false, true, false⟩

/-- ADP quadrupole functions: in format 3 the last point is fixed (f3 356), in format 4 it is free (f4 329). -/
def kQuad (keepLast : Bool) : Kind K := ⟨10 ^ 30, 10 ^ 30, false, keepLast, false⟩

/-- MEAM `f`: the first point of the first column is fixed, f3 396-399. -/
def kF (isFirst : Bool) : Kind K := ⟨10 ^ 30, 0, false, false, isFirst⟩

/-- MEAM `g`, f3 410-445. -/
def kG : Kind K := ⟨0, 0, false, true, false⟩

/-- Interactions for which tabulated potentials can be chosen, `wscript` 53-100 (those with charges have the tables of `pair`
and `eam`). -/
inductive Variant
  | pair | eam | tbeam | adp | meam | ang
  deriving DecidableEq

/-- `g_calc.paircol`, `src/potential_input.c` 76. -/
def paircol (n : Nat) : Nat := n * (n + 1) / 2

/-- `npots`, `src/potential_input.c` 199-229. -/
def npots : Variant → Nat → Nat
  | .pair, n => paircol n
  | .eam, n => paircol n + 2 * n
  | .tbeam, n => paircol n + 2 * n + 2 * n
  | .adp, n => 3 * paircol n + 2 * n
  | .meam, n => 2 * paircol n + 3 * n
  | .ang, n => 2 * paircol n + n

/-- The columns read by `read_pot_table3`, f3 107-447. -/
def kinds3 (rescale : Bool) : Variant → Nat → List (Kind K)
  | .pair, n => List.replicate (paircol n) kPair
  | .eam, n => List.replicate (paircol n) kPair ++ (List.replicate n kPair ++ List.replicate n (kEmb rescale))
  | .tbeam, n => List.replicate (paircol n) kPair ++ (List.replicate n kPair ++ List.replicate n (kEmb rescale)) ++
      (List.replicate n kPair ++ List.replicate n kEmbS)
  | .adp, n => List.replicate (paircol n) kPair ++ (List.replicate n kPair ++ List.replicate n (kEmb rescale)) ++
      (List.replicate (paircol n) kPair ++ List.replicate (paircol n) (kQuad false))
  | .meam, n => List.replicate (paircol n) kPair ++ (List.replicate n kPair ++ List.replicate n (kEmb rescale)) ++
      ((List.range (paircol n)).map (fun i => kF (i == 0)) ++ List.replicate n kG)
  | .ang, n => List.replicate (paircol n) kPair

/-- The columns read by `read_pot_table4`, f4 109-337. -/
def kinds4 (rescale : Bool) : Variant → Nat → List (Kind K)
  | .pair, n => List.replicate (paircol n) kPair
  | .eam, n => List.replicate (paircol n) kPair ++ (List.replicate n kPair ++ List.replicate n (kEmb rescale))
  | .tbeam, n => List.replicate (paircol n) kPair ++
      (List.replicate (if n = 1 then n + 1 else n * (n + 1) / 2) kPair ++ List.replicate (2 * n) (kEmb rescale))
  | .adp, n => List.replicate (paircol n) kPair ++ (List.replicate n kPair ++ List.replicate n (kEmb rescale)) ++
      (List.replicate (paircol n) kPair ++ List.replicate (paircol n) (kQuad true))
  | .meam, n => List.replicate (paircol n) kPair
  | .ang, n => List.replicate (paircol n) kPair

/-! ### The header -/

/-- What the header lines set. `fmt` is `none` until a line `#F` was read; `haveGradient` belongs to `potential_state`. -/
structure Head where
  fmt : Option (Nat × Nat)
  elements : Option (List String)
  gradient : List Nat
  invar : List Nat
  haveInvar : Bool
  haveGradient : Bool

/-- One line of the header for a binary for tabulated potentials, `src/potential_input.c` 93-129 and the functions called there
(150-384). `Malloc` returns zeroed memory. -/
def readLine (name : String) (ntypes np : Nat) (h : Head) : HLine → Except Err Head
  | .F format n =>
    if format ≠ 3 ∧ format ≠ 4 then .error .header
    else if n ≠ np then .error .header
    else .ok { h with fmt := some (format, n), gradient := List.replicate np 0, invar := List.replicate np 0 }
  | .T s => if s = name then .ok h else .error .header
  | .C names =>
    if h.fmt = none ∨ names.length < ntypes then .error .header
    else .ok { h with elements := some ((names.take ntypes).map fun s => String.ofList (s.toList.take 14)) }
  | .I flags =>
    if h.fmt = none ∨ flags.length < np then .error .header
    else .ok { h with invar := flags.take np, haveInvar := (flags.take np).any (· == 1) }
  | .G flags =>
    if h.fmt = none ∨ flags.length < np then .error .header
    else .ok { h with gradient := flags.take np, haveGradient := true }
  | .comment => .ok h

/-- The header loop, `src/potential_input.c` 87-133. -/
def readHeader (name : String) (ntypes np : Nat) (lines : List HLine) : Except Err Head :=
  lines.foldlM (readLine name ntypes np) ⟨none, none, [], [], false, false⟩

/-! ### The body -/

/-- `fscanf` with `%lf`. -/
def getNum : List (Tok K) → Except Err (K × List (Tok K))
  | .num x :: ts => .ok (x, ts)
  | .int n :: ts => .ok ((n : K), ts)
  | [] => .error .premature

/-- `fscanf` with `%d`. (A number with a decimal point would be read up to the point; that is not followed further.) -/
def getInt : List (Tok K) → Except Err (Nat × List (Tok K))
  | .int n :: ts => .ok (n, ts)
  | _ => .error .premature

/-- Information block of format 3, f3 75-91: `begin`, `end`, `nvals`, `step`. -/
def readInfo3 : Nat → List (Tok K) → Except Err (List (K × K × Nat × K) × List (Tok K))
  | 0, ts => .ok ([], ts)
  | n + 1, ts => do
    let (b, ts) ← getNum ts
    let (e, ts) ← getNum ts
    let (m, ts) ← getInt ts
    if (m : K) - 1 = 0 then .error .divZero
    else
      let (l, ts) ← readInfo3 n ts
      .ok ((b, e, m, (e - b) / ((m : K) - 1)) :: l, ts)

/-- Information block of format 4, f4 78-90. -/
def readInfo4 : Nat → List (Tok K) → Except Err (List Nat × List (Tok K))
  | 0, ts => .ok ([], ts)
  | n + 1, ts => do
    let (m, ts) ← getInt ts
    let (l, ts) ← readInfo4 n ts
    .ok (m :: l, ts)

/-- The slopes of a column, f3 109-117. -/
def readSlopes (haveGradient : Bool) (k : Kind K) (ts : List (Tok K)) : Except Err ((K × K) × List (Tok K)) :=
  if haveGradient then do
    let (a, ts) ← getNum ts
    let (b, ts) ← getNum ts
    .ok ((a, b), ts)
  else .ok ((k.d0, k.d1), ts)

/-- The values of a column of format 3, f3 127-136. -/
def readVals : Nat → List (Tok K) → Except Err (List K × List (Tok K))
  | 0, ts => .ok ([], ts)
  | n + 1, ts => do
    let (y, ts) ← getNum ts
    let (l, ts) ← readVals n ts
    .ok (y :: l, ts)

/-- The test of the abscissa, f4 135: from the second point on, compare with the point before. -/
def notBeyond (prev : Option K) (x : K) : Bool :=
  match prev with
  | some p => decide (x ≤ p)
  | none => false

/-- The points of a column of format 4, f4 127-141; `prev` the last abscissa. -/
def readPoints : Nat → Option K → List (Tok K) → Except Err (List (K × K) × List (Tok K))
  | 0, _, ts => .ok ([], ts)
  | n + 1, prev, ts => do
    let (x, ts) ← getNum ts
    let (y, ts) ← getNum ts
    if notBeyond prev x then .error .abscissa
    else
      let (l, ts) ← readPoints n (some x) ts
      .ok ((x, y) :: l, ts)

/-- The data of format 3: entries of `table` and `xcoord`, f3 107-447. -/
def readData3 (haveGradient : Bool) : List (Kind K) → List (K × K × Nat × K) → List (Tok K) → Except Err (List K × List K)
  | [], _, _ => .ok ([], [])
  | _ :: _, [], _ => .error .outOfRange
  | k :: ks, (b, e, m, s) :: info, ts =>
    if k.gauge ∧ (1 < b ∨ e < 1) then .error .gauge
    else do
      let ((g0, g1), ts) ← readSlopes haveGradient k ts
      let (ys, ts) ← readVals m ts
      let (t, x) ← readData3 haveGradient ks info ts
      .ok (g0 :: g1 :: (ys ++ t), 0 :: 0 :: ((List.range m).map (fun j : Nat => b + (j : K) * s) ++ x))

/-- The data of format 4: entries of `table` and `xcoord`, and `begin`, `end`, `step` of the columns, f4 109-337. -/
def readData4 (haveGradient : Bool) : List (Kind K) → List Nat → List (Tok K) →
    Except Err (List K × List K × List (K × K × K))
  | [], _, _ => .ok ([], [], [])
  | _ :: _, [], _ => .error .outOfRange
  | k :: ks, m :: info, ts => do
    let ((g0, g1), ts) ← readSlopes haveGradient k ts
    let (ps, ts) ← readPoints m none ts
    match ps.head?, ps.getLast? with
    | some p, some q =>
      if k.gauge ∧ (1 < p.1 ∨ q.1 < 1) then .error .gauge
      else if (m : K) - 1 = 0 then .error .divZero
      else do
        let (t, x, i) ← readData4 haveGradient ks info ts
        .ok (g0 :: g1 :: (ps.map Prod.snd ++ t), 0 :: 0 :: (ps.map Prod.fst ++ x), (p.1, q.1, (q.1 - p.1) / ((m : K) - 1)) :: i)
    | _, _ => .error .outOfRange

/-- What `idx` is built from: the columns of the data loops. -/
def specs (ks : List (Kind K)) (ns gradient invar : List Nat) : List ColSpec :=
  (List.range ks.length).map fun i =>
    ⟨ns.getD i 0, invar.getD i 0 != 0, gradient.getD i 0, (ks[i]?.map Kind.keepLast).getD false,
      (ks[i]?.map Kind.skipFirst).getD false⟩

/-- Columns for `first` and `last`, which depend on the numbers of points only. -/
def sized (ns : List Nat) : List ColSpec := ns.map fun n => ⟨n, false, 0, false, false⟩

/-- Zeroed memory behind the entries set. -/
def pad (n : Nat) (l : List K) : List K := l ++ List.replicate (n - l.length) 0

/-- `read_pot_table`, `src/potential_input.c` 67-165, for a binary for tabulated potentials. -/
def readPot (v : Variant) (rescale : Bool) (name : String) (ntypes : Nat) (f : File K) : Except Err (State K) := do
  let np := npots v ntypes
  let h ← readHeader name ntypes np f.header
  match h.fmt with
  | none => .error .header
  | some (fmt, n) =>
    if fmt = 3 then
      let (info, ts) ← readInfo3 n f.body
      let ns := info.map fun i => i.2.2.1
      let (t, x) ← readData3 h.haveGradient (kinds3 rescale v ntypes) info ts
      let len := tableLen (sized ns)
      .ok ⟨3, h.elements, h.gradient, h.invar, h.haveInvar, info.map (·.1), info.map (·.2.1), info.map (·.2.2.2),
        (layout (sized ns)).map Prod.fst, (layout (sized ns)).map Prod.snd, len, pad len t, pad len x,
        idxList (specs (kinds3 (K := K) rescale v ntypes) ns h.gradient h.invar)⟩
    else
      let (ns, ts) ← readInfo4 n f.body
      let (t, x, info) ← readData4 h.haveGradient (kinds4 rescale v ntypes) ns ts
      let len := tableLen (sized ns)
      .ok ⟨4, h.elements, h.gradient, h.invar, h.haveInvar, pad n (info.map (·.1)), pad n (info.map (·.2.1)),
        pad n (info.map (·.2.2)),
        (layout (sized ns)).map Prod.fst, (layout (sized ns)).map Prod.snd, len, pad len t, pad len x,
        idxList (specs (kinds4 (K := K) rescale v ntypes) ns h.gradient h.invar)⟩

/-! ### Writing -/

/-- The header, `src/potential_output.c` 291-342 and 406-456. -/
def writeHeader (name : String) (fmt : Nat) (s : State K) : List HLine :=
  [.F fmt s.first.length, .T name] ++
  (match s.elements with | some es => [.C es, .comment] | none => []) ++
  (if s.haveInvar then [.I s.invar] else []) ++ [.G s.gradient]

/-- `write_pot_table3`, `src/potential_output.c` 268-376. -/
def write3 (name : String) (s : State K) : File K :=
  ⟨writeHeader name 3 s,
   (List.range s.first.length).flatMap (fun i =>
     [Tok.num (s.beg.getD i 0), .num (s.fin.getD i 0), .int (s.last.getD i 0 + 1 - s.first.getD i 0)]) ++
   (List.range s.first.length).flatMap (fun i =>
     [Tok.num (s.table.getD (s.first.getD i 0 - 2) 0), .num (s.table.getD (s.first.getD i 0 - 1) 0)] ++
     (List.range (s.last.getD i 0 + 1 - s.first.getD i 0)).map fun j => .num (s.table.getD (s.first.getD i 0 + j) 0))⟩

/-- `write_pot_table4`, `src/potential_output.c` 383-483. -/
def write4 (name : String) (s : State K) : File K :=
  ⟨writeHeader name 4 s,
   (List.range s.first.length).flatMap (fun i => [Tok.int (s.last.getD i 0 + 1 - s.first.getD i 0)]) ++
   (List.range s.first.length).flatMap (fun i =>
     [Tok.num (s.table.getD (s.first.getD i 0 - 2) 0), .num (s.table.getD (s.first.getD i 0 - 1) 0)] ++
     (List.range (s.last.getD i 0 + 1 - s.first.getD i 0)).flatMap fun j =>
       [.num (s.xcoord.getD (s.first.getD i 0 + j) 0), .num (s.table.getD (s.first.getD i 0 + j) 0)])⟩

end

/-! ### Which writer is called -/

/-- `POTENTIAL_FORMAT`, `src/types.h` 42-48. -/
inductive Format
  | analytic | eqDist | nonEqDist | kim | unknown
  deriving DecidableEq

/-- Outcome of `write_pot_table_potfit`: the writers called one after the other, each of which begins by truncating the file, or the
end of the program. -/
inductive Calls
  | writers (l : List Nat)
  | exit
  deriving DecidableEq

/-- `write_pot_table_potfit`, `src/potential_output.c` 50-68: there is no `break` behind the writer of format 3; `error(1, ...)` ends
the program. -/
def dispatch : Format → Calls
  | .unknown => .exit
  | .analytic => .writers [0]
  | .eqDist => .writers [3, 4]
  | .nonEqDist => .writers [4]
  | .kim => .writers [5]

/-- Number in the line `#F` written by each writer, `src/potential_output.c` 89, 291, 406, 499. -/
def headerNumber : Nat → Nat
  | 0 => 0
  | 3 => 3
  | 4 => 4
  | _ => 5

/-- Format number in the file after the call; `none` if the program has ended. Every writer opens the file with `"w"` (84, 279, 394,
494), so only the output of the last one remains. -/
def formatInFile (c : Calls) : Option Nat :=
  match c with
  | .exit => none
  | .writers l => l.foldl (fun _ w => some (headerNumber w)) none

/-- The content of the file after `write_pot_table_potfit` for tabulated potentials. -/
def writePot {K : Type} [Field K] [LinearOrder K] (name : String) (s : State K) : Option (File K) :=
  match dispatch (if s.format = 3 then .eqDist else .nonEqDist) with
  | .exit => none
  | .writers l => l.foldl (fun _ w => some (if w = 3 then write3 name s else write4 name s)) none

end Verif.PotFile
