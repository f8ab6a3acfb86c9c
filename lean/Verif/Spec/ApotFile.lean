/-
What an analytic potential file looks like and what it says.
-/
import Verif.Model.ApotFile

namespace Verif.Spec

open Verif.ApotFile

variable {K : Type*} [Field K] [LinearOrder K]

/-- A parameter given with value and bounds: it is fixed if the bounds are equal; otherwise they are put in order, and a value outside
of bounds given in order is moved to the nearer one if parameters are fitted. -/
def givenPar (opt : Bool) (v lo hi : K) : Apot.Param K where
  value := if lo < hi ∧ opt = true then max lo (min v hi) else v
  pmin := min lo hi
  pmax := max lo hi
  invar := decide (lo = hi)

/-- A line with a parameter: name, value and bounds, or name of a global parameter with `!`; anything may follow. -/
inductive DocPar
  | own (name v lo hi : String) (rest : List String)
  | ref (name : String) (rest : List String)

def DocPar.words : DocPar → List String
  | .own n v lo hi rest => n :: v :: lo :: hi :: rest
  | .ref n rest => (n ++ "!") :: rest

/-- An analytic potential: lines before it, `type`, `cutoff` with the rest of its line, comments, parameters with comments before
each; `noH` if the parameter of the smooth cutoff is not given. -/
structure DocFn where
  before : List Line
  typ : String
  cut : String
  cutRest : List String
  comments : List Line
  pars : List (List Line × DocPar)
  noH : Bool

def DocFn.lines (d : DocFn) : List Line :=
  d.before ++ [⟨false, ["type", d.typ]⟩, ⟨false, "cutoff" :: d.cut :: d.cutRest⟩] ++ d.comments ++
  d.pars.flatMap fun p => p.1 ++ [⟨false, p.2.words⟩]

/-- What a line says. -/
def DocPar.Means (E : Env K) (gs : List (Entry K)) : DocPar → Entry K → Prop
  | .own n v lo hi _, e => ∃ a b c, E.num v = some a ∧ E.num lo = some b ∧ E.num hi = some c ∧ e = ⟨n, givenPar E.opt a b c, none⟩
  | .ref n _, e => ∃ k g, gs[k]? = some g ∧ g.name = n ∧ e = ⟨n ++ "!", { g.par with invar := true }, some k⟩

/-- Rules for the line: names are shorter than 30 characters, `!` only for references, and no other global parameter begins with the
name of the one referred to. -/
def DocPar.Ok (gs : List (Entry K)) : DocPar → Prop
  | .own n _ _ _ _ => n.length < 30 ∧ '!' ∉ n.toList
  | .ref n _ => n.length < 29 ∧ ∀ (k k' : Nat) (g g' : Entry K), gs[k]? = some g → gs[k']? = some g' → g.name = n →
      n.toList <+: g'.name.toList → k' = k

/-- What the potential says: name, smooth cutoff (name with `_sc`), cutoff radius, parameters, among them the one of the smooth
cutoff. -/
def DocFn.Means (E : Env K) (gs : List (Entry K)) (d : DocFn) (f : Fn K) : Prop :=
  d.typ = (if f.smooth then f.name ++ "_sc" else f.name) ∧ E.num d.cut = some f.cutoff ∧
  ∃ es, List.Forall₂ (fun p e => p.2.Means E gs e) d.pars es ∧
    f.pars = es ++ (if d.noH then [⟨"h", givenPar E.opt 1 (1 / 2) 2, none⟩] else [])

/-- Rules for the potential: a known name, other than `pohlong`, without the ending `_sc` of its own, with as many parameters as the function has, at least one; comments
only where they are allowed: behind `cutoff` and in front of parameters other than the last one; the word `type` only where a
potential begins. -/
def DocFn.Ok (E : Env K) (gs : List (Entry K)) (d : DocFn) (f : Fn K) : Prop :=
  (∀ l ∈ d.before, "type" ∉ l.words) ∧ f.name ≠ "pohlong" ∧ ¬ "_sc".toList <:+ f.name.toList ∧
  (∃ n, E.npar f.name = some n ∧ d.pars.length = (if f.smooth ∧ d.noH = false then n + 1 else n)) ∧ (d.noH = true → f.smooth = true) ∧
  d.pars ≠ [] ∧
  (∀ l ∈ d.comments, l.hash = true) ∧ (∀ p ∈ d.pars, (∀ l ∈ p.1, l.hash = true) ∧ p.2.Ok gs) ∧
  (d.noH = false → ∀ p, d.pars.getLast? = some p → p.1 = [])

/-- Behind a potential without parameter of its smooth cutoff there is an empty line or the next potential. -/
def Ends : List Line → Prop
  | [] => False
  | l :: _ => l.words = [] ∨ ∃ w, l.words = ["type", w]

/-- A list of potentials, then other lines. -/
def FnsOk (E : Env K) (gs : List (Entry K)) (post : List Line) : List DocFn → List (Fn K) → Prop
  | [], [] => True
  | d :: ds, f :: fs => d.Ok E gs f ∧ d.Means E gs f ∧ (d.noH = true → Ends (ds.flatMap DocFn.lines ++ post)) ∧ FnsOk E gs post ds fs
  | _, _ => False

/-- A line with name, value and bounds. -/
def entryLine (g : String × String × String × String) : Line := ⟨false, [g.1, g.2.1, g.2.2.1, g.2.2.2]⟩

/-- The section of global parameters. -/
def globalLines (count : String) (gs : List (String × String × String × String)) : List Line :=
  ⟨false, ["global", count]⟩ :: gs.map entryLine

/-- What the section says. -/
def GlobalMeans (E : Env K) (g : String × String × String × String) (e : Entry K) : Prop :=
  ∃ a b c, E.num g.2.1 = some a ∧ E.num g.2.2.1 = some b ∧ E.num g.2.2.2 = some c ∧ e = ⟨g.1, givenPar E.opt a b c, none⟩

/-- A parameter taken as it is given: fixed if the bounds are equal. -/
def AsGiven (E : Env K) (g : String × String × String × String) (e : Entry K) : Prop :=
  ∃ a b c, E.num g.2.1 = some a ∧ E.num g.2.2.1 = some b ∧ E.num g.2.2.2 = some c ∧ e = ⟨g.1, ⟨a, b, c, decide (b = c)⟩, none⟩

end Verif.Spec
