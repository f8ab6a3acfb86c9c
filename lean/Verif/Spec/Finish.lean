/-
What the file written at the end of a fit should contain: every parameter with its value in the final parameter vector.
-/
import Verif.Spec.ApotLayout
import Verif.Model.Finish

namespace Verif.Spec

open Verif.ApotLayout Verif.Finish

variable {K : Type*}

/-- Parameter `j` of potential `i` stands for a global one. -/
def IsRef (refs : List Ref) (i j : Nat) : Prop := ∃ r ∈ refs, r.pot = i ∧ r.par = j

/-- `v` holds the vector `x`: each parameter has the value at its place, those which stand for a global parameter that of the latter. -/
structure Fitted (f : File K) (refs : List Ref) (x : Nat → K) (v : Nat → Nat → K) : Prop where
  own : ∀ n i j p, (cells f)[n]? = some (some (i, j, p)) → ¬ IsRef refs i j → v i j = x n
  glob : ∀ r ∈ refs, ∀ n p, (cells f)[n]? = some (some (globalPot f, r.glob, p)) → v r.pot r.par = x n

/-- References as the reader makes them: a parameter which stands for a global one is not free itself, stands for one global parameter,
and there are no electrostatic parameters (with them references are broken, C70). -/
structure RefsOk (f : File K) (refs : List Ref) : Prop where
  used : refs ≠ [] → f.used = true
  pot : ∀ r ∈ refs, r.pot < f.fns.length
  fixed : ∀ r ∈ refs, ∀ (n : Nat) (v : K), (cells f)[n]? ≠ some (some (r.pot, r.par, (⟨v, false⟩ : Par K)))
  one : ∀ r ∈ refs, ∀ r' ∈ refs, r.pot = r'.pot → r.par = r'.par → r.glob = r'.glob
  known : ∀ r ∈ refs, r.glob < f.globals.length
  noElstat : refs ≠ [] → ∀ d secs, f.extra ≠ .elstat d secs

/-- What is known of a file that has been read. -/
structure Readable (f : File K) (refs : List Ref) : Prop where
  fits : Fits f
  chem : ChemFree f.extra
  secs : ∀ d secs, f.extra = .elstat d secs → secs.length ≤ 5
  refs : RefsOk f refs

/-- The place of a free parameter. -/
def FreePlace (f : File K) (n : Nat) : Prop := ∃ (i j : Nat) (v : K), (cells f)[n]? = some (some (i, j, (⟨v, false⟩ : Par K)))

end Verif.Spec
