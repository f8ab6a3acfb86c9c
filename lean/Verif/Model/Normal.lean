/-
Normally distributed random numbers (random.c 80-104), over the real numbers and for an arbitrary sequence `u` of the numbers delivered by
`eqdist`; `pos` counts the numbers used so far.
-/
import Mathlib.Analysis.SpecialFunctions.Log.Basic
import Mathlib.Analysis.SpecialFunctions.Sqrt

namespace Verif.Normal

/-- The two static variables (lines 83, 84) and the position in the sequence of random numbers. -/
structure St where
  haveNumber : Bool
  nd2 : ℝ
  pos : Nat

/-- The variables at the start of the program, after `pos` random numbers have been used otherwise. -/
def start (pos : Nat) : St := ⟨false, 0, pos⟩

/-- The loop in lines 90-94 with at most `fuel` rounds; nothing if it goes on. -/
noncomputable def polar (u : Nat → ℝ) : Nat → Nat → Option (ℝ × ℝ × Nat)
  | 0, _ => none
  | fuel + 1, pos =>
    let x1 := 2 * u pos - 1
    let x2 := 2 * u (pos + 1) - 1
    let sqr := x1 * x1 + x2 * x2
    if sqr ≥ 1 ∨ sqr = 0 then polar u fuel (pos + 2) else some (x1, x2, pos + 2)

/-- `normdist` (lines 81-105). -/
noncomputable def normdist (u : Nat → ℝ) (fuel : Nat) (s : St) : Option (ℝ × St) :=
  if s.haveNumber = false then
    match polar u fuel s.pos with
    | none => none
    | some (x1, x2, pos) =>
      let sqr := x1 * x1 + x2 * x2
      let cnst := Real.sqrt (-2 * Real.log sqr / sqr)
      some (x1 * cnst, ⟨true, x2 * cnst, pos⟩)
  else some (s.nd2, { s with haveNumber := false })

end Verif.Normal
