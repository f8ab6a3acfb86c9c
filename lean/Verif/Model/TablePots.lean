/-
The functions a force routine sees: what the look-up routines (`src/splines.c`, `Model/SplineInit.lean`) deliver from the values of a table and
the second derivatives.  The routines call them only inside the column (`Model/Force.lean`), where they deliver (C99).
-/
import Verif.Model.SplineInit
import Verif.Model.ForceEam
import Mathlib.Algebra.Order.Archimedean.Real.Basic

namespace Verif.Props

open Verif.Force Verif.SplineInit Verif.Splines

/-- What a look-up delivers. -/
def delivered (o : Option (Except Stop ℝ)) : ℝ :=
  match o with
  | some (.ok v) => v
  | _ => 0

/-- The functions which the look-up routines deliver from values `xi` and second derivatives `d`. -/
noncomputable def tablePots (fmt : Format) (t : Cols ℝ) (xi d : ℕ → ℝ) : Pots ℝ where
  fin := t.fin
  beg := t.beg
  step := t.step
  val col r := delivered (gSplint fmt (t.col d col) xi r)
  grad col r := delivered (gSplintGrad fmt (t.col d col) xi r)

/-- The EAM potential of a table. -/
noncomputable def tableEam (fmt : Format) (t : Cols ℝ) (n : ℕ) (ana : ℕ → ℝ → ℝ × ℝ) (xi d : ℕ → ℝ) : EamPots ℝ :=
  { tablePots fmt t xi d with paircol := n * (n + 1) / 2, ntypes := n, ana := ana }

end Verif.Props
