/-
C07  Equidistant and general-knot splines agree.
-/
import Verif.Lemmas.SplineEval
import Verif.Props.C05

namespace Verif.Props

open Verif.Splines Verif.Spec

variable {K : Type*} [Field K] [LinearOrder K] [IsStrictOrderedRing K]

/-- For knots `x0, x0 + h, x0 + 2h, …` the general set-up computes the same second derivatives as
the equidistant one (also the same faults). -/
theorem C07_same_second_derivatives (x0 h : K) (hh : h ≠ 0) (y : ℕ → K) (n : ℕ) (hn : 2 ≤ n)
    (yp1 ypn : K) (k : ℕ) :
    splineNe (fun i => x0 + i * h) y n yp1 ypn k = splineEd h y n yp1 ypn k := by
  unfold splineEd splineNe
  rw [edBack_eq_neBack x0 h hh y yp1 ypn n hn]

example : splineNe (fun i => (1 : ℚ) + i * (1 / 2)) (fun k => k * k * k) 3 0 1 1
    = splineEd (1 / 2 : ℚ) (fun k => k * k * k) 3 0 1 1 ∧ (1 / 2 : ℚ) ≠ 0 := by
  refine ⟨by decide +kernel, by norm_num⟩

/-- A column whose abscissae are the equidistant ones is evaluated to the same value and slope by
both families of routines, on the whole half-open range. -/
theorem C07_same_values [FloorSemiring K] (c : Column K) (he : c.EqDist) (hg : c.General)
    (hx : ∀ i, c.first + i ≤ c.last → c.xcoord (c.first + i) = c.beg + i * c.step)
    (xi : ℕ → K) (r : K) (h1 : c.beg ≤ r) (h2 : r < c.fin) :
    splintNe c xi r = splintEd c xi r ∧ splintGradNe c xi r = splintGradEd c xi r ∧
      splintCombNe c xi r = splintCombEd c xi r := by
  obtain ⟨i, hi, ha, hb⟩ := exists_interval he h1 h2
  have e0 := hx i (by omega)
  have e1 := hx (i + 1) (by omega)
  have ha' : c.xcoord (c.first + i) ≤ r := by rw [e0]; exact ha
  have hb' : r < c.xcoord (c.first + i + 1) := by
    rw [show c.first + i + 1 = c.first + (i + 1) by omega, e1]; exact hb
  have hp : pieces (c.vals c.xcoord) (c.vals xi) (c.vals c.d2tab) i
      = pieces c.knot (c.vals xi) (c.vals c.d2tab) i := by
    unfold pieces Column.vals Column.knot
    rw [e0, e1]
  rw [splintNe_eq hg xi hi (Or.inl ha') (Or.inl hb'), splintEd_eq he xi hi ha hb,
    splintGradNe_eq hg xi hi (Or.inl ha') (Or.inl hb'), splintGradEd_eq he xi hi ha hb,
    splintCombNe_eq hg xi hi (Or.inl ha') (Or.inl hb'), splintCombEd_eq he xi hi ha hb, hp]
  exact ⟨rfl, rfl, rfl⟩

example : ∀ i, exampleColumn.first + i ≤ exampleColumn.last →
    exampleColumn.xcoord (exampleColumn.first + i) = exampleColumn.beg + i * exampleColumn.step := by
  intro i hi
  have : i = 0 ∨ i = 1 ∨ i = 2 := by simp [exampleColumn] at hi; omega
  rcases this with rfl | rfl | rfl <;> norm_num [exampleColumn]

end Verif.Props
