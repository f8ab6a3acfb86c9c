/-
C05  Spline evaluation interpolates the samples and value/slope routines agree.
-/
import Verif.Lemmas.SplineEval
import Mathlib.Data.Rat.Floor
import Mathlib.Algebra.Order.Ring.Rat
import Mathlib.Tactic.NormNum

namespace Verif.Props

open Verif.Splines Verif.Spec Polynomial

variable {K : Type*} [Field K] [LinearOrder K] [IsStrictOrderedRing K]

/-- Equidistant columns, any stored second derivatives: on each interval between two knots there is
one cubic polynomial with the tabulated values (and stored second derivatives) at the two knots such
that the value routine returns the polynomial, the slope routine its derivative and the combined
routine both. -/
theorem C05_equidistant [FloorSemiring K] (c : Column K) (h : c.EqDist) (xi : ℕ → K) :
    ∃ p : ℕ → K[X],
      IsPiecewiseCubic (fun i => c.beg + i * c.step) (fun i => xi (c.first + i))
        (fun i => c.d2tab (c.first + i)) (c.last - c.first + 1) p ∧
      ∀ i, c.first + i < c.last → ∀ r, c.beg + i * c.step ≤ r → r < c.beg + (i + 1 : ℕ) * c.step →
        splintEd c xi r = .ok ((p i).eval r) ∧
        splintGradEd c xi r = .ok ((derivative (p i)).eval r) ∧
        splintCombEd c xi r = .ok ((p i).eval r, (derivative (p i)).eval r) := by
  refine ⟨pieces c.knot (c.vals xi) (c.vals c.d2tab), pieces_cubic _ _ _ _ ?_, ?_⟩
  · intro k _ hk
    have h1 := knot_succ_sub c k
    have h2 := h.step_pos
    unfold Column.knot at h1
    have hk' : c.beg + (k : K) * c.step = c.beg + ((k + 1 : ℕ) : K) * c.step := hk
    rw [← hk'] at h1
    simp at h1
    linarith
  · intro i hi r h1 h2
    exact ⟨splintEd_eq h xi hi h1 h2, splintGradEd_eq h xi hi h1 h2, splintCombEd_eq h xi hi h1 h2⟩

/-- At a knot of the half-open range the look-up returns the tabulated value. -/
theorem C05_equidistant_knot [FloorSemiring K] (c : Column K) (h : c.EqDist) (xi : ℕ → K) (i : ℕ)
    (hi : c.first + i < c.last) :
    splintEd c xi (c.beg + i * c.step) = .ok (xi (c.first + i)) := by
  obtain ⟨p, hp, he⟩ := C05_equidistant c h xi
  have hs := h.step_pos
  have := (he i hi (c.beg + i * c.step) le_rfl (by push_cast; linarith)).1
  rw [this, hp.interp_left i (by omega)]

/-- Every argument of `[begin, end)` lies in one of these intervals, so the three routines succeed
there and agree with each other. -/
theorem C05_equidistant_agree [FloorSemiring K] (c : Column K) (h : c.EqDist) (xi : ℕ → K) (r : K)
    (h1 : c.beg ≤ r) (h2 : r < c.fin) :
    ∃ v g, splintEd c xi r = .ok v ∧ splintGradEd c xi r = .ok g ∧
      splintCombEd c xi r = .ok (v, g) := by
  obtain ⟨p, _, he⟩ := C05_equidistant c h xi
  obtain ⟨i, hi, ha, hb⟩ := exists_interval h h1 h2
  exact ⟨_, _, he i hi r ha hb⟩

/-- A column of three points at `1, 3/2, 2`. -/
def exampleColumn : Column ℚ where
  beg := 1
  fin := 2
  step := 1 / 2
  invstep := 2
  first := 2
  last := 4
  xcoord := fun k => if k = 2 then 1 else if k = 3 then 3 / 2 else 2
  d2tab := fun k => k

example : exampleColumn.EqDist := by
  constructor <;> norm_num [exampleColumn]

example : splintEd exampleColumn (fun k => k * k) (3 / 2) = .ok 9 ∧
    splintCombEd exampleColumn (fun k => k * k) (5 / 4) = .ok (6 + 27 / 64, 10 - 1 / 48) := by
  refine ⟨by decide +kernel, by decide +kernel⟩

/-- General knots: the same statement; arguments below (above) the table use the first (last)
interval. -/
theorem C05_general (c : Column K) (h : c.General) (xi : ℕ → K) :
    ∃ p : ℕ → K[X],
      IsPiecewiseCubic (fun i => c.xcoord (c.first + i)) (fun i => xi (c.first + i))
        (fun i => c.d2tab (c.first + i)) (c.last - c.first + 1) p ∧
      ∀ i, c.first + i < c.last → ∀ r, (c.xcoord (c.first + i) ≤ r ∨ i = 0) →
        (r < c.xcoord (c.first + i + 1) ∨ c.first + i + 1 = c.last) →
        splintNe c xi r = .ok ((p i).eval r) ∧
        splintGradNe c xi r = .ok ((derivative (p i)).eval r) ∧
        splintCombNe c xi r = .ok ((p i).eval r, (derivative (p i)).eval r) := by
  refine ⟨pieces (c.vals c.xcoord) (c.vals xi) (c.vals c.d2tab), pieces_cubic _ _ _ _ ?_, ?_⟩
  · intro k hk
    have := h.mono (c.first + k) (by omega) (by omega)
    exact this.ne
  · intro i hi r h1 h2
    exact ⟨splintNe_eq h xi hi h1 h2, splintGradNe_eq h xi hi h1 h2, splintCombNe_eq h xi hi h1 h2⟩

/-- At every knot, the last one included, the general look-up returns the tabulated value. -/
theorem C05_general_knot (c : Column K) (h : c.General) (xi : ℕ → K) (i : ℕ)
    (hi : c.first + i ≤ c.last) :
    splintNe c xi (c.xcoord (c.first + i)) = .ok (xi (c.first + i)) := by
  obtain ⟨p, hp, he⟩ := C05_general c h xi
  rcases hi.lt_or_eq with hlt | heq
  · have := (he i hlt _ (Or.inl le_rfl) (Or.inl (h.mono _ (by omega) hlt))).1
    rw [this, hp.interp_left i (by omega)]
  · have hk := h.knots
    obtain ⟨j, rfl⟩ : ∃ j, i = j + 1 := ⟨i - 1, by omega⟩
    have hm := h.mono (c.first + j) (by omega) (by omega)
    have := (he j (by omega) (c.xcoord (c.first + (j + 1))) (Or.inl hm.le) (Or.inr heq)).1
    rw [this, hp.interp_right j (by omega)]

/-- The three general routines succeed for every argument and agree with each other. -/
theorem C05_general_agree (c : Column K) (h : c.General) (xi : ℕ → K) (r : K) :
    ∃ v g, splintNe c xi r = .ok v ∧ splintGradNe c xi r = .ok g ∧
      splintCombNe c xi r = .ok (v, g) := by
  obtain ⟨p, _, he⟩ := C05_general c h xi
  obtain ⟨i, hi, ha, hb⟩ := exists_interval_ne h r
  exact ⟨_, _, he i hi r ha hb⟩

example : exampleColumn.General := by
  refine ⟨by decide, ?_, by norm_num [exampleColumn], by norm_num [exampleColumn]⟩
  intro k h1 h2
  have : k = 2 ∨ k = 3 := by simp [exampleColumn] at h1 h2; omega
  rcases this with rfl | rfl <;> norm_num [exampleColumn]

omit [IsStrictOrderedRing K] in
/-- The routines working on a stored interval index return the same cubic and its derivative: the
combined routine agrees with the value-only and slope-only ones. -/
theorem C05_direct (c : Column K) (xi : ℕ → K) (k : ℕ) (b step : K) (hs : step ≠ 0)
    (h1 : c.first ≤ k) (h2 : k < c.last) :
    ∃ v g, splintDir c xi k b step = .ok v ∧ splintGradDir c xi k b step = .ok g ∧
      splintCombDir c xi k b step = .ok (v, g) := by
  unfold splintDir splintGradDir splintCombDir
  simp only [rd_ok xi h1 h2.le, rd_ok c.d2tab h1 h2.le, rd_ok xi (show c.first ≤ k + 1 by omega) h2,
    rd_ok c.d2tab (show c.first ≤ k + 1 by omega) h2, cdiv_ok hs]
  exact ⟨_, _, rfl, rfl, rfl⟩

example : splintCombDir exampleColumn (fun k => k * k) 2 (1 / 2) (1 / 2)
    = .ok (6 + 27 / 64, 10 - 1 / 48) := by decide +kernel

end Verif.Props
