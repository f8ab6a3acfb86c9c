/-
C10  Equidistant look-up stays inside the column.

The property as stated (closed range) is false for `splint_ed` and `splint_comb_ed`: at `r = end`
both read the entry behind the column.  Proved: the violation for every column, the property on the
half-open range, and the full property for `splint_grad_ed`, which has the missing guard.
-/
import Verif.Lemmas.SplineEval
import Verif.Props.C05

namespace Verif.Props

open Verif.Splines Verif.Spec Polynomial

variable {K : Type*} [Field K] [LinearOrder K] [IsStrictOrderedRing K] [FloorSemiring K]

/-- Negation: at the upper end of every column the value and the combined look-up leave the column. -/
theorem C10_violated_at_end (c : Column K) (h : c.EqDist) (xi : ℕ → K) :
    splintEd c xi c.fin = .error .outOfColumn ∧ splintCombEd c xi c.fin = .error .outOfColumn := by
  have hk := h.knots
  have h1 : c.knot (c.last - c.first) = c.fin := h.span'
  have h2 : c.fin < c.knot (c.last - c.first + 1) := by
    rw [← h1, ← sub_pos, knot_succ_sub]; exact h.step_pos
  have hs := edSlot_eq h h1.le h2
  rw [show c.last - c.first + c.first = c.last by omega] at hs
  have hr : ∀ a : ℕ → K, c.rd a (c.last + 1) = .error .outOfColumn := by
    intro a; unfold Column.rd; rw [if_neg (by omega)]
  unfold splintEd splintCombEd
  rw [hs]
  simp only [bind, Except.bind, rd_ok xi hk.le le_rfl, rd_ok c.d2tab hk.le le_rfl, hr]
  exact ⟨trivial, trivial⟩

example : splintEd exampleColumn (fun k => k) exampleColumn.fin = .error .outOfColumn := by
  decide +kernel

/-- On the half-open range `[begin, end)` all three routines stay inside the column (and succeed).
Missing against the full property: the single argument `r = end`, see `C10_violated_at_end`. -/
theorem C10_lookup_partial (c : Column K) (h : c.EqDist) (xi : ℕ → K) (r : K)
    (h1 : c.beg ≤ r) (h2 : r < c.fin) :
    (∃ v, splintEd c xi r = .ok v) ∧ (∃ v, splintCombEd c xi r = .ok v) ∧
      (∃ v, splintGradEd c xi r = .ok v) := by
  obtain ⟨v, g, e1, e2, e3⟩ := C05_equidistant_agree c h xi r h1 h2
  exact ⟨⟨_, e1⟩, ⟨_, e3⟩, ⟨_, e2⟩⟩

example : exampleColumn.beg ≤ (7 / 4 : ℚ) ∧ (7 / 4 : ℚ) < exampleColumn.fin := by
  norm_num [exampleColumn]

/-- The slope routine stays inside the column on the whole closed range `[begin, end]`: it returns the
derivative of the cubic of an interval containing the argument (at `r = end`: the last interval). -/
theorem C10_slope_closed (c : Column K) (h : c.EqDist) (xi : ℕ → K) (r : K)
    (h1 : c.beg ≤ r) (h2 : r ≤ c.fin) :
    ∃ p : ℕ → K[X], IsPiecewiseCubic (fun i => c.beg + i * c.step) (fun i => xi (c.first + i))
        (fun i => c.d2tab (c.first + i)) (c.last - c.first + 1) p ∧
      ∃ i, c.first + i < c.last ∧ c.beg + i * c.step ≤ r ∧ r ≤ c.beg + (i + 1 : ℕ) * c.step ∧
        splintGradEd c xi r = .ok ((derivative (p i)).eval r) := by
  have hne : ∀ i, c.knot i ≠ c.knot (i + 1) := by
    intro i hc
    have := knot_succ_sub c i
    rw [← hc, sub_self] at this
    exact h.step_pos.ne this
  refine ⟨pieces c.knot (c.vals xi) (c.vals c.d2tab), pieces_cubic _ _ _ _ fun k _ => hne k, ?_⟩
  rcases h2.lt_or_eq with hlt | rfl
  · obtain ⟨i, hi, ha, hb⟩ := exists_interval h h1 hlt
    exact ⟨i, hi, ha, hb.le, splintGradEd_eq h xi hi ha hb⟩
  · have hk := h.knots
    have e1 : c.knot (c.last - c.first) = c.fin := h.span'
    have e2 : c.fin < c.knot (c.last - c.first + 1) := by
      rw [← e1, ← sub_pos, knot_succ_sub]; exact h.step_pos
    have hs := edSlot_eq h e1.le e2
    rw [show c.last - c.first + c.first = c.last by omega] at hs
    have hinv := h.invstep_pos.ne'
    have e3 := knot_succ_sub c (c.last - c.first - 1)
    rw [show c.last - c.first - 1 + 1 = c.last - c.first by omega, e1] at e3
    have hsp := h.step_pos
    refine ⟨c.last - c.first - 1, by omega, by linarith [show c.knot (c.last - c.first - 1)
      = c.beg + ((c.last - c.first - 1 : ℕ) : K) * c.step from rfl], ?_, ?_⟩
    · rw [show c.last - c.first - 1 + 1 = c.last - c.first by omega]
      exact e1.ge
    unfold splintGradEd
    rw [hs]
    simp only [bind, Except.bind, ge_iff_le, le_refl, if_true]
    rw [rd_ok xi (by omega) (by omega), rd_ok c.d2tab (by omega) (by omega),
      rd_ok xi (by omega) (by omega), rd_ok c.d2tab (by omega) (by omega)]
    simp only
    rw [cdiv_ok (by simp [hinv])]
    simp only [pure, Except.pure]
    congr 1
    unfold pieces
    have e4 : c.last - c.first - 1 + 1 = c.last - c.first := by omega
    rw [← slope_formula (b := (c.fin - c.knot (c.last - c.first)) * c.invstep + 1)
      (by rw [knot_succ_sub]; exact hsp.ne')
      (by rw [knot_succ_sub, e1, sub_self, zero_mul, zero_add, ← e3]
          exact (div_self (by rw [e3]; exact hsp.ne')).symm)]
    rw [knot_succ_sub]
    unfold Column.vals
    rw [e4, show c.first + (c.last - c.first - 1) = c.last - 1 by omega,
      show c.first + (c.last - c.first) = c.last by omega, show c.last - 1 + 1 = c.last by omega,
      h.invstep_eq]
    have := hsp.ne'
    field_simp

example : splintGradEd exampleColumn (fun k => k * k) 2 = .ok (14 + 11 / 12) := by
  decide +kernel

/-- An argument below the table is rejected, never read. -/
theorem C10_below_rejected (c : Column K) (xi : ℕ → K) (r : K) (h : r < c.beg) :
    splintEd c xi r = .error .shortDistance ∧ splintCombEd c xi r = .error .shortDistance ∧
      splintGradEd c xi r = .error .shortDistance := by
  have hs : edSlot c r = .error .shortDistance := by
    unfold edSlot
    simp only
    rw [if_pos (by linarith)]
  unfold splintEd splintCombEd splintGradEd
  rw [hs]
  exact ⟨rfl, rfl, rfl⟩

example : (1 / 2 : ℚ) < exampleColumn.beg := by norm_num [exampleColumn]

end Verif.Props
