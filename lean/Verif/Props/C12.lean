/-
C12  Cached neighbour slots reproduce direct evaluation.
-/
import Verif.Lemmas.SplineEval
import Verif.Props.C05

namespace Verif.Props

open Verif.Splines Verif.Spec Polynomial

variable {K : Type*} [Field K] [LinearOrder K] [IsStrictOrderedRing K]

private theorem dir_eq (c : Column K) (xi : ℕ → K) (i : ℕ) (hi : c.first + i < c.last)
    (x : ℕ → K) (hx : x i ≠ x (i + 1)) (r b : K) (hb : b = (r - x i) / (x (i + 1) - x i)) :
    splintCombDir c xi (c.first + i) b (x (i + 1) - x i) =
      .ok ((pieces x (c.vals xi) (c.vals c.d2tab) i).eval r,
        (derivative (pieces x (c.vals xi) (c.vals c.d2tab) i)).eval r) := by
  have hs : x (i + 1) - x i ≠ 0 := sub_ne_zero.2 hx.symm
  unfold splintCombDir
  simp only [rd_ok xi (show c.first ≤ c.first + i by omega) hi.le,
    rd_ok c.d2tab (show c.first ≤ c.first + i by omega) hi.le,
    rd_ok xi (show c.first ≤ c.first + i + 1 by omega) hi,
    rd_ok c.d2tab (show c.first ≤ c.first + i + 1 by omega) hi, cdiv_ok hs, bind, Except.bind]
  rw [value_formula hs hb, slope_formula hs hb]
  rfl

/-- Equidistant and sampled analytic columns: for every distance in the closed range the stored slot
addresses an interval of the column, and for every distance below the end the evaluation through the
stored triple equals the direct evaluation at that distance (value and slope together). -/
theorem C12_equidistant [FloorSemiring K] (c : Column K) (h : c.EqDist) (xi : ℕ → K) (r : K)
    (h1 : c.beg ≤ r) (h2 : r ≤ c.fin) :
    ∃ slot shift step, setSlotEd c r = .ok (slot, shift, step) ∧
      c.first ≤ slot ∧ slot < c.last ∧ step ≠ 0 ∧
      (r < c.fin → splintCombDir c xi slot shift step = splintCombEd c xi r) ∧
      (r = c.fin → splintDir c xi slot shift step = .ok (xi c.last) ∧
        splintGradDir c xi slot shift step = splintGradEd c xi r) := by
  have hs := h.step_pos
  have hne : ∀ i, c.knot i ≠ c.knot (i + 1) := by
    intro i hc
    have := knot_succ_sub c i
    rw [← hc, sub_self] at this
    exact hs.ne this
  rcases h2.lt_or_eq with hlt | heq
  · obtain ⟨i, hi, ha, hb⟩ := exists_interval h h1 hlt
    refine ⟨i + c.first, (r - c.knot i) * c.invstep, c.step, ?_, by omega, by omega, hs.ne', ?_, ?_⟩
    · unfold setSlotEd
      rw [edSlot_eq h ha hb]
      simp only [bind, Except.bind]
      rw [if_neg (by omega)]
      rfl
    · intro _
      rw [splintCombEd_eq h xi hi ha hb, ← knot_succ_sub c i, show i + c.first = c.first + i by omega]
      exact dir_eq c xi i hi c.knot (hne i) r _ (by rw [knot_succ_sub, h.invstep_eq]; ring)
    · intro hc; exact absurd hc hlt.ne
  · have hk := h.knots
    have e1 : c.knot (c.last - c.first) = c.fin := h.span'
    have e2 : c.fin < c.knot (c.last - c.first + 1) := by
      rw [← e1, ← sub_pos, knot_succ_sub]; exact hs
    have hsl := edSlot_eq h e1.le e2
    rw [show c.last - c.first + c.first = c.last by omega] at hsl
    rw [e1, sub_self, zero_mul] at hsl
    subst heq
    refine ⟨c.last - 1, 0 + 1, c.step, ?_, by omega, by omega, hs.ne', ?_, ?_⟩
    · unfold setSlotEd
      rw [hsl]
      simp only [bind, Except.bind]
      rw [if_pos (by omega)]
      rfl
    · intro hc; exact absurd hc (lt_irrefl _)
    · intro _
      have hl1 : c.last - 1 + 1 = c.last := by omega
      constructor
      · unfold splintDir
        simp only [rd_ok xi (show c.first ≤ c.last - 1 by omega) (show c.last - 1 ≤ c.last by omega),
          rd_ok c.d2tab (show c.first ≤ c.last - 1 by omega) (show c.last - 1 ≤ c.last by omega),
          hl1, rd_ok xi hk.le le_rfl, rd_ok c.d2tab hk.le le_rfl, bind, Except.bind, pure,
          Except.pure]
        congr 1
        ring
      · unfold splintGradDir splintGradEd
        rw [hsl]
        have hinv := h.invstep_pos.ne'
        simp only [bind, Except.bind, ge_iff_le, le_refl, if_true]
        simp only [rd_ok xi (show c.first ≤ c.last - 1 by omega) (show c.last - 1 ≤ c.last by omega),
          rd_ok c.d2tab (show c.first ≤ c.last - 1 by omega) (show c.last - 1 ≤ c.last by omega),
          hl1, rd_ok xi hk.le le_rfl, rd_ok c.d2tab hk.le le_rfl, cdiv_ok hs.ne',
          cdiv_ok (show 6 * c.invstep ≠ 0 by simp [hinv]), pure, Except.pure]
        congr 1
        rw [h.invstep_eq]
        have := hs.ne'
        field_simp

example : setSlotEd exampleColumn 2 = .ok (3, 1, 1 / 2) ∧
    setSlotEd exampleColumn (7 / 4) = .ok (3, 1 / 2, 1 / 2) := by
  refine ⟨by decide +kernel, by decide +kernel⟩

/-- General-knot columns: for every distance the stored slot addresses an interval of the column and
the evaluation through the stored triple equals the direct evaluation. -/
theorem C12_general (c : Column K) (h : c.General) (xi : ℕ → K) (r : K) :
    ∃ slot shift step, setSlotNe c r = .ok (slot, shift, step) ∧
      c.first ≤ slot ∧ slot < c.last ∧ step ≠ 0 ∧
      splintCombDir c xi slot shift step = splintCombNe c xi r := by
  obtain ⟨i, hi, ha, hb⟩ := exists_interval_ne h r
  have hx := h.mono (c.first + i) (by omega) hi
  have hd := (sub_pos.2 hx).ne'
  refine ⟨c.first + i, (r - c.xcoord (c.first + i)) / (c.xcoord (c.first + i + 1)
    - c.xcoord (c.first + i)), c.xcoord (c.first + i + 1) - c.xcoord (c.first + i), ?_, by omega,
    hi, hd, ?_⟩
  · unfold setSlotNe
    rw [bisect_eq h hi ha hb]
    simp only [cdiv_ok hd, bind, Except.bind]
    rw [if_neg (by omega)]
    rfl
  · rw [splintCombNe_eq h xi hi ha hb]
    exact dir_eq c xi i hi (c.vals c.xcoord) hx.ne r _ rfl

example : setSlotNe exampleColumn (7 / 4) = .ok (3, 1 / 2, 1 / 2) := by
  decide +kernel

omit [IsStrictOrderedRing K] in
/-- Value-only and slope-only evaluation through the stored triple are the components of the
combined one (which the two theorems above identify with direct evaluation). -/
theorem C12_components (c : Column K) (xi : ℕ → K) (slot : ℕ) (shift step v g : K)
    (h : splintCombDir c xi slot shift step = .ok (v, g)) (hs : step ≠ 0)
    (h1 : c.first ≤ slot) (h2 : slot < c.last) :
    splintDir c xi slot shift step = .ok v ∧ splintGradDir c xi slot shift step = .ok g := by
  obtain ⟨v', g', e1, e2, e3⟩ := C05_direct c xi slot shift step hs h1 h2
  rw [e3] at h
  simp only [Except.ok.injEq, Prod.mk.injEq] at h
  rw [e1, e2, h.1, h.2]
  exact ⟨rfl, rfl⟩

example : splintCombDir exampleColumn (fun k => k * k) 3 (1 / 2) (1 / 2)
    = .ok (12 + 25 / 64, 14 - 1 / 48) := by decide +kernel

/-- Recomputing the slots after a change of the sampling gives the same triple as setting them anew,
for every distance inside the half-open range. -/
theorem C12_update [FloorSemiring K] (c : Column K) (h : c.EqDist) (r : K) (old : ℕ × K × K)
    (h1 : c.beg ≤ r) (h2 : r < c.fin) :
    ∃ t, updateSlot c r old = some t ∧ setSlotEd c r = .ok t := by
  obtain ⟨i, hi, ha, hb⟩ := exists_interval h h1 h2
  have hsl := edSlot_eq h ha hb
  have hrr : ¬ r - c.beg < 0 := by intro hc; linarith
  unfold setSlotEd updateSlot
  simp only [if_pos h2, if_neg hrr]
  unfold edSlot at hsl ⊢
  simp only [if_neg hrr, Except.ok.injEq, Prod.mk.injEq] at hsl
  simp only [if_neg hrr, bind, Except.bind]
  rw [if_neg (by omega)]
  exact ⟨_, rfl, rfl⟩

example : updateSlot exampleColumn (7 / 4) (0, 0, 0) = some (3, 1 / 2, 1 / 2) := by decide +kernel

end Verif.Props
