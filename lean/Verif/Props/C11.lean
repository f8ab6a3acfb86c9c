/-
C11  Linear extrapolation outside the table (`splint_ne_lin`).
-/
import Verif.Lemmas.SplineEval
import Verif.Lemmas.SplineGlue
import Verif.Props.C05

namespace Verif.Props

open Verif.Splines Verif.Spec Polynomial Set

variable {K : Type*} [Field K] [LinearOrder K] [IsStrictOrderedRing K]

/-- Inside the table the extrapolating look-up is the spline. -/
theorem C11_inside (c : Column K) (h : c.General) (xi : ℕ → K) (r : K)
    (h1 : c.beg ≤ r) (h2 : r ≤ c.fin) : splintNeLin c xi r = splintNe c xi r := by
  obtain ⟨i, hi, ha, hb⟩ := exists_interval_ne h r
  have hx := (sub_pos.2 (h.mono (c.first + i) (by omega) hi)).ne'
  unfold splintNeLin splintNe
  rw [bisect_eq h hi ha hb]
  simp only [cdiv_ok hx, bind, Except.bind]
  rw [rd_ok xi (by omega) (by omega), rd_ok c.d2tab (by omega) (by omega),
    rd_ok xi (by omega) (by omega), rd_ok c.d2tab (by omega) (by omega)]
  simp only
  rw [if_neg (not_lt.2 h1), if_neg (not_lt.2 h2)]

/-- Outside, it continues with the slope of the spline at the end: there are spline pieces (as in C05)
such that below the table the result is `value(begin) + slope(begin) * (r - begin)` and above it is
`value(end) + slope(end) * (r - end)`. -/
theorem C11_outside (c : Column K) (h : c.General) (xi : ℕ → K) :
    ∃ p : ℕ → K[X],
      IsPiecewiseCubic (fun i => c.xcoord (c.first + i)) (fun i => xi (c.first + i))
        (fun i => c.d2tab (c.first + i)) (c.last - c.first + 1) p ∧
      (∀ r, r < c.beg → splintNeLin c xi r =
        .ok (xi c.first + (derivative (p 0)).eval c.beg * (r - c.beg))) ∧
      (∀ r, c.fin < r → splintNeLin c xi r =
        .ok (xi c.last + (derivative (p (c.last - c.first - 1))).eval c.fin * (r - c.fin))) := by
  have hk := h.knots
  refine ⟨pieces (c.vals c.xcoord) (c.vals xi) (c.vals c.d2tab), pieces_cubic _ _ _ _ ?_, ?_, ?_⟩
  · intro k hk
    exact (h.mono (c.first + k) (by omega) (by omega)).ne
  · intro r hr
    have hx' := h.mono c.first le_rfl hk
    have hx := (sub_pos.2 hx').ne'
    have hlt : r < c.xcoord (c.first + 0 + 1) := by rw [h.beg_eq] at hr; exact hr.trans hx'
    unfold splintNeLin
    rw [bisect_eq h (i := 0) hk (Or.inr rfl) (Or.inl hlt)]
    simp only [Nat.add_zero, cdiv_ok hx, bind, Except.bind]
    rw [rd_ok xi le_rfl hk.le, rd_ok c.d2tab le_rfl hk.le,
      rd_ok xi (show c.first ≤ c.first + 1 by omega) hk,
      rd_ok c.d2tab (show c.first ≤ c.first + 1 by omega) hk]
    simp only
    rw [if_pos hr]
    simp only [pure, Except.pure]
    congr 2
    unfold pieces
    have := slope_formula (x0 := c.xcoord c.first) (x1 := c.xcoord (c.first + 1)) (y0 := xi c.first)
      (y1 := xi (c.first + 1)) (m0 := c.d2tab c.first) (m1 := c.d2tab (c.first + 1)) (r := c.beg)
      (b := 0) hx (by rw [h.beg_eq]; simp)
    rw [← h.beg_eq]
    congr 1
    rw [show (derivative (piece (c.vals c.xcoord 0) (c.vals c.xcoord (0 + 1)) (c.vals xi 0)
      (c.vals xi (0 + 1)) (c.vals c.d2tab 0) (c.vals c.d2tab (0 + 1)))).eval c.beg
      = (derivative (piece (c.xcoord c.first) (c.xcoord (c.first + 1)) (xi c.first)
        (xi (c.first + 1)) (c.d2tab c.first) (c.d2tab (c.first + 1)))).eval c.beg from rfl]
    rw [← this]
    rw [sub_zero, h.beg_eq]
  · intro r hr
    obtain ⟨j, hj⟩ : ∃ j, c.last = c.first + j + 1 := ⟨c.last - c.first - 1, by omega⟩
    have hx' := h.mono (c.first + j) (by omega) (by omega)
    have hx := (sub_pos.2 hx').ne'
    have hfin : c.fin = c.xcoord (c.first + j + 1) := by rw [h.fin_eq, hj]
    have hge : c.xcoord (c.first + j) ≤ r := by rw [hfin] at hr; exact (hx'.trans hr).le
    have hbeg : ¬ r < c.beg := by
      have := h.mono_le (a := c.first) (b := c.last) le_rfl hk.le le_rfl
      rw [← h.beg_eq, ← h.fin_eq] at this
      exact not_lt.2 (this.trans hr.le)
    unfold splintNeLin
    rw [bisect_eq h (i := j) (by omega) (Or.inl hge) (Or.inr hj.symm)]
    simp only [cdiv_ok hx, bind, Except.bind]
    rw [rd_ok xi (by omega) (by omega), rd_ok c.d2tab (by omega) (by omega),
      rd_ok xi (by omega) (by omega), rd_ok c.d2tab (by omega) (by omega)]
    simp only
    rw [if_neg hbeg, if_pos hr]
    simp only [pure, Except.pure]
    have e1 : c.last - c.first - 1 = j := by omega
    rw [e1, ← hj, ← h.fin_eq]
    congr 2
    unfold pieces
    have := slope_formula (x0 := c.xcoord (c.first + j)) (x1 := c.xcoord (c.first + j + 1))
      (y0 := xi (c.first + j)) (y1 := xi (c.first + j + 1)) (m0 := c.d2tab (c.first + j))
      (m1 := c.d2tab (c.first + j + 1)) (r := c.fin) (b := 1) hx
      (by rw [hfin]; exact (div_self hx).symm)
    congr 1
    rw [show (derivative (piece (c.vals c.xcoord j) (c.vals c.xcoord (j + 1)) (c.vals xi j)
      (c.vals xi (j + 1)) (c.vals c.d2tab j) (c.vals c.d2tab (j + 1)))).eval c.fin
      = (derivative (piece (c.xcoord (c.first + j)) (c.xcoord (c.first + j + 1)) (xi (c.first + j))
        (xi (c.first + j + 1)) (c.d2tab (c.first + j)) (c.d2tab (c.first + j + 1)))).eval c.fin
      from rfl]
    rw [← this, h.fin_eq, hj, sub_self]

example : splintNeLin exampleColumn (fun k => k * k) 3 = .ok (16 + 14 + 11 / 12) ∧
    (3 : ℚ) > exampleColumn.fin := by
  refine ⟨by decide +kernel, by norm_num [exampleColumn]⟩

/-- The extrapolating look-up is defined for every argument and is a continuous function, in particular
at both ends of the table. -/
theorem C11_continuous (c : Column ℝ) (h : c.General) (xi : ℕ → ℝ) :
    ∃ f : ℝ → ℝ, (∀ r, splintNeLin c xi r = .ok (f r)) ∧ Continuous f := by
  have hk := h.knots
  obtain ⟨p, hp, hlo, hhi⟩ := C11_outside c h xi
  obtain ⟨q, hq, hin⟩ := C05_general c h xi
  have hbf : c.beg < c.fin := by rw [h.beg_eq, h.fin_eq]; exact h.strict le_rfl hk le_rfl
  let f : ℝ → ℝ := fun r => match splintNeLin c xi r with | .ok v => v | .error _ => 0
  have hins : ∀ i, c.first + i < c.last → ∀ r, c.xcoord (c.first + i) ≤ r →
      (r < c.xcoord (c.first + i + 1) ∨ r = c.xcoord (c.first + i + 1)) →
      splintNeLin c xi r = .ok ((q i).eval r) := by
    intro i hi r h1 h2
    have b1 : c.beg ≤ r := by
      rw [h.beg_eq]; exact (h.mono_le le_rfl (by omega) (by omega)).trans h1
    have b2' : c.xcoord (c.first + i + 1) ≤ c.fin := by
      rw [h.fin_eq]; exact h.mono_le (by omega) (by omega) le_rfl
    rcases h2 with h2 | h2
    · rw [C11_inside c h xi r b1 (h2.le.trans b2')]
      exact (hin i hi r (Or.inl h1) (Or.inl h2)).1
    · rw [C11_inside c h xi r b1 (h2.le.trans b2'), h2]
      rw [show c.first + i + 1 = c.first + (i + 1) by omega, C05_general_knot c h xi (i + 1) (by omega),
        ← hq.interp_right i (by omega)]
  have hall : ∀ r, ∃ v, splintNeLin c xi r = .ok v := by
    intro r
    rcases lt_or_ge r c.beg with h1 | h1
    · exact ⟨_, hlo r h1⟩
    · rcases lt_or_ge c.fin r with h2 | h2
      · exact ⟨_, hhi r h2⟩
      · rw [C11_inside c h xi r h1 h2]
        obtain ⟨v, g, e, -, -⟩ := C05_general_agree c h xi r
        exact ⟨v, e⟩
  have hfv : ∀ r v, splintNeLin c xi r = .ok v → f r = v := by
    intro r v e
    simp only [f, e]
  refine ⟨f, fun r => ?_, ?_⟩
  · obtain ⟨v, e⟩ := hall r
    rw [hfv r v e, e]
  have hflo : ∀ r, r ≤ c.beg → f r = xi c.first + (derivative (p 0)).eval c.beg * (r - c.beg) := by
    intro r hr
    rcases hr.lt_or_eq with h1 | rfl
    · exact hfv _ _ (hlo r h1)
    · have := hins 0 hk c.beg (by rw [h.beg_eq]; rfl)
        (Or.inl (by rw [h.beg_eq]; exact h.mono c.first le_rfl hk))
      rw [hfv _ _ this, h.beg_eq]
      have h3 := hq.interp_left 0 (by omega)
      simp only [Nat.add_zero] at h3
      rw [h3]
      simp
  have hfhi : ∀ r, c.fin ≤ r → f r = xi c.last
      + (derivative (p (c.last - c.first - 1))).eval c.fin * (r - c.fin) := by
    intro r hr
    rcases hr.lt_or_eq with h1 | rfl
    · exact hfv _ _ (hhi r h1)
    · have e1 : splintNeLin c xi c.fin = .ok (xi c.last) := by
        rw [C11_inside c h xi c.fin hbf.le le_rfl, h.fin_eq]
        have := C05_general_knot c h xi (c.last - c.first) (by omega)
        rwa [show c.first + (c.last - c.first) = c.last by omega] at this
      rw [hfv _ _ e1]
      simp
  have hfin : ∀ i, c.first + i < c.last → ∀ r, c.xcoord (c.first + i) ≤ r →
      r ≤ c.xcoord (c.first + i + 1) → f r = (q i).eval r := by
    intro i hi r h1 h2
    exact hfv _ _ (hins i hi r h1 h2.lt_or_eq)
  -- continuity from the left and from the right at every point
  rw [continuous_iff_continuousAt]
  intro r
  rw [continuousAt_iff_continuous_left_right]
  have hlinlo : Continuous fun r => xi c.first + (derivative (p 0)).eval c.beg * (r - c.beg) := by
    fun_prop
  have hlinhi : Continuous fun r => xi c.last
      + (derivative (p (c.last - c.first - 1))).eval c.fin * (r - c.fin) := by fun_prop
  constructor
  · -- left
    rcases le_or_gt r c.beg with h1 | h1
    · refine (hlinlo.continuousWithinAt).congr_of_eventuallyEq ?_ (hflo r h1)
      filter_upwards [self_mem_nhdsWithin] with t ht
      exact hflo t (le_trans ht h1)
    · rcases lt_or_ge c.fin r with h2 | h2
      · refine (hlinhi.continuousWithinAt).congr_of_eventuallyEq ?_ (hfhi r h2.le)
        filter_upwards [mem_nhdsWithin_of_mem_nhds (Ioi_mem_nhds h2)] with t ht
        exact hfhi t (le_of_lt ht)
      · -- interval containing r with r strictly above its left end
        have hex : ∃ i, c.first + i < c.last ∧ c.xcoord (c.first + i) < r ∧
            r ≤ c.xcoord (c.first + i + 1) := by
          obtain ⟨i, hi, ha, hb⟩ := exists_interval_ne h r
          have ha' : c.xcoord (c.first + i) ≤ r := by
            rcases ha with ha | ha
            · exact ha
            · rw [ha]; rw [h.beg_eq] at h1; exact h1.le
          have hb' : r ≤ c.xcoord (c.first + i + 1) := by
            rcases hb with hb | hb
            · exact hb.le
            · rw [hb]; rw [h.fin_eq] at h2; exact h2
          rcases ha'.lt_or_eq with hlt | heq
          · exact ⟨i, hi, hlt, hb'⟩
          · cases i with
            | zero => rw [h.beg_eq, ← heq] at h1; exact absurd h1 (lt_irrefl _)
            | succ j =>
              refine ⟨j, by omega, ?_, ?_⟩
              · rw [← heq]; exact h.strict (by omega) (by omega) (by omega)
              · rw [← heq]; exact h.mono_le (by omega) (by omega) (by omega)
        obtain ⟨i, hi, ha, hb⟩ := hex
        refine ((q i).continuous.continuousWithinAt).congr_of_eventuallyEq ?_ (hfin i hi r ha.le hb)
        filter_upwards [self_mem_nhdsWithin, mem_nhdsWithin_of_mem_nhds (Ioi_mem_nhds ha)] with t ht1 ht2
        exact hfin i hi t (le_of_lt ht2) (le_trans ht1 hb)
  · -- right
    rcases lt_or_ge r c.beg with h1 | h1
    · refine (hlinlo.continuousWithinAt).congr_of_eventuallyEq ?_ (hflo r h1.le)
      filter_upwards [mem_nhdsWithin_of_mem_nhds (Iio_mem_nhds h1)] with t ht
      exact hflo t (le_of_lt ht)
    · rcases le_or_gt c.fin r with h2 | h2
      · refine (hlinhi.continuousWithinAt).congr_of_eventuallyEq ?_ (hfhi r h2)
        filter_upwards [self_mem_nhdsWithin] with t ht
        exact hfhi t (le_trans h2 ht)
      · obtain ⟨i, hi, ha, hb⟩ := exists_interval_ne h r
        have ha' : c.xcoord (c.first + i) ≤ r := by
          rcases ha with ha | ha
          · exact ha
          · rw [ha]; rw [h.beg_eq] at h1; exact h1
        have hb' : r < c.xcoord (c.first + i + 1) := by
          rcases hb with hb | hb
          · exact hb
          · rw [hb]; rw [h.fin_eq] at h2; exact h2
        refine ((q i).continuous.continuousWithinAt).congr_of_eventuallyEq ?_
          (hfin i hi r ha' hb'.le)
        filter_upwards [self_mem_nhdsWithin, mem_nhdsWithin_of_mem_nhds (Iio_mem_nhds hb')] with t ht1 ht2
        exact hfin i hi t (le_trans ha' ht1) (le_of_lt ht2)

example : ∃ c : Column ℝ, c.General :=
  ⟨⟨4, 16, 0, 0, 2, 4, fun k => (k : ℝ) ^ 2, fun _ => 0⟩, by norm_num, fun k _ _ => by
    push_cast
    nlinarith [(Nat.cast_nonneg k : (0 : ℝ) ≤ (k : ℕ))], by norm_num, by norm_num⟩

end Verif.Props
