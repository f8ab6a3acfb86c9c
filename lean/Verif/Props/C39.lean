/-
C39  Smooth cutoff.
-/
import Verif.Model.Apot
import Mathlib.Analysis.Calculus.ContDiff.Operations
import Mathlib.Analysis.Calculus.IteratedDeriv.Lemmas
import Mathlib.Analysis.Calculus.Deriv.Pow
import Mathlib.Analysis.Calculus.Deriv.Mul
import Mathlib.Tactic.Linarith
import Mathlib.Tactic.FieldSimp
import Mathlib.Tactic.Positivity

namespace Verif.Props

open Verif.Apot

/-! ### Range -/

section Range

variable {K : Type*} [Field K] [LinearOrder K] [IsStrictOrderedRing K]

/-- **C39, definedness.** The factor is defined for every distance if the width is not 0 (`update_calc_table` stops the program at width
0, see C15). -/
theorem C39_total (r r0 h : K) (hh : h ≠ 0) : ∃ v, apotCutoff r r0 h = .ok v := by
  unfold apotCutoff
  split
  · exact ⟨0, rfl⟩
  · have hq : (0 : K) < 1 + (r - r0) / h * ((r - r0) / h) * ((r - r0) / h * ((r - r0) / h)) := by
      have := mul_self_nonneg ((r - r0) / h * ((r - r0) / h))
      linarith
    simp only [bind, Except.bind, cdiv_ok hh, cdiv_ok hq.ne']
    exact ⟨_, rfl⟩

/-- **C39, range.** The factor lies in `[0, 1)`, whatever distance, cutoff radius and width. -/
theorem C39_range (r r0 h v : K) (hv : apotCutoff r r0 h = .ok v) : 0 ≤ v ∧ v < 1 := by
  unfold apotCutoff at hv
  split at hv
  · cases hv
    exact ⟨le_refl _, zero_lt_one⟩
  · by_cases hh : h = 0
    · simp only [cdiv, hh, if_true, bind, Except.bind] at hv
      cases hv
    · have hn := mul_self_nonneg ((r - r0) / h * ((r - r0) / h))
      have hq : (0 : K) < 1 + (r - r0) / h * ((r - r0) / h) * ((r - r0) / h * ((r - r0) / h)) := by linarith
      simp only [bind, Except.bind, cdiv_ok hh, cdiv_ok hq.ne', Except.ok.injEq] at hv
      rw [← hv]
      exact ⟨div_nonneg hn hq.le, (div_lt_one hq).2 (by linarith)⟩

/-- **C39, vanishing.** The factor is 0 exactly at and beyond the cutoff radius. -/
theorem C39_vanishes (r r0 h v : K) (hv : apotCutoff r r0 h = .ok v) : v = 0 ↔ r0 ≤ r := by
  unfold apotCutoff at hv
  split at hv
  · next h1 =>
    cases hv
    exact ⟨fun _ => by linarith, fun _ => rfl⟩
  · next h1 =>
    have hne : r - r0 ≠ 0 := fun e => h1 (by rw [e])
    by_cases hh : h = 0
    · simp only [cdiv, hh, if_true, bind, Except.bind] at hv
      cases hv
    · have hpos : 0 < (r - r0) / h * ((r - r0) / h) * ((r - r0) / h * ((r - r0) / h)) := by
        have : (r - r0) / h ≠ 0 := div_ne_zero hne hh
        exact mul_self_pos.2 (mul_ne_zero this this)
      simp only [bind, Except.bind, cdiv_ok hh, cdiv_ok (by linarith : 1 + (r - r0) / h * ((r - r0) / h) *
        ((r - r0) / h * ((r - r0) / h)) ≠ 0), Except.ok.injEq] at hv
      constructor
      · intro e
        rw [e] at hv
        exact absurd hv (div_ne_zero hpos.ne' (by linarith))
      · intro e
        exact absurd (by linarith : 0 ≤ r - r0) h1

end Range

/-! ### Smoothness -/

/-- Left of `a` the function `(x - a)^(n+1) * k x`, otherwise 0. -/
noncomputable def glue (a : ℝ) (n : Nat) (k : ℝ → ℝ) (x : ℝ) : ℝ := if a ≤ x then 0 else (x - a) ^ (n + 1) * k x

theorem glue_hasDerivAt (a : ℝ) (n : Nat) (k k' : ℝ → ℝ) (hk : ∀ x, HasDerivAt k (k' x) x) (x : ℝ) :
    HasDerivAt (glue a (n + 1) k) (glue a n (fun x => (n + 2) * k x + (x - a) * k' x) x) x := by
  have hg : ∀ x, HasDerivAt (fun x => (x - a) ^ (n + 2) * k x)
      ((x - a) ^ (n + 1) * ((n + 2) * k x + (x - a) * k' x)) x := by
    intro x
    have h1 : HasDerivAt (fun x => (x - a) ^ (n + 2)) (((n + 2 : Nat) : ℝ) * (x - a) ^ (n + 1) * 1) x :=
      ((hasDerivAt_id x).sub_const a).pow (n + 2)
    have h2 := h1.mul (hk x)
    refine h2.congr_deriv ?_
    push_cast
    ring
  rcases lt_trichotomy x a with hx | hx | hx
  · have he : glue a (n + 1) k =ᶠ[nhds x] fun x => (x - a) ^ (n + 2) * k x := by
      filter_upwards [Iio_mem_nhds hx] with y hy
      unfold glue
      rw [if_neg (not_le.2 hy)]
    have hv : glue a n (fun x => (n + 2) * k x + (x - a) * k' x) x =
        (x - a) ^ (n + 1) * ((n + 2) * k x + (x - a) * k' x) := by
      unfold glue
      rw [if_neg (not_le.2 hx)]
    rw [hv]
    exact (hg x).congr_of_eventuallyEq he
  · subst hx
    have hv : glue x n (fun y => (n + 2) * k y + (y - x) * k' y) x = 0 := by
      unfold glue
      rw [if_pos (le_refl _)]
    rw [hv]
    have hr : HasDerivWithinAt (glue x (n + 1) k) 0 (Set.Ici x) x := by
      refine (hasDerivWithinAt_const x (Set.Ici x) (0 : ℝ)).congr ?_ ?_
      · intro y hy
        unfold glue
        exact if_pos hy
      · unfold glue
        exact if_pos (le_refl _)
    have hl : HasDerivWithinAt (glue x (n + 1) k) 0 (Set.Iic x) x := by
      have h0 := hg x
      simp only [sub_self, ne_eq, Nat.add_eq_zero_iff, one_ne_zero, and_false, not_false_eq_true, zero_pow, zero_mul] at h0
      refine h0.hasDerivWithinAt.congr ?_ ?_
      · intro y hy
        unfold glue
        rcases lt_or_eq_of_le (Set.mem_Iic.1 hy) with h | h
        · rw [if_neg (not_le.2 h)]
        · rw [if_pos h.ge, h]
          simp
      · unfold glue
        rw [if_pos (le_refl _)]
        simp
    have hu := hl.union hr
    rw [Set.Iic_union_Ici] at hu
    exact hasDerivWithinAt_univ.1 hu
  · have he : glue a (n + 1) k =ᶠ[nhds x] fun _ => (0 : ℝ) := by
      filter_upwards [Ioi_mem_nhds hx] with y hy
      unfold glue
      rw [if_pos (le_of_lt hy)]
    have hv : glue a n (fun x => (n + 2) * k x + (x - a) * k' x) x = 0 := by
      unfold glue
      rw [if_pos hx.le]
    rw [hv]
    exact (hasDerivAt_const x (0 : ℝ)).congr_of_eventuallyEq he

theorem glue_continuous (a : ℝ) (k : ℝ → ℝ) (hk : Continuous k) : Continuous (glue a 0 k) := by
  unfold glue
  refine Continuous.if_le continuous_const (by fun_prop) continuous_const continuous_id ?_
  intro x hx
  simp [hx]

/-- The function is `n` times continuously differentiable and its derivatives up to order `n` vanish at `a`. -/
theorem glue_smooth (a : ℝ) (n : Nat) (k : ℝ → ℝ) (hk : ContDiff ℝ n k) :
    ContDiff ℝ n (glue a n k) ∧ ∀ m ≤ n, iteratedDeriv m (glue a n k) a = 0 := by
  induction n generalizing k with
  | zero =>
    refine ⟨contDiff_zero.2 (glue_continuous a k (contDiff_zero.1 hk)), ?_⟩
    intro m hm
    rw [Nat.le_zero.1 hm, iteratedDeriv_zero]
    unfold glue
    exact if_pos (le_refl _)
  | succ n ih =>
    have hk' : ContDiff ℝ ((n : WithTop ℕ∞) + 1) k := by exact_mod_cast hk
    obtain ⟨hd, -, hdk⟩ := contDiff_succ_iff_deriv.1 hk'
    have hder : ∀ x, HasDerivAt k (deriv k x) x := fun x => (hd x).hasDerivAt
    have hderiv : deriv (glue a (n + 1) k) = glue a n (fun x => (n + 2) * k x + (x - a) * deriv k x) :=
      funext fun x => (glue_hasDerivAt a n k (deriv k) hder x).deriv
    have hkn : ContDiff ℝ n k := hk'.of_le (by exact_mod_cast Nat.le_succ n)
    obtain ⟨h1, h2⟩ := ih (fun x => (n + 2) * k x + (x - a) * deriv k x)
      ((contDiff_const.mul hkn).add ((contDiff_id.sub contDiff_const).mul hdk))
    constructor
    · have : ContDiff ℝ ((n : WithTop ℕ∞) + 1) (glue a (n + 1) k) := by
        rw [contDiff_succ_iff_deriv]
        refine ⟨fun x => (glue_hasDerivAt a n k (deriv k) hder x).differentiableAt, ?_, ?_⟩
        · intro h
          exact absurd h (by simp)
        · rw [hderiv]
          exact h1
      exact_mod_cast this
    · intro m hm
      cases m with
      | zero =>
        rw [iteratedDeriv_zero]
        unfold glue
        exact if_pos (le_refl _)
      | succ m =>
        rw [iteratedDeriv_succ', hderiv]
        exact h2 m (by omega)

/-- **C39, smoothness.** As a function of the distance the factor is three times continuously differentiable; value, slope, curvature
(and third derivative) vanish at the cutoff radius. -/
theorem C39_smooth (r0 h : ℝ) (hh : h ≠ 0) (f : ℝ → ℝ) (hf : ∀ r, apotCutoff r r0 h = .ok (f r)) :
    ContDiff ℝ 3 f ∧ f r0 = 0 ∧ deriv f r0 = 0 ∧ deriv (deriv f) r0 = 0 ∧ iteratedDeriv 3 f r0 = 0 := by
  have hfg : f = glue r0 3 (fun r => 1 / (h ^ 4 + (r - r0) ^ 4)) := by
    funext r
    have := hf r
    unfold apotCutoff at this
    unfold glue
    by_cases hr : r0 ≤ r
    · rw [if_pos (by linarith)] at this
      rw [if_pos hr]
      exact (Except.ok.inj this).symm
    · rw [if_neg (by intro e; exact hr (by linarith))] at this
      rw [if_neg hr]
      have hq : (0 : ℝ) < 1 + (r - r0) / h * ((r - r0) / h) * ((r - r0) / h * ((r - r0) / h)) := by
        have := mul_self_nonneg ((r - r0) / h * ((r - r0) / h))
        linarith
      simp only [bind, Except.bind, cdiv_ok hh, cdiv_ok hq.ne', Except.ok.injEq] at this
      rw [← this]
      have h4 : h ^ 4 + (r - r0) ^ 4 ≠ 0 := by positivity
      rw [div_eq_iff hq.ne']
      field_simp
  have hk : ContDiff ℝ (3 : ℕ) (fun r => 1 / (h ^ 4 + (r - r0) ^ 4)) := by
    refine contDiff_const.div (by fun_prop) ?_
    intro r
    positivity
  obtain ⟨h1, h2⟩ := glue_smooth r0 3 _ hk
  rw [← hfg] at h1 h2
  have e0 := h2 0 (by omega)
  have e1 := h2 1 (by omega)
  have e2 := h2 2 (by omega)
  rw [iteratedDeriv_zero] at e0
  rw [iteratedDeriv_one] at e1
  rw [show (2 : ℕ) = 1 + 1 from rfl, iteratedDeriv_succ, iteratedDeriv_one] at e2
  exact ⟨by exact_mod_cast h1, e0, e1, e2, h2 3 (by omega)⟩

/-- **C39, smoothed potentials.** A twice continuously differentiable potential times the factor is twice continuously differentiable
across the cutoff radius, with value, slope and curvature 0 there. -/
theorem C39_potential (r0 h : ℝ) (hh : h ≠ 0) (f V : ℝ → ℝ) (hf : ∀ r, apotCutoff r r0 h = .ok (f r)) (hV : ContDiff ℝ 2 V) :
    ContDiff ℝ 2 (fun r => V r * f r) ∧ V r0 * f r0 = 0 ∧ deriv (fun r => V r * f r) r0 = 0 ∧
      deriv (deriv fun r => V r * f r) r0 = 0 := by
  obtain ⟨h1, h2, h3, h4, -⟩ := C39_smooth r0 h hh f hf
  have hf2 : ContDiff ℝ ((1 : WithTop ℕ∞) + 1) f := by
    have : ContDiff ℝ 2 f := h1.of_le (by norm_num)
    simpa [one_add_one_eq_two] using this
  have hV2 : ContDiff ℝ ((1 : WithTop ℕ∞) + 1) V := by simpa [one_add_one_eq_two] using hV
  obtain ⟨fd, -, fd'⟩ := contDiff_succ_iff_deriv.1 hf2
  obtain ⟨vd, -, vd'⟩ := contDiff_succ_iff_deriv.1 hV2
  have fdd : Differentiable ℝ (deriv f) := fd'.differentiable (by norm_num)
  have vdd : Differentiable ℝ (deriv V) := vd'.differentiable (by norm_num)
  have hd : deriv (fun r => V r * f r) = fun r => deriv V r * f r + V r * deriv f r := by
    funext r
    exact deriv_mul (vd r) (fd r)
  refine ⟨hV.mul (h1.of_le (by norm_num)), by rw [h2, mul_zero], by rw [hd]; simp [h2, h3], ?_⟩
  rw [hd]
  have := ((vdd r0).hasDerivAt.mul (fd r0).hasDerivAt).add ((vd r0).hasDerivAt.mul (fdd r0).hasDerivAt)
  have h5 := this.deriv
  simp only [h2, h3, h4, mul_zero, add_zero] at h5
  exact h5

/-- For every width other than 0 there is such a function. -/
example : ∃ f : ℝ → ℝ, ∀ r, apotCutoff r 6 2 = .ok (f r) := by
  have := fun r => C39_total r (6 : ℝ) 2 (by norm_num)
  exact ⟨fun r => (this r).choose, fun r => (this r).choose_spec⟩

example : apotCutoff (4 : ℚ) 6 2 = .ok (1 / 2) ∧ apotCutoff (6 : ℚ) 6 2 = .ok 0 ∧ apotCutoff (5 : ℚ) 6 0 = .error .divZero := by
  decide +kernel

end Verif.Props
