/-
The interpolating cubic spline through given points with given end conditions is unique.
-/
import Verif.Spec.Spline
import Mathlib.Algebra.Polynomial.Eval.Coeff
import Mathlib.Algebra.Order.Field.Basic
import Mathlib.Data.Finset.Max
import Mathlib.Tactic.LinearCombination
import Mathlib.Tactic.Linarith
import Mathlib.Tactic.FieldSimp
import Mathlib.Tactic.Ring

namespace Verif.Spec

open Polynomial

variable {K : Type*} [Field K] [LinearOrder K] [IsStrictOrderedRing K]

omit [LinearOrder K] [IsStrictOrderedRing K] in
/-- Coefficients of a cubic. -/
theorem cubic_form {p : K[X]} (h : p.natDegree ≤ 3) :
    p = C (p.coeff 0) + C (p.coeff 1) * X + C (p.coeff 2) * X ^ 2 + C (p.coeff 3) * X ^ 3 := by
  conv_lhs => rw [p.as_sum_range' 4 (by omega)]
  simp only [Finset.sum_range_succ, Finset.sum_range_zero, ← C_mul_X_pow_eq_monomial, zero_add, pow_zero, mul_one, pow_one]

/-- Slopes at the ends of a cubic vanishing at both ends, from its curvatures. -/
theorem cubic_slopes {p : K[X]} (h : p.natDegree ≤ 3) {a b u v : K} (hab : a ≠ b) (ha : p.eval a = 0) (hb : p.eval b = 0)
    (hu : (derivative (derivative p)).eval a = u) (hv : (derivative (derivative p)).eval b = v) :
    (derivative p).eval a = -((b - a) / 6) * (2 * u + v) ∧ (derivative p).eval b = (b - a) / 6 * (u + 2 * v) := by
  have hf := cubic_form h
  generalize p.coeff 0 = c0 at hf
  generalize p.coeff 1 = c1 at hf
  generalize p.coeff 2 = c2 at hf
  generalize p.coeff 3 = c3 at hf
  subst hf
  simp only [derivative_add, derivative_mul, derivative_C, derivative_X, derivative_X_pow, eval_add, eval_mul, eval_C, eval_X, eval_pow,
    zero_mul, zero_add, mul_one] at *
  norm_num at *
  subst hu hv
  have hne : b - a ≠ 0 := sub_ne_zero.2 (Ne.symm hab)
  have h1 : c1 + c2 * (a + b) + c3 * (a ^ 2 + a * b + b ^ 2) = 0 := by
    have : (b - a) * (c1 + c2 * (a + b) + c3 * (a ^ 2 + a * b + b ^ 2)) = 0 := by linear_combination hb - ha
    exact (mul_eq_zero.1 this).resolve_left hne
  constructor <;> linear_combination h1

/-- A cubic with vanishing values and curvatures at both ends is zero. -/
theorem cubic_zero {p : K[X]} (h : p.natDegree ≤ 3) {a b : K} (hab : a ≠ b) (ha : p.eval a = 0) (hb : p.eval b = 0)
    (hu : (derivative (derivative p)).eval a = 0) (hv : (derivative (derivative p)).eval b = 0) : p = 0 := by
  have hf := cubic_form h
  generalize p.coeff 0 = c0 at hf
  generalize p.coeff 1 = c1 at hf
  generalize p.coeff 2 = c2 at hf
  generalize p.coeff 3 = c3 at hf
  subst hf
  simp only [derivative_add, derivative_mul, derivative_C, derivative_X, derivative_X_pow, eval_add, eval_mul, eval_C, eval_X, eval_pow,
    zero_mul, zero_add, mul_one] at *
  norm_num at *
  have hne : b - a ≠ 0 := sub_ne_zero.2 (Ne.symm hab)
  have h3 : c3 = 0 := by
    have : (b - a) * c3 = 0 := by linear_combination (hv - hu) / 6
    exact (mul_eq_zero.1 this).resolve_left hne
  subst h3
  have h2 : c2 = 0 := by linear_combination hu / 2
  subst h2
  have h1 : c1 = 0 := by
    have : (b - a) * c1 = 0 := by linear_combination hb - ha
    exact (mul_eq_zero.1 this).resolve_left hne
  subst h1
  have h0 : c0 = 0 := by linear_combination ha
  subst h0
  simp

/-- The end condition with slope zero instead of the given slope. -/
def EndCond.zero : EndCond K → EndCond K
  | .natural => .natural
  | .slope _ => .slope 0

/-- A spline through zeros with homogeneous end conditions has no curvature. -/
theorem zero_curvature {x m : ℕ → K} {n : ℕ} {p : ℕ → K[X]} {l r : EndCond K} (hx : ∀ k, k + 1 < n → x k < x (k + 1))
    (hn : 2 ≤ n) (h : IsSpline x (fun _ => 0) m n l.zero r.zero p) : ∀ k < n, m k = 0 := by
  classical
  obtain ⟨j, hj, hmax⟩ := Finset.exists_max_image (Finset.range n) (fun k => |m k|) ⟨0, by simp; omega⟩
  rw [Finset.mem_range] at hj
  have hle : ∀ k < n, |m k| ≤ |m j| := fun k hk => hmax k (Finset.mem_range.2 hk)
  have hs : ∀ k, k + 1 < n → (derivative (p k)).eval (x k) = -((x (k + 1) - x k) / 6) * (2 * m k + m (k + 1)) ∧
      (derivative (p k)).eval (x (k + 1)) = (x (k + 1) - x k) / 6 * (m k + 2 * m (k + 1)) := fun k hk =>
    cubic_slopes (h.cubic k hk) (hx k hk).ne (h.interp_left k hk) (h.interp_right k hk) (h.curv_left k hk) (h.curv_right k hk)
  have half : ∀ u v : K, 2 * u + v = 0 → |v| ≤ |u| → u = 0 := by
    intro u v e hv
    have hv' : v = -(2 * u) := by linear_combination e
    rw [hv', abs_neg, abs_mul, abs_two] at hv
    have : |u| ≤ 0 := by linarith
    exact abs_nonpos_iff.1 this
  have hzero : m j = 0 := by
    rcases Nat.eq_zero_or_pos j with rfl | hpos
    · have hl := h.left_end
      cases l with
      | natural =>
        have : (derivative (derivative (p 0))).eval (x 0) = 0 := hl
        rw [← this]
        exact (h.curv_left 0 (by omega)).symm
      | slope s =>
        have e : (derivative (p 0)).eval (x 0) = 0 := hl
        rw [(hs 0 (by omega)).1] at e
        have hd := sub_pos.2 (hx 0 (by omega))
        refine half (m 0) (m 1) ?_ (hle 1 (by omega))
        rcases mul_eq_zero.1 e with e | e
        · exfalso
          simp only [zero_add] at e hd
          linarith
        · exact e
    · rcases Nat.lt_or_ge (j + 1) n with hlt | hge
      · obtain ⟨i, rfl⟩ : ∃ i, j = i + 1 := ⟨j - 1, by omega⟩
        have e := h.smooth i (by omega)
        rw [(hs i (by omega)).2, (hs (i + 1) (by omega)).1] at e
        have d1 := sub_pos.2 (hx i (by omega))
        have d2 := sub_pos.2 (hx (i + 1) (by omega))
        have a1 := hle i (by omega)
        have a2 := hle (i + 1 + 1) (by omega)
        generalize x (i + 1) - x i = g at *
        generalize x (i + 1 + 1) - x (i + 1) = g' at *
        have e' : 2 * (g + g') * m (i + 1) = -(g * m i + g' * m (i + 1 + 1)) := by linear_combination 6 * e
        have hb : |2 * (g + g') * m (i + 1)| ≤ (g + g') * |m (i + 1)| := by
          rw [e', abs_neg]
          refine (abs_add_le _ _).trans ?_
          rw [abs_mul, abs_mul, abs_of_pos d1, abs_of_pos d2]
          nlinarith
        rw [abs_mul, abs_of_pos (by linarith : (0 : K) < 2 * (g + g'))] at hb
        have h0 := abs_nonneg (m (i + 1))
        have : |m (i + 1)| ≤ 0 := by
          by_contra hc
          rw [not_le] at hc
          nlinarith [mul_pos (add_pos d1 d2) hc]
        exact abs_nonpos_iff.1 this
      · obtain ⟨i, rfl⟩ : ∃ i, j = i + 1 := ⟨j - 1, by omega⟩
        obtain rfl : n = i + 2 := by omega
        have hr := h.right_end
        simp only [Nat.add_sub_cancel, show i + 2 - 1 = i + 1 by omega] at hr
        cases r with
        | natural =>
          have : (derivative (derivative (p i))).eval (x (i + 1)) = 0 := hr
          rw [← this]
          exact (h.curv_right i (by omega)).symm
        | slope s =>
          have e : (derivative (p i)).eval (x (i + 1)) = 0 := hr
          rw [(hs i (by omega)).2] at e
          have hd := sub_pos.2 (hx i (by omega))
          refine half (m (i + 1)) (m i) ?_ (hle i (by omega))
          rcases mul_eq_zero.1 e with e | e
          · exfalso; linarith
          · linear_combination e
  intro k hk
  have := hle k hk
  rw [hzero, abs_zero] at this
  exact abs_nonpos_iff.1 this

/-- **Uniqueness.** Two interpolating splines with the same points and end conditions have the same pieces. -/
theorem spline_unique {x y m m' : ℕ → K} {n : ℕ} {p q : ℕ → K[X]} {l r : EndCond K} (hx : ∀ k, k + 1 < n → x k < x (k + 1))
    (hn : 2 ≤ n) (hp : IsSpline x y m n l r p) (hq : IsSpline x y m' n l r q) : ∀ k, k + 1 < n → p k = q k := by
  have hend : ∀ (e : EndCond K) (a b : K[X]) (z : K), e.Holds a z → e.Holds b z → e.zero.Holds (a - b) z := by
    intro e a b z ha hb
    cases e <;> simp_all [EndCond.Holds, EndCond.zero]
  have hd : IsSpline x (fun _ => 0) (fun k => m k - m' k) n l.zero r.zero (fun k => p k - q k) :=
    { cubic := fun k hk => (natDegree_sub_le _ _).trans (max_le (hp.cubic k hk) (hq.cubic k hk))
      interp_left := fun k hk => by rw [eval_sub, hp.interp_left k hk, hq.interp_left k hk, sub_self]
      interp_right := fun k hk => by rw [eval_sub, hp.interp_right k hk, hq.interp_right k hk, sub_self]
      curv_left := fun k hk => by rw [derivative_sub, derivative_sub, eval_sub, hp.curv_left k hk, hq.curv_left k hk]
      curv_right := fun k hk => by rw [derivative_sub, derivative_sub, eval_sub, hp.curv_right k hk, hq.curv_right k hk]
      smooth := fun k hk => by rw [derivative_sub, derivative_sub, eval_sub, eval_sub, hp.smooth k hk, hq.smooth k hk]
      left_end := hend l _ _ _ hp.left_end hq.left_end
      right_end := hend r _ _ _ hp.right_end hq.right_end }
  have hz := zero_curvature hx hn hd
  intro k hk
  rw [← sub_eq_zero]
  exact cubic_zero (hd.cubic k hk) (hx k hk).ne (hd.interp_left k hk) (hd.interp_right k hk)
    ((hd.curv_left k hk).trans (hz k (by omega))) ((hd.curv_right k hk).trans (hz (k + 1) (by omega)))

end Verif.Spec
