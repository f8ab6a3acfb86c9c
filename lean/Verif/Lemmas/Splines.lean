import Verif.Model.Splines
import Verif.Spec.Spline
import Mathlib.Algebra.Polynomial.Eval.Degree
import Mathlib.Tactic.FieldSimp
import Mathlib.Tactic.Linarith
import Mathlib.Tactic.LinearCombination
import Mathlib.Tactic.Ring
import Mathlib.Tactic.ComputeDegree

set_option linter.unusedSectionVars false

namespace Verif.Splines

open Polynomial Verif.Spec

section piece
variable {K : Type*} [Field K]

/-- Cubic with values `y0, y1` and second derivatives `m0, m1` at `x0, x1`. -/
noncomputable def piece (x0 x1 y0 y1 m0 m1 : K) : K[X] :=
  C y0 + C ((y1 - y0) / (x1 - x0) - (x1 - x0) * (2 * m0 + m1) / 6) * (X - C x0)
    + C (m0 / 2) * (X - C x0) ^ 2 + C ((m1 - m0) / (6 * (x1 - x0))) * (X - C x0) ^ 3

theorem piece_degree (x0 x1 y0 y1 m0 m1 : K) : (piece x0 x1 y0 y1 m0 m1).natDegree ≤ 3 := by
  unfold piece
  compute_degree

theorem piece_eval (x0 x1 y0 y1 m0 m1 r : K) : (piece x0 x1 y0 y1 m0 m1).eval r =
    y0 + ((y1 - y0) / (x1 - x0) - (x1 - x0) * (2 * m0 + m1) / 6) * (r - x0)
      + m0 / 2 * (r - x0) ^ 2 + (m1 - m0) / (6 * (x1 - x0)) * (r - x0) ^ 3 := by
  simp [piece]

theorem piece_deriv (x0 x1 y0 y1 m0 m1 r : K) :
    (derivative (piece x0 x1 y0 y1 m0 m1)).eval r =
    ((y1 - y0) / (x1 - x0) - (x1 - x0) * (2 * m0 + m1) / 6)
      + m0 / 2 * (2 * (r - x0)) + (m1 - m0) / (6 * (x1 - x0)) * (3 * (r - x0) ^ 2) := by
  simp [piece, derivative_pow]

theorem piece_deriv2 (x0 x1 y0 y1 m0 m1 r : K) :
    (derivative (derivative (piece x0 x1 y0 y1 m0 m1))).eval r =
      m0 / 2 * 2 + (m1 - m0) / (6 * (x1 - x0)) * (3 * (2 * (r - x0))) := by
  simp [piece, derivative_pow]

end piece

variable {K : Type*} [Field K] [LinearOrder K] [IsStrictOrderedRing K]

theorem endCond_eq (yp : K) : endCond yp = if isNatural yp then .natural else .slope yp := rfl

/-- Pure form of the forward elimination (general knots). -/
def fwd (x y : ℕ → K) (yp1 : K) : ℕ → K × K
  | 0 => if isNatural yp1 then (0, 0) else
      (-(1 / 2), 3 / (x 1 - x 0) * ((y 1 - y 0) / (x 1 - x 0) - yp1))
  | i + 1 =>
    let sig := (x (i + 1) - x i) / (x (i + 2) - x i)
    let p := sig * (fwd x y yp1 i).1 + 2
    ((sig - 1) / p,
      (6 * ((y (i + 2) - y (i + 1)) / (x (i + 2) - x (i + 1))
        - (y (i + 1) - y i) / (x (i + 1) - x i)) / (x (i + 2) - x i)
        - sig * (fwd x y yp1 i).2) / p)

/-- Facts about one step of the elimination. -/
theorem fwd_bounds (x y : ℕ → K) (yp1 : K) (n : ℕ) (hx : ∀ k, k + 1 < n → x k < x (k + 1)) :
    ∀ i, i + 1 < n → -1 ≤ (fwd x y yp1 i).1 ∧ (fwd x y yp1 i).1 ≤ 0 := by
  intro i
  induction i with
  | zero =>
    intro _
    unfold fwd
    split <;> norm_num
  | succ i ih =>
    intro hi
    obtain ⟨ha1, ha2⟩ := ih (by omega)
    have h1 := hx i (by omega)
    have h2 : x (i + 1) < x (i + 2) := hx (i + 1) (by omega)
    have d3 : 0 < x (i + 2) - x i := by linarith
    unfold fwd
    set sig := (x (i + 1) - x i) / (x (i + 2) - x i) with hsig
    set a := (fwd x y yp1 i).1
    have s0 : 0 < sig := div_pos (by linarith) d3
    have s1 : sig < 1 := by rw [hsig, div_lt_one d3]; linarith
    have hp : 1 ≤ sig * a + 2 := by nlinarith
    constructor
    · simp only
      rw [le_div_iff₀ (by linarith)]; nlinarith
    · exact div_nonpos_of_nonpos_of_nonneg (by linarith) (by linarith)

theorem pivot_pos (x y : ℕ → K) (yp1 : K) (n : ℕ) (hx : ∀ k, k + 1 < n → x k < x (k + 1))
    (i : ℕ) (hi : i + 2 < n) :
    0 < (x (i + 1) - x i) / (x (i + 2) - x i) * (fwd x y yp1 i).1 + 2 := by
  obtain ⟨ha1, ha2⟩ := fwd_bounds x y yp1 n hx i (by omega)
  have h1 := hx i (by omega)
  have h2 : x (i + 1) < x (i + 2) := hx (i + 1) (by omega)
  have d3 : 0 < x (i + 2) - x i := by linarith
  have s0 : 0 < (x (i + 1) - x i) / (x (i + 2) - x i) := div_pos (by linarith) d3
  have s1 : (x (i + 1) - x i) / (x (i + 2) - x i) < 1 := by rw [div_lt_one d3]; linarith
  nlinarith

theorem neFwd_ok (x y : ℕ → K) (yp1 : K) (n : ℕ) (hx : ∀ k, k + 1 < n → x k < x (k + 1)) :
    ∀ i, i + 1 < n → neFwd x y yp1 i = .ok (fwd x y yp1 i) := by
  intro i
  induction i with
  | zero =>
    intro hi
    have h0 : x 1 - x 0 ≠ 0 := (sub_pos.2 (hx 0 hi)).ne'
    unfold neFwd fwd
    split
    · rfl
    · simp only [cdiv_ok h0]
      rfl
  | succ i ih =>
    intro hi
    have h1 := hx i (by omega)
    have h2 : x (i + 1) < x (i + 2) := hx (i + 1) (by omega)
    have d1 : x (i + 1) - x i ≠ 0 := (sub_pos.2 h1).ne'
    have d2 : x (i + 2) - x (i + 1) ≠ 0 := (sub_pos.2 h2).ne'
    have d3 : x (i + 2) - x i ≠ 0 := (sub_pos.2 (h1.trans h2)).ne'
    have hp := (pivot_pos x y yp1 n hx i (by omega)).ne'
    unfold neFwd
    rw [ih (by omega)]
    simp only [bind, Except.bind, cdiv_ok d1, cdiv_ok d2, cdiv_ok d3, cdiv_ok hp]
    rfl

/-- Pure form of the last second derivative. -/
def last (x y : ℕ → K) (n : ℕ) (yp1 ypn : K) : K :=
  if isNatural ypn then 0 else
    (3 / (x (n - 1) - x (n - 2)) * (ypn - (y (n - 1) - y (n - 2)) / (x (n - 1) - x (n - 2)))
      - 1 / 2 * (fwd x y yp1 (n - 2)).2) / (1 / 2 * (fwd x y yp1 (n - 2)).1 + 1)

theorem last_pivot (x y : ℕ → K) (yp1 : K) (n : ℕ) (hn : 2 ≤ n)
    (hx : ∀ k, k + 1 < n → x k < x (k + 1)) : 0 < 1 / 2 * (fwd x y yp1 (n - 2)).1 + 1 := by
  have := fwd_bounds x y yp1 n hx (n - 2) (by omega)
  linarith

theorem neLast_ok (x y : ℕ → K) (yp1 ypn : K) (n : ℕ) (hn : 2 ≤ n)
    (hx : ∀ k, k + 1 < n → x k < x (k + 1)) :
    neLast x y n yp1 ypn = .ok (last x y n yp1 ypn) := by
  have h1 : x (n - 1) - x (n - 2) ≠ 0 := by
    have := hx (n - 2) (by omega)
    rw [show n - 2 + 1 = n - 1 by omega] at this
    exact (sub_pos.2 this).ne'
  have h2 := (last_pivot x y yp1 n hn hx).ne'
  unfold neLast last
  rw [neFwd_ok x y yp1 n hx (n - 2) (by omega)]
  simp only [bind, Except.bind]
  split
  · rw [cdiv_ok (by simp)]; simp
  · simp only [cdiv_ok h1, cdiv_ok h2]

/-- Pure form of the back substitution: value of `y2[n-1-j]`. -/
def back (x y : ℕ → K) (n : ℕ) (yp1 ypn : K) : ℕ → K
  | 0 => last x y n yp1 ypn
  | j + 1 => (fwd x y yp1 (n - 1 - (j + 1))).1 * back x y n yp1 ypn j
      + (fwd x y yp1 (n - 1 - (j + 1))).2

theorem neBack_ok (x y : ℕ → K) (yp1 ypn : K) (n : ℕ) (hn : 2 ≤ n)
    (hx : ∀ k, k + 1 < n → x k < x (k + 1)) :
    ∀ j, neBack x y n yp1 ypn j = .ok (back x y n yp1 ypn j) := by
  intro j
  induction j with
  | zero => exact neLast_ok x y yp1 ypn n hn hx
  | succ j ih =>
    unfold neBack
    rw [ih, neFwd_ok x y yp1 n hx _ (by omega)]
    rfl

/-- Pure form of `spline_ne`. -/
def second (x y : ℕ → K) (n : ℕ) (yp1 ypn : K) (k : ℕ) : K := back x y n yp1 ypn (n - 1 - k)

omit [IsStrictOrderedRing K] in
theorem second_step (x y : ℕ → K) (yp1 ypn : K) (n k : ℕ) (hk : k + 1 < n) :
    second x y n yp1 ypn k = (fwd x y yp1 k).1 * second x y n yp1 ypn (k + 1)
      + (fwd x y yp1 k).2 := by
  unfold second
  rw [show n - 1 - k = (n - 1 - (k + 1)) + 1 by omega, back,
    show n - 1 - (n - 1 - (k + 1) + 1) = k by omega]

/-- Interior equation of the spline system. -/
theorem second_interior (x y : ℕ → K) (yp1 ypn : K) (n : ℕ)
    (hx : ∀ k, k + 1 < n → x k < x (k + 1)) (i : ℕ) (hi : i + 2 < n) :
    (x (i + 1) - x i) * second x y n yp1 ypn i
      + 2 * (x (i + 2) - x i) * second x y n yp1 ypn (i + 1)
      + (x (i + 2) - x (i + 1)) * second x y n yp1 ypn (i + 2)
    = 6 * ((y (i + 2) - y (i + 1)) / (x (i + 2) - x (i + 1))
        - (y (i + 1) - y i) / (x (i + 1) - x i)) := by
  have h1 := hx i (by omega)
  have h2 : x (i + 1) < x (i + 2) := hx (i + 1) (by omega)
  have d3 : x (i + 2) - x i ≠ 0 := (sub_pos.2 (h1.trans h2)).ne'
  have hp := (pivot_pos x y yp1 n hx i (by omega)).ne'
  have e0 := second_step x y yp1 ypn n i (by omega)
  have e1 := second_step x y yp1 ypn n (i + 1) (by omega)
  rw [fwd] at e1
  simp only [show i + 1 + 1 = i + 2 from rfl] at e1
  set A := (fwd x y yp1 i).1
  set U := (fwd x y yp1 i).2
  set D := (y (i + 2) - y (i + 1)) / (x (i + 2) - x (i + 1)) - (y (i + 1) - y i) / (x (i + 1) - x i)
  set m0 := second x y n yp1 ypn i
  set m1 := second x y n yp1 ypn (i + 1)
  set m2 := second x y n yp1 ypn (i + 2)
  set sig := (x (i + 1) - x i) / (x (i + 2) - x i) with hsig
  have hs : sig * (x (i + 2) - x i) = x (i + 1) - x i := by rw [hsig]; field_simp
  have e2 : (sig * A + 2) * m1 = (sig - 1) * m2 + (6 * D / (x (i + 2) - x i) - sig * U) := by
    rw [e1]; field_simp
  have e3 : (x (i + 2) - x i) * ((sig * A + 2) * m1)
      = (x (i + 2) - x i) * (sig - 1) * m2 + 6 * D - (x (i + 2) - x i) * sig * U := by
    rw [e2]; field_simp
    ring
  rw [e0]
  linear_combination e3 - (A * m1 + U - m2) * hs

/-- The pieces defined by knots, values and second derivatives. -/
noncomputable def pieces (x y m : ℕ → K) (k : ℕ) : K[X] :=
  piece (x k) (x (k + 1)) (y k) (y (k + 1)) (m k) (m (k + 1))

omit [LinearOrder K] [IsStrictOrderedRing K] in
theorem pieces_cubic [CharZero K] (x y m : ℕ → K) (n : ℕ) (hx : ∀ k, k + 1 < n → x k ≠ x (k + 1)) :
    IsPiecewiseCubic x y m n (pieces x y m) where
  cubic k _ := piece_degree ..
  interp_left k _ := by simp [pieces, piece_eval]
  interp_right k hk := by
    have h := sub_ne_zero.2 (hx k hk).symm
    rw [pieces, piece_eval]
    field_simp
    ring
  curv_left k _ := by simp [pieces, piece_deriv2]
  curv_right k hk := by
    have h := sub_ne_zero.2 (hx k hk).symm
    rw [pieces, piece_deriv2]
    field_simp
    ring

theorem second_isSpline (x y : ℕ → K) (yp1 ypn : K) (n : ℕ) (hn : 2 ≤ n)
    (hx : ∀ k, k + 1 < n → x k < x (k + 1)) :
    IsSpline x y (second x y n yp1 ypn) n (endCond yp1) (endCond ypn)
      (pieces x y (second x y n yp1 ypn)) where
  toIsPiecewiseCubic := pieces_cubic _ _ _ _ fun k hk => (hx k hk).ne
  smooth k hk := by
    have h1 := (sub_pos.2 (hx k (by omega))).ne'
    have h2 : x (k + 2) - x (k + 1) ≠ 0 := (sub_pos.2 (hx (k + 1) (by omega))).ne'
    have e := second_interior x y yp1 ypn n hx k hk
    rw [pieces, pieces, piece_deriv, piece_deriv]
    simp only [show k + 1 + 1 = k + 2 from rfl]
    set m0 := second x y n yp1 ypn k
    set m1 := second x y n yp1 ypn (k + 1)
    set m2 := second x y n yp1 ypn (k + 2)
    set S1 := (y (k + 2) - y (k + 1)) / (x (k + 2) - x (k + 1))
    set S0 := (y (k + 1) - y k) / (x (k + 1) - x k)
    have e4 : (m1 - m0) / (6 * (x (k + 1) - x k)) * (3 * (x (k + 1) - x k) ^ 2)
        = (m1 - m0) * (x (k + 1) - x k) / 2 := by field_simp; ring
    rw [e4]
    linear_combination e / 6
  left_end := by
    have h1 : x 1 - x 0 ≠ 0 := (sub_pos.2 (hx 0 (by omega))).ne'
    have e := second_step x y yp1 ypn n 0 (by omega)
    rw [fwd] at e
    rw [endCond_eq]
    by_cases hnat : isNatural yp1
    · rw [if_pos hnat] at e ⊢
      simp only [EndCond.Holds, pieces, piece_deriv2]
      simp at e
      simp [e]
    · rw [if_neg hnat] at e ⊢
      simp only [EndCond.Holds, pieces, piece_deriv]
      simp only [Nat.zero_add] at e ⊢
      rw [e]
      field_simp
      ring
  right_end := by
    have h1 : x (n - 1) - x (n - 2) ≠ 0 := by
      have := hx (n - 2) (by omega)
      rw [show n - 2 + 1 = n - 1 by omega] at this
      exact (sub_pos.2 this).ne'
    have e := second_step x y yp1 ypn n (n - 2) (by omega)
    have hp := (last_pivot x y yp1 n hn hx).ne'
    have el : second x y n yp1 ypn (n - 1) = last x y n yp1 ypn := by
      unfold second; rw [Nat.sub_self]; rfl
    unfold last at el
    have hidx : n - 2 + 1 = n - 1 := by omega
    rw [hidx] at e
    rw [endCond_eq]
    by_cases hnat : isNatural ypn
    · rw [if_pos hnat] at el ⊢
      simp only [EndCond.Holds, pieces, piece_deriv2, hidx]
      rw [el]
      field_simp
      ring
    · rw [if_neg hnat] at el ⊢
      simp only [EndCond.Holds, pieces, piece_deriv, hidx]
      set A := (fwd x y yp1 (n - 2)).1
      set U := (fwd x y yp1 (n - 2)).2
      set m1 := second x y n yp1 ypn (n - 1)
      set m0 := second x y n yp1 ypn (n - 2)
      set H := x (n - 1) - x (n - 2)
      set S := (y (n - 1) - y (n - 2)) / H
      have e5 : (1 / 2 * A + 1) * m1 = 3 / H * (ypn - S) - 1 / 2 * U := by
        rw [eq_div_iff hp] at el
        linear_combination el
      have e6 : H * ((1 / 2 * A + 1) * m1) = 3 * (ypn - S) - H * (1 / 2 * U) := by
        rw [e5]; field_simp
      have e7 : (m1 - m0) / (6 * H) * (3 * H ^ 2) = (m1 - m0) * H / 2 := by
        field_simp; ring
      rw [e7, e]
      linear_combination e6 / 3

/-- Equidistant knots: the two eliminations coincide. -/
theorem edFwd_eq_neFwd (x0 h : K) (hh : h ≠ 0) (y : ℕ → K) (yp1 : K) :
    ∀ i, edFwd h y yp1 i = neFwd (fun k => x0 + k * h) y yp1 i := by
  intro i
  induction i with
  | zero =>
    unfold edFwd neFwd
    simp
  | succ i ih =>
    unfold edFwd neFwd
    rw [ih]
    have e1 : x0 + ((i + 1 : ℕ) : K) * h - (x0 + (i : K) * h) = h := by push_cast; ring
    have e2 : x0 + ((i + 2 : ℕ) : K) * h - (x0 + ((i + 1 : ℕ) : K) * h) = h := by push_cast; ring
    have e3 : x0 + ((i + 2 : ℕ) : K) * h - (x0 + (i : K) * h) = 2 * h := by push_cast; ring
    have e4 : cdiv h (2 * h) = .ok (1 / 2 : K) := by
      rw [cdiv_ok (by simp [hh])]; congr 1; field_simp
    have e5 : (1 / 2 - 1 : K) = -(1 / 2) := by norm_num
    simp only [e1, e2, e3, e4, bind, Except.bind, e5]

theorem edBack_eq_neBack (x0 h : K) (hh : h ≠ 0) (y : ℕ → K) (yp1 ypn : K) (n : ℕ) (hn : 2 ≤ n) :
    ∀ j, edBack h y n yp1 ypn j = neBack (fun k => x0 + k * h) y n yp1 ypn j := by
  intro j
  induction j with
  | zero =>
    unfold edBack neBack edLast neLast
    rw [edFwd_eq_neFwd x0 h hh]
    have e : x0 + ((n - 1 : ℕ) : K) * h - (x0 + ((n - 2 : ℕ) : K) * h) = h := by
      rw [show n - 1 = (n - 2) + 1 by omega]; push_cast; ring
    simp only [e]
  | succ j ih =>
    unfold edBack neBack
    rw [ih, edFwd_eq_neFwd x0 h hh]

end Verif.Splines
