import Verif.Lemmas.Splines
import Mathlib.Algebra.Order.Floor.Ring

set_option linter.unusedSectionVars false

namespace Verif.Splines

open Polynomial Verif.Spec

variable {K : Type*} [Field K] [LinearOrder K] [IsStrictOrderedRing K]

theorem Column.EqDist.step_pos {c : Column K} (h : c.EqDist) : 0 < c.step := by
  rw [h.step_eq]
  have h1 : (c.first : K) < (c.last : K) := by exact_mod_cast h.knots
  exact div_pos (sub_pos.2 h.range) (sub_pos.2 h1)

theorem Column.EqDist.invstep_pos {c : Column K} (h : c.EqDist) : 0 < c.invstep := by
  rw [h.invstep_eq]; exact one_div_pos.2 h.step_pos

theorem Column.EqDist.step_inv {c : Column K} (h : c.EqDist) : c.step * c.invstep = 1 := by
  rw [h.invstep_eq]; exact mul_one_div_cancel h.step_pos.ne'

theorem Column.EqDist.span {c : Column K} (h : c.EqDist) :
    c.beg + ((c.last : K) - (c.first : K)) * c.step = c.fin := by
  have h1 : (c.last : K) - (c.first : K) ≠ 0 := by
    have : (c.first : K) < (c.last : K) := by exact_mod_cast h.knots
    exact (sub_pos.2 this).ne'
  rw [h.step_eq]; field_simp; ring

theorem Column.EqDist.span' {c : Column K} (h : c.EqDist) :
    c.beg + ((c.last - c.first : ℕ) : K) * c.step = c.fin := by
  rw [Nat.cast_sub h.knots.le]; exact h.span

/-- Position of knot `i` (counted from the start of the column). -/
def Column.knot (c : Column K) (i : ℕ) : K := c.beg + i * c.step

theorem edSlot_eq [FloorSemiring K] {c : Column K} (h : c.EqDist) {r : K} {i : ℕ}
    (h1 : c.knot i ≤ r) (h2 : r < c.knot (i + 1)) :
    edSlot c r = .ok (i + c.first, (r - c.knot i) * c.invstep) := by
  have hs := h.step_pos
  have hi := h.invstep_pos
  have hsi := h.step_inv
  unfold Column.knot at *
  push_cast at h2
  have hi0 : (0 : K) ≤ (i : K) * c.step := mul_nonneg (Nat.cast_nonneg i) hs.le
  have hrr : ¬ r - c.beg < 0 := by intro hc; linarith
  have hfl : ⌊(r - c.beg) * c.invstep⌋₊ = i := by
    rw [Nat.floor_eq_iff (mul_nonneg (by linarith) hi.le)]
    constructor
    · have : (i : K) = (i * c.step) * c.invstep := by rw [mul_assoc, hsi, mul_one]
      rw [this]
      exact mul_le_mul_of_nonneg_right (by linarith) hi.le
    · have : (i : K) + 1 = ((i + 1) * c.step) * c.invstep := by rw [mul_assoc, hsi, mul_one]
      rw [this]
      exact mul_lt_mul_of_pos_right (by linarith) hi
  unfold edSlot
  simp only [if_neg hrr, hfl]
  congr 3
  ring

/-- Every argument of `[begin, end)` lies in one of the intervals. -/
theorem exists_interval [FloorSemiring K] {c : Column K} (h : c.EqDist) {r : K}
    (h1 : c.beg ≤ r) (h2 : r < c.fin) :
    ∃ i, c.first + i < c.last ∧ c.knot i ≤ r ∧ r < c.knot (i + 1) := by
  have hs := h.step_pos
  have hi := h.invstep_pos
  have hsi := h.step_inv
  have h0 : 0 ≤ (r - c.beg) * c.invstep := mul_nonneg (by linarith) hi.le
  have e : (r - c.beg) * c.invstep * c.step = r - c.beg := by rw [mul_assoc, mul_comm c.invstep,
    hsi, mul_one]
  have f1 := Nat.floor_le h0
  have f2 := Nat.lt_floor_add_one ((r - c.beg) * c.invstep)
  refine ⟨⌊(r - c.beg) * c.invstep⌋₊, ?_, ?_, ?_⟩
  · have hs' := h.span'
    have : (⌊(r - c.beg) * c.invstep⌋₊ : K) < ((c.last - c.first : ℕ) : K) := by
      refine lt_of_le_of_lt f1 ?_
      have : ((c.last - c.first : ℕ) : K) = (((c.last - c.first : ℕ) : K) * c.step) * c.invstep := by
        rw [mul_assoc, hsi, mul_one]
      rw [this]
      exact mul_lt_mul_of_pos_right (by linarith) hi
    have := Nat.cast_lt.1 this
    omega
  · unfold Column.knot
    have := mul_le_mul_of_nonneg_right f1 hs.le
    linarith
  · unfold Column.knot
    have := mul_lt_mul_of_pos_right f2 hs
    push_cast
    linarith

/-- Value formula of all look-up routines equals the cubic piece. -/
theorem value_formula {x0 x1 y0 y1 m0 m1 r b : K} (h : x1 - x0 ≠ 0) (hb : b = (r - x0) / (x1 - x0)) :
    (1 - b) * y0 + b * y1 + (((1 - b) * (1 - b) * (1 - b) - (1 - b)) * m0 + (b * b * b - b) * m1)
      * ((x1 - x0) * (x1 - x0)) / 6 = (piece x0 x1 y0 y1 m0 m1).eval r := by
  rw [piece_eval]
  have hr : r - x0 = b * (x1 - x0) := by rw [hb]; field_simp
  rw [hr]
  field_simp
  ring

theorem slope_formula {x0 x1 y0 y1 m0 m1 r b : K} (h : x1 - x0 ≠ 0) (hb : b = (r - x0) / (x1 - x0)) :
    (y1 - y0) / (x1 - x0) + ((3 * (b * b) - 1) * m1 - (3 * ((1 - b) * (1 - b)) - 1) * m0)
      * (x1 - x0) / 6 = (derivative (piece x0 x1 y0 y1 m0 m1)).eval r := by
  rw [piece_deriv]
  have hr : r - x0 = b * (x1 - x0) := by rw [hb]; field_simp
  rw [hr]
  field_simp
  ring

omit [IsStrictOrderedRing K] in
theorem rd_ok {c : Column K} (a : ℕ → K) {k : ℕ} (h1 : c.first ≤ k) (h2 : k ≤ c.last) :
    c.rd a k = .ok (a k) := if_pos ⟨h1, h2⟩

/-- Knots, values and second derivatives of a column, counted from its start. -/
def Column.vals (c : Column K) (a : ℕ → K) (i : ℕ) : K := a (c.first + i)

theorem knot_succ_sub (c : Column K) (i : ℕ) : c.knot (i + 1) - c.knot i = c.step := by
  unfold Column.knot; push_cast; ring

section ed
variable [FloorSemiring K] {c : Column K} (h : c.EqDist) (xi : ℕ → K) {r : K} {i : ℕ}
  (hi : c.first + i < c.last) (h1 : c.knot i ≤ r) (h2 : r < c.knot (i + 1))
include h hi h1 h2

theorem splintEd_eq : splintEd c xi r = .ok ((pieces c.knot (c.vals xi) (c.vals c.d2tab) i).eval r) := by
  have hinv := h.invstep_pos.ne'
  have hs := h.step_pos.ne'
  unfold splintEd
  rw [edSlot_eq h h1 h2]
  simp only [bind, Except.bind]
  rw [rd_ok xi (by omega) (by omega), rd_ok c.d2tab (by omega) (by omega),
    rd_ok xi (by omega) (by omega), rd_ok c.d2tab (by omega) (by omega)]
  simp only
  rw [cdiv_ok (by simp [hinv])]
  simp only [pure, Except.pure]
  congr 1
  unfold pieces
  rw [← value_formula (b := (r - c.knot i) * c.invstep) (by rw [knot_succ_sub]; exact hs)
    (by rw [knot_succ_sub, h.invstep_eq]; ring)]
  rw [knot_succ_sub]
  unfold Column.vals
  rw [show i + c.first = c.first + i by omega, show c.first + i + 1 = c.first + (i + 1) by omega]
  rw [h.invstep_eq]
  field_simp

theorem splintCombEd_eq : splintCombEd c xi r =
    .ok ((pieces c.knot (c.vals xi) (c.vals c.d2tab) i).eval r,
      (derivative (pieces c.knot (c.vals xi) (c.vals c.d2tab) i)).eval r) := by
  have hinv := h.invstep_pos.ne'
  have hs := h.step_pos.ne'
  unfold splintCombEd
  rw [edSlot_eq h h1 h2]
  simp only [bind, Except.bind]
  rw [rd_ok xi (by omega) (by omega), rd_ok c.d2tab (by omega) (by omega),
    rd_ok xi (by omega) (by omega), rd_ok c.d2tab (by omega) (by omega)]
  simp only
  rw [cdiv_ok (by simp [hinv]), cdiv_ok (by simp [hinv])]
  simp only [pure, Except.pure]
  congr 2
  · unfold pieces
    rw [← value_formula (b := (r - c.knot i) * c.invstep) (by rw [knot_succ_sub]; exact hs)
      (by rw [knot_succ_sub, h.invstep_eq]; ring)]
    rw [knot_succ_sub]
    unfold Column.vals
    rw [show i + c.first = c.first + i by omega, show c.first + i + 1 = c.first + (i + 1) by omega]
    rw [h.invstep_eq]
    field_simp
  · unfold pieces
    rw [← slope_formula (b := (r - c.knot i) * c.invstep) (by rw [knot_succ_sub]; exact hs)
      (by rw [knot_succ_sub, h.invstep_eq]; ring)]
    rw [knot_succ_sub]
    unfold Column.vals
    rw [show i + c.first = c.first + i by omega, show c.first + i + 1 = c.first + (i + 1) by omega]
    rw [h.invstep_eq]
    field_simp

theorem splintGradEd_eq : splintGradEd c xi r =
    .ok ((derivative (pieces c.knot (c.vals xi) (c.vals c.d2tab) i)).eval r) := by
  have hinv := h.invstep_pos.ne'
  have hs := h.step_pos.ne'
  unfold splintGradEd
  rw [edSlot_eq h h1 h2]
  simp only [bind, Except.bind]
  rw [if_neg (by omega), if_neg (by omega)]
  rw [rd_ok xi (by omega) (by omega), rd_ok c.d2tab (by omega) (by omega),
    rd_ok xi (by omega) (by omega), rd_ok c.d2tab (by omega) (by omega)]
  simp only
  rw [cdiv_ok (by simp [hinv])]
  simp only [pure, Except.pure]
  congr 1
  unfold pieces
  rw [← slope_formula (b := (r - c.knot i) * c.invstep) (by rw [knot_succ_sub]; exact hs)
    (by rw [knot_succ_sub, h.invstep_eq]; ring)]
  rw [knot_succ_sub]
  unfold Column.vals
  rw [show i + c.first = c.first + i by omega, show c.first + i + 1 = c.first + (i + 1) by omega]
  rw [h.invstep_eq]
  field_simp

end ed

/-! ### Bisection and general knots -/

omit [Field K] [IsStrictOrderedRing K] in
theorem bisect_spec [Field K] (x : ℕ → K) (r : K) (klo khi : ℕ) (h : klo < khi) :
    (bisect x r klo khi).2 = (bisect x r klo khi).1 + 1 ∧ klo ≤ (bisect x r klo khi).1 ∧
    (bisect x r klo khi).2 ≤ khi ∧
    (x (bisect x r klo khi).1 ≤ r ∨ (bisect x r klo khi).1 = klo) ∧
    (r < x (bisect x r klo khi).2 ∨ (bisect x r klo khi).2 = khi) := by
  induction klo, khi using bisect.induct x r with
  | case1 klo khi hgt hx ih =>
    rw [bisect, if_pos hgt, if_pos hx]
    obtain ⟨a, b, c, d, e⟩ := ih (by omega)
    refine ⟨a, b, by omega, d, ?_⟩
    rcases e with e | e
    · exact Or.inl e
    · left; rw [e]; exact hx
  | case2 klo khi hgt hx ih =>
    rw [bisect, if_pos hgt, if_neg hx]
    obtain ⟨a, b, c, d, e⟩ := ih (by omega)
    refine ⟨a, by omega, c, ?_, e⟩
    rcases d with d | d
    · exact Or.inl d
    · left; rw [d]; exact not_lt.1 hx
  | case3 klo khi hle =>
    rw [bisect, if_neg hle]
    exact ⟨by simp; omega, le_rfl, le_rfl, Or.inr rfl, Or.inr rfl⟩

theorem Column.General.strict {c : Column K} (h : c.General) {a b : ℕ} (ha : c.first ≤ a)
    (hab : a < b) (hb : b ≤ c.last) : c.xcoord a < c.xcoord b := by
  induction b with
  | zero => omega
  | succ b ih =>
    rcases Nat.lt_or_ge a b with hlt | hge
    · exact (ih hlt (by omega)).trans (h.mono b (by omega) (by omega))
    · have : a = b := by omega
      subst this
      exact h.mono a ha (by omega)

theorem Column.General.mono_le {c : Column K} (h : c.General) {a b : ℕ} (ha : c.first ≤ a)
    (hab : a ≤ b) (hb : b ≤ c.last) : c.xcoord a ≤ c.xcoord b := by
  rcases hab.lt_or_eq with h1 | h1
  · exact (h.strict ha h1 hb).le
  · rw [h1]

/-- For an argument of interval `i` (any argument below the table belongs to the first, any above
to the last interval) the bisection returns that interval. -/
theorem bisect_eq {c : Column K} (h : c.General) {r : K} {i : ℕ} (hi : c.first + i < c.last)
    (h1 : c.xcoord (c.first + i) ≤ r ∨ i = 0)
    (h2 : r < c.xcoord (c.first + i + 1) ∨ c.first + i + 1 = c.last) :
    bisect c.xcoord r c.first c.last = (c.first + i, c.first + i + 1) := by
  obtain ⟨a, b, d, e, f⟩ := bisect_spec c.xcoord r c.first c.last h.knots
  set q := bisect c.xcoord r c.first c.last
  have hq : q.1 = c.first + i := by
    rcases lt_trichotomy q.1 (c.first + i) with hlt | heq | hgt
    · exfalso
      rcases f with f | f
      · have : c.xcoord q.2 ≤ c.xcoord (c.first + i) := h.mono_le (by omega) (by omega) (by omega)
        rcases h1 with h1 | h1
        · linarith
        · omega
      · omega
    · exact heq
    · exfalso
      rcases e with e | e
      · have : c.xcoord (c.first + i + 1) ≤ c.xcoord q.1 :=
          h.mono_le (by omega) (by omega) (by omega)
        rcases h2 with h2 | h2
        · linarith
        · omega
      · omega
  apply Prod.ext
  · exact hq
  · rw [a, hq]

/-- Every argument belongs to an interval in the above sense. -/
theorem exists_interval_ne {c : Column K} (h : c.General) (r : K) :
    ∃ i, c.first + i < c.last ∧ (c.xcoord (c.first + i) ≤ r ∨ i = 0) ∧
      (r < c.xcoord (c.first + i + 1) ∨ c.first + i + 1 = c.last) := by
  obtain ⟨a, b, d, e, f⟩ := bisect_spec c.xcoord r c.first c.last h.knots
  set q := bisect c.xcoord r c.first c.last
  refine ⟨q.1 - c.first, by omega, ?_, ?_⟩
  · rw [show c.first + (q.1 - c.first) = q.1 by omega]
    rcases e with e | e
    · exact Or.inl e
    · right; omega
  · rw [show c.first + (q.1 - c.first) + 1 = q.2 by omega]
    exact f

section ne
variable {c : Column K} (h : c.General) (xi : ℕ → K) {r : K} {i : ℕ}
  (hi : c.first + i < c.last)
  (h1 : c.xcoord (c.first + i) ≤ r ∨ i = 0)
  (h2 : r < c.xcoord (c.first + i + 1) ∨ c.first + i + 1 = c.last)
include h hi h1 h2

theorem splintNe_eq : splintNe c xi r =
    .ok ((pieces (c.vals c.xcoord) (c.vals xi) (c.vals c.d2tab) i).eval r) := by
  have hx := (sub_pos.2 (h.mono (c.first + i) (by omega) hi)).ne'
  unfold splintNe
  rw [bisect_eq h hi h1 h2]
  simp only [cdiv_ok hx, bind, Except.bind]
  rw [rd_ok xi (by omega) (by omega), rd_ok c.d2tab (by omega) (by omega),
    rd_ok xi (by omega) (by omega), rd_ok c.d2tab (by omega) (by omega)]
  simp only [pure, Except.pure]
  rw [value_formula hx rfl]
  rfl

theorem splintCombNe_eq : splintCombNe c xi r =
    .ok ((pieces (c.vals c.xcoord) (c.vals xi) (c.vals c.d2tab) i).eval r,
      (derivative (pieces (c.vals c.xcoord) (c.vals xi) (c.vals c.d2tab) i)).eval r) := by
  have hx := (sub_pos.2 (h.mono (c.first + i) (by omega) hi)).ne'
  unfold splintCombNe
  rw [bisect_eq h hi h1 h2]
  simp only [cdiv_ok hx, bind, Except.bind]
  rw [rd_ok xi (by omega) (by omega), rd_ok c.d2tab (by omega) (by omega),
    rd_ok xi (by omega) (by omega), rd_ok c.d2tab (by omega) (by omega)]
  simp only [pure, Except.pure]
  rw [value_formula hx rfl, slope_formula hx rfl]
  rfl

theorem splintGradNe_eq : splintGradNe c xi r =
    .ok ((derivative (pieces (c.vals c.xcoord) (c.vals xi) (c.vals c.d2tab) i)).eval r) := by
  have hx := (sub_pos.2 (h.mono (c.first + i) (by omega) hi)).ne'
  unfold splintGradNe
  rw [bisect_eq h hi h1 h2]
  simp only [cdiv_ok hx, bind, Except.bind]
  rw [rd_ok xi (by omega) (by omega), rd_ok c.d2tab (by omega) (by omega),
    rd_ok xi (by omega) (by omega), rd_ok c.d2tab (by omega) (by omega)]
  simp only [pure, Except.pure]
  rw [slope_formula hx rfl]
  rfl

end ne

end Verif.Splines
