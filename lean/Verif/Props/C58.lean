/-
C58  Embedding functions outside of their range.
-/
import Verif.Model.ThreeBody
import Verif.Lemmas.ForceExample
import Mathlib.Algebra.Order.Field.Basic
import Mathlib.Tactic.Linarith
import Mathlib.Tactic.Ring
import Mathlib.Tactic.NormNum

namespace Verif.Props

open Verif.Force

variable {K : Type*} [Field K] [LinearOrder K] [IsStrictOrderedRing K]

/-- The point of the interval `[lo, hi]` nearest to `x`. -/
def nearest (lo hi x : K) : K := max lo (min hi x)

/-- `f` is continued by straight lines outside of `[lo, hi]`, `f'` being the slope. -/
def lineOut (f f' : K → K) (lo hi x : K) : K := f (nearest lo hi x) + (x - nearest lo hi x) * f' (nearest lo hi x)

omit [IsStrictOrderedRing K] in
theorem nearest_below {lo hi x : K} (h : lo ≤ hi) (hx : x ≤ lo) : nearest lo hi x = lo := by
  unfold nearest
  rw [min_eq_right (hx.trans h), max_eq_left hx]

omit [IsStrictOrderedRing K] in
theorem nearest_above {lo hi x : K} (h : lo ≤ hi) (hx : hi ≤ x) : nearest lo hi x = hi := by
  unfold nearest
  rw [min_eq_left hx, max_eq_right h]

omit [IsStrictOrderedRing K] in
theorem nearest_inside {lo hi x : K} (h1 : lo ≤ x) (h2 : x ≤ hi) : nearest lo hi x = x := by
  unfold nearest
  rw [min_eq_right h2, max_eq_right h1]

/-- **C58 with `RESCALE`**, EAM: the density used is the nearest one in the range, energy and slope are the ones there, and the limiting
constraint is a thousand times the squared distance to the range. -/
theorem C58_rescale (b : Build) (hb : b.rescale = true) (P : EamPots K) (col : Nat) (hr : P.beg col ≤ P.fin col) (x : K) :
    (embed b P col x).rho = nearest (P.beg col) (P.fin col) x ∧
    (embed b P col x).value = P.val col (nearest (P.beg col) (P.fin col) x) ∧
    (embed b P col x).grad = P.grad col (nearest (P.beg col) (P.fin col) x) ∧
    (embed b P col x).limit = 1000 * (x - nearest (P.beg col) (P.fin col) x) ^ 2 := by
  unfold embed dummyWeight
  rw [if_pos hb]
  simp only
  by_cases h1 : P.fin col < x
  · have h2 : ¬ P.fin col < P.beg col := not_lt.2 hr
    rw [nearest_above hr h1.le]
    simp only [if_pos h1, if_neg h2, true_and]
    ring
  · simp only [if_neg h1]
    by_cases h2 : x < P.beg col
    · rw [nearest_below hr h2.le]
      simp only [if_pos h2, true_and]
      ring
    · rw [nearest_inside (not_lt.1 h2) (not_lt.1 h1)]
      simp only [if_neg h2, true_and]
      ring

/-- **C58 with `RESCALE`**, MEAM: the same. -/
theorem C58_rescale_meam (b : Build) (hb : b.rescale = true) (P : EamPots K) (col : Nat) (hr : P.beg col ≤ P.fin col) (x : K) :
    (meamEmbed b P col x).rho = nearest (P.beg col) (P.fin col) x ∧
    (meamEmbed b P col x).value = P.val col (nearest (P.beg col) (P.fin col) x) ∧
    (meamEmbed b P col x).grad = P.grad col (nearest (P.beg col) (P.fin col) x) ∧
    (meamEmbed b P col x).limit = 1000 * (x - nearest (P.beg col) (P.fin col) x) ^ 2 := by
  unfold meamEmbed dummyWeight
  rw [if_pos hb]
  by_cases h2 : x < P.beg col
  · rw [nearest_below hr h2.le]
    simp only [if_pos h2, true_and]
    ring
  · by_cases h1 : P.fin col < x
    · rw [nearest_above hr h1.le]
      simp only [if_neg h2, if_pos h1, true_and]
      ring
    · rw [nearest_inside (not_lt.1 h2) (not_lt.1 h1)]
      simp only [if_neg h2, if_neg h1, true_and]
      ring

/-- **C58 for tables without `RESCALE`, up to the end of the range**: inside the function itself, below the straight line through
its first point.  Missing for the full claim: above the range, see `C58_violated`. -/
theorem C58_partial (b : Build) (hb : b.rescale = false) (ha : b.apot = false) (P : EamPots K) (col : Nat) (hr : P.beg col ≤ P.fin col)
    (x : K) (hx : x ≤ P.fin col) :
    (embed b P col x).rho = x ∧ (embed b P col x).value = lineOut (P.val col) (P.grad col) (P.beg col) (P.fin col) x ∧
    (embed b P col x).grad = P.grad col (nearest (P.beg col) (P.fin col) x) ∧ (embed b P col x).limit = 0 := by
  unfold embed lineOut
  simp only [hb, ha, Bool.false_eq_true, if_false]
  by_cases h2 : x < P.beg col
  · rw [nearest_below hr h2.le]
    simp only [if_pos h2, true_and, and_self]
  · rw [nearest_inside (not_lt.1 h2) hx]
    simp only [if_neg h2, if_neg (not_lt.2 hx), sub_self, zero_mul, add_zero, true_and, and_self]

/-- What is used above the range: a straight line which has the slope and the value of the function half a step before the end. -/
theorem C58_above (b : Build) (hb : b.rescale = false) (ha : b.apot = false) (P : EamPots K) (col : Nat) (hr : P.beg col ≤ P.fin col)
    (x : K) (hx : P.fin col < x) :
    (embed b P col x).value = P.val col (P.fin col - P.step col / 2) + (x - P.fin col) * P.grad col (P.fin col - P.step col / 2) := by
  have h2 : ¬ x < P.beg col := not_lt.2 (hr.trans hx.le)
  have e : P.fin col - 1 / 2 * P.step col = P.fin col - P.step col / 2 := by ring
  unfold embed
  simp only [hb, ha, Bool.false_eq_true, if_false, if_neg h2, if_pos hx, e]

/-- **C58 is violated above the range.** Even for a table of the linear function `a + c x`, the energy above the range is
not `a + c x`: it is too small by `c` times half a step, so the energy jumps at the end of the range. -/
theorem C58_violated (b : Build) (hb : b.rescale = false) (ha : b.apot = false) (P : EamPots K) (col : Nat) (hr : P.beg col ≤ P.fin col)
    (a c : K) (hc : c ≠ 0) (hs : 0 < P.step col) (hv : ∀ y, P.val col y = a + c * y) (hg : ∀ y, P.grad col y = c) (x : K)
    (hx : P.fin col < x) :
    lineOut (P.val col) (P.grad col) (P.beg col) (P.fin col) x = a + c * x ∧
    (embed b P col x).value = a + c * x - c * (P.step col / 2) ∧ (embed b P col x).value ≠ a + c * x := by
  have h1 : (embed b P col x).value = a + c * x - c * (P.step col / 2) := by
    rw [C58_above b hb ha P col hr x hx, hv, hg]
    ring
  refine ⟨?_, h1, ?_⟩
  · unfold lineOut
    rw [nearest_above hr hx.le, hv, hg]
    ring
  · rw [h1]
    have : c * (P.step col / 2) ≠ 0 := mul_ne_zero hc (div_ne_zero hs.ne' two_ne_zero)
    intro h
    exact this (by linarith)

/-- A table of `3 x` on `[0, 10]` with step 1. -/
def linePots : EamPots ℚ := { exPots with val := fun _ x => 3 * x, grad := fun _ _ => 3 }

def lineBuild (rescale : Bool) : Build := ⟨true, false, false, rescale, false, false⟩

example : linePots.beg 5 ≤ linePots.fin 5 ∧ 0 < linePots.step 5 ∧ linePots.fin 5 = 10 ∧
    (embed (lineBuild false) linePots 5 10).value = 30 ∧ (embed (lineBuild false) linePots 5 11).value = 33 - 3 / 2 ∧
    (embed (lineBuild false) linePots 5 (-2)).value = -6 ∧
    (embed (lineBuild true) linePots 5 12).limit = 4000 ∧ (embed (lineBuild true) linePots 5 (-1)).limit = 1000 ∧
    (meamEmbed (lineBuild true) linePots 5 (-1)).value = 0 := by
  decide +kernel

end Verif.Props
