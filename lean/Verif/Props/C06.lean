/-
C06  Interpolated potentials have no kinks.
-/
import Verif.Lemmas.SplineEval
import Verif.Lemmas.SplineGlue
import Verif.Props.C04
import Verif.Props.C08

namespace Verif.Props

open Verif.Splines Verif.Spec Polynomial Set

/-- Two lists of spline second derivatives from the set-up routine: the smoothness of the pieces built
from the stored second derivatives. -/
private theorem smooth_of_second (x y m : ℕ → ℝ) (yp1 ypn : ℝ) (n : ℕ)
    (hx : ∀ k, k + 1 < n → x k < x (k + 1)) (hm : ∀ k, k < n → second x y n yp1 ypn k = m k) :
    ∀ k, k + 2 < n → (derivative (pieces x y m k)).eval (x (k + 1))
      = (derivative (pieces x y m (k + 1))).eval (x (k + 1)) := by
  intro k hk
  have := (second_isSpline x y yp1 ypn n (by omega) hx).smooth k hk
  unfold pieces at this ⊢
  rw [hm k (by omega), hm (k + 1) (by omega), hm (k + 1 + 1) (by omega)] at this
  exact this

/-- Common part: a function given on each interval by the pieces and another one given by their
derivatives. -/
private theorem no_kinks (x y m : ℕ → ℝ) (yp1 ypn : ℝ) (n : ℕ)
    (hx : ∀ k, k + 1 < n → x k < x (k + 1)) (hm : ∀ k, k < n → second x y n yp1 ypn k = m k)
    (f g : ℝ → ℝ)
    (hf : ∀ k, k + 1 < n → ∀ r, x k ≤ r → r < x (k + 1) → f r = (pieces x y m k).eval r)
    (hg : ∀ k, k + 1 < n → ∀ r, x k ≤ r → r < x (k + 1) →
      g r = (derivative (pieces x y m k)).eval r) :
    ∃ s : ℝ → ℝ, ∀ k, k + 1 < n → ∀ r, x k ≤ r → r < x (k + 1) → x 0 < r →
      HasDerivAt f (g r) r ∧ HasDerivAt g (s r) r ∧ ContinuousAt s r ∧ s (x k) = m k := by
  classical
  have hp := pieces_cubic x y m n fun k hk => (hx k hk).ne
  have hs := smooth_of_second x y m yp1 ypn n hx hm
  have hmono : ∀ j k, j ≤ k → k < n → x j ≤ x k := by
    intro j k hjk
    induction hjk with
    | refl => intro _; exact le_rfl
    | step _ ih => intro hk; exact (ih (by omega)).trans (hx _ hk).le
  have huniq : ∀ j k r, j + 1 < n → k + 1 < n → x j ≤ r → r < x (j + 1) → x k ≤ r → r < x (k + 1) →
      j = k := by
    intro j k r hj hk a b c d
    rcases lt_trichotomy j k with h | h | h
    · have := hmono (j + 1) k (by omega) (by omega); linarith
    · exact h
    · have := hmono (k + 1) j (by omega) (by omega); linarith
  let s : ℝ → ℝ := fun r => if h : ∃ k, k + 1 < n ∧ x k ≤ r ∧ r < x (k + 1) then
    (derivative (derivative (pieces x y m h.choose))).eval r else 0
  have hsv : ∀ k, k + 1 < n → ∀ r, x k ≤ r → r < x (k + 1) →
      s r = (derivative (derivative (pieces x y m k))).eval r := by
    intro k hk r h1 h2
    have hex : ∃ k, k + 1 < n ∧ x k ≤ r ∧ r < x (k + 1) := ⟨k, hk, h1, h2⟩
    have hc := hex.choose_spec
    have : hex.choose = k := huniq _ _ r hc.1 hk hc.2.1 hc.2.2 h1 h2
    simp only [s, dif_pos hex, this]
  refine ⟨s, fun k hk r h1 h2 h0 => ⟨?_, ?_, ?_, ?_⟩⟩
  · rw [hg k hk r h1 h2]
    refine glue_hasDerivAt x n (pieces x y m) f hx (fun j hj => ?_) hs hf k hk r h1 h2 h0
    rw [hp.interp_right j (by omega), hp.interp_left (j + 1) (by omega)]
  · rw [hsv k hk r h1 h2]
    refine glue_hasDerivAt x n (fun j => derivative (pieces x y m j)) g hx hs (fun j hj => ?_) hg
      k hk r h1 h2 h0
    rw [hp.curv_right j (by omega), hp.curv_left (j + 1) (by omega)]
  · refine glue_continuousAt x n (fun j => derivative (derivative (pieces x y m j))) s hx
      (fun j hj => ?_) hsv k hk r h1 h2 h0
    rw [hp.curv_right j (by omega), hp.curv_left (j + 1) (by omega)]
  · rw [hsv k hk (x k) le_rfl (hx k hk), hp.curv_left k hk]

/-- Equidistant columns.  Let `f` and `g` be the functions computed by the value and the slope look-up
with second derivatives filled in by `spline_ed`.  In the open range `f` is differentiable with
derivative `g`, `g` is differentiable, and its derivative (the curvature of `f`) is continuous. -/
theorem C06_no_kinks_ed (c : Column ℝ) (h : c.EqDist) (xi : ℕ → ℝ) (yp1 ypn : ℝ)
    (hd : ∀ i, c.first + i ≤ c.last → splineEd c.step (fun i => xi (c.first + i))
      (c.last - c.first + 1) yp1 ypn i = .ok (c.d2tab (c.first + i)))
    (f g : ℝ → ℝ)
    (hf : ∀ r, c.beg ≤ r → r < c.fin → splintEd c xi r = .ok (f r))
    (hg : ∀ r, c.beg ≤ r → r < c.fin → splintGradEd c xi r = .ok (g r)) :
    ∃ s : ℝ → ℝ, ∀ r ∈ Ioo c.beg c.fin,
      HasDerivAt f (g r) r ∧ HasDerivAt g (s r) r ∧ ContinuousAt s r := by
  have hk := h.knots
  have hs := h.step_pos
  have hx : ∀ k, k + 1 < c.last - c.first + 1 → c.knot k < c.knot (k + 1) := by
    intro k _
    have := knot_succ_sub c k
    linarith
  have hm : ∀ k, k < c.last - c.first + 1 →
      second c.knot (c.vals xi) (c.last - c.first + 1) yp1 ypn k = c.vals c.d2tab k := by
    intro k hk'
    have h1 := hd k (by omega)
    unfold splineEd at h1
    rw [edBack_eq_neBack c.beg c.step hs.ne' _ _ _ _ (by omega)] at h1
    have h2 := neBack_ok c.knot (c.vals xi) yp1 ypn (c.last - c.first + 1) (by omega) hx
      (c.last - c.first + 1 - 1 - k)
    have h3 : (Except.ok (second c.knot (c.vals xi) (c.last - c.first + 1) yp1 ypn k)
        : Except Fault ℝ) = .ok (c.vals c.d2tab k) := h2.symm.trans h1
    exact Except.ok.inj h3
  have hin : ∀ k, k + 1 < c.last - c.first + 1 → ∀ r, c.knot k ≤ r → r < c.knot (k + 1) →
      c.beg ≤ r ∧ r < c.fin := by
    intro k hk' r h1 h2
    have e := h.span'
    have e1 : (0 : ℝ) ≤ (k : ℝ) * c.step := by positivity
    have e2 : ((k + 1 : ℕ) : ℝ) * c.step ≤ ((c.last - c.first : ℕ) : ℝ) * c.step :=
      mul_le_mul_of_nonneg_right (by exact_mod_cast (by omega : k + 1 ≤ c.last - c.first)) hs.le
    unfold Column.knot at h1 h2
    constructor <;> linarith
  obtain ⟨s, hsp⟩ := no_kinks c.knot (c.vals xi) (c.vals c.d2tab) yp1 ypn (c.last - c.first + 1)
    hx hm f g
    (fun k hk' r h1 h2 => by
      obtain ⟨b1, b2⟩ := hin k hk' r h1 h2
      have := (hf r b1 b2).symm.trans (splintEd_eq h xi (by omega) h1 h2)
      exact Except.ok.inj this)
    (fun k hk' r h1 h2 => by
      obtain ⟨b1, b2⟩ := hin k hk' r h1 h2
      have := (hg r b1 b2).symm.trans (splintGradEd_eq h xi (by omega) h1 h2)
      exact Except.ok.inj this)
  refine ⟨s, fun r hr => ?_⟩
  obtain ⟨i, hi, h1, h2⟩ := exists_interval h hr.1.le hr.2
  have := hsp i (by omega) r h1 h2 (by unfold Column.knot; simpa using hr.1)
  exact ⟨this.1, this.2.1, this.2.2.1⟩

/-- The hypotheses of the theorem can be met: for every table the set-up fills `d2tab` (by C04) and
the look-ups succeed. -/
example : ∃ c : Column ℝ, c.EqDist ∧ ∃ xi : ℕ → ℝ,
    ∀ i, c.first + i ≤ c.last → splineEd c.step (fun i => xi (c.first + i))
      (c.last - c.first + 1) 0 0 i = .ok (c.d2tab (c.first + i)) := by
  obtain ⟨m, p, hm, -⟩ := C04_spline_ed (1 : ℝ) (1 / 2) (by norm_num)
    (fun k => ((k : ℝ) + 2) ^ 3) 3 (by norm_num) 0 0
  refine ⟨⟨1, 2, 1 / 2, 2, 2, 4, fun _ => 0, fun k => m (k - 2)⟩, ?_, fun k => (k : ℝ) ^ 3, ?_⟩
  · constructor <;> norm_num
  · intro i hi
    have hi' : i < 3 := by simp at hi; omega
    have := hm i hi'
    simp only [Nat.add_sub_cancel_left]
    rw [← this]
    congr 1
    funext k
    push_cast
    ring

/-- General-knot columns: the same statement with second derivatives filled in by `spline_ne`. -/
theorem C06_no_kinks_ne (c : Column ℝ) (h : c.General) (xi : ℕ → ℝ) (yp1 ypn : ℝ)
    (hd : ∀ i, c.first + i ≤ c.last → splineNe (fun i => c.xcoord (c.first + i))
      (fun i => xi (c.first + i)) (c.last - c.first + 1) yp1 ypn i = .ok (c.d2tab (c.first + i)))
    (f g : ℝ → ℝ)
    (hf : ∀ r, c.beg ≤ r → r < c.fin → splintNe c xi r = .ok (f r))
    (hg : ∀ r, c.beg ≤ r → r < c.fin → splintGradNe c xi r = .ok (g r)) :
    ∃ s : ℝ → ℝ, ∀ r ∈ Ioo c.beg c.fin,
      HasDerivAt f (g r) r ∧ HasDerivAt g (s r) r ∧ ContinuousAt s r := by
  have hk := h.knots
  have hx : ∀ k, k + 1 < c.last - c.first + 1 → c.vals c.xcoord k < c.vals c.xcoord (k + 1) :=
    fun k hk' => h.mono (c.first + k) (by omega) (by omega)
  have hm : ∀ k, k < c.last - c.first + 1 →
      second (c.vals c.xcoord) (c.vals xi) (c.last - c.first + 1) yp1 ypn k = c.vals c.d2tab k := by
    intro k hk'
    have h1 := hd k (by omega)
    have h2 := neBack_ok (c.vals c.xcoord) (c.vals xi) yp1 ypn (c.last - c.first + 1) (by omega) hx
      (c.last - c.first + 1 - 1 - k)
    have h3 : (Except.ok (second (c.vals c.xcoord) (c.vals xi) (c.last - c.first + 1) yp1 ypn k)
        : Except Fault ℝ) = .ok (c.vals c.d2tab k) := h2.symm.trans h1
    exact Except.ok.inj h3
  have hin : ∀ k, k + 1 < c.last - c.first + 1 → ∀ r, c.vals c.xcoord k ≤ r →
      r < c.vals c.xcoord (k + 1) → c.beg ≤ r ∧ r < c.fin := by
    intro k hk' r h1 h2
    have e1 := h.mono_le (a := c.first) (b := c.first + k) le_rfl (by omega) (by omega)
    have e2 := h.mono_le (a := c.first + (k + 1)) (b := c.last) (by omega) (by omega) le_rfl
    rw [h.beg_eq, h.fin_eq]
    unfold Column.vals at h1 h2
    constructor <;> linarith
  obtain ⟨s, hsp⟩ := no_kinks (c.vals c.xcoord) (c.vals xi) (c.vals c.d2tab) yp1 ypn
    (c.last - c.first + 1) hx hm f g
    (fun k hk' r h1 h2 => by
      obtain ⟨b1, b2⟩ := hin k hk' r h1 h2
      have := (hf r b1 b2).symm.trans (splintNe_eq h xi (i := k) (by omega) (Or.inl h1) (Or.inl h2))
      exact Except.ok.inj this)
    (fun k hk' r h1 h2 => by
      obtain ⟨b1, b2⟩ := hin k hk' r h1 h2
      have := (hg r b1 b2).symm.trans
        (splintGradNe_eq h xi (i := k) (by omega) (Or.inl h1) (Or.inl h2))
      exact Except.ok.inj this)
  refine ⟨s, fun r hr => ?_⟩
  obtain ⟨i, hi, h1, h2⟩ := exists_interval_ne h r
  have h1' : c.vals c.xcoord i ≤ r := by
    rcases h1 with h1 | h1
    · exact h1
    · subst h1
      have := hr.1.le
      rw [h.beg_eq] at this
      exact this
  have h2' : r < c.vals c.xcoord (i + 1) := by
    rcases h2 with h2 | h2
    · exact h2
    · have := hr.2
      rw [h.fin_eq, ← h2] at this
      exact this
  have := hsp i (by omega) r h1' h2' (by
    have := hr.1
    rw [h.beg_eq] at this
    exact this)
  exact ⟨this.1, this.2.1, this.2.2.1⟩

example : ∃ c : Column ℝ, c.General ∧ ∃ xi : ℕ → ℝ,
    ∀ i, c.first + i ≤ c.last → splineNe (fun i => c.xcoord (c.first + i))
      (fun i => xi (c.first + i)) (c.last - c.first + 1) 0 0 i = .ok (c.d2tab (c.first + i)) := by
  obtain ⟨m, p, hm, -⟩ := C08_spline_ne (fun k => ((k : ℝ) + 2) ^ 2)
    (fun k => ((k : ℝ) + 2)) 3 (by norm_num)
    (fun k _ => by push_cast; nlinarith [(Nat.cast_nonneg k : (0 : ℝ) ≤ (k : ℕ))]) 0 0
  refine ⟨⟨4, 16, 0, 0, 2, 4, fun k => (k : ℝ) ^ 2, fun k => m (k - 2)⟩, ?_, fun k => (k : ℝ), ?_⟩
  · refine ⟨by norm_num, fun k _ _ => ?_, by norm_num, by norm_num⟩
    push_cast
    nlinarith [(Nat.cast_nonneg k : (0 : ℝ) ≤ (k : ℕ))]
  · intro i hi
    have hi' : i < 3 := by simp at hi; omega
    have := hm i hi'
    simp only [Nat.add_sub_cancel_left]
    rw [← this]
    congr 1 <;> (funext k; push_cast; ring)

end Verif.Props
