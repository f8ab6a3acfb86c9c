import Verif.Model.SplineInit
import Verif.Lemmas.SplineEval
import Verif.Lemmas.Apot
import Mathlib.Tactic.Linarith
import Mathlib.Tactic.Ring

set_option linter.unusedSectionVars false

namespace Verif.SplineInit

open Verif.Splines Verif.Spec Polynomial

variable {K : Type*} [Field K] [LinearOrder K]

theorem store_spec (first : ℕ) (f : ℕ → Except Fault K) (m : ℕ → K) (n : ℕ)
    (h : ∀ k < n, f k = .ok (m k)) (d : ℕ → K) :
    ∃ d', store first f n d = .ok d' ∧ (∀ k < n, d' (first + k) = m k) ∧
      ∀ q, (q < first ∨ first + n ≤ q) → d' q = d q := by
  induction n with
  | zero => exact ⟨d, rfl, by intro k hk; omega, fun _ _ => rfl⟩
  | succ n ih =>
    obtain ⟨d1, e1, h1, h2⟩ := ih (fun k hk => h k (by omega))
    refine ⟨Function.update d1 (first + n) (m n), ?_, ?_, ?_⟩
    · simp only [store, e1, h n (by omega)]
    · intro k hk
      rcases Nat.lt_or_ge k n with hlt | hge
      · rw [Function.update_of_ne (by omega)]; exact h1 k hlt
      · have : k = n := by omega
        subst this
        rw [Function.update_self]
    · intro q hq
      rw [Function.update_of_ne (by omega)]
      exact h2 q (by omega)

/-- The second derivatives of a column are those computed by the spline routine from the values. -/
def Filled (ne : Bool) (t : Cols K) (xi : ℕ → K) (col : ℕ) (l r : K) (d : ℕ → K) : Prop :=
  ∀ k, k < t.last col - t.first col + 1 →
    (if ne then splineNe (fun k => t.xcoord (t.first col + k)) (fun k => xi (t.first col + k))
        (t.last col - t.first col + 1) l r k
      else splineEd (t.step col) (fun k => xi (t.first col + k)) (t.last col - t.first col + 1) l r k)
      = .ok (d (t.first col + k))

theorem Filled.congr {ne : Bool} {t : Cols K} {xi : ℕ → K} {col : ℕ} {l r : K} {d d' : ℕ → K}
    (h : Filled ne t xi col l r d) (hle : t.first col ≤ t.last col)
    (he : ∀ q, t.first col ≤ q → q ≤ t.last col → d' q = d q) : Filled ne t xi col l r d' := by
  intro k hk
  rw [he _ (by omega) (by omega)]
  exact h k hk

section
variable [IsStrictOrderedRing K]

/-- A column as the readers leave it. -/
structure Good (ne : Bool) (t : Cols K) (col : ℕ) : Prop where
  room : 2 ≤ t.first col
  ed : ne = false → (t.col (fun _ => 0) col).EqDist
  gen : ne = true → (t.col (fun _ => 0) col).General

theorem Good.knots {ne : Bool} {t : Cols K} {col : ℕ} (h : Good ne t col) : t.first col < t.last col := by
  cases ne
  · exact (h.ed rfl).knots
  · exact (h.gen rfl).knots

theorem eqDist_any {t : Cols K} {col : ℕ} {d d' : ℕ → K} (h : (t.col d col).EqDist) :
    (t.col d' col).EqDist := ⟨h.knots, h.range, h.step_eq, h.invstep_eq⟩

theorem general_any {t : Cols K} {col : ℕ} {d d' : ℕ → K} (h : (t.col d col).General) :
    (t.col d' col).General := ⟨h.knots, h.mono, h.beg_eq, h.fin_eq⟩

theorem initEd_spec {t : Cols K} {col : ℕ} (h : Good false t col) (xi : ℕ → K) (l r : K) (d : ℕ → K) :
    ∃ d', initEd t xi col l r d = .ok d' ∧ Filled false t xi col l r d' ∧
      ∀ q, (q < t.first col ∨ t.last col < q) → d' q = d q := by
  have hk := h.knots
  have hs : 0 < t.step col := (h.ed rfl).step_pos
  have hx : ∀ k, k + 1 < t.last col - t.first col + 1 →
      t.beg col + (k : K) * t.step col < t.beg col + ((k + 1 : ℕ) : K) * t.step col := by
    intro k _
    push_cast
    linarith
  obtain ⟨d', e, h1, h2⟩ := store_spec (t.first col)
    (splineEd (t.step col) (fun k => xi (t.first col + k)) (t.last col - t.first col + 1) l r)
    (second (fun k => t.beg col + k * t.step col) (fun k => xi (t.first col + k))
      (t.last col - t.first col + 1) l r) (t.last col - t.first col + 1)
    (by
      intro k _
      unfold splineEd
      rw [edBack_eq_neBack (t.beg col) (t.step col) hs.ne' _ _ _ _ (by omega)]
      exact neBack_ok _ _ l r _ (by omega) hx _) d
  refine ⟨d', e, ?_, fun q hq => h2 q (by omega)⟩
  intro k hk'
  rw [h1 k hk']
  simp only [Bool.false_eq_true, if_false]
  unfold splineEd
  rw [edBack_eq_neBack (t.beg col) (t.step col) hs.ne' _ _ _ _ (by omega)]
  exact neBack_ok _ _ l r _ (by omega) hx _

theorem initNe_spec {t : Cols K} {col : ℕ} (h : Good true t col) (xi : ℕ → K) (l r : K) (d : ℕ → K) :
    ∃ d', initNe t xi col l r d = .ok d' ∧ Filled true t xi col l r d' ∧
      ∀ q, (q < t.first col ∨ t.last col < q) → d' q = d q := by
  have hk := h.knots
  have hx : ∀ k, k + 1 < t.last col - t.first col + 1 →
      t.xcoord (t.first col + k) < t.xcoord (t.first col + (k + 1)) := by
    intro k hk'
    exact (h.gen rfl).mono (t.first col + k)
      (show t.first col ≤ t.first col + k by omega) (show t.first col + k < t.last col by omega)
  obtain ⟨d', e, h1, h2⟩ := store_spec (t.first col)
    (splineNe (fun k => t.xcoord (t.first col + k)) (fun k => xi (t.first col + k))
      (t.last col - t.first col + 1) l r)
    (second (fun k => t.xcoord (t.first col + k)) (fun k => xi (t.first col + k))
      (t.last col - t.first col + 1) l r) (t.last col - t.first col + 1)
    (by
      intro k _
      exact neBack_ok _ _ l r _ (by omega) hx _) d
  refine ⟨d', e, ?_, fun q hq => h2 q (by omega)⟩
  intro k hk'
  rw [h1 k hk']
  simp only [if_true]
  exact neBack_ok _ _ l r _ (by omega) hx _

/-- The slope taken at one end. -/
def slopeVal (used : Bool) (xi : ℕ → K) (first back : ℕ) : K := if used then xi (first - back) else 0

theorem slope_ok (used : Bool) (xi : ℕ → K) {first back : ℕ} (h : back ≤ first) :
    slope used xi first back = .ok (slopeVal used xi first back) := by
  unfold slope slopeVal rdBefore
  cases used
  · rfl
  · simp only [if_true, if_neg (show ¬ first < back by omega)]

theorem initCol_spec {ne : Bool} {t : Cols K} {col : ℕ} (h : Good ne t col) (ul ur : Bool) (xi : ℕ → K)
    (d : ℕ → K) :
    ∃ d', initCol ne ul ur t xi col d = .ok d' ∧
      Filled ne t xi col (slopeVal ul xi (t.first col) 2) (slopeVal ur xi (t.first col) 1) d' ∧
      ∀ q, (q < t.first col ∨ t.last col < q) → d' q = d q := by
  have h2 := h.room
  unfold initCol
  rw [slope_ok ul xi h2, slope_ok ur xi (show 1 ≤ t.first col by omega)]
  cases ne
  · exact initEd_spec h xi _ _ d
  · exact initNe_spec h xi _ _ d

/-- The columns as the readers leave them: well-formed, one behind the other. -/
structure Layout (ne : Bool) (t : Cols K) (n : ℕ) : Prop where
  good : ∀ col < n, Good ne t col
  sep : ∀ a b, a < b → b < n → t.last a < t.first b

theorem colLoop_spec {ne : Bool} {t : Cols K} {n : ℕ} (hl : Layout ne t n) (ul ur : Bool) (xi : ℕ → K)
    (body : ℕ → (ℕ → K) → Except Stop (ℕ → K)) (start num : ℕ) (hn : start + num ≤ n)
    (hb : ∀ col d, start ≤ col → col < start + num → body col d = lift (initCol ne ul ur t xi col d))
    (d : ℕ → K) :
    ∃ d', colLoop body start num d = .ok d' ∧
      (∀ col, start ≤ col → col < start + num →
        Filled ne t xi col (slopeVal ul xi (t.first col) 2) (slopeVal ur xi (t.first col) 1) d') ∧
      ∀ q, (∀ col, start ≤ col → col < start + num → q < t.first col ∨ t.last col < q) →
        d' q = d q := by
  induction num with
  | zero => exact ⟨d, rfl, by intro col h1 h2; omega, fun _ _ => rfl⟩
  | succ num ih =>
    obtain ⟨d1, e1, f1, u1⟩ := ih (by omega) (fun col d h1 h2 => hb col d h1 (by omega))
    obtain ⟨d2, e2, f2, u2⟩ := initCol_spec (hl.good (start + num) (by omega)) ul ur xi d1
    refine ⟨d2, ?_, ?_, ?_⟩
    · simp only [colLoop, e1, hb (start + num) d1 (by omega) (by omega), e2, lift]
    · intro col h1 h2
      rcases Nat.lt_or_ge col (start + num) with hlt | hge
      · refine (f1 col h1 hlt).congr (hl.good col (by omega)).knots.le ?_
        intro q _ hq2
        refine u2 q (Or.inl ?_)
        have := hl.sep col (start + num) hlt (by omega)
        omega
      · have : col = start + num := by omega
        subst this
        exact f2
    · intro q hq
      rw [u2 q (hq (start + num) (by omega) (by omega))]
      exact u1 q (fun col h1 h2 => hq col h1 (by omega))

theorem isSpline_congr {x y m m' : ℕ → K} {n : ℕ} {l r : EndCond K} {p : ℕ → K[X]}
    (h : IsSpline x y m n l r p) (he : ∀ k < n, m k = m' k) : IsSpline x y m' n l r p where
  cubic := h.cubic
  interp_left := h.interp_left
  interp_right := h.interp_right
  curv_left k hk := by rw [← he k (by omega)]; exact h.curv_left k hk
  curv_right k hk := by rw [← he (k + 1) hk]; exact h.curv_right k hk
  smooth := h.smooth
  left_end := h.left_end
  right_end := h.right_end

/-- Position of knot `k` of a column: general tables list them, the others are equidistant. -/
def knots (ne : Bool) (t : Cols K) (col k : ℕ) : K :=
  if ne then t.xcoord (t.first col + k) else t.beg col + k * t.step col

theorem filled_second {ne : Bool} {t : Cols K} {col : ℕ} (h : Good ne t col) {xi : ℕ → K} {l r : K}
    {d : ℕ → K} (hf : Filled ne t xi col l r d) :
    (∀ k, k + 1 < t.last col - t.first col + 1 → knots ne t col k < knots ne t col (k + 1)) ∧
    ∀ k < t.last col - t.first col + 1,
      second (knots ne t col) (fun k => xi (t.first col + k)) (t.last col - t.first col + 1) l r k
        = d (t.first col + k) := by
  have hk := h.knots
  cases ne
  · have hs : 0 < t.step col := (h.ed rfl).step_pos
    have hx : ∀ k, k + 1 < t.last col - t.first col + 1 →
        knots false t col k < knots false t col (k + 1) := by
      intro k _
      simp only [knots, Bool.false_eq_true, if_false]
      push_cast
      linarith
    refine ⟨hx, fun k hk' => ?_⟩
    have h1 := hf k hk'
    simp only [Bool.false_eq_true, if_false] at h1
    unfold splineEd at h1
    rw [edBack_eq_neBack (t.beg col) (t.step col) hs.ne' _ _ _ _ (by omega)] at h1
    have h2 := neBack_ok (knots false t col) (fun k => xi (t.first col + k)) l r
      (t.last col - t.first col + 1) (by omega) hx (t.last col - t.first col + 1 - 1 - k)
    have h3 : knots false t col = fun k : ℕ => t.beg col + (k : K) * t.step col := by
      funext k; simp [knots]
    rw [h3] at h2 ⊢
    exact Except.ok.inj (h2.symm.trans h1)
  · have hx : ∀ k, k + 1 < t.last col - t.first col + 1 →
        knots true t col k < knots true t col (k + 1) := by
      intro k hk'
      simp only [knots, if_true]
      exact (h.gen rfl).mono (t.first col + k)
        (show t.first col ≤ t.first col + k by omega) (show t.first col + k < t.last col by omega)
    refine ⟨hx, fun k hk' => ?_⟩
    have h1 := hf k hk'
    simp only [if_true] at h1
    unfold splineNe at h1
    have h2 := neBack_ok (knots true t col) (fun k => xi (t.first col + k)) l r
      (t.last col - t.first col + 1) (by omega) hx (t.last col - t.first col + 1 - 1 - k)
    have h3 : knots true t col = fun k : ℕ => t.xcoord (t.first col + k) := by
      funext k; simp [knots]
    rw [h3] at h2 ⊢
    exact Except.ok.inj (h2.symm.trans h1)

end

end Verif.SplineInit
