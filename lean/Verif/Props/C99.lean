/-
C99  Every force evaluation works with the splines through the current table.
-/
import Verif.Lemmas.SplineInit
import Verif.Props.C15
import Mathlib.Data.Rat.Floor
import Mathlib.Algebra.Order.Ring.Rat
import Mathlib.Tactic.NormNum

set_option linter.unusedSectionVars false

namespace Verif.Props

open Verif.SplineInit Verif.Splines Verif.Spec Polynomial

variable {K : Type*} [Field K] [LinearOrder K] [IsStrictOrderedRing K]

/-- General tables (format 4). -/
def isGeneral (fmt : Format) : Bool := fmt == .nonEqDist

/-- What the look-up routines deliver for a column: on every interval between two knots value and
slope of one polynomial, these polynomials being the interpolating cubic spline through the values
of the column, with the given end conditions. -/
def ServesSpline [FloorSemiring K] (fmt : Format) (t : Cols K) (xi d : ℕ → K) (col : ℕ)
    (left right : EndCond K) : Prop :=
  ∃ p : ℕ → K[X],
    IsSpline (knots (isGeneral fmt) t col) (fun k => xi (t.first col + k))
      (fun k => d (t.first col + k)) (t.last col - t.first col + 1) left right p ∧
    ∀ k, t.first col + k < t.last col → ∀ r, knots (isGeneral fmt) t col k ≤ r →
      r < knots (isGeneral fmt) t col (k + 1) →
      gSplint fmt (t.col d col) xi r = some (.ok ((p k).eval r)) ∧
      gSplintGrad fmt (t.col d col) xi r = some (.ok ((derivative (p k)).eval r)) ∧
      gSplintComb fmt (t.col d col) xi r = some (.ok ((p k).eval r, (derivative (p k)).eval r))

/-- The routines and formats that fit together: `meam`, `ang` and the electrostatic routines cannot
work with general tables. -/
def Handles (rt : Routine) (fmt : Format) : Prop :=
  match fmt with
  | .analytic => True
  | .eqDist => True
  | .nonEqDist => rt = .pair ∨ rt = .eam ∨ rt = .tbeam ∨ rt = .adp
  | .unknown => False
  | .kim => False

/-- Columns whose right end slope is taken from the table: the embedding functions (of both bands),
and all columns of the angular routines. -/
def takesRight (rt : Routine) (pc nt col : ℕ) : Bool :=
  match rt with
  | .pair => false
  | .eam => decide (pc + nt ≤ col)
  | .tbeam => decide (pc + nt ≤ col ∧ col < pc + 2 * nt ∨ pc + 3 * nt ≤ col)
  | .adp => decide (pc + nt ≤ col ∧ col < pc + 2 * nt)
  | .meam => true
  | .ang => true
  | .angElstat => true
  | .elstat => false
  | .eamElstat => decide (pc + nt ≤ col)

theorem serves_of_filled [FloorSemiring K] {fmt : Format} (hf : fmt ≠ .unknown) (hk : fmt ≠ .kim)
    {t : Cols K} {col : ℕ} (h : Good (isGeneral fmt) t col) {xi d : ℕ → K} {l r : K}
    (hfill : Filled (isGeneral fmt) t xi col l r d) :
    ServesSpline fmt t xi d col (endCond l) (endCond r) := by
  obtain ⟨hx, hm⟩ := filled_second h hfill
  have hkn := h.knots
  have hsp := second_isSpline (knots (isGeneral fmt) t col) (fun k => xi (t.first col + k)) l r
    (t.last col - t.first col + 1) (by omega) hx
  refine ⟨_, isSpline_congr hsp hm, ?_⟩
  intro k hk' s h1 h2
  have hp : pieces (knots (isGeneral fmt) t col) (fun k => xi (t.first col + k))
      (second (knots (isGeneral fmt) t col) (fun k => xi (t.first col + k))
        (t.last col - t.first col + 1) l r) k
      = pieces (knots (isGeneral fmt) t col) (fun k => xi (t.first col + k))
        (fun k => d (t.first col + k)) k := by
    unfold pieces
    rw [hm k (by omega), hm (k + 1) (by omega)]
  rw [hp]
  have hed : isGeneral fmt = false →
      knots (isGeneral fmt) t col = (t.col d col).knot := by
    intro e
    funext k
    simp [knots, e, Column.knot, Cols.col]
  have hne : isGeneral fmt = true →
      knots (isGeneral fmt) t col = (t.col d col).vals t.xcoord := by
    intro e
    funext k
    simp [knots, e, Column.vals, Cols.col]
  have hEd : isGeneral fmt = false →
      splintEd (t.col d col) xi s = .ok ((pieces (knots (isGeneral fmt) t col)
        (fun k => xi (t.first col + k)) (fun k => d (t.first col + k)) k).eval s) ∧
      splintGradEd (t.col d col) xi s = .ok ((derivative (pieces (knots (isGeneral fmt) t col)
        (fun k => xi (t.first col + k)) (fun k => d (t.first col + k)) k)).eval s) ∧
      splintCombEd (t.col d col) xi s = .ok ((pieces (knots (isGeneral fmt) t col)
        (fun k => xi (t.first col + k)) (fun k => d (t.first col + k)) k).eval s,
        (derivative (pieces (knots (isGeneral fmt) t col)
        (fun k => xi (t.first col + k)) (fun k => d (t.first col + k)) k)).eval s) := by
    intro e
    have hg : (t.col d col).EqDist := eqDist_any (h.ed e)
    rw [hed e] at h1 h2 ⊢
    exact ⟨splintEd_eq hg xi hk' h1 h2, splintGradEd_eq hg xi hk' h1 h2,
      splintCombEd_eq hg xi hk' h1 h2⟩
  have hNe : isGeneral fmt = true →
      splintNe (t.col d col) xi s = .ok ((pieces (knots (isGeneral fmt) t col)
        (fun k => xi (t.first col + k)) (fun k => d (t.first col + k)) k).eval s) ∧
      splintGradNe (t.col d col) xi s = .ok ((derivative (pieces (knots (isGeneral fmt) t col)
        (fun k => xi (t.first col + k)) (fun k => d (t.first col + k)) k)).eval s) ∧
      splintCombNe (t.col d col) xi s = .ok ((pieces (knots (isGeneral fmt) t col)
        (fun k => xi (t.first col + k)) (fun k => d (t.first col + k)) k).eval s,
        (derivative (pieces (knots (isGeneral fmt) t col)
        (fun k => xi (t.first col + k)) (fun k => d (t.first col + k)) k)).eval s) := by
    intro e
    have hg : (t.col d col).General := general_any (h.gen e)
    rw [hne e] at h1 h2 ⊢
    exact ⟨splintNe_eq hg xi hk' (Or.inl h1) (Or.inl h2),
      splintGradNe_eq hg xi hk' (Or.inl h1) (Or.inl h2),
      splintCombNe_eq hg xi hk' (Or.inl h1) (Or.inl h2)⟩
  cases fmt with
  | unknown => exact absurd rfl hf
  | kim => exact absurd rfl hk
  | analytic =>
    obtain ⟨a, b, c⟩ := hEd rfl
    simp only [gSplint, gSplintGrad, gSplintComb, a, b, c, lift, and_self]
  | eqDist =>
    obtain ⟨a, b, c⟩ := hEd rfl
    simp only [gSplint, gSplintGrad, gSplintComb, a, b, c, lift, and_self]
  | nonEqDist =>
    obtain ⟨a, b, c⟩ := hNe rfl
    simp only [gSplint, gSplintGrad, gSplintComb, a, b, c, lift, and_self]

/-- A range of columns is filled, with the slope entries of the table at the left and, where `ur` says
so, at the right end; the rest is left alone. -/
def Segment (ne : Bool) (t : Cols K) (xi : ℕ → K) (a b : ℕ) (ur : ℕ → Bool) (d d' : ℕ → K) : Prop :=
  (∀ col, a ≤ col → col < b → Filled ne t xi col (xi (t.first col - 2))
    (if ur col then xi (t.first col - 1) else 0) d') ∧
  ∀ q, (∀ col, a ≤ col → col < b → q < t.first col ∨ t.last col < q) → d' q = d q

theorem segment_join {ne : Bool} {t : Cols K} {n : ℕ} (hl : Layout ne t n) {xi : ℕ → K} {a b c : ℕ}
    (hab : a ≤ b) (hbc : b ≤ c) (hc : c ≤ n) {ur : ℕ → Bool} {d d1 d2 : ℕ → K}
    (h1 : Segment ne t xi a b ur d d1) (h2 : Segment ne t xi b c ur d1 d2) :
    Segment ne t xi a c ur d d2 := by
  refine ⟨fun col ha hcc => ?_, fun q hq => ?_⟩
  · rcases Nat.lt_or_ge col b with hlt | hge
    · refine (h1.1 col ha hlt).congr (hl.good col (by omega)).knots.le ?_
      intro q _ hq
      refine h2.2 q (fun c' hc1 hc2 => Or.inl ?_)
      have := hl.sep col c' (by omega) (by omega)
      omega
    · exact h2.1 col hge hcc
  · rw [h2.2 q (fun col hc1 hc2 => hq col (by omega) hc2)]
    exact h1.2 q (fun col hc1 hc2 => hq col hc1 (by omega))

theorem segment_loop {ne : Bool} {t : Cols K} {n : ℕ} (hl : Layout ne t n) (xi : ℕ → K)
    (body : ℕ → (ℕ → K) → Except Stop (ℕ → K)) (start num : ℕ) (hn : start + num ≤ n) (right : Bool)
    (hb : ∀ col d, body col d = lift (initCol ne true right t xi col d)) (ur : ℕ → Bool)
    (hur : ∀ col, start ≤ col → col < start + num → ur col = right) (d : ℕ → K) :
    ∃ d', colLoop body start num d = .ok d' ∧ Segment ne t xi start (start + num) ur d d' := by
  obtain ⟨d', e, f, u⟩ := colLoop_spec hl true right xi body start num hn
    (fun col d _ _ => hb col d) d
  refine ⟨d', e, fun col h1 h2 => ?_, u⟩
  rw [hur col h1 h2]
  exact f col h1 h2

/-- One call of `update_splines` with flag 1 or 3. -/
theorem segment_call {fmt : Format} (h1 : fmt ≠ .unknown) (h2 : fmt ≠ .kim) {t : Cols K} {n : ℕ}
    (hl : Layout (isGeneral fmt) t n) (xi : ℕ → K) (start num : ℕ) (hn : start + num ≤ n)
    (right : Bool) (ur : ℕ → Bool) (hur : ∀ col, start ≤ col → col < start + num → ur col = right)
    (d : ℕ → K) :
    ∃ d', updateSplines fmt t xi start num (if right then 3 else 1) d = .ok d' ∧
      Segment (isGeneral fmt) t xi start (start + num) ur d d' := by
  refine segment_loop hl xi _ start num hn right (fun col d => ?_) ur hur d
  cases fmt with
  | unknown => exact absurd rfl h1
  | kim => exact absurd rfl h2
  | analytic => cases right <;> rfl
  | eqDist => cases right <;> rfl
  | nonEqDist => cases right <;> rfl

theorem segment_switch {fmt : Format} (h : fmt = .analytic ∨ fmt = .eqDist) {t : Cols K} {n : ℕ}
    (hl : Layout (isGeneral fmt) t n) (xi : ℕ → K) (start num : ℕ) (hn : start + num ≤ n)
    (right : Bool) (ur : ℕ → Bool) (hur : ∀ col, start ≤ col → col < start + num → ur col = right)
    (d : ℕ → K) :
    ∃ d', switchLoop fmt right t xi start num d = .ok d' ∧
      Segment (isGeneral fmt) t xi start (start + num) ur d d' := by
  refine segment_loop hl xi _ start num hn right (fun col d => ?_) ur hur d
  rcases h with rfl | rfl <;> rfl

theorem segment_plain {fmt : Format} (h : fmt = .analytic ∨ fmt = .eqDist) {t : Cols K} {n : ℕ}
    (hl : Layout (isGeneral fmt) t n) (xi : ℕ → K) (d : ℕ → K) :
    ∃ d', plainLoop t xi n d = .ok d' ∧ Segment (isGeneral fmt) t xi 0 n (fun _ => true) d d' := by
  have := segment_loop hl xi (fun col d => lift (initCol false true true t xi col d)) 0 n (by omega) true
    (fun col d => by rcases h with rfl | rfl <;> rfl) (fun _ => true) (fun _ _ _ => rfl) d
  rw [Nat.zero_add] at this
  exact this

/-- All columns of a routine are filled; everything outside the columns is left alone. -/
theorem refresh_filled {rt : Routine} {fmt : Format} (hh : Handles rt fmt) {t : Cols K} {pc nt : ℕ}
    (hl : Layout (isGeneral fmt) t (numCols rt pc nt)) (xi d : ℕ → K) :
    ∃ d', refresh rt fmt t xi pc nt d = .ok d' ∧
      Segment (isGeneral fmt) t xi 0 (numCols rt pc nt) (takesRight rt pc nt) d d' := by
  have hu : fmt ≠ .unknown := by rintro rfl; exact hh
  have hk : fmt ≠ .kim := by rintro rfl; exact hh
  have hsw : (rt ≠ .pair ∧ rt ≠ .eam ∧ rt ≠ .tbeam ∧ rt ≠ .adp) → fmt = .analytic ∨ fmt = .eqDist := by
    rintro ⟨a, b, c, e⟩
    cases fmt with
    | unknown => exact absurd rfl hu
    | kim => exact absurd rfl hk
    | analytic => exact Or.inl rfl
    | eqDist => exact Or.inr rfl
    | nonEqDist => rcases hh with h | h | h | h <;> contradiction
  cases rt with
  | pair =>
    obtain ⟨d1, e1, s1⟩ := segment_call hu hk hl xi 0 pc (by simp [numCols]) false
      (takesRight .pair pc nt) (fun _ _ _ => rfl) d
    refine ⟨d1, ?_, by simpa [numCols] using s1⟩
    simp only [refresh, calls]
    simp only [Bool.false_eq_true, if_false] at e1
    rw [e1]
  | eam =>
    obtain ⟨d1, e1, s1⟩ := segment_call hu hk hl xi 0 (pc + nt) (by simp [numCols]; omega) false
      (takesRight .eam pc nt) (fun c _ h => by simp [takesRight]; omega) d
    obtain ⟨d2, e2, s2⟩ := segment_call hu hk hl xi (pc + nt) nt (by simp [numCols]; omega) true
      (takesRight .eam pc nt) (fun c h _ => by simp [takesRight]; omega) d1
    refine ⟨d2, ?_, ?_⟩
    · simp only [Bool.false_eq_true, if_false, if_true] at e1 e2
      simp only [refresh, calls, e1, e2]
    · have := segment_join hl (by omega) (by omega) (by simp only [numCols]; omega) s1
        (show Segment _ t xi (0 + (pc + nt)) (pc + nt + nt) _ d1 d2 by rw [Nat.zero_add]; exact s2)
      rwa [show numCols .eam pc nt = pc + nt + nt by simp only [numCols]; omega]
  | tbeam =>
    obtain ⟨d1, e1, s1⟩ := segment_call hu hk hl xi 0 (pc + nt) (by simp [numCols]; omega) false
      (takesRight .tbeam pc nt) (fun c _ h => by simp [takesRight]; omega) d
    obtain ⟨d2, e2, s2⟩ := segment_call hu hk hl xi (pc + nt) nt (by simp [numCols]; omega) true
      (takesRight .tbeam pc nt) (fun c h _ => by simp [takesRight]; omega) d1
    obtain ⟨d3, e3, s3⟩ := segment_call hu hk hl xi (pc + 2 * nt) nt (by simp [numCols]; omega) false
      (takesRight .tbeam pc nt) (fun c h _ => by simp [takesRight]; omega) d2
    obtain ⟨d4, e4, s4⟩ := segment_call hu hk hl xi (pc + 3 * nt) nt (by simp [numCols]; omega) true
      (takesRight .tbeam pc nt) (fun c h _ => by simp [takesRight]; omega) d3
    refine ⟨d4, ?_, ?_⟩
    · simp only [Bool.false_eq_true, if_false, if_true] at e1 e2 e3 e4
      simp only [refresh, calls, e1, e2, e3, e4]
    · rw [show 0 + (pc + nt) = pc + nt by omega] at s1
      rw [show pc + nt + nt = pc + 2 * nt by omega] at s2
      rw [show pc + 2 * nt + nt = pc + 3 * nt by omega] at s3
      rw [show pc + 3 * nt + nt = pc + 4 * nt by omega] at s4
      have j1 := segment_join hl (by omega) (by omega) (by simp only [numCols]; omega) s1 s2
      have j2 := segment_join hl (by omega) (by omega) (by simp only [numCols]; omega) j1 s3
      exact segment_join hl (by omega) (by simp only [numCols]; omega) (by simp only [numCols]; omega) j2 s4
  | adp =>
    obtain ⟨d1, e1, s1⟩ := segment_call hu hk hl xi 0 (pc + nt) (by simp [numCols]; omega) false
      (takesRight .adp pc nt) (fun c _ h => by simp [takesRight]; omega) d
    obtain ⟨d2, e2, s2⟩ := segment_call hu hk hl xi (pc + nt) nt (by simp [numCols]; omega) true
      (takesRight .adp pc nt) (fun c h _ => by simp [takesRight]; omega) d1
    obtain ⟨d3, e3, s3⟩ := segment_call hu hk hl xi (pc + 2 * nt) (2 * pc) (by simp [numCols]; omega)
      false (takesRight .adp pc nt) (fun c h _ => by simp [takesRight]; omega) d2
    refine ⟨d3, ?_, ?_⟩
    · simp only [Bool.false_eq_true, if_false, if_true] at e1 e2 e3
      simp only [refresh, calls, e1, e2, e3]
    · rw [show 0 + (pc + nt) = pc + nt by omega] at s1
      rw [show pc + nt + nt = pc + 2 * nt by omega] at s2
      rw [show pc + 2 * nt + 2 * pc = 3 * pc + 2 * nt by omega] at s3
      have j1 := segment_join hl (by omega) (by omega) (by simp only [numCols]; omega) s1 s2
      exact segment_join hl (by omega) (by simp only [numCols]; omega) (by simp only [numCols]; omega) j1 s3
  | meam => exact segment_plain (hsw (by simp)) hl xi d
  | ang => exact segment_plain (hsw (by simp)) hl xi d
  | angElstat => exact segment_plain (hsw (by simp)) hl xi d
  | elstat =>
    obtain ⟨d1, e1, s1⟩ := segment_switch (hsw (by simp)) hl xi 0 pc (by simp [numCols]) false
      (takesRight .elstat pc nt) (fun _ _ _ => rfl) d
    exact ⟨d1, e1, by simpa [numCols] using s1⟩
  | eamElstat =>
    obtain ⟨d1, e1, s1⟩ := segment_switch (hsw (by simp)) hl xi 0 (pc + nt) (by simp [numCols]; omega)
      false (takesRight .eamElstat pc nt) (fun c _ h => by simp [takesRight]; omega) d
    obtain ⟨d2, e2, s2⟩ := segment_switch (hsw (by simp)) hl xi (pc + nt) nt
      (by simp [numCols]; omega) true
      (takesRight .eamElstat pc nt) (fun c h _ => by simp [takesRight]; omega) d1
    refine ⟨d2, ?_, ?_⟩
    · simp only [refresh, e1, e2]
    · rw [show 0 + (pc + nt) = pc + nt by omega] at s1
      rw [show pc + nt + nt = pc + 2 * nt by omega] at s2
      exact segment_join hl (by omega) (by simp only [numCols]; omega) (by simp only [numCols]; omega) s1 s2

/-- **Splines are fresh.**  Whatever an earlier evaluation left in `d2tab`, after the initialisation at
the start of a force evaluation the look-up routines deliver, for every function of the potential, the
interpolating cubic spline through the current values.  The slope entry in front of the column holds
at the left end (above `0.99e30`: natural); at the right end the second entry holds for embedding
functions and for the angular routines, all other functions end with slope 0. -/
theorem C99_fresh [FloorSemiring K] {rt : Routine} {fmt : Format} (hh : Handles rt fmt) {t : Cols K}
    {pc nt : ℕ} (hl : Layout (isGeneral fmt) t (numCols rt pc nt)) (xi d : ℕ → K) :
    ∃ d', refresh rt fmt t xi pc nt d = .ok d' ∧
      (∀ col < numCols rt pc nt, ServesSpline fmt t xi d' col (endCond (xi (t.first col - 2)))
        (endCond (if takesRight rt pc nt col then xi (t.first col - 1) else 0))) ∧
      ∀ q, (∀ col < numCols rt pc nt, q < t.first col ∨ t.last col < q) → d' q = d q := by
  obtain ⟨d', e, s⟩ := refresh_filled hh hl xi d
  refine ⟨d', e, fun col hc => ?_, fun q hq => s.2 q (fun col _ hc => hq col hc)⟩
  exact serves_of_filled (by rintro rfl; exact hh) (by rintro rfl; exact hh) (hl.good col hc)
    (s.1 col (Nat.zero_le _) hc)

/-- The splines do not depend on the history: two runs of the initialisation with the same values
agree on every column, whatever was in `d2tab` before. -/
theorem C99_no_history {rt : Routine} {fmt : Format} (hh : Handles rt fmt) {t : Cols K}
    {pc nt : ℕ} (hl : Layout (isGeneral fmt) t (numCols rt pc nt)) (xi d1 d2 d1' d2' : ℕ → K)
    (h1 : refresh rt fmt t xi pc nt d1 = .ok d1') (h2 : refresh rt fmt t xi pc nt d2 = .ok d2')
    (col : ℕ) (hc : col < numCols rt pc nt) (q : ℕ) (hq1 : t.first col ≤ q) (hq2 : q ≤ t.last col) :
    d1' q = d2' q := by
  obtain ⟨a, ea, sa⟩ := refresh_filled hh hl xi d1
  obtain ⟨b, eb, sb⟩ := refresh_filled hh hl xi d2
  obtain rfl := Except.ok.inj (h1.symm.trans ea)
  obtain rfl := Except.ok.inj (h2.symm.trans eb)
  have fa := sa.1 col (Nat.zero_le _) hc (q - t.first col) (by omega)
  have fb := sb.1 col (Nat.zero_le _) hc (q - t.first col) (by omega)
  rw [show t.first col + (q - t.first col) = q by omega] at fa fb
  exact Except.ok.inj (fa.symm.trans fb)

/-! ### Analytic potentials: from the parameters to the look-up -/

theorem layoutX_eq {steps : ℕ} (hs : 1 ≤ steps) (i : ℕ) : layoutX steps i = i * steps + i * 2 := by
  induction i with
  | zero => simp [layoutX]
  | succ i ih => rw [layoutX, ih, Nat.add_mul, Nat.add_mul]; omega

theorem calcFirst_eq {steps : ℕ} (hs : 1 ≤ steps) (i j : ℕ) :
    calcFirst steps i + j = Apot.samplePos steps i j := by
  unfold calcFirst Apot.samplePos
  rw [layoutX_eq hs]
  omega

/-- The sampled columns are well-formed equidistant columns one behind the other. -/
theorem calc_layout {steps : ℕ} (hs : 2 ≤ steps) {beg fin : ℕ → K} {n : ℕ} (hb : ∀ i < n, beg i < fin i)
    (xc : ℕ → K) : Layout false (calcCols steps beg fin xc) n where
  good col hc := by
    refine ⟨by simp [calcCols, calcFirst], fun _ => ⟨?_, hb col hc, ?_, rfl⟩, fun h => by cases h⟩
    · simp only [Cols.col, calcCols, calcFirst, calcLast]
      omega
    · simp only [Cols.col, calcCols, calcFirst, calcLast]
      congr 1
      rw [show layoutX steps col + 2 + (steps - 1) = (layoutX steps col + 2) + (steps - 1) by omega,
        Nat.cast_add, Nat.cast_sub (by omega)]
      push_cast
      ring
  sep a b hab _ := by
    simp only [calcCols, calcFirst, calcLast]
    rw [layoutX_eq (by omega), layoutX_eq (by omega)]
    have h1 : (a + 1) * steps ≤ b * steps := Nat.mul_le_mul_right _ hab
    rw [Nat.add_mul] at h1
    omega

theorem fillSamples_spec {p : Apot.Pot K} {steps i : ℕ} {beg step : K} {val : List K} {h : K} {n : ℕ}
    {c c' : Calc K} (hr : fillSamples p steps i beg step val h n c = .ok c') :
    (∀ j < n, c'.xcoord (Apot.samplePos steps i j) = beg + j * step) ∧
    ∀ q, (q < Apot.samplePos steps i 0 ∨ Apot.samplePos steps i n ≤ q) →
      c'.xcoord q = c.xcoord q ∧ c'.tab q = c.tab q := by
  induction n generalizing c' with
  | zero =>
    simp only [fillSamples, Except.ok.injEq] at hr
    subst hr
    exact ⟨by intro j hj; omega, fun _ _ => ⟨rfl, rfl⟩⟩
  | succ n ih =>
    simp only [fillSamples] at hr
    cases h1 : fillSamples p steps i beg step val h n c with
    | error e => rw [h1] at hr; cases hr
    | ok c1 =>
      rw [h1] at hr
      obtain ⟨a, b⟩ := ih h1
      cases h2 : firstSample p beg val h (beg + n * step) with
      | error e => simp only [h2] at hr; cases hr
      | ok v =>
        simp only [h2, Except.ok.injEq] at hr
        subst hr
        refine ⟨fun j hj => ?_, fun q hq => ?_⟩
        · rcases Nat.lt_or_ge j n with hlt | hge
          · have : Apot.samplePos steps i j ≠ Apot.samplePos steps i n := by
              unfold Apot.samplePos; omega
            simp only [Function.update_of_ne this]
            exact a j hlt
          · have : j = n := by omega
            subst this
            simp only [Function.update_self]
        · have : q ≠ Apot.samplePos steps i n := by
            unfold Apot.samplePos at hq ⊢; omega
          simp only [Function.update_of_ne this]
          exact b q (by unfold Apot.samplePos at hq ⊢; omega)

theorem initCalc_spec {steps : ℕ} {beg fin : ℕ → K} {ps : List (Apot.Pot K × List K)} {i : ℕ}
    {c c' : Calc K} (hr : initCalc steps beg fin ps i c = .ok c') :
    (∀ t < ps.length, ∀ j < steps, c'.xcoord (Apot.samplePos steps (i + t) j)
      = beg (i + t) + j * ((fin (i + t) - beg (i + t)) / ((steps : K) - 1))) ∧
    (∀ t < ps.length, c'.tab ((i + t) * steps + (i + t) * 2) = 10 * 10 ^ 30 ∧
      c'.tab ((i + t) * steps + (i + t) * 2 + 1) = 0) ∧
    ∀ q, q < i * steps + i * 2 → c'.xcoord q = c.xcoord q ∧ c'.tab q = c.tab q := by
  induction ps generalizing i c with
  | nil =>
    simp only [initCalc, Except.ok.injEq] at hr
    subst hr
    simp
  | cons a ps ih =>
    obtain ⟨p, val⟩ := a
    simp only [initCalc] at hr
    cases hv : val.getLast? with
    | none => rw [hv] at hr; cases hr
    | some h =>
      simp only [hv] at hr
      cases hf : fillSamples p steps i (beg i) ((fin i - beg i) / ((steps : K) - 1)) val h steps
          (putSlopes steps i c) with
      | error e => rw [hf] at hr; cases hr
      | ok c1 =>
        simp only [hf] at hr
        obtain ⟨f1, f2⟩ := fillSamples_spec hf
        obtain ⟨a1, a2, a3⟩ := ih hr
        have hmul : (i + 1) * steps = i * steps + steps := by rw [Nat.add_mul, one_mul]
        refine ⟨?_, ?_, ?_⟩
        · intro t ht j hj
          cases t with
          | zero =>
            rw [Nat.add_zero, (a3 _ (by unfold Apot.samplePos; omega)).1]
            exact f1 j hj
          | succ t =>
            have := a1 t (by simpa using ht) j hj
            rwa [show i + 1 + t = i + (t + 1) by omega] at this
        · intro t ht
          cases t with
          | zero =>
            rw [Nat.add_zero]
            rw [(a3 _ (by omega)).2, (a3 _ (by omega)).2]
            rw [(f2 _ (by unfold Apot.samplePos; omega)).2, (f2 _ (by unfold Apot.samplePos; omega)).2]
            constructor
            · simp only [putSlopes]
              rw [Function.update_of_ne (by omega), Function.update_self]
            · simp only [putSlopes]
              rw [Function.update_self]
          | succ t =>
            have := a2 t (by simpa using ht)
            rwa [show i + 1 + t = i + (t + 1) by omega] at this
        · intro q hq
          obtain ⟨b1, b2⟩ := a3 q (by omega)
          obtain ⟨g1, g2⟩ := f2 q (by unfold Apot.samplePos; omega)
          rw [b1, b2, g1, g2]
          refine ⟨rfl, ?_⟩
          simp only [putSlopes]
          rw [Function.update_of_ne (by omega), Function.update_of_ne (by omega)]

theorem slope_not_sample {steps t i k l : ℕ} (hl : l < 2) (hk : k < steps) :
    Apot.samplePos steps t k ≠ i * steps + i * 2 + l := by
  unfold Apot.samplePos
  rcases Nat.lt_or_ge t i with hlt | hge
  · have h1 : (t + 1) * steps ≤ i * steps := Nat.mul_le_mul_right _ hlt
    rw [Nat.add_mul] at h1
    omega
  · have h1 : i * steps ≤ t * steps := Nat.mul_le_mul_right _ hge
    omega

open Apot in
theorem update_keeps_slopes {steps : ℕ} {xcoord : ℕ → K} {pots : List (Pot K)} {gidx : ℕ}
    {globals : List (List (ℕ × ℕ))} (hsm : ∀ p ∈ pots, p.smooth = true → 1 ≤ p.nPar)
    {doAll : Bool} {xi list tab : ℕ → K} {s : Tabs K}
    (hr : updateCalcTable steps xcoord pots gidx globals doAll xi list tab = .ok s) (i l : ℕ) (hl : l < 2) :
    s.tab (i * steps + i * 2 + l) = tab (i * steps + i * 2 + l) :=
  (updatePots_spec pots hsm hr).2.1 _ (fun _ _ _ hj => slope_not_sample hl hj)

open Apot in
theorem history_keeps_slopes {steps : ℕ} {xcoord : ℕ → K} {pots : List (Pot K)} {gidx : ℕ}
    {globals : List (List (ℕ × ℕ))} (hsm : ∀ p ∈ pots, p.smooth = true → 1 ≤ p.nPar)
    {hist : List (ℕ → K)} {a c : (ℕ → K) × (ℕ → K)}
    (hh : runHistory steps xcoord pots gidx globals hist a = .ok c) (i l : ℕ) (hl : l < 2) :
    c.2 (i * steps + i * 2 + l) = a.2 (i * steps + i * 2 + l) := by
  induction hist generalizing a with
  | nil =>
    simp only [runHistory, Except.ok.injEq] at hh
    subst hh
    rfl
  | cons x hist ih =>
    simp only [runHistory] at hh
    cases hu : updateCalcTable steps xcoord pots gidx globals false x a.1 a.2 with
    | error e => rw [hu] at hh; cases hh
    | ok s1 =>
      rw [hu] at hh
      rw [ih hh]
      exact update_keeps_slopes hsm hu i l hl

open Apot in
/-- **Analytic potentials.**  Program start (`init_calc_table0`, then `update_calc_table` with
`do_all`), any history of evaluations, and one more evaluation with the parameter vector `xi`: at
every sampling point but the last the look-up returns the analytic function (times the cutoff
function) at the effective parameters of `xi`; between them it is the cubic spline through these
samples which is natural at the left end and has slope 0 at the right end – for embedding functions
too, and whatever slope the function has there. -/
theorem C99_analytic [FloorSemiring K] {steps : ℕ} (hs : 2 ≤ steps) {rt : Routine} {pc nt : ℕ}
    {pots : List (Pot K)} (hn : pots.length = numCols rt pc nt) {beg fin : ℕ → K}
    (hb : ∀ i < pots.length, beg i < fin i) {gidx : ℕ} {globals : List (List (ℕ × ℕ))}
    (hsm : ∀ p ∈ pots, p.smooth = true → 1 ≤ p.nPar) (hg : GoodGlobals pots gidx globals)
    (vals : List (List K)) (hv : vals.length = pots.length) (c0 c1 : Calc K)
    (hi : initCalc steps beg fin (pots.zip vals) 0 c0 = .ok c1)
    (start list0 : ℕ → K) (s0 : Tabs K)
    (h0 : updateCalcTable steps c1.xcoord pots gidx globals true start list0 c1.tab = .ok s0)
    (hist : List (ℕ → K)) (c : (ℕ → K) × (ℕ → K))
    (hh : runHistory steps c1.xcoord pots gidx globals hist (s0.list, s0.tab) = .ok c)
    (xi : ℕ → K) (s : Tabs K)
    (hr : updateCalcTable steps c1.xcoord pots gidx globals false xi c.1 c.2 = .ok s) (d : ℕ → K) :
    ∃ d', refresh rt .analytic (calcCols steps beg fin c1.xcoord) s.tab pc nt d = .ok d' ∧
      ∀ t p, pots[t]? = some p →
        ServesSpline .analytic (calcCols steps beg fin c1.xcoord) s.tab d' t .natural (.slope 0) ∧
        (p.invar = false → ∃ val : List K, val.length = p.nPar ∧
          (∀ n v, val[n]? = some v → IsEffective pots gidx globals xi t n v) ∧
          ∀ j, j + 1 < steps → ∃ y,
            IsSample p (beg t + j * ((fin t - beg t) / ((steps : K) - 1))) val y ∧
            gSplint .analytic ((calcCols steps beg fin c1.xcoord).col d' t) s.tab
              (beg t + j * ((fin t - beg t) / ((steps : K) - 1))) = some (.ok y)) := by
  have hlay : Layout (isGeneral .analytic) (calcCols steps beg fin c1.xcoord) (numCols rt pc nt) :=
    calc_layout hs (fun i h => hb i (by omega)) _
  obtain ⟨d', e, sp, -⟩ := C99_fresh (rt := rt) (fmt := .analytic) trivial hlay s.tab d
  obtain ⟨i1, i2, -⟩ := initCalc_spec hi
  have hlen : (pots.zip vals).length = pots.length := by simp [hv]
  refine ⟨d', e, fun t p hp => ?_⟩
  have ht : t < pots.length := (List.getElem?_eq_some_iff.1 hp).1
  have hsv := sp t (by omega)
  have hsl : ∀ l < 2, s.tab (t * steps + t * 2 + l) = c1.tab (t * steps + t * 2 + l) := by
    intro l hl
    rw [update_keeps_slopes hsm hr t l hl, history_keeps_slopes hsm hh t l hl]
    exact update_keeps_slopes hsm h0 t l hl
  have ha := i2 t (by omega)
  rw [Nat.zero_add] at ha
  have hf : (calcCols steps beg fin c1.xcoord).first t = t * steps + t * 2 + 2 := by
    simp only [calcCols, calcFirst]
    rw [layoutX_eq (by omega)]
  have hl0 : endCond (s.tab ((calcCols steps beg fin c1.xcoord).first t - 2)) = (.natural : EndCond K) := by
    rw [hf, show t * steps + t * 2 + 2 - 2 = t * steps + t * 2 + 0 by omega, hsl 0 (by omega),
      Nat.add_zero, ha.1]
    unfold endCond
    rw [if_pos (by norm_num)]
  have hr0 : endCond (if takesRight rt pc nt t then
      s.tab ((calcCols steps beg fin c1.xcoord).first t - 1) else 0) = (.slope 0 : EndCond K) := by
    rw [hf, show t * steps + t * 2 + 2 - 1 = t * steps + t * 2 + 1 by omega, hsl 1 (by omega), ha.2]
    unfold endCond
    rw [ite_self, if_neg (by norm_num)]
  rw [hl0, hr0] at hsv
  refine ⟨hsv, fun hinv => ?_⟩
  obtain ⟨val, hval, heff, hsam⟩ := C15_fresh hsm hg start list0 c1.tab s0 h0 hist c hh xi s hr t p hp hinv
  refine ⟨val, hval, heff, fun j hj => ⟨s.tab (samplePos steps t j), ?_, ?_⟩⟩
  · have h1 := hsam j (by omega)
    have h2 := i1 t (by omega) j (by omega)
    rw [Nat.zero_add] at h2
    rwa [h2] at h1
  · obtain ⟨q, hq, hlook⟩ := hsv
    have hk : knots (isGeneral .analytic) (calcCols steps beg fin c1.xcoord) t j
        = beg t + j * ((fin t - beg t) / ((steps : K) - 1)) := rfl
    have hlt : (calcCols steps beg fin c1.xcoord).first t + j
        < (calcCols steps beg fin c1.xcoord).last t := by
      simp only [calcCols, calcFirst, calcLast]
      omega
    have hpos : (0 : K) < (fin t - beg t) / ((steps : K) - 1) := by
      refine div_pos (sub_pos.2 (hb t ht)) ?_
      have : (2 : K) ≤ (steps : K) := by exact_mod_cast hs
      linarith
    have h1 := (hlook j hlt (beg t + j * ((fin t - beg t) / ((steps : K) - 1))) (by rw [hk]) (by
      show _ < beg t + ((j + 1 : ℕ) : K) * ((fin t - beg t) / ((steps : K) - 1))
      push_cast
      linarith)).1
    rw [h1]
    have h2 := hq.interp_left j (by omega)
    rw [hk] at h2
    rw [h2]
    show some (Except.ok (s.tab (calcFirst steps t + j))) = _
    rw [calcFirst_eq (by omega)]

/-! ### Where the code falls short -/

/-- A table for one atom type, every column with the knots `0, 1, 3`; `step` is the mean spacing, as
the reader of format 4 sets it.  The values lie on the line `y = x`, both slope entries ask for the
natural end. -/
def lineCols : Cols ℚ where
  first c := 2 + 5 * c
  last c := 4 + 5 * c
  beg _ := 0
  fin _ := 3
  step _ := 3 / 2
  invstep _ := 2 / 3
  xcoord q := if q % 5 = 3 then 1 else if q % 5 = 4 then 3 else 0

def lineValues (q : ℕ) : ℚ :=
  if q % 5 = 0 ∨ q % 5 = 1 then 10 ^ 30 else lineCols.xcoord q

/-- Value of column `col` at `r` after the initialisation of a routine. -/
def probe (rt : Routine) (fmt : Format) (t : Cols ℚ) (xi : ℕ → ℚ) (pc nt col : ℕ) (r : ℚ) : Option ℚ :=
  match refresh rt fmt t xi pc nt (fun _ => 0) with
  | .error _ => none
  | .ok d =>
    match gSplint fmt (t.col d col) xi r with
    | some (.ok v) => some v
    | _ => none

/-- Slope of column `col` at `r`. -/
def probeSlope (rt : Routine) (fmt : Format) (t : Cols ℚ) (xi : ℕ → ℚ) (pc nt col : ℕ) (r : ℚ) :
    Option ℚ :=
  match refresh rt fmt t xi pc nt (fun _ => 0) with
  | .error _ => none
  | .ok d =>
    match gSplintGrad fmt (t.col d col) xi r with
    | some (.ok v) => some v
    | _ => none

theorem lineCols_layout (n : ℕ) : Layout true lineCols n where
  good col _ := by
    refine ⟨by simp [lineCols], fun h => (by cases h), fun _ => ⟨?_, ?_, ?_, ?_⟩⟩
    · simp only [Cols.col, lineCols]; omega
    · intro k h1 h2
      simp only [Cols.col, lineCols] at h1 h2 ⊢
      obtain h | h : k = 2 + 5 * col ∨ k = 3 + 5 * col := by omega
      · subst h
        rw [if_neg (by omega), if_neg (by omega), if_pos (by omega)]; norm_num
      · subst h
        rw [if_pos (by omega), if_neg (by omega), if_pos (by omega)]; norm_num
    · simp only [Cols.col, lineCols]
      rw [if_neg (by omega), if_neg (by omega)]
    · simp only [Cols.col, lineCols]
      rw [if_neg (by omega), if_pos (by omega)]
  sep a b hab _ := by simp only [lineCols]; omega

/-- Hypotheses of `C99_fresh` met by a general table, and the line is reproduced by `force_eam.c`. -/
example : Handles .eam .nonEqDist ∧ Layout true lineCols (numCols .eam 1 1) ∧
    probe .eam .nonEqDist lineCols lineValues 1 1 2 (1 / 2) = some (1 / 2) :=
  ⟨Or.inr (Or.inl rfl), lineCols_layout _, by decide +kernel⟩

/-- `force_meam.c` and `force_ang.c` set up general tables (format 4) as if they were equidistant: for
points on a straight line with natural ends the function used is not the line. -/
theorem C99_general_violated :
    Layout true lineCols (numCols .meam 1 1) ∧ Layout true lineCols (numCols .ang 1 1) ∧
    (∀ col k, k < 3 → lineValues (lineCols.first col + k) = lineCols.xcoord (lineCols.first col + k)) ∧
    (∃ v, probe .meam .nonEqDist lineCols lineValues 1 1 0 (1 / 2) = some v ∧ v ≠ 1 / 2) ∧
    (∃ v, probe .ang .nonEqDist lineCols lineValues 1 1 0 (1 / 2) = some v ∧ v ≠ 1 / 2) := by
  refine ⟨lineCols_layout _, lineCols_layout _, ?_, ⟨11 / 24, ?_, ?_⟩, ⟨11 / 24, ?_, ?_⟩⟩
  · intro col k hk
    unfold lineValues
    rw [if_neg]
    simp only [lineCols]
    omega
  all_goals decide +kernel

/-- With a general table the electrostatic routines stop with the message for the KIM format. -/
theorem C99_elstat_general {t : Cols K} {pc : ℕ} (hp : 0 < pc) (hl : Layout true t pc) (nt : ℕ)
    (xi d : ℕ → K) : refresh .elstat .nonEqDist t xi pc nt d = .error .kimFormat := by
  obtain ⟨d', e, -⟩ := initCol_spec (hl.good 0 hp) true false xi d
  have h1 : ∀ num, colLoop (switchBody .nonEqDist false t xi) 0 (num + 1) d = .error .kimFormat := by
    intro num
    induction num with
    | zero => simp only [colLoop, switchBody, Nat.add_zero, e]
    | succ num ih => rw [colLoop, ih]
  obtain ⟨num, rfl⟩ : ∃ num, pc = num + 1 := ⟨pc - 1, by omega⟩
  exact h1 num

/-- A column with the knots `1, 2, 3`, the values `0, 1, 0`, a natural left end and the slope 5
asked for at the right end. -/
def bumpCols : Cols ℚ where
  first c := 2 + 5 * c
  last c := 4 + 5 * c
  beg _ := 1
  fin _ := 3
  step _ := 1
  invstep _ := 1
  xcoord _ := 0

def bumpValues (q : ℕ) : ℚ :=
  if q % 5 = 0 then 10 ^ 30 else if q % 5 = 1 then 5 else if q % 5 = 3 then 1 else 0

theorem bumpCols_layout (n : ℕ) : Layout false bumpCols n where
  good col _ := by
    refine ⟨by simp [bumpCols], fun _ => ⟨?_, ?_, ?_, ?_⟩, fun h => by cases h⟩
    · simp only [Cols.col, bumpCols]; omega
    · simp only [Cols.col, bumpCols]; norm_num
    · simp only [Cols.col, bumpCols]; push_cast; ring_nf
    · simp only [Cols.col, bumpCols]; norm_num
  sep a b hab _ := by simp only [bumpCols]; omega

/-- The slope given in the potential file for the right end of a pair function (and optimised, if it
is declared free) has no effect in `force_pair.c`, `force_eam.c`, `force_adp.c`; `force_ang.c` and
`force_meam.c` use it. -/
theorem C99_right_slope_violated :
    Layout false bumpCols (numCols .pair 1 1) ∧ bumpValues (bumpCols.first 0 - 1) = 5 ∧
    probeSlope .pair .eqDist bumpCols bumpValues 1 1 0 3 = some 0 ∧
    probeSlope .eam .eqDist bumpCols bumpValues 1 1 0 3 = some 0 ∧
    probeSlope .adp .eqDist bumpCols bumpValues 1 1 0 3 = some 0 ∧
    probeSlope .ang .eqDist bumpCols bumpValues 1 1 0 3 = some 5 ∧
    probeSlope .meam .eqDist bumpCols bumpValues 1 1 0 3 = some 5 := by
  refine ⟨bumpCols_layout _, ?_, ?_, ?_, ?_, ?_, ?_⟩ <;> decide +kernel

/-- Hypotheses of `C99_no_history` met: two initialisations over different old contents. -/
example : Handles .adp .eqDist ∧ Layout (isGeneral .eqDist) bumpCols (numCols .adp 1 1) ∧
    (∃ d', refresh .adp .eqDist bumpCols bumpValues 1 1 (fun _ => 7) = .ok d') ∧
    probe .adp .eqDist bumpCols bumpValues 1 1 4 (3 / 2) = some (43 / 56) := by
  refine ⟨trivial, bumpCols_layout _, ?_, by decide +kernel⟩
  obtain ⟨d', e, -⟩ := C99_fresh (rt := .adp) (fmt := .eqDist) trivial
    (bumpCols_layout (numCols .adp 1 1)) bumpValues (fun _ => 7)
  exact ⟨d', e⟩

/-- The analytic embedding function `F(n) = a n`. -/
def linearPot : Apot.Pot ℚ where
  nPar := 1
  smooth := false
  invar := false
  endR := 2
  fvalue x val := .ok (val.getD 0 0 * x)
  grad val := val.getD 0 0

/-- Three linear functions, three samples each on `[0, 2]`: the table after the program start. -/
def linearStart : Option (Calc ℚ × Apot.Tabs ℚ) :=
  match initCalc 3 (fun _ => 0) (fun _ => 2) [(linearPot, [4]), (linearPot, [4]), (linearPot, [4])] 0
      ⟨fun _ => 0, fun _ => 0⟩ with
  | .error _ => none
  | .ok c =>
    match Apot.updateCalcTable 3 c.xcoord [linearPot, linearPot, linearPot] 9 [] true
        (fun _ => 4) (fun _ => 0) c.tab with
    | .error _ => none
    | .ok s => some (c, s)

/-- After an evaluation with parameter 6: embedding function (column 2) of `force_eam.c` at `r`. -/
def linearProbe (r : ℚ) : Option ℚ :=
  match linearStart with
  | none => none
  | some (c, s) =>
    match Apot.updateCalcTable 3 c.xcoord [linearPot, linearPot, linearPot] 9 [] false
        (fun _ => 6) s.list s.tab with
    | .error _ => none
    | .ok s => probe .eam .analytic (calcCols 3 (fun _ => 0) (fun _ => 2) c.xcoord) s.tab 1 1 2 r

/-- An analytic embedding function is not reproduced between the sampling points near the end of its
range: for `F(n) = 6 n` the samples are exact, but the flat right end bends the spline. -/
theorem C99_flat_end_violated :
    linearProbe 0 = some 0 ∧ linearProbe 1 = some 6 ∧ ∃ v, linearProbe (3 / 2) = some v ∧ v ≠ 9 := by
  refine ⟨by decide +kernel, by decide +kernel, 279 / 28, by decide +kernel, by decide +kernel⟩

/-- Hypotheses of `C99_analytic` met by this run. -/
example : ∃ c1 s0 s, initCalc 3 (fun _ => (0 : ℚ)) (fun _ => 2)
      ([linearPot, linearPot, linearPot].zip [[4], [4], [4]]) 0 ⟨fun _ => 0, fun _ => 0⟩ = .ok c1 ∧
    Apot.updateCalcTable 3 c1.xcoord [linearPot, linearPot, linearPot] 9 [] true
      (fun _ => 4) (fun _ => 0) c1.tab = .ok s0 ∧
    Apot.updateCalcTable 3 c1.xcoord [linearPot, linearPot, linearPot] 9 [] false
      (fun _ => 6) s0.list s0.tab = .ok s ∧
    [linearPot, linearPot, linearPot].length = numCols .eam 1 1 ∧
    s.tab (Apot.samplePos 3 2 1) = 6 :=
  ⟨_, _, _, rfl, rfl, rfl, rfl, by decide +kernel⟩

/-- The first samples of `init_calc_table0` of a smoothed function are all 0, the cutoff function being
called with `begin`; only the call of `update_calc_table` at program start (see `C99_analytic`) puts
the function there. -/
theorem C99_first_samples_zero {p : Apot.Pot K} (hp : p.smooth = true) {beg step : K} (hs : 0 ≤ step)
    (val : List K) (h : K) (j : ℕ) (v : K) (hv : firstSample p beg val h (beg + j * step) = .ok v) :
    v = 0 := by
  unfold firstSample at hv
  cases hf : p.fvalue (beg + j * step) val with
  | error e => rw [hf] at hv; cases hv
  | ok f =>
    have : Apot.apotCutoff (beg + j * step) beg h = .ok 0 := by
      unfold Apot.apotCutoff
      rw [if_pos]
      have : (0 : K) ≤ j * step := mul_nonneg (Nat.cast_nonneg j) hs
      linarith
    simp only [hf, hp, if_true, this, Except.ok.injEq, mul_zero] at hv
    exact hv.symm

example : firstSample { linearPot with smooth := true } 1 [4, 2] 2 (1 + (3 : ℕ) * (1 / 2)) = .ok 0 := by
  decide +kernel

end Verif.Props
