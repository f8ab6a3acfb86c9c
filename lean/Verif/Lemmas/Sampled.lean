/-
The sampled table of analytic potentials determines the functions of the force routines: `Sampled` says what these functions are, without
table and change cache.
-/
import Verif.Props.C101

set_option linter.unusedSectionVars false

namespace Verif.Props

open Verif.Force hiding Cell
open Verif.Neighbors Verif.Spec Verif.SplineInit Verif.Splines Polynomial Verif.Apot

/-- The sampling points of potential `t`. -/
noncomputable def grid (steps : ℕ) (beg fin : ℕ → ℝ) (t j : ℕ) : ℝ := beg t + j * ((fin t - beg t) / ((steps : ℝ) - 1))

/-- The functions `P` for the parameter vector `x`: the cubic splines through `steps` samples of the analytic functions (times cutoff
function), natural at the left end and with slope zero at the right end. Invariant potentials have the parameters of the vector `start`. -/
structure Sampled (steps : ℕ) (beg fin : ℕ → ℝ) (pots : List (Pot ℝ)) (gidx : ℕ) (globals : List (List (ℕ × ℕ))) (start x : ℕ → ℝ)
    (P : Pots ℝ) : Prop where
  left : P.beg = beg
  right : P.fin = fin
  pieces : ∀ t p, pots[t]? = some p → ∃ (val : List ℝ) (y m : ℕ → ℝ) (f : ℕ → ℝ[X]), val.length = p.nPar ∧
    (∀ n v, val[n]? = some v → IsEffective pots gidx globals (if p.invar then start else x) t n v) ∧
    (∀ j < steps, IsSample p (grid steps beg fin t j) val (y j)) ∧
    IsSpline (grid steps beg fin t) y m steps .natural (.slope 0) f ∧
    ∀ k, k + 1 < steps → ∀ r, grid steps beg fin t k ≤ r → r < grid steps beg fin t (k + 1) →
      P.val t r = (f k).eval r ∧ P.grad t r = (derivative (f k)).eval r

theorem sample_unique {p : Pot ℝ} {x : ℝ} {val : List ℝ} {y y' : ℝ} (h : IsSample p x val y) (h' : IsSample p x val y') : y = y' := by
  obtain ⟨f, hf, h⟩ := h
  obtain ⟨f', hf', h'⟩ := h'
  obtain rfl : f = f' := Except.ok.inj (hf.symm.trans hf')
  split at h
  · next hs =>
    rw [if_pos hs] at h'
    obtain ⟨a, ha, -, rfl⟩ := h
    obtain ⟨a', ha', -, rfl⟩ := h'
    obtain rfl : a = a' := Option.some.inj (ha.symm.trans ha')
    rfl
  · next hs =>
    rw [if_neg hs] at h'
    rw [h, h']

theorem effective_list_unique {pots : List (Pot ℝ)} {gidx : ℕ} {globals : List (List (ℕ × ℕ))} (hg : GoodGlobals pots gidx globals)
    {x : ℕ → ℝ} {t : ℕ} {val val' : List ℝ} (hl : val.length = val'.length)
    (h : ∀ n v, val[n]? = some v → IsEffective pots gidx globals x t n v)
    (h' : ∀ n v, val'[n]? = some v → IsEffective pots gidx globals x t n v) : val = val' := by
  refine List.ext_getElem hl fun n h1 h2 => ?_
  exact C15_effective_unique hg x t n _ _ (h n _ (List.getElem?_eq_getElem h1)) (h' n _ (List.getElem?_eq_getElem h2))

theorem isSpline_values {x y y' m : ℕ → ℝ} {n : ℕ} {l r : EndCond ℝ} {f : ℕ → ℝ[X]} (h : ∀ k < n, y k = y' k) (hs : IsSpline x y m n l r f) :
    IsSpline x y' m n l r f where
  cubic := hs.cubic
  interp_left k hk := by rw [← h k (by omega)]; exact hs.interp_left k hk
  interp_right k hk := by rw [← h (k + 1) (by omega)]; exact hs.interp_right k hk
  curv_left := hs.curv_left
  curv_right := hs.curv_right
  smooth := hs.smooth
  left_end := hs.left_end
  right_end := hs.right_end

section
variable {steps : ℕ} {xcoord : ℕ → ℝ}

theorem updatePot_invar {p : Pot ℝ} (hp : p.invar = true) {i o : ℕ} {h h' : ℝ} {s s' : Tabs ℝ}
    (hr : updatePot steps xcoord false p i o h s = .ok (h', s')) : s'.tab = s.tab := by
  unfold updatePot at hr
  cases hh : cutoffParam false p o h s.xi with
  | error e => rw [hh] at hr; cases hr
  | ok hv =>
    rw [hh] at hr
    simp only [bind, Except.bind, resample, hp, Bool.not_true, Bool.and_false, Bool.or_false, Bool.false_eq_true, if_false,
      Except.ok.injEq, Prod.mk.injEq] at hr
    rw [← hr.2]

/-- Evaluations do not sample invariant potentials again. -/
theorem updatePots_invar (pots : List (Pot ℝ)) (hsm : ∀ p ∈ pots, p.smooth = true → 1 ≤ p.nPar) {i o : ℕ} {h : ℝ} {s s' : Tabs ℝ}
    (hr : updatePots steps xcoord false pots i o h s = .ok s') {t : ℕ} {p : Pot ℝ} (hp : pots[t]? = some p) (hi : p.invar = true)
    {j : ℕ} (hj : j < steps) : s'.tab (samplePos steps (i + t) j) = s.tab (samplePos steps (i + t) j) := by
  induction pots generalizing i o h s t with
  | nil => simp at hp
  | cons d ps ih =>
    simp only [updatePots] at hr
    cases hu : updatePot steps xcoord false d i o h s with
    | error e => rw [hu] at hr; simp [bind, Except.bind] at hr
    | ok r =>
      obtain ⟨h1, s1⟩ := r
      rw [hu] at hr
      simp only [bind, Except.bind] at hr
      obtain ⟨-, -, -, a4, -⟩ := updatePot_spec (hsm d (by simp)) hu
      have hsm' : ∀ p ∈ ps, p.smooth = true → 1 ≤ p.nPar := fun p hp => hsm p (by simp [hp])
      cases t with
      | zero =>
        simp only [List.getElem?_cons_zero, Option.some.injEq] at hp
        subst hp
        rw [(updatePots_spec ps hsm' hr).2.1, updatePot_invar hi hu]
        intro t ht l hl e
        have := (samplePos_inj hl hj e).1
        omega
      | succ t =>
        rw [List.getElem?_cons_succ] at hp
        have := ih hsm' hr hp
        rw [show i + 1 + t = i + (t + 1) by omega] at this
        rw [this, a4]
        intro l hl e
        have := (samplePos_inj hl hj e).1
        omega

variable {pots : List (Pot ℝ)} {gidx : ℕ} {globals : List (List (ℕ × ℕ))}

theorem history_invar (hsm : ∀ p ∈ pots, p.smooth = true → 1 ≤ p.nPar) {hist : List (ℕ → ℝ)} {a c : (ℕ → ℝ) × (ℕ → ℝ)}
    (hh : runHistory steps xcoord pots gidx globals hist a = .ok c) {t : ℕ} {p : Pot ℝ} (hp : pots[t]? = some p) (hi : p.invar = true)
    {j : ℕ} (hj : j < steps) : c.2 (samplePos steps t j) = a.2 (samplePos steps t j) := by
  induction hist generalizing a with
  | nil =>
    simp only [runHistory, Except.ok.injEq] at hh
    subst hh
    rfl
  | cons x hist ih =>
    simp only [runHistory] at hh
    cases hu : updateCalcTable steps xcoord pots gidx globals false x a.1 a.2 with
    | error e => rw [hu] at hh; cases hh
    | ok s1 =>
      rw [hu] at hh
      rw [ih hh]
      have := updatePots_invar pots hsm hu hp hi hj
      rwa [Nat.zero_add] at this

/-- Samples and their parameters, for all potentials. -/
theorem table_samples (hsm : ∀ p ∈ pots, p.smooth = true → 1 ≤ p.nPar) (hg : GoodGlobals pots gidx globals)
    {start list0 tab0 : ℕ → ℝ} {s0 : Tabs ℝ} (h0 : updateCalcTable steps xcoord pots gidx globals true start list0 tab0 = .ok s0)
    {hist : List (ℕ → ℝ)} {c : (ℕ → ℝ) × (ℕ → ℝ)} (hh : runHistory steps xcoord pots gidx globals hist (s0.list, s0.tab) = .ok c)
    {xi : ℕ → ℝ} {s : Tabs ℝ} (hr : updateCalcTable steps xcoord pots gidx globals false xi c.1 c.2 = .ok s)
    {t : ℕ} {p : Pot ℝ} (hp : pots[t]? = some p) :
    ∃ val : List ℝ, val.length = p.nPar ∧
      (∀ n v, val[n]? = some v → IsEffective pots gidx globals (if p.invar then start else xi) t n v) ∧
      ∀ j < steps, IsSample p (xcoord (samplePos steps t j)) val (s.tab (samplePos steps t j)) := by
  cases hi : p.invar with
  | false => simpa using C15_fresh hsm hg start list0 tab0 s0 h0 hist c hh xi s hr t p hp hi
  | true =>
    have hfr := (update_coherent hsm (Or.inl rfl) h0).2 t p hp (Or.inl rfl)
    refine ⟨params (copyGlobals pots gidx globals start) (off pots t + 2) p.nPar, by simp [params], ?_, ?_⟩
    · intro n v hv
      unfold params at hv
      rw [List.getElem?_map, Option.map_eq_some_iff] at hv
      obtain ⟨m, hm, rfl⟩ := hv
      obtain ⟨hn, rfl⟩ := List.getElem?_eq_some_iff.1 hm
      simp only [List.length_range] at hn
      simp only [List.getElem_range]
      have := copyGlobals_spec hg start hp hn
      rw [optFirst_eq_off] at this
      rw [Nat.add_comm (off pots t) 2]
      simpa using this
    · intro j hj
      have e1 := updatePots_invar pots hsm hr hp hi hj
      rw [Nat.zero_add] at e1
      rw [e1]
      show IsSample p _ _ (c.2 _)
      rw [history_invar hsm hh hp hi hj]
      obtain ⟨b1, b2⟩ := hfr j hj
      exact IsSample_of_sampleAt (hsm p (List.mem_of_getElem? hp)) b1 b2

end

section
variable {steps : ℕ} {beg fin : ℕ → ℝ} {pots : List (Pot ℝ)} {gidx : ℕ} {globals : List (List (ℕ × ℕ))}

/-- **The table.** After program start, any history and the update for the vector `xi`: the functions sampled for `xi` are the splines of
the table, and the splines of the table are such functions. -/
theorem sampled_iff (hs : 2 ≤ steps) (hsm : ∀ p ∈ pots, p.smooth = true → 1 ≤ p.nPar)
    (hg : GoodGlobals pots gidx globals) {vals : List (List ℝ)} (hv : vals.length = pots.length) {c0 c1 : Calc ℝ}
    (hi : initCalc steps beg fin (pots.zip vals) 0 c0 = .ok c1) {start list0 : ℕ → ℝ} {s0 : Tabs ℝ}
    (h0 : updateCalcTable steps c1.xcoord pots gidx globals true start list0 c1.tab = .ok s0) {hist : List (ℕ → ℝ)}
    {c : (ℕ → ℝ) × (ℕ → ℝ)} (hh : runHistory steps c1.xcoord pots gidx globals hist (s0.list, s0.tab) = .ok c) {xi : ℕ → ℝ} {s : Tabs ℝ}
    (hr : updateCalcTable steps c1.xcoord pots gidx globals false xi c.1 c.2 = .ok s) (right : ℕ → Bool) (P : Pots ℝ) :
    Sampled steps beg fin pots gidx globals start xi P ↔
      SplinesOf .analytic (calcCols steps beg fin c1.xcoord) s.tab pots.length right P := by
  obtain ⟨i1, i2, -⟩ := initCalc_spec hi
  have hlen : (pots.zip vals).length = pots.length := by simp [hv]
  have hsl : ∀ t l, l < 2 → s.tab (t * steps + t * 2 + l) = c1.tab (t * steps + t * 2 + l) := by
    intro t l hl
    rw [update_keeps_slopes hsm hr t l hl, history_keeps_slopes hsm hh t l hl]
    exact update_keeps_slopes hsm h0 t l hl
  have hf : ∀ t, (calcCols steps beg fin c1.xcoord).first t = t * steps + t * 2 + 2 := by
    intro t
    simp only [calcCols, calcFirst]
    rw [layoutX_eq (by omega)]
  have hl0 : ∀ t < pots.length, endCond (s.tab ((calcCols steps beg fin c1.xcoord).first t - 2)) = (.natural : EndCond ℝ) := by
    intro t ht
    have ha := i2 t (by omega)
    rw [Nat.zero_add] at ha
    rw [hf, show t * steps + t * 2 + 2 - 2 = t * steps + t * 2 + 0 by omega, hsl t 0 (by omega), Nat.add_zero, ha.1]
    unfold endCond
    rw [if_pos (by norm_num)]
  have hr0 : ∀ t < pots.length, endCond (if right t then s.tab ((calcCols steps beg fin c1.xcoord).first t - 1) else 0) =
      (.slope 0 : EndCond ℝ) := by
    intro t ht
    have ha := i2 t (by omega)
    rw [Nat.zero_add] at ha
    rw [hf, show t * steps + t * 2 + 2 - 1 = t * steps + t * 2 + 1 by omega, hsl t 1 (by omega), ha.2]
    unfold endCond
    rw [ite_self, if_neg (by norm_num)]
  have hkn : ∀ t, knots (isGeneral .analytic) (calcCols steps beg fin c1.xcoord) t = grid steps beg fin t := fun t => rfl
  have hlast : ∀ t, (calcCols steps beg fin c1.xcoord).last t = (calcCols steps beg fin c1.xcoord).first t + (steps - 1) := fun t => rfl
  have hval : ∀ t p, pots[t]? = some p → ∃ val : List ℝ, val.length = p.nPar ∧
      (∀ n v, val[n]? = some v → IsEffective pots gidx globals (if p.invar then start else xi) t n v) ∧
      ∀ j < steps, IsSample p (grid steps beg fin t j) val (s.tab ((calcCols steps beg fin c1.xcoord).first t + j)) := by
    intro t p hp
    have ht : t < pots.length := (List.getElem?_eq_some_iff.1 hp).1
    obtain ⟨val, a, b, d⟩ := table_samples hsm hg h0 hh hr hp
    refine ⟨val, a, b, fun j hj => ?_⟩
    have h1 := d j hj
    have h2 := i1 t (by omega) j hj
    rw [Nat.zero_add] at h2
    rw [h2] at h1
    have : (calcCols steps beg fin c1.xcoord).first t + j = samplePos steps t j := by
      rw [hf]; unfold samplePos; rw [Nat.add_mul]; omega
    rw [this]
    exact h1
  constructor
  · intro h
    refine ⟨h.left, h.right, fun t ht => ?_⟩
    obtain ⟨p, hp⟩ : ∃ p, pots[t]? = some p := ⟨_, List.getElem?_eq_getElem ht⟩
    obtain ⟨val, y, m, f, e1, e2, e3, e4, e5⟩ := h.pieces t p hp
    obtain ⟨val', g1, g2, g3⟩ := hval t p hp
    obtain rfl := effective_list_unique hg (e1.trans g1.symm) e2 g2
    have hy : ∀ k < steps, y k = s.tab ((calcCols steps beg fin c1.xcoord).first t + k) := fun k hk => sample_unique (e3 k hk) (g3 k hk)
    refine ⟨m, f, ?_, ?_⟩
    · rw [hl0 t ht, hr0 t ht, hkn, hlast, show (calcCols steps beg fin c1.xcoord).first t + (steps - 1) -
        (calcCols steps beg fin c1.xcoord).first t + 1 = steps by omega]
      exact isSpline_values hy e4
    · intro k hk r a b
      rw [hlast] at hk
      exact e5 k (by omega) r a b
  · intro h
    refine ⟨h.beg, h.fin, fun t p hp => ?_⟩
    have ht : t < pots.length := (List.getElem?_eq_some_iff.1 hp).1
    obtain ⟨m, f, e1, e2⟩ := h.pieces t ht
    obtain ⟨val, g1, g2, g3⟩ := hval t p hp
    refine ⟨val, fun j => s.tab ((calcCols steps beg fin c1.xcoord).first t + j), m, f, g1, g2, g3, ?_, ?_⟩
    · rw [hl0 t ht, hr0 t ht, hkn, hlast, show (calcCols steps beg fin c1.xcoord).first t + (steps - 1) -
        (calcCols steps beg fin c1.xcoord).first t + 1 = steps by omega] at e1
      exact e1
    · intro k hk r a b
      exact e2 k (by rw [hlast]; omega) r a b

end

end Verif.Props
