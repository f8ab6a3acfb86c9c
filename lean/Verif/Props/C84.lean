/-
C84  Automatic start temperature of simulated annealing.
-/
import Verif.Model.Annealing
import Mathlib.Analysis.SpecialFunctions.Log.Basic
import Mathlib.Tactic.FieldSimp
import Mathlib.Tactic.Linarith

set_option linter.unusedSectionVars false

namespace Verif.Props

open Verif.Annealing

variable {ι σ : Type*} {N : Nat}

/-- Number of values which are not above `f`. -/
noncomputable def downhill (f : ℝ) (vs : List ℝ) : Nat := vs.countP fun v => decide (v ≤ f)

/-- Number of values above `f`. -/
noncomputable def uphill (f : ℝ) (vs : List ℝ) : Nat := vs.countP fun v => decide (f < v)

/-- Mean of what the values above `f` are above it. -/
noncomputable def meanRise (f : ℝ) (vs : List ℝ) : ℝ := ((vs.filter fun v => decide (f < v)).map (· - f)).sum / (uphill f vs : ℝ)

/-- The share of steps accepted at temperature `T`, if all steps uphill had the mean rise. -/
noncomputable def acceptedShare (T f : ℝ) (vs : List ℝ) : ℝ :=
  ((downhill f vs : ℝ) + (uphill f vs : ℝ) * Real.exp (-(meanRise f vs) / T)) / ((downhill f vs : ℝ) + (uphill f vs : ℝ))

theorem down_add_up (f : ℝ) (vs : List ℝ) : downhill f vs + uphill f vs = vs.length := by
  induction vs with
  | nil => rfl
  | cons v vs ih =>
    simp only [downhill, uphill, List.countP_cons, List.length_cons] at ih ⊢
    by_cases h : v ≤ f
    · have h' : ¬ f < v := not_lt.2 h
      simp only [h, h', decide_true, decide_false, if_true, Bool.false_eq_true, if_false]
      omega
    · have h' : f < v := not_le.1 h
      simp only [h, h', decide_true, decide_false, if_true, Bool.false_eq_true, if_false]
      omega

/-- What the trial steps record. -/
theorem trials_record (E : Env ℝ ι σ N) (pick : σ → σ × Fin N) (xi : ι → ℝ) (f : ℝ) (n : Nat) (t : Tr ℝ ι σ N)
    (hm : t.m1 = downhill f (t.seen.map E.obj))
    (hd : t.dF = (((t.seen.map E.obj).filter fun v => decide (f < v)).map (· - f)).sum) :
    (times (E.trial pick xi f) n t).m1 = downhill f ((times (E.trial pick xi f) n t).seen.map E.obj) ∧
    (times (E.trial pick xi f) n t).dF
      = ((((times (E.trial pick xi f) n t).seen.map E.obj).filter fun v => decide (f < v)).map (· - f)).sum ∧
    (times (E.trial pick xi f) n t).seen.length = t.seen.length + n := by
  induction n generalizing t with
  | zero => exact ⟨hm, hd, rfl⟩
  | succ n ih =>
    have key : (E.trial pick xi f t).m1 = downhill f ((E.trial pick xi f t).seen.map E.obj) ∧
        (E.trial pick xi f t).dF = ((((E.trial pick xi f t).seen.map E.obj).filter fun v => decide (f < v)).map (· - f)).sum ∧
        (E.trial pick xi f t).seen.length = t.seen.length + 1 := by
      unfold Env.trial
      by_cases h : E.obj (E.move (pick t.rng).1 (pick t.rng).2 xi t.v).2.1 ≤ f
      · have h' : ¬ f < E.obj (E.move (pick t.rng).1 (pick t.rng).2 xi t.v).2.1 := not_lt.2 h
        simp only [if_pos h, List.map_cons, downhill, List.countP_cons, List.filter_cons, h', decide_false, decide_true, if_true,
          Bool.false_eq_true, if_false, List.length_cons, h]
        exact ⟨by rw [hm, downhill], hd, trivial⟩
      · have h' : f < E.obj (E.move (pick t.rng).1 (pick t.rng).2 xi t.v).2.1 := not_le.1 h
        simp only [if_neg h, List.map_cons, downhill, List.countP_cons, List.filter_cons, h', decide_false, decide_true, if_true,
          Bool.false_eq_true, if_false, List.length_cons, List.sum_cons, h]
        exact ⟨by rw [hm, downhill]; rfl, by rw [hd]; ring, trivial⟩
    obtain ⟨h1, h2, h3⟩ := ih (E.trial pick xi f t) key.1 key.2.1
    refine ⟨h1, h2, ?_⟩
    show (times (E.trial pick xi f) n (E.trial pick xi f t)).seen.length = _
    rw [h3, key.2.2]
    omega

theorem sum_rise_pos (f : ℝ) : ∀ vs : List ℝ, 0 < uphill f vs → 0 < ((vs.filter fun v => decide (f < v)).map (· - f)).sum := by
  intro vs
  have hnn : ∀ vs : List ℝ, 0 ≤ ((vs.filter fun v => decide (f < v)).map (· - f)).sum := by
    intro vs
    apply List.sum_nonneg
    intro x hx
    obtain ⟨v, hv, rfl⟩ := List.mem_map.1 hx
    have := (List.mem_filter.1 hv).2
    simp only [decide_eq_true_eq] at this
    linarith
  induction vs with
  | nil => intro h; exact absurd h (by simp [uphill])
  | cons v vs ih =>
    intro h
    by_cases hv : f < v
    · simp only [List.filter_cons, hv, decide_true, if_true, List.map_cons, List.sum_cons]
      have := hnn vs
      linarith
    · simp only [List.filter_cons, hv, decide_false, Bool.false_eq_true, if_false]
      apply ih
      simpa only [uphill, List.countP_cons, hv, decide_false, Bool.false_eq_true, if_false, Nat.add_zero] using h

/-- The values of the objective function at the points of the trial steps. -/
noncomputable def trialValues (E : Env ℝ ι σ N) (pick : σ → σ × Fin N) (xi : ι → ℝ) (f : ℝ) (s : σ) (v : Fin N → ℝ) : List ℝ :=
  (times (E.trial pick xi f) (10 * N) ⟨s, v, 0, 0, []⟩).seen.map E.obj

/-- The temperature by its formula. -/
theorem temperature_auto (E : Env ℝ ι σ N) (hl : E.log = Real.log) (pick : σ → σ × Fin N) (xi : ι → ℝ) (f : ℝ) (s : σ) (v : Fin N → ℝ) :
    ∃ r : Tr ℝ ι σ N, r = times (E.trial pick xi f) (10 * N) ⟨s, v, 0, 0, []⟩ ∧ r.seen.length = 10 * N ∧
      E.temperature pick .auto xi f s v =
        (if uphill f (r.seen.map E.obj) = 0 ∨ uphill f (r.seen.map E.obj) = downhill f (r.seen.map E.obj) then none
          else some (|meanRise f (r.seen.map E.obj) / Real.log ((uphill f (r.seen.map E.obj) : ℝ)
            / ((uphill f (r.seen.map E.obj) : ℝ) * (8 / 10) + (1 - 8 / 10) * (downhill f (r.seen.map E.obj) : ℝ)))|, r)) := by
  obtain ⟨h1, h2, h3⟩ := trials_record E pick xi f (10 * N) ⟨s, v, 0, 0, []⟩ rfl rfl
  refine ⟨times (E.trial pick xi f) (10 * N) ⟨s, v, 0, 0, []⟩, rfl, by rw [h3]; simp, ?_⟩
  unfold Env.temperature
  simp only [hl]
  generalize times (E.trial pick xi f) (10 * N) ⟨s, v, 0, 0, []⟩ = r at h1 h2 h3
  have hu : 10 * N - r.m1 = uphill f (r.seen.map E.obj) := by
    have := down_add_up f (r.seen.map E.obj)
    rw [List.length_map, h3] at this
    simp only [List.length_nil] at this
    omega
  rw [hu, h1]
  generalize hU : uphill f (r.seen.map E.obj) = U
  generalize hD : downhill f (r.seen.map E.obj) = D
  have hcond : ((U : ℝ) = 0 ∨ Real.log ((U : ℝ) / ((U : ℝ) * (8 / 10) + (1 - 8 / 10) * (D : ℝ))) = 0) ↔ (U = 0 ∨ U = D) := by
    constructor
    · rintro (h | h)
      · exact Or.inl (by exact_mod_cast h)
      · by_cases h0 : U = 0
        · exact Or.inl h0
        · right
          have hp : (0 : ℝ) < U := by exact_mod_cast Nat.pos_of_ne_zero h0
          have hd : (0 : ℝ) ≤ D := by positivity
          have hq : (0 : ℝ) < (U : ℝ) * (8 / 10) + (1 - 8 / 10) * (D : ℝ) := by linarith
          have h1 : (U : ℝ) / ((U : ℝ) * (8 / 10) + (1 - 8 / 10) * (D : ℝ)) = 1 :=
            Real.eq_one_of_pos_of_log_eq_zero (div_pos hp hq) h
          rw [div_eq_one_iff_eq hq.ne'] at h1
          have : (U : ℝ) = D := by linarith
          exact_mod_cast this
    · rintro (h | h)
      · exact Or.inl (by exact_mod_cast h)
      · by_cases h0 : U = 0
        · exact Or.inl (by exact_mod_cast h0)
        · right
          have hp : (0 : ℝ) < U := by exact_mod_cast Nat.pos_of_ne_zero h0
          rw [← h, show (U : ℝ) * (8 / 10) + (1 - 8 / 10) * (U : ℝ) = U by ring, div_self hp.ne', Real.log_one]
  by_cases hc : U = 0 ∨ U = D
  · rw [if_pos hc, if_pos (hcond.2 hc)]
  · rw [if_neg hc, if_neg (fun h => hc (hcond.1 h))]
    have : meanRise f (r.seen.map E.obj) = r.dF / (U : ℝ) := by
      rw [meanRise, hU, h2]
    rw [this]

/-- A temperature given in the parameter file is used as it is, without trial steps; a negative one is refused. -/
theorem C84_given (E : Env ℝ ι σ N) (pick : σ → σ × Fin N) (T : ℝ) (xi : ι → ℝ) (f : ℝ) (s : σ) (v : Fin N → ℝ) :
    (E.temperature pick (.given T) xi f s v = none ↔ T < 0) ∧
    ∀ T' r, E.temperature pick (.given T) xi f s v = some (T', r) → T' = T ∧ r.seen = [] ∧ r.v = v ∧ r.rng = s := by
  unfold Env.temperature
  by_cases h : T < 0
  · simp [h]
  · simp only [if_neg h]
    refine ⟨by simp [h], ?_⟩
    intro T' r hr
    simp only [Option.some.injEq, Prod.mk.injEq] at hr
    obtain ⟨rfl, rfl⟩ := hr
    exact ⟨rfl, rfl, rfl, rfl⟩

/-- **C84, partial.** The automatic start temperature is made of ten trial steps per free parameter. It is positive; the program stops if
no step goes uphill or as many go up as down. If no step goes downhill, 80 % of the steps are accepted at this temperature (for steps with
the mean rise). Missing: the same if some steps go downhill, see `C84_violated`. -/
theorem C84_start_partial (E : Env ℝ ι σ N) (hl : E.log = Real.log) (pick : σ → σ × Fin N) (xi : ι → ℝ) (f : ℝ) (s : σ) (v : Fin N → ℝ) :
    (∀ T r, E.temperature pick .auto xi f s v = some (T, r) → 0 < T ∧ r.seen.length = 10 * N ∧
      (downhill f (r.seen.map E.obj) = 0 → acceptedShare T f (r.seen.map E.obj) = 8 / 10)) ∧
    (E.temperature pick .auto xi f s v = none ↔ uphill f (trialValues E pick xi f s v) = 0 ∨
      uphill f (trialValues E pick xi f s v) = downhill f (trialValues E pick xi f s v)) := by
  obtain ⟨r, hrt, hr, he⟩ := temperature_auto E hl pick xi f s v
  rw [he]
  constructor
  · intro T r' h
    split at h
    · cases h
    · next hc =>
      obtain ⟨rfl, rfl⟩ := Prod.mk.inj (Option.some.inj h)
      push Not at hc
      obtain ⟨hU0, hUD⟩ := hc
      have hp : (0 : ℝ) < uphill f (r.seen.map E.obj) := by exact_mod_cast Nat.pos_of_ne_zero hU0
      have hrise : 0 < meanRise f (r.seen.map E.obj) := div_pos (sum_rise_pos f _ (Nat.pos_of_ne_zero hU0)) hp
      refine ⟨abs_pos.2 (div_ne_zero hrise.ne' ?_), hr, fun hD => ?_⟩
      · have hd : (0 : ℝ) ≤ downhill f (r.seen.map E.obj) := by positivity
        have hq : (0 : ℝ) < (uphill f (r.seen.map E.obj) : ℝ) * (8 / 10) + (1 - 8 / 10) * (downhill f (r.seen.map E.obj) : ℝ) := by linarith
        intro h0
        have h1 := Real.eq_one_of_pos_of_log_eq_zero (div_pos hp hq) h0
        rw [div_eq_one_iff_eq hq.ne'] at h1
        exact hUD (by
          have : (uphill f (r.seen.map E.obj) : ℝ) = downhill f (r.seen.map E.obj) := by linarith
          exact_mod_cast this)
      · rw [acceptedShare]
        simp only [hD]
        have hlog : Real.log ((uphill f (r.seen.map E.obj) : ℝ) / ((uphill f (r.seen.map E.obj) : ℝ) * (8 / 10)
            + (1 - 8 / 10) * ((0 : Nat) : ℝ))) = Real.log (10 / 8) := by
          congr 1
          push_cast
          field_simp
          norm_num
        rw [hlog]
        have hpos : 0 < Real.log (10 / 8) := Real.log_pos (by norm_num)
        rw [abs_of_pos (div_pos hrise hpos), neg_div, div_div_cancel₀ hrise.ne', ← Real.log_inv, Real.exp_log (by norm_num)]
        push_cast
        field_simp
        ring
  · rw [trialValues, ← hrt]
    split
    · next hc => exact ⟨fun _ => hc, fun _ => rfl⟩
    · next hc => exact ⟨fun h => (by cases h), fun h => absurd h hc⟩

/-- **C84, violated.** As soon as some steps go downhill, but fewer than uphill, the temperature is too high: the share of accepted steps is
0.8 plus 0.4 times the share of steps downhill. (The sign of the term with the number of steps downhill is wrong.) -/
theorem C84_violated (E : Env ℝ ι σ N) (hl : E.log = Real.log) (pick : σ → σ × Fin N) (xi : ι → ℝ) (f : ℝ) (s : σ) (v : Fin N → ℝ)
    (T : ℝ) (r : Tr ℝ ι σ N) (h : E.temperature pick .auto xi f s v = some (T, r))
    (h0 : 0 < downhill f (r.seen.map E.obj)) (h1 : downhill f (r.seen.map E.obj) < uphill f (r.seen.map E.obj)) :
    acceptedShare T f (r.seen.map E.obj) = 8 / 10 + 4 / 10 * ((downhill f (r.seen.map E.obj) : ℝ) / (10 * N : Nat)) ∧
      8 / 10 < acceptedShare T f (r.seen.map E.obj) := by
  obtain ⟨r', -, hr, he⟩ := temperature_auto E hl pick xi f s v
  rw [he] at h
  split at h
  · cases h
  · next hc =>
    obtain ⟨rfl, rfl⟩ := Prod.mk.inj (Option.some.inj h)
    have hsum := down_add_up f (r'.seen.map E.obj)
    rw [List.length_map, hr] at hsum
    have hrise : 0 < meanRise f (r'.seen.map E.obj) :=
      div_pos (sum_rise_pos f _ (by omega)) (by exact_mod_cast (by omega : 0 < uphill f (r'.seen.map E.obj)))
    rw [← hsum, acceptedShare]
    generalize meanRise f (r'.seen.map E.obj) = M at *
    generalize uphill f (r'.seen.map E.obj) = U at *
    generalize downhill f (r'.seen.map E.obj) = D at *
    have hD : (0 : ℝ) < D := by exact_mod_cast h0
    have hDU : (D : ℝ) < U := by exact_mod_cast h1
    have hU : (0 : ℝ) < U := by linarith
    have hq : (0 : ℝ) < (U : ℝ) * (8 / 10) + (1 - 8 / 10) * (D : ℝ) := by linarith
    have hl1 : 0 < Real.log ((U : ℝ) / ((U : ℝ) * (8 / 10) + (1 - 8 / 10) * (D : ℝ))) := by
      apply Real.log_pos
      rw [lt_div_iff₀ hq]
      linarith
    rw [abs_of_pos (div_pos hrise hl1), neg_div, div_div_cancel₀ hrise.ne', ← Real.log_inv, Real.exp_log (by positivity)]
    have e : ((D : ℝ) + (U : ℝ) * ((U : ℝ) / ((U : ℝ) * (8 / 10) + (1 - 8 / 10) * (D : ℝ)))⁻¹) / ((D : ℝ) + (U : ℝ))
        = 8 / 10 + 4 / 10 * ((D : ℝ) / ((D + U : Nat) : ℝ)) := by
      push_cast
      field_simp
      ring
    rw [e]
    refine ⟨rfl, ?_⟩
    have : 0 < (D : ℝ) / ((D + U : Nat) : ℝ) := by
      push_cast
      positivity
    linarith

/-- One free parameter, objective x², start value 1, and steps which lead to 0 first and to 2 in all others. -/
noncomputable def tempEnv : Env ℝ Unit Nat 1 where
  obj x := x () ^ 2
  idx _ := ()
  move k _ _ v := (k + 1, (fun _ => if k = 0 then 0 else 2), v)
  apot := true
  draw k := (k, 0)
  exp := Real.exp
  log := Real.log
  flag _ := false

theorem tempEnv_seen : (times (tempEnv.trial (fun k => (k, 0)) (fun _ => 1) 1) (10 * 1) ⟨0, fun _ => 1, 0, 0, []⟩).seen.map tempEnv.obj
    = [4, 4, 4, 4, 4, 4, 4, 4, 4, 0] := by
  norm_num [times, Env.trial, tempEnv]

/-- One step of ten goes downhill: 84 % of the steps would be accepted. -/
example : ∃ T r, tempEnv.temperature (fun k => (k, 0)) .auto (fun _ => 1) 1 0 (fun _ => 1) = some (T, r) ∧
    acceptedShare T 1 (r.seen.map tempEnv.obj) = 84 / 100 := by
  have hd : downhill 1 [4, 4, 4, 4, 4, 4, 4, 4, 4, 0] = 1 := by
    norm_num [downhill, List.countP_cons]
  have hu : uphill 1 [4, 4, 4, 4, 4, 4, 4, 4, 4, 0] = 9 := by
    norm_num [uphill, List.countP_cons]
  obtain ⟨r, hr, -, he⟩ := temperature_auto tempEnv rfl (fun k => (k, 0)) (fun _ => 1) 1 0 (fun _ => 1)
  have hs : r.seen.map tempEnv.obj = [4, 4, 4, 4, 4, 4, 4, 4, 4, 0] := by rw [hr]; exact tempEnv_seen
  rw [if_neg (by rw [hs, hd, hu]; omega)] at he
  refine ⟨_, r, he, ?_⟩
  rw [(C84_violated tempEnv rfl _ _ _ _ _ _ _ he (by rw [hs, hd]; omega) (by rw [hs, hd, hu]; omega)).1, hs, hd]
  norm_num

end Verif.Props
