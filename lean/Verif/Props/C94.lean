/-
C94  Size of the perturbations for the Hessian.
-/
import Verif.Model.UqBracket
import Verif.Props.C46
import Mathlib.Algebra.Order.Ring.Rat
import Mathlib.Algebra.Order.Field.Basic
import Mathlib.Algebra.Order.AbsoluteValue.Basic
import Mathlib.Order.Monotone.Basic
import Mathlib.Topology.UniformSpace.HeineCantor
import Mathlib.Topology.Instances.Real.Lemmas
import Mathlib.Topology.MetricSpace.ProperSpace.Real
import Mathlib.Analysis.SpecificLimits.Basic
import Mathlib.Tactic.FieldSimp
import Mathlib.Tactic.Linarith
import Mathlib.Tactic.NormNum
import Mathlib.Tactic.Positivity
import Mathlib.Tactic.Ring

set_option linter.unusedSectionVars false

namespace Verif.Props

open Verif.UqBracket

section Basic

variable {K : Type*} [Field K] [LinearOrder K] [IsStrictOrderedRing K]

/-- The aim is reached between the perturbations `lb` and `ub`. -/
structure Reached (c : K → K) (aim lb ub : K) : Prop where
  pos : 0 < lb
  lt : lb < ub
  below : c lb < aim
  above : aim ≤ c ub

/-! ### Mirror image -/

theorem place_neg (lb ub : K) (i : Nat) : place (-lb) (-ub) i = -(place lb ub i) := by
  unfold place; ring

theorem shrink_neg (c : K → K) (aim : K) (fuel : Nat) (p : K) :
    shrink c aim fuel (-p) = match shrink (fun t => c (-t)) aim fuel p with | .ok q => .ok (-q) | .error e => .error e := by
  induction fuel generalizing p with
  | zero => rfl
  | succ fuel ih =>
    unfold shrink
    split
    · rw [neg_div, ih]
    · rfl

theorem grow_neg (c : K → K) (aim : K) (fuel : Nat) (lb p : K) :
    grow c aim fuel (-lb) (-p) =
      match grow (fun t => c (-t)) aim fuel lb p with | .ok q => .ok (-q.1, -q.2) | .error e => .error e := by
  induction fuel generalizing lb p with
  | zero => rfl
  | succ fuel ih =>
    unfold grow
    split
    · rw [neg_mul, ih]
    · rfl

theorem subsection_neg (c : K → K) (aim : K) (fuel : Nat) (lb ub : K) :
    subsection c aim fuel (-lb) (-ub) =
      match subsection (fun t => c (-t)) aim fuel lb ub with | .ok q => .ok (-q.1, -q.2) | .error e => .error e := by
  induction fuel generalizing lb ub with
  | zero => rfl
  | succ fuel ih =>
    have hf : firstAbove c aim (-lb) (-ub) = firstAbove (fun t => c (-t)) aim lb ub := by
      unfold firstAbove
      congr 1
      funext i
      rw [place_neg]
    have hr : ∀ (b : K × K) (x : K), refined c aim (-lb) (-ub) (-b.1, -b.2) x =
        ((-(refined (fun t => c (-t)) aim lb ub b x).1.1, -(refined (fun t => c (-t)) aim lb ub b x).1.2),
          (refined (fun t => c (-t)) aim lb ub b x).2) := by
      intro b x
      unfold refined
      rw [hf]
      cases firstAbove (fun t => c (-t)) aim lb ub with
      | none => simp only [place_neg]
      | some i => simp only [place_neg]
    have ht : turned c aim (-lb) (-ub) = match turned (fun t => c (-t)) aim lb ub with
        | .ok (b, x) => .ok ((-b.1, -b.2), x) | .error e => .error e := by
      unfold turned
      simp only
      split
      · next h1 =>
        split
        · rfl
        · rfl
      · rfl
    unfold subsection
    rw [ht]
    cases turned (fun t => c (-t)) aim lb ub with
    | error e => rfl
    | ok bx =>
      obtain ⟨b, x⟩ := bx
      simp only [hr]
      cases quot ((refined (fun t => c (-t)) aim lb ub b x.2).2 - x.1) aim with
      | error e => rfl
      | ok q =>
        simp only
        split
        · rfl
        · exact ih _ _

theorem lineFit_neg (c : K → K) (aim lb ub : K) : lineFit c aim (-lb) (-ub) = lineFit (fun t => c (-t)) aim lb ub := by
  have e : -ub - -lb = -(ub - lb) := by ring
  unfold lineFit
  rw [e]
  by_cases h : ub - lb = 0
  · simp [quot, h, bind, Except.bind]
  · by_cases h2 : (c (-ub) - c (-lb)) / (ub - lb) = 0
    · simp only [quot, neg_eq_zero, if_neg h, div_neg, if_pos h2, bind, Except.bind]
    · simp only [quot, neg_eq_zero, if_neg h, div_neg, if_neg h2, bind, Except.bind]
      congr 2
      rw [← abs_neg]
      congr 1
      ring

/-- The search to the negative side is the search for the mirror image to the positive side. -/
theorem bracketing_neg (c : K → K) (aim : K) (fuel : Nat) : bracketing c aim true fuel = bracketing (fun t => c (-t)) aim false fuel := by
  have hg : (guess true : K) = -guess false := rfl
  unfold bracketing
  rw [hg, shrink_neg]
  cases shrink (fun t => c (-t)) aim fuel (guess false) with
  | error e => rfl
  | ok p =>
    simp only [bind, Except.bind]
    rw [grow_neg]
    cases grow (fun t => c (-t)) aim fuel p p with
    | error e => rfl
    | ok b =>
      simp only [abs_neg]
      have hb : (if |b.2| < |b.1| then (-b.2, -b.1) else (-b.1, -b.2)) =
          (-(if |b.2| < |b.1| then (b.2, b.1) else b).1, -(if |b.2| < |b.1| then (b.2, b.1) else b).2) := by
        split <;> rfl
      rw [hb, subsection_neg]
      cases subsection (fun t => c (-t)) aim fuel (if |b.2| < |b.1| then (b.2, b.1) else b).1
          (if |b.2| < |b.1| then (b.2, b.1) else b).2 with
      | error e => rfl
      | ok r => exact lineFit_neg _ _ _ _

/-! ### The positive side -/

theorem guess_pos : (0 : K) < guess false := by
  simp only [guess]
  norm_num

theorem shrink_ok {c : K → K} {aim : K} {fuel : Nat} {p q : K} (hp : 0 < p) (h : shrink c aim fuel p = .ok q) :
    0 < q ∧ c q ≤ aim ∧ ∃ k : Nat, q = p / 10 ^ k := by
  induction fuel generalizing p with
  | zero => cases h
  | succ fuel ih =>
    unfold shrink at h
    split at h
    · obtain ⟨h1, h2, k, h3⟩ := ih (by positivity) h
      exact ⟨h1, h2, k + 1, by rw [h3, pow_succ]; field_simp⟩
    · next hc =>
      cases h
      exact ⟨hp, not_lt.1 hc, 0, by simp⟩

theorem grow_ok {c : K → K} {aim : K} {fuel : Nat} {lb p : K} {q : K × K} (hp : 0 < p) (h : grow c aim fuel lb p = .ok q) :
    (q = (lb, p) ∧ aim ≤ c p) ∨ (Reached c aim q.1 q.2 ∧ c p < aim) := by
  induction fuel generalizing lb p with
  | zero => cases h
  | succ fuel ih =>
    unfold grow at h
    split at h
    · next hc =>
      rcases ih (by positivity) h with ⟨h1, h2⟩ | ⟨h1, h2⟩
      · subst h1
        exact Or.inr ⟨⟨hp, by linarith, hc, h2⟩, hc⟩
      · exact Or.inr ⟨h1, hc⟩
    · next hc =>
      cases h
      exact Or.inl ⟨rfl, not_lt.1 hc⟩

theorem place_zero (lb ub : K) : place lb ub 0 = lb := by simp [place]

theorem place_ten (lb ub : K) : place lb ub 10 = ub := by simp [place]

theorem place_between {lb ub : K} (h : lb ≤ ub) {i : Nat} (hi : i ≤ 10) : lb ≤ place lb ub i ∧ place lb ub i ≤ ub := by
  have h1 : (i : K) ≤ 10 := by exact_mod_cast hi
  have h0 : (0 : K) ≤ i := Nat.cast_nonneg i
  unfold place
  constructor
  · have : 0 ≤ (i : K) / 10 * (ub - lb) := mul_nonneg (by positivity) (by linarith)
    linarith
  · have : (i : K) / 10 * (ub - lb) ≤ 1 * (ub - lb) := by
      apply mul_le_mul_of_nonneg_right _ (by linarith)
      rw [div_le_one (by norm_num)]
      exact h1
    linarith

theorem place_step {lb ub : K} {i : Nat} (hi : 1 ≤ i) : place lb ub i = place lb ub (i - 1) + (ub - lb) / 10 := by
  obtain ⟨j, rfl⟩ : ∃ j, i = j + 1 := ⟨i - 1, by omega⟩
  simp only [place, Nat.add_sub_cancel]
  push_cast
  ring

/-- One turn: the bounds are next to each other and the aim is reached between them. -/
theorem refined_reached {c : K → K} {aim lb ub : K} (h : Reached c aim lb ub) (b : K × K) :
    Reached c aim (refined c aim lb ub b (c ub)).1.1 (refined c aim lb ub b (c ub)).1.2 ∧
      lb ≤ (refined c aim lb ub b (c ub)).1.1 ∧ (refined c aim lb ub b (c ub)).1.2 ≤ ub ∧
      (refined c aim lb ub b (c ub)).1.2 - (refined c aim lb ub b (c ub)).1.1 = (ub - lb) / 10 ∧
      (refined c aim lb ub b (c ub)).2 = c ub := by
  unfold refined
  have hlu := h.lt
  cases hf : firstAbove c aim lb ub with
  | none =>
    unfold firstAbove at hf
    rw [List.find?_eq_none] at hf
    have := hf 10 (by decide)
    simp only [decide_eq_true_eq, place_ten] at this
    exact absurd h.above this
  | some i =>
    unfold firstAbove at hf
    rw [List.find?_eq_some_iff_append] at hf
    obtain ⟨hi, as, bs, hab, hb⟩ := hf
    simp only [decide_eq_true_eq] at hi
    have hmem : i ∈ List.range' 1 10 := by rw [hab]; simp
    simp only [List.mem_range'_1] at hmem
    have hstep := place_step (lb := lb) (ub := ub) (i := i) hmem.1
    have hlow : c (place lb ub (i - 1)) < aim := by
      rcases Nat.lt_or_ge 1 i with h1 | h1
      · have hm : i - 1 ∈ as := by
          have hlen : ∀ k (hk : k < (List.range' 1 10).length), (List.range' 1 10)[k] = 1 + k := by
            intro k hk; simp
          have hi' : i - 1 - 1 < as.length := by
            by_contra hcon
            have hal : as.length < (List.range' 1 10).length := by rw [hab]; simp
            have h2 := hlen as.length hal
            have h3 : (List.range' 1 10)[as.length] = i := by simp [hab]
            omega
          have h4 := hlen (i - 1 - 1) (by rw [hab]; simp; omega)
          have h5 : (List.range' 1 10)[i - 1 - 1]'(by rw [hab]; simp; omega) = as[i - 1 - 1] := by
            simp [hab, hi']
          rw [h5] at h4
          have : as[i - 1 - 1] = i - 1 := by omega
          rw [← this]
          exact List.getElem_mem hi'
        have := hb _ hm
        simpa using this
      · have : i - 1 = 0 := by omega
        rw [this, place_zero]
        exact h.below
    have hb1 := place_between hlu.le (i := i - 1) (by omega)
    have hb2 := place_between hlu.le (i := i) (by omega)
    refine ⟨⟨lt_of_lt_of_le h.pos hb1.1, ?_, hlow, hi⟩, hb1.1, hb2.2, ?_, ?_⟩
    · simp only [hstep]; linarith
    · simp only [hstep]; ring
    · simp only [place_ten, ite_self]

theorem turned_reached {c : K → K} {aim lb ub : K} (h : Reached c aim lb ub) : turned c aim lb ub = .ok ((lb, ub), (c lb, c ub)) := by
  unfold turned
  rw [if_neg]
  simp only [outside, Bool.or_eq_true, decide_eq_true_eq, not_or, not_lt]
  exact ⟨h.below.le, h.above⟩

theorem subsection_ok {c : K → K} {aim : K} {fuel : Nat} {lb ub : K} {q : K × K} (h : Reached c aim lb ub)
    (hq : subsection c aim fuel lb ub = .ok q) : Reached c aim q.1 q.2 ∧ lb ≤ q.1 ∧ q.2 ≤ ub ∧
      ∃ l u, Reached c aim l u ∧ lb ≤ l ∧ l ≤ q.1 ∧ q.2 ≤ u ∧ u ≤ ub ∧ aim ≠ 0 ∧ (c u - c l) / aim ≤ 5 / 100 := by
  induction fuel generalizing lb ub with
  | zero => cases hq
  | succ fuel ih =>
    unfold subsection at hq
    rw [turned_reached h] at hq
    simp only at hq
    obtain ⟨r1, r2, r3, -, r4⟩ := refined_reached h (lb, ub)
    rw [r4] at hq
    by_cases ha : aim = 0
    · rw [quot, if_pos ha] at hq
      cases hq
    · rw [quot, if_neg ha] at hq
      simp only at hq
      split at hq
      · next hle =>
        cases hq
        exact ⟨r1, r2, r3, lb, ub, h, le_rfl, r2, r3, le_rfl, ha, hle⟩
      · obtain ⟨q1, q2, q3, l, u, q4, q5, q6, q7, q8, q9⟩ := ih r1 hq
        exact ⟨q1, r2.trans q2, q3.trans r3, l, u, q4, r2.trans q5, q6, q7, q8.trans r3, q9⟩

theorem lineFit_ok {c : K → K} {aim lb ub p : K} (h : Reached c aim lb ub) (hp : lineFit c aim lb ub = .ok p) :
    lb < p ∧ p ≤ ub ∧ (c ub - c lb) * (p - lb) = (aim - c lb) * (ub - lb) := by
  have hd : 0 < ub - lb := by linarith [h.lt]
  have hc : 0 < c ub - c lb := by linarith [h.below, h.above]
  have hg : (c ub - c lb) / (ub - lb) ≠ 0 := (div_pos hc hd).ne'
  simp only [lineFit, quot, bind, Except.bind, if_neg hd.ne', if_neg hg, Except.ok.injEq] at hp
  have e1 : (aim - c lb) / ((c ub - c lb) / (ub - lb)) = (aim - c lb) * (ub - lb) / (c ub - c lb) := by
    field_simp
  have e2 : (aim - c ub) / ((c ub - c lb) / (ub - lb)) + ub = (aim - c lb) * (ub - lb) / (c ub - c lb) + lb := by
    field_simp
    ring
  have hx : 0 < (aim - c lb) * (ub - lb) / (c ub - c lb) := by
    have := h.below
    apply div_pos (mul_pos (by linarith) hd) hc
  have hx2 : (aim - c lb) * (ub - lb) / (c ub - c lb) ≤ ub - lb := by
    rw [div_le_iff₀ hc, mul_comm]
    exact mul_le_mul_of_nonneg_left (by linarith [h.above]) hd.le
  have hpe : p = (aim - c lb) * (ub - lb) / (c ub - c lb) + lb := by
    rw [← hp, e1, e2, abs_of_pos (by linarith [h.pos])]
    ring
  refine ⟨by rw [hpe]; linarith, by rw [hpe]; linarith, ?_⟩
  rw [hpe]
  field_simp
  ring

/-- If the first search meets the aim exactly there is no interval and the line is not defined. -/
theorem subsection_point {c : K → K} {aim p : K} {fuel : Nat} {q : K × K} (h : c p = aim)
    (hq : subsection c aim fuel p p = .ok q) : q = (p, p) := by
  cases fuel with
  | zero => cases hq
  | succ fuel =>
    have hpl : ∀ i, place p p i = p := by intro i; simp [place]
    have hf : firstAbove c aim p p = some 1 := by
      unfold firstAbove
      simp only [hpl, h, ge_iff_le, le_refl, decide_true]
      rfl
    have ht : turned c aim p p = .ok ((p, p), (c p, c p)) := by
      unfold turned
      rw [if_neg]
      simp [outside, h]
    unfold subsection at hq
    rw [ht] at hq
    simp only [refined, hf, hpl] at hq
    rw [if_neg (by decide)] at hq
    unfold quot at hq
    by_cases ha : aim = 0
    · rw [if_pos ha] at hq; cases hq
    · rw [if_neg ha] at hq
      simp only [sub_self, zero_div] at hq
      rw [if_pos (by norm_num)] at hq
      cases hq
      rfl

theorem lineFit_point (c : K → K) (aim p : K) : lineFit c aim p p = .error .zero := by
  simp [lineFit, quot, bind, Except.bind]

/-- The bounds before the intervals are divided. -/
theorem bracketing_ok {c : K → K} {aim p : K} {fuel : Nat} (h : bracketing c aim false fuel = .ok p) :
    ∃ lb ub l u, Reached c aim lb ub ∧ Reached c aim l u ∧ l ≤ lb ∧ ub ≤ u ∧ aim ≠ 0 ∧ (c u - c l) / aim ≤ 5 / 100 ∧
      lb < p ∧ p ≤ ub ∧ (c ub - c lb) * (p - lb) = (aim - c lb) * (ub - lb) := by
  unfold bracketing at h
  simp only [bind, Except.bind] at h
  cases hs : shrink c aim fuel (guess false) with
  | error e => rw [hs] at h; cases h
  | ok q =>
    rw [hs] at h
    simp only at h
    obtain ⟨q0, q1, -⟩ := shrink_ok guess_pos hs
    cases hg : grow c aim fuel q q with
    | error e => rw [hg] at h; cases h
    | ok b =>
      rw [hg] at h
      simp only at h
      rcases grow_ok q0 hg with ⟨b1, b2⟩ | ⟨b1, -⟩
      · subst b1
        simp only [lt_irrefl, if_false] at h
        cases hsub : subsection c aim fuel q q with
        | error e => rw [hsub] at h; cases h
        | ok r =>
          rw [hsub] at h
          rw [subsection_point (le_antisymm q1 b2) hsub] at h
          simp only [lineFit_point] at h
          cases h
      · rw [if_neg (by rw [abs_of_pos b1.pos, abs_of_pos (b1.pos.trans b1.lt), not_lt]; exact b1.lt.le)] at h
        cases hsub : subsection c aim fuel b.1 b.2 with
        | error e => rw [hsub] at h; cases h
        | ok r =>
          rw [hsub] at h
          simp only at h
          obtain ⟨s1, -, -, l, u, s2, -, s3, s4, -, s5, s6⟩ := subsection_ok b1 hsub
          obtain ⟨t1, t2, t3⟩ := lineFit_ok s1 h
          exact ⟨r.1, r.2, l, u, s1, s2, s3, s4, s5, s6, t1, t2, t3⟩

/-! ### Results -/

/-- A perturbation to the negative or positive side. -/
def side (neg : Bool) (t : K) : K := if neg then -t else t

theorem bracketing_side (c : K → K) (aim : K) (neg : Bool) (fuel : Nat) :
    bracketing c aim neg fuel = bracketing (fun t => c (side neg t)) aim false fuel := by
  cases neg with
  | false => rfl
  | true => exact bracketing_neg c aim fuel

/-- **The perturbation found.** The aim is reached between two perturbations of that side, and the value returned is where the line
through these two points reaches it. -/
theorem C94_bracket (c : K → K) (aim : K) (neg : Bool) (fuel : Nat) (p : K) (h : bracketing c aim neg fuel = .ok p) :
    ∃ lb ub, 0 < lb ∧ lb < p ∧ p ≤ ub ∧ c (side neg lb) < aim ∧ aim ≤ c (side neg ub) ∧
      (c (side neg ub) - c (side neg lb)) * (p - lb) = (aim - c (side neg lb)) * (ub - lb) := by
  rw [bracketing_side] at h
  obtain ⟨lb, ub, l, u, h1, -, -, -, -, -, h2, h3, h4⟩ := bracketing_ok h
  exact ⟨lb, ub, h1.pos, h2, h3, h1.below, h1.above, h4⟩

/-- **Five percent.** If the objective does not decrease towards this side, the perturbation found leads to the aim up to five percent.
Missing for the full claim: objectives which go up and down (`C94_five_violated`). -/
theorem C94_aim_partial (c : K → K) (aim : K) (ha : 0 < aim) (neg : Bool)
    (hm : ∀ s t, 0 < s → s ≤ t → c (side neg s) ≤ c (side neg t)) (fuel : Nat) (p : K) (h : bracketing c aim neg fuel = .ok p) :
    |c (side neg p) - aim| ≤ aim / 20 := by
  rw [bracketing_side] at h
  obtain ⟨lb, ub, l, u, h1, h2, h3, h4, h5, h6, h7, h8, h9⟩ := bracketing_ok h
  have hp : 0 < p := h1.pos.trans h7
  have a1 := hm l p h2.pos (h3.trans h7.le)
  have a2 := hm p u hp (h8.trans h4)
  rw [div_le_iff₀ ha] at h6
  have := h2.below
  have := h2.above
  rw [abs_le]
  constructor <;> linarith

/-- **Both directions.** With an objective which does not decrease to either side, the relative step for the Hessian is positive, at most
one, neither of the objectives exceeds the aim by more than five percent, and one of them comes that close if the step is below one. -/
theorem C94_step_partial (c : K → K) (aim user : K) (ha : 0 < aim) (hu : user < 0)
    (hm : ∀ neg s t, 0 < s → s ≤ t → c (side neg s) ≤ c (side neg t)) (fuel : Nat) (p : K) (h : pertOf c aim user fuel = .ok p) :
    0 < p ∧ p ≤ 1 ∧ c p ≤ aim + aim / 20 ∧ c (-p) ≤ aim + aim / 20 ∧ (p < 1 → aim - aim / 20 ≤ max (c p) (c (-p))) := by
  unfold pertOf at h
  rw [if_pos hu] at h
  simp only [bind, Except.bind] at h
  cases h1 : bracketing c aim false fuel with
  | error e => rw [h1] at h; cases h
  | ok pos =>
    rw [h1] at h
    cases h2 : bracketing c aim true fuel with
    | error e => rw [h2] at h; cases h
    | ok neg =>
      rw [h2] at h
      simp only [Except.ok.injEq] at h
      have a1 := abs_le.1 (C94_aim_partial c aim ha false (hm false) fuel pos h1)
      have a2 := abs_le.1 (C94_aim_partial c aim ha true (hm true) fuel neg h2)
      obtain ⟨l1, -, b1, b2, -⟩ := C94_bracket c aim false fuel pos h1
      obtain ⟨l2, -, d1, d2, -⟩ := C94_bracket c aim true fuel neg h2
      simp only [side, Bool.false_eq_true, if_false, if_true] at a1 a2
      have mono : ∀ q, 0 < q → (q ≤ pos → c q ≤ c pos) ∧ (q ≤ neg → c (-q) ≤ c (-neg)) := by
        intro q hq
        exact ⟨fun hh => by simpa [side] using hm false q pos hq hh, fun hh => by simpa [side] using hm true q neg hq hh⟩
      obtain ⟨q, hq, hq1, hq2, hq3⟩ : ∃ q, q = (if pos ≤ neg then pos else neg) ∧ q ≤ pos ∧ q ≤ neg ∧ 0 < q ∧ (q = pos ∨ q = neg) := by
        refine ⟨_, rfl, ?_⟩
        split
        · next hh => exact ⟨le_rfl, hh, b1.trans b2, Or.inl rfl⟩
        · next hh => exact ⟨(not_le.1 hh).le, le_rfl, d1.trans d2, Or.inr rfl⟩
      rw [← hq] at h
      by_cases h1q : q > 1
      · rw [if_pos h1q] at h
        subst h
        obtain ⟨m1, m2⟩ := mono 1 one_pos
        refine ⟨one_pos, le_rfl, ?_, ?_, fun hh => absurd hh (lt_irrefl _)⟩
        · linarith [m1 (h1q.le.trans hq1), a1.2]
        · linarith [m2 (h1q.le.trans hq2), a2.2]
      · rw [if_neg h1q] at h
        subst h
        obtain ⟨m1, m2⟩ := mono q hq3.1
        refine ⟨hq3.1, not_lt.1 h1q, by linarith [m1 hq1, a1.2], by linarith [m2 hq2, a2.2], fun _ => ?_⟩
        rcases hq3.2 with e | e
        · rw [e]; exact le_trans (by linarith [a1.1]) (le_max_left _ _)
        · rw [e]; exact le_trans (by linarith [a2.1]) (le_max_right _ _)

/-- A step given by the user is taken as it is. -/
theorem C94_user (c : K → K) (aim user : K) (hu : 0 ≤ user) (fuel : Nat) : pertOf c aim user fuel = .ok user := by
  unfold pertOf
  rw [if_neg (not_lt.2 hu)]

/-! ### Searches without end -/

theorem grow_flat {c : K → K} {aim : K} (h : ∀ t, c t < aim) (fuel : Nat) (lb p : K) : grow c aim fuel lb p = .error .running := by
  induction fuel generalizing lb p with
  | zero => rfl
  | succ fuel ih => unfold grow; rw [if_pos (h p)]; exact ih _ _

/-- **Parameters without influence: violated.** If the objective never reaches the aim the search has no end. -/
theorem C94_flat_violated (c : K → K) (aim : K) (neg : Bool) (h : ∀ t, c t < aim) (fuel : Nat) :
    bracketing c aim neg fuel = .error .running := by
  unfold bracketing
  cases fuel with
  | zero => rfl
  | succ fuel =>
    unfold shrink
    rw [if_neg (not_lt.2 (h _).le)]
    simp only [bind, Except.bind]
    rw [grow_flat h]

/-- **Parameters which are zero: violated.** Relative changes do not change them, so the search has no end. -/
theorem C94_zero_violated (obj : (Nat → K) → K) (idx : Nat → Nat) (x : Nat → K) (i n : Nat) (temp : K) (hx : x (idx i) = 0)
    (hc : 0 < obj x) (ht : 0 < temp) (hn : 0 < n) (neg : Bool) (fuel : Nat) :
    bracketing (costOf obj idx x i) (costAim (obj x) temp n) neg fuel = .error .running := by
  apply C94_flat_violated
  intro t
  have e : costOf obj idx x i t = obj x := by
    unfold costOf Uq.singlePertCost
    simp only
    congr 1
    funext q
    unfold Uq.put
    split
    · next h => rw [h, hx]; simp
    · rfl
  have hn' : (0 : K) < n := by exact_mod_cast hn
  rw [e, costAim]
  have : 0 < 2 * obj x * temp / n := by positivity
  linarith

theorem shrink_above {c : K → K} {aim : K} (h : ∀ t, t ≠ 0 → aim < c t) (fuel : Nat) (p : K) (hp : p ≠ 0) :
    shrink c aim fuel p = .error .running := by
  induction fuel generalizing p with
  | zero => rfl
  | succ fuel ih =>
    unfold shrink
    rw [if_pos (h p hp)]
    exact ih _ (div_ne_zero hp (by norm_num))

/-- **Perfect fits: violated.** If the cost is zero the aim is zero, and the search has no end. -/
theorem C94_perfect_violated (c : K → K) (temp : K) (n : Nat) (h : ∀ t, t ≠ 0 → 0 < c t) (neg : Bool) (fuel : Nat) :
    bracketing c (costAim 0 temp n) neg fuel = .error .running := by
  have ha : costAim (0 : K) temp n = 0 := by simp [costAim]
  unfold bracketing
  rw [ha, shrink_above h _ _ (by cases neg <;> simp [guess])]
  rfl

theorem subsection_jump {c : K → K} {aim a b : K} (h : ∀ t, c t = a ∨ c t = b) (ha : a < aim) (hb : aim ≤ b)
    (hj : 5 / 100 < (b - a) / aim) (h0 : aim ≠ 0) (fuel : Nat) {lb ub : K} (hr : Reached c aim lb ub) :
    subsection c aim fuel lb ub = .error .running := by
  induction fuel generalizing lb ub with
  | zero => rfl
  | succ fuel ih =>
    unfold subsection
    rw [turned_reached hr]
    simp only
    obtain ⟨r1, -, -, -, r4⟩ := refined_reached hr (lb, ub)
    have e1 : c lb = a := (h lb).resolve_right (by intro e; have := hr.below; rw [e] at this; exact absurd hb (not_le.2 this))
    have e2 : c ub = b := (h ub).resolve_left (by intro e; have := hr.above; rw [e] at this; exact absurd ha (not_lt.2 this))
    rw [r4, quot, if_neg h0]
    simp only
    rw [e1, e2, if_neg (not_le.2 hj), ← e2]
    exact ih r1

end Basic

/-- **Jumps: violated.** An objective which jumps from 1 to 2 at the relative change 3e-6 and an aim between: `subsection_pert` calls itself
without end. -/
theorem C94_jump_violated (fuel : Nat) :
    bracketing (fun t : ℚ => if |t| < 3 / 1000000 then 1 else 2) (3 / 2) false fuel = .error .running := by
  cases fuel with
  | zero => rfl
  | succ fuel =>
    have hs : shrink (fun t : ℚ => if |t| < 3 / 1000000 then 1 else 2) (3 / 2) (fuel + 1) (guess false) = .ok (1 / 1000000) := by
      unfold shrink
      rw [if_neg (by decide +kernel)]
      rfl
    unfold bracketing
    rw [hs]
    simp only [bind, Except.bind]
    cases fuel with
    | zero => decide +kernel
    | succ fuel =>
      have hg : grow (fun t : ℚ => if |t| < 3 / 1000000 then 1 else 2) (3 / 2) (fuel + 1 + 1) (1 / 1000000) (1 / 1000000) =
          .ok (1 / 1000000, 1 / 1000000 * 10) := by
        unfold grow
        rw [if_pos (by decide +kernel)]
        unfold grow
        rw [if_neg (by decide +kernel)]
      rw [hg]
      simp only
      rw [if_neg (by decide +kernel), subsection_jump (a := 1) (b := 2)]
      · intro t
        by_cases h : |t| < 3 / 1000000
        · exact Or.inl (if_pos h)
        · exact Or.inr (if_neg h)
      · norm_num
      · norm_num
      · norm_num
      · norm_num
      · exact ⟨by norm_num, by norm_num, by decide +kernel, by decide +kernel⟩

/-- **Aim met exactly: violated.** If the first perturbation gives exactly the aim, lower and upper bound are equal and the slope is 0/0. -/
theorem C94_exact_violated : bracketing (fun t : ℚ => 1 + 1000000 * |t|) 2 false 3 = .error .zero := by decide +kernel

/-- **Objectives which go up and down: violated.** The test compares the costs of the interval before the last division; the perturbation
returned leads to a hundred times the aim. -/
theorem C94_five_violated : ∃ (c : ℚ → ℚ) (p : ℚ), c 0 < 1 ∧ bracketing c 1 false 5 = .ok p ∧ c p = 100 := by
  refine ⟨fun t => if t ≤ 1 / 1000000 then 99 / 100 else if t < 1 / 100000 then 100 else 101 / 100,
    1 / 1000000 + 9 / 10000000 * (1 / 9901), ?_⟩
  decide +kernel

/-- A parabola: the hypotheses of the theorems hold and the search ends with a value near the square root of the aim. -/
example : (match pertOf (fun t : ℚ => 1 + 1000000 * t ^ 2) (21 / 10) (-1) 8 with
    | .ok p => decide (|1 + 1000000 * p ^ 2 - 21 / 10| < 1 / 1000 ∧ 0 < p) | .error _ => false) = true := by decide +kernel

example : ∀ neg s t, 0 < s → s ≤ t → (fun t : ℚ => 1 + 1000000 * t ^ 2) (side neg s) ≤ (fun t : ℚ => 1 + 1000000 * t ^ 2) (side neg t) := by
  intro neg s t hs ht
  cases neg <;> simp only [side, if_true, Bool.false_eq_true, if_false, neg_sq] <;> nlinarith

/-! ### The search ends -/

section Ends

variable {K : Type*} [Field K] [LinearOrder K] [IsStrictOrderedRing K]

theorem shrink_more {c : K → K} {aim : K} {f g : Nat} (hfg : f ≤ g) {p q : K} (h : shrink c aim f p = .ok q) :
    shrink c aim g p = .ok q := by
  induction f generalizing g p with
  | zero => cases h
  | succ f ih =>
    obtain ⟨g, rfl⟩ : ∃ g', g = g' + 1 := ⟨g - 1, by omega⟩
    unfold shrink at h ⊢
    split
    · next hc => rw [if_pos hc] at h; exact ih (by omega) h
    · next hc => rw [if_neg hc] at h; exact h

theorem grow_more {c : K → K} {aim : K} {f g : Nat} (hfg : f ≤ g) {lb p : K} {q : K × K} (h : grow c aim f lb p = .ok q) :
    grow c aim g lb p = .ok q := by
  induction f generalizing g lb p with
  | zero => cases h
  | succ f ih =>
    obtain ⟨g, rfl⟩ : ∃ g', g = g' + 1 := ⟨g - 1, by omega⟩
    unfold grow at h ⊢
    split
    · next hc => rw [if_pos hc] at h; exact ih (by omega) h
    · next hc => rw [if_neg hc] at h; exact h

theorem shrink_ends {c : K → K} {aim : K} (k : Nat) {p : K} (h : c (p / 10 ^ k) ≤ aim) : ∃ q, shrink c aim (k + 1) p = .ok q := by
  induction k generalizing p with
  | zero =>
    refine ⟨p, ?_⟩
    unfold shrink
    rw [if_neg]
    simpa using h
  | succ k ih =>
    unfold shrink
    split
    · apply ih
      rwa [div_div, ← pow_succ']
    · exact ⟨p, rfl⟩

theorem grow_ends {c : K → K} {aim : K} (k : Nat) {lb p : K} (h : aim ≤ c (p * 10 ^ k)) : ∃ q, grow c aim (k + 1) lb p = .ok q := by
  induction k generalizing lb p with
  | zero =>
    refine ⟨(lb, p), ?_⟩
    unfold grow
    rw [if_neg]
    simpa using h
  | succ k ih =>
    unfold grow
    split
    · apply ih
      rwa [mul_assoc, ← pow_succ']
    · exact ⟨(lb, p), rfl⟩

theorem subsection_ends {c : K → K} {aim δ U : K} (ha : 0 < aim)
    (hc : ∀ s t, 0 < s → s ≤ t → t ≤ U → t - s < δ → c t - c s ≤ aim / 20) (k : Nat) :
    ∀ {lb ub : K}, Reached c aim lb ub → ub ≤ U → ub - lb < δ * 10 ^ k → ∀ fuel, k < fuel → ∃ q, subsection c aim fuel lb ub = .ok q := by
  induction k with
  | zero =>
    intro lb ub h hU hd fuel hf
    obtain ⟨fuel, rfl⟩ : ∃ f', fuel = f' + 1 := ⟨fuel - 1, by omega⟩
    unfold subsection
    rw [turned_reached h]
    simp only
    obtain ⟨-, -, -, -, r4⟩ := refined_reached h (lb, ub)
    rw [r4, quot, if_neg ha.ne']
    simp only
    rw [if_pos]
    · exact ⟨_, rfl⟩
    · rw [div_le_iff₀ ha]
      have := hc lb ub h.pos h.lt.le hU (by simpa using hd)
      linarith
  | succ k ih =>
    intro lb ub h hU hd fuel hf
    obtain ⟨fuel, rfl⟩ : ∃ f', fuel = f' + 1 := ⟨fuel - 1, by omega⟩
    unfold subsection
    rw [turned_reached h]
    simp only
    obtain ⟨r1, -, r2, r3, r4⟩ := refined_reached h (lb, ub)
    rw [r4, quot, if_neg ha.ne']
    simp only
    split
    · exact ⟨_, rfl⟩
    · refine ih r1 (r2.trans hU) ?_ fuel (by omega)
      rw [r3, div_lt_iff₀ (by norm_num)]
      calc ub - lb < δ * 10 ^ (k + 1) := hd
        _ = δ * 10 ^ k * 10 := by ring

end Ends

/-- **The search ends** for continuous objectives which are below the aim without perturbation and reach it for all large ones, unless
the aim is met exactly (see `C94_exact_violated`). -/
theorem C94_ends (c : ℝ → ℝ) (hc : Continuous c) (aim : ℝ) (ha : 0 < aim) (h0 : c 0 < aim) (neg : Bool)
    (hl : ∃ R, ∀ t, R ≤ t → aim ≤ c (side neg t)) :
    ∃ n, ∀ fuel, n ≤ fuel → (∃ p, bracketing c aim neg fuel = .ok p) ∨
      (bracketing c aim neg fuel = .error .zero ∧ ∃ k : Nat, c (side neg (1 / 1000000 / 10 ^ k)) = aim) := by
  obtain ⟨d, hd, hdc⟩ : ∃ d : ℝ → ℝ, d = (fun t => c (side neg t)) ∧ Continuous d := by
    refine ⟨_, rfl, ?_⟩
    cases neg with
    | false => exact hc
    | true => exact hc.comp continuous_neg
  have hd0 : d 0 < aim := by rw [hd]; cases neg <;> simpa [side] using h0
  obtain ⟨R, hR⟩ := hl
  have hR' : ∀ t, R ≤ t → aim ≤ d t := by rw [hd]; exact hR
  have hg : (guess false : ℝ) = 1 / 1000000 := rfl
  -- the first loop
  obtain ⟨k1, hk1⟩ : ∃ k : Nat, d (1 / 1000000 / 10 ^ k) ≤ aim := by
    have ht : Filter.Tendsto (fun k : Nat => (1 / 1000000 : ℝ) / 10 ^ k) Filter.atTop (nhds 0) := by
      have := (tendsto_pow_atTop_nhds_zero_of_lt_one (r := (1 / 10 : ℝ)) (by norm_num) (by norm_num)).const_mul (1 / 1000000 : ℝ)
      simpa [div_eq_mul_inv, inv_pow] using this
    have h2 := (hdc.tendsto 0).comp ht
    have h3 := h2.eventually (gt_mem_nhds hd0)
    obtain ⟨k, hk⟩ := h3.exists
    exact ⟨k, hk.le⟩
  obtain ⟨q, hq⟩ := shrink_ends (c := d) (aim := aim) k1 hk1
  have hq' : shrink d aim (k1 + 1) (guess false) = .ok q := by rw [hg]; exact hq
  obtain ⟨q0, q1, kq, q2⟩ := shrink_ok guess_pos hq'
  -- the second loop
  obtain ⟨k2, hk2⟩ : ∃ k : Nat, aim ≤ d (q * 10 ^ k) := by
    obtain ⟨k, hk⟩ := pow_unbounded_of_one_lt (R / q) (by norm_num : (1 : ℝ) < 10)
    refine ⟨k, hR' _ ?_⟩
    rw [div_lt_iff₀ q0] at hk
    linarith
  obtain ⟨b, hb⟩ := grow_ends (c := d) (aim := aim) (lb := q) k2 hk2
  rcases grow_ok q0 hb with ⟨b1, b2⟩ | ⟨b1, -⟩
  · -- met exactly
    refine ⟨max (k1 + 1) (k2 + 1) + 1, fun fuel hf => Or.inr ⟨?_, kq, ?_⟩⟩
    · rw [bracketing_side, ← hd]
      unfold bracketing
      rw [shrink_more (by omega) hq']
      simp only [bind, Except.bind]
      rw [grow_more (by omega) hb, b1]
      simp only [lt_irrefl, if_false]
      cases hs : subsection d aim fuel q q with
      | ok r =>
        rw [subsection_point (le_antisymm q1 b2) hs]
        exact lineFit_point d aim q
      | error e =>
        exfalso
        obtain ⟨fuel, rfl⟩ : ∃ f', fuel = f' + 1 := ⟨fuel - 1, by omega⟩
        have hpl : ∀ i, place q q i = q := by intro i; simp [place]
        have he : d q = aim := le_antisymm q1 b2
        have hf : firstAbove d aim q q = some 1 := by
          unfold firstAbove
          simp only [hpl, he, ge_iff_le, le_refl, decide_true]
          rfl
        have ht : turned d aim q q = .ok ((q, q), (d q, d q)) := by
          unfold turned
          rw [if_neg]
          simp [outside, he]
        unfold subsection at hs
        rw [ht] at hs
        simp only [refined, hf, hpl] at hs
        rw [if_neg (by decide), quot, if_neg ha.ne'] at hs
        simp only [sub_self, zero_div] at hs
        rw [if_pos (by norm_num)] at hs
        cases hs
    · have he : d q = aim := le_antisymm q1 b2
      rw [hd, q2, hg] at he
      exact he
  · -- an interval
    obtain ⟨δ, hδ, huc⟩ : ∃ δ, 0 < δ ∧ ∀ s ∈ Set.Icc (0 : ℝ) b.2, ∀ t ∈ Set.Icc (0 : ℝ) b.2, dist s t < δ → dist (d s) (d t) < aim / 20 := by
      have hu := isCompact_Icc.uniformContinuousOn_of_continuous (s := Set.Icc (0 : ℝ) b.2) hdc.continuousOn
      rw [Metric.uniformContinuousOn_iff] at hu
      obtain ⟨δ, h1, h2⟩ := hu (aim / 20) (by positivity)
      exact ⟨δ, h1, fun s hs t ht hst => h2 s hs t ht hst⟩
    have hcc : ∀ s t, 0 < s → s ≤ t → t ≤ b.2 → t - s < δ → d t - d s ≤ aim / 20 := by
      intro s t hs hst ht hd'
      have := huc t ⟨by linarith, ht⟩ s ⟨hs.le, by linarith⟩ (by rw [Real.dist_eq, abs_of_nonneg (by linarith)]; exact hd')
      rw [Real.dist_eq] at this
      exact (le_abs_self _).trans this.le
    obtain ⟨k3, hk3⟩ := pow_unbounded_of_one_lt ((b.2 - b.1) / δ) (by norm_num : (1 : ℝ) < 10)
    rw [div_lt_iff₀ hδ, mul_comm] at hk3
    refine ⟨max (max (k1 + 1) (k2 + 1)) (k3 + 1), fun fuel hf => Or.inl ?_⟩
    obtain ⟨r, hr⟩ := subsection_ends ha hcc k3 b1 le_rfl hk3 fuel (by omega)
    obtain ⟨s1, -⟩ := subsection_ok b1 hr
    have hl : ∃ p, lineFit d aim r.1 r.2 = .ok p := by
      have hd1 : 0 < r.2 - r.1 := by linarith [s1.lt]
      have hd2 : 0 < d r.2 - d r.1 := by linarith [s1.below, s1.above]
      have hg2 : (d r.2 - d r.1) / (r.2 - r.1) ≠ 0 := (div_pos hd2 hd1).ne'
      simp only [lineFit, quot, bind, Except.bind, if_neg hd1.ne', if_neg hg2]
      exact ⟨_, rfl⟩
    obtain ⟨p, hp⟩ := hl
    refine ⟨p, ?_⟩
    rw [bracketing_side, ← hd]
    unfold bracketing
    rw [shrink_more (by omega) hq']
    simp only [bind, Except.bind]
    rw [grow_more (by omega) hb]
    simp only
    rw [if_neg (by rw [abs_of_pos b1.pos, abs_of_pos (b1.pos.trans b1.lt), not_lt]; exact b1.lt.le), hr]
    exact hp

/-- The hypotheses for the objective `1 + t²` and the aim 3. -/
example : Continuous (fun t : ℝ => 1 + t ^ 2) ∧ (fun t : ℝ => 1 + t ^ 2) 0 < 3 ∧
    ∀ neg, ∃ R, ∀ t, R ≤ t → (3 : ℝ) ≤ (fun t : ℝ => 1 + t ^ 2) (side neg t) := by
  refine ⟨by fun_prop, by norm_num, fun neg => ⟨2, fun t ht => ?_⟩⟩
  cases neg <;> simp only [side, if_true, Bool.false_eq_true, if_false, neg_sq] <;> nlinarith

end Verif.Props
