/-
C14  Start values lie inside their bounds.

The code violates the claim when the bounds are given in the wrong order: they are exchanged, but the
start value is not checked against them (`else if`, `src/potential_input_f0.c` 684-689, 911-916).
-/
import Verif.Lemmas.Apot

namespace Verif.Props

open Verif.Apot

variable {K : Type*} [LinearOrder K]

/-- For optimisation runs: the start value of a non-invariant parameter lies within its bounds
exactly if the bounds were given in increasing order, or the value lay between the two numbers
anyway.  The bounds themselves are always in increasing order. -/
theorem C14_exact (v lo hi : K) :
    let p := checkBounds true v lo hi
    (p.invar = true ↔ lo = hi) ∧ (p.pmin ≤ p.pmax) ∧
    (p.pmin = min lo hi ∧ p.pmax = max lo hi) ∧
    (p.invar = false → ((p.pmin ≤ p.value ∧ p.value ≤ p.pmax) ↔
      (lo ≤ hi ∨ (hi ≤ v ∧ v ≤ lo)))) := by
  intro p
  simp only [p, checkBounds]
  by_cases h1 : lo = hi
  · simp [h1]
  · rw [if_neg h1]
    by_cases h2 : hi < lo
    · rw [if_pos h2]
      refine ⟨by simp [h1], h2.le, ⟨(min_eq_right h2.le).symm, (max_eq_left h2.le).symm⟩, ?_⟩
      intro _
      simp [not_le.2 h2]
    · rw [if_neg h2]
      have h3 : lo ≤ hi := not_lt.1 h2
      have hmin := min_eq_left h3
      have hmax := max_eq_right h3
      by_cases h4 : v < lo ∨ hi < v
      · rw [if_pos h4]
        simp only [if_true]
        refine ⟨by simp [h1], h3, ⟨hmin.symm, hmax.symm⟩, ?_⟩
        intro _
        simp only [h3, true_or, iff_true]
        rcases h4 with h4 | h4
        · rw [if_pos h4, if_neg h2]; exact ⟨le_refl _, h3⟩
        · rw [if_neg (not_lt.2 (h3.trans h4.le)), if_pos h4]; exact ⟨h3, le_refl _⟩
      · rw [if_neg h4]
        push Not at h4
        refine ⟨by simp [h1], h3, ⟨hmin.symm, hmax.symm⟩, ?_⟩
        intro _
        simp [h3, h4.1, h4.2]

example : checkBounds true (7 : Int) 1 5 = ⟨5, 1, 5, false⟩ := by decide

/-- `_partial`: the claim of C14 for whole files in which no lower bound exceeds the upper bound.
Every optimised parameter (not marked invariant), global or not, starts within its bounds.  Missing:
bounds in the wrong order, see `C14_violated`. -/
theorem C14_file_partial (globs : List (K × K × K)) (pots : List (List (Line K)))
    (hg : ∀ g ∈ globs, g.2.1 ≤ g.2.2)
    (hp : ∀ ls ∈ pots, ∀ v lo hi, Line.own v lo hi ∈ ls → lo ≤ hi)
    (gs : List (Param K)) (ps : List (List (Param K)))
    (hr : readParams true globs pots = some (gs, ps)) :
    (∀ p ∈ gs, p.invar = false → p.pmin ≤ p.value ∧ p.value ≤ p.pmax) ∧
    (∀ l ∈ ps, ∀ p ∈ l, p.invar = false → p.pmin ≤ p.value ∧ p.value ≤ p.pmax) := by
  unfold readParams at hr
  simp only [Option.map_eq_some_iff, Prod.mk.injEq] at hr
  obtain ⟨a, ha, rfl, rfl⟩ := hr
  have hb : ∀ v lo hi : K, lo ≤ hi → (checkBounds true v lo hi).invar = false →
      (checkBounds true v lo hi).pmin ≤ (checkBounds true v lo hi).value ∧
      (checkBounds true v lo hi).value ≤ (checkBounds true v lo hi).pmax := by
    intro v lo hi h hi2
    exact ((C14_exact v lo hi).2.2.2 hi2).2 (Or.inl h)
  refine ⟨?_, ?_⟩
  · intro p hp2 hinv
    obtain ⟨g, hgm, rfl⟩ := List.mem_map.1 hp2
    exact hb _ _ _ (hg g hgm) hinv
  · have key : ∀ {α β : Type _} (f : α → Option β) (l : List α) (r : List β), l.mapM f = some r →
        ∀ b ∈ r, ∃ x ∈ l, f x = some b := by
      intro α β f l
      induction l with
      | nil => intro r hr b hb; simp at hr; subst hr; simp at hb
      | cons x l ih =>
        intro r hr b hb
        rw [List.mapM_cons] at hr
        cases hx : f x with
        | none => rw [hx] at hr; simp at hr
        | some y =>
          rw [hx] at hr
          cases hl : l.mapM f with
          | none => rw [hl] at hr; simp at hr
          | some ys =>
            rw [hl] at hr
            simp at hr
            subst hr
            rcases List.mem_cons.1 hb with rfl | hb
            · exact ⟨x, by simp, hx⟩
            · obtain ⟨z, hz, hz2⟩ := ih ys hl b hb
              exact ⟨z, by simp [hz], hz2⟩
    intro l hl p hpl hinv
    obtain ⟨ls, hls, hls2⟩ := key _ _ _ ha l hl
    obtain ⟨ln, hln, hln2⟩ := key _ _ _ hls2 p hpl
    cases ln with
    | own v lo hi =>
      simp only [readLine, Option.some.injEq] at hln2
      subst hln2
      exact hb _ _ _ (hp ls hls v lo hi hln) hinv
    | glob i =>
      simp only [readLine, Option.map_eq_some_iff] at hln2
      obtain ⟨g, -, rfl⟩ := hln2
      simp at hinv

/-- Two globals (one out of range, one fixed) and one potential with an own parameter out of range
and a reference. -/
example : readParams true [((9 : Int), 0, 4), (2, 2, 2)] [[.own (-3) 0 1, .glob 0]] =
    some ([⟨4, 0, 4, false⟩, ⟨2, 2, 2, true⟩], [[⟨0, 0, 1, false⟩, ⟨4, 0, 4, true⟩]]) := by decide

/-- The claim fails: value 5, bounds written as `3 1`.  The parameter is optimised and starts at 5
with bounds 1 and 3. -/
theorem C14_violated : readParams true [] [[.own (5 : Int) 3 1]] = some ([], [[⟨5, 1, 3, false⟩]]) ∧
    ¬ ((5 : Int) ≤ 3) := by decide

end Verif.Props
