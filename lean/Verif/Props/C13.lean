/-
C13  Tabulated potentials: the optimiser's index list is exactly the set of free entries.
-/
import Verif.Lemmas.TableRead

namespace Verif.Props

open Verif.TableRead

/-- The columns occupy consecutive disjoint blocks: column `i` begins two entries (its slopes) behind
the end of column `i-1`, its points are `first … last`, `nvals` of them, and the table ends with the
last point. -/
theorem C13_layout (cols : List ColSpec) (hn : ∀ c ∈ cols, 1 ≤ c.nvals) :
    (layout cols).length = cols.length ∧
    (∀ i c first last, cols[i]? = some c → (layout cols)[i]? = some (first, last) →
      last + 1 = first + c.nvals ∧ 2 ≤ first ∧ first ≤ last ∧ last < tableLen cols ∧
      (i = 0 → first = 2) ∧
      (i + 1 = cols.length → last + 1 = tableLen cols) ∧
      ∀ f l, (layout cols)[i + 1]? = some (f, l) → f = last + 3) := by
  refine ⟨layoutFrom_length cols none, ?_⟩
  intro i c first last hc hl
  have h1 := layoutFrom_get cols none i c hc hn
  have hfa : firstAfter none = 2 := rfl
  rw [show layoutFrom none cols = layout cols from rfl, hl] at h1
  simp only [Option.some.injEq, Prod.mk.injEq, hfa] at h1
  have hpos := hn c (List.mem_of_getElem? hc)
  have hi : i < cols.length := (List.getElem?_eq_some_iff.1 hc).1
  have hbs : ∀ j, j ≤ i → blockStart cols j ≤ blockStart cols i := by
    intro j hj
    unfold blockStart
    rw [show i = j + (i - j) by omega, List.take_add]
    simp
  have hlast : ∃ d, cols[cols.length - 1]? = some d := by
    exact ⟨cols[cols.length - 1], List.getElem?_eq_getElem (by omega)⟩
  obtain ⟨d, hd⟩ := hlast
  have h2 := layoutFrom_get cols none _ d hd hn
  have hdn := hn d (List.mem_of_getElem? hd)
  have hlen : tableLen cols = 2 + blockStart cols (cols.length - 1) + d.nvals := by
    unfold tableLen
    rw [List.getLast?_eq_getElem?, List.getLast?_eq_getElem?, hd,
      show (layout cols).length = cols.length from layoutFrom_length cols none,
      show layout cols = layoutFrom none cols from rfl, h2, hfa]
  have hsucc : ∀ j e, cols[j]? = some e → blockStart cols (j + 1) = blockStart cols j + e.nvals + 2 := by
    intro j e he
    unfold blockStart
    rw [List.take_add_one, he]
    simp
    omega
  have hmono : ∀ j k, j ≤ k → blockStart cols j ≤ blockStart cols k := by
    intro j k hjk
    unfold blockStart
    rw [show k = j + (k - j) by omega, List.take_add]
    simp
  have hb2 := hsucc i c hc
  refine ⟨by omega, by omega, by omega, ?_, ?_, ?_, ?_⟩
  · rw [hlen]
    by_cases hil : i = cols.length - 1
    · subst hil
      rw [hd] at hc
      simp only [Option.some.injEq] at hc
      subst hc
      omega
    · have := hmono (i + 1) (cols.length - 1) (by omega)
      omega
  · intro h0
    subst h0
    rw [h1.1]
    simp [blockStart]
  · intro h0
    have hil : i = cols.length - 1 := by omega
    subst hil
    rw [hd] at hc
    simp only [Option.some.injEq] at hc
    subst hc
    rw [hlen]
    omega
  · intro f l hfl
    have hlt : i + 1 < cols.length := by
      have := (List.getElem?_eq_some_iff.1 hfl).1
      rwa [show (layout cols).length = cols.length from layoutFrom_length cols none] at this
    have h3 := layoutFrom_get cols none (i + 1) _ (List.getElem?_eq_getElem hlt) hn
    rw [show layoutFrom none cols = layout cols from rfl, hfl] at h3
    simp only [Option.some.injEq, Prod.mk.injEq, hfa] at h3
    omega

example : layout [⟨4, false, 0, false, false⟩, ⟨2, true, 3, true, false⟩] = [(2, 5), (8, 9)] ∧
    tableLen [⟨4, false, 0, false, false⟩, ⟨2, true, 3, true, false⟩] = 10 := by decide

/-- The list of optimised positions is strictly increasing, so no position occurs twice. -/
theorem C13_increasing (cols : List ColSpec) : (idxList cols).Pairwise (· < ·) := by
  rw [idxList_eq]; exact positions_sorted _ _

/-- A position is in the list if and only if it belongs to a column that is not invariant and is
either a slope entry declared free, or a sampling point other than the last point of a decaying
function (and other than the first point of the first MEAM `f` column). -/
theorem C13_exactly_free (cols : List ColSpec) (hn : ∀ c ∈ cols, 1 ≤ c.nvals) (x : Nat) :
    x ∈ idxList cols ↔
      ∃ (i : Nat) (c : ColSpec) (first last : Nat), cols[i]? = some c ∧ (layout cols)[i]? = some (first, last) ∧
        c.invar = false ∧
        ((x + 2 = first ∧ c.gradient / 2 ≠ 0) ∨ (x + 1 = first ∧ c.gradient % 2 = 1) ∨
          (first ≤ x ∧ x ≤ last ∧ (x = last → c.keepLast = true) ∧
            (x = first → c.skipFirst = false))) := by
  rw [idxList_eq, mem_positions]
  simp only [Nat.zero_le, Nat.sub_zero, true_and]
  rw [flat_get]
  have key : ∀ i c, cols[i]? = some c → (layout cols)[i]? =
      some (2 + blockStart cols i, 2 + blockStart cols i + c.nvals - 1) :=
    fun i c hc => layoutFrom_get cols none i c hc hn
  have hflag : ∀ (c : ColSpec) (y : Nat), 1 ≤ c.nvals → ((flags c)[y]? = some true ↔
      c.invar = false ∧ ((y = 0 ∧ c.gradient / 2 ≠ 0) ∨ (y = 1 ∧ c.gradient % 2 = 1) ∨
        (2 ≤ y ∧ y < c.nvals + 2 ∧ (y = c.nvals + 1 → c.keepLast = true) ∧
          (y = 2 → c.skipFirst = false)))) := by
    intro c y hc
    rcases y with _ | _ | y
    · simp [flags, Nat.shiftRight_succ]
    · simp [flags]
    · simp only [flags, List.getElem?_cons_succ, List.getElem?_map]
      by_cases hy : y < c.nvals
      · have e : (List.range c.nvals)[y]? = some y := by simp [hy]
        rw [e]
        simp only [Option.map_some, Option.some.injEq, Bool.and_eq_true, Bool.not_eq_true',
          Bool.or_eq_true, decide_eq_true_eq, Bool.and_eq_false_iff, beq_eq_false_iff_ne]
        constructor
        · rintro ⟨⟨h1, h2⟩, h3⟩
          refine ⟨h1, Or.inr (Or.inr ⟨by omega, by omega, ?_, ?_⟩)⟩
          · intro h4
            rcases h2 with h2 | h2
            · exact h2
            · omega
          · intro h4
            rcases h3 with h3 | h3
            · exact h3
            · omega
        · rintro ⟨h1, h2⟩
          rcases h2 with h2 | h2 | ⟨_, _, h3, h4⟩
          · omega
          · omega
          · refine ⟨⟨h1, ?_⟩, ?_⟩
            · by_cases h5 : y + 1 < c.nvals
              · exact Or.inr h5
              · exact Or.inl (h3 (by omega))
            · by_cases h5 : y = 0
              · exact Or.inl (h4 (by omega))
              · exact Or.inr h5
      · have e : (List.range c.nvals)[y]? = none := by simp; omega
        rw [e]
        simp only [Option.map_none, reduceCtorEq, false_iff, not_and]
        rintro _ (⟨h, _⟩ | ⟨h, _⟩ | ⟨_, h, _⟩) <;> omega
  constructor
  · rintro ⟨i, c, hc, h1, h2⟩
    have hpos := hn c (List.mem_of_getElem? hc)
    rw [hflag c _ hpos] at h2
    refine ⟨i, c, _, _, hc, key i c hc, h2.1, ?_⟩
    rcases h2.2 with h3 | h3 | ⟨a, b, d, e⟩
    · exact Or.inl ⟨by omega, h3.2⟩
    · exact Or.inr (Or.inl ⟨by omega, h3.2⟩)
    · exact Or.inr (Or.inr ⟨by omega, by omega, fun h => d (by omega), fun h => e (by omega)⟩)
  · rintro ⟨i, c, first, last, hc, hl, hinv, h2⟩
    have hpos := hn c (List.mem_of_getElem? hc)
    rw [key i c hc] at hl
    simp only [Option.some.injEq, Prod.mk.injEq] at hl
    obtain ⟨rfl, rfl⟩ := hl
    refine ⟨i, c, hc, by omega, ?_⟩
    rw [hflag c _ hpos]
    refine ⟨hinv, ?_⟩
    rcases h2 with h3 | h3 | ⟨a, b, d, e⟩
    · exact Or.inl ⟨by omega, h3.2⟩
    · exact Or.inr (Or.inl ⟨by omega, h3.2⟩)
    · exact Or.inr (Or.inr ⟨by omega, by omega, fun h => d (by omega), fun h => e (by omega)⟩)

/-- Column 0: three points, left slope free; column 1 invariant; column 2: all points free. -/
example : idxList [⟨3, false, 2, false, false⟩, ⟨2, true, 3, true, false⟩, ⟨2, false, 0, true, false⟩]
    = [0, 2, 3, 11, 12] := by decide

/-- The index list fits into the allocated array (as long as the table) and addresses entries of it. -/
theorem C13_fits (cols : List ColSpec) (hn : ∀ c ∈ cols, 1 ≤ c.nvals) :
    (∀ x ∈ idxList cols, x < tableLen cols) ∧ (idxList cols).length ≤ tableLen cols := by
  have h1 : ∀ x ∈ idxList cols, x < tableLen cols := by
    intro x hx
    obtain ⟨i, c, first, last, hc, hl, -, h⟩ := (C13_exactly_free cols hn x).1 hx
    obtain ⟨a, b, d, e, -⟩ := (C13_layout cols hn).2 i c first last hc hl
    omega
  refine ⟨h1, ?_⟩
  have hnd : (idxList cols).Nodup := (C13_increasing cols).imp (fun h => Nat.ne_of_lt h)
  have hsub : idxList cols ⊆ List.range (tableLen cols) := fun x hx => List.mem_range.2 (h1 x hx)
  have := (List.subperm_of_subset hnd hsub).length_le
  simpa using this

example : (∀ c ∈ [(⟨3, false, 2, false, false⟩ : ColSpec)], 1 ≤ c.nvals) := by decide

end Verif.Props
