/-
Lemmas about the sorting of `src/diff_evo.c` (model `Verif.Model.DiffEvo`).
-/
import Verif.Model.DiffEvo
import Mathlib.Data.List.Perm.Basic
import Mathlib.Tactic.Linarith

set_option linter.unusedSectionVars false

namespace Verif.DiffEvo

variable {K : Type*} [Field K] [LinearOrder K] [IsStrictOrderedRing K] {σ α β : Type*} {d N : Nat}

theorem swapAt_length (l : List α) (i j : Nat) : (swapAt l i j).length = l.length := by
  unfold swapAt
  split <;> simp

theorem swapAt_eq {l : List α} {i j : Nat} (hi : i < l.length) (hj : j < l.length) :
    swapAt l i j = (l.set i l[j]).set j l[i] := by
  unfold swapAt
  rw [List.getElem?_eq_getElem hi, List.getElem?_eq_getElem hj]

theorem swapAt_perm (l : List α) (i j : Nat) : (swapAt l i j).Perm l := by
  by_cases hi : i < l.length
  · by_cases hj : j < l.length
    · rw [swapAt_eq hi hj]
      have h := (Array.swap_perm (xs := l.toArray) (i := i) (j := j) (by simpa using hi) (by simpa using hj)).toList
      simpa [Array.swap] using h
    · unfold swapAt
      rw [List.getElem?_eq_none (l := l) (i := j) (by omega)]
      split <;> simp_all
  · unfold swapAt
    rw [List.getElem?_eq_none (l := l) (i := i) (by omega)]

theorem swapAt_get {l : List α} {i j : Nat} (hi : i < l.length) (hj : j < l.length) (k : Nat) :
    (swapAt l i j)[k]? = if k = j then l[i]? else if k = i then l[j]? else l[k]? := by
  rw [swapAt_eq hi hj, List.getElem?_set, List.getElem?_set]
  by_cases h1 : j = k
  · subst h1
    simp [hj, List.getElem?_eq_getElem hi]
  · have h1' : ¬k = j := fun h => h1 h.symm
    by_cases h2 : i = k
    · subst h2
      simp [hi, h1, h1', List.getElem?_eq_getElem hj]
    · have h2' : ¬k = i := fun h => h2 h.symm
      simp [h1, h1', h2, h2']

theorem swapAt_zip (a : List α) (b : List β) (h : a.length = b.length) (i j : Nat) :
    (swapAt a i j).zip (swapAt b i j) = swapAt (a.zip b) i j := by
  by_cases hi : i < a.length
  · by_cases hj : j < a.length
    · apply List.ext_getElem?
      intro k
      rw [swapAt_get (by simp; omega) (by simp; omega)]
      simp only [List.zip, List.getElem?_zipWith]
      rw [swapAt_get hi hj, swapAt_get (by omega) (by omega)]
      by_cases h1 : k = j
      · simp only [if_pos h1]
      · by_cases h2 : k = i
        · simp only [if_neg h1, if_pos h2]
        · simp only [if_neg h1, if_neg h2]
    · unfold swapAt
      rw [List.getElem?_eq_none (l := a) (i := j) (by omega), List.getElem?_eq_none (l := b) (i := j) (by omega),
        List.getElem?_eq_none (l := a.zip b) (i := j) (by simp; omega)]
      split <;> split <;> (try split) <;> simp_all
  · unfold swapAt
    rw [List.getElem?_eq_none (l := a) (i := i) (by omega), List.getElem?_eq_none (l := b) (i := i) (by omega),
      List.getElem?_eq_none (l := a.zip b) (i := i) (by simp; omega)]

/-- Same rows in another order: lengths are kept, and the pairs of cost and individual are permuted. -/
structure Same (r s : Rows K α) : Prop where
  len : r.cost.length = r.pop.length → s.cost.length = s.pop.length
  cost : s.cost.length = r.cost.length
  perm : r.cost.length = r.pop.length → (s.cost.zip s.pop).Perm (r.cost.zip r.pop)

theorem Same.refl (r : Rows K α) : Same r r := ⟨id, rfl, fun _ => List.Perm.refl _⟩

theorem Same.trans {r s t : Rows K α} (h : Same r s) (h' : Same s t) : Same r t :=
  ⟨fun e => h'.len (h.len e), h'.cost.trans h.cost, fun e => (h'.perm (h.len e)).trans (h.perm e)⟩

theorem same_swap (r : Rows K α) (i j : Nat) : Same r (r.swap i j) := by
  refine ⟨fun e => ?_, swapAt_length _ _ _, fun e => ?_⟩
  · simp only [Rows.swap, swapAt_length, e]
  · simp only [Rows.swap]
    rw [swapAt_zip _ _ e]
    exact swapAt_perm _ _ _

theorem same_partLoop (v : K) (n i cur : Nat) (r : Rows K α) : Same r (partLoop v n i cur r).2 := by
  induction n generalizing i cur r with
  | zero => exact Same.refl r
  | succ n ih =>
    unfold partLoop
    split
    · exact (same_swap r i cur).trans (ih _ _ _)
    · exact ih _ _ _

theorem same_partition (r : Rows K α) (low high index : Nat) : Same r (partition r low high index).2 :=
  ((same_swap r index high).trans (same_partLoop _ _ _ _ _)).trans (same_swap _ _ _)

theorem same_qs (fuel low n : Nat) (r : Rows K α) : Same r (qs fuel low n r) := by
  induction fuel generalizing low n r with
  | zero => exact Same.refl r
  | succ fuel ih =>
    unfold qs
    split
    · exact ((same_partition r _ _ _).trans (ih _ _ _)).trans (ih _ _ _)
    · exact Same.refl r

/-! ### The index returned by `partition`, recursion of the sort -/

theorem partLoop_index (v : K) (n i cur : Nat) (r : Rows K α) :
    cur ≤ (partLoop v n i cur r).1 ∧ (partLoop v n i cur r).1 ≤ cur + n := by
  induction n generalizing i cur r with
  | zero => simp [partLoop]
  | succ n ih =>
    unfold partLoop
    split
    · have := ih (i + 1) (cur + 1) (r.swap i cur)
      omega
    · have := ih (i + 1) cur r
      omega

theorem partition_index (r : Rows K α) {low high : Nat} (h : low ≤ high) (index : Nat) :
    low ≤ (partition r low high index).1 ∧ (partition r low high index).1 ≤ high := by
  have := partLoop_index (r.cost.getD index 0) (high - low) low low (r.swap index high)
  simp only [partition]
  omega

theorem qs_fuel (f g low n : Nat) (r : Rows K α) (hf : n ≤ f) (hg : n ≤ g) : qs f low n r = qs g low n r := by
  induction f generalizing g low n r with
  | zero =>
    obtain rfl : n = 0 := by omega
    cases g with
    | zero => rfl
    | succ g => simp [qs]
  | succ f ih =>
    cases g with
    | zero =>
      obtain rfl : n = 0 := by omega
      simp [qs]
    | succ g =>
      unfold qs
      split
      · next h1 =>
        have hp := partition_index r (low := low) (high := low + n - 1) (by omega) ((low + (low + n - 1)) / 2)
        simp only
        generalize partition r low (low + n - 1) ((low + (low + n - 1)) / 2) = p at hp
        rw [ih g low (p.1 - low) p.2 (by omega) (by omega)]
        exact ih g _ _ _ (by omega) (by omega)
      · rfl

/-- The recursion of the C code, 211-219: the bound on the depth of the model plays no role. -/
theorem quicksort_eq (low n : Nat) (r : Rows K α) :
    quicksort low n r =
      if 1 < n then
        let high := low + n - 1
        let p := partition r low high ((low + high) / 2)
        quicksort (p.1 + 1) (high - p.1) (quicksort low (p.1 - low) p.2)
      else r := by
  unfold quicksort
  cases n with
  | zero => simp [qs]
  | succ n =>
    rw [qs]
    split
    · next h1 =>
      have hp := partition_index r (low := low) (high := low + (n + 1) - 1) (by omega) ((low + (low + (n + 1) - 1)) / 2)
      simp only
      generalize partition r low (low + (n + 1) - 1) ((low + (low + (n + 1) - 1)) / 2) = p at hp
      rw [qs_fuel n (p.1 - low) low (p.1 - low) p.2 (by omega) (by omega)]
      exact qs_fuel _ _ _ _ _ (by omega) (by omega)
    · rfl

/-! ### What `partition` achieves -/

/-- State of the loop 237-243 at index `i`. -/
structure PInv (v : K) (low i cur : Nat) (c : List K) : Prop where
  low_cur : low ≤ cur
  small : ∀ k, low ≤ k → k < cur → ∀ x ∈ c[k]?, x ≤ v
  first : i = low ∧ cur = low ∨ ∃ q, cur ≤ q ∧ q < i ∧ ∀ k, cur ≤ k → k < i → k ≠ q → ∀ x ∈ c[k]?, v < x

theorem pinv_step {v : K} {low i cur : Nat} {r : Rows K α} (hi : i < r.cost.length) (h : PInv v low i cur r.cost) :
    if r.cost.getD i v ≤ v ∧ i ≠ cur then PInv v low (i + 1) (cur + 1) (r.swap i cur).cost
    else PInv v low (i + 1) cur r.cost := by
  have hget : r.cost[i]? = some (r.cost.getD i v) := by
    rw [List.getElem?_eq_getElem hi, List.getD_eq_getElem?_getD, List.getElem?_eq_getElem hi]
    rfl
  split
  · next hc =>
    obtain ⟨q, hq1, hq2, hq⟩ : ∃ q, cur ≤ q ∧ q < i ∧ ∀ k, cur ≤ k → k < i → k ≠ q → ∀ x ∈ r.cost[k]?, v < x := by
      rcases h.first with h1 | h1
      · omega
      · exact h1
    have hg := fun k => swapAt_get hi (show cur < r.cost.length by omega) k
    refine ⟨by have := h.low_cur; omega, ?_, Or.inr ?_⟩
    · intro k hk1 hk2 x hx
      simp only [Rows.swap] at hx
      rw [hg] at hx
      by_cases e : k = cur
      · rw [if_pos e, hget] at hx
        cases hx
        exact hc.1
      · rw [if_neg e, if_neg (by omega)] at hx
        exact h.small k hk1 (by omega) x hx
    · by_cases e : q = cur
      · refine ⟨i, by omega, by omega, ?_⟩
        intro k hk1 hk2 hk3 x hx
        simp only [Rows.swap] at hx
        rw [hg, if_neg (by omega), if_neg (by omega)] at hx
        exact hq k (by omega) (by omega) (by omega) x hx
      · refine ⟨q, by omega, by omega, ?_⟩
        intro k hk1 hk2 hk3 x hx
        simp only [Rows.swap] at hx
        rw [hg, if_neg (by omega)] at hx
        by_cases e2 : k = i
        · rw [if_pos e2] at hx
          exact hq cur le_rfl (by omega) (fun h => e h.symm) x hx
        · rw [if_neg e2] at hx
          exact hq k (by omega) (by omega) hk3 x hx
  · next hc =>
    refine ⟨h.low_cur, h.small, Or.inr ?_⟩
    rcases h.first with ⟨h1, h2⟩ | ⟨q, hq1, hq2, hq⟩
    · exact ⟨i, by omega, by omega, fun k _ _ _ => by omega⟩
    · refine ⟨q, hq1, by omega, ?_⟩
      intro k hk1 hk2 hk3 x hx
      by_cases e : k = i
      · rw [e, hget] at hx
        cases hx
        by_contra hv
        exact hc ⟨not_lt.1 hv, by omega⟩
      · exact hq k hk1 (by omega) hk3 x hx

theorem pinv_loop {v : K} {low : Nat} (n i cur : Nat) (r : Rows K α) (hi : i + n ≤ r.cost.length) (hle : low ≤ i)
    (hci : cur ≤ i) (h : PInv v low i cur r.cost) :
    PInv v low (i + n) (partLoop v n i cur r).1 (partLoop v n i cur r).2.cost ∧
      (∀ k, (k < low ∨ i + n ≤ k) → (partLoop v n i cur r).2.cost[k]? = r.cost[k]?) := by
  induction n generalizing i cur r with
  | zero => exact ⟨h, fun _ _ => rfl⟩
  | succ n ih =>
    have hs := pinv_step (by omega) h
    unfold partLoop
    split
    · next hc =>
      rw [if_pos hc] at hs
      have h2 := ih (i + 1) (cur + 1) (r.swap i cur) (by simp only [Rows.swap, swapAt_length]; omega) (by omega) (by omega) hs
      refine ⟨by rw [show i + (n + 1) = i + 1 + n by omega]; exact h2.1, fun k hk => ?_⟩
      rw [h2.2 k (by omega)]
      simp only [Rows.swap]
      have := h.low_cur
      rw [swapAt_get (by omega) (by omega), if_neg (by omega), if_neg (by omega)]
    · next hc =>
      rw [if_neg hc] at hs
      have h2 := ih (i + 1) cur r (by omega) (by omega) (by omega) hs
      refine ⟨by rw [show i + (n + 1) = i + 1 + n by omega]; exact h2.1, fun k hk => h2.2 k (by omega)⟩

end Verif.DiffEvo
