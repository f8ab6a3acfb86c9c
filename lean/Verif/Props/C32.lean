/-
C32  The opposition step of differential evolution keeps the better half: the sort orders by cost and keeps every individual with
its own cost.
-/
import Verif.Lemmas.DiffEvo

set_option linter.unusedSectionVars false

namespace Verif.Props

open Verif.DiffEvo

variable {K : Type*} [Field K] [LinearOrder K] [IsStrictOrderedRing K] {σ α : Type*} {d N : Nat}

/-- **C32, pairing.** The sort only reorders: costs and individuals are permuted together, whatever the costs are. -/
theorem C32_paired (low n : Nat) (r : Rows K α) (h : r.cost.length = r.pop.length) :
    ((quicksort low n r).cost.zip (quicksort low n r).pop).Perm (r.cost.zip r.pop) ∧
      (quicksort low n r).cost.length = r.cost.length ∧ (quicksort low n r).pop.length = r.pop.length := by
  have hs := same_qs n low n r
  refine ⟨hs.perm h, hs.cost, ?_⟩
  rw [quicksort, ← hs.len h, hs.cost, h]

example : (quicksort 0 3 (⟨[3, 1, 2], ['c', 'a', 'b']⟩ : Rows ℚ Char)).pop = ['a', 'b', 'c'] := by decide +kernel

/-- The cost is the value returned by the evaluation which left the individual (evaluations may change the vector in place). -/
def Evaluated (E : Env K σ d N) (c : K) (p : Ind K d) : Prop := ∃ y, c = E.obj y ∧ p.x = E.put y

/-- Every cost belongs to the individual in the same row. -/
def CostsOf (E : Env K σ d N) (r : Rows K (Ind K d)) : Prop :=
  r.cost.length = r.pop.length ∧ ∀ a ∈ r.cost.zip r.pop, Evaluated E a.1 a.2

/-- If evaluations do not change the value of the vector, the costs are the values of the individuals. -/
theorem costs_eq {E : Env K σ d N} (hput : ∀ x, E.obj (E.put x) = E.obj x) {r : Rows K (Ind K d)} (h : CostsOf E r) :
    r.cost = r.pop.map fun p => E.obj p.x := by
  obtain ⟨c, p⟩ := r
  obtain ⟨h1, h2⟩ := h
  simp only at h1 h2 ⊢
  induction c generalizing p with
  | nil =>
    cases p with
    | nil => rfl
    | cons => simp at h1
  | cons a c ih =>
    cases p with
    | nil => simp at h1
    | cons b p =>
      simp only [List.zip_cons_cons, List.forall_mem_cons] at h2
      rw [List.map_cons, ← ih p (by simpa using h1) h2.2]
      obtain ⟨y, e1, e2⟩ := h2.1
      rw [e1, e2, hput]

/-- Rows which have just been evaluated. -/
theorem costsOf_after (E : Env K σ d N) (pop : List (Ind K d)) : CostsOf E ⟨pop.map fun p => E.obj p.x, pop.map E.after⟩ := by
  refine ⟨by simp, fun a ha => ?_⟩
  simp only at ha
  rw [List.zip_map'] at ha
  obtain ⟨p, -, rfl⟩ := List.mem_map.1 ha
  exact ⟨p.x, rfl, rfl⟩

theorem costsOf_append {E : Env K σ d N} {r t : Rows K (Ind K d)} (h : CostsOf E r) (h' : CostsOf E t) :
    CostsOf E ⟨r.cost ++ t.cost, r.pop ++ t.pop⟩ := by
  refine ⟨by simp [h.1, h'.1], fun a ha => ?_⟩
  simp only at ha
  rw [List.zip_append h.1] at ha
  rcases List.mem_append.1 ha with ha | ha
  · exact h.2 a ha
  · exact h'.2 a ha

theorem costsOf_take {E : Env K σ d N} {r : Rows K (Ind K d)} (h : CostsOf E r) (n : Nat) :
    CostsOf E ⟨r.cost.take n, r.pop.take n⟩ := by
  refine ⟨by simp [h.1], fun a ha => h.2 a ?_⟩
  simp only at ha
  rw [List.zip_eq_zipWith, ← List.take_zipWith, ← List.zip_eq_zipWith] at ha
  exact List.mem_of_mem_take ha

/-- **C32, survivors.** After an opposition step there are as many individuals as before, each is one of the old individuals or
an opposite (as its evaluation left it), and the costs are those of the individuals. -/
theorem C32_survivors (E : Env K σ d N) (init : Bool) (r : Rows K (Ind K d)) (hl : r.pop.length = np d)
    (hc : CostsOf E r) :
    (E.oppositeCheck init r).pop.length = np d ∧ CostsOf E (E.oppositeCheck init r) ∧
      ∀ p ∈ (E.oppositeCheck init r).pop, p ∈ r.pop ∨ ∃ q ∈ E.opposites init r.pop, p = { q with x := E.put q.x } := by
  have hol : (E.opposites init r.pop).length = np d := by
    unfold Env.opposites
    split <;> simp [hl]
  unfold Env.oppositeCheck
  simp only
  generalize E.opposites init r.pop = opp at hol
  set t : Rows K (Ind K d) := ⟨r.cost ++ opp.map fun p => E.obj p.x, r.pop ++ opp.map E.after⟩ with ht
  have htc : CostsOf E t := costsOf_append hc (costsOf_after E opp)
  obtain ⟨hp, hq1, hq2⟩ := C32_paired 0 (2 * np d) t htc.1
  have hlen : t.pop.length = 2 * np d := by simp [ht, hl, hol]; omega
  generalize hs : quicksort 0 (2 * np d) t = s at hp hq1 hq2
  have hsl : s.cost.length = s.pop.length := by have := htc.1; omega
  have hsc : CostsOf E s := ⟨hsl, fun a ha => htc.2 a (hp.mem_iff.1 ha)⟩
  refine ⟨by simp [hq2, hlen]; omega, costsOf_take hsc _, ?_⟩
  intro p hpm
  have h1 := List.mem_of_mem_take hpm
  have h2 : p ∈ (s.cost.zip s.pop).map Prod.snd := by
    rw [List.map_snd_zip (by omega)]
    exact h1
  obtain ⟨a, ha, rfl⟩ := List.mem_map.1 h2
  have h3 := (List.of_mem_zip (hp.mem_iff.1 ha)).2
  rcases List.mem_append.1 h3 with h3 | h3
  · exact Or.inl h3
  · obtain ⟨q, hq, e⟩ := List.mem_map.1 h3
    exact Or.inr ⟨q, hq, e.symm⟩

/-- **C32, ordering: what holds.** After `partition` the pivot stands at the returned index, all costs before it are at most the
pivot, and all costs after it are larger, except possibly at one position.  For a correct sort there must be no exception;
`C32_violated` shows that there is one. -/
theorem C32_partition_partial (r : Rows K α) (low high index : Nat) (h1 : low < high) (hi : low ≤ index) (hi' : index ≤ high)
    (h2 : high < r.cost.length) :
    let p := partition r low high index
    (low ≤ p.1 ∧ p.1 ≤ high) ∧ p.2.cost[p.1]? = r.cost[index]? ∧
      (∀ k, low ≤ k → k < p.1 → ∀ x ∈ p.2.cost[k]?, ∀ v ∈ r.cost[index]?, x ≤ v) ∧
      (∃ q, ∀ k, p.1 < k → k ≤ high → k ≠ q → ∀ x ∈ p.2.cost[k]?, ∀ v ∈ r.cost[index]?, v < x) ∧
      (∀ k, k < low ∨ high < k → p.2.cost[k]? = r.cost[k]?) := by
  simp only
  refine ⟨partition_index r h1.le index, ?_⟩
  have hidx : index < r.cost.length := by omega
  have hv : r.cost[index]? = some (r.cost.getD index 0) := by
    rw [List.getD_eq_getElem?_getD, List.getElem?_eq_getElem hidx]
    rfl
  simp only [hv, Option.mem_some_iff, forall_eq']
  have hb := partition_index r h1.le index
  unfold partition at hb ⊢
  simp only at hb ⊢
  set v := r.cost.getD index 0 with hvd
  have hsl : (r.swap index high).cost.length = r.cost.length := swapAt_length _ _ _
  have h := pinv_loop (v := v) (low := low) (high - low) low low (r.swap index high) (by omega) le_rfl le_rfl
    ⟨le_rfl, fun k _ _ => by omega, Or.inl ⟨rfl, rfl⟩⟩
  rw [show low + (high - low) = high by omega] at h
  obtain ⟨hinv, hout⟩ := h
  have hlen := (same_partLoop v (high - low) low low (r.swap index high)).cost
  generalize partLoop v (high - low) low low (r.swap index high) = l at hb hinv hout hlen
  obtain ⟨cur, t⟩ := l
  simp only at hb hinv hout hlen ⊢
  have hcur : cur < t.cost.length := by omega
  have hh : high < t.cost.length := by omega
  have hpiv : t.cost[high]? = some v := by
    rw [hout high (by omega)]
    simp only [Rows.swap]
    rw [swapAt_get (by omega) (by omega), if_pos rfl, hv]
  simp only [Rows.swap]
  refine ⟨?_, ?_, ?_, ?_⟩
  · rw [swapAt_get hcur hh]
    by_cases e : cur = high
    · rw [if_pos e, e, hpiv]
    · rw [if_neg e, if_pos rfl, hpiv]
  · intro k hk1 hk2 x hx
    rw [swapAt_get hcur hh, if_neg (by omega), if_neg (by omega)] at hx
    exact hinv.small k hk1 hk2 x hx
  · rcases hinv.first with ⟨e, _⟩ | ⟨q, hq1, hq2, hq⟩
    · omega
    · by_cases e : q = cur
      · refine ⟨high, fun k hk1 hk2 hk3 x hx => ?_⟩
        rw [swapAt_get hcur hh, if_neg hk3, if_neg (by omega)] at hx
        exact hq k (by omega) (by omega) (by omega) x hx
      · refine ⟨q, fun k hk1 hk2 hk3 x hx => ?_⟩
        rw [swapAt_get hcur hh] at hx
        by_cases e2 : k = high
        · rw [if_pos e2] at hx
          exact hq cur le_rfl (by omega) (fun h => e h.symm) x hx
        · rw [if_neg e2, if_neg (by omega)] at hx
          exact hq k (by omega) (by omega) hk3 x hx
  · intro k hk
    rw [swapAt_get hcur hh, if_neg (by omega), if_neg (by omega), hout k (by omega)]
    simp only [Rows.swap]
    rw [swapAt_get (by omega) (by omega), if_neg (by omega), if_neg (by omega)]

example : (partition (⟨[5, 1, 4, 2, 3], ['e', 'a', 'd', 'b', 'c']⟩ : Rows ℚ Char) 0 4 2) =
    (3, ⟨[1, 3, 2, 4, 5], ['a', 'c', 'b', 'd', 'e']⟩) := by decide +kernel

/-- **C32, ordering: violated.** Three rows in order come out in disorder: the smallest cost is last. -/
theorem C32_violated :
    (quicksort 0 3 (⟨[1, 2, 3], ['a', 'b', 'c']⟩ : Rows ℚ Char)) = ⟨[2, 3, 1], ['b', 'c', 'a']⟩ := by decide +kernel

/-- One free parameter in [0, 96] with itself as cost. -/
def lineEnv : Env ℚ Nat 1 1 where
  obj := fun x => x 0
  idx := fun _ => 0
  lo := fun _ => 0
  hi := fun _ => 96
  apot := true
  draw := fun s => (s, 0)
  norm := fun s => (s, 0)
  pick := fun s _ => (s, 0, 1)
  pickJ := fun s => (s, 0)
  flag := fun _ => true
  thr := 1

/-- A population of 45 individuals 0, 2, 4, .., 88. -/
def linePop : List (Ind ℚ 1) := (List.range 45).map fun i => ⟨fun _ => 2 * i, 0, 0⟩

/-- **C32, survival: violated.** In a population of the size the program uses the opposition step discards the best
individual, with cost 0. -/
theorem C32_survival_violated :
    let r : Rows ℚ (Ind ℚ 1) := ⟨linePop.map fun p => lineEnv.obj p.x, linePop⟩
    r.pop.length = np 1 ∧ CostsOf lineEnv r ∧ 0 ∈ r.cost ∧
      ∀ c ∈ (lineEnv.oppositeCheck true r).cost, 0 < c := by
  have h := costsOf_after lineEnv linePop
  have e : linePop.map lineEnv.after = linePop := by rw [show lineEnv.after = id from rfl, List.map_id]
  rw [e] at h
  exact ⟨by decide +kernel, h, by decide +kernel, by decide +kernel⟩

end Verif.Props
