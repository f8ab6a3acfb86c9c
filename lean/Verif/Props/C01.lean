/-
C01  Pair-column numbering is a bijection.
-/
import Verif.Lemmas.PairIndex
import Verif.Spec.PairIndex

namespace Verif.Props

open Verif.PairIndex Verif.Spec

/-- The column does not depend on the order of the two types. -/
theorem C01_symmetric (n i j : Nat) : pairCol n i j = pairCol n j i := pairCol_comm n i j

example : pairCol 4 3 1 = 6 ∧ pairCol 4 1 3 = 6 := by decide

/-- Reading the columns off in file order gives `0, 1, 2, …, n(n+1)/2 - 1`: the numbering is the
file order, hits every column and uses every column once. -/
theorem C01_file_order (n : Nat) :
    (filePairs n).map (fun p => pairCol n p.1 p.2) = List.range (n * (n + 1) / 2) := by
  cases n with
  | zero => rfl
  | succ n =>
    have h := rows_enum (n + 1) n (by omega)
    have hl := pairCol_last (n := n)
    unfold paircol at hl
    unfold filePairs
    rw [List.range_succ, List.flatMap_append, List.map_append, ← hl, List.range_succ]
    have h' : List.map (fun p => pairCol (n + 1) p.1 p.2)
        ((List.range n).flatMap fun i => (List.range' i (n + 1 - i)).map fun j => (i, j))
        = List.range (pairCol (n + 1) n n) := by
      rw [← h, List.map_flatMap]
      congr 1
      funext i
      rw [List.map_map]
      rfl
    rw [h']
    simp

example : (filePairs 3).map (fun p => pairCol 3 p.1 p.2) = [0, 1, 2, 3, 4, 5] := by decide

theorem mem_filePairs {n i j : Nat} : (i, j) ∈ filePairs n ↔ i ≤ j ∧ j < n := by
  simp only [filePairs, List.mem_flatMap, List.mem_range, List.mem_map, List.mem_range'_1,
    Prod.mk.injEq]
  constructor
  · rintro ⟨a, ha, b, hb, rfl, rfl⟩
    omega
  · rintro ⟨h1, h2⟩
    exact ⟨i, by omega, j, by omega, rfl, rfl⟩

/-- Every column lies below `n(n+1)/2`. -/
theorem C01_in_range {n i j : Nat} (hi : i < n) (hj : j < n) :
    pairCol n i j < n * (n + 1) / 2 := by
  wlog h : i ≤ j generalizing i j
  · rw [pairCol_comm]; exact this hj hi (by omega)
  have hm : pairCol n i j ∈ (filePairs n).map (fun p => pairCol n p.1 p.2) :=
    List.mem_map.2 ⟨(i, j), mem_filePairs.2 ⟨h, hj⟩, rfl⟩
  rw [C01_file_order, List.mem_range] at hm
  exact hm

example : pairCol 5 4 2 < 5 * (5 + 1) / 2 := C01_in_range (by decide) (by decide)

/-- Two pairs share a column only if they are the same unordered pair. -/
theorem C01_injective {n i j k l : Nat} (hi : i < n) (hj : j < n) (hk : k < n) (hl : l < n)
    (h : pairCol n i j = pairCol n k l) : (i = k ∧ j = l) ∨ (i = l ∧ j = k) := by
  have key : ∀ {a b c d : Nat}, a ≤ b → b < n → c ≤ d → d < n →
      pairCol n a b = pairCol n c d → a = c ∧ b = d := by
    intro a b c d hab hb hcd hd he
    have hnd : ((filePairs n).map (fun p => pairCol n p.1 p.2)).Nodup := by
      rw [C01_file_order]; exact List.nodup_range
    have := List.inj_on_of_nodup_map hnd (mem_filePairs.2 ⟨hab, hb⟩) (mem_filePairs.2 ⟨hcd, hd⟩) he
    simpa using this
  rcases le_total i j with h1 | h1 <;> rcases le_total k l with h2 | h2
  · exact Or.inl (key h1 hj h2 hl h)
  · rw [pairCol_comm n k l] at h
    exact Or.inr (key h1 hj h2 hk h)
  · rw [pairCol_comm n i j] at h
    have := key h1 hi h2 hl h
    exact Or.inr ⟨this.2, this.1⟩
  · rw [pairCol_comm n i j, pairCol_comm n k l] at h
    have := key h1 hi h2 hk h
    exact Or.inl ⟨this.2, this.1⟩

example : pairCol 3 0 2 = pairCol 3 2 0 ∧ (0 : Nat) < 3 ∧ 2 < 3 := by decide

/-- Every column belongs to some pair. -/
theorem C01_surjective {n c : Nat} (hc : c < n * (n + 1) / 2) :
    ∃ i j, i ≤ j ∧ j < n ∧ pairCol n i j = c := by
  have : c ∈ (filePairs n).map (fun p => pairCol n p.1 p.2) := by
    rw [C01_file_order]; exact List.mem_range.2 hc
  obtain ⟨⟨i, j⟩, hm, he⟩ := List.mem_map.1 this
  exact ⟨i, j, (mem_filePairs.1 hm).1, (mem_filePairs.1 hm).2, he⟩

example : (4 : Nat) < 3 * (3 + 1) / 2 := by decide

/-- The number of columns allocated is the number of unordered pairs. -/
theorem C01_count (n : Nat) : paircol n = (filePairs n).length := by
  have := congrArg List.length (C01_file_order n)
  simpa [paircol] using this.symm

example : paircol 4 = 10 := by decide

/-- The subtraction in the C expression never goes negative, so the `Nat` model agrees with the
`int` computation. -/
theorem C01_no_truncation {n i j : Nat} (hi : i < n) (hj : j < n) :
    (pairCol n i j : Int) =
      if i ≤ j then (i : Int) * n + j - (i * (i + 1) / 2 : Nat)
      else (j : Int) * n + i - (j * (j + 1) / 2 : Nat) := by
  unfold pairCol
  split
  · rename_i h
    rw [Int.ofNat_sub (tri_le h hj)]; push_cast; rfl
  · rename_i h
    rw [Int.ofNat_sub (tri_le (by omega) hi)]; push_cast; rfl

example : (pairCol 3 2 1 : Int) = (1 : Int) * 3 + 2 - (1 * (1 + 1) / 2 : Nat) := by decide

/-- The IMD writer's running-sum numbering assigns the same columns. -/
theorem C01_imd_agrees {n i j : Nat} : imdCol n i j = pairCol n i j := by
  unfold imdCol pairCol
  rw [runSum_eq, runSum_eq]
  rcases lt_trichotomy i j with h | h | h
  · rw [if_pos h, if_pos h.le]
  · subst h; simp
  · rw [if_neg (by omega), if_neg (by omega)]

example : imdCol 4 3 2 = 8 := by decide

end Verif.Props
