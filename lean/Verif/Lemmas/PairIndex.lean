import Verif.Model.PairIndex
import Mathlib.Tactic.Linarith
import Mathlib.Algebra.Order.Ring.Nat
import Mathlib.Data.List.Nodup

namespace Verif.PairIndex

theorem two_dvd_mul_succ (i : Nat) : 2 * (i * (i + 1) / 2) = i * (i + 1) := by
  have h : 2 ∣ i * (i + 1) := by
    rcases Nat.even_or_odd' i with ⟨k, rfl | rfl⟩
    · exact ⟨k * (2 * k + 1), by ring⟩
    · exact ⟨(2 * k + 1) * (k + 1), by ring⟩
  exact Nat.mul_div_cancel' h

/-- The triangle number `i(i+1)/2` never exceeds what it is subtracted from. -/
theorem tri_le {n i j : Nat} (hij : i ≤ j) (hj : j < n) : i * (i + 1) / 2 ≤ i * n + j := by
  have h := two_dvd_mul_succ i
  have : i * (i + 1) ≤ i * n := Nat.mul_le_mul_left i (by omega)
  omega

theorem pairCol_add {n i j : Nat} (hij : i ≤ j) (hj : j < n) :
    pairCol n i j + i * (i + 1) / 2 = i * n + j := by
  unfold pairCol
  rw [if_pos hij]
  exact Nat.sub_add_cancel (tri_le hij hj)

theorem pairCol_two {n i j : Nat} (hij : i ≤ j) (hj : j < n) :
    2 * pairCol n i j + i * (i + 1) = 2 * (i * n + j) := by
  have h1 := pairCol_add hij hj
  have h2 := two_dvd_mul_succ i
  omega

theorem pairCol_comm (n i j : Nat) : pairCol n i j = pairCol n j i := by
  unfold pairCol
  rcases lt_trichotomy i j with h | h | h
  · rw [if_pos h.le, if_neg (by omega)]
  · subst h; rfl
  · rw [if_neg (by omega), if_pos h.le]

theorem paircol_two (n : Nat) : 2 * paircol n = n * (n + 1) := two_dvd_mul_succ n

/-- Columns of one row `i` are consecutive. -/
theorem pairCol_row {n i t : Nat} (h : i + t < n) :
    pairCol n i (i + t) = pairCol n i i + t := by
  have h1 := pairCol_add (n := n) (i := i) (j := i + t) (by omega) h
  have h2 := pairCol_add (n := n) (i := i) (j := i) le_rfl (by omega)
  omega

/-- First column of the next row. -/
theorem pairCol_next {n i : Nat} (h : i + 1 < n) :
    pairCol n (i + 1) (i + 1) = pairCol n i i + (n - i) := by
  have h1 := pairCol_two (n := n) (i := i) (j := i) le_rfl (by omega)
  have h2 := pairCol_two (n := n) (i := i + 1) (j := i + 1) le_rfl h
  obtain ⟨d, rfl⟩ : ∃ d, n = i + d := ⟨n - i, by omega⟩
  have : i + d - i = d := by omega
  rw [this]
  nlinarith

theorem pairCol_last {n : Nat} : pairCol (n + 1) n n + 1 = paircol (n + 1) := by
  have h1 := pairCol_two (n := n + 1) (i := n) (j := n) le_rfl (by omega)
  have h2 := paircol_two (n + 1)
  nlinarith

theorem pairCol_zero (n : Nat) : pairCol n 0 0 = 0 := by simp [pairCol]

/-- Pairs of the rows below `k`, in file order. -/
theorem rows_enum (n k : Nat) (hk : k < n) :
    ((List.range k).flatMap fun i => (List.range' i (n - i)).map fun j => pairCol n i j)
      = List.range (pairCol n k k) := by
  induction k with
  | zero => simp [pairCol_zero]
  | succ k ih =>
    rw [List.range_succ, List.flatMap_append, ih (by omega), pairCol_next hk,
      List.range_add]
    congr 1
    simp only [List.flatMap_cons, List.flatMap_nil, List.append_nil]
    rw [List.range'_eq_map_range, List.map_map]
    apply List.map_congr_left
    intro t ht
    rw [List.mem_range] at ht
    exact pairCol_row (by omega)

theorem runSum_eq (i : Nat) : runSum i = i * (i + 1) / 2 := by
  induction i with
  | zero => rfl
  | succ i ih =>
    have h1 := two_dvd_mul_succ i
    have h2 := two_dvd_mul_succ (i + 1)
    have : runSum (i + 1) = runSum i + (i + 1) := rfl
    rw [this, ih]
    nlinarith

end Verif.PairIndex
