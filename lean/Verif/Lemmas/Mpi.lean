import Verif.Model.Mpi
import Mathlib.Tactic.Linarith
import Mathlib.Tactic.Ring
import Mathlib.Algebra.Order.Ring.Nat
import Mathlib.Data.List.Basic

namespace Verif.Mpi

/-- `conf_dist` in terms of quotient and remainder of natural numbers. -/
theorem confDist_eq (N P i : Nat) :
    confDist N P i = ((i * (N / P) + (i + N % P - P) : Nat) : Int) := by
  unfold confDist
  have e1 : Int.tdiv (N : Int) P = ((N / P : Nat) : Int) := by
    rw [Int.tdiv_eq_ediv_of_nonneg (by omega)]; rfl
  have e2 : Int.tmod (N : Int) P = ((N % P : Nat) : Int) := by
    rw [Int.tmod_eq_emod_of_nonneg (by omega)]; rfl
  simp only [e1, e2]
  split <;> push_cast <;> omega

/-- Natural number form of `conf_dist`. -/
def cdN (N P i : Nat) : Nat := i * (N / P) + (i + N % P - P)

theorem cdN_zero {N P : Nat} (hP : 0 < P) : cdN N P 0 = 0 := by
  have := Nat.mod_lt N hP
  simp [cdN]; omega

theorem cdN_end {N P : Nat} : cdN N P P = N := by
  have h := Nat.div_add_mod N P
  have : P + N % P - P = N % P := by omega
  unfold cdN
  rw [this]; exact h

theorem cdN_succ {N P i : Nat} (hi : i < P) (hN : P ≤ N) :
    cdN N P i + N / P ≤ cdN N P (i + 1) ∧ cdN N P (i + 1) ≤ cdN N P i + (N / P + 1)
      ∧ 0 < N / P := by
  have h0 : 0 < N / P := Nat.div_pos hN (by omega)
  have : (i + 1) * (N / P) = i * (N / P) + N / P := by ring
  unfold cdN
  rw [this]
  refine ⟨by omega, by omega, h0⟩

theorem cdN_mono {N P i : Nat} (hi : i < P) (hN : P ≤ N) : cdN N P i < cdN N P (i + 1) := by
  have := cdN_succ hi hN
  omega

theorem cnfstart_mono (f : Nat → Nat) {a b : Nat} (h : a ≤ b) : cnfstart f a ≤ cnfstart f b := by
  induction h with
  | refl => exact le_rfl
  | step _ ih => exact ih.trans (Nat.le_add_right _ _)

/-- Contiguous blocks between the values of a monotone sequence concatenate to one range. -/
theorem blocks_concat (s : Nat → Nat) (P : Nat) (hs : ∀ i, i < P → s i ≤ s (i + 1)) :
    ((List.range P).flatMap fun i => List.range' (s i) (s (i + 1) - s i))
      = List.range' (s 0) (s P - s 0) ∧ s 0 ≤ s P := by
  induction P with
  | zero => simp
  | succ P ih =>
    obtain ⟨h1, h2⟩ := ih (fun i hi => hs i (by omega))
    have h3 := hs P (by omega)
    refine ⟨?_, by omega⟩
    rw [List.range_succ, List.flatMap_append, h1]
    simp only [List.flatMap_cons, List.flatMap_nil, List.append_nil]
    have e : s P = s 0 + (s P - s 0) := by omega
    rw [show s (P + 1) - s 0 = (s P - s 0) + (s (P + 1) - s P) by omega]
    rw [← List.range'_append_1]
    rw [← e]

theorem filter_interval {A : Type} (s n : Nat) (l : List A) : ∀ k : Nat,
    ((l.zipIdx k).filter fun p => decide ((s : Int) ≤ (p.2 : Int) ∧ (p.2 : Int) < s + n)).map
        Prod.fst = (l.take (s + n - k)).drop (s - k) := by
  induction l with
  | nil => intro k; simp
  | cons a l ih =>
    intro k
    rw [List.zipIdx_cons, List.filter_cons]
    by_cases hc : s ≤ k ∧ k < s + n
    · rw [if_pos (by simp; omega), List.map_cons, ih (k + 1)]
      rw [show s - (k + 1) = 0 by omega, show s - k = 0 by omega,
        show s + n - k = (s + n - (k + 1)) + 1 by omega]
      simp
    · rw [if_neg (by simp; omega), ih (k + 1)]
      by_cases h2 : k < s
      · by_cases h3 : k < s + n
        · rw [show s + n - k = (s + n - (k + 1)) + 1 by omega,
            show s - k = (s - (k + 1)) + 1 by omega]
          simp
        · omega
      · rw [show s + n - k = 0 by omega, show s + n - (k + 1) = 0 by omega]
        simp

theorem range'_getElem?_toList {A : Type} (l : List A) (s n : Nat) :
    (l.take (s + n)).drop s = (List.range' s n).flatMap fun i => (l[i]?).toList := by
  induction n generalizing s with
  | zero => simp
  | succ n ih =>
    rw [List.range'_succ, List.flatMap_cons, ← ih (s + 1)]
    by_cases h : s < l.length
    · rw [List.getElem?_eq_getElem h, show s + (n + 1) = s + 1 + n by omega]
      rw [List.drop_eq_getElem_cons (by simp; omega)]
      simp
    · rw [List.getElem?_eq_none (by omega), List.drop_eq_nil_of_le (by simp; omega),
        List.drop_eq_nil_of_le (by simp; omega)]
      simp

end Verif.Mpi
