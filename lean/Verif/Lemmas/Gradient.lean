import Verif.Spec.Gradient
import Mathlib.Analysis.SpecialFunctions.Sqrt
import Mathlib.Analysis.Calculus.Deriv.Add
import Mathlib.Analysis.Calculus.Deriv.Mul
import Mathlib.Analysis.Calculus.Deriv.Pow
import Mathlib.Tactic.FieldSimp
import Mathlib.Tactic.Linarith
import Mathlib.Tactic.LinearCombination
import Mathlib.Tactic.FinCases

namespace Verif.Spec

open Verif.Force

/-- A link with the atom owning it. -/
structure Bond where
  own : Nat
  otyp : Nat
  l : Link

def bondsFrom : Nat → List Node → List Bond
  | _, [] => []
  | i, a :: as => a.links.map (fun l => ⟨i, a.typ, l⟩) ++ bondsFrom (i + 1) as

noncomputable def Bond.entry (x : Nat → V3 ℝ) (b : Bond) : Entry ℝ := ⟨b.own, b.otyp, placed x b.own b.l⟩

theorem entriesFrom_place (x : Nat → V3 ℝ) (ts : List Node) (s : Nat) :
    entriesFrom s (placeFrom x s ts) = (bondsFrom s ts).map (Bond.entry x) := by
  induction ts generalizing s with
  | nil => rfl
  | cons a ts ih =>
    simp only [placeFrom, entriesFrom, bondsFrom, List.map_append, List.map_map, ih]
    rfl

theorem entries_place (f : Conf ℝ) (ts : List Node) (x : Nat → V3 ℝ) :
    entries (place f ts x) = (bondsFrom f.start ts).map (Bond.entry x) := entriesFrom_place x ts f.start

theorem placeFrom_length (x : Nat → V3 ℝ) (ts : List Node) (s : Nat) : (placeFrom x s ts).length = ts.length := by
  induction ts generalizing s with
  | nil => rfl
  | cons a ts ih => simp [placeFrom, ih]

theorem placeFrom_getElem? (x : Nat → V3 ℝ) (ts : List Node) (s j : Nat) :
    (placeFrom x s ts)[j]? = ts[j]?.map fun a => ⟨a.typ, a.links.map (placed x (s + j)), a.absforce, a.contrib⟩ := by
  induction ts generalizing s j with
  | nil => simp [placeFrom]
  | cons a ts ih =>
    cases j with
    | zero => simp [placeFrom]
    | succ j =>
      simp only [placeFrom, List.getElem?_cons_succ, ih]
      rw [show s + 1 + j = s + (j + 1) by omega]

theorem halfList_place {f : Conf ℝ} {ts : List Node} {x y : Nat → V3 ℝ} (h : HalfList (place f ts x)) :
    HalfList (place f ts y) := by
  intro e he
  rw [entries_place, List.mem_map] at he
  obtain ⟨b, hb, rfl⟩ := he
  have := h (b.entry x) (by rw [entries_place]; exact List.mem_map_of_mem hb)
  simp only [Bond.entry, placed, place, placeFrom_length] at this ⊢
  exact this

theorem eamColumns_place {P : EamPots ℝ} {f : Conf ℝ} {ts : List Node} {x y : Nat → V3 ℝ}
    (h : EamColumns P (place f ts x)) : EamColumns P (place f ts y) := by
  intro e he
  rw [entries_place, List.mem_map] at he
  obtain ⟨b, hb, rfl⟩ := he
  exact h (b.entry x) (by rw [entries_place]; exact List.mem_map_of_mem hb)

theorem moved_self (x : Nat → V3 ℝ) (a : Nat) (k : Fin 3) : moved x a k (x a k) = x := by
  simp [moved]

/-- Sign with which atom `a` occurs in the vector of a bond. -/
def sgn (a own nr : Nat) : ℝ := (if nr = a then 1 else 0) - (if own = a then 1 else 0)

theorem reach_moved (x : Nat → V3 ℝ) (a : Nat) (k : Fin 3) (t : ℝ) (own : Nat) (l : Link) (m : Fin 3) :
    reach (moved x a k t) own l m = reach x own l m + (if m = k then sgn a own l.nr * (t - x a k) else 0) := by
  have h : ∀ n, moved x a k t n m = x n m + (if m = k then (if n = a then 1 else 0) * (t - x a k) else 0) := by
    intro n
    unfold moved
    by_cases hn : n = a
    · subst hn
      by_cases hm : m = k
      · subst hm; simp
      · simp [hm]
    · simp [hn]
  simp only [reach, Pi.add_apply, Pi.sub_apply, h, sgn]
  by_cases hm : m = k
  · simp only [if_pos hm]; ring
  · simp only [if_neg hm]; ring

theorem length_pos_ne {v : V3 ℝ} (h : length v ≠ 0) : ∑ k : Fin 3, v k ^ 2 ≠ 0 := by
  intro h0
  apply h
  unfold length
  rw [h0, Real.sqrt_zero]

/-- Derivative of the distance. -/
theorem hasDerivAt_dist (x : Nat → V3 ℝ) (a : Nat) (k : Fin 3) (own : Nat) (l : Link)
    (h : length (reach x own l) ≠ 0) :
    HasDerivAt (fun t => length (reach (moved x a k t) own l))
      (sgn a own l.nr * (reach x own l k / length (reach x own l))) (x a k) := by
  have hs : ∀ t, ∑ m : Fin 3, (reach (moved x a k t) own l m) ^ 2 =
      (∑ m : Fin 3, (reach x own l m) ^ 2) + 2 * reach x own l k * (sgn a own l.nr * (t - x a k)) +
        (sgn a own l.nr * (t - x a k)) ^ 2 := by
    intro t
    simp only [reach_moved, Fin.sum_univ_three]
    fin_cases k <;> simp <;> ring
  have h1 : HasDerivAt (fun t => ∑ m : Fin 3, (reach (moved x a k t) own l m) ^ 2)
      (2 * reach x own l k * sgn a own l.nr) (x a k) := by
    have e : (fun t => ∑ m : Fin 3, (reach (moved x a k t) own l m) ^ 2) = fun t =>
        (∑ m : Fin 3, (reach x own l m) ^ 2) + 2 * reach x own l k * (sgn a own l.nr * (t - x a k)) +
        (sgn a own l.nr * (t - x a k)) ^ 2 := funext hs
    rw [e]
    have d1 : HasDerivAt (fun t => sgn a own l.nr * (t - x a k)) (sgn a own l.nr * 1) (x a k) :=
      ((hasDerivAt_id (x a k)).sub_const (x a k)).const_mul (sgn a own l.nr)
    have d2 := d1.const_mul (2 * reach x own l k)
    have d3 := d1.pow 2
    have d4 := (d2.const_add (∑ m : Fin 3, (reach x own l m) ^ 2)).add d3
    refine d4.congr_deriv ?_
    simp
  have h0 : ∑ m : Fin 3, (reach (moved x a k (x a k)) own l m) ^ 2 ≠ 0 := by
    rw [moved_self]
    exact length_pos_ne h
  have h2 := h1.sqrt h0
  refine h2.congr_deriv ?_
  rw [moved_self]
  unfold length
  unfold length at h
  field_simp

/-- A function cut off at `c`, as a function of the distance. -/
theorem hasDerivAt_cut {r : ℝ → ℝ} {r' t₀ c g : ℝ} {φ : ℝ → ℝ} (hr : HasDerivAt r r' t₀) (hne : r t₀ ≠ c)
    (hφ : r t₀ < c → HasDerivAt φ g (r t₀)) :
    HasDerivAt (fun t => if r t < c then φ (r t) else 0) ((if r t₀ < c then g else 0) * r') t₀ := by
  by_cases h : r t₀ < c
  · rw [if_pos h]
    have h1 := (hφ h).comp t₀ hr
    refine h1.congr_of_eventuallyEq ?_
    filter_upwards [hr.continuousAt.eventually (gt_mem_nhds h)] with t ht
    rw [if_pos ht]
    rfl
  · rw [if_neg h, zero_mul]
    have hgt : c < r t₀ := lt_of_le_of_ne (not_lt.1 h) (Ne.symm hne)
    refine (hasDerivAt_const t₀ (0 : ℝ)).congr_of_eventuallyEq ?_
    filter_upwards [hr.continuousAt.eventually (lt_mem_nhds hgt)] with t ht
    rw [if_neg (not_lt.2 ht.le)]

/-- Derivative of a sum over a list. -/
theorem hasDerivAt_listSum {α : Type*} (l : List α) (F : α → ℝ → ℝ) (F' : α → ℝ) (t₀ : ℝ)
    (h : ∀ a ∈ l, HasDerivAt (F a) (F' a) t₀) :
    HasDerivAt (fun t => (l.map fun a => F a t).sum) (l.map F').sum t₀ := by
  induction l with
  | nil => simpa using hasDerivAt_const t₀ (0 : ℝ)
  | cons a l ih =>
    simp only [List.map_cons, List.sum_cons]
    exact (h a (by simp)).add (ih fun b hb => h b (by simp [hb]))

theorem listSum_neg {α : Type*} (l : List α) (g : α → ℝ) : (l.map fun a => -g a).sum = -(l.map g).sum := by
  induction l with
  | nil => simp
  | cons a l ih => simp only [List.map_cons, List.sum_cons, ih]; ring

theorem sum_mul_listSum {α : Type*} (s : Finset Nat) (l : List α) (G : Nat → ℝ) (X : Nat → α → ℝ) :
    ∑ i ∈ s, G i * (l.map (X i)).sum = (l.map fun a => ∑ i ∈ s, G i * X i a).sum := by
  induction l with
  | nil => simp
  | cons a l ih => simp only [List.map_cons, List.sum_cons, mul_add, Finset.sum_add_distrib, ih]

theorem sum_zipIdx {α : Type*} (l : List α) (g : α → Nat → ℝ) (k : Nat) (d : α) :
    ((l.zipIdx k).map fun ak => g ak.1 ak.2).sum = ∑ i ∈ Finset.range l.length, g (l.getD i d) (k + i) := by
  induction l generalizing k with
  | nil => simp
  | cons a l ih =>
    rw [List.zipIdx_cons, List.map_cons, List.sum_cons, ih, List.length_cons, Finset.sum_range_succ', add_comm]
    congr 1
    apply Finset.sum_congr rfl
    intro i _
    rw [List.getD_cons_succ, show k + 1 + i = k + (i + 1) by omega]

end Verif.Spec
