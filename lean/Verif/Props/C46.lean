/-
C46  Hessian by finite differences.
-/
import Verif.Model.Uq
import Mathlib.Algebra.Order.Ring.Rat
import Mathlib.Algebra.BigOperators.Ring.Finset
import Mathlib.Analysis.Calculus.Deriv.Pow
import Mathlib.Analysis.Calculus.Deriv.Add
import Mathlib.Analysis.Calculus.Deriv.Mul
import Mathlib.Tactic.Ring
import Mathlib.Tactic.FieldSimp
import Mathlib.Tactic.Linarith
import Mathlib.Tactic.LinearCombination

set_option linter.unusedSectionVars false

namespace Verif.Props

open Verif.Uq

/-! ### Specification -/

/-- `y` is the table `x` with other values of the free parameters. -/
def SameFixed {K : Type*} (n : Nat) (idx : Nat → Nat) (x y : Nat → K) : Prop := ∀ q, (∀ i < n, idx i ≠ q) → y q = x q

/-- The objective is a polynomial of second degree in the free parameters. -/
def Quadratic {K : Type*} [Field K] (obj : (Nat → K) → K) (n : Nat) (idx : Nat → Nat) (x : Nat → K) (c : K) (b : Nat → K)
    (A : Nat → Nat → K) : Prop :=
  ∀ y, SameFixed n idx x y → obj y =
    c + ∑ i ∈ Finset.range n, b i * y (idx i) + ∑ i ∈ Finset.range n, ∑ j ∈ Finset.range n, A i j * y (idx i) * y (idx j)

/-- The table with the entries `p` and `q` changed by `s` and `t`. -/
def moved {K : Type*} [Field K] (x : Nat → K) (p q : Nat) (s t : K) : Nat → K :=
  fun r => x r + (if r = p then s else 0) + (if r = q then t else 0)

section Lemmas

variable {K : Type*} [Field K] [LinearOrder K]

theorem add_apply (x : Nat → K) (p : Nat) (v : K) (q : Nat) : add x p v q = x q + if q = p then v else 0 := by
  unfold add; split <;> simp

/-- Second difference in one direction. -/
def diff1 (obj : (Nat → K) → K) (idx : Nat → Nat) (x : Nat → K) (cost : K) (d : Nat → K) (i : Nat) : K :=
  (obj (moved x (idx i) (idx i) (d i) 0) - 2 * cost + obj (moved x (idx i) (idx i) (-(d i)) 0)) / (d i * d i)

/-- Mixed second difference. -/
def diff2 (obj : (Nat → K) → K) (idx : Nat → Nat) (x : Nat → K) (d : Nat → K) (i j : Nat) : K :=
  (obj (moved x (idx i) (idx j) (d i) (d j)) + obj (moved x (idx i) (idx j) (-(d i)) (-(d j)))
    - obj (moved x (idx i) (idx j) (d i) (-(d j))) - obj (moved x (idx i) (idx j) (-(d i)) (d j))) / (4 * d i * d j)

/-- The best point recorded is a point with its cost. -/
def BestOk (obj : (Nat → K) → K) (n : Nat) (idx : Nat → Nat) (x : Nat → K) (cost large : K) (s : State K) : Prop :=
  s.bestCost = large ∨ (s.bestCost < cost ∧ s.bestCost < large ∧
    ∃ y, SameFixed n idx x y ∧ (∀ j, s.best j = y (idx j)) ∧ s.bestCost = obj y)

theorem note_x (idx : Nat → Nat) (cost c : K) (s : State K) : (note idx cost c s).x = s.x := by
  unfold note; split <;> rfl

theorem note_h (idx : Nat → Nat) (cost c : K) (s : State K) : (note idx cost c s).h = s.h := by
  unfold note; split <;> rfl

theorem note_best (obj : (Nat → K) → K) (n : Nat) (idx : Nat → Nat) (x : Nat → K) (cost large : K) (s : State K)
    (h : BestOk obj n idx x cost large s) (hx : SameFixed n idx x s.x) (c : K) (hc : c = obj s.x) :
    BestOk obj n idx x cost large (note idx cost c s) := by
  subst hc
  unfold note
  split
  · rename_i hc
    refine Or.inr ⟨hc.1, ?_, s.x, hx, fun j => rfl, rfl⟩
    rcases h with h | h
    · exact h ▸ hc.2
    · exact hc.2.trans h.2.1
  · exact h

theorem bestOk_congr (obj : (Nat → K) → K) (n : Nat) (idx : Nat → Nat) (x : Nat → K) (cost large : K) (s : State K)
    (y : Nat → K) (hh : Nat → Nat → K) (h : BestOk obj n idx x cost large s) :
    BestOk obj n idx x cost large { s with x := y, h := hh } := h

theorem add_same (n : Nat) (idx : Nat → Nat) (x y : Nat → K) (h : SameFixed n idx x y) (i : Nat) (hi : i < n) (v : K) :
    SameFixed n idx x (add y (idx i) v) := by
  intro q hq
  rw [add_apply, if_neg fun e => hq i hi e.symm, add_zero]
  exact h q hq

theorem moved_same (n : Nat) (idx : Nat → Nat) (x : Nat → K) (i j : Nat) (hi : i < n) (hj : j < n) (s t : K) :
    SameFixed n idx x (moved x (idx i) (idx j) s t) := by
  intro q hq
  unfold moved
  rw [if_neg fun e => hq i hi e.symm, if_neg fun e => hq j hj e.symm]
  simp

theorem diag_ok (obj : (Nat → K) → K) (n : Nat) (idx : Nat → Nat) (cost large : K) (d : Nat → K) (x : Nat → K) (s : State K) (i : Nat)
    (hi : i < n) (hx : s.x = x) (hb : BestOk obj n idx x cost large s) (hd : d i ≠ 0) :
    ∃ s', diag obj idx cost d s i = .ok s' ∧ s'.x = x ∧ BestOk obj n idx x cost large s' ∧
      s'.h = setH s.h i i (diff1 obj idx x cost d i) := by
  unfold diag
  have e1 : add x (idx i) (d i) = moved x (idx i) (idx i) (d i) 0 := by
    funext q; rw [add_apply, moved]; simp
  have e2 : add (moved x (idx i) (idx i) (d i) 0) (idx i) (-(2 * d i)) = moved x (idx i) (idx i) (-(d i)) 0 := by
    funext q; rw [add_apply, moved, moved]; split <;> ring
  have e3 : add (moved x (idx i) (idx i) (-(d i)) 0) (idx i) (d i) = x := by
    funext q; rw [add_apply, moved]; split <;> ring
  simp only [note_x, note_h, hx, e1, e2, e3]
  rw [cdiv_ok (mul_ne_zero hd hd)]
  refine ⟨_, rfl, rfl, ?_, rfl⟩
  apply bestOk_congr
  have h1 : BestOk obj n idx x cost large { s with x := moved x (idx i) (idx i) (d i) 0 } := hb
  have h2 := note_best obj n idx x cost large _ h1 (moved_same n idx x i i hi hi _ _) _ rfl
  have h3 : BestOk obj n idx x cost large
      { note idx cost (obj (moved x (idx i) (idx i) (d i) 0)) { s with x := moved x (idx i) (idx i) (d i) 0 } with
        x := moved x (idx i) (idx i) (-(d i)) 0, h := s.h } := h2
  exact note_best obj n idx x cost large _ h3 (moved_same n idx x i i hi hi _ _) _ rfl

variable [IsStrictOrderedRing K]

theorem offDiag_ok (obj : (Nat → K) → K) (n : Nat) (idx : Nat → Nat) (cost large : K) (d : Nat → K) (x : Nat → K) (s : State K)
    (i j : Nat) (hi : i < n) (hj : j < n) (hx : s.x = x) (hb : BestOk obj n idx x cost large s) (hdi : d i ≠ 0) (hdj : d j ≠ 0) :
    ∃ s', offDiag obj idx cost d s (i, j) = .ok s' ∧ s'.x = x ∧ BestOk obj n idx x cost large s' ∧
      s'.h = setH (setH s.h i j (diff2 obj idx x d i j)) j i (diff2 obj idx x d i j) := by
  unfold offDiag
  have e1 : add (add x (idx i) (d i)) (idx j) (d j) = moved x (idx i) (idx j) (d i) (d j) := by
    funext q; rw [add_apply, add_apply, moved]
  have e2 : add (moved x (idx i) (idx j) (d i) (d j)) (idx j) (-(2 * d j)) = moved x (idx i) (idx j) (d i) (-(d j)) := by
    funext q; rw [add_apply, moved, moved]; split_ifs <;> ring
  have e3 : add (add (moved x (idx i) (idx j) (d i) (-(d j))) (idx i) (-(2 * d i))) (idx j) (2 * d j)
      = moved x (idx i) (idx j) (-(d i)) (d j) := by
    funext q; rw [add_apply, add_apply, moved, moved]; split_ifs <;> ring
  have e4 : add (moved x (idx i) (idx j) (-(d i)) (d j)) (idx j) (-(2 * d j)) = moved x (idx i) (idx j) (-(d i)) (-(d j)) := by
    funext q; rw [add_apply, moved, moved]; split_ifs <;> ring
  have e5 : add (add (moved x (idx i) (idx j) (-(d i)) (-(d j))) (idx i) (d i)) (idx j) (d j) = x := by
    funext q; rw [add_apply, add_apply, moved]; split_ifs <;> ring
  simp only [note_x, note_h, hx, e1, e2, e3, e4, e5]
  rw [cdiv_ok (mul_ne_zero (mul_ne_zero four_ne_zero hdi) hdj)]
  refine ⟨_, rfl, rfl, ?_, rfl⟩
  apply bestOk_congr
  apply bestOk_congr
  have h1 : BestOk obj n idx x cost large { s with x := moved x (idx i) (idx j) (d i) (-(d j)) } := hb
  have h2 := note_best obj n idx x cost large _ h1 (moved_same n idx x i j hi hj _ _) _ rfl
  have h3 : BestOk obj n idx x cost large
      { note idx cost (obj (moved x (idx i) (idx j) (d i) (-(d j)))) { s with x := moved x (idx i) (idx j) (d i) (-(d j)) } with
        x := moved x (idx i) (idx j) (-(d i)) (d j), h := s.h } := h2
  exact note_best obj n idx x cost large _ h3 (moved_same n idx x i j hi hj _ _) _ rfl

/-- Entries of the Hessian after the loop over the diagonal. -/
theorem diag_loop (obj : (Nat → K) → K) (n : Nat) (idx : Nat → Nat) (cost large : K) (d : Nat → K) (x : Nat → K)
    (hd : ∀ i < n, d i ≠ 0) (l : List Nat) (hl : ∀ i ∈ l, i < n) (s : State K) (hx : s.x = x)
    (hb : BestOk obj n idx x cost large s) :
    ∃ s', l.foldlM (diag obj idx cost d) s = .ok s' ∧ s'.x = x ∧ BestOk obj n idx x cost large s' ∧
      ∀ a b, s'.h a b = if a = b ∧ a ∈ l then diff1 obj idx x cost d a else s.h a b := by
  induction l generalizing s with
  | nil => exact ⟨s, rfl, hx, hb, by simp⟩
  | cons i l ih =>
    obtain ⟨s1, h1, h2, h3, h4⟩ := diag_ok obj n idx cost large d x s i (hl i (by simp)) hx hb (hd i (hl i (by simp)))
    obtain ⟨s2, g1, g2, g3, g4⟩ := ih (fun a ha => hl a (by simp [ha])) s1 h2 h3
    refine ⟨s2, ?_, g2, g3, ?_⟩
    · rw [List.foldlM_cons, h1]
      exact g1
    · intro a b
      rw [g4, h4, setH]
      by_cases hab : a = b
      · subst hab
        by_cases hal : a ∈ l
        · simp [hal]
        · by_cases hai : a = i
          · subst hai; simp
          · simp [hal, hai]
      · simp only [hab, false_and, if_false]
        rw [if_neg]
        rintro ⟨rfl, rfl⟩
        exact hab rfl

theorem offDiag_loop (obj : (Nat → K) → K) (n : Nat) (idx : Nat → Nat) (cost large : K) (d : Nat → K) (x : Nat → K)
    (hd : ∀ i < n, d i ≠ 0) (l : List (Nat × Nat)) (hl : ∀ p ∈ l, p.1 < p.2 ∧ p.2 < n) (s : State K) (hx : s.x = x)
    (hb : BestOk obj n idx x cost large s) :
    ∃ s', l.foldlM (offDiag obj idx cost d) s = .ok s' ∧ s'.x = x ∧ BestOk obj n idx x cost large s' ∧
      ∀ a b, s'.h a b = if (a, b) ∈ l then diff2 obj idx x d a b else if (b, a) ∈ l then diff2 obj idx x d b a else s.h a b := by
  induction l generalizing s with
  | nil => exact ⟨s, rfl, hx, hb, by simp⟩
  | cons p l ih =>
    obtain ⟨i, j⟩ := p
    have hij := hl (i, j) (by simp)
    simp only at hij
    obtain ⟨s1, h1, h2, h3, h4⟩ := offDiag_ok obj n idx cost large d x s i j (by omega) hij.2 hx hb (hd i (by omega)) (hd j hij.2)
    obtain ⟨s2, g1, g2, g3, g4⟩ := ih (fun a ha => hl a (by simp [ha])) s1 h2 h3
    refine ⟨s2, ?_, g2, g3, ?_⟩
    · rw [List.foldlM_cons, h1]
      exact g1
    · intro a b
      rw [g4, h4]
      by_cases h5 : (a, b) ∈ l
      · simp [h5]
      · by_cases h6 : (b, a) ∈ l
        · have h7 : b < a := (hl (b, a) (by simp [h6])).1
          have h8 : ¬(a = i ∧ b = j) := by rintro ⟨rfl, rfl⟩; omega
          simp [h5, h6, h8]
        · simp only [h5, h6, if_false, List.mem_cons, Prod.mk.injEq, or_false, setH]
          by_cases h7 : a = i ∧ b = j
          · obtain ⟨rfl, rfl⟩ := h7
            rw [if_neg (by rintro ⟨rfl, -⟩; omega)]
            simp
          · by_cases h8 : a = j ∧ b = i
            · obtain ⟨rfl, rfl⟩ := h8
              rw [if_pos ⟨rfl, rfl⟩, if_neg h7, if_pos ⟨rfl, rfl⟩]
            · rw [if_neg h8, if_neg h7, if_neg h7, if_neg (fun h => h8 ⟨h.2, h.1⟩)]

theorem mem_pairs (n a b : Nat) : (a, b) ∈ pairs n ↔ a < b ∧ b < n := by
  unfold pairs
  simp only [List.mem_flatMap, List.mem_range, List.mem_map, List.mem_range'_1, Prod.mk.injEq]
  constructor
  · rintro ⟨i, hi, j, hj, rfl, rfl⟩
    omega
  · rintro ⟨h1, h2⟩
    exact ⟨a, by omega, b, by omega, rfl, rfl⟩

theorem puts_eq (idx : Nat → Nat) (l : List Nat) (best x y : Nat → K) (hb : ∀ j, best j = y (idx j)) :
    ∀ q, l.foldl (fun z j => put z (idx j) (best j)) x q = if ∃ j ∈ l, idx j = q then y q else x q := by
  induction l using List.reverseRecOn with
  | nil => simp
  | append_singleton l j ih =>
    intro q
    rw [List.foldl_append, List.foldl_cons, List.foldl_nil]
    unfold put
    by_cases h : q = idx j
    · subst h
      rw [if_pos rfl, if_pos ⟨j, by simp, rfl⟩, hb]
    · rw [if_neg h]
      have := ih q
      unfold put at this
      rw [this]
      congr 1
      apply propext
      constructor
      · rintro ⟨a, ha, e⟩
        exact ⟨a, by simp [ha], e⟩
      · rintro ⟨a, ha, e⟩
        rw [List.mem_append, List.mem_singleton] at ha
        rcases ha with ha | rfl
        · exact ⟨a, ha, e⟩
        · exact absurd e.symm h

theorem dist_ne (idx : Nat → Nat) (x : Nat → K) (pert : Nat → K) (i : Nat) (h : pert i ≠ 0) : dist idx x pert i ≠ 0 := by
  unfold Uq.dist
  split
  · exact h
  · rename_i hx
    exact mul_ne_zero h hx

/-- Everything about `calc_hessian`. -/
theorem calcHessian_all (obj : (Nat → K) → K) (n : Nat) (idx : Nat → Nat) (pert : Nat → K) (large : K) (x : Nat → K)
    (h0 : Nat → Nat → K) (cost : K) (hp : ∀ i < n, pert i ≠ 0) :
    ∃ r, calcHessian obj n idx pert large x h0 cost = .ok r ∧
      (∀ i < n, r.h i i = diff1 obj idx x cost (dist idx x pert) i) ∧
      (∀ i j, i < j → j < n → r.h i j = diff2 obj idx x (dist idx x pert) i j ∧ r.h j i = diff2 obj idx x (dist idx x pert) i j) ∧
      (r.again = false → r.x = x ∧ r.cost = cost) ∧
      (r.again = true → r.cost < cost ∧ SameFixed n idx x r.x ∧ r.cost = obj r.x) := by
  have hd : ∀ i < n, dist idx x pert i ≠ 0 := fun i hi => dist_ne idx x pert i (hp i hi)
  obtain ⟨s1, h1, h2, h3, h4⟩ := diag_loop obj n idx cost large (dist idx x pert) x hd (List.range n)
    (fun i hi => List.mem_range.1 hi) ⟨x, h0, fun _ => 0, large⟩ rfl (Or.inl rfl)
  obtain ⟨s2, g1, g2, g3, g4⟩ := offDiag_loop obj n idx cost large (dist idx x pert) x hd (pairs n)
    (fun p hp => (mem_pairs n p.1 p.2).1 hp) s1 h2 h3
  have hH1 : ∀ i < n, s2.h i i = diff1 obj idx x cost (dist idx x pert) i := by
    intro i hi
    rw [g4, if_neg (by rw [mem_pairs]; omega), if_neg (by rw [mem_pairs]; omega), h4, if_pos ⟨rfl, List.mem_range.2 hi⟩]
  have hH2 : ∀ i j, i < j → j < n → s2.h i j = diff2 obj idx x (dist idx x pert) i j ∧
      s2.h j i = diff2 obj idx x (dist idx x pert) i j := by
    intro i j hij hj
    refine ⟨by rw [g4, if_pos ((mem_pairs n i j).2 ⟨hij, hj⟩)], ?_⟩
    rw [g4, if_neg (by rw [mem_pairs]; omega), if_pos ((mem_pairs n i j).2 ⟨hij, hj⟩)]
  have hrun : calcHessian obj n idx pert large x h0 cost =
      if s2.bestCost ≠ large then
        .ok ⟨true, (List.range n).foldl (fun y j => put y (idx j) (s2.best j)) s2.x, s2.h, s2.bestCost⟩
      else .ok ⟨false, s2.x, s2.h, cost⟩ := by
    unfold calcHessian
    simp only [h1, g1, bind, Except.bind, pure, Except.pure]
  by_cases hb : s2.bestCost = large
  · rw [hrun, if_neg (by simpa using hb)]
    exact ⟨_, rfl, hH1, hH2, fun _ => ⟨g2, rfl⟩, fun h => by simp at h⟩
  · rw [hrun, if_pos hb]
    refine ⟨_, rfl, hH1, hH2, fun h => by simp at h, fun _ => ?_⟩
    rcases g3 with g3 | ⟨k1, -, y, k2, k3, k4⟩
    · exact absurd g3 hb
    · have e : (List.range n).foldl (fun y j => put y (idx j) (s2.best j)) s2.x = y := by
        funext q
        rw [puts_eq idx (List.range n) s2.best s2.x y k3 q, g2]
        split
        · rfl
        · rename_i hq
          exact (k2 q fun i hi e => hq ⟨i, List.mem_range.2 hi, e⟩).symm
      simp only [e]
      exact ⟨k1, k2, k4⟩

end Lemmas

/-! ### Quadratic objectives -/

section Quad

variable {K : Type*} [Field K]

theorem quad_moved (obj : (Nat → K) → K) (n : Nat) (idx : Nat → Nat) (hidx : ∀ a < n, ∀ b < n, idx a = idx b → a = b) (x : Nat → K)
    (c : K) (b : Nat → K) (A : Nat → Nat → K) (hq : Quadratic obj n idx x c b A) (i j : Nat) (hi : i < n) (hj : j < n) (s t : K) :
    obj (moved x (idx i) (idx j) s t) =
      obj x + s * (b i + ∑ k ∈ Finset.range n, (A i k + A k i) * x (idx k))
        + t * (b j + ∑ k ∈ Finset.range n, (A j k + A k j) * x (idx k))
        + s ^ 2 * A i i + s * t * (A i j + A j i) + t ^ 2 * A j j := by
  have hs : SameFixed n idx x (moved x (idx i) (idx j) s t) := by
    intro q hq
    unfold moved
    rw [if_neg fun e => hq i hi e.symm, if_neg fun e => hq j hj e.symm]
    simp
  rw [hq _ hs, hq x (fun _ _ => rfl)]
  have hv : ∀ k ∈ Finset.range n, moved x (idx i) (idx j) s t (idx k) = x (idx k) + (if k = i then s else 0) + (if k = j then t else 0) := by
    intro k hk
    have hk := Finset.mem_range.1 hk
    unfold moved
    congr 1
    · congr 1
      by_cases h : k = i
      · simp [h]
      · rw [if_neg h, if_neg fun e => h (hidx k hk i hi e)]
    · by_cases h : k = j
      · simp [h]
      · rw [if_neg h, if_neg fun e => h (hidx k hk j hj e)]
  have hmi := Finset.mem_range.2 hi
  have hmj := Finset.mem_range.2 hj
  have h1 : ∑ k ∈ Finset.range n, b k * moved x (idx i) (idx j) s t (idx k)
      = ∑ k ∈ Finset.range n, b k * x (idx k) + s * b i + t * b j := by
    rw [Finset.sum_congr rfl fun k hk => by rw [hv k hk]]
    simp only [mul_add, mul_ite, mul_zero, Finset.sum_add_distrib, Finset.sum_ite_eq', hmi, hmj, if_true]
    ring
  have h2 : ∀ (f : Nat → K), ∑ k ∈ Finset.range n, f k * moved x (idx i) (idx j) s t (idx k)
      = ∑ k ∈ Finset.range n, f k * x (idx k) + s * f i + t * f j := by
    intro f
    rw [Finset.sum_congr rfl fun k hk => by rw [hv k hk]]
    simp only [mul_add, mul_ite, mul_zero, Finset.sum_add_distrib, Finset.sum_ite_eq', hmi, hmj, if_true]
    ring
  have h3 : ∑ k ∈ Finset.range n, ∑ l ∈ Finset.range n,
        A k l * moved x (idx i) (idx j) s t (idx k) * moved x (idx i) (idx j) s t (idx l)
      = ∑ k ∈ Finset.range n, (∑ l ∈ Finset.range n, A k l * x (idx l) + s * A k i + t * A k j)
          * moved x (idx i) (idx j) s t (idx k) := by
    refine Finset.sum_congr rfl fun k _ => ?_
    rw [← h2 (A k), Finset.sum_mul]
    refine Finset.sum_congr rfl fun l _ => ?_
    ring
  rw [h1, h3, h2]
  have h4 : ∑ k ∈ Finset.range n, (∑ l ∈ Finset.range n, A k l * x (idx l) + s * A k i + t * A k j) * x (idx k)
      = ∑ k ∈ Finset.range n, ∑ l ∈ Finset.range n, A k l * x (idx k) * x (idx l)
        + s * ∑ k ∈ Finset.range n, A k i * x (idx k) + t * ∑ k ∈ Finset.range n, A k j * x (idx k) := by
    rw [Finset.mul_sum, Finset.mul_sum, ← Finset.sum_add_distrib, ← Finset.sum_add_distrib]
    refine Finset.sum_congr rfl fun k _ => ?_
    rw [add_mul, add_mul, Finset.sum_mul]
    congr 1
    · congr 1
      · refine Finset.sum_congr rfl fun l _ => ?_
        ring
      · ring
    · ring
  rw [h4]
  simp only [add_mul, Finset.sum_add_distrib]
  ring

end Quad

/-! ### The property -/

section Main

variable {K : Type*} [Field K] [LinearOrder K] [IsStrictOrderedRing K]

/-- **C46, symmetry.** With steps other than zero the Hessian is found, and it is symmetric, for every objective. -/
theorem C46_symmetric (obj : (Nat → K) → K) (n : Nat) (idx : Nat → Nat) (pert : Nat → K) (large : K) (x : Nat → K)
    (h0 : Nat → Nat → K) (cost : K) (hp : ∀ i < n, pert i ≠ 0) :
    ∃ r, calcHessian obj n idx pert large x h0 cost = .ok r ∧ ∀ i < n, ∀ j < n, r.h i j = r.h j i := by
  obtain ⟨r, h1, -, h3, -⟩ := calcHessian_all obj n idx pert large x h0 cost hp
  refine ⟨r, h1, fun i hi j hj => ?_⟩
  rcases Nat.lt_trichotomy i j with h | h | h
  · rw [(h3 i j h hj).1, (h3 i j h hj).2]
  · rw [h]
  · rw [(h3 j i h hi).1, (h3 j i h hi).2]

/-- **C46, quadratic objectives.** The Hessian is `A i j + A j i` for every objective which is a polynomial of second degree in the free
parameters, and every choice of steps other than zero. -/
theorem C46_quadratic (obj : (Nat → K) → K) (n : Nat) (idx : Nat → Nat) (hidx : ∀ a < n, ∀ b < n, idx a = idx b → a = b)
    (pert : Nat → K) (large : K) (x : Nat → K) (h0 : Nat → Nat → K) (hp : ∀ i < n, pert i ≠ 0) (c : K) (b : Nat → K)
    (A : Nat → Nat → K) (hq : Quadratic obj n idx x c b A) :
    ∃ r, calcHessian obj n idx pert large x h0 (obj x) = .ok r ∧ ∀ i < n, ∀ j < n, r.h i j = A i j + A j i := by
  obtain ⟨r, h1, h2, h3, -⟩ := calcHessian_all obj n idx pert large x h0 (obj x) hp
  have key : ∀ i j, i < j → j < n → diff2 obj idx x (dist idx x pert) i j = A i j + A j i := by
    intro i j hij hj
    have hdi := dist_ne idx x pert i (hp i (by omega))
    have hdj := dist_ne idx x pert j (hp j hj)
    unfold diff2
    simp only [quad_moved obj n idx hidx x c b A hq i j (by omega) hj]
    field_simp
    ring
  refine ⟨r, h1, fun i hi j hj => ?_⟩
  rcases Nat.lt_trichotomy i j with h | h | h
  · rw [(h3 i j h hj).1, key i j h hj]
  · subst h
    have hdi := dist_ne idx x pert i (hp i hi)
    rw [h2 i hi]
    unfold diff1
    simp only [quad_moved obj n idx hidx x c b A hq i i hi hi]
    field_simp
    ring
  · rw [(h3 j i h hi).2, key j i h hi]
    ring

/-- **C46, parameters.** If `calc_hessian` returns 0 the table and the cost are unchanged. If it returns 1 the table has other values of the
free parameters only, and the new cost is that of the new table and lower than before. -/
theorem C46_params (obj : (Nat → K) → K) (n : Nat) (idx : Nat → Nat) (pert : Nat → K) (large : K) (x : Nat → K)
    (h0 : Nat → Nat → K) (cost : K) (hp : ∀ i < n, pert i ≠ 0) :
    ∃ r, calcHessian obj n idx pert large x h0 cost = .ok r ∧ (r.again = false → r.x = x ∧ r.cost = cost) ∧
      (r.again = true → r.cost < cost ∧ SameFixed n idx x r.x ∧ r.cost = obj r.x) := by
  obtain ⟨r, h1, -, -, h4, h5⟩ := calcHessian_all obj n idx pert large x h0 cost hp
  exact ⟨r, h1, h4, h5⟩

/-- **C46, at a minimum** the parameters are unchanged. -/
theorem C46_minimum (obj : (Nat → K) → K) (n : Nat) (idx : Nat → Nat) (pert : Nat → K) (large : K) (x : Nat → K)
    (h0 : Nat → Nat → K) (hp : ∀ i < n, pert i ≠ 0) (hmin : ∀ y, SameFixed n idx x y → obj x ≤ obj y) :
    ∃ r, calcHessian obj n idx pert large x h0 (obj x) = .ok r ∧ r.again = false ∧ r.x = x ∧ r.cost = obj x := by
  obtain ⟨r, h1, h2, h3⟩ := C46_params obj n idx pert large x h0 (obj x) hp
  cases ha : r.again with
  | false => exact ⟨r, h1, ha, (h2 ha).1, (h2 ha).2⟩
  | true =>
    obtain ⟨h4, h5, h6⟩ := h3 ha
    have := hmin _ h5
    rw [← h6] at this
    exact absurd h4 (not_lt.2 this)

/-- `single_param_pert_cost` returns the cost of the changed parameter and leaves the table as it was. -/
theorem C46_single (obj : (Nat → K) → K) (idx : Nat → Nat) (x : Nat → K) (pert : K) (i : Nat) :
    (singlePertCost obj idx x pert i).1 = obj (Function.update x (idx i) (x (idx i) * (1 + pert))) ∧
    (singlePertCost obj idx x pert i).2 = x := by
  unfold singlePertCost
  constructor
  · simp only
    congr 1
    funext q
    unfold put
    by_cases h : q = idx i
    · subst h; simp
    · simp [h]
  · funext q
    simp only [put]
    split
    · rename_i h; rw [h]
    · rfl

end Main

/-- **C46, second derivatives.** For a quadratic objective over the reals the Hessian computed is the matrix of second partial derivatives. -/
theorem C46_derivatives (obj : (Nat → ℝ) → ℝ) (n : Nat) (idx : Nat → Nat) (hidx : ∀ a < n, ∀ b < n, idx a = idx b → a = b)
    (pert : Nat → ℝ) (large : ℝ) (x : Nat → ℝ) (h0 : Nat → Nat → ℝ) (hp : ∀ i < n, pert i ≠ 0) (c : ℝ) (b : Nat → ℝ)
    (A : Nat → Nat → ℝ) (hq : Quadratic obj n idx x c b A) :
    ∃ r, calcHessian obj n idx pert large x h0 (obj x) = .ok r ∧ ∀ i < n, ∀ j < n,
      r.h i j = deriv (fun t => deriv (fun s => obj (moved x (idx i) (idx j) s t)) 0) 0 := by
  obtain ⟨r, h1, h2⟩ := C46_quadratic obj n idx hidx pert large x h0 hp c b A hq
  refine ⟨r, h1, fun i hi j hj => ?_⟩
  rw [h2 i hi j hj]
  simp only [quad_moved obj n idx hidx x c b A hq i j hi hj]
  generalize b i + ∑ k ∈ Finset.range n, (A i k + A k i) * x (idx k) = u
  generalize b j + ∑ k ∈ Finset.range n, (A j k + A k j) * x (idx k) = v
  have e1 : ∀ t : ℝ, deriv (fun s : ℝ => obj x + s * u + t * v + s ^ 2 * A i i + s * t * (A i j + A j i) + t ^ 2 * A j j) 0
      = u + t * (A i j + A j i) := by
    intro t
    have hs := hasDerivAt_id (0 : ℝ)
    have := ((((hs.mul_const u).const_add (obj x)).add_const (t * v)).add ((hs.pow 2).mul_const (A i i))).add
      ((hs.mul_const t).mul_const (A i j + A j i))
    have := (this.add_const (t ^ 2 * A j j)).deriv
    simpa using this
  simp only [e1]
  have ht := hasDerivAt_id (0 : ℝ)
  have := ((ht.mul_const (A i j + A j i)).const_add u).deriv
  simpa using this.symm

/-- Two free parameters at the places 3 and 1, objective `2 + x₃ + 3 x₃² + 5 x₃ x₁ + 7 x₁²`, relative steps 1/2 and 1/3, at `x₃ = 0`, `x₁ = 2`. -/
def exObj (x : Nat → ℚ) : ℚ := 2 + x 3 + 3 * x 3 ^ 2 + 5 * x 3 * x 1 + 7 * x 1 ^ 2
def exIdx (i : Nat) : Nat := if i = 0 then 3 else 1
def exX (q : Nat) : ℚ := if q = 1 then 2 else if q = 3 then 0 else 9

theorem exQuadratic : Quadratic exObj 2 exIdx exX 2 (fun i => if i = 0 then 1 else 0)
    (fun i j => if i = 0 then (if j = 0 then 3 else 5) else if j = 0 then 0 else 7) := by
  intro y _
  simp [Finset.sum_range_succ, exObj, exIdx]
  ring

example : ∃ r, calcHessian exObj 2 exIdx (fun i => if i = 0 then 1 / 2 else 1 / 3) 1000000000000 exX (fun _ _ => 0) (exObj exX) = .ok r ∧
    r.h 0 0 = 6 ∧ r.h 0 1 = 5 ∧ r.h 1 0 = 5 ∧ r.h 1 1 = 14 := by
  obtain ⟨r, h1, h2⟩ := C46_quadratic exObj 2 exIdx
    (fun a ha b hb h => by
      have : a = 0 ∨ a = 1 := by omega
      have : b = 0 ∨ b = 1 := by omega
      rcases ‹a = 0 ∨ a = 1› with rfl | rfl <;> rcases ‹b = 0 ∨ b = 1› with rfl | rfl <;> simp_all [exIdx])
    (fun i => if i = 0 then 1 / 2 else 1 / 3) 1000000000000 exX (fun _ _ => 0)
    (fun i _ => by by_cases h : i = 0 <;> simp [h]) 2 _ _ exQuadratic
  refine ⟨r, h1, ?_, ?_, ?_, ?_⟩
  · rw [h2 0 (by decide) 0 (by decide)]; norm_num
  · rw [h2 0 (by decide) 1 (by decide)]; norm_num
  · rw [h2 1 (by decide) 0 (by decide)]; norm_num
  · rw [h2 1 (by decide) 1 (by decide)]; norm_num

/-- A lower cost is met: the table is changed to that point. -/
example : (match calcHessian exObj 2 exIdx (fun _ => 1 / 2) 1000000000000 exX (fun _ _ => 0) (exObj exX) with
    | .ok r => r.again && decide (r.x 1 = 1 ∧ r.cost = exObj r.x ∧ r.cost < exObj exX ∧ r.x 2 = 9)
    | .error _ => false) = true := by decide +kernel

end Verif.Props
