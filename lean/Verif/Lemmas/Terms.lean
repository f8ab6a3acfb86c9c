import Verif.Spec.Terms
import Verif.Model.ThreeBody
import Mathlib.Tactic.Abel
import Mathlib.Tactic.Ring
import Mathlib.Tactic.FinCases

namespace Verif.Spec

open Verif.Force

set_option linter.unusedSectionVars false

variable {K : Type*} [Field K] [LinearOrder K]

/-- Adding to the running sums. -/
def plus (s : Acc K) (e : K) (f : Nat → V3 K) (st : Fin 6 → K) : Acc K :=
  ⟨s.force + f, s.energy + e, s.stress + st, s.err⟩

theorem plus_plus (s : Acc K) (e e' : K) (f f' : Nat → V3 K) (st st' : Fin 6 → K) :
    plus (plus s e f st) e' f' st' = plus s (e + e') (f + f') (st + st') := by
  simp only [plus, add_assoc]

theorem plus_zero (s : Acc K) : plus s 0 0 0 = s := by
  simp only [plus, add_zero]

theorem foldl_plus {α : Type*} (step : Acc K → α → Acc K) (E : α → K) (F : α → Nat → V3 K) (S : α → Fin 6 → K)
    (h : ∀ s x, step s x = plus s (E x) (F x) (S x)) (l : List α) (s : Acc K) :
    l.foldl step s = plus s (l.map E).sum (l.map F).sum (l.map S).sum := by
  induction l generalizing s with
  | nil => simp [plus_zero]
  | cons x l ih => rw [List.foldl_cons, h, ih, plus_plus]; simp

theorem pairsLoop_plus {α : Type*} (outer : α → Bool) (step : Acc K → α → α → Acc K) (E : α → α → K)
    (F : α → α → Nat → V3 K) (S : α → α → Fin 6 → K)
    (h : ∀ s x y, outer x = true → step s x y = plus s (E x y) (F x y) (S x y))
    (h0 : ∀ x y, outer x = false → E x y = 0 ∧ F x y = 0 ∧ S x y = 0) (l : List α) (s : Acc K) :
    pairsLoop outer step l s = plus s ((pairsOf l).map fun p => E p.1 p.2).sum
      ((pairsOf l).map fun p => F p.1 p.2).sum ((pairsOf l).map fun p => S p.1 p.2).sum := by
  induction l generalizing s with
  | nil => simp [pairsLoop, pairsOf, plus_zero]
  | cons x l ih =>
    rw [pairsLoop, ih]
    have key : (if outer x = true then l.foldl (fun s y => step s x y) s else s) =
        plus s (l.map (E x)).sum (l.map (F x)).sum (l.map (S x)).sum := by
      by_cases hx : outer x = true
      · rw [if_pos hx, foldl_plus _ (E x) (F x) (S x) (fun s y => h s x y hx)]
      · rw [if_neg hx]
        have hx' : outer x = false := by simpa using hx
        have e1 : l.map (E x) = l.map fun _ => (0 : K) := List.map_congr_left fun y _ => (h0 x y hx').1
        have e2 : l.map (F x) = l.map fun _ => (0 : Nat → V3 K) := List.map_congr_left fun y _ => (h0 x y hx').2.1
        have e3 : l.map (S x) = l.map fun _ => (0 : Fin 6 → K) := List.map_congr_left fun y _ => (h0 x y hx').2.2
        rw [e1, e2, e3]
        simp [plus_zero]
    rw [key, plus_plus]
    simp only [pairsOf, List.map_append, List.map_map, List.sum_append]
    rfl

theorem atomLoop_plus (one : Nat → Atom K → Acc K → Acc K) (E : Nat → Atom K → K) (F : Nat → Atom K → Nat → V3 K)
    (S : Nat → Atom K → Fin 6 → K) (h : ∀ i a s, one i a s = plus s (E i a) (F i a) (S i a)) (l : List (Atom K))
    (i : Nat) (s : Acc K) :
    atomLoop one l i s = plus s ((l.zipIdx i).map fun p => E p.2 p.1).sum
      ((l.zipIdx i).map fun p => F p.2 p.1).sum ((l.zipIdx i).map fun p => S p.2 p.1).sum := by
  induction l generalizing s i with
  | nil => simp [atomLoop, plus_zero]
  | cons a l ih => rw [atomLoop, h, ih, plus_plus]; simp

/-- Sums over terms of all atoms. -/
theorem sum_termsFrom {M β : Type*} [AddCommMonoid M] (site : Nat → β → List (Term K)) (g : Term K → M)
    (l : List β) (i : Nat) :
    ((termsFrom site i l).map g).sum = ((l.zipIdx i).map fun p => ((site p.2 p.1).map g).sum).sum := by
  induction l generalizing i with
  | nil => rfl
  | cons a l ih => simp only [termsFrom, List.map_append, List.sum_append, ih, List.zipIdx_cons, List.map_cons, List.sum_cons]

theorem mem_termsFrom {β : Type*} (site : Nat → β → List (Term K)) (l : List β) (i : Nat) (t : Term K) :
    t ∈ termsFrom site i l ↔ ∃ j a, l[j]? = some a ∧ t ∈ site (i + j) a := by
  induction l generalizing i with
  | nil => simp [termsFrom]
  | cons b l ih =>
    simp only [termsFrom, List.mem_append, ih]
    constructor
    · rintro (h | ⟨j, a, h1, h2⟩)
      · exact ⟨0, b, rfl, by simpa using h⟩
      · exact ⟨j + 1, a, by simpa using h1, by rw [show i + (j + 1) = i + 1 + j by omega]; exact h2⟩
    · rintro ⟨j, a, h1, h2⟩
      cases j with
      | zero =>
        simp only [List.getElem?_cons_zero, Option.some.injEq] at h1
        subst h1
        exact Or.inl (by simpa using h2)
      | succ j =>
        exact Or.inr ⟨j, a, by simpa using h1, by rw [show i + 1 + j = i + (j + 1) by omega]; exact h2⟩

theorem sum_apply_nat {α : Type*} (l : List α) (F : α → Nat → V3 K) (a : Nat) :
    (l.map F).sum a = (l.map fun x => F x a).sum := by
  induction l with
  | nil => rfl
  | cons x l ih => simp only [List.map_cons, List.sum_cons, Pi.add_apply, ih]

theorem sum_apply_fin {α M : Type*} [AddCommMonoid M] {n : Nat} (l : List α) (F : α → Fin n → M) (k : Fin n) :
    (l.map F).sum k = (l.map fun x => F x k).sum := by
  induction l with
  | nil => rfl
  | cons x l ih => simp only [List.map_cons, List.sum_cons, Pi.add_apply, ih]

theorem mem_pairsOf {α : Type*} {l : List α} {p : α × α} (h : p ∈ pairsOf l) : p.1 ∈ l ∧ p.2 ∈ l := by
  induction l with
  | nil => simp [pairsOf] at h
  | cons x l ih =>
    simp only [pairsOf, List.mem_append, List.mem_map] at h
    rcases h with ⟨y, hy, rfl⟩ | h
    · exact ⟨by simp, by simp [hy]⟩
    · obtain ⟨h1, h2⟩ := ih h
      exact ⟨by simp [h1], by simp [h2]⟩

theorem pairsOf_map {α β : Type*} (f : α → β) (l : List α) :
    pairsOf (l.map f) = (pairsOf l).map fun p => (f p.1, f p.2) := by
  induction l with
  | nil => rfl
  | cons x l ih => simp only [pairsOf, List.map_cons, List.map_append, List.map_map, ih]; rfl

/-- One entry of the force vector. -/
def single (a : Nat) (v : V3 K) : Nat → V3 K := fun b => if b = a then v else 0

theorem addAt_eq (f : Nat → V3 K) (a : Nat) (v : V3 K) : addAt f a v = f + single a v := by
  funext b
  unfold addAt single
  by_cases h : b = a
  · subst h; simp
  · simp [h]

theorem single_neg (a : Nat) (v : V3 K) : single a (-v) = -single a v := by
  funext b
  unfold single
  by_cases h : b = a <;> simp [h]

theorem single_add (a : Nat) (v w : V3 K) : single a (v + w) = single a v + single a w := by
  funext b
  unfold single
  by_cases h : b = a <;> simp [h]

/-- Forces of a list of pulls. -/
def pullForce (own : Nat) (ps : List (Pull K)) : Nat → V3 K :=
  (ps.map fun p => single own p.g - single p.n.nr p.g).sum

theorem term_force (t : Term K) (a : Nat) : t.force a = pullForce t.own t.pulls a := by
  unfold Term.force pullForce
  rw [sum_apply_nat]
  rfl

theorem scatter3_eq (f : Nat → V3 K) (i : Nat) (nj nk : Neigh K) (fj fk : V3 K) :
    scatter3 f i nj.nr nk.nr fj fk = f + pullForce i [⟨nj, fj⟩, ⟨nk, fk⟩] := by
  unfold scatter3 pullForce
  simp only [addAt_eq, single_neg, single_add, List.map_cons, List.map_nil, List.sum_cons, List.sum_nil]
  abel

theorem scatter_eq (f : Nat → V3 K) (i : Nat) (n : Neigh K) (v : V3 K) :
    scatter f i n.nr v = f + pullForce i [⟨n, v⟩] := by
  unfold scatter pullForce
  simp only [addAt_eq, single_neg, List.map_cons, List.map_nil, List.sum_cons, List.sum_nil]
  abel

/-- Stresses, off-diagonal elements with the force in the second place. -/
def plainVirial (ps : List (Pull K)) : Fin 6 → K := (ps.map fun p => virial p.n.dist p.g).sum

/-- Stresses with symmetrised off-diagonal elements. -/
def symVirial (d g : V3 K) : Fin 6 → K :=
  ![d 0 * g 0, d 1 * g 1, d 2 * g 2, 1 / 2 * (d 0 * g 1 + d 1 * g 0), 1 / 2 * (d 1 * g 2 + d 2 * g 1),
    1 / 2 * (d 2 * g 0 + d 0 * g 2)]

def meanVirial (ps : List (Pull K)) : Fin 6 → K := (ps.map fun p => symVirial p.n.dist p.g).sum

theorem virial3_eq (nj nk : Neigh K) (fj fk : V3 K) :
    virial3 nj.dist nk.dist fj fk = meanVirial [⟨nj, fj⟩, ⟨nk, fk⟩] := by
  funext k
  unfold virial3 meanVirial symVirial
  simp only [List.map_cons, List.map_nil, List.sum_cons, List.sum_nil, add_zero, Pi.add_apply]
  fin_cases k <;> simp only [Fin.zero_eta, Fin.mk_one, Fin.reduceFinMk, Matrix.cons_val] <;> ring

end Verif.Spec
