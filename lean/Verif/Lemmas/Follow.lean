import Verif.Lemmas.FullList

namespace Verif.Spec

open Verif.Force

set_option linter.unusedSectionVars false

/-! ### Full lists -/

theorem sum_arrows {M : Type*} [AddCommMonoid M] (x : Nat → V3 ℝ) (g : Nat → Neigh ℝ → M) (G : Arrow → M)
    (h : ∀ own l, g own (placed x own l) = G ⟨own, l.nr, l.shift, l.col0⟩) (ts : List Node) (s : Nat) :
    (((placeFrom x s ts).zipIdx s).map fun p => (p.1.neigh.map (g p.2)).sum).sum = ((arrowsFrom s ts).map G).sum := by
  induction ts generalizing s with
  | nil => rfl
  | cons a ts ih =>
    simp only [placeFrom, List.zipIdx_cons, List.map_cons, List.sum_cons, arrowsFrom, List.map_append, List.sum_append,
      List.map_map, ih]
    congr 2
    apply List.map_congr_left
    intro l _
    exact h s l

theorem sum_sub_list {α M : Type*} [AddCommGroup M] (l : List α) (f g : α → M) :
    (l.map fun a => f a - g a).sum = (l.map f).sum - (l.map g).sum := by
  induction l with
  | nil => simp
  | cons a l ih => simp only [List.map_cons, List.sum_cons, ih]; abel

theorem sum_add_list {α M : Type*} [AddCommMonoid M] (l : List α) (f g : α → M) :
    (l.map fun a => f a + g a).sum = (l.map f).sum + (l.map g).sum := by
  induction l with
  | nil => simp
  | cons a l ih => simp only [List.map_cons, List.sum_cons, ih]; abel

theorem sum_neg_list {α M : Type*} [AddCommGroup M] (l : List α) (f : α → M) :
    (l.map fun a => -f a).sum = -(l.map f).sum := by
  induction l with
  | nil => simp
  | cons a l ih => simp only [List.map_cons, List.sum_cons, ih]; abel

/-- Vector from an atom to its neighbour. -/
def Arrow.vec (x : Nat → V3 ℝ) (a : Arrow) : V3 ℝ := x a.nr + a.shift - x a.own

theorem Arrow.vec_back (x : Nat → V3 ℝ) (a : Arrow) : a.back.vec x = -a.vec x := by
  unfold Arrow.vec Arrow.back
  abel

theorem length_negative (v : V3 ℝ) : length (-v) = length v := by
  simp [length]

/-- Derivative of the pair energy of an entry. -/
noncomputable def Arrow.pull (selfHalf : Bool) (P : Pots ℝ) (x : Nat → V3 ℝ) (a : Arrow) : V3 ℝ := fun k =>
  (if selfHalf && decide (a.nr = a.own) then 1 / 2 else 1) *
    (a.vec x k / length (a.vec x) * (if length (a.vec x) < P.fin a.col then P.grad a.col (length (a.vec x)) else 0))

theorem Arrow.pull_back (selfHalf : Bool) (P : Pots ℝ) (x : Nat → V3 ℝ) (a : Arrow) :
    a.back.pull selfHalf P x = -a.pull selfHalf P x := by
  funext k
  have h : decide (a.back.nr = a.back.own) = decide (a.nr = a.own) := by
    exact decide_eq_decide.2 ⟨Eq.symm, Eq.symm⟩
  have hc : a.back.col = a.col := rfl
  unfold Arrow.pull
  simp only [Arrow.vec_back, length_negative, h, hc, Pi.neg_apply]
  ring

/-- On full lists, adding the force to the atom only is the same as half the force on it and half the opposite force
on the neighbour. -/
theorem owner_sum (selfHalf : Bool) (P : Pots ℝ) (f : Conf ℝ) (ts : List Node) (x : Nat → V3 ℝ) (hm : Mutual f ts) :
    overAtoms (place f ts x) (fun i a => (a.neigh.map (ownerForce selfHalf P i)).sum) =
      overAtoms (place f ts x) (fun i a => (a.neigh.map fun n => pullForce i (pairTerm selfHalf P i n).pulls).sum) := by
  unfold overAtoms place
  rw [sum_arrows x (ownerForce selfHalf P) (fun a => single a.own (a.pull selfHalf P x)) (fun own l => rfl),
    sum_arrows x (fun i n => pullForce i (pairTerm selfHalf P i n).pulls)
      (fun a => single a.own ((1 / 2 : ℝ) • a.pull selfHalf P x) - single a.nr ((1 / 2 : ℝ) • a.pull selfHalf P x))
      (fun own l => by
        simp only [pullForce, pairTerm, List.map_cons, List.map_nil, List.sum_cons, List.sum_nil, add_zero]
        rfl)]
  rw [sum_sub_list]
  have h1 := ((hm.map fun a : Arrow => single a.nr ((1 / 2 : ℝ) • a.pull selfHalf P x))).sum_eq
  rw [List.map_map] at h1
  have h2 : (arrowsFrom f.start ts).map ((fun a : Arrow => single a.nr ((1 / 2 : ℝ) • a.pull selfHalf P x)) ∘ Arrow.back) =
      (arrowsFrom f.start ts).map fun a => -single a.own ((1 / 2 : ℝ) • a.pull selfHalf P x) := by
    apply List.map_congr_left
    intro a _
    simp only [Function.comp, Arrow.pull_back, smul_neg, single_neg]
    rfl
  rw [h2, sum_neg_list] at h1
  rw [h1, sub_neg_eq_add, ← sum_add_list]
  congr 1
  apply List.map_congr_left
  intro a _
  rw [← single_add, ← add_smul]
  norm_num

/-! ### Energies along a motion -/

/-- The atom with vectors `rf`. -/
noncomputable def atomAt (rf : Link → V3 ℝ) (a : Node) : Atom ℝ :=
  ⟨a.typ, a.links.map fun l => placedAt (rf l) l, a.absforce, a.contrib⟩

/-- Rate of change of the energy of terms. -/
noncomputable def sumRate (speed : Nat → Neigh ℝ → V3 ℝ) (ts : List (Term ℝ)) : ℝ := (ts.map (Term.rate speed)).sum

theorem sumEnergy_append (l m : List (Term ℝ)) : sumEnergy (l ++ m) = sumEnergy l + sumEnergy m := by
  simp [sumEnergy]

theorem sumRate_append (speed : Nat → Neigh ℝ → V3 ℝ) (l m : List (Term ℝ)) :
    sumRate speed (l ++ m) = sumRate speed l + sumRate speed m := by
  simp [sumRate]

theorem hasDerivAt_terms (m : Motion) (site : Nat → Atom ℝ → List (Term ℝ)) (ts : List Node) (s : Nat)
    (h : ∀ j a, ts[j]? = some a → HasDerivAt (fun t => sumEnergy (site (s + j) (atomAt (m.path t (s + j)) a)))
      (sumRate m.speed (site (s + j) (atomAt (m.path m.now (s + j)) a))) m.now) :
    HasDerivAt (fun t => sumEnergy (termsFrom site s (placeWithFrom (m.path t) s ts)))
      (sumRate m.speed (termsFrom site s (placeWithFrom (m.path m.now) s ts))) m.now := by
  induction ts generalizing s with
  | nil =>
    simp only [placeWithFrom, termsFrom, sumEnergy, sumRate, List.map_nil, List.sum_nil]
    exact hasDerivAt_const _ _
  | cons a ts ih =>
    simp only [placeWithFrom, termsFrom, sumEnergy_append, sumRate_append]
    refine HasDerivAt.add (h 0 a rfl) (ih (s + 1) ?_)
    intro j b hb
    have := h (j + 1) b (by simpa using hb)
    rwa [show s + (j + 1) = s + 1 + j by omega] at this

theorem sumRate_moving (x : Nat → V3 ℝ) (a : Nat) (k : Fin 3) (ts : List (Term ℝ)) :
    sumRate (moving x a k).speed ts = -sumForce ts a k := by
  unfold sumRate sumForce
  rw [sum_apply_fin, ← listSum_neg]
  congr 1
  apply List.map_congr_left
  intro t _
  exact rate_moving x a k t

theorem sumRate_straining (x : Nat → V3 ℝ) (α β : Fin 3) (ts : List (Term ℝ)) :
    sumRate (straining x α β).speed ts = sumStrain ts α β := by
  unfold sumRate sumStrain
  congr 1
  apply List.map_congr_left
  intro t _
  exact rate_straining x α β t

/-- Length of the vector of a link. -/
theorem hasDerivAt_r (m : Motion) (i : Nat) (l : Link) (h0 : length (m.path m.now i l) ≠ 0) :
    HasDerivAt (fun t => (placedAt (m.path t i l) l).r)
      (∑ k : Fin 3, (placedAt (m.path m.now i l) l).distR k * m.speed i (placedAt (m.path m.now i l) l) k) m.now :=
  hasDerivAt_length (fun k => m.deriv i l k h0) h0

/-- Cosine of the angle between two links. -/
theorem hasDerivAt_cosine (m : Motion) (i : Nat) (l l' : Link) (h0 : length (m.path m.now i l) ≠ 0)
    (h1 : length (m.path m.now i l') ≠ 0) :
    let n := placedAt (m.path m.now i l) l
    let n' := placedAt (m.path m.now i l') l'
    HasDerivAt (fun t => cosine (placedAt (m.path t i l) l) (placedAt (m.path t i l') l'))
      (∑ k : Fin 3, (n'.distR k - cosine n n' * n.distR k) / n.r * m.speed i n k +
       ∑ k : Fin 3, (n.distR k - cosine n n' * n'.distR k) / n'.r * m.speed i n' k) m.now := by
  intro n n'
  simp only [n, n', cosine_placed]
  exact hasDerivAt_cos (fun k => m.deriv i l k h0) (fun k => m.deriv i l' k h1) h0 h1

/-- Pair terms. -/
theorem follow_pair (m : Motion) (selfHalf : Bool) (P : Pots ℝ) (i : Nat) (l : Link)
    (h0 : length (m.path m.now i l) ≠ 0)
    (hP : CutSlope (P.fin l.col0) (P.val l.col0) (P.grad l.col0 (length (m.path m.now i l)))
      (length (m.path m.now i l))) :
    HasDerivAt (fun t => (pairTerm selfHalf P i (placedAt (m.path t i l) l)).energy)
      ((pairTerm selfHalf P i (placedAt (m.path m.now i l) l)).rate m.speed) m.now := by
  have hr := hasDerivAt_r m i l h0
  have h1 : HasDerivAt (fun t => pairVal P (placedAt (m.path t i l) l))
      (pairGrad P (placedAt (m.path m.now i l) l) *
        ∑ k : Fin 3, (placedAt (m.path m.now i l) l).distR k * m.speed i (placedAt (m.path m.now i l) l) k) m.now := by
    have hP' : HasDerivAt (fun r => if r < P.fin l.col0 then P.val l.col0 r else 0)
      (pairGrad P (placedAt (m.path m.now i l) l)) ((fun t => (placedAt (m.path t i l) l).r) m.now) := hP
    exact hP'.comp m.now hr
  have h2 := (h1.const_mul (selfWeight selfHalf i (placedAt (m.path m.now i l) l))).const_mul (1 / 2)
  refine h2.congr_deriv ?_
  simp only [Term.rate, pairTerm, List.map_cons, List.map_nil, List.sum_cons, List.sum_nil, Fin.sum_univ_three]
  ring

/-- A list of terms, one for every neighbour. -/
theorem follow_map (m : Motion) (T : Neigh ℝ → Term ℝ) (i : Nat) (ls : List Link)
    (h : ∀ l ∈ ls, HasDerivAt (fun t => (T (placedAt (m.path t i l) l)).energy)
      ((T (placedAt (m.path m.now i l) l)).rate m.speed) m.now) :
    HasDerivAt (fun t => sumEnergy ((ls.map fun l => placedAt (m.path t i l) l).map T))
      (sumRate m.speed ((ls.map fun l => placedAt (m.path m.now i l) l).map T)) m.now := by
  unfold sumEnergy sumRate
  simp only [List.map_map]
  exact hasDerivAt_listSum ls (fun l t => (T (placedAt (m.path t i l) l)).energy)
    (fun l => (T (placedAt (m.path m.now i l) l)).rate m.speed) m.now h

/-- A list of terms, one for every pair of neighbours. -/
theorem follow_pairs (m : Motion) (T : Neigh ℝ → Neigh ℝ → Term ℝ) (i : Nat) (ls : List Link)
    (h : ∀ l ∈ ls, ∀ l' ∈ ls, HasDerivAt (fun t => (T (placedAt (m.path t i l) l) (placedAt (m.path t i l') l')).energy)
      ((T (placedAt (m.path m.now i l) l) (placedAt (m.path m.now i l') l')).rate m.speed) m.now) :
    HasDerivAt (fun t => sumEnergy ((pairsOf (ls.map fun l => placedAt (m.path t i l) l)).map fun p => T p.1 p.2))
      (sumRate m.speed ((pairsOf (ls.map fun l => placedAt (m.path m.now i l) l)).map fun p => T p.1 p.2)) m.now := by
  unfold sumEnergy sumRate
  simp only [pairsOf_map, List.map_map]
  exact hasDerivAt_listSum (pairsOf ls)
    (fun p t => (T (placedAt (m.path t i p.1) p.1) (placedAt (m.path t i p.2) p.2)).energy)
    (fun p => (T (placedAt (m.path m.now i p.1) p.1) (placedAt (m.path m.now i p.2) p.2)).rate m.speed) m.now
    (fun p hp => h p.1 (mem_pairsOf hp).1 p.2 (mem_pairsOf hp).2)

end Verif.Spec
