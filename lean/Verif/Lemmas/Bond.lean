import Verif.Lemmas.Conservative
import Verif.Lemmas.Stiweb
import Verif.Model.Tersoff

namespace Verif.Spec

open Verif.Force

set_option linter.unusedSectionVars false

section
variable {K : Type*} [Field K] [LinearOrder K]

/-- Every element of the second list with the others of both lists. -/
def othersOf {α : Type*} : List α → List α → List (α × List α)
  | _, [] => []
  | pre, a :: as => (a, pre ++ as) :: othersOf (pre ++ [a]) as

theorem othersOf_map {α β : Type*} (f : α → β) (pre l : List α) :
    othersOf (pre.map f) (l.map f) = (othersOf pre l).map fun p => (f p.1, p.2.map f) := by
  induction l generalizing pre with
  | nil => rfl
  | cons a l ih =>
    have := ih (pre ++ [a])
    simp only [List.map_append, List.map_cons, List.map_nil] at this
    simp only [othersOf, List.map_cons, List.map_append, this]

theorem mem_othersOf {α : Type*} {pre l : List α} {p : α × List α} (h : p ∈ othersOf pre l) :
    p.1 ∈ l ∧ ∀ x ∈ p.2, x ∈ pre ++ l := by
  induction l generalizing pre with
  | nil => simp [othersOf] at h
  | cons a l ih =>
    simp only [othersOf, List.mem_cons] at h
    rcases h with rfl | h
    · refine ⟨by simp, ?_⟩
      intro x hx
      simp only [List.mem_append, List.mem_cons] at hx ⊢
      tauto
    · obtain ⟨h1, h2⟩ := ih h
      refine ⟨by simp [h1], ?_⟩
      intro x hx
      have := h2 x hx
      simp only [List.mem_append, List.mem_cons, List.not_mem_nil, or_false] at this ⊢
      tauto

theorem eachLoop_plus {α : Type*} (step : Acc K → α → List α → Acc K) (E : α → List α → K)
    (F : α → List α → Nat → V3 K) (S : α → List α → Fin 6 → K)
    (h : ∀ s x os, step s x os = plus s (E x os) (F x os) (S x os)) (pre l : List α) (s : Acc K) :
    eachLoop step pre l s = plus s ((othersOf pre l).map fun p => E p.1 p.2).sum
      ((othersOf pre l).map fun p => F p.1 p.2).sum ((othersOf pre l).map fun p => S p.1 p.2).sum := by
  induction l generalizing pre s with
  | nil => simp [eachLoop, othersOf, plus_zero]
  | cons x l ih => rw [eachLoop, ih, h, plus_plus]; simp [othersOf]

/-- Energy `E` of a bond depending on the vector to neighbour `nj` directly (derivative `u`) and through a sum over
the other neighbours (derivative `ez`), whose summands have derivatives `zj` and `zk` with respect to the two vectors. -/
def bondTerm (i : Nat) (nj : Neigh K) (others : List (Neigh K)) (E : K) (u : V3 K) (ez : K) (zj zk : Neigh K → V3 K) :
    Term K :=
  ⟨i, E, ⟨nj, fun c => u c + ez * (others.map fun nk => zj nk c).sum⟩ :: others.map fun nk => ⟨nk, fun c => ez * zk nk c⟩⟩

theorem symVirial_zero (d : V3 K) : symVirial d (fun _ => 0) = 0 := by
  funext m
  simp only [symVirial, mul_zero, add_zero]
  fin_cases m <;> simp

theorem symVirial_neg (d g : V3 K) : symVirial d (fun c => -g c) = -symVirial d g := by
  funext m
  simp only [symVirial, Pi.neg_apply]
  fin_cases m <;> simp only [Fin.zero_eta, Fin.mk_one, Fin.reduceFinMk, Matrix.cons_val] <;> ring

theorem single_fun_neg (a : Nat) (v : V3 K) : single a (fun c => -v c) = -single a v := single_neg a v

theorem single_fun_add (a : Nat) (v w : V3 K) : single a (fun c => v c + w c) = single a v + single a w := single_add a v w

theorem single_sum {α : Type*} (a : Nat) (l : List α) (v : α → V3 K) :
    single a (fun c => (l.map fun x => v x c).sum) = (l.map fun x => single a (v x)).sum := by
  induction l with
  | nil => simp [single_zero]
  | cons x l ih => simp only [List.map_cons, List.sum_cons, single_fun_add, ih]

theorem bondSpread_plus (b : Build) (cut : Nat → K) (us : Bool) (i : Nat) (w : K) (dz : Neigh K → V3 K) (di fj : V3 K)
    (nj : Neigh K) (others : List (Neigh K)) (s : Acc K) (E : K) (u : V3 K) (zj zk : Neigh K → V3 K)
    (hzk : ∀ nk ∈ others, ∀ c, zk nk c = if nk.r < cut nk.col0 then dz nk c else 0)
    (hdi : ∀ c, di c = -(others.map fun nk => zk nk c).sum)
    (hfj : ∀ c, fj c = -u c + w * (others.map fun nk => zj nk c).sum) :
    bondSpread b cut us i w dz di fj nj others s =
      plus s 0 (pullForce i (bondTerm i nj others E u (-w) zj zk).pulls)
        (if b.stress && us then -meanVirial (bondTerm i nj others E u (-w) zj zk).pulls else 0) := by
  have step : ∀ (l : List (Neigh K)), (∀ nk ∈ l, nk ∈ others) → ∀ s : Acc K, l.foldl (fun s nk =>
      if nk.r < cut nk.col0 then
        { s with
          force := addAt s.force nk.nr fun c => w * dz nk c
          stress := if b.stress && us then s.stress + virialSym nk.dist (fun c => w * dz nk c) else s.stress }
      else s) s = plus s 0 (l.map fun nk => -single nk.nr (fun c => -w * zk nk c)).sum
        (if b.stress && us then -(l.map fun nk => symVirial nk.dist (fun c => -w * zk nk c)).sum else 0) := by
    intro l
    induction l with
    | nil => intro _ s; simp [plus_zero]
    | cons n l ih =>
      intro hl s
      rw [List.foldl_cons, ih (fun nk h => hl nk (List.mem_cons_of_mem _ h))]
      have hn := hzk n (hl n List.mem_cons_self)
      by_cases h : n.r < cut n.col0
      · have e : (fun c => -w * zk n c) = fun c => -(w * dz n c) := by
          funext c; rw [hn c, if_pos h]; ring
        simp only [if_pos h, plus, addAt_eq, add_zero, List.map_cons, List.sum_cons, e, single_fun_neg, symVirial_neg, neg_neg]
        by_cases hs : (b.stress && us) = true
        · simp only [if_pos hs]
          congr 1
          · abel
          · rw [neg_add, neg_neg, add_assoc]
            rfl
        · simp only [if_neg hs, add_zero]
          congr 1
          abel
      · have e : (fun c => -w * zk n c) = fun c => 0 := by
          funext c; rw [hn c, if_neg h]; ring
        simp only [if_neg h, List.map_cons, List.sum_cons, e, single_zero, symVirial_zero, neg_zero, zero_add]
  unfold bondSpread
  rw [step others (fun _ h => h)]
  have hu : (fun c => u c + -w * (others.map fun nk => zj nk c).sum) = fun c => -fj c := by
    funext c; rw [hfj c]; ring
  have hi : (fun c => w * di c - fj c) = fun c => (others.map fun nk => -w * zk nk c).sum + -fj c := by
    funext c
    rw [hdi c, List.sum_map_mul_left]
    ring
  simp only [bondTerm, hu, hi, pullForce, meanVirial, List.map_cons, List.sum_cons, List.map_map, Function.comp_def, addAt_eq, plus, add_zero,
    single_fun_add, single_fun_neg, symVirial_neg, single_sum]
  by_cases hs : (b.stress && us) = true
  · simp only [if_pos hs]
    congr 1
    · rw [sum_sub_list, sum_neg_list]
      abel
    · rw [neg_add, neg_neg, add_assoc, add_comm (-_) _]
      rfl
  · simp only [if_neg hs, add_zero]
    congr 1
    rw [sum_sub_list, sum_neg_list]
    abel

/-- Terms of one atom: pairs and bonds. -/
def bondSite (P : Pots K) (T : Nat → Neigh K → List (Neigh K) → Term K) (i : Nat) (a : Atom K) : List (Term K) :=
  a.neigh.map (pairTerm true P i) ++ (othersOf [] a.neigh).map fun q => T i q.1 q.2

def bondForceSum (P : Pots K) (T : Nat → Neigh K → List (Neigh K) → Term K) (i : Nat) (a : Atom K) : Nat → V3 K :=
  (a.neigh.map (ownerForce true P i)).sum + ((othersOf [] a.neigh).map fun q => pullForce i (T i q.1 q.2).pulls).sum

def bondStress (P : Pots K) (T : Nat → Neigh K → List (Neigh K) → Term K) (i : Nat) (a : Atom K) : Fin 6 → K :=
  -((a.neigh.map fun n => plainVirial (pairTerm true P i n).pulls).sum +
    ((othersOf [] a.neigh).map fun q => meanVirial (T i q.1 q.2).pulls).sum)

theorem bondAtom_plus [CharZero K] (b : Build) (P : Pots K) (T : Nat → Neigh K → List (Neigh K) → Term K)
    (step : Nat → Acc K → Neigh K → List (Neigh K) → Acc K) (us : Bool)
    (h : ∀ i s nj others, step i s nj others = plus s (T i nj others).energy (pullForce i (T i nj others).pulls)
      (if b.stress && us then -meanVirial (T i nj others).pulls else 0)) (i : Nat) (a : Atom K) (s : Acc K) :
    eachLoop (step i) [] a.neigh (a.neigh.foldl (fullPair b true P true us i) s) =
      plus s (sumEnergy (bondSite P T i a)) (bondForceSum P T i a) (if b.stress && us then bondStress P T i a else 0) := by
  rw [foldl_fullPair, eachLoop_plus _ _ _ _ (h i), plus_plus]
  unfold bondSite bondStress bondForceSum sumEnergy
  rw [List.map_append, List.sum_append, List.map_map, List.map_map, sum_ite_neg]
  congr 1
  by_cases hs : (b.stress && us) = true
  · simp only [if_pos hs, neg_add]
  · simp only [if_neg hs, add_zero]

end

/-- Symmetry of the strain derivative of a bond. -/
theorem bondTerm_sym (i : Nat) (nj : Neigh ℝ) (others : List (Neigh ℝ)) (E : ℝ) (u : V3 ℝ) (ez : ℝ) (zj zk : Neigh ℝ → V3 ℝ)
    (hu : ∀ α β, u α * nj.dist β = u β * nj.dist α)
    (hz : ∀ nk ∈ others, ∀ α β, zj nk α * nj.dist β + zk nk α * nk.dist β = zj nk β * nj.dist α + zk nk β * nk.dist α) (α β : Fin 3) :
    (bondTerm i nj others E u ez zj zk).strain α β = (bondTerm i nj others E u ez zj zk).strain β α := by
  have key : ∀ α β, (bondTerm i nj others E u ez zj zk).strain α β =
      u α * nj.dist β + ez * (others.map fun nk => zj nk α * nj.dist β + zk nk α * nk.dist β).sum := by
    intro α β
    simp only [bondTerm, Term.strain, List.map_cons, List.sum_cons, List.map_map, Function.comp_def]
    rw [sum_add_list, List.sum_map_mul_right, mul_add, add_mul, mul_assoc, add_assoc]
    congr 2
    rw [← List.sum_map_mul_left]
    congr 1
    apply List.map_congr_left
    intro nk _
    ring
  rw [key, key, hu]
  congr 3
  apply List.map_congr_left
  intro nk hk
  exact hz nk hk α β

/-- Rate of change of a bond. -/
theorem bondTerm_rate (speed : Nat → Neigh ℝ → V3 ℝ) (i : Nat) (nj : Neigh ℝ) (others : List (Neigh ℝ)) (E : ℝ) (u : V3 ℝ) (ez : ℝ)
    (zj zk : Neigh ℝ → V3 ℝ) :
    (bondTerm i nj others E u ez zj zk).rate speed = (∑ c, u c * speed i nj c) +
      ez * (others.map fun nk => (∑ c, zj nk c * speed i nj c) + ∑ c, zk nk c * speed i nk c).sum := by
  simp only [bondTerm, Term.rate, List.map_cons, List.sum_cons, List.map_map, Function.comp_def]
  rw [sum_add_list, mul_add, ← add_assoc]
  congr 1
  · have : ∀ l : List (Neigh ℝ), (l.map fun nk => ∑ c, zj nk c * speed i nj c).sum = ∑ c, (l.map fun nk => zj nk c).sum * speed i nj c := by
      intro l
      induction l with
      | nil => simp
      | cons n l ih => simp only [List.map_cons, List.sum_cons, ih, add_mul, Finset.sum_add_distrib]
    rw [this, Finset.mul_sum, ← Finset.sum_add_distrib]
    apply Finset.sum_congr rfl
    intro c _
    ring
  · rw [← List.sum_map_mul_left]
    congr 1
    apply List.map_congr_left
    intro nk _
    rw [Finset.mul_sum]
    apply Finset.sum_congr rfl
    intro c _
    ring

/-- Terms of one neighbour and all others. -/
theorem follow_others (m : Motion) (T : Neigh ℝ → List (Neigh ℝ) → Term ℝ) (i : Nat) (ls : List Link)
    (h : ∀ p ∈ othersOf [] ls, HasDerivAt
      (fun t => (T (placedAt (m.path t i p.1) p.1) (p.2.map fun l => placedAt (m.path t i l) l)).energy)
      ((T (placedAt (m.path m.now i p.1) p.1) (p.2.map fun l => placedAt (m.path m.now i l) l)).rate m.speed) m.now) :
    HasDerivAt (fun t => sumEnergy ((othersOf [] (ls.map fun l => placedAt (m.path t i l) l)).map fun p => T p.1 p.2))
      (sumRate m.speed ((othersOf [] (ls.map fun l => placedAt (m.path m.now i l) l)).map fun p => T p.1 p.2)) m.now := by
  have e : ∀ t, othersOf [] (ls.map fun l => placedAt (m.path t i l) l) =
      (othersOf [] ls).map fun p => (placedAt (m.path t i p.1) p.1, p.2.map fun l => placedAt (m.path t i l) l) :=
    fun t => othersOf_map _ [] ls
  unfold sumEnergy sumRate
  simp only [e, List.map_map, Function.comp_def]
  generalize othersOf [] ls = L at h
  induction L with
  | nil => simpa using hasDerivAt_const m.now (0 : ℝ)
  | cons p L ih =>
    simp only [List.map_cons, List.sum_cons]
    exact (h p List.mem_cons_self).add (ih fun q hq => h q (List.mem_cons_of_mem _ hq))

end Verif.Spec
