/-
The dipole iteration of the electrostatic routine.
-/
import Verif.Spec.Dipoles
import Verif.Lemmas.ForceElstat
import Mathlib.Algebra.Order.BigOperators.Group.Finset

set_option linter.unusedSectionVars false

namespace Verif.Spec

open Verif.Force

variable {K : Type*} [Field K] [LinearOrder K] [IsStrictOrderedRing K]

/-- A loop adding a vector to the atom and one to the neighbour. -/
theorem foldl_addAt2 (body : (Nat → V3 K) → Entry K → Nat → V3 K) (g h : Entry K → V3 K) (l : List (Entry K))
    (hb : ∀ e ∈ l, ∀ f i, body f e i = f i + (if i = e.own then g e else 0) + if i = e.n.nr then h e else 0)
    (f : Nat → V3 K) (i : Nat) :
    l.foldl body f i = f i + (l.map fun e => (if i = e.own then g e else 0) + if i = e.n.nr then h e else 0).sum := by
  induction l generalizing f with
  | nil => simp
  | cons e l ih =>
    rw [List.foldl_cons, ih (fun e' he' => hb e' (List.mem_cons_of_mem _ he')), hb e (by simp), List.map_cons, List.sum_cons]
    rw [add_assoc, add_assoc, add_assoc]

theorem addAt_apply' (f : Nat → V3 K) (i j : Nat) (v : V3 K) : addAt f i v j = f j + if j = i then v else 0 := by
  unfold addAt
  by_cases h : j = i
  · subst h; simp
  · simp [Function.update, h]

theorem sum_apply3 {ι : Type*} (l : List ι) (g : ι → V3 K) (k : Fin 3) : (l.map g).sum k = (l.map fun e => g e k).sum := by
  induction l with
  | nil => rfl
  | cons a l ih => rw [List.map_cons, List.sum_cons, List.map_cons, List.sum_cons, Pi.add_apply, ih]

/-- The static field after the second loop. -/
theorem statLoop (E : Elec K) (c : Conf K) (f : Nat → V3 K) (i : Nat) :
    overNeigh (statNeigh E) c.atoms c.start f i = f i + staticField E c i := by
  rw [overNeigh_eq]
  rw [foldl_addAt2 _ (fun e k => if e.n.r < E.cut then share e * ((E.tail e.n.r).grad * e.n.dist k * E.charge e.n.typ) else 0)
    (fun e k => if e.n.r < E.cut then -(share e * ((E.tail e.n.r).grad * e.n.dist k * E.charge e.otyp)) else 0)]
  · congr 1
    funext k
    rw [sum_apply3]
    unfold staticField
    congr 1
    apply List.map_congr_left
    intro e _
    by_cases h1 : e.n.r < E.cut <;> by_cases h2 : i = e.own <;> by_cases h3 : i = e.n.nr <;>
      simp only [h1, h2, h3, if_true, if_false, Pi.add_apply, Pi.zero_apply] <;> (try split_ifs) <;> (try simp_all) <;> (try ring)
  · intro e _ f i
    unfold statNeigh
    by_cases h : e.n.r < E.cut ∧ (E.charge e.otyp ≠ 0 ∨ E.charge e.n.typ ≠ 0)
    · rw [if_pos h]
      simp only [halfSelf_share e.own e.otyp, addAt_apply', h.1, if_true]
      have hj : (if e.otyp = e.n.typ then E.charge e.n.typ * (E.tail e.n.r).grad else E.charge e.otyp * (E.tail e.n.r).grad) =
          E.charge e.otyp * (E.tail e.n.r).grad := by
        split
        · next h' => rw [h']
        · rfl
      rw [hj]
      congr 1
      · congr 1
        split
        · funext k; show e.n.dist k * (share e * _) = _; ring
        · rfl
      · split
        · funext k; show -(e.n.dist k * (share e * _)) = _; ring
        · rfl
    · rw [if_neg h]
      have hz : (fun k : Fin 3 => if e.n.r < E.cut then share e * ((E.tail e.n.r).grad * e.n.dist k * E.charge e.n.typ) else 0) =
          (0 : V3 K) := by
        funext k
        split
        · next hr =>
          have : E.charge e.n.typ = 0 := by by_contra h'; exact h ⟨hr, Or.inr h'⟩
          simp [this]
        · rfl
      have hz' : (fun k : Fin 3 => if e.n.r < E.cut then -(share e * ((E.tail e.n.r).grad * e.n.dist k * E.charge e.otyp)) else 0)
          = (0 : V3 K) := by
        funext k
        split
        · next hr =>
          have : E.charge e.otyp = 0 := by by_contra h'; exact h ⟨hr, Or.inl h'⟩
          simp [this]
        · rfl
      rw [hz, hz']
      simp

/-- The short-range moments after the second loop. -/
theorem srLoop (E : Elec K) (c : Conf K) (f : Nat → V3 K) (i : Nat) :
    overNeigh (srNeigh E) c.atoms c.start f i = f i + shortMoment E c i := by
  rw [overNeigh_eq]
  rw [foldl_addAt2 _
    (fun e k => if e.n.r < E.cut ∧ E.b e.n.col0 ≠ 0 ∧ E.c e.n.col0 ≠ 0 ∧ E.alpha e.otyp ≠ 0 then
      (E.tail e.n.r).grad * e.n.r * e.n.distR k *
      (E.charge e.n.typ * E.srValue e.n.r (E.alpha e.otyp) (E.b e.n.col0) (E.c e.n.col0)) else 0)
    (fun e k => if e.n.r < E.cut ∧ E.b e.n.col0 ≠ 0 ∧ E.c e.n.col0 ≠ 0 ∧ E.alpha e.n.typ ≠ 0 ∧ e.n.nr ≠ e.own then
      -((E.tail e.n.r).grad * e.n.r * e.n.distR k *
      (E.charge e.otyp * E.srValue e.n.r (E.alpha e.n.typ) (E.b e.n.col0) (E.c e.n.col0))) else 0)]
  · congr 1
    funext k
    rw [sum_apply3]
    unfold shortMoment
    congr 1
    apply List.map_congr_left
    intro e _
    by_cases h1 : e.n.r < E.cut ∧ E.b e.n.col0 ≠ 0 ∧ E.c e.n.col0 ≠ 0
    · obtain ⟨a1, a2, a3⟩ := h1
      by_cases h2 : i = e.own <;> by_cases h3 : i = e.n.nr <;> by_cases h4 : E.alpha e.otyp = 0 <;>
        by_cases h5 : E.alpha e.n.typ = 0 <;> by_cases h6 : e.n.nr = e.own <;>
        simp [a1, a2, a3, h2, h3, h4, h5, h6] <;> split_ifs <;> simp_all <;> ring
    · rw [if_neg h1]
      have e1 : (fun k : Fin 3 => if e.n.r < E.cut ∧ E.b e.n.col0 ≠ 0 ∧ E.c e.n.col0 ≠ 0 ∧ E.alpha e.otyp ≠ 0 then
          (E.tail e.n.r).grad * e.n.r * e.n.distR k *
          (E.charge e.n.typ * E.srValue e.n.r (E.alpha e.otyp) (E.b e.n.col0) (E.c e.n.col0)) else 0) = 0 := by
        funext k
        rw [if_neg (by tauto)]
        rfl
      have e2 : (fun k : Fin 3 => if e.n.r < E.cut ∧ E.b e.n.col0 ≠ 0 ∧ E.c e.n.col0 ≠ 0 ∧ E.alpha e.n.typ ≠ 0 ∧ e.n.nr ≠ e.own
          then -((E.tail e.n.r).grad * e.n.r * e.n.distR k *
          (E.charge e.otyp * E.srValue e.n.r (E.alpha e.n.typ) (E.b e.n.col0) (E.c e.n.col0))) else 0) = 0 := by
        funext k
        rw [if_neg (by tauto)]
        rfl
      rw [e1, e2]
      simp
  · intro e _ f i
    unfold srNeigh
    by_cases hr : e.n.r < E.cut
    · by_cases hb : E.b e.n.col0 = 0
      · funext k
        simp [hb, apply_ite (fun v : V3 K => v k)]
      by_cases hc : E.c e.n.col0 = 0
      · funext k
        simp [hc, apply_ite (fun v : V3 K => v k)]
      by_cases hq : E.charge e.otyp ≠ 0 ∨ E.charge e.n.typ ≠ 0
      · by_cases h4 : E.alpha e.otyp = 0 <;> by_cases h5 : E.alpha e.n.typ = 0 <;> by_cases h6 : e.n.nr = e.own <;>
          simp only [hr, hb, hc, hq, h4, h5, h6, ne_eq, not_true_eq_false, not_false_eq_true, and_true, true_and, and_false,
            false_and, if_true, if_false, addAt_apply']
        all_goals
          funext k
          by_cases j1 : i = e.own <;> by_cases j2 : i = e.n.nr <;> simp [j1, j2, h6] <;> (try split_ifs) <;> (try simp_all) <;>
            (try ring)
      · have q1 : E.charge e.otyp = 0 := by by_contra h; exact hq (Or.inl h)
        have q2 : E.charge e.n.typ = 0 := by by_contra h; exact hq (Or.inr h)
        funext k
        simp [q1, q2, apply_ite (fun v : V3 K => v k)]
    · funext k
      simp [hr, apply_ite (fun v : V3 K => v k)]

/-- The fields of the dipoles after one pass. -/
theorem fieldLoop (E : Elec K) (c : Conf K) (p : Nat → V3 K) (f : Nat → V3 K) (i : Nat) :
    overNeigh (dipField E p) c.atoms c.start f i = f i + dipoleField E c p i := by
  rw [overNeigh_eq]
  rw [foldl_addAt2 _
    (fun e => if e.n.r < E.cut ∧ E.alpha e.otyp ≠ 0 ∧ E.alpha e.n.typ ≠ 0 then
      dipoleTerm (E.tail e.n.r).grad (p e.n.nr) e.n.distR else 0)
    (fun e => if e.n.r < E.cut ∧ E.alpha e.otyp ≠ 0 ∧ E.alpha e.n.typ ≠ 0 ∧ e.n.nr ≠ e.own then
      dipoleTerm (E.tail e.n.r).grad (p e.own) e.n.distR else 0)]
  · congr 1
    funext k
    rw [sum_apply3]
    unfold dipoleField
    congr 1
    apply List.map_congr_left
    intro e _
    by_cases h1 : e.n.r < E.cut ∧ E.alpha e.otyp ≠ 0 ∧ E.alpha e.n.typ ≠ 0
    · have h1' := h1
      obtain ⟨a1, a2, a3⟩ := h1'
      by_cases h6 : e.n.nr = e.own
      · have h : ¬(e.n.r < E.cut ∧ E.alpha e.otyp ≠ 0 ∧ E.alpha e.n.typ ≠ 0 ∧ e.n.nr ≠ e.own) := by tauto
        have h' : ¬(i = e.n.nr ∧ e.n.nr ≠ e.own) := by tauto
        rw [if_pos h1, if_pos h1, if_neg h, if_neg h']
        split_ifs <;> simp
      · have h : e.n.r < E.cut ∧ E.alpha e.otyp ≠ 0 ∧ E.alpha e.n.typ ≠ 0 ∧ e.n.nr ≠ e.own := ⟨a1, a2, a3, h6⟩
        rw [if_pos h1, if_pos h1, if_pos h]
        split_ifs <;> simp_all
    · have h : ¬(e.n.r < E.cut ∧ E.alpha e.otyp ≠ 0 ∧ E.alpha e.n.typ ≠ 0 ∧ e.n.nr ≠ e.own) := by tauto
      rw [if_neg h1, if_neg h1, if_neg h]
      simp
  · intro e _ f i
    unfold dipField
    by_cases h1 : e.n.r < E.cut ∧ E.alpha e.otyp ≠ 0 ∧ E.alpha e.n.typ ≠ 0
    · have h1' := h1
      obtain ⟨a1, a2, a3⟩ := h1'
      rw [if_pos h1, if_pos h1]
      by_cases h6 : e.n.nr = e.own
      · have h : ¬(e.n.r < E.cut ∧ E.alpha e.otyp ≠ 0 ∧ E.alpha e.n.typ ≠ 0 ∧ e.n.nr ≠ e.own) := by tauto
        rw [if_neg (by tauto : ¬(e.n.nr ≠ e.own)), if_neg h, addAt_apply']
        simp only [sprod_eq, ite_self, add_zero]
        rfl
      · have h : e.n.r < E.cut ∧ E.alpha e.otyp ≠ 0 ∧ E.alpha e.n.typ ≠ 0 ∧ e.n.nr ≠ e.own := ⟨a1, a2, a3, h6⟩
        rw [if_pos h6, if_pos h, addAt_apply', addAt_apply']
        simp only [sprod_eq]
        rfl
    · have h : ¬(e.n.r < E.cut ∧ E.alpha e.otyp ≠ 0 ∧ E.alpha e.n.typ ≠ 0 ∧ e.n.nr ≠ e.own) := by tauto
      rw [if_neg h1, if_neg h1, if_neg h]
      simp

/-- Moments and fields of an atom after the first part of a round. -/
theorem dipMoments_spec (E : Elec K) (first : Bool) (as : List (Atom K)) (i : Nat) (d : Dip K) :
    (dipMoments E first as i d).eStat = d.eStat ∧ (dipMoments E first as i d).pSr = d.pSr ∧
    (∀ j, ¬(i ≤ j ∧ j < i + as.length) → (dipMoments E first as i d).pInd j = d.pInd j ∧
      (dipMoments E first as i d).eOld j = d.eOld j ∧ (dipMoments E first as i d).eInd j = d.eInd j) ∧
    (∀ j a, as[j]? = some a → E.alpha a.typ ≠ 0 →
      (dipMoments E first as i d).pInd (i + j) = (fun k => E.alpha a.typ * dipTotal E first d (i + j) k + d.pSr (i + j) k) ∧
      (dipMoments E first as i d).eOld (i + j) = d.eInd (i + j) ∧ (dipMoments E first as i d).eInd (i + j) = 0) := by
  induction as generalizing i d with
  | nil => simp [dipMoments]
  | cons a as ih =>
    simp only [dipMoments]
    generalize hd' : (if E.alpha a.typ ≠ 0 then
        { d with
          pInd := Function.update d.pInd i (fun k => E.alpha a.typ * dipTotal E first d i k + d.pSr i k)
          eOld := Function.update d.eOld i (d.eInd i)
          eInd := Function.update d.eInd i 0 }
      else d) = d'
    obtain ⟨h1, h2, h3, h4⟩ := ih (i + 1) d'
    have b1 : d'.eStat = d.eStat := by subst hd'; split <;> rfl
    have b2 : d'.pSr = d.pSr := by subst hd'; split <;> rfl
    have b3 : ∀ j, j ≠ i → d'.pInd j = d.pInd j ∧ d'.eOld j = d.eOld j ∧ d'.eInd j = d.eInd j := by
      intro j hj
      subst hd'
      split
      · exact ⟨Function.update_of_ne hj _ _, Function.update_of_ne hj _ _, Function.update_of_ne hj _ _⟩
      · exact ⟨rfl, rfl, rfl⟩
    refine ⟨h1.trans b1, h2.trans b2, ?_, ?_⟩
    · intro j hj
      rw [List.length_cons] at hj
      obtain ⟨c1, c2, c3⟩ := h3 j (by omega)
      obtain ⟨e1, e2, e3⟩ := b3 j (by omega)
      exact ⟨c1.trans e1, c2.trans e2, c3.trans e3⟩
    · intro j a' ha' hα
      cases j with
      | zero =>
        simp only [List.getElem?_cons_zero, Option.some.injEq] at ha'
        subst ha'
        obtain ⟨c1, c2, c3⟩ := h3 i (by omega)
        simp only [Nat.add_zero]
        rw [c1, c2, c3]
        subst hd'
        rw [if_pos hα]
        exact ⟨Function.update_self _ _ _, Function.update_self _ _ _, Function.update_self _ _ _⟩
      | succ j =>
        rw [List.getElem?_cons_succ] at ha'
        have := h4 j a' ha' hα
        rw [show i + (j + 1) = i + 1 + j by omega]
        obtain ⟨e1, e2, e3⟩ := b3 (i + 1 + j) (by omega)
        have ht : dipTotal E first d' (i + 1 + j) = dipTotal E first d (i + 1 + j) := by
          funext k
          unfold dipTotal
          rw [e3, e2, b1]
        rw [ht, b2, e3] at this
        exact this

/-- Moments after giving up. -/
theorem dipGiveUp_spec (E : Elec K) (as : List (Atom K)) (i : Nat) (d : Dip K) :
    (dipGiveUp E as i d).eStat = d.eStat ∧ (dipGiveUp E as i d).pSr = d.pSr ∧
    (∀ j, ¬(i ≤ j ∧ j < i + as.length) → (dipGiveUp E as i d).pInd j = d.pInd j) ∧
    (∀ j a, as[j]? = some a → E.alpha a.typ ≠ 0 →
      (dipGiveUp E as i d).pInd (i + j) = fun k => E.alpha a.typ * d.eStat (i + j) k + d.pSr (i + j) k) := by
  induction as generalizing i d with
  | nil => simp [dipGiveUp]
  | cons a as ih =>
    simp only [dipGiveUp]
    generalize hd' : (if E.alpha a.typ ≠ 0 then
        { d with
          pInd := Function.update d.pInd i (fun k => E.alpha a.typ * d.eStat i k + d.pSr i k)
          eInd := Function.update d.eInd i (d.eStat i) }
      else d) = d'
    obtain ⟨h1, h2, h3, h4⟩ := ih (i + 1) d'
    have b1 : d'.eStat = d.eStat := by subst hd'; split <;> rfl
    have b2 : d'.pSr = d.pSr := by subst hd'; split <;> rfl
    have b3 : ∀ j, j ≠ i → d'.pInd j = d.pInd j := by
      intro j hj
      subst hd'
      split
      · exact Function.update_of_ne hj _ _
      · rfl
    refine ⟨h1.trans b1, h2.trans b2, ?_, ?_⟩
    · intro j hj
      rw [List.length_cons] at hj
      exact (h3 j (by omega)).trans (b3 j (by omega))
    · intro j a' ha' hα
      cases j with
      | zero =>
        simp only [List.getElem?_cons_zero, Option.some.injEq] at ha'
        subst ha'
        simp only [Nat.add_zero]
        rw [h3 i (by omega)]
        subst hd'
        rw [if_pos hα]
        exact Function.update_self _ _ _
      | succ j =>
        rw [List.getElem?_cons_succ] at ha'
        have := h4 j a' ha' hα
        rw [b1, b2] at this
        rw [show i + (j + 1) = i + 1 + j by omega]
        exact this

/-- One round. -/
theorem dipRound_spec (E : Elec K) (c : Conf K) (first : Bool) (d : Dip K) :
    (dipRound E c first d).eStat = d.eStat ∧ (dipRound E c first d).pSr = d.pSr ∧
    (∀ j, ¬(c.start ≤ j ∧ j < c.start + c.atoms.length) → (dipRound E c first d).pInd j = d.pInd j) ∧
    (∀ j a, c.atoms[j]? = some a → E.alpha a.typ ≠ 0 →
      (dipRound E c first d).pInd (c.start + j) =
        (fun k => E.alpha a.typ * dipTotal E first d (c.start + j) k + d.pSr (c.start + j) k) ∧
      (dipRound E c first d).eOld (c.start + j) = d.eInd (c.start + j) ∧
      (dipRound E c first d).eInd (c.start + j) = dipoleField E c (dipRound E c first d).pInd (c.start + j)) := by
  obtain ⟨h1, h2, h3, h4⟩ := dipMoments_spec E first c.atoms c.start d
  refine ⟨h1, h2, fun j hj => (h3 j hj).1, ?_⟩
  intro j a ha hα
  obtain ⟨e1, e2, e3⟩ := h4 j a ha hα
  refine ⟨e1, e2, ?_⟩
  show overNeigh (dipField E (dipMoments E first c.atoms c.start d).pInd) c.atoms c.start _ (c.start + j) = _
  rw [fieldLoop, e3, zero_add]
  rfl

/-- The sum of squares before the root. -/
theorem dipChange_spec (E : Elec K) (d : Dip K) (as : List (Atom K)) (i : Nat) (s : K) :
    dipChange E d as i s = s + (as.zipIdx.map fun ak => if E.alpha ak.1.typ = 0 then 0 else
      ∑ k : Fin 3, (E.alpha ak.1.typ * (d.eOld (i + ak.2) k - d.eInd (i + ak.2) k)) ^ 2).sum := by
  induction as generalizing i s with
  | nil => simp [dipChange]
  | cons a as ih =>
    simp only [dipChange]
    rw [ih, List.zipIdx_cons', List.map_cons, List.sum_cons, List.map_map]
    have : ((fun ak : Atom K × Nat => if E.alpha ak.1.typ = 0 then 0 else
        ∑ k : Fin 3, (E.alpha ak.1.typ * (d.eOld (i + ak.2) k - d.eInd (i + ak.2) k)) ^ 2) ∘ Prod.map id (· + 1)) =
        fun ak => if E.alpha ak.1.typ = 0 then 0 else
        ∑ k : Fin 3, (E.alpha ak.1.typ * (d.eOld (i + 1 + ak.2) k - d.eInd (i + 1 + ak.2) k)) ^ 2 := by
      funext ak
      simp only [Function.comp, Prod.map, id]
      rw [show i + (ak.2 + 1) = i + 1 + ak.2 by omega]
    rw [this]
    by_cases h : E.alpha a.typ = 0
    · simp [h]
    · simp only [ne_eq, h, not_false_eq_true, if_true, if_false, dsq, Fin.sum_univ_three, Nat.add_zero]
      ring

theorem dipChange_nonneg (E : Elec K) (d : Dip K) (as : List (Atom K)) (i : Nat) : 0 ≤ dipChange E d as i 0 := by
  rw [dipChange_spec, zero_add]
  generalize as.zipIdx = l
  induction l with
  | nil => simp
  | cons ak l ih =>
    rw [List.map_cons, List.sum_cons]
    refine add_nonneg ?_ ih
    split
    · exact le_refl _
    · exact Finset.sum_nonneg fun k _ => sq_nonneg _

/-- Static field and short-range moments at the atoms of the configuration after the second loop. -/
theorem elStart_fields (b : Build) (P : Pots K) (E : Elec K) (c : Conf K) (s : ElState K) (j : Nat) (hj : j < c.atoms.length) :
    (elStart b true P E c s).eStat (c.start + j) = staticField E c (c.start + j) ∧
    (elStart b true P E c s).pSr (c.start + j) = shortMoment E c (c.start + j) := by
  unfold elStart
  have hp : ∀ (l : List (Entry K)) (t : ElAcc K),
      (l.foldl (fun s e => elNeigh2 b true P E c.uf c.us e.own e.otyp s e.n) t).eStat =
        l.foldl (fun s e => statNeigh E e.own e.otyp s e.n) t.eStat ∧
      (l.foldl (fun s e => elNeigh2 b true P E c.uf c.us e.own e.otyp s e.n) t).pSr =
        l.foldl (fun s e => srNeigh E e.own e.otyp s e.n) t.pSr := by
    intro l t
    exact ⟨foldl_proj ElAcc.eStat _ _ l (fun _ _ _ => rfl) t, foldl_proj ElAcc.pSr _ _ l (fun _ _ _ => rfl) t⟩
  rw [overNeigh_eq, (hp _ _).1, (hp _ _).2]
  have h1 := statLoop E c
  have h2 := srLoop E c
  simp only [overNeigh_eq] at h1 h2
  rw [h1, h2]
  simp [hj]

end Verif.Spec
