import Verif.Spec.Force
import Mathlib.Algebra.BigOperators.Group.List.Lemmas
import Mathlib.Algebra.Order.Field.Basic
import Mathlib.Tactic.Ring
import Mathlib.Tactic.Abel
import Mathlib.Tactic.FieldSimp
import Mathlib.Tactic.FinCases

set_option linter.unusedSectionVars false

namespace Verif.Force

open Verif.Spec

variable {K : Type*} [Field K] [LinearOrder K]

theorem scatter_apply (f : Nat → V3 K) (i nr : Nat) (v : V3 K) (a : Nat) :
    scatter f i nr v a = f a + ((if a = i then v else 0) - (if a = nr then v else 0)) := by
  unfold scatter addAt
  by_cases h1 : a = nr
  · subst h1
    rw [Function.update_self]
    by_cases h2 : a = i
    · subst h2
      rw [Function.update_self]
      simp
    · rw [Function.update_of_ne h2]
      simp [h2, sub_eq_add_neg]
  · rw [Function.update_of_ne h1]
    by_cases h2 : a = i
    · subst h2
      rw [Function.update_self]
      simp [h1]
    · rw [Function.update_of_ne h2]
      simp [h1, h2]

/-- A loop body that scatters a force and adds to energy and stress. -/
structure Scatters (body : Nat → Nat → Acc K → Neigh K → Acc K) (tmp : Entry K → V3 K)
    (en : Entry K → K) (st : Entry K → Fin 6 → K) : Prop where
  eq : ∀ i t s n, body i t s n =
    ⟨scatter s.force i n.nr (tmp ⟨i, t, n⟩), s.energy + en ⟨i, t, n⟩, s.stress + st ⟨i, t, n⟩, s.err⟩

/-- Contribution of an entry to atom `a`. -/
def contr (tmp : Entry K → V3 K) (a : Nat) (e : Entry K) : V3 K :=
  (if a = e.own then tmp e else 0) - (if a = e.n.nr then tmp e else 0)

theorem foldl_scatters {body : Nat → Nat → Acc K → Neigh K → Acc K} {tmp : Entry K → V3 K}
    {en : Entry K → K} {st : Entry K → Fin 6 → K} (h : Scatters body tmp en st)
    (i t : Nat) (l : List (Neigh K)) (s : Acc K) :
    l.foldl (body i t) s =
      ⟨fun a => s.force a + ((l.map fun n => (⟨i, t, n⟩ : Entry K)).map (contr tmp a)).sum,
       s.energy + ((l.map fun n => (⟨i, t, n⟩ : Entry K)).map en).sum,
       s.stress + ((l.map fun n => (⟨i, t, n⟩ : Entry K)).map st).sum, s.err⟩ := by
  induction l generalizing s with
  | nil => simp
  | cons n l ih =>
    rw [List.foldl_cons, ih, h.eq]
    simp only [List.map_cons, List.sum_cons, add_assoc]
    congr 1
    funext a
    rw [scatter_apply, add_assoc]
    rfl

/-- Whether atoms in the list own their index and reach only later atoms. -/
theorem entriesFrom_ge {i : Nat} {as : List (Atom K)} {e : Entry K}
    (he : e ∈ entriesFrom i as) : i ≤ e.own ∧ e.own < i + as.length := by
  induction as generalizing i with
  | nil => simp [entriesFrom] at he
  | cons a as ih =>
    simp only [entriesFrom, List.mem_append, List.mem_map] at he
    rcases he with ⟨n, -, rfl⟩ | he
    · simp
    · have := ih he
      simp only [List.length_cons]
      omega

theorem contr_sum_eq_zero (tmp : Entry K → V3 K) (a : Nat) (l : List (Entry K))
    (h : ∀ e ∈ l, a ≠ e.own ∧ a ≠ e.n.nr) : (l.map (contr tmp a)).sum = 0 := by
  induction l with
  | nil => rfl
  | cons e l ih =>
    have h1 := h e (by simp)
    rw [List.map_cons, List.sum_cons, ih (fun e he => h e (by simp [he]))]
    simp [contr, h1.1, h1.2]

/-- The weighted force of atom number `i`. -/
def scaled (b : Build) (uf : Bool) (a : Atom K) (v : V3 K) : V3 K :=
  if uf && b.fweight then fun k => v k / (forceEps + a.absforce) else v

theorem closeAtom_force (b : Build) (c : Conf K) (a : Atom K) (i : Nat) (s : Acc K) (x : Nat) :
    (closeAtom b c a i s).force x = if x = i then scaled b c.uf a (s.force i) else s.force x := by
  unfold closeAtom scaled
  by_cases h1 : c.uf = true
  · by_cases h2 : b.fweight = true
    · by_cases h3 : x = i
      · subst h3; simp [h1, h2]
      · simp [h1, h2, h3]
    · by_cases h3 : x = i
      · subst h3; simp [h1, h2]
      · simp [h1, h2, h3]
  · by_cases h3 : x = i
    · subst h3; simp [h1]
    · simp [h1, h3]

/-- Error contribution of one atom with (weighted) force `v`. -/
def atomErr (b : Build) (c : Conf K) (a : Atom K) (v : V3 K) : K :=
  if c.uf && (!b.contrib || a.contrib) then c.weight * sq3 v else 0

theorem closeAtom_rest (b : Build) (c : Conf K) (a : Atom K) (i : Nat) (s : Acc K) :
    (closeAtom b c a i s).energy = s.energy ∧ (closeAtom b c a i s).stress = s.stress ∧
    (closeAtom b c a i s).err = s.err + atomErr b c a (scaled b c.uf a (s.force i)) := by
  unfold closeAtom atomErr scaled
  by_cases h1 : c.uf = true
  · refine ⟨by simp [h1], by simp [h1], ?_⟩
    by_cases h2 : b.fweight = true
    · simp only [h1, h2, if_true, Bool.and_self, Function.update_self, Bool.true_and]
      split <;> simp
    · simp only [h1, h2, if_true, Bool.true_and]
      split <;> simp
  · simp [h1]

theorem zipIdx_shift {α : Type*} (as : List α) (F : α → Nat → K) (i : Nat) :
    (as.zipIdx 1).map (fun ak => F ak.1 (i + ak.2)) = as.zipIdx.map fun ak => F ak.1 (i + 1 + ak.2) := by
  rw [List.zipIdx_succ, List.map_map]
  apply List.map_congr_left
  intro ak _
  simp only [Function.comp]
  rw [show i + (ak.2 + 1) = i + 1 + ak.2 by omega]

/-- The loop over the atoms. -/
theorem forceLoop_spec {b : Build} {c : Conf K} {body : Nat → Nat → Acc K → Neigh K → Acc K}
    {tmp : Entry K → V3 K} {en : Entry K → K} {st : Entry K → Fin 6 → K}
    (h : Scatters body tmp en st) (as : List (Atom K)) (i : Nat) (s : Acc K)
    (hh : ∀ e ∈ entriesFrom i as, e.own ≤ e.n.nr) :
    let r := forceLoop b c body as i s
    (r.energy = s.energy + ((entriesFrom i as).map en).sum) ∧
    (r.stress = s.stress + ((entriesFrom i as).map st).sum) ∧
    (∀ x, (x < i ∨ i + as.length ≤ x) →
      r.force x = s.force x + ((entriesFrom i as).map (contr tmp x)).sum) ∧
    (∀ k a, as[k]? = some a →
      r.force (i + k) = scaled b c.uf a
        (s.force (i + k) + ((entriesFrom i as).map (contr tmp (i + k))).sum)) ∧
    (r.err = s.err + (as.zipIdx.map fun ak => atomErr b c ak.1 (r.force (i + ak.2))).sum) := by
  induction as generalizing i s with
  | nil => simp [forceLoop, entriesFrom]
  | cons a as ih =>
    simp only [forceLoop]
    have hh1 : ∀ e ∈ entriesFrom (i + 1) as, e.own ≤ e.n.nr := fun e he =>
      hh e (by simp [entriesFrom, he])
    have htail : ∀ x, x ≤ i → ((entriesFrom (i + 1) as).map (contr tmp x)).sum = 0 := by
      intro x hx
      refine contr_sum_eq_zero _ _ _ ?_
      intro e he
      have h1 := hh1 e he
      have h2 := entriesFrom_ge he
      omega
    obtain ⟨q1, q2, q3, q4, q5⟩ := ih (i + 1) (closeAtom b c a i (a.neigh.foldl (body i a.typ) s)) hh1
    rw [foldl_scatters h] at q1 q2 q3 q4 q5 ⊢
    obtain ⟨c1, c2, c3⟩ := closeAtom_rest b c a i
      ⟨fun x => s.force x + ((a.neigh.map fun n => (⟨i, a.typ, n⟩ : Entry K)).map (contr tmp x)).sum,
       s.energy + ((a.neigh.map fun n => (⟨i, a.typ, n⟩ : Entry K)).map en).sum,
       s.stress + ((a.neigh.map fun n => (⟨i, a.typ, n⟩ : Entry K)).map st).sum, s.err⟩
    rw [c1] at q1
    rw [c2] at q2
    rw [c3] at q5
    have hsum : ∀ x, ((entriesFrom i (a :: as)).map (contr tmp x)).sum =
        ((a.neigh.map fun n => (⟨i, a.typ, n⟩ : Entry K)).map (contr tmp x)).sum +
        ((entriesFrom (i + 1) as).map (contr tmp x)).sum := by
      intro x; simp [entriesFrom]
    have hfi : (forceLoop b c body as (i + 1) (closeAtom b c a i
        ⟨fun x => s.force x + ((a.neigh.map fun n => (⟨i, a.typ, n⟩ : Entry K)).map (contr tmp x)).sum,
         s.energy + ((a.neigh.map fun n => (⟨i, a.typ, n⟩ : Entry K)).map en).sum,
         s.stress + ((a.neigh.map fun n => (⟨i, a.typ, n⟩ : Entry K)).map st).sum, s.err⟩)).force i =
        scaled b c.uf a (s.force i + ((entriesFrom i (a :: as)).map (contr tmp i)).sum) := by
      rw [q3 i (by omega), closeAtom_force, if_pos rfl, htail i (le_refl _), add_zero, hsum,
        htail i (le_refl _), add_zero]
    refine ⟨?_, ?_, ?_, ?_, ?_⟩
    · rw [q1]; simp [entriesFrom, add_assoc]
    · rw [q2]; simp [entriesFrom, add_assoc]
    · intro x hx
      simp only [List.length_cons] at hx
      rw [q3 x (by omega), closeAtom_force, if_neg (by omega), hsum]
      exact add_assoc _ _ _
    · intro k a' hk
      cases k with
      | zero =>
        simp only [List.getElem?_cons_zero, Option.some.injEq] at hk
        subst hk
        simpa using hfi
      | succ k =>
        rw [List.getElem?_cons_succ] at hk
        have := q4 k a' hk
        rw [show i + 1 + k = i + (k + 1) by omega] at this
        rw [this, closeAtom_force, if_neg (by omega), hsum]
        congr 1
        exact add_assoc _ _ _
    · rw [q5, List.zipIdx_cons, List.map_cons, List.sum_cons, ← add_assoc]
      simp only [Nat.add_zero]
      rw [hfi]
      congr 1
      · congr 2
        rw [hsum, htail i (le_refl _), add_zero]
      · rw [← zipIdx_shift as (fun a' x => atomErr b c a' ((forceLoop b c body as (i + 1)
          (closeAtom b c a i _)).force x)) i]

variable [IsStrictOrderedRing K]

/-- Force vector of an entry as the C code computes it: half of it between an atom and its image. -/
def tmpOf (uf : Bool) (slope : Entry K → K) (e : Entry K) : V3 K := fun k =>
  if uf then e.n.distR k * (if e.n.nr = e.own then slope e * (1 / 2) else slope e) else 0

theorem contr_tmpOf (slope : Entry K → K) (e : Entry K) (a : Nat) :
    contr (tmpOf true slope) a e = forceOn slope e a := by
  unfold contr forceOn
  by_cases h : e.own = e.n.nr
  · rw [if_pos h, h, sub_self]
  · rw [if_neg h]
    have h' : ¬ e.n.nr = e.own := fun x => h x.symm
    by_cases h1 : a = e.own
    · have h2 : ¬ a = e.n.nr := by rw [h1]; exact h
      rw [if_pos h1, if_neg h2, if_pos h1, sub_zero]
      funext k
      simp [tmpOf, h']
    · by_cases h2 : a = e.n.nr
      · rw [if_neg h1, if_pos h2, if_neg h1, if_pos h2, zero_sub]
        funext k
        simp [tmpOf, h']
      · simp [h1, h2]

theorem contr_tmpOf_false (slope : Entry K → K) (e : Entry K) (a : Nat) :
    contr (tmpOf false slope) a e = 0 := by
  have : tmpOf false slope e = 0 := by funext k; simp [tmpOf]
  simp [contr, this]

/-- Stress added by an entry. -/
def stressOf (b : Build) (uf us : Bool) (slope : Entry K → K) (e : Entry K) :
    Fin 6 → K := if uf && (b.stress && us) then entryStress slope e else 0

theorem virial_tmpOf (slope : Entry K → K) (e : Entry K) :
    -virial e.n.dist (tmpOf true slope e) = entryStress slope e := by
  funext k
  unfold entryStress
  simp only [Pi.neg_apply]
  have : ∀ w, w = (if e.n.nr = e.own then slope e * (1 / 2) else slope e) →
      (if e.n.nr = e.own then slope e / 2 else slope e) = w := by
    intro w hw; rw [hw]; split <;> ring
  rw [this _ rfl]
  generalize hw : (if e.n.nr = e.own then slope e * (1 / 2) else slope e) = w
  have ht : tmpOf true slope e = fun k => e.n.distR k * w := by
    funext j; rw [← hw]; simp [tmpOf]
  rw [ht]
  fin_cases k <;> simp [virial, voigt] <;> ring

theorem pairNeigh_scatters (b : Build) (P : Pots K) (uf us : Bool) :
    Scatters (fun i _ => pairNeigh b P uf us i) (tmpOf uf (pairSlope P)) (pairEnergy P)
      (stressOf b uf us (pairSlope P)) := by
  constructor
  intro i t s n
  simp only [pairNeigh]
  by_cases hr : n.r < P.fin n.col0
  · rw [if_pos hr]
    have hen : (if n.nr = i then P.val n.col0 n.r * (1 / 2) else P.val n.col0 n.r) =
        pairEnergy P ⟨i, t, n⟩ := by
      simp only [pairEnergy, hr, if_true]
      split <;> ring
    by_cases huf : uf = true
    · subst huf
      have htmp : (fun k => n.distR k * (if n.nr = i then P.grad n.col0 n.r * (1 / 2)
          else P.grad n.col0 n.r)) = tmpOf true (pairSlope P) ⟨i, t, n⟩ := by
        funext k
        simp [tmpOf, pairSlope, hr]
      simp only [if_true, hen, htmp]
      congr 1
      have hv := virial_tmpOf (pairSlope P) ⟨i, t, n⟩
      by_cases hs : (b.stress && us) = true
      · simp only [hs, if_true, stressOf, Bool.and_self]
        rw [← hv, sub_eq_add_neg]
      · simp [hs, stressOf]
    · have h0 : tmpOf uf (pairSlope P) ⟨i, t, n⟩ = 0 := by funext k; simp [tmpOf, huf]
      have h1 : scatter s.force i n.nr (0 : V3 K) = s.force := by
        funext a; rw [scatter_apply]; simp
      rw [h0, h1, ← hen]
      simp [stressOf, huf]
  · rw [if_neg hr]
    have h0 : tmpOf uf (pairSlope P) ⟨i, t, n⟩ = 0 := by funext k; simp [tmpOf, pairSlope, hr]
    have h1 : scatter s.force i n.nr (0 : V3 K) = s.force := by
      funext a; rw [scatter_apply]; simp
    have h2 : stressOf b uf us (pairSlope P) ⟨i, t, n⟩ = 0 := by
      unfold stressOf
      split
      · funext k; simp [entryStress, pairSlope, hr]
      · rfl
    rw [h0, h1, h2]
    simp [pairEnergy, hr]

end Verif.Force
