/-
The error report of routines whose steps leave the deviations of one configuration in the force vector and return the error they make:
the state carried along (densities, dipoles) may be anything.
-/
import Verif.Lemmas.Errors
import Verif.Lemmas.FullRun
import Mathlib.Tactic.Linarith

set_option linter.unusedSectionVars false

namespace Verif.Force

open Verif.Spec

variable {K : Type*} [Field K] [LinearOrder K] [IsStrictOrderedRing K]

/-- One step writes the entries of its configuration only. -/
structure OwnEntries {τ ε : Type*} (fv : τ → FV K) (one : Nat → Conf K → τ → τ × ε) (ci : Nat) (c : Conf K) (s : τ) : Prop where
  force : ∀ x, (x < c.start ∨ c.start + c.atoms.length ≤ x) → (fv (one ci c s).1).force x = (fv s).force x
  energy : ∀ j, j ≠ ci → (fv (one ci c s).1).energy j = (fv s).energy j
  stress : ∀ j, j ≠ ci → (fv (one ci c s).1).stress j = (fv s).stress j

/-- What is in the force vector at the end, for each configuration: the entries its step left, from the state it started with. -/
theorem confLoop_states {τ ε : Type*} [AddMonoid ε] (fv : τ → FV K) (one : Nat → Conf K → τ → τ × ε) (confs : List (Conf K))
    (h : ∀ ci c s, c ∈ confs → OwnEntries fv one ci c s) : ∀ (ci off : Nat) (s : τ × ε), Starts off confs →
    (∀ x, x < off → (fv (confLoop one confs ci s).1).force x = (fv s.1).force x) ∧
    (∀ j, j < ci → (fv (confLoop one confs ci s).1).energy j = (fv s.1).energy j ∧
      (fv (confLoop one confs ci s).1).stress j = (fv s.1).stress j) ∧
    ∃ st : Nat → τ, (confLoop one confs ci s).2 = s.2 + (confs.zipIdx.map fun ck => (one (ci + ck.2) ck.1 (st ck.2)).2).sum ∧
      ∀ k c, confs[k]? = some c →
        (∀ j, j < c.atoms.length → (fv (confLoop one confs ci s).1).force (c.start + j) = (fv (one (ci + k) c (st k)).1).force (c.start + j)) ∧
        (fv (confLoop one confs ci s).1).energy (ci + k) = (fv (one (ci + k) c (st k)).1).energy (ci + k) ∧
        (fv (confLoop one confs ci s).1).stress (ci + k) = (fv (one (ci + k) c (st k)).1).stress (ci + k) := by
  induction confs with
  | nil =>
    intro ci off s _
    exact ⟨fun _ _ => rfl, fun _ _ => ⟨rfl, rfl⟩, fun _ => s.1, by simp [confLoop], by simp⟩
  | cons c cs ih =>
    intro ci off s hs
    obtain ⟨hc, hs⟩ := hs
    obtain ⟨i1, i2, st, i3, i4⟩ := ih (fun ci c' s hc => h ci c' s (List.mem_cons_of_mem _ hc)) (ci + 1) (off + c.atoms.length)
      ((one ci c s.1).1, s.2 + (one ci c s.1).2) hs
    have ho := h ci c s.1 (by simp)
    simp only [confLoop]
    refine ⟨fun x hx => ?_, fun j hj => ?_, fun k => match k with | 0 => s.1 | k + 1 => st k, ?_, fun k c' hk => ?_⟩
    · rw [i1 x (by omega), ho.force x (by omega)]
    · rw [(i2 j (by omega)).1, (i2 j (by omega)).2, ho.energy j (by omega), ho.stress j (by omega)]
      exact ⟨rfl, rfl⟩
    · rw [i3, List.zipIdx_cons, List.map_cons, List.sum_cons, List.zipIdx_succ, List.map_map, add_assoc]
      congr 2
      congr 1
      refine List.map_congr_left fun ck _ => ?_
      show (one (ci + 1 + ck.2) ck.1 (st ck.2)).2 = (one (ci + (ck.2 + 1)) ck.1 (st ck.2)).2
      rw [show ci + 1 + ck.2 = ci + (ck.2 + 1) by omega]
    · match k with
      | 0 =>
        rw [List.getElem?_cons_zero, Option.some.injEq] at hk
        subst hk
        refine ⟨fun j hj => i1 _ (by omega), (i2 ci (by omega)).1, (i2 ci (by omega)).2⟩
      | k + 1 =>
        have := i4 k c' (by simpa using hk)
        rw [show ci + 1 + k = ci + (k + 1) by omega] at this
        exact this

/-- What the steps of the routines with half neighbour lists do to the force vector, and the error they return. -/
structure Accounted {τ ε : Type*} (b : Build) (ew sw : K) (fv : τ → FV K) (pr : ε → K) (off : Conf K → K)
    (one : Nat → Conf K → τ → τ × ε) (ci : Nat) (c : Conf K) (s : τ) : Prop where
  out : ∀ x, (x < c.start ∨ c.start + c.atoms.length ≤ x) → (fv (one ci c s).1).force x = (fv s).force x
  unused : c.uf = false → ∀ j a, c.atoms[j]? = some a → (fv (one ci c s).1).force (c.start + j) = 0
  rest : ∃ (e : K) (S : Fin 6 → K), (fv (one ci c s).1).energy = Function.update (fv s).energy ci e ∧
    ((fv (one ci c s).1).stress = if b.stress then Function.update (fv s).stress ci (if c.uf && c.us then S else 0) else (fv s).stress) ∧
    pr (one ci c s).2 = (c.atoms.zipIdx.map fun ak => atomErr b c ak.1 ((fv (one ci c s).1).force (c.start + ak.2))).sum +
      c.weight * ew * e ^ 2 + (if b.stress && c.uf && c.us then ∑ k : Fin 6, c.weight * sw * S k ^ 2 else 0) + off c

theorem Accounted.own {τ ε : Type*} {b : Build} {ew sw : K} {fv : τ → FV K} {pr : ε → K} {off : Conf K → K}
    {one : Nat → Conf K → τ → τ × ε} {ci : Nat} {c : Conf K} {s : τ} (h : Accounted b ew sw fv pr off one ci c s) :
    OwnEntries fv one ci c s := by
  obtain ⟨e, S, h1, h2, -⟩ := h.rest
  refine ⟨h.out, fun j hj => ?_, fun j hj => ?_⟩
  · rw [h1, Function.update_of_ne hj]
  · rw [h2]
    split
    · rw [Function.update_of_ne hj]
    · rfl

/-- The sums which the error report prints make up the error together with what the steps add. -/
theorem reported_run {τ ε : Type*} [AddMonoid ε] (b : Build) (opt : Bool) (ew sw tot : K) (fv : τ → FV K) (pr : ε →+ K) (off : Conf K → K)
    (one : Nat → Conf K → τ → τ × ε) (confs : List (Conf K)) (hn : Numbered confs)
    (h : ∀ ci c s, c ∈ confs → Accounted b ew sw fv pr off one ci c s) (s : τ) :
    let r := writeErrors b opt ew sw confs (fv (confLoop one confs 0 (s, 0)).1) tot
    pr (confLoop one confs 0 (s, 0)).2 = r.force + r.energy + r.stress + (confs.map off).sum := by
  intro r
  obtain ⟨-, -, st, h2, h3⟩ := confLoop_states fv one confs (fun ci c s hc => (h ci c s hc).own) 0 0 (s, 0) (starts_numbered hn)
  set v := fv (confLoop one confs 0 (s, (0 : ε))).1 with hv
  have e0 : (confs.map off).sum = (confs.zipIdx.map fun ck => off ck.1).sum := by
    rw [show (fun ck : Conf K × Nat => off ck.1) = off ∘ Prod.fst from rfl, ← List.map_map, List.zipIdx_map_fst]
  show _ = forceSum b confs v + energySum ew confs v + stressSum b sw confs v + _
  rw [h2, zero_add, map_list_sum, List.map_map, forceSum_eq b hn, energySum_eq, stressSum_eq, e0, ← List.sum_map_add, ← List.sum_map_add,
    ← List.sum_map_add]
  congr 1
  refine List.map_congr_left fun ck hck => ?_
  have hk : confs[ck.2]? = some ck.1 := List.mem_zipIdx_iff_getElem?.1 hck
  have hc := List.mem_of_getElem? hk
  obtain ⟨f1, f2, f3⟩ := h3 ck.2 ck.1 hk
  obtain ⟨ho, hu, e, S, g1, g2, g3⟩ := h (0 + ck.2) ck.1 (st ck.2) hc
  rw [Nat.zero_add] at f1 f2 f3 ho hu g1 g2 g3
  simp only [Function.comp, Nat.zero_add]
  rw [g3]
  congr 1
  have hE : v.energy ck.2 = e := by rw [f2, g1, Function.update_self]
  have hF : (ck.1.atoms.zipIdx.map fun ak => atomErr b ck.1 ak.1 ((fv (one ck.2 ck.1 (st ck.2)).1).force (ck.1.start + ak.2))).sum =
      ck.1.weight * forceResidual b v ck.1 := by
    unfold forceResidual
    rw [← List.sum_map_mul_left]
    congr 1
    refine List.map_congr_left fun ak hak => ?_
    have hj := List.mem_zipIdx_iff_getElem?.1 hak
    have hlt := (List.getElem?_eq_some_iff.1 hj).1
    rw [f1 ak.2 hlt]
    unfold atomErr
    cases huf : ck.1.uf with
    | false =>
      rw [hu huf ak.2 ak.1 hj]
      simp
    | true =>
      by_cases hco : b.contrib = true ∧ ak.1.contrib = false
      · rw [if_pos hco]
        simp [hco]
      · rw [if_neg hco, if_pos (by rw [Bool.true_and]; rcases hb : b.contrib with _ | _ <;> simp_all)]
        simp only [sq3, Fin.sum_univ_three]
        ring
  have hS : (if (b.stress && ck.1.uf && ck.1.us) = true then ∑ k : Fin 6, ck.1.weight * sw * S k ^ 2 else 0) =
      if b.stress = true then ck.1.weight * sw * ∑ x : Fin 6, v.stress ck.2 x ^ 2 else 0 := by
    rw [f3, g2]
    cases b.stress with
    | false => simp
    | true =>
      simp only [if_true, Bool.true_and, Function.update_self]
      by_cases hus : (ck.1.uf && ck.1.us) = true
      · simp only [if_pos hus]
        rw [Finset.mul_sum]
      · simp only [if_neg hus]
        simp
  rw [hF, hE, hS]

end Verif.Force
