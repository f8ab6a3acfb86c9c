/-
C15  Sampled analytic potentials are always up to date.
-/
import Verif.Lemmas.Apot
import Mathlib.Algebra.Order.Ring.Rat
import Mathlib.Data.Rat.Defs
import Mathlib.Tactic.NormNum

namespace Verif.Props

open Verif.Apot Verif.Spec

variable {K : Type*} [Field K] [LinearOrder K] [IsStrictOrderedRing K]

theorem IsSample_of_sampleAt {p : Pot K} {x : K} {xi : Nat → K} {o : Nat} {y : K}
    (hsm : p.smooth = true → 1 ≤ p.nPar) (hne : p.smooth = true → xi (o + 1 + p.nPar) ≠ 0)
    (h : sampleAt p x (params xi (o + 2) p.nPar) (xi (o + 1 + p.nPar)) = .ok y) :
    IsSample p x (params xi (o + 2) p.nPar) y := by
  unfold sampleAt at h
  cases hf : p.fvalue x (params xi (o + 2) p.nPar) with
  | error e => rw [hf] at h; cases h
  | ok f =>
    rw [hf] at h
    refine ⟨f, hf, ?_⟩
    by_cases hs : p.smooth = true
    · rw [if_pos hs]
      simp only [bind, Except.bind, hs, if_true] at h
      have h1 := hsm hs
      refine ⟨xi (o + 1 + p.nPar), ?_, hne hs, ?_⟩
      · unfold params
        rw [List.getLast?_eq_getElem?]
        simp only [List.length_map, List.length_range, List.getElem?_map]
        rw [List.getElem?_range (by omega)]
        simp only [Option.map_some, Option.some.injEq]
        congr 1
        omega
      · unfold apotCutoff at h
        by_cases hx : 0 ≤ x - p.endR
        · rw [if_pos (by linarith)]
          simp only [hx, if_true, Except.ok.injEq, mul_zero] at h
          exact h.symm
        · rw [if_neg (by intro h2; exact hx (by linarith))]
          have hq : (0 : K) < 1 + (x - p.endR) / xi (o + 1 + p.nPar) * ((x - p.endR) / xi (o + 1 + p.nPar))
              * ((x - p.endR) / xi (o + 1 + p.nPar) * ((x - p.endR) / xi (o + 1 + p.nPar))) := by
            have := mul_self_nonneg ((x - p.endR) / xi (o + 1 + p.nPar) * ((x - p.endR) / xi (o + 1 + p.nPar)))
            linarith
          simp only [hx, if_false, bind, Except.bind, cdiv_ok (hne hs), cdiv_ok hq.ne',
            Except.ok.injEq] at h
          rw [← h]
          ring
    · rw [if_neg hs]
      simp only [bind, Except.bind, hs] at h
      simpa using h.symm

/-- A history: the objective is evaluated for the parameter vectors `hist`, one after the other; the
change cache and the sampled table are carried along.  An error exit ends the program. -/
def runHistory (steps : Nat) (xcoord : Nat → K) (pots : List (Pot K)) (gidx : Nat)
    (globals : List (List (Nat × Nat))) :
    List (Nat → K) → (Nat → K) × (Nat → K) → Except Fault ((Nat → K) × (Nat → K))
  | [], c => .ok c
  | xi :: hist, c => do
    let s ← updateCalcTable steps xcoord pots gidx globals false xi c.1 c.2
    runHistory steps xcoord pots gidx globals hist (s.list, s.tab)

/-- Cache and table fit together for every non-invariant potential. -/
def Coherent (steps : Nat) (xcoord : Nat → K) (pots : List (Pot K)) (list tab : Nat → K) : Prop :=
  ∀ t p, pots[t]? = some p → p.invar = false → FreshAt steps xcoord p t (off pots t) list tab

omit [IsStrictOrderedRing K] in
theorem update_coherent {steps : Nat} {xcoord : Nat → K} {pots : List (Pot K)} {gidx : Nat}
    {globals : List (List (Nat × Nat))} (hsm : ∀ p ∈ pots, p.smooth = true → 1 ≤ p.nPar)
    {doAll : Bool} {xi list tab : Nat → K} {s : Tabs K}
    (hc : doAll = true ∨ Coherent steps xcoord pots list tab)
    (hr : updateCalcTable steps xcoord pots gidx globals doAll xi list tab = .ok s) :
    Coherent steps xcoord pots s.list s.tab ∧
    (∀ t p, pots[t]? = some p → (doAll = true ∨ p.invar = false) →
      FreshAt steps xcoord p t (off pots t) (copyGlobals pots gidx globals xi) s.tab) := by
  obtain ⟨-, -, h⟩ := updatePots_spec pots hsm hr
  simp only [Nat.zero_add] at h
  have h2 : ∀ t p, pots[t]? = some p → (doAll = true ∨ p.invar = false) →
      FreshAt steps xcoord p t (off pots t) (copyGlobals pots gidx globals xi) s.tab := by
    intro t p hp hd
    refine (h t p hp).2 ?_
    rcases hc with hc | hc
    · exact Or.inl hc
    · rcases hd with hd | hd
      · exact Or.inl hd
      · exact Or.inr ⟨hd, hc t p hp hd⟩
  refine ⟨?_, h2⟩
  intro t p hp hinv
  exact (h2 t p hp (Or.inr hinv)).congr (hsm p (List.mem_of_getElem? hp))
    (fun j hj => ((h t p hp).1 j hj).symm) (fun _ _ => rfl)

/-- After the program start (`update_calc_table` with `do_all`, `src/potfit.c` 110) and any history of
evaluations, the sampled table of every non-invariant potential consists of the values of the
analytic function at the sampling points for the effective parameters of the vector evaluated last:
its own entries, and for references the entry of the global parameter. -/
theorem C15_fresh {steps : Nat} {xcoord : Nat → K} {pots : List (Pot K)} {gidx : Nat}
    {globals : List (List (Nat × Nat))} (hsm : ∀ p ∈ pots, p.smooth = true → 1 ≤ p.nPar)
    (hg : GoodGlobals pots gidx globals)
    (start list0 tab0 : Nat → K) (s0 : Tabs K)
    (h0 : updateCalcTable steps xcoord pots gidx globals true start list0 tab0 = .ok s0)
    (hist : List (Nat → K)) (c : (Nat → K) × (Nat → K))
    (hh : runHistory steps xcoord pots gidx globals hist (s0.list, s0.tab) = .ok c)
    (xi : Nat → K) (s : Tabs K)
    (hr : updateCalcTable steps xcoord pots gidx globals false xi c.1 c.2 = .ok s)
    (t : Nat) (p : Pot K) (hp : pots[t]? = some p) (hinv : p.invar = false) :
    ∃ val : List K, val.length = p.nPar ∧
      (∀ n v, val[n]? = some v → IsEffective pots gidx globals xi t n v) ∧
      ∀ j < steps, IsSample p (xcoord (samplePos steps t j)) val (s.tab (samplePos steps t j)) := by
  have hcoh : Coherent steps xcoord pots c.1 c.2 := by
    have := (update_coherent hsm (Or.inl rfl) h0).1
    clear h0 hr
    revert this hh
    generalize s0.list = l
    generalize s0.tab = b
    induction hist generalizing l b with
    | nil =>
      intro hh h1
      simp only [runHistory, Except.ok.injEq] at hh
      subst hh
      exact h1
    | cons x hist ih =>
      intro hh h1
      simp only [runHistory] at hh
      cases hu : updateCalcTable steps xcoord pots gidx globals false x l b with
      | error e => rw [hu] at hh; cases hh
      | ok s1 =>
        rw [hu] at hh
        exact ih _ _ hh (update_coherent hsm (Or.inr h1) hu).1
  have hfr := (update_coherent hsm (Or.inr hcoh) hr).2 t p hp (Or.inr hinv)
  refine ⟨params (copyGlobals pots gidx globals xi) (off pots t + 2) p.nPar, by simp [params], ?_, ?_⟩
  · intro n v hv
    unfold params at hv
    rw [List.getElem?_map, Option.map_eq_some_iff] at hv
    obtain ⟨m, hm, rfl⟩ := hv
    obtain ⟨hn, rfl⟩ := List.getElem?_eq_some_iff.1 hm
    simp only [List.length_range] at hn
    simp only [List.getElem_range]
    have := copyGlobals_spec hg xi hp hn
    rwa [optFirst_eq_off, Nat.add_comm 2 (off pots t)] at this
  · intro j hj
    exact IsSample_of_sampleAt (hsm p (List.mem_of_getElem? hp)) (hfr j hj).1 (hfr j hj).2

/-- The effective parameters are determined by the vector: the conclusion of `C15_fresh` leaves no
choice of `val`. -/
theorem C15_effective_unique {pots : List (Pot K)} {gidx : Nat} {globals : List (List (Nat × Nat))}
    (hg : GoodGlobals pots gidx globals) (xi : Nat → K) (m n : Nat) (v w : K)
    (hv : IsEffective pots gidx globals xi m n v) (hw : IsEffective pots gidx globals xi m n w) :
    v = w := by
  rcases hv with ⟨g, l, h1, h2, rfl⟩ | ⟨h1, rfl⟩ <;> rcases hw with ⟨g', l', h3, h4, rfl⟩ | ⟨h3, rfl⟩
  · obtain ⟨hg1, rfl⟩ := List.getElem?_eq_some_iff.1 h1
    obtain ⟨hg2, rfl⟩ := List.getElem?_eq_some_iff.1 h3
    have hd := List.pairwise_iff_getElem.1 hg.disjoint
    rcases Nat.lt_trichotomy g g' with h | rfl | h
    · exact absurd h4 (hd g g' hg1 hg2 h _ h2)
    · rfl
    · exact absurd h2 (hd g' g hg2 hg1 h _ h4)
  · exact absurd h2 (h3 l (List.mem_of_getElem? h1))
  · exact absurd h4 (h1 l' (List.mem_of_getElem? h3))
  · rfl

/-- Two potentials sharing a global parameter: `f = a*x` (with cutoff parameter `h`) and
`f = b + x` with `b` global. -/
def examplePots : List (Pot ℚ) :=
  [⟨2, true, false, 3, fun x v => .ok ((v.headD 0) * x), fun _ => 7⟩,
   ⟨1, false, false, 3, fun x v => .ok ((v.headD 0) + x), fun _ => 8⟩]

example : (∀ p ∈ examplePots, p.smooth = true → 1 ≤ p.nPar) ∧
    GoodGlobals examplePots 7 [[(0, 0), (1, 0)]] := by
  refine ⟨by decide, ⟨?_, by decide, by decide⟩⟩
  intro l hl mn hmn
  simp only [List.mem_singleton] at hl
  subst hl
  simp only [List.mem_cons, List.not_mem_nil, or_false] at hmn
  rcases hmn with rfl | rfl
  · exact ⟨_, rfl, by decide⟩
  · exact ⟨_, rfl, by decide⟩

/-- Start with global value 5, then evaluate with global value 6: the second potential is sampled as
`6 + x`. -/
example :
    (match updateCalcTable 2 (fun k => (k : ℚ)) examplePots 7 [[(0, 0), (1, 0)]] true
        (fun k => if k = 7 then 5 else 1) (fun _ => 0) (fun _ => 0) with
     | .ok s =>
       match updateCalcTable 2 (fun k => (k : ℚ)) examplePots 7 [[(0, 0), (1, 0)]] false
        (fun k => if k = 7 then 6 else 1) s.list s.tab with
       | .ok s => [s.tab 2, s.tab 3, s.tab 6, s.tab 7]
       | .error _ => []
     | .error _ => []) = [6, 0, 12, 13] := by decide +kernel

end Verif.Props
