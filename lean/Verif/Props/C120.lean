/-
C120  Differential evolution: control parameters, trial vectors, selection and the criterion for the end.

Every individual carries its own factor `F` and crossover rate `CR`.  With random numbers `u` from [0, 1) the factor is drawn as
`0.1 + 0.9 u`, anew with probability 0.1 in each generation; the rate likewise as `u`.  A trial takes parameters of
`best + F (a - b)`, brought back to the bounds; it replaces the individual if it is not worse.
-/
import Verif.Props.C55
import Mathlib.Tactic.Linarith
import Mathlib.Tactic.Ring

set_option linter.unusedSectionVars false

namespace Verif.Props

open Verif.DiffEvo

variable {K : Type*} [Field K] [LinearOrder K] [IsStrictOrderedRing K] {σ : Type*} {d N : Nat}

/-! ### Specification -/

/-- Random numbers are in [0, 1). -/
def UnitDraws (E : Env K σ d N) : Prop := ∀ s, 0 ≤ (E.draw s).2 ∧ (E.draw s).2 < 1

/-- `F` and `CR` are in their intervals. -/
structure Steered (p : Ind K d) : Prop where
  f0 : 1 / 10 ≤ p.f
  f1 : p.f < 1
  c0 : 0 ≤ p.cr
  c1 : p.cr < 1

/-- The factor: its value and the number of random numbers used. -/
def newFactor (u : Nat → K) (old : K) : K × Nat := if u 0 < 1 / 10 then (1 / 10 + 9 / 10 * u 1, 2) else (old, 1)

/-- The crossover rate: its value and the number of random numbers used. -/
def newRate (u : Nat → K) (old : K) : K × Nat := if u 0 < 1 / 10 then (u 1, 2) else (old, 1)

/-- Nearest value within the bounds. -/
def within (lo hi v : K) : K := max lo (min hi v)

/-! ### Random numbers -/

/-- The state after `n` numbers. -/
def drawState (draw : σ → σ × K) : σ → Nat → σ
  | s, 0 => s
  | s, n + 1 => drawState draw (draw s).1 n

theorem drawNo_state (draw : σ → σ × K) (s : σ) (m n : Nat) : drawNo draw (drawState draw s m) n = drawNo draw s (m + n) := by
  induction m generalizing s with
  | zero => rw [Nat.zero_add]; rfl
  | succ m ih => rw [drawState, ih, Nat.succ_add]; rfl

theorem drawNo_range {E : Env K σ d N} (h : UnitDraws E) (s : σ) (n : Nat) : 0 ≤ drawNo E.draw s n ∧ drawNo E.draw s n < 1 := by
  induction n generalizing s with
  | zero => exact h s
  | succ n ih => exact ih _

theorem drawState_add (draw : σ → σ × K) (s : σ) (m n : Nat) : drawState draw (drawState draw s m) n = drawState draw s (m + n) := by
  induction m generalizing s with
  | zero => rw [Nat.zero_add]; rfl
  | succ m ih => rw [drawState, ih, Nat.succ_add]; rfl

/-- The step of adaption. -/
theorem adapt_eq (E : Env K σ d N) (s : σ) (p : Ind K d) :
    let u := drawNo E.draw s
    let f := newFactor u p.f
    let c := newRate (fun n => u (f.2 + n)) p.cr
    E.adapt s p = (drawState E.draw s (f.2 + c.2), f.1, c.1) := by
  intro u f c
  have h0 : u 0 = (E.draw s).2 := rfl
  have h1 : u 1 = (E.draw (E.draw s).1).2 := rfl
  by_cases hf : (E.draw s).2 < 1 / 10
  · have ef : f = (1 / 10 + (E.draw (E.draw s).1).2 * (9 / 10), 2) := by
      show newFactor u p.f = _
      unfold newFactor
      rw [h0, if_pos hf, h1, mul_comm]
    by_cases hc : (E.draw (E.draw (E.draw s).1).1).2 < 1 / 10
    · have ec : c = ((E.draw (E.draw (E.draw (E.draw s).1).1).1).2, 2) := by
        show newRate (fun n => u (f.2 + n)) p.cr = _
        unfold newRate
        rw [ef, if_pos (show u 2 < 1 / 10 from hc)]
        rfl
      rw [ef, ec]
      unfold Env.adapt
      simp only [if_pos hf, if_pos hc]
      rfl
    · have ec : c = (p.cr, 1) := by
        show newRate (fun n => u (f.2 + n)) p.cr = _
        unfold newRate
        rw [ef, if_neg (show ¬ u 2 < 1 / 10 from hc)]
      rw [ef, ec]
      unfold Env.adapt
      simp only [if_pos hf, if_neg hc]
      rfl
  · have ef : f = (p.f, 1) := by
      show newFactor u p.f = _
      unfold newFactor
      rw [h0, if_neg hf]
    by_cases hc : (E.draw (E.draw s).1).2 < 1 / 10
    · have ec : c = ((E.draw (E.draw (E.draw s).1).1).2, 2) := by
        show newRate (fun n => u (f.2 + n)) p.cr = _
        unfold newRate
        rw [ef, if_pos (show u 1 < 1 / 10 from hc)]
        rfl
      rw [ef, ec]
      unfold Env.adapt
      simp only [if_neg hf, if_pos hc]
      rfl
    · have ec : c = (p.cr, 1) := by
        show newRate (fun n => u (f.2 + n)) p.cr = _
        unfold newRate
        rw [ef, if_neg (show ¬ u 1 < 1 / 10 from hc)]
      rw [ef, ec]
      unfold Env.adapt
      simp only [if_neg hf, if_neg hc]
      rfl

theorem mutate_within {E : Env K σ d N} (j : Fin N) (hlh : E.lo j ≤ E.hi j) (best a b : Fin d → K) (f : K) :
    E.mutate best a b f j =
      if E.apot = true then within (E.lo j) (E.hi j) (best (E.idx j) + f * (a (E.idx j) - b (E.idx j)))
      else best (E.idx j) + f * (a (E.idx j) - b (E.idx j)) := by
  unfold Env.mutate within
  simp only
  generalize best (E.idx j) + f * (a (E.idx j) - b (E.idx j)) = v
  by_cases ha : E.apot = true
  · rw [if_pos ha, if_pos ha]
    by_cases h1 : v > E.hi j
    · rw [if_pos h1, min_eq_left h1.le, max_eq_right hlh]
    · rw [if_neg h1]
      have h1 := not_lt.1 h1
      by_cases h2 : v < E.lo j
      · rw [if_pos h2, min_eq_right h1, max_eq_left h2.le]
      · rw [if_neg h2, min_eq_right h1, max_eq_right (not_lt.1 h2)]
  · rw [if_neg ha, if_neg ha]

/-! ### Trial vectors -/

/-- **Trial vectors.** From the state `s` behind the choice of two individuals `pa`, `pb` and the first parameter `j0`, with the random
numbers `u`: factor and rate are adapted, and each free parameter is taken from the mutant or the individual itself (for the second condition
see C55); all other entries are those of the last trial. -/
theorem C120_trial [NeZero N] (E : Env K σ d N) (hinj : Function.Injective E.idx) (hlh : ∀ j, E.lo j ≤ E.hi j)
    (pop : List (Ind K d)) (i : Nat) (p : Ind K d) (st : St K σ d) (s1 s : σ) (a b : Nat) (j0 : Fin N) (pa pb : Ind K d)
    (hpick : E.pick st.rng i = (s1, a, b)) (hj : E.pickJ s1 = (s, j0)) (ha : pop[a]? = some pa) (hb : pop[b]? = some pb) :
    let u := drawNo E.draw s
    let f := newFactor u p.f
    let c := newRate (fun n => u (f.2 + n)) p.cr
    let t := (E.mkTrial pop i p st).2
    t.f = f.1 ∧ t.cr = c.1 ∧
    (∀ j : Fin N, t.x (E.idx j) =
      if u (f.2 + c.2 + turn N j0 j) < c.1 ∨ (j0.val = 1 ∧ 1 ≤ j.val) then
        (let v := st.best.x (E.idx j) + f.1 * (pa.x (E.idx j) - pb.x (E.idx j))
         if E.apot = true then within (E.lo j) (E.hi j) v else v)
      else p.x (E.idx j)) ∧
    ∀ k, (∀ j, E.idx j ≠ k) → t.x k = st.trial k := by
  intro u f c t
  have ea : pop.getD a p = pa := by rw [List.getD_eq_getElem?_getD, ha]; rfl
  have eb : pop.getD b p = pb := by rw [List.getD_eq_getElem?_getD, hb]; rfl
  have had : E.adapt s p = (drawState E.draw s (f.2 + c.2), f.1, c.1) := adapt_eq E s p
  have ht : t = ⟨(E.cross st.best.x pa.x pb.x p.x f.1 c.1 N 1 j0 (drawState E.draw s (f.2 + c.2)) st.trial).2, f.1, c.1⟩ := by
    show (E.mkTrial pop i p st).2 = _
    unfold Env.mkTrial
    simp only [hpick, hj, ea, eb, had]
  rw [ht]
  refine ⟨rfl, rfl, fun j => ?_, fun k hk => cross_other E _ _ _ _ _ _ k hk _ _ _ _ _⟩
  show (E.cross st.best.x pa.x pb.x p.x f.1 c.1 N 1 j0 (drawState E.draw s (f.2 + c.2)) st.trial).2 (E.idx j) = _
  rw [C55_code E hinj, drawNo_state, mutate_within j (hlh j)]

/-! ### Control parameters -/

theorem adapt_steered {E : Env K σ d N} (hu : UnitDraws E) (s : σ) {p : Ind K d} (h : Steered p) (x : Fin d → K) :
    Steered ⟨x, (E.adapt s p).2.1, (E.adapt s p).2.2⟩ := by
  have e := adapt_eq E s p
  simp only at e
  rw [e]
  have hf : 1 / 10 ≤ (newFactor (drawNo E.draw s) p.f).1 ∧ (newFactor (drawNo E.draw s) p.f).1 < 1 := by
    unfold newFactor
    have := drawNo_range hu s 1
    split
    · constructor <;> dsimp only <;> linarith
    · exact ⟨h.f0, h.f1⟩
  have hc : ∀ k, 0 ≤ (newRate (fun n => drawNo E.draw s (k + n)) p.cr).1 ∧ (newRate (fun n => drawNo E.draw s (k + n)) p.cr).1 < 1 := by
    intro k
    unfold newRate
    split
    · exact drawNo_range hu s (k + 1)
    · exact ⟨h.c0, h.c1⟩
  exact ⟨hf.1, hf.2, (hc _).1, (hc _).2⟩

/-- Invariant between generations. -/
structure SteerOk (E : Env K σ d N) (g : Gen K σ d) : Prop where
  len : g.rows.pop.length = np d
  costs : CostsOf E g.rows
  pop : ∀ p ∈ g.rows.pop, Steered p

theorem one_steered [NeZero N] {E : Env K σ d N} (hu : UnitDraws E) (pop : List (Ind K d)) (i : Nat) (p : Ind K d) (c : K)
    (st : St K σ d) (hp : Steered p) (hc : Evaluated E c p) :
    Evaluated E (E.one pop i p c st).1.2 (E.one pop i p c st).1.1 ∧ Steered (E.one pop i p c st).1.1 := by
  have ht : Steered (E.mkTrial pop i p st).2 := adapt_steered hu _ hp _
  unfold Env.one
  simp only
  generalize E.mkTrial pop i p st = t at ht
  split
  · exact ⟨⟨t.2.x, rfl, rfl⟩, ⟨ht.f0, ht.f1, ht.c0, ht.c1⟩⟩
  · exact ⟨hc, hp⟩

theorem sweep_steered [NeZero N] {E : Env K σ d N} (hu : UnitDraws E) (pop : List (Ind K d)) (i : Nat) (ps : List (Ind K d))
    (cs : List K) (st : St K σ d) (hc : CostsOf E ⟨cs, ps⟩) (hp : ∀ p ∈ ps, Steered p) :
    let r := E.sweep pop i ps cs st
    CostsOf E r.1 ∧ r.1.pop.length = ps.length ∧ ∀ p ∈ r.1.pop, Steered p := by
  induction ps generalizing i st cs with
  | nil =>
    unfold Env.sweep
    exact ⟨⟨rfl, by simp⟩, rfl, by simp⟩
  | cons p ps ih =>
    cases cs with
    | nil => exact absurd hc.1 (by simp)
    | cons c cs =>
      have hc' : Evaluated E c p := hc.2 (c, p) (by simp)
      obtain ⟨h1, h2⟩ := one_steered hu pop i p c st (hp p (by simp)) hc'
      unfold Env.sweep
      simp only
      obtain ⟨g1, g2, g3⟩ := ih (i + 1) cs (E.one pop i p c st).2
        ⟨by have := hc.1; simpa using this, fun a ha => hc.2 a (by simp [ha])⟩ (fun q hq => hp q (List.mem_cons_of_mem _ hq))
      refine ⟨⟨by simp [g1.1], ?_⟩, by simp [g2], ?_⟩
      · intro a ha
        simp only [List.zip_cons_cons, List.mem_cons] at ha
        rcases ha with rfl | ha
        · exact h1
        · exact g1.2 a ha
      · intro q hq
        rcases List.mem_cons.1 hq with rfl | hq
        · exact h2
        · exact g3 q hq

theorem opposites_steered {E : Env K σ d N} (init : Bool) (pop : List (Ind K d)) (hp : ∀ p ∈ pop, Steered p) :
    ∀ p ∈ E.opposites init pop, Steered p := by
  intro q hq
  unfold Env.opposites at hq
  split at hq <;>
  · obtain ⟨p, hpm, rfl⟩ := List.mem_map.1 hq
    exact ⟨(hp p hpm).f0, (hp p hpm).f1, (hp p hpm).c0, (hp p hpm).c1⟩

theorem check_steered {E : Env K σ d N} (init : Bool) (r : Rows K (Ind K d)) (hl : r.pop.length = np d) (hc : CostsOf E r)
    (hp : ∀ p ∈ r.pop, Steered p) : ∀ p ∈ (E.oppositeCheck init r).pop, Steered p := by
  intro p hpm
  rcases (C32_survivors E init r hl hc).2.2 p hpm with h | ⟨q, h, rfl⟩
  · exact hp p h
  · have := opposites_steered init r.pop hp q h
    exact ⟨this.f0, this.f1, this.c0, this.c1⟩

theorem generation_steered [NeZero N] {E : Env K σ d N} (hu : UnitDraws E) {g : Gen K σ d} (h : SteerOk E g) :
    SteerOk E (E.generation g) := by
  have hs := sweep_steered hu g.rows.pop 0 g.rows.pop g.rows.cost { g.st with maxCost := 0 } h.costs h.pop
  unfold Env.generation
  simp only at hs ⊢
  generalize E.sweep g.rows.pop 0 g.rows.pop g.rows.cost { g.st with maxCost := 0 } = r at hs
  obtain ⟨h1, h2, h3⟩ := hs
  rw [h.len] at h2
  split
  · split
    · have hsv := C32_survivors E false r.1 h2 h1
      have hbx := check_steered false r.1 h2 h1 h3
      split
      · exact ⟨hsv.1, hsv.2.1, hbx⟩
      · exact ⟨hsv.1, hsv.2.1, hbx⟩
    · exact ⟨h2, h1, h3⟩
  · exact ⟨h2, h1, h3⟩

theorem copies_steered {E : Env K σ d N} (hu : UnitDraws E) (xi : Fin d → K) (n : Nat) (s : σ) :
    ∀ p ∈ (E.copies xi n s).2, Steered p := by
  induction n generalizing s with
  | zero => simp [Env.copies]
  | succ n ih =>
    unfold Env.copies
    simp only [List.mem_cons]
    rintro p (rfl | hp)
    · have h1 := hu s
      have h2 := hu (E.draw s).1
      exact ⟨by dsimp only; linarith, by dsimp only; linarith, h2.1, h2.2⟩
    · exact ih _ p hp

theorem initRows_steered {E : Env K σ d N} (xi : Fin d → K) (l : List (Ind K d)) (hl : ∀ p ∈ l, Steered p) (s : σ) :
    (∀ p ∈ (E.initRows xi s l).2, Steered p) ∧ (E.initRows xi s l).2.length = l.length := by
  induction l generalizing s with
  | nil => simp [Env.initRows]
  | cons p l ih =>
    unfold Env.initRows
    simp only [List.mem_cons, List.length_cons]
    have h := ih (fun q hq => hl q (List.mem_cons_of_mem _ hq)) (E.initRow xi s p.x).1
    refine ⟨?_, by rw [h.2]⟩
    rintro q (rfl | hq)
    · have := hl p (by simp)
      exact ⟨this.f0, this.f1, this.c0, this.c1⟩
    · exact h.1 q hq

theorem start_steered {E : Env K σ d N} (hu : UnitDraws E) (rng : σ) (xi : Fin d → K) : SteerOk E (E.start rng xi) := by
  unfold Env.start
  simp only
  suffices h : (E.initPop xi rng).2.1.pop.length = np d ∧ CostsOf E (E.initPop xi rng).2.1 ∧
      ∀ p ∈ (E.initPop xi rng).2.1.pop, Steered p from ⟨h.1, h.2.1, h.2.2⟩
  unfold Env.initPop
  simp only
  have hc1 := copies_steered hu xi (np d) rng
  have hc2 := (copies_spec E xi (np d) rng).2
  generalize E.copies xi (np d) rng = c at hc1 hc2
  obtain ⟨h1, h2⟩ := initRows_steered (E := E) xi (c.2.drop 1) (fun p hp => hc1 p (List.mem_of_mem_drop hp)) c.1
  generalize E.initRows xi c.1 (c.2.drop 1) = t at h1 h2
  have hlen : (c.2.take 1 ++ t.2).length = np d := by
    rw [List.length_append, h2, List.length_take, List.length_drop, hc2]
    have : 1 ≤ np d := by unfold np; omega
    omega
  have hst : ∀ p ∈ c.2.take 1 ++ t.2, Steered p := by
    intro p hp
    rcases List.mem_append.1 hp with hp | hp
    · exact hc1 p (List.mem_of_mem_take hp)
    · exact h1 p hp
  generalize c.2.take 1 ++ t.2 = pop at hlen hst
  have hlen' : (pop.map E.after).length = np d := by rw [List.length_map, hlen]
  have hst' : ∀ p ∈ pop.map E.after, Steered p := by
    intro p hp
    obtain ⟨q, hq, rfl⟩ := List.mem_map.1 hp
    exact ⟨(hst q hq).f0, (hst q hq).f1, (hst q hq).c0, (hst q hq).c1⟩
  split
  · have hsv := C32_survivors E true ⟨pop.map fun p : Ind K d => E.obj p.x, pop.map E.after⟩ hlen' (costsOf_after E pop)
    exact ⟨hsv.1, hsv.2.1, check_steered true _ hlen' (costsOf_after E pop) hst'⟩
  · exact ⟨hlen', costsOf_after E pop, hst'⟩

/-- **Control parameters.** In every generation there are `15 (d + 2)` individuals, all with `F` in [0.1, 1) and `CR` in [0, 1). -/
theorem C120_control [NeZero N] (E : Env K σ d N) (hu : UnitDraws E) (rng : σ) (xi : Fin d → K) (n : Nat) :
    let g := E.generation^[n] (E.start rng xi)
    g.rows.pop.length = 15 * (d + 2) ∧ ∀ p ∈ g.rows.pop, 1 / 10 ≤ p.f ∧ p.f < 1 ∧ 0 ≤ p.cr ∧ p.cr < 1 := by
  have h : SteerOk E (E.generation^[n] (E.start rng xi)) := by
    induction n with
    | zero => exact start_steered hu rng xi
    | succ n ih =>
      rw [Function.iterate_succ_apply']
      exact generation_steered hu ih
  exact ⟨h.len, fun p hp => ⟨(h.pop p hp).f0, (h.pop p hp).f1, (h.pop p hp).c0, (h.pop p hp).c1⟩⟩

/-! ### Jumps -/

/-- Rate of jumps after `m` reductions. -/
theorem C120_jumps [NeZero N] (E : Env K σ d N) (rng : σ) (xi : Fin d → K) (n : Nat) :
    let g := E.generation^[n] (E.start rng xi)
    g.count = n ∧ g.jumpSteps ≤ 10 ∧ ∃ m, 11 * m + g.jumpSteps ≤ n ∧ g.jumpRate = 6 / 10 * (9 / 10) ^ m := by
  induction n with
  | zero => exact ⟨rfl, Nat.zero_le _, 0, le_rfl, by simp [Env.start]⟩
  | succ n ih =>
    rw [Function.iterate_succ_apply']
    obtain ⟨h1, h2, m, h3, h4⟩ := ih
    generalize E.generation^[n] (E.start rng xi) = g at h1 h2 h3 h4
    unfold Env.generation
    simp only
    split
    · split
      · split
        · next hj =>
          refine ⟨by simp [h1], Nat.zero_le _, m + 1, ?_, ?_⟩
          · dsimp only; omega
          · dsimp only; rw [h4, pow_succ]; ring
        · next hj => exact ⟨by simp [h1], by dsimp only; omega, m, by dsimp only; omega, h4⟩
      · exact ⟨by simp [h1], h2, m, by dsimp only; omega, h4⟩
    · exact ⟨by simp [h1], h2, m, by dsimp only; omega, h4⟩

/-! ### Selection -/

/-- What one pass over the population leaves: row by row. -/
theorem sweep_rows [NeZero N] (E : Env K σ d N) (pop : List (Ind K d)) (i : Nat) (ps : List (Ind K d)) (cs : List K) (st : St K σ d)
    (hl : cs.length = ps.length) :
    let r := E.sweep pop i ps cs st
    r.1.cost.length = cs.length ∧ r.1.pop.length = ps.length ∧
    (∀ k < cs.length, ∃ p c p' c', ps[k]? = some p ∧ cs[k]? = some c ∧ r.1.pop[k]? = some p' ∧ r.1.cost[k]? = some c' ∧ c' ≤ c ∧
      (p' = p ∧ c' = c ∨ ∃ st', p' = E.after (E.mkTrial pop (i + k) p st').2 ∧ c' = E.obj (E.mkTrial pop (i + k) p st').2.x)) ∧
    (∀ c ∈ r.1.cost, c ≤ r.2.maxCost) ∧ st.maxCost ≤ r.2.maxCost ∧ (r.2.maxCost = st.maxCost ∨ r.2.maxCost ∈ r.1.cost) ∧
    r.2.minCost ≤ st.minCost ∧ ((∀ c ∈ cs, st.minCost ≤ c) → ∀ c ∈ r.1.cost, r.2.minCost ≤ c) := by
  induction ps generalizing i st cs with
  | nil =>
    obtain rfl : cs = [] := List.length_eq_zero_iff.1 hl
    unfold Env.sweep
    simp
  | cons p ps ih =>
    cases cs with
    | nil => simp at hl
    | cons c cs =>
      have ho : ((E.one pop i p c st).1 = (p, c) ∨ (E.one pop i p c st).1 =
            (E.after (E.mkTrial pop i p st).2, E.obj (E.mkTrial pop i p st).2.x)) ∧ (E.one pop i p c st).1.2 ≤ c ∧
          (E.one pop i p c st).1.2 ≤ (E.one pop i p c st).2.maxCost ∧ st.maxCost ≤ (E.one pop i p c st).2.maxCost ∧
          ((E.one pop i p c st).2.maxCost = st.maxCost ∨ (E.one pop i p c st).2.maxCost = (E.one pop i p c st).1.2) ∧
          (E.one pop i p c st).2.minCost ≤ st.minCost ∧
          (st.minCost ≤ c → (E.one pop i p c st).2.minCost ≤ (E.one pop i p c st).1.2) := by
        unfold Env.one
        simp only
        generalize E.mkTrial pop i p st = t
        have hmax : ∀ v m : K, v ≤ (if v > m then v else m) ∧ m ≤ (if v > m then v else m) ∧
            ((if v > m then v else m) = m ∨ (if v > m then v else m) = v) := by
          intro v m
          split
          · next h => exact ⟨le_rfl, h.le, Or.inr rfl⟩
          · next h => exact ⟨not_lt.1 h, le_rfl, Or.inl rfl⟩
        by_cases h1 : E.obj t.2.x ≤ c
        · by_cases h2 : E.obj t.2.x < st.minCost
          · simp only [if_pos h1, if_pos h2]
            exact ⟨Or.inr trivial, h1, (hmax _ _).1, (hmax _ _).2.1, (hmax _ _).2.2, h2.le, fun _ => le_rfl⟩
          · simp only [if_pos h1, if_neg h2]
            exact ⟨Or.inr trivial, h1, (hmax _ _).1, (hmax _ _).2.1, (hmax _ _).2.2, le_rfl, fun _ => not_lt.1 h2⟩
        · by_cases h2 : E.obj t.2.x < st.minCost
          · simp only [if_neg h1, if_pos h2]
            exact ⟨Or.inl trivial, le_rfl, (hmax _ _).1, (hmax _ _).2.1, (hmax _ _).2.2, h2.le,
              fun h => absurd (h2.le.trans h) h1⟩
          · simp only [if_neg h1, if_neg h2]
            exact ⟨Or.inl trivial, le_rfl, (hmax _ _).1, (hmax _ _).2.1, (hmax _ _).2.2, le_rfl, fun h => h⟩
      obtain ⟨o1, o2, o3, o4, o5, o6, o7⟩ := ho
      unfold Env.sweep
      simp only
      obtain ⟨g1, g2, g3, g4, g5, g6, g7, g8⟩ := ih (i + 1) cs (E.one pop i p c st).2 (by simpa using hl)
      generalize E.sweep pop (i + 1) ps cs (E.one pop i p c st).2 = r at g1 g2 g3 g4 g5 g6 g7 g8
      refine ⟨by simp [g1], by simp [g2], ?_, ?_, o4.trans g5, ?_, g7.trans o6, ?_⟩
      · intro k hk
        cases k with
        | zero =>
          refine ⟨p, c, _, _, rfl, rfl, rfl, rfl, o2, ?_⟩
          rcases o1 with e | e
          · exact Or.inl (by rw [e]; exact ⟨rfl, rfl⟩)
          · exact Or.inr ⟨st, by rw [e]; exact ⟨rfl, rfl⟩⟩
        | succ k =>
          obtain ⟨p0, c0, p1, c1, e1, e2, e3, e4, e5, e6⟩ := g3 k (by simpa using hk)
          refine ⟨p0, c0, p1, c1, by simpa using e1, by simpa using e2, by simpa using e3, by simpa using e4, e5, ?_⟩
          rw [show i + (k + 1) = i + 1 + k by omega]
          exact e6
      · intro x hx
        rcases List.mem_cons.1 hx with rfl | hx
        · exact o3.trans g5
        · exact g4 x hx
      · rcases g6 with e | e
        · rcases o5 with e' | e'
          · exact Or.inl (e.trans e')
          · exact Or.inr (by rw [e, e']; exact List.mem_cons_self)
        · exact Or.inr (List.mem_cons_of_mem _ e)
      · intro h x hx
        rcases List.mem_cons.1 hx with rfl | hx
        · exact g7.trans (o7 (h c List.mem_cons_self))
        · refine g8 (fun y hy => o6.trans (h y (List.mem_cons_of_mem _ hy))) x hx

/-- **Selection.** Without opposition (tabulated potentials) each individual stays or is replaced by its trial if that is not worse;
the cost of no row grows. -/
theorem C120_selection [NeZero N] (E : Env K σ d N) (ha : E.apot = false) (g : Gen K σ d) (hl : g.rows.cost.length = g.rows.pop.length) :
    ∀ k < g.rows.cost.length, ∃ p c p' c', g.rows.pop[k]? = some p ∧ g.rows.cost[k]? = some c ∧
      (E.generation g).rows.pop[k]? = some p' ∧ (E.generation g).rows.cost[k]? = some c' ∧ c' ≤ c ∧
      (p' = p ∧ c' = c ∨ ∃ st, p' = E.after (E.mkTrial g.rows.pop k p st).2 ∧ c' = E.obj (E.mkTrial g.rows.pop k p st).2.x) := by
  have h := (sweep_rows E g.rows.pop 0 g.rows.pop g.rows.cost { g.st with maxCost := 0 } hl).2.2.1
  intro k hk
  obtain ⟨p, c, p', c', e1, e2, e3, e4, e5, e6⟩ := h k hk
  rw [Nat.zero_add] at e6
  refine ⟨p, c, p', c', e1, e2, ?_, ?_, e5, e6⟩
  · unfold Env.generation; simp only [ha]; exact e3
  · unfold Env.generation; simp only [ha]; exact e4

theorem scan_range (ps : List (Ind K d)) (cs : List K) (hl : cs.length = ps.length) (best : Ind K d) (lo hi : K) :
    (scan ps cs best lo hi).2.1 ≤ lo ∧ hi ≤ (scan ps cs best lo hi).2.2 ∧
    ∀ c ∈ cs, (scan ps cs best lo hi).2.1 ≤ c ∧ c ≤ (scan ps cs best lo hi).2.2 := by
  induction ps generalizing cs best lo hi with
  | nil =>
    obtain rfl : cs = [] := List.length_eq_zero_iff.1 hl
    simp [scan]
  | cons p ps ih =>
    cases cs with
    | nil => simp at hl
    | cons c cs =>
      rw [scan]
      obtain ⟨h1, h2, h3⟩ := ih cs (by simpa using hl) (if c < lo then p else best) (if c < lo then c else lo) (if c > hi then c else hi)
      generalize scan ps cs (if c < lo then p else best) (if c < lo then c else lo) (if c > hi then c else hi) = r at h1 h2 h3
      have a1 : (if c < lo then c else lo) ≤ lo ∧ (if c < lo then c else lo) ≤ c := by
        split
        · next h => exact ⟨h.le, le_rfl⟩
        · next h => exact ⟨le_rfl, not_lt.1 h⟩
      have a2 : hi ≤ (if c > hi then c else hi) ∧ c ≤ (if c > hi then c else hi) := by
        split
        · next h => exact ⟨h.le, le_rfl⟩
        · next h => exact ⟨le_rfl, not_lt.1 h⟩
      refine ⟨h1.trans a1.1, a2.1.trans h2, ?_⟩
      intro x hx
      rcases List.mem_cons.1 hx with rfl | hx
      · exact ⟨h1.trans a1.2, a2.2.trans h2⟩
      · exact h3 x hx

/-- All costs lie between the two recorded ones. -/
def Recorded (g : Gen K σ d) : Prop :=
  g.rows.cost.length = g.rows.pop.length ∧ ∀ c ∈ g.rows.cost, g.st.minCost ≤ c ∧ c ≤ g.st.maxCost

theorem recorded_iterate [NeZero N] (E : Env K σ d N) (ha : E.apot = false) (rng : σ) (xi : Fin d → K) (n : Nat) :
    Recorded (E.generation^[n] (E.start rng xi)) := by
  induction n with
  | zero =>
    have hl : (E.initPop xi rng).2.1.cost.length = (E.initPop xi rng).2.1.pop.length := by
      unfold Env.initPop
      simp [ha]
    exact ⟨hl, (scan_range _ _ hl _ _ _).2.2⟩
  | succ n ih =>
    rw [Function.iterate_succ_apply']
    generalize E.generation^[n] (E.start rng xi) = g at ih
    obtain ⟨h1, h2, -, h4, -, -, -, h8⟩ := sweep_rows E g.rows.pop 0 g.rows.pop g.rows.cost { g.st with maxCost := 0 } ih.1
    have h8 := h8 fun c hc => (ih.2 c hc).1
    have hg : (E.generation g).rows = (E.sweep g.rows.pop 0 g.rows.pop g.rows.cost { g.st with maxCost := 0 }).1 ∧
        (E.generation g).st = (E.sweep g.rows.pop 0 g.rows.pop g.rows.cost { g.st with maxCost := 0 }).2 := by
      unfold Env.generation
      simp only [ha]
      exact ⟨rfl, rfl⟩
    unfold Recorded
    rw [hg.1, hg.2]
    exact ⟨by rw [h1, h2]; exact ih.1, fun c hc => ⟨h8 c hc, h4 c hc⟩⟩

theorem loop_end [NeZero N] (E : Env K σ d N) (fuel : Nat) (g r : Gen K σ d) (h : E.loop fuel g = some r) :
    E.flag r.count = true ∨ r.st.maxCost - r.st.minCost < E.thr ∨ r.st.minCost < E.thr := by
  induction fuel generalizing g with
  | zero => simp [Env.loop] at h
  | succ fuel ih =>
    rw [Env.loop] at h
    split at h
    · simp only at h
      split at h
      · next hf =>
        obtain rfl : E.generation g = r := by simpa using h
        exact Or.inl hf
      · exact ih _ h
    · next hn =>
      obtain rfl : g = r := by simpa using h
      by_cases h1 : g.st.maxCost - g.st.minCost < E.thr
      · exact Or.inr (Or.inl h1)
      · exact Or.inr (Or.inr (not_le.1 fun h2 => hn ⟨not_lt.1 h1, h2⟩))

/-- **End.** Without opposition: when the algorithm ends without the break flag and the recorded cost is not below the threshold, the
costs of any two individuals differ by less than the threshold. -/
theorem C120_end [NeZero N] (E : Env K σ d N) (ha : E.apot = false) (fuel : Nat) (rng : σ) (xi x : Fin d → K) (g : Gen K σ d)
    (h : E.run fuel rng xi = some (x, some g)) (hflag : E.flag g.count = false) :
    g.st.minCost < E.thr ∨ ∀ c ∈ g.rows.cost, ∀ c' ∈ g.rows.cost, |c - c'| < E.thr := by
  unfold Env.run at h
  split at h
  · simp at h
  · obtain ⟨r, hr, e⟩ := Option.map_eq_some_iff.1 h
    obtain ⟨-, e⟩ := Prod.mk.inj e
    obtain rfl : r = g := by simpa using e
    rcases loop_end E fuel _ _ hr with h1 | h1 | h1
    · rw [hflag] at h1
      simp at h1
    · obtain ⟨n, e⟩ := loop_iterate E fuel _ _ hr
      have hrec : Recorded r := by rw [e]; exact recorded_iterate E ha rng xi n
      refine Or.inr fun c hc c' hc' => ?_
      have a := hrec.2 c hc
      have b := hrec.2 c' hc'
      rw [abs_lt]
      constructor <;> linarith
    · exact Or.inl h1

/-! ### Examples -/

/-- Two parameters, the first of them free; random numbers go round 0, 1/4, 1/2, 3/4. -/
def roundEnv : Env ℚ Nat 2 1 where
  obj x := x 0 * x 0 + 5
  idx := fun _ => 0
  lo := fun _ => -10
  hi := fun _ => 10
  apot := false
  draw s := (s + 1, (s % 4 : ℕ) / 4)
  norm s := (s + 1, 0)
  pick s i := (s + 1, (i + 1) % 60, (i + 2) % 60)
  pickJ s := (s + 1, 0)
  flag _ := false
  thr := 1000000

/-- Hypotheses of `C120_control` and `C120_trial`. -/
example : UnitDraws roundEnv ∧ Function.Injective roundEnv.idx ∧ (∀ j, roundEnv.lo j ≤ roundEnv.hi j) := by
  refine ⟨fun s => ?_, fun a b _ => Subsingleton.elim a b, fun _ => by show (-10 : ℚ) ≤ 10; norm_num⟩
  have h : s % 4 < 4 := Nat.mod_lt _ (by norm_num)
  have h' : ((s % 4 : ℕ) : ℚ) < 4 := by exact_mod_cast h
  have h0 : (0 : ℚ) ≤ ((s % 4 : ℕ) : ℚ) := Nat.cast_nonneg _
  show 0 ≤ ((s % 4 : ℕ) : ℚ) / 4 ∧ ((s % 4 : ℕ) : ℚ) / 4 < 1
  constructor <;> linarith

/-- Hypotheses of `C120_end`. -/
example : ∃ x g, roundEnv.run 5 0 ![3, 7] = some (x, some g) ∧ roundEnv.flag g.count = false ∧ roundEnv.apot = false := by
  have h : (roundEnv.run 5 0 ![3, 7]).any (fun r => r.2.any fun _ => true) = true := by decide +kernel
  cases hr : roundEnv.run 5 0 ![3, 7] with
  | none => rw [hr] at h; cases h
  | some r =>
    obtain ⟨r, g⟩ := r
    rw [hr] at h
    cases g with
    | none => cases h
    | some g => exact ⟨r, g, rfl, rfl, rfl⟩

/-- The factor and the rate: drawn anew and kept. -/
example : newFactor (fun n => if n = 0 then 0 else (1 / 2 : ℚ)) (3 / 4) = (11 / 20, 2) ∧
    newRate (fun _ => (1 / 2 : ℚ)) (3 / 4) = (3 / 4, 1) ∧ within (-1 : ℚ) 1 5 = 1 ∧ within (-1 : ℚ) 1 (1 / 2) = 1 / 2 := by decide +kernel

end Verif.Props
