/-
C31  Differential evolution keeps its population inside the bounds and never touches fixed parameters.
-/
import Verif.Props.C32
import Verif.Model.Tails
import Mathlib.Analysis.Real.Pi.Bounds

set_option linter.unusedSectionVars false

namespace Verif.Props

open Verif.DiffEvo

variable {K : Type*} [Field K] [LinearOrder K] [IsStrictOrderedRing K] {σ α : Type*} {d N : Nat}

/-- Free parameters are within their bounds (for potentials with bounds), all others which no evaluation changes are those of the start
vector `xi`. -/
structure Box (E : Env K σ d N) (xi x : Fin d → K) : Prop where
  bounds : E.apot = true → ∀ j, E.lo j ≤ x (E.idx j) ∧ x (E.idx j) ≤ E.hi j
  fixed : ∀ k, (∀ j, E.idx j ≠ k) → (∀ y, E.put y k = y k) → x k = xi k

theorem box_update {E : Env K σ d N} (hinj : Function.Injective E.idx) {xi x : Fin d → K} (h : Box E xi x) (j : Fin N) (v : K)
    (hv : E.apot = true → E.lo j ≤ v ∧ v ≤ E.hi j) : Box E xi (Function.update x (E.idx j) v) := by
  refine ⟨fun ha i => ?_, fun k hk hk' => ?_⟩
  · by_cases e : i = j
    · rw [e, Function.update_self]
      exact hv ha
    · rw [Function.update_of_ne (fun h => e (hinj h))]
      exact h.bounds ha i
  · rw [Function.update_of_ne (fun h => hk j h.symm)]
    exact h.fixed k hk hk'

/-- Evaluations do not move free parameters out of their bounds. -/
def KeepsBounds (E : Env K σ d N) : Prop :=
  E.apot = true → ∀ x j, E.lo j ≤ x (E.idx j) → x (E.idx j) ≤ E.hi j → E.lo j ≤ E.put x (E.idx j) ∧ E.put x (E.idx j) ≤ E.hi j

theorem box_put {E : Env K σ d N} (hk : KeepsBounds E) {xi x : Fin d → K} (h : Box E xi x) : Box E xi (E.put x) :=
  ⟨fun ha j => hk ha x j (h.bounds ha j).1 (h.bounds ha j).2, fun k hk hp => by rw [hp]; exact h.fixed k hk hp⟩

theorem initVal_bounds {E : Env K σ d N} (ha : E.apot = true) (s : σ) (j : Fin N) (val : K)
    (h : E.lo j ≤ val ∧ val ≤ E.hi j) : E.lo j ≤ (E.initVal s j val).2 ∧ (E.initVal s j val).2 ≤ E.hi j := by
  unfold Env.initVal
  rw [if_pos ha]
  simp only
  generalize (E.norm s).2 / 3 = t
  have hb : |if |t| > 1 then t / |t| else t| ≤ 1 := by
    split
    · next h1 => rw [abs_div, abs_abs, div_self (by linarith)]
    · next h1 => exact not_lt.1 h1
  generalize (if |t| > 1 then t / |t| else t) = u at hb
  have h1 := abs_le.1 hb
  obtain ⟨hl, hh⟩ := h
  split
  · next hu =>
    have h2 : 0 ≤ u * (E.hi j - val) := mul_nonneg hu.le (by linarith)
    have h3 : u * (E.hi j - val) ≤ 1 * (E.hi j - val) := mul_le_mul_of_nonneg_right h1.2 (by linarith)
    constructor <;> linarith
  · next hu =>
    have h2 : 0 ≤ -u * (val - E.lo j) := mul_nonneg (by linarith [not_lt.1 hu]) (by linarith)
    have h3 : -u * (val - E.lo j) ≤ 1 * (val - E.lo j) := mul_le_mul_of_nonneg_right (by linarith) (by linarith)
    constructor <;> nlinarith

theorem initRow_box {E : Env K σ d N} (hinj : Function.Injective E.idx) {xi x : Fin d → K} (h0 : Box E xi xi) (h : Box E xi x)
    (s : σ) : Box E xi (E.initRow xi s x).2 := by
  unfold Env.initRow
  generalize List.finRange N = l
  induction l generalizing s x with
  | nil => exact h
  | cons j l ih =>
    rw [List.foldl_cons]
    exact ih (box_update hinj h j _ fun ha => initVal_bounds ha s j _ (h0.bounds ha j)) _

theorem copies_spec (E : Env K σ d N) (xi : Fin d → K) (n : Nat) (s : σ) :
    (∀ p ∈ (E.copies xi n s).2, p.x = xi) ∧ (E.copies xi n s).2.length = n := by
  induction n generalizing s with
  | zero => simp [Env.copies]
  | succ n ih =>
    unfold Env.copies
    simp only [List.mem_cons, List.length_cons]
    refine ⟨?_, by rw [(ih _).2]⟩
    rintro p (rfl | hp)
    · rfl
    · exact (ih _).1 p hp

theorem initRows_box {E : Env K σ d N} (hinj : Function.Injective E.idx) {xi : Fin d → K} (h0 : Box E xi xi)
    (l : List (Ind K d)) (hl : ∀ p ∈ l, Box E xi p.x) (s : σ) :
    (∀ p ∈ (E.initRows xi s l).2, Box E xi p.x) ∧ (E.initRows xi s l).2.length = l.length := by
  induction l generalizing s with
  | nil => simp [Env.initRows]
  | cons p l ih =>
    unfold Env.initRows
    simp only [List.mem_cons, List.length_cons]
    have h := ih (fun q hq => hl q (List.mem_cons_of_mem _ hq)) (E.initRow xi s p.x).1
    refine ⟨?_, by rw [h.2]⟩
    rintro q (rfl | hq)
    · exact initRow_box hinj h0 (hl p (by simp)) s
    · exact h.1 q hq

/-! ### Opposites -/

theorem minp_le {E : Env K σ d N} (pop : List (Ind K d)) (j : Fin N) :
    (∀ p ∈ pop, E.minp pop j ≤ p.x (E.idx j)) ∧ E.minp pop j ≤ 10 * 10 ^ 30 ∧
      ∀ b, b ≤ 10 * 10 ^ 30 → (∀ p ∈ pop, b ≤ p.x (E.idx j)) → b ≤ E.minp pop j := by
  unfold Env.minp
  generalize (10 * 10 ^ 30 : K) = m
  induction pop generalizing m with
  | nil => exact ⟨by simp, le_rfl, fun b hb _ => hb⟩
  | cons p pop ih =>
    rw [List.foldl_cons]
    obtain ⟨h1, h2, h3⟩ := ih (if p.x (E.idx j) < m then p.x (E.idx j) else m)
    have hm : (if p.x (E.idx j) < m then p.x (E.idx j) else m) ≤ m ∧
        (if p.x (E.idx j) < m then p.x (E.idx j) else m) ≤ p.x (E.idx j) := by
      split
      · next h => exact ⟨h.le, le_rfl⟩
      · next h => exact ⟨le_rfl, not_lt.1 h⟩
    refine ⟨?_, h2.trans hm.1, fun b hb hp => h3 b ?_ fun q hq => hp q (List.mem_cons_of_mem _ hq)⟩
    · intro q hq
      rcases List.mem_cons.1 hq with rfl | hq
      · exact h2.trans hm.2
      · exact h1 q hq
    · split
      · exact hp p (by simp)
      · exact hb

theorem le_maxp {E : Env K σ d N} (pop : List (Ind K d)) (j : Fin N) :
    (∀ p ∈ pop, p.x (E.idx j) ≤ E.maxp pop j) ∧ -(10 * 10 ^ 30) ≤ E.maxp pop j ∧
      ∀ b, -(10 * 10 ^ 30) ≤ b → (∀ p ∈ pop, p.x (E.idx j) ≤ b) → E.maxp pop j ≤ b := by
  unfold Env.maxp
  generalize (-(10 * 10 ^ 30) : K) = m
  induction pop generalizing m with
  | nil => exact ⟨by simp, le_rfl, fun b hb _ => hb⟩
  | cons p pop ih =>
    rw [List.foldl_cons]
    obtain ⟨h1, h2, h3⟩ := ih (if p.x (E.idx j) > m then p.x (E.idx j) else m)
    have hm : m ≤ (if p.x (E.idx j) > m then p.x (E.idx j) else m) ∧
        p.x (E.idx j) ≤ (if p.x (E.idx j) > m then p.x (E.idx j) else m) := by
      split
      · next h => exact ⟨le_of_lt h, le_rfl⟩
      · next h => exact ⟨le_rfl, not_lt.1 h⟩
    refine ⟨?_, hm.1.trans h2, fun b hb hp => h3 b ?_ fun q hq => hp q (List.mem_cons_of_mem _ hq)⟩
    · intro q hq
      rcases List.mem_cons.1 hq with rfl | hq
      · exact hm.2.trans h2
      · exact h1 q hq
    · split
      · exact hp p (by simp)
      · exact hb

theorem opposite_box {E : Env K σ d N} (hinj : Function.Injective E.idx) {xi : Fin d → K} {lo hi : Fin N → K} (p : Ind K d)
    (hp : Box E xi p.x)
    (hb : E.apot = true → ∀ j, E.lo j ≤ lo j + hi j - p.x (E.idx j) ∧ lo j + hi j - p.x (E.idx j) ≤ E.hi j) :
    Box E xi (E.opposite lo hi p).x := by
  unfold Env.opposite
  simp only
  suffices h : ∀ (l : List (Fin N)) (x : Fin d → K), Box E xi x →
      Box E xi (l.foldl (fun x j => Function.update x (E.idx j) (lo j + hi j - p.x (E.idx j))) x) from h _ _ hp
  intro l
  induction l with
  | nil => exact fun x hx => hx
  | cons j l ih =>
    intro x hx
    rw [List.foldl_cons]
    exact ih _ (box_update hinj hx j _ fun ha => hb ha j)

/-- The bounds do not exceed the constants `10e30` with which the search for minimum and maximum begins. -/
def Tame (E : Env K σ d N) : Prop := ∀ j, E.lo j ≤ 10 * 10 ^ 30 ∧ -(10 * 10 ^ 30) ≤ E.hi j

theorem opposites_box {E : Env K σ d N} (hinj : Function.Injective E.idx) (ht : Tame E) {xi : Fin d → K} (init : Bool)
    (pop : List (Ind K d)) (hp : ∀ p ∈ pop, Box E xi p.x) : ∀ p ∈ E.opposites init pop, Box E xi p.x := by
  intro q hq
  unfold Env.opposites at hq
  split at hq
  · obtain ⟨p, hpm, rfl⟩ := List.mem_map.1 hq
    refine opposite_box hinj p (hp p hpm) fun ha j => ?_
    have := (hp p hpm).bounds ha j
    constructor <;> linarith
  · obtain ⟨p, hpm, rfl⟩ := List.mem_map.1 hq
    refine opposite_box hinj p (hp p hpm) fun ha j => ?_
    obtain ⟨h1, _, h3⟩ := minp_le (E := E) pop j
    obtain ⟨g1, _, g3⟩ := le_maxp (E := E) pop j
    have a := h3 _ (ht j).1 fun p hp' => ((hp p hp').bounds ha j).1
    have b := g3 _ (ht j).2 fun p hp' => ((hp p hp').bounds ha j).2
    have c := h1 p hpm
    have e := g1 p hpm
    constructor <;> linarith

theorem oppositeCheck_box {E : Env K σ d N} (hinj : Function.Injective E.idx) (hkb : KeepsBounds E) (ht : Tame E) {xi : Fin d → K}
    (init : Bool) (r : Rows K (Ind K d)) (hl : r.pop.length = np d) (hc : CostsOf E r) (hp : ∀ p ∈ r.pop, Box E xi p.x) :
    ∀ p ∈ (E.oppositeCheck init r).pop, Box E xi p.x := by
  intro p hpm
  rcases (C32_survivors E init r hl hc).2.2 p hpm with h | ⟨q, h, rfl⟩
  · exact hp p h
  · exact box_put hkb (opposites_box hinj ht init r.pop hp q h)

/-! ### Trial vectors -/

theorem mutate_bounds {E : Env K σ d N} (ha : E.apot = true) {j : Fin N} (hlh : E.lo j ≤ E.hi j) (best a b : Fin d → K) (f : K) :
    E.lo j ≤ E.mutate best a b f j ∧ E.mutate best a b f j ≤ E.hi j := by
  unfold Env.mutate
  simp only
  rw [if_pos ha]
  split
  · exact ⟨hlh, le_rfl⟩
  · next h1 =>
    split
    · exact ⟨le_rfl, hlh⟩
    · next h2 => exact ⟨not_lt.1 h2, not_lt.1 h1⟩

theorem cross_box [NeZero N] {E : Env K σ d N} (hinj : Function.Injective E.idx) {xi : Fin d → K} (h0 : Box E xi xi)
    (best a b cur : Fin d → K) (hcur : Box E xi cur) (f cr : K) (n k : Nat) (j : Fin N) (s : σ) (t : Fin d → K)
    (ht : Box E xi t) : Box E xi (E.cross best a b cur f cr n k j s t).2 := by
  induction n generalizing k j s t with
  | zero => exact ht
  | succ n ih =>
    unfold Env.cross
    refine ih _ _ _ _ (box_update hinj ht j _ fun ha => ?_)
    split
    · exact mutate_bounds ha ((h0.bounds ha j).1.trans (h0.bounds ha j).2) _ _ _ _
    · exact hcur.bounds ha j

/-- Invariant between generations. -/
structure PopOk (E : Env K σ d N) (xi : Fin d → K) (g : Gen K σ d) : Prop where
  len : g.rows.pop.length = np d
  costs : CostsOf E g.rows
  pop : ∀ p ∈ g.rows.pop, Box E xi p.x
  trial : Box E xi g.st.trial
  seen : ∀ x ∈ g.st.seen, Box E xi x

theorem one_spec [NeZero N] {E : Env K σ d N} (hinj : Function.Injective E.idx) (hkb : KeepsBounds E) {xi : Fin d → K} (h0 : Box E xi xi)
    (pop : List (Ind K d)) (i : Nat) (p : Ind K d) (c : K) (st : St K σ d) (hp : Box E xi p.x) (hc : Evaluated E c p)
    (ht : Box E xi st.trial) (hs : ∀ x ∈ st.seen, Box E xi x) :
    Evaluated E (E.one pop i p c st).1.2 (E.one pop i p c st).1.1 ∧ Box E xi (E.one pop i p c st).1.1.x ∧
      Box E xi (E.one pop i p c st).2.trial ∧ ∀ x ∈ (E.one pop i p c st).2.seen, Box E xi x := by
  have hb : Box E xi (E.mkTrial pop i p st).2.x := by
    unfold Env.mkTrial
    exact cross_box hinj h0 _ _ _ _ hp _ _ _ _ _ _ _ ht
  unfold Env.one
  simp only
  generalize E.mkTrial pop i p st = t at hb
  have hb' : Box E xi (E.after t.2).x := box_put hkb hb
  have hseen : ∀ x ∈ t.2.x :: st.seen, Box E xi x := by
    intro x hx
    rcases List.mem_cons.1 hx with rfl | hx
    · exact hb
    · exact hs x hx
  refine ⟨?_, ?_, ?_, ?_⟩
  · split
    · exact ⟨t.2.x, rfl, rfl⟩
    · exact hc
  · split
    · exact hb'
    · exact hp
  · split <;> exact hb'
  · split <;> exact hseen

theorem sweep_spec [NeZero N] {E : Env K σ d N} (hinj : Function.Injective E.idx) (hkb : KeepsBounds E) {xi : Fin d → K} (h0 : Box E xi xi)
    (pop : List (Ind K d)) (i : Nat) (ps : List (Ind K d)) (cs : List K) (st : St K σ d) (hc : CostsOf E ⟨cs, ps⟩)
    (hp : ∀ p ∈ ps, Box E xi p.x) (ht : Box E xi st.trial) (hs : ∀ x ∈ st.seen, Box E xi x) :
    let r := E.sweep pop i ps cs st
    CostsOf E r.1 ∧ r.1.pop.length = ps.length ∧ (∀ p ∈ r.1.pop, Box E xi p.x) ∧ Box E xi r.2.trial ∧
      ∀ x ∈ r.2.seen, Box E xi x := by
  induction ps generalizing i st cs with
  | nil =>
    unfold Env.sweep
    exact ⟨⟨rfl, by simp⟩, rfl, by simp, ht, hs⟩
  | cons p ps ih =>
    cases cs with
    | nil => exact absurd hc.1 (by simp)
    | cons c cs =>
      have hc' : Evaluated E c p := hc.2 (c, p) (by simp)
      obtain ⟨h1, h2, h3, h4⟩ := one_spec hinj hkb h0 pop i p c st (hp p (by simp)) hc' ht hs
      unfold Env.sweep
      simp only
      obtain ⟨g1, g2, g3, g4, g5⟩ := ih (i + 1) cs (E.one pop i p c st).2
        ⟨by have := hc.1; simpa using this, fun a ha => hc.2 a (by simp [ha])⟩
        (fun q hq => hp q (List.mem_cons_of_mem _ hq)) h3 h4
      refine ⟨⟨by simp [g1.1], ?_⟩, by simp [g2], ?_, g4, g5⟩
      · intro a ha
        simp only [List.zip_cons_cons, List.mem_cons] at ha
        rcases ha with rfl | ha
        · exact h1
        · exact g1.2 a ha
      · intro q hq
        rcases List.mem_cons.1 hq with rfl | hq
        · exact h2
        · exact g3 q hq

theorem generation_ok [NeZero N] {E : Env K σ d N} (hinj : Function.Injective E.idx) (hkb : KeepsBounds E) (hta : E.apot = true → Tame E)
    {xi : Fin d → K} (h0 : Box E xi xi) {g : Gen K σ d} (h : PopOk E xi g) : PopOk E xi (E.generation g) := by
  have hs := sweep_spec hinj hkb h0 g.rows.pop 0 g.rows.pop g.rows.cost { g.st with maxCost := 0 } h.costs h.pop h.trial h.seen
  unfold Env.generation
  simp only at hs ⊢
  generalize E.sweep g.rows.pop 0 g.rows.pop g.rows.cost { g.st with maxCost := 0 } = r at hs
  obtain ⟨h1, h2, h3, h4, h5⟩ := hs
  rw [h.len] at h2
  split
  · next ha =>
    split
    · have hsv := C32_survivors E false r.1 h2 h1
      have hbx := oppositeCheck_box hinj hkb (hta ha) false r.1 h2 h1 h3
      have hse : ∀ x ∈ (E.opposites false r.1.pop).map Ind.x ++ r.2.seen, Box E xi x := by
        intro x hx
        rcases List.mem_append.1 hx with hx | hx
        · obtain ⟨q, hq, rfl⟩ := List.mem_map.1 hx
          exact opposites_box hinj (hta ha) false r.1.pop h3 q hq
        · exact h5 x hx
      split
      · exact ⟨hsv.1, hsv.2.1, hbx, h4, hse⟩
      · exact ⟨hsv.1, hsv.2.1, hbx, h4, hse⟩
    · exact ⟨h2, h1, h3, h4, h5⟩
  · exact ⟨h2, h1, h3, h4, h5⟩

theorem start_ok {E : Env K σ d N} (hinj : Function.Injective E.idx) (hkb : KeepsBounds E) (hta : E.apot = true → Tame E)
    {xi : Fin d → K} (h0 : Box E xi xi) (rng : σ) : PopOk E xi (E.start rng xi) := by
  unfold Env.start
  simp only
  suffices h : (E.initPop xi rng).2.1.pop.length = np d ∧ CostsOf E (E.initPop xi rng).2.1 ∧
      (∀ p ∈ (E.initPop xi rng).2.1.pop, Box E xi p.x) ∧ ∀ x ∈ (E.initPop xi rng).2.2, Box E xi x from
    ⟨h.1, h.2.1, h.2.2.1, h0, h.2.2.2⟩
  unfold Env.initPop
  simp only
  obtain ⟨hc1, hc2⟩ := copies_spec E xi (np d) rng
  generalize E.copies xi (np d) rng = c at hc1 hc2
  have hb : ∀ p ∈ c.2, Box E xi p.x := fun p hp => by rw [hc1 p hp]; exact h0
  obtain ⟨h1, h2⟩ := initRows_box hinj h0 (c.2.drop 1) (fun p hp => hb p (List.mem_of_mem_drop hp)) c.1
  generalize E.initRows xi c.1 (c.2.drop 1) = t at h1 h2
  have hlen : (c.2.take 1 ++ t.2).length = np d := by
    rw [List.length_append, h2, List.length_take, List.length_drop, hc2]
    have : 1 ≤ np d := by unfold np; omega
    omega
  have hbox : ∀ p ∈ c.2.take 1 ++ t.2, Box E xi p.x := by
    intro p hp
    rcases List.mem_append.1 hp with hp | hp
    · exact hb p (List.mem_of_mem_take hp)
    · exact h1 p hp
  generalize c.2.take 1 ++ t.2 = pop at hlen hbox
  have hlen' : (pop.map E.after).length = np d := by rw [List.length_map, hlen]
  have hbox' : ∀ p ∈ pop.map E.after, Box E xi p.x := by
    intro p hp
    obtain ⟨q, hq, rfl⟩ := List.mem_map.1 hp
    exact box_put hkb (hbox q hq)
  split
  · next ha =>
    have hsv := C32_survivors E true ⟨pop.map fun p : Ind K d => E.obj p.x, pop.map E.after⟩ hlen' (costsOf_after E pop)
    refine ⟨hsv.1, hsv.2.1, oppositeCheck_box hinj hkb (hta ha) true _ hlen' (costsOf_after E pop) hbox', ?_⟩
    intro x hx
    obtain ⟨p, hp, rfl⟩ := List.mem_map.1 hx
    rcases List.mem_append.1 hp with hp | hp
    · exact hbox p hp
    · exact opposites_box hinj (hta ha) true _ hbox' p hp
  · refine ⟨hlen', costsOf_after E pop, hbox', ?_⟩
    intro x hx
    obtain ⟨p, hp, rfl⟩ := List.mem_map.1 hx
    exact hbox p hp

/-- **C31.** Whatever the random numbers and the objective are: if the start vector is within the bounds and evaluations do not move free
parameters out of them, then every vector that is evaluated up to any generation, and every individual of the population, has all free
parameters within their bounds, and all fixed parameters which no evaluation changes (all but references to global parameters) as in the
start vector.  Missing for the full claim: bounds beyond `10e30`, where it is false (`C31_violated`), and phases, which evaluations move out
of their bounds (`C31_phase_violated`).  Builds without bounds (tabulated potentials) need no assumption and keep the fixed parameters. -/
theorem C31_partial [NeZero N] (E : Env K σ d N) (hinj : Function.Injective E.idx) (xi : Fin d → K)
    (h0 : E.apot = true → ∀ j, E.lo j ≤ xi (E.idx j) ∧ xi (E.idx j) ≤ E.hi j)
    (hput : E.apot = true → ∀ x j, E.lo j ≤ x (E.idx j) → x (E.idx j) ≤ E.hi j →
      E.lo j ≤ E.put x (E.idx j) ∧ E.put x (E.idx j) ≤ E.hi j)
    (ht : E.apot = true → ∀ j, E.lo j ≤ 10 * 10 ^ 30 ∧ -(10 * 10 ^ 30) ≤ E.hi j) (rng : σ) (n : Nat) :
    let g := E.generation^[n] (E.start rng xi)
    (∀ x, x ∈ g.st.seen ∨ x ∈ g.rows.pop.map Ind.x →
      (E.apot = true → ∀ j, E.lo j ≤ x (E.idx j) ∧ x (E.idx j) ≤ E.hi j) ∧
      ∀ k, (∀ j, E.idx j ≠ k) → (∀ y, E.put y k = y k) → x k = xi k) := by
  have hb : Box E xi xi := ⟨h0, fun _ _ _ => rfl⟩
  have h : PopOk E xi (E.generation^[n] (E.start rng xi)) := by
    induction n with
    | zero => exact start_ok hinj hput ht hb rng
    | succ n ih =>
      rw [Function.iterate_succ_apply']
      exact generation_ok hinj hput ht hb ih
  simp only
  rintro x (hx | hx)
  · exact ⟨(h.seen x hx).bounds, (h.seen x hx).fixed⟩
  · obtain ⟨p, hp, rfl⟩ := List.mem_map.1 hx
    exact ⟨(h.pop p hp).bounds, (h.pop p hp).fixed⟩

/-- The result of a run is the state after some number of generations. -/
theorem loop_iterate [NeZero N] (E : Env K σ d N) (fuel : Nat) (g r : Gen K σ d) (h : E.loop fuel g = some r) :
    ∃ n, r = E.generation^[n] g := by
  induction fuel generalizing g with
  | zero => cases h
  | succ fuel ih =>
    unfold Env.loop at h
    split at h
    · simp only at h
      split at h
      · cases h
        exact ⟨1, rfl⟩
      · obtain ⟨n, hn⟩ := ih _ h
        exact ⟨n + 1, hn⟩
    · cases h
      exact ⟨0, rfl⟩

/-- A parameter between 1 and 3, start value 1, and a fixed one; evaluations replace values above 5/2 by 5/2. -/
def boxEnv : Env ℚ Nat 2 1 where
  obj := fun x => x 0 + x 1
  put := fun x => if 5 / 2 < x 1 then ![x 0, 5 / 2] else x
  idx := fun _ => 1
  lo := fun _ => 1
  hi := fun _ => 3
  apot := true
  draw := fun s => (s + 1, if s % 4 = 0 then 1 / 2 else if s % 4 = 1 then 0 else 2 / 5)
  norm := fun s => (s + 1, if s % 2 = 0 then 1 else 2)
  pick := fun s i => (s, (i + 1) % 60, (i + 2) % 60)
  pickJ := fun s => (s, 0)
  flag := fun _ => true
  thr := 1 / 100

example : Function.Injective boxEnv.idx ∧ KeepsBounds boxEnv ∧ (∀ y, boxEnv.put y 0 = y 0) ∧ (∀ j, boxEnv.lo j ≤ 10 * 10 ^ 30 ∧ -(10 * 10 ^ 30) ≤ boxEnv.hi j) ∧
    (boxEnv.run 2 0 ![5, 2]).any (fun r => r.2.any fun g => decide (g.st.seen.length = 240 ∧ g.st.tried.length = 60 ∧
      g.st.minCost < 7 ∧ r.1 0 = 5)) = true := by
  refine ⟨fun a b _ => Subsingleton.elim a b, fun _ x j h1 h2 => ?_, fun y => ?_, fun j => ?_, by decide +kernel⟩
  · have e : boxEnv.put x (boxEnv.idx j) = if 5 / 2 < x 1 then 5 / 2 else x 1 := by
      simp only [boxEnv]
      split <;> rfl
    rw [e]
    simp only [boxEnv] at h1 h2 ⊢
    split
    · constructor <;> norm_num
    · exact ⟨h1, h2⟩
  · simp only [boxEnv]
    split <;> rfl
  · constructor <;> norm_num [boxEnv]

/-- Bounds beyond `10e30`. -/
def hugeEnv : Env ℚ Nat 1 1 where
  obj := fun x => x 0 / 10 ^ 31
  idx := fun _ => 0
  lo := fun _ => 2 * 10 ^ 31
  hi := fun _ => 3 * 10 ^ 31
  apot := true
  draw := fun s => (s, 0)
  norm := fun s => (s + 1, if s % 2 = 0 then 1 else 2)
  pick := fun s _ => (s, 0, 1)
  pickJ := fun s => (s, 0)
  flag := fun _ => true
  thr := 1 / 10

/-- **C31, huge bounds: violated.** With bounds above `10e30` the opposition step evaluates a vector outside of them. -/
theorem C31_violated : hugeEnv.lo 0 ≤ 2 * 10 ^ 31 ∧ (2 * 10 ^ 31 : ℚ) ≤ hugeEnv.hi 0 ∧
    ∃ r g, hugeEnv.run 2 0 (fun _ => 2 * 10 ^ 31) = some (r, some g) ∧ ∃ x ∈ g.st.seen, x 0 < hugeEnv.lo 0 := by
  refine ⟨by norm_num [hugeEnv], by norm_num [hugeEnv], ?_⟩
  have h : (hugeEnv.run 2 0 (fun _ => 2 * 10 ^ 31)).any
      (fun r => r.2.any fun g => g.st.seen.any fun x => decide (x 0 < hugeEnv.lo 0)) = true := by decide +kernel
  cases hr : hugeEnv.run 2 0 (fun _ => 2 * 10 ^ 31) with
  | none => rw [hr] at h; cases h
  | some r =>
    obtain ⟨r, g⟩ := r
    rw [hr] at h
    cases g with
    | none => cases h
    | some g =>
      simp only [Option.any_some, List.any_eq_true, decide_eq_true_eq] at h
      exact ⟨r, g, rfl, h⟩

/-! ### Phases -/

theorem opposite_at {E : Env K σ d N} (hinj : Function.Injective E.idx) (lo hi : Fin N → K) (p : Ind K d) (j : Fin N) :
    (E.opposite lo hi p).x (E.idx j) = lo j + hi j - p.x (E.idx j) := by
  unfold Env.opposite
  simp only
  have key : ∀ (l : List (Fin N)) (x : Fin d → K), (j ∈ l ∨ x (E.idx j) = lo j + hi j - p.x (E.idx j)) →
      l.foldl (fun x j => Function.update x (E.idx j) (lo j + hi j - p.x (E.idx j))) x (E.idx j) = lo j + hi j - p.x (E.idx j) := by
    intro l
    induction l with
    | nil =>
      rintro x (h | h)
      · cases h
      · exact h
    | cons i l ih =>
      intro x h
      rw [List.foldl_cons]
      apply ih
      by_cases e : i = j
      · right
        rw [e, Function.update_self]
      · rw [Function.update_of_ne fun h => e (hinj h).symm]
        rcases h with h | h
        · rcases List.mem_cons.1 h with h | h
          · exact absurd h.symm e
          · exact Or.inl h
        · exact Or.inr h
  exact key _ _ (Or.inl (List.mem_finRange j))

/-- The opposite of the start vector, as its first evaluation left it, is evaluated. -/
theorem opposite_seen {E : Env K σ d N} (hinj : Function.Injective E.idx) (ha : E.apot = true) (rng : σ) (xi : Fin d → K) :
    ∃ x ∈ (E.start rng xi).st.seen, ∀ j, x (E.idx j) = E.lo j + E.hi j - E.put xi (E.idx j) := by
  obtain ⟨q, hq, hx⟩ : ∃ q, (E.copies xi (np d) rng).2.take 1 = [q] ∧ q.x = xi := by
    obtain ⟨h1, h2⟩ := copies_spec E xi (np d) rng
    have h3 : 1 ≤ np d := by unfold np; omega
    cases hc : (E.copies xi (np d) rng).2 with
    | nil => rw [hc] at h2; simp at h2; omega
    | cons q l => exact ⟨q, rfl, h1 q (by rw [hc]; simp)⟩
  unfold Env.start Env.initPop
  simp only [hq, ha, if_true]
  refine ⟨(E.opposite E.lo E.hi (E.after q)).x, List.mem_map.2 ⟨E.opposite E.lo E.hi (E.after q), ?_, rfl⟩, fun j => ?_⟩
  · refine List.mem_append_right _ ?_
    simp only [Env.opposites, if_true]
    exact List.mem_map.2 ⟨_, List.mem_map.2 ⟨q, by simp, rfl⟩, rfl⟩
  · rw [opposite_at hinj]
    simp only [Env.after, hx]

/-- One function `eopp` (parameters 2 to 7), whose phase is free with bounds -1 and 1. Evaluations normalise the phase. -/
noncomputable def phaseEnv (obj : (Fin 8 → ℝ) → ℝ) : Env ℝ Nat 8 1 where
  obj := obj
  put := fun x k => ((Tails.checkParams false 1 [(.eopp, false)] fun i => if h : i < 8 then x ⟨i, h⟩ else 0).getD fun _ => 0) k
  idx := fun _ => 7
  lo := fun _ => -1
  hi := fun _ => 1
  apot := true
  draw := fun s => (s + 1, 1 / 2)
  norm := fun s => (s + 1, 1 / 2)
  pick := fun s i => (s, (i + 1) % 150, (i + 2) % 150)
  pickJ := fun s => (s, 0)
  flag := fun _ => true
  thr := 1 / 100

/-- **C31, phases: violated.** The start vector has the phase -1/2, between its bounds -1 and 1.  The evaluation of the first individual
makes it `2 pi - 1/2`, and its opposite, with the phase `1/2 - 2 pi`, is evaluated too; both are outside of the bounds. -/
theorem C31_phase_violated (obj : (Fin 8 → ℝ) → ℝ) (xi : Fin 8 → ℝ) (h : xi 7 = -1 / 2) (rng : Nat) :
    ((phaseEnv obj).lo 0 ≤ xi 7 ∧ xi 7 ≤ (phaseEnv obj).hi 0) ∧ (phaseEnv obj).hi 0 < (phaseEnv obj).put xi 7 ∧
      ∃ x ∈ ((phaseEnv obj).start rng xi).st.seen, x 7 < (phaseEnv obj).lo 0 := by
  have hpi := Real.pi_gt_three
  have hp : (phaseEnv obj).put xi 7 = 2 * Real.pi - 1 / 2 := by
    show ((Tails.checkParams false 1 [(.eopp, false)] fun i => if h : i < 8 then xi ⟨i, h⟩ else 0).getD fun _ => 0) 7 = _
    have e : (if h : (2 + 5) < 8 then xi ⟨2 + 5, h⟩ else 0) = -1 / 2 := by
      rw [dif_pos (by norm_num)]
      exact h
    simp only [Tails.checkParams, Tails.checkFrom, Tails.checkOne, e]
    have hw : Tails.wrap 1 (-1 / 2) = some (-1 / 2 + 2 * Real.pi) := by
      unfold Tails.wrap
      simp only [bind, Option.bind]
      rw [if_neg (by linarith), if_pos (by norm_num)]
      simp only [Tails.up]
      rw [if_neg (by linarith)]
    rw [hw]
    simp only [Option.map_some, Option.bind_some, Option.getD_some]
    show Function.update _ (2 + 5) _ (2 + 5) = _
    rw [Function.update_self]
    ring
  refine ⟨⟨?_, ?_⟩, ?_, ?_⟩
  · show (-1 : ℝ) ≤ xi 7
    linarith
  · show xi 7 ≤ (1 : ℝ)
    linarith
  · rw [hp]
    show (1 : ℝ) < _
    linarith
  · obtain ⟨x, hx, he⟩ := opposite_seen (E := phaseEnv obj) (fun a b _ => Subsingleton.elim a b) rfl rng xi
    refine ⟨x, hx, ?_⟩
    have he' : x 7 = -1 + 1 - (phaseEnv obj).put xi 7 := he 0
    rw [he', hp]
    show _ < (-1 : ℝ)
    linarith

end Verif.Props
