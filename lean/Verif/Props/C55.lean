/-
C55  Crossover of differential evolution.
-/
import Verif.Props.C31

set_option linter.unusedSectionVars false

namespace Verif.Props

open Verif.DiffEvo

variable {K : Type*} [Field K] [LinearOrder K] [IsStrictOrderedRing K] {σ : Type*} {d N : Nat}

/-! ### Specification -/

/-- The random numbers drawn one after the other. -/
def drawNo (draw : σ → σ × K) : σ → Nat → K
  | s, 0 => (draw s).2
  | s, n + 1 => drawNo draw (draw s).1 n

/-- The turn in which parameter `j` is dealt with if the loop starts at parameter `j0` and goes round. -/
def turn (N j0 j : Nat) : Nat := if j0 ≤ j then j - j0 else j + N - j0

/-- Binomial crossover: a parameter comes from the mutant if its random number is below the crossover rate, or if it is the one parameter
chosen beforehand, in turn `t0`. -/
def Chosen (draw : σ → σ × K) (s : σ) (cr : K) (t0 : Nat) (N j0 j : Nat) : Prop :=
  drawNo draw s (turn N j0 j) < cr ∨ turn N j0 j = t0

/-! ### The loop -/

theorem fin_succ_val [NeZero N] (j : Fin N) : (j + 1).val = if j.val + 1 = N then 0 else j.val + 1 := by
  have hN : 0 < N := Nat.pos_of_ne_zero (NeZero.ne N)
  have hj := j.isLt
  rw [Fin.val_add]
  by_cases h1 : N = 1
  · subst h1
    have : j.val = 0 := by omega
    simp [this]
  · have e : ((1 : Fin N).val) = 1 := by
      rw [Fin.val_one']
      exact Nat.mod_eq_of_lt (by omega)
    rw [e]
    by_cases h : j.val + 1 = N
    · rw [if_pos h, h, Nat.mod_self]
    · rw [if_neg h, Nat.mod_eq_of_lt (by omega)]

/-- The loop with `n` turns left, at parameter `j` in turn `k`: parameters of the turns to come get their value, the others stay. -/
theorem cross_at [NeZero N] (E : Env K σ d N) (hinj : Function.Injective E.idx) (best a b cur : Fin d → K) (f cr : K) :
    ∀ (n k : Nat) (j : Fin N) (s : σ) (t : Fin d → K) (i : Fin N), n ≤ N →
    (E.cross best a b cur f cr n k j s t).2 (E.idx i) =
      if turn N j i < n then
        (if drawNo E.draw s (turn N j i) < cr ∨ k + turn N j i = i.val then E.mutate best a b f i else cur (E.idx i))
      else t (E.idx i) := by
  intro n
  induction n with
  | zero => intro k j s t i _; simp [Env.cross]
  | succ n ih =>
    intro k j s t i hn
    rw [Env.cross, ih _ _ _ _ _ (by omega)]
    have hi := i.isLt
    have hj := j.isLt
    by_cases hij : i = j
    · subst hij
      have e0 : turn N i i = 0 := by simp [turn]
      have e1 : ¬ turn N ((i + 1 : Fin N)) i < n := by
        rw [fin_succ_val]
        unfold turn
        split <;> split <;> omega
      rw [if_neg e1, Function.update_self]
      simp only [e0, drawNo, Nat.zero_lt_succ, if_true, Nat.add_zero]
    · have hne : i.val ≠ j.val := fun h => hij (Fin.ext h)
      have e : turn N j i = turn N ((j + 1 : Fin N)) i + 1 := by
        rw [fin_succ_val]
        unfold turn
        by_cases h1 : j.val + 1 = N
        · rw [if_pos h1]
          by_cases h2 : j.val ≤ i.val
          · omega
          · rw [if_neg h2, if_pos (by omega)]; omega
        · rw [if_neg h1]
          by_cases h2 : j.val ≤ i.val
          · rw [if_pos h2, if_pos (by omega)]; omega
          · rw [if_neg h2, if_neg (by omega)]; omega
      rw [e, Function.update_of_ne (fun h => hij (hinj h))]
      have e3 : (k + 1 + turn N ((j + 1 : Fin N)) i = i.val) ↔ (k + (turn N ((j + 1 : Fin N)) i + 1) = i.val) := by omega
      simp only [Nat.add_lt_add_iff_right, drawNo, e3]
      rfl

/-- **What the code does**: a parameter comes from the mutant if its random number is below the crossover rate, or if the loop starts at
parameter number 1 and has not gone round. -/
theorem C55_code [NeZero N] (E : Env K σ d N) (hinj : Function.Injective E.idx) (best a b cur t : Fin d → K) (f cr : K) (j0 : Fin N)
    (s : σ) (i : Fin N) :
    (E.cross best a b cur f cr N 1 j0 s t).2 (E.idx i) =
      if drawNo E.draw s (turn N j0 i) < cr ∨ (j0.val = 1 ∧ 1 ≤ i.val) then E.mutate best a b f i else cur (E.idx i) := by
  have hi := i.isLt
  have hj := j0.isLt
  rw [cross_at E hinj best a b cur f cr N 1 j0 s t i (le_refl N), if_pos (by unfold turn; split <;> omega)]
  have e : (1 + turn N j0 i = i.val) ↔ (j0.val = 1 ∧ 1 ≤ i.val) := by
    unfold turn
    split <;> omega
  simp only [e]

/-- Fixed parameters are not touched. -/
theorem cross_other [NeZero N] (E : Env K σ d N) (best a b cur : Fin d → K) (f cr : K) (x : Fin d) (hx : ∀ i, E.idx i ≠ x) :
    ∀ (n k : Nat) (j : Fin N) (s : σ) (t : Fin d → K), (E.cross best a b cur f cr n k j s t).2 x = t x := by
  intro n
  induction n with
  | zero => intro k j s t; rfl
  | succ n ih =>
    intro k j s t
    rw [Env.cross, ih, Function.update_of_ne (fun h => hx j h.symm)]

/-- **C55, the random part**: unless the loop starts at parameter 1, exactly the parameters whose random number is below the crossover
rate come from the mutant.  Missing for the full claim: the parameter chosen beforehand, see
`C55_violated`. -/
theorem C55_partial [NeZero N] (E : Env K σ d N) (hinj : Function.Injective E.idx) (best a b cur t : Fin d → K) (f cr : K) (j0 : Fin N)
    (hj0 : j0.val ≠ 1) (s : σ) (i : Fin N) :
    (drawNo E.draw s (turn N j0 i) < cr → (E.cross best a b cur f cr N 1 j0 s t).2 (E.idx i) = E.mutate best a b f i) ∧
    (¬ drawNo E.draw s (turn N j0 i) < cr → (E.cross best a b cur f cr N 1 j0 s t).2 (E.idx i) = cur (E.idx i)) := by
  rw [C55_code E hinj]
  constructor
  · intro h; rw [if_pos (Or.inl h)]
  · intro h; rw [if_neg (by rintro (h' | h') <;> [exact h h'; exact hj0 h'.1])]

/-- **C55 is violated: no certain mutation.** Whenever no random number is below the crossover rate and the loop does not start at
parameter 1, the trial vector has the parameters of the current individual: the evaluation is wasted. -/
theorem C55_violated [NeZero N] (E : Env K σ d N) (hinj : Function.Injective E.idx) (best a b cur t : Fin d → K) (f cr : K) (j0 : Fin N)
    (hj0 : j0.val ≠ 1) (s : σ) (hdraw : ∀ n < N, cr ≤ drawNo E.draw s n) (ht : ∀ x, (∀ i, E.idx i ≠ x) → t x = cur x) :
    (E.cross best a b cur f cr N 1 j0 s t).2 = cur := by
  funext x
  by_cases hx : ∃ i, E.idx i = x
  · obtain ⟨i, rfl⟩ := hx
    have hi := i.isLt
    have hj := j0.isLt
    refine (C55_partial E hinj best a b cur t f cr j0 hj0 s i).2 (not_lt.2 (hdraw _ ?_))
    unfold turn
    split <;> omega
  · push Not at hx
    rw [cross_other E best a b cur f cr x hx, ht x hx]

/-- **C55 is violated: too many certain mutations.** If the loop starts at parameter 1, all parameters except number 0 come from the
mutant, whatever the crossover rate. -/
theorem C55_all_violated [NeZero N] (E : Env K σ d N) (hinj : Function.Injective E.idx) (best a b cur t : Fin d → K) (f cr : K)
    (j0 : Fin N) (hj0 : j0.val = 1) (s : σ) (i : Fin N) (hi : 1 ≤ i.val) :
    (E.cross best a b cur f cr N 1 j0 s t).2 (E.idx i) = E.mutate best a b f i := by
  rw [C55_code E hinj, if_pos (Or.inr ⟨hj0, hi⟩)]

/-- Three free parameters, random numbers always 1/2. -/
def crossEnv : Env ℚ Nat 3 3 where
  obj := fun _ => 0
  idx := id
  lo := fun _ => 0
  hi := fun _ => 100
  apot := true
  draw := fun s => (s + 1, 1 / 2)
  norm := fun s => (s, 0)
  pick := fun s _ => (s, 0, 1)
  pickJ := fun s => (s, 0)
  flag := fun _ => false
  thr := 1

example : Function.Injective crossEnv.idx ∧ (∀ n < 3, (1 / 4 : ℚ) ≤ drawNo crossEnv.draw 0 n) := by
  refine ⟨fun a b h => h, ?_⟩
  decide +kernel

/-- Start at 0, 1, 2 with crossover rate 1/4: none, two, none from the mutant `best + (a - b)`. -/
example : (fun j0 => (crossEnv.cross ![10, 20, 30] ![1, 1, 1] ![0, 0, 0] ![5, 6, 7] 1 (1 / 4) 3 1 j0 0 ![5, 6, 7]).2) =
    ![![5, 6, 7], ![5, 21, 31], ![5, 6, 7]] := by
  decide +kernel

/-- Consequently the code is not a binomial crossover with one parameter chosen beforehand, in whatever turn. -/
theorem C55_not_binomial : ¬ ∃ t0 : Fin 3 → Nat, ∀ j0 i : Fin 3, t0 j0 < 3 ∧
    ((crossEnv.cross ![10, 20, 30] ![1, 1, 1] ![0, 0, 0] ![5, 6, 7] 1 (1 / 4) 3 1 j0 0 ![5, 6, 7]).2 i = ![11, 21, 31] i ↔
      Chosen crossEnv.draw 0 (1 / 4) (t0 j0) 3 j0 i) := by
  rintro ⟨t0, h⟩
  have hlt : ∀ n < 3, ¬ drawNo crossEnv.draw 0 n < 1 / 4 := by decide +kernel
  have hno : ∀ i : Fin 3, ¬ Chosen crossEnv.draw 0 (1 / 4) (t0 0) 3 (0 : Fin 3) i := by
    intro i
    rw [← (h 0 i).2]
    revert i
    decide +kernel
  have ht := (h 0 0).1
  have : Chosen crossEnv.draw 0 (1 / 4) (t0 0) 3 ((0 : Fin 3) : Nat) ((⟨t0 0, ht⟩ : Fin 3) : Nat) := by
    right
    simp [turn]
  exact hno _ this

end Verif.Props
