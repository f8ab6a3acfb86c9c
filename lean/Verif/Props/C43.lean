/-
C43  Normalisation of phases and of the Tersoff cutoffs.
-/
import Verif.Model.Tails
import Mathlib.Analysis.SpecialFunctions.Trigonometric.Basic
import Mathlib.Analysis.Real.Pi.Bounds
import Mathlib.Algebra.Order.Archimedean.Real.Basic
import Mathlib.Algebra.Order.Round
import Mathlib.Tactic.Linarith

namespace Verif.Props

open Verif.Tails

/-! ### Specification: where the parameters of a potential are, and its value -/

/-- Number of entries a potential takes: two slope entries, the parameters, the cutoff parameter. -/
def entries (f : Fn × Bool) : Nat := 2 + f.1.nPar + if f.2 then 1 else 0

/-- Position of the first parameter of potential `i`. -/
def firstParam (fs : List (Fn × Bool)) (i : Nat) : Nat := 2 + ((fs.take i).map entries).sum

/-- The value of a potential at distance `r`; parameters in `p`. (The Tersoff function is not evaluated by itself.) -/
noncomputable def valueOf (f : Fn) (r : ℝ) (p : Nat → ℝ) : ℝ :=
  match f with
  | .eopp => eoppValue r p
  | .csw2 => csw2Value r p
  | .tersoffPot => 0
  | .other _ v => v r p

/-- A function which looks at its own parameters only. -/
def Local : Fn → Prop
  | .other n v => ∀ r p q, (∀ m < n, p m = q m) → v r p = v r q
  | _ => True

/-! ### Wrapping -/

theorem down_spec (x : ℝ) (hx : 2 * Real.pi < x) :
    ∃ N y, ∃ k : ℤ, (∀ n, N ≤ n → down (· - 2 * Real.pi) n x = some y) ∧ y = x + k * (2 * Real.pi) ∧ 0 < y ∧ y ≤ 2 * Real.pi := by
  have hpi : 0 < 2 * Real.pi := by have := Real.pi_pos; linarith
  obtain ⟨M, hM⟩ := exists_nat_gt (x / (2 * Real.pi))
  have hM' : x < M * (2 * Real.pi) := (div_lt_iff₀ hpi).1 hM
  have key : ∀ (m : Nat) (x : ℝ), 2 * Real.pi < x → x < m * (2 * Real.pi) →
      ∃ N y, ∃ k : ℤ, (∀ n, N ≤ n → down (· - 2 * Real.pi) n x = some y) ∧ y = x + k * (2 * Real.pi) ∧ 0 < y ∧ y ≤ 2 * Real.pi := by
    intro m
    induction m with
    | zero =>
      intro x h1 h2
      simp only [Nat.cast_zero, zero_mul] at h2
      linarith
    | succ m ih =>
      intro x h1 h2
      by_cases h : x - 2 * Real.pi > 2 * Real.pi
      · obtain ⟨N, y, k, e1, e2, e3⟩ := ih (x - 2 * Real.pi) h (by push_cast at h2; linarith)
        refine ⟨N + 1, y, k - 1, ?_, ?_, e3⟩
        · intro n hn
          obtain ⟨n, rfl⟩ : ∃ n', n = n' + 1 := ⟨n - 1, by omega⟩
          rw [down, if_pos h]
          exact e1 n (by omega)
        · rw [e2]
          push_cast
          ring
      · refine ⟨1, x - 2 * Real.pi, -1, ?_, by push_cast; ring, by linarith, by linarith⟩
        intro n hn
        obtain ⟨n, rfl⟩ : ∃ n', n = n' + 1 := ⟨n - 1, by omega⟩
        rw [down, if_neg h]
  exact key M x hx hM'

theorem up_spec (x : ℝ) (hx : x < 0) :
    ∃ N y, ∃ k : ℤ, (∀ n, N ≤ n → up (· + 2 * Real.pi) n x = some y) ∧ y = x + k * (2 * Real.pi) ∧ 0 ≤ y ∧ y ≤ 2 * Real.pi := by
  have hpi : 0 < 2 * Real.pi := by have := Real.pi_pos; linarith
  obtain ⟨M, hM⟩ := exists_nat_gt (-x / (2 * Real.pi))
  have hM' : -x < M * (2 * Real.pi) := (div_lt_iff₀ hpi).1 hM
  have key : ∀ (m : Nat) (x : ℝ), x < 0 → -x < m * (2 * Real.pi) →
      ∃ N y, ∃ k : ℤ, (∀ n, N ≤ n → up (· + 2 * Real.pi) n x = some y) ∧ y = x + k * (2 * Real.pi) ∧ 0 ≤ y ∧ y ≤ 2 * Real.pi := by
    intro m
    induction m with
    | zero =>
      intro x h1 h2
      simp only [Nat.cast_zero, zero_mul] at h2
      linarith
    | succ m ih =>
      intro x h1 h2
      by_cases h : x + 2 * Real.pi < 0
      · obtain ⟨N, y, k, e1, e2, e3⟩ := ih (x + 2 * Real.pi) h (by push_cast at h2; linarith)
        refine ⟨N + 1, y, k + 1, ?_, ?_, e3⟩
        · intro n hn
          obtain ⟨n, rfl⟩ : ∃ n', n = n' + 1 := ⟨n - 1, by omega⟩
          rw [up, if_pos h]
          exact e1 n (by omega)
        · rw [e2]
          push_cast
          ring
      · refine ⟨1, x + 2 * Real.pi, 1, ?_, by push_cast; ring, by linarith, by linarith⟩
        intro n hn
        obtain ⟨n, rfl⟩ : ∃ n', n = n' + 1 := ⟨n - 1, by omega⟩
        rw [up, if_neg h]
  exact key M x hx hM'

/-- Wrapping ends, inside the interval, at a value differing by a multiple of the period; values inside the interval are kept. -/
theorem wrap_spec (x : ℝ) :
    ∃ N y, ∃ k : ℤ, (∀ n, N ≤ n → wrap n x = some y) ∧ y = x + k * (2 * Real.pi) ∧ 0 ≤ y ∧ y ≤ 2 * Real.pi ∧
      (0 ≤ x → x ≤ 2 * Real.pi → y = x) := by
  unfold wrap
  by_cases h1 : x > 2 * Real.pi
  · obtain ⟨N, y, k, e1, e2, e3, e4⟩ := down_spec x h1
    refine ⟨N, y, k, ?_, e2, e3.le, e4, fun _ h => absurd h (not_le.2 h1)⟩
    intro n hn
    rw [if_pos h1, e1 n hn]
    simp only [Option.bind_eq_bind, Option.bind_some]
    rw [if_neg (not_lt.2 e3.le)]
  · by_cases h2 : x < 0
    · obtain ⟨N, y, k, e1, e2, e3, e4⟩ := up_spec x h2
      refine ⟨N, y, k, ?_, e2, e3, e4, fun h _ => absurd h (not_le.2 h2)⟩
      intro n hn
      rw [if_neg h1]
      simp only [Option.bind_eq_bind, Option.bind_some]
      rw [if_pos h2, e1 n hn]
    · refine ⟨0, x, 0, ?_, by simp, not_lt.1 h2, not_lt.1 h1, fun _ _ => rfl⟩
      intro n _
      rw [if_neg h1]
      simp only [Option.bind_eq_bind, Option.bind_some]
      rw [if_neg h2]

theorem cos_shift (t : ℝ) (x : ℝ) (k : ℤ) : Real.cos (t + (x + k * (2 * Real.pi))) = Real.cos (t + x) := by
  rw [← add_assoc]
  exact Real.cos_add_int_mul_two_pi _ k

/-! ### One potential -/

/-- What is to hold for a potential `f` with parameters from `j` on, before `p` and after `q`. -/
def Normalised (tersoff : Bool) (f : Fn) (j : Nat) (p q : Nat → ℝ) : Prop :=
  (∀ r, valueOf f r (fun m => q (j + m)) = valueOf f r (fun m => p (j + m))) ∧
  (f = .eopp → 0 ≤ q (j + 5) ∧ q (j + 5) ≤ 2 * Real.pi ∧ ∀ m < 5, q (j + m) = p (j + m)) ∧
  (f = .csw2 → 0 ≤ q (j + 2) ∧ q (j + 2) ≤ 2 * Real.pi ∧ ∀ m < 4, m ≠ 2 → q (j + m) = p (j + m)) ∧
  (f = .tersoffPot → tersoff = true → q (j + 10) = min (p (j + 9)) (p (j + 10)) ∧ q (j + 9) = max (p (j + 9)) (p (j + 10)) ∧
    ∀ m < 9, q (j + m) = p (j + m))

theorem checkOne_spec (tersoff : Bool) (f : Fn) (j : Nat) (p : Nat → ℝ) :
    ∃ N q, (∀ n, N ≤ n → checkOne tersoff n f j p = some q) ∧ Normalised tersoff f j p q ∧
      ∀ m, (m < j ∨ j + f.nPar ≤ m) → q m = p m := by
  cases f with
  | eopp =>
    obtain ⟨N, y, k, e1, e2, e3, e4, -⟩ := wrap_spec (p (j + 5))
    refine ⟨N, Function.update p (j + 5) y, ?_, ⟨?_, ?_, ?_, ?_⟩, ?_⟩
    · intro n hn
      simp only [checkOne, e1 n hn, Option.map_some]
    · intro r
      simp only [valueOf, eoppValue]
      have h5 : Function.update p (j + 5) y (j + 5) = y := Function.update_self ..
      have hm : ∀ m, m ≠ 5 → Function.update p (j + 5) y (j + m) = p (j + m) := fun m hm =>
        Function.update_of_ne (by omega) ..
      rw [h5, hm 0 (by omega), hm 1 (by omega), hm 2 (by omega), hm 3 (by omega), hm 4 (by omega), e2, cos_shift]
    · intro _
      rw [Function.update_self]
      exact ⟨e3, e4, fun m hm => Function.update_of_ne (by omega) ..⟩
    · intro h; cases h
    · intro h; cases h
    · intro m hm
      refine Function.update_of_ne ?_ ..
      simp only [Fn.nPar] at hm
      omega
  | csw2 =>
    obtain ⟨N, y, k, e1, e2, e3, e4, -⟩ := wrap_spec (p (j + 2))
    refine ⟨N, Function.update p (j + 2) y, ?_, ⟨?_, ?_, ?_, ?_⟩, ?_⟩
    · intro n hn
      simp only [checkOne, e1 n hn, Option.map_some]
    · intro r
      simp only [valueOf, csw2Value]
      have h5 : Function.update p (j + 2) y (j + 2) = y := Function.update_self ..
      have hm : ∀ m, m ≠ 2 → Function.update p (j + 2) y (j + m) = p (j + m) := fun m hm =>
        Function.update_of_ne (by omega) ..
      rw [h5, hm 0 (by omega), hm 1 (by omega), hm 3 (by omega), e2, cos_shift]
    · intro h; cases h
    · intro _
      rw [Function.update_self]
      exact ⟨e3, e4, fun m _ hm => Function.update_of_ne (by omega) ..⟩
    · intro h; cases h
    · intro m hm
      refine Function.update_of_ne ?_ ..
      simp only [Fn.nPar] at hm
      omega
  | tersoffPot =>
    by_cases h : tersoff = true ∧ p (j + 9) < p (j + 10)
    · refine ⟨0, Function.update (Function.update p (j + 9) (p (j + 10))) (j + 10) (p (j + 9)),
        fun n _ => by simp only [checkOne]; rw [if_pos h], ⟨fun r => rfl, ?_, ?_, ?_⟩, ?_⟩
      · intro h; cases h
      · intro h; cases h
      · intro _ _
        refine ⟨?_, ?_, ?_⟩
        · rw [Function.update_self, min_eq_left h.2.le]
        · rw [Function.update_of_ne (by omega), Function.update_self, max_eq_right h.2.le]
        · intro m hm
          rw [Function.update_of_ne (by omega), Function.update_of_ne (by omega)]
      · intro m hm
        simp only [Fn.nPar] at hm
        rw [Function.update_of_ne (by omega), Function.update_of_ne (by omega)]
    · refine ⟨0, p, fun n _ => by simp only [checkOne]; rw [if_neg h], ⟨fun r => rfl, ?_, ?_, ?_⟩, fun m _ => rfl⟩
      · intro h; cases h
      · intro h; cases h
      · intro _ ht
        have h2 : ¬p (j + 9) < p (j + 10) := fun h3 => h ⟨ht, h3⟩
        exact ⟨by rw [min_eq_right (not_lt.1 h2)], by rw [max_eq_left (not_lt.1 h2)], fun m _ => rfl⟩
  | other k v =>
    refine ⟨0, p, fun n _ => rfl, ⟨fun r => rfl, ?_, ?_, ?_⟩, fun m _ => rfl⟩
    · intro h; cases h
    · intro h; cases h
    · intro h; cases h

theorem normalised_congr {tersoff : Bool} {f : Fn} {j : Nat} {p p' q q' : Nat → ℝ} (hf : Local f)
    (hp : ∀ m < f.nPar, p' (j + m) = p (j + m)) (hq : ∀ m < f.nPar, q' (j + m) = q (j + m))
    (h : Normalised tersoff f j p q) : Normalised tersoff f j p' q' := by
  cases f with
  | eopp =>
    simp only [Fn.nPar] at hp hq
    obtain ⟨h1, h2, -, -⟩ := h
    refine ⟨fun r => ?_, fun _ => ?_, fun h => (nomatch h), fun h => (nomatch h)⟩
    · have := h1 r
      simp only [valueOf, eoppValue] at this ⊢
      rw [hp 0 (by omega), hp 1 (by omega), hp 2 (by omega), hp 3 (by omega), hp 4 (by omega), hp 5 (by omega),
        hq 0 (by omega), hq 1 (by omega), hq 2 (by omega), hq 3 (by omega), hq 4 (by omega), hq 5 (by omega)]
      exact this
    · rw [hq 5 (by omega)]
      obtain ⟨a, b, c⟩ := h2 rfl
      exact ⟨a, b, fun m hm => by rw [hq m (by omega), hp m (by omega)]; exact c m hm⟩
  | csw2 =>
    simp only [Fn.nPar] at hp hq
    obtain ⟨h1, -, h2, -⟩ := h
    refine ⟨fun r => ?_, fun h => (nomatch h), fun _ => ?_, fun h => (nomatch h)⟩
    · have := h1 r
      simp only [valueOf, csw2Value] at this ⊢
      rw [hp 0 (by omega), hp 1 (by omega), hp 2 (by omega), hp 3 (by omega),
        hq 0 (by omega), hq 1 (by omega), hq 2 (by omega), hq 3 (by omega)]
      exact this
    · rw [hq 2 (by omega)]
      obtain ⟨a, b, c⟩ := h2 rfl
      exact ⟨a, b, fun m hm hne => by rw [hq m (by omega), hp m (by omega)]; exact c m hm hne⟩
  | tersoffPot =>
    simp only [Fn.nPar] at hp hq
    obtain ⟨-, -, -, h2⟩ := h
    refine ⟨fun r => rfl, fun h => (nomatch h), fun h => (nomatch h), fun _ ht => ?_⟩
    rw [hq 10 (by omega), hq 9 (by omega), hp 9 (by omega), hp 10 (by omega)]
    obtain ⟨a, b, c⟩ := h2 rfl ht
    exact ⟨a, b, fun m hm => by rw [hq m (by omega), hp m (by omega)]; exact c m hm⟩
  | other k v =>
    simp only [Fn.nPar] at hp hq
    obtain ⟨h1, -, -, -⟩ := h
    refine ⟨fun r => ?_, fun h => (nomatch h), fun h => (nomatch h), fun h => (nomatch h)⟩
    have := h1 r
    simp only [valueOf] at this ⊢
    rw [hf r _ _ fun m hm => hq m hm, this]
    exact (hf r _ _ fun m hm => hp m hm).symm

theorem checkFrom_spec (tersoff : Bool) (fs : List (Fn × Bool)) (hf : ∀ f ∈ fs, Local f.1) (j : Nat) (p : Nat → ℝ) :
    ∃ N q, (∀ n, N ≤ n → checkFrom tersoff n fs j p = some q) ∧
      (∀ i f, fs[i]? = some f → Normalised tersoff f.1 (j + ((fs.take i).map entries).sum) p q) ∧
      (∀ m, (m < j ∨ ∀ i f, fs[i]? = some f → m < j + ((fs.take i).map entries).sum ∨
        j + ((fs.take i).map entries).sum + f.1.nPar ≤ m) → q m = p m) := by
  induction fs generalizing j p with
  | nil => exact ⟨0, p, fun n _ => rfl, fun i f h => by simp at h, fun m _ => rfl⟩
  | cons x fs ih =>
    obtain ⟨f, sm⟩ := x
    obtain ⟨N1, p1, a1, a2, a3⟩ := checkOne_spec tersoff f j p
    obtain ⟨N2, q, b1, b2, b3⟩ := ih (fun f hf' => hf f (List.mem_cons_of_mem _ hf')) (j + entries (f, sm)) p1
    have hge : j + f.nPar ≤ j + entries (f, sm) := by unfold entries; simp only; omega
    refine ⟨max N1 N2, q, ?_, ?_, ?_⟩
    · intro n hn
      unfold checkFrom
      rw [a1 n (le_trans (le_max_left _ _) hn)]
      exact b1 n (le_trans (le_max_right _ _) hn)
    · intro i g hi
      cases i with
      | zero =>
        simp only [List.getElem?_cons_zero, Option.some.injEq] at hi
        subst hi
        simp only [List.take_zero, List.map_nil, List.sum_nil, Nat.add_zero]
        refine normalised_congr (hf (f, sm) (by simp)) (fun m _ => rfl) (fun m hm => ?_) a2
        exact b3 _ (Or.inl (by omega))
      | succ i =>
        simp only [List.getElem?_cons_succ] at hi
        have := b2 i g hi
        simp only [List.take_succ_cons, List.map_cons, List.sum_cons, ← Nat.add_assoc]
        refine normalised_congr (hf _ (List.mem_cons_of_mem _ (List.mem_of_getElem? hi))) (fun m hm => ?_) (fun m _ => rfl) this
        exact (a3 _ (Or.inr (by omega))).symm
    · intro m hm
      have h0 : m < j ∨ j + f.nPar ≤ m := by
        rcases hm with h | h
        · exact Or.inl h
        · have := h 0 (f, sm) rfl
          simpa using this
      rw [b3 m ?_, a3 m h0]
      rcases hm with h | h
      · exact Or.inl (by omega)
      · refine Or.inr fun i g hi => ?_
        have := h (i + 1) g (by simpa using hi)
        simp only [List.take_succ_cons, List.map_cons, List.sum_cons, ← Nat.add_assoc] at this
        exact this

/-- **C43, in exact arithmetic.** For every list of potentials and every parameter vector `apot_check_params` ends; afterwards every
phase lies in `[0, 2 pi]`, the Tersoff cutoffs are ordered (and are the old ones), every potential has the same value at every
distance as before, and entries which are not parameters of a potential are unchanged. Missing for the full claim: rounding, see
`C43_rounding_violated`. -/
theorem C43_partial (tersoff : Bool) (fs : List (Fn × Bool)) (hf : ∀ f ∈ fs, Local f.1) (p : Nat → ℝ) :
    ∃ N q, (∀ n, N ≤ n → checkParams tersoff n fs p = some q) ∧
      (∀ i f, fs[i]? = some f → Normalised tersoff f.1 (firstParam fs i) p q) ∧
      (∀ m, (m < 2 ∨ ∀ i f, fs[i]? = some f → m < firstParam fs i ∨ firstParam fs i + f.1.nPar ≤ m) → q m = p m) := by
  unfold checkParams firstParam
  exact checkFrom_spec tersoff fs hf 2 p

/-- Three potentials; the first two need wrapping, the third one has its cutoffs in the wrong order. -/
example : ∃ N q, (∀ n, N ≤ n → checkParams true n [(.eopp, true), (.csw2, false), (.tersoffPot, false)]
      (fun m => if m = 7 then -1 else if m = 13 then 7 else if m = 28 then 3 else 1) = some q) ∧
    (0 ≤ q 7 ∧ q 7 ≤ 2 * Real.pi) ∧ (0 ≤ q 13 ∧ q 13 ≤ 2 * Real.pi) ∧ q 26 = 1 ∧ q 27 = 1 := by
  obtain ⟨N, q, h1, h2, h3⟩ := C43_partial true [(.eopp, true), (.csw2, false), (.tersoffPot, false)]
    (by intro f hf; simp only [List.mem_cons, List.not_mem_nil, or_false] at hf; rcases hf with rfl | rfl | rfl <;> trivial)
    (fun m => if m = 7 then -1 else if m = 13 then 7 else if m = 28 then 3 else 1)
  refine ⟨N, q, h1, ?_, ?_, ?_⟩
  · have := (h2 0 (.eopp, true) rfl).2.1 rfl
    exact ⟨this.1, this.2.1⟩
  · have := (h2 1 (.csw2, false) rfl).2.2.1 rfl
    exact ⟨this.1, this.2.1⟩
  · have := (h2 2 (.tersoffPot, false) rfl).2.2.2 rfl rfl
    simp only [firstParam, List.take_succ_cons, List.take_zero, List.map_cons, List.map_nil, entries, Fn.nPar] at this
    norm_num at this
    exact ⟨this.2.1, this.1⟩

/-- Subtraction of `2 pi` in double precision for numbers from `2^56` to `2^57`, where neighbouring doubles differ by 16. -/
noncomputable def subDouble (x : ℝ) : ℝ := 16 * (round ((x - 2 * Real.pi) / 16) : ℤ)

/-- **C43, termination with rounding: violated.** For a phase of `2^56 + 16` the difference is rounded to the phase itself, so that the
loop does not end. -/
theorem C43_rounding_violated (n : Nat) : down subDouble n (2 ^ 56 + 16) = none := by
  have hfix : subDouble (2 ^ 56 + 16) = 2 ^ 56 + 16 := by
    unfold subDouble
    have h : round (((2 : ℝ) ^ 56 + 16 - 2 * Real.pi) / 16) = 2 ^ 52 + 1 := by
      rw [round_eq, Int.floor_eq_iff]
      have h1 := Real.pi_gt_three
      have h2 := Real.pi_lt_four
      push_cast
      constructor
      · linarith
      · linarith
    rw [h]
    push_cast
    norm_num
  induction n with
  | zero => rfl
  | succ n ih =>
    rw [down, hfix, if_pos, ih]
    have := Real.pi_lt_four
    norm_num
    linarith

end Verif.Props
