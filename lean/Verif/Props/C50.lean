/-
C50  Tersoff mixing parameters.
-/
import Verif.Props.C49

namespace Verif.Props

open Verif.PairIndex Verif.Pointers Verif.Spec

/-! ### Specification -/

/-- Columns of pairs of like atoms. -/
def likeColumn (n c : Nat) : Bool := (List.range n).any fun t => pairCol n t t == c

/-- Columns of unlike pairs in front of column `c`. -/
def unlikeBefore (n c : Nat) : Nat := ((List.range c).filter fun d => !likeColumn n d).length

/-- First parameter of the first mixing potential: it follows `n(n+1)/2` potentials with 11 parameters; mixing potentials have 2
parameters each, and each potential two entries more. -/
def mixFirst (n : Nat) : Nat := 2 + (11 + 2) * (n * (n + 1) / 2)

/-- What column `c` should use. -/
def wantedMix (n c : Nat) : Ptr × Ptr :=
  if likeColumn n c then (.one, .one)
  else (.entry (mixFirst n + (2 + 2) * unlikeBefore n c), .entry (mixFirst n + (2 + 2) * unlikeBefore n c + 1))

/-! ### The loop -/

/-- Number of turns in front of `c` which take parameters. -/
def taken (n c : Nat) : Nat := ((List.range c).filter fun d => !decide (d % n = 0)).length

theorem taken_succ (n c : Nat) : taken n (c + 1) = taken n c + if c % n = 0 then 0 else 1 := by
  unfold taken
  rw [List.range_succ, List.filter_append, List.length_append]
  by_cases h : c % n = 0 <;> simp [h]

/-- What the code sets for column `c`. -/
def mixGiven (n g : Nat) (us : List Use) (c : Nat) : Ptr × Ptr :=
  us.foldl (mixUse n g c) (if c % n = 0 then (.one, .one)
    else (.entry (mixBase n + 4 * taken n c), .entry (mixBase n + 4 * taken n c + 1)))

theorem mix_fold (n g : Nat) (us : List Use) (m : Nat) :
    (List.range m).foldl (mixOne n g us) (mixBase n, []) = (mixBase n + 4 * taken n m, (List.range m).map (mixGiven n g us)) := by
  induction m with
  | zero => rfl
  | succ m ih =>
    rw [List.range_succ, List.foldl_append, ih, List.foldl_cons, List.foldl_nil, mixOne, taken_succ, List.map_append, List.map_cons,
      List.map_nil, mixGiven]
    by_cases h : m % n = 0
    · simp [h]
    · simp only [h, if_false, Prod.mk.injEq, and_true]
      ring

theorem mixBase_eq (n : Nat) : mixBase n = mixFirst n := by
  unfold mixBase mixFirst
  rw [advance_eq]
  rfl

theorem mix_get (n g : Nat) (us : List Use) (c : Nat) (hc : c < n * (n + 1) / 2) : (mix n g us)[c]? = some (mixGiven n g us c) := by
  unfold mix
  rw [mix_fold]
  simp [show c < paircol n from hc]

theorem mixGiven_none (n g : Nat) (us : List Use) (hus : ∀ u ∈ us, u.pot < n * (n + 1) / 2) (c : Nat) :
    mixGiven n g us c = mixGiven n g [] c := by
  unfold mixGiven
  rw [List.foldl_nil]
  generalize (if c % n = 0 then (Ptr.one, Ptr.one) else _ : Ptr × Ptr) = p
  induction us generalizing p with
  | nil => rfl
  | cons u us ih =>
    have h := hus u (by simp)
    rw [List.foldl_cons, mixUse, if_neg (by rw [show n * (n + 1) / 2 = paircol n from rfl] at h; omega)]
    exact ih (fun v hv => hus v (by simp [hv])) p

/-- **C50 for one and two types** if no mixing parameter is global. Missing for the full claim: three and more types, see
`C50_violated`, and global mixing parameters, see `C50_global_violated`. -/
theorem C50_partial (n g : Nat) (hn : n = 1 ∨ n = 2) (us : List Use) (hus : ∀ u ∈ us, u.pot < n * (n + 1) / 2) (c : Nat)
    (hc : c < n * (n + 1) / 2) : (mix n g us)[c]? = some (wantedMix n c) := by
  rw [mix_get n g us c hc, mixGiven_none n g us hus, show mixGiven n g [] c = mixGiven n 0 [] c from rfl]
  rcases hn with rfl | rfl
  · have : c = 0 := by omega
    subst this
    decide
  · have : c = 0 ∨ c = 1 ∨ c = 2 := by omega
    rcases this with rfl | rfl | rfl <;> decide

example : (mix 2 60 [⟨0, 2, 4⟩])[1]? = some (.entry 41, .entry 42) :=
  C50_partial 2 60 (Or.inr rfl) [⟨0, 2, 4⟩] (by simp) 1 (by decide)

theorem last_mod (n : Nat) (hn : 3 ≤ n) : (paircol n - 1) % n ≠ 0 := by
  intro h
  obtain ⟨q, hq⟩ := Nat.dvd_of_mod_eq_zero h
  have h1 := paircol_two n
  have h2 := paircol_pos (n := n) (by omega)
  have h3 : n * (2 * q) + 2 = n * (n + 1) := by
    have : paircol n = n * q + 1 := by omega
    rw [← h1, this]
    ring
  have h4 : n ∣ 2 := by
    have h5 : n ∣ n * (2 * q) + 2 := by rw [h3]; exact Dvd.intro _ rfl
    exact (Nat.dvd_add_right (Dvd.intro _ rfl)).1 h5
  have := Nat.le_of_dvd (by decide) h4
  omega

theorem like_last (n : Nat) (hn : 1 ≤ n) : likeColumn n (paircol n - 1) = true := by
  unfold likeColumn
  rw [List.any_eq_true]
  exact ⟨n - 1, by rw [List.mem_range]; omega, by rw [pairCol_last' hn]; simp⟩

/-- Multiples of `n` below `m`: at most `m / n` rounded up. -/
theorem multiples_le (n m : Nat) (hn : 0 < n) : n * (m - taken n m) ≤ m + n - 1 := by
  induction m with
  | zero =>
    simp [taken]
  | succ m ih =>
    rw [taken_succ]
    have htm : taken n m ≤ m := by
      unfold taken
      exact (List.length_filter_le _ _).trans (by simp)
    by_cases h : m % n = 0
    · rw [if_pos h]
      obtain ⟨q, hq⟩ := Nat.dvd_of_mod_eq_zero h
      have e : m + 1 - (taken n m + 0) = (m - taken n m) + 1 := by omega
      rw [e, Nat.mul_add, Nat.mul_one]
      have h1 : m - taken n m ≤ q := by
        by_contra hc
        have h2 : q + 1 ≤ m - taken n m := by omega
        have h3 := Nat.mul_le_mul_left n h2
        rw [Nat.mul_add, Nat.mul_one, ← hq] at h3
        omega
      have h4 := Nat.mul_le_mul_left n h1
      rw [← hq] at h4
      omega
    · rw [if_neg h, show m + 1 - (taken n m + 1) = m - taken n m by omega]
      omega

/-- **C50 is violated for three and more types.** The last column belongs to two atoms of the last type, but its mixing parameters are not
the constant 1. The entries it uses lie behind the parameters of all `n(n-1)/2` mixing potentials. -/
theorem C50_violated (n : Nat) (hn : 3 ≤ n) :
    likeColumn n (n * (n + 1) / 2 - 1) = true ∧
    ∃ a, (mix n 0 [])[n * (n + 1) / 2 - 1]? = some (.entry a, .entry (a + 1)) ∧ mixFirst n + (2 + 2) * (n * (n - 1) / 2) ≤ a := by
  have hp : 1 ≤ paircol n := paircol_pos (by omega)
  have h2 := paircol_two n
  refine ⟨like_last n (by omega), mixFirst n + 4 * taken n (paircol n - 1), ?_, ?_⟩
  · rw [mix_get n 0 [] _ (by rw [show n * (n + 1) / 2 = paircol n from rfl]; omega), mixGiven, List.foldl_nil,
      show n * (n + 1) / 2 = paircol n from rfl, if_neg (last_mod n hn), mixBase_eq]
  · have h3 := multiples_le n (paircol n - 1) (by omega)
    have h4 : 2 * (n * (n - 1) / 2) = n * (n - 1) := by
      obtain ⟨m, rfl⟩ : ∃ m, n = m + 1 := ⟨n - 1, by omega⟩
      rw [Nat.add_sub_cancel, Nat.mul_comm (m + 1) m]
      exact two_dvd_mul_succ m
    have h5 : n * (n - 1) / 2 ≤ taken n (paircol n - 1) := by
      obtain ⟨m, rfl⟩ : ∃ m, n = m + 3 := ⟨n - 3, by omega⟩
      rw [show m + 3 - 1 = m + 2 by omega] at h4
      by_contra hc
      have h6 : m + 3 ≤ paircol (m + 3) - 1 - taken (m + 3) (paircol (m + 3) - 1) := by
        have h7 : (m + 3) * (m + 3 - 1) / 2 = paircol (m + 3) - (m + 3) := by
          rw [show m + 3 - 1 = m + 2 by omega]
          have : 2 * (paircol (m + 3) - (m + 3)) = (m + 3) * (m + 2) := by
            have : 2 * paircol (m + 3) = (m + 3) * (m + 2) + 2 * (m + 3) := by rw [h2]; ring
            omega
          omega
        have h8 : m + 3 ≤ paircol (m + 3) := by nlinarith
        omega
      have h7 := Nat.mul_le_mul_left (m + 3) h6
      have h8 : (m + 3) * (m + 3) ≤ paircol (m + 3) - 1 + (m + 3) - 1 := h7.trans h3
      have h9 : paircol (m + 3) - 1 + (m + 3) - 1 = paircol (m + 3) + m + 1 := by omega
      rw [h9] at h8
      nlinarith
    omega

example : (mix 3 0 [])[5]? = some (.entry (mixFirst 3 + 12), .entry (mixFirst 3 + 13)) := by decide

/-- **Global mixing parameters belong to the wrong pair.** If the parameter `chi` of the first mixing potential, that of the types 0 and 1,
is global, the column of the pair (0, 0) gets it, and the column of the pair (0, 1) does not; for every number of types. -/
theorem C50_global_violated (n g glob : Nat) (hn : 2 ≤ n) :
    (mix n g [⟨glob, n * (n + 1) / 2, 0⟩])[pairCol n 0 0]? = some (.entry (g + glob), .one) ∧
    (mix n g [⟨glob, n * (n + 1) / 2, 0⟩])[pairCol n 0 1]? = some (wantedMix n 1) := by
  have h0 : pairCol n 0 0 = 0 := by simp [pairCol]
  have h1 : pairCol n 0 1 = 1 := by simp [pairCol]
  have hp : 2 < n * (n + 1) / 2 := by
    have := paircol_two n
    rw [show n * (n + 1) / 2 = paircol n from rfl]
    nlinarith
  rw [h0, h1, mix_get _ _ _ _ (by omega), mix_get _ _ _ _ (by omega)]
  constructor
  · simp [mixGiven, mixUse, paircol]
  · have hl : likeColumn n 0 = true := by
      unfold likeColumn
      rw [List.any_eq_true]
      exact ⟨0, by rw [List.mem_range]; omega, by rw [h0]; rfl⟩
    have hl1 : likeColumn n 1 = false := by
      unfold likeColumn
      rw [List.any_eq_false]
      intro t ht
      rw [List.mem_range] at ht
      intro h
      have h2 : pairCol n t t = pairCol n 0 1 := by rw [h1]; simpa using h
      have := C01_injective ht ht (by omega : 0 < n) (by omega : 1 < n) h2
      omega
    have hm : 1 % n ≠ 0 := by rw [Nat.mod_eq_of_lt (by omega)]; decide
    simp [mixGiven, mixUse, paircol, wantedMix, hl1, hm, unlikeBefore, taken, List.range_succ, hl, mixBase_eq]

/-- The same for `omega`, the second parameter: it takes the place of `omega` and `chi` stays, but for the pair (0, 0). -/
theorem C50_global_omega_violated (n g glob : Nat) (hn : 2 ≤ n) :
    (mix n g [⟨glob, n * (n + 1) / 2, 1⟩])[pairCol n 0 0]? = some (.one, .entry (g + glob)) := by
  have h0 : pairCol n 0 0 = 0 := by simp [pairCol]
  have hp : 2 < n * (n + 1) / 2 := by
    have := paircol_two n
    rw [show n * (n + 1) / 2 = paircol n from rfl]
    nlinarith
  rw [h0, mix_get _ _ _ _ (by omega)]
  simp [mixGiven, mixUse, paircol]

example : (mix 2 60 [⟨1, 3, 0⟩, ⟨4, 3, 1⟩])[0]? = some (.entry 61, .entry 64) := by decide

end Verif.Props
