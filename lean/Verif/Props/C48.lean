/-
C48  Export of Stillinger-Weber potentials to LAMMPS.
-/
import Verif.Model.LammpsSw
import Verif.Lemmas.PairIndex
import Mathlib.Tactic.FieldSimp
import Mathlib.Tactic.Positivity
import Mathlib.Tactic.NormNum

namespace Verif.Props

open Verif.PairIndex Verif.LammpsSw

/-! ### Specification

The functions which LAMMPS evaluates, from the documentation of `pair_style sw`: the pair function of types `i j` uses the line `i j j`;
the three-body function of `i j k` uses `lambda`, `epsilon`, `costheta0` of the line `i j k`, and `gamma`, `sigma`, `a` of the lines
`i j j` and `i k k`. -/

noncomputable def lammps2 (e : Entry) (r : ℝ) : ℝ :=
  if r < e.a * e.sigma then
    e.A * e.epsilon * (e.B * (e.sigma / r) ^ e.p - (e.sigma / r) ^ e.q) * Real.exp (e.sigma / (r - e.a * e.sigma))
  else 0

noncomputable def lammps3 (ij ik ijk : Entry) (rj rk cos : ℝ) : ℝ :=
  if rj < ij.a * ij.sigma ∧ rk < ik.a * ik.sigma then
    ijk.lambda * ijk.epsilon * (cos - ijk.costheta0) ^ 2 * Real.exp (ij.gamma * ij.sigma / (rj - ij.a * ij.sigma))
      * Real.exp (ik.gamma * ik.sigma / (rk - ik.a * ik.sigma))
  else 0

/-! ### The entries -/

theorem entry_ok (s : Sw) (n i j k : Nat) (hd : 0 < s.delta (pairCol n i j)) (hB : s.B (pairCol n i j) ≠ 0) :
    ∃ e, entry s n i j k = .ok e ∧ e.epsilon = 1 ∧ e.sigma = s.delta (pairCol n i j) ∧ e.a * e.sigma = s.a1 (pairCol n i j) ∧
      e.lambda = s.lam i j k ∧ e.gamma * e.sigma = s.gamma (pairCol n i j) ∧ e.costheta0 = -1 / 3 ∧
      e.A * e.sigma ^ e.q = s.B (pairCol n i j) ∧ e.A * e.B * e.sigma ^ e.p = s.A (pairCol n i j) ∧
      e.p = s.p (pairCol n i j) ∧ e.q = s.q (pairCol n i j) := by
  have h1 := (Real.rpow_pos_of_pos hd (s.p (pairCol n i j))).ne'
  have h2 := (Real.rpow_pos_of_pos hd (s.q (pairCol n i j))).ne'
  have hd' := hd.ne'
  unfold entry
  simp only [one_mul]
  rw [cdiv_ok h1, cdiv_ok h2, cdiv_ok hd', cdiv_ok one_ne_zero, cdiv_ok hd']
  simp only [bind, Except.bind]
  rw [cdiv_ok hB]
  simp only
  rw [cdiv_ok (one_div_ne_zero h2)]
  refine ⟨_, rfl, rfl, rfl, ?_, ?_, ?_, rfl, ?_, ?_, rfl, rfl⟩
  · field_simp
  · simp
  · field_simp
  · field_simp
  · field_simp

/-- **C48, pair functions.** If `delta > 0` and `B ≠ 0`, the pair function of the exported parameters is the fitted one at every distance,
for every pair of types in both orders. -/
theorem C48_pair (s : Sw) (n i j : Nat) (hd : 0 < s.delta (pairCol n i j)) (hB : s.B (pairCol n i j) ≠ 0) :
    ∃ e, entry s n i j j = .ok e ∧ ∀ r, 0 < r → lammps2 e r = v2 s (pairCol n i j) r ∧ lammps2 e r = v2 s (pairCol n j i) r := by
  obtain ⟨e, h0, h1, h2, h3, -, -, -, h7, h8, h9, h10⟩ := entry_ok s n i j j hd hB
  refine ⟨e, h0, fun r hr => ?_⟩
  rw [pairCol_comm (n := n) (i := j) (j := i), and_self]
  have hs : 0 < e.sigma := h2 ▸ hd
  unfold lammps2 v2
  rw [h3]
  split
  · simp only
    rw [Real.div_rpow hs.le hr.le, Real.div_rpow hs.le hr.le, h1, mul_one]
    rw [← h9, ← h10, Real.rpow_neg hr.le, Real.rpow_neg hr.le, ← h8, ← h7, h2]
    have e1 : s.delta (pairCol n i j) / (r - s.a1 (pairCol n i j)) = s.delta (pairCol n i j) * (1 / (r - s.a1 (pairCol n i j))) := by
      rw [mul_one_div]
    rw [e1]
    congr 1
    have h3 := (Real.rpow_pos_of_pos hr e.p).ne'
    have h4 := (Real.rpow_pos_of_pos hr e.q).ne'
    field_simp
    ring
  · rfl

/-- **C48, three-body functions.** If moreover both pairs of types have the same cutoff in the pair and three-body function, the
three-body functions agree at every distance and angle, except in the last hundredth of `gamma` before the cutoff, where the
fitted function is 0 and the exported one is below `2 |lambda| exp(-100)`.
Missing for the full claim: different cutoffs, see `C48_cutoff_violated`. -/
theorem C48_three_partial (s : Sw) (n i j k : Nat) (hdj : 0 < s.delta (pairCol n i j)) (hdk : 0 < s.delta (pairCol n i k))
    (hBj : s.B (pairCol n i j) ≠ 0) (hBk : s.B (pairCol n i k) ≠ 0) (haj : s.a1 (pairCol n i j) = s.a2 (pairCol n i j))
    (hak : s.a1 (pairCol n i k) = s.a2 (pairCol n i k)) :
    ∃ ij ik ijk, entry s n i j j = .ok ij ∧ entry s n i k k = .ok ik ∧ entry s n i j k = .ok ijk ∧
      (∀ rj rk cos, rj < s.a2 (pairCol n i j) - 0.01 * s.gamma (pairCol n i j) →
        rk < s.a2 (pairCol n i k) - 0.01 * s.gamma (pairCol n i k) →
        0 ≤ s.gamma (pairCol n i j) → 0 ≤ s.gamma (pairCol n i k) → lammps3 ij ik ijk rj rk cos = v3 s n i j k rj rk cos) ∧
      (∀ rj rk cos, s.a2 (pairCol n i j) ≤ rj ∨ s.a2 (pairCol n i k) ≤ rk →
        lammps3 ij ik ijk rj rk cos = 0 ∧ v3 s n i j k rj rk cos = 0) ∧
      (∀ rj rk cos, -1 ≤ cos → cos ≤ 1 → 0 ≤ s.gamma (pairCol n i j) → 0 ≤ s.gamma (pairCol n i k) →
        |lammps3 ij ik ijk rj rk cos - v3 s n i j k rj rk cos| ≤ 2 * |s.lam i j k| * Real.exp (-100)) := by
  obtain ⟨ij, a0, -, -, a3, -, a5, -⟩ := entry_ok s n i j j hdj hBj
  obtain ⟨ik, b0, -, -, b3, -, b5, -⟩ := entry_ok s n i k k hdk hBk
  obtain ⟨ijk, c0, c1, -, -, c4, -, c6, -⟩ := entry_ok s n i j k hdj hBj
  rw [haj] at a3
  rw [hak] at b3
  have inside : ∀ rj rk cos, rj < s.a2 (pairCol n i j) - 0.01 * s.gamma (pairCol n i j) →
      rk < s.a2 (pairCol n i k) - 0.01 * s.gamma (pairCol n i k) → 0 ≤ s.gamma (pairCol n i j) → 0 ≤ s.gamma (pairCol n i k) →
      lammps3 ij ik ijk rj rk cos = v3 s n i j k rj rk cos := by
    intro rj rk cos hj hk gj gk
    have hj' : rj < s.a2 (pairCol n i j) := by nlinarith
    have hk' : rk < s.a2 (pairCol n i k) := by nlinarith
    unfold lammps3 v3 f
    rw [a3, b3, a5, b5, c1, c4, c6, if_pos ⟨hj', hk'⟩, if_pos hj']
    simp only
    have hj2 : rj - s.a2 (pairCol n i j) < -0.01 * s.gamma (pairCol n i j) := by linarith
    have hk2 : rk - s.a2 (pairCol n i k) < -0.01 * s.gamma (pairCol n i k) := by linarith
    rw [if_pos hj2, if_pos hk2, if_pos hk', mul_one_div, mul_one_div]
    split
    · rename_i h
      simp [h]
    · ring
  have outside : ∀ rj rk cos, s.a2 (pairCol n i j) ≤ rj ∨ s.a2 (pairCol n i k) ≤ rk →
      lammps3 ij ik ijk rj rk cos = 0 ∧ v3 s n i j k rj rk cos = 0 := by
    intro rj rk cos h
    unfold lammps3 v3
    rw [a3, b3]
    constructor
    · rw [if_neg]
      rintro ⟨h1, h2⟩
      rcases h with h | h <;> linarith
    · rcases h with h | h
      · rw [if_neg (not_lt.2 h)]
      · split
        · simp only
          split
          · rfl
          · rw [if_neg (not_lt.2 h)]
        · rfl
  refine ⟨ij, ik, ijk, a0, b0, c0, inside, outside, ?_⟩
  intro rj rk cos hc1 hc2 gj gk
  have hpos : 0 ≤ 2 * |s.lam i j k| * Real.exp (-100) := by positivity
  by_cases hj : rj < s.a2 (pairCol n i j) - 0.01 * s.gamma (pairCol n i j) ∧ rk < s.a2 (pairCol n i k) - 0.01 * s.gamma (pairCol n i k)
  · rw [inside rj rk cos hj.1 hj.2 gj gk, sub_self, abs_zero]
    exact hpos
  by_cases ho : s.a2 (pairCol n i j) ≤ rj ∨ s.a2 (pairCol n i k) ≤ rk
  · rw [(outside rj rk cos ho).1, (outside rj rk cos ho).2, sub_self, abs_zero]
    exact hpos
  push Not at ho
  have hf : f s (pairCol n i j) rj = 0 ∨ f s (pairCol n i k) rk = 0 := by
    unfold f
    simp only
    by_cases h1 : rj < s.a2 (pairCol n i j) - 0.01 * s.gamma (pairCol n i j)
    · right
      rw [if_neg]
      intro h
      exact hj ⟨h1, by linarith⟩
    · left
      rw [if_neg]
      intro h
      exact h1 (by linarith)
  have hv : v3 s n i j k rj rk cos = 0 := by
    unfold v3
    rw [if_pos ho.1]
    simp only
    split
    · rfl
    · rw [if_pos ho.2]
      rcases hf with h | h <;> simp [h]
  rw [hv, sub_zero]
  unfold lammps3
  rw [a3, b3, a5, b5, c1, c4, c6, if_pos ho]
  have small : ∀ (g a r : ℝ), 0 ≤ g → r < a → Real.exp (g / (r - a)) ≤ 1 ∧ (a - 0.01 * g ≤ r → Real.exp (g / (r - a)) ≤ Real.exp (-100)) := by
    intro g a r hg hr
    have hneg : r - a < 0 := by linarith
    refine ⟨Real.exp_le_one_iff.2 (div_nonpos_of_nonneg_of_nonpos hg hneg.le), fun h => Real.exp_le_exp.2 ?_⟩
    rw [div_le_iff_of_neg hneg]
    linarith
  have sj := small _ _ rj gj ho.1
  have sk := small _ _ rk gk ho.2
  have hprod : Real.exp (s.gamma (pairCol n i j) / (rj - s.a2 (pairCol n i j))) *
      Real.exp (s.gamma (pairCol n i k) / (rk - s.a2 (pairCol n i k))) ≤ Real.exp (-100) := by
    by_cases h1 : rj < s.a2 (pairCol n i j) - 0.01 * s.gamma (pairCol n i j)
    · have h2 := sk.2 (not_lt.1 fun h => hj ⟨h1, h⟩)
      calc _ ≤ 1 * Real.exp (-100) := mul_le_mul sj.1 h2 (Real.exp_pos _).le zero_le_one
        _ = _ := one_mul _
    · have h2 := sj.2 (not_lt.1 h1)
      calc _ ≤ Real.exp (-100) * 1 := mul_le_mul h2 sk.1 (Real.exp_pos _).le (Real.exp_pos _).le
        _ = _ := mul_one _
  have hcos : (cos - -1 / 3) ^ 2 ≤ 2 := by nlinarith
  rw [mul_one, mul_assoc, abs_mul, abs_mul, abs_of_nonneg (sq_nonneg (cos - -1 / 3)), abs_of_nonneg (mul_pos (Real.exp_pos _) (Real.exp_pos _)).le]
  calc |s.lam i j k| * (cos - -1 / 3) ^ 2 * (Real.exp (s.gamma (pairCol n i j) / (rj - s.a2 (pairCol n i j))) *
        Real.exp (s.gamma (pairCol n i k) / (rk - s.a2 (pairCol n i k))))
      ≤ |s.lam i j k| * 2 * Real.exp (-100) :=
        mul_le_mul (mul_le_mul_of_nonneg_left hcos (abs_nonneg _)) hprod (by positivity) (by positivity)
    _ = _ := by ring

/-- **C48 is violated for different cutoffs.** LAMMPS knows one cutoff; the export uses that of the pair function. If the three-body
cutoff of the fitted potential is shorter, all triples with a distance in between have an energy in the exported potential only. -/
theorem C48_cutoff_violated (s : Sw) (n i j : Nat) (hd : 0 < s.delta (pairCol n i j)) (hB : s.B (pairCol n i j) ≠ 0)
    (hl : s.lam i j j ≠ 0) (r cos : ℝ) (h1 : s.a2 (pairCol n i j) ≤ r) (h2 : r < s.a1 (pairCol n i j)) (hc : cos ≠ -1 / 3) :
    ∃ e, entry s n i j j = .ok e ∧ v3 s n i j j r r cos = 0 ∧ lammps3 e e e r r cos ≠ 0 := by
  obtain ⟨e, a0, a1, -, a3, a4, -, a6, -⟩ := entry_ok s n i j j hd hB
  refine ⟨e, a0, ?_, ?_⟩
  · unfold v3
    rw [if_neg (not_lt.2 h1)]
  · unfold lammps3
    rw [a3, if_pos ⟨h2, h2⟩, a1, a4, a6]
    have : cos - -1 / 3 ≠ 0 := sub_ne_zero.2 hc
    have e1 := Real.exp_ne_zero (e.gamma * e.sigma / (r - s.a1 (pairCol n i j)))
    simp only [mul_one]
    exact mul_ne_zero (mul_ne_zero (mul_ne_zero hl (pow_ne_zero 2 this)) e1) e1

/-- A pair function without attractive part cannot be exported: the export divides by `B`. -/
theorem C48_repulsive_violated (s : Sw) (n i j k : Nat) (hd : 0 < s.delta (pairCol n i j)) (hB : s.B (pairCol n i j) = 0) :
    entry s n i j k = .error .divZero := by
  have h1 := (Real.rpow_pos_of_pos hd (s.p (pairCol n i j))).ne'
  have h2 := (Real.rpow_pos_of_pos hd (s.q (pairCol n i j))).ne'
  have hd' := hd.ne'
  unfold entry
  simp only [one_mul]
  rw [cdiv_ok h1, cdiv_ok h2, cdiv_ok hd', cdiv_ok one_ne_zero, cdiv_ok hd']
  simp [bind, Except.bind, cdiv, hB]

/-- Two types with silicon-like parameters. -/
noncomputable def exSw : Sw where
  A _ := 80
  B _ := 15
  p _ := 4
  q _ := 1 / 2
  delta c := 2 + c
  a1 _ := 4
  gamma _ := 5 / 2
  a2 c := if c = 2 then 3 else 4
  lam _ _ _ := 45

example : ∃ e, entry exSw 2 1 0 0 = .ok e ∧ ∀ r, 0 < r → lammps2 e r = v2 exSw (pairCol 2 1 0) r ∧ lammps2 e r = v2 exSw (pairCol 2 0 1) r :=
  C48_pair exSw 2 1 0 (by simp [exSw]; positivity) (by simp [exSw])

example : ∃ ij ik ijk, entry exSw 2 0 0 0 = .ok ij ∧ entry exSw 2 0 1 1 = .ok ik ∧ entry exSw 2 0 0 1 = .ok ijk ∧
    lammps3 ij ik ijk 3 2 (1 / 2) = v3 exSw 2 0 0 1 3 2 (1 / 2) := by
  obtain ⟨ij, ik, ijk, h1, h2, h3, h4, -⟩ := C48_three_partial exSw 2 0 0 1 (by simp [exSw, pairCol]) (by simp [exSw, pairCol]; norm_num)
    (by simp [exSw]) (by simp [exSw]) (by simp [exSw, pairCol]) (by simp [exSw, pairCol])
  exact ⟨ij, ik, ijk, h1, h2, h3, h4 3 2 (1 / 2) (by simp [exSw, pairCol]; norm_num) (by simp [exSw, pairCol]; norm_num)
    (by simp [exSw]; norm_num) (by simp [exSw]; norm_num)⟩

example : ∃ e, entry exSw 2 1 1 1 = .ok e ∧ v3 exSw 2 1 1 1 (7 / 2) (7 / 2) 0 = 0 ∧ lammps3 e e e (7 / 2) (7 / 2) 0 ≠ 0 :=
  C48_cutoff_violated exSw 2 1 1 (by simp [exSw]; positivity) (by simp [exSw]) (by simp [exSw]) (7 / 2) 0
    (by simp [exSw, pairCol]; norm_num) (by simp [exSw, pairCol]; norm_num) (by norm_num)

end Verif.Props
