import Verif.Spec.Neighbors
import Mathlib.Tactic.Linarith
import Mathlib.Tactic.LinearCombination
import Mathlib.Tactic.FieldSimp
import Mathlib.Tactic.Positivity
import Mathlib.Tactic.FinCases
import Mathlib.Algebra.Order.Floor.Ring

namespace Verif.Neighbors

open Verif.Force Verif.Spec

theorem mem_span (n x : ℤ) : x ∈ span n ↔ -n ≤ x ∧ x ≤ n := by
  unfold span
  simp only [List.mem_map, List.mem_range]
  constructor
  · rintro ⟨k, hk, rfl⟩
    omega
  · rintro ⟨h1, h2⟩
    exact ⟨(x + n).toNat, by omega, by omega⟩

theorem span_nodup (n : ℤ) : (span n).Nodup := by
  unfold span
  apply List.Nodup.map _ List.nodup_range
  intro a b h
  simp only at h
  omega

theorem mem_visited (full : Bool) (cnt : Nat) (scale : Fin 3 → ℤ) (i : Nat) (m : Image) :
    m ∈ visited full cnt scale i ↔
      m.j < cnt ∧ (full = true ∨ i ≤ m.j) ∧ (∀ k, -scale k ≤ m.n k ∧ m.n k ≤ scale k) ∧
      ¬ (m.j = i ∧ m.n = 0) := by
  unfold visited
  have hdrop : ∀ s j, j ∈ (List.range cnt).drop s ↔ s ≤ j ∧ j < cnt := by
    intro s j
    simp only [List.mem_iff_getElem?, List.getElem?_drop]
    constructor
    · rintro ⟨k, hk⟩
      by_cases h : s + k < cnt
      · rw [List.getElem?_range h] at hk
        simp only [Option.some.injEq] at hk
        omega
      · rw [List.getElem?_eq_none (by simpa using h)] at hk
        cases hk
    · rintro ⟨h1, h2⟩
      exact ⟨j - s, by rw [show s + (j - s) = j by omega, List.getElem?_range h2]⟩
  simp only [List.mem_flatMap, hdrop, mem_span]
  constructor
  · rintro ⟨j, ⟨hj1, hj2⟩, ix, hx, iy, hy, iz, hz, hm⟩
    split at hm
    · simp at hm
    · rename_i hne
      simp only [List.mem_singleton] at hm
      subst hm
      refine ⟨hj2, ?_, ?_, ?_⟩
      · cases full
        · right; simpa using hj1
        · left; rfl
      · intro k
        match k with
        | 0 => exact hx
        | 1 => exact hy
        | 2 => exact hz
      · rintro ⟨h1, h2⟩
        have e0 := congrFun h2 0
        have e1 := congrFun h2 1
        have e2 := congrFun h2 2
        exact hne ⟨h1.symm, e0, e1, e2⟩
  · rintro ⟨h1, h2, h3, h4⟩
    refine ⟨m.j, ⟨?_, h1⟩, m.n 0, h3 0, m.n 1, h3 1, m.n 2, h3 2, ?_⟩
    · cases full
      · simpa using h2
      · simp
    · rw [if_neg]
      · simp only [List.mem_singleton]
        have : m.n = ![m.n 0, m.n 1, m.n 2] := by
          funext k
          match k with
          | 0 => rfl
          | 1 => rfl
          | 2 => rfl
        rw [← this]
      · rintro ⟨e, e0, e1, e2⟩
        apply h4
        refine ⟨e.symm, ?_⟩
        funext k
        match k with
        | 0 => exact e0
        | 1 => exact e1
        | 2 => exact e2

/-- Nested loops list different things: if the values found can be traced back to the loop variable. -/
theorem nodup_loop {α β : Type*} {l : List α} {f : α → List β} (hl : l.Nodup) (g : β → α)
    (hf : ∀ a ∈ l, (f a).Nodup) (hg : ∀ a ∈ l, ∀ b ∈ f a, g b = a) : (l.flatMap f).Nodup := by
  rw [List.nodup_flatMap]
  refine ⟨hf, ?_⟩
  refine List.Pairwise.imp_of_mem ?_ hl
  intro a b ha hb hab x hxa hxb
  exact hab ((hg a ha x hxa).symm.trans (hg b hb x hxb))

theorem visited_nodup (full : Bool) (cnt : Nat) (scale : Fin 3 → ℤ) (i : Nat) :
    (visited full cnt scale i).Nodup := by
  unfold visited
  have hin : ∀ (j : Nat) (ix iy iz : ℤ) (m : Image),
      m ∈ (if i = j ∧ ix = 0 ∧ iy = 0 ∧ iz = 0 then [] else [(⟨j, ![ix, iy, iz]⟩ : Image)]) →
      m.j = j ∧ m.n 0 = ix ∧ m.n 1 = iy ∧ m.n 2 = iz := by
    intro j ix iy iz m hm
    split at hm
    · simp at hm
    · simp only [List.mem_singleton] at hm
      subst hm
      exact ⟨rfl, rfl, rfl, rfl⟩
  apply nodup_loop (List.nodup_range.sublist (List.drop_sublist _ _)) (fun m => m.j)
  · intro j _
    apply nodup_loop (span_nodup _) (fun m => m.n 0)
    · intro ix _
      apply nodup_loop (span_nodup _) (fun m => m.n 1)
      · intro iy _
        apply nodup_loop (span_nodup _) (fun m => m.n 2)
        · intro iz _
          split <;> simp
        · intro iz _ m hm
          exact (hin _ _ _ _ _ hm).2.2.2
      · intro iy _ m hm
        simp only [List.mem_flatMap] at hm
        obtain ⟨iz, _, hm⟩ := hm
        exact (hin _ _ _ _ _ hm).2.2.1
    · intro ix _ m hm
      simp only [List.mem_flatMap] at hm
      obtain ⟨iy, _, iz, _, hm⟩ := hm
      exact (hin _ _ _ _ _ hm).2.1
  · intro j _ m hm
    simp only [List.mem_flatMap] at hm
    obtain ⟨ix, _, iy, _, iz, _, hm⟩ := hm
    exact (hin _ _ _ _ _ hm).1

/-- Duality of the vectors computed by `make_box`. -/
theorem makeBox_dual {K : Type*} [Field K] [LinearOrder K] {edge : Fin 3 → V3 K} {box : Box K} {vol : K}
    (h : makeBox edge = .ok (box, vol)) :
    box.edge = edge ∧ vol ≠ 0 ∧ ∀ i j, sprod (box.dual i) (edge j) = if i = j then 1 else 0 := by
  unfold makeBox at h
  simp only at h
  split at h
  · cases h
  · rename_i hv
    have hv' : sprod (edge 0) (vecProd (edge 1) (edge 2)) ≠ 0 := fun e => hv e.symm
    simp only [Except.ok.injEq, Prod.mk.injEq] at h
    obtain ⟨rfl, rfl⟩ := h
    refine ⟨rfl, hv', ?_⟩
    simp only [sprod, vecProd, Matrix.cons_val_zero, Matrix.cons_val_one, Matrix.cons_val] at hv' ⊢
    intro i j
    fin_cases i <;> fin_cases j <;>
      simp only [Fin.zero_eta, Fin.mk_one, Fin.reduceFinMk, Matrix.cons_val_zero, Matrix.cons_val_one,
        Matrix.cons_val, Fin.isValue, reduceIte, zero_ne_one, one_ne_zero, Fin.reduceEq] <;>
      rw [div_mul_eq_mul_div, div_mul_eq_mul_div, div_mul_eq_mul_div, ← add_div, ← add_div] <;>
      first
        | (rw [div_eq_one_iff_eq hv']; ring)
        | (rw [div_eq_zero_iff]; left; ring)

theorem sprod_self_nonneg (v : V3 ℝ) : 0 ≤ sprod v v := by
  unfold sprod
  nlinarith [mul_self_nonneg (v 0), mul_self_nonneg (v 1), mul_self_nonneg (v 2)]

theorem sprod_le (a b : V3 ℝ) : |sprod a b| ≤ Real.sqrt (sprod a a) * Real.sqrt (sprod b b) := by
  rw [← Real.sqrt_mul (sprod_self_nonneg a)]
  apply Real.abs_le_sqrt
  unfold sprod
  nlinarith [sq_nonneg (a 0 * b 1 - a 1 * b 0), sq_nonneg (a 0 * b 2 - a 2 * b 0),
    sq_nonneg (a 1 * b 2 - a 2 * b 1)]

theorem offset_eq_arrow (c : Cell) (i : Nat) (m : Image) :
    offset c.box (c.site i).pos (c.site m.j).pos m.n = arrow c i m := by
  funext k
  simp only [offset, arrow, Pi.add_apply, Pi.sub_apply, Fin.sum_univ_three, Pi.smul_apply, smul_eq_mul]
  ring

theorem sqrt_sprod (v : V3 ℝ) : Real.sqrt (sprod v v) = length v := by
  unfold sprod length
  congr 1
  rw [Fin.sum_univ_three]
  ring

theorem dist_eq_length (c : Cell) (i : Nat) (m : Image) : dist c i m = length (arrow c i m) := by
  unfold dist
  simp only
  rw [offset_eq_arrow, sqrt_sprod]

/-- The range of images is wide enough. -/
theorem scale_covers {edge : Fin 3 → V3 ℝ} {box : Box ℝ} {vol rcutmax : ℝ} {scale : Fin 3 → ℤ}
    (hb : makeBox edge = .ok (box, vol)) (hs : cellScale rcutmax box = .ok scale) (c : Cell)
    (hc : c.box = box) (i : Nat) (m : Image) (hi : InCell edge (c.site i).pos)
    (hj : InCell edge (c.site m.j).pos) (hr : length (arrow c i m) ≤ rcutmax) (k : Fin 3) :
    -scale k ≤ m.n k ∧ m.n k ≤ scale k := by
  obtain ⟨he, -, hd⟩ := makeBox_dual hb
  obtain ⟨s, hs1, hs2⟩ := hi
  obtain ⟨t, ht1, ht2⟩ := hj
  have hscale : scale k = ⌈rcutmax * Real.sqrt (sprod (box.dual k) (box.dual k))⌉ := by
    unfold cellScale at hs
    simp only at hs
    split at hs
    · cases hs
    · simp only [Except.ok.injEq] at hs
      rw [← hs]
  have hfrac : sprod (box.dual k) (arrow c i m) = t k - s k + m.n k := by
    unfold arrow
    rw [hs2, ht2, hc, he]
    have h0 := hd k 0
    have h1 := hd k 1
    have h2 := hd k 2
    simp only [sprod, Pi.add_apply, Pi.sub_apply, Fin.sum_univ_three, Pi.smul_apply, smul_eq_mul] at h0 h1 h2 ⊢
    have hsum : ∀ u : Fin 3 → ℝ, u k = u 0 * (if k = 0 then 1 else 0) + u 1 * (if k = 1 then 1 else 0) +
        u 2 * (if k = 2 then 1 else 0) := by
      intro u
      fin_cases k <;> simp
    have hn := hsum (fun k => ((m.n k : ℤ) : ℝ))
    rw [hsum t, hsum s, hn, ← h0, ← h1, ← h2]
    ring
  have hlen := sprod_le (box.dual k) (arrow c i m)
  rw [sqrt_sprod (arrow c i m), hfrac] at hlen
  have hnn := Real.sqrt_nonneg (sprod (box.dual k) (box.dual k))
  have hle : |t k - s k + m.n k| ≤ scale k := by
    calc |t k - s k + m.n k| ≤ Real.sqrt (sprod (box.dual k) (box.dual k)) * length (arrow c i m) := hlen
      _ ≤ Real.sqrt (sprod (box.dual k) (box.dual k)) * rcutmax := mul_le_mul_of_nonneg_left hr hnn
      _ = rcutmax * Real.sqrt (sprod (box.dual k) (box.dual k)) := mul_comm _ _
      _ ≤ ⌈rcutmax * Real.sqrt (sprod (box.dual k) (box.dual k))⌉ := Int.le_ceil _
      _ = scale k := by rw [hscale]
  rw [abs_le] at hle
  have a1 := hs1 k
  have a2 := ht1 k
  constructor
  · have : ((-scale k - 1 : ℤ) : ℝ) < (m.n k : ℤ) := by push_cast; linarith
    have := Int.cast_lt.1 this
    omega
  · have : ((m.n k : ℤ) : ℝ) < ((scale k + 1 : ℤ) : ℝ) := by push_cast; linarith
    have := Int.cast_lt.1 this
    omega

end Verif.Neighbors
