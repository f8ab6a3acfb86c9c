/-
C77: Atoms that contribute to the target function.

A configuration file can restrict the atoms whose forces are fitted to a box (`#B_O`, `#B_A`, `#B_B`, `#B_C`) and to spheres (`#B_S`).
-/
import Verif.Model.ConfigFile
import Mathlib.Tactic.Linarith
import Mathlib.Tactic.Ring
import Mathlib.Tactic.LinearCombination
import Mathlib.Tactic.FinCases
import Mathlib.Tactic.FieldSimp
import Mathlib.Tactic.Positivity
import Mathlib.Data.Rat.Floor
import Mathlib.Analysis.Real.Sqrt

set_option linter.unusedSectionVars false

namespace Verif.Props

open Verif.ConfigFile Verif.Force

section

variable {K : Type} [Field K] [LinearOrder K] [IsStrictOrderedRing K] [FloorRing K]

/-- Inside of the box with corner `c 0` and edges `c 1`, `c 2`, `c 3`. -/
def InContribBox (c : Fin 4 → V3 K) (pos : V3 K) : Prop :=
  ∃ t : Fin 3 → K, (∀ k, 0 ≤ t k ∧ t k ≤ 1) ∧ pos = c 0 + t 0 • c 1 + t 1 • c 2 + t 2 • c 3

/-- Inside of the sphere with centre `p.1` and radius `p.2`. -/
def InContribSphere (p : V3 K × K) (pos : V3 K) : Prop :=
  0 < p.2 ∧ (pos 0 - p.1 0) ^ 2 + (pos 1 - p.1 1) ^ 2 + (pos 2 - p.1 2) ^ 2 < p.2 ^ 2

/-- Scalar product. -/
def dotp (a b : V3 K) : K := a 0 * b 0 + a 1 * b 1 + a 2 * b 2

/-- A square root. -/
def IsSqrt (sqrt : K → K) : Prop := ∀ x, 0 ≤ x → 0 ≤ sqrt x ∧ sqrt x * sqrt x = x

theorem sprod_dotp (a b : V3 K) : Neighbors.sprod a b = dotp a b := by
  simp [Neighbors.sprod, dotp]

theorem sphere_iff {sqrt : K → K} (hs : IsSqrt sqrt) (p : V3 K × K) (pos : V3 K) :
    sqrt (Neighbors.sprod (pos - p.1) (pos - p.1)) < p.2 ↔ InContribSphere p pos := by
  have hx : 0 ≤ dotp (pos - p.1) (pos - p.1) := by
    unfold dotp
    nlinarith [mul_self_nonneg ((pos - p.1) 0), mul_self_nonneg ((pos - p.1) 1), mul_self_nonneg ((pos - p.1) 2)]
  obtain ⟨h1, h2⟩ := hs _ hx
  rw [sprod_dotp]
  have he : (pos 0 - p.1 0) ^ 2 + (pos 1 - p.1 1) ^ 2 + (pos 2 - p.1 2) ^ 2 = dotp (pos - p.1) (pos - p.1) := by
    simp only [dotp, Pi.sub_apply]
    ring
  unfold InContribSphere
  rw [he, ← h2]
  constructor
  · intro h
    refine ⟨lt_of_le_of_lt h1 (by rwa [h2] at h), ?_⟩
    rw [h2] at h
    nlinarith
  · rintro ⟨h3, h4⟩
    rw [h2]
    by_contra hc
    push Not at hc
    nlinarith

/-- Without a box and spheres every atom contributes. -/
theorem C77_all (sqrt : K → K) (c : Config K) (pos : V3 K) (hb : c.cbox = none) (hs : c.spheres = []) :
    contributes sqrt c pos = some true := by
  simp [contributes, hb, hs]

/-- With spheres only, the atoms inside of one of them contribute. -/
theorem C77_spheres {sqrt : K → K} (hr : IsSqrt sqrt) (c : Config K) (pos : V3 K) (hb : c.cbox = none) (hs : c.spheres ≠ []) :
    (∃ b, contributes sqrt c pos = some b) ∧
    (contributes sqrt c pos = some true ↔ ∃ p ∈ c.spheres, InContribSphere p pos) := by
  simp only [contributes, hb, if_neg hs, inSphere, Option.some.injEq, List.any_eq_true, decide_eq_true_eq]
  refine ⟨⟨_, rfl⟩, ?_⟩
  simp only [sphere_iff hr]

theorem toInt_range (x : K) : (0 ≤ toInt x ∧ toInt x ≤ 1) ↔ -1 < x ∧ x < 2 := by
  unfold toInt
  by_cases h : 0 ≤ x
  · rw [if_pos h]
    have h1 : 0 ≤ ⌊x⌋ := Int.floor_nonneg.2 h
    have h2 : ⌊x⌋ ≤ 1 ↔ x < 2 := by
      rw [show ⌊x⌋ ≤ 1 ↔ ⌊x⌋ < 2 by omega, Int.floor_lt]
      norm_num
    rw [h2]
    exact ⟨fun q => ⟨by linarith, q.2⟩, fun q => ⟨h1, q.2⟩⟩
  · rw [if_neg h]
    push Not at h
    have h1 : ⌈x⌉ ≤ 0 := by
      rw [Int.ceil_le]
      simpa using h.le
    have h2 : 0 ≤ ⌈x⌉ ↔ -1 < x := by
      rw [show 0 ≤ ⌈x⌉ ↔ -1 < ⌈x⌉ by omega, Int.lt_ceil]
      norm_num
    rw [h2]
    exact ⟨fun q => ⟨q.1, by linarith⟩, fun q => ⟨q.1, by omega⟩⟩

/-- Projection on edge `k` of the box, in units of the edge. -/
def proj (c : Fin 4 → V3 K) (k : Fin 3) (pos : V3 K) : K :=
  dotp (pos - c 0) (c k.succ) / dotp (c k.succ) (c k.succ)

/-- What the code does: with a box, an atom contributes if its three projections lie between -1 and 2, or if it is inside of a
sphere. -/
theorem C77_exact {sqrt : K → K} (hr : IsSqrt sqrt) (c : Config K) (box : Fin 4 → V3 K) (hb : c.cbox = some box)
    (hz : ∀ k : Fin 3, dotp (box k.succ) (box k.succ) ≠ 0) (pos : V3 K) :
    (∃ b, contributes sqrt c pos = some b) ∧
    (contributes sqrt c pos = some true ↔
      (∀ k, -1 < proj box k pos ∧ proj box k pos < 2) ∨ ∃ p ∈ c.spheres, InContribSphere p pos) := by
  have h1 := hz 0
  have h2 := hz 1
  have h3 := hz 2
  simp only [Fin.succ_zero_eq_one, Fin.succ_one_eq_two, show (2 : Fin 3).succ = (3 : Fin 4) from rfl] at h1 h2 h3
  simp only [contributes, hb, inBox, cellNumber, sprod_dotp, if_neg h1, if_neg h2, if_neg h3, Option.map_some, Option.some.injEq,
    Bool.or_eq_true, Bool.and_eq_true, decide_eq_true_eq, toInt_range, inSphere, List.any_eq_true]
  refine ⟨⟨_, rfl⟩, ?_⟩
  simp only [← sprod_dotp, sphere_iff hr]
  simp only [Fin.forall_fin_succ, proj, sprod_dotp, Fin.succ_zero_eq_one, Fin.succ_one_eq_two, IsEmpty.forall_iff, and_true,
    show (2 : Fin 3).succ = (3 : Fin 4) from rfl]
  tauto

/-- The edges of the box are at right angles. -/
def RightAngled (c : Fin 4 → V3 K) : Prop :=
  dotp (c 1) (c 2) = 0 ∧ dotp (c 1) (c 3) = 0 ∧ dotp (c 2) (c 3) = 0

theorem proj_of (box : Fin 4 → V3 K) (hz : ∀ k : Fin 3, dotp (box k.succ) (box k.succ) ≠ 0) (ho : RightAngled box) (t : Fin 3 → K)
    (k : Fin 3) : proj box k (box 0 + t 0 • box 1 + t 1 • box 2 + t 2 • box 3) = t k := by
  obtain ⟨o1, o2, o3⟩ := ho
  simp only [dotp] at o1 o2 o3
  have := hz k
  unfold proj
  rw [div_eq_iff this]
  fin_cases k <;>
    simp only [dotp, Pi.sub_apply, Pi.add_apply, Pi.smul_apply, smul_eq_mul, Fin.zero_eta, Fin.mk_one, Fin.reduceFinMk,
      Fin.succ_zero_eq_one, Fin.succ_one_eq_two, show (2 : Fin 3).succ = (3 : Fin 4) from rfl]
  · linear_combination t 1 * o1 + t 2 * o2
  · linear_combination t 0 * o1 + t 2 * o3
  · linear_combination t 0 * o2 + t 1 * o3

/-- Partial: in a box with right angles, all atoms inside of the box or of a sphere contribute.  Missing: the converse
(`C77_outside_violated`) and boxes with other angles (`C77_skew_violated`). -/
theorem C77_inside_partial {sqrt : K → K} (hr : IsSqrt sqrt) (c : Config K) (box : Fin 4 → V3 K) (hb : c.cbox = some box)
    (hz : ∀ k : Fin 3, dotp (box k.succ) (box k.succ) ≠ 0) (ho : RightAngled box) (pos : V3 K)
    (h : InContribBox box pos ∨ ∃ p ∈ c.spheres, InContribSphere p pos) : contributes sqrt c pos = some true := by
  refine (C77_exact hr c box hb hz pos).2.2 ?_
  rcases h with ⟨t, ht, rfl⟩ | h
  · left
    intro k
    rw [proj_of box hz ho]
    exact ⟨by linarith [(ht k).1], by linarith [(ht k).2]⟩
  · exact .inr h

/-- Partial: in a box with right angles, an atom which contributes is inside of a sphere, or in one of the 27 boxes consisting of the box
and its neighbours. -/
theorem C77_outside_partial {sqrt : K → K} (hr : IsSqrt sqrt) (c : Config K) (box : Fin 4 → V3 K) (hb : c.cbox = some box)
    (hz : ∀ k : Fin 3, dotp (box k.succ) (box k.succ) ≠ 0) (ho : RightAngled box) (t : Fin 3 → K) :
    contributes sqrt c (box 0 + t 0 • box 1 + t 1 • box 2 + t 2 • box 3) = some true ↔
      (∀ k, -1 < t k ∧ t k < 2) ∨ ∃ p ∈ c.spheres, InContribSphere p (box 0 + t 0 • box 1 + t 1 • box 2 + t 2 • box 3) := by
  rw [(C77_exact hr c box hb hz _).2]
  simp only [proj_of box hz ho]

end

/-- Square roots exist over the reals. -/
theorem C77_real_sqrt : IsSqrt Real.sqrt := fun x hx => ⟨Real.sqrt_nonneg x, Real.mul_self_sqrt hx⟩

/-! Examples -/

def plainConfig (box : Option (Fin 4 → V3 ℚ)) (spheres : List (V3 ℚ × ℚ)) : Config ℚ where
  useForce := true
  energy := 0
  weight := 1
  useStress := false
  stress := 0
  edge := ![![4, 0, 0], ![0, 4, 0], ![0, 0, 4]]
  volume := 64
  cbox := box
  spheres := spheres
  atoms := []

def cubeBox : Fin 4 → V3 ℚ := ![![1, 1, 1], ![2, 0, 0], ![0, 2, 0], ![0, 0, 2]]

def skewBox : Fin 4 → V3 ℚ := ![![0, 0, 0], ![1, 0, 0], ![3, 1, 0], ![0, 0, 1]]

example : RightAngled cubeBox ∧ (∀ k : Fin 3, dotp (cubeBox k.succ) (cubeBox k.succ) ≠ 0) := by
  unfold RightAngled
  decide +kernel

example : InContribBox cubeBox ![2, 2, 2] :=
  ⟨![1/2, 1/2, 1/2], by decide +kernel, by decide +kernel⟩

example : InContribSphere ((![0, 0, 0] : V3 ℚ), (2 : ℚ)) ![1, 1, 1] := by
  unfold InContribSphere
  decide +kernel

/-- An atom outside of the box, half an edge before its corner, contributes. -/
theorem C77_outside_violated (sqrt : ℚ → ℚ) :
    contributes sqrt (plainConfig (some cubeBox) []) ![0, 2, 2] = some true ∧ ¬ InContribBox cubeBox ![0, 2, 2] := by
  refine ⟨by simp only [contributes, plainConfig, inSphere, List.any_nil, Bool.or_false, Option.map_id']; decide +kernel, ?_⟩
  rintro ⟨t, ht, h⟩
  have := congrFun h 0
  simp [cubeBox] at this
  linarith [(ht 0).1]

/-- An atom at the centre of a box with oblique angles does not contribute. -/
theorem C77_skew_violated (sqrt : ℚ → ℚ) :
    contributes sqrt (plainConfig (some skewBox) []) ![2, 1/2, 1/2] = some false ∧ InContribBox skewBox ![2, 1/2, 1/2] := by
  refine ⟨by simp only [contributes, plainConfig, inSphere, List.any_nil, Bool.or_false, Option.map_id']; decide +kernel,
    ![1/2, 1/2, 1/2], by decide +kernel, by decide +kernel⟩

/-- The edges of the box are not checked: a vanishing one leads to the conversion of a NaN to an integer. -/
theorem C77_zero_violated (sqrt : ℚ → ℚ) (pos : V3 ℚ) :
    contributes sqrt (plainConfig (some ![![0, 0, 0], ![1, 0, 0], ![0, 1, 0], ![0, 0, 0]]) []) pos = none := by
  have h0 : Neighbors.sprod (![0, 0, 0] : V3 ℚ) ![0, 0, 0] = 0 := by decide +kernel
  have h1 : cellNumber (pos - ![0, 0, 0]) (![0, 0, 0] : V3 ℚ) = none := by
    unfold cellNumber
    rw [if_pos h0]
  have h2 : inBox (![![0, 0, 0], ![1, 0, 0], ![0, 1, 0], ![0, 0, 0]] : Fin 4 → V3 ℚ) pos = none := by
    unfold inBox
    have : cellNumber (pos - (![![0, 0, 0], ![1, 0, 0], ![0, 1, 0], ![0, 0, 0]] : Fin 4 → V3 ℚ) 0)
        ((![![0, 0, 0], ![1, 0, 0], ![0, 1, 0], ![0, 0, 0]] : Fin 4 → V3 ℚ) 3) = none := h1
    rw [this]
    split
    · simp_all
    · rfl
  simp only [contributes, plainConfig, h2, Option.map_none]

end Verif.Props
