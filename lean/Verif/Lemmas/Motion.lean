import Verif.Spec.Motion
import Verif.Lemmas.Gradient
import Verif.Lemmas.Terms
import Verif.Model.ThreeBody
import Mathlib.Analysis.Calculus.Deriv.Inv
import Mathlib.Analysis.Calculus.Deriv.Mul

namespace Verif.Spec

open Verif.Force

set_option linter.unusedSectionVars false

theorem placeWithFrom_reach (x : Nat → V3 ℝ) (ts : List Node) (i : Nat) :
    placeWithFrom (reach x) i ts = placeFrom x i ts := by
  induction ts generalizing i with
  | nil => rfl
  | cons a ts ih => simp only [placeWithFrom, placeFrom, ih]; rfl

theorem placeWith_reach (f : Conf ℝ) (ts : List Node) (x : Nat → V3 ℝ) : placeWith f ts (reach x) = place f ts x := by
  unfold placeWith place
  rw [placeWithFrom_reach]

theorem placeWithFrom_length (rf : Nat → Link → V3 ℝ) (ts : List Node) (i : Nat) :
    (placeWithFrom rf i ts).length = ts.length := by
  induction ts generalizing i with
  | nil => rfl
  | cons a ts ih => simp [placeWithFrom, ih]

theorem placeWithFrom_getElem? (rf : Nat → Link → V3 ℝ) (ts : List Node) (s j : Nat) :
    (placeWithFrom rf s ts)[j]? =
      ts[j]?.map fun a => ⟨a.typ, a.links.map fun l => placedAt (rf (s + j) l) l, a.absforce, a.contrib⟩ := by
  induction ts generalizing s j with
  | nil => simp [placeWithFrom]
  | cons a ts ih =>
    cases j with
    | zero => simp [placeWithFrom]
    | succ j =>
      simp only [placeWithFrom, List.getElem?_cons_succ, ih]
      rw [show s + 1 + j = s + (j + 1) by omega]

/-- A change of all vectors with a parameter; `speed` is the rate of change, as a function of the entry. -/
structure Motion where
  path : ℝ → Nat → Link → V3 ℝ
  now : ℝ
  speed : Nat → Neigh ℝ → V3 ℝ
  deriv : ∀ own l k, length (path now own l) ≠ 0 →
    HasDerivAt (fun t => path t own l k) (speed own (placedAt (path now own l) l) k) now

/-- Derivative of the length of a vector. -/
theorem hasDerivAt_length {v : ℝ → V3 ℝ} {v' : V3 ℝ} {t₀ : ℝ} (h : ∀ k, HasDerivAt (fun t => v t k) (v' k) t₀)
    (h0 : length (v t₀) ≠ 0) :
    HasDerivAt (fun t => length (v t)) (∑ k : Fin 3, v t₀ k / length (v t₀) * v' k) t₀ := by
  have h1 : HasDerivAt (fun t => ∑ k : Fin 3, v t k ^ 2) (∑ k : Fin 3, 2 * v t₀ k * v' k) t₀ := by
    apply HasDerivAt.fun_sum
    intro k _
    have := (h k).pow 2
    refine this.congr_deriv ?_
    simp
  have h2 := h1.sqrt (length_pos_ne h0)
  refine h2.congr_deriv ?_
  have e : Real.sqrt (∑ k : Fin 3, v t₀ k ^ 2) = length (v t₀) := rfl
  rw [e]
  simp only [Fin.sum_univ_three]
  field_simp

/-- Scalar product of the directions of two vectors. -/
noncomputable def cosOf (v w : V3 ℝ) : ℝ := ∑ k : Fin 3, v k / length v * (w k / length w)

/-- Derivative of the cosine. -/
theorem hasDerivAt_cos {v w : ℝ → V3 ℝ} {v' w' : V3 ℝ} {t₀ : ℝ} (hv : ∀ k, HasDerivAt (fun t => v t k) (v' k) t₀)
    (hw : ∀ k, HasDerivAt (fun t => w t k) (w' k) t₀) (h0 : length (v t₀) ≠ 0) (h1 : length (w t₀) ≠ 0) :
    HasDerivAt (fun t => cosOf (v t) (w t))
      (∑ k : Fin 3, (w t₀ k / length (w t₀) - cosOf (v t₀) (w t₀) * (v t₀ k / length (v t₀))) / length (v t₀) * v' k +
       ∑ k : Fin 3, (v t₀ k / length (v t₀) - cosOf (v t₀) (w t₀) * (w t₀ k / length (w t₀))) / length (w t₀) * w' k)
      t₀ := by
  have lv := hasDerivAt_length hv h0
  have lw := hasDerivAt_length hw h1
  have h : HasDerivAt (fun t => cosOf (v t) (w t)) (∑ k : Fin 3,
      ((v' k * length (v t₀) - v t₀ k * ∑ m : Fin 3, v t₀ m / length (v t₀) * v' m) / length (v t₀) ^ 2 *
        (w t₀ k / length (w t₀)) + v t₀ k / length (v t₀) *
        ((w' k * length (w t₀) - w t₀ k * ∑ m : Fin 3, w t₀ m / length (w t₀) * w' m) / length (w t₀) ^ 2))) t₀ := by
    unfold cosOf
    apply HasDerivAt.fun_sum
    intro k _
    exact ((hv k).div lv h0).mul ((hw k).div lw h1)
  refine h.congr_deriv ?_
  unfold cosOf
  simp only [Fin.sum_univ_three]
  field_simp
  ring

theorem cosine_placed (v w : V3 ℝ) (l m : Link) : cosine (placedAt v l) (placedAt w m) = cosOf v w := by
  unfold cosine cosOf
  rw [Fin.sum_univ_three]
  rfl

/-- Rate of change of the energy of a term. -/
noncomputable def Term.rate (speed : Nat → Neigh ℝ → V3 ℝ) (t : Term ℝ) : ℝ :=
  (t.pulls.map fun p => ∑ k : Fin 3, p.g k * speed t.own p.n k).sum

/-- Atom `a` moves in direction `k`. -/
noncomputable def moving (x : Nat → V3 ℝ) (a : Nat) (k : Fin 3) : Motion where
  path := fun t => reach (moved x a k t)
  now := x a k
  speed := fun own n m => if m = k then sgn a own n.nr else 0
  deriv := by
    intro own l m _
    simp only [reach_moved, placedAt]
    by_cases hm : m = k
    · simp only [if_pos hm]
      have := (((hasDerivAt_id (x a k)).sub_const (x a k)).const_mul (sgn a own l.nr)).const_add (reach x own l m)
      simpa using this
    · simp only [if_neg hm]
      exact hasDerivAt_const _ _

/-- The cell is strained. -/
noncomputable def straining (x : Nat → V3 ℝ) (α β : Fin 3) : Motion where
  path := fun e i l => strained e α β (reach x i l)
  now := 0
  speed := fun _ n m => if m = α then n.dist β else 0
  deriv := by
    intro own l m h0
    have e0 : ∀ v : V3 ℝ, strained 0 α β v = v := by
      intro v; funext k; simp [strained]
    rw [e0] at h0
    simp only [strained, placedAt]
    by_cases hm : m = α
    · simp only [if_pos hm, zero_mul, ite_self, add_zero]
      have := ((hasDerivAt_id (0 : ℝ)).mul_const (reach x own l β)).const_add (reach x own l m)
      refine this.congr_deriv ?_
      have e1 := e0 (reach x own l)
      rw [one_mul]
      change _ = reach x own l β / length (strained 0 α β (reach x own l)) * length (strained 0 α β (reach x own l))
      rw [e1, div_mul_cancel₀ _ h0]
    · simp only [if_neg hm]
      exact hasDerivAt_const _ _

theorem rate_moving (x : Nat → V3 ℝ) (a : Nat) (k : Fin 3) (t : Term ℝ) :
    t.rate (moving x a k).speed = -(t.force a k) := by
  unfold Term.rate Term.force
  rw [sum_apply_fin, ← listSum_neg]
  congr 1
  apply List.map_congr_left
  intro p _
  simp only [moving, sgn]
  rw [Finset.sum_eq_single k]
  · simp only [if_true]
    by_cases h1 : a = t.own
    · by_cases h2 : a = p.n.nr
      · simp [← h1, ← h2]
      · simp [h1, Ne.symm (h1 ▸ h2 : t.own ≠ p.n.nr), (h1 ▸ h2 : t.own ≠ p.n.nr)]
    · by_cases h2 : a = p.n.nr
      · simp [h2, Ne.symm (h2 ▸ h1 : p.n.nr ≠ t.own), (h2 ▸ h1 : p.n.nr ≠ t.own)]
      · simp [h1, h2, Ne.symm h1, Ne.symm h2]
  · intro b _ hb; simp [hb]
  · simp

theorem rate_straining (x : Nat → V3 ℝ) (α β : Fin 3) (t : Term ℝ) :
    t.rate (straining x α β).speed = t.strain α β := by
  unfold Term.rate Term.strain
  congr 1
  apply List.map_congr_left
  intro p _
  simp only [straining]
  rw [Finset.sum_eq_single α]
  · simp
  · intro b _ hb; simp [hb]
  · simp

end Verif.Spec
