/-
Rates of change of the dipole and quadrupole energies.
-/
import Verif.Lemmas.HalfMotion
import Verif.Lemmas.AdpConf

set_option linter.unusedSectionVars false

namespace Verif.Spec

open Verif.Force Verif.Props

theorem hasDerivAt_distortion {m : ℝ → V3 ℝ} {q : ℝ → Fin 3 → Fin 3 → ℝ} {m' : V3 ℝ} {q' : Fin 3 → Fin 3 → ℝ} {x : ℝ}
    (hm : ∀ k, HasDerivAt (fun t => m t k) (m' k) x) (hq : ∀ k l, HasDerivAt (fun t => q t k l) (q' k l) x) :
    HasDerivAt (fun t => distortion (m t) (q t))
      (∑ k : Fin 3, m x k * m' k + (∑ k : Fin 3, ∑ l : Fin 3, q x k l * q' k l) -
        1 / 3 * (∑ k : Fin 3, q x k k) * (∑ k : Fin 3, q' k k)) x := by
  unfold distortion
  have h1 : HasDerivAt (fun t => ∑ k : Fin 3, m t k ^ 2) (∑ k : Fin 3, 2 * m x k * m' k) x := by
    apply HasDerivAt.fun_sum
    intro k _
    exact ((hm k).pow 2).congr_deriv (by ring)
  have h2 : HasDerivAt (fun t => ∑ k : Fin 3, ∑ l : Fin 3, q t k l ^ 2) (∑ k : Fin 3, ∑ l : Fin 3, 2 * q x k l * q' k l) x := by
    apply HasDerivAt.fun_sum
    intro k _
    apply HasDerivAt.fun_sum
    intro l _
    exact ((hq k l).pow 2).congr_deriv (by ring)
  have h3 : HasDerivAt (fun t => ∑ k : Fin 3, q t k k) (∑ k : Fin 3, q' k k) x :=
    HasDerivAt.fun_sum fun k _ => hq k k
  refine (((h1.const_mul (1 / 2)).add (h2.const_mul (1 / 2))).sub ((h3.pow 2).const_mul (1 / 6))).congr_deriv ?_
  simp only [Fin.sum_univ_three]
  ring

/-- Distances are not exactly the range of a dipole or quadrupole function, and these are differentiable. -/
def AdpSmoothAt (P : EamPots ℝ) (e : Entry ℝ) : Prop :=
  e.n.r ≠ 0 ∧ ∀ c ∈ [P.dipCol e.n, P.quadCol e.n], e.n.r ≠ P.fin c ∧
    (e.n.r < P.fin c → HasDerivAt (P.val c) (P.grad c e.n.r) e.n.r)

/-- Rate of the dipole contribution. -/
noncomputable def dipRate (M : Motion) (P : EamPots ℝ) (e : Entry ℝ) (k : Fin 3) : ℝ :=
  dipoleSlope P e * rdot M e * e.n.dist k + dipole P e * M.speed e.own e.n k

/-- Rate of the quadrupole contribution. -/
noncomputable def quadRate (M : Motion) (P : EamPots ℝ) (e : Entry ℝ) (k l : Fin 3) : ℝ :=
  quadrupoleSlope P e * rdot M e * (e.n.dist k * e.n.dist l) +
    quadrupole P e * (M.speed e.own e.n k * e.n.dist l + e.n.dist k * M.speed e.own e.n l)

theorem hasDerivAt_dip (M : Motion) (P : EamPots ℝ) (b : Bond) (h : AdpSmoothAt P (b.now M)) (k : Fin 3) :
    HasDerivAt (fun t => dipole P (b.entryAt (M.path t)) * (b.entryAt (M.path t)).n.dist k) (dipRate M P (b.now M) k)
      M.now := by
  have hc := h.2 (P.dipCol (b.now M).n) (by simp)
  have h1 : HasDerivAt (fun t => dipole P (b.entryAt (M.path t))) (dipoleSlope P (b.now M) * rdot M (b.now M)) M.now :=
    hasDerivAt_cutR M b h.1 hc.1 hc.2
  exact h1.mul (hasDerivAt_bondVec M b h.1 k)

theorem hasDerivAt_quad (M : Motion) (P : EamPots ℝ) (b : Bond) (h : AdpSmoothAt P (b.now M)) (k l : Fin 3) :
    HasDerivAt (fun t => quadrupole P (b.entryAt (M.path t)) *
      ((b.entryAt (M.path t)).n.dist k * (b.entryAt (M.path t)).n.dist l)) (quadRate M P (b.now M) k l) M.now := by
  have hc := h.2 (P.quadCol (b.now M).n) (by simp)
  have h1 : HasDerivAt (fun t => quadrupole P (b.entryAt (M.path t)))
      (quadrupoleSlope P (b.now M) * rdot M (b.now M)) M.now := hasDerivAt_cutR M b h.1 hc.1 hc.2
  exact h1.mul ((hasDerivAt_bondVec M b h.1 k).mul (hasDerivAt_bondVec M b h.1 l))

theorem rate_dipole (M : Motion) (P : EamPots ℝ) (f : Conf ℝ) (ts : List Node)
    (hs : ∀ b ∈ bondsFrom f.start ts, AdpSmoothAt P (b.now M)) (i : Nat) (k : Fin 3) :
    HasDerivAt (fun t => totalDipole P (placeWith f ts (M.path t)) i k)
      ((bondsFrom f.start ts).map fun b => (if i = b.own then dipRate M P (b.now M) k else 0) -
        (if i = b.l.nr then dipRate M P (b.now M) k else 0)).sum M.now := by
  unfold totalDipole
  simp only [entries_placeWith, List.map_map]
  refine hasDerivAt_listSum (bondsFrom f.start ts) (fun b t => dipoleOn P (b.entryAt (M.path t)) i k) _ M.now ?_
  intro b hb
  have h := hasDerivAt_dip M P b (hs b hb) k
  have e1 : ∀ y, (b.entryAt y).own = b.own := fun _ => rfl
  have e2 : ∀ y, (b.entryAt y).n.nr = b.l.nr := fun _ => rfl
  simp only [dipoleOn, e1, e2]
  apply HasDerivAt.sub
  · by_cases h1 : i = b.own
    · simp only [if_pos h1]; exact h
    · simp only [if_neg h1]; exact hasDerivAt_const _ _
  · by_cases h1 : i = b.l.nr
    · simp only [if_pos h1]; exact h
    · simp only [if_neg h1]; exact hasDerivAt_const _ _

theorem rate_quadrupole (M : Motion) (P : EamPots ℝ) (f : Conf ℝ) (ts : List Node)
    (hs : ∀ b ∈ bondsFrom f.start ts, AdpSmoothAt P (b.now M)) (i : Nat) (k l : Fin 3) :
    HasDerivAt (fun t => totalQuadrupole P (placeWith f ts (M.path t)) i k l)
      ((bondsFrom f.start ts).map fun b => (if i = b.own then quadRate M P (b.now M) k l else 0) +
        (if i = b.l.nr ∧ b.l.nr ≠ b.own then quadRate M P (b.now M) k l else 0)).sum M.now := by
  unfold totalQuadrupole
  simp only [entries_placeWith, List.map_map]
  refine hasDerivAt_listSum (bondsFrom f.start ts) (fun b t => quadrupoleOn P (b.entryAt (M.path t)) i k l) _ M.now ?_
  intro b hb
  have h := hasDerivAt_quad M P b (hs b hb) k l
  have e1 : ∀ y, (b.entryAt y).own = b.own := fun _ => rfl
  have e2 : ∀ y, (b.entryAt y).n.nr = b.l.nr := fun _ => rfl
  simp only [quadrupoleOn, e1, e2]
  apply HasDerivAt.add
  · by_cases h1 : i = b.own
    · simp only [if_pos h1]; exact h
    · simp only [if_neg h1]; exact hasDerivAt_const _ _
  · by_cases h1 : i = b.l.nr ∧ b.l.nr ≠ b.own
    · simp only [if_pos h1]; exact h
    · simp only [if_neg h1]; exact hasDerivAt_const _ _

/-- Power of a rate `V` on the dipole distortion `m`. -/
noncomputable def dipPower (m : V3 ℝ) (V : Fin 3 → ℝ) : ℝ := ∑ k : Fin 3, m k * V k

/-- Power of a rate `W` on the quadrupole distortion `q`. -/
noncomputable def quadPower (q W : Fin 3 → Fin 3 → ℝ) : ℝ :=
  (∑ k : Fin 3, ∑ l : Fin 3, q k l * W k l) - 1 / 3 * (∑ k : Fin 3, q k k) * (∑ k : Fin 3, W k k)

theorem dipPower_sum {α : Type*} (m : V3 ℝ) (l : List α) (V : α → Fin 3 → ℝ) :
    dipPower m (fun k => (l.map fun a => V a k).sum) = (l.map fun a => dipPower m (V a)).sum := by
  induction l with
  | nil => simp [dipPower]
  | cons a l ih =>
    simp only [List.map_cons, List.sum_cons, ← ih]
    simp only [dipPower, Fin.sum_univ_three]
    ring

theorem quadPower_sum {α : Type*} (q : Fin 3 → Fin 3 → ℝ) (l : List α) (W : α → Fin 3 → Fin 3 → ℝ) :
    quadPower q (fun i k => (l.map fun a => W a i k).sum) = (l.map fun a => quadPower q (W a)).sum := by
  induction l with
  | nil => simp [quadPower]
  | cons a l ih =>
    simp only [List.map_cons, List.sum_cons, ← ih]
    simp only [quadPower, Fin.sum_univ_three]
    ring

theorem placedAt_sq (v : V3 ℝ) (l : Link) : ∑ k : Fin 3, (placedAt v l).dist k ^ 2 = (placedAt v l).r ^ 2 := by
  simp only [placedAt_dist]
  show _ = length v ^ 2
  unfold length
  rw [Real.sq_sqrt (Finset.sum_nonneg fun k _ => sq_nonneg _)]

/-- The power of an entry is the rate of its vector. -/
theorem power_entry (M : Motion) (P : EamPots ℝ) (b : Bond) (mu : Nat → V3 ℝ) (lam : Nat → Fin 3 → Fin 3 → ℝ)
    (hsym : ∀ a k l, lam a k l = lam a l k) :
    dipPower (mu b.own) (dipRate M P (b.now M)) - dipPower (mu b.l.nr) (dipRate M P (b.now M)) +
      (quadPower (lam b.own) (quadRate M P (b.now M)) +
        if b.l.nr = b.own then 0 else quadPower (lam b.l.nr) (quadRate M P (b.now M))) =
    entryRate M (fun e => dipoleVec P mu e + quadrupoleVec P lam e) (b.now M) := by
  have n1 : (b.now M).own = b.own := rfl
  have n2 : (b.now M).n.nr = b.l.nr := rfl
  have hd : ∀ k, (b.now M).n.dist k = (b.now M).n.distR k * (b.now M).n.r := fun k => rfl
  have hr : (b.now M).n.dist 0 ^ 2 + (b.now M).n.dist 1 ^ 2 + (b.now M).n.dist 2 ^ 2 = (b.now M).n.r ^ 2 := by
    have := placedAt_sq (M.path M.now b.own b.l) b.l
    rw [Fin.sum_univ_three] at this
    exact this
  generalize hq : (fun k l => lam b.own k l + if b.l.nr = b.own then 0 else lam b.l.nr k l) = Q
  have hQ : ∀ k l, Q k l = lam b.own k l + if b.l.nr = b.own then 0 else lam b.l.nr k l := fun k l => by rw [← hq]
  have hQs : ∀ k l, Q k l = Q l k := by
    intro k l
    rw [hQ, hQ, hsym b.own k l, hsym b.l.nr k l]
  have e1 : quadPower (lam b.own) (quadRate M P (b.now M)) +
      (if b.l.nr = b.own then 0 else quadPower (lam b.l.nr) (quadRate M P (b.now M))) =
      quadPower Q (quadRate M P (b.now M)) := by
    simp only [quadPower, Fin.sum_univ_three, hQ]
    by_cases h : b.l.nr = b.own
    · simp only [if_pos h]; ring
    · simp only [if_neg h]; ring
  have e2 : ∀ k l, bothQuad lam (b.now M) k l = Q k l := fun k l => by rw [hQ]; rfl
  rw [e1]
  have e3 : rdot M (b.now M) = ∑ k : Fin 3, (b.now M).n.distR k * M.speed b.own (b.now M).n k := rfl
  simp only [entryRate, Pi.add_apply, dipoleVec, quadrupoleVec, e2, n1, n2, dipPower, quadPower, dipRate, quadRate]
  generalize M.speed b.own (b.now M).n = v at *
  generalize rdot M (b.now M) = ρ at *
  generalize dipole P (b.now M) = u at *
  generalize dipoleSlope P (b.now M) = u' at *
  generalize quadrupole P (b.now M) = w at *
  generalize quadrupoleSlope P (b.now M) = w' at *
  generalize (b.now M).n.r = r at *
  simp only [Fin.sum_univ_three] at e3 ⊢
  rw [hQs 1 0, hQs 2 0, hQs 2 1]
  have hrr : r * ρ = (b.now M).n.dist 0 * v 0 + (b.now M).n.dist 1 * v 1 + (b.now M).n.dist 2 * v 2 := by
    rw [e3, hd, hd, hd]; ring
  generalize (b.now M).n.dist = d at *
  generalize (b.now M).n.distR = D at *
  linear_combination (-(1 / 3) * (Q 0 0 + Q 1 1 + Q 2 2) * w' * ρ) * hr + (2 / 3 * (Q 0 0 + Q 1 1 + Q 2 2) * w) * hrr +
    (((mu b.own 0 - mu b.l.nr 0) * d 0 + (mu b.own 1 - mu b.l.nr 1) * d 1 + (mu b.own 2 - mu b.l.nr 2) * d 2) * u' +
      (Q 0 0 * d 0 ^ 2 + Q 1 1 * d 1 ^ 2 + Q 2 2 * d 2 ^ 2 + 2 * Q 0 1 * d 0 * d 1 + 2 * Q 0 2 * d 0 * d 2 +
        2 * Q 1 2 * d 1 * d 2 - 1 / 3 * (Q 0 0 + Q 1 1 + Q 2 2) * r ^ 2) * w' -
      2 / 3 * (Q 0 0 + Q 1 1 + Q 2 2) * w * r) * e3

theorem dipPower_ite (m : V3 ℝ) (p q : Prop) [Decidable p] [Decidable q] (V : Fin 3 → ℝ) :
    dipPower m (fun k => (if p then V k else 0) - (if q then V k else 0)) =
      (if p then dipPower m V else 0) - (if q then dipPower m V else 0) := by
  unfold dipPower
  by_cases hp : p <;> by_cases hq : q <;> simp [hp, hq]

theorem quadPower_ite (m : Fin 3 → Fin 3 → ℝ) (p q : Prop) [Decidable p] [Decidable q] (V : Fin 3 → Fin 3 → ℝ) :
    quadPower m (fun k l => (if p then V k l else 0) + (if q then V k l else 0)) =
      (if p then quadPower m V else 0) + (if q then quadPower m V else 0) := by
  unfold quadPower
  by_cases hp : p <;> by_cases hq : q <;> simp [hp, hq, Fin.sum_univ_three] <;> ring

theorem pick_one (start n a : Nat) (G : Nat → ℝ) (h1 : start ≤ a) (h2 : a < start + n) :
    ∑ i ∈ Finset.range n, (if start + i = a then G (start + i) else 0) = G a := by
  have := pick_sum start n a G 1 h1 h2
  simpa using this

/-- Energies of the distortions. -/
theorem rate_distortion (M : Motion) (P : EamPots ℝ) (f : Conf ℝ) (ts : List Node)
    (hs : ∀ b ∈ bondsFrom f.start ts, AdpSmoothAt P (b.now M)) (hh : HalfList (placeWith f ts (M.path M.now))) :
    HasDerivAt (fun t => totalDistortion P (placeWith f ts (M.path t)))
      (totalRate M (fun e => dipoleVec P (totalDipole P (placeWith f ts (M.path M.now))) e +
        quadrupoleVec P (totalQuadrupole P (placeWith f ts (M.path M.now))) e) f ts) M.now := by
  have hl : ∀ rf, (placeWith f ts rf).atoms.length = ts.length := fun rf => placeWithFrom_length rf ts f.start
  have hst : ∀ rf, (placeWith f ts rf).start = f.start := fun rf => rfl
  unfold totalDistortion
  simp only [hl, hst]
  set m := totalDipole P (placeWith f ts (M.path M.now)) with hm
  set q := totalQuadrupole P (placeWith f ts (M.path M.now)) with hq
  have hd : HasDerivAt (fun t => ∑ j ∈ Finset.range ts.length,
      distortion (totalDipole P (placeWith f ts (M.path t)) (f.start + j))
        (totalQuadrupole P (placeWith f ts (M.path t)) (f.start + j)))
      (∑ j ∈ Finset.range ts.length, ((bondsFrom f.start ts).map fun b =>
        ((if f.start + j = b.own then dipPower (m (f.start + j)) (dipRate M P (b.now M)) else 0) -
          (if f.start + j = b.l.nr then dipPower (m (f.start + j)) (dipRate M P (b.now M)) else 0)) +
        ((if f.start + j = b.own then quadPower (q (f.start + j)) (quadRate M P (b.now M)) else 0) +
          (if f.start + j = b.l.nr ∧ b.l.nr ≠ b.own then quadPower (q (f.start + j)) (quadRate M P (b.now M)) else 0))).sum)
      M.now := by
    apply HasDerivAt.fun_sum
    intro j _
    have h := hasDerivAt_distortion (fun k => rate_dipole M P f ts hs (f.start + j) k)
      (fun k l => rate_quadrupole M P f ts hs (f.start + j) k l)
    refine h.congr_deriv ?_
    rw [List.sum_map_add, ← hm, ← hq, add_sub_assoc]
    congr 1
    · have := dipPower_sum (m (f.start + j)) (bondsFrom f.start ts) (fun b k =>
        (if f.start + j = b.own then dipRate M P (b.now M) k else 0) -
        (if f.start + j = b.l.nr then dipRate M P (b.now M) k else 0))
      simp only [dipPower_ite] at this
      exact this
    · have := quadPower_sum (q (f.start + j)) (bondsFrom f.start ts) (fun b k l =>
        (if f.start + j = b.own then quadRate M P (b.now M) k l else 0) +
        (if f.start + j = b.l.nr ∧ b.l.nr ≠ b.own then quadRate M P (b.now M) k l else 0))
      simp only [quadPower_ite] at this
      exact this
  refine hd.congr_deriv ?_
  have hone := sum_mul_listSum (Finset.range ts.length) (bondsFrom f.start ts) (fun _ => (1 : ℝ)) (fun j b =>
        ((if f.start + j = b.own then dipPower (m (f.start + j)) (dipRate M P (b.now M)) else 0) -
          (if f.start + j = b.l.nr then dipPower (m (f.start + j)) (dipRate M P (b.now M)) else 0)) +
        ((if f.start + j = b.own then quadPower (q (f.start + j)) (quadRate M P (b.now M)) else 0) +
          (if f.start + j = b.l.nr ∧ b.l.nr ≠ b.own then quadPower (q (f.start + j)) (quadRate M P (b.now M)) else 0)))
  simp only [one_mul] at hone
  rw [hone]
  unfold totalRate
  congr 1
  apply List.map_congr_left
  intro b hb
  obtain ⟨r1, r2, r3⟩ := bond_range hh hb
  rw [← power_entry M P b m q (fun a k l => totalQuadrupole_symm P _ a k l)]
  simp only [Finset.sum_add_distrib, Finset.sum_sub_distrib]
  rw [pick_one _ _ _ (fun a => dipPower (m a) (dipRate M P (b.now M))) r1 (by omega),
    pick_one _ _ _ (fun a => dipPower (m a) (dipRate M P (b.now M))) (by omega) r3,
    pick_one _ _ _ (fun a => quadPower (q a) (quadRate M P (b.now M))) r1 (by omega)]
  congr 2
  by_cases h : b.l.nr = b.own
  · simp [h]
  · rw [if_neg h, ← pick_one f.start ts.length b.l.nr (fun a => quadPower (q a) (quadRate M P (b.now M))) (by omega) r3]
    apply Finset.sum_congr rfl
    intro j _
    simp only [ne_eq, h, not_false_eq_true, and_true]

end Verif.Spec
