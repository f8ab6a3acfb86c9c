import Verif.Lemmas.Tersoff

namespace Verif.Spec

open Verif.Force

set_option linter.unusedSectionVars false

section
variable {K : Type*} [Field K] [LinearOrder K]

/-- Contribution of neighbour `nk` to `zeta`. -/
def modZ (L : Lib K) (p : TersModPars K) (nj nk : Neigh K) : K :=
  if nk.r < p.R2 nk.col0 then modF L p nk.col0 nk.r * modG L p nj.col0 (cosine nj nk) * modExp L p nj nk else 0

/-- Its derivatives. -/
def modZj (L : Lib K) (p : TersModPars K) (nj nk : Neigh K) : V3 K := fun c =>
  if nk.r < p.R2 nk.col0 then
    modF L p nk.col0 nk.r * modDg L p nj.col0 (cosine nj nk) * modExp L p nj nk * modDcos nj nk c +
      modF L p nk.col0 nk.r * modG L p nj.col0 (cosine nj nk) * modExp L p nj nk * modRate L p nj nk * nj.distR c else 0

def modZk (L : Lib K) (p : TersModPars K) (nj nk : Neigh K) : V3 K := fun c =>
  if nk.r < p.R2 nk.col0 then modDzeta L p nj nk c else 0

def modSum (L : Lib K) (p : TersModPars K) (nj : Neigh K) (others : List (Neigh K)) : K := (others.map (modZ L p nj)).sum

theorem modInner_fold (L : Lib K) (p : TersModPars K) (nj : Neigh K) (l : List (Neigh K)) (s : Zeta K × K) :
    ∃ dj w, l.foldl (modInner L p nj) s = (⟨s.1.z + (l.map (modZ L p nj)).sum,
      fun c => s.1.di c - (l.map fun nk => modZk L p nj nk c).sum, dj⟩, w) ∧
      ∀ c, dj c + w * nj.distR c = s.1.dj c + s.2 * nj.distR c + (l.map fun nk => modZj L p nj nk c).sum := by
  induction l generalizing s with
  | nil => exact ⟨s.1.dj, s.2, by simp, by simp⟩
  | cons n l ih =>
    rw [List.foldl_cons]
    obtain ⟨dj, w, h1, h2⟩ := ih (modInner L p nj s n)
    refine ⟨dj, w, ?_, ?_⟩
    · rw [h1]
      unfold modInner
      by_cases h : n.r < p.R2 n.col0
      · simp only [if_pos h, List.map_cons, List.sum_cons, modZ, modZk, Prod.mk.injEq, Zeta.mk.injEq]
        refine ⟨⟨by ring, ?_, trivial⟩, trivial⟩
        funext c; ring
      · simp only [if_neg h, List.map_cons, List.sum_cons, modZ, modZk, zero_add]
    · intro c
      rw [h2 c]
      unfold modInner
      by_cases h : n.r < p.R2 n.col0
      · simp only [if_pos h, List.map_cons, List.sum_cons, modZj]
        ring
      · simp only [if_neg h, List.map_cons, List.sum_cons, modZj, zero_add]

/-- Derivative of the bond energy with respect to `zeta`. -/
def modEz (L : Lib K) (p : TersModPars K) (nj : Neigh K) (z : K) : K :=
  if z = 0 then 0
  else 1 / 2 * L.pow (1 + L.pow z (p.eta nj.col0)) (-p.delta nj.col0) * p.B nj.col0 * L.exp (-p.mu nj.col0 * nj.r) *
    modF L p nj.col0 nj.r * p.eta nj.col0 * p.delta nj.col0 * L.pow z (p.eta nj.col0) / ((1 + L.pow z (p.eta nj.col0)) * z)

/-- Energy of a bond. -/
def modE (L : Lib K) (p : TersModPars K) (nj : Neigh K) (z : K) : K :=
  modF L p nj.col0 nj.r * -(1 / 2 * L.pow (1 + L.pow z (p.eta nj.col0)) (-p.delta nj.col0) * p.B nj.col0 *
    L.exp (-p.mu nj.col0 * nj.r))

/-- Derivative of the bond energy with respect to the distance. -/
def modEr (L : Lib K) (p : TersModPars K) (nj : Neigh K) (z : K) : K :=
  -(1 / 2 * L.pow (1 + L.pow z (p.eta nj.col0)) (-p.delta nj.col0) * p.B nj.col0 * L.exp (-p.mu nj.col0 * nj.r)) *
    (modDf L p nj.col0 nj.r - p.mu nj.col0 * modF L p nj.col0 nj.r)

/-- Bond of an atom with neighbour `nj`. -/
def modTerm (L : Lib K) (p : TersModPars K) (i : Nat) (nj : Neigh K) (others : List (Neigh K)) : Term K :=
  if nj.r < p.R2 nj.col0 ∧ p.B nj.col0 ≠ 0 then
    bondTerm i nj others (modE L p nj (modSum L p nj others)) (fun c => modEr L p nj (modSum L p nj others) * nj.distR c)
      (modEz L p nj (modSum L p nj others)) (modZj L p nj) (modZk L p nj)
  else ⟨i, 0, []⟩

theorem modBond_plus (b : Build) (L : Lib K) (p : TersModPars K) (us : Bool) (i : Nat) (s : Acc K) (nj : Neigh K) (others : List (Neigh K)) :
    modBond b L p us i s nj others = plus s (modTerm L p i nj others).energy (pullForce i (modTerm L p i nj others).pulls)
      (if b.stress && us then -meanVirial (modTerm L p i nj others).pulls else 0) := by
  by_cases h1 : nj.r < p.R2 nj.col0
  · by_cases h2 : p.B nj.col0 = 0
    · unfold modBond modTerm
      rw [if_pos h1, if_pos h2, if_neg (by tauto)]
      simp [pullForce, meanVirial, plus_zero]
    · unfold modBond modTerm
      rw [if_pos h1, if_neg h2, if_pos ⟨h1, h2⟩]
      obtain ⟨dj, w, e1, e2⟩ := modInner_fold L p nj others (⟨0, fun _ => 0, fun _ => 0⟩, 0)
      simp only [e1, zero_add, zero_sub]
      simp only [zero_add, zero_mul] at e2
      rw [bondSpread_plus (E := modE L p nj (modSum L p nj others)) (u := fun c => modEr L p nj (modSum L p nj others) * nj.distR c)
        (zj := modZj L p nj) (zk := modZk L p nj)]
      · simp only [plus, add_zero, neg_neg]
        rfl
      · intro nk _ c
        rfl
      · intro c
        rfl
      · intro c
        rw [e2]
        unfold modEr modSum
        ring
  · unfold modBond modTerm
    rw [if_neg h1, if_neg (by tauto)]
    simp [pullForce, meanVirial, plus_zero]

theorem modAtom_plus [CharZero K] (b : Build) (L : Lib K) (p : TersModPars K) (c : Conf K) (hu : c.uf = true) (i : Nat) (a : Atom K) (s : Acc K) :
    modAtom b L p c i a s = plus s (sumEnergy (bondSite (modPots L p) (modTerm L p) i a)) (bondForceSum (modPots L p) (modTerm L p) i a)
      (if b.stress && c.us then bondStress (modPots L p) (modTerm L p) i a else 0) := by
  unfold modAtom
  rw [hu]
  exact bondAtom_plus b (modPots L p) (modTerm L p) (modBond b L p c.us) c.us (fun i s nj others => modBond_plus b L p c.us i s nj others) i a s

end

theorem hasDerivAt_modF (p : TersModPars ℝ) (col : Nat) (r : ℝ) : HasDerivAt (modF realLib p col) (modDf realLib p col r) r := by
  have hl : ∀ y : ℝ, HasDerivAt (fun y => Real.pi / (p.R2 col - p.R1 col) * (y - p.R1 col)) (Real.pi / (p.R2 col - p.R1 col)) y := by
    intro y
    have := ((hasDerivAt_id y).sub_const (p.R1 col)).const_mul (Real.pi / (p.R2 col - p.R1 col))
    simpa using this
  have hg : ∀ y : ℝ, HasDerivAt (fun y => 1 / 2 * (1 + 9 / 8 * Real.cos (Real.pi / (p.R2 col - p.R1 col) * (y - p.R1 col)) -
        1 / 8 * Real.cos (3 * (Real.pi / (p.R2 col - p.R1 col) * (y - p.R1 col)))))
      (-(1 / 2) * (Real.pi / (p.R2 col - p.R1 col)) * (9 / 8 * Real.sin (Real.pi / (p.R2 col - p.R1 col) * (y - p.R1 col)) -
        3 / 8 * Real.sin (3 * (Real.pi / (p.R2 col - p.R1 col) * (y - p.R1 col))))) y := by
    intro y
    refine ((((hl y).cos.const_mul (9 / 8)).const_add 1).sub (((hl y).const_mul 3).cos.const_mul (1 / 8)) |>.const_mul (1 / 2)).congr_deriv ?_
    ring
  exact hasDerivAt_two (f := fun _ => 1) (f' := fun _ => 0) (fun x => hasDerivAt_const x (1 : ℝ)) hg (by simp; norm_num) (by simp) r

theorem hasDerivAt_modG (p : TersModPars ℝ) (col : Nat) (h3 : 0 < p.c3 col) (x : ℝ) : HasDerivAt (modG realLib p col) (modDg realLib p col x) x := by
  have h1 : HasDerivAt (fun x => p.h col - x) (-1) x := by simpa using (hasDerivAt_id x).const_sub (p.h col)
  have hpos : p.c3 col + (p.h col - x) * (p.h col - x) ≠ 0 := by
    have := mul_self_nonneg (p.h col - x)
    linarith
  have hq : HasDerivAt (fun x => (p.h col - x) * (p.h col - x)) (-1 * (p.h col - x) + (p.h col - x) * -1) x := h1.mul h1
  have hi := (hq.const_add (p.c3 col)).fun_inv hpos
  have he := ((hq.const_mul (-p.c5 col)).exp.const_mul (p.c4 col)).const_add 1
  have h := (((hq.const_mul (p.c2 col)).mul hi).mul he).const_add (p.c1 col)
  refine (h.congr_of_eventuallyEq (Filter.Eventually.of_forall fun y => ?_)).congr_deriv ?_
  · simp only [modG, one_div, Pi.mul_apply, realLib, mul_assoc]
  · simp only [modDg, one_div, realLib, Pi.mul_apply]
    have e : -p.c5 col * (p.h col - x) * (p.h col - x) = -p.c5 col * ((p.h col - x) * (p.h col - x)) := mul_assoc _ _ _
    rw [e]
    generalize Real.exp (-p.c5 col * ((p.h col - x) * (p.h col - x))) = E
    field_simp
    ring

theorem hasDerivAt_modOrder (eta delta z : ℝ) (hz : 0 < z) :
    HasDerivAt (fun z => (1 + z ^ eta) ^ (-delta)) (-((1 + z ^ eta) ^ (-delta) * (eta * delta * z ^ eta) / ((1 + z ^ eta) * z))) z := by
  have hp : 0 < z ^ eta := Real.rpow_pos_of_pos hz eta
  have h2 := (hasDerivAt_id z).rpow_const (p := eta) (Or.inl hz.ne')
  have h3 := (h2.const_add 1).rpow_const (p := -delta) (Or.inl (by simp only [id]; positivity))
  refine h3.congr_deriv ?_
  simp only [id]
  rw [Real.rpow_sub_one hz.ne', Real.rpow_sub_one (show 1 + z ^ eta ≠ 0 by positivity)]
  field_simp

/-- Conditions on the parameters of a column. -/
structure ModOk (p : TersModPars ℝ) (col : Nat) : Prop where
  range : p.R1 col < p.R2 col
  c1 : 0 < p.c1 col
  c2 : 0 ≤ p.c2 col
  c3 : 0 < p.c3 col
  c4 : 0 ≤ p.c4 col
  beta : ∃ k : ℕ, p.beta col = k + 1

theorem hasDerivAt_modExp (m : Motion) (p : TersModPars ℝ) (i : Nat) (l l' : Link) (hb : ∃ k : ℕ, p.beta l.col0 = k + 1)
    (h0 : length (m.path m.now i l) ≠ 0) (h0' : length (m.path m.now i l') ≠ 0) :
    HasDerivAt (fun t => modExp realLib p (placedAt (m.path t i l) l) (placedAt (m.path t i l') l'))
      (modExp realLib p (placedAt (m.path m.now i l) l) (placedAt (m.path m.now i l') l') *
        (modRate realLib p (placedAt (m.path m.now i l) l) (placedAt (m.path m.now i l') l') *
        ((∑ k : Fin 3, (placedAt (m.path m.now i l) l).distR k * m.speed i (placedAt (m.path m.now i l) l) k) -
          ∑ k : Fin 3, (placedAt (m.path m.now i l') l').distR k * m.speed i (placedAt (m.path m.now i l') l') k))) m.now := by
  obtain ⟨k, hk⟩ := hb
  have hr := hasDerivAt_r m i l h0
  have hr' := hasDerivAt_r m i l' h0'
  have h := (((hr.sub hr').pow (k + 1)).const_mul (p.alpha l.col0)).exp
  have c1 : ∀ t, (placedAt (m.path t i l) l).col0 = l.col0 := fun _ => rfl
  have e1 : ∀ x : ℝ, x ^ ((k : ℝ) + 1) = x ^ (k + 1) := by
    intro x
    have := Real.rpow_natCast x (k + 1)
    rw [← this]
    norm_cast
  have e2 : ∀ x : ℝ, x ^ ((k : ℝ) + 1 - 1) = x ^ k := by
    intro x
    rw [add_sub_cancel_right, Real.rpow_natCast]
  refine (h.congr_of_eventuallyEq (Filter.Eventually.of_forall fun t => ?_)).congr_deriv ?_
  · simp only [modExp, realLib, c1, hk, e1, Pi.sub_apply, Pi.pow_apply]
  · simp only [modExp, modRate, realLib, c1, hk, e1, e2, Pi.sub_apply, Pi.pow_apply, Nat.add_sub_cancel, Nat.cast_add, Nat.cast_one]
    ring

/-- The cut-off function along a motion. -/
theorem hasDerivAt_cutMod (m : Motion) (p : TersModPars ℝ) (i : Nat) (l : Link) (h0 : length (m.path m.now i l) ≠ 0)
    (hS : length (m.path m.now i l) ≠ p.R2 l.col0) :
    HasDerivAt (fun t => if (placedAt (m.path t i l) l).r < p.R2 l.col0 then modF realLib p l.col0 (placedAt (m.path t i l) l).r else 0)
      ((if length (m.path m.now i l) < p.R2 l.col0 then modDf realLib p l.col0 (length (m.path m.now i l)) else 0) *
        ∑ k : Fin 3, (placedAt (m.path m.now i l) l).distR k * m.speed i (placedAt (m.path m.now i l) l) k) m.now := by
  have hP : CutSlope (p.R2 l.col0) (modF realLib p l.col0) (modDf realLib p l.col0 (length (m.path m.now i l))) (length (m.path m.now i l)) := by
    rcases lt_or_gt_of_ne hS with h | h
    · exact cutSlope_inside (hasDerivAt_modF p l.col0 _) h
    · exact cutSlope_outside h
  have hP' : HasDerivAt (fun r => if r < p.R2 l.col0 then modF realLib p l.col0 r else 0)
    (if length (m.path m.now i l) < p.R2 l.col0 then modDf realLib p l.col0 (length (m.path m.now i l)) else 0)
    ((fun t => (placedAt (m.path t i l) l).r) m.now) := hP
  exact hP'.comp m.now (hasDerivAt_r m i l h0)

theorem hasDerivAt_modZ (m : Motion) (p : TersModPars ℝ) (i : Nat) (l l' : Link) (hd : ModOk p l.col0)
    (h0 : length (m.path m.now i l) ≠ 0) (h0' : length (m.path m.now i l') ≠ 0) (hS : length (m.path m.now i l') ≠ p.R2 l'.col0) :
    HasDerivAt (fun t => modZ realLib p (placedAt (m.path t i l) l) (placedAt (m.path t i l') l'))
      ((∑ c, modZj realLib p (placedAt (m.path m.now i l) l) (placedAt (m.path m.now i l') l') c * m.speed i (placedAt (m.path m.now i l) l) c) +
       ∑ c, modZk realLib p (placedAt (m.path m.now i l) l) (placedAt (m.path m.now i l') l') c * m.speed i (placedAt (m.path m.now i l') l') c)
      m.now := by
  have hf := hasDerivAt_cutMod m p i l' h0' hS
  have hc := hasDerivAt_cosine m i l l' h0 h0'
  simp only at hc
  have hgc := HasDerivAt.comp m.now (h₂ := modG realLib p l.col0)
    (h := fun t => cosine (placedAt (m.path t i l) l) (placedAt (m.path t i l') l')) (hasDerivAt_modG p l.col0 hd.c3 _) hc
  have hx := hasDerivAt_modExp m p i l l' hd.beta h0 h0'
  have h := (hf.mul hgc).mul hx
  refine (h.congr_of_eventuallyEq (Filter.Eventually.of_forall fun t => ?_)).congr_deriv ?_
  · have c2 : (placedAt (m.path t i l') l').col0 = l'.col0 := rfl
    have c1 : (placedAt (m.path t i l) l).col0 = l.col0 := rfl
    simp only [modZ, Pi.mul_apply, Function.comp, c1, c2]
    by_cases hb : (placedAt (m.path t i l') l').r < p.R2 l'.col0 <;> simp [hb]
  · have r1 : (placedAt (m.path m.now i l) l).r = length (m.path m.now i l) := rfl
    have r2 : (placedAt (m.path m.now i l') l').r = length (m.path m.now i l') := rfl
    have c1 : (placedAt (m.path m.now i l) l).col0 = l.col0 := rfl
    have c2 : (placedAt (m.path m.now i l') l').col0 = l'.col0 := rfl
    simp only [modZj, modZk, modDzeta, modDcos, modDcosK, r1, r2, c1, c2, Fin.sum_univ_three, Function.comp, Pi.mul_apply]
    by_cases hb : length (m.path m.now i l') < p.R2 l'.col0
    · simp only [if_pos hb]
      field_simp
      ring
    · simp only [if_neg hb, zero_mul, add_zero]

theorem modF_pos (p : TersModPars ℝ) (col : Nat) (hRS : p.R1 col < p.R2 col) {r : ℝ} (hr : r < p.R2 col) : 0 < modF realLib p col r := by
  unfold modF
  by_cases h : r < p.R1 col
  · simp [h]
  · simp only [if_neg h]
    have h1 : 0 < p.R2 col - p.R1 col := by linarith
    have h2 : 0 ≤ r - p.R1 col := by linarith [not_lt.1 h]
    have h3 : Real.pi / (p.R2 col - p.R1 col) * (r - p.R1 col) < Real.pi := by
      rw [div_mul_eq_mul_div, div_lt_iff₀ h1]
      exact mul_lt_mul_of_pos_left (by linarith) Real.pi_pos
    have h4 : Real.cos Real.pi < Real.cos (Real.pi / (p.R2 col - p.R1 col) * (r - p.R1 col)) :=
      Real.cos_lt_cos_of_nonneg_of_le_pi (by have := Real.pi_pos; positivity) le_rfl h3
    rw [Real.cos_pi] at h4
    show 0 < 1 / 2 * (1 + 9 / 8 * Real.cos (Real.pi / (p.R2 col - p.R1 col) * (r - p.R1 col)) -
      1 / 8 * Real.cos (3 * (Real.pi / (p.R2 col - p.R1 col) * (r - p.R1 col))))
    rw [Real.cos_three_mul]
    have h5 := Real.cos_le_one (Real.pi / (p.R2 col - p.R1 col) * (r - p.R1 col))
    generalize Real.cos (Real.pi / (p.R2 col - p.R1 col) * (r - p.R1 col)) = c at h4 h5
    have h6 : 0 < (1 + c) ^ 2 * (2 - c) := mul_pos (pow_pos (by linarith) 2) (by linarith)
    nlinarith

theorem modG_pos (p : TersModPars ℝ) (col : Nat) (hd : ModOk p col) (x : ℝ) : 0 < modG realLib p col x := by
  unfold modG
  simp only
  have h1 := hd.c1
  have h2 := hd.c2
  have h3 := hd.c3
  have h4 := hd.c4
  have h5 := mul_self_nonneg (p.h col - x)
  have h6 : 0 < p.c3 col + (p.h col - x) * (p.h col - x) := by linarith
  have h7 : 0 ≤ p.c4 col * realLib.exp (-p.c5 col * (p.h col - x) * (p.h col - x)) := mul_nonneg h4 (Real.exp_pos _).le
  have h8 : 0 ≤ p.c2 col * (p.h col - x) * (p.h col - x) := by rw [mul_assoc]; exact mul_nonneg h2 h5
  have h9 : 0 ≤ 1 / (p.c3 col + (p.h col - x) * (p.h col - x)) := by positivity
  have := mul_nonneg (mul_nonneg h8 h9) (show 0 ≤ 1 + p.c4 col * realLib.exp (-p.c5 col * (p.h col - x) * (p.h col - x)) by linarith)
  linarith

theorem modZ_inside (p : TersModPars ℝ) (hp : ∀ col, ModOk p col) (nj nk : Neigh ℝ) (h : nk.r < p.R2 nk.col0) : 0 < modZ realLib p nj nk := by
  unfold modZ
  rw [if_pos h]
  have h1 := modF_pos p nk.col0 (hp _).range h
  have h2 := modG_pos p nj.col0 (hp _) (cosine nj nk)
  have h3 : 0 < modExp realLib p nj nk := Real.exp_pos _
  positivity

theorem modZ_nonneg (p : TersModPars ℝ) (hp : ∀ col, ModOk p col) (nj nk : Neigh ℝ) : 0 ≤ modZ realLib p nj nk := by
  by_cases h : nk.r < p.R2 nk.col0
  · exact (modZ_inside p hp nj nk h).le
  · unfold modZ
    rw [if_neg h]

/-- The bond order along a motion. -/
theorem hasDerivAt_orderMod (m : Motion) (p : TersModPars ℝ) (hp : ∀ col, ModOk p col) (i : Nat) (l : Link) (ls : List Link)
    (h0 : length (m.path m.now i l) ≠ 0) (hs : ∀ l' ∈ ls, length (m.path m.now i l') ≠ 0 ∧ length (m.path m.now i l') ≠ p.R2 l'.col0) :
    let nj := placedAt (m.path m.now i l) l
    let others := ls.map fun l' => placedAt (m.path m.now i l') l'
    let z := modSum realLib p nj others
    let z' := (others.map fun nk => (∑ c, modZj realLib p nj nk c * m.speed i nj c) + ∑ c, modZk realLib p nj nk c * m.speed i nk c).sum
    HasDerivAt (fun t => (1 + (modSum realLib p (placedAt (m.path t i l) l) (ls.map fun l' => placedAt (m.path t i l') l')) ^ p.eta l.col0) ^
        (-p.delta l.col0))
      (if z = 0 then 0 else
        -((1 + z ^ p.eta l.col0) ^ (-p.delta l.col0) * (p.eta l.col0 * p.delta l.col0 * z ^ p.eta l.col0) / ((1 + z ^ p.eta l.col0) * z)) * z')
      m.now := by
  intro nj others z z'
  by_cases hin : ∃ l' ∈ ls, length (m.path m.now i l') < p.R2 l'.col0
  · obtain ⟨l', hl', hlt⟩ := hin
    have hz : 0 < z := by
      show 0 < ((ls.map fun l' => placedAt (m.path m.now i l') l').map (modZ realLib p nj)).sum
      rw [List.map_map]
      exact list_sum_pos ls _ (fun l'' _ => modZ_nonneg p hp nj _) l' hl' (modZ_inside p hp nj _ hlt)
    rw [if_neg hz.ne']
    have hsum : HasDerivAt (fun t => modSum realLib p (placedAt (m.path t i l) l) (ls.map fun l' => placedAt (m.path t i l') l')) z' m.now := by
      have := sum_hasDerivAt ls (fun l' t => modZ realLib p (placedAt (m.path t i l) l) (placedAt (m.path t i l') l')) _ m.now
        (fun l' hl' => hasDerivAt_modZ m p i l l' (hp _) h0 (hs l' hl').1 (hs l' hl').2)
      refine (this.congr_of_eventuallyEq (Filter.Eventually.of_forall fun t => ?_)).congr_deriv ?_
      · simp only [modSum, List.map_map, Function.comp_def]
      · simp only [z', others, List.map_map, Function.comp_def, nj]
    exact (hasDerivAt_modOrder (p.eta l.col0) (p.delta l.col0) z hz).comp m.now hsum
  · push Not at hin
    have hgt : ∀ l' ∈ ls, p.R2 l'.col0 < length (m.path m.now i l') := fun l' hl' => lt_of_le_of_ne (hin l' hl') (hs l' hl').2.symm
    have hz : z = 0 := by
      show ((ls.map fun l' => placedAt (m.path m.now i l') l').map (modZ realLib p nj)).sum = 0
      rw [List.map_map]
      apply List.sum_eq_zero
      intro x hx
      obtain ⟨l', hl', rfl⟩ := List.mem_map.1 hx
      simp only [Function.comp, modZ]
      rw [if_neg (show ¬ (placedAt (m.path m.now i l') l').r < p.R2 (placedAt (m.path m.now i l') l').col0 from not_lt.2 (hin l' hl'))]
    rw [if_pos hz]
    refine (hasDerivAt_const m.now ((1 + (0 : ℝ) ^ p.eta l.col0) ^ (-p.delta l.col0))).congr_of_eventuallyEq ?_
    have hev : ∀ᶠ t in nhds m.now, ∀ l' ∈ ls, p.R2 l'.col0 < length (m.path t i l') := by
      clear hin hz z z' others
      induction ls with
      | nil => simp
      | cons l' ls ih =>
        have h1 := ih (fun x hx => hs x (List.mem_cons_of_mem _ hx)) (fun x hx => hgt x (List.mem_cons_of_mem _ hx))
        have h2 : ∀ᶠ t in nhds m.now, p.R2 l'.col0 < length (m.path t i l') :=
          (hasDerivAt_r m i l' (hs l' List.mem_cons_self).1).continuousAt.eventually (lt_mem_nhds (hgt l' List.mem_cons_self))
        filter_upwards [h1, h2] with t ht1 ht2
        intro x hx
        rcases List.mem_cons.1 hx with rfl | hx
        · exact ht2
        · exact ht1 x hx
    filter_upwards [hev] with t ht
    have hz0 : modSum realLib p (placedAt (m.path t i l) l) (ls.map fun l' => placedAt (m.path t i l') l') = 0 := by
      unfold modSum
      rw [List.map_map]
      apply List.sum_eq_zero
      intro x hx
      obtain ⟨l', hl', rfl⟩ := List.mem_map.1 hx
      simp only [Function.comp, modZ]
      rw [if_neg (show ¬ (placedAt (m.path t i l') l').r < p.R2 (placedAt (m.path t i l') l').col0 from not_lt.2 (ht l' hl').le)]
    rw [hz0]

/-- Bonds of the modified Tersoff potential. -/
theorem follow_mod (m : Motion) (p : TersModPars ℝ) (hp : ∀ col, ModOk p col) (i : Nat) (l : Link) (ls : List Link)
    (hl : length (m.path m.now i l) ≠ 0 ∧ length (m.path m.now i l) ≠ p.R2 l.col0)
    (hs : ∀ l' ∈ ls, length (m.path m.now i l') ≠ 0 ∧ length (m.path m.now i l') ≠ p.R2 l'.col0) :
    HasDerivAt (fun t => (modTerm realLib p i (placedAt (m.path t i l) l) (ls.map fun l' => placedAt (m.path t i l') l')).energy)
      ((modTerm realLib p i (placedAt (m.path m.now i l) l) (ls.map fun l' => placedAt (m.path m.now i l') l')).rate m.speed) m.now := by
  have c1 : ∀ t, (placedAt (m.path t i l) l).col0 = l.col0 := fun _ => rfl
  have r1 : (placedAt (m.path m.now i l) l).r = length (m.path m.now i l) := rfl
  by_cases hB : p.B l.col0 = 0
  · have e : ∀ t, modTerm realLib p i (placedAt (m.path t i l) l) (ls.map fun l' => placedAt (m.path t i l') l') = ⟨i, 0, []⟩ := by
      intro t
      unfold modTerm
      rw [if_neg]
      rw [c1]
      tauto
    simp only [e, Term.rate, List.map_nil, List.sum_nil]
    exact hasDerivAt_const _ _
  · have hf := hasDerivAt_cutMod m p i l hl.1 hl.2
    have ho := hasDerivAt_orderMod m p hp i l ls hl.1 hs
    simp only at ho
    have hr := hasDerivAt_r m i l hl.1
    have he := (hr.const_mul (-p.mu l.col0)).exp
    have h := hf.mul (((ho.const_mul (1 / 2)).mul_const (p.B l.col0)).mul he).neg
    refine (h.congr_of_eventuallyEq (Filter.Eventually.of_forall fun t => ?_)).congr_deriv ?_
    · simp only [Pi.mul_apply, Pi.neg_apply]
      by_cases hb : (placedAt (m.path t i l) l).r < p.R2 l.col0
      · have : modTerm realLib p i (placedAt (m.path t i l) l) (ls.map fun l' => placedAt (m.path t i l') l') = _ :=
          if_pos (show (placedAt (m.path t i l) l).r < p.R2 (placedAt (m.path t i l) l).col0 ∧ p.B (placedAt (m.path t i l) l).col0 ≠ 0 from ⟨hb, hB⟩)
        rw [this, if_pos hb]
        rfl
      · have : modTerm realLib p i (placedAt (m.path t i l) l) (ls.map fun l' => placedAt (m.path t i l') l') = _ :=
          if_neg (show ¬((placedAt (m.path t i l) l).r < p.R2 (placedAt (m.path t i l) l).col0 ∧ p.B (placedAt (m.path t i l) l).col0 ≠ 0) from
            fun h => hb h.1)
        rw [this, if_neg hb, zero_mul]
    · by_cases hb : length (m.path m.now i l) < p.R2 l.col0
      · have : modTerm realLib p i (placedAt (m.path m.now i l) l) (ls.map fun l' => placedAt (m.path m.now i l') l') = _ :=
          if_pos (show (placedAt (m.path m.now i l) l).r < p.R2 (placedAt (m.path m.now i l) l).col0 ∧
            p.B (placedAt (m.path m.now i l) l).col0 ≠ 0 from ⟨hb, hB⟩)
        rw [this, bondTerm_rate]
        simp only [if_pos hb, r1, Pi.mul_apply, Pi.neg_apply]
        generalize (List.map (fun nk => (∑ c, modZj realLib p (placedAt (m.path m.now i l) l) nk c * m.speed i (placedAt (m.path m.now i l) l) c) +
          ∑ c, modZk realLib p (placedAt (m.path m.now i l) l) nk c * m.speed i nk c) (ls.map fun l' => placedAt (m.path m.now i l') l')).sum = z'
        generalize modSum realLib p (placedAt (m.path m.now i l) l) (ls.map fun l' => placedAt (m.path m.now i l') l') = z
        have hne := hl.1
        simp only [modEr, modEz, c1, r1, realLib, Fin.sum_univ_three]
        by_cases hz : z = 0
        · simp only [if_pos hz]
          ring
        · simp only [if_neg hz]
          ring
      · have : modTerm realLib p i (placedAt (m.path m.now i l) l) (ls.map fun l' => placedAt (m.path m.now i l') l') = _ :=
          if_neg (show ¬((placedAt (m.path m.now i l) l).r < p.R2 (placedAt (m.path m.now i l) l).col0 ∧
            p.B (placedAt (m.path m.now i l) l).col0 ≠ 0) from fun h => hb h.1)
        rw [this]
        simp only [Term.rate, List.map_nil, List.sum_nil, if_neg hb, r1, zero_mul, add_zero]

/-- Symmetry needs the lengths of the vectors to be right. -/
theorem modTerm_sym (p : TersModPars ℝ) (i : Nat) (nj : Neigh ℝ) (others : List (Neigh ℝ)) (hj : ∀ c, nj.dist c = nj.distR c * nj.r)
    (hj0 : nj.r ≠ 0) (ho : ∀ nk ∈ others, nk.r ≠ 0 ∧ ∀ c, nk.dist c = nk.distR c * nk.r) (α β : Fin 3) :
    (modTerm realLib p i nj others).strain α β = (modTerm realLib p i nj others).strain β α := by
  unfold modTerm
  by_cases h : nj.r < p.R2 nj.col0 ∧ p.B nj.col0 ≠ 0
  · rw [if_pos h]
    apply bondTerm_sym
    · intro α β; simp only [hj]; ring
    · intro nk hk α β
      obtain ⟨h0, hd⟩ := ho nk hk
      simp only [modZj, modZk, modDzeta, modDcos, modDcosK, hj, hd]
      by_cases hk : nk.r < p.R2 nk.col0
      · simp only [if_pos hk]
        field_simp
        ring
      · simp only [if_neg hk, zero_mul, add_zero]
  · rw [if_neg h]
    simp [Term.strain]

end Verif.Spec
