import Verif.Lemmas.Follow

namespace Verif.Spec

open Verif.Force

set_option linter.unusedSectionVars false

section
variable {K : Type*} [Field K] [LinearOrder K]

/-- Value of the three-body function within its range. -/
def swF (P : SwPots K) (n : Neigh K) : K := if n.r < P.fin3 n.col0 then P.f n.col0 n.r else 0

/-- Energy of an angle. -/
def swEnergy (P : SwPots K) (typ : Nat) (nj nk : Neigh K) : K :=
  P.lambda typ nj.typ nk.typ * (swF P nj * swF P nk * ((cosine nj nk + 1 / 3) * (cosine nj nk + 1 / 3)))

/-- Derivative of the energy of an angle with respect to the vector to the first neighbour. -/
def swPull (P : SwPots K) (typ : Nat) (nj nk : Neigh K) : V3 K := fun c =>
  if nj.r < P.fin3 nj.col0 ∧ nk.r < P.fin3 nk.col0 then
    (P.lambda typ nj.typ nk.typ * (cosine nj nk + 1 / 3) * (cosine nj nk + 1 / 3) * P.df nj.col0 nj.r * P.f nk.col0 nk.r -
      P.lambda typ nj.typ nk.typ * P.f nj.col0 nj.r * P.f nk.col0 nk.r * 2 * (cosine nj nk + 1 / 3) * cosine nj nk *
        (1 / (nj.r * nj.r))) * nj.dist c +
    P.lambda typ nj.typ nk.typ * P.f nj.col0 nj.r * P.f nk.col0 nk.r * 2 * (cosine nj nk + 1 / 3) * (1 / (nj.r * nk.r)) *
      nk.dist c
  else 0

/-- The same with respect to the vector to the second neighbour. -/
def swPullK (P : SwPots K) (typ : Nat) (nj nk : Neigh K) : V3 K := fun c =>
  if nj.r < P.fin3 nj.col0 ∧ nk.r < P.fin3 nk.col0 then
    (P.lambda typ nj.typ nk.typ * (cosine nj nk + 1 / 3) * (cosine nj nk + 1 / 3) * P.df nk.col0 nk.r * P.f nj.col0 nj.r -
      P.lambda typ nj.typ nk.typ * P.f nj.col0 nj.r * P.f nk.col0 nk.r * 2 * (cosine nj nk + 1 / 3) * cosine nj nk *
        (1 / (nk.r * nk.r))) * nk.dist c +
    P.lambda typ nj.typ nk.typ * P.f nj.col0 nj.r * P.f nk.col0 nk.r * 2 * (cosine nj nk + 1 / 3) * (1 / (nj.r * nk.r)) *
      nj.dist c
  else 0

def swTerm (P : SwPots K) (i typ : Nat) (nj nk : Neigh K) : Term K :=
  ⟨i, swEnergy P typ nj nk, [⟨nj, swPull P typ nj nk⟩, ⟨nk, swPullK P typ nj nk⟩]⟩

theorem single_zero (a : Nat) : single a (fun _ => (0 : K)) = 0 := by
  funext b
  unfold single
  by_cases h : b = a <;> simp [h] <;> rfl

theorem pullForce_zero (i : Nat) (nj nk : Neigh K) : pullForce i [⟨nj, fun _ => 0⟩, ⟨nk, fun _ => 0⟩] = 0 := by
  simp [pullForce, single_zero]

theorem meanVirial_zero (nj nk : Neigh K) : meanVirial [⟨nj, fun _ => 0⟩, ⟨nk, fun _ => 0⟩] = 0 := by
  funext m
  simp only [meanVirial, symVirial, List.map_cons, List.map_nil, List.sum_cons, List.sum_nil, add_zero, mul_zero]
  fin_cases m <;> simp

theorem swTerm_outside (P : SwPots K) (i typ : Nat) (nj nk : Neigh K)
    (h : ¬(nj.r < P.fin3 nj.col0 ∧ nk.r < P.fin3 nk.col0)) :
    swTerm P i typ nj nk = ⟨i, 0, [⟨nj, fun _ => 0⟩, ⟨nk, fun _ => 0⟩]⟩ := by
  have hE : swEnergy P typ nj nk = 0 := by
    unfold swEnergy swF
    rcases not_and_or.1 h with h | h <;> simp [h]
  unfold swTerm swPull swPullK
  simp only [hE, if_neg h]

theorem swAngle_plus (b : Build) (P : SwPots K) (us : Bool) (i typ : Nat) (s : Acc K) (nj nk : Neigh K)
    (hj : nj.r < P.fin3 nj.col0) :
    swAngle b P us i typ s nj nk = plus s (swTerm P i typ nj nk).energy (pullForce i (swTerm P i typ nj nk).pulls)
      (if b.stress && us then -meanVirial (swTerm P i typ nj nk).pulls else 0) := by
  by_cases hk : nk.r < P.fin3 nk.col0
  · by_cases hl : P.lambda typ nj.typ nk.typ = 0
    · have e : swTerm P i typ nj nk = ⟨i, 0, [⟨nj, fun _ => 0⟩, ⟨nk, fun _ => 0⟩]⟩ := by
        unfold swTerm swEnergy swPull swPullK
        simp only [hl, zero_mul, sub_zero, add_zero, ite_self]
      rw [e]
      unfold swAngle
      simp only [if_pos hl, pullForce_zero, meanVirial_zero, neg_zero, ite_self, plus_zero]
    · have ej : swPull P typ nj nk = fun c => (P.lambda typ nj.typ nk.typ * (cosine nj nk + 1 / 3) * (cosine nj nk + 1 / 3) * P.df nj.col0 nj.r * P.f nk.col0 nk.r -
          P.lambda typ nj.typ nk.typ * P.f nj.col0 nj.r * P.f nk.col0 nk.r * 2 * (cosine nj nk + 1 / 3) * cosine nj nk *
          (1 / (nj.r * nj.r))) * nj.dist c +
          P.lambda typ nj.typ nk.typ * P.f nj.col0 nj.r * P.f nk.col0 nk.r * 2 * (cosine nj nk + 1 / 3) * (1 / (nj.r * nk.r)) *
          nk.dist c := by
        funext c; unfold swPull; rw [if_pos ⟨hj, hk⟩]
      have ek : swPullK P typ nj nk = fun c => (P.lambda typ nj.typ nk.typ * (cosine nj nk + 1 / 3) * (cosine nj nk + 1 / 3) * P.df nk.col0 nk.r * P.f nj.col0 nj.r -
          P.lambda typ nj.typ nk.typ * P.f nj.col0 nj.r * P.f nk.col0 nk.r * 2 * (cosine nj nk + 1 / 3) * cosine nj nk *
          (1 / (nk.r * nk.r))) * nk.dist c +
          P.lambda typ nj.typ nk.typ * P.f nj.col0 nj.r * P.f nk.col0 nk.r * 2 * (cosine nj nk + 1 / 3) * (1 / (nj.r * nk.r)) *
          nj.dist c := by
        funext c; unfold swPullK; rw [if_pos ⟨hj, hk⟩]
      unfold swAngle swTerm
      rw [if_neg hl, if_pos hk]
      simp only [scatter3_eq, virial3_eq, ej, ek, plus, swEnergy, swF, if_pos hj, if_pos hk]
      by_cases hs : (b.stress && us) = true
      · simp only [if_pos hs, Acc.mk.injEq, and_true, true_and]
        refine ⟨by ring, ?_⟩
        rw [sub_eq_add_neg]
      · simp only [if_neg hs, add_zero, Acc.mk.injEq, and_true, true_and]
        ring
  · rw [swTerm_outside P i typ nj nk (by tauto)]
    unfold swAngle
    simp only [if_neg hk, ite_self, pullForce_zero, meanVirial_zero, neg_zero, plus_zero]

/-- Terms of one atom. -/
def swSite (P : SwPots K) (i : Nat) (a : Atom K) : List (Term K) :=
  a.neigh.map (pairTerm true P.toPots i) ++ (pairsOf a.neigh).map fun p => swTerm P i a.typ p.1 p.2

/-- Stresses of the terms of one atom. -/
def swStress (P : SwPots K) (i : Nat) (a : Atom K) : Fin 6 → K :=
  -((a.neigh.map fun n => plainVirial (pairTerm true P.toPots i n).pulls).sum +
    ((pairsOf a.neigh).map fun p => meanVirial (swTerm P i a.typ p.1 p.2).pulls).sum)

theorem sum_ite_neg {α : Type*} (c : Bool) (l : List α) (g : α → Fin 6 → K) :
    (l.map fun x => if c then -g x else 0).sum = if c then -(l.map g).sum else 0 := by
  cases c
  · simp
  · simp only [if_true]
    induction l with
    | nil => simp
    | cons n l ih => simp only [List.map_cons, List.sum_cons, ih]; rw [neg_add]

theorem swAtom_plus [CharZero K] (b : Build) (P : SwPots K) (c : Conf K) (hu : c.uf = true) (i : Nat) (a : Atom K) (s : Acc K) :
    swAtom b P c i a s = plus s (sumEnergy (swSite P i a))
      ((a.neigh.map (ownerForce true P.toPots i)).sum +
        ((pairsOf a.neigh).map fun p => pullForce i (swTerm P i a.typ p.1 p.2).pulls).sum)
      (if b.stress && c.us then swStress P i a else 0) := by
  unfold swAtom
  simp only [hu]
  rw [foldl_fullPair, pairsLoop_plus _ _ (fun nj nk => (swTerm P i a.typ nj nk).energy)
    (fun nj nk => pullForce i (swTerm P i a.typ nj nk).pulls)
    (fun nj nk => if b.stress && c.us then -meanVirial (swTerm P i a.typ nj nk).pulls else 0), plus_plus]
  · unfold swSite swStress sumEnergy
    rw [List.map_append, List.sum_append, List.map_map, List.map_map, sum_ite_neg]
    congr 1
    by_cases hs : (b.stress && c.us) = true
    · simp only [if_pos hs, neg_add]
    · simp only [if_neg hs, add_zero]
  · intro s x y hx
    exact swAngle_plus b P c.us i a.typ s x y (by simpa using hx)
  · intro x y hx
    rw [swTerm_outside P i a.typ x y (by
      have : ¬ x.r < P.fin3 x.col0 := by simpa using hx
      tauto)]
    simp only [pullForce_zero, meanVirial_zero, neg_zero, ite_self, and_self]

end

/-- Angles of the Stillinger-Weber potential. -/
theorem follow_sw (m : Motion) (P : SwPots ℝ) (i typ : Nat) (l l' : Link)
    (h0 : length (m.path m.now i l) ≠ 0) (h0' : length (m.path m.now i l') ≠ 0)
    (hP : CutSlope (P.fin3 l.col0) (P.f l.col0) (P.df l.col0 (length (m.path m.now i l)) * length (m.path m.now i l))
      (length (m.path m.now i l)))
    (hP' : CutSlope (P.fin3 l'.col0) (P.f l'.col0) (P.df l'.col0 (length (m.path m.now i l')) *
      length (m.path m.now i l')) (length (m.path m.now i l'))) :
    HasDerivAt (fun t => (swTerm P i typ (placedAt (m.path t i l) l) (placedAt (m.path t i l') l')).energy)
      ((swTerm P i typ (placedAt (m.path m.now i l) l) (placedAt (m.path m.now i l') l')).rate m.speed) m.now := by
  have hF : ∀ l : Link, length (m.path m.now i l) ≠ 0 →
      CutSlope (P.fin3 l.col0) (P.f l.col0) (P.df l.col0 (length (m.path m.now i l)) * length (m.path m.now i l))
        (length (m.path m.now i l)) →
      HasDerivAt (fun t => swF P (placedAt (m.path t i l) l))
      ((if length (m.path m.now i l) < P.fin3 l.col0 then
        P.df l.col0 (length (m.path m.now i l)) * length (m.path m.now i l) else 0) *
        ∑ k : Fin 3, (placedAt (m.path m.now i l) l).distR k * m.speed i (placedAt (m.path m.now i l) l) k) m.now := by
    intro l h0 hP
    have hP' : HasDerivAt (fun r => if r < P.fin3 l.col0 then P.f l.col0 r else 0)
      (if length (m.path m.now i l) < P.fin3 l.col0 then
        P.df l.col0 (length (m.path m.now i l)) * length (m.path m.now i l) else 0)
      ((fun t => (placedAt (m.path t i l) l).r) m.now) := hP
    exact hP'.comp m.now (hasDerivAt_r m i l h0)
  have hj := hF l h0 hP
  have hk := hF l' h0' hP'
  have hc := (hasDerivAt_cosine m i l l' h0 h0').add_const (1 / 3)
  have h := ((hj.mul hk).mul (hc.mul hc)).const_mul (P.lambda typ l.typ l'.typ)
  refine h.congr_deriv ?_
  by_cases hb : length (m.path m.now i l) < P.fin3 l.col0 ∧ length (m.path m.now i l') < P.fin3 l'.col0
  · have e1 : ∀ c, (placedAt (m.path m.now i l) l).dist c =
      (placedAt (m.path m.now i l) l).distR c * length (m.path m.now i l) := fun c => rfl
    have e2 : ∀ c, (placedAt (m.path m.now i l') l').dist c =
      (placedAt (m.path m.now i l') l').distR c * length (m.path m.now i l') := fun c => rfl
    have r1 : (placedAt (m.path m.now i l) l).r = length (m.path m.now i l) := rfl
    have r2 : (placedAt (m.path m.now i l') l').r = length (m.path m.now i l') := rfl
    have c1 : (placedAt (m.path m.now i l) l).col0 = l.col0 := rfl
    have c2 : (placedAt (m.path m.now i l') l').col0 = l'.col0 := rfl
    have t1 : (placedAt (m.path m.now i l) l).typ = l.typ := rfl
    have t2 : (placedAt (m.path m.now i l') l').typ = l'.typ := rfl
    simp only [Term.rate, swTerm, swPull, swPullK, swF, List.map_cons, List.map_nil, List.sum_cons, List.sum_nil,
      Fin.sum_univ_three, e1, e2, r1, r2, c1, c2, t1, t2, if_pos hb, if_pos hb.1, if_pos hb.2, Pi.mul_apply]
    field_simp
    ring
  · rw [swTerm_outside P i typ (placedAt (m.path m.now i l) l) (placedAt (m.path m.now i l') l') hb]
    simp only [Term.rate, List.map_cons, List.map_nil, List.sum_cons, List.sum_nil, zero_mul, Finset.sum_const_zero,
      add_zero]
    have f1 : swF P (placedAt (m.path m.now i l) l) = if length (m.path m.now i l) < P.fin3 l.col0 then
      P.f l.col0 (length (m.path m.now i l)) else 0 := rfl
    have f2 : swF P (placedAt (m.path m.now i l') l') = if length (m.path m.now i l') < P.fin3 l'.col0 then
      P.f l'.col0 (length (m.path m.now i l')) else 0 := rfl
    rcases not_and_or.1 hb with h | h
    · simp [f1, h]
    · simp [f2, h]

end Verif.Spec
