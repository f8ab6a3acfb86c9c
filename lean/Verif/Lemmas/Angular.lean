import Verif.Lemmas.Conservative
import Verif.Lemmas.Stiweb

namespace Verif.Spec

open Verif.Force

set_option linter.unusedSectionVars false

section
variable {K : Type*} [Field K] [LinearOrder K]

/-- Product of two radial functions and a function of the angle. -/
def angTerm (P : AngPots K) (i typ : Nat) (nj nk : Neigh K) : Term K :=
  ⟨i, angF P nj * angF P nk * P.val (P.gcol typ) (cosine nj nk),
    [⟨nj, angPull P typ nj nk⟩, ⟨nk, angPullK P typ nj nk⟩]⟩

theorem angTerm_outside (P : AngPots K) (i typ : Nat) (nj nk : Neigh K)
    (h : ¬(nj.r < P.fin (P.fcol nj.col0) ∧ nk.r < P.fin (P.fcol nk.col0))) :
    angTerm P i typ nj nk = ⟨i, 0, [⟨nj, fun _ => 0⟩, ⟨nk, fun _ => 0⟩]⟩ := by
  unfold angTerm angPull angPullK angF angDf
  rcases not_and_or.1 h with h | h <;>
    simp only [if_neg h, mul_zero, zero_mul, sub_zero, add_zero]

theorem plainVirial_zero (nj nk : Neigh K) : plainVirial [⟨nj, fun _ => 0⟩, ⟨nk, fun _ => 0⟩] = 0 := by
  simp [plainVirial, virial_zero]

theorem plainVirial_pair (nj nk : Neigh K) (fj fk : V3 K) :
    plainVirial [⟨nj, fj⟩, ⟨nk, fk⟩] = virial nj.dist fj + virial nk.dist fk := by
  simp [plainVirial]

theorem angAngle_plus (b : Build) (P : AngPots K) (us : Bool) (i typ : Nat) (s : Acc K) (nj nk : Neigh K) :
    angAngle b P true us i typ s nj nk = plus s (angTerm P i typ nj nk).energy
      (pullForce i (angTerm P i typ nj nk).pulls)
      (if b.stress && us then -plainVirial (angTerm P i typ nj nk).pulls else 0) := by
  by_cases hk : nk.r < P.fin (P.fcol nk.col0)
  · unfold angAngle angTerm
    simp only [if_pos hk, if_true, scatter3_eq, plus, plainVirial_pair]
    by_cases hs : (b.stress && us) = true
    · simp only [if_pos hs]
      congr 1
      abel
    · simp only [if_neg hs, add_zero]
  · rw [angTerm_outside P i typ nj nk (by tauto)]
    unfold angAngle
    simp only [if_neg hk, pullForce_zero, plainVirial_zero, neg_zero, ite_self, plus_zero]

/-- Terms of one atom. -/
def angSite (P : AngPots K) (i : Nat) (a : Atom K) : List (Term K) :=
  a.neigh.map (pairTerm false P.toPots i) ++ (pairsOf a.neigh).map fun p => angTerm P i a.typ p.1 p.2

/-- Forces as the code collects them. -/
def angForceSum (P : AngPots K) (i : Nat) (a : Atom K) : Nat → V3 K :=
  (a.neigh.map (ownerForce false P.toPots i)).sum +
    ((pairsOf a.neigh).map fun p => pullForce i (angTerm P i a.typ p.1 p.2).pulls).sum

/-- Stresses of the terms of one atom. -/
def angStress (P : AngPots K) (i : Nat) (a : Atom K) : Fin 6 → K :=
  -((a.neigh.map fun n => plainVirial (pairTerm false P.toPots i n).pulls).sum +
    ((pairsOf a.neigh).map fun p => plainVirial (angTerm P i a.typ p.1 p.2).pulls).sum)

theorem angAtom_plus [CharZero K] (b : Build) (P : AngPots K) (c : Conf K) (hu : c.uf = true) (i : Nat) (a : Atom K)
    (s : Acc K) :
    angAtom b P c i a s = plus s (sumEnergy (angSite P i a)) (angForceSum P i a)
      (if b.stress && c.us then angStress P i a else 0) := by
  unfold angAtom
  simp only [hu]
  rw [foldl_fullPair, pairsLoop_plus _ _ (fun nj nk => (angTerm P i a.typ nj nk).energy)
    (fun nj nk => pullForce i (angTerm P i a.typ nj nk).pulls)
    (fun nj nk => if b.stress && c.us then -plainVirial (angTerm P i a.typ nj nk).pulls else 0)]
  · unfold angSite angStress angForceSum sumEnergy
    rw [List.map_append, List.sum_append, List.map_map, List.map_map, sum_ite_neg]
    simp only [plus, zero_add, add_assoc]
    by_cases hs : (b.stress && c.us) = true
    · simp only [if_pos hs, neg_add]
      rfl
    · simp only [if_neg hs, add_zero]
      rfl
  · intro s x y _
    exact angAngle_plus b P c.us i a.typ s x y
  · intro x y hx
    rw [angTerm_outside P i a.typ x y (by
      have : ¬ x.r < P.fin (P.fcol x.col0) := by simpa using hx
      tauto)]
    simp only [pullForce_zero, plainVirial_zero, neg_zero, ite_self, and_self]

/-! ### MEAM -/

/-- Transfer function of a neighbour. -/
def transTerm (P : AngPots K) (i : Nat) (n : Neigh K) : Term K :=
  ⟨i, if n.r < P.fin n.col1 then P.val n.col1 n.r else 0,
    [⟨n, fun k => if n.r < P.fin n.col1 then n.distR k * P.grad n.col1 n.r else 0⟩]⟩

/-- The density at an atom as a sum of terms. -/
def densTerms (P : AngPots K) (i : Nat) (a : Atom K) : List (Term K) :=
  a.neigh.map (transTerm P i) ++ (pairsOf a.neigh).map fun p => angTerm P i a.typ p.1 p.2

/-- Pulls of a function of the sum of the energies of terms, with slope `g`. -/
def chained (g : K) (ts : List (Term K)) : List (Pull K) := ts.flatMap fun t => t.pulls.map fun p => ⟨p.n, fun k => g * p.g k⟩

theorem pairsLoop_sum {α : Type*} (f : α → α → K) (l : List α) (s : K) :
    pairsLoop (fun _ => true) (fun s x y => s + f x y) l s = s + ((pairsOf l).map fun p => f p.1 p.2).sum := by
  induction l generalizing s with
  | nil => simp [pairsLoop, pairsOf]
  | cons x l ih =>
    rw [pairsLoop, ih]
    have : ∀ (l : List α) (s : K), l.foldl (fun s y => s + f x y) s = s + (l.map (f x)).sum := by
      intro l
      induction l with
      | nil => intro s; simp
      | cons y l ih => intro s; rw [List.foldl_cons, ih]; simp [add_assoc]
    simp only [if_true, this, pairsOf, List.map_append, List.map_map, List.sum_append, add_assoc]
    rfl

theorem meamDensity_eq (P : AngPots K) (i : Nat) (a : Atom K) : meamDensity P a = sumEnergy (densTerms P i a) := by
  unfold meamDensity
  simp only [pairsLoop_sum]
  unfold densTerms sumEnergy
  rw [List.map_append, List.sum_append, List.map_map, List.map_map]
  congr 1
  have : ∀ (l : List (Neigh K)) (s : K), l.foldl (fun rho n => if n.r < P.fin n.col1 then rho + P.val n.col1 n.r else rho) s =
      s + (l.map (Term.energy ∘ transTerm P i)).sum := by
    intro l
    induction l with
    | nil => intro s; simp
    | cons y l ih =>
      intro s
      rw [List.foldl_cons, ih, List.map_cons, List.sum_cons, ← add_assoc]
      congr 1
      by_cases h : y.r < P.fin y.col1 <;> simp [transTerm, h]
  rw [this, zero_add]

/-- Embedding energy of an atom. -/
def embedTerm (b : Build) (P : AngPots K) (i : Nat) (a : Atom K) : Term K :=
  let m := meamEmbed b P.toEamPots (P.paircol + P.ntypes + a.typ) (meamDensity P a)
  ⟨i, m.value, chained m.grad (densTerms P i a)⟩

/-- Terms of one atom. -/
def meamSite (b : Build) (P : AngPots K) (i : Nat) (a : Atom K) : List (Term K) :=
  a.neigh.map (pairTerm false P.toPots i) ++ [embedTerm b P i a]

def meamForceSum (b : Build) (P : AngPots K) (i : Nat) (a : Atom K) : Nat → V3 K :=
  (a.neigh.map (ownerForce false P.toPots i)).sum + pullForce i (embedTerm b P i a).pulls

def meamStress (b : Build) (P : AngPots K) (i : Nat) (a : Atom K) : Fin 6 → K :=
  -((a.neigh.map fun n => plainVirial (pairTerm false P.toPots i n).pulls).sum + plainVirial (embedTerm b P i a).pulls)

theorem pullForce_append (i : Nat) (l m : List (Pull K)) : pullForce i (l ++ m) = pullForce i l + pullForce i m := by
  simp [pullForce]

theorem plainVirial_append (l m : List (Pull K)) : plainVirial (l ++ m) = plainVirial l + plainVirial m := by
  simp [plainVirial]

theorem chained_append (g : K) (l m : List (Term K)) : chained g (l ++ m) = chained g l ++ chained g m := by
  simp [chained]

theorem pullForce_chained {α : Type*} (i : Nat) (g : K) (T : α → Term K) (l : List α) :
    pullForce i (chained g (l.map T)) = (l.map fun x => pullForce i (chained g [T x])).sum := by
  induction l with
  | nil => simp [chained, pullForce]
  | cons x l ih =>
    rw [List.map_cons, show T x :: l.map T = [T x] ++ l.map T from rfl, chained_append, pullForce_append, ih]
    simp

theorem plainVirial_chained {α : Type*} (g : K) (T : α → Term K) (l : List α) :
    plainVirial (chained g (l.map T)) = (l.map fun x => plainVirial (chained g [T x])).sum := by
  induction l with
  | nil => simp [chained, plainVirial]
  | cons x l ih =>
    rw [List.map_cons, show T x :: l.map T = [T x] ++ l.map T from rfl, chained_append, plainVirial_append, ih]
    simp

theorem meamRadial_plus (b : Build) (P : AngPots K) (us : Bool) (g : K) (i : Nat) (s : Acc K) (n : Neigh K) :
    meamRadial b P us g i s n = plus s 0 (pullForce i (chained g [transTerm P i n]))
      (if b.stress && us then -plainVirial (chained g [transTerm P i n]) else 0) := by
  unfold meamRadial transTerm chained
  simp only [List.flatMap_cons, List.flatMap_nil, List.append_nil, List.map_cons, List.map_nil]
  by_cases h : n.r < P.fin n.col1
  · have e : (fun c => n.distR c * (P.grad n.col1 n.r * g)) = fun c => g * (n.distR c * P.grad n.col1 n.r) := by
      funext c; ring
    simp only [if_pos h, e, scatter_eq, plus, add_zero]
    by_cases hs : (b.stress && us) = true
    · simp only [if_pos hs, plainVirial, List.map_cons, List.map_nil, List.sum_cons, List.sum_nil, add_zero, sub_eq_add_neg]
    · simp only [if_neg hs, add_zero]
  · simp only [if_neg h, mul_zero, pullForce, plainVirial, List.map_cons, List.map_nil, List.sum_cons, List.sum_nil,
      add_zero, virial_zero, neg_zero, ite_self, single_zero, sub_zero, plus_zero]

theorem meamAngle_plus (b : Build) (P : AngPots K) (us : Bool) (g : K) (i typ : Nat) (s : Acc K) (nj nk : Neigh K) :
    meamAngle b P us g i typ s nj nk = plus s 0 (pullForce i (chained g [angTerm P i typ nj nk]))
      (if b.stress && us then -plainVirial (chained g [angTerm P i typ nj nk]) else 0) := by
  unfold meamAngle angTerm chained
  simp only [List.flatMap_cons, List.flatMap_nil, List.append_nil, List.map_cons, List.map_nil, scatter3_eq, plus, add_zero,
    plainVirial_pair]
  by_cases hs : (b.stress && us) = true
  · simp only [if_pos hs]
    congr 1
    abel
  · simp only [if_neg hs, add_zero]

theorem meamAtom_plus [CharZero K] (b : Build) (P : AngPots K) (c : Conf K) (hu : c.uf = true) (i : Nat) (a : Atom K)
    (s : MeamAcc K) :
    (meamAtom b P c i a s).acc = plus s.acc (sumEnergy (meamSite b P i a)) (meamForceSum b P i a)
      (if b.stress && c.us then meamStress b P i a else 0) := by
  unfold meamAtom
  simp only [hu, if_true]
  rw [foldl_fullPair]
  generalize hm : meamEmbed b P.toEamPots (P.paircol + P.ntypes + a.typ) (meamDensity P a) = m
  rw [foldl_plus _ _ _ _ (meamRadial_plus b P c.us m.grad i), pairsLoop_plus _ _ _ _ _
    (fun s x y _ => meamAngle_plus b P c.us m.grad i a.typ s x y) (fun x y h => by simp at h)]
  have e1 : sumEnergy (meamSite b P i a) = sumEnergy (a.neigh.map (pairTerm false P.toPots i)) + m.value := by
    simp [meamSite, sumEnergy, embedTerm, hm]
  have e2 : pullForce i (embedTerm b P i a).pulls =
      (a.neigh.map fun n => pullForce i (chained m.grad [transTerm P i n])).sum +
      ((pairsOf a.neigh).map fun p => pullForce i (chained m.grad [angTerm P i a.typ p.1 p.2])).sum := by
    simp only [embedTerm, hm, densTerms, chained_append, pullForce_append]
    rw [pullForce_chained, pullForce_chained]
  have e3 : plainVirial (embedTerm b P i a).pulls =
      (a.neigh.map fun n => plainVirial (chained m.grad [transTerm P i n])).sum +
      ((pairsOf a.neigh).map fun p => plainVirial (chained m.grad [angTerm P i a.typ p.1 p.2])).sum := by
    simp only [embedTerm, hm, densTerms, chained_append, plainVirial_append]
    rw [plainVirial_chained, plainVirial_chained]
  rw [e1]
  unfold meamForceSum meamStress
  rw [e2, e3]
  simp only [plus, sum_ite_neg, List.map_const', List.sum_replicate, smul_zero, add_zero, add_assoc]
  by_cases hs : (b.stress && c.us) = true
  · simp only [if_pos hs, neg_add]
  · simp only [if_neg hs, add_zero]

/-- The sums of the second loop. -/
theorem meamLoop_plus [CharZero K] (b : Build) (P : AngPots K) (c : Conf K) (hu : c.uf = true) (l : List (Atom K)) (i : Nat)
    (s : MeamAcc K) :
    (atomLoop (meamAtom b P c) l i s).acc = atomLoop (fun i a s => plus s (sumEnergy (meamSite b P i a)) (meamForceSum b P i a)
      (if b.stress && c.us then meamStress b P i a else 0)) l i s.acc := by
  induction l generalizing i s with
  | nil => rfl
  | cons a l ih => rw [atomLoop, ih, atomLoop, meamAtom_plus b P c hu]

end

/-! ### Derivatives -/

theorem hasDerivAt_within (m : Motion) (fin : ℝ) (val : ℝ → ℝ) (grad : ℝ) (i : Nat) (l : Link)
    (h0 : length (m.path m.now i l) ≠ 0) (hP : CutSlope fin val grad (length (m.path m.now i l))) :
    HasDerivAt (fun t => if (placedAt (m.path t i l) l).r < fin then val (placedAt (m.path t i l) l).r else 0)
      ((if length (m.path m.now i l) < fin then grad else 0) *
        ∑ k : Fin 3, (placedAt (m.path m.now i l) l).distR k * m.speed i (placedAt (m.path m.now i l) l) k) m.now := by
  have hP' : HasDerivAt (fun r => if r < fin then val r else 0)
    (if length (m.path m.now i l) < fin then grad else 0) ((fun t => (placedAt (m.path t i l) l).r) m.now) := hP
  exact hP'.comp m.now (hasDerivAt_r m i l h0)

theorem follow_ang (m : Motion) (P : AngPots ℝ) (i typ : Nat) (l l' : Link)
    (h0 : length (m.path m.now i l) ≠ 0) (h0' : length (m.path m.now i l') ≠ 0)
    (hP : CutSlope (P.fin (P.fcol l.col0)) (P.val (P.fcol l.col0)) (P.grad (P.fcol l.col0) (length (m.path m.now i l)))
      (length (m.path m.now i l)))
    (hP' : CutSlope (P.fin (P.fcol l'.col0)) (P.val (P.fcol l'.col0)) (P.grad (P.fcol l'.col0) (length (m.path m.now i l')))
      (length (m.path m.now i l')))
    (hg : HasDerivAt (P.val (P.gcol typ)) (P.grad (P.gcol typ) (cosOf (m.path m.now i l) (m.path m.now i l')))
      (cosOf (m.path m.now i l) (m.path m.now i l'))) :
    HasDerivAt (fun t => (angTerm P i typ (placedAt (m.path t i l) l) (placedAt (m.path t i l') l')).energy)
      ((angTerm P i typ (placedAt (m.path m.now i l) l) (placedAt (m.path m.now i l') l')).rate m.speed) m.now := by
  have hj := hasDerivAt_within m _ _ _ i l h0 hP
  have hk := hasDerivAt_within m _ _ _ i l' h0' hP'
  have hc := hasDerivAt_cosine m i l l' h0 h0'
  simp only at hc
  rw [← cosine_placed _ _ l l'] at hg
  have hgc := HasDerivAt.comp m.now (h₂ := P.val (P.gcol typ)) (h := fun t => cosine (placedAt (m.path t i l) l) (placedAt (m.path t i l') l')) hg hc
  have h := (hj.mul hk).mul hgc
  refine h.congr_deriv ?_
  have r1 : (placedAt (m.path m.now i l) l).r = length (m.path m.now i l) := rfl
  have r2 : (placedAt (m.path m.now i l') l').r = length (m.path m.now i l') := rfl
  have c1 : (placedAt (m.path m.now i l) l).col0 = l.col0 := rfl
  have c2 : (placedAt (m.path m.now i l') l').col0 = l'.col0 := rfl
  simp only [Term.rate, angTerm, angPull, angPullK, angF, angDf, List.map_cons, List.map_nil, List.sum_cons, List.sum_nil,
    Fin.sum_univ_three, r1, r2, c1, c2, Pi.mul_apply, Function.comp]
  by_cases hb : length (m.path m.now i l) < P.fin (P.fcol l.col0)
  · by_cases hb' : length (m.path m.now i l') < P.fin (P.fcol l'.col0)
    · simp only [if_pos hb, if_pos hb']
      field_simp
      ring
    · simp only [if_neg hb', mul_zero, zero_mul, add_zero, sub_zero]
  · simp only [if_neg hb, mul_zero, zero_mul, add_zero, sub_zero]

theorem follow_trans (m : Motion) (P : AngPots ℝ) (i : Nat) (l : Link)
    (h0 : length (m.path m.now i l) ≠ 0)
    (hP : CutSlope (P.fin l.col1) (P.val l.col1) (P.grad l.col1 (length (m.path m.now i l))) (length (m.path m.now i l))) :
    HasDerivAt (fun t => (transTerm P i (placedAt (m.path t i l) l)).energy)
      ((transTerm P i (placedAt (m.path m.now i l) l)).rate m.speed) m.now := by
  refine (hasDerivAt_within m _ _ _ i l h0 hP).congr_deriv ?_
  have r1 : (placedAt (m.path m.now i l) l).r = length (m.path m.now i l) := rfl
  have c1 : (placedAt (m.path m.now i l) l).col1 = l.col1 := rfl
  simp only [Term.rate, transTerm, List.map_cons, List.map_nil, List.sum_cons, List.sum_nil, Fin.sum_univ_three, r1, c1]
  by_cases hb : length (m.path m.now i l) < P.fin l.col1
  · simp only [if_pos hb]; ring
  · simp only [if_neg hb, zero_mul, add_zero]

theorem rate_chained (speed : Nat → Neigh ℝ → V3 ℝ) (i : Nat) (e g : ℝ) (ts : List (Term ℝ)) (h : ∀ t ∈ ts, t.own = i) :
    (⟨i, e, chained g ts⟩ : Term ℝ).rate speed = g * sumRate speed ts := by
  unfold Term.rate chained sumRate
  induction ts with
  | nil => simp
  | cons t ts ih =>
    have ht : t.own = i := h t List.mem_cons_self
    have := ih (fun u hu => h u (List.mem_cons_of_mem _ hu))
    simp only [List.flatMap_cons, List.map_append, List.sum_append, List.map_cons, List.sum_cons] at this ⊢
    rw [this, mul_add]
    congr 1
    rw [List.map_map, Term.rate, ← List.sum_map_mul_left, ht]
    congr 1
    apply List.map_congr_left
    intro p _
    simp only [Function.comp, Finset.mul_sum, mul_assoc]

end Verif.Spec
