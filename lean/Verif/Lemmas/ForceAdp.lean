import Verif.Lemmas.ForceEam
import Verif.Spec.ForceAdp
import Mathlib.Tactic.LinearCombination

set_option linter.unusedSectionVars false

namespace Verif.Force

open Verif.Spec

variable {K : Type*} [Field K] [LinearOrder K] [IsStrictOrderedRing K]

/-! ### Second loop -/

/-- The same state with another energy. -/
def shiftE (x : K) (s : EamAcc K) : EamAcc K := { s with acc := { s.acc with energy := s.acc.energy + x } }

theorem shiftE_zero (s : EamAcc K) : shiftE 0 s = s := by simp [shiftE]

theorem shiftE_shiftE (x y : K) (s : EamAcc K) : shiftE x (shiftE y s) = shiftE (y + x) s := by
  simp [shiftE, add_assoc]

theorem pairNeigh_shift (b : Build) (P : Pots K) (uf us : Bool) (i : Nat) (s : Acc K) (n : Neigh K) (x : K) :
    pairNeigh b P uf us i { s with energy := s.energy + x } n =
      { pairNeigh b P uf us i s n with energy := (pairNeigh b P uf us i s n).energy + x } := by
  have h := fun s => (pairNeigh_scatters b P uf us).eq i 0 s n
  rw [h, h]
  simp only [Acc.mk.injEq, true_and, and_true]
  ring

theorem eamFold_shift (b : Build) (P : EamPots K) (c : Conf K) (i typ : Nat) (l : List (Neigh K)) (s : EamAcc K) (x : K) :
    l.foldl (eamNeigh2 b P c i typ) (shiftE x s) = shiftE x (l.foldl (eamNeigh2 b P c i typ) s) := by
  induction l generalizing s with
  | nil => rfl
  | cons n l ih =>
    rw [List.foldl_cons, List.foldl_cons, ← ih]
    congr 1
    simp only [eamNeigh2, shiftE]
    rw [pairNeigh_shift]

theorem eamEmbed_shift (b : Build) (P : EamPots K) (a : Atom K) (i : Nat) (s : EamAcc K) (x : K) :
    eamEmbed b P a i (shiftE x s) = shiftE x (eamEmbed b P a i s) := by
  simp only [eamEmbed, shiftE, EamAcc.mk.injEq, Acc.mk.injEq, true_and, and_true]
  ring

theorem eamLoop2_shift (b : Build) (P : EamPots K) (c : Conf K) (as : List (Atom K)) (i : Nat) (s : EamAcc K) (x : K) :
    eamLoop2 b P c as i (shiftE x s) = shiftE x (eamLoop2 b P c as i s) := by
  induction as generalizing i s with
  | nil => rfl
  | cons a as ih => rw [eamLoop2, eamFold_shift, eamEmbed_shift, ih]; rfl

theorem adpDipole_apply (P : EamPots K) (i typ : Nat) (mu : Nat → V3 K) (n : Neigh K) (a : Nat) :
    adpDipole P i mu n a = mu a + dipoleOn P ⟨i, typ, n⟩ a := by
  unfold adpDipole
  by_cases hr : n.r < P.fin (P.dipCol n)
  · rw [if_pos hr, scatter_apply]
    congr 1
    funext k
    simp only [dipoleOn, dipole, if_pos hr, halfSelf, Pi.sub_apply]
    by_cases hs : n.nr = i
    · subst hs; simp
    · simp only [if_neg hs]
      by_cases h1 : a = i
      · by_cases h2 : a = n.nr
        · simp only [if_pos h1, if_pos h2]
        · simp only [if_pos h1, if_neg h2, Pi.zero_apply]
      · by_cases h2 : a = n.nr
        · simp only [if_neg h1, if_pos h2, Pi.zero_apply]
        · simp only [if_neg h1, if_neg h2, Pi.zero_apply]
  · rw [if_neg hr]
    have : dipoleOn P ⟨i, typ, n⟩ a = 0 := by
      funext k
      simp [dipoleOn, dipole, hr]
    rw [this, add_zero]

theorem sqrdist_eq {n : Neigh K} (h : ∀ k, n.dist k = n.distR k * n.r) (k : Fin 6) :
    sqrdist n k = n.dist (voigt k).1 * n.dist (voigt k).2 := by
  rw [h, h]
  fin_cases k <;> simp [sqrdist, voigt] <;> ring

theorem adpQuadrupole_apply (P : EamPots K) (i typ : Nat) (lam : Nat → Fin 6 → K) (n : Neigh K)
    (h : ∀ k, n.dist k = n.distR k * n.r) (a : Nat) (k : Fin 6) :
    adpQuadrupole P i lam n a k = lam a k + quadrupoleOn P ⟨i, typ, n⟩ a (voigt k).1 (voigt k).2 := by
  unfold adpQuadrupole
  by_cases hr : n.r < P.fin (P.quadCol n)
  · rw [if_pos hr]
    simp only [quadrupoleOn, quadrupole, if_pos hr, halfSelf, sqrdist_eq h]
    by_cases hs : n.nr = i
    · subst hs
      by_cases h1 : a = n.nr
      · subst h1
        simp only [if_true, Function.update_self, Pi.add_apply, ne_eq, not_true, and_false, if_false]
        ring
      · simp [h1]
    · by_cases h1 : a = i
      · subst h1
        have h2 : a ≠ n.nr := fun x => hs x.symm
        simp [h2, hs]
      · by_cases h2 : a = n.nr
        · subst h2
          simp [hs]
        · simp [h1, h2]
  · rw [if_neg hr]
    simp [quadrupoleOn, quadrupole, hr]

theorem foldl_adpNeigh2 (b : Build) (P : EamPots K) (c : Conf K) (i typ : Nat) (l : List (Neigh K))
    (hl : ∀ n ∈ l, ∀ k, n.dist k = n.distR k * n.r) (s : AdpAcc K) :
    l.foldl (adpNeigh2 b P c i typ) s =
      ⟨l.foldl (eamNeigh2 b P c i typ) s.eam,
       fun a k => s.mu a k + ((l.map fun n => (⟨i, typ, n⟩ : Entry K)).map fun e => dipoleOn P e a k).sum,
       fun a k => s.lam a k + ((l.map fun n => (⟨i, typ, n⟩ : Entry K)).map fun e =>
         quadrupoleOn P e a (voigt k).1 (voigt k).2).sum, s.nu⟩ := by
  induction l generalizing s with
  | nil => simp
  | cons n l ih =>
    rw [List.foldl_cons, ih (fun n hn => hl n (by simp [hn]))]
    simp only [adpNeigh2, List.foldl_cons, List.map_cons, List.sum_cons]
    congr 1
    · funext a k
      rw [adpDipole_apply P i typ s.mu n a, Pi.add_apply, add_assoc]
    · funext a k
      rw [adpQuadrupole_apply P i typ s.lam n (hl n (by simp)) a k, add_assoc]

/-- Second loop of the ADP routine. -/
theorem adpLoop2_spec (b : Build) (P : EamPots K) (c : Conf K) (as : List (Atom K)) (i : Nat) (s : AdpAcc K)
    (hh : ∀ e ∈ entriesFrom i as, e.own ≤ e.n.nr) (ha : ∀ e ∈ entriesFrom i as, ∀ k, e.n.dist k = e.n.distR k * e.n.r) :
    let r := adpLoop2 b P c as i s
    (r.eam = shiftE (∑ j ∈ Finset.range as.length, adpEnergy (r.mu (i + j)) (r.lam (i + j))) (eamLoop2 b P c as i s.eam)) ∧
    (∀ a k, r.mu a k = s.mu a k + ((entriesFrom i as).map fun e => dipoleOn P e a k).sum) ∧
    (∀ a k, r.lam a k = s.lam a k + ((entriesFrom i as).map fun e => quadrupoleOn P e a (voigt k).1 (voigt k).2).sum) ∧
    (∀ j, j < as.length → r.nu (i + j) = r.lam (i + j) 0 + r.lam (i + j) 1 + r.lam (i + j) 2) ∧
    (∀ x, (x < i ∨ i + as.length ≤ x) → r.nu x = s.nu x) := by
  induction as generalizing i s with
  | nil => simp [adpLoop2, entriesFrom, eamLoop2, shiftE_zero]
  | cons a as ih =>
    have hh1 : ∀ e ∈ entriesFrom (i + 1) as, e.own ≤ e.n.nr := fun e he => hh e (by simp [entriesFrom, he])
    have ha1 : ∀ e ∈ entriesFrom (i + 1) as, ∀ k, e.n.dist k = e.n.distR k * e.n.r := fun e he =>
      ha e (by simp [entriesFrom, he])
    have htail : ∀ e ∈ entriesFrom (i + 1) as, i ≠ e.own ∧ i ≠ e.n.nr := by
      intro e he
      have h1 := hh1 e he
      have h2 := entriesFrom_ge he
      omega
    have hmu0 : ∀ k, ((entriesFrom (i + 1) as).map fun e => dipoleOn P e i k).sum = 0 := by
      intro k
      apply List.sum_eq_zero
      intro y hy
      obtain ⟨e, he, rfl⟩ := List.mem_map.1 hy
      simp [dipoleOn, (htail e he).1, (htail e he).2]
    have hlam0 : ∀ k l, ((entriesFrom (i + 1) as).map fun e => quadrupoleOn P e i k l).sum = 0 := by
      intro k l
      apply List.sum_eq_zero
      intro y hy
      obtain ⟨e, he, rfl⟩ := List.mem_map.1 hy
      simp [quadrupoleOn, (htail e he).1, (htail e he).2]
    have hhead : ∀ n ∈ a.neigh, ∀ k, n.dist k = n.distR k * n.r := by
      intro n hn
      exact ha ⟨i, a.typ, n⟩ (by simp [entriesFrom, hn])
    intro r
    have hr : r = adpLoop2 b P c as (i + 1) (adpEmbed b P a i (a.neigh.foldl (adpNeigh2 b P c i a.typ) s)) := rfl
    rw [foldl_adpNeigh2 b P c i a.typ a.neigh hhead s] at hr
    obtain ⟨q1, q2, q3, q4, q5⟩ := ih (i + 1) (adpEmbed b P a i
      ⟨a.neigh.foldl (eamNeigh2 b P c i a.typ) s.eam,
       fun x k => s.mu x k + ((a.neigh.map fun n => (⟨i, a.typ, n⟩ : Entry K)).map fun e => dipoleOn P e x k).sum,
       fun x k => s.lam x k + ((a.neigh.map fun n => (⟨i, a.typ, n⟩ : Entry K)).map fun e =>
         quadrupoleOn P e x (voigt k).1 (voigt k).2).sum, s.nu⟩) hh1 ha1
    rw [← hr] at q1 q2 q3 q4 q5
    simp only [adpEmbed] at q1 q2 q3 q5
    have hmu : r.mu i = fun k => s.mu i k +
        ((a.neigh.map fun n => (⟨i, a.typ, n⟩ : Entry K)).map fun e => dipoleOn P e i k).sum := by
      funext k
      rw [q2, hmu0, add_zero]
    have hlam : r.lam i = fun k => s.lam i k + ((a.neigh.map fun n => (⟨i, a.typ, n⟩ : Entry K)).map fun e =>
        quadrupoleOn P e i (voigt k).1 (voigt k).2).sum := by
      funext k
      rw [q3, hlam0, add_zero]
    refine ⟨?_, ?_, ?_, ?_, ?_⟩
    · have q1' : r.eam = shiftE (∑ j ∈ Finset.range as.length, adpEnergy (r.mu (i + 1 + j)) (r.lam (i + 1 + j)))
          (eamLoop2 b P c as (i + 1) (shiftE (adpEnergy (r.mu i) (r.lam i))
            (eamEmbed b P a i (a.neigh.foldl (eamNeigh2 b P c i a.typ) s.eam)))) := by
        rw [hmu, hlam]
        exact q1
      rw [q1', eamLoop2_shift, shiftE_shiftE, List.length_cons, Finset.sum_range_succ', Nat.add_zero]
      have e4 : ∑ j ∈ Finset.range as.length, adpEnergy (r.mu (i + (j + 1))) (r.lam (i + (j + 1))) =
          ∑ j ∈ Finset.range as.length, adpEnergy (r.mu (i + 1 + j)) (r.lam (i + 1 + j)) :=
        Finset.sum_congr rfl fun j _ => by rw [show i + (j + 1) = i + 1 + j by omega]
      rw [e4, add_comm (adpEnergy (r.mu i) (r.lam i))]
      rfl
    · intro x k
      rw [q2]
      simp only [entriesFrom, List.map_append, List.sum_append, add_assoc]
    · intro x k
      rw [q3]
      simp only [entriesFrom, List.map_append, List.sum_append, add_assoc]
    · intro j hj
      cases j with
      | zero =>
        rw [Nat.add_zero, q5 i (by omega), Function.update_self, hlam]
      | succ j =>
        rw [show i + (j + 1) = i + 1 + j by omega]
        exact q4 j (by simpa using hj)
    · intro x hx
      simp only [List.length_cons] at hx
      rw [q5 x (by omega), Function.update_of_ne (by omega)]

theorem adpEnergy_eq (m : V3 K) (l : Fin 6 → K) (q : Fin 3 → Fin 3 → K) (h : ∀ k, l k = q (voigt k).1 (voigt k).2)
    (hs : ∀ k l, q k l = q l k) : adpEnergy m l = distortion m q := by
  have e0 : l 0 = q 0 0 := h 0
  have e1 : l 1 = q 1 1 := h 1
  have e2 : l 2 = q 2 2 := h 2
  have e3 : l 3 = q 0 1 := h 3
  have e4 : l 4 = q 1 2 := h 4
  have e5 : l 5 = q 2 0 := h 5
  unfold adpEnergy distortion
  simp only [Fin.sum_univ_three, e0, e1, e2, e3, e4, e5]
  rw [hs 1 0, hs 2 1, hs 0 2]
  field_simp
  ring

theorem totalQuadrupole_symm (P : EamPots K) (c : Conf K) (a : Nat) (k l : Fin 3) :
    totalQuadrupole P c a k l = totalQuadrupole P c a l k := by
  unfold totalQuadrupole quadrupoleOn
  simp only [mul_comm (Neigh.dist _ k)]

/-! ### Third loop -/

theorem scatter_add (f : Nat → V3 K) (i nr : Nat) (v w : V3 K) :
    scatter (scatter f i nr v) i nr w = scatter f i nr (v + w) := by
  funext a
  simp only [scatter_apply]
  by_cases h1 : a = i
  · by_cases h2 : a = nr
    · simp only [if_pos h1, if_pos h2]; abel
    · simp only [if_pos h1, if_neg h2]; abel
  · by_cases h2 : a = nr
    · simp only [if_neg h1, if_pos h2]; abel
    · simp only [if_neg h1, if_neg h2]; abel

theorem virial_add (d v w : V3 K) : virial d (v + w) = virial d v + virial d w := by
  funext k
  fin_cases k <;> simp [virial] <;> ring

theorem applyForce_applyForce (b : Build) (us : Bool) (i : Nat) (n : Neigh K) (v w : V3 K) (s : Acc K) :
    applyForce b us i n w (applyForce b us i n v s) = applyForce b us i n (v + w) s := by
  simp only [applyForce, scatter_add, virial_add]
  congr 1
  by_cases h : (b.stress && us) = true
  · simp only [h, if_true]; rw [sub_sub]
  · simp only [h]; rfl

theorem virial_zero (d : V3 K) : virial d (0 : V3 K) = 0 := by
  funext k
  fin_cases k <;> simp [virial]

theorem applyForce_zero (b : Build) (us : Bool) (i : Nat) (n : Neigh K) (s : Acc K) :
    applyForce b us i n 0 s = s := by
  have h1 : scatter s.force i n.nr (0 : V3 K) = s.force := by
    funext a; rw [scatter_apply]; simp
  simp [applyForce, h1, virial_zero]

theorem eamNeigh3_applyForce (b : Build) (P : EamPots K) (us : Bool) (gradF : Nat → K) (i typ : Nat) (s : Acc K)
    (n : Neigh K) (h1 : n.col1 = P.paircol + n.typ) :
    eamNeigh3 b P us gradF i typ s n = applyForce b us i n (along (eamSlope P gradF) ⟨i, typ, n⟩) s := by
  have ht : (fun k => n.distR k * (if n.nr = i then eamSlopeC P gradF i typ n * (1 / 2)
      else eamSlopeC P gradF i typ n)) = along (eamSlope P gradF) ⟨i, typ, n⟩ := by
    funext k
    simp only [along, eamSlopeC_eq P gradF i typ n h1, mul_one_div]
  unfold eamNeigh3
  by_cases hr : n.r < P.fin n.col1 ∨ n.r < P.fin (P.paircol + typ)
  · rw [if_pos hr]
    simp only [ht]
    rfl
  · rw [if_neg hr]
    have hz : eamSlope P gradF ⟨i, typ, n⟩ = 0 := by
      rw [← eamSlopeC_eq P gradF i typ n h1]
      unfold eamSlopeC
      rw [if_neg hr]
    have : along (eamSlope P gradF) ⟨i, typ, n⟩ = 0 := by
      funext k
      simp [along, hz]
    rw [this, applyForce_zero]

theorem adpNeighU_applyForce (b : Build) (P : EamPots K) (us : Bool) (mu : Nat → V3 K) (i typ : Nat) (s : Acc K)
    (n : Neigh K) : adpNeighU b P us mu i s n = applyForce b us i n (dipoleVec P mu ⟨i, typ, n⟩) s := by
  unfold adpNeighU
  by_cases hr : n.r < P.fin (P.dipCol n)
  · rw [if_pos hr]
    show applyForce b us i n _ s = _
    congr 1
    funext k
    simp only [dipoleVec, dipole, dipoleSlope, if_pos hr, Fin.sum_univ_three, halfSelf]
    by_cases hs : n.nr = i
    · simp [hs]
    · simp only [if_neg hs]
  · rw [if_neg hr]
    have : dipoleVec P mu ⟨i, typ, n⟩ = 0 := by
      funext k
      simp [dipoleVec, dipole, dipoleSlope, hr]
    rw [this, applyForce_zero]

/-- The stored six components and trace belong to the matrices `L`. -/
def Stores (lam : Nat → Fin 6 → K) (nu : Nat → K) (L : Nat → Fin 3 → Fin 3 → K) (a : Nat) : Prop :=
  (∀ k, lam a k = L a (voigt k).1 (voigt k).2) ∧ nu a = L a 0 0 + L a 1 1 + L a 2 2 ∧ ∀ k l, L a k l = L a l k

theorem adpNeighW_applyForce (b : Build) (P : EamPots K) (us : Bool) (lam : Nat → Fin 6 → K) (nu : Nat → K)
    (L : Nat → Fin 3 → Fin 3 → K) (i typ : Nat) (s : Acc K) (n : Neigh K) (h1 : Stores lam nu L i)
    (h2 : Stores lam nu L n.nr) :
    adpNeighW b P us lam nu i s n =
      applyForce b us i n (quadrupoleVec P L ⟨i, typ, n⟩ - quadrupoleLost P L ⟨i, typ, n⟩) s := by
  unfold adpNeighW
  by_cases hr : n.r < P.fin (P.quadCol n)
  · rw [if_pos hr]
    have key : ∀ a, Stores lam nu L a → lam a 0 = L a 0 0 ∧ lam a 1 = L a 1 1 ∧ lam a 2 = L a 2 2 ∧ lam a 3 = L a 0 1 ∧
        lam a 4 = L a 1 2 ∧ lam a 5 = L a 0 2 ∧ L a 1 0 = L a 0 1 ∧ L a 2 1 = L a 1 2 ∧ L a 2 0 = L a 0 2 := by
      rintro a ⟨ha, -, hs⟩
      refine ⟨ha 0, ha 1, ha 2, ha 3, ha 4, (ha 5).trans (hs _ _), hs _ _, hs _ _, hs _ _⟩
    obtain ⟨a0, a1, a2, a3, a4, a5, a6, a7, a8⟩ := key i h1
    obtain ⟨b0, b1, b2, b3, b4, b5, b6, b7, b8⟩ := key n.nr h2
    have n1 := h1.2.1
    have n2 := h2.2.1
    show applyForce b us i n _ s = _
    congr 1
    funext k
    simp only [Pi.sub_apply, quadrupoleVec, quadrupoleLost, quadrupole, quadrupoleSlope, if_pos hr, bothQuad,
      Fin.sum_univ_three, halfSelf, n1, n2, a0, a1, a2, a3, a4, a5, a6, a7, a8, b0, b1, b2, b3, b4, b5, b6, b7, b8]
    by_cases hs : n.nr = i
    · simp only [hs, if_true]
      fin_cases k <;>
        simp only [Fin.zero_eta, Fin.mk_one, Fin.reduceFinMk, Matrix.cons_val, a6, a7, a8] <;> field_simp <;> ring
    · simp only [if_neg hs, sub_zero]
      fin_cases k <;>
        simp only [Fin.zero_eta, Fin.mk_one, Fin.reduceFinMk, Matrix.cons_val, a6, a7, a8, b6, b7, b8] <;> field_simp <;>
        ring
  · rw [if_neg hr]
    have : quadrupoleVec P L ⟨i, typ, n⟩ - quadrupoleLost P L ⟨i, typ, n⟩ = 0 := by
      funext k
      simp [quadrupoleVec, quadrupoleLost, quadrupole, quadrupoleSlope, hr]
    rw [this, applyForce_zero]

end Verif.Force
