import Verif.Lemmas.Motion

namespace Verif.Spec

open Verif.Force

set_option linter.unusedSectionVars false

variable {K : Type*} [Field K] [LinearOrder K]

/-! ### Closing loops -/

/-- Factor by which the force of an atom is divided. -/
def scaleOf (b : Build) (absforce : K) : K := if b.fweight then 1 / 10 + absforce else 1

theorem closeLoop_keep (close : Nat → Atom K → Acc K → Acc K)
    (hE : ∀ i a s, (close i a s).energy = s.energy) (hS : ∀ i a s, (close i a s).stress = s.stress)
    (hF : ∀ i a s j, j ≠ i → (close i a s).force j = s.force j) (l : List (Atom K)) (i : Nat) (s : Acc K) :
    (atomLoop close l i s).energy = s.energy ∧ (atomLoop close l i s).stress = s.stress ∧
    ∀ j, (j < i ∨ i + l.length ≤ j) → (atomLoop close l i s).force j = s.force j := by
  induction l generalizing i s with
  | nil => exact ⟨rfl, rfl, fun _ _ => rfl⟩
  | cons a l ih =>
    obtain ⟨h1, h2, h3⟩ := ih (i + 1) (close i a s)
    refine ⟨h1.trans (hE _ _ _), h2.trans (hS _ _ _), ?_⟩
    intro j hj
    simp only [List.length_cons] at hj
    exact (h3 j (by omega)).trans (hF _ _ _ _ (by omega))

theorem closeLoop_force (close : Nat → Atom K → Acc K → Acc K)
    (hE : ∀ i a s, (close i a s).energy = s.energy) (hS : ∀ i a s, (close i a s).stress = s.stress)
    (hF : ∀ i a s j, j ≠ i → (close i a s).force j = s.force j) (sc : Atom K → K)
    (hsc : ∀ i a s k, (close i a s).force i k = s.force i k / sc a) (l : List (Atom K)) (i : Nat) (s : Acc K)
    (j : Nat) (a : Atom K) (hj : l[j]? = some a) (k : Fin 3) :
    (atomLoop close l i s).force (i + j) k = s.force (i + j) k / sc a := by
  induction l generalizing i j s with
  | nil => simp at hj
  | cons a' l ih =>
    cases j with
    | zero =>
      simp only [List.getElem?_cons_zero, Option.some.injEq] at hj
      subst hj
      rw [atomLoop, (closeLoop_keep close hE hS hF l (i + 1) _).2.2 (i + 0) (by omega)]
      exact hsc _ _ _ _
    | succ j =>
      rw [atomLoop, show i + (j + 1) = i + 1 + j by omega, ih _ _ _ (by simpa using hj), hF _ _ _ _ (by omega)]

theorem closeAtom_force (b : Build) (c : Conf K) (hu : c.uf = true) (a : Atom K) (i : Nat) (s : Acc K) (k : Fin 3) :
    (closeAtom b c a i s).force i k = s.force i k / scaleOf b a.absforce := by
  unfold closeAtom scaleOf forceEps
  rw [if_pos hu]
  by_cases h : b.fweight = true <;> simp [h]

theorem closeAtom_keep (b : Build) (c : Conf K) (a : Atom K) (i : Nat) (s : Acc K) :
    (closeAtom b c a i s).energy = s.energy ∧ (closeAtom b c a i s).stress = s.stress ∧
    ∀ j, j ≠ i → (closeAtom b c a i s).force j = s.force j := by
  unfold closeAtom
  by_cases hu : c.uf = true
  · rw [if_pos hu]
    refine ⟨rfl, rfl, ?_⟩
    intro j hj
    by_cases h : b.fweight = true <;> simp [h, hj]
  · rw [if_neg hu]; exact ⟨rfl, rfl, fun _ _ => rfl⟩

theorem closeAtomAlways_force (b : Build) (c : Conf K) (a : Atom K) (i : Nat) (s : Acc K) (k : Fin 3) :
    (closeAtomAlways b c a i s).force i k = s.force i k / scaleOf b a.absforce := by
  unfold closeAtomAlways scaleOf forceEps
  by_cases h : b.fweight = true <;> simp [h]

theorem closeAtomAlways_keep (b : Build) (c : Conf K) (a : Atom K) (i : Nat) (s : Acc K) :
    (closeAtomAlways b c a i s).energy = s.energy ∧ (closeAtomAlways b c a i s).stress = s.stress ∧
    ∀ j, j ≠ i → (closeAtomAlways b c a i s).force j = s.force j := by
  unfold closeAtomAlways
  refine ⟨rfl, rfl, ?_⟩
  intro j hj
  by_cases h : b.fweight = true <;> simp [h, hj]

/-! ### What a configuration leaves in the force vector -/

/-- Sum over the atoms of a configuration. -/
def overAtoms {M : Type*} [AddCommMonoid M] (c : Conf K) (g : Nat → Atom K → M) : M :=
  ((c.atoms.zipIdx c.start).map fun p => g p.2 p.1).sum

theorem fullConf_spec (b : Build) (one : Nat → Atom K → Acc K → Acc K) (E : Nat → Atom K → K)
    (F : Nat → Atom K → Nat → V3 K) (S : Nat → Atom K → Fin 6 → K)
    (h : ∀ i a s, one i a s = plus s (E i a) (F i a) (S i a)) (ew sw : K) (ci : Nat) (c : Conf K) (fv : FV K) :
    (fullConf b one ew sw ci c fv).1.energy ci = overAtoms c E / (c.atoms.length : K) - c.energy0 ∧
    (c.uf = true → ∀ j a, c.atoms[j]? = some a → ∀ k, (fullConf b one ew sw ci c fv).1.force (c.start + j) k =
      (overAtoms c F (c.start + j) k - c.force0 (c.start + j) k) / scaleOf b a.absforce) ∧
    (b.stress = true → c.uf = true → c.us = true → ∀ k, (fullConf b one ew sw ci c fv).1.stress ci k =
      overAtoms c S k / c.vol - c.stress0 k) := by
  have hk := closeLoop_keep (fun i a s => closeAtom b c a i s) (fun i a s => (closeAtom_keep b c a i s).1)
    (fun i a s => (closeAtom_keep b c a i s).2.1) (fun i a s => (closeAtom_keep b c a i s).2.2) c.atoms c.start
    (atomLoop one c.atoms c.start ⟨resetForces c fv.force, 0, 0, 0⟩)
  have hp := atomLoop_plus one E F S h c.atoms c.start ⟨resetForces c fv.force, 0, 0, 0⟩
  have hkE := hk.1
  have hkS := hk.2.1
  rw [show (atomLoop one c.atoms c.start ⟨resetForces c fv.force, 0, 0, 0⟩).energy = overAtoms c E by
    rw [hp]; simp only [plus, overAtoms, zero_add]] at hkE
  rw [show (atomLoop one c.atoms c.start ⟨resetForces c fv.force, 0, 0, 0⟩).stress = overAtoms c S by
    rw [hp]; simp only [plus, overAtoms, zero_add]] at hkS
  refine ⟨?_, ?_, ?_⟩
  · unfold fullConf closeConf
    simp only [Function.update_self]
    by_cases hb : (b.stress && c.uf && c.us) = true
    · simp only [if_pos hb, hkE]
    · simp only [if_neg hb, hkE]
  · intro hu j a hj k
    have hf := closeLoop_force (fun i a s => closeAtom b c a i s) (fun i a s => (closeAtom_keep b c a i s).1)
      (fun i a s => (closeAtom_keep b c a i s).2.1) (fun i a s => (closeAtom_keep b c a i s).2.2)
      (fun a => scaleOf b a.absforce) (fun i a s k => closeAtom_force b c hu a i s k) c.atoms c.start
      (atomLoop one c.atoms c.start ⟨resetForces c fv.force, 0, 0, 0⟩) j a hj k
    have hlt : j < c.atoms.length := (List.getElem?_eq_some_iff.1 hj).1
    have e : (fullConf b one ew sw ci c fv).1.force (c.start + j) k =
        (atomLoop (fun i a s => closeAtom b c a i s) c.atoms c.start
          (atomLoop one c.atoms c.start ⟨resetForces c fv.force, 0, 0, 0⟩)).force (c.start + j) k := by
      unfold fullConf closeConf
      by_cases hb : (b.stress && c.uf && c.us) = true
      · simp only [if_pos hb]
      · simp only [if_neg hb]
    rw [e, hf, hp]
    congr 1
    unfold plus resetForces
    simp only [Pi.add_apply]
    rw [if_pos ⟨by omega, by omega⟩, if_pos hu]
    simp only [Pi.neg_apply, overAtoms]
    ring
  · intro hb hu hs k
    unfold fullConf closeConf
    simp only [hb, hu, hs, Bool.and_self, if_true, Function.update_self, hkS]

/-- The same for the routines which compare stresses and close atoms always. -/
theorem always_spec (b : Build) (T : Acc K) (e : K) (F : Nat → V3 K) (st : Fin 6 → K) (ew sw : K)
    (c : Conf K) (fv : FV K) (hT : T = plus ⟨resetForces c fv.force, 0, 0, 0⟩ e F st) :
    (closeConfAlways b ew sw c (atomLoop (fun i a s => closeAtomAlways b c a i s) c.atoms c.start T)).energy =
      e / (c.atoms.length : K) - c.energy0 ∧
    (c.uf = true → ∀ j a, c.atoms[j]? = some a → ∀ k,
      (closeConfAlways b ew sw c (atomLoop (fun i a s => closeAtomAlways b c a i s) c.atoms c.start T)).force
        (c.start + j) k = (F (c.start + j) k - c.force0 (c.start + j) k) / scaleOf b a.absforce) ∧
    (b.stress = true → ∀ k,
      (closeConfAlways b ew sw c (atomLoop (fun i a s => closeAtomAlways b c a i s) c.atoms c.start T)).stress k =
        st k / c.vol - c.stress0 k) := by
  have hk := closeLoop_keep (fun i a s => closeAtomAlways b c a i s) (fun i a s => (closeAtomAlways_keep b c a i s).1)
    (fun i a s => (closeAtomAlways_keep b c a i s).2.1) (fun i a s => (closeAtomAlways_keep b c a i s).2.2)
    c.atoms c.start T
  refine ⟨?_, ?_, ?_⟩
  · unfold closeConfAlways
    by_cases hb : b.stress = true
    · simp only [if_pos hb, hk.1]
      simp [hT, plus]
    · simp only [if_neg hb, hk.1]
      simp [hT, plus]
  · intro hu j a hj k
    have hf := closeLoop_force (fun i a s => closeAtomAlways b c a i s)
      (fun i a s => (closeAtomAlways_keep b c a i s).1)
      (fun i a s => (closeAtomAlways_keep b c a i s).2.1) (fun i a s => (closeAtomAlways_keep b c a i s).2.2)
      (fun a => scaleOf b a.absforce) (fun i a s k => closeAtomAlways_force b c a i s k) c.atoms c.start T j a hj k
    have hlt : j < c.atoms.length := (List.getElem?_eq_some_iff.1 hj).1
    have e : (closeConfAlways b ew sw c
        (atomLoop (fun i a s => closeAtomAlways b c a i s) c.atoms c.start T)).force (c.start + j) k =
        (atomLoop (fun i a s => closeAtomAlways b c a i s) c.atoms c.start T).force (c.start + j) k := by
      unfold closeConfAlways
      by_cases hb : b.stress = true
      · simp only [if_pos hb]
      · simp only [if_neg hb]
    rw [e, hf, hT]
    congr 1
    unfold plus resetForces
    simp only [Pi.add_apply]
    rw [if_pos ⟨by omega, by omega⟩, if_pos hu]
    simp only [Pi.neg_apply]
    ring
  · intro hb k
    unfold closeConfAlways
    simp only [hb, if_true, hk.2.1]
    simp [hT, plus]

/-! ### The pair part -/

/-- Weight of an entry: half for images of the atom itself. -/
def selfWeight (selfHalf : Bool) (i : Nat) (n : Neigh K) : K := if selfHalf && decide (n.nr = i) then 1 / 2 else 1

/-- Value of the pair function within its range. -/
def pairVal (P : Pots K) (n : Neigh K) : K := if n.r < P.fin n.col0 then P.val n.col0 n.r else 0

/-- Slope of the pair function within its range. -/
def pairGrad (P : Pots K) (n : Neigh K) : K := if n.r < P.fin n.col0 then P.grad n.col0 n.r else 0

/-- Pair energy of an entry of a full list, half of it belonging to each of the two atoms. -/
def pairTerm (selfHalf : Bool) (P : Pots K) (i : Nat) (n : Neigh K) : Term K :=
  ⟨i, 1 / 2 * (selfWeight selfHalf i n * pairVal P n),
    [⟨n, fun k => 1 / 2 * (selfWeight selfHalf i n * (n.distR k * pairGrad P n))⟩]⟩

/-- Force as the code adds it. -/
def ownerForce (selfHalf : Bool) (P : Pots K) (i : Nat) (n : Neigh K) : Nat → V3 K :=
  single i fun k => selfWeight selfHalf i n * (n.distR k * pairGrad P n)

theorem virial_smul (d v : V3 K) (c : K) : virial d (fun k => c * v k) = c • virial d v := by
  funext m
  unfold virial
  fin_cases m <;>
    simp only [Fin.zero_eta, Fin.mk_one, Fin.reduceFinMk, Matrix.cons_val, Pi.smul_apply, smul_eq_mul] <;> ring

theorem virial_zero (d : V3 K) : virial d (fun _ => 0) = 0 := by
  funext m
  unfold virial
  fin_cases m <;> simp

theorem fullPair_plus [CharZero K] (b : Build) (selfHalf : Bool) (P : Pots K) (us : Bool) (i : Nat) (s : Acc K)
    (n : Neigh K) :
    fullPair b selfHalf P true us i s n = plus s (pairTerm selfHalf P i n).energy (ownerForce selfHalf P i n)
      (if b.stress && us then -plainVirial (pairTerm selfHalf P i n).pulls else 0) := by
  unfold fullPair pairTerm ownerForce plainVirial pairVal pairGrad selfWeight
  by_cases h : n.r < P.fin n.col0
  · by_cases h2 : (selfHalf && decide (n.nr = i)) = true
    · by_cases h3 : (b.stress && us) = true
      · simp only [if_pos h, if_pos h2, if_pos h3, if_true, plus, addAt_eq, List.map_cons, List.map_nil, List.sum_cons,
          List.sum_nil, add_zero, Acc.mk.injEq, and_true]
        refine ⟨?_, by ring, ?_⟩
        · congr 2; funext k; ring
        · rw [sub_eq_add_neg, ← virial_smul]
          congr 3; funext k; ring
      · simp only [if_pos h, if_pos h2, if_neg h3, if_true, plus, addAt_eq, add_zero, Acc.mk.injEq, and_true]
        refine ⟨?_, by ring⟩
        congr 2; funext k; ring
    · by_cases h3 : (b.stress && us) = true
      · simp only [if_pos h, if_neg h2, if_pos h3, if_true, plus, addAt_eq, List.map_cons, List.map_nil, List.sum_cons,
          List.sum_nil, add_zero, Acc.mk.injEq, and_true]
        refine ⟨?_, by ring, ?_⟩
        · congr 2; funext k; ring
        · rw [sub_eq_add_neg, ← virial_smul]
          congr 3; funext k; ring
      · simp only [if_pos h, if_neg h2, if_neg h3, if_true, plus, addAt_eq, add_zero, Acc.mk.injEq, and_true]
        refine ⟨?_, by ring⟩
        congr 2; funext k; ring
  · have e : single i (fun _ => (0 : K)) = 0 := by funext a; unfold single; by_cases h : a = i <;> simp [h] <;> rfl
    simp only [if_neg h, mul_zero, e, List.map_cons, List.map_nil, List.sum_cons, List.sum_nil, virial_zero, add_zero,
      neg_zero, ite_self, plus_zero]

theorem foldl_fullPair [CharZero K] (b : Build) (selfHalf : Bool) (P : Pots K) (us : Bool) (i : Nat) (s : Acc K)
    (l : List (Neigh K)) :
    l.foldl (fullPair b selfHalf P true us i) s =
      plus s (sumEnergy (l.map (pairTerm selfHalf P i))) ((l.map (ownerForce selfHalf P i)).sum)
        (if b.stress && us then -(l.map fun n => plainVirial (pairTerm selfHalf P i n).pulls).sum else 0) := by
  rw [foldl_plus _ _ _ _ (fullPair_plus b selfHalf P us i)]
  unfold sumEnergy
  rw [List.map_map]
  congr 1
  by_cases h : (b.stress && us) = true
  · simp only [if_pos h]
    induction l with
    | nil => simp
    | cons n l ih => simp only [List.map_cons, List.sum_cons, ih]; rw [neg_add]
  · simp only [if_neg h]
    simp

end Verif.Spec
