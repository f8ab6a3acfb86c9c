/-
Angular potentials with electrostatics: the second loop is the one of angular potentials followed by the charges, the
third loop is the one of angular potentials with the self energies added in advance.
-/
import Verif.Model.ForceAngElstat
import Verif.Lemmas.FullRun
import Verif.Lemmas.ElMotion

namespace Verif.Spec

open Verif.Force

set_option linter.unusedSectionVars false

section
variable {K : Type*} [Field K] [LinearOrder K] [IsStrictOrderedRing K]

/-- Half of the interaction of two charges, entry of a full list. -/
def coulTerm (E : Elec K) (i typ : Nat) (n : Neigh K) : Term K :=
  ⟨i, if n.r < E.cut then 1 / 2 * (E.charge typ * E.charge n.typ * (E.tail n.r).fn) else 0,
    [⟨n, fun k => if n.r < E.cut then 1 / 2 * n.dist k * (E.charge typ * E.charge n.typ * (E.tail n.r).grad) else 0⟩]⟩

/-- Self energy of the charge of an atom. -/
def selfTerm (E : Elec K) (i : Nat) (a : Atom K) : Term K := ⟨i, -(E.selfCoef * E.charge a.typ ^ 2), []⟩

theorem coulNeigh_plus (b : Build) (E : Elec K) (uf us : Bool) (i typ : Nat) (s : Acc K) (n : Neigh K) :
    coulNeigh b E uf us i typ s n = plus s (coulTerm E i typ n).energy
      (if uf then pullForce i (coulTerm E i typ n).pulls else 0)
      (if uf && (b.stress && us) then -plainVirial (coulTerm E i typ n).pulls else 0) := by
  unfold coulNeigh coulTerm
  by_cases h : n.r < E.cut
  · by_cases hq : E.charge typ ≠ 0 ∨ E.charge n.typ ≠ 0
    · simp only [if_pos (And.intro h hq), if_pos h]
      cases uf with
      | false => simp [plus]
      | true =>
        simp only [if_true, Bool.true_and, scatter_eq, plus]
        by_cases hs : (b.stress && us) = true
        · simp only [if_pos hs, plainVirial, List.map_cons, List.map_nil, List.sum_cons, List.sum_nil, add_zero, sub_eq_add_neg]
        · simp only [if_neg hs, add_zero]
    · have h0 : ¬ (n.r < E.cut ∧ (E.charge typ ≠ 0 ∨ E.charge n.typ ≠ 0)) := fun h => hq h.2
      have hz : E.charge typ = 0 := by
        by_contra hh; exact hq (Or.inl hh)
      rw [if_neg h0]
      simp only [if_pos h, hz, zero_mul, mul_zero, pullForce, plainVirial, List.map_cons, List.map_nil, List.sum_cons,
        List.sum_nil, add_zero, virial_zero, neg_zero, ite_self, single_zero, sub_zero, plus_zero]
  · have h0 : ¬ (n.r < E.cut ∧ (E.charge typ ≠ 0 ∨ E.charge n.typ ≠ 0)) := fun hh => h hh.1
    simp only [if_neg h0, if_neg h, pullForce, plainVirial, List.map_cons, List.map_nil, List.sum_cons,
      List.sum_nil, add_zero, virial_zero, neg_zero, ite_self, single_zero, sub_zero, plus_zero]

theorem plus_comm (s : Acc K) (e e' : K) (f f' : Nat → V3 K) (st st' : Fin 6 → K) :
    plus (plus s e f st) e' f' st' = plus (plus s e' f' st') e f st := by
  rw [plus_plus, plus_plus, add_comm e, add_comm f, add_comm st]

/-- Two steps for every neighbour in two loops. -/
theorem foldl_two {α : Type*} (f g : Acc K → α → Acc K) (l : List α)
    (hf : ∀ x ∈ l, Shift (fun _ => True) (fun s => f s x)) (hg : ∀ x ∈ l, Shift (fun _ => True) (fun s => g s x)) (s : Acc K) :
    l.foldl (fun s x => g (f s x) x) s = l.foldl g (l.foldl f s) := by
  induction l generalizing s with
  | nil => rfl
  | cons x l ih =>
    simp only [List.foldl_cons]
    rw [ih (fun y hy => hf y (List.mem_cons_of_mem _ hy)) (fun y hy => hg y (List.mem_cons_of_mem _ hy))]
    congr 1
    obtain ⟨E, F, S, -, h⟩ := shift_foldl (R := fun _ => True) (f := f) l (fun y hy => hf y (List.mem_cons_of_mem _ hy))
    obtain ⟨E', F', S', -, h'⟩ := hg x List.mem_cons_self
    have h1 : ∀ s, l.foldl f s = plus s E F S := h
    have h2 : ∀ s, g s x = plus s E' F' S' := h'
    rw [h1, h2, h1, h2, plus_comm]

theorem coulNeigh_shift {R : Nat → Prop} (b : Build) (E : Elec K) (uf us : Bool) {i : Nat} (typ : Nat) (n : Neigh K)
    (hi : R i) (hn : R n.nr) : Shift R (fun s => coulNeigh b E uf us i typ s n) := by
  refine ⟨_, _, _, ?_, fun s => coulNeigh_plus b E uf us i typ s n⟩
  intro a ha
  cases uf with
  | false => rfl
  | true =>
    simp only [if_true, coulTerm, pullForce, List.map_cons, List.map_nil, List.sum_cons, List.sum_nil, add_zero, Pi.sub_apply,
      single_out hi _ a ha, single_out hn _ a ha, sub_zero]

/-- The second loop: angular potentials, then the charges. -/
theorem angElAtom_eq (b : Build) (P : AngPots K) (E : Elec K) (c : Conf K) (i : Nat) (a : Atom K) (s : Acc K) :
    angElAtom b P E c i a s = a.neigh.foldl (coulNeigh b E c.uf c.us i a.typ) (angAtom b P c i a s) := by
  unfold angElAtom angAtom
  rw [foldl_two _ _ _ (fun n _ => fullPair_shift b false P.toPots c.uf c.us trivial n)
    (fun n _ => coulNeigh_shift b E c.uf c.us a.typ n trivial trivial)]
  obtain ⟨e, f, st, -, h⟩ := shift_foldl (R := fun _ => True) (f := coulNeigh b E c.uf c.us i a.typ) a.neigh
    (fun n _ => coulNeigh_shift b E c.uf c.us a.typ n trivial trivial)
  obtain ⟨e', f', st', -, h'⟩ := shift_pairs (R := fun _ => True)
    (outer := fun nj : Neigh K => decide (nj.r < P.fin (P.fcol nj.col0))) (f := angAngle b P c.uf c.us i a.typ) a.neigh
    fun x _ y _ => angAngle_shift b P c.uf c.us a.typ x y trivial trivial trivial
  have h1 : ∀ s, a.neigh.foldl (coulNeigh b E c.uf c.us i a.typ) s = plus s e f st := h
  have h2 : ∀ s, pairsLoop (fun nj : Neigh K => decide (nj.r < P.fin (P.fcol nj.col0))) (angAngle b P c.uf c.us i a.typ) a.neigh s =
    plus s e' f' st' := h'
  simp only [h1, h2]
  simp only [plus, zero_add, Acc.mk.injEq, and_true]
  exact ⟨by abel, by abel, by abel⟩

theorem angElAtom_shift {R : Nat → Prop} {i : Nat} {a : Atom K} (hi : R i) (ha : ∀ n ∈ a.neigh, R n.nr) (b : Build)
    (P : AngPots K) (E : Elec K) (c : Conf K) : Shift R (angElAtom b P E c i a) := by
  have h := shift_comp (angAtom_shift hi ha b P c)
    (shift_foldl (f := coulNeigh b E c.uf c.us i a.typ) a.neigh fun n hn => coulNeigh_shift b E c.uf c.us a.typ n hi (ha n hn))
  have e : angElAtom b P E c i a = fun s => a.neigh.foldl (coulNeigh b E c.uf c.us i a.typ) (angAtom b P c i a s) :=
    funext fun s => angElAtom_eq b P E c i a s
  rw [e]
  exact h

theorem angElAtom_unused (b : Build) (P : AngPots K) (E : Elec K) (c : Conf K) (hu : c.uf = false) (i : Nat) (a : Atom K) (s : Acc K) :
    (angElAtom b P E c i a s).force = s.force := by
  rw [angElAtom_eq, hu]
  refine (keeps_foldl (g := Acc.force) a.neigh (fun n s => ?_) _).trans (angAtom_unused b P c hu i a s)
  show (coulNeigh b E false c.us i a.typ s n).force = s.force
  rw [coulNeigh_plus]
  simp [plus]

theorem angElAtom_nostress (b : Build) (P : AngPots K) (E : Elec K) (c : Conf K) (hu : ¬ (c.uf = true ∧ c.us = true)) (i : Nat)
    (a : Atom K) (s : Acc K) : (angElAtom b P E c i a s).stress = s.stress := by
  rw [angElAtom_eq]
  refine (keeps_foldl (g := Acc.stress) a.neigh (fun n s => ?_) _).trans (angAtom_nostress b P c hu i a s)
  show (coulNeigh b E c.uf c.us i a.typ s n).stress = s.stress
  rw [coulNeigh_plus]
  have : ¬ (c.uf && (b.stress && c.us)) = true := by
    simp only [Bool.and_eq_true]
    exact fun h => hu ⟨h.1, h.2.2⟩
  simp only [if_neg this, plus, add_zero]

/-- Self energies of some atoms. -/
def selfSum (E : Elec K) (l : List (Atom K)) : K := (l.map fun a => -(E.selfCoef * E.charge a.typ ^ 2)).sum

theorem elSelf_plus (E : Elec K) (p : Nat → V3 K) (a : Atom K) (i : Nat) (s : Acc K) :
    elSelf false E p a i s = plus s (-(E.selfCoef * E.charge a.typ ^ 2)) 0 0 := by
  unfold elSelf
  simp only [Bool.false_eq_true, false_and, if_false]
  by_cases h : E.charge a.typ ≠ 0
  · rw [if_pos h]
    simp only [plus, add_zero, Acc.mk.injEq, and_true, true_and]
    ring
  · rw [if_neg h]
    have h : E.charge a.typ = 0 := not_not.1 h
    rw [h]
    simp [plus]

/-- Closing an atom commutes with adding an energy. -/
theorem closeAlways_plus (b : Build) (c : Conf K) (a : Atom K) (i : Nat) (s : Acc K) (e : K) :
    closeAtomAlways b c a i (plus s e 0 0) = plus (closeAtomAlways b c a i s) e 0 0 := by
  simp only [closeAtomAlways, plus, add_zero]

theorem closeAlways_zero (b : Build) (c : Conf K) (a : Atom K) (i : Nat) (s : Acc K) (h : s.force i = 0) :
    closeAtomAlways b c a i s = s := by
  have hf : (if b.fweight then Function.update s.force i (fun k => s.force i k / (forceEps + a.absforce)) else s.force) = s.force := by
    by_cases hb : b.fweight = true
    · rw [if_pos hb, h]
      funext j
      by_cases hj : j = i
      · subst hj
        rw [Function.update_self, h]
        funext k
        simp
      · rw [Function.update_of_ne hj]
    · rw [if_neg hb]
  have h0 : sq3 (0 : V3 K) = 0 := by simp [sq3]
  have e : closeAtomAlways b c a i s = { s with
      force := if b.fweight then Function.update s.force i (fun k => s.force i k / (forceEps + a.absforce)) else s.force
      err := if !b.contrib || a.contrib then s.err + c.weight * sq3 ((if b.fweight then
        Function.update s.force i (fun k => s.force i k / (forceEps + a.absforce)) else s.force) i) else s.err } := rfl
  rw [e, hf, h, h0, mul_zero, add_zero, ite_self]

theorem closeAtom_used (b : Build) (c : Conf K) (hu : c.uf = true) (a : Atom K) (i : Nat) (s : Acc K) :
    closeAtom b c a i s = closeAtomAlways b c a i s := by
  unfold closeAtom closeAtomAlways
  rw [if_pos hu]

/-- The third loop is that of angular potentials, the self energies added in advance. -/
theorem third_loop (b : Build) (E : Elec K) (c : Conf K) (l : List (Atom K)) (i : Nat) (s : Acc K)
    (h : c.uf = false → ∀ j, j < l.length → s.force (i + j) = 0) :
    atomLoop (angElClose b E c) l i s = atomLoop (fun i a s => closeAtomAlways b c a i s) l i (plus s (selfSum E l) 0 0) := by
  induction l generalizing i s with
  | nil => simp [atomLoop, selfSum, plus]
  | cons a l ih =>
    have hcl : angElClose b E c i a s = plus (closeAtomAlways b c a i s) (-(E.selfCoef * E.charge a.typ ^ 2)) 0 0 := by
      unfold angElClose
      rw [elSelf_plus]
      by_cases hu : c.uf = true
      · rw [closeAtom_used b c hu, closeAlways_plus]
      · have h0 := h (by simpa using hu) 0 (by simp)
        rw [Nat.add_zero] at h0
        rw [closeAlways_zero b c a i s h0]
        unfold closeAtom
        rw [if_neg hu]
    rw [atomLoop, ih, hcl, plus_plus, atomLoop, closeAlways_plus]
    · simp only [selfSum, List.map_cons, List.sum_cons, add_zero]
    · intro hu j hj
      have h1 := h hu 0 (by simp)
      rw [Nat.add_zero] at h1
      rw [hcl, closeAlways_zero b c a i s h1]
      have := h hu (j + 1) (by simpa using hj)
      rw [show i + 1 + j = i + (j + 1) by omega]
      simpa [plus] using this

theorem angElConf_eq (b : Build) (P : AngPots K) (E : Elec K) (ew sw : K) (ci : Nat) (c : Conf K) (fv : FV K) (e : K)
    (F : Nat → V3 K) (S : Fin 6 → K) (hF : c.uf = false → F = 0)
    (hT : atomLoop (angElAtom b P E c) c.atoms c.start ⟨resetForces c fv.force, 0, 0, 0⟩ =
      plus ⟨resetForces c fv.force, 0, 0, 0⟩ e F S) :
    let s := closeConfAlways b ew sw c (atomLoop (fun i a s => closeAtomAlways b c a i s) c.atoms c.start
      (plus ⟨resetForces c fv.force, 0, 0, 0⟩ (e + selfSum E c.atoms) F S))
    angElConf b P E ew sw ci c fv = (⟨s.force, Function.update fv.energy ci s.energy,
      if b.stress then Function.update fv.stress ci s.stress else fv.stress, fv.limit⟩, s.err) := by
  have h3 := third_loop b E c c.atoms c.start (plus ⟨resetForces c fv.force, 0, 0, 0⟩ e F S) ?_
  · rw [plus_plus, add_zero, add_zero] at h3
    unfold angElConf
    simp only [hT, h3]
  intro hu j hj
  rw [hF hu]
  simp only [plus, add_zero, resetForces, Pi.add_apply, Pi.zero_apply]
  rw [if_pos ⟨by omega, by omega⟩, hu]
  simp

theorem angElConf_result (b : Build) (P : AngPots K) (E : Elec K) (ew sw : K) (c : Conf K) (hc : Inside c) :
    ∃ (e : K) (F : Nat → V3 K) (S : Fin 6 → K), (c.uf = false → F = 0) ∧ (¬ (c.uf = true ∧ c.us = true) → S = 0) ∧ ∀ ci fv,
      (∀ a, ¬ Member c a → (angElConf b P E ew sw ci c fv).1.force a = fv.force a) ∧
      (∀ j a, c.atoms[j]? = some a → ∀ k, (angElConf b P E ew sw ci c fv).1.force (c.start + j) k =
        (F (c.start + j) k - if c.uf then c.force0 (c.start + j) k else 0) / scaleOf b a.absforce) ∧
      (angElConf b P E ew sw ci c fv).1.energy = Function.update fv.energy ci (e / (c.atoms.length : K) - c.energy0) ∧
      (angElConf b P E ew sw ci c fv).1.stress =
        (if b.stress then Function.update fv.stress ci (fun k => S k / c.vol - c.stress0 k) else fv.stress) ∧
      (angElConf b P E ew sw ci c fv).1.limit = fv.limit ∧
      (angElConf b P E ew sw ci c fv).2 = residualError b ew sw (angElConf b P E ew sw ci c fv).1 ci c + stressOffset b sw c := by
  obtain ⟨e, F, S, hF, hs⟩ := shift_atoms (R := Member c) (one := angElAtom b P E c) c.atoms c.start
    fun j a hj => angElAtom_shift (member_of hj) (inside_neigh hc hj) b P E c
  have hF0 : c.uf = false → F = 0 := by
    intro hu
    have := keeps_atoms (g := Acc.force) (one := angElAtom b P E c) c.atoms c.start (fun i a s => angElAtom_unused b P E c hu i a s) ⟨0, 0, 0, 0⟩
    rw [hs] at this
    simpa [plus] using this
  have hS0 : ¬ (c.uf = true ∧ c.us = true) → S = 0 := by
    intro hu
    have := keeps_atoms (g := Acc.stress) (one := angElAtom b P E c) c.atoms c.start (fun i a s => angElAtom_nostress b P E c hu i a s) ⟨0, 0, 0, 0⟩
    rw [hs] at this
    simpa [plus] using this
  refine ⟨e + selfSum E c.atoms, F, S, hF0, hS0, fun ci fv => ?_⟩
  obtain ⟨p1, p2, p3, p4, p5⟩ := always_result b ew sw c fv (e + selfSum E c.atoms) F S hF hF0 hS0 ci fv.limit
  have h := angElConf_eq b P E ew sw ci c fv e F S hF0 (hs _)
  simp only at h
  rw [h]
  exact ⟨p1, p2, p3, p4, rfl, p5⟩

theorem angElConf_writes (b : Build) (P : AngPots K) (E : Elec K) (ew sw : K) (c : Conf K) (hc : Inside c) :
    ∃ f e st l r, Writes b false c (angElConf b P E ew sw) f e st l r := by
  obtain ⟨e, F, S, -, -, hr⟩ := angElConf_result b P E ew sw c hc
  have hf : ∀ ci fv, (fun a => (angElConf b P E ew sw ci c fv).1.force a) = _ := fun ci fv => funext fun a =>
    force_cases (c := c) (f := (angElConf b P E ew sw ci c fv).1.force) (g := fv.force)
      (h := fun i a k => (F i k - if c.uf then c.force0 i k else 0) / scaleOf b a.absforce)
      (hr ci fv).1 (fun j a hj => funext fun k => (hr ci fv).2.1 j a hj k) ⟨0, [], 0, true⟩ a
  refine ⟨_, _, _, 0, (angElConf b P E ew sw 0 c ⟨0, 0, 0, 0⟩).2, fun ci fv a => congrFun (hf ci fv) a,
    fun ci fv => (hr ci fv).2.2.1, fun ci fv => (hr ci fv).2.2.2.1, fun ci fv => (hr ci fv).2.2.2.2.1, fun ci fv => ?_⟩
  rw [(hr ci fv).2.2.2.2.2, (hr 0 _).2.2.2.2.2]
  congr 1
  refine residual_congr _ _ _ _ _ _ _ _ (fun a ha => ?_) ?_ ?_
  · have ha : c.start ≤ a ∧ a < c.start + c.atoms.length := ha
    rw [congrFun (hf ci fv) a, congrFun (hf 0 _) a, if_pos ha, if_pos ha]
  · rw [(hr ci fv).2.2.1, (hr 0 _).2.2.1, Function.update_self, Function.update_self]
  · intro hb
    rw [(hr ci fv).2.2.2.1, (hr 0 _).2.2.2.1, if_pos hb, if_pos hb, Function.update_self, Function.update_self]

/-! ### Terms -/

/-- Terms of one atom. -/
def angElSite (P : AngPots K) (E : Elec K) (i : Nat) (a : Atom K) : List (Term K) :=
  angSite P i a ++ (a.neigh.map (coulTerm E i a.typ) ++ [selfTerm E i a])

def angElForceSum (P : AngPots K) (E : Elec K) (i : Nat) (a : Atom K) : Nat → V3 K :=
  angForceSum P i a + (a.neigh.map fun n => pullForce i (coulTerm E i a.typ n).pulls).sum

def angElStress (P : AngPots K) (E : Elec K) (i : Nat) (a : Atom K) : Fin 6 → K :=
  angStress P i a + -(a.neigh.map fun n => plainVirial (coulTerm E i a.typ n).pulls).sum

/-- Energy of the second loop for one atom. -/
def angElEnergy (P : AngPots K) (E : Elec K) (i : Nat) (a : Atom K) : K :=
  sumEnergy (angSite P i a) + (a.neigh.map fun n => (coulTerm E i a.typ n).energy).sum

theorem angElSite_energy (P : AngPots K) (E : Elec K) (i : Nat) (a : Atom K) :
    sumEnergy (angElSite P E i a) = angElEnergy P E i a + -(E.selfCoef * E.charge a.typ ^ 2) := by
  simp only [angElSite, angElEnergy, sumEnergy, List.map_append, List.sum_append, List.map_map, List.map_cons, List.map_nil,
    List.sum_cons, List.sum_nil, add_zero, selfTerm, add_assoc]
  rfl

theorem angElAtom_plus (b : Build) (P : AngPots K) (E : Elec K) (c : Conf K) (hu : c.uf = true) (i : Nat) (a : Atom K) (s : Acc K) :
    angElAtom b P E c i a s = plus s (angElEnergy P E i a) (angElForceSum P E i a)
      (if b.stress && c.us then angElStress P E i a else 0) := by
  rw [angElAtom_eq, foldl_plus _ _ _ _ (coulNeigh_plus b E c.uf c.us i a.typ), angAtom_plus b P c hu, plus_plus]
  simp only [hu, if_true, Bool.true_and, sum_ite_neg]
  unfold angElEnergy angElForceSum angElStress
  by_cases hs : (b.stress && c.us) = true
  · simp only [if_pos hs]
  · simp only [if_neg hs, add_zero]

theorem overAtoms_self (E : Elec K) (c : Conf K) (g : Nat → Atom K → K) :
    overAtoms c (fun i a => g i a + -(E.selfCoef * E.charge a.typ ^ 2)) = overAtoms c g + selfSum E c.atoms := by
  unfold overAtoms selfSum
  generalize c.start = i
  induction c.atoms generalizing i with
  | nil => simp
  | cons a l ih =>
    simp only [List.zipIdx_cons, List.map_cons, List.sum_cons, ih]
    ring

end

/-! ### Derivatives -/

theorem follow_coul (m : Motion) (E : Elec ℝ) (i typ : Nat) (l : Link) (h0 : length (m.path m.now i l) ≠ 0)
    (hs : TailSmooth false E (length (m.path m.now i l))) :
    HasDerivAt (fun t => (coulTerm E i typ (placedAt (m.path t i l) l)).energy)
      ((coulTerm E i typ (placedAt (m.path m.now i l) l)).rate m.speed) m.now := by
  have hr := hasDerivAt_r m i l h0
  have h1 : HasDerivAt (fun t => cutAt E.cut (fun r => (E.tail r).fn) (placedAt (m.path t i l) l).r) _ m.now :=
    HasDerivAt.comp m.now (h₂ := cutAt E.cut fun r => (E.tail r).fn) (h := fun t => (placedAt (m.path t i l) l).r) hs.fn hr
  have h2 := h1.const_mul (1 / 2 * (E.charge typ * E.charge l.typ))
  refine (h2.congr_of_eventuallyEq (Filter.Eventually.of_forall fun t => ?_)).congr_deriv ?_
  · unfold coulTerm cutAt
    show (if (placedAt (m.path t i l) l).r < E.cut then 1 / 2 * (E.charge typ * E.charge l.typ * (E.tail (placedAt (m.path t i l) l).r).fn) else 0) = _
    simp only
    split
    · ring
    · ring
  · have r1 : (placedAt (m.path m.now i l) l).r = length (m.path m.now i l) := rfl
    have c1 : (placedAt (m.path m.now i l) l).typ = l.typ := rfl
    have hd : ∀ k, (placedAt (m.path m.now i l) l).dist k = (placedAt (m.path m.now i l) l).distR k * (placedAt (m.path m.now i l) l).r :=
      fun _ => rfl
    simp only [Term.rate, coulTerm, List.map_cons, List.map_nil, List.sum_cons, List.sum_nil, Fin.sum_univ_three, c1, hd, cutAt]
    rw [← r1]
    split
    · ring
    · ring

end Verif.Spec
