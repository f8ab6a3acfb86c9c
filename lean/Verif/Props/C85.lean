/-
C85  Angular potentials with electrostatics: energy, forces, stresses, objective, parallel evaluation.

Energy, forces and stresses are taken from the force vector filled by `calc_forces` of `src/force_ang_elstat.c`.  Positions
are varied at fixed neighbour lists; strain deforms positions and lattice vectors together.
-/
import Verif.Lemmas.AngElstat
import Verif.Props.C54
import Verif.Props.C67
import Verif.Props.C03Full

set_option linter.unusedSectionVars false

namespace Verif.Props

open Verif.Force hiding Cell
open Verif.Neighbors Verif.Spec

/-! ### Energy -/

section
variable {K : Type*} [Field K] [LinearOrder K] [IsStrictOrderedRing K]

/-- Energy of one atom: half of the pair functions and of the interactions of the charges with all neighbours, the angles
with this atom in the centre, self energy of the charge. -/
def chargedSite (P : AngPots K) (E : Elec K) (a : Atom K) : K :=
  1 / 2 * (a.neigh.map fun n => if n.r < P.fin n.col0 then P.val n.col0 n.r else 0).sum +
  1 / 2 * (a.neigh.map fun n => if n.r < E.cut then E.charge a.typ * E.charge n.typ * (E.tail n.r).fn else 0).sum +
  ((pairsOf a.neigh).map fun p => if p.1.r < P.fin (P.fcol p.1.col0) ∧ p.2.r < P.fin (P.fcol p.2.col0) then
    P.val (P.fcol p.1.col0) p.1.r * P.val (P.fcol p.2.col0) p.2.r * P.val (P.gcol a.typ) (cosine p.1 p.2) else 0).sum -
  E.selfCoef * E.charge a.typ ^ 2

theorem foldl_energy {α : Type*} (step : Acc K → α → Acc K) (e : α → K) (h : ∀ s x, (step s x).energy = s.energy + e x)
    (l : List α) (s : Acc K) : (l.foldl step s).energy = s.energy + (l.map e).sum := by
  induction l generalizing s with
  | nil => simp
  | cons x l ih => rw [List.foldl_cons, ih, h, List.map_cons, List.sum_cons, add_assoc]

theorem pairsLoop_energy {α : Type*} (outer : α → Bool) (step : Acc K → α → α → Acc K) (e : α → α → K)
    (h : ∀ s x y, outer x = true → (step s x y).energy = s.energy + e x y) (h0 : ∀ x y, outer x = false → e x y = 0)
    (l : List α) (s : Acc K) :
    (pairsLoop outer step l s).energy = s.energy + ((pairsOf l).map fun p => e p.1 p.2).sum := by
  induction l generalizing s with
  | nil => simp [pairsLoop, pairsOf]
  | cons x l ih =>
    rw [pairsLoop, ih]
    simp only [pairsOf, List.map_append, List.map_map, List.sum_append, ← add_assoc]
    congr 1
    cases hx : outer x with
    | true =>
      rw [if_pos rfl, foldl_energy _ (e x) (fun s y => h s x y hx)]
      rfl
    | false =>
      rw [if_neg (by simp)]
      have : (l.map ((fun p : α × α => e p.1 p.2) ∘ fun y => (x, y))).sum = 0 := by
        apply List.sum_eq_zero
        intro z hz
        obtain ⟨y, -, rfl⟩ := List.mem_map.1 hz
        exact h0 x y hx
      rw [this, add_zero]

theorem list_mul_left {α : Type*} (l : List α) (f : α → K) (c : K) : (l.map fun x => c * f x).sum = c * (l.map f).sum :=
  List.sum_map_mul_left _ _ _

theorem angElAtom_energy (b : Build) (P : AngPots K) (E : Elec K) (c : Conf K) (i : Nat) (a : Atom K) (s : Acc K) :
    (angElAtom b P E c i a s).energy = s.energy + (chargedSite P E a + E.selfCoef * E.charge a.typ ^ 2) := by
  have h1 : ∀ (s : Acc K) (n : Neigh K), (fullPair b false P.toPots c.uf c.us i s n).energy =
      s.energy + 1 / 2 * (if n.r < P.fin n.col0 then P.val n.col0 n.r else 0) := by
    intro s n
    unfold fullPair
    by_cases h : n.r < P.fin n.col0
    · rw [if_pos h, if_pos h]
      cases c.uf <;> simp
    · rw [if_neg h, if_neg h]
      simp
  have h2 : ∀ (s : Acc K) (n : Neigh K), (coulNeigh b E c.uf c.us i a.typ s n).energy =
      s.energy + 1 / 2 * (if n.r < E.cut then E.charge a.typ * E.charge n.typ * (E.tail n.r).fn else 0) := by
    intro s n
    rw [coulNeigh_plus]
    simp only [plus, coulTerm]
    by_cases h : n.r < E.cut
    · rw [if_pos h, if_pos h]
    · rw [if_neg h, if_neg h, mul_zero]
  have h3 : ∀ (s : Acc K) (x y : Neigh K), decide (x.r < P.fin (P.fcol x.col0)) = true →
      (angAngle b P c.uf c.us i a.typ s x y).energy = s.energy +
        if x.r < P.fin (P.fcol x.col0) ∧ y.r < P.fin (P.fcol y.col0) then
          P.val (P.fcol x.col0) x.r * P.val (P.fcol y.col0) y.r * P.val (P.gcol a.typ) (cosine x y) else 0 := by
    intro s x y hx
    have hx : x.r < P.fin (P.fcol x.col0) := by simpa using hx
    unfold angAngle angF
    by_cases h : y.r < P.fin (P.fcol y.col0)
    · have hb : x.r < P.fin (P.fcol x.col0) ∧ y.r < P.fin (P.fcol y.col0) := ⟨hx, h⟩
      simp only [if_pos h, if_pos hx, if_pos hb]
      cases c.uf <;> rfl
    · rw [if_neg h, if_neg (fun hh => h hh.2), add_zero]
  unfold angElAtom
  simp only
  rw [pairsLoop_energy _ _ _ h3, foldl_energy _ (fun n => 1 / 2 * (if n.r < P.fin n.col0 then P.val n.col0 n.r else 0) +
    1 / 2 * (if n.r < E.cut then E.charge a.typ * E.charge n.typ * (E.tail n.r).fn else 0)) (fun s n => by
      rw [h2, h1, add_assoc])]
  · rw [List.sum_map_add, list_mul_left, list_mul_left]
    unfold chargedSite
    ring
  · intro x y hx
    have hx : ¬ x.r < P.fin (P.fcol x.col0) := by simpa using hx
    exact if_neg fun h => hx h.1

theorem angElLoop_energy (b : Build) (P : AngPots K) (E : Elec K) (c : Conf K) (l : List (Atom K)) (i : Nat) (s : Acc K) :
    (atomLoop (angElAtom b P E c) l i s).energy + selfSum E l = s.energy + (l.map (chargedSite P E)).sum := by
  induction l generalizing i s with
  | nil => simp [atomLoop, selfSum]
  | cons a l ih =>
    have := ih (i + 1) (angElAtom b P E c i a s)
    rw [atomLoop, List.map_cons, List.sum_cons]
    unfold selfSum at this ⊢
    rw [List.map_cons, List.sum_cons]
    rw [angElAtom_energy] at this
    linear_combination this

/-- Energy per atom of a configuration, whether it uses forces or not: sum of the energies of its atoms. -/
theorem C85_energy (b : Build) (P : AngPots K) (E : Elec K) (ew sw : K) (ci : Nat) (c : Conf K) (fv : FV K) :
    (angElConf b P E ew sw ci c fv).1.energy ci =
      (c.atoms.map (chargedSite P E)).sum / (c.atoms.length : K) - c.energy0 := by
  obtain ⟨e, F, S, -, hs⟩ := shift_atoms (R := fun _ => True) (one := angElAtom b P E c) c.atoms c.start
    fun j a hj => angElAtom_shift trivial (fun _ _ => trivial) b P E c
  have hF0 : c.uf = false → F = 0 := by
    intro hu
    have := keeps_atoms (g := Acc.force) (one := angElAtom b P E c) c.atoms c.start (fun i a s => angElAtom_unused b P E c hu i a s) ⟨0, 0, 0, 0⟩
    rw [hs] at this
    simpa [plus] using this
  have h := angElConf_eq b P E ew sw ci c fv e F S hF0 (hs _)
  simp only at h
  rw [h]
  show Function.update _ _ _ _ = _
  rw [Function.update_self]
  obtain ⟨h1, -, -⟩ := always_spec b _ (e + selfSum E c.atoms) F S ew sw c fv rfl
  rw [h1]
  have h2 := angElLoop_energy b P E c c.atoms c.start (⟨0, 0, 0, 0⟩ : Acc K)
  rw [show atomLoop (angElAtom b P E c) c.atoms c.start ⟨0, 0, 0, 0⟩ = plus ⟨0, 0, 0, 0⟩ e F S from hs _] at h2
  have h2 : 0 + e + selfSum E c.atoms = 0 + (c.atoms.map (chargedSite P E)).sum := h2
  rw [zero_add, zero_add] at h2
  rw [h2]

/-! ### Without charges -/

/-- If all charges vanish, the routine is that of angular potentials. -/
theorem C85_uncharged (b : Build) (P : AngPots K) (E : Elec K) (hE : ∀ t, E.charge t = 0) (ew sw : K) (ci : Nat) (c : Conf K)
    (fv : FV K) : angElConf b P E ew sw ci c fv = angConf b P ew sw ci c fv := by
  have h1 : angElAtom b P E c = angAtom b P c := by
    funext i a s
    rw [angElAtom_eq]
    generalize angAtom b P c i a s = s
    induction a.neigh generalizing s with
    | nil => rfl
    | cons n l ih =>
      rw [List.foldl_cons, ih]
      unfold coulNeigh
      rw [if_neg (by simp [hE])]
  have h0 : selfSum E c.atoms = 0 := by
    unfold selfSum
    apply List.sum_eq_zero
    intro z hz
    obtain ⟨a, -, rfl⟩ := List.mem_map.1 hz
    simp [hE]
  obtain ⟨e, F, S, -, hs⟩ := shift_atoms (R := fun _ => True) (one := angElAtom b P E c) c.atoms c.start
    fun j a hj => angElAtom_shift trivial (fun _ _ => trivial) b P E c
  have hF0 : c.uf = false → F = 0 := by
    intro hu
    have := keeps_atoms (g := Acc.force) (one := angElAtom b P E c) c.atoms c.start (fun i a s => angElAtom_unused b P E c hu i a s) ⟨0, 0, 0, 0⟩
    rw [hs] at this
    simpa [plus] using this
  have h := angElConf_eq b P E ew sw ci c fv e F S hF0 (hs _)
  simp only [h0, add_zero] at h
  rw [h]
  unfold angConf
  rw [← h1, show atomLoop (angElAtom b P E c) c.atoms c.start ⟨resetForces c fv.force, 0, 0, 0⟩ =
    plus ⟨resetForces c fv.force, 0, 0, 0⟩ e F S from hs _]

/-! ### Objective -/

/-- Exact value: weighted squared residuals, punishments, and the squared reference stresses of configurations which do not
use them. -/
theorem C85_objective (b : Build) (P : AngPots K) (E : Elec K) (ew sw w : K) (qs : List (Bound K)) (eopp univ : List (Nat × K))
    (confs : List (Conf K)) (hn : Numbered confs) (hi : ∀ c ∈ confs, Inside c) (v v' : PairVec K) (y : K)
    (hr : angElObjective b P E ew sw w qs eopp univ confs v = .ok (v', y)) :
    y = (confs.zipIdx.map fun ck => residualError b ew sw v'.fv ck.2 ck.1).sum +
      (if b.apot = true then totalPenalty w qs eopp univ else 0) +
      (confs.map fun c => if b.stress = true ∧ ¬ (c.uf = true ∧ c.us = true) then
        c.weight * sw * ∑ k : Fin 6, c.stress0 k ^ 2 else 0).sum := by
  obtain ⟨h1, h2⟩ := sumObjective_ok _ _ w qs eopp univ confs v v' y hr
  have := run_error b false ew sw (angElConf b P E ew sw) (AddMonoidHom.id K) (stressOffset b sw)
    (fun c hc => angElConf_writes b P E ew sw c hc)
    (fun ci c fv hc => by
      obtain ⟨e, F, S, -, -, hq⟩ := angElConf_result b P E ew sw c hc
      exact (hq ci fv).2.2.2.2.2) confs hn hi v.fv
  simp only [AddMonoidHom.id_apply] at this
  rw [h2, h1, this]
  have : ∀ l : List (Conf K × Nat), (l.map fun ck => residualError b ew sw (confLoop (angElConf b P E ew sw) confs 0 (v.fv, 0)).1 ck.2 ck.1 +
      stressOffset b sw ck.1).sum =
      (l.map fun ck => residualError b ew sw (confLoop (angElConf b P E ew sw) confs 0 (v.fv, 0)).1 ck.2 ck.1).sum +
      (l.map ((stressOffset b sw) ∘ Prod.fst)).sum := by
    intro l
    induction l with
    | nil => simp
    | cons a l ih => simp only [List.map_cons, List.sum_cons, ih, Function.comp]; ring
  rw [this, ← List.map_map, List.zipIdx_map_fst]
  unfold stressOffset
  ring

/-- The value is the weighted sum of squared residuals of the data which are used plus the punishments, if configurations which
do not use stresses have vanishing reference stresses.  Missing: the code counts them otherwise (`C85_stress_violated`). -/
theorem C85_objective_partial (b : Build) (P : AngPots K) (E : Elec K) (ew sw w : K) (qs : List (Bound K))
    (eopp univ : List (Nat × K)) (confs : List (Conf K)) (hn : Numbered confs) (hi : ∀ c ∈ confs, Inside c)
    (hs : StressesUsed b confs) (v v' : PairVec K) (y : K)
    (hr : angElObjective b P E ew sw w qs eopp univ confs v = .ok (v', y)) :
    y = (confs.zipIdx.map fun ck => residualError b ew sw v'.fv ck.2 ck.1).sum +
      if b.apot = true then totalPenalty w qs eopp univ else 0 := by
  rw [C85_objective b P E ew sw w qs eopp univ confs hn hi v v' y hr]
  have : (confs.map fun c => if b.stress = true ∧ ¬ (c.uf = true ∧ c.us = true) then
        c.weight * sw * ∑ k : Fin 6, c.stress0 k ^ 2 else 0).sum = 0 := by
    apply List.sum_eq_zero
    intro z hz
    obtain ⟨c, hc, rfl⟩ := List.mem_map.1 hz
    exact stressOffset_used hs sw hc
  rw [this, add_zero]

/-- No forces are left for configurations which do not use them. -/
theorem C85_unused (b : Build) (P : AngPots K) (E : Elec K) (ew sw : K) (ci : Nat) (c : Conf K) (hc : Inside c) (hu : c.uf = false)
    (fv : FV K) (a : Nat) (h1 : c.start ≤ a) (h2 : a < c.start + c.atoms.length) :
    (angElConf b P E ew sw ci c fv).1.force a = 0 := by
  obtain ⟨e, F, S, hF, -, hq⟩ := angElConf_result b P E ew sw c hc
  have hka : c.atoms[a - c.start]? = some (c.atoms[a - c.start]'(by omega)) := List.getElem?_eq_getElem (by omega)
  funext x
  have := (hq ci fv).2.1 _ _ hka x
  rw [show c.start + (a - c.start) = a by omega] at this
  rw [this, hF hu, hu]
  simp

/-- Parallel evaluation returns the serial result. -/
theorem C85_parallel (b : Build) (pots : AngPots K) (E : Elec K) (ew sw : K) (confs : List (Conf K)) (hn : Numbered confs)
    (hi : ∀ c ∈ confs, Inside c) (P : Nat) (hP : 0 < P) (d : Mpi.Dist)
    (hd : Mpi.distribute (inconf confs) confs.length P = some d) (init : Nat → FV K) (init0 : FV K) :
    let par := parallelRun b FV.get (angElConf b pots E ew sw) d P confs init
    let ser := serialRun FV.get (angElConf b pots E ew sw) confs init0
    par.2 = ser.2 ∧ ∀ x, ResultCell b false confs x → par.1 x = ser.1 x :=
  writes_parallel b false _ (fun c hc => angElConf_writes b pots E ew sw c hc) confs hn hi P hP d hd init init0

/-- The value and all entries do not depend on what the force vector contained. -/
theorem C85_no_memory (b : Build) (P : AngPots K) (E : Elec K) (ew sw w : K) (qs : List (Bound K)) (eopp univ : List (Nat × K))
    (confs : List (Conf K)) (hn : Numbered confs) (hi : ∀ c ∈ confs, Inside c) (v₁ v₂ : PairVec K) :
    (angElObjective b P E ew sw w qs eopp univ confs v₁).map Prod.snd =
      (angElObjective b P E ew sw w qs eopp univ confs v₂).map Prod.snd ∧
    ∀ v₁' v₂' y₁ y₂, angElObjective b P E ew sw w qs eopp univ confs v₁ = .ok (v₁', y₁) →
      angElObjective b P E ew sw w qs eopp univ confs v₂ = .ok (v₂', y₂) →
      ∀ x, ResultCell b false confs x → v₁'.fv.get x = v₂'.fv.get x :=
  sum_memory b _ _ w qs eopp univ (fun c hc => angElConf_writes b P E ew sw c hc) confs hn hi v₁ v₂

end

/-! ### Forces and stresses -/

/-- Distances at which the tail of the electrostatic interaction, cut off, is differentiable with the slope used. -/
def ChargeSmooth (E : Elec ℝ) (f : Conf ℝ) (ts : List Node) (x : Nat → V3 ℝ) : Prop :=
  ∀ j n, ts[j]? = some n → ∀ l ∈ n.links, TailSmooth false E (length (reach x (f.start + j) l))

theorem angEl_leaves (b : Build) (P : AngPots ℝ) (E : Elec ℝ) (ew sw : ℝ) (ci : Nat) (fv : FV ℝ) (c : Conf ℝ) (hu : c.uf = true) :
    Leaves b (fun c => (angElConf b P E ew sw ci c fv).1) ci (angElSite P E) (angElForceSum P E) (angElStress P E) c := by
  have hp := atomLoop_plus (angElAtom b P E c) _ _ _ (angElAtom_plus b P E c hu) c.atoms c.start ⟨resetForces c fv.force, 0, 0, 0⟩
  have hc := angElConf_eq b P E ew sw ci c fv _ _ _ (fun h => by rw [hu] at h; cases h) hp
  obtain ⟨h1, h2, h3⟩ := always_spec b _ _ _ _ ew sw c fv rfl
  simp only at hc
  refine ⟨?_, ?_, ?_⟩
  · show (angElConf b P E ew sw ci c fv).1.energy ci = _
    rw [hc]
    show Function.update _ _ _ _ = _
    rw [Function.update_self, h1]
    have e : (fun i a => sumEnergy (angElSite P E i a)) = fun i a => angElEnergy P E i a + -(E.selfCoef * E.charge a.typ ^ 2) := by
      funext i a
      exact angElSite_energy P E i a
    rw [e, overAtoms_self]
    rfl
  · show ∀ j a, c.atoms[j]? = some a → ∀ k, (angElConf b P E ew sw ci c fv).1.force (c.start + j) k = _
    rw [hc]
    exact h2 hu
  · intro hb hs k
    show (angElConf b P E ew sw ci c fv).1.stress ci k = _
    rw [hc]
    show (if b.stress = true then _ else _ : Nat → Fin 6 → ℝ) ci k = _
    rw [if_pos hb, Function.update_self, h3 hb k]
    simp only [hb, hs, Bool.and_self, if_true]
    rfl

theorem angEl_force_sum (P : AngPots ℝ) (E : Elec ℝ) (f : Conf ℝ) (ts : List Node) (x : Nat → V3 ℝ) (hm : Mutual f ts) :
    overAtoms (place f ts x) (angElForceSum P E) =
      fun a => sumForce (termsFrom (angElSite P E) f.start (place f ts x).atoms) a := by
  have e0 : angElForceSum P E = fun i a => angForceSum P i a + (a.neigh.map fun n => pullForce i (coulTerm E i a.typ n).pulls).sum := rfl
  rw [e0, overAtoms_add, ang_force_sum P f ts x hm]
  funext a
  rw [Pi.add_apply, sum_terms_apply, sum_terms_apply]
  have h := overAtoms_terms (place f ts x) (angElSite P E) (fun t => pullForce t.own t.pulls)
  have h' := overAtoms_terms (place f ts x) (angSite P) (fun t => pullForce t.own t.pulls)
  have e : termsFrom (angElSite P E) f.start (place f ts x).atoms =
    termsFrom (angElSite P E) (place f ts x).start (place f ts x).atoms := rfl
  have e' : termsFrom (angSite P) f.start (place f ts x).atoms =
    termsFrom (angSite P) (place f ts x).start (place f ts x).atoms := rfl
  rw [e, e', ← h, ← h', ← Pi.add_apply, ← overAtoms_add]
  refine congrFun ?_ a
  apply overAtoms_congr
  intro j at' _
  simp only [angElSite, List.map_append, List.sum_append, List.map_map, List.map_cons, List.map_nil, List.sum_cons, List.sum_nil,
    selfTerm, pullForce, add_zero]
  rfl

theorem angEl_follows (P : AngPots ℝ) (E : Elec ℝ) (f : Conf ℝ) (ts : List Node) (x : Nat → V3 ℝ) (hs : AngSmooth P f ts x)
    (hE : ChargeSmooth E f ts x) (m : Motion) (hm : m.path m.now = reach x) : Follows m (angElSite P E) f.start ts := by
  intro j n hj
  unfold angElSite
  simp only [sumEnergy_append, sumRate_append]
  refine HasDerivAt.add (ang_follows P f ts x hs m hm j n hj) (HasDerivAt.add ?_ ?_)
  · apply follow_map m (coulTerm E (f.start + j) n.typ)
    intro l hl
    obtain ⟨h0, -⟩ := hs j n hj l hl
    have h1 := hE j n hj l hl
    rw [← hm] at h0 h1
    exact follow_coul m E _ _ l h0 h1
  · have : sumRate m.speed [selfTerm E (f.start + j) (atomAt (m.path m.now (f.start + j)) n)] = 0 := by
      simp [sumRate, selfTerm, Term.rate]
    rw [this]
    exact hasDerivAt_const m.now (sumEnergy [selfTerm E (f.start + j) (atomAt (m.path m.now (f.start + j)) n)])

theorem angEl_stress_sum (P : AngPots ℝ) (E : Elec ℝ) (c : Conf ℝ) (k : Fin 6) :
    overAtoms c (angElStress P E) k = -sumStrain (termsFrom (angElSite P E) c.start c.atoms) (voigt k).2 (voigt k).1 := by
  have e0 : angElStress P E = fun i a => angStress P i a + -(a.neigh.map fun n => plainVirial (coulTerm E i a.typ n).pulls).sum := rfl
  rw [e0, overAtoms_add, Pi.add_apply, ang_stress_sum]
  have h := overAtoms_terms c (angElSite P E) (fun t => t.strain (voigt k).2 (voigt k).1)
  have h' := overAtoms_terms c (angSite P) (fun t => t.strain (voigt k).2 (voigt k).1)
  unfold sumStrain
  rw [← h, ← h']
  unfold overAtoms
  rw [sum_apply_fin, ← listSum_neg, ← listSum_neg, ← sum_add_list]
  congr 1
  apply List.map_congr_left
  intro p _
  unfold angElSite
  simp only [Pi.neg_apply, List.map_append, List.sum_append, List.map_map, sum_apply_fin, List.map_cons, List.map_nil,
    List.sum_cons, List.sum_nil, add_zero]
  have hself : (selfTerm E p.2 p.1).strain (voigt k).2 (voigt k).1 = 0 := by simp [selfTerm, Term.strain]
  rw [hself, add_zero, neg_add]
  congr 2
  congr 1
  apply List.map_congr_left
  intro n _
  exact plainVirial_apply _ k

/-- **C85**: the forces are minus the gradient of the energy. -/
theorem C85_forces (b : Build) (P : AngPots ℝ) (E : Elec ℝ) (ew sw : ℝ) (ci : Nat) (fv : FV ℝ) (f : Conf ℝ) (ts : List Node)
    (x : Nat → V3 ℝ) (hu : f.uf = true) (hm : Mutual f ts) (hs : AngSmooth P f ts x) (hE : ChargeSmooth E f ts x) (j : Nat)
    (n : Node) (hj : ts[j]? = some n) (hw : 0 ≤ n.absforce) (k : Fin 3) :
    HasDerivAt (fun t => reportedEnergy (fun c => (angElConf b P E ew sw ci c fv).1) ci (place f ts (moved x (f.start + j) k t)))
      (-reportedForce b (angElConf b P E ew sw ci (place f ts x) fv).1 f n.absforce (f.start + j) k) (x (f.start + j) k) :=
  conservative_force (res := fun c => (angElConf b P E ew sw ci c fv).1)
    (fun rf => angEl_leaves b P E ew sw ci fv (placeWith f ts rf) hu) (angEl_force_sum P E f ts x hm)
    (fun a k => angEl_follows P E f ts x hs hE _ (moving_path x a k)) j n hj hw k

/-- The forces on the atoms of a configuration add up to zero. -/
theorem C85_balance (b : Build) (P : AngPots ℝ) (E : Elec ℝ) (ew sw : ℝ) (ci : Nat) (fv : FV ℝ) (f : Conf ℝ) (ts : List Node)
    (x : Nat → V3 ℝ) (hu : f.uf = true) (hm : Mutual f ts) (hw : ∀ n ∈ ts, 0 ≤ n.absforce) (k : Fin 3) :
    (ts.zipIdx.map fun p => reportedForce b (angElConf b P E ew sw ci (place f ts x) fv).1 f p.1.absforce
      (f.start + p.2) k).sum = 0 := by
  apply conservative_balance (res := fun c => (angElConf b P E ew sw ci c fv).1)
    (fun rf => angEl_leaves b P E ew sw ci fv (placeWith f ts rf) hu) (angEl_force_sum P E f ts x hm) hm _ hw k
  intro i a t ht
  simp only [angElSite, angSite, List.mem_append, List.mem_map, List.mem_singleton] at ht
  rcases ht with (⟨n, hn, rfl⟩ | ⟨p, hp, rfl⟩) | ⟨n, hn, rfl⟩ | rfl
  · exact ⟨rfl, pairTerm_pulls hn⟩
  · exact ⟨rfl, angTerm_pulls hp⟩
  · refine ⟨rfl, ?_⟩
    intro q hq
    simp only [coulTerm, List.mem_singleton] at hq
    rw [hq]; exact hn
  · refine ⟨rfl, ?_⟩
    intro q hq
    simp [selfTerm] at hq

/-- The stresses are minus the derivative of the energy with respect to strain, per volume. -/
theorem C85_stress (b : Build) (P : AngPots ℝ) (E : Elec ℝ) (ew sw : ℝ) (ci : Nat) (fv : FV ℝ) (f : Conf ℝ) (ts : List Node)
    (x : Nat → V3 ℝ) (hu : f.uf = true) (hb : b.stress = true) (hus : f.us = true) (hv : f.vol ≠ 0) (hne : ts ≠ [])
    (hs : AngSmooth P f ts x) (hE : ChargeSmooth E f ts x) (k : Fin 6) :
    HasDerivAt (fun e => reportedEnergy (fun c => (angElConf b P E ew sw ci c fv).1) ci
        (placeStrained f ts x (voigt k).2 (voigt k).1 e))
      (-reportedVirial (angElConf b P E ew sw ci (place f ts x) fv).1 ci f k) 0 :=
  conservative_stress (res := fun c => (angElConf b P E ew sw ci c fv).1)
    (fun rf => angEl_leaves b P E ew sw ci fv (placeWith f ts rf) hu) hne hb hus hv _ _ k
    (angEl_stress_sum P E (place f ts x) k) (angEl_follows P E f ts x hs hE _ (straining_path x _ _))

theorem program_chargeSmooth (P : AngPots ℝ) (dsf : Bool) (cut kappa : ℝ) (hc : cut ≠ 0) (q alpha b c : Nat → ℝ) (mix tol : ℝ)
    (f : Conf ℝ) (ts : List Node) (x : Nat → V3 ℝ) (hs : AngSmooth P f ts x) :
    ChargeSmooth (progElec false dsf cut kappa q alpha b c mix tol) f ts x :=
  fun j n hj l hl => progElec_smooth false dsf (by simp) cut kappa hc q alpha b c mix tol _ (hs j n hj l hl).1

/-- With the tails of the program (shifted, or `DSF`) nothing is required of the charges and the cutoff but that it is not
0: forces. -/
theorem C85_forces_program (bd : Build) (P : AngPots ℝ) (dsf : Bool) (cut kappa : ℝ) (hc : cut ≠ 0) (q alpha b c : Nat → ℝ)
    (mix tol ew sw : ℝ) (ci : Nat) (fv : FV ℝ) (f : Conf ℝ) (ts : List Node) (x : Nat → V3 ℝ) (hu : f.uf = true)
    (hm : Mutual f ts) (hs : AngSmooth P f ts x) (j : Nat) (n : Node) (hj : ts[j]? = some n) (hw : 0 ≤ n.absforce) (k : Fin 3) :
    let E := progElec false dsf cut kappa q alpha b c mix tol
    HasDerivAt (fun t => reportedEnergy (fun c => (angElConf bd P E ew sw ci c fv).1) ci (place f ts (moved x (f.start + j) k t)))
      (-reportedForce bd (angElConf bd P E ew sw ci (place f ts x) fv).1 f n.absforce (f.start + j) k) (x (f.start + j) k) :=
  C85_forces bd P _ ew sw ci fv f ts x hu hm hs (program_chargeSmooth P dsf cut kappa hc q alpha b c mix tol f ts x hs) j n hj hw k

/-- Stresses likewise. -/
theorem C85_stress_program (bd : Build) (P : AngPots ℝ) (dsf : Bool) (cut kappa : ℝ) (hc : cut ≠ 0) (q alpha b c : Nat → ℝ)
    (mix tol ew sw : ℝ) (ci : Nat) (fv : FV ℝ) (f : Conf ℝ) (ts : List Node) (x : Nat → V3 ℝ) (hu : f.uf = true)
    (hb : bd.stress = true) (hus : f.us = true) (hv : f.vol ≠ 0) (hne : ts ≠ []) (hs : AngSmooth P f ts x) (k : Fin 6) :
    let E := progElec false dsf cut kappa q alpha b c mix tol
    HasDerivAt (fun e => reportedEnergy (fun c => (angElConf bd P E ew sw ci c fv).1) ci
        (placeStrained f ts x (voigt k).2 (voigt k).1 e))
      (-reportedVirial (angElConf bd P E ew sw ci (place f ts x) fv).1 ci f k) 0 :=
  C85_stress bd P _ ew sw ci fv f ts x hu hb hus hv hne hs
    (program_chargeSmooth P dsf cut kappa hc q alpha b c mix tol f ts x hs) k

/-! ### Examples -/

/-- Charges for the examples: the interaction is `2 - r` up to 2. -/
def cornerElec : Elec ℚ where
  cut := 2
  charge := fun _ => 3
  alpha := fun _ => 0
  b := fun _ => 0
  c := fun _ => 0
  tail := fun r => ⟨2 - r, -1 / r, 0⟩
  srValue := fun _ _ _ _ => 0
  srTerm := fun _ _ _ => 0
  selfCoef := 5
  mix := 0
  tol := 0
  sqrt := fun x => x

/-- The reference stress of a configuration which does not use stresses changes the value. -/
theorem C85_stress_violated : ∃ (b : Build) (P : AngPots ℚ) (E : Elec ℚ) (c : Conf ℚ) (v v' : PairVec ℚ) (y : ℚ),
    Inside c ∧ c.uf = false ∧ c.us = true ∧ angElObjective b P E 1 1 1 [] [] [] [c] v = .ok (v', y) ∧
    y ≠ residualError b 1 1 v'.fv 0 c :=
  ⟨⟨true, false, false, false, false, false⟩, cornerAng, cornerElec, cornerConf false true 1 1, ⟨⟨0, 0, 0, 0⟩, 0, 0⟩, _, _,
    corner_inside _ _ _ _, rfl, rfl, rfl, by decide +kernel⟩

/-- Energy of the corner: pair functions `½ · 4`, charges `½ · 4 · 9`, one angle `1 · 1 · 2`, self energy `3 · 5 · 9`. -/
example : (angElConf ⟨true, false, false, false, false, false⟩ cornerAng cornerElec 1 1 0 (cornerConf true true 0 1)
    ⟨0, 0, 0, 0⟩).1.energy 0 = (2 + 18 + 2 - 135) / 3 := by decide +kernel

/-- Force on atom 1 along `x`: pair function 1, charges 9, angle 2. -/
example : (angElConf ⟨true, false, false, false, false, false⟩ cornerAng cornerElec 1 1 0 (cornerConf true true 0 1)
    ⟨0, 0, 0, 0⟩).1.force 1 0 = 1 + 9 + 2 := by decide +kernel

/-- The molecule with the tails of the program meets the hypotheses of the theorems on forces and stresses. -/
example : AngSmooth anglePots triangleConf triangle trianglePos ∧ Mutual triangleConf triangle ∧
    ChargeSmooth (progElec false true 3 (1 / 10) (fun _ => 1) 0 0 0 0 0) triangleConf triangle trianglePos ∧
    triangleConf.uf = true ∧ triangleConf.us = true ∧ triangleConf.vol ≠ 0 ∧ triangle ≠ [] :=
  ⟨angle_smooth, triangle_mutual, program_chargeSmooth anglePots true 3 (1 / 10) (by norm_num) _ _ _ _ _ _ _ _ _ angle_smooth,
    rfl, rfl, one_ne_zero, by simp [triangle]⟩

/-- The configurations of the theorem on the objective. -/
example : Inside (cornerConf true true 1 2) ∧ Numbered [cornerConf true true 1 2] ∧
    StressesUsed ⟨true, false, false, false, false, false⟩ [cornerConf true true 1 2] :=
  ⟨corner_inside _ _ _ _, corner_numbered _ _ _ _, by
    intro c hc _ h
    simp only [List.mem_singleton] at hc
    subst hc
    exact absurd ⟨rfl, rfl⟩ h⟩

end Verif.Props
