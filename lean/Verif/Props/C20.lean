/-
C20  Objective evaluation has no memory.

Holds for the value, and for all force, energy, stress, limit and gauge entries, of the pair and EAM routines.
Violated by the punishment entries of the force vector (never reset) and by the KIM routine (forces not reset,
parameters equal to the initial ones not handed over).
-/
import Verif.Lemmas.ForceRun
import Verif.Lemmas.ForceExample
import Verif.Model.ForceKim

namespace Verif.Props

open Verif.Force Verif.Spec

variable {K : Type*} [Field K] [LinearOrder K] [IsStrictOrderedRing K]

omit [IsStrictOrderedRing K] in
theorem punishPars_sum_congr (qs : List (Bound K)) : ∀ (i : Nat) (s t : Pun K), s.sum = t.sum →
    (punishPars qs i s).sum = (punishPars qs i t).sum := by
  induction qs with
  | nil => intro i s t h; exact h
  | cons q qs ih =>
    intro i s t h
    simp only [punishPars]
    apply ih
    unfold punishPar
    split
    · simp [h]
    · split
      · simp [h]
      · exact h

omit [IsStrictOrderedRing K] in
theorem punishEopp_sum_congr (w : K) (l : List (Nat × K)) : ∀ (s t : Pun K), s.sum = t.sum →
    (l.foldl (punishEopp w) s).sum = (l.foldl (punishEopp w) t).sum := by
  induction l with
  | nil => intro s t h; exact h
  | cons q l ih =>
    intro s t h
    simp only [List.foldl_cons]
    apply ih
    unfold punishEopp
    split
    · simp [h]
    · exact h

omit [IsStrictOrderedRing K] in
theorem punishUniversal_sum_congr (w : K) (l : List (Nat × K)) : ∀ (s t : Pun K), s.sum = t.sum →
    (l.foldlM (punishUniversal w) s).map Pun.sum = (l.foldlM (punishUniversal w) t).map Pun.sum := by
  induction l with
  | nil => intro s t h; simpa [pure, Except.pure, Except.map] using h
  | cons q l ih =>
    intro s t h
    simp only [List.foldlM_cons]
    have : ∀ s : Pun K, punishUniversal w s q = if q.2 < 1 / 1000000 then
        (cdiv w (q.2 * q.2)).bind fun v => .ok { s with pot := Function.update s.pot q.1 v, sum := s.sum + v }
        else .ok s := fun s => rfl
    rw [this s, this t]
    split
    · cases hd : cdiv w (q.2 * q.2) with
      | error e => rfl
      | ok v =>
        simp only [Except.bind, bind]
        exact ih _ _ (by simp [h])
    · simp only [bind, Except.bind]
      exact ih _ _ h

omit [IsStrictOrderedRing K] in
theorem apotPunish_sum_congr (w : K) (qs : List (Bound K)) (eopp univ : List (Nat × K))
    (par pot par' pot' : Nat → K) :
    (apotPunish w qs eopp univ par pot).map Pun.sum = (apotPunish w qs eopp univ par' pot').map Pun.sum := by
  unfold apotPunish
  exact punishUniversal_sum_congr w univ _ _
    (punishEopp_sum_congr w eopp _ _ (punishPars_sum_congr qs 0 _ _ rfl))

/-- Pair potentials: the returned value (or fault) does not depend on the previous content of the force
vector, nor does any force, energy or stress entry. -/
theorem C20_pair (b : Build) (P : Pots K) (ew sw w : K) (qs : List (Bound K)) (eopp univ : List (Nat × K))
    (confs : List (Conf K)) (hn : Numbered confs) (hh : ∀ c ∈ confs, HalfList c) (v₁ v₂ : PairVec K) :
    (pairObjective b P ew sw w qs eopp univ confs v₁).map Prod.snd =
      (pairObjective b P ew sw w qs eopp univ confs v₂).map Prod.snd ∧
    ∀ v₁' v₂' y₁ y₂, pairObjective b P ew sw w qs eopp univ confs v₁ = .ok (v₁', y₁) →
      pairObjective b P ew sw w qs eopp univ confs v₂ = .ok (v₂', y₂) →
      ∀ x, ResultCell b false confs x → v₁'.fv.get x = v₂'.fv.get x := by
  have hg : ∀ k c, confs[k]? = some c → (fun (_ : Nat) c => HalfList c) k c :=
    fun k c hk => hh c (List.mem_of_getElem? hk)
  have herr : ∀ v : FV K, (confLoop (pairConf b P ew sw) confs 0 (v, 0)).2 =
      (confLoop (pairConf b P ew sw) confs 0 (v₁.fv, 0)).2 := by
    intro v
    rw [confLoop_err (pairConf_local b P ew sw) confs 0 _ (by simpa using hg),
      confLoop_err (pairConf_local b P ew sw) confs 0 _ (by simpa using hg)]
  refine ⟨?_, ?_⟩
  · unfold pairObjective
    by_cases hb : b.apot = true
    · rw [if_pos hb, if_pos hb]
      have := apotPunish_sum_congr w qs eopp univ v₁.par v₁.pot v₂.par v₂.pot
      cases h1 : apotPunish w qs eopp univ v₁.par v₁.pot <;>
        cases h2 : apotPunish w qs eopp univ v₂.par v₂.pot <;>
        simp only [h1, h2, Except.map, Except.ok.injEq, Except.error.injEq, reduceCtorEq] at this
      · simp [bind, Except.bind, Except.map, this]
      · simp only [bind, Except.bind, Except.map, this, herr v₂.fv]
    · rw [if_neg hb, if_neg hb]
      simp only [Except.map, herr v₂.fv]
  · intro v₁' v₂' y₁ y₂ h1 h2 x hx
    have hv : ∀ (v v' : PairVec K) (y : K), pairObjective b P ew sw w qs eopp univ confs v = .ok (v', y) →
        v'.fv = (confLoop (pairConf b P ew sw) confs 0 (v.fv, 0)).1 := by
      intro v v' y hr
      unfold pairObjective at hr
      by_cases hb : b.apot = true
      · rw [if_pos hb] at hr
        cases hp : apotPunish w qs eopp univ v.par v.pot with
        | error e => simp [hp, bind, Except.bind] at hr
        | ok p =>
          simp only [hp, bind, Except.bind, Except.ok.injEq, Prod.mk.injEq] at hr
          rw [← hr.1]
      · rw [if_neg hb] at hr
        simp only [Except.ok.injEq, Prod.mk.injEq] at hr
        rw [← hr.1]
    rw [hv _ _ _ h1, hv _ _ _ h2]
    obtain ⟨k, c, hk, ho⟩ := resultCell_owner hn hx
    rw [loop_cell (pairConf_local b P ew sw) confs hg hn _ k c hk x ho,
      loop_cell (pairConf_local b P ew sw) confs hg hn _ k c hk x ho]

/-- EAM potentials: the same, including limiting and gauge constraints. -/
theorem C20_eam (b : Build) (P : EamPots K) (ew sw w : K) (qs : List (Bound K)) (eopp univ : List (Nat × K))
    (dummy0 : Nat → K) (natoms : Nat) (confs : List (Conf K)) (hn : Numbered confs)
    (hh : ∀ c ∈ confs, HalfList c ∧ EamColumns P c) (v₁ v₂ : EamVec K) :
    (eamObjective b P ew sw w qs eopp univ dummy0 natoms confs v₁).map Prod.snd =
      (eamObjective b P ew sw w qs eopp univ dummy0 natoms confs v₂).map Prod.snd ∧
    ∀ v₁' v₂' y₁ y₂, eamObjective b P ew sw w qs eopp univ dummy0 natoms confs v₁ = .ok (v₁', y₁) →
      eamObjective b P ew sw w qs eopp univ dummy0 natoms confs v₂ = .ok (v₂', y₂) →
      (∀ x, ResultCell b true confs x → v₁'.st.get x = v₂'.st.get x) ∧
      (b.noPunish = false → ∀ d < 2 * P.ntypes, v₁'.dummy d = v₂'.dummy d) := by
  have hg : ∀ k c, confs[k]? = some c → (fun (_ : Nat) c => HalfList c ∧ EamColumns P c) k c :=
    fun k c hk => hh c (List.mem_of_getElem? hk)
  have herr : ∀ v : EamState K, (confLoop (eamConf b P ew sw) confs 0 (v, (0, 0))).2 =
      (confLoop (eamConf b P ew sw) confs 0 (v₁.st, (0, 0))).2 := by
    intro v
    rw [confLoop_err (eamConf_local b P ew sw) confs 0 _ (by simpa using hg),
      confLoop_err (eamConf_local b P ew sw) confs 0 _ (by simpa using hg)]
  have hdum : ∀ (x : K) (d d' : Nat → K), (eamDummies b P dummy0 natoms x d).2 =
      (eamDummies b P dummy0 natoms x d').2 := by
    intro x d d'
    unfold eamDummies
    split <;> rfl
  refine ⟨?_, ?_⟩
  · unfold eamObjective
    by_cases hb : b.apot = true
    · rw [if_pos hb, if_pos hb]
      have := apotPunish_sum_congr w qs eopp univ v₁.par v₁.pot v₂.par v₂.pot
      cases h1 : apotPunish w qs eopp univ v₁.par v₁.pot <;>
        cases h2 : apotPunish w qs eopp univ v₂.par v₂.pot <;>
        simp only [h1, h2, Except.map, Except.ok.injEq, Except.error.injEq, reduceCtorEq] at this
      · simp [bind, Except.bind, Except.map, this]
      · simp only [bind, Except.bind, Except.map, this, herr v₂.st, hdum _ v₁.dummy v₂.dummy]
    · rw [if_neg hb, if_neg hb]
      simp only [Except.map, herr v₂.st, hdum _ v₁.dummy v₂.dummy]
  · intro v₁' v₂' y₁ y₂ h1 h2
    have hv : ∀ (v v' : EamVec K) (y : K), eamObjective b P ew sw w qs eopp univ dummy0 natoms confs v =
        .ok (v', y) → v'.st = (confLoop (eamConf b P ew sw) confs 0 (v.st, (0, 0))).1 ∧
          v'.dummy = (eamDummies b P dummy0 natoms
            (confLoop (eamConf b P ew sw) confs 0 (v.st, (0, 0))).2.2 v.dummy).1 := by
      intro v v' y hr
      unfold eamObjective at hr
      by_cases hb : b.apot = true
      · rw [if_pos hb] at hr
        cases hp : apotPunish w qs eopp univ v.par v.pot with
        | error e => simp [hp, bind, Except.bind] at hr
        | ok p =>
          simp only [hp, bind, Except.bind, Except.ok.injEq, Prod.mk.injEq] at hr
          rw [← hr.1]; exact ⟨rfl, rfl⟩
      · rw [if_neg hb] at hr
        simp only [Except.ok.injEq, Prod.mk.injEq] at hr
        rw [← hr.1]; exact ⟨rfl, rfl⟩
    obtain ⟨a1, a2⟩ := hv _ _ _ h1
    obtain ⟨b1, b2⟩ := hv _ _ _ h2
    refine ⟨?_, ?_⟩
    · intro x hx
      rw [a1, b1]
      obtain ⟨k, c, hk, ho⟩ := resultCell_owner hn hx
      rw [loop_cell (eamConf_local b P ew sw) confs hg hn _ k c hk x ho,
        loop_cell (eamConf_local b P ew sw) confs hg hn _ k c hk x ho]
    · intro hp d hd
      rw [a2, b2, herr v₂.st]
      unfold eamDummies
      rw [if_neg (by simp [hp]), if_neg (by simp [hp])]
      simp only [hd, if_true]

/-- The punishment entries do depend on the past: a parameter evaluated outside its bounds leaves its
punishment in the force vector when it is evaluated inside the bounds afterwards. -/
theorem C20_punish_violated :
    ∃ (b : Build) (P : Pots ℚ) (qOut qIn : Bound ℚ) (v v₁ v₂ w : PairVec ℚ) (y₁ y₂ z : ℚ),
      pairObjective b P 1 1 1 [qOut] [] [] [] v = .ok (v₁, y₁) ∧
      pairObjective b P 1 1 1 [qIn] [] [] [] v₁ = .ok (v₂, y₂) ∧
      pairObjective b P 1 1 1 [qIn] [] [] [] v = .ok (w, z) ∧ v₂.par 0 ≠ w.par 0 := by
  refine ⟨{ exBuild with apot := true }, exPots.toPots, ⟨3, 0, 2⟩, ⟨1, 0, 2⟩, ⟨⟨0, 0, 0, 0⟩, 0, 0⟩,
    _, _, _, _, _, _, rfl, rfl, rfl, ?_⟩
  decide +kernel

/-- One atom without images. -/
def kimExConf : KimConf ℚ := ⟨0, [⟨0, [], 1, true⟩], [0], true, false, 1, 1, 1, 1, 0, 0, 0⟩

/-- A model with one parameter: force equal to the parameter. -/
def kimExModel (p : Nat → ℚ) (_ : Nat) : KimResult ℚ := ⟨0, [![p 0, 0, 0]], 0⟩

/-- KIM: evaluating the same parameters a second time gives another value, since the forces of the first
evaluation are still in the vector. -/
theorem C20_kim_force_violated :
    let b : Build := ⟨false, false, false, false, false, false⟩
    let s0 : KimState ℚ := ⟨fun _ => 0, ⟨0, 0, 0, 0⟩, 0⟩
    let r₁ := kimObjective b kimExModel (fun _ => 0) [kimExConf] (fun _ => []) (fun _ => 1) s0
    let r₂ := kimObjective b kimExModel (fun _ => 0) [kimExConf] (fun _ => []) (fun _ => 1) r₁.1
    r₁.2 = 1 ∧ r₂.2 = 4 := by decide +kernel

/-- KIM: after another parameter was evaluated, the initial parameter is not handed to the model again, even if
the force vector is cleared in between. -/
theorem C20_kim_param_violated :
    let b : Build := ⟨false, false, false, false, false, false⟩
    let s0 : KimState ℚ := ⟨fun _ => 5, ⟨0, 0, 0, 0⟩, 0⟩
    let ev := fun (p : ℚ) (s : KimState ℚ) =>
      kimObjective b kimExModel (fun _ => 5) [kimExConf] (fun _ => []) (fun _ => p) s
    (ev 5 s0).2 = 25 ∧ (ev 5 { (ev 1 s0).1 with fv := ⟨0, 0, 0, 0⟩ }).2 = 1 := by decide +kernel

omit [IsStrictOrderedRing K] in
theorem kimConf_congr (b : Build) (compute : Nat → KimResult K) (h : Nat) (c : KimConf K) (f g : FV K)
    (hf : f.force = g.force) : (kimConf b compute h c f).1.force = (kimConf b compute h c g).1.force ∧
    (kimConf b compute h c f).2 = (kimConf b compute h c g).2 := by
  unfold kimConf
  simp only [hf, and_self]

omit [IsStrictOrderedRing K] in
theorem kimLoop_congr (b : Build) (compute : Nat → KimResult K) (cs : List (KimConf K)) :
    ∀ (h : Nat) (f g : FV K × K), f.1.force = g.1.force → f.2 = g.2 →
      (confLoop (kimConf b compute) cs h f).1.force = (confLoop (kimConf b compute) cs h g).1.force ∧
      (confLoop (kimConf b compute) cs h f).2 = (confLoop (kimConf b compute) cs h g).2 := by
  induction cs with
  | nil => intro h f g h1 h2; exact ⟨h1, h2⟩
  | cons c cs ih =>
    intro h f g h1 h2
    simp only [confLoop]
    obtain ⟨e1, e2⟩ := kimConf_congr b compute h c f.1 g.1 h1
    exact ih (h + 1) _ _ e1 (by simp only [h2, e2])

omit [IsStrictOrderedRing K] in
/-- KIM, what does hold: starting from the same content of the force section (for instance a new vector), and
with no parameter equal to its initial value unless the model already has it, the value does not depend on the
past. -/
theorem C20_kim_partial (b : Build) (compute : (Nat → K) → Nat → KimResult K) (cache : Nat → K)
    (confs : List (KimConf K)) (bounds : (Nat → K) → List (Bound K)) (xi : Nat → K) (s t : KimState K)
    (hf : s.fv.force = t.fv.force)
    (hs : ∀ i, xi i = cache i → s.model i = xi i) (ht : ∀ i, xi i = cache i → t.model i = xi i) :
    (kimObjective b compute cache confs bounds xi s).2 = (kimObjective b compute cache confs bounds xi t).2 ∧
    (kimObjective b compute cache confs bounds xi s).1.model = xi := by
  have hm : ∀ u : KimState K, (∀ i, xi i = cache i → u.model i = xi i) →
      kimUpdate cache xi u.model = xi := by
    intro u hu
    funext i
    unfold kimUpdate
    split
    · rfl
    · rename_i h; exact hu i (not_not.1 h)
  unfold kimObjective
  simp only [hm s hs, hm t ht, and_true]
  rw [(kimLoop_congr b (compute xi) confs 0 (s.fv, 0) (t.fv, 0) hf rfl).2,
    punishPars_sum_congr (bounds xi) 0 ⟨s.par, 0, 0⟩ ⟨t.par, 0, 0⟩ rfl]

example : ∀ i, (fun _ : Nat => (1 : ℚ)) i = (fun _ => 0) i → (fun _ : Nat => (3 : ℚ)) i = 1 := by
  intro i h; norm_num at h

end Verif.Props
