/-
C123  The file of local electron densities after evaluations with angle-dependent potentials, two bands and electrostatics.
-/
import Verif.Props.C123
import Verif.Props.C66
import Verif.Props.C74More
import Verif.Lemmas.AdpConf
import Verif.Lemmas.ForceTbeam
import Verif.Lemmas.ForceEamElstat

set_option linter.unusedSectionVars false

namespace Verif.Props

open Verif.Force Verif.Spec

variable {K : Type*} [Field K] [LinearOrder K] [IsStrictOrderedRing K]

/-- An evaluation which sets the cells of the atoms of each configuration and no others leaves every atom its value. -/
theorem confLoop_cells {τ ε : Type*} [Add ε] (one : Nat → Conf K → τ → τ × ε) (get : τ → Nat → K) (val : Conf K → Nat → Atom K → K) :
    ∀ (confs : List (Conf K)) (off ci : Nat) (s : τ × ε), Starts off confs →
      (∀ c ∈ confs, ∀ (ci : Nat) (s : τ), (∀ (k : Nat) (a : Atom K), c.atoms[k]? = some a → get (one ci c s).1 (c.start + k) = val c k a) ∧
        ∀ x, (x < c.start ∨ c.start + c.atoms.length ≤ x) → get (one ci c s).1 x = get s x) →
      (∀ (k : Nat) (c : Conf K), confs[k]? = some c → ∀ (j : Nat) (a : Atom K), c.atoms[j]? = some a →
        get (confLoop one confs ci s).1 (c.start + j) = val c j a) ∧
      ∀ x < off, get (confLoop one confs ci s).1 x = get s.1 x := by
  intro confs
  induction confs with
  | nil => intro off ci s _ _; exact ⟨fun k c hk => by simp at hk, fun x _ => rfl⟩
  | cons c cs ih =>
    intro off ci s hs h
    obtain ⟨h1, h2⟩ := ih (off + c.atoms.length) (ci + 1) ((one ci c s.1).1, s.2 + (one ci c s.1).2) hs.2
      fun c hc => h c (List.mem_cons_of_mem _ hc)
    obtain ⟨g1, g2⟩ := h c List.mem_cons_self ci s.1
    rw [confLoop]
    refine ⟨?_, ?_⟩
    · intro k c' hk j a hj
      cases k with
      | zero =>
        obtain rfl : c = c' := by simpa using hk
        have hlt : j < c.atoms.length := (List.getElem?_eq_some_iff.1 hj).1
        rw [h2 _ (by rw [hs.1]; omega)]
        exact g1 j a hj
      | succ k => exact h1 k c' (by simpa using hk) j a hj
    · intro x hx
      rw [h2 x (by omega)]
      exact g2 x (Or.inl (by rw [hs.1]; exact hx))

/-- The claim for a field of densities `rho` in memory: lines and means as `C123_file_partial`. -/
def ListsDensities (b : Build) (P : EamPots K) (confs : List (Conf K)) (rho : Nat → K) : Prop :=
  (rhoRows confs rho).length = (confs.map fun c => c.atoms.length).sum ∧
  (∀ (k : Nat) (c : Conf K), confs[k]? = some c → ∀ (j : Nat) (a : Atom K), c.atoms[j]? = some a →
    (rhoRows confs rho)[c.start + j]? = some ⟨c.start + j, a.typ, listedDensity b P c j a⟩) ∧
  ∀ t < P.ntypes, 0 < atomsOfType confs t →
    (rhoMeans P.ntypes (atomsOfType confs) (rhoRows confs rho))[t]? =
      some (some (sumOfType confs (listedDensity b P) t / (atomsOfType confs t : K)))

theorem listsDensities_of (b : Build) (P : EamPots K) (confs : List (Conf K)) (hn : Numbered confs) (rho : Nat → K)
    (h : ∀ (k : Nat) (c : Conf K), confs[k]? = some c → ∀ (j : Nat) (a : Atom K), c.atoms[j]? = some a →
      rho (c.start + j) = (embedAt b P c j a).rho) : ListsDensities b P confs rho := by
  have hrho : ∀ (k : Nat) (c : Conf K), confs[k]? = some c → ∀ (j : Nat) (a : Atom K), c.atoms[j]? = some a →
      rho (c.start + j) = listedDensity b P c j a := by
    intro k c hk j a hj
    rw [h k c hk j a hj]
    unfold embedAt listedDensity
    rw [embed_rho]
  refine ⟨rhoRows_length confs _, ?_, ?_⟩
  · intro k c hk j a hj
    rw [rhoRows_at confs hn _ hk hj, hrho k c hk j a hj]
  · intro t ht h0
    unfold rhoMeans
    rw [List.getElem?_map, List.getElem?_range ht, Option.map_some, totDens_eq confs hn _ _ hrho]
    unfold shown
    rw [if_neg (Nat.cast_ne_zero.2 h0.ne')]

/-- **C123, angle-dependent potentials.** -/
theorem C123_adp_partial (b : Build) (P : EamPots K) (ew sw w : K) (qs : List (Bound K)) (eopp univ : List (Nat × K)) (dummy0 : Nat → K)
    (natoms : Nat) (confs : List (Conf K)) (hn : Numbered confs) (hh : ∀ c ∈ confs, HalfList c ∧ EamColumns P c ∧ Aligned c)
    (v v' : AdpVec K) (y : K) (hr : adpObjective b P ew sw w qs eopp univ dummy0 natoms confs v = .ok (v', y)) :
    ListsDensities b P confs v'.st.rho := by
  have hrun : v'.st = (confLoop (adpConf b P ew sw) confs 0 (v.st, (0, 0))).1 := by
    unfold adpObjective at hr
    by_cases hb : b.apot = true
    · simp only [if_pos hb] at hr
      cases hp : apotPunish w qs eopp univ v.par v.pot with
      | error e => simp [hp, bind, Except.bind] at hr
      | ok p =>
        simp only [hp, bind, Except.bind, Except.ok.injEq, Prod.mk.injEq] at hr
        rw [← hr.1]
    · simp only [if_neg hb, Except.ok.injEq, Prod.mk.injEq] at hr
      rw [← hr.1]
  rw [hrun]
  refine listsDensities_of b P confs hn _ (confLoop_cells (adpConf b P ew sw) AdpState.rho (fun c j a => (embedAt b P c j a).rho) confs 0 0
    (v.st, (0, 0)) (starts_numbered hn) ?_).1
  intro c hc ci s
  obtain ⟨h1, h2, h3⟩ := hh c hc
  have := adpConf_spec b P ew sw ci c h1 h2 h3 s
  exact ⟨fun k a hk => (this.2.1 k a hk).1, fun x hx => (this.2.2.1 x hx).2.1⟩

/-- **C123, two bands**: the file lists the densities of the first band only. -/
theorem C123_tbeam_partial (b : Build) (P : EamPots K) (ew sw w : K) (qs : List (Bound K)) (eopp univ : List (Nat × K)) (dummy0 : Nat → K)
    (natoms : Nat) (confs : List (Conf K)) (hn : Numbered confs) (hh : ∀ c ∈ confs, HalfList c ∧ EamColumns P c)
    (v v' : TbVec K) (y : K) (hr : tbObjective b P ew sw w qs eopp univ dummy0 natoms confs v = .ok (v', y)) :
    ListsDensities b P confs v'.st.rho := by
  have hrun : v'.st = (confLoop (tbConf b P ew sw) confs 0 (v.st, (0, 0, 0))).1 := by
    unfold tbObjective at hr
    by_cases hb : b.apot = true
    · simp only [if_pos hb] at hr
      cases hp : apotPunish w qs eopp univ v.par v.pot with
      | error e => simp [hp, bind, Except.bind] at hr
      | ok p =>
        simp only [hp, bind, Except.bind, Except.ok.injEq, Prod.mk.injEq] at hr
        rw [← hr.1]
    · simp only [if_neg hb, Except.ok.injEq, Prod.mk.injEq] at hr
      rw [← hr.1]
  rw [hrun]
  refine listsDensities_of b P confs hn _ (confLoop_cells (tbConf b P ew sw) TbState.rho (fun c j a => (embedAt b P c j a).rho) confs 0 0
    (v.st, (0, 0, 0)) (starts_numbered hn) ?_).1
  intro c hc ci s
  obtain ⟨h1, h2⟩ := hh c hc
  have := tbConf_spec b P ew sw ci c h1 h2 s
  exact ⟨fun k a hk => (this.2.1 k a hk).1, fun x hx => (this.2.2.1 x hx).2.1⟩

/-- **C123, electron densities and electrostatics.** This routine moves the densities into the range of the embedding function with and without
`RESCALE`. -/
theorem C123_elstat_partial (b : Build) (dip : Bool) (P : EamPots K) (E : Elec K) (ew sw w : K) (qs : List (Bound K)) (eopp univ : List (Nat × K))
    (dummy0 : Nat → K) (confs : List (Conf K)) (hn : Numbered confs) (hh : ∀ c ∈ confs, HalfList c ∧ EamColumns P c ∧ Aligned c)
    (hd : dip = true → ∀ c ∈ confs, TypesMatch c ∧ PolarCharged E c ∧ SamePolar E c)
    (v v' : EeVector K) (y : K) (hr : eeObjective b dip P E ew sw w qs eopp univ dummy0 confs v = .ok (v', y)) :
    ListsDensities b.clamped P confs v'.st.rho := by
  have hrun : v'.st = (confLoop (eeConf b dip P E ew sw) confs 0 (v.st, (0, 0))).1 := by
    unfold eeObjective at hr
    by_cases hb : b.apot = true
    · simp only [if_pos hb] at hr
      cases hp : apotPunish w qs eopp univ v.par v.pot with
      | error e => simp [hp, bind, Except.bind] at hr
      | ok p =>
        simp only [hp, bind, Except.bind, Except.ok.injEq, Prod.mk.injEq] at hr
        rw [← hr.1]
    · simp only [if_neg hb, Except.ok.injEq, Prod.mk.injEq] at hr
      rw [← hr.1]
  rw [hrun]
  refine listsDensities_of b.clamped P confs hn _ (confLoop_cells (eeConf b dip P E ew sw) EeState.rho
    (fun c j a => (embedAt b.clamped P c j a).rho) confs 0 0 (v.st, (0, 0)) (starts_numbered hn) ?_).1
  intro c hc ci s
  obtain ⟨h1, h2, h3⟩ := hh c hc
  have := eeConf_spec b dip P E ew sw ci c h1 h2 h3 (fun h => (hd h c hc).1) (fun h => (hd h c hc).2.1) (fun h => (hd h c hc).2.2) s
  exact ⟨fun k a hk => this.2.1 k a hk, fun x hx => (this.2.2.1 x hx).2.1⟩

/-- The configurations of the example and the three routines: densities 21, 4 and 0, with electrostatics 10 (end of the range), 4 and 0. -/
example : (∀ c ∈ [exConf, exConf2], HalfList c ∧ EamColumns exPots c ∧ Aligned c) ∧
    (∀ c ∈ [exConf, exConf2], TypesMatch c ∧ PolarCharged bothPolar c ∧ SamePolar bothPolar c) ∧
    (match adpObjective exBuild exPots 1 1 1 [] [] [] (fun _ => 0) 3 [exConf, exConf2] ⟨⟨⟨0, 0, 0, 0⟩, 7, 0, 0, 0, 0⟩, 0, 0, 0⟩ with
      | .ok (v', _) => decide ((rhoRows [exConf, exConf2] v'.st.rho).map (fun r => r.rho) = [21, 4, 0]) | .error _ => false) = true ∧
    (match tbObjective exBuild exPots 1 1 1 [] [] [] (fun _ => 0) 3 [exConf, exConf2] ⟨⟨⟨0, 0, 0, 0⟩, 7, 0, 7, 0⟩, 0, 0, 0⟩ with
      | .ok (v', _) => decide ((rhoRows [exConf, exConf2] v'.st.rho).map (fun r => r.rho) = [21, 4, 0]) | .error _ => false) = true ∧
    (match eeObjective exBuild true exPots bothPolar 1 1 1 [] [] [] (fun _ => 0) [exConf, exConf2]
        ⟨⟨⟨0, 0, 0, 0⟩, ⟨0, 0, 0, 0, 0⟩, 7, 0⟩, 0, 0, 0⟩ with
      | .ok (v', _) => decide ((rhoRows [exConf, exConf2] v'.st.rho).map (fun r => r.rho) = [10, 4, 0]) | .error _ => false) = true := by
  refine ⟨?_, ?_, by decide +kernel, by decide +kernel, by decide +kernel⟩
  · intro c hc
    simp only [List.mem_cons, List.not_mem_nil, or_false] at hc
    rcases hc with rfl | rfl
    · exact ⟨exConf_half, exConf_cols, by unfold Aligned; decide +kernel⟩
    · exact ⟨exConf2_half, exConf2_cols, by unfold Aligned; decide +kernel⟩
  · unfold TypesMatch PolarCharged SamePolar
    decide +kernel

/-- **C123 is violated with electrostatics, also without `RESCALE`**: 10, the end of the range of the embedding function, for an atom with
density 21. -/
theorem C123_elstat_violated : ∃ v' y r, exBuild.rescale = false ∧
    eeObjective exBuild false exPots oneE 1 1 1 [] [] [] (fun _ => 0) [exConf, exConf2] ⟨⟨⟨0, 0, 0, 0⟩, ⟨0, 0, 0, 0, 0⟩, 0, 0⟩, 0, 0, 0⟩ =
      .ok (v', y) ∧
    (rhoRows [exConf, exConf2] v'.st.rho)[0]? = some r ∧ r.rho = 10 ∧ totalDensity exPots exConf 0 = 21 :=
  ⟨_, _, _, rfl, rfl, rfl, by decide +kernel, by decide +kernel⟩

end Verif.Props
