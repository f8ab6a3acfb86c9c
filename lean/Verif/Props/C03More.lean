/-
C03 and C20 for the remaining routines with half neighbour lists: ADP, two-band EAM, charges without dipoles, EAM with charges.
Parallel evaluation returns the serial result, and objective evaluation has no memory.
-/
import Verif.Lemmas.OwnEntries
import Verif.Props.C03Full
import Verif.Props.C74More

set_option linter.unusedSectionVars false

namespace Verif.Props

open Verif.Force Verif.Spec Verif.Mpi

variable {K : Type*} [Field K] [LinearOrder K] [IsStrictOrderedRing K]

section
variable {τ ε : Type*} [AddMonoid ε]

/-- Any routine which writes its own entries only. -/
theorem own_parallel (fv : τ → FV K) (b : Build) (lim : Bool) (one : Nat → Conf K → τ → τ × ε) (good : Conf K → Prop)
    (hw : ∀ c, good c → ∃ f e st l r, OwnWrites fv b lim c one f e st l r) (confs : List (Conf K)) (hn : Numbered confs)
    (hi : ∀ c ∈ confs, good c) (P : Nat) (hP : 0 < P) (d : Dist)
    (hd : distribute (inconf confs) confs.length P = some d) (init : Nat → τ) (init0 : τ) :
    (parallelRun b (fun s => (fv s).get) one d P confs init).2 = (serialRun (fun s => (fv s).get) one confs init0).2 ∧
    ∀ x, ResultCell b lim confs x →
      (parallelRun b (fun s => (fv s).get) one d P confs init).1 x = (serialRun (fun s => (fv s).get) one confs init0).1 x := by
  have hl := local_of_own (good := fun _ c => good c) fv b lim one init0 (fun _ c hc => hw c hc)
  obtain ⟨h1, h2⟩ := parallel_eq_serial hl confs (fun _ c hk => hi c (List.mem_of_getElem? hk)) hn P hP d hd init init0
  refine ⟨h1, fun x hx => ?_⟩
  have e := h2 x hx
  have e1 : (serialRun (fun s => cellOf b lim (fv s)) one confs init0).1 x = (serialRun (fun s => (fv s).get) one confs init0).1 x :=
    cellOf_result _ hx
  have e2 : (parallelRun b (fun s => cellOf b lim (fv s)) one d P confs init).1 x =
      (parallelRun b (fun s => (fv s).get) one d P confs init).1 x :=
    gather_congr b d P _ _ x fun r => cellOf_result _ hx
  rw [← e1, ← e2, e]

theorem own_memory (fv : τ → FV K) (b : Build) (lim : Bool) (one : Nat → Conf K → τ → τ × ε) (good : Conf K → Prop)
    (hw : ∀ c, good c → ∃ f e st l r, OwnWrites fv b lim c one f e st l r) (confs : List (Conf K)) (hn : Numbered confs)
    (hi : ∀ c ∈ confs, good c) (v₁ v₂ : τ) :
    (confLoop one confs 0 (v₁, 0)).2 = (confLoop one confs 0 (v₂, 0)).2 ∧ ∀ x, ResultCell b lim confs x →
      (fv (confLoop one confs 0 (v₁, 0)).1).get x = (fv (confLoop one confs 0 (v₂, 0)).1).get x := by
  have hg : ∀ k c, confs[k]? = some c → (fun (_ : Nat) c => good c) k c := fun k c hk => hi c (List.mem_of_getElem? hk)
  have hl := local_of_own (good := fun _ c => good c) fv b lim one v₁ (fun _ c hc => hw c hc)
  refine ⟨?_, fun x hx => ?_⟩
  · rw [confLoop_err hl confs 0 _ (by simpa using hg), confLoop_err hl confs 0 _ (by simpa using hg)]
  · rw [← cellOf_result _ hx, ← cellOf_result _ hx]
    obtain ⟨k, c, hk, ho⟩ := resultCell_owner hn hx
    have e1 := loop_cell hl confs hg hn (v₁, 0) k c hk x ho
    have e2 := loop_cell hl confs hg hn (v₂, 0) k c hk x ho
    exact e1.trans e2.symm

end

/-! ### The routines write their own entries only -/

theorem own_pack {τ ε : Type*} {fv : τ → FV K} {b : Build} {lim : Bool} {c : Conf K} {one : Nat → Conf K → τ → τ × ε} {e : K}
    {st : Fin 6 → K} {l : K} {r : ε} (h : ∃ f, OwnWrites fv b lim c one f e st l r) :
    ∃ f e st l r, OwnWrites fv b lim c one f e st l r :=
  h.elim fun f hf => ⟨f, e, st, l, r, hf⟩

theorem adp_own (b : Build) (P : EamPots K) (ew sw : K) (c : Conf K) (h : HalfList c ∧ EamColumns P c ∧ Aligned c) :
    ∃ f e st l r, OwnWrites (fun s : AdpState K => s.fv) b true c (adpConf b P ew sw) f e st l r := by
  obtain ⟨hh, hcol, hal⟩ := h
  have hsp := fun ci s => adpConf_spec b P ew sw ci c hh hcol hal s
  refine own_pack (ownWrites_of (fun s : AdpState K => s.fv) b true c (adpConf b P ew sw) (fun a => vecForce (adpFull b P c) c a)
    (adpTotal b P c / (c.atoms.length : K) - c.energy0)
    (if c.uf && c.us then fun k => vecStress (adpStressVec b P c) c k / c.vol - c.stress0 k else 0)
    ((c.atoms.zipIdx.map fun ak => (embedAt b P c ak.2 ak.1).limit).sum - c.limit0) _
    (fun ci s x hx => ((hsp ci s).2.2.1 x hx).1) ?_ (fun ci s => (hsp ci s).2.2.2.2.1) ?_
    (fun ci s _ _ => (hsp ci s).2.2.2.2.2.2.1) (fun ci s h => by simp at h) (fun ci s => adpConf_err b P ew sw ci c hh hcol hal s))
  · intro ci s k a hk
    have e := (hsp ci s).2.2.2.1 k a hk
    rwa [vecForce_congr (fun e he _ => adpVec_congr hh (hsp ci s).1 (totalDipole P c) (totalQuadrupole P c) e he)] at e
  · intro ci s
    have e := (hsp ci s).2.2.2.2.2.1
    have hS : ∀ k, vecStress (adpCode P (adpConf b P ew sw ci c s).1.gradF (totalDipole P c) (totalQuadrupole P c)) c k =
        vecStress (adpStressVec b P c) c k := fun k => vecStress_congr' (fun e he => by
      unfold adpCode adpStressVec adpFull
      rw [adpVec_congr hh (hsp ci s).1 (totalDipole P c) (totalQuadrupole P c) e he]) k
    simp only [hS] at e
    exact e

theorem tb_own (b : Build) (P : EamPots K) (ew sw : K) (c : Conf K) (h : HalfList c ∧ EamColumns P c) :
    ∃ f e st l r, OwnWrites (fun s : TbState K => s.fv) b true c (tbConf b P ew sw) f e st l r := by
  obtain ⟨hh, hcol⟩ := h
  have hsp := fun ci s => tbConf_spec b P ew sw ci c hh hcol s
  have hcg := fun ci s => tbUsed_congr hh (hsp ci s).1.1 (hsp ci s).1.2
  refine own_pack (ownWrites_of (fun s : TbState K => s.fv) b true c (tbConf b P ew sw) (fun a => totalForce (tbUsedSlope b P c) c a)
    (tbTotal b P c / (c.atoms.length : K) - c.energy0)
    (if c.uf && c.us then fun k => totalStress (tbUsedSlope b P c) c k / c.vol - c.stress0 k else 0)
    (tbExcess b P c - c.limit0) _
    (fun ci s x hx => ((hsp ci s).2.2.1 x hx).1) ?_ (fun ci s => (hsp ci s).2.2.2.2.1) ?_ ?_
    (fun ci s h => by simp at h) (fun ci s => tbConf_err b P ew sw ci c hh hcol s))
  · intro ci s k a hk
    have e := (hsp ci s).2.2.2.1 k a hk
    rwa [totalForce_congr (hcg ci s)] at e
  · intro ci s
    have e := (hsp ci s).2.2.2.2.2.1
    simp only [totalStress_congr (hcg ci s)] at e
    exact e
  · intro ci s _ hb
    have e := (hsp ci s).2.2.2.2.2.2.1
    rwa [if_pos hb] at e

theorem el_own (b : Build) (P : Pots K) (E : Elec K) (ew sw : K) (c : Conf K) (h : HalfList c ∧ Aligned c) :
    ∃ f e st l r, OwnWrites (fun s : ElState K => s.fv) b false c (elConf b false P E ew sw) f e st l r := by
  obtain ⟨hh, hal⟩ := h
  have hsp := fun ci s => elConf_spec b false P E ew sw ci c hh hal (by simp) (by simp) s
  refine own_pack (ownWrites_of (fun s : ElState K => s.fv) b false c (elConf b false P E ew sw)
    (fun a => vecForce (coulombFull P E) c a) (coulombTotal P E c / (c.atoms.length : K) - c.energy0)
    (if c.uf && c.us then fun k => vecStress (coulombFull P E) c k / c.vol - c.stress0 k else 0) 0
    (vecConfError b (coulombFull P E) (coulombFull P E) (coulombTotal P E c) ew sw c)
    (fun ci s x hx => (hsp ci s).1 x hx) ?_ ?_ ?_ (fun ci s h => by simp at h) (fun ci s _ => (hsp ci s).2.2.2.2.1) ?_)
  · intro ci s k a hk
    have e := (hsp ci s).2.1 k a hk
    rwa [elVec_false] at e
  · intro ci s
    have e := (hsp ci s).2.2.1
    rwa [elTotal_false] at e
  · intro ci s
    have e := (hsp ci s).2.2.2.1
    rwa [elVec_false] at e
  · intro ci s
    have e := (hsp ci s).2.2.2.2.2
    have f := (hsp ci s).2.1
    rw [elVec_false] at e f
    rw [elTotal_false] at e
    rw [e, conf_err_vec b _ _ ew sw c _ f]

theorem ee_own (b : Build) (P : EamPots K) (E : Elec K) (ew sw : K) (c : Conf K) (h : HalfList c ∧ EamColumns P c ∧ Aligned c) :
    ∃ f e st l r, OwnWrites (fun s : EeState K => s.fv) b.clamped true c (eeConf b false P E ew sw) f e st l r := by
  obtain ⟨hh, hcol, hal⟩ := h
  have hsp := fun ci s => eeConf_spec b false P E ew sw ci c hh hcol hal (by simp) (by simp) (by simp) s
  have hv : ∀ ci s, ∀ e ∈ entries c, eeVec false P E (eeConf b false P E ew sw ci c s).1.dip.pInd
      (eeConf b false P E ew sw ci c s).1.gradF e = eamCoulombFull b P E c e := by
    intro ci s e he
    unfold eeVec eamCoulombFull
    rw [elVec_false, eamSlope_congr hh (hsp ci s).1 e he]
  refine own_pack (ownWrites_of (fun s : EeState K => s.fv) b.clamped true c (eeConf b false P E ew sw)
    (fun a => vecForce (eamCoulombFull b P E c) c a)
    ((coulombTotal P.toPots E c + totalEmbedding b.clamped P c) / (c.atoms.length : K) - c.energy0)
    (if c.uf && c.us then fun k => vecStress (eamCoulombFull b P E c) c k / c.vol - c.stress0 k else 0)
    ((c.atoms.zipIdx.map fun ak => (embedAt b.clamped P c ak.2 ak.1).limit).sum - c.limit0) _
    (fun ci s x hx => ((hsp ci s).2.2.1 x hx).1) ?_ ?_ ?_
    (fun ci s _ _ => (hsp ci s).2.2.2.2.2.2.1) (fun ci s h => by simp at h) (fun ci s => eeConf_err b P E ew sw ci c hh hcol hal s))
  · intro ci s k a hk
    have e := (hsp ci s).2.2.2.1 k a hk
    rw [vecForce_congr (fun e he _ => hv ci s e he)] at e
    exact e
  · intro ci s
    have e := (hsp ci s).2.2.2.2.1
    rwa [elTotal_false] at e
  · intro ci s
    have e := (hsp ci s).2.2.2.2.2.1
    simp only [vecStress_congr' (hv ci s)] at e
    exact e

/-! ### Parallel evaluation -/

/-- ADP potentials: error sum, sum of the densities, and all forces, energies, stresses and (`RESCALE`) limiting constraints. -/
theorem C03_adp (b : Build) (pots : EamPots K) (ew sw : K) (confs : List (Conf K)) (hn : Numbered confs)
    (hh : ∀ c ∈ confs, HalfList c ∧ EamColumns pots c ∧ Aligned c) (P : Nat) (hP : 0 < P) (d : Dist)
    (hd : distribute (inconf confs) confs.length P = some d) (init : Nat → AdpState K) (init0 : AdpState K) :
    let par := parallelRun b (fun s => s.fv.get) (adpConf b pots ew sw) d P confs init
    let ser := serialRun (fun s => s.fv.get) (adpConf b pots ew sw) confs init0
    par.2 = ser.2 ∧ ∀ x, ResultCell b true confs x → par.1 x = ser.1 x :=
  own_parallel (fun s : AdpState K => s.fv) b true _ _ (fun c hc => adp_own b pots ew sw c hc) confs hn hh P hP d hd init init0

/-- The two-band model: error sum, sums of both densities, and all entries. -/
theorem C03_tbeam (b : Build) (pots : EamPots K) (ew sw : K) (confs : List (Conf K)) (hn : Numbered confs)
    (hh : ∀ c ∈ confs, HalfList c ∧ EamColumns pots c) (P : Nat) (hP : 0 < P) (d : Dist)
    (hd : distribute (inconf confs) confs.length P = some d) (init : Nat → TbState K) (init0 : TbState K) :
    let par := parallelRun b (fun s => s.fv.get) (tbConf b pots ew sw) d P confs init
    let ser := serialRun (fun s => s.fv.get) (tbConf b pots ew sw) confs init0
    par.2 = ser.2 ∧ ∀ x, ResultCell b true confs x → par.1 x = ser.1 x :=
  own_parallel (fun s : TbState K => s.fv) b true _ _ (fun c hc => tb_own b pots ew sw c hc) confs hn hh P hP d hd init init0

/-- Pair potentials with charges. -/
theorem C03_coulomb (b : Build) (pots : Pots K) (E : Elec K) (ew sw : K) (confs : List (Conf K)) (hn : Numbered confs)
    (hh : ∀ c ∈ confs, HalfList c ∧ Aligned c) (P : Nat) (hP : 0 < P) (d : Dist)
    (hd : distribute (inconf confs) confs.length P = some d) (init : Nat → ElState K) (init0 : ElState K) :
    let par := parallelRun b (fun s => s.fv.get) (elConf b false pots E ew sw) d P confs init
    let ser := serialRun (fun s => s.fv.get) (elConf b false pots E ew sw) confs init0
    par.2 = ser.2 ∧ ∀ x, ResultCell b false confs x → par.1 x = ser.1 x :=
  own_parallel (fun s : ElState K => s.fv) b false _ _ (fun c hc => el_own b pots E ew sw c hc) confs hn hh P hP d hd init init0

/-- EAM potentials with charges; this routine gathers the limiting constraints in every build, `src/force_eam_elstat.c`
1166-1194. -/
theorem C03_eam_coulomb (b : Build) (pots : EamPots K) (E : Elec K) (ew sw : K) (confs : List (Conf K)) (hn : Numbered confs)
    (hh : ∀ c ∈ confs, HalfList c ∧ EamColumns pots c ∧ Aligned c) (P : Nat) (hP : 0 < P) (d : Dist)
    (hd : distribute (inconf confs) confs.length P = some d) (init : Nat → EeState K) (init0 : EeState K) :
    let par := parallelRun b.clamped (fun s => s.fv.get) (eeConf b false pots E ew sw) d P confs init
    let ser := serialRun (fun s => s.fv.get) (eeConf b false pots E ew sw) confs init0
    par.2 = ser.2 ∧ ∀ x, ResultCell b.clamped true confs x → par.1 x = ser.1 x :=
  own_parallel (fun s : EeState K => s.fv) b.clamped true _ _ (fun c hc => ee_own b pots E ew sw c hc) confs hn hh P hP d hd init init0

/-- The limiting constraints of ADP potentials without `RESCALE` are written but not gathered.  They agree nevertheless if the
vectors of root process and serial program held zeros there and the reference values are zero, as they are in the program. -/
theorem C03_adp_limit_partial (b : Build) (hb : b.rescale = false) (pots : EamPots K) (ew sw : K) (confs : List (Conf K))
    (hh : ∀ c ∈ confs, HalfList c ∧ EamColumns pots c ∧ Aligned c) (h0 : ∀ c ∈ confs, c.limit0 = 0) (P : Nat) (d : Dist)
    (init : Nat → AdpState K) (init0 : AdpState K) (hi : (init 0).fv.limit = 0) (hi0 : init0.fv.limit = 0) (j : Nat) :
    (parallelRun b (fun s => s.fv.get) (adpConf b pots ew sw) d P confs init).1 (.limit j) =
      (serialRun (fun s => s.fv.get) (adpConf b pots ew sw) confs init0).1 (.limit j) := by
  have hz : ∀ ci, ∀ c ∈ confs, ∀ s : AdpState K, s.fv.limit = 0 → (adpConf b pots ew sw ci c s).1.fv.limit = 0 := by
    intro ci c hc s hs
    obtain ⟨-, -, -, -, -, -, e, -⟩ := adpConf_spec b pots ew sw ci c (hh c hc).1 (hh c hc).2.1 (hh c hc).2.2 s
    rw [e, hs, h0 c hc, sub_zero]
    have : (c.atoms.zipIdx.map fun ak => (embedAt b pots c ak.2 ak.1).limit).sum = 0 := by
      apply List.sum_eq_zero
      intro y hy
      obtain ⟨ak, -, rfl⟩ := List.mem_map.1 hy
      unfold embedAt embed
      rw [if_neg (by simp [hb])]
      split <;> split <;> try rfl
      split <;> rfl
    rw [this]
    exact Function.update_eq_self (f := (0 : Nat → K)) ci
  have hs : (confLoop (adpConf b pots ew sw) confs 0 (init0, 0)).1.fv.limit = 0 :=
    limit_zero (fun s : AdpState K => s.fv) _ confs hz 0 (init0, 0) hi0
  have hr : (rankRun (adpConf b pots ew sw) d confs init 0).1.fv.limit = 0 :=
    limit_zero (fun s : AdpState K => s.fv) _ _ (fun ci c hc => hz ci c (List.mem_of_mem_drop (List.mem_of_mem_take hc))) _ (init 0, 0) hi
  have hg : ∀ (l : List Nat) (m₀ : Cell → K) (mem : Nat → Cell → K),
      (l.foldl (fun m r => if r = 0 then m else fun x => if inBlock b d r x then mem r x else m x) m₀) (.limit j) = m₀ (.limit j) := by
    intro l
    induction l with
    | nil => intro m₀ mem; rfl
    | cons r l ih =>
      intro m₀ mem
      rw [List.foldl_cons, ih]
      by_cases hr : r = 0
      · rw [if_pos hr]
      · rw [if_neg hr]
        simp [inBlock, hb]
  unfold parallelRun serialRun gather
  simp only
  rw [hg]
  show (rankRun (adpConf b pots ew sw) d confs init 0).1.fv.limit j = (confLoop (adpConf b pots ew sw) confs 0 (init0, 0)).1.fv.limit j
  rw [hs, hr]

/-- Without those zeros the entry of the other rank's configuration keeps what the root process had there. -/
theorem C03_adp_limit_violated :
    ∃ d, distribute (inconf [exConf, exConf2]) 2 2 = some d ∧
      ((parallelRun { exBuild with rescale := false } (fun s => s.fv.get) (adpConf { exBuild with rescale := false } exPots 1 1) d 2
        [exConf, exConf2] (fun _ => ⟨⟨0, 0, 0, 5⟩, 0, 0, 0, 0, 0⟩)).1 (.limit 1) : ℚ) = 5 ∧
      ((serialRun (fun s => s.fv.get) (adpConf { exBuild with rescale := false } exPots 1 1) [exConf, exConf2]
        ⟨⟨0, 0, 0, 5⟩, 0, 0, 0, 0, 0⟩).1 (.limit 1) : ℚ) ≠ 5 := by
  exact ⟨(distribute (inconf [exConf, exConf2]) 2 2).get (by decide), (Option.some_get _).symm, by decide +kernel, by decide +kernel⟩

/-! ### No memory -/

/-- Value of an objective which adds up the sum of the loop, the punishments and the gauge constraints. -/
theorem punished_sum {α : Type*} (apot : Bool) (w : K) (qs : List (Bound K)) (eopp univ : List (Nat × K)) (par par' pot pot' : Nat → K)
    (x d : K) (mk mk' : (Nat → K) → (Nat → K) → α) :
    (if apot = true then (apotPunish w qs eopp univ par pot).bind fun p => Except.ok (mk p.par p.pot, x + p.sum + d)
      else Except.ok (mk par pot, x + d)).map Prod.snd =
    (if apot = true then (apotPunish w qs eopp univ par' pot').bind fun p => Except.ok (mk' p.par p.pot, x + p.sum + d)
      else Except.ok (mk' par' pot', x + d)).map Prod.snd := by
  by_cases hb : apot = true
  · rw [if_pos hb, if_pos hb]
    have := apotPunish_sum_congr w qs eopp univ par pot par' pot'
    cases h1 : apotPunish w qs eopp univ par pot <;>
      cases h2 : apotPunish w qs eopp univ par' pot' <;>
      simp only [h1, h2, Except.map, Except.ok.injEq, Except.error.injEq, reduceCtorEq] at this
    · simp [Except.bind, Except.map, this]
    · simp only [Except.bind, Except.map, this]
  · rw [if_neg hb, if_neg hb]
    rfl

/-- ADP potentials, including limiting and gauge constraints. -/
theorem C20_adp (b : Build) (P : EamPots K) (ew sw w : K) (qs : List (Bound K)) (eopp univ : List (Nat × K))
    (dummy0 : Nat → K) (natoms : Nat) (confs : List (Conf K)) (hn : Numbered confs)
    (hh : ∀ c ∈ confs, HalfList c ∧ EamColumns P c ∧ Aligned c) (v₁ v₂ : AdpVec K) :
    (adpObjective b P ew sw w qs eopp univ dummy0 natoms confs v₁).map Prod.snd =
      (adpObjective b P ew sw w qs eopp univ dummy0 natoms confs v₂).map Prod.snd ∧
    ∀ v₁' v₂' y₁ y₂, adpObjective b P ew sw w qs eopp univ dummy0 natoms confs v₁ = .ok (v₁', y₁) →
      adpObjective b P ew sw w qs eopp univ dummy0 natoms confs v₂ = .ok (v₂', y₂) →
      (∀ x, ResultCell b true confs x → v₁'.st.fv.get x = v₂'.st.fv.get x) ∧
      (b.noPunish = false → ∀ d < 2 * P.ntypes, v₁'.dummy d = v₂'.dummy d) := by
  obtain ⟨h1, h2⟩ := own_memory (fun s : AdpState K => s.fv) b true (adpConf b P ew sw) _
    (fun c hc => adp_own b P ew sw c hc) confs hn hh v₁.st v₂.st
  have h1 : (confLoop (adpConf b P ew sw) confs 0 (v₁.st, (0, 0))).2 = (confLoop (adpConf b P ew sw) confs 0 (v₂.st, (0, 0))).2 := h1
  have hd : ∀ (x : K) (d d' : Nat → K), (adpDummies b P dummy0 natoms x d).2 = (adpDummies b P dummy0 natoms x d').2 := by
    intro x d d'
    unfold adpDummies
    split <;> rfl
  refine ⟨?_, fun v₁' v₂' y₁ y₂ e1 e2 => ?_⟩
  · have := punished_sum b.apot w qs eopp univ v₁.par v₂.par v₁.pot v₂.pot
      (confLoop (adpConf b P ew sw) confs 0 (v₂.st, (0, 0))).2.1
      (adpDummies b P dummy0 natoms (confLoop (adpConf b P ew sw) confs 0 (v₂.st, (0, 0))).2.2 v₂.dummy).2
      (fun p q => (⟨(confLoop (adpConf b P ew sw) confs 0 (v₁.st, (0, 0))).1, p, q,
        (adpDummies b P dummy0 natoms (confLoop (adpConf b P ew sw) confs 0 (v₁.st, (0, 0))).2.2 v₁.dummy).1⟩ : AdpVec K))
      (fun p q => (⟨(confLoop (adpConf b P ew sw) confs 0 (v₂.st, (0, 0))).1, p, q,
        (adpDummies b P dummy0 natoms (confLoop (adpConf b P ew sw) confs 0 (v₂.st, (0, 0))).2.2 v₂.dummy).1⟩ : AdpVec K))
    refine Eq.trans ?_ (this.trans rfl)
    unfold adpObjective
    simp only [h1, hd _ v₁.dummy v₂.dummy]
    rfl
  · have hv : ∀ (v v' : AdpVec K) (y : K), adpObjective b P ew sw w qs eopp univ dummy0 natoms confs v = .ok (v', y) →
        v'.st = (confLoop (adpConf b P ew sw) confs 0 (v.st, (0, 0))).1 ∧ v'.dummy = (adpDummies b P dummy0 natoms (confLoop (adpConf b P ew sw) confs 0 (v.st, (0, 0))).2.2 v.dummy).1 := by
      intro v v' y hr
      unfold adpObjective at hr
      by_cases hb : b.apot = true
      · simp only [if_pos hb] at hr
        cases hp : apotPunish w qs eopp univ v.par v.pot with
        | error e => simp [hp, bind, Except.bind] at hr
        | ok p =>
          simp only [hp, bind, Except.bind, Except.ok.injEq, Prod.mk.injEq] at hr
          rw [← hr.1]; exact ⟨rfl, rfl⟩
      · simp only [if_neg hb, Except.ok.injEq, Prod.mk.injEq] at hr
        rw [← hr.1]; exact ⟨rfl, rfl⟩
    obtain ⟨a1, a2⟩ := hv _ _ _ e1
    obtain ⟨b1, b2⟩ := hv _ _ _ e2
    refine ⟨fun x hx => by rw [a1, b1]; exact h2 x hx, fun hp d hd => ?_⟩
    rw [a2, b2]
    simp only [h1]
    unfold adpDummies
    rw [if_neg (by simp [hp]), if_neg (by simp [hp])]
    simp only [hd, if_true]

/-- The two-band model, including the gauge constraints of both bands. -/
theorem C20_tbeam (b : Build) (P : EamPots K) (ew sw w : K) (qs : List (Bound K)) (eopp univ : List (Nat × K))
    (dummy0 : Nat → K) (natoms : Nat) (confs : List (Conf K)) (hn : Numbered confs)
    (hh : ∀ c ∈ confs, HalfList c ∧ EamColumns P c) (v₁ v₂ : TbVec K) :
    (tbObjective b P ew sw w qs eopp univ dummy0 natoms confs v₁).map Prod.snd =
      (tbObjective b P ew sw w qs eopp univ dummy0 natoms confs v₂).map Prod.snd ∧
    ∀ v₁' v₂' y₁ y₂, tbObjective b P ew sw w qs eopp univ dummy0 natoms confs v₁ = .ok (v₁', y₁) →
      tbObjective b P ew sw w qs eopp univ dummy0 natoms confs v₂ = .ok (v₂', y₂) →
      (∀ x, ResultCell b true confs x → v₁'.st.fv.get x = v₂'.st.fv.get x) ∧
      (b.noPunish = false → ∀ d < 4 * P.ntypes, v₁'.dummy d = v₂'.dummy d) := by
  obtain ⟨h1, h2⟩ := own_memory (fun s : TbState K => s.fv) b true (tbConf b P ew sw) _
    (fun c hc => tb_own b P ew sw c hc) confs hn hh v₁.st v₂.st
  have h1 : (confLoop (tbConf b P ew sw) confs 0 (v₁.st, (0, 0, 0))).2 = (confLoop (tbConf b P ew sw) confs 0 (v₂.st, (0, 0, 0))).2 := h1
  have hd : ∀ (x y : K) (d d' : Nat → K), (tbDummies b P dummy0 natoms x y d).2 = (tbDummies b P dummy0 natoms x y d').2 := by
    intro x y d d'
    unfold tbDummies eamDummies
    split <;> rfl
  refine ⟨?_, fun v₁' v₂' y₁ y₂ e1 e2 => ?_⟩
  · have := punished_sum b.apot w qs eopp univ v₁.par v₂.par v₁.pot v₂.pot
      (confLoop (tbConf b P ew sw) confs 0 (v₂.st, (0, 0, 0))).2.1
      (tbDummies b P dummy0 natoms (confLoop (tbConf b P ew sw) confs 0 (v₂.st, (0, 0, 0))).2.2.1
        (confLoop (tbConf b P ew sw) confs 0 (v₂.st, (0, 0, 0))).2.2.2 v₂.dummy).2
      (fun p q => (⟨(confLoop (tbConf b P ew sw) confs 0 (v₁.st, (0, 0, 0))).1, p, q,
        (tbDummies b P dummy0 natoms (confLoop (tbConf b P ew sw) confs 0 (v₁.st, (0, 0, 0))).2.2.1
        (confLoop (tbConf b P ew sw) confs 0 (v₁.st, (0, 0, 0))).2.2.2 v₁.dummy).1⟩ : TbVec K))
      (fun p q => (⟨(confLoop (tbConf b P ew sw) confs 0 (v₂.st, (0, 0, 0))).1, p, q,
        (tbDummies b P dummy0 natoms (confLoop (tbConf b P ew sw) confs 0 (v₂.st, (0, 0, 0))).2.2.1
        (confLoop (tbConf b P ew sw) confs 0 (v₂.st, (0, 0, 0))).2.2.2 v₂.dummy).1⟩ : TbVec K))
    refine Eq.trans ?_ (this.trans rfl)
    unfold tbObjective
    simp only [h1, hd _ _ v₁.dummy v₂.dummy]
    rfl
  · have hv : ∀ (v v' : TbVec K) (y : K), tbObjective b P ew sw w qs eopp univ dummy0 natoms confs v = .ok (v', y) →
        v'.st = (confLoop (tbConf b P ew sw) confs 0 (v.st, (0, 0, 0))).1 ∧ v'.dummy = (tbDummies b P dummy0 natoms (confLoop (tbConf b P ew sw) confs 0 (v.st, (0, 0, 0))).2.2.1
        (confLoop (tbConf b P ew sw) confs 0 (v.st, (0, 0, 0))).2.2.2 v.dummy).1 := by
      intro v v' y hr
      unfold tbObjective at hr
      by_cases hb : b.apot = true
      · simp only [if_pos hb] at hr
        cases hp : apotPunish w qs eopp univ v.par v.pot with
        | error e => simp [hp, bind, Except.bind] at hr
        | ok p =>
          simp only [hp, bind, Except.bind, Except.ok.injEq, Prod.mk.injEq] at hr
          rw [← hr.1]; exact ⟨rfl, rfl⟩
      · simp only [if_neg hb, Except.ok.injEq, Prod.mk.injEq] at hr
        rw [← hr.1]; exact ⟨rfl, rfl⟩
    obtain ⟨a1, a2⟩ := hv _ _ _ e1
    obtain ⟨b1, b2⟩ := hv _ _ _ e2
    refine ⟨fun x hx => by rw [a1, b1]; exact h2 x hx, fun hp d hd => ?_⟩
    rw [a2, b2]
    simp only [h1]
    unfold tbDummies eamDummies
    simp only [hp, Bool.false_eq_true, if_false]
    have h2n : P.second.ntypes = P.ntypes := rfl
    by_cases hlt : d < 2 * P.ntypes
    · simp only [hlt, if_true]
    · simp only [hlt, if_false, h2n, show d - 2 * P.ntypes < 2 * P.ntypes by omega, if_true]

/-- Pair potentials with charges. -/
theorem C20_coulomb (b : Build) (P : Pots K) (E : Elec K) (ew sw w : K) (qs : List (Bound K)) (eopp univ : List (Nat × K))
    (confs : List (Conf K)) (hn : Numbered confs) (hh : ∀ c ∈ confs, HalfList c ∧ Aligned c) (v₁ v₂ : ElVector K) :
    (elObjective b false P E ew sw w qs eopp univ confs v₁).map Prod.snd =
      (elObjective b false P E ew sw w qs eopp univ confs v₂).map Prod.snd ∧
    ∀ v₁' v₂' y₁ y₂, elObjective b false P E ew sw w qs eopp univ confs v₁ = .ok (v₁', y₁) →
      elObjective b false P E ew sw w qs eopp univ confs v₂ = .ok (v₂', y₂) →
      ∀ x, ResultCell b false confs x → v₁'.st.fv.get x = v₂'.st.fv.get x := by
  obtain ⟨h1, h2⟩ := own_memory (fun s : ElState K => s.fv) b false (elConf b false P E ew sw) _
    (fun c hc => el_own b P E ew sw c hc) confs hn hh v₁.st v₂.st
  have hp := apotPunish_sum_congr w qs eopp univ v₁.par v₁.pot v₂.par v₂.pot
  unfold elObjective
  cases e1 : apotPunish w qs eopp univ v₁.par v₁.pot with
  | error e =>
    cases e2 : apotPunish w qs eopp univ v₂.par v₂.pot with
    | error e' =>
      simp only [e1, e2, Except.map, Except.error.injEq] at hp
      simp [bind, Except.bind, Except.map, hp]
    | ok p => simp [e1, e2, Except.map] at hp
  | ok p =>
    cases e2 : apotPunish w qs eopp univ v₂.par v₂.pot with
    | error e' => simp [e1, e2, Except.map] at hp
    | ok p' =>
      simp only [e1, e2, Except.map, Except.ok.injEq] at hp
      simp only [bind, Except.bind, Except.map, hp, h1, Except.ok.injEq, Prod.mk.injEq, true_and]
      rintro v₁' v₂' y₁ y₂ ⟨rfl, -⟩ ⟨rfl, -⟩ x hx
      exact h2 x hx

/-- EAM potentials with charges, including limiting and gauge constraints. -/
theorem C20_eam_coulomb (b : Build) (P : EamPots K) (E : Elec K) (ew sw w : K) (qs : List (Bound K)) (eopp univ : List (Nat × K))
    (dummy0 : Nat → K) (confs : List (Conf K)) (hn : Numbered confs)
    (hh : ∀ c ∈ confs, HalfList c ∧ EamColumns P c ∧ Aligned c) (v₁ v₂ : EeVector K) :
    (eeObjective b false P E ew sw w qs eopp univ dummy0 confs v₁).map Prod.snd =
      (eeObjective b false P E ew sw w qs eopp univ dummy0 confs v₂).map Prod.snd ∧
    ∀ v₁' v₂' y₁ y₂, eeObjective b false P E ew sw w qs eopp univ dummy0 confs v₁ = .ok (v₁', y₁) →
      eeObjective b false P E ew sw w qs eopp univ dummy0 confs v₂ = .ok (v₂', y₂) →
      (∀ x, ResultCell b.clamped true confs x → v₁'.st.fv.get x = v₂'.st.fv.get x) ∧
      (b.noPunish = false → ∀ d < 2 * P.ntypes, v₁'.dummy d = v₂'.dummy d) := by
  obtain ⟨h1, h2⟩ := own_memory (fun s : EeState K => s.fv) b.clamped true (eeConf b false P E ew sw) _
    (fun c hc => ee_own b P E ew sw c hc) confs hn hh v₁.st v₂.st
  have h1 : (confLoop (eeConf b false P E ew sw) confs 0 (v₁.st, (0, 0))).2 = (confLoop (eeConf b false P E ew sw) confs 0 (v₂.st, (0, 0))).2 := h1
  refine ⟨?_, fun v₁' v₂' y₁ y₂ e1 e2 => ?_⟩
  · have := punished_sum b.apot w qs eopp univ v₁.par v₂.par v₁.pot v₂.pot
      (confLoop (eeConf b false P E ew sw) confs 0 (v₂.st, (0, 0))).2.1 (eeDummies b P dummy0 v₂.dummy).2
      (fun p q => (⟨(confLoop (eeConf b false P E ew sw) confs 0 (v₁.st, (0, 0))).1, p, q, (eeDummies b P dummy0 v₁.dummy).1⟩ : EeVector K))
      (fun p q => (⟨(confLoop (eeConf b false P E ew sw) confs 0 (v₂.st, (0, 0))).1, p, q, (eeDummies b P dummy0 v₂.dummy).1⟩ : EeVector K))
    refine Eq.trans ?_ (this.trans rfl)
    unfold eeObjective
    simp only [h1, eeDummies_err]
    rfl
  · have hv : ∀ (v v' : EeVector K) (y : K), eeObjective b false P E ew sw w qs eopp univ dummy0 confs v = .ok (v', y) →
        v'.st = (confLoop (eeConf b false P E ew sw) confs 0 (v.st, (0, 0))).1 ∧ v'.dummy = (eeDummies b P dummy0 v.dummy).1 := by
      intro v v' y hr
      unfold eeObjective at hr
      by_cases hb : b.apot = true
      · simp only [if_pos hb] at hr
        cases hp : apotPunish w qs eopp univ v.par v.pot with
        | error e => simp [hp, bind, Except.bind] at hr
        | ok p =>
          simp only [hp, bind, Except.bind, Except.ok.injEq, Prod.mk.injEq] at hr
          rw [← hr.1]; exact ⟨rfl, rfl⟩
      · simp only [if_neg hb, Except.ok.injEq, Prod.mk.injEq] at hr
        rw [← hr.1]; exact ⟨rfl, rfl⟩
    obtain ⟨a1, a2⟩ := hv _ _ _ e1
    obtain ⟨b1, b2⟩ := hv _ _ _ e2
    refine ⟨fun x hx => by rw [a1, b1]; exact h2 x hx, fun hp d hd => ?_⟩
    rw [a2, b2]
    unfold eeDummies
    rw [if_neg (by simp [hp]), if_neg (by simp [hp])]
    simp only [hd, if_true]

/-- The hypotheses are met by two configurations on two ranks. -/
example : (distribute (inconf [exConf, exConf2]) 2 2).isSome = true ∧ Numbered [exConf, exConf2] ∧
    (∀ c ∈ [exConf, exConf2], HalfList c ∧ EamColumns exPots c ∧ Aligned c) ∧
    ∀ c ∈ [exConf, exConf2], c.limit0 = 0 :=
  ⟨by decide, exConfs_numbered, reportConfs_half, by decide +kernel⟩

end Verif.Props
