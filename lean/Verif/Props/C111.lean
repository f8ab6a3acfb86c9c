/-
C111  A parallel fit with induced dipoles follows the serial fit.

The dipoles are kept with the atoms from one evaluation to the next and are the start of the next iteration, so that an evaluation
depends on the past (`C68_memory`).  Every process iterates the dipoles of its own configurations; if they are the same as those of
the serial program at the start, they are the same after any number of evaluations, and so are all results.
-/
import Verif.Lemmas.DipolesSame
import Verif.Props.C03More

set_option linter.unusedSectionVars false

namespace Verif.Props

open Verif.Force Verif.Spec Verif.Mpi

variable {K : Type*} [Field K] [LinearOrder K] [IsStrictOrderedRing K]

/-- Fields and dipole moments of the atoms of a configuration, as kept with the atoms (`atom_t`). -/
def atomDipole (d : Dip K) (a : Nat) : Fin 5 → V3 K := ![d.eStat a, d.eInd a, d.eOld a, d.pInd a, d.pSr a]

/-- The same fields and dipole moments on all atoms of the configurations. -/
def SameDipoles (confs : List (Conf K)) (d d' : Dip K) : Prop :=
  ∀ c ∈ confs, ∀ k < c.atoms.length, atomDipole d (c.start + k) = atomDipole d' (c.start + k)

theorem same_iff (confs : List (Conf K)) (d d' : Dip K) : SameDipoles confs d d' ↔ ∀ c ∈ confs, DipOn c d d' := by
  constructor
  · intro h c hc
    have key : ∀ a, Member c a → atomDipole d a = atomDipole d' a := by
      intro a ha
      have ha : c.start ≤ a ∧ a < c.start + c.atoms.length := ha
      have e := h c hc (a - c.start) (by omega)
      rwa [show c.start + (a - c.start) = a by omega] at e
    exact ⟨fun a ha => congrFun (key a ha) 0, fun a ha => congrFun (key a ha) 1, fun a ha => congrFun (key a ha) 2,
      fun a ha => congrFun (key a ha) 3, fun a ha => congrFun (key a ha) 4⟩
  · intro h c hc k hk
    have hm : Member c (c.start + k) := ⟨by omega, by omega⟩
    unfold atomDipole
    rw [(h c hc).eStat _ hm, (h c hc).eInd _ hm, (h c hc).eOld _ hm, (h c hc).pInd _ hm, (h c hc).pSr _ hm]

/-- The configurations of process `r`. -/
def blockOf (d : Dist) (confs : List (Conf K)) (r : Nat) : List (Conf K) :=
  (confs.drop (d.confDist r).toNat).take (d.confLen r).toNat

/-! ### Replacing the dipoles of a configuration -/

/-- `d₀` on the atoms of the configuration, `d` elsewhere. -/
def blend (c : Conf K) (d₀ d : Dip K) : Dip K where
  eStat a := if c.start ≤ a ∧ a < c.start + c.atoms.length then d₀.eStat a else d.eStat a
  eInd a := if c.start ≤ a ∧ a < c.start + c.atoms.length then d₀.eInd a else d.eInd a
  eOld a := if c.start ≤ a ∧ a < c.start + c.atoms.length then d₀.eOld a else d.eOld a
  pInd a := if c.start ≤ a ∧ a < c.start + c.atoms.length then d₀.pInd a else d.pInd a
  pSr a := if c.start ≤ a ∧ a < c.start + c.atoms.length then d₀.pSr a else d.pSr a

theorem blend_self {c : Conf K} {d₀ d : Dip K} (h : DipOn c d d₀) : blend c d₀ d = d := by
  have key : ∀ f g : Nat → V3 K, On c g f → (fun a => if c.start ≤ a ∧ a < c.start + c.atoms.length then f a else g a) = g := by
    intro f g hfg
    funext a
    split
    · next ha => exact (hfg a ha).symm
    · rfl
  obtain ⟨e1, e2, e3, e4, e5⟩ := d
  simp only [blend]
  rw [key _ _ h.eStat, key _ _ h.eInd, key _ _ h.eOld, key _ _ h.pInd, key _ _ h.pSr]

theorem blend_on (c : Conf K) (d₀ d d' : Dip K) : DipOn c (blend c d₀ d) (blend c d₀ d') := by
  have key : ∀ f g g' : Nat → V3 K, On c (fun a => if c.start ≤ a ∧ a < c.start + c.atoms.length then f a else g a)
      (fun a => if c.start ≤ a ∧ a < c.start + c.atoms.length then f a else g' a) := by
    intro f g g' a ha
    have ha : c.start ≤ a ∧ a < c.start + c.atoms.length := ha
    simp [ha]
  exact ⟨key _ _ _, key _ _ _, key _ _ _, key _ _ _, key _ _ _⟩

/-! ### A routine which carries dipoles -/

section
variable {τ ε : Type*} [AddMonoid ε]

theorem on_of_off {c c' : Conf K} {d d' : Dip K} (h : DipOff c d d') (hd : ∀ a, Member c' a → ¬ Member c a) : DipOn c' d d' :=
  ⟨fun a ha => h.eStat a (hd a ha), fun a ha => h.eInd a (hd a ha), fun a ha => h.eOld a (hd a ha), fun a ha => h.pInd a (hd a ha),
   fun a ha => h.pSr a (hd a ha)⟩

/-- No atom belongs to two configurations. -/
def NoCommonAtom (cs : List (Conf K)) : Prop := cs.Pairwise fun c c' => ∀ a, Member c' a → ¬ Member c a

theorem apart_numbered (confs : List (Conf K)) (hn : Numbered confs) : NoCommonAtom confs := by
  unfold NoCommonAtom
  rw [List.pairwise_iff_getElem]
  intro i j hi hj hij a h1 h2
  have := numbered_disjoint hn (List.getElem?_eq_getElem hj) (List.getElem?_eq_getElem hi) h1 h2
  omega

theorem apart_block {confs : List (Conf K)} (h : NoCommonAtom confs) (d : Dist) (r : Nat) : NoCommonAtom (blockOf d confs r) :=
  List.Pairwise.sublist ((List.take_sublist _ _).trans (List.drop_sublist _ _)) h

variable (dip : τ → Dip K) (one : Nat → Conf K → τ → τ × ε) (good : Conf K → Prop)
  (hoff : ∀ ci c s, good c → DipOff c (dip (one ci c s).1) (dip s))

include hoff in
theorem rest_on {c : Conf K} {cs : List (Conf K)} (hA : NoCommonAtom (c :: cs)) (hg : good c) (ci : Nat) (s : τ) (c' : Conf K) (hc' : c' ∈ cs) :
    DipOn c' (dip (one ci c s).1) (dip s) :=
  on_of_off (hoff ci c s hg) (fun a ha => (List.pairwise_cons.1 hA).1 c' hc' a ha)

include hoff in
/-- As long as the dipoles of the configurations are `d₀`, it makes no difference to set them to `d₀` first. -/
theorem loop_fix (d₀ : Dip K) (fix : Conf K → τ → τ) (hfix : ∀ c s, DipOn c (dip s) d₀ → fix c s = s) (cs : List (Conf K))
    (hA : NoCommonAtom cs) (hg : ∀ c ∈ cs, good c) (ci : Nat) (s : τ × ε) (hs : ∀ c ∈ cs, DipOn c (dip s.1) d₀) :
    confLoop one cs ci s = confLoop (fun ci c s => one ci c (fix c s)) cs ci s := by
  induction cs generalizing ci s with
  | nil => rfl
  | cons c cs ih =>
    simp only [confLoop]
    rw [hfix c s.1 (hs c (List.mem_cons_self ..))]
    exact ih (List.pairwise_cons.1 hA).2 (fun c hc => hg c (List.mem_cons_of_mem _ hc)) _ _ fun c' hc' =>
      (rest_on dip one good hoff hA (hg c (List.mem_cons_self ..)) ci s.1 c' hc').trans (hs c' (List.mem_cons_of_mem _ hc'))

include hoff in
theorem loop_rest (cs : List (Conf K)) (hg : ∀ c ∈ cs, good c) (ci : Nat) (s : τ × ε) (c : Conf K)
    (hd : ∀ c' ∈ cs, ∀ a, Member c a → ¬ Member c' a) : DipOn c (dip (confLoop one cs ci s).1) (dip s.1) := by
  induction cs generalizing ci s with
  | nil => exact ⟨fun _ _ => rfl, fun _ _ => rfl, fun _ _ => rfl, fun _ _ => rfl, fun _ _ => rfl⟩
  | cons c' cs ih =>
    simp only [confLoop]
    exact (ih (fun c hc => hg c (List.mem_cons_of_mem _ hc)) _ _ (fun c' hc' => hd c' (List.mem_cons_of_mem _ hc'))).trans
      (on_of_off (hoff ci c' s.1 (hg c' (List.mem_cons_self ..))) (hd c' (List.mem_cons_self ..)))

include hoff in
/-- The dipoles of a configuration after the loop are those after its own evaluation. -/
theorem loop_dipoles (hon : ∀ ci ci' c s t, good c → DipOn c (dip s) (dip t) → DipOn c (dip (one ci c s).1) (dip (one ci' c t).1))
    (cs : List (Conf K)) (hA : NoCommonAtom cs) (hg : ∀ c ∈ cs, good c) (ci : Nat) (s : τ × ε) (t : τ)
    (hs : ∀ c ∈ cs, DipOn c (dip s.1) (dip t)) (c : Conf K) (hc : c ∈ cs) :
    DipOn c (dip (confLoop one cs ci s).1) (dip (one 0 c t).1) := by
  induction cs generalizing ci s with
  | nil => simp at hc
  | cons c' cs ih =>
    simp only [confLoop]
    rcases List.mem_cons.1 hc with rfl | hc
    · refine (loop_rest dip one good hoff cs (fun c hc => hg c (List.mem_cons_of_mem _ hc)) _ _ c fun c' hc' a h1 h2 => ?_).trans
        (hon ci 0 c s.1 t (hg c (List.mem_cons_self ..)) (hs c (List.mem_cons_self ..)))
      exact (List.pairwise_cons.1 hA).1 c' hc' a h2 h1
    · exact ih (List.pairwise_cons.1 hA).2 (fun c hc => hg c (List.mem_cons_of_mem _ hc)) _ _
        (fun c'' hc'' => (rest_on dip one good hoff hA (hg c' (List.mem_cons_self ..)) ci s.1 c'' hc'').trans
          (hs c'' (List.mem_cons_of_mem _ hc''))) hc

include hoff in
/-- One evaluation in parallel and serially. -/
theorem dip_parallel (hon : ∀ ci ci' c s t, good c → DipOn c (dip s) (dip t) → DipOn c (dip (one ci c s).1) (dip (one ci' c t).1))
    (fv : τ → FV K) (b : Build) (lim : Bool) (fix : Dip K → Conf K → τ → τ) (hfix : ∀ d₀ c s, DipOn c (dip s) d₀ → fix d₀ c s = s)
    (hw : ∀ d₀ c, good c → ∃ f e st l r, OwnWrites fv b lim c (fun ci c s => one ci c (fix d₀ c s)) f e st l r)
    (confs : List (Conf K)) (hn : Numbered confs) (hg : ∀ c ∈ confs, good c) (P : Nat) (hP : 0 < P) (d : Dist)
    (hd : distribute (inconf confs) confs.length P = some d) (init : Nat → τ) (init0 : τ)
    (hs : ∀ r < P, SameDipoles (blockOf d confs r) (dip (init r)) (dip init0)) :
    ((parallelRun b (fun s => (fv s).get) one d P confs init).2 = (serialRun (fun s => (fv s).get) one confs init0).2 ∧
    ∀ x, ResultCell b lim confs x →
      (parallelRun b (fun s => (fv s).get) one d P confs init).1 x = (serialRun (fun s => (fv s).get) one confs init0).1 x) ∧
    ∀ r < P, SameDipoles (blockOf d confs r) (dip (rankRun one d confs init r).1) (dip (confLoop one confs 0 (init0, 0)).1) := by
  have hA := apart_numbered confs hn
  have hmem : ∀ r, ∀ c ∈ blockOf d confs r, c ∈ confs := fun r c hc => List.mem_of_mem_drop (List.mem_of_mem_take hc)
  have hs' : ∀ r < P, ∀ c ∈ blockOf d confs r, DipOn c (dip (init r)) (dip init0) := fun r hr => (same_iff _ _ _).1 (hs r hr)
  have hrefl : ∀ (c : Conf K) (d : Dip K), DipOn c d d := fun c d =>
    ⟨fun _ _ => rfl, fun _ _ => rfl, fun _ _ => rfl, fun _ _ => rfl, fun _ _ => rfl⟩
  constructor
  · obtain ⟨h1, h2⟩ := own_parallel fv b lim (fun ci c s => one ci c (fix (dip init0) c s)) good (fun c hc => hw _ c hc) confs hn hg P hP
      d hd init init0
    have hser : confLoop one confs 0 (init0, 0) = confLoop (fun ci c s => one ci c (fix (dip init0) c s)) confs 0 (init0, (0 : ε)) :=
      loop_fix dip one good hoff _ _ (hfix _) confs hA hg 0 (init0, 0) (fun c _ => hrefl c _)
    have hpar : ∀ r < P, rankRun one d confs init r = rankRun (fun ci c s => one ci c (fix (dip init0) c s)) d confs init r :=
      fun r hr => loop_fix dip one good hoff _ _ (hfix _) (blockOf d confs r) (apart_block hA d r) (fun c hc => hg c (hmem r c hc)) _
        (init r, 0) (hs' r hr)
    have hsr : serialRun (fun s => (fv s).get) one confs init0 =
        serialRun (fun s => (fv s).get) (fun ci c s => one ci c (fix (dip init0) c s)) confs init0 := by
      unfold serialRun; rw [hser]
    have hpr : parallelRun b (fun s => (fv s).get) one d P confs init =
        parallelRun b (fun s => (fv s).get) (fun ci c s => one ci c (fix (dip init0) c s)) d P confs init := by
      unfold parallelRun
      congr 1
      · unfold gather
        simp only
        rw [hpar 0 hP]
        apply List.foldl_ext
        intro m r hr
        rw [hpar r (List.mem_range.1 hr)]
      · congr 1
        apply List.map_congr_left
        intro r hr
        rw [hpar r (List.mem_range.1 hr)]
    rw [hsr, hpr]
    exact ⟨h1, h2⟩
  · intro r hr
    refine (same_iff _ _ _).2 fun c hc => ?_
    have e1 := loop_dipoles dip one good hoff hon (blockOf d confs r) (apart_block hA d r) (fun c hc => hg c (hmem r c hc))
      (d.confDist r).toNat (init r, (0 : ε)) init0 (hs' r hr) c hc
    have e2 := loop_dipoles dip one good hoff hon confs hA hg 0 (init0, (0 : ε)) init0 (fun c _ => hrefl c _) c (hmem r c hc)
    exact e1.trans e2.symm

end

/-! ### The two routines -/

/-- Sums of a configuration at its end. -/
def elSum (b : Build) (P : Pots K) (E : Elec K) (ew sw : K) (c : Conf K) (s : ElState K) : Acc K :=
  elFinish b true E ew sw c (elDipoles b true P E c s).pInd (elStart b true P E c s).acc

theorem elSum_on (b : Build) (P : Pots K) (E : Elec K) (ew sw : K) (c : Conf K) (hh : HalfList c) (s t : ElState K)
    (h : DipOn c s.dip t.dip) : AccOn c (elSum b P E ew sw c s) (elSum b P E ew sw c t) :=
  finish_on b E ew sw c hh (elDipoles_on b P E c hh s t h).pInd (elStart_on b P E c s t).acc

theorem elSum_off (b : Build) (P : Pots K) (E : Elec K) (ew sw : K) (c : Conf K) (hh : HalfList c) (s : ElState K) :
    Off c (elSum b P E ew sw c s).force s.fv.force :=
  finish_off b E ew sw c hh _ (elStart_off b P E c hh s).force

def elFix (d₀ : Dip K) (c : Conf K) (s : ElState K) : ElState K := ⟨s.fv, blend c d₀ s.dip⟩

theorem el_dip_own (b : Build) (P : Pots K) (E : Elec K) (ew sw : K) (d₀ : Dip K) (c : Conf K) (hh : HalfList c) :
    ∃ f e st l r, OwnWrites (fun s : ElState K => s.fv) b false c (fun ci c s => elConf b true P E ew sw ci c (elFix d₀ c s)) f e st l r := by
  have hz := fun s : ElState K => elSum_on b P E ew sw c hh (elFix d₀ c s) (elFix d₀ c ⟨⟨0, 0, 0, 0⟩, d₀⟩) (blend_on c d₀ _ _)
  generalize elSum b P E ew sw c (elFix d₀ c ⟨⟨0, 0, 0, 0⟩, d₀⟩) = z at hz
  refine ⟨z.force, z.energy, z.stress, 0, z.err, ?_, ?_, ?_, ?_, ?_, ?_⟩
  · intro ci s a
    split
    · next ha => exact (hz s).force a ha
    · next ha => exact elSum_off b P E ew sw c hh (elFix d₀ c s) a ha
  · intro ci s
    show Function.update s.fv.energy ci (elSum b P E ew sw c (elFix d₀ c s)).energy = _
    rw [(hz s).energy]
  · intro ci s
    show (if b.stress then Function.update s.fv.stress ci (elSum b P E ew sw c (elFix d₀ c s)).stress else s.fv.stress) = _
    rw [(hz s).stress]
  · intro ci s h; simp at h
  · intro ci s _; rfl
  · intro ci s; exact (hz s).err

/-- Sums of a configuration at its end. -/
def eeSum (b : Build) (P : EamPots K) (E : Elec K) (ew sw : K) (c : Conf K) (s : EeState K) : Acc K :=
  eeFinish b true P E ew sw c (eeDipoles b true P E c s).pInd (eeStart b true P E c s).gradF (eeStart b true P E c s).el.acc

theorem eeSum_on (b : Build) (P : EamPots K) (E : Elec K) (ew sw : K) (c : Conf K) (hh : HalfList c) (s t : EeState K)
    (h : DipOn c s.dip t.dip) : AccOn c (eeSum b P E ew sw c s) (eeSum b P E ew sw c t) :=
  eeFinish_on b P E ew sw c hh (eeDipoles_on b P E c hh s t h).pInd
    (fun a ha => (eeStart_on b P E c s t).gradF a ha.1 ha.2) (eeStart_on b P E c s t).el.acc

theorem eeSum_off (b : Build) (P : EamPots K) (E : Elec K) (ew sw : K) (c : Conf K) (hh : HalfList c) (s : EeState K) :
    Off c (eeSum b P E ew sw c s).force s.fv.force :=
  eeFinish_off b P E ew sw c hh _ _ (eeStart_off b P E c hh s).force

def eeFix (d₀ : Dip K) (c : Conf K) (s : EeState K) : EeState K := { s with dip := blend c d₀ s.dip }

theorem ee_dip_own (b : Build) (P : EamPots K) (E : Elec K) (ew sw : K) (d₀ : Dip K) (c : Conf K) (hh : HalfList c) :
    ∃ f e st l r, OwnWrites (fun s : EeState K => s.fv) b.clamped true c
      (fun ci c s => eeConf b true P E ew sw ci c (eeFix d₀ c s)) f e st l r := by
  have hz := fun s : EeState K => eeSum_on b P E ew sw c hh (eeFix d₀ c s) (eeFix d₀ c ⟨⟨0, 0, 0, 0⟩, d₀, 0, 0⟩) (blend_on c d₀ _ _)
  have hy := fun s : EeState K => eeStart_on b P E c (eeFix d₀ c s) (eeFix d₀ c ⟨⟨0, 0, 0, 0⟩, d₀, 0, 0⟩)
  generalize eeSum b P E ew sw c (eeFix d₀ c ⟨⟨0, 0, 0, 0⟩, d₀, 0, 0⟩) = z at hz
  generalize eeStart b true P E c (eeFix d₀ c ⟨⟨0, 0, 0, 0⟩, d₀, 0, 0⟩) = y at hy
  refine ⟨z.force, z.energy, z.stress, y.limit, (z.err + c.weight * (y.limit * y.limit), y.rhoSum), ?_, ?_, ?_, ?_, ?_, ?_⟩
  · intro ci s a
    split
    · next ha => exact (hz s).force a ha
    · next ha => exact eeSum_off b P E ew sw c hh (eeFix d₀ c s) a ha
  · intro ci s
    show Function.update s.fv.energy ci (eeSum b P E ew sw c (eeFix d₀ c s)).energy = _
    rw [(hz s).energy]
  · intro ci s
    show (if b.stress then Function.update s.fv.stress ci (eeSum b P E ew sw c (eeFix d₀ c s)).stress else s.fv.stress) = _
    rw [(hz s).stress]
    rfl
  · intro ci s _ _
    show Function.update s.fv.limit ci (eeStart b true P E c (eeFix d₀ c s)).limit = _
    rw [(hy s).limit]
  · intro ci s h; simp at h
  · intro ci s
    show ((eeSum b P E ew sw c (eeFix d₀ c s)).err + c.weight * ((eeStart b true P E c (eeFix d₀ c s)).limit *
      (eeStart b true P E c (eeFix d₀ c s)).limit), (eeStart b true P E c (eeFix d₀ c s)).rhoSum) = _
    rw [(hz s).err, (hy s).limit, (hy s).rhoSum]

/-! ### The claims -/

/-- One evaluation of pair potentials with charges and dipoles: if every process starts with the dipoles which the serial program has
on the atoms of that process, the error sum and all forces, energies and stresses are those of the serial program, and so are the
dipoles afterwards. -/
theorem C111_evaluation (b : Build) (pots : Pots K) (E : Elec K) (ew sw : K) (confs : List (Conf K)) (hn : Numbered confs)
    (hh : ∀ c ∈ confs, HalfList c) (P : Nat) (hP : 0 < P) (d : Dist) (hd : distribute (inconf confs) confs.length P = some d)
    (init : Nat → ElState K) (init0 : ElState K) (hs : ∀ r < P, SameDipoles (blockOf d confs r) (init r).dip init0.dip) :
    let par := parallelRun b (fun s => s.fv.get) (elConf b true pots E ew sw) d P confs init
    let ser := serialRun (fun s => s.fv.get) (elConf b true pots E ew sw) confs init0
    (par.2 = ser.2 ∧ ∀ x, ResultCell b false confs x → par.1 x = ser.1 x) ∧
    ∀ r < P, SameDipoles (blockOf d confs r) (rankRun (elConf b true pots E ew sw) d confs init r).1.dip
      (confLoop (elConf b true pots E ew sw) confs 0 (init0, 0)).1.dip :=
  dip_parallel (fun s : ElState K => s.dip) (elConf b true pots E ew sw) HalfList
    (fun _ c s hc => elDipoles_off b pots E c hc s) (fun _ _ c s t hc h => elDipoles_on b pots E c hc s t h)
    (fun s : ElState K => s.fv) b false elFix (fun d₀ c s h => by unfold elFix; rw [blend_self h])
    (fun d₀ c hc => el_dip_own b pots E ew sw d₀ c hc) confs hn hh P hP d hd init init0 hs

/-- The same for EAM potentials with charges and dipoles (this routine gathers the limiting constraints in every build). -/
theorem C111_evaluation_eam (b : Build) (pots : EamPots K) (E : Elec K) (ew sw : K) (confs : List (Conf K)) (hn : Numbered confs)
    (hh : ∀ c ∈ confs, HalfList c) (P : Nat) (hP : 0 < P) (d : Dist) (hd : distribute (inconf confs) confs.length P = some d)
    (init : Nat → EeState K) (init0 : EeState K) (hs : ∀ r < P, SameDipoles (blockOf d confs r) (init r).dip init0.dip) :
    let par := parallelRun b.clamped (fun s => s.fv.get) (eeConf b true pots E ew sw) d P confs init
    let ser := serialRun (fun s => s.fv.get) (eeConf b true pots E ew sw) confs init0
    (par.2 = ser.2 ∧ ∀ x, ResultCell b.clamped true confs x → par.1 x = ser.1 x) ∧
    ∀ r < P, SameDipoles (blockOf d confs r) (rankRun (eeConf b true pots E ew sw) d confs init r).1.dip
      (confLoop (eeConf b true pots E ew sw) confs 0 (init0, (0, 0))).1.dip :=
  dip_parallel (fun s : EeState K => s.dip) (eeConf b true pots E ew sw) HalfList
    (fun _ c s hc => eeDipoles_off b pots E c hc s) (fun _ _ c s t hc h => eeDipoles_on b pots E c hc s t h)
    (fun s : EeState K => s.fv) b.clamped true eeFix (fun d₀ c s h => by unfold eeFix; rw [blend_self h])
    (fun d₀ c hc => ee_dip_own b pots E ew sw d₀ c hc) confs hn hh P hP d hd init init0 hs

/-- Any sequence of evaluations, with potentials, charges and polarisabilities changing from one to the next: process `r` starts
evaluation `k + 1` with the dipoles it had after evaluation `k`, the serial program likewise; the force vectors at the start are
arbitrary.  All evaluations give the serial results. -/
theorem C111_fit (b : Build) (pots : Nat → Pots K) (E : Nat → Elec K) (ew sw : K) (confs : List (Conf K)) (hn : Numbered confs)
    (hh : ∀ c ∈ confs, HalfList c) (P : Nat) (hP : 0 < P) (d : Dist) (hd : distribute (inconf confs) confs.length P = some d)
    (init : Nat → Nat → ElState K) (init0 : Nat → ElState K)
    (hs : ∀ r < P, SameDipoles (blockOf d confs r) (init 0 r).dip (init0 0).dip)
    (hpar : ∀ k, ∀ r < P, (init (k + 1) r).dip = (rankRun (elConf b true (pots k) (E k) ew sw) d confs (init k) r).1.dip)
    (hser : ∀ k, (init0 (k + 1)).dip = (confLoop (elConf b true (pots k) (E k) ew sw) confs 0 (init0 k, 0)).1.dip) (k : Nat) :
    let par := parallelRun b (fun s => s.fv.get) (elConf b true (pots k) (E k) ew sw) d P confs (init k)
    let ser := serialRun (fun s => s.fv.get) (elConf b true (pots k) (E k) ew sw) confs (init0 k)
    par.2 = ser.2 ∧ ∀ x, ResultCell b false confs x → par.1 x = ser.1 x := by
  have key : ∀ k, ∀ r < P, SameDipoles (blockOf d confs r) (init k r).dip (init0 k).dip := by
    intro k
    induction k with
    | zero => exact hs
    | succ k ih =>
      intro r hr
      rw [hpar k r hr, hser k]
      exact (C111_evaluation b (pots k) (E k) ew sw confs hn hh P hP d hd (init k) (init0 k) ih).2 r hr
  exact (C111_evaluation b (pots k) (E k) ew sw confs hn hh P hP d hd (init k) (init0 k) (key k)).1

/-- The same for EAM potentials with charges and dipoles. -/
theorem C111_fit_eam (b : Build) (pots : Nat → EamPots K) (E : Nat → Elec K) (ew sw : K) (confs : List (Conf K)) (hn : Numbered confs)
    (hh : ∀ c ∈ confs, HalfList c) (P : Nat) (hP : 0 < P) (d : Dist) (hd : distribute (inconf confs) confs.length P = some d)
    (init : Nat → Nat → EeState K) (init0 : Nat → EeState K)
    (hs : ∀ r < P, SameDipoles (blockOf d confs r) (init 0 r).dip (init0 0).dip)
    (hpar : ∀ k, ∀ r < P, (init (k + 1) r).dip = (rankRun (eeConf b true (pots k) (E k) ew sw) d confs (init k) r).1.dip)
    (hser : ∀ k, (init0 (k + 1)).dip = (confLoop (eeConf b true (pots k) (E k) ew sw) confs 0 (init0 k, (0, 0))).1.dip) (k : Nat) :
    let par := parallelRun b.clamped (fun s => s.fv.get) (eeConf b true (pots k) (E k) ew sw) d P confs (init k)
    let ser := serialRun (fun s => s.fv.get) (eeConf b true (pots k) (E k) ew sw) confs (init0 k)
    par.2 = ser.2 ∧ ∀ x, ResultCell b.clamped true confs x → par.1 x = ser.1 x := by
  have key : ∀ k, ∀ r < P, SameDipoles (blockOf d confs r) (init k r).dip (init0 k).dip := by
    intro k
    induction k with
    | zero => exact hs
    | succ k ih =>
      intro r hr
      rw [hpar k r hr, hser k]
      exact (C111_evaluation_eam b (pots k) (E k) ew sw confs hn hh P hP d hd (init k) (init0 k) ih).2 r hr
  exact (C111_evaluation_eam b (pots k) (E k) ew sw confs hn hh P hP d hd (init k) (init0 k) (key k)).1

/-- Bare Coulomb interaction with polarisable ions; one round of the iteration is enough for this tolerance. -/
def dipE : Elec ℚ where
  cut := 100
  charge := fun t => if t = 0 then 1 else -1
  alpha := fun _ => 1 / 10
  b := 0
  c := 0
  tail := fun r => ⟨1 / r, -(1 / r ^ 3), 3 / r ^ 5⟩
  srValue := fun _ _ _ _ => 0
  srTerm := fun _ _ _ => 0
  selfCoef := 0
  mix := 0
  tol := 1000000
  sqrt := id

/-- No dipoles, as at the start of the program. -/
def noDip : Dip ℚ := ⟨0, 0, 0, 0, 0⟩

def dipPots : Pots ℚ := exPots.toPots

/-- The hypotheses are met by two configurations on two ranks which start without dipoles; the second evaluation of the same
potential gives another value, because it starts with the dipoles of the first one. -/
example : (distribute (inconf [exConf, exConf2]) 2 2).isSome = true ∧ Numbered [exConf, exConf2] ∧
    (∀ c ∈ [exConf, exConf2], HalfList c) ∧ (∀ cs : List (Conf ℚ), SameDipoles cs noDip noDip) ∧
    (let one := elConf exBuild true dipPots dipE 1 1
     let r := confLoop one [exConf, exConf2] 0 (⟨⟨0, 0, 0, 0⟩, noDip⟩, 0)
     (confLoop one [exConf, exConf2] 0 (r.1, 0)).2 ≠ r.2) :=
  ⟨by decide, exConfs_numbered, fun c hc => (reportConfs_half c hc).1, fun _ _ _ _ _ => rfl, by decide +kernel⟩

end Verif.Props
