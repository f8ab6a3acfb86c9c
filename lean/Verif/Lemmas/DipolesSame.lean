/-
Evaluation of a configuration with induced dipoles from two states with the same dipoles of the configuration: forces, energy,
stresses, error and the new dipoles are the same, and nothing outside of the configuration changes.
-/
import Verif.Lemmas.Dipoles
import Verif.Lemmas.FullRun
import Verif.Lemmas.OwnEntries
import Verif.Model.ForceEamElstat

set_option linter.unusedSectionVars false

namespace Verif.Force

open Verif.Spec Verif.Mpi

variable {K : Type*} [Field K] [LinearOrder K] [IsStrictOrderedRing K]

/-- A loop over neighbours keeps a relation of two states. -/
theorem overNeigh_rel {σ σ' : Type*} (R : σ → σ' → Prop) (body : Nat → Nat → σ → Neigh K → σ) (body' : Nat → Nat → σ' → Neigh K → σ')
    (as : List (Atom K)) (i : Nat) (h : ∀ e ∈ entriesFrom i as, ∀ s s', R s s' → R (body e.own e.otyp s e.n) (body' e.own e.otyp s' e.n))
    (s : σ) (s' : σ') (hs : R s s') : R (overNeigh body as i s) (overNeigh body' as i s') := by
  rw [overNeigh_eq, overNeigh_eq]
  generalize entriesFrom i as = l at h
  induction l generalizing s s' with
  | nil => exact hs
  | cons e l ih => exact ih _ _ (h e (List.mem_cons_self ..) _ _ hs) (fun e he => h e (List.mem_cons_of_mem _ he))

/-- Two functions agree on the atoms of a configuration. -/
def On {β : Type*} (c : Conf K) (f g : Nat → β) : Prop := ∀ a, Member c a → f a = g a

/-- Two functions agree on all other atoms. -/
def Off {β : Type*} (c : Conf K) (f g : Nat → β) : Prop := ∀ a, ¬ Member c a → f a = g a

theorem On.addAt {c : Conf K} {f g : Nat → V3 K} (h : On c f g) (i : Nat) {v w : V3 K} (hv : v = w) : On c (addAt f i v) (addAt g i w) := by
  subst hv
  intro a ha
  unfold Force.addAt
  by_cases e : a = i
  · subst e; rw [Function.update_self, Function.update_self, h a ha]
  · rw [Function.update_of_ne e, Function.update_of_ne e, h a ha]

theorem Off.addAt {c : Conf K} {f g : Nat → V3 K} (h : Off c f g) {i : Nat} (hi : Member c i) (v : V3 K) : Off c (addAt f i v) g := by
  intro a ha
  unfold Force.addAt
  have e : a ≠ i := fun e => ha (e ▸ hi)
  rw [Function.update_of_ne e, h a ha]

theorem On.update {β : Type*} {c : Conf K} {f g : Nat → β} (h : On c f g) (i : Nat) {v w : β} (hv : v = w) :
    On c (Function.update f i v) (Function.update g i w) := by
  subst hv
  intro a ha
  by_cases e : a = i
  · subst e; rw [Function.update_self, Function.update_self]
  · rw [Function.update_of_ne e, Function.update_of_ne e, h a ha]

theorem Off.update {β : Type*} {c : Conf K} {f g : Nat → β} (h : Off c f g) {i : Nat} (hi : Member c i) (v : β) :
    Off c (Function.update f i v) g := by
  intro a ha
  have e : a ≠ i := fun e => ha (e ▸ hi)
  rw [Function.update_of_ne e, h a ha]

/-- Running sums which agree as far as the configuration is concerned. -/
structure AccOn (c : Conf K) (s t : Acc K) : Prop where
  force : On c s.force t.force
  energy : s.energy = t.energy
  stress : s.stress = t.stress
  err : s.err = t.err

theorem AccOn.scatter {c : Conf K} {s t : Acc K} (h : AccOn c s t) (b : Build) (us : Bool) (i : Nat) (n : Neigh K) {v w : V3 K}
    (hv : v = w) : AccOn c (applyForce b us i n v s) (applyForce b us i n w t) := by
  subst hv
  exact ⟨(h.force.addAt i rfl).addAt n.nr rfl, h.energy, by simp only [applyForce]; rw [h.stress], h.err⟩

theorem AccOn.add {c : Conf K} {s t : Acc K} (h : AccOn c s t) {x y : K} (hx : x = y) :
    AccOn c { s with energy := s.energy + x } { t with energy := t.energy + y } :=
  ⟨h.force, by simp only; rw [h.energy, hx], h.stress, h.err⟩

theorem AccOn.pair {c : Conf K} {s t : Acc K} (h : AccOn c s t) (b : Build) (P : Pots K) (uf us : Bool) (i : Nat) (n : Neigh K) :
    AccOn c (pairNeigh b P uf us i s n) (pairNeigh b P uf us i t n) := by
  unfold pairNeigh
  split
  · cases uf
    · exact h.add rfl
    · exact (h.add rfl).scatter b us i n rfl
  · exact h

theorem AccOn.mono {c : Conf K} {s t : Acc K} (h : AccOn c s t) (b : Build) (E : Elec K) (uf us : Bool) (i typ : Nat) (n : Neigh K) :
    AccOn c (monoNeigh b E uf us i typ s n) (monoNeigh b E uf us i typ t n) := by
  unfold monoNeigh
  split
  · cases uf
    · exact h.add rfl
    · exact (h.add rfl).scatter b us i n rfl
  · exact h

theorem off_pair {c : Conf K} {s : Acc K} {f : Nat → V3 K} (h : Off c s.force f) (b : Build) (P : Pots K) (uf us : Bool) {i : Nat}
    {n : Neigh K} (hi : Member c i) (hn : Member c n.nr) : Off c (pairNeigh b P uf us i s n).force f := by
  unfold pairNeigh
  split
  · cases uf
    · exact h
    · exact (h.addAt hi _).addAt hn _
  · exact h

theorem off_mono {c : Conf K} {s : Acc K} {f : Nat → V3 K} (h : Off c s.force f) (b : Build) (E : Elec K) (uf us : Bool) {i : Nat}
    (typ : Nat) {n : Neigh K} (hi : Member c i) (hn : Member c n.nr) : Off c (monoNeigh b E uf us i typ s n).force f := by
  unfold monoNeigh
  split
  · cases uf
    · exact h
    · exact (h.addAt hi _).addAt hn _
  · exact h

theorem on_stat {c : Conf K} {f g : Nat → V3 K} (h : On c f g) (E : Elec K) (i typ : Nat) (n : Neigh K) :
    On c (statNeigh E i typ f n) (statNeigh E i typ g n) := by
  unfold statNeigh
  split
  · exact (h.addAt _ rfl).addAt _ rfl
  · exact h

theorem off_stat {c : Conf K} {f g : Nat → V3 K} (h : Off c f g) (E : Elec K) {i : Nat} (typ : Nat) {n : Neigh K} (hi : Member c i)
    (hn : Member c n.nr) : Off c (statNeigh E i typ f n) g := by
  unfold statNeigh
  split
  · exact (h.addAt hi _).addAt hn _
  · exact h

theorem on_sr {c : Conf K} {f g : Nat → V3 K} (h : On c f g) (E : Elec K) (i typ : Nat) (n : Neigh K) :
    On c (srNeigh E i typ f n) (srNeigh E i typ g n) := by
  unfold srNeigh
  dsimp only
  split
  · split
    · split
      · exact (h.addAt _ rfl).addAt _ rfl
      · exact h.addAt _ rfl
    · split
      · exact h.addAt _ rfl
      · exact h
  · exact h

theorem off_sr {c : Conf K} {f g : Nat → V3 K} (h : Off c f g) (E : Elec K) {i : Nat} (typ : Nat) {n : Neigh K} (hi : Member c i)
    (hn : Member c n.nr) : Off c (srNeigh E i typ f n) g := by
  unfold srNeigh
  dsimp only
  split
  · split
    · split
      · exact (h.addAt hi _).addAt hn _
      · exact h.addAt hn _
    · split
      · exact h.addAt hi _
      · exact h
  · exact h

theorem half_members {c : Conf K} (hh : HalfList c) {e : Entry K} (he : e ∈ entriesFrom c.start c.atoms) :
    Member c e.own ∧ Member c e.n.nr := by
  have h1 := entriesFrom_ge he
  have h2 := hh e he
  exact ⟨h1, by unfold Member; omega⟩

/-! ### The second loop -/

structure ElOn (c : Conf K) (s t : ElAcc K) : Prop where
  acc : AccOn c s.acc t.acc
  eStat : On c s.eStat t.eStat
  pSr : On c s.pSr t.pSr

structure ElOff (c : Conf K) (s : ElAcc K) (f e p : Nat → V3 K) : Prop where
  force : Off c s.acc.force f
  eStat : Off c s.eStat e
  pSr : Off c s.pSr p

theorem elOn_step {c : Conf K} {s t : ElAcc K} (h : ElOn c s t) (b : Build) (dip : Bool) (P : Pots K) (E : Elec K) (uf us : Bool)
    (i typ : Nat) (n : Neigh K) : ElOn c (elNeigh2 b dip P E uf us i typ s n) (elNeigh2 b dip P E uf us i typ t n) := by
  refine ⟨(h.acc.pair b P uf us i n).mono b E uf us i typ n, ?_, ?_⟩
  · cases dip
    · exact h.eStat
    · exact on_stat h.eStat E i typ n
  · cases dip
    · exact h.pSr
    · exact on_sr h.pSr E i typ n

theorem elOff_step {c : Conf K} {s : ElAcc K} {f e p : Nat → V3 K} (h : ElOff c s f e p) (b : Build) (dip : Bool) (P : Pots K)
    (E : Elec K) (uf us : Bool) {i : Nat} (typ : Nat) {n : Neigh K} (hi : Member c i) (hn : Member c n.nr) :
    ElOff c (elNeigh2 b dip P E uf us i typ s n) f e p := by
  refine ⟨off_mono (off_pair h.force b P uf us hi hn) b E uf us typ hi hn, ?_, ?_⟩
  · cases dip
    · exact h.eStat
    · exact off_stat h.eStat E typ hi hn
  · cases dip
    · exact h.pSr
    · exact off_sr h.pSr E typ hi hn

theorem on_reset (c : Conf K) (f g : Nat → V3 K) : On c (resetForces c f) (resetForces c g) := by
  intro a ha
  have ha : c.start ≤ a ∧ a < c.start + c.atoms.length := ha
  simp only [resetForces, if_pos ha]

theorem off_reset (c : Conf K) (f : Nat → V3 K) : Off c (resetForces c f) f := by
  intro a ha
  have ha : ¬ (c.start ≤ a ∧ a < c.start + c.atoms.length) := ha
  simp only [resetForces, if_neg ha]

theorem on_zero (c : Conf K) (f g : Nat → V3 K) :
    On c (fun a => if true = true ∧ c.start ≤ a ∧ a < c.start + c.atoms.length then 0 else f a)
      (fun a => if true = true ∧ c.start ≤ a ∧ a < c.start + c.atoms.length then 0 else g a) := by
  intro a ha
  have ha : c.start ≤ a ∧ a < c.start + c.atoms.length := ha
  simp [ha]

theorem off_zero (c : Conf K) (f : Nat → V3 K) :
    Off c (fun a => if true = true ∧ c.start ≤ a ∧ a < c.start + c.atoms.length then 0 else f a) f := by
  intro a ha
  have ha : ¬ (c.start ≤ a ∧ a < c.start + c.atoms.length) := ha
  show (if _ then _ else _) = _
  rw [if_neg (fun h => ha h.2)]

theorem elStart_on (b : Build) (P : Pots K) (E : Elec K) (c : Conf K) (s t : ElState K) :
    ElOn c (elStart b true P E c s) (elStart b true P E c t) := by
  unfold elStart
  exact overNeigh_rel (ElOn c) _ _ _ _ (fun e _ s t h => elOn_step h b true P E _ _ _ _ _) _ _
    ⟨⟨on_reset c _ _, rfl, rfl, rfl⟩, on_zero c _ _, on_zero c _ _⟩

theorem elStart_off (b : Build) (P : Pots K) (E : Elec K) (c : Conf K) (hh : HalfList c) (s : ElState K) :
    ElOff c (elStart b true P E c s) s.fv.force s.dip.eStat s.dip.pSr := by
  unfold elStart
  exact overNeigh_rel (fun u (_ : Unit) => ElOff c u s.fv.force s.dip.eStat s.dip.pSr) _ (fun _ _ u _ => u) _ _
    (fun e he u _ h => elOff_step h b true P E _ _ _ (half_members hh he).1 (half_members hh he).2) _ ()
    ⟨off_reset c _, off_zero c _, off_zero c _⟩

/-! ### The iteration -/

/-- Everything kept with the atoms of a configuration is the same. -/
structure DipOn (c : Conf K) (d d' : Dip K) : Prop where
  eStat : On c d.eStat d'.eStat
  eInd : On c d.eInd d'.eInd
  eOld : On c d.eOld d'.eOld
  pInd : On c d.pInd d'.pInd
  pSr : On c d.pSr d'.pSr

/-- Everything kept with the other atoms is the same. -/
structure DipOff (c : Conf K) (d d' : Dip K) : Prop where
  eStat : Off c d.eStat d'.eStat
  eInd : Off c d.eInd d'.eInd
  eOld : Off c d.eOld d'.eOld
  pInd : Off c d.pInd d'.pInd
  pSr : Off c d.pSr d'.pSr

theorem DipOn.trans {c : Conf K} {d₁ d₂ d₃ : Dip K} (h : DipOn c d₁ d₂) (g : DipOn c d₂ d₃) : DipOn c d₁ d₃ :=
  ⟨fun a ha => (h.eStat a ha).trans (g.eStat a ha), fun a ha => (h.eInd a ha).trans (g.eInd a ha),
   fun a ha => (h.eOld a ha).trans (g.eOld a ha), fun a ha => (h.pInd a ha).trans (g.pInd a ha),
   fun a ha => (h.pSr a ha).trans (g.pSr a ha)⟩

theorem DipOn.symm {c : Conf K} {d₁ d₂ : Dip K} (h : DipOn c d₁ d₂) : DipOn c d₂ d₁ :=
  ⟨fun a ha => (h.eStat a ha).symm, fun a ha => (h.eInd a ha).symm, fun a ha => (h.eOld a ha).symm,
   fun a ha => (h.pInd a ha).symm, fun a ha => (h.pSr a ha).symm⟩

theorem dipTotal_on {c : Conf K} {d d' : Dip K} (h : DipOn c d d') (E : Elec K) (first : Bool) {i : Nat} (hi : Member c i) :
    dipTotal E first d i = dipTotal E first d' i := by
  funext k
  unfold dipTotal
  rw [h.eInd i hi, h.eOld i hi, h.eStat i hi]

theorem moments_on (E : Elec K) (first : Bool) (c : Conf K) (as : List (Atom K)) (i : Nat) (hi : c.start ≤ i)
    (hl : i + as.length ≤ c.start + c.atoms.length) (d d' : Dip K) (h : DipOn c d d') :
    DipOn c (dipMoments E first as i d) (dipMoments E first as i d') := by
  induction as generalizing i d d' with
  | nil => exact h
  | cons a as ih =>
    have hl : i + (as.length + 1) ≤ c.start + c.atoms.length := hl
    have hm : Member c i := ⟨hi, by omega⟩
    refine ih (i + 1) (by omega) (by omega) _ _ ?_
    split
    · exact ⟨h.eStat, h.eInd.update i rfl, h.eOld.update i (h.eInd i hm),
        h.pInd.update i (by rw [dipTotal_on h E first hm, h.pSr i hm]), h.pSr⟩
    · exact h

theorem moments_off (E : Elec K) (first : Bool) (c : Conf K) (as : List (Atom K)) (i : Nat) (hi : c.start ≤ i)
    (hl : i + as.length ≤ c.start + c.atoms.length) (d d' : Dip K) (h : DipOff c d d') :
    DipOff c (dipMoments E first as i d) d' := by
  induction as generalizing i d with
  | nil => exact h
  | cons a as ih =>
    have hl : i + (as.length + 1) ≤ c.start + c.atoms.length := hl
    have hm : Member c i := ⟨hi, by omega⟩
    refine ih (i + 1) (by omega) (by omega) _ ?_
    split
    · exact ⟨h.eStat, h.eInd.update hm _, h.eOld.update hm _, h.pInd.update hm _, h.pSr⟩
    · exact h

theorem giveUp_on (E : Elec K) (c : Conf K) (as : List (Atom K)) (i : Nat) (hi : c.start ≤ i)
    (hl : i + as.length ≤ c.start + c.atoms.length) (d d' : Dip K) (h : DipOn c d d') :
    DipOn c (dipGiveUp E as i d) (dipGiveUp E as i d') := by
  induction as generalizing i d d' with
  | nil => exact h
  | cons a as ih =>
    have hl : i + (as.length + 1) ≤ c.start + c.atoms.length := hl
    have hm : Member c i := ⟨hi, by omega⟩
    refine ih (i + 1) (by omega) (by omega) _ _ ?_
    split
    · exact ⟨h.eStat, h.eInd.update i (h.eStat i hm), h.eOld, h.pInd.update i (by rw [h.eStat i hm, h.pSr i hm]), h.pSr⟩
    · exact h

theorem giveUp_off (E : Elec K) (c : Conf K) (as : List (Atom K)) (i : Nat) (hi : c.start ≤ i)
    (hl : i + as.length ≤ c.start + c.atoms.length) (d d' : Dip K) (h : DipOff c d d') : DipOff c (dipGiveUp E as i d) d' := by
  induction as generalizing i d with
  | nil => exact h
  | cons a as ih =>
    have hl : i + (as.length + 1) ≤ c.start + c.atoms.length := hl
    have hm : Member c i := ⟨hi, by omega⟩
    refine ih (i + 1) (by omega) (by omega) _ ?_
    split
    · exact ⟨h.eStat, h.eInd.update hm _, h.eOld, h.pInd.update hm _, h.pSr⟩
    · exact h

theorem field_on {c : Conf K} {f g p q : Nat → V3 K} (h : On c f g) (hp : On c p q) (E : Elec K) {i : Nat} (typ : Nat) {n : Neigh K}
    (hi : Member c i) (hn : Member c n.nr) : On c (dipField E p i typ f n) (dipField E q i typ g n) := by
  unfold dipField
  dsimp only
  rw [hp i hi, hp n.nr hn]
  split
  · split
    · exact (h.addAt _ rfl).addAt _ rfl
    · exact h.addAt _ rfl
  · exact h

theorem field_off {c : Conf K} {f g : Nat → V3 K} (h : Off c f g) (p : Nat → V3 K) (E : Elec K) {i : Nat} (typ : Nat) {n : Neigh K}
    (hi : Member c i) (hn : Member c n.nr) : Off c (dipField E p i typ f n) g := by
  unfold dipField
  dsimp only
  split
  · split
    · exact (h.addAt hi _).addAt hn _
    · exact h.addAt hi _
  · exact h

theorem round_on (E : Elec K) (c : Conf K) (hh : HalfList c) (first : Bool) (d d' : Dip K) (h : DipOn c d d') :
    DipOn c (dipRound E c first d) (dipRound E c first d') := by
  have m := moments_on E first c c.atoms c.start le_rfl le_rfl d d' h
  refine ⟨m.eStat, ?_, m.eOld, m.pInd, m.pSr⟩
  exact overNeigh_rel (On c) _ _ _ _ (fun e he f g hf => field_on hf m.pInd E _ (half_members hh he).1 (half_members hh he).2) _ _ m.eInd

theorem round_off (E : Elec K) (c : Conf K) (hh : HalfList c) (first : Bool) (d d' : Dip K) (h : DipOff c d d') :
    DipOff c (dipRound E c first d) d' := by
  have m := moments_off E first c c.atoms c.start le_rfl le_rfl d d' h
  refine ⟨m.eStat, ?_, m.eOld, m.pInd, m.pSr⟩
  exact overNeigh_rel (fun f (_ : Unit) => Off c f d'.eInd) _ (fun _ _ u _ => u) _ _
    (fun e he f _ hf => field_off hf _ E _ (half_members hh he).1 (half_members hh he).2) _ () m.eInd

theorem change_on (E : Elec K) (c : Conf K) (d d' : Dip K) (h : DipOn c d d') (as : List (Atom K)) (i : Nat) (hi : c.start ≤ i)
    (hl : i + as.length ≤ c.start + c.atoms.length) (x : K) : dipChange E d as i x = dipChange E d' as i x := by
  induction as generalizing i x with
  | nil => rfl
  | cons a as ih =>
    have hl : i + (as.length + 1) ≤ c.start + c.atoms.length := hl
    have hm : Member c i := ⟨hi, by omega⟩
    simp only [dipChange]
    rw [h.eOld i hm, h.eInd i hm]
    exact ih (i + 1) (by omega) (by omega) _

theorem diff_on (E : Elec K) (c : Conf K) (d d' : Dip K) (h : DipOn c d d') : dipDiff E c d = dipDiff E c d' := by
  unfold dipDiff
  rw [change_on E c d d' h c.atoms c.start le_rfl le_rfl]

theorem iter_on (E : Elec K) (c : Conf K) (hh : HalfList c) (fuel it : Nat) (d d' : Dip K) (h : DipOn c d d') :
    (dipIter E c fuel it d = none ∧ dipIter E c fuel it d' = none) ∨
    ∃ r r', dipIter E c fuel it d = some r ∧ dipIter E c fuel it d' = some r' ∧ DipOn c r r' := by
  induction fuel generalizing it d d' with
  | zero => exact Or.inl ⟨rfl, rfl⟩
  | succ n ih =>
    have hr := round_on E c hh (it == 0) d d' h
    simp only [dipIter]
    rw [← diff_on E c _ _ hr]
    split
    · exact Or.inr ⟨_, _, rfl, rfl, giveUp_on E c c.atoms c.start le_rfl le_rfl _ _ hr⟩
    · split
      · exact Or.inr ⟨_, _, rfl, rfl, hr⟩
      · exact ih (it + 1) _ _ hr

theorem solve_on (E : Elec K) (c : Conf K) (hh : HalfList c) (d d' : Dip K) (h : DipOn c d d') :
    DipOn c (dipSolve E c d) (dipSolve E c d') := by
  unfold dipSolve
  rcases iter_on E c hh 52 0 d d' h with ⟨h1, h2⟩ | ⟨r, r', h1, h2, h3⟩
  · rw [h1, h2]; exact h
  · rw [h1, h2]; exact h3

theorem iter_off (E : Elec K) (c : Conf K) (hh : HalfList c) (fuel it : Nat) (d d' : Dip K) (h : DipOff c d d') (r : Dip K)
    (hr : dipIter E c fuel it d = some r) : DipOff c r d' := by
  induction fuel generalizing it d with
  | zero => simp [dipIter] at hr
  | succ n ih =>
    have ho := round_off E c hh (it == 0) d d' h
    simp only [dipIter] at hr
    split at hr
    · cases hr; exact giveUp_off E c c.atoms c.start le_rfl le_rfl _ _ ho
    · split at hr
      · cases hr; exact ho
      · exact ih (it + 1) _ ho hr

theorem solve_off (E : Elec K) (c : Conf K) (hh : HalfList c) (d d' : Dip K) (h : DipOff c d d') : DipOff c (dipSolve E c d) d' := by
  unfold dipSolve
  rcases hr : dipIter E c 52 0 d with _ | r
  · exact h
  · exact iter_off E c hh 52 0 d d' h r hr

theorem elDipoles_on (b : Build) (P : Pots K) (E : Elec K) (c : Conf K) (hh : HalfList c) (s t : ElState K)
    (h : DipOn c s.dip t.dip) : DipOn c (elDipoles b true P E c s) (elDipoles b true P E c t) := by
  have e := elStart_on b P E c s t
  exact solve_on E c hh _ _ ⟨e.eStat, h.eInd, h.eOld, h.pInd, e.pSr⟩

theorem elDipoles_off (b : Build) (P : Pots K) (E : Elec K) (c : Conf K) (hh : HalfList c) (s : ElState K) :
    DipOff c (elDipoles b true P E c s) s.dip := by
  have e := elStart_off b P E c hh s
  exact solve_off E c hh _ _ ⟨e.eStat, fun _ _ => rfl, fun _ _ => rfl, fun _ _ => rfl, e.pSr⟩

/-! ### The fourth and fifth loop -/

structure DaOn (c : Conf K) (s t : DipAcc K) : Prop where
  acc : AccOn c s.acc t.acc
  rpI : s.rpI = t.rpI
  rpJ : s.rpJ = t.rpJ

theorem AccOn.sub {c : Conf K} {s t : Acc K} (h : AccOn c s t) {x y : K} (hx : x = y) :
    AccOn c { s with energy := s.energy - x } { t with energy := t.energy - y } :=
  ⟨h.force, by simp only; rw [h.energy, hx], h.stress, h.err⟩

theorem monoDip_on {c : Conf K} {s t : DipAcc K} (h : DaOn c s t) {p q : Nat → V3 K} (hp : On c p q) (b : Build) (E : Elec K)
    (uf us : Bool) {i : Nat} (typ : Nat) {n : Neigh K} (hn : Member c n.nr) :
    DaOn c (monoDip b E uf us p i typ s n) (monoDip b E uf us q i typ t n) := by
  unfold monoDip
  dsimp only
  rw [hp n.nr hn]
  refine ⟨?_, h.rpI, rfl⟩
  cases uf
  · exact h.acc.sub rfl
  · exact (h.acc.sub rfl).scatter b us i n rfl

theorem dipMono_on {c : Conf K} {s t : DipAcc K} (h : DaOn c s t) {p q : Nat → V3 K} (hp : On c p q) (b : Build) (E : Elec K)
    (uf us : Bool) {i : Nat} (n : Neigh K) (hi : Member c i) :
    DaOn c (dipMono b E uf us p i s n) (dipMono b E uf us q i t n) := by
  unfold dipMono
  dsimp only
  rw [hp i hi]
  refine ⟨?_, rfl, h.rpJ⟩
  cases uf
  · exact h.acc.add rfl
  · exact (h.acc.add rfl).scatter b us i n rfl

theorem dipDip_on {c : Conf K} {s t : DipAcc K} (h : DaOn c s t) {p q : Nat → V3 K} (hp : On c p q) (b : Build) (E : Elec K)
    (uf us : Bool) {i : Nat} {n : Neigh K} (hi : Member c i) (hn : Member c n.nr) :
    DaOn c (dipDip b E uf us p i s n) (dipDip b E uf us q i t n) := by
  unfold dipDip
  dsimp only
  rw [hp i hi, hp n.nr hn, h.rpI, h.rpJ]
  refine ⟨?_, rfl, rfl⟩
  cases uf
  · exact h.acc.add rfl
  · exact (h.acc.add rfl).scatter b us i n rfl

theorem neigh4_on {c : Conf K} {s t : DipAcc K} (h : DaOn c s t) {p q : Nat → V3 K} (hp : On c p q) (b : Build) (E : Elec K)
    (uf us : Bool) {i : Nat} (typ : Nat) {n : Neigh K} (hi : Member c i) (hn : Member c n.nr) :
    DaOn c (elNeigh4 b E uf us p i typ s n) (elNeigh4 b E uf us q i typ t n) := by
  unfold elNeigh4
  split
  · dsimp only
    have h1 : DaOn c (if E.charge typ ≠ 0 ∧ E.alpha n.typ ≠ 0 then monoDip b E uf us p i typ s n else s)
        (if E.charge typ ≠ 0 ∧ E.alpha n.typ ≠ 0 then monoDip b E uf us q i typ t n else t) := by
      split
      · exact monoDip_on h hp b E uf us typ hn
      · exact h
    generalize (if E.charge typ ≠ 0 ∧ E.alpha n.typ ≠ 0 then monoDip b E uf us p i typ s n else s) = s1 at h1 ⊢
    generalize (if E.charge typ ≠ 0 ∧ E.alpha n.typ ≠ 0 then monoDip b E uf us q i typ t n else t) = t1 at h1 ⊢
    have h2 : DaOn c (if E.alpha typ ≠ 0 ∧ E.charge n.typ ≠ 0 then dipMono b E uf us p i s1 n else s1)
        (if E.alpha typ ≠ 0 ∧ E.charge n.typ ≠ 0 then dipMono b E uf us q i t1 n else t1) := by
      split
      · exact dipMono_on h1 hp b E uf us n hi
      · exact h1
    generalize (if E.alpha typ ≠ 0 ∧ E.charge n.typ ≠ 0 then dipMono b E uf us p i s1 n else s1) = s2 at h2 ⊢
    generalize (if E.alpha typ ≠ 0 ∧ E.charge n.typ ≠ 0 then dipMono b E uf us q i t1 n else t1) = t2 at h2 ⊢
    split
    · exact dipDip_on h2 hp b E uf us hi hn
    · exact h2
  · exact h

theorem eeNeigh4_on {c : Conf K} {s t : DipAcc K} (h : DaOn c s t) {p q : Nat → V3 K} (hp : On c p q) (b : Build) (E : Elec K)
    (uf us : Bool) {i : Nat} (typ : Nat) {n : Neigh K} (hi : Member c i) (hn : Member c n.nr) :
    DaOn c (eeNeigh4 b E uf us p i typ s n) (eeNeigh4 b E uf us q i typ t n) := by
  unfold eeNeigh4
  split
  · dsimp only
    have h1 : DaOn c (if E.charge typ ≠ 0 ∧ E.alpha n.typ ≠ 0 then monoDip b E uf us p i typ s n else s)
        (if E.charge typ ≠ 0 ∧ E.alpha n.typ ≠ 0 then monoDip b E uf us q i typ t n else t) := by
      split
      · exact monoDip_on h hp b E uf us typ hn
      · exact h
    generalize (if E.charge typ ≠ 0 ∧ E.alpha n.typ ≠ 0 then monoDip b E uf us p i typ s n else s) = s1 at h1 ⊢
    generalize (if E.charge typ ≠ 0 ∧ E.alpha n.typ ≠ 0 then monoDip b E uf us q i typ t n else t) = t1 at h1 ⊢
    have h2 : DaOn c (if E.alpha n.typ ≠ 0 ∧ E.charge n.typ ≠ 0 then dipMono b E uf us p i s1 n else s1)
        (if E.alpha n.typ ≠ 0 ∧ E.charge n.typ ≠ 0 then dipMono b E uf us q i t1 n else t1) := by
      split
      · exact dipMono_on h1 hp b E uf us n hi
      · exact h1
    generalize (if E.alpha n.typ ≠ 0 ∧ E.charge n.typ ≠ 0 then dipMono b E uf us p i s1 n else s1) = s2 at h2 ⊢
    generalize (if E.alpha n.typ ≠ 0 ∧ E.charge n.typ ≠ 0 then dipMono b E uf us q i t1 n else t1) = t2 at h2 ⊢
    split
    · exact dipDip_on h2 hp b E uf us hi hn
    · exact h2
  · exact h

theorem monoDip_off {c : Conf K} {s : DipAcc K} {f : Nat → V3 K} (h : Off c s.acc.force f) (p : Nat → V3 K) (b : Build) (E : Elec K)
    (uf us : Bool) {i : Nat} (typ : Nat) {n : Neigh K} (hi : Member c i) (hn : Member c n.nr) :
    Off c (monoDip b E uf us p i typ s n).acc.force f := by
  cases uf
  · exact h
  · exact (h.addAt hi _).addAt hn _

theorem dipMono_off {c : Conf K} {s : DipAcc K} {f : Nat → V3 K} (h : Off c s.acc.force f) (p : Nat → V3 K) (b : Build) (E : Elec K)
    (uf us : Bool) {i : Nat} {n : Neigh K} (hi : Member c i) (hn : Member c n.nr) :
    Off c (dipMono b E uf us p i s n).acc.force f := by
  cases uf
  · exact h
  · exact (h.addAt hi _).addAt hn _

theorem dipDip_off {c : Conf K} {s : DipAcc K} {f : Nat → V3 K} (h : Off c s.acc.force f) (p : Nat → V3 K) (b : Build) (E : Elec K)
    (uf us : Bool) {i : Nat} {n : Neigh K} (hi : Member c i) (hn : Member c n.nr) :
    Off c (dipDip b E uf us p i s n).acc.force f := by
  cases uf
  · exact h
  · exact (h.addAt hi _).addAt hn _

theorem neigh4_off {c : Conf K} {s : DipAcc K} {f : Nat → V3 K} (h : Off c s.acc.force f) (p : Nat → V3 K) (b : Build) (E : Elec K)
    (uf us : Bool) {i : Nat} (typ : Nat) {n : Neigh K} (hi : Member c i) (hn : Member c n.nr) :
    Off c (elNeigh4 b E uf us p i typ s n).acc.force f := by
  have h1 : Off c (if E.charge typ ≠ 0 ∧ E.alpha n.typ ≠ 0 then monoDip b E uf us p i typ s n else s).acc.force f := by
    split
    · exact monoDip_off h p b E uf us typ hi hn
    · exact h
  unfold elNeigh4
  dsimp only
  generalize (if E.charge typ ≠ 0 ∧ E.alpha n.typ ≠ 0 then monoDip b E uf us p i typ s n else s) = s1 at h1 ⊢
  split
  · split <;> split
    · exact dipDip_off (dipMono_off h1 p b E uf us hi hn) p b E uf us hi hn
    · exact dipDip_off h1 p b E uf us hi hn
    · exact dipMono_off h1 p b E uf us hi hn
    · exact h1
  · exact h

theorem eeNeigh4_off {c : Conf K} {s : DipAcc K} {f : Nat → V3 K} (h : Off c s.acc.force f) (p : Nat → V3 K) (b : Build) (E : Elec K)
    (uf us : Bool) {i : Nat} (typ : Nat) {n : Neigh K} (hi : Member c i) (hn : Member c n.nr) :
    Off c (eeNeigh4 b E uf us p i typ s n).acc.force f := by
  have h1 : Off c (if E.charge typ ≠ 0 ∧ E.alpha n.typ ≠ 0 then monoDip b E uf us p i typ s n else s).acc.force f := by
    split
    · exact monoDip_off h p b E uf us typ hi hn
    · exact h
  unfold eeNeigh4
  dsimp only
  generalize (if E.charge typ ≠ 0 ∧ E.alpha n.typ ≠ 0 then monoDip b E uf us p i typ s n else s) = s1 at h1 ⊢
  split
  · split <;> split
    · exact dipDip_off (dipMono_off h1 p b E uf us hi hn) p b E uf us hi hn
    · exact dipDip_off h1 p b E uf us hi hn
    · exact dipMono_off h1 p b E uf us hi hn
    · exact h1
  · exact h

theorem self_on {c : Conf K} {s t : Acc K} (h : AccOn c s t) {p q : Nat → V3 K} (hp : On c p q) (dip : Bool) (E : Elec K) (a : Atom K)
    {i : Nat} (hi : Member c i) : AccOn c (elSelf dip E p a i s) (elSelf dip E q a i t) := by
  unfold elSelf
  dsimp only
  rw [hp i hi]
  split <;> split
  · exact (h.sub rfl).add rfl
  · exact h.add rfl
  · exact h.sub rfl
  · exact h

theorem self_force (dip : Bool) (E : Elec K) (p : Nat → V3 K) (a : Atom K) (i : Nat) (s : Acc K) :
    (elSelf dip E p a i s).force = s.force := by
  unfold elSelf
  dsimp only
  split <;> split <;> rfl

theorem closeAtom_on {c : Conf K} {s t : Acc K} (h : AccOn c s t) (b : Build) (a : Atom K) {i : Nat} (hi : Member c i) :
    AccOn c (closeAtom b c a i s) (closeAtom b c a i t) := by
  unfold closeAtom
  split
  · have hf : On c (if b.fweight then Function.update s.force i (fun k => s.force i k / (forceEps + a.absforce)) else s.force)
        (if b.fweight then Function.update t.force i (fun k => t.force i k / (forceEps + a.absforce)) else t.force) := by
      split
      · exact h.force.update i (by rw [h.force i hi])
      · exact h.force
    refine ⟨hf, h.energy, h.stress, ?_⟩
    dsimp only
    rw [hf i hi, h.err]
  · exact h

theorem closeAtom_off {c : Conf K} {s : Acc K} {f : Nat → V3 K} (h : Off c s.force f) (b : Build) (a : Atom K) {i : Nat}
    (hi : Member c i) : Off c (closeAtom b c a i s).force f := by
  unfold closeAtom
  split
  · dsimp only
    split
    · exact h.update hi _
    · exact h
  · exact h

theorem loop5_on (b : Build) (dip : Bool) (E : Elec K) (c : Conf K) {p q : Nat → V3 K} (hp : On c p q) (as : List (Atom K)) (i : Nat)
    (hi : c.start ≤ i) (hl : i + as.length ≤ c.start + c.atoms.length) (s t : Acc K) (h : AccOn c s t) :
    AccOn c (elLoop5 b dip E c p as i s) (elLoop5 b dip E c q as i t) := by
  induction as generalizing i s t with
  | nil => exact h
  | cons a as ih =>
    have hl : i + (as.length + 1) ≤ c.start + c.atoms.length := hl
    have hm : Member c i := ⟨hi, by omega⟩
    exact ih (i + 1) (by omega) (by omega) _ _ (closeAtom_on (self_on h hp dip E a hm) b a hm)

theorem loop5_off (b : Build) (dip : Bool) (E : Elec K) (c : Conf K) (p : Nat → V3 K) (as : List (Atom K)) (i : Nat)
    (hi : c.start ≤ i) (hl : i + as.length ≤ c.start + c.atoms.length) (s : Acc K) (f : Nat → V3 K) (h : Off c s.force f) :
    Off c (elLoop5 b dip E c p as i s).force f := by
  induction as generalizing i s with
  | nil => exact h
  | cons a as ih =>
    have hl : i + (as.length + 1) ≤ c.start + c.atoms.length := hl
    have hm : Member c i := ⟨hi, by omega⟩
    exact ih (i + 1) (by omega) (by omega) _ (closeAtom_off (by rw [self_force]; exact h) b a hm)

theorem closeConf_on {c : Conf K} {s t : Acc K} (h : AccOn c s t) (b : Build) (ew sw : K) :
    AccOn c (closeConf b ew sw c s) (closeConf b ew sw c t) := by
  unfold closeConf
  dsimp only
  rw [h.energy, h.stress, h.err]
  split
  · exact ⟨h.force, rfl, rfl, rfl⟩
  · exact ⟨h.force, rfl, rfl, rfl⟩

theorem closeConf_force (c : Conf K) (s : Acc K) (b : Build) (ew sw : K) : (closeConf b ew sw c s).force = s.force := by
  unfold closeConf
  dsimp only
  split <;> rfl

theorem finish_on (b : Build) (E : Elec K) (ew sw : K) (c : Conf K) (hh : HalfList c) {p q : Nat → V3 K} (hp : On c p q) {s t : Acc K}
    (h : AccOn c s t) : AccOn c (elFinish b true E ew sw c p s) (elFinish b true E ew sw c q t) := by
  refine closeConf_on (loop5_on b true E c hp c.atoms c.start le_rfl le_rfl _ _ ?_) b ew sw
  exact (overNeigh_rel (DaOn c) _ _ _ _ (fun e he s t h => neigh4_on h hp b E _ _ _ (half_members hh he).1 (half_members hh he).2) _ _
    (⟨h, rfl, rfl⟩ : DaOn c ⟨s, 0, 0⟩ ⟨t, 0, 0⟩)).acc

theorem finish_off (b : Build) (E : Elec K) (ew sw : K) (c : Conf K) (hh : HalfList c) (p : Nat → V3 K) {s : Acc K} {f : Nat → V3 K}
    (h : Off c s.force f) : Off c (elFinish b true E ew sw c p s).force f := by
  unfold elFinish
  rw [closeConf_force]
  refine loop5_off b true E c p c.atoms c.start le_rfl le_rfl _ _ ?_
  exact overNeigh_rel (fun (u : DipAcc K) (_ : Unit) => Off c u.acc.force f) _ (fun _ _ u _ => u) _ _
    (fun e he u _ h => neigh4_off h p b E _ _ _ (half_members hh he).1 (half_members hh he).2) _ () h

/-! ### EAM with dipoles -/

theorem On.addRho {c : Conf K} {f g : Nat → K} (h : On c f g) (i : Nat) (v : K) : On c (addRho f i v) (addRho g i v) := by
  intro a ha
  unfold Force.addRho
  by_cases e : a = i
  · subst e; rw [Function.update_self, Function.update_self, h a ha]
  · rw [Function.update_of_ne e, Function.update_of_ne e, h a ha]

theorem density_on {c : Conf K} {f g : Nat → K} (h : On c f g) (P : EamPots K) (i typ : Nat) (n : Neigh K) :
    On c (density P i typ f n) (density P i typ g n) := by
  unfold density
  dsimp only
  split
  · split
    · split
      · exact h.addRho _ _
      · exact (h.addRho _ _).addRho _ _
    · exact h
  · split <;> split
    · exact (h.addRho _ _).addRho _ _
    · exact h.addRho _ _
    · exact h.addRho _ _
    · exact h

/-- Running sums of the second loop; the slopes are those of the atoms before `i`. -/
structure EeOn (c : Conf K) (i : Nat) (s t : EeAcc K) : Prop where
  el : ElOn c s.el t.el
  rho : On c s.rho t.rho
  gradF : ∀ a, c.start ≤ a → a < i → s.gradF a = t.gradF a
  limit : s.limit = t.limit
  rhoSum : s.rhoSum = t.rhoSum

theorem eeFold_on {c : Conf K} {j : Nat} (b : Build) (P : EamPots K) (E : Elec K) (uf us : Bool) (i typ : Nat) (ns : List (Neigh K))
    (s t : EeAcc K) (h : EeOn c j s t) :
    EeOn c j (ns.foldl (eeNeigh2 b true P E uf us i typ) s) (ns.foldl (eeNeigh2 b true P E uf us i typ) t) := by
  induction ns generalizing s t with
  | nil => exact h
  | cons n ns ih =>
    exact ih _ _ ⟨elOn_step h.el b true P.toPots E uf us i typ n, density_on h.rho P i typ n, h.gradF, h.limit, h.rhoSum⟩

theorem eeLoop2_on (b : Build) (P : EamPots K) (E : Elec K) (c : Conf K) (as : List (Atom K)) (i : Nat) (hi : c.start ≤ i)
    (hl : i + as.length ≤ c.start + c.atoms.length) (s t : EeAcc K) (h : EeOn c i s t) :
    EeOn c (i + as.length) (eeLoop2 b true P E c.uf c.us as i s) (eeLoop2 b true P E c.uf c.us as i t) := by
  induction as generalizing i s t with
  | nil => exact h
  | cons a as ih =>
    have hl : i + (as.length + 1) ≤ c.start + c.atoms.length := hl
    have hm : Member c i := ⟨hi, by omega⟩
    have h1 := eeFold_on b P E c.uf c.us i a.typ a.neigh s t h
    have h2 := ih (i + 1) (by omega) (by omega)
      (eeEmbed b P a i (a.neigh.foldl (eeNeigh2 b true P E c.uf c.us i a.typ) s))
      (eeEmbed b P a i (a.neigh.foldl (eeNeigh2 b true P E c.uf c.us i a.typ) t)) ?_
    · rw [show i + (a :: as).length = i + 1 + as.length by simp; omega]
      exact h2
    · generalize a.neigh.foldl (eeNeigh2 b true P E c.uf c.us i a.typ) s = s1 at h1 ⊢
      generalize a.neigh.foldl (eeNeigh2 b true P E c.uf c.us i a.typ) t = t1 at h1 ⊢
      unfold eeEmbed
      dsimp only
      rw [h1.rho i hm]
      refine ⟨⟨h1.el.acc.add rfl, h1.el.eStat, h1.el.pSr⟩, h1.rho.update i rfl, ?_, ?_, ?_⟩
      · intro x hx hxi
        dsimp only
        by_cases e : x = i
        · subst e; rw [Function.update_self, Function.update_self]
        · rw [Function.update_of_ne e, Function.update_of_ne e]; exact h1.gradF x hx (by omega)
      · dsimp only; rw [h1.limit]
      · dsimp only; rw [h1.rhoSum]

theorem eeStart_on (b : Build) (P : EamPots K) (E : Elec K) (c : Conf K) (s t : EeState K) :
    EeOn c (c.start + c.atoms.length) (eeStart b true P E c s) (eeStart b true P E c t) := by
  unfold eeStart
  refine eeLoop2_on b P E c c.atoms c.start le_rfl le_rfl _ _
    ⟨⟨⟨on_reset c _ _, rfl, rfl, rfl⟩, on_zero c _ _, on_zero c _ _⟩, ?_, fun a h1 h2 => by omega, rfl, rfl⟩
  intro a ha
  have ha : c.start ≤ a ∧ a < c.start + c.atoms.length := ha
  simp [ha]

theorem eeFold_off {c : Conf K} {f e p : Nat → V3 K} (b : Build) (P : EamPots K) (E : Elec K) (uf us : Bool) {i : Nat} (typ : Nat)
    (hi : Member c i) (ns : List (Neigh K)) (hn : ∀ n ∈ ns, Member c n.nr) (s : EeAcc K) (h : ElOff c s.el f e p) :
    ElOff c (ns.foldl (eeNeigh2 b true P E uf us i typ) s).el f e p := by
  induction ns generalizing s with
  | nil => exact h
  | cons n ns ih =>
    exact ih (fun m hm => hn m (List.mem_cons_of_mem _ hm)) _
      (elOff_step h b true P.toPots E uf us typ hi (hn n (List.mem_cons_self ..)))

theorem eeLoop2_off {f e p : Nat → V3 K} (b : Build) (P : EamPots K) (E : Elec K) (c : Conf K) (as : List (Atom K)) (i : Nat)
    (hm : ∀ e ∈ entriesFrom i as, Member c e.own ∧ Member c e.n.nr) (s : EeAcc K) (h : ElOff c s.el f e p) :
    ElOff c (eeLoop2 b true P E c.uf c.us as i s).el f e p := by
  induction as generalizing i s with
  | nil => exact h
  | cons a as ih =>
    have h1 : ElOff c (a.neigh.foldl (eeNeigh2 b true P E c.uf c.us i a.typ) s).el f e p := by
      by_cases hn : a.neigh = []
      · rw [hn]; exact h
      · obtain ⟨n, hn⟩ := List.exists_mem_of_ne_nil _ hn
        have key : ∀ n ∈ a.neigh, Member c i ∧ Member c n.nr := fun n hn =>
          hm ⟨i, a.typ, n⟩ (by unfold entriesFrom; exact List.mem_append_left _ (List.mem_map.2 ⟨n, hn, rfl⟩))
        exact eeFold_off b P E c.uf c.us a.typ (key n hn).1 a.neigh (fun n hn => (key n hn).2) s h
    exact ih (i + 1) (fun e he => hm e (by unfold entriesFrom; exact List.mem_append_right _ he)) _ ⟨h1.force, h1.eStat, h1.pSr⟩

theorem eeStart_off (b : Build) (P : EamPots K) (E : Elec K) (c : Conf K) (hh : HalfList c) (s : EeState K) :
    ElOff c (eeStart b true P E c s).el s.fv.force s.dip.eStat s.dip.pSr := by
  unfold eeStart
  exact eeLoop2_off b P E c c.atoms c.start (fun e he => half_members hh he) _ ⟨off_reset c _, off_zero c _, off_zero c _⟩

theorem eeDipoles_on (b : Build) (P : EamPots K) (E : Elec K) (c : Conf K) (hh : HalfList c) (s t : EeState K)
    (h : DipOn c s.dip t.dip) : DipOn c (eeDipoles b true P E c s) (eeDipoles b true P E c t) := by
  have e := (eeStart_on b P E c s t).el
  exact solve_on E c hh _ _ ⟨e.eStat, h.eInd, h.eOld, h.pInd, e.pSr⟩

theorem eeDipoles_off (b : Build) (P : EamPots K) (E : Elec K) (c : Conf K) (hh : HalfList c) (s : EeState K) :
    DipOff c (eeDipoles b true P E c s) s.dip := by
  have e := eeStart_off b P E c hh s
  exact solve_off E c hh _ _ ⟨e.eStat, fun _ _ => rfl, fun _ _ => rfl, fun _ _ => rfl, e.pSr⟩

theorem eeLoop5_on (dip : Bool) (E : Elec K) (c : Conf K) {p q : Nat → V3 K} (hp : On c p q) (as : List (Atom K)) (i : Nat)
    (hi : c.start ≤ i) (hl : i + as.length ≤ c.start + c.atoms.length) (s t : Acc K) (h : AccOn c s t) :
    AccOn c (eeLoop5 dip E p as i s) (eeLoop5 dip E q as i t) := by
  induction as generalizing i s t with
  | nil => exact h
  | cons a as ih =>
    have hl : i + (as.length + 1) ≤ c.start + c.atoms.length := hl
    exact ih (i + 1) (by omega) (by omega) _ _ (self_on h hp dip E a ⟨hi, by omega⟩)

theorem eeLoop5_force (dip : Bool) (E : Elec K) (p : Nat → V3 K) (as : List (Atom K)) (i : Nat) (s : Acc K) :
    (eeLoop5 dip E p as i s).force = s.force := by
  induction as generalizing i s with
  | nil => rfl
  | cons a as ih =>
    simp only [eeLoop5]
    rw [ih, self_force]

theorem neigh3_on {c : Conf K} {s t : Acc K} (h : AccOn c s t) {g g' : Nat → K} (hg : On c g g') (b : Build) (P : EamPots K) (us : Bool)
    {i : Nat} (typ : Nat) {n : Neigh K} (hi : Member c i) (hn : Member c n.nr) :
    AccOn c (eamNeigh3 b P us g i typ s n) (eamNeigh3 b P us g' i typ t n) := by
  have e : eamSlopeC P g i typ n = eamSlopeC P g' i typ n := by
    unfold eamSlopeC
    rw [hg i hi, hg n.nr hn]
  unfold eamNeigh3
  dsimp only
  rw [e]
  split
  · exact h.scatter b us i n rfl
  · exact h

theorem neigh3_off {c : Conf K} {s : Acc K} {f : Nat → V3 K} (h : Off c s.force f) (g : Nat → K) (b : Build) (P : EamPots K) (us : Bool)
    {i : Nat} (typ : Nat) {n : Neigh K} (hi : Member c i) (hn : Member c n.nr) : Off c (eamNeigh3 b P us g i typ s n).force f := by
  unfold eamNeigh3
  dsimp only
  split
  · exact (h.addAt hi _).addAt hn _
  · exact h

theorem forceLoop_rel {τ : Type*} (R : Acc K → τ → Prop) (b : Build) (c : Conf K) (body : Nat → Nat → Acc K → Neigh K → Acc K)
    (body' : Nat → Nat → τ → Neigh K → τ) (close' : Nat → Atom K → τ → τ) (loop' : List (Atom K) → Nat → τ → τ)
    (hl0 : ∀ i t, loop' [] i t = t)
    (hl1 : ∀ a as i t, loop' (a :: as) i t = loop' as (i + 1) (close' i a (a.neigh.foldl (body' i a.typ) t)))
    (as : List (Atom K)) (i : Nat) (hi : c.start ≤ i) (hl : i + as.length ≤ c.start + c.atoms.length)
    (h : ∀ e ∈ entriesFrom i as, ∀ s t, R s t → R (body e.own e.otyp s e.n) (body' e.own e.otyp t e.n))
    (hc : ∀ i a s t, Member c i → R s t → R (closeAtom b c a i s) (close' i a t)) (s : Acc K) (t : τ) (hs : R s t) :
    R (forceLoop b c body as i s) (loop' as i t) := by
  induction as generalizing i s t with
  | nil => rw [hl0]; exact hs
  | cons a as ih =>
    have hl : i + (as.length + 1) ≤ c.start + c.atoms.length := hl
    rw [hl1]
    refine ih (i + 1) (by omega) (by omega) (fun e he => h e (by unfold entriesFrom; exact List.mem_append_right _ he)) _ _
      (hc i a _ _ ⟨hi, by omega⟩ ?_)
    have key : ∀ n ∈ a.neigh, ∀ s t, R s t → R (body i a.typ s n) (body' i a.typ t n) := fun n hn =>
      h ⟨i, a.typ, n⟩ (by unfold entriesFrom; exact List.mem_append_left _ (List.mem_map.2 ⟨n, hn, rfl⟩))
    generalize a.neigh = ns at key
    induction ns generalizing s t with
    | nil => exact hs
    | cons n ns ihn =>
      exact ihn _ _ (key n (List.mem_cons_self ..) _ _ hs) (fun m hm => key m (List.mem_cons_of_mem _ hm))

theorem eeFinish_on (b : Build) (P : EamPots K) (E : Elec K) (ew sw : K) (c : Conf K) (hh : HalfList c) {p q : Nat → V3 K}
    (hp : On c p q) {g g' : Nat → K} (hg : On c g g') {s t : Acc K} (h : AccOn c s t) :
    AccOn c (eeFinish b true P E ew sw c p g s) (eeFinish b true P E ew sw c q g' t) := by
  unfold eeFinish
  dsimp only
  refine closeConf_on ?_ b ew sw
  have h1 := (overNeigh_rel (DaOn c) _ _ c.atoms c.start (fun e he s t h => eeNeigh4_on h hp b E c.uf c.us e.otyp (half_members hh he).1
    (half_members hh he).2) _ _ (⟨h, rfl, rfl⟩ : DaOn c ⟨s, 0, 0⟩ ⟨t, 0, 0⟩)).acc
  have h2 := eeLoop5_on true E c hp c.atoms c.start le_rfl le_rfl _ _ h1
  simp only [if_true]
  split
  · exact forceLoop_rel (AccOn c) b c _ (fun i typ => eamNeigh3 b P c.us g' i typ) (fun i a t => closeAtom b c a i t)
      (forceLoop b c fun i typ => eamNeigh3 b P c.us g' i typ) (fun _ _ => rfl) (fun _ _ _ _ => rfl) c.atoms c.start le_rfl le_rfl
      (fun e he s t h => neigh3_on h hg b P c.us e.otyp (half_members hh he).1 (half_members hh he).2)
      (fun i a s t hi h => closeAtom_on h b a hi) _ _ h2
  · exact h2

theorem eeFinish_off (b : Build) (P : EamPots K) (E : Elec K) (ew sw : K) (c : Conf K) (hh : HalfList c) (p : Nat → V3 K)
    (g : Nat → K) {s : Acc K} {f : Nat → V3 K} (h : Off c s.force f) : Off c (eeFinish b true P E ew sw c p g s).force f := by
  unfold eeFinish
  dsimp only
  rw [closeConf_force]
  have h1 := overNeigh_rel (fun (u : DipAcc K) (_ : Unit) => Off c u.acc.force f) (eeNeigh4 b E c.uf c.us p) (fun _ _ u _ => u)
    c.atoms c.start (fun e he u _ h => eeNeigh4_off h p b E c.uf c.us e.otyp (half_members hh he).1 (half_members hh he).2)
    ⟨s, 0, 0⟩ () h
  simp only [if_true]
  split
  · refine forceLoop_rel (fun (u : Acc K) (_ : Unit) => Off c u.force f) b c _ (fun _ _ u _ => u) (fun _ _ u => u) (fun _ _ u => u)
      (fun _ _ => rfl) (fun _ _ _ _ => rfl) c.atoms c.start le_rfl le_rfl
      (fun e he s t h => neigh3_off h g b P c.us e.otyp (half_members hh he).1 (half_members hh he).2)
      (fun i a s t hi h => closeAtom_off h b a hi) _ () ?_
    rw [eeLoop5_force]
    exact h1
  · rw [eeLoop5_force]
    exact h1

end Verif.Force
