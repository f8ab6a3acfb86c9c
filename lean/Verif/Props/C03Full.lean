/-
C03 and C20 for the routines on full neighbour lists: parallel evaluation returns the serial result, and objective
evaluation has no memory.
-/
import Verif.Props.C63
import Verif.Props.C20
import Verif.Props.C03

namespace Verif.Props

open Verif.Force Verif.Spec Verif.Mpi

variable {K : Type*} [Field K] [LinearOrder K] [IsStrictOrderedRing K]

omit [IsStrictOrderedRing K] in
theorem gather_congr (b : Build) (d : Dist) (P : Nat) (m m' : Nat → Cell → K) (x : Cell) (h : ∀ r, m r x = m' r x) :
    gather b d P m x = gather b d P m' x := by
  unfold gather
  have : ∀ (l : List Nat) (f g : Cell → K), f x = g x →
      (l.foldl (fun m₀ r => if r = 0 then m₀ else fun x => if inBlock b d r x then m r x else m₀ x) f) x =
      (l.foldl (fun m₀ r => if r = 0 then m₀ else fun x => if inBlock b d r x then m' r x else m₀ x) g) x := by
    intro l
    induction l with
    | nil => intro f g hfg; exact hfg
    | cons r l ih =>
      intro f g hfg
      simp only [List.foldl_cons]
      apply ih
      by_cases hr : r = 0
      · simp only [hr, if_true]; exact hfg
      · simp only [hr, if_false, h, hfg]
  exact this _ _ _ (h 0)

/-- Any routine which writes its own entries only. -/
theorem writes_parallel {ε : Type*} [AddMonoid ε] (b : Build) (lim : Bool) (one : Nat → Conf K → FV K → FV K × ε)
    (hw : ∀ c, Inside c → ∃ f e st l r, Writes b lim c one f e st l r) (confs : List (Conf K)) (hn : Numbered confs)
    (hi : ∀ c ∈ confs, Inside c) (P : Nat) (hP : 0 < P) (d : Dist)
    (hd : distribute (inconf confs) confs.length P = some d) (init : Nat → FV K) (init0 : FV K) :
    (parallelRun b FV.get one d P confs init).2 = (serialRun FV.get one confs init0).2 ∧
    ∀ x, ResultCell b lim confs x →
      (parallelRun b FV.get one d P confs init).1 x = (serialRun FV.get one confs init0).1 x := by
  have hl := local_of_writes (good := fun _ c => Inside c) b lim one (fun _ c hc => hw c hc)
  obtain ⟨h1, h2⟩ := parallel_eq_serial hl confs (fun _ c hk => hi c (List.mem_of_getElem? hk)) hn P hP d hd init init0
  refine ⟨h1, fun x hx => ?_⟩
  have e := h2 x hx
  have e1 : (serialRun (cellOf b lim) one confs init0).1 x = (serialRun FV.get one confs init0).1 x := cellOf_result _ hx
  have e2 : (parallelRun b (cellOf b lim) one d P confs init).1 x = (parallelRun b FV.get one d P confs init).1 x :=
    gather_congr b d P _ _ x fun r => cellOf_result _ hx
  rw [← e1, ← e2, e]

/-- Stillinger-Weber. -/
theorem C03_stiweb (b : Build) (pots : SwPots K) (ew sw : K) (confs : List (Conf K)) (hn : Numbered confs)
    (hi : ∀ c ∈ confs, Inside c) (P : Nat) (hP : 0 < P) (d : Dist)
    (hd : distribute (inconf confs) confs.length P = some d) (init : Nat → FV K) (init0 : FV K) :
    let par := parallelRun b FV.get (swConf b pots ew sw) d P confs init
    let ser := serialRun FV.get (swConf b pots ew sw) confs init0
    par.2 = ser.2 ∧ ∀ x, ResultCell b false confs x → par.1 x = ser.1 x :=
  writes_parallel b false _ (fun c hc => fullConf_writes b (fun c => swAtom b pots c) ew sw c
    fun _ _ hj => swAtom_shift (member_of hj) (inside_neigh hc hj) b pots c) confs hn hi P hP d hd init init0

/-- Tersoff. -/
theorem C03_tersoff (b : Build) (L : Lib K) (p : TersPars K) (ew sw : K) (confs : List (Conf K)) (hn : Numbered confs)
    (hi : ∀ c ∈ confs, Inside c) (P : Nat) (hP : 0 < P) (d : Dist)
    (hd : distribute (inconf confs) confs.length P = some d) (init : Nat → FV K) (init0 : FV K) :
    let par := parallelRun b FV.get (tersConf b L p ew sw) d P confs init
    let ser := serialRun FV.get (tersConf b L p ew sw) confs init0
    par.2 = ser.2 ∧ ∀ x, ResultCell b false confs x → par.1 x = ser.1 x :=
  writes_parallel b false _ (fun c hc => fullConf_writes b (fun c => tersAtom b L p c) ew sw c
    fun _ _ hj => tersAtom_shift (member_of hj) (inside_neigh hc hj) b L p c) confs hn hi P hP d hd init init0

/-- Modified Tersoff. -/
theorem C03_tersoffmod (b : Build) (L : Lib K) (p : TersModPars K) (ew sw : K) (confs : List (Conf K)) (hn : Numbered confs)
    (hi : ∀ c ∈ confs, Inside c) (P : Nat) (hP : 0 < P) (d : Dist)
    (hd : distribute (inconf confs) confs.length P = some d) (init : Nat → FV K) (init0 : FV K) :
    let par := parallelRun b FV.get (modConf b L p ew sw) d P confs init
    let ser := serialRun FV.get (modConf b L p ew sw) confs init0
    par.2 = ser.2 ∧ ∀ x, ResultCell b false confs x → par.1 x = ser.1 x :=
  writes_parallel b false _ (fun c hc => fullConf_writes b (fun c => modAtom b L p c) ew sw c
    fun _ _ hj => modAtom_shift (member_of hj) (inside_neigh hc hj) b L p c) confs hn hi P hP d hd init init0

/-- Angular potentials. -/
theorem C03_ang (b : Build) (pots : AngPots K) (ew sw : K) (confs : List (Conf K)) (hn : Numbered confs)
    (hi : ∀ c ∈ confs, Inside c) (P : Nat) (hP : 0 < P) (d : Dist)
    (hd : distribute (inconf confs) confs.length P = some d) (init : Nat → FV K) (init0 : FV K) :
    let par := parallelRun b FV.get (angConf b pots ew sw) d P confs init
    let ser := serialRun FV.get (angConf b pots ew sw) confs init0
    par.2 = ser.2 ∧ ∀ x, ResultCell b false confs x → par.1 x = ser.1 x :=
  writes_parallel b false _ (fun c hc => angConf_writes b pots ew sw c hc) confs hn hi P hP d hd init init0

/-- MEAM: error sum, sum of the densities, and all entries including the limiting constraints. -/
theorem C03_meam (b : Build) (pots : AngPots K) (ew sw : K) (confs : List (Conf K)) (hn : Numbered confs)
    (hi : ∀ c ∈ confs, Inside c) (P : Nat) (hP : 0 < P) (d : Dist)
    (hd : distribute (inconf confs) confs.length P = some d) (init : Nat → FV K) (init0 : FV K) :
    let par := parallelRun b FV.get (meamConf b pots ew sw) d P confs init
    let ser := serialRun FV.get (meamConf b pots ew sw) confs init0
    par.2 = ser.2 ∧ ∀ x, ResultCell b true confs x → par.1 x = ser.1 x :=
  writes_parallel b true _ (fun c hc => meamConf_writes b pots ew sw c hc) confs hn hi P hP d hd init init0

/-! ### No memory -/

theorem writes_memory {ε : Type*} [AddMonoid ε] (b : Build) (lim : Bool) (one : Nat → Conf K → FV K → FV K × ε)
    (hw : ∀ c, Inside c → ∃ f e st l r, Writes b lim c one f e st l r) (confs : List (Conf K)) (hn : Numbered confs)
    (hi : ∀ c ∈ confs, Inside c) (v₁ v₂ : FV K) :
    (confLoop one confs 0 (v₁, 0)).2 = (confLoop one confs 0 (v₂, 0)).2 ∧ ∀ x, ResultCell b lim confs x →
      (confLoop one confs 0 (v₁, 0)).1.get x = (confLoop one confs 0 (v₂, 0)).1.get x := by
  have hg : ∀ k c, confs[k]? = some c → (fun (_ : Nat) c => Inside c) k c := fun k c hk => hi c (List.mem_of_getElem? hk)
  have hl := local_of_writes (good := fun _ c => Inside c) b lim one (fun _ c hc => hw c hc)
  refine ⟨?_, fun x hx => ?_⟩
  · rw [confLoop_err hl confs 0 _ (by simpa using hg), confLoop_err hl confs 0 _ (by simpa using hg)]
  · rw [← cellOf_result _ hx, ← cellOf_result _ hx]
    obtain ⟨k, c, hk, ho⟩ := resultCell_owner hn hx
    rw [loop_cell hl confs hg hn _ k c hk x ho, loop_cell hl confs hg hn _ k c hk x ho]

theorem sum_memory (b b' : Build) (one : Nat → Conf K → FV K → FV K × K) (w : K) (qs : List (Bound K))
    (eopp univ : List (Nat × K)) (hw : ∀ c, Inside c → ∃ f e st l r, Writes b false c one f e st l r)
    (confs : List (Conf K)) (hn : Numbered confs) (hi : ∀ c ∈ confs, Inside c) (v₁ v₂ : PairVec K) :
    (sumObjective b' one w qs eopp univ confs v₁).map Prod.snd = (sumObjective b' one w qs eopp univ confs v₂).map Prod.snd ∧
    ∀ v₁' v₂' y₁ y₂, sumObjective b' one w qs eopp univ confs v₁ = .ok (v₁', y₁) →
      sumObjective b' one w qs eopp univ confs v₂ = .ok (v₂', y₂) →
      ∀ x, ResultCell b false confs x → v₁'.fv.get x = v₂'.fv.get x := by
  obtain ⟨h1, h2⟩ := writes_memory b false one hw confs hn hi v₁.fv v₂.fv
  refine ⟨?_, ?_⟩
  · unfold sumObjective
    by_cases hb : b'.apot = true
    · rw [if_pos hb, if_pos hb]
      have := apotPunish_sum_congr w qs eopp univ v₁.par v₁.pot v₂.par v₂.pot
      cases h1' : apotPunish w qs eopp univ v₁.par v₁.pot <;>
        cases h2' : apotPunish w qs eopp univ v₂.par v₂.pot <;>
        simp only [h1', h2', Except.map, Except.ok.injEq, Except.error.injEq, reduceCtorEq] at this
      · simp [bind, Except.bind, Except.map, this]
      · simp only [bind, Except.bind, Except.map, this, h1]
    · rw [if_neg hb, if_neg hb]
      simp only [Except.map, h1]
  · intro v₁' v₂' y₁ y₂ e1 e2 x hx
    rw [(sumObjective_ok _ _ _ _ _ _ _ _ _ _ e1).1, (sumObjective_ok _ _ _ _ _ _ _ _ _ _ e2).1, h2 x hx]

/-- Stillinger-Weber. -/
theorem C20_stiweb (b : Build) (P : SwPots K) (ew sw w : K) (qs : List (Bound K)) (eopp univ : List (Nat × K))
    (confs : List (Conf K)) (hn : Numbered confs) (hi : ∀ c ∈ confs, Inside c) (v₁ v₂ : PairVec K) :
    (swObjective b P ew sw w qs eopp univ confs v₁).map Prod.snd = (swObjective b P ew sw w qs eopp univ confs v₂).map Prod.snd ∧
    ∀ v₁' v₂' y₁ y₂, swObjective b P ew sw w qs eopp univ confs v₁ = .ok (v₁', y₁) →
      swObjective b P ew sw w qs eopp univ confs v₂ = .ok (v₂', y₂) →
      ∀ x, ResultCell b false confs x → v₁'.fv.get x = v₂'.fv.get x :=
  sum_memory b _ _ w qs eopp univ (fun c hc => fullConf_writes b (fun c => swAtom b P c) ew sw c
    fun _ _ hj => swAtom_shift (member_of hj) (inside_neigh hc hj) b P c) confs hn hi v₁ v₂

/-- Tersoff. -/
theorem C20_tersoff (b : Build) (L : Lib K) (p : TersPars K) (ew sw w : K) (qs : List (Bound K)) (eopp univ : List (Nat × K))
    (confs : List (Conf K)) (hn : Numbered confs) (hi : ∀ c ∈ confs, Inside c) (v₁ v₂ : PairVec K) :
    (tersObjective b L p ew sw w qs eopp univ confs v₁).map Prod.snd =
      (tersObjective b L p ew sw w qs eopp univ confs v₂).map Prod.snd ∧
    ∀ v₁' v₂' y₁ y₂, tersObjective b L p ew sw w qs eopp univ confs v₁ = .ok (v₁', y₁) →
      tersObjective b L p ew sw w qs eopp univ confs v₂ = .ok (v₂', y₂) →
      ∀ x, ResultCell b false confs x → v₁'.fv.get x = v₂'.fv.get x :=
  sum_memory b _ _ w qs eopp univ (fun c hc => fullConf_writes b (fun c => tersAtom b L p c) ew sw c
    fun _ _ hj => tersAtom_shift (member_of hj) (inside_neigh hc hj) b L p c) confs hn hi v₁ v₂

/-- Modified Tersoff. -/
theorem C20_tersoffmod (b : Build) (L : Lib K) (p : TersModPars K) (ew sw w : K) (qs : List (Bound K)) (eopp univ : List (Nat × K))
    (confs : List (Conf K)) (hn : Numbered confs) (hi : ∀ c ∈ confs, Inside c) (v₁ v₂ : PairVec K) :
    (modObjective b L p ew sw w qs eopp univ confs v₁).map Prod.snd =
      (modObjective b L p ew sw w qs eopp univ confs v₂).map Prod.snd ∧
    ∀ v₁' v₂' y₁ y₂, modObjective b L p ew sw w qs eopp univ confs v₁ = .ok (v₁', y₁) →
      modObjective b L p ew sw w qs eopp univ confs v₂ = .ok (v₂', y₂) →
      ∀ x, ResultCell b false confs x → v₁'.fv.get x = v₂'.fv.get x :=
  sum_memory b _ _ w qs eopp univ (fun c hc => fullConf_writes b (fun c => modAtom b L p c) ew sw c
    fun _ _ hj => modAtom_shift (member_of hj) (inside_neigh hc hj) b L p c) confs hn hi v₁ v₂

/-- Angular potentials. -/
theorem C20_ang (b : Build) (P : AngPots K) (ew sw w : K) (qs : List (Bound K)) (eopp univ : List (Nat × K))
    (confs : List (Conf K)) (hn : Numbered confs) (hi : ∀ c ∈ confs, Inside c) (v₁ v₂ : PairVec K) :
    (angObjective b P ew sw w qs eopp univ confs v₁).map Prod.snd = (angObjective b P ew sw w qs eopp univ confs v₂).map Prod.snd ∧
    ∀ v₁' v₂' y₁ y₂, angObjective b P ew sw w qs eopp univ confs v₁ = .ok (v₁', y₁) →
      angObjective b P ew sw w qs eopp univ confs v₂ = .ok (v₂', y₂) →
      ∀ x, ResultCell b false confs x → v₁'.fv.get x = v₂'.fv.get x :=
  sum_memory b _ _ w qs eopp univ (fun c hc => angConf_writes b P ew sw c hc) confs hn hi v₁ v₂

/-- MEAM, including the constraint on the mean density. -/
theorem C20_meam (b : Build) (P : AngPots K) (ew sw w : K) (qs : List (Bound K)) (eopp univ : List (Nat × K)) (natoms : Nat)
    (confs : List (Conf K)) (hn : Numbered confs) (hi : ∀ c ∈ confs, Inside c) (v₁ v₂ : MeamVec K) :
    (meamObjective b P ew sw w qs eopp univ natoms confs v₁).map Prod.snd =
      (meamObjective b P ew sw w qs eopp univ natoms confs v₂).map Prod.snd ∧
    ∀ v₁' v₂' y₁ y₂, meamObjective b P ew sw w qs eopp univ natoms confs v₁ = .ok (v₁', y₁) →
      meamObjective b P ew sw w qs eopp univ natoms confs v₂ = .ok (v₂', y₂) →
      (∀ x, ResultCell b true confs x → v₁'.fv.get x = v₂'.fv.get x) ∧
      (b.rescale = false → v₁'.dummy P.ntypes = v₂'.dummy P.ntypes) := by
  obtain ⟨h1, h2⟩ := writes_memory b true (meamConf b P ew sw) (fun c hc => meamConf_writes b P ew sw c hc) confs hn hi v₁.fv v₂.fv
  have h1 : (confLoop (meamConf b P ew sw) confs 0 (v₁.fv, (0, 0))).2 = (confLoop (meamConf b P ew sw) confs 0 (v₂.fv, (0, 0))).2 := h1
  have hdum : ∀ (x : K) (d d' : Nat → K), (meamDummy b P.ntypes natoms x d).2 = (meamDummy b P.ntypes natoms x d').2 := by
    intro x d d'
    unfold meamDummy
    split <;> rfl
  have hv : ∀ (v v' : MeamVec K) (y : K), meamObjective b P ew sw w qs eopp univ natoms confs v = .ok (v', y) →
      v'.fv = (confLoop (meamConf b P ew sw) confs 0 (v.fv, 0)).1 ∧ v'.dummy = (meamDummy b P.ntypes natoms
        (confLoop (meamConf b P ew sw) confs 0 (v.fv, (0, 0))).2.2 v.dummy).1 := by
    intro v v' y hr
    unfold meamObjective at hr
    by_cases hb : b.apot = true
    · rw [if_pos hb] at hr
      cases hp : apotPunish w qs eopp univ v.par v.pot with
      | error e => simp [hp, bind, Except.bind] at hr
      | ok p =>
        simp only [hp, bind, Except.bind, Except.ok.injEq, Prod.mk.injEq] at hr
        rw [← hr.1]; exact ⟨rfl, rfl⟩
    · rw [if_neg hb] at hr
      simp only [Except.ok.injEq, Prod.mk.injEq] at hr
      rw [← hr.1]; exact ⟨rfl, rfl⟩
  refine ⟨?_, ?_⟩
  · unfold meamObjective
    by_cases hb : b.apot = true
    · rw [if_pos hb, if_pos hb]
      have := apotPunish_sum_congr w qs eopp univ v₁.par v₁.pot v₂.par v₂.pot
      cases h1' : apotPunish w qs eopp univ v₁.par v₁.pot <;>
        cases h2' : apotPunish w qs eopp univ v₂.par v₂.pot <;>
        simp only [h1', h2', Except.map, Except.ok.injEq, Except.error.injEq, reduceCtorEq] at this
      · simp [bind, Except.bind, Except.map, this]
      · simp only [bind, Except.bind, Except.map, this, h1, hdum _ v₁.dummy v₂.dummy]
    · rw [if_neg hb, if_neg hb]
      simp only [Except.map, h1, hdum _ v₁.dummy v₂.dummy]
  · intro v₁' v₂' y₁ y₂ e1 e2
    obtain ⟨a1, a2⟩ := hv _ _ _ e1
    obtain ⟨b1, b2⟩ := hv _ _ _ e2
    refine ⟨fun x hx => by rw [a1, b1, h2 x hx], fun hb => ?_⟩
    rw [a2, b2, h1]
    unfold meamDummy
    rw [if_neg (by simp [hb]), if_neg (by simp [hb])]
    simp only [Function.update_self]

/-- Two configurations on two ranks: the hypotheses hold. -/
example : (distribute (inconf [cornerConf true true 1 2, { cornerConf true true 1 2 with start := 3, atoms := [⟨0, [], 0, true⟩] }]) 2 2).isSome = true ∧
    Numbered [cornerConf true true 1 2, { cornerConf true true 1 2 with start := 3, atoms := [⟨0, [], 0, true⟩] }] ∧
    (∀ c ∈ [cornerConf true true 1 2, { cornerConf true true 1 2 with start := 3, atoms := [⟨0, [], 0, true⟩] }], Inside c) := by
  refine ⟨by decide, ?_, ?_⟩
  · intro k c hk
    match k with
    | 0 => simp only [List.getElem?_cons_zero, Option.some.injEq] at hk; subst hk; rfl
    | 1 => simp only [List.getElem?_cons_succ, List.getElem?_cons_zero, Option.some.injEq] at hk; subst hk; decide
    | k + 2 => simp at hk
  · intro c hc
    simp only [List.mem_cons, List.not_mem_nil, or_false] at hc
    rcases hc with rfl | rfl
    · exact corner_inside _ _ _ _
    · intro a ha n hn
      simp only [List.mem_cons, List.not_mem_nil, or_false] at ha
      subst ha
      simp at hn

end Verif.Props
