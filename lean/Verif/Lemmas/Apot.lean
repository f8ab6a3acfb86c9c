import Verif.Spec.Apot
import Mathlib.Algebra.Order.Field.Basic
import Mathlib.Data.List.Basic
import Mathlib.Tactic.Linarith
import Mathlib.Tactic.Ring
import Mathlib.Tactic.Positivity

set_option linter.unusedSectionVars false

namespace Verif.Apot

open Verif.Spec

variable {K : Type*} [Field K] [LinearOrder K]

theorem optFirst_succ (pots : List (Pot K)) (m : Nat) (p : Pot K) (h : pots[m]? = some p) :
    optFirst pots (m + 1) = optFirst pots m + p.nPar + 2 := by
  unfold optFirst
  rw [List.take_add_one, h]
  simp
  omega

theorem optFirst_mono (pots : List (Pot K)) {m k : Nat} (h : m ≤ k) :
    optFirst pots m ≤ optFirst pots k := by
  unfold optFirst
  rw [show k = m + (k - m) by omega, List.take_add]
  simp

theorem optFirst_end (pots : List (Pot K)) (m : Nat) (p : Pot K) (h : pots[m]? = some p) :
    optFirst pots m + p.nPar ≤ (pots.map fun p => p.nPar + 2).sum := by
  have h1 := optFirst_succ pots m p h
  have hm : m < pots.length := (List.getElem?_eq_some_iff.1 h).1
  have h2 := optFirst_mono pots (show m + 1 ≤ pots.length by omega)
  have h3 : optFirst pots pots.length = 2 + (pots.map fun p => p.nPar + 2).sum := by
    simp [optFirst]
  omega

theorem pos_inj (pots : List (Pot K)) {m k n l : Nat} {p q : Pot K} (hm : pots[m]? = some p)
    (hk : pots[k]? = some q) (hn : n < p.nPar) (hl : l < q.nPar)
    (h : optFirst pots m + n = optFirst pots k + l) : m = k ∧ n = l := by
  rcases Nat.lt_trichotomy m k with hlt | rfl | hlt
  · have h1 := optFirst_succ pots m p hm
    have h2 := optFirst_mono pots (show m + 1 ≤ k by omega)
    omega
  · exact ⟨rfl, by omega⟩
  · have h1 := optFirst_succ pots k q hk
    have h2 := optFirst_mono pots (show k + 1 ≤ m by omega)
    omega

/-- One list of references. -/
theorem copy_inner (pots : List (Pot K)) (gi : Nat) (l : List (Nat × Nat)) (xi : Nat → K)
    (hl : ∀ mn ∈ l, optFirst pots mn.1 + mn.2 ≠ gi) (q : Nat) :
    ((∃ mn ∈ l, optFirst pots mn.1 + mn.2 = q) →
      l.foldl (fun xi (mn : Nat × Nat) => Function.update xi (optFirst pots mn.1 + mn.2) (xi gi)) xi q
        = xi gi) ∧
    ((∀ mn ∈ l, optFirst pots mn.1 + mn.2 ≠ q) →
      l.foldl (fun xi (mn : Nat × Nat) => Function.update xi (optFirst pots mn.1 + mn.2) (xi gi)) xi q
        = xi q) := by
  induction l generalizing xi with
  | nil => simp
  | cons a l ih =>
    have ha := hl a (by simp)
    have hupd : Function.update xi (optFirst pots a.1 + a.2) (xi gi) gi = xi gi :=
      Function.update_of_ne (fun h => ha h.symm) _ _
    have := ih (Function.update xi (optFirst pots a.1 + a.2) (xi gi))
      (fun mn h => hl mn (by simp [h]))
    rw [hupd] at this
    simp only [List.foldl_cons]
    constructor
    · rintro ⟨mn, hmn, e⟩
      by_cases hex : ∃ mn ∈ l, optFirst pots mn.1 + mn.2 = q
      · exact this.1 hex
      · push Not at hex
        rw [this.2 hex]
        rcases List.mem_cons.1 hmn with rfl | h
        · rw [e, Function.update_self]
        · exact absurd e (hex mn h)
    · intro h
      rw [this.2 (fun mn hmn => h mn (by simp [hmn]))]
      exact Function.update_of_ne (fun e => h a (by simp) e.symm) _ _

theorem copy_outer (pots : List (Pot K)) (gidx : Nat) (gl : List (List (Nat × Nat) × Nat))
    (xi : Nat → K) (hl : ∀ li ∈ gl, ∀ mn ∈ li.1, optFirst pots mn.1 + mn.2 < gidx)
    (hd : gl.Pairwise fun a b => ∀ mn ∈ a.1, ∀ mn' ∈ b.1,
      optFirst pots mn.1 + mn.2 ≠ optFirst pots mn'.1 + mn'.2) :
    (∀ q, (∀ li ∈ gl, ∀ mn ∈ li.1, optFirst pots mn.1 + mn.2 ≠ q) →
      gl.foldl (fun xi (l, i) => l.foldl (fun xi (m, n) =>
        Function.update xi (optFirst pots m + n) (xi (gidx + i))) xi) xi q = xi q) ∧
    (∀ li ∈ gl, ∀ mn ∈ li.1,
      gl.foldl (fun xi (l, i) => l.foldl (fun xi (m, n) =>
        Function.update xi (optFirst pots m + n) (xi (gidx + i))) xi) xi
          (optFirst pots mn.1 + mn.2) = xi (gidx + li.2)) := by
  induction gl generalizing xi with
  | nil => simp
  | cons a gl ih =>
    obtain ⟨hda, hdr⟩ := List.pairwise_cons.1 hd
    have hin := fun q => copy_inner pots (gidx + a.2) a.1 xi
      (fun mn h => by have := hl a (by simp) mn h; omega) q
    obtain ⟨ih1, ih2⟩ := ih
      (a.1.foldl (fun xi (mn : Nat × Nat) =>
        Function.update xi (optFirst pots mn.1 + mn.2) (xi (gidx + a.2))) xi)
      (fun li h => hl li (by simp [h])) hdr
    constructor
    · intro q hq
      rw [List.foldl_cons]
      rw [ih1 q (fun li h => hq li (by simp [h]))]
      exact (hin q).2 (hq a (by simp))
    · intro li hli mn hmn
      rw [List.foldl_cons]
      rcases List.mem_cons.1 hli with rfl | hli
      · rw [ih1 _ (fun lj h mn' hmn' e => hda lj h mn hmn mn' hmn' e.symm)]
        exact (hin _).1 ⟨mn, hmn, rfl⟩
      · rw [ih2 li hli mn hmn]
        exact (hin _).2 (fun mn' h e => by have := hl a (by simp) mn' h; omega)

/-- After copying, every parameter entry holds the effective value. -/
theorem copyGlobals_spec {pots : List (Pot K)} {gidx : Nat} {globals : List (List (Nat × Nat))}
    (hg : GoodGlobals pots gidx globals) (xi : Nat → K) {m n : Nat} {p : Pot K}
    (hm : pots[m]? = some p) (hn : n < p.nPar) :
    IsEffective pots gidx globals xi m n (copyGlobals pots gidx globals xi (optFirst pots m + n)) := by
  have hlt : ∀ li ∈ globals.zipIdx, ∀ mn ∈ li.1, optFirst pots mn.1 + mn.2 < gidx := by
    intro li hli mn hmn
    have : li.1 ∈ globals := by
      have := List.mem_zipIdx hli
      simp only [Nat.zero_add, Nat.sub_zero] at this
      rw [this.2.2]; exact List.getElem_mem _
    obtain ⟨q, hq, hq2⟩ := hg.inRange _ this mn hmn
    have := optFirst_end pots mn.1 q hq
    have := hg.behind
    omega
  have hinj : ∀ a ∈ globals, ∀ b ∈ globals, (∀ mn ∈ a, mn ∉ b) → ∀ mn ∈ a, ∀ mn' ∈ b,
      optFirst pots mn.1 + mn.2 ≠ optFirst pots mn'.1 + mn'.2 := by
    intro a ha b hb hab mn hmn mn' hmn' e
    obtain ⟨q, hq, hq2⟩ := hg.inRange _ ha mn hmn
    obtain ⟨q', hq', hq2'⟩ := hg.inRange _ hb mn' hmn'
    obtain ⟨e1, e2⟩ := pos_inj pots hq hq' hq2 hq2' e
    exact hab mn hmn (by rw [show mn = mn' from Prod.ext e1 e2]; exact hmn')
  have hd : globals.zipIdx.Pairwise fun a b => ∀ mn ∈ a.1, ∀ mn' ∈ b.1,
      optFirst pots mn.1 + mn.2 ≠ optFirst pots mn'.1 + mn'.2 := by
    have h1 : (globals.zipIdx.map Prod.fst).Pairwise fun a b => ∀ mn ∈ a, ∀ mn' ∈ b,
        optFirst pots mn.1 + mn.2 ≠ optFirst pots mn'.1 + mn'.2 := by
      rw [List.zipIdx_map_fst]
      exact hg.disjoint.imp_of_mem fun ha hb h => hinj _ ha _ hb h
    exact List.pairwise_map.1 h1
  obtain ⟨c1, c2⟩ := copy_outer pots gidx globals.zipIdx xi hlt hd
  by_cases hex : ∃ l ∈ globals, (m, n) ∈ l
  · obtain ⟨l, hl, hmn⟩ := hex
    obtain ⟨g, hg1, hg2⟩ := List.getElem_of_mem hl
    left
    refine ⟨g, l, by rw [List.getElem?_eq_getElem hg1, hg2], hmn, ?_⟩
    exact c2 (l, g) (List.mk_mem_zipIdx_iff_getElem?.2 (by
      rw [List.getElem?_eq_getElem hg1, hg2])) (m, n) hmn
  · push Not at hex
    right
    refine ⟨hex, ?_⟩
    refine c1 _ ?_
    intro li hli mn hmn e
    have hmem : li.1 ∈ globals := by
      have := List.mem_zipIdx hli
      simp only [Nat.zero_add, Nat.sub_zero] at this
      rw [this.2.2]; exact List.getElem_mem _
    obtain ⟨q, hq, hq2⟩ := hg.inRange _ hmem mn hmn
    obtain ⟨e1, e2⟩ := pos_inj pots hq hm hq2 hn e
    exact hex _ hmem (by rw [show (m, n) = mn from Prod.ext e1.symm e2.symm]; exact hmn)

theorem samplePos_inj {steps i k j l : Nat} (hj : j < steps) (hl : l < steps)
    (h : samplePos steps i j = samplePos steps k l) : i = k ∧ j = l := by
  unfold samplePos at h
  rcases Nat.lt_trichotomy i k with hlt | rfl | hlt
  · have : (i + 1) * steps ≤ k * steps := Nat.mul_le_mul_right _ hlt
    rw [Nat.add_mul] at this
    omega
  · exact ⟨rfl, by omega⟩
  · have : (k + 1) * steps ≤ i * steps := Nat.mul_le_mul_right _ hlt
    rw [Nat.add_mul] at this
    omega

theorem sampleLoop_spec {p : Pot K} {steps i : Nat} {xcoord : Nat → K} {val : List K} {h : K}
    {js : List Nat} {tab tab' : Nat → K} (hnd : js.Nodup)
    (hr : sampleLoop p steps i xcoord val h js tab = .ok tab') :
    (∀ j ∈ js, sampleAt p (xcoord (samplePos steps i j)) val h = .ok (tab' (samplePos steps i j))) ∧
    (∀ k, (∀ j ∈ js, samplePos steps i j ≠ k) → tab' k = tab k) := by
  induction js generalizing tab with
  | nil =>
    simp only [sampleLoop, Except.ok.injEq] at hr
    subst hr
    simp
  | cons j js ih =>
    simp only [sampleLoop] at hr
    cases hs : sampleAt p (xcoord (samplePos steps i j)) val h with
    | error e => rw [hs] at hr; cases hr
    | ok v =>
      rw [hs] at hr
      obtain ⟨hj, hnd'⟩ := List.nodup_cons.1 hnd
      obtain ⟨h1, h2⟩ := ih hnd' hr
      refine ⟨?_, ?_⟩
      · intro k hk
        rcases List.mem_cons.1 hk with rfl | hk
        · rw [hs, h2 _ (fun j' hj' e => hj (by
            have : j' = k := by unfold samplePos at e; omega
            rwa [this] at hj')), Function.update_self]
        · exact h1 k hk
      · intro k hk
        rw [h2 k (fun j' hj' => hk j' (by simp [hj']))]
        exact Function.update_of_ne (fun e => hk j (by simp) e.symm) _ _

theorem checkChange_spec (o : Nat) (xi : Nat → K) (js : List Nat) (list : Nat → K) (c : Bool) :
    (∀ j ∈ js, (checkChange o xi js list c).1 (o + j) = xi (o + j)) ∧
    (∀ q, (∀ j ∈ js, o + j ≠ q) → (checkChange o xi js list c).1 q = list q) ∧
    ((checkChange o xi js list c).2 = false → (∀ j ∈ js, list (o + j) = xi (o + j))) := by
  suffices H : (∀ j ∈ js, (checkChange o xi js list c).1 (o + j) = xi (o + j)) ∧
      (∀ q, (∀ j ∈ js, o + j ≠ q) → (checkChange o xi js list c).1 q = list q) ∧
      ((checkChange o xi js list c).2 = false → c = false ∧ (∀ j ∈ js, list (o + j) = xi (o + j))) ∧
      (∀ q, list q = xi q → (checkChange o xi js list c).1 q = xi q) by
    exact ⟨H.1, H.2.1, fun h => (H.2.2.1 h).2⟩
  induction js generalizing list c with
  | nil => simp [checkChange]
  | cons j js ih =>
    unfold checkChange
    by_cases he : list (o + j) = xi (o + j)
    · rw [if_pos he]
      obtain ⟨h1, h2, h3, h4⟩ := ih list c
      refine ⟨?_, ?_, ?_, h4⟩
      · intro k hk
        rcases List.mem_cons.1 hk with rfl | hk
        · exact h4 _ he
        · exact h1 k hk
      · intro q hq
        exact h2 q (fun k hk => hq k (by simp [hk]))
      · intro hf
        refine ⟨(h3 hf).1, ?_⟩
        intro k hk
        rcases List.mem_cons.1 hk with rfl | hk
        · exact he
        · exact (h3 hf).2 k hk
    · rw [if_neg he]
      obtain ⟨h1, h2, h3, h4⟩ := ih (Function.update list (o + j) (xi (o + j))) true
      refine ⟨?_, ?_, ?_, ?_⟩
      · intro k hk
        rcases List.mem_cons.1 hk with rfl | hk
        · exact h4 _ (Function.update_self _ _ _)
        · exact h1 k hk
      · intro q hq
        rw [h2 q (fun k hk => hq k (by simp [hk]))]
        exact Function.update_of_ne (fun e => hq j (by simp) e.symm) _ _
      · intro hf
        exact absurd (h3 hf).1 (by simp)
      · intro q hq
        refine h4 q ?_
        by_cases e : q = o + j
        · subst e; exact Function.update_self _ _ _
        · rw [Function.update_of_ne e]; exact hq

/-- The sampled values of potential number `i` belong to the parameters stored in `xi` from position
`o + 2` on. -/
def FreshAt (steps : Nat) (xcoord : Nat → K) (p : Pot K) (i o : Nat) (xi tab : Nat → K) : Prop :=
  ∀ j < steps, (p.smooth = true → xi (o + 1 + p.nPar) ≠ 0) ∧
    sampleAt p (xcoord (samplePos steps i j)) (params xi (o + 2) p.nPar) (xi (o + 1 + p.nPar)) =
      .ok (tab (samplePos steps i j))

theorem sampleAt_congr {p : Pot K} (x : K) (val : List K) {h h' : K}
    (hh : p.smooth = true → h = h') : sampleAt p x val h = sampleAt p x val h' := by
  unfold sampleAt
  by_cases hs : p.smooth = true
  · rw [hh hs]
  · simp [hs]

theorem params_congr {xi yi : Nat → K} {o n : Nat} (h : ∀ j < n, xi (o + j) = yi (o + j)) :
    params xi o n = params yi o n := by
  unfold params
  apply List.map_congr_left
  intro j hj
  exact h j (List.mem_range.1 hj)

theorem FreshAt.congr {steps : Nat} {xcoord : Nat → K} {p : Pot K} {i o : Nat} {xi yi tab tab' : Nat → K}
    (hsm : p.smooth = true → 1 ≤ p.nPar)
    (h : FreshAt steps xcoord p i o xi tab) (hx : ∀ j < p.nPar, xi (o + 2 + j) = yi (o + 2 + j))
    (ht : ∀ j < steps, tab (samplePos steps i j) = tab' (samplePos steps i j)) :
    FreshAt steps xcoord p i o yi tab' := by
  intro j hj
  obtain ⟨h1, h2⟩ := h j hj
  have hlast : p.smooth = true → xi (o + 1 + p.nPar) = yi (o + 1 + p.nPar) := by
    intro hs
    have h3 := hsm hs
    have h4 := hx (p.nPar - 1) (by omega)
    rwa [show o + 2 + (p.nPar - 1) = o + 1 + p.nPar by omega] at h4
  refine ⟨fun hs => by rw [← hlast hs]; exact h1 hs, ?_⟩
  rw [← params_congr hx, ← ht j hj, ← h2]
  exact (sampleAt_congr _ _ hlast).symm

/-- One pass over a potential. -/
theorem updatePot_spec {steps : Nat} {xcoord : Nat → K} {doAll : Bool} {p : Pot K} {i o : Nat} {h : K}
    {s : Tabs K} {h' : K} {s' : Tabs K} (hsm : p.smooth = true → 1 ≤ p.nPar)
    (hr : updatePot steps xcoord doAll p i o h s = .ok (h', s')) :
    (∀ q, q ≠ o → s'.xi q = s.xi q) ∧
    (∀ j < p.nPar, s'.list (o + 2 + j) = s.xi (o + 2 + j)) ∧
    (∀ q, (q < o + 2 ∨ o + 2 + p.nPar ≤ q) → s'.list q = s.list q) ∧
    (∀ k, (∀ j < steps, samplePos steps i j ≠ k) → s'.tab k = s.tab k) ∧
    ((doAll = true ∨ (p.invar = false ∧ FreshAt steps xcoord p i o s.list s.tab)) →
      FreshAt steps xcoord p i o s.xi s'.tab) := by
  unfold updatePot at hr
  have hxi : ∀ v j, Function.update s.xi o v (o + 2 + j) = s.xi (o + 2 + j) := fun v j =>
    Function.update_of_ne (by omega) _ _
  have hlast : ∀ v, p.smooth = true → Function.update s.xi o v (o + 1 + p.nPar) = s.xi (o + 1 + p.nPar) :=
    fun v hs => Function.update_of_ne (by have := hsm hs; omega) _ _
  obtain ⟨c1, c2, c3⟩ := checkChange_spec (o + 2)
    (Function.update s.xi o (p.grad (params s.xi (o + 2) p.nPar))) (List.range p.nPar) s.list false
  generalize hcc : checkChange (o + 2)
    (Function.update s.xi o (p.grad (params s.xi (o + 2) p.nPar))) (List.range p.nPar) s.list false
      = cc at c1 c2 c3
  obtain ⟨list, change⟩ := cc
  simp only at c1 c2 c3
  simp only [hcc] at hr
  cases hh : cutoffParam doAll p o h s.xi with
  | error e => rw [hh] at hr; cases hr
  | ok hv =>
    rw [hh] at hr
    have hhv : p.smooth = true → (doAll || !p.invar) = true →
        hv = s.xi (o + 1 + p.nPar) ∧ s.xi (o + 1 + p.nPar) ≠ 0 := by
      intro h1 h2
      unfold cutoffParam at hh
      rw [h1, h2] at hh
      simp only [Bool.and_self, if_true] at hh
      split at hh
      · cases hh
      · rename_i h3
        simp only [Except.ok.injEq] at hh
        exact ⟨hh.symm, h3⟩
    cases ht : resample steps xcoord doAll change p i
        (params (Function.update s.xi o (p.grad (params s.xi (o + 2) p.nPar))) (o + 2) p.nPar) hv
        s.tab with
    | error e => simp only [bind, Except.bind, ht] at hr; cases hr
    | ok tab =>
      simp only [bind, Except.bind, ht, Except.ok.injEq, Prod.mk.injEq] at hr
      obtain ⟨-, rfl⟩ := hr
      have hpar : params (Function.update s.xi o (p.grad (params s.xi (o + 2) p.nPar))) (o + 2) p.nPar
          = params s.xi (o + 2) p.nPar := params_congr fun j _ => hxi _ j
      rw [hpar, resample] at ht
      refine ⟨fun q hq => Function.update_of_ne hq _ _, ?_, ?_, ?_, ?_⟩
      · intro j hj
        exact (c1 j (List.mem_range.2 hj)).trans (hxi _ j)
      · intro q hq
        refine c2 q ?_
        intro j hj
        have := List.mem_range.1 hj
        omega
      · intro k hk
        split at ht
        · exact (sampleLoop_spec List.nodup_range ht).2 k
            (fun j hj => hk j (List.mem_range.1 hj))
        · simp only [Except.ok.injEq] at ht
          rw [ht]
      · intro hfr
        have hdo : (doAll || !p.invar) = true := by
          rcases hfr with h1 | h1
          · simp [h1]
          · simp [h1.1]
        split at ht
        · intro j hj
          refine ⟨fun hs => (hhv hs hdo).2, ?_⟩
          rw [← (sampleLoop_spec List.nodup_range ht).1 j (List.mem_range.2 hj)]
          exact sampleAt_congr _ _ (fun hs => (hhv hs hdo).1.symm)
        · rename_i hne
          simp only [Except.ok.injEq] at ht
          subst ht
          rcases hfr with h1 | ⟨h1, h2⟩
          · exact absurd (by simp [h1]) hne
          · have hch : change = false := by
              cases change
              · rfl
              · exact absurd (by simp [h1]) hne
            refine h2.congr hsm ?_ (fun _ _ => rfl)
            intro j hj
            rw [c3 hch j (List.mem_range.2 hj)]
            exact hxi _ j

/-- Offset of potential `t` in the walk over `pots`. -/
def off (pots : List (Pot K)) (t : Nat) : Nat := ((pots.take t).map fun p => p.nPar + 2).sum

theorem optFirst_eq_off (pots : List (Pot K)) (t : Nat) : optFirst pots t = 2 + off pots t := rfl

/-- The loop over the potentials. -/
theorem updatePots_spec {steps : Nat} {xcoord : Nat → K} {doAll : Bool} (pots : List (Pot K)) {i o : Nat}
    {h : K} {s s' : Tabs K} (hsm : ∀ p ∈ pots, p.smooth = true → 1 ≤ p.nPar)
    (hr : updatePots steps xcoord doAll pots i o h s = .ok s') :
    (∀ q, q < o → s'.list q = s.list q) ∧
    (∀ k, (∀ t, i ≤ t → ∀ j < steps, samplePos steps t j ≠ k) → s'.tab k = s.tab k) ∧
    (∀ t p, pots[t]? = some p →
      (∀ j < p.nPar, s'.list (o + off pots t + 2 + j) = s.xi (o + off pots t + 2 + j)) ∧
      ((doAll = true ∨ (p.invar = false ∧
          FreshAt steps xcoord p (i + t) (o + off pots t) s.list s.tab)) →
        FreshAt steps xcoord p (i + t) (o + off pots t) s.xi s'.tab)) := by
  induction pots generalizing i o h s with
  | nil =>
    simp only [updatePots, Except.ok.injEq] at hr
    subst hr
    simp
  | cons d ps ih =>
    simp only [updatePots] at hr
    cases hu : updatePot steps xcoord doAll d i o h s with
    | error e => rw [hu] at hr; simp [bind, Except.bind] at hr
    | ok r =>
      obtain ⟨h1, s1⟩ := r
      rw [hu] at hr
      simp only [bind, Except.bind] at hr
      obtain ⟨a1, a2, a3, a4, a5⟩ := updatePot_spec (hsm d (by simp)) hu
      obtain ⟨b1, b2, b3⟩ := ih (fun p hp => hsm p (by simp [hp])) hr
      have hoff : ∀ t, off (d :: ps) (t + 1) = d.nPar + 2 + off ps t := by
        intro t; simp [off]
      refine ⟨?_, ?_, ?_⟩
      · intro q hq
        rw [b1 q (by omega), a3 q (by omega)]
      · intro k hk
        rw [b2 k (fun t ht => hk t (by omega)), a4 k (hk i (by omega))]
      · intro t p hp
        cases t with
        | zero =>
          simp only [List.getElem?_cons_zero, Option.some.injEq] at hp
          subst hp
          have h0 : off (d :: ps) 0 = 0 := by simp [off]
          rw [h0]
          simp only [Nat.add_zero]
          refine ⟨?_, ?_⟩
          · intro j hj
            rw [b1 _ (by omega), a2 j hj]
          · intro hf
            refine (a5 hf).congr (hsm d (by simp)) (fun _ _ => rfl) ?_
            intro j hj
            refine (b2 _ ?_).symm
            intro t ht l hl e
            have := (samplePos_inj hl hj e).1
            omega
        | succ t =>
          rw [List.getElem?_cons_succ] at hp
          obtain ⟨c1, c2⟩ := b3 t p hp
          have e1 : o + 2 + d.nPar + off ps t = o + off (d :: ps) (t + 1) := by rw [hoff]; omega
          have e2 : i + 1 + t = i + (t + 1) := by omega
          rw [e1] at c1 c2
          rw [e2] at c2
          have hge : o + 2 + d.nPar ≤ o + off (d :: ps) (t + 1) := by rw [hoff]; omega
          refine ⟨?_, ?_⟩
          · intro j hj
            rw [c1 j hj]
            exact a1 _ (by omega)
          · intro hf
            refine (c2 ?_).congr (hsm p (by simp [List.mem_of_getElem? hp]))
              (fun j _ => a1 _ (by omega)) (fun _ _ => rfl)
            rcases hf with hf | ⟨hf1, hf2⟩
            · exact Or.inl hf
            · right
              refine ⟨hf1, hf2.congr (hsm p (by simp [List.mem_of_getElem? hp])) ?_ ?_⟩
              · intro j _
                exact (a3 _ (Or.inr (by omega))).symm
              · intro j hj
                refine (a4 _ ?_).symm
                intro l hl e
                have := (samplePos_inj hl hj e).1
                omega

end Verif.Apot
