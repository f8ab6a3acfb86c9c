import Verif.Lemmas.Follow

namespace Verif.Spec

open Verif.Force

set_option linter.unusedSectionVars false

/-- A routine in terms of sums over atoms: what it leaves in the force vector for configuration `c`. -/
structure Leaves (b : Build) (res : Conf ℝ → FV ℝ) (ci : Nat) (site : Nat → Atom ℝ → List (Term ℝ))
    (F : Nat → Atom ℝ → Nat → V3 ℝ) (S : Nat → Atom ℝ → Fin 6 → ℝ) (c : Conf ℝ) : Prop where
  energy : (res c).energy ci = overAtoms c (fun i a => sumEnergy (site i a)) / (c.atoms.length : ℝ) - c.energy0
  force : ∀ j a, c.atoms[j]? = some a → ∀ k, (res c).force (c.start + j) k =
    (overAtoms c F (c.start + j) k - c.force0 (c.start + j) k) / scaleOf b a.absforce
  stress : b.stress = true → c.us = true → ∀ k, (res c).stress ci k = overAtoms c S k / c.vol - c.stress0 k

theorem overAtoms_terms {M : Type*} [AddCommMonoid M] (c : Conf ℝ) (site : Nat → Atom ℝ → List (Term ℝ))
    (g : Term ℝ → M) :
    overAtoms c (fun i a => ((site i a).map g).sum) = ((termsFrom site c.start c.atoms).map g).sum := by
  rw [sum_termsFrom]
  rfl

theorem overAtoms_congr {M : Type*} [AddCommMonoid M] (c : Conf ℝ) (g h : Nat → Atom ℝ → M)
    (hgh : ∀ j a, c.atoms[j]? = some a → g (c.start + j) a = h (c.start + j) a) : overAtoms c g = overAtoms c h := by
  unfold overAtoms
  congr 1
  apply List.map_congr_left
  intro p hp
  obtain ⟨p1, p2, p3⟩ := List.mem_zipIdx hp
  have := hgh (p.2 - c.start) p.1 (by rw [List.getElem?_eq_getElem (by omega)]; rw [← p3])
  rwa [show c.start + (p.2 - c.start) = p.2 by omega] at this

theorem overAtoms_add {M : Type*} [AddCommMonoid M] (c : Conf ℝ) (g h : Nat → Atom ℝ → M) :
    overAtoms c (fun i a => g i a + h i a) = overAtoms c g + overAtoms c h := sum_add_list _ _ _

theorem reported_energy {b : Build} {res : Conf ℝ → FV ℝ} {ci : Nat} {site : Nat → Atom ℝ → List (Term ℝ)}
    {F : Nat → Atom ℝ → Nat → V3 ℝ} {S : Nat → Atom ℝ → Fin 6 → ℝ} {c : Conf ℝ} (h : Leaves b res ci site F S c)
    (hn : c.atoms.length ≠ 0) :
    reportedEnergy res ci c = sumEnergy (termsFrom site c.start c.atoms) := by
  unfold reportedEnergy sumEnergy
  rw [h.energy, ← overAtoms_terms]
  have : (c.atoms.length : ℝ) ≠ 0 := by exact_mod_cast hn
  field_simp
  unfold sumEnergy
  ring

theorem scaleOf_pos (b : Build) {w : ℝ} (hw : 0 ≤ w) : scaleOf b w ≠ 0 := by
  unfold scaleOf
  by_cases h : b.fweight = true
  · simp only [if_pos h]; positivity
  · simp [if_neg h]

theorem reported_force {b : Build} {res : Conf ℝ → FV ℝ} {ci : Nat} {site : Nat → Atom ℝ → List (Term ℝ)}
    {F : Nat → Atom ℝ → Nat → V3 ℝ} {S : Nat → Atom ℝ → Fin 6 → ℝ} {c : Conf ℝ} (h : Leaves b res ci site F S c)
    (j : Nat) (a : Atom ℝ) (hj : c.atoms[j]? = some a) (hw : 0 ≤ a.absforce) (k : Fin 3) :
    reportedForce b (res c) c a.absforce (c.start + j) k = overAtoms c F (c.start + j) k := by
  unfold reportedForce
  rw [h.force j a hj]
  have := scaleOf_pos b hw
  unfold scaleOf at this ⊢
  field_simp
  ring

theorem reported_virial {b : Build} {res : Conf ℝ → FV ℝ} {ci : Nat} {site : Nat → Atom ℝ → List (Term ℝ)}
    {F : Nat → Atom ℝ → Nat → V3 ℝ} {S : Nat → Atom ℝ → Fin 6 → ℝ} {c : Conf ℝ} (h : Leaves b res ci site F S c)
    (hb : b.stress = true) (hs : c.us = true) (hv : c.vol ≠ 0) (k : Fin 6) :
    reportedVirial (res c) ci c k = overAtoms c S k := by
  unfold reportedVirial
  rw [h.stress hb hs]
  field_simp
  ring

/-- The terms follow the motion, atom by atom. -/
def Follows (m : Motion) (site : Nat → Atom ℝ → List (Term ℝ)) (s : Nat) (ts : List Node) : Prop :=
  ∀ j a, ts[j]? = some a → HasDerivAt (fun t => sumEnergy (site (s + j) (atomAt (m.path t (s + j)) a)))
      (sumRate m.speed (site (s + j) (atomAt (m.path m.now (s + j)) a))) m.now

theorem length_ne {f : Conf ℝ} {ts : List Node} {rf : Nat → Link → V3 ℝ} (h : ts ≠ []) :
    (placeWith f ts rf).atoms.length ≠ 0 := by
  simp only [placeWith, placeWithFrom_length]
  intro h0
  exact h (List.length_eq_zero_iff.1 h0)

/-- Force is minus the gradient of the energy. -/
theorem conservative_force {b : Build} {res : Conf ℝ → FV ℝ} {ci : Nat} {site : Nat → Atom ℝ → List (Term ℝ)}
    {F : Nat → Atom ℝ → Nat → V3 ℝ} {S : Nat → Atom ℝ → Fin 6 → ℝ} {f : Conf ℝ} {ts : List Node} {x : Nat → V3 ℝ}
    (hl : ∀ rf, Leaves b res ci site F S (placeWith f ts rf))
    (hF : overAtoms (place f ts x) F = fun a => sumForce (termsFrom site f.start (place f ts x).atoms) a)
    (hd : ∀ a k, Follows (moving x a k) site f.start ts) (j : Nat) (n : Node) (hj : ts[j]? = some n)
    (hw : 0 ≤ n.absforce) (k : Fin 3) :
    HasDerivAt (fun t => reportedEnergy res ci (place f ts (moved x (f.start + j) k t)))
      (-reportedForce b (res (place f ts x)) f n.absforce (f.start + j) k) (x (f.start + j) k) := by
  have hne : ts ≠ [] := by intro h; rw [h] at hj; simp at hj
  have h1 := hasDerivAt_terms (moving x (f.start + j) k) site ts f.start (hd (f.start + j) k)
  rw [sumRate_moving] at h1
  have e : (moving x (f.start + j) k).now = x (f.start + j) k := rfl
  have e2 : (moving x (f.start + j) k).path (moving x (f.start + j) k).now = reach x := by
    show reach (moved x (f.start + j) k (x (f.start + j) k)) = reach x
    rw [moved_self]
  rw [e2] at h1
  refine (h1.congr_of_eventuallyEq (Filter.Eventually.of_forall fun t => ?_)).congr_deriv ?_
  · simp only
    rw [← placeWith_reach, reported_energy (hl _) (length_ne hne)]
    rfl
  · have hl' := hl (reach x)
    rw [placeWith_reach] at hl'
    have h2 := reported_force hl' j (atomAt (reach x (f.start + j)) n) (by
      simp only [place, placeFrom_getElem?, hj, Option.map_some]; rfl) hw k
    have h3 : reportedForce b (res (place f ts x)) f n.absforce (f.start + j) k =
        overAtoms (place f ts x) F (f.start + j) k := h2
    rw [h3, hF, placeWithFrom_reach]
    rfl

/-- The stresses are minus the derivative of the energy with respect to strain, divided by the volume. -/
theorem conservative_stress {b : Build} {res : Conf ℝ → FV ℝ} {ci : Nat} {site : Nat → Atom ℝ → List (Term ℝ)}
    {F : Nat → Atom ℝ → Nat → V3 ℝ} {S : Nat → Atom ℝ → Fin 6 → ℝ} {f : Conf ℝ} {ts : List Node} {x : Nat → V3 ℝ}
    (hl : ∀ rf, Leaves b res ci site F S (placeWith f ts rf)) (hne : ts ≠ []) (hb : b.stress = true)
    (hs : f.us = true) (hv : f.vol ≠ 0)
    (α β : Fin 3) (k : Fin 6)
    (hS : overAtoms (place f ts x) S k = -sumStrain (termsFrom site f.start (place f ts x).atoms) α β)
    (hd : Follows (straining x α β) site f.start ts) :
    HasDerivAt (fun e => reportedEnergy res ci (placeStrained f ts x α β e))
      (-reportedVirial (res (place f ts x)) ci f k) 0 := by
  have h1 := hasDerivAt_terms (straining x α β) site ts f.start hd
  rw [sumRate_straining] at h1
  have e2 : (straining x α β).path (straining x α β).now = reach x := by
    funext i l c
    show strained 0 α β (reach x i l) c = _
    simp [strained]
  rw [e2] at h1
  refine (h1.congr_of_eventuallyEq (Filter.Eventually.of_forall fun t => ?_)).congr_deriv ?_
  · simp only
    rw [placeStrained, reported_energy (hl _) (length_ne hne)]
    rfl
  · have hl' := hl (reach x)
    rw [placeWith_reach] at hl'
    have h3 : reportedVirial (res (place f ts x)) ci f k = overAtoms (place f ts x) S k := reported_virial hl' hb hs hv k
    rw [h3, hS, neg_neg, placeWithFrom_reach]
    rfl

theorem sum_single (s n a : Nat) (h : s ≤ a ∧ a < s + n) (v : V3 ℝ) (k : Fin 3) :
    ∑ j ∈ Finset.range n, single a v (s + j) k = v k := by
  unfold single
  rw [Finset.sum_eq_single (a - s)]
  · rw [if_pos (by omega)]
  · intro b _ hb
    rw [if_neg (by omega)]
    rfl
  · intro hn
    exact absurd (Finset.mem_range.2 (by omega)) hn

/-- Forces of a term add up to zero. -/
theorem term_balance (t : Term ℝ) (s n : Nat) (ho : s ≤ t.own ∧ t.own < s + n)
    (hp : ∀ p ∈ t.pulls, s ≤ p.n.nr ∧ p.n.nr < s + n) (k : Fin 3) :
    ∑ j ∈ Finset.range n, t.force (s + j) k = 0 := by
  simp only [term_force]
  unfold pullForce
  have : ∀ (ps : List (Pull ℝ)), (∀ p ∈ ps, s ≤ p.n.nr ∧ p.n.nr < s + n) →
      ∑ j ∈ Finset.range n, ((ps.map fun p => single t.own p.g - single p.n.nr p.g).sum (s + j) k) = 0 := by
    intro ps
    induction ps with
    | nil => intro _; simp
    | cons p ps ih =>
      intro hps
      simp only [List.map_cons, List.sum_cons, Pi.add_apply, Pi.sub_apply]
      rw [Finset.sum_add_distrib, ih (fun q hq => hps q (List.mem_cons_of_mem _ hq)), Finset.sum_sub_distrib,
        sum_single s n t.own ho, sum_single s n p.n.nr (hps p List.mem_cons_self)]
      ring
  exact this t.pulls hp

theorem terms_balance (ts : List (Term ℝ)) (s n : Nat) (h : ∀ t ∈ ts, (s ≤ t.own ∧ t.own < s + n) ∧
    ∀ p ∈ t.pulls, s ≤ p.n.nr ∧ p.n.nr < s + n) (k : Fin 3) :
    ∑ j ∈ Finset.range n, sumForce ts (s + j) k = 0 := by
  unfold sumForce
  induction ts with
  | nil => simp
  | cons t ts ih =>
    simp only [List.map_cons, List.sum_cons, Pi.add_apply]
    rw [Finset.sum_add_distrib, term_balance t s n (h t List.mem_cons_self).1 (h t List.mem_cons_self).2,
      ih (fun u hu => h u (List.mem_cons_of_mem _ hu)), add_zero]

/-- The neighbours of atoms of a configuration with full lists belong to it. -/
theorem mutual_range {f : Conf ℝ} {ts : List Node} (hm : Mutual f ts) {j : Nat} {a : Node} (hj : ts[j]? = some a)
    {l : Link} (hl : l ∈ a.links) : f.start ≤ l.nr ∧ l.nr < f.start + ts.length := by
  have own : ∀ (ts : List Node) (s : Nat) (A : Arrow), A ∈ arrowsFrom s ts → s ≤ A.own ∧ A.own < s + ts.length := by
    intro ts
    induction ts with
    | nil => intro s A h; simp [arrowsFrom] at h
    | cons b ts ih =>
      intro s A h
      simp only [arrowsFrom, List.mem_append, List.mem_map] at h
      rcases h with ⟨l, _, rfl⟩ | h
      · simp
      · have := ih _ _ h
        simp only [List.length_cons]
        omega
  have mem : ∀ (ts : List Node) (s j : Nat), ts[j]? = some a → (⟨s + j, l.nr, l.shift, l.col0⟩ : Arrow) ∈ arrowsFrom s ts := by
    intro ts
    induction ts with
    | nil => intro s j h; simp at h
    | cons b ts ih =>
      intro s j h
      simp only [arrowsFrom, List.mem_append, List.mem_map]
      cases j with
      | zero =>
        simp only [List.getElem?_cons_zero, Option.some.injEq] at h
        subst h
        exact Or.inl ⟨l, hl, by simp⟩
      | succ j =>
        have := ih (s + 1) j (by simpa using h)
        rw [show s + 1 + j = s + (j + 1) by omega] at this
        exact Or.inr this
  have h1 := mem ts f.start j hj
  have h2 := (List.Perm.mem_iff hm).1 h1
  rw [List.mem_map] at h2
  obtain ⟨A, hA, hA2⟩ := h2
  have h3 := own _ _ _ hA
  have : A.own = l.nr := by
    have := congrArg Arrow.nr hA2
    exact this
  rwa [this] at h3

/-- The forces on all atoms of a configuration add up to zero. -/
theorem conservative_balance {b : Build} {res : Conf ℝ → FV ℝ} {ci : Nat} {site : Nat → Atom ℝ → List (Term ℝ)}
    {F : Nat → Atom ℝ → Nat → V3 ℝ} {S : Nat → Atom ℝ → Fin 6 → ℝ} {f : Conf ℝ} {ts : List Node} {x : Nat → V3 ℝ}
    (hl : ∀ rf, Leaves b res ci site F S (placeWith f ts rf))
    (hF : overAtoms (place f ts x) F = fun a => sumForce (termsFrom site f.start (place f ts x).atoms) a)
    (hm : Mutual f ts)
    (hsite : ∀ i a, ∀ t ∈ site i a, t.own = i ∧ ∀ p ∈ t.pulls, p.n ∈ a.neigh)
    (hw : ∀ n ∈ ts, 0 ≤ n.absforce) (k : Fin 3) :
    (ts.zipIdx.map fun p => reportedForce b (res (place f ts x)) f p.1.absforce (f.start + p.2) k).sum = 0 := by
  have hl' := hl (reach x)
  rw [placeWith_reach] at hl'
  have h1 : ts.zipIdx.map (fun p => reportedForce b (res (place f ts x)) f p.1.absforce (f.start + p.2) k) =
      ts.zipIdx.map fun p => sumForce (termsFrom site f.start (place f ts x).atoms) (f.start + p.2) k := by
    apply List.map_congr_left
    intro p hp
    obtain ⟨p1, p2, p3⟩ := List.mem_zipIdx hp
    have hj : ts[p.2]? = some p.1 := by
      rw [List.getElem?_eq_getElem (by omega)]
      simp only [Nat.sub_zero] at p3
      rw [p3]
    have h2 := reported_force hl' p.2 (atomAt (reach x (f.start + p.2)) p.1) (by
      simp only [place, placeFrom_getElem?, hj, Option.map_some]; rfl) (hw p.1 (List.mem_of_getElem? hj)) k
    have h3 : reportedForce b (res (place f ts x)) f p.1.absforce (f.start + p.2) k =
        overAtoms (place f ts x) F (f.start + p.2) k := h2
    rw [h3, hF]
  rw [h1]
  have h2 : (ts.zipIdx.map fun p => sumForce (termsFrom site f.start (place f ts x).atoms) (f.start + p.2) k).sum =
      ∑ j ∈ Finset.range ts.length, sumForce (termsFrom site f.start (place f ts x).atoms) (f.start + j) k := by
    have := sum_zipIdx ts (fun _ j => sumForce (termsFrom site f.start (place f ts x).atoms) (f.start + j) k) 0
      ⟨0, [], 0, false⟩
    simpa using this
  rw [h2]
  apply terms_balance
  intro t ht
  rw [mem_termsFrom] at ht
  obtain ⟨j, a, hj, hmem⟩ := ht
  obtain ⟨s1, s2⟩ := hsite _ _ _ hmem
  simp only [place, placeFrom_getElem?, Option.map_eq_some_iff] at hj
  obtain ⟨nd, hnd, rfl⟩ := hj
  have hlt := (List.getElem?_eq_some_iff.1 hnd).1
  refine ⟨by rw [s1]; omega, ?_⟩
  intro p hp
  have := s2 p hp
  simp only [List.mem_map] at this
  obtain ⟨l, hl, hpl⟩ := this
  have hr := mutual_range hm hnd hl
  rw [← hpl]
  exact hr

end Verif.Spec
