/-
C68  Induced dipoles: the iteration ends, what it ends with, and how far the dipoles are self-consistent.
-/
import Verif.Lemmas.Dipoles
import Mathlib.Analysis.SpecialFunctions.Sqrt
import Mathlib.Tactic.LinearCombination
import Mathlib.Tactic.FieldSimp
import Mathlib.Tactic.NormNum
import Mathlib.Tactic.Linarith
import Mathlib.Tactic.Positivity

set_option linter.unusedSectionVars false

namespace Verif.Props

open Verif.Force Verif.Spec

section
variable {K : Type*} [Field K] [LinearOrder K] [IsStrictOrderedRing K]

theorem dipIter_some (E : Elec K) (c : Conf K) (fuel it : Nat) (d : Dip K) (h : 52 ≤ it + fuel) (hf : 0 < fuel) :
    ∃ r, dipIter E c fuel it d = some r := by
  induction fuel generalizing it d with
  | zero => omega
  | succ n ih =>
    simp only [dipIter]
    split
    · exact ⟨_, rfl⟩
    · next h1 =>
      split
      · exact ⟨_, rfl⟩
      · by_cases hn : n = 0
        · subst hn
          exact absurd ⟨by omega, Or.inr (by omega)⟩ h1
        · exact ih (it + 1) _ (by omega) (by omega)

theorem dipIter_mono (E : Elec K) (c : Conf K) (fuel m it : Nat) (d r : Dip K) (h : dipIter E c fuel it d = some r) :
    dipIter E c (fuel + m) it d = some r := by
  induction fuel generalizing it d with
  | zero => simp [dipIter] at h
  | succ n ih =>
    rw [show n + 1 + m = (n + m) + 1 by omega]
    simp only [dipIter] at h ⊢
    split
    · next h1 => rw [if_pos h1] at h; exact h
    · next h1 =>
      rw [if_neg h1] at h
      split
      · next h2 => rw [if_pos h2] at h; exact h
      · next h2 =>
        rw [if_neg h2] at h
        exact ih _ _ h

/-- One more round. -/
theorem dipIter_next (E : Elec K) (c : Conf K) (n it : Nat) (d : Dip K)
    (h1 : it = 0 ∨ (dipDiff E c (dipRound E c (it == 0) d) ≤ 10 ∧ it ≤ 50))
    (h2 : ¬dipDiff E c (dipRound E c (it == 0) d) < E.tol) :
    dipIter E c (n + 1) it d = dipIter E c n (it + 1) (dipRound E c (it == 0) d) := by
  have h : ¬(it ≠ 0 ∧ (10 < dipDiff E c (dipRound E c (it == 0) d) ∨ 50 < it)) := by
    rintro ⟨h3, h4⟩
    rcases h1 with h1 | ⟨h5, h6⟩
    · exact h3 h1
    · rcases h4 with h4 | h4
      · exact absurd h5 (not_le.2 h4)
      · omega
  simp only [dipIter]
  rw [if_neg h, if_neg h2]

/-- The last round. -/
theorem dipIter_stop (E : Elec K) (c : Conf K) (n it : Nat) (d : Dip K)
    (h1 : it = 0 ∨ (dipDiff E c (dipRound E c (it == 0) d) ≤ 10 ∧ it ≤ 50))
    (h2 : dipDiff E c (dipRound E c (it == 0) d) < E.tol) :
    dipIter E c (n + 1) it d = some (dipRound E c (it == 0) d) := by
  have h : ¬(it ≠ 0 ∧ (10 < dipDiff E c (dipRound E c (it == 0) d) ∨ 50 < it)) := by
    rintro ⟨h3, h4⟩
    rcases h1 with h1 | ⟨h5, h6⟩
    · exact h3 h1
    · rcases h4 with h4 | h4
      · exact absurd h5 (not_le.2 h4)
      · omega
  simp only [dipIter]
  rw [if_neg h, if_pos h2]

/-- The iteration ends after at most 52 rounds, whatever the configuration, the parameters and the dipoles at the start. -/
theorem C68_terminates (E : Elec K) (c : Conf K) (d : Dip K) (n : Nat) (hn : 52 ≤ n) :
    dipIter E c n 0 d = some (dipSolve E c d) := by
  obtain ⟨r, hr⟩ := dipIter_some E c 52 0 d (by omega) (by omega)
  obtain ⟨m, rfl⟩ : ∃ m, n = 52 + m := ⟨n - 52, by omega⟩
  rw [dipIter_mono E c 52 m 0 d r hr]
  unfold dipSolve
  rw [hr]
  rfl

/-- How the iteration ends: it gives up, or the last round (in a state `d'`) has changed the fields by less than the
tolerance. -/
theorem dipIter_outcome (E : Elec K) (c : Conf K) (fuel it : Nat) (d r : Dip K) (h : dipIter E c fuel it d = some r) :
    (∃ d' : Dip K, r = dipGiveUp E c.atoms c.start d' ∧ d'.eStat = d.eStat ∧ d'.pSr = d.pSr) ∨
    ∃ (d' : Dip K) (n : Nat), it ≤ n ∧ r = dipRound E c (n == 0) d' ∧ dipDiff E c r < E.tol ∧ d'.eStat = d.eStat ∧
      d'.pSr = d.pSr ∧ (n = it → d' = d) ∧ (it < n → ∃ d'', d' = dipRound E c (n - 1 == 0) d'') := by
  induction fuel generalizing it d with
  | zero => simp [dipIter] at h
  | succ k ih =>
    simp only [dipIter] at h
    obtain ⟨r1, r2, -, -⟩ := dipRound_spec E c (it == 0) d
    split at h
    · simp only [Option.some.injEq] at h
      exact Or.inl ⟨_, h.symm, r1, r2⟩
    · split at h
      · next hx =>
        simp only [Option.some.injEq] at h
        exact Or.inr ⟨d, it, le_refl _, h.symm, by rw [← h]; exact hx, rfl, rfl, fun _ => rfl,
          fun h => absurd h (lt_irrefl _)⟩
      · rcases ih (it + 1) _ h with ⟨d', h1, h2, h3⟩ | ⟨d', n, h0, h1, h2, h3, h4, h5, h6⟩
        · exact Or.inl ⟨d', h1, h2.trans r1, h3.trans r2⟩
        · refine Or.inr ⟨d', n, by omega, h1, h2, h3.trans r1, h4.trans r2, fun h => absurd h (by omega), fun _ => ?_⟩
          by_cases hn : it + 1 < n
          · exact h6 hn
          · have hn' : n = it + 1 := by omega
            exact ⟨d, by rw [h5 hn', hn', Nat.add_sub_cancel]⟩

theorem polarSum_congr (E : Elec K) (c : Conf K) (f g : K → Nat → K)
    (h : ∀ j a, c.atoms[j]? = some a → E.alpha a.typ ≠ 0 → f (E.alpha a.typ) (c.start + j) = g (E.alpha a.typ) (c.start + j)) :
    polarSum E c f = polarSum E c g := by
  unfold polarSum
  congr 1
  apply List.map_congr_left
  intro ak hak
  by_cases h0 : E.alpha ak.1.typ = 0
  · rw [if_pos h0, if_pos h0]
  · rw [if_neg h0, if_neg h0, h _ _ (List.mem_zipIdx_iff_getElem?.1 hak) h0]

/-- `E.sqrt` is a square root. -/
def IsRoot (E : Elec K) : Prop := ∀ x, 0 ≤ x → 0 ≤ E.sqrt x ∧ E.sqrt x * E.sqrt x = x

/-- A difference below the tolerance. -/
theorem diff_lt (E : Elec K) (c : Conf K) (hs : IsRoot E) (d : Dip K) (h : dipDiff E c d < E.tol) :
    polarSum E c (fun α i => ∑ k : Fin 3, (α * (d.eOld i k - d.eInd i k)) ^ 2) / (3 * (c.atoms.length : K)) < E.tol ^ 2 := by
  unfold dipDiff at h
  have h1 : dipChange E d c.atoms c.start 0 =
      polarSum E c (fun α i => ∑ k : Fin 3, (α * (d.eOld i k - d.eInd i k)) ^ 2) := by
    rw [dipChange_spec, zero_add]
    rfl
  rw [h1] at h
  have h0 : 0 ≤ polarSum E c (fun α i => ∑ k : Fin 3, (α * (d.eOld i k - d.eInd i k)) ^ 2) / (3 * (c.atoms.length : K)) := by
    rw [← h1]
    exact div_nonneg (dipChange_nonneg E d c.atoms c.start) (by positivity)
  obtain ⟨a1, a2⟩ := hs _ h0
  calc _ = E.sqrt _ * E.sqrt _ := a2.symm
    _ < E.tol * E.tol := mul_lt_mul'' h h a1 a1
    _ = E.tol ^ 2 := by ring

/-- What the dipoles of a configuration are after the iteration: those of the static field alone, or, with fields `e` of the
round before and `e'` of the round before that, those of the mixed field, and the fields of the new dipoles differ from
`e` by less than the tolerance.  In the first round nothing is mixed. -/
theorem C68_outcome (b : Build) (P : Pots K) (E : Elec K) (c : Conf K) (hs : IsRoot E) (s : ElState K) :
    let p := (elDipoles b true P E c s).pInd
    StaticOnly E c p ∨ ∃ (m : K) (e e' : Nat → V3 K), (m = 0 ∨ m = E.mix) ∧
      (∀ j a, c.atoms[j]? = some a → E.alpha a.typ ≠ 0 → ∀ k, p (c.start + j) k =
        E.alpha a.typ * ((1 - m) * e (c.start + j) k + m * e' (c.start + j) k + staticField E c (c.start + j) k) +
          shortMoment E c (c.start + j) k) ∧
      polarSum E c (fun α i => ∑ k : Fin 3, (α * (e i k - dipoleField E c p i k)) ^ 2) / (3 * (c.atoms.length : K)) <
        E.tol ^ 2 := by
  intro p
  set t := elStart b true P E c s with ht
  set d : Dip K := { s.dip with eStat := t.eStat, pSr := t.pSr } with hd
  have hp : p = (dipSolve E c d).pInd := rfl
  have hfields := elStart_fields b P E c s
  have hlt : ∀ {j : Nat} {a : Atom K}, c.atoms[j]? = some a → j < c.atoms.length := fun h => (List.getElem?_eq_some_iff.1 h).1
  rcases dipIter_outcome E c 52 0 d _ (C68_terminates E c d 52 (le_refl _)) with ⟨d', h1, h2, h3⟩ | ⟨d', n, -, h1, h2, h3, h4, -⟩
  · left
    intro j a ha hα
    obtain ⟨-, -, -, g4⟩ := dipGiveUp_spec E c.atoms c.start d'
    rw [hp, h1, g4 j a ha hα, h2, h3]
    simp only [hd, ht, (hfields j (hlt ha)).1, (hfields j (hlt ha)).2]
  · right
    obtain ⟨-, -, -, g4⟩ := dipRound_spec E c (n == 0) d'
    rw [← h1] at g4
    refine ⟨if n = 0 then 0 else E.mix, d'.eInd, d'.eOld, by split <;> simp, ?_, ?_⟩
    · intro j a ha hα k
      rw [hp, (g4 j a ha hα).1, h4]
      unfold dipTotal
      rw [h3]
      simp only [hd, ht, (hfields j (hlt ha)).1, (hfields j (hlt ha)).2]
      by_cases hn : n = 0
      · simp only [hn, beq_self_eq_true, if_true]; ring
      · have : (n == 0) = false := by simpa using hn
        simp only [this, Bool.false_eq_true, if_false, if_neg hn]
    · have h := diff_lt E c hs _ h2
      rw [hp]
      refine lt_of_eq_of_lt ?_ h
      congr 1
      apply polarSum_congr
      intro j a ha hα
      rw [(g4 j a ha hα).2.1, (g4 j a ha hα).2.2]

/-- Without mixing: the dipoles are those of the static field alone, or they agree, up to the tolerance, with the dipoles
induced by the charges and by the dipoles themselves. -/
theorem C68_self_consistent_partial (b : Build) (P : Pots K) (E : Elec K) (c : Conf K) (hs : IsRoot E) (hm : E.mix = 0)
    (s : ElState K) :
    let p := (elDipoles b true P E c s).pInd
    StaticOnly E c p ∨ inconsistency E c p < E.tol ^ 2 := by
  intro p
  rcases C68_outcome b P E c hs s with h | ⟨m, e, e', h1, h2, h3⟩
  · exact Or.inl h
  · right
    have hm0 : m = 0 := by rcases h1 with h | h <;> [exact h; exact h.trans hm]
    unfold inconsistency
    refine lt_of_eq_of_lt ?_ h3
    congr 1
    apply polarSum_congr
    intro j a ha hα
    apply Finset.sum_congr rfl
    intro k _
    show (p (c.start + j) k - _) ^ 2 = _
    rw [show p (c.start + j) k = _ from h2 j a ha hα k, hm0]
    ring

/-- The dipoles of other atoms stay as they are. -/
theorem C68_others (b : Build) (P : Pots K) (E : Elec K) (c : Conf K) (s : ElState K) (i : Nat)
    (hi : ¬(c.start ≤ i ∧ i < c.start + c.atoms.length)) : (elDipoles b true P E c s).pInd i = s.dip.pInd i := by
  have h : ∀ (fuel it : Nat) (d r : Dip K), dipIter E c fuel it d = some r → r.pInd i = d.pInd i := by
    intro fuel
    induction fuel with
    | zero => intro it d r h; simp [dipIter] at h
    | succ n ih =>
      intro it d r h
      simp only [dipIter] at h
      obtain ⟨-, -, r3, -⟩ := dipRound_spec E c (it == 0) d
      split at h
      · simp only [Option.some.injEq] at h
        rw [← h, (dipGiveUp_spec E c.atoms c.start _).2.2.1 i hi, r3 i hi]
      · split at h
        · simp only [Option.some.injEq] at h
          rw [← h, r3 i hi]
        · rw [ih _ _ _ h, r3 i hi]
  exact h 52 0 { s.dip with eStat := (elStart b true P E c s).eStat, pSr := (elStart b true P E c s).pSr } _
    (C68_terminates E c _ 52 (le_refl _))

end

/-! ### Two atoms -/

/-- Bare Coulomb interaction; charges 1 and −1, polarisabilities 5/32. -/
noncomputable def ionE (mix tol : ℝ) : Elec ℝ where
  cut := 2
  charge := fun t => if t = 0 then 1 else -1
  alpha := fun _ => 5 / 32
  b := 0
  c := 0
  tail := fun r => ⟨1 / r, -(1 / r ^ 3), 3 / r ^ 5⟩
  srValue := fun _ _ _ _ => 0
  srTerm := fun _ _ _ => 0
  selfCoef := 0
  mix := mix
  tol := tol
  sqrt := Real.sqrt

/-- Two ions at distance 1. -/
def ionC : Conf ℝ where
  start := 0
  atoms := [⟨0, [⟨1, 1, 1, ![1, 0, 0], ![1, 0, 0], 0, 0⟩], 0, true⟩, ⟨1, [], 0, true⟩]
  uf := true
  us := true
  weight := 1
  vol := 1
  force0 := 0
  energy0 := 0
  stress0 := 0
  limit0 := 0
  chem := 0

theorem ion_root (mix tol : ℝ) : IsRoot (ionE mix tol) := fun x hx => ⟨Real.sqrt_nonneg x, Real.mul_self_sqrt hx⟩

/-- Both atoms have the dipole `p`, the field `e` of the other dipole, before that `e'`, all along the axis; the field of the
charges is 1. -/
structure Axis (d : Dip ℝ) (p e e' : ℝ) : Prop where
  pInd : ∀ i < 2, d.pInd i = ![p, 0, 0]
  eInd : ∀ i < 2, d.eInd i = ![e, 0, 0]
  eOld : ∀ i < 2, d.eOld i = ![e', 0, 0]
  eStat : ∀ i < 2, d.eStat i = ![1, 0, 0]
  pSr : ∀ i < 2, d.pSr i = 0

theorem ion_entries : entries ionC = [⟨0, 0, ⟨1, 1, 1, ![1, 0, 0], ![1, 0, 0], 0, 0⟩⟩] := rfl

theorem ion_static (mix tol : ℝ) (i : Nat) (hi : i < 2) :
    staticField (ionE mix tol) ionC i = ![1, 0, 0] ∧ shortMoment (ionE mix tol) ionC i = 0 := by
  constructor
  · funext k
    unfold staticField
    rw [ion_entries]
    have : i = 0 ∨ i = 1 := by omega
    rcases this with rfl | rfl <;> fin_cases k <;> simp [ionE, share]
  · funext k
    unfold shortMoment
    rw [ion_entries]
    simp [ionE]

theorem ion_field (mix tol : ℝ) (p : Nat → V3 ℝ) (q : ℝ) (hp : ∀ i < 2, p i = ![q, 0, 0]) (i : Nat) (hi : i < 2) :
    dipoleField (ionE mix tol) ionC p i = ![-2 * q, 0, 0] := by
  funext k
  unfold dipoleField
  rw [ion_entries]
  have h0 := hp 0 (by omega)
  have h1 := hp 1 (by omega)
  have : i = 0 ∨ i = 1 := by omega
  rcases this with rfl | rfl <;> fin_cases k <;> simp [ionE, dipoleTerm, dot3, Fin.sum_univ_three, h0, h1] <;> ring

theorem ion_atoms (j : Nat) (hj : j < 2) : ∃ a, ionC.atoms[j]? = some a := by
  have : j = 0 ∨ j = 1 := by omega
  rcases this with rfl | rfl <;> exact ⟨_, rfl⟩

/-- One round. -/
theorem ion_round (mix tol : ℝ) (first : Bool) (d : Dip ℝ) (p e e' : ℝ) (h : Axis d p e e') :
    let q := 5 / 32 * ((if first then e else (1 - mix) * e + mix * e') + 1)
    Axis (dipRound (ionE mix tol) ionC first d) q (-2 * q) e := by
  intro q
  obtain ⟨r1, r2, -, r4⟩ := dipRound_spec (ionE mix tol) ionC first d
  have hα : ∀ t, (ionE mix tol).alpha t ≠ 0 := fun t => by simp [ionE]
  have hP : ∀ i < 2, (dipRound (ionE mix tol) ionC first d).pInd i = ![q, 0, 0] := by
    intro i hi
    obtain ⟨a, ha⟩ := ion_atoms i hi
    have := (r4 i a ha (hα _)).1
    rw [show ionC.start = 0 from rfl, zero_add] at this
    rw [this]
    funext k
    unfold dipTotal
    rw [h.eInd i hi, h.eOld i hi, h.eStat i hi, h.pSr i hi]
    have ha' : (ionE mix tol).alpha a.typ = 5 / 32 := rfl
    have hm' : (ionE mix tol).mix = mix := rfl
    rw [ha', hm']
    cases first <;> fin_cases k <;> simp [q]
  refine ⟨hP, ?_, ?_, fun i hi => ?_, fun i hi => ?_⟩
  · intro i hi
    obtain ⟨a, ha⟩ := ion_atoms i hi
    have := (r4 i a ha (hα _)).2.2
    rw [show ionC.start = 0 from rfl, zero_add] at this
    rw [this, ion_field mix tol _ q hP i hi]
  · intro i hi
    obtain ⟨a, ha⟩ := ion_atoms i hi
    have := (r4 i a ha (hα _)).2.1
    rw [show ionC.start = 0 from rfl, zero_add] at this
    rw [this, h.eInd i hi]
  · rw [r1]; exact h.eStat i hi
  · rw [r2]; exact h.pSr i hi

/-- The difference compared with the tolerance. -/
theorem ion_diff (mix tol : ℝ) (d : Dip ℝ) (p e e' : ℝ) (h : Axis d p e e') :
    dipDiff (ionE mix tol) ionC d = √((5 / 32 * (e' - e)) ^ 2 / 3) := by
  unfold dipDiff
  rw [dipChange_spec]
  have l : (ionC.atoms.length : ℝ) = 2 := by simp [ionC]
  rw [l]
  show √(_) = _
  congr 1
  have e0 := h.eInd 0 (by omega)
  have e1 := h.eInd 1 (by omega)
  have o0 := h.eOld 0 (by omega)
  have o1 := h.eOld 1 (by omega)
  simp [ionC, ionE, Fin.sum_univ_three, e0, e1, o0, o1]
  ring

/-- The state before the iteration. -/
noncomputable def beforeRounds (b : Build) (P : Pots ℝ) (E : Elec ℝ) (c : Conf ℝ) (s : ElState ℝ) : Dip ℝ :=
  { s.dip with eStat := (elStart b true P E c s).eStat, pSr := (elStart b true P E c s).pSr }

theorem ion_start (b : Build) (P : Pots ℝ) (mix tol : ℝ) (s : ElState ℝ) (p e e' : ℝ) (hp : ∀ i < 2, s.dip.pInd i = ![p, 0, 0])
    (he : ∀ i < 2, s.dip.eInd i = ![e, 0, 0]) (he' : ∀ i < 2, s.dip.eOld i = ![e', 0, 0]) :
    Axis (beforeRounds b P (ionE mix tol) ionC s) p e e' := by
  refine ⟨hp, he, he', fun i hi => ?_, fun i hi => ?_⟩
  · have := (elStart_fields b P (ionE mix tol) ionC s i hi).1
    rw [show ionC.start = 0 from rfl, zero_add] at this
    exact this.trans (ion_static mix tol i hi).1
  · have := (elStart_fields b P (ionE mix tol) ionC s i hi).2
    rw [show ionC.start = 0 from rfl, zero_add] at this
    exact this.trans (ion_static mix tol i hi).2

theorem ion_inconsistency (mix tol : ℝ) (p : Nat → V3 ℝ) (q : ℝ) (hp : ∀ i < 2, p i = ![q, 0, 0]) :
    inconsistency (ionE mix tol) ionC p = (q - 5 / 32 * (1 - 2 * q)) ^ 2 / 3 := by
  unfold inconsistency polarSum
  have l : (ionC.atoms.length : ℝ) = 2 := by simp [ionC]
  rw [l]
  have f0 := ion_field mix tol p q hp 0 (by omega)
  have f1 := ion_field mix tol p q hp 1 (by omega)
  obtain ⟨s0, m0⟩ := ion_static mix tol 0 (by omega)
  obtain ⟨s1, m1⟩ := ion_static mix tol 1 (by omega)
  have p0 := hp 0 (by omega)
  have p1 := hp 1 (by omega)
  have z : ∀ t, (ionE mix tol).alpha t = 5 / 32 := fun t => rfl
  have h5 : ¬((5 : ℝ) / 32 = 0) := by norm_num
  show (List.map _ [((⟨0, [⟨1, 1, 1, ![1, 0, 0], ![1, 0, 0], 0, 0⟩], 0, true⟩ : Atom ℝ), 0), (⟨1, [], 0, true⟩, 1)]).sum / _ = _
  have st : ionC.start = 0 := rfl
  simp only [List.map_cons, List.map_nil, List.sum_cons, List.sum_nil, z, if_neg h5, st, Nat.zero_add, Nat.add_zero, s0, s1, m0, m1,
    f0, f1, p0, p1, Fin.sum_univ_three]
  simp
  ring

/-- A fresh state. -/
def ionFresh : ElState ℝ := ⟨⟨0, 0, 0, 0⟩, ⟨0, 0, 0, 0, 0⟩⟩

theorem zero_vec : (0 : V3 ℝ) = ![0, 0, 0] := by funext k; fin_cases k <;> rfl

/-- With mixing the dipoles need not be self-consistent within the tolerance: for the two ions with the default mixing 1/5
the iteration ends in the third round with dipoles that are neither those of the static field nor, for any tolerance
up to 1/1000, self-consistent up to the tolerance. -/
theorem C68_mixing_violated (b : Build) (P : Pots ℝ) (tol : ℝ) (h0 : 0 < tol) (h1 : tol ≤ 1 / 1000) :
    let p := (elDipoles b true P (ionE (1 / 5) tol) ionC ionFresh).pInd
    ¬StaticOnly (ionE (1 / 5) tol) ionC p ∧ tol ^ 2 < inconsistency (ionE (1 / 5) tol) ionC p := by
  intro p
  set d0 := beforeRounds b P (ionE (1 / 5) tol) ionC ionFresh with hd0
  have a0 : Axis d0 0 0 0 := ion_start b P (1 / 5) tol ionFresh 0 0 0 (fun _ _ => zero_vec) (fun _ _ => zero_vec)
    (fun _ _ => zero_vec)
  have a1 := ion_round (1 / 5) tol true d0 _ _ _ a0
  have a2 := ion_round (1 / 5) tol false _ _ _ _ a1
  have a3 := ion_round (1 / 5) tol false _ _ _ _ a2
  have x1 := ion_diff (1 / 5) tol _ _ _ _ a1
  have x2 := ion_diff (1 / 5) tol _ _ _ _ a2
  have x3 := ion_diff (1 / 5) tol _ _ _ _ a3
  have y1 : ¬dipDiff (ionE (1 / 5) tol) ionC (dipRound (ionE (1 / 5) tol) ionC true d0) < tol := by
    rw [x1, not_lt]
    apply Real.le_sqrt_of_sq_le
    norm_num
    nlinarith
  have y2 : ¬dipDiff (ionE (1 / 5) tol) ionC (dipRound (ionE (1 / 5) tol) ionC false
      (dipRound (ionE (1 / 5) tol) ionC true d0)) < tol := by
    rw [x2, not_lt]
    apply Real.le_sqrt_of_sq_le
    norm_num
    nlinarith
  have y2' : ¬10 < dipDiff (ionE (1 / 5) tol) ionC (dipRound (ionE (1 / 5) tol) ionC false
      (dipRound (ionE (1 / 5) tol) ionC true d0)) := by
    rw [x2, not_lt]
    apply Real.sqrt_le_iff.2
    norm_num
  have z3 : dipDiff (ionE (1 / 5) tol) ionC (dipRound (ionE (1 / 5) tol) ionC false (dipRound (ionE (1 / 5) tol) ionC false
      (dipRound (ionE (1 / 5) tol) ionC true d0))) = 0 := by
    rw [x3]
    norm_num
  have hsol : dipSolve (ionE (1 / 5) tol) ionC d0 = dipRound (ionE (1 / 5) tol) ionC false
      (dipRound (ionE (1 / 5) tol) ionC false (dipRound (ionE (1 / 5) tol) ionC true d0)) := by
    have s1 := dipIter_next (ionE (1 / 5) tol) ionC 51 0 d0 (Or.inl rfl) y1
    have s2 := dipIter_next (ionE (1 / 5) tol) ionC 50 1 _ (Or.inr ⟨not_lt.1 y2', by omega⟩) y2
    have s3 := dipIter_stop (ionE (1 / 5) tol) ionC 49 2 _ (Or.inr ⟨le_of_eq_of_le z3 (by norm_num), by omega⟩)
      (lt_of_eq_of_lt z3 h0)
    have := s1.trans (s2.trans s3)
    unfold dipSolve
    exact congrArg (fun o => Option.getD o d0) this
  have hq : ∀ i < 2, p i = ![15 / 128, 0, 0] := by
    intro i hi
    show (dipSolve (ionE (1 / 5) tol) ionC d0).pInd i = _
    rw [hsol, a3.pInd i hi]
    norm_num
  constructor
  · intro hst
    have := hst 0 _ rfl (by simp [ionE])
    rw [show ionC.start = 0 from rfl, hq 0 (by omega)] at this
    have h := congrFun this 0
    rw [(ion_static (1 / 5) tol 0 (by omega)).1, (ion_static (1 / 5) tol 0 (by omega)).2] at h
    simp [ionE] at h
    norm_num at h
  · rw [ion_inconsistency _ _ _ _ hq]
    norm_num
    nlinarith

/-- The iteration for the two ions without mixing, `δ` off the self-consistent field at the start. -/
theorem ion_iter (tol δ : ℝ) (h0 : 1 / 10 ^ 15 ≤ tol) (hδ : |δ| ≤ 1) :
    ∀ (m it : Nat) (d : Dip ℝ) (p e' : ℝ), it + m = 30 → Axis d p (-(5 / 21) + δ * (-(5 / 16)) ^ it) e' →
      ∃ (n : Nat) (e'' : ℝ) (r : Dip ℝ), it ≤ n ∧ dipIter (ionE 0 tol) ionC (m + 22) it d = some r ∧
        Axis r (5 / 32 * (16 / 21 + δ * (-(5 / 16)) ^ n)) (-(5 / 21) + δ * (-(5 / 16)) ^ (n + 1)) e'' := by
  have hx : ∀ (it : Nat) (d : Dip ℝ) (p e' : ℝ), Axis d p (-(5 / 21) + δ * (-(5 / 16)) ^ it) e' → ∀ first,
      Axis (dipRound (ionE 0 tol) ionC first d) (5 / 32 * (16 / 21 + δ * (-(5 / 16)) ^ it))
        (-(5 / 21) + δ * (-(5 / 16)) ^ (it + 1)) (-(5 / 21) + δ * (-(5 / 16)) ^ it) ∧
      dipDiff (ionE 0 tol) ionC (dipRound (ionE 0 tol) ionC first d) = √((105 / 512 * δ * (-(5 / 16)) ^ it) ^ 2 / 3) := by
    intro it d p e' h first
    have hr := ion_round 0 tol first d _ _ _ h
    have e1 : 5 / 32 * ((if first then (-(5 / 21) + δ * (-(5 / 16)) ^ it) else
        (1 - 0) * (-(5 / 21) + δ * (-(5 / 16)) ^ it) + 0 * e') + 1) = 5 / 32 * (16 / 21 + δ * (-(5 / 16 : ℝ)) ^ it) := by
      cases first <;> simp <;> ring
    simp only [e1] at hr
    have e2 : -2 * (5 / 32 * (16 / 21 + δ * (-(5 / 16 : ℝ)) ^ it)) = -(5 / 21) + δ * (-(5 / 16)) ^ (it + 1) := by
      rw [pow_succ]; ring
    rw [e2] at hr
    refine ⟨hr, ?_⟩
    rw [ion_diff 0 tol _ _ _ _ hr]
    congr 2
    rw [pow_succ]
    ring
  have hb : ∀ it : Nat, ((105 / 512 * δ * (-(5 / 16 : ℝ)) ^ it) ^ 2 / 3) ≤ 1 / 10 ^ it * (1 / 10) := by
    intro it
    have h1 : ((-(5 / 16 : ℝ)) ^ it) ^ 2 ≤ 1 / 10 ^ it := by
      rw [← pow_mul, mul_comm, pow_mul, ← one_div_pow]
      apply pow_le_pow_left₀ (by norm_num)
      norm_num
    have h2 : δ ^ 2 ≤ 1 := by
      rw [← sq_abs]
      exact pow_le_one₀ (abs_nonneg _) hδ
    have h3 : (0 : ℝ) ≤ 1 / 10 ^ it := by positivity
    calc _ = (105 / 512 : ℝ) ^ 2 / 3 * (δ ^ 2 * ((-(5 / 16 : ℝ)) ^ it) ^ 2) := by ring
      _ ≤ (105 / 512 : ℝ) ^ 2 / 3 * (1 * (1 / 10 ^ it)) := by
        apply mul_le_mul_of_nonneg_left _ (by norm_num)
        exact mul_le_mul h2 h1 (sq_nonneg _) zero_le_one
      _ ≤ _ := by rw [one_mul, mul_comm]; exact mul_le_mul_of_nonneg_left (by norm_num) h3
  intro m
  induction m with
  | zero =>
    intro it d p e' hit h
    have hit' : it = 30 := by omega
    subst hit'
    obtain ⟨a1, a2⟩ := hx 30 d p e' h (30 == 0)
    refine ⟨30, _, _, le_refl _, ?_, a1⟩
    have hlt : dipDiff (ionE 0 tol) ionC (dipRound (ionE 0 tol) ionC (30 == 0) d) < tol := by
      rw [a2]
      have ht : 0 < tol := lt_of_lt_of_le (by norm_num) h0
      rw [Real.sqrt_lt' ht]
      refine lt_of_le_of_lt (hb 30) ?_
      calc (1 : ℝ) / 10 ^ 30 * (1 / 10) < (1 / 10 ^ 15) ^ 2 := by norm_num
        _ ≤ tol ^ 2 := pow_le_pow_left₀ (by norm_num) h0 2
    refine dipIter_stop _ _ 21 30 d (Or.inr ⟨?_, by omega⟩) hlt
    rw [a2]
    exact Real.sqrt_le_iff.2 ⟨by norm_num, (hb 30).trans (by norm_num)⟩
  | succ m ih =>
    intro it d p e' hit h
    obtain ⟨a1, a2⟩ := hx it d p e' h (it == 0)
    rw [show m + 1 + 22 = (m + 22) + 1 by omega]
    have h10 : dipDiff (ionE 0 tol) ionC (dipRound (ionE 0 tol) ionC (it == 0) d) ≤ 10 := by
      rw [a2]
      refine Real.sqrt_le_iff.2 ⟨by norm_num, (hb it).trans ?_⟩
      have : (1 : ℝ) / 10 ^ it ≤ 1 := by
        rw [← one_div_pow]
        exact pow_le_one₀ (by norm_num) (by norm_num)
      linarith
    by_cases ht : dipDiff (ionE 0 tol) ionC (dipRound (ionE 0 tol) ionC (it == 0) d) < (ionE 0 tol).tol
    · exact ⟨it, _, _, le_refl _, dipIter_stop _ _ _ it d (Or.inr ⟨h10, by omega⟩) ht, a1⟩
    · rw [dipIter_next _ _ _ it d (Or.inr ⟨h10, by omega⟩) ht]
      obtain ⟨n, e'', r, h1, h2, h3⟩ := ih (it + 1) _ _ _ (by omega) a1
      exact ⟨n, e'', r, by omega, h2, h3⟩

/-- Energy of the two ions with dipoles `q` along the axis. -/
theorem ion_energy (mix tol : ℝ) (p : Nat → V3 ℝ) (q : ℝ) (hp : ∀ i < 2, p i = ![q, 0, 0]) :
    elTotal true ⟨0, 0, 1, 0, 0⟩ (ionE mix tol) p ionC = -1 - 2 * q + 22 / 5 * q ^ 2 := by
  have p0 := hp 0 (by omega)
  have p1 := hp 1 (by omega)
  unfold elTotal totalPairEnergy
  rw [ion_entries]
  have hz : ionC.atoms.zipIdx = [((⟨0, [⟨1, 1, 1, ![1, 0, 0], ![1, 0, 0], 0, 0⟩], 0, true⟩ : Atom ℝ), 0),
    (⟨1, [], 0, true⟩, 1)] := rfl
  rw [hz]
  simp only [List.map_cons, List.map_nil, List.sum_cons, List.sum_nil, pairEnergy, elEntry, coulombEnergy, chargeDipole,
    dipoleDipole, coupling, crossMoment, moment, dampTerm, atomEnergy, share, dot3, Fin.sum_univ_three]
  have st : ionC.start = 0 := rfl
  simp [ionE, p0, p1, st]
  norm_num
  ring

/-- Evaluating the same configuration with the same parameters twice in a row gives two different energies, for all
tolerances from 10⁻¹⁵ to 1: the fields of the dipoles are kept from one evaluation to the next. -/
theorem C68_memory (b : Build) (tol ew sw : ℝ) (h0 : 1 / 10 ^ 15 ≤ tol) (h1 : tol ≤ 1) :
    let P : Pots ℝ := ⟨0, 0, 1, 0, 0⟩
    let r := elConf b true P (ionE 0 tol) ew sw 0 ionC ionFresh
    let r' := elConf b true P (ionE 0 tol) ew sw 0 ionC r.1
    r'.1.fv.energy 0 ≠ r.1.fv.energy 0 := by
  intro P r r'
  have hh : HalfList ionC := by
    intro e he
    rw [ion_entries, List.mem_singleton] at he
    subst he
    simp [ionC]
  have hal : Aligned ionC := by
    intro e he
    rw [ion_entries, List.mem_singleton] at he
    subst he
    simp
  have ht : true = true → TypesMatch ionC := by
    intro _ e he
    rw [ion_entries, List.mem_singleton] at he
    subst he
    simp
  have hq : true = true → PolarCharged (ionE 0 tol) ionC := by
    intro _ e he
    rw [ion_entries, List.mem_singleton] at he
    subst he
    simp [ionE]
  have hen : ∀ s, (elConf b true P (ionE 0 tol) ew sw 0 ionC s).1.fv.energy 0 =
      elTotal true P (ionE 0 tol) (elConf b true P (ionE 0 tol) ew sw 0 ionC s).1.dip.pInd ionC / 2 := by
    intro s
    obtain ⟨-, -, h3, -⟩ := elConf_spec b true P (ionE 0 tol) ew sw 0 ionC hh hal ht hq s
    rw [h3, Function.update_self]
    have l : (ionC.atoms.length : ℝ) = 2 := by simp [ionC]
    rw [l]
    show _ - (0 : ℝ) = _
    rw [sub_zero]
  have hsolve : ∀ s : ElState ℝ, ∀ p δ e', |δ| ≤ 1 → (∀ i < 2, s.dip.pInd i = ![p, 0, 0]) →
      (∀ i < 2, s.dip.eInd i = ![-(5 / 21) + δ, 0, 0]) → (∀ i < 2, s.dip.eOld i = ![e', 0, 0]) →
      ∃ (n : Nat) (e'' : ℝ), Axis (elConf b true P (ionE 0 tol) ew sw 0 ionC s).1.dip
        (5 / 32 * (16 / 21 + δ * (-(5 / 16)) ^ n)) (-(5 / 21) + δ * (-(5 / 16)) ^ (n + 1)) e'' := by
    intro s p δ e' hδ hp he he'
    have ha := ion_start b P 0 tol s p (-(5 / 21) + δ) e' hp he he'
    obtain ⟨n, e'', r, -, h2, h3⟩ := ion_iter tol δ h0 hδ 30 0 _ p e' (by omega) (by simpa using ha)
    refine ⟨n, e'', ?_⟩
    have : (elConf b true P (ionE 0 tol) ew sw 0 ionC s).1.dip = r := by
      show dipSolve (ionE 0 tol) ionC (beforeRounds b P (ionE 0 tol) ionC s) = r
      have := C68_terminates (ionE 0 tol) ionC (beforeRounds b P (ionE 0 tol) ionC s) 52 (le_refl _)
      rw [h2] at this
      exact (Option.some.inj this).symm
    rw [this]
    exact h3
  obtain ⟨n, e1, a1⟩ := hsolve ionFresh 0 (5 / 21) 0 (by norm_num [abs_le]) (fun _ _ => zero_vec)
    (fun _ _ => by rw [neg_add_cancel]; exact zero_vec) (fun _ _ => zero_vec)
  have hpow : ∀ k : Nat, |(-(5 / 16 : ℝ)) ^ k| ≤ 1 := by
    intro k
    rw [abs_pow]
    exact pow_le_one₀ (abs_nonneg _) (by norm_num [abs_le])
  obtain ⟨n', e2, a2⟩ := hsolve r.1 _ (5 / 21 * (-(5 / 16)) ^ (n + 1)) _ (by
    rw [abs_mul]
    have := hpow (n + 1)
    have h5 : |(5 / 21 : ℝ)| = 5 / 21 := abs_of_pos (by norm_num)
    rw [h5]
    nlinarith [abs_nonneg ((-(5 / 16 : ℝ)) ^ (n + 1))]) a1.pInd a1.eInd a1.eOld
  intro heq
  have e3 := hen r.1
  have e4 := hen ionFresh
  rw [ion_energy 0 tol _ _ a2.pInd] at e3
  rw [ion_energy 0 tol _ _ a1.pInd] at e4
  have heq' : r'.1.fv.energy 0 = r.1.fv.energy 0 := heq
  rw [show r'.1.fv.energy 0 = _ from e3, show r.1.fv.energy 0 = _ from e4] at heq'
  set u := (-(5 / 16 : ℝ)) ^ n with hu
  set w := (-(5 / 16 : ℝ)) ^ n' with hw
  have hu0 : u ≠ 0 := pow_ne_zero _ (by norm_num)
  have hu1 : |u| ≤ 1 := hpow n
  have hw1 : |w| ≤ 1 := hpow n'
  rw [pow_succ, ← hu] at heq'
  have hfac : u * (-(5 / 16) * w - 1) * (-2 + 22 / 5 * (5 / 32) * (32 / 21 + 5 / 21 * u * (1 - 5 / 16 * w))) = 0 := by
    linear_combination (2 * (21 / 5) * (32 / 5)) * heq'
  have b1 := abs_le.1 hu1
  have b2 := abs_le.1 hw1
  rcases mul_eq_zero.1 hfac with h | h
  · rcases mul_eq_zero.1 h with h | h
    · exact hu0 h
    · linarith
  · have huw : |u * (1 - 5 / 16 * w)| ≤ 2 := by
      rw [abs_mul]
      have : |1 - 5 / 16 * w| ≤ 2 := by rw [abs_le]; constructor <;> linarith
      nlinarith [abs_nonneg u, abs_nonneg (1 - 5 / 16 * w)]
    have := abs_le.1 huw
    linarith

/-- The hypotheses hold: two ions, self-consistent dipoles 5/42. -/
example : IsRoot (ionE 0 1) ∧ (ionE 0 1).mix = 0 ∧ inconsistency (ionE 0 1) ionC (fun _ => ![5 / 42, 0, 0]) = 0 := by
  refine ⟨ion_root 0 1, rfl, ?_⟩
  rw [ion_inconsistency 0 1 _ (5 / 42) fun _ _ => rfl]
  norm_num

end Verif.Props
