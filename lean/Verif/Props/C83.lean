/-
C83  Normally distributed random numbers.
-/
import Verif.Lemmas.NormalLaw
import Verif.Props.C82
import Mathlib.Analysis.Complex.ExponentialBounds

set_option linter.unusedSectionVars false

namespace Verif.Props

open Verif.Normal Verif.Spec MeasureTheory

/-- The point of the plane made of the random numbers at the places `pos + 2 k` and `pos + 2 k + 1`. -/
def planePoint (u : Nat → ℝ) (pos k : Nat) : ℝ × ℝ := (2 * u (pos + 2 * k) - 1, 2 * u (pos + 2 * k + 1) - 1)

/-- The point is neither the origin nor outside of the open disc of radius 1. -/
def InDisc (x : ℝ × ℝ) : Prop := 0 < x.1 ^ 2 + x.2 ^ 2 ∧ x.1 ^ 2 + x.2 ^ 2 < 1

theorem inDisc_iff (x : ℝ × ℝ) : InDisc x ↔ x ∈ Disc := by
  unfold InDisc Disc
  rw [Set.mem_setOf_eq, sq, sq]

/-- **C83, a pair of calls.** If the `k`-th pair of random numbers is the first to give a point of the disc, the next two calls deliver the
two coordinates of the point which has the same direction and whose squared length is -2 log of the squared length of the first; `2 k + 2`
random numbers are used by the first call and none by the second. -/
theorem C83_pair (u : Nat → ℝ) (s : Normal.St) (hs : s.haveNumber = false) (k fuel : Nat) (hk : k < fuel)
    (hj : ∀ j, j < k → ¬ InDisc (planePoint u s.pos j)) (hd : InDisc (planePoint u s.pos k)) :
    ∃ (a b c : ℝ) (s₁ s₂ : Normal.St), normdist u fuel s = some (a, s₁) ∧ normdist u fuel s₁ = some (b, s₂) ∧
      0 < c ∧ a = c * (planePoint u s.pos k).1 ∧ b = c * (planePoint u s.pos k).2 ∧
      a ^ 2 + b ^ 2 = -2 * Real.log ((planePoint u s.pos k).1 ^ 2 + (planePoint u s.pos k).2 ^ 2) ∧
      s₁.pos = s.pos + 2 * k + 2 ∧ s₂.pos = s₁.pos ∧ s₁.haveNumber = true ∧ s₂.haveNumber = false := by
  rcases h : planePoint u s.pos k with ⟨x, y⟩
  have hx : point u s.pos k = (x, y) := h
  have hp : polar u fuel s.pos = some (x, y, s.pos + 2 * k + 2) := by
    rw [polar_iff]
    refine ⟨k, hk, fun j hj' => ?_, ?_, hx.symm, rfl⟩
    · exact fun hin => hj j hj' ((inDisc_iff _).2 hin)
    · have := (inDisc_iff _).1 hd
      rwa [h, ← hx] at this
  simp only [h, InDisc] at hd
  have e : x * x + y * y = x ^ 2 + y ^ 2 := by ring
  have hl : Real.log (x ^ 2 + y ^ 2) < 0 := Real.log_neg hd.1 hd.2
  have hq : 0 < -2 * Real.log (x ^ 2 + y ^ 2) / (x ^ 2 + y ^ 2) := div_pos (by linarith) hd.1
  refine ⟨x * √(-2 * Real.log (x * x + y * y) / (x * x + y * y)), y * √(-2 * Real.log (x * x + y * y) / (x * x + y * y)),
    √(-2 * Real.log (x ^ 2 + y ^ 2) / (x ^ 2 + y ^ 2)), ⟨true, y * √(-2 * Real.log (x * x + y * y) / (x * x + y * y)), s.pos + 2 * k + 2⟩,
    ⟨false, y * √(-2 * Real.log (x * x + y * y) / (x * x + y * y)), s.pos + 2 * k + 2⟩, ?_, ?_, Real.sqrt_pos.2 hq, ?_, ?_, ?_,
    rfl, rfl, rfl, rfl⟩
  · unfold normdist
    rw [if_pos hs, hp]
  · rfl
  · rw [e]; ring
  · rw [e]; ring
  · rw [e, mul_pow, mul_pow, Real.sq_sqrt hq.le, ← add_mul]
    exact mul_div_cancel₀ _ hd.1.ne'

/-- A sequence of numbers whose first pair is rejected and whose second is taken. -/
example : ¬ InDisc (planePoint (fun i => if i < 2 then 0 else 3 / 4) 0 0) ∧ InDisc (planePoint (fun i => if i < 2 then 0 else 3 / 4) 0 1) := by
  constructor <;> norm_num [InDisc, planePoint]

/-- **C83, size.** With the random numbers of the generator no normally distributed number is larger than 12. -/
theorem C83_bounded (u : Nat → ℝ) (hu : ∀ i, ∃ x : ℚ, UnitGrid x ∧ u i = x) (s : Normal.St) (hs : |s.nd2| < 12) (fuel : Nat) (a : ℝ)
    (s' : Normal.St) (h : normdist u fuel s = some (a, s')) : |a| < 12 ∧ |s'.nd2| < 12 := by
  by_cases hh : s.haveNumber = false
  · have hp : ∃ x y q, polar u fuel s.pos = some (x, y, q) := by
      unfold normdist at h
      rw [if_pos hh] at h
      rcases hp : polar u fuel s.pos with _ | ⟨x, y, q⟩
      · rw [hp] at h; cases h
      · exact ⟨x, y, q, rfl⟩
    obtain ⟨x, y, q, hp⟩ := hp
    obtain ⟨k, hk, hj, hd, hx, hq⟩ := (polar_iff _ _ _ _ _ _).1 hp
    obtain ⟨a', b', c, s₁, s₂, h1, h2, _, _, _, hlen, _⟩ := C83_pair u s hh k fuel hk
      (fun j hj' hin => hj j hj' ((inDisc_iff _).1 hin)) ((inDisc_iff _).2 hd)
    have hb : s₁.nd2 = b' := by
      have hn : s₁.haveNumber = true := by
        unfold normdist at h1
        rw [if_pos hh, hp] at h1
        have := (Prod.mk.inj (Option.some.inj h1)).2
        rw [← this]
      unfold normdist at h2
      rw [hn] at h2
      exact (Prod.mk.inj (Option.some.inj h2)).1
    rw [h] at h1
    obtain ⟨rfl, rfl⟩ := Prod.mk.inj (Option.some.inj h1)
    have hgrid : ∀ i, ∃ p : ℤ, 2 * u i - 1 = p / 2 ^ 51 := by
      intro i
      obtain ⟨x, ⟨m, _, hm⟩, hx⟩ := hu i
      refine ⟨(m : ℤ) - 2 ^ 51, ?_⟩
      rw [hx, hm]
      push_cast
      ring
    obtain ⟨p₁, e1⟩ := hgrid (s.pos + 2 * k)
    obtain ⟨p₂, e2⟩ := hgrid (s.pos + 2 * k + 1)
    have hsum : (planePoint u s.pos k).1 ^ 2 + (planePoint u s.pos k).2 ^ 2 = ((p₁ ^ 2 + p₂ ^ 2 : ℤ) : ℝ) / 2 ^ 102 := by
      simp only [planePoint, e1, e2]
      push_cast
      ring
    have hpos : 0 < (planePoint u s.pos k).1 ^ 2 + (planePoint u s.pos k).2 ^ 2 := ((inDisc_iff _).2 hd).1
    have hge : (1 : ℝ) / 2 ^ 102 ≤ (planePoint u s.pos k).1 ^ 2 + (planePoint u s.pos k).2 ^ 2 := by
      rw [hsum] at hpos ⊢
      have : 0 < (p₁ ^ 2 + p₂ ^ 2 : ℤ) := by
        have := (div_pos_iff_of_pos_right (by positivity : (0 : ℝ) < 2 ^ 102)).1 hpos
        exact_mod_cast this
      have h1 : (1 : ℝ) ≤ ((p₁ ^ 2 + p₂ ^ 2 : ℤ) : ℝ) := by exact_mod_cast this
      exact div_le_div_of_nonneg_right h1 (by positivity)
    have hlog : -(102 * Real.log 2) ≤ Real.log ((planePoint u s.pos k).1 ^ 2 + (planePoint u s.pos k).2 ^ 2) := by
      have := Real.log_le_log (by positivity) hge
      rw [one_div, Real.log_inv, Real.log_pow] at this
      push_cast at this
      linarith
    have h2 : Real.log 2 < 0.6931471808 := Real.log_two_lt_d9
    have hlt : a ^ 2 + b' ^ 2 < 12 ^ 2 := by
      rw [hlen]
      norm_num at h2 ⊢
      linarith
    refine ⟨abs_lt_of_sq_lt_sq (by nlinarith [sq_nonneg b']) (by norm_num), ?_⟩
    rw [hb]
    exact abs_lt_of_sq_lt_sq (by nlinarith [sq_nonneg a]) (by norm_num)
  · unfold normdist at h
    rw [if_neg hh] at h
    obtain ⟨rfl, rfl⟩ := Prod.mk.inj (Option.some.inj h)
    exact ⟨hs, hs⟩

/-- The variables are 0 at the start of the program, and the numbers of the generator meet the hypothesis. -/
example : |(start 7).nd2| < 12 := by norm_num [start]
example (rand : Fin Dsfmt.arraySize → BitVec 32) : ∃ u : Nat → ℝ, ∀ i, ∃ x : ℚ, Dsfmt.stream rand i = .ok (some x) ∧ UnitGrid x ∧ u i = x :=
  ⟨fun i => ((C82_range rand i).choose : ℝ), fun i => ⟨_, (C82_range rand i).choose_spec.1, (C82_range rand i).choose_spec.2.1, rfl⟩⟩

/-- The pairs delivered by `2 n` calls. -/
noncomputable def drawPairs (u : Nat → ℝ) (fuel : Nat) : Nat → Normal.St → Option (List (ℝ × ℝ))
  | 0, _ => some []
  | n + 1, s =>
    match normdist u fuel s with
    | none => none
    | some (a, s₁) =>
      match normdist u fuel s₁ with
      | none => none
      | some (b, s₂) => (drawPairs u fuel n s₂).map ((a, b) :: ·)

theorem normdist_mono (u : Nat → ℝ) (f g : Nat) (hfg : f ≤ g) (s t : Normal.St) (hp : s.pos = t.pos) (hs : s.haveNumber = false)
    (ht : t.haveNumber = false) (r : ℝ × Normal.St) (h : normdist u f s = some r) : normdist u g t = some r := by
  unfold normdist at h ⊢
  rw [if_pos hs] at h
  rw [if_pos ht]
  rcases hq : polar u f s.pos with _ | ⟨x, y, q⟩
  · rw [hq] at h; cases h
  · rw [hq] at h
    obtain ⟨k, hk, hrest⟩ := (polar_iff _ _ _ _ _ _).1 hq
    rw [← hp, (polar_iff u g s.pos x y q).2 ⟨k, by omega, hrest⟩]
    exact h

theorem drawPairs_mono (u : Nat → ℝ) (f g : Nat) (hfg : f ≤ g) : ∀ (n : Nat) (s t : Normal.St), s.pos = t.pos → s.haveNumber = false →
    t.haveNumber = false → ∀ l, drawPairs u f n s = some l → drawPairs u g n t = some l
  | 0, _, _, _, _, _, _, h => h
  | n + 1, s, t, hp, hs, ht, l, h => by
    rw [drawPairs] at h ⊢
    rcases h1 : normdist u f s with _ | ⟨a, s₁⟩
    · rw [h1] at h; cases h
    · rw [h1] at h
      rw [normdist_mono u f g hfg s t hp hs ht _ h1]
      simp only at h ⊢
      have hn : s₁.haveNumber = true := by
        unfold normdist at h1
        rw [if_pos hs] at h1
        rcases hq : polar u f s.pos with _ | ⟨x, y, q⟩
        · rw [hq] at h1; cases h1
        · rw [hq] at h1
          rw [← (Prod.mk.inj (Option.some.inj h1)).2]
      have h2 : ∀ fuel, normdist u fuel s₁ = some (s₁.nd2, { s₁ with haveNumber := false }) := by
        intro fuel
        unfold normdist
        rw [hn]
        rfl
      rw [h2] at h ⊢
      simp only at h ⊢
      rcases h3 : drawPairs u f n { s₁ with haveNumber := false } with _ | l'
      · rw [h3] at h; cases h
      · rw [h3] at h
        rw [drawPairs_mono u f g hfg n _ { s₁ with haveNumber := false } rfl rfl rfl l' h3]
        exact h

theorem drawPairs_iff (u : Nat → ℝ) : ∀ (Bs : List (Set (ℝ × ℝ))) (s : Normal.St), s.haveNumber = false →
    ((∃ fuel l, drawPairs u fuel Bs.length s = some l ∧ List.Forall₂ (· ∈ ·) l Bs) ↔
      pairs s.pos u ∈ Run (aff ⁻¹' Disc) (Bs.map fun B => aff ⁻¹' (boxMuller ⁻¹' B)))
  | [], s, _ => by
    simp only [List.map_nil, Run, Set.mem_univ, iff_true]
    exact ⟨0, [], rfl, List.Forall₂.nil⟩
  | B :: Bs, s, hs => by
    have two : ∀ (fuel k : Nat), polar u fuel s.pos = some ((point u s.pos k).1, (point u s.pos k).2, s.pos + 2 * k + 2) →
        ∃ s₁ s₂ : Normal.St, normdist u fuel s = some ((boxMuller (point u s.pos k)).1, s₁) ∧
          normdist u fuel s₁ = some ((boxMuller (point u s.pos k)).2, s₂) ∧ s₂.haveNumber = false ∧ s₂.pos = s.pos + 2 * k + 2 := by
      intro fuel k hp
      refine ⟨⟨true, (boxMuller (point u s.pos k)).2, s.pos + 2 * k + 2⟩, ⟨false, (boxMuller (point u s.pos k)).2, s.pos + 2 * k + 2⟩,
        ?_, rfl, rfl, rfl⟩
      unfold normdist
      rw [if_pos hs, hp]
      rfl
    have hshift : ∀ k, shift (k + 1) (pairs s.pos u) = pairs (s.pos + 2 * k + 2) u := by
      intro k
      funext j
      simp only [shift, pairs]
      rw [show s.pos + 2 * (k + 1 + j) = s.pos + 2 * k + 2 + 2 * j by ring]
    constructor
    · rintro ⟨fuel, l, hl, hB⟩
      rw [List.length_cons, drawPairs] at hl
      rcases hp : polar u fuel s.pos with _ | ⟨x, y, q⟩
      · have : normdist u fuel s = none := by
          unfold normdist
          rw [if_pos hs, hp]
        rw [this] at hl
        cases hl
      · obtain ⟨k, hk, hj, hd, hx, rfl⟩ := (polar_iff _ _ _ _ _ _).1 hp
        obtain ⟨rfl, rfl⟩ := Prod.mk.inj hx
        obtain ⟨s₁, s₂, h1, h2, h3, h4⟩ := two fuel k hp
        rw [h1] at hl
        simp only [h2] at hl
        rcases hr : drawPairs u fuel Bs.length s₂ with _ | l'
        · rw [hr] at hl; cases hl
        · rw [hr] at hl
          obtain rfl := Option.some.inj hl
          cases hB with
          | cons hb hrest =>
            refine ⟨k, hj, hd, hb, ?_⟩
            rw [hshift, ← h4]
            exact (drawPairs_iff u Bs s₂ h3).1 ⟨fuel, l', hr, hrest⟩
    · rintro ⟨k, hj, hd, hb, hrun⟩
      rw [hshift] at hrun
      have hpolar : ∀ fuel, k < fuel → polar u fuel s.pos = some ((point u s.pos k).1, (point u s.pos k).2, s.pos + 2 * k + 2) :=
        fun fuel hf => (polar_iff _ _ _ _ _ _).2 ⟨k, hf, hj, hd, rfl, rfl⟩
      obtain ⟨t₁, t₂, _, _, h3', h4'⟩ := two (k + 1) k (hpolar _ (by omega))
      rw [← h4'] at hrun
      obtain ⟨fuel, l, hl, hB⟩ := (drawPairs_iff u Bs t₂ h3').2 hrun
      obtain ⟨s₁, s₂, h1, h2, h3, h4⟩ := two (max fuel (k + 1)) k (hpolar _ (by omega))
      refine ⟨max fuel (k + 1), (boxMuller (point u s.pos k)) :: l, ?_, List.Forall₂.cons hb hB⟩
      rw [List.length_cons, drawPairs, h1]
      simp only [h2]
      rw [drawPairs_mono u fuel (max fuel (k + 1)) (le_max_left _ _) Bs.length t₂ s₂ (h4'.trans h4.symm) h3' h3 l hl]
      rfl

/-- **C83, law.** For independent random numbers distributed uniformly in [0, 1) the calls of `normdist` deliver independent numbers with
the standard normal distribution: the probability that the loops end and that the pairs delivered by the calls one after the other lie in
given sets is the product of the standard normal measures of these sets. -/
theorem C83_law (pos : Nat) (Bs : List (Set (ℝ × ℝ))) (hB : ∀ B ∈ Bs, MeasurableSet B) :
    Measure.infinitePi (fun _ : ℕ => (volume.restrict (Set.Ico (0 : ℝ) 1)))
      {u | ∃ fuel l, drawPairs u fuel Bs.length (start pos) = some l ∧ List.Forall₂ (· ∈ ·) l Bs}
      = (Bs.map fun B => ((ProbabilityTheory.gaussianReal 0 1).prod (ProbabilityTheory.gaussianReal 0 1)) B).prod := by
  have hset : {u | ∃ fuel l, drawPairs u fuel Bs.length (start pos) = some l ∧ List.Forall₂ (· ∈ ·) l Bs}
      = pairs pos ⁻¹' Run (aff ⁻¹' Disc) (Bs.map fun B => aff ⁻¹' (boxMuller ⁻¹' B)) := by
    ext u
    exact drawPairs_iff u Bs (start pos) rfl
  have hA : MeasurableSet (aff ⁻¹' Disc) := measurable_aff measurableSet_disc
  have hm : ∀ C ∈ Bs.map (fun B => aff ⁻¹' (boxMuller ⁻¹' B)), MeasurableSet C := by
    intro C hC
    obtain ⟨B, hBm, rfl⟩ := List.mem_map.1 hC
    exact measurable_aff (measurable_boxMuller (hB B hBm))
  obtain ⟨hrm, hrv⟩ := run_measure (uniform.prod uniform) hA _ hm
  have h0 : (uniform.prod uniform) (aff ⁻¹' Disc) ≠ 0 := by
    rw [uniform_disc]
    exact (ENNReal.ofReal_pos.2 (by positivity)).ne'
  have hmap := map_pairs uniform pos
  rw [hset, ← Measure.map_apply (measurable_pairs pos) hrm]
  change (Measure.map (pairs pos) (Measure.infinitePi fun _ : ℕ => uniform)) _ = _
  rw [hmap, hrv h0, List.map_map]
  congr 1
  refine List.map_congr_left fun B hBm => ?_
  exact uniform_ratio (hB B hBm)

/-- With the whole plane for every set the probability is 1: the loops end. -/
example : Measure.infinitePi (fun _ : ℕ => (volume.restrict (Set.Ico (0 : ℝ) 1)))
    {u | ∃ fuel l, drawPairs u fuel 3 (start 0) = some l ∧ List.Forall₂ (· ∈ ·) l [Set.univ, Set.univ, Set.univ]} = 1 := by
  have := C83_law 0 [Set.univ, Set.univ, Set.univ] (by simp)
  simpa using this

end Verif.Props
