/-
The law of the numbers delivered by the polar method for independent random numbers.
-/
import Verif.Lemmas.Normal
import Mathlib.Probability.ProductMeasure
import Mathlib.MeasureTheory.Measure.Lebesgue.EqHaar
import Mathlib.Analysis.SpecificLimits.Basic

set_option linter.unusedSectionVars false

namespace Verif.Normal

open MeasureTheory Set Real
open scoped ENNReal

/-! ## The loop -/

/-- The point looked at in round `k` of the loop. -/
def point (u : Nat → ℝ) (pos k : Nat) : ℝ × ℝ := (2 * u (pos + 2 * k) - 1, 2 * u (pos + 2 * k + 1) - 1)

theorem reject_iff (x y : ℝ) : (x * x + y * y ≥ 1 ∨ x * x + y * y = 0) ↔ ((x, y) : ℝ × ℝ) ∉ Disc := by
  have h : 0 ≤ x * x + y * y := by nlinarith [mul_self_nonneg x, mul_self_nonneg y]
  simp only [Disc, mem_setOf_eq, not_and_or, not_lt]
  constructor
  · rintro (h1 | h1)
    · exact Or.inr h1
    · exact Or.inl h1.le
  · rintro (h1 | h1)
    · exact Or.inr (le_antisymm h1 h)
    · exact Or.inl h1

theorem point_succ (u : Nat → ℝ) (pos k : Nat) : point u (pos + 2) k = point u pos (k + 1) := by
  unfold point
  rw [show pos + 2 + 2 * k = pos + 2 * (k + 1) by ring]

theorem polar_iff (u : Nat → ℝ) : ∀ (fuel pos : Nat) (x1 x2 : ℝ) (q : Nat), polar u fuel pos = some (x1, x2, q) ↔
    ∃ k, k < fuel ∧ (∀ j, j < k → point u pos j ∉ Disc) ∧ point u pos k ∈ Disc ∧ (x1, x2) = point u pos k ∧ q = pos + 2 * k + 2
  | 0, pos, x1, x2, q => by simp [polar]
  | fuel + 1, pos, x1, x2, q => by
    rw [polar]
    have e0 : point u pos 0 = (2 * u pos - 1, 2 * u (pos + 1) - 1) := rfl
    by_cases h : point u pos 0 ∈ Disc
    · have h' := h
      rw [e0] at h'
      have hn := mt (reject_iff _ _).1 (not_not.2 h')
      simp only [if_neg hn, Option.some.injEq, Prod.mk.injEq]
      constructor
      · rintro ⟨rfl, rfl, rfl⟩
        exact ⟨0, by omega, by omega, h, rfl, rfl⟩
      · rintro ⟨k, hk, hj, hd, hx, hq⟩
        have k0 : k = 0 := by
          by_contra hne
          exact hj 0 (by omega) h
        subst k0
        rw [e0] at hx
        obtain ⟨a, b⟩ := Prod.mk.inj hx
        exact ⟨a.symm, b.symm, hq.symm⟩
    · have h' := h
      rw [e0] at h'
      simp only [if_pos ((reject_iff _ _).2 h')]
      rw [polar_iff u fuel (pos + 2) x1 x2 q]
      simp only [point_succ]
      constructor
      · rintro ⟨k, hk, hj, hd, hx, hq⟩
        refine ⟨k + 1, by omega, ?_, hd, hx, by omega⟩
        intro j hj'
        cases j with
        | zero => exact h
        | succ j => exact hj j (by omega)
      · rintro ⟨k, hk, hj, hd, hx, hq⟩
        cases k with
        | zero => exact absurd hd h
        | succ k => exact ⟨k, by omega, fun j hj' => hj (j + 1) (by omega), hd, hx, by omega⟩

/-! ## Numbers and pairs -/

section pairs

variable (U : Measure ℝ) [IsProbabilityMeasure U]

/-- The pairs of consecutive numbers from a position on. -/
def pairs (pos : Nat) (u : ℕ → ℝ) (k : Nat) : ℝ × ℝ := (u (pos + 2 * k), u (pos + 2 * k + 1))

/-- The numbers of a sequence of pairs. -/
def unpair (w : ℕ → ℝ × ℝ) (i : Nat) : ℝ := if i % 2 = 0 then (w (i / 2)).1 else (w (i / 2)).2

theorem measurable_pairs (pos : Nat) : Measurable (pairs pos) := by
  apply measurable_pi_lambda
  intro k
  exact (measurable_pi_apply _).prodMk (measurable_pi_apply _)

theorem measurable_unpair : Measurable unpair := by
  apply measurable_pi_lambda
  intro i
  unfold unpair
  split
  · exact measurable_fst.comp (measurable_pi_apply _)
  · exact measurable_snd.comp (measurable_pi_apply _)

theorem pairs_unpair (w : ℕ → ℝ × ℝ) : pairs 0 (unpair w) = w := by
  funext k
  have h1 : (0 + 2 * k) % 2 = 0 := by omega
  have h2 : (0 + 2 * k + 1) % 2 ≠ 0 := by omega
  have h3 : (0 + 2 * k) / 2 = k := by omega
  have h4 : (0 + 2 * k + 1) / 2 = k := by omega
  simp only [pairs, unpair, h1, h2, h3, h4, if_true, if_false]

theorem prod_pairs (f : ℕ → ℝ≥0∞) : ∀ N, ∏ k ∈ Finset.range N, f (2 * k) * f (2 * k + 1) = ∏ i ∈ Finset.range (2 * N), f i
  | 0 => rfl
  | N + 1 => by
    rw [Finset.prod_range_succ, prod_pairs f N, show 2 * (N + 1) = 2 * N + 1 + 1 by ring, Finset.prod_range_succ, Finset.prod_range_succ,
      mul_assoc]

theorem map_unpair : (Measure.infinitePi fun _ : ℕ => U.prod U).map unpair = Measure.infinitePi fun _ : ℕ => U := by
  classical
  apply Measure.eq_infinitePi
  intro s t ht
  obtain ⟨N, hN⟩ : ∃ N, ∀ i ∈ s, i < 2 * N := ⟨s.sup id + 1, fun i hi => by
    have : i ≤ s.sup id := Finset.le_sup (f := id) hi
    omega⟩
  set A : ℕ → Set ℝ := fun i => if i ∈ s then t i else univ with hA
  have hAm : ∀ i, MeasurableSet (A i) := by
    intro i
    simp only [hA]
    split
    · exact ht i
    · exact MeasurableSet.univ
  have hpre : unpair ⁻¹' Set.pi s t = Set.pi (Finset.range N : Set ℕ) fun k => A (2 * k) ×ˢ A (2 * k + 1) := by
    ext w
    simp only [mem_preimage, Set.mem_pi, Finset.mem_coe, Finset.mem_range, mem_prod]
    constructor
    · intro h k hk
      constructor
      · simp only [hA]
        split
        · next hs =>
          have := h _ hs
          simpa only [unpair, show 2 * k % 2 = 0 by omega, show 2 * k / 2 = k by omega, if_true] using this
        · trivial
      · simp only [hA]
        split
        · next hs =>
          have := h _ hs
          simpa only [unpair, show ¬ (2 * k + 1) % 2 = 0 by omega, show (2 * k + 1) / 2 = k by omega, if_false] using this
        · trivial
    · intro h i hi
      have hlt := hN i hi
      have hk := h (i / 2) (by omega)
      by_cases hp : i % 2 = 0
      · have e : 2 * (i / 2) = i := by omega
        have := hk.1
        simp only [hA, e, hi, if_true] at this
        simpa only [unpair, hp, if_true] using this
      · have e : 2 * (i / 2) + 1 = i := by omega
        have := hk.2
        simp only [hA, e, hi, if_true] at this
        simpa only [unpair, hp, if_false] using this
  rw [Measure.map_apply measurable_unpair (MeasurableSet.pi (Finset.countable_toSet _) fun i _ => ht i), hpre,
    Measure.infinitePi_pi _ (fun k _ => (hAm _).prod (hAm _))]
  simp only [Measure.prod_prod]
  rw [prod_pairs (fun i => U (A i)) N, ← Finset.prod_subset (s₁ := s) (fun i hi => Finset.mem_range.2 (hN i hi))]
  · refine Finset.prod_congr rfl fun i hi => ?_
    simp only [hA, hi, if_true]
  · intro i _ hi
    simp only [hA, hi, if_false, measure_univ]

theorem map_shift (pos : Nat) : (Measure.infinitePi fun _ : ℕ => U).map (fun u k => u (pos + k)) = Measure.infinitePi fun _ : ℕ => U := by
  classical
  apply Measure.eq_infinitePi
  intro s t ht
  have hm : Measurable fun (u : ℕ → ℝ) k => u (pos + k) := measurable_pi_lambda _ fun k => measurable_pi_apply _
  have hpre : (fun (u : ℕ → ℝ) k => u (pos + k)) ⁻¹' Set.pi s t = Set.pi (s.image (pos + ·) : Finset ℕ) fun i => t (i - pos) := by
    ext u
    simp only [mem_preimage, Set.mem_pi, Finset.mem_coe, Finset.mem_image]
    constructor
    · rintro h i ⟨k, hk, rfl⟩
      rw [Nat.add_sub_cancel_left]
      exact h k hk
    · intro h k hk
      have := h (pos + k) ⟨k, hk, rfl⟩
      rwa [Nat.add_sub_cancel_left] at this
  rw [Measure.map_apply hm (MeasurableSet.pi (Finset.countable_toSet _) fun i _ => ht i), hpre,
    Measure.infinitePi_pi _ (fun k _ => ht _), Finset.prod_image (fun a _ b _ h => by simpa using h)]
  refine Finset.prod_congr rfl fun i _ => ?_
  rw [Nat.add_sub_cancel_left]

theorem map_pairs (pos : Nat) :
    (Measure.infinitePi fun _ : ℕ => U).map (pairs pos) = Measure.infinitePi fun _ : ℕ => U.prod U := by
  have e : pairs pos = pairs 0 ∘ fun u k => u (pos + k) := by
    funext u k
    simp only [pairs, Function.comp, Nat.zero_add, Nat.add_assoc]
  have hm : Measurable fun (u : ℕ → ℝ) k => u (pos + k) := measurable_pi_lambda _ fun k => measurable_pi_apply _
  rw [e, ← Measure.map_map (measurable_pairs 0) hm, map_shift, ← map_unpair, Measure.map_map (measurable_pairs 0) measurable_unpair]
  have : pairs 0 ∘ unpair = id := funext pairs_unpair
  rw [this, Measure.map_id]

end pairs

/-! ## The square and the disc -/

/-- The uniform law on [0, 1). -/
noncomputable def uniform : Measure ℝ := volume.restrict (Ico 0 1)

instance : IsProbabilityMeasure uniform := ⟨by simp [uniform]⟩

/-- From the square to the one around the disc. -/
def aff (x : ℝ × ℝ) : ℝ × ℝ := (2 * x.1 - 1, 2 * x.2 - 1)

theorem measurable_aff : Measurable aff := by
  unfold aff
  fun_prop

theorem map_aff : (volume : Measure (ℝ × ℝ)).map aff = ENNReal.ofReal (1 / 4) • volume := by
  have e : aff = (fun x => x + ((-1, -1) : ℝ × ℝ)) ∘ fun x => (2 : ℝ) • x := by
    funext x
    simp only [aff, Function.comp, Prod.smul_def, smul_eq_mul]
    ext <;> simp <;> ring
  rw [e, ← Measure.map_map (by fun_prop) (by fun_prop), Measure.map_addHaar_smul _ (by norm_num : (2 : ℝ) ≠ 0)]
  rw [Measure.map_smul, map_add_right_eq_self]
  congr 2
  simp
  norm_num

theorem uniform_aff (S : Set (ℝ × ℝ)) (hS : MeasurableSet S) :
    (uniform.prod uniform) (aff ⁻¹' Disc ∩ aff ⁻¹' S) = ENNReal.ofReal (1 / 4) * volume (Disc ∩ S) := by
  have hms : MeasurableSet (aff ⁻¹' (Disc ∩ S)) := measurable_aff (measurableSet_disc.inter hS)
  rw [← preimage_inter, uniform, Measure.prod_restrict, ← Measure.volume_eq_prod, Measure.restrict_apply hms]
  have hsub : aff ⁻¹' (Disc ∩ S) ⊆ Ico 0 1 ×ˢ Ico 0 1 := by
    rintro ⟨x, y⟩ ⟨⟨_, h⟩, _⟩
    simp only [aff] at h
    refine ⟨⟨?_, ?_⟩, ?_, ?_⟩ <;> simp only <;> nlinarith [mul_self_nonneg (2 * x - 1), mul_self_nonneg (2 * y - 1)]
  rw [inter_eq_left.2 hsub, ← Measure.map_apply measurable_aff (measurableSet_disc.inter hS), map_aff]
  rfl

theorem disc_boxMuller {B : Set (ℝ × ℝ)} (hB : MeasurableSet B) : volume (Disc ∩ boxMuller ⁻¹' B) = ENNReal.ofReal π * normal2 B := by
  have h := congrArg (fun m => m B) map_disc
  simp only [Measure.smul_apply, smul_eq_mul] at h
  rw [Measure.map_apply measurable_boxMuller hB, Measure.restrict_apply (measurable_boxMuller hB), inter_comm] at h
  exact h

/-! ## Runs of trials -/

section run

variable {E : Type} [MeasurableSpace E] (μ : Measure E) [IsProbabilityMeasure μ]

/-- The sequence after the first `n` trials. -/
def shift (n : Nat) (ω : ℕ → E) (k : Nat) : E := ω (n + k)

theorem measurable_shift (n : Nat) : Measurable (shift n : (ℕ → E) → ℕ → E) :=
  measurable_pi_lambda _ fun _ => measurable_pi_apply _

/-- What comes after the first `n` trials does not depend on them. -/
theorem shift_indep (n : Nat) (T : ℕ → Set E) (hT : ∀ j, MeasurableSet (T j)) (S : Set (ℕ → E)) (hS : MeasurableSet S) :
    Measure.infinitePi (fun _ : ℕ => μ) (Set.pi (Finset.range n : Set ℕ) T ∩ shift n ⁻¹' S)
      = (∏ j ∈ Finset.range n, μ (T j)) * Measure.infinitePi (fun _ : ℕ => μ) S := by
  classical
  set Q := Measure.infinitePi (fun _ : ℕ => μ) with hQ
  set C := Set.pi (Finset.range n : Set ℕ) T with hC
  have hCm : MeasurableSet C := MeasurableSet.pi (Finset.countable_toSet _) fun j _ => hT j
  have hCv : Q C = ∏ j ∈ Finset.range n, μ (T j) := Measure.infinitePi_pi _ (fun j _ => hT j)
  rw [← hCv]
  by_cases h0 : Q C = 0
  · rw [h0, zero_mul]
    exact measure_mono_null inter_subset_left h0
  have htop : Q C ≠ ∞ := measure_ne_top _ _
  have hν : (Q C)⁻¹ • (Q.restrict C).map (shift n) = Q := by
    apply Measure.eq_infinitePi
    intro s t ht
    have hbox : MeasurableSet (Set.pi s t : Set (ℕ → E)) := MeasurableSet.pi (Finset.countable_toSet _) fun i _ => ht i
    rw [Measure.smul_apply, Measure.map_apply (measurable_shift n) hbox, Measure.restrict_apply (measurable_shift n hbox), smul_eq_mul]
    have hset : shift n ⁻¹' Set.pi s t ∩ C
        = Set.pi (Finset.range n ∪ s.image (n + ·) : Finset ℕ) fun i => if i < n then T i else t (i - n) := by
      ext ω
      simp only [mem_inter_iff, mem_preimage, Set.mem_pi, Finset.mem_coe, Finset.mem_union, Finset.mem_range, Finset.mem_image, hC,
        shift]
      constructor
      · rintro ⟨h1, h2⟩ i (hi | ⟨k, hk, rfl⟩)
        · rw [if_pos hi]; exact h2 i hi
        · rw [if_neg (by omega), Nat.add_sub_cancel_left]
          exact h1 k hk
      · intro h
        refine ⟨fun k hk => ?_, fun j hj => ?_⟩
        · have := h (n + k) (Or.inr ⟨k, hk, rfl⟩)
          rwa [if_neg (by omega), Nat.add_sub_cancel_left] at this
        · have := h j (Or.inl hj)
          rwa [if_pos hj] at this
    have hval : Q (Set.pi (Finset.range n ∪ s.image (n + ·) : Finset ℕ) fun i => if i < n then T i else t (i - n))
        = ∏ i ∈ Finset.range n ∪ s.image (n + ·), μ (if i < n then T i else t (i - n)) := by
      apply Measure.infinitePi_pi
      intro i _
      split
      · exact hT i
      · exact ht _
    rw [hset, hval, Finset.prod_union]
    · rw [Finset.prod_image (fun a _ b _ h => by simpa using h)]
      have e1 : ∏ x ∈ Finset.range n, μ (if x < n then T x else t (x - n)) = Q C := by
        rw [hCv]
        refine Finset.prod_congr rfl fun j hj => ?_
        rw [if_pos (Finset.mem_range.1 hj)]
      have e2 : ∏ x ∈ s, μ (if n + x < n then T (n + x) else t (n + x - n)) = ∏ i ∈ s, μ (t i) := by
        refine Finset.prod_congr rfl fun j _ => ?_
        rw [if_neg (by omega), Nat.add_sub_cancel_left]
      rw [e1, e2, ← mul_assoc, ENNReal.inv_mul_cancel h0 htop, one_mul]
    · rw [Finset.disjoint_left]
      intro i hi hj
      obtain ⟨k, _, hk⟩ := Finset.mem_image.1 hj
      have := Finset.mem_range.1 hi
      omega
  have h := congrArg (fun m => m S) hν
  simp only [Measure.smul_apply, smul_eq_mul] at h
  rw [Measure.map_apply (measurable_shift n) hS, Measure.restrict_apply (measurable_shift n hS)] at h
  rw [inter_comm, ← h, ← mul_assoc, ENNReal.mul_inv_cancel h0 htop, one_mul]

/-- One after the other, the trials which fall into `A` fall into the sets of the list. -/
def Run (A : Set E) : List (Set E) → Set (ℕ → E)
  | [] => univ
  | B :: Bs => {ω | ∃ k, (∀ j, j < k → ω j ∉ A) ∧ ω k ∈ A ∧ ω k ∈ B ∧ shift (k + 1) ω ∈ Run A Bs}

theorem run_measure {A : Set E} (hA : MeasurableSet A) :
    ∀ (Bs : List (Set E)), (∀ B ∈ Bs, MeasurableSet B) → MeasurableSet (Run A Bs) ∧
      (μ A ≠ 0 → Measure.infinitePi (fun _ : ℕ => μ) (Run A Bs) = (Bs.map fun B => (μ A)⁻¹ * μ (A ∩ B)).prod)
  | [], _ => ⟨MeasurableSet.univ, fun _ => by simp [Run]⟩
  | B :: Bs, hm => by
    obtain ⟨hRm, hRv⟩ := run_measure hA Bs (fun C hC => hm C (by simp [hC]))
    have hB : MeasurableSet B := hm B (by simp)
    set T : ℕ → ℕ → Set E := fun k j => if j < k then Aᶜ else A ∩ B with hT
    have hTm : ∀ k j, MeasurableSet (T k j) := by
      intro k j
      simp only [hT]
      split
      · exact hA.compl
      · exact hA.inter hB
    have hU : Run A (B :: Bs) = ⋃ k, (Set.pi (Finset.range (k + 1) : Set ℕ) (T k) ∩ shift (k + 1) ⁻¹' Run A Bs) := by
      ext ω
      simp only [Run, mem_setOf_eq, mem_iUnion, Set.mem_pi, Finset.coe_range, mem_Iio, hT, mem_inter_iff, mem_preimage]
      constructor
      · rintro ⟨k, h1, h2, h3, h4⟩
        refine ⟨k, fun j hj => ?_, h4⟩
        by_cases h : j < k
        · rw [if_pos h]; exact h1 j h
        · have : j = k := by omega
          subst this
          rw [if_neg h]
          exact ⟨h2, h3⟩
      · rintro ⟨k, h, h4⟩
        have hk := h k (by omega)
        rw [if_neg (lt_irrefl k)] at hk
        refine ⟨k, fun j hj => ?_, hk.1, hk.2, h4⟩
        have := h j (by omega)
        rw [if_pos hj] at this
        exact this
    have hmeas : ∀ k, MeasurableSet (Set.pi (Finset.range (k + 1) : Set ℕ) (T k) ∩ shift (k + 1) ⁻¹' Run A Bs) :=
      fun k => (MeasurableSet.pi (Finset.countable_toSet _) fun j _ => hTm k j).inter (measurable_shift _ hRm)
    refine ⟨by rw [hU]; exact MeasurableSet.iUnion hmeas, fun h0 => ?_⟩
    have hdisj : Pairwise (Function.onFun Disjoint fun k =>
        Set.pi (Finset.range (k + 1) : Set ℕ) (T k) ∩ shift (k + 1) ⁻¹' Run A Bs) := by
      have key : ∀ a b : ℕ, a < b → Disjoint (Set.pi (Finset.range (a + 1) : Set ℕ) (T a) ∩ shift (a + 1) ⁻¹' Run A Bs)
          (Set.pi (Finset.range (b + 1) : Set ℕ) (T b) ∩ shift (b + 1) ⁻¹' Run A Bs) := by
        intro a b hab
        rw [Set.disjoint_left]
        intro ω h1 h2
        have m1 := h1.1 a (by simp)
        have m2 := h2.1 a (by simp; omega)
        simp only [hT, lt_irrefl, if_false] at m1
        simp only [hT, hab, if_true] at m2
        exact m2 m1.1
      intro a b hab
      rcases lt_or_gt_of_ne hab with h | h
      · exact key a b h
      · exact (key b a h).symm
    have hval : ∀ k, Measure.infinitePi (fun _ : ℕ => μ) (Set.pi (Finset.range (k + 1) : Set ℕ) (T k) ∩ shift (k + 1) ⁻¹' Run A Bs)
        = μ Aᶜ ^ k * (μ (A ∩ B) * (Bs.map fun B => (μ A)⁻¹ * μ (A ∩ B)).prod) := by
      intro k
      rw [shift_indep μ (k + 1) (T k) (hTm k) _ hRm, hRv h0, Finset.prod_range_succ, mul_assoc]
      congr 1
      · rw [Finset.prod_congr rfl (g := fun _ => μ Aᶜ)]
        · rw [Finset.prod_const, Finset.card_range]
        · intro j hj
          simp only [hT, Finset.mem_range.1 hj, if_true]
      · simp only [hT, lt_irrefl, if_false]
    rw [hU, measure_iUnion hdisj hmeas, tsum_congr hval, ENNReal.tsum_mul_right, ENNReal.tsum_geometric, List.map_cons, List.prod_cons,
      ← mul_assoc]
    congr 3
    rw [prob_compl_eq_one_sub hA]
    exact ENNReal.sub_sub_cancel ENNReal.one_ne_top prob_le_one

end run

theorem uniform_disc : (uniform.prod uniform) (aff ⁻¹' Disc) = ENNReal.ofReal (1 / 4 * π) := by
  have := uniform_aff univ MeasurableSet.univ
  have h2 := disc_boxMuller MeasurableSet.univ
  rw [preimage_univ, measure_univ, mul_one] at h2
  rw [h2, preimage_univ, inter_univ] at this
  rw [this, ← ENNReal.ofReal_mul (by norm_num)]

theorem uniform_ratio {B : Set (ℝ × ℝ)} (hB : MeasurableSet B) : ((uniform.prod uniform) (aff ⁻¹' Disc))⁻¹ *
    (uniform.prod uniform) (aff ⁻¹' Disc ∩ aff ⁻¹' (boxMuller ⁻¹' B)) = normal2 B := by
  rw [uniform_aff _ (measurable_boxMuller hB), uniform_disc, disc_boxMuller hB, ← mul_assoc (ENNReal.ofReal (1 / 4)),
    ← ENNReal.ofReal_mul (by norm_num), ← mul_assoc, ENNReal.inv_mul_cancel, one_mul]
  · have : 0 < 1 / 4 * π := by positivity
    exact (ENNReal.ofReal_pos.2 this).ne'
  · exact ENNReal.ofReal_ne_top

end Verif.Normal
