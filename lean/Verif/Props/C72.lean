/-
C72: EAM and ADP tables for LAMMPS (`setfl`).
-/
import Verif.Lemmas.TableOut
import Mathlib.Data.Rat.Floor
import Mathlib.Tactic.NormNum
import Mathlib.Tactic.Linarith

set_option linter.unusedSectionVars false

namespace Verif.Props

open Verif.TableOut Verif.Spec Verif.PairIndex

section

variable {K : Type*} [Field K] [DecidableEq K]

/-- What the reader finds, in terms of the columns written. -/
theorem setfl_read (apot adp : Bool) (n steps : Nat) (hs : 0 < steps) (F : Fns K) (fin : Nat → K) (fmt : K → K) (s : Setfl K)
    (h : writeSetfl apot adp n steps F fin fmt = some s) (m : Nat) (hm : m < steps) :
    let drho := fin (paircol n + n) / (steps - 1)
    let dr := fin 0 / (steps - 1)
    let c := setflColumn apot F steps
    (∀ i < n, readEmbed s i m = (c false false drho (1 / 100000) (paircol n + n + i))[m]?) ∧
    (∀ i < n, readDensity s i m = (c false false dr (1 / 1000000) (paircol n + i))[m]?) ∧
    (∀ i < n, ∀ j ≤ i, readPair s n i j m = (c true false dr (1 / 1000000) (pairCol n i j))[m]?) ∧
    (adp = true → ∀ i < n, ∀ j ≤ i,
      readDipole s n i j m = (c apot true dr (1 / 1000000) (i * (i + 1) / 2 + j + (paircol n + 2 * n)))[m]? ∧
      readQuadrupole s n i j m = (c apot true dr (1 / 1000000) (i * (i + 1) / 2 + j + 2 * (paircol n + n)))[m]?) := by
  intro drho dr c
  have hc : ∀ mul full d eps k, (c mul full d eps k).length = steps := fun mul full d eps k =>
    setflColumn_length apot F steps hs mul full d eps k
  unfold writeSetfl at h
  split at h
  swap
  · cases h
  have h := (Option.some.inj h).symm
  subst h
  have hu : ∀ off, ((List.range n).flatMap fun i => (List.range (n - i)).flatMap fun t =>
      setflColumn apot F steps apot true (fin 0 / (steps - 1)) (1 / 1000000) (pairCol n i (i + t) + off)) =
      (List.range (n * (n + 1) / 2)).flatMap fun k => setflColumn apot F steps apot true (fin 0 / (steps - 1)) (1 / 1000000) (k + off) :=
    fun off => upper_eq (fun k => setflColumn apot F steps apot true (fin 0 / (steps - 1)) (1 / 1000000) (k + off)) n
  simp only [hu]
  change (∀ i < n, _ = (c _ _ _ _ _)[m]?) ∧ _
  generalize hE : (List.range n).flatMap (fun i => setflColumn apot F steps false false (fin (paircol n + n) / (steps - 1)) (1 / 100000)
    (paircol n + n + i) ++ setflColumn apot F steps false false (fin 0 / (steps - 1)) (1 / 1000000) (paircol n + i)) = E
  generalize hP : (List.range n).flatMap (fun i => (List.range (i + 1)).flatMap fun j =>
      setflColumn apot F steps true false (fin 0 / (steps - 1)) (1 / 1000000) (pairCol n i j)) = P
  have hb : ∀ i, (setflColumn apot F steps false false (fin (paircol n + n) / (steps - 1)) (1 / 100000)
    (paircol n + n + i) ++ setflColumn apot F steps false false (fin 0 / (steps - 1)) (1 / 1000000) (paircol n + i)).length =
      steps + steps := by
    intro i
    rw [List.length_append, setflColumn_length _ _ _ hs, setflColumn_length _ _ _ hs]
  have hEl : E.length = n * (steps + steps) := by rw [← hE]; exact block_length _ _ _ hb
  have hPl : P.length = n * (n + 1) / 2 * steps := by
    rw [← hP]; exact tri_length _ _ _ fun i j => setflColumn_length _ _ _ hs _ _ _ _ _
  have hEi : ∀ i < n, (i + 1) * (steps + steps) ≤ n * (steps + steps) := fun i hi => Nat.mul_le_mul_right _ hi
  refine ⟨fun i hi => ?_, fun i hi => ?_, fun i hi j hj => ?_, fun ha i hi j hj => ?_⟩
  · have := hEi i hi
    rw [Nat.succ_mul] at this
    unfold readEmbed
    rw [List.append_assoc, List.getElem?_append_left (by rw [hEl]; show i * (steps + steps) + m < _; omega), ← hE]
    show ((List.range n).flatMap _)[i * (steps + steps) + m]? = _
    rw [block_get _ (steps + steps) n i m hb hi (by omega), List.getElem?_append_left (by rw [setflColumn_length _ _ _ hs]; exact hm)]
  · have := hEi i hi
    rw [Nat.succ_mul] at this
    unfold readDensity
    rw [List.append_assoc, List.getElem?_append_left (by rw [hEl]; show i * (steps + steps) + steps + m < _; omega), ← hE]
    show ((List.range n).flatMap _)[i * (steps + steps) + steps + m]? = _
    rw [Nat.add_assoc, block_get _ (steps + steps) n i (steps + m) hb hi (by omega),
      List.getElem?_append_right (by rw [setflColumn_length _ _ _ hs]; omega), setflColumn_length _ _ _ hs, Nat.add_sub_cancel_left]
  · have ht := tri_get (fun i j => setflColumn apot F steps true false (fin 0 / (steps - 1)) (1 / 1000000) (pairCol n i j))
      steps n i j m (fun i j => setflColumn_length _ _ _ hs _ _ _ _ _) hi hj hm
    rw [hP] at ht
    unfold readPair
    show (E ++ P ++ _)[n * (steps + steps) + (i * (i + 1) / 2 + j) * steps + m]? = _
    have hlt : (i * (i + 1) / 2 + j) * steps + m < P.length := by
      rw [List.getElem?_eq_getElem (l := setflColumn apot F steps true false (fin 0 / (steps - 1)) (1 / 1000000) (pairCol n i j))
        (by rw [setflColumn_length _ _ _ hs]; exact hm)] at ht
      exact (List.getElem?_eq_some_iff.1 ht).1
    rw [List.append_assoc, ← hEl, Nat.add_assoc, List.getElem?_append_right (by omega), Nat.add_sub_cancel_left,
      List.getElem?_append_left hlt]
    exact ht
  · rw [ha]
    have hcol : i * (i + 1) / 2 + j < n * (n + 1) / 2 := by
      have h1 := two_dvd_mul_succ n
      have h2 := two_dvd_mul_succ i
      have h3 : (i + 1) * (i + 1 + 1) ≤ n * (n + 1) := Nat.mul_le_mul hi (by omega)
      nlinarith
    have hpos : (i * (i + 1) / 2 + j) * steps + m < n * (n + 1) / 2 * steps := by
      have := Nat.mul_le_mul_right steps (Nat.succ_le_of_lt hcol)
      rw [Nat.succ_mul] at this
      omega
    have h2 := two_dvd_mul_succ n
    have hD : ∀ off, ((List.range (n * (n + 1) / 2)).flatMap fun k =>
        setflColumn apot F steps apot true (fin 0 / (steps - 1)) (1 / 1000000) (k + off)).length = n * (n + 1) / 2 * steps := fun off =>
      block_length _ _ _ fun k => setflColumn_length _ _ _ hs _ _ _ _ _
    have hG : ∀ off, ((List.range (n * (n + 1) / 2)).flatMap fun k =>
        setflColumn apot F steps apot true (fin 0 / (steps - 1)) (1 / 1000000) (k + off))[(i * (i + 1) / 2 + j) * steps + m]? =
        (c apot true dr (1 / 1000000) (i * (i + 1) / 2 + j + off))[m]? := fun off =>
      block_get _ steps _ _ m (fun k => setflColumn_length _ _ _ hs _ _ _ _ _) hcol hm
    simp only [if_true]
    constructor
    · unfold readDipole
      show (E ++ P ++ _)[n * (steps + steps) + (n * (n + 1) / 2 + (i * (i + 1) / 2 + j)) * steps + m]? = _
      rw [Nat.add_mul, ← hEl, ← hPl, show E.length + (P.length + (i * (i + 1) / 2 + j) * steps) + m =
        (E ++ P).length + ((i * (i + 1) / 2 + j) * steps + m) by rw [List.length_append]; omega,
        List.getElem?_append_right (by omega), Nat.add_sub_cancel_left, List.getElem?_append_left (by rw [hD]; exact hpos)]
      exact hG _
    · unfold readQuadrupole
      show (E ++ P ++ _)[n * (steps + steps) + (n * (n + 1) + (i * (i + 1) / 2 + j)) * steps + m]? = _
      have h3 : n * (n + 1) * steps = n * (n + 1) / 2 * steps + n * (n + 1) / 2 * steps := by
        rw [← Nat.add_mul, ← Nat.two_mul, h2]
      rw [Nat.add_mul, h3, ← hEl, show E.length + (n * (n + 1) / 2 * steps + n * (n + 1) / 2 * steps + (i * (i + 1) / 2 + j) * steps) + m =
        (E ++ P).length + (n * (n + 1) / 2 * steps + ((i * (i + 1) / 2 + j) * steps + m)) by rw [List.length_append, hPl]; omega,
        List.getElem?_append_right (by omega), Nat.add_sub_cancel_left, List.getElem?_append_right (by rw [hD]; omega), hD,
        Nat.add_sub_cancel_left]
      exact hG _

/-- Analytic potentials: wherever they are defined, LAMMPS reads the functions of the fit at equidistant arguments. -/
theorem C72_analytic (adp : Bool) (n steps : Nat) (F : Fns K) (fin : Nat → K) (fmt : K → K) (s : Setfl K)
    (h : writeSetfl true adp n steps F fin fmt = some s) (m : Nat) (hm : m < steps) :
    let ρ := (m : K) * (fin (paircol n + n) / (steps - 1))
    let r := (m : K) * (fin 0 / (steps - 1))
    (∀ i < n, F.val (paircol n + n + i) ρ ≠ none → readEmbed s i m = some (fitted F (paircol n + n + i) ρ)) ∧
    (∀ i < n, F.val (paircol n + i) r ≠ none → readDensity s i m = some (fitted F (paircol n + i) r)) ∧
    (∀ i < n, ∀ j ≤ i, F.val (pairCol n i j) r ≠ none →
      readPair s n i j m = some ((fitted F (pairCol n i j) r).map (r * ·))) := by
  intro ρ r
  obtain ⟨h1, h2, h3, _⟩ := setfl_read true adp n steps (by omega) F fin fmt s h m hm
  refine ⟨fun i hi hv => ?_, fun i hi hv => ?_, fun i hi j hj hv => ?_⟩
  · rw [h1 i hi, column_apot _ _ _ _ _ _ _ _ hm (Or.inr hv)]
    rfl
  · rw [h2 i hi, column_apot _ _ _ _ _ _ _ _ hm (Or.inr hv)]
    rfl
  · rw [h3 i hi j hj, column_apot _ _ _ _ _ _ _ _ hm (Or.inr hv)]
    rfl

/-- Tabulated potentials: LAMMPS reads the interpolated functions at equidistant arguments, the last one decreased a little;
functions whose table does not begin at zero are zero there. -/
theorem C72_tabulated (adp : Bool) (n steps : Nat) (F : Fns K) (fin : Nat → K) (fmt : K → K) (s : Setfl K)
    (h : writeSetfl false adp n steps F fin fmt = some s) (m : Nat) (hm : m < steps) :
    let ρ := (m : K) * (fin (paircol n + n) / (steps - 1)) - if m = steps - 1 then 1 / 100000 else 0
    let r := (m : K) * (fin 0 / (steps - 1)) - if m = steps - 1 then 1 / 1000000 else 0
    let used := fun k => F.zero k = true ∨ 0 < m
    (∀ i < n, readEmbed s i m = if used (paircol n + n + i) then some (F.val (paircol n + n + i) ρ) else some (some 0)) ∧
    (∀ i < n, readDensity s i m = if used (paircol n + i) then some (F.val (paircol n + i) r) else some (some 0)) ∧
    (∀ i < n, ∀ j ≤ i, readPair s n i j m =
      if used (pairCol n i j) then some ((F.val (pairCol n i j) r).map (r * ·)) else some (some 0)) := by
  intro ρ r used
  obtain ⟨h1, h2, h3, _⟩ := setfl_read false adp n steps (by omega) F fin fmt s h m hm
  have key : ∀ mul d eps k, (setflColumn false F steps mul false d eps k)[m]? =
      if F.zero k = true ∨ 0 < m then some (if mul then
        (F.val k (m * d - if m = steps - 1 then eps else 0)).map ((m * d - if m = steps - 1 then eps else 0) * ·)
        else F.val k (m * d - if m = steps - 1 then eps else 0)) else some (some 0) := by
    intro mul d eps k
    by_cases hu : F.zero k = true ∨ 0 < m
    · rw [if_pos hu, column_tab _ _ _ _ _ _ _ hm hu]
      by_cases hl : m = steps - 1
      · simp only [if_pos hl]
      · simp only [if_neg hl, sub_zero]
    · rw [if_neg hu]
      push Not at hu
      obtain rfl : m = 0 := by omega
      exact column_tab_begin _ _ _ _ _ _ _ (by simpa using hu.1)
  refine ⟨fun i hi => ?_, fun i hi => ?_, fun i hi j hj => ?_⟩
  · rw [h1 i hi, key]
    rfl
  · rw [h2 i hi, key]
    rfl
  · rw [h3 i hi j hj, key]
    rfl

/-- The file is written only if all functions of distances end at the same distance and all embedding functions at the same density. -/
theorem C72_suited (apot adp : Bool) (n steps : Nat) (F : Fns K) (fin : Nat → K) (fmt : K → K) :
    (writeSetfl apot adp n steps F fin fmt).isSome ↔
      (∀ i, i < paircol n + n → fin i = fin 0) ∧ (∀ i < n, fin (paircol n + n + i) = fin (paircol n + n)) ∧
      (adp = true → ∀ i < 2 * paircol n, fin (paircol n + 2 * n + i) = fin 0) := by
  have h0 : (writeSetfl apot adp n steps F fin fmt).isSome ↔ suited adp n fin = true := by
    unfold writeSetfl
    split <;> simp_all
  rw [h0]
  unfold suited
  simp only [Bool.and_eq_true, List.all_eq_true, List.mem_range, decide_eq_true_eq, Bool.or_eq_true, Bool.not_eq_true']
  constructor
  · rintro ⟨⟨h1, h2⟩, h3⟩
    refine ⟨fun i hi => ?_, h2, fun ha => ?_⟩
    · cases i with
      | zero => rfl
      | succ i => exact h1 i (by omega)
    · rcases h3 with h3 | h3
      · rw [ha] at h3; cases h3
      · exact h3
  · rintro ⟨h1, h2, h3⟩
    refine ⟨⟨fun i hi => h1 (i + 1) (by omega), h2⟩, ?_⟩
    cases adp
    · exact Or.inl rfl
    · exact Or.inr (h3 rfl)

/-- With at most two elements tabulated dipole and quadrupole functions are read for the right pairs, strictly between the first and the
last argument. -/
theorem C72_distortion_partial (n steps : Nat) (hn : n ≤ 2) (F : Fns K) (fin : Nat → K) (fmt : K → K) (s : Setfl K)
    (h : writeSetfl false true n steps F fin fmt = some s) (m : Nat) (h0 : 0 < m) (hm : m + 1 < steps) (i j : Nat) (hi : i < n)
    (hj : j ≤ i) :
    readDipole s n i j m = some (F.val (pairCol n i j + (paircol n + 2 * n)) (m * (fin 0 / (steps - 1)))) ∧
    readQuadrupole s n i j m = some (F.val (pairCol n i j + 2 * (paircol n + n)) (m * (fin 0 / (steps - 1)))) := by
  obtain ⟨_, _, _, h4⟩ := setfl_read false true n steps (by omega) F fin fmt s h m (by omega)
  obtain ⟨h5, h6⟩ := h4 rfl i hi j hj
  have hp : i * (i + 1) / 2 + j = pairCol n i j := by
    have : n = 1 ∨ n = 2 := by omega
    rcases this with rfl | rfl
    · obtain rfl : i = 0 := by omega
      obtain rfl : j = 0 := by omega
      rfl
    · have : i = 0 ∨ i = 1 := by omega
      rcases this with rfl | rfl
      · obtain rfl : j = 0 := by omega
        rfl
      · have : j = 0 ∨ j = 1 := by omega
        rcases this with rfl | rfl <;> rfl
  rw [h5, h6, hp, column_full _ _ _ _ _ _ h0 hm, column_full _ _ _ _ _ _ h0 hm]
  exact ⟨rfl, rfl⟩

/-- With three or more elements the functions are written in another order (`i ≤ j`) than pair potentials: LAMMPS takes for the
second element with itself the functions of the first with the third. -/
theorem C72_order_violated (n steps : Nat) (hn : 3 ≤ n) (F : Fns K) (fin : Nat → K) (fmt : K → K) (s : Setfl K)
    (h : writeSetfl false true n steps F fin fmt = some s) (m : Nat) (h0 : 0 < m) (hm : m + 1 < steps) :
    readDipole s n 1 1 m = some (F.val (pairCol n 0 2 + (paircol n + 2 * n)) (m * (fin 0 / (steps - 1)))) ∧
    pairCol n 0 2 ≠ pairCol n 1 1 := by
  obtain ⟨_, _, _, h4⟩ := setfl_read false true n steps (by omega) F fin fmt s h m (by omega)
  obtain ⟨h5, _⟩ := h4 rfl 1 (by omega) 1 le_rfl
  have h2 : pairCol n 0 2 = 2 := by simp [pairCol]
  refine ⟨?_, ?_⟩
  · rw [h5, h2]
    show (setflColumn false F steps false true _ _ (2 + (paircol n + 2 * n)))[m]? = _
    rw [column_full _ _ _ _ _ _ h0 hm]
  · rw [h2]
    have : pairCol n 1 1 = n := by simp [pairCol]
    omega

/-- Analytic dipole and quadrupole functions are multiplied by the distance, unlike tabulated ones. -/
theorem C72_distortion_violated (n steps : Nat) (hn : 0 < n) (F : Fns K) (fin : Nat → K) (fmt : K → K) (s : Setfl K)
    (h : writeSetfl true true n steps F fin fmt = some s) (m : Nat) (hm : m < steps)
    (hv : F.val (pairCol n 0 0 + (paircol n + 2 * n)) (m * (fin 0 / (steps - 1))) ≠ none) :
    readDipole s n 0 0 m = some ((fitted F (pairCol n 0 0 + (paircol n + 2 * n)) (m * (fin 0 / (steps - 1)))).map
      (m * (fin 0 / (steps - 1)) * ·)) := by
  obtain ⟨_, _, _, h4⟩ := setfl_read true true n steps (by omega) F fin fmt s h m hm
  obtain ⟨h5, _⟩ := h4 rfl 0 hn 0 le_rfl
  rw [pairCol_zero] at hv ⊢
  rw [h5]
  show (setflColumn true F steps true true _ _ (0 + (paircol n + 2 * n)))[m]? = _
  rw [column_apot _ _ _ _ _ _ _ _ hm (Or.inr hv)]
  rfl

end

section

variable {K : Type*} [Field K] [LinearOrder K] [IsStrictOrderedRing K]

/-- LAMMPS takes the step from the header, where it is rounded to six decimals: argument number `m` is off by at most `m` times half a
unit of the last decimal. -/
theorem C72_grid (apot adp : Bool) (n steps : Nat) (F : Fns K) (fin : Nat → K) (fmt : K → K)
    (hf : ∀ x, |fmt x - x| ≤ 1 / 2000000) (s : Setfl K) (h : writeSetfl apot adp n steps F fin fmt = some s) (m : Nat) :
    |m * s.dr - m * (fin 0 / (steps - 1))| ≤ m * (1 / 2000000) ∧
    |m * s.drho - m * (fin (paircol n + n) / (steps - 1))| ≤ m * (1 / 2000000) := by
  unfold writeSetfl at h
  split at h
  swap
  · cases h
  have h := (Option.some.inj h).symm
  subst h
  have hm : (0 : K) ≤ m := Nat.cast_nonneg m
  constructor
  · rw [← mul_sub, abs_mul, abs_of_nonneg hm]
    exact mul_le_mul_of_nonneg_left (hf _) hm
  · rw [← mul_sub, abs_mul, abs_of_nonneg hm]
    exact mul_le_mul_of_nonneg_left (hf _) hm

/-- The header has the numbers of values and the common range of the pair and density functions as cutoff, rounded. -/
theorem C72_header (apot adp : Bool) (n steps : Nat) (F : Fns K) (fin : Nat → K) (fmt : K → K)
    (hf : ∀ x, |fmt x - x| ≤ 1 / 2000000) (s : Setfl K) (h : writeSetfl apot adp n steps F fin fmt = some s) :
    s.nr = steps ∧ s.nrho = steps ∧ ∀ i, i < paircol n + n → |s.cutoff - fin i| ≤ 1 / 2000000 := by
  have hs := (C72_suited apot adp n steps F fin fmt).1 (by rw [h]; rfl)
  unfold writeSetfl at h
  split at h
  swap
  · cases h
  have h := (Option.some.inj h).symm
  subst h
  refine ⟨rfl, rfl, fun i hi => ?_⟩
  rw [hs.1 i hi]
  exact hf _

end

/-- `%f`. -/
def fmt6 (x : ℚ) : ℚ := (⌊x * 1000000 + 1 / 2⌋ : ℚ) / 1000000

/-- Functions equal to the number of the column plus the argument. -/
def colFns : Fns ℚ where
  val k r := some (k + r)
  cut _ := none
  grad _ _ := 1
  zero _ := true

/-- `fmt6` rounds as required by `C72_grid`. -/
theorem fmt6_near (x : ℚ) : |fmt6 x - x| ≤ 1 / 2000000 := by
  unfold fmt6
  have h1 := Int.floor_le (x * 1000000 + 1 / 2)
  have h2 := Int.lt_floor_add_one (x * 1000000 + 1 / 2)
  generalize ((⌊x * 1000000 + 1 / 2⌋ : ℤ) : ℚ) = z at *
  rw [abs_le]
  constructor
  · have : z / 1000000 = z * (1 / 1000000) := by ring
    rw [this]
    linarith
  · have : z / 1000000 = z * (1 / 1000000) := by ring
    rw [this]
    linarith

/-- A cutoff of 5 and 1000 steps: the last of the distances assumed by LAMMPS is 4.999995, not the cutoff. -/
theorem C72_grid_violated :
    ((writeSetfl true false 1 1000 colFns (fun _ => 5) fmt6).map fun s => ((s.nr - 1 : ℕ) : ℚ) * s.dr - s.cutoff) = some (-5 / 1000000) := by
  decide +kernel

example : (writeSetfl true true 3 4 colFns (fun _ => 6) fmt6).isSome = true := by decide +kernel
example : (writeSetfl false true 2 4 colFns (fun _ => 6) fmt6).map (fun s => (readPair s 2 1 0 1, readDipole s 2 1 0 1)) =
    some (some (some 6), some (some 10)) := by decide +kernel
example : (writeSetfl true true 2 4 colFns (fun _ => 6) fmt6).map (fun s => (readEmbed s 1 2, readDipole s 2 1 0 1)) =
    some (some (some 10), some (some 20)) := by decide +kernel

end Verif.Props
