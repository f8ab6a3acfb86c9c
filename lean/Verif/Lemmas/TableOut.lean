/-
Positions in lists of blocks; values of the loops that write tables.
-/
import Verif.Spec.TableOut
import Verif.Props.C01
import Mathlib.Tactic.Ring
import Mathlib.Tactic.FieldSimp
import Mathlib.Algebra.Order.Field.Basic

set_option linter.unusedSectionVars false

namespace Verif.Spec

open Verif.TableOut Verif.PairIndex

section Blocks

variable {α : Type*}

theorem block_length (g : Nat → List α) (L n : Nat) (hL : ∀ c, (g c).length = L) : ((List.range n).flatMap g).length = n * L := by
  induction n with
  | zero => simp
  | succ n ih => rw [List.range_succ, List.flatMap_append, List.length_append, ih]; simp [hL, Nat.succ_mul]

theorem block_get (g : Nat → List α) (L n c m : Nat) (hL : ∀ c, (g c).length = L) (hc : c < n) (hm : m < L) :
    ((List.range n).flatMap g)[c * L + m]? = (g c)[m]? := by
  induction n with
  | zero => omega
  | succ n ih =>
    have hl := block_length g L n hL
    rw [List.range_succ, List.flatMap_append]
    by_cases h : c < n
    · have : (c + 1) * L ≤ n * L := Nat.mul_le_mul_right _ h
      rw [Nat.succ_mul] at this
      rw [List.getElem?_append_left (by omega), ih h]
    · have h2 : c = n := by omega
      subst h2
      rw [List.getElem?_append_right (by omega), hl, Nat.add_sub_cancel_left]
      simp

theorem tri_length (g : Nat → Nat → List α) (L n : Nat) (hL : ∀ i j, (g i j).length = L) :
    ((List.range n).flatMap fun i => (List.range (i + 1)).flatMap (g i)).length = n * (n + 1) / 2 * L := by
  induction n with
  | zero => simp
  | succ n ih =>
    have h1 := two_dvd_mul_succ n
    have h2 := two_dvd_mul_succ (n + 1)
    have h3 : (n + 1) * (n + 1 + 1) / 2 = n * (n + 1) / 2 + (n + 1) := by nlinarith
    rw [List.range_succ, List.flatMap_append, List.length_append, ih, h3, Nat.add_mul]
    simp only [List.flatMap_cons, List.flatMap_nil, List.append_nil, block_length (g n) L (n + 1) (hL n)]

theorem tri_get (g : Nat → Nat → List α) (L n i j m : Nat) (hL : ∀ i j, (g i j).length = L) (hi : i < n) (hj : j ≤ i) (hm : m < L) :
    ((List.range n).flatMap fun i => (List.range (i + 1)).flatMap (g i))[(i * (i + 1) / 2 + j) * L + m]? = (g i j)[m]? := by
  induction n with
  | zero => omega
  | succ n ih =>
    have hl := tri_length g L n hL
    rw [List.range_succ, List.flatMap_append]
    by_cases h : i < n
    · have hlt : (i * (i + 1) / 2 + j) * L + m < n * (n + 1) / 2 * L := by
        have h1 := two_dvd_mul_succ n
        have h2 := two_dvd_mul_succ i
        have h3 : (i + 1) * (i + 1 + 1) ≤ n * (n + 1) := Nat.mul_le_mul h (by omega)
        have h4 : i * (i + 1) / 2 + j + 1 ≤ n * (n + 1) / 2 := by nlinarith
        have h5 := Nat.mul_le_mul_right L h4
        rw [Nat.succ_mul] at h5
        omega
      rw [List.getElem?_append_left (by omega), ih h]
    · have h2 : i = n := by omega
      subst h2
      rw [Nat.add_mul, Nat.add_assoc, List.getElem?_append_right (by omega), hl, Nat.add_sub_cancel_left]
      simp only [List.flatMap_cons, List.flatMap_nil, List.append_nil]
      exact block_get (g i) L (i + 1) j m (hL i) (by omega) hm

/-- Going through the pairs `i ≤ j` is going through the columns. -/
theorem upper_eq (h : Nat → List α) (n : Nat) :
    ((List.range n).flatMap fun i => (List.range (n - i)).flatMap fun t => h (pairCol n i (i + t))) =
      (List.range (n * (n + 1) / 2)).flatMap h := by
  rw [← Verif.Props.C01_file_order, List.flatMap_map, Verif.Spec.filePairs, List.flatMap_assoc]
  congr 1
  funext i
  rw [List.flatMap_map, List.range'_eq_map_range, List.flatMap_map]

end Blocks

variable {K : Type*} [Field K] [DecidableEq K]

theorem smooth_eq (F : Fns K) (k : Nat) (r : K) : smooth F k r (F.val k r) = fitted F k r := by
  unfold smooth fitted
  cases F.cut k
  · simp
  · rfl

theorem setflApot_length (F : Fns K) (mul : Bool) (k : Nat) (d : K) (n : Nat) (r : K) : (setflApot F mul k d n r).length = n := by
  induction n generalizing r with
  | zero => rfl
  | succ n ih => simp [setflApot, ih]

theorem setflTab_length (F : Fns K) (mul : Bool) (k : Nat) (d eps : K) (last n j : Nat) (r : K) :
    (setflTab F mul k d eps last n j r).length = n := by
  induction n generalizing j r with
  | zero => rfl
  | succ n ih => simp [setflTab, ih]

theorem setflColumn_length (apot : Bool) (F : Fns K) (steps : Nat) (hs : 0 < steps) (mul full : Bool) (d eps : K) (k : Nat) :
    (setflColumn apot F steps mul full d eps k).length = steps := by
  unfold setflColumn
  split
  · exact setflApot_length ..
  · split
    · exact setflTab_length ..
    · rw [List.length_cons, setflTab_length]; omega

theorem setflApot_get (F : Fns K) (mul : Bool) (k : Nat) (d : K) (n m : Nat) (hm : m < n) (r : K) :
    (setflApot F mul k d n r)[m]? = some
      (let x := r + m * d
       let t := smooth F k x (if x = 0 ∧ F.val k x = none then F.val k (x + 1 / 1000) else F.val k x)
       if mul then t.map (x * ·) else t) := by
  induction n generalizing r m with
  | zero => omega
  | succ n ih =>
    cases m with
    | zero => simp [setflApot]
    | succ m =>
      rw [setflApot]
      simp only [List.getElem?_cons_succ]
      rw [ih m (by omega)]
      have : r + d + (m : K) * d = r + ((m + 1 : Nat) : K) * d := by push_cast; ring
      rw [this]

theorem setflTab_get (F : Fns K) (mul : Bool) (k : Nat) (d eps : K) (last n m j : Nat) (hm : m < n) (hl : j + n ≤ last + 1) (r : K) :
    (setflTab F mul k d eps last n j r)[m]? = some
      (let x := if j + m = last then r + m * d - eps else r + m * d
       let t := F.val k x
       if mul then t.map (x * ·) else t) := by
  induction n generalizing r m j with
  | zero => omega
  | succ n ih =>
    cases m with
    | zero => simp [setflTab]
    | succ m =>
      have hj : ¬(j = last) := by omega
      rw [setflTab]
      simp only [List.getElem?_cons_succ, if_neg hj]
      rw [ih m (j + 1) (by omega) (by omega)]
      have h1 : r + d + (m : K) * d = r + ((m + 1 : Nat) : K) * d := by push_cast; ring
      have h2 : j + 1 + m = j + (m + 1) := by omega
      rw [h1, h2]

theorem column_apot (F : Fns K) (steps : Nat) (mul full : Bool) (d eps : K) (k m : Nat) (hm : m < steps)
    (hd : (m : K) * d ≠ 0 ∨ F.val k (m * d) ≠ none) :
    (setflColumn true F steps mul full d eps k)[m]? = some (if mul then (fitted F k (m * d)).map (m * d * ·) else fitted F k (m * d)) := by
  unfold setflColumn
  rw [if_pos rfl, setflApot_get _ _ _ _ _ _ hm]
  have h : ¬((m : K) * d = 0 ∧ F.val k (m * d) = none) := by
    rintro ⟨h1, h2⟩
    rcases hd with h | h
    · exact h h1
    · exact h h2
  simp only [zero_add, if_neg h, smooth_eq]

/-- Value at zero if the function is not defined there. -/
theorem column_apot_zero (F : Fns K) (steps : Nat) (full : Bool) (d eps : K) (k : Nat) (hm : 0 < steps) (hd : F.val k 0 = none) :
    (setflColumn true F steps false full d eps k)[0]? = some (smooth F k 0 (F.val k (1 / 1000))) := by
  unfold setflColumn
  rw [if_pos rfl, setflApot_get _ _ _ _ _ _ hm]
  simp [hd]

theorem column_tab (F : Fns K) (steps : Nat) (mul : Bool) (d eps : K) (k m : Nat) (hm : m < steps) (hz : F.zero k = true ∨ 0 < m) :
    (setflColumn false F steps mul false d eps k)[m]? = some
      (let x := if m = steps - 1 then m * d - eps else m * d
       if mul then (F.val k x).map (x * ·) else F.val k x) := by
  unfold setflColumn
  rw [if_neg (by simp)]
  by_cases h : F.zero k = true
  · rw [if_pos h, setflTab_get _ _ _ _ _ _ _ _ _ hm (by omega)]
    simp only [zero_add]
  · rw [if_neg h]
    obtain ⟨m, rfl⟩ : ∃ q, m = q + 1 := ⟨m - 1, by have := hz.resolve_left h; omega⟩
    rw [List.getElem?_cons_succ]
    simp only [Bool.false_eq_true, if_false]
    rw [setflTab_get _ _ _ _ _ _ _ _ _ (by omega) (by omega)]
    have h1 : (0 : K) + d + (m : K) * d = ((m + 1 : Nat) : K) * d := by push_cast; ring
    rw [h1]
    by_cases h2 : m + 1 = steps - 1
    · have h3 : 0 + m = steps - 1 - 1 := by omega
      simp only [if_pos h2, if_pos h3]
    · have h3 : ¬(0 + m = steps - 1 - 1) := by omega
      simp only [if_neg h2, if_neg h3]

theorem column_tab_begin (F : Fns K) (steps : Nat) (mul full : Bool) (d eps : K) (k : Nat) (hz : F.zero k = false) :
    (setflColumn false F steps mul full d eps k)[0]? = some (some 0) := by
  unfold setflColumn
  simp [hz]

/-- Dipole and quadrupole functions between the first and the last argument. -/
theorem column_full (F : Fns K) (steps : Nat) (d eps : K) (k m : Nat) (h0 : 0 < m) (hm : m + 1 < steps) :
    (setflColumn false F steps false true d eps k)[m]? = some (F.val k (m * d)) := by
  unfold setflColumn
  rw [if_neg (by simp)]
  cases hz : F.zero k
  · obtain ⟨q, rfl⟩ : ∃ q, m = q + 1 := ⟨m - 1, by omega⟩
    simp only [Bool.false_eq_true, if_false, if_true, List.getElem?_cons_succ]
    rw [setflTab_get _ _ _ _ _ _ _ _ _ (by omega) (by omega)]
    have h1 : (0 : K) + d + (q : K) * d = ((q + 1 : Nat) : K) * d := by push_cast; ring
    have h2 : ¬(0 + q = steps - 1) := by omega
    simp only [if_neg h2, h1, Bool.false_eq_true, if_false]
  · have hl : ¬(0 + m = steps - 1) := by omega
    simp only [if_true]
    rw [setflTab_get _ _ _ _ _ _ _ _ _ (by omega) (by omega), if_neg hl]
    simp only [zero_add, Bool.false_eq_true, if_false]

theorem imdLoop_length (f : K → Option K) (arg : K → K) (step : K) (n : Nat) (x : K) : (imdLoop f arg step n x).length = n := by
  induction n generalizing x with
  | zero => rfl
  | succ n ih => simp [imdLoop, ih]

theorem imdLoop_get (f : K → Option K) (arg : K → K) (step : K) (n m : Nat) (hm : m < n) (x : K) :
    (imdLoop f arg step n x)[m]? = some (f (arg (x + m * step))) := by
  induction n generalizing x m with
  | zero => omega
  | succ n ih =>
    cases m with
    | zero => simp [imdLoop]
    | succ m =>
      rw [imdLoop, List.getElem?_cons_succ, ih m (by omega)]
      have : x + step + (m : K) * step = x + ((m + 1 : Nat) : K) * step := by push_cast; ring
      rw [this]

theorem pairApotRows_get (F : Fns K) (idx : Nat) (dr : K) (n m k : Nat) (hm : m < n) (r : K) :
    (pairApotRows F idx dr n k r)[m]? = some (pairApotRow F idx (k + m) (r + m * dr) dr) := by
  induction n generalizing r m k with
  | zero => omega
  | succ n ih =>
    cases m with
    | zero => simp [pairApotRows]
    | succ m =>
      rw [pairApotRows, List.getElem?_cons_succ, ih m (k + 1) (by omega)]
      have h1 : r + dr + (m : K) * dr = r + ((m + 1 : Nat) : K) * dr := by push_cast; ring
      have h2 : k + 1 + m = k + (m + 1) := by omega
      rw [h1, h2]

theorem pairTabRows_get (F : Fns K) (idx : Nat) (dr : K) (steps n m k : Nat) (hm : m < n) (hk : k + n = steps) (r : K) :
    (pairTabRows F idx dr steps n k r)[m]? = some
      (let x := if k + m = steps - 1 then r + m * dr - 1 / 1000000 else r + m * dr
       ⟨k + m + 1, x, F.val idx x, some (F.grad idx x)⟩) := by
  induction n generalizing r m k with
  | zero => omega
  | succ n ih =>
    cases m with
    | zero => simp [pairTabRows]
    | succ m =>
      have hk2 : ¬(k = steps - 1) := by omega
      rw [pairTabRows]
      simp only [List.getElem?_cons_succ, if_neg hk2]
      rw [ih m (k + 1) (by omega) (by omega)]
      have h1 : r + dr + (m : K) * dr = r + ((m + 1 : Nat) : K) * dr := by push_cast; ring
      have h2 : k + 1 + m = k + (m + 1) := by omega
      rw [h1, h2]

theorem pairApotRows_length (F : Fns K) (idx : Nat) (dr : K) (n k : Nat) (r : K) : (pairApotRows F idx dr n k r).length = n := by
  induction n generalizing r k with
  | zero => rfl
  | succ n ih => simp [pairApotRows, ih]

theorem pairTabRows_length (F : Fns K) (idx : Nat) (dr : K) (steps n k : Nat) (r : K) :
    (pairTabRows F idx dr steps n k r).length = n := by
  induction n generalizing r k with
  | zero => rfl
  | succ n ih => simp [pairTabRows, ih]

end Verif.Spec
