/-
C73: tables for IMD.
-/
import Verif.Lemmas.TableOut
import Verif.Lemmas.ApotLayout
import Verif.Props.C09
import Mathlib.Algebra.Order.BigOperators.Group.List
import Mathlib.Tactic.NormNum
import Mathlib.Tactic.Linarith

set_option linter.unusedSectionVars false

namespace Verif.Props

open Verif.TableOut Verif.Spec Verif.PairIndex

/-- Columns of the potential table, in the order of the file: pair functions, densities, embedding functions, two more lots of pair functions
(ADP) or pair functions and angular functions (MEAM). -/
theorem C73_columns (n i j : Nat) :
    imdPhi n i j = pairCol n i j ∧ imdRho n i j = paircol n + j ∧ n * (n + 3) / 2 + i = paircol n + n + i ∧
    imdUpot n i j = paircol n + 2 * n + pairCol n i j ∧ imdWpot n i j = 2 * paircol n + 2 * n + pairCol n i j ∧
    imdF n i j = paircol n + 2 * n + pairCol n i j ∧ n * (n + 3) + i = 2 * paircol n + 2 * n + i := by
  have h := paircol_two n
  have h1 : n * (n + 3) = n * (n + 1) + 2 * n := by ring
  have h2 : n * (n + 5) = n * (n + 1) + 4 * n := by ring
  have hc : imdCol n i j = pairCol n i j := C01_imd_agrees
  unfold imdPhi imdRho imdUpot imdWpot imdF
  rw [hc]
  unfold paircol at *
  refine ⟨rfl, rfl, by omega, by omega, by omega, by omega, by omega⟩

section

variable {K : Type*} [Field K] [DecidableEq K]

theorem imdPair_block (F : Fns K) (n steps : Nat) (sqrt : K → K) (col : Nat → Nat → Nat) (lo fin : Nat → K) (i j m : Nat) (hi : i < n) (hj : j < n)
    (hm : m < steps + 1) :
    imdValue (imdPair F n steps sqrt col lo fin) steps (i * n + j) m =
      (imdLoop (fun r => smooth F (col i j) r (F.val (col i j) r)) sqrt ((fin (col i j) * fin (col i j) - lo (col i j) * lo (col i j)) / steps) steps
        (lo (col i j) * lo (col i j)) ++ [some 0])[m]? := by
  let g : Nat → Nat → List (Option K) := fun i j =>
    imdLoop (fun r => smooth F (col i j) r (F.val (col i j) r)) sqrt ((fin (col i j) * fin (col i j) - lo (col i j) * lo (col i j)) / steps) steps
        (lo (col i j) * lo (col i j)) ++ [some 0]
  have hg : ∀ i j, (g i j).length = steps + 1 := fun i j => by simp [g, imdLoop_length]
  have h1 := block_get (fun i => (List.range n).flatMap (g i)) (n * (steps + 1)) n i (j * (steps + 1) + m) (fun i => block_length _ _ _ (hg i)) hi
    (by
      have := Nat.mul_le_mul_right (steps + 1) (Nat.succ_le_of_lt hj)
      rw [Nat.succ_mul] at this
      omega)
  rw [block_get (g i) (steps + 1) n j m (hg i) hj hm] at h1
  unfold imdValue
  rw [show (i * n + j) * (steps + 1) + m = i * (n * (steps + 1)) + (j * (steps + 1) + m) by ring]
  exact h1

/-- Files over squared distances: the column for types `i`, `j` has the values used in the fit at equidistant squared distances, except for the
last one. -/
theorem C73_pair (F : Fns K) (n steps : Nat) (sqrt : K → K) (col : Nat → Nat → Nat) (lo fin : Nat → K) (i j m : Nat) (hi : i < n) (hj : j < n)
    (hm : m < steps) :
    let k := col i j
    ∃ info, (imdPair F n steps sqrt col lo fin).info[i * n + j]? = some info ∧ info.beg = lo k * lo k ∧ info.fin = fin k * fin k ∧
      info.step = (info.fin - info.beg) / steps ∧
      imdValue (imdPair F n steps sqrt col lo fin) steps (i * n + j) m = some (fitted F k (sqrt (info.beg + m * info.step))) := by
  intro k
  refine ⟨⟨lo k * lo k, fin k * fin k, (fin k * fin k - lo k * lo k) / steps⟩, ?_, rfl, rfl, rfl, ?_⟩
  · have h := block_get (fun i => (List.range n).map fun j => imdInfo steps (lo (col i j) * lo (col i j)) (fin (col i j) * fin (col i j))) n n i j
      (fun c => by simp) hi hj
    refine h.trans ?_
    simp [hj, imdInfo, k]
  · rw [imdPair_block F n steps sqrt col lo fin i j m hi hj (by omega), List.getElem?_append_left (by rw [imdLoop_length]; exact hm), imdLoop_get _ _ _ _ _ hm, smooth_eq]

/-- The argument of the last value is the end of the potential. -/
theorem C73_last [CharZero K] (steps : Nat) (hs : 0 < steps) (b e : K) : (imdInfo steps b e).beg + steps * (imdInfo steps b e).step = (imdInfo steps b e).fin := by
  have : (steps : K) ≠ 0 := Nat.cast_ne_zero.2 (by omega)
  unfold imdInfo
  simp only
  rw [mul_div_cancel₀ _ this]
  ring

/-- The last value is zero, whatever the potential. -/
theorem C73_end_violated (F : Fns K) (n steps : Nat) (sqrt : K → K) (col : Nat → Nat → Nat) (lo fin : Nat → K) (i j : Nat) (hi : i < n) (hj : j < n) :
    imdValue (imdPair F n steps sqrt col lo fin) steps (i * n + j) steps = some (some 0) := by
  rw [imdPair_block F n steps sqrt col lo fin i j steps hi hj (by omega), List.getElem?_append_right (by rw [imdLoop_length]), imdLoop_length]
  simp

/-- Files over the argument: equidistant arguments from the first to the last. -/
theorem C73_type (f : Nat → K → Option K) (n steps off : Nat) (lo fin : Nat → K) (i m : Nat) (hi : i < n) (hm : m ≤ steps) :
    ∃ info, (imdType f n steps off lo fin).info[i]? = some info ∧ info.beg = lo (off + i) ∧ info.fin = fin (off + i) ∧
      info.step = (info.fin - info.beg) / steps ∧
      imdValue (imdType f n steps off lo fin) steps i m = some (f (off + i) (info.beg + m * info.step)) := by
  refine ⟨⟨lo (off + i), fin (off + i), (fin (off + i) - lo (off + i)) / steps⟩, ?_, rfl, rfl, rfl, ?_⟩
  · simp [imdType, hi, imdInfo]
  · unfold imdValue imdType
    rw [block_get _ (steps + 1) n i m (fun c => imdLoop_length ..) hi (by omega), imdLoop_get _ _ _ _ _ (by omega)]
    rfl

/-- Analytic embedding functions without smooth cutoff are written as used in the fit. -/
theorem C73_embed_partial (F : Fns K) (n steps : Nat) (fin : Nat → K) (i m : Nat) (hi : i < n) (hm : m ≤ steps) (hc : F.cut (paircol n + n + i) = none) :
    imdValue (imdEmbedApot F n steps fin) steps i m = some (fitted F (paircol n + n + i) (m * (fin (paircol n + n + i) / steps))) := by
  obtain ⟨info, _, h2, h3, h4, h5⟩ := C73_type F.val n steps (n * (n + 3) / 2) (fun _ => 0) fin i m hi hm
  have hcol := (C73_columns n i 0).2.2.1
  unfold imdEmbedApot
  rw [h5, h4, h2, h3, hcol]
  unfold fitted
  rw [hc]
  simp

/-- With smooth cutoff the embedding functions are written without it. -/
theorem C73_embed_violated (F : Fns K) (n steps : Nat) (fin : Nat → K) (i m : Nat) (hi : i < n) (hm : m ≤ steps) :
    imdValue (imdEmbedApot F n steps fin) steps i m = some (F.val (paircol n + n + i) (m * (fin (paircol n + n + i) / steps))) := by
  obtain ⟨info, _, h2, h3, h4, h5⟩ := C73_type F.val n steps (n * (n + 3) / 2) (fun _ => 0) fin i m hi hm
  have hcol := (C73_columns n i 0).2.2.1
  unfold imdEmbedApot
  rw [h5, h4, h2, h3, hcol]
  simp

end

section

variable {K : Type*} [Field K] [LinearOrder K] [IsStrictOrderedRing K]

/-- Tabulated embedding functions: the interpolated (or extrapolated) value within the table and below; above it a cubic is added. -/
theorem C73_embed_table (F : Fns K) (n steps : Nat) (ext beg fin : Nat → K) (i m : Nat) (hi : i < n) (hm : m ≤ steps) :
    let k := paircol n + n + i
    let x := beg k - ext k + m * ((fin k + ext k - (beg k - ext k)) / steps)
    imdValue (imdEmbedTab F n steps ext beg fin) steps i m =
      some (if x ≤ fin k then F.val k x else (F.val k x).map (· + 500 * (x - fin k) ^ 3)) := by
  intro k x
  obtain ⟨info, _, h2, h3, h4, h5⟩ := C73_type (fun k x => (F.val k x).map fun t => t + if 0 < x - fin k then 500 * ((x - fin k) * (x - fin k) * (x - fin k)) else 0)
    n steps (n * (n + 3) / 2) (fun k => beg k - ext k) (fun k => fin k + ext k) i m hi hm
  have hcol : n * (n + 3) / 2 + i = k := (C73_columns n i 0).2.2.1
  unfold imdEmbedTab
  rw [h5, h4, h2, h3, hcol]
  change some ((F.val k x).map fun t => t + if 0 < x - fin k then 500 * ((x - fin k) * (x - fin k) * (x - fin k)) else 0) = _
  by_cases h : x ≤ fin k
  · have h0 : ¬(0 < x - fin k) := by linarith [h]
    rw [if_pos h]
    simp only [if_neg h0, add_zero, Option.map_id']
  · have h0 : 0 < x - fin k := by linarith [not_le.1 h]
    rw [if_neg h]
    simp only [if_pos h0]
    congr 2
    funext t
    ring

/-- Tabulated angular functions: the routine interpolates as `splint_ne` does. -/
theorem C73_angle_table (x d2 : Nat → K) (first last : Nat → Nat) (tab : List K) (n steps : Nat) (beg fin : Nat → K) (i m : Nat) (hi : i < n) (hm : m ≤ steps) :
    let k := 2 * paircol n + 2 * n + i
    imdValue (imdAngle x d2 first last tab n steps beg fin) steps i m =
      some (splintOf x d2 first last tab k (beg k + m * ((fin k - beg k) / steps))) := by
  intro k
  obtain ⟨info, _, h2, h3, h4, h5⟩ := C73_type (splintOf x d2 first last tab) n steps (n * (n + 3)) beg fin i m hi hm
  have hcol : n * (n + 3) + i = k := (C73_columns n i 0).2.2.2.2.2.2
  unfold imdAngle
  rw [h5, h4, h2, h3, hcol]

/-- Analytic angular functions: as long as no potential has more than 100 parameters, every value is taken from outside of the list of
parameters. -/
theorem C73_angle_violated (f : ApotLayout.File K) (hx : f.extra = .none) (hg : f.globals = []) (n : Nat) (hn : f.fns.length = 2 * paircol n + 3 * n)
    (hp : ∀ g ∈ f.fns, g.pars.length ≤ 100) (x d2 : Nat → K) (steps : Nat) (beg fin : Nat → K) (i m : Nat) (hi : i < n) (hm : m ≤ steps) :
    imdValue (imdAngle x d2 calcFirst calcLast (ApotLayout.table f) n steps beg fin) steps i m = some none := by
  rw [C73_angle_table x d2 calcFirst calcLast _ n steps beg fin i m hi hm]
  unfold splintOf
  have hlen : (ApotLayout.table f).length ≤ calcFirst (2 * paircol n + 2 * n + i) := by
    have hfit : Fits f := by unfold Fits; rw [hx]; trivial
    have h1 : (ApotLayout.build f).table.length ≤ ApotLayout.len f := by rw [build_table, List.length_map]; exact cells_length_le f hfit
    have h2 : (ApotLayout.table f).length = ApotLayout.len f := by
      unfold ApotLayout.table
      rw [List.length_append, List.length_replicate]
      omega
    have h3 : ApotLayout.len f = 2 * f.fns.length + (f.fns.map fun g => g.pars.length).sum := by
      unfold ApotLayout.len
      rw [hx, hg, lastEnd_sum]
      simp
    have h4 : (f.fns.map fun g => g.pars.length).sum ≤ f.fns.length * 100 := by
      have := List.sum_le_card_nsmul (f.fns.map fun g => g.pars.length) 100 (by
        intro y hy
        obtain ⟨g, hg, rfl⟩ := List.mem_map.1 hy
        exact hp g hg)
      simpa using this
    rw [h2, h3]
    unfold calcFirst
    omega
  have hb := (C09_adjacent x (beg (2 * paircol n + 2 * n + i) + m * ((fin (2 * paircol n + 2 * n + i) - beg (2 * paircol n + 2 * n + i)) / steps))
    (calcFirst (2 * paircol n + 2 * n + i)) (calcLast (2 * paircol n + 2 * n + i)) (by unfold calcFirst calcLast; omega)).2.1
  simp only
  rw [List.getElem?_eq_none (by omega)]
  rfl

end

/-! Examples. -/

def imdFns : Fns ℚ where
  val k r := some (k + r)
  cut k := if k = 2 then some fun r => r / 4 else none
  grad _ _ := 1
  zero _ := true

/-- Square root of the squares used below. -/
def root (x : ℚ) : ℚ := if x = 1 then 1 else if x = 4 then 2 else 3

example : (imdPair imdFns 1 2 root (imdPhi 1) (fun _ => 1) (fun _ => 3)).info = [⟨1, 9, 4⟩] ∧
    (imdPair imdFns 1 2 root (imdPhi 1) (fun _ => 1) (fun _ => 3)).vals = [some 1, some 3, some 0] := by decide +kernel

/-- The potential is 3 at its end. -/
theorem C73_end_example_violated :
    imdValue (imdPair imdFns 1 2 root (imdPhi 1) (fun _ => 1) (fun _ => 3)) 2 0 2 = some (some 0) ∧ fitted imdFns (imdPhi 1 0 0) 3 = some 3 := by
  decide +kernel

/-- The embedding function of the fit is 0 at density 0 and 3/4 at density 1, the table has 2 and 3. -/
theorem C73_embed_example_violated :
    (imdEmbedApot imdFns 1 4 (fun _ => 4)).vals = [some 2, some 3, some 4, some 5, some 6] ∧
    fitted imdFns 2 0 = some 0 ∧ fitted imdFns 2 1 = some (3 / 4) := by decide +kernel

/-- One element, MEAM: five functions with three parameters each. -/
def meamFile : ApotLayout.File ℚ where
  ntypes := 1
  fns := List.replicate 5 ⟨false, [⟨1, false⟩, ⟨2, false⟩, ⟨3, false⟩]⟩
  extra := .none
  globals := []
  used := false

example : meamFile.fns.length = 2 * paircol 1 + 3 * 1 ∧ ∀ g ∈ meamFile.fns, g.pars.length ≤ 100 := by
  refine ⟨rfl, ?_⟩
  intro g hg
  rw [List.eq_of_mem_replicate hg]
  decide

end Verif.Props
