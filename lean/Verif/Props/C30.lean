/-
C30  Annealing displaces only free parameters.
-/
import Verif.Model.Annealing
import Verif.Model.TableRead

set_option linter.unusedSectionVars false

namespace Verif.Props

open Verif.Annealing

variable {K : Type*} [Field K] [LinearOrder K] [IsStrictOrderedRing K] {ι σ : Type*} [DecidableEq ι] {N : Nat}

/-- Analytic potentials and KIM: a move changes only the chosen parameter. -/
theorem C30_apot (draw : σ → σ × K) (idx : Fin N → ι) (bounds : Fin N → K × K) (s : σ) (n : Fin N) (xi : ι → K)
    (v : Fin N → K) (x : ι) (hx : x ≠ idx n) : (apotMove draw idx bounds s n xi v).2.1 x = xi x := by
  simp [apotMove, Function.update_of_ne hx]

example : (apotMove (fun s : Nat => (s + 1, (3 : ℚ) / 4)) ![2, 5] (fun _ => (0, 1)) 0 1 (fun _ : Nat => (1 : ℚ) / 2)
    (fun _ => 1 / 10)).2.1 5 = 11 / 20 := by decide +kernel

/-- A bump may be placed at entry `x`: it belongs to one of the first `ndim + 1` entries of the memory of the index list. -/
theorem tabLoop_other (mem : Nat → Option Nat) (ndim n lo hi : Nat) (w : Nat → K) (turns : Nat) (xi xi' : Nat → K)
    (h : tabLoop mem ndim n lo hi w turns xi = some xi') (x : Nat)
    (h1 : ∀ k, k < ndim → mem k ≠ some x) (hn : n < ndim) (h2 : ndim < n + turns → mem ndim = some x → ¬ x ≤ hi) :
    xi' x = xi x := by
  induction turns generalizing xi' with
  | zero => simp only [tabLoop, Option.some.injEq] at h; rw [h]
  | succ i ih =>
    unfold tabLoop at h
    cases hl : tabLoop mem ndim n lo hi w i xi with
    | none => rw [hl] at h; cases h
    | some y =>
      rw [hl] at h
      have hy := ih y hl (fun a b => h2 (by omega) b)
      rw [← hy]
      simp only [Option.bind_some, tabStep] at h
      -- the right half
      have right : ∀ z, (if n + i ≤ ndim then
          match mem (n + i) with
          | none => none
          | some a => some (if a ≤ hi then Function.update y a (y a + w i) else y)
        else some y) = some z → z x = y x := by
        intro z hz
        split at hz
        · next hle =>
          split at hz
          · cases hz
          · next a ha =>
            simp only [Option.some.injEq] at hz
            rw [← hz]
            split
            · next hah =>
              rw [Function.update_of_ne]
              rintro rfl
              rcases Nat.lt_or_ge (n + i) ndim with hlt | hge
              · exact h1 _ hlt ha
              · have : n + i = ndim := by omega
                rw [this] at ha
                exact h2 (by omega) ha hah
            · rfl
        · simp only [Option.some.injEq] at hz
          rw [hz]
      revert h right
      generalize (if n + i ≤ ndim then
          match mem (n + i) with
          | none => none
          | some a => some (if a ≤ hi then Function.update y a (y a + w i) else y)
        else some y) = o
      intro h right
      cases o with
      | none => cases h
      | some z =>
        simp only [Option.bind_some] at h
        rw [← right z rfl]
        split at h
        · split at h
          · cases h
          · next a ha =>
            simp only [Option.some.injEq] at h
            rw [← h]
            split
            · rw [Function.update_of_ne]
              rintro rfl
              exact h1 _ (by omega) ha
            · rfl
        · simp only [Option.some.injEq] at h
          rw [h]

/-- **C30 (partial).** Tabulated potentials: the only entry outside the list of free parameters that a move can change is the
one found in the index memory just behind the list, and only if the bump reaches beyond the last free parameter and this entry
does not lie behind the potential. -/
theorem C30_tab_partial (mem : Nat → Option Nat) (ndim : Nat) (pots : List (Nat × Nat)) (w : Nat → K) (turns n : Nat)
    (xi xi' : Nat → K) (hn : n < ndim) (h : tabMove mem ndim pots w turns n xi = some xi') (x : Nat)
    (hx : ∀ k, k < ndim → mem k ≠ some x) (hb : n + turns ≤ ndim ∨ mem ndim ≠ some x) : xi' x = xi x := by
  unfold tabMove at h
  split at h
  · cases h
  · split at h
    · cases h
    · refine tabLoop_other mem ndim n _ _ w turns xi xi' h x hx hn fun h1 h2 => ?_
      rcases hb with hb | hb
      · omega
      · exact absurd h2 hb

/-- The columns of a table with one pair potential of three points: the second and third entries are the free points. -/
def oneColumn : List TableRead.ColSpec := [⟨3, false, 0, false, false⟩]

example : TableRead.idxList oneColumn = [2, 3] ∧ TableRead.layout oneColumn = [(2, 4)] ∧
    TableRead.tableLen oneColumn = 5 := by decide

/-- Hypotheses of `C30_tab_partial` are met by a move of the first point, which also displaces the second one. -/
example : ((tabMove (idxMem [2, 3] 5) 2 [(2, 4)] (fun i => ((1 : ℚ) / (i + 1))) 2 0 (fun _ => 0)).map
    fun xi => [xi 0, xi 1, xi 2, xi 3, xi 4]) = some [0, 0, 2, 1 / 2, 0] := by decide +kernel

/-- **C30: violated** for tabulated potentials. The test `n + i <= ndim` admits one entry behind the list; `Malloc` has set it to
zero, so the move changes entry 0 of the table, the fixed left slope of the first potential. -/
theorem C30_violated : 0 ∉ TableRead.idxList oneColumn ∧
    ((tabMove (idxMem (TableRead.idxList oneColumn) (TableRead.tableLen oneColumn)) (TableRead.idxList oneColumn).length
      (TableRead.layout oneColumn) (fun i => ((1 : ℚ) / (i + 1))) 2 1 (fun _ => 0)).map fun xi => xi 0) = some (1 / 2) := by
  constructor
  · decide
  · decide +kernel

/-- If every entry of the table is free, the read is outside of the allocated block. -/
theorem C30_out_of_bounds (idx : List Nat) (len : Nat) (h : idx.length = len) : idxMem idx len len = none := by
  unfold idxMem
  rw [List.getElem?_eq_none (by omega)]
  simp

end Verif.Props
