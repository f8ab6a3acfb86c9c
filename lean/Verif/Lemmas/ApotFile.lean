/-
Lemmas about the text of analytic potential files.
-/
import Verif.Model.ApotFile
import Mathlib.Data.List.TakeWhile
import Mathlib.Tactic.Common

set_option linter.unusedSectionVars false

namespace Verif.ApotFile

open Verif.Apot (Param checkBounds)

variable {K : Type*} [Field K] [LinearOrder K]

theorem seek_append {key : String → Bool} {a : List Line} (b : List Line) (h : ∀ l ∈ a, ∀ w ∈ l.words, key w = false) :
    seek key (a ++ b) = seek key b := by
  induction a with
  | nil => rfl
  | cons l a ih =>
    have hl : l.words.dropWhile (fun w => !key w) = [] := by
      rw [List.dropWhile_eq_nil_iff]
      intro w hw
      rw [h l (by simp) w hw]
      rfl
    rw [List.cons_append]
    simp only [seek, hl]
    exact ih (fun m hm => h m (List.mem_cons_of_mem _ hm))

theorem seek_none {key : String → Bool} {a : List Line} (h : ∀ l ∈ a, ∀ w ∈ l.words, key w = false) : seek key a = none := by
  have := seek_append [] h
  rw [List.append_nil] at this
  rw [this]
  rfl

theorem seek_hit {key : String → Bool} {w : String} (h : Bool) (ws : List String) (ls : List Line) (hk : key w = true) :
    seek key (⟨h, w :: ws⟩ :: ls) = some (⟨h, w :: ws⟩ :: ls) := by
  simp [seek, hk]

theorem scanEntry_line {num : String → Option K} {n v lo hi : String} {a b c : K} (h : Bool) (ls : List Line) (hv : num v = some a)
    (hlo : num lo = some b) (hhi : num hi = some c) :
    scanEntry num (⟨h, [n, v, lo, hi]⟩ :: ls) = (n, [a, b, c], ⟨h, []⟩ :: ls) := by
  simp [scanEntry, nextWord, scanNums, hv, hlo, hhi]

theorem scanEntry_skip {num : String → Option K} (h : Bool) (ls : List Line) (hne : (nextWord ls).isSome = true) :
    scanEntry num (⟨h, []⟩ :: ls) = scanEntry num ls := by
  simp only [scanEntry, nextWord]
  cases hl : nextWord ls with
  | none => rw [hl] at hne; cases hne
  | some r => rfl

theorem globalLoop_line {E : Env K} {k : Nat} {done : List (Entry K)} {h : Bool} {ls : List Line} {n v lo hi : String} {a b c : K}
    (hn : n.length < 30) (hd : ∀ d ∈ done, d.name ≠ n) (hv : E.num v = some a) (hlo : E.num lo = some b) (hhi : E.num hi = some c) :
    globalLoop E (k + 1) done (⟨h, []⟩ :: ⟨false, [n, v, lo, hi]⟩ :: ls) =
      globalLoop E k (done ++ [⟨n, checkBounds E.opt a b c, none⟩]) (⟨false, []⟩ :: ls) := by
  have he : scanEntry E.num (⟨h, []⟩ :: ⟨false, [n, v, lo, hi]⟩ :: ls) = (n, [a, b, c], ⟨false, []⟩ :: ls) := by
    rw [scanEntry_skip _ _ rfl, scanEntry_line false ls hv hlo hhi]
  have hany : done.any (fun d => d.name == n) = false := by
    rw [List.any_eq_false]
    intro d hdm
    simpa using hd d hdm
  simp only [globalLoop, he, if_neg (not_le.2 hn), List.length_cons, List.length_nil, Nat.lt_irrefl, false_and, if_false, hany,
    Bool.false_eq_true, Nat.reduceAdd, List.getD_cons_zero, List.getD_cons_succ]

end Verif.ApotFile
