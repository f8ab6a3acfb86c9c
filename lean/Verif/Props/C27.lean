/-
C27  Bracketing and line minimisation terminate.
-/
import Verif.Props.C26

set_option linter.unusedSectionVars false

namespace Verif.Props

open Verif.LineSearch

variable {K : Type*} [Field K] [LinearOrder K] [IsStrictOrderedRing K] {V : Type*}

/-- A run ends, with a result or an error exit, and the number of evaluations is between `lo` and `hi`. -/
def Ends {α : Type*} (seen : α → List K) (lo hi : Nat) : Except (Stop K) α → Prop
  | .ok a => lo ≤ (seen a).length ∧ (seen a).length ≤ hi
  | .error (.abort l) => lo ≤ l.length ∧ l.length ≤ hi
  | .error .fuel => False

theorem turn_count (F : K → K × V) (s : Br K V) :
    (s.turn F).nb = s.nb + 1 ∧ (s.turn F).seen.length = s.seen.length + 1 := by
  unfold Br.turn
  repeat' split
  all_goals simp [Br.evalLeft, Br.evalRight, Br.goLeft, Br.goRight]

/-- The counter of `bracket` counts the evaluations, and the bound on the recursion in the model is never met. -/
theorem brLoop_ends (F : K → K × V) (n : Nat) (s : Br K V) (h : s.seen.length = s.nb) (h1 : 1 ≤ s.nb)
    (hb : s.nb < maxIt) (hn : maxIt - s.nb ≤ n) : Ends (fun t => t.seen) 1 maxIt (brLoop F n s) := by
  induction n generalizing s with
  | zero => omega
  | succ n ih =>
    obtain ⟨t1, t2⟩ := turn_count F s
    unfold brLoop
    split
    · simp only [Ends]; omega
    · split
      · exact ih _ (by omega) (by omega) (by omega) (by omega)
      · simp only [Ends]; omega

theorem ends_map {α β : Type*} {seen : α → List K} {seen' : β → List K} {lo hi : Nat} {x : Except (Stop K) α} {f : α → β}
    (hf : ∀ a, seen' (f a) = seen a) (h : Ends seen lo hi x) : Ends seen' lo hi (x.map f) := by
  match x, h with
  | .ok a, h =>
    show _ ∧ _
    rw [hf]; exact h
  | .error (.abort l), h => exact h
  | .error .fuel, h => exact h

/-- Bracketing makes between 1 and `MAX_IT` evaluations. -/
theorem C27_bracket (F : K → K × V) (xl xr fl fr : K) (b : Fin 3 → V) :
    Ends (fun t => t.seen) 1 100 (bracket F xl xr fl fr b) := by
  unfold bracket
  refine ends_map (seen := fun t => t.seen) (fun _ => rfl) ?_
  have : (brStart F xl xr fl fr b).nb = 1 ∧ (brStart F xl xr fl fr b).seen.length = 1 := by
    unfold brStart
    split <;> simp [Br.evalLeft, Br.evalRight]
  refine brLoop_ends F maxIt _ (by omega) (by omega) (by rw [this.1]; decide) (by omega)

theorem accept_seen (F : K → K × V) (s : Bt K V) (u : K) : (s.accept F u).seen = u :: s.seen := by
  unfold Bt.accept
  simp only
  by_cases h : u < s.z
  · simp only [h, if_true]
    repeat' split
    all_goals rfl
  · simp only [h, if_false]
    repeat' split
    all_goals rfl

theorem btLoop_ends (F : K → K × V) (tol : K) (n : Nat) (s : Bt K V) :
    Ends (fun t => t.seen) s.seen.length (s.seen.length + n) (btLoop F tol n s) := by
  induction n generalizing s with
  | zero => simp [btLoop, Ends]
  | succ n ih =>
    unfold btLoop
    split
    · simp [Ends]
    · have h := ih (s.turn F tol)
      have hs : (s.turn F tol).seen.length = s.seen.length + 1 := by
        unfold Bt.turn
        rw [accept_seen]; rfl
      revert h
      rw [hs]
      generalize btLoop F tol n (s.turn F tol) = x
      match x with
      | .ok a => simp only [Ends]; omega
      | .error (.abort l) => simp only [Ends]; omega
      | .error .fuel => simp only [Ends]; exact id

/-- Line minimisation makes between 1 and `ITMAX + 1` evaluations. -/
theorem C27_brent (F : K → K × V) (ax bx cx fbx tol : K) (b : Fin 3 → V) :
    Ends (fun t => t.seen) 1 101 (brent F ax bx cx fbx tol b) := by
  unfold brent
  exact ends_map (seen := fun t => t.seen) (fun _ => rfl) (btLoop_ends F tol 100 (btStart F ax bx cx fbx b))

/-- **C27.** A line search makes at most 202 evaluations of the objective, whatever the objective is. -/
theorem C27_linmin {ι : Type*} (obj : (ι → K) → K × V) (xi del : ι → K) (fxi1 : K) (fret1 junk junk' : V) :
    Ends (fun r => r.seen) 2 202 (linmin obj xi del fxi1 fret1 junk junk') := by
  have h1 := C27_bracket (along obj xi del) 0 (1 / 10) fxi1 (along obj xi del (1 / 10)).1
    ![fret1, (along obj xi del (1 / 10)).2, junk]
  unfold linmin
  simp only
  revert h1
  generalize bracket (along obj xi del) 0 (1 / 10) fxi1 (along obj xi del (1 / 10)).1
    ![fret1, (along obj xi del (1 / 10)).2, junk] = x
  match x with
  | .error .fuel => exact id
  | .error (.abort l) => simp only [Ends, List.length_append, List.length_singleton]; omega
  | .ok s =>
    intro h1
    have h2 := C27_brent (along obj xi del) s.xl s.xc s.xr s.fc (1 / 10) ![s.buf 0, s.buf 1, junk']
    simp only
    revert h2
    generalize brent (along obj xi del) s.xl s.xc s.xr s.fc (1 / 10) ![s.buf 0, s.buf 1, junk'] = y
    simp only [Ends] at h1
    match y with
    | .error .fuel => exact id
    | .error (.abort l) => simp only [Ends, List.length_append, List.length_singleton]; omega
    | .ok t => simp only [Ends, List.length_append, List.length_singleton]; omega

/-- Both ends occur: the parabola of C26 is minimised with a few evaluations, a constant objective uses up all of them and
ends the program. -/
example : (match linmin sampleObj ![0] ![2] 4 (-1) 0 0 with
    | .ok r => decide (r.seen.length < 30)
    | .error _ => false) = true := by decide +kernel

example : (match linmin (fun _ : Fin 1 → ℚ => ((5 : ℚ), ())) ![0] ![2] 5 () () () with
    | .ok _ => false
    | .error (.abort l) => decide (l.length = 101)
    | .error .fuel => false) = true := by decide +kernel

end Verif.Props
