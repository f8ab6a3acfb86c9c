/-
C126  Whenever differential evolution is interrupted, the intermediate potential is the best trial vector found so far.
-/
import Verif.Model.TempFileEvo
import Verif.Props.C33

set_option linter.unusedSectionVars false

namespace Verif.Props

open Verif.DiffEvo

variable {K : Type*} [Field K] [LinearOrder K] [IsStrictOrderedRing K] {σ : Type*} {d N : Nat}

/-- What the file has to be, given the costs of the first population and the trial vectors so far: it is missing as long as no trial vector
costs less than the whole first population, and otherwise contains the free parameters of a trial vector which does and which is the best
of all, and the start values of the others. -/
def RightEvo (E : Env K σ d N) (xi : Fin d → K) (costs : List K) (tried : List (Fin d → K)) (file : Option (Fin d → K)) : Prop :=
  (file = none → ∀ z ∈ tried, ∃ c ∈ costs, c ≤ E.obj z) ∧
  ∀ w, file = some w → ∃ y ∈ tried, (∀ j, w (E.idx j) = E.put y (E.idx j)) ∧ (∀ x, (∀ j, E.idx j ≠ x) → w x = xi x) ∧
    (∀ c ∈ costs, E.obj y < c) ∧ ∀ z ∈ tried, E.obj y ≤ E.obj z

/-- Invariant, with `b` the best of the first population. -/
structure EvoInv (E : Env K σ d N) (xi : Fin d → K) (costs : List K) (b : Fin d → K) (st : St K σ d) (f : TempFileEvo.Files K d) :
    Prop where
  low : ∀ c ∈ costs, st.minCost ≤ c
  tried : ∀ z ∈ st.tried, st.minCost ≤ E.obj z
  none : f.file = none → st.best.x = b ∧ ∃ c ∈ costs, c = st.minCost
  some : ∀ w, f.file = some w → (∀ j, w (E.idx j) = st.best.x (E.idx j)) ∧ (∀ x, (∀ j, E.idx j ≠ x) → w x = xi x) ∧
    ∃ y ∈ st.tried, st.best.x = E.put y ∧ st.minCost = E.obj y ∧ ∀ c ∈ costs, E.obj y < c
  snaps : ∀ q ∈ f.snaps, RightEvo E xi costs q.tried q.file

theorem EvoInv.right {E : Env K σ d N} {xi : Fin d → K} {costs : List K} {b : Fin d → K} {st : St K σ d} {f : TempFileEvo.Files K d}
    (h : EvoInv E xi costs b st f) : RightEvo E xi costs st.tried f.file := by
  constructor
  · intro hn z hz
    obtain ⟨-, c, hc, e⟩ := h.none hn
    exact ⟨c, hc, e ▸ h.tried z hz⟩
  · intro w hw
    obtain ⟨h1, h2, y, hy, h3, h4, h5⟩ := h.some w hw
    exact ⟨y, hy, fun j => by rw [h1 j, h3], h2, h5, fun z hz => h4 ▸ h.tried z hz⟩

theorem evo_one [NeZero N] {E : Env K σ d N} {xi : Fin d → K} {costs : List K} {b : Fin d → K} (pop : List (Ind K d)) (i : Nat)
    (p : Ind K d) (c : K) {st : St K σ d} {f : TempFileEvo.Files K d} (h : EvoInv E xi costs b st f) :
    EvoInv E xi costs b (E.one pop i p c st).2 (TempFileEvo.one E xi pop i p c st f) := by
  have htr : (E.one pop i p c st).2.trial = E.put (E.mkTrial pop i p st).2.x ∧
      (E.one pop i p c st).2.tried = (E.mkTrial pop i p st).2.x :: st.tried := by
    unfold Env.one
    simp only
    split <;> exact ⟨rfl, rfl⟩
  have key : ∀ snaps, (∀ q ∈ snaps, RightEvo E xi costs q.tried q.file) →
      EvoInv E xi costs b (E.one pop i p c st).2 ⟨(TempFileEvo.one E xi pop i p c st f).file, snaps⟩ := by
    intro snaps hs
    unfold TempFileEvo.one
    simp only
    by_cases hc : E.obj (E.mkTrial pop i p st).2.x < st.minCost
    · rw [if_pos hc]
      have hb : (E.one pop i p c st).2.best.x = E.put (E.mkTrial pop i p st).2.x ∧
          (E.one pop i p c st).2.minCost = E.obj (E.mkTrial pop i p st).2.x := by
        unfold Env.one
        simp only
        rw [if_pos hc]
        exact ⟨rfl, rfl⟩
      refine ⟨fun e he => by rw [hb.2]; exact hc.le.trans (h.low e he), ?_, fun e => by simp at e, ?_, hs⟩
      · intro z hz
        rw [htr.2] at hz
        rw [hb.2]
        rcases List.mem_cons.1 hz with rfl | hz
        · exact le_rfl
        · exact hc.le.trans (h.tried z hz)
      · rintro w ⟨⟩
        refine ⟨fun j => ?_, fun x hx => ?_, (E.mkTrial pop i p st).2.x, by rw [htr.2]; simp, hb.1, hb.2,
          fun e he => lt_of_lt_of_le hc (h.low e he)⟩
        · unfold TempFileEvo.written
          rw [if_pos ⟨j, rfl⟩, htr.1, hb.1]
        · unfold TempFileEvo.written
          exact if_neg fun ⟨j, e⟩ => hx j e
    · rw [if_neg hc]
      have hb : (E.one pop i p c st).2.best = st.best ∧ (E.one pop i p c st).2.minCost = st.minCost := by
        unfold Env.one
        simp only
        rw [if_neg hc]
        exact ⟨rfl, rfl⟩
      refine ⟨by rw [hb.2]; exact h.low, ?_, by rw [hb.1, hb.2]; exact h.none, ?_, hs⟩
      · intro z hz
        rw [htr.2] at hz
        rw [hb.2]
        rcases List.mem_cons.1 hz with rfl | hz
        · exact not_lt.1 hc
        · exact h.tried z hz
      · intro w hw
        obtain ⟨h1, h2, y, hy, h3⟩ := h.some w hw
        rw [hb.1, hb.2, htr.2]
        exact ⟨h1, h2, y, by simp [hy], h3⟩
  refine key _ ?_
  intro q hq
  rcases List.mem_cons.1 hq with rfl | hq
  · exact (key [] (by simp)).right
  · exact h.snaps q hq

theorem evo_sweep [NeZero N] {E : Env K σ d N} {xi : Fin d → K} {costs : List K} {b : Fin d → K} (pop : List (Ind K d)) (i : Nat)
    (ps : List (Ind K d)) (cs : List K) {st : St K σ d} {f : TempFileEvo.Files K d} (h : EvoInv E xi costs b st f) :
    EvoInv E xi costs b (E.sweep pop i ps cs st).2 (TempFileEvo.sweep E xi pop i ps cs st f) := by
  induction ps generalizing i cs st f with
  | nil =>
    unfold Env.sweep TempFileEvo.sweep
    exact h
  | cons p ps ih =>
    cases cs with
    | nil =>
      unfold Env.sweep TempFileEvo.sweep
      exact h
    | cons c cs =>
      unfold Env.sweep TempFileEvo.sweep
      exact ih _ _ (evo_one pop i p c h)

theorem evo_generation [NeZero N] {E : Env K σ d N} {xi : Fin d → K} {costs : List K} {b : Fin d → K} (g : Gen K σ d)
    {f : TempFileEvo.Files K d} (h : EvoInv E xi costs b g.st f) :
    EvoInv E xi costs b (E.generation g).st
      (TempFileEvo.sweep E xi g.rows.pop 0 g.rows.pop g.rows.cost { g.st with maxCost := 0 } f) := by
  have h0 : EvoInv E xi costs b { g.st with maxCost := 0 } f := ⟨h.low, h.tried, h.none, h.some, h.snaps⟩
  have h := evo_sweep g.rows.pop 0 g.rows.pop g.rows.cost h0
  generalize TempFileEvo.sweep E xi g.rows.pop 0 g.rows.pop g.rows.cost { g.st with maxCost := 0 } f = f' at h ⊢
  unfold Env.generation
  simp only
  generalize E.sweep g.rows.pop 0 g.rows.pop g.rows.cost { g.st with maxCost := 0 } = r at h
  split
  · split
    · split <;> exact ⟨h.low, h.tried, h.none, h.some, h.snaps⟩
    · exact ⟨h.low, h.tried, h.none, h.some, h.snaps⟩
  · exact h

theorem evo_loop [NeZero N] {E : Env K σ d N} {xi : Fin d → K} {costs : List K} {b : Fin d → K} (fuel : Nat) {g g' : Gen K σ d}
    {f f' : TempFileEvo.Files K d} (h : EvoInv E xi costs b g.st f) (hr : TempFileEvo.loop E xi fuel g f = some (g', f')) :
    EvoInv E xi costs b g'.st f' := by
  induction fuel generalizing g f with
  | zero => cases hr
  | succ fuel ih =>
    unfold TempFileEvo.loop at hr
    simp only at hr
    split at hr
    · split at hr
      · cases hr
        exact evo_generation g h
      · exact ih (evo_generation g h) hr
    · cases hr
      exact h

/-- **C126.** Differential evolution with a name for the intermediate potential, some individual of the first population costing less than
`10e10`: whenever the program is stopped, the file is right in the sense of `RightEvo`, and at the end it contains the free parameters that
are returned or is missing because these are the ones of the best of the first population.  Missing from the full claim: individuals of
the first population (`C126_first_violated`) and of opposition steps (as in `C33_jump_violated`) are never written. -/
theorem C126_file_partial [NeZero N] (E : Env K σ d N) (xi : Fin d → K) (rng : σ) (fuel : Nat)
    (hc : ∃ c ∈ (E.start rng xi).rows.cost, c < 10 * 10 ^ 10)
    (x : Fin d → K) (g : Gen K σ d) (f : TempFileEvo.Files K d) (hr : TempFileEvo.run E fuel rng xi = some (x, some g, f)) :
    (∀ q ∈ f.snaps, RightEvo E xi (E.start rng xi).rows.cost q.tried q.file) ∧
    RightEvo E xi (E.start rng xi).rows.cost g.st.tried f.file ∧
    (∀ w, f.file = some w → ∀ j, w (E.idx j) = x (E.idx j)) ∧
    (f.file = none → ∃ a ∈ (E.start rng xi).rows.cost.zip (E.start rng xi).rows.pop, a.2.x = x ∧
      ∀ c ∈ (E.start rng xi).rows.cost, a.1 ≤ c) := by
  unfold TempFileEvo.run at hr
  split at hr
  · cases hr
  · obtain ⟨⟨g', f'⟩, hg, he⟩ := Option.map_eq_some_iff.1 hr
    cases he
    have hok := start_costs E rng xi
    obtain ⟨c, hcm, hlt⟩ := hc
    have hsc := scan_spec (E.start rng xi).rows.pop (E.start rng xi).rows.cost hok.2.1 ⟨fun _ => 0, 0, 0⟩ (10 * 10 ^ 10) 0
    have hst : (E.start rng xi).st.minCost = (scan (E.start rng xi).rows.pop (E.start rng xi).rows.cost
        ⟨fun _ => 0, 0, 0⟩ (10 * 10 ^ 10) 0).2.1 ∧ (E.start rng xi).st.best = (scan (E.start rng xi).rows.pop
        (E.start rng xi).rows.cost ⟨fun _ => 0, 0, 0⟩ (10 * 10 ^ 10) 0).1 ∧ (E.start rng xi).st.tried = [] :=
      ⟨rfl, rfl, rfl⟩
    simp only at hsc
    rw [← hst.1, ← hst.2.1] at hsc
    obtain ⟨_, h2, h3⟩ := hsc
    have h4 : ((E.start rng xi).st.minCost, (E.start rng xi).st.best) ∈ (E.start rng xi).rows.cost.zip (E.start rng xi).rows.pop := by
      rcases h3 with ⟨h3, _⟩ | h3
      · exact absurd (h2 c hcm) (by rw [h3]; exact not_le.2 hlt)
      · exact h3
    have h0 : EvoInv E xi (E.start rng xi).rows.cost (E.start rng xi).st.best.x (E.start rng xi).st ⟨none, []⟩ :=
      ⟨h2, by rw [hst.2.2]; simp, fun _ => ⟨rfl, _, (List.of_mem_zip h4).1, rfl⟩, by simp, by simp⟩
    have h := evo_loop fuel h0 hg
    refine ⟨h.snaps, h.right, fun w hw => (h.some w hw).1, fun hn => ⟨_, h4, (h.none hn).1.symm, h2⟩⟩

/-- **C126, no influence.** The file does not influence the evolution. -/
theorem C126_erase [NeZero N] (E : Env K σ d N) (fuel : Nat) (rng : σ) (xi : Fin d → K) :
    (TempFileEvo.run E fuel rng xi).map (fun r => (r.1, r.2.1)) = E.run fuel rng xi := by
  have hl : ∀ (n : Nat) (g : Gen K σ d) (f : TempFileEvo.Files K d), (TempFileEvo.loop E xi n g f).map Prod.fst = E.loop n g := by
    intro n
    induction n with
    | zero => intro g f; rfl
    | succ n ih =>
      intro g f
      unfold TempFileEvo.loop Env.loop
      simp only
      split
      · split
        · rfl
        · exact ih _ _
      · rfl
  unfold TempFileEvo.run Env.run
  split
  · rfl
  · rw [← hl fuel (E.start rng xi) ⟨none, []⟩, Option.map_map, Option.map_map]
    rfl

/-- One parameter with objective equal to its value; all normal random numbers are -3, so that the first population consists of the
start, individuals at the lower bound and their opposites. -/
def firstEnv : Env ℚ Nat 1 1 where
  obj := fun x => x 0
  idx := fun _ => 0
  lo := fun _ => 0
  hi := fun _ => 10
  apot := true
  draw := fun s => (s, 0)
  norm := fun s => (s, -3)
  pick := fun s _ => (s, 0, 1)
  pickJ := fun s => (s, 0)
  flag := fun _ => true
  thr := 1 / 2

/-- **C126, first population: violated.** The evolution ends with the parameter 0, found in the first population, in place of 5, and has
not written the file. -/
theorem C126_first_violated : ∃ x g f, TempFileEvo.run firstEnv 1 0 (fun _ => 5) = some (x, some g, f) ∧
    firstEnv.obj x < firstEnv.obj (fun _ => 5) ∧ f.file = none := by
  have h : (TempFileEvo.run firstEnv 1 0 (fun _ => 5)).any (fun r => r.2.1.isSome && decide (r.1 0 < 5) && r.2.2.file.isNone) = true := by
    decide +kernel
  cases hr : TempFileEvo.run firstEnv 1 0 (fun _ => 5) with
  | none => rw [hr] at h; cases h
  | some r =>
    obtain ⟨x, g, f⟩ := r
    rw [hr] at h
    cases g with
    | none => simp at h
    | some g =>
      simp only [Option.any_some, Bool.and_eq_true, decide_eq_true_eq, Option.isNone_iff_eq_none] at h
      exact ⟨x, g, f, rfl, h.1.2, h.2⟩

/-- A table with a free and a fixed entry; the first population consists of 5 and copies of -30, the best value is 30. -/
def spreadEnv : Env ℚ Nat 2 1 where
  obj := fun x => (x 0 - 30) * (x 0 - 30)
  idx := fun _ => 0
  lo := fun _ => 0
  hi := fun _ => 0
  apot := false
  draw := fun s => (s + 1, if s < 2 * np 2 then 9 / 10 else 1 / 5)
  norm := fun s => (s, 0)
  pick := fun s _ => (s, 0, 1)
  pickJ := fun s => (s, 0)
  flag := fun _ => true
  thr := 1 / 2

/-- The file is written, with a better value than that of the start and the fixed entry of the start. -/
example : (∃ c ∈ (spreadEnv.start 0 ![5, 7]).rows.cost, c < 10 * 10 ^ 10) ∧
    (TempFileEvo.run spreadEnv 1 0 ![5, 7]).any (fun r => r.2.1.isSome &&
      r.2.2.file.any (fun w => decide ((w 0 - 30) * (w 0 - 30) < 625 ∧ w 1 = 7 ∧ w 0 = r.1 0)) && decide (r.2.2.snaps.length = 60)) = true := by
  decide +kernel

end Verif.Props
