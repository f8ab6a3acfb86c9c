/-
C125  Whenever annealing is interrupted, the intermediate potential is the best one found so far.
-/
import Verif.Model.TempFile
import Verif.Props.C29

set_option linter.unusedSectionVars false

namespace Verif.Props

open Verif.Annealing

variable {K : Type*} [Field K] [LinearOrder K] [IsStrictOrderedRing K] {ι σ : Type*} [DecidableEq ι] {N : Nat}

/-- What the file has to be when the points `seen` have been evaluated: it is missing as long as nothing is better than the start, and
otherwise contains one of the evaluated points, which is better than the start and not worse than any other. -/
def RightFile (obj : (ι → K) → K) (x0 : ι → K) (seen : List (ι → K)) (file : Option (ι → K)) : Prop :=
  (file = none → ∀ p ∈ seen, obj x0 ≤ obj p) ∧
  ∀ w, file = some w → w ∈ seen ∧ obj w < obj x0 ∧ ∀ p ∈ seen, obj w ≤ obj p

/-- Invariant: the file contains the recorded optimum, and all snapshots are right. -/
structure FileInv (E : Env K ι σ N) (x0 : ι → K) (s : TempFile.FSt K ι σ N) : Prop where
  best : Best E x0 s.st
  same : s.st.xiOpt = s.file.getD x0
  right : RightFile E.obj x0 s.st.seen s.file
  snaps : ∀ q ∈ s.snaps, RightFile E.obj x0 q.seen q.file

theorem file_step {E : Env K ι σ N} (ho : OneOnly E) {x0 : ι → K} (T : K) {s : TempFile.FSt K ι σ N} (h : FileInv E x0 s)
    (i : Fin N) : FileInv E x0 (TempFile.step E true T s i) := by
  have hb := step_best ho T h.best i
  have hnew : (if E.apot = true then Function.update s.st.xi (E.idx i) ((E.move s.st.rng i s.st.xi s.st.v).2.1 (E.idx i))
      else (E.move s.st.rng i s.st.xi s.st.v).2.1) = (E.move s.st.rng i s.st.xi s.st.v).2.1 := by
    split
    · next ha =>
      funext x
      by_cases hx : x = E.idx i
      · rw [hx, Function.update_self]
      · rw [Function.update_of_ne hx, ho ha _ _ _ _ _ hx]
    · rfl
  have key : (E.step T s.st i).xiOpt = (TempFile.step E true T s i).file.getD x0 ∧
      RightFile E.obj x0 (E.step T s.st i).seen (TempFile.step E true T s i).file := by
    have hseen : (E.step T s.st i).seen = (E.move s.st.rng i s.st.xi s.st.v).2.1 :: s.st.seen := by
      unfold Env.step
      simp only
      split
      · split <;> rfl
      · split <;> rfl
    unfold TempFile.step
    simp only
    by_cases hc : E.obj (E.move s.st.rng i s.st.xi s.st.v).2.1 ≤ s.st.f ∧
        E.obj (E.move s.st.rng i s.st.xi s.st.v).2.1 < s.st.fOpt ∧ True
    · rw [if_pos hc]
      have hx : (E.step T s.st i).xi = (E.move s.st.rng i s.st.xi s.st.v).2.1 ∧
          (E.step T s.st i).xiOpt = (E.move s.st.rng i s.st.xi s.st.v).2.1 := by
        unfold Env.step
        simp only
        rw [if_pos hc.1, if_pos hc.2.1]
        exact ⟨hnew, rfl⟩
      refine ⟨by rw [hx.1, hx.2]; rfl, fun e => by simp at e, ?_⟩
      rintro w ⟨⟩
      rw [hx.1, hseen]
      refine ⟨by simp, lt_of_lt_of_le hc.2.1 h.best.start, ?_⟩
      intro p hp
      rcases List.mem_cons.1 hp with rfl | hp
      · exact le_rfl
      · exact hc.2.1.le.trans (h.best.all p hp)
    · rw [if_neg hc]
      have hx : (E.step T s.st i).xiOpt = s.st.xiOpt := by
        unfold Env.step
        simp only
        split
        · next h1 =>
          split
          · next h2 => exact absurd ⟨h1, h2, trivial⟩ hc
          · rfl
        · split <;> rfl
      have hge : s.st.fOpt ≤ E.obj (E.move s.st.rng i s.st.xi s.st.v).2.1 := by
        by_contra hlt
        have hlt := not_le.1 hlt
        exact hc ⟨hlt.le.trans h.best.le, hlt, trivial⟩
      refine ⟨hx.trans h.same, ?_⟩
      rw [hseen]
      have hopt : s.st.fOpt = E.obj (s.file.getD x0) := by rw [← h.same]; exact h.best.opt
      constructor
      · intro hn p hp
        rw [hn] at hopt
        rcases List.mem_cons.1 hp with rfl | hp
        · exact hopt ▸ hge
        · exact h.right.1 hn p hp
      · intro w hw
        obtain ⟨a, b, c⟩ := h.right.2 w hw
        rw [hw] at hopt
        refine ⟨by simp [a], b, ?_⟩
        intro p hp
        rcases List.mem_cons.1 hp with rfl | hp
        · exact hopt ▸ hge
        · exact c p hp
  refine ⟨hb, key.1, key.2, ?_⟩
  intro q hq
  rcases List.mem_cons.1 hq with rfl | hq
  · exact key.2
  · exact h.snaps q hq

theorem file_sweeps {E : Env K ι σ N} (ho : OneOnly E) {x0 : ι → K} (T : K) {s : TempFile.FSt K ι σ N} (h : FileInv E x0 s) :
    FileInv E x0 (TempFile.sweeps E true T s) := by
  unfold TempFile.sweeps
  refine times_ind _ _ (fun s hs => ?_) _ _ h
  generalize List.finRange N = l
  induction l generalizing s with
  | nil => exact hs
  | cons i l ih => exact ih _ (file_step ho T hs i)

theorem file_temps {E : Env K ι σ N} (ho : OneOnly E) {x0 : ι → K} (T : K) (m : Nat) {s : TempFile.FSt K ι σ N}
    (h : FileInv E x0 s) : FileInv E x0 (TempFile.temps E true T m s).1 := by
  induction m generalizing s with
  | zero => exact h
  | succ m ih =>
    unfold TempFile.temps
    simp only
    have h1 := file_sweeps ho T h
    have h2 : Best E x0 { adjust (TempFile.sweeps E true T s).st with looks := (adjust (TempFile.sweeps E true T s).st).looks + 1 } :=
      ⟨h1.best.cur, h1.best.opt, h1.best.le, h1.best.start, h1.best.all, h1.best.isSeen, h1.best.free⟩
    split
    · exact ⟨best_reset h2, h1.same, h1.right, h1.snaps⟩
    · exact ih ⟨h2, h1.same, h1.right, h1.snaps⟩

theorem again_keeps (old : List K) (s : Annealing.St K ι σ N) :
    (again old s).1.xiOpt = s.xiOpt ∧ (again old s).1.seen = s.seen := by
  unfold again
  split
  · exact ⟨rfl, rfl⟩
  · split <;> exact ⟨rfl, rfl⟩

theorem file_loop {E : Env K ι σ N} (ho : OneOnly E) {x0 : ι → K} (fuel : Nat) (T : K) (counter : Nat) (old : List K)
    {s : TempFile.FSt K ι σ N} (h : FileInv E x0 s) : FileInv E x0 (TempFile.loop E true fuel T counter old s) := by
  induction fuel generalizing T counter old s with
  | zero => exact h
  | succ fuel ih =>
    unfold TempFile.loop
    simp only
    have h0 := file_temps ho T (3 * N) h
    have hk := again_keeps (List.drop 1 old ++ [(TempFile.temps E true T (3 * N) s).1.st.f]) (TempFile.temps E true T (3 * N) s).1.st
    have h1 : FileInv E x0 { (TempFile.temps E true T (3 * N) s).1 with
        st := (again (List.drop 1 old ++ [(TempFile.temps E true T (3 * N) s).1.st.f]) (TempFile.temps E true T (3 * N) s).1.st).1 } :=
      ⟨again_best _ h0.best, hk.1.trans h0.same, by rw [hk.2]; exact h0.right, h0.snaps⟩
    generalize (if (TempFile.temps E true T (3 * N) s).2 = true then kMax + 1 else counter) + 1 = c
    split
    · exact ih _ _ _ h1
    · exact h1

/-! The annealer itself is not changed by writing the file. -/

theorem erase_sweeps (E : Env K ι σ N) (b : Bool) (T : K) (s : TempFile.FSt K ι σ N) :
    (TempFile.sweeps E b T s).st = E.sweeps T s.st := by
  unfold TempFile.sweeps Env.sweeps
  have hf : ∀ (l : List (Fin N)) (s : TempFile.FSt K ι σ N),
      (l.foldl (TempFile.step E b T) s).st = l.foldl (E.step T) s.st := by
    intro l
    induction l with
    | nil => intro s; rfl
    | cons i l ih => intro s; exact ih _
  generalize nStep = n
  induction n generalizing s with
  | zero => rfl
  | succ n ih => exact (ih _).trans (by rw [hf]; rfl)

theorem erase_temps (E : Env K ι σ N) (b : Bool) (T : K) (m : Nat) (s : TempFile.FSt K ι σ N) :
    (TempFile.temps E b T m s).1.st = (E.temps T m s.st).1 ∧ (TempFile.temps E b T m s).2 = (E.temps T m s.st).2 := by
  induction m generalizing s with
  | zero => exact ⟨rfl, rfl⟩
  | succ m ih =>
    unfold TempFile.temps Env.temps
    simp only [erase_sweeps]
    split
    · exact ⟨rfl, rfl⟩
    · exact ih _

theorem erase_loop (E : Env K ι σ N) (b : Bool) (fuel : Nat) (T : K) (counter : Nat) (old : List K) (s : TempFile.FSt K ι σ N) :
    (TempFile.loop E b fuel T counter old s).st = E.loop fuel T counter old s.st := by
  induction fuel generalizing T counter old s with
  | zero => rfl
  | succ fuel ih =>
    unfold TempFile.loop Env.loop
    simp only [(erase_temps E b T (3 * N) s).1, (erase_temps E b T (3 * N) s).2]
    generalize (if (E.temps T (3 * N) s.st).2 = true then kMax + 1 else counter) + 1 = c
    split
    · exact ih _ _ _ _
    · rfl

/-- **C125.** Annealing with a name for the intermediate potential: whenever the program is stopped, the file is missing only if no
point evaluated so far is better than the start, and otherwise contains the best of them; at the end it contains the parameters that
are returned, or is missing because these are the ones from the start. -/
theorem C125_file (E : Env K ι σ N) (ho : OneOnly E) (pick : σ → σ × Fin N) (t : Temp K) (rng : σ) (xi : ι → K)
    (r : TempFile.FRes K ι) (hr : TempFile.run E true pick t rng xi = some r) :
    (∀ q ∈ r.snaps, RightFile E.obj xi q.seen q.file) ∧ RightFile E.obj xi r.res.seen r.file ∧ r.res.xi = r.file.getD xi := by
  unfold TempFile.run at hr
  simp only at hr
  split at hr
  · cases hr
  · next T tr ht =>
    split at hr
    · cases hr
      exact ⟨by simp, ⟨by simp, by simp⟩, rfl⟩
    · cases hr
      have h0 : FileInv E xi ⟨⟨xi, E.obj xi, xi, E.obj xi, tr.v, fun _ => 0, tr.rng, 0, []⟩, none, []⟩ :=
        ⟨⟨rfl, rfl, le_rfl, le_rfl, by simp, Or.inl rfl, fun _ _ _ => ⟨rfl, rfl⟩⟩, rfl, ⟨by simp, by simp⟩, by simp⟩
      have h := file_loop ho kMax T 0 (List.replicate nEps (E.obj xi)) h0
      exact ⟨h.snaps, h.right, h.same⟩

/-- **C125, no influence.** With and without a name for the file the annealer returns the same. -/
theorem C125_erase (E : Env K ι σ N) (b : Bool) (pick : σ → σ × Fin N) (t : Temp K) (rng : σ) (xi : ι → K) :
    (TempFile.run E b pick t rng xi).map (fun r => r.res) = E.run pick t rng xi := by
  unfold TempFile.run Env.run
  simp only
  cases E.temperature pick t xi (E.obj xi) rng (fun _ => 1 / 10) with
  | none => rfl
  | some q =>
    obtain ⟨T, tr⟩ := q
    simp only
    split
    · rfl
    · simp only [Option.map_some, erase_loop]

/-- One snapshot per evaluated point. -/
def Snapped (s : TempFile.FSt K ι σ N) : Prop :=
  s.snaps.map (fun q => q.seen) = (List.range s.st.seen.length).map fun k => s.st.seen.drop k

theorem snapped_step (E : Env K ι σ N) (b : Bool) (T : K) {s : TempFile.FSt K ι σ N} (h : Snapped s) (i : Fin N) :
    Snapped (TempFile.step E b T s i) := by
  have hseen : (E.step T s.st i).seen = (E.move s.st.rng i s.st.xi s.st.v).2.1 :: s.st.seen := by
    unfold Env.step
    simp only
    split
    · split <;> rfl
    · split <;> rfl
  unfold Snapped at h ⊢
  unfold TempFile.step
  simp only [List.map_cons]
  rw [h, hseen, List.length_cons, List.range_succ_eq_map, List.map_cons, List.map_map]
  rfl

theorem snapped_sweeps (E : Env K ι σ N) (b : Bool) (T : K) {s : TempFile.FSt K ι σ N} (h : Snapped s) :
    Snapped (TempFile.sweeps E b T s) := by
  unfold TempFile.sweeps
  refine times_ind _ _ (fun s hs => ?_) _ _ h
  generalize List.finRange N = l
  induction l generalizing s with
  | nil => exact hs
  | cons i l ih => exact ih _ (snapped_step E b T hs i)

theorem snapped_temps (E : Env K ι σ N) (b : Bool) (T : K) (m : Nat) {s : TempFile.FSt K ι σ N} (h : Snapped s) :
    Snapped (TempFile.temps E b T m s).1 := by
  induction m generalizing s with
  | zero => exact h
  | succ m ih =>
    unfold TempFile.temps
    simp only
    have h1 := snapped_sweeps E b T h
    split
    · exact h1
    · exact ih h1

theorem snapped_loop (E : Env K ι σ N) (b : Bool) (fuel : Nat) (T : K) (counter : Nat) (old : List K)
    {s : TempFile.FSt K ι σ N} (h : Snapped s) : Snapped (TempFile.loop E b fuel T counter old s) := by
  induction fuel generalizing T counter old s with
  | zero => exact h
  | succ fuel ih =>
    unfold TempFile.loop
    simp only
    have h0 := snapped_temps E b T (3 * N) h
    have hk := again_keeps (List.drop 1 old ++ [(TempFile.temps E b T (3 * N) s).1.st.f]) (TempFile.temps E b T (3 * N) s).1.st
    have h1 : Snapped { (TempFile.temps E b T (3 * N) s).1 with
        st := (again (List.drop 1 old ++ [(TempFile.temps E b T (3 * N) s).1.st.f]) (TempFile.temps E b T (3 * N) s).1.st).1 } := by
      unfold Snapped at h0 ⊢
      simp only
      rw [hk.2]
      exact h0
    generalize (if (TempFile.temps E b T (3 * N) s).2 = true then kMax + 1 else counter) + 1 = c
    split
    · exact ih _ _ _ h1
    · exact h1

/-- **C125, snapshots.** There is one snapshot for each point evaluated in the loop, with the points up to this one. -/
theorem C125_snaps (E : Env K ι σ N) (b : Bool) (pick : σ → σ × Fin N) (t : Temp K) (rng : σ) (xi : ι → K)
    (r : TempFile.FRes K ι) (hr : TempFile.run E b pick t rng xi = some r) :
    r.snaps.map (fun q => q.seen) = (List.range r.res.seen.length).map fun k => r.res.seen.drop k := by
  unfold TempFile.run at hr
  simp only at hr
  split at hr
  · cases hr
  · split at hr
    · cases hr
      rfl
    · cases hr
      exact snapped_loop E b _ _ _ _ (s := ⟨⟨_, _, _, _, _, _, _, _, []⟩, none, []⟩) rfl

/-- The annealer of C29: the file exists at the end, differs from the start and has been missing before. -/
example : (TempFile.run annealEnv true (fun s => (s, 0)) (.given 1) 0 ![1 / 2, 7]).any (fun r =>
    r.file.any (fun w => decide (w 0 * w 0 < 1 / 5 ∧ w 1 = 7)) && decide (r.snaps.length = 20)) = true := by
  decide +kernel

example : OneOnly annealEnv := (C29_apot annealEnv (fun _ => (-1, 1)) rfl).1

end Verif.Props
