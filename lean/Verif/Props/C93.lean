/-
C93  Simulated annealing with rescaling.
-/
import Verif.Model.AnnealRescale
import Verif.Props.C29
import Mathlib.Algebra.Order.Ring.Rat

set_option linter.unusedSectionVars false

namespace Verif.Props

open Verif.Annealing Verif.AnnealRescale

variable {K : Type*} [Field K] [LinearOrder K] [IsStrictOrderedRing K] {ι σ : Type*} [DecidableEq ι] {N : Nat}

/-- Equal outside of the embedding functions. -/
structure SameButEmbedding (c : Cols) (g g' : Grid K) : Prop where
  begin : ∀ i, c.paircol + c.ntypes ≤ i ∧ i < c.paircol + 2 * c.ntypes ∨ g.begin i = g'.begin i
  stop : ∀ i, c.paircol + c.ntypes ≤ i ∧ i < c.paircol + 2 * c.ntypes ∨ g.stop i = g'.stop i
  step : ∀ i, c.paircol + c.ntypes ≤ i ∧ i < c.paircol + 2 * c.ntypes ∨ g.step i = g'.step i
  invstep : ∀ i, c.paircol + c.ntypes ≤ i ∧ i < c.paircol + 2 * c.ntypes ∨ g.invstep i = g'.invstep i
  xcoord : ∀ j, (∃ i, (c.paircol + c.ntypes ≤ i ∧ i < c.paircol + 2 * c.ntypes) ∧ c.first i ≤ j ∧ j ≤ c.last i) ∨
    g.xcoord j = g'.xcoord j

/-- Rescaling changes ranges and knots of embedding functions only (`rescale.c` 205-270). -/
def EmbeddingOnly (R : REnv K ι σ N) : Prop := ∀ g x g' x', R.rescale g x = some (g', x') → SameButEmbedding R.cols g g'

theorem SameButEmbedding.refl (c : Cols) (g : Grid K) : SameButEmbedding c g g :=
  ⟨fun _ => Or.inr rfl, fun _ => Or.inr rfl, fun _ => Or.inr rfl, fun _ => Or.inr rfl, fun _ => Or.inr rfl⟩

theorem SameButEmbedding.trans {c : Cols} {g g' g'' : Grid K} (h : SameButEmbedding c g g') (h' : SameButEmbedding c g' g'') :
    SameButEmbedding c g g'' := by
  have key : ∀ {p : Prop} {a b d : K}, (p ∨ a = b) → (p ∨ b = d) → (p ∨ a = d) := by
    rintro p a b d (h | rfl) h'
    · exact Or.inl h
    · exact h'
  exact ⟨fun i => key (h.begin i) (h'.begin i), fun i => key (h.stop i) (h'.stop i), fun i => key (h.step i) (h'.step i),
    fun i => key (h.invstep i) (h'.invstep i), fun i => key (h.xcoord i) (h'.xcoord i)⟩

theorem knot_iff (c : Cols) (j : Nat) :
    c.knot j = true ↔ ∃ i, (c.paircol + c.ntypes ≤ i ∧ i < c.paircol + 2 * c.ntypes) ∧ c.first i ≤ j ∧ j ≤ c.last i := by
  simp only [Cols.knot, List.any_eq_true, List.mem_range, decide_eq_true_eq]
  constructor
  · rintro ⟨k, hk, h⟩
    exact ⟨c.paircol + c.ntypes + k, by omega, h⟩
  · rintro ⟨i, hi, h⟩
    refine ⟨i - (c.paircol + c.ntypes), by omega, ?_⟩
    rw [show c.paircol + c.ntypes + (i - (c.paircol + c.ntypes)) = i by omega]
    exact h

/-- **Saving and restoring.** What `restore_pot_data` makes of any later ranges is what was saved. -/
theorem C93_restore (c : Cols) (g g' : Grid K) (d : Saved K) (h : SameButEmbedding c g g') :
    restore c (store c g d) g' = g := by
  have hcol : ∀ (a b x : Nat → K), (∀ i, c.paircol + c.ntypes ≤ i ∧ i < c.paircol + 2 * c.ntypes ∨ a i = b i) →
      (fun i => if c.embed i = true then (if i - (c.paircol + c.ntypes) < c.ntypes then
        a (c.paircol + c.ntypes + (i - (c.paircol + c.ntypes))) else x (i - (c.paircol + c.ntypes))) else b i) = a := by
    intro a b x hab
    funext i
    by_cases hi : c.paircol + c.ntypes ≤ i ∧ i < c.paircol + 2 * c.ntypes
    · rw [if_pos (by simp only [Cols.embed, decide_eq_true_eq]; exact hi), if_pos (by omega)]
      congr 1
      omega
    · rw [if_neg (by simp only [Cols.embed, decide_eq_true_eq]; exact hi)]
      exact ((hab i).resolve_left hi).symm
  have hx : (fun j => if c.knot j = true then (if c.knot j = true then g.xcoord j else d.xcoord j) else g'.xcoord j) = g.xcoord := by
    funext j
    by_cases hj : c.knot j = true
    · rw [if_pos hj, if_pos hj]
    · rw [if_neg hj]
      exact ((h.xcoord j).resolve_left fun hk => hj ((knot_iff c j).2 hk)).symm
  simp only [restore, store]
  rw [hcol _ _ _ h.begin, hcol _ _ _ h.stop, hcol _ _ _ h.step, hcol _ _ _ h.invstep, hx]

/-- Invariant of the annealing loop started at `g0`, `x0`; `g` are the ranges at the optimum. -/
structure RBest (R : REnv K ι σ N) (g0 : Grid K) (x0 : ι → K) (s : RSt K ι σ N) (g : Grid K) : Prop where
  opt : s.base.fOpt = R.obj g s.base.xiOpt
  start : s.base.fOpt ≤ R.obj g0 x0
  same : SameButEmbedding R.cols g s.grid
  saved : R.meam = true → ∃ d, s.saved = store R.cols g d
  isSeen : (g = g0 ∧ s.base.xiOpt = x0) ∨ (g, s.base.xiOpt) ∈ s.points

theorem step_opt (E : Env K ι σ N) (T : K) (s : Annealing.St K ι σ N) (h : Fin N) :
    let new := (E.move s.rng h s.xi s.v).2.1
    ((E.obj new ≤ s.f ∧ E.obj new < s.fOpt) ∧ (E.step T s h).xiOpt = new ∧ (E.step T s h).fOpt = E.obj new) ∨
    (¬ (E.obj new ≤ s.f ∧ E.obj new < s.fOpt) ∧ (E.step T s h).xiOpt = s.xiOpt ∧ (E.step T s h).fOpt = s.fOpt) := by
  intro new
  unfold Env.step
  simp only
  by_cases h1 : E.obj new ≤ s.f
  · by_cases h2 : E.obj new < s.fOpt
    · rw [if_pos h1, if_pos h2]
      exact Or.inl ⟨⟨h1, h2⟩, rfl, rfl⟩
    · rw [if_pos h1, if_neg h2]
      exact Or.inr ⟨fun h => h2 h.2, rfl, rfl⟩
  · rw [if_neg h1]
    refine Or.inr ⟨fun h => h1 h.1, ?_⟩
    split <;> exact ⟨rfl, rfl⟩

theorem rstep_best {R : REnv K ι σ N} {g0 : Grid K} {x0 : ι → K} (T : K) {s : RSt K ι σ N} {g : Grid K} (h : RBest R g0 x0 s g)
    (i : Fin N) : ∃ g', RBest R g0 x0 (R.step T s i) g' := by
  rcases step_opt (R.at s.grid) T s.base i with ⟨⟨hc1, hc2⟩, hx, hf⟩ | ⟨hc, hx, hf⟩
  · refine ⟨s.grid, ⟨?_, ?_, SameButEmbedding.refl _ _, fun hm => ⟨s.saved, ?_⟩, Or.inr ?_⟩⟩
    · simp only [REnv.step]
      rw [hf, hx]
      rfl
    · simp only [REnv.step]
      rw [hf]
      exact hc2.le.trans h.start
    · simp only [REnv.step]
      exact if_pos ⟨hm, hc1, hc2⟩
    · simp only [REnv.step]
      rw [hx]
      exact List.mem_cons_self
  · refine ⟨g, ⟨?_, ?_, h.same, fun hm => ?_, ?_⟩⟩
    · simp only [REnv.step]
      rw [hf, hx]
      exact h.opt
    · simp only [REnv.step]
      rw [hf]
      exact h.start
    · obtain ⟨d, hd⟩ := h.saved hm
      refine ⟨d, ?_⟩
      simp only [REnv.step]
      rw [if_neg fun hh => hc hh.2]
      exact hd
    · simp only [REnv.step]
      rw [hx]
      exact h.isSeen.imp id (List.mem_cons_of_mem _)

theorem rsweeps_best {R : REnv K ι σ N} {g0 : Grid K} {x0 : ι → K} (T : K) {s : RSt K ι σ N} (h : ∃ g, RBest R g0 x0 s g) :
    ∃ g, RBest R g0 x0 (R.sweeps T s) g := by
  unfold REnv.sweeps
  refine times_ind (fun s => ∃ g, RBest R g0 x0 s g) _ (fun s hs => ?_) _ _ h
  generalize List.finRange N = l
  induction l generalizing s with
  | nil => exact hs
  | cons i l ih =>
    obtain ⟨g, hg⟩ := hs
    exact ih _ (rstep_best T hg i)

theorem rescaleStep_best {R : REnv K ι σ N} (he : EmbeddingOnly R) {g0 : Grid K} {x0 : ι → K} (m : Nat) {s : RSt K ι σ N} {g : Grid K}
    (h : RBest R g0 x0 s g) : RBest R g0 x0 (R.rescaleStep m s) g := by
  unfold REnv.rescaleStep
  split
  · split
    · exact h
    · next g' x' hr => exact ⟨h.opt, h.start, h.same.trans (he _ _ _ _ hr), h.saved, h.isSeen⟩
  · exact h

theorem rtemps_best {R : REnv K ι σ N} (he : EmbeddingOnly R) {g0 : Grid K} {x0 : ι → K} (T : K) (left m : Nat) {s : RSt K ι σ N}
    (h : ∃ g, RBest R g0 x0 s g) : ∃ g, RBest R g0 x0 (R.temps T left m s).1 g := by
  induction left generalizing s m with
  | zero => exact h
  | succ left ih =>
    unfold REnv.temps
    simp only
    obtain ⟨g, hg⟩ := rsweeps_best T h
    have h2 : RBest R g0 x0 { R.sweeps T s with base := { adjust (R.sweeps T s).base with looks := (R.sweeps T s).base.looks + 1 } } g :=
      ⟨hg.opt, hg.start, hg.same, hg.saved, hg.isSeen⟩
    split
    · exact ⟨g, ⟨h2.opt, h2.start, h2.same, h2.saved, h2.isSeen⟩⟩
    · exact ih _ ⟨g, rescaleStep_best he _ h2⟩

theorem ragain_best {R : REnv K ι σ N} {g0 : Grid K} {x0 : ι → K} (old : List K) {s : RSt K ι σ N} {g : Grid K}
    (h : RBest R g0 x0 s g) : RBest R g0 x0 (R.again old s).1 g := by
  unfold REnv.again
  split
  · exact h
  · split
    · split
      · next hm =>
        obtain ⟨d, hd⟩ := h.saved hm
        refine ⟨h.opt, h.start, ?_, h.saved, h.isSeen⟩
        simp only
        rw [hd, C93_restore _ _ _ _ h.same]
        exact SameButEmbedding.refl _ _
      · exact ⟨h.opt, h.start, h.same, h.saved, h.isSeen⟩
    · exact h

theorem rloop_best {R : REnv K ι σ N} (he : EmbeddingOnly R) {g0 : Grid K} {x0 : ι → K} (fuel : Nat) (T : K) (counter : Nat)
    (old : List K) {s : RSt K ι σ N} (h : ∃ g, RBest R g0 x0 s g) : ∃ g, RBest R g0 x0 (R.loop fuel T counter old s) g := by
  induction fuel generalizing T counter old s with
  | zero => exact h
  | succ fuel ih =>
    unfold REnv.loop
    simp only
    obtain ⟨g, hg⟩ := rtemps_best he T (3 * N) 0 h
    have h1 : ∃ g, RBest R g0 x0 (R.again (List.drop 1 old ++ [(R.temps T (3 * N) 0 s).1.base.f]) (R.temps T (3 * N) 0 s).1).1 g :=
      ⟨g, ragain_best _ hg⟩
    generalize (if (R.temps T (3 * N) 0 s).2 = true then kMax + 1 else counter) + 1 = c
    split
    · exact ih _ _ _ h1
    · exact h1

theorem rrun_best {R : REnv K ι σ N} (he : EmbeddingOnly R) {g0 : Grid K} {x0 : ι → K} (T : K) (v : Fin N → K) (rng : σ) :
    ∃ g, RBest R g0 x0 (R.loop kMax T 0 (List.replicate nEps (R.obj g0 x0)) ⟨⟨x0, R.obj g0 x0, x0, R.obj g0 x0, v, fun _ => 0, rng, 0, []⟩, g0,
      store R.cols g0 ⟨fun _ => 0, fun _ => 0, fun _ => 0, fun _ => 0, fun _ => 0⟩, true, []⟩) g :=
  rloop_best he _ _ _ _ ⟨g0, ⟨rfl, le_rfl, SameButEmbedding.refl _ _, fun _ => ⟨_, rfl⟩, Or.inl ⟨rfl, rfl⟩⟩⟩

/-- **C93, MEAM.** Whatever rescaling does to the embedding functions in between: the recorded optimum is the objective of the table
handed back - values together with ranges and knots -, it is not above the start value, and this table is the start or one of the
evaluated ones. -/
theorem C93_meam (R : REnv K ι σ N) (hm : R.meam = true) (he : EmbeddingOnly R) (pick : σ → σ × Fin N) (t : Temp K) (rng : σ)
    (g : Grid K) (xi : ι → K) (r : RRes K ι) (hr : R.run pick t rng g xi = some r) :
    r.fOpt = R.obj r.grid r.xi ∧ r.fOpt ≤ R.obj g xi ∧ ((r.grid = g ∧ r.xi = xi) ∨ (r.grid, r.xi) ∈ r.points) := by
  unfold REnv.run at hr
  simp only at hr
  split at hr
  · cases hr
  · next T tr _ =>
    split at hr
    · cases hr
      exact ⟨rfl, le_rfl, Or.inl ⟨rfl, rfl⟩⟩
    · cases hr
      obtain ⟨go, h⟩ := rrun_best (R := R) he (g0 := g) (x0 := xi) T tr.v tr.rng
      obtain ⟨d, hd⟩ := h.saved hm
      simp only
      rw [hd, C93_restore _ _ _ _ h.same]
      exact ⟨h.opt, h.start, h.isSeen⟩

/-- Without rescaling the ranges never change. -/
structure Still (R : REnv K ι σ N) (g0 : Grid K) (x0 : ι → K) (s : RSt K ι σ N) : Prop where
  grid : s.grid = g0
  best : Best (R.at g0) x0 s.base
  points : ∀ p ∈ s.points, p.1 = g0 ∧ p.2 ∈ s.base.seen
  saved : R.meam = true → ∃ d, s.saved = store R.cols g0 d

/-- Rescaling is not compiled in or never necessary. -/
def NeverRescaled (R : REnv K ι σ N) : Prop := R.resc = false ∨ ∀ g x, R.rescale g x = none

theorem step_seen (E : Env K ι σ N) (T : K) (s : Annealing.St K ι σ N) (h : Fin N) :
    (E.step T s h).seen = (E.move s.rng h s.xi s.v).2.1 :: s.seen := by
  unfold Env.step
  simp only
  split
  · split <;> rfl
  · split <;> rfl

theorem still_step {R : REnv K ι σ N} {g0 : Grid K} {x0 : ι → K} (T : K) {s : RSt K ι σ N} (h : Still R g0 x0 s) (i : Fin N) :
    Still R g0 x0 (R.step T s i) := by
  have hg := h.grid
  refine ⟨hg, ?_, ?_, ?_⟩
  · simp only [REnv.step, hg]
    exact step_best (fun ha => by cases ha) T h.best i
  · intro p hp
    simp only [REnv.step] at hp ⊢
    rw [step_seen]
    rcases List.mem_cons.1 hp with rfl | hp
    · exact ⟨hg, List.mem_cons_self⟩
    · exact ⟨(h.points p hp).1, List.mem_cons_of_mem _ (h.points p hp).2⟩
  · intro hm
    obtain ⟨d, hd⟩ := h.saved hm
    simp only [REnv.step]
    split
    · exact ⟨s.saved, by rw [hg]⟩
    · exact ⟨d, hd⟩

theorem still_sweeps {R : REnv K ι σ N} {g0 : Grid K} {x0 : ι → K} (T : K) {s : RSt K ι σ N} (h : Still R g0 x0 s) :
    Still R g0 x0 (R.sweeps T s) := by
  unfold REnv.sweeps
  refine times_ind _ _ (fun s hs => ?_) _ _ h
  generalize List.finRange N = l
  induction l generalizing s with
  | nil => exact hs
  | cons i l ih => exact ih _ (still_step T hs i)

theorem rescaleStep_never {R : REnv K ι σ N} (hn : NeverRescaled R) (m : Nat) (s : RSt K ι σ N) : R.rescaleStep m s = s := by
  unfold REnv.rescaleStep
  rcases hn with hn | hn
  · rw [if_neg (by simp [hn])]
  · split
    · rw [hn]
    · rfl

theorem still_temps {R : REnv K ι σ N} (hn : NeverRescaled R) {g0 : Grid K} {x0 : ι → K} (T : K) (left m : Nat) {s : RSt K ι σ N}
    (h : Still R g0 x0 s) : Still R g0 x0 (R.temps T left m s).1 := by
  induction left generalizing s m with
  | zero => exact h
  | succ left ih =>
    unfold REnv.temps
    simp only
    have hs := still_sweeps T h
    have hb := hs.best
    have h2 : Still R g0 x0 { R.sweeps T s with base := { adjust (R.sweeps T s).base with looks := (R.sweeps T s).base.looks + 1 } } :=
      ⟨hs.grid, ⟨hb.cur, hb.opt, hb.le, hb.start, hb.all, hb.isSeen, hb.free⟩, hs.points, hs.saved⟩
    split
    · exact ⟨h2.grid, best_reset h2.best, h2.points, h2.saved⟩
    · rw [rescaleStep_never hn]
      exact ih _ h2

theorem still_again {R : REnv K ι σ N} {g0 : Grid K} {x0 : ι → K} (old : List K) {s : RSt K ι σ N} (h : Still R g0 x0 s) :
    Still R g0 x0 (R.again old s).1 := by
  unfold REnv.again
  split
  · exact h
  · split
    · split
      · next hm =>
        obtain ⟨d, hd⟩ := h.saved hm
        have hr : restore R.cols s.saved s.grid = g0 := by
          rw [hd]
          exact C93_restore _ _ _ _ (h.grid ▸ SameButEmbedding.refl _ _)
        simp only [hr]
        have ho : R.obj g0 s.base.xiOpt = s.base.fOpt := h.best.opt.symm
        rw [ho]
        exact ⟨rfl, best_reset h.best, h.points, h.saved⟩
      · exact ⟨h.grid, best_reset h.best, h.points, h.saved⟩
    · exact h

theorem still_loop {R : REnv K ι σ N} (hn : NeverRescaled R) {g0 : Grid K} {x0 : ι → K} (fuel : Nat) (T : K) (counter : Nat)
    (old : List K) {s : RSt K ι σ N} (h : Still R g0 x0 s) : Still R g0 x0 (R.loop fuel T counter old s) := by
  induction fuel generalizing T counter old s with
  | zero => exact h
  | succ fuel ih =>
    unfold REnv.loop
    simp only
    have h1 := still_again (List.drop 1 old ++ [(R.temps T (3 * N) 0 s).1.base.f]) (still_temps hn T (3 * N) 0 h)
    generalize (if (R.temps T (3 * N) 0 s).2 = true then kMax + 1 else counter) + 1 = c
    split
    · exact ih _ _ _ h1
    · exact h1

/-- **C93, partial.** Without rescaling the table handed back - EAM, ADP or MEAM - has the recorded optimum, which is not above the
start value nor above the value of any table evaluated. -/
theorem C93_still_partial (R : REnv K ι σ N) (hn : NeverRescaled R) (pick : σ → σ × Fin N) (t : Temp K) (rng : σ)
    (g : Grid K) (xi : ι → K) (r : RRes K ι) (hr : R.run pick t rng g xi = some r) :
    r.fOpt = R.obj r.grid r.xi ∧ r.fOpt ≤ R.obj g xi ∧ r.grid = g ∧ ∀ p ∈ r.points, r.fOpt ≤ R.obj p.1 p.2 := by
  unfold REnv.run at hr
  simp only at hr
  split at hr
  · cases hr
  · next T tr _ =>
    split at hr
    · cases hr
      exact ⟨rfl, le_rfl, rfl, by simp⟩
    · cases hr
      have h0 : Still R g xi ⟨⟨xi, R.obj g xi, xi, R.obj g xi, tr.v, fun _ => 0, tr.rng, 0, []⟩, g,
          store R.cols g ⟨fun _ => 0, fun _ => 0, fun _ => 0, fun _ => 0, fun _ => 0⟩, true, []⟩ :=
        ⟨rfl, ⟨rfl, rfl, le_rfl, le_rfl, by simp, Or.inl rfl, fun _ _ _ => ⟨rfl, rfl⟩⟩, by simp, fun _ => ⟨_, rfl⟩⟩
      have h := still_loop hn kMax T 0 (List.replicate nEps (R.obj g xi)) h0
      set s := R.loop kMax T 0 (List.replicate nEps (R.obj g xi)) ⟨⟨xi, R.obj g xi, xi, R.obj g xi, tr.v, fun _ => 0, tr.rng, 0, []⟩, g,
          store R.cols g ⟨fun _ => 0, fun _ => 0, fun _ => 0, fun _ => 0, fun _ => 0⟩, true, []⟩ with hs
      have hgrid : (if R.meam = true then restore R.cols s.saved s.grid else s.grid) = g := by
        split
        · next hm =>
          obtain ⟨d, hd⟩ := h.saved hm
          rw [hd]
          exact C93_restore _ _ _ _ (h.grid ▸ SameButEmbedding.refl _ _)
        · exact h.grid
      simp only [hgrid]
      refine ⟨h.best.opt, h.best.start, trivial, fun p hp => ?_⟩
      obtain ⟨h1, h2⟩ := h.points p hp
      rw [h1]
      exact h.best.all p.2 h2

/-! ### What goes wrong -/

/-- Four values, one type.  Every trial step goes to the table with all values 5 and is refused if that is worse.  The first rescaling
moves the beginning of the embedding function from 0 to 1 and adds `shift` to all values, then no more is necessary. -/
def rescEnv (obj : Grid ℚ → (Fin 4 → ℚ) → ℚ) (shift : ℚ) (meam : Bool) : REnv ℚ (Fin 4) Unit 4 :=
  { cols := ⟨1, 1, fun i => 6 * i + 2, fun i => 6 * i + 5⟩
    obj := obj
    rescale := fun g x =>
      if g.begin 2 = 0 then some ({ g with begin := fun i => if i = 2 then 1 else g.begin i }, fun k => x k + shift) else none
    meam := meam
    resc := true
    idx := id
    move := fun s _ _ v => (s, fun _ => 5, v)
    draw := fun s => (s, 1)
    exp := fun _ => 0
    log := fun _ => 0
    flag := fun _ => false }

def zeroGrid : Grid ℚ := ⟨fun _ => 0, fun _ => 0, fun _ => 0, fun _ => 0, fun _ => 0⟩

def nextGrid : Grid ℚ := ⟨fun i => if i = 2 then 1 else 0, fun _ => 0, fun _ => 0, fun _ => 0, fun _ => 0⟩

theorem rescEnv_ok (obj : Grid ℚ → (Fin 4 → ℚ) → ℚ) (shift : ℚ) (meam : Bool) : EmbeddingOnly (rescEnv obj shift meam) := by
  intro g x g' x' h
  simp only [rescEnv] at h ⊢
  split at h
  · cases h
    refine ⟨fun i => ?_, fun _ => Or.inr rfl, fun _ => Or.inr rfl, fun _ => Or.inr rfl, fun _ => Or.inr rfl⟩
    by_cases hi : i = 2
    · exact Or.inl (by simp only; omega)
    · exact Or.inr (by simp [hi])
  · cases h

/-- A trial step which goes uphill and is refused. -/
theorem step_refused {E : Env K ι σ N} {T : K} {s : Annealing.St K ι σ N} {h : Fin N} (hup : s.f < E.obj (E.move s.rng h s.xi s.v).2.1)
    (hd : ∀ r x, ¬ (E.draw r).2 < E.exp x) :
    (E.step T s h).xi = s.xi ∧ (E.step T s h).f = s.f ∧ (E.step T s h).xiOpt = s.xiOpt ∧ (E.step T s h).fOpt = s.fOpt := by
  unfold Env.step
  simp only
  rw [if_neg (not_le.2 hup), if_neg (hd _ _)]
  exact ⟨rfl, rfl, rfl, rfl⟩

/-- The table before and after rescaling, with values `x`, objective `a`, optimum `c` at zero. -/
structure Quiet (s : RSt ℚ (Fin 4) Unit 4) (g : Grid ℚ) (x : Fin 4 → ℚ) (a c : ℚ) : Prop where
  grid : s.grid = g
  xi : s.base.xi = x
  f : s.base.f = a
  xiOpt : s.base.xiOpt = fun _ => 0
  fOpt : s.base.fOpt = c

section Demo

variable {obj : Grid ℚ → (Fin 4 → ℚ) → ℚ} {shift : ℚ} {meam : Bool}

theorem quiet_step {T : ℚ} {s : RSt ℚ (Fin 4) Unit 4} {g : Grid ℚ} {x : Fin 4 → ℚ} {a c : ℚ} (h : Quiet s g x a c)
    (hup : a < obj g fun _ => 5) (i : Fin 4) :
    Quiet ((rescEnv obj shift meam).step T s i) g x a c ∧ ((rescEnv obj shift meam).step T s i).doRescale = s.doRescale ∧
      ((rescEnv obj shift meam).step T s i).points = (g, fun _ => 5) :: s.points := by
  obtain ⟨h1, h2, h3, h4⟩ := step_refused (E := (rescEnv obj shift meam).at s.grid) (T := T) (s := s.base) (h := i)
    (by rw [h.f, h.grid]; exact hup) (fun r x => by simp [REnv.at, rescEnv])
  refine ⟨⟨h.grid, ?_, ?_, ?_, ?_⟩, rfl, ?_⟩
  · exact h1.trans h.xi
  · exact h2.trans h.f
  · exact h3.trans h.xiOpt
  · exact h4.trans h.fOpt
  · simp only [REnv.step]
    rw [h.grid]
    rfl

theorem quiet_sweeps {T : ℚ} {s : RSt ℚ (Fin 4) Unit 4} {g : Grid ℚ} {x : Fin 4 → ℚ} {a c : ℚ} (h : Quiet s g x a c)
    (hup : a < obj g fun _ => 5) :
    Quiet ((rescEnv obj shift meam).sweeps T s) g x a c ∧ ((rescEnv obj shift meam).sweeps T s).doRescale = s.doRescale ∧
      (g, fun _ => 5) ∈ ((rescEnv obj shift meam).sweeps T s).points := by
  have hf : ∀ (l : List (Fin 4)) (s' : RSt ℚ (Fin 4) Unit 4), Quiet s' g x a c →
      Quiet (l.foldl ((rescEnv obj shift meam).step T) s') g x a c ∧
      (l.foldl ((rescEnv obj shift meam).step T) s').doRescale = s'.doRescale ∧
      (((g, fun _ => 5) ∈ s'.points ∨ l ≠ []) → (g, fun _ => 5) ∈ (l.foldl ((rescEnv obj shift meam).step T) s').points) := by
    intro l
    induction l with
    | nil => intro s' h'; exact ⟨h', rfl, fun hh => hh.resolve_right (by simp)⟩
    | cons i l ih =>
      intro s' h'
      obtain ⟨q1, q2, q3⟩ := quiet_step (obj := obj) (shift := shift) (meam := meam) (T := T) h' hup i
      obtain ⟨r1, r2, r3⟩ := ih _ q1
      exact ⟨r1, r2.trans q2, fun _ => r3 (Or.inl (by rw [q3]; exact List.mem_cons_self))⟩
  unfold REnv.sweeps
  have key : ∀ (n : Nat) (s' : RSt ℚ (Fin 4) Unit 4), Quiet s' g x a c →
      Quiet (times (fun s => (List.finRange 4).foldl ((rescEnv obj shift meam).step T) s) n s') g x a c ∧
      (times (fun s => (List.finRange 4).foldl ((rescEnv obj shift meam).step T) s) n s').doRescale = s'.doRescale ∧
      (((g, fun _ => 5) ∈ s'.points ∨ 0 < n) →
        (g, fun _ => 5) ∈ (times (fun s => (List.finRange 4).foldl ((rescEnv obj shift meam).step T) s) n s').points) := by
    intro n
    induction n with
    | zero => intro s' h'; exact ⟨h', rfl, fun hh => hh.resolve_right (by simp)⟩
    | succ n ih =>
      intro s' h'
      obtain ⟨q1, q2, q3⟩ := hf (List.finRange 4) s' h'
      obtain ⟨r1, r2, r3⟩ := ih _ q1
      exact ⟨r1, r2.trans q2, fun _ => r3 (Or.inl (q3 (Or.inr (by decide))))⟩
  obtain ⟨k1, k2, k3⟩ := key nStep s h
  exact ⟨k1, k2, k3 (Or.inr (by decide))⟩

attribute [local irreducible] REnv.sweeps REnv.temps REnv.loop

/-- After the first rescaling nothing changes any more. -/
theorem quiet_after {T : ℚ} {x : Fin 4 → ℚ} {b c : ℚ} (hup : b < obj nextGrid fun _ => 5) (left m : Nat) {s : RSt ℚ (Fin 4) Unit 4}
    (h : Quiet s nextGrid x b c) (hp : (nextGrid, fun _ => 5) ∈ s.points ∨ 0 < left) :
    Quiet ((rescEnv obj shift meam).temps T left m s).1 nextGrid x b c ∧ ((rescEnv obj shift meam).temps T left m s).2 = false ∧
      (nextGrid, fun _ => 5) ∈ ((rescEnv obj shift meam).temps T left m s).1.points := by
  induction left generalizing s m with
  | zero => rw [REnv.temps.eq_1]; exact ⟨h, rfl, hp.resolve_right (by simp)⟩
  | succ left ih =>
    obtain ⟨q1, q2, q3⟩ := quiet_sweeps (obj := obj) (shift := shift) (meam := meam) (T := T) h hup
    unfold REnv.temps
    simp only
    rw [if_neg (by simp [rescEnv])]
    have hr : ∀ s' : RSt ℚ (Fin 4) Unit 4, s'.grid = nextGrid → (rescEnv obj shift meam).rescaleStep m s' = s' := by
      intro s' hs'
      unfold REnv.rescaleStep
      split
      · rw [hs']
        simp [rescEnv, nextGrid]
      · rfl
    rw [hr _ (by exact q1.grid)]
    exact ih (m + 1) ⟨q1.grid, q1.xi, q1.f, q1.xiOpt, q1.fOpt⟩ (Or.inl q3)

/-- Before it: the tenth step rescales. -/
theorem quiet_before {T a b : ℚ} (hup0 : a < obj zeroGrid fun _ => 5) (hup1 : b < obj nextGrid fun _ => 5)
    (hb : obj nextGrid (fun _ => shift) = b) : ∀ (k : Nat) {s : RSt ℚ (Fin 4) Unit 4}, k ≤ 9 → Quiet s zeroGrid (fun _ => 0) a a →
    s.doRescale = true → Quiet ((rescEnv obj shift meam).temps T (k + 3) (9 - k) s).1 nextGrid (fun _ => shift) b a ∧
      ((rescEnv obj shift meam).temps T (k + 3) (9 - k) s).2 = false ∧
      (nextGrid, fun _ => 5) ∈ ((rescEnv obj shift meam).temps T (k + 3) (9 - k) s).1.points := by
  intro k
  induction k with
  | zero =>
    intro s _ h hd
    obtain ⟨q1, q2, q3⟩ := quiet_sweeps (obj := obj) (shift := shift) (meam := meam) (T := T) h hup0
    have e := q1
    rw [REnv.temps.eq_2]
    simp only
    rw [if_neg (by simp [rescEnv])]
    refine quiet_after hup1 2 _ ?_ (Or.inr (by decide))
    unfold REnv.rescaleStep
    rw [if_pos ⟨rfl, by decide, by rw [q2]; exact hd⟩]
    have hres : (rescEnv obj shift meam).rescale ((rescEnv obj shift meam).sweeps T s).grid ((rescEnv obj shift meam).sweeps T s).base.xi =
        some (nextGrid, fun _ => shift) := by
      rw [q1.grid, q1.xi]
      simp [rescEnv, zeroGrid, nextGrid]
    simp only [adjust]
    rw [hres]
    exact ⟨rfl, rfl, hb, q1.xiOpt, q1.fOpt⟩
  | succ k ih =>
    intro s hk h hd
    obtain ⟨q1, q2, q3⟩ := quiet_sweeps (obj := obj) (shift := shift) (meam := meam) (T := T) h hup0
    rw [show k + 1 + 3 = (k + 3) + 1 by omega, REnv.temps.eq_2]
    simp only
    rw [if_neg (by simp [rescEnv]), show 9 - (k + 1) + 1 = 9 - k by omega]
    have hr : ∀ s' : RSt ℚ (Fin 4) Unit 4, (rescEnv obj shift meam).rescaleStep (9 - (k + 1)) s' = s' := by
      intro s'
      unfold REnv.rescaleStep
      rw [if_neg (by omega)]
    rw [hr]
    exact ih (by omega) ⟨q1.grid, q1.xi, q1.f, q1.xiOpt, q1.fOpt⟩ (q2.trans hd)

theorem quiet_again {a b : ℚ} (h0 : 0 ≤ b) (hab : b ≤ a) {x : Fin 4 → ℚ} (old : List ℚ) {s : RSt ℚ (Fin 4) Unit 4}
    (h : Quiet s nextGrid x b a) : ((rescEnv obj shift meam).again old s).1 = s := by
  unfold REnv.again
  split
  · rfl
  · rw [if_neg (by rw [h.f, h.fOpt, epsF]; linarith)]

theorem quiet_loop {a b : ℚ} (h0 : 0 ≤ b) (hab : b ≤ a) (hup1 : b < obj nextGrid fun _ => 5) {x : Fin 4 → ℚ} (fuel : Nat) (T : ℚ)
    (counter : Nat) (old : List ℚ) {s : RSt ℚ (Fin 4) Unit 4} (h : Quiet s nextGrid x b a) (hp : (nextGrid, fun _ => 5) ∈ s.points) :
    Quiet ((rescEnv obj shift meam).loop fuel T counter old s) nextGrid x b a ∧
      (nextGrid, fun _ => 5) ∈ ((rescEnv obj shift meam).loop fuel T counter old s).points := by
  induction fuel generalizing T counter old s with
  | zero => rw [REnv.loop.eq_1]; exact ⟨h, hp⟩
  | succ fuel ih =>
    rw [REnv.loop.eq_2]
    obtain ⟨q1, q2, q3⟩ := quiet_after (obj := obj) (shift := shift) (meam := meam) (T := T) hup1 (3 * 4) 0 h (Or.inl hp)
    simp only [q2, Bool.false_eq_true, if_false]
    rw [quiet_again h0 hab _ q1]
    split
    · exact ih _ _ _ q1 q3
    · exact ⟨q1, q3⟩

/-- What such an annealing hands back. -/
theorem rescEnv_run {a b : ℚ} (ha : obj zeroGrid (fun _ => 0) = a) (hb : obj nextGrid (fun _ => shift) = b) (h0 : 0 ≤ b) (hab : b ≤ a)
    (hup0 : a < obj zeroGrid fun _ => 5) (hup1 : b < obj nextGrid fun _ => 5) :
    ∃ r, (rescEnv obj shift meam).run (fun s => (s, 0)) (.given 1) () zeroGrid (fun _ => 0) = some r ∧
      (meam = false → r.grid = nextGrid) ∧ r.xi = (fun _ => 0) ∧ r.fOpt = a ∧ (nextGrid, fun _ => 5) ∈ r.points := by
  have hk : kMax = 999 + 1 := rfl
  obtain ⟨s, hs, q, hp⟩ : ∃ s, (rescEnv obj shift meam).loop kMax 1 0 (List.replicate nEps ((rescEnv obj shift meam).obj zeroGrid fun _ => 0))
      ⟨⟨fun _ => 0, (rescEnv obj shift meam).obj zeroGrid fun _ => 0, fun _ => 0, (rescEnv obj shift meam).obj zeroGrid fun _ => 0,
        fun _ => 1 / 10, fun _ => 0, (), 0, []⟩, zeroGrid,
        store (rescEnv obj shift meam).cols zeroGrid ⟨fun _ => 0, fun _ => 0, fun _ => 0, fun _ => 0, fun _ => 0⟩, true, []⟩ = s ∧
      Quiet s nextGrid (fun _ => shift) b a ∧ (nextGrid, fun _ => 5) ∈ s.points := by
    refine ⟨_, rfl, ?_⟩
    rw [hk, REnv.loop.eq_2]
    obtain ⟨q1, q2, q3⟩ := quiet_before (obj := obj) (shift := shift) (meam := meam) (T := 1) hup0 hup1 hb 9
      (s := ⟨⟨fun _ => 0, (rescEnv obj shift meam).obj zeroGrid fun _ => 0, fun _ => 0, (rescEnv obj shift meam).obj zeroGrid fun _ => 0,
        fun _ => 1 / 10, fun _ => 0, (), 0, []⟩, zeroGrid,
        store (rescEnv obj shift meam).cols zeroGrid ⟨fun _ => 0, fun _ => 0, fun _ => 0, fun _ => 0, fun _ => 0⟩, true, []⟩)
      le_rfl ⟨rfl, rfl, ha, rfl, ha⟩ rfl
    rw [show (9 + 3 : Nat) = 3 * 4 by rfl, show (9 - 9 : Nat) = 0 by rfl] at q1 q2 q3
    simp only [q2, Bool.false_eq_true, if_false]
    rw [quiet_again h0 hab _ q1]
    split
    · exact quiet_loop h0 hab hup1 _ _ _ _ q1 q3
    · exact ⟨q1, q3⟩
  refine ⟨⟨if meam = true then restore (rescEnv obj shift meam).cols s.saved s.grid else s.grid, s.base.xiOpt, s.base.fOpt, s.points⟩,
    ?_, ?_, q.xiOpt, q.fOpt, hp⟩
  · unfold REnv.run
    simp only [Env.temperature]
    rw [if_neg (by norm_num)]
    simp only
    rw [if_neg (by norm_num), hs]
    rfl
  · intro hm
    simp only [hm]
    exact q.grid

end Demo

/-- **EAM and ADP: violated.** The ranges of the optimum are not saved.  Here rescaling leaves the objective as it is, yet the table
handed back has another objective than the recorded optimum, and a worse one than the start. -/
theorem C93_eam_violated : ∃ (R : REnv ℚ (Fin 4) Unit 4) (pick : Unit → Unit × Fin 4) (g : Grid ℚ) (x : Fin 4 → ℚ) (r : RRes ℚ (Fin 4)),
    R.meam = false ∧ EmbeddingOnly R ∧ (∀ g x g' x', R.rescale g x = some (g', x') → R.obj g' x' = R.obj g x) ∧
    R.run pick (.given 1) () g x = some r ∧ R.obj r.grid r.xi ≠ r.fOpt ∧ R.obj g x < R.obj r.grid r.xi := by
  obtain ⟨r, h1, h2, h3, h4, -⟩ := rescEnv_run (meam := false) (obj := fun g x => if x 0 = g.begin 2 then 1 else 2) (shift := 1) (a := 1) (b := 1)
    rfl rfl (by norm_num) le_rfl (by norm_num [zeroGrid]) (by norm_num [nextGrid])
  have ho : (if r.xi 0 = r.grid.begin 2 then (1 : ℚ) else 2) = 2 := by
    rw [h2 rfl, h3]
    norm_num [nextGrid]
  refine ⟨rescEnv (fun g x => if x 0 = g.begin 2 then 1 else 2) 1 false, _, zeroGrid, fun _ => 0, r, rfl, rescEnv_ok _ _ _, ?_, h1, ?_, ?_⟩
  · intro g x g' x' h
    simp only [rescEnv] at h ⊢
    split at h
    · next hg =>
      cases h
      simp only [if_true, hg]
      by_cases hx : x 0 = 0
      · simp [hx]
      · rw [if_neg hx, if_neg (by intro h; exact hx (by linarith))]
    · cases h
  · simp only [rescEnv]
    rw [ho, h4]
    norm_num
  · simp only [rescEnv]
    rw [ho]
    norm_num [zeroGrid]

/-- **Tables behind a rescaling: violated**, also for MEAM.  When rescaling lowers the objective below the recorded optimum, trial
steps between the two are not recorded: a better table was evaluated than the one handed back. -/
theorem C93_better_violated (meam : Bool) : ∃ (R : REnv ℚ (Fin 4) Unit 4) (pick : Unit → Unit × Fin 4) (g : Grid ℚ) (x : Fin 4 → ℚ)
    (r : RRes ℚ (Fin 4)), R.meam = meam ∧ EmbeddingOnly R ∧ R.run pick (.given 1) () g x = some r ∧ ∃ p ∈ r.points, R.obj p.1 p.2 < r.fOpt := by
  obtain ⟨r, h1, -, -, h4, h5⟩ := rescEnv_run (meam := meam) (obj := fun g x => (if x 0 = 0 then 2 else 3) / (1 + g.begin 2)) (shift := 0)
    (a := 2) (b := 1) (by norm_num [zeroGrid]) (by norm_num [nextGrid]) (by norm_num) (by norm_num) (by norm_num [zeroGrid])
    (by norm_num [nextGrid])
  refine ⟨rescEnv (fun g x => (if x 0 = 0 then 2 else 3) / (1 + g.begin 2)) 0 meam, _, zeroGrid, fun _ => 0, r, rfl, rescEnv_ok _ _ _, h1,
    (nextGrid, fun _ => 5), h5, ?_⟩
  rw [h4]
  norm_num [rescEnv, nextGrid]

/-- The same run for MEAM: the table handed back is the start again. -/
example : ∃ r, (rescEnv (fun g x => if x 0 = g.begin 2 then 1 else 2) 1 true).run (fun s => (s, 0)) (.given 1) () zeroGrid (fun _ => 0) =
    some r ∧ (if r.xi 0 = r.grid.begin 2 then (1 : ℚ) else 2) = 1 := by
  obtain ⟨r, h1, -, -, h4, -⟩ := rescEnv_run (meam := true) (obj := fun g x => if x 0 = g.begin 2 then 1 else 2) (shift := 1) (a := 1) (b := 1)
    rfl rfl (by norm_num) le_rfl (by norm_num [zeroGrid]) (by norm_num [nextGrid])
  exact ⟨r, h1, ((C93_meam _ rfl (rescEnv_ok _ _ _) _ _ _ _ _ r h1).1.symm.trans h4)⟩

/-- A build without rescaling: the run ends with a result and no table it has looked at is better. -/
example : ∃ r, ({ rescEnv (fun g x => (if x 0 = 0 then 2 else 3) / (1 + g.begin 2)) 0 false with resc := false }).run (fun s => (s, 0))
    (.given 1) () zeroGrid (fun _ => 0) = some r ∧ ∀ p ∈ r.points, r.fOpt ≤ (if p.2 0 = 0 then (2 : ℚ) else 3) / (1 + p.1.begin 2) := by
  have h : ∃ r, ({ rescEnv (fun g x => (if x 0 = 0 then 2 else 3) / (1 + g.begin 2)) 0 false with resc := false }).run (fun s => (s, 0))
      (.given 1) () zeroGrid (fun _ => 0) = some r := by
    unfold REnv.run
    simp only [Env.temperature]
    rw [if_neg (by norm_num)]
    simp only
    rw [if_neg (by norm_num)]
    exact ⟨_, rfl⟩
  obtain ⟨r, hr⟩ := h
  exact ⟨r, hr, (C93_still_partial _ (Or.inl rfl) _ _ _ _ _ r hr).2.2.2⟩

end Verif.Props
