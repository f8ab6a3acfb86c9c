/-
C28  Powell optimisation is monotone and stops.
-/
import Verif.Model.Powell
import Verif.Props.C27
import Mathlib.Algebra.Order.Archimedean.Real.Basic

set_option linter.unusedSectionVars false

namespace Verif.Props

open Verif.LineSearch Verif.Powell

variable {K : Type*} [Field K] [LinearOrder K] [IsStrictOrderedRing K] {ι : Type*} [DecidableEq ι] {N M : Nat}

/-- Value and residuals in the state are those of the parameters. -/
def Fits (E : Env K ι N M) (s : St K ι N M) : Prop := s.f = (E.obj s.xi).1 ∧ s.f1 = (E.obj s.xi).2

theorem gammaLoop_xi (E : Env K ι N M) (f0 : Fin M → K) (is : List (Fin N)) (g g' : Gam K ι N M) (o : Option (Fin N))
    (h : E.gammaLoop f0 is g = .ok (g', o)) : g'.xi = g.xi := by
  induction is generalizing g with
  | nil =>
    simp only [Env.gammaLoop, Except.ok.injEq, Prod.mk.injEq] at h
    rw [← h.1]
  | cons i is ih =>
    unfold Env.gammaLoop at h
    have hx : Function.update (Function.update g.xi (E.idx i) (g.xi (E.idx i) + eps * E.scale i)) (E.idx i)
        (g.xi (E.idx i)) = g.xi := by
      rw [Function.update_idem, Function.update_eq_self]
    split at h
    · cases h
    · simp only [hx] at h
      split at h
      · have h2 := ih _ h
        exact h2
      · simp only [Except.ok.injEq, Prod.mk.injEq] at h
        rw [← h.1]

theorem direction_other (E : Env K ι N M) (s : St K ι N M) (q : Fin N → K) (x : ι) (hx : ∀ i, E.idx i ≠ x) :
    E.direction s q x = s.delta x := by
  unfold Env.direction
  generalize List.finRange N = l
  generalize s.delta = dl
  induction l generalizing dl with
  | nil => rfl
  | cons i l ih => rw [List.foldl_cons, ih, Function.update_of_ne (hx i).symm]

theorem replace_keeps (E : Env K ι N M) (s s' : St K ι N M) (x1 x2 : K) (dn : ι → K) (j : Fin N)
    (h : E.replace s x1 x2 dn j = some s') :
    s'.xi = s.xi ∧ s'.f = s.f ∧ s'.f1 = s.f1 ∧ s'.delta = s.delta := by
  unfold Env.replace at h
  split at h
  · cases h
  · cases h; exact ⟨rfl, rfl, rfl, rfl⟩

/-- What a part of the run does to the state. -/
structure Good (E : Env K ι N M) (s s' : St K ι N M) : Prop where
  fits : Fits E s'
  le : s'.f ≤ s.f
  free : (∀ x, (∀ i, E.idx i ≠ x) → s.delta x = 0) →
    ∀ x, (∀ i, E.idx i ≠ x) → s'.xi x = s.xi x ∧ s'.delta x = 0

theorem Good.trans {E : Env K ι N M} {s s' s'' : St K ι N M} (h : Good E s s') (h' : Good E s' s'') : Good E s s'' :=
  ⟨h'.fits, h'.le.trans h.le, fun hd x hx => by
    have h1 := h.free hd
    have h2 := h'.free (fun y hy => (h1 y hy).2) x hx
    exact ⟨h2.1.trans (h1 x hx).1, h2.2⟩⟩

theorem moved_good (E : Env K ι N M) (s : St K ι N M) (hs : Fits E s) (q : Fin N → K) (r : Lin ι K (Fin M → K)) (c : Nat)
    (hr : linmin E.obj s.xi (E.direction s q) s.f s.f1 E.junk E.junk = .ok r) :
    Good E s (St.moved { s with calls := c, delta := E.direction s q } r) := by
  obtain ⟨h1, h2, h3, h4, h5, -⟩ := C26_linmin E.obj s.xi _ s.f s.f1 E.junk E.junk hs.1 hs.2 r hr
  refine ⟨⟨h3, h5⟩, by rw [hs.1]; exact h4, fun hd x hx => ?_⟩
  have hz : E.direction s q x = 0 := by rw [direction_other E s q x hx, hd x hx]
  constructor
  · show r.xi x = s.xi x
    rw [h1]
    simp [hz]
  · show r.del x = 0
    rw [h2]
    simp [hz]

theorem same_good (E : Env K ι N M) (s s' : St K ι N M) (hs : Fits E s) (hx : s'.xi = s.xi) (hf : s'.f = s.f)
    (hf1 : s'.f1 = s.f1) (hd : ∀ x, (∀ i, E.idx i ≠ x) → s'.delta x = s.delta x) : Good E s s' := by
  refine ⟨⟨by rw [hf, hx]; exact hs.1, by rw [hf1, hx]; exact hs.2⟩, hf.le, fun h x hx' => ⟨by rw [hx], ?_⟩⟩
  rw [hd x hx', h x hx']

theorem inner_good [NeZero N] (E : Env K ι N M) (n : Nat) (s s' : St K ι N M) (m : Nat) (hs : Fits E s)
    (h : E.inner n s m = .ok s') : Good E s s' := by
  induction n generalizing s m with
  | zero => cases h
  | succ n ih =>
    unfold Env.inner at h
    simp only at h
    split at h
    · cases h
      exact same_good E s _ hs rfl rfl rfl fun _ _ => rfl
    · split at h
      · cases h
        exact same_good E s _ hs rfl rfl rfl fun x hx => direction_other E s _ x hx
      · split at h
        · cases h
        · cases h
        · next r hr =>
          have hm := moved_good E s hs _ r (s.calls + 1) hr
          split at h
          · cases h
            exact hm
          · split at h
            · cases h
              exact hm
            · next s2 hs2 =>
              obtain ⟨k1, k2, k3, k4⟩ := replace_keeps E _ _ _ _ _ _ hs2
              have hm2 := hm.trans (same_good E _ s2 hm.fits k1 k2 k3 fun x _ => by rw [k4]; rfl)
              split at h
              · exact hm2.trans (ih s2 (m + 1) hm2.fits h)
              · cases h
                exact hm2

/-- `prepare` without rescaling keeps parameters and value; with rescaling the value is that of the new parameters. -/
theorem prepare_good (E : Env K ι N M) (s s' : St K ι N M) (b : Bool) (hs : Fits E s)
    (hr : ∀ f, E.rescale = some f → ∀ x, (E.obj (f x)).1 ≤ (E.obj x).1) (h : E.prepare s = .ok (s', b)) :
    Fits E s' ∧ s'.f ≤ s.f ∧ s'.delta = s.delta ∧ (E.rescale = none → s'.xi = s.xi) := by
  unfold Env.prepare Env.gammaInit at h
  split at h
  · cases h
  · next g hg =>
    simp only [Except.ok.injEq, Prod.mk.injEq] at h
    have hx := gammaLoop_xi _ _ _ _ _ _ hg
    simp only at hx
    rw [← h.1]
    refine ⟨⟨?_, ?_⟩, le_rfl, rfl, fun _ => hx⟩
    · show s.f = (E.obj g.xi).1
      rw [hx]; exact hs.1
    · show s.f1 = (E.obj g.xi).2
      rw [hx]; exact hs.2
  · next g i hg =>
    have hx := gammaLoop_xi _ _ _ _ _ _ hg
    simp only at hx
    split at h
    · simp only [Except.ok.injEq, Prod.mk.injEq] at h
      rw [← h.1]
      refine ⟨⟨?_, ?_⟩, le_rfl, rfl, fun _ => hx⟩
      · show s.f = (E.obj g.xi).1
        rw [hx]; exact hs.1
      · show s.f1 = (E.obj g.xi).2
        rw [hx]; exact hs.2
    · next f hf =>
      simp only at h
      split at h
      · cases h
      · next g' o hg' =>
        have hx' := gammaLoop_xi _ _ _ _ _ _ hg'
        simp only at hx'
        simp only [Except.ok.injEq, Prod.mk.injEq] at h
        rw [← h.1]
        refine ⟨⟨?_, ?_⟩, ?_, rfl, fun hn => ?_⟩
        · show _ = (E.obj g'.xi).1
          rw [hx']
        · show _ = (E.obj g'.xi).2
          rw [hx']
        · rw [hs.1, ← hx]
          exact hr f hf g.xi
        · rw [hn] at hf; cases hf

/-- Values of the objective at two states of the outer loop. -/
theorem outer_good [NeZero N] (E : Env K ι N M) (fuel : Nat) (s s' : St K ι N M) (n : Nat) (hs : Fits E s)
    (hr : ∀ f, E.rescale = some f → ∀ x, (E.obj (f x)).1 ≤ (E.obj x).1) (h : E.outer fuel s n = .ok s') :
    Fits E s' ∧ s'.f ≤ s.f ∧ (E.rescale = none → Good E s s') := by
  induction fuel generalizing s n with
  | zero => cases h
  | succ fuel ih =>
    unfold Env.outer at h
    split at h
    · cases h
    · next s1 hp =>
      cases h
      obtain ⟨g1, g2, g3, g4⟩ := prepare_good E s s' false hs hr hp
      refine ⟨g1, g2, fun hn => ⟨g1, g2, fun hd x hx => ⟨by rw [g4 hn], by rw [g3]; exact hd x hx⟩⟩⟩
    · next s1 hp =>
      obtain ⟨g1, g2, g3, g4⟩ := prepare_good E s s1 true hs hr hp
      have hsys : Good E s1 s1.system := same_good E s1 _ g1 rfl rfl rfl fun _ _ => rfl
      split at h
      · cases h
      · next s2 hi =>
        have hin := hsys.trans (inner_good E _ _ s2 0 hsys.fits hi)
        have key : Fits E s2 ∧ s2.f ≤ s.f ∧ (E.rescale = none → Good E s s2) := by
          refine ⟨hin.fits, hin.le.trans g2, fun hn => ?_⟩
          have : Good E s s1 := ⟨g1, g2, fun hd x hx => ⟨by rw [g4 hn], by rw [g3]; exact hd x hx⟩⟩
          exact this.trans hin
        split at h
        · cases h; exact key
        · split at h
          · obtain ⟨k1, k2, k3⟩ := ih s2 (n + 1) key.1 h
            exact ⟨k1, k2.trans key.2.1, fun hn => (key.2.2 hn).trans (k3 hn)⟩
          · cases h; exact key

/-- **C28, monotone.** If the optimiser returns, the value kept is the objective at the returned parameters and does not
exceed the objective at the start parameters.  Compiled with `RESCALE`, this needs that `rescale` does not increase the
objective. -/
theorem C28_monotone [NeZero N] (E : Env K ι N M) (fuel : Nat) (xi : ι → K) (s : St K ι N M)
    (hr : ∀ f, E.rescale = some f → ∀ x, (E.obj (f x)).1 ≤ (E.obj x).1) (h : E.run fuel xi = .ok s) :
    s.f = (E.obj s.xi).1 ∧ s.f1 = (E.obj s.xi).2 ∧ (E.obj s.xi).1 ≤ (E.obj xi).1 := by
  unfold Env.run at h
  split at h
  · cases h
    exact ⟨rfl, rfl, le_rfl⟩
  · obtain ⟨h1, h2, -⟩ := outer_good E fuel _ s 0 ⟨rfl, rfl⟩ hr h
    exact ⟨h1.1, h1.2, h1.1 ▸ h2⟩

/-- **C28, free parameters.** Without `RESCALE` only the parameters of the index list change. -/
theorem C28_free [NeZero N] (E : Env K ι N M) (fuel : Nat) (xi : ι → K) (s : St K ι N M) (hr : E.rescale = none)
    (h : E.run fuel xi = .ok s) (x : ι) (hx : ∀ i, E.idx i ≠ x) : s.xi x = xi x := by
  unfold Env.run at h
  split at h
  · cases h
    rfl
  · obtain ⟨-, -, h3⟩ := outer_good E fuel _ s 0 ⟨rfl, rfl⟩ (by intro f hf; rw [hr] at hf; cases hf) h
    exact ((h3 hr).free (fun _ _ => rfl) x hx).1

theorem linmin_fuel (E : Env K ι N M) (xi del : ι → K) (f : K) (f1 : Fin M → K) :
    linmin E.obj xi del f f1 E.junk E.junk ≠ .error .fuel := by
  intro h
  have := C27_linmin E.obj xi del f f1 E.junk E.junk
  rw [h] at this
  exact this

theorem gammaLoop_fuel (E : Env K ι N M) (f0 : Fin M → K) (is : List (Fin N)) (g : Gam K ι N M) :
    E.gammaLoop f0 is g ≠ .error .fuel := by
  induction is generalizing g with
  | nil => simp [Env.gammaLoop]
  | cons i is ih =>
    unfold Env.gammaLoop
    split
    · simp
    · simp only
      split
      · exact ih _
      · simp

theorem prepare_fuel (E : Env K ι N M) (s : St K ι N M) : E.prepare s ≠ .error .fuel := by
  unfold Env.prepare Env.gammaInit
  split
  · next e he =>
    intro h
    cases h
    exact gammaLoop_fuel _ _ _ _ he
  · simp
  · split
    · simp
    · simp only
      split
      · next e he =>
        intro h
        cases h
        exact gammaLoop_fuel _ _ _ _ he
      · simp

/-- The inner loop ends by itself. -/
theorem inner_fuel [NeZero N] (E : Env K ι N M) (n : Nat) (s : St K ι N M) (m : Nat) (hm : m < N + innerLoops + 1)
    (hn : N + innerLoops + 1 ≤ n + m) : E.inner n s m ≠ .error .fuel := by
  induction n generalizing s m with
  | zero => omega
  | succ n ih =>
    unfold Env.inner
    simp only
    split
    · simp
    · split
      · simp
      · split
        · next h => exact absurd h (linmin_fuel E _ _ _ _)
        · simp
        · split
          · simp
          · split
            · simp
            · split
              · next hc =>
                refine ih _ (m + 1) ?_ (by omega)
                rcases hc.1 with h | h
                · omega
                · have := h.1; omega
              · simp

/-- **C28, termination.** For an objective which is never negative, the number of turns of the outer loop is bounded by the
start value divided by `PRECISION / 10`. -/
theorem C28_terminates [NeZero N] (E : Env K ι N M) (fuel : Nat) (xi : ι → K)
    (hr : ∀ f, E.rescale = some f → ∀ x, (E.obj (f x)).1 ≤ (E.obj x).1) (hpos : ∀ x, 0 ≤ (E.obj x).1)
    (hf : (E.obj xi).1 < fuel * (1 / 100000000)) : E.run fuel xi ≠ .error .fuel := by
  have key : ∀ (fuel : Nat) (s : St K ι N M) (n : Nat), Fits E s → s.f < fuel * (1 / 100000000) →
      E.outer fuel s n ≠ .error .fuel := by
    intro fuel
    induction fuel with
    | zero =>
      intro s n hs hlt
      have := hpos s.xi
      rw [← hs.1] at this
      simp at hlt
      exact absurd hlt (not_lt.2 this)
    | succ fuel ih =>
      intro s n hs hlt
      unfold Env.outer
      split
      · next e he =>
        intro h
        cases h
        exact prepare_fuel _ _ he
      · simp
      · next s1 hp =>
        obtain ⟨g1, g2, -, -⟩ := prepare_good E s s1 true hs hr hp
        have hsys : Good E s1 s1.system := same_good E s1 _ g1 rfl rfl rfl fun _ _ => rfl
        split
        · next e he =>
          intro h
          cases h
          exact inner_fuel E _ _ _ (by omega) (by omega) he
        · next s2 hi =>
          have hin := hsys.trans (inner_good E _ _ s2 0 hsys.fits hi)
          split
          · simp
          · split
            · next hc =>
              apply ih _ _ hin.fits
              have hd : s1.f - s2.f > precision / 10 := by
                rcases hc.1 with h | h
                · exact h
                · have := hin.le; exact absurd h (by linarith)
              have hp : (precision : K) / 10 = 1 / 100000000 := by unfold precision; norm_num
              rw [hp] at hd
              push_cast at hlt
              linarith
            · simp
  unfold Env.run
  split
  · simp
  · exact key fuel _ 0 ⟨rfl, rfl⟩ hf

/-- In the real numbers there always is such a bound. -/
theorem C28_terminates_real {N : Nat} [NeZero N] (E : Env ℝ ι N M) (xi : ι → ℝ)
    (hr : ∀ f, E.rescale = some f → ∀ x, (E.obj (f x)).1 ≤ (E.obj x).1) (hpos : ∀ x, 0 ≤ (E.obj x).1) :
    ∃ n, ∀ fuel, n ≤ fuel → E.run fuel xi ≠ .error .fuel := by
  obtain ⟨n, hn⟩ := exists_nat_gt ((E.obj xi).1 * 100000000)
  refine ⟨n, fun fuel hf => C28_terminates E fuel xi hr hpos ?_⟩
  have : (n : ℝ) ≤ fuel := by exact_mod_cast hf
  linarith

/-- Two parameters, the first one free, residual `x₀ - x₁`, objective its square. -/
def sampleEnv : Env ℚ (Fin 2) 1 1 where
  obj := fun x => ((x 0 - x 1) ^ 2, fun _ => x 0 - x 1)
  idx := fun _ => 0
  bounds := none
  maxch := fun _ => none
  solve := fun _ _ p => ⟨0, p, 0, 0⟩
  sqrt := fun x => x
  flag := fun _ => false
  dEps := 4
  rescale := none
  junk := fun _ => 0

/-- The run improves the objective from 4 to less than 1 and leaves the second parameter alone. -/
example : (match sampleEnv.run 3 ![0, 2] with
    | .ok s => decide ((sampleEnv.obj s.xi).1 < 1 ∧ s.xi 1 = 2)
    | .error _ => false) = true := by decide +kernel

/-- **C28, break flag.** If the flag file is found at look number `m`, there are at most `m` turns of the outer loop. -/
theorem C28_flag {N : Nat} [NeZero N] (E : Env K ι N M) (m : Nat) (hm : 1 ≤ m) (hfl : E.flag m = true) (fuel : Nat) (hf : m ≤ fuel)
    (xi : ι → K) : E.run fuel xi = E.run m xi := by
  have key : ∀ (k fuel n : Nat) (s : St K ι N M), n + k = m → 1 ≤ k → k ≤ fuel → E.outer fuel s n = E.outer k s n := by
    intro k
    induction k with
    | zero => intro fuel n s _ h; omega
    | succ k ih =>
      intro fuel n s hn _ hk
      obtain ⟨fuel, rfl⟩ : ∃ g, fuel = g + 1 := ⟨fuel - 1, by omega⟩
      unfold Env.outer
      split
      · rfl
      · rfl
      · split
        · rfl
        · by_cases h0 : k = 0
          · have : n + 1 = m := by omega
            rw [this, hfl]
            rfl
          · rw [ih fuel (n + 1) _ (by omega) (by omega) (by omega)]
  unfold Env.run
  split
  · rfl
  · exact key m fuel 0 _ (by omega) hm hf

/-- The run and the line searches end: with the flag file at look `m` the bound on the turns does not matter. -/
theorem C28_flag_ends {N : Nat} [NeZero N] (E : Env K ι N M) (m : Nat) (hm : 1 ≤ m) (hfl : E.flag m = true) (fuel : Nat) (hf : m ≤ fuel)
    (xi : ι → K) : E.run fuel xi ≠ .error .fuel := by
  have key : ∀ (k n : Nat) (s : St K ι N M), n + k = m → 1 ≤ k → E.outer k s n ≠ .error .fuel := by
    intro k
    induction k with
    | zero => intro n s _ h; omega
    | succ k ih =>
      intro n s hn _
      unfold Env.outer
      split
      · next e he =>
        intro h
        cases h
        exact prepare_fuel _ _ he
      · simp
      · split
        · next e he =>
          intro h
          cases h
          exact inner_fuel E _ _ _ (by omega) (by omega) he
        · by_cases h0 : k = 0
          · have : n + 1 = m := by omega
            rw [this, if_pos hfl]
            simp
          · split
            · simp
            · split
              · exact ih _ _ (by omega) (by omega)
              · simp
  rw [C28_flag E m hm hfl fuel hf]
  unfold Env.run
  split
  · simp
  · exact key m 0 _ (by omega) hm

/-- As `sampleEnv`, but without the limit on the improvement: after two turns the run is only over because of the flag file. -/
def fallingEnv : Env ℚ (Fin 2) 1 1 := { sampleEnv with flag := fun n => decide (n = 2), dEps := 0 }

example : (match fallingEnv.run 2 ![0, 2], ({ fallingEnv with flag := fun _ => false } : Env ℚ (Fin 2) 1 1).run 2 ![0, 2] with
    | .ok _, .error .fuel => true
    | _, _ => false) = true := by decide +kernel

end Verif.Props
