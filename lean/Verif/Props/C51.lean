/-
C51  The linear system of the least-squares optimiser.

The solver is an arbitrary function, so "only systems of a certain form are handed to it" is stated as: exchanging it
for another one that agrees on systems of this form does not change the run.
-/
import Verif.Props.C28
import Mathlib.Data.Rat.Sqrt
import Mathlib.Algebra.BigOperators.Ring.Finset

set_option linter.unusedSectionVars false

open scoped BigOperators

namespace Verif.Props

open Verif.LineSearch Verif.Powell

variable {K : Type*} [Field K] [LinearOrder K] [IsStrictOrderedRing K] {ι : Type*} [DecidableEq ι] {N M : Nat}

/-- `γᵀ γ`. -/
def gram (g : Fin M → Fin N → K) : Fin N → Fin N → K := fun i k => ∑ j, g j i * g j k

/-- `-γᵀ f`. -/
def negGrad (g : Fin M → Fin N → K) (f : Fin M → K) : Fin N → K := fun i => ∑ j, -(g j i * f j)

theorem rhs_eq (g : Fin M → Fin N → K) (f : Fin M → K) : rhs g f = negGrad g f := by
  funext i
  simp [rhs, negGrad]

theorem lesInit_eq (g : Fin M → Fin N → K) : lesInit g = gram g := by
  funext i k
  unfold lesInit gram
  split
  · next h => subst h; rfl
  · split
    · rfl
    · exact Finset.sum_congr rfl fun j _ => mul_comm _ _

/-- One turn of the loop in `lineqsys_update` sets the two entries `(i, k)` and `(k, i)`. -/
theorem lesStep (g : Fin M → Fin N → K) (les : Fin N → Fin N → K) (i k a b : Fin N) :
    (let les' := Function.update les i (Function.update (les i) k (∑ j, g j i * g j k));
      Function.update les' k (Function.update (les' k) i (les' i k))) a b =
    if (a = i ∧ b = k) ∨ (a = k ∧ b = i) then gram g a b else les a b := by
  have hs : ∑ j, g j k * g j i = ∑ j, g j i * g j k := Finset.sum_congr rfl fun j _ => mul_comm _ _
  simp only [Function.update_apply]
  by_cases ha : a = k
  · subst ha
    by_cases hb : b = i
    · subst hb
      simp [gram, hs]
    · by_cases hai : a = i
      · subst hai
        by_cases hba : b = a
        · exact absurd hba hb
        · simp [hba]
      · simp [hb, hai]
  · by_cases hai : a = i
    · subst hai
      by_cases hb : b = k
      · subst hb; simp [gram, ha]
      · simp [ha, hb]
    · simp [ha, hai]

theorem lesUpdate_apply (g : Fin M → Fin N → K) (les : Fin N → Fin N → K) (i a b : Fin N) :
    lesUpdate g les i a b = if a = i ∨ b = i then gram g a b else les a b := by
  unfold lesUpdate
  have key : ∀ (l : List (Fin N)) (les : Fin N → Fin N → K),
      (l.foldl (fun les k =>
        let les := Function.update les i (Function.update (les i) k (∑ j, g j i * g j k));
        Function.update les k (Function.update (les k) i (les i k))) les) a b =
      if (a = i ∧ b ∈ l) ∨ (b = i ∧ a ∈ l) then gram g a b else les a b := by
    intro l
    induction l with
    | nil => intro les; simp
    | cons k l ih =>
      intro les
      rw [List.foldl_cons, ih]
      by_cases h : (a = i ∧ b ∈ l) ∨ (b = i ∧ a ∈ l)
      · rw [if_pos h, if_pos]
        rcases h with ⟨h1, h2⟩ | ⟨h1, h2⟩
        · exact Or.inl ⟨h1, by simp [h2]⟩
        · exact Or.inr ⟨h1, by simp [h2]⟩
      · rw [if_neg h, lesStep]
        by_cases h' : (a = i ∧ b = k) ∨ (a = k ∧ b = i)
        · rw [if_pos h', if_pos]
          rcases h' with ⟨h1, h2⟩ | ⟨h1, h2⟩
          · exact Or.inl ⟨h1, by simp [h2]⟩
          · exact Or.inr ⟨h2, by simp [h1]⟩
        · rw [if_neg h', if_neg]
          rintro (⟨h1, h2⟩ | ⟨h1, h2⟩)
          · rcases List.mem_cons.1 h2 with h2 | h2
            · exact h' (Or.inl ⟨h1, h2⟩)
            · exact h (Or.inl ⟨h1, h2⟩)
          · rcases List.mem_cons.1 h2 with h2 | h2
            · exact h' (Or.inr ⟨h2, h1⟩)
            · exact h (Or.inr ⟨h1, h2⟩)
  rw [key]
  simp [List.mem_finRange]

/-- Updating row and column `i` after a change of column `i` of `γ` gives the matrix of the new `γ`. -/
theorem lesUpdate_setCol (g : Fin M → Fin N → K) (i : Fin N) (c : Fin M → K) :
    lesUpdate (setCol g i c) (gram g) i = gram (setCol g i c) := by
  funext a b
  rw [lesUpdate_apply]
  split
  · rfl
  · next h =>
    push Not at h
    unfold gram setCol
    refine Finset.sum_congr rfl fun j _ => ?_
    rw [Function.update_of_ne h.1, Function.update_of_ne h.2]

/-- The system belongs to `γ` and the residuals at the current parameters. -/
def SystemOk (E : Env K ι N M) (s : St K ι N M) : Prop :=
  s.les = gram s.gamma ∧ s.p = negGrad s.gamma (E.obj s.xi).2

theorem replace_system (E : Env K ι N M) (s s' : St K ι N M) (hs : Fits E s) (hl : s.les = gram s.gamma) (x1 x2 : K)
    (dn : ι → K) (j : Fin N) (h : E.replace s x1 x2 dn j = some s') : SystemOk E s' := by
  unfold Env.replace Env.gammaUpdate at h
  split at h
  · cases h
  · next g dn' hg =>
    cases h
    split at hg
    · cases hg
    · simp only at hg
      split at hg
      · simp only [Option.some.injEq, Prod.mk.injEq] at hg
        obtain ⟨rfl, -⟩ := hg
        refine ⟨?_, ?_⟩
        · show lesUpdate _ s.les j = gram _
          rw [hl, lesUpdate_setCol]
        · show rhs _ s.f1 = negGrad _ (E.obj s.xi).2
          rw [rhs_eq, hs.2]
      · cases hg

/-- Another solver. -/
def withSolve (E : Env K ι N M) (f : Nat → (Fin N → Fin N → K) → (Fin N → K) → Solved K N) : Env K ι N M :=
  { E with solve := f }

theorem withSolve_gammaLoop (E : Env K ι N M) (f) (f0 : Fin M → K) (is : List (Fin N)) (g : Gam K ι N M) :
    (withSolve E f).gammaLoop f0 is g = E.gammaLoop f0 is g := by
  induction is generalizing g with
  | nil => rfl
  | cons i is ih =>
    unfold Env.gammaLoop
    simp only [ih]
    rfl

theorem withSolve_prepare (E : Env K ι N M) (f) (s : St K ι N M) : (withSolve E f).prepare s = E.prepare s := by
  unfold Env.prepare Env.gammaInit
  simp only [withSolve_gammaLoop]
  rfl

theorem withSolve_inner [NeZero N] (E : Env K ι N M) (f) (hf : ∀ n g x,
    f n (gram g) (negGrad g (E.obj x).2) = E.solve n (gram g) (negGrad g (E.obj x).2)) (n : Nat) (s : St K ι N M) (m : Nat)
    (hs : Fits E s) (hl : SystemOk E s) : (withSolve E f).inner n s m = E.inner n s m := by
  induction n generalizing s m with
  | zero => rfl
  | succ n ih =>
    have hsolve : (withSolve E f).solve s.calls s.les s.p = E.solve s.calls s.les s.p := by
      show f s.calls s.les s.p = _
      rw [hl.1, hl.2, hf]
    unfold Env.inner
    rw [hsolve]
    have e1 : ∀ t q, (withSolve E f).direction t q = E.direction t q := fun _ _ => rfl
    have e2 : ∀ t, (withSolve E f).outOfControl t = E.outOfControl t := fun _ => rfl
    have e3 : (withSolve E f).obj = E.obj := rfl
    have e4 : (withSolve E f).junk = E.junk := rfl
    have e5 : ∀ t a b c d, (withSolve E f).replace t a b c d = E.replace t a b c d := fun _ _ _ _ _ => rfl
    simp only [e1, e2, e3, e4, e5]
    split
    · rfl
    · split
      · rfl
      · split
        · rfl
        · rfl
        · next r hr =>
          split
          · rfl
          · split
            · rfl
            · next s2 hs2 =>
              have hm := moved_good E s hs _ r (s.calls + 1) hr
              have hl2 := replace_system E _ s2 hm.fits hl.1 _ _ _ _ hs2
              obtain ⟨k1, k2, k3, k4⟩ := replace_keeps E _ _ _ _ _ _ hs2
              have hfit : Fits E s2 := by
                refine ⟨?_, ?_⟩
                · rw [k1, k2]; exact hm.fits.1
                · rw [k1, k3]; exact hm.fits.2
              rw [ih s2 (m + 1) hfit hl2]

/-- **C51, system.** Only systems `γᵀγ q = -γᵀf`, with `f` the residuals at some parameters, are handed to the solver (to be
precise: at the current ones, `SystemOk`). -/
theorem C51_system [NeZero N] (E : Env K ι N M) (f : Nat → (Fin N → Fin N → K) → (Fin N → K) → Solved K N)
    (hf : ∀ n g x, f n (gram g) (negGrad g (E.obj x).2) = E.solve n (gram g) (negGrad g (E.obj x).2))
    (fuel : Nat) (xi : ι → K) (hr : E.rescale = none) : (withSolve E f).run fuel xi = E.run fuel xi := by
  have key : ∀ (fuel n : Nat) (s : St K ι N M), Fits E s → (withSolve E f).outer fuel s n = E.outer fuel s n := by
    intro fuel
    induction fuel with
    | zero => intro n s _; rfl
    | succ fuel ih =>
      intro n s hs
      unfold Env.outer
      rw [withSolve_prepare]
      split
      · rfl
      · rfl
      · next s1 hp =>
        obtain ⟨g1, -, -, -⟩ := prepare_good E s s1 true hs (by intro g hg; rw [hr] at hg; cases hg) hp
        have hsys : Good E s1 s1.system := same_good E s1 _ g1 rfl rfl rfl fun _ _ => rfl
        have hl : SystemOk E s1.system := ⟨lesInit_eq _, by
          show rhs _ _ = _
          rw [rhs_eq, g1.2]; rfl⟩
        rw [withSolve_inner E f hf _ _ _ hsys.fits hl]
        split
        · rfl
        · next s2 hi =>
          have hin := hsys.trans (inner_good E _ _ s2 0 hsys.fits hi)
          rw [ih _ _ hin.fits]
          rfl
  unfold Env.run
  have : (withSolve E f).outer fuel ((withSolve E f).first xi) 0 = E.outer fuel (E.first xi) 0 :=
    key fuel 0 (E.first xi) ⟨rfl, rfl⟩
  rw [this]
  rfl

/-- What `γ` and the directions should be: difference quotients of the residuals at `xi`, normalised, and the directions
scaled alike. -/
structure Derivs (E : Env K ι N M) (xi : ι → K) (g : Gam K ι N M) : Prop where
  gamma : ∀ i j, g.gamma j i =
    ((E.obj fun x => if x = E.idx i then xi x + 1 / 1000 * E.scale i else xi x).2 j - (E.obj xi).2 j) /
      (1 / 1000 * E.scale i) * g.d i i
  diag : ∀ i k, i ≠ k → g.d i k = 0
  unit : ∀ i, g.d i i = 1 / E.norm (fun j =>
    ((E.obj fun x => if x = E.idx i then xi x + 1 / 1000 * E.scale i else xi x).2 j - (E.obj xi).2 j) /
      (1 / 1000 * E.scale i))

theorem column_eq (E : Env K ι N M) (xi : ι → K) (f0 : Fin M → K) (i : Fin N) :
    E.column xi f0 i = fun j => ((E.obj fun x => if x = E.idx i then xi x + 1 / 1000 * E.scale i else xi x).2 j - f0 j) /
      (1 / 1000 * E.scale i) := by
  funext j
  unfold Env.column
  have : Function.update xi (E.idx i) (xi (E.idx i) + eps * E.scale i) =
      fun x => if x = E.idx i then xi x + 1 / 1000 * E.scale i else xi x := by
    funext x
    rw [Function.update_apply]
    by_cases h : x = E.idx i
    · simp only [h, if_true, eps]
    · simp only [h, if_false]
  rw [this]
  rfl

theorem gammaLoop_spec (E : Env K ι N M) (f0 : Fin M → K) (is : List (Fin N)) (hn : is.Nodup) (g g' : Gam K ι N M)
    (hd : ∀ i ∈ is, g.d i i = 1) (h : E.gammaLoop f0 is g = .ok (g', none)) :
    (∀ i ∈ is, (∀ j, g'.gamma j i = E.column g.xi f0 i j / E.norm (E.column g.xi f0 i)) ∧
      g'.d i i = 1 / E.norm (E.column g.xi f0 i)) ∧
    (∀ i, i ∉ is → (∀ j, g'.gamma j i = g.gamma j i) ∧ g'.d i i = g.d i i) ∧
    (∀ i k, i ≠ k → g'.d i k = g.d i k) := by
  induction is generalizing g with
  | nil =>
    simp only [Env.gammaLoop, Except.ok.injEq, Prod.mk.injEq, and_true] at h
    subst h
    simp
  | cons i is ih =>
    unfold Env.gammaLoop at h
    have hx : Function.update (Function.update g.xi (E.idx i) (g.xi (E.idx i) + eps * E.scale i)) (E.idx i)
        (g.xi (E.idx i)) = g.xi := by
      rw [Function.update_idem, Function.update_eq_self]
    split at h
    · cases h
    · simp only [hx] at h
      split at h
      · have hni : i ∉ is := (List.nodup_cons.1 hn).1
        obtain ⟨h1, h2, h3⟩ := ih (List.nodup_cons.1 hn).2 _ (fun k hk => by
          have : k ≠ i := fun e => hni (e ▸ hk)
          simp only [Function.update_of_ne this]
          exact hd k (by simp [hk])) h
        refine ⟨fun k hk => ?_, fun k hk => ?_, fun a b hab => ?_⟩
        · rcases List.mem_cons.1 hk with rfl | hk
          · obtain ⟨e1, e2⟩ := h2 k hni
            refine ⟨fun j => ?_, ?_⟩
            · rw [e1 j]; simp [setCol]
            · rw [e2]; simp [hd k (by simp)]
          · exact h1 k hk
        · have hki : k ≠ i := fun e => hk (by simp [e])
          obtain ⟨e1, e2⟩ := h2 k (fun e => hk (by simp [e]))
          refine ⟨fun j => ?_, ?_⟩
          · rw [e1 j]; simp [setCol, Function.update_of_ne hki]
          · rw [e2]; simp [Function.update_of_ne hki]
        · rw [h3 a b hab]
          by_cases ha : a = i
          · subst ha
            simp [Function.update_of_ne (Ne.symm hab)]
          · simp [Function.update_of_ne ha]
      · simp at h

/-- **C51, derivatives (partial).** If the vector handed over holds the residuals at the current parameters, as in the first
turn of the outer loop and after rescaling, `γ` consists of normalised difference quotients. -/
theorem C51_derivs_partial (E : Env K ι N M) (gamma : Fin M → Fin N → K) (xi : ι → K) (g : Gam K ι N M)
    (h : E.gammaInit gamma xi (E.obj xi).2 = .ok (g, none)) : Derivs E xi g := by
  obtain ⟨h1, -, h3⟩ := gammaLoop_spec E (E.obj xi).2 (List.finRange N) (List.nodup_finRange N) _ g
    (fun i _ => by simp) h
  refine ⟨fun i j => ?_, fun i k hik => ?_, fun i => ?_⟩
  · obtain ⟨e1, e2⟩ := h1 i (List.mem_finRange i)
    rw [e1 j, e2, column_eq, mul_one_div]
  · rw [h3 i k hik]
    simp [hik]
  · obtain ⟨-, e2⟩ := h1 i (List.mem_finRange i)
    rw [e2, column_eq]

/-- The first turn of the outer loop is of this kind. -/
theorem C51_first (E : Env K ι N M) (xi : ι → K) : (E.first xi).f2 = (E.obj (E.first xi).xi).2 := rfl

/-- Residual `x₀ - x₁`, only `x₀` free; the solver is off by a factor of two. -/
def derivEnv : Env ℚ (Fin 2) 1 1 where
  obj := fun x => ((x 0 - x 1) ^ 2, fun _ => x 0 - x 1)
  idx := fun _ => 0
  bounds := none
  maxch := fun _ => none
  solve := fun _ _ p => ⟨0, fun i => p i / 2, 0, 0⟩
  sqrt := Rat.sqrt
  flag := fun _ => false
  dEps := 0
  rescale := none
  junk := fun _ => 0

/-- The state at the begin of the second turn of the outer loop. -/
def second (E : Env ℚ (Fin 2) 1 1) (xi : Fin 2 → ℚ) : Option (St ℚ (Fin 2) 1 1) :=
  match E.prepare (E.first xi) with
  | .ok (s, true) =>
    match E.inner (1 + innerLoops + 1) s.system 0 with
    | .ok s' => if s.f - s'.f > precision / 10 ∧ s.f - s'.f > E.dEps then some s' else none
    | .error _ => none
  | _ => none

/-- **C51, derivatives: violated.** From the second turn on `gamma_init` subtracts `forces_2`, which after a line search holds
the residuals of the second best point and not those at the current parameters. The derivative of the residual is 1
everywhere, so the direction should stay 1; it becomes something else. -/
theorem C51_derivs_violated : ∃ s g, second derivEnv ![0, 2] = some s ∧
    derivEnv.gammaInit s.gamma s.xi s.f2 = .ok (g, none) ∧ ¬ Derivs derivEnv s.xi g := by
  have h : (match second derivEnv ![0, 2] with
      | none => false
      | some s => match derivEnv.gammaInit s.gamma s.xi s.f2 with
        | .ok (g, none) => decide (g.d 0 0 ≠ 1 / derivEnv.norm (fun j =>
            ((derivEnv.obj fun x => if x = derivEnv.idx 0 then s.xi x + 1 / 1000 * derivEnv.scale 0 else s.xi x).2 j -
              (derivEnv.obj s.xi).2 j) / (1 / 1000 * derivEnv.scale 0)))
        | _ => false) = true := by decide +kernel
  split at h
  · cases h
  · next s hs =>
    split at h
    · next g hg =>
      exact ⟨s, g, hs, hg, fun hd => (of_decide_eq_true h) (hd.unit 0)⟩
    · cases h

/-- **C51, replaced direction.** When a direction is replaced after a line search along `dn`, the column of `γ` is the difference quotient of
the residuals at the two best points, corrected by a multiple of the residuals, and the direction is `dn`; both are divided by
the same number, the norm of the column, which is not small.  All other columns and directions stay. -/
theorem C51_replace (E : Env K ι N M) (s s' : St K ι N M) (x1 x2 : K) (dn : ι → K) (j : Fin N)
    (h : E.replace s x1 x2 dn j = some s') :
    ∃ c mu : K, 1 / 1000000000000 < c ∧ mu = (∑ i, (s.f1 i - s.f2 i) / (x1 - x2) * s.f1 i) / s.f ∧
      c = E.sqrt (∑ i, ((s.f1 i - s.f2 i) / (x1 - x2) - mu * s.f1 i) * ((s.f1 i - s.f2 i) / (x1 - x2) - mu * s.f1 i)) ∧
      (∀ i, c * s'.gamma i j = (s.f1 i - s.f2 i) / (x1 - x2) - mu * s.f1 i) ∧ (∀ k, c * s'.d k j = dn (E.idx k)) ∧
      (∀ i l, l ≠ j → s'.gamma i l = s.gamma i l) ∧ (∀ k l, l ≠ j → s'.d k l = s.d k l) := by
  unfold Env.replace Env.gammaUpdate at h
  split at h
  · cases h
  · next g dn' hg =>
    split at hg
    · cases hg
    · simp only at hg
      split at hg
      · next hbig =>
        simp only [Option.some.injEq, Prod.mk.injEq] at hg
        obtain ⟨rfl, rfl⟩ := hg
        cases h
        refine ⟨_, _, hbig, rfl, rfl, fun i => ?_, fun k => ?_, fun i l hl => ?_, fun k l hl => ?_⟩
        · have hne : E.norm (fun i => (s.f1 i - s.f2 i) / (x1 - x2) -
              (∑ i, (s.f1 i - s.f2 i) / (x1 - x2) * s.f1 i) / s.f * s.f1 i) ≠ 0 := by
            refine ne_of_gt (lt_trans ?_ hbig)
            unfold verySmall; norm_num
          simp only [setCol, Function.update_self]
          exact mul_div_cancel₀ _ hne
        · have hne : E.norm (fun i => (s.f1 i - s.f2 i) / (x1 - x2) -
              (∑ i, (s.f1 i - s.f2 i) / (x1 - x2) * s.f1 i) / s.f * s.f1 i) ≠ 0 := by
            refine ne_of_gt (lt_trans ?_ hbig)
            unfold verySmall; norm_num
          simp only [Function.update_self]
          exact mul_div_cancel₀ _ hne
        · simp only [setCol, Function.update_of_ne hl]
        · simp only [Function.update_of_ne hl]
      · cases hg

/-- Consequence if the objective is the sum of the squared residuals: along the new direction the linearised objective does not
change, as it should be in the minimum of a line search. -/
theorem C51_stationary (E : Env K ι N M) (s s' : St K ι N M) (x1 x2 : K) (dn : ι → K) (j : Fin N)
    (h : E.replace s x1 x2 dn j = some s') (hf : s.f = ∑ i, s.f1 i * s.f1 i) : ∑ i, s'.gamma i j * s.f1 i = 0 := by
  have hne : s.f ≠ 0 := by
    intro h0
    unfold Env.replace Env.gammaUpdate at h
    rw [if_pos (Or.inr h0)] at h
    cases h
  obtain ⟨c, mu, hc, hmu, -, hg, -⟩ := C51_replace E s s' x1 x2 dn j h
  have hc0 : c ≠ 0 := ne_of_gt (lt_trans (by norm_num) hc)
  have : c * ∑ i, s'.gamma i j * s.f1 i = 0 := by
    rw [Finset.mul_sum]
    have e : ∀ i, c * (s'.gamma i j * s.f1 i) = (s.f1 i - s.f2 i) / (x1 - x2) * s.f1 i - mu * (s.f1 i * s.f1 i) := fun i => by
      rw [← mul_assoc, hg i]; ring
    rw [Finset.sum_congr rfl fun i _ => e i, Finset.sum_sub_distrib, ← Finset.mul_sum, ← hf, hmu, div_mul_cancel₀ _ hne, sub_self]
  rcases mul_eq_zero.1 this with h0 | h0
  · exact absurd h0 hc0
  · exact h0

/-- Two residuals, the line search went from 0 to 1: the column is normalised by 2. -/
example : (({ derivEnv with } : Env ℚ (Fin 2) 1 1).replace
      { derivEnv.first ![0, 2] with f1 := fun _ => 1, f2 := fun _ => 2, f := 2 } 1 0 ![6, 0] 0).any
    (fun s => decide (s.gamma 0 0 = -1 ∧ s.d 0 0 = 12)) = true := by decide +kernel

end Verif.Props
