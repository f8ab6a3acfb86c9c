/-
C56  Optimisers and the bounds of the parameters.
-/
import Verif.Props.C29
import Verif.Props.C51
import Verif.Props.C55

set_option linter.unusedSectionVars false

open scoped BigOperators

namespace Verif.Props

open Verif.Annealing

variable {K : Type*} [Field K] [LinearOrder K] [IsStrictOrderedRing K] {ι σ : Type*} [DecidableEq ι] {N M : Nat}

/-! ### Specification -/

/-- All free parameters are within their bounds. -/
def InBounds (idx : Fin N → ι) (bounds : Fin N → K × K) (x : ι → K) : Prop :=
  ∀ n, (bounds n).1 ≤ x (idx n) ∧ x (idx n) ≤ (bounds n).2

/-- The place proposed with random number `u` from `x` with displacement `v`. -/
def proposal (x v u : K) : K := x - v + 2 * v * u

/-! ### Simulated annealing: one move -/

theorem proposal_eq (x v u : K) : x + (2 * u - 1) * v = proposal x v u := by unfold proposal; ring

/-- `k` draws before the current one were outside: the result is the first proposal inside, or else the last one. -/
theorem tries_spec (draw : σ → σ × K) (lo hi x v : K) : ∀ (n : Nat) (s : σ) (t : K),
    (∃ m < n, (lo ≤ proposal x v (drawNo draw s m) ∧ proposal x v (drawNo draw s m) ≤ hi) ∧
      (∀ l < m, ¬ (lo ≤ proposal x v (drawNo draw s l) ∧ proposal x v (drawNo draw s l) ≤ hi)) ∧
      (tries draw lo hi x v n s t).2 = proposal x v (drawNo draw s m)) ∨
    ((∀ m < n, ¬ (lo ≤ proposal x v (drawNo draw s m) ∧ proposal x v (drawNo draw s m) ≤ hi)) ∧
      (tries draw lo hi x v n s t).2 = if n = 0 then t else proposal x v (drawNo draw s (n - 1))) := by
  intro n
  induction n with
  | zero => intro s t; right; simp [tries]
  | succ n ih =>
    intro s t
    rw [tries]
    simp only [proposal_eq]
    by_cases h : lo ≤ proposal x v (draw s).2 ∧ proposal x v (draw s).2 ≤ hi
    · left
      refine ⟨0, by omega, h, by omega, ?_⟩
      rw [if_pos (by simpa using h)]
      rfl
    · rw [if_neg (by simpa using h)]
      rcases ih (draw s).1 (proposal x v (draw s).2) with ⟨m, hm, h1, h2, h3⟩ | ⟨h1, h2⟩
      · left
        refine ⟨m + 1, by omega, h1, ?_, h3⟩
        intro l hl
        cases l with
        | zero => exact h
        | succ l => exact h2 l (by omega)
      · right
        refine ⟨?_, ?_⟩
        · intro m hm
          cases m with
          | zero => exact h
          | succ m => exact h1 m (by omega)
        · rw [h2]
          cases n with
          | zero => simp [drawNo]
          | succ n => simp [drawNo]

/-- **C56, one annealing move.** The displacement is at most the width of the range, the other parameters stay, and the chosen
parameter goes to the first of ten random places which is inside the bounds.  Missing for the full claim: if all ten are
outside, the last one is taken (`C56_move_violated`). -/
theorem C56_move_partial (draw : σ → σ × K) (idx : Fin N → ι) (bounds : Fin N → K × K) (s : σ) (n : Fin N) (xi : ι → K)
    (v : Fin N → K) (m : Nat) (hm : m < 10)
    (hin : (bounds n).1 ≤ proposal (xi (idx n)) (min (v n) ((bounds n).2 - (bounds n).1)) (drawNo draw s m) ∧
      proposal (xi (idx n)) (min (v n) ((bounds n).2 - (bounds n).1)) (drawNo draw s m) ≤ (bounds n).2)
    (hfirst : ∀ l < m, ¬ ((bounds n).1 ≤ proposal (xi (idx n)) (min (v n) ((bounds n).2 - (bounds n).1)) (drawNo draw s l) ∧
      proposal (xi (idx n)) (min (v n) ((bounds n).2 - (bounds n).1)) (drawNo draw s l) ≤ (bounds n).2)) :
    (apotMove draw idx bounds s n xi v).2.2 = Function.update v n (min (v n) ((bounds n).2 - (bounds n).1)) ∧
    (apotMove draw idx bounds s n xi v).2.1 =
      Function.update xi (idx n) (proposal (xi (idx n)) (min (v n) ((bounds n).2 - (bounds n).1)) (drawNo draw s m)) := by
  have hv : (if v n > (bounds n).2 - (bounds n).1 then Function.update v n ((bounds n).2 - (bounds n).1) else v) =
      Function.update v n (min (v n) ((bounds n).2 - (bounds n).1)) := by
    by_cases h : v n > (bounds n).2 - (bounds n).1
    · rw [if_pos h, min_eq_right h.le]
    · rw [if_neg h, min_eq_left (not_lt.1 h), Function.update_eq_self]
  unfold apotMove
  simp only [hv, Function.update_self, true_and]
  congr 1
  rcases tries_spec draw (bounds n).1 (bounds n).2 (xi (idx n)) (min (v n) ((bounds n).2 - (bounds n).1)) 10 s 0 with
    ⟨k, hk, h1, h2, h3⟩ | ⟨h1, _⟩
  · rw [h3]
    have : k = m := by
      rcases lt_trichotomy k m with h | h | h
      · exact absurd h1 (hfirst k h)
      · exact h
      · exact absurd hin (h2 m h)
    rw [this]
  · exact absurd hin (h1 m hm)

/-- **C56 is violated by annealing moves.** If all ten random places are outside of the bounds, the parameter goes to the
last one, outside. -/
theorem C56_move_violated (draw : σ → σ × K) (idx : Fin N → ι) (bounds : Fin N → K × K) (s : σ) (n : Fin N) (xi : ι → K)
    (v : Fin N → K)
    (hout : ∀ m < 10, ¬ ((bounds n).1 ≤ proposal (xi (idx n)) (min (v n) ((bounds n).2 - (bounds n).1)) (drawNo draw s m) ∧
      proposal (xi (idx n)) (min (v n) ((bounds n).2 - (bounds n).1)) (drawNo draw s m) ≤ (bounds n).2)) :
    ¬ InBounds idx bounds (apotMove draw idx bounds s n xi v).2.1 := by
  have hv : (if v n > (bounds n).2 - (bounds n).1 then Function.update v n ((bounds n).2 - (bounds n).1) else v) =
      Function.update v n (min (v n) ((bounds n).2 - (bounds n).1)) := by
    by_cases h : v n > (bounds n).2 - (bounds n).1
    · rw [if_pos h, min_eq_right h.le]
    · rw [if_neg h, min_eq_left (not_lt.1 h), Function.update_eq_self]
  intro h
  have hn := h n
  unfold apotMove at hn
  simp only [hv, Function.update_self] at hn
  rcases tries_spec draw (bounds n).1 (bounds n).2 (xi (idx n)) (min (v n) ((bounds n).2 - (bounds n).1)) 10 s 0 with
    ⟨k, hk, h1, h2, h3⟩ | ⟨h1, h2⟩
  · exact hout k hk h1
  · rw [h2] at hn
    exact hout 9 (by omega) hn

/-! ### Simulated annealing: the whole run -/

/-- Good luck: from any state on, among ten random numbers in a row there is one in the second and one in the third quarter. -/
def Lucky (draw : σ → σ × K) : Prop :=
  ∀ s, (∃ m < 10, 1 / 4 ≤ drawNo draw s m ∧ drawNo draw s m ≤ 1 / 2) ∧ (∃ m < 10, 1 / 2 ≤ drawNo draw s m ∧ drawNo draw s m ≤ 3 / 4)

theorem lucky_hit {draw : σ → σ × K} (hl : Lucky draw) {lo hi x v : K} (h1 : lo ≤ x) (h2 : x ≤ hi) (hv : 0 ≤ v) (hv' : v ≤ hi - lo)
    (s : σ) : ∃ m < 10, lo ≤ proposal x v (drawNo draw s m) ∧ proposal x v (drawNo draw s m) ≤ hi := by
  by_cases hx : x ≤ (lo + hi) / 2
  · obtain ⟨m, hm, ha, hb⟩ := (hl s).2
    refine ⟨m, hm, ?_, ?_⟩
    · unfold proposal
      nlinarith
    · unfold proposal
      nlinarith
  · obtain ⟨m, hm, ha, hb⟩ := (hl s).1
    push Not at hx
    refine ⟨m, hm, ?_, ?_⟩
    · unfold proposal
      nlinarith
    · unfold proposal
      nlinarith

/-- The state of the annealer is inside. -/
structure Inside (idx : Fin N → ι) (bounds : Fin N → K × K) (s : Annealing.St K ι σ N) : Prop where
  cur : InBounds idx bounds s.xi
  opt : InBounds idx bounds s.xiOpt
  disp : ∀ n, 0 ≤ s.v n
  all : ∀ p ∈ s.seen, InBounds idx bounds p

theorem move_inside {draw : σ → σ × K} (hl : Lucky draw) {idx : Fin N → ι} (hinj : Function.Injective idx) {bounds : Fin N → K × K}
    (s : σ) (n : Fin N) {xi : ι → K} (hx : InBounds idx bounds xi) {v : Fin N → K} (hv : ∀ n, 0 ≤ v n) :
    InBounds idx bounds (apotMove draw idx bounds s n xi v).2.1 ∧ ∀ m, 0 ≤ (apotMove draw idx bounds s n xi v).2.2 m := by
  have hw : 0 ≤ (bounds n).2 - (bounds n).1 := sub_nonneg.2 ((hx n).1.trans (hx n).2)
  have hmin : 0 ≤ min (v n) ((bounds n).2 - (bounds n).1) := le_min (hv n) hw
  obtain ⟨m, hm, hin⟩ := lucky_hit hl (hx n).1 (hx n).2 hmin (min_le_right _ _) s
  classical
  have hex : ∃ m, m < 10 ∧ (bounds n).1 ≤ proposal (xi (idx n)) (min (v n) ((bounds n).2 - (bounds n).1)) (drawNo draw s m) ∧
      proposal (xi (idx n)) (min (v n) ((bounds n).2 - (bounds n).1)) (drawNo draw s m) ≤ (bounds n).2 := ⟨m, hm, hin⟩
  have hf := Nat.find_spec hex
  have hmv := C56_move_partial draw idx bounds s n xi v (Nat.find hex) hf.1 hf.2
    (fun l hl h => Nat.find_min hex hl ⟨hl.trans hf.1, h⟩)
  constructor
  · intro k
    rw [hmv.2]
    by_cases hk : k = n
    · subst hk
      rw [Function.update_self]
      exact hf.2
    · rw [Function.update_of_ne (fun h => hk (hinj h))]
      exact hx k
  · intro k
    rw [hmv.1]
    by_cases hk : k = n
    · subst hk
      rw [Function.update_self]
      exact hmin
    · rw [Function.update_of_ne hk]
      exact hv k

theorem step_inside {E : Env K ι σ N} (hl : Lucky E.draw) (hinj : Function.Injective E.idx) {bounds : Fin N → K × K}
    (hm : E.move = fun s n xi v => apotMove E.draw E.idx bounds s n xi v) (T : K) {s : Annealing.St K ι σ N}
    (h : Inside E.idx bounds s) (i : Fin N) : Inside E.idx bounds (E.step T s i) := by
  have hmv := move_inside hl hinj s.rng i h.cur h.disp
  rw [show apotMove E.draw E.idx bounds s.rng i s.xi s.v = E.move s.rng i s.xi s.v by rw [hm]] at hmv
  have hnew : (if E.apot = true then Function.update s.xi (E.idx i) ((E.move s.rng i s.xi s.v).2.1 (E.idx i))
      else (E.move s.rng i s.xi s.v).2.1) = (E.move s.rng i s.xi s.v).2.1 := by
    split
    · next ha =>
      funext x
      by_cases hx : x = E.idx i
      · rw [hx, Function.update_self]
      · rw [Function.update_of_ne hx, (C29_apot E bounds hm).1 ha _ _ _ _ _ hx]
    · rfl
  have hall : ∀ p ∈ (E.move s.rng i s.xi s.v).2.1 :: s.seen, InBounds E.idx bounds p := by
    intro p hp
    rcases List.mem_cons.1 hp with rfl | hp
    · exact hmv.1
    · exact h.all p hp
  unfold Env.step
  simp only
  rw [hnew]
  split
  · split
    · exact ⟨hmv.1, hmv.1, hmv.2, hall⟩
    · exact ⟨hmv.1, h.opt, hmv.2, hall⟩
  · split
    · exact ⟨hmv.1, h.opt, hmv.2, hall⟩
    · exact ⟨h.cur, h.opt, hmv.2, hall⟩

theorem sweeps_inside {E : Env K ι σ N} (hl : Lucky E.draw) (hinj : Function.Injective E.idx) {bounds : Fin N → K × K}
    (hm : E.move = fun s n xi v => apotMove E.draw E.idx bounds s n xi v) (T : K) {s : Annealing.St K ι σ N}
    (h : Inside E.idx bounds s) : Inside E.idx bounds (E.sweeps T s) := by
  unfold Env.sweeps
  refine times_ind _ _ (fun s hs => ?_) _ _ h
  generalize List.finRange N = l
  induction l generalizing s with
  | nil => exact hs
  | cons i l ih => exact ih _ (step_inside hl hinj hm T hs i)

theorem adjust_inside {idx : Fin N → ι} {bounds : Fin N → K × K} {s : Annealing.St K ι σ N} (h : Inside idx bounds s) :
    Inside idx bounds (adjust s) := by
  refine ⟨h.cur, h.opt, fun n => ?_, h.all⟩
  have h0 := h.disp n
  have hn : (0 : K) ≤ (s.naccept n : K) := Nat.cast_nonneg _
  show 0 ≤ if (s.naccept n : K) > 6 / 10 * 20 then s.v n * (1 + 2 * ((s.naccept n : K) / 20 - 6 / 10) / (4 / 10))
      else if (s.naccept n : K) < 4 / 10 * 20 then s.v n / (1 + 2 * (4 / 10 - (s.naccept n : K) / 20) / (4 / 10))
      else s.v n
  split
  · next h1 =>
    refine mul_nonneg h0 ?_
    have : (0 : K) ≤ (s.naccept n : K) / 20 - 6 / 10 := by linarith
    positivity
  · split
    · next h1 h2 =>
      refine div_nonneg h0 ?_
      have : (0 : K) ≤ 4 / 10 - (s.naccept n : K) / 20 := by linarith
      positivity
    · exact h0

theorem reset_inside {idx : Fin N → ι} {bounds : Fin N → K × K} {s : Annealing.St K ι σ N} (h : Inside idx bounds s) :
    Inside idx bounds { s with xi := s.xiOpt, f := s.fOpt } := ⟨h.opt, h.opt, h.disp, h.all⟩

theorem temps_inside {E : Env K ι σ N} (hl : Lucky E.draw) (hinj : Function.Injective E.idx) {bounds : Fin N → K × K}
    (hm : E.move = fun s n xi v => apotMove E.draw E.idx bounds s n xi v) (T : K) (m : Nat) {s : Annealing.St K ι σ N}
    (h : Inside E.idx bounds s) : Inside E.idx bounds (E.temps T m s).1 := by
  induction m generalizing s with
  | zero => exact h
  | succ m ih =>
    unfold Env.temps
    simp only
    have h1 := adjust_inside (sweeps_inside hl hinj hm T h)
    have h2 : Inside E.idx bounds { adjust (E.sweeps T s) with looks := (adjust (E.sweeps T s)).looks + 1 } :=
      ⟨h1.cur, h1.opt, h1.disp, h1.all⟩
    split
    · exact reset_inside h2
    · exact ih h2

theorem loop_inside {E : Env K ι σ N} (hl : Lucky E.draw) (hinj : Function.Injective E.idx) {bounds : Fin N → K × K}
    (hm : E.move = fun s n xi v => apotMove E.draw E.idx bounds s n xi v) (fuel : Nat) (T : K) (counter : Nat) (old : List K)
    {s : Annealing.St K ι σ N} (h : Inside E.idx bounds s) : Inside E.idx bounds (E.loop fuel T counter old s) := by
  induction fuel generalizing T counter old s with
  | zero => exact h
  | succ fuel ih =>
    unfold Env.loop
    simp only
    have h0 := temps_inside hl hinj hm T (3 * N) h
    have h1 : Inside E.idx bounds (again (List.drop 1 old ++ [(E.temps T (3 * N) s).1.f]) (E.temps T (3 * N) s).1).1 := by
      unfold again
      split
      · exact h0
      · split
        · exact reset_inside h0
        · exact h0
    generalize (if (E.temps T (3 * N) s).2 = true then kMax + 1 else counter) + 1 = c
    split
    · exact ih _ _ _ h1
    · exact h1

theorem trial_inside {E : Env K ι σ N} (hl : Lucky E.draw) (hinj : Function.Injective E.idx) {bounds : Fin N → K × K}
    (hm : E.move = fun s n xi v => apotMove E.draw E.idx bounds s n xi v) (pick : σ → σ × Fin N) {xi : ι → K}
    (hx : InBounds E.idx bounds xi) (f : K) (t : Tr K ι σ N) (h : (∀ n, 0 ≤ t.v n) ∧ ∀ p ∈ t.seen, InBounds E.idx bounds p) :
    (∀ n, 0 ≤ (E.trial pick xi f t).v n) ∧ ∀ p ∈ (E.trial pick xi f t).seen, InBounds E.idx bounds p := by
  have hmv := move_inside hl hinj (pick t.rng).1 (pick t.rng).2 hx h.1
  rw [show apotMove E.draw E.idx bounds (pick t.rng).1 (pick t.rng).2 xi t.v = E.move (pick t.rng).1 (pick t.rng).2 xi t.v by
    rw [hm]] at hmv
  have hall : ∀ p ∈ (E.move (pick t.rng).1 (pick t.rng).2 xi t.v).2.1 :: t.seen, InBounds E.idx bounds p := by
    intro p hp
    rcases List.mem_cons.1 hp with rfl | hp
    · exact hmv.1
    · exact h.2 p hp
  unfold Env.trial
  simp only
  split
  · exact ⟨hmv.2, hall⟩
  · exact ⟨hmv.2, hall⟩

/-- **C56 for simulated annealing with good luck**: started within the bounds, every point evaluated and the result are within the
bounds.  Missing for the full claim: ten random numbers in a row may all be at one side (`C56_anneal_violated`). -/
theorem C56_anneal_partial (E : Env K ι σ N) (hl : Lucky E.draw) (hinj : Function.Injective E.idx) (bounds : Fin N → K × K)
    (hm : E.move = fun s n xi v => apotMove E.draw E.idx bounds s n xi v) (pick : σ → σ × Fin N) (t : Temp K) (rng : σ) (xi : ι → K)
    (hx : InBounds E.idx bounds xi) (r : Res K ι) (hr : E.run pick t rng xi = some r) :
    InBounds E.idx bounds r.xi ∧ (∀ p ∈ r.seen, InBounds E.idx bounds p) ∧ ∀ p ∈ r.trials, InBounds E.idx bounds p := by
  unfold Env.run at hr
  simp only at hr
  split at hr
  · cases hr
  · next T tr ht =>
    have htr : (∀ n, 0 ≤ tr.v n) ∧ ∀ p ∈ tr.seen, InBounds E.idx bounds p := by
      have h0 : (∀ n : Fin N, (0 : K) ≤ (fun _ => 1 / 10 : Fin N → K) n) := fun _ => by norm_num
      unfold Env.temperature at ht
      split at ht
      · split at ht
        · cases ht
        · cases ht
          exact ⟨h0, by simp⟩
      · simp only at ht
        split at ht
        · cases ht
        · cases ht
          exact times_ind (fun t : Tr K ι σ N => (∀ n, 0 ≤ t.v n) ∧ ∀ p ∈ t.seen, InBounds E.idx bounds p) _
            (fun t h => trial_inside hl hinj hm pick hx (E.obj xi) t h) _ _ ⟨h0, by simp⟩
    split at hr
    · cases hr
      exact ⟨hx, by simp, htr.2⟩
    · cases hr
      have h0 : Inside E.idx bounds ⟨xi, E.obj xi, xi, E.obj xi, tr.v, fun _ => 0, tr.rng, 0, []⟩ := ⟨hx, hx, htr.1, by simp⟩
      have h := loop_inside hl hinj hm kMax T 0 (List.replicate nEps (E.obj xi)) h0
      exact ⟨h.opt, h.all, htr.2⟩

/-- Random numbers 3/8, 5/8, 3/8, ... -/
def fairEnv : Env ℚ (Fin 2) Nat 1 where
  obj := fun x => x 0 * x 0
  idx := fun _ => 0
  move := fun s n xi v => apotMove (fun s : Nat => (s + 1, if s % 2 = 0 then 3 / 8 else (5 / 8 : ℚ))) (fun _ => 0)
    (fun _ => (0, 1)) s n xi v
  apot := true
  draw := fun s => (s + 1, if s % 2 = 0 then 3 / 8 else 5 / 8)
  exp := fun _ => 0
  log := fun x => x
  flag := fun n => decide (1 ≤ n)

theorem fair_lucky : Lucky fairEnv.draw := by
  intro s
  rcases Nat.mod_two_eq_zero_or_one s with h | h
  · refine ⟨⟨0, by omega, ?_⟩, ⟨1, by omega, ?_⟩⟩
    · simp only [drawNo, fairEnv, h, if_true]; norm_num
    · have : (s + 1) % 2 = 1 := by omega
      simp only [drawNo, fairEnv, this]; norm_num
  · refine ⟨⟨1, by omega, ?_⟩, ⟨0, by omega, ?_⟩⟩
    · have : (s + 1) % 2 = 0 := by omega
      simp only [drawNo, fairEnv, this, if_true]; norm_num
    · simp only [drawNo, fairEnv, h]; norm_num

example : Lucky fairEnv.draw ∧ InBounds fairEnv.idx (fun _ => (0, 1)) (![1 / 40, 7] : Fin 2 → ℚ) ∧
    (fairEnv.run (fun s => (s, 0)) (.given 1) 0 ![1 / 40, 7]).any
      (fun r => decide (r.fOpt < 1 / 40 * (1 / 40) ∧ r.xi 0 ≠ 1 / 40)) = true := by
  refine ⟨fair_lucky, fun n => ?_, by decide +kernel⟩
  show (0 : ℚ) ≤ 1 / 40 ∧ (1 / 40 : ℚ) ≤ 1
  norm_num

/-- The random numbers are small for a while; objective with the punishment of `apot_punish`. -/
def luckless : Env ℚ (Fin 1) Nat 1 where
  obj := fun x => 10 + 100000000 * x 0 + (if x 0 < 0 then 10000000 * x 0 * x 0 else 0)
  idx := fun _ => 0
  move := fun s n xi v => apotMove (fun s : Nat => (s + 1, if s < 10 then 2 / 5 else (1 / 2 : ℚ))) (fun _ => 0)
    (fun _ => (0, 1)) s n xi v
  apot := true
  draw := fun s => (s + 1, if s < 10 then 2 / 5 else 1 / 2)
  exp := fun _ => 0
  log := fun x => x
  flag := fun n => decide (1 ≤ n)

/-- **C56 is violated by simulated annealing**: started at the bound, the result is outside of the bounds although the objective
contains the punishment. -/
theorem C56_anneal_violated : InBounds luckless.idx (fun _ => (0, 1)) (fun _ => 0) ∧
    ∃ r, luckless.run (fun s => (s, 0)) (.given 1) 0 (fun _ => 0) = some r ∧ r.xi 0 < 0 := by
  refine ⟨fun _ => ⟨le_rfl, zero_le_one⟩, ?_⟩
  have h : (luckless.run (fun s => (s, 0)) (.given 1) 0 (fun _ => 0)).any (fun r => decide (r.xi 0 < 0)) = true := by
    decide +kernel
  cases hr : luckless.run (fun s => (s, 0)) (.given 1) 0 (fun _ => 0) with
  | none => rw [hr] at h; cases h
  | some r =>
    rw [hr] at h
    simp only [Option.any_some, decide_eq_true_eq] at h
    exact ⟨r, rfl, h⟩

/-! ### Least squares -/

open Verif.Powell in
theorem direction_at (E : Powell.Env K ι N M) (hinj : Function.Injective E.idx) (s : Powell.St K ι N M) (q : Fin N → K) (i : Fin N) :
    E.direction s q (E.idx i) = E.limit s.xi i (∑ j, s.d i j * q j) := by
  unfold Powell.Env.direction
  have key : ∀ (l : List (Fin N)) (delta : ι → K), i ∈ l ∨ delta (E.idx i) = E.limit s.xi i (∑ j, s.d i j * q j) →
      (l.foldl (fun delta i => Function.update delta (E.idx i) (E.limit s.xi i (∑ j, s.d i j * q j))) delta) (E.idx i) =
        E.limit s.xi i (∑ j, s.d i j * q j) := by
    intro l
    induction l with
    | nil => intro delta h; simpa using h
    | cons k l ih =>
      intro delta h
      rw [List.foldl_cons]
      apply ih
      by_cases hk : k = i
      · right; rw [hk, Function.update_self]
      · rcases h with h | h
        · left
          rcases List.mem_cons.1 h with h | h
          · exact absurd h.symm hk
          · exact h
        · right
          rw [Function.update_of_ne (fun e => hk (hinj e).symm)]
          exact h
  exact key _ _ (Or.inl (List.mem_finRange i))

open Verif.Powell in
/-- **C56 for the direction of the least-squares optimiser**: a full step along it stays within the bounds, and the step is the unlimited
one wherever this is inside.  Missing for the full claim: the line search along the direction may go beyond the full step
(`C56_powell_violated`). -/
theorem C56_powell_partial (E : Powell.Env K ι N M) (hinj : Function.Injective E.idx) (b : Fin N → K × K) (hb : E.bounds = some b)
    (hne : ∀ i, (b i).1 ≤ (b i).2) (s : Powell.St K ι N M) (q : Fin N → K) :
    InBounds E.idx b (fun x => s.xi x + E.direction s q x) ∧
    ∀ i, (b i).1 ≤ s.xi (E.idx i) + ∑ j, s.d i j * q j → s.xi (E.idx i) + ∑ j, s.d i j * q j ≤ (b i).2 →
      E.direction s q (E.idx i) = ∑ j, s.d i j * q j := by
  constructor
  · intro i
    show (b i).1 ≤ s.xi (E.idx i) + E.direction s q (E.idx i) ∧ s.xi (E.idx i) + E.direction s q (E.idx i) ≤ (b i).2
    rw [direction_at E hinj]
    generalize (∑ j, s.d i j * q j) = v
    unfold Powell.Env.limit
    rw [hb]
    simp only
    have := hne i
    by_cases h1 : s.xi (E.idx i) + v < (b i).1
    · rw [if_pos h1, if_neg (by linarith)]
      constructor <;> linarith
    · rw [if_neg h1]
      by_cases h2 : s.xi (E.idx i) + v > (b i).2
      · rw [if_pos h2]
        constructor <;> linarith
      · rw [if_neg h2]
        constructor <;> linarith
  · intro i h1 h2
    rw [direction_at E hinj]
    unfold Powell.Env.limit
    rw [hb]
    simp only
    rw [if_neg (not_lt.2 h1), if_neg (not_lt.2 h2)]

/-- One parameter between 0 and 1; the data ask for 3, the objective contains the punishment of `apot_punish`. -/
def tightEnv : Powell.Env ℚ (Fin 1) 1 1 where
  obj := fun x => (100000000 * (x 0 - 3) * (x 0 - 3) + (if 1 < x 0 then 10000000 * (x 0 - 1) * (x 0 - 1) else 0),
    fun _ => 10000 * (x 0 - 3))
  idx := fun _ => 0
  bounds := some fun _ => (0, 1)
  maxch := fun _ => none
  solve := fun n les p => ⟨if n = 0 then 0 else 1, fun _ => p 0 / les 0 0, 0, 0⟩
  sqrt := fun _ => 1
  flag := fun n => decide (n = 1)
  dEps := 0
  rescale := none
  junk := fun _ => 0

example : Function.Injective tightEnv.idx ∧ tightEnv.direction (tightEnv.first ![0]) (fun _ => 5) = fun _ => 0 := by
  refine ⟨fun a b _ => Subsingleton.elim a b, ?_⟩
  decide +kernel

example : tightEnv.direction { tightEnv.first ![1 / 4] with d := fun _ _ => 1 } (fun _ => 5) = (fun _ => 3 / 4) ∧
    tightEnv.direction { tightEnv.first ![1 / 4] with d := fun _ _ => 1 } (fun _ => -5) = (fun _ => -(1 / 4)) := by
  decide +kernel

/-- **C56 is violated by the least-squares optimiser**: started inside, the result is outside of the bounds. -/
theorem C56_powell_violated : ∃ s, tightEnv.run 3 ![0] = .ok s ∧ 1 < s.xi 0 := by
  have h : (match tightEnv.run 3 ![0] with
    | .ok s => decide (1 < s.xi 0)
    | .error _ => false) = true := by decide +kernel
  cases hr : tightEnv.run 3 ![0] with
  | error e => rw [hr] at h; cases h
  | ok s =>
    rw [hr] at h
    exact ⟨s, rfl, by simpa using h⟩

end Verif.Props
