/-
C122  The maximal changes of tabulated potentials limit the directions of the least-squares optimiser.
-/
import Verif.Model.MaxChange
import Verif.Props.C28

namespace Verif.Props

open Verif.LineSearch Verif.Powell Verif.MaxChange

variable {K : Type*} [Field K] [LinearOrder K] [IsStrictOrderedRing K] {N M len : Nat}

/-! ### The file -/

theorem scanMax_ok (n : Nat) (ts : List (Option K)) (a : List K) :
    scanMax n ts = .ok a ↔ a.length = n ∧ ts.take n = a.map some := by
  induction n generalizing ts a with
  | zero =>
    simp only [scanMax, Except.ok.injEq, List.take_zero]
    constructor
    · rintro rfl; exact ⟨rfl, rfl⟩
    · rintro ⟨h, -⟩; exact (List.length_eq_zero_iff.1 h).symm
  | succ n ih =>
    cases ts with
    | nil =>
      simp only [scanMax, List.take_nil]
      constructor
      · intro h; cases h
      · rintro ⟨h1, h2⟩
        cases a with
        | nil => cases h1
        | cons => cases h2
    | cons t ts =>
      cases t with
      | none =>
        simp only [scanMax, List.take_succ_cons]
        constructor
        · intro h; cases h
        · rintro ⟨h1, h2⟩
          cases a with
          | nil => cases h1
          | cons x a => simp at h2
      | some v =>
        simp only [scanMax, List.take_succ_cons]
        cases hs : scanMax n ts with
        | error e =>
          simp only [reduceCtorEq, false_iff]
          rintro ⟨h1, h2⟩
          cases a with
          | nil => cases h1
          | cons x a =>
            simp only [List.map_cons, List.cons.injEq] at h2
            have := (ih ts a).2 ⟨by simpa using h1, h2.2⟩
            rw [hs] at this
            cases this
        | ok b =>
          have hb := (ih ts b).1 hs
          simp only [Except.ok.injEq]
          constructor
          · rintro rfl
            refine ⟨by simp [hb.1], by simp [hb.2]⟩
          · rintro ⟨h1, h2⟩
            cases a with
            | nil => cases h1
            | cons x a =>
              simp only [List.map_cons, List.cons.injEq, Option.some.injEq] at h2
              have := (ih ts a).2 ⟨by simpa using h1, h2.2⟩
              rw [hs] at this
              cases this
              rw [h2.1]

/-- **C122, file.** With `maxchfile` the program goes on if and only if the file can be opened and begins with as many
numbers as the table of parameters has entries, and these numbers are the maximal changes, in the order of the table; what follows
does not matter.  Without `maxchfile` nothing is read. -/
theorem C122_file (use : Bool) (len : Nat) (file : Option (List (Option K))) (a : Option (List K)) :
    readMaxch use len file = .ok a ↔
      (use = false ∧ a = none) ∨
      (use = true ∧ ∃ ts l, file = some ts ∧ a = some l ∧ l.length = len ∧ ∀ i (h : i < l.length), ts[i]? = some (some l[i])) := by
  cases use with
  | false => simp [readMaxch, eq_comm]
  | true =>
    simp only [readMaxch, if_true, Bool.true_eq_false, false_and, false_or, true_and]
    cases file with
    | none => simp
    | some ts =>
      have key : ∀ l : List K, scanMax len ts = .ok l ↔
          l.length = len ∧ ∀ i (h : i < l.length), ts[i]? = some (some l[i]) := by
        intro l
        rw [scanMax_ok]
        refine and_congr_right fun hl => ?_
        constructor
        · intro h i hi
          have h1 : (ts.take len)[i]? = (l.map some)[i]? := by rw [h]
          rw [List.getElem?_take_of_lt (by omega), List.getElem?_map, List.getElem?_eq_getElem hi] at h1
          exact h1
        · intro h
          refine List.ext_getElem? fun i => ?_
          by_cases hi : i < len
          · rw [List.getElem?_take_of_lt hi, List.getElem?_map,
              List.getElem?_eq_getElem (l := l) (by omega), h i (by omega)]
            rfl
          · rw [List.getElem?_eq_none (by simp; omega), List.getElem?_eq_none (by simp; omega)]
      cases hs : scanMax len ts with
      | error e =>
        simp only [hs, reduceCtorEq, false_iff]
        rintro ⟨ts', l, h1, h2, h3⟩
        cases h1
        have := (key l).2 h3
        rw [hs] at this
        cases this
      | ok b =>
        simp only [hs, Except.ok.injEq]
        constructor
        · rintro rfl
          exact ⟨ts, b, rfl, rfl, (key b).1 hs⟩
        · rintro ⟨ts', l, h1, h2, h3⟩
          cases h1
          have := (key l).2 h3
          rw [hs] at this
          cases this
          exact h2.symm

/-- The errors: a missing file, or too few numbers. -/
example : readMaxch (K := ℚ) true 2 none = .error .missing ∧ readMaxch (K := ℚ) true 2 (some [some 1]) = .error .premature ∧
    readMaxch (K := ℚ) true 2 (some [some 1, none, some 2]) = .error .premature ∧
    readMaxch (K := ℚ) true 2 (some [some 1, some 0, some 2]) = .ok (some [1, 0]) := ⟨rfl, rfl, rfl, rfl⟩

/-! ### The optimiser -/

/-- The direction obeys the limits: the component of a free parameter with a positive maximal change does not exceed it. -/
def Obeys (idx : Fin N → Fin len) (a : List K) (d : Fin len → K) : Prop :=
  ∀ i c, a[(idx i : Nat)]? = some c → 0 < c → |d (idx i)| ≤ c

/-- From `x` to `y` by line searches along directions which obey the limits, and by rescaling. -/
inductive Searches (E : Env K (Fin len) N M) (a : List K) : (Fin len → K) → (Fin len → K) → Prop
  | refl (x) : Searches E a x x
  | search (x y d) (f : K) (f1 : Fin M → K) (r : Lin (Fin len) K (Fin M → K)) : Searches E a x y → Obeys E.idx a d →
      linmin E.obj y d f f1 E.junk E.junk = .ok r → Searches E a x r.xi
  | rescaled (x y f) : Searches E a x y → E.rescale = some f → Searches E a x (f y)

theorem Searches.trans {E : Env K (Fin len) N M} {a : List K} {x y z : Fin len → K} (h : Searches E a x y)
    (h' : Searches E a y z) : Searches E a x z := by
  induction h' with
  | refl => exact h
  | search y d f f1 r _ h2 h3 ih => exact .search _ _ d f f1 r ih h2 h3
  | rescaled y f _ h2 ih => exact .rescaled _ _ f ih h2

theorem outOfControl_iff (E : Env K (Fin len) N M) (a : List K) (d : Fin len → K) (hl : a.length = len) :
    (withMaxch E (some a)).outOfControl d = false ↔ Obeys E.idx a d := by
  unfold Env.outOfControl Obeys
  simp only [withMaxch, Option.isNone_none, Bool.true_and, List.any_eq_false, List.mem_finRange, true_imp_iff]
  refine forall_congr' fun i => ?_
  have hi : (E.idx i : Nat) < a.length := by rw [hl]; exact (E.idx i).2
  have hg : a.getD (E.idx i) 0 = a[(E.idx i : Nat)] := by
    rw [List.getD_eq_getElem?_getD, List.getElem?_eq_getElem hi, Option.getD_some]
  rw [List.getElem?_eq_getElem hi]
  simp only [limitAt, hg, Option.some.injEq, forall_eq']
  by_cases hp : a[(E.idx i : Nat)] > 0
  · rw [if_pos hp]
    exact ⟨fun h _ => not_lt.1 fun hh => h (decide_eq_true hh), fun h hh => absurd (of_decide_eq_true hh) (not_lt.2 (h hp))⟩
  · rw [if_neg hp]
    simp only [Bool.false_eq_true, not_false_eq_true, true_iff]
    exact fun h => absurd h hp

theorem inner_searches [NeZero N] (E : Env K (Fin len) N M) (a : List K) (hl : a.length = len) (n : Nat)
    (s s' : St K (Fin len) N M) (m : Nat) (h : (withMaxch E (some a)).inner n s m = .ok s') :
    Searches E a s.xi s'.xi := by
  induction n generalizing s m with
  | zero => cases h
  | succ n ih =>
    unfold Env.inner at h
    simp only at h
    split at h
    · cases h; exact .refl _
    · split at h
      · cases h; exact .refl _
      · next ho =>
        have hob := (outOfControl_iff E a _ hl).1 (Bool.eq_false_iff.2 ho)
        split at h
        · cases h
        · cases h
        · next r hr =>
          have hm : Searches E a s.xi r.xi := .search _ _ _ _ _ r (.refl _) hob hr
          split at h
          · cases h; exact hm
          · split at h
            · cases h; exact hm
            · next s2 hs2 =>
              obtain ⟨k1, -⟩ := replace_keeps (withMaxch E (some a)) _ _ _ _ _ _ hs2
              have hm2 : Searches E a s.xi s2.xi := by rw [k1]; exact hm
              split at h
              · exact hm2.trans (ih s2 (m + 1) h)
              · cases h; exact hm2

theorem prepare_searches (E : Env K (Fin len) N M) (a : List K) (s s' : St K (Fin len) N M) (b : Bool)
    (h : (withMaxch E (some a)).prepare s = .ok (s', b)) : Searches E a s.xi s'.xi := by
  unfold Env.prepare Env.gammaInit at h
  split at h
  · cases h
  · next g hg =>
    have hx := gammaLoop_xi _ _ _ _ _ _ hg
    cases h
    simp only at hx
    show Searches E a s.xi g.xi
    rw [hx]; exact .refl _
  · next g i hg =>
    have hx := gammaLoop_xi _ _ _ _ _ _ hg
    simp only at hx
    split at h
    · cases h
      show Searches E a s.xi g.xi
      rw [hx]; exact .refl _
    · next f hf =>
      simp only at h
      split at h
      · cases h
      · next g' o hg' =>
        have hx' := gammaLoop_xi _ _ _ _ _ _ hg'
        simp only at hx'
        cases h
        show Searches E a s.xi g'.xi
        rw [hx', hx]
        exact .rescaled _ _ f (.refl _) hf

theorem outer_searches [NeZero N] (E : Env K (Fin len) N M) (a : List K) (hl : a.length = len) (fuel : Nat)
    (s s' : St K (Fin len) N M) (n : Nat) (h : (withMaxch E (some a)).outer fuel s n = .ok s') :
    Searches E a s.xi s'.xi := by
  induction fuel generalizing s n with
  | zero => cases h
  | succ fuel ih =>
    unfold Env.outer at h
    split at h
    · cases h
    · next s1 hp =>
      cases h
      exact prepare_searches E a s _ _ hp
    · next s1 hp =>
      have h1 := prepare_searches E a s _ _ hp
      split at h
      · cases h
      · next s2 hi =>
        have h2 := h1.trans (inner_searches E a hl _ s1.system s2 _ hi)
        split at h
        · cases h; exact h2
        · split at h
          · exact h2.trans (ih _ _ h)
          · cases h; exact h2

/-- **C122, directions.** With the maximal changes read from the file the result of the optimiser comes from the start
parameters by line searches, each of them along a direction whose components do not exceed the positive maximal changes (and by
rescaling, if compiled in).  Missing for the claim that no parameter changes by more than its maximal change: the line
search may go beyond the end of the direction (`C122_change_violated`). -/
theorem C122_directions_partial [NeZero N] (E : Env K (Fin len) N M) (file : Option (List (Option K))) (a : List K)
    (hread : readMaxch true len file = .ok (some a)) (fuel : Nat) (xi : Fin len → K) (s : St K (Fin len) N M)
    (h : (withMaxch E (some a)).run fuel xi = .ok s) : Searches E a xi s.xi := by
  have hl : a.length = len := by
    rcases (C122_file true len file (some a)).1 hread with ⟨h, -⟩ | ⟨-, ts, l, -, h2, h3, -⟩
    · cases h
    · cases h2; exact h3
  unfold Env.run at h
  split at h
  · cases h; exact .refl _
  · exact outer_searches E a hl fuel _ s 0 h

/-- **C122, change of a parameter.** A line search along a direction which obeys the limits changes a parameter by at most the step
length times its maximal change. -/
theorem C122_change_partial (E : Env K (Fin len) N M) (a : List K) (y d : Fin len → K) (f : K) (f1 : Fin M → K)
    (r : Lin (Fin len) K (Fin M → K)) (hd : Obeys E.idx a d) (hr : linmin E.obj y d f f1 E.junk E.junk = .ok r)
    (i : Fin N) (c : K) (hc : a[(E.idx i : Nat)]? = some c) (hp : 0 < c) : |r.xi (E.idx i) - y (E.idx i)| ≤ |r.x1| * c := by
  have hx : r.xi (E.idx i) = y (E.idx i) + d (E.idx i) * r.x1 := by
    unfold linmin at hr
    simp only at hr
    split at hr
    · cases hr
    · cases hr
    · split at hr
      · cases hr
      · cases hr
      · cases hr; rfl
  rw [hx, add_sub_cancel_left, abs_mul, mul_comm]
  exact mul_le_mul_of_nonneg_left (hd i c hc hp) (abs_nonneg _)

/-- **C122, end.** If a component of the first direction of a turn exceeds a positive maximal change, the whole fit ends, with the
parameters of the beginning of the turn and whatever the objective is there. -/
theorem C122_end [NeZero N] (E : Env K (Fin len) N M) (a : List K) (hl : a.length = len) (fuel n : Nat)
    (s s1 : St K (Fin len) N M) (hp : (withMaxch E (some a)).prepare s = .ok (s1, true))
    (hi : ¬ (0 < (E.solve s1.calls s1.system.les s1.system.p).info ∧ (E.solve s1.calls s1.system.les s1.system.p).info ≤ N))
    (hd : ¬ Obeys E.idx a ((withMaxch E (some a)).direction s1 (E.solve s1.calls s1.system.les s1.system.p).q)) :
    ∃ s', (withMaxch E (some a)).outer (fuel + 1) s n = .ok s' ∧ s'.xi = s1.xi ∧ s'.f = s1.f := by
  have ho : (withMaxch E (some a)).outOfControl
      ((withMaxch E (some a)).direction s1 (E.solve s1.calls s1.system.les s1.system.p).q) = true := by
    by_contra h
    exact hd ((outOfControl_iff E a _ hl).1 (Bool.eq_false_iff.2 h))
  have hin : (withMaxch E (some a)).inner (N + innerLoops + 1) s1.system 0 =
      .ok { s1.system with calls := s1.calls + 1,
                           delta := (withMaxch E (some a)).direction s1 (E.solve s1.calls s1.system.les s1.system.p).q } := by
    rw [Env.inner]
    simp only
    exact (if_neg hi).trans (if_pos ho)
  rw [Env.outer, hp]
  simp only
  rw [hin]
  simp only
  have h0 : ¬ ((s1.f - s1.system.f > precision / 10 ∨ s1.f - s1.system.f < 0) ∧ s1.f - s1.system.f > (withMaxch E (some a)).dEps) := by
    have hz : s1.f - s1.system.f = 0 := sub_self _
    rw [hz]
    rintro ⟨h | h, -⟩
    · have : (0 : K) < precision / 10 := by unfold precision; positivity
      exact absurd h (not_lt.2 this.le)
    · exact absurd h (lt_irrefl _)
  rw [if_neg h0]
  split
  · exact ⟨_, rfl, rfl, rfl⟩
  · exact ⟨_, rfl, rfl, rfl⟩

/-- **C122, no limits.** An array without positive entries is the same as no array. -/
theorem C122_off (E : Env K (Fin len) N M) (a : List K) (ha : ∀ c ∈ a, c ≤ 0) :
    withMaxch E (some a) = withMaxch E none := by
  unfold withMaxch
  congr 1
  funext x
  have : ¬ a.getD x 0 > 0 := by
    rw [List.getD_eq_getElem?_getD]
    by_cases hx : (x : Nat) < a.length
    · rw [List.getElem?_eq_getElem hx, Option.getD_some]
      exact not_lt.2 (ha _ (List.getElem_mem hx))
    · rw [List.getElem?_eq_none (by omega), Option.getD_none]
      exact lt_irrefl _
  simp only [limitAt]
  rw [if_neg this]

/-- One parameter, residual `x - 3`; a solver which is short by a factor of 10: the direction has length 3 / 10. -/
def slowEnv : Env ℚ (Fin 1) 1 1 where
  obj := fun x => ((x 0 - 3) ^ 2, fun _ => x 0 - 3)
  idx := fun _ => 0
  bounds := none
  maxch := fun _ => none
  solve := fun n les p => ⟨if n = 0 then 0 else 1, fun _ => p 0 / les 0 0 / 10, 0, 0⟩
  sqrt := fun _ => 1
  flag := fun n => decide (n = 1)
  dEps := 0
  rescale := none
  junk := fun _ => 0

/-- **C122 is violated for the change of a parameter**: with the maximal change 1 / 2 a single line search changes the parameter by
more than 1. -/
theorem C122_change_violated : ∃ s, readMaxch true 1 (some [some (1 / 2 : ℚ)]) = .ok (some [1 / 2]) ∧
    (withMaxch slowEnv (some [1 / 2])).run 3 ![0] = .ok s ∧ 1 < s.xi 0 := by
  have h : (match (withMaxch slowEnv (some [1 / 2])).run 3 ![0] with
    | .ok s => decide (1 < s.xi 0)
    | .error _ => false) = true := by decide +kernel
  cases hr : (withMaxch slowEnv (some [1 / 2])).run 3 ![0] with
  | error e => rw [hr] at h; cases h
  | ok s =>
    rw [hr] at h
    exact ⟨s, rfl, rfl, by simpa using h⟩

/-- **C122 is violated for the restart**: the program says that it restarts the inner loop, but with the maximal change 1 / 4 the fit
ends at the start parameters, though the objective can be improved without any violation of the limit. -/
theorem C122_restart_violated : ∃ s, (withMaxch slowEnv (some [1 / 4])).run 3 ![0] = .ok s ∧ s.xi 0 = 0 ∧
    (slowEnv.obj ![1 / 4]).1 < (slowEnv.obj s.xi).1 := by
  have h : (match (withMaxch slowEnv (some [1 / 4])).run 3 ![0] with
    | .ok s => decide (s.xi 0 = 0 ∧ (slowEnv.obj ![1 / 4]).1 < (slowEnv.obj s.xi).1)
    | .error _ => false) = true := by decide +kernel
  cases hr : (withMaxch slowEnv (some [1 / 4])).run 3 ![0] with
  | error e => rw [hr] at h; cases h
  | ok s =>
    rw [hr] at h
    exact ⟨s, rfl, by simpa using h⟩

/-- The directions which obey a limit are those up to it. -/
example : Obeys slowEnv.idx [(1 / 2 : ℚ)] ![3 / 10] ∧ ¬ Obeys slowEnv.idx [(1 / 4 : ℚ)] ![3 / 10] := by
  constructor
  · intro i c hc _
    have : c = 1 / 2 := by simpa [slowEnv, eq_comm] using hc
    rw [this]
    show |(3 / 10 : ℚ)| ≤ 1 / 2
    norm_num [abs_of_pos]
  · intro h
    have := h 0 (1 / 4) rfl (by norm_num)
    have h' : |(3 / 10 : ℚ)| ≤ 1 / 4 := this
    norm_num [abs_of_pos] at h'

/-- The hypotheses of `C122_end` are met by the run of `C122_restart_violated`. -/
example : (match (withMaxch slowEnv (some [1 / 4])).prepare (slowEnv.first ![0]) with
    | .ok (s1, true) => decide ((slowEnv.solve s1.calls s1.system.les s1.system.p).info = 0 ∧
        1 / 4 < (withMaxch slowEnv (some [1 / 4])).direction s1 (slowEnv.solve s1.calls s1.system.les s1.system.p).q 0)
    | _ => false) = true := by decide +kernel

example : ∀ c ∈ [(0 : ℚ), -1], c ≤ 0 := by decide +kernel

end Verif.Props
