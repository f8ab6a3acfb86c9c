/-
C106  Analytic pair potentials: every evaluation returns the objective of the crystals for the functions the parameters stand for, plus the
penalties of the parameters; a fit does not worsen it.
-/
import Verif.Model.ApotEval
import Verif.Lemmas.Sampled
import Verif.Props.C43
import Verif.Props.C105
import Mathlib.Data.List.GetD

set_option linter.unusedSectionVars false

namespace Verif.Props

open Verif.Force hiding Cell
open Verif.Neighbors Verif.Spec Verif.SplineInit Verif.Apot Verif.ApotEval

/-- The functions for the parameter vector `x` (`Sampled`, `Lemmas/Sampled.lean`). -/
def FunctionsOf (e : ApotEval.Env) (start x : ℕ → ℝ) (P : Pots ℝ) : Prop :=
  Sampled e.steps e.beg e.fin e.pots e.gidx e.globals start x P

/-- The penalties (C105): bounds of the free parameters, `eopp`, `universal`. -/
noncomputable def penalties (e : ApotEval.Env) (x : ℕ → ℝ) : ℝ :=
  (e.free.map fun q => 10000000 * outside q.lo q.hi (x q.at_) ^ 2).sum +
    ((withName "eopp" e.names).map (eoppTerm e.w (optFirst e.pots) x)).sum +
    ((withName "universal" e.names).map (universalTerm e.w (optFirst e.pots) x)).sum

/-- Entries of the vector which are parameters of potentials or global parameters. -/
def IsEntry (e : ApotEval.Env) (k : ℕ) : Prop :=
  (∃ m p n, e.pots[m]? = some p ∧ n < p.nPar ∧ k = optFirst e.pots m + n) ∨ ∃ g < e.globals.length, k = e.gidx + g

/-- What the reader of potential files guarantees. -/
structure Posed (e : ApotEval.Env) : Prop where
  apot : e.b.apot = true
  steps : 2 ≤ e.steps
  ranges : ∀ i < e.pots.length, e.beg i < e.fin i
  cutoff : ∀ p ∈ e.pots, p.smooth = true → 1 ≤ p.nPar
  globals : GoodGlobals e.pots e.gidx e.globals
  bounds : ∀ q ∈ e.free, q.lo ≤ q.hi
  free : ∀ q ∈ e.free, IsEntry e q.at_
  eopp : ∀ p ∈ withName "eopp" e.names, ∃ d, e.pots[p]? = some d ∧ 4 ≤ d.nPar
  universal : ∀ p ∈ withName "universal" e.names, ∃ d, e.pots[p]? = some d ∧ 3 ≤ d.nPar

/-- And what the preparation of the configurations guarantees. -/
structure WellPosed (e : ApotEval.Env) (L : List (Cell × Conf ℝ)) (before : ℕ → ℝ) : Prop extends Posed e where
  confs : e.confs = L.map Prod.snd
  number : e.pots.length = e.n * (e.n + 1) / 2
  crystals : ∀ x ∈ L, PairSample (calcCols e.steps e.beg e.fin fun _ => 0) e.n before x

/-- The memory after program start with parameters `start`, whatever it contained before. -/
def Started (e : ApotEval.Env) (start : ℕ → ℝ) (m : Mem) : Prop :=
  ∃ vals c0 list0 d v, vals.length = e.pots.length ∧ e.start vals c0 list0 d v start = .ok m

/-- The memory after program start and evaluations for any vectors. -/
inductive After (e : ApotEval.Env) (start : ℕ → ℝ) : Mem → Prop
  | start {m : Mem} : Started e start m → After e start m
  | step {m : Mem} (fuel : ℕ) (xi : ℕ → ℝ) (r : Res) : After e start m → e.eval fuel xi m = some (.ok r) → After e start r.mem

/-! ### Pieces -/

theorem updatePots_xi {steps : ℕ} {xcoord : ℕ → ℝ} {doAll : Bool} (pots : List (Pot ℝ)) (hsm : ∀ p ∈ pots, p.smooth = true → 1 ≤ p.nPar)
    {i o : ℕ} {h : ℝ} {s s' : Tabs ℝ} (hr : updatePots steps xcoord doAll pots i o h s = .ok s') (k : ℕ)
    (hk : ∀ t < pots.length, k ≠ o + off pots t) : s'.xi k = s.xi k := by
  induction pots generalizing i o h s with
  | nil =>
    simp only [updatePots, Except.ok.injEq] at hr
    subst hr
    rfl
  | cons d ps ih =>
    simp only [updatePots] at hr
    cases hu : updatePot steps xcoord doAll d i o h s with
    | error e => rw [hu] at hr; simp [bind, Except.bind] at hr
    | ok r =>
      obtain ⟨h1, s1⟩ := r
      rw [hu] at hr
      simp only [bind, Except.bind] at hr
      rw [ih (fun p hp => hsm p (by simp [hp])) hr]
      · refine (updatePot_spec (hsm d (by simp)) hu).1 k ?_
        have := hk 0 (by simp)
        simpa [off] using this
      · intro t ht
        have := hk (t + 1) (by simpa using ht)
        simp only [off, List.take_succ_cons, List.map_cons, List.sum_cons] at this ⊢
        omega

/-- Parameters are not slope entries. -/
theorem param_not_slope {pots : List (Pot ℝ)} {m n t : ℕ} {p : Pot ℝ} (hm : pots[m]? = some p) (hn : n < p.nPar) (ht : t < pots.length) :
    optFirst pots m + n ≠ off pots t := by
  intro h
  obtain ⟨q, hq⟩ : ∃ q, pots[t]? = some q := ⟨_, List.getElem?_eq_getElem ht⟩
  have h1 := optFirst_eq_off pots t
  rcases Nat.lt_trichotomy m t with hlt | rfl | hlt
  · have h2 := optFirst_succ pots m p hm
    have h3 := optFirst_mono pots (show m + 1 ≤ t by omega)
    omega
  · omega
  · have h2 := optFirst_succ pots t q hq
    have h3 := optFirst_mono pots (show t + 1 ≤ m by omega)
    omega

theorem off_lt_gidx {pots : List (Pot ℝ)} {gidx : ℕ} (h : (pots.map fun p => p.nPar + 2).sum ≤ gidx) {t : ℕ} (ht : t < pots.length) :
    off pots t < gidx := by
  obtain ⟨q, hq⟩ : ∃ q, pots[t]? = some q := ⟨_, List.getElem?_eq_getElem ht⟩
  have h1 := optFirst_eq_off pots t
  have h2 := optFirst_end pots t q hq
  omega

theorem copyGlobals_behind {pots : List (Pot ℝ)} {gidx : ℕ} {globals : List (List (ℕ × ℕ))} (hg : GoodGlobals pots gidx globals)
    (x : ℕ → ℝ) {k : ℕ} (hk : gidx ≤ k) : copyGlobals pots gidx globals x k = x k := by
  have hlt : ∀ l ∈ globals, ∀ mn ∈ l, optFirst pots mn.1 + mn.2 < gidx := by
    intro l hl mn hmn
    obtain ⟨q, hq, hq2⟩ := hg.inRange _ hl mn hmn
    have := optFirst_end pots mn.1 q hq
    have := hg.behind
    omega
  unfold copyGlobals
  have key : ∀ (gl : List (List (ℕ × ℕ) × ℕ)) (x : ℕ → ℝ), (∀ li ∈ gl, ∀ mn ∈ li.1, optFirst pots mn.1 + mn.2 < gidx) →
      gl.foldl (fun xi (l, i) => l.foldl (fun xi (m, n) => Function.update xi (optFirst pots m + n) (xi (gidx + i))) xi) x k = x k := by
    intro gl
    induction gl with
    | nil => intro x _; rfl
    | cons a gl ih =>
      intro x h
      rw [List.foldl_cons, ih _ fun li hli => h li (List.mem_cons_of_mem _ hli)]
      have ha := h a List.mem_cons_self
      clear h ih
      obtain ⟨l, i⟩ := a
      simp only at ha ⊢
      induction l generalizing x with
      | nil => rfl
      | cons b l ih2 =>
        rw [List.foldl_cons, ih2 _ fun mn hmn => ha mn (List.mem_cons_of_mem _ hmn)]
        have := ha b List.mem_cons_self
        exact Function.update_of_ne (by omega) _ _
  refine key _ x ?_
  intro li hli mn hmn
  refine hlt li.1 ?_ mn hmn
  have := List.mem_zipIdx hli
  simp only [Nat.zero_add, Nat.sub_zero] at this
  rw [this.2.2]
  exact List.getElem_mem _

/-- Parameters of functions without a phase are left as they are. -/
theorem checkParams_plain {fns : List (Tails.Fn × Bool)} (h : ∀ f ∈ fns, f.1 ≠ .eopp ∧ f.1 ≠ .csw2) (fuel : ℕ) (x : ℕ → ℝ) :
    Tails.checkParams false fuel fns x = some x := by
  unfold Tails.checkParams
  generalize 2 = j
  induction fns generalizing j with
  | nil => rfl
  | cons f fns ih =>
    obtain ⟨f, b⟩ := f
    have h1 := h (f, b) List.mem_cons_self
    have : Tails.checkOne false fuel f j x = some x := by
      cases f with
      | eopp => exact absurd rfl h1.1
      | csw2 => exact absurd rfl h1.2
      | tersoffPot => simp [Tails.checkOne]
      | other n v => rfl
    simp only [Tails.checkFrom, this, Option.bind_some]
    exact ih (fun g hg => h g (List.mem_cons_of_mem _ hg)) _

theorem runHistory_snoc {steps : ℕ} {xcoord : ℕ → ℝ} {pots : List (Pot ℝ)} {gidx : ℕ} {globals : List (List (ℕ × ℕ))}
    {hist : List (ℕ → ℝ)} {a c : (ℕ → ℝ) × (ℕ → ℝ)} (h : runHistory steps xcoord pots gidx globals hist a = .ok c) {x : ℕ → ℝ} {s : Tabs ℝ}
    (hs : updateCalcTable steps xcoord pots gidx globals false x c.1 c.2 = .ok s) :
    runHistory steps xcoord pots gidx globals (hist ++ [x]) a = .ok (s.list, s.tab) := by
  induction hist generalizing a with
  | nil =>
    simp only [runHistory, Except.ok.injEq] at h
    subst h
    simp only [List.nil_append, runHistory, hs, bind, Except.bind]
  | cons y hist ih =>
    simp only [List.cons_append, runHistory] at h ⊢
    cases hu : updateCalcTable steps xcoord pots gidx globals false y a.1 a.2 with
    | error e => rw [hu] at h; cases h
    | ok s1 =>
      rw [hu] at h
      simp only [bind, Except.bind] at h ⊢
      exact ih h

section
variable {e : ApotEval.Env} {L : List (Cell × Conf ℝ)} {before : ℕ → ℝ}

/-- The steps of a successful evaluation. -/
theorem eval_inv {fuel : ℕ} {xi : ℕ → ℝ} {m : Mem} {r : Res} (h : e.eval fuel xi m = some (.ok r)) :
    ∃ q s d v, Tails.checkParams false fuel e.fns xi = some q ∧
      updateCalcTable e.steps m.xcoord e.pots e.gidx e.globals false q m.list m.tab = .ok s ∧
      refresh .pair .analytic (e.cols m.xcoord) s.tab e.pc e.n m.d = .ok d ∧
      pairObjective e.b (tablePots .analytic (e.cols m.xcoord) s.tab d) e.ew e.sw e.w (boundsAt e.free s.xi)
        (eoppAt (punishIndex (e.names.map String.toList)) (optFirst e.pots) s.xi)
        (univAt (punishIndex (e.names.map String.toList)) (optFirst e.pots) s.xi) e.confs m.v = .ok (v, r.value) ∧
      r.xi = s.xi ∧ r.mem = ⟨m.xcoord, s.list, s.tab, d, v⟩ := by
  unfold Env.eval at h
  split at h
  · cases h
  · next q hq =>
    split at h
    · cases h
    · next s hs =>
      split at h
      · cases h
      · next d hd =>
        simp only [Option.some.injEq] at h
        unfold Env.finish at h
        split at h
        · cases h
        · next v y hv =>
          cases h
          exact ⟨q, s, d, v, hq, hs, hd, hv, rfl, rfl⟩

/-- What a history leaves in the memory. -/
theorem after_inv {start : ℕ → ℝ} {m : Mem} (h : After e start m) :
    ∃ vals c0 c1 list0 s0 hist, vals.length = e.pots.length ∧ initCalc e.steps e.beg e.fin (e.pots.zip vals) 0 c0 = .ok c1 ∧
      updateCalcTable e.steps c1.xcoord e.pots e.gidx e.globals true start list0 c1.tab = .ok s0 ∧
      runHistory e.steps c1.xcoord e.pots e.gidx e.globals hist (s0.list, s0.tab) = .ok (m.list, m.tab) ∧ m.xcoord = c1.xcoord := by
  induction h with
  | start h =>
    obtain ⟨vals, c0, list0, d, v, hl, h⟩ := h
    unfold Env.start at h
    split at h
    · cases h
    · next c1 h1 =>
      split at h
      · cases h
      · next s0 h0 =>
        cases h
        exact ⟨vals, c0, c1, list0, s0, [], hl, h1, h0, rfl, rfl⟩
  | step fuel xi r _ hr ih =>
    obtain ⟨vals, c0, c1, list0, s0, hist, hl, h1, h0, hh, hx⟩ := ih
    obtain ⟨q, s, d, v, -, hs, -, -, -, hm⟩ := eval_inv hr
    refine ⟨vals, c0, c1, list0, s0, hist ++ [q], hl, h1, h0, ?_, ?_⟩
    · rw [hm]
      rw [hx] at hs
      exact runHistory_snoc hh hs
    · rw [hm]
      exact hx

/-- The crystals' part of the objective with penalties. -/
theorem pairObjective_apot {b : Build} (hb : b.apot = true) {P : Pots ℝ} {ew sw w : ℝ} {free : List (Free ℝ)} (hfree : ∀ q ∈ free, q.lo ≤ q.hi)
    {names : List String} {first : ℕ → ℕ} {x : ℕ → ℝ} {confs : List (Conf ℝ)} {v v' : PairVec ℝ} {y : ℝ}
    (h : pairObjective b P ew sw w (boundsAt free x) (eoppAt (punishIndex (names.map String.toList)) first x)
      (univAt (punishIndex (names.map String.toList)) first x) confs v = .ok (v', y)) :
    totalPenalty w (boundsAt free x) (eoppAt (punishIndex (names.map String.toList)) first x)
        (univAt (punishIndex (names.map String.toList)) first x) =
      (free.map fun q => 10000000 * outside q.lo q.hi (x q.at_) ^ 2).sum + ((withName "eopp" names).map (eoppTerm w first x)).sum +
        ((withName "universal" names).map (universalTerm w first x)).sum := by
  unfold pairObjective at h
  simp only [hb, if_true] at h
  cases hp : apotPunish w (boundsAt free x) (eoppAt (punishIndex (names.map String.toList)) first x)
      (univAt (punishIndex (names.map String.toList)) first x) v.par v.pot with
  | error f => rw [hp] at h; cases h
  | ok r =>
    rw [← apotPunish_sum _ _ _ _ _ _ r hp]
    exact C105_value hfree hp

/-- **One evaluation.** Program start with parameters `start`, any history, then an evaluation for the vector `xi`. The normalisation makes
of it `q` (phases between 0 and `2 pi`, C43). The value returned is the objective of the infinite crystals whose atoms interact by the
functions for `q`, plus the penalties; the vector left behind has the effective values in the entries of the potentials (those of the global
parameter, if it is a reference) and the old values of the global parameters. Functions for `q` exist, and all give this value. -/
theorem C106_value (hw : WellPosed e L before) {start : ℕ → ℝ} {m : Mem} (hm : After e start m) {fuel : ℕ} {xi : ℕ → ℝ} {r : Res}
    (hr : e.eval fuel xi m = some (.ok r)) :
    ∃ q, Tails.checkParams false fuel e.fns xi = some q ∧
      (∀ k p n, e.pots[k]? = some p → n < p.nPar → IsEffective e.pots e.gidx e.globals q k n (r.xi (optFirst e.pots k + n))) ∧
      (∀ g, r.xi (e.gidx + g) = q (e.gidx + g)) ∧
      (∃ P, FunctionsOf e start q P) ∧
      ∀ P, FunctionsOf e start q P → r.value = pairCrystals e.b e.ew e.sw L P + penalties e r.xi := by
  obtain ⟨q, s, d, v, hq, hs, hd, hv, hx, -⟩ := eval_inv hr
  obtain ⟨vals, c0, c1, list0, s0, hist, hl, h1, h0, hh, hxc⟩ := after_inv hm
  rw [hxc] at hs hd hv
  have hlay : Layout (isGeneral .analytic) (calcCols e.steps e.beg e.fin c1.xcoord) (e.n * (e.n + 1) / 2) :=
    calc_layout hw.steps (fun i h => hw.ranges i (by rw [hw.number]; exact h)) _
  have hL : ∀ x ∈ L, PairSample (calcCols e.steps e.beg e.fin c1.xcoord) e.n before x := hw.crystals
  have hiff := sampled_iff hw.steps hw.cutoff hw.globals hl h1 h0 hh hs (fun _ => false)
  rw [hw.number] at hiff
  have hS : SplinesOf .analytic (calcCols e.steps e.beg e.fin c1.xcoord) s.tab (e.n * (e.n + 1) / 2) (fun _ => false)
      (tablePots .analytic (e.cols c1.xcoord) s.tab d) := refreshed_splines (rt := .pair) (fmt := .analytic) trivial (pc := e.n * (e.n + 1) / 2) hlay hd
  refine ⟨q, hq, ?_, ?_, ⟨_, (hiff _).2 hS⟩, ?_⟩
  · intro k p n hk hn
    have := copyGlobals_spec hw.globals q hk hn
    rw [hx, updatePots_xi e.pots hw.cutoff hs]
    · exact this
    · intro t ht
      rw [Nat.zero_add]
      exact param_not_slope hk hn ht
  · intro g
    rw [hx, updatePots_xi e.pots hw.cutoff hs]
    · exact copyGlobals_behind hw.globals q (Nat.le_add_right _ _)
    · intro t ht
      have := off_lt_gidx hw.globals.behind ht
      omega
  · intro P hP
    obtain ⟨d', e1, -, e3⟩ := C100_table_pair (fmt := .analytic) trivial hlay s.tab m.d before
    obtain rfl : d' = d := Except.ok.inj (e1.symm.trans hd)
    rw [hw.confs] at hv
    have hval := (e3 e.b e.ew e.sw e.w _ _ _ L hL m.v).2 hw.apot _ _ hv
    rw [hval, hx, pairObjective_apot hw.apot hw.bounds hv, pairCrystals_congr hlay ((hiff P).1 hP) hS e.b e.ew e.sw hL]
    rfl

/-- **When an evaluation returns a value**: the table could be sampled and no potential of type `universal` has `m = n`. -/
theorem C106_defined (hw : WellPosed e L before) {m : Mem} {fuel : ℕ} {xi q : ℕ → ℝ} {s : Tabs ℝ}
    (hq : Tails.checkParams false fuel e.fns xi = some q)
    (hs : updateCalcTable e.steps m.xcoord e.pots e.gidx e.globals false q m.list m.tab = .ok s) :
    (∃ r, e.eval fuel xi m = some (.ok r)) ↔
      ∀ p ∈ withName "universal" e.names, s.xi (optFirst e.pots p + 1) ≠ s.xi (optFirst e.pots p + 2) := by
  have hlay : Layout (isGeneral .analytic) (calcCols e.steps e.beg e.fin m.xcoord) (e.n * (e.n + 1) / 2) :=
    calc_layout hw.steps (fun i h => hw.ranges i (by rw [hw.number]; exact h)) _
  obtain ⟨d, hd, -⟩ := C99_fresh (rt := .pair) (fmt := .analytic) trivial (pc := e.n * (e.n + 1) / 2) (nt := e.n) hlay s.tab m.d
  have hd' : refresh .pair .analytic (e.cols m.xcoord) s.tab e.pc e.n m.d = .ok d := hd
  have hev : e.eval fuel xi m = some (e.finish s m d) := by
    unfold Env.eval
    simp only [hq, hs, hd']
  rw [hev, ← C105_defined (names := e.names) (w := e.w) (free := e.free) (par := m.v.par) (pot := m.v.pot)]
  unfold Env.finish pairObjective apotPunishAll
  simp only [hw.apot, if_true]
  constructor
  · rintro ⟨r, h⟩
    cases hp : apotPunish e.w (boundsAt e.free s.xi) (eoppAt (punishIndex (e.names.map String.toList)) (optFirst e.pots) s.xi)
      (univAt (punishIndex (e.names.map String.toList)) (optFirst e.pots) s.xi) m.v.par m.v.pot with
    | error f =>
      simp only [hp, bind, Except.bind, Option.some.injEq] at h
      cases h
    | ok r => exact ⟨r, rfl⟩
  · rintro ⟨r, hp⟩
    simp only [hp, bind, Except.bind]
    exact ⟨_, rfl⟩

/-- Vectors with the same effective parameters have the same functions. -/
theorem functions_congr {start x y : ℕ → ℝ}
    (h : ∀ k p n v, e.pots[k]? = some p → n < p.nPar → IsEffective e.pots e.gidx e.globals x k n v →
      IsEffective e.pots e.gidx e.globals y k n v) {P : Pots ℝ} (hP : FunctionsOf e start x P) : FunctionsOf e start y P := by
  refine ⟨hP.left, hP.right, fun t p hp => ?_⟩
  obtain ⟨val, z, m, f, e1, e2, e3⟩ := hP.pieces t p hp
  refine ⟨val, z, m, f, e1, fun n v hv => ?_, e3⟩
  have hn : n < p.nPar := by
    have := (List.getElem?_eq_some_iff.1 hv).1
    omega
  have := e2 n v hv
  split at this
  · next hi => rw [if_pos hi]; exact this
  · next hi => rw [if_neg hi]; exact h t p n v hp hn this

/-- The penalties look at parameters only. -/
theorem penalties_congr (hw : Posed e) {x y : ℕ → ℝ} (h : ∀ k, IsEntry e k → x k = y k) : penalties e x = penalties e y := by
  unfold penalties
  congr 1
  · congr 1
    · congr 1
      refine List.map_congr_left fun q hq => ?_
      rw [h _ (hw.free q hq)]
    · congr 1
      refine List.map_congr_left fun p hp => ?_
      obtain ⟨d, h1, h2⟩ := hw.eopp p hp
      unfold eoppTerm
      rw [h _ (Or.inl ⟨p, d, 1, h1, by omega, rfl⟩), h _ (Or.inl ⟨p, d, 3, h1, by omega, rfl⟩)]
  · congr 1
    refine List.map_congr_left fun p hp => ?_
    obtain ⟨d, h1, h2⟩ := hw.universal p hp
    unfold universalTerm
    rw [h _ (Or.inl ⟨p, d, 1, h1, by omega, rfl⟩), h _ (Or.inl ⟨p, d, 2, h1, by omega, rfl⟩)]

/-- **No memory, and entries which are no parameters do not matter.** Functions without a phase: two evaluations for vectors which agree in
the global parameters and in the parameters which are no references return the same value, whatever was evaluated before or between. -/
theorem C106_memory (hw : WellPosed e L before) (hf : ∀ f ∈ e.fns, f.1 ≠ .eopp ∧ f.1 ≠ .csw2) {start : ℕ → ℝ} {m m' : Mem}
    (hm : After e start m) (hm' : After e start m') {fuel fuel' : ℕ} {xi xi' : ℕ → ℝ} {r r' : Res} (hr : e.eval fuel xi m = some (.ok r))
    (hr' : e.eval fuel' xi' m' = some (.ok r')) (hg : ∀ g < e.globals.length, xi (e.gidx + g) = xi' (e.gidx + g))
    (ho : ∀ k p n, e.pots[k]? = some p → n < p.nPar → (∀ l ∈ e.globals, (k, n) ∉ l) →
      xi (optFirst e.pots k + n) = xi' (optFirst e.pots k + n)) : r.value = r'.value := by
  obtain ⟨q, hq, a1, a2, ⟨P, hP⟩, a4⟩ := C106_value hw hm hr
  obtain ⟨q', hq', b1, b2, -, b4⟩ := C106_value hw hm' hr'
  rw [checkParams_plain hf] at hq hq'
  obtain rfl := Option.some.inj hq
  obtain rfl := Option.some.inj hq'
  have heff : ∀ k p n v, e.pots[k]? = some p → n < p.nPar → IsEffective e.pots e.gidx e.globals xi k n v →
      IsEffective e.pots e.gidx e.globals xi' k n v := by
    rintro k p n v hk hn (⟨g, l, h1, h2, rfl⟩ | ⟨h1, rfl⟩)
    · exact Or.inl ⟨g, l, h1, h2, hg g (List.getElem?_eq_some_iff.1 h1).1⟩
    · exact Or.inr ⟨h1, ho k p n hk hn h1⟩
  rw [a4 P hP, b4 P (functions_congr heff hP), penalties_congr hw.toPosed]
  rintro k (⟨t, p, n, h1, h2, rfl⟩ | ⟨g, h1, rfl⟩)
  · exact C15_effective_unique hw.globals xi' t n _ _ (heff t p n _ h1 h2 (a1 t p n h1 h2)) (b1 t p n h1 h2)
  · rw [a2, b2, hg g h1]

/-- **Changes in place.** The vector an evaluation leaves behind (slopes and references overwritten) has the same value. -/
theorem C106_inplace (hw : WellPosed e L before) (hf : ∀ f ∈ e.fns, f.1 ≠ .eopp ∧ f.1 ≠ .csw2) {start : ℕ → ℝ} {m m' : Mem}
    (hm : After e start m) (hm' : After e start m') {fuel fuel' : ℕ} {xi : ℕ → ℝ} {r r' : Res} (hr : e.eval fuel xi m = some (.ok r))
    (hr' : e.eval fuel' r.xi m' = some (.ok r')) : r'.value = r.value := by
  obtain ⟨q, hq, a1, a2, -, -⟩ := C106_value hw hm hr
  rw [checkParams_plain hf] at hq
  obtain rfl := Option.some.inj hq
  refine C106_memory hw hf hm' hm hr' hr (fun g _ => a2 g) fun k p n hk hn hno => ?_
  rcases a1 k p n hk hn with ⟨g, l, h1, h2, -⟩ | ⟨-, h⟩
  · exact absurd h2 (hno l (List.mem_of_getElem? h1))
  · exact h

variable {σ : Type*} {N N' M : ℕ}

/-- `obj` is what the routine returns, whatever was evaluated before. -/
def IsApotObjective (e : ApotEval.Env) (start : ℕ → ℝ) (obj : (ℕ → ℝ) → ℝ) : Prop :=
  ∀ m fuel xi r, After e start m → e.eval fuel xi m = some (.ok r) → obj xi = r.value

/-- Such functions exist. -/
theorem C106_exists (hw : WellPosed e L before) (hf : ∀ f ∈ e.fns, f.1 ≠ .eopp ∧ f.1 ≠ .csw2) (start : ℕ → ℝ) :
    ∃ obj, IsApotObjective e start obj := by
  classical
  refine ⟨fun xi => if h : ∃ m fuel r, After e start m ∧ e.eval fuel xi m = some (.ok r) then h.choose_spec.choose_spec.choose.value else 0, ?_⟩
  intro m fuel xi r hm hr
  have h : ∃ m fuel r, After e start m ∧ e.eval fuel xi m = some (.ok r) := ⟨m, fuel, r, hm, hr⟩
  simp only [dif_pos h]
  obtain ⟨h1, h2⟩ := h.choose_spec.choose_spec.choose_spec
  exact C106_memory hw hf h1 hm h2 hr (fun _ _ => rfl) fun _ _ _ _ _ _ => rfl

/-- **The fit.** Annealing and then the least-squares optimiser, for all random numbers, solutions of the linear systems and break flags,
started with the parameters of the program start: the functions for the final parameters describe the crystals, penalties included, not worse
than those for the parameters at the start, and the value reported is their objective. No free parameter is farther outside its bounds than
the root of the first value divided by `10^7`. -/
theorem C106_fit [NeZero N] (hw : WellPosed e L before) (hpos : 0 ≤ e.w) (hf : ∀ f ∈ e.fns, f.1 ≠ .eopp ∧ f.1 ≠ .csw2)
    (hew : 0 ≤ e.ew) (hsw : 0 ≤ e.sw) (hwt : ∀ x ∈ L, 0 ≤ x.2.weight) {start : ℕ → ℝ}
    (A : Annealing.Env ℝ ℕ σ N') (hA : IsApotObjective e start A.obj) (ho : OneOnly A) (E : Powell.Env ℝ ℕ N M)
    (hE : ∀ xi, (E.obj xi).1 = A.obj xi) (hr : E.rescale = none) (pick : σ → σ × Fin N') (T : Annealing.Temp ℝ) (rng : σ)
    (a : Annealing.Res ℝ ℕ) (h1 : A.run pick T rng start = some a) (fuel : ℕ) (s : Powell.St ℝ ℕ N M) (h2 : E.run fuel a.xi = .ok s)
    {m0 m1 : Mem} {k0 k1 : ℕ} {r0 r1 : Res} (hm0 : After e start m0) (e0 : e.eval k0 start m0 = some (.ok r0)) (hm1 : After e start m1)
    (e1 : e.eval k1 s.xi m1 = some (.ok r1)) (P Q : Pots ℝ) (hP : FunctionsOf e start start P) (hQ : FunctionsOf e start s.xi Q) :
    s.f = pairCrystals e.b e.ew e.sw L Q + penalties e r1.xi ∧
      pairCrystals e.b e.ew e.sw L Q + penalties e r1.xi ≤ pairCrystals e.b e.ew e.sw L P + penalties e r0.xi ∧
      ∀ q ∈ e.free, 10000000 * outside q.lo q.hi (r1.xi q.at_) ^ 2 ≤ pairCrystals e.b e.ew e.sw L P + penalties e r0.xi := by
  obtain ⟨a1, a2, -⟩ := C29_best A ho pick T rng start a h1
  obtain ⟨p1, -, p3⟩ := C28_monotone E fuel a.xi s (by intro f hf; rw [hr] at hf; cases hf) h2
  obtain ⟨q0, hq0, -, -, -, v0⟩ := C106_value hw hm0 e0
  obtain ⟨q1, hq1, -, -, -, v1⟩ := C106_value hw hm1 e1
  rw [checkParams_plain hf] at hq0 hq1
  obtain rfl := Option.some.inj hq0
  obtain rfl := Option.some.inj hq1
  have f0 : A.obj start = pairCrystals e.b e.ew e.sw L P + penalties e r0.xi := (hA _ _ _ _ hm0 e0).trans (v0 P hP)
  have f1 : A.obj s.xi = pairCrystals e.b e.ew e.sw L Q + penalties e r1.xi := (hA _ _ _ _ hm1 e1).trans (v1 Q hQ)
  have hle : A.obj s.xi ≤ A.obj start := by
    rw [← hE s.xi]
    refine p3.trans ?_
    rw [hE, ← a1]
    exact a2
  rw [f0, f1] at hle
  refine ⟨by rw [p1, hE, f1], hle, fun q hq => le_trans ?_ hle⟩
  have n1 : 10000000 * outside q.lo q.hi (r1.xi q.at_) ^ 2 ≤
      (e.free.map fun q => 10000000 * outside q.lo q.hi (r1.xi q.at_) ^ 2).sum := by
    refine List.single_le_sum ?_ _ (List.mem_map.2 ⟨q, hq, rfl⟩)
    intro y hy
    obtain ⟨p, -, rfl⟩ := List.mem_map.1 hy
    positivity
  have n2 : 0 ≤ ((withName "eopp" e.names).map (eoppTerm e.w (optFirst e.pots) r1.xi)).sum := by
    refine List.sum_nonneg fun y hy => ?_
    obtain ⟨p, -, rfl⟩ := List.mem_map.1 hy
    exact eoppTerm_nonneg hpos _ _ _
  have n3 : 0 ≤ ((withName "universal" e.names).map (universalTerm e.w (optFirst e.pots) r1.xi)).sum := by
    refine List.sum_nonneg fun y hy => ?_
    obtain ⟨p, -, rfl⟩ := List.mem_map.1 hy
    exact universalTerm_nonneg hpos _ _ _
  have : 0 ≤ pairCrystals e.b e.ew e.sw L Q := by
    refine List.sum_nonneg fun y hy => ?_
    obtain ⟨x, hx, rfl⟩ := List.mem_map.1 hy
    exact crystalError_nonneg e.b _ hew hsw x.1 x.2 (hwt x hx)
  unfold penalties
  linarith

/-! ### Functions with a phase -/

theorem wrap_turns {n : ℕ} {x y : ℝ} (h : Tails.wrap n x = some y) : ∃ k : ℤ, y = x + k * (2 * Real.pi) := by
  have hd : ∀ n x y, Tails.down (· - 2 * Real.pi) n x = some y → ∃ k : ℤ, y = x + k * (2 * Real.pi) := by
    intro n
    induction n with
    | zero => intro x y h; cases h
    | succ n ih =>
      intro x y h
      simp only [Tails.down] at h
      split at h
      · obtain ⟨k, rfl⟩ := ih _ _ h
        exact ⟨k - 1, by push_cast; ring⟩
      · obtain rfl := Option.some.inj h
        exact ⟨-1, by push_cast; ring⟩
  have hu : ∀ n x y, Tails.up (· + 2 * Real.pi) n x = some y → ∃ k : ℤ, y = x + k * (2 * Real.pi) := by
    intro n
    induction n with
    | zero => intro x y h; cases h
    | succ n ih =>
      intro x y h
      simp only [Tails.up] at h
      split at h
      · obtain ⟨k, rfl⟩ := ih _ _ h
        exact ⟨k + 1, by push_cast; ring⟩
      · obtain rfl := Option.some.inj h
        exact ⟨1, by push_cast; ring⟩
  have key : ∀ z y, (if z < 0 then Tails.up (· + 2 * Real.pi) n z else some z) = some y → ∃ k : ℤ, y = z + k * (2 * Real.pi) := by
    intro z y h
    split at h
    · exact hu _ _ _ h
    · exact ⟨0, by rw [← Option.some.inj h]; simp⟩
  unfold Tails.wrap at h
  simp only [bind, Option.bind] at h
  split at h
  · split at h
    · cases h
    · next z hz =>
      obtain ⟨k, rfl⟩ := hd _ _ _ hz
      obtain ⟨l, rfl⟩ := key _ _ h
      exact ⟨k + l, by push_cast; ring⟩
  · exact key _ _ h

/-- Place of the phase among the parameters. -/
def phaseAt : Tails.Fn → Option ℕ
  | .eopp => some 5
  | .csw2 => some 2
  | _ => none

theorem checkFrom_turns (fns : List (Tails.Fn × Bool)) {fuel j : ℕ} {x q : ℕ → ℝ} (h : Tails.checkFrom false fuel fns j x = some q) (k : ℕ) :
    q k = x k ∨ ∃ t f c, fns[t]? = some f ∧ phaseAt f.1 = some c ∧ k = j + ((fns.take t).map Props.entries).sum + c ∧
      ∃ z : ℤ, q k = x k + z * (2 * Real.pi) := by
  induction fns generalizing j x with
  | nil =>
    simp only [Tails.checkFrom, Option.some.injEq] at h
    left; rw [h]
  | cons a fns ih =>
    obtain ⟨f, b⟩ := a
    simp only [Tails.checkFrom] at h
    obtain ⟨y, h1, h2⟩ := Option.bind_eq_some_iff.1 h
    have hy : y k = x k ∨ ∃ c, phaseAt f = some c ∧ k = j + c ∧ ∃ z : ℤ, y k = x k + z * (2 * Real.pi) := by
      cases f with
      | eopp =>
        simp only [Tails.checkOne, Option.map_eq_some_iff] at h1
        obtain ⟨v, hv, rfl⟩ := h1
        by_cases hk : k = j + 5
        · right
          obtain ⟨z, hz⟩ := wrap_turns hv
          exact ⟨5, rfl, hk, z, by rw [hk, Function.update_self, hz]⟩
        · left; exact Function.update_of_ne hk _ _
      | csw2 =>
        simp only [Tails.checkOne, Option.map_eq_some_iff] at h1
        obtain ⟨v, hv, rfl⟩ := h1
        by_cases hk : k = j + 2
        · right
          obtain ⟨z, hz⟩ := wrap_turns hv
          exact ⟨2, rfl, hk, z, by rw [hk, Function.update_self, hz]⟩
        · left; exact Function.update_of_ne hk _ _
      | tersoffPot =>
        simp [Tails.checkOne] at h1
        left; rw [h1]
      | other n v =>
        simp only [Tails.checkOne, Option.some.injEq] at h1
        left; rw [h1]
    have hent : 2 + f.nPar + (if b = true then 1 else 0) = Props.entries (f, b) := rfl
    rcases ih h2 with h3 | ⟨t, g, c, g1, g2, g3, z, g4⟩
    · rw [h3]
      rcases hy with hy | ⟨c, c1, c2, c3⟩
      · exact Or.inl hy
      · exact Or.inr ⟨0, (f, b), c, rfl, c1, by simpa using c2, c3⟩
    · right
      refine ⟨t + 1, g, c, by simpa using g1, g2, ?_, ?_⟩
      · rw [g3, hent]
        simp only [List.take_succ_cons, List.map_cons, List.sum_cons]
        omega
      · rcases hy with hy | ⟨c', -, -, z', hz'⟩
        · exact ⟨z, by rw [g4, hy]⟩
        · exact ⟨z + z', by rw [g4, hz']; push_cast; ring⟩

/-- The names and the functions belong together: same layout, and at the sampling points functions with a phase are those of
`src/functions_impl.c`. -/
structure Linked (e : ApotEval.Env) : Prop where
  length : e.fns.length = e.pots.length
  layout : ∀ (t : ℕ) (f : Tails.Fn × Bool) (p : Pot ℝ), e.fns[t]? = some f → e.pots[t]? = some p → p.smooth = f.2 ∧ p.nPar = f.1.nPar + if f.2 then 1 else 0
  phase : ∀ (t : ℕ) (f : Tails.Fn × Bool) (p : Pot ℝ) (c : ℕ), e.fns[t]? = some f → e.pots[t]? = some p → phaseAt f.1 = some c → ∀ j < e.steps, ∀ val : List ℝ, val.length = p.nPar →
    p.fvalue (grid e.steps e.beg e.fin t j) val = .ok (valueOf f.1 (grid e.steps e.beg e.fin t j) fun m => val.getD m 0)

theorem linked_first (hk : Linked e) (t : ℕ) : 2 + ((e.fns.take t).map Props.entries).sum = optFirst e.pots t := by
  unfold optFirst
  congr 2
  refine List.ext_getElem (by simp [hk.length]) fun i h1 h2 => ?_
  simp only [List.length_map, List.length_take] at h1 h2
  simp only [List.getElem_map, List.getElem_take]
  have := (hk.layout i _ _ (List.getElem?_eq_getElem (by omega)) (List.getElem?_eq_getElem (by omega))).2
  rw [this]
  unfold Props.entries
  omega

/-- **Turning phases by `2 pi` does not change the functions.** -/
theorem C106_phase (hw : Posed e) (hk : Linked e) {fuel : ℕ} {xi q : ℕ → ℝ}
    (hq : Tails.checkParams false fuel e.fns xi = some q) {start : ℕ → ℝ} {P : Pots ℝ} (hP : FunctionsOf e start xi P) :
    FunctionsOf e start q P := by
  have hturn : ∀ k, q k = xi k ∨ ∃ t f c, e.fns[t]? = some f ∧ phaseAt f.1 = some c ∧ k = optFirst e.pots t + c ∧
      ∃ z : ℤ, q k = xi k + z * (2 * Real.pi) := by
    intro k
    rcases checkFrom_turns e.fns hq k with h | ⟨t, f, c, h1, h2, h3, h4⟩
    · exact Or.inl h
    · exact Or.inr ⟨t, f, c, h1, h2, by rw [h3, linked_first hk], h4⟩
  have hc : ∀ (f : Tails.Fn) (c : ℕ), phaseAt f = some c → c < f.nPar := by
    intro f c h
    cases f <;> simp [phaseAt] at h <;> subst h <;> simp [Tails.Fn.nPar]
  have hglob : ∀ g, q (e.gidx + g) = xi (e.gidx + g) := by
    intro g
    rcases hturn (e.gidx + g) with h | ⟨t, f, c, h1, h2, h3, -⟩
    · exact h
    · exfalso
      have ht : t < e.pots.length := by rw [← hk.length]; exact (List.getElem?_eq_some_iff.1 h1).1
      obtain ⟨p, hp⟩ : ∃ p, e.pots[t]? = some p := ⟨_, List.getElem?_eq_getElem ht⟩
      have h4 := (hk.layout t f p h1 hp).2
      have h5 := hc _ _ h2
      have h6 := optFirst_end e.pots t p hp
      have h7 := hw.globals.behind
      omega
  refine ⟨hP.left, hP.right, fun t p hp => ?_⟩
  obtain ⟨val, y, m, F, e1, e2, e3, e4⟩ := hP.pieces t p hp
  have ht : t < e.pots.length := (List.getElem?_eq_some_iff.1 hp).1
  obtain ⟨f, hf⟩ : ∃ f, e.fns[t]? = some f := ⟨_, List.getElem?_eq_getElem (by rw [hk.length]; exact ht)⟩
  obtain ⟨l1, l2⟩ := hk.layout t f p hf hp
  cases hi : p.invar with
  | true =>
    rw [hi] at e2
    exact ⟨val, y, m, F, e1, by simpa using e2, e3, e4⟩
  | false =>
    rw [hi] at e2
    simp only [Bool.false_eq_true, if_false] at e2 ⊢
    let val' : List ℝ := (List.range p.nPar).map fun n => copyGlobals e.pots e.gidx e.globals q (optFirst e.pots t + n)
    have hl' : val'.length = p.nPar := by simp [val']
    have heff : ∀ n v, val'[n]? = some v → IsEffective e.pots e.gidx e.globals q t n v := by
      intro n v hv
      have hn : n < p.nPar := by
        have := (List.getElem?_eq_some_iff.1 hv).1
        omega
      simp only [val', List.getElem?_map, List.getElem?_range hn, Option.map_some, Option.some.injEq] at hv
      rw [← hv]
      exact copyGlobals_spec hw.globals q hp hn
    have hent : ∀ n < p.nPar, val'.getD n 0 = val.getD n 0 ∨ phaseAt f.1 = some n ∧ ∃ z : ℤ, val'.getD n 0 = val.getD n 0 + z * (2 * Real.pi) := by
      intro n hn
      have g1 : val[n]? = some (val.getD n 0) := by
        rw [List.getD_eq_getElem?_getD, List.getElem?_eq_getElem (by omega)]; rfl
      have g2 : val'[n]? = some (val'.getD n 0) := by
        rw [List.getD_eq_getElem?_getD, List.getElem?_eq_getElem (by omega)]; rfl
      rcases heff n _ g2 with ⟨g, l, a1, a2, a3⟩ | ⟨a1, a2⟩ <;> rcases e2 n _ g1 with ⟨g', l', b1, b2, b3⟩ | ⟨b1, b2⟩
      · left
        have h1 : IsEffective e.pots e.gidx e.globals xi t n (xi (e.gidx + g)) := Or.inl ⟨g, l, a1, a2, rfl⟩
        have h2 : IsEffective e.pots e.gidx e.globals xi t n (xi (e.gidx + g')) := Or.inl ⟨g', l', b1, b2, rfl⟩
        rw [a3, b3, hglob]
        exact C15_effective_unique hw.globals xi t n _ _ h1 h2
      · exact absurd a2 (b1 l (List.mem_of_getElem? a1))
      · exact absurd b2 (a1 l' (List.mem_of_getElem? b1))
      · rw [a2, b2]
        rcases hturn (optFirst e.pots t + n) with h | ⟨t', f', c, h1, h2, h3, h4⟩
        · exact Or.inl h
        · right
          have ht' : t' < e.pots.length := by rw [← hk.length]; exact (List.getElem?_eq_some_iff.1 h1).1
          obtain ⟨p', hp'⟩ : ∃ p, e.pots[t']? = some p := ⟨_, List.getElem?_eq_getElem ht'⟩
          have h5 := (hk.layout t' f' p' h1 hp').2
          have h6 := hc _ _ h2
          obtain ⟨rfl, rfl⟩ := pos_inj e.pots hp hp' hn (by omega) h3
          rw [h1] at hf
          cases hf
          exact ⟨h2, h4⟩
    refine ⟨val', y, m, F, hl', heff, fun j hj => ?_, e4⟩
    obtain ⟨v, hv, hs⟩ := e3 j hj
    have hvv : p.fvalue (grid e.steps e.beg e.fin t j) val' = p.fvalue (grid e.steps e.beg e.fin t j) val := by
      cases hph : phaseAt f.1 with
      | none =>
        congr 1
        refine List.ext_getElem (by omega) fun n h1 h2 => ?_
        rcases hent n (by omega) with h | ⟨h, -⟩
        · rwa [List.getD_eq_getElem _ _ h1, List.getD_eq_getElem _ _ h2] at h
        · rw [hph] at h; cases h
      | some c =>
        rw [hk.phase t f p c hf hp hph j hj _ hl', hk.phase t f p c hf hp hph j hj _ e1]
        congr 1
        have hcp := hc _ _ hph
        have hne : ∀ n < p.nPar, n ≠ c → val'.getD n 0 = val.getD n 0 := by
          intro n hn hnc
          rcases hent n hn with h | ⟨h, -⟩
          · exact h
          · rw [hph] at h; exact absurd (Option.some.inj h).symm hnc
        obtain ⟨z, hz⟩ : ∃ z : ℤ, val'.getD c 0 = val.getD c 0 + z * (2 * Real.pi) := by
          rcases hent c (by omega) with h | ⟨-, h⟩
          · exact ⟨0, by rw [h]; simp⟩
          · exact h
        generalize hff : f.1 = ff at hph hcp l2
        cases ff with
        | eopp =>
          simp only [phaseAt, Option.some.injEq] at hph
          subst hph
          simp only [Tails.Fn.nPar] at l2
          simp only [valueOf, Tails.eoppValue]
          rw [hne 0 (by omega) (by omega), hne 1 (by omega) (by omega), hne 2 (by omega) (by omega), hne 3 (by omega) (by omega),
            hne 4 (by omega) (by omega), hz, ← add_assoc, Real.cos_add_int_mul_two_pi]
        | csw2 =>
          simp only [phaseAt, Option.some.injEq] at hph
          subst hph
          simp only [Tails.Fn.nPar] at l2
          simp only [valueOf, Tails.csw2Value]
          rw [hne 0 (by omega) (by omega), hne 1 (by omega) (by omega), hne 3 (by omega) (by omega), hz, ← add_assoc,
            Real.cos_add_int_mul_two_pi]
        | tersoffPot => simp [phaseAt] at hph
        | other n v => simp [phaseAt] at hph
    refine ⟨v, hvv.trans hv, ?_⟩
    split at hs
    · next hsm =>
      rw [if_pos hsm]
      obtain ⟨h, h1, h2, h3⟩ := hs
      refine ⟨h, ?_, h2, h3⟩
      rw [List.getLast?_eq_getElem?] at h1 ⊢
      rw [hl']
      rw [e1] at h1
      have h1n := hw.cutoff p (List.mem_of_getElem? hp) hsm
      rw [l1] at hsm
      rw [hsm] at l2
      simp only [if_true] at l2
      rcases hent (p.nPar - 1) (by omega) with g | ⟨g, -⟩
      · rw [List.getD_eq_getElem _ _ (by omega), List.getD_eq_getElem _ _ (by omega)] at g
        rw [List.getElem?_eq_getElem (by omega)] at h1 ⊢
        rw [g]
        exact h1
      · have := hc _ _ g
        omega
    · next hsm =>
      rw [if_neg hsm]
      exact hs

/-- **One evaluation, functions with a phase.** The value is that of the functions for the vector passed, plus the penalties for the
vector left behind. -/
theorem C106_phase_value (hw : WellPosed e L before) (hk : Linked e) {start : ℕ → ℝ} {m : Mem} (hm : After e start m) {fuel : ℕ}
    {xi : ℕ → ℝ} {r : Res} (hr : e.eval fuel xi m = some (.ok r)) {P : Pots ℝ} (hP : FunctionsOf e start xi P) :
    r.value = pairCrystals e.b e.ew e.sw L P + penalties e r.xi := by
  obtain ⟨q, hq, -, -, -, h⟩ := C106_value hw hm hr
  exact h P (C106_phase hw.toPosed hk hq hP)

/-- **Turned out of the bounds.** A phase with bounds `-1` and `1` and value `-1/2`: it is within its bounds, but the evaluation turns it to
`2 pi - 1/2` and then adds a penalty of more than `10^8` for this value. -/
theorem C106_phase_violated (hw : WellPosed e L before) (hpos : 0 ≤ e.w) (hew : 0 ≤ e.ew) (hsw : 0 ≤ e.sw) (hwt : ∀ x ∈ L, 0 ≤ x.2.weight)
    {b : Bool} {fs : List (Tails.Fn × Bool)} (hf : e.fns = (.eopp, b) :: fs) {p : Pot ℝ} (hp : e.pots[0]? = some p) (hn : 6 ≤ p.nPar)
    (hno : ∀ l ∈ e.globals, (0, 5) ∉ l) {q : Free ℝ} (hq : q ∈ e.free) (h1 : q.at_ = optFirst e.pots 0 + 5) (h2 : q.lo = -1) (h3 : q.hi = 1)
    {xi : ℕ → ℝ} (hx : xi q.at_ = -1 / 2) {start : ℕ → ℝ} {m : Mem} (hm : After e start m) {fuel : ℕ} {r : Res}
    (hr : e.eval fuel xi m = some (.ok r)) : (q.lo ≤ xi q.at_ ∧ xi q.at_ ≤ q.hi) ∧ 100000000 < r.value := by
  refine ⟨by rw [hx, h2, h3]; constructor <;> norm_num, ?_⟩
  obtain ⟨y, hy, a1, -, ⟨P, hP⟩, a4⟩ := C106_value hw hm hr
  have hpi := Real.pi_gt_three
  have h7 : optFirst e.pots 0 + 5 = 7 := by simp [optFirst]
  have hy7 : y 7 = 2 * Real.pi - 1 / 2 := by
    rw [hf] at hy
    simp only [Tails.checkParams, Tails.checkFrom] at hy
    obtain ⟨z, z1, z2⟩ := Option.bind_eq_some_iff.1 hy
    simp only [Tails.checkOne, Option.map_eq_some_iff] at z1
    obtain ⟨u, hu, rfl⟩ := z1
    have hk : y 7 = Function.update xi (2 + 5) u 7 := by
      rcases checkFrom_turns fs z2 7 with h | ⟨t, f, c, -, -, h, -⟩
      · exact h
      · simp only [Tails.Fn.nPar] at h
        omega
    rw [hk]
    show Function.update xi 7 u 7 = _
    rw [Function.update_self]
    rw [h1, h7] at hx
    change Tails.wrap fuel (xi 7) = some u at hu
    rw [hx] at hu
    unfold Tails.wrap at hu
    simp only [bind, Option.bind] at hu
    rw [if_neg (by linarith)] at hu
    rw [if_pos (by norm_num)] at hu
    cases fuel with
    | zero => cases hu
    | succ n =>
      simp only [Tails.up] at hu
      rw [if_neg (by linarith)] at hu
      rw [← Option.some.inj hu]
      ring
  have hr7 : r.xi q.at_ = 2 * Real.pi - 1 / 2 := by
    rcases a1 0 p 5 hp (by omega) with ⟨g, l, g1, g2, -⟩ | ⟨-, g⟩
    · exact absurd g2 (hno l (List.mem_of_getElem? g1))
    · rw [h1, g, h7, hy7]
  rw [a4 P hP]
  have n0 : 0 ≤ pairCrystals e.b e.ew e.sw L P := by
    refine List.sum_nonneg fun y hy => ?_
    obtain ⟨x, hx, rfl⟩ := List.mem_map.1 hy
    exact crystalError_nonneg e.b _ hew hsw x.1 x.2 (hwt x hx)
  have n1 : 10000000 * outside q.lo q.hi (r.xi q.at_) ^ 2 ≤
      (e.free.map fun q => 10000000 * outside q.lo q.hi (r.xi q.at_) ^ 2).sum := by
    refine List.single_le_sum ?_ _ (List.mem_map.2 ⟨q, hq, rfl⟩)
    intro y hy
    obtain ⟨p, -, rfl⟩ := List.mem_map.1 hy
    positivity
  have n2 : 0 ≤ ((withName "eopp" e.names).map (eoppTerm e.w (optFirst e.pots) r.xi)).sum := by
    refine List.sum_nonneg fun y hy => ?_
    obtain ⟨p, -, rfl⟩ := List.mem_map.1 hy
    exact eoppTerm_nonneg hpos _ _ _
  have n3 : 0 ≤ ((withName "universal" e.names).map (universalTerm e.w (optFirst e.pots) r.xi)).sum := by
    refine List.sum_nonneg fun y hy => ?_
    obtain ⟨p, -, rfl⟩ := List.mem_map.1 hy
    exact universalTerm_nonneg hpos _ _ _
  have n4 : 4 < outside q.lo q.hi (r.xi q.at_) := by
    rw [hr7, h2, h3]
    exact lt_max_of_lt_right (lt_max_of_lt_left (by linarith))
  have n5 : (16 : ℝ) < outside q.lo q.hi (r.xi q.at_) ^ 2 := by nlinarith
  unfold penalties
  linarith

theorem functions_invariant {start x y : ℕ → ℝ} (hinv : ∀ p ∈ e.pots, p.invar = true) {P : Pots ℝ} (hP : FunctionsOf e start x P) :
    FunctionsOf e start y P := by
  refine ⟨hP.left, hP.right, fun t p hp => ?_⟩
  obtain ⟨val, z, m, f, e1, e2, e3⟩ := hP.pieces t p hp
  refine ⟨val, z, m, f, e1, ?_, e3⟩
  rw [hinv p (List.mem_of_getElem? hp)] at e2 ⊢
  exact e2

/-- **Invariant potentials do not follow.** Potentials marked invariant (`#I`) keep the functions of the program start even if their
parameters refer to global parameters: the value for the crystals is the same for all values of the global parameters, though the vector
(and with it the file written at the end) has the new values in the references. -/
theorem C106_invariant_violated (hw : WellPosed e L before) (hinv : ∀ p ∈ e.pots, p.invar = true)
    (hf : ∀ f ∈ e.fns, f.1 ≠ .eopp ∧ f.1 ≠ .csw2) {g k n : ℕ} {l : List (ℕ × ℕ)} (hg : e.globals[g]? = some l) (hl : (k, n) ∈ l)
    {start : ℕ → ℝ} {m m' : Mem} (hm : After e start m) (hm' : After e start m') {fuel fuel' : ℕ} {xi xi' : ℕ → ℝ} {r r' : Res}
    (hr : e.eval fuel xi m = some (.ok r)) (hr' : e.eval fuel' xi' m' = some (.ok r')) :
    r.value - penalties e r.xi = r'.value - penalties e r'.xi ∧ r.xi (optFirst e.pots k + n) = xi (e.gidx + g) ∧
      r'.xi (optFirst e.pots k + n) = xi' (e.gidx + g) := by
  obtain ⟨q, hq, a1, -, ⟨P, hP⟩, a4⟩ := C106_value hw hm hr
  obtain ⟨q', hq', b1, -, -, b4⟩ := C106_value hw hm' hr'
  rw [checkParams_plain hf] at hq hq'
  obtain rfl := Option.some.inj hq
  obtain rfl := Option.some.inj hq'
  obtain ⟨p, hp, hn⟩ := hw.globals.inRange l (List.mem_of_getElem? hg) _ hl
  refine ⟨?_, ?_, ?_⟩
  · rw [a4 P hP, b4 P (functions_invariant hinv hP)]
    ring
  · exact C15_effective_unique hw.globals xi k n _ _ (a1 k p n hp hn) (Or.inl ⟨g, l, hg, hl, rfl⟩)
  · exact C15_effective_unique hw.globals xi' k n _ _ (b1 k p n hp hn) (Or.inl ⟨g, l, hg, hl, rfl⟩)

end

/-! ### Example -/

/-- An oscillating potential. -/
noncomputable def oscillating (invar : Bool) : Pot ℝ where
  nPar := 6
  smooth := false
  invar := invar
  endR := 3
  fvalue r val := .ok (Tails.eoppValue r fun m => val.getD m 0)
  grad _ := 0

/-- The chain of `C100` with one potential of name `nm`; its last parameter is free, with bounds `-1` and `1`, the first one is a global
parameter. -/
noncomputable def chainEnv (b : Build) (f : Conf ℝ) (nm : String) (fn : Tails.Fn) (invar : Bool) : ApotEval.Env where
  b := b
  ew := 1
  sw := 1
  w := 100
  n := 1
  confs := [f]
  steps := 3
  beg := halfCols.beg
  fin := halfCols.fin
  pots := [oscillating invar]
  names := [nm]
  fns := [(fn, false)]
  gidx := 10
  globals := [[(0, 0)]]
  free := [⟨7, -1, 1⟩]

theorem chain_posed (b : Build) (hb : b.apot = true) {nm : String} (fn : Tails.Fn) (invar : Bool) (hu : withName "universal" [nm] = []) :
    ∃ f, 0 < f.weight ∧ WellPosed (chainEnv b f nm fn invar) [(thin, f)] (fun _ => 0) := by
  obtain ⟨g, hg, hn, ht, ho⟩ := thin_sample
  let f : Conf ℝ := { g with weight := 1 }
  have hf : PairSample halfCols 1 (fun _ => 0) (thin, f) := by
    refine ⟨⟨?_⟩, hn, ht, ho⟩
    obtain ⟨edge, scale, h1, h2, h3, h4⟩ := hg.made
    exact ⟨edge, scale, h1, h2, h3, h4.start, h4.count, h4.typ, h4.lists⟩
  refine ⟨f, one_pos, ⟨hb, by norm_num [chainEnv], ?_, ?_, ⟨?_, ?_, ?_⟩, ?_, ?_, ?_, ?_⟩, rfl, by simp [chainEnv], ?_⟩
  · intro i _; norm_num [chainEnv, halfCols]
  · intro p hp; obtain rfl := List.mem_singleton.1 hp; simp [oscillating]
  · intro l hl mn hmn
    obtain rfl := List.mem_singleton.1 hl
    obtain rfl := List.mem_singleton.1 hmn
    exact ⟨_, rfl, by simp [oscillating]⟩
  · exact List.pairwise_singleton _ _
  · simp [chainEnv, oscillating]
  · intro q hq; obtain rfl := List.mem_singleton.1 hq; norm_num
  · intro q hq
    obtain rfl := List.mem_singleton.1 hq
    exact Or.inl ⟨0, _, 5, rfl, by simp [oscillating], by simp [optFirst]⟩
  · intro p hp
    have hp0 : p = 0 := by
      unfold withName at hp
      rw [List.mem_filter, List.mem_range] at hp
      have := hp.1
      simp only [chainEnv, List.length_singleton] at this
      omega
    subst hp0
    exact ⟨_, rfl, by simp [oscillating]⟩
  · intro p hp
    rw [show (chainEnv b f nm fn invar).names = [nm] from rfl, hu] at hp
    cases hp
  · intro x hx
    obtain rfl := List.mem_singleton.1 hx
    exact hf

theorem chain_update (invar : Bool) (xc : ℕ → ℝ) (doAll : Bool) (x l t : ℕ → ℝ) :
    ∃ s, updateCalcTable 3 xc [oscillating invar] 10 [[(0, 0)]] doAll x l t = .ok s := by
  have key : ∀ c val h t, ∃ t', resample 3 xc doAll c (oscillating invar) 0 val h t = .ok t' := by
    intro c val h t
    unfold resample
    split
    · exact ⟨_, rfl⟩
    · exact ⟨_, rfl⟩
  unfold updateCalcTable updatePots updatePot
  have hc : ∀ o h x, cutoffParam doAll (oscillating invar) o h x = .ok h := by
    intro o h x
    simp [cutoffParam, oscillating]
  rw [hc]
  simp only [bind, Except.bind]
  obtain ⟨t', ht⟩ := key _ _ _ _
  rw [ht]
  exact ⟨_, rfl⟩

theorem chain_start (b : Build) (f : Conf ℝ) (nm : String) (fn : Tails.Fn) (invar : Bool) (x : ℕ → ℝ) :
    ∃ m, After (chainEnv b f nm fn invar) x m := by
  obtain ⟨c, hc⟩ : ∃ c, initCalc 3 halfCols.beg halfCols.fin ([oscillating invar].zip [[1, 1, 1, 1, 1, (1 : ℝ)]]) 0 ⟨fun _ => 0, fun _ => 0⟩ = .ok c :=
    ⟨_, rfl⟩
  obtain ⟨s, hs⟩ := chain_update invar c.xcoord true x (fun _ => 0) c.tab
  refine ⟨⟨c.xcoord, s.list, s.tab, fun _ => 0, ⟨⟨0, 0, 0, 0⟩, 0, 0⟩⟩, .start ⟨[[1, 1, 1, 1, 1, 1]], ⟨fun _ => 0, fun _ => 0⟩, fun _ => 0,
    fun _ => 0, ⟨⟨0, 0, 0, 0⟩, 0, 0⟩, rfl, ?_⟩⟩
  unfold Env.start
  simp only [chainEnv]
  rw [hc]
  simp only
  rw [hs]

/-- Hypotheses of `C106_value`, `C106_phase_value` and `C106_phase_violated`: the chain, evaluated with phase `-1/2`. -/
example (b : Build) (hb : b.apot = true) : ∃ f m r, 0 < f.weight ∧ WellPosed (chainEnv b f "eopp" .eopp false) [(thin, f)] (fun _ => 0) ∧
    Linked (chainEnv b f "eopp" .eopp false) ∧ After (chainEnv b f "eopp" .eopp false) (fun _ => 1) m ∧
    (chainEnv b f "eopp" .eopp false).eval 1 (fun k => if k = 7 then -1 / 2 else 1) m = some (.ok r) := by
  obtain ⟨f, hf, hw⟩ := chain_posed b hb (nm := "eopp") .eopp false (by decide +kernel)
  have hl : Linked (chainEnv b f "eopp" .eopp false) := by
    refine ⟨rfl, ?_, ?_⟩
    · intro t g p hg hp
      cases t with
      | zero => cases hg; cases hp; simp [oscillating, Tails.Fn.nPar]
      | succ t => cases hg
    · intro t g p c hg hp _ j _ val _
      cases t with
      | zero => cases hg; cases hp; rfl
      | succ t => cases hg
  obtain ⟨m, hm⟩ := chain_start b f "eopp" .eopp false fun _ => 1
  obtain ⟨q, hq⟩ : ∃ q, Tails.checkParams false 1 (chainEnv b f "eopp" .eopp false).fns (fun k => if k = 7 then -1 / 2 else 1) = some q := by
    have hpi := Real.pi_gt_three
    simp only [chainEnv, Tails.checkParams, Tails.checkFrom, Tails.checkOne, Tails.wrap, bind, Option.bind, Tails.up]
    norm_num
    rw [if_neg (by linarith), if_neg (by linarith)]
    exact ⟨_, rfl⟩
  obtain ⟨s, hs⟩ := chain_update false m.xcoord false q m.list m.tab
  obtain ⟨r, hr⟩ := (C106_defined hw hq hs).2 (by
    have hnames : withName "universal" ["eopp"] = [] := by decide +kernel
    intro p hp
    rw [show (chainEnv b f "eopp" .eopp false).names = ["eopp"] from rfl, hnames] at hp
    cases hp)
  exact ⟨f, m, r, hf, hw, hl, hm, hr⟩

/-- Every vector can be evaluated, if the function is not treated as one with a phase. -/
theorem chain_eval (b : Build) (hb : b.apot = true) (invar : Bool) (v : ℝ → (ℕ → ℝ) → ℝ) : ∃ f, 0 < f.weight ∧
    WellPosed (chainEnv b f "meopp" (.other 6 v) invar) [(thin, f)] (fun _ => 0) ∧
    (∀ g ∈ (chainEnv b f "meopp" (.other 6 v) invar).fns, g.1 ≠ .eopp ∧ g.1 ≠ .csw2) ∧
    (∀ x, ∃ m, After (chainEnv b f "meopp" (.other 6 v) invar) x m) ∧
    ∀ m x, ∃ r, (chainEnv b f "meopp" (.other 6 v) invar).eval 0 x m = some (.ok r) := by
  have hnames : withName "universal" ["meopp"] = [] := by decide +kernel
  obtain ⟨f, hf, hw⟩ := chain_posed b hb (nm := "meopp") (.other 6 v) invar hnames
  refine ⟨f, hf, hw, ?_, fun x => chain_start _ _ _ _ _ _, fun m x => ?_⟩
  · intro g hg
    obtain rfl := List.mem_singleton.1 hg
    constructor <;> intro h <;> cases h
  · obtain ⟨s, hs⟩ := chain_update invar m.xcoord false x m.list m.tab
    refine (C106_defined hw (q := x) rfl hs).2 ?_
    intro p hp
    rw [show (chainEnv b f "meopp" (.other 6 v) invar).names = ["meopp"] from rfl, hnames] at hp
    cases hp

/-- Hypotheses of `C106_memory`, `C106_inplace` and `C106_invariant_violated`. -/
example (b : Build) (hb : b.apot = true) (x y : ℕ → ℝ) : ∃ f m m' r r', 0 < f.weight ∧
    WellPosed (chainEnv b f "meopp" (.other 6 fun _ _ => 0) true) [(thin, f)] (fun _ => 0) ∧
    After (chainEnv b f "meopp" (.other 6 fun _ _ => 0) true) x m ∧ (chainEnv b f "meopp" (.other 6 fun _ _ => 0) true).eval 0 x m = some (.ok r) ∧
    After (chainEnv b f "meopp" (.other 6 fun _ _ => 0) true) x m' ∧
    (chainEnv b f "meopp" (.other 6 fun _ _ => 0) true).eval 0 y m' = some (.ok r') := by
  obtain ⟨f, hf, hw, -, hs, he⟩ := chain_eval b hb true fun _ _ => 0
  obtain ⟨m, hm⟩ := hs x
  obtain ⟨r, hr⟩ := he m x
  have hm' := After.step 0 x r hm hr
  obtain ⟨r', hr'⟩ := he r.mem y
  exact ⟨f, m, r.mem, r, r', hf, hw, hm, hr, hm', hr'⟩

/-- Hypotheses of `C106_fit`. -/
example (b : Build) (hb : b.apot = true) (x : ℕ → ℝ) : ∃ f obj a s m r0 r1 P Q, 0 < f.weight ∧
    WellPosed (chainEnv b f "meopp" (.other 6 fun _ _ => 0) false) [(thin, f)] (fun _ => 0) ∧
    IsApotObjective (chainEnv b f "meopp" (.other 6 fun _ _ => 0) false) x obj ∧
    (driftAnneal obj).run (fun s => (s + 1, 0)) (.given 1) 0 x = some a ∧ (stuckPowell obj).run 1 a.xi = .ok s ∧
    After (chainEnv b f "meopp" (.other 6 fun _ _ => 0) false) x m ∧
    (chainEnv b f "meopp" (.other 6 fun _ _ => 0) false).eval 0 x m = some (.ok r0) ∧
    (chainEnv b f "meopp" (.other 6 fun _ _ => 0) false).eval 0 s.xi m = some (.ok r1) ∧
    FunctionsOf (chainEnv b f "meopp" (.other 6 fun _ _ => 0) false) x x P ∧
    FunctionsOf (chainEnv b f "meopp" (.other 6 fun _ _ => 0) false) x s.xi Q := by
  obtain ⟨f, hf, hw, hp, hs, he⟩ := chain_eval b hb false fun _ _ => 0
  obtain ⟨obj, ho⟩ := C106_exists hw hp x
  obtain ⟨a, ha⟩ : ∃ a, (driftAnneal obj).run (fun s => (s + 1, 0)) (.given 1) 0 x = some a := by
    unfold Annealing.Env.run Annealing.Env.temperature
    simp only
    rw [if_neg (by norm_num)]
    simp only
    rw [if_neg one_ne_zero]
    exact ⟨_, rfl⟩
  obtain ⟨s, hs', -⟩ := stuckPowell_run obj a.xi
  obtain ⟨m, hm⟩ := hs x
  obtain ⟨r0, h0⟩ := he m x
  obtain ⟨r1, h1⟩ := he m s.xi
  obtain ⟨q, hq, -, -, ⟨P, hP⟩, -⟩ := C106_value hw hm h0
  obtain ⟨q', hq', -, -, ⟨Q, hQ⟩, -⟩ := C106_value hw hm h1
  rw [checkParams_plain hp] at hq hq'
  obtain rfl := Option.some.inj hq
  obtain rfl := Option.some.inj hq'
  exact ⟨f, obj, a, s, m, r0, r1, P, Q, hf, hw, ho, ha, hs', hm, h0, h1, hP, hQ⟩

end Verif.Props
