/-
C108  Analytic EAM potentials: every evaluation returns the objective of the crystals for the functions the parameters stand for, plus gauge
conditions and penalties; a fit does not worsen it. At the end of the sampled range of an embedding function slope and value jump.
-/
import Verif.Model.ApotEvalEam
import Verif.Props.C106
import Mathlib.Analysis.Calculus.Deriv.Pow
import Mathlib.Analysis.Calculus.Deriv.Add
import Mathlib.Analysis.Calculus.Deriv.Mul
import Mathlib.Topology.Algebra.Polynomial
import Mathlib.Analysis.Calculus.MeanValue

set_option linter.unusedSectionVars false

namespace Verif.Props

open Verif.Force hiding Cell
open Verif.Neighbors Verif.Spec Verif.SplineInit Verif.Apot Verif.ApotEval Verif.Splines Polynomial

/-! ### What is claimed -/

/-- Value and slope of the analytic functions for the parameters of `x`: the slope is the difference quotient over `2/10000`. -/
def Analytic (e : ApotEval.Env) (x : ℕ → ℝ) (t : ℕ) (ana : ℝ → ℝ × ℝ) : Prop :=
  ∀ p, e.pots[t]? = some p → ∃ val : List ℝ, val.length = p.nPar ∧ (∀ n v, val[n]? = some v → IsEffective e.pots e.gidx e.globals x t n v) ∧
    (∀ r v, p.fvalue r val = .ok v → (ana r).1 = v) ∧
    ∀ r v v', p.fvalue (r + 1 / 10000) val = .ok v → p.fvalue (r - 1 / 10000) val = .ok v' → (ana r).2 = (v - v') / (2 / 10000)

/-- The EAM functions for the parameter vector `x`: sampled and interpolated (C106), analytic outside the range. -/
structure EamFunctionsOf (e : ApotEval.Env) (start x : ℕ → ℝ) (P : EamPots ℝ) : Prop where
  sampled : FunctionsOf e start x P.toPots
  paircol : P.paircol = e.n * (e.n + 1) / 2
  ntypes : P.ntypes = e.n
  ana : ∀ t, Analytic e x t (P.ana t)

/-- The function is defined at `r` for the parameters of `x`. -/
def DefinedAt (e : ApotEval.Env) (x : ℕ → ℝ) (t : ℕ) (r : ℝ) : Prop :=
  ∀ p, e.pots[t]? = some p → ∀ val : List ℝ, val.length = p.nPar → (∀ n v, val[n]? = some v → IsEffective e.pots e.gidx e.globals x t n v) →
    ∃ v, p.fvalue r val = .ok v

/-- The density is inside the sampled range and above `1/10`; or it is outside (or below `1/10`), where the analytic function is defined, and
its difference quotient is the derivative. -/
def Placed (e : ApotEval.Env) (x : ℕ → ℝ) (P : EamPots ℝ) (t : ℕ) (rho : ℝ) : Prop :=
  (e.beg t < rho ∧ rho < e.fin t ∧ 1 / 10 < rho) ∨
  ((rho < e.beg t ∨ e.fin t < rho ∨ rho < 1 / 10) ∧ (∀ᶠ r in nhds rho, DefinedAt e x t r) ∧ DefinedAt e x t (rho + 1 / 10000) ∧
    DefinedAt e x t (rho - 1 / 10000) ∧ HasDerivAt (fun r => (P.ana t r).1) (P.ana t rho).2 rho)

/-- All densities of the crystals are. -/
def AllPlaced (e : ApotEval.Env) (L : List (Cell × Conf ℝ)) (x : ℕ → ℝ) (P : EamPots ℝ) : Prop :=
  ∀ c ∈ L, ∀ i < c.1.sites.length, Placed e x P (e.n * (e.n + 1) / 2 + e.n + (c.1.site i).typ) (latticeDensity P c.1 i)

/-- What the reader of potential files and the preparation of the configurations guarantee. -/
structure EamPosed (e : EamEnv) (L : List (Cell × Conf ℝ)) (before : ℕ → ℝ) : Prop extends Posed e.toEnv where
  confs : e.confs = L.map Prod.snd
  number : e.pots.length = e.n * (e.n + 1) / 2 + 2 * e.n
  rescale : e.b.rescale = false
  gauge : GaugeInside e.b (calcCols e.steps e.beg e.fin fun _ => 0) e.n
  crystals : ∀ x ∈ L, EamSample (calcCols e.steps e.beg e.fin fun _ => 0) e.n before x

/-- The memory after program start and evaluations for any vectors. -/
inductive AfterEam (e : EamEnv) (start : ℕ → ℝ) : EamMem → Prop
  | start {m : EamMem} {vals c0 list0 d v} : vals.length = e.pots.length → e.begin vals c0 list0 d v start = .ok m → AfterEam e start m
  | step {m : EamMem} (fuel : ℕ) (xi : ℕ → ℝ) (r : EamRes) : AfterEam e start m → e.run fuel xi m = some (.ok r) → AfterEam e start r.mem

/-! ### Pieces -/

section
variable {t : Cols ℝ} {n : ℕ} {xi : ℕ → ℝ} {P Q : EamPots ℝ} {before : ℕ → ℝ} {fmt : Format}

theorem eam_clear_tables (hl : Layout (isGeneral fmt) t (n * (n + 1) / 2 + 2 * n)) (hP : EamSplines fmt t xi n P)
    {x : Cell × Conf ℝ} (hx : EamSample t n before x) : PairClear P.toPots x.1 ∧ TransferClear P x.1 := by
  obtain ⟨-, h2, -, h4, h5⟩ := hx
  refine ⟨fun i hi m hm => ?_, fun i hi m hm => ?_⟩
  · have := pairColumn_lt h2 h4 hi hm.1
    exact splines_smooth hl hP.splines (by omega) (h5 i hi m hm).1
  · have := h4 m.j hm.1
    rw [hP.paircol]
    exact splines_smooth hl hP.splines (by omega) (h5 i hi m hm).2

/-- Functions of the same table whose embedding functions agree at the densities of a crystal have the same error. -/
theorem eam_error_same (hl : Layout (isGeneral fmt) t (n * (n + 1) / 2 + 2 * n)) (hP : EamSplines fmt t xi n P)
    (hQ : EamSplines fmt t xi n Q) {b : Build} (ew sw : ℝ) {x : Cell × Conf ℝ} (hx : EamSample t n before x)
    (cP : EmbedClear b P x.1) (cQ : EmbedClear b Q x.1)
    (he : ∀ i < x.1.sites.length, embed b P (n * (n + 1) / 2 + n + (x.1.site i).typ) (latticeDensity P x.1 i) =
      embed b Q (n * (n + 1) / 2 + n + (x.1.site i).typ) (latticeDensity P x.1 i)) :
    crystalError b (latticeEam b P) ew sw (cellVolume x.1.box.edge) x.1 x.2 =
      crystalError b (latticeEam b Q) ew sw (cellVolume x.1.box.edge) x.1 x.2 := by
  have hdens := fun i hi => eam_density_congr hl hP hQ hx i hi
  have hx' := hx
  obtain ⟨h1, h2, h3, h4, h5⟩ := hx'
  obtain ⟨edge, scale, hrd, -, -, hbt⟩ := h1.made
  have hsym := cutoffs_good .eam false n t.fin 0 before
  have key : ∀ R : EamPots ℝ, EamSplines fmt t xi n R → EmbedClear b R x.1 →
      (∀ i < x.1.sites.length, latticeDensity P x.1 i = latticeDensity R x.1 i) →
      (crystalError b (latticeEam b R) ew sw (cellVolume x.1.box.edge) x.1 x.2 =
        confError b (eamFullSlope b R x.2) (eamTotal b R x.2) ew sw x.2) ∧
      ∀ j a, x.2.atoms[j]? = some a → totalDensity R x.2 (x.2.start + j) = latticeDensity P x.1 j := by
    intro R hR c3 hD
    obtain ⟨c1, c2⟩ := eam_clear_tables hl hR hx
    have r1 := reach_pair .eam (Or.inr rfl) false n R.toPots 0 before x.1 h2 h4
    have r2 := reach_transfer false n R 0 before x.1 hR.paircol h4
    rw [hR.splines.fin] at r1 r2
    refine ⟨?_, ?_⟩
    · rw [error_eam hrd hbt hsym b R (hR.paircol.trans h3.symm) r1 r2 c1 c2 c3, h1.vol]
    · intro j a ha
      have hj : j < x.1.sites.length := by rw [← hbt.count]; exact (List.getElem?_eq_some_iff.1 ha).1
      rw [hbt.start, ← lattice_density hrd hbt hsym R r2 j hj, hD j hj]
  obtain ⟨kP, dP⟩ := key P hP cP (fun _ _ => rfl)
  obtain ⟨kQ, dQ⟩ := key Q hQ cQ hdens
  rw [kP, kQ]
  have hemb : ∀ j a, x.2.atoms[j]? = some a → embedAt b P x.2 j a = embedAt b Q x.2 j a := by
    intro j a ha
    have hj : j < x.1.sites.length := by rw [← hbt.count]; exact (List.getElem?_eq_some_iff.1 ha).1
    unfold embedAt
    rw [dP j a ha, dQ j a ha, hP.paircol, hQ.paircol, hP.ntypes, hQ.ntypes, hbt.typ j a ha]
    exact he j hj
  have hent : ∀ e ∈ Spec.entries x.2, (e.n.col0 < n * (n + 1) / 2 ∧ t.beg e.n.col0 ≤ e.n.r) ∧
      (e.n.typ < n ∧ t.beg (n * (n + 1) / 2 + e.n.typ) ≤ e.n.r) ∧ e.otyp < n ∧ t.beg (n * (n + 1) / 2 + e.otyp) ≤ e.n.r := by
    intro e he
    obtain ⟨i, m, hi, hm, -, e2, e3, e4, -⟩ := entry_image hbt he
    have hcol : e.n.col0 = pairColumn x.1 i m.j := by rw [e3]; rfl
    have ht : e.n.typ = (x.1.site m.j).typ := by rw [e3]; rfl
    have hback := (h5 m.j hm.1 _ (others_back hi hm)).2
    have hg : gapTo x.1 m.j ⟨i, fun k => -m.n k⟩ = gapTo x.1 i m := length_back x.1 i m
    rw [hg] at hback
    rw [hcol, ht, e2, e4]
    exact ⟨⟨pairColumn_lt h2 h4 hi hm.1, (h5 i hi m hm).1.1.le⟩, ⟨h4 m.j hm.1, (h5 i hi m hm).2.1.le⟩, h4 i hi, hback.1.le⟩
  have hpair : ∀ e ∈ Spec.entries x.2, pairEnergy P.toPots e = pairEnergy Q.toPots e ∧ pairSlope P.toPots e = pairSlope Q.toPots e := by
    intro e he
    obtain ⟨⟨a1, a2⟩, -⟩ := hent e he
    unfold pairEnergy pairSlope
    rw [hP.splines.fin, hQ.splines.fin]
    by_cases h : e.n.r < t.fin e.n.col0
    · obtain ⟨u1, u2⟩ := C101_unique hl hP.splines hQ.splines _ (by omega : e.n.col0 < _) _ a2 h
      rw [u1, u2]
      exact ⟨rfl, rfl⟩
    · simp only [if_neg h, and_self]
  have htr : ∀ u < n, ∀ r, t.beg (n * (n + 1) / 2 + u) ≤ r → transferSlope P u r = transferSlope Q u r := by
    intro u hu r hbeg
    unfold transferSlope
    rw [hP.splines.fin, hQ.splines.fin, hP.paircol, hQ.paircol]
    split
    · next h => exact (C101_unique hl hP.splines hQ.splines _ (by omega) _ hbeg h).2
    · rfl
  have hgrad : ∀ y, embGrad b P x.2 y = embGrad b Q x.2 y := by
    intro y
    unfold embGrad
    cases ha : x.2.atoms[y - x.2.start]? with
    | none => rfl
    | some a =>
      simp only
      rw [hemb _ a ha]
  have hen : eamTotal b P x.2 = eamTotal b Q x.2 := by
    unfold eamTotal totalPairEnergy totalEmbedding
    congr 2
    · exact List.map_congr_left fun e he => (hpair e he).1
    · apply List.map_congr_left
      intro ak hak
      obtain ⟨a, k⟩ := ak
      have := List.mem_zipIdx hak
      simp only
      rw [hemb k a (by rw [List.getElem?_eq_some_iff]; exact ⟨by omega, by simpa using this.2.2.symm⟩)]
  rw [hen]
  apply confError_congr
  intro e he
  obtain ⟨-, ⟨a1, a2⟩, a3, a4⟩ := hent e he
  unfold eamFullSlope eamSlope
  rw [(hpair e he).2, htr _ a1 _ a2, htr _ a3 _ a4, hgrad, hgrad]

end

section
variable {e : EamEnv} {L : List (Cell × Conf ℝ)} {before : ℕ → ℝ}

/-- Inside the range the spline is used, -/
theorem embed_inner {b : Build} (hb : b.apot = true) (hr : b.rescale = false) {P : EamPots ℝ} {col : ℕ} {y : ℝ} (h1 : P.beg col ≤ y)
    (h2 : y ≤ P.fin col) (h3 : 1 / 10 ≤ y) : embed b P col y = ⟨y, P.val col y, P.grad col y, 0⟩ := by
  unfold embed
  simp only [hr, hb, if_true, Bool.false_eq_true, if_false]
  rw [if_neg]
  rintro (h | h | h) <;> linarith

/-- outside the analytic function. -/
theorem embed_outer {b : Build} (hb : b.apot = true) (hr : b.rescale = false) {P : EamPots ℝ} {col : ℕ} {y : ℝ}
    (h : y < P.beg col ∨ P.fin col < y ∨ y < 1 / 10) : embed b P col y = ⟨y, (P.ana col y).1, (P.ana col y).2, 0⟩ := by
  unfold embed
  simp only [hr, hb, if_true, Bool.false_eq_true, if_false, if_pos h]

theorem analytic_unique (hg : GoodGlobals e.pots e.gidx e.globals) {x : ℕ → ℝ} {t : ℕ} (ht : t < e.pots.length) {a a' : ℝ → ℝ × ℝ}
    (h : Analytic e.toEnv x t a) (h' : Analytic e.toEnv x t a') {r : ℝ} :
    (DefinedAt e.toEnv x t r → (a r).1 = (a' r).1) ∧
      (DefinedAt e.toEnv x t (r + 1 / 10000) → DefinedAt e.toEnv x t (r - 1 / 10000) → (a r).2 = (a' r).2) := by
  obtain ⟨p, hp⟩ : ∃ p, e.pots[t]? = some p := ⟨_, List.getElem?_eq_getElem ht⟩
  obtain ⟨val, l1, l2, l3, l4⟩ := h p hp
  obtain ⟨val', m1, m2, m3, m4⟩ := h' p hp
  obtain rfl := effective_list_unique hg (l1.trans m1.symm) l2 m2
  refine ⟨fun hd => ?_, fun hd hd' => ?_⟩
  · obtain ⟨v, hv⟩ := hd p hp val l1 l2
    rw [l3 r v hv, m3 r v hv]
  · obtain ⟨v, hv⟩ := hd p hp val l1 l2
    obtain ⟨v', hv'⟩ := hd' p hp val l1 l2
    rw [l4 r v v' hv hv', m4 r v v' hv hv']

theorem placed_congr (hg : GoodGlobals e.pots e.gidx e.globals) {start x : ℕ → ℝ} {P Q : EamPots ℝ} (hP : EamFunctionsOf e.toEnv start x P)
    (hQ : EamFunctionsOf e.toEnv start x Q) {t : ℕ} (ht : t < e.pots.length) {rho : ℝ} (h : Placed e.toEnv x P t rho) :
    Placed e.toEnv x Q t rho := by
  rcases h with h | ⟨h1, h2, h3, h4, h5⟩
  · exact Or.inl h
  · refine Or.inr ⟨h1, h2, h3, h4, ?_⟩
    rw [← (analytic_unique hg ht (hP.ana t) (hQ.ana t)).2 h3 h4]
    refine h5.congr_of_eventuallyEq ?_
    filter_upwards [h2] with r hr
    exact ((analytic_unique hg ht (hP.ana t) (hQ.ana t)).1 hr).symm

theorem placed_embed (hb : e.b.apot = true) (hr : e.b.rescale = false) {start x : ℕ → ℝ} {P : EamPots ℝ}
    (hP : EamFunctionsOf e.toEnv start x P) {t : ℕ} {rho : ℝ} (h : Placed e.toEnv x P t rho)
    (hs : e.beg t < rho → rho < e.fin t → HasDerivAt (P.val t) (P.grad t rho) rho) :
    HasDerivAt (fun y => (embed e.b P t y).value) (embed e.b P t rho).grad rho := by
  have hbeg : P.beg t = e.beg t := by rw [hP.sampled.left]
  have hfin : P.fin t = e.fin t := by rw [hP.sampled.right]
  rcases h with ⟨h1, h2, h3⟩ | ⟨h1, -, -, -, h5⟩
  · rw [embed_inner hb hr (by rw [hbeg]; exact h1.le) (by rw [hfin]; exact h2.le) h3.le]
    refine (hs h1 h2).congr_of_eventuallyEq ?_
    filter_upwards [Ioo_mem_nhds h1 h2, Ioi_mem_nhds h3] with y hy hy'
    rw [embed_inner hb hr (by rw [hbeg]; exact hy.1.le) (by rw [hfin]; exact hy.2.le) (le_of_lt hy')]
  · have hout : rho < P.beg t ∨ P.fin t < rho ∨ rho < 1 / 10 := by rw [hbeg, hfin]; exact h1
    rw [embed_outer hb hr hout]
    refine h5.congr_of_eventuallyEq ?_
    have hnear : ∀ᶠ y in nhds rho, y < P.beg t ∨ P.fin t < y ∨ y < 1 / 10 := by
      rcases hout with h | h | h
      · filter_upwards [Iio_mem_nhds h] with y hy using Or.inl hy
      · filter_upwards [Ioi_mem_nhds h] with y hy using Or.inr (Or.inl hy)
      · filter_upwards [Iio_mem_nhds h] with y hy using Or.inr (Or.inr hy)
    filter_upwards [hnear] with y hy
    rw [embed_outer hb hr hy]

theorem params_getElem {x : ℕ → ℝ} {o k n : ℕ} {v : ℝ} (h : (params x o k)[n]? = some v) : n < k ∧ v = x (o + n) := by
  unfold params at h
  rw [List.getElem?_map, Option.map_eq_some_iff] at h
  obtain ⟨m, hm, rfl⟩ := h
  obtain ⟨hn, rfl⟩ := List.getElem?_eq_some_iff.1 hm
  simp only [List.length_range] at hn
  exact ⟨hn, by simp⟩

/-- The analytic functions of the model. -/
theorem analytic_spec {x q : ℕ → ℝ} (u : ℝ → ℝ × ℝ)
    (h : ∀ k p n, e.pots[k]? = some p → n < p.nPar → IsEffective e.pots e.gidx e.globals q k n (x (optFirst e.pots k + n))) (t : ℕ) :
    Analytic e.toEnv q t (analytic e.pots u x t) := by
  intro p hp
  refine ⟨params x (optFirst e.pots t) p.nPar, by simp [params], ?_, ?_, ?_⟩
  · intro n v hv
    obtain ⟨hn, rfl⟩ := params_getElem hv
    exact h t p n hp hn
  · intro r v hv
    simp only [analytic, hp, orElse, hv]
  · intro r v v' hv hv'
    simp only [analytic, hp, apotGradient, hv, hv', orElse]
    norm_num

/-- The steps of a successful evaluation. -/
theorem run_inv {fuel : ℕ} {xi : ℕ → ℝ} {m : EamMem} {r : EamRes} (h : e.run fuel xi m = some (.ok r)) :
    ∃ q s d v, Tails.checkParams false fuel e.fns xi = some q ∧
      updateCalcTable e.steps m.xcoord e.pots e.gidx e.globals false q m.list m.tab = .ok s ∧
      refresh .eam .analytic (e.cols m.xcoord) s.tab e.pc e.n m.d = .ok d ∧
      eamObjective e.b (e.functions m.xcoord s d) e.ew e.sw e.w (boundsAt e.free s.xi)
        (eoppAt (punishIndex (e.names.map String.toList)) (optFirst e.pots) s.xi)
        (univAt (punishIndex (e.names.map String.toList)) (optFirst e.pots) s.xi) e.dummy0 e.natoms e.confs m.v = .ok (v, r.value) ∧
      r.xi = s.xi ∧ r.mem = ⟨m.xcoord, s.list, s.tab, d, v⟩ := by
  unfold EamEnv.run at h
  split at h
  · cases h
  · next q hq =>
    split at h
    · cases h
    · next s hs =>
      split at h
      · cases h
      · next d hd =>
        simp only [Option.some.injEq] at h
        unfold EamEnv.close at h
        split at h
        · cases h
        · next v y hv =>
          cases h
          exact ⟨q, s, d, v, hq, hs, hd, hv, rfl, rfl⟩

/-- What a history leaves in the memory. -/
theorem afterEam_inv {start : ℕ → ℝ} {m : EamMem} (h : AfterEam e start m) :
    ∃ vals c0 c1 list0 s0 hist, vals.length = e.pots.length ∧ initCalc e.steps e.beg e.fin (e.pots.zip vals) 0 c0 = .ok c1 ∧
      updateCalcTable e.steps c1.xcoord e.pots e.gidx e.globals true start list0 c1.tab = .ok s0 ∧
      runHistory e.steps c1.xcoord e.pots e.gidx e.globals hist (s0.list, s0.tab) = .ok (m.list, m.tab) ∧ m.xcoord = c1.xcoord := by
  induction h with
  | @start m vals c0 list0 d v hl h =>
    unfold EamEnv.begin at h
    split at h
    · cases h
    · next c1 h1 =>
      split at h
      · cases h
      · next s0 h0 =>
        cases h
        exact ⟨vals, c0, c1, list0, s0, [], hl, h1, h0, rfl, rfl⟩
  | step fuel xi r _ hr ih =>
    obtain ⟨vals, c0, c1, list0, s0, hist, hl, h1, h0, hh, hx⟩ := ih
    obtain ⟨q, s, d, v, -, hs, -, -, -, hm⟩ := run_inv hr
    refine ⟨vals, c0, c1, list0, s0, hist ++ [q], hl, h1, h0, ?_, ?_⟩
    · rw [hm]
      rw [hx] at hs
      exact runHistory_snoc hh hs
    · rw [hm]
      exact hx

/-- The penalties of the objective. -/
theorem eamObjective_apot {b : Build} (hb : b.apot = true) {P : EamPots ℝ} {ew sw w : ℝ} {free : List (Free ℝ)} (hfree : ∀ q ∈ free, q.lo ≤ q.hi)
    {names : List String} {first : ℕ → ℕ} {x dummy0 : ℕ → ℝ} {natoms : ℕ} {confs : List (Conf ℝ)} {v v' : EamVec ℝ} {y : ℝ}
    (h : eamObjective b P ew sw w (boundsAt free x) (eoppAt (punishIndex (names.map String.toList)) first x)
      (univAt (punishIndex (names.map String.toList)) first x) dummy0 natoms confs v = .ok (v', y)) :
    totalPenalty w (boundsAt free x) (eoppAt (punishIndex (names.map String.toList)) first x)
        (univAt (punishIndex (names.map String.toList)) first x) =
      (free.map fun q => 10000000 * outside q.lo q.hi (x q.at_) ^ 2).sum + ((withName "eopp" names).map (eoppTerm w first x)).sum +
        ((withName "universal" names).map (universalTerm w first x)).sum := by
  unfold eamObjective at h
  simp only [hb, if_true] at h
  cases hp : apotPunish w (boundsAt free x) (eoppAt (punishIndex (names.map String.toList)) first x)
      (univAt (punishIndex (names.map String.toList)) first x) v.par v.pot with
  | error f => rw [hp] at h; cases h
  | ok r =>
    rw [← apotPunish_sum _ _ _ _ _ _ r hp]
    exact C105_value hfree hp

/-- **One evaluation.** Program start with parameters `start`, any history, then an evaluation for the vector `xi`, normalised to `q`. The
value returned is the objective of the infinite crystals whose atoms interact by the EAM functions for `q`, plus gauge conditions and
penalties, if all densities are inside the ranges or where the difference quotient is the derivative. -/
theorem C108_value (hw : EamPosed e L before) {start : ℕ → ℝ} {m : EamMem} (hm : AfterEam e start m) {fuel : ℕ} {xi : ℕ → ℝ} {r : EamRes}
    (hr : e.run fuel xi m = some (.ok r)) :
    ∃ q, Tails.checkParams false fuel e.fns xi = some q ∧
      (∀ k p n, e.pots[k]? = some p → n < p.nPar → IsEffective e.pots e.gidx e.globals q k n (r.xi (optFirst e.pots k + n))) ∧
      (∀ g, r.xi (e.gidx + g) = q (e.gidx + g)) ∧
      (∃ P, EamFunctionsOf e.toEnv start q P) ∧
      ∀ P, EamFunctionsOf e.toEnv start q P → AllPlaced e.toEnv L q P →
        r.value = eamCrystals e.b e.ew e.sw e.natoms L P + penalties e.toEnv r.xi := by
  obtain ⟨q, s, d, v, hq, hs, hd, hv, hx, -⟩ := run_inv hr
  obtain ⟨vals, c0, c1, list0, s0, hist, hl, h1, h0, hh, hxc⟩ := afterEam_inv hm
  rw [hxc] at hs hd hv
  have hlay : Layout (isGeneral .analytic) (calcCols e.steps e.beg e.fin c1.xcoord) (e.n * (e.n + 1) / 2 + 2 * e.n) :=
    calc_layout hw.steps (fun i h => hw.ranges i (by rw [hw.number]; exact h)) _
  have hL : ∀ x ∈ L, EamSample (calcCols e.steps e.beg e.fin c1.xcoord) e.n before x := hw.crystals
  have hiff := sampled_iff hw.steps hw.cutoff hw.globals hl h1 h0 hh hs (embedding e.n)
  rw [hw.number] at hiff
  have heff : ∀ k p n, e.pots[k]? = some p → n < p.nPar → IsEffective e.pots e.gidx e.globals q k n (s.xi (optFirst e.pots k + n)) := by
    intro k p n hk hn
    have := copyGlobals_spec hw.globals q hk hn
    rw [updatePots_xi e.pots hw.cutoff hs]
    · exact this
    · intro t ht
      rw [Nat.zero_add]
      exact param_not_slope hk hn ht
  have hS : EamSplines .analytic (calcCols e.steps e.beg e.fin c1.xcoord) s.tab e.n (e.functions c1.xcoord s d) := by
    refine ⟨?_, rfl, rfl⟩
    have := refreshed_splines (rt := .eam) (fmt := .analytic) trivial (pc := e.n * (e.n + 1) / 2) (nt := e.n) hlay hd
    have hcol : takesRight .eam (e.n * (e.n + 1) / 2) e.n = embedding e.n := by
      funext col
      simp only [takesRight, embedding]
    rw [hcol] at this
    exact this
  have hF : EamFunctionsOf e.toEnv start q (e.functions c1.xcoord s d) :=
    ⟨(hiff _).2 hS.splines, rfl, rfl, analytic_spec e.undef heff⟩
  refine ⟨q, hq, ?_, ?_, ⟨_, hF⟩, ?_⟩
  · rw [hx]
    exact heff
  · intro g
    rw [hx, updatePots_xi e.pots hw.cutoff hs]
    · exact copyGlobals_behind hw.globals q (Nat.le_add_right _ _)
    · intro t ht
      have := off_lt_gidx hw.globals.behind ht
      omega
  · intro P hP hp
    have hPS : EamSplines .analytic (calcCols e.steps e.beg e.fin c1.xcoord) s.tab e.n P := ⟨(hiff _).1 hP.sampled, hP.paircol, hP.ntypes⟩
    have hcol : ∀ x ∈ L, ∀ i < x.1.sites.length, e.n * (e.n + 1) / 2 + e.n + (x.1.site i).typ < e.pots.length := by
      intro x hx i hi
      have := (hL x hx).2.2.2.1 i hi
      rw [hw.number]
      omega
    have hclear : ∀ R : EamPots ℝ, EamFunctionsOf e.toEnv start q R → ∀ x ∈ L, EmbedClear e.b R x.1 := by
      intro R hR x hx i hi
      have hRS : EamSplines .analytic (calcCols e.steps e.beg e.fin c1.xcoord) s.tab e.n R := ⟨(hiff _).1 hR.sampled, hR.paircol, hR.ntypes⟩
      have hc := hcol x hx i hi
      have hpl := placed_congr hw.globals hP hR hc (hp x hx i hi)
      rw [hR.paircol, hR.ntypes]
      rw [eam_density_congr hlay hPS hRS (hL x hx) i hi] at hpl
      refine placed_embed hw.apot hw.rescale hR hpl fun g1 g2 => ?_
      refine (splines_smooth hlay hRS.splines (by rw [← hw.number]; exact hc) ⟨g1, g2.ne⟩).2 ?_
      rw [hRS.splines.fin]
      exact g2
    have hemb : ∀ x ∈ L, ∀ i < x.1.sites.length,
        embed e.b P (e.n * (e.n + 1) / 2 + e.n + (x.1.site i).typ) (latticeDensity P x.1 i) =
        embed e.b (e.functions c1.xcoord s d) (e.n * (e.n + 1) / 2 + e.n + (x.1.site i).typ) (latticeDensity P x.1 i) := by
      intro x hx i hi
      have hc := hcol x hx i hi
      have b1 := congrFun hP.sampled.left (e.n * (e.n + 1) / 2 + e.n + (x.1.site i).typ)
      have b2 := congrFun hP.sampled.right (e.n * (e.n + 1) / 2 + e.n + (x.1.site i).typ)
      have b3 := congrFun hF.sampled.left (e.n * (e.n + 1) / 2 + e.n + (x.1.site i).typ)
      have b4 := congrFun hF.sampled.right (e.n * (e.n + 1) / 2 + e.n + (x.1.site i).typ)
      rcases hp x hx i hi with ⟨g1, g2, g3⟩ | ⟨g1, g2, g3, g4, -⟩
      · rw [embed_inner hw.apot hw.rescale (by rw [b1]; exact g1.le) (by rw [b2]; exact g2.le) g3.le,
          embed_inner hw.apot hw.rescale (by rw [b3]; exact g1.le) (by rw [b4]; exact g2.le) g3.le]
        obtain ⟨u1, u2⟩ := C101_unique hlay hPS.splines hS.splines _ (by rw [← hw.number]; exact hc) _ g1.le g2
        rw [u1, u2]
      · rw [embed_outer hw.apot hw.rescale (by rw [b1, b2]; exact g1), embed_outer hw.apot hw.rescale (by rw [b3, b4]; exact g1)]
        have ha := analytic_unique hw.globals hc (hP.ana _) (hF.ana _) (r := latticeDensity P x.1 i)
        rw [ha.1 g2.self_of_nhds, ha.2 g3 g4]
    have hy := C100_eam_objective _ (cutoffs_good .eam false e.n (calcCols e.steps e.beg e.fin c1.xcoord).fin 0 before) e.b
      (e.functions c1.xcoord s d) e.ew e.sw e.w (boundsAt e.free s.xi)
      (eoppAt (punishIndex (e.names.map String.toList)) (optFirst e.pots) s.xi)
      (univAt (punishIndex (e.names.map String.toList)) (optFirst e.pots) s.xi) e.dummy0 e.natoms L (by
        intro x hx
        obtain ⟨c1', c2'⟩ := eam_clear_tables hlay hS (hL x hx)
        refine ⟨(hL x hx).1, (hL x hx).2.2.1.symm, reach_pair .eam (Or.inr rfl) false e.n (e.functions c1.xcoord s d).toPots 0 before x.1
          (hL x hx).2.1 (hL x hx).2.2.2.1, reach_transfer false e.n (e.functions c1.xcoord s d) 0 before x.1 rfl (hL x hx).2.2.2.1, c1', c2',
          hclear _ hF x hx⟩) m.v v r.value (by rw [← hw.confs]; exact hv)
    rw [hy, if_pos hw.apot, hx, eamObjective_apot hw.apot hw.bounds hv, gauge_crystals hlay hS hw.rescale e.dummy0 e.natoms hL,
      ← gauge_congr hlay hPS hS hw.gauge e.natoms hL]
    have hsum : (L.map fun x => crystalError e.b (latticeEam e.b (e.functions c1.xcoord s d)) e.ew e.sw (cellVolume x.1.box.edge) x.1 x.2 +
        limitError e.b (e.functions c1.xcoord s d) x.2) =
        L.map fun x => crystalError e.b (latticeEam e.b P) e.ew e.sw (cellVolume x.1.box.edge) x.1 x.2 := by
      apply List.map_congr_left
      intro x hx
      rw [eam_error_same hlay hPS hS e.ew e.sw (hL x hx) (hclear P hP x hx) (hclear _ hF x hx) (hemb x hx)]
      unfold limitError
      simp only [hw.rescale, Bool.false_eq_true, if_false, add_zero]
    rw [hsum]
    unfold eamCrystals penalties
    ring

/-- A vector can be evaluated iff no denominator of a penalty vanishes (C105). -/
theorem C108_defined (hw : EamPosed e L before) {m : EamMem} {fuel : ℕ} {xi q : ℕ → ℝ} {s : Tabs ℝ}
    (hq : Tails.checkParams false fuel e.fns xi = some q)
    (hs : updateCalcTable e.steps m.xcoord e.pots e.gidx e.globals false q m.list m.tab = .ok s) :
    (∃ r, e.run fuel xi m = some (.ok r)) ↔
      ∀ p ∈ withName "universal" e.names, s.xi (optFirst e.pots p + 1) ≠ s.xi (optFirst e.pots p + 2) := by
  have hlay : Layout (isGeneral .analytic) (calcCols e.steps e.beg e.fin m.xcoord) (e.n * (e.n + 1) / 2 + 2 * e.n) :=
    calc_layout hw.steps (fun i h => hw.ranges i (by rw [hw.number]; exact h)) _
  obtain ⟨d, hd, -⟩ := C99_fresh (rt := .eam) (fmt := .analytic) trivial (pc := e.n * (e.n + 1) / 2) (nt := e.n) hlay s.tab m.d
  have hd' : refresh .eam .analytic (e.cols m.xcoord) s.tab e.pc e.n m.d = .ok d := hd
  have hev : e.run fuel xi m = some (e.close s m d) := by
    unfold EamEnv.run
    simp only [hq, hs, hd']
  rw [hev, ← C105_defined (names := e.names) (w := e.w) (free := e.free) (par := m.v.par) (pot := m.v.pot)]
  unfold EamEnv.close eamObjective apotPunishAll
  simp only [hw.apot, if_true]
  constructor
  · rintro ⟨r, h⟩
    cases hp : apotPunish e.w (boundsAt e.free s.xi) (eoppAt (punishIndex (e.names.map String.toList)) (optFirst e.pots) s.xi)
      (univAt (punishIndex (e.names.map String.toList)) (optFirst e.pots) s.xi) m.v.par m.v.pot with
    | error f =>
      simp only [hp, bind, Except.bind, Option.some.injEq] at h
      cases h
    | ok r => exact ⟨r, rfl⟩
  · rintro ⟨r, hp⟩
    simp only [hp, bind, Except.bind]
    exact ⟨_, rfl⟩

/-- Vectors with the same effective parameters. -/
def SameParams (e : ApotEval.Env) (x y : ℕ → ℝ) : Prop :=
  (∀ g < e.globals.length, x (e.gidx + g) = y (e.gidx + g)) ∧
    ∀ k p n, e.pots[k]? = some p → n < p.nPar → (∀ l ∈ e.globals, (k, n) ∉ l) → x (optFirst e.pots k + n) = y (optFirst e.pots k + n)

theorem SameParams.symm {x y : ℕ → ℝ} (h : SameParams e.toEnv x y) : SameParams e.toEnv y x :=
  ⟨fun g hg => (h.1 g hg).symm, fun k p n h1 h2 h3 => (h.2 k p n h1 h2 h3).symm⟩

theorem SameParams.effective {x y : ℕ → ℝ} (h : SameParams e.toEnv x y) {k n : ℕ} {p : Pot ℝ} {v : ℝ} (hk : e.pots[k]? = some p)
    (hn : n < p.nPar) (he : IsEffective e.pots e.gidx e.globals x k n v) : IsEffective e.pots e.gidx e.globals y k n v := by
  rcases he with ⟨g, l, h1, h2, rfl⟩ | ⟨h1, rfl⟩
  · exact Or.inl ⟨g, l, h1, h2, h.1 g (List.getElem?_eq_some_iff.1 h1).1⟩
  · exact Or.inr ⟨h1, h.2 k p n hk hn h1⟩

theorem SameParams.list {x y : ℕ → ℝ} (h : SameParams e.toEnv x y) {k : ℕ} {p : Pot ℝ} {val : List ℝ} (hk : e.pots[k]? = some p)
    (hl : val.length = p.nPar) (hv : ∀ n v, val[n]? = some v → IsEffective e.pots e.gidx e.globals x k n v) :
    ∀ n v, val[n]? = some v → IsEffective e.pots e.gidx e.globals y k n v := by
  intro n v hn
  refine h.effective hk ?_ (hv n v hn)
  have := (List.getElem?_eq_some_iff.1 hn).1
  omega

theorem SameParams.functions {start x y : ℕ → ℝ} (h : SameParams e.toEnv x y) {P : EamPots ℝ} (hP : EamFunctionsOf e.toEnv start x P) :
    EamFunctionsOf e.toEnv start y P := by
  refine ⟨functions_congr (fun k p n v hk hn he => h.effective hk hn he) hP.sampled, hP.paircol, hP.ntypes, fun t p hp => ?_⟩
  obtain ⟨val, h1, h2, h3⟩ := hP.ana t p hp
  exact ⟨val, h1, h.list hp h1 h2, h3⟩

theorem SameParams.defined {x y : ℕ → ℝ} (h : SameParams e.toEnv x y) {t : ℕ} {r : ℝ} (hd : DefinedAt e.toEnv x t r) :
    DefinedAt e.toEnv y t r :=
  fun p hp val hl hv => hd p hp val hl (h.symm.list hp hl hv)

theorem SameParams.placed {x y : ℕ → ℝ} (h : SameParams e.toEnv x y) {P : EamPots ℝ} (hp : AllPlaced e.toEnv L x P) :
    AllPlaced e.toEnv L y P := by
  intro c hc i hi
  rcases hp c hc i hi with h1 | ⟨h1, h2, h3, h4, h5⟩
  · exact Or.inl h1
  · exact Or.inr ⟨h1, h2.mono fun _ hr => h.defined hr, h.defined h3, h.defined h4, h5⟩

/-- **No memory, and entries which are no parameters do not matter** (functions without a phase). -/
theorem C108_memory (hw : EamPosed e L before) (hf : ∀ f ∈ e.fns, f.1 ≠ .eopp ∧ f.1 ≠ .csw2) {start : ℕ → ℝ} {m m' : EamMem}
    (hm : AfterEam e start m) (hm' : AfterEam e start m') {fuel fuel' : ℕ} {xi xi' : ℕ → ℝ} {r r' : EamRes}
    (hr : e.run fuel xi m = some (.ok r)) (hr' : e.run fuel' xi' m' = some (.ok r')) (hx : SameParams e.toEnv xi xi') {P : EamPots ℝ}
    (hP : EamFunctionsOf e.toEnv start xi P) (hp : AllPlaced e.toEnv L xi P) : r.value = r'.value := by
  obtain ⟨q, hq, a1, a2, -, a4⟩ := C108_value hw hm hr
  obtain ⟨q', hq', b1, b2, -, b4⟩ := C108_value hw hm' hr'
  rw [checkParams_plain hf] at hq hq'
  obtain rfl := Option.some.inj hq
  obtain rfl := Option.some.inj hq'
  rw [a4 P hP hp, b4 P (hx.functions hP) (hx.placed hp), penalties_congr hw.toPosed]
  rintro k (⟨t, p, n, h1, h2, rfl⟩ | ⟨g, h1, rfl⟩)
  · exact C15_effective_unique hw.globals xi' t n _ _ (hx.effective h1 h2 (a1 t p n h1 h2)) (b1 t p n h1 h2)
  · rw [a2, b2, hx.1 g h1]

/-- **Changes in place.** The vector an evaluation leaves behind has the same value. -/
theorem C108_inplace (hw : EamPosed e L before) (hf : ∀ f ∈ e.fns, f.1 ≠ .eopp ∧ f.1 ≠ .csw2) {start : ℕ → ℝ} {m m' : EamMem}
    (hm : AfterEam e start m) (hm' : AfterEam e start m') {fuel fuel' : ℕ} {xi : ℕ → ℝ} {r r' : EamRes}
    (hr : e.run fuel xi m = some (.ok r)) (hr' : e.run fuel' r.xi m' = some (.ok r')) {P : EamPots ℝ}
    (hP : EamFunctionsOf e.toEnv start xi P) (hp : AllPlaced e.toEnv L xi P) : r'.value = r.value := by
  obtain ⟨q, hq, a1, a2, -, -⟩ := C108_value hw hm hr
  rw [checkParams_plain hf] at hq
  obtain rfl := Option.some.inj hq
  refine (C108_memory hw hf hm hm' hr hr' ⟨fun g _ => (a2 g).symm, fun k p n hk hn hno => ?_⟩ hP hp).symm
  rcases a1 k p n hk hn with ⟨g, l, h1, h2, -⟩ | ⟨-, h⟩
  · exact absurd h2 (hno l (List.mem_of_getElem? h1))
  · exact h.symm

/-- `y` is what the routine returns for `xi`, whatever was evaluated before. -/
def IsEamApotValue (e : EamEnv) (start xi : ℕ → ℝ) (y : ℝ) : Prop :=
  ∀ m fuel r, AfterEam e start m → e.run fuel xi m = some (.ok r) → y = r.value

/-- There is such a number. -/
theorem C108_exists (hw : EamPosed e L before) (hf : ∀ f ∈ e.fns, f.1 ≠ .eopp ∧ f.1 ≠ .csw2) {start xi : ℕ → ℝ} {P : EamPots ℝ}
    (hP : EamFunctionsOf e.toEnv start xi P) (hp : AllPlaced e.toEnv L xi P) : ∃ y, IsEamApotValue e start xi y := by
  by_cases h : ∃ m fuel r, AfterEam e start m ∧ e.run fuel xi m = some (.ok r)
  · obtain ⟨m, fuel, r, h1, h2⟩ := h
    exact ⟨r.value, fun m' fuel' r' h1' h2' => C108_memory hw hf h1 h1' h2 h2' ⟨fun _ _ => rfl, fun _ _ _ _ _ _ => rfl⟩ hP hp⟩
  · exact ⟨0, fun m fuel r h1 h2 => absurd ⟨m, fuel, r, h1, h2⟩ h⟩

variable {σ : Type*} {N N' M : ℕ}

/-- **The fit.** Annealing and then the least-squares optimiser, for all random numbers, solutions of the linear systems and break flags: the
functions for the final parameters describe the crystals, gauge conditions and penalties included, not worse than those for the parameters at
the start, and the value reported is their objective. The densities have to be placed at the beginning and at the end. -/
theorem C108_fit [NeZero N] (hw : EamPosed e L before) (hf : ∀ f ∈ e.fns, f.1 ≠ .eopp ∧ f.1 ≠ .csw2) {start : ℕ → ℝ}
    (A : Annealing.Env ℝ ℕ σ N') (ho : OneOnly A) (E : Powell.Env ℝ ℕ N M)
    (hE : ∀ xi, (E.obj xi).1 = A.obj xi) (hr : E.rescale = none) (pick : σ → σ × Fin N') (T : Annealing.Temp ℝ) (rng : σ)
    (a : Annealing.Res ℝ ℕ) (h1 : A.run pick T rng start = some a) (fuel : ℕ) (s : Powell.St ℝ ℕ N M) (h2 : E.run fuel a.xi = .ok s)
    (hA : IsEamApotValue e start start (A.obj start)) (hA' : IsEamApotValue e start s.xi (A.obj s.xi))
    {m0 m1 : EamMem} {k0 k1 : ℕ} {r0 r1 : EamRes} (hm0 : AfterEam e start m0) (e0 : e.run k0 start m0 = some (.ok r0))
    (hm1 : AfterEam e start m1) (e1 : e.run k1 s.xi m1 = some (.ok r1)) (P Q : EamPots ℝ) (hP : EamFunctionsOf e.toEnv start start P)
    (hPp : AllPlaced e.toEnv L start P) (hQ : EamFunctionsOf e.toEnv start s.xi Q) (hQp : AllPlaced e.toEnv L s.xi Q) :
    s.f = eamCrystals e.b e.ew e.sw e.natoms L Q + penalties e.toEnv r1.xi ∧
      eamCrystals e.b e.ew e.sw e.natoms L Q + penalties e.toEnv r1.xi ≤
        eamCrystals e.b e.ew e.sw e.natoms L P + penalties e.toEnv r0.xi := by
  obtain ⟨a1, a2, -⟩ := C29_best A ho pick T rng start a h1
  obtain ⟨p1, -, p3⟩ := C28_monotone E fuel a.xi s (by intro f hf; rw [hr] at hf; cases hf) h2
  obtain ⟨q0, hq0, -, -, -, v0⟩ := C108_value hw hm0 e0
  obtain ⟨q1, hq1, -, -, -, v1⟩ := C108_value hw hm1 e1
  rw [checkParams_plain hf] at hq0 hq1
  obtain rfl := Option.some.inj hq0
  obtain rfl := Option.some.inj hq1
  have f0 : A.obj start = eamCrystals e.b e.ew e.sw e.natoms L P + penalties e.toEnv r0.xi := (hA _ _ _ hm0 e0).trans (v0 P hP hPp)
  have f1 : A.obj s.xi = eamCrystals e.b e.ew e.sw e.natoms L Q + penalties e.toEnv r1.xi := (hA' _ _ _ hm1 e1).trans (v1 Q hQ hQp)
  have hle : A.obj s.xi ≤ A.obj start := by
    rw [← hE s.xi]
    refine p3.trans ?_
    rw [hE, ← a1]
    exact a2
  rw [f0, f1] at hle
  exact ⟨by rw [p1, hE, f1], hle⟩

/-! ### The difference quotient -/

/-- The quotient is exact for quadratic functions, so densities outside the range are placed. -/
theorem C108_quadratic (hg : GoodGlobals e.pots e.gidx e.globals) {start x : ℕ → ℝ} {P : EamPots ℝ} (hP : EamFunctionsOf e.toEnv start x P)
    {t : ℕ} {p : Pot ℝ} (hp : e.pots[t]? = some p) {A B C : List ℝ → ℝ}
    (hq : ∀ r val, val.length = p.nPar → p.fvalue r val = .ok (A val + B val * r + C val * r ^ 2)) {rho : ℝ}
    (h : rho < e.beg t ∨ e.fin t < rho ∨ rho < 1 / 10) : Placed e.toEnv x P t rho := by
  have hd : ∀ r, DefinedAt e.toEnv x t r := by
    intro r p' hp' val hl _
    rw [hp] at hp'
    cases hp'
    exact ⟨_, hq r val hl⟩
  obtain ⟨val, l1, l2, l3, l4⟩ := hP.ana t p hp
  refine Or.inr ⟨h, Filter.Eventually.of_forall hd, hd _, hd _, ?_⟩
  have h1 : (fun r => (P.ana t r).1) = fun r => A val + B val * r + C val * r ^ 2 := funext fun r => l3 r _ (hq r val l1)
  have h2 : (P.ana t rho).2 = B val + C val * (2 * rho) := by
    rw [l4 rho _ _ (hq _ val l1) (hq _ val l1)]
    ring
  rw [h1, h2]
  have d1 : HasDerivAt (fun r : ℝ => r ^ 2) (2 * rho) rho := by simpa using hasDerivAt_pow 2 rho
  have d2 : HasDerivAt (fun r : ℝ => B val * r) (B val) rho := by simpa using (hasDerivAt_id rho).const_mul (B val)
  have := ((hasDerivAt_const rho (A val)).add d2).add (d1.const_mul (C val))
  rw [zero_add] at this
  exact this

/-- **Not exact.** For `F(ρ) = ρ^3` the slope used outside the range is too large by `10^-8`, everywhere. -/
theorem C108_gradient_violated {start x : ℕ → ℝ} {P : EamPots ℝ} (hP : EamFunctionsOf e.toEnv start x P) {t : ℕ} {p : Pot ℝ}
    (hp : e.pots[t]? = some p) (hq : ∀ r val, val.length = p.nPar → p.fvalue r val = .ok (r ^ 3)) (hb : e.b.apot = true)
    (hr : e.b.rescale = false) {rho : ℝ} (h : rho < e.beg t ∨ e.fin t < rho ∨ rho < 1 / 10) :
    HasDerivAt (fun y => (embed e.b P t y).value) (3 * rho ^ 2) rho ∧ (embed e.b P t rho).grad = 3 * rho ^ 2 + 1 / 10 ^ 8 := by
  obtain ⟨val, l1, l2, l3, l4⟩ := hP.ana t p hp
  have h1 : ∀ r, (P.ana t r).1 = r ^ 3 := fun r => l3 r _ (hq r val l1)
  have hbeg : P.beg t = e.beg t := by rw [hP.sampled.left]
  have hfin : P.fin t = e.fin t := by rw [hP.sampled.right]
  have hout : rho < P.beg t ∨ P.fin t < rho ∨ rho < 1 / 10 := by rw [hbeg, hfin]; exact h
  constructor
  · have d1 : HasDerivAt (fun r : ℝ => r ^ 3) (3 * rho ^ 2) rho := by simpa using hasDerivAt_pow 3 rho
    refine d1.congr_of_eventuallyEq ?_
    have hnear : ∀ᶠ y in nhds rho, y < P.beg t ∨ P.fin t < y ∨ y < 1 / 10 := by
      rcases hout with h | h | h
      · filter_upwards [Iio_mem_nhds h] with y hy using Or.inl hy
      · filter_upwards [Ioi_mem_nhds h] with y hy using Or.inr (Or.inl hy)
      · filter_upwards [Iio_mem_nhds h] with y hy using Or.inr (Or.inr hy)
    filter_upwards [hnear] with y hy
    rw [embed_outer hb hr hy, h1]
  · rw [embed_outer hb hr hout, l4 rho _ _ (hq _ val l1) (hq _ val l1)]
    ring

theorem le_of_slopes {u u' v v' : ℝ → ℝ} {h : ℝ} (h0 : u 0 ≤ v 0) (hu : ∀ s ∈ Set.Icc 0 h, HasDerivAt u (u' s) s)
    (hv : ∀ s ∈ Set.Icc 0 h, HasDerivAt v (v' s) s) (hle : ∀ s ∈ Set.Icc 0 h, u' s ≤ v' s) : ∀ s ∈ Set.Icc 0 h, u s ≤ v s := by
  intro s hs
  exact image_le_of_deriv_right_le_deriv_boundary (fun s hs => (hu s hs).continuousAt.continuousWithinAt)
    (fun s hs => (hu s ⟨hs.1, hs.2.le⟩).hasDerivWithinAt) h0 (fun s hs => (hv s hs).continuousAt.continuousWithinAt)
    (fun s hs => (hv s ⟨hs.1, hs.2.le⟩).hasDerivWithinAt) (fun s hs => hle s ⟨hs.1, hs.2.le⟩) hs

/-- Error of symmetric difference quotients. -/
theorem difference_quotient {f f1 f2 : ℝ → ℝ} {r h B : ℝ} (hh : 0 < h) (d1 : ∀ s, |s - r| ≤ h → HasDerivAt f (f1 s) s)
    (d2 : ∀ s, |s - r| ≤ h → HasDerivAt f1 (f2 s) s) (hl : ∀ s s', |s - r| ≤ h → |s' - r| ≤ h → |f2 s - f2 s'| ≤ B * |s - s'|) :
    |(f (r + h) - f (r - h)) / (2 * h) - f1 r| ≤ B * h ^ 2 / 6 := by
  have hp : ∀ s ∈ Set.Icc 0 h, |r + s - r| ≤ h := fun s hs => by rw [add_sub_cancel_left, abs_of_nonneg hs.1]; exact hs.2
  have hm : ∀ s ∈ Set.Icc 0 h, |r - s - r| ≤ h := fun s hs => by rw [sub_sub_cancel_left, abs_neg, abs_of_nonneg hs.1]; exact hs.2
  have ip : ∀ s : ℝ, HasDerivAt (fun s => r + s) 1 s := fun s => (hasDerivAt_id s).const_add r
  have im : ∀ s : ℝ, HasDerivAt (fun s => r - s) (-1) s := fun s => (hasDerivAt_id s).const_sub r
  have g1 : ∀ s ∈ Set.Icc 0 h, HasDerivAt (fun s => f (r + s) - f (r - s) - 2 * f1 r * s) (f1 (r + s) + f1 (r - s) - 2 * f1 r) s := by
    intro s hs
    have a := (d1 _ (hp s hs)).comp s (ip s)
    have b := (d1 _ (hm s hs)).comp s (im s)
    have c := (hasDerivAt_id s).const_mul (2 * f1 r)
    exact ((a.sub b).sub c).congr_deriv (by ring)
  have g2 : ∀ s ∈ Set.Icc 0 h, HasDerivAt (fun s => f1 (r + s) + f1 (r - s) - 2 * f1 r) (f2 (r + s) - f2 (r - s)) s := by
    intro s hs
    have a := (d2 _ (hp s hs)).comp s (ip s)
    have b := (d2 _ (hm s hs)).comp s (im s)
    exact ((a.add b).sub_const (2 * f1 r)).congr_deriv (by ring)
  have sq : ∀ s : ℝ, HasDerivAt (fun s => B * s ^ 2) (2 * B * s) s := by
    intro s
    exact ((hasDerivAt_pow 2 s).const_mul B).congr_deriv (by push_cast; ring)
  have cu : ∀ s : ℝ, HasDerivAt (fun s => B * s ^ 3 / 3) (B * s ^ 2) s := by
    intro s
    exact (((hasDerivAt_pow 3 s).const_mul B).div_const 3).congr_deriv (by push_cast; ring)
  have b2 : ∀ s ∈ Set.Icc 0 h, |f2 (r + s) - f2 (r - s)| ≤ 2 * B * s := by
    intro s hs
    refine (hl _ _ (hp s hs) (hm s hs)).trans (le_of_eq ?_)
    rw [show r + s - (r - s) = 2 * s by ring, abs_of_nonneg (by linarith [hs.1])]
    ring
  have u1 := le_of_slopes (h := h) (u := fun s => f1 (r + s) + f1 (r - s) - 2 * f1 r) (v := fun s => B * s ^ 2) (by simp; linarith) g2
    (fun s _ => sq s) fun s hs => (le_abs_self _).trans (b2 s hs)
  have l1 := le_of_slopes (h := h) (u := fun s => -(B * s ^ 2)) (v := fun s => f1 (r + s) + f1 (r - s) - 2 * f1 r) (by simp; linarith)
    (fun s _ => (sq s).neg) g2 fun s hs => (neg_le_of_abs_le (b2 s hs))
  have u0 := le_of_slopes (h := h) (u := fun s => f (r + s) - f (r - s) - 2 * f1 r * s) (v := fun s => B * s ^ 3 / 3) (by simp) g1
    (fun s _ => cu s) u1 h ⟨hh.le, le_rfl⟩
  have l0 := le_of_slopes (h := h) (u := fun s => -(B * s ^ 3 / 3)) (v := fun s => f (r + s) - f (r - s) - 2 * f1 r * s) (by simp)
    (fun s _ => (cu s).neg) g1 l1 h ⟨hh.le, le_rfl⟩
  have hq : (f (r + h) - f (r - h)) / (2 * h) - f1 r = (f (r + h) - f (r - h) - 2 * f1 r * h) / (2 * h) := by field_simp
  rw [hq, abs_le, le_div_iff₀ (by linarith), div_le_iff₀ (by linarith)]
  constructor <;> nlinarith

/-- **Nearly exact.** If the second derivative of the embedding function changes by at most `B` per unit of density, the slope used outside
the range differs from the derivative by at most `B/6 * 10^-8`. -/
theorem C108_gradient_partial {start x : ℕ → ℝ} {P : EamPots ℝ} (hP : EamFunctionsOf e.toEnv start x P) {t : ℕ} {p : Pot ℝ}
    (hp : e.pots[t]? = some p) (hb : e.b.apot = true) (hr : e.b.rescale = false) {rho B : ℝ} {F F1 F2 : List ℝ → ℝ → ℝ}
    (hq : ∀ val, val.length = p.nPar → ∀ r, |r - rho| ≤ 1 / 10000 → p.fvalue r val = .ok (F val r))
    (d1 : ∀ val r, |r - rho| ≤ 1 / 10000 → HasDerivAt (F val) (F1 val r) r)
    (d2 : ∀ val r, |r - rho| ≤ 1 / 10000 → HasDerivAt (F1 val) (F2 val r) r)
    (hl : ∀ val r r', |r - rho| ≤ 1 / 10000 → |r' - rho| ≤ 1 / 10000 → |F2 val r - F2 val r'| ≤ B * |r - r'|)
    (h : rho < e.beg t ∨ e.fin t < rho ∨ rho < 1 / 10) :
    ∃ val : List ℝ, val.length = p.nPar ∧ (∀ n v, val[n]? = some v → IsEffective e.pots e.gidx e.globals x t n v) ∧
      (embed e.b P t rho).value = F val rho ∧ |(embed e.b P t rho).grad - F1 val rho| ≤ B / 6 / 10 ^ 8 := by
  obtain ⟨val, l1, l2, l3, l4⟩ := hP.ana t p hp
  have hout : rho < P.beg t ∨ P.fin t < rho ∨ rho < 1 / 10 := by rw [hP.sampled.left, hP.sampled.right]; exact h
  refine ⟨val, l1, l2, ?_, ?_⟩
  · rw [embed_outer hb hr hout]
    exact l3 rho _ (hq val l1 rho (by norm_num))
  · rw [embed_outer hb hr hout]
    have h1 := hq val l1 (rho + 1 / 10000) (by rw [add_sub_cancel_left]; norm_num)
    have h2 := hq val l1 (rho - 1 / 10000) (by rw [sub_sub_cancel_left]; norm_num)
    simp only
    rw [l4 rho _ _ h1 h2]
    have := difference_quotient (r := rho) (h := 1 / 10000) (B := B) (by norm_num) (d1 val) (d2 val) (hl val)
    calc _ = |(F val (rho + 1 / 10000) - F val (rho - 1 / 10000)) / (2 * (1 / 10000)) - F1 val rho| := by norm_num
      _ ≤ _ := this
      _ = _ := by ring

/-! ### The end of the sampled range -/

/-- At the end of its range an interpolated function tends to its last sample, and its slope to zero, whatever the analytic function. -/
theorem C108_end (hw : Posed e.toEnv) {start x : ℕ → ℝ} {P : EamPots ℝ} (hP : EamFunctionsOf e.toEnv start x P) {t : ℕ} {p : Pot ℝ}
    (hp : e.pots[t]? = some p) :
    ∃ val y, val.length = p.nPar ∧
      (∀ n v, val[n]? = some v → IsEffective e.pots e.gidx e.globals (if p.invar then start else x) t n v) ∧ IsSample p (e.fin t) val y ∧
      Filter.Tendsto (P.val t) (nhdsWithin (e.fin t) (Set.Iio (e.fin t))) (nhds y) ∧
      Filter.Tendsto (P.grad t) (nhdsWithin (e.fin t) (Set.Iio (e.fin t))) (nhds 0) := by
  obtain ⟨val, y, m, f, e1, e2, e3, e4, e5⟩ := hP.sampled.pieces t p hp
  have hs := hw.steps
  have ht := hw.ranges t (List.getElem?_eq_some_iff.1 hp).1
  have hs' : (0 : ℝ) < (e.steps : ℝ) - 1 := by
    have : (2 : ℝ) ≤ (e.steps : ℝ) := by exact_mod_cast hs
    linarith
  have hlast : grid e.steps e.beg e.fin t (e.steps - 1) = e.fin t := by
    unfold grid
    rw [Nat.cast_sub (by omega), Nat.cast_one]
    field_simp
    ring
  have hprev : grid e.steps e.beg e.fin t (e.steps - 2) < e.fin t := by
    rw [← hlast]
    unfold grid
    have h0 : 0 < (e.fin t - e.beg t) / ((e.steps : ℝ) - 1) := div_pos (by linarith) hs'
    have : ((e.steps - 2 : ℕ) : ℝ) < ((e.steps - 1 : ℕ) : ℝ) := by exact_mod_cast (by omega)
    nlinarith
  have hk : e.steps - 2 + 1 = e.steps - 1 := by omega
  refine ⟨val, y (e.steps - 1), e1, e2, hlast ▸ e3 (e.steps - 1) (by omega), ?_, ?_⟩
  · have h1 := e4.interp_right (e.steps - 2) (by omega)
    rw [hk, hlast] at h1
    rw [← h1]
    have hc := ((f (e.steps - 2)).continuous.tendsto (e.fin t)).mono_left
      (nhdsWithin_le_nhds (s := Set.Iio (e.fin t)))
    refine hc.congr' ?_
    filter_upwards [mem_nhdsWithin_of_mem_nhds (Ioi_mem_nhds hprev), self_mem_nhdsWithin] with r hr1 hr2
    exact (e5 (e.steps - 2) (by omega) r (le_of_lt hr1) (by rw [hk, hlast]; exact hr2)).1.symm
  · have h1 : (derivative (f (e.steps - 2))).eval (e.fin t) = 0 := by
      have := e4.right_end
      rw [hlast] at this
      exact this
    rw [← h1]
    have hc := ((derivative (f (e.steps - 2))).continuous.tendsto (e.fin t)).mono_left
      (nhdsWithin_le_nhds (s := Set.Iio (e.fin t)))
    refine hc.congr' ?_
    filter_upwards [mem_nhdsWithin_of_mem_nhds (Ioi_mem_nhds hprev), self_mem_nhdsWithin] with r hr1 hr2
    exact (e5 (e.steps - 2) (by omega) r (le_of_lt hr1) (by rw [hk, hlast]; exact hr2)).2.symm

theorem embed_near_end (hb : e.b.apot = true) (hr : e.b.rescale = false) (hw : Posed e.toEnv) {start x : ℕ → ℝ} {P : EamPots ℝ}
    (hP : EamFunctionsOf e.toEnv start x P) {t : ℕ} (ht : t < e.pots.length) (h10 : 1 / 10 < e.fin t) :
    ∀ᶠ y in nhdsWithin (e.fin t) (Set.Iio (e.fin t)), embed e.b P t y = ⟨y, P.val t y, P.grad t y, 0⟩ := by
  have hbeg : P.beg t = e.beg t := by rw [hP.sampled.left]
  have hfin : P.fin t = e.fin t := by rw [hP.sampled.right]
  filter_upwards [mem_nhdsWithin_of_mem_nhds (Ioi_mem_nhds h10), mem_nhdsWithin_of_mem_nhds (Ioi_mem_nhds (hw.ranges t ht)),
    self_mem_nhdsWithin] with y h1 h2 h3
  exact embed_inner hb hr (by rw [hbeg]; exact le_of_lt h2) (by rw [hfin]; exact le_of_lt h3) (le_of_lt h1)

/-- **The slope jumps.** `F(ρ) = cρ` with a free or fixed `c`: just left of the end of the range the slope used for the forces is zero,
right of it `c`. -/
theorem C108_jump_violated (hw : Posed e.toEnv) (hr : e.b.rescale = false) {start x : ℕ → ℝ} {P : EamPots ℝ}
    (hP : EamFunctionsOf e.toEnv start x P) {t : ℕ} {p : Pot ℝ} (hp : e.pots[t]? = some p) {c : ℝ}
    (hq : ∀ r val, val.length = p.nPar → p.fvalue r val = .ok (c * r)) (h10 : 1 / 10 < e.fin t) :
    Filter.Tendsto (fun y => (embed e.b P t y).grad) (nhdsWithin (e.fin t) (Set.Iio (e.fin t))) (nhds 0) ∧
      ∀ y, e.fin t < y → (embed e.b P t y).grad = c := by
  have ht := (List.getElem?_eq_some_iff.1 hp).1
  constructor
  · obtain ⟨-, -, -, -, -, -, h⟩ := C108_end hw hP hp
    refine h.congr' ?_
    filter_upwards [embed_near_end hw.apot hr hw hP ht h10] with y hy
    rw [hy]
  · intro y hy
    obtain ⟨val, l1, -, -, l4⟩ := hP.ana t p hp
    rw [embed_outer hw.apot hr (Or.inr (Or.inl (by rw [hP.sampled.right]; exact hy))), l4 y _ _ (hq _ val l1) (hq _ val l1)]
    ring

/-- **The energy jumps.** An embedding function with cutoff (`_sc`), `F(ρ) = c` times cutoff function: just left of the end the energy is
zero, right of it `c`, as the cutoff function is left out there. -/
theorem C108_cutoff_violated (hw : Posed e.toEnv) (hr : e.b.rescale = false) {start x : ℕ → ℝ} {P : EamPots ℝ}
    (hP : EamFunctionsOf e.toEnv start x P) {t : ℕ} {p : Pot ℝ} (hp : e.pots[t]? = some p) (hsm : p.smooth = true) (hend : p.endR = e.fin t)
    {c : ℝ} (hq : ∀ r val, val.length = p.nPar → p.fvalue r val = .ok c) (h10 : 1 / 10 < e.fin t) :
    Filter.Tendsto (fun y => (embed e.b P t y).value) (nhdsWithin (e.fin t) (Set.Iio (e.fin t))) (nhds 0) ∧
      ∀ y, e.fin t < y → (embed e.b P t y).value = c := by
  have ht := (List.getElem?_eq_some_iff.1 hp).1
  constructor
  · obtain ⟨val, y, -, -, hy, h, -⟩ := C108_end hw hP hp
    obtain ⟨v, -, hs⟩ := hy
    rw [if_pos hsm] at hs
    obtain ⟨h', -, -, rfl⟩ := hs
    rw [if_pos hend.le] at h
    refine h.congr' ?_
    filter_upwards [embed_near_end hw.apot hr hw hP ht h10] with y hy
    rw [hy]
  · intro y hy
    obtain ⟨val, l1, -, l3, -⟩ := hP.ana t p hp
    rw [embed_outer hw.apot hr (Or.inr (Or.inl (by rw [hP.sampled.right]; exact hy))), l3 y _ (hq _ val l1)]

/-- **Invariant potentials outside the range follow.** An embedding function marked invariant with a reference to a global parameter,
`F(ρ) = parameter`: inside the range it keeps the value of the start, outside it has the new one. -/
theorem C108_invariant_violated (hw : Posed e.toEnv) (hr : e.b.rescale = false) {start x : ℕ → ℝ} {P : EamPots ℝ}
    (hP : EamFunctionsOf e.toEnv start x P) {t : ℕ} {p : Pot ℝ} (hp : e.pots[t]? = some p) (hsm : p.smooth = false) (hi : p.invar = true)
    (hn : p.nPar = 1) (hq : ∀ r val, val.length = 1 → p.fvalue r val = .ok (val.getD 0 0)) {g : ℕ} {l : List (ℕ × ℕ)}
    (hg : e.globals[g]? = some l) (hl : (t, 0) ∈ l) (h10 : 1 / 10 < e.fin t) :
    Filter.Tendsto (fun y => (embed e.b P t y).value) (nhdsWithin (e.fin t) (Set.Iio (e.fin t))) (nhds (start (e.gidx + g))) ∧
      ∀ y, e.fin t < y → (embed e.b P t y).value = x (e.gidx + g) := by
  have ht := (List.getElem?_eq_some_iff.1 hp).1
  have key : ∀ (z : ℕ → ℝ) (val : List ℝ), val.length = p.nPar → (∀ n v, val[n]? = some v → IsEffective e.pots e.gidx e.globals z t n v) →
      val.getD 0 0 = z (e.gidx + g) := by
    intro z val h1 h2
    have h3 : val[0]? = some (val.getD 0 0) := by
      rw [List.getD_eq_getElem?_getD, List.getElem?_eq_getElem (by omega)]; rfl
    exact C15_effective_unique hw.globals z t 0 _ _ (h2 0 _ h3) (Or.inl ⟨g, l, hg, hl, rfl⟩)
  constructor
  · obtain ⟨val, y, h1, h2, hy, h, -⟩ := C108_end hw hP hp
    rw [if_pos hi] at h2
    obtain ⟨v, hv, hs⟩ := hy
    rw [if_neg (by rw [hsm]; simp)] at hs
    rw [hq _ val (h1.trans hn)] at hv
    rw [hs, ← Except.ok.inj hv, key start val h1 h2] at h
    refine h.congr' ?_
    filter_upwards [embed_near_end hw.apot hr hw hP ht h10] with y hy
    rw [hy]
  · intro y hy
    obtain ⟨val, l1, l2, l3, -⟩ := hP.ana t p hp
    rw [embed_outer hw.apot hr (Or.inr (Or.inl (by rw [hP.sampled.right]; exact hy))), l3 y _ (hq _ val (l1.trans hn)), key x val l1 l2]

end

/-! ### Example -/

/-- A potential with the values of its one parameter. -/
noncomputable def levelPot (invar smooth : Bool) (F : ℝ → ℝ → ℝ) : Pot ℝ where
  nPar := if smooth then 2 else 1
  smooth := smooth
  invar := invar
  endR := 3 / 2
  fvalue r val := .ok (F (val.getD 0 0) r)
  grad _ := 0

/-- The chain of `C100` with constant pair and transfer functions and an embedding function. Its first parameter is a global one. -/
noncomputable def levelEnv (b : Build) (f : Conf ℝ) (embedPot : Pot ℝ) : EamEnv where
  b := b
  ew := 1
  sw := 1
  w := 100
  n := 1
  confs := [f]
  steps := 3
  beg := halfCols.beg
  fin := halfCols.fin
  pots := [levelPot false false fun c _ => c, levelPot false false fun c _ => c, embedPot]
  names := ["const", "const", "other"]
  fns := [(.other 1 fun _ _ => 0, false), (.other 1 fun _ _ => 0, false), (.other 1 fun _ _ => 0, false)]
  gidx := 14
  globals := [[(2, 0)]]
  free := [⟨2, -1, 1⟩]
  natoms := 1
  dummy0 := fun _ => 0
  undef := fun _ => (0, 0)

theorem level_names : withName "universal" ["const", "const", "other"] = [] ∧ withName "eopp" ["const", "const", "other"] = [] := by
  decide +kernel

theorem level_posed (b : Build) (hb : b.apot = true) (hr : b.rescale = false) (invar smooth : Bool) (F : ℝ → ℝ → ℝ) :
    ∃ f, EamPosed (levelEnv b f (levelPot invar smooth F)) [(thin, f)] (fun _ => 0) := by
  obtain ⟨f, hf⟩ := thin_prepared .eam fun _ => 0
  have hn : (levelPot invar smooth F).nPar = if smooth then 2 else 1 := rfl
  have hn' : 1 ≤ (levelPot invar smooth F).nPar ∧ (levelPot invar smooth F).nPar ≤ 2 := by rw [hn]; split <;> omega
  refine ⟨f, ⟨hb, by norm_num [levelEnv], ?_, ?_, ⟨?_, ?_, ?_⟩, ?_, ?_, ?_, ?_⟩, rfl, by simp [levelEnv], hr, ?_, ?_⟩
  · intro i _; norm_num [levelEnv, halfCols]
  · intro p hp h
    simp only [levelEnv, List.mem_cons, List.not_mem_nil, or_false] at hp
    rcases hp with rfl | rfl | rfl
    · exact absurd h (by simp [levelPot])
    · exact absurd h (by simp [levelPot])
    · exact hn'.1
  · intro l hl mn hmn
    obtain rfl := List.mem_singleton.1 hl
    obtain rfl := List.mem_singleton.1 hmn
    exact ⟨_, rfl, hn'.1⟩
  · exact List.pairwise_singleton _ _
  · have : (levelPot false false fun c _ => c).nPar = 1 := rfl
    simp only [levelEnv, List.map_cons, List.map_nil, List.sum_cons, List.sum_nil, this]
    omega
  · intro q hq; obtain rfl := List.mem_singleton.1 hq; norm_num
  · intro q hq
    obtain rfl := List.mem_singleton.1 hq
    exact Or.inl ⟨0, _, 0, rfl, by simp [levelPot], by simp [optFirst]⟩
  · intro p hp
    rw [show (levelEnv b f (levelPot invar smooth F)).names = ["const", "const", "other"] from rfl, level_names.2] at hp
    cases hp
  · intro p hp
    rw [show (levelEnv b f (levelPot invar smooth F)).names = ["const", "const", "other"] from rfl, level_names.1] at hp
    cases hp
  · intro _ g hg
    norm_num [levelEnv, calcCols, halfCols]
  · intro x hx
    obtain rfl := List.mem_singleton.1 hx
    refine ⟨hf, rfl, by simp [levelEnv, thin], ?_, ?_⟩
    · intro i hi
      obtain rfl : i = 0 := by have : i < 1 := hi; omega
      exact one_pos
    · intro i hi m hm
      exact ⟨thin_off i hi m hm 0, thin_off i hi m hm 0⟩

theorem cutoff_defined (x r0 : ℝ) {h : ℝ} (hh : h ≠ 0) : ∃ c, apotCutoff x r0 h = .ok c := by
  unfold apotCutoff
  split
  · exact ⟨_, rfl⟩
  · simp only [cdiv, if_neg hh, bind, Except.bind]
    rw [if_neg]
    · exact ⟨_, rfl⟩
    · intro h0
      have := mul_self_nonneg ((x - r0) / h * ((x - r0) / h))
      linarith

theorem level_sample (invar smooth : Bool) (F : ℝ → ℝ → ℝ) (x : ℝ) (val : List ℝ) {h : ℝ} (hs : smooth = true → h ≠ 0) :
    ∃ v, sampleAt (levelPot invar smooth F) x val h = .ok v := by
  unfold sampleAt
  cases smooth with
  | false => exact ⟨_, rfl⟩
  | true =>
    obtain ⟨c, hc⟩ := cutoff_defined x (levelPot invar true F).endR (hs rfl)
    simp only [levelPot, bind, Except.bind, if_true] at hc ⊢
    rw [hc]
    exact ⟨_, rfl⟩

theorem level_loop (invar smooth : Bool) (F : ℝ → ℝ → ℝ) (xc : ℕ → ℝ) (i : ℕ) (val : List ℝ) {h : ℝ} (hs : smooth = true → h ≠ 0)
    (js : List ℕ) (t : ℕ → ℝ) : ∃ t', sampleLoop (levelPot invar smooth F) 3 i xc val h js t = .ok t' := by
  induction js generalizing t with
  | nil => exact ⟨_, rfl⟩
  | cons j js ih =>
    obtain ⟨v, hv⟩ := level_sample invar smooth F (xc (samplePos 3 i j)) val hs
    simp only [sampleLoop, hv, bind, Except.bind]
    exact ih _

theorem level_pot (invar smooth : Bool) (F : ℝ → ℝ → ℝ) (xc : ℕ → ℝ) (doAll : Bool) (i o : ℕ) (h : ℝ) (s : Tabs ℝ)
    (hs : smooth = true → invar = false ∧ s.xi (o + 3) ≠ 0) :
    ∃ h' s', updatePot 3 xc doAll (levelPot invar smooth F) i o h s = .ok (h', s') ∧ ∀ k, k ≠ o → s'.xi k = s.xi k := by
  have hc : ∃ h', cutoffParam doAll (levelPot invar smooth F) o h s.xi = .ok h' ∧ (smooth = true → h' ≠ 0) := by
    unfold cutoffParam
    cases smooth with
    | false => exact ⟨h, by simp [levelPot], by simp⟩
    | true =>
      obtain ⟨rfl, h2⟩ := hs rfl
      refine ⟨s.xi (o + 3), ?_, fun _ => h2⟩
      simp [levelPot, h2]
  obtain ⟨h', h1, h2⟩ := hc
  unfold updatePot
  rw [h1]
  simp only [bind, Except.bind]
  have key : ∀ change val, ∃ t', resample 3 xc doAll change (levelPot invar smooth F) i val h' s.tab = .ok t' := by
    intro change val
    unfold resample
    split
    · exact level_loop invar smooth F xc i val h2 _ _
    · exact ⟨_, rfl⟩
  obtain ⟨t', ht⟩ := key (checkChange (o + 2)
      (Function.update s.xi o ((levelPot invar smooth F).grad (params s.xi (o + 2) (levelPot invar smooth F).nPar)))
      (List.range (levelPot invar smooth F).nPar) s.list false).2 (params (Function.update s.xi o
      ((levelPot invar smooth F).grad (params s.xi (o + 2) (levelPot invar smooth F).nPar))) (o + 2) (levelPot invar smooth F).nPar)
  rw [ht]
  exact ⟨_, _, rfl, fun k hk => Function.update_of_ne hk _ _⟩

theorem level_update (invar smooth : Bool) (F : ℝ → ℝ → ℝ) (xc : ℕ → ℝ) (doAll : Bool) (x l t : ℕ → ℝ)
    (hs : smooth = true → invar = false ∧ x 9 ≠ 0) :
    ∃ s, updateCalcTable 3 xc [levelPot false false fun c _ => c, levelPot false false fun c _ => c, levelPot invar smooth F] 14 [[(2, 0)]] doAll x l t =
      .ok s := by
  unfold updateCalcTable updatePots
  obtain ⟨h1, s1, e1, f1⟩ := level_pot false false (fun c _ => c) xc doAll 0 0 0 ⟨copyGlobals
    [levelPot false false fun c _ => c, levelPot false false fun c _ => c, levelPot invar smooth F] 14 [[(2, 0)]] x, l, t⟩ (by simp)
  rw [e1]
  simp only [bind, Except.bind, updatePots]
  obtain ⟨h2, s2, e2, f2⟩ := level_pot false false (fun c _ => c) xc doAll 1 3 h1 s1 (by simp)
  have o1 : 0 + 2 + (levelPot false false fun c _ => c).nPar = 3 := rfl
  have o2 : 3 + 2 + (levelPot false false fun c _ => c).nPar = 6 := rfl
  rw [o1, e2]
  simp only
  have h9 : s2.xi 9 = x 9 := by
    rw [f2 9 (by norm_num), f1 9 (by norm_num)]
    have : optFirst [levelPot false false fun c _ => c, levelPot false false fun c _ => c, levelPot invar smooth F] 2 + 0 = 8 := by
      simp [optFirst, levelPot]
    simp only [copyGlobals, List.zipIdx_cons, List.zipIdx_nil, List.foldl_cons, List.foldl_nil, this]
    exact Function.update_of_ne (by norm_num) _ _
  obtain ⟨h3, s3, e3, -⟩ := level_pot invar smooth F xc doAll 2 6 h2 s2 fun h => by
    obtain ⟨a, b⟩ := hs h
    exact ⟨a, by rw [h9]; exact b⟩
  rw [o2, e3]
  exact ⟨_, rfl⟩

theorem level_fill (invar smooth : Bool) (F : ℝ → ℝ → ℝ) (i : ℕ) (beg step : ℝ) (val : List ℝ) (n : ℕ) (c : Calc ℝ) :
    ∃ c', fillSamples (levelPot invar smooth F) 3 i beg step val 1 n c = .ok c' := by
  induction n with
  | zero => exact ⟨_, rfl⟩
  | succ n ih =>
    obtain ⟨c', hc⟩ := ih
    unfold fillSamples
    rw [hc]
    obtain ⟨w, hw⟩ := cutoff_defined (beg + n * step) beg (one_ne_zero (α := ℝ))
    cases smooth with
    | false => exact ⟨_, rfl⟩
    | true =>
      simp only [firstSample, levelPot, if_true, hw]
      exact ⟨_, rfl⟩

theorem level_init (invar smooth : Bool) (F : ℝ → ℝ → ℝ) : ∃ c, initCalc 3 halfCols.beg halfCols.fin
    ([levelPot false false fun c _ => c, levelPot false false fun c _ => c, levelPot invar smooth F].zip [[1], [1], [(1 : ℝ)]]) 0
    ⟨fun _ => 0, fun _ => 0⟩ = .ok c := by
  simp only [List.zip_cons_cons, List.zip_nil_left, initCalc, List.getLast?_singleton]
  obtain ⟨c1, h1⟩ := level_fill false false (fun c _ => c) 0 (halfCols.beg 0) ((halfCols.fin 0 - halfCols.beg 0) / (((3 : ℕ) : ℝ) - 1)) [1] 3
    (putSlopes 3 0 ⟨fun _ => 0, fun _ => 0⟩)
  rw [h1]
  simp only
  obtain ⟨c2, h2⟩ := level_fill false false (fun c _ => c) (0 + 1) (halfCols.beg (0 + 1))
    ((halfCols.fin (0 + 1) - halfCols.beg (0 + 1)) / (((3 : ℕ) : ℝ) - 1)) [1] 3 (putSlopes 3 (0 + 1) c1)
  rw [h2]
  simp only
  obtain ⟨c3, h3⟩ := level_fill invar smooth F (0 + 1 + 1) (halfCols.beg (0 + 1 + 1))
    ((halfCols.fin (0 + 1 + 1) - halfCols.beg (0 + 1 + 1)) / (((3 : ℕ) : ℝ) - 1)) [1] 3 (putSlopes 3 (0 + 1 + 1) c2)
  rw [h3]
  exact ⟨_, rfl⟩

theorem level_start (b : Build) (f : Conf ℝ) (invar smooth : Bool) (F : ℝ → ℝ → ℝ) (x : ℕ → ℝ) (hs : smooth = true → invar = false ∧ x 9 ≠ 0) :
    ∃ m, AfterEam (levelEnv b f (levelPot invar smooth F)) x m := by
  obtain ⟨c, hc⟩ := level_init invar smooth F
  obtain ⟨s, hs⟩ := level_update invar smooth F c.xcoord true x (fun _ => 0) c.tab hs
  refine ⟨⟨c.xcoord, s.list, s.tab, fun _ => 0, ⟨⟨⟨0, 0, 0, 0⟩, 0, 0⟩, 0, 0, 0⟩⟩, .start (vals := [[1], [1], [1]]) (c0 := ⟨fun _ => 0, fun _ => 0⟩)
    (list0 := fun _ => 0) (d := fun _ => 0) (v := ⟨⟨⟨0, 0, 0, 0⟩, 0, 0⟩, 0, 0, 0⟩) rfl ?_⟩
  unfold EamEnv.begin
  simp only [levelEnv]
  rw [hc]
  simp only
  rw [hs]

theorem level_run (b : Build) (hb : b.apot = true) (hr : b.rescale = false) (invar smooth : Bool) (F : ℝ → ℝ → ℝ) (hi : smooth = true → invar = false) :
    ∃ f, EamPosed (levelEnv b f (levelPot invar smooth F)) [(thin, f)] (fun _ => 0) ∧
    (∀ g ∈ (levelEnv b f (levelPot invar smooth F)).fns, g.1 ≠ .eopp ∧ g.1 ≠ .csw2) ∧
    (∀ x, x 9 ≠ 0 → ∃ m, AfterEam (levelEnv b f (levelPot invar smooth F)) x m) ∧
    ∀ m x, x 9 ≠ 0 → ∃ r, (levelEnv b f (levelPot invar smooth F)).run 0 x m = some (.ok r) := by
  obtain ⟨f, hw⟩ := level_posed b hb hr invar smooth F
  have hf : ∀ g ∈ (levelEnv b f (levelPot invar smooth F)).fns, g.1 ≠ .eopp ∧ g.1 ≠ .csw2 := by
    intro g hg
    simp only [levelEnv, List.mem_cons, List.not_mem_nil, or_false, or_self] at hg
    subst hg
    constructor <;> intro h <;> cases h
  refine ⟨f, hw, hf, fun x hx => level_start _ _ _ _ _ _ fun h => ⟨hi h, hx⟩, fun m x hx => ?_⟩
  obtain ⟨s, hs⟩ := level_update invar smooth F m.xcoord false x m.list m.tab fun h => ⟨hi h, hx⟩
  refine (C108_defined hw (q := x) (checkParams_plain hf 0 x) hs).2 ?_
  intro p hp
  rw [show (levelEnv b f (levelPot invar smooth F)).names = ["const", "const", "other"] from rfl, level_names.1] at hp
  cases hp

/-- Functions for any vector. -/
theorem level_functions (b : Build) (hb : b.apot = true) (hr : b.rescale = false) (invar smooth : Bool) (F : ℝ → ℝ → ℝ)
    (hi : smooth = true → invar = false) (start x : ℕ → ℝ) (h9 : start 9 ≠ 0) (hx : x 9 ≠ 0) :
    ∃ f P, Posed (levelEnv b f (levelPot invar smooth F)).toEnv ∧
      EamFunctionsOf (levelEnv b f (levelPot invar smooth F)).toEnv start x P := by
  obtain ⟨f, hw, hf, hs, he⟩ := level_run b hb hr invar smooth F hi
  obtain ⟨m, hm⟩ := hs start h9
  obtain ⟨r, hr⟩ := he m x hx
  obtain ⟨q, hq, -, -, ⟨P, hP⟩, -⟩ := C108_value hw hm hr
  rw [checkParams_plain hf] at hq
  obtain rfl := Option.some.inj hq
  exact ⟨f, P, hw.toPosed, hP⟩

/-- For the transfer function zero the density is zero, left of the range. -/
theorem level_placed {b : Build} {f : Conf ℝ} {invar : Bool} (hw : EamPosed (levelEnv b f (levelPot invar false fun c r => c + r ^ 2)) [(thin, f)] (fun _ => 0))
    {start x : ℕ → ℝ} (hx : x 5 = 0) {m : EamMem} (hm : AfterEam (levelEnv b f (levelPot invar false fun c r => c + r ^ 2)) start m)
    {fuel : ℕ} {r : EamRes} (hr : (levelEnv b f (levelPot invar false fun c r => c + r ^ 2)).run fuel x m = some (.ok r))
    (hf : ∀ g ∈ (levelEnv b f (levelPot invar false fun c r => c + r ^ 2)).fns, g.1 ≠ .eopp ∧ g.1 ≠ .csw2) :
    ∃ P, EamFunctionsOf (levelEnv b f (levelPot invar false fun c r => c + r ^ 2)).toEnv start x P ∧
      AllPlaced (levelEnv b f (levelPot invar false fun c r => c + r ^ 2)).toEnv [(thin, f)] x P := by
  obtain ⟨q, hq, -, -, ⟨P, hP⟩, -⟩ := C108_value hw hm hr
  rw [checkParams_plain hf] at hq
  obtain rfl := Option.some.inj hq
  let Q : EamPots ℝ := { P with val := fun t r => if t = 1 then 0 else P.val t r, grad := fun t r => if t = 1 then 0 else P.grad t r }
  have hQ : EamFunctionsOf (levelEnv b f (levelPot invar false fun c r => c + r ^ 2)).toEnv start x Q := by
    refine ⟨⟨hP.sampled.left, hP.sampled.right, fun t p hp => ?_⟩, hP.paircol, hP.ntypes, hP.ana⟩
    by_cases ht : t = 1
    · subst ht
      cases hp
      refine ⟨[0], 0, 0, 0, rfl, ?_, ?_, ⟨⟨?_, ?_, ?_, ?_, ?_⟩, ?_, ?_, ?_⟩, ?_⟩
      · intro n v hv
        cases n with
        | zero =>
          obtain rfl : 0 = v := by simpa using hv
          refine Or.inr ⟨?_, ?_⟩
          · intro l hl h
            obtain rfl := List.mem_singleton.1 hl
            simp at h
          · exact hx.symm
        | succ n => simp at hv
      · intro j _
        exact ⟨0, rfl, rfl⟩
      all_goals simp [EndCond.Holds, Q]
    · obtain ⟨val, y, m, g, e1, e2, e3, e4, e5⟩ := hP.sampled.pieces t p hp
      refine ⟨val, y, m, g, e1, e2, e3, e4, ?_⟩
      simpa only [Q, if_neg ht] using e5
  refine ⟨Q, hQ, ?_⟩
  intro c hc i hi
  obtain rfl := List.mem_singleton.1 hc
  obtain rfl : i = 0 := by have : i < 1 := hi; omega
  have hdens : latticeDensity Q thin 0 = 0 := by
    unfold latticeDensity latticeSum
    refine finsum_mem_eq_zero_of_forall_eq_zero fun m hm => ?_
    obtain ⟨j, n⟩ := m
    obtain rfl : j = 0 := by have : j < 1 := hm.1; omega
    have ht : (thin.site 0).typ = 0 := rfl
    have h1 : P.paircol = 1 := by rw [hP.paircol]; simp [levelEnv]
    unfold transfer
    simp only [ht, h1, Nat.add_zero, Q, if_true, ite_self]
  have hcol : (levelEnv b f (levelPot invar false fun c r => c + r ^ 2)).n * ((levelEnv b f (levelPot invar false fun c r => c + r ^ 2)).n + 1) / 2 +
      (levelEnv b f (levelPot invar false fun c r => c + r ^ 2)).n + ((thin, f).1.site 0).typ = 2 := by
    show 1 * (1 + 1) / 2 + 1 + 0 = 2
    norm_num
  rw [hdens, hcol]
  exact C108_quadratic hw.globals hQ (p := levelPot invar false fun c r => c + r ^ 2) (A := fun val => val.getD 0 0) (B := fun _ => 0)
    (C := fun _ => 1) rfl (fun r val _ => by simp [levelPot]) (Or.inl (by norm_num [levelEnv, halfCols]))

/-- Hypotheses of `C108_value`, `C108_memory`, `C108_inplace`, `C108_exists` and `C108_fit`: the chain, transfer function zero, embedding
function `c + ρ^2`. -/
example (b : Build) (hb : b.apot = true) (hr : b.rescale = false) (x : ℕ → ℝ) (hx : x 5 = 0) (h9 : x 9 ≠ 0) :
    ∃ f m r P y a s, EamPosed (levelEnv b f (levelPot false false fun c r => c + r ^ 2)) [(thin, f)] (fun _ => 0) ∧
    (∀ g ∈ (levelEnv b f (levelPot false false fun c r => c + r ^ 2)).fns, g.1 ≠ .eopp ∧ g.1 ≠ .csw2) ∧
    AfterEam (levelEnv b f (levelPot false false fun c r => c + r ^ 2)) x m ∧
    (levelEnv b f (levelPot false false fun c r => c + r ^ 2)).run 0 x m = some (.ok r) ∧
    EamFunctionsOf (levelEnv b f (levelPot false false fun c r => c + r ^ 2)).toEnv x x P ∧
    AllPlaced (levelEnv b f (levelPot false false fun c r => c + r ^ 2)).toEnv [(thin, f)] x P ∧
    (driftAnneal fun _ => y).run (fun s => (s + 1, 0)) (.given 0) 0 x = some a ∧ (stuckPowell fun _ => y).run 1 a.xi = .ok s ∧ s.xi = x ∧
    IsEamApotValue (levelEnv b f (levelPot false false fun c r => c + r ^ 2)) x x ((driftAnneal fun _ => y).obj x) := by
  obtain ⟨f, hw, hf, hs, he⟩ := level_run b hb hr false false (fun c r => c + r ^ 2) (by simp)
  obtain ⟨m, hm⟩ := hs x h9
  obtain ⟨r, hr⟩ := he m x h9
  obtain ⟨P, hP, hp⟩ := level_placed hw hx hm hr hf
  obtain ⟨y, hy⟩ := C108_exists hw hf hP hp
  obtain ⟨s, hs', hsx⟩ := stuckPowell_run (fun _ => y) x
  refine ⟨f, m, r, P, y, ⟨x, y, [], []⟩, s, hw, hf, hm, hr, hP, hp, ?_, hs', hsx, hy⟩
  unfold Annealing.Env.run Annealing.Env.temperature
  simp only
  rw [if_neg (by norm_num)]
  simp only
  rw [if_pos trivial]
  rfl

/-- Hypotheses of `C108_gradient_violated`. -/
example (b : Build) (hb : b.apot = true) (hr : b.rescale = false) (start x : ℕ → ℝ) (h9 : start 9 ≠ 0) (hx : x 9 ≠ 0) : ∃ f P,
    EamFunctionsOf (levelEnv b f (levelPot false false fun _ r => r ^ 3)).toEnv start x P ∧
    (levelEnv b f (levelPot false false fun _ r => r ^ 3)).pots[2]? = some (levelPot false false fun _ r => r ^ 3) ∧
    (∀ r val, (levelPot false false fun _ r => r ^ 3).fvalue r val = .ok (r ^ 3)) ∧
    (levelEnv b f (levelPot false false fun _ r => r ^ 3)).fin 2 < (2 : ℝ) := by
  obtain ⟨f, P, -, hP⟩ := level_functions b hb hr false false (fun _ r => r ^ 3) (by simp) start x h9 hx
  exact ⟨f, P, hP, rfl, fun _ _ => rfl, by norm_num [levelEnv, halfCols]⟩

/-- Hypotheses of `C108_gradient_partial`, with `B = 6`. -/
example (r r' : ℝ) : HasDerivAt (fun r : ℝ => r ^ 3) (3 * r ^ 2) r ∧ HasDerivAt (fun r : ℝ => 3 * r ^ 2) (6 * r) r ∧
    |6 * r - 6 * r'| ≤ 6 * |r - r'| := by
  refine ⟨by simpa using hasDerivAt_pow 3 r, ((hasDerivAt_pow 2 r).const_mul 3).congr_deriv (by push_cast; ring), ?_⟩
  rw [← mul_sub, abs_mul]
  norm_num

/-- Hypotheses of `C108_jump_violated`. -/
example (b : Build) (hb : b.apot = true) (hr : b.rescale = false) (start x : ℕ → ℝ) (h9 : start 9 ≠ 0) (hx : x 9 ≠ 0) : ∃ f P,
    Posed (levelEnv b f (levelPot false false fun _ r => 2 * r)).toEnv ∧
    EamFunctionsOf (levelEnv b f (levelPot false false fun _ r => 2 * r)).toEnv start x P ∧
    (levelEnv b f (levelPot false false fun _ r => 2 * r)).pots[2]? = some (levelPot false false fun _ r => 2 * r) ∧
    (∀ r val, (levelPot false false fun _ r => 2 * r).fvalue r val = .ok (2 * r)) ∧
    1 / 10 < (levelEnv b f (levelPot false false fun _ r => 2 * r)).fin 2 := by
  obtain ⟨f, P, h1, hP⟩ := level_functions b hb hr false false (fun _ r => 2 * r) (by simp) start x h9 hx
  exact ⟨f, P, h1, hP, rfl, fun _ _ => rfl, by norm_num [levelEnv, halfCols]⟩

/-- Hypotheses of `C108_cutoff_violated`. -/
example (b : Build) (hb : b.apot = true) (hr : b.rescale = false) (start x : ℕ → ℝ) (h9 : start 9 ≠ 0) (hx : x 9 ≠ 0) : ∃ f P,
    Posed (levelEnv b f (levelPot false true fun _ _ => -7)).toEnv ∧
    EamFunctionsOf (levelEnv b f (levelPot false true fun _ _ => -7)).toEnv start x P ∧
    (levelEnv b f (levelPot false true fun _ _ => -7)).pots[2]? = some (levelPot false true fun _ _ => -7) ∧
    (levelPot false true fun _ _ => -7).endR = (levelEnv b f (levelPot false true fun _ _ => -7)).fin 2 ∧
    (∀ r val, (levelPot false true fun _ _ => -7).fvalue r val = .ok (-7)) := by
  obtain ⟨f, P, h1, hP⟩ := level_functions b hb hr false true (fun _ _ => -7) (by simp) start x h9 hx
  exact ⟨f, P, h1, hP, rfl, by norm_num [levelEnv, halfCols, levelPot], fun _ _ => rfl⟩

/-- Hypotheses of `C108_invariant_violated`: at the start the global parameter is 1, then 2. -/
example (b : Build) (hb : b.apot = true) (hr : b.rescale = false) : ∃ f P,
    Posed (levelEnv b f (levelPot true false fun c _ => c)).toEnv ∧
    EamFunctionsOf (levelEnv b f (levelPot true false fun c _ => c)).toEnv (fun _ => 1) (fun _ => 2) P ∧
    (levelEnv b f (levelPot true false fun c _ => c)).pots[2]? = some (levelPot true false fun c _ => c) ∧
    (levelEnv b f (levelPot true false fun c _ => c)).globals[0]? = some [(2, 0)] ∧
    (∀ r val, (levelPot true false fun c _ => c).fvalue r val = .ok (val.getD 0 0)) := by
  obtain ⟨f, P, h1, hP⟩ := level_functions b hb hr true false (fun c _ => c) (by simp) (fun _ => 1) (fun _ => 2) (by norm_num) (by norm_num)
  exact ⟨f, P, h1, hP, rfl, rfl, fun _ _ => rfl⟩

end Verif.Props
