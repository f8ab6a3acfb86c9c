/-
C101  A fit of tabulated potentials to crystals ends with potentials that are not worse than those it began with.

`SplinesOf` says what the functions of a table are: the cubic splines through its values.  There is only one such spline
(`spline_unique`), so the objective of the infinite crystals (`Spec/Crystal.lean`) is a function of the values of the table.
-/
import Verif.Props.C100
import Verif.Props.C28
import Verif.Props.C29
import Verif.Lemmas.SplineUnique

set_option linter.unusedSectionVars false

namespace Verif.Props

open Verif.Force hiding Cell
open Verif.Neighbors Verif.Spec Verif.SplineInit Verif.Splines Polynomial Verif.Cut

/-- The functions `P` are the splines through the values `xi` of the first `n` columns: cubic pieces between the knots, with the
end slopes of the table (on the right side only for the columns `right`, for the others the slope is zero). -/
structure SplinesOf (fmt : Format) (t : Cols ℝ) (xi : ℕ → ℝ) (n : ℕ) (right : ℕ → Bool) (P : Pots ℝ) : Prop where
  beg : P.beg = t.beg
  fin : P.fin = t.fin
  pieces : ∀ col < n, ∃ (m : ℕ → ℝ) (p : ℕ → ℝ[X]),
    IsSpline (knots (isGeneral fmt) t col) (fun k => xi (t.first col + k)) m (t.last col - t.first col + 1)
      (endCond (xi (t.first col - 2))) (endCond (if right col then xi (t.first col - 1) else 0)) p ∧
    ∀ k, t.first col + k < t.last col → ∀ r, knots (isGeneral fmt) t col k ≤ r → r < knots (isGeneral fmt) t col (k + 1) →
      P.val col r = (p k).eval r ∧ P.grad col r = (derivative (p k)).eval r

/-- Knots of a good column increase from its begin to its end. -/
theorem good_knots {ne : Bool} {t : Cols ℝ} {col : ℕ} (h : Verif.SplineInit.Good ne t col) :
    (∀ k < t.last col - t.first col, knots ne t col k < knots ne t col (k + 1)) ∧ knots ne t col 0 = t.beg col ∧
      knots ne t col (t.last col - t.first col) = t.fin col := by
  have hk := h.knots
  refine ⟨?_, ?_, ?_⟩
  · intro k hk'
    unfold knots
    split
    · next hg => exact (h.gen hg).mono _ (Nat.le_add_right _ _) (by simp only [Cols.col]; omega)
    · next hg =>
      have hst : 0 < t.step col := (h.ed (by simpa using hg)).step_pos
      push_cast
      linarith
  · unfold knots
    split
    · next hg => exact (h.gen hg).beg_eq.symm
    · simp
  · unfold knots
    split
    · next hg =>
      rw [Nat.add_sub_cancel' hk.le]
      exact (h.gen hg).fin_eq.symm
    · next hg =>
      have hst : t.step col = (t.fin col - t.beg col) / ((t.last col : ℝ) - (t.first col : ℝ)) := (h.ed (by simpa using hg)).step_eq
      have : ((t.last col : ℝ) - (t.first col : ℝ)) ≠ 0 := by
        have : (t.first col : ℝ) < (t.last col : ℝ) := by exact_mod_cast hk
        linarith
      rw [hst, Nat.cast_sub hk.le]
      field_simp
      ring

/-- A point of the table lies between two neighbouring knots. -/
theorem between_knots {x : ℕ → ℝ} {n : ℕ} {r : ℝ} (h0 : x 0 ≤ r) (hn : r < x n) : ∃ k < n, x k ≤ r ∧ r < x (k + 1) := by
  induction n with
  | zero => exact absurd h0 (not_le.2 hn)
  | succ n ih =>
    rcases lt_or_ge r (x n) with h | h
    · obtain ⟨k, a, b⟩ := ih h
      exact ⟨k, by omega, b⟩
    · exact ⟨n, by omega, h, hn⟩

/-- **Uniqueness.** The values of the table determine the functions. -/
theorem C101_unique {fmt : Format} {t : Cols ℝ} {xi : ℕ → ℝ} {n : ℕ} {right : ℕ → Bool} {P Q : Pots ℝ} (hl : Layout (isGeneral fmt) t n)
    (hP : SplinesOf fmt t xi n right P) (hQ : SplinesOf fmt t xi n right Q) (col : ℕ) (hc : col < n) (r : ℝ) (h1 : t.beg col ≤ r)
    (h2 : r < t.fin col) : P.val col r = Q.val col r ∧ P.grad col r = Q.grad col r := by
  obtain ⟨k1, k2, k3⟩ := good_knots (hl.good col hc)
  have hk := (hl.good col hc).knots
  obtain ⟨m, p, sp, ep⟩ := hP.pieces col hc
  obtain ⟨m', q, sq, eq⟩ := hQ.pieces col hc
  obtain ⟨k, hkn, a, b⟩ := between_knots (x := knots (isGeneral fmt) t col) (n := t.last col - t.first col) (r := r)
    (by rw [k2]; exact h1) (by rw [k3]; exact h2)
  have := spline_unique (fun k hk' => k1 k (by omega)) (by omega) sp sq k (by omega)
  rw [(ep k (by omega) r a b).1, (ep k (by omega) r a b).2, (eq k (by omega) r a b).1, (eq k (by omega) r a b).2, this]
  exact ⟨rfl, rfl⟩

/-- What the look-up routines deliver after the initialisation are the splines of the table. -/
theorem refreshed_splines {rt : Routine} {fmt : Format} (hh : Handles rt fmt) {t : Cols ℝ} {pc nt : ℕ}
    (hl : Layout (isGeneral fmt) t (numCols rt pc nt)) {xi d d' : ℕ → ℝ} (h : refresh rt fmt t xi pc nt d = .ok d') :
    SplinesOf fmt t xi (numCols rt pc nt) (takesRight rt pc nt) (tablePots fmt t xi d') := by
  obtain ⟨e, e1, e2, -⟩ := C99_fresh hh hl xi d
  obtain rfl : e = d' := Except.ok.inj (e1.symm.trans h)
  refine ⟨rfl, rfl, fun col hc => ?_⟩
  obtain ⟨p, hp, hq⟩ := e2 col hc
  refine ⟨_, p, hp, fun k hk r a b => ?_⟩
  simp only [tablePots, (hq k hk r a b).1, (hq k hk r a b).2.1, delivered, and_self]

/-- Splines are differentiable inside the table. -/
theorem splines_smooth {fmt : Format} {t : Cols ℝ} {xi : ℕ → ℝ} {n : ℕ} {right : ℕ → Bool} {P : Pots ℝ} (hl : Layout (isGeneral fmt) t n)
    (hP : SplinesOf fmt t xi n right P) {col : ℕ} (hc : col < n) {r : ℝ} (hr : OffEnds t col r) : SmoothAt P col r := by
  refine ⟨by rw [hP.fin]; exact hr.2, fun h2 => ?_⟩
  rw [hP.fin] at h2
  obtain ⟨k1, k2, k3⟩ := good_knots (hl.good col hc)
  have hk := (hl.good col hc).knots
  obtain ⟨m, p, sp, ep⟩ := hP.pieces col hc
  refine pieces_deriv (x := knots (isGeneral fmt) t col) (p := p) (n := t.last col - t.first col) k1 ?_ ?_ ?_ ?_
    (by rw [k2]; exact hr.1) (by rw [k3]; exact h2)
  · intro k hk' s a b
    exact (ep k (by omega) s a b).1
  · intro k hk' s a b
    exact (ep k (by omega) s a b).2
  · intro k hk'
    rw [sp.interp_right k (by omega), sp.interp_left (k + 1) (by omega)]
  · intro k hk'
    exact sp.smooth k (by omega)

/-- Only the slopes of the entries matter. -/
theorem confError_congr (b : Build) {s s' : Entry ℝ → ℝ} (energy ew sw : ℝ) {c : Conf ℝ} (h : ∀ e ∈ entries c, s e = s' e) :
    confError b s energy ew sw c = confError b s' energy ew sw c := by
  have hf := totalForce_congr h
  have hs := totalStress_congr h
  unfold confError forceError stressDev deviation
  simp only [hf, hs]

/-! ### Pair potentials -/

/-- The crystals are prepared with the cutoffs of the table, and no distance is smaller than the begin or equal to the end of
its function. -/
def PairSample (t : Cols ℝ) (n : ℕ) (before : ℕ → ℝ) (x : Cell × Conf ℝ) : Prop :=
  Prepared (toCutoffs n (rcut .pair false n t.fin 0 before)) x.1 x.2 ∧ x.1.ntypes = n ∧
    (∀ i < x.1.sites.length, (x.1.site i).typ < n) ∧
    ∀ i < x.1.sites.length, ∀ m ∈ Others x.1 i, OffEnds t (pairColumn x.1 i m.j) (gapTo x.1 i m)

/-- Weighted squared deviations of all crystals with pair interactions `P`. -/
noncomputable def pairCrystals (b : Build) (ew sw : ℝ) (L : List (Cell × Conf ℝ)) (P : Pots ℝ) : ℝ :=
  (L.map fun x => crystalError b (fun y => x.2.chem + latticePair P y) ew sw (cellVolume x.1.box.edge) x.1 x.2).sum

theorem pairColumn_lt {n : ℕ} {c : Cell} (hn : c.ntypes = n) (ht : ∀ i < c.sites.length, (c.site i).typ < n) {i j : ℕ}
    (hi : i < c.sites.length) (hj : j < c.sites.length) : pairColumn c i j < n * (n + 1) / 2 := by
  unfold pairColumn
  rw [hn]
  exact C01_in_range (ht i hi) (ht j hj)

/-- The objective of the crystals depends on the splines only. -/
theorem pairCrystals_congr {fmt : Format} {t : Cols ℝ} {n : ℕ} {xi : ℕ → ℝ} {right : ℕ → Bool} {P Q : Pots ℝ}
    (hl : Layout (isGeneral fmt) t (n * (n + 1) / 2)) (hP : SplinesOf fmt t xi (n * (n + 1) / 2) right P)
    (hQ : SplinesOf fmt t xi (n * (n + 1) / 2) right Q) (b : Build) (ew sw : ℝ) {before : ℕ → ℝ} {L : List (Cell × Conf ℝ)}
    (hL : ∀ x ∈ L, PairSample t n before x) : pairCrystals b ew sw L P = pairCrystals b ew sw L Q := by
  unfold pairCrystals
  congr 1
  apply List.map_congr_left
  intro x hx
  obtain ⟨h1, h2, h3, h4⟩ := hL x hx
  have key : ∀ R : Pots ℝ, SplinesOf fmt t xi (n * (n + 1) / 2) right R →
      crystalError b (fun y => x.2.chem + latticePair R y) ew sw (cellVolume x.1.box.edge) x.1 x.2 =
        confError b (pairSlope R) (pairTotal R x.2) ew sw x.2 := by
    intro R hR
    obtain ⟨edge, scale, hr, -, -, hb⟩ := h1.made
    have hsym := cutoffs_good .pair false n t.fin 0 before
    have hreach := reach_pair .pair (Or.inl rfl) false n R 0 before x.1 h2 h3
    rw [hR.fin] at hreach
    rw [error_pair hr hb hsym b R hreach (fun i hi m hm => splines_smooth hl hR (pairColumn_lt h2 h3 hi hm.1) (h4 i hi m hm)), h1.vol]
  have hent : ∀ e ∈ entries x.2, e.n.col0 < n * (n + 1) / 2 ∧ t.beg e.n.col0 ≤ e.n.r := by
    intro e he
    obtain ⟨edge, scale, hr, -, -, hb⟩ := h1.made
    obtain ⟨i, m, hi, hm, -, -, e3, e4, -⟩ := entry_image hb he
    have hcol : e.n.col0 = pairColumn x.1 i m.j := by rw [e3]; rfl
    rw [hcol, e4]
    exact ⟨pairColumn_lt h2 h3 hi hm.1, (h4 i hi m hm).1.le⟩
  rw [key P hP, key Q hQ]
  have hen : pairTotal P x.2 = pairTotal Q x.2 := by
    unfold pairTotal totalPairEnergy
    congr 2
    apply List.map_congr_left
    intro e he
    unfold pairEnergy
    rw [hP.fin, hQ.fin]
    split
    · next h => rw [(C101_unique hl hP hQ _ (hent e he).1 _ (hent e he).2 h).1]
    · rfl
  rw [hen]
  apply confError_congr
  intro e he
  unfold pairSlope
  rw [hP.fin, hQ.fin]
  split
  · next h => rw [(C101_unique hl hP hQ _ (hent e he).1 _ (hent e he).2 h).2]
  · rfl

/-- **One evaluation.** Whatever was evaluated before (content of the second derivatives `d` and of the force vector `v`), the routine
returns the objective of the crystals whose atoms interact by the splines of the table. -/
theorem C101_value {fmt : Format} (hh : Handles .pair fmt) {t : Cols ℝ} {n : ℕ} (hl : Layout (isGeneral fmt) t (n * (n + 1) / 2))
    (b : Build) (hb : b.apot = false) (ew sw w : ℝ) (before : ℕ → ℝ) (L : List (Cell × Conf ℝ)) (hL : ∀ x ∈ L, PairSample t n before x)
    (xi d : ℕ → ℝ) (v : PairVec ℝ) (P : Pots ℝ) (hP : SplinesOf fmt t xi (n * (n + 1) / 2) (fun _ => false) P) :
    ∃ d' v', refresh .pair fmt t xi (n * (n + 1) / 2) n d = .ok d' ∧
      pairObjective b (tablePots fmt t xi d') ew sw w [] [] [] (L.map Prod.snd) v = .ok (v', pairCrystals b ew sw L P) := by
  obtain ⟨d', e1, -, e3⟩ := C100_table_pair hh hl xi d before
  obtain ⟨v', hv⟩ := (e3 b ew sw w [] [] [] L hL v).1 hb
  refine ⟨d', v', e1, hv.trans ?_⟩
  have hS : SplinesOf fmt t xi (n * (n + 1) / 2) (fun _ => false) (tablePots fmt t xi d') := refreshed_splines hh (pc := n * (n + 1) / 2) hl e1
  rw [pairCrystals_congr hl hP hS b ew sw hL]
  rfl

/-- `obj` is what the pair routine returns, whatever the content of its memory. -/
def IsPairObjective (fmt : Format) (t : Cols ℝ) (n : ℕ) (b : Build) (ew sw w : ℝ) (confs : List (Conf ℝ)) (obj : (ℕ → ℝ) → ℝ) : Prop :=
  ∀ xi d d' v v' y, refresh .pair fmt t xi (n * (n + 1) / 2) n d = .ok d' →
    pairObjective b (tablePots fmt t xi d') ew sw w [] [] [] confs v = .ok (v', y) → obj xi = y

theorem pairObjective_crystals {fmt : Format} (hh : Handles .pair fmt) {t : Cols ℝ} {n : ℕ}
    (hl : Layout (isGeneral fmt) t (n * (n + 1) / 2)) {b : Build} (hb : b.apot = false) {ew sw w : ℝ} {before : ℕ → ℝ}
    {L : List (Cell × Conf ℝ)} (hL : ∀ x ∈ L, PairSample t n before x) {obj : (ℕ → ℝ) → ℝ}
    (ho : IsPairObjective fmt t n b ew sw w (L.map Prod.snd) obj) {xi : ℕ → ℝ} {P : Pots ℝ}
    (hP : SplinesOf fmt t xi (n * (n + 1) / 2) (fun _ => false) P) : obj xi = pairCrystals b ew sw L P := by
  obtain ⟨d', v', e1, e2⟩ := C101_value hh hl b hb ew sw w before L hL xi (fun _ => 0) ⟨⟨0, 0, 0, 0⟩, 0, 0⟩ P hP
  exact ho xi _ d' _ v' _ e1 e2

/-- Such a function exists: the routine has no memory. -/
theorem C101_exists {fmt : Format} (hh : Handles .pair fmt) {t : Cols ℝ} {n : ℕ} (hl : Layout (isGeneral fmt) t (n * (n + 1) / 2))
    (b : Build) (hb : b.apot = false) (ew sw w : ℝ) (before : ℕ → ℝ) (L : List (Cell × Conf ℝ)) (hL : ∀ x ∈ L, PairSample t n before x) :
    ∃ obj, IsPairObjective fmt t n b ew sw w (L.map Prod.snd) obj := by
  choose D hD using fun xi : ℕ → ℝ => (C99_fresh hh (pc := n * (n + 1) / 2) (nt := n) hl xi fun _ => 0)
  refine ⟨fun xi => pairCrystals b ew sw L (tablePots fmt t xi (D xi)), ?_⟩
  intro xi d d' v v' y h1 h2
  have hS := refreshed_splines hh (pc := n * (n + 1) / 2) hl (hD xi).1
  obtain ⟨d'', v'', e1, e2⟩ := C101_value hh hl b hb ew sw w before L hL xi d v _ hS
  obtain rfl : d'' = d' := Except.ok.inj (e1.symm.trans h1)
  rw [h2] at e2
  exact (Prod.mk.inj (Except.ok.inj e2)).2.symm

variable {σ : Type*} {N N' M : ℕ}

/-- **The fit, pair potentials.** Annealing and then the least-squares optimiser, for all random numbers, solutions of the
linear systems and break flags: the splines of the table at the end describe the crystals not worse than those of the table at
the beginning, and the value reported at the end is their objective. -/
theorem C101_fit [NeZero N] {fmt : Format} (hh : Handles .pair fmt) {t : Cols ℝ} {n : ℕ} (hl : Layout (isGeneral fmt) t (n * (n + 1) / 2))
    (b : Build) (hb : b.apot = false) (ew sw w : ℝ) (before : ℕ → ℝ) (L : List (Cell × Conf ℝ)) (hL : ∀ x ∈ L, PairSample t n before x)
    (A : Annealing.Env ℝ ℕ σ N') (hA : IsPairObjective fmt t n b ew sw w (L.map Prod.snd) A.obj) (ha : A.apot = false)
    (E : Powell.Env ℝ ℕ N M) (hE : IsPairObjective fmt t n b ew sw w (L.map Prod.snd) fun xi => (E.obj xi).1) (hr : E.rescale = none)
    (pick : σ → σ × Fin N') (T : Annealing.Temp ℝ) (rng : σ) (xi : ℕ → ℝ) (r : Annealing.Res ℝ ℕ) (h1 : A.run pick T rng xi = some r)
    (fuel : ℕ) (s : Powell.St ℝ ℕ N M) (h2 : E.run fuel r.xi = .ok s) (P Q : Pots ℝ)
    (hP : SplinesOf fmt t xi (n * (n + 1) / 2) (fun _ => false) P) (hQ : SplinesOf fmt t s.xi (n * (n + 1) / 2) (fun _ => false) Q) :
    s.f = pairCrystals b ew sw L Q ∧ pairCrystals b ew sw L Q ≤ pairCrystals b ew sw L P := by
  obtain ⟨a1, a2, -⟩ := C29_best A (by intro h; rw [ha] at h; cases h) pick T rng xi r h1
  obtain ⟨p1, -, p3⟩ := C28_monotone E fuel r.xi s (by intro f hf; rw [hr] at hf; cases hf) h2
  have e0 : A.obj xi = pairCrystals b ew sw L P := pairObjective_crystals hh hl hb hL hA hP
  have e1 : (E.obj s.xi).1 = pairCrystals b ew sw L Q := pairObjective_crystals hh hl hb hL hE hQ
  obtain ⟨d, hd, -⟩ := C99_fresh hh (pc := n * (n + 1) / 2) (nt := n) hl r.xi fun _ => 0
  have hS := refreshed_splines hh (pc := n * (n + 1) / 2) hl hd
  have e2 : A.obj r.xi = _ := pairObjective_crystals hh hl hb hL hA hS
  have e3 : (E.obj r.xi).1 = _ := pairObjective_crystals hh hl hb hL hE hS
  refine ⟨p1.trans e1, ?_⟩
  rw [← e1, ← e0]
  refine p3.trans ?_
  rw [e3, ← e2, ← a1]
  exact a2

/-! ### EAM potentials -/

/-- The same conditions for pair and transfer functions. -/
def EamSample (t : Cols ℝ) (n : ℕ) (before : ℕ → ℝ) (x : Cell × Conf ℝ) : Prop :=
  Prepared (toCutoffs n (rcut .eam false n t.fin 0 before)) x.1 x.2 ∧ x.1.ntypes = n ∧ x.1.paircol = n * (n + 1) / 2 ∧
    (∀ i < x.1.sites.length, (x.1.site i).typ < n) ∧
    ∀ i < x.1.sites.length, ∀ m ∈ Others x.1 i, OffEnds t (pairColumn x.1 i m.j) (gapTo x.1 i m) ∧
      OffEnds t (n * (n + 1) / 2 + (x.1.site m.j).typ) (gapTo x.1 i m)

/-- Columns whose right end slope is that of the table: the embedding functions. -/
def embedding (n col : ℕ) : Bool := decide (n * (n + 1) / 2 + n ≤ col)

/-- The EAM functions of a table: splines in the order pair functions, transfer functions, embedding functions. -/
structure EamSplines (fmt : Format) (t : Cols ℝ) (xi : ℕ → ℝ) (n : ℕ) (P : EamPots ℝ) : Prop where
  splines : SplinesOf fmt t xi (n * (n + 1) / 2 + 2 * n) (embedding n) P.toPots
  paircol : P.paircol = n * (n + 1) / 2
  ntypes : P.ntypes = n

/-- The densities in the crystals are inside the tables of the embedding functions. -/
def DensitiesInside (t : Cols ℝ) (n : ℕ) (L : List (Cell × Conf ℝ)) (P : EamPots ℝ) : Prop :=
  ∀ x ∈ L, ∀ i < x.1.sites.length, t.beg (n * (n + 1) / 2 + n + (x.1.site i).typ) < latticeDensity P x.1 i ∧
    latticeDensity P x.1 i < t.fin (n * (n + 1) / 2 + n + (x.1.site i).typ)

/-- Sum of the densities at all atoms. -/
noncomputable def densitySum (L : List (Cell × Conf ℝ)) (P : EamPots ℝ) : ℝ :=
  (L.map fun x => ∑ i ∈ Finset.range x.1.sites.length, latticeDensity P x.1 i).sum

/-- The gauge conditions: slope zero of the embedding functions at density one, mean density one. -/
noncomputable def crystalGauge (b : Build) (natoms : ℕ) (L : List (Cell × Conf ℝ)) (P : EamPots ℝ) : ℝ :=
  if b.noPunish = true then 0
  else ∑ g ∈ Finset.range P.ntypes, (100 * P.grad (P.paircol + P.ntypes + g) 1) ^ 2 +
    if 0 < densitySum L P then (100 * (densitySum L P / (natoms : ℝ) - 1)) ^ 2 else 0

/-- Weighted squared deviations of all crystals with EAM interactions `P`, and gauge conditions. -/
noncomputable def eamCrystals (b : Build) (ew sw : ℝ) (natoms : ℕ) (L : List (Cell × Conf ℝ)) (P : EamPots ℝ) : ℝ :=
  (L.map fun x => crystalError b (latticeEam b P) ew sw (cellVolume x.1.box.edge) x.1 x.2).sum + crystalGauge b natoms L P

/-- Density one is inside the tables of the embedding functions, if the gauge conditions are used. -/
def GaugeInside (b : Build) (t : Cols ℝ) (n : ℕ) : Prop :=
  b.noPunish = false → ∀ g < n, t.beg (n * (n + 1) / 2 + n + g) ≤ 1 ∧ 1 < t.fin (n * (n + 1) / 2 + n + g)

section
variable {fmt : Format} {t : Cols ℝ} {n : ℕ} {xi : ℕ → ℝ} {P Q : EamPots ℝ} {before : ℕ → ℝ}

theorem eam_density_congr (hl : Layout (isGeneral fmt) t (n * (n + 1) / 2 + 2 * n)) (hP : EamSplines fmt t xi n P)
    (hQ : EamSplines fmt t xi n Q) {x : Cell × Conf ℝ} (hx : EamSample t n before x) (i : ℕ) (hi : i < x.1.sites.length) :
    latticeDensity P x.1 i = latticeDensity Q x.1 i := by
  obtain ⟨-, -, -, h4, h5⟩ := hx
  unfold latticeDensity latticeSum
  refine finsum_mem_congr rfl fun m hm => ?_
  unfold transfer
  rw [hP.splines.fin, hQ.splines.fin, hP.paircol, hQ.paircol]
  have ht := h4 m.j hm.1
  have hoff := (h5 i hi m hm).2
  split
  · next h => exact (C101_unique hl hP.splines hQ.splines _ (by omega) _ hoff.1.le h).1
  · rfl

/-- Embedding inside the table. -/
theorem embed_from_table {b : Build} (hb : b.apot = false) (hr : b.rescale = false) {col : ℕ} {y : ℝ} (h1 : P.beg col < y)
    (h2 : y < P.fin col) : embed b P col y = ⟨y, P.val col y, P.grad col y, 0⟩ := by
  unfold embed
  simp only [hr, hb, if_neg (not_lt.2 h1.le), if_neg (not_lt.2 h2.le), Bool.false_eq_true, if_false]

theorem eam_clear (hl : Layout (isGeneral fmt) t (n * (n + 1) / 2 + 2 * n)) (hP : EamSplines fmt t xi n P) {b : Build}
    (hb : b.apot = false) (hr : b.rescale = false) {x : Cell × Conf ℝ} (hx : EamSample t n before x)
    (hd : ∀ i < x.1.sites.length, t.beg (n * (n + 1) / 2 + n + (x.1.site i).typ) < latticeDensity P x.1 i ∧
      latticeDensity P x.1 i < t.fin (n * (n + 1) / 2 + n + (x.1.site i).typ)) :
    PairClear P.toPots x.1 ∧ TransferClear P x.1 ∧ EmbedClear b P x.1 := by
  obtain ⟨-, h2, -, h4, h5⟩ := hx
  refine ⟨fun i hi m hm => ?_, fun i hi m hm => ?_, fun i hi => ?_⟩
  · have := pairColumn_lt h2 h4 hi hm.1
    exact splines_smooth hl hP.splines (by omega) (h5 i hi m hm).1
  · have := h4 m.j hm.1
    rw [hP.paircol]
    exact splines_smooth hl hP.splines (by omega) (h5 i hi m hm).2
  · have ht := h4 i hi
    obtain ⟨d1, d2⟩ := hd i hi
    rw [hP.paircol, hP.ntypes]
    have hs := splines_smooth hl hP.splines (col := n * (n + 1) / 2 + n + (x.1.site i).typ) (by omega) ⟨d1, d2.ne⟩
    rw [← hP.splines.beg] at d1
    rw [← hP.splines.fin] at d2
    rw [embed_from_table hb hr d1 d2]
    refine (hs.2 d2).congr_of_eventuallyEq ?_
    filter_upwards [Ioo_mem_nhds d1 d2] with y hy
    rw [embed_from_table hb hr hy.1 hy.2]

theorem eam_error_congr (hl : Layout (isGeneral fmt) t (n * (n + 1) / 2 + 2 * n)) (hP : EamSplines fmt t xi n P)
    (hQ : EamSplines fmt t xi n Q) {b : Build} (hb : b.apot = false) (hr : b.rescale = false) (ew sw : ℝ) {x : Cell × Conf ℝ}
    (hx : EamSample t n before x)
    (hd : ∀ i < x.1.sites.length, t.beg (n * (n + 1) / 2 + n + (x.1.site i).typ) < latticeDensity P x.1 i ∧
      latticeDensity P x.1 i < t.fin (n * (n + 1) / 2 + n + (x.1.site i).typ)) :
    crystalError b (latticeEam b P) ew sw (cellVolume x.1.box.edge) x.1 x.2 =
      crystalError b (latticeEam b Q) ew sw (cellVolume x.1.box.edge) x.1 x.2 := by
  have hdens := fun i hi => eam_density_congr hl hP hQ hx i hi
  have hx' := hx
  obtain ⟨h1, h2, h3, h4, h5⟩ := hx'
  obtain ⟨edge, scale, hrd, -, -, hbt⟩ := h1.made
  have hsym := cutoffs_good .eam false n t.fin 0 before
  have key : ∀ R : EamPots ℝ, EamSplines fmt t xi n R → (∀ i < x.1.sites.length, latticeDensity P x.1 i = latticeDensity R x.1 i) →
      (crystalError b (latticeEam b R) ew sw (cellVolume x.1.box.edge) x.1 x.2 =
        confError b (eamFullSlope b R x.2) (eamTotal b R x.2) ew sw x.2) ∧
      ∀ j a, x.2.atoms[j]? = some a → totalDensity R x.2 (x.2.start + j) = latticeDensity P x.1 j := by
    intro R hR hD
    have hd' : ∀ i < x.1.sites.length, t.beg (n * (n + 1) / 2 + n + (x.1.site i).typ) < latticeDensity R x.1 i ∧
        latticeDensity R x.1 i < t.fin (n * (n + 1) / 2 + n + (x.1.site i).typ) := by
      intro i hi
      rw [← hD i hi]
      exact hd i hi
    obtain ⟨c1, c2, c3⟩ := eam_clear hl hR hb hr hx hd'
    have r1 := reach_pair .eam (Or.inr rfl) false n R.toPots 0 before x.1 h2 h4
    have r2 := reach_transfer false n R 0 before x.1 hR.paircol h4
    rw [hR.splines.fin] at r1 r2
    refine ⟨?_, ?_⟩
    · rw [error_eam hrd hbt hsym b R (hR.paircol.trans h3.symm) r1 r2 c1 c2 c3, h1.vol]
    · intro j a ha
      have hj : j < x.1.sites.length := by rw [← hbt.count]; exact (List.getElem?_eq_some_iff.1 ha).1
      rw [hbt.start, ← lattice_density hrd hbt hsym R r2 j hj, hD j hj]
  obtain ⟨kP, dP⟩ := key P hP (fun _ _ => rfl)
  obtain ⟨kQ, dQ⟩ := key Q hQ hdens
  rw [kP, kQ]
  have hemb : ∀ j a, x.2.atoms[j]? = some a → embedAt b P x.2 j a = embedAt b Q x.2 j a := by
    intro j a ha
    have hj : j < x.1.sites.length := by rw [← hbt.count]; exact (List.getElem?_eq_some_iff.1 ha).1
    have ht := h4 j hj
    unfold embedAt
    rw [dP j a ha, dQ j a ha, hP.paircol, hQ.paircol, hP.ntypes, hQ.ntypes, hbt.typ j a ha]
    obtain ⟨g1, g2⟩ := hd j hj
    rw [embed_from_table hb hr (by rw [hP.splines.beg]; exact g1) (by rw [hP.splines.fin]; exact g2),
      embed_from_table hb hr (by rw [hQ.splines.beg]; exact g1) (by rw [hQ.splines.fin]; exact g2)]
    obtain ⟨u1, u2⟩ := C101_unique hl hP.splines hQ.splines (n * (n + 1) / 2 + n + (x.1.site j).typ) (by omega) _ g1.le g2
    rw [u1, u2]
  have hent : ∀ e ∈ entries x.2, (e.n.col0 < n * (n + 1) / 2 ∧ t.beg e.n.col0 ≤ e.n.r) ∧
      (e.n.typ < n ∧ t.beg (n * (n + 1) / 2 + e.n.typ) ≤ e.n.r) ∧ e.otyp < n ∧ t.beg (n * (n + 1) / 2 + e.otyp) ≤ e.n.r := by
    intro e he
    obtain ⟨i, m, hi, hm, -, e2, e3, e4, -⟩ := entry_image hbt he
    have hcol : e.n.col0 = pairColumn x.1 i m.j := by rw [e3]; rfl
    have ht : e.n.typ = (x.1.site m.j).typ := by rw [e3]; rfl
    have hback := (h5 m.j hm.1 _ (others_back hi hm)).2
    have hg : gapTo x.1 m.j ⟨i, fun k => -m.n k⟩ = gapTo x.1 i m := length_back x.1 i m
    rw [hg] at hback
    rw [hcol, ht, e2, e4]
    exact ⟨⟨pairColumn_lt h2 h4 hi hm.1, (h5 i hi m hm).1.1.le⟩, ⟨h4 m.j hm.1, (h5 i hi m hm).2.1.le⟩, h4 i hi, hback.1.le⟩
  have hpair : ∀ e ∈ entries x.2, pairEnergy P.toPots e = pairEnergy Q.toPots e ∧ pairSlope P.toPots e = pairSlope Q.toPots e := by
    intro e he
    obtain ⟨⟨a1, a2⟩, -⟩ := hent e he
    unfold pairEnergy pairSlope
    rw [hP.splines.fin, hQ.splines.fin]
    by_cases h : e.n.r < t.fin e.n.col0
    · obtain ⟨u1, u2⟩ := C101_unique hl hP.splines hQ.splines _ (by omega : e.n.col0 < _) _ a2 h
      rw [u1, u2]
      exact ⟨rfl, rfl⟩
    · simp only [if_neg h, and_self]
  have htr : ∀ u < n, ∀ r, t.beg (n * (n + 1) / 2 + u) ≤ r → transferSlope P u r = transferSlope Q u r := by
    intro u hu r hbeg
    unfold transferSlope
    rw [hP.splines.fin, hQ.splines.fin, hP.paircol, hQ.paircol]
    split
    · next h => exact (C101_unique hl hP.splines hQ.splines _ (by omega) _ hbeg h).2
    · rfl
  have hgrad : ∀ y, embGrad b P x.2 y = embGrad b Q x.2 y := by
    intro y
    unfold embGrad
    cases ha : x.2.atoms[y - x.2.start]? with
    | none => rfl
    | some a =>
      simp only
      rw [hemb _ a ha]
  have hen : eamTotal b P x.2 = eamTotal b Q x.2 := by
    unfold eamTotal totalPairEnergy totalEmbedding
    congr 2
    · exact List.map_congr_left fun e he => (hpair e he).1
    · apply List.map_congr_left
      intro ak hak
      obtain ⟨a, k⟩ := ak
      have := List.mem_zipIdx hak
      simp only
      rw [hemb k a (by rw [List.getElem?_eq_some_iff]; exact ⟨by omega, by simpa using this.2.2.symm⟩)]
  rw [hen]
  apply confError_congr
  intro e he
  obtain ⟨-, ⟨a1, a2⟩, a3, a4⟩ := hent e he
  unfold eamFullSlope eamSlope
  rw [(hpair e he).2, htr _ a1 _ a2, htr _ a3 _ a4, hgrad, hgrad]

/-- The constraints which the routine adds are the gauge conditions on the crystals. -/
theorem gauge_crystals (hl : Layout (isGeneral fmt) t (n * (n + 1) / 2 + 2 * n)) (hP : EamSplines fmt t xi n P) {b : Build}
    (hr : b.rescale = false) (dummy0 : ℕ → ℝ) (natoms : ℕ) {L : List (Cell × Conf ℝ)} (hL : ∀ x ∈ L, EamSample t n before x) :
    gaugeError b P dummy0 natoms (L.map Prod.snd) = crystalGauge b natoms L P := by
  have hsum : ((L.map Prod.snd).map fun c => (c.atoms.zipIdx.map fun ak => (embedAt b P c ak.2 ak.1).rho).sum).sum = densitySum L P := by
    unfold densitySum
    rw [List.map_map]
    congr 1
    apply List.map_congr_left
    intro x hx
    obtain ⟨h1, h2, h3, h4, h5⟩ := hL x hx
    obtain ⟨edge, scale, hrd, -, -, hbt⟩ := h1.made
    have hsym := cutoffs_good .eam false n t.fin 0 before
    have r2 := reach_transfer false n P 0 before x.1 hP.paircol h4
    rw [hP.splines.fin] at r2
    rw [Function.comp_apply, ← hbt.count, ← sum_zipIdx_range]
    congr 1
    apply List.map_congr_left
    intro ak hak
    have hk := (List.getElem?_eq_some_iff.1 (List.mem_zipIdx_iff_getElem?.1 hak)).1
    rw [hbt.count] at hk
    rw [lattice_density hrd hbt hsym P r2 _ hk, ← hbt.start]
    unfold embedAt embed
    simp only [hr, Bool.false_eq_true, if_false]
    split
    · split <;> rfl
    · split
      · rfl
      · split <;> rfl
  unfold gaugeError crystalGauge meanDensity
  simp only [hsum, hr, Bool.false_eq_true, if_false]

theorem gauge_congr (hl : Layout (isGeneral fmt) t (n * (n + 1) / 2 + 2 * n)) (hP : EamSplines fmt t xi n P)
    (hQ : EamSplines fmt t xi n Q) {b : Build} (hg : GaugeInside b t n) (natoms : ℕ) {L : List (Cell × Conf ℝ)}
    (hL : ∀ x ∈ L, EamSample t n before x) : crystalGauge b natoms L P = crystalGauge b natoms L Q := by
  have hsum : densitySum L P = densitySum L Q := by
    unfold densitySum
    congr 1
    apply List.map_congr_left
    intro x hx
    apply Finset.sum_congr rfl
    intro i hi
    exact eam_density_congr hl hP hQ (hL x hx) i (Finset.mem_range.1 hi)
  unfold crystalGauge
  split
  · rfl
  · next hp =>
    rw [hsum, hP.ntypes, hQ.ntypes, hP.paircol, hQ.paircol]
    congr 1
    apply Finset.sum_congr rfl
    intro g hgn
    rw [Finset.mem_range] at hgn
    obtain ⟨g1, g2⟩ := hg (by simpa using hp) g hgn
    rw [(C101_unique hl hP.splines hQ.splines _ (by omega) _ g1 g2).2]

end

/-- **One evaluation, EAM.** -/
theorem C101_eam_value {fmt : Format} (hh : Handles .eam fmt) {t : Cols ℝ} {n : ℕ}
    (hl : Layout (isGeneral fmt) t (n * (n + 1) / 2 + 2 * n)) (b : Build) (hb : b.apot = false) (hr : b.rescale = false)
    (hg : GaugeInside b t n) (ana : ℕ → ℝ → ℝ × ℝ) (ew sw w : ℝ) (dummy0 : ℕ → ℝ) (natoms : ℕ) (before : ℕ → ℝ)
    (L : List (Cell × Conf ℝ)) (hL : ∀ x ∈ L, EamSample t n before x) (xi d : ℕ → ℝ) (v : EamVec ℝ) (P : EamPots ℝ)
    (hP : EamSplines fmt t xi n P) (hd : DensitiesInside t n L P) :
    ∃ d' v', refresh .eam fmt t xi (n * (n + 1) / 2) n d = .ok d' ∧
      eamObjective b (tableEam fmt t n ana xi d') ew sw w [] [] [] dummy0 natoms (L.map Prod.snd) v =
        .ok (v', eamCrystals b ew sw natoms L P) := by
  obtain ⟨d', e1, -, e3⟩ := C100_table_eam hh hl ana xi d before
  have hQ : EamSplines fmt t xi n (tableEam fmt t n ana xi d') := by
    refine ⟨?_, rfl, rfl⟩
    have := refreshed_splines hh (pc := n * (n + 1) / 2) (nt := n) hl e1
    have hcol : takesRight .eam (n * (n + 1) / 2) n = embedding n := by
      funext col
      simp only [takesRight, embedding]
    rw [hcol] at this
    exact this
  obtain ⟨v', y, hv⟩ : ∃ v' y, eamObjective b (tableEam fmt t n ana xi d') ew sw w [] [] [] dummy0 natoms (L.map Prod.snd) v =
      .ok (v', y) := by
    unfold eamObjective
    simp only [hb, Bool.false_eq_true, if_false]
    exact ⟨_, _, rfl⟩
  have hin : ∀ x ∈ L, ∀ i < x.1.sites.length, InsideTable b t (n * (n + 1) / 2 + n + (x.1.site i).typ)
      (latticeDensity (tableEam fmt t n ana xi d') x.1 i) := by
    intro x hx i hi
    rw [← eam_density_congr hl hP hQ (hL x hx) i hi]
    exact ⟨(hd x hx i hi).1, (hd x hx i hi).2, fun _ h => by rw [hb] at h; cases h⟩
  have hy := e3 b ew sw w [] [] [] dummy0 natoms L (fun x hx => ⟨(hL x hx).1, (hL x hx).2.1, (hL x hx).2.2.1, (hL x hx).2.2.2.1,
    (hL x hx).2.2.2.2, hin x hx⟩) v v' y hv
  refine ⟨d', v', e1, hv.trans ?_⟩
  rw [hy]
  congr 2
  unfold eamCrystals
  rw [gauge_crystals hl hQ hr dummy0 natoms hL, gauge_congr hl hP hQ hg natoms hL]
  simp only [hb, Bool.false_eq_true, if_false, add_zero]
  congr 2
  apply List.map_congr_left
  intro x hx
  rw [eam_error_congr hl hP hQ hb hr ew sw (hL x hx) (hd x hx)]
  unfold limitError
  simp only [hr, Bool.false_eq_true, if_false, add_zero]

/-- `y` is what the EAM routine returns for the values `xi`, whatever the content of its memory. -/
def IsEamValue (fmt : Format) (t : Cols ℝ) (n : ℕ) (b : Build) (ana : ℕ → ℝ → ℝ × ℝ) (ew sw w : ℝ) (dummy0 : ℕ → ℝ) (natoms : ℕ)
    (confs : List (Conf ℝ)) (xi : ℕ → ℝ) (y : ℝ) : Prop :=
  ∀ d d' v v' z, refresh .eam fmt t xi (n * (n + 1) / 2) n d = .ok d' →
    eamObjective b (tableEam fmt t n ana xi d') ew sw w [] [] [] dummy0 natoms confs v = .ok (v', z) → y = z

/-- **The fit, EAM without rescaling.** The densities have to be inside the tables at the beginning and at the end. -/
theorem C101_eam_fit [NeZero N] {fmt : Format} (hh : Handles .eam fmt) {t : Cols ℝ} {n : ℕ}
    (hl : Layout (isGeneral fmt) t (n * (n + 1) / 2 + 2 * n)) (b : Build) (hb : b.apot = false) (hre : b.rescale = false)
    (hg : GaugeInside b t n) (ana : ℕ → ℝ → ℝ × ℝ) (ew sw w : ℝ) (dummy0 : ℕ → ℝ) (natoms : ℕ) (before : ℕ → ℝ)
    (L : List (Cell × Conf ℝ)) (hL : ∀ x ∈ L, EamSample t n before x)
    (A : Annealing.Env ℝ ℕ σ N') (ha : A.apot = false) (E : Powell.Env ℝ ℕ N M) (hE : ∀ xi, (E.obj xi).1 = A.obj xi) (hr : E.rescale = none)
    (pick : σ → σ × Fin N') (T : Annealing.Temp ℝ) (rng : σ) (xi : ℕ → ℝ) (r : Annealing.Res ℝ ℕ) (h1 : A.run pick T rng xi = some r)
    (fuel : ℕ) (s : Powell.St ℝ ℕ N M) (h2 : E.run fuel r.xi = .ok s)
    (hA : IsEamValue fmt t n b ana ew sw w dummy0 natoms (L.map Prod.snd) xi (A.obj xi))
    (hA' : IsEamValue fmt t n b ana ew sw w dummy0 natoms (L.map Prod.snd) s.xi (A.obj s.xi)) (P Q : EamPots ℝ)
    (hP : EamSplines fmt t xi n P) (hPd : DensitiesInside t n L P) (hQ : EamSplines fmt t s.xi n Q) (hQd : DensitiesInside t n L Q) :
    s.f = eamCrystals b ew sw natoms L Q ∧ eamCrystals b ew sw natoms L Q ≤ eamCrystals b ew sw natoms L P := by
  obtain ⟨a1, a2, -⟩ := C29_best A (by intro h; rw [ha] at h; cases h) pick T rng xi r h1
  obtain ⟨p1, -, p3⟩ := C28_monotone E fuel r.xi s (by intro f hf; rw [hr] at hf; cases hf) h2
  have key : ∀ (ξ : ℕ → ℝ) (R : EamPots ℝ), IsEamValue fmt t n b ana ew sw w dummy0 natoms (L.map Prod.snd) ξ (A.obj ξ) →
      EamSplines fmt t ξ n R → DensitiesInside t n L R → A.obj ξ = eamCrystals b ew sw natoms L R := by
    intro ξ R hv hR hRd
    obtain ⟨d', v', e1, e2⟩ := C101_eam_value hh hl b hb hre hg ana ew sw w dummy0 natoms before L hL ξ (fun _ => 0)
      ⟨⟨⟨0, 0, 0, 0⟩, 0, 0⟩, 0, 0, 0⟩ R hR hRd
    exact hv _ d' _ v' _ e1 e2
  rw [hE] at p1 p3
  rw [hE] at p3
  rw [← key _ _ hA hP hPd, ← key _ _ hA' hQ hQd]
  exact ⟨p1, p3.trans (a1 ▸ a2)⟩

/-! ### Value zero -/

theorem sum_zero_of_nonneg {l : List ℝ} (h : ∀ x ∈ l, 0 ≤ x) (hs : l.sum = 0) : ∀ x ∈ l, x = 0 := by
  induction l with
  | nil => simp
  | cons a l ih =>
    rw [List.sum_cons] at hs
    have h1 := h a (by simp)
    have h2 : 0 ≤ l.sum := List.sum_nonneg fun x hx => h x (List.mem_cons_of_mem _ hx)
    intro x hx
    rcases List.mem_cons.1 hx with rfl | hx
    · linarith
    · exact ih (fun x hx => h x (List.mem_cons_of_mem _ hx)) (by linarith) x hx

/-- The reference data are reproduced: energy per atom, forces on contributing atoms, stresses. -/
def Reproduces (b : Build) (E : Cell → ℝ) (c : Cell) (f : Conf ℝ) : Prop :=
  E c / (c.sites.length : ℝ) = f.energy0 ∧
  (f.uf = true → ∀ j a, f.atoms[j]? = some a → (b.contrib = true → a.contrib = true) → crystalForce E c j = f.force0 (c.start + j)) ∧
  (b.stress = true → f.uf = true → f.us = true → ∀ k, crystalVirial E c k / cellVolume c.box.edge = f.stress0 k)

theorem crystalError_nonneg (b : Build) (E : Cell → ℝ) {ew sw : ℝ} (hew : 0 ≤ ew) (hsw : 0 ≤ sw) (c : Cell) (f : Conf ℝ)
    (hw : 0 ≤ f.weight) : 0 ≤ crystalError b E ew sw (cellVolume c.box.edge) c f := by
  unfold crystalError
  refine add_nonneg (add_nonneg ?_ (mul_nonneg (mul_nonneg hw hew) (sq_nonneg _))) ?_
  · split
    · refine mul_nonneg hw (List.sum_nonneg ?_)
      intro y hy
      obtain ⟨aj, -, rfl⟩ := List.mem_map.1 hy
      split
      · exact le_rfl
      · exact Finset.sum_nonneg fun _ _ => sq_nonneg _
    · exact le_rfl
  · split
    · exact mul_nonneg (mul_nonneg hw hsw) (Finset.sum_nonneg fun _ _ => sq_nonneg _)
    · exact le_rfl

theorem crystalError_zero (b : Build) (E : Cell → ℝ) {ew sw : ℝ} (hew : 0 < ew) (hsw : 0 < sw) (c : Cell) (f : Conf ℝ)
    (hw : 0 < f.weight) (hs : ∀ a ∈ f.atoms, forceScale b a ≠ 0)
    (h : crystalError b E ew sw (cellVolume c.box.edge) c f = 0) : Reproduces b E c f := by
  unfold crystalError at h
  set A : ℝ := (if f.uf = true then f.weight * (f.atoms.zipIdx.map fun aj =>
    if b.contrib = true ∧ aj.1.contrib = false then 0
    else ∑ k : Fin 3, ((crystalForce E c aj.2 k - f.force0 (c.start + aj.2) k) / forceScale b aj.1) ^ 2).sum else 0) with hA
  set S : ℝ := (if b.stress = true ∧ f.uf = true ∧ f.us = true then
    f.weight * sw * ∑ k : Fin 6, (crystalVirial E c k / (cellVolume c.box.edge) - f.stress0 k) ^ 2 else 0) with hS
  have hterm : ∀ y ∈ (f.atoms.zipIdx.map fun aj =>
      if b.contrib = true ∧ aj.1.contrib = false then (0 : ℝ)
      else ∑ k : Fin 3, ((crystalForce E c aj.2 k - f.force0 (c.start + aj.2) k) / forceScale b aj.1) ^ 2), 0 ≤ y := by
    intro y hy
    obtain ⟨aj, -, rfl⟩ := List.mem_map.1 hy
    split
    · exact le_rfl
    · exact Finset.sum_nonneg fun _ _ => sq_nonneg _
  have hA0 : 0 ≤ A := by
    rw [hA]
    split
    · exact mul_nonneg hw.le (List.sum_nonneg hterm)
    · exact le_rfl
  have hS0 : 0 ≤ S := by
    rw [hS]
    split
    · exact mul_nonneg (mul_nonneg hw.le hsw.le) (Finset.sum_nonneg fun _ _ => sq_nonneg _)
    · exact le_rfl
  have hE0 : 0 ≤ f.weight * ew * (E c / (c.sites.length : ℝ) - f.energy0) ^ 2 :=
    mul_nonneg (mul_nonneg hw.le hew.le) (sq_nonneg _)
  refine ⟨?_, ?_, ?_⟩
  · have : f.weight * ew * (E c / (c.sites.length : ℝ) - f.energy0) ^ 2 = 0 := by linarith
    have := (mul_eq_zero.1 this).resolve_left (mul_pos hw hew).ne'
    exact sub_eq_zero.1 (pow_eq_zero_iff two_ne_zero |>.1 this)
  · intro hu j a ha hcon
    have hz : A = 0 := by linarith
    rw [hA, if_pos hu] at hz
    have hz := sum_zero_of_nonneg hterm ((mul_eq_zero.1 hz).resolve_left hw.ne')
    have hy := hz _ (List.mem_map.2 ⟨(a, j), List.mem_zipIdx_iff_getElem?.2 ha, rfl⟩)
    rw [if_neg (by rintro ⟨h1, h2⟩; rw [hcon h1] at h2; cases h2)] at hy
    have hy := (Finset.sum_eq_zero_iff_of_nonneg fun _ _ => sq_nonneg _).1 hy
    funext k
    have hk := pow_eq_zero_iff two_ne_zero |>.1 (hy k (Finset.mem_univ _))
    have := (div_eq_zero_iff.1 hk).resolve_right (hs a (List.mem_of_getElem? ha))
    exact sub_eq_zero.1 this
  · intro h1 h2 h3 k
    have hz : S = 0 := by linarith
    rw [hS, if_pos ⟨h1, h2, h3⟩] at hz
    have hz := (mul_eq_zero.1 hz).resolve_left (mul_pos hw hsw).ne'
    have hz := (Finset.sum_eq_zero_iff_of_nonneg fun _ _ => sq_nonneg _).1 hz
    exact sub_eq_zero.1 (pow_eq_zero_iff two_ne_zero |>.1 (hz k (Finset.mem_univ _)))

/-- **Value zero.** If all weights are positive and the pair routine returns zero, then the splines of the table reproduce the
reference data of all crystals exactly. -/
theorem C101_exact {fmt : Format} (hh : Handles .pair fmt) {t : Cols ℝ} {n : ℕ} (hl : Layout (isGeneral fmt) t (n * (n + 1) / 2))
    (b : Build) (hb : b.apot = false) (ew sw w : ℝ) (hew : 0 < ew) (hsw : 0 < sw) (before : ℕ → ℝ) (L : List (Cell × Conf ℝ))
    (hL : ∀ x ∈ L, PairSample t n before x) (hw : ∀ x ∈ L, 0 < x.2.weight ∧ ∀ a ∈ x.2.atoms, forceScale b a ≠ 0)
    (xi d d' : ℕ → ℝ) (v v' : PairVec ℝ) (P : Pots ℝ) (hP : SplinesOf fmt t xi (n * (n + 1) / 2) (fun _ => false) P)
    (h1 : refresh .pair fmt t xi (n * (n + 1) / 2) n d = .ok d')
    (h2 : pairObjective b (tablePots fmt t xi d') ew sw w [] [] [] (L.map Prod.snd) v = .ok (v', 0)) (x : Cell × Conf ℝ) (hx : x ∈ L) :
    Reproduces b (fun y => x.2.chem + latticePair P y) x.1 x.2 := by
  obtain ⟨d'', v'', e1, e2⟩ := C101_value hh hl b hb ew sw w before L hL xi d v P hP
  obtain rfl : d'' = d' := Except.ok.inj (e1.symm.trans h1)
  rw [h2] at e2
  have h0 : pairCrystals b ew sw L P = 0 := (Prod.mk.inj (Except.ok.inj e2)).2.symm
  refine crystalError_zero b _ hew hsw x.1 x.2 (hw x hx).1 (hw x hx).2 ?_
  refine sum_zero_of_nonneg ?_ h0 _ (List.mem_map.2 ⟨x, hx, rfl⟩)
  intro y hy
  obtain ⟨z, hz, rfl⟩ := List.mem_map.1 hy
  exact crystalError_nonneg b _ hew.le hsw.le z.1 z.2 (hw z hz).1.le

/-! ### Examples -/

theorem thin_sample : ∃ f, PairSample halfCols 1 (fun _ => 0) (thin, f) := by
  obtain ⟨f, hf⟩ := thin_prepared .pair fun _ => 0
  refine ⟨f, hf, rfl, ?_, fun i hi m hm => thin_off i hi m hm _⟩
  intro i hi
  obtain rfl : i = 0 := by have : i < 1 := hi; omega
  exact one_pos

/-- An annealing environment whose moves add random numbers to the value with number 3. -/
noncomputable def driftAnneal (obj : (ℕ → ℝ) → ℝ) : Annealing.Env ℝ ℕ ℕ 1 where
  obj := obj
  idx _ := 3
  move s _ xi v := (s + 1, Function.update xi 3 (xi 3 + s), v)
  apot := false
  draw s := (s + 1, 1 / 2)
  exp x := x
  log x := x
  flag _ := false

/-- A least-squares environment in which the linear system cannot be solved. -/
noncomputable def stuckPowell (obj : (ℕ → ℝ) → ℝ) : Powell.Env ℝ ℕ 1 1 where
  obj x := (obj x, fun _ => obj x)
  idx _ := 3
  bounds := none
  maxch _ := none
  solve _ _ _ := ⟨1, fun _ => 0, 0, 0⟩
  sqrt _ := 1
  flag _ := true
  dEps := 0
  rescale := none
  junk _ := 0

theorem stuckPowell_run (obj : (ℕ → ℝ) → ℝ) (xi : ℕ → ℝ) : ∃ s, (stuckPowell obj).run 1 xi = .ok s ∧ s.xi = xi := by
  unfold Powell.Env.run
  split
  · exact ⟨_, rfl, rfl⟩
  · have h : (Powell.eps : ℝ) * (stuckPowell obj).scale 0 ≠ 0 := by norm_num [Powell.eps, Powell.Env.scale, stuckPowell]
    have hv : (stuckPowell obj).norm ((stuckPowell obj).column xi (fun _ => obj xi) 0) > Powell.verySmall := by
      norm_num [Powell.Env.norm, Powell.verySmall, stuckPowell]
    have hg : ∃ g, (stuckPowell obj).gammaInit (fun _ _ => 0) xi (fun _ => obj xi) = .ok (g, none) := by
      unfold Powell.Env.gammaInit
      rw [show List.finRange 1 = [0] from rfl]
      unfold Powell.Env.gammaLoop
      rw [if_neg h]
      simp only
      rw [if_pos hv]
      exact ⟨_, rfl⟩
    obtain ⟨g, hg⟩ := hg
    have hx := gammaLoop_xi _ _ _ _ _ _ hg
    have hp : (stuckPowell obj).prepare ((stuckPowell obj).first xi) = .ok (((stuckPowell obj).first xi).put g, true) := by
      unfold Powell.Env.prepare
      have : (stuckPowell obj).gammaInit ((stuckPowell obj).first xi).gamma ((stuckPowell obj).first xi).xi
        ((stuckPowell obj).first xi).f2 = .ok (g, none) := hg
      rw [this]
    unfold Powell.Env.outer
    rw [hp]
    simp only
    unfold Powell.Env.inner
    simp only
    rw [if_pos (by simp [stuckPowell])]
    simp only
    rw [if_pos (show (stuckPowell obj).flag (0 + 1) = true from rfl)]
    exact ⟨_, rfl, hx⟩

/-- Hypotheses of `C101_value`, `C101_fit`, `C101_unique`: a chain of atoms, a table with three knots. -/
example (b : Build) (hb : b.apot = false) (xi : ℕ → ℝ) : ∃ f obj r s P Q, PairSample halfCols 1 (fun _ => 0) (thin, f) ∧
    IsPairObjective .eqDist halfCols 1 b 1 1 1 [f] obj ∧ (driftAnneal obj).run (fun s => (s + 1, 0)) (.given 1) 0 xi = some r ∧
    (stuckPowell obj).run 1 r.xi = .ok s ∧ SplinesOf .eqDist halfCols xi (1 * (1 + 1) / 2) (fun _ => false) P ∧
    SplinesOf .eqDist halfCols s.xi (1 * (1 + 1) / 2) (fun _ => false) Q := by
  obtain ⟨f, hf⟩ := thin_sample
  obtain ⟨obj, ho⟩ := C101_exists (fmt := .eqDist) (t := halfCols) (n := 1) trivial (halfCols_layout _) b hb 1 1 1 (fun _ => 0) [(thin, f)]
    (by intro x hx; obtain rfl := List.mem_singleton.1 hx; exact hf)
  obtain ⟨r, hr⟩ : ∃ r, (driftAnneal obj).run (fun s => (s + 1, 0)) (.given 1) 0 xi = some r := by
    unfold Annealing.Env.run Annealing.Env.temperature
    simp only
    rw [if_neg (by norm_num)]
    simp only
    rw [if_neg one_ne_zero]
    exact ⟨_, rfl⟩
  obtain ⟨s, hs, -⟩ := stuckPowell_run obj r.xi
  obtain ⟨d, hd, -⟩ := C99_fresh (rt := .pair) (fmt := .eqDist) trivial (pc := 1 * (1 + 1) / 2) (nt := 1) (halfCols_layout _) xi fun _ => 0
  obtain ⟨d', hd', -⟩ := C99_fresh (rt := .pair) (fmt := .eqDist) trivial (pc := 1 * (1 + 1) / 2) (nt := 1) (halfCols_layout _) s.xi fun _ => 0
  exact ⟨f, obj, r, s, _, _, hf, ho, hr, hs, refreshed_splines (rt := .pair) (fmt := .eqDist) trivial (halfCols_layout _) hd,
    refreshed_splines (rt := .pair) (fmt := .eqDist) trivial (halfCols_layout _) hd'⟩

/-- The density of the chain, for any potentials with splines of the table. -/
example (b : Build) (hb : b.apot = false) (hr : b.rescale = false) (ana : ℕ → ℝ → ℝ × ℝ) : ∃ f y r s P,
    EamSample halfCols 1 (fun _ => 0) (thin, f) ∧ GaugeInside b halfCols 1 ∧
    IsEamValue .eqDist halfCols 1 b ana 1 1 1 (fun _ => 0) 1 [f] (fun _ => 1 / 2) y ∧
    (driftAnneal fun _ => y).run (fun s => (s + 1, 0)) (.given 0) 0 (fun _ => 1 / 2) = some r ∧ (stuckPowell fun _ => y).run 1 r.xi = .ok s ∧
    s.xi = (fun _ => 1 / 2) ∧ EamSplines .eqDist halfCols (fun _ => 1 / 2) 1 P ∧ DensitiesInside halfCols 1 [(thin, f)] P := by
  obtain ⟨f, hf⟩ := thin_prepared .eam fun _ => 0
  have hsample : EamSample halfCols 1 (fun _ => 0) (thin, f) := by
    refine ⟨hf, rfl, rfl, ?_, fun i hi m hm => ⟨thin_off i hi m hm _, thin_off i hi m hm _⟩⟩
    intro i hi
    obtain rfl : i = 0 := by have : i < 1 := hi; omega
    exact one_pos
  have hgauge : GaugeInside b halfCols 1 := by
    intro _ g _
    constructor <;> norm_num [halfCols]
  obtain ⟨d', e1, e2, -⟩ := C100_table_eam (fmt := .eqDist) (n := 1) trivial (halfCols_layout _) ana (fun _ => 1 / 2) (fun _ => 0) fun _ => 0
  have hP : EamSplines .eqDist halfCols (fun _ => 1 / 2) 1 (tableEam .eqDist halfCols 1 ana (fun _ => 1 / 2) d') := by
    refine ⟨?_, rfl, rfl⟩
    have := refreshed_splines (rt := .eam) (fmt := .eqDist) trivial (pc := 1 * (1 + 1) / 2) (nt := 1) (halfCols_layout _) e1
    exact this
  have hD : DensitiesInside halfCols 1 [(thin, f)] (tableEam .eqDist halfCols 1 ana (fun _ => 1 / 2) d') := by
    intro x hx i hi
    obtain rfl := List.mem_singleton.1 hx
    obtain rfl : i = 0 := by have : i < 1 := hi; omega
    rw [thin_density ana d' (e2 1 (by norm_num))]
    constructor <;> norm_num [halfCols]
  have hval : IsEamValue .eqDist halfCols 1 b ana 1 1 1 (fun _ => 0) 1 [f] (fun _ => 1 / 2)
      (eamCrystals b 1 1 1 [(thin, f)] (tableEam .eqDist halfCols 1 ana (fun _ => 1 / 2) d')) := by
    intro d d'' v v' z h1 h2
    obtain ⟨d3, v3, g1, g2⟩ := C101_eam_value (fmt := .eqDist) trivial (halfCols_layout _) b hb hr hgauge ana 1 1 1 (fun _ => 0) 1 (fun _ => 0)
      [(thin, f)] (by intro x hx; obtain rfl := List.mem_singleton.1 hx; exact hsample) (fun _ => 1 / 2) d v _ hP hD
    obtain rfl : d3 = d'' := Except.ok.inj (g1.symm.trans h1)
    simp only [List.map_cons, List.map_nil] at g2
    rw [h2] at g2
    exact (Prod.mk.inj (Except.ok.inj g2)).2.symm
  obtain ⟨s, hs, hx⟩ := stuckPowell_run (fun _ => eamCrystals b 1 1 1 [(thin, f)] (tableEam .eqDist halfCols 1 ana (fun _ => 1 / 2) d'))
    (fun _ => 1 / 2)
  refine ⟨f, _, ⟨fun _ => 1 / 2, (eamCrystals b 1 1 1 [(thin, f)] (tableEam .eqDist halfCols 1 ana (fun _ => 1 / 2) d')), [], []⟩, s, _, hsample, hgauge, hval, ?_, hs, hx, hP, hD⟩
  unfold Annealing.Env.run Annealing.Env.temperature
  simp only
  rw [if_neg (by norm_num)]
  simp only
  rw [if_pos trivial]
  rfl

/-- Reference data made from the table itself give the value zero: hypotheses of `C101_exact`. -/
example (b : Build) (hb : b.apot = false) (hfw : b.fweight = false) (xi : ℕ → ℝ) : ∃ f d d' v' P,
    PairSample halfCols 1 (fun _ => 0) (thin, f) ∧ (0 < f.weight ∧ ∀ a ∈ f.atoms, forceScale b a ≠ 0) ∧ f.uf = true ∧ f.us = true ∧
    SplinesOf .eqDist halfCols xi (1 * (1 + 1) / 2) (fun _ => false) P ∧
    refresh .pair .eqDist halfCols xi (1 * (1 + 1) / 2) 1 d = .ok d' ∧
    pairObjective b (tablePots .eqDist halfCols xi d') 1 1 1 [] [] [] [f] ⟨⟨0, 0, 0, 0⟩, 0, 0⟩ = .ok (v', 0) := by
  obtain ⟨g, hg, hn, ht, ho⟩ := thin_sample
  obtain ⟨d, hd, -⟩ := C99_fresh (rt := .pair) (fmt := .eqDist) trivial (pc := 1 * (1 + 1) / 2) (nt := 1) (halfCols_layout _) xi fun _ => 0
  have hP := refreshed_splines (rt := .pair) (fmt := .eqDist) trivial (halfCols_layout _) hd
  set P := tablePots .eqDist halfCols xi d with hPd
  let E : Cell → ℝ := fun y => g.chem + latticePair P y
  let f : Conf ℝ := { g with
    uf := true
    us := true
    weight := 1
    energy0 := E thin / (thin.sites.length : ℝ)
    force0 := fun i => crystalForce E thin (i - thin.start)
    stress0 := fun k => crystalVirial E thin k / cellVolume thin.box.edge }
  have hf : PairSample halfCols 1 (fun _ => 0) (thin, f) := by
    refine ⟨⟨?_⟩, hn, ht, ho⟩
    obtain ⟨edge, scale, h1, h2, h3, h4⟩ := hg.made
    exact ⟨edge, scale, h1, h2, h3, h4.start, h4.count, h4.typ, h4.lists⟩
  obtain ⟨d', v', e1, e2⟩ := C101_value (fmt := .eqDist) trivial (halfCols_layout _) b hb 1 1 1 (fun _ => 0) [(thin, f)]
    (by intro x hx; obtain rfl := List.mem_singleton.1 hx; exact hf) xi (fun _ => 0) ⟨⟨0, 0, 0, 0⟩, 0, 0⟩ P hP
  have hz : pairCrystals b 1 1 [(thin, f)] P = 0 := by
    unfold pairCrystals crystalError
    have hE : (fun y => (thin, f).2.chem + latticePair P y) = E := rfl
    simp only [List.map_cons, List.map_nil, List.sum_cons, List.sum_nil, hE]
    simp [f]
    exact sub_self _
  rw [hz] at e2
  exact ⟨f, _, d', v', P, hf, ⟨one_pos, by intro a _; unfold forceScale; rw [hfw]; norm_num⟩, rfl, rfl, hP, e1, e2⟩

end Verif.Props
