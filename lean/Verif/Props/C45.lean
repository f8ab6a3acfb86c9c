/-
C45  Gauge transformations of EAM potentials.
-/
import Verif.Model.Rescale
import Verif.Model.Splines
import Verif.Lemmas.ForceEam
import Verif.Props.C01
import Verif.Props.C05
import Mathlib.Tactic.Ring
import Mathlib.Tactic.FieldSimp
import Mathlib.Tactic.Linarith
import Mathlib.Tactic.LinearCombination
import Mathlib.Algebra.Order.Ring.Rat
import Mathlib.Data.Rat.Floor

set_option linter.unusedSectionVars false

namespace Verif.Props

open Verif.Force Verif.Spec Verif.PairIndex
open Verif.Rescale (Tab Pot Interp Choice Range)

variable {K : Type*} [Field K] [LinearOrder K] [IsStrictOrderedRing K]

/-! ### Specification -/

/-- Value of the pair function for an entry, 0 beyond the cutoff. -/
def pairValue (P : EamPots K) (e : Entry K) : K := if e.n.r < P.fin e.n.col0 then P.val e.n.col0 e.n.r else 0

/-- The neighbours' types are those of the atoms. -/
def TypesOk (c : Conf K) : Prop := ∀ e ∈ entries c, ∃ k a, e.n.nr = c.start + k ∧ c.atoms[k]? = some a ∧ a.typ = e.n.typ

/-- `P'` is `P` with all densities scaled by `a`, the embedding functions written in the scaled density, and the term `lam t` times density
moved from the embedding function of type `t` to the pair functions; as far as the configuration `c` is concerned. -/
structure GaugeOf (b : Build) (P P' : EamPots K) (a : K) (lam : Nat → K) (c : Conf K) : Prop where
  rho : ∀ e ∈ entries c, transfer P' e.n.typ e.n.r = a * transfer P e.n.typ e.n.r ∧
    transfer P' e.otyp e.n.r = a * transfer P e.otyp e.n.r
  pair : ∀ e ∈ entries c, pairValue P' e = pairValue P e + lam e.otyp * transfer P' e.n.typ e.n.r + lam e.n.typ * transfer P' e.otyp e.n.r
  emb : ∀ k at_, c.atoms[k]? = some at_ →
    (embed b P' (P'.paircol + P'.ntypes + at_.typ) (a * totalDensity P c (c.start + k))).value =
      (embed b P (P.paircol + P.ntypes + at_.typ) (totalDensity P c (c.start + k))).value
        - lam at_.typ * (a * totalDensity P c (c.start + k))

/-! ### Sums over atoms and entries -/

theorem sum_swap {α β : Type*} (l : List α) (es : List β) (f : α → K) (g : α → β → K) :
    (l.map fun x => f x * (es.map (g x)).sum).sum = (es.map fun e => (l.map fun x => f x * g x e).sum).sum := by
  induction es with
  | nil => simp
  | cons e es ih =>
    simp only [List.map_cons, List.sum_cons, mul_add]
    rw [← ih, ← List.sum_map_add]

theorem sum_pick (l : List (Atom K)) (s : Nat) (f : Atom K → K) (m : Nat) (at_ : Atom K) (h : l[m]? = some at_) (v : K) :
    ((l.zipIdx s).map fun ak => f ak.1 * (if ak.2 = s + m then v else 0)).sum = f at_ * v := by
  induction l generalizing s m with
  | nil => simp at h
  | cons x l ih =>
    rw [List.zipIdx_cons, List.map_cons, List.sum_cons]
    cases m with
    | zero =>
      simp only [List.getElem?_cons_zero, Option.some.injEq] at h
      subst h
      rw [List.sum_eq_zero]
      · simp
      · intro y hy
        obtain ⟨ak, hak, rfl⟩ := List.mem_map.1 hy
        have := List.le_snd_of_mem_zipIdx hak
        rw [if_neg (by omega), mul_zero]
    | succ m =>
      simp only [List.getElem?_cons_succ] at h
      rw [if_neg (by omega), mul_zero, zero_add, show s + (m + 1) = s + 1 + m by omega]
      exact ih (s + 1) m h

theorem entriesFrom_own (i : Nat) (as : List (Atom K)) (e : Entry K) (he : e ∈ entriesFrom i as) :
    ∃ k a, e.own = i + k ∧ as[k]? = some a ∧ a.typ = e.otyp := by
  induction as generalizing i with
  | nil => simp [entriesFrom] at he
  | cons a as ih =>
    rw [entriesFrom, List.mem_append] at he
    rcases he with he | he
    · obtain ⟨n, -, rfl⟩ := List.mem_map.1 he
      exact ⟨0, a, rfl, rfl, rfl⟩
    · obtain ⟨k, a', h1, h2, h3⟩ := ih (i + 1) he
      exact ⟨k + 1, a', by omega, by simpa using h2, h3⟩

/-- The linear terms of all atoms are those of all entries. -/
theorem sum_linear (P : EamPots K) (c : Conf K) (ht : TypesOk c) (lam : Nat → K) :
    (c.atoms.zipIdx.map fun ak => lam ak.1.typ * totalDensity P c (c.start + ak.2)).sum =
      ((entries c).map fun e => lam e.otyp * transfer P e.n.typ e.n.r +
        (if e.n.nr ≠ e.own then lam e.n.typ * transfer P e.otyp e.n.r else 0)).sum := by
  unfold totalDensity
  rw [sum_swap (c.atoms.zipIdx) (entries c) (fun ak => lam ak.1.typ) (fun ak e => densityOn P e (c.start + ak.2))]
  refine congrArg List.sum (List.map_congr_left fun e he => ?_)
  obtain ⟨k, a1, h1, h2, h3⟩ := entriesFrom_own c.start c.atoms e he
  obtain ⟨m, a2, g1, g2, g3⟩ := ht e he
  have hsplit : (c.atoms.zipIdx.map fun ak => lam ak.1.typ * densityOn P e (c.start + ak.2)).sum =
      (c.atoms.zipIdx.map fun ak => lam ak.1.typ * (if ak.2 = 0 + k then transfer P e.n.typ e.n.r else 0)).sum +
      (c.atoms.zipIdx.map fun ak => lam ak.1.typ *
        (if ak.2 = 0 + m then (if e.n.nr ≠ e.own then transfer P e.otyp e.n.r else 0) else 0)).sum := by
    rw [← List.sum_map_add]
    refine congrArg List.sum (List.map_congr_left fun ak _ => ?_)
    rw [← mul_add]
    congr 1
    unfold densityOn
    congr 1
    · congr 1
      exact propext (by omega)
    · by_cases hne : e.n.nr ≠ e.own
      · rw [if_pos hne]
        congr 1
        exact propext ⟨fun h => by omega, fun h => ⟨by omega, hne⟩⟩
      · rw [if_neg hne, if_neg fun h => hne h.2, ite_self]
  rw [hsplit, sum_pick _ _ (fun a => lam a.typ) k a1 h2, sum_pick _ _ (fun a => lam a.typ) m a2 g2, h3, g3]
  congr 1
  split <;> simp

/-! ### Energy -/

/-- **C45, energy.** The energy the force routine reports is the same for a potential and every gauge transform of it, for every
configuration. -/
theorem C45_energy (b : Build) (P P' : EamPots K) (ew sw : K) (ci : Nat) (c : Conf K) (s s' : EamState K) (hh : HalfList c)
    (hc : EamColumns P c) (hc' : EamColumns P' c) (ht : TypesOk c) (a : K) (lam : Nat → K) (hg : GaugeOf b P P' a lam c) :
    (eamConf b P' ew sw ci c s').1.fv.energy ci = (eamConf b P ew sw ci c s).1.fv.energy ci := by
  obtain ⟨-, -, -, -, h1, -⟩ := eamConf_spec b P ew sw ci c hh hc s
  obtain ⟨-, -, -, -, h2, -⟩ := eamConf_spec b P' ew sw ci c hh hc' s'
  rw [h1, h2, Function.update_self, Function.update_self]
  suffices h : totalPairEnergy P'.toPots c + totalEmbedding b P' c = totalPairEnergy P.toPots c + totalEmbedding b P c by rw [h]
  have hd : ∀ x, totalDensity P' c x = a * totalDensity P c x := by
    intro x
    unfold totalDensity
    rw [← List.sum_map_mul_left]
    refine congrArg List.sum (List.map_congr_left fun e he => ?_)
    obtain ⟨r1, r2⟩ := hg.rho e he
    unfold densityOn
    rw [r1, r2]
    split <;> split <;> ring
  have hp : totalPairEnergy P'.toPots c = totalPairEnergy P.toPots c +
      ((entries c).map fun e => lam e.otyp * transfer P' e.n.typ e.n.r +
        (if e.n.nr ≠ e.own then lam e.n.typ * transfer P' e.otyp e.n.r else 0)).sum := by
    unfold totalPairEnergy
    rw [← List.sum_map_add]
    refine congrArg List.sum (List.map_congr_left fun e he => ?_)
    have h3 := hg.pair e he
    have e1 : ∀ Q : EamPots K, pairEnergy Q.toPots e = if e.n.nr = e.own then pairValue Q e / 2 else pairValue Q e := by
      intro Q
      unfold pairEnergy pairValue
      split
      · rfl
      · simp
    rw [e1, e1, h3]
    by_cases hne : e.n.nr = e.own
    · have := (hc' e he).2 hne
      rw [if_pos hne, if_pos hne, if_neg (by simpa using hne), this]
      ring
    · rw [if_neg hne, if_neg hne, if_pos hne]
      ring
  have hE : totalEmbedding b P' c = totalEmbedding b P c -
      (c.atoms.zipIdx.map fun ak => lam ak.1.typ * totalDensity P' c (c.start + ak.2)).sum := by
    unfold totalEmbedding
    rw [eq_sub_iff_add_eq, ← List.sum_map_add]
    refine congrArg List.sum (List.map_congr_left fun ak hak => ?_)
    have h3 := List.mem_zipIdx hak
    have h4 : c.atoms[ak.2]? = some ak.1 := by
      have := List.mem_zipIdx_iff_getElem?.1 hak
      simpa using this
    have := hg.emb ak.2 ak.1 h4
    unfold embedAt
    rw [hd, this]
    ring
  rw [hp, hE, sum_linear P' c ht lam]
  ring

/-! ### What `rescale` does to the tables -/

theorem eachType_spec (nt : Nat) (f : Nat → Except Fault (Tab K)) (old new : Nat → Tab K)
    (h : Verif.Rescale.eachType nt f old = .ok new) : ∀ i < nt, f i = .ok (new i) := by
  unfold Verif.Rescale.eachType at h
  induction nt generalizing new with
  | zero => intro i hi; omega
  | succ nt ih =>
    rw [List.range_succ, List.foldlM_append] at h
    cases hg : (List.range nt).foldlM (fun g i => do let T ← f i; pure (Function.update g i T)) old with
    | error e =>
      rw [hg] at h
      simp [bind, Except.bind] at h
    | ok g =>
      rw [hg] at h
      cases hf : f nt with
      | error e => simp [bind, Except.bind, hf] at h
      | ok T =>
        simp only [bind, Except.bind, List.foldlM_cons, List.foldlM_nil, pure, Except.pure, hf, Except.ok.injEq] at h
        subst h
        intro i hi
        by_cases hin : i = nt
        · subst hin
          rw [hf, Function.update_self]
        · rw [Function.update_of_ne hin]
          exact ih g hg i (by omega)

/-- The new embedding function before the gauge term is taken away: coordinates and values. -/
theorem emb_nodes (I : Interp K) (T T' : Tab K) (pos : Bool) (a l r : K) (ha : a ≠ 0)
    (h : (do let S ← Verif.Rescale.resample I T l r; Verif.Rescale.scaleEmb pos a l r S) = .ok T') :
    T'.n = T.n ∧ (∀ j < T.n, T'.y j = I.val T (T'.x j / a)) ∧
    T'.beg = (if pos then a * l else a * r) ∧ T'.fin = (if pos then a * r else a * l) := by
  unfold Verif.Rescale.resample at h
  by_cases hn : ((T.n - 1 : Nat) : K) = 0
  · simp [cdiv, hn, bind, Except.bind] at h
  have hstep : ((T.n - 1 : Nat) : K) * ((r - l) / ((T.n - 1 : Nat) : K)) = r - l := mul_div_cancel₀ _ hn
  rw [cdiv_ok hn] at h
  simp only [bind, Except.bind, pure, Except.pure] at h
  generalize (r - l) / ((T.n - 1 : Nat) : K) = st at h hstep
  unfold Verif.Rescale.scaleEmb at h
  cases pos with
  | true =>
    simp only [if_true, bind, Except.bind, pure, Except.pure, cdiv_ok ha] at h
    have key : ∃ gl gr, T' = ⟨a * l, a * r, a * st, T.n, fun j : Nat => a * l + j * (a * st), fun j : Nat => I.val T (l + j * st), gl, gr⟩ := by
      split_ifs at h <;> (simp only [Except.ok.injEq] at h; exact ⟨_, _, h.symm⟩)
    obtain ⟨gl, gr, rfl⟩ := key
    refine ⟨rfl, fun j _ => ?_, rfl, rfl⟩
    simp only
    congr 1
    field_simp
  | false =>
    simp only [Bool.false_eq_true, if_false, bind, Except.bind, pure, Except.pure, cdiv_ok ha] at h
    have key : ∃ gl gr, T' = ⟨a * r, a * l, -a * st, T.n, fun j : Nat => a * r + j * (-a * st),
        fun j : Nat => I.val T (l + ((T.n - 1 - j : Nat) : K) * st), gl, gr⟩ := by
      split_ifs at h <;> (simp only [Except.ok.injEq] at h; exact ⟨_, _, h.symm⟩)
    obtain ⟨gl, gr, rfl⟩ := key
    refine ⟨rfl, fun j hj => ?_, rfl, rfl⟩
    simp only
    congr 1
    have e1 : ((T.n - 1 - j : Nat) : K) = ((T.n - 1 : Nat) : K) - j := by
      rw [Nat.cast_sub (by omega)]
    rw [e1, sub_mul, hstep]
    field_simp
    ring

/-- Slopes at the ends after scaling with a positive factor: those of the function in the scaled density. -/
theorem emb_slopes (I : Interp K) (T T' : Tab K) (a l r : K) (ha : a ≠ 0) (hl : T.gl < Verif.Rescale.free) (hr : T.gr < Verif.Rescale.free)
    (hl' : I.grad T l < Verif.Rescale.free) (hr' : I.grad T r < Verif.Rescale.free)
    (pos : Bool)
    (h : (do let S ← Verif.Rescale.resample I T l r; Verif.Rescale.scaleEmb pos a l r S) = .ok T') :
    (pos = true → T'.gl = I.grad T (T'.beg / a) / a ∧ T'.gr = I.grad T (T'.fin / a) / a) ∧
    (pos = false → T'.gl = -(I.grad T (T'.beg / a) / a) ∧ T'.gr = -(I.grad T (T'.fin / a) / a)) := by
  obtain ⟨-, -, hb, hf⟩ := emb_nodes I T T' pos a l r ha h
  unfold Verif.Rescale.resample at h
  by_cases hn : ((T.n - 1 : Nat) : K) = 0
  · simp [cdiv, hn, bind, Except.bind] at h
  rw [cdiv_ok hn] at h
  simp only [bind, Except.bind, pure, Except.pure, hl, hr, if_true] at h
  unfold Verif.Rescale.scaleEmb at h
  cases pos with
  | true =>
    simp only [if_true, bind, Except.bind, pure, Except.pure, hl', hr', cdiv_ok ha, Except.ok.injEq] at h
    refine ⟨fun _ => ?_, fun h => by simp at h⟩
    rw [hb, hf]
    simp only [if_true, mul_div_cancel_left₀ _ ha]
    rw [← h]
    exact ⟨rfl, rfl⟩
  | false =>
    simp only [Bool.false_eq_true, if_false, bind, Except.bind, pure, Except.pure, hl', hr', if_true, cdiv_ok ha, Except.ok.injEq] at h
    refine ⟨fun h => by simp at h, fun _ => ?_⟩
    rw [hb, hf]
    simp only [Bool.false_eq_true, if_false, mul_div_cancel_left₀ _ ha]
    rw [← h]
    simp only [neg_div]
    exact ⟨trivial, trivial⟩

/-- What `change` does. -/
theorem change_spec (I : Interp K) (P : Pot K) (c : Choice K) (P' : Pot K) (lam : Nat → K)
    (h : Verif.Rescale.change I P c = .ok (P', lam)) :
    ∃ emb : Nat → Tab K, P'.ntypes = P.ntypes ∧
      (∀ t < P.ntypes, (do let S ← Verif.Rescale.resample I (P.emb t) (c.left t) (c.right t)
                           Verif.Rescale.scaleEmb c.pos c.a (c.left t) (c.right t) S) = .ok (emb t)) ∧
      (∀ t < P.ntypes, P'.emb t = Verif.Rescale.gaugeEmb (lam t) (emb t)) ∧
      (∀ t < P.ntypes, P'.rho t = Verif.Rescale.scaleRho c.a (P.rho t)) ∧
      (∀ i s t, Verif.Rescale.typesOf P.ntypes i = some (s, t) → P'.pair i = Verif.Rescale.gaugePair I lam P'.rho s t (P.pair i)) := by
  unfold Verif.Rescale.change at h
  cases he : Verif.Rescale.eachType P.ntypes (fun i => do
      let T ← Verif.Rescale.resample I (P.emb i) (c.left i) (c.right i)
      Verif.Rescale.scaleEmb c.pos c.a (c.left i) (c.right i) T) P.emb with
  | error e =>
    rw [he] at h
    simp [bind, Except.bind] at h
  | ok emb =>
    rw [he] at h
    simp only [bind, Except.bind, pure, Except.pure, Except.ok.injEq, Prod.mk.injEq] at h
    obtain ⟨h1, h2⟩ := h
    refine ⟨emb, ?_, eachType_spec _ _ _ _ he, ?_, ?_, ?_⟩
    · rw [← h1]
    · intro t ht
      rw [← h1, ← h2]
      simp [ht]
    · intro t ht
      rw [← h1]
      simp [ht]
    · intro i s t hi
      rw [← h1, ← h2]
      simp only [hi]

theorem typesOf_pairCol (nt s t : Nat) (hst : s ≤ t) (ht : t < nt) : Verif.Rescale.typesOf nt (pairCol nt s t) = some (s, t) := by
  unfold Verif.Rescale.typesOf
  have hmem := mem_filePairs.2 ⟨hst, ht⟩
  obtain ⟨p, hp⟩ := List.getElem?_of_mem hmem
  have h1 : ((filePairs nt).map fun p => pairCol nt p.1 p.2)[p]? = some (pairCol nt s t) := by
    rw [List.getElem?_map, hp]
    rfl
  rw [C01_file_order] at h1
  obtain ⟨h2, h3⟩ := List.getElem?_eq_some_iff.1 h1
  rw [List.getElem_range] at h3
  rw [← h3]
  exact hp

/-- **C45, tables.** After `rescale` with factor `a` and gauge terms `lam`: every value of a transfer function is multiplied by `a`; every
value of an embedding function is the old function at the unscaled density, less `lam` times the density; every value of a pair
function is the old one plus the gauge terms of both types. This holds for both signs of `a` and any spline routine. -/
theorem C45_tables (I : Interp K) (P : Pot K) (c : Choice K) (ha : c.a ≠ 0) (P' : Pot K) (lam : Nat → K)
    (h : Verif.Rescale.change I P c = .ok (P', lam)) :
    (∀ t < P.ntypes, ∀ j, (P'.rho t).y j = c.a * (P.rho t).y j ∧ (P'.rho t).x j = (P.rho t).x j) ∧
    (∀ t < P.ntypes, ∀ j < (P.emb t).n, (P'.emb t).y j = I.val (P.emb t) ((P'.emb t).x j / c.a) - lam t * (P'.emb t).x j) ∧
    (∀ s t, s ≤ t → t < P.ntypes → ∀ j, (P'.pair (pairCol P.ntypes s t)).x j = (P.pair (pairCol P.ntypes s t)).x j ∧
      (P'.pair (pairCol P.ntypes s t)).y j = (P.pair (pairCol P.ntypes s t)).y j
        + lam s * (if (P.pair (pairCol P.ntypes s t)).x j < (P'.rho t).fin then I.val (P'.rho t) ((P.pair (pairCol P.ntypes s t)).x j) else 0)
        + lam t * (if (P.pair (pairCol P.ntypes s t)).x j < (P'.rho s).fin then I.val (P'.rho s) ((P.pair (pairCol P.ntypes s t)).x j) else 0)) := by
  obtain ⟨emb, -, h1, h2, h3, h4⟩ := change_spec I P c P' lam h
  refine ⟨fun t ht j => ?_, fun t ht j hj => ?_, fun s t hst ht j => ?_⟩
  · rw [h3 t ht]
    exact ⟨rfl, rfl⟩
  · obtain ⟨-, g2, -⟩ := emb_nodes I (P.emb t) (emb t) c.pos c.a _ _ ha (h1 t ht)
    rw [h2 t ht]
    simp only [Verif.Rescale.gaugeEmb]
    rw [g2 j hj]
    ring
  · rw [h4 _ s t (typesOf_pairCol _ s t hst ht)]
    refine ⟨rfl, ?_⟩
    simp only [Verif.Rescale.gaugePair, Verif.Rescale.pairTerm, mul_ite, mul_zero]
    ring

/-- **C45, slopes at the ends.** With the dominant side positive the slopes at both ends of an embedding function are those of the
transformed function. -/
theorem C45_slopes (I : Interp K) (P : Pot K) (c : Choice K) (ha : c.a ≠ 0) (hpos : c.pos = true) (P' : Pot K) (lam : Nat → K)
    (h : Verif.Rescale.change I P c = .ok (P', lam)) (t : Nat) (ht : t < P.ntypes)
    (hl : (P.emb t).gl < Verif.Rescale.free) (hr : (P.emb t).gr < Verif.Rescale.free)
    (hl' : I.grad (P.emb t) (c.left t) < Verif.Rescale.free) (hr' : I.grad (P.emb t) (c.right t) < Verif.Rescale.free)
    (hl2 : I.grad (P.emb t) (c.left t) / c.a < 10 ^ 29) (hr2 : I.grad (P.emb t) (c.right t) / c.a < 10 ^ 29) :
    (P'.emb t).gl = I.grad (P.emb t) ((P'.emb t).beg / c.a) / c.a - lam t ∧
    (P'.emb t).gr = I.grad (P.emb t) ((P'.emb t).fin / c.a) / c.a - lam t := by
  obtain ⟨emb, -, h1, h2, -, -⟩ := change_spec I P c P' lam h
  have hs := (emb_slopes I (P.emb t) (emb t) c.a _ _ ha hl hr hl' hr' c.pos (h1 t ht)).1 hpos
  obtain ⟨-, -, hb, hf⟩ := emb_nodes I (P.emb t) (emb t) c.pos c.a _ _ ha (h1 t ht)
  rw [hpos] at hb hf
  simp only [if_true] at hb hf
  have e1 : (emb t).beg / c.a = c.left t := by rw [hb, mul_div_cancel_left₀ _ ha]
  have e2 : (emb t).fin / c.a = c.right t := by rw [hf, mul_div_cancel_left₀ _ ha]
  rw [h2 t ht]
  simp only [Verif.Rescale.gaugeEmb]
  rw [hs.1, hs.2, e1, e2, if_pos hl2, if_pos hr2]
  exact ⟨rfl, rfl⟩

/-- **C45, slopes with negative dominant side.** The slopes at the ends have the wrong sign, whenever they do not vanish. -/
theorem C45_slopes_violated (I : Interp K) (P : Pot K) (c : Choice K) (ha : c.a ≠ 0) (hpos : c.pos = false) (P' : Pot K) (lam : Nat → K)
    (h : Verif.Rescale.change I P c = .ok (P', lam)) (t : Nat) (ht : t < P.ntypes)
    (hl : (P.emb t).gl < Verif.Rescale.free) (hr : (P.emb t).gr < Verif.Rescale.free)
    (hl' : I.grad (P.emb t) (c.left t) < Verif.Rescale.free) (hr' : I.grad (P.emb t) (c.right t) < Verif.Rescale.free)
    (hr2 : -(I.grad (P.emb t) (c.right t) / c.a) < 10 ^ 29)
    (hne : I.grad (P.emb t) (c.right t) ≠ 0) :
    (P'.emb t).gl = -(I.grad (P.emb t) ((P'.emb t).beg / c.a) / c.a) - lam t ∧
    (P'.emb t).gl ≠ I.grad (P.emb t) ((P'.emb t).beg / c.a) / c.a - lam t := by
  obtain ⟨emb, -, h1, h2, -, -⟩ := change_spec I P c P' lam h
  have hs := (emb_slopes I (P.emb t) (emb t) c.a _ _ ha hl hr hl' hr' c.pos (h1 t ht)).2 hpos
  obtain ⟨-, -, hb, hf⟩ := emb_nodes I (P.emb t) (emb t) c.pos c.a _ _ ha (h1 t ht)
  rw [hpos] at hb hf
  simp only [Bool.false_eq_true, if_false] at hb hf
  have e1 : (emb t).beg / c.a = c.right t := by rw [hb, mul_div_cancel_left₀ _ ha]
  rw [h2 t ht]
  simp only [Verif.Rescale.gaugeEmb]
  rw [hs.1, e1, if_pos hr2]
  refine ⟨rfl, fun he => ?_⟩
  have h0 : I.grad (P.emb t) (c.right t) / c.a ≠ 0 := div_ne_zero hne ha
  have : I.grad (P.emb t) (c.right t) / c.a + I.grad (P.emb t) (c.right t) / c.a = 0 := by linear_combination -he
  exact h0 (by linarith)

/-! ### Energy of configurations on the grid -/

/-- The potential as the force routine sees it: pair columns, transfer functions, embedding functions. -/
def toEam (I : Interp K) (P : Pot K) : EamPots K :=
  let pc := paircol P.ntypes
  let tab : Nat → Tab K := fun col => if col < pc then P.pair col else if col < pc + P.ntypes then P.rho (col - pc) else P.emb (col - pc - P.ntypes)
  { fin := fun col => (tab col).fin
    beg := fun col => (tab col).beg
    step := fun col => (tab col).step
    val := fun col r => I.val (tab col) r
    grad := fun col r => I.grad (tab col) r
    paircol := pc
    ntypes := P.ntypes
    ana := fun _ _ => (0, 0) }

theorem transfer_toEam (I : Interp K) (P : Pot K) (t : Nat) (ht : t < P.ntypes) (r : K) :
    transfer (toEam I P) t r = if r < (P.rho t).fin then I.val (P.rho t) r else 0 := by
  unfold transfer toEam
  simp [ht]

/-- A table with increasing arguments. -/
structure Increasing (T : Tab K) : Prop where
  two : 2 ≤ T.n
  lt : ∀ k, k + 1 < T.n → T.x k < T.x (k + 1)

/-- TabEnds of a transfer function: the slope on the left is either marked as free or small enough not to be taken for that mark, before and
after scaling; the slope on the right is 0, as the C code always has it for these functions. -/
def TabEnds (a : K) (T : Tab K) : Prop :=
  (Verif.Rescale.free ≤ T.gl ∨ T.gl ≤ 99 * 10 ^ 28 ∧ T.gl * a ≤ 99 * 10 ^ 28) ∧ T.gr = 0

/-- The spline routine reproduces the values of a table and is homogeneous. -/
structure Exact (I : Interp K) : Prop where
  node : ∀ (T : Tab K), Increasing T → ∀ j < T.n, I.val T (T.x j) = T.y j
  scale : ∀ (T : Tab K) (a r : K), Increasing T → TabEnds a T → I.val (Verif.Rescale.scaleRho a T) r = a * I.val T r

/-- The arguments of a new embedding function increase. -/
theorem emb_increasing (I : Interp K) (T T' : Tab K) (pos : Bool) (a l r : K) (hsign : if pos then 0 < a else a < 0) (hn2 : 2 ≤ T.n)
    (hlr : l < r)
    (h : (do let S ← Verif.Rescale.resample I T l r; Verif.Rescale.scaleEmb pos a l r S) = .ok T') : Increasing T' := by
  have ha : a ≠ 0 := by
    intro h0
    rw [h0] at hsign
    split at hsign <;> exact lt_irrefl _ hsign
  obtain ⟨hn', -⟩ := emb_nodes I T T' pos a l r ha h
  refine ⟨hn' ▸ hn2, fun k _ => ?_⟩
  have hpos : (0 : K) < ((T.n - 1 : Nat) : K) := by
    have : 0 < T.n - 1 := by omega
    exact_mod_cast this
  have hst : 0 < (r - l) / ((T.n - 1 : Nat) : K) := div_pos (by linarith) hpos
  unfold Verif.Rescale.resample at h
  rw [cdiv_ok hpos.ne'] at h
  simp only [bind, Except.bind, pure, Except.pure] at h
  generalize (r - l) / ((T.n - 1 : Nat) : K) = st at h hst
  unfold Verif.Rescale.scaleEmb at h
  cases pos with
  | true =>
    simp only [if_true] at hsign
    simp only [if_true, bind, Except.bind, pure, Except.pure, cdiv_ok ha] at h
    have key : ∃ b0 : K, T'.x = fun j : Nat => b0 + j * (a * st) := by
      split_ifs at h <;> (simp only [Except.ok.injEq] at h; rw [← h]; exact ⟨_, rfl⟩)
    obtain ⟨b0, hx⟩ := key
    have := mul_pos hsign hst
    rw [hx]
    push_cast
    linarith
  | false =>
    simp only [Bool.false_eq_true, if_false] at hsign
    simp only [Bool.false_eq_true, if_false, bind, Except.bind, pure, Except.pure, cdiv_ok ha] at h
    have key : ∃ b0 : K, T'.x = fun j : Nat => b0 + j * (-a * st) := by
      split_ifs at h <;> (simp only [Except.ok.injEq] at h; rw [← h]; exact ⟨_, rfl⟩)
    obtain ⟨b0, hx⟩ := key
    have := mul_pos (neg_pos.2 hsign) hst
    rw [hx]
    push_cast
    linarith

/-- The configuration lies on the grid: every distance is a node of its pair function, and every density, in units of the new
potential, is a node of the new embedding function inside of the range of both embedding functions. -/
structure OnGrid (I : Interp K) (P P' : Pot K) (a : K) (c : Conf K) : Prop where
  col : ∀ e ∈ entries c, e.otyp < P.ntypes ∧ e.n.typ < P.ntypes ∧ e.n.col0 = pairCol P.ntypes e.otyp e.n.typ
  dist : ∀ e ∈ entries c, ∃ j < (P.pair e.n.col0).n, e.n.r = (P.pair e.n.col0).x j ∧ e.n.r < (P.pair e.n.col0).fin
  dens : ∀ k at_, c.atoms[k]? = some at_ → at_.typ < P.ntypes ∧ ∃ j < (P.emb at_.typ).n,
    a * totalDensity (toEam I P) c (c.start + k) = (P'.emb at_.typ).x j
  old : ∀ k at_, c.atoms[k]? = some at_ → (P.emb at_.typ).beg ≤ totalDensity (toEam I P) c (c.start + k) ∧
    totalDensity (toEam I P) c (c.start + k) ≤ (P.emb at_.typ).fin
  new : ∀ k at_, c.atoms[k]? = some at_ → (P'.emb at_.typ).beg ≤ a * totalDensity (toEam I P) c (c.start + k) ∧
    a * totalDensity (toEam I P) c (c.start + k) ≤ (P'.emb at_.typ).fin

theorem embed_inside (b : Build) (hb : b.apot = false) (P : EamPots K) (col : Nat) (x : K) (h1 : P.beg col ≤ x) (h2 : x ≤ P.fin col) :
    (embed b P col x).value = P.val col x := by
  unfold embed
  rw [hb]
  by_cases hr : b.rescale = true
  · simp only [hr, if_true, if_neg (not_lt.2 h2), if_neg (not_lt.2 h1)]
  · simp only [hr, if_false, Bool.false_eq_true, if_neg (not_lt.2 h2), if_neg (not_lt.2 h1)]

/-- **C45 on the grid.** The energy of a configuration whose distances and densities are nodes of the tables is not changed by `rescale`.
Missing for the full claim: configurations between the nodes, where the new splines differ from the transformed functions, see
`C45_violated`. -/
theorem C45_partial (I : Interp K) (hI : Exact I) (P : Pot K) (ch : Choice K) (ha : ch.a ≠ 0) (P' : Pot K) (lam : Nat → K)
    (h : Verif.Rescale.change I P ch = .ok (P', lam)) (hsign : if ch.pos then 0 < ch.a else ch.a < 0)
    (hlr : ∀ t < P.ntypes, 2 ≤ (P.emb t).n ∧ ch.left t < ch.right t)
    (hinc : ∀ t < P.ntypes, Increasing (P.rho t) ∧ TabEnds ch.a (P.rho t)) (hpair : ∀ i < paircol P.ntypes, Increasing (P.pair i))
    (b : Build) (hb : b.apot = false) (ew sw : K) (ci : Nat) (c : Conf K) (s s' : EamState K) (hh : HalfList c)
    (hc : EamColumns (toEam I P) c) (ht : TypesOk c) (hg : OnGrid I P P' ch.a c) :
    (eamConf b (toEam I P') ew sw ci c s').1.fv.energy ci = (eamConf b (toEam I P) ew sw ci c s).1.fv.energy ci := by
  obtain ⟨emb, hnt, h1, h2, h3, h4⟩ := change_spec I P ch P' lam h
  obtain ⟨t1, t2, t3⟩ := C45_tables I P ch ha P' lam h
  have hrho : ∀ t < P.ntypes, ∀ r, transfer (toEam I P') t r = ch.a * transfer (toEam I P) t r := by
    intro t htn r
    rw [transfer_toEam I P' t (hnt ▸ htn), transfer_toEam I P t htn, h3 t htn]
    have e1 : (Verif.Rescale.scaleRho ch.a (P.rho t)).fin = (P.rho t).fin := rfl
    rw [e1]
    split
    · exact hI.scale _ _ _ (hinc t htn).1 (hinc t htn).2
    · simp
  refine C45_energy b (toEam I P) (toEam I P') ew sw ci c s s' hh hc ?_ ht ch.a lam ⟨?_, ?_, ?_⟩
  · intro e he
    obtain ⟨c1, c2⟩ := hc e he
    refine ⟨?_, c2⟩
    rw [c1]
    simp [toEam, hnt]
  · intro e he
    obtain ⟨a1, a2, -⟩ := hg.col e he
    exact ⟨hrho _ a2 _, hrho _ a1 _⟩
  · intro e he
    obtain ⟨a1, a2, a3⟩ := hg.col e he
    obtain ⟨j, hj, hr, hf⟩ := hg.dist e he
    have hcolr : e.n.col0 < paircol P.ntypes := a3 ▸ C01_in_range a1 a2
    have hval : ∀ Q : Pot K, Q.ntypes = P.ntypes → pairValue (toEam I Q) e =
        if e.n.r < (Q.pair e.n.col0).fin then I.val (Q.pair e.n.col0) e.n.r else 0 := by
      intro Q hQ
      unfold pairValue toEam
      simp [hQ, hcolr]
    rw [hval P' hnt, hval P rfl, transfer_toEam I P' _ (hnt ▸ a2), transfer_toEam I P' _ (hnt ▸ a1)]
    have key : ∀ s t, s ≤ t → t < P.ntypes → e.n.col0 = pairCol P.ntypes s t →
        (if e.n.r < (P'.pair e.n.col0).fin then I.val (P'.pair e.n.col0) e.n.r else 0) =
        (if e.n.r < (P.pair e.n.col0).fin then I.val (P.pair e.n.col0) e.n.r else 0)
        + lam s * (if e.n.r < (P'.rho t).fin then I.val (P'.rho t) e.n.r else 0)
        + lam t * (if e.n.r < (P'.rho s).fin then I.val (P'.rho s) e.n.r else 0) := by
      intro s t hst htn hcol
      have hp := h4 _ s t (typesOf_pairCol _ s t hst htn)
      rw [← hcol] at hp
      obtain ⟨x1, x2⟩ := t3 s t hst htn j
      rw [← hcol] at x1 x2
      have hn : (P'.pair e.n.col0).n = (P.pair e.n.col0).n := by rw [hp]; rfl
      have hfin : (P'.pair e.n.col0).fin = (P.pair e.n.col0).fin := by rw [hp]; rfl
      have v1 : I.val (P'.pair e.n.col0) e.n.r = (P'.pair e.n.col0).y j := by
        rw [hr, ← x1]
        refine hI.node _ ⟨hn ▸ (hpair _ hcolr).two, fun k hk => ?_⟩ j (hn ▸ hj)
        have := (hpair _ hcolr).lt k (hn ▸ hk)
        rw [hp]
        exact this
      have v2 : I.val (P.pair e.n.col0) e.n.r = (P.pair e.n.col0).y j := by
        rw [hr]
        exact hI.node _ (hpair _ hcolr) j hj
      rw [hfin, if_pos hf, if_pos hf, v1, v2, x2, ← hr]
    rcases Nat.le_total e.otyp e.n.typ with hle | hle
    · exact key _ _ hle a2 a3
    · have := key _ _ hle a1 (by rw [a3, pairCol_comm])
      rw [this]
      ring
  · intro k at_ hk
    obtain ⟨a1, j, hj, hx⟩ := hg.dens k at_ hk
    obtain ⟨o1, o2⟩ := hg.old k at_ hk
    obtain ⟨n1, n2⟩ := hg.new k at_ hk
    have hcolE : ∀ Q : Pot K, Q.ntypes = P.ntypes → ∀ x, (toEam I Q).val ((toEam I Q).paircol + (toEam I Q).ntypes + at_.typ) x = I.val (Q.emb at_.typ) x ∧
        (toEam I Q).beg ((toEam I Q).paircol + (toEam I Q).ntypes + at_.typ) = (Q.emb at_.typ).beg ∧
        (toEam I Q).fin ((toEam I Q).paircol + (toEam I Q).ntypes + at_.typ) = (Q.emb at_.typ).fin := by
      intro Q hQ x
      have h1 : ¬ paircol Q.ntypes + Q.ntypes + at_.typ < paircol Q.ntypes := by omega
      have h2 : ¬ paircol Q.ntypes + Q.ntypes + at_.typ < paircol Q.ntypes + Q.ntypes := by omega
      have h3 : paircol Q.ntypes + Q.ntypes + at_.typ - paircol Q.ntypes - Q.ntypes = at_.typ := by omega
      unfold toEam
      simp only [h1, h2, h3, if_false]
      exact ⟨trivial, trivial, trivial⟩
    obtain ⟨v1, b1, f1⟩ := hcolE P' hnt (ch.a * totalDensity (toEam I P) c (c.start + k))
    obtain ⟨v2, b2, f2⟩ := hcolE P rfl (totalDensity (toEam I P) c (c.start + k))
    rw [embed_inside b hb _ _ _ (b1 ▸ n1) (f1 ▸ n2), embed_inside b hb _ _ _ (b2 ▸ o1) (f2 ▸ o2), v1, v2]
    have hn : (P'.emb at_.typ).n = (P.emb at_.typ).n := by
      obtain ⟨m1, -⟩ := emb_nodes I (P.emb at_.typ) (emb at_.typ) ch.pos ch.a _ _ ha (h1 _ a1)
      rw [h2 _ a1]
      exact m1
    have v3 : I.val (P'.emb at_.typ) (ch.a * totalDensity (toEam I P) c (c.start + k)) = (P'.emb at_.typ).y j := by
      rw [hx]
      refine hI.node _ ?_ j (hn ▸ hj)
      have := emb_increasing I (P.emb at_.typ) (emb at_.typ) ch.pos ch.a _ _ hsign (hlr _ a1).1 (hlr _ a1).2 (h1 _ a1)
      rw [h2 _ a1]
      exact ⟨this.two, this.lt⟩
    rw [v3, t2 _ a1 j hj, ← hx, mul_div_cancel_left₀ _ ha]

/-! ### The splines of the code -/

open Verif.Splines in
/-- Table with its second derivatives as `spline_ne` fills them in. -/
def column (T : Tab K) : Column K :=
  ⟨T.x 0, T.x (T.n - 1), 1, 1, 0, T.n - 1, T.x, fun k => match splineNe T.x T.y T.n T.gl T.gr k with
    | .ok v => v
    | .error _ => 0⟩

open Verif.Splines in
/-- The routines of `src/splines.c` for general knots: `spline_ne`, then `splint_ne` or `splint_grad_ne`. -/
def codeSpline : Interp K where
  val T r := match splintNe (column T) T.y r with
    | .ok v => v
    | .error _ => 0
  grad T r := match splintGradNe (column T) T.y r with
    | .ok v => v
    | .error _ => 0

open Verif.Splines in
theorem fwd_scale (x y : Nat → K) (a g g' : K) (hg : isNatural g ∧ isNatural g' ∨ ¬ isNatural g ∧ ¬ isNatural g' ∧ g' = a * g) (i : Nat) :
    fwd x (fun j => a * y j) g' i = ((fwd x y g i).1, a * (fwd x y g i).2) := by
  induction i with
  | zero =>
    unfold fwd
    rcases hg with ⟨h1, h2⟩ | ⟨h1, h2, h3⟩
    · simp [h1, h2]
    · rw [if_neg h1, if_neg h2, h3]
      simp only [Prod.mk.injEq, true_and]
      ring
  | succ i ih =>
    rw [fwd, ih, fwd]
    simp only [Prod.mk.injEq, true_and]
    ring

open Verif.Splines in
theorem second_scale (x y : Nat → K) (n : Nat) (a g g' : K)
    (hg : isNatural g ∧ isNatural g' ∨ ¬ isNatural g ∧ ¬ isNatural g' ∧ g' = a * g) (k : Nat) :
    second x (fun j => a * y j) n g' 0 k = a * second x y n g 0 k := by
  have h0 : ¬ isNatural (0 : K) := by
    unfold isNatural
    exact not_lt.2 (by positivity)
  unfold second
  induction n - 1 - k with
  | zero =>
    unfold back last
    rw [if_neg h0, if_neg h0, fwd_scale x y a g g' hg]
    ring
  | succ j ih =>
    rw [back, back, ih, fwd_scale x y a g g' hg]
    ring

open Verif.Splines in
theorem column_d2 (T : Tab K) (h : Increasing T) (k : Nat) : (column T).d2tab k = second T.x T.y T.n T.gl T.gr k := by
  unfold column splineNe
  simp only
  rw [neBack_ok T.x T.y T.gl T.gr T.n h.two h.lt]
  rfl

open Verif.Splines in
theorem column_general (T : Tab K) (h : Increasing T) : (column T).General := by
  have := h.two
  refine ⟨?_, fun k _ hk => h.lt k ?_, rfl, rfl⟩
  · show 0 < T.n - 1
    omega
  · have : k < T.n - 1 := hk
    omega

open Verif.Splines in
theorem splintNe_scale (c c' : Column K) (xi : Nat → K) (a r : K) (h1 : c'.xcoord = c.xcoord) (h2 : c'.first = c.first) (h3 : c'.last = c.last)
    (h4 : ∀ k, c'.d2tab k = a * c.d2tab k) :
    splintNe c' (fun j => a * xi j) r = (splintNe c xi r).map (a * ·) := by
  unfold splintNe
  rw [h1, h2, h3]
  simp only [Column.rd, h2, h3, h4]
  generalize bisect c.xcoord r c.first c.last = b
  cases cdiv (r - c.xcoord b.1) (c.xcoord b.2 - c.xcoord b.1) with
  | error e => rfl
  | ok q =>
    by_cases g1 : c.first ≤ b.1 ∧ b.1 ≤ c.last
    · by_cases g2 : c.first ≤ b.2 ∧ b.2 ≤ c.last
      · simp only [bind, Except.bind, pure, Except.pure, g1, g2, and_self, if_true, Except.map, Except.ok.injEq]
        ring
      · simp only [bind, Except.bind, g1, g2, and_self, if_true, if_false, Except.map]
    · simp only [bind, Except.bind, g1, if_false, Except.map]

/-- The splines of the code are exact in the sense above. -/
theorem codeSpline_exact : Exact (codeSpline (K := K)) := by
  refine ⟨fun T h j hj => ?_, fun T a r h he => ?_⟩
  · have := C05_general_knot (column T) (column_general T h) T.y j (by
      show 0 + j ≤ T.n - 1
      omega)
    have e1 : (column T).first + j = j := Nat.zero_add j
    rw [e1] at this
    have e2 : (column T).xcoord j = T.x j := rfl
    rw [e2] at this
    unfold codeSpline
    simp only [this]
  · have hi : Increasing (Verif.Rescale.scaleRho a T) := ⟨h.two, h.lt⟩
    have := splintNe_scale (column T) (column (Verif.Rescale.scaleRho a T)) T.y a r rfl rfl rfl (fun k => by
      rw [column_d2 _ hi, column_d2 _ h]
      have e1 : (Verif.Rescale.scaleRho a T).gr = 0 := he.2
      rw [e1, he.2]
      refine second_scale T.x T.y T.n a _ _ ?_ k
      have h99 : (99 * 10 ^ 28 : K) < 10 ^ 30 := by norm_num
      unfold Verif.Splines.isNatural
      rcases he.1 with hf | ⟨hf, hf'⟩
      · have hf1 : (10 ^ 30 : K) ≤ T.gl := hf
        have e2 : (Verif.Rescale.scaleRho a T).gl = T.gl := if_neg (not_lt.2 hf)
        rw [e2]
        exact Or.inl ⟨by linarith, by linarith⟩
      · have hlt : T.gl < Verif.Rescale.free := by
          show T.gl < 10 ^ 30
          linarith
        have e2 : (Verif.Rescale.scaleRho a T).gl = T.gl * a := if_pos hlt
        rw [e2]
        exact Or.inr ⟨not_lt.2 hf, not_lt.2 hf', mul_comm _ _⟩)
    have e3 : (Verif.Rescale.scaleRho a T).y = fun j => a * T.y j := rfl
    unfold codeSpline
    simp only [e3, this]
    cases Verif.Splines.splintNe (column T) T.y r with
    | ok v => rfl
    | error e => simp [Except.map]

/-! ### The range of the new embedding functions -/

theorem rangeAdd_le (g : Range K) (t : Nat) (r : K) (u : Nat) :
    g.max u ≤ (g.add t r).max u ∧ (g.add t r).min u ≤ g.min u := by
  unfold Verif.Rescale.Range.add
  by_cases h : u = t
  · subst h
    simp only [Function.update_self]
    constructor
    · split
      · exact le_rfl
      · rename_i h; exact not_lt.1 h
    · split
      · exact le_rfl
      · rename_i h; exact not_lt.1 h
  · simp [Function.update_of_ne h]

theorem rangeAdd_in (g : Range K) (t : Nat) (r : K) : (g.add t r).min t ≤ r ∧ r ≤ (g.add t r).max t := by
  unfold Verif.Rescale.Range.add
  simp only [Function.update_self]
  constructor
  · split
    · rename_i h; exact h.le
    · exact le_rfl
  · split
    · rename_i h; exact h.le
    · exact le_rfl

theorem density_fold (I : Interp K) (P : Pot K) (i typ : Nat) (hty : typ < P.ntypes) (l : List (Neigh K))
    (hl : ∀ n ∈ l, i < n.nr ∧ n.typ < P.ntypes) (rho : Nat → K) (x : Nat) :
    l.foldl (Verif.Rescale.density I P i typ) rho x = rho x + (l.map fun n => densityOn (toEam I P) ⟨i, typ, n⟩ x).sum := by
  induction l generalizing rho with
  | nil => simp
  | cons n l ih =>
    obtain ⟨h1, h2⟩ := hl n (by simp)
    rw [List.foldl_cons, ih (fun m hm => hl m (by simp [hm])), List.map_cons, List.sum_cons, ← add_assoc]
    congr 1
    unfold Verif.Rescale.density densityOn
    rw [if_pos h1, transfer_toEam I P _ h2, transfer_toEam I P _ hty]
    have hne : n.nr ≠ i := by omega
    simp only [hne, ne_eq, not_false_eq_true, and_true]
    by_cases ht : n.typ = typ
    · rw [if_pos ht, ht]
      split
      · simp only [addRho_apply]
        by_cases hxi : x = i
        · subst hxi
          simp [hne.symm]
        · by_cases hxn : x = n.nr
          · subst hxn; simp [hxi]
          · simp [hxi, hxn]
      · simp
    · rw [if_neg ht]
      by_cases hxi : x = i
      · subst hxi
        by_cases f1 : n.r < (P.rho n.typ).fin <;> by_cases f2 : n.r < (P.rho typ).fin <;> simp [addRho_apply, hne.symm, f1, f2]
      · by_cases hxn : x = n.nr
        · subst hxn
          by_cases f1 : n.r < (P.rho n.typ).fin <;> by_cases f2 : n.r < (P.rho typ).fin <;> simp [addRho_apply, hxi, f1, f2]
        · by_cases f1 : n.r < (P.rho n.typ).fin <;> by_cases f2 : n.r < (P.rho typ).fin <;> simp [addRho_apply, hxi, hxn, f1, f2]

theorem densityOn_other (I : Interp K) (P : Pot K) (l : List (Entry K)) (x : Nat) (h : ∀ e ∈ l, x ≠ e.own ∧ x ≠ e.n.nr) :
    (l.map fun e => densityOn (toEam I P) e x).sum = 0 := by
  apply List.sum_eq_zero
  intro y hy
  obtain ⟨e, he, rfl⟩ := List.mem_map.1 hy
  obtain ⟨h1, h2⟩ := h e he
  unfold densityOn
  simp [h1, h2]

theorem rangeAtoms_spec (I : Interp K) (P : Pot K) (as : List (Atom K)) :
    ∀ (i : Nat) (s : (Nat → K) × Range K),
      (∀ e ∈ entriesFrom i as, e.own < e.n.nr ∧ e.n.typ < P.ntypes ∧ e.otyp < P.ntypes) →
      (∀ u, s.2.max u ≤ (Verif.Rescale.rangeAtoms I P as i s).2.max u ∧ (Verif.Rescale.rangeAtoms I P as i s).2.min u ≤ s.2.min u) ∧
      ∀ k a, as[k]? = some a →
        (Verif.Rescale.rangeAtoms I P as i s).2.min a.typ ≤ s.1 (i + k) + ((entriesFrom i as).map fun e => densityOn (toEam I P) e (i + k)).sum ∧
        s.1 (i + k) + ((entriesFrom i as).map fun e => densityOn (toEam I P) e (i + k)).sum ≤ (Verif.Rescale.rangeAtoms I P as i s).2.max a.typ := by
  induction as with
  | nil => intro i s _; exact ⟨fun u => ⟨le_rfl, le_rfl⟩, fun k a h => by simp at h⟩
  | cons a as ih =>
    intro i s he
    have he1 : ∀ n ∈ a.neigh, (⟨i, a.typ, n⟩ : Entry K) ∈ entriesFrom i (a :: as) := by
      intro n hn
      rw [entriesFrom, List.mem_append]
      exact Or.inl (List.mem_map.2 ⟨n, hn, rfl⟩)
    have he2 : ∀ e ∈ entriesFrom (i + 1) as, e ∈ entriesFrom i (a :: as) := by
      intro e h
      rw [entriesFrom, List.mem_append]
      exact Or.inr h
    have hown : ∀ e ∈ entriesFrom (i + 1) as, i + 1 ≤ e.own := by
      intro e h
      obtain ⟨k, -, h1, -⟩ := entriesFrom_own (i + 1) as e h
      omega
    have hfold : ∀ x, a.neigh.foldl (Verif.Rescale.density I P i a.typ) s.1 x =
        s.1 x + (a.neigh.map fun n => densityOn (toEam I P) ⟨i, a.typ, n⟩ x).sum := by
      intro x
      by_cases hnil : a.neigh = []
      · simp [hnil]
      · obtain ⟨n0, hn0⟩ := List.exists_mem_of_ne_nil _ hnil
        exact density_fold I P i a.typ (he _ (he1 n0 hn0)).2.2 a.neigh
          (fun n hn => ⟨(he _ (he1 n hn)).1, (he _ (he1 n hn)).2.1⟩) s.1 x
    rw [Verif.Rescale.rangeAtoms]
    obtain ⟨ih1, ih2⟩ := ih (i + 1) (a.neigh.foldl (Verif.Rescale.density I P i a.typ) s.1,
      s.2.add a.typ (a.neigh.foldl (Verif.Rescale.density I P i a.typ) s.1 i)) fun e h => he e (he2 e h)
    simp only at ih1 ih2 ⊢
    refine ⟨fun u => ⟨(rangeAdd_le _ _ _ u).1.trans (ih1 u).1, (ih1 u).2.trans (rangeAdd_le _ _ _ u).2⟩, ?_⟩
    intro k b hk
    have hsum : ∀ x, ((entriesFrom i (a :: as)).map fun e => densityOn (toEam I P) e x).sum =
        (a.neigh.map fun n => densityOn (toEam I P) ⟨i, a.typ, n⟩ x).sum +
        ((entriesFrom (i + 1) as).map fun e => densityOn (toEam I P) e x).sum := by
      intro x
      rw [entriesFrom, List.map_append, List.sum_append, List.map_map]
      rfl
    cases k with
    | zero =>
      simp only [List.getElem?_cons_zero, Option.some.injEq] at hk
      subst hk
      rw [hsum]
      simp only [Nat.add_zero]
      rw [densityOn_other I P (entriesFrom (i + 1) as) i (fun e h => by
        have h1 := hown e h
        have h2 := (he e (he2 e h)).1
        omega), add_zero, ← hfold]
      obtain ⟨r1, r2⟩ := rangeAdd_in s.2 a.typ (a.neigh.foldl (Verif.Rescale.density I P i a.typ) s.1 i)
      exact ⟨(ih1 a.typ).2.trans r1, r2.trans (ih1 a.typ).1⟩
    | succ k =>
      simp only [List.getElem?_cons_succ] at hk
      obtain ⟨j1, j2⟩ := ih2 k b hk
      rw [hsum, ← add_assoc, ← hfold, show i + (k + 1) = i + 1 + k by omega]
      exact ⟨j1, j2⟩

theorem ranges_spec (I : Interp K) (P : Pot K) (big : K) (confs : List (Conf K))
    (he : ∀ c ∈ confs, ∀ e ∈ entries c, e.own < e.n.nr ∧ e.n.typ < P.ntypes ∧ e.otyp < P.ntypes) :
    ∀ c ∈ confs, ∀ k a, c.atoms[k]? = some a →
      (Verif.Rescale.ranges I P big confs).min a.typ ≤ totalDensity (toEam I P) c (c.start + k) ∧
      totalDensity (toEam I P) c (c.start + k) ≤ (Verif.Rescale.ranges I P big confs).max a.typ := by
  unfold Verif.Rescale.ranges
  generalize (⟨fun _ => -big, fun _ => big⟩ : Range K) = g
  have mono : ∀ (l : List (Conf K)), (∀ c ∈ l, ∀ e ∈ entries c, e.own < e.n.nr ∧ e.n.typ < P.ntypes ∧ e.otyp < P.ntypes) →
      ∀ (g : Range K) u, g.max u ≤ (l.foldl (fun g c => (Verif.Rescale.rangeAtoms I P c.atoms c.start (fun _ => 0, g)).2) g).max u ∧
      (l.foldl (fun g c => (Verif.Rescale.rangeAtoms I P c.atoms c.start (fun _ => 0, g)).2) g).min u ≤ g.min u := by
    intro l
    induction l with
    | nil => intro _ g u; exact ⟨le_rfl, le_rfl⟩
    | cons c l ih =>
      intro hl g u
      rw [List.foldl_cons]
      obtain ⟨h1, h2⟩ := ih (fun c hc => hl c (by simp [hc])) (Verif.Rescale.rangeAtoms I P c.atoms c.start (fun _ => 0, g)).2 u
      obtain ⟨h3, -⟩ := rangeAtoms_spec I P c.atoms c.start (fun _ => 0, g) (hl c (by simp))
      exact ⟨(h3 u).1.trans h1, h2.trans (h3 u).2⟩
  induction confs generalizing g with
  | nil => intro c hc; simp at hc
  | cons c0 l ih =>
    intro c hc k a hk
    rw [List.foldl_cons]
    rcases List.mem_cons.1 hc with rfl | hc
    · obtain ⟨-, h2⟩ := rangeAtoms_spec I P c.atoms c.start (fun _ => 0, g) (he c (by simp))
      obtain ⟨h3, h4⟩ := h2 k a hk
      obtain ⟨h5, h6⟩ := mono l (fun c hc => he c (by simp [hc])) (Verif.Rescale.rangeAtoms I P c.atoms c.start (fun _ => 0, g)).2 a.typ
      simp only [zero_add] at h3 h4
      exact ⟨h6.trans h3, h4.trans h5⟩
    · exact ih (fun c hc => he c (by simp [hc])) _ c hc k a hk

/-- **C45, range.** If no atom is a neighbour of itself, the scaled density of every atom lies in the range of the new embedding function,
for both signs of the factor. -/
theorem C45_range (I : Interp K) (P : Pot K) (big upper : K) (flag : Bool) (confs : List (Conf K)) (ch : Choice K)
    (hch : Verif.Rescale.choose P big upper flag (Verif.Rescale.ranges I P big confs) = .ok ch) (hsign : if ch.pos then 0 < ch.a else ch.a < 0)
    (P' : Pot K) (lam : Nat → K) (h : Verif.Rescale.change I P ch = .ok (P', lam)) (hstep : ∀ t, 0 ≤ (P.emb t).step)
    (he : ∀ c ∈ confs, ∀ e ∈ entries c, e.own < e.n.nr ∧ e.n.typ < P.ntypes ∧ e.otyp < P.ntypes)
    (c : Conf K) (hc : c ∈ confs) (k : Nat) (a : Atom K) (hk : c.atoms[k]? = some a) (hty : a.typ < P.ntypes) :
    (P'.emb a.typ).beg ≤ ch.a * totalDensity (toEam I P) c (c.start + k) ∧
    ch.a * totalDensity (toEam I P) c (c.start + k) ≤ (P'.emb a.typ).fin := by
  obtain ⟨r1, r2⟩ := ranges_spec I P big confs he c hc k a hk
  have hlr : ch.left a.typ = (Verif.Rescale.ranges I P big confs).min a.typ - 3 / 10 * (P.emb a.typ).step ∧
      ch.right a.typ = (Verif.Rescale.ranges I P big confs).max a.typ + 3 / 10 * (P.emb a.typ).step := by
    unfold Verif.Rescale.choose at hch
    simp only [bind, Except.bind, pure, Except.pure, cdiv] at hch
    split_ifs at hch <;> (simp only [Except.ok.injEq] at hch; rw [← hch]; exact ⟨rfl, rfl⟩)
  have hs := hstep a.typ
  have hl : ch.left a.typ ≤ totalDensity (toEam I P) c (c.start + k) := by rw [hlr.1]; linarith
  have hr : totalDensity (toEam I P) c (c.start + k) ≤ ch.right a.typ := by rw [hlr.2]; linarith
  have ha : ch.a ≠ 0 := by
    intro h0
    rw [h0] at hsign
    split at hsign <;> exact lt_irrefl _ hsign
  obtain ⟨emb, -, h1, h2, -, -⟩ := change_spec I P ch P' lam h
  obtain ⟨-, -, hb, hf⟩ := emb_nodes I (P.emb a.typ) (emb a.typ) ch.pos ch.a _ _ ha (h1 _ hty)
  rw [h2 _ hty]
  simp only [Verif.Rescale.gaugeEmb]
  rw [hb, hf]
  cases hp : ch.pos with
  | true =>
    rw [hp] at hsign
    simp only [if_true] at hsign ⊢
    exact ⟨mul_le_mul_of_nonneg_left hl hsign.le, mul_le_mul_of_nonneg_left hr hsign.le⟩
  | false =>
    rw [hp] at hsign
    simp only [Bool.false_eq_true, if_false] at hsign ⊢
    exact ⟨mul_le_mul_of_nonpos_left hr hsign.le, mul_le_mul_of_nonpos_left hl hsign.le⟩

/-- `embed_shift` lowers all values by the same number. -/
theorem C45_shift (I : Interp K) (T : Tab K) : ∃ v, (∀ j, (Verif.Rescale.embedShift I T).y j = T.y j - v) ∧
    (T.beg ≤ 0 → v = I.val T 0) ∧ (0 < T.beg → (Verif.Rescale.embedShift I T).y 0 = 0) := by
  refine ⟨_, fun j => rfl, fun h => if_pos h, fun h => ?_⟩
  unfold Verif.Rescale.embedShift
  simp [not_le.2 h]

/-! ### Concrete data -/

/-- Three knots with distance 1 from `b` on. -/
def exTab (b y0 y1 y2 gl gr : ℚ) : Tab ℚ := ⟨b, b + 2, 1, 3, fun j => b + j, fun j => if j = 0 then y0 else if j = 1 then y1 else y2, gl, gr⟩

/-- One type of atom: no pair function, transfer function 2, 1, 0, embedding function 0, 1, 4. -/
def exGauge : Pot ℚ := ⟨1, fun _ => exTab 1 0 0 0 (10 ^ 30) 0, fun _ => exTab 1 2 1 0 (10 ^ 30) 0, fun _ => exTab 0 0 1 4 (10 ^ 30) (10 ^ 30)⟩

/-- Two atoms at distance `r`. -/
def exPair (r : ℚ) : Conf ℚ where
  start := 0
  atoms := [⟨0, [⟨1, 0, r, ![r, 0, 0], ![1, 0, 0], 0, 1⟩], 0, true⟩, ⟨0, [], 0, true⟩]
  uf := false
  us := false
  weight := 1
  vol := 1
  force0 := fun _ => 0
  energy0 := 0
  stress0 := fun _ => 0
  limit0 := 0
  chem := 0

/-- One atom next to its own image at distance `r`. -/
def exSelf (r : ℚ) : Conf ℚ := { exPair r with atoms := [⟨0, [⟨0, 0, r, ![r, 0, 0], ![1, 0, 0], 0, 1⟩], 0, true⟩] }

def exRescale : Build := ⟨false, false, false, true, false, false⟩

def exState : EamState ℚ := ⟨⟨fun _ => 0, fun _ => 0, fun _ _ => 0, fun _ => 0⟩, fun _ => 0, fun _ => 0⟩

def exEnergy (P : Pot ℚ) (c : Conf ℚ) : ℚ := (eamConf exRescale (toEam codeSpline P) 1 1 0 c exState).1.fv.energy 0

/-- **C45 is violated between the knots.** After `rescale` the energy of a configuration which was used to find the range is another one,
although all densities are inside of the tables: the new embedding function goes through resampled values. -/
theorem C45_violated : (match Verif.Rescale.rescale codeSpline (10 ^ 100) 1 false [exPair 1, exPair 2] exGauge with
    | .ok (a, P') => decide (0 < a ∧ exEnergy P' (exPair 2) ≠ exEnergy exGauge (exPair 2) ∧
        (P'.emb 0).beg ≤ a * totalDensity (toEam codeSpline exGauge) (exPair 2) 0 ∧
        a * totalDensity (toEam codeSpline exGauge) (exPair 2) 0 ≤ (P'.emb 0).fin)
    | .error _ => false) = true := by decide +kernel

/-- **The range is violated for atoms which are neighbours of their own images**: `rescale` leaves these entries out. -/
theorem C45_range_violated : (match Verif.Rescale.rescale codeSpline (10 ^ 100) 1 false [exSelf 2] exGauge with
    | .ok (a, P') => decide (0 < a ∧ (P'.emb 0).fin < a * totalDensity (toEam codeSpline exGauge) (exSelf 2) 0)
    | .error _ => false) = true := by decide +kernel

/-- The choice for the configuration `exPair 1`: all densities are 2. -/
def exChoice : Choice ℚ := ⟨true, fun _ => 17 / 10, fun _ => 23 / 10, 10 / 23, true⟩

example : (match Verif.Rescale.choose exGauge (10 ^ 100) 1 false (Verif.Rescale.ranges codeSpline exGauge (10 ^ 100) [exPair 1]) with
    | .ok c => decide (c.pos = true ∧ c.left 0 = 17 / 10 ∧ c.right 0 = 23 / 10 ∧ c.a = 10 / 23 ∧ c.update = true)
    | .error _ => false) = true := by decide +kernel

def exNew : Pot ℚ × (Nat → ℚ) := match Verif.Rescale.change codeSpline exGauge exChoice with
  | .ok r => r
  | .error _ => (exGauge, fun _ => 0)

theorem exNew_ok : Verif.Rescale.change codeSpline exGauge exChoice = .ok (exNew.1, exNew.2) := by
  unfold exNew
  cases h : Verif.Rescale.change codeSpline exGauge exChoice with
  | ok r => rfl
  | error e =>
    have : (match Verif.Rescale.change codeSpline exGauge exChoice with
      | .ok _ => true
      | .error _ => false) = true := by decide +kernel
    rw [h] at this
    simp at this

theorem exTab_increasing (b y0 y1 y2 gl gr : ℚ) : Increasing (exTab b y0 y1 y2 gl gr) :=
  ⟨Nat.le_succ 2, fun k _ => by simp [exTab]⟩

/-- A configuration on the grid: both atoms have density 2, in the new units the middle of the three knots. -/
example : exEnergy exNew.1 (exPair 1) = exEnergy exGauge (exPair 1) := by
  refine C45_partial codeSpline codeSpline_exact exGauge exChoice (by simp [exChoice]) exNew.1 exNew.2 exNew_ok (by simp [exChoice])
    (fun t _ => ⟨Nat.le_succ 2, by simp [exChoice]; norm_num⟩)
    (fun t _ => ⟨exTab_increasing .., Or.inl le_rfl, rfl⟩) (fun i _ => exTab_increasing ..) exRescale rfl 1 1 0 (exPair 1)
    exState exState (by unfold HalfList; decide +kernel) (by unfold EamColumns; decide +kernel) ?_ ⟨by decide +kernel, by decide +kernel, ?_, ?_, ?_⟩
  · intro e he
    have : e = ⟨0, 0, ⟨1, 0, 1, ![1, 0, 0], ![1, 0, 0], 0, 1⟩⟩ := by simpa [entries, entriesFrom, exPair] using he
    subst this
    exact ⟨1, _, rfl, rfl, rfl⟩
  · intro k at_ hk
    match k with
    | 0 =>
      obtain rfl := Option.some.inj hk
      exact ⟨Nat.one_pos, 1, by decide, by decide +kernel⟩
    | 1 =>
      obtain rfl := Option.some.inj hk
      exact ⟨Nat.one_pos, 1, by decide, by decide +kernel⟩
    | k + 2 => simp [exPair] at hk
  · intro k at_ hk
    match k with
    | 0 => obtain rfl := Option.some.inj hk; decide +kernel
    | 1 => obtain rfl := Option.some.inj hk; decide +kernel
    | k + 2 => simp [exPair] at hk
  · intro k at_ hk
    match k with
    | 0 => obtain rfl := Option.some.inj hk; decide +kernel
    | 1 => obtain rfl := Option.some.inj hk; decide +kernel
    | k + 2 => simp [exPair] at hk

/-- An embedding function with given slopes, and densities below zero: the slope at the left end of the new function has the wrong sign. -/
def exSlopes : Pot ℚ := { exGauge with emb := fun _ => exTab (-2) 4 1 0 (-4) 1 }
def exNegative : Choice ℚ := ⟨false, fun _ => -2, fun _ => 0, -1 / 2, true⟩

example : (match Verif.Rescale.change codeSpline exSlopes exNegative with
    | .ok (P', lam) => decide ((P'.emb 0).beg = 0 ∧ (P'.emb 0).gl = 2 - lam 0 ∧
        codeSpline.grad (exSlopes.emb 0) 0 = 1 ∧ codeSpline.grad (exSlopes.emb 0) 0 / exNegative.a - lam 0 = -2 - lam 0)
    | .error _ => false) = true := by decide +kernel

/-- The range of two configurations without self images. -/
example : (match Verif.Rescale.rescale codeSpline (10 ^ 100) 1 false [exPair 1, exPair 2] exGauge with
    | .ok (a, P') => decide ((P'.emb 0).beg = a * (7 / 10) ∧ (P'.emb 0).fin = 1 ∧
        totalDensity (toEam codeSpline exGauge) (exPair 1) 1 = 2 ∧ totalDensity (toEam codeSpline exGauge) (exPair 2) 1 = 1)
    | .error _ => false) = true := by decide +kernel

end Verif.Props
