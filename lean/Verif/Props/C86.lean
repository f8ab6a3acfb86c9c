/-
C86  Rescaling of MEAM potentials.
-/
import Verif.Model.RescaleMeam
import Verif.Props.C45
import Verif.Lemmas.FullRun
import Verif.Props.C63

set_option linter.unusedSectionVars false

namespace Verif.Props

open Verif.Force Verif.Spec Verif.PairIndex
open Verif.Rescale (Tab Pot MeamPot Interp Choice Range)

variable {K : Type*} [Field K] [LinearOrder K] [IsStrictOrderedRing K]

/-! ### Specification -/

/-- Embedding energy of an atom and its slope as functions of the density. -/
def siteEmbed (b : Build) (P : AngPots K) (a : Atom K) (x : K) : Embed K := meamEmbed b P.toEamPots (P.paircol + P.ntypes + a.typ) x

/-- Energy of a configuration: half of the pair functions of all entries, and the embedding functions at the densities. -/
def meamEnergy (b : Build) (P : AngPots K) (c : Conf K) : K :=
  (c.atoms.map fun a => (a.neigh.map fun n => if n.r < P.fin n.col0 then 1 / 2 * P.val n.col0 n.r else 0).sum +
    (siteEmbed b P a (siteDensity P a)).value).sum

/-- `P'` is `P` with all densities scaled by `a`, as far as the configuration `c` is concerned: same pair functions and same functions
`f`, the functions `rho` and `g` multiplied by `a`. -/
structure Scaled (P P' : AngPots K) (a : K) (c : Conf K) : Prop where
  pair : ∀ at_ ∈ c.atoms, ∀ n ∈ at_.neigh, P'.fin n.col0 = P.fin n.col0 ∧ P'.val n.col0 n.r = P.val n.col0 n.r ∧
    P'.grad n.col0 n.r = P.grad n.col0 n.r
  rho : ∀ at_ ∈ c.atoms, ∀ n ∈ at_.neigh, P'.fin n.col1 = P.fin n.col1 ∧ P'.val n.col1 n.r = a * P.val n.col1 n.r ∧
    P'.grad n.col1 n.r = a * P.grad n.col1 n.r
  f : ∀ at_ ∈ c.atoms, ∀ n ∈ at_.neigh, P'.fin (P'.fcol n.col0) = P.fin (P.fcol n.col0) ∧
    P'.val (P'.fcol n.col0) n.r = P.val (P.fcol n.col0) n.r ∧ P'.grad (P'.fcol n.col0) n.r = P.grad (P.fcol n.col0) n.r
  g : ∀ at_ ∈ c.atoms, ∀ x, P'.val (P'.gcol at_.typ) x = a * P.val (P.gcol at_.typ) x ∧
    P'.grad (P'.gcol at_.typ) x = a * P.grad (P.gcol at_.typ) x

/-! ### The force routine with a scaled potential -/

theorem pairsOf_mem {α : Type*} (l : List α) (p : α × α) (h : p ∈ pairsOf l) : p.1 ∈ l ∧ p.2 ∈ l := by
  induction l with
  | nil => simp [pairsOf] at h
  | cons x l ih =>
    rw [pairsOf, List.mem_append] at h
    rcases h with h | h
    · obtain ⟨y, hy, rfl⟩ := List.mem_map.1 h
      exact ⟨by simp, by simp [hy]⟩
    · obtain ⟨h1, h2⟩ := ih h
      exact ⟨by simp [h1], by simp [h2]⟩

theorem scaled_density {P P' : AngPots K} {a : K} {c : Conf K} (h : Scaled P P' a c) (at_ : Atom K) (ha : at_ ∈ c.atoms) :
    siteDensity P' at_ = a * siteDensity P at_ := by
  unfold siteDensity
  rw [mul_add, ← List.sum_map_mul_left, ← List.sum_map_mul_left]
  congr 1
  · refine congrArg List.sum (List.map_congr_left fun n hn => ?_)
    obtain ⟨h1, h2, -⟩ := h.rho at_ ha n hn
    rw [h1, h2, mul_ite, mul_zero]
  · refine congrArg List.sum (List.map_congr_left fun p hp => ?_)
    obtain ⟨m1, m2⟩ := pairsOf_mem _ p hp
    obtain ⟨f1, f2, -⟩ := h.f at_ ha p.1 m1
    obtain ⟨g1, g2, -⟩ := h.f at_ ha p.2 m2
    rw [f1, f2, g1, g2, (h.g at_ ha _).1]
    ring

theorem fullPair_energy (b : Build) (P : Pots K) (uf us : Bool) (i : Nat) (l : List (Neigh K)) (s : Acc K) :
    (l.foldl (fullPair b false P uf us i) s).energy =
      s.energy + (l.map fun n => if n.r < P.fin n.col0 then 1 / 2 * P.val n.col0 n.r else 0).sum := by
  induction l generalizing s with
  | nil => simp
  | cons n l ih =>
    rw [List.foldl_cons, ih, List.map_cons, List.sum_cons, ← add_assoc]
    congr 1
    unfold fullPair
    by_cases h : n.r < P.fin n.col0
    · cases uf <;> simp [h]
    · simp [h]

theorem meamLoop_energy (b : Build) (P : AngPots K) (c : Conf K) (l : List (Atom K)) (i : Nat) (s : MeamAcc K) :
    (atomLoop (meamAtom b P c) l i s).acc.energy = s.acc.energy +
      (l.map fun a => (a.neigh.map fun n => if n.r < P.fin n.col0 then 1 / 2 * P.val n.col0 n.r else 0).sum +
        (siteEmbed b P a (siteDensity P a)).value).sum := by
  induction l generalizing i s with
  | nil => simp [atomLoop]
  | cons a l ih =>
    rw [atomLoop, ih, List.map_cons, List.sum_cons, ← add_assoc]
    congr 1
    have hr : ∀ g n (s : Acc K), (meamRadial b P c.us g i s n).energy = s.energy := by
      intro g n s
      unfold meamRadial
      by_cases h : n.r < P.fin n.col1 <;> simp [h]
    unfold meamAtom siteEmbed
    rw [meamDensity_spec]
    by_cases hu : c.uf = true
    · simp only [hu, if_true]
      refine (keeps_pairs (g := fun s : Acc K => s.energy) a.neigh (fun x y s => (rfl : (meamAngle b P c.us _ i a.typ s x y).energy = s.energy)) _).trans ?_
      refine (keeps_foldl (g := Acc.energy) a.neigh (fun n s => hr _ n s) _).trans ?_
      simp only [fullPair_energy, add_assoc]
    · simp only [hu, if_false, Bool.false_eq_true, fullPair_energy, add_assoc]

/-- **C86, energy.** What the force routine reports for a configuration. -/
theorem C86_energy (b : Build) (P : AngPots K) (ew sw : K) (ci : Nat) (c : Conf K) (fv : FV K) :
    (meamConf b P ew sw ci c fv).1.energy ci = meamEnergy b P c / (c.atoms.length : K) - c.energy0 := by
  have hk := closeLoop_keep (fun i a s => closeAtomAlways b c a i s) (fun i a s => (closeAtomAlways_keep b c a i s).1)
    (fun i a s => (closeAtomAlways_keep b c a i s).2.1) (fun i a s => (closeAtomAlways_keep b c a i s).2.2)
    c.atoms c.start (atomLoop (meamAtom b P c) c.atoms c.start ⟨⟨resetForces c fv.force, 0, 0, 0⟩, -c.limit0, 0⟩).acc
  unfold meamConf closeConfAlways
  simp only [Function.update_self]
  have e : ((atomLoop (meamAtom b P c) c.atoms c.start ⟨⟨resetForces c fv.force, 0, 0, 0⟩, -c.limit0, 0⟩).acc).energy = meamEnergy b P c := by
    rw [meamLoop_energy]
    simp only [zero_add]
    rfl
  by_cases hb : b.stress = true
  · simp only [if_pos hb, hk.1, e]
  · simp only [if_neg hb, hk.1, e]

/-- **C86, change of the energy.** For a scaled potential the energy changes, in every configuration, exactly by the differences between
the new embedding functions at the scaled densities and the old ones at the old densities. -/
theorem C86_difference (b : Build) (P P' : AngPots K) (a : K) (c : Conf K) (h : Scaled P P' a c) :
    meamEnergy b P' c = meamEnergy b P c +
      (c.atoms.map fun at_ => (siteEmbed b P' at_ (a * siteDensity P at_)).value - (siteEmbed b P at_ (siteDensity P at_)).value).sum := by
  unfold meamEnergy
  rw [← List.sum_map_add]
  refine congrArg List.sum (List.map_congr_left fun at_ ha => ?_)
  have e : (at_.neigh.map fun n => if n.r < P'.fin n.col0 then 1 / 2 * P'.val n.col0 n.r else 0) =
      at_.neigh.map fun n => if n.r < P.fin n.col0 then 1 / 2 * P.val n.col0 n.r else 0 := by
    refine List.map_congr_left fun n hn => ?_
    obtain ⟨h1, h2, -⟩ := h.pair at_ ha n hn
    rw [h1, h2]
  rw [scaled_density h at_ ha, e]
  ring

theorem foldl_eq {α σ : Type*} (f g : σ → α → σ) (l : List α) (s : σ) (h : ∀ x ∈ l, ∀ s, f s x = g s x) : l.foldl f s = l.foldl g s := by
  induction l generalizing s with
  | nil => rfl
  | cons x l ih =>
    rw [List.foldl_cons, List.foldl_cons, h x (by simp), ih _ fun y hy => h y (by simp [hy])]

theorem pairsLoop_eq {α σ : Type*} (f g : σ → α → α → σ) (l : List α) (s : σ) (h : ∀ x ∈ l, ∀ y ∈ l, ∀ s, f s x y = g s x y) :
    pairsLoop (fun _ => true) f l s = pairsLoop (fun _ => true) g l s := by
  induction l generalizing s with
  | nil => rfl
  | cons x l ih =>
    rw [pairsLoop, pairsLoop]
    simp only [if_true]
    rw [foldl_eq (fun s y => f s x y) (fun s y => g s x y) l s fun y hy s => h x (by simp) y (by simp [hy]) s]
    exact ih _ fun x hx y hy s => h x (by simp [hx]) y (by simp [hy]) s

theorem scaled_atom (b : Build) {P P' : AngPots K} {a : K} (ha0 : a ≠ 0) {c : Conf K} (h : Scaled P P' a c) (at_ : Atom K)
    (ha : at_ ∈ c.atoms) (hv : (siteEmbed b P' at_ (a * siteDensity P at_)).value = (siteEmbed b P at_ (siteDensity P at_)).value)
    (hg : (siteEmbed b P' at_ (a * siteDensity P at_)).grad = (siteEmbed b P at_ (siteDensity P at_)).grad / a) (i : Nat) (s s' : MeamAcc K)
    (hs : s'.acc = s.acc) : (meamAtom b P' c i at_ s').acc = (meamAtom b P c i at_ s).acc := by
  have e1 : ∀ t : Acc K, at_.neigh.foldl (fullPair b false P'.toPots c.uf c.us i) t = at_.neigh.foldl (fullPair b false P.toPots c.uf c.us i) t := by
    intro t
    refine foldl_eq _ _ _ _ fun n hn t => ?_
    obtain ⟨h1, h2, h3⟩ := h.pair at_ ha n hn
    unfold fullPair
    rw [h1, h2, h3]
  have e2 : ∀ g (t : Acc K), at_.neigh.foldl (meamRadial b P' c.us (g / a) i) t = at_.neigh.foldl (meamRadial b P c.us g i) t := by
    intro g t
    refine foldl_eq _ _ _ _ fun n hn t => ?_
    obtain ⟨h1, -, h3⟩ := h.rho at_ ha n hn
    unfold meamRadial
    rw [h1, h3]
    have : ∀ k, n.distR k * (a * P.grad n.col1 n.r * (g / a)) = n.distR k * (P.grad n.col1 n.r * g) := by
      intro k
      field_simp
    simp only [this]
  have e3 : ∀ g (t : Acc K), pairsLoop (fun _ => true) (meamAngle b P' c.us (g / a) i at_.typ) at_.neigh t =
      pairsLoop (fun _ => true) (meamAngle b P c.us g i at_.typ) at_.neigh t := by
    intro g t
    refine pairsLoop_eq _ _ _ _ fun x hx y hy t => ?_
    obtain ⟨f1, f2, f3⟩ := h.f at_ ha x hx
    obtain ⟨g1, g2, g3⟩ := h.f at_ ha y hy
    have p1 : ∀ k, g / a * angPull P' at_.typ x y k = g * angPull P at_.typ x y k := by
      intro k
      unfold angPull angF angDf
      rw [f1, f2, f3, g1, g2, (h.g at_ ha _).1, (h.g at_ ha _).2]
      field_simp
    have p2 : ∀ k, g / a * angPullK P' at_.typ x y k = g * angPullK P at_.typ x y k := by
      intro k
      unfold angPullK angF angDf
      rw [f1, f2, g3, g1, g2, (h.g at_ ha _).1, (h.g at_ ha _).2]
      field_simp
    unfold meamAngle
    simp only [p1, p2]
  have hd := scaled_density h at_ ha
  unfold siteEmbed at hv hg
  unfold meamAtom
  rw [meamDensity_spec, meamDensity_spec, hd, hs]
  simp only [hv, hg, e1, e2, e3]

/-- **C86, forces.** If in addition the new embedding functions have at the scaled densities the old values and the old slopes divided by
the factor, then the force routine reports the same forces, the same energy and the same stresses. -/
theorem C86_forces (b : Build) (P P' : AngPots K) (a : K) (ha : a ≠ 0) (ew sw : K) (ci : Nat) (c : Conf K) (fv : FV K) (h : Scaled P P' a c)
    (hv : ∀ at_ ∈ c.atoms, (siteEmbed b P' at_ (a * siteDensity P at_)).value = (siteEmbed b P at_ (siteDensity P at_)).value)
    (hg : ∀ at_ ∈ c.atoms, (siteEmbed b P' at_ (a * siteDensity P at_)).grad = (siteEmbed b P at_ (siteDensity P at_)).grad / a) :
    (meamConf b P' ew sw ci c fv).1.force = (meamConf b P ew sw ci c fv).1.force ∧
    (meamConf b P' ew sw ci c fv).1.energy = (meamConf b P ew sw ci c fv).1.energy ∧
    (meamConf b P' ew sw ci c fv).1.stress = (meamConf b P ew sw ci c fv).1.stress := by
  have key : ∀ (l : List (Atom K)) (i : Nat) (s s' : MeamAcc K), (∀ at_ ∈ l, at_ ∈ c.atoms) → s'.acc = s.acc →
      (atomLoop (meamAtom b P' c) l i s').acc = (atomLoop (meamAtom b P c) l i s).acc := by
    intro l
    induction l with
    | nil => intro i s s' _ hs; exact hs
    | cons x l ih =>
      intro i s s' hl hs
      rw [atomLoop, atomLoop]
      refine ih _ _ _ (fun y hy => hl y (by simp [hy])) ?_
      have hx := hl x (by simp)
      exact scaled_atom b ha h x hx (hv x hx) (hg x hx) i s s' hs
  have := key c.atoms c.start ⟨⟨resetForces c fv.force, 0, 0, 0⟩, -c.limit0, 0⟩ ⟨⟨resetForces c fv.force, 0, 0, 0⟩, -c.limit0, 0⟩
    (fun _ h => h) rfl
  unfold meamConf
  simp only [this]
  exact ⟨trivial, trivial, trivial⟩

/-! ### What `rescale` does to the tables -/

theorem meamChange_spec (I : Interp K) (P : MeamPot K) (c : Choice K) (P' : MeamPot K) (h : Verif.Rescale.meamChange I P c = .ok P') :
    P'.ntypes = P.ntypes ∧ P'.pair = P.pair ∧ P'.f = P.f ∧
      (∀ t < P.ntypes, (do let S ← Verif.Rescale.resample I (P.emb t) (c.left t) (c.right t)
                           Verif.Rescale.scaleEmb c.pos c.a (c.left t) (c.right t) S) = .ok (P'.emb t)) ∧
      (∀ t < P.ntypes, P'.rho t = Verif.Rescale.scaleBoth c.a (P.rho t)) ∧
      (∀ t < P.ntypes, P'.g t = Verif.Rescale.scaleBoth c.a (P.g t)) := by
  unfold Verif.Rescale.meamChange at h
  cases he : Verif.Rescale.eachType P.ntypes (fun i => do
      let T ← Verif.Rescale.resample I (P.emb i) (c.left i) (c.right i)
      Verif.Rescale.scaleEmb c.pos c.a (c.left i) (c.right i) T) P.emb with
  | error e =>
    rw [he] at h
    simp [bind, Except.bind] at h
  | ok emb =>
    rw [he] at h
    simp only [bind, Except.bind, pure, Except.pure, Except.ok.injEq] at h
    rw [← h]
    refine ⟨rfl, rfl, rfl, eachType_spec _ _ _ _ he, fun t ht => ?_, fun t ht => ?_⟩
    · simp [ht]
    · simp [ht]

/-- **C86, tables.** After `rescale` with factor `a`: every value of the functions `rho` and `g` is multiplied by `a`; every value of an
embedding function is the old function at the unscaled density; the pair functions and the functions `f` are unchanged. This holds for
both signs of `a` and any spline routine. -/
theorem C86_tables (I : Interp K) (P : MeamPot K) (c : Choice K) (ha : c.a ≠ 0) (P' : MeamPot K) (h : Verif.Rescale.meamChange I P c = .ok P') :
    P'.pair = P.pair ∧ P'.f = P.f ∧
    (∀ t < P.ntypes, ∀ j, (P'.rho t).y j = c.a * (P.rho t).y j ∧ (P'.rho t).x j = (P.rho t).x j) ∧
    (∀ t < P.ntypes, ∀ j, (P'.g t).y j = c.a * (P.g t).y j ∧ (P'.g t).x j = (P.g t).x j) ∧
    (∀ t < P.ntypes, ∀ j < (P.emb t).n, (P'.emb t).y j = I.val (P.emb t) ((P'.emb t).x j / c.a)) := by
  obtain ⟨-, h1, h2, h3, h4, h5⟩ := meamChange_spec I P c P' h
  refine ⟨h1, h2, fun t ht j => ?_, fun t ht j => ?_, fun t ht j hj => ?_⟩
  · rw [h4 t ht]
    exact ⟨rfl, rfl⟩
  · rw [h5 t ht]
    exact ⟨rfl, rfl⟩
  · exact (emb_nodes I (P.emb t) (P'.emb t) c.pos c.a _ _ ha (h3 t ht)).2.1 j hj

/-- **C86, slopes at the ends.** With the dominant side positive the slopes at both ends of an embedding function are those of the
function in the scaled density. -/
theorem C86_slopes (I : Interp K) (P : MeamPot K) (c : Choice K) (ha : c.a ≠ 0) (hpos : c.pos = true) (P' : MeamPot K)
    (h : Verif.Rescale.meamChange I P c = .ok P') (t : Nat) (ht : t < P.ntypes)
    (hl : (P.emb t).gl < Verif.Rescale.free) (hr : (P.emb t).gr < Verif.Rescale.free)
    (hl' : I.grad (P.emb t) (c.left t) < Verif.Rescale.free) (hr' : I.grad (P.emb t) (c.right t) < Verif.Rescale.free) :
    (P'.emb t).gl = I.grad (P.emb t) ((P'.emb t).beg / c.a) / c.a ∧ (P'.emb t).gr = I.grad (P.emb t) ((P'.emb t).fin / c.a) / c.a := by
  obtain ⟨-, -, -, h3, -, -⟩ := meamChange_spec I P c P' h
  exact (emb_slopes I (P.emb t) (P'.emb t) c.a _ _ ha hl hr hl' hr' c.pos (h3 t ht)).1 hpos

/-- **C86, slopes with negative dominant side: violated.** The slope at the left end has the wrong sign, whenever it does not vanish. -/
theorem C86_slopes_violated (I : Interp K) (P : MeamPot K) (c : Choice K) (ha : c.a ≠ 0) (hpos : c.pos = false) (P' : MeamPot K)
    (h : Verif.Rescale.meamChange I P c = .ok P') (t : Nat) (ht : t < P.ntypes)
    (hl : (P.emb t).gl < Verif.Rescale.free) (hr : (P.emb t).gr < Verif.Rescale.free)
    (hl' : I.grad (P.emb t) (c.left t) < Verif.Rescale.free) (hr' : I.grad (P.emb t) (c.right t) < Verif.Rescale.free)
    (hne : I.grad (P.emb t) (c.right t) ≠ 0) :
    (P'.emb t).gl = -(I.grad (P.emb t) ((P'.emb t).beg / c.a) / c.a) ∧ (P'.emb t).gl ≠ I.grad (P.emb t) ((P'.emb t).beg / c.a) / c.a := by
  obtain ⟨-, -, -, h3, -, -⟩ := meamChange_spec I P c P' h
  have hs := (emb_slopes I (P.emb t) (P'.emb t) c.a _ _ ha hl hr hl' hr' c.pos (h3 t ht)).2 hpos
  obtain ⟨-, -, hb, -⟩ := emb_nodes I (P.emb t) (P'.emb t) c.pos c.a _ _ ha (h3 t ht)
  rw [hpos] at hb
  simp only [Bool.false_eq_true, if_false] at hb
  have e1 : (P'.emb t).beg / c.a = c.right t := by rw [hb, mul_div_cancel_left₀ _ ha]
  refine ⟨hs.1, fun he => ?_⟩
  rw [hs.1, e1] at he
  have h0 : I.grad (P.emb t) (c.right t) / c.a ≠ 0 := div_ne_zero hne ha
  exact h0 (by linarith)

/-! ### The rescaled potential in the force routine -/

/-- The potential as the force routine sees it: pair functions, `rho`, embedding functions, `f`, `g`. -/
def toMeam (I : Interp K) (P : MeamPot K) : AngPots K :=
  let pc := paircol P.ntypes
  let tab : Nat → Tab K := fun col =>
    if col < pc then P.pair col else if col < pc + P.ntypes then P.rho (col - pc) else if col < pc + 2 * P.ntypes then P.emb (col - pc - P.ntypes)
    else if col < 2 * pc + 2 * P.ntypes then P.f (col - pc - 2 * P.ntypes) else P.g (col - 2 * pc - 2 * P.ntypes)
  { fin := fun col => (tab col).fin
    beg := fun col => (tab col).beg
    step := fun col => (tab col).step
    val := fun col r => I.val (tab col) r
    grad := fun col r => I.grad (tab col) r
    paircol := pc
    ntypes := P.ntypes
    ana := fun _ _ => (0, 0)
    fcol := fun col => pc + 2 * P.ntypes + col
    gcol := fun t => 2 * pc + 2 * P.ntypes + t }

/-- The columns stored with the neighbours are those of the types. -/
def MeamColumns (nt : Nat) (c : Conf K) : Prop :=
  ∀ a ∈ c.atoms, a.typ < nt ∧ ∀ n ∈ a.neigh, n.typ < nt ∧ n.col0 = pairCol nt a.typ n.typ ∧ n.col1 = paircol nt + n.typ

/-- Both slopes at the ends are marked as free, or too small to be taken for that mark, before and after scaling. -/
def BothEnds (a : K) (T : Tab K) : Prop :=
  (Verif.Rescale.free ≤ T.gl ∨ T.gl ≤ 99 * 10 ^ 28 ∧ T.gl * a ≤ 99 * 10 ^ 28) ∧
  (Verif.Rescale.free ≤ T.gr ∨ T.gr ≤ 99 * 10 ^ 28 ∧ T.gr * a ≤ 99 * 10 ^ 28)

/-- The spline routine is homogeneous. -/
structure Homogeneous (I : Interp K) : Prop where
  val : ∀ (T : Tab K) (a r : K), Increasing T → BothEnds a T → I.val (Verif.Rescale.scaleBoth a T) r = a * I.val T r
  grad : ∀ (T : Tab K) (a r : K), Increasing T → BothEnds a T → I.grad (Verif.Rescale.scaleBoth a T) r = a * I.grad T r

/-- **C86, densities.** With homogeneous splines the rescaled potential gives in every configuration the scaled densities and the same
pair functions. -/
theorem C86_scaled (I : Interp K) (hI : Homogeneous I) (P : MeamPot K) (ch : Choice K) (P' : MeamPot K)
    (h : Verif.Rescale.meamChange I P ch = .ok P')
    (hrho : ∀ t < P.ntypes, Increasing (P.rho t) ∧ BothEnds ch.a (P.rho t)) (hg : ∀ t < P.ntypes, Increasing (P.g t) ∧ BothEnds ch.a (P.g t))
    (c : Conf K) (hc : MeamColumns P.ntypes c) : Scaled (toMeam I P) (toMeam I P') ch.a c := by
  obtain ⟨h0, h1, h2, -, h4, h5⟩ := meamChange_spec I P ch P' h
  have hpc : ∀ at_ ∈ c.atoms, ∀ n ∈ at_.neigh, n.col0 < paircol P.ntypes := by
    intro at_ ha n hn
    obtain ⟨a1, a2⟩ := hc at_ ha
    obtain ⟨b1, b2, -⟩ := a2 n hn
    exact b2 ▸ C01_in_range a1 b1
  refine ⟨fun at_ ha n hn => ?_, fun at_ ha n hn => ?_, fun at_ ha n hn => ?_, fun at_ ha x => ?_⟩
  · have hlt := hpc at_ ha n hn
    unfold toMeam
    simp only [h0, h1, if_pos hlt]
    exact ⟨trivial, trivial, trivial⟩
  · obtain ⟨b1, -, b3⟩ := (hc at_ ha).2 n hn
    have g1 : ¬ paircol P.ntypes + n.typ < paircol P.ntypes := by omega
    have g2 : paircol P.ntypes + n.typ < paircol P.ntypes + P.ntypes := by omega
    have g3 : paircol P.ntypes + n.typ - paircol P.ntypes = n.typ := by omega
    unfold toMeam
    simp only [h0, b3, if_neg g1, if_pos g2, g3, h4 _ b1]
    exact ⟨rfl, hI.val _ _ _ (hrho _ b1).1 (hrho _ b1).2, hI.grad _ _ _ (hrho _ b1).1 (hrho _ b1).2⟩
  · have hlt := hpc at_ ha n hn
    have g1 : ¬ paircol P.ntypes + 2 * P.ntypes + n.col0 < paircol P.ntypes := by omega
    have g2 : ¬ paircol P.ntypes + 2 * P.ntypes + n.col0 < paircol P.ntypes + P.ntypes := by omega
    have g3 : ¬ paircol P.ntypes + 2 * P.ntypes + n.col0 < paircol P.ntypes + 2 * P.ntypes := by omega
    have g4 : paircol P.ntypes + 2 * P.ntypes + n.col0 < 2 * paircol P.ntypes + 2 * P.ntypes := by omega
    unfold toMeam
    simp only [h0, if_neg g1, if_neg g2, if_neg g3, if_pos g4, h2]
    exact ⟨trivial, trivial, trivial⟩
  · have b1 := (hc at_ ha).1
    have g1 : ¬ 2 * paircol P.ntypes + 2 * P.ntypes + at_.typ < paircol P.ntypes := by omega
    have g2 : ¬ 2 * paircol P.ntypes + 2 * P.ntypes + at_.typ < paircol P.ntypes + P.ntypes := by omega
    have g3 : ¬ 2 * paircol P.ntypes + 2 * P.ntypes + at_.typ < paircol P.ntypes + 2 * P.ntypes := by omega
    have g4 : ¬ 2 * paircol P.ntypes + 2 * P.ntypes + at_.typ < 2 * paircol P.ntypes + 2 * P.ntypes := by omega
    have g5 : 2 * paircol P.ntypes + 2 * P.ntypes + at_.typ - 2 * paircol P.ntypes - 2 * P.ntypes = at_.typ := by omega
    unfold toMeam
    simp only [h0, if_neg g1, if_neg g2, if_neg g3, if_neg g4, g5, h5 _ b1]
    exact ⟨hI.val _ _ _ (hg _ b1).1 (hg _ b1).2, hI.grad _ _ _ (hg _ b1).1 (hg _ b1).2⟩

theorem siteEmbed_inside (b : Build) (hb : b.apot = false) (I : Interp K) (P : MeamPot K) (a : Atom K) (hty : a.typ < P.ntypes) (x : K)
    (h1 : (P.emb a.typ).beg ≤ x) (h2 : x ≤ (P.emb a.typ).fin) :
    (siteEmbed b (toMeam I P) a x).value = I.val (P.emb a.typ) x ∧ (siteEmbed b (toMeam I P) a x).grad = I.grad (P.emb a.typ) x := by
  have g1 : ¬ paircol P.ntypes + P.ntypes + a.typ < paircol P.ntypes := by omega
  have g2 : ¬ paircol P.ntypes + P.ntypes + a.typ < paircol P.ntypes + P.ntypes := by omega
  have g3 : paircol P.ntypes + P.ntypes + a.typ < paircol P.ntypes + 2 * P.ntypes := by omega
  have g4 : paircol P.ntypes + P.ntypes + a.typ - paircol P.ntypes - P.ntypes = a.typ := by omega
  unfold siteEmbed meamEmbed embed toMeam
  simp only [if_neg g1, if_neg g2, if_pos g3, g4, hb, not_lt.2 h1, not_lt.2 h2, if_false, Bool.false_eq_true]
  by_cases hr : b.rescale = true <;> simp [hr]

/-- **C86 on the grid.** The energy of a configuration whose densities, in units of the new potential, are nodes of the new embedding
functions within the ranges of both is not changed by `rescale`. Distances and angles are arbitrary. Missing for the full claim:
densities between the nodes, where the energy changes by the interpolation error (`C86_difference`), see `C86_violated`. -/
theorem C86_partial (I : Interp K) (hI : Homogeneous I) (hE : Exact I) (P : MeamPot K) (ch : Choice K) (P' : MeamPot K)
    (h : Verif.Rescale.meamChange I P ch = .ok P') (hsign : if ch.pos then 0 < ch.a else ch.a < 0)
    (hlr : ∀ t < P.ntypes, 2 ≤ (P.emb t).n ∧ ch.left t < ch.right t)
    (hrho : ∀ t < P.ntypes, Increasing (P.rho t) ∧ BothEnds ch.a (P.rho t)) (hg : ∀ t < P.ntypes, Increasing (P.g t) ∧ BothEnds ch.a (P.g t))
    (b : Build) (hb : b.apot = false) (ew sw : K) (ci : Nat) (c : Conf K) (hc : MeamColumns P.ntypes c) (fv fv' : FV K)
    (hnode : ∀ a ∈ c.atoms, ∃ j < (P.emb a.typ).n, ch.a * siteDensity (toMeam I P) a = (P'.emb a.typ).x j)
    (hold : ∀ a ∈ c.atoms, (P.emb a.typ).beg ≤ siteDensity (toMeam I P) a ∧ siteDensity (toMeam I P) a ≤ (P.emb a.typ).fin)
    (hnew : ∀ a ∈ c.atoms, (P'.emb a.typ).beg ≤ ch.a * siteDensity (toMeam I P) a ∧ ch.a * siteDensity (toMeam I P) a ≤ (P'.emb a.typ).fin) :
    (meamConf b (toMeam I P') ew sw ci c fv').1.energy ci = (meamConf b (toMeam I P) ew sw ci c fv).1.energy ci := by
  have ha : ch.a ≠ 0 := by
    intro h0
    rw [h0] at hsign
    split at hsign <;> exact lt_irrefl _ hsign
  obtain ⟨h0, -, -, h3, -, -⟩ := meamChange_spec I P ch P' h
  have ht := (C86_tables I P ch ha P' h).2.2.2.2
  rw [C86_energy, C86_energy, C86_difference b _ _ ch.a c (C86_scaled I hI P ch P' h hrho hg c hc)]
  suffices hz : (c.atoms.map fun at_ => (siteEmbed b (toMeam I P') at_ (ch.a * siteDensity (toMeam I P) at_)).value -
      (siteEmbed b (toMeam I P) at_ (siteDensity (toMeam I P) at_)).value).sum = 0 by rw [hz, add_zero]
  apply List.sum_eq_zero
  intro y hy
  obtain ⟨a, hm, rfl⟩ := List.mem_map.1 hy
  have hty := (hc a hm).1
  obtain ⟨j, hj, hx⟩ := hnode a hm
  obtain ⟨o1, o2⟩ := hold a hm
  obtain ⟨n1, n2⟩ := hnew a hm
  rw [(siteEmbed_inside b hb I P' a (h0 ▸ hty) _ n1 n2).1, (siteEmbed_inside b hb I P a hty _ o1 o2).1]
  have hn := (emb_nodes I (P.emb a.typ) (P'.emb a.typ) ch.pos ch.a _ _ ha (h3 _ hty)).1
  have hi := emb_increasing I (P.emb a.typ) (P'.emb a.typ) ch.pos ch.a _ _ hsign (hlr _ hty).1 (hlr _ hty).2 (h3 _ hty)
  have v : I.val (P'.emb a.typ) (ch.a * siteDensity (toMeam I P) a) = (P'.emb a.typ).y j := by
    rw [hx]
    exact hE.node _ hi j (hn ▸ hj)
  rw [v, ht _ hty j hj, ← hx, mul_div_cancel_left₀ _ ha, sub_self]

/-! ### The splines of the code -/

open Verif.Splines in
theorem second_scale_both (x y : Nat → K) (n : Nat) (a g g' q q' : K)
    (hg : isNatural g ∧ isNatural g' ∨ ¬ isNatural g ∧ ¬ isNatural g' ∧ g' = a * g)
    (hq : isNatural q ∧ isNatural q' ∨ ¬ isNatural q ∧ ¬ isNatural q' ∧ q' = a * q) (k : Nat) :
    Verif.Splines.second x (fun j => a * y j) n g' q' k = a * Verif.Splines.second x y n g q k := by
  unfold Verif.Splines.second
  induction n - 1 - k with
  | zero =>
    unfold back last
    rcases hq with ⟨q1, q2⟩ | ⟨q1, q2, q3⟩
    · rw [if_pos q1, if_pos q2, mul_zero]
    · rw [if_neg q1, if_neg q2, fwd_scale x y a g g' hg, q3]
      ring
  | succ j ih =>
    rw [back, back, ih, fwd_scale x y a g g' hg]
    ring

open Verif.Splines in
theorem splintGradNe_scale (c c' : Column K) (xi : Nat → K) (a r : K) (h1 : c'.xcoord = c.xcoord) (h2 : c'.first = c.first) (h3 : c'.last = c.last)
    (h4 : ∀ k, c'.d2tab k = a * c.d2tab k) :
    splintGradNe c' (fun j => a * xi j) r = (splintGradNe c xi r).map (a * ·) := by
  unfold splintGradNe
  rw [h1, h2, h3]
  simp only [Column.rd, h2, h3, h4]
  generalize bisect c.xcoord r c.first c.last = b
  by_cases h0 : c.xcoord b.2 - c.xcoord b.1 = 0
  · simp [cdiv, h0, bind, Except.bind, Except.map]
  · simp only [cdiv_ok h0]
    by_cases g1 : c.first ≤ b.1 ∧ b.1 ≤ c.last
    · by_cases g2 : c.first ≤ b.2 ∧ b.2 ≤ c.last
      · simp only [bind, Except.bind, pure, Except.pure, g1, g2, and_self, if_true, Except.map, Except.ok.injEq]
        ring
      · simp only [bind, Except.bind, g1, g2, and_self, if_true, if_false, Except.map]
    · simp only [bind, Except.bind, g1, if_false, Except.map]

theorem end_scale (a g : K) (h : Verif.Rescale.free ≤ g ∨ g ≤ 99 * 10 ^ 28 ∧ g * a ≤ 99 * 10 ^ 28) :
    Verif.Splines.isNatural g ∧ Verif.Splines.isNatural (if g < Verif.Rescale.free then g * a else g) ∨
    ¬ Verif.Splines.isNatural g ∧ ¬ Verif.Splines.isNatural (if g < Verif.Rescale.free then g * a else g) ∧
      (if g < Verif.Rescale.free then g * a else g) = a * g := by
  have h99 : (99 * 10 ^ 28 : K) < 10 ^ 30 := by norm_num
  unfold Verif.Splines.isNatural
  rcases h with hf | ⟨hf, hf'⟩
  · have hf1 : (10 ^ 30 : K) ≤ g := hf
    rw [if_neg (not_lt.2 hf)]
    exact Or.inl ⟨by linarith, by linarith⟩
  · have hlt : g < Verif.Rescale.free := by
      show g < 10 ^ 30
      linarith
    rw [if_pos hlt]
    exact Or.inr ⟨not_lt.2 hf, not_lt.2 hf', mul_comm _ _⟩

theorem column_scaleBoth (T : Tab K) (a : K) (h : Increasing T) (he : BothEnds a T) (k : Nat) :
    (column (Verif.Rescale.scaleBoth a T)).d2tab k = a * (column T).d2tab k := by
  have hi : Increasing (Verif.Rescale.scaleBoth a T) := ⟨h.two, h.lt⟩
  rw [column_d2 _ hi, column_d2 _ h]
  exact second_scale_both T.x T.y T.n a _ _ _ _ (end_scale a T.gl he.1) (end_scale a T.gr he.2) k

/-- The splines of the code are homogeneous. -/
theorem codeSpline_homogeneous : Homogeneous (codeSpline (K := K)) := by
  refine ⟨fun T a r h he => ?_, fun T a r h he => ?_⟩
  · have := splintNe_scale (column T) (column (Verif.Rescale.scaleBoth a T)) T.y a r rfl rfl rfl (column_scaleBoth T a h he)
    have e3 : (Verif.Rescale.scaleBoth a T).y = fun j => a * T.y j := rfl
    unfold codeSpline
    simp only [e3, this]
    cases Verif.Splines.splintNe (column T) T.y r with
    | ok v => rfl
    | error e => simp [Except.map]
  · have := splintGradNe_scale (column T) (column (Verif.Rescale.scaleBoth a T)) T.y a r rfl rfl rfl (column_scaleBoth T a h he)
    have e3 : (Verif.Rescale.scaleBoth a T).y = fun j => a * T.y j := rfl
    unfold codeSpline
    simp only [e3, this]
    cases Verif.Splines.splintGradNe (column T) T.y r with
    | ok v => rfl
    | error e => simp [Except.map]

/-! ### The range of the new embedding functions -/

theorem meamRho_spec (I : Interp K) (P : MeamPot K) (c : Conf K) (hc : MeamColumns P.ntypes c) (a : Atom K) (ha : a ∈ c.atoms) :
    Verif.Rescale.meamRho I P a = siteDensity (toMeam I P) a := by
  obtain ⟨hty, hn⟩ := hc a ha
  rw [← meamDensity_spec]
  unfold Verif.Rescale.meamRho meamDensity
  have e1 : a.neigh.foldl (fun rho n => if n.r < (P.rho n.typ).fin then rho + I.val (P.rho n.typ) n.r else rho) 0 =
      a.neigh.foldl (fun rho n => if n.r < (toMeam I P).fin n.col1 then rho + (toMeam I P).val n.col1 n.r else rho) 0 := by
    refine foldl_eq _ _ _ _ fun n hm s => ?_
    obtain ⟨b1, -, b3⟩ := hn n hm
    have g1 : ¬ paircol P.ntypes + n.typ < paircol P.ntypes := by omega
    have g2 : paircol P.ntypes + n.typ < paircol P.ntypes + P.ntypes := by omega
    have g3 : paircol P.ntypes + n.typ - paircol P.ntypes = n.typ := by omega
    unfold toMeam
    simp only [b3, if_neg g1, if_pos g2, g3]
  have e2 : ∀ n ∈ a.neigh, Verif.Rescale.fValue I P a.typ n = angF (toMeam I P) n := by
    intro n hm
    obtain ⟨b1, b2, -⟩ := hn n hm
    have hlt : n.col0 < paircol P.ntypes := b2 ▸ C01_in_range hty b1
    have g1 : ¬ paircol P.ntypes + 2 * P.ntypes + n.col0 < paircol P.ntypes := by omega
    have g2 : ¬ paircol P.ntypes + 2 * P.ntypes + n.col0 < paircol P.ntypes + P.ntypes := by omega
    have g3 : ¬ paircol P.ntypes + 2 * P.ntypes + n.col0 < paircol P.ntypes + 2 * P.ntypes := by omega
    have g4 : paircol P.ntypes + 2 * P.ntypes + n.col0 < 2 * paircol P.ntypes + 2 * P.ntypes := by omega
    have g5 : paircol P.ntypes + 2 * P.ntypes + n.col0 - paircol P.ntypes - 2 * P.ntypes = n.col0 := by omega
    have e : (if a.typ ≤ n.typ then a.typ * P.ntypes + n.typ - a.typ * (a.typ + 1) / 2 else n.typ * P.ntypes + a.typ - n.typ * (n.typ + 1) / 2) =
        n.col0 := b2.symm
    unfold Verif.Rescale.fValue angF toMeam
    simp only [e, if_neg g1, if_neg g2, if_neg g3, if_pos g4, g5]
  rw [e1]
  refine pairsLoop_eq _ _ _ _ fun x hx y hy s => ?_
  have g1 : ¬ 2 * paircol P.ntypes + 2 * P.ntypes + a.typ < paircol P.ntypes := by omega
  have g2 : ¬ 2 * paircol P.ntypes + 2 * P.ntypes + a.typ < paircol P.ntypes + P.ntypes := by omega
  have g3 : ¬ 2 * paircol P.ntypes + 2 * P.ntypes + a.typ < paircol P.ntypes + 2 * P.ntypes := by omega
  have g4 : ¬ 2 * paircol P.ntypes + 2 * P.ntypes + a.typ < 2 * paircol P.ntypes + 2 * P.ntypes := by omega
  have g5 : 2 * paircol P.ntypes + 2 * P.ntypes + a.typ - 2 * paircol P.ntypes - 2 * P.ntypes = a.typ := by omega
  rw [e2 x hx, e2 y hy]
  congr 2
  unfold toMeam
  simp only [if_neg g1, if_neg g2, if_neg g3, if_neg g4, g5]

theorem meamRanges_spec (I : Interp K) (P : MeamPot K) (big : K) (confs : List (Conf K)) (c : Conf K) (hc : c ∈ confs) (a : Atom K)
    (ha : a ∈ c.atoms) :
    (Verif.Rescale.meamRanges I P big confs).min a.typ ≤ Verif.Rescale.meamRho I P a ∧
    Verif.Rescale.meamRho I P a ≤ (Verif.Rescale.meamRanges I P big confs).max a.typ := by
  have mono : ∀ (l : List (Atom K)) (g : Range K) u,
      g.max u ≤ (l.foldl (fun g a => g.add a.typ (Verif.Rescale.meamRho I P a)) g).max u ∧
      (l.foldl (fun g a => g.add a.typ (Verif.Rescale.meamRho I P a)) g).min u ≤ g.min u := by
    intro l
    induction l with
    | nil => intro g u; exact ⟨le_rfl, le_rfl⟩
    | cons x l ih =>
      intro g u
      obtain ⟨h1, h2⟩ := rangeAdd_le g x.typ (Verif.Rescale.meamRho I P x) u
      obtain ⟨h3, h4⟩ := ih (g.add x.typ (Verif.Rescale.meamRho I P x)) u
      exact ⟨h1.trans h3, h4.trans h2⟩
  have inn : ∀ (l : List (Atom K)) (g : Range K), ∀ a ∈ l,
      (l.foldl (fun g a => g.add a.typ (Verif.Rescale.meamRho I P a)) g).min a.typ ≤ Verif.Rescale.meamRho I P a ∧
      Verif.Rescale.meamRho I P a ≤ (l.foldl (fun g a => g.add a.typ (Verif.Rescale.meamRho I P a)) g).max a.typ := by
    intro l
    induction l with
    | nil => intro g a h; simp at h
    | cons x l ih =>
      intro g a h
      rcases List.mem_cons.1 h with rfl | h
      · obtain ⟨h1, h2⟩ := rangeAdd_in g a.typ (Verif.Rescale.meamRho I P a)
        obtain ⟨h3, h4⟩ := mono l (g.add a.typ (Verif.Rescale.meamRho I P a)) a.typ
        exact ⟨h4.trans h1, h2.trans h3⟩
      · exact ih _ a h
  have monoc : ∀ (l : List (Conf K)) (g : Range K) u,
      g.max u ≤ (l.foldl (fun g c => c.atoms.foldl (fun g a => g.add a.typ (Verif.Rescale.meamRho I P a)) g) g).max u ∧
      (l.foldl (fun g c => c.atoms.foldl (fun g a => g.add a.typ (Verif.Rescale.meamRho I P a)) g) g).min u ≤ g.min u := by
    intro l
    induction l with
    | nil => intro g u; exact ⟨le_rfl, le_rfl⟩
    | cons x l ih =>
      intro g u
      obtain ⟨h1, h2⟩ := mono x.atoms g u
      obtain ⟨h3, h4⟩ := ih (x.atoms.foldl (fun g a => g.add a.typ (Verif.Rescale.meamRho I P a)) g) u
      exact ⟨h1.trans h3, h4.trans h2⟩
  unfold Verif.Rescale.meamRanges
  generalize (⟨fun _ => -big, fun _ => big⟩ : Range K) = g
  induction confs generalizing g with
  | nil => simp at hc
  | cons x l ih =>
    rcases List.mem_cons.1 hc with rfl | hc
    · obtain ⟨h1, h2⟩ := inn c.atoms g a ha
      obtain ⟨h3, h4⟩ := monoc l (c.atoms.foldl (fun g a => g.add a.typ (Verif.Rescale.meamRho I P a)) g) a.typ
      exact ⟨h4.trans h1, h2.trans h3⟩
    · exact ih hc _

/-- **C86, range.** The scaled density of every atom of every configuration lies in the range of the new embedding function, for both
signs of the factor. Unlike in EAM (`C45_range_violated`) this includes atoms which are neighbours of their own images. -/
theorem C86_range (I : Interp K) (P : MeamPot K) (big upper : K) (flag : Bool) (confs : List (Conf K)) (ch : Choice K)
    (hch : Verif.Rescale.choose P.toPot big upper flag (Verif.Rescale.meamRanges I P big confs) = .ok ch)
    (hsign : if ch.pos then 0 < ch.a else ch.a < 0)
    (P' : MeamPot K) (h : Verif.Rescale.meamChange I P ch = .ok P') (hstep : ∀ t, 0 ≤ (P.emb t).step)
    (hcol : ∀ c ∈ confs, MeamColumns P.ntypes c) (c : Conf K) (hc : c ∈ confs) (a : Atom K) (hk : a ∈ c.atoms) :
    (P'.emb a.typ).beg ≤ ch.a * siteDensity (toMeam I P) a ∧ ch.a * siteDensity (toMeam I P) a ≤ (P'.emb a.typ).fin := by
  have hty := (hcol c hc a hk).1
  obtain ⟨r1, r2⟩ := meamRanges_spec I P big confs c hc a hk
  rw [meamRho_spec I P c (hcol c hc) a hk] at r1 r2
  have hlr : ch.left a.typ = (Verif.Rescale.meamRanges I P big confs).min a.typ - 3 / 10 * (P.emb a.typ).step ∧
      ch.right a.typ = (Verif.Rescale.meamRanges I P big confs).max a.typ + 3 / 10 * (P.emb a.typ).step := by
    unfold Verif.Rescale.choose at hch
    simp only [bind, Except.bind, pure, Except.pure, cdiv] at hch
    split_ifs at hch <;> (simp only [Except.ok.injEq] at hch; rw [← hch]; exact ⟨rfl, rfl⟩)
  have hs := hstep a.typ
  have hl : ch.left a.typ ≤ siteDensity (toMeam I P) a := by rw [hlr.1]; linarith
  have hr : siteDensity (toMeam I P) a ≤ ch.right a.typ := by rw [hlr.2]; linarith
  have ha : ch.a ≠ 0 := by
    intro h0
    rw [h0] at hsign
    split at hsign <;> exact lt_irrefl _ hsign
  obtain ⟨-, -, -, h3, -, -⟩ := meamChange_spec I P ch P' h
  obtain ⟨-, -, hb, hf⟩ := emb_nodes I (P.emb a.typ) (P'.emb a.typ) ch.pos ch.a _ _ ha (h3 _ hty)
  rw [hb, hf]
  cases hp : ch.pos with
  | true =>
    rw [hp] at hsign
    simp only [if_true] at hsign ⊢
    exact ⟨mul_le_mul_of_nonneg_left hl hsign.le, mul_le_mul_of_nonneg_left hr hsign.le⟩
  | false =>
    rw [hp] at hsign
    simp only [Bool.false_eq_true, if_false] at hsign ⊢
    exact ⟨mul_le_mul_of_nonpos_left hr hsign.le, mul_le_mul_of_nonpos_left hl hsign.le⟩

/-- **C86, no update.** If nothing is to be done `rescale` returns 0 and leaves the potential alone; then all densities are already within
the ranges of the embedding functions. -/
theorem C86_unchanged (I : Interp K) (P P' : MeamPot K) (big upper a : K) (flag : Bool) (confs : List (Conf K)) (ch : Choice K)
    (hch : Verif.Rescale.choose P.toPot big upper flag (Verif.Rescale.meamRanges I P big confs) = .ok ch) (hu : ch.update = false)
    (h : Verif.Rescale.meamRescale I big upper flag confs P = .ok (a, P')) (hcol : ∀ c ∈ confs, MeamColumns P.ntypes c) :
    a = 0 ∧ P' = P ∧ ∀ c ∈ confs, ∀ x ∈ c.atoms,
      (P.emb x.typ).beg ≤ siteDensity (toMeam I P) x ∧ siteDensity (toMeam I P) x ≤ (P.emb x.typ).fin := by
  unfold Verif.Rescale.meamRescale at h
  rw [hch] at h
  simp only [bind, Except.bind, hu, Bool.false_eq_true, if_false, pure, Except.pure, Except.ok.injEq, Prod.mk.injEq] at h
  refine ⟨h.1.symm, h.2.symm, fun c hc x hx => ?_⟩
  have hty := (hcol c hc x hx).1
  obtain ⟨r1, r2⟩ := meamRanges_spec I P big confs c hc x hx
  rw [meamRho_spec I P c (hcol c hc) x hx] at r1 r2
  generalize Verif.Rescale.meamRanges I P big confs = g at hch r1 r2
  have hany : ((List.range P.ntypes).any fun i => Verif.Rescale.needed (P.emb i) (g.min i) (g.max i)) = false := by
    unfold Verif.Rescale.choose at hch
    simp only [bind, Except.bind, pure, Except.pure, cdiv] at hch
    split_ifs at hch <;> (simp only [Except.ok.injEq] at hch; rw [← hch] at hu; simp only [Bool.or_eq_false_iff] at hu; exact hu.1.1.2)
  have hn : Verif.Rescale.needed (P.emb x.typ) (g.min x.typ) (g.max x.typ) = false := by
    rw [List.any_eq_false] at hany
    simpa using hany x.typ (List.mem_range.2 hty)
  unfold Verif.Rescale.needed at hn
  simp only [Bool.or_eq_false_iff, decide_eq_false_iff_not] at hn
  obtain ⟨⟨⟨n1, -⟩, n3⟩, -⟩ := hn
  constructor
  · linarith [not_lt.1 n1]
  · linarith [not_lt.1 n3]

/-! ### Concrete data -/

/-- One type of atom, `g` at the right angle being `v`; three knots each. -/
def exMeam (v : ℚ) : MeamPot ℚ where
  ntypes := 1
  pair := fun _ => exTab 1 3 1 0 (10 ^ 30) 0
  rho := fun _ => exTab 1 2 1 0 (10 ^ 30) 0
  emb := fun _ => ⟨1, 4, 3 / 2, 3, fun j => 1 + 3 / 2 * j, fun j => if j = 0 then 0 else if j = 1 then 1 else 4, 10 ^ 30, 10 ^ 30⟩
  f := fun _ => exTab 1 1 0 0 (10 ^ 30) 0
  g := fun _ => exTab (-1) 0 v 1 (10 ^ 30) 5

def exCorner : Conf ℚ := cornerConf true true 0 1

theorem exCorner_columns : MeamColumns 1 exCorner := by
  unfold MeamColumns
  decide +kernel

/-- The three atoms have density 2. -/
def meamChoice : Choice ℚ := ⟨true, fun _ => 31 / 20, fun _ => 49 / 20, 20 / 49, true⟩

example : (match Verif.Rescale.choose (exMeam (-2)).toPot (10 ^ 100) 1 false
      (Verif.Rescale.meamRanges codeSpline (exMeam (-2)) (10 ^ 100) [exCorner]) with
    | .ok c => decide (c.pos = true ∧ c.left 0 = 31 / 20 ∧ c.right 0 = 49 / 20 ∧ c.a = 20 / 49 ∧ c.update = true)
    | .error _ => false) = true := by decide +kernel

def meamNew : MeamPot ℚ := match Verif.Rescale.meamChange codeSpline (exMeam (-2)) meamChoice with
  | .ok r => r
  | .error _ => exMeam 0

theorem meamNew_ok : Verif.Rescale.meamChange codeSpline (exMeam (-2)) meamChoice = .ok meamNew := by
  unfold meamNew
  cases h : Verif.Rescale.meamChange codeSpline (exMeam (-2)) meamChoice with
  | ok r => rfl
  | error e =>
    have : (match Verif.Rescale.meamChange codeSpline (exMeam (-2)) meamChoice with
      | .ok _ => true
      | .error _ => false) = true := by decide +kernel
    rw [h] at this
    simp at this

def exFv : FV ℚ := ⟨fun _ => 0, fun _ => 0, fun _ _ => 0, fun _ => 0⟩

/-- Hypotheses of `C86_partial`: all densities are 2, in the new units the middle of the three knots. -/
example : (meamConf exRescale (toMeam codeSpline meamNew) 1 1 0 exCorner exFv).1.energy 0 =
    (meamConf exRescale (toMeam codeSpline (exMeam (-2))) 1 1 0 exCorner exFv).1.energy 0 :=
  C86_partial codeSpline codeSpline_homogeneous codeSpline_exact (exMeam (-2)) meamChoice meamNew meamNew_ok (by simp [meamChoice])
    (fun t _ => ⟨Nat.le_succ 2, by simp [meamChoice]; norm_num⟩)
    (fun t _ => ⟨exTab_increasing .., Or.inl le_rfl, Or.inr ⟨by simp [exMeam, exTab], by simp [exMeam, exTab]⟩⟩)
    (fun t _ => ⟨exTab_increasing .., Or.inl le_rfl, Or.inr ⟨by simp only [exMeam, exTab]; norm_num, by simp only [exMeam, exTab, meamChoice]; norm_num⟩⟩)
    exRescale rfl 1 1 0 exCorner exCorner_columns exFv exFv
    (by
      have : ∀ a ∈ exCorner.atoms, 1 < ((exMeam (-2)).emb a.typ).n ∧
          meamChoice.a * siteDensity (toMeam codeSpline (exMeam (-2))) a = (meamNew.emb a.typ).x 1 := by decide +kernel
      exact fun a ha => ⟨1, this a ha⟩)
    (by decide +kernel) (by decide +kernel)

def exMeamEnergy (P : MeamPot ℚ) : ℚ := (meamConf exRescale (toMeam codeSpline P) 1 1 0 exCorner exFv).1.energy 0

/-- **C86 is violated between the knots.** After `rescale` the energy of the configuration which was used to find the range is another one,
although all densities are inside of the tables: the new embedding function goes through resampled values. -/
theorem C86_violated : (match Verif.Rescale.meamRescale codeSpline (10 ^ 100) 1 false [exCorner] (exMeam (-1)) with
    | .ok (a, P') => decide (0 < a ∧ exMeamEnergy P' ≠ exMeamEnergy (exMeam (-1)) ∧
        ∀ x ∈ exCorner.atoms, (P'.emb 0).beg ≤ a * siteDensity (toMeam codeSpline (exMeam (-1))) x ∧
          a * siteDensity (toMeam codeSpline (exMeam (-1))) x ≤ (P'.emb 0).fin ∧
          ((exMeam (-1)).emb 0).beg ≤ siteDensity (toMeam codeSpline (exMeam (-1))) x ∧
          siteDensity (toMeam codeSpline (exMeam (-1))) x ≤ ((exMeam (-1)).emb 0).fin)
    | .error _ => false) = true := by decide +kernel

/-- Functions for which scaling by 2 is exact: the embedding function is linear. -/
def exLinear : AngPots ℚ := { cornerAng with fin := fun col => if col = 2 then 100 else 2 }

def exDouble : AngPots ℚ :=
  { exLinear with
    fin := fun col => if col = 2 then 200 else 2
    val := fun col r => if col = 1 ∨ col = 4 then 2 * (2 - r) else if col = 2 then 2 - r / 2 else 2 - r
    grad := fun col _ => if col = 1 ∨ col = 4 then -2 else if col = 2 then -1 / 2 else -1 }

theorem exDouble_scaled : Scaled exLinear exDouble 2 exCorner := by
  have h0 : ∀ at_ ∈ exCorner.atoms, ∀ n ∈ at_.neigh, n.col0 = 0 ∧ n.col1 = 1 := by decide +kernel
  refine ⟨fun a ha n hn => ?_, fun a ha n hn => ?_, fun a ha n hn => ?_, fun a ha x => ?_⟩
  · rw [(h0 a ha n hn).1]
    simp [exDouble, exLinear, cornerAng]
  · rw [(h0 a ha n hn).2]
    simp [exDouble, exLinear, cornerAng]
  · simp [exDouble, exLinear, cornerAng]
  · simp [exDouble, exLinear, cornerAng]

/-- Hypotheses of `C86_forces`; the forces do not vanish. -/
example : (meamConf exRescale exDouble 1 1 0 exCorner exFv).1.force = (meamConf exRescale exLinear 1 1 0 exCorner exFv).1.force ∧
    (meamConf exRescale exLinear 1 1 0 exCorner exFv).1.force 0 0 ≠ 0 :=
  ⟨(C86_forces exRescale exLinear exDouble 2 (by norm_num) 1 1 0 exCorner exFv exDouble_scaled (by decide +kernel) (by decide +kernel)).1,
    by decide +kernel⟩

/-- An embedding function with given slopes, and densities below zero: the slope at the left end of the new function has the wrong sign. -/
def meamSlopes : MeamPot ℚ := { exMeam 0 with emb := fun _ => exTab (-2) 4 1 0 (-4) 1 }

example : (match Verif.Rescale.meamChange codeSpline meamSlopes exNegative with
    | .ok P' => decide ((P'.emb 0).beg = 0 ∧ (P'.emb 0).gl = 2 ∧ codeSpline.grad (meamSlopes.emb 0) 0 = 1 ∧
        codeSpline.grad (meamSlopes.emb 0) 0 / exNegative.a = -2)
    | .error _ => false) = true := by decide +kernel

/-- No update: the densities are 2 and 3, the range is from 19/10 to 31/10, the factor 1. -/
def meamQuiet : MeamPot ℚ := { exMeam (-1) with emb := fun _ => ⟨19 / 10, 31 / 10, 6 / 10, 3, fun j => 19 / 10 + 6 / 10 * j, fun j => j, 10 ^ 30, 10 ^ 30⟩ }

example : (match Verif.Rescale.choose meamQuiet.toPot (10 ^ 100) (318 / 100) false (Verif.Rescale.meamRanges codeSpline meamQuiet (10 ^ 100) [exCorner]) with
    | .ok c => decide (c.update = false ∧ 0 < c.a)
    | .error _ => false) = true := by decide +kernel

end Verif.Props
