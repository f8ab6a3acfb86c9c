/-
The loops over full neighbour lists add to the running sums amounts which depend on the configuration only.
-/
import Verif.Lemmas.FullList
import Verif.Lemmas.Bond
import Verif.Lemmas.Angular
import Verif.Model.ObjectiveFull
import Verif.Spec.Residual

namespace Verif.Spec

open Verif.Force

set_option linter.unusedSectionVars false

variable {K : Type*} [Field K] [LinearOrder K]

/-- `f` adds fixed amounts to energy, stresses and the forces of atoms satisfying `R`. -/
def Shift (R : Nat → Prop) (f : Acc K → Acc K) : Prop :=
  ∃ E F S, (∀ a, ¬ R a → F a = 0) ∧ ∀ s, f s = plus s E F S

theorem shift_id (R : Nat → Prop) : Shift R (fun s : Acc K => s) :=
  ⟨0, 0, 0, fun _ _ => rfl, fun s => (plus_zero s).symm⟩

theorem shift_comp {R : Nat → Prop} {f g : Acc K → Acc K} (hf : Shift R f) (hg : Shift R g) : Shift R (fun s => g (f s)) := by
  obtain ⟨E, F, S, h0, h⟩ := hf
  obtain ⟨E', F', S', h0', h'⟩ := hg
  refine ⟨E + E', F + F', S + S', fun a ha => ?_, fun s => by simp only [h, h', plus_plus]⟩
  rw [Pi.add_apply, h0 a ha, h0' a ha, add_zero]

theorem shift_ite {R : Nat → Prop} {p : Prop} [Decidable p] {f g : Acc K → Acc K} (hf : Shift R f) (hg : Shift R g) :
    Shift R (fun s => if p then f s else g s) := by
  by_cases h : p
  · simpa only [if_pos h] using hf
  · simpa only [if_neg h] using hg

theorem shift_foldl {α : Type*} {R : Nat → Prop} {f : Acc K → α → Acc K} (l : List α) (h : ∀ x ∈ l, Shift R (fun s => f s x)) :
    Shift R (fun s => l.foldl f s) := by
  induction l with
  | nil => exact shift_id R
  | cons x l ih =>
    exact shift_comp (h x (by simp)) (ih fun y hy => h y (by simp [hy]))

theorem shift_pairs {α : Type*} {R : Nat → Prop} {outer : α → Bool} {f : Acc K → α → α → Acc K} (l : List α)
    (h : ∀ x ∈ l, ∀ y ∈ l, Shift R (fun s => f s x y)) : Shift R (fun s => pairsLoop outer f l s) := by
  induction l with
  | nil => exact shift_id R
  | cons x l ih =>
    refine shift_comp (f := fun s => if outer x then l.foldl (fun s y => f s x y) s else s) ?_
      (ih fun a ha b hb => h a (by simp [ha]) b (by simp [hb]))
    exact shift_ite (shift_foldl l fun y hy => h x (by simp) y (by simp [hy])) (shift_id R)

theorem shift_each {α : Type*} {R : Nat → Prop} {f : Acc K → α → List α → Acc K} (l pre : List α)
    (h : ∀ x ∈ l, ∀ os : List α, (∀ y ∈ os, y ∈ pre ++ l) → Shift R (fun s => f s x os)) :
    Shift R (fun s => eachLoop f pre l s) := by
  induction l generalizing pre with
  | nil => exact shift_id R
  | cons x l ih =>
    refine shift_comp (f := fun s => f s x (pre ++ l)) (h x (by simp) _ ?_) (ih _ ?_)
    · intro y hy
      simp only [List.mem_append, List.mem_cons] at hy ⊢
      rcases hy with hy | hy
      · exact Or.inl hy
      · exact Or.inr (Or.inr hy)
    · intro y hy os hos
      refine h y (by simp [hy]) os fun z hz => ?_
      have := hos z hz
      simp only [List.mem_append, List.mem_cons, List.not_mem_nil, or_false] at this ⊢
      rcases this with (h1 | h1) | h1
      · exact Or.inl h1
      · exact Or.inr (Or.inl h1)
      · exact Or.inr (Or.inr h1)

theorem shift_atoms {R : Nat → Prop} {one : Nat → Atom K → Acc K → Acc K} (l : List (Atom K)) (i : Nat)
    (h : ∀ j a, l[j]? = some a → Shift R (one (i + j) a)) : Shift R (fun s => atomLoop one l i s) := by
  induction l generalizing i with
  | nil => exact shift_id R
  | cons a l ih =>
    refine shift_comp (f := one i a) (by simpa using h 0 a rfl) (ih (i + 1) fun j b hj => ?_)
    have := h (j + 1) b (by simpa using hj)
    rwa [show i + (j + 1) = i + 1 + j by omega] at this

theorem shift_mk {R : Nat → Prop} {f : Acc K → Acc K} (c : Bool) (E : K) (F : Nat → V3 K) (S : Fin 6 → K)
    (hF : ∀ a, ¬ R a → F a = 0)
    (h : ∀ s, f s = ⟨s.force + F, s.energy + E, if c then s.stress + S else s.stress, s.err⟩) : Shift R f := by
  refine ⟨E, F, if c then S else 0, hF, fun s => ?_⟩
  rw [h]
  cases c <;> simp [plus]

theorem single_out {R : Nat → Prop} {i : Nat} (hi : R i) (v : V3 K) (a : Nat) (ha : ¬ R a) : single i v a = 0 := by
  unfold single
  rw [if_neg (by rintro rfl; exact ha hi)]

/-! ### The steps of the routines -/

theorem fullPair_shift {R : Nat → Prop} (b : Build) (sh : Bool) (P : Pots K) (uf us : Bool) {i : Nat} (hi : R i) (n : Neigh K) :
    Shift R (fun s => fullPair b sh P uf us i s n) := by
  unfold fullPair
  by_cases h : n.r < P.fin n.col0
  · simp only [if_pos h]
    cases uf with
    | false => exact shift_mk false _ 0 0 (fun _ _ => rfl) fun s => by simp only [add_zero]; rfl
    | true =>
      refine shift_mk (b.stress && us)
        (1 / 2 * (if (sh && decide (n.nr = i)) = true then P.val n.col0 n.r * (1 / 2) else P.val n.col0 n.r))
        (single i fun c => n.distR c *
        (if (sh && decide (n.nr = i)) = true then P.grad n.col0 n.r * (1 / 2) else P.grad n.col0 n.r))
        (-((1 / 2 : K) • virial n.dist fun c => n.distR c *
        (if (sh && decide (n.nr = i)) = true then P.grad n.col0 n.r * (1 / 2) else P.grad n.col0 n.r)))
        (single_out hi _) fun s => ?_
      simp only [if_true, addAt_eq, sub_eq_add_neg]
  · simp only [if_neg h]; exact shift_id R

theorem swAngle_shift {R : Nat → Prop} (b : Build) (P : SwPots K) (us : Bool) {i : Nat} (typ : Nat) (nj nk : Neigh K)
    (hi : R i) (hj : R nj.nr) (hk : R nk.nr) : Shift R (fun s => swAngle b P us i typ s nj nk) := by
  unfold swAngle
  by_cases h1 : P.lambda typ nj.typ nk.typ = 0
  · simp only [if_pos h1]; exact shift_id R
  · by_cases h2 : nk.r < P.fin3 nk.col0
    · simp only [if_neg h1, if_pos h2, scatter3, addAt_eq, add_assoc, sub_eq_add_neg]
      refine shift_mk (b.stress && us) _ _ _ ?_ fun s => rfl
      intro a ha
      simp only [Pi.add_apply, single_out hi _ a ha, single_out hj _ a ha, single_out hk _ a ha, add_zero]
    · simp only [if_neg h1, if_neg h2]; exact shift_id R

theorem angAngle_shift {R : Nat → Prop} (b : Build) (P : AngPots K) (uf us : Bool) {i : Nat} (typ : Nat) (nj nk : Neigh K)
    (hi : R i) (hj : R nj.nr) (hk : R nk.nr) : Shift R (fun s => angAngle b P uf us i typ s nj nk) := by
  unfold angAngle
  by_cases h2 : nk.r < P.fin (P.fcol nk.col0)
  · simp only [if_pos h2]
    cases uf with
    | false => exact shift_mk false _ 0 0 (fun _ _ => rfl) fun s => by simp only [add_zero]; rfl
    | true =>
      simp only [if_true, scatter3, addAt_eq, add_assoc, sub_eq_add_neg]
      refine shift_mk (b.stress && us) _ _ _ ?_ fun s => rfl
      intro a ha
      simp only [Pi.add_apply, single_out hi _ a ha, single_out hj _ a ha, single_out hk _ a ha, add_zero]
  · simp only [if_neg h2]; exact shift_id R

theorem meamRadial_shift {R : Nat → Prop} (b : Build) (P : AngPots K) (us : Bool) (g : K) {i : Nat} (n : Neigh K)
    (hi : R i) (hn : R n.nr) : Shift R (fun s => meamRadial b P us g i s n) := by
  unfold meamRadial
  by_cases h : n.r < P.fin n.col1
  · simp only [if_pos h, scatter, addAt_eq, add_assoc, sub_eq_add_neg]
    refine shift_mk (b.stress && us) 0 _ _ ?_ fun s => by simp only [add_zero]; rfl
    intro a ha
    simp only [Pi.add_apply, single_out hi _ a ha, single_out hn _ a ha, add_zero]
  · simp only [if_neg h]; exact shift_id R

theorem meamAngle_shift {R : Nat → Prop} (b : Build) (P : AngPots K) (us : Bool) (g : K) {i : Nat} (typ : Nat) (nj nk : Neigh K)
    (hi : R i) (hj : R nj.nr) (hk : R nk.nr) : Shift R (fun s => meamAngle b P us g i typ s nj nk) := by
  unfold meamAngle
  simp only [scatter3, addAt_eq, add_assoc, sub_eq_add_neg]
  refine shift_mk (b.stress && us) 0 _ _ ?_ fun s => by simp only [add_zero]; rfl
  intro a ha
  simp only [Pi.add_apply, single_out hi _ a ha, single_out hj _ a ha, single_out hk _ a ha, add_zero]

theorem energy_shift (R : Nat → Prop) (e : K) : Shift R (fun s : Acc K => { s with energy := s.energy + e }) :=
  shift_mk false e 0 0 (fun _ _ => rfl) fun s => by simp only [add_zero]; rfl

theorem bondSpread_shift {R : Nat → Prop} (b : Build) (cut : Nat → K) (us : Bool) {i : Nat} (w : K) (dz : Neigh K → V3 K)
    (di fj : V3 K) (nj : Neigh K) (others : List (Neigh K)) (hi : R i) (hj : R nj.nr) (ho : ∀ n ∈ others, R n.nr) :
    Shift R (fun s => bondSpread b cut us i w dz di fj nj others s) := by
  unfold bondSpread
  refine shift_comp (shift_foldl others fun nk hk => ?_) (g := fun s => { s with
    force := addAt (addAt s.force nj.nr fj) i fun c => w * di c - fj c
    stress := if b.stress && us then s.stress + virialSym nj.dist fj else s.stress }) ?_
  · refine shift_ite ?_ (shift_id R)
    simp only [addAt_eq]
    exact shift_mk (b.stress && us) 0 _ _ (single_out (ho nk hk) _) fun s => by simp only [add_zero]; rfl
  · simp only [addAt_eq, add_assoc]
    refine shift_mk (b.stress && us) 0 _ _ ?_ fun s => by simp only [add_zero]; rfl
    intro a ha
    simp only [Pi.add_apply, single_out hi _ a ha, single_out hj _ a ha, add_zero]

theorem tersBond_shift {R : Nat → Prop} (b : Build) (L : Lib K) (p : TersPars K) (us : Bool) {i : Nat} (nj : Neigh K)
    (others : List (Neigh K)) (hi : R i) (hj : R nj.nr) (ho : ∀ n ∈ others, R n.nr) :
    Shift R (fun s => tersBond b L p us i s nj others) := by
  unfold tersBond
  refine shift_ite (shift_ite (shift_id R) ?_) (shift_id R)
  exact shift_comp (energy_shift R _) (bondSpread_shift b p.S us _ _ _ _ nj others hi hj ho)

theorem modBond_shift {R : Nat → Prop} (b : Build) (L : Lib K) (p : TersModPars K) (us : Bool) {i : Nat} (nj : Neigh K)
    (others : List (Neigh K)) (hi : R i) (hj : R nj.nr) (ho : ∀ n ∈ others, R n.nr) :
    Shift R (fun s => modBond b L p us i s nj others) := by
  unfold modBond
  refine shift_ite (shift_ite (shift_id R) ?_) (shift_id R)
  exact shift_comp (energy_shift R _) (bondSpread_shift b p.R2 us _ _ _ _ nj others hi hj ho)

/-! ### Atoms -/

section
variable {R : Nat → Prop} {i : Nat} {a : Atom K} (hi : R i) (ha : ∀ n ∈ a.neigh, R n.nr)
include hi ha

theorem swAtom_shift (b : Build) (P : SwPots K) (c : Conf K) : Shift R (swAtom b P c i a) := by
  have h1 : Shift R (fun s => a.neigh.foldl (fullPair b true P.toPots c.uf c.us i) s) :=
    shift_foldl _ fun n _ => fullPair_shift b true P.toPots c.uf c.us hi n
  have h2 : Shift R (fun s => pairsLoop (fun nj => decide (nj.r < P.fin3 nj.col0)) (swAngle b P c.us i a.typ) a.neigh s) :=
    shift_pairs _ fun x hx y hy => swAngle_shift b P c.us a.typ x y hi (ha x hx) (ha y hy)
  have h3 := shift_comp h1 h2
  exact h3

theorem tersAtom_shift (b : Build) (L : Lib K) (p : TersPars K) (c : Conf K) : Shift R (tersAtom b L p c i a) := by
  have h1 : Shift R (fun s => a.neigh.foldl (fullPair b true (tersPots L p) c.uf c.us i) s) :=
    shift_foldl _ fun n _ => fullPair_shift b true (tersPots L p) c.uf c.us hi n
  have h2 : Shift R (fun s => eachLoop (tersBond b L p c.us i) [] a.neigh s) :=
    shift_each _ _ fun x hx os hos => tersBond_shift b L p c.us x os hi (ha x hx) fun n hn => ha n (by simpa using hos n hn)
  have h3 := shift_comp h1 h2
  exact h3

theorem modAtom_shift (b : Build) (L : Lib K) (p : TersModPars K) (c : Conf K) : Shift R (modAtom b L p c i a) := by
  have h1 : Shift R (fun s => a.neigh.foldl (fullPair b true (modPots L p) c.uf c.us i) s) :=
    shift_foldl _ fun n _ => fullPair_shift b true (modPots L p) c.uf c.us hi n
  have h2 : Shift R (fun s => eachLoop (modBond b L p c.us i) [] a.neigh s) :=
    shift_each _ _ fun x hx os hos => modBond_shift b L p c.us x os hi (ha x hx) fun n hn => ha n (by simpa using hos n hn)
  have h3 := shift_comp h1 h2
  exact h3

theorem angAtom_shift (b : Build) (P : AngPots K) (c : Conf K) : Shift R (angAtom b P c i a) := by
  have h1 : Shift R (fun s => a.neigh.foldl (fullPair b false P.toPots c.uf c.us i) s) :=
    shift_foldl _ fun n _ => fullPair_shift b false P.toPots c.uf c.us hi n
  have h2 : Shift R (fun s => pairsLoop (fun nj => decide (nj.r < P.fin (P.fcol nj.col0))) (angAngle b P c.uf c.us i a.typ)
      a.neigh s) :=
    shift_pairs _ fun x hx y hy => angAngle_shift b P c.uf c.us a.typ x y hi (ha x hx) (ha y hy)
  obtain ⟨E, F, S, h0, h⟩ := h2
  have h3 : Shift R (fun s : Acc K =>
      ({ pairsLoop (fun nj => decide (nj.r < P.fin (P.fcol nj.col0))) (angAngle b P c.uf c.us i a.typ) a.neigh
          { s with energy := 0 } with
        energy := s.energy + (pairsLoop (fun nj => decide (nj.r < P.fin (P.fcol nj.col0)))
          (angAngle b P c.uf c.us i a.typ) a.neigh { s with energy := 0 }).energy } : Acc K)) := by
    refine ⟨E, F, S, h0, fun s => ?_⟩
    simp only [h]
    simp [plus]
  have h4 := shift_comp h1 h3
  exact h4

/-- MEAM: the amounts added to the sums, and to limit and density. -/
theorem meamAtom_shift (b : Build) (P : AngPots K) (c : Conf K) : ∃ g : Acc K → Acc K, Shift R g ∧
    ∀ s, meamAtom b P c i a s = ⟨g s.acc, s.limit + (meamEmbed b P.toEamPots (P.paircol + P.ntypes + a.typ) (meamDensity P a)).limit,
      s.rhoSum + (meamEmbed b P.toEamPots (P.paircol + P.ntypes + a.typ) (meamDensity P a)).rho⟩ := by
  refine ⟨fun t => (meamAtom b P c i a ⟨t, 0, 0⟩).acc, ?_, fun s => rfl⟩
  unfold meamAtom
  generalize meamEmbed b P.toEamPots (P.paircol + P.ntypes + a.typ) (meamDensity P a) = m
  have h1 : Shift R (fun s => a.neigh.foldl (fullPair b false P.toPots c.uf c.us i) s) :=
    shift_foldl _ fun n _ => fullPair_shift b false P.toPots c.uf c.us hi n
  have h2 : Shift R (fun s => a.neigh.foldl (meamRadial b P c.us m.grad i) s) :=
    shift_foldl _ fun n hn => meamRadial_shift b P c.us m.grad n hi (ha n hn)
  have h3 : Shift R (fun s => pairsLoop (fun _ => true) (meamAngle b P c.us m.grad i a.typ) a.neigh s) :=
    shift_pairs _ fun x hx y hy => meamAngle_shift b P c.us m.grad a.typ x y hi (ha x hx) (ha y hy)
  exact shift_comp (shift_comp h1 (energy_shift R m.value)) (shift_ite (shift_comp h2 h3) (shift_id R))

end

end Verif.Spec
