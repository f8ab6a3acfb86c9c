/-
What the routines on full neighbour lists leave in the force vector, and the error they return.
-/
import Verif.Lemmas.Shift
import Verif.Lemmas.Angular
import Verif.Lemmas.ForceRun

namespace Verif.Spec

open Verif.Force

set_option linter.unusedSectionVars false

variable {K : Type*} [Field K] [LinearOrder K] [IsStrictOrderedRing K]

/-- Atoms of a configuration. -/
def Member (c : Conf K) (a : Nat) : Prop := c.start ≤ a ∧ a < c.start + c.atoms.length

/-- Closing an atom: division of its force by `sc`, contribution to the error if `count`. -/
structure Closing (c : Conf K) (close : Nat → Atom K → Acc K → Acc K) (sc : Atom K → K) (count : Atom K → Bool) : Prop where
  energy : ∀ i a s, (close i a s).energy = s.energy
  stress : ∀ i a s, (close i a s).stress = s.stress
  others : ∀ i a s j, j ≠ i → (close i a s).force j = s.force j
  own : ∀ i a s k, (close i a s).force i k = s.force i k / sc a
  err : ∀ i a s, (close i a s).err = s.err + if count a then c.weight * ∑ x : Fin 3, (close i a s).force i x ^ 2 else 0

theorem sq3_sum (v : V3 K) : sq3 v = ∑ x : Fin 3, v x ^ 2 := by
  simp only [sq3, Fin.sum_univ_three]; ring

theorem closing_used (b : Build) (c : Conf K) : Closing c (fun i a s => closeAtom b c a i s)
    (fun a => if c.uf then scaleOf b a.absforce else 1) (fun a => c.uf && (!b.contrib || a.contrib)) := by
  refine ⟨fun i a s => (closeAtom_keep b c a i s).1, fun i a s => (closeAtom_keep b c a i s).2.1,
    fun i a s => (closeAtom_keep b c a i s).2.2, ?_, ?_⟩
  · intro i a s k
    by_cases hu : c.uf = true
    · simp only [hu, if_true]; exact closeAtom_force b c hu a i s k
    · simp only [closeAtom, if_neg hu, div_one]
  · intro i a s
    by_cases hu : c.uf = true
    · simp only [closeAtom, hu, if_true, Bool.true_and, sq3_sum]
      by_cases h : (!b.contrib || a.contrib) = true
      · simp only [h, if_true]
      · simp only [h]; simp
    · simp only [closeAtom, if_neg hu]
      simp [hu]

theorem closing_always (b : Build) (c : Conf K) : Closing c (fun i a s => closeAtomAlways b c a i s)
    (fun a => scaleOf b a.absforce) (fun a => !b.contrib || a.contrib) := by
  refine ⟨fun i a s => (closeAtomAlways_keep b c a i s).1, fun i a s => (closeAtomAlways_keep b c a i s).2.1,
    fun i a s => (closeAtomAlways_keep b c a i s).2.2, fun i a s k => closeAtomAlways_force b c a i s k, ?_⟩
  intro i a s
  simp only [closeAtomAlways, sq3_sum]
  by_cases h : (!b.contrib || a.contrib) = true
  · simp only [h, if_true]
  · simp only [h]; simp

theorem closing_err {c : Conf K} {close : Nat → Atom K → Acc K → Acc K} {sc : Atom K → K} {count : Atom K → Bool}
    (h : Closing c close sc count) (l : List (Atom K)) (i : Nat) (s : Acc K) :
    (atomLoop close l i s).err = s.err + ((l.zipIdx i).map fun ak => if count ak.1 then
      c.weight * ∑ x : Fin 3, (atomLoop close l i s).force ak.2 x ^ 2 else 0).sum := by
  induction l generalizing i s with
  | nil => simp [atomLoop]
  | cons a l ih =>
    rw [atomLoop, ih, h.err, List.zipIdx_cons, List.map_cons, List.sum_cons, add_assoc]
    have := (closeLoop_keep close h.energy h.stress h.others l (i + 1) (close i a s)).2.2 i (by omega)
    rw [this]

theorem zipIdx_from {α : Type*} (l : List α) (g : α → Nat → K) (i : Nat) :
    ((l.zipIdx i).map fun ak => g ak.1 ak.2).sum = (l.zipIdx.map fun ak => g ak.1 (i + ak.2)).sum := by
  congr 1
  rw [List.zipIdx_eq_map_add, List.map_map]
  exact List.map_congr_left fun ak _ => by simp [Nat.add_comm]

/-- Result of closing a configuration whose running sums are `reset + F`, `E`, `S`. -/
theorem closing_spec {c : Conf K} {close : Nat → Atom K → Acc K → Acc K} {sc : Atom K → K} {count : Atom K → Bool}
    (h : Closing c close sc count) (f : Nat → V3 K) (E : K) (F : Nat → V3 K) (S : Fin 6 → K) (hF : ∀ a, ¬ Member c a → F a = 0) :
    let r := atomLoop close c.atoms c.start (plus ⟨resetForces c f, 0, 0, 0⟩ E F S)
    (∀ a, ¬ Member c a → r.force a = f a) ∧
    (∀ j a, c.atoms[j]? = some a → ∀ k, r.force (c.start + j) k =
      (F (c.start + j) k - if c.uf then c.force0 (c.start + j) k else 0) / sc a) ∧
    r.energy = E ∧ r.stress = S ∧
    r.err = (c.atoms.zipIdx.map fun ak => if count ak.1 then
      c.weight * ∑ x : Fin 3, r.force (c.start + ak.2) x ^ 2 else 0).sum := by
  intro r
  have hk := closeLoop_keep close h.energy h.stress h.others c.atoms c.start (plus ⟨resetForces c f, 0, 0, 0⟩ E F S)
  refine ⟨?_, ?_, ?_, ?_, ?_⟩
  · intro a ha
    have : a < c.start ∨ c.start + c.atoms.length ≤ a := by
      unfold Member at ha; omega
    show (atomLoop close c.atoms c.start _).force a = f a
    rw [hk.2.2 a this]
    simp only [plus, Pi.add_apply, hF a ha, add_zero, resetForces]
    exact if_neg ha
  · intro j a hj k
    have hlt : j < c.atoms.length := (List.getElem?_eq_some_iff.1 hj).1
    show (atomLoop close c.atoms c.start _).force (c.start + j) k = _
    rw [closeLoop_force close h.energy h.stress h.others sc h.own c.atoms c.start _ j a hj k]
    congr 1
    simp only [plus, Pi.add_apply, resetForces]
    rw [if_pos ⟨by omega, by omega⟩]
    by_cases hu : c.uf = true
    · simp only [hu, if_true, Pi.neg_apply]; ring
    · simp only [hu]; simp
  · show (atomLoop close c.atoms c.start _).energy = E
    rw [hk.1]; simp [plus]
  · show (atomLoop close c.atoms c.start _).stress = S
    rw [hk.2.1]; simp [plus]
  · show (atomLoop close c.atoms c.start _).err = _
    rw [closing_err h]
    rw [show (plus (⟨resetForces c f, 0, 0, 0⟩ : Acc K) E F S).err = 0 from rfl, zero_add]
    exact zipIdx_from c.atoms (fun a i => if count a then c.weight * ∑ x : Fin 3, r.force i x ^ 2 else 0) c.start

theorem ofFn_sum_mul (w : K) (f : Fin 6 → K) : (List.ofFn fun k => w * (f k * f k)).sum = w * ∑ k : Fin 6, f k ^ 2 := by
  rw [List.sum_ofFn, Finset.mul_sum]
  exact Finset.sum_congr rfl fun k _ => by ring

/-- Forces in terms of the routine's own criterion. -/
theorem counted_sum (b : Build) (v : FV K) (c : Conf K) :
    (c.atoms.zipIdx.map fun ak => if (!b.contrib || ak.1.contrib) = true then
      c.weight * ∑ x : Fin 3, v.force (c.start + ak.2) x ^ 2 else 0).sum = c.weight * forceResidual b v c := by
  unfold forceResidual
  rw [← list_mul_sum]
  congr 1
  refine List.map_congr_left fun ak _ => ?_
  cases hb : b.contrib <;> cases ha : ak.1.contrib <;> simp

/-! ### Configurations -/

section
variable {R : Nat → Prop}

theorem member_of {c : Conf K} {j : Nat} {a : Atom K} (h : c.atoms[j]? = some a) : Member c (c.start + j) := by
  have : j < c.atoms.length := (List.getElem?_eq_some_iff.1 h).1
  exact ⟨by omega, by omega⟩

theorem inside_neigh {c : Conf K} (hc : Inside c) {j : Nat} {a : Atom K} (h : c.atoms[j]? = some a) :
    ∀ n ∈ a.neigh, Member c n.nr := fun n hn => hc a (List.mem_of_getElem? h) n hn

/-- Stillinger-Weber and Tersoff: content of the force vector and returned error. -/
theorem fullConf_result (b : Build) (one : Nat → Atom K → Acc K → Acc K) (ew sw : K) (c : Conf K)
    (h : ∀ j a, c.atoms[j]? = some a → Shift (Member c) (one (c.start + j) a)) :
    ∃ (E : K) (F : Nat → V3 K) (S : Fin 6 → K), ∀ ci fv,
      (∀ a, ¬ Member c a → (fullConf b one ew sw ci c fv).1.force a = fv.force a) ∧
      (∀ j a, c.atoms[j]? = some a → ∀ k, (fullConf b one ew sw ci c fv).1.force (c.start + j) k =
        (F (c.start + j) k - if c.uf then c.force0 (c.start + j) k else 0) / (if c.uf then scaleOf b a.absforce else 1)) ∧
      (fullConf b one ew sw ci c fv).1.energy = Function.update fv.energy ci (E / (c.atoms.length : K) - c.energy0) ∧
      (fullConf b one ew sw ci c fv).1.stress = (if b.stress then Function.update fv.stress ci
        (if b.stress && c.uf && c.us then fun k => S k / c.vol - c.stress0 k else S) else fv.stress) ∧
      (fullConf b one ew sw ci c fv).1.limit = fv.limit ∧
      (fullConf b one ew sw ci c fv).2 = residualError b ew sw (fullConf b one ew sw ci c fv).1 ci c := by
  obtain ⟨E, F, S, hF, hs⟩ := shift_atoms c.atoms c.start h
  refine ⟨E, F, S, fun ci fv => ?_⟩
  obtain ⟨p1, p2, p3, p4, p5⟩ := closing_spec (closing_used b c) fv.force E F S hF
  have hT : atomLoop one c.atoms c.start ⟨resetForces c fv.force, 0, 0, 0⟩ = plus ⟨resetForces c fv.force, 0, 0, 0⟩ E F S :=
    hs ⟨resetForces c fv.force, 0, 0, 0⟩
  have e1 : (fullConf b one ew sw ci c fv).1.force = (atomLoop (fun i a s => closeAtom b c a i s) c.atoms c.start
      (plus ⟨resetForces c fv.force, 0, 0, 0⟩ E F S)).force := by
    unfold fullConf closeConf
    rw [hT]
    by_cases hb : (b.stress && c.uf && c.us) = true
    · simp only [if_pos hb]
    · simp only [if_neg hb]
  have e2 : (fullConf b one ew sw ci c fv).1.energy = Function.update fv.energy ci (E / (c.atoms.length : K) - c.energy0) := by
    unfold fullConf closeConf
    rw [hT]
    by_cases hb : (b.stress && c.uf && c.us) = true
    · simp only [if_pos hb, p3]
    · simp only [if_neg hb, p3]
  have e3 : (fullConf b one ew sw ci c fv).1.stress = (if b.stress then Function.update fv.stress ci
        (if b.stress && c.uf && c.us then fun k => S k / c.vol - c.stress0 k else S) else fv.stress) := by
    unfold fullConf closeConf
    rw [hT]
    by_cases hb : (b.stress && c.uf && c.us) = true
    · simp only [if_pos hb, p4]
    · simp only [if_neg hb, p4]
  refine ⟨fun a ha => by rw [e1, p1 a ha], fun j a hj k => by rw [e1, p2 j a hj k], e2, e3, rfl, ?_⟩
  have e4 : (fullConf b one ew sw ci c fv).2 = (atomLoop (fun i a s => closeAtom b c a i s) c.atoms c.start
      (plus ⟨resetForces c fv.force, 0, 0, 0⟩ E F S)).err + c.weight * ew * (E / (c.atoms.length : K) - c.energy0) ^ 2 +
      if b.stress = true ∧ c.uf = true ∧ c.us = true then
        c.weight * sw * ∑ x : Fin 6, (S x / c.vol - c.stress0 x) ^ 2 else 0 := by
    unfold fullConf closeConf
    rw [hT]
    by_cases hb : b.stress = true ∧ c.uf = true ∧ c.us = true
    · have hb' : (b.stress && c.uf && c.us) = true := by simp [hb.1, hb.2.1, hb.2.2]
      simp only [if_pos hb', if_pos hb, p3, p4, ofFn_sum_mul]
      ring
    · have hb' : ¬ (b.stress && c.uf && c.us) = true := by
        intro h; simp only [Bool.and_eq_true] at h; exact hb ⟨h.1.1, h.1.2, h.2⟩
      simp only [if_neg hb', if_neg hb, p3, add_zero]
      ring
  rw [e4, p5]
  unfold residualError
  congr 1
  · congr 1
    · by_cases hu : c.uf = true
      · rw [if_pos hu, ← counted_sum]
        simp only [hu, Bool.true_and, e1]
      · simp only [if_neg hu]
        simp [hu]
    · rw [e2, Function.update_self]
  · by_cases hb : b.stress = true ∧ c.uf = true ∧ c.us = true
    · rw [if_pos hb, if_pos hb, e3, if_pos hb.1, Function.update_self]
      simp [hb.1, hb.2.1, hb.2.2]
    · rw [if_neg hb, if_neg hb]

end

/-- What the evaluation of a configuration leaves in the force vector: values of its own entries, other entries unchanged. -/
structure Writes {ε : Type*} (b : Build) (lim : Bool) (c : Conf K) (one : Nat → Conf K → FV K → FV K × ε) (f : Nat → V3 K) (e : K)
    (st : Fin 6 → K) (l : K) (r : ε) : Prop where
  force : ∀ ci fv a, (one ci c fv).1.force a = if c.start ≤ a ∧ a < c.start + c.atoms.length then f a else fv.force a
  energy : ∀ ci fv, (one ci c fv).1.energy = Function.update fv.energy ci e
  stress : ∀ ci fv, (one ci c fv).1.stress = if b.stress then Function.update fv.stress ci st else fv.stress
  limit : ∀ ci fv, (one ci c fv).1.limit = if lim then Function.update fv.limit ci l else fv.limit
  err : ∀ ci fv, (one ci c fv).2 = r

/-- Content of a cell for a routine which writes the limiting constraint whether it is gathered or not. -/
def cellOf (b : Build) (lim : Bool) (v : FV K) : Cell → K
  | .limit j => if lim = true ∧ b.rescale = false then 0 else v.limit j
  | x => v.get x

theorem cellOf_result {b : Build} {lim : Bool} {confs : List (Conf K)} (v : FV K) {x : Cell} (hx : ResultCell b lim confs x) :
    cellOf b lim v x = v.get x := by
  cases x with
  | limit j =>
    have h : b.rescale = true := hx.1
    show (if lim = true ∧ b.rescale = false then 0 else v.limit j) = v.limit j
    rw [if_neg (by rw [h]; simp)]
  | _ => rfl

theorem local_of_writes {ε : Type*} (b : Build) (lim : Bool) {good : Nat → Conf K → Prop} (one : Nat → Conf K → FV K → FV K × ε)
    (h : ∀ ci c, good ci c → ∃ f e st l r, Writes b lim c one f e st l r) :
    Local (cellOf b lim) good (ownCell b lim) one (fun ci c => cellOf b lim (one ci c ⟨0, 0, 0, 0⟩).1)
      (fun ci c => (one ci c ⟨0, 0, 0, 0⟩).2) := by
  constructor
  · intro ci c s x hg hx
    obtain ⟨f, e, st, l, r, w⟩ := h ci c hg
    cases x with
    | force a k =>
      have hx : c.start ≤ a ∧ a < c.start + c.atoms.length := hx
      simp only [cellOf, FV.get]
      rw [w.force, w.force, if_pos hx, if_pos hx]
    | energy j =>
      obtain rfl : j = ci := hx
      simp only [cellOf, FV.get]
      rw [w.energy, w.energy, Function.update_self, Function.update_self]
    | stress j k =>
      obtain ⟨hb, rfl⟩ := hx
      simp only [cellOf, FV.get]
      rw [w.stress, w.stress, if_pos hb, if_pos hb, Function.update_self, Function.update_self]
    | limit j =>
      obtain ⟨hb, hl, rfl⟩ := hx
      simp only [cellOf]
      rw [w.limit, w.limit, if_pos hl, if_pos hl, Function.update_self, Function.update_self]
    | rho a => rfl
    | gradF a => rfl
  · intro ci c s x hg hx
    obtain ⟨f, e, st, l, r, w⟩ := h ci c hg
    cases x with
    | force a k =>
      have hx : ¬ (c.start ≤ a ∧ a < c.start + c.atoms.length) := hx
      simp only [cellOf, FV.get]
      rw [w.force, if_neg hx]
    | energy j =>
      simp only [cellOf, FV.get]
      rw [w.energy, Function.update_of_ne hx]
    | stress j k =>
      simp only [cellOf, FV.get]
      rw [w.stress]
      by_cases hb : b.stress = true
      · rw [if_pos hb, Function.update_of_ne (fun he => hx ⟨hb, he⟩)]
      · rw [if_neg hb]
    | limit j =>
      simp only [cellOf]
      rw [w.limit]
      by_cases hl : lim = true
      · by_cases hb : b.rescale = true
        · rw [if_pos hl, Function.update_of_ne (fun he => hx ⟨hb, hl, he⟩)]
        · rw [Bool.not_eq_true] at hb
          rw [if_pos ⟨hl, hb⟩, if_pos ⟨hl, hb⟩]
      · rw [if_neg hl]
    | rho a => rfl
    | gradF a => rfl
  · intro ci c s hg
    obtain ⟨f, e, st, l, r, w⟩ := h ci c hg
    show (one ci c s).2 = (one ci c ⟨0, 0, 0, 0⟩).2
    rw [w.err, w.err]

/-- The residual error depends on the own entries only. -/
theorem residual_congr (b : Build) (ew sw : K) (v w : FV K) (k k' : Nat) (c : Conf K)
    (hf : ∀ a, Member c a → v.force a = w.force a) (he : v.energy k = w.energy k') (hs : b.stress = true → v.stress k = w.stress k') :
    residualError b ew sw v k c = residualError b ew sw w k' c := by
  have : forceResidual b v c = forceResidual b w c := by
    unfold forceResidual
    congr 1
    refine List.map_congr_left fun ak hak => ?_
    rw [hf _ (member_of (List.mem_zipIdx_iff_getElem?.1 hak))]
  unfold residualError
  rw [this, he]
  by_cases hb : b.stress = true
  · rw [hs hb]
  · simp [hb]

/-- From the entries atom by atom. -/
theorem force_cases {c : Conf K} {f g : Nat → V3 K} {h : Nat → Atom K → V3 K} (h1 : ∀ a, ¬ Member c a → f a = g a)
    (h2 : ∀ j a, c.atoms[j]? = some a → f (c.start + j) = h (c.start + j) a) (d : Atom K) (a : Nat) :
    f a = if c.start ≤ a ∧ a < c.start + c.atoms.length then h a ((c.atoms[a - c.start]?).getD d) else g a := by
  by_cases ha : c.start ≤ a ∧ a < c.start + c.atoms.length
  · rw [if_pos ha]
    have hk : c.atoms[a - c.start]? = some (c.atoms[a - c.start]'(by omega)) := List.getElem?_eq_getElem (by omega)
    have := h2 _ _ hk
    rw [show c.start + (a - c.start) = a by omega] at this
    rw [this, hk]
    rfl
  · rw [if_neg ha, h1 a ha]

theorem fullConf_writes (b : Build) (one : Conf K → Nat → Atom K → Acc K → Acc K) (ew sw : K) (c : Conf K)
    (h : ∀ j a, c.atoms[j]? = some a → Shift (Member c) (one c (c.start + j) a)) :
    ∃ f e st l r, Writes b false c (fun ci c fv => fullConf b (one c) ew sw ci c fv) f e st l r := by
  obtain ⟨E, F, S, hr⟩ := fullConf_result b (one c) ew sw c h
  have hf : ∀ ci fv, (fun a => (fullConf b (one c) ew sw ci c fv).1.force a) = _ := fun ci fv => funext fun a =>
    force_cases (c := c) (f := (fullConf b (one c) ew sw ci c fv).1.force) (g := fv.force)
      (h := fun i a k => (F i k - if c.uf then c.force0 i k else 0) / (if c.uf then scaleOf b a.absforce else 1))
      (hr ci fv).1 (fun j a hj => funext fun k => (hr ci fv).2.1 j a hj k) ⟨0, [], 0, true⟩ a
  refine ⟨_, _, _, 0, (fullConf b (one c) ew sw 0 c ⟨0, 0, 0, 0⟩).2, fun ci fv a => congrFun (hf ci fv) a,
    fun ci fv => (hr ci fv).2.2.1, fun ci fv => (hr ci fv).2.2.2.1, fun ci fv => (hr ci fv).2.2.2.2.1, fun ci fv => ?_⟩
  rw [(hr ci fv).2.2.2.2.2, (hr 0 _).2.2.2.2.2]
  refine residual_congr _ _ _ _ _ _ _ _ (fun a ha => ?_) ?_ ?_
  · have ha : c.start ≤ a ∧ a < c.start + c.atoms.length := ha
    rw [congrFun (hf ci fv) a, congrFun (hf 0 _) a, if_pos ha, if_pos ha]
  · rw [(hr ci fv).2.2.1, (hr 0 _).2.2.1, Function.update_self, Function.update_self]
  · intro hb
    rw [(hr ci fv).2.2.2.1, (hr 0 _).2.2.2.1, if_pos hb, if_pos hb, Function.update_self, Function.update_self]

/-! ### Angular potentials and MEAM -/

section
variable {β : Type*}

/-- `f` leaves a component of the running sums alone. -/
def Keeps (g : Acc K → β) (f : Acc K → Acc K) : Prop := ∀ s, g (f s) = g s

theorem keeps_foldl {α : Type*} {g : Acc K → β} {f : Acc K → α → Acc K} (l : List α) (h : ∀ x, Keeps g (fun s => f s x)) :
    Keeps g (fun s => l.foldl f s) := by
  intro s
  induction l generalizing s with
  | nil => rfl
  | cons x l ih => exact (ih (f s x)).trans (h x s)

theorem keeps_pairs {α : Type*} {g : Acc K → β} {outer : α → Bool} {f : Acc K → α → α → Acc K} (l : List α)
    (h : ∀ x y, Keeps g (fun s => f s x y)) : Keeps g (fun s => pairsLoop outer f l s) := by
  intro s
  induction l generalizing s with
  | nil => rfl
  | cons x l ih =>
    refine (ih _).trans ?_
    by_cases ho : outer x = true
    · simp only [ho, if_true]; exact keeps_foldl l (h x) s
    · simp only [ho]; rfl

theorem keeps_atoms {g : Acc K → β} {one : Nat → Atom K → Acc K → Acc K} (l : List (Atom K)) (i : Nat)
    (h : ∀ i a, Keeps g (one i a)) : Keeps g (fun s => atomLoop one l i s) := by
  intro s
  induction l generalizing s i with
  | nil => rfl
  | cons a l ih => exact (ih (i + 1) (one i a s)).trans (h i a s)

end

theorem fullPair_unused (b : Build) (sh : Bool) (P : Pots K) (us : Bool) (i : Nat) (n : Neigh K) (s : Acc K) :
    (fullPair b sh P false us i s n).force = s.force ∧ (fullPair b sh P false us i s n).stress = s.stress := by
  unfold fullPair
  by_cases h : n.r < P.fin n.col0
  · simp [h]
  · simp [h]

theorem fullPair_nostress (b : Build) (sh : Bool) (P : Pots K) (uf : Bool) (i : Nat) (n : Neigh K) (s : Acc K) :
    (fullPair b sh P uf false i s n).stress = s.stress := by
  unfold fullPair
  by_cases h : n.r < P.fin n.col0
  · cases uf <;> simp [h]
  · simp [h]

theorem angAngle_unused (b : Build) (P : AngPots K) (us : Bool) (i typ : Nat) (nj nk : Neigh K) (s : Acc K) :
    (angAngle b P false us i typ s nj nk).force = s.force ∧ (angAngle b P false us i typ s nj nk).stress = s.stress := by
  unfold angAngle
  by_cases h : nk.r < P.fin (P.fcol nk.col0)
  · simp [h]
  · simp [h]

theorem angAngle_nostress (b : Build) (P : AngPots K) (uf : Bool) (i typ : Nat) (nj nk : Neigh K) (s : Acc K) :
    (angAngle b P uf false i typ s nj nk).stress = s.stress := by
  unfold angAngle
  by_cases h : nk.r < P.fin (P.fcol nk.col0)
  · cases uf <;> simp [h]
  · simp [h]

theorem angAtom_unused (b : Build) (P : AngPots K) (c : Conf K) (hu : c.uf = false) (i : Nat) (a : Atom K) (s : Acc K) :
    (angAtom b P c i a s).force = s.force := by
  unfold angAtom
  rw [hu]
  exact (keeps_pairs (g := Acc.force) a.neigh (fun x y s => (angAngle_unused b P c.us i a.typ x y s).1) _).trans
    (keeps_foldl (g := Acc.force) a.neigh (fun n s => (fullPair_unused b false P.toPots c.us i n s).1) s)

theorem angAtom_nostress (b : Build) (P : AngPots K) (c : Conf K) (hu : ¬ (c.uf = true ∧ c.us = true)) (i : Nat) (a : Atom K)
    (s : Acc K) : (angAtom b P c i a s).stress = s.stress := by
  unfold angAtom
  rcases not_and_or.1 hu with h | h
  · rw [Bool.not_eq_true] at h
    rw [h]
    exact (keeps_pairs (g := Acc.stress) a.neigh (fun x y s => (angAngle_unused b P c.us i a.typ x y s).2) _).trans
      (keeps_foldl (g := Acc.stress) a.neigh (fun n s => (fullPair_unused b false P.toPots c.us i n s).2) s)
  · rw [Bool.not_eq_true] at h
    rw [h]
    exact (keeps_pairs (g := Acc.stress) a.neigh (fun x y s => angAngle_nostress b P c.uf i a.typ x y s) _).trans
      (keeps_foldl (g := Acc.stress) a.neigh (fun n s => fullPair_nostress b false P.toPots c.uf i n s) s)

/-- Error which is added for stresses which are not used. -/
def stressOffset (b : Build) (sw : K) (c : Conf K) : K :=
  if b.stress = true ∧ ¬ (c.uf = true ∧ c.us = true) then c.weight * sw * ∑ k : Fin 6, c.stress0 k ^ 2 else 0

/-- Closing of angular potentials and MEAM. -/
theorem always_result (b : Build) (ew sw : K) (c : Conf K) (fv : FV K) (E : K) (F : Nat → V3 K) (S : Fin 6 → K)
    (hF : ∀ a, ¬ Member c a → F a = 0) (hF0 : c.uf = false → F = 0) (hS0 : ¬ (c.uf = true ∧ c.us = true) → S = 0) (ci : Nat) (lim : Nat → K) :
    let s := closeConfAlways b ew sw c (atomLoop (fun i a s => closeAtomAlways b c a i s) c.atoms c.start
      (plus ⟨resetForces c fv.force, 0, 0, 0⟩ E F S))
    let v : FV K := ⟨s.force, Function.update fv.energy ci s.energy,
      if b.stress then Function.update fv.stress ci s.stress else fv.stress, lim⟩
    (∀ a, ¬ Member c a → v.force a = fv.force a) ∧
    (∀ j a, c.atoms[j]? = some a → ∀ k, v.force (c.start + j) k =
      (F (c.start + j) k - if c.uf then c.force0 (c.start + j) k else 0) / scaleOf b a.absforce) ∧
    v.energy = Function.update fv.energy ci (E / (c.atoms.length : K) - c.energy0) ∧
    v.stress = (if b.stress then Function.update fv.stress ci (fun k => S k / c.vol - c.stress0 k) else fv.stress) ∧
    s.err = residualError b ew sw v ci c + stressOffset b sw c := by
  intro s v
  obtain ⟨p1, p2, p3, p4, p5⟩ := closing_spec (closing_always b c) fv.force E F S hF
  have e1 : s.force = (atomLoop (fun i a s => closeAtomAlways b c a i s) c.atoms c.start
      (plus ⟨resetForces c fv.force, 0, 0, 0⟩ E F S)).force := by
    show (closeConfAlways b ew sw c _).force = _
    unfold closeConfAlways
    by_cases hb : b.stress = true
    · simp only [if_pos hb]
    · simp only [if_neg hb]
  have e2 : s.energy = E / (c.atoms.length : K) - c.energy0 := by
    show (closeConfAlways b ew sw c _).energy = _
    unfold closeConfAlways
    by_cases hb : b.stress = true
    · simp only [if_pos hb, p3]
    · simp only [if_neg hb, p3]
  have e3 : b.stress = true → s.stress = fun k => S k / c.vol - c.stress0 k := by
    intro hb
    show (closeConfAlways b ew sw c _).stress = _
    unfold closeConfAlways
    simp only [if_pos hb, p4]
  have v3 : v.stress = (if b.stress then Function.update fv.stress ci (fun k => S k / c.vol - c.stress0 k) else fv.stress) := by
    show (if b.stress then Function.update fv.stress ci s.stress else fv.stress) = _
    by_cases hb : b.stress = true
    · rw [if_pos hb, if_pos hb, e3 hb]
    · rw [if_neg hb, if_neg hb]
  have v1 : v.force = s.force := rfl
  have v2 : v.energy = Function.update fv.energy ci (E / (c.atoms.length : K) - c.energy0) := by
    show Function.update fv.energy ci s.energy = _
    rw [e2]
  have hf : ∀ j a, c.atoms[j]? = some a → ∀ k, v.force (c.start + j) k =
      (F (c.start + j) k - if c.uf then c.force0 (c.start + j) k else 0) / scaleOf b a.absforce :=
    fun j a hj k => by rw [v1, e1, p2 j a hj k]
  refine ⟨fun a ha => by rw [v1, e1, p1 a ha], hf, v2, v3, ?_⟩
  have e4 : s.err = c.weight * forceResidual b v c + c.weight * ew * (E / (c.atoms.length : K) - c.energy0) ^ 2 +
      if b.stress = true then c.weight * sw * ∑ x : Fin 6, (S x / c.vol - c.stress0 x) ^ 2 else 0 := by
    rw [← counted_sum, v1, e1, ← p5]
    show (closeConfAlways b ew sw c _).err = _
    unfold closeConfAlways
    by_cases hb : b.stress = true
    · simp only [if_pos hb, p3, p4, ofFn_sum_mul]
      ring
    · simp only [if_neg hb, p3, add_zero]
      ring
  have e5 : c.weight * forceResidual b v c = if c.uf = true then c.weight * forceResidual b v c else 0 := by
    by_cases hu : c.uf = true
    · rw [if_pos hu]
    · rw [if_neg hu]
      have : forceResidual b v c = 0 := by
        unfold forceResidual
        apply List.sum_eq_zero
        intro y hy
        obtain ⟨ak, hak, rfl⟩ := List.mem_map.1 hy
        split
        · rfl
        · refine Finset.sum_eq_zero fun k _ => ?_
          rw [hf _ _ (List.mem_zipIdx_iff_getElem?.1 hak) k, hF0 (by simpa using hu)]
          simp [hu]
      rw [this, mul_zero]
  rw [e4, e5]
  unfold residualError stressOffset
  rw [v2, Function.update_self, add_assoc, add_assoc, add_assoc]
  congr 2
  by_cases hb : b.stress = true
  · by_cases hu : c.uf = true ∧ c.us = true
    · rw [if_pos hb, if_pos ⟨hb, hu⟩, if_neg (fun h => h.2 hu), v3, if_pos hb, Function.update_self, add_zero]
    · rw [if_pos hb, if_neg (fun h => hu h.2), if_pos ⟨hb, hu⟩, zero_add, hS0 hu]
      simp
  · rw [if_neg hb, if_neg (fun h => hb h.1), if_neg (fun h => hb h.1), add_zero]

/-- Angular potentials: content of the force vector and returned error. -/
theorem angConf_result (b : Build) (P : AngPots K) (ew sw : K) (c : Conf K) (hc : Inside c) :
    ∃ (E : K) (F : Nat → V3 K) (S : Fin 6 → K), (c.uf = false → F = 0) ∧ (¬ (c.uf = true ∧ c.us = true) → S = 0) ∧ ∀ ci fv,
      (∀ a, ¬ Member c a → (angConf b P ew sw ci c fv).1.force a = fv.force a) ∧
      (∀ j a, c.atoms[j]? = some a → ∀ k, (angConf b P ew sw ci c fv).1.force (c.start + j) k =
        (F (c.start + j) k - if c.uf then c.force0 (c.start + j) k else 0) / scaleOf b a.absforce) ∧
      (angConf b P ew sw ci c fv).1.energy = Function.update fv.energy ci (E / (c.atoms.length : K) - c.energy0) ∧
      (angConf b P ew sw ci c fv).1.stress =
        (if b.stress then Function.update fv.stress ci (fun k => S k / c.vol - c.stress0 k) else fv.stress) ∧
      (angConf b P ew sw ci c fv).1.limit = fv.limit ∧
      (angConf b P ew sw ci c fv).2 = residualError b ew sw (angConf b P ew sw ci c fv).1 ci c + stressOffset b sw c := by
  obtain ⟨E, F, S, hF, hs⟩ := shift_atoms (R := Member c) (one := angAtom b P c) c.atoms c.start
    fun j a hj => angAtom_shift (member_of hj) (inside_neigh hc hj) b P c
  have hF0 : c.uf = false → F = 0 := by
    intro hu
    have := keeps_atoms (g := Acc.force) (one := angAtom b P c) c.atoms c.start (fun i a s => angAtom_unused b P c hu i a s) ⟨0, 0, 0, 0⟩
    rw [hs] at this
    simpa [plus] using this
  have hS0 : ¬ (c.uf = true ∧ c.us = true) → S = 0 := by
    intro hu
    have := keeps_atoms (g := Acc.stress) (one := angAtom b P c) c.atoms c.start (fun i a s => angAtom_nostress b P c hu i a s) ⟨0, 0, 0, 0⟩
    rw [hs] at this
    simpa [plus] using this
  refine ⟨E, F, S, hF0, hS0, fun ci fv => ?_⟩
  obtain ⟨p1, p2, p3, p4, p5⟩ := always_result b ew sw c fv E F S hF hF0 hS0 ci fv.limit
  have hT : atomLoop (angAtom b P c) c.atoms c.start ⟨resetForces c fv.force, 0, 0, 0⟩ =
      plus ⟨resetForces c fv.force, 0, 0, 0⟩ E F S := hs _
  have e : angConf b P ew sw ci c fv = (⟨(closeConfAlways b ew sw c (atomLoop (fun i a s => closeAtomAlways b c a i s) c.atoms c.start
      (plus ⟨resetForces c fv.force, 0, 0, 0⟩ E F S))).force, Function.update fv.energy ci (closeConfAlways b ew sw c
      (atomLoop (fun i a s => closeAtomAlways b c a i s) c.atoms c.start (plus ⟨resetForces c fv.force, 0, 0, 0⟩ E F S))).energy,
      if b.stress then Function.update fv.stress ci (closeConfAlways b ew sw c (atomLoop (fun i a s => closeAtomAlways b c a i s) c.atoms c.start
      (plus ⟨resetForces c fv.force, 0, 0, 0⟩ E F S))).stress else fv.stress, fv.limit⟩,
      (closeConfAlways b ew sw c (atomLoop (fun i a s => closeAtomAlways b c a i s) c.atoms c.start
      (plus ⟨resetForces c fv.force, 0, 0, 0⟩ E F S))).err) := by
    unfold angConf
    rw [hT]
  rw [e]
  exact ⟨p1, p2, p3, p4, rfl, p5⟩

theorem meamAtom_unused (b : Build) (P : AngPots K) (c : Conf K) (hu : c.uf = false) (i : Nat) (a : Atom K) (s : MeamAcc K) :
    (meamAtom b P c i a s).acc.force = s.acc.force := by
  unfold meamAtom
  simp only [hu, Bool.false_eq_true, if_false]
  exact keeps_foldl (g := Acc.force) a.neigh (fun n s => (fullPair_unused b false P.toPots c.us i n s).1) s.acc

theorem meamRadial_nostress (b : Build) (P : AngPots K) (gradF : K) (i : Nat) (n : Neigh K) (s : Acc K) :
    (meamRadial b P false gradF i s n).stress = s.stress := by
  unfold meamRadial
  by_cases h : n.r < P.fin n.col1
  · simp [h]
  · simp [h]

theorem meamAngle_nostress (b : Build) (P : AngPots K) (gradF : K) (i typ : Nat) (nj nk : Neigh K) (s : Acc K) :
    (meamAngle b P false gradF i typ s nj nk).stress = s.stress := by
  simp [meamAngle]

theorem meamAtom_nostress (b : Build) (P : AngPots K) (c : Conf K) (hu : ¬ (c.uf = true ∧ c.us = true)) (i : Nat) (a : Atom K)
    (s : MeamAcc K) : (meamAtom b P c i a s).acc.stress = s.acc.stress := by
  unfold meamAtom
  by_cases h : c.uf = true
  · have hs : c.us = false := by simpa using fun h' => hu ⟨h, h'⟩
    simp only [h, hs, if_true]
    refine (keeps_pairs (g := Acc.stress) a.neigh (fun x y s => meamAngle_nostress b P _ i a.typ x y s) _).trans ?_
    refine (keeps_foldl (g := Acc.stress) a.neigh (fun n s => meamRadial_nostress b P _ i n s) _).trans ?_
    exact keeps_foldl (g := Acc.stress) a.neigh (fun n s => fullPair_nostress b false P.toPots true i n s) s.acc
  · rw [Bool.not_eq_true] at h
    simp only [h, Bool.false_eq_true, if_false]
    exact keeps_foldl (g := Acc.stress) a.neigh (fun n s => (fullPair_unused b false P.toPots c.us i n s).2) s.acc

/-- The embedding of an atom as the routine computes it. -/
def meamSiteEmbed (b : Build) (P : AngPots K) (a : Atom K) : Embed K :=
  meamEmbed b P.toEamPots (P.paircol + P.ntypes + a.typ) (meamDensity P a)

theorem meam_atoms {R : Nat → Prop} (b : Build) (P : AngPots K) (c : Conf K) (l : List (Atom K)) (i : Nat)
    (h : ∀ j a, l[j]? = some a → R (i + j) ∧ ∀ n ∈ a.neigh, R n.nr) :
    ∃ (E : K) (F : Nat → V3 K) (S : Fin 6 → K), (∀ a, ¬ R a → F a = 0) ∧ (c.uf = false → F = 0) ∧
      (¬ (c.uf = true ∧ c.us = true) → S = 0) ∧ ∀ s, atomLoop (meamAtom b P c) l i s =
        ⟨plus s.acc E F S, s.limit + (l.map fun a => (meamSiteEmbed b P a).limit).sum,
          s.rhoSum + (l.map fun a => (meamSiteEmbed b P a).rho).sum⟩ := by
  induction l generalizing i with
  | nil =>
    refine ⟨0, 0, 0, fun _ _ => rfl, fun _ => rfl, fun _ => rfl, fun s => ?_⟩
    obtain ⟨⟨f, e, st, er⟩, lm, r⟩ := s
    simp [atomLoop, plus]
  | cons a l ih =>
    obtain ⟨E, F, S, h1, h2, h3, h4⟩ := ih (i + 1) (fun j a hj => by
      have := h (j + 1) a (by simpa using hj)
      rwa [show i + (j + 1) = i + 1 + j by omega] at this)
    have h0 := h 0 a rfl
    obtain ⟨g, ⟨E', F', S', hF', hg⟩, hm⟩ := meamAtom_shift (R := R) h0.1 h0.2 b P c
    simp only [Nat.add_zero] at hm
    have hF0 : c.uf = false → F' = 0 := by
      intro hu
      have := meamAtom_unused b P c hu i a ⟨⟨0, 0, 0, 0⟩, 0, 0⟩
      rw [hm, hg] at this
      simpa [plus] using this
    have hS0 : ¬ (c.uf = true ∧ c.us = true) → S' = 0 := by
      intro hu
      have := meamAtom_nostress b P c hu i a ⟨⟨0, 0, 0, 0⟩, 0, 0⟩
      rw [hm, hg] at this
      simpa [plus] using this
    refine ⟨E' + E, F' + F, S' + S, fun x hx => ?_, fun hu => ?_, fun hu => ?_, fun s => ?_⟩
    · rw [Pi.add_apply, hF' x hx, h1 x hx, add_zero]
    · rw [hF0 hu, h2 hu, add_zero]
    · rw [hS0 hu, h3 hu, add_zero]
    · rw [atomLoop, h4, hm, hg]
      simp only [plus, List.map_cons, List.sum_cons, add_assoc, meamSiteEmbed]

/-- MEAM: content of the force vector and returned error. -/
theorem meamConf_result (b : Build) (P : AngPots K) (ew sw : K) (c : Conf K) (hc : Inside c) :
    ∃ (E : K) (F : Nat → V3 K) (S : Fin 6 → K), (c.uf = false → F = 0) ∧ (¬ (c.uf = true ∧ c.us = true) → S = 0) ∧ ∀ ci fv,
      (∀ a, ¬ Member c a → (meamConf b P ew sw ci c fv).1.force a = fv.force a) ∧
      (∀ j a, c.atoms[j]? = some a → ∀ k, (meamConf b P ew sw ci c fv).1.force (c.start + j) k =
        (F (c.start + j) k - if c.uf then c.force0 (c.start + j) k else 0) / scaleOf b a.absforce) ∧
      (meamConf b P ew sw ci c fv).1.energy = Function.update fv.energy ci (E / (c.atoms.length : K) - c.energy0) ∧
      (meamConf b P ew sw ci c fv).1.stress =
        (if b.stress then Function.update fv.stress ci (fun k => S k / c.vol - c.stress0 k) else fv.stress) ∧
      (meamConf b P ew sw ci c fv).1.limit = Function.update fv.limit ci
        (if b.rescale then ((c.atoms.map fun a => (meamSiteEmbed b P a).limit).sum - c.limit0) * c.weight
          else (c.atoms.map fun a => (meamSiteEmbed b P a).limit).sum - c.limit0) ∧
      (meamConf b P ew sw ci c fv).2.1 = residualError b ew sw (meamConf b P ew sw ci c fv).1 ci c + stressOffset b sw c +
        (if b.rescale then (((c.atoms.map fun a => (meamSiteEmbed b P a).limit).sum - c.limit0) * c.weight) ^ 2 else 0) ∧
      (meamConf b P ew sw ci c fv).2.2 = (c.atoms.map fun a => (meamSiteEmbed b P a).rho).sum := by
  obtain ⟨E, F, S, hF, hF0, hS0, hs⟩ := meam_atoms (R := Member c) b P c c.atoms c.start
    fun j a hj => ⟨member_of hj, inside_neigh hc hj⟩
  refine ⟨E, F, S, hF0, hS0, fun ci fv => ?_⟩
  have hT := hs ⟨⟨resetForces c fv.force, 0, 0, 0⟩, -c.limit0, 0⟩
  simp only at hT
  rw [neg_add_eq_sub, zero_add] at hT
  unfold meamConf
  rw [hT]
  obtain ⟨p1, p2, p3, p4, p5⟩ := always_result b ew sw c fv E F S hF hF0 hS0 ci (Function.update fv.limit ci
        (if b.rescale then ((c.atoms.map fun a => (meamSiteEmbed b P a).limit).sum - c.limit0) * c.weight
          else (c.atoms.map fun a => (meamSiteEmbed b P a).limit).sum - c.limit0))
  refine ⟨p1, p2, p3, p4, rfl, ?_, rfl⟩
  simp only
  rw [← p5]
  by_cases hb : b.rescale = true
  · simp only [if_pos hb, pow_two]
  · simp only [if_neg hb, add_zero]

theorem meamConf_writes (b : Build) (P : AngPots K) (ew sw : K) (c : Conf K) (hc : Inside c) :
    ∃ f e st l r, Writes b true c (meamConf b P ew sw) f e st l r := by
  obtain ⟨E, F, S, -, -, hr⟩ := meamConf_result b P ew sw c hc
  have hf : ∀ ci fv, (fun a => (meamConf b P ew sw ci c fv).1.force a) = _ := fun ci fv => funext fun a =>
    force_cases (c := c) (f := (meamConf b P ew sw ci c fv).1.force) (g := fv.force)
      (h := fun i a k => (F i k - if c.uf then c.force0 i k else 0) / scaleOf b a.absforce)
      (hr ci fv).1 (fun j a hj => funext fun k => (hr ci fv).2.1 j a hj k) ⟨0, [], 0, true⟩ a
  refine ⟨_, _, _, _, (meamConf b P ew sw 0 c ⟨0, 0, 0, 0⟩).2, fun ci fv a => congrFun (hf ci fv) a,
    fun ci fv => (hr ci fv).2.2.1, fun ci fv => (hr ci fv).2.2.2.1, fun ci fv => (hr ci fv).2.2.2.2.1, fun ci fv => ?_⟩
  refine Prod.ext ?_ ?_
  · rw [(hr ci fv).2.2.2.2.2.1, (hr 0 _).2.2.2.2.2.1]
    congr 2
    refine residual_congr _ _ _ _ _ _ _ _ (fun a ha => ?_) ?_ ?_
    · have ha : c.start ≤ a ∧ a < c.start + c.atoms.length := ha
      rw [congrFun (hf ci fv) a, congrFun (hf 0 _) a, if_pos ha, if_pos ha]
    · rw [(hr ci fv).2.2.1, (hr 0 _).2.2.1, Function.update_self, Function.update_self]
    · intro hb
      rw [(hr ci fv).2.2.2.1, (hr 0 _).2.2.2.1, if_pos hb, if_pos hb, Function.update_self, Function.update_self]
  · rw [(hr ci fv).2.2.2.2.2.2, (hr 0 _).2.2.2.2.2.2]

theorem angConf_writes (b : Build) (P : AngPots K) (ew sw : K) (c : Conf K) (hc : Inside c) :
    ∃ f e st l r, Writes b false c (angConf b P ew sw) f e st l r := by
  obtain ⟨E, F, S, -, -, hr⟩ := angConf_result b P ew sw c hc
  have hf : ∀ ci fv, (fun a => (angConf b P ew sw ci c fv).1.force a) = _ := fun ci fv => funext fun a =>
    force_cases (c := c) (f := (angConf b P ew sw ci c fv).1.force) (g := fv.force)
      (h := fun i a k => (F i k - if c.uf then c.force0 i k else 0) / scaleOf b a.absforce)
      (hr ci fv).1 (fun j a hj => funext fun k => (hr ci fv).2.1 j a hj k) ⟨0, [], 0, true⟩ a
  refine ⟨_, _, _, 0, (angConf b P ew sw 0 c ⟨0, 0, 0, 0⟩).2, fun ci fv a => congrFun (hf ci fv) a,
    fun ci fv => (hr ci fv).2.2.1, fun ci fv => (hr ci fv).2.2.2.1, fun ci fv => (hr ci fv).2.2.2.2.1, fun ci fv => ?_⟩
  rw [(hr ci fv).2.2.2.2.2, (hr 0 _).2.2.2.2.2]
  congr 1
  refine residual_congr _ _ _ _ _ _ _ _ (fun a ha => ?_) ?_ ?_
  · have ha : c.start ≤ a ∧ a < c.start + c.atoms.length := ha
    rw [congrFun (hf ci fv) a, congrFun (hf 0 _) a, if_pos ha, if_pos ha]
  · rw [(hr ci fv).2.2.1, (hr 0 _).2.2.1, Function.update_self, Function.update_self]
  · intro hb
    rw [(hr ci fv).2.2.2.1, (hr 0 _).2.2.2.1, if_pos hb, if_pos hb, Function.update_self, Function.update_self]

/-! ### All configurations -/

/-- The sums over the configurations in terms of the entries of the force vector. -/
theorem run_error {ε : Type*} [AddMonoid ε] (b : Build) (lim : Bool) (ew sw : K) (one : Nat → Conf K → FV K → FV K × ε) (pr : ε →+ K)
    (off : Conf K → K) (hw : ∀ c, Inside c → ∃ f e st l r, Writes b lim c one f e st l r)
    (he : ∀ ci c fv, Inside c → pr (one ci c fv).2 = residualError b ew sw (one ci c fv).1 ci c + off c)
    (confs : List (Conf K)) (hn : Numbered confs) (hi : ∀ c ∈ confs, Inside c) (fv : FV K) :
    pr (confLoop one confs 0 (fv, 0)).2 =
      (confs.zipIdx.map fun ck => residualError b ew sw (confLoop one confs 0 (fv, 0)).1 ck.2 ck.1 + off ck.1).sum := by
  have hg : ∀ k c, confs[k]? = some c → (fun (_ : Nat) c => Inside c) k c := fun k c hk => hi c (List.mem_of_getElem? hk)
  have hl := local_of_writes (good := fun _ c => Inside c) b lim one (fun _ c hc => hw c hc)
  rw [confLoop_err hl confs 0 _ (by simpa using hg), zero_add, map_list_sum, List.map_map]
  congr 1
  refine List.map_congr_left fun ck hck => ?_
  have hk : confs[ck.2]? = some ck.1 := List.mem_zipIdx_iff_getElem?.1 hck
  have hcell := fun x hx => loop_cell hl confs hg hn (fv, 0) ck.2 ck.1 hk x hx
  show pr (one ck.2 ck.1 ⟨0, 0, 0, 0⟩).2 = _
  rw [he _ _ _ (hg _ _ hk)]
  congr 1
  refine residual_congr _ _ _ _ _ _ _ _ (fun a ha => funext fun k => ?_) ?_ (fun hb => funext fun k => ?_)
  · exact (hcell (.force a k) ha).symm
  · exact (hcell (.energy ck.2) rfl).symm
  · exact (hcell (.stress ck.2 k) ⟨hb, rfl⟩).symm

theorem meamDensity_spec (P : AngPots K) (a : Atom K) : meamDensity P a = siteDensity P a := by
  rw [meamDensity_eq P 0 a]
  unfold densTerms sumEnergy siteDensity
  rw [List.map_append, List.sum_append, List.map_map, List.map_map]
  congr 2
  refine List.map_congr_left fun p _ => ?_
  simp only [Function.comp, angTerm, angF, cosine, Fin.sum_univ_three]

theorem meamSiteEmbed_limit (b : Build) (hb : b.rescale = true) (P : AngPots K) (hP : ∀ col, P.beg col ≤ P.fin col) (a : Atom K) :
    (meamSiteEmbed b P a).limit = 1000 * (max 0 (P.beg (P.paircol + P.ntypes + a.typ) - siteDensity P a) +
      max 0 (siteDensity P a - P.fin (P.paircol + P.ntypes + a.typ))) ^ 2 := by
  unfold meamSiteEmbed meamEmbed
  rw [meamDensity_spec, if_pos hb]
  generalize siteDensity P a = x
  generalize P.paircol + P.ntypes + a.typ = col
  have h := hP col
  by_cases h1 : x < P.beg col
  · rw [if_pos h1, max_eq_right (by linarith), max_eq_left (by linarith)]
    simp only [dummyWeight]
    ring
  · rw [if_neg h1, max_eq_left (by linarith [not_lt.1 h1])]
    by_cases h2 : P.fin col < x
    · rw [if_pos h2, max_eq_right (by linarith)]
      simp only [dummyWeight]
      ring
    · rw [if_neg h2, max_eq_left (by linarith [not_lt.1 h2])]
      simp

theorem meamSiteEmbed_rho (b : Build) (hb : b.rescale = false) (P : AngPots K) (a : Atom K) :
    (meamSiteEmbed b P a).rho = siteDensity P a := by
  unfold meamSiteEmbed meamEmbed embed
  rw [meamDensity_spec]
  simp only [hb, Bool.false_eq_true, if_false]
  by_cases ha : b.apot = true
  · simp only [ha, if_true]
    split <;> rfl
  · simp only [ha]
    split
    · rename_i h; simp at h
    · split
      · rfl
      · split <;> rfl

/-- MEAM: sum of the densities. -/
theorem meam_rhoSum (b : Build) (hb : b.rescale = false) (P : AngPots K) (ew sw : K) (confs : List (Conf K))
    (hi : ∀ c ∈ confs, Inside c) (fv : FV K) : (confLoop (meamConf b P ew sw) confs 0 (fv, 0)).2.2 =
      (confs.map fun c => (c.atoms.map fun a => siteDensity P a).sum).sum := by
  have hg : ∀ k c, confs[k]? = some c → (fun (_ : Nat) c => Inside c) k c := fun k c hk => hi c (List.mem_of_getElem? hk)
  have hl := local_of_writes (good := fun _ c => Inside c) b true (meamConf b P ew sw) (fun _ c hc => meamConf_writes b P ew sw c hc)
  rw [confLoop_err hl confs 0 _ (by simpa using hg), zero_add]
  have : ∀ (l : List (K × K)), l.sum.2 = (l.map Prod.snd).sum := fun l => map_list_sum (AddMonoidHom.snd K K) l
  rw [this, List.map_map]
  have e : confs.zipIdx.map (Prod.snd ∘ fun ck => (meamConf b P ew sw ck.2 ck.1 ⟨0, 0, 0, 0⟩).2) =
      confs.zipIdx.map ((fun c => (c.atoms.map fun a => siteDensity P a).sum) ∘ Prod.fst) := by
    refine List.map_congr_left fun ck hck => ?_
    obtain ⟨E, F, S, -, -, hr⟩ := meamConf_result b P ew sw ck.1 (hg _ _ (List.mem_zipIdx_iff_getElem?.1 hck))
    show (meamConf b P ew sw ck.2 ck.1 ⟨0, 0, 0, 0⟩).2.2 = _
    rw [(hr ck.2 ⟨0, 0, 0, 0⟩).2.2.2.2.2.2]
    simp only [meamSiteEmbed_rho b hb, Function.comp]
  rw [e, ← List.map_map, List.zipIdx_map_fst]

end Verif.Spec
