/-
C103  A KIM model is accepted if and only if the fit can be done with it.
-/
import Verif.Model.KimSetup
import Mathlib.Tactic.Push
import Mathlib.Tactic.Tauto
import Mathlib.Data.List.Basic
import Mathlib.Data.List.Forall2

namespace Verif.Props

open Verif.KimSetup

/-! ### Specification -/

/-- What the library guarantees: exactly particles and neighbour lists are required by the library itself. -/
structure ProperModel (m : Model) : Prop where
  args : ∀ a, m.arg a = .requiredByAPI ↔ a ∈ [Arg.numberOfParticles, .particleSpeciesCodes, .particleContributing, .coordinates]
  callbacks : ∀ c, m.callback c = .requiredByAPI ↔ c = .getNeighborList

/-- Quantities which enter the objective. -/
def Needed (stress : Bool) (confs : List Conf) : Arg → Prop
  | .partialEnergy => True
  | .partialForces => ∃ c ∈ confs, c.uf = true
  | .partialVirial => stress = true ∧ ∃ c ∈ confs, c.us = true
  | _ => False

/-- Quantities for which the program has memory. -/
def Offered (stress : Bool) (a : Arg) : Prop := a = .partialEnergy ∨ a = .partialForces ∨ (stress = true ∧ a = .partialVirial)

/-- Units, parameters and elements are right. -/
structure Suitable (m : Model) (elements : List String) : Prop where
  units : m.units = true
  refresh : m.refresh = true
  params : m.params ≠ []
  types : ∀ p ∈ m.params, p.1 ≠ .unknown ∧ p.2 ≠ 0
  species : ∀ e ∈ elements, ∃ code, (e, code) ∈ m.species

/-- The fit can be done: what is needed is supported, and nothing else is required than what the program can offer. -/
structure Usable (stress : Bool) (m : Model) (elements : List String) (confs : List Conf) : Prop where
  suitable : Suitable m elements
  needed : ∀ a, Needed stress confs a → m.arg a ≠ .notSupported
  required : ∀ a, m.arg a = .required → Offered stress a
  callback : m.callback .other ≠ .required

/-! ### Proofs -/

theorem each_ok {α : Type} (g : α → Except KimSetup.Fault Unit) : ∀ l : List α, each g l = .ok () ↔ ∀ a ∈ l, g a = .ok ()
  | [] => by simp [each]
  | a :: l => by
    rw [each]
    have ih := each_ok g l
    cases he : g a with
    | error e => simp [he]
    | ok u => simp [he, ih]

/-- The flags say whether some configuration uses forces and stresses, although the loop is left early. -/
theorem useFlags_spec (stress : Bool) : ∀ (l : List Conf) (f s : Bool),
    ((useFlags stress l f s).1 = true ↔ f = true ∨ ∃ c ∈ l, c.uf = true) ∧
    ((useFlags stress l f s).2 = true ↔ s = true ∨ (stress = true ∧ ∃ c ∈ l, c.us = true))
  | [], f, s => by simp [useFlags]
  | c :: l, f, s => by
    have ih := useFlags_spec stress l (f || c.uf) (s || (stress && c.us))
    rw [useFlags]
    split
    · next h =>
      simp only [Bool.and_eq_true, Bool.or_eq_true, Bool.not_eq_true'] at h
      obtain ⟨h1, h2⟩ := h
      simp only [List.mem_cons, exists_eq_or_imp, Bool.or_eq_true, Bool.and_eq_true]
      refine ⟨by tauto, ?_⟩
      rcases h2 with h2 | h2
      · tauto
      · simp [h2]
    · rw [ih.1, ih.2]
      simp only [List.mem_cons, exists_eq_or_imp, Bool.or_eq_true, Bool.and_eq_true]
      constructor <;> tauto

theorem speciesMap_ok (m : Model) : ∀ (es : List String) (l : List ℤ), speciesMap m es = .ok l ↔
    List.Forall₂ (fun e code => m.species.lookup e = some code) es l
  | [], l => by
    constructor
    · intro h
      rw [← Except.ok.inj h]
      exact .nil
    · rintro ⟨⟩
      rfl
  | e :: es, l => by
    rw [speciesMap]
    cases h : m.species.lookup e with
    | none =>
      simp only [reduceCtorEq, false_iff]
      intro hf
      cases hf with
      | cons h1 _ => rw [h] at h1; cases h1
    | some code =>
      have ih := speciesMap_ok m es
      cases h2 : speciesMap m es with
      | error x =>
        simp only [reduceCtorEq, false_iff]
        intro hf
        cases hf with
        | cons _ h4 => rw [(ih _).2 h4] at h2; cases h2
      | ok l' =>
        simp only [Except.ok.injEq]
        constructor
        · rintro rfl
          exact .cons h ((ih _).1 h2)
        · intro hf
          cases hf with
          | cons h3 h4 =>
            rw [h] at h3
            obtain rfl := Option.some.inj h3
            rw [(ih _).2 h4] at h2
            rw [← Except.ok.inj h2]

theorem lookup_mem {l : List (String × ℤ)} {e : String} : (∃ code, l.lookup e = some code) ↔ ∃ code, (e, code) ∈ l := by
  induction l with
  | nil => simp
  | cons p l ih =>
    obtain ⟨n, c⟩ := p
    by_cases h : e = n
    · subst h
      rw [List.lookup_cons_self]
      exact ⟨fun _ => ⟨c, by simp⟩, fun _ => ⟨c, rfl⟩⟩
    · rw [List.lookup_cons, show (e == n) = false from by simpa using h]
      simp only [ih, List.mem_cons, Prod.mk.injEq, h, false_and, false_or]

theorem mem_of_lookup {l : List (String × ℤ)} {e : String} {code : ℤ} (h : l.lookup e = some code) : (e, code) ∈ l := by
  induction l with
  | nil => simp at h
  | cons p l ih =>
    obtain ⟨n, c⟩ := p
    by_cases hn : e = n
    · subst hn
      rw [List.lookup_cons_self] at h
      obtain rfl := Option.some.inj h
      simp
    · rw [List.lookup_cons, show (e == n) = false from by simpa using hn] at h
      exact List.mem_cons_of_mem _ (ih h)

theorem speciesMap_exists (m : Model) (es : List String) : (∃ l, speciesMap m es = .ok l) ↔ ∀ e ∈ es, ∃ code, (e, code) ∈ m.species := by
  constructor
  · rintro ⟨l, hl⟩ e he
    rw [speciesMap_ok] at hl
    rw [← lookup_mem]
    induction hl with
    | nil => simp at he
    | cons h _ ih =>
      rcases List.mem_cons.1 he with rfl | he
      · exact ⟨_, h⟩
      · exact ih he
  · intro h
    induction es with
    | nil => exact ⟨[], rfl⟩
    | cons e es ih =>
      obtain ⟨l, hl⟩ := ih fun e he => h e (by simp [he])
      obtain ⟨code, hc⟩ := lookup_mem.2 (h e (by simp))
      exact ⟨code :: l, (speciesMap_ok m _ _).2 (.cons hc ((speciesMap_ok m _ _).1 hl))⟩

theorem initModel_ok (m : Model) : (∃ n, initModel m = .ok n) ↔ m.units = true ∧ m.refresh = true ∧ m.params ≠ [] ∧
    ∀ p ∈ m.params, p.1 ≠ .unknown ∧ p.2 ≠ 0 := by
  unfold initModel
  by_cases h1 : m.units = true
  · by_cases h2 : m.refresh = true
    · by_cases h3 : m.params = []
      · simp [h1, h2, h3]
      · have h3' : ¬ m.params.length < 1 := by
          have := List.length_pos_iff.2 h3
          omega
        by_cases h4 : (m.params.any fun p => p.2 == 0 || p.1 == .unknown) = true
        · rw [if_neg (by simp [h1]), if_neg (by simp [h2]), if_neg h3', if_pos h4]
          simp only [reduceCtorEq, exists_false, false_iff]
          rintro ⟨-, -, -, h⟩
          obtain ⟨p, hp, hq⟩ := List.any_eq_true.1 h4
          have := h p hp
          simp only [Bool.or_eq_true, beq_iff_eq] at hq
          tauto
        · rw [if_neg (by simp [h1]), if_neg (by simp [h2]), if_neg h3', if_neg h4]
          simp only [Except.ok.injEq, exists_eq', true_iff]
          refine ⟨h1, h2, h3, fun p hp => ?_⟩
          by_contra hcon
          apply h4
          refine List.any_eq_true.2 ⟨p, hp, ?_⟩
          simp only [Bool.or_eq_true, beq_iff_eq]
          tauto
    · have h2' : m.refresh = false := by simpa using h2
      simp [h1, h2']
  · have h1' : m.units = false := by simpa using h1
    simp [h1']

/-- What the loop over the arguments checks. -/
theorem checkArgs_ok (stress useF useS : Bool) (m : Model) : each (checkArg stress useF useS m) allArgs = .ok () ↔
    m.arg .partialEnergy ≠ .notSupported ∧ (useF = true → m.arg .partialForces ≠ .notSupported) ∧
    (stress = true → useS = true → m.arg .partialVirial ≠ .notSupported) ∧
    ∀ a, m.arg a = .required → a = .partialEnergy ∨ (useF = true ∧ a = .partialForces) ∨ (stress = true ∧ useS = true ∧ a = .partialVirial) := by
  rw [each_ok]
  constructor
  · intro h
    have key : ∀ a, checkArg stress useF useS m a = .ok () := by
      intro a
      refine h a ?_
      cases a <;> decide
    refine ⟨?_, ?_, ?_, ?_⟩
    · intro hn
      have := key .partialEnergy
      simp [checkArg, hn] at this
    · intro hu hn
      have := key .partialForces
      simp [checkArg, hn, hu] at this
    · intro hs hu hn
      have := key .partialVirial
      simp [checkArg, hn, hs, hu] at this
    · intro a ha
      by_contra hcon
      push Not at hcon
      have := key a
      unfold checkArg at this
      rw [if_neg hcon.1, if_neg (fun h => hcon.2.1 h.1 h.2), if_neg (fun h => hcon.2.2 h.1 h.2.1 h.2.2), if_pos ha] at this
      cases this
  · rintro ⟨h1, h2, h3, h4⟩ a _
    unfold checkArg
    split
    · next h => rw [if_neg (by rw [h]; exact h1)]
    · next hne =>
      split
      · next h => rw [if_neg (by rw [h.2]; exact h2 h.1)]
      · next hnf =>
        split
        · next h => rw [if_neg (by rw [h.2.2]; exact h3 h.1 h.2.1)]
        · next hns =>
          rw [if_neg]
          intro hr
          rcases h4 a hr with h | h | h
          · exact hne h
          · exact hnf h
          · exact hns h

theorem setCallbacks_ok (m : Model) : (∃ l, setCallbacks m allCallbacks = .ok l) ↔ m.callback .other ≠ .required := by
  simp only [allCallbacks, setCallbacks, setCallback]
  by_cases h : m.callback .other = .required
  · simp [h]
  · simp [h]

theorem setCallbacks_mem (m : Model) (l : List Callback) (h : setCallbacks m allCallbacks = .ok l) (c : Callback) :
    c ∈ l ↔ c = .getNeighborList ∨ (c ≠ .other ∧ (m.callback c = .required ∨ m.callback c = .optional)) := by
  have ho : m.callback .other ≠ .required := (setCallbacks_ok m).1 ⟨l, h⟩
  simp only [allCallbacks, setCallbacks, setCallback, ho, if_false, Except.ok.injEq] at h
  rw [← h]
  cases c
  · simp
  · by_cases h1 : m.callback .processDEDrTerm = .required ∨ m.callback .processDEDrTerm = .optional <;> simp [h1]
  · by_cases h1 : m.callback .processD2EDr2Term = .required ∨ m.callback .processD2EDr2Term = .optional <;> simp [h1]
  · simp

/-- What the program demands of a model. -/
structure Accepted (stress : Bool) (m : Model) (elements : List String) (confs : List Conf) : Prop where
  suitable : Suitable m elements
  nonempty : confs ≠ []
  needed : ∀ a, Needed stress confs a → m.arg a ≠ .notSupported
  forces : m.arg .partialForces ≠ .notSupported
  particles : ∀ a ∈ [Arg.numberOfParticles, .particleSpeciesCodes, .particleContributing, .coordinates], m.arg a ≠ .notSupported
  required : ∀ a, m.arg a = .required → Needed stress confs a
  callback : m.callback .other ≠ .required

theorem needed_iff (stress : Bool) (confs : List Conf) (a : Arg) : Needed stress confs a ↔
    a = .partialEnergy ∨ ((useFlags stress confs false false).1 = true ∧ a = .partialForces) ∨
      (stress = true ∧ (useFlags stress confs false false).2 = true ∧ a = .partialVirial) := by
  rw [(useFlags_spec stress confs false false).1, (useFlags_spec stress confs false false).2]
  cases a <;> simp [Needed]

theorem checks_iff (stress : Bool) (m : Model) (confs : List Conf) :
    each (checkArg stress (useFlags stress confs false false).1 (useFlags stress confs false false).2 m) allArgs = .ok () ↔
      (∀ a, Needed stress confs a → m.arg a ≠ .notSupported) ∧ ∀ a, m.arg a = .required → Needed stress confs a := by
  rw [checkArgs_ok]
  simp only [needed_iff]
  constructor
  · rintro ⟨h1, h2, h3, h4⟩
    refine ⟨?_, h4⟩
    rintro a (rfl | ⟨h, rfl⟩ | ⟨h, h', rfl⟩)
    · exact h1
    · exact h2 h
    · exact h3 h h'
  · rintro ⟨h1, h2⟩
    exact ⟨h1 _ (.inl rfl), fun h => h1 _ (.inr (.inl ⟨h, rfl⟩)), fun h h' => h1 _ (.inr (.inr ⟨h, h', rfl⟩)), h2⟩

theorem pointers_iff (m : Model) : each (setPointer m) setupArgs = .ok () ↔ m.arg .partialForces ≠ .notSupported ∧
    ∀ a ∈ [Arg.numberOfParticles, .particleSpeciesCodes, .particleContributing, .coordinates], m.arg a ≠ .notSupported := by
  rw [each_ok]
  have h : ∀ a, setPointer m a = .ok () ↔ m.arg a ≠ .notSupported := by
    intro a
    unfold setPointer
    split
    · next h => simp [h]
    · next h => simp [h]
  simp only [h, setupArgs, List.mem_cons, List.not_mem_nil, or_false, forall_eq_or_imp, forall_eq]
  tauto

theorem setUp_eq (stress : Bool) (m : Model) (elements : List String) (confs : List Conf) (map : List ℤ) (cbs : List Callback) :
    setUp stress m elements confs = .ok (map, cbs) ↔ (∃ n, initModel m = .ok n) ∧ confs ≠ [] ∧ speciesMap m elements = .ok map ∧
      each (checkArg stress (useFlags stress confs false false).1 (useFlags stress confs false false).2 m) allArgs = .ok () ∧
      setCallbacks m allCallbacks = .ok cbs ∧ each (setPointer m) setupArgs = .ok () := by
  unfold setUp checkSupport
  cases h1 : initModel m with
  | error e => simp
  | ok n =>
    by_cases h2 : confs = []
    · simp [h2]
    · cases h3 : speciesMap m elements with
      | error e => simp [h2]
      | ok l =>
        cases h4 : each (checkArg stress (useFlags stress confs false false).1 (useFlags stress confs false false).2 m) allArgs with
        | error e => simp [h2, h4]
        | ok u =>
          cases h5 : setCallbacks m allCallbacks with
          | error e => simp [h2, h4]
          | ok l' =>
            cases h6 : each (setPointer m) setupArgs with
            | error e => simp [h2, h4]
            | ok u => simp [h2, h4]

/-! ### Theorems -/

/-- A model is accepted exactly under these conditions, whatever it is. -/
theorem C103_accept (stress : Bool) (m : Model) (elements : List String) (confs : List Conf) :
    (∃ r, setUp stress m elements confs = .ok r) ↔ Accepted stress m elements confs := by
  constructor
  · rintro ⟨⟨map, cbs⟩, h⟩
    obtain ⟨h1, h2, h3, h4, h5, h6⟩ := (setUp_eq _ _ _ _ _ _).1 h
    obtain ⟨a1, a2, a3, a4⟩ := (initModel_ok m).1 h1
    obtain ⟨b1, b2⟩ := (checks_iff _ _ _).1 h4
    obtain ⟨c1, c2⟩ := (pointers_iff m).1 h6
    exact ⟨⟨a1, a2, a3, a4, (speciesMap_exists m elements).1 ⟨_, h3⟩⟩, h2, b1, c1, c2, b2, (setCallbacks_ok m).1 ⟨_, h5⟩⟩
  · rintro ⟨⟨a1, a2, a3, a4, a5⟩, h2, b1, c1, c2, b2, h5⟩
    obtain ⟨map, hm⟩ := (speciesMap_exists m elements).2 a5
    obtain ⟨cbs, hc⟩ := (setCallbacks_ok m).2 h5
    exact ⟨(map, cbs), (setUp_eq _ _ _ _ _ _).2 ⟨(initModel_ok m).2 ⟨a1, a2, a3, a4⟩, h2, hm, (checks_iff _ _ _).2 ⟨b1, b2⟩, hc,
      (pointers_iff m).2 ⟨c1, c2⟩⟩⟩

/-- Every type gets the code which the model gives to its element. -/
theorem C103_codes (stress : Bool) (m : Model) (elements : List String) (confs : List Conf) (map : List ℤ) (cbs : List Callback)
    (h : setUp stress m elements confs = .ok (map, cbs)) :
    map.length = elements.length ∧ ∀ (i : Nat) (e : String) (code : ℤ), elements[i]? = some e → map[i]? = some code → (e, code) ∈ m.species := by
  have hf := (speciesMap_ok m elements map).1 ((setUp_eq _ _ _ _ _ _).1 h).2.2.1
  refine ⟨hf.length_eq.symm, ?_⟩
  clear h
  induction hf with
  | nil => intro i e code he; simp at he
  | cons h1 _ ih =>
    intro i e code he hc
    cases i with
    | zero =>
      simp only [List.getElem?_cons_zero, Option.some.injEq] at he hc
      subst he hc
      exact mem_of_lookup h1
    | succ i => exact ih i e code (by simpa using he) (by simpa using hc)

/-- Evaluations with an accepted model succeed for all configurations if and only if the model does not require the virial or all
configurations use it. -/
theorem C103_evaluates (stress : Bool) (m : Model) (hm : ProperModel m) (elements : List String) (confs : List Conf) (map : List ℤ)
    (cbs : List Callback) (h : setUp stress m elements confs = .ok (map, cbs)) :
    (∀ c ∈ confs, evaluate stress m cbs c = .ok ()) ↔ (m.arg .partialVirial = .required → ∀ c ∈ confs, c.us = true) := by
  have hacc := (C103_accept stress m elements confs).1 ⟨_, h⟩
  have hcb := setCallbacks_mem m cbs ((setUp_eq _ _ _ _ _ _).1 h).2.2.2.2.1
  have hstress : m.arg .partialVirial = .required → stress = true := fun hv => (hacc.required _ hv).1
  have key : ∀ c ∈ confs, evaluate stress m cbs c = .ok () ↔ (m.arg .partialVirial = .required → c.us = true) := by
    intro c hc
    have hE : setPointer m .partialEnergy = .ok () := if_neg (hacc.needed .partialEnergy trivial)
    have hV : (if stress = true ∧ c.us = true then setPointer m .partialVirial else .ok ()) = .ok () := by
      split
      · next hs => exact if_neg (hacc.needed .partialVirial ⟨hs.1, c, hc, hs.2⟩)
      · rfl
    have hcalls : (allCallbacks.all fun c => !wanted (m.callback c) || cbs.contains c) = true := by
      rw [List.all_eq_true]
      intro d _
      simp only [wanted, Bool.or_eq_true, Bool.not_eq_true', Bool.or_eq_false_iff, beq_eq_false_iff_ne, List.contains_iff_mem]
      rw [hcb]
      by_cases hw : m.callback d = .required
      · right; right
        refine ⟨?_, .inl hw⟩
        rintro rfl
        exact hacc.callback hw
      · by_cases hw' : m.callback d = .requiredByAPI
        · exact .inr (.inl ((hm.callbacks d).1 hw'))
        · exact .inl ⟨hw, hw'⟩
    unfold evaluate computes
    rw [hE, hV, hcalls, Bool.and_true]
    have hargs : (allArgs.all fun a => !wanted (m.arg a) || (computeArgs stress c).contains a) = true ↔
        (m.arg .partialVirial = .required → c.us = true) := by
      rw [List.all_eq_true]
      simp only [wanted, Bool.or_eq_true, Bool.not_eq_true', Bool.or_eq_false_iff, beq_eq_false_iff_ne, List.contains_iff_mem]
      constructor
      · intro ha hv
        rcases ha .partialVirial (by decide) with h1 | h1
        · exact absurd hv h1.1
        · by_contra hus
          simp [computeArgs, setupArgs, hus] at h1
      · intro ha a _
        by_cases hr : m.arg a = .required
        · right
          have := hacc.required a hr
          cases a <;> simp only [Needed] at this
          · simp [computeArgs]
          · simp [computeArgs, setupArgs]
          · simp [computeArgs, ha hr, hstress hr]
        · by_cases hr' : m.arg a = .requiredByAPI
          · right
            have := (hm.args a).1 hr'
            simp only [List.mem_cons, List.not_mem_nil, or_false] at this
            rcases this with rfl | rfl | rfl | rfl <;> simp [computeArgs, setupArgs]
          · exact .inl ⟨hr, hr'⟩
    by_cases hall : (allArgs.all fun a => !wanted (m.arg a) || (computeArgs stress c).contains a) = true
    · simp only [hall, if_true, true_iff]
      exact hargs.1 hall
    · simp only [if_neg hall, reduceCtorEq, false_iff]
      exact fun h => hall (hargs.2 h)
  constructor
  · intro hall hv c hc
    exact (key c hc).1 (hall c hc) hv
  · intro hall c hc
    exact (key c hc).2 fun hv => hall hv c hc

/-- If forces are used and every configuration uses its stresses in case the model requires the virial, the selection is right: the
model is accepted if and only if the fit can be done, and then all evaluations succeed. -/
theorem C103_partial (stress : Bool) (m : Model) (hm : ProperModel m) (elements : List String) (confs : List Conf)
    (hf : ∃ c ∈ confs, c.uf = true) (hv : m.arg .partialVirial = .required → ∀ c ∈ confs, c.us = true) :
    ((∃ r, setUp stress m elements confs = .ok r) ↔ Usable stress m elements confs) ∧
    ∀ map cbs, setUp stress m elements confs = .ok (map, cbs) → ∀ c ∈ confs, evaluate stress m cbs c = .ok () := by
  refine ⟨?_, fun map cbs h => (C103_evaluates stress m hm elements confs map cbs h).2 hv⟩
  rw [C103_accept]
  obtain ⟨c0, hc0, hu⟩ := hf
  constructor
  · intro h
    refine ⟨h.suitable, h.needed, fun a ha => ?_, h.callback⟩
    have := h.required a ha
    cases a <;> simp only [Needed] at this
    · exact .inl rfl
    · exact .inr (.inl rfl)
    · exact .inr (.inr ⟨this.1, rfl⟩)
  · intro h
    refine ⟨h.suitable, List.ne_nil_of_mem hc0, h.needed, h.needed .partialForces ⟨c0, hc0, hu⟩, ?_, ?_, h.callback⟩
    · intro a ha hn
      rw [(hm.args a).2 ha] at hn
      cases hn
    · intro a ha
      rcases h.required a ha with rfl | rfl | ⟨hs, rfl⟩
      · trivial
      · exact ⟨c0, hc0, hu⟩
      · exact ⟨hs, c0, hc0, hv ha c0 hc0⟩

/-! ### Examples and refutations -/

/-- A model for copper with given statuses of forces and virial. -/
def copperModel (f v : Status) : Model where
  units := true
  refresh := true
  species := [("Ag", 3), ("Cu", 0)]
  params := [(.double, 2), (.integer, 1)]
  arg := fun a => match a with
    | .numberOfParticles => .requiredByAPI
    | .particleSpeciesCodes => .requiredByAPI
    | .particleContributing => .requiredByAPI
    | .coordinates => .requiredByAPI
    | .partialEnergy => .optional
    | .partialForces => f
    | .partialVirial => v
    | _ => .notSupported
  callback := fun c => match c with
    | .getNeighborList => .requiredByAPI
    | .processDEDrTerm => .optional
    | _ => .notSupported

theorem copperModel_proper (f v : Status) (hf : f ≠ .requiredByAPI) (hv : v ≠ .requiredByAPI) : ProperModel (copperModel f v) := by
  constructor
  · intro a
    cases a <;> simp [copperModel, hf, hv]
  · intro c
    cases c <;> simp [copperModel]

theorem copperModel_usable (f v : Status) (stress : Bool) (elements : List String) (confs : List Conf) (he : ∀ e ∈ elements, e = "Cu" ∨ e = "Ag")
    (hf : (∃ c ∈ confs, c.uf = true) → f ≠ .notSupported) (hv : stress = true → (∃ c ∈ confs, c.us = true) → v ≠ .notSupported)
    (hr : v = .required → stress = true) : Usable stress (copperModel f v) elements confs := by
  refine ⟨⟨rfl, rfl, by simp [copperModel], ?_, ?_⟩, ?_, ?_, by simp [copperModel]⟩
  · intro p hp
    simp only [copperModel, List.mem_cons, List.not_mem_nil, or_false] at hp
    rcases hp with rfl | rfl <;> simp
  · intro e h
    rcases he e h with rfl | rfl
    · exact ⟨0, by simp [copperModel]⟩
    · exact ⟨3, by simp [copperModel]⟩
  · intro a ha
    cases a <;> simp only [Needed] at ha
    · simp [copperModel]
    · exact hf ha
    · exact hv ha.1 ha.2
  · intro a ha
    cases a <;> simp [copperModel] at ha
    · exact .inr (.inl rfl)
    · exact .inr (.inr ⟨hr ha, rfl⟩)

/-- The hypotheses of the theorems can be met. -/
example : setUp true (copperModel .required .optional) ["Cu", "Ag"] [⟨true, false⟩, ⟨false, true⟩] =
    .ok ([0, 3], [.getNeighborList, .processDEDrTerm]) := by decide +kernel

example : evaluate true (copperModel .required .optional) [.getNeighborList, .processDEDrTerm] ⟨false, true⟩ = .ok () := by decide +kernel

example : Usable true (copperModel .required .optional) ["Cu", "Ag"] [⟨true, false⟩, ⟨false, true⟩] :=
  ((C103_partial true _ (copperModel_proper _ _ (by decide) (by decide)) ["Cu", "Ag"] [⟨true, false⟩, ⟨false, true⟩] ⟨⟨true, false⟩, by simp, rfl⟩
    (by simp [copperModel])).1).1 ⟨([0, 3], [.getNeighborList, .processDEDrTerm]), by decide +kernel⟩

/-- Refutation: a model which offers energies only is refused for a fit to energies only, because the pointer of the forces is set
without condition. -/
theorem C103_forces_violated : ∃ m : Model, ∃ confs, ProperModel m ∧ Usable false m ["Cu"] confs ∧ confs ≠ [] ∧
    setUp false m ["Cu"] confs = .error .pointer :=
  ⟨copperModel .notSupported .notSupported, [⟨false, false⟩], copperModel_proper _ _ (by decide) (by decide),
    copperModel_usable _ _ _ _ _ (by simp) (by simp) (by simp) (by decide), by simp, by decide +kernel⟩

/-- Refutation: a model which requires the pointer of the forces is refused for a fit to energies only, although the pointer is set. -/
theorem C103_required_violated : ∃ m : Model, ∃ confs, ProperModel m ∧ Usable false m ["Cu"] confs ∧ confs ≠ [] ∧
    setUp false m ["Cu"] confs = .error .argument :=
  ⟨copperModel .required .notSupported, [⟨false, false⟩], copperModel_proper _ _ (by decide) (by decide),
    copperModel_usable _ _ _ _ _ (by simp) (by simp) (by simp) (by decide), by simp, by decide +kernel⟩

/-- Refutation: a model which requires the virial is accepted if one configuration uses its stresses, and the evaluation of a
configuration without stresses ends the program. -/
theorem C103_virial_violated : ∃ m : Model, ∃ confs, ProperModel m ∧ ∃ map cbs, setUp true m ["Cu"] confs = .ok (map, cbs) ∧
    ∃ c ∈ confs, evaluate true m cbs c = .error .compute :=
  ⟨copperModel .optional .required, [⟨true, true⟩, ⟨true, false⟩], copperModel_proper _ _ (by decide) (by decide), [0],
    [.getNeighborList, .processDEDrTerm], by decide +kernel, ⟨true, false⟩, by simp, by decide +kernel⟩

end Verif.Props
