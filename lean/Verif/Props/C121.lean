/-
C121  Electrostatic tail functions stored with the neighbours belong to the `kappa` of the current evaluation.

`A` are the atoms with their neighbours as the routine sees them without any stored values; `tail r kappa` is the function meant.
-/
import Verif.Model.TailStore
import Mathlib.Data.Rat.Defs
import Mathlib.Algebra.Order.Ring.Rat
import Mathlib.Algebra.Field.Rat

set_option linter.unusedSectionVars false

namespace Verif.Props

open Verif.Force Verif.TailStore

variable {K : Type*} [Field K] [LinearOrder K] {σ : Type*}

/-! ### Specification -/

/-- The same atoms and neighbours, whatever values are stored. -/
def SameLists : List (Stored K) → List (Atom K) → Prop
  | [], [] => True
  | a :: as, b :: bs => a.1 = b.typ ∧ a.2.map Prod.fst = b.neigh ∧ SameLists as bs
  | _, _ => False

/-- All stored values are those of `kappa`. -/
def TailsOf (tail : K → K → ElTail K) (kappa : K) (A : List (Stored K)) : Prop := ∀ a ∈ A, ∀ e ∈ a.2, e.2 = tail e.1.r kappa

/-! ### Loops -/

theorem neighLoop_spec (sw : Bool) (tail : K → K → ElTail K) (kappa : K) (body : Nat → Nat → ElTail K → σ → Neigh K → σ) (i typ : Nat)
    (l : List (Neigh K × ElTail K)) (s : σ) (h : sw = true → ∀ e ∈ l, e.2 = tail e.1.r kappa) :
    let r := neighLoop sw tail kappa body i typ l s
    r.1.map Prod.fst = l.map Prod.fst ∧ (∀ e ∈ r.1, e.2 = tail e.1.r kappa) ∧
    r.2 = (l.map Prod.fst).foldl (fun s n => body i typ (tail n.r kappa) s n) s := by
  induction l generalizing s with
  | nil => exact ⟨rfl, by simp [neighLoop], rfl⟩
  | cons e l ih =>
    have ht : (if sw = true then e.2 else tail e.1.r kappa) = tail e.1.r kappa := by
      split
      · next hs => exact h hs e List.mem_cons_self
      · rfl
    obtain ⟨h1, h2, h3⟩ := ih (body i typ (tail e.1.r kappa) s e.1) fun hs x hx => h hs x (List.mem_cons_of_mem _ hx)
    simp only [neighLoop, ht]
    refine ⟨by simp [h1], ?_, by simpa using h3⟩
    intro x hx
    rcases List.mem_cons.1 hx with rfl | hx
    · rfl
    · exact h2 x hx

theorem atomLoop_spec (sw : Bool) (tail : K → K → ElTail K) (kappa : K) (body : Nat → Nat → ElTail K → σ → Neigh K → σ)
    (S : List (Stored K)) (A : List (Atom K)) (hm : SameLists S A) (i : Nat) (s : σ) (h : sw = true → TailsOf tail kappa S) :
    let r := atomLoop sw tail kappa body S i s
    SameLists r.1 A ∧ TailsOf tail kappa r.1 ∧ r.2 = overNeigh (fun i typ s n => body i typ (tail n.r kappa) s n) A i s := by
  induction S generalizing A i s with
  | nil =>
    cases A with
    | nil => exact ⟨trivial, fun a ha => by simp [atomLoop] at ha, rfl⟩
    | cons b bs => exact absurd hm (by simp [SameLists])
  | cons a as ih =>
    cases A with
    | nil => exact absurd hm (by simp [SameLists])
    | cons b bs =>
      obtain ⟨m1, m2, m3⟩ := hm
      obtain ⟨h1, h2, h3⟩ := neighLoop_spec sw tail kappa body i a.1 a.2 s fun hs e he => h hs a List.mem_cons_self e he
      simp only [atomLoop, overNeigh]
      obtain ⟨g1, g2, g3⟩ := ih bs m3 (i + 1) (neighLoop sw tail kappa body i a.1 a.2 s).2
        fun hs x hx => h hs x (List.mem_cons_of_mem _ hx)
      refine ⟨⟨m1, by rw [h1, m2], g1⟩, ?_, ?_⟩
      · intro x hx
        rcases List.mem_cons.1 hx with rfl | hx
        · exact h2
        · exact g2 x hx
      · rw [g3, h3, m1, m2]

theorem laterLoop_spec (tail : K → K → ElTail K) (kappa : K) (body : Nat → Nat → ElTail K → σ → Neigh K → σ)
    (S : List (Stored K)) (A : List (Atom K)) (hm : SameLists S A) (i : Nat) (s : σ) (h : TailsOf tail kappa S) :
    laterLoop body S i s = overNeigh (fun i typ s n => body i typ (tail n.r kappa) s n) A i s := by
  induction S generalizing A i s with
  | nil =>
    cases A with
    | nil => rfl
    | cons b bs => exact absurd hm (by simp [SameLists])
  | cons a as ih =>
    cases A with
    | nil => exact absurd hm (by simp [SameLists])
    | cons b bs =>
      obtain ⟨m1, m2, m3⟩ := hm
      have hf : ∀ (l : List (Neigh K × ElTail K)) (s : σ), (∀ e ∈ l, e.2 = tail e.1.r kappa) →
          l.foldl (fun s e => body i a.1 e.2 s e.1) s = (l.map Prod.fst).foldl (fun s n => body i b.typ (tail n.r kappa) s n) s := by
        intro l
        induction l with
        | nil => intro s _; rfl
        | cons e l ihl =>
          intro s hl
          rw [List.foldl_cons, List.map_cons, List.foldl_cons, ihl _ fun x hx => hl x (List.mem_cons_of_mem _ hx),
            hl e List.mem_cons_self, m1]
      rw [laterLoop, overNeigh, hf a.2 s fun e he => h a List.mem_cons_self e he, m2]
      exact ih bs m3 (i + 1) _ fun x hx => h x (List.mem_cons_of_mem _ hx)

theorem init_spec (tail : K → K → ElTail K) (kappa : K) (S : List (Stored K)) (A : List (Atom K)) (hm : SameLists S A) :
    SameLists (initTails tail kappa S) A ∧ TailsOf tail kappa (initTails tail kappa S) := by
  constructor
  · induction S generalizing A with
    | nil => exact hm
    | cons a as ih =>
      cases A with
      | nil => exact absurd hm (by simp [SameLists])
      | cons b bs =>
        obtain ⟨m1, m2, m3⟩ := hm
        refine ⟨m1, ?_, ih bs m3⟩
        rw [← m2, List.map_map]
        rfl
  · intro a ha e he
    obtain ⟨b, -, rfl⟩ := List.mem_map.1 ha
    obtain ⟨f, -, rfl⟩ := List.mem_map.1 he
    rfl

/-! ### Results -/

/-- What an evaluation with `kappa` does from the memory `S`: the first loop over neighbours, whatever it computes, and later loops see
the functions of this `kappa`. -/
structure SeesTails (sw : Bool) (tail : K → K → ElTail K) (kappa : K) (S : List (Stored K)) (A : List (Atom K)) : Prop where
  first : ∀ {τ : Type} (body : Nat → Nat → ElTail K → τ → Neigh K → τ) (s : τ),
    (atomLoop sw tail kappa body S 0 s).2 = overNeigh (fun i typ s n => body i typ (tail n.r kappa) s n) A 0 s
  later : ∀ {τ υ : Type} (body : Nat → Nat → ElTail K → τ → Neigh K → τ) (s : τ) (body' : Nat → Nat → ElTail K → υ → Neigh K → υ) (s' : υ),
    laterLoop body' (atomLoop sw tail kappa body S 0 s).1 0 s' = overNeigh (fun i typ s n => body' i typ (tail n.r kappa) s n) A 0 s'

theorem sees_of {sw : Bool} {tail : K → K → ElTail K} {kappa : K} {S : List (Stored K)} {A : List (Atom K)} (hm : SameLists S A)
    (h : sw = true → TailsOf tail kappa S) : SeesTails sw tail kappa S A := by
  constructor
  · intro τ body s
    exact (atomLoop_spec sw tail kappa body S A hm 0 s h).2.2
  · intro τ υ body s body' s'
    obtain ⟨h1, h2, -⟩ := atomLoop_spec sw tail kappa body S A hm 0 s h
    exact laterLoop_spec tail kappa body' _ A h1 0 s' h2

/-- **`kappa` free, and all other processes:** in every evaluation, whatever is stored before and whatever evaluations came before. -/
theorem C121_free (tail : K → K → ElTail K) (body : Nat → Nat → ElTail K → σ → Neigh K → σ) (s0 : σ) (S : List (Stored K))
    (A : List (Atom K)) (hm : SameLists S A) (ks : List K) (kappa : K) :
    SeesTails false tail kappa (evaluations false tail body s0 ks S) A := by
  have h : SameLists (evaluations false tail body s0 ks S) A := by
    induction ks generalizing S with
    | nil => exact hm
    | cons k ks ih => exact ih _ (atomLoop_spec false tail k body S A hm 0 s0 (by simp)).1
  exact sees_of h (by simp)

/-- **`kappa` fixed:** the values computed at the start serve every evaluation with that `kappa`. -/
theorem C121_fixed (tail : K → K → ElTail K) (body : Nat → Nat → ElTail K → σ → Neigh K → σ) (s0 : σ) (S : List (Stored K))
    (A : List (Atom K)) (hm : SameLists S A) (kappa : K) (n : Nat) :
    SeesTails true tail kappa (evaluations true tail body s0 (List.replicate n kappa) (initForce true tail kappa S)) A := by
  have h : ∀ (n : Nat) (S : List (Stored K)), SameLists S A → TailsOf tail kappa S →
      SameLists (evaluations true tail body s0 (List.replicate n kappa) S) A ∧
      TailsOf tail kappa (evaluations true tail body s0 (List.replicate n kappa) S) := by
    intro n
    induction n with
    | zero => intro S h1 h2; exact ⟨h1, h2⟩
    | succ n ih =>
      intro S h1 h2
      obtain ⟨g1, g2, -⟩ := atomLoop_spec true tail kappa body S A h1 0 s0 fun _ => h2
      exact ih _ g1 g2
  obtain ⟨i1, i2⟩ := init_spec tail kappa S A hm
  obtain ⟨h1, h2⟩ := h n (initForce true tail kappa S) i1 i2
  exact sees_of h1 fun _ => h2

/-- **Whole run**: file with bounds `pmin`, `pmax` and value `start` of `kappa`; if the bounds are equal, all evaluations have the value
of the file. -/
theorem C121_run_partial (tail : K → K → ElTail K) (body : Nat → Nat → ElTail K → σ → Neigh K → σ) (s0 : σ) (S : List (Stored K))
    (A : List (Atom K)) (hm : SameLists S A) (pmin pmax start : K) (ks : List K) (kappa : K)
    (hk : pmin = pmax → ∀ k ∈ kappa :: ks, k = start) :
    let sw := swKappa pmin pmax
    SeesTails sw tail kappa (evaluations sw tail body s0 ks (initForce sw tail start S)) A := by
  by_cases h : pmin = pmax
  · have e : ks = List.replicate ks.length start :=
      List.eq_replicate_iff.2 ⟨rfl, fun k hx => hk h k (List.mem_cons_of_mem _ hx)⟩
    obtain rfl : kappa = start := hk h kappa List.mem_cons_self
    simp only [swKappa, h, decide_true]
    rw [e]
    exact C121_fixed tail body s0 S A hm kappa _
  · simp only [swKappa, h, decide_false]
    exact C121_free tail body s0 S A hm ks kappa

/-- Energies and forces between charges and the static field: the loops of `Model/ForceElstat.lean` with the tail functions of the
current `kappa`. -/
theorem C121_charges (sw : Bool) (tail : K → K → ElTail K) (kappa : K) (S : List (Stored K)) (A : List (Atom K)) (hm : SameLists S A)
    (h : sw = true → TailsOf tail kappa S) (b : Build) (E : Elec K) (uf us : Bool) (s : Acc K) (f : Nat → V3 K) :
    (atomLoop sw tail kappa (fun i typ t s n => monoNeigh b { E with tail := fun _ => t } uf us i typ s n) S 0 s).2 =
      overNeigh (monoNeigh b { E with tail := fun r => tail r kappa } uf us) A 0 s ∧
    (atomLoop sw tail kappa (fun i typ t f n => statNeigh { E with tail := fun _ => t } i typ f n) S 0 f).2 =
      overNeigh (statNeigh { E with tail := fun r => tail r kappa }) A 0 f :=
  ⟨(atomLoop_spec sw tail kappa _ S A hm 0 s h).2.2, (atomLoop_spec sw tail kappa _ S A hm 0 f h).2.2⟩

/-- **Violated** if a fixed `kappa` changes all the same (differential evolution may end with the zero vector, `C33_start_violated`):
the values stored for the old one are used. -/
theorem C121_changed_violated : ∃ (tail : ℚ → ℚ → ElTail ℚ) (S : List (Stored ℚ)) (A : List (Atom ℚ)), SameLists S A ∧
    swKappa (1 / 10 : ℚ) (1 / 10) = true ∧ ¬ SeesTails true tail 0 (initForce true tail (1 / 10) S) A := by
  refine ⟨fun r k => ⟨r + k, 0, 0⟩, [(0, [(⟨0, 0, 2, fun _ => 0, fun _ => 0, 0, 0⟩, ⟨0, 0, 0⟩)])],
    [⟨0, [⟨0, 0, 2, fun _ => 0, fun _ => 0, 0, 0⟩], 0, true⟩], ⟨rfl, rfl, trivial⟩, by decide +kernel, fun h => ?_⟩
  have e := h.first (fun _ _ t (s : ℚ) _ => s + t.fn) 0
  revert e
  decide +kernel

/-! ### Example -/

/-- Hypotheses of the theorems: two neighbours, arbitrary values stored. -/
example : ∃ (S : List (Stored ℚ)) (A : List (Atom ℚ)), SameLists S A ∧ A.length = 1 ∧
    (atomLoop false (fun r k => ⟨r * k, 0, 0⟩) 3 (fun _ _ t (s : ℚ) _ => s + t.fn) S 0 0).2 = 15 := by
  refine ⟨[(0, [(⟨0, 0, 2, fun _ => 0, fun _ => 0, 0, 0⟩, ⟨7, 7, 7⟩), (⟨0, 0, 3, fun _ => 0, fun _ => 0, 0, 0⟩, ⟨8, 8, 8⟩)])],
    [⟨0, [⟨0, 0, 2, fun _ => 0, fun _ => 0, 0, 0⟩, ⟨0, 0, 3, fun _ => 0, fun _ => 0, 0, 0⟩], 0, true⟩], ⟨rfl, rfl, trivial⟩, rfl, ?_⟩
  decide +kernel

end Verif.Props
