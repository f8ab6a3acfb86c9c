/-
Helper lemmas for the particle and neighbour lists of KIM models.
-/
import Verif.Model.KimLists
import Verif.Lemmas.Neighbors
import Mathlib.Tactic.Linarith
import Mathlib.Tactic.LinearCombination
import Mathlib.Order.Interval.Finset.Basic
import Mathlib.Data.Int.Interval

set_option linter.unusedSectionVars false

namespace Verif.KimLists

open Verif.Force Verif.Neighbors Verif.Spec

theorem radix {x y N d e : ℤ} (hd : 0 ≤ d) (hd' : d < N) (he : 0 ≤ e) (he' : e < N) (h : x * N + d = y * N + e) : x = y ∧ d = e := by
  have hxy : x = y := by
    rcases lt_trichotomy x y with hlt | heq | hgt
    · nlinarith
    · exact heq
    · nlinarith
  subst hxy
  exact ⟨rfl, by linarith⟩

/-- The cells the loops run over. -/
def InRange (s n : Fin 3 → ℤ) : Prop := ∀ k, -s k ≤ n k ∧ n k ≤ s k

theorem cells_pos {s : Fin 3 → ℤ} (hs : ∀ k, 0 ≤ s k) : 0 < cells s := by
  unfold cells
  have := hs 0
  have := hs 1
  have := hs 2
  positivity

theorem cellNr_nonneg {s n : Fin 3 → ℤ} (h : InRange s n) : 0 ≤ cellNr s n := by
  unfold cellNr
  have h0 := h 0
  have h1 := h 1
  have h2 := h 2
  have a : 0 ≤ (2 * s 1 + 1) * (n 0 + s 0) := mul_nonneg (by linarith) (by linarith)
  have b : 0 ≤ ((2 * s 1 + 1) * (n 0 + s 0) + n 1 + s 1) * (2 * s 2 + 1) := mul_nonneg (by linarith) (by linarith)
  linarith

theorem cellNr_lt {s n : Fin 3 → ℤ} (h : InRange s n) : cellNr s n < cells s := by
  unfold cellNr cells
  have h0 := h 0
  have h1 := h 1
  have h2 := h 2
  have a : (2 * s 1 + 1) * (n 0 + s 0) ≤ (2 * s 1 + 1) * (2 * s 0) := mul_le_mul_of_nonneg_left (by linarith) (by linarith)
  have b : ((2 * s 1 + 1) * (n 0 + s 0) + n 1 + s 1) * (2 * s 2 + 1) ≤ ((2 * s 1 + 1) * (2 * s 0) + 2 * s 1) * (2 * s 2 + 1) :=
    mul_le_mul_of_nonneg_right (by linarith) (by linarith)
  nlinarith

theorem cellNr_inj {s n m : Fin 3 → ℤ} (hn : InRange s n) (hm : InRange s m) (h : cellNr s n = cellNr s m) : n = m := by
  unfold cellNr at h
  have n0 := hn 0
  have n1 := hn 1
  have n2 := hn 2
  have m0 := hm 0
  have m1 := hm 1
  have m2 := hm 2
  obtain ⟨e1, e2⟩ := radix (x := (2 * s 1 + 1) * (n 0 + s 0) + n 1 + s 1) (y := (2 * s 1 + 1) * (m 0 + s 0) + m 1 + s 1)
    (N := 2 * s 2 + 1) (d := n 2 + s 2) (e := m 2 + s 2) (by linarith) (by linarith) (by linarith) (by linarith) (by linarith)
  obtain ⟨e3, e4⟩ := radix (x := n 0 + s 0) (y := m 0 + s 0)
    (N := 2 * s 1 + 1) (d := n 1 + s 1) (e := m 1 + s 1) (by linarith) (by linarith) (by linarith) (by linarith) (by linarith)
  funext k
  fin_cases k
  · show n 0 = m 0
    linarith
  · show n 1 = m 1
    linarith
  · show n 2 = m 2
    linarith

theorem cellNr_zero (s : Fin 3 → ℤ) : 2 * cellNr s 0 + 1 = cells s := by
  unfold cellNr cells
  simp only [Pi.zero_apply]
  ring

/-- Number of the block of a cell. -/
def block (s n : Fin 3 → ℤ) : ℤ := if 2 * cellNr s n < cells s then cellNr s n + 1 else cellNr s n

theorem slot_block (s : Fin 3 → ℤ) (cnt j : Nat) (n : Fin 3 → ℤ) : slot s cnt j n = block s n * cnt + j := by
  unfold slot block
  split <;> rfl

theorem block_range {s n : Fin 3 → ℤ} (h : InRange s n) (h0 : n ≠ 0) (hs : ∀ k, 0 ≤ s k) : 1 ≤ block s n ∧ block s n < cells s := by
  have hz := cellNr_zero s
  have h1 := cellNr_nonneg h
  have h2 := cellNr_lt h
  have h3 : cellNr s n ≠ cellNr s 0 := by
    intro he
    refine h0 (cellNr_inj h ?_ he)
    intro k
    have := hs k
    simp only [Pi.zero_apply]
    omega
  unfold block
  split <;> omega

theorem block_inj {s n m : Fin 3 → ℤ} (hs : ∀ k, 0 ≤ s k) (hn : InRange s n) (hm : InRange s m) (n0 : n ≠ 0) (m0 : m ≠ 0)
    (h : block s n = block s m) : n = m := by
  have hz := cellNr_zero s
  have hr : InRange s 0 := by
    intro k
    have := hs k
    simp only [Pi.zero_apply]
    omega
  have h3 : cellNr s n ≠ cellNr s 0 := fun he => n0 (cellNr_inj hn hr he)
  have h4 : cellNr s m ≠ cellNr s 0 := fun he => m0 (cellNr_inj hm hr he)
  apply cellNr_inj hn hm
  unfold block at h
  split at h <;> split at h <;> omega

/-- The images the first loops run over. -/
structure Pad (s : Fin 3 → ℤ) (cnt : Nat) (m : Image) : Prop where
  j : m.j < cnt
  range : InRange s m.n
  other : m.n ≠ 0

theorem slot_range {s : Fin 3 → ℤ} {cnt : Nat} {m : Image} (hs : ∀ k, 0 ≤ s k) (h : Pad s cnt m) :
    (cnt : ℤ) ≤ slot s cnt m.j m.n ∧ slot s cnt m.j m.n < size s cnt := by
  obtain ⟨h1, h2⟩ := block_range h.range h.other hs
  have h3 := h.j
  rw [slot_block]
  unfold size
  have hc : (0 : ℤ) ≤ cnt := by positivity
  have hj : (m.j : ℤ) < cnt := by exact_mod_cast h3
  have hj0 : (0 : ℤ) ≤ m.j := by positivity
  constructor
  · nlinarith
  · nlinarith

theorem slot_inj {s : Fin 3 → ℤ} {cnt : Nat} {m q : Image} (hs : ∀ k, 0 ≤ s k) (hm : Pad s cnt m) (hq : Pad s cnt q)
    (h : slot s cnt m.j m.n = slot s cnt q.j q.n) : m = q := by
  rw [slot_block, slot_block] at h
  have hj : (m.j : ℤ) < cnt := by exact_mod_cast hm.j
  have hj0 : (0 : ℤ) ≤ m.j := by positivity
  have hk : (q.j : ℤ) < cnt := by exact_mod_cast hq.j
  have hk0 : (0 : ℤ) ≤ q.j := by positivity
  obtain ⟨e1, e2⟩ := radix hj0 hj hk0 hk h
  have e3 := block_inj hs hm.range hq.range hm.other hq.other e1
  obtain ⟨mj, mn⟩ := m
  obtain ⟨qj, qn⟩ := q
  simp only at e2 e3
  have : mj = qj := by exact_mod_cast e2
  rw [this, e3]

/-- Different images fill different members of the array behind the atoms. -/
theorem pad_count {s : Fin 3 → ℤ} {cnt : Nat} (hs : ∀ k, 0 ≤ s k) {ims : List Image} (hn : ims.Nodup) (hp : ∀ m ∈ ims, Pad s cnt m) :
    (cnt : ℤ) + ims.length ≤ size s cnt := by
  have h1 : (ims.map fun m => slot s cnt m.j m.n).Nodup :=
    List.Nodup.map_on (fun x hx y hy h => slot_inj hs (hp x hx) (hp y hy) h) hn
  have h2 : (ims.map fun m => slot s cnt m.j m.n).toFinset ⊆ Finset.Ico (cnt : ℤ) (size s cnt) := by
    intro x hx
    rw [List.mem_toFinset, List.mem_map] at hx
    obtain ⟨m, hm, rfl⟩ := hx
    rw [Finset.mem_Ico]
    exact slot_range hs (hp m hm)
  have h3 := Finset.card_le_card h2
  rw [List.toFinset_card_of_nodup h1, List.length_map, Int.card_Ico] at h3
  have h4 : (cnt : ℤ) ≤ size s cnt := by
    unfold size
    have := cells_pos hs
    nlinarith
  omega

theorem mem_otherCells (s n : Fin 3 → ℤ) : n ∈ otherCells s ↔ InRange s n ∧ n ≠ 0 := by
  unfold otherCells
  simp only [List.mem_flatMap, mem_span]
  constructor
  · rintro ⟨ix, hx, iy, hy, iz, hz, h⟩
    split at h
    · simp at h
    · rename_i hne
      rw [List.mem_singleton] at h
      subst h
      refine ⟨?_, ?_⟩
      · intro k
        fin_cases k
        · exact hx
        · exact hy
        · exact hz
      · intro h0
        apply hne
        exact ⟨congrFun h0 0, congrFun h0 1, congrFun h0 2⟩
  · rintro ⟨h, h0⟩
    refine ⟨n 0, h 0, n 1, h 1, n 2, h 2, ?_⟩
    rw [if_neg, List.mem_singleton]
    · funext k
      fin_cases k <;> rfl
    · rintro ⟨a, b, d⟩
      apply h0
      funext k
      fin_cases k
      · exact a
      · exact b
      · exact d

theorem mem_padImages (s : Fin 3 → ℤ) (cnt : Nat) (m : Image) : m ∈ padImages s cnt ↔ Pad s cnt m := by
  unfold padImages
  simp only [List.mem_flatMap, List.mem_range, List.mem_map, mem_otherCells]
  constructor
  · rintro ⟨j, hj, n, ⟨h1, h2⟩, rfl⟩
    exact ⟨hj, h1, h2⟩
  · rintro ⟨h1, h2, h3⟩
    exact ⟨m.j, h1, m.n, ⟨h2, h3⟩, rfl⟩

/-- What holds between the steps of the loops. -/
structure Inv (s : Fin 3 → ℤ) (map : Nat → ℤ) (c : Cell) (ims : List Image) (a : Acc) : Prop where
  parts : a.parts = (List.range c.sites.length).map (ownParticle map c) ++ ims.map (imageParticle map c)
  nodup : ims.Nodup
  pad : ∀ m ∈ ims, Pad s c.sites.length m
  own : ∀ j : Nat, j < c.sites.length → a.atomPos j = j
  listed : ∀ (q : Nat) (m : Image), ims[q]? = some m → a.atomPos (slot s c.sites.length m.j m.n) = (c.sites.length + q : Nat)
  free : ∀ m, Pad s c.sites.length m → m ∉ ims → a.atomPos (slot s c.sites.length m.j m.n) = -1

section
variable {cut : Cutoffs} {s : Fin 3 → ℤ} {map : Nat → ℤ} {c : Cell}

theorem own_fold (hs : ∀ k, 0 ≤ s k) (t : Nat) (ht : t ≤ c.sites.length) :
    ∃ a, (List.range t).foldlM (ownStep (size s c.sites.length) map c) ⟨[], fun _ => -1⟩ = .ok a ∧
      a.parts = (List.range t).map (ownParticle map c) ∧ ∀ k : ℤ, a.atomPos k = if 0 ≤ k ∧ k < t then k else -1 := by
  induction t with
  | zero =>
    refine ⟨⟨[], fun _ => -1⟩, rfl, rfl, ?_⟩
    intro k
    rw [if_neg]
    push_cast
    omega
  | succ t ih =>
    obtain ⟨a, h1, h2, h3⟩ := ih (by omega)
    have hl : a.parts.length = t := by rw [h2]; simp
    have hc := cells_pos hs
    have hsz : (t : ℤ) < size s c.sites.length := by
      unfold size
      have : (t : ℤ) < c.sites.length := by exact_mod_cast ht
      nlinarith
    refine ⟨⟨a.parts ++ [ownParticle map c t], Function.update a.atomPos t t⟩, ?_, ?_, ?_⟩
    · rw [List.range_succ, List.foldlM_append, h1]
      show (List.foldlM (ownStep (size s c.sites.length) map c) a [t]) = _
      rw [List.foldlM_cons]
      unfold ownStep store
      rw [if_pos ⟨⟨by positivity, hsz⟩, by rw [hl]; exact hsz⟩, hl]
      rfl
    · rw [h2, List.range_succ, List.map_append]
      rfl
    · intro k
      show Function.update a.atomPos (t : ℤ) (t : ℤ) k = _
      by_cases hk : k = t
      · subst hk
        rw [Function.update_self, if_pos]
        push_cast
        omega
      · rw [Function.update_of_ne hk, h3]
        push_cast
        by_cases h : 0 ≤ k ∧ k < t
        · rw [if_pos h, if_pos (by omega)]
        · rw [if_neg h, if_neg (by omega)]

theorem own_inv (hs : ∀ k, 0 ≤ s k) : ∃ a, ownAtoms s map c = .ok a ∧ Inv s map c [] a := by
  obtain ⟨a, h1, h2, h3⟩ := own_fold (map := map) (c := c) hs c.sites.length le_rfl
  refine ⟨a, h1, ?_, List.nodup_nil, by simp, ?_, by simp, ?_⟩
  · rw [h2]
    simp
  · intro j hj
    rw [h3, if_pos]
    exact ⟨by positivity, by exact_mod_cast hj⟩
  · intro m hm _
    rw [h3, if_neg]
    have := (slot_range hs hm).1
    omega

/-- The image is within the cutoff of atom `i`. -/
def Near (cut : Cutoffs) (c : Cell) (i : Nat) (m : Image) : Prop := dist c i m ≤ cut.rcut (c.site i).typ (c.site m.j).typ

theorem padStep_inv (hs : ∀ k, 0 ≤ s k) (i : Nat) {ims : List Image} {a : Acc} (h : Inv s map c ims a) {m : Image}
    (hm : Pad s c.sites.length m) :
    ∃ a' ims', padStep cut s map c i a m = .ok a' ∧ Inv s map c ims' a' ∧ ∀ x, x ∈ ims' ↔ x ∈ ims ∨ (x = m ∧ Near cut c i m) := by
  classical
  obtain ⟨hr1, hr2⟩ := slot_range hs hm
  have hread : readPos (size s c.sites.length) a.atomPos (slot s c.sites.length m.j m.n) =
      .ok (a.atomPos (slot s c.sites.length m.j m.n)) := by
    unfold readPos
    rw [if_pos ⟨by omega, hr2⟩]
  unfold padStep
  rw [hread]
  simp only
  by_cases hmem : m ∈ ims
  · obtain ⟨q, hq⟩ := List.getElem?_of_mem hmem
    rw [h.listed q m hq, if_pos (by positivity)]
    refine ⟨a, ims, rfl, h, ?_⟩
    intro x
    constructor
    · exact Or.inl
    · rintro (hx | ⟨rfl, -⟩)
      · exact hx
      · exact hmem
  · rw [h.free m hm hmem, if_neg (by norm_num)]
    by_cases hn : Near cut c i m
    · rw [if_neg (not_lt.2 hn)]
      have hnd : (ims ++ [m]).Nodup := by
        rw [List.nodup_append]
        refine ⟨h.nodup, List.nodup_singleton m, ?_⟩
        intro x hx y hy
        rw [List.mem_singleton] at hy
        subst hy
        rintro rfl
        exact hmem hx
      have hpd : ∀ x ∈ ims ++ [m], Pad s c.sites.length x := by
        intro x hx
        rcases List.mem_append.1 hx with hx | hx
        · exact h.pad x hx
        · rw [List.mem_singleton] at hx
          rw [hx]
          exact hm
      have hlen : a.parts.length = c.sites.length + ims.length := by
        rw [h.parts]
        simp
      have hb := pad_count hs hnd hpd
      unfold store
      rw [if_pos ⟨⟨by omega, hr2⟩, by
        rw [hlen]
        simp only [List.length_append, List.length_singleton] at hb
        push_cast at hb ⊢
        omega⟩]
      refine ⟨_, ims ++ [m], rfl, ?_, ?_⟩
      · refine ⟨?_, hnd, hpd, ?_, ?_, ?_⟩
        · simp only [h.parts, List.map_append, List.append_assoc, List.map_cons, List.map_nil]
        · intro j hj
          show Function.update a.atomPos _ _ (j : ℤ) = j
          rw [Function.update_of_ne, h.own j hj]
          have : (j : ℤ) < c.sites.length := by exact_mod_cast hj
          omega
        · intro q x hq
          show Function.update a.atomPos _ _ _ = _
          by_cases hx : x = m
          · subst hx
            rw [Function.update_self, hlen]
            have hq' : q = ims.length := by
              rcases lt_trichotomy q ims.length with hlt | heq | hgt
              · rw [List.getElem?_append_left hlt] at hq
                exact absurd (List.mem_of_getElem? hq) hmem
              · exact heq
              · rw [List.getElem?_eq_none (by simp; omega)] at hq
                cases hq
            rw [hq']
          · have hx' : ims[q]? = some x := by
              rcases lt_or_ge q ims.length with hlt | hge
              · rwa [List.getElem?_append_left hlt] at hq
              · rw [List.getElem?_append_right hge] at hq
                have := List.mem_of_getElem? hq
                rw [List.mem_singleton] at this
                exact absurd this hx
            rw [Function.update_of_ne, h.listed q x hx']
            intro he
            exact hx (slot_inj hs (h.pad x (List.mem_of_getElem? hx')) hm he)
        · intro x hx hxn
          show Function.update a.atomPos _ _ _ = _
          rw [List.mem_append, List.mem_singleton, not_or] at hxn
          rw [Function.update_of_ne, h.free x hx hxn.1]
          intro he
          exact hxn.2 (slot_inj hs hx hm he)
      · intro x
        rw [List.mem_append, List.mem_singleton]
        constructor
        · rintro (hx | hx)
          · exact Or.inl hx
          · exact Or.inr ⟨hx, hn⟩
        · rintro (hx | hx)
          · exact Or.inl hx
          · exact Or.inr hx.1
    · rw [if_pos (not_le.1 hn)]
      refine ⟨a, ims, rfl, h, ?_⟩
      intro x
      constructor
      · exact Or.inl
      · rintro (hx | ⟨-, hx⟩)
        · exact hx
        · exact absurd hx hn

theorem padFold_inv (hs : ∀ k, 0 ≤ s k) (i : Nat) (L : List Image) (hL : ∀ m ∈ L, Pad s c.sites.length m) :
    ∀ {ims : List Image} {a : Acc}, Inv s map c ims a →
    ∃ a' ims', L.foldlM (padStep cut s map c i) a = .ok a' ∧ Inv s map c ims' a' ∧ ∀ x, x ∈ ims' ↔ x ∈ ims ∨ (x ∈ L ∧ Near cut c i x) := by
  induction L with
  | nil =>
    intro ims a h
    exact ⟨a, ims, rfl, h, by simp⟩
  | cons m L ih =>
    intro ims a h
    obtain ⟨a1, ims1, e1, i1, m1⟩ := padStep_inv (cut := cut) hs i h (hL m (List.mem_cons_self ..))
    obtain ⟨a2, ims2, e2, i2, m2⟩ := ih (fun x hx => hL x (List.mem_cons_of_mem _ hx)) i1
    refine ⟨a2, ims2, ?_, i2, ?_⟩
    · rw [List.foldlM_cons, e1]
      exact e2
    · intro x
      rw [m2, m1, List.mem_cons]
      constructor
      · rintro ((hx | ⟨rfl, hx⟩) | ⟨hx, hx'⟩)
        · exact Or.inl hx
        · exact Or.inr ⟨Or.inl rfl, hx⟩
        · exact Or.inr ⟨Or.inr hx, hx'⟩
      · rintro (hx | ⟨rfl | hx, hx'⟩)
        · exact Or.inl (Or.inl hx)
        · exact Or.inl (Or.inr ⟨rfl, hx'⟩)
        · exact Or.inr ⟨hx, hx'⟩

theorem atomsFold_inv (hs : ∀ k, 0 ≤ s k) (I : List Nat) :
    ∀ {ims : List Image} {a : Acc}, Inv s map c ims a →
    ∃ a' ims', I.foldlM (padAtom cut s map c) a = .ok a' ∧ Inv s map c ims' a' ∧
      ∀ x, x ∈ ims' ↔ x ∈ ims ∨ (Pad s c.sites.length x ∧ ∃ i ∈ I, Near cut c i x) := by
  induction I with
  | nil =>
    intro ims a h
    exact ⟨a, ims, rfl, h, by simp⟩
  | cons i I ih =>
    intro ims a h
    obtain ⟨a1, ims1, e1, i1, m1⟩ := padFold_inv (cut := cut) hs i (padImages s c.sites.length)
      (fun m hm => (mem_padImages _ _ m).1 hm) h
    obtain ⟨a2, ims2, e2, i2, m2⟩ := ih i1
    refine ⟨a2, ims2, ?_, i2, ?_⟩
    · rw [List.foldlM_cons]
      show (padAtom cut s map c a i).bind _ = _
      unfold padAtom at e2 ⊢
      rw [e1]
      exact e2
    · intro x
      rw [m2, m1, mem_padImages]
      constructor
      · rintro ((hx | ⟨h1, hx⟩) | ⟨hx, j, hj, hx'⟩)
        · exact Or.inl hx
        · exact Or.inr ⟨h1, i, List.mem_cons_self .., hx⟩
        · exact Or.inr ⟨hx, j, List.mem_cons_of_mem _ hj, hx'⟩
      · rintro (hx | ⟨hp, j, hj, hx'⟩)
        · exact Or.inl (Or.inl hx)
        · rcases List.mem_cons.1 hj with rfl | hj
          · exact Or.inl (Or.inr ⟨hp, hx'⟩)
          · exact Or.inr ⟨hp, j, hj, hx'⟩

/-- The particle lists. -/
theorem particles_inv (hs : ∀ k, 0 ≤ s k) :
    ∃ a ims, particles cut s map c = .ok a ∧ Inv s map c ims a ∧
      ∀ x, x ∈ ims ↔ Pad s c.sites.length x ∧ ∃ i < c.sites.length, Near cut c i x := by
  obtain ⟨a, h1, h2⟩ := own_inv (map := map) (c := c) hs
  obtain ⟨a2, ims2, e2, i2, m2⟩ := atomsFold_inv (cut := cut) hs (List.range c.sites.length) h2
  refine ⟨a2, ims2, ?_, i2, ?_⟩
  · unfold particles
    rw [h1]
    exact e2
  · intro x
    rw [m2]
    simp only [List.not_mem_nil, false_or, List.mem_range]

theorem zero_of (n : Fin 3 → ℤ) : (n 0 = 0 ∧ n 1 = 0 ∧ n 2 = 0) ↔ n = 0 := by
  constructor
  · rintro ⟨a, b, d⟩
    funext k
    fin_cases k
    · exact a
    · exact b
    · exact d
  · rintro rfl
    exact ⟨rfl, rfl, rfl⟩

/-- Number of the particle of an image. -/
theorem slotOf_pos {ims : List Image} {a : Acc} (hs : ∀ k, 0 ≤ s k) (h : Inv s map c ims a) {i : Nat} {m : Image}
    (hm : m ∈ visited true c.sites.length s i) :
    (0 ≤ slotOf s c.sites.length m.j m.n ∧ slotOf s c.sites.length m.j m.n < size s c.sites.length) ∧
    ((m.n = 0 ∧ a.atomPos (slotOf s c.sites.length m.j m.n) = m.j) ∨
     (∃ q : Nat, ims[q]? = some m ∧ a.atomPos (slotOf s c.sites.length m.j m.n) = (c.sites.length + q : Nat)) ∨
     (Pad s c.sites.length m ∧ m ∉ ims ∧ a.atomPos (slotOf s c.sites.length m.j m.n) = -1)) := by
  rw [mem_visited] at hm
  obtain ⟨hj, -, hr, -⟩ := hm
  by_cases h0 : m.n = 0
  · have e : slotOf s c.sites.length m.j m.n = m.j := by
      unfold slotOf
      rw [if_pos ((zero_of _).2 h0)]
    rw [e]
    have hj' : (m.j : ℤ) < c.sites.length := by exact_mod_cast hj
    refine ⟨⟨by positivity, ?_⟩, Or.inl ⟨h0, h.own m.j hj⟩⟩
    unfold size
    have := cells_pos hs
    nlinarith
  · have e : slotOf s c.sites.length m.j m.n = slot s c.sites.length m.j m.n := by
      unfold slotOf
      rw [if_neg (fun hh => h0 ((zero_of _).1 hh))]
    have hp : Pad s c.sites.length m := ⟨hj, hr, h0⟩
    rw [e]
    have hsr := slot_range hs hp
    refine ⟨⟨by omega, hsr.2⟩, ?_⟩
    by_cases hmem : m ∈ ims
    · obtain ⟨q, hq⟩ := List.getElem?_of_mem hmem
      exact Or.inr (Or.inl ⟨q, hq, h.listed q m hq⟩)
    · exact Or.inr (Or.inr ⟨hp, hmem, h.free m hp hmem⟩)

open Classical in
theorem neighFold {ims : List Image} {a : Acc} (hs : ∀ k, 0 ≤ s k) (h : Inv s map c ims a)
    (hims : ∀ x, x ∈ ims ↔ Pad s c.sites.length x ∧ ∃ i < c.sites.length, Near cut c i x) (i num : Nat) (hi : i < c.sites.length)
    (L : List Image) (hL : ∀ m ∈ L, m ∈ visited true c.sites.length s i) : ∀ (l : List ℤ),
    l.length + (L.filter fun m => decide (Near cut c i m)).length ≤ num →
    L.foldlM (neighStep cut s c a.atomPos num i) l =
      .ok (l ++ (L.filter fun m => decide (Near cut c i m)).map fun m => a.atomPos (slotOf s c.sites.length m.j m.n)) := by
  induction L with
  | nil =>
    intro l _
    simp only [List.filter_nil, List.map_nil, List.append_nil, List.foldlM_nil]
    rfl
  | cons m L ih =>
    intro l hl
    obtain ⟨hb, hcase⟩ := slotOf_pos hs h (hL m (List.mem_cons_self ..))
    have hread : readPos (size s c.sites.length) a.atomPos (slotOf s c.sites.length m.j m.n) =
        .ok (a.atomPos (slotOf s c.sites.length m.j m.n)) := by
      unfold readPos
      rw [if_pos hb]
    have ih' := ih (fun x hx => hL x (List.mem_cons_of_mem _ hx))
    rw [List.foldlM_cons]
    by_cases hn : Near cut c i m
    · have hpos : ¬ a.atomPos (slotOf s c.sites.length m.j m.n) < 0 := by
        rcases hcase with ⟨-, e⟩ | ⟨q, -, e⟩ | ⟨hp, hni, -⟩
        · rw [e]
          simp
        · rw [e]
          omega
        · exact absurd ((hims m).2 ⟨hp, i, hi, hn⟩) hni
      rw [List.filter_cons, if_pos (by simpa using hn), List.length_cons] at hl
      have hstep : neighStep cut s c a.atomPos num i l m = .ok (l ++ [a.atomPos (slotOf s c.sites.length m.j m.n)]) := by
        unfold neighStep
        rw [hread]
        simp only [if_neg hpos]
        rw [if_pos (show Neighbors.dist c i m ≤ _ from hn), if_pos (by omega)]
      rw [hstep]
      show L.foldlM _ (l ++ [_]) = _
      rw [ih' _ (by simp only [List.length_append, List.length_singleton]; omega)]
      rw [List.filter_cons, if_pos (by simpa using hn), List.map_cons, List.append_assoc]
      rfl
    · rw [List.filter_cons, if_neg (by simpa using hn)] at hl ⊢
      have hstep : neighStep cut s c a.atomPos num i l m = .ok l := by
        unfold neighStep
        rw [hread]
        simp only
        by_cases hk : a.atomPos (slotOf s c.sites.length m.j m.n) < 0
        · rw [if_pos hk]
        · rw [if_neg hk, if_neg (show ¬ Neighbors.dist c i m ≤ _ from hn)]
      rw [hstep]
      exact ih' l hl

open Classical in
/-- The list of one atom. -/
theorem kimNeighbours_eq {ims : List Image} {a : Acc} (hs : ∀ k, 0 ≤ s k) (h : Inv s map c ims a)
    (hims : ∀ x, x ∈ ims ↔ Pad s c.sites.length x ∧ ∃ i < c.sites.length, Near cut c i x) (i : Nat) (hi : i < c.sites.length) :
    kimNeighbours cut s c a.atomPos i =
      if ∃ m ∈ visited true c.sites.length s i, dist c i m = 0 then .error .overlap
      else .ok (((visited true c.sites.length s i).filter fun m => decide (Near cut c i m)).map
        fun m => a.atomPos (slotOf s c.sites.length m.j m.n)) := by
  unfold kimNeighbours
  by_cases ho : ∃ m ∈ visited true c.sites.length s i, dist c i m = 0
  · rw [if_pos ho, if_pos ho]
  · rw [if_neg ho, if_neg ho]
    have hc : counted cut s c i = ((visited true c.sites.length s i).filter fun m => decide (Near cut c i m)).length := rfl
    rw [neighFold hs h hims i (counted cut s c i) hi _ (fun m hm => hm) [] (by rw [hc]; simp)]
    simp only [List.nil_append]
    rw [if_neg]
    rw [List.length_map, ← hc]
    rintro ⟨-, hh⟩
    exact hh rfl

theorem scale_nonneg {rcutmax : ℝ} {box : Box ℝ} (h0 : 0 ≤ rcutmax) (h : cellScale rcutmax box = .ok s) (k : Fin 3) : 0 ≤ s k := by
  unfold cellScale at h
  simp only at h
  split at h
  · cases h
  · simp only [Except.ok.injEq] at h
    rw [← h]
    exact Int.ceil_nonneg (mul_nonneg h0 (Real.sqrt_nonneg _))

theorem mapM_error {ε α β : Type*} {f : α → Except ε β} {l : List α} {e : ε} (h : l.mapM f = .error e) : ∃ x ∈ l, f x = .error e := by
  induction l with
  | nil => simp only [List.mapM_nil] at h; cases h
  | cons x l ih =>
    rw [List.mapM_cons] at h
    cases hx : f x with
    | error e' =>
      rw [hx] at h
      cases h
      exact ⟨x, List.mem_cons_self .., hx⟩
    | ok y =>
      rw [hx] at h
      cases hl : l.mapM f with
      | error e' =>
        rw [hl] at h
        cases h
        obtain ⟨z, hz, hz'⟩ := ih hl
        exact ⟨z, List.mem_cons_of_mem _ hz, hz'⟩
      | ok ys =>
        rw [hl] at h
        cases h

theorem mapM_ok {ε α β : Type*} {f : α → Except ε β} {l : List α} {ys : List β} (h : l.mapM f = .ok ys) :
    ys.length = l.length ∧ ∀ (i : Nat) (x : α), l[i]? = some x → ∃ y, ys[i]? = some y ∧ f x = .ok y := by
  induction l generalizing ys with
  | nil =>
    simp only [List.mapM_nil] at h
    cases h
    exact ⟨rfl, by simp⟩
  | cons x l ih =>
    rw [List.mapM_cons] at h
    cases hx : f x with
    | error e' =>
      rw [hx] at h
      cases h
    | ok y =>
      rw [hx] at h
      cases hl : l.mapM f with
      | error e' =>
        rw [hl] at h
        cases h
      | ok zs =>
        rw [hl] at h
        cases h
        obtain ⟨h1, h2⟩ := ih hl
        refine ⟨by simp [h1], ?_⟩
        intro i w hw
        cases i with
        | zero =>
          simp only [List.getElem?_cons_zero, Option.some.injEq] at hw
          subst hw
          exact ⟨y, rfl, hx⟩
        | succ i =>
          rw [List.getElem?_cons_succ] at hw
          obtain ⟨v, hv, hv'⟩ := h2 i w hw
          exact ⟨v, by rw [List.getElem?_cons_succ]; exact hv, hv'⟩

end

end Verif.KimLists
