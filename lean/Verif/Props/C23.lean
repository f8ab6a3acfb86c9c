/-
C23  All neighbours within the cutoff are found, each exactly once.
-/
import Verif.Lemmas.Neighbors
import Verif.Spec.ForceEam

namespace Verif.Props

open Verif.Force Verif.Neighbors Verif.Spec

/-- A cell as the program has set it up: box vectors from `make_box`, number of images from
`init_box_vectors`, no cutoff beyond the maximum, all atoms inside the cell. -/
structure Ready (edge : Fin 3 → V3 ℝ) (cut : Cutoffs) (scale : Fin 3 → ℤ) (c : Cell) : Prop where
  box : ∃ vol, makeBox edge = .ok (c.box, vol)
  images : cellScale cut.rcutmax c.box = .ok scale
  cutoff : ∀ t₁ t₂, cut.rcut t₁ t₂ ≤ cut.rcutmax
  inside : ∀ i < c.sites.length, InCell edge (c.site i).pos

/-- The list of atom `i` consists of the entries of exactly the wanted images (all periodic images are
considered, without a limit on their cell), each once. -/
theorem C23_complete (edge : Fin 3 → V3 ℝ) (cut : Cutoffs) (scale : Fin 3 → ℤ) (c : Cell)
    (hr : Ready edge cut scale c) (full : Bool) (i : Nat) (hi : i < c.sites.length) (l : List (Neigh ℝ))
    (hl : neighbours full cut scale c i = .ok l) :
    ∃ ims : List Image, ims.Nodup ∧ (∀ m, m ∈ ims ↔ Wanted full cut c i m) ∧ l = ims.map (entryOf c i) := by
  classical
  obtain ⟨vol, hb⟩ := hr.box
  unfold neighbours at hl
  simp only at hl
  split at hl
  · cases hl
  · simp only [Except.ok.injEq] at hl
    refine ⟨_, (visited_nodup full c.sites.length scale i).filter _, ?_, hl.symm⟩
    intro m
    rw [List.mem_filter, mem_visited, decide_eq_true_eq, dist_eq_length]
    unfold Wanted
    constructor
    · rintro ⟨⟨h1, h2, -, h4⟩, h5⟩
      exact ⟨h1, h2, h4, h5⟩
    · rintro ⟨h1, h2, h4, h5⟩
      refine ⟨⟨h1, h2, ?_, h4⟩, h5⟩
      exact scale_covers hb hr.images c rfl i m (hr.inside i hi) (hr.inside m.j h1)
        (h5.trans (hr.cutoff _ _))

/-- What is stored for an image: number and type of the atom, the distance vector, its length, its direction,
and the columns. -/
theorem C23_entry (c : Cell) (i : Nat) (m : Image) (hne : length (arrow c i m) ≠ 0) :
    let e := entryOf c i m
    e.nr = c.start + m.j ∧ e.typ = (c.site m.j).typ ∧ e.r = length (arrow c i m) ∧
    e.dist = arrow c i m ∧ (∀ k, e.r * e.distR k = arrow c i m k) ∧
    e.col0 = PairIndex.pairCol c.ntypes (c.site i).typ (c.site m.j).typ ∧
    e.col1 = c.paircol + (c.site m.j).typ := by
  simp only [entryOf, offset_eq_arrow, sqrt_sprod]
  refine ⟨trivial, trivial, trivial, ?_, ?_, trivial, trivial⟩
  · funext k
    field_simp
  · intro k
    field_simp

/-- The construction stops exactly if another atom or image has the same position as the atom. -/
theorem C23_overlap_iff (edge : Fin 3 → V3 ℝ) (cut : Cutoffs) (scale : Fin 3 → ℤ) (c : Cell)
    (hr : Ready edge cut scale c) (h0 : 0 ≤ cut.rcutmax) (full : Bool) (i : Nat) (hi : i < c.sites.length) :
    neighbours full cut scale c i = .error .overlap ↔
      ∃ m : Image, m.j < c.sites.length ∧ (full = true ∨ i ≤ m.j) ∧ ¬ (m.j = i ∧ m.n = 0) ∧
        length (arrow c i m) = 0 := by
  classical
  obtain ⟨vol, hb⟩ := hr.box
  unfold neighbours
  simp only
  constructor
  · intro h
    split at h
    · rename_i hex
      obtain ⟨m, hm, hd⟩ := hex
      rw [mem_visited] at hm
      rw [dist_eq_length] at hd
      exact ⟨m, hm.1, hm.2.1, hm.2.2.2, hd⟩
    · cases h
  · rintro ⟨m, h1, h2, h4, h5⟩
    rw [if_pos]
    refine ⟨m, ?_, by rw [dist_eq_length, h5]⟩
    rw [mem_visited]
    refine ⟨h1, h2, ?_, h4⟩
    exact scale_covers hb hr.images c rfl i m (hr.inside i hi) (hr.inside m.j h1) (by rw [h5]; exact h0)

/-- A configuration whose neighbour lists were built by `init_neighbors`, `full` with `THREEBODY`. -/
structure Built (full : Bool) (cut : Cutoffs) (scale : Fin 3 → ℤ) (c : Cell) (f : Conf ℝ) : Prop where
  start : f.start = c.start
  count : f.atoms.length = c.sites.length
  typ : ∀ i a, f.atoms[i]? = some a → a.typ = (c.site i).typ
  lists : ∀ i a, f.atoms[i]? = some a → neighbours full cut scale c i = .ok a.neigh

theorem mem_entriesFrom {l : List (Atom ℝ)} : ∀ {s : Nat} {e : Entry ℝ}, e ∈ entriesFrom s l →
    ∃ i a, l[i]? = some a ∧ e.own = s + i ∧ e.otyp = a.typ ∧ e.n ∈ a.neigh := by
  induction l with
  | nil => intro s e h; simp [entriesFrom] at h
  | cons a l ih =>
    intro s e h
    simp only [entriesFrom, List.mem_append, List.mem_map] at h
    rcases h with ⟨n, hn, rfl⟩ | h
    · exact ⟨0, a, rfl, rfl, rfl, hn⟩
    · obtain ⟨i, b, h1, h2, h3, h4⟩ := ih h
      exact ⟨i + 1, b, by simpa using h1, by omega, h3, h4⟩

/-- The lists are half lists with the right columns: the hypotheses of C03, C16, C18, C19 and C20. -/
theorem C23_half (cut : Cutoffs) (scale : Fin 3 → ℤ) (c : Cell) (f : Conf ℝ) (h : Built false cut scale c f)
    (P : EamPots ℝ) (hp : P.paircol = c.paircol) : HalfList f ∧ EamColumns P f := by
  classical
  have key : ∀ e ∈ entries f, ∃ i m, i < c.sites.length ∧ e.own = c.start + i ∧
      e.otyp = (c.site i).typ ∧ e.n = entryOf c i m ∧ m.j < c.sites.length ∧ i ≤ m.j := by
    intro e he
    unfold entries at he
    obtain ⟨i, a, h1, h2, h3, h4⟩ := mem_entriesFrom he
    have hl := h.lists i a h1
    have hi : i < c.sites.length := by
      rw [← h.count]
      exact (List.getElem?_eq_some_iff.1 h1).1
    unfold neighbours at hl
    simp only at hl
    split at hl
    · cases hl
    · simp only [Except.ok.injEq] at hl
      rw [← hl, List.mem_map] at h4
      obtain ⟨m, hm, hme⟩ := h4
      rw [List.mem_filter, mem_visited] at hm
      refine ⟨i, m, hi, by rw [h2, h.start], by rw [h3, h.typ i a h1], hme.symm, hm.1.1, ?_⟩
      simpa using hm.1.2.1
  refine ⟨?_, ?_⟩
  · intro e he
    obtain ⟨i, m, h1, h2, -, h4, h5, h6⟩ := key e he
    rw [h2, h4, h.start, h.count]
    simp only [entryOf]
    omega
  · intro e he
    obtain ⟨i, m, h1, h2, h3, h4, h5, h6⟩ := key e he
    rw [h4, h2, h3]
    simp only [entryOf, hp, true_and]
    intro hh
    rw [show m.j = i by omega]

/-- A cubic cell of edge 10 with cutoff 2. -/
noncomputable def exBox : Box ℝ := ⟨![![10, 0, 0], ![0, 10, 0], ![0, 0, 10]],
  ![![1 / 10, 0, 0], ![0, 1 / 10, 0], ![0, 0, 1 / 10]]⟩

theorem exBox_made : makeBox (![![10, 0, 0], ![0, 10, 0], ![0, 0, 10]] : Fin 3 → V3 ℝ) = .ok (exBox, 1000) := by
  have hv : sprod ((![![10, 0, 0], ![0, 10, 0], ![0, 0, 10]] : Fin 3 → V3 ℝ) 0)
      (vecProd ((![![10, 0, 0], ![0, 10, 0], ![0, 0, 10]] : Fin 3 → V3 ℝ) 1)
        ((![![10, 0, 0], ![0, 10, 0], ![0, 0, 10]] : Fin 3 → V3 ℝ) 2)) = 1000 := by
    simp only [sprod, vecProd, Matrix.cons_val]
    norm_num
  unfold makeBox
  simp only [hv]
  rw [if_neg (by norm_num)]
  unfold exBox
  congr 3
  funext i
  fin_cases i <;> funext k <;> fin_cases k <;> simp only [vecProd, Matrix.cons_val, Fin.zero_eta, Fin.mk_one,
    Fin.reduceFinMk] <;> norm_num

theorem exBox_scale : cellScale 2 exBox = .ok fun _ => 1 := by
  have hs : ∀ k, Real.sqrt (sprod (exBox.dual k) (exBox.dual k)) = 1 / 10 := by
    intro k
    have : sprod (exBox.dual k) (exBox.dual k) = (1 / 10) ^ 2 := by
      unfold sprod exBox
      fin_cases k <;> simp only [Matrix.cons_val, Fin.zero_eta, Fin.mk_one, Fin.reduceFinMk] <;> norm_num
    rw [this, Real.sqrt_sq (by norm_num)]
  have hc : ⌈(2 : ℝ) * (1 / 10)⌉ = 1 := by
    rw [Int.ceil_eq_iff]
    norm_num
  unfold cellScale
  simp only [hs, hc]
  norm_num

/-- The hypotheses are met: atoms at 1 and 2.5 on the x axis. -/
theorem exCell_ready : Ready ![![10, 0, 0], ![0, 10, 0], ![0, 0, 10]] ⟨fun _ _ => 2, 2⟩ (fun _ => 1)
    ⟨exBox, 0, [⟨0, ![1, 0, 0]⟩, ⟨0, ![5 / 2, 0, 0]⟩], 1, 1⟩ := by
  refine ⟨⟨1000, exBox_made⟩, exBox_scale, fun _ _ => le_refl _, ?_⟩
  intro i hi
  match i, hi with
  | 0, _ =>
    refine ⟨![1 / 10, 0, 0], ?_, ?_⟩
    · intro k; fin_cases k <;> norm_num
    · funext k
      show (![1, 0, 0] : V3 ℝ) k = _
      simp only [Fin.sum_univ_three, Pi.add_apply, Pi.smul_apply, smul_eq_mul]
      fin_cases k <;> simp only [Matrix.cons_val, Fin.zero_eta, Fin.mk_one, Fin.reduceFinMk] <;> norm_num
  | 1, _ =>
    refine ⟨![1 / 4, 0, 0], ?_, ?_⟩
    · intro k; fin_cases k <;> norm_num
    · funext k
      show (![5 / 2, 0, 0] : V3 ℝ) k = _
      simp only [Fin.sum_univ_three, Pi.add_apply, Pi.smul_apply, smul_eq_mul]
      fin_cases k <;> simp only [Matrix.cons_val, Fin.zero_eta, Fin.mk_one, Fin.reduceFinMk] <;> norm_num

/-- Its second atom is wanted in the list of the first. -/
example : Wanted false ⟨fun _ _ => 2, 2⟩
    ⟨exBox, 0, [⟨0, ![1, 0, 0]⟩, ⟨0, ![5 / 2, 0, 0]⟩], 1, 1⟩ 0 ⟨1, 0⟩ := by
  refine ⟨by decide, by simp, by simp, ?_⟩
  unfold length
  rw [Real.sqrt_le_left (by norm_num)]
  simp [arrow, Cell.site, Fin.sum_univ_three]; norm_num

/-- Positions outside the cell are not wrapped: for an atom two cell edges away, its image at distance 0.1 is
wanted but not visited. -/
theorem C23_needs_cell :
    let c : Cell := ⟨exBox, 0, [⟨0, ![1, 0, 0]⟩, ⟨0, ![211 / 10, 0, 0]⟩], 1, 1⟩
    Wanted false ⟨fun _ _ => 2, 2⟩ c 0 ⟨1, ![-2, 0, 0]⟩ ∧
    (⟨1, ![-2, 0, 0]⟩ : Image) ∉ visited false 2 (fun _ => 1) 0 := by
  refine ⟨⟨by decide, by simp, by simp, ?_⟩, ?_⟩
  · unfold length
    rw [Real.sqrt_le_left (by norm_num)]
    simp [arrow, Cell.site, Fin.sum_univ_three, exBox]; norm_num
  · rw [mem_visited]
    rintro ⟨-, -, h, -⟩
    have := (h 0).1
    simp at this

end Verif.Props
