/-
C124  The matrix of minimal distances contains the smallest distances of the infinite crystals.
-/
import Verif.Model.MinDist
import Verif.Props.C64
import Verif.Props.C100

set_option linter.unusedSectionVars false

namespace Verif.Props

open Verif.Force hiding Cell
open Verif.Spec Verif.Neighbors Verif.Ranges Verif.PairIndex Verif.MinDist

/-- `d` is the smallest distance between an atom of type `i` and another atom, or an image, of type `j` in any of the crystals. -/
structure Closest (cells : List Cell) (i j : Nat) (d : ℝ) : Prop where
  attained : ∃ c ∈ cells, ∃ p < c.sites.length, ∃ m ∈ Others c p, (c.site p).typ = i ∧ (c.site m.j).typ = j ∧ gapTo c p m = d
  least : ∀ c ∈ cells, ∀ p < c.sites.length, ∀ m ∈ Others c p, (c.site p).typ = i → (c.site m.j).typ = j → d ≤ gapTo c p m

/-- The configurations as read: cells with their neighbour lists (full lists with `THREEBODY`), for symmetric cutoffs. -/
def Listed (full : Bool) (cut : Cutoffs) (L : List (Cell × Conf ℝ)) : Prop :=
  ∀ x ∈ L, ∃ edge scale, Ready edge cut scale x.1 ∧ Built full cut scale x.1 x.2

section
variable {full : Bool} {cut : Cutoffs} {edge : Fin 3 → V3 ℝ} {scale : Fin 3 → ℤ} {c : Cell} {f : Conf ℝ}

theorem stored_sound (hr : Ready edge cut scale c) (hb : Built full cut scale c f) {s : Stored ℝ} (hs : s ∈ stored f) :
    ∃ p < c.sites.length, ∃ m ∈ Others c p, s.typ1 = (c.site p).typ ∧ s.typ2 = (c.site m.j).typ ∧ s.r = gapTo c p m ∧
      gapTo c p m ≤ cut.rcut (c.site p).typ (c.site m.j).typ := by
  unfold stored at hs
  obtain ⟨a, ha, hs⟩ := List.mem_flatMap.1 hs
  obtain ⟨n, hn, rfl⟩ := List.mem_map.1 hs
  obtain ⟨p, hp⟩ := List.mem_iff_getElem?.1 ha
  have hlt : p < c.sites.length := by rw [← hb.count]; exact (List.getElem?_eq_some_iff.1 hp).1
  obtain ⟨ims, -, h2, h3⟩ := C23_complete edge cut scale c hr full p hlt _ (hb.lists p a hp)
  rw [h3] at hn
  obtain ⟨m, hm, rfl⟩ := List.mem_map.1 hn
  obtain ⟨w1, -, w3, w4⟩ := (h2 m).1 hm
  exact ⟨p, hlt, m, ⟨w1, w3⟩, hb.typ p a hp, rfl, entryOf_r c p m, w4⟩

theorem stored_direct (hr : Ready edge cut scale c) (hb : Built full cut scale c f) {p : Nat} (hp : p < c.sites.length) {m : Image}
    (hm : Wanted full cut c p m) : ∃ s ∈ stored f, s.typ1 = (c.site p).typ ∧ s.typ2 = (c.site m.j).typ ∧ s.r = gapTo c p m := by
  have hp' : p < f.atoms.length := by rw [hb.count]; exact hp
  have ha : f.atoms[p]? = some f.atoms[p] := List.getElem?_eq_getElem hp'
  obtain ⟨ims, -, h2, h3⟩ := C23_complete edge cut scale c hr full p hp _ (hb.lists p _ ha)
  refine ⟨⟨f.atoms[p].typ, (entryOf c p m).typ, (entryOf c p m).r⟩, ?_, hb.typ p _ ha, rfl, entryOf_r c p m⟩
  unfold stored
  refine List.mem_flatMap.2 ⟨_, List.getElem_mem hp', List.mem_map.2 ⟨entryOf c p m, ?_, rfl⟩⟩
  rw [h3]
  exact List.mem_map.2 ⟨m, (h2 m).2 hm, rfl⟩

theorem stored_complete (hsym : ∀ s t, cut.rcut s t = cut.rcut t s) (hr : Ready edge cut scale c) (hb : Built full cut scale c f) {p : Nat}
    (hp : p < c.sites.length) {m : Image} (hm : m ∈ Others c p) (hd : gapTo c p m ≤ cut.rcut (c.site p).typ (c.site m.j).typ) :
    ∃ s ∈ stored f, Joins s (c.site p).typ (c.site m.j).typ ∧ s.r = gapTo c p m := by
  by_cases h : p ≤ m.j
  · obtain ⟨s, h1, h2, h3, h4⟩ := stored_direct hr hb hp ⟨hm.1, Or.inr h, hm.2, hd⟩
    exact ⟨s, h1, Or.inl ⟨h2, h3⟩, h4⟩
  · have hw := (wanted_flip hsym hp (⟨hm.1, Or.inl rfl, hm.2, hd⟩ : Wanted true cut c p m)).2
    obtain ⟨s, h1, h2, h3, h4⟩ := stored_direct hr hb hm.1 (m := ⟨p, fun k => -m.n k⟩)
      ⟨hw.1, Or.inr (Nat.le_of_lt (not_le.1 h)), hw.2.2.1, hw.2.2.2⟩
    refine ⟨s, h1, Or.inr ⟨h2, h3⟩, h4.trans ?_⟩
    have := arrow_flip c p m
    simp only [Verif.Neighbors.flip] at this
    unfold gapTo
    rw [this, Verif.Neighbors.length_neg]

end

theorem thin_listed : ∃ f, Listed false thinCut [(thin, f)] := by
  obtain ⟨f, hf, -⟩ := thin_built false
  refine ⟨f, fun x hx => ?_⟩
  obtain rfl := List.mem_singleton.1 hx
  exact ⟨_, _, thin_ready, hf⟩

section
variable {full : Bool} {cut : Cutoffs} {L : List (Cell × Conf ℝ)} {nt : Nat}

theorem stored_types (hL : Listed full cut L) (ht : ∀ x ∈ L, ∀ p < x.1.sites.length, (x.1.site p).typ < nt) :
    ∀ s ∈ (L.map Prod.snd).flatMap stored, s.typ1 < nt ∧ s.typ2 < nt := by
  intro s hs
  obtain ⟨f, hf, hs⟩ := List.mem_flatMap.1 hs
  obtain ⟨x, hx, rfl⟩ := List.mem_map.1 hf
  obtain ⟨edge, scale, hr, hb⟩ := hL x hx
  obtain ⟨p, hp, m, hm, h1, h2, -⟩ := stored_sound hr hb hs
  exact ⟨h1 ▸ ht x hx p hp, h2 ▸ ht x hx m.j hm.1⟩

theorem missing_none {md : Nat → Option ℝ} (h : missing nt md = none) : ∀ i < nt, ∀ j < nt, md (pairCol nt i j) ≠ none := by
  unfold missing at h
  rw [Option.map_eq_none_iff, List.find?_eq_none] at h
  intro i hi j hj hn
  exact h (i, j) (mem_typePairs.2 ⟨hi, hj⟩) (by simp [hn])

/-- Distance of a pair of types, in the crystals. -/
theorem distances_some (hsym : ∀ s t, cut.rcut s t = cut.rcut t s) (hL : Listed full cut L)
    (ht : ∀ x ∈ L, ∀ p < x.1.sites.length, (x.1.site p).typ < nt) {i j : Nat} (hi : i < nt) (hj : j < nt) {d : ℝ}
    (hd : distances nt (L.map Prod.snd) (pairCol nt i j) = some d) : Closest (L.map Prod.fst) i j d ∧ d ≤ cut.rcut i j := by
  have hty := stored_types hL ht
  obtain ⟨⟨s, hs, hc, hr⟩, hmin⟩ := mindist_some nt _ _ d hd
  have hjoin := (joins_iff (hty s hs).1 (hty s hs).2 hi hj).2 hc
  obtain ⟨f, hf, hs'⟩ := List.mem_flatMap.1 hs
  obtain ⟨x, hx, rfl⟩ := List.mem_map.1 hf
  obtain ⟨edge, scale, hrd, hb⟩ := hL x hx
  obtain ⟨p, hp, m, hm, h1, h2, h3, h4⟩ := stored_sound hrd hb hs'
  have hcut : d ≤ cut.rcut i j := by
    rw [← hr, h3]
    rcases hjoin with ⟨e1, e2⟩ | ⟨e1, e2⟩
    · rw [← e1, ← e2, h1, h2]; exact h4
    · rw [← e1, ← e2, h1, h2, hsym]; exact h4
  refine ⟨⟨?_, ?_⟩, hcut⟩
  · refine ⟨x.1, List.mem_map.2 ⟨x, hx, rfl⟩, ?_⟩
    rcases hjoin with ⟨e1, e2⟩ | ⟨e1, e2⟩
    · exact ⟨p, hp, m, hm, h1 ▸ e1, h2 ▸ e2, by rw [← h3, hr]⟩
    · have hne : ¬ (p = m.j ∧ (fun k => -m.n k) = (0 : Fin 3 → ℤ)) := by
        rintro ⟨q1, q2⟩
        refine hm.2 ⟨q1.symm, ?_⟩
        funext k
        have := congrFun q2 k
        simpa using this
      refine ⟨m.j, hm.1, ⟨p, fun k => -m.n k⟩, ⟨hp, hne⟩, h2 ▸ e2, h1 ▸ e1, ?_⟩
      have := arrow_flip x.1 p m
      simp only [Verif.Neighbors.flip] at this
      rw [← hr, h3]
      unfold gapTo
      rw [this, Verif.Neighbors.length_neg]
  · intro c hc' p hp m hm e1 e2
    obtain ⟨y, hy, rfl⟩ := List.mem_map.1 hc'
    obtain ⟨edge, scale, hrd, hb⟩ := hL y hy
    by_cases hlt : gapTo y.1 p m ≤ cut.rcut i j
    · obtain ⟨t, h1, h2, h3⟩ := stored_complete hsym hrd hb hp hm (by rw [e1, e2]; exact hlt)
      have ht' : t ∈ (L.map Prod.snd).flatMap stored := List.mem_flatMap.2 ⟨y.2, List.mem_map.2 ⟨y, hy, rfl⟩, h1⟩
      rw [e1, e2] at h2
      rw [← h3]
      exact hmin t ht' ((joins_iff (hty t ht').1 (hty t ht').2 hi hj).1 h2)
    · exact hcut.trans (not_le.1 hlt).le

/-- **C124, the matrix.** If the program does not stop, the matrix has a line and a column for each type, is symmetric, and its entries are the
smallest distances in the infinite crystals; they lie within the cutoff. -/
theorem C124_matrix (hsym : ∀ s t, cut.rcut s t = cut.rcut t s) (hL : Listed full cut L)
    (ht : ∀ x ∈ L, ∀ p < x.1.sites.length, (x.1.site p).typ < nt) (M : List (List (Option ℝ))) (h : matrix nt (L.map Prod.snd) = .ok M) :
    M.length = nt ∧ ∀ i < nt, ∃ row, M[i]? = some row ∧ row.length = nt ∧
      ∀ j < nt, ∃ d, row[j]? = some (some d) ∧ Closest (L.map Prod.fst) i j d ∧ d ≤ cut.rcut i j := by
  unfold matrix at h
  cases hm : missing nt (distances nt (L.map Prod.snd)) with
  | some k => rw [hm] at h; cases h
  | none =>
    rw [hm] at h
    simp only [Except.ok.injEq] at h
    rw [← h]
    unfold rows
    refine ⟨by simp, fun i hi => ⟨_, by rw [List.getElem?_map, List.getElem?_range hi]; rfl, by simp, fun j hj => ?_⟩⟩
    obtain ⟨d, hd⟩ := Option.ne_none_iff_exists'.1 (missing_none hm i hi j hj)
    refine ⟨d, ?_, distances_some hsym hL ht hi hj hd⟩
    rw [List.getElem?_map, List.getElem?_range hj, Option.map_some, hd]

/-- **C124, the test.** The program stops exactly if there are two types none of whose atoms lie within their cutoff in any of the crystals; the
number printed is the column of such a pair. -/
theorem C124_stop (hsym : ∀ s t, cut.rcut s t = cut.rcut t s) (hL : Listed full cut L)
    (ht : ∀ x ∈ L, ∀ p < x.1.sites.length, (x.1.site p).typ < nt) :
    let Apart := fun i j => ∀ x ∈ L, ∀ p < x.1.sites.length, ∀ m ∈ Others x.1 p, (x.1.site p).typ = i → (x.1.site m.j).typ = j →
      cut.rcut i j < gapTo x.1 p m
    ((∃ k, matrix nt (L.map Prod.snd) = .error k) ↔ ∃ i < nt, ∃ j < nt, Apart i j) ∧
    ∀ k, matrix nt (L.map Prod.snd) = .error k → ∃ i < nt, ∃ j < nt, pairCol nt i j = k ∧ Apart i j := by
  intro Apart
  have hty := stored_types hL ht
  have hcol : ∀ i < nt, ∀ j < nt, distances nt (L.map Prod.snd) (pairCol nt i j) = none ↔ Apart i j := by
    intro i hi j hj
    unfold distances
    rw [mindist_none]
    constructor
    · intro h x hx p hp m hm e1 e2
      by_contra hlt
      obtain ⟨edge, scale, hr, hb⟩ := hL x hx
      obtain ⟨s, h1, h2, -⟩ := stored_complete hsym hr hb hp hm (by rw [e1, e2]; exact not_lt.1 hlt)
      have hs : s ∈ (L.map Prod.snd).flatMap stored := List.mem_flatMap.2 ⟨x.2, List.mem_map.2 ⟨x, hx, rfl⟩, h1⟩
      rw [e1, e2] at h2
      exact h s hs ((joins_iff (hty s hs).1 (hty s hs).2 hi hj).1 h2)
    · intro h s hs hc
      have hn : distances nt (L.map Prod.snd) (pairCol nt i j) ≠ none := fun hn => (mindist_none nt _ _).1 hn s hs hc
      obtain ⟨d, hd⟩ := Option.ne_none_iff_exists'.1 hn
      obtain ⟨hcl, hle⟩ := distances_some hsym hL ht hi hj hd
      obtain ⟨c, hc', p, hp, m, hm, e1, e2, e3⟩ := hcl.attained
      obtain ⟨x, hx, rfl⟩ := List.mem_map.1 hc'
      have := h x hx p hp m hm e1 e2
      rw [e3] at this
      exact absurd hle (not_le.2 this)
  have hk : ∀ k, matrix nt (L.map Prod.snd) = .error k → ∃ i < nt, ∃ j < nt, pairCol nt i j = k ∧ Apart i j := by
    intro k h
    unfold matrix at h
    cases hm : missing nt (distances nt (L.map Prod.snd)) with
    | none => rw [hm] at h; cases h
    | some k' =>
      rw [hm] at h
      simp only [Except.error.injEq] at h
      subst h
      unfold missing at hm
      obtain ⟨q, hq, rfl⟩ := Option.map_eq_some_iff.1 hm
      have hmem := mem_typePairs.1 (List.mem_of_find?_eq_some hq)
      have hnone := List.find?_some hq
      exact ⟨q.1, hmem.1, q.2, hmem.2, rfl, (hcol q.1 hmem.1 q.2 hmem.2).1 (by simpa using hnone)⟩
  refine ⟨⟨fun ⟨k, h⟩ => ?_, ?_⟩, hk⟩
  · obtain ⟨i, hi, j, hj, -, h⟩ := hk k h
    exact ⟨i, hi, j, hj, h⟩
  · rintro ⟨i, hi, j, hj, h⟩
    unfold matrix
    cases hm : missing nt (distances nt (L.map Prod.snd)) with
    | some k => exact ⟨k, rfl⟩
    | none => exact absurd ((hcol i hi j hj).2 h) (missing_none hm i hi j hj)

/-- **C124, symmetry.** -/
theorem C124_symmetric (nt : Nat) (confs : List (Conf ℝ)) (M : List (List (Option ℝ))) (h : matrix nt confs = .ok M) (i j : Nat) (hi : i < nt)
    (hj : j < nt) : (M[i]?.bind fun r => r[j]?) = M[j]?.bind fun r => r[i]? := by
  unfold matrix at h
  cases hm : missing nt (distances nt confs) with
  | some k => rw [hm] at h; cases h
  | none =>
    rw [hm] at h
    simp only [Except.ok.injEq] at h
    rw [← h]
    unfold rows
    rw [List.getElem?_map, List.getElem?_map, List.getElem?_range hi, List.getElem?_range hj, Option.map_some, Option.map_some,
      Option.bind_some, Option.bind_some, List.getElem?_map, List.getElem?_map, List.getElem?_range hi, List.getElem?_range hj, Option.map_some,
      Option.map_some, C01_symmetric]

/-- **C124, analytic potentials.** They begin at 95 per cent of the smallest distance in the crystals. -/
theorem C124_begin (hsym : ∀ s t, cut.rcut s t = cut.rcut t s) (hL : Listed full cut L)
    (ht : ∀ x ∈ L, ∀ p < x.1.sites.length, (x.1.site p).typ < nt) (kind : Kind) (b b' : Bounds ℝ)
    (h : assign kind nt (distances nt (L.map Prod.snd)) b = some b') (i j : Nat) (hi : i < nt) (hj : j < nt) :
    Closest (L.map Prod.fst) i j (b'.rmin (i * nt + j)) ∧ b'.beg (pairCol nt i j) = 95 / 100 * b'.rmin (i * nt + j) := by
  obtain ⟨p, m, hp, rfl⟩ := assign_parts (by omega) h
  obtain ⟨d, h1, h2, h3, _⟩ := hp.pair (i, j) (mem_typePairs.2 ⟨hi, hj⟩)
  obtain ⟨o1, o2, -⟩ := others_beg kind nt (m * (95 / 100)) p
  rw [o1, (o2 _ (C01_in_range hi hj)).1]
  refine ⟨?_, ?_⟩
  · rw [h3]
    exact (distances_some hsym hL ht hi hj h1).1
  · rw [h2, h3, mul_comm]

end

/-- The thin crystal: atoms in a distance of 1 from their images. -/
example : ∃ f, Listed false thinCut [(thin, f)] ∧ (∀ x ∈ [(thin, f)], ∀ p < x.1.sites.length, (x.1.site p).typ < 1) ∧
    ∃ M, matrix 1 ([(thin, f)].map Prod.snd) = .ok M ∧ M = [[some 1]] := by
  obtain ⟨f, hf⟩ := thin_listed
  have ht : ∀ x ∈ [(thin, f)], ∀ p < x.1.sites.length, (x.1.site p).typ < 1 := by
    intro x hx p hp
    obtain rfl := List.mem_singleton.1 hx
    obtain rfl : p = 0 := by have : p < 1 := hp; omega
    exact one_pos
  have hsym : ∀ s t, thinCut.rcut s t = thinCut.rcut t s := fun _ _ => rfl
  refine ⟨f, hf, ht, ?_⟩
  cases hm : matrix 1 ([(thin, f)].map Prod.snd) with
  | error k =>
    obtain ⟨i, hi, j, hj, -, h⟩ := (C124_stop hsym hf ht).2 k hm
    have := h (thin, f) (by simp) 0 one_pos ⟨0, ![1, 0, 0]⟩ ⟨one_pos, by simp⟩ (by
      obtain rfl : i = 0 := by omega
      rfl) (by
      obtain rfl : j = 0 := by omega
      rfl)
    have hg : gapTo thin 0 ⟨0, ![1, 0, 0]⟩ = 1 := by
      rcases thin_gap ⟨0, ![1, 0, 0]⟩ ⟨one_pos, by simp⟩ with h | h
      · exact h.1
      · unfold gapTo at h
        rw [thin_arrow 0 one_pos _ one_pos, length_three] at h
        have e2 : (![1, 0, 0] : Fin 3 → ℤ) 2 = 0 := rfl
        norm_num [e2] at h
    rw [hg] at this
    have h32 : thinCut.rcut i j = 3 / 2 := rfl
    rw [h32] at this
    norm_num at this
  | ok M =>
    refine ⟨M, rfl, ?_⟩
    obtain ⟨hl, hrow⟩ := C124_matrix hsym hf ht M hm
    obtain ⟨row, h1, h2, h3⟩ := hrow 0 one_pos
    obtain ⟨d, h4, h5, h6⟩ := h3 0 one_pos
    obtain ⟨c, hc, p, hp, m, hmo, -, -, hd⟩ := h5.attained
    obtain rfl : c = thin := by simpa using hc
    obtain rfl : p = 0 := by have : p < 1 := hp; omega
    have hd1 : d = 1 := by
      rcases thin_gap m hmo with h | h
      · rw [← hd, h.1]
      · rw [hd] at h
        have h32 : thinCut.rcut 0 0 = 3 / 2 := rfl
        rw [h32] at h6
        linarith
    match M, hl with
    | [r], _ =>
      obtain rfl : r = row := by simpa using h1
      match r, h2 with
      | [e], _ =>
        have : e = some d := by simpa using h4
        rw [this, hd1]

end Verif.Props
