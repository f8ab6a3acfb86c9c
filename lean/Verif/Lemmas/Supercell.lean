import Verif.Lemmas.SelfCount
import Verif.Model.FullList

namespace Verif.Neighbors

open Verif.Force Verif.Spec Verif.Props

section
variable {d : Fin 3} {M : Nat} {edge : Fin 3 → V3 ℝ} {box : Box ℝ} {start : Nat} {c : Cell}

theorem super_length : (supercell d M edge box start c).sites.length = M * c.sites.length := by
  simp [supercell]

theorem super_site {J : Nat} (hJ : J < M * c.sites.length) :
    (supercell d M edge box start c).site J = ⟨(c.site (J % c.sites.length)).typ,
      (c.site (J % c.sites.length)).pos + ((J / c.sites.length : Nat) : ℝ) • edge d⟩ := by
  unfold supercell
  rw [Cell.site]
  simp only
  rw [List.getD_eq_getElem?_getD, List.getElem?_map, List.getElem?_range hJ]
  rfl

/-- The image of the small cell at the place of an image of the large cell. -/
def fold (d : Fin 3) (M N I : Nat) (m : Image) : Image :=
  ⟨m.j % N, fun k => if k = d then M * m.n k + ((m.j / N : Nat) : ℤ) - ((I / N : Nat) : ℤ) else m.n k⟩

theorem arrow_fold (he : c.box.edge = edge) (hb : box.edge = superEdge d M edge) {I : Nat}
    (hI : I < M * c.sites.length) {m : Image} (hm : m.j < M * c.sites.length) :
    arrow (supercell d M edge box start c) I m = arrow c (I % c.sites.length) (fold d M c.sites.length I m) := by
  have hbox : (supercell d M edge box start c).box.edge = superEdge d M edge := hb
  funext k
  simp only [arrow, super_site hI, super_site hm, hbox, he, fold, superEdge, Pi.add_apply, Pi.sub_apply,
    Fin.sum_univ_three, Pi.smul_apply, smul_eq_mul]
  fin_cases d <;> simp [Int.cast_add, Int.cast_sub, Int.cast_mul, -Int.natCast_ediv] <;> ring

theorem around_super (cut : Cutoffs) (he : c.box.edge = edge) (hb : box.edge = superEdge d M edge) {I : Nat}
    (hI : I < M * c.sites.length) (ψ : Nat → ℝ → ℝ) :
    around cut (supercell d M edge box start c) I ψ = around cut c (I % c.sites.length) ψ := by
  have hN : 0 < c.sites.length := by
    rcases Nat.eq_zero_or_pos c.sites.length with h | h
    · rw [h] at hI; simp at hI
    · exact h
  have hq : ∀ J, J < M * c.sites.length → J / c.sites.length < M := by
    intro J hJ
    exact Nat.div_lt_of_lt_mul (by rwa [Nat.mul_comm] at hJ)
  unfold around
  apply finsum_mem_eq_of_bijOn (fold d M c.sites.length I)
  · refine ⟨?_, ?_, ?_⟩
    · rintro m ⟨h1, -, h3, h4⟩
      rw [super_length] at h1
      refine ⟨Nat.mod_lt _ hN, Or.inl rfl, ?_, ?_⟩
      · rintro ⟨e1, e2⟩
        apply h3
        have ed := congrFun e2 d
        simp only [fold, if_true, Pi.zero_apply] at ed e1
        have q1 := hq _ h1
        have q2 := hq _ hI
        have p1 : (0 : ℤ) ≤ ((m.j / c.sites.length : Nat) : ℤ) := Int.natCast_nonneg _
        have p2 : (0 : ℤ) ≤ ((I / c.sites.length : Nat) : ℤ) := Int.natCast_nonneg _
        have hz : m.n d = 0 := by
          by_contra hne
          rcases lt_or_gt_of_ne hne with hl | hg
          · have : (M : ℤ) * m.n d ≤ M * (-1) := mul_le_mul_of_nonneg_left (by omega) (by omega)
            omega
          · have : (M : ℤ) * 1 ≤ M * m.n d := mul_le_mul_of_nonneg_left (by omega) (by omega)
            omega
        rw [hz, mul_zero] at ed
        have hdiv : m.j / c.sites.length = I / c.sites.length := by omega
        refine ⟨?_, ?_⟩
        · rw [← Nat.div_add_mod m.j c.sites.length, ← Nat.div_add_mod I c.sites.length, e1, hdiv]
        · funext k
          by_cases hk : k = d
          · rw [hk, hz]; rfl
          · have := congrFun e2 k
            simpa only [fold, if_neg hk] using this
      · rw [← arrow_fold he hb hI h1]
        rw [super_site hI, super_site h1] at h4
        exact h4
    · rintro m ⟨h1, -⟩ m' ⟨h1', -⟩ hmm
      rw [super_length] at h1 h1'
      simp only [fold, Image.mk.injEq] at hmm
      obtain ⟨e1, e2⟩ := hmm
      have ed := congrFun e2 d
      simp only [if_true] at ed
      have q1 := hq _ h1
      have q2 := hq _ h1'
      have p1 : (0 : ℤ) ≤ ((m.j / c.sites.length : Nat) : ℤ) := Int.natCast_nonneg _
      have p2 : (0 : ℤ) ≤ ((m'.j / c.sites.length : Nat) : ℤ) := Int.natCast_nonneg _
      have hz : m.n d = m'.n d := by
        by_contra hne
        rcases lt_or_gt_of_ne hne with hl | hg
        · have : (M : ℤ) * (m.n d + 1) ≤ M * m'.n d := mul_le_mul_of_nonneg_left (by omega) (by omega)
          rw [mul_add, mul_one] at this
          omega
        · have : (M : ℤ) * (m'.n d + 1) ≤ M * m.n d := mul_le_mul_of_nonneg_left (by omega) (by omega)
          rw [mul_add, mul_one] at this
          omega
      rw [hz] at ed
      have hdiv : m.j / c.sites.length = m'.j / c.sites.length := by omega
      have hj : m.j = m'.j := by
        rw [← Nat.div_add_mod m.j c.sites.length, ← Nat.div_add_mod m'.j c.sites.length, e1, hdiv]
      have hn : m.n = m'.n := by
        funext k
        by_cases hk : k = d
        · rw [hk, hz]
        · have := congrFun e2 k
          simpa only [if_neg hk] using this
      cases m; cases m'; simp_all
    · rintro m ⟨h1, -, h3, h4⟩
      have hM : 0 < M := by
        rcases Nat.eq_zero_or_pos M with h | h
        · rw [h] at hI; simp at hI
        · exact h
      let q : ℤ := m.n d + ((I / c.sites.length : Nat) : ℤ)
      have hM' : (0 : ℤ) < M := by omega
      have r1 : 0 ≤ q % M := Int.emod_nonneg _ (by omega)
      have r2 : q % M < M := Int.emod_lt_of_pos _ hM'
      let a : Nat := (q % M).toNat
      have ha : ((a : Nat) : ℤ) = q % M := Int.toNat_of_nonneg r1
      have ham : a < M := by omega
      let m' : Image := ⟨a * c.sites.length + m.j, fun k => if k = d then q / M else m.n k⟩
      have hj' : m'.j < M * c.sites.length := by
        show a * c.sites.length + m.j < M * c.sites.length
        have : (a + 1) * c.sites.length ≤ M * c.sites.length := Nat.mul_le_mul_right _ ham
        rw [Nat.add_mul, Nat.one_mul] at this
        omega
      have hmod : m'.j % c.sites.length = m.j := by
        show (a * c.sites.length + m.j) % c.sites.length = m.j
        rw [Nat.add_comm, Nat.add_mul_mod_self_right, Nat.mod_eq_of_lt h1]
      have hdiv : m'.j / c.sites.length = a := by
        show (a * c.sites.length + m.j) / c.sites.length = a
        rw [Nat.add_comm, Nat.add_mul_div_right _ _ hN, Nat.div_eq_of_lt h1, Nat.zero_add]
      have hfold : fold d M c.sites.length I m' = m := by
        unfold fold
        rw [hmod, hdiv]
        have : (fun k => if k = d then (M : ℤ) * m'.n k + (a : ℤ) - ((I / c.sites.length : Nat) : ℤ) else m'.n k) = m.n := by
          funext k
          by_cases hk : k = d
          · simp only [if_pos hk, m']
            have := Int.mul_ediv_add_emod q M
            rw [ha, hk]
            simp only [q] at this ⊢
            omega
          · simp only [if_neg hk, m']
        rw [this]
      refine ⟨m', ⟨by rw [super_length]; exact hj', Or.inl rfl, ?_, ?_⟩, hfold⟩
      · rintro ⟨e1, e2⟩
        apply h3
        rw [← hfold]
        refine ⟨?_, ?_⟩
        · show m'.j % c.sites.length = _
          rw [e1]
        · unfold fold
          rw [e2, e1]
          funext k
          simp
      · rw [arrow_fold he hb hI hj', hfold, super_site hI, super_site hj']
        simp only [hmod]
        exact h4
  · rintro m ⟨h1, -⟩
    rw [super_length] at h1
    rw [arrow_fold he hb hI h1, super_site h1]
    rfl

/-- A sum over all atoms of the large cell. -/
theorem sum_super (M N : Nat) (g : Nat → ℝ) :
    ∑ J ∈ Finset.range (M * N), g (J % N) = M * ∑ i ∈ Finset.range N, g i := by
  induction M with
  | zero => simp
  | succ M ih =>
    rw [Nat.succ_mul, Finset.sum_range_add, ih]
    have : ∀ x ∈ Finset.range N, g ((M * N + x) % N) = g x := by
      intro x hx
      rw [Finset.mem_range] at hx
      rw [Nat.add_comm, Nat.add_mul_mod_self_right, Nat.mod_eq_of_lt hx]
    rw [Finset.sum_congr rfl this]
    push_cast
    ring

theorem crystal_super (cut : Cutoffs) (he : c.box.edge = edge) (hb : box.edge = superEdge d M edge) (P : Pots ℝ) :
    crystalPair cut P (supercell d M edge box start c) = M * crystalPair cut P c := by
  unfold crystalPair
  rw [super_length, ← sum_super M c.sites.length
    (fun i => (1 / 2) * around cut c i (phi P c.ntypes (c.site i).typ))]
  apply Finset.sum_congr rfl
  intro I hI
  rw [Finset.mem_range] at hI
  rw [around_super cut he hb hI, super_site hI]
  rfl

end

/-- The running sum over full lists. -/
theorem energyLoop_half (P : Pots ℝ) (l : List (Atom ℝ)) (s : Nat) (e : ℝ) :
    energyLoop (halfEnergy P) l s e = e + ((entriesFrom s l).map fun x => (1 / 2) * cutPhi P x.n).sum := by
  induction l generalizing s e with
  | nil => simp [energyLoop, entriesFrom]
  | cons a l ih =>
    have h1 : ∀ (ns : List (Neigh ℝ)) (e : ℝ), ns.foldl (halfEnergy P s) e =
        e + (ns.map fun n => (1 / 2) * cutPhi P n).sum := by
      intro ns
      induction ns with
      | nil => intro e; simp
      | cons n ns ih =>
        intro e
        rw [List.foldl_cons, ih, List.map_cons, List.sum_cons]
        unfold halfEnergy cutPhi
        split <;> ring
    simp only [energyLoop, entriesFrom, List.map_append, List.sum_append, List.map_map]
    rw [ih, h1]
    simp only [Function.comp_def]
    ring

theorem energyLoop_selfHalf (P : Pots ℝ) (l : List (Atom ℝ)) (s : Nat) (e : ℝ) :
    energyLoop (selfHalfEnergy P) l s e = e + ((entriesFrom s l).map fun x =>
      (if x.n.nr = x.own then 1 / 4 else 1 / 2) * cutPhi P x.n).sum := by
  induction l generalizing s e with
  | nil => simp [energyLoop, entriesFrom]
  | cons a l ih =>
    have h1 : ∀ (ns : List (Neigh ℝ)) (e : ℝ), ns.foldl (selfHalfEnergy P s) e =
        e + (ns.map fun n => (if n.nr = s then 1 / 4 else 1 / 2) * cutPhi P n).sum := by
      intro ns
      induction ns with
      | nil => intro e; simp
      | cons n ns ih =>
        intro e
        rw [List.foldl_cons, ih, List.map_cons, List.sum_cons]
        unfold selfHalfEnergy cutPhi
        split <;> split <;> ring
    simp only [energyLoop, entriesFrom, List.map_append, List.sum_append, List.map_map]
    rw [ih, h1]
    simp only [Function.comp_def]
    ring

variable {cut : Cutoffs} {c : Cell}

theorem full_pair {edge : Fin 3 → V3 ℝ} {scale : Fin 3 → ℤ} {f : Conf ℝ} (hr : Ready edge cut scale c)
    (h : Built true cut scale c f) (P : Pots ℝ) :
    energyLoop (halfEnergy P) f.atoms f.start 0 = crystalPair cut P c := by
  obtain ⟨H, h1, h2, h3⟩ := built_lists hr h
  rw [energyLoop_half, zero_add]
  have := sum_built h h3 (fun x => (1 / 2) * cutPhi P x.n)
  unfold entries at this
  rw [this]
  unfold crystalPair
  apply Finset.sum_congr rfl
  intro i hi
  rw [Finset.mem_range] at hi
  rw [Lists.around_eq (⟨H, h1, h2⟩ : Lists cut c) hi, ← List.sum_map_mul_left]
  simp only [cutPhi_entry]

end Verif.Neighbors
