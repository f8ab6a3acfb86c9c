/-
C81  What a run starts with: parameter file, defaults and `check_parameters_complete`.
-/
import Verif.Lemmas.ParamCheck
import Verif.Props.C35
import Verif.Props.C68

namespace Verif.Props

open Verif.LineReader Verif.Params

/-! ### Specification -/

/-- The value the lines of a file give to a keyword, if any: the last one. -/
def lastGiven (b : Params.Build) (strtod : List Nat → Dbl × Bool) (L : List (List Nat)) (k : String) : Option Val :=
  (L.filterMap (given b strtod k)).getLast?

/-- What has to be in the file. -/
structure Complete (b : Params.Build) (v : String → Option Val) : Prop where
  ntypes : v "ntypes" ≠ none
  startpot : v "startpot" ≠ none
  config : v "config" ≠ none
  tempfile : v "tempfile" ≠ none
  stress : b.stress = true → v "stress_weight" ≠ none
  bindist : b.bindist = true → v "bindist_file" ≠ none
  moves : b.uq = true → v "acc_moves" ≠ none
  rescaling : b.uq = true → v "acc_rescaling" ≠ none
  model : b.kim = true → v "kim_model_name" ≠ none
  scale : v "cell_scale" ≠ some (.dbl (.num 0))
  cp : b.apot = true → b.pair = true → ∀ i, v "enable_cp" = some (.int i) → i = 0 ∨ i = 1

/-- The values the run works with: those given, and defaults for some that are not. -/
def effective (b : Params.Build) (v : String → Option Val) (k : String) : Option Val :=
  if k = "endpot" then
    match v "endpot", v "startpot" with
    | none, some (.str w) => some (.str (w ++ codes "_end"))
    | x, _ => x
  else if k = "anneal_temp" then
    if b.evo = false ∧ v "opt" = some (.int 1) ∧ v "anneal_temp" = none then some (.str (codes "0")) else v "anneal_temp"
  else if k = "ensemblefile" then
    match b.uq, v "ensemblefile", v "output_prefix" with
    | true, none, some (.str w) => some (.str (w ++ codes ".uq"))
    | true, none, _ => some (.str (codes ".uq"))
    | _, x, _ => x
  else if k = "uq_temp" then
    if b.uq = true ∧ v "uq_temp" = none then some (.dbl (.num 1)) else v "uq_temp"
  else if k = "hess_pert" then
    if b.uq = true ∧ (v "hess_pert" = none ∨ v "hess_pert" = some (.dbl (.num 0))) then some (.dbl (.num (1 / 100000))) else v "hess_pert"
  else if k = "opt" then
    if b.kim = true ∧ v "kim_model_params" ≠ none then some (.int 0) else v "opt"
  else v k

/-! ### Kinds of the keywords -/

/-- What reading establishes. -/
theorem after_initial (b : Params.Build) (strtod : List Nat → Dbl × Bool) (L : List (List Nat)) (k : String) :
    (after b strtod initial L).val k = lastGiven b strtod L k := by
  unfold after lastGiven initial
  simp

theorem lastGiven_mem (b : Params.Build) (strtod : List Nat → Dbl × Bool) (L : List (List Nat))
    (hL : ∀ l ∈ L, Acceptable b strtod l) (k : String) (κ : Kind) (hk : kindOf b k = some κ) (v : Val)
    (hv : lastGiven b strtod L k = some v) : ∃ w, value strtod w κ = some v ∧ fits strtod κ (some w) := by
  obtain ⟨l, hl, hg⟩ := List.mem_filterMap.1 (List.mem_of_getLast? hv)
  unfold given at hg
  split at hg
  · next hkw =>
    have hf := hL l hl k κ hkw hk
    rw [hk] at hg
    cases harg : argument l with
    | none => rw [harg] at hg; cases hg
    | some w =>
      rw [harg] at hg hf
      exact ⟨w, hg, hf⟩
  · cases hg

theorem kind_missing (b : Params.Build) (strtod : List Nat → Dbl × Bool) (L : List (List Nat)) (k : String)
    (hk : kindOf b k = none) : lastGiven b strtod L k = none := by
  unfold lastGiven
  rw [List.getLast?_eq_none_iff, List.filterMap_eq_nil_iff]
  intro l _
  unfold given
  rw [hk]
  split <;> rfl

theorem kinds (b : Params.Build) :
    kindOf b "ntypes" = some (.int 1 intMax) ∧ kindOf b "startpot" = some .str ∧ kindOf b "output_prefix" = some .strFlag ∧
    kindOf b "eng_weight" = some (.dbl 0 dblMax) ∧ kindOf b "imdpotsteps" = some (.int 1 intMax) ∧
    kindOf b "write_lammps" = some (.int 0 1) ∧ kindOf b "lammpspotsteps" = some (.int 1 intMax) ∧
    kindOf b "cell_scale" = some (.dbl 0 dblMax) ∧ kindOf b "opt" = some (.int 0 1) := by
  refine ⟨?_, ?_, ?_, ?_, ?_, ?_, ?_, ?_, ?_⟩ <;> rfl

theorem kinds_opt (b : Params.Build) :
    (b.stress = true → kindOf b "stress_weight" = some (.dbl 0 dblMax)) ∧
    (b.apot = true → kindOf b "plotmin" = some (.dbl dblMin dblMax)) ∧
    (b.apot = true → b.pair = true → kindOf b "enable_cp" = some (.int intMin intMax)) ∧
    (b.evo = true → kindOf b "evo_threshold" = some (.dbl 0 dblMax)) ∧
    (b.uq = true → kindOf b "acc_moves" = some (.int 1 intMax)) ∧
    (b.uq = true → kindOf b "acc_rescaling" = some (.dbl dblMin dblMax)) ∧
    (b.uq = true → kindOf b "uq_temp" = some (.dbl dblMin 1)) ∧
    (b.uq = true → kindOf b "hess_pert" = some (.dbl (-1) 1)) := by
  obtain ⟨a, b, c, d, e, f, g, h, i⟩ := b
  revert a b c d e f g h i
  decide +kernel

section Cases

variable (b : Params.Build) (strtod : List Nat → Dbl × Bool) (L : List (List Nat)) (hL : ∀ l ∈ L, Acceptable b strtod l) (k : String)
include hL

theorem int_cases (lo hi : Int) (hk : kindOf b k = some (.int lo hi)) :
    lastGiven b strtod L k = none ∨ ∃ i, lastGiven b strtod L k = some (.int i) ∧ lo ≤ i ∧ i ≤ hi := by
  cases hv : lastGiven b strtod L k with
  | none => exact Or.inl rfl
  | some v =>
    obtain ⟨w, h1, h2⟩ := lastGiven_mem b strtod L hL k _ hk v hv
    simp only [value, Option.some.injEq] at h1
    exact Or.inr ⟨_, by rw [← h1], h2.2.1, h2.2.2⟩

theorem dbl_cases (lo hi : ℚ) (hk : kindOf b k = some (.dbl lo hi)) :
    lastGiven b strtod L k = none ∨ lastGiven b strtod L k = some (.dbl .nan) ∨
      ∃ q, lastGiven b strtod L k = some (.dbl (.num q)) ∧ lo ≤ q ∧ q ≤ hi := by
  cases hv : lastGiven b strtod L k with
  | none => exact Or.inl rfl
  | some v =>
    obtain ⟨w, h1, h2⟩ := lastGiven_mem b strtod L hL k _ hk v hv
    simp only [value, Option.some.injEq] at h1
    rcases h2.2 with h3 | ⟨q, h3, h4⟩
    · exact Or.inr (Or.inl (by rw [← h1, h3]))
    · exact Or.inr (Or.inr ⟨q, by rw [← h1, h3], h4⟩)

theorem str_cases (hk : kindOf b k = some .str ∨ kindOf b k = some .strFlag) :
    lastGiven b strtod L k = none ∨ ∃ w, lastGiven b strtod L k = some (.str w) := by
  cases hv : lastGiven b strtod L k with
  | none => exact Or.inl rfl
  | some v =>
    rcases hk with hk | hk
    · obtain ⟨w, h1, -⟩ := lastGiven_mem b strtod L hL k _ hk v hv
      simp only [value, Option.some.injEq] at h1
      exact Or.inr ⟨_, by rw [← h1]⟩
    · obtain ⟨w, h1, -⟩ := lastGiven_mem b strtod L hL k _ hk v hv
      simp only [value, Option.some.injEq] at h1
      exact Or.inr ⟨_, by rw [← h1]⟩

end Cases

theorem dblMin_pos : 0 < dblMin := by
  unfold dblMin
  positivity

/-- The tests fail exactly if the file is not complete. -/
theorem fails_iff (b : Params.Build) (strtod : List Nat → Dbl × Bool) (L : List (List Nat)) (hL : ∀ l ∈ L, Acceptable b strtod l) (s : St)
    (hs : s.val = lastGiven b strtod L) : Fails b s ↔ ¬Complete b (lastGiven b strtod L) := by
  obtain ⟨k1, k2, k3, k4, k5, k6, k7, k8, k9⟩ := kinds b
  obtain ⟨o1, o2, o3, o4, o5, o6, o7, o8⟩ := kinds_opt b
  have c1 := int_cases b strtod L hL _ _ _ k1
  have c4 := dbl_cases b strtod L hL _ _ _ k4
  have c5 := int_cases b strtod L hL _ _ _ k5
  have c7 := int_cases b strtod L hL _ _ _ k7
  have c8 := dbl_cases b strtod L hL _ _ _ k8
  have d1 := fun h => dbl_cases b strtod L hL _ _ _ (o1 h)
  have d2 := fun h => dbl_cases b strtod L hL _ _ _ (o2 h)
  have d3 := fun h h' => int_cases b strtod L hL _ _ _ (o3 h h')
  have d4 := fun h => dbl_cases b strtod L hL _ _ _ (o4 h)
  have d5 := fun h => int_cases b strtod L hL _ _ _ (o5 h)
  have d6 := fun h => dbl_cases b strtod L hL _ _ _ (o6 h)
  rw [← hs] at *
  have f1 : intOf s "ntypes" 0 < 1 ↔ s.val "ntypes" = none := by
    unfold intOf
    rcases c1 with h | ⟨i, h, h', -⟩
    · simp [h]
    · simp [h, h']
  have f4 : ¬(dblOf s "eng_weight" 0).ltB 0 = true := by
    unfold dblOf
    rcases c4 with h | h | ⟨q, h, h', -⟩
    · simp [h, Dbl.ltB]
    · simp [h, Dbl.ltB]
    · simp [h, Dbl.ltB, h']
  have f5 : ¬intOf s "imdpotsteps" 500 < 1 := by
    unfold intOf
    rcases c5 with h | ⟨i, h, h', -⟩
    · simp [h]
    · simp [h, h']
  have f7 : ¬intOf s "lammpspotsteps" 500 < 1 := by
    unfold intOf
    rcases c7 with h | ⟨i, h, h', -⟩
    · simp [h]
    · simp [h, h']
  have f8 : ((dblOf s "cell_scale" 1).ltB 0 = true ∨ dblOf s "cell_scale" 1 = .num 0) ↔ s.val "cell_scale" = some (.dbl (.num 0)) := by
    unfold dblOf
    rcases c8 with h | h | ⟨q, h, h', -⟩
    · simp [h, Dbl.ltB]
    · simp [h, Dbl.ltB]
    · simp [h, Dbl.ltB, not_lt.2 h']
  have g1 : (b.stress = true ∧ (dblOf s "stress_weight" (-1)).ltB 0 = true) ↔ b.stress = true ∧ s.val "stress_weight" = none := by
    refine and_congr_right fun hb => ?_
    unfold dblOf
    rcases d1 hb with h | h | ⟨q, h, h', -⟩
    · simp [h, Dbl.ltB]
    · simp [h, Dbl.ltB]
    · simp [h, Dbl.ltB, h']
  have g2 : ¬(b.apot = true ∧ (dblOf s "plotmin" 0).ltB 0 = true) := by
    rintro ⟨hb, hn⟩
    revert hn
    unfold dblOf
    rcases d2 hb with h | h | ⟨q, h, h', -⟩
    · simp [h, Dbl.ltB]
    · simp [h, Dbl.ltB]
    · simp [h, Dbl.ltB, dblMin_pos.le.trans h']
  have g3 : (b.apot = true ∧ b.pair = true ∧ intOf s "enable_cp" 0 ≠ 0 ∧ intOf s "enable_cp" 0 ≠ 1) ↔
      b.apot = true ∧ b.pair = true ∧ ¬∀ i, s.val "enable_cp" = some (.int i) → i = 0 ∨ i = 1 := by
    refine and_congr_right fun hb => and_congr_right fun hb' => ?_
    unfold intOf
    rcases d3 hb hb' with h | ⟨i, h, -⟩
    · simp [h]
    · simp [h]
  have g4 : ¬(b.evo = true ∧ (dblOf s "evo_threshold" (1 / 1000000)).ltB 0 = true) := by
    rintro ⟨hb, hn⟩
    revert hn
    unfold dblOf
    rcases d4 hb with h | h | ⟨q, h, h', -⟩
    · simp [h, Dbl.ltB]
    · simp [h, Dbl.ltB]
    · simp [h, Dbl.ltB, h']
  have g5 : (b.uq = true ∧ intOf s "acc_moves" 0 = 0) ↔ b.uq = true ∧ s.val "acc_moves" = none := by
    refine and_congr_right fun hb => ?_
    unfold intOf
    rcases d5 hb with h | ⟨i, h, h', -⟩
    · simp [h]
    · simp [h]
      omega
  have g6 : (b.uq = true ∧ dblOf s "acc_rescaling" 0 = .num 0) ↔ b.uq = true ∧ s.val "acc_rescaling" = none := by
    refine and_congr_right fun hb => ?_
    unfold dblOf
    rcases d6 hb with h | h | ⟨q, h, h', -⟩
    · simp [h]
    · simp [h]
    · simp [h]
      exact (lt_of_lt_of_le dblMin_pos h').ne'
  unfold Fails
  rw [f1, f8, g1, g3, g5, g6]
  constructor
  · intro h hc
    rcases h with h | h | h | h | h | h | h | h | h | h | h | h | h | h | h | h
    · exact hc.ntypes h
    · exact hc.startpot h
    · exact hc.config h
    · exact hc.tempfile h
    · exact f4 h
    · exact hc.stress h.1 h.2
    · exact f5 h.2
    · exact f7 h.2
    · exact g2 h
    · exact h.2.2 (hc.cp h.1 h.2.1)
    · exact g4 h
    · exact hc.bindist h.1 h.2
    · exact hc.scale h
    · exact hc.moves h.1 h.2
    · exact hc.rescaling h.1 h.2
    · exact hc.model h.1 h.2
  · intro hc
    by_contra hn
    simp only [not_or, not_and] at hn
    obtain ⟨h1, h2, h3, h4, h5, h6, h7, h8, h9, h10, h11, h12, h13, h14, h15, h16⟩ := hn
    exact hc ⟨h1, h2, h3, h4, h6, h12, h14, h15, h16, h13, fun h h' => not_not.1 (h10 h h')⟩

theorem finished_eq (b : Params.Build) (strtod : List Nat → Dbl × Bool) (L : List (List Nat)) (hL : ∀ l ∈ L, Acceptable b strtod l) (s : St)
    (hs : s.val = lastGiven b strtod L) (hst : s.val "startpot" ≠ none) : finished b s = effective b (lastGiven b strtod L) := by
  obtain ⟨k1, k2, k3, k4, k5, k6, k7, k8, k9⟩ := kinds b
  obtain ⟨o1, o2, o3, o4, o5, o6, o7, o8⟩ := kinds_opt b
  have c2 := str_cases b strtod L hL _ (Or.inl k2)
  have c3 := str_cases b strtod L hL _ (Or.inr k3)
  have c9 := int_cases b strtod L hL _ _ _ k9
  have d7 := fun h => dbl_cases b strtod L hL _ _ _ (o7 h)
  have d8 := fun h => dbl_cases b strtod L hL _ _ _ (o8 h)
  rw [← hs] at *
  funext k
  unfold finished effective
  by_cases h_endpot : k = "endpot"
  · subst h_endpot
    simp only [show ¬("endpot" = "opt") by decide, show ¬("endpot" = "hess_pert") by decide, show ¬("endpot" = "uq_temp") by decide,
      show ¬("endpot" = "ensemblefile") by decide, show ¬("endpot" = "anneal_temp") by decide, false_and, if_false, true_and, if_true]
    rcases c2 with h | ⟨w, h⟩
    · exact absurd h hst
    · unfold strOf
      rw [h]
      cases he : s.val "endpot" with
      | none => simp
      | some v => simp
  by_cases h_anneal_temp : k = "anneal_temp"
  · subst h_anneal_temp
    simp only [show ¬("anneal_temp" = "opt") by decide, show ¬("anneal_temp" = "hess_pert") by decide,
      show ¬("anneal_temp" = "uq_temp") by decide, show ¬("anneal_temp" = "ensemblefile") by decide,
      show ¬("anneal_temp" = "endpot") by decide, false_and, if_false, true_and, if_true]
    unfold intOf
    rcases c9 with h | ⟨i, h, -⟩
    · simp [h]
    · simp only [h, Option.some.injEq, Val.int.injEq]
      exact if_congr ⟨fun ⟨x, y, z⟩ => ⟨x, z, y⟩, fun ⟨x, y, z⟩ => ⟨x, z, y⟩⟩ rfl rfl
  by_cases h_ensemblefile : k = "ensemblefile"
  · subst h_ensemblefile
    simp only [show ¬("ensemblefile" = "opt") by decide, show ¬("ensemblefile" = "hess_pert") by decide,
      show ¬("ensemblefile" = "uq_temp") by decide, show ¬("ensemblefile" = "anneal_temp") by decide,
      show ¬("ensemblefile" = "endpot") by decide, false_and, if_false, true_and, if_true]
    unfold strOf
    cases b.uq with
    | false => simp
    | true =>
      cases he : s.val "ensemblefile" with
      | some v => simp
      | none =>
        rcases c3 with h | ⟨w, h⟩
        · simp [h]
        · simp [h]
  by_cases h_uq_temp : k = "uq_temp"
  · subst h_uq_temp
    simp only [show ¬("uq_temp" = "opt") by decide, show ¬("uq_temp" = "hess_pert") by decide,
      show ¬("uq_temp" = "ensemblefile") by decide, show ¬("uq_temp" = "anneal_temp") by decide,
      show ¬("uq_temp" = "endpot") by decide, false_and, if_false, true_and, if_true]
    refine if_congr ?_ rfl rfl
    refine and_congr_right fun hb => ?_
    unfold dblOf
    rcases d7 hb with h | h | ⟨q, h, h', -⟩
    · simp [h]
    · simp [h]
    · simp [h]
      exact (lt_of_lt_of_le dblMin_pos h').ne'
  by_cases h_hess_pert : k = "hess_pert"
  · subst h_hess_pert
    simp only [show ¬("hess_pert" = "opt") by decide, show ¬("hess_pert" = "uq_temp") by decide,
      show ¬("hess_pert" = "ensemblefile") by decide, show ¬("hess_pert" = "anneal_temp") by decide,
      show ¬("hess_pert" = "endpot") by decide, false_and, if_false, true_and, if_true]
    refine if_congr ?_ rfl rfl
    refine and_congr_right fun hb => ?_
    unfold dblOf
    rcases d8 hb with h | h | ⟨q, h, h', -⟩
    · simp [h]
    · simp [h]
    · simp [h]
  by_cases h_opt : k = "opt"
  · subst h_opt
    simp only [show ¬("opt" = "uq_temp") by decide, show ¬("opt" = "hess_pert") by decide,
      show ¬("opt" = "ensemblefile") by decide, show ¬("opt" = "anneal_temp") by decide,
      show ¬("opt" = "endpot") by decide, false_and, if_false, true_and, if_true]
  · simp only [h_endpot, h_anneal_temp, h_ensemblefile, h_uq_temp, h_hess_pert, h_opt, false_and, if_false]

/-! ### The theorem -/

/-- A file is accepted exactly if each line is acceptable and what is needed is given; the run then works with the values given and the
defaults. -/
theorem C81_meaning (b : Params.Build) (strtod : List Nat → Dbl × Bool) (buffer : List Nat) (ls : List (List Nat × Bool))
    (last : List Nat) (hls : ∀ l ∈ ls, Plain l.1) (hlast : Plain last) :
    let L := linesOf ls last
    ((∀ l ∈ L, Acceptable b strtod l) → Complete b (lastGiven b strtod L) →
      ∃ s, readParameters b strtod buffer (fileOf ls last) = .ok s ∧ s.val = effective b (lastGiven b strtod L) ∧
        ∀ k, s.flag k = L.any (raised b k)) ∧
    (¬((∀ l ∈ L, Acceptable b strtod l) ∧ Complete b (lastGiven b strtod L)) →
      ∃ e, readParameters b strtod buffer (fileOf ls last) = .error e) := by
  intro L
  have m := loop_spec b strtod ls last hls hlast _ (Nat.le_refl _) initial buffer
  have hv : (after b strtod initial L).val = lastGiven b strtod L := funext fun k => after_initial b strtod L k
  have hread : (∀ l ∈ L, Acceptable b strtod l) →
      readParameters b strtod buffer (fileOf ls last) = checkComplete b (after b strtod initial L) := by
    intro ha
    have h1 : readParameterFile b strtod initial buffer (fileOf ls last) = .ok (after b strtod initial L) := m.1 ha
    unfold readParameters
    rw [h1]
  constructor
  · intro ha hc
    rw [hread ha]
    have hn : ¬Fails b (after b strtod initial L) := fun h => (fails_iff b strtod L ha _ hv).1 h hc
    refine ⟨_, (checkComplete_eq b _).2 hn, ?_, ?_⟩
    · exact finished_eq b strtod L ha _ hv (by rw [hv]; exact hc.startpot)
    · intro k
      simp [after, initial]
  · intro h
    by_cases ha : ∀ l ∈ L, Acceptable b strtod l
    · have hc : ¬Complete b (lastGiven b strtod L) := fun hc => h ⟨ha, hc⟩
      rw [hread ha]
      exact ⟨_, (checkComplete_eq b _).1 ((fails_iff b strtod L ha _ hv).2 hc)⟩
    · obtain ⟨e, he⟩ := m.2 ha
      refine ⟨e, ?_⟩
      have h1 : readParameterFile b strtod initial buffer (fileOf ls last) = .error e := he
      unfold readParameters
      rw [h1]

/-- A floating-point number with a lower bound, or not a number. -/
def AtLeast (lo : ℚ) : Dbl → Prop
  | .nan => True
  | .neg => False
  | .pos => True
  | .num q => lo ≤ q

/-- What the run can rely on. -/
theorem C81_ready_partial (b : Params.Build) (strtod : List Nat → Dbl × Bool) (buffer : List Nat) (ls : List (List Nat × Bool))
    (last : List Nat) (hls : ∀ l ∈ ls, Plain l.1) (hlast : Plain last) (s : St)
    (h : readParameters b strtod buffer (fileOf ls last) = .ok s) :
    (∃ n, s.val "ntypes" = some (.int n) ∧ 1 ≤ n) ∧ (∃ w, s.val "startpot" = some (.str w)) ∧
    (∃ w, s.val "endpot" = some (.str w)) ∧ s.val "config" ≠ none ∧ s.val "tempfile" ≠ none ∧
    (b.evo = false → s.val "opt" = some (.int 1) → s.val "anneal_temp" ≠ none) ∧
    (b.stress = true → ∃ x, s.val "stress_weight" = some (.dbl x) ∧ AtLeast 0 x) ∧
    (∀ q, s.val "cell_scale" = some (.dbl (.num q)) → 0 < q) ∧
    (b.uq = true → (∃ i, s.val "acc_moves" = some (.int i) ∧ 1 ≤ i) ∧ s.val "ensemblefile" ≠ none ∧ s.val "acc_rescaling" ≠ none ∧
      (∃ x, s.val "uq_temp" = some (.dbl x) ∧ AtLeast dblMin x) ∧ s.val "hess_pert" ≠ none ∧ s.val "hess_pert" ≠ some (.dbl (.num 0))) ∧
    (b.kim = true → s.val "kim_model_name" ≠ none ∧ (s.val "kim_model_params" ≠ none → s.val "opt" = some (.int 0))) := by
  have m := C81_meaning b strtod buffer ls last hls hlast
  have hok : (∀ l ∈ linesOf ls last, Acceptable b strtod l) ∧ Complete b (lastGiven b strtod (linesOf ls last)) := by
    by_contra hn
    obtain ⟨e, he⟩ := m.2 hn
    rw [h] at he
    cases he
  obtain ⟨hL, hc⟩ := hok
  obtain ⟨s', h1, h2, -⟩ := m.1 hL hc
  rw [h] at h1
  cases h1
  obtain ⟨k1, k2, k3, k4, k5, k6, k7, k8, k9⟩ := kinds b
  obtain ⟨o1, o2, o3, o4, o5, o6, o7, o8⟩ := kinds_opt b
  have same : ∀ k, k ∉ ["endpot", "anneal_temp", "ensemblefile", "uq_temp", "hess_pert", "opt"] →
      s.val k = lastGiven b strtod (linesOf ls last) k := by
    intro k hk
    simp only [List.mem_cons, List.not_mem_nil, or_false, not_or] at hk
    obtain ⟨x1, x2, x3, x4, x5, x6⟩ := hk
    rw [h2]
    simp only [effective, x1, x2, x3, x4, x5, x6, if_false]
  generalize hv : lastGiven b strtod (linesOf ls last) = v at *
  have c1 := int_cases b strtod _ hL _ _ _ k1
  have c2 := str_cases b strtod _ hL _ (Or.inl k2)
  have ce := str_cases b strtod _ hL "endpot" (Or.inl rfl)
  have c8 := dbl_cases b strtod _ hL _ _ _ k8
  have d1 := fun h => dbl_cases b strtod _ hL _ _ _ (o1 h)
  have d5 := fun h => int_cases b strtod _ hL _ _ _ (o5 h)
  have d7 := fun h => dbl_cases b strtod _ hL _ _ _ (o7 h)
  have d8 := fun h => dbl_cases b strtod _ hL _ _ _ (o8 h)
  rw [hv] at *
  refine ⟨?_, ?_, ?_, ?_, ?_, ?_, ?_, ?_, ?_, ?_⟩
  · rw [same "ntypes" (by decide)]
    rcases c1 with h | ⟨i, h, h', -⟩
    · exact absurd h hc.ntypes
    · exact ⟨i, h, h'⟩
  · rw [same "startpot" (by decide)]
    rcases c2 with h | h
    · exact absurd h hc.startpot
    · exact h
  · rw [h2]
    simp only [effective, if_true]
    rcases c2 with h | ⟨w, h⟩
    · exact absurd h hc.startpot
    · rcases ce with h' | ⟨w', h'⟩ <;> rw [h, h'] <;> exact ⟨_, rfl⟩
  · rw [same "config" (by decide)]
    exact hc.config
  · rw [same "tempfile" (by decide)]
    exact hc.tempfile
  · intro he ho
    have ho' : v "opt" = some (.int 1) := by
      rw [h2] at ho
      simp only [effective, show ¬("opt" = "uq_temp") by decide, show ¬("opt" = "hess_pert") by decide,
        show ¬("opt" = "ensemblefile") by decide, show ¬("opt" = "anneal_temp") by decide, show ¬("opt" = "endpot") by decide,
        if_false, if_true] at ho
      split at ho
      · simp at ho
      · exact ho
    rw [h2]
    simp only [effective, show ¬("anneal_temp" = "endpot") by decide, if_false, if_true]
    split
    · simp
    · next hn =>
      intro h
      exact hn ⟨he, ho', h⟩
  · intro hb
    rw [same "stress_weight" (by decide)]
    rcases d1 hb with h | h | ⟨q, h, h', -⟩
    · exact absurd h (hc.stress hb)
    · exact ⟨_, h, trivial⟩
    · exact ⟨_, h, h'⟩
  · intro q hq
    rw [same "cell_scale" (by decide)] at hq
    rcases c8 with h | h | ⟨q', h, h', -⟩
    · rw [h] at hq
      cases hq
    · rw [h] at hq
      cases hq
    · rw [h] at hq
      cases hq
      rcases lt_or_eq_of_le h' with h3 | h3
      · exact h3
      · exfalso
        apply hc.scale
        rw [h, ← h3]
  · intro hb
    refine ⟨?_, ?_, ?_, ?_, ?_, ?_⟩
    · rw [same "acc_moves" (by decide)]
      rcases d5 hb with h | ⟨i, h, h', -⟩
      · exact absurd h (hc.moves hb)
      · exact ⟨i, h, h'⟩
    · rw [h2]
      simp only [effective, show ¬("ensemblefile" = "endpot") by decide, show ¬("ensemblefile" = "anneal_temp") by decide, if_false,
        if_true, hb]
      split <;> simp_all
    · rw [same "acc_rescaling" (by decide)]
      exact hc.rescaling hb
    · rw [h2]
      simp only [effective, show ¬("uq_temp" = "endpot") by decide, show ¬("uq_temp" = "anneal_temp") by decide,
        show ¬("uq_temp" = "ensemblefile") by decide, if_false, if_true, hb, true_and]
      rcases d7 hb with h | h | ⟨q, h, h', -⟩
      · rw [if_pos h]
        refine ⟨_, rfl, ?_⟩
        show dblMin ≤ 1
        unfold dblMin
        exact div_le_one_of_le₀ (one_le_pow₀ (by norm_num)) (by positivity)
      · rw [if_neg (by rw [h]; simp)]
        exact ⟨_, h, trivial⟩
      · rw [if_neg (by rw [h]; simp)]
        exact ⟨_, h, h'⟩
    · rw [h2]
      simp only [effective, show ¬("hess_pert" = "endpot") by decide, show ¬("hess_pert" = "anneal_temp") by decide,
        show ¬("hess_pert" = "ensemblefile") by decide, show ¬("hess_pert" = "uq_temp") by decide, if_false, if_true, hb, true_and]
      split
      · simp
      · next hn => exact fun h => hn (Or.inl h)
    · rw [h2]
      simp only [effective, show ¬("hess_pert" = "endpot") by decide, show ¬("hess_pert" = "anneal_temp") by decide,
        show ¬("hess_pert" = "ensemblefile") by decide, show ¬("hess_pert" = "uq_temp") by decide, if_false, if_true, hb, true_and]
      split
      · simp
      · next hn => exact fun h => hn (Or.inr h)
  · intro hb
    rw [same "kim_model_name" (by decide), same "kim_model_params" (by decide)]
    refine ⟨hc.model hb, fun hp => ?_⟩
    rw [h2]
    simp only [effective, show ¬("opt" = "uq_temp") by decide, show ¬("opt" = "hess_pert") by decide,
      show ¬("opt" = "ensemblefile") by decide, show ¬("opt" = "anneal_temp") by decide, show ¬("opt" = "endpot") by decide,
      if_false, if_true]
    rw [if_pos ⟨hb, hp⟩]

/-! ### What is not checked -/

def pairOnly : Params.Build := ⟨false, true, false, false, false, false, false, false, false⟩

/-- The shortest complete file. -/
def shortFile : List (List Nat × Bool) :=
  [(codes "ntypes 1", false), (codes "startpot a", false), (codes "config b", false), (codes "tempfile c", false)]

/-- Values and flags of a run. -/
def started (b : Params.Build) (ls : List (List Nat × Bool)) (p : St → Bool) : Bool :=
  match readParameters b demoStrtod [1] (fileOf ls []) with
  | .ok s => p s
  | .error _ => false

example : (∀ l ∈ shortFile, l.1.length ≤ 1021 ∧ ∀ c ∈ l.1, c ≠ 0 ∧ c ≠ lf ∧ c ≠ cr) ∧
    started pairOnly shortFile (fun s => decide (s.val "endpot" = some (.str (codes "a_end")))) = true ∧
    started pairOnly ((codes "opt 1", true) :: shortFile) (fun s => decide (s.val "anneal_temp" = some (.str (codes "0")))) = true ∧
    started pairOnly (shortFile.drop 1) (fun _ => true) = false ∧
    started { pairOnly with stress := true } shortFile (fun _ => true) = false ∧
    started { pairOnly with stress := true } ((codes "stress_weight 1.5", true) :: shortFile) (fun _ => true) = true := by
  decide +kernel

/-- The weight of the energies need not be given, although the test at 440 reports it as missing if negative; its value is then zero and
energies do not count. The weight of the stresses has to be given. -/
theorem C81_weight_violated :
    started pairOnly shortFile (fun s => decide (s.val "eng_weight" = none ∧ dblOf s "eng_weight" 0 = .num 0)) = true ∧
    started { pairOnly with stress := true } shortFile (fun _ => true) = false := by
  decide +kernel

/-- A potential for IMD is to be written, but has no name. -/
theorem C81_name_violated :
    started pairOnly ((codes "imdpot", false) :: shortFile) (fun s => s.flag "imdpot" && decide (s.val "imdpot" = none)) = true ∧
    started pairOnly ((codes "plotfile", false) :: shortFile) (fun s => s.flag "plotfile" && decide (s.val "plotfile" = none)) = true ∧
    started pairOnly ((codes "maxchfile", false) :: shortFile) (fun s => s.flag "maxchfile" && decide (s.val "maxchfile" = none)) = true := by
  decide +kernel

/-- A table with one point cannot begin and end at different distances, but is accepted. -/
theorem C81_steps_violated :
    started pairOnly ((codes "write_lammps 1", false) :: (codes "lammpspotsteps 1", false) :: shortFile)
      (fun s => decide (intOf s "write_lammps" 0 = 1 ∧ intOf s "lammpspotsteps" 500 = 1)) = true ∧
    ∀ a b : ℚ, a < b → ¬∃ grid : Fin 1 → ℚ, a ∈ Set.range grid ∧ b ∈ Set.range grid := by
  refine ⟨by decide +kernel, ?_⟩
  rintro a b hab ⟨g, ⟨i, hi⟩, ⟨j, hj⟩⟩
  rw [Subsingleton.elim i j, hj] at hi
  exact hab.ne hi.symm

/-- Neither tolerance nor mixing parameter of the dipoles need be given: they are zero then. -/
theorem C81_dipole_violated :
    started { pairOnly with apot := true, pair := false, coulomb := true, dipole := true } shortFile
      (fun s => decide (s.val "dp_tol" = none ∧ s.val "dp_mix" = none)) = true := by
  decide +kernel

/-- With these values, the dipoles of every configuration are those of the static field: interactions between dipoles are not taken
into account. -/
theorem C81_dipole_static {K : Type*} [Field K] [LinearOrder K] [IsStrictOrderedRing K] (b : Verif.Force.Build)
    (P : Verif.Force.Pots K) (E : Verif.Force.Elec K) (c : Verif.Force.Conf K) (hs : IsRoot E) (hm : E.mix = 0) (ht : E.tol = 0)
    (s : Verif.Force.ElState K) : Verif.Spec.StaticOnly E c (Verif.Force.elDipoles b true P E c s).pInd := by
  rcases C68_self_consistent_partial b P E c hs hm s with h | h
  · exact h
  · exfalso
    rw [ht] at h
    have : 0 ≤ Verif.Spec.inconsistency E c (Verif.Force.elDipoles b true P E c s).pInd := by
      unfold Verif.Spec.inconsistency Verif.Spec.polarSum
      apply div_nonneg
      · apply List.sum_nonneg
        intro x hx
        obtain ⟨y, -, rfl⟩ := List.mem_map.1 hx
        split
        · exact le_rfl
        · exact Finset.sum_nonneg fun k _ => sq_nonneg _
      · positivity
    simp at h
    exact absurd h (not_lt.2 this)

example (b : Verif.Force.Build) (P : Verif.Force.Pots ℝ) :
    Verif.Spec.StaticOnly (ionE 0 0) ionC (Verif.Force.elDipoles b true P (ionE 0 0) ionC ionFresh).pInd :=
  C81_dipole_static b P _ _ (ion_root 0 0) rfl rfl _

end Verif.Props
