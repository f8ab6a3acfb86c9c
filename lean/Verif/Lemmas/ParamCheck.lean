/-
Lemmas about `check_parameters_complete` (C81).
-/
import Verif.Model.ParamCheck

namespace Verif.Params

theorem val_set (s : St) (k k' : String) (v : Val) (h : k' ≠ k) : (s.set k v).val k' = s.val k' := by
  unfold St.set
  exact Function.update_of_ne h _ _

theorem val_set_self (s : St) (k : String) (v : Val) : (s.set k v).val k = some v := by
  unfold St.set
  exact Function.update_self _ _ _

theorem val_ite (c : Prop) [Decidable c] (s : St) (k k' : String) (v : Val) (h : k' ≠ k) :
    (if c then s.set k v else s).val k' = s.val k' := by
  split
  · exact val_set s k k' v h
  · rfl

theorem flag_ite (c : Prop) [Decidable c] (s : St) (k k' : String) (v : Val) :
    (if c then s.set k v else s).flag k' = s.flag k' := by
  split <;> rfl

theorem ite_val (c : Prop) [Decidable c] (s : St) (k k' : String) (v : Val) :
    (if c then s.set k v else s).val k' = if k' = k ∧ c then some v else s.val k' := by
  by_cases h : k' = k
  · subst h
    by_cases hc : c
    · rw [if_pos hc, if_pos ⟨rfl, hc⟩, val_set_self]
    · rw [if_neg hc, if_neg (fun h => hc h.2)]
  · rw [val_ite c s k k' v h, if_neg (fun h' => h h'.1)]

/-- A step which sets only the variable `key`. -/
def Only (key : String) (f : St → St) : Prop := ∀ s, (∀ k, k ≠ key → (f s).val k = s.val k) ∧ (f s).flag = s.flag

theorem only_ite (key : String) (c : St → Prop) [∀ s, Decidable (c s)] (v : St → Val) :
    Only key fun s => if c s then s.set key (v s) else s := by
  intro s
  refine ⟨fun k hk => val_ite _ s key k _ hk, ?_⟩
  funext k
  exact flag_ite _ s key k _

theorem Only.val {key : String} {f : St → St} (h : Only key f) (s : St) (k : String) (hk : k ≠ key) : (f s).val k = s.val k :=
  (h s).1 k hk

theorem Only.flag {key : String} {f : St → St} (h : Only key f) (s : St) (k : String) : (f s).flag k = s.flag k := by
  rw [(h s).2]

theorem Only.int {key : String} {f : St → St} (h : Only key f) (s : St) (k : String) (d : Int) (hk : k ≠ key) :
    intOf (f s) k d = intOf s k d := by
  unfold intOf
  rw [h.val s k hk]

theorem Only.dbl {key : String} {f : St → St} (h : Only key f) (s : St) (k : String) (d : ℚ) (hk : k ≠ key) :
    dblOf (f s) k d = dblOf s k d := by
  unfold dblOf
  rw [h.val s k hk]

theorem Only.str {key : String} {f : St → St} (h : Only key f) (s : St) (k : String) (hk : k ≠ key) : strOf (f s) k = strOf s k := by
  unfold strOf
  rw [h.val s k hk]

theorem only_endpot : Only "endpot" withEndpot := only_ite _ _ _
theorem only_anneal (b : Build) : Only "anneal_temp" (withAnneal b) := only_ite _ _ _
theorem only_ensemble (b : Build) : Only "ensemblefile" (withEnsemble b) := only_ite _ _ _
theorem only_temp (b : Build) : Only "uq_temp" (withTemp b) := only_ite _ _ _
theorem only_hess (b : Build) : Only "hess_pert" (withHess b) := only_ite _ _ _
theorem only_opt (b : Build) : Only "opt" (withOpt b) := only_ite _ _ _

/-- The tests, all on the values that were read. -/
def Fails (b : Build) (s : St) : Prop :=
  intOf s "ntypes" 0 < 1 ∨ s.val "startpot" = none ∨ s.val "config" = none ∨ s.val "tempfile" = none ∨
  (dblOf s "eng_weight" 0).ltB 0 = true ∨ (b.stress = true ∧ (dblOf s "stress_weight" (-1)).ltB 0 = true) ∨
  (s.flag "imdpot" = true ∧ intOf s "imdpotsteps" 500 < 1) ∨
  (intOf s "write_lammps" 0 ≠ 0 ∧ intOf s "lammpspotsteps" 500 < 1) ∨
  (b.apot = true ∧ (dblOf s "plotmin" 0).ltB 0 = true) ∨
  (b.apot = true ∧ b.pair = true ∧ intOf s "enable_cp" 0 ≠ 0 ∧ intOf s "enable_cp" 0 ≠ 1) ∨
  (b.evo = true ∧ (dblOf s "evo_threshold" (1 / 1000000)).ltB 0 = true) ∨
  (b.bindist = true ∧ s.val "bindist_file" = none) ∨
  ((dblOf s "cell_scale" 1).ltB 0 = true ∨ dblOf s "cell_scale" 1 = .num 0) ∨
  (b.uq = true ∧ intOf s "acc_moves" 0 = 0) ∨
  (b.uq = true ∧ dblOf s "acc_rescaling" 0 = .num 0) ∨
  (b.kim = true ∧ s.val "kim_model_name" = none)

/-- The values afterwards. -/
def finished (b : Build) (s : St) (k : String) : Option Val :=
  if k = "opt" ∧ b.kim = true ∧ s.val "kim_model_params" ≠ none then some (.int 0)
  else if k = "hess_pert" ∧ b.uq = true ∧ dblOf s "hess_pert" 0 = .num 0 then some (.dbl (.num (1 / 100000)))
  else if k = "uq_temp" ∧ b.uq = true ∧ dblOf s "uq_temp" 0 = .num 0 then some (.dbl (.num 1))
  else if k = "ensemblefile" ∧ b.uq = true ∧ s.val "ensemblefile" = none then some (.str (strOf s "output_prefix" ++ codes ".uq"))
  else if k = "anneal_temp" ∧ b.evo = false ∧ s.val "anneal_temp" = none ∧ intOf s "opt" 0 = 1 then some (.str (codes "0"))
  else if k = "endpot" ∧ s.val "endpot" = none then some (.str (strOf s "startpot" ++ codes "_end"))
  else s.val k

theorem or_ite {α : Type} (p q : Prop) [Decidable p] [Decidable q] (x y : α) :
    (if p then x else if q then x else y) = if p ∨ q then x else y := by
  by_cases hp : p
  · rw [if_pos hp, if_pos (Or.inl hp)]
  · rw [if_neg hp]
    by_cases hq : q
    · rw [if_pos hq, if_pos (Or.inr hq)]
    · rw [if_neg hq, if_neg (not_or.2 ⟨hp, hq⟩)]

theorem checkUq_eq (b : Build) (s : St) :
    checkUq b s = if (b.uq = true ∧ intOf s "acc_moves" 0 = 0) ∨ (b.uq = true ∧ dblOf s "acc_rescaling" 0 = .num 0) ∨
      (b.kim = true ∧ s.val "kim_model_name" = none) then .error .exit else .ok (withOpt b (withHess b (withTemp b s))) := by
  unfold checkUq checkKim
  rw [(only_opt b).val _ "kim_model_name" (by decide), (only_hess b).val _ "kim_model_name" (by decide),
    (only_temp b).val _ "kim_model_name" (by decide)]
  simp only [or_ite]

theorem checkScale_eq (b : Build) (s : St) :
    checkScale b s = if (b.bindist = true ∧ s.val "bindist_file" = none) ∨
      ((dblOf s "cell_scale" 1).ltB 0 = true ∨ dblOf s "cell_scale" 1 = .num 0) ∨ (b.uq = true ∧ intOf s "acc_moves" 0 = 0) ∨
      (b.uq = true ∧ dblOf s "acc_rescaling" 0 = .num 0) ∨ (b.kim = true ∧ s.val "kim_model_name" = none)
      then .error .exit else .ok (withOpt b (withHess b (withTemp b (withEnsemble b s)))) := by
  unfold checkScale
  rw [checkUq_eq, (only_ensemble b).int _ "acc_moves" _ (by decide), (only_ensemble b).dbl _ "acc_rescaling" _ (by decide),
    (only_ensemble b).val _ "kim_model_name" (by decide)]
  simp only [or_ite]

theorem checkWeights_eq (b : Build) (s : St) :
    checkWeights b s = if s.val "config" = none ∨ s.val "tempfile" = none ∨ (dblOf s "eng_weight" 0).ltB 0 = true ∨
      (b.stress = true ∧ (dblOf s "stress_weight" (-1)).ltB 0 = true) ∨ (s.flag "imdpot" = true ∧ intOf s "imdpotsteps" 500 < 1) ∨
      (intOf s "write_lammps" 0 ≠ 0 ∧ intOf s "lammpspotsteps" 500 < 1) ∨ (b.apot = true ∧ (dblOf s "plotmin" 0).ltB 0 = true) ∨
      (b.apot = true ∧ b.pair = true ∧ intOf s "enable_cp" 0 ≠ 0 ∧ intOf s "enable_cp" 0 ≠ 1) ∨
      (b.evo = true ∧ (dblOf s "evo_threshold" (1 / 1000000)).ltB 0 = true) ∨ (b.bindist = true ∧ s.val "bindist_file" = none) ∨
      ((dblOf s "cell_scale" 1).ltB 0 = true ∨ dblOf s "cell_scale" 1 = .num 0) ∨ (b.uq = true ∧ intOf s "acc_moves" 0 = 0) ∨
      (b.uq = true ∧ dblOf s "acc_rescaling" 0 = .num 0) ∨ (b.kim = true ∧ s.val "kim_model_name" = none)
      then .error .exit else .ok (withOpt b (withHess b (withTemp b (withEnsemble b (withAnneal b s))))) := by
  unfold checkWeights
  rw [checkScale_eq, (only_anneal b).int _ "acc_moves" _ (by decide), (only_anneal b).dbl _ "acc_rescaling" _ (by decide),
    (only_anneal b).val _ "kim_model_name" (by decide), (only_anneal b).val _ "bindist_file" (by decide),
    (only_anneal b).dbl _ "cell_scale" _ (by decide)]
  simp only [or_ite]

theorem checkComplete_eq (b : Build) (s : St) :
    (Fails b s → checkComplete b s = .error .exit) ∧ (¬Fails b s → checkComplete b s = .ok ⟨finished b s, s.flag⟩) := by
  have key : (Fails b s → checkComplete b s = .error .exit) ∧ (¬Fails b s → checkComplete b s =
      .ok (withOpt b (withHess b (withTemp b (withEnsemble b (withAnneal b (withEndpot s))))))) := by
    unfold Fails checkComplete
    rw [checkWeights_eq]
    have v := only_endpot.val s
    have i := only_endpot.int s
    have d := only_endpot.dbl s
    rw [v "config" (by decide), v "tempfile" (by decide), d "eng_weight" _ (by decide), d "stress_weight" _ (by decide),
      only_endpot.flag, i "imdpotsteps" _ (by decide), i "write_lammps" _ (by decide), i "lammpspotsteps" _ (by decide),
      d "plotmin" _ (by decide), i "enable_cp" _ (by decide), d "evo_threshold" _ (by decide), v "bindist_file" (by decide),
      d "cell_scale" _ (by decide), i "acc_moves" _ (by decide), d "acc_rescaling" _ (by decide), v "kim_model_name" (by decide)]
    simp only [or_ite]
    exact ⟨fun h => if_pos h, fun h => if_neg h⟩
  refine ⟨key.1, fun h => ?_⟩
  · rw [key.2 h]
    congr 1
    have hf : (withOpt b (withHess b (withTemp b (withEnsemble b (withAnneal b (withEndpot s)))))).flag = s.flag := by
      funext k
      rw [(only_opt b).flag, (only_hess b).flag, (only_temp b).flag, (only_ensemble b).flag, (only_anneal b).flag, only_endpot.flag]
    have hv : (withOpt b (withHess b (withTemp b (withEnsemble b (withAnneal b (withEndpot s)))))).val = finished b s := by
      funext k
      unfold finished
      have e1 : ∀ t, (withOpt b t).val k = if k = "opt" ∧ b.kim = true ∧ t.val "kim_model_params" ≠ none then some (.int 0) else t.val k :=
        fun t => ite_val _ t _ k _
      have e2 : ∀ t, (withHess b t).val k = if k = "hess_pert" ∧ b.uq = true ∧ dblOf t "hess_pert" 0 = .num 0 then
          some (.dbl (.num (1 / 100000))) else t.val k := fun t => ite_val _ t _ k _
      have e3 : ∀ t, (withTemp b t).val k = if k = "uq_temp" ∧ b.uq = true ∧ dblOf t "uq_temp" 0 = .num 0 then
          some (.dbl (.num 1)) else t.val k := fun t => ite_val _ t _ k _
      have e4 : ∀ t, (withEnsemble b t).val k = if k = "ensemblefile" ∧ b.uq = true ∧ t.val "ensemblefile" = none then
          some (.str (strOf t "output_prefix" ++ codes ".uq")) else t.val k := fun t => ite_val _ t _ k _
      have e5 : ∀ t, (withAnneal b t).val k = if k = "anneal_temp" ∧ b.evo = false ∧ t.val "anneal_temp" = none ∧ intOf t "opt" 0 = 1
          then some (.str (codes "0")) else t.val k := fun t => ite_val _ t _ k _
      have e6 : ∀ t, (withEndpot t).val k = if k = "endpot" ∧ t.val "endpot" = none then
          some (.str (strOf t "startpot" ++ codes "_end")) else t.val k := fun t => ite_val _ t _ k _
      rw [e1, e2, e3, e4, e5, e6]
      simp (disch := decide) only [(only_endpot).val, (only_endpot).int, (only_endpot).dbl, (only_endpot).str,
        (only_anneal b).val, (only_anneal b).dbl, (only_anneal b).str, (only_ensemble b).val, (only_ensemble b).dbl,
        (only_temp b).val, (only_temp b).dbl, (only_hess b).val]
    rw [← hf, ← hv]

end Verif.Params
