/-
C78: the potential file written at the end of a fit with analytic potentials.
-/
import Verif.Spec.Finish
import Verif.Props.C28
import Verif.Props.C29
import Verif.Props.C70
import Mathlib.Data.Rat.Floor

set_option linter.unusedSectionVars false

namespace Verif.Props

open Verif.ApotLayout Verif.Finish Verif.Spec

variable {K : Type*} [Field K] [LinearOrder K] [IsStrictOrderedRing K] {σ : Type*} {N M : Nat}

/-! ### Places -/

theorem cell_unique (f : File K) (h5 : ∀ d secs, f.extra = .elstat d secs → secs.length ≤ 5) {n n' i j : Nat} {p p' : Par K}
    (h : (cells f)[n]? = some (some (i, j, p))) (h' : (cells f)[n']? = some (some (i, j, p'))) : n = n' := by
  have hp := List.pairwise_iff_getElem.1 (cells_later f h5)
  obtain ⟨l1, e1⟩ := List.getElem?_eq_some_iff.1 h
  obtain ⟨l2, e2⟩ := List.getElem?_eq_some_iff.1 h'
  rcases Nat.lt_trichotomy n n' with hlt | heq | hgt
  · have := hp n n' l1 l2 hlt i j _ i j _ e1 e2
    omega
  · exact heq
  · have := hp n' n l2 l1 hgt i j _ i j _ e2 e1
    omega

theorem mem_cellsOf {i : Nat} {frozen : Bool} {ps : List (Par K)} {i' j : Nat} {p : Par K} :
    some (i', j, p) ∈ cellsOf i frozen ps ↔ i' = i ∧ ∃ q, ps[j]? = some q ∧ p = ⟨q.val, frozen || q.fixed⟩ := by
  unfold cellsOf
  rw [List.mem_map]
  constructor
  · rintro ⟨⟨q, j'⟩, hm, he⟩
    simp only [Option.some.injEq, Prod.mk.injEq] at he
    obtain ⟨rfl, rfl, rfl⟩ := he
    exact ⟨rfl, q, List.mem_zipIdx_iff_getElem?.1 hm, rfl⟩
  · rintro ⟨rfl, q, hq, rfl⟩
    exact ⟨(q, j), List.mem_zipIdx_iff_getElem?.2 hq, rfl⟩

/-- The parameters read are those of the intended layout. -/
theorem readValues_cells (f : File K) (h5 : ∀ d secs, f.extra = .elstat d secs → secs.length ≤ 5) {n i j : Nat} {p : Par K}
    (h : (cells f)[n]? = some (some (i, j, p))) : readValues f i j = p.val := by
  have hm := List.mem_of_getElem? h
  have hge : f.fns.length ≤ globalPot f := by
    unfold globalPot
    cases f.extra <;> simp
  unfold cells at hm
  rw [List.mem_append, List.mem_append] at hm
  unfold readValues
  rcases hm with (hm | hm) | hm
  · obtain ⟨⟨g, k⟩, hg, hm⟩ := List.mem_flatMap.1 hm
    simp only [List.mem_append, List.mem_cons, reduceCtorEq, List.not_mem_nil, or_false, false_or] at hm
    obtain ⟨rfl, q, hq, rfl⟩ := mem_cellsOf.1 hm
    have hg := List.mem_zipIdx_iff_getElem?.1 hg
    have hl := (List.getElem?_eq_some_iff.1 hg).1
    simp only at hg hq hl
    have hne : i ≠ globalPot f := by omega
    simp only [if_neg hne, hg, hq, Option.map_some, Option.getD_some]
  · unfold cellsExtra at hm
    cases hx : f.extra with
    | none => rw [hx] at hm; cases hm
    | chem ps =>
      rw [hx] at hm
      obtain ⟨rfl, q, hq, rfl⟩ := mem_cellsOf.1 hm
      have hne : f.fns.length ≠ globalPot f := by
        unfold globalPot
        rw [hx]
        simp
      simp only [if_neg hne, List.getElem?_eq_none (le_refl f.fns.length), if_true, hq, Option.map_some, Option.getD_some]
    | elstat d secs =>
      rw [hx] at hm
      obtain ⟨⟨ps, k⟩, hg, hm⟩ := List.mem_flatMap.1 hm
      obtain ⟨rfl, q, hq, rfl⟩ := mem_cellsOf.1 hm
      have hg := List.mem_zipIdx_iff_getElem?.1 hg
      have hl := (List.getElem?_eq_some_iff.1 hg).1
      simp only at hg hq hl
      have := h5 d secs hx
      have hne : f.fns.length + k ≠ globalPot f := by
        unfold globalPot
        rw [hx]
        simp only
        omega
      simp only [if_neg hne, List.getElem?_eq_none (show f.fns.length ≤ f.fns.length + k by omega), Nat.add_sub_cancel_left,
        List.getD_eq_getElem?_getD, hg, Option.getD_some, hq, Option.map_some]
  · unfold cellsGlobals at hm
    split_ifs at hm
    · obtain ⟨rfl, q, hq, rfl⟩ := mem_cellsOf.1 hm
      simp only [if_true, hq, Option.map_some, Option.getD_some]
    · cases hm

/-- The place where global parameters are looked for is theirs. -/
theorem global_place (f : File K) (hf : Spec.Fits f) (hc : ChemFree f.extra) (he : ∀ d secs, f.extra ≠ .elstat d secs) (hu : f.used = true)
    (g : Nat) (hg : g < f.globals.length) : ∃ p, (cells f)[globalIdx f + g]? = some (some (globalPot f, g, p)) := by
  have hl : globalIdx f = (cellsFns f.fns ++ cellsExtra f.fns.length f.extra).length := by
    rw [List.length_append, ← lastEnd_cells]
    unfold globalIdx
    unfold Spec.Fits at hf
    cases hx : f.extra with
    | none => simp [cellsExtra]
    | chem ps =>
      rw [hx] at hf hc
      have h0 : nFixed ps = 0 := by
        unfold nFixed
        rw [List.length_eq_zero_iff, List.filter_eq_nil_iff]
        intro p hp
        simp [hc p hp]
      simp only [h0, cellsExtra, cellsOf_length, hf.1]
      omega
    | elstat d secs => exact absurd hx (he d secs)
  refine ⟨⟨(f.globals[g]).val, (f.globals[g]).fixed⟩, ?_⟩
  unfold cells
  rw [hl, List.getElem?_append_right (by omega), Nat.add_sub_cancel_left]
  unfold cellsGlobals cellsOf
  rw [if_pos hu, List.getElem?_map, List.getElem?_zipIdx, List.getElem?_eq_getElem hg]
  simp

theorem start_table (f : File K) (hf : Spec.Fits f) {n i j : Nat} {p : Par K} (h : (cells f)[n]? = some (some (i, j, p))) :
    (Finish.start f).table n = p.val := by
  have hl := cells_length_le f hf
  have := (List.getElem?_eq_some_iff.1 h).1
  show (entry f n).getD 0 = p.val
  rw [C70_table f hf n, if_pos (by omega), h]
  rfl

/-! ### Assigning values -/

theorem setValue_same (v : Values K) (i j : Nat) (x : K) : setValue v i j x i j = x := by
  unfold setValue
  rw [Function.update_self, Function.update_self]

theorem setValue_other (v : Values K) {i j i' j' : Nat} (x : K) (h : ¬ (i = i' ∧ j = j')) : setValue v i j x i' j' = v i' j' := by
  unfold setValue
  by_cases h1 : i' = i
  · subst h1
    rw [Function.update_self, Function.update_of_ne (fun e => h ⟨rfl, e.symm⟩)]
  · rw [Function.update_of_ne h1]

theorem fold_none {α : Type*} (l : List α) (p q : α → Nat) (w : α → K) (v : Values K) (i j : Nat)
    (h : ∀ a ∈ l, ¬ (p a = i ∧ q a = j)) : l.foldl (fun v a => setValue v (p a) (q a) (w a)) v i j = v i j := by
  induction l generalizing v with
  | nil => rfl
  | cons a l ih =>
    rw [List.foldl_cons, ih _ fun b hb => h b (List.mem_cons_of_mem _ hb), setValue_other _ _ (h a List.mem_cons_self)]

theorem fold_all {α : Type*} (l : List α) (p q : α → Nat) (w : α → K) (v : Values K) (i j : Nat) (y : K)
    (h : ∀ a ∈ l, p a = i → q a = j → w a = y) (he : (∃ a ∈ l, p a = i ∧ q a = j) ∨ v i j = y) :
    l.foldl (fun v a => setValue v (p a) (q a) (w a)) v i j = y := by
  induction l generalizing v with
  | nil => exact he.resolve_left (by simp)
  | cons a l ih =>
    rw [List.foldl_cons]
    refine ih _ (fun b hb => h b (List.mem_cons_of_mem _ hb)) ?_
    by_cases ha : p a = i ∧ q a = j
    · right
      obtain ⟨rfl, rfl⟩ := ha
      rw [setValue_same]
      exact h a List.mem_cons_self rfl rfl
    · rcases he with ⟨b, hb, hb'⟩ | he
      · rcases List.mem_cons.1 hb with rfl | hb
        · exact absurd hb' ha
        · exact Or.inl ⟨b, hb, hb'⟩
      · right
        rw [setValue_other _ _ ha]
        exact he

/-- Values other than those of free parameters and of references are as read. -/
def KeptAsRead (f : File K) (refs : List Ref) (v : Values K) : Prop :=
  ∀ i j : Nat, (∀ (n : Nat) (w : K), (cells f)[n]? ≠ some (some (i, j, (⟨w, false⟩ : Par K)))) → ¬ IsRef refs i j → v i j = readValues f i j

theorem updateFree_kept {f : File K} {refs : List Ref} (hc : ChemFree f.extra) {v : Values K} (h : KeptAsRead f refs v) (x : Nat → K) :
    KeptAsRead f refs (updateFree f x v) := by
  intro i j hn hr
  unfold updateFree
  rw [fold_none _ (fun s : Slot => s.pot) (fun s => s.par) (fun s => x s.pos)]
  · exact h i j hn hr
  · rintro ⟨n, i', j'⟩ hs ⟨e1, e2⟩
    simp only at e1 e2
    subst e1 e2
    obtain ⟨w, hw⟩ := (C70_index_partial f hc n i' j').1 hs
    exact hn n w hw

theorem updateApot_kept {f : File K} {refs : List Ref} (hc : ChemFree f.extra) {v : Values K} (h : KeptAsRead f refs v) (x : Nat → K) :
    KeptAsRead f refs (updateApot f refs x v) := by
  unfold updateApot
  simp only
  split
  · intro i j hn hr
    rw [fold_none _ (fun r : Ref => r.pot) (fun r => r.par) (fun r => x (globalIdx f + r.glob))]
    · exact updateFree_kept hc h x i j hn hr
    · intro r hm e
      exact hr ⟨r, hm, e⟩
  · exact updateFree_kept hc h x

theorem stages_kept {f : File K} {refs : List Ref} (g : (Nat → K) → Values K → Values K)
    (hg : ∀ v x, KeptAsRead f refs v → KeptAsRead f refs (g x v)) (stages : List (Nat → K)) {v : Values K} (h : KeptAsRead f refs v) :
    KeptAsRead f refs (stages.foldl (fun v x => g x v) v) := by
  induction stages generalizing v with
  | nil => exact h
  | cons x xs ih => exact ih (hg v x h)

/-- `update_apot_table` makes the values those of the vector. -/
theorem updateApot_fitted {f : File K} {refs : List Ref} (hr : Readable f refs) {v : Values K} (hv : KeptAsRead f refs v) (x : Nat → K)
    (hx : ∀ n, ¬ FreePlace f n → x n = (Finish.start f).table n) : Fitted f refs x (updateApot f refs x v) := by
  have hfree : ∀ n i j p, (cells f)[n]? = some (some (i, j, p)) → ¬ IsRef refs i j → updateFree f x v i j = x n := by
    intro n i j p hp hi
    unfold updateFree
    by_cases hf : p.fixed = true
    · have hnone : ∀ (n : Nat) (w : K), (cells f)[n]? ≠ some (some (i, j, (⟨w, false⟩ : Par K))) := by
        intro n' w hw
        have := cell_unique f hr.secs hp hw
        subst this
        rw [hp] at hw
        simp only [Option.some.injEq, Prod.mk.injEq, true_and] at hw
        rw [hw] at hf
        cases hf
      rw [fold_none _ (fun s : Slot => s.pot) (fun s => s.par) (fun s => x s.pos), hv i j hnone hi, readValues_cells f hr.secs hp, hx n,
        start_table f hr.fits hp]
      · rintro ⟨i', j', w, hw⟩
        rw [hp] at hw
        simp only [Option.some.injEq, Prod.mk.injEq] at hw
        rw [hw.2.2] at hf
        cases hf
      · rintro ⟨n', i', j'⟩ hs ⟨e1, e2⟩
        simp only at e1 e2
        subst e1 e2
        obtain ⟨w, hw⟩ := (C70_index_partial f hr.chem n' i' j').1 hs
        exact hnone n' w hw
    · refine fold_all _ (fun s : Slot => s.pot) (fun s => s.par) (fun s => x s.pos) v i j (x n) ?_ (Or.inl ?_)
      · rintro ⟨n', i', j'⟩ hs e1 e2
        simp only at e1 e2 ⊢
        subst e1 e2
        obtain ⟨w, hw⟩ := (C70_index_partial f hr.chem n' i' j').1 hs
        rw [cell_unique f hr.secs hp hw]
      · refine ⟨⟨n, i, j⟩, (C70_index_partial f hr.chem n i j).2 ⟨p.val, ?_⟩, rfl, rfl⟩
        rw [hp]
        obtain ⟨w, b⟩ := p
        cases b
        · rfl
        · exact absurd rfl hf
  constructor
  · intro n i j p hp hi
    unfold updateApot
    split
    · rw [fold_none _ (fun r : Ref => r.pot) (fun r => r.par) (fun r => x (globalIdx f + r.glob))]
      · exact hfree n i j p hp hi
      · intro r hm e
        exact hi ⟨r, hm, e⟩
    · exact hfree n i j p hp hi
  · intro r hm n p hp
    have hne : refs ≠ [] := List.ne_nil_of_mem hm
    have hgl := hr.refs.known r hm
    have hhave : haveGlobals f = true := by
      unfold haveGlobals
      rw [hr.refs.used hne]
      cases h : f.globals with
      | nil => rw [h] at hgl; simp at hgl
      | cons => rfl
    obtain ⟨p', hp'⟩ := global_place f hr.fits hr.chem (hr.refs.noElstat hne) (hr.refs.used hne) r.glob hgl
    have hn := cell_unique f hr.secs hp hp'
    unfold updateApot
    simp only [hhave, if_true]
    refine fold_all _ (fun r : Ref => r.pot) (fun r => r.par) (fun r => x (globalIdx f + r.glob)) _ _ _ (x n) ?_
      (Or.inl ⟨r, hm, rfl, rfl⟩)
    intro r' hm' e1 e2
    rw [hr.refs.one r' hm' r hm e1 e2, hn]

theorem start_kept (f : File K) (refs : List Ref) : KeptAsRead f refs (Finish.start f).values := fun _ _ _ _ => rfl

/-! ### The fit -/

/-- **C78, Powell.** If the error was not small from the beginning, the values are those of the final vector, whose error is not larger
than at the beginning of the Powell run; parameters which are not free keep their values.  The values before may be those of any earlier
point (`KeptAsRead`). -/
theorem C78_powell [NeZero N] (f : File K) (refs : List Ref) (hr : Readable f refs) (P : Powell.Env K Nat N M)
    (hi : ∀ i, FreePlace f (P.idx i)) (hs : P.rescale = none) (fuel : Nat) (stages : List (Nat → K)) (d d' : Data K)
    (hv : KeptAsRead f refs d.values) (hd : ∀ n, ¬ FreePlace f n → d.table n = (Finish.start f).table n)
    (h : powell f refs P fuel stages d = .ok d') (hne : ¬ (P.obj d.table).1 < Powell.verySmall) :
    Fitted f refs d'.table d'.values ∧ (P.obj d'.table).1 ≤ (P.obj d.table).1 ∧
      ∀ n, ¬ FreePlace f n → d'.table n = (Finish.start f).table n := by
  unfold powell at h
  split at h
  · cases h
  · next s hrun =>
    rw [if_neg hne] at h
    cases h
    have h1 := C28_monotone P fuel d.table s (by intro g hg; rw [hs] at hg; cases hg) hrun
    have h2 : ∀ n, ¬ FreePlace f n → s.xi n = (Finish.start f).table n := by
      intro n hn
      rw [C28_free P fuel d.table s hs hrun n, hd n hn]
      intro i e
      exact hn (e ▸ hi i)
    refine ⟨?_, h1.2.2, h2⟩
    exact updateApot_fitted hr (stages_kept _ (fun v x hk => updateApot_kept hr.chem hk x) stages hv) _ h2

/-- **C78, annealing.** Annealing leaves a vector not worse than the start, with the parameters that are not free as before, and touches
no other values than those of free parameters and of references. -/
theorem C78_anneal (f : File K) (refs : List Ref) (hr : Readable f refs) (temp : Bool) (A : Annealing.Env K Nat σ N)
    (ho : OneOnly A) (hfree : FreeOnly A) (hi : ∀ i, FreePlace f (A.idx i)) (pick : σ → σ × Fin N) (t : Annealing.Temp K) (rng : σ)
    (stages : List (Nat → K)) (d' : Data K) (h : anneal f refs temp A pick t rng stages (Finish.start f) = some d') :
    KeptAsRead f refs d'.values ∧ A.obj d'.table ≤ A.obj (Finish.start f).table ∧
      ∀ n, ¬ FreePlace f n → d'.table n = (Finish.start f).table n := by
  unfold anneal at h
  obtain ⟨r, hrun, rfl⟩ := Option.map_eq_some_iff.1 h
  have hb := C29_best A ho pick t rng _ r hrun
  refine ⟨?_, hb.1 ▸ hb.2.1, ?_⟩
  · simp only
    split
    · exact updateApot_kept hr.chem
        (stages_kept _ (fun v x hk => updateApot_kept hr.chem hk x) stages (start_kept f refs)) _
    · exact start_kept f refs
  · intro n hn
    refine hb.2.2.2.2 hfree n ?_
    intro i e
    exact hn (e ▸ hi i)

/-- **C78.** Annealing, then Powell: unless the error is below `VERY_SMALL` when Powell begins, the values written at the end are those
of the final vector, its error is not larger than at the start of the fit, and parameters which are not free are as they were read. -/
theorem C78_partial [NeZero N] {N' : Nat} (f : File K) (refs : List Ref) (hr : Readable f refs) (temp : Bool)
    (A : Annealing.Env K Nat σ N') (P : Powell.Env K Nat N M) (hobj : ∀ x, A.obj x = (P.obj x).1)
    (ho : OneOnly A) (hfree : FreeOnly A) (hA : ∀ i, FreePlace f (A.idx i)) (hP : ∀ i, FreePlace f (P.idx i)) (hs : P.rescale = none)
    (pick : σ → σ × Fin N') (t : Annealing.Temp K) (rng : σ) (stages stages' : List (Nat → K)) (fuel : Nat) (d d' : Data K)
    (h : anneal f refs temp A pick t rng stages (Finish.start f) = some d) (h' : powell f refs P fuel stages' d = .ok d')
    (hne : ¬ (P.obj d.table).1 < Powell.verySmall) :
    Fitted f refs d'.table d'.values ∧ (P.obj d'.table).1 ≤ (P.obj (Finish.start f).table).1 ∧
      ∀ n, ¬ FreePlace f n → d'.table n = (Finish.start f).table n := by
  have h1 := C78_anneal f refs hr temp A ho hfree hA pick t rng stages d h
  have h2 := C78_powell f refs hr P hP hs fuel stages' d d' h1.1 h1.2.2 h' hne
  refine ⟨h2.1, h2.2.1.trans ?_, h2.2.2⟩
  rw [← hobj, ← hobj]
  exact h1.2.1

/-- **C78, temporary file.** With a temporary file, annealing itself leaves the values of its final vector, so they are right even if the
Powell run ends at once. -/
theorem C78_temp_partial [NeZero N] {N' : Nat} (f : File K) (refs : List Ref) (hr : Readable f refs)
    (A : Annealing.Env K Nat σ N') (P : Powell.Env K Nat N M)
    (ho : OneOnly A) (hfree : FreeOnly A) (hA : ∀ i, FreePlace f (A.idx i)) (hP : ∀ i, FreePlace f (P.idx i)) (hs : P.rescale = none)
    (pick : σ → σ × Fin N') (t : Annealing.Temp K) (rng : σ) (stages stages' : List (Nat → K)) (fuel : Nat) (d d' : Data K)
    (hseen : (A.run pick t rng (Finish.start f).table).any (fun r => !r.seen.isEmpty) = true)
    (h : anneal f refs true A pick t rng stages (Finish.start f) = some d) (h' : powell f refs P fuel stages' d = .ok d') :
    Fitted f refs d'.table d'.values := by
  have h1 := C78_anneal f refs hr true A ho hfree hA pick t rng stages d h
  by_cases hne : (P.obj d.table).1 < Powell.verySmall
  · have hd : d' = d := by
      unfold powell at h'
      unfold Powell.Env.run at h'
      simp only [if_pos hne] at h'
      cases h'
      rfl
    subst hd
    unfold anneal at h
    obtain ⟨r, hrun, rfl⟩ := Option.map_eq_some_iff.1 h
    rw [hrun] at hseen
    simp only [Option.any_some] at hseen
    have hb := C29_best A ho pick t rng _ r hrun
    simp only [hseen, Bool.and_self, if_true]
    refine updateApot_fitted hr (stages_kept _ (fun v x hk => updateApot_kept hr.chem hk x) stages (start_kept f refs)) _ ?_
    exact h1.2.2
  · exact (C78_powell f refs hr P hP hs fuel stages' d d' h1.1 h1.2.2 h' hne).1

/-- **C78, differential evolution**, then Powell; `x` is the best vector found (see C31, C32). -/
theorem C78_evolve_partial [NeZero N] (f : File K) (refs : List Ref) (hr : Readable f refs) (temp : Bool) (P : Powell.Env K Nat N M)
    (hP : ∀ i, FreePlace f (P.idx i)) (hs : P.rescale = none) (x : Nat → K) (hx : ∀ n, ¬ FreePlace f n → x n = (Finish.start f).table n)
    (stages stages' : List (Nat → K)) (fuel : Nat) (d' : Data K)
    (h' : powell f refs P fuel stages' (evolve f temp x stages (Finish.start f)) = .ok d')
    (hne : ¬ (P.obj x).1 < Powell.verySmall) :
    Fitted f refs d'.table d'.values ∧ (P.obj d'.table).1 ≤ (P.obj x).1 := by
  have hk : KeptAsRead f refs (evolve f temp x stages (Finish.start f)).values := by
    unfold evolve
    simp only
    split
    · exact stages_kept _ (fun v x hk => updateFree_kept hr.chem hk x) stages (start_kept f refs)
    · exact start_kept f refs
  have h2 := C78_powell f refs hr P hP hs fuel stages' _ d' hk hx h' hne
  exact ⟨h2.1, h2.2.1⟩

/-- **C78, no optimisation.** What was read is written. -/
theorem C78_read (f : File K) (hf : Spec.Fits f) (h5 : ∀ d secs, f.extra = .elstat d secs → secs.length ≤ 5) (n i j : Nat) (p : Par K)
    (h : (cells f)[n]? = some (some (i, j, p))) :
    (Finish.start f).values i j = p.val ∧ (Finish.start f).table n = p.val :=
  ⟨readValues_cells f h5 h, start_table f hf h⟩

/-- **C78, violated**: if the error is below `VERY_SMALL` when Powell begins, then the values are those from before: without a temporary
file those of the start, whatever the first optimiser has found. -/
theorem C78_violated [NeZero N] {N' : Nat} (f : File K) (refs : List Ref) (A : Annealing.Env K Nat σ N') (P : Powell.Env K Nat N M)
    (pick : σ → σ × Fin N') (t : Annealing.Temp K) (rng : σ) (stages stages' : List (Nat → K)) (fuel : Nat) (d : Data K)
    (h : anneal f refs false A pick t rng stages (Finish.start f) = some d) (hlt : (P.obj d.table).1 < Powell.verySmall) :
    powell f refs P fuel stages' d = .ok ⟨d.table, readValues f⟩ := by
  unfold anneal at h
  obtain ⟨r, hrun, rfl⟩ := Option.map_eq_some_iff.1 h
  unfold powell Powell.Env.run
  simp only [if_pos hlt, Bool.false_and, Bool.false_eq_true, if_false]
  rfl

theorem C78_evolve_violated [NeZero N] (f : File K) (refs : List Ref) (P : Powell.Env K Nat N M) (x : Nat → K)
    (stages stages' : List (Nat → K)) (fuel : Nat) (hlt : (P.obj x).1 < Powell.verySmall) :
    powell f refs P fuel stages' (evolve f false x stages (Finish.start f)) = .ok ⟨x, readValues f⟩ := by
  unfold powell Powell.Env.run evolve
  simp only [if_pos hlt]
  rfl

/-! ### Reading the file again -/

theorem zipIdx_map_zipIdx {α β : Type*} (l : List α) (g : α × Nat → β) :
    (l.zipIdx.map g).zipIdx = l.zipIdx.map fun a => (g a, a.2) := by
  apply List.ext_getElem?
  intro n
  simp only [List.getElem?_zipIdx, List.getElem?_map, Option.map_map]
  cases l[n]? <;> simp

/-- A cell with the value of `v`. -/
def newCell (v : Values K) (c : Cell K) : Cell K := c.map fun c => (c.1, c.2.1, ⟨v c.1 c.2.1, c.2.2.fixed⟩)

theorem cellsOf_written (v : Values K) (i : Nat) (frozen : Bool) (ps : List (Par K)) :
    cellsOf i frozen (withValues (v i) ps) = (cellsOf i frozen ps).map (newCell v) := by
  unfold cellsOf withValues
  rw [zipIdx_map_zipIdx, List.map_map, List.map_map]
  rfl

theorem globalPot_written (f : File K) (v : Values K) : globalPot (written f v) = globalPot f := by
  unfold globalPot written
  simp only [List.length_map, List.length_zipIdx]
  cases f.extra <;> rfl

theorem cells_written (f : File K) (v : Values K) : cells (written f v) = (cells f).map (newCell v) := by
  have h1 : cellsFns (written f v).fns = (cellsFns f.fns).map (newCell v) := by
    unfold cellsFns written
    simp only
    rw [zipIdx_map_zipIdx, List.flatMap_map, List.map_flatMap]
    congr 1
    funext gi
    simp only [List.map_append, cellsOf_written]
    rfl
  have h2 : cellsExtra (written f v).fns.length (written f v).extra = (cellsExtra f.fns.length f.extra).map (newCell v) := by
    have hl : (written f v).fns.length = f.fns.length := by simp [written]
    rw [hl]
    unfold written
    simp only
    cases f.extra with
    | none => rfl
    | chem ps => exact cellsOf_written v _ _ _
    | elstat d secs =>
      simp only [cellsExtra]
      rw [zipIdx_map_zipIdx, List.flatMap_map, List.map_flatMap]
      congr 1
      funext gi
      exact cellsOf_written v _ _ _
  have h3 : cellsGlobals (written f v) = (cellsGlobals f).map (newCell v) := by
    unfold cellsGlobals
    rw [globalPot_written]
    show (if f.used = true then cellsOf (globalPot f) false (withValues (v (globalPot f)) f.globals) else []) = _
    split_ifs
    · exact cellsOf_written v _ _ _
    · rfl
  unfold cells
  rw [h1, h2, h3, List.map_append, List.map_append]

theorem fits_written (f : File K) (v : Values K) (hf : Spec.Fits f) : Spec.Fits (written f v) := by
  unfold Spec.Fits at hf ⊢
  unfold written
  cases hx : f.extra with
  | none => trivial
  | chem ps =>
    rw [hx] at hf
    simpa [withValues] using hf
  | elstat d secs =>
    rw [hx] at hf
    simp only at hf ⊢
    refine ⟨hf.1, ?_⟩
    rw [← hf.2, List.map_map]
    have : (List.length ∘ fun si : List (Par K) × Nat => withValues (v (f.fns.length + si.2)) si.1) = List.length ∘ Prod.fst := by
      funext si
      simp [withValues]
    rw [this, ← List.map_map, List.zipIdx_map_fst]

/-- **C78, reading again.** If the values are those of the vector `x`, then reading the written file gives this vector: every parameter
has its entry of `x`, and one that stands for a global parameter has the entry of the latter.  (Decimals are taken as exact.) -/
theorem C78_reread (f : File K) (refs : List Ref) (hr : Readable f refs) (x : Nat → K) (v : Values K) (hv : Fitted f refs x v)
    (n i j : Nat) (p : Par K) (h : (cells f)[n]? = some (some (i, j, p))) :
    (¬ IsRef refs i j → entry (written f v) n = some (x n)) ∧
    ∀ r ∈ refs, r.pot = i → r.par = j → ∃ m q, (cells f)[m]? = some (some (globalPot f, r.glob, q)) ∧
      entry (written f v) n = some (x m) ∧ entry (written f v) m = some (x m) := by
  have key : ∀ n i j p, (cells f)[n]? = some (some (i, j, p)) → entry (written f v) n = some (v i j) := by
    intro n i j p h
    have hf := fits_written f v hr.fits
    have hl := cells_length_le _ hf
    have hc : (cells (written f v))[n]? = some (some (i, j, ⟨v i j, p.fixed⟩)) := by
      rw [cells_written, List.getElem?_map, h]
      rfl
    have := (List.getElem?_eq_some_iff.1 hc).1
    rw [C70_table _ hf n, if_pos (by omega), hc]
  refine ⟨fun hi => ?_, ?_⟩
  · rw [key n i j p h, hv.own n i j p h hi]
  · rintro r hm rfl rfl
    have hne : refs ≠ [] := List.ne_nil_of_mem hm
    obtain ⟨q, hq⟩ := global_place f hr.fits hr.chem (hr.refs.noElstat hne) (hr.refs.used hne) r.glob (hr.refs.known r hm)
    refine ⟨_, q, hq, ?_, ?_⟩
    · rw [key _ _ _ _ h, hv.glob r hm _ _ hq]
    · rw [key _ _ _ _ hq, hv.own _ _ _ _ hq]
      rintro ⟨r', hm', e, -⟩
      have := hr.refs.pot r' hm'
      have hge : f.fns.length ≤ globalPot f := by
        unfold globalPot
        cases f.extra <;> simp
      omega

/-! ### Examples -/

/-- Two potentials: the first has a free and a fixed parameter, the second a free one and one that stands for the global parameter. -/
def endFile : File ℚ where
  ntypes := 1
  fns := [⟨false, [⟨1 / 25, false⟩, ⟨3, true⟩]⟩, ⟨false, [⟨2, false⟩, ⟨8, true⟩]⟩]
  extra := .none
  globals := [⟨8, false⟩]
  used := true

def endRefs : List Ref := [⟨0, 1, 1⟩]

theorem endCells : cells endFile = [none, none, some (0, 0, ⟨1 / 25, false⟩), some (0, 1, ⟨3, true⟩), none, none,
    some (1, 0, ⟨2, false⟩), some (1, 1, ⟨8, true⟩), some (2, 0, ⟨8, false⟩)] := by decide +kernel

theorem endReadable : Readable endFile endRefs where
  fits := trivial
  chem := trivial
  secs := by intro d secs h; cases h
  refs :=
    { used := fun _ => rfl
      pot := by decide
      fixed := by
        intro r hr n v
        rw [endCells]
        simp only [endRefs, List.mem_singleton] at hr
        subst hr
        match n with
        | 0 | 1 | 2 | 3 | 4 | 5 | 6 | 7 | 8 | _ + 9 => simp
      one := by
        intro r hr r' hr' _ _
        simp only [endRefs, List.mem_singleton] at hr hr'
        rw [hr, hr']
      known := by decide
      noElstat := by intro _ d secs h; cases h }

/-- Annealing of the first parameter with objective `x²`: with the random number 0.3 the first step goes from 0.04 to 0; the flag file is
found at the first look. -/
def endAnneal : Annealing.Env ℚ Nat Nat 1 where
  obj := fun x => x 2 * x 2
  idx := fun _ => 2
  move := fun s n xi v => Annealing.apotMove (fun s : Nat => (s + 1, (3 / 10 : ℚ))) (fun _ => 2) (fun _ => (-1, 1)) s n xi v
  apot := true
  draw := fun s => (s + 1, 3 / 10)
  exp := fun x => 1 + x
  log := fun x => x
  flag := fun _ => true

/-- Powell minimisation of the square of the first parameter minus `c`. -/
def endPowell (c : ℚ) : Powell.Env ℚ Nat 1 1 where
  obj := fun x => ((x 2 - c) ^ 2, fun _ => x 2 - c)
  idx := fun _ => 2
  bounds := none
  maxch := fun _ => none
  solve := fun _ _ p => ⟨0, p, 0, 0⟩
  sqrt := fun x => x
  flag := fun _ => true
  dEps := 4
  rescale := none
  junk := fun _ => 0

example : FreePlace endFile 2 := ⟨0, 0, 1 / 25, by rw [endCells]; rfl⟩
example : OneOnly endAnneal ∧ FreeOnly endAnneal := C29_apot endAnneal (fun _ => (-1, 1)) rfl

/-- A run in which Powell has something to do: the value written is that of the vector, and has changed. -/
example : (match anneal endFile endRefs false endAnneal (fun s => (s, 0)) (.given 1) 0 [] (Finish.start endFile) with
    | none => false
    | some d => match powell endFile endRefs (endPowell 1) 3 [] d with
      | .error _ => false
      | .ok d' => decide (¬ ((endPowell 1).obj d.table).1 < Powell.verySmall ∧ d'.values 0 0 = d'.table 2 ∧ d'.values 0 0 ≠ 1 / 25 ∧
          d'.values 0 1 = 3 ∧ d'.values 1 1 = d'.table 8)) = true := by decide +kernel

/-- **C78, violated: example.** Annealing finds the perfect fit 0; the file is written with the start value 0.04. -/
theorem C78_perfect_violated :
    ∃ d d', anneal endFile endRefs false endAnneal (fun s => (s, 0)) (.given 1) 0 [] (Finish.start endFile) = some d ∧
      powell endFile endRefs (endPowell 0) 3 [] d = .ok d' ∧ d'.table 2 = 0 ∧ d'.values 0 0 = 1 / 25 ∧
      entry (written endFile d'.values) 2 = some (1 / 25) ∧ ¬ Fitted endFile endRefs d'.table d'.values := by
  have h : (anneal endFile endRefs false endAnneal (fun s => (s, 0)) (.given 1) 0 [] (Finish.start endFile)).any
      (fun d => decide (d.table 2 = 0)) = true := by decide +kernel
  cases hr : anneal endFile endRefs false endAnneal (fun s => (s, 0)) (.given 1) 0 [] (Finish.start endFile) with
  | none => rw [hr] at h; cases h
  | some d =>
    rw [hr] at h
    simp only [Option.any_some, decide_eq_true_eq] at h
    have hlt : ((endPowell 0).obj d.table).1 < Powell.verySmall := by
      simp only [endPowell, h, Powell.verySmall]
      norm_num
    refine ⟨d, _, rfl, C78_violated endFile endRefs endAnneal (endPowell 0) _ _ _ [] [] 3 d hr hlt, h, ?_, ?_, ?_⟩
    · show readValues endFile 0 0 = 1 / 25
      decide +kernel
    · show entry (written endFile (readValues endFile)) 2 = some (1 / 25)
      decide +kernel
    intro hf
    have h1 := hf.own 2 0 0 ⟨1 / 25, false⟩ (by rw [endCells]; rfl) (by simp [IsRef, endRefs])
    simp only [h] at h1
    revert h1
    decide +kernel

end Verif.Props
