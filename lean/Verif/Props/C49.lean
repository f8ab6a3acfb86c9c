/-
C49  Stillinger-Weber lambda values: pointers of the triples of types.
-/
import Verif.Model.Pointers
import Verif.Props.C01
import Mathlib.Tactic.Linarith
import Mathlib.Tactic.LinearCombination
import Mathlib.Data.List.Induction
import Mathlib.Algebra.Ring.Int.Parity

namespace Verif.Props

open Verif.PairIndex Verif.Pointers Verif.Spec

/-! ### Specification -/

/-- The potential file lists the values of lambda by first type, and for each of them by unordered pair in the order of pair
potentials; number of the value for `(i, j, k)`. -/
def lambdaNumber (n i j k : Nat) : Nat := i * (n * (n + 1) / 2) + pairCol n j k

/-- First parameter of the potential `lambda` in the parameter vector: it follows `n(n+1)/2` potentials with 6 and as many with 2
parameters; each potential has two entries more, in front of its parameters. -/
def lambdaFirst (n : Nat) : Nat := 2 + (6 + 2) * (n * (n + 1) / 2) + (2 + 2) * (n * (n + 1) / 2)

/-! ### Pointers without global parameters -/

theorem advance_eq (step m index : Nat) : advance step m index = index + step * m := by
  induction m generalizing index with
  | zero => rfl
  | succ m ih => rw [advance, ih]; ring

theorem lambdaBase_eq (n : Nat) : lambdaBase n = lambdaFirst n := by
  unfold lambdaBase lambdaFirst
  rw [advance_eq, advance_eq]
  rfl

theorem triples_eq (n : Nat) : triples n = (List.range n).flatMap fun i => (filePairs n).map fun p => (i, p.1, p.2) := by
  unfold triples filePairs
  congr 1
  funext i
  rw [List.map_flatMap]
  congr 1
  funext j
  rw [List.map_map]
  rfl

theorem filePairs_get (n j k : Nat) (hjk : j ≤ k) (hk : k < n) : (filePairs n)[pairCol n j k]? = some (j, k) := by
  have hmem := mem_filePairs.2 ⟨hjk, hk⟩
  obtain ⟨p, hp⟩ := List.getElem?_of_mem hmem
  have h1 : ((filePairs n).map fun p => pairCol n p.1 p.2)[p]? = some (pairCol n j k) := by
    rw [List.getElem?_map, hp]
    rfl
  rw [C01_file_order] at h1
  obtain ⟨h2, h3⟩ := List.getElem?_eq_some_iff.1 h1
  rw [List.getElem_range] at h3
  rw [← h3]
  exact hp

theorem filePairs_length (n : Nat) : (filePairs n).length = n * (n + 1) / 2 := by
  have := congrArg List.length (C01_file_order n)
  simpa using this

theorem flatMap_const_get {α β : Type} (l : List α) (f : α → List β) (m : Nat) (hm : ∀ a ∈ l, (f a).length = m) (i q : Nat) (a : α)
    (b : β) (ha : l[i]? = some a) (hb : (f a)[q]? = some b) : (l.flatMap f)[i * m + q]? = some b := by
  induction l generalizing i with
  | nil => simp at ha
  | cons c l ih =>
    rw [List.flatMap_cons]
    cases i with
    | zero =>
      simp only [List.getElem?_cons_zero, Option.some.injEq] at ha
      subst ha
      rw [Nat.zero_mul, Nat.zero_add, List.getElem?_append_left (List.getElem?_eq_some_iff.1 hb).1, hb]
    | succ i =>
      simp only [List.getElem?_cons_succ] at ha
      have hc := hm c (by simp)
      rw [List.getElem?_append_right (by rw [hc]; nlinarith), hc,
        show (i + 1) * m + q - m = i * m + q by rw [Nat.add_mul, Nat.one_mul]; omega]
      exact ih (fun a h => hm a (by simp [h])) i ha

theorem triples_get (n i j k : Nat) (hi : i < n) (hjk : j ≤ k) (hk : k < n) :
    (triples n)[lambdaNumber n i j k]? = some (i, j, k) := by
  rw [triples_eq]
  refine flatMap_const_get _ _ _ ?_ i _ i _ (by simp [hi]) ?_
  · intro a _
    rw [List.length_map, filePairs_length]
  · rw [List.getElem?_map, filePairs_get n j k hjk hk]
    rfl

theorem triples_le (n : Nat) : ∀ t ∈ triples n, t.2.1 ≤ t.2.2 := by
  intro t ht
  rw [triples_eq] at ht
  obtain ⟨i, -, h⟩ := List.mem_flatMap.1 ht
  obtain ⟨p, hp, rfl⟩ := List.mem_map.1 h
  exact (mem_filePairs.1 hp).1

theorem triples_mem (n : Nat) : ∀ t ∈ triples n, t.1 < n ∧ t.2.2 < n := by
  intro t ht
  rw [triples_eq] at ht
  obtain ⟨i, hi, h⟩ := List.mem_flatMap.1 ht
  obtain ⟨p, hp, rfl⟩ := List.mem_map.1 h
  exact ⟨List.mem_range.1 hi, (mem_filePairs.1 hp).2⟩

theorem filePairs_nodup (n : Nat) : (filePairs n).Nodup := by
  have : ((filePairs n).map (fun p => pairCol n p.1 p.2)).Nodup := by
    rw [C01_file_order]; exact List.nodup_range
  exact List.Nodup.of_map _ this

theorem triples_nodup (n : Nat) : (triples n).Nodup := by
  rw [triples_eq, List.nodup_flatMap]
  refine ⟨fun i _ => ?_, ?_⟩
  · refine (filePairs_nodup n).map ?_
    intro a b h
    simpa [Prod.ext_iff] using h
  · refine List.Nodup.pairwise_of_forall_ne List.nodup_range ?_
    intro a _ b _ hab t h1 h2
    obtain ⟨p, -, rfl⟩ := List.mem_map.1 h1
    obtain ⟨q, -, h⟩ := List.mem_map.1 h2
    simp only [Prod.mk.injEq] at h
    exact hab h.1.symm

theorem put_apply (lam : Lambda) (i j k a i' j' k' : Nat) :
    put lam i j k a i' j' k' = if i' = i ∧ j' = j ∧ k' = k then some a else lam i' j' k' := rfl

theorem fold_set (l : List (Nat × Nat × Nat)) (hn : l.Nodup) (hle : ∀ t ∈ l, t.2.1 ≤ t.2.2) (b : Nat) (lam : Lambda) :
    (l.foldl setOne (b, lam)).1 = b + l.length ∧
    ∀ p i j k, l[p]? = some (i, j, k) → (l.foldl setOne (b, lam)).2 i j k = some (b + p) ∧
      (l.foldl setOne (b, lam)).2 i k j = some (b + p) := by
  induction l using List.reverseRecOn with
  | nil => exact ⟨rfl, fun p i j k h => by simp at h⟩
  | append_singleton l t ih =>
    obtain ⟨a, c, d⟩ := t
    rw [List.nodup_append] at hn
    obtain ⟨ih1, ih2⟩ := ih hn.1 fun t ht => hle t (by simp [ht])
    rw [List.foldl_append, List.foldl_cons, List.foldl_nil]
    refine ⟨by simp only [setOne, ih1, List.length_append, List.length_singleton]; omega, ?_⟩
    intro p i j k hp
    by_cases hpl : p < l.length
    · rw [List.getElem?_append_left hpl] at hp
      obtain ⟨h1, h2⟩ := ih2 p i j k hp
      have hne : (i, j, k) ≠ (a, c, d) := hn.2.2 _ (List.mem_of_getElem? hp) _ (by simp)
      have h3 := hle (i, j, k) (by simp [List.mem_of_getElem? hp])
      have h4 := hle (a, c, d) (by simp)
      simp only at h3 h4
      have hne' : ¬(i = a ∧ j = c ∧ k = d) := fun h => hne (by simp [h])
      simp only [setOne, put_apply, h1, h2]
      constructor
      · rw [if_neg, if_neg hne']
        rintro ⟨e1, e2, e3⟩
        exact hne' ⟨e1, by omega, by omega⟩
      · rw [if_neg, if_neg]
        · rintro ⟨e1, e2, e3⟩
          exact hne' ⟨e1, by omega, by omega⟩
        · rintro ⟨e1, e2, e3⟩
          exact hne' ⟨e1, by omega, by omega⟩
    · have hp' : p = l.length := by
        have := (List.getElem?_eq_some_iff.1 hp).1
        rw [List.length_append, List.length_singleton] at this
        omega
      subst hp'
      rw [List.getElem?_append_right le_rfl, Nat.sub_self] at hp
      simp only [List.getElem?_cons_zero, Option.some.injEq, Prod.mk.injEq] at hp
      obtain ⟨rfl, rfl, rfl⟩ := hp
      simp only [setOne, put_apply, ih1]
      constructor <;> simp

/-- **C49, pointers before global parameters.** For every triple of types, in both orders of the last two, the pointer is that of the
lambda value of this triple. -/
theorem C49_base (n i j k : Nat) (hi : i < n) (hj : j < n) (hk : k < n) :
    initLambda n i j k = some (lambdaFirst n + lambdaNumber n i j k) := by
  unfold initLambda
  rw [lambdaBase_eq]
  have h := (fold_set (triples n) (triples_nodup n) (triples_le n) (lambdaFirst n) (fun _ _ _ => none)).2
  rcases Nat.le_total j k with hjk | hjk
  · exact (h _ i j k (triples_get n i j k hi hjk hk)).1
  · rw [show lambdaNumber n i j k = lambdaNumber n i k j by unfold lambdaNumber; rw [pairCol_comm]]
    exact (h _ i k j (triples_get n i k j hi hjk hj)).2

example : initLambda 2 1 1 0 = some (2 + 24 + 12 + 3 + 1) := C49_base 2 1 1 0 (by decide) (by decide) (by decide)

/-! ### Global parameters -/

theorem paircol_pos {n : Nat} (h : 1 ≤ n) : 1 ≤ paircol n := by
  have := paircol_two n
  nlinarith

theorem minVal_two (k : Nat) (n : Nat) : 2 * ((k : Int) * n - (k : Int) * (k - 1) / 2) = (k : Int) * (2 * n + 1 - k) := by
  have h : (2 : Int) ∣ (k : Int) * (k - 1) := by
    have := Int.even_mul_succ_self ((k : Int) - 1)
    rw [sub_add_cancel, mul_comm] at this
    exact this.two_dvd
  have := Int.mul_ediv_cancel' h
  linear_combination -this

/-- The last pair is found at once. -/
theorem search_last (n fuel : Nat) (hn : 1 ≤ n) : search n (paircol n - 1) (fuel + 1) (n - 1) = some (((n - 1 : Nat) : Int), ((n - 1 : Nat) : Int)) := by
  have h1 := paircol_two n
  have h2 := minVal_two (n - 1) n
  have h3 := paircol_pos hn
  rw [search]
  have e : (((n - 1 : Nat) : Int) * n - ((n - 1 : Nat) : Int) * (((n - 1 : Nat) : Int) - 1) / 2) = ((paircol n - 1 : Nat) : Int) := by
    have h4 : ((n - 1 : Nat) : Int) = n - 1 := by omega
    have h5 : ((paircol n - 1 : Nat) : Int) = paircol n - 1 := by omega
    have h6 : (2 : Int) * paircol n = n * (n + 1) := by exact_mod_cast h1
    rw [h4] at h2 ⊢
    rw [h5]
    nlinarith
  rw [e, if_pos le_rfl]
  simp

/-- For every other pair the loop runs on to an index outside. -/
theorem search_other (n temp : Nat) (hn : 1 ≤ n) (ht : temp + 1 < paircol n) :
    ∃ N, ∀ fuel, N ≤ fuel → ∃ k : Nat, ∃ n3, n ≤ k ∧ search n temp fuel (n - 1) = some ((k : Int), n3) := by
  have h1 := paircol_two n
  -- the search from `k` on ends at the latest at `2 n + 1`
  have key : ∀ d k, k + d = 2 * n + 1 → n ≤ k → ∀ fuel, d + 1 ≤ fuel → ∃ k' : Nat, ∃ n3, n ≤ k' ∧
      search n temp fuel k = some ((k' : Int), n3) := by
    intro d
    induction d with
    | zero =>
      intro k hk hnk fuel hf
      obtain ⟨fuel, rfl⟩ : ∃ f, fuel = f + 1 := ⟨fuel - 1, by omega⟩
      have h2 := minVal_two k n
      have h3 : (k : Int) = 2 * n + 1 := by omega
      rw [search]
      rw [if_pos]
      · exact ⟨k, _, hnk, rfl⟩
      · have : (k : Int) * (2 * n + 1 - k) = 0 := by rw [h3]; ring
        omega
    | succ d ih =>
      intro k hk hnk fuel hf
      obtain ⟨fuel, rfl⟩ : ∃ f, fuel = f + 1 := ⟨fuel - 1, by omega⟩
      rw [search]
      split
      · exact ⟨k, _, hnk, rfl⟩
      · exact ih (k + 1) (by omega) (by omega) fuel (by omega)
  refine ⟨n + 3, fun fuel hf => ?_⟩
  obtain ⟨fuel, rfl⟩ : ∃ f, fuel = f + 1 := ⟨fuel - 1, by omega⟩
  rw [search]
  rw [if_neg]
  · rw [show n - 1 + 1 = n by omega]
    exact key (n + 1) n (by omega) le_rfl fuel (by omega)
  · have h2 := minVal_two (n - 1) n
    have h4 : ((n - 1 : Nat) : Int) = n - 1 := by omega
    have h6 : (2 : Int) * paircol n = n * (n + 1) := by exact_mod_cast h1
    rw [h4] at h2 ⊢
    nlinarith

/-- Value of a pointer with global parameters: the last one used for this triple, or the own value. -/
def wanted (n g : Nat) (us : List Use) (i j k : Nat) : Nat :=
  match us.reverse.find? (fun u => decide (u.pot = 2 * (n * (n + 1) / 2) ∧ u.par = lambdaNumber n i j k)) with
  | some u => g + u.glob
  | none => lambdaFirst n + lambdaNumber n i j k

/-- The lambda values which are treated correctly: those of the triples `(i, n-1, n-1)`. -/
def LastPair (n : Nat) (u : Use) : Prop := ∃ i < n, u.par = lambdaNumber n i (n - 1) (n - 1)

theorem pairCol_last' {n : Nat} (hn : 1 ≤ n) : pairCol n (n - 1) (n - 1) = paircol n - 1 := by
  obtain ⟨m, rfl⟩ : ∃ m, n = m + 1 := ⟨n - 1, by omega⟩
  have := pairCol_last (n := m)
  simp only [Nat.add_sub_cancel]
  omega

theorem lambdaNumber_div {n i j k : Nat} (hj : j < n) (hk : k < n) :
    lambdaNumber n i j k / paircol n = i ∧ lambdaNumber n i j k % paircol n = pairCol n j k := by
  have h := C01_in_range hj hk
  have hp : 0 < paircol n := paircol_pos (by omega)
  unfold lambdaNumber
  rw [show n * (n + 1) / 2 = paircol n from rfl] at h ⊢
  refine ⟨?_, ?_⟩
  · rw [Nat.mul_comm, Nat.mul_add_div hp, Nat.div_eq_of_lt h]
    omega
  · rw [Nat.mul_comm, Nat.mul_add_mod, Nat.mod_eq_of_lt h]

theorem setGlobals_append (n fuel g : Nat) (us : List Use) (u : Use) (lam lam' : Lambda)
    (h : setGlobals n fuel g us lam = .ok lam') :
    setGlobals n fuel g (us ++ [u]) lam = setGlobal n fuel g lam' u := by
  induction us generalizing lam with
  | nil =>
    simp only [setGlobals] at h
    cases h
    simp only [List.nil_append, setGlobals]
    split <;> simp_all
  | cons v us ih =>
    simp only [List.cons_append, setGlobals] at h ⊢
    cases hv : setGlobal n fuel g lam v with
    | ok l =>
      simp only [hv] at h ⊢
      exact ih l h
    | outside => simp [hv] at h
    | running => simp [hv] at h

/-- **C49, global parameters for the triples with the last pair of types.** If every global parameter used for a lambda value is used for
a triple `(i, n-1, n-1)`, then every pointer is as wanted. For `n = 1` these are all triples. Missing for the full claim: the
other triples, see `C49_violated`. -/
theorem C49_partial (n g fuel : Nat) (hn : 1 ≤ n) (us : List Use)
    (hus : ∀ u ∈ us, u.pot = 2 * (n * (n + 1) / 2) → LastPair n u) :
    ∃ lam, swLambda n (fuel + 1) g us = .ok lam ∧
      ∀ i j k, i < n → j < n → k < n → lam i j k = some (wanted n g us i j k) := by
  induction us using List.reverseRecOn with
  | nil => exact ⟨initLambda n, rfl, fun i j k hi hj hk => C49_base n i j k hi hj hk⟩
  | append_singleton us u ih =>
    obtain ⟨lam, h1, h2⟩ := ih fun u hu => hus u (by simp [hu])
    unfold swLambda at h1 ⊢
    rw [setGlobals_append n (fuel + 1) g us u _ _ h1]
    unfold setGlobal
    by_cases hp : u.pot = 2 * paircol n
    · rw [if_pos hp]
      obtain ⟨a, ha, hpar⟩ := hus u (by simp) hp
      have hl := lambdaNumber_div (n := n) (i := a) (j := n - 1) (k := n - 1) (by omega) (by omega)
      simp only [hpar, hl.1, hl.2, pairCol_last' hn, search_last n fuel hn]
      rw [if_pos (by omega)]
      refine ⟨_, rfl, ?_⟩
      intro i j k hi hj hk
      simp only [put_apply, Int.toNat_natCast, h2 i j k hi hj hk]
      unfold wanted
      rw [List.reverse_append, List.reverse_singleton, List.singleton_append, List.find?_cons]
      by_cases he : i = a ∧ j = n - 1 ∧ k = n - 1
      · rw [if_pos he]
        have : decide (u.pot = 2 * (n * (n + 1) / 2) ∧ u.par = lambdaNumber n i j k) = true := by
          rw [decide_eq_true_iff]
          refine ⟨hp, ?_⟩
          rw [hpar, he.1, he.2.1, he.2.2]
        rw [this]
      · rw [if_neg he, if_neg he]
        have : decide (u.pot = 2 * (n * (n + 1) / 2) ∧ u.par = lambdaNumber n i j k) = false := by
          rw [decide_eq_false_iff_not]
          rintro ⟨-, h3⟩
          have h4 := lambdaNumber_div (n := n) (i := i) hj hk
          rw [← h3, hpar] at h4
          have h5 : pairCol n j k = pairCol n (n - 1) (n - 1) := by rw [← h4.2, hl.2]
          have h6 := C01_injective hj hk (by omega : n - 1 < n) (by omega : n - 1 < n) h5
          exact he ⟨by rw [← h4.1, hl.1], by omega, by omega⟩
        rw [this]
    · rw [if_neg hp]
      refine ⟨lam, rfl, fun i j k hi hj hk => ?_⟩
      rw [h2 i j k hi hj hk]
      unfold wanted
      rw [List.reverse_append, List.reverse_singleton, List.singleton_append, List.find?_cons]
      have : decide (u.pot = 2 * (n * (n + 1) / 2) ∧ u.par = lambdaNumber n i j k) = false := by
        rw [decide_eq_false_iff_not]
        rintro ⟨h3, -⟩
        exact hp h3
      rw [this]

/-- Two types; global 3 is used for the value of `(1, 1, 1)`. -/
example : ∃ lam, swLambda 2 1 50 [⟨3, 6, 5⟩] = .ok lam ∧ lam 1 1 1 = some 53 ∧ lam 1 0 1 = some 42 := by
  obtain ⟨lam, h1, h2⟩ := C49_partial 2 50 0 (by decide) [⟨3, 6, 5⟩] (by
    intro u hu _
    simp only [List.mem_singleton] at hu
    subst hu
    exact ⟨1, by decide, by decide⟩)
  exact ⟨lam, h1, h2 1 1 1 (by decide) (by decide) (by decide), h2 1 0 1 (by decide) (by decide) (by decide)⟩

/-- **C49 is violated for every other triple.** A global parameter used for the lambda value of `(i, j, k)` with `(j, k)` other than the
last pair leads to an access outside of the array, whatever the number of types. -/
theorem C49_violated (n g i j k : Nat) (lam : Lambda) (hi : i < n) (hjk : j ≤ k) (hk : k < n) (hne : j ≠ n - 1) :
    ∃ N, ∀ fuel, N ≤ fuel → ∀ glob, setGlobal n fuel g lam ⟨glob, 2 * (n * (n + 1) / 2), lambdaNumber n i j k⟩ = .outside := by
  have hl := lambdaNumber_div (n := n) (i := i) (j := j) (k := k) (by omega) hk
  have hlt : pairCol n j k + 1 < paircol n := by
    have h1 := C01_in_range (n := n) (i := j) (j := k) (by omega) hk
    rw [show n * (n + 1) / 2 = paircol n from rfl] at h1
    have h2 : pairCol n j k ≠ paircol n - 1 := by
      intro h
      rw [← pairCol_last' (by omega : 1 ≤ n)] at h
      have := C01_injective (by omega : j < n) hk (by omega : n - 1 < n) (by omega : n - 1 < n) h
      omega
    omega
  obtain ⟨N, hN⟩ := search_other n (pairCol n j k) (by omega) hlt
  refine ⟨N, fun fuel hf glob => ?_⟩
  obtain ⟨k', n3, hk', hs⟩ := hN fuel hf
  unfold setGlobal
  rw [if_pos (show 2 * (n * (n + 1) / 2) = 2 * paircol n from rfl)]
  simp only [hl.1, hl.2, hs]
  rw [if_neg]
  omega

example : ∃ N, ∀ fuel, N ≤ fuel → ∀ glob, setGlobal 2 fuel 50 (initLambda 2) ⟨glob, 6, lambdaNumber 2 1 0 1⟩ = .outside :=
  C49_violated 2 50 1 0 1 (initLambda 2) (by decide) (by decide) (by decide) (by decide)

end Verif.Props
