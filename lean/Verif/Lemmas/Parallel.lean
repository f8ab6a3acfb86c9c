import Verif.Lemmas.Gather
import Verif.Spec.Parallel
import Verif.Props.C02

set_option linter.unusedSectionVars false

namespace Verif.Force

open Verif.Spec Verif.Mpi

theorem partition_exists {start len : Nat → Int} {P N : Nat} (h : IsPartition start len P N) {x : Nat}
    (hx : x < N) : ∃ r, r < P ∧ start r ≤ (x : Int) ∧ (x : Int) < start r + len r := by
  have : x ∈ owned start len P := by rw [h.2]; exact List.mem_range.2 hx
  unfold owned at this
  rw [List.mem_flatMap] at this
  obtain ⟨r, hr, hm⟩ := this
  have hr := List.mem_range.1 hr
  have := h.1 r hr
  rw [List.mem_range'_1] at hm
  exact ⟨r, hr, by omega, by omega⟩

theorem partition_unique {start len : Nat → Int} {P N : Nat} (h : IsPartition start len P N) {x : Nat}
    {r r' : Nat} (hr : r < P) (hr' : r' < P) (h1 : start r ≤ (x : Int)) (h2 : (x : Int) < start r + len r)
    (h3 : start r' ≤ (x : Int)) (h4 : (x : Int) < start r' + len r') : r = r' := by
  by_contra hne
  have hnd : (owned start len P).Nodup := by rw [h.2]; exact List.nodup_range
  unfold owned at hnd
  rw [List.nodup_flatMap] at hnd
  have hpw := hnd.2
  have p1 := h.1 r hr
  have p2 := h.1 r' hr'
  have key : ∀ a b, a < b → b < P → x ∈ List.range' (start a).toNat (len a).toNat →
      x ∈ List.range' (start b).toNat (len b).toNat → False := by
    intro a b hab hb ha hb'
    have := List.pairwise_iff_getElem.1 hpw a b (by simp; omega) (by simp; omega) hab
    simp only [List.getElem_range, Function.onFun] at this
    exact this ha hb'
  have m1 : x ∈ List.range' (start r).toNat (len r).toNat := by
    rw [List.mem_range'_1]; omega
  have m2 : x ∈ List.range' (start r').toNat (len r').toNat := by
    rw [List.mem_range'_1]; omega
  rcases Nat.lt_or_gt_of_ne hne with hlt | hlt
  · exact key r r' hlt hr' m1 m2
  · exact key r' r hlt hr m2 m1

theorem partition_le {start len : Nat → Int} {P N : Nat} (h : IsPartition start len P N) {r : Nat}
    (hr : r < P) : (start r).toNat + (len r).toNat ≤ N ∨ (len r).toNat = 0 := by
  by_cases h0 : (len r).toNat = 0
  · exact Or.inr h0
  · left
    have : (start r).toNat + (len r).toNat - 1 ∈ owned start len P := by
      unfold owned
      rw [List.mem_flatMap]
      refine ⟨r, List.mem_range.2 hr, ?_⟩
      rw [List.mem_range'_1]; omega
    rw [h.2, List.mem_range] at this
    omega

section
variable {ε : Type*} [AddMonoid ε]

theorem sum_flatMap_map {α β : Type*} (l : List α) (f : α → List β) (g : β → ε) :
    ((l.flatMap f).map g).sum = (l.map fun r => ((f r).map g).sum).sum := by
  induction l with
  | nil => rfl
  | cons a l ih => simp [ih]

/-- Summand of configuration `k`. -/
def errAt {σ : Type*} (err : Nat → σ → ε) (confs : List σ) (k : Nat) : ε :=
  match confs[k]? with | some c => err k c | none => 0

theorem zipIdx_sum {σ : Type*} (err : Nat → σ → ε) (confs : List σ) (s n : Nat)
    (h : s + n ≤ confs.length ∨ n = 0) :
    ((((confs.drop s).take n).zipIdx s).map fun ck => err ck.2 ck.1).sum =
      ((List.range' s n).map (errAt err confs)).sum := by
  induction n generalizing s with
  | zero => simp
  | succ n ih =>
    have hs : s + (n + 1) ≤ confs.length := by omega
    have hlt : s < confs.length := by omega
    rw [List.drop_eq_getElem_cons hlt, List.take_succ_cons, List.zipIdx_cons, List.map_cons,
      List.sum_cons, ih (s + 1) (by omega), List.range'_succ, List.map_cons, List.sum_cons]
    simp [errAt, hlt]

end

variable {K : Type*} [Field K] [LinearOrder K]

theorem gather_apply (b : Build) (d : Dist) (P : Nat) (mem : Nat → Cell → K) (x : Cell) (r : Nat)
    (hr : r < P) (hin : inBlock b d r x = true)
    (hun : ∀ r', r' < P → inBlock b d r' x = true → r' = r) :
    gather b d P mem x = mem r x := by
  unfold gather
  have key : ∀ n, n ≤ P → ((List.range n).foldl
      (fun m r => if r = 0 then m else fun x => if inBlock b d r x then mem r x else m x) (mem 0)) x =
      if r < n then mem r x else mem 0 x := by
    intro n hn
    induction n with
    | zero => simp
    | succ n ih =>
      rw [List.range_succ, List.foldl_append]
      simp only [List.foldl_cons, List.foldl_nil]
      have ih := ih (by omega)
      by_cases h0 : n = 0
      · subst h0
        simp only [if_true, List.range_zero, List.foldl_nil]
        split
        · rw [show r = 0 by omega]
        · rfl
      · rw [if_neg h0]
        by_cases hb : inBlock b d n x = true
        · have := hun n (by omega) hb
          subst this
          simp [hb]
        · have hne : r ≠ n := by rintro rfl; exact hb hin
          simp only [hb]
          rw [if_neg (by simp), ih]
          by_cases hlt : r < n
          · rw [if_pos hlt, if_pos (by omega)]
          · rw [if_neg hlt, if_neg (by omega)]
  rw [key P (le_refl _), if_pos hr]

theorem cnfstart_sum (f : Nat → Nat) (n : Nat) : cnfstart f n = ((List.range n).map f).sum := by
  induction n with
  | zero => rfl
  | succ n ih => rw [List.range_succ]; simp [cnfstart, ih]

theorem cnfstart_le (f : Nat → Nat) {i j : Nat} (h : i ≤ j) : cnfstart f i ≤ cnfstart f j := by
  induction j with
  | zero => rw [Nat.le_zero.1 h]
  | succ j ih =>
    rcases Nat.lt_or_eq_of_le h with h | rfl
    · have := ih (by omega)
      simp only [cnfstart]; omega
    · exact le_refl _

theorem cnfstart_find (f : Nat → Nat) (N a : Nat) (h : a < cnfstart f N) :
    ∃ k, k < N ∧ cnfstart f k ≤ a ∧ a < cnfstart f k + f k := by
  induction N with
  | zero => simp [cnfstart] at h
  | succ N ih =>
    by_cases h1 : a < cnfstart f N
    · obtain ⟨k, h2, h3⟩ := ih h1
      exact ⟨k, by omega, h3⟩
    · exact ⟨N, by omega, by omega, by simpa [cnfstart] using h⟩

theorem numbered_own {confs : List (Conf K)} (hn : Numbered confs) {k : Nat} {c : Conf K}
    (hk : confs[k]? = some c) : c.start + c.atoms.length = cnfstart (inconf confs) (k + 1) := by
  rw [hn k c hk, ← cnfstart_sum]
  simp [cnfstart, inconf, hk]

theorem numbered_disjoint {confs : List (Conf K)} (hn : Numbered confs) {j k : Nat} {c c' : Conf K}
    (hk : confs[k]? = some c) (hj : confs[j]? = some c') {a : Nat}
    (h1 : c.start ≤ a ∧ a < c.start + c.atoms.length)
    (h2 : c'.start ≤ a ∧ a < c'.start + c'.atoms.length) : j = k := by
  rw [numbered_own hn hk, hn k c hk, ← cnfstart_sum] at h1
  rw [numbered_own hn hj, hn j c' hj, ← cnfstart_sum] at h2
  by_contra hne
  rcases Nat.lt_or_gt_of_ne hne with h | h
  · have := cnfstart_le (inconf confs) (show j + 1 ≤ k from h); omega
  · have := cnfstart_le (inconf confs) (show k + 1 ≤ j from h); omega

theorem ownCell_unique {b : Build} {eam : Bool} {confs : List (Conf K)} (hn : Numbered confs) {j k : Nat}
    {c c' : Conf K} (hk : confs[k]? = some c) (hj : confs[j]? = some c') {x : Cell}
    (h1 : ownCell b eam k c x) (h2 : ownCell b eam j c' x) : j = k := by
  cases x with
  | force a i => exact numbered_disjoint hn hk hj h1 h2
  | energy i => simp only [ownCell] at h1 h2; omega
  | stress i _ => simp only [ownCell] at h1 h2; omega
  | limit i => simp only [ownCell] at h1 h2; omega
  | rho a => exact numbered_disjoint hn hk hj h1.2 h2.2
  | gradF a => exact numbered_disjoint hn hk hj h1.2 h2.2

theorem resultCell_owner {b : Build} {eam : Bool} {confs : List (Conf K)} (hn : Numbered confs) {x : Cell}
    (hx : ResultCell b eam confs x) : ∃ k c, confs[k]? = some c ∧ ownCell b eam k c x := by
  cases x with
  | force a i =>
    simp only [ResultCell, ← cnfstart_sum] at hx
    obtain ⟨k, h1, h2, h3⟩ := cnfstart_find _ _ _ hx
    have hk := List.getElem?_eq_getElem h1
    refine ⟨k, _, hk, ?_⟩
    simp only [ownCell]
    rw [numbered_own hn hk, hn k _ hk, ← cnfstart_sum]
    exact ⟨h2, by simpa [cnfstart] using h3⟩
  | energy i => exact ⟨i, _, List.getElem?_eq_getElem hx, rfl⟩
  | stress i j => exact ⟨i, _, List.getElem?_eq_getElem hx.2, hx.1, rfl⟩
  | limit i => exact ⟨i, _, List.getElem?_eq_getElem hx.2.2, hx.1, hx.2.1, rfl⟩
  | rho a => exact hx.elim
  | gradF a => exact hx.elim

/-- Parallel and serial evaluation agree for every local evaluator. -/
theorem parallel_eq_serial {τ ε : Type*} [AddMonoid ε] {get : τ → Cell → K}
    {good : Nat → Conf K → Prop} {b : Build} {eam : Bool} {one : Nat → Conf K → τ → τ × ε}
    {val : Nat → Conf K → Cell → K} {err : Nat → Conf K → ε}
    (h : Local get good (ownCell b eam) one val err) (confs : List (Conf K))
    (hg : ∀ k c, confs[k]? = some c → good k c) (hn : Numbered confs) (P : Nat) (hP : 0 < P) (d : Dist)
    (hd : distribute (inconf confs) confs.length P = some d) (init : Nat → τ) (init0 : τ) :
    (parallelRun b get one d P confs init).2 = (serialRun get one confs init0).2 ∧
    ∀ x, ResultCell b eam confs x →
      (parallelRun b get one d P confs init).1 x = (serialRun get one confs init0).1 x := by
  have hc := Props.C02_configurations hP hd
  have ha := Props.C02_atoms hP hd
  have hblock : ∀ r, r < P → ∀ k c,
      ((confs.drop (d.confDist r).toNat).take (d.confLen r).toNat)[k]? = some c →
      confs[(d.confDist r).toNat + k]? = some c ∧ k < (d.confLen r).toNat := by
    intro r hr k c hk
    rw [List.getElem?_take] at hk
    split at hk
    · rename_i hlt
      rw [List.getElem?_drop] at hk
      exact ⟨hk, hlt⟩
    · simp at hk
  have hgb : ∀ r, r < P → ∀ k c,
      ((confs.drop (d.confDist r).toNat).take (d.confLen r).toNat)[k]? = some c →
      good ((d.confDist r).toNat + k) c := fun r hr k c hk => hg _ _ (hblock r hr k c hk).1
  refine ⟨?_, ?_⟩
  · unfold parallelRun serialRun rankRun
    simp only
    rw [confLoop_err h confs 0 _ (by simpa using hg)]
    have h1 : ∀ r ∈ List.range P, (confLoop one ((confs.drop (d.confDist r).toNat).take
        (d.confLen r).toNat) (d.confDist r).toNat (init r, 0)).2 =
        ((List.range' (d.confDist r).toNat (d.confLen r).toNat).map (errAt err confs)).sum := by
      intro r hr
      have hr := List.mem_range.1 hr
      rw [confLoop_err h _ _ _ (hgb r hr), zero_add, zipIdx_sum _ _ _ _ (partition_le hc hr)]
    rw [List.map_congr_left h1, ← sum_flatMap_map, ← owned, hc.2]
    have h2 := zipIdx_sum err confs 0 confs.length (Or.inl (by omega))
    rw [List.drop_zero, List.take_length] at h2
    rw [h2, List.range_eq_range']
    simp
  · intro x hx
    obtain ⟨k, c, hk, hown⟩ := resultCell_owner hn hx
    have hklt : k < confs.length := (List.getElem?_eq_some_iff.1 hk).1
    -- serial
    have hs : (serialRun get one confs init0).1 x = val k c x := by
      unfold serialRun
      simp only
      have := confLoop_own h confs 0 (init0, (0 : ε)) (by simpa using hg) x k c hk (by simpa using hown)
        (fun j c' hj hlt ho => by
          have := ownCell_unique hn hk hj hown (by simpa using ho)
          omega)
      simpa using this
    -- the rank of the configuration
    obtain ⟨r, hr, hr1, hr2⟩ := partition_exists hc hklt
    have hpos := hc.1 r hr
    have hbel := Props.C02_atoms_belong hd hr
    have hin : inBlock b d r x = true := by
      cases x with
      | force a i =>
        simp only [ownCell] at hown
        rw [numbered_own hn hk, hn k c hk, ← cnfstart_sum] at hown
        simp only [inBlock, decide_eq_true_eq]
        have hsum2 : ∀ s n, ((List.range' s n).map (inconf confs)).sum + cnfstart (inconf confs) s =
            cnfstart (inconf confs) (s + n) := by
          intro s n
          induction n with
          | zero => simp
          | succ n ih =>
            rw [List.range'_concat, List.map_append, List.sum_append]
            simp only [List.map_cons, List.map_nil, List.sum_cons, List.sum_nil, Nat.add_zero, one_mul,
              Nat.one_mul]
            rw [show s + (n + 1) = (s + n) + 1 by omega]
            simp only [cnfstart]
            omega
        rw [hbel.1, hbel.2, ← cnfstart_sum]
        have e1 := hsum2 (d.confDist r).toNat (d.confLen r).toNat
        have e2 := cnfstart_le (inconf confs) (show (d.confDist r).toNat ≤ k by omega)
        have e3 := cnfstart_le (inconf confs)
          (show k + 1 ≤ (d.confDist r).toNat + (d.confLen r).toNat by omega)
        constructor <;> omega
      | energy i =>
        simp only [ownCell] at hown
        subst hown
        simp [inBlock, hr1, hr2]
      | stress i j =>
        obtain ⟨hb, rfl⟩ := hown
        simp [inBlock, hb, hr1, hr2]
      | limit i =>
        obtain ⟨hb, -, rfl⟩ := hown
        simp [inBlock, hb, hr1, hr2]
      | rho a => exact hx.elim
      | gradF a => exact hx.elim
    have hun : ∀ r', r' < P → inBlock b d r' x = true → r' = r := by
      intro r' hr' hb'
      cases x with
      | force a i =>
        simp only [inBlock, decide_eq_true_eq] at hin hb'
        exact partition_unique ha hr' hr hb'.1 hb'.2 hin.1 hin.2
      | energy i =>
        simp only [inBlock, decide_eq_true_eq] at hin hb'
        exact partition_unique hc hr' hr hb'.1 hb'.2 hin.1 hin.2
      | stress i j =>
        simp only [inBlock, Bool.and_eq_true, decide_eq_true_eq] at hin hb'
        exact partition_unique hc hr' hr hb'.2.1 hb'.2.2 hin.2.1 hin.2.2
      | limit i =>
        simp only [inBlock, Bool.and_eq_true, decide_eq_true_eq] at hin hb'
        exact partition_unique hc hr' hr hb'.2.1 hb'.2.2 hin.2.1 hin.2.2
      | rho a => exact hx.elim
      | gradF a => exact hx.elim
    rw [hs]
    unfold parallelRun
    simp only
    rw [gather_apply b d P _ x r hr hin hun]
    unfold rankRun
    have hkr : ((confs.drop (d.confDist r).toNat).take (d.confLen r).toNat)[k - (d.confDist r).toNat]?
        = some c := by
      rw [List.getElem?_take, if_pos (by omega), List.getElem?_drop,
        show (d.confDist r).toNat + (k - (d.confDist r).toNat) = k by omega]
      exact hk
    have := confLoop_own h _ (d.confDist r).toNat (init r, (0 : ε)) (hgb r hr) x _ c hkr
      (by rw [show (d.confDist r).toNat + (k - (d.confDist r).toNat) = k by omega]; exact hown)
      (fun j c' hj hlt ho => by
        have := ownCell_unique hn hk (hblock r hr j c' hj).1 hown ho
        omega)
    rw [this, show (d.confDist r).toNat + (k - (d.confDist r).toNat) = k by omega]

end Verif.Force
