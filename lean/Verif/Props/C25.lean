/-
C25  Three-body angle bookkeeping.

`val j k` is whatever is stored for the pair of neighbours `j`, `k`; since it is arbitrary (for instance the pair
itself), the theorems say that the entry read is the one stored for the same pair.
-/
import Verif.Model.Angles
import Mathlib.Tactic.Ring
import Mathlib.Tactic.Linarith
import Mathlib.Data.List.Nodup

namespace Verif.Props

open Verif.Angles

variable {α : Type*}

/-- The values in the order in which they are stored. -/
def flat (val : Nat → Nat → α) (js : List Nat) (ks : Nat → List Nat) : List α :=
  js.flatMap fun j => (ks j).map (val j)

theorem inner_spec (val : Nat → α) (ks : List Nat) (s : Table α) (l : List α) (hm : ∀ p, s.mem p = l[p]?)
    (hi : s.ijk = l.length) :
    let r := ks.foldl (fun s k => push s (val k)) s
    (∀ p, r.mem p = (l ++ ks.map val)[p]?) ∧ r.ijk = (l ++ ks.map val).length ∧ r.start = s.start := by
  induction ks generalizing s l with
  | nil => simpa using ⟨hm, hi⟩
  | cons k ks ih =>
    have h := ih (push s (val k)) (l ++ [val k]) (by
      intro p
      simp only [push, Function.update_apply, hi]
      by_cases hp : p = l.length
      · subst hp; simp
      · rw [if_neg hp, hm, List.getElem?_append]
        by_cases hlt : p < l.length
        · rw [if_pos hlt]
        · rw [if_neg hlt, List.getElem?_eq_none (by omega), List.getElem?_eq_none (by simp; omega)]) (by simp [push, hi])
    simpa [push] using h

theorem store_spec (val : Nat → Nat → α) (js : List Nat) (ks : Nat → List Nat) (hn : js.Nodup) :
    (∀ p, (store val js ks).mem p = (flat val js ks)[p]?) ∧ (store val js ks).ijk = (flat val js ks).length ∧
    ∀ pre j post, js = pre ++ j :: post → (store val js ks).start j = (flat val pre ks).length := by
  induction js using List.reverseRecOn with
  | nil =>
    refine ⟨fun p => by simp [store, flat], rfl, fun pre j post h => ?_⟩
    simp at h
  | append_singleton js x ih =>
    have hn' : js.Nodup := (List.nodup_append.1 hn).1
    have hx : x ∉ js := fun hx => by
      have := (List.nodup_append.1 hn).2.2 x hx x (by simp)
      exact this rfl
    obtain ⟨h1, h2, h3⟩ := ih hn'
    have hs : store val (js ++ [x]) ks = turn val ks (store val js ks) x := by
      simp [store, List.foldl_append]
    have hf : flat val (js ++ [x]) ks = flat val js ks ++ (ks x).map (val x) := by
      simp [flat, List.flatMap_append]
    rw [hs, hf]
    obtain ⟨g1, g2, g3⟩ := inner_spec (val x) (ks x)
      { store val js ks with start := Function.update (store val js ks).start x (store val js ks).ijk }
      (flat val js ks) h1 h2
    refine ⟨g1, g2, fun pre j post h => ?_⟩
    have : (turn val ks (store val js ks) x).start =
      Function.update (store val js ks).start x (store val js ks).ijk := g3
    rw [this]
    rcases List.eq_nil_or_concat post with rfl | ⟨post', y, rfl⟩
    · have h' := List.append_inj' h (by simp)
      obtain ⟨e1, e2⟩ := h'
      simp only [List.cons.injEq, and_true] at e2
      subst e1 e2
      rw [Function.update_self, h2]
    · rw [List.concat_eq_append, ← List.cons_append, ← List.append_assoc] at h
      obtain ⟨e1, e2⟩ := List.append_inj' h (by simp)
      have hj : j ≠ x := by
        rintro rfl
        apply hx
        rw [e1]
        simp
      rw [Function.update_of_ne hj]
      exact h3 pre j post' e1

theorem ptrInner_spec (a : Table α) (j : Nat) (ks : List Nat) (s : List (Used α) × Nat) :
    (ptrInner a j ks s).2 = s.2 + ks.length ∧
    (ptrInner a j ks s).1 = s.1 ++ (ks.zipIdx s.2).map fun kp => ⟨j, kp.1, a.mem kp.2⟩ := by
  unfold ptrInner
  induction ks generalizing s with
  | nil => simp
  | cons k ks ih =>
    rw [List.foldl_cons]
    obtain ⟨h1, h2⟩ := ih (s.1 ++ [⟨j, k, a.mem s.2⟩], s.2 + 1)
    rw [h1, h2]
    simp only [List.length_cons, List.zipIdx_cons, List.map_cons, List.append_assoc, List.singleton_append, and_true]
    omega

theorem idxInner_spec (a : Table α) (j : Nat) (use : Nat → Bool) (ks : List Nat) (s : List (Used α) × Nat) :
    (idxInner a j use ks s).1 = s.1 ++ (((ks.zipIdx s.2).filter fun kp => use kp.1).map
      fun kp => ⟨j, kp.1, a.mem kp.2⟩) := by
  unfold idxInner
  induction ks generalizing s with
  | nil => simp
  | cons k ks ih =>
    rw [List.foldl_cons, ih]
    simp only [List.zipIdx_cons, List.filter_cons]
    cases use k <;> simp

/-- If the entries from `p` on are those of `ks`, reading them one after the other finds the right ones. -/
theorem zip_reads (a : Table α) (val : Nat → α) (ks : List Nat) (p : Nat)
    (h : ∀ i, i < ks.length → a.mem (p + i) = (ks.map val)[i]?) (use : Nat → Bool) (j : Nat) :
    (((ks.zipIdx p).filter fun kp => use kp.1).map fun kp => (⟨j, kp.1, a.mem kp.2⟩ : Used α)) =
      (ks.filter use).map fun k => ⟨j, k, some (val k)⟩ := by
  induction ks generalizing p with
  | nil => simp
  | cons k ks ih =>
    have h0 := h 0 (by simp)
    have ht := ih (p + 1) (fun i hi => by
      have := h (i + 1) (by simpa using hi)
      rw [show p + 1 + i = p + (i + 1) by omega, this]
      simp)
    simp only [List.zipIdx_cons, List.filter_cons]
    simp only [Nat.add_zero, List.map_cons, List.getElem?_cons_zero] at h0
    cases use k
    · simpa using ht
    · simp [ht, h0]

/-- Pointer walk over the stored entries. -/
theorem ptr_walk (val : Nat → Nat → α) (a : Table α) (js : List Nat) (ks : Nat → List Nat)
    (h : ∀ p, a.mem p = (flat val js ks)[p]?) (out : List (Used α)) (pre : List Nat) (post : List Nat)
    (hjs : js = pre ++ post) :
    (post.foldl (fun s j => ptrInner a j (ks j) s) (out, (flat val pre ks).length)).1 =
      out ++ post.flatMap fun j => (ks j).map fun k => ⟨j, k, some (val j k)⟩ := by
  induction post generalizing out pre with
  | nil => simp
  | cons j post ih =>
    rw [List.foldl_cons]
    obtain ⟨h1, h2⟩ := ptrInner_spec a j (ks j) (out, (flat val pre ks).length)
    have hf : flat val (pre ++ [j]) ks = flat val pre ks ++ (ks j).map (val j) := by
      simp [flat, List.flatMap_append]
    have hread := zip_reads a (val j) (ks j) (flat val pre ks).length (fun i hi => by
      rw [h, hjs]
      simp only [flat, List.flatMap_append, List.flatMap_cons]
      rw [List.getElem?_append_right (by omega), Nat.add_sub_cancel_left,
        List.getElem?_append_left (by simpa using hi)]) (fun _ => true) j
    simp only [List.filter_true] at hread
    have e : ptrInner a j (ks j) (out, (flat val pre ks).length) =
        (out ++ (ks j).map fun k => ⟨j, k, some (val j k)⟩, (flat val (pre ++ [j]) ks).length) := by
      apply Prod.ext
      · rw [h2]
        simp only
        rw [hread]
      · rw [h1, hf]; simp
    rw [e, ih _ (pre ++ [j]) (by simp [hjs])]
    simp [List.append_assoc]

/-- Indexed walk over the stored entries. -/
theorem idx_walk (val : Nat → Nat → α) (js : List Nat) (ks : Nat → List Nat) (hn : js.Nodup) (skip : Nat → Bool)
    (use : Nat → Nat → Bool) (out : List (Used α)) (pre post : List Nat) (hjs : js = pre ++ post) :
    post.foldl (fun out j => if skip j then
        (idxInner (store val js ks) j (use j) (ks j) (out, (store val js ks).start j)).1 else out) out =
      out ++ (post.filter skip).flatMap fun j => ((ks j).filter (use j)).map fun k => ⟨j, k, some (val j k)⟩ := by
  obtain ⟨h1, -, h3⟩ := store_spec val js ks hn
  induction post generalizing out pre with
  | nil => simp
  | cons j post ih =>
    rw [List.foldl_cons]
    have hst := h3 pre j post hjs
    have hread := zip_reads (store val js ks) (val j) (ks j) (flat val pre ks).length (fun i hi => by
      rw [h1, hjs]
      simp only [flat, List.flatMap_append, List.flatMap_cons]
      rw [List.getElem?_append_right (by omega), Nat.add_sub_cancel_left,
        List.getElem?_append_left (by simpa using hi)]) (use j) j
    rw [ih _ (pre ++ [j]) (by simp [hjs]), List.filter_cons]
    cases hs : skip j
    · simp
    · simp only [if_true, List.flatMap_cons]
      rw [idxInner_spec, hst, hread, List.append_assoc]

theorem mem_later (n j k : Nat) : k ∈ later n j ↔ j < k ∧ k < n := by
  unfold later
  rw [List.mem_range'_1]
  omega

theorem mem_others (n j k : Nat) : k ∈ others n j ↔ k ≠ j ∧ k < n := by
  unfold others
  simp
  tauto

theorem later_nodup (n j : Nat) : (later n j).Nodup := List.nodup_range'

theorem others_nodup (n j : Nat) : (others n j).Nodup := List.nodup_range.filter _

/-- The pairs of a nested loop are different. -/
theorem pairs_nodup (js : List Nat) (ks : Nat → List Nat) (hj : js.Nodup) (hk : ∀ j, (ks j).Nodup)
    (val : Nat → Nat → α) :
    ((js.flatMap fun j => (ks j).map fun k => (⟨j, k, some (val j k)⟩ : Used α)).map fun u => (u.j, u.k)).Nodup := by
  rw [List.map_flatMap]
  simp only [List.map_map]
  rw [List.nodup_flatMap]
  refine ⟨fun j _ => (hk j).map (fun a b h => by simpa using h), ?_⟩
  refine List.Pairwise.imp_of_mem ?_ hj
  intro a b _ _ hab x hx hy
  simp only [List.mem_map, Function.comp] at hx hy
  obtain ⟨_, _, rfl⟩ := hx
  obtain ⟨_, _, h⟩ := hy
  exact hab (by simpa using (congrArg Prod.fst h).symm)

/-- What is expected of a walk: exactly the pairs described by `want` are used, each once, with the entry stored for
this pair. -/
def Right (val : Nat → Nat → α) (want : Nat → Nat → Prop) (w : List (Used α)) : Prop :=
  (∀ u, u ∈ w ↔ want u.j u.k ∧ u.entry = some (val u.j u.k)) ∧ (w.map fun u => (u.j, u.k)).Nodup

theorem right_of (val : Nat → Nat → α) (want : Nat → Nat → Prop) (js : List Nat) (ks : Nat → List Nat) (hj : js.Nodup)
    (hk : ∀ j, (ks j).Nodup) (hw : ∀ j k, (j ∈ js ∧ k ∈ ks j) ↔ want j k) :
    Right val want (js.flatMap fun j => (ks j).map fun k => ⟨j, k, some (val j k)⟩) := by
  refine ⟨fun u => ?_, pairs_nodup js ks hj hk val⟩
  simp only [List.mem_flatMap, List.mem_map]
  constructor
  · rintro ⟨j, hj, k, hk, rfl⟩
    exact ⟨(hw j k).1 ⟨hj, hk⟩, rfl⟩
  · rintro ⟨h1, h2⟩
    obtain ⟨g1, g2⟩ := (hw _ _).2 h1
    exact ⟨u.j, g1, u.k, g2, by rw [← h2]⟩

/-- MEAM: both walks over the angles of an atom with `n` neighbours. -/
theorem C25_meam (n : Nat) (val : Nat → Nat → α) :
    Right val (fun j k => j < k ∧ k < n) (meamWalk (initHalf n val) n) := by
  obtain ⟨h1, -, -⟩ := store_spec val (List.range (n - 1)) (later n) List.nodup_range
  have := ptr_walk val (initHalf n val) (List.range (n - 1)) (later n) h1 [] []
    (List.range (n - 1)) rfl
  unfold meamWalk
  simp only [flat, List.flatMap_nil, List.length_nil] at this
  rw [this, List.nil_append]
  apply right_of val _ _ _ List.nodup_range (later_nodup n)
  intro j k
  rw [List.mem_range, mem_later]
  omega

/-- ANG: entries exist only for pairs in range, and the walk meets exactly these. -/
theorem C25_ang (n : Nat) (inr : Nat → Bool) (val : Nat → Nat → α) :
    Right val (fun j k => j < k ∧ k < n ∧ inr j ∧ inr k) (angWalk (initAng n inr val) n inr) := by
  have hn : ((List.range (n - 1)).filter inr).Nodup := List.nodup_range.filter _
  obtain ⟨h1, -, -⟩ := store_spec val ((List.range (n - 1)).filter inr) (fun j => (later n j).filter inr) hn
  have := ptr_walk val (initAng n inr val) ((List.range (n - 1)).filter inr) (fun j => (later n j).filter inr) h1 [] []
    ((List.range (n - 1)).filter inr) rfl
  simp only [flat, List.flatMap_nil, List.length_nil] at this
  unfold angWalk
  rw [← List.foldl_filter, this, List.nil_append]
  apply right_of val _ _ _ hn (fun j => (later_nodup n j).filter _)
  intro j k
  rw [List.mem_filter, List.mem_filter, List.mem_range, mem_later]
  constructor
  · rintro ⟨⟨a, b⟩, ⟨c, d⟩, e⟩; exact ⟨c, d, b, e⟩
  · rintro ⟨c, d, b, e⟩; exact ⟨⟨by omega, b⟩, ⟨c, d⟩, e⟩

/-- Stillinger-Weber: entries are stored for all pairs, used for those in range with a three-body coefficient. -/
theorem C25_stiweb (n : Nat) (in2 : Nat → Bool) (lam : Nat → Nat → Bool) (val : Nat → Nat → α) :
    Right val (fun j k => j < k ∧ k < n ∧ in2 j ∧ in2 k ∧ lam j k) (swWalk (initHalf n val) n in2 lam) := by
  unfold swWalk initHalf
  rw [idx_walk val (List.range (n - 1)) (later n) List.nodup_range in2 (fun j k => lam j k && in2 k) [] []
    (List.range (n - 1)) rfl,
    List.nil_append]
  apply right_of val _ _ _ (List.nodup_range.filter _) (fun j => (later_nodup n j).filter _)
  intro j k
  simp only [List.mem_filter, List.mem_range, mem_later, Bool.and_eq_true]
  constructor
  · rintro ⟨⟨a, b⟩, ⟨c, d⟩, e, f⟩; exact ⟨c, d, b, f, e⟩
  · rintro ⟨c, d, b, f, e⟩; exact ⟨⟨by omega, b⟩, ⟨c, d⟩, e, f⟩

/-- Tersoff: the order of the two neighbours matters, both orders are stored. -/
theorem C25_tersoff (n : Nat) (inS b : Nat → Bool) (val : Nat → Nat → α) :
    Right val (fun j k => j ≠ k ∧ j < n ∧ k < n ∧ inS j ∧ inS k ∧ b j) (tersoffWalk (initFull n val) n inS b) := by
  have hw : tersoffWalk (initFull n val) n inS b = (List.range n).foldl (fun out j => if (inS j && b j) then
      (idxInner (initFull n val) j inS (others n j) (out, (initFull n val).start j)).1 else out) [] := by
    unfold tersoffWalk
    congr 1
    funext out j
    cases inS j <;> cases b j <;> rfl
  rw [hw]
  unfold initFull
  rw [idx_walk val (List.range n) (others n) List.nodup_range (fun j => inS j && b j) (fun _ => inS) [] []
    (List.range n) rfl,
    List.nil_append]
  apply right_of val _ _ _ (List.nodup_range.filter _) (fun j => (others_nodup n j).filter _)
  intro j k
  simp only [List.mem_filter, List.mem_range, mem_others, Bool.and_eq_true]
  constructor
  · rintro ⟨⟨a, b, c⟩, ⟨d, e⟩, f⟩; exact ⟨d.symm, a, e, b, f, c⟩
  · rintro ⟨d, a, e, b, f, c⟩; exact ⟨⟨a, b, c⟩, ⟨d.symm, e⟩, f⟩

theorem later_succ_length (n : Nat) (js : List Nat) (val : Nat → Nat → α) :
    (flat val js (later n)).length = (js.map fun j => n - (j + 1)).sum := by
  simp [flat, List.length_flatMap, later]

/-- Number of angles: half lists. -/
theorem C25_count_half (n : Nat) (val : Nat → Nat → α) : (initHalf n val).ijk = n * (n - 1) / 2 := by
  obtain ⟨-, h2, -⟩ := store_spec val (List.range (n - 1)) (later n) List.nodup_range
  have : (initHalf n val).ijk = (flat val (List.range (n - 1)) (later n)).length := h2
  rw [this, later_succ_length]
  have key : ∀ m, m ≤ n → 2 * ((List.range m).map fun j => n - (j + 1)).sum = m * (2 * n - m - 1) := by
    intro m
    induction m with
    | zero => simp
    | succ m ih =>
      intro hm
      rw [List.range_succ, List.map_append, List.sum_append, Nat.mul_add, ih (by omega)]
      simp only [List.map_cons, List.map_nil, List.sum_cons, List.sum_nil, Nat.add_zero]
      obtain ⟨d, rfl⟩ : ∃ d, n = m + 1 + d := ⟨n - (m + 1), by omega⟩
      rw [show 2 * (m + 1 + d) - m - 1 = m + 1 + 2 * d by omega, show m + 1 + d - (m + 1) = d by omega,
        show 2 * (m + 1 + d) - (m + 1) - 1 = m + 2 * d by omega]
      ring
  rcases Nat.eq_zero_or_pos n with rfl | hn
  · simp
  · have := key (n - 1) (by omega)
    have e : (n - 1) * (2 * n - (n - 1) - 1) = n * (n - 1) := by
      rw [show 2 * n - (n - 1) - 1 = n by omega, Nat.mul_comm]
    omega

/-- Number of angles: full lists. -/
theorem C25_count_full (n : Nat) (val : Nat → Nat → α) : (initFull n val).ijk = n * (n - 1) := by
  obtain ⟨-, h2, -⟩ := store_spec val (List.range n) (others n) List.nodup_range
  have : (initFull n val).ijk = (flat val (List.range n) (others n)).length := h2
  rw [this]
  have hlen : ∀ j, j < n → (others n j).length = n - 1 := by
    intro j hj
    have hp : ((List.range n).erase j).Perm (others n j) := by
      apply (List.perm_ext_iff_of_nodup (List.nodup_range.erase j) (others_nodup n j)).2
      intro k
      rw [List.nodup_range.mem_erase_iff, mem_others, List.mem_range]
    rw [← hp.length_eq, List.length_erase_of_mem (List.mem_range.2 hj), List.length_range]
  have : ∀ js : List Nat, (∀ j ∈ js, j < n) → (flat val js (others n)).length = js.length * (n - 1) := by
    intro js
    induction js with
    | nil => intro _; simp [flat]
    | cons j js ih =>
      intro h
      have h1 := ih (fun x hx => h x (by simp [hx]))
      simp only [flat, List.flatMap_cons, List.length_append, List.length_map, List.length_cons] at h1 ⊢
      rw [h1, hlen j (h j (by simp))]
      ring
  rw [this _ (fun j hj => List.mem_range.1 hj), List.length_range]

/-- Number of angles: ANG, `m` neighbours being in range. -/
theorem C25_count_ang (n : Nat) (inr : Nat → Bool) (val : Nat → Nat → α) :
    let m := ((List.range n).filter inr).length
    (initAng n inr val).ijk = m * (m - 1) / 2 := by
  intro m
  have hn : ((List.range (n - 1)).filter inr).Nodup := List.nodup_range.filter _
  obtain ⟨-, h2, -⟩ := store_spec val ((List.range (n - 1)).filter inr) (fun j => (later n j).filter inr) hn
  have : (initAng n inr val).ijk =
    (flat val ((List.range (n - 1)).filter inr) (fun j => (later n j).filter inr)).length := h2
  rw [this]
  -- the pairs of the sub-list of neighbours in range
  have key : ∀ (d s : Nat), 2 * (flat val ((List.range' s d).filter inr)
      (fun j => (List.range' (j + 1) (s + d - (j + 1))).filter inr)).length =
      ((List.range' s d).filter inr).length * (((List.range' s d).filter inr).length - 1) := by
    intro d
    induction d with
    | zero => intro s; simp [flat]
    | succ d ih =>
      intro s
      have hs := ih (s + 1)
      rw [List.range'_succ, List.filter_cons]
      have e : ∀ j, s + 1 + d - (j + 1) = s + (d + 1) - (j + 1) := fun j => by omega
      simp only [e] at hs
      cases hi : inr s
      · simpa using hs
      · simp only [if_true, flat, List.flatMap_cons, List.length_append, List.length_map, List.length_cons, Nat.mul_add]
        simp only [flat] at hs
        rw [hs, show s + (d + 1) - (s + 1) = d by omega]
        generalize ((List.range' (s + 1) d).filter inr).length = q
        cases q with
        | zero => rfl
        | succ q =>
          simp only [Nat.add_sub_cancel]
          ring
  have hlast : flat val ((List.range n).filter inr) (fun j => (later n j).filter inr) =
      flat val ((List.range (n - 1)).filter inr) (fun j => (later n j).filter inr) := by
    rcases Nat.eq_zero_or_pos n with rfl | hpos
    · rfl
    · obtain ⟨q, rfl⟩ : ∃ q, n = q + 1 := ⟨n - 1, by omega⟩
      rw [Nat.add_sub_cancel, List.range_succ, List.filter_append]
      simp only [flat, List.flatMap_append]
      have : later (q + 1) q = [] := by simp [later]
      simp only [List.filter_cons, List.filter_nil]
      split
      · simp [this]
      · simp
  have h0 := key n 0
  rw [← List.range_eq_range'] at h0
  simp only [Nat.zero_add] at h0
  rw [← hlast]
  unfold later
  show _ = m * (m - 1) / 2
  have : 2 * (flat val ((List.range n).filter inr) (fun j => (List.range' (j + 1) (n - (j + 1))).filter inr)).length =
    m * (m - 1) := h0
  omega

/-- Four neighbours, the third outside the cutoff, no coefficient for the pair (0, 3): the pairs (0,1) and (1,3)
are used, with the entries stored for them. -/
example : (swWalk (initHalf 4 Prod.mk) 4 (fun j => decide (j ≠ 2)) (fun j k => !(decide (j = 0) && decide (k = 3)))).map
    (fun u => (u.j, u.k, u.entry)) = [(0, 1, some (0, 1)), (1, 3, some (1, 3))] := by decide

example : (tersoffWalk (initFull 3 Prod.mk) 3 (fun j => decide (j ≠ 1)) (fun _ => true)).map
    (fun u => (u.j, u.k, u.entry)) = [(0, 2, some (0, 2)), (2, 0, some (2, 0))] ∧
    (initFull 3 Prod.mk).ijk = 6 ∧ (initHalf 4 Prod.mk).ijk = 6 := by decide

example : (angWalk (initAng 4 (fun j => decide (j ≠ 1)) Prod.mk) 4 (fun j => decide (j ≠ 1))).map
    (fun u => (u.j, u.k, u.entry)) = [(0, 2, some (0, 2)), (0, 3, some (0, 3)), (2, 3, some (2, 3))] := by decide

end Verif.Props
