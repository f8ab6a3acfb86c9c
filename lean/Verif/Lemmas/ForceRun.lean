import Verif.Lemmas.Objective
import Verif.Lemmas.Parallel

set_option linter.unusedSectionVars false

namespace Verif.Force

open Verif.Spec

variable {K : Type*} [Field K] [LinearOrder K] [IsStrictOrderedRing K]

theorem loop_cell {τ ε : Type*} [AddMonoid ε] {get : τ → Cell → K}
    {good : Nat → Conf K → Prop} {b : Build} {eam : Bool} {one : Nat → Conf K → τ → τ × ε}
    {val : Nat → Conf K → Cell → K} {err : Nat → Conf K → ε}
    (h : Local get good (ownCell b eam) one val err) (confs : List (Conf K))
    (hg : ∀ k c, confs[k]? = some c → good k c) (hn : Numbered confs) (s : τ × ε)
    (k : Nat) (c : Conf K) (hk : confs[k]? = some c) (x : Cell) (hx : ownCell b eam k c x) :
    get (confLoop one confs 0 s).1 x = val k c x := by
  have := confLoop_own h confs 0 s (by simpa using hg) x k c hk (by simpa using hx)
    (fun j c' hj hlt ho => by
      have := ownCell_unique hn hk hj hx (by simpa using ho)
      omega)
  simpa using this

/-- Content of the force vector after the pair routine has evaluated all configurations. -/
theorem pairRun_cells (b : Build) (P : Pots K) (ew sw : K) (confs : List (Conf K)) (hn : Numbered confs)
    (hh : ∀ c ∈ confs, HalfList c) (fv : FV K) (k : Nat) (c : Conf K) (hk : confs[k]? = some c) :
    let r := (confLoop (pairConf b P ew sw) confs 0 (fv, 0)).1
    (∀ j a, c.atoms[j]? = some a → r.force (c.start + j) =
      if c.uf = true then deviation b (pairSlope P) c a (c.start + j) else 0) ∧
    r.energy k = energyDev (pairTotal P c) c ∧
    (b.stress = true → r.stress k =
      if c.uf = true ∧ c.us = true then stressDev (pairSlope P) c else 0) := by
  intro r
  have hg : ∀ k c, confs[k]? = some c → (fun (_ : Nat) c => HalfList c) k c :=
    fun k c hk => hh c (List.mem_of_getElem? hk)
  have hcell := fun x hx => loop_cell (pairConf_local b P ew sw) confs hg hn (fv, 0) k c hk x hx
  obtain ⟨-, p2, p3, p4, -⟩ := pairConf_spec b P ew sw k c (hg k c hk) ⟨0, 0, 0, 0⟩
  refine ⟨?_, ?_, ?_⟩
  · intro j a hj
    have hlt : j < c.atoms.length := (List.getElem?_eq_some_iff.1 hj).1
    have : r.force (c.start + j) = (pairConf b P ew sw k c ⟨0, 0, 0, 0⟩).1.force (c.start + j) := by
      funext i
      exact hcell (.force (c.start + j) i) ⟨by omega, by omega⟩
    rw [this, p2 j a hj, ← scaled_eq]
  · have := hcell (.energy k) rfl
    simp only [FV.get] at this
    rw [this, p3, Function.update_self]
    rfl
  · intro hb
    funext i
    have := hcell (.stress k i) ⟨hb, rfl⟩
    simp only [FV.get] at this
    rw [this, p4, if_pos hb, Function.update_self]
    simp only [Bool.and_eq_true]
    split <;> rfl

/-- Content of the memory after the EAM routine has evaluated all configurations. -/
theorem eamRun_cells (b : Build) (P : EamPots K) (ew sw : K) (confs : List (Conf K)) (hn : Numbered confs)
    (hh : ∀ c ∈ confs, HalfList c ∧ EamColumns P c) (s : EamState K) (k : Nat) (c : Conf K)
    (hk : confs[k]? = some c) :
    let r := (confLoop (eamConf b P ew sw) confs 0 (s, (0, 0))).1
    (∀ j a, c.atoms[j]? = some a → r.fv.force (c.start + j) =
      if c.uf = true then deviation b (eamFullSlope b P c) c a (c.start + j) else 0) ∧
    r.fv.energy k = energyDev (eamTotal b P c) c ∧
    (b.stress = true → r.fv.stress k =
      if c.uf = true ∧ c.us = true then stressDev (eamFullSlope b P c) c else 0) ∧
    (∀ j a, c.atoms[j]? = some a → r.rho (c.start + j) = (embedAt b P c j a).rho) ∧
    (∀ j a, c.atoms[j]? = some a → r.gradF (c.start + j) = (embedAt b P c j a).grad) := by
  intro r
  have hg : ∀ k c, confs[k]? = some c → (fun (_ : Nat) c => HalfList c ∧ EamColumns P c) k c :=
    fun k c hk => hh c (List.mem_of_getElem? hk)
  have hcell := fun x hx => loop_cell (eamConf_local b P ew sw) confs hg hn (s, (0, 0)) k c hk x hx
  obtain ⟨hhk, hck⟩ := hg k c hk
  obtain ⟨p0, p1, -, p2, p3, p4, -⟩ := eamConf_spec b P ew sw k c hhk hck ⟨⟨0, 0, 0, 0⟩, 0, 0⟩
  have hcg := eamFullSlope_congr hhk p0
  refine ⟨?_, ?_, ?_, ?_, ?_⟩
  · intro j a hj
    have hlt : j < c.atoms.length := (List.getElem?_eq_some_iff.1 hj).1
    have : r.fv.force (c.start + j) =
        (eamConf b P ew sw k c ⟨⟨0, 0, 0, 0⟩, 0, 0⟩).1.fv.force (c.start + j) := by
      funext i
      exact hcell (.force (c.start + j) i) ⟨by omega, by omega⟩
    rw [this, p2 j a hj, totalForce_congr hcg, ← scaled_eq]
  · have := hcell (.energy k) rfl
    simp only [EamState.get, FV.get] at this
    rw [this, p3, Function.update_self]
    rfl
  · intro hb
    funext i
    have := hcell (.stress k i) ⟨hb, rfl⟩
    simp only [EamState.get, FV.get] at this
    rw [this, p4, if_pos hb, Function.update_self, totalStress_congr hcg]
    simp only [Bool.and_eq_true]
    split <;> rfl
  · intro j a hj
    have hlt : j < c.atoms.length := (List.getElem?_eq_some_iff.1 hj).1
    have := hcell (.rho (c.start + j)) ⟨rfl, by omega, by omega⟩
    simp only [EamState.get] at this
    rw [this, p1 j a hj]
  · intro j a hj
    have hlt : j < c.atoms.length := (List.getElem?_eq_some_iff.1 hj).1
    have := hcell (.gradF (c.start + j)) ⟨rfl, by omega, by omega⟩
    simp only [EamState.get] at this
    rw [this, p0 j a hj]

theorem sum_zipIdx_range {M : Type*} [AddCommMonoid M] {α : Type*} (l : List α) (g : Nat → M) :
    (l.zipIdx.map fun ak => g ak.2).sum = ∑ i ∈ Finset.range l.length, g i := by
  have h : ∀ n, ((l.zipIdx n).map fun ak => g ak.2).sum = ∑ i ∈ Finset.range l.length, g (n + i) := by
    induction l with
    | nil => simp
    | cons a l ih =>
      intro n
      rw [List.zipIdx_cons, List.map_cons, List.sum_cons, ih (n + 1), List.length_cons,
        Finset.sum_range_succ']
      rw [add_comm]
      congr 1
      apply Finset.sum_congr rfl
      intro i _
      congr 1
      omega
  simpa using h 0

/-- The forces of one entry on the atoms of the configuration cancel. -/
theorem sum_forceOn (slope : Entry K → K) (s n : Nat) (e : Entry K) (h1 : s ≤ e.own)
    (h2 : e.own < s + n) (h3 : s ≤ e.n.nr) (h4 : e.n.nr < s + n) :
    ∑ i ∈ Finset.range n, forceOn slope e (s + i) = 0 := by
  by_cases he : e.own = e.n.nr
  · simp [forceOn, he]
  · have hsplit : ∀ i, forceOn slope e (s + i) =
        (if i = e.own - s then fun k => e.n.distR k * slope e else 0) +
        (if i = e.n.nr - s then fun k => -(e.n.distR k * slope e) else 0) := by
      intro i
      unfold forceOn
      rw [if_neg he]
      by_cases a1 : s + i = e.own
      · rw [if_pos a1, if_pos (by omega), if_neg (by omega), add_zero]
      · rw [if_neg a1, if_neg (show ¬ i = e.own - s by omega), zero_add]
        by_cases a2 : s + i = e.n.nr
        · rw [if_pos a2, if_pos (by omega)]
        · rw [if_neg a2, if_neg (by omega)]
    simp only [hsplit]
    rw [Finset.sum_add_distrib, Finset.sum_ite_eq', Finset.sum_ite_eq',
      if_pos (Finset.mem_range.2 (by omega)), if_pos (Finset.mem_range.2 (by omega))]
    funext k
    simp

theorem sum_totalForce (slope : Entry K → K) (c : Conf K) (hh : HalfList c) :
    ∑ i ∈ Finset.range c.atoms.length, totalForce slope c (c.start + i) = 0 := by
  unfold totalForce
  have : ∀ l : List (Entry K), (∀ e ∈ l, ∑ i ∈ Finset.range c.atoms.length,
      forceOn slope e (c.start + i) = 0) →
      ∑ i ∈ Finset.range c.atoms.length, (l.map fun e => forceOn slope e (c.start + i)).sum = 0 := by
    intro l hl
    induction l with
    | nil => simp
    | cons e l ih =>
      simp only [List.map_cons, List.sum_cons]
      rw [Finset.sum_add_distrib, hl e (by simp), ih (fun e he => hl e (by simp [he])), add_zero]
  apply this
  intro e he
  have h1 := hh e he
  have h2 := entriesFrom_ge he
  exact sum_forceOn slope _ _ e (by omega) (by omega) (by omega) (by omega)

/-- Sum of the forces recovered from the deviations in the force vector. -/
theorem sum_recovered (b : Build) (slope : Entry K → K) (c : Conf K) (hh : HalfList c)
    (hs : ∀ a ∈ c.atoms, forceScale b a ≠ 0) (force : Nat → V3 K)
    (hf : ∀ j a, c.atoms[j]? = some a → force (c.start + j) = deviation b slope c a (c.start + j)) :
    (c.atoms.zipIdx.map fun ak => (fun k => forceScale b ak.1 * force (c.start + ak.2) k +
      c.force0 (c.start + ak.2) k : V3 K)).sum = 0 := by
  rw [← sum_totalForce slope c hh, ← sum_zipIdx_range]
  congr 1
  apply List.map_congr_left
  intro ak hak
  have hk : c.atoms[ak.2]? = some ak.1 := List.mem_zipIdx_iff_getElem?.1 hak
  rw [hf _ _ hk]
  have := hs ak.1 (List.mem_of_getElem? hk)
  funext k
  unfold deviation
  field_simp
  ring

end Verif.Force
