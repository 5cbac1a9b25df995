import Verif.Lemmas.Order
/-!
# Lemmas on `DependencyGraph::groupedOrder`
-/
set_option autoImplicit false

namespace Verif.DG
open Verif Relation

structure GMap (d : DS) (is : List Nat) (m : Nat → Nat) (k : Nat) (m' : Nat → Nat) (k' : Nat) : Prop where
  le : k ≤ k'
  rng : ∀ i ∈ is, d.isRoot i = true → k ≤ m' i ∧ m' i < k'
  inj : ∀ i ∈ is, ∀ j ∈ is, d.isRoot i = true → d.isRoot j = true → m' i = m' j → i = j
  surj : ∀ c, k ≤ c → c < k' → ∃ i ∈ is, d.isRoot i = true ∧ m' i = c
  frame : ∀ i, i ∉ is → m' i = m i

theorem groupMap_spec (d : DS) (is : List Nat) (hnd : is.Nodup) (m : Nat → Nat) (k : Nat) :
    GMap d is m k (groupMap d is m k).1 (groupMap d is m k).2 := by
  induction is generalizing m k with
  | nil => exact ⟨Nat.le_refl _, by simp, by simp, by intro c h1 h2; simp only [groupMap] at h2; omega, by simp [groupMap]⟩
  | cons i is ih =>
    obtain ⟨h1, h2⟩ := List.nodup_cons.mp hnd
    simp only [groupMap]
    by_cases hr : d.isRoot i = true
    · rw [if_pos hr]
      have h := ih h2 (upd m i k) (k + 1)
      have hi : (groupMap d is (upd m i k) (k + 1)).1 i = k := by rw [h.frame i h1]; simp [upd]
      have hle := h.le
      refine ⟨by omega, ?_, ?_, ?_, ?_⟩
      · intro j hj hjr
        rcases List.mem_cons.mp hj with rfl | hj
        · rw [hi]; omega
        · have := h.rng j hj hjr; omega
      · intro a ha b hb har hbr hab
        rcases List.mem_cons.mp ha with ha' | ha' <;> rcases List.mem_cons.mp hb with hb' | hb'
        · omega
        · have := h.rng b hb' hbr; rw [ha', hi] at hab; omega
        · have := h.rng a ha' har; rw [hb', hi] at hab; omega
        · exact h.inj a ha' b hb' har hbr hab
      · intro c hc1 hc2
        by_cases hck : c = k
        · exact ⟨i, List.mem_cons_self, hr, by omega⟩
        · obtain ⟨j, hj, hjr, hjc⟩ := h.surj c (by omega) hc2
          exact ⟨j, List.mem_cons_of_mem _ hj, hjr, hjc⟩
      · intro j hj
        rw [h.frame j (fun hh => hj (List.mem_cons_of_mem _ hh))]
        have : j ≠ i := fun hh => hj (by simp [hh])
        simp [upd, this]
    · rw [if_neg hr]
      have h := ih h2 m k
      refine ⟨h.le, ?_, ?_, ?_, ?_⟩
      · intro j hj hjr
        rcases List.mem_cons.mp hj with rfl | hj
        · exact absurd hjr hr
        · exact h.rng j hj hjr
      · intro a ha b hb har hbr hab
        rcases List.mem_cons.mp ha with ha' | ha' <;> rcases List.mem_cons.mp hb with hb' | hb'
        · omega
        · exact absurd (ha' ▸ har) hr
        · exact absurd (hb' ▸ hbr) hr
        · exact h.inj a ha' b hb' har hbr hab
      · intro c hc1 hc2
        obtain ⟨j, hj, hjr, hjc⟩ := h.surj c hc1 hc2
        exact ⟨j, List.mem_cons_of_mem _ hj, hjr, hjc⟩
      · intro j hj
        exact h.frame j (fun hh => hj (List.mem_cons_of_mem _ hh))

/-- Group of a node -/
def grp (d : DS) (n : Nat) (m : Nat → Nat) (i : Nat) : Nat := m ((d.root n i).getD 0)

theorem populate_spec {n : Nat} {d : DS} (hd : DSInv n d) (m : Nat → Nat) (l : List Nat) (hl : ∀ x ∈ l, x < n)
    (gs : List (List Nat)) :
    ∃ gs', populate d (n + 1) m l gs = some gs' ∧ gs'.length = gs.length ∧
      ∀ j, j < gs.length → gs'[j]? = some (gs.getD j [] ++ l.filter (fun i => decide (grp d (n + 1) m i = j))) := by
  induction l generalizing gs with
  | nil =>
    refine ⟨gs, rfl, rfl, ?_⟩
    intro j hj
    simp [List.getElem?_eq_getElem hj]
  | cons i l ih =>
    obtain ⟨r, hr, _⟩ := root_total hd i (hl i List.mem_cons_self)
    simp only [populate, hr]
    obtain ⟨gs', h1, h2, h3⟩ := ih (fun x hx => hl x (List.mem_cons_of_mem _ hx)) (gs.modify (m r) (· ++ [i]))
    refine ⟨gs', h1, by simpa using h2, ?_⟩
    intro j hj
    have hj' : j < (gs.modify (m r) (· ++ [i])).length := by simpa using hj
    rw [h3 j hj']
    have hg : grp d (n + 1) m i = m r := by simp [grp, hr]
    simp only [List.filter_cons, hg]
    by_cases hm : m r = j
    · subst hm
      simp [List.getD_eq_getElem?_getD, List.getElem?_eq_getElem hj]
    · simp [hm, List.getD_eq_getElem?_getD]

/-- Complete description of the result of `groupedOrder`. -/
theorem groupedOrder_spec {g : Graph} {n : Nat} {E : Nat → Nat → Prop} (hg : Inv g n E) {st : St} (ho : g.order_ = .ok st)
    (hi : OInv n E st) :
    ∃ (grpOf : Nat → Nat) (k : Nat) (gs : List (List Nat)), g.groupedOrder = .ok gs ∧
      gs = (List.range k).map (fun j => st.order.filter (fun i => decide (grpOf i = j))) ∧
      (∀ i, i < n → grpOf i < k) ∧
      (∀ i j, i < n → j < n → (grpOf i = grpOf j ↔ Conn st.comps i j)) ∧
      (∀ j, j < k → ∃ i, i < n ∧ grpOf i = j) := by
  have hsz : g.size = n := hg.rlen
  have hm := groupMap_spec st.comps (List.range g.size) List.nodup_range (fun _ => 0) 0
  generalize hmk : groupMap st.comps (List.range g.size) (fun _ => 0) 0 = mk at hm
  obtain ⟨m, k⟩ := mk
  simp only at hm
  have hlt : ∀ x ∈ st.order, x < n := fun x hx => hi.lt x ((hi.vis x).mpr (Or.inl hx))
  obtain ⟨gs, h1, h2, h3⟩ := populate_spec hi.ds m st.order hlt (List.replicate k [])
  have hroot : ∀ i, i < n → ∃ r, st.comps.root (n + 1) i = some r ∧ RootOf st.comps i r ∧ r < n ∧ st.comps.isRoot r = true := by
    intro i hin
    obtain ⟨r, hr, hr2⟩ := root_total hi.ds i hin
    exact ⟨r, hr, hr2, hr2.lt hi.ds hin, by simp [DS.isRoot, hr2.isRoot]⟩
  refine ⟨grp st.comps (n + 1) m, k, gs, ?_, ?_, ?_, ?_, ?_⟩
  · unfold Graph.groupedOrder
    rw [ho]
    simp only [hmk]
    rw [hsz, h1]
  · apply List.ext_getElem?
    intro j
    simp only [List.length_replicate] at h2 h3
    by_cases hj : j < k
    · rw [h3 j hj]
      simp [hj]
    · rw [List.getElem?_eq_none (by omega), List.getElem?_eq_none (by simp; omega)]
  · intro i hin
    obtain ⟨r, hr, _, hrn, hrr⟩ := hroot i hin
    simp only [grp, hr, Option.getD_some]
    exact (hm.rng r (by rw [hsz]; simpa using hrn) hrr).2
  · intro i j hin hjn
    obtain ⟨r, hr, hr2, hrn, hrr⟩ := hroot i hin
    obtain ⟨s, hs, hs2, hsn, hsr⟩ := hroot j hjn
    simp only [grp, hr, hs, Option.getD_some]
    constructor
    · intro h
      have := hm.inj r (by rw [hsz]; simpa using hrn) s (by rw [hsz]; simpa using hsn) hrr hsr h
      subst this
      exact ⟨r, hr2, hs2⟩
    · rintro ⟨t, ht1, ht2⟩
      rw [hr2.det ht1, hs2.det ht2]
  · intro j hj
    obtain ⟨i, hi1, hi2, hi3⟩ := hm.surj j (Nat.zero_le _) hj
    have hin : i < n := by rw [hsz] at hi1; simpa using hi1
    refine ⟨i, hin, ?_⟩
    obtain ⟨r, hr, hr2, hrn, hrr⟩ := hroot i hin
    have : i = r := (RootOf.base i (by simpa [DS.isRoot] using hi2)).det hr2
    subst this
    simp only [grp, hr, Option.getD_some, hi3]

end Verif.DG
