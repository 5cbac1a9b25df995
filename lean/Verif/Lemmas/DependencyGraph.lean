import Verif.Model.DependencyGraph
/-!
# Representation invariant of the dependency graph
-/
set_option autoImplicit false

namespace Verif.DG
open Verif

/-- Id, before the removal of the node `id`, of the node whose id is `x` afterwards. -/
def unshift (id x : Nat) : Nat := if x < id then x else x + 1

/-- Strictly increasing list of edges. -/
def Sorted (l : List (Nat × Nat)) : Prop := l.Pairwise (fun a b => edgeLt a b = true)

theorem edgeLt_iff (a b : Nat × Nat) : edgeLt a b = true ↔ a.1 < b.1 ∨ (a.1 = b.1 ∧ a.2 < b.2) := by
  simp [edgeLt]

theorem mem_insertEdge (e x : Nat × Nat) (l : List (Nat × Nat)) : x ∈ insertEdge e l ↔ x = e ∨ x ∈ l := by
  induction l with
  | nil => simp [insertEdge]
  | cons y l ih =>
    simp only [insertEdge]
    split
    · simp
    · split
      · next h => subst h; simp
      · simp only [List.mem_cons, ih]; grind

theorem sorted_insertEdge (e : Nat × Nat) (l : List (Nat × Nat)) (h : Sorted l) : Sorted (insertEdge e l) := by
  induction l with
  | nil => simp [insertEdge, Sorted]
  | cons y l ih =>
    have h' := List.pairwise_cons.mp h
    simp only [insertEdge]
    split
    · next hlt =>
      refine List.pairwise_cons.mpr ⟨?_, h⟩
      intro b hb
      rcases List.mem_cons.mp hb with rfl | hb
      · exact hlt
      · have := h'.1 b hb
        rw [edgeLt_iff] at this hlt ⊢
        omega
    · split
      · exact h
      · next h1 h2 =>
        refine List.pairwise_cons.mpr ⟨?_, ih h'.2⟩
        intro b hb
        rcases (mem_insertEdge _ _ _).mp hb with rfl | hb
        · rw [edgeLt_iff] at h1 ⊢
          have : b.1 ≠ y.1 ∨ b.2 ≠ y.2 := by
            by_cases hh : b.1 = y.1
            · right; intro hh2; exact h2 (Prod.ext hh hh2)
            · exact Or.inl hh
          omega
        · exact h'.1 b hb

theorem shift_unshift (id x : Nat) : shift id (unshift id x) = x := by
  unfold shift unshift; split <;> split <;> omega

theorem unshift_shift (id x : Nat) (h : x ≠ id) : unshift id (shift id x) = x := by
  unfold shift unshift; split <;> split <;> omega

theorem unshift_ne (id x : Nat) : unshift id x ≠ id := by unfold unshift; split <;> omega

theorem unshift_lt (id x n : Nat) (h : id < n) : unshift id x < n ↔ x < n - 1 := by
  unfold unshift; split <;> omega

theorem removeEdges_go (id : Nat) (l acc : List (Nat × Nat)) (x y : Nat) :
    (x, y) ∈ l.foldl (fun acc e => if e.1 = id ∨ e.2 = id then acc else insertEdge (shift id e.1, shift id e.2) acc) acc
      ↔ (x, y) ∈ acc ∨ (unshift id x, unshift id y) ∈ l := by
  induction l generalizing acc with
  | nil => simp
  | cons e l ih =>
    rw [List.foldl_cons, ih]
    obtain ⟨a, b⟩ := e
    by_cases h : a = id ∨ b = id
    · simp only [h, ite_true, List.mem_cons, Prod.mk.injEq]
      have h1 := unshift_ne id x
      have h2 := unshift_ne id y
      grind
    · simp only [h, ite_false, mem_insertEdge, List.mem_cons, Prod.mk.injEq]
      have h1 : x = shift id a ↔ unshift id x = a := by
        constructor
        · rintro rfl; exact unshift_shift id a (fun hh => h (Or.inl hh))
        · rintro rfl; exact (shift_unshift id x).symm
      have h2 : y = shift id b ↔ unshift id y = b := by
        constructor
        · rintro rfl; exact unshift_shift id b (fun hh => h (Or.inr hh))
        · rintro rfl; exact (shift_unshift id y).symm
      grind

theorem mem_removeEdges (id : Nat) (l : List (Nat × Nat)) (x y : Nat) :
    (x, y) ∈ removeEdges id l ↔ (unshift id x, unshift id y) ∈ l := by
  simp [removeEdges, removeEdges_go]

theorem sorted_removeEdges (id : Nat) (l : List (Nat × Nat)) : Sorted (removeEdges id l) := by
  have : ∀ acc, Sorted acc → Sorted (l.foldl (fun acc e => if e.1 = id ∨ e.2 = id then acc else insertEdge (shift id e.1, shift id e.2) acc) acc) := by
    induction l with
    | nil => intro acc h; exact h
    | cons e l ih =>
      intro acc h
      rw [List.foldl_cons]
      apply ih
      split
      · exact h
      · exact sorted_insertEdge _ _ h
  exact this [] List.Pairwise.nil

theorem mem_removeKid (id y : Nat) (l : List Nat) : y ∈ removeKid id l ↔ unshift id y ∈ l := by
  simp only [removeKid, List.mem_filterMap]
  constructor
  · rintro ⟨a, ha, h⟩
    have : unshift id y = a := by
      unfold unshift
      split at h
      · cases h; split <;> omega
      · split at h
        · cases h
        · cases h; split <;> omega
    exact this ▸ ha
  · intro h
    refine ⟨_, h, ?_⟩
    unfold unshift
    split
    · rw [if_neg (by omega), if_neg (by omega)]
    · rw [if_pos (by omega)]; rfl

theorem promote_spec (id : Nat) (E : List (Nat × Nat)) (kids : List Nat) (roots : List Bool) (x : Nat) :
    (promote id E kids roots).length = roots.length ∧
    (promote id E kids roots).getD x false =
      if x < roots.length ∧ x ∈ kids ∧ E.any (fun e => if x > id then e.2 + 1 == x else e.2 == x) = false then true
      else roots.getD x false := by
  induction kids generalizing roots with
  | nil => simp [promote]
  | cons c kids ih =>
    simp only [promote, List.foldl_cons] at ih ⊢
    by_cases h : E.any (fun e => if c > id then e.2 + 1 == c else e.2 == c) = true
    · rw [if_pos h]
      rw [(ih roots).1, (ih roots).2]
      refine ⟨rfl, ?_⟩
      by_cases hx : x = c
      · subst hx; simp only [h]; simp
      · simp [hx]
    · rw [if_neg h]
      rw [(ih _).1, (ih _).2]
      refine ⟨by simp, ?_⟩
      simp only [List.length_set]
      by_cases hx : x = c
      · subst hx
        simp only [Bool.not_eq_true] at h
        simp only [h, List.mem_cons, true_or, and_true]
        by_cases hl : x < roots.length <;> simp [hl, List.getD_eq_getElem?_getD]
      · simp [hx, List.getD_eq_getElem?_getD, Ne.symm hx]

/-- The members of the graph represent the graph with nodes `0..n-1` and edges `E`. -/
structure Inv (g : Graph) (n : Nat) (E : Nat → Nat → Prop) : Prop where
  rlen : g.roots.length = n
  clen : g.children.length = n
  sorted : Sorted g.edges
  edges : ∀ x y, (x, y) ∈ g.edges ↔ E x y
  kids : ∀ x y, y ∈ g.kids x ↔ E x y
  bnd : ∀ x y, E x y → x < n ∧ y < n
  roots : ∀ x, g.roots.getD x false = true ↔ x < n ∧ ∀ y, ¬ E y x

theorem inv_init : Inv {} 0 (fun _ _ => False) where
  rlen := rfl
  clen := rfl
  sorted := List.Pairwise.nil
  edges := by simp
  kids := by simp [Graph.kids]
  bnd := by simp
  roots := by simp

theorem inv_addNode {g : Graph} {n : Nat} {E : Nat → Nat → Prop} (h : Inv g n E) : Inv g.addNode.1 (n + 1) E where
  rlen := by simp [Graph.addNode, h.rlen]
  clen := by simp [Graph.addNode, h.clen]
  sorted := h.sorted
  edges := h.edges
  kids := by
    intro x y
    rw [← h.kids]
    simp only [Graph.kids, Graph.addNode, List.getD_eq_getElem?_getD]
    rcases Nat.lt_trichotomy x n with hx | hx | hx
    · rw [List.getElem?_append_left (by rw [h.clen]; exact hx)]
    · subst hx
      rw [List.getElem?_append_right (by rw [h.clen]; exact Nat.le_refl _)]
      simp [h.clen]
    · rw [List.getElem?_eq_none (by simp [h.clen]; omega), List.getElem?_eq_none (by rw [h.clen]; omega)]
  bnd := fun x y he => by have := h.bnd x y he; omega
  roots := by
    intro x
    have := h.roots x
    simp only [Graph.addNode, List.getD_eq_getElem?_getD] at this ⊢
    rcases Nat.lt_trichotomy x n with hx | hx | hx
    · rw [List.getElem?_append_left (by rw [h.rlen]; exact hx), this]
      simp [hx]; omega
    · subst hx
      rw [List.getElem?_append_right (by rw [h.rlen]; exact Nat.le_refl _)]
      simp [h.rlen]
      intro y he
      have := h.bnd _ _ he; omega
    · rw [List.getElem?_eq_none (by simp [h.rlen]; omega)]
      simp; omega

theorem addEdge_cases (g : Graph) (f t : Nat) :
    (g.addEdge f t = .ub ∧ ¬ (f < g.roots.length ∧ t < g.roots.length)) ∨
    (g.addEdge f t = .ok g false ∧ (f < g.roots.length ∧ t < g.roots.length) ∧ (f, t) ∈ g.edges) ∨
    (g.addEdge f t = .ok ⟨g.roots.set t false, g.children.modify f (· ++ [t]), insertEdge (f, t) g.edges⟩ true ∧ (f < g.roots.length ∧ t < g.roots.length) ∧ (f, t) ∉ g.edges) := by
  unfold Graph.addEdge
  split
  · next h => split
              · next h2 => exact Or.inr (Or.inl ⟨rfl, h, h2⟩)
              · next h2 => exact Or.inr (Or.inr ⟨rfl, h, h2⟩)
  · next h => exact Or.inl ⟨rfl, h⟩

theorem inv_addEdge {g g' : Graph} {n f t : Nat} {b : Bool} {E : Nat → Nat → Prop} (h : Inv g n E)
    (he : g.addEdge f t = .ok g' b) : Inv g' n (fun x y => E x y ∨ (x = f ∧ y = t)) := by
  rcases addEdge_cases g f t with ⟨h1, _⟩ | ⟨h1, hb, hm⟩ | ⟨h1, hb, hm⟩
  · rw [h1] at he; cases he
  · rw [h1] at he; cases he
    have : (fun x y => E x y ∨ (x = f ∧ y = t)) = E := by
      funext x y
      apply propext
      constructor
      · rintro (h2 | ⟨rfl, rfl⟩)
        · exact h2
        · exact (h.edges _ _).mp hm
      · exact Or.inl
    rw [this]; exact h
  · rw [h1] at he; cases he
    rw [h.rlen] at hb
    constructor
    · simp [h.rlen]
    · simp [h.clen]
    · exact sorted_insertEdge _ _ h.sorted
    · intro x y
      simp only [mem_insertEdge, h.edges, Prod.mk.injEq]; exact Or.comm
    · intro x y
      rw [← h.kids]
      simp only [Graph.kids, List.getD_eq_getElem?_getD, List.getElem?_modify]
      by_cases hx : f = x
      · subst hx
        have : f < g.children.length := by rw [h.clen]; exact hb.1
        simp [List.getElem?_eq_getElem this]
      · have : ¬ x = f := fun hh => hx hh.symm
        simp [hx, this]
    · rintro x y (h2 | ⟨rfl, rfl⟩)
      · exact h.bnd _ _ h2
      · exact hb
    · intro x
      have := h.roots x
      simp only [List.getD_eq_getElem?_getD, List.getElem?_set] at this ⊢
      by_cases hx : t = x
      · subst hx
        simp [h.rlen, hb.2]
        exact ⟨f, fun _ => rfl⟩
      · have hx' : ¬ x = t := fun hh => hx hh.symm
        simp [hx, this, hx']

theorem inv_removeNode {g g' : Graph} {n id : Nat} {E : Nat → Nat → Prop} (h : Inv g n E)
    (he : g.removeNode id = .ok g' ()) : Inv g' (n - 1) (fun x y => E (unshift id x) (unshift id y)) := by
  unfold Graph.removeNode at he
  split at he
  · next hid =>
    rw [h.rlen] at hid
    cases he
    constructor
    · simp only [List.length_eraseIdx, (promote_spec _ _ _ _ 0).1, h.rlen, hid, ite_true]
    · simp only [List.length_map, List.length_eraseIdx, h.clen, hid, ite_true]
    · exact sorted_removeEdges _ _
    · intro x y; rw [mem_removeEdges, h.edges]
    · intro x y
      rw [← h.kids, ← mem_removeKid]
      simp only [Graph.kids, List.getD_eq_getElem?_getD, List.getElem?_map, List.getElem?_eraseIdx, unshift]
      split
      · cases hx : g.children[x]? <;> simp [removeKid]
      · cases hx : g.children[x+1]? <;> simp [removeKid]
    · intro x y h2
      have := h.bnd _ _ h2
      rw [unshift_lt _ _ _ hid, unshift_lt _ _ _ hid] at this
      exact this
    · intro x
      have e1 : ((promote id (removeEdges id g.edges) (g.kids id) g.roots).eraseIdx id).getD x false =
          (promote id (removeEdges id g.edges) (g.kids id) g.roots).getD (unshift id x) false := by
        simp only [List.getD_eq_getElem?_getD, List.getElem?_eraseIdx, unshift]
        split <;> rfl
      have hu := unshift_lt id x n hid
      have hne := unshift_ne id x
      rw [e1, (promote_spec _ _ _ _ _).2, h.rlen]
      have e2 : (removeEdges id g.edges).any (fun e => if unshift id x > id then e.2 + 1 == unshift id x else e.2 == unshift id x) = false
          ↔ ∀ y, ¬ E (unshift id y) (unshift id x) := by
        rw [List.any_eq_false]
        have e3 : ∀ z, (if unshift id x > id then z + 1 == unshift id x else z == unshift id x) = true ↔ z = x := by
          intro z
          unfold unshift
          split <;> split <;> simp <;> omega
        constructor
        · intro h1 y hy
          refine h1 (y, x) ((mem_removeEdges _ _ _ _).mpr ((h.edges _ _).mpr hy)) ?_
          exact (e3 x).mpr rfl
        · rintro h1 ⟨a, b⟩ hab hc
          have := (e3 b).mp hc
          subst this
          exact h1 a ((h.edges _ _).mp ((mem_removeEdges _ _ _ _).mp hab))
      by_cases hc : unshift id x < n ∧ unshift id x ∈ g.kids id ∧ (removeEdges id g.edges).any (fun e => if unshift id x > id then e.2 + 1 == unshift id x else e.2 == unshift id x) = false
      · rw [if_pos hc]
        replace hc := And.intro hc.1 (And.intro ((h.kids _ _).mp hc.2.1) (e2.mp hc.2.2))
        exact ⟨fun _ => ⟨hu.mp hc.1, hc.2.2⟩, fun _ => rfl⟩
      · rw [if_neg hc]
        rw [h.roots, hu]
        constructor
        · rintro ⟨h1, h2⟩; exact ⟨h1, fun y => h2 _⟩
        · rintro ⟨h1, h2⟩
          refine ⟨h1, fun y hy => ?_⟩
          by_cases hyid : y = id
          · subst hyid; exact hc ⟨hu.mpr h1, (h.kids _ _).mpr hy, e2.mpr h2⟩
          · apply h2 (shift id y)
            rw [unshift_shift _ _ hyid]; exact hy
  · cases he

end Verif.DG
