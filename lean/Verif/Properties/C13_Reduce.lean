import Verif.Properties.C09_DependencyGraph
import Verif.Lemmas.Scc
/-!
# C13: `DependencyGraph::reduce` condenses the strongly connected components
-/
set_option autoImplicit false

namespace Verif.C13
open Verif Verif.DG Verif.C09 Relation

/-- Relation between the parts of a partition: distinct parts, a node of the first depends on a node of the second. -/
def Quotient (E : Nat → Nat → Prop) (parts : List (List Nat)) (f t : Nat) : Prop :=
  f ≠ t ∧ ∃ C D x y, parts[f]? = some C ∧ parts[t]? = some D ∧ x ∈ C ∧ y ∈ D ∧ E x y

theorem foldl_upd (c : List Nat) (m : Nat → Nat) (i x : Nat) :
    c.foldl (fun m j => upd m j i) m x = if x ∈ c then i else m x := by
  induction c generalizing m with
  | nil => simp
  | cons a c ih =>
    rw [List.foldl_cons, ih]
    simp only [upd, List.mem_cons]
    by_cases h1 : x ∈ c <;> by_cases h2 : x = a <;> simp [h1, h2]

theorem vert2SCC_frame (i : Nat) (cs : List (List Nat)) (m : Nat → Nat) (x : Nat) (hx : x ∉ cs.flatten) :
    vert2SCC i cs m x = m x := by
  induction cs generalizing i m with
  | nil => rfl
  | cons c cs ih =>
    simp only [List.flatten_cons, List.mem_append, not_or] at hx
    rw [vert2SCC, ih _ _ hx.2, foldl_upd, if_neg hx.1]

theorem vert2SCC_mem (i : Nat) (cs : List (List Nat)) (m : Nat → Nat) (hnd : cs.flatten.Nodup) (j x : Nat) (C : List Nat)
    (hC : cs[j]? = some C) (hx : x ∈ C) : vert2SCC i cs m x = i + j := by
  induction cs generalizing i m j with
  | nil => simp at hC
  | cons c cs ih =>
    rw [List.flatten_cons, List.nodup_append] at hnd
    rw [vert2SCC]
    cases j with
    | zero =>
      simp only [List.getElem?_cons_zero, Option.some.injEq] at hC
      subst hC
      have : x ∉ cs.flatten := fun h => hnd.2.2 x hx x h rfl
      rw [vert2SCC_frame _ _ _ _ this, foldl_upd, if_pos hx]
      rfl
    | succ j =>
      rw [List.getElem?_cons_succ] at hC
      rw [ih _ _ hnd.2.1 j hC]
      omega

theorem reduceEdges_spec (m : Nat → Nat) (l : List (Nat × Nat)) {g : Graph} {k : Nat} {E : Nat → Nat → Prop} (h : Reach g k E)
    (hm : ∀ a b, (a, b) ∈ l → m a < k ∧ m b < k) :
    ∃ g' E', reduceEdges m l g = some g' ∧ Reach g' k E' ∧
      ∀ f t, E' f t ↔ E f t ∨ ∃ a b, (a, b) ∈ l ∧ m a ≠ m b ∧ f = m a ∧ t = m b := by
  induction l generalizing g E with
  | nil => exact ⟨g, E, rfl, h, by simp⟩
  | cons e l ih =>
    obtain ⟨a, b⟩ := e
    have hm' : ∀ a b, (a, b) ∈ l → m a < k ∧ m b < k := fun a b hab => hm a b (List.mem_cons_of_mem _ hab)
    simp only [reduceEdges]
    by_cases hab : m a ≠ m b
    · rw [if_pos hab]
      have := hm a b List.mem_cons_self
      obtain ⟨g1, b1, h1, -⟩ := C11_addEdge_flag h (m a) (m b) this.1 this.2
      rw [h1]
      obtain ⟨g', E', h2, h3, h4⟩ := ih (.addEdge (m a) (m b) h h1) hm'
      refine ⟨g', E', h2, h3, ?_⟩
      intro f t
      rw [h4]
      constructor
      · rintro ((h5 | ⟨rfl, rfl⟩) | ⟨c, d, h5, h6⟩)
        · exact Or.inl h5
        · exact Or.inr ⟨a, b, List.mem_cons_self, hab, rfl, rfl⟩
        · exact Or.inr ⟨c, d, List.mem_cons_of_mem _ h5, h6⟩
      · rintro (h5 | ⟨c, d, h5, h6, h7, h8⟩)
        · exact Or.inl (Or.inl h5)
        · rcases List.mem_cons.mp h5 with h5 | h5
          · cases h5; exact Or.inl (Or.inr ⟨h7, h8⟩)
          · exact Or.inr ⟨c, d, h5, h6, h7, h8⟩
    · rw [if_neg hab]
      obtain ⟨g', E', h2, h3, h4⟩ := ih h hm'
      refine ⟨g', E', h2, h3, ?_⟩
      intro f t
      rw [h4]
      constructor
      · rintro (h5 | ⟨c, d, h5, h6⟩)
        · exact Or.inl h5
        · exact Or.inr ⟨c, d, List.mem_cons_of_mem _ h5, h6⟩
      · rintro (h5 | ⟨c, d, h5, h6, h7, h8⟩)
        · exact Or.inl h5
        · rcases List.mem_cons.mp h5 with h5 | h5
          · cases h5; exact absurd h6 hab
          · exact Or.inr ⟨c, d, h5, h6, h7, h8⟩

theorem addNodes_reach (k : Nat) {g : Graph} {n : Nat} {E : Nat → Nat → Prop} (h : Reach g n E) : Reach (addNodes k g) (n + k) E := by
  induction k generalizing g n with
  | zero => exact h
  | succ k ih =>
    have := ih (Reach.addNode h)
    rw [show n + (k + 1) = n + 1 + k by omega]
    exact this

/-- `reduce` returns the partition of the nodes in classes of mutually dependent nodes, and the graph between the
classes; this graph is acyclic. -/
theorem C13_reduce {g : Graph} {n : Nat} {E : Nat → Nat → Prop} (h : Reach g n E) :
    ∃ parts r, g.reduce = .ok (parts, r) ∧
      -- partition of the nodes in non-empty parts
      parts.flatten.Nodup ∧ (∀ x, x < n ↔ ∃ C ∈ parts, x ∈ C) ∧ (∀ C ∈ parts, C ≠ []) ∧
      -- two nodes are together iff each depends on the other
      (∀ C ∈ parts, ∀ x ∈ C, ∀ y, y ∈ C ↔ ReflTransGen E x y ∧ ReflTransGen E y x) ∧
      -- the returned graph is the quotient graph
      Reach r parts.length (Quotient E parts) ∧
      Acyclic (Quotient E parts) := by
  have hi := reach_inv h
  obtain ⟨s, h1, h2, h3, h4⟩ := sccAll_total hi
  have hidx : ∀ x, x < n → ∃ j C, s.ret[j]? = some C ∧ x ∈ C ∧ j < s.ret.length ∧ vert2SCC 0 s.ret (fun _ => 0) x = j := by
    intro x hx
    obtain ⟨C, hC, hxC⟩ := (h3 x).mp hx
    obtain ⟨j, hj, hjC⟩ := List.mem_iff_getElem.mp hC
    have hj' : s.ret[j]? = some C := by rw [List.getElem?_eq_getElem hj, hjC]
    exact ⟨j, C, hj', hxC, hj, by rw [vert2SCC_mem 0 _ _ h2 j x C hj' hxC]; omega⟩
  obtain ⟨r, E', e1, e2, e3⟩ := reduceEdges_spec (vert2SCC 0 s.ret (fun _ => 0)) g.edges (addNodes_reach s.ret.length .init) (by
    intro a b hab
    have hb := hi.bnd _ _ ((hi.edges a b).mp hab)
    obtain ⟨j, C, _, _, hj, hja⟩ := hidx a hb.1
    obtain ⟨j', C', _, _, hj', hjb⟩ := hidx b hb.2
    rw [hja, hjb]
    omega)
  have hE' : E' = Quotient E s.ret := by
    funext f t
    apply propext
    rw [e3]
    constructor
    · rintro (h5 | ⟨a, b, h5, h6, rfl, rfl⟩)
      · exact h5.elim
      · have hE := (hi.edges a b).mp h5
        have hb := hi.bnd _ _ hE
        obtain ⟨j, C, hC, ha, _, hja⟩ := hidx a hb.1
        obtain ⟨j', C', hC', hb', _, hjb⟩ := hidx b hb.2
        exact ⟨h6, C, C', a, b, by rw [hja]; exact hC, by rw [hjb]; exact hC', ha, hb', hE⟩
    · rintro ⟨hne, C, D, x, y, hC, hD, hx, hy, hE⟩
      have mx := vert2SCC_mem 0 s.ret (fun _ => 0) h2 f x C hC hx
      have my := vert2SCC_mem 0 s.ret (fun _ => 0) h2 t y D hD hy
      exact Or.inr ⟨x, y, (hi.edges x y).mpr hE, by omega, by omega, by omega⟩
  refine ⟨s.ret, r, ?_, h2, h3, fun C hC => (h4 C hC).1, fun C hC => (h4 C hC).2, ?_, ?_⟩
  · unfold Graph.reduce
    rw [h1]
    simp only [e1]
  · have := e2
    rw [hE'] at this
    rwa [show s.ret.length = 0 + s.ret.length by omega]
  · -- a path between parts gives a path between any of their nodes
    have hstep : ∀ f t, Quotient E s.ret f t → ∀ C D, s.ret[f]? = some C → s.ret[t]? = some D →
        ∀ x ∈ C, ∀ y ∈ D, ReflTransGen E x y := by
      rintro f t ⟨_, C, D, x, y, hC, hD, hx, hy, hE⟩ C' D' hC' hD' x' hx' y' hy'
      rw [hC] at hC'; cases hC'
      rw [hD] at hD'; cases hD'
      have k1 := ((h4 C (List.mem_of_getElem? hC)).2 x' hx' x).mp hx
      have k2 := ((h4 D (List.mem_of_getElem? hD)).2 y hy y').mp hy'
      exact k1.1.trans (ReflTransGen.head hE k2.1)
    have hpart : ∀ f t, Quotient E s.ret f t → ∃ C D, s.ret[f]? = some C ∧ s.ret[t]? = some D ∧ (∃ x, x ∈ C) ∧ ∃ x, x ∈ D := by
      rintro f t ⟨_, C, D, x, y, hC, hD, hx, hy, _⟩
      exact ⟨C, D, hC, hD, ⟨x, hx⟩, ⟨y, hy⟩⟩
    have hpath : ∀ f t, TransGen (Quotient E s.ret) f t → ∀ C D, s.ret[f]? = some C → s.ret[t]? = some D →
        ∀ x ∈ C, ∀ y ∈ D, ReflTransGen E x y := by
      intro f t hft
      induction hft with
      | single h => exact hstep _ _ h
      | tail _ h ih =>
        intro C D hC hD x hx y hy
        obtain ⟨C', D', hC', hD', ⟨z, hz⟩, _⟩ := hpart _ _ h
        exact (ih C C' hC hC' x hx z hz).trans (hstep _ _ h C' D hC' hD z hz y hy)
    intro f hf
    obtain ⟨t, h5, h6⟩ := TransGen.head'_iff.mp hf
    obtain ⟨C, D, hC, hD, ⟨x, hx⟩, ⟨y, hy⟩⟩ := hpart _ _ h5
    have k1 := hstep _ _ h5 C D hC hD x hx y hy
    have hne : f ≠ t := h5.1
    have k2 : ReflTransGen E y x := by
      rcases ReflTransGen.cases_head h6 with e | ⟨c, hc1, hc2⟩
      · exact absurd e.symm hne
      · exact hpath t f (TransGen.head' hc1 hc2) D C hD hC y hy x hx
    have hyC := ((h4 C (List.mem_of_getElem? hC)).2 x hx y).mpr ⟨k1, k2⟩
    have m1 := vert2SCC_mem 0 s.ret (fun _ => 0) h2 f y C hC hyC
    have m2 := vert2SCC_mem 0 s.ret (fun _ => 0) h2 t y D hD hy
    omega

/-- The graph returned by `reduce` can be ordered: all the parts are listed, each after the parts it depends on. -/
theorem C13_reduce_order {g : Graph} {n : Nat} {E : Nat → Nat → Prop} (h : Reach g n E) {parts : List (List Nat)} {r : Graph}
    (hr : g.reduce = .ok (parts, r)) :
    ∃ l, r.order = .ok l ∧ l.Nodup ∧ (∀ i, i ∈ l ↔ i < parts.length) ∧ DepOrder (Quotient E parts) l := by
  obtain ⟨parts', r', e, -, -, -, -, h5, h6⟩ := C13_reduce h
  rw [hr] at e; cases e
  obtain ⟨l, a, b, c⟩ := C10_acyclic_complete h5 h6
  exact ⟨l, a, b, c, (C09_order h5 a).2.1⟩

/-- Example: two intertwined cycles, a node between them, a self-dependency. -/
def exOps : List Op := [.node, .node, .node, .node, .node, .node, .node, .edge 0 1, .edge 1 2, .edge 2 0, .edge 2 3, .edge 3 4,
  .edge 4 5, .edge 5 4, .edge 0 5, .edge 6 6]

example : ((build exOps {}).map (fun g => (g.reduce.toOption.map (fun p => (p.1, p.2.edges))))) =
    some (some ([[5, 4], [3], [2, 1, 0], [6]], [(1, 0), (2, 0), (2, 1)])) := by decide

-- 0 ⇄ 1 → 2, and the theorems applied to it
theorem exR_reach : Reach ((build [.node, .node, .node, .edge 0 1, .edge 1 0, .edge 1 2] {}).get (by decide)) 3
    (fun x y => ((False ∨ x = 0 ∧ y = 1) ∨ x = 1 ∧ y = 0) ∨ x = 1 ∧ y = 2) :=
  .addEdge 1 2 (.addEdge 1 0 (.addEdge 0 1 (.addNode (.addNode (.addNode .init))) rfl) rfl) rfl

example := C13_reduce exR_reach
example : ∃ parts r, ((build [.node, .node, .node, .edge 0 1, .edge 1 0, .edge 1 2] {}).get (by decide)).reduce = .ok (parts, r) ∧
    ∃ l, r.order = .ok l ∧ l.Nodup := by
  obtain ⟨parts, r, h, _⟩ := C13_reduce exR_reach
  obtain ⟨l, h1, h2, _⟩ := C13_reduce_order exR_reach h
  exact ⟨parts, r, h, l, h1, h2⟩

end Verif.C13
