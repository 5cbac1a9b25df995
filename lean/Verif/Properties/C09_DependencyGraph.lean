import Verif.Lemmas.GroupedOrder
/-!
# C09–C12: ordering of dependency graphs

Properties of `tvm::graph::internal::DependencyGraph` for every graph that can be built with its API.
-/
set_option autoImplicit false

namespace Verif.C09
open Verif Verif.DG Relation

/-! ## Specification

An abstract graph is a number of nodes and a relation `E` on the node ids: `E x y` when `x` depends on `y`. -/

/-- Id, before the removal of the node `id`, of the node that has the id `x` afterwards. -/
def before (id x : Nat) : Nat := if x < id then x else x + 1

/-- The object `g` can be obtained by a history of calls that describes the graph with `n` nodes and edges `E`.
A call on a node id that does not exist is undefined behaviour, hence the hypotheses that the calls return. -/
inductive Reach : Graph → Nat → (Nat → Nat → Prop) → Prop where
  | init : Reach {} 0 (fun _ _ => False)
  | addNode {g n E} : Reach g n E → Reach g.addNode.1 (n + 1) E
  | addEdge {g n E g' b} (f t : Nat) : Reach g n E → g.addEdge f t = .ok g' b →
      Reach g' n (fun x y => E x y ∨ (x = f ∧ y = t))
  | removeNode {g n E g'} (id : Nat) : Reach g n E → g.removeNode id = .ok g' () →
      Reach g' (n - 1) (fun x y => E (before id x) (before id y))
  | clear {g n E} : Reach g n E → Reach g.clear 0 (fun _ _ => False)

/-- No node depends, directly or not, on itself. -/
def Acyclic (E : Nat → Nat → Prop) : Prop := ∀ x, ¬ TransGen E x x

/-- Each node of the list comes after all the nodes it depends on. -/
def DepOrder (E : Nat → Nat → Prop) (l : List Nat) : Prop :=
  ∀ a v b, l = a ++ v :: b → ∀ w, E v w → w ∈ a

/-- `r` is a node no node depends on. -/
def IsTop (n : Nat) (E : Nat → Nat → Prop) (r : Nat) : Prop := r < n ∧ ∀ y, ¬ E y r

/-! ## Invariant -/

theorem before_eq : before = unshift := rfl

theorem reach_inv {g : Graph} {n : Nat} {E : Nat → Nat → Prop} (h : Reach g n E) : Inv g n E := by
  induction h with
  | init => exact inv_init
  | addNode _ ih => exact inv_addNode ih
  | addEdge f t _ he ih => exact inv_addEdge ih he
  | removeNode id _ he ih => exact inv_removeNode ih he
  | clear _ _ => exact inv_init

theorem order_cases {g : Graph} {n : Nat} {E : Nat → Nat → Prop} (h : Reach g n E) :
    (∃ l, g.order = .ok l ∧ Topo E l ∧ (n = 0 ∨ ∃ r, IsTop n E r) ∧
      (∀ x, x ∈ l ↔ ∃ r, IsTop n E r ∧ ReflTransGen E r x)) ∨
    (g.order = .error .cycle ∧ ∃ r x, IsTop n E r ∧ ReflTransGen E r x ∧ TransGen E x x) ∨
    (g.order = .error .noRoot ∧ n ≠ 0 ∧ ∀ r, ¬ IsTop n E r) := by
  unfold Graph.order
  rcases orderAux_spec (reach_inv h) with ⟨st, h1, h2, h3, h4⟩ | ⟨h1, r, x, h2, h3, h4⟩ | ⟨h1, h2, h3⟩
  · rw [h1]
    refine Or.inl ⟨_, rfl, h2.topo, h3, ?_⟩
    intro x
    rw [h4]
    constructor
    · rintro ⟨r, a, b, c⟩; exact ⟨r, ⟨a, b⟩, c⟩
    · rintro ⟨r, ⟨a, b⟩, c⟩; exact ⟨r, a, b, c⟩
  · rw [h1]; exact Or.inr (Or.inl ⟨rfl, r, x, ⟨h2, h3⟩, h4⟩)
  · rw [h1]
    refine Or.inr (Or.inr ⟨rfl, h2, ?_⟩)
    rintro r ⟨hr, hr2⟩
    obtain ⟨y, hy⟩ := h3 r hr
    exact hr2 y hy

/-! ## C09 -/

/-- If `order` returns, no node is listed twice and every node is listed after all the nodes it depends on. -/
theorem C09_order {g : Graph} {n : Nat} {E : Nat → Nat → Prop} (h : Reach g n E) {l : List Nat} (ho : g.order = .ok l) :
    l.Nodup ∧ DepOrder E l ∧ ∀ x ∈ l, x < n := by
  rcases order_cases h with ⟨l', h1, h2, h3, h4⟩ | ⟨h1, -⟩ | ⟨h1, -⟩
  · rw [ho] at h1; cases h1
    refine ⟨topo_nodup h2, fun a v b e w hw => (h2 a v b e).1 w hw, ?_⟩
    intro x hx
    obtain ⟨r, hr, hrx⟩ := (h4 x).mp hx
    rcases ReflTransGen.cases_tail hrx with e | ⟨c, _, e⟩
    · subst e; exact hr.1
    · exact ((reach_inv h).bnd _ _ e).2
  · rw [ho] at h1; cases h1
  · rw [ho] at h1; cases h1

/-- The recursion of `order` is never deeper than the number of nodes plus one, and the one of its disjoint-set
structure neither: the outcome that stands for a deeper recursion never occurs. -/
theorem C09_no_overflow {g : Graph} {n : Nat} {E : Nat → Nat → Prop} (h : Reach g n E) : g.order ≠ .error .fuel := by
  rcases order_cases h with ⟨l', h1, -⟩ | ⟨h1, -⟩ | ⟨h1, -⟩ <;> rw [h1] <;> intro hh <;> cases hh

/-! ## C10 -/

/-- For an acyclic graph, `order` returns all the nodes, each once. -/
theorem C10_acyclic_complete {g : Graph} {n : Nat} {E : Nat → Nat → Prop} (h : Reach g n E) (hac : Acyclic E) :
    ∃ l, g.order = .ok l ∧ l.Nodup ∧ ∀ x, x ∈ l ↔ x < n := by
  have hb := (reach_inv h).bnd
  rcases order_cases h with ⟨l, h1, h2, h3, h4⟩ | ⟨-, r, x, -, -, hx⟩ | ⟨-, h0, h1⟩
  · refine ⟨l, h1, topo_nodup h2, fun x => ⟨(C09_order h h1).2.2 x, fun hx => ?_⟩⟩
    obtain ⟨r, a, b, c⟩ := acyclic_reach hb hac x hx
    exact (h4 x).mpr ⟨r, ⟨a, b⟩, c⟩
  · exact absurd hx (hac x)
  · obtain ⟨r, a, b, c⟩ := acyclic_reach hb hac 0 (by omega)
    exact absurd ⟨a, b⟩ (h1 r)

/-- Exact condition under which `order` returns. -/
theorem C10_returns_iff {g : Graph} {n : Nat} {E : Nat → Nat → Prop} (h : Reach g n E) :
    (∃ l, g.order = .ok l) ↔
      (n = 0 ∨ ∃ r, IsTop n E r) ∧ ¬ ∃ r x, IsTop n E r ∧ ReflTransGen E r x ∧ TransGen E x x := by
  rcases order_cases h with ⟨l, h1, h2, h3, h4⟩ | ⟨h1, hx⟩ | ⟨h1, h0, hx⟩
  · refine ⟨fun _ => ⟨h3, ?_⟩, fun _ => ⟨l, h1⟩⟩
    rintro ⟨r, x, a, b, c⟩
    exact topo_acyclic h2 ((h4 x).mpr ⟨r, a, b⟩) c
  · constructor
    · rintro ⟨l, hl⟩; rw [hl] at h1; cases h1
    · rintro ⟨_, hh⟩; exact absurd hx hh
  · constructor
    · rintro ⟨l, hl⟩; rw [hl] at h1; cases h1
    · rintro ⟨h2 | ⟨r, hr⟩, _⟩
      · exact absurd h2 h0
      · exact absurd hr (hx r)

/-- When every node is reachable from a node without dependent, `order` throws exactly for the graphs with a cycle. -/
theorem C10_throws_iff_cycle {g : Graph} {n : Nat} {E : Nat → Nat → Prop} (h : Reach g n E)
    (hr : ∀ x, x < n → ∃ r, IsTop n E r ∧ ReflTransGen E r x) :
    (∃ e, g.order = .error e) ↔ ∃ x, TransGen E x x := by
  have hb := (reach_inv h).bnd
  constructor
  · rintro ⟨e, he⟩
    apply Classical.byContradiction
    intro hc
    obtain ⟨l, hl, -⟩ := C10_acyclic_complete h (fun x hx => hc ⟨x, hx⟩)
    rw [he] at hl; cases hl
  · rintro ⟨x, hx⟩
    cases ho : g.order with
    | error e => exact ⟨e, rfl⟩
    | ok l =>
      exfalso
      have hret := (C10_returns_iff h).mp ⟨l, ho⟩
      have hxn : x < n := by
        obtain ⟨c, hc, _⟩ := TransGen.head'_iff.mp hx
        exact (hb _ _ hc).1
      obtain ⟨r, hr1, hr2⟩ := hr x hxn
      exact hret.2 ⟨r, x, hr1, hr2, hx⟩

/-- A graph without node on which no other depends has a cycle, if it has a node, and `order` throws. -/
theorem C10_no_top_throws {g : Graph} {n : Nat} {E : Nat → Nat → Prop} (h : Reach g n E) (hn : n ≠ 0)
    (hr : ∀ r, ¬ IsTop n E r) : g.order = .error .noRoot ∧ ∃ x, TransGen E x x := by
  constructor
  · rcases order_cases h with ⟨l, h1, h2, h3, h4⟩ | ⟨h1, r, x, hx, -⟩ | ⟨h1, h0, hx⟩
    · rcases h3 with h3 | ⟨r, h3⟩
      · exact absurd h3 hn
      · exact absurd h3 (hr r)
    · exact absurd hx (hr r)
    · exact h1
  · apply Classical.byContradiction
    intro hc
    obtain ⟨r, a, b, -⟩ := acyclic_reach (reach_inv h).bnd (fun x hx => hc ⟨x, hx⟩) 0 (by omega)
    exact hr r ⟨a, b⟩

/-! ## C11 -/

/-- In any history, the observable content is the one of the abstract graph: `size`, `edges` (each edge once, in
increasing order). For `removeNode` the abstract graph is the subgraph induced by the other nodes. -/
theorem C11_content {g : Graph} {n : Nat} {E : Nat → Nat → Prop} (h : Reach g n E) :
    g.size = n ∧ (∀ x y, (x, y) ∈ g.edges ↔ E x y) ∧
      g.edges.Pairwise (fun a b => a.1 < b.1 ∨ (a.1 = b.1 ∧ a.2 < b.2)) ∧ ∀ x y, E x y → x < n ∧ y < n := by
  have hi := reach_inv h
  refine ⟨hi.rlen, hi.edges, ?_, hi.bnd⟩
  exact hi.sorted.imp (fun {a b} hab => (edgeLt_iff a b).mp hab)

/-- The other members agree with the abstract graph too: the children of a node are the nodes it depends on, and the
root flag is set exactly for the nodes no node depends on. Hence they are, up to the order of the children, those of the
same graph built directly. -/
theorem C11_members {g : Graph} {n : Nat} {E : Nat → Nat → Prop} (h : Reach g n E) :
    (∀ x y, y ∈ g.children.getD x [] ↔ E x y) ∧ (∀ x, g.roots.getD x false = true ↔ IsTop n E x) ∧
      g.children.length = n ∧ g.roots.length = n :=
  ⟨(reach_inv h).kids, (reach_inv h).roots, (reach_inv h).clen, (reach_inv h).rlen⟩

/-- Two histories describing the same graph lead to objects with the same edges, the same roots, and the same sets of
children: whatever nodes were removed, the object is as if the final graph had been built directly. -/
theorem C11_history_independent {g g' : Graph} {n : Nat} {E : Nat → Nat → Prop} (h : Reach g n E) (h' : Reach g' n E) :
    g.edges = g'.edges ∧ g.roots = g'.roots ∧ ∀ x y, y ∈ g.children.getD x [] ↔ y ∈ g'.children.getD x [] := by
  refine ⟨?_, ?_, ?_⟩
  · have s1 := (reach_inv h).sorted
    have s2 := (reach_inv h').sorted
    have hne : ∀ {a b : Nat × Nat}, edgeLt a b = true → a ≠ b := by
      intro a b hab e; subst e; rw [edgeLt_iff] at hab; omega
    have hp : g.edges.Perm g'.edges := by
      rw [List.perm_ext_iff_of_nodup (s1.imp hne) (s2.imp hne)]
      rintro ⟨x, y⟩; rw [(reach_inv h).edges, (reach_inv h').edges]
    refine hp.eq_of_pairwise ?_ s1 s2
    intro a b _ _ h1 h2; rw [edgeLt_iff] at h1 h2; omega
  · apply List.ext_getElem
    · rw [(reach_inv h).rlen, (reach_inv h').rlen]
    · intro i h1 h2
      have a := (reach_inv h).roots i
      have b := (reach_inv h').roots i
      rw [← b] at a
      rw [List.getD_eq_getElem?_getD, List.getD_eq_getElem?_getD, List.getElem?_eq_getElem h1,
        List.getElem?_eq_getElem h2] at a
      simpa using a
  · intro x y
    rw [(C11_members h).1, (C11_members h').1]

/-- `addEdge` returns true exactly when the edge is new; calls with existing ids never fail. -/
theorem C11_addEdge_flag {g : Graph} {n : Nat} {E : Nat → Nat → Prop} (h : Reach g n E) (f t : Nat) (hf : f < n) (ht : t < n) :
    ∃ g' b, g.addEdge f t = .ok g' b ∧ (b = true ↔ ¬ E f t) := by
  have hi := reach_inv h
  rcases addEdge_cases g f t with ⟨_, h2⟩ | ⟨h1, _, h2⟩ | ⟨h1, _, h2⟩
  · rw [hi.rlen] at h2; exact absurd ⟨hf, ht⟩ h2
  · exact ⟨_, _, h1, by simp [(hi.edges f t).mp h2]⟩
  · exact ⟨_, _, h1, by simpa using fun hh => h2 ((hi.edges f t).mpr hh)⟩

theorem C11_removeNode_returns {g : Graph} {n : Nat} {E : Nat → Nat → Prop} (h : Reach g n E) (id : Nat) (hid : id < n) :
    ∃ g', g.removeNode id = .ok g' () := by
  unfold Graph.removeNode
  rw [if_pos (by rw [(reach_inv h).rlen]; exact hid)]
  exact ⟨_, rfl⟩

/-! ## C12 -/

/-- For an acyclic graph, `groupedOrder` returns the weakly connected components, each in dependency order. -/
theorem C12_groupedOrder {g : Graph} {n : Nat} {E : Nat → Nat → Prop} (h : Reach g n E) (hac : Acyclic E) :
    ∃ gs, g.groupedOrder = .ok gs ∧
      -- partition of the nodes
      gs.flatten.Nodup ∧ (∀ x, x < n ↔ ∃ G ∈ gs, x ∈ G) ∧ (∀ G ∈ gs, G ≠ []) ∧
      -- the parts are the weakly connected components
      (∀ G ∈ gs, ∀ x ∈ G, ∀ y, y ∈ G ↔ EqvGen E x y) ∧
      -- each in dependency order
      ∀ G ∈ gs, DepOrder E G := by
  have hi := reach_inv h
  have hb := hi.bnd
  rcases orderAux_spec hi with ⟨st, h1, h2, h3, h4⟩ | ⟨-, r, x, -, -, -, hx⟩ | ⟨-, h0, h1⟩
  · obtain ⟨gr, k, gs, e1, e2, e3, e4, e5⟩ := groupedOrder_spec hi h1 h2
    have hmem : ∀ x, x ∈ st.order ↔ x < n := by
      intro x
      constructor
      · intro hx; exact h2.lt x ((h2.vis x).mpr (Or.inl hx))
      · intro hx; exact (h4 x).mpr (acyclic_reach hb hac x hx)
    -- EqvGen stays in range
    have hrange : ∀ x y, EqvGen E x y → (x < n ↔ y < n) := by
      intro x y hxy
      induction hxy with
      | rel x y hE => have := hb _ _ hE; omega
      | refl => rfl
      | symm _ _ _ ih => exact ih.symm
      | trans _ _ _ _ _ ih1 ih2 => exact ih1.trans ih2
    have hconn : ∀ x y, x < n → y < n → (Conn st.comps x y ↔ EqvGen E x y) := by
      intro x y hx hy
      refine ⟨h2.sound x y hx hy, fun hxy => ?_⟩
      clear hy
      have key : ∀ x y, EqvGen E x y → x < n → Conn st.comps x y := by
        intro x y hxy
        induction hxy with
        | rel x y hE => intro hx; exact h2.complete x y ((hmem x).mpr hx) hE
        | refl x => intro hx; exact Conn.refl h2.ds hx
        | symm a b hab ih => intro hx; exact (ih ((hrange _ _ hab).mpr hx)).symm
        | trans a b c hab _ ih1 ih2 => intro hx; exact (ih1 hx).trans (ih2 ((hrange _ _ hab).mp hx))
      exact key x y hxy hx
    have hG : ∀ G, G ∈ gs ↔ ∃ j, j < k ∧ G = st.order.filter (fun i => decide (gr i = j)) := by
      intro G; rw [e2]; simp only [List.mem_map, List.mem_range]
      constructor
      · rintro ⟨j, a, b⟩; exact ⟨j, a, b.symm⟩
      · rintro ⟨j, a, b⟩; exact ⟨j, a, b.symm⟩
    refine ⟨gs, e1, ?_, ?_, ?_, ?_, ?_⟩
    · rw [e2]
      unfold List.Nodup
      rw [List.pairwise_flatten]
      constructor
      · intro l hl
        simp only [List.mem_map] at hl
        obtain ⟨j, _, rfl⟩ := hl
        exact (topo_nodup h2.topo).filter _
      · rw [List.pairwise_map]
        apply List.Pairwise.imp _ List.nodup_range
        intro a b hab x hx y hx' hxy
        subst hxy
        simp only [List.mem_filter, decide_eq_true_eq] at hx hx'
        exact hab (hx.2.symm.trans hx'.2)
    · intro x
      constructor
      · intro hx
        exact ⟨_, (hG _).mpr ⟨gr x, e3 x hx, rfl⟩, by simp [(hmem x).mpr hx]⟩
      · rintro ⟨G, hGm, hxG⟩
        obtain ⟨j, _, rfl⟩ := (hG G).mp hGm
        simp only [List.mem_filter] at hxG
        exact (hmem x).mp hxG.1
    · intro G hGm
      obtain ⟨j, hj, rfl⟩ := (hG G).mp hGm
      obtain ⟨i, hin, hij⟩ := e5 j hj
      exact List.ne_nil_of_mem (a := i) (by simp [(hmem i).mpr hin, hij])
    · intro G hGm x hx y
      obtain ⟨j, hj, rfl⟩ := (hG G).mp hGm
      simp only [List.mem_filter, decide_eq_true_eq, hmem] at hx ⊢
      constructor
      · rintro ⟨hy, hyj⟩
        exact (hconn x y hx.1 hy).mp ((e4 x y hx.1 hy).mp (hx.2.trans hyj.symm))
      · intro hxy
        have hy := (hrange _ _ hxy).mp hx.1
        exact ⟨hy, ((e4 x y hx.1 hy).mpr ((hconn x y hx.1 hy).mpr hxy)).symm.trans hx.2⟩
    · intro G hGm a v b hab w hw
      obtain ⟨j, hj, rfl⟩ := (hG G).mp hGm
      obtain ⟨a', b', hab', ha', hb'⟩ := List.filter_eq_append_iff.mp hab
      obtain ⟨c, d, hcd, hc, hvj', hd⟩ := List.filter_eq_cons_iff.mp hb'
      subst hcd
      have hvj : gr v = j := by simpa using hvj'
      have hvmem : v ∈ st.order := by rw [hab']; simp
      have hwm := (h2.topo (a' ++ c) v d (by rw [hab']; simp)).1 w hw
      have hvn := (hmem v).mp hvmem
      have hwn := (hb _ _ hw).2
      have hwj : gr w = j := by
        rw [← hvj]
        exact ((e4 v w hvn hwn).mpr ((hconn v w hvn hwn).mpr (.rel _ _ hw))).symm
      rcases List.mem_append.mp hwm with hwm | hwm
      · rw [← ha']; simp [hwm, hwj]
      · exact absurd (by simpa using hwj) (hc w hwm)
  · exact absurd hx (hac x)
  · obtain ⟨r, a, b, c⟩ := acyclic_reach hb hac 0 (by omega)
    obtain ⟨y, hy⟩ := h1 r a
    exact absurd hy (b y)

/-- `groupedOrder` fails exactly when `order` does. -/
theorem C12_throws_like_order {g : Graph} {n : Nat} {E : Nat → Nat → Prop} (h : Reach g n E) (e : Err) :
    g.groupedOrder = .error e ↔ g.order = .error e := by
  have hi := reach_inv h
  rcases orderAux_spec hi with ⟨st, h1, h2, -⟩ | ⟨h1, -⟩ | ⟨h1, -⟩
  · obtain ⟨gr, k, gs, e1, -⟩ := groupedOrder_spec hi h1 h2
    simp [e1, Graph.order, h1]
  · simp [Graph.groupedOrder, Graph.order, h1]
  · simp [Graph.groupedOrder, Graph.order, h1]

/-! ## Witnesses -/

/-- Sequence of calls. -/
inductive Op where
  | node
  | edge (f t : Nat)
  | remove (id : Nat)

/-- Run calls; `none` for undefined behaviour. -/
def build : List Op → Graph → Option Graph
  | [], g => some g
  | .node :: l, g => build l g.addNode.1
  | .edge f t :: l, g => match g.addEdge f t with
    | .ok g' _ => build l g'
    | _ => none
  | .remove id :: l, g => match g.removeNode id with
    | .ok g' _ => build l g'
    | _ => none

theorem build_reach (l : List Op) {g g' : Graph} {n : Nat} {E : Nat → Nat → Prop} (h : Reach g n E) (hb : build l g = some g') :
    ∃ n' E', Reach g' n' E' := by
  induction l generalizing g n E with
  | nil => cases hb; exact ⟨n, E, h⟩
  | cons o l ih =>
    cases o with
    | node => exact ih (.addNode h) hb
    | edge f t =>
      simp only [build] at hb
      split at hb
      · next he => exact ih (.addEdge f t h he) hb
      · cases hb
    | remove id =>
      simp only [build] at hb
      split at hb
      · next he => exact ih (.removeNode id h he) hb
      · cases hb

/-- Nodes 0..2, edges 1 → 2 → 1. -/
def dropped : Graph := ⟨[true, false, false], [[], [2], [1]], [(1, 2), (2, 1)]⟩

theorem dropped_reach : ∃ E, Reach dropped 3 E ∧ E 1 2 ∧ E 2 1 := by
  refine ⟨_, .addEdge 2 1 (.addEdge 1 2 (.addNode (.addNode (.addNode .init))) rfl) rfl, ?_, ?_⟩ <;> simp

/-- The claim "`order` returns all the nodes or throws" is false: a cycle that no root reaches is dropped silently
when there is another root. `groupedOrder` then returns empty groups. -/
theorem C10_dropped_cycle : ∃ (g : Graph) (n : Nat) (E : Nat → Nat → Prop), Reach g n E ∧ (∃ x, TransGen E x x) ∧
    g.order = .ok [0] ∧ n = 3 ∧ g.groupedOrder = .ok [[0], [], []] := by
  obtain ⟨E, h, h1, h2⟩ := dropped_reach
  refine ⟨dropped, 3, E, h, ⟨1, ?_⟩, rfl, rfl, rfl⟩
  exact TransGen.tail (TransGen.single h1) h2

/-- A non-trivial acyclic case: 0 → 1, 0 → 2, 1 → 2, and 3 → 4, after the removal of a node in the middle. -/
def exOps : List Op := [.node, .node, .node, .node, .node, .node, .edge 0 1, .edge 0 3, .edge 1 3, .edge 4 5, .edge 2 3,
  .edge 4 2, .edge 1 2, .remove 2]

example : (build exOps {}).isSome = true := by decide
example : ((build exOps {}).map (·.edges)) = some [(0, 1), (0, 2), (1, 2), (3, 4)] := by decide
example : ((build exOps {}).map (·.order)) = some (.ok [2, 1, 0, 4, 3]) := rfl
example : ((build exOps {}).map (·.groupedOrder)) = some (.ok [[2, 1, 0], [4, 3]]) := rfl

/-- The relation of the final graph of the example is acyclic. -/
example : ∃ g n E, Reach g n E ∧ Acyclic E ∧ E 0 1 ∧ E 1 2 ∧ n = 3 := by
  refine ⟨_, _, _, .addEdge 0 1 (.addEdge 1 2 (.addNode (.addNode (.addNode .init))) rfl) rfl, ?_, by simp, by simp, rfl⟩
  intro x hx
  have hlt : ∀ {x y : Nat}, TransGen (fun x y => ((False ∨ x = 1 ∧ y = 2) ∨ x = 0 ∧ y = 1)) x y → x < y := by
    intro x y h
    induction h with
    | single h => rcases h with (h | ⟨rfl, rfl⟩) | ⟨rfl, rfl⟩ <;> first | exact h.elim | omega
    | tail _ h ih => rcases h with (h | ⟨rfl, rfl⟩) | ⟨rfl, rfl⟩ <;> first | exact h.elim | omega
  exact Nat.lt_irrefl _ (hlt hx)

/-- A graph with a cycle reachable from a root: `order` throws. -/
example : ((build [.node, .node, .node, .edge 0 1, .edge 1 2, .edge 2 1] {}).map (·.order)) = some (.error .cycle) := rfl
example : ((build [.node, .node, .edge 0 1, .edge 1 0] {}).map (·.order)) = some (.error .noRoot) := rfl

-- the graph 0 → 1 → 2 and each theorem applied to it
def exG : Graph := ((build [.node, .node, .node, .edge 1 2, .edge 0 1] {}).get (by decide))
def exE (x y : Nat) : Prop := (False ∨ x = 1 ∧ y = 2) ∨ x = 0 ∧ y = 1

theorem exG_reach : Reach exG 3 exE :=
  .addEdge 0 1 (.addEdge 1 2 (.addNode (.addNode (.addNode .init))) rfl) rfl

theorem exE_acyclic : Acyclic exE := by
  intro x hx
  have hlt : ∀ {x y : Nat}, TransGen exE x y → x < y := by
    intro x y h
    induction h with
    | single h => rcases h with (h | ⟨rfl, rfl⟩) | ⟨rfl, rfl⟩ <;> first | exact h.elim | omega
    | tail _ h ih => rcases h with (h | ⟨rfl, rfl⟩) | ⟨rfl, rfl⟩ <;> first | exact h.elim | omega
  exact Nat.lt_irrefl _ (hlt hx)

theorem exE_top : IsTop 3 exE 0 := by
  refine ⟨by decide, ?_⟩
  intro x h
  rcases h with (h | ⟨_, h⟩) | ⟨_, h⟩ <;> first | exact h | cases h

theorem exE_from (x : Nat) (hx : x < 3) : ∃ r, IsTop 3 exE r ∧ ReflTransGen exE r x := by
  have h01 : exE 0 1 := Or.inr ⟨rfl, rfl⟩
  have h12 : exE 1 2 := Or.inl (Or.inr ⟨rfl, rfl⟩)
  refine ⟨0, exE_top, ?_⟩
  match x with
  | 0 => exact .refl
  | 1 => exact .tail .refl h01
  | 2 => exact .tail (.tail .refl h01) h12

example : [2, 1, 0].Nodup ∧ DepOrder exE [2, 1, 0] ∧ ∀ x ∈ [2, 1, 0], x < 3 := C09_order exG_reach rfl
example : exG.order ≠ .error .fuel := C09_no_overflow exG_reach
example : ∃ l, exG.order = .ok l ∧ l.Nodup ∧ ∀ x, x ∈ l ↔ x < 3 := C10_acyclic_complete exG_reach exE_acyclic
example : ∃ l, exG.order = .ok l :=
  (C10_returns_iff exG_reach).2 ⟨.inr ⟨0, exE_top⟩, fun ⟨_, x, _, _, h⟩ => exE_acyclic x h⟩
example : ¬ ∃ e, exG.order = .error e := by
  rw [C10_throws_iff_cycle exG_reach exE_from]; exact fun ⟨x, h⟩ => exE_acyclic x h
example : exG.size = 3 ∧ ∀ x y, (x, y) ∈ exG.edges ↔ exE x y := ⟨(C11_content exG_reach).1, (C11_content exG_reach).2.1⟩
example : exG.roots.getD 0 false = true := ((C11_members exG_reach).2.1 0).2 exE_top
-- the same edges added in the other order
example : ∃ g', Reach g' 3 (fun x y => (False ∨ x = 0 ∧ y = 1) ∨ x = 1 ∧ y = 2) ∧ exG.edges = g'.edges := by
  have h : Reach ((build [.node, .node, .node, .edge 0 1, .edge 1 2] {}).get (by decide)) 3
      (fun x y => (False ∨ x = 0 ∧ y = 1) ∨ x = 1 ∧ y = 2) :=
    .addEdge 1 2 (.addEdge 0 1 (.addNode (.addNode (.addNode .init))) rfl) rfl
  refine ⟨_, h, ?_⟩
  have e : (fun x y : Nat => (False ∨ x = 0 ∧ y = 1) ∨ x = 1 ∧ y = 2) = exE := by
    funext x y; unfold exE; apply propext; grind
  rw [e] at h
  exact (C11_history_independent exG_reach h).1
example : ∃ g' b, exG.addEdge 0 2 = .ok g' b ∧ (b = true ↔ ¬ exE 0 2) :=
  C11_addEdge_flag exG_reach 0 2 (by decide) (by decide)
example : ∃ g', exG.removeNode 1 = .ok g' () := C11_removeNode_returns exG_reach 1 (by decide)
example : ∃ gs, exG.groupedOrder = .ok gs ∧ gs.flatten.Nodup := by
  obtain ⟨gs, h1, h2, _⟩ := C12_groupedOrder exG_reach exE_acyclic
  exact ⟨gs, h1, h2⟩
-- 0 ⇄ 1: no node without predecessor
theorem exC_reach : Reach ((build [.node, .node, .edge 0 1, .edge 1 0] {}).get (by decide)) 2
    (fun x y => (False ∨ x = 0 ∧ y = 1) ∨ x = 1 ∧ y = 0) :=
  .addEdge 1 0 (.addEdge 0 1 (.addNode (.addNode .init)) rfl) rfl

theorem exC_noTop (r : Nat) : ¬ IsTop 2 (fun x y => (False ∨ x = 0 ∧ y = 1) ∨ x = 1 ∧ y = 0) r := by
  rintro ⟨h1, h2⟩
  match r with
  | 0 => exact h2 1 (Or.inr ⟨rfl, rfl⟩)
  | 1 => exact h2 0 (Or.inl (Or.inr ⟨rfl, rfl⟩))
  | n + 2 => omega

example := C10_no_top_throws exC_reach (by decide) exC_noTop
example := (C12_throws_like_order exC_reach .noRoot).2 rfl

end Verif.C09
