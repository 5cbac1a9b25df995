import Verif.Model.CallGraph
import Verif.Properties.C09_DependencyGraph
/-!
# C14, C15: the call plan and its execution
-/
set_option autoImplicit false

namespace Verif.C14
open Verif Verif.DG Verif.C09 Verif.CG Relation

/-! ## Specification -/

/-- The update `c` is needed to compute an output of a source, directly or through outputs forwarded to other sources. -/
inductive Needs (net : Net) : Nat × Nat → Call → Prop
  | upd {s o us u} : net.isNode s = true → net.outputDeps s o = some us → u ∈ us → Needs net (s, o) (s, u)
  | direct {s o p c} : net.isNode s = true → net.outputDeps s o = none → net.directDeps s o = some p →
      Needs net p c → Needs net (s, o) c

/-- The update `c` depends directly on the update `c'`. -/
inductive Dep (net : Net) (c : Call) : Call → Prop
  | intern {u} : u ∈ net.internalDeps c.1 c.2 → Dep net c (c.1, u)
  | input {s os o c'} : (s, os) ∈ net.inputDeps c.1 c.2 → o ∈ os → Needs net (s, o) c' → Dep net c c'

/-- The update `c` is transitively required by one of the requested outputs. -/
def Required (net : Net) (reqs : List (Nat × Nat)) (c : Call) : Prop :=
  ∃ p ∈ reqs, ∃ c0, Needs net p c0 ∧ ReflTransGen (Dep net) c0 c

/-- The object can be in state `st` after calls to `add` for the outputs `reqs` (since the last `clear`), interleaved with
calls to `update`. `f` is the number of nested calls allowed for each `add`. -/
inductive Reach (net : Net) : CSt → List (Nat × Nat) → Prop
  | init : Reach net {} []
  | add {st st' reqs} (f : Nat) (l : List (Nat × Nat)) : Reach net st reqs → addInputs net f l st = .ok st' →
      Reach net st' (l ++ reqs)
  | update {st st' reqs} : Reach net st reqs → update st = .ok st' () → Reach net st' reqs
  | updateThrow {st st' reqs} : Reach net st reqs → update st = .throw st' → Reach net st' reqs
  | clear {st reqs} : Reach net st reqs → Reach net (clear st) []

/-! ## Invariant of the construction -/

/-- The updates an element stands for. -/
def ItemNeeds (net : Net) : Item → Call → Prop
  | .out s o, c => Needs net (s, o) c
  | .call c, c' => c' = c

theorem dep_iff (net : Net) (c c' : Call) : Dep net c c' ↔ ∃ i ∈ depItems net c, ItemNeeds net i c' := by
  simp only [depItems, List.mem_append, List.mem_map, List.mem_flatMap]
  constructor
  · intro h
    cases h with
    | intern hu => exact ⟨_, Or.inl ⟨_, hu, rfl⟩, rfl⟩
    | input h1 h2 h3 => exact ⟨_, Or.inr ⟨_, h1, _, h2, rfl⟩, h3⟩
  · rintro ⟨i, ⟨u, hu, rfl⟩ | ⟨⟨s, os⟩, h1, o, h2, rfl⟩, h3⟩
    · have h3' : c' = (c.1, u) := h3
      subst h3'; exact .intern hu
    · exact .input h1 h2 h3

structure CInv (net : Net) (G : List Call) (st : CSt) : Prop where
  reach : C09.Reach st.graph st.calls.length (fun i j => (i, j) ∈ st.graph.edges)
  ids : ∀ c i, st.callId c = some i ↔ st.calls[i]? = some c
  sound : ∀ i j, (i, j) ∈ st.graph.edges → ∃ c c', st.callId c = some i ∧ st.callId c' = some j ∧ Dep net c c'
  complete : ∀ c i, st.callId c = some i → c ∉ G → ∀ c', Dep net c c' → ∃ j, st.callId c' = some j ∧ (i, j) ∈ st.graph.edges
  vis : ∀ p ids, st.visited p = some ids →
    (∀ c, Needs net p c → ∃ i ∈ ids, st.callId c = some i) ∧ ∀ i ∈ ids, ∃ c, Needs net p c ∧ st.callId c = some i

/-- Monotonicity and soundness of the new calls: all are required by a call satisfying `R`. -/
structure Ext (net : Net) (R : Call → Prop) (st st' : CSt) : Prop where
  ids : ∀ c i, st.callId c = some i → st'.callId c = some i
  edges : ∀ e, e ∈ st.graph.edges → e ∈ st'.graph.edges
  new : ∀ c i, st'.callId c = some i → (∃ i, st.callId c = some i) ∨ ∃ c0, R c0 ∧ ReflTransGen (Dep net) c0 c

theorem Ext.rfl' {net : Net} {R : Call → Prop} {st : CSt} : Ext net R st st :=
  ⟨fun _ _ h => h, fun _ h => h, fun _ i h => Or.inl ⟨i, h⟩⟩

theorem Ext.trans {net : Net} {R R1 R2 : Call → Prop} {a b c : CSt} (h1 : Ext net R1 a b) (h2 : Ext net R2 b c)
    (r1 : ∀ x, R1 x → ∃ y, R y ∧ ReflTransGen (Dep net) y x) (r2 : ∀ x, R2 x → ∃ y, R y ∧ ReflTransGen (Dep net) y x) :
    Ext net R a c := by
  refine ⟨fun x i h => h2.ids _ _ (h1.ids _ _ h), fun e h => h2.edges _ (h1.edges _ h), ?_⟩
  intro x i h
  rcases h2.new x i h with ⟨j, hj⟩ | ⟨c0, hc, hc'⟩
  · rcases h1.new x j hj with h | ⟨c0, hc, hc'⟩
    · exact Or.inl h
    · obtain ⟨y, hy, hy'⟩ := r1 c0 hc
      exact Or.inr ⟨y, hy, hy'.trans hc'⟩
  · obtain ⟨y, hy, hy'⟩ := r2 c0 hc
    exact Or.inr ⟨y, hy, hy'.trans hc'⟩

/-- Result of handling an element. -/
structure Handled (net : Net) (G : List Call) (R : Call → Prop) (st st' : CSt) (ids : List Nat) : Prop where
  inv : CInv net G st'
  ext : Ext net R st st'
  all : ∀ c, R c → ∃ i ∈ ids, st'.callId c = some i
  only : ∀ i ∈ ids, ∃ c, R c ∧ st'.callId c = some i

theorem cinv_edges_eq {g : Graph} {n : Nat} {E : Nat → Nat → Prop} (h : C09.Reach g n E) :
    C09.Reach g n (fun i j => (i, j) ∈ g.edges) := by
  have : (fun i j => (i, j) ∈ g.edges) = E := by
    funext i j; exact propext ((C11_content h).2.1 i j)
  rw [this]; exact h

theorem addEdges_spec {net : Net} {G : List Call} (c : Call) (id : Nat) (ids : List Nat) (st : CSt) (hi : CInv net G st)
    (hc : st.callId c = some id)
    (hids : ∀ i ∈ ids, ∃ c', Dep net c c' ∧ st.callId c' = some i) :
    ∃ st', addEdges id ids st = .ok st' ∧ CInv net G st' ∧ st'.callId = st.callId ∧
      (∀ e, e ∈ st.graph.edges → e ∈ st'.graph.edges) ∧ ∀ i ∈ ids, (id, i) ∈ st'.graph.edges := by
  induction ids generalizing st with
  | nil => exact ⟨st, rfl, hi, rfl, fun _ h => h, by simp⟩
  | cons j ids ih =>
    obtain ⟨c', hd, hc'⟩ := hids j List.mem_cons_self
    have hlt : ∀ x i, st.callId x = some i → i < st.calls.length := by
      intro x i h
      have := (hi.ids x i).mp h
      exact (List.getElem?_eq_some_iff.mp this).1
    obtain ⟨g', b, he, -⟩ := C11_addEdge_flag hi.reach id j (hlt _ _ hc) (hlt _ _ hc')
    have hr' := Reach.addEdge id j hi.reach he
    have hmem : ∀ x y, (x, y) ∈ g'.edges ↔ (x, y) ∈ st.graph.edges ∨ (x = id ∧ y = j) := fun x y => (C11_content hr').2.1 x y
    simp only [addEdges, he]
    have hi' : CInv net G { st with graph := g' } := by
      refine ⟨cinv_edges_eq hr', hi.ids, ?_, ?_, hi.vis⟩
      · intro x y hxy
        rcases (hmem x y).mp hxy with h | ⟨rfl, rfl⟩
        · exact hi.sound x y h
        · exact ⟨c, c', hc, hc', hd⟩
      · intro x i hx hxG y hxy
        obtain ⟨k, hk, hk'⟩ := hi.complete x i hx hxG y hxy
        exact ⟨k, hk, (hmem _ _).mpr (Or.inl hk')⟩
    obtain ⟨st', h1, h2, h3, h4, h5⟩ := ih { st with graph := g' } hi' hc (fun i hi => hids i (List.mem_cons_of_mem _ hi))
    refine ⟨st', h1, h2, h3, fun e he => h4 e ((hmem e.1 e.2).mpr (Or.inl he)), ?_⟩
    intro i hii
    rcases List.mem_cons.mp hii with rfl | hii
    · exact h4 (id, i) ((hmem _ _).mpr (Or.inr ⟨rfl, rfl⟩))
    · exact h5 i hii

/-- Specification of the recursive call. -/
def RecOk (net : Net) (rec : Item → CSt → Except CErr (CSt × List Nat)) : Prop :=
  ∀ G it st st' ids, CInv net G st → rec it st = .ok (st', ids) → Handled net G (ItemNeeds net it) st st' ids

theorem addDeps_spec {net : Net} {rec : Item → CSt → Except CErr (CSt × List Nat)} (hrec : RecOk net rec) (c : Call) (id : Nat)
    (is : List Item) (his : ∀ i ∈ is, i ∈ depItems net c) (G : List Call) (st st' : CSt) (hi : CInv net G st)
    (hc : st.callId c = some id) (hr : addDeps rec id is st = .ok st') :
    CInv net G st' ∧ Ext net (fun x => x = c) st st' ∧
      ∀ i ∈ is, ∀ c', ItemNeeds net i c' → ∃ j, st'.callId c' = some j ∧ (id, j) ∈ st'.graph.edges := by
  induction is generalizing st with
  | nil => cases hr; exact ⟨hi, Ext.rfl', by simp⟩
  | cons it is ih =>
    simp only [addDeps] at hr
    cases h1 : rec it st with
    | error e => rw [h1] at hr; cases hr
    | ok r =>
      obtain ⟨st1, ids⟩ := r
      rw [h1] at hr
      have H := hrec G it st st1 ids hi h1
      have hdep : ∀ x, ItemNeeds net it x → Dep net c x := fun x hx => (dep_iff net c x).mpr ⟨it, his it List.mem_cons_self, hx⟩
      have hc1 := H.ext.ids c id hc
      obtain ⟨st2, h2, i2, e2, e3, e4⟩ := addEdges_spec c id ids st1 H.inv hc1 (fun i hi => by
        obtain ⟨x, hx, hx'⟩ := H.only i hi
        exact ⟨x, hdep x hx, hx'⟩)
      simp only [h2] at hr
      obtain ⟨i3, x3, d3⟩ := ih (fun i hi => his i (List.mem_cons_of_mem _ hi)) st2 i2 (by rw [e2]; exact hc1) hr
      refine ⟨i3, ?_, ?_⟩
      · have x12 : Ext net (ItemNeeds net it) st st2 := by
          refine ⟨fun x i h => by rw [e2]; exact H.ext.ids x i h, fun e h => e3 e (H.ext.edges e h), ?_⟩
          intro x i h; rw [e2] at h; exact H.ext.new x i h
        refine Ext.trans x12 x3 ?_ ?_
        · intro x hx; exact ⟨c, rfl, .single (hdep x hx)⟩
        · intro x hx; exact ⟨x, hx, .refl⟩
      · intro i hii c' hc'
        rcases List.mem_cons.mp hii with rfl | hii
        · obtain ⟨j, hj, hj'⟩ := H.all c' hc'
          exact ⟨j, x3.ids c' j (by rw [e2]; exact hj'), x3.edges _ (e4 j hj)⟩
        · exact d3 i hii c' hc'

/-- State after the registration of a new call, before its dependencies are followed. -/
def register (st : CSt) (c : Call) : CSt :=
  ⟨fun c' => if c' = c then some st.graph.addNode.2 else st.callId c', st.calls ++ [c], st.graph.addNode.1, st.visited, st.plan⟩

theorem addCall_state {net : Net} {G : List Call} {st : CSt} (hi : CInv net G st) {c : Call} (hid : st.callId c = none) :
    CInv net (c :: G) (register st c) := by
  have hlen : st.graph.roots.length = st.calls.length := (C11_content hi.reach).1
  have hid' : st.graph.addNode.2 = st.calls.length := hlen
  have hmono : ∀ x i, st.callId x = some i → (if x = c then some st.graph.addNode.2 else st.callId x) = some i := by
    intro x i h
    have : x ≠ c := fun hh => by rw [hh, hid] at h; cases h
    simp only [if_neg this, h]
  unfold register
  refine ⟨?_, ?_, ?_, ?_, ?_⟩
  · have := Reach.addNode hi.reach
    simp only [List.length_append, List.length_singleton]
    exact this
  · intro x i
    simp only [hid']
    by_cases hx : x = c
    · subst hx
      simp only [ite_true, Option.some.injEq]
      constructor
      · rintro rfl; simp
      · intro h
        rcases Nat.lt_trichotomy i st.calls.length with h' | h' | h'
        · rw [List.getElem?_append_left h'] at h
          have := (hi.ids x i).mpr h
          rw [hid] at this; cases this
        · exact h'.symm
        · rw [List.getElem?_eq_none (by simp; omega)] at h; cases h
    · rw [if_neg hx, hi.ids]
      constructor
      · intro h
        rw [List.getElem?_append_left (List.getElem?_eq_some_iff.mp h).1]; exact h
      · intro h
        rcases Nat.lt_or_ge i st.calls.length with h' | h'
        · rwa [List.getElem?_append_left h'] at h
        · exfalso
          rw [List.getElem?_append_right h'] at h
          have := List.mem_of_getElem? h
          simp only [List.mem_singleton] at this
          exact hx this
  · intro i j hij
    obtain ⟨a, b, ha, hb, hd⟩ := hi.sound i j hij
    exact ⟨a, b, hmono _ _ ha, hmono _ _ hb, hd⟩
  · intro x i hx hxG y hxy
    have hxc : x ≠ c := fun hh => hxG (by simp [hh])
    simp only [if_neg hxc] at hx
    obtain ⟨j, hj, hj'⟩ := hi.complete x i hx (fun hh => hxG (by simp [hh])) y hxy
    exact ⟨j, hmono _ _ hj, hj'⟩
  · intro p is hp
    obtain ⟨v1, v2⟩ := hi.vis p is hp
    refine ⟨fun x hx => ?_, fun i hi => ?_⟩
    · obtain ⟨i, h1, h2⟩ := v1 x hx; exact ⟨i, h1, hmono _ _ h2⟩
    · obtain ⟨x, h1, h2⟩ := v2 i hi; exact ⟨x, h1, hmono _ _ h2⟩

theorem addCall_spec {net : Net} {rec : Item → CSt → Except CErr (CSt × List Nat)} (hrec : RecOk net rec) (c : Call)
    (G : List Call) (st st' : CSt) (ids : List Nat) (hi : CInv net G st) (hr : addCall net rec c st = .ok (st', ids)) :
    Handled net G (fun x => x = c) st st' ids := by
  unfold addCall at hr
  cases hid : st.callId c with
  | some id =>
    rw [hid] at hr
    cases hr
    exact ⟨hi, Ext.rfl', by rintro x rfl; exact ⟨id, by simp, hid⟩, by rintro i hii; simp at hii; subst hii; exact ⟨c, rfl, hid⟩⟩
  | none =>
    rw [hid] at hr
    simp only at hr
    have hlen : st.graph.roots.length = st.calls.length := (C11_content hi.reach).1
    have hreg : ∀ x i, st.callId x = some i → i < st.calls.length := by
      intro x i h
      exact (List.getElem?_eq_some_iff.mp ((hi.ids x i).mp h)).1
    have hi1 := addCall_state hi hid
    have hmono : ∀ x i, st.callId x = some i → (register st c).callId x = some i := by
      intro x i h
      have : x ≠ c := fun hh => by rw [hh, hid] at h; cases h
      simp only [register, if_neg this, h]
    have hr : (match addDeps rec st.graph.addNode.2 (depItems net c) (register st c) with
      | .error e => Except.error e
      | .ok st2 => Except.ok (st2, [st.graph.addNode.2])) = Except.ok (st', ids) := hr
    have hc1 : (register st c).callId c = some st.graph.addNode.2 := by simp [register]
    cases h2 : addDeps rec st.graph.addNode.2 (depItems net c) (register st c) with
    | error e => rw [h2] at hr; cases hr
    | ok st2 =>
      rw [h2] at hr
      cases hr
      obtain ⟨i2, x2, d2⟩ := addDeps_spec hrec c _ (depItems net c) (fun _ h => h) (c :: G) _ _ hi1 hc1 h2
      have hcid := x2.ids c _ hc1
      refine ⟨⟨i2.reach, i2.ids, i2.sound, ?_, i2.vis⟩, ?_, ?_, ?_⟩
      · intro x i hx hxG y hxy
        by_cases hxc : x = c
        · subst hxc
          rw [hcid] at hx; cases hx
          obtain ⟨it, hit, hit'⟩ := (dep_iff net x y).mp hxy
          exact d2 it hit y hit'
        · exact i2.complete x i hx (by simp [hxc, hxG]) y hxy
      · refine ⟨fun x i h => x2.ids _ _ (hmono _ _ h), fun e h => x2.edges e h, ?_⟩
        intro x i h
        rcases x2.new x i h with ⟨j, hj⟩ | h
        · by_cases hxc : x = c
          · exact Or.inr ⟨c, rfl, by rw [hxc]⟩
          · simp only [register, if_neg hxc] at hj; exact Or.inl ⟨j, hj⟩
        · exact Or.inr h
      · rintro x rfl; exact ⟨_, by simp, hcid⟩
      · rintro i hii
        simp only [List.mem_singleton] at hii
        subst hii; exact ⟨c, rfl, hcid⟩

theorem addUpdates_spec {net : Net} {rec : Item → CSt → Except CErr (CSt × List Nat)} (hrec : RecOk net rec) (node : Nat)
    (us : List Nat) (G : List Call) (st st' : CSt) (ids : List Nat) (hi : CInv net G st)
    (hr : addUpdates rec node us st = .ok (st', ids)) :
    Handled net G (fun x => ∃ u ∈ us, x = (node, u)) st st' ids := by
  induction us generalizing st ids with
  | nil => cases hr; exact ⟨hi, Ext.rfl', by simp, by simp⟩
  | cons u us ih =>
    simp only [addUpdates] at hr
    cases h1 : rec (.call (node, u)) st with
    | error e => rw [h1] at hr; cases hr
    | ok r =>
      obtain ⟨st1, ids1⟩ := r
      rw [h1] at hr
      have H := hrec G _ st st1 ids1 hi h1
      cases h2 : addUpdates rec node us st1 with
      | error e => simp only [h2] at hr; cases hr
      | ok r =>
        obtain ⟨st2, ids2⟩ := r
        simp only [h2] at hr
        cases hr
        have H2 := ih st1 ids2 H.inv h2
        refine ⟨H2.inv, Ext.trans H.ext H2.ext ?_ ?_, ?_, ?_⟩
        · intro x hx
          have : x = (node, u) := hx
          exact ⟨x, ⟨u, by simp, this⟩, .refl⟩
        · rintro x ⟨u', hu', hx⟩
          exact ⟨x, ⟨u', by simp [hu'], hx⟩, .refl⟩
        · rintro x ⟨u', hu', rfl⟩
          rcases List.mem_cons.mp hu' with rfl | hu'
          · obtain ⟨i, h3, h4⟩ := H.all (node, u') rfl
            exact ⟨i, by simp [h3], H2.ext.ids _ _ h4⟩
          · obtain ⟨i, h3, h4⟩ := H2.all (node, u') ⟨u', hu', rfl⟩
            exact ⟨i, by simp [h3], h4⟩
        · intro i hii
          rcases List.mem_append.mp hii with hii | hii
          · obtain ⟨x, h3, h4⟩ := H.only i hii
            have : x = (node, u) := h3
            exact ⟨x, ⟨u, by simp, this⟩, H2.ext.ids _ _ h4⟩
          · obtain ⟨x, ⟨u', h3, h5⟩, h4⟩ := H2.only i hii
            exact ⟨x, ⟨u', by simp [h3], h5⟩, h4⟩

theorem Handled.congr {net : Net} {G : List Call} {R R' : Call → Prop} {st st' : CSt} {ids : List Nat}
    (h : Handled net G R st st' ids) (hR : ∀ x, R x ↔ R' x) : Handled net G R' st st' ids := by
  have : R = R' := by funext x; exact propext (hR x)
  rw [← this]; exact h

theorem addOutput_spec {net : Net} {rec : Item → CSt → Except CErr (CSt × List Nat)} (hrec : RecOk net rec) (s o : Nat)
    (G : List Call) (st st' : CSt) (ids : List Nat) (hi : CInv net G st) (hr : addOutput net rec s o st = .ok (st', ids)) :
    Handled net G (Needs net (s, o)) st st' ids := by
  unfold addOutput at hr
  cases hv : st.visited (s, o) with
  | some is =>
    rw [hv] at hr; cases hr
    obtain ⟨v1, v2⟩ := hi.vis _ _ hv
    exact ⟨hi, Ext.rfl', v1, v2⟩
  | none =>
    rw [hv] at hr
    simp only at hr
    have key : ∀ r : Except CErr (CSt × List Nat), (∀ st1 ids1, r = .ok (st1, ids1) → Handled net G (Needs net (s, o)) st st1 ids1) →
        (match r with
          | .error e => Except.error e
          | .ok (st, ids) =>
            (Except.ok (({ st with visited := fun p => if p = (s, o) then some ids else st.visited p } : CSt), ids) : Except CErr (CSt × List Nat)))
          = .ok (st', ids) → Handled net G (Needs net (s, o)) st st' ids := by
      intro r h hr
      cases r with
      | error e => cases hr
      | ok p =>
        obtain ⟨st1, ids1⟩ := p
        have H := h st1 ids1 rfl
        simp only [Except.ok.injEq, Prod.mk.injEq] at hr
        obtain ⟨rfl, rfl⟩ := hr
        refine ⟨⟨H.inv.reach, H.inv.ids, H.inv.sound, H.inv.complete, ?_⟩, ⟨H.ext.ids, H.ext.edges, H.ext.new⟩, H.all, H.only⟩
        intro p is hp
        simp only at hp
        split at hp
        · next hpe => cases hp; rw [hpe]; exact ⟨H.all, H.only⟩
        · exact H.inv.vis p is hp
    refine key _ ?_ hr
    intro st1 ids1 h1
    by_cases hn : net.isNode s = true
    · rw [if_pos hn] at h1
      cases ho : net.outputDeps s o with
      | some us =>
        rw [ho] at h1
        refine (addUpdates_spec hrec s us G st st1 ids1 hi h1).congr ?_
        intro x
        constructor
        · rintro ⟨u, hu, rfl⟩; exact .upd hn ho hu
        · intro h
          cases h with
          | upd _ h2 h3 => rw [ho] at h2; cases h2; exact ⟨_, h3, rfl⟩
          | direct _ h2 => rw [ho] at h2; cases h2
      | none =>
        rw [ho] at h1
        cases hd : net.directDeps s o with
        | some p =>
          obtain ⟨s', o'⟩ := p
          rw [hd] at h1
          refine (hrec G (.out s' o') st st1 ids1 hi h1).congr ?_
          intro x
          constructor
          · intro h; exact .direct hn ho hd h
          · intro h
            cases h with
            | upd _ h2 => rw [ho] at h2; cases h2
            | direct _ _ h3 h4 => rw [hd] at h3; cases h3; exact h4
        | none =>
          rw [hd] at h1; cases h1
          refine ⟨hi, Ext.rfl', ?_, by simp⟩
          intro x h
          cases h with
          | upd _ h2 => rw [ho] at h2; cases h2
          | direct _ _ h3 => rw [hd] at h3; cases h3
    · rw [if_neg hn] at h1; cases h1
      refine ⟨hi, Ext.rfl', ?_, by simp⟩
      intro x h
      cases h with
      | upd h2 => exact absurd h2 hn
      | direct h2 => exact absurd h2 hn

theorem go_spec (net : Net) (f : Nat) : RecOk net (go net f) := by
  induction f with
  | zero => intro G it st st' ids _ hr; cases hr
  | succ f ih =>
    intro G it st st' ids hi hr
    cases it with
    | out s o => exact addOutput_spec ih s o G st st' ids hi hr
    | call c => exact addCall_spec ih c G st st' ids hi hr

/-- The state corresponds to the requests. -/
structure RInv (net : Net) (reqs : List (Nat × Nat)) (st : CSt) : Prop where
  inv : CInv net [] st
  reqd : ∀ c, (∃ i, st.callId c = some i) ↔ Required net reqs c

theorem complete_closed {net : Net} {st : CSt} (h : CInv net [] st) {c c' : Call} (hc : ∃ i, st.callId c = some i)
    (hd : ReflTransGen (Dep net) c c') : ∃ i, st.callId c' = some i := by
  induction hd with
  | refl => exact hc
  | tail _ h2 ih =>
    obtain ⟨i, hi⟩ := ih
    obtain ⟨j, hj, _⟩ := h.complete _ i hi (by simp) _ h2
    exact ⟨j, hj⟩

theorem addInputs_spec {net : Net} (f : Nat) (l : List (Nat × Nat)) {st st' : CSt} {reqs : List (Nat × Nat)} (h : RInv net reqs st)
    (hr : addInputs net f l st = .ok st') : RInv net (l ++ reqs) st' := by
  induction l generalizing st reqs with
  | nil => cases hr; exact h
  | cons p l ih =>
    simp only [addInputs] at hr
    cases h1 : go net f (.out p.1 p.2) st with
    | error e => rw [h1] at hr; cases hr
    | ok r =>
      obtain ⟨st1, ids⟩ := r
      rw [h1] at hr
      have H := go_spec net f [] _ st st1 ids h.inv h1
      have h' : RInv net (p :: reqs) st1 := by
        refine ⟨H.inv, ?_⟩
        intro c
        constructor
        · rintro ⟨i, hc⟩
          rcases H.ext.new c i hc with hold | ⟨c0, h2, h3⟩
          · obtain ⟨q, hq, hq'⟩ := (h.reqd c).mp hold
            exact ⟨q, List.mem_cons_of_mem _ hq, hq'⟩
          · exact ⟨p, List.mem_cons_self, c0, h2, h3⟩
        · rintro ⟨q, hq, c0, h2, h3⟩
          rcases List.mem_cons.mp hq with rfl | hq
          · obtain ⟨i, _, hi⟩ := H.all c0 h2
            exact complete_closed H.inv ⟨i, hi⟩ h3
          · obtain ⟨i, hi⟩ := (h.reqd c).mpr ⟨q, hq, c0, h2, h3⟩
            exact ⟨i, H.ext.ids _ _ hi⟩
      have := ih h' hr
      refine ⟨this.inv, ?_⟩
      intro c
      rw [this.reqd]
      unfold Required
      constructor
      · rintro ⟨q, hq, h⟩
        refine ⟨q, ?_, h⟩
        simp only [List.mem_append, List.mem_cons] at hq ⊢
        rcases hq with h | h | h
        · exact Or.inl (Or.inr h)
        · exact Or.inl (Or.inl h)
        · exact Or.inr h
      · rintro ⟨q, hq, h⟩
        refine ⟨q, ?_, h⟩
        simp only [List.mem_append, List.mem_cons] at hq ⊢
        rcases hq with (h | h) | h
        · exact Or.inr (Or.inl h)
        · exact Or.inl h
        · exact Or.inr (Or.inr h)

theorem rinv_init (net : Net) : RInv net [] {} := by
  refine ⟨⟨?_, by simp, by simp, by simp, by simp⟩, ?_⟩
  · have : (fun i j => (i, j) ∈ ([] : List (Nat × Nat))) = (fun _ _ => False) := by funext i j; simp
    show C09.Reach {} 0 (fun i j => (i, j) ∈ ([] : List (Nat × Nat)))
    rw [this]; exact .init
  · intro c; simp [Required]

theorem update_state {st st' : CSt} (h : update st = .ok st' () ∨ update st = .throw st') :
    ∃ plan, st' = { st with plan := plan } := by
  unfold update at h
  split at h
  · rcases h with h | h <;> cases h
  · rcases h with h | h
    · cases h
    · cases h; exact ⟨_, rfl⟩
  · split at h
    · rcases h with h | h <;> cases h
    · rcases h with h | h
      · cases h; exact ⟨_, rfl⟩
      · cases h

theorem rinv_plan {net : Net} {reqs : List (Nat × Nat)} {st : CSt} (h : RInv net reqs st) (plan : List Call) :
    RInv net reqs { st with plan := plan } :=
  ⟨⟨h.inv.reach, h.inv.ids, h.inv.sound, h.inv.complete, h.inv.vis⟩, h.reqd⟩

theorem reach_inv {net : Net} {st : CSt} {reqs : List (Nat × Nat)} (h : Reach net st reqs) : RInv net reqs st := by
  induction h with
  | init => exact rinv_init net
  | add f l _ hr ih => exact addInputs_spec f l ih hr
  | update _ hr ih => obtain ⟨p, rfl⟩ := update_state (Or.inl hr); exact rinv_plan ih p
  | updateThrow _ hr ih => obtain ⟨p, rfl⟩ := update_state (Or.inr hr); exact rinv_plan ih p
  | clear _ _ => exact rinv_init net

/-! ## C14 -/

theorem callsAt_spec (calls : List Call) (l : List Nat) (h : ∀ i ∈ l, i < calls.length) :
    ∃ cs, callsAt calls l = some cs ∧ cs = l.filterMap (fun i => calls[i]?) ∧ cs.map some = l.map (fun i => calls[i]?) := by
  induction l with
  | nil => exact ⟨[], rfl, rfl, rfl⟩
  | cons i l ih =>
    obtain ⟨cs, h1, h2, h3⟩ := ih (fun j hj => h j (List.mem_cons_of_mem _ hj))
    have hi := h i List.mem_cons_self
    refine ⟨calls[i] :: cs, ?_, ?_, ?_⟩
    · simp only [callsAt, List.getElem?_eq_getElem hi, h1]
    · simp [List.getElem?_eq_getElem hi, h2]
    · simp only [List.map_cons, List.getElem?_eq_getElem hi, h3]

/-- The relation between ids mirrors the dependencies of the required updates. -/
theorem edges_iff {net : Net} {st : CSt} {reqs : List (Nat × Nat)} (h : RInv net reqs st) {c c' : Call} {i j : Nat}
    (hc : st.callId c = some i) (hc' : st.callId c' = some j) : (i, j) ∈ st.graph.edges ↔ Dep net c c' := by
  have inj : ∀ {a b k}, st.callId a = some k → st.callId b = some k → a = b := by
    intro a b k ha hb
    have h1 := (h.inv.ids a k).mp ha
    have h2 := (h.inv.ids b k).mp hb
    rw [h1] at h2; cases h2; rfl
  constructor
  · intro he
    obtain ⟨a, b, ha, hb, hd⟩ := h.inv.sound i j he
    rw [inj hc ha, inj hc' hb]; exact hd
  · intro hd
    obtain ⟨k, hk, hk'⟩ := h.inv.complete c i hc (by simp) c' hd
    rw [hc'] at hk; cases hk; exact hk'

theorem acyclic_ids {net : Net} {st : CSt} {reqs : List (Nat × Nat)} (h : RInv net reqs st)
    (hac : ∀ c, Required net reqs c → ¬ TransGen (Dep net) c c) : Acyclic (fun i j => (i, j) ∈ st.graph.edges) := by
  have key : ∀ i j, TransGen (fun i j => (i, j) ∈ st.graph.edges) i j →
      ∃ c c', st.callId c = some i ∧ st.callId c' = some j ∧ TransGen (Dep net) c c' := by
    intro i j hij
    induction hij with
    | single he =>
      obtain ⟨a, b, ha, hb, hd⟩ := h.inv.sound _ _ he
      exact ⟨a, b, ha, hb, .single hd⟩
    | tail _ he ih =>
      obtain ⟨c, c', h1, h2, h3⟩ := ih
      obtain ⟨a, b, ha, hb, hd⟩ := h.inv.sound _ _ he
      have hh1 := (h.inv.ids _ _).mp h2
      have hh2 := (h.inv.ids _ _).mp ha
      rw [hh1] at hh2; cases hh2
      exact ⟨c, b, h1, hb, h3.tail hd⟩
  intro i hi
  obtain ⟨c, c', h1, h2, h3⟩ := key i i hi
  have hh1 := (h.inv.ids _ _).mp h1
  have hh2 := (h.inv.ids _ _).mp h2
  rw [hh1] at hh2; cases hh2
  exact hac c ((h.reqd c).mp ⟨i, h1⟩) h3

/-- If `update()` returns: nothing is planned that is not required, nothing is planned twice, and everything a planned update
depends on is planned before it. This holds whatever the dependencies, even cyclic. -/
theorem C14_plan_sound {net : Net} {st st' : CSt} {reqs : List (Nat × Nat)} (h : Reach net st reqs) (hu : update st = .ok st' ()) :
    st'.plan.Nodup ∧ (∀ c ∈ st'.plan, Required net reqs c) ∧
      ∀ a c b, st'.plan = a ++ c :: b → ∀ c', Dep net c c' → c' ∈ a := by
  have hI := reach_inv h
  unfold update at hu
  cases ho : st.graph.order with
  | error e => rw [ho] at hu; cases e <;> cases hu
  | ok order =>
    rw [ho] at hu
    obtain ⟨o1, o2, o3⟩ := C09_order hI.inv.reach ho
    obtain ⟨cs, k1, k2, k3⟩ := callsAt_spec st.calls order o3
    simp only [k1] at hu
    cases hu
    simp only
    have hlen : cs.length = order.length := by
      have := congrArg List.length k3; simpa using this
    have hget : ∀ (k : Nat) (c : Call), cs[k]? = some c ↔ ∃ i, order[k]? = some i ∧ st.callId c = some i := by
      intro k c
      have := congrArg (fun l => l[k]?) k3
      simp only [List.getElem?_map] at this
      cases hck : cs[k]? with
      | none =>
        rw [hck] at this
        cases hok : order[k]? with
        | none => simp
        | some i => rw [hok] at this; simp at this
      | some d =>
        rw [hck] at this
        cases hok : order[k]? with
        | none => rw [hok] at this; simp at this
        | some i =>
          rw [hok] at this
          have hd : st.calls[i]? = some d := by simpa using this.symm
          simp only [Option.some.injEq, exists_eq_left']
          rw [hI.inv.ids, hd]; simp
    refine ⟨?_, ?_, ?_⟩
    · unfold List.Nodup
      rw [List.pairwise_iff_getElem]
      intro i j hi hj hij he
      have hi' : cs[i]? = some cs[i] := List.getElem?_eq_getElem hi
      have hj' : cs[j]? = some cs[i] := by rw [he]; exact List.getElem?_eq_getElem hj
      obtain ⟨a, ha, ha'⟩ := (hget i _).mp hi'
      obtain ⟨b, hb, hb'⟩ := (hget j _).mp hj'
      rw [ha'] at hb'; cases hb'
      have := List.pairwise_iff_getElem.mp o1 i j (by omega) (by omega) hij
      rw [List.getElem?_eq_getElem (by omega)] at ha hb
      simp only [Option.some.injEq] at ha hb
      exact this (ha.trans hb.symm)
    · intro c hc
      obtain ⟨k, hk, hkc⟩ := List.mem_iff_getElem.mp hc
      obtain ⟨i, _, hi⟩ := (hget k c).mp (by rw [List.getElem?_eq_getElem hk, hkc])
      exact (hI.reqd c).mp ⟨i, hi⟩
    · intro a c b hab c' hd
      have hk : cs[a.length]? = some c := by rw [hab]; simp
      obtain ⟨i, hi, hci⟩ := (hget _ _).mp hk
      obtain ⟨j, hj, hij⟩ := hI.inv.complete c i hci (by simp) c' hd
      have hsplit : order = order.take a.length ++ i :: order.drop (a.length + 1) := by
        have hl : a.length < order.length := (List.getElem?_eq_some_iff.mp hi).1
        have hi2 : order[a.length] = i := (List.getElem?_eq_some_iff.mp hi).2
        rw [← hi2]; simp
      have hm := o2 _ _ _ hsplit j hij
      obtain ⟨k, hk2, hk3⟩ := List.mem_take_iff_getElem.mp hm
      have hck : cs[k]? = some c' := (hget k c').mpr ⟨j, by rw [List.getElem?_eq_getElem (by omega), hk3], hj⟩
      rw [hab, List.getElem?_append_left (by omega)] at hck
      exact List.mem_of_getElem? hck

/-- If no required update depends on itself, `update()` returns and the plan contains every required update. Together with
`C14_plan_sound`: every one exactly once, nothing else, and in dependency order. -/
theorem C14_plan_complete {net : Net} {st : CSt} {reqs : List (Nat × Nat)} (h : Reach net st reqs)
    (hac : ∀ c, Required net reqs c → ¬ TransGen (Dep net) c c) :
    ∃ st', update st = .ok st' () ∧ ∀ c, c ∈ st'.plan ↔ Required net reqs c := by
  have hI := reach_inv h
  obtain ⟨l, h1, h2, h3⟩ := C10_acyclic_complete hI.inv.reach (acyclic_ids hI hac)
  obtain ⟨cs, k1, k2, k3⟩ := callsAt_spec st.calls l (fun i hi => (h3 i).mp hi)
  have hu : update st = .ok { st with plan := cs } () := by
    unfold update
    rw [h1]
    simp only [k1]
  refine ⟨_, hu, ?_⟩
  intro c
  refine ⟨(C14_plan_sound h hu).2.1 c, ?_⟩
  intro hc
  obtain ⟨i, hi⟩ := (hI.reqd c).mpr hc
  have hci := (hI.inv.ids c i).mp hi
  show c ∈ cs
  rw [k2]
  exact List.mem_filterMap.mpr ⟨i, (h3 i).mpr (List.getElem?_eq_some_iff.mp hci).1, hci⟩

/-- `update()` never reaches undefined behaviour nor an unbounded recursion. -/
theorem C14_update_defined {net : Net} {st : CSt} {reqs : List (Nat × Nat)} (h : Reach net st reqs) : update st ≠ .ub := by
  have hI := reach_inv h
  unfold update
  cases ho : st.graph.order with
  | error e =>
    cases e with
    | fuel => exact absurd ho (C09_no_overflow hI.inv.reach)
    | cycle => simp
    | noRoot => simp
  | ok order =>
    obtain ⟨cs, k1, _, _⟩ := callsAt_spec st.calls order (C09_order hI.inv.reach ho).2.2
    simp [k1]

/-! ### Termination of the construction -/

/-- Relation followed by the recursion between `addOutput` and `addCall`. -/
inductive Follows (net : Net) : Item → Item → Prop
  | upd {s o us u} : net.isNode s = true → net.outputDeps s o = some us → u ∈ us → Follows net (.call (s, u)) (.out s o)
  | direct {s o s' o'} : net.isNode s = true → net.outputDeps s o = none → net.directDeps s o = some (s', o') →
      Follows net (.out s' o') (.out s o)
  | intern {c u} : u ∈ net.internalDeps c.1 c.2 → Follows net (.call (c.1, u)) (.call c)
  | input {c s os o} : (s, os) ∈ net.inputDeps c.1 c.2 → o ∈ os → Follows net (.out s o) (.call c)

theorem follows_dep {net : Net} {c : Call} {i : Item} (hi : i ∈ depItems net c) : Follows net i (.call c) := by
  simp only [depItems, List.mem_append, List.mem_map, List.mem_flatMap] at hi
  rcases hi with ⟨u, hu, rfl⟩ | ⟨⟨s, os⟩, h1, o, h2, rfl⟩
  · exact .intern hu
  · exact .input h1 h2

/-- Handling the element does not exhaust the allowed recursion depth, provided it is at least `f0`. -/
def Term (net : Net) (f0 : Nat) (it : Item) : Prop :=
  ∀ f, f0 ≤ f → ∀ G st, CInv net G st → ∃ st' ids, go net f it st = .ok (st', ids)

theorem common_bound {net : Net} (l : List Item) (h : ∀ i ∈ l, ∃ f0, Term net f0 i) : ∃ f0, ∀ i ∈ l, Term net f0 i := by
  induction l with
  | nil => exact ⟨0, by simp⟩
  | cons a l ih =>
    obtain ⟨f1, h1⟩ := ih (fun i hi => h i (List.mem_cons_of_mem _ hi))
    obtain ⟨f2, h2⟩ := h a List.mem_cons_self
    refine ⟨max f1 f2, ?_⟩
    intro i hi f hf
    rcases List.mem_cons.mp hi with rfl | hi
    · exact h2 f (by omega)
    · exact h1 i hi f (by omega)

theorem addDeps_total {net : Net} {f : Nat} (c : Call) (id : Nat) (is : List Item) (his : ∀ i ∈ is, i ∈ depItems net c)
    (ht : ∀ i ∈ is, ∀ G st, CInv net G st → ∃ st' ids, go net f i st = .ok (st', ids)) (G : List Call) (st : CSt)
    (hi : CInv net G st) (hc : st.callId c = some id) : ∃ st', addDeps (go net f) id is st = .ok st' := by
  induction is generalizing st with
  | nil => exact ⟨st, rfl⟩
  | cons it is ih =>
    obtain ⟨st1, ids, h1⟩ := ht it List.mem_cons_self G st hi
    have H := go_spec net f G it st st1 ids hi h1
    have hc1 := H.ext.ids c id hc
    obtain ⟨st2, h2, i2, e2, -, -⟩ := addEdges_spec c id ids st1 H.inv hc1 (fun i hi => by
      obtain ⟨x, hx, hx'⟩ := H.only i hi
      exact ⟨x, (dep_iff net c x).mpr ⟨it, his it List.mem_cons_self, hx⟩, hx'⟩)
    obtain ⟨st3, h3⟩ := ih (fun i hi => his i (List.mem_cons_of_mem _ hi)) (fun i hi => ht i (List.mem_cons_of_mem _ hi)) st2 i2
      (by rw [e2]; exact hc1)
    exact ⟨st3, by simp only [addDeps, h1, h2, h3]⟩

theorem addUpdates_total {net : Net} {f : Nat} (node : Nat) (us : List Nat)
    (ht : ∀ u ∈ us, ∀ G st, CInv net G st → ∃ st' ids, go net f (.call (node, u)) st = .ok (st', ids)) (G : List Call) (st : CSt)
    (hi : CInv net G st) : ∃ st' ids, addUpdates (go net f) node us st = .ok (st', ids) := by
  induction us generalizing st with
  | nil => exact ⟨st, [], rfl⟩
  | cons u us ih =>
    obtain ⟨st1, ids, h1⟩ := ht u List.mem_cons_self G st hi
    have H := go_spec net f G _ st st1 ids hi h1
    obtain ⟨st2, ids2, h2⟩ := ih (fun u hu => ht u (List.mem_cons_of_mem _ hu)) st1 H.inv
    exact ⟨st2, ids ++ ids2, by simp only [addUpdates, h1, h2]⟩

theorem go_total {net : Net} (it : Item) (hacc : Acc (Follows net) it) : ∃ f0, Term net f0 it := by
  induction hacc with
  | intro it _ ih =>
    cases it with
    | call c =>
      obtain ⟨f0, h0⟩ := common_bound (depItems net c) (fun i hi => ih i (follows_dep hi))
      refine ⟨f0 + 1, ?_⟩
      intro f hf G st hi
      obtain ⟨f, rfl⟩ : ∃ f', f = f' + 1 := ⟨f - 1, by omega⟩
      simp only [go, addCall]
      cases hid : st.callId c with
      | some id => exact ⟨_, _, rfl⟩
      | none =>
        simp only
        obtain ⟨st2, h2⟩ := addDeps_total (f := f) c st.graph.addNode.2 (depItems net c) (fun _ h => h)
          (fun i hi G st hinv => h0 i hi f (by omega) G st hinv) (c :: G) _ (addCall_state hi hid) (by simp [register])
        unfold register at h2
        rw [h2]
        exact ⟨_, _, rfl⟩
    | out s o =>
      by_cases hn : net.isNode s = true
      · cases ho : net.outputDeps s o with
        | some us =>
          obtain ⟨f0, h0⟩ := common_bound (us.map (fun u => .call (s, u))) (fun i hi => by
            obtain ⟨u, hu, rfl⟩ := List.mem_map.mp hi
            exact ih _ (.upd hn ho hu))
          refine ⟨f0 + 1, ?_⟩
          intro f hf G st hi
          obtain ⟨f, rfl⟩ : ∃ f', f = f' + 1 := ⟨f - 1, by omega⟩
          simp only [go, addOutput]
          cases hv : st.visited (s, o) with
          | some ids => exact ⟨_, _, rfl⟩
          | none =>
            obtain ⟨st2, ids, h2⟩ := addUpdates_total (f := f) s us (fun u hu G st hinv =>
              h0 _ (List.mem_map.mpr ⟨u, hu, rfl⟩) f (by omega) G st hinv) G st hi
            simp only [hn, ite_true, ho, h2]
            exact ⟨_, _, rfl⟩
        | none =>
          cases hd : net.directDeps s o with
          | some p =>
            obtain ⟨s', o'⟩ := p
            obtain ⟨f0, h0⟩ := ih _ (.direct hn ho hd)
            refine ⟨f0 + 1, ?_⟩
            intro f hf G st hi
            obtain ⟨f, rfl⟩ : ∃ f', f = f' + 1 := ⟨f - 1, by omega⟩
            simp only [go, addOutput]
            cases hv : st.visited (s, o) with
            | some ids => exact ⟨_, _, rfl⟩
            | none =>
              obtain ⟨st2, ids, h2⟩ := h0 f (by omega) G st hi
              simp only [hn, ite_true, ho, hd, h2]
              exact ⟨_, _, rfl⟩
          | none =>
            refine ⟨1, ?_⟩
            intro f hf G st hi
            obtain ⟨f, rfl⟩ : ∃ f', f = f' + 1 := ⟨f - 1, by omega⟩
            simp only [go, addOutput]
            cases hv : st.visited (s, o) with
            | some ids => exact ⟨_, _, rfl⟩
            | none =>
              simp only [hn, ite_true, ho, hd]
              exact ⟨_, _, rfl⟩
      · refine ⟨1, ?_⟩
        intro f hf G st hi
        obtain ⟨f, rfl⟩ : ∃ f', f = f' + 1 := ⟨f - 1, by omega⟩
        simp only [go, addOutput]
        cases hv : st.visited (s, o) with
        | some ids => exact ⟨_, _, rfl⟩
        | none =>
          simp only [hn]
          exact ⟨_, _, rfl⟩

/-- If nothing the requested outputs depend on depends on itself (well-foundedness, which for a finite network means that
there is no cycle), `add` returns when it is allowed a large enough recursion depth. -/
theorem C14_add_returns {net : Net} {st : CSt} {reqs : List (Nat × Nat)} (h : Reach net st reqs) (l : List (Nat × Nat))
    (hwf : ∀ p ∈ l, Acc (Follows net) (.out p.1 p.2)) : ∃ f0, ∀ f, f0 ≤ f → ∃ st', addInputs net f l st = .ok st' := by
  have hI := (reach_inv h).inv
  clear h
  obtain ⟨f0, h0⟩ := common_bound (net := net) (l.map (fun p => .out p.1 p.2)) (fun i hi => by
    obtain ⟨p, hp, rfl⟩ := List.mem_map.mp hi
    exact go_total _ (hwf p hp))
  refine ⟨f0, ?_⟩
  intro f hf
  clear hwf
  induction l generalizing st with
  | nil => exact ⟨st, rfl⟩
  | cons p l ih =>
    obtain ⟨st1, ids, h1⟩ := h0 (.out p.1 p.2) (by simp) f hf [] st hI
    have H := go_spec net f [] _ st st1 ids hI h1
    obtain ⟨st2, h2⟩ := ih H.inv (fun i hi => h0 i (by simp only [List.map_cons, List.mem_cons]; exact Or.inr hi))
    exact ⟨st2, by simp only [addInputs, h1, h2]⟩

/-! ## C15 -/

/-- An update reads only the caches written by its declared dependencies. -/
def ReadsDeps {V : Type} (net : Net) (F : Call → Store V → V) : Prop :=
  ∀ c v v', (∀ c', Dep net c c' → v c' = v' c') → F c v = F c v'

theorem execute_frame {V : Type} (F : Call → Store V → V) (l : List Call) (v : Store V) (c : Call) (hc : c ∉ l) :
    execute F l v c = v c := by
  induction l generalizing v with
  | nil => rfl
  | cons a l ih =>
    simp only [List.mem_cons, not_or] at hc
    rw [execute, ih _ hc.2, if_neg hc.1]

theorem execute_append {V : Type} (F : Call → Store V → V) (a b : List Call) (v : Store V) :
    execute F (a ++ b) v = execute F b (execute F a v) := by
  induction a generalizing v with
  | nil => rfl
  | cons x a ih => exact ih _

theorem execute_spec {V : Type} {net : Net} (F : Call → Store V → V) (hF : ReadsDeps net F) (l : List Call) (hnd : l.Nodup)
    (hd : ∀ a c b, l = a ++ c :: b → ∀ c', Dep net c c' → c' ∈ a) (v : Store V) (c : Call) (hc : c ∈ l) :
    F c (execute F l v) = execute F l v c := by
  obtain ⟨a, b, rfl⟩ := List.append_of_mem hc
  rw [List.nodup_append] at hnd
  obtain ⟨n1, n2, n3⟩ := hnd
  have n4 := List.nodup_cons.mp n2
  have hfr : ∀ w : Store V, execute F (a ++ c :: b) v = execute F b (fun c' => if c' = c then F c (execute F a v) else execute F a v c') := by
    intro _; rw [execute_append]; rfl
  rw [hfr v]
  rw [execute_frame F b _ c n4.1]
  simp only [ite_true]
  apply hF
  intro c' hc'
  have hca := hd a c b rfl c' hc'
  have h1 : c' ∉ c :: b := fun hh => n3 c' hca c' hh rfl
  simp only [List.mem_cons, not_or] at h1
  rw [execute_frame F b _ c' h1.2]
  simp [h1.1]

/-- After `update()` and `execute()`, whatever the caches contained, every planned cache holds what its update computes from
the final content of the caches: running any planned update again changes nothing. -/
theorem C15_execute_refreshes {V : Type} {net : Net} {st st' : CSt} {reqs : List (Nat × Nat)} (h : Reach net st reqs)
    (hu : update st = .ok st' ()) (F : Call → Store V → V) (hF : ReadsDeps net F) (v : Store V) :
    ∀ c ∈ st'.plan, F c (execute F st'.plan v) = execute F st'.plan v c := by
  obtain ⟨h1, -, h3⟩ := C14_plan_sound h hu
  intro c hc
  exact execute_spec F hF st'.plan h1 h3 v c hc

/-- The caches that are not planned are left as they were. -/
theorem C15_execute_frame {V : Type} (F : Call → Store V → V) (st : CSt) (v : Store V) (c : Call) (hc : c ∉ st.plan) :
    execute F st.plan v c = v c := execute_frame F st.plan v c hc

/-- The result does not depend on the stale content of the caches. -/
theorem C15_execute_fresh {V : Type} {net : Net} {st st' : CSt} {reqs : List (Nat × Nat)} (h : Reach net st reqs)
    (hu : update st = .ok st' ()) (F : Call → Store V → V) (hF : ReadsDeps net F) (v w : Store V) :
    ∀ c ∈ st'.plan, execute F st'.plan v c = execute F st'.plan w c := by
  have hr := C15_execute_refreshes h hu F hF
  obtain ⟨-, -, h3⟩ := C14_plan_sound h hu
  have key : ∀ k, ∀ a c b, a.length < k → st'.plan = a ++ c :: b → execute F st'.plan v c = execute F st'.plan w c := by
    intro k
    induction k with
    | zero => intro a c b h; omega
    | succ k ih =>
      intro a c b hk hab
      have hc : c ∈ st'.plan := by rw [hab]; simp
      rw [← hr v c hc, ← hr w c hc]
      apply hF
      intro c' hc'
      have hca := h3 a c b hab c' hc'
      obtain ⟨a1, a2, rfl⟩ := List.append_of_mem hca
      refine ih a1 c' (a2 ++ c :: b) ?_ (by rw [hab]; simp)
      simp only [List.length_append, List.length_cons] at hk
      omega
  intro c hc
  obtain ⟨a, b, hab⟩ := List.append_of_mem hc
  exact key (a.length + 1) a c b (Nat.lt_succ_self _) hab

/-! ## Witnesses -/

/-- Two nodes. Node 0: output 0 needs update 0, which needs update 1 of the same node and output 0 of node 1; output 1 is
output 0 of node 1. Node 1: output 0 needs update 0. Source 2 is not a node. -/
def exNet : Net where
  isNode s := decide (s < 2)
  outputDeps s o := if s = 0 ∧ o = 0 then some [0] else if s = 1 ∧ o = 0 then some [0] else none
  directDeps s o := if s = 0 ∧ o = 1 then some (1, 0) else none
  internalDeps s u := if s = 0 ∧ u = 0 then [1] else []
  inputDeps s u := if s = 0 ∧ u = 0 then [(1, [0]), (2, [0])] else if s = 0 ∧ u = 1 then [(1, [0])] else []

/-- Plan after requests, if everything goes well. -/
def planOf (net : Net) (f : Nat) (l : List (Nat × Nat)) : Option (List Call) :=
  match addInputs net f l {} with
  | .ok st => match update st with
    | .ok st' _ => some st'.plan
    | _ => none
  | .error _ => none

example : planOf exNet 10 [(0, 1), (0, 0)] = some [(1, 0), (0, 1), (0, 0)] := by decide

example : Required exNet [(0, 0)] (1, 0) :=
  ⟨(0, 0), by simp, (0, 0), .upd rfl rfl (by simp), .single (.input (s := 1) (os := [0]) (o := 0) (by simp [exNet]) (by simp) (.upd rfl rfl (by simp)))⟩

/-- Rank of the updates of the example: a dependency has a smaller rank. -/
def exRank (c : Call) : Nat := if c = (0, 0) then 2 else if c = (0, 1) then 1 else 0

theorem ex_needs {p : Nat × Nat} {c : Call} (h : Needs exNet p c) (hp : p.1 ≠ 0) : c = (1, 0) := by
  cases h with
  | upd h1 h2 h3 =>
    simp only [exNet] at h1 h2 hp
    simp only [decide_eq_true_eq] at h1
    rw [if_neg (by omega)] at h2
    split at h2
    · next hh => cases h2; simp at h3; rw [hh.1, h3]
    · cases h2
  | direct h1 h2 h3 =>
    simp only [exNet] at h3 hp
    rw [if_neg (by omega)] at h3; cases h3

theorem ex_dep {c c' : Call} (h : Dep exNet c c') : exRank c' < exRank c := by
  cases h with
  | intern hu =>
    simp only [exNet] at hu
    split at hu
    · next hh => simp at hu; obtain ⟨a, b⟩ := c; obtain ⟨rfl, rfl⟩ := hh; subst hu; decide
    · cases hu
  | input h1 h2 h3 =>
    simp only [exNet] at h1
    split at h1
    · next hh =>
      obtain ⟨a, b⟩ := c; obtain ⟨rfl, rfl⟩ := hh
      have := ex_needs h3 (by simp at h1; rcases h1 with h | h <;> simp [h.1])
      subst this; decide
    · split at h1
      · next hh =>
        obtain ⟨a, b⟩ := c; obtain ⟨rfl, rfl⟩ := hh
        have := ex_needs h3 (by simp at h1; simp [h1.1])
        subst this; decide
      · cases h1

/-- The hypotheses of `C14_plan_complete` and `C15_execute_refreshes` are met by a state with three planned updates. -/
example : ∃ st, Reach exNet st [(0, 1), (0, 0)] ∧ st.calls.length = 3 ∧
    (∀ c, Required exNet [(0, 1), (0, 0)] c → ¬ TransGen (Dep exNet) c c) ∧
    ReadsDeps (V := Nat) exNet (fun c v => if c = (0, 0) then v (0, 1) + 1 else 5) := by
  refine ⟨_, Reach.add 10 [(0, 1), (0, 0)] .init rfl, rfl, ?_, ?_⟩
  · intro c _ h
    have key : ∀ a b, TransGen (Dep exNet) a b → exRank b < exRank a := by
      intro a b h
      induction h with
      | single h => exact ex_dep h
      | tail _ h ih => exact Nat.lt_trans (ex_dep h) ih
    exact absurd (key c c h) (Nat.lt_irrefl _)
  · intro c v v' h
    simp only
    by_cases hc : c = (0, 0)
    · subst hc
      simp only [ite_true]
      rw [h (0, 1) (.intern (by simp [exNet]))]
    · simp only [if_neg hc]

/-- The hypothesis of `C14_add_returns` is met by an output with a forwarded dependency. -/
theorem ex_acc : Acc (Follows exNet) (.out 0 1) := by
  constructor
  intro y hy
  cases hy with
  | upd _ h => simp [exNet] at h
  | direct _ _ h =>
    simp only [exNet, and_self, ite_true, Option.some.injEq, Prod.mk.injEq] at h
    obtain ⟨rfl, rfl⟩ := h
    constructor
    intro y hy
    cases hy with
    | upd _ h hu =>
      simp [exNet] at h; subst h; simp at hu; subst hu
      constructor
      intro y hy
      cases hy with
      | intern h => simp [exNet] at h
      | input h => simp [exNet] at h
    | direct _ h => simp [exNet] at h

/-- Two updates of node 1 depend on each other, node 0 has an independent update. -/
def cycNet : Net where
  isNode _ := true
  outputDeps _ o := if o = 0 then some [0] else none
  directDeps _ _ := none
  internalDeps s u := if s = 1 then (if u = 0 then [1] else if u = 1 then [0] else []) else []
  inputDeps _ _ := []

/-- With a cyclic dependency, `update()` throws when nothing else is requested, but when an independent output is requested too
it returns a plan that silently omits the required updates of the cycle. -/
theorem C14_cycle_omitted : planOf cycNet 10 [(1, 0)] = none ∧ planOf cycNet 10 [(0, 0), (1, 0)] = some [(0, 0)] ∧
    Required cycNet [(0, 0), (1, 0)] (1, 0) :=
  ⟨by decide, by decide, (1, 0), by simp, (1, 0), .upd rfl rfl (by simp), .refl⟩

-- the theorems applied to the call graph of the example
def exSt : CSt := match addInputs exNet 10 [(0, 1), (0, 0)] {} with | .ok st => st | _ => {}

theorem exSt_reach : Reach exNet exSt [(0, 1), (0, 0)] := Reach.add 10 [(0, 1), (0, 0)] .init rfl

theorem ex_noCycle (c : Call) : ¬ TransGen (Dep exNet) c c := by
  intro h
  have key : ∀ a b, TransGen (Dep exNet) a b → exRank b < exRank a := by
    intro a b h
    induction h with
    | single h => exact ex_dep h
    | tail _ h ih => exact Nat.lt_trans (ex_dep h) ih
  exact absurd (key c c h) (Nat.lt_irrefl _)

/-- a value per update: `(0, 0)` is one more than `(0, 1)`, the others are constant -/
def exF : Call → Store Nat → Nat := fun c v => if c = (0, 0) then v (0, 1) + 1 else 5

theorem exF_reads : ReadsDeps exNet exF := by
  intro c v v' h
  simp only [exF]
  by_cases hc : c = (0, 0)
  · subst hc
    simp only [ite_true]
    rw [h (0, 1) (.intern (by simp [exNet]))]
  · simp only [if_neg hc]

example : update exSt ≠ .ub := C14_update_defined exSt_reach
example : ∃ st', update exSt = .ok st' () ∧ st'.plan.Nodup ∧ (∀ c, c ∈ st'.plan ↔ Required exNet [(0, 1), (0, 0)] c) ∧
    (∀ v, ∀ c ∈ st'.plan, exF c (execute exF st'.plan v) = execute exF st'.plan v c) ∧
    (∀ v w, ∀ c ∈ st'.plan, execute exF st'.plan v c = execute exF st'.plan w c) := by
  obtain ⟨st', h1, h2⟩ := C14_plan_complete exSt_reach (fun c _ => ex_noCycle c)
  exact ⟨st', h1, (C14_plan_sound exSt_reach h1).1, h2, C15_execute_refreshes exSt_reach h1 exF exF_reads,
    C15_execute_fresh exSt_reach h1 exF exF_reads⟩
example : execute exF exSt.plan (fun _ => 7) (3, 3) = 7 := C15_execute_frame exF exSt _ (3, 3) (by decide)
example : ∃ f0, ∀ f, f0 ≤ f → ∃ st', addInputs exNet f [(0, 1)] exSt = .ok st' :=
  C14_add_returns exSt_reach [(0, 1)] (fun p hp => by simp at hp; subst hp; exact ex_acc)

end Verif.C14
