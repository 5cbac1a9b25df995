import Verif.Model.Substitutions
import Verif.Properties.C13_Reduce
import Verif.Properties.C43_SubstitutionUnit
/-!
# C70, C71 - the set of substitutions

The specification: the list of the substitutions that were added and not removed, the relation "uses a variable substituted by" between them, and the
linear systems given by plain sums.
-/
set_option autoImplicit false
set_option linter.unusedSectionVars false

namespace Verif.C70
open Verif Verif.SBS Relation Finset

/-! ## Specification -/

/-- The substitution `s` uses a variable substituted by `t`. -/
def Uses (w : World) (s t : Sub) : Prop := ∃ x ∈ t.vars, ∃ c ∈ s.cstrs, x ∈ (w.cstr c).vars

/-- The substitution of index `i` uses a variable substituted by the one of index `j`. -/
def E (w : World) (l : List Sub) (i j : Nat) : Prop := ∃ s t, l[i]? = some s ∧ l[j]? = some t ∧ Uses w s t

/-- The object `S` can be obtained by a history of calls after which the substitutions in the set are `l`. -/
inductive Hist (w : World) : State → List Sub → Prop
  | init : Hist w {} []
  | add {S S' : State} {l : List Sub} (cs xs : List Nat) (r : Option Nat) (s : Sub) : Hist w S l → make w cs xs r = .ok () s → S.add w s = .ok S' () → Hist w S' (l ++ [s])
  | remove {S S' : State} {l : List Sub} (p : Nat) : Hist w S l → S.remove (.elem p) = .ok S' () → Hist w S' (l.eraseIdx p)
  | ignored {S S' : State} {l : List Sub} (s : Sub) : Hist w S l → S.remove (.other s) = .ok S' () → Hist w S' l
  | finalize {S S' : State} {l : List Sub} : Hist w S l → S.finalize w = .ok S' () → Hist w S' l
  | failed {S S' : State} {l : List Sub} : Hist w S l → S.finalize w = .throw S' → Hist w S' l

/-- What the constructor of a substitution guarantees -/
structure Valid (w : World) (s : Sub) : Prop where
  nodup : s.vars.Nodup
  inC : ∀ x ∈ s.vars, ∃ c ∈ s.cstrs, x ∈ (w.cstr c).vars
  hasX : ∀ c ∈ s.cstrs, ∃ x ∈ s.vars, x ∈ (w.cstr c).vars
  eq : ∀ c ∈ s.cstrs, w.eq c = true
  rank : s.rank ≤ rows w s.cstrs
  size : rows w s.cstrs ≤ SU.total w.dim s.vars

/-- The substitution `s` is the one made of those of the indices `G`. -/
structure Merged (l : List Sub) (G : List Nat) (s : Sub) : Prop where
  cstrs : ∀ c, c ∈ s.cstrs ↔ ∃ i ∈ G, ∃ t, l[i]? = some t ∧ c ∈ t.cstrs
  vars : ∀ x, x ∈ s.vars ↔ ∃ i ∈ G, ∃ t, l[i]? = some t ∧ x ∈ t.vars
  single : ∀ i, G = [i] → l[i]? = some s

/-- The units are the substitutions, grouped: `gs` gives the indices of the substitutions of each group of each unit. -/
structure Grouping (w : World) (l : List Sub) (gs : List (List (List Nat))) (units : List (List Sub)) : Prop where
  /-- a substitution is in one group of one unit -/
  nodup : gs.flatten.flatten.Nodup
  mem : ∀ i, i < l.length ↔ i ∈ gs.flatten.flatten
  /-- a group is made of the substitutions that depend on each other -/
  mutual_ : ∀ u ∈ gs, ∀ G ∈ u, ∀ i ∈ G, ∀ j, j ∈ G ↔ ReflTransGen (E w l) i j ∧ ReflTransGen (E w l) j i
  /-- a unit is made of the substitutions linked by dependencies -/
  linked : ∀ u ∈ gs, ∀ i ∈ u.flatten, ∀ j, j ∈ u.flatten ↔ EqvGen (E w l) i j
  /-- in a unit, a group uses no variable of the groups that come after -/
  order : ∀ u ∈ gs, ∀ (k k' : Nat) (G G' : List Nat), k < k' → u[k]? = some G → u[k']? = some G' → ∀ i ∈ G, ∀ j ∈ G', ¬ E w l i j
  nonempty : ∀ u ∈ gs, u ≠ [] ∧ ∀ G ∈ u, G ≠ []
  units : List.Forall₂ (List.Forall₂ (Merged l)) gs units

/-! ## The history -/

theorem make_ok {w : World} {cs xs : List Nat} {r : Option Nat} {s : Sub} (h : make w cs xs r = .ok () s) :
    Valid w s ∧ s.cstrs = cs ∧ s.vars = xs ∧ s.rank = r.getD (rows w cs) := by
  unfold make at h
  simp only at h
  by_cases h1 : check w ⟨cs, xs, r.getD (rows w cs)⟩ = true
  · rw [if_pos h1] at h
    by_cases h2 : asserts w ⟨cs, xs, r.getD (rows w cs)⟩ = true
    · rw [if_pos h2] at h
      injection h with _ h
      subst h
      simp only [check, asserts, Bool.and_eq_true, List.all_eq_true, List.any_eq_true, decide_eq_true_eq] at h1 h2
      exact ⟨⟨h1.1.1.1.2, h1.1.1.2, h1.1.2, h1.1.1.1.1, h2.2, h2.1⟩, rfl, rfl, rfl⟩
    · rw [if_neg h2] at h; cases h
  · rw [if_neg h1] at h; cases h

theorem dependsOn_iff (w : World) (s t : Sub) : dependsOn w s t = true ↔ Uses w s t := by
  simp only [dependsOn, Uses, List.any_eq_true, decide_eq_true_eq]

theorem edge_reach {g : DG.Graph} {n : Nat} {F : Nat → Nat → Prop} (h : C09.Reach g n F) {f t : Nat} (hf : f < n) (ht : t < n) :
    ∃ g', edge g f t = some g' ∧ C09.Reach g' n (fun x y => F x y ∨ (x = f ∧ y = t)) := by
  obtain ⟨g', b, e, -⟩ := C09.C11_addEdge_flag h f t hf ht
  exact ⟨g', by unfold edge; rw [e], .addEdge f t h e⟩

/-- The body of the loop of `add`: the edges between the new substitution and another one -/
theorem addStep_reach {w : World} {g : DG.Graph} {n : Nat} {F : Nat → Nat → Prop} (h : C09.Reach g n F) {s sj : Sub} {i j : Nat} (hi : i < n) (hj : j < n) :
    ∃ g', addStep w s i sj j g = some g' ∧
      C09.Reach g' n (fun x y => F x y ∨ (x = j ∧ y = i ∧ Uses w sj s) ∨ (x = i ∧ y = j ∧ Uses w s sj)) := by
  have h1 : ∃ g1, (if dependsOn w sj s then edge g j i else some g) = some g1 ∧ C09.Reach g1 n (fun x y => F x y ∨ (x = j ∧ y = i ∧ Uses w sj s)) := by
    by_cases hd : dependsOn w sj s = true
    · obtain ⟨g1, e, hr⟩ := edge_reach h hj hi
      refine ⟨g1, by rw [if_pos hd, e], ?_⟩
      have : (fun x y => F x y ∨ (x = j ∧ y = i ∧ Uses w sj s)) = (fun x y => F x y ∨ (x = j ∧ y = i)) := by
        funext x y
        have := (dependsOn_iff w sj s).mp hd
        simp [this]
      rw [this]; exact hr
    · refine ⟨g, by rw [if_neg hd], ?_⟩
      have : (fun x y => F x y ∨ (x = j ∧ y = i ∧ Uses w sj s)) = F := by
        funext x y
        have : ¬ Uses w sj s := fun hu => hd ((dependsOn_iff w sj s).mpr hu)
        simp [this]
      rw [this]; exact h
  obtain ⟨g1, e1, hr1⟩ := h1
  unfold addStep
  rw [e1]
  simp only
  by_cases hd : dependsOn w s sj = true
  · obtain ⟨g2, e, hr⟩ := edge_reach hr1 hi hj
    refine ⟨g2, by rw [if_pos hd, e], ?_⟩
    have : (fun x y => F x y ∨ (x = j ∧ y = i ∧ Uses w sj s) ∨ (x = i ∧ y = j ∧ Uses w s sj)) =
        (fun x y => (F x y ∨ (x = j ∧ y = i ∧ Uses w sj s)) ∨ (x = i ∧ y = j)) := by
      funext x y
      have := (dependsOn_iff w s sj).mp hd
      simp [this, or_assoc]
    rw [this]; exact hr
  · refine ⟨g1, by rw [if_neg hd], ?_⟩
    have : (fun x y => F x y ∨ (x = j ∧ y = i ∧ Uses w sj s) ∨ (x = i ∧ y = j ∧ Uses w s sj)) =
        (fun x y => F x y ∨ (x = j ∧ y = i ∧ Uses w sj s)) := by
      funext x y
      have : ¬ Uses w s sj := fun hu => hd ((dependsOn_iff w s sj).mpr hu)
      simp [this]
    rw [this]; exact hr1

theorem addLoop_reach {w : World} {s : Sub} {i n : Nat} (hi : i < n) (l : List Sub) : ∀ (j : Nat) (g : DG.Graph) (F : Nat → Nat → Prop), C09.Reach g n F → j + l.length ≤ n →
    ∃ g', addLoop w s i l j g = some g' ∧ C09.Reach g' n (fun x y => F x y ∨ ∃ k t, l[k]? = some t ∧
      ((x = j + k ∧ y = i ∧ Uses w t s) ∨ (x = i ∧ y = j + k ∧ Uses w s t))) := by
  induction l with
  | nil =>
    intro j g F h _
    exact ⟨g, rfl, by simpa using h⟩
  | cons sj l ih =>
    intro j g F h hj
    rw [List.length_cons] at hj
    obtain ⟨g1, e1, hr1⟩ := addStep_reach (w := w) (s := s) (sj := sj) h hi (show j < n by omega)
    obtain ⟨g2, e2, hr2⟩ := ih (j + 1) g1 _ hr1 (by omega)
    refine ⟨g2, by simp only [addLoop, e1, e2], ?_⟩
    convert hr2 using 1
    funext x y
    apply propext
    constructor
    · rintro (h | ⟨k, t, hk, h⟩)
      · exact Or.inl (Or.inl h)
      · cases k with
        | zero =>
          simp only [List.getElem?_cons_zero, Option.some.injEq] at hk
          subst hk
          exact Or.inl (Or.inr h)
        | succ k =>
          rw [List.getElem?_cons_succ] at hk
          refine Or.inr ⟨k, t, hk, ?_⟩
          rw [show j + 1 + k = j + (k + 1) by omega]; exact h
    · rintro ((h | h) | ⟨k, t, hk, h⟩)
      · exact Or.inl h
      · exact Or.inr ⟨0, sj, rfl, h⟩
      · refine Or.inr ⟨k + 1, t, by rw [List.getElem?_cons_succ]; exact hk, ?_⟩
        rw [show j + 1 + k = j + (k + 1) by omega] at h; exact h

/-- The invariant of the histories -/
structure HInv (w : World) (S : State) (l : List Sub) : Prop where
  subs : S.subs = l
  valid : ∀ s ∈ l, Valid w s
  deps : C09.Reach S.deps l.length (E w l)

theorem E_lt {w : World} {l : List Sub} {i j : Nat} (h : E w l i j) : i < l.length ∧ j < l.length := by
  obtain ⟨s, t, hs, ht, -⟩ := h
  exact ⟨(List.getElem?_eq_some_iff.mp hs).1, (List.getElem?_eq_some_iff.mp ht).1⟩

theorem add_inv {w : World} {S : State} {l : List Sub} (h : HInv w S l) {s : Sub} (hs : Valid w s) :
    ∃ S', S.add w s = .ok S' () ∧ HInv w S' (l ++ [s]) ∧ S' = { S with subs := l ++ [s], deps := S'.deps } := by
  have hsz := (C09.C11_content h.deps).1
  have h1 : S.deps.addNode.2 = S.subs.length := by rw [h.subs]; exact hsz
  have hl : S.deps.addNode.2 = l.length := by rw [h1, h.subs]
  obtain ⟨g, e, hr⟩ := addLoop_reach (w := w) (s := s) (i := l.length) (n := l.length + 1) (by omega) (l ++ [s]) 0 _ _ (C09.Reach.addNode h.deps)
    (by simp)
  have e' : S.add w s = .ok { S with subs := l ++ [s], deps := g } () := by
    unfold State.add
    simp only
    rw [if_pos h1, hl, h.subs, e]
  refine ⟨_, e', ⟨rfl, ?_, ?_⟩, rfl⟩
  · intro t ht
    rcases List.mem_append.mp ht with ht | ht
    · exact h.valid t ht
    · rw [List.mem_singleton] at ht; subst ht; exact hs
  · rw [List.length_append, List.length_singleton]
    convert hr using 1
    funext x y
    apply propext
    simp only [Nat.zero_add]
    constructor
    · rintro ⟨a, b, ha, hb, hu⟩
      by_cases hx : x < l.length
      · rw [List.getElem?_append_left hx] at ha
        by_cases hy : y < l.length
        · rw [List.getElem?_append_left hy] at hb
          exact Or.inl ⟨a, b, ha, hb, hu⟩
        · have hyl : y = l.length := by have := (List.getElem?_eq_some_iff.mp hb).1; simp at this; omega
          subst hyl
          simp only [List.getElem?_concat_length, Option.some.injEq] at hb
          subst hb
          exact Or.inr ⟨x, a, by rw [List.getElem?_append_left hx]; exact ha, Or.inl ⟨rfl, rfl, hu⟩⟩
      · have hxl : x = l.length := by have := (List.getElem?_eq_some_iff.mp ha).1; simp at this; omega
        subst hxl
        simp only [List.getElem?_concat_length, Option.some.injEq] at ha
        subst ha
        exact Or.inr ⟨y, b, hb, Or.inr ⟨rfl, rfl, hu⟩⟩
    · rintro (⟨a, b, ha, hb, hu⟩ | ⟨k, t, hk, ⟨rfl, rfl, hu⟩ | ⟨rfl, rfl, hu⟩⟩)
      · exact ⟨a, b, by rw [List.getElem?_append_left (List.getElem?_eq_some_iff.mp ha).1]; exact ha,
          by rw [List.getElem?_append_left (List.getElem?_eq_some_iff.mp hb).1]; exact hb, hu⟩
      · exact ⟨t, s, hk, List.getElem?_concat_length, hu⟩
      · exact ⟨s, t, List.getElem?_concat_length, hk, hu⟩

theorem getElem?_before {l : List Sub} {p x : Nat} : (l.eraseIdx p)[x]? = l[C09.before p x]? := by
  unfold C09.before
  rw [List.getElem?_eraseIdx]
  by_cases h : x < p
  · rw [if_pos h, if_pos h]
  · rw [if_neg h, if_neg h]

theorem remove_inv {w : World} {S : State} {l : List Sub} (h : HInv w S l) {p : Nat} (hp : p < l.length) :
    ∃ S', S.remove (.elem p) = .ok S' () ∧ HInv w S' (l.eraseIdx p) ∧ S' = { S with subs := l.eraseIdx p, deps := S'.deps } := by
  obtain ⟨g, e⟩ := C09.C11_removeNode_returns h.deps p hp
  have e' : S.remove (.elem p) = .ok { S with subs := l.eraseIdx p, deps := g } () := by
    unfold State.remove
    simp only
    rw [h.subs, if_pos hp, e]
  refine ⟨_, e', ⟨rfl, fun s hs => h.valid s (List.mem_of_mem_eraseIdx hs), ?_⟩, rfl⟩
  have := C09.Reach.removeNode p h.deps e
  rw [List.length_eraseIdx, if_pos hp]
  convert this using 1
  funext x y
  apply propext
  simp only [E, getElem?_before]

theorem retrieveLoop_frame (w : World) (us : List (List Sub)) : ∀ (i : Nat) (S : State), (retrieveLoop w us i S).subs = S.subs ∧ (retrieveLoop w us i S).deps = S.deps ∧
    (retrieveLoop w us i S).units = S.units ∧ (retrieveLoop w us i S).calls = S.calls := by
  induction us with
  | nil => intro i S; exact ⟨rfl, rfl, rfl, rfl⟩
  | cons u us ih =>
    intro i S
    have := ih (i + 1) (retrieve w S i u)
    exact this

theorem finalize_frame {w : World} {S S' : State} (h : S.finalize w = .ok S' () ∨ S.finalize w = .throw S') : S'.subs = S.subs ∧ S'.deps = S.deps := by
  unfold State.finalize at h
  cases h1 : S.deps.reduce with
  | error e => simp only [h1] at h; rcases h with h | h <;> cases h
  | ok p =>
    simp only [h1] at h
    cases h2 : p.2.groupedOrder with
    | error e => cases e <;> simp only [h2] at h <;> rcases h with h | h <;> cases h <;> exact ⟨rfl, rfl⟩
    | ok orders =>
      simp only [h2] at h
      cases h3 : build w S.subs p.1 orders with
      | ub => simp only [h3] at h; rcases h with h | h <;> cases h
      | throw us => simp only [h3] at h; rcases h with h | h <;> cases h; exact ⟨rfl, rfl⟩
      | ok _ us =>
        simp only [h3] at h
        rcases h with h | h <;> cases h
        have := retrieveLoop_frame w us 0 { S with units := us, vars := [], funcs := [], addCstrs := [], others := [] }
        exact ⟨this.1, this.2.1⟩

theorem hist_inv {w : World} {S : State} {l : List Sub} (h : Hist w S l) : HInv w S l := by
  induction h with
  | init =>
    refine ⟨rfl, by simp, ?_⟩
    have : E w [] = fun _ _ => False := by
      funext x y
      apply propext
      simp [E]
    rw [this]
    exact C09.Reach.init
  | add cs xs r s _ hm ha ih =>
    obtain ⟨S', e, h, -⟩ := add_inv ih (make_ok hm).1
    rw [ha] at e; cases e; exact h
  | @remove S S' l p _ hr ih =>
    by_cases hp : p < l.length
    · obtain ⟨S', e, h, -⟩ := remove_inv ih hp
      rw [hr] at e; cases e; exact h
    · unfold State.remove at hr
      simp only at hr
      rw [ih.subs, if_neg hp] at hr
      cases hr
  | ignored s _ hr ih =>
    unfold State.remove at hr
    cases hr
    exact ih
  | finalize _ hf ih =>
    obtain ⟨e1, e2⟩ := finalize_frame (Or.inl hf)
    exact ⟨by rw [e1, ih.subs], ih.valid, by rw [e2]; exact ih.deps⟩
  | failed _ hf ih =>
    obtain ⟨e1, e2⟩ := finalize_frame (Or.inr hf)
    exact ⟨by rw [e1, ih.subs], ih.valid, by rw [e2]; exact ih.deps⟩

/-- **C70**: after any history, the substitutions added and not removed are in the set; the dependency graph has an edge from a substitution to another
one if and only if the first uses a variable that the second substitutes; additions and removals of elements return. -/
theorem C70_graph {w : World} {S : State} {l : List Sub} (h : Hist w S l) :
    S.subs = l ∧ (∀ i j, (i, j) ∈ S.deps.edges ↔ E w l i j) ∧
    (∀ cs xs r s, make w cs xs r = .ok () s → ∃ S', S.add w s = .ok S' ()) ∧
    ∀ p < l.length, ∃ S', S.remove (.elem p) = .ok S' () := by
  have hi := hist_inv h
  refine ⟨hi.subs, (C09.C11_content hi.deps).2.1, fun cs xs r s hm => ?_, fun p hp => ?_⟩
  · obtain ⟨S', e, -⟩ := add_inv hi (make_ok hm).1
    exact ⟨S', e⟩
  · obtain ⟨S', e, -⟩ := remove_inv hi hp
    exact ⟨S', e⟩

/-! ## The groups -/

/-- **C70**: `uses` tells if a constraint is used by a substitution of the set. -/
theorem C70_uses {w : World} {S : State} {l : List Sub} (h : Hist w S l) (c : Nat) : S.uses c = true ↔ ∃ s ∈ l, c ∈ s.cstrs := by
  simp only [State.uses, (hist_inv h).subs, List.any_eq_true, decide_eq_true_eq]

theorem insertC_mem (c : Nat) (l : List Nat) : ∀ x, x ∈ insertC c l ↔ x = c ∨ x ∈ l := by
  induction l with
  | nil => intro x; simp [insertC]
  | cons a l ih =>
    intro x
    unfold insertC
    by_cases h1 : c < a
    · rw [if_pos h1]; simp
    · rw [if_neg h1]
      by_cases h2 : c = a
      · rw [if_pos h2]; subst h2; simp
      · rw [if_neg h2]; simp only [List.mem_cons, ih]; tauto

theorem insertC_sorted (c : Nat) (l : List Nat) (h : l.Pairwise (· < ·)) : (insertC c l).Pairwise (· < ·) := by
  induction l with
  | nil => simp [insertC]
  | cons a l ih =>
    rw [List.pairwise_cons] at h
    unfold insertC
    by_cases h1 : c < a
    · rw [if_pos h1, List.pairwise_cons, List.pairwise_cons]
      refine ⟨fun x hx => ?_, h⟩
      rcases List.mem_cons.mp hx with rfl | hx
      · exact h1
      · have := h.1 x hx; omega
    · rw [if_neg h1]
      by_cases h2 : c = a
      · rw [if_pos h2, List.pairwise_cons]; exact h
      · rw [if_neg h2, List.pairwise_cons]
        refine ⟨fun x hx => ?_, ih h.2⟩
        rcases (insertC_mem c l x).mp hx with rfl | hx
        · omega
        · exact h.1 x hx

theorem insertAll (cs : List Nat) : ∀ a : List Nat, (∀ x, x ∈ cs.foldl (fun a c => insertC c a) a ↔ x ∈ a ∨ x ∈ cs) ∧
    (a.Pairwise (· < ·) → (cs.foldl (fun a c => insertC c a) a).Pairwise (· < ·)) := by
  induction cs with
  | nil => intro a; simp
  | cons c cs ih =>
    intro a
    rw [List.foldl_cons]
    obtain ⟨h1, h2⟩ := ih (insertC c a)
    refine ⟨fun x => ?_, fun h => h2 (insertC_sorted c a h)⟩
    rw [h1, insertC_mem, List.mem_cons]; tauto

theorem addVar_mem (l : List Nat) (v x : Nat) : x ∈ addVar l v ↔ x ∈ l ∨ x = v := by
  unfold addVar
  by_cases h : v ∈ l
  · rw [if_pos h]
    constructor
    · exact Or.inl
    · rintro (h' | rfl) <;> assumption
  · rw [if_neg h]; simp

theorem addVar_nodup (l : List Nat) (v : Nat) (h : l.Nodup) : (addVar l v).Nodup := by
  unfold addVar
  by_cases hv : v ∈ l
  · rw [if_pos hv]; exact h
  · rw [if_neg hv, List.nodup_append]
    refine ⟨h, by simp, ?_⟩
    intro a ha b hb
    rw [List.mem_singleton] at hb
    subst hb
    rintro rfl
    exact hv ha

theorem addVars (vs : List Nat) : ∀ a : List Nat, (∀ x, x ∈ vs.foldl addVar a ↔ x ∈ a ∨ x ∈ vs) ∧ (a.Nodup → (vs.foldl addVar a).Nodup) := by
  induction vs with
  | nil => intro a; simp
  | cons c cs ih =>
    intro a
    rw [List.foldl_cons]
    obtain ⟨h1, h2⟩ := ih (addVar a c)
    refine ⟨fun x => ?_, fun h => h2 (addVar_nodup a c h)⟩
    rw [h1, addVar_mem, List.mem_cons]; tauto

theorem gather_fold (ss : List Sub) : ∀ p : List Nat × List Nat,
    let q := ss.foldl (fun p s => (s.cstrs.foldl (fun a c => insertC c a) p.1, s.vars.foldl addVar p.2)) p
    (∀ c, c ∈ q.1 ↔ c ∈ p.1 ∨ ∃ s ∈ ss, c ∈ s.cstrs) ∧ (∀ x, x ∈ q.2 ↔ x ∈ p.2 ∨ ∃ s ∈ ss, x ∈ s.vars) ∧
    (p.1.Pairwise (· < ·) → q.1.Pairwise (· < ·)) ∧ (p.2.Nodup → q.2.Nodup) := by
  induction ss with
  | nil => intro p; simp
  | cons s ss ih =>
    intro p
    obtain ⟨h1, h2, h3, h4⟩ := ih (s.cstrs.foldl (fun a c => insertC c a) p.1, s.vars.foldl addVar p.2)
    simp only [List.foldl_cons]
    refine ⟨fun c => ?_, fun x => ?_, fun h => h3 ((insertAll s.cstrs p.1).2 h), fun h => h4 ((addVars s.vars p.2).2 h)⟩
    · rw [h1, (insertAll s.cstrs p.1).1]; simp only [List.mem_cons, exists_eq_or_imp]; tauto
    · rw [h2, (addVars s.vars p.2).1]; simp only [List.mem_cons, exists_eq_or_imp]; tauto

theorem gather_spec (ss : List Sub) : (∀ c, c ∈ (gather ss).1 ↔ ∃ s ∈ ss, c ∈ s.cstrs) ∧ (∀ x, x ∈ (gather ss).2 ↔ ∃ s ∈ ss, x ∈ s.vars) ∧
    (gather ss).1.Pairwise (· < ·) ∧ (gather ss).2.Nodup := by
  obtain ⟨h1, h2, h3, h4⟩ := gather_fold ss ([], [])
  refine ⟨fun c => ?_, fun x => ?_, h3 List.Pairwise.nil, h4 List.nodup_nil⟩
  · have := h1 c; simpa [gather] using this
  · have := h2 x; simpa [gather] using this

theorem pick_mem {l : List Sub} {G : List Nat} {s : Sub} : s ∈ G.filterMap (fun i => l[i]?) ↔ ∃ i ∈ G, l[i]? = some s := by
  rw [List.mem_filterMap]

theorem element_ok {w : World} {l : List Sub} (hv : ∀ s ∈ l, Valid w s) {G : List Nat} {s : Sub} (h : element w l G = .ok () s) :
    Merged l G s ∧ Valid w s ∧ G ≠ [] := by
  match G, h with
  | [], h => cases h
  | [i], h =>
    simp only [element] at h
    cases hs : l[i]? with
    | none => simp only [hs] at h; cases h
    | some t =>
      simp only [hs] at h
      injection h with _ h
      subst h
      refine ⟨⟨fun c => ?_, fun x => ?_, fun j hj => ?_⟩, hv t (List.mem_of_getElem? hs), by simp⟩
      · simp [hs]
      · simp [hs]
      · simp only [List.cons.injEq, and_true] at hj
        subst hj; exact hs
  | i :: j :: G, h =>
    simp only [element] at h
    by_cases hl : ((i :: j :: G).all fun i => decide (i < l.length)) = true
    · rw [if_pos hl] at h
      obtain ⟨g1, g2, -, -⟩ := gather_spec ((i :: j :: G).filterMap fun i => l[i]?)
      obtain ⟨v, e1, e2, -⟩ := make_ok h
      refine ⟨⟨fun c => ?_, fun x => ?_, fun k hk => ?_⟩, v, by simp⟩
      · rw [e1, g1]
        simp only [pick_mem]
        constructor
        · rintro ⟨t, ⟨k, hk, ht⟩, hc⟩; exact ⟨k, hk, t, ht, hc⟩
        · rintro ⟨k, hk, t, ht, hc⟩; exact ⟨t, ⟨k, hk, ht⟩, hc⟩
      · rw [e2, g2]
        simp only [pick_mem]
        constructor
        · rintro ⟨t, ⟨k, hk, ht⟩, hc⟩; exact ⟨k, hk, t, ht, hc⟩
        · rintro ⟨k, hk, t, ht, hc⟩; exact ⟨t, ⟨k, hk, ht⟩, hc⟩
      · simp at hk
    · rw [if_neg hl] at h; cases h

theorem extract_ok {w : World} {l : List Sub} (hv : ∀ s ∈ l, Valid w s) {groups : List (List Nat)} (order : List Nat) : ∀ {u : List Sub}, extract w l groups order = .ok () u →
    List.Forall₂ (fun i s => Merged l (groups.getD i []) s ∧ Valid w s) order u := by
  induction order with
  | nil => intro u h; simp only [extract] at h; injection h with _ h; subst h; exact .nil
  | cons i order ih =>
    intro u h
    simp only [extract] at h
    cases h1 : element w l (groups.getD i []) with
    | throw _ => simp only [h1] at h; cases h
    | ub => simp only [h1] at h; cases h
    | ok _ s =>
      simp only [h1] at h
      cases h2 : extract w l groups order with
      | throw _ => simp only [h2] at h; cases h
      | ub => simp only [h2] at h; cases h
      | ok _ r =>
        simp only [h2] at h
        injection h with _ h
        subst h
        obtain ⟨a, b, -⟩ := element_ok hv h1
        exact .cons ⟨a, b⟩ (ih h2)

theorem build_ok {w : World} {l : List Sub} (hv : ∀ s ∈ l, Valid w s) {groups : List (List Nat)} (orders : List (List Nat)) : ∀ {b : List (List Sub)} {us : List (List Sub)},
    build w l groups orders = .ok b us → List.Forall₂ (List.Forall₂ (fun i s => Merged l (groups.getD i []) s ∧ Valid w s)) orders us := by
  induction orders with
  | nil => intro b u h; simp only [build] at h; injection h with _ h; subst h; exact .nil
  | cons o orders ih =>
    intro b u h
    simp only [build] at h
    cases h1 : extract w l groups o with
    | throw _ => simp only [h1] at h; cases h
    | ub => simp only [h1] at h; cases h
    | ok _ s =>
      simp only [h1] at h
      cases h2 : build w l groups orders with
      | throw _ => simp only [h2] at h; cases h
      | ub => simp only [h2] at h; cases h
      | ok _ r =>
        simp only [h2] at h
        injection h with _ h
        subst h
        exact .cons (extract_ok hv o h1) (ih h2)

/-! ## Strongly and weakly connected parts -/

section
variable {F : Nat → Nat → Prop} {parts : List (List Nat)} {orders : List (List Nat)}

theorem parts_index (hn : parts.flatten.Nodup) {a b i : Nat} {C D : List Nat} (ha : parts[a]? = some C) (hb : parts[b]? = some D) (hi : i ∈ C) (hj : i ∈ D) : a = b := by
  apply Classical.byContradiction
  intro hne
  rw [List.nodup_flatten] at hn
  obtain ⟨ha', rfl⟩ := List.getElem?_eq_some_iff.mp ha
  obtain ⟨hb', rfl⟩ := List.getElem?_eq_some_iff.mp hb
  have h := List.pairwise_iff_getElem.mp hn.2
  rcases Nat.lt_or_gt_of_ne hne with h1 | h1
  · exact h a b ha' hb' h1 hi hj
  · exact h b a hb' ha' h1 hj hi

theorem perm_parts {n : Nat} (hn : parts.length = n) (hl : orders.flatten.Nodup) (hm : ∀ x, x < n ↔ ∃ G ∈ orders, x ∈ G) :
    (orders.map fun o => o.map fun i => parts.getD i []).flatten.Perm parts := by
  have h1 : (orders.map fun o => o.map fun i => parts.getD i []).flatten = orders.flatten.map fun i => parts.getD i [] := by
    rw [List.map_flatten]
  have h2 : parts = (List.range n).map fun i => parts.getD i [] := by
    apply List.ext_getElem?
    intro i
    rw [List.getElem?_map]
    by_cases hi : i < n
    · rw [List.getElem?_range hi, List.getElem?_eq_getElem (by omega)]
      simp [List.getD_eq_getElem?_getD, List.getElem?_eq_getElem (show i < parts.length by omega)]
    · rw [List.getElem?_eq_none (by omega), List.getElem?_eq_none (by simp; omega)]; rfl
  rw [h1]
  conv_rhs => rw [h2]
  apply List.Perm.map
  rw [List.perm_ext_iff_of_nodup hl List.nodup_range]
  intro a
  rw [List.mem_range, List.mem_flatten]
  exact (hm a).symm

end

theorem grouping {w : World} {l : List Sub} {parts orders : List (List Nat)} {units : List (List Sub)}
    (p1 : parts.flatten.Nodup) (p2 : ∀ x, x < l.length ↔ ∃ C ∈ parts, x ∈ C) (p3 : ∀ C ∈ parts, C ≠ [])
    (p4 : ∀ C ∈ parts, ∀ x ∈ C, ∀ y, y ∈ C ↔ ReflTransGen (E w l) x y ∧ ReflTransGen (E w l) y x)
    (o1 : orders.flatten.Nodup) (o2 : ∀ x, x < parts.length ↔ ∃ G ∈ orders, x ∈ G) (o3 : ∀ G ∈ orders, G ≠ [])
    (o4 : ∀ G ∈ orders, ∀ x ∈ G, ∀ y, y ∈ G ↔ EqvGen (C13.Quotient (E w l) parts) x y)
    (o5 : ∀ G ∈ orders, C09.DepOrder (C13.Quotient (E w l) parts) G)
    (hu : List.Forall₂ (List.Forall₂ (fun i s => Merged l (parts.getD i []) s ∧ Valid w s)) orders units) :
    Grouping w l (orders.map fun o => o.map fun i => parts.getD i []) units := by
  have hperm := perm_parts rfl o1 o2
  have hget : ∀ i, i < parts.length → parts[i]? = some (parts.getD i []) := by
    intro i hi
    rw [List.getD_eq_getElem?_getD, List.getElem?_eq_getElem hi]; rfl
  have hmem : ∀ i, i < parts.length → parts.getD i [] ∈ parts := fun i hi => List.mem_of_getElem? (hget i hi)
  have hpart : ∀ i, i < l.length → ∃ a, a < parts.length ∧ i ∈ parts.getD a [] := by
    intro i hi
    obtain ⟨C, hC, hiC⟩ := (p2 i).mp hi
    obtain ⟨a, ha, e⟩ := List.getElem_of_mem hC
    refine ⟨a, ha, ?_⟩
    rw [List.getD_eq_getElem?_getD, List.getElem?_eq_getElem ha, e]; exact hiC
  have heqv : ∀ {i j : Nat}, ReflTransGen (E w l) i j → EqvGen (E w l) i j := by
    intro i j h
    induction h with
    | refl => exact .refl _
    | tail _ h ih => exact .trans _ _ _ ih (.rel _ _ h)
  -- the parts linked by dependencies
  have hup : ∀ {a b : Nat}, EqvGen (C13.Quotient (E w l) parts) a b → a < parts.length → b < parts.length → ∀ i ∈ parts.getD a [], ∀ j ∈ parts.getD b [], EqvGen (E w l) i j := by
    intro a b h
    have hsame : ∀ a, a < parts.length → ∀ i ∈ parts.getD a [], ∀ j ∈ parts.getD a [], EqvGen (E w l) i j := by
      intro a ha i hi j hj
      exact heqv ((p4 _ (hmem a ha) i hi j).mp hj).1
    induction h with
    | rel a b h =>
      intro ha hb i hi j hj
      obtain ⟨-, C, D, x, y, hC, hD, hx, hy, hxy⟩ := h
      rw [hget a ha] at hC
      rw [hget b hb] at hD
      obtain rfl := Option.some.inj hC
      obtain rfl := Option.some.inj hD
      exact .trans _ _ _ (hsame a ha i hi x hx) (.trans _ _ _ (.rel _ _ hxy) (hsame b hb y hy j hj))
    | refl a => intro ha _; exact hsame a ha
    | symm a b _ ih => intro ha hb i hi j hj; exact .symm _ _ (ih hb ha j hj i hi)
    | trans a b c h1 h2 ih1 ih2 =>
      intro ha hc i hi j hj
      have hb : b < parts.length := by
        obtain ⟨G, hG, haG⟩ := (o2 a).mp ha
        exact (o2 b).mpr ⟨G, hG, (o4 G hG a haG b).mpr h1⟩
      obtain ⟨k, hk⟩ := List.exists_mem_of_ne_nil _ (p3 _ (hmem b hb))
      exact .trans _ _ _ (ih1 ha hb i hi k hk) (ih2 hb hc k hk j hj)
  have hdown : ∀ {i j : Nat}, EqvGen (E w l) i j → (i < l.length ↔ j < l.length) ∧
      ∀ a b, a < parts.length → b < parts.length → i ∈ parts.getD a [] → j ∈ parts.getD b [] → EqvGen (C13.Quotient (E w l) parts) a b := by
    have hsame : ∀ i a b, a < parts.length → b < parts.length → i ∈ parts.getD a [] → i ∈ parts.getD b [] → EqvGen (C13.Quotient (E w l) parts) a b := by
      intro i a b ha hb h1 h2
      rw [parts_index p1 (hget a ha) (hget b hb) h1 h2]
      exact .refl _
    intro i j h
    induction h with
    | rel i j h =>
      have hl := E_lt h
      refine ⟨by simp [hl], fun a b ha hb hi hj => ?_⟩
      by_cases hab : a = b
      · subst hab; exact .refl _
      · exact .rel _ _ ⟨hab, _, _, i, j, hget a ha, hget b hb, hi, hj, h⟩
    | refl i => exact ⟨Iff.rfl, fun a b ha hb hi hj => hsame i a b ha hb hi hj⟩
    | symm i j _ ih => exact ⟨ih.1.symm, fun a b ha hb hi hj => .symm _ _ (ih.2 b a hb ha hj hi)⟩
    | trans i j k _ _ ih1 ih2 =>
      refine ⟨ih1.1.trans ih2.1, fun a b ha hb hi hk => ?_⟩
      have hil : i < l.length := (p2 i).mpr ⟨_, hmem a ha, hi⟩
      obtain ⟨c, hc, hjc⟩ := hpart j (ih1.1.mp hil)
      exact .trans _ _ _ (ih1.2 a c ha hc hi hjc) (ih2.2 c b hc hb hjc hk)
  refine ⟨?_, ?_, ?_, ?_, ?_, ?_, ?_⟩
  · exact hperm.flatten.nodup_iff.mpr p1
  · intro i
    rw [hperm.flatten.mem_iff, List.mem_flatten]
    exact p2 i
  · intro u hu G hG i hi j
    obtain ⟨o, ho, rfl⟩ := List.mem_map.mp hu
    obtain ⟨a, ha, rfl⟩ := List.mem_map.mp hG
    exact p4 _ (hmem a ((o2 a).mpr ⟨o, ho, ha⟩)) i hi j
  · intro u hu i hi j
    obtain ⟨o, ho, rfl⟩ := List.mem_map.mp hu
    obtain ⟨G, hG, hiG⟩ := List.mem_flatten.mp hi
    obtain ⟨a, ha, rfl⟩ := List.mem_map.mp hG
    have hal := (o2 a).mpr ⟨o, ho, ha⟩
    have hil : i < l.length := (p2 i).mpr ⟨_, hmem a hal, hiG⟩
    constructor
    · intro hj
      obtain ⟨G', hG', hjG⟩ := List.mem_flatten.mp hj
      obtain ⟨b, hb, rfl⟩ := List.mem_map.mp hG'
      exact hup ((o4 o ho a ha b).mp hb) hal ((o2 b).mpr ⟨o, ho, hb⟩) i hiG j hjG
    · intro hij
      obtain ⟨h1, h2⟩ := hdown hij
      obtain ⟨b, hb, hjb⟩ := hpart j (h1.mp hil)
      have := (o4 o ho a ha b).mpr (h2 a b hal hb hiG hjb)
      exact List.mem_flatten.mpr ⟨_, List.mem_map_of_mem this, hjb⟩
  · intro u hu k k' G G' hk hG hG' i hi j hj hE
    obtain ⟨o, ho, rfl⟩ := List.mem_map.mp hu
    rw [List.getElem?_map, Option.map_eq_some_iff] at hG hG'
    obtain ⟨a, ha, rfl⟩ := hG
    obtain ⟨b, hb, rfl⟩ := hG'
    have hal := (o2 a).mpr ⟨o, ho, List.mem_of_getElem? ha⟩
    have hbl := (o2 b).mpr ⟨o, ho, List.mem_of_getElem? hb⟩
    have hon : o.Nodup := (List.nodup_flatten.mp o1).1 o ho
    obtain ⟨hka, ea⟩ := List.getElem?_eq_some_iff.mp ha
    obtain ⟨hkb, eb⟩ := List.getElem?_eq_some_iff.mp hb
    have hne : a ≠ b := by
      rintro rfl
      rw [← ea] at eb
      have := (List.Nodup.getElem_inj_iff hon).mp eb
      omega
    have := o5 o ho (o.take k) a (o.drop (k + 1)) (by rw [← ea, List.getElem_cons_drop, List.take_append_drop]) b
      ⟨hne, _, _, i, j, hget a hal, hget b hbl, hi, hj, hE⟩
    obtain ⟨m, hm, em⟩ := List.getElem_of_mem this
    rw [List.length_take] at hm
    rw [List.getElem_take] at em
    rw [← eb] at em
    have := (List.Nodup.getElem_inj_iff hon).mp em
    omega
  · intro u hu
    obtain ⟨o, ho, rfl⟩ := List.mem_map.mp hu
    refine ⟨by simpa using o3 o ho, fun G hG => ?_⟩
    obtain ⟨a, ha, rfl⟩ := List.mem_map.mp hG
    exact p3 _ (hmem a ((o2 a).mpr ⟨o, ho, ha⟩))
  · rw [List.forall₂_map_left_iff]
    refine hu.imp fun o u h => ?_
    rw [List.forall₂_map_left_iff]
    exact h.imp fun i s h => h.1

/-- What a call of `finalize` that returns has done -/
theorem finalize_ok {w : World} {S S' : State} {l : List Sub} (h : HInv w S l) (hf : S.finalize w = .ok S' ()) :
    ∃ gs us, Grouping w l gs us ∧ (∀ u ∈ us, ∀ s ∈ u, Valid w s) ∧
      S' = { retrieveLoop w us 0 { S with units := us, vars := [], funcs := [], addCstrs := [], others := [] } with calls := S.calls + 1 } := by
  obtain ⟨parts, r, e1, p1, p2, p3, p4, p5, p6⟩ := C13.C13_reduce h.deps
  obtain ⟨orders, e2, o1, o2, o3, o4, o5⟩ := C09.C12_groupedOrder p5 p6
  unfold State.finalize at hf
  simp only [e1, e2] at hf
  cases h3 : build w S.subs parts orders with
  | ub => simp only [h3] at hf; cases hf
  | throw us => simp only [h3] at hf; cases hf
  | ok _ us =>
    simp only [h3] at hf
    injection hf with hf _
    rw [h.subs] at h3
    have hb := build_ok h.valid orders h3
    refine ⟨_, us, grouping p1 p2 p3 p4 o1 o2 o3 o4 o5 hb, ?_, ?_⟩
    · intro u hu s hs
      obtain ⟨a, ha, ea⟩ := List.getElem_of_mem hu
      have hlen := hb.length_eq
      have h1 := (List.forall₂_iff_get.mp hb).2 a (by omega) ha
      obtain ⟨k, hk, ek⟩ := List.getElem_of_mem hs
      subst ea
      have h2 := (List.forall₂_iff_get.mp h1).2 k (by rw [h1.length_eq]; exact hk) hk
      rw [← ek]; exact h2.2
    · rw [← hf, (retrieveLoop_frame w us 0 _).2.2.2]

/-- **C70**: after a call of `finalize` that returns, at any moment of any history, each substitution is in exactly one group of exactly one unit; the
substitutions of a group are those that depend on each other, directly or not, and they are merged; the substitutions of a unit are those linked by
dependencies; in a unit, no group uses the variables of a group that comes after. -/
theorem C70_units {w : World} {S S' : State} {l : List Sub} (h : Hist w S l) (hf : S.finalize w = .ok S' ()) : ∃ gs, Grouping w l gs S'.units := by
  obtain ⟨gs, us, h1, -, h3⟩ := finalize_ok (hist_inv h) hf
  refine ⟨gs, ?_⟩
  rw [h3]
  show Grouping w l gs (retrieveLoop w us 0 _).units
  rw [(retrieveLoop_frame w us 0 _).2.2.1]
  exact h1

/-! ## Consequences -/

section
variable {w : World} {l : List Sub} {gs : List (List (List Nat))} {us : List (List Sub)}

theorem forall2_at {α β : Type} {R : α → β → Prop} {a : List α} {b : List β} (h : List.Forall₂ R a b) {i : Nat} {y : β} (hy : b[i]? = some y) :
    ∃ x, a[i]? = some x ∧ R x y := by
  obtain ⟨hi, e⟩ := List.getElem?_eq_some_iff.mp hy
  have hl := h.length_eq
  refine ⟨a[i]'(by omega), List.getElem?_eq_getElem _, ?_⟩
  have := (List.forall₂_iff_get.mp h).2 i (by omega) hi
  rw [← e]; exact this

theorem forall2_at' {α β : Type} {R : α → β → Prop} {a : List α} {b : List β} (h : List.Forall₂ R a b) {i : Nat} {x : α} (hx : a[i]? = some x) :
    ∃ y, b[i]? = some y ∧ R x y := by
  obtain ⟨hi, e⟩ := List.getElem?_eq_some_iff.mp hx
  have hl := h.length_eq
  refine ⟨b[i]'(by omega), List.getElem?_eq_getElem _, ?_⟩
  have := (List.forall₂_iff_get.mp h).2 i hi (by omega)
  rw [← e]; exact this

theorem Grouping.at_ (h : Grouping w l gs us) {a k : Nat} {u : List Sub} {s : Sub} (hu : us[a]? = some u) (hs : u[k]? = some s) :
    ∃ U G, gs[a]? = some U ∧ U[k]? = some G ∧ Merged l G s := by
  obtain ⟨U, hU, h1⟩ := forall2_at h.units hu
  obtain ⟨G, hG, h2⟩ := forall2_at h1 hs
  exact ⟨U, G, hU, hG, h2⟩

theorem Grouping.index (h : Grouping w l gs us) {a b k k' i : Nat} {U V : List (List Nat)} {G G' : List Nat} (hU : gs[a]? = some U) (hV : gs[b]? = some V)
    (hG : U[k]? = some G) (hG' : V[k']? = some G') (hi : i ∈ G) (hi' : i ∈ G') : a = b ∧ k = k' := by
  have hn := h.nodup
  have h1 := List.nodup_flatten.mp hn
  have hab : a = b := by
    apply Classical.byContradiction
    intro hne
    have : ∀ (a b : Nat) (U V : List (List Nat)), a < b → gs[a]? = some U → gs[b]? = some V → i ∈ U.flatten → i ∈ V.flatten → False := by
      intro a b U V hlt hU hV hi hj
      have h2 := (List.nodup_flatten.mp (show (gs.map List.flatten).flatten.Nodup by rw [← List.flatten_flatten]; exact hn)).2
      obtain ⟨ha, ea⟩ := List.getElem?_eq_some_iff.mp hU
      obtain ⟨hb, eb⟩ := List.getElem?_eq_some_iff.mp hV
      have := List.pairwise_iff_getElem.mp h2 a b (by simpa using ha) (by simpa using hb) hlt
      rw [List.getElem_map, List.getElem_map, ea, eb] at this
      exact this hi hj
    have hiU : i ∈ U.flatten := List.mem_flatten.mpr ⟨G, List.mem_of_getElem? hG, hi⟩
    have hiV : i ∈ V.flatten := List.mem_flatten.mpr ⟨G', List.mem_of_getElem? hG', hi'⟩
    rcases Nat.lt_or_gt_of_ne hne with h1 | h1
    · exact this a b U V h1 hU hV hiU hiV
    · exact this b a V U h1 hV hU hiV hiU
  subst hab
  rw [hU] at hV
  obtain rfl := Option.some.inj hV
  refine ⟨rfl, parts_index (parts := U) ?_ hG hG' hi hi'⟩
  exact (List.nodup_flatten.mp (show (gs.map List.flatten).flatten.Nodup by rw [← List.flatten_flatten]; exact hn)).1 _ (List.mem_map_of_mem (List.mem_of_getElem? hU))

/-- A group uses the variables of the groups that come before in its unit, or its own, and no other substituted variable. -/
theorem Grouping.uses (h : Grouping w l gs us) {a b k k' : Nat} {u v : List Sub} {s t : Sub} (hu : us[a]? = some u) (hv : us[b]? = some v) (hs : u[k]? = some s)
    (ht : v[k']? = some t) (hst : Uses w s t) : a = b ∧ k' ≤ k := by
  obtain ⟨U, G, hU, hG, hm⟩ := h.at_ hu hs
  obtain ⟨V, G', hV, hG', hm'⟩ := h.at_ hv ht
  obtain ⟨x, hx, c, hc, hxc⟩ := hst
  obtain ⟨i, hi, p, hp, hcp⟩ := (hm.cstrs c).mp hc
  obtain ⟨j, hj, q, hq, hxq⟩ := (hm'.vars x).mp hx
  have hE : E w l i j := ⟨p, q, hp, hq, x, hxq, c, hcp, hxc⟩
  have hiU : i ∈ U.flatten := List.mem_flatten.mpr ⟨G, List.mem_of_getElem? hG, hi⟩
  have hjU : j ∈ U.flatten := (h.linked U (List.mem_of_getElem? hU) i hiU j).mpr (.rel _ _ hE)
  obtain ⟨G'', hG'', hj''⟩ := List.mem_flatten.mp hjU
  obtain ⟨k'', hk'', e⟩ := List.getElem_of_mem hG''
  have hab := (h.index hU hV (by rw [List.getElem?_eq_getElem hk'', e]) hG' hj'' hj).1
  refine ⟨hab, ?_⟩
  subst hab
  rw [hU] at hV
  obtain rfl := Option.some.inj hV
  apply Classical.byContradiction
  intro hk
  exact h.order U (List.mem_of_getElem? hU) k k' G G' (by omega) hG hG' i hi j hj hE

/-- The variables of two groups are different. -/
theorem Grouping.distinct (h : Grouping w l gs us) (hv : ∀ s ∈ l, Valid w s) {a b k k' x : Nat} {u v : List Sub} {s t : Sub} (hu : us[a]? = some u) (hv' : us[b]? = some v)
    (hs : u[k]? = some s) (ht : v[k']? = some t) (hx : x ∈ s.vars) (hx' : x ∈ t.vars) : a = b ∧ k = k' := by
  have huse : ∀ {a b k k' : Nat} {u v : List Sub} {s t : Sub}, us[a]? = some u → us[b]? = some v → u[k]? = some s → v[k']? = some t → x ∈ s.vars → x ∈ t.vars → Uses w s t := by
    intro a b k k' u v s t hu hv' hs ht hx hx'
    obtain ⟨U, G, hU, hG, hm⟩ := h.at_ hu hs
    obtain ⟨i, hi, p, hp, hxp⟩ := (hm.vars x).mp hx
    obtain ⟨c, hc, hxc⟩ := (hv p (List.mem_of_getElem? hp)).inC x hxp
    exact ⟨x, hx', c, (hm.cstrs c).mpr ⟨i, hi, p, hp, hc⟩, hxc⟩
  have h1 := h.uses hu hv' hs ht (huse hu hv' hs ht hx hx')
  have h2 := h.uses hv' hu ht hs (huse hv' hu ht hs hx' hx)
  exact ⟨h1.1, by omega⟩

/-- The constraints and the variables of the units are those of the substitutions. -/
theorem Grouping.same (h : Grouping w l gs us) : (∀ c, (∃ s ∈ l, c ∈ s.cstrs) ↔ ∃ u ∈ us, ∃ s ∈ u, c ∈ s.cstrs) ∧ (∀ x, (∃ s ∈ l, x ∈ s.vars) ↔ ∃ u ∈ us, ∃ s ∈ u, x ∈ s.vars) := by
  have hup : ∀ s ∈ l, ∃ u ∈ us, ∃ t ∈ u, (∀ c ∈ s.cstrs, c ∈ t.cstrs) ∧ ∀ x ∈ s.vars, x ∈ t.vars := by
    intro s hs
    obtain ⟨i, hi, e⟩ := List.getElem_of_mem hs
    have hget : l[i]? = some s := by rw [List.getElem?_eq_getElem hi, e]
    obtain ⟨G, hG, hiG⟩ := List.mem_flatten.mp ((h.mem i).mp hi)
    obtain ⟨U, hU, hGU⟩ := List.mem_flatten.mp hG
    obtain ⟨a, ha, ea⟩ := List.getElem_of_mem hU
    obtain ⟨k, hk, ek⟩ := List.getElem_of_mem hGU
    obtain ⟨u, hu, h1⟩ := forall2_at' h.units (show gs[a]? = some U by rw [List.getElem?_eq_getElem ha, ea])
    obtain ⟨t, ht, h2⟩ := forall2_at' h1 (show U[k]? = some G by rw [List.getElem?_eq_getElem hk, ek])
    exact ⟨u, List.mem_of_getElem? hu, t, List.mem_of_getElem? ht, fun c hc => (h2.cstrs c).mpr ⟨i, hiG, s, hget, hc⟩, fun x hx => (h2.vars x).mpr ⟨i, hiG, s, hget, hx⟩⟩
  have hdown : ∀ u ∈ us, ∀ t ∈ u, ∃ G, Merged l G t := by
    intro u hu t ht
    obtain ⟨a, ha, ea⟩ := List.getElem_of_mem hu
    obtain ⟨k, hk, ek⟩ := List.getElem_of_mem ht
    obtain ⟨U, G, -, -, hm⟩ := h.at_ (show us[a]? = some u by rw [List.getElem?_eq_getElem ha, ea]) (show u[k]? = some t by rw [List.getElem?_eq_getElem hk, ek])
    exact ⟨G, hm⟩
  refine ⟨fun c => ⟨?_, ?_⟩, fun x => ⟨?_, ?_⟩⟩
  · rintro ⟨s, hs, hc⟩
    obtain ⟨u, hu, t, ht, h1, -⟩ := hup s hs
    exact ⟨u, hu, t, ht, h1 c hc⟩
  · rintro ⟨u, hu, t, ht, hc⟩
    obtain ⟨G, hm⟩ := hdown u hu t ht
    obtain ⟨i, -, s, hs, hcs⟩ := (hm.cstrs c).mp hc
    exact ⟨s, List.mem_of_getElem? hs, hcs⟩
  · rintro ⟨s, hs, hc⟩
    obtain ⟨u, hu, t, ht, -, h1⟩ := hup s hs
    exact ⟨u, hu, t, ht, h1 x hc⟩
  · rintro ⟨u, hu, t, ht, hc⟩
    obtain ⟨G, hm⟩ := hdown u hu t ht
    obtain ⟨i, -, s, hs, hcs⟩ := (hm.vars x).mp hc
    exact ⟨s, List.mem_of_getElem? hs, hcs⟩

/-- The substituted variables of the units, in order -/
def allVars (us : List (List Sub)) : List Nat := us.flatMap fun u => u.flatMap (·.vars)

theorem mem_allVars {x : Nat} : x ∈ allVars us ↔ ∃ u ∈ us, ∃ s ∈ u, x ∈ s.vars := by
  simp only [allVars, List.mem_flatMap]

theorem Grouping.nodup_vars (h : Grouping w l gs us) (hv : ∀ s ∈ l, Valid w s) (hu : ∀ u ∈ us, ∀ s ∈ u, Valid w s) : (allVars us).Nodup := by
  unfold allVars
  rw [List.nodup_flatMap]
  constructor
  · intro u hu'
    rw [List.nodup_flatMap]
    refine ⟨fun s hs => (hu u hu' s hs).nodup, ?_⟩
    rw [List.pairwise_iff_getElem]
    intro k k' hk hk' hlt x hx hx'
    obtain ⟨a, ha, ea⟩ := List.getElem_of_mem hu'
    have hua : us[a]? = some u := by rw [List.getElem?_eq_getElem ha, ea]
    have := (h.distinct hv hua hua (List.getElem?_eq_getElem hk) (List.getElem?_eq_getElem hk') hx hx').2
    omega
  · rw [List.pairwise_iff_getElem]
    intro a b ha hb hlt x hx hx'
    obtain ⟨s, hs, hxs⟩ := List.mem_flatMap.mp hx
    obtain ⟨t, ht, hxt⟩ := List.mem_flatMap.mp hx'
    obtain ⟨k, hk, ek⟩ := List.getElem_of_mem hs
    obtain ⟨k', hk', ek'⟩ := List.getElem_of_mem ht
    have := (h.distinct hv (List.getElem?_eq_getElem ha) (List.getElem?_eq_getElem hb) (show us[a][k]? = some s by rw [List.getElem?_eq_getElem hk, ek])
      (show us[b][k']? = some t by rw [List.getElem?_eq_getElem hk', ek']) hxs hxt).1
    omega

/-- The hypotheses of C43 on the unit -/
theorem Grouping.ordered (h : Grouping w l gs us) {a : Nat} {u : List Sub} (hu : us[a]? = some u) : C43.Ordered (u.map (Sub.shape w)) := by
  intro k k' s s' hk hs hs' c hc v hv hv'
  rw [List.getElem?_map, Option.map_eq_some_iff] at hs hs'
  obtain ⟨s, hs, rfl⟩ := hs
  obtain ⟨t, ht, rfl⟩ := hs'
  obtain ⟨i, hi, rfl⟩ := List.mem_map.mp hc
  have := (h.uses hu hu hs ht ⟨v, hv', i, hi, hv⟩).2
  omega

theorem shape_vars (u : List Sub) : (u.map (Sub.shape w)).flatMap (·.vars) = u.flatMap (·.vars) := by
  rw [List.flatMap_map]; rfl

theorem shape_cstrs (u : List Sub) : (u.map (Sub.shape w)).flatMap (·.cstrs) = (u.flatMap (·.cstrs)).map w.cstr := by
  rw [List.flatMap_map, List.map_flatMap]; rfl

theorem Grouping.distinct43 (h : Grouping w l gs us) (hv : ∀ s ∈ l, Valid w s) (hu : ∀ u ∈ us, ∀ s ∈ u, Valid w s) (hc : ∀ c, (w.cstr c).vars.Nodup) {u : List Sub} (hu' : u ∈ us) :
    C43.Distinct (u.map (Sub.shape w)) := by
  refine ⟨?_, ?_⟩
  · rw [shape_vars]
    exact (List.nodup_flatMap.mp (h.nodup_vars hv hu)).1 u hu'
  · intro s hs c hcs
    obtain ⟨t, -, rfl⟩ := List.mem_map.mp hs
    obtain ⟨i, -, rfl⟩ := List.mem_map.mp hcs
    exact hc i

end

/-! ## The lists of `finalize` -/

theorem layout_x (w : World) (u : List Sub) : (layout w u).x = u.flatMap (·.vars) := by
  rw [layout, C43.x_eq (SU.linv_scan _ _), shape_vars]

/-- What `finalize` gathers from the units, written at once -/
theorem retrieveLoop_spec (w : World) (us : List (List Sub)) : ∀ (i : Nat) (S : State),
    (retrieveLoop w us i S).vars = S.vars ++ allVars us ∧
    (retrieveLoop w us i S).funcs = S.funcs ++ ((us.zipIdx i).flatMap fun p => (List.range (p.1.flatMap (·.vars)).length).map fun l => (p.2, l)) ∧
    (retrieveLoop w us i S).addVars = S.addVars ++ ((us.zipIdx i).flatMap fun p => ((List.range p.1.length).filter fun k => decide (0 < (layout w p.1).zdim k)).map fun k => (S.calls, p.2, k)) ∧
    (retrieveLoop w us i S).addCstrs = S.addCstrs ++ ((us.zipIdx i).flatMap fun p => ((List.range p.1.length).filter fun k => decide (0 < ((p.1[k]?).map fun s => rows w s.cstrs - s.rank).getD 0)).map fun k => (p.2, k)) ∧
    (∀ y, y ∈ (retrieveLoop w us i S).others ↔ y ∈ S.others ∨ ∃ u ∈ us, y ∈ (layout w u).y) ∧ (S.others.Nodup → (retrieveLoop w us i S).others.Nodup) := by
  induction us with
  | nil => intro i S; simp [retrieveLoop, allVars]
  | cons u us ih =>
    intro i S
    obtain ⟨h1, h2, h3, h4, h5, h6⟩ := ih (i + 1) (retrieve w S i u)
    simp only [retrieveLoop]
    refine ⟨?_, ?_, ?_, ?_, ?_, ?_⟩
    · rw [h1]; simp [retrieve, layout_x, allVars]
    · rw [h2]; simp [retrieve, layout_x]
    · rw [h3]; simp [retrieve]
    · rw [h4]; simp [retrieve]
    · intro y
      rw [h5]
      simp only [retrieve, (addVars _ _).1, List.mem_cons, exists_eq_or_imp, or_assoc]
    · intro h
      exact h6 ((addVars _ _).2 h)

/-- The variables and the functions of `finalize`, side by side: the function of a variable is the one that its unit computes. -/
theorem zip_spec (us : List (List Sub)) : ∀ i, (allVars us).length = ((us.zipIdx i).flatMap fun p => (List.range (p.1.flatMap (·.vars)).length).map fun l => (p.2, l)).length ∧
    ∀ x a l, (x, a, l) ∈ (allVars us).zip ((us.zipIdx i).flatMap fun p => (List.range (p.1.flatMap (·.vars)).length).map fun l => (p.2, l)) ↔
      ∃ b u, a = i + b ∧ us[b]? = some u ∧ (u.flatMap (·.vars))[l]? = some x := by
  induction us with
  | nil => intro i; simp [allVars]
  | cons u us ih =>
    intro i
    obtain ⟨h1, h2⟩ := ih (i + 1)
    have e1 : allVars (u :: us) = u.flatMap (·.vars) ++ allVars us := by simp [allVars]
    rw [e1, List.zipIdx_cons, List.flatMap_cons]
    refine ⟨by simp only [List.length_append, List.length_map, List.length_range, h1], fun x a l => ?_⟩
    rw [List.zip_append (by simp), List.mem_append, h2]
    have e2 : (x, a, l) ∈ (u.flatMap (·.vars)).zip ((List.range (u.flatMap (·.vars)).length).map fun l => (i, l)) ↔ a = i ∧ (u.flatMap (·.vars))[l]? = some x := by
      rw [List.mem_iff_getElem?]
      constructor
      · rintro ⟨k, hk⟩
        rw [List.getElem?_zip_eq_some] at hk
        obtain ⟨hk1, hk2⟩ := hk
        rw [List.getElem?_map, List.getElem?_range (List.getElem?_eq_some_iff.mp hk1).1] at hk2
        simp only [Option.map_some, Option.some.injEq, Prod.mk.injEq] at hk2
        obtain ⟨rfl, rfl⟩ := hk2
        exact ⟨rfl, hk1⟩
      · rintro ⟨rfl, h⟩
        refine ⟨l, ?_⟩
        rw [List.getElem?_zip_eq_some]
        refine ⟨h, ?_⟩
        rw [List.getElem?_map, List.getElem?_range (List.getElem?_eq_some_iff.mp h).1]
        rfl
    rw [e2]
    constructor
    · rintro (⟨rfl, h⟩ | ⟨b, v, rfl, hb, h⟩)
      · exact ⟨0, u, rfl, rfl, h⟩
      · exact ⟨b + 1, v, by omega, by rw [List.getElem?_cons_succ]; exact hb, h⟩
    · rintro ⟨b, v, rfl, hb, h⟩
      cases b with
      | zero =>
        simp only [List.getElem?_cons_zero, Option.some.injEq] at hb
        subst hb
        exact Or.inl ⟨by omega, h⟩
      | succ b =>
        rw [List.getElem?_cons_succ] at hb
        exact Or.inr ⟨b, v, by omega, hb, h⟩

theorem layout_y {w : World} {l : List Sub} {gs : List (List (List Nat))} {us : List (List Sub)} (h : Grouping w l gs us) {a : Nat} {u : List Sub} (hu : us[a]? = some u) :
    (∀ y ∈ (layout w u).y, (∃ s ∈ u, ∃ c ∈ s.cstrs, y ∈ (w.cstr c).vars) ∧ y ∉ allVars us) ∧
    ∀ s ∈ u, ∀ c ∈ s.cstrs, ∀ y ∈ (w.cstr c).vars, y ∉ allVars us → y ∈ (layout w u).y := by
  have hl := SU.linv_scan w.dim (u.map (Sub.shape w))
  refine ⟨fun y hy => ?_, fun s hs c hc y hy hno => ?_⟩
  · obtain ⟨k, s, hs, ⟨ci, hci, hyc⟩, -⟩ := hl.y y hy
    obtain ⟨t, ht, e1, e2, -⟩ := C43.shape_at hl hs
    rw [List.getElem?_map, Option.map_eq_some_iff] at ht
    obtain ⟨t, ht, rfl⟩ := ht
    have : ci.shape ∈ t.cstrs.map w.cstr := by
      show ci.shape ∈ (Sub.shape w t).cstrs
      rw [e2]; exact List.mem_map_of_mem hci
    obtain ⟨c, hc, ec⟩ := List.mem_map.mp this
    rw [← ec] at hyc
    refine ⟨⟨t, List.mem_of_getElem? ht, c, hc, hyc⟩, fun hx => ?_⟩
    obtain ⟨v, hv, r, hr, hyr⟩ := mem_allVars.mp hx
    obtain ⟨b, hb, eb⟩ := List.getElem_of_mem hv
    obtain ⟨k', hk', ek'⟩ := List.getElem_of_mem hr
    have hvb : us[b]? = some v := by rw [List.getElem?_eq_getElem hb, eb]
    have hab := (h.uses hu hvb ht (show v[k']? = some r by rw [List.getElem?_eq_getElem hk', ek']) ⟨y, hyr, c, hc, hyc⟩).1
    subst hab
    rw [hu] at hvb
    obtain rfl := Option.some.inj hvb
    refine C43.C43_y (h.ordered hu) y hy ?_
    rw [shape_vars]
    exact List.mem_flatMap.mpr ⟨r, hr, hyr⟩
  · obtain ⟨k, hk, ek⟩ := List.getElem_of_mem hs
    have hkl : k < (layout w u).subs.length := by
      have := C43.len_eq hl
      rw [List.length_map] at this
      show k < (SU.scan w.dim (u.map (Sub.shape w))).subs.length
      omega
    have hsk := List.getElem?_eq_getElem hkl
    generalize (layout w u).subs[k] = si at hsk
    obtain ⟨t, ht, e1, e2, -⟩ := C43.shape_at hl hsk
    rw [List.getElem?_map, List.getElem?_eq_getElem hk, ek] at ht
    obtain rfl := Option.some.inj ht
    have : w.cstr c ∈ si.cs.map (·.shape) := by
      rw [← e2]; exact List.mem_map_of_mem hc
    obtain ⟨ci, hci, ec⟩ := List.mem_map.mp this
    have hg := (hl.good k si hsk).cs ci hci
    have : y ∈ ci.shape.vars.filter fun v => decide (v ∉ (SU.scan w.dim (u.map (Sub.shape w))).x.take (si.x0 + si.vars.length)) := by
      rw [List.mem_filter]
      refine ⟨by rw [ec]; exact hy, ?_⟩
      rw [decide_eq_true_eq]
      intro hm
      apply hno
      have := List.mem_of_mem_take hm
      have hx := layout_x w u
      unfold layout at hx
      rw [hx] at this
      exact mem_allVars.mpr ⟨u, List.mem_of_getElem? hu, List.mem_flatMap.mp this⟩
    rw [← hg.ys] at this
    obtain ⟨j, hj, rfl⟩ := List.mem_map.mp this
    have hjl := hg.ylt j hj
    rw [List.getD_eq_getElem?_getD, List.getElem?_eq_getElem hjl]
    exact List.getElem_mem hjl

/-- **C70**: after a call of `finalize` that returns, the variables are the substituted ones, each once, each with the function computed by its unit; the
other variables are the variables of the constraints that are not substituted, each once; the additional constraints are those that the units have with at
least one row. -/
theorem C70_lists {w : World} {S S' : State} {l : List Sub} (h : Hist w S l) (hf : S.finalize w = .ok S' ()) :
    S'.vars.Nodup ∧ (∀ x, x ∈ S'.vars ↔ ∃ s ∈ l, x ∈ s.vars) ∧
    S'.vars.length = S'.funcs.length ∧
    (∀ x a k, (x, a, k) ∈ S'.vars.zip S'.funcs ↔ ∃ u, S'.units[a]? = some u ∧ (u.flatMap (·.vars))[k]? = some x) ∧
    S'.others.Nodup ∧ (∀ y, y ∈ S'.others ↔ (∃ s ∈ l, ∃ c ∈ s.cstrs, y ∈ (w.cstr c).vars) ∧ ∀ s ∈ l, y ∉ s.vars) ∧
    (∀ a k, (a, k) ∈ S'.addCstrs ↔ ∃ (u : List Sub) (s : Sub), S'.units[a]? = some u ∧ u[k]? = some s ∧ s.rank < rows w s.cstrs) ∧ S'.addCstrs.Nodup := by
  have hi := hist_inv h
  obtain ⟨gs, us, h1, h2, h3⟩ := finalize_ok hi hf
  obtain ⟨r1, r2, -, r4, r5, r6⟩ := retrieveLoop_spec w us 0 { S with units := us, vars := [], funcs := [], addCstrs := [], others := [] }
  obtain ⟨-, -, r7, -⟩ := retrieveLoop_frame w us 0 { S with units := us, vars := [], funcs := [], addCstrs := [], others := [] }
  have e1 : S'.vars = allVars us := by rw [h3]; exact r1
  have e2 := (congrArg State.funcs h3).trans r2
  have e3 := (congrArg State.addCstrs h3).trans r4
  have e4 : S'.units = us := by rw [h3]; exact r7
  have e5 : ∀ y, y ∈ S'.others ↔ y ∈ ([] : List Nat) ∨ ∃ u ∈ us, y ∈ (layout w u).y := by intro y; rw [h3]; exact r5 y
  have e6 : S'.others.Nodup := by rw [h3]; exact r6 List.nodup_nil
  rw [List.nil_append] at e2 e3
  obtain ⟨z1, z2⟩ := zip_spec us 0
  refine ⟨by rw [e1]; exact h1.nodup_vars hi.valid h2, fun x => by rw [e1, mem_allVars, h1.same.2], by rw [e1, e2]; exact z1, ?_, e6, ?_, ?_, ?_⟩
  · intro x a k
    rw [e1, e2, z2, e4]
    constructor
    · rintro ⟨b, u, rfl, h⟩; rw [Nat.zero_add]; exact ⟨u, h⟩
    · rintro ⟨u, h⟩; exact ⟨a, u, by omega, h⟩
  · intro y
    rw [e5]
    have hno : (∀ s ∈ l, y ∉ s.vars) ↔ y ∉ allVars us := by
      rw [mem_allVars, ← h1.same.2]
      constructor
      · rintro h ⟨s, hs, hy⟩; exact h s hs hy
      · intro h s hs hy; exact h ⟨s, hs, hy⟩
    rw [hno]
    constructor
    · rintro (h | ⟨u, hu, hy⟩)
      · cases h
      · obtain ⟨a, ha, ea⟩ := List.getElem_of_mem hu
        obtain ⟨⟨s, hs, c, hc, hyc⟩, hn⟩ := (layout_y h1 (show us[a]? = some u by rw [List.getElem?_eq_getElem ha, ea])).1 y hy
        obtain ⟨t, ht, hct⟩ := (h1.same.1 c).mpr ⟨u, hu, s, hs, hc⟩
        exact ⟨⟨t, ht, c, hct, hyc⟩, hn⟩
    · rintro ⟨⟨s, hs, c, hc, hyc⟩, hn⟩
      obtain ⟨u, hu, t, ht, hct⟩ := (h1.same.1 c).mp ⟨s, hs, hc⟩
      obtain ⟨a, ha, ea⟩ := List.getElem_of_mem hu
      exact Or.inr ⟨u, hu, (layout_y h1 (show us[a]? = some u by rw [List.getElem?_eq_getElem ha, ea])).2 t ht c hct y hyc hn⟩
  · intro a k
    rw [e3, e4]
    simp only [List.mem_flatMap, List.mem_map, List.mem_filter, List.mem_range, decide_eq_true_eq, Prod.mk.injEq, Prod.exists, List.mk_mem_zipIdx_iff_getElem?]
    constructor
    · rintro ⟨u, b, hu, k', ⟨hk, hpos⟩, rfl, rfl⟩
      rw [List.getElem?_eq_getElem hk] at hpos
      simp only [Option.map_some, Option.getD_some] at hpos
      exact ⟨u, _, hu, List.getElem?_eq_getElem hk, by omega⟩
    · rintro ⟨u, s, hu, hs, hlt⟩
      refine ⟨u, a, hu, k, ⟨(List.getElem?_eq_some_iff.mp hs).1, ?_⟩, rfl, rfl⟩
      rw [hs]
      simp only [Option.map_some, Option.getD_some]
      omega
  · rw [e3, List.nodup_flatMap]
    constructor
    · intro p _
      exact List.Nodup.map (fun a b hab => by simpa using hab) (List.nodup_range.filter _)
    · rw [List.pairwise_iff_getElem]
      intro a b ha hb hlt x hx hx'
      simp only [List.getElem_zipIdx, List.mem_map] at hx hx'
      obtain ⟨k, -, rfl⟩ := hx
      obtain ⟨k', -, e⟩ := hx'
      simp only [Prod.mk.injEq] at e
      omega

/-! ## The solutions -/

section
variable {K : Type} [Field K]

/-- The constraint at the address `c` is satisfied at the point `val`, its matrices being `J c` and its vector `e c`. -/
def Holds (w : World) (J : Nat → Nat → Nat → Nat → K) (e : Nat → Nat → K) (val : Nat → Nat → K) (c : Nat) : Prop :=
  ∀ r < (w.cstr c).size, ((w.cstr c).vars.map fun v => ∑ q ∈ range (w.dim v), J c v r q * val v q).sum =
    match (w.cstr c).rhs with
    | .zero => 0
    | .asGiven => e c r
    | .opposite => -e c r

/-- The numbers that a unit reads: those of its constraints, in their order, and its calculators -/
def unitData (J : Nat → Nat → Nat → Nat → K) (e : Nat → Nat → K) (cal : Nat → SU.Calc K) (u : List Sub) : SU.Data K :=
  ⟨fun i => J ((u.flatMap (·.cstrs)).getD i 0), fun i => e ((u.flatMap (·.cstrs)).getD i 0), cal⟩

theorem holds_unit (w : World) (J : Nat → Nat → Nat → Nat → K) (e : Nat → Nat → K) (cal : Nat → SU.Calc K) (u : List Sub) (val : Nat → Nat → K) :
    (∀ p ∈ ((u.map (Sub.shape w)).flatMap (·.cstrs)).zipIdx, C43.Holds w.dim (unitData J e cal u) val p.2 p.1) ↔ ∀ s ∈ u, ∀ c ∈ s.cstrs, Holds w J e val c := by
  rw [shape_cstrs]
  have h1 : ∀ i c, (u.flatMap (·.cstrs))[i]? = some c → (C43.Holds w.dim (unitData J e cal u) val i (w.cstr c) ↔ Holds w J e val c) := by
    intro i c hi
    have : (u.flatMap (·.cstrs)).getD i 0 = c := by rw [List.getD_eq_getElem?_getD, hi]; rfl
    unfold C43.Holds Holds C43.lhs C43.rhs unitData
    simp only [this]
    exact Iff.rfl
  constructor
  · intro h s hs c hc
    obtain ⟨i, hi, ei⟩ := List.getElem_of_mem (List.mem_flatMap.mpr ⟨s, hs, hc⟩)
    have hget : (u.flatMap (·.cstrs))[i]? = some c := by rw [List.getElem?_eq_getElem hi, ei]
    refine (h1 i c hget).mp (h (w.cstr c, i) ?_)
    rw [List.mk_mem_zipIdx_iff_getElem?, List.getElem?_map, hget]; rfl
  · rintro h ⟨sh, i⟩ hp
    rw [List.mk_mem_zipIdx_iff_getElem?, List.getElem?_map, Option.map_eq_some_iff] at hp
    obtain ⟨c, hc, rfl⟩ := hp
    obtain ⟨s, hs, hcs⟩ := List.mem_flatMap.mp (List.mem_of_getElem? hc)
    exact (h1 i c hc).mpr (h s hs c hcs)

/-- The units were updated, without undefined behaviour and with right calculators: the unit `a` has given `o a`. -/
def Updated (w : World) (S : State) (J : Nat → Nat → Nat → Nat → K) (e : Nat → Nat → K) (cal : Nat → Nat → SU.Calc K) (o : Nat → SU.Out K) : Prop :=
  ∀ a u, S.units[a]? = some u → C43.Calculators w.dim (u.map (Sub.shape w)) (unitData J e (cal a) u) ∧
    ∃ U V, C43.Run w.dim (u.map (Sub.shape w)) U ∧ SU.update w.dim (u.map (Sub.shape w)) (unitData J e (cal a) u) U = .ok () (V, o a)

/-- The additional constraints hold. -/
def Additional (w : World) (S : State) (o : Nat → SU.Out K) (val : Nat → Nat → K) (z : Nat → Nat → Nat → K) : Prop :=
  ∀ a u, S.units[a]? = some u → C43.Remaining w.dim (u.map (Sub.shape w)) (o a) val (z a)

/-- The value of a function -/
def fvalue (w : World) (S : State) (o : Nat → SU.Out K) (z : Nat → Nat → Nat → K) (val : Nat → Nat → K) (a k q : Nat) : K :=
  C43.fval w.dim (layout w (S.units.getD a [])) (o a) val (z a) k q

/-- Each substituted variable has the value of its function. -/
def Functions (w : World) (S : State) (o : Nat → SU.Out K) (val : Nat → Nat → K) (z : Nat → Nat → Nat → K) : Prop :=
  ∀ x a k, (x, a, k) ∈ S.vars.zip S.funcs → ∀ q < w.dim x, val x q = fvalue w S o z val a k q

/-- **C70, partial**: whenever the updates run without undefined behaviour, and for right calculators, a point satisfies all the constraints used for the
substitutions if and only if there are values of the variables `z` for which the additional constraints hold and the substituted variables are given by
their functions. Partial: the updates may have an undefined behaviour (`C43_index_false`). -/
theorem C70_solutions_partial {w : World} (hc : ∀ c, (w.cstr c).vars.Nodup) {S S' : State} {l : List Sub} (h : Hist w S l) (hf : S.finalize w = .ok S' ())
    {J : Nat → Nat → Nat → Nat → K} {e : Nat → Nat → K} {cal : Nat → Nat → SU.Calc K} {o : Nat → SU.Out K} (hu : Updated w S' J e cal o) (val : Nat → Nat → K) :
    (∀ s ∈ l, ∀ c ∈ s.cstrs, Holds w J e val c) ↔ ∃ z, Additional w S' o val z ∧ Functions w S' o val z := by
  have hi := hist_inv h
  obtain ⟨gs, us, h1, h2, h3⟩ := finalize_ok hi hf
  obtain ⟨-, -, -, l4, -⟩ := C70_lists h hf
  have e4 : S'.units = us := by rw [h3]; exact (retrieveLoop_frame w us 0 _).2.2.1
  have hall : (∀ s ∈ l, ∀ c ∈ s.cstrs, Holds w J e val c) ↔ ∀ (a : Nat) (u : List Sub), us[a]? = some u → ∀ s ∈ u, ∀ c ∈ s.cstrs, Holds w J e val c := by
    constructor
    · intro h a u hu s hs c hc
      obtain ⟨t, ht, hct⟩ := (h1.same.1 c).mpr ⟨u, List.mem_of_getElem? hu, s, hs, hc⟩
      exact h t ht c hct
    · intro h s hs c hc
      obtain ⟨u, hu, t, ht, hct⟩ := (h1.same.1 c).mp ⟨s, hs, hc⟩
      obtain ⟨a, ha, ea⟩ := List.getElem_of_mem hu
      exact h a u (by rw [List.getElem?_eq_getElem ha, ea]) t ht c hct
  rw [hall]
  have hunit : ∀ (a : Nat) (u : List Sub), us[a]? = some u → ((∀ s ∈ u, ∀ c ∈ s.cstrs, Holds w J e val c) ↔
      ∃ z : Nat → Nat → K, C43.Remaining w.dim (u.map (Sub.shape w)) (o a) val z ∧ C43.Substituted w.dim (u.map (Sub.shape w)) (o a) val z) := by
    intro a u hua
    obtain ⟨hcal, U, V, hrun, hup⟩ := hu a u (by rw [e4]; exact hua)
    rw [← holds_unit w J e (cal a) u val]
    exact C43.C43_solutions_partial (h1.distinct43 hi.valid h2 hc (List.mem_of_getElem? hua)) hrun hcal hup val
  have hfun : ∀ z : Nat → Nat → Nat → K, Functions w S' o val z ↔ ∀ (a : Nat) (u : List Sub), us[a]? = some u → C43.Substituted w.dim (u.map (Sub.shape w)) (o a) val (z a) := by
    intro z
    constructor
    · intro hF a u hua k x hk q hq
      rw [shape_vars] at hk
      have := hF x a k ((l4 x a k).mpr ⟨u, by rw [e4]; exact hua, hk⟩) q hq
      unfold fvalue at this
      rw [e4, List.getD_eq_getElem?_getD, hua] at this
      exact this
    · intro hS x a k hm q hq
      obtain ⟨u, hua, hk⟩ := (l4 x a k).mp hm
      rw [e4] at hua
      unfold fvalue
      rw [e4, List.getD_eq_getElem?_getD, hua]
      exact hS a u hua k x (by rw [shape_vars]; exact hk) q hq
  constructor
  · intro hH
    have : ∀ a, ∃ z : Nat → Nat → K, ∀ u, us[a]? = some u → C43.Remaining w.dim (u.map (Sub.shape w)) (o a) val z ∧ C43.Substituted w.dim (u.map (Sub.shape w)) (o a) val z := by
      intro a
      cases hua : us[a]? with
      | none => exact ⟨fun _ _ => 0, fun u hu => by cases hu⟩
      | some u =>
        obtain ⟨z, hz⟩ := (hunit a u hua).mp (hH a u hua)
        exact ⟨z, fun v hv => by cases hv; exact hz⟩
    obtain ⟨z, hz⟩ := Classical.axiomOfChoice this
    exact ⟨z, fun a u hua => (hz a u (by rw [← e4]; exact hua)).1, (hfun z).mpr fun a u hua => (hz a u hua).2⟩
  · rintro ⟨z, hA, hF⟩ a u hua
    exact (hunit a u hua).mpr ⟨z a, hA a u (by rw [e4]; exact hua), (hfun z).mp hF a u hua⟩

end

/-! ## The values of the substituted variables -/

section
variable {K : Type} [Field K]

theorem getD_mem {L : List Nat} {j : Nat} (h : j < L.length) : L.getD j 0 ∈ L := by
  rw [List.getD_eq_getElem?_getD, List.getElem?_eq_getElem h]; exact List.getElem_mem h

/-- The loop of `updateVariableValues` when the functions do not use the variables that are written -/
theorem writeLoop_spec (value : (Nat → Nat → K) → Nat → Nat → Nat → K) (L : List (Nat × Nat × Nat)) (hn : (L.map (·.1)).Nodup)
    (hind : ∀ p ∈ L, ∀ val val' : Nat → Nat → K, (∀ v, v ∉ L.map (·.1) → val v = val' v) → value val p.2.1 p.2.2 = value val' p.2.1 p.2.2) :
    ∀ (R : List (Nat × Nat × Nat)) (val0 val : Nat → Nat → K), (∃ P, L = P ++ R) → (∀ v, v ∉ L.map (·.1) → val v = val0 v) →
      (∀ v, v ∉ R.map (·.1) → writeLoop value R val v = val v) ∧ ∀ p ∈ R, writeLoop value R val p.1 = value val0 p.2.1 p.2.2 := by
  intro R
  induction R with
  | nil => intro val0 val _ _; exact ⟨fun v _ => rfl, by simp⟩
  | cons p R ih =>
    intro val0 val hP hval
    obtain ⟨P, hP⟩ := hP
    obtain ⟨x, i, k⟩ := p
    have hxL : x ∈ L.map (·.1) := by rw [hP]; simp
    have hnR : x ∉ R.map (·.1) := by
      rw [hP, List.map_append, List.map_cons, List.nodup_append] at hn
      exact (List.nodup_cons.mp hn.2.1).1
    have hval' : ∀ v, v ∉ L.map (·.1) → (fun v q => if v = x then value val i k q else val v q) v = val0 v := by
      intro v hv
      have : v ≠ x := by rintro rfl; exact hv hxL
      funext q
      simp only [if_neg this]
      rw [hval v hv]
    obtain ⟨h1, h2⟩ := ih val0 (fun v q => if v = x then value val i k q else val v q) ⟨P ++ [(x, i, k)], by rw [hP]; simp⟩ hval'
    simp only [writeLoop]
    refine ⟨fun v hv => ?_, fun p hp => ?_⟩
    · rw [List.map_cons, List.mem_cons, not_or] at hv
      rw [h1 v hv.2]
      funext q
      rw [if_neg hv.1]
    · rcases List.mem_cons.mp hp with rfl | hp
      · rw [h1 _ hnR]
        funext q
        rw [if_pos rfl, hind (x, i, k) (by rw [hP]; simp) val val0 hval]
      · exact h2 p hp

theorem fvalue_congr {w : World} {S S' : State} {l : List Sub} (h : Hist w S l) (hf : S.finalize w = .ok S' ()) (o : Nat → SU.Out K) (z : Nat → Nat → Nat → K) {x a k : Nat}
    (hm : (x, a, k) ∈ S'.vars.zip S'.funcs) (val val' : Nat → Nat → K) (hv : ∀ v, v ∉ S'.vars → val v = val' v) : fvalue w S' o z val a k = fvalue w S' o z val' a k := by
  have hi := hist_inv h
  obtain ⟨gs, us, h1, h2, h3⟩ := finalize_ok hi hf
  obtain ⟨-, -, -, l4, -⟩ := C70_lists h hf
  have e4 : S'.units = us := by rw [h3]; exact (retrieveLoop_frame w us 0 _).2.2.1
  have e1 : S'.vars = allVars us := by rw [h3]; exact (retrieveLoop_spec w us 0 _).1
  obtain ⟨u, hua, hk⟩ := (l4 x a k).mp hm
  rw [e4] at hua
  have hl := SU.linv_scan w.dim (u.map (Sub.shape w))
  funext q
  unfold fvalue
  rw [e4, List.getD_eq_getElem?_getD, hua]
  apply C43.fval_congr
  intro j c _ hj
  have hsub : (layout w u).sub k < (layout w u).subs.length := by
    have hlx := (List.getElem?_eq_some_iff.mp hk).1
    rw [← layout_x w] at hlx
    obtain ⟨b, s, p, v, hb, hs, hp, rfl⟩ := hl.cover (SU.scan w.dim (u.map (Sub.shape w))).subs.length k (by rw [List.take_length, ← hl.x]; exact hlx)
    show (SU.scan w.dim (u.map (Sub.shape w))).sub _ < _
    rw [((hl.good b s hs).sub hp).1]; exact hb
  have hjl := C43.sy_lt hl hsub j hj
  have hmem : (layout w u).y.getD j 0 ∈ (layout w u).y := getD_mem hjl
  have := ((layout_y h1 hua).1 _ hmem).2
  rw [← e1] at this
  exact congrFun (hv _ this) c

/-- **C70, partial**: if the values found by the solver satisfy the additional constraints, then after `updateVariableValues` all the constraints used for
the substitutions are satisfied, and the variables that are not substituted have kept their values. Partial for the same reason as
`C70_solutions_partial`. -/
theorem C70_values_partial {w : World} (hc : ∀ c, (w.cstr c).vars.Nodup) {S S' : State} {l : List Sub} (h : Hist w S l) (hf : S.finalize w = .ok S' ())
    {J : Nat → Nat → Nat → Nat → K} {e : Nat → Nat → K} {cal : Nat → Nat → SU.Calc K} {o : Nat → SU.Out K} (hu : Updated w S' J e cal o) (val : Nat → Nat → K)
    (z : Nat → Nat → Nat → K) (hA : Additional w S' o val z) :
    (∀ s ∈ l, ∀ c ∈ s.cstrs, Holds w J e (S'.updateVariableValues (fvalue w S' o z) val) c) ∧
    ∀ v, (∀ s ∈ l, v ∉ s.vars) → S'.updateVariableValues (fvalue w S' o z) val v = val v := by
  obtain ⟨l1, l2, l3, l4, -⟩ := C70_lists h hf
  have hmap : (S'.vars.zip S'.funcs).map (·.1) = S'.vars := List.map_fst_zip (by omega)
  obtain ⟨w1, w2⟩ := writeLoop_spec (fvalue w S' o z) (S'.vars.zip S'.funcs) (by rw [hmap]; exact l1)
    (fun p hp v v' hv => fvalue_congr h hf o z hp v v' (by rw [hmap] at hv; exact hv)) (S'.vars.zip S'.funcs) val val ⟨[], rfl⟩ (fun _ _ => rfl)
  have hkeep : ∀ v, v ∉ S'.vars → S'.updateVariableValues (fvalue w S' o z) val v = val v := fun v hv => w1 v (by rw [hmap]; exact hv)
  refine ⟨?_, fun v hv => hkeep v fun hx => ?_⟩
  · refine (C70_solutions_partial hc h hf hu _).mpr ⟨z, ?_, ?_⟩
    · intro a u hua k t ht r hr
      have hi := hist_inv h
      obtain ⟨gs, us, h1, h2, h3⟩ := finalize_ok hi hf
      have e4 : S'.units = us := by rw [h3]; exact (retrieveLoop_frame w us 0 _).2.2.1
      have e1 : S'.vars = allVars us := by rw [h3]; exact (retrieveLoop_spec w us 0 _).1
      have hl := SU.linv_scan w.dim (u.map (Sub.shape w))
      have hk : k < (SU.scan w.dim (u.map (Sub.shape w))).subs.length := by rw [C43.len_eq hl]; exact (List.getElem?_eq_some_iff.mp ht).1
      rw [C43.rval_congr (SU.scan w.dim (u.map (Sub.shape w))) (o a) _ val (z a) k r]
      · exact hA a u hua k t ht r hr
      · intro j c _ hj
        have hjl := C43.sy_lt hl hk j hj
        have hmem : (layout w u).y.getD j 0 ∈ (layout w u).y := getD_mem hjl
        have := ((layout_y h1 (by rw [← e4]; exact hua)).1 _ hmem).2
        rw [← e1] at this
        exact congrFun (hkeep _ this) c
    · intro x a k hm q hq
      have h1 := w2 (x, a, k) hm
      have h2 : S'.updateVariableValues (fvalue w S' o z) val x q = fvalue w S' o z val a k q := congrFun h1 q
      rw [h2]
      exact (congrFun (fvalue_congr h hf o z hm _ _ hkeep) q).symm
  · obtain ⟨s, hs, hvs⟩ := (l2 v).mp hx
    exact hv s hs hvs

end

/-! ## The variables given to the schemes -/

theorem z_pos {dim : Nat → Nat} {ss : List SU.SShape} {L : SU.Layout} (h : SU.LInv dim ss L) : ∀ (k : Nat) (s : SU.SInfo), L.subs[k]? = some s → ∀ j ∈ (SU.deps L).sz k, 0 < L.zdim j := by
  intro k
  induction k using Nat.strongRecOn with
  | _ k ih =>
    intro s hs j hj
    have hkl := (List.getElem?_eq_some_iff.mp hs).1
    rw [(SU.deps_eq h hs).2] at hj
    simp only [SU.szOf, List.mem_filter, List.any_eq_true, decide_eq_true_eq] at hj
    obtain ⟨-, ci, hci, l, hl, hj⟩ := hj
    have hlt := h.sub_lt hs (((h.good k s hs).cs ci hci).xlt l hl)
    simp only [SU.XZ, List.mem_append] at hj
    rcases hj with hj | hj
    · exact ih _ hlt _ (List.getElem?_eq_getElem (by omega)) j hj
    · by_cases h0 : 0 < L.zdim (L.sub l)
      · rw [if_pos h0, List.mem_singleton] at hj
        rw [hj]; exact h0
      · rw [if_neg h0] at hj; cases hj

theorem z_sub {w : World} {u : List Sub} {j : Nat} (h : 0 < (layout w u).zdim j) : ∃ t, u[j]? = some t ∧ (layout w u).zdim j = SU.total w.dim t.vars - t.rank := by
  have hl := SU.linv_scan w.dim (u.map (Sub.shape w))
  cases hs : (SU.scan w.dim (u.map (Sub.shape w))).subs[j]? with
  | none => rw [show (layout w u).zdim j = 0 by unfold SU.Layout.zdim layout; rw [hs]; rfl] at h; omega
  | some s =>
    obtain ⟨t', ht', e1, e2, e3⟩ := C43.shape_at hl hs
    rw [List.getElem?_map] at ht'
    cases ht : u[j]? with
    | none => rw [ht] at ht'; cases ht'
    | some t =>
      rw [ht] at ht'
      simp only [Option.map_some, Option.some.injEq] at ht'
      subst ht'
      refine ⟨t, rfl, ?_⟩
      rw [show (layout w u).zdim j = s.zdim from C43.zdim_at hs, e3, ← e1]
      rfl

/-- **C70**: after a call of `finalize` that returns, `substitute` replaces a substituted variable by the variables of its function, which are not
substituted or are variables `z` of positive size; it leaves any other variable. -/
theorem C70_substitute {w : World} {S S' : State} {l : List Sub} (h : Hist w S l) (hf : S.finalize w = .ok S' ()) (x : Nat) :
    ((∀ s ∈ l, x ∉ s.vars) → S'.substitute w x = [.var x]) ∧
    ((∃ s ∈ l, x ∈ s.vars) → (∀ a k u, S'.units[a]? = some u → (u.flatMap (·.vars))[k]? = some x → S'.substitute w x = fvars (layout w u) a k) ∧
      ∀ v ∈ S'.substitute w x, (∃ y ∈ S'.others, v = .var y) ∨
        ∃ (a k : Nat) (u : List Sub) (s : Sub), S'.units[a]? = some u ∧ u[k]? = some s ∧ s.rank < SU.total w.dim s.vars ∧ v = .z a k) := by
  obtain ⟨l1, l2, l3, l4, l5, l6, -⟩ := C70_lists h hf
  refine ⟨fun hx => ?_, fun hx => ?_⟩
  · unfold State.substitute
    rw [if_neg]
    intro hm
    obtain ⟨s, hs, hxs⟩ := (l2 x).mp hm
    exact hx s hs hxs
  · have hm := (l2 x).mpr hx
    have hlt := List.idxOf_lt_length_of_mem hm
    have key : ∀ a k u, S'.units[a]? = some u → (u.flatMap (·.vars))[k]? = some x → S'.substitute w x = fvars (layout w u) a k := by
      intro a k u hu hk
      have hz := (l4 x a k).mpr ⟨u, hu, hk⟩
      obtain ⟨i, hi⟩ := List.mem_iff_getElem?.mp hz
      rw [List.getElem?_zip_eq_some] at hi
      obtain ⟨hi1, hi2⟩ := hi
      obtain ⟨hil, e⟩ := List.getElem?_eq_some_iff.mp hi1
      have hidx : S'.vars.idxOf x = i := by
        have e : S'.vars[i] = x := e
        rw [← e]; exact l1.idxOf_getElem i hil
      unfold State.substitute
      rw [if_pos hm, hidx, hi2]
      simp only
      rw [List.getD_eq_getElem?_getD, hu]
      rfl
    refine ⟨key, ?_⟩
    have hz : (x, S'.funcs[S'.vars.idxOf x]'(by omega)) ∈ S'.vars.zip S'.funcs := by
      rw [List.mem_iff_getElem?]
      refine ⟨S'.vars.idxOf x, ?_⟩
      rw [List.getElem?_zip_eq_some]
      refine ⟨?_, List.getElem?_eq_getElem _⟩
      rw [List.getElem?_eq_getElem hlt, List.getElem_idxOf hlt]
    generalize S'.funcs[S'.vars.idxOf x]'(by omega) = p at hz
    obtain ⟨a, k⟩ := p
    obtain ⟨u, hu, hk⟩ := (l4 x a k).mp hz
    rw [key a k u hu hk]
    obtain ⟨gs, us, h1, h2, h3⟩ := finalize_ok (hist_inv h) hf
    have e4 : S'.units = us := by rw [h3]; exact (retrieveLoop_frame w us 0 _).2.2.1
    have hl := SU.linv_scan w.dim (u.map (Sub.shape w))
    have hlx := (List.getElem?_eq_some_iff.mp hk).1
    rw [← layout_x w] at hlx
    obtain ⟨b, sb, p, v, hb, hs, hp, rfl⟩ := hl.cover (SU.scan w.dim (u.map (Sub.shape w))).subs.length k (by rw [List.take_length, ← hl.x]; exact hlx)
    have hsub : (layout w u).sub (sb.x0 + p) = b := ((hl.good b sb hs).sub hp).1
    intro v hv
    simp only [fvars, List.mem_append, List.mem_map] at hv
    rcases hv with ⟨j, hj, rfl⟩ | ⟨j, hj, rfl⟩
    · left
      have hjl := C43.sy_lt hl hb j (by rw [SU.XY, hsub] at hj; exact hj)
      have hmem : (layout w u).y.getD j 0 ∈ (layout w u).y := getD_mem hjl
      refine ⟨_, ?_, rfl⟩
      obtain ⟨⟨s, hs, c, hcs, hy⟩, hno⟩ := (layout_y h1 (by rw [← e4]; exact hu)).1 _ hmem
      rw [l6]
      obtain ⟨t, ht, hct⟩ := (h1.same.1 c).mpr ⟨u, by rw [← e4]; exact List.mem_of_getElem? hu, s, hs, hcs⟩
      refine ⟨⟨t, ht, c, hct, hy⟩, fun s hs hys => hno (mem_allVars.mpr ((h1.same.2 _).mp ⟨s, hs, hys⟩))⟩
    · right
      have hpos : 0 < (layout w u).zdim j := by
        simp only [SU.XZ, List.mem_append] at hj
        rcases hj with hj | hj
        · exact z_pos hl b sb hs j (by rw [hsub] at hj; exact hj)
        · by_cases h0 : 0 < (layout w u).zdim ((layout w u).sub (sb.x0 + p))
          · rw [if_pos h0, List.mem_singleton] at hj
            rw [hj]; exact h0
          · rw [if_neg h0] at hj; cases hj
      obtain ⟨t, ht, e⟩ := z_sub hpos
      exact ⟨a, j, u, t, hu, ht, by omega, rfl⟩


/-! ## The exceptions of `finalize` -/

theorem rows_perm (w : World) {a b : List Nat} (h : a.Perm b) : rows w a = rows w b := (h.map _).sum_eq

theorem total_perm (dim : Nat → Nat) {a b : List Nat} (h : a.Perm b) : SU.total dim a = SU.total dim b := (h.map _).sum_eq

theorem rows_flatMap (w : World) (ss : List Sub) : rows w (ss.flatMap (·.cstrs)) = (ss.map fun s => rows w s.cstrs).sum := by
  induction ss with
  | nil => rfl
  | cons s ss ih => rw [List.flatMap_cons, List.map_cons, List.sum_cons, ← ih]; simp [rows]

theorem total_flatMap (dim : Nat → Nat) (ss : List Sub) : SU.total dim (ss.flatMap (·.vars)) = (ss.map fun s => SU.total dim s.vars).sum := by
  induction ss with
  | nil => rfl
  | cons s ss ih => rw [List.flatMap_cons, List.map_cons, List.sum_cons, ← ih]; simp [SU.total]

theorem sum_le {α : Type} (f g : α → Nat) (l : List α) (h : ∀ a ∈ l, f a ≤ g a) : (l.map f).sum ≤ (l.map g).sum := by
  induction l with
  | nil => exact le_refl _
  | cons a l ih =>
    simp only [List.map_cons, List.sum_cons]
    have := h a (List.mem_cons_self ..)
    have := ih fun b hb => h b (List.mem_cons_of_mem _ hb)
    omega

/-- Substitutions with different variables and different constraints can be merged. -/
theorem group_returns {w : World} {ss : List Sub} (hv : ∀ s ∈ ss, Valid w s) (hc : (ss.flatMap (·.cstrs)).Nodup) (hx : (ss.flatMap (·.vars)).Nodup) :
    ∃ s, group w ss = .ok () s := by
  obtain ⟨g1, g2, g3, g4⟩ := gather_spec ss
  have p1 : (gather ss).1.Perm (ss.flatMap (·.cstrs)) := by
    rw [List.perm_ext_iff_of_nodup (g3.imp fun h => Nat.ne_of_lt h) hc]
    intro c; rw [g1, List.mem_flatMap]
  have p2 : (gather ss).2.Perm (ss.flatMap (·.vars)) := by
    rw [List.perm_ext_iff_of_nodup g4 hx]
    intro c; rw [g2, List.mem_flatMap]
  have e1 : rows w (gather ss).1 = (ss.map fun s => rows w s.cstrs).sum := by rw [rows_perm w p1, rows_flatMap]
  have e2 : SU.total w.dim (gather ss).2 = (ss.map fun s => SU.total w.dim s.vars).sum := by rw [total_perm w.dim p2, total_flatMap]
  have i1 : (ss.map (rankOf w (gather ss).2)).sum ≤ (ss.map fun s => rows w s.cstrs).sum := sum_le _ _ _ fun s _ => Nat.min_le_right _ _
  have i2 : (ss.map fun s => rows w s.cstrs).sum ≤ (ss.map fun s => SU.total w.dim s.vars).sum := sum_le _ _ _ fun s hs => (hv s hs).size
  refine ⟨⟨(gather ss).1, (gather ss).2, (ss.map (rankOf w (gather ss).2)).sum⟩, ?_⟩
  unfold group make
  simp only [Option.getD_some]
  rw [if_pos, if_pos]
  · simp only [asserts, Bool.and_eq_true, decide_eq_true_eq]
    rw [e1, e2]
    exact ⟨i2, i1⟩
  · simp only [check, Bool.and_eq_true, List.all_eq_true, List.any_eq_true, decide_eq_true_eq]
    refine ⟨⟨⟨⟨fun c hc => ?_, g4⟩, fun x hx => ?_⟩, fun c hc => ?_⟩, by rw [e2]; omega⟩
    · obtain ⟨s, hs, h⟩ := (g1 c).mp hc
      exact (hv s hs).eq c h
    · obtain ⟨s, hs, h⟩ := (g2 x).mp hx
      obtain ⟨c, hc, h'⟩ := (hv s hs).inC x h
      exact ⟨c, (g1 c).mpr ⟨s, hs, hc⟩, h'⟩
    · obtain ⟨s, hs, h⟩ := (g1 c).mp hc
      obtain ⟨x, hx, h'⟩ := (hv s hs).hasX c h
      exact ⟨x, (g2 x).mpr ⟨s, hs, hx⟩, h'⟩

theorem pick_nodup {f : Sub → List Nat} {l : List Sub} (h : (l.flatMap f).Nodup) {G : List Nat} (hG : G.Nodup) : ((G.filterMap fun i => l[i]?).flatMap f).Nodup := by
  rw [List.nodup_flatMap] at h ⊢
  refine ⟨fun s hs => ?_, ?_⟩
  · obtain ⟨i, -, hi⟩ := pick_mem.mp hs
    exact h.1 s (List.mem_of_getElem? hi)
  · rw [List.pairwise_filterMap]
    refine hG.imp fun {a b} hab s hs t ht => ?_
    have hp := List.pairwise_iff_getElem.mp h.2
    obtain ⟨ha, ea⟩ := List.getElem?_eq_some_iff.mp hs
    obtain ⟨hb, eb⟩ := List.getElem?_eq_some_iff.mp ht
    rcases Nat.lt_or_gt_of_ne hab with hlt | hlt
    · have := hp a b ha hb hlt
      rw [ea, eb] at this; exact this
    · have := hp b a hb ha hlt
      rw [ea, eb] at this
      exact fun x hx hy => this hy hx

theorem element_returns {w : World} {l : List Sub} (hv : ∀ s ∈ l, Valid w s) (hc : (l.flatMap (·.cstrs)).Nodup) (hx : (l.flatMap (·.vars)).Nodup) {G : List Nat} (hG : G.Nodup)
    (h0 : G ≠ []) (hl : ∀ i ∈ G, i < l.length) : ∃ s, element w l G = .ok () s := by
  match G, h0 with
  | [], h0 => exact absurd rfl h0
  | [i], _ =>
    refine ⟨l[i]'(hl i (by simp)), ?_⟩
    simp only [element, List.getElem?_eq_getElem (hl i (by simp))]
  | i :: j :: G, _ =>
    simp only [element]
    rw [if_pos (by simpa using hl)]
    refine group_returns (fun s hs => ?_) (pick_nodup hc hG) (pick_nodup hx hG)
    obtain ⟨k, -, hk⟩ := pick_mem.mp hs
    exact hv s (List.mem_of_getElem? hk)

theorem extract_returns {w : World} {l : List Sub} {groups : List (List Nat)} (he : ∀ i < groups.length, ∃ s, element w l (groups.getD i []) = .ok () s) (order : List Nat)
    (ho : ∀ i ∈ order, i < groups.length) : ∃ u, extract w l groups order = .ok () u := by
  induction order with
  | nil => exact ⟨[], rfl⟩
  | cons i order ih =>
    obtain ⟨s, hs⟩ := he i (ho i (List.mem_cons_self ..))
    obtain ⟨u, hu⟩ := ih fun j hj => ho j (List.mem_cons_of_mem _ hj)
    exact ⟨s :: u, by simp only [extract, hs, hu]⟩

theorem build_returns {w : World} {l : List Sub} {groups : List (List Nat)} (he : ∀ i < groups.length, ∃ s, element w l (groups.getD i []) = .ok () s) (orders : List (List Nat))
    (ho : ∀ G ∈ orders, ∀ i ∈ G, i < groups.length) : ∃ us, build w l groups orders = .ok [] us := by
  induction orders with
  | nil => exact ⟨[], rfl⟩
  | cons o orders ih =>
    obtain ⟨u, hu⟩ := extract_returns he o (ho o (List.mem_cons_self ..))
    obtain ⟨us, hus⟩ := ih fun G hG => ho G (List.mem_cons_of_mem _ hG)
    exact ⟨u :: us, by simp only [build, hu, hus]⟩

/-- **C71**: after any history, if the substitutions in the set have different variables and different constraints, `finalize` returns, however they depend
on each other. -/
theorem C71_returns {w : World} {S : State} {l : List Sub} (h : Hist w S l) (hx : (l.flatMap (·.vars)).Nodup) (hc : (l.flatMap (·.cstrs)).Nodup) :
    ∃ S', S.finalize w = .ok S' () := by
  have hi := hist_inv h
  obtain ⟨parts, r, e1, p1, p2, p3, p4, p5, p6⟩ := C13.C13_reduce hi.deps
  obtain ⟨orders, e2, o1, o2, o3, o4, o5⟩ := C09.C12_groupedOrder p5 p6
  unfold State.finalize
  simp only [e1, e2]
  obtain ⟨us, hus⟩ := build_returns (w := w) (l := l) (groups := parts) (fun i hil => by
    have hm : parts.getD i [] ∈ parts := by
      rw [List.getD_eq_getElem?_getD, List.getElem?_eq_getElem hil]; exact List.getElem_mem hil
    exact element_returns hi.valid hc hx ((List.nodup_flatten.mp p1).1 _ hm) (p3 _ hm) fun k hk => (p2 k).mpr ⟨_, hm, hk⟩) orders (by
    intro G hG i hiG
    exact (o2 i).mpr ⟨G, hG, hiG⟩)
  rw [hi.subs, hus]
  exact ⟨_, rfl⟩

/-! ## The additional variables -/

theorem z_size (w : World) {u : List Sub} {k : Nat} {s : Sub} (hs : u[k]? = some s) : (layout w u).zdim k = SU.total w.dim s.vars - s.rank := by
  have hl := SU.linv_scan w.dim (u.map (Sub.shape w))
  have hk : k < (SU.scan w.dim (u.map (Sub.shape w))).subs.length := by
    rw [C43.len_eq hl, List.length_map]; exact (List.getElem?_eq_some_iff.mp hs).1
  obtain ⟨t', ht', e1, e2, e3⟩ := C43.shape_at hl (List.getElem?_eq_getElem hk)
  rw [List.getElem?_map, hs] at ht'
  simp only [Option.map_some, Option.some.injEq] at ht'
  subst ht'
  rw [show (layout w u).zdim k = _ from C43.zdim_at (List.getElem?_eq_getElem hk), e3, ← e1]
  rfl

/-- The additional variables of a state after `finalize` -/
theorem addVars_mem {w : World} {S S' : State} {l : List Sub} (h : Hist w S l) (hf : S.finalize w = .ok S' ()) (t : Nat × Nat × Nat) : t ∈ S'.addVars ↔ t ∈ S.addVars ∨
    (t.1 = S.calls ∧ ∃ (u : List Sub) (s : Sub), S'.units[t.2.1]? = some u ∧ u[t.2.2]? = some s ∧ s.rank < SU.total w.dim s.vars) := by
  obtain ⟨gs, us, h1, h2, h3⟩ := finalize_ok (hist_inv h) hf
  obtain ⟨-, -, r3, -⟩ := retrieveLoop_spec w us 0 { S with units := us, vars := [], funcs := [], addCstrs := [], others := [] }
  have e4 : S'.units = us := by rw [h3]; exact (retrieveLoop_frame w us 0 _).2.2.1
  have e := (congrArg State.addVars h3).trans r3
  rw [e, e4, List.mem_append]
  obtain ⟨n, a, k⟩ := t
  apply or_congr Iff.rfl
  simp only [List.mem_flatMap, List.mem_map, List.mem_filter, List.mem_range, decide_eq_true_eq, Prod.exists, List.mk_mem_zipIdx_iff_getElem?, Prod.mk.injEq]
  constructor
  · rintro ⟨u, b, hu, j, ⟨hj, hz⟩, rfl, rfl, rfl⟩
    obtain ⟨s, hs, ez⟩ := z_sub hz
    exact ⟨rfl, u, s, hu, hs, by omega⟩
  · rintro ⟨rfl, u, s, hu, hs, hr⟩
    refine ⟨u, a, hu, k, ⟨(List.getElem?_eq_some_iff.mp hs).1, ?_⟩, rfl, rfl, rfl⟩
    rw [z_size w hs]; omega

/-- The additional variables were made by earlier calls of `finalize`. -/
theorem addVars_calls {w : World} {S : State} {l : List Sub} (h : Hist w S l) : ∀ t ∈ S.addVars, t.1 < S.calls := by
  induction h with
  | init => intro t ht; cases ht
  | add cs xs r s _ _ ha ih =>
    unfold State.add at ha
    simp only at ha
    split at ha
    · split at ha
      · cases ha
      · injection ha with ha _
        subst ha; exact ih
    · cases ha
  | remove p _ hr ih =>
    unfold State.remove at hr
    simp only at hr
    split at hr
    · split at hr
      · injection hr with hr _
        subst hr; exact ih
      · cases hr
    · cases hr
  | ignored s _ hr ih =>
    unfold State.remove at hr
    injection hr with hr _
    subst hr; exact ih
  | @finalize S S' l h hf ih =>
    intro t ht
    have hc : S'.calls = S.calls + 1 := by
      obtain ⟨gs, us, -, -, h3⟩ := finalize_ok (hist_inv h) hf
      rw [h3]
    rw [hc]
    rcases (addVars_mem h hf t).mp ht with ht | ht
    · have := ih t ht; omega
    · omega
  | @failed S S' l h hf ih =>
    have : S'.addVars = S.addVars ∧ S'.calls = S.calls := by
      unfold State.finalize at hf
      split at hf
      · cases hf
      · split at hf
        · cases hf
        · injection hf with hf; subst hf; exact ⟨rfl, rfl⟩
        · split at hf
          · cases hf
          · injection hf with hf; subst hf; exact ⟨rfl, rfl⟩
          · cases hf
    rw [this.1, this.2]; exact ih

/-- **C72, partial**: the additional variables made by a call of `finalize` are in the list, exactly those of positive size of the new units; they are the
only ones when the list was empty. Missing: the list is never emptied (`C72_stale`, `C72_not`). -/
theorem C72_partial {w : World} {S S' : State} {l : List Sub} (h : Hist w S l) (hf : S.finalize w = .ok S' ()) :
    (∀ a k, (S.calls, a, k) ∈ S'.addVars ↔ ∃ (u : List Sub) (s : Sub), S'.units[a]? = some u ∧ u[k]? = some s ∧ s.rank < SU.total w.dim s.vars) ∧
    (S.addVars = [] → ∀ t ∈ S'.addVars, t.1 = S.calls) := by
  refine ⟨fun a k => ?_, fun h0 t ht => ?_⟩
  · rw [addVars_mem h hf]
    constructor
    · rintro (ht | ⟨-, ht⟩)
      · exact absurd (addVars_calls h _ ht) (Nat.lt_irrefl _)
      · exact ht
    · exact fun ht => .inr ⟨rfl, ht⟩
  · rcases (addVars_mem h hf t).mp ht with ht | ht
    · rw [h0] at ht; cases ht
    · exact ht.1

/-- **C72**: a call of `finalize` leaves the additional variables of the previous calls in the list; none of them is a variable of the new units. -/
theorem C72_stale {w : World} {S S' : State} {l : List Sub} (h : Hist w S l) (hf : S.finalize w = .ok S' ()) : ∀ t ∈ S.addVars, t ∈ S'.addVars ∧ t.1 ≠ S.calls := by
  intro t ht
  have := addVars_calls h t ht
  exact ⟨(addVars_mem h hf t).mpr (.inl ht), by omega⟩

/-! ## Examples -/

/-- Variables `0` to `3` of size `1` and `4` of size `2`. The constraints are on the variables `0` and `3`, `0`, `1` and `2`, `1` and `2`, `4` and `3`, `0`. -/
def w₀ : World := ⟨fun x => if x = 4 then 2 else 1,
  fun c => ⟨1, if c = 0 then [0, 3] else if c = 1 then [0, 1, 2] else if c = 2 then [1, 2] else if c = 3 then [4, 3] else [0], .asGiven⟩, fun _ => true⟩

def subA : Sub := ⟨[0], [0], 1⟩
/-- It depends on the first one and on the next one. -/
def subB : Sub := ⟨[1], [1], 1⟩
def subC : Sub := ⟨[2], [2], 1⟩
/-- A substitution of a variable of size `2` by a constraint of size `1` -/
def subD : Sub := ⟨[3], [4], 1⟩
/-- Another substitution of the first variable -/
def subE : Sub := ⟨[4], [0], 1⟩
/-- The same, announced as redundant -/
def subF : Sub := ⟨[4], [0], 0⟩

/-- The state after some additions -/
def after (l : List Sub) : State :=
  l.foldl (fun S s => match S.add w₀ s with
    | .ok S' _ => S'
    | _ => S) {}

theorem hist₁ : Hist w₀ (after [subA]) [subA] := .add [0] [0] none subA .init rfl rfl
theorem hist₂ : Hist w₀ (after [subA, subE]) [subA, subE] := .add [4] [0] none subE hist₁ rfl rfl
theorem hist₃ : Hist w₀ (after [subA, subF]) [subA, subF] := .add [4] [0] (some 0) subF hist₁ rfl rfl
theorem hist₄ : Hist w₀ (after [subB, subD, subA, subC]) [subB, subD, subA, subC] :=
  .add [2] [2] none subC (.add [0] [0] none subA (.add [3] [4] none subD (.add [1] [1] none subB .init rfl rfl) rfl rfl) rfl rfl) rfl rfl

/-- The state after `finalize` for four substitutions: `subB` and `subC` are merged, and come after `subA`; `subD` is alone. -/
def final₀ : State :=
  match (after [subB, subD, subA, subC]).finalize w₀ with
  | .ok S _ => S
  | _ => {}

theorem finalize₀ : (after [subB, subD, subA, subC]).finalize w₀ = .ok final₀ () := rfl

example : final₀.units = [[subA, ⟨[1, 2], [2, 1], 2⟩], [subD]] ∧ final₀.vars = [0, 2, 1, 4] ∧ final₀.funcs = [(0, 0), (0, 1), (0, 2), (1, 0)] ∧
    final₀.addVars = [(0, 1, 0)] ∧ final₀.others = [3] ∧ final₀.addCstrs = [] := ⟨rfl, rfl, rfl, rfl, rfl, rfl⟩

/-- The hypotheses of `C71_returns`: different variables and constraints -/
example : Hist w₀ (after [subB, subD, subA, subC]) [subB, subD, subA, subC] ∧ ([subB, subD, subA, subC].flatMap (·.vars)).Nodup ∧
    ([subB, subD, subA, subC].flatMap (·.cstrs)).Nodup := ⟨hist₄, by decide, by decide⟩

/-- **C71**: the hypothesis on the variables is needed. With two substitutions of the same variable, `finalize` throws an exception. -/
theorem C71_throws : ∃ (w : World) (S S' : State) (l : List Sub), Hist w S l ∧ (l.flatMap (·.cstrs)).Nodup ∧ S.finalize w = .throw S' :=
  ⟨w₀, _, _, _, hist₂, by decide, rfl⟩

/-- **C71**: when the second one is announced as redundant, the exception is not thrown and the assertions of the calculator fail. -/
theorem C71_undefined : ∃ (w : World) (S : State) (l : List Sub), Hist w S l ∧ (l.flatMap (·.cstrs)).Nodup ∧ S.finalize w = .ub :=
  ⟨w₀, _, _, hist₃, by decide, rfl⟩

/-- **C72**: after a second call of `finalize`, the list of the additional variables has a variable which is not one of the units. -/
theorem C72_not : ∃ (w : World) (S S' : State) (l : List Sub), Hist w S l ∧ S.finalize w = .ok S' () ∧ ∃ t ∈ S'.addVars, t.1 ≠ S.calls := by
  have h1 : Hist w₀ (after [subD]) [subD] := .add [3] [4] none subD .init rfl rfl
  have h2 : ∃ S, (after [subD]).finalize w₀ = .ok S () ∧ S.addVars = [(0, 0, 0)] := ⟨_, rfl, rfl⟩
  obtain ⟨S, hS, ha⟩ := h2
  have h3 := Hist.finalize h1 hS
  obtain ⟨S', hS'⟩ := C71_returns h3 (by decide) (by decide)
  exact ⟨w₀, S, S', _, h3, hS', _, C72_stale h3 hS' (0, 0, 0) (by rw [ha]; exact List.mem_cons_self ..)⟩

/-- The system `x₀ + 2 x₃ = 5`, `x₀ + x₂ = 3`, `x₁ = 1`, `x₄ - x₃ = 0` for the first component of `x₄` -/
def J₀ : Nat → Nat → Nat → Nat → ℚ := fun c v _ q =>
  match c, v with
  | 0, 0 => 1
  | 0, _ => 2
  | 1, 0 => 1
  | 1, 2 => 1
  | 2, 1 => 1
  | 3, 4 => if q = 0 then 1 else 0
  | 3, 3 => -1
  | _, _ => 0

def e₀ : Nat → Nat → ℚ := fun c _ => if c = 0 then 5 else if c = 1 then 3 else if c = 2 then 1 else 0

def cal₀ : Nat → Nat → SU.Calc ℚ := fun a k => if a = 0 ∧ k = 1 then C43.trunc 2 else C43.trunc 1

theorem get_of {α : Type} {o : Option α} {a : α} (h : o = some a) (hs : o.isSome = true) : a = o.get hs := by subst h; rfl

theorem calculators₀ : ∀ (a : Nat) (u : List Sub), final₀.units[a]? = some u → C43.Calculators w₀.dim (u.map (Sub.shape w₀)) (unitData J₀ e₀ (cal₀ a) u) := by
  intro a u hu k s t hs ht
  have ha := (List.getElem?_eq_some_iff.mp hu).1
  match a, ha with
  | 0, _ =>
    have e0 : u = [subA, ⟨[1, 2], [2, 1], 2⟩] := (Option.some.inj hu).symm
    subst e0
    have hk := (List.getElem?_eq_some_iff.mp ht).1
    match k, hk with
    | 0, _ =>
      have e1 : s = ((SU.scan w₀.dim ([subA, ⟨[1, 2], [2, 1], 2⟩].map (Sub.shape w₀))).subs[0]?).get (by decide) := get_of hs _
      have e2 : t = (([subA, ⟨[1, 2], [2, 1], 2⟩].map (Sub.shape w₀))[0]?).get (by decide) := get_of ht _
      rw [e1, e2]
      apply C43.lawful_trunc _ 1 1 1 (by omega) (by omega)
      decide +kernel
    | 1, _ =>
      have e1 : s = ((SU.scan w₀.dim ([subA, ⟨[1, 2], [2, 1], 2⟩].map (Sub.shape w₀))).subs[1]?).get (by decide) := get_of hs _
      have e2 : t = (([subA, ⟨[1, 2], [2, 1], 2⟩].map (Sub.shape w₀))[1]?).get (by decide) := get_of ht _
      rw [e1, e2]
      apply C43.lawful_trunc _ 2 2 2 (by omega) (by omega)
      decide +kernel
  | 1, _ =>
    have e0 : u = [subD] := (Option.some.inj hu).symm
    subst e0
    have hk := (List.getElem?_eq_some_iff.mp ht).1
    match k, hk with
    | 0, _ =>
      have e1 : s = ((SU.scan w₀.dim ([subD].map (Sub.shape w₀))).subs[0]?).get (by decide) := get_of hs _
      have e2 : t = (([subD].map (Sub.shape w₀))[0]?).get (by decide) := get_of ht _
      rw [e1, e2]
      apply C43.lawful_trunc _ 1 2 1 (by omega) (by omega)
      decide +kernel

/-- The memory and the output of the unit `a` after an update -/
def run₀ (a : Nat) : SU.Mem ℚ :=
  let u := final₀.units.getD a []
  let L := layout w₀ u
  SU.subLoop w₀.dim L (SU.deps L) (unitData J₀ e₀ (cal₀ a) u) L.subs (SU.init w₀.dim (u.map (Sub.shape w₀)) C43.noMem) 0

def out₀ (a : Nat) : SU.Out ℚ := SU.output w₀.dim (layout w₀ (final₀.units.getD a [])) (unitData J₀ e₀ (cal₀ a) (final₀.units.getD a [])) (run₀ a)

theorem updated₀ : Updated w₀ final₀ J₀ e₀ cal₀ out₀ := by
  intro a u hu
  refine ⟨calculators₀ a u hu, SU.init w₀.dim (u.map (Sub.shape w₀)) C43.noMem, run₀ a, .init C43.noMem, ?_⟩
  have ha := (List.getElem?_eq_some_iff.mp hu).1
  match a, ha with
  | 0, _ =>
    have e0 : u = [subA, ⟨[1, 2], [2, 1], 2⟩] := (Option.some.inj hu).symm
    subst e0
    exact C43.update_run (by decide)
  | 1, _ =>
    have e0 : u = [subD] := (Option.some.inj hu).symm
    subst e0
    exact C43.update_run (by decide)

/-- The hypotheses of `C70_solutions_partial` and `C70_values_partial`. With `x₃ = 1` and `4` for the additional variable, the values written are `x₀ = 3`, `x₂ = 0`, `x₁ = 1`, `x₄ = (1, 4)`. -/
example : (∀ c, (w₀.cstr c).vars.Nodup) ∧ Hist w₀ (after [subB, subD, subA, subC]) [subB, subD, subA, subC] ∧ (after [subB, subD, subA, subC]).finalize w₀ = .ok final₀ () ∧
    Updated w₀ final₀ J₀ e₀ cal₀ out₀ ∧ Additional w₀ final₀ out₀ (fun _ _ => 1) (fun _ _ _ => 4) ∧
    (let val := final₀.updateVariableValues (fvalue w₀ final₀ out₀ fun _ _ _ => 4) (fun _ _ => 1);
      val 0 0 = 3 ∧ val 2 0 = 0 ∧ val 1 0 = 1 ∧ val 4 0 = 1 ∧ val 4 1 = 4) := by
  refine ⟨fun c => ?_, hist₄, finalize₀, updated₀, ?_, by decide +kernel⟩
  · simp only [w₀]
    split
    · decide
    · split
      · decide
      · split
        · decide
        · split <;> decide
  · intro a u hu k t ht r hr
    have ha := (List.getElem?_eq_some_iff.mp hu).1
    exfalso
    match a, ha with
    | 0, _ =>
      have e0 : u = [subA, ⟨[1, 2], [2, 1], 2⟩] := (Option.some.inj hu).symm
      subst e0
      have hk := (List.getElem?_eq_some_iff.mp ht).1
      match k, hk with
      | 0, _ => cases ht; exact Nat.not_lt_zero r hr
      | 1, _ => cases ht; exact Nat.not_lt_zero r hr
    | 1, _ =>
      have e0 : u = [subD] := (Option.some.inj hu).symm
      subst e0
      have hk := (List.getElem?_eq_some_iff.mp ht).1
      match k, hk with
      | 0, _ => cases ht; exact Nat.not_lt_zero r hr

end Verif.C70
