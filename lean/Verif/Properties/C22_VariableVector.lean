import Mathlib.Logic.Relation
import Verif.Lemmas.VariableVector
import Verif.Properties.C26_Variable
/-!
# C22, C23, C24, C25: vectors of variables

The variables are objects with a fixed geometry `geo` (super variable, start and size of the range in it). All of them are
non-empty, except in the counterexamples. A program creates vectors, copies, moves and destroys them, adds and removes variables,
and asks for mappings, in any order. A vector that was moved from can be destroyed or assigned a new content by a move, nothing
else (see `C24_moved_from` for what happens otherwise).
-/
set_option autoImplicit false

namespace Verif.C22
open Verif Verif.VV

/-! ## Specification -/

/-- The elements of a variable: super variable and place in it. -/
def elements (geo : Nat → Geo) (v : Nat) : Nat × Int → Prop :=
  fun e => (geo v).root = e.1 ∧ (geo v).start ≤ e.2 ∧ e.2 < (geo v).start + (geo v).size

/-- `x` covers `v` -/
def covers (geo : Nat → Geo) (x v : Nat) : Prop := ∀ e, elements geo v e → elements geo x e

/-- `x` and `v` have a common element -/
def meets (geo : Nat → Geo) (x v : Nat) : Prop := ∃ e, elements geo x e ∧ elements geo v e

/-- Sum of the sizes of a list of variables -/
def total (geo : Nat → Geo) (l : List Nat) : Int := (l.map fun x => ((geo x).size : Int)).sum

/-- The place in the concatenation of the variables `l` of the first element of `v`: `v` is covered by the `k`-th variable of `l`. -/
def mapping (geo : Nat → Geo) (l : List Nat) (v : Nat) (p : Int) : Prop :=
  ∃ k x, l[k]? = some x ∧ covers geo x v ∧ p = total geo (l.take k) + ((geo v).start - (geo x).start)

/-- State in which a call leaves the program, by a return or by an exception. -/
def leaves {α : Type} (o : Outcome St α) (s : St) : Prop := (∃ a, o = .ok s a) ∨ o = .throw s

/-- The vector exists and was not moved from. -/
def Live (s : St) (h : Nat) (c : Vec) : Prop := s.vecs h = some c ∧ c.id ≠ -1

/-- One call of the API. -/
inductive Step (geo : Nat → Geo) (s : St) : St → Prop
  | create (h : Nat) (hh : s.vecs h = none) : Step geo s (s.create h)
  | add (h v : Nat) (c : Vec) (s' : St) (hl : Live s h c) (hs : leaves (s.add geo h v) s') : Step geo s s'
  | addList (h : Nat) (l : List Nat) (c : Vec) (s' : St) (hl : Live s h c) (hs : leaves (s.addList geo h l) s') : Step geo s s'
  | addAndGetIndex (h v : Nat) (b : Bool) (c : Vec) (s' : St) (hl : Live s h c) (hs : leaves (s.addAndGetIndex geo h v b) s') :
      Step geo s s'
  | remove (h v : Nat) (c : Vec) (s' : St) (hl : Live s h c) (hs : leaves (s.remove geo h v) s') : Step geo s s'
  | removeAt (h : Nat) (i : Int) (c : Vec) (s' : St) (hl : Live s h c) (hs : leaves (s.removeAt geo h i) s') : Step geo s s'
  | clear (h : Nat) (c : Vec) (s' : St) (hl : Live s h c) (hs : leaves (s.clear h) s') : Step geo s s'
  | destroy (h : Nat) (s' : St) (hs : leaves (s.destroy h) s') : Step geo s s'
  | copyAssign (h h' : Nat) (c : Vec) (s' : St) (hl : Live s h c) (hs : leaves (s.copyAssign geo h h') s') : Step geo s s'
  | copyCtor (h h' : Nat) (s' : St) (hh : s.vecs h = none) (hs : leaves (s.copyCtor geo h h') s') : Step geo s s'
  | move (h h' : Nat) (s' : St) (hh : h ≠ h') (hs : leaves (s.move h h') s') : Step geo s s'
  | getMappingOf (h v : Nat) (c : Vec) (s' : St) (hl : Live s h c) (hs : leaves (s.getMappingOf geo h v) s') : Step geo s s'
  | getMappingIn (h v : Nat) (c : Vec) (s' : St) (hl : Live s h c) (hs : leaves (s.getMappingIn geo v h) s') : Step geo s s'

/-- The states that a program can reach. -/
def Reach (geo : Nat → Geo) (s : St) : Prop := Relation.ReflTransGen (Step geo) St.empty s

/-- All the variables are non-empty. -/
def NonEmpty (geo : Nat → Geo) : Prop := ∀ v, 0 < (geo v).size

/-! ## Links with the lemmas -/

variable (geo : Nat → Geo)

theorem total_eq (l : List Nat) : total geo l = sumSizes geo l := by
  induction l with
  | nil => rfl
  | cons x l ih => simp only [total, List.map_cons, List.sum_cons, sumSizes] at ih ⊢; rw [ih]

theorem mapping_iff (l : List Nat) (v : Nat) (p : Int) : mapping geo l v p ↔ IsPlace geo l v p := by
  unfold mapping IsPlace before
  constructor
  · rintro ⟨k, x, h1, h2, h3⟩; exact ⟨k, x, h1, h2, by rw [← total_eq]; exact h3⟩
  · rintro ⟨k, x, h1, h2, h3⟩; exact ⟨k, x, h1, h2, by rw [total_eq]; exact h3⟩

theorem contains_iff (hn : NonEmpty geo) (x v : Nat) : (geo x).contains (geo v) = true ↔ covers geo x v :=
  Geo.contains_iff _ _ (hn v)

theorem intersects_iff (hn : NonEmpty geo) (x v : Nat) : (geo x).intersects (geo v) = true ↔ meets geo x v :=
  Geo.intersects_iff _ _ (hn x) (hn v)

theorem covers_meets (hn : NonEmpty geo) (x v : Nat) (h : covers geo x v) : meets geo x v := by
  have hv : elements geo v ((geo v).root, (geo v).start) := ⟨rfl, by simp, by have := hn v; simp only; omega⟩
  exact ⟨_, h _ hv, hv⟩

theorem disjoint_iff (x v : Nat) : (geo x).disjoint (geo v) ↔ ¬ meets geo x v := by
  constructor
  · rintro h ⟨e, he⟩; exact h e he
  · intro h e he; exact h ⟨e, he⟩

theorem addLoop_spec (hn : NonEmpty geo) (v : Nat) (l : List Nat) (h : ∀ x, x ∈ l → ¬ covers geo x v) :
    ((∃ x, x ∈ l ∧ meets geo x v) → addLoop geo v l = none) ∧ ((¬ ∃ x, x ∈ l ∧ meets geo x v) → addLoop geo v l = some true) := by
  induction l with
  | nil => simp [addLoop]
  | cons x l ih =>
    have hx : ¬ (geo x).contains (geo v) = true := fun e => h x (by simp) ((contains_iff geo hn x v).1 e)
    obtain ⟨a, b⟩ := ih (fun y hy => h y (by simp [hy]))
    by_cases hm : (geo x).intersects (geo v) = true
    · have hm' := (intersects_iff geo hn x v).1 hm
      refine ⟨fun _ => by simp [addLoop, hx, hm], fun e => absurd ⟨x, by simp, hm'⟩ e⟩
    · have hm' : ¬ meets geo x v := fun e => hm ((intersects_iff geo hn x v).2 e)
      simp only [addLoop, hx, hm, if_false, Bool.false_eq_true]
      constructor
      · rintro ⟨y, hy, hyv⟩
        rcases List.mem_cons.1 hy with rfl | hy
        · exact absurd hyv hm'
        · exact a ⟨y, hy, hyv⟩
      · intro e
        exact b (fun ⟨y, hy, hyv⟩ => e ⟨y, by simp [hy], hyv⟩)

theorem add_spec (hn : NonEmpty geo) (s : St) (h : Nat) (c : Vec) (hc : s.vecs h = some c) (v : Nat) :
    ((∃ x, x ∈ c.vars ∧ covers geo x v) → s.add geo h v = .ok s false) ∧
    ((¬ ∃ x, x ∈ c.vars ∧ covers geo x v) → (∃ x, x ∈ c.vars ∧ meets geo x v) → s.add geo h v = .throw s) ∧
    ((¬ ∃ x, x ∈ c.vars ∧ meets geo x v) → s.add geo h v = .ok (s.addRaw geo h c v) true) := by
  have hcont : c.contains geo v = true ↔ ∃ x, x ∈ c.vars ∧ covers geo x v := by
    simp only [Vec.contains, List.any_eq_true]
    constructor
    · rintro ⟨x, h1, h2⟩; exact ⟨x, h1, (contains_iff geo hn x v).1 h2⟩
    · rintro ⟨x, h1, h2⟩; exact ⟨x, h1, (contains_iff geo hn x v).2 h2⟩
  refine ⟨?_, ?_, ?_⟩
  · intro e; simp [St.add, hc, hcont.2 e]
  · intro e1 e2
    have h1 : ¬ c.contains geo v = true := fun e => e1 (hcont.1 e)
    have h2 := (addLoop_spec geo hn v c.vars (fun x hx hcx => e1 ⟨x, hx, hcx⟩)).1 e2
    simp [St.add, hc, h1, h2]
  · intro e2
    have e1 : ¬ ∃ x, x ∈ c.vars ∧ covers geo x v := fun ⟨x, hx, hcx⟩ => e2 ⟨x, hx, covers_meets geo hn x v hcx⟩
    have h1 : ¬ c.contains geo v = true := fun e => e1 (hcont.1 e)
    have h2 := (addLoop_spec geo hn v c.vars (fun x hx hcx => e1 ⟨x, hx, hcx⟩)).2 e2
    simp [St.add, hc, h1, h2]

theorem add_inv (hn : NonEmpty geo) (s s' : St) (h v : Nat) (c : Vec) (hi : Inv geo s) (hl : Live s h c)
    (hs : leaves (s.add geo h v) s') : Inv geo s' ∧ (∃ c', Live s' h c') ∧ (∀ k, k ≠ h → s'.vecs k = s.vecs k) := by
  obtain ⟨a1, a2, a3⟩ := add_spec geo hn s h c hl.1 v
  by_cases h1 : ∃ x, x ∈ c.vars ∧ covers geo x v
  · rw [a1 h1] at hs
    rcases hs with ⟨a, e⟩ | e
    · cases e; exact ⟨hi, ⟨c, hl⟩, fun _ _ => rfl⟩
    · cases e
  · by_cases h2 : ∃ x, x ∈ c.vars ∧ meets geo x v
    · rw [a2 h1 h2] at hs
      rcases hs with ⟨a, e⟩ | e
      · cases e
      · cases e; exact ⟨hi, ⟨c, hl⟩, fun _ _ => rfl⟩
    · rw [a3 h2] at hs
      rcases hs with ⟨a, e⟩ | e
      · cases e
        refine ⟨inv_addRaw geo hn s h c v hi hl.1 hl.2 (fun x hx => (disjoint_iff geo x v).2 (fun e => h2 ⟨x, hx, e⟩)), ?_, ?_⟩
        · exact ⟨⟨c.id, s.counter, c.size + (geo v).size, c.vars ++ [v]⟩, by simp [St.addRaw, St.stampVec, St.setVec, St.setStart], hl.2⟩
        · intro k hk; simp [St.addRaw, St.stampVec, St.setVec, St.setStart, hk]
      · cases e

theorem addList_inv (hn : NonEmpty geo) (l : List Nat) (s s' : St) (h : Nat) (c : Vec) (hi : Inv geo s) (hl : Live s h c)
    (hs : leaves (s.addList geo h l) s') : Inv geo s' ∧ (∃ c', Live s' h c') ∧ (∀ k, k ≠ h → s'.vecs k = s.vecs k) := by
  induction l generalizing s c with
  | nil =>
    rcases hs with ⟨a, e⟩ | e
    · cases e; exact ⟨hi, ⟨c, hl⟩, fun _ _ => rfl⟩
    · cases e
  | cons v l ih =>
    unfold St.addList at hs
    cases ha : s.add geo h v with
    | ok s1 b =>
      obtain ⟨i1, ⟨c1, l1⟩, f1⟩ := add_inv geo hn s s1 h v c hi hl (Or.inl ⟨b, ha⟩)
      rw [ha] at hs
      obtain ⟨i2, l2, f2⟩ := ih s1 c1 i1 l1 hs
      exact ⟨i2, l2, fun k hk => by rw [f2 k hk, f1 k hk]⟩
    | throw s1 =>
      rw [ha] at hs
      rcases hs with ⟨a, e⟩ | e
      · cases e
      · cases e
        exact add_inv geo hn s s' h v c hi hl (Or.inr ha)
    | ub =>
      rw [ha] at hs
      rcases hs with ⟨a, e⟩ | e <;> cases e

theorem addAndGetIndex_cases (hn : NonEmpty geo) (s : St) (h v : Nat) (b : Bool) (c : Vec) (hc : s.vecs h = some c) :
    ((¬ ∃ x, x ∈ c.vars ∧ meets geo x v) ∧ s.addAndGetIndex geo h v b = .ok (s.addRaw geo h c v) c.vars.length) ∨
    ((∃ k x, c.vars[k]? = some x ∧ meets geo x v ∧ (∀ (j y : Nat), j < k → c.vars[j]? = some y → ¬ meets geo y v) ∧
      ((geo x = geo v ∧ s.addAndGetIndex geo h v b = .ok s k) ∨
       (geo x ≠ geo v ∧ covers geo x v ∧ s.addAndGetIndex geo h v b = .ok s (if b then k else -1)) ∨
       (geo x ≠ geo v ∧ ¬ covers geo x v ∧ s.addAndGetIndex geo h v b = .throw s)))) := by
  have hp : ∀ x, ((geo x).contains (geo v) || (geo x).intersects (geo v)) = true ↔ meets geo x v := by
    intro x
    simp only [Bool.or_eq_true]
    constructor
    · rintro (e | e)
      · exact covers_meets geo hn x v ((contains_iff geo hn x v).1 e)
      · exact (intersects_iff geo hn x v).1 e
    · intro e; exact Or.inr ((intersects_iff geo hn x v).2 e)
  cases hf : c.vars.findIdx? fun x => (geo x).contains (geo v) || (geo x).intersects (geo v) with
  | none =>
    left
    refine ⟨?_, by simp [St.addAndGetIndex, hc, hf]⟩
    rintro ⟨x, hx, hm⟩
    rw [List.findIdx?_eq_none_iff] at hf
    have := hf x hx
    rw [(hp x).2 hm] at this; cases this
  | some k =>
    right
    rw [List.findIdx?_eq_some_iff_getElem] at hf
    obtain ⟨hk, h1, h2⟩ := hf
    have e := List.getElem?_eq_getElem hk
    refine ⟨k, c.vars[k], e, (hp _).1 h1, ?_, ?_⟩
    · intro j y hj hy hm
      obtain ⟨hj', e2⟩ := List.getElem?_eq_some_iff.1 hy
      have := h2 j hj
      rw [e2] at this
      exact this ((hp y).2 hm)
    · have hf : (c.vars.findIdx? fun x => (geo x).contains (geo v) || (geo x).intersects (geo v)) = some k := by
        rw [List.findIdx?_eq_some_iff_getElem]; exact ⟨hk, h1, h2⟩
      by_cases he : geo c.vars[k] = geo v
      · left
        refine ⟨he, ?_⟩
        simp only [St.addAndGetIndex, hc, hf, e]
        rw [if_pos ((Geo.eqv_iff _ _).2 he)]
      · right
        have he' : ¬ (geo c.vars[k]).eqv (geo v) = true := fun e => he ((Geo.eqv_iff _ _).1 e)
        by_cases hcv : covers geo c.vars[k] v
        · left
          refine ⟨he, hcv, ?_⟩
          simp only [St.addAndGetIndex, hc, hf, e]
          rw [if_neg he', if_pos ((contains_iff geo hn _ v).2 hcv)]
          cases b <;> rfl
        · right
          refine ⟨he, hcv, ?_⟩
          simp only [St.addAndGetIndex, hc, hf, e]
          rw [if_neg he', if_neg (fun e => hcv ((contains_iff geo hn _ v).1 e))]

theorem remove_cases (s : St) (h v : Nat) (c : Vec) (hc : s.vecs h = some c) :
    ((∀ x, x ∈ c.vars → geo x ≠ geo v) ∧ s.remove geo h v = .ok s false) ∨
    (∃ k x, c.vars[k]? = some x ∧ geo x = geo v ∧ (∀ (j y : Nat), j < k → c.vars[j]? = some y → geo y ≠ geo v) ∧
      s.remove geo h v = .ok (s.removeRaw geo h c k x) true) := by
  cases hf : c.vars.findIdx? fun x => (geo x).eqv (geo v) with
  | none =>
    left
    refine ⟨?_, by simp [St.remove, hc, hf]⟩
    intro x hx he
    rw [List.findIdx?_eq_none_iff] at hf
    have := hf x hx
    rw [(Geo.eqv_iff _ _).2 he] at this; cases this
  | some k =>
    right
    have hf' := hf
    rw [List.findIdx?_eq_some_iff_getElem] at hf
    obtain ⟨hk, h1, h2⟩ := hf
    have e := List.getElem?_eq_getElem hk
    refine ⟨k, c.vars[k], e, (Geo.eqv_iff _ _).1 h1, ?_, by simp [St.remove, hc, hf', e]⟩
    intro j y hj hy he
    obtain ⟨hj', e2⟩ := List.getElem?_eq_some_iff.1 hy
    have := h2 j hj
    rw [e2] at this
    exact this ((Geo.eqv_iff _ _).2 he)

theorem removeAt_cases (s : St) (h : Nat) (i : Int) (c : Vec) (hc : s.vecs h = some c) :
    (¬ (0 ≤ i ∧ i < c.vars.length) ∧ s.removeAt geo h i = .throw s) ∨
    (∃ (k x : Nat), (k : Int) = i ∧ c.vars[k]? = some x ∧ s.removeAt geo h i = .ok (s.removeRaw geo h c k x) ()) := by
  by_cases hi : i < 0 ∨ i ≥ c.vars.length
  · left
    refine ⟨by omega, by simp only [St.removeAt, hc]; rw [if_pos hi]⟩
  · right
    have hk : i.toNat < c.vars.length := by omega
    have e := List.getElem?_eq_getElem hk
    refine ⟨i.toNat, c.vars[i.toNat], by omega, e, ?_⟩
    simp only [St.removeAt, hc]
    rw [if_neg hi, e]

theorem getMappingOf_cases (hn : NonEmpty geo) (s : St) (h v : Nat) (c : Vec) (hi : Inv geo s) (hl : Live s h c) :
    (∃ p, mapping geo c.vars v p ∧ s.getMappingOf geo h v = .ok (s.setStart v c.id (some (p, c.stamp))) ⟨p, (geo v).size⟩) ∨
    ((¬ ∃ p, mapping geo c.vars v p) ∧ s.getMappingOf geo h v = .throw s) := by
  obtain ⟨a, b⟩ := mappingLoop_spec geo hn s c (hi.loc h c hl.1 hl.2) v
  cases hm : mappingLoop geo s c.id v c.vars with
  | none =>
    right
    refine ⟨?_, by simp [St.getMappingOf, hl.1, hm]⟩
    rintro ⟨p, hp⟩
    exact b hm ⟨p, (mapping_iff geo _ _ _).1 hp⟩
  | some p =>
    left
    exact ⟨p, (mapping_iff geo _ _ _).2 (a p hm), by simp [St.getMappingOf, hl.1, hm]⟩

theorem mapping_unique (hn : NonEmpty geo) (s : St) (h v : Nat) (c : Vec) (hi : Inv geo s) (hl : Live s h c) (p q : Int)
    (hp : mapping geo c.vars v p) (hq : mapping geo c.vars v q) : p = q :=
  place_unique geo hn c.vars (hi.loc h c hl.1 hl.2).disj v p q ((mapping_iff geo _ _ _).1 hp) ((mapping_iff geo _ _ _).1 hq)

theorem getMappingIn_cases (hn : NonEmpty geo) (s : St) (h v : Nat) (c : Vec) (hi : Inv geo s) (hl : Live s h c) :
    (∃ p, mapping geo c.vars v p ∧ (s.getMappingIn geo v h = .ok s ⟨p, (geo v).size⟩ ∨
      s.getMappingIn geo v h = .ok (s.setStart v c.id (some (p, c.stamp))) ⟨p, (geo v).size⟩)) ∨
    ((¬ ∃ p, mapping geo c.vars v p) ∧ s.getMappingIn geo v h = .throw s) := by
  have hloc := hi.loc h c hl.1 hl.2
  have ofOf : s.getMappingIn geo v h = s.getMappingOf geo h v → (∃ p, mapping geo c.vars v p ∧ (s.getMappingIn geo v h = .ok s ⟨p, (geo v).size⟩ ∨
      s.getMappingIn geo v h = .ok (s.setStart v c.id (some (p, c.stamp))) ⟨p, (geo v).size⟩)) ∨
    ((¬ ∃ p, mapping geo c.vars v p) ∧ s.getMappingIn geo v h = .throw s) := by
    intro e
    rw [e]
    rcases getMappingOf_cases geo hn s h v c hi hl with ⟨p, h1, h2⟩ | ⟨h1, h2⟩
    · exact Or.inl ⟨p, h1, Or.inr h2⟩
    · exact Or.inr ⟨h1, h2⟩
  cases hst : s.startIn v c.id with
  | none => exact ofOf (by simp [St.getMappingIn, hl.1, hst])
  | some e =>
    obtain ⟨a, t⟩ := e
    by_cases ht : t = -1 ∨ t = c.stamp
    · left
      refine ⟨a, ?_, Or.inl (by simp [St.getMappingIn, hl.1, hst, ht])⟩
      rw [mapping_iff]
      rcases ht with rfl | rfl
      · obtain ⟨k, hk⟩ := List.mem_iff_getElem?.1 (hloc.direct v a hst)
        obtain ⟨t, ht⟩ := hloc.mine k v hk
        rw [hst] at ht
        simp only [Option.some.injEq, Prod.mk.injEq] at ht
        rw [ht.1]
        exact place_mem geo c.vars k v hk
      · exact hloc.cached v a hst
    · exact ofOf (by simp [St.getMappingIn, hl.1, hst, ht])

/-! ## Invariant of the reachable states -/

theorem step_inv (hn : NonEmpty geo) (s s' : St) (hi : Inv geo s) (hs : Step geo s s') : Inv geo s' := by
  cases hs with
  | create h hh => exact (inv_create geo s h hi).1
  | add h v c _ hl hs => exact (add_inv geo hn s s' h v c hi hl hs).1
  | addList h l c _ hl hs => exact (addList_inv geo hn l s s' h c hi hl hs).1
  | addAndGetIndex h v b c _ hl hs =>
    rcases addAndGetIndex_cases geo hn s h v b c hl.1 with ⟨h1, h2⟩ | ⟨k, x, _, _, _, h2⟩
    · rw [h2] at hs
      rcases hs with ⟨a, e⟩ | e
      · cases e
        exact inv_addRaw geo hn s h c v hi hl.1 hl.2 (fun x hx => (disjoint_iff geo x v).2 (fun e => h1 ⟨x, hx, e⟩))
      · cases e
    · rcases h2 with ⟨_, h2⟩ | ⟨_, _, h2⟩ | ⟨_, _, h2⟩ <;> rw [h2] at hs <;> rcases hs with ⟨a, e⟩ | e <;> cases e <;> exact hi
  | remove h v c _ hl hs =>
    rcases remove_cases geo s h v c hl.1 with ⟨_, h2⟩ | ⟨k, x, h1, _, _, h2⟩
    · rw [h2] at hs; rcases hs with ⟨a, e⟩ | e <;> cases e; exact hi
    · rw [h2] at hs; rcases hs with ⟨a, e⟩ | e <;> cases e
      exact inv_removeRaw geo hn s h c k x hi hl.1 hl.2 h1
  | removeAt h i c _ hl hs =>
    rcases removeAt_cases geo s h i c hl.1 with ⟨_, h2⟩ | ⟨k, x, _, h1, h2⟩
    · rw [h2] at hs; rcases hs with ⟨a, e⟩ | e <;> cases e; exact hi
    · rw [h2] at hs; rcases hs with ⟨a, e⟩ | e <;> cases e
      exact inv_removeRaw geo hn s h c k x hi hl.1 hl.2 h1
  | clear h c _ hl hs =>
    rcases hs with ⟨a, e⟩ | e
    · exact (inv_clear geo s s' h c hi hl.1 hl.2 e).1
    · simp [St.clear, hl.1] at e
  | destroy h _ hs =>
    cases hc : s.vecs h with
    | none =>
      simp only [leaves, St.destroy, St.clear, hc] at hs
      rcases hs with ⟨a, e⟩ | e <;> cases e
    | some c =>
      by_cases hid : c.id = -1
      · have hv := hi.dead h c hc hid
        simp only [leaves, St.destroy, St.clear, hc, hv, St.eraseAll] at hs
        rcases hs with ⟨a, e⟩ | e <;> cases e
        exact inv_drop geo _ h (inv_deadStamp geo s h _ hi hid rfl)
      · have e1 : s.clear h = .ok ((s.eraseAll c.id c.vars).stampVec h { c with size := 0, vars := [] }) () := by
          simp only [St.clear, hc]
        simp only [leaves, St.destroy, e1] at hs
        rcases hs with ⟨a, e⟩ | e <;> cases e
        exact inv_drop geo _ h (inv_clear geo s _ h c hi hc hid e1).1
  | copyAssign h h' c _ hl hs =>
    have e1 : s.clear h = .ok ((s.eraseAll c.id c.vars).stampVec h { c with size := 0, vars := [] }) () := by
      simp only [St.clear, hl.1]
    obtain ⟨i1, v1, _⟩ := inv_clear geo s _ h c hi hl.1 hl.2 e1
    simp only [leaves, St.copyAssign, e1] at hs
    generalize (s.eraseAll c.id c.vars).stampVec h { c with size := 0, vars := [] } = s1 at hs i1 v1
    cases hc' : s1.vecs h' with
    | none =>
      simp only [hc'] at hs
      rcases hs with ⟨a, e⟩ | e <;> cases e
    | some c' =>
      simp only [hc'] at hs
      exact (addList_inv geo hn c'.vars s1 s' h _ i1 ⟨v1, hl.2⟩ hs).1
  | copyCtor h h' _ hh hs =>
    cases hc' : s.vecs h' with
    | none =>
      simp only [leaves, St.copyCtor, hc'] at hs
      rcases hs with ⟨a, e⟩ | e <;> cases e
    | some c' =>
      simp only [leaves, St.copyCtor, hc'] at hs
      obtain ⟨i1, v1, _⟩ := inv_create geo s h hi
      exact (addList_inv geo hn c'.vars _ s' h _ i1 ⟨v1, by have := hi.pos; simp only; omega⟩ hs).1
  | move h h' _ hh hs =>
    rcases hs with ⟨a, e⟩ | e
    · exact inv_move geo s s' h h' hh hi e
    · unfold St.move at e
      split at e <;> cases e
  | getMappingOf h v c _ hl hs =>
    rcases getMappingOf_cases geo hn s h v c hi hl with ⟨p, h1, h2⟩ | ⟨_, h2⟩
    · rw [h2] at hs; rcases hs with ⟨a, e⟩ | e <;> cases e
      exact inv_getMappingOf geo hn s h v c p hi hl.1 hl.2 ((mapping_iff geo _ _ _).1 h1)
    · rw [h2] at hs; rcases hs with ⟨a, e⟩ | e <;> cases e; exact hi
  | getMappingIn h v c _ hl hs =>
    rcases getMappingIn_cases geo hn s h v c hi hl with ⟨p, h1, h2 | h2⟩ | ⟨_, h2⟩
    · rw [h2] at hs; rcases hs with ⟨a, e⟩ | e <;> cases e; exact hi
    · rw [h2] at hs; rcases hs with ⟨a, e⟩ | e <;> cases e
      exact inv_getMappingOf geo hn s h v c p hi hl.1 hl.2 ((mapping_iff geo _ _ _).1 h1)
    · rw [h2] at hs; rcases hs with ⟨a, e⟩ | e <;> cases e; exact hi

theorem reach_inv (hn : NonEmpty geo) (s : St) (h : Reach geo s) : Inv geo s := by
  induction h with
  | refl => exact inv_empty geo
  | tail _ hst ih => exact step_inv geo hn _ _ ih hst


/-! ## Values -/

theorem setVar_spec {V : Type} (mem : Nat → Int → V) (v : Nat) (x : List V) (hx : x.length = (geo v).size) (r : Nat) (k : Int) :
    (elements geo v (r, k) → x[(k - (geo v).start).toNat]? = some (setVar geo mem v x r k)) ∧
    (¬ elements geo v (r, k) → setVar geo mem v x r k = mem r k) := by
  unfold elements setVar
  constructor
  · rintro ⟨h1, h2, h3⟩
    simp only at h1 h2 h3
    have hlt : (k - (geo v).start).toNat < x.length := by omega
    simp only [h1, h2, and_self, if_true]
    rw [List.getD_eq_getElem?_getD, List.getElem?_eq_getElem hlt]; rfl
  · intro h
    simp only at h
    by_cases h1 : r = (geo v).root ∧ (geo v).start ≤ k
    · have hge : x.length ≤ (k - (geo v).start).toNat := by
        have : ¬ k < (geo v).start + (geo v).size := fun e => h ⟨h1.1.symm, h1.2, e⟩
        omega
      rw [if_pos h1, List.getD_eq_getElem?_getD, List.getElem?_eq_none hge]; rfl
    · rw [if_neg h1]

theorem sumSizes_nonneg (l : List Nat) : 0 ≤ sumSizes geo l := by
  induction l with
  | nil => simp [sumSizes]
  | cons x l ih => simp only [sumSizes]; omega

theorem setLoop_spec {V : Type} (l : List Nat) (hd : PDisj geo l) (mem : Nat → Int → V) (val : List V)
    (hval : (val.length : Int) = sumSizes geo l) :
    (∀ (j x : Nat) (r : Nat) (k : Int), l[j]? = some x → elements geo x (r, k) →
      val[(before geo l j + (k - (geo x).start)).toNat]? = some (setLoop geo mem l val r k)) ∧
    (∀ (r : Nat) (k : Int), (∀ x, x ∈ l → ¬ elements geo x (r, k)) → setLoop geo mem l val r k = mem r k) := by
  induction l generalizing mem val with
  | nil => simp [setLoop]
  | cons y l ih =>
    have hd' : PDisj geo l := fun i j a b ha hb hij => hd (i + 1) (j + 1) a b (by simpa using ha) (by simpa using hb) (by omega)
    have hs := sumSizes_nonneg geo l
    simp only [sumSizes] at hval
    have htake : (val.take (geo y).size).length = (geo y).size := by simp; omega
    obtain ⟨a, b⟩ := ih hd' (setVar geo mem y (val.take (geo y).size)) (val.drop (geo y).size) (by simp; omega)
    constructor
    · intro j x r k hj hx
      simp only [setLoop]
      cases j with
      | zero =>
        simp only [List.getElem?_cons_zero, Option.some.injEq] at hj
        subst hj
        rw [b r k (fun z hz hzk => by
          obtain ⟨i, hi⟩ := List.mem_iff_getElem?.1 hz
          exact hd 0 (i + 1) y z (by simp) (by simpa using hi) (by omega) (r, k) ⟨hx, hzk⟩)]
        rw [← (setVar_spec geo mem y _ htake r k).1 hx]
        obtain ⟨_, h2, h3⟩ := hx
        simp only at h2 h3
        simp only [before, List.take_zero, sumSizes, Int.zero_add]
        rw [List.getElem?_take_of_lt (by omega)]
      | succ j =>
        simp only [List.getElem?_cons_succ] at hj
        rw [← a j x r k hj hx, List.getElem?_drop]
        obtain ⟨_, h2, h3⟩ := hx
        simp only at h2 h3
        have hb := sumSizes_nonneg geo (l.take j)
        simp only [before, List.take_succ_cons, sumSizes]
        congr 1
        omega
    · intro r k h
      simp only [setLoop]
      rw [b r k (fun x hx => h x (by simp [hx]))]
      exact (setVar_spec geo mem y _ htake r k).2 (h y (by simp))

theorem flatMap_value {V : Type} (l : List Nat) (mem : Nat → Int → V) (val : List V) (hval : (val.length : Int) = sumSizes geo l)
    (h : ∀ (j x : Nat) (r : Nat) (k : Int), l[j]? = some x → elements geo x (r, k) →
      val[(before geo l j + (k - (geo x).start)).toNat]? = some (mem r k)) : l.flatMap (valueOf geo mem) = val := by
  induction l generalizing val with
  | nil =>
    simp only [sumSizes] at hval
    have : val = [] := List.length_eq_zero_iff.1 (by omega)
    simp [this]
  | cons y l ih =>
    have hs := sumSizes_nonneg geo l
    simp only [sumSizes] at hval
    have h1 : valueOf geo mem y = val.take (geo y).size := by
      apply List.ext_getElem?
      intro i
      by_cases hi : i < (geo y).size
      · have := h 0 y (geo y).root ((geo y).start + i) (by simp) ⟨rfl, by simp only; omega, by simp only; omega⟩
        simp only [before, List.take_zero, sumSizes, Int.zero_add] at this
        rw [List.getElem?_take_of_lt hi]
        have e : ((geo y).start + (i : Int) - (geo y).start).toNat = i := by omega
        rw [e] at this
        rw [this]
        simp [valueOf, hi]
      · rw [List.getElem?_eq_none (by simp [valueOf]; omega), List.getElem?_eq_none (by simp; omega)]
    have h2 : l.flatMap (valueOf geo mem) = val.drop (geo y).size := by
      refine ih _ (by simp; omega) ?_
      intro j x r k hj hx
      have := h (j + 1) x r k (by simpa using hj) hx
      rw [← this, List.getElem?_drop]
      obtain ⟨_, h2, h3⟩ := hx
      simp only at h2 h3
      have hb := sumSizes_nonneg geo (l.take j)
      simp only [before, List.take_succ_cons, sumSizes]
      congr 1
      omega
    rw [List.flatMap_cons, h1, h2, List.take_append_drop]

theorem setZero_eq {V : Type} (z : V) (l : List Nat) (mem : Nat → Int → V) :
    l.foldl (fun m x => setVar geo m x (List.replicate (geo x).size z)) mem =
      setLoop geo mem l (List.replicate (sumSizes geo l).toNat z) := by
  induction l generalizing mem with
  | nil => rfl
  | cons y l ih =>
    have hs := sumSizes_nonneg geo l
    rw [List.foldl_cons, ih]
    simp only [setLoop, sumSizes, List.take_replicate, List.drop_replicate]
    have e1 : min (geo y).size (((geo y).size : Int) + sumSizes geo l).toNat = (geo y).size := by omega
    have e2 : (((geo y).size : Int) + sumSizes geo l).toNat - (geo y).size = (sumSizes geo l).toNat := by omega
    rw [e1, e2]

/-! ## Link with the model of the variables -/

/-- Geometry of the objects of a program on variables: here the memory block stands for the super variable. -/
def geoOf {V : Type} (w : Var.World V) (i : Nat) : Geo :=
  match w.objs[i]? with
  | some o => ⟨o.block, o.off, o.size⟩
  | none => ⟨0, 0, 0⟩

/-- The comparisons that a vector makes on geometries are those that the variables make, in every state that a program on variables
can reach. -/
theorem C22_geometry {V : Type} (z : V) (w : Var.World V) (h : C26.Reach z w) (i j : Nat) (hei : C26.addresses w i ≠ [])
    (hej : C26.addresses w j ≠ []) :
    (w.contains i j = some true ↔ (geoOf w i).contains (geoOf w j) = true) ∧
    (w.intersects i j = some true ↔ (geoOf w i).intersects (geoOf w j) = true) := by
  have key : ∀ k, C26.addresses w k ≠ [] → k < w.objs.length ∧ 0 < (geoOf w k).size ∧
      ∀ a : Nat × Nat, a ∈ C26.addresses w k ↔ (geoOf w k).has (a.1, (a.2 : Int)) := by
    intro k hk
    cases ho : w.objs[k]? with
    | none => simp [C26.addresses, ho] at hk
    | some o =>
      refine ⟨(List.getElem?_eq_some_iff.1 ho).1, ?_, ?_⟩
      · have : o.size ≠ 0 := by intro e; apply hk; simp [C26.addresses, ho, e]
        simp only [geoOf, ho]; omega
      · intro a
        rw [C26.mem_addresses w k o ho]
        simp only [geoOf, ho, Geo.has]
        omega
  have nonneg : ∀ k e, (geoOf w k).has e → 0 ≤ e.2 := by
    intro k e he
    unfold geoOf at he
    split at he <;> simp only [Geo.has] at he <;> omega
  obtain ⟨li, pi, mi⟩ := key i hei
  obtain ⟨lj, pj, mj⟩ := key j hej
  constructor
  · rw [C26.C26_contains z w h i j li hej, Geo.contains_iff _ _ pj]
    constructor
    · intro hall e he
      have h0 := nonneg j e he
      have := (mi (e.1, e.2.toNat)).1 (hall _ ((mj (e.1, e.2.toNat)).2 (by simp only [Int.toNat_of_nonneg h0]; exact he)))
      simp only [Int.toNat_of_nonneg h0] at this
      exact this
    · intro hall a ha
      exact (mi a).2 (hall _ ((mj a).1 ha))
  · rw [C26.C26_intersects z w h i j hei hej, Geo.intersects_iff _ _ pi pj]
    constructor
    · rintro ⟨a, h1, h2⟩; exact ⟨_, (mi a).1 h1, (mj a).1 h2⟩
    · rintro ⟨e, h1, h2⟩
      have h0 := nonneg j e h2
      refine ⟨(e.1, e.2.toNat), (mi _).2 ?_, (mj _).2 ?_⟩ <;> simp only [Int.toNat_of_nonneg h0]
      · exact h1
      · exact h2

/-! ## C22 -/

/-- What can be read of a vector: its variables and `totalSize` -/
def content (s : St) (h : Nat) : Option (List Nat × Int) := (s.vecs h).map fun c => (c.vars, c.size)

theorem content_of (s : St) (h : Nat) (c : Vec) (hc : s.vecs h = some c) : content s h = some (c.vars, c.size) := by
  simp [content, hc]

theorem content_eq (s : St) (h : Nat) (l : List Nat) (n : Int) (hc : content s h = some (l, n)) :
    ∃ c, s.vecs h = some c ∧ c.vars = l ∧ c.size = n := by
  unfold content at hc
  cases e : s.vecs h with
  | none => rw [e] at hc; cases hc
  | some c =>
    rw [e] at hc
    simp only [Option.map_some, Option.some.injEq, Prod.mk.injEq] at hc
    exact ⟨c, rfl, hc.1, hc.2⟩

/-- In every reachable state, the variables of a vector are pairwise disjoint and `totalSize` is the sum of their sizes. -/
theorem C22_disjoint (hn : NonEmpty geo) (s : St) (hr : Reach geo s) (h : Nat) (c : Vec) (hl : Live s h c) :
    (∀ (i j x y : Nat), c.vars[i]? = some x → c.vars[j]? = some y → i ≠ j → ¬ meets geo x y) ∧ c.size = total geo c.vars := by
  have hloc := (reach_inv geo hn s hr).loc h c hl.1 hl.2
  exact ⟨fun i j x y hi hj hij => (disjoint_iff geo x y).1 (hloc.disj i j x y hi hj hij), by rw [total_eq]; exact hloc.size⟩

theorem addRaw_effect (s : St) (h v : Nat) (c : Vec) (hl : Live s h c) :
    (∃ c', Live (s.addRaw geo h c v) h c' ∧ c'.vars = c.vars ++ [v] ∧ c'.size = c.size + (geo v).size) ∧
    ∀ k, k ≠ h → content (s.addRaw geo h c v) k = content s k := by
  refine ⟨⟨⟨c.id, s.counter, c.size + (geo v).size, c.vars ++ [v]⟩, ⟨by simp [St.addRaw, St.stampVec, St.setVec, St.setStart], hl.2⟩, rfl, rfl⟩, ?_⟩
  intro k hk
  simp [content, St.addRaw, St.stampVec, St.setVec, St.setStart, hk]

/-- `add`: exactly one of three outcomes, decided by the elements; other vectors are never changed. -/
theorem C22_add (hn : NonEmpty geo) (s : St) (h v : Nat) (c : Vec) (hl : Live s h c) :
    ((∃ x, x ∈ c.vars ∧ covers geo x v) → s.add geo h v = .ok s false) ∧
    ((¬ ∃ x, x ∈ c.vars ∧ covers geo x v) → (∃ x, x ∈ c.vars ∧ meets geo x v) → s.add geo h v = .throw s) ∧
    ((¬ ∃ x, x ∈ c.vars ∧ meets geo x v) → ∃ s', s.add geo h v = .ok s' true ∧
      (∃ c', Live s' h c' ∧ c'.vars = c.vars ++ [v] ∧ c'.size = c.size + (geo v).size) ∧
      ∀ k, k ≠ h → content s' k = content s k) := by
  obtain ⟨a1, a2, a3⟩ := add_spec geo hn s h c hl.1 v
  exact ⟨a1, a2, fun e => ⟨_, a3 e, addRaw_effect geo s h v c hl⟩⟩

/-- `addAndGetIndex` -/
theorem C22_addAndGetIndex (hn : NonEmpty geo) (s : St) (hr : Reach geo s) (h v : Nat) (b : Bool) (c : Vec) (hl : Live s h c) :
    ((¬ ∃ x, x ∈ c.vars ∧ meets geo x v) → ∃ s', s.addAndGetIndex geo h v b = .ok s' c.vars.length ∧
      (∃ c', Live s' h c' ∧ c'.vars = c.vars ++ [v] ∧ c'.size = c.size + (geo v).size) ∧
      ∀ k, k ≠ h → content s' k = content s k) ∧
    (∀ (k x : Nat), c.vars[k]? = some x → covers geo x v → covers geo v x → s.addAndGetIndex geo h v b = .ok s k) ∧
    (∀ (k x : Nat), c.vars[k]? = some x → covers geo x v → ¬ covers geo v x →
      s.addAndGetIndex geo h v b = .ok s (if b then k else -1)) ∧
    ((¬ ∃ x, x ∈ c.vars ∧ covers geo x v) → (∃ x, x ∈ c.vars ∧ meets geo x v) → s.addAndGetIndex geo h v b = .throw s) := by
  have hloc := (reach_inv geo hn s hr).loc h c hl.1 hl.2
  have hgeo : ∀ x, geo x = geo v → covers geo x v ∧ covers geo v x := by
    intro x e; unfold covers elements; rw [e]; exact ⟨fun _ h => h, fun _ h => h⟩
  have hgeo' : ∀ x, covers geo x v → covers geo v x → geo x = geo v := by
    intro x h1 h2
    have hx := hn x
    have hv := hn v
    have a1 := h1 ((geo v).root, (geo v).start) ⟨rfl, by simp, by simp only; omega⟩
    have a2 := h1 ((geo v).root, (geo v).start + (geo v).size - 1) ⟨rfl, by simp only; omega, by simp only; omega⟩
    have b1 := h2 ((geo x).root, (geo x).start) ⟨rfl, by simp, by simp only; omega⟩
    have b2 := h2 ((geo x).root, (geo x).start + (geo x).size - 1) ⟨rfl, by simp only; omega, by simp only; omega⟩
    simp only [elements] at a1 a2 b1 b2
    cases hgx : geo x; cases hgv : geo v
    rw [hgx, hgv] at a1 a2 b1 b2
    simp only at a1 a2 b1 b2
    simp only [Geo.mk.injEq]
    exact ⟨a1.1, by omega, by omega⟩
  rcases addAndGetIndex_cases geo hn s h v b c hl.1 with ⟨h1, h2⟩ | ⟨k, x, hk, hm, _, h2⟩
  · refine ⟨fun _ => ⟨_, h2, addRaw_effect geo s h v c hl⟩, ?_, ?_, ?_⟩
    · intro k x hk hc; exact absurd ⟨x, List.mem_of_getElem? hk, covers_meets geo hn x v hc⟩ h1
    · intro k x hk hc; exact absurd ⟨x, List.mem_of_getElem? hk, covers_meets geo hn x v hc⟩ h1
    · intro _ e; exact absurd e h1
  · have uniq : ∀ (j y : Nat), c.vars[j]? = some y → covers geo y v → j = k ∧ y = x := by
      intro j y hj hy
      by_cases hjk : j = k
      · subst hjk; rw [hk] at hj; cases hj; exact ⟨rfl, rfl⟩
      · obtain ⟨e, he1, he2⟩ := hm
        exact absurd ⟨hy e he2, he1⟩ (hloc.disj j k y x hj hk hjk e)
    refine ⟨fun e => absurd ⟨x, List.mem_of_getElem? hk, hm⟩ e, ?_, ?_, ?_⟩
    · intro j y hj h3 h4
      obtain ⟨rfl, rfl⟩ := uniq j y hj h3
      rcases h2 with ⟨_, h2⟩ | ⟨hne, _, _⟩ | ⟨hne, _, _⟩
      · exact h2
      · exact absurd (hgeo' _ h3 h4) hne
      · exact absurd (hgeo' _ h3 h4) hne
    · intro j y hj h3 h4
      obtain ⟨rfl, rfl⟩ := uniq j y hj h3
      rcases h2 with ⟨he, _⟩ | ⟨_, _, h2⟩ | ⟨_, hne, _⟩
      · exact absurd (hgeo _ he).2 h4
      · exact h2
      · exact absurd h3 hne
    · intro h3 _
      rcases h2 with ⟨he, _⟩ | ⟨_, hc, _⟩ | ⟨_, _, h2⟩
      · exact absurd ⟨x, List.mem_of_getElem? hk, (hgeo _ he).1⟩ h3
      · exact absurd ⟨x, List.mem_of_getElem? hk, hc⟩ h3
      · exact h2

theorem removeRaw_effect (s : St) (h : Nat) (c : Vec) (k v : Nat) (hl : Live s h c) :
    (∃ c', Live (s.removeRaw geo h c k v) h c' ∧ c'.vars = c.vars.eraseIdx k ∧ c'.size = c.size - (geo v).size) ∧
    ∀ j, j ≠ h → content (s.removeRaw geo h c k v) j = content s j := by
  obtain ⟨dv, _, _⟩ := decrement_vecs c.id (geo v).size (c.vars.drop (k + 1)) s
  refine ⟨⟨⟨c.id, (s.decrement c.id (geo v).size (c.vars.drop (k + 1))).counter, c.size - (geo v).size, c.vars.eraseIdx k⟩,
    ⟨by simp [St.removeRaw, St.stampVec, St.setVec, St.setStart], hl.2⟩, rfl, rfl⟩, ?_⟩
  intro j hj
  simp [content, St.removeRaw, St.stampVec, St.setVec, St.setStart, hj, dv]

/-- `remove(v)`: the variable with the same elements goes, the order of the others is kept; without such a variable nothing
changes. -/
theorem C22_remove (s : St) (h v : Nat) (c : Vec) (hl : Live s h c) :
    ((∀ x, x ∈ c.vars → geo x ≠ geo v) → s.remove geo h v = .ok s false) ∧
    (∀ x, x ∈ c.vars → geo x = geo v → ∃ k y s', c.vars[k]? = some y ∧ geo y = geo v ∧ s.remove geo h v = .ok s' true ∧
      (∃ c', Live s' h c' ∧ c'.vars = c.vars.eraseIdx k ∧ c'.size = c.size - (geo v).size) ∧
      ∀ j, j ≠ h → content s' j = content s j) := by
  rcases remove_cases geo s h v c hl.1 with ⟨h1, h2⟩ | ⟨k, x, hk, he, _, h2⟩
  · exact ⟨fun _ => h2, fun x hx e => absurd e (h1 x hx)⟩
  · refine ⟨fun h3 => absurd he (h3 x (List.mem_of_getElem? hk)), fun _ _ _ => ⟨k, x, _, hk, he, h2, ?_⟩⟩
    rw [← he]
    exact removeRaw_effect geo s h c k x hl

/-- `remove(i)` -/
theorem C22_removeAt (s : St) (h : Nat) (i : Int) (c : Vec) (hl : Live s h c) :
    ((i < 0 ∨ (c.vars.length : Int) ≤ i) → s.removeAt geo h i = .throw s) ∧
    (∀ (k x : Nat), (k : Int) = i → c.vars[k]? = some x → ∃ s', s.removeAt geo h i = .ok s' () ∧
      (∃ c', Live s' h c' ∧ c'.vars = c.vars.eraseIdx k ∧ c'.size = c.size - (geo x).size) ∧
      ∀ j, j ≠ h → content s' j = content s j) := by
  rcases removeAt_cases geo s h i c hl.1 with ⟨h1, h2⟩ | ⟨k, x, hk, hx, h2⟩
  · refine ⟨fun _ => h2, fun k x hk hx => ?_⟩
    have := (List.getElem?_eq_some_iff.1 hx).1
    exact absurd ⟨by omega, by omega⟩ h1
  · have hlt := (List.getElem?_eq_some_iff.1 hx).1
    refine ⟨fun e => by omega, fun j y hj hy => ⟨_, h2, ?_⟩⟩
    have : j = k := by omega
    subst this
    rw [hx] at hy; cases hy
    exact removeRaw_effect geo s h c j x hl

/-- `clear` -/
theorem C22_clear (s : St) (h : Nat) (c : Vec) (hl : Live s h c) :
    ∃ s', s.clear h = .ok s' () ∧ (∃ c', Live s' h c' ∧ c'.vars = [] ∧ c'.size = 0) ∧ ∀ j, j ≠ h → content s' j = content s j := by
  obtain ⟨dv, _, _⟩ := eraseAll_vecs c.id c.vars s
  refine ⟨(s.eraseAll c.id c.vars).stampVec h { c with size := 0, vars := [] }, by simp only [St.clear, hl.1],
    ⟨⟨c.id, (s.eraseAll c.id c.vars).counter, 0, []⟩, ⟨by simp [St.stampVec, St.setVec], hl.2⟩, rfl, rfl⟩, ?_⟩
  intro j hj
  simp [content, St.stampVec, St.setVec, hj, dv]

/-- `contains`, `intersects` and `indexOf` -/
theorem C22_contains (hn : NonEmpty geo) (c : Vec) (v : Nat) :
    (c.contains geo v = true ↔ ∃ x, x ∈ c.vars ∧ covers geo x v) ∧ (c.intersects geo v = true ↔ ∃ x, x ∈ c.vars ∧ meets geo x v) := by
  constructor
  · simp only [Vec.contains, List.any_eq_true]
    exact ⟨fun ⟨x, a, b⟩ => ⟨x, a, (contains_iff geo hn x v).1 b⟩, fun ⟨x, a, b⟩ => ⟨x, a, (contains_iff geo hn x v).2 b⟩⟩
  · simp only [Vec.intersects, List.any_eq_true]
    exact ⟨fun ⟨x, a, b⟩ => ⟨x, a, (intersects_iff geo hn x v).1 b⟩, fun ⟨x, a, b⟩ => ⟨x, a, (intersects_iff geo hn x v).2 b⟩⟩

theorem C22_indexOf (hn : NonEmpty geo) (s : St) (hr : Reach geo s) (h v : Nat) (c : Vec) (hl : Live s h c) :
    (∀ (k x : Nat), c.vars[k]? = some x → geo x = geo v → c.indexOf geo v = k) ∧
    ((∀ x, x ∈ c.vars → geo x ≠ geo v) → c.indexOf geo v = -1) := by
  have hloc := (reach_inv geo hn s hr).loc h c hl.1 hl.2
  have hgeo : ∀ x, geo x = geo v → covers geo x v := by
    intro x e; unfold covers elements; rw [e]; exact fun _ h => h
  unfold Vec.indexOf
  cases hf : c.vars.findIdx? fun x => (geo x).contains (geo v) with
  | none =>
    rw [List.findIdx?_eq_none_iff] at hf
    refine ⟨fun k x hk he => ?_, fun _ => rfl⟩
    have := hf x (List.mem_of_getElem? hk)
    rw [(contains_iff geo hn x v).2 (hgeo x he)] at this; cases this
  | some k =>
    rw [List.findIdx?_eq_some_iff_getElem] at hf
    obtain ⟨hk, h1, _⟩ := hf
    have e := List.getElem?_eq_getElem hk
    have hcov := (contains_iff geo hn _ v).1 h1
    simp only [e]
    constructor
    · intro j y hj hy
      have : j = k := pdisj_inj geo hn c.vars hloc.disj j k v y _ hj e (hgeo y hy) hcov
      subst this
      rw [e] at hj; cases hj
      rw [if_pos ((Geo.eqv_iff _ _).2 hy)]
    · intro h3
      rw [if_neg (fun e2 => h3 _ (List.mem_of_getElem? e) ((Geo.eqv_iff _ _).1 e2))]

theorem addList_disjoint (hn : NonEmpty geo) (l : List Nat) (s : St) (h : Nat) (c : Vec) (hl : Live s h c)
    (hd : PDisj geo (c.vars ++ l)) : ∃ s', s.addList geo h l = .ok s' () ∧
      (∃ c', Live s' h c' ∧ c'.vars = c.vars ++ l ∧ c'.size = c.size + total geo l) ∧ ∀ k, k ≠ h → content s' k = content s k := by
  induction l generalizing s c with
  | nil => exact ⟨s, rfl, ⟨c, hl, by simp, by simp [total]⟩, fun _ _ => rfl⟩
  | cons v l ih =>
    have hdis : ¬ ∃ x, x ∈ c.vars ∧ meets geo x v := by
      rintro ⟨x, hx, hm⟩
      obtain ⟨i, hi⟩ := List.mem_iff_getElem?.1 hx
      have hlt := (List.getElem?_eq_some_iff.1 hi).1
      exact (disjoint_iff geo x v).1 (hd i c.vars.length x v (by rw [List.getElem?_append_left hlt]; exact hi) (by simp) (by omega)) hm
    obtain ⟨s1, e1, ⟨c1, l1, v1, z1⟩, f1⟩ := (C22_add geo hn s h v c hl).2.2 hdis
    obtain ⟨s2, e2, ⟨c2, l2, v2, z2⟩, f2⟩ := ih s1 c1 l1 (by rw [v1, List.append_assoc]; exact hd)
    refine ⟨s2, by simp only [St.addList, e1]; exact e2, ⟨c2, l2, by rw [v2, v1, List.append_assoc]; rfl, ?_⟩,
      fun k hk => by rw [f2 k hk, f1 k hk]⟩
    rw [z2, z1]
    simp only [total, List.map_cons, List.sum_cons]; omega

/-- The copy of a vector has the same variables in the same order, and the copied vector is not changed. -/
theorem C22_copy (hn : NonEmpty geo) (s : St) (hr : Reach geo s) (h h' : Nat) (c' : Vec) (hl : Live s h' c') :
    (s.vecs h = none → ∃ s', s.copyCtor geo h h' = .ok s' () ∧ content s' h = content s h' ∧
      ∀ k, k ≠ h → content s' k = content s k) ∧
    (∀ c, Live s h c → h ≠ h' → ∃ s', s.copyAssign geo h h' = .ok s' () ∧ content s' h = content s h' ∧
      ∀ k, k ≠ h → content s' k = content s k) := by
  have hi := reach_inv geo hn s hr
  have hloc := hi.loc h' c' hl.1 hl.2
  constructor
  · intro hh
    obtain ⟨_, v1, f1⟩ := inv_create geo s h hi
    obtain ⟨s2, e2, ⟨c2, l2, v2, z2⟩, f2⟩ := addList_disjoint geo hn c'.vars (s.create h) h _
      ⟨v1, by have := hi.pos; simp only; omega⟩ (by simpa using hloc.disj)
    refine ⟨s2, by simp only [St.copyCtor, hl.1]; exact e2, ?_, ?_⟩
    · rw [content_of _ _ _ l2.1, content_of _ _ _ hl.1, v2, z2, hloc.size, total_eq]; simp
    · intro k hk; rw [f2 k hk]; simp only [content, f1 k hk]
  · intro c hc hne
    obtain ⟨s1, e1, ⟨c1, l1, v1, z1⟩, f1⟩ := C22_clear s h c hc
    have hc' : ∃ c2, s1.vecs h' = some c2 ∧ c2.vars = c'.vars ∧ c2.size = c'.size :=
      content_eq s1 h' _ _ (by rw [f1 h' (Ne.symm hne)]; exact content_of s h' c' hl.1)
    obtain ⟨c3, a1, a2, a3⟩ := hc'
    obtain ⟨s2, e2, ⟨c2, l2, v2, z2⟩, f2⟩ := addList_disjoint geo hn c'.vars s1 h c1 l1 (by rw [v1]; simpa using hloc.disj)
    refine ⟨s2, by simp only [St.copyAssign, e1, a1, a2]; exact e2, ?_, ?_⟩
    · rw [content_of _ _ _ l2.1, content_of _ _ _ hl.1, v2, z2, v1, z1, hloc.size, total_eq]; simp
    · intro k hk; rw [f2 k hk, f1 k hk]

/-- After a move the target has the content of the source. -/
theorem C22_move (s : St) (h h' : Nat) (c' : Vec) (hl : s.vecs h' = some c') (hne : h ≠ h') :
    ∃ s', s.move h h' = .ok s' () ∧ content s' h = content s h' ∧ (content s' h').map Prod.fst = some [] ∧
      ∀ k, k ≠ h → k ≠ h' → content s' k = content s k := by
  refine ⟨(s.setVec h' (some c'.movedFrom)).setVec h (some c'), by simp only [St.move, hl], by simp [content, St.setVec, hl], by simp [content, St.setVec, Ne.symm hne, Vec.movedFrom], ?_⟩
  intro k h1 h2
  simp [content, St.setVec, h1, h2]

/-! ## C24 -/

/-- In every reachable state, both queries give the place computed from the present variables of the vector, or throw when the
variable is not covered. No vector is changed by a query. -/
theorem C24_query (hn : NonEmpty geo) (s : St) (hr : Reach geo s) (h v : Nat) (c : Vec) (hl : Live s h c) :
    (∀ p, mapping geo c.vars v p → (∃ s', s.getMappingIn geo v h = .ok s' ⟨p, (geo v).size⟩ ∧ s'.vecs = s.vecs) ∧
      (∃ s', s.getMappingOf geo h v = .ok s' ⟨p, (geo v).size⟩ ∧ s'.vecs = s.vecs)) ∧
    ((¬ ∃ x, x ∈ c.vars ∧ covers geo x v) → s.getMappingIn geo v h = .throw s ∧ s.getMappingOf geo h v = .throw s) := by
  have hi := reach_inv geo hn s hr
  have hm : (∃ p, mapping geo c.vars v p) ↔ ∃ x, x ∈ c.vars ∧ covers geo x v := by
    constructor
    · rintro ⟨p, k, x, hk, hc, _⟩; exact ⟨x, List.mem_of_getElem? hk, hc⟩
    · rintro ⟨x, hx, hc⟩
      obtain ⟨k, hk⟩ := List.mem_iff_getElem?.1 hx
      exact ⟨_, k, x, hk, hc, rfl⟩
  constructor
  · intro p hp
    constructor
    · rcases getMappingIn_cases geo hn s h v c hi hl with ⟨q, h1, h2⟩ | ⟨h1, _⟩
      · have := mapping_unique geo hn s h v c hi hl p q hp h1
        subst this
        rcases h2 with h2 | h2
        · exact ⟨_, h2, rfl⟩
        · exact ⟨_, h2, rfl⟩
      · exact absurd ⟨p, hp⟩ h1
    · rcases getMappingOf_cases geo hn s h v c hi hl with ⟨q, h1, h2⟩ | ⟨h1, _⟩
      · have := mapping_unique geo hn s h v c hi hl p q hp h1
        subst this
        exact ⟨_, h2, rfl⟩
      · exact absurd ⟨p, hp⟩ h1
  · intro hx
    rw [← hm] at hx
    constructor
    · rcases getMappingIn_cases geo hn s h v c hi hl with ⟨q, h1, _⟩ | ⟨_, h2⟩
      · exact absurd ⟨q, h1⟩ hx
      · exact h2
    · rcases getMappingOf_cases geo hn s h v c hi hl with ⟨q, h1, _⟩ | ⟨_, h2⟩
      · exact absurd ⟨q, h1⟩ hx
      · exact h2

/-! ## C23 -/

theorem total_split (l : List Nat) (k x : Nat) (hk : l[k]? = some x) :
    total geo (l.take (k + 1)) = total geo (l.take k) + (geo x).size ∧ total geo (l.take k) + (geo x).size ≤ total geo l ∧
      0 ≤ total geo (l.take k) := by
  obtain ⟨h1, h2⟩ := split_at l k x hk
  have hlt := (List.getElem?_eq_some_iff.1 hk).1
  have e : l.take (k + 1) = l.take k ++ [x] := by rw [List.take_add_one, hk]; rfl
  have t : sumSizes geo l = sumSizes geo (l.take k) + ((geo x).size + sumSizes geo (l.drop (k + 1))) := by
    conv => lhs; rw [h1]
    rw [sumSizes_append]; rfl
  have n1 := sumSizes_nonneg geo (l.take k)
  have n2 := sumSizes_nonneg geo (l.drop (k + 1))
  rw [total_eq, total_eq, total_eq, e, sumSizes_append, t]
  simp only [sumSizes]
  omega

theorem total_mono (l : List Nat) (i j : Nat) (hij : i ≤ j) : total geo (l.take i) ≤ total geo (l.take j) := by
  have e : l.take j = l.take i ++ (l.take j).drop i := by
    conv => lhs; rw [← List.take_append_drop i (l.take j)]
    rw [List.take_take, Nat.min_eq_left hij]
  have := sumSizes_nonneg geo ((l.take j).drop i)
  rw [total_eq, total_eq, e, sumSizes_append]
  omega

/-- The mappings of the variables of a vector follow each other from 0 to `totalSize`. -/
theorem C23_tiling (hn : NonEmpty geo) (s : St) (hr : Reach geo s) (h : Nat) (c : Vec) (hl : Live s h c) :
    (∀ (k x : Nat), c.vars[k]? = some x → ∃ s' r, s.getMappingIn geo x h = .ok s' r ∧ r.start = total geo (c.vars.take k) ∧
      r.start + r.dim = total geo (c.vars.take (k + 1)) ∧ r.dim = (geo x).size) ∧
    total geo (c.vars.take 0) = 0 ∧ total geo (c.vars.take c.vars.length) = c.size ∧
    (∀ q, 0 ≤ q → q < c.size → ∃ (k x : Nat), c.vars[k]? = some x ∧ total geo (c.vars.take k) ≤ q ∧ q < total geo (c.vars.take (k + 1)) ∧
      ∀ j, j < c.vars.length → total geo (c.vars.take j) ≤ q → q < total geo (c.vars.take (j + 1)) → j = k) := by
  have hz := (C22_disjoint geo hn s hr h c hl).2
  refine ⟨?_, by simp [total], by rw [List.take_length, hz], ?_⟩
  · intro k x hk
    obtain ⟨s', e, _⟩ := ((C24_query geo hn s hr h x c hl).1 (total geo (c.vars.take k))
      ⟨k, x, hk, fun _ h => h, by omega⟩).1
    exact ⟨s', _, e, rfl, (total_split geo c.vars k x hk).1.symm, rfl⟩
  · intro q h0 h1
    have ex : ∀ n, n ≤ c.vars.length → q < total geo (c.vars.take n) →
        ∃ (k x : Nat), c.vars[k]? = some x ∧ total geo (c.vars.take k) ≤ q ∧ q < total geo (c.vars.take (k + 1)) := by
      intro n
      induction n with
      | zero => intro _ h; simp [total] at h; omega
      | succ n ih =>
        intro hn' hq
        by_cases hlt : q < total geo (c.vars.take n)
        · exact ih (by omega) hlt
        · exact ⟨n, c.vars[n], List.getElem?_eq_getElem (by omega), by omega, hq⟩
    obtain ⟨k, x, hk, a, b⟩ := ex c.vars.length (Nat.le_refl _) (by rw [List.take_length, ← hz]; exact h1)
    refine ⟨k, x, hk, a, b, ?_⟩
    intro j _ hj1 hj2
    rcases Nat.lt_trichotomy j k with hjk | hjk | hjk
    · have := total_mono geo c.vars (j + 1) k hjk; omega
    · exact hjk
    · have := total_mono geo c.vars (k + 1) j hjk; omega

/-- The mapping of a covered variable is inside `[0, totalSize)`, at the offset that the variable has in its container, and covered
variables without common element have mappings without common element. -/
theorem C23_inside (hn : NonEmpty geo) (s : St) (hr : Reach geo s) (h : Nat) (c : Vec) (hl : Live s h c) (v w k x : Nat)
    (hk : c.vars[k]? = some x) (hv : covers geo x v) (y : Nat) (hy : y ∈ c.vars) (hw : covers geo y w) :
    ∃ s1 s2 s3 r1 r2 r3, s.getMappingIn geo x h = .ok s1 r1 ∧ s.getMappingIn geo v h = .ok s2 r2 ∧
      s.getMappingIn geo w h = .ok s3 r3 ∧
      r2.start = r1.start + ((geo v).start - (geo x).start) ∧ r2.dim = (geo v).size ∧
      r1.start ≤ r2.start ∧ r2.start + r2.dim ≤ r1.start + r1.dim ∧ 0 ≤ r2.start ∧ r2.start + r2.dim ≤ c.size ∧
      (¬ meets geo v w → ∀ q, ¬ (r2.start ≤ q ∧ q < r2.start + r2.dim ∧ r3.start ≤ q ∧ q < r3.start + r3.dim)) := by
  have hz := (C22_disjoint geo hn s hr h c hl).2
  obtain ⟨m, hm⟩ := List.mem_iff_getElem?.1 hy
  have inside : ∀ a b, covers geo a b → (geo a).root = (geo b).root ∧ (geo a).start ≤ (geo b).start ∧
      (geo b).start + (geo b).size ≤ (geo a).start + (geo a).size := by
    intro a b hab
    have hb := hn b
    have a1 := hab ((geo b).root, (geo b).start) ⟨rfl, by simp, by simp only; omega⟩
    have a2 := hab ((geo b).root, (geo b).start + (geo b).size - 1) ⟨rfl, by simp only; omega, by simp only; omega⟩
    simp only [elements] at a1 a2
    exact ⟨a1.1, a1.2.1, by omega⟩
  obtain ⟨s1, e1, _⟩ := ((C24_query geo hn s hr h x c hl).1 (total geo (c.vars.take k)) ⟨k, x, hk, fun _ h => h, by omega⟩).1
  obtain ⟨s2, e2, _⟩ := ((C24_query geo hn s hr h v c hl).1 _ ⟨k, x, hk, hv, rfl⟩).1
  obtain ⟨s3, e3, _⟩ := ((C24_query geo hn s hr h w c hl).1 _ ⟨m, y, hm, hw, rfl⟩).1
  obtain ⟨t1, t2, t3⟩ := total_split geo c.vars k x hk
  obtain ⟨u1, u2, u3⟩ := total_split geo c.vars m y hm
  obtain ⟨i1, i2, i3⟩ := inside x v hv
  obtain ⟨j1, j2, j3⟩ := inside y w hw
  refine ⟨s1, s2, s3, _, _, _, e1, e2, e3, rfl, rfl, by simp only; omega, by simp only; omega, by simp only; omega,
    by simp only; omega, ?_⟩
  intro hnm q hq
  simp only at hq
  rcases Nat.lt_trichotomy k m with hkm | hkm | hkm
  · have := total_mono geo c.vars (k + 1) m hkm; omega
  · subst hkm
    rw [hk] at hm; cases hm
    refine hnm ⟨((geo v).root, q - total geo (c.vars.take k) + (geo x).start), ⟨rfl, ?_, ?_⟩, ⟨?_, ?_, ?_⟩⟩ <;> simp only
    · omega
    · omega
    · rw [← i1, ← j1]
    · omega
    · omega
  · have := total_mono geo c.vars (m + 1) k hkm; omega

/-! ## C25 -/

/-- `set` followed by `value` gives the vector back; every covered variable gets the segment of its mapping; what belongs to no
variable of the vector does not change. -/
theorem C25_set {V : Type} (hn : NonEmpty geo) (s : St) (hr : Reach geo s) (h : Nat) (c : Vec) (hl : Live s h c) (mem : Nat → Int → V)
    (val : List V) (hval : (val.length : Int) = c.size) :
    ∃ mem', c.set geo mem val = some mem' ∧ c.value geo mem' = some val ∧
      (∀ v p, mapping geo c.vars v p → valueOf geo mem' v = (val.drop p.toNat).take (geo v).size) ∧
      (∀ r k, (∀ x, x ∈ c.vars → ¬ elements geo x (r, k)) → mem' r k = mem r k) ∧
      (∀ v, (∀ x, x ∈ c.vars → ¬ meets geo x v) → valueOf geo mem' v = valueOf geo mem v) := by
  have hloc := (reach_inv geo hn s hr).loc h c hl.1 hl.2
  have hval' : (val.length : Int) = sumSizes geo c.vars := by rw [hval]; exact hloc.size
  obtain ⟨a, b⟩ := setLoop_spec geo c.vars hloc.disj mem val hval'
  refine ⟨setLoop geo mem c.vars val, by simp [Vec.set, hval], ?_, ?_, b, ?_⟩
  · simp only [Vec.value]
    rw [if_pos hloc.size.symm, flatMap_value geo c.vars _ val hval' a]
  · rintro v p ⟨k, x, hk, hc, rfl⟩
    have hv := hn v
    have a1 := hc ((geo v).root, (geo v).start) ⟨rfl, by simp, by simp only; omega⟩
    have a2 := hc ((geo v).root, (geo v).start + (geo v).size - 1) ⟨rfl, by simp only; omega, by simp only; omega⟩
    simp only [elements] at a1 a2
    obtain ⟨t1, t2, t3⟩ := total_split geo c.vars k x hk
    have hlen : total geo c.vars = val.length := by rw [total_eq, hval']
    apply List.ext_getElem?
    intro i
    by_cases hi : i < (geo v).size
    · have := a k x (geo v).root ((geo v).start + i) hk (hc _ ⟨rfl, by simp only; omega, by simp only; omega⟩)
      rw [List.getElem?_take_of_lt hi, List.getElem?_drop]
      have e : (total geo (c.vars.take k) + ((geo v).start - (geo x).start)).toNat + i =
          (before geo c.vars k + ((geo v).start + i - (geo x).start)).toNat := by
        have : before geo c.vars k = total geo (c.vars.take k) := (total_eq geo _).symm
        rw [this]; omega
      rw [e, this]
      simp [valueOf, hi]
    · rw [List.getElem?_eq_none (by simp [valueOf]; omega), List.getElem?_eq_none (by simp; omega)]
  · intro v hd
    unfold valueOf
    apply List.map_congr_left
    intro k hk
    refine b _ _ (fun x hx hxe => hd x hx ⟨_, hxe, rfl, by simp only; omega, ?_⟩)
    have := List.mem_range.1 hk
    simp only; omega

/-- A vector of a wrong size is rejected (assertion). -/
theorem C25_size {V : Type} (c : Vec) (mem : Nat → Int → V) (val : List V) (hval : (val.length : Int) ≠ c.size) :
    c.set geo mem val = none := by
  simp [Vec.set, hval]

/-- `value` is the concatenation of the values of the variables: the element at the place of `e` is the content of `e`. -/
theorem C25_value {V : Type} (hn : NonEmpty geo) (s : St) (hr : Reach geo s) (h : Nat) (c : Vec) (hl : Live s h c) (mem : Nat → Int → V) :
    ∃ val, c.value geo mem = some val ∧ (val.length : Int) = c.size ∧
      ∀ v p, mapping geo c.vars v p → valueOf geo mem v = (val.drop p.toNat).take (geo v).size := by
  have hloc := (reach_inv geo hn s hr).loc h c hl.1 hl.2
  have hlen : ∀ l : List Nat, ((l.flatMap (valueOf geo mem)).length : Int) = sumSizes geo l := by
    intro l
    induction l with
    | nil => rfl
    | cons y l ih => simp only [List.flatMap_cons, List.length_append, sumSizes]; rw [← ih]; simp [valueOf]
  refine ⟨c.vars.flatMap (valueOf geo mem), by simp only [Vec.value]; rw [if_pos hloc.size.symm], by rw [hlen, hloc.size], ?_⟩
  rintro v p ⟨k, x, hk, hc, rfl⟩
  have hv := hn v
  have a1 := hc ((geo v).root, (geo v).start) ⟨rfl, by simp, by simp only; omega⟩
  have a2 := hc ((geo v).root, (geo v).start + (geo v).size - 1) ⟨rfl, by simp only; omega, by simp only; omega⟩
  simp only [elements] at a1 a2
  obtain ⟨h1, _⟩ := split_at c.vars k x hk
  have hn0 := sumSizes_nonneg geo (c.vars.take k)
  have hl1 := hlen (c.vars.take k)
  have hfm : c.vars.flatMap (valueOf geo mem) = (c.vars.take k).flatMap (valueOf geo mem) ++
      (valueOf geo mem x ++ (c.vars.drop (k + 1)).flatMap (valueOf geo mem)) := by
    conv => lhs; rw [h1]
    rw [List.flatMap_append, List.flatMap_cons]
  rw [total_eq, hfm]
  have e : (sumSizes geo (c.vars.take k) + ((geo v).start - (geo x).start)).toNat =
      ((c.vars.take k).flatMap (valueOf geo mem)).length + ((geo v).start - (geo x).start).toNat := by omega
  rw [e]
  apply List.ext_getElem?
  intro i
  by_cases hi : i < (geo v).size
  · have hi2 : ((geo v).start - (geo x).start).toNat + i < (geo x).size := by omega
    rw [List.getElem?_take_of_lt hi, List.getElem?_drop, Nat.add_assoc, List.getElem?_append_right (by omega), Nat.add_sub_cancel_left,
      List.getElem?_append_left (by simp [valueOf]; omega)]
    have e2 : (geo x).start + (((geo v).start - (geo x).start).toNat + i : Nat) = (geo v).start + (i : Nat) := by omega
    simp only [valueOf, List.getElem?_map, List.getElem?_range hi, List.getElem?_range hi2, Option.map_some, a1.1, e2]
  · rw [List.getElem?_eq_none (by simp [valueOf]; omega), List.getElem?_eq_none]
    simp only [List.length_take]
    omega

/-- `setZero` -/
theorem C25_setZero {V : Type} (hn : NonEmpty geo) (s : St) (hr : Reach geo s) (h : Nat) (c : Vec) (hl : Live s h c)
    (mem : Nat → Int → V) (z : V) :
    c.value geo (c.setZero geo z mem) = some (List.replicate c.size.toNat z) ∧
      (∀ r k, (∀ x, x ∈ c.vars → ¬ elements geo x (r, k)) → c.setZero geo z mem r k = mem r k) := by
  have hloc := (reach_inv geo hn s hr).loc h c hl.1 hl.2
  have hs := sumSizes_nonneg geo c.vars
  obtain ⟨mem', h1, h2, _, h4, _⟩ := C25_set geo hn s hr h c hl mem (List.replicate c.size.toNat z) (by
    rw [List.length_replicate, hloc.size]; omega)
  have e : c.setZero geo z mem = mem' := by
    have : c.set geo mem (List.replicate c.size.toNat z) = some (setLoop geo mem c.vars (List.replicate c.size.toNat z)) := by
      unfold Vec.set; rw [if_pos (by rw [List.length_replicate, hloc.size]; omega)]
    rw [this] at h1
    cases h1
    unfold Vec.setZero
    rw [setZero_eq, hloc.size]
  rw [e]
  exact ⟨h2, h4⟩

/-! ## What does not hold -/

/-- Assigning a vector to itself empties it. -/
theorem C22_self_assign (s : St) (h : Nat) (c : Vec) (hl : Live s h c) :
    ∃ s', s.copyAssign geo h h = .ok s' () ∧ content s' h = some ([], 0) := by
  obtain ⟨s1, e1, ⟨c1, l1, v1, z1⟩, _⟩ := C22_clear s h c hl
  refine ⟨s1, by simp only [St.copyAssign, e1, l1.1, v1]; rfl, by rw [content_of s1 h c1 l1.1, v1, z1]⟩

/-- Variables for the examples: 1 and 3 overlap without containing each other, 0 contains 1. -/
def geo0 : Nat → Geo
  | 0 => ⟨0, 0, 5⟩
  | 1 => ⟨0, 1, 3⟩
  | 2 => ⟨1, 0, 2⟩
  | 3 => ⟨0, 3, 4⟩
  | 4 => ⟨0, 2, 1⟩
  | _ => ⟨2, 0, 1⟩

theorem geo0_nonEmpty : NonEmpty geo0 := by
  intro v
  unfold geo0
  split <;> decide

/-- State after a call -/
def after {α : Type} (o : Outcome St α) : St :=
  match o with
  | .ok s _ => s
  | .throw s => s
  | .ub => St.empty

/-- Vectors that were moved from all have the id -1, so the variables mix them up when the vectors are used again: here the vector
0 holds the variables 2 (size 2) and 0, and the mapping of 0 in it is 2, but after the addition of 0 to the vector 1, which was
also moved from, the query gives 0. -/
theorem C24_moved_from :
    let s0 := after (((St.empty.create 0).create 1).move 2 0)
    let s1 := after (s0.move 3 1)
    let s2 := after (s1.add geo0 0 2)
    let s3 := after (s2.add geo0 0 0)
    let s4 := after (s3.add geo0 1 0)
    content s4 0 = some ([2, 0], 7) ∧ mapping geo0 [2, 0] 0 2 ∧
    (∃ s', s3.getMappingIn geo0 0 0 = .ok s' ⟨2, 5⟩) ∧ (∃ s', s4.getMappingIn geo0 0 0 = .ok s' ⟨0, 5⟩) := by
  refine ⟨rfl, ⟨1, 0, rfl, fun _ h => h, rfl⟩, ⟨_, rfl⟩, ⟨_, rfl⟩⟩

/-- A vector that was moved from keeps its total size: used again, its total size is not the sum of the sizes. -/
theorem C22_moved_from_size :
    let s0 := after ((St.empty.create 0).add geo0 0 2)
    let s1 := after (s0.move 1 0)
    let s2 := after (s1.add geo0 0 0)
    content s1 0 = some ([], 2) ∧ content s2 0 = some ([0], 7) ∧ total geo0 [0] = 5 := by
  refine ⟨rfl, rfl, rfl⟩

/-- An empty variable can be added twice, so a vector can hold the same object twice. -/
theorem C22_empty_variable :
    let g : Nat → Geo := fun v => if v = 0 then ⟨0, 0, 0⟩ else ⟨1, 0, 2⟩
    let s0 := St.empty.create 0
    let s1 := after (s0.add g 0 1)
    let s2 := after (s1.add g 0 0)
    (∃ s3, s2.add g 0 0 = .ok s3 true ∧ content s3 0 = some ([1, 0, 0], 2)) := by
  exact ⟨_, rfl, rfl⟩

/-- `add` of a list is not atomic: the variables before the one that throws stay. -/
theorem C22_addList_not_atomic :
    let s0 := St.empty.create 0
    ∃ s1, s0.addList geo0 0 [2, 1, 3] = .throw s1 ∧ content s1 0 = some ([2, 1], 5) := by
  exact ⟨_, rfl, rfl⟩

/-! ## Non-vacuity -/

/-- A state with a vector of two variables, one of them a subvariable -/
def s0 : St := after ((after ((St.empty.create 0).add geo0 0 2)).add geo0 0 1)

/-- The same after a query -/
def s1 : St := after (s0.getMappingIn geo0 4 0)

/-- The same after the removal of the first variable -/
def s2 : St := after (s1.remove geo0 0 2)

theorem reach_s2 : Reach geo0 s0 ∧ Reach geo0 s1 ∧ Reach geo0 s2 := by
  have h0 : Reach geo0 s0 := by
    refine .tail (.tail (.tail .refl (.create 0 rfl)) (.add 0 2 ⟨0, 0, 0, []⟩ _ ⟨rfl, by decide⟩ (Or.inl ⟨true, rfl⟩)))
      (.add 0 1 ⟨0, 1, 2, [2]⟩ _ ⟨rfl, by decide⟩ (Or.inl ⟨true, rfl⟩))
  have h1 : Reach geo0 s1 := .tail h0 (.getMappingIn 0 4 ⟨0, 2, 5, [2, 1]⟩ _ ⟨rfl, by decide⟩ (Or.inl ⟨⟨3, 1⟩, rfl⟩))
  exact ⟨h0, h1, .tail h1 (.remove 0 2 ⟨0, 2, 5, [2, 1]⟩ _ ⟨rfl, by decide⟩ (Or.inl ⟨true, rfl⟩))⟩

example : Live s1 0 ⟨0, 2, 5, [2, 1]⟩ ∧ Live s2 0 ⟨0, 3, 3, [1]⟩ := ⟨⟨rfl, by decide⟩, ⟨rfl, by decide⟩⟩

/-- The cached mapping of the variable 4 is not used after the removal: 3 before, 1 after. -/
example : (∃ s, s1.getMappingIn geo0 4 0 = .ok s ⟨3, 1⟩) ∧ (∃ s, s2.getMappingIn geo0 4 0 = .ok s ⟨1, 1⟩) ∧
    s2.startIn 4 0 = some (3, 2) := ⟨⟨_, rfl⟩, ⟨_, rfl⟩, rfl⟩

/-- The hypotheses of the three cases of `C22_add`. -/
example : s1.add geo0 0 4 = .ok s1 false ∧ s1.add geo0 0 3 = .throw s1 ∧ (∃ s, s1.add geo0 0 5 = .ok s true) :=
  ⟨rfl, rfl, ⟨_, rfl⟩⟩

example : mapping geo0 [2, 1] 4 3 := by
  refine ⟨1, 1, rfl, ?_, rfl⟩
  rintro ⟨r, k⟩ ⟨h1, h2, h3⟩
  simp only [elements, geo0] at *
  omega

example : ∃ mem', (⟨0, 2, 5, [2, 1]⟩ : Vec).set geo0 (fun _ _ => (0 : Int)) [1, 2, 3, 4, 5] = some mem' ∧
    valueOf geo0 mem' 4 = [4] ∧ valueOf geo0 mem' 0 = [0, 3, 4, 5, 0] := ⟨_, rfl, rfl, rfl⟩

-- the theorems applied to the state `s1` (variables 2 and 1, mapping of 4 already asked for)
theorem live_s1 : Live s1 0 ⟨0, 2, 5, [2, 1]⟩ := ⟨rfl, by decide⟩

theorem covers_1_4 : covers geo0 1 4 := by
  rintro ⟨r, k⟩ ⟨h1, h2, h3⟩
  simp only [elements, geo0] at *
  omega

theorem mapping_4 : mapping geo0 [2, 1] 4 3 := ⟨1, 1, rfl, covers_1_4, rfl⟩

example : ¬ meets geo0 2 1 := (C22_disjoint geo0 geo0_nonEmpty s1 reach_s2.2.1 0 _ live_s1).1 0 1 2 1 rfl rfl (by decide)
example : s1.add geo0 0 4 = .ok s1 false := (C22_add geo0 geo0_nonEmpty s1 0 4 _ live_s1).1 ⟨1, by simp, covers_1_4⟩
example : s1.addAndGetIndex geo0 0 4 true = .ok s1 1 :=
  (C22_addAndGetIndex geo0 geo0_nonEmpty s1 reach_s2.2.1 0 4 true _ live_s1).2.2.1 1 1 rfl covers_1_4
    (fun h => by have := h (0, 1) (by simp [elements, geo0]); simp [elements, geo0] at this)
example : ∃ (k y : Nat) (s' : St), [2, 1][k]? = some y ∧ geo0 y = geo0 2 ∧ s1.remove geo0 0 2 = .ok s' true := by
  obtain ⟨k, y, s', h1, h2, h3, _⟩ := (C22_remove geo0 s1 0 2 _ live_s1).2 2 (by simp) rfl
  exact ⟨k, y, s', h1, h2, h3⟩
example : s1.removeAt geo0 0 2 = .throw s1 := (C22_removeAt geo0 s1 0 2 _ live_s1).1 (Or.inr (by decide))
example := C22_clear s1 0 _ live_s1
example : (⟨0, 2, 5, [2, 1]⟩ : Vec).contains geo0 4 = true :=
  (C22_contains geo0 geo0_nonEmpty ⟨0, 2, 5, [2, 1]⟩ 4).1.2 ⟨1, by simp, covers_1_4⟩
example : (⟨0, 2, 5, [2, 1]⟩ : Vec).indexOf geo0 1 = 1 :=
  (C22_indexOf geo0 geo0_nonEmpty s1 reach_s2.2.1 0 1 _ live_s1).1 1 1 rfl rfl
example : ∃ s', s1.copyCtor geo0 3 0 = .ok s' () ∧ content s' 3 = content s1 0 ∧ ∀ k, k ≠ 3 → content s' k = content s1 k :=
  (C22_copy geo0 geo0_nonEmpty s1 reach_s2.2.1 3 0 _ live_s1).1 rfl
example := C22_move s1 3 0 _ rfl (by decide)
example := C22_self_assign geo0 s1 0 _ live_s1
example : ∃ s', s1.getMappingIn geo0 4 0 = .ok s' ⟨3, 1⟩ ∧ s'.vecs = s1.vecs :=
  ((C24_query geo0 geo0_nonEmpty s1 reach_s2.2.1 0 4 _ live_s1).1 3 mapping_4).1
example := C23_tiling geo0 geo0_nonEmpty s1 reach_s2.2.1 0 _ live_s1
example := C23_inside geo0 geo0_nonEmpty s1 reach_s2.2.1 0 _ live_s1 4 2 1 1 rfl covers_1_4 2 (by simp) (fun _ h => h)
example : ∃ mem', (⟨0, 2, 5, [2, 1]⟩ : Vec).set geo0 (fun _ _ => (0 : Int)) [1, 2, 3, 4, 5] = some mem' ∧
    valueOf geo0 mem' 4 = [4] := by
  obtain ⟨m, h1, _, h3, _⟩ :=
    C25_set geo0 geo0_nonEmpty s1 reach_s2.2.1 0 _ live_s1 (fun _ _ => (0 : Int)) [1, 2, 3, 4, 5] rfl
  exact ⟨m, h1, h3 4 3 mapping_4⟩
example : (⟨0, 2, 5, [2, 1]⟩ : Vec).set geo0 (fun _ _ => (0 : Int)) [1, 2] = none := C25_size geo0 _ _ _ (by decide)
example := C25_value geo0 geo0_nonEmpty s1 reach_s2.2.1 0 _ live_s1 (fun r k => (r : Int) + k)
example := C25_setZero geo0 geo0_nonEmpty s1 reach_s2.2.1 0 _ live_s1 (fun r k => (r : Int) + k) 0
-- the variables of the model of variables: a variable of size 3 and a part of it
example : (geoOf C26.wsub 0).contains (geoOf C26.wsub 2) = true :=
  (C22_geometry 0 C26.wsub C26.reach_wsub 0 2 (by decide) (by decide)).1.1 (by decide)

end Verif.C22
