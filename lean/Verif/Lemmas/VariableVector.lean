import Verif.Model.VariableVector
import Verif.Lemmas.Variable
/-!
# Invariant of the vectors of variables

The property theorems are in `Verif/Properties/C22_VariableVector.lean`.
-/
set_option autoImplicit false

namespace Verif.VV
open Verif

/-- `e` is an element of the variable. -/
def Geo.has (g : Geo) (e : Nat × Int) : Prop := g.root = e.1 ∧ g.start ≤ e.2 ∧ e.2 < g.start + g.size

/-- No common element. -/
def Geo.disjoint (a b : Geo) : Prop := ∀ e, ¬ (a.has e ∧ b.has e)

theorem Geo.contains_iff (a b : Geo) (hb : 0 < b.size) : a.contains b = true ↔ ∀ e, b.has e → a.has e := by
  unfold Geo.contains Range.contains Range.containsInt Range.stop Geo.range Geo.has
  simp only [Bool.and_eq_true, decide_eq_true_eq]
  constructor
  · rintro ⟨h1, ⟨h2, h3⟩, h4⟩ e ⟨h5, h6, h7⟩
    exact ⟨by omega, by omega, by omega⟩
  · intro h
    have h1 := h (b.root, b.start) ⟨rfl, by simp, by simp; omega⟩
    have h2 := h (b.root, b.start + b.size - 1) ⟨rfl, by simp; omega, by simp; omega⟩
    simp only at h1 h2
    exact ⟨h1.1, ⟨h1.2.1, h1.2.2⟩, by omega⟩

theorem Geo.intersects_iff (a b : Geo) (ha : 0 < a.size) (hb : 0 < b.size) : a.intersects b = true ↔ ∃ e, a.has e ∧ b.has e := by
  unfold Geo.intersects Range.intersects Range.containsInt Range.stop Geo.range Geo.has
  simp only [Bool.and_eq_true, Bool.or_eq_true, decide_eq_true_eq]
  constructor
  · rintro ⟨h1, h2 | h2⟩
    · exact ⟨(b.root, b.start), ⟨h1, h2.1, h2.2⟩, rfl, by simp, by simp; omega⟩
    · exact ⟨(b.root, a.start), ⟨h1, by simp, by simp; omega⟩, rfl, by simp; omega, by simp; omega⟩
  · rintro ⟨e, ⟨h1, h2, h3⟩, h4, h5, h6⟩
    refine ⟨by omega, ?_⟩
    omega

theorem Geo.eqv_iff (a b : Geo) : a.eqv b = true ↔ a = b := by
  obtain ⟨r, s, n⟩ := a
  obtain ⟨r', s', n'⟩ := b
  simp [Geo.eqv, and_assoc]

section
variable (geo : Nat → Geo)

/-- Sum of the sizes of the first variables -/
def before (l : List Nat) (k : Nat) : Int := sumSizes geo (l.take k)

/-- The variable `v` is contained in a variable of `l`, and `p` is the place of its first element in the concatenation of `l`. -/
def IsPlace (l : List Nat) (v : Nat) (p : Int) : Prop :=
  ∃ k x, l[k]? = some x ∧ (∀ e, (geo v).has e → (geo x).has e) ∧ p = before geo l k + ((geo v).start - (geo x).start)

/-- Pairwise disjoint -/
def PDisj (l : List Nat) : Prop := ∀ (i j x y : Nat), l[i]? = some x → l[j]? = some y → i ≠ j → (geo x).disjoint (geo y)

theorem pdisj_inj (hn : ∀ v, 0 < (geo v).size) (l : List Nat) (h : PDisj geo l) (i j v x y : Nat) (hi : l[i]? = some x)
    (hj : l[j]? = some y) (hx : ∀ e, (geo v).has e → (geo x).has e) (hy : ∀ e, (geo v).has e → (geo y).has e) : i = j := by
  by_cases hij : i = j
  · exact hij
  · exfalso
    have hv : (geo v).has ((geo v).root, (geo v).start) := ⟨rfl, by simp, by have := hn v; simp only; omega⟩
    exact h i j x y hi hj hij _ ⟨hx _ hv, hy _ hv⟩

theorem place_unique (hn : ∀ v, 0 < (geo v).size) (l : List Nat) (h : PDisj geo l) (v : Nat) (p q : Int)
    (hp : IsPlace geo l v p) (hq : IsPlace geo l v q) : p = q := by
  obtain ⟨i, x, h1, h2, rfl⟩ := hp
  obtain ⟨j, y, h3, h4, rfl⟩ := hq
  have := pdisj_inj geo hn l h i j v x y h1 h3 h2 h4
  subst this
  rw [h1] at h3; cases h3; rfl

theorem place_mem (l : List Nat) (k v : Nat) (h : l[k]? = some v) : IsPlace geo l v (before geo l k) :=
  ⟨k, v, h, fun _ h => h, by omega⟩

theorem sumSizes_append (l m : List Nat) : sumSizes geo (l ++ m) = sumSizes geo l + sumSizes geo m := by
  induction l with
  | nil => simp [sumSizes]
  | cons x l ih => simp [sumSizes, ih]; omega

theorem before_append (l m : List Nat) (k : Nat) (h : k ≤ l.length) : before geo (l ++ m) k = before geo l k := by
  unfold before
  rw [List.take_append_of_le_length h]

/-- What the cache is for one vector. -/
structure Loc (startIn : Nat → Int → Option (Int × Int)) (c : Vec) : Prop where
  disj : PDisj geo c.vars
  size : c.size = sumSizes geo c.vars
  cached : ∀ v a, startIn v c.id = some (a, c.stamp) → IsPlace geo c.vars v a
  mine : ∀ (k x : Nat), c.vars[k]? = some x → ∃ t, startIn x c.id = some (before geo c.vars k, t)
  direct : ∀ v a, startIn v c.id = some (a, -1) → v ∈ c.vars

/-- Invariant -/
structure Inv (s : St) : Prop where
  id : ∀ h c, s.vecs h = some c → c.id ≠ -1 → 0 ≤ c.id ∧ c.id < s.nextId ∧ 0 ≤ c.stamp ∧ c.stamp < s.counter
  inj : ∀ h h' c c', s.vecs h = some c → s.vecs h' = some c' → c.id ≠ -1 → c.id = c'.id → h = h'
  dead : ∀ h c, s.vecs h = some c → c.id = -1 → c.vars = []
  entry : ∀ v i a k, s.startIn v i = some (a, k) → i < s.nextId ∧ k < s.counter
  loc : ∀ h c, s.vecs h = some c → c.id ≠ -1 → Loc geo s.startIn c
  pos : 0 ≤ s.nextId ∧ 0 ≤ s.counter

theorem loc_congr (f g : Nat → Int → Option (Int × Int)) (c : Vec) (h : ∀ v, f v c.id = g v c.id) (hl : Loc geo f c) : Loc geo g c :=
  ⟨hl.disj, hl.size, fun v a e => hl.cached v a (by rw [h]; exact e), fun k x e => by rw [← h]; exact hl.mine k x e,
    fun v a e => hl.direct v a (by rw [h]; exact e)⟩

theorem inv_empty : Inv geo St.empty := by
  constructor <;> simp [St.empty]

/-- Change of one vector and of the entries for its id. -/
theorem inv_update (s s' : St) (h : Nat) (c c' : Vec) (hi : Inv geo s) (hc : s.vecs h = some c) (hid : c.id ≠ -1)
    (hv : ∀ k, s'.vecs k = if k = h then some c' else s.vecs k) (hid' : c'.id = c.id) (hst : 0 ≤ c'.stamp ∧ c'.stamp < s'.counter)
    (hf : ∀ v i, i ≠ c.id → s'.startIn v i = s.startIn v i) (hcnt : s.counter ≤ s'.counter) (hnext : s'.nextId = s.nextId)
    (hent : ∀ v a k, s'.startIn v c.id = some (a, k) → k < s'.counter) (hl : Loc geo s'.startIn c') : Inv geo s' := by
  obtain ⟨i1, i2, i3, i4⟩ := hi.id h c hc hid
  constructor
  · intro k d hd hdid
    rw [hv] at hd
    by_cases hk : k = h
    · simp only [hk, if_true, Option.some.injEq] at hd
      subst hd
      exact ⟨by omega, by omega, hst⟩
    · simp only [hk, if_false] at hd
      obtain ⟨a, b, c2, d2⟩ := hi.id k d hd hdid
      exact ⟨by omega, by omega, c2, by omega⟩
  · intro k k' d d' hd hd' hdid he
    rw [hv] at hd hd'
    by_cases hk : k = h
    · by_cases hk' : k' = h
      · rw [hk, hk']
      · simp only [hk, if_true, Option.some.injEq] at hd
        simp only [hk', if_false] at hd'
        subst hd
        rw [hk]
        exact hi.inj h k' c d' hc hd' hid (by rw [← hid', he])
    · by_cases hk' : k' = h
      · simp only [hk', if_true, Option.some.injEq] at hd'
        simp only [hk, if_false] at hd
        subst hd'
        rw [hk']
        exact hi.inj k h d c hd hc hdid (by rw [he, hid'])
      · simp only [hk, if_false] at hd
        simp only [hk', if_false] at hd'
        exact hi.inj k k' d d' hd hd' hdid he
  · intro k d hd hdid
    rw [hv] at hd
    by_cases hk : k = h
    · simp only [hk, if_true, Option.some.injEq] at hd
      subst hd
      rw [hid'] at hdid
      exact absurd hdid hid
    · simp only [hk, if_false] at hd
      exact hi.dead k d hd hdid
  · intro v i a k he
    by_cases hii : i = c.id
    · subst hii; exact ⟨by omega, hent v a k he⟩
    · rw [hf v i hii] at he
      obtain ⟨a1, a2⟩ := hi.entry v i a k he
      exact ⟨by omega, by omega⟩
  · intro k d hd hdid
    rw [hv] at hd
    by_cases hk : k = h
    · simp only [hk, if_true, Option.some.injEq] at hd
      subst hd; exact hl
    · simp only [hk, if_false] at hd
      have hne : d.id ≠ c.id := fun e => hk (hi.inj k h d c hd hc hdid e)
      exact loc_congr geo _ _ d (fun v => (hf v d.id hne).symm) (hi.loc k d hd hdid)
  · have := hi.pos; omega

/-! ## The operations -/

theorem inv_addRaw (hn : ∀ v, 0 < (geo v).size) (s : St) (h : Nat) (c : Vec) (v : Nat) (hi : Inv geo s) (hc : s.vecs h = some c)
    (hid : c.id ≠ -1) (hd : ∀ x, x ∈ c.vars → (geo x).disjoint (geo v)) : Inv geo (s.addRaw geo h c v) := by
  obtain ⟨i1, i2, i3, i4⟩ := hi.id h c hc hid
  have hl := hi.loc h c hc hid
  have hpos := hi.pos
  refine inv_update geo s _ h c ⟨c.id, s.counter, c.size + (geo v).size, c.vars ++ [v]⟩ hi hc hid ?_ rfl ?_ ?_ ?_ rfl ?_ ?_
  · intro k; rfl
  · simp only [St.addRaw, St.stampVec, St.setVec, St.setStart]; omega
  · intro u i hne
    simp only [St.addRaw, St.stampVec, St.setVec, St.setStart]
    rw [if_neg (fun e => hne e.2)]
  · simp only [St.addRaw, St.stampVec, St.setVec, St.setStart]; omega
  · intro u a k he
    simp only [St.addRaw, St.stampVec, St.setVec, St.setStart] at he ⊢
    by_cases hu : u = v
    · simp only [hu, true_and, if_true, Option.some.injEq, Prod.mk.injEq] at he
      omega
    · rw [if_neg (fun e => hu e.1)] at he
      have := (hi.entry u c.id a k he).2
      omega
  · have get : ∀ k x : Nat, (c.vars ++ [v])[k]? = some x → (k < c.vars.length ∧ c.vars[k]? = some x) ∨ (k = c.vars.length ∧ x = v) := by
      intro k x hk
      rw [Var.getElem?_append_one] at hk
      by_cases hkl : k = c.vars.length
      · simp only [hkl, if_true, Option.some.injEq] at hk; exact Or.inr ⟨hkl, hk.symm⟩
      · simp only [hkl, if_false] at hk
        exact Or.inl ⟨(List.getElem?_eq_some_iff.1 hk).1, hk⟩
    constructor
    · intro i j x y hx hy hij
      rcases get i x hx with ⟨hi1, hx1⟩ | ⟨hi1, rfl⟩
      · rcases get j y hy with ⟨hj1, hy1⟩ | ⟨hj1, rfl⟩
        · exact hl.disj i j x y hx1 hy1 hij
        · exact hd x (List.mem_of_getElem? hx1)
      · rcases get j y hy with ⟨hj1, hy1⟩ | ⟨hj1, rfl⟩
        · intro e he
          exact hd y (List.mem_of_getElem? hy1) e ⟨he.2, he.1⟩
        · omega
    · simp only [sumSizes_append, hl.size, sumSizes]; omega
    · intro u a he
      exfalso
      simp only [St.addRaw, St.stampVec, St.setVec, St.setStart] at he
      by_cases hu : u = v
      · simp only [hu, true_and, if_true, Option.some.injEq, Prod.mk.injEq] at he
        omega
      · rw [if_neg (fun e => hu e.1)] at he
        have := (hi.entry u c.id a _ he).2
        omega
    · intro k x hk
      simp only [St.addRaw, St.stampVec, St.setVec, St.setStart]
      rcases get k x hk with ⟨hk1, hx1⟩ | ⟨hk1, rfl⟩
      · have hxv : x ≠ v := by
          intro e; subst e
          exact hd x (List.mem_of_getElem? hx1) ((geo x).root, (geo x).start)
            ⟨⟨rfl, by simp, by have := hn x; simp only; omega⟩, ⟨rfl, by simp, by have := hn x; simp only; omega⟩⟩
        rw [if_neg (fun e => hxv e.1), before_append geo _ _ _ (Nat.le_of_lt hk1)]
        exact hl.mine k x hx1
      · rw [if_pos (by simp)]
        refine ⟨-1, ?_⟩
        rw [hk1, before_append geo _ _ _ (Nat.le_refl _)]
        simp [before, hl.size]
    · intro u a he
      simp only [St.addRaw, St.stampVec, St.setVec, St.setStart] at he
      by_cases hu : u = v
      · simp [hu]
      · rw [if_neg (fun e => hu e.1)] at he
        exact List.mem_append_left _ (hl.direct u a he)

theorem decrement_vecs (id si : Int) (l : List Nat) (s : St) : (s.decrement id si l).vecs = s.vecs ∧
    (s.decrement id si l).counter = s.counter ∧ (s.decrement id si l).nextId = s.nextId := by
  induction l generalizing s with
  | nil => exact ⟨rfl, rfl, rfl⟩
  | cons x l ih => exact ih _

theorem decrement_startIn (id si : Int) (l : List Nat) (hnd : l.Nodup) (s : St) (u : Nat) (i : Int) :
    (s.decrement id si l).startIn u i = if i = id ∧ u ∈ l then
      some (((s.startIn u i).getD (0, 0)).1 - si, ((s.startIn u i).getD (0, 0)).2) else s.startIn u i := by
  induction l generalizing s with
  | nil => simp [St.decrement]
  | cons x l ih =>
    rw [List.nodup_cons] at hnd
    rw [St.decrement, ih hnd.2]
    by_cases hii : i = id
    · subst hii
      by_cases hux : u = x
      · subst hux
        simp [St.setStart, hnd.1]
      · simp [St.setStart, hux]
    · simp [St.setStart, hii]

theorem eraseAll_vecs (id : Int) (l : List Nat) (s : St) : (s.eraseAll id l).vecs = s.vecs ∧
    (s.eraseAll id l).counter = s.counter ∧ (s.eraseAll id l).nextId = s.nextId := by
  induction l generalizing s with
  | nil => exact ⟨rfl, rfl, rfl⟩
  | cons x l ih => exact ih _

theorem eraseAll_startIn (id : Int) (l : List Nat) (s : St) (u : Nat) (i : Int) :
    (s.eraseAll id l).startIn u i = if i = id ∧ u ∈ l then none else s.startIn u i := by
  induction l generalizing s with
  | nil => simp [St.eraseAll]
  | cons x l ih =>
    rw [St.eraseAll, ih]
    by_cases hii : i = id
    · subst hii
      by_cases hux : u = x
      · subst hux; simp [St.setStart]
      · simp [St.setStart, hux]
    · simp [St.setStart, hii]

theorem nodup_of_pdisj (hn : ∀ v, 0 < (geo v).size) (l : List Nat) (h : PDisj geo l) : l.Nodup := by
  unfold List.Nodup
  rw [List.pairwise_iff_getElem]
  intro i j hi hj hij he
  have e1 := List.getElem?_eq_getElem hj
  have e2 : l[i]? = some l[j] := by rw [← he]; exact List.getElem?_eq_getElem hi
  exact absurd (pdisj_inj geo hn l h i j l[j] l[j] l[j] e2 e1 (fun _ h => h) (fun _ h => h)) (by omega)

theorem nodup_get (l : List Nat) (h : l.Nodup) (i j x : Nat) (hi : l[i]? = some x) (hj : l[j]? = some x) : i = j := by
  unfold List.Nodup at h
  rw [List.pairwise_iff_getElem] at h
  obtain ⟨h1, h2⟩ := List.getElem?_eq_some_iff.1 hi
  obtain ⟨h3, h4⟩ := List.getElem?_eq_some_iff.1 hj
  rcases Nat.lt_trichotomy i j with hij | hij | hij
  · exact absurd (h2.trans h4.symm) (h i j h1 h3 hij)
  · exact hij
  · exact absurd (h4.trans h2.symm) (h j i h3 h1 hij)

theorem split_at (l : List Nat) (k v : Nat) (h : l[k]? = some v) : l = l.take k ++ v :: l.drop (k + 1) ∧ (l.take k).length = k := by
  obtain ⟨h1, h2⟩ := List.getElem?_eq_some_iff.1 h
  refine ⟨?_, by simp; omega⟩
  rw [← h2, List.getElem_cons_drop, List.take_append_drop]

theorem before_ge (A B : List Nat) (m : Nat) : before geo (A ++ B) (A.length + m) = sumSizes geo A + before geo B m := by
  unfold before
  rw [List.take_length_add_append, sumSizes_append]

theorem inv_removeRaw (hn : ∀ v, 0 < (geo v).size) (s : St) (h : Nat) (c : Vec) (k v : Nat) (hi : Inv geo s)
    (hc : s.vecs h = some c) (hid : c.id ≠ -1) (hk : c.vars[k]? = some v) : Inv geo (s.removeRaw geo h c k v) := by
  obtain ⟨i1, i2, i3, i4⟩ := hi.id h c hc hid
  have hl := hi.loc h c hc hid
  have hnd := nodup_of_pdisj geo hn c.vars hl.disj
  have hkl : k < c.vars.length := (List.getElem?_eq_some_iff.1 hk).1
  have hnd' : (c.vars.drop (k + 1)).Nodup := hnd.sublist (List.drop_sublist _ _)
  obtain ⟨dv, dc, dn⟩ := decrement_vecs c.id (geo v).size (c.vars.drop (k + 1)) s
  have st : ∀ u i, (s.removeRaw geo h c k v).startIn u i = if i = c.id ∧ u = v then none else
      if i = c.id ∧ u ∈ c.vars.drop (k + 1) then
        some (((s.startIn u i).getD (0, 0)).1 - (geo v).size, ((s.startIn u i).getD (0, 0)).2) else s.startIn u i := by
    intro u i
    simp only [St.removeRaw, St.stampVec, St.setVec, St.setStart]
    rw [decrement_startIn _ _ _ hnd']
    by_cases h1 : i = c.id ∧ u = v
    · rw [if_pos h1, if_pos ⟨h1.2, h1.1⟩]
    · rw [if_neg h1, if_neg (fun e => h1 ⟨e.2, e.1⟩)]
  have cnt : (s.removeRaw geo h c k v).counter = s.counter + 1 := by
    simp only [St.removeRaw, St.stampVec, St.setVec, St.setStart, dc]
  -- an entry for this vector comes from one with the same stamp
  have old : ∀ u a t, (s.removeRaw geo h c k v).startIn u c.id = some (a, t) → u ≠ v ∧ ((∃ a', s.startIn u c.id = some (a', t))) := by
    intro u a t he
    rw [st] at he
    by_cases huv : u = v
    · simp [huv] at he
    · refine ⟨huv, ?_⟩
      rw [if_neg (fun e => huv e.2)] at he
      by_cases hm : u ∈ c.vars.drop (k + 1)
      · rw [if_pos ⟨rfl, hm⟩] at he
        obtain ⟨j, hj⟩ := List.mem_iff_getElem?.1 hm
        rw [List.getElem?_drop] at hj
        obtain ⟨t', ht⟩ := hl.mine _ _ hj
        rw [ht] at he ⊢
        simp at he
        exact ⟨_, by rw [← he.2]⟩
      · rw [if_neg (fun e => hm e.2)] at he
        exact ⟨a, he⟩
  refine inv_update geo s _ h c ⟨c.id, s.counter, c.size - (geo v).size, c.vars.eraseIdx k⟩ hi hc hid ?_ rfl ?_ ?_ ?_ ?_ ?_ ?_
  · intro j
    simp only [St.removeRaw, St.stampVec, St.setVec, St.setStart, dv, dc]
  · rw [cnt]; have := hi.pos; simp only; omega
  · intro u i hne
    rw [st, if_neg (fun e => hne e.1), if_neg (fun e => hne e.1)]
  · rw [cnt]; omega
  · simp only [St.removeRaw, St.stampVec, St.setVec, St.setStart, dn]
  · intro u a t he
    obtain ⟨_, a', h1⟩ := old u a t he
    have := (hi.entry u c.id a' t h1).2
    rw [cnt]; omega
  · have get : ∀ j x : Nat, (c.vars.eraseIdx k)[j]? = some x →
        (j < k ∧ c.vars[j]? = some x) ∨ (k ≤ j ∧ c.vars[j + 1]? = some x) := by
      intro j x hj
      rw [List.getElem?_eraseIdx] at hj
      by_cases hjk : j < k
      · simp only [hjk, if_true] at hj; exact Or.inl ⟨hjk, hj⟩
      · simp only [hjk, if_false] at hj; exact Or.inr ⟨by omega, hj⟩
    obtain ⟨hsplit, hlen⟩ := split_at c.vars k v hk
    have heras : c.vars.eraseIdx k = c.vars.take k ++ c.vars.drop (k + 1) := List.eraseIdx_eq_take_drop_succ _ _
    have bef1 : ∀ j, j ≤ k → before geo (c.vars.eraseIdx k) j = before geo c.vars j := by
      intro j hj
      rw [heras, before_append geo _ _ _ (by omega)]
      have := before_append geo (c.vars.take k) (v :: c.vars.drop (k + 1)) j (by omega)
      rw [← hsplit] at this
      exact this.symm
    have bef2 : ∀ j, k ≤ j → before geo (c.vars.eraseIdx k) j = before geo c.vars (j + 1) - (geo v).size := by
      intro j hj
      have e1 := before_ge geo (c.vars.take k) (c.vars.drop (k + 1)) (j - k)
      have e2 := before_ge geo (c.vars.take k) (v :: c.vars.drop (k + 1)) (j - k + 1)
      rw [← hsplit, hlen] at e2
      rw [← heras, hlen] at e1
      have c1 : k + (j - k) = j := by omega
      have c2 : k + (j - k + 1) = j + 1 := by omega
      rw [c1] at e1
      rw [c2] at e2
      rw [e1, e2]
      simp only [before, List.take_succ_cons, sumSizes]
      omega
    constructor
    · intro i j x y hx hy hij
      rcases get i x hx with ⟨a1, a2⟩ | ⟨a1, a2⟩ <;> rcases get j y hy with ⟨b1, b2⟩ | ⟨b1, b2⟩
      · exact hl.disj _ _ x y a2 b2 hij
      · exact hl.disj _ _ x y a2 b2 (by omega)
      · exact hl.disj _ _ x y a2 b2 (by omega)
      · exact hl.disj _ _ x y a2 b2 (by omega)
    · have := bef2 (c.vars.length - 1) (by omega)
      unfold before at this
      rw [List.take_of_length_le (by rw [List.length_eraseIdx]; simp [hkl]), List.take_of_length_le (by omega)] at this
      simp only [this, hl.size]
    · intro u a he
      exfalso
      obtain ⟨_, a', h1⟩ := old u a _ he
      have := (hi.entry u c.id a' _ h1).2
      simp only at this; omega
    · intro j x hj
      have nx : ∀ i, c.vars[i]? = some x → i ≠ k → x ≠ v := by
        intro i hi' hik e
        subst e
        exact hik (nodup_get _ hnd i k x hi' hk)
      rw [st]
      rcases get j x hj with ⟨a1, a2⟩ | ⟨a1, a2⟩
      · rw [if_neg (fun e => nx j a2 (by omega) e.2), if_neg, bef1 j (by omega)]
        · exact hl.mine j x a2
        · rintro ⟨_, hm⟩
          obtain ⟨i, hi'⟩ := List.mem_iff_getElem?.1 hm
          rw [List.getElem?_drop] at hi'
          have := nodup_get _ hnd j (k + 1 + i) x a2 hi'
          omega
      · rw [if_neg (fun e => nx (j + 1) a2 (by omega) e.2), if_pos, bef2 j a1]
        · obtain ⟨t, ht⟩ := hl.mine (j + 1) x a2
          rw [ht]
          exact ⟨t, rfl⟩
        · refine ⟨rfl, List.mem_iff_getElem?.2 ⟨j - k, ?_⟩⟩
          rw [List.getElem?_drop]
          have : k + 1 + (j - k) = j + 1 := by omega
          rw [this, a2]
    · intro u a he
      obtain ⟨huv, a', h1⟩ := old u a _ he
      obtain ⟨j, hj⟩ := List.mem_iff_getElem?.1 (hl.direct u a' h1)
      have hjk : j ≠ k := by
        intro e; subst e; rw [hk] at hj; cases hj; exact huv rfl
      rcases Nat.lt_or_gt_of_ne hjk with h2 | h2
      · exact List.mem_iff_getElem?.2 ⟨j, by rw [List.getElem?_eraseIdx]; simp [h2, hj]⟩
      · refine List.mem_iff_getElem?.2 ⟨j - 1, ?_⟩
        rw [List.getElem?_eraseIdx]
        have : ¬ j - 1 < k := by omega
        have e : j - 1 + 1 = j := by omega
        simp [this, e, hj]

theorem inv_clear (s s' : St) (h : Nat) (c : Vec) (hi : Inv geo s) (hc : s.vecs h = some c) (hid : c.id ≠ -1)
    (hs : s.clear h = .ok s' ()) : Inv geo s' ∧ s'.vecs h = some ⟨c.id, s.counter, 0, []⟩ ∧
      (∀ k, k ≠ h → s'.vecs k = s.vecs k) := by
  have hl := hi.loc h c hc hid
  obtain ⟨dv, dc, dn⟩ := eraseAll_vecs c.id c.vars s
  simp only [St.clear, hc] at hs
  cases hs
  have st : ∀ u, ((s.eraseAll c.id c.vars).stampVec h ⟨c.id, c.stamp, 0, []⟩).startIn u c.id =
      if u ∈ c.vars then none else s.startIn u c.id := by
    intro u
    simp only [St.stampVec, St.setVec]
    rw [eraseAll_startIn]; simp
  refine ⟨?_, ?_, ?_⟩
  · refine inv_update geo s _ h c ⟨c.id, s.counter, 0, []⟩ hi hc hid ?_ rfl ?_ ?_ ?_ ?_ ?_ ?_
    · intro j; simp only [St.stampVec, St.setVec, dv, dc]
    · simp only [St.stampVec, St.setVec, dc]; have := hi.pos; omega
    · intro u i hne
      simp only [St.stampVec, St.setVec]
      rw [eraseAll_startIn, if_neg (fun e => hne e.1)]
    · simp only [St.stampVec, St.setVec, dc]; omega
    · simp only [St.stampVec, St.setVec, dn]
    · intro u a t he
      rw [st] at he
      split at he
      · cases he
      · have := (hi.entry u c.id a t he).2
        simp only [St.stampVec, St.setVec, dc]; omega
    · constructor
      · intro i j x y hx; simp at hx
      · rfl
      · intro u a he
        exfalso
        simp only at he
        rw [st] at he
        split at he
        · cases he
        · have := (hi.entry u c.id a _ he).2; omega
      · intro k x hk; simp at hk
      · intro u a he
        exfalso
        simp only at he
        rw [st] at he
        split at he
        · cases he
        · rename_i hm
          exact hm (hl.direct u a he)
  · simp only [St.stampVec, St.setVec, dc, if_true]
  · intro k hk; simp only [St.stampVec, St.setVec, dv, hk, if_false]

theorem inv_create (s : St) (h : Nat) (hi : Inv geo s) : Inv geo (s.create h) ∧
    (s.create h).vecs h = some ⟨s.nextId, s.counter, 0, []⟩ ∧ (∀ k, k ≠ h → (s.create h).vecs k = s.vecs k) := by
  have hp := hi.pos
  have hv : ∀ k, (s.create h).vecs k = if k = h then some ⟨s.nextId, s.counter, 0, []⟩ else s.vecs k := by
    intro k; rfl
  refine ⟨?_, by rw [hv]; simp, fun k hk => by rw [hv]; simp [hk]⟩
  have hfresh : ∀ u, s.startIn u s.nextId = none := by
    intro u
    cases he : s.startIn u s.nextId with
    | none => rfl
    | some p => have := (hi.entry u s.nextId p.1 p.2 he).1; omega
  constructor
  · intro k d hd hdid
    rw [hv] at hd
    simp only [St.create, St.stampVec, St.setVec]
    by_cases hk : k = h
    · simp only [hk, if_true, Option.some.injEq] at hd; subst hd; simp only; omega
    · simp only [hk, if_false] at hd
      have := hi.id k d hd hdid; omega
  · intro k k' d d' hd hd' hdid he
    rw [hv] at hd hd'
    by_cases hk : k = h
    · by_cases hk' : k' = h
      · rw [hk, hk']
      · simp only [hk, if_true, Option.some.injEq] at hd
        simp only [hk', if_false] at hd'
        subst hd
        simp only at he hdid
        have := (hi.id k' d' hd' (by rw [← he]; omega)).2.1; omega
    · by_cases hk' : k' = h
      · simp only [hk', if_true, Option.some.injEq] at hd'
        simp only [hk, if_false] at hd
        subst hd'
        simp only at he
        have := (hi.id k d hd hdid).2.1; omega
      · simp only [hk, if_false] at hd
        simp only [hk', if_false] at hd'
        exact hi.inj k k' d d' hd hd' hdid he
  · intro k d hd hdid
    rw [hv] at hd
    by_cases hk : k = h
    · simp only [hk, if_true, Option.some.injEq] at hd; subst hd; rfl
    · simp only [hk, if_false] at hd; exact hi.dead k d hd hdid
  · intro v i a k he
    have := hi.entry v i a k he
    simp only [St.create, St.stampVec, St.setVec]
    omega
  · intro k d hd hdid
    rw [hv] at hd
    by_cases hk : k = h
    · simp only [hk, if_true, Option.some.injEq] at hd
      subst hd
      have hst : ∀ u, (s.create h).startIn u s.nextId = none := hfresh
      constructor
      · intro i j x y hx; simp at hx
      · rfl
      · intro v a he; simp only at he; rw [hst] at he; cases he
      · intro k x hk; simp at hk
      · intro v a he; simp only at he; rw [hst] at he; cases he
    · simp only [hk, if_false] at hd
      exact hi.loc k d hd hdid
  · simp only [St.create, St.stampVec, St.setVec]; omega

theorem inv_drop (s : St) (h : Nat) (hi : Inv geo s) : Inv geo (s.setVec h none) := by
  have old : ∀ k d, (s.setVec h none).vecs k = some d → s.vecs k = some d := by
    intro k d hd
    simp only [St.setVec] at hd
    by_cases hk : k = h
    · simp [hk] at hd
    · simpa [hk] using hd
  exact ⟨fun k d hd => hi.id k d (old k d hd), fun k k' d d' hd hd' => hi.inj k k' d d' (old k d hd) (old k' d' hd'),
    fun k d hd => hi.dead k d (old k d hd), hi.entry, fun k d hd => hi.loc k d (old k d hd), hi.pos⟩

/-- Stamping an empty vector without id (moved from). -/
theorem inv_deadStamp (s : St) (h : Nat) (c : Vec) (hi : Inv geo s) (hid : c.id = -1) (hv : c.vars = []) : Inv geo (s.stampVec h c) := by
  have old : ∀ k d, (s.stampVec h c).vecs k = some d → (k = h ∧ d.id = -1 ∧ d.vars = []) ∨ (k ≠ h ∧ s.vecs k = some d) := by
    intro k d hd
    simp only [St.stampVec, St.setVec] at hd
    by_cases hk : k = h
    · simp only [hk, if_true, Option.some.injEq] at hd; subst hd; exact Or.inl ⟨hk, hid, hv⟩
    · simp only [hk, if_false] at hd; exact Or.inr ⟨hk, hd⟩
  constructor
  · intro k d hd hne
    rcases old k d hd with ⟨_, e, _⟩ | ⟨_, e⟩
    · exact absurd e hne
    · have := hi.id k d e hne
      simp only [St.stampVec, St.setVec]; omega
  · intro k k' d d' hd hd' hne he
    rcases old k d hd with ⟨_, e, _⟩ | ⟨_, e⟩
    · exact absurd e hne
    · rcases old k' d' hd' with ⟨_, e', _⟩ | ⟨_, e'⟩
      · rw [e'] at he; exact absurd he hne
      · exact hi.inj k k' d d' e e' hne he
  · intro k d hd hid'
    rcases old k d hd with ⟨_, _, e⟩ | ⟨_, e⟩
    · exact e
    · exact hi.dead k d e hid'
  · intro v i a k he
    have := hi.entry v i a k he
    simp only [St.stampVec, St.setVec]; omega
  · intro k d hd hne
    rcases old k d hd with ⟨_, e, _⟩ | ⟨_, e⟩
    · exact absurd e hne
    · exact hi.loc k d e hne
  · have := hi.pos
    simp only [St.stampVec, St.setVec]; omega

theorem inv_move (s s' : St) (h h' : Nat) (hne : h ≠ h') (hi : Inv geo s) (hs : s.move h h' = .ok s' ()) : Inv geo s' := by
  unfold St.move at hs
  cases hc : s.vecs h' with
  | none => simp [hc] at hs
  | some c =>
    simp only [hc] at hs
    cases hs
    have old : ∀ k d, ((s.setVec h' (some c.movedFrom)).setVec h (some c)).vecs k = some d →
        (k = h ∧ d = c) ∨ (k = h' ∧ d = c.movedFrom) ∨ (k ≠ h ∧ k ≠ h' ∧ s.vecs k = some d) := by
      intro k d hd
      simp only [St.setVec] at hd
      by_cases hk : k = h
      · simp only [hk, if_true, Option.some.injEq] at hd; exact Or.inl ⟨hk, hd.symm⟩
      · simp only [hk, if_false] at hd
        by_cases hk' : k = h'
        · simp only [hk', if_true, Option.some.injEq] at hd; exact Or.inr (Or.inl ⟨hk', hd.symm⟩)
        · simp only [hk', if_false] at hd; exact Or.inr (Or.inr ⟨hk, hk', hd⟩)
    have mid : c.movedFrom.id = -1 := rfl
    constructor
    · intro k d hd hdid
      rcases old k d hd with ⟨_, rfl⟩ | ⟨_, rfl⟩ | ⟨_, _, e⟩
      · exact hi.id h' _ hc hdid
      · exact absurd mid hdid
      · exact hi.id k d e hdid
    · intro k k' d d' hd hd' hdid he
      rcases old k d hd with ⟨rfl, rfl⟩ | ⟨_, rfl⟩ | ⟨k1, k2, e⟩
      · rcases old k' d' hd' with ⟨rfl, rfl⟩ | ⟨_, rfl⟩ | ⟨k3, k4, e'⟩
        · rfl
        · rw [mid] at he; exact absurd he hdid
        · exact absurd (hi.inj h' k' d d' hc e' hdid he).symm k4
      · exact absurd mid hdid
      · rcases old k' d' hd' with ⟨rfl, rfl⟩ | ⟨_, rfl⟩ | ⟨k3, k4, e'⟩
        · exact absurd (hi.inj k h' d d' e hc hdid he) k2
        · rw [mid] at he; exact absurd he hdid
        · exact hi.inj k k' d d' e e' hdid he
    · intro k d hd hdid
      rcases old k d hd with ⟨_, rfl⟩ | ⟨_, rfl⟩ | ⟨_, _, e⟩
      · exact hi.dead h' _ hc hdid
      · rfl
      · exact hi.dead k d e hdid
    · exact hi.entry
    · intro k d hd hdid
      rcases old k d hd with ⟨_, rfl⟩ | ⟨_, rfl⟩ | ⟨_, _, e⟩
      · exact hi.loc h' _ hc hdid
      · exact absurd mid hdid
      · exact hi.loc k d e hdid
    · exact hi.pos

/-! ## Queries -/

theorem mappingLoop_spec (hn : ∀ v, 0 < (geo v).size) (s : St) (c : Vec) (hl : Loc geo s.startIn c) (v : Nat) :
    (∀ p, mappingLoop geo s c.id v c.vars = some p → IsPlace geo c.vars v p) ∧
    (mappingLoop geo s c.id v c.vars = none → ¬ ∃ p, IsPlace geo c.vars v p) := by
  have gen : ∀ (l : List Nat) (n : Nat), (∀ (j x : Nat), l[j]? = some x → c.vars[n + j]? = some x) →
      (∀ p, mappingLoop geo s c.id v l = some p → IsPlace geo c.vars v p) ∧
      (mappingLoop geo s c.id v l = none → ∀ x, x ∈ l → ¬ ∀ e, (geo v).has e → (geo x).has e) := by
    intro l
    induction l with
    | nil => intro n _; simp [mappingLoop]
    | cons x l ih =>
      intro n hx
      have h0 := hx 0 x rfl
      obtain ⟨a, b⟩ := ih (n + 1) (by
        intro j y hy
        have := hx (j + 1) y (by simpa using hy)
        rw [← this]; congr 1; omega)
      unfold mappingLoop
      by_cases hcon : (geo x).contains (geo v) = true
      · simp only [hcon, if_true]
        refine ⟨?_, by simp⟩
        intro p hp
        simp only [Option.some.injEq] at hp
        obtain ⟨t, ht⟩ := hl.mine (n + 0) x h0
        refine ⟨n + 0, x, h0, (Geo.contains_iff _ _ (hn v)).1 hcon, ?_⟩
        rw [← hp, ht]; rfl
      · rw [if_neg hcon]
        refine ⟨a, ?_⟩
        intro hnone y hy
        rcases List.mem_cons.1 hy with rfl | hy
        · intro hall; exact hcon ((Geo.contains_iff _ _ (hn v)).2 hall)
        · exact b hnone y hy
  obtain ⟨a, b⟩ := gen c.vars 0 (by intro j x hx; simpa using hx)
  refine ⟨a, ?_⟩
  rintro hnone ⟨p, k, x, hk, hall, _⟩
  exact b hnone x (List.mem_of_getElem? hk) hall

theorem inv_getMappingOf (hn : ∀ v, 0 < (geo v).size) (s : St) (h v : Nat) (c : Vec) (p : Int) (hi : Inv geo s)
    (hc : s.vecs h = some c) (hid : c.id ≠ -1) (hp : IsPlace geo c.vars v p) : Inv geo (s.setStart v c.id (some (p, c.stamp))) := by
  obtain ⟨i1, i2, i3, i4⟩ := hi.id h c hc hid
  have hl := hi.loc h c hc hid
  refine inv_update geo s _ h c c hi hc hid ?_ rfl ⟨i3, i4⟩ ?_ (Int.le_refl _) rfl ?_ ?_
  · intro k
    by_cases hk : k = h
    · simp [hk, St.setStart, hc]
    · simp [hk, St.setStart]
  · intro u i hne
    simp only [St.setStart]
    rw [if_neg (fun e => hne e.2)]
  · intro u a k he
    simp only [St.setStart] at he ⊢
    by_cases hu : u = v
    · simp only [hu, true_and, if_true, Option.some.injEq, Prod.mk.injEq] at he; omega
    · rw [if_neg (fun e => hu e.1)] at he
      exact (hi.entry u c.id a k he).2
  · refine ⟨hl.disj, hl.size, ?_, ?_, ?_⟩
    · intro u a he
      simp only [St.setStart] at he
      by_cases hu : u = v
      · simp only [hu, true_and, if_true, Option.some.injEq, Prod.mk.injEq] at he
        rw [hu, ← he.1]; exact hp
      · rw [if_neg (fun e => hu e.1)] at he
        exact hl.cached u a he
    · intro k x hk
      simp only [St.setStart]
      by_cases hx : x = v
      · rw [if_pos (by simp [hx])]
        subst hx
        refine ⟨c.stamp, ?_⟩
        rw [place_unique geo hn c.vars hl.disj x p _ hp (place_mem geo c.vars k x hk)]
      · rw [if_neg (fun e => hx e.1)]
        exact hl.mine k x hk
    · intro u a he
      simp only [St.setStart] at he
      by_cases hu : u = v
      · simp only [hu, true_and, if_true, Option.some.injEq, Prod.mk.injEq] at he; omega
      · rw [if_neg (fun e => hu e.1)] at he
        exact hl.direct u a he

end
end Verif.VV
