import Verif.Lemmas.DependencyGraph
import Verif.Lemmas.DisjointSet
import Mathlib.Logic.Relation
/-!
# The depth-first traversal of `DependencyGraph::order_`
-/
set_option autoImplicit false

namespace Verif.DG
open Verif Relation

/-- Every node comes after all the nodes it depends on, and only once. -/
def Topo (E : Nat → Nat → Prop) (l : List Nat) : Prop :=
  ∀ a v b, l = a ++ v :: b → (∀ w, E v w → w ∈ a) ∧ v ∉ a

theorem topo_nil (E : Nat → Nat → Prop) : Topo E [] := by
  intro a v b h; simp at h

theorem topo_snoc {E : Nat → Nat → Prop} {l : List Nat} {v : Nat} (h : Topo E l) (hk : ∀ w, E v w → w ∈ l)
    (hv : v ∉ l) : Topo E (l ++ [v]) := by
  intro a u b he
  rcases List.eq_nil_or_concat b with rfl | ⟨b', x, rfl⟩
  · have := List.append_inj' he rfl
    obtain ⟨rfl, h2⟩ := this
    cases h2
    exact ⟨hk, hv⟩
  · have e : l ++ [v] = (a ++ u :: b') ++ [x] := by simpa using he
    have := List.append_inj' e rfl
    exact h a u b' this.1

theorem topo_closed {E : Nat → Nat → Prop} {l : List Nat} (h : Topo E l) {v w : Nat} (hv : v ∈ l) (hE : E v w) : w ∈ l := by
  obtain ⟨a, b, rfl⟩ := List.append_of_mem hv
  have := (h a v b rfl).1 w hE
  exact List.mem_append_left _ this

theorem topo_reach {E : Nat → Nat → Prop} {l : List Nat} (h : Topo E l) {v w : Nat} (hv : v ∈ l)
    (hE : ReflTransGen E v w) : w ∈ l := by
  induction hE with
  | refl => exact hv
  | tail _ h2 ih => exact topo_closed h ih h2

theorem topo_reach_before {E : Nat → Nat → Prop} {a b : List Nat} {v w : Nat} (h : Topo E (a ++ v :: b))
    (hE : TransGen E v w) : w ∈ a := by
  have : ∀ w, w ∈ a → ∀ z, E w z → z ∈ a := by
    intro w hw z hz
    obtain ⟨c, d, rfl⟩ := List.append_of_mem hw
    have := (h c w (d ++ v :: b) (by simp)).1 z hz
    exact List.mem_append_left _ this
  induction hE with
  | single h1 => exact (h a v b rfl).1 _ h1
  | tail _ h2 ih => exact this _ ih _ h2

theorem topo_acyclic {E : Nat → Nat → Prop} {l : List Nat} (h : Topo E l) {v : Nat} (hv : v ∈ l) :
    ¬ TransGen E v v := by
  obtain ⟨a, b, rfl⟩ := List.append_of_mem hv
  intro hc
  exact (h a v b rfl).2 (topo_reach_before h hc)

theorem topo_nodup {E : Nat → Nat → Prop} {l : List Nat} (h : Topo E l) : l.Nodup := by
  unfold List.Nodup
  rw [List.pairwise_iff_getElem]
  intro i j hi hj hij he'
  have e : l = l.take j ++ l[j] :: l.drop (j + 1) := by simp
  apply (h _ _ _ e).2
  rw [← he']
  exact List.mem_take_iff_getElem.mpr ⟨i, by omega, rfl⟩

structure OInv (n : Nat) (E : Nat → Nat → Prop) (st : St) : Prop where
  topo : Topo E st.order
  vis : ∀ x, st.visited x = true ↔ x ∈ st.order ∨ st.stack x = true
  disj : ∀ x, x ∈ st.order → st.stack x = false
  ds : DSInv n st.comps
  lt : ∀ x, st.visited x = true → x < n
  sound : ∀ x y, x < n → y < n → Conn st.comps x y → EqvGen E x y
  complete : ∀ x y, x ∈ st.order → E x y → Conn st.comps x y

def unv (n : Nat) (st : St) : Nat := (List.range n).countP (fun x => !st.visited x)

theorem unv_le {n : Nat} {st st' : St} (h : ∀ x, st.visited x = true → st'.visited x = true) : unv n st' ≤ unv n st := by
  apply List.countP_mono_left
  intro x _ hx
  have := h x
  cases h1 : st.visited x <;> cases h2 : st'.visited x <;> simp_all

theorem unv_lt {n v : Nat} {st st' : St} (h : ∀ x, st.visited x = true → st'.visited x = true) (hv : v < n)
    (h1 : st.visited v = false) (h2 : st'.visited v = true) : unv n st' < unv n st := by
  unfold unv
  apply countP_lt_of _ _ _ _ v
  · simpa using hv
  · simp [h2]
  · simp [h1]
  · intro x _ hx
    have := h x
    cases h1 : st.visited x <;> cases h2 : st'.visited x <;> simp_all

/-- What a traversal from `v` has done. -/
structure Done (n : Nat) (E : Nat → Nat → Prop) (v : Nat) (st st' : St) : Prop where
  inv : OInv n E st'
  stack : st'.stack = st.stack
  order : ∃ l, st'.order = st.order ++ l ∧ ∀ x ∈ l, ReflTransGen E v x
  mono : ∀ x y, Conn st.comps x y → Conn st'.comps x y

theorem Done.vis {n : Nat} {E : Nat → Nat → Prop} {v : Nat} {st st' : St} (hi : OInv n E st) (h : Done n E v st st') (x : Nat)
    (hx : st.visited x = true) : st'.visited x = true := by
  rw [h.inv.vis]
  rw [hi.vis] at hx
  obtain ⟨l, hl, _⟩ := h.order
  rw [h.stack, hl]
  rcases hx with hx | hx
  · exact Or.inl (List.mem_append_left _ hx)
  · exact Or.inr hx

/-- Specification of a traversal from `v`. -/
def Spec (n : Nat) (E : Nat → Nat → Prop) (v : Nat) (st : St) (r : Except Err St) (Q : St → Prop) : Prop :=
  match r with
  | .ok st' => Done n E v st st' ∧ Q st'
  | .error e => e = .cycle ∧ ∃ x, ReflTransGen E v x ∧ TransGen E x x

theorem oinv_unify {n : Nat} {E : Nat → Nat → Prop} {st : St} {c : DS} {v i : Nat} (hi : OInv n E st) (hv : v < n) (hin : i < n)
    (hE : E v i) (hc : Unified n st.comps c v i) : OInv n E { st with comps := c } where
  topo := hi.topo
  vis := hi.vis
  disj := hi.disj
  ds := hc.inv
  lt := hi.lt
  sound := by
    intro x y hx hy hxy
    have hvi : EqvGen E v i := .rel _ _ hE
    rcases hc.only x y hx hy hxy with h | ⟨h1, h2⟩ | ⟨h1, h2⟩
    · exact hi.sound x y hx hy h
    · exact .trans _ _ _ (hi.sound _ _ hx hv h1) (.trans _ _ _ hvi (hi.sound _ _ hin hy h2))
    · exact .trans _ _ _ (hi.sound _ _ hx hin h1) (.trans _ _ _ (.symm _ _ hvi) (hi.sound _ _ hv hy h2))
  complete := fun x y hx hy => hc.mono _ _ (hi.complete x y hx hy)

theorem visitKids_spec {n : Nat} {E : Nat → Nat → Prop} (hb : ∀ x y, E x y → x < n ∧ y < n) (f : Nat)
    (rec : Nat → St → Except Err St)
    (hrec : ∀ i st, OInv n E st → i < n → st.visited i = false → unv n st < f →
      (∀ x, st.stack x = true → ReflTransGen E x i) → Spec n E i st (rec i st) (fun st' => i ∈ st'.order))
    (v : Nat) (hv : v < n) (is : List Nat) (his : ∀ i ∈ is, E v i) (st : St) (hi : OInv n E st)
    (hf : unv n st < f) (hs : ∀ x, st.stack x = true → ReflTransGen E x v) :
    Spec n E v st (visitKids (n + 1) rec v is st)
      (fun st' => (∀ i ∈ is, i ∈ st'.order) ∧ ∀ i ∈ is, Conn st'.comps v i) := by
  induction is generalizing st with
  | nil =>
    exact ⟨⟨hi, rfl, ⟨[], by simp, by simp⟩, fun _ _ h => h⟩, by simp, by simp⟩
  | cons i is ih =>
    have hE := his i List.mem_cons_self
    have hin := (hb _ _ hE).2
    obtain ⟨c, hc, hu⟩ := unify_spec hi.ds hv hin
    have hic := oinv_unify hi hv hin hE hu
    simp only [visitKids, hc]
    have his' : ∀ i ∈ is, E v i := fun j hj => his j (List.mem_cons_of_mem _ hj)
    by_cases hvis : st.visited i = true
    · simp only [hvis, Bool.not_true, Bool.false_eq_true, ite_false]
      by_cases hst : st.stack i = true
      · rw [if_pos hst]
        refine ⟨rfl, v, .refl, ?_⟩
        exact TransGen.head' hE (hs i hst)
      · rw [if_neg hst]
        have hio : i ∈ st.order := by
          rcases (hi.vis i).mp hvis with h | h
          · exact h
          · exact absurd h hst
        have := ih his' { st with comps := c } hic hf hs
        unfold Spec at this ⊢
        split at this
        · next st' _ =>
          obtain ⟨hd, q1, q2⟩ := this
          obtain ⟨l, hl, hl2⟩ := hd.order
          refine ⟨⟨hd.inv, hd.stack, ⟨l, hl, hl2⟩, fun x y h => hd.mono _ _ (hu.mono _ _ h)⟩, ?_, ?_⟩
          · intro j hj
            rcases List.mem_cons.mp hj with rfl | hj
            · rw [hl]; exact List.mem_append_left _ hio
            · exact q1 j hj
          · intro j hj
            rcases List.mem_cons.mp hj with rfl | hj
            · exact hd.mono _ _ hu.joined
            · exact q2 j hj
        · exact this
    · simp only [hvis, Bool.not_false, ite_true]
      have hvis' : st.visited i = false := by simpa using hvis
      have h1 := hrec i { st with comps := c } hic hin hvis' hf (fun x hx => (hs x hx).tail hE)
      cases hr : rec i { st with comps := c } with
      | error e =>
        rw [hr] at h1
        obtain ⟨he, x, hx1, hx2⟩ := h1
        exact ⟨he, x, ReflTransGen.head hE hx1, hx2⟩
      | ok st1 =>
        rw [hr] at h1
        obtain ⟨hd1, hio⟩ := h1
        have hf1 : unv n st1 < f := Nat.lt_of_le_of_lt (unv_le (fun x hx => hd1.vis hic x hx)) hf
        have := ih his' st1 hd1.inv hf1 (by rw [hd1.stack]; exact hs)
        simp only
        unfold Spec at this ⊢
        split at this
        · next st' _ =>
          obtain ⟨hd, q1, q2⟩ := this
          obtain ⟨l, hl, hl2⟩ := hd.order
          obtain ⟨l1, hl1, hl12⟩ := hd1.order
          refine ⟨⟨hd.inv, hd.stack.trans hd1.stack, ⟨l1 ++ l, ?_, ?_⟩, fun x y h => hd.mono _ _ (hd1.mono _ _ (hu.mono _ _ h))⟩, ?_, ?_⟩
          · rw [hl, hl1]; simp
          · intro x hx
            rcases List.mem_append.mp hx with hx | hx
            · exact ReflTransGen.head hE (hl12 x hx)
            · exact hl2 x hx
          · intro j hj
            rcases List.mem_cons.mp hj with rfl | hj
            · rw [hl]; exact List.mem_append_left _ hio
            · exact q1 j hj
          · intro j hj
            rcases List.mem_cons.mp hj with rfl | hj
            · exact hd.mono _ _ (hd1.mono _ _ hu.joined)
            · exact q2 j hj
        · exact this

theorem visit_spec {g : Graph} {n : Nat} {E : Nat → Nat → Prop} (hg : Inv g n E) (f v : Nat) (st : St) (hi : OInv n E st)
    (hv : v < n) (hvis : st.visited v = false) (hf : unv n st < f)
    (hs : ∀ x, st.stack x = true → ReflTransGen E x v) :
    Spec n E v st (visit g f v st) (fun st' => v ∈ st'.order) := by
  induction f generalizing v st with
  | zero => omega
  | succ f ih =>
    have hsz : g.size = n := hg.rlen
    have hnv : ¬ (v ∈ st.order ∨ st.stack v = true) := by
      rw [← hi.vis, hvis]; simp
    have hstv : st.stack v = false := by
      cases h : st.stack v
      · rfl
      · exact absurd (Or.inr h) hnv
    simp only [visit, hvis, Bool.not_false, ite_true, hsz]
    let st1 : St := { st with visited := upd st.visited v true, stack := upd st.stack v true }
    have hi1 : OInv n E st1 := by
      refine ⟨hi.topo, ?_, ?_, hi.ds, ?_, hi.sound, hi.complete⟩
      · intro x
        simp only [st1, upd]
        split
        · simp
        · exact hi.vis x
      · intro x hx
        simp only [st1, upd]
        split
        · next h => subst h; exact absurd (Or.inl hx) hnv
        · exact hi.disj x hx
      · intro x
        simp only [st1, upd]
        split
        · next h => subst h; intro _; exact hv
        · exact hi.lt x
    have hm : ∀ x, st.visited x = true → st1.visited x = true := by
      intro x hx; simp only [st1, upd]; split
      · rfl
      · exact hx
    have hf1 : unv n st1 < f := by
      have := unv_lt hm hv hvis (by simp [st1, upd])
      omega
    have hs1 : ∀ x, st1.stack x = true → ReflTransGen E x v := by
      intro x hx
      simp only [st1, upd] at hx
      split at hx
      · next h => subst h; exact .refl
      · exact hs x hx
    have hk := visitKids_spec hg.bnd f (visit g f) (fun i st a b c d e => ih i st a b c d e) v hv (g.kids v)
      (fun i h => (hg.kids v i).mp h) st1 hi1 hf1 hs1
    cases hr : visitKids (n + 1) (visit g f) v (g.kids v) st1 with
    | error e => rw [hr] at hk; exact hk
    | ok st2 =>
      rw [hr] at hk
      obtain ⟨hd, q1, q2⟩ := hk
      obtain ⟨l, hl, hl2⟩ := hd.order
      have hs2v : st2.stack v = true := by rw [hd.stack]; simp [st1, upd]
      have hnv2 : v ∉ st2.order := by
        intro h
        have := hd.inv.disj v h
        rw [hs2v] at this; cases this
      refine ⟨⟨⟨?_, ?_, ?_, hd.inv.ds, ?_, hd.inv.sound, ?_⟩, ?_, ?_, hd.mono⟩, ?_⟩
      · exact topo_snoc hd.inv.topo (fun w hw => q1 w ((hg.kids v w).mpr hw)) hnv2
      · intro x
        have := hd.inv.vis x
        simp only [upd, List.mem_append, List.mem_singleton]
        split
        · next h => subst h; simp [this, hs2v]
        · next h => rw [this]; simp [h]
      · intro x hx
        simp only [List.mem_append, List.mem_singleton] at hx
        simp only [upd]
        split
        · rfl
        · next h =>
          rcases hx with hx | hx
          · exact hd.inv.disj x hx
          · exact absurd hx h
      · exact hd.inv.lt
      · intro x y hx hE
        simp only [List.mem_append, List.mem_singleton] at hx
        rcases hx with hx | rfl
        · exact hd.inv.complete x y hx hE
        · exact q2 y ((hg.kids _ _).mpr hE)
      · funext x
        simp only [upd]
        split
        · next h => subst h; exact hstv.symm
        · next h => rw [hd.stack]; simp [st1, upd, h]
      · refine ⟨l ++ [v], ?_, ?_⟩
        · simp only [hl, st1, List.append_assoc]
        · intro x hx
          rcases List.mem_append.mp hx with hx | hx
          · exact hl2 x hx
          · simp only [List.mem_singleton] at hx; subst hx; exact .refl
      · simp

/-- Loop on the roots: invariant. -/
structure RInv (n : Nat) (E : Nat → Nat → Prop) (st : St) : Prop where
  inv : OInv n E st
  stack : ∀ x, st.stack x = false
  only : ∀ x ∈ st.order, ∃ r, r < n ∧ (∀ y, ¬ E y r) ∧ ReflTransGen E r x

theorem unv_lt_succ (n : Nat) (st : St) : unv n st < n + 1 := by
  unfold unv
  exact Nat.lt_succ_of_le (Nat.le_trans List.countP_le_length (by simp))

theorem visitRoots_spec {g : Graph} {n : Nat} {E : Nat → Nat → Prop} (hg : Inv g n E) (is : List Nat) (hnd : is.Nodup)
    (st : St) (hi : RInv n E st) (hnew : ∀ i ∈ is, (∀ y, ¬ E y i) → st.visited i = false) :
    (∃ st', visitRoots g is st = .ok st' ∧ RInv n E st' ∧ (∀ x ∈ st.order, x ∈ st'.order) ∧
      ∀ i ∈ is, i < n → (∀ y, ¬ E y i) → i ∈ st'.order) ∨
    (visitRoots g is st = .error .cycle ∧ ∃ r x, r < n ∧ (∀ y, ¬ E y r) ∧ ReflTransGen E r x ∧ TransGen E x x) := by
  induction is generalizing st with
  | nil => exact Or.inl ⟨st, rfl, hi, fun _ h => h, by simp⟩
  | cons i is ih =>
    have hsz : g.size = n := hg.rlen
    have hnd' := List.nodup_cons.mp hnd
    simp only [visitRoots]
    by_cases hr : g.roots.getD i false = true
    · rw [if_pos hr]
      obtain ⟨hin, hroot⟩ := (hg.roots i).mp hr
      have hvis := hnew i List.mem_cons_self hroot
      have := visit_spec hg (g.size + 1) i st hi.inv hin hvis (by rw [hsz]; exact unv_lt_succ n st)
        (by intro x hx; rw [hi.stack] at hx; cases hx)
      cases hv : visit g (g.size + 1) i st with
      | error e =>
        rw [hv] at this
        obtain ⟨rfl, x, h1, h2⟩ := this
        exact Or.inr ⟨rfl, i, x, hin, hroot, h1, h2⟩
      | ok st1 =>
        rw [hv] at this
        obtain ⟨hd, hio⟩ := this
        obtain ⟨l, hl, hl2⟩ := hd.order
        have hi1 : RInv n E st1 := by
          refine ⟨hd.inv, by rw [hd.stack]; exact hi.stack, ?_⟩
          intro x hx
          rw [hl] at hx
          rcases List.mem_append.mp hx with hx | hx
          · exact hi.only x hx
          · exact ⟨i, hin, hroot, hl2 x hx⟩
        have hnew1 : ∀ j ∈ is, (∀ y, ¬ E y j) → st1.visited j = false := by
          intro j hj hjr
          have h0 := hnew j (List.mem_cons_of_mem _ hj) hjr
          cases hvj : st1.visited j
          · rfl
          · exfalso
            rcases (hd.inv.vis j).mp hvj with h | h
            · rw [hl] at h
              rcases List.mem_append.mp h with h | h
              · have := (hi.inv.vis j).mpr (Or.inl h)
                rw [h0] at this; cases this
              · have h3 := hl2 j h
                rcases ReflTransGen.cases_tail h3 with h4 | ⟨c, _, h4⟩
                · subst h4; exact hnd'.1 hj
                · exact hjr c h4
            · rw [hi1.stack] at h; cases h
        rcases ih hnd'.2 st1 hi1 hnew1 with ⟨st', h1, h2, h3, h4⟩ | h1
        · left
          refine ⟨st', h1, h2, ?_, ?_⟩
          · intro x hx; apply h3; rw [hl]; exact List.mem_append_left _ hx
          · intro j hj hjn hjr
            rcases List.mem_cons.mp hj with rfl | hj
            · exact h3 _ hio
            · exact h4 j hj hjn hjr
        · exact Or.inr h1
    · rw [if_neg hr]
      rcases ih hnd'.2 st hi (fun j hj => hnew j (List.mem_cons_of_mem _ hj)) with ⟨st', h1, h2, h3, h4⟩ | h1
      · left
        refine ⟨st', h1, h2, h3, ?_⟩
        intro j hj hjn hjr
        rcases List.mem_cons.mp hj with rfl | hj
        · exact absurd ((hg.roots _).mpr ⟨hjn, hjr⟩) hr
        · exact h4 j hj hjn hjr
      · exact Or.inr h1

theorem rinv_init (n : Nat) (E : Nat → Nat → Prop) : RInv n E {} where
  inv := {
    topo := topo_nil E
    vis := by simp
    disj := by simp
    ds := dsinv_init n
    lt := by simp
    sound := fun x y _ _ h => by have := conn_init h; subst this; exact .refl _
    complete := by simp }
  stack := fun _ => rfl
  only := (by simp)

theorem any_roots {g : Graph} {n : Nat} {E : Nat → Nat → Prop} (hg : Inv g n E) :
    g.roots.any id = true ↔ ∃ r, r < n ∧ ∀ y, ¬ E y r := by
  rw [List.any_eq_true]
  constructor
  · rintro ⟨b, hb, hb2⟩
    have : b = true := hb2
    subst this
    obtain ⟨i, hi, hib⟩ := List.mem_iff_getElem.mp hb
    refine ⟨i, (hg.roots i).mp ?_⟩
    rw [List.getD_eq_getElem?_getD, List.getElem?_eq_getElem hi, hib]; rfl
  · rintro ⟨r, hr⟩
    have h := (hg.roots r).mpr hr
    have hrl : r < g.roots.length := by rw [hg.rlen]; exact hr.1
    rw [List.getD_eq_getElem?_getD, List.getElem?_eq_getElem hrl] at h
    exact ⟨_, List.getElem_mem hrl, h⟩

/-- Complete description of `order_`. -/
theorem orderAux_spec {g : Graph} {n : Nat} {E : Nat → Nat → Prop} (hg : Inv g n E) :
    (∃ st, g.order_ = .ok st ∧ OInv n E st ∧ (n = 0 ∨ ∃ r, r < n ∧ ∀ y, ¬ E y r) ∧
      (∀ x, x ∈ st.order ↔ ∃ r, r < n ∧ (∀ y, ¬ E y r) ∧ ReflTransGen E r x)) ∨
    (g.order_ = .error .cycle ∧ ∃ r x, r < n ∧ (∀ y, ¬ E y r) ∧ ReflTransGen E r x ∧ TransGen E x x) ∨
    (g.order_ = .error .noRoot ∧ n ≠ 0 ∧ ∀ r, r < n → ∃ y, E y r) := by
  have hsz : g.size = n := hg.rlen
  unfold Graph.order_
  rcases visitRoots_spec hg (List.range g.size) List.nodup_range {} (rinv_init n E) (fun _ _ _ => rfl) with
    ⟨st, h1, h2, _, h4⟩ | ⟨h1, h2⟩
  · rw [h1]
    by_cases hroot : g.roots.any id = true
    · left
      refine ⟨st, by simp [hroot], h2.inv, Or.inr ((any_roots hg).mp hroot), ?_⟩
      intro x
      constructor
      · exact h2.only x
      · rintro ⟨r, hr1, hr2, hr3⟩
        exact topo_reach h2.inv.topo (h4 r (by rw [hsz]; simpa using hr1) hr1 hr2) hr3
    · by_cases hn : n = 0
      · left
        refine ⟨st, by simp [hsz, hn], h2.inv, Or.inl hn, ?_⟩
        intro x
        constructor
        · exact h2.only x
        · rintro ⟨r, hr1, _⟩; omega
      · right; right
        refine ⟨by simp [hroot, hsz, hn], hn, ?_⟩
        intro r hr
        rw [any_roots hg] at hroot
        apply Classical.byContradiction
        intro hc
        exact hroot ⟨r, hr, fun y hy => hc ⟨y, hy⟩⟩
  · rw [h1]
    exact Or.inr (Or.inl ⟨rfl, h2⟩)

/-- In a finite acyclic graph, every node is reachable from a node without incoming edge. -/
theorem acyclic_reach {n : Nat} {E : Nat → Nat → Prop} (hb : ∀ x y, E x y → x < n ∧ y < n)
    (hac : ∀ x, ¬ TransGen E x x) (x : Nat) (hx : x < n) :
    ∃ r, r < n ∧ (∀ y, ¬ E y r) ∧ ReflTransGen E r x := by
  classical
  have key : ∀ k x, x < n → (List.range n).countP (fun y => decide (TransGen E y x)) < k →
      ∃ r, r < n ∧ (∀ y, ¬ E y r) ∧ ReflTransGen E r x := by
    intro k
    induction k with
    | zero => intro x _ h; omega
    | succ k ih =>
      intro x hx hk
      by_cases hroot : ∃ y, E y x
      · obtain ⟨y, hy⟩ := hroot
        have hyn := (hb y x hy).1
        have : (List.range n).countP (fun z => decide (TransGen E z y)) < (List.range n).countP (fun z => decide (TransGen E z x)) := by
          apply countP_lt_of _ _ _ _ y
          · simpa using hyn
          · simpa using hac y
          · simpa using TransGen.single hy
          · intro z _ hz
            simp only [decide_eq_true_eq] at hz ⊢
            exact hz.tail hy
        obtain ⟨r, h1, h2, h3⟩ := ih y hyn (by omega)
        exact ⟨r, h1, h2, h3.tail hy⟩
      · exact ⟨x, hx, fun y hy => hroot ⟨y, hy⟩, .refl⟩
  exact key _ x hx (Nat.lt_succ_self _)

end Verif.DG
