import Verif.Lemmas.DependencyGraph
import Verif.Lemmas.DisjointSet
import Mathlib.Logic.Relation
/-!
# Tarjan's algorithm as in `DependencyGraph::SCCUtil`
-/
set_option autoImplicit false

namespace Verif.DG
open Verif Relation

/-- A node with its component already returned. -/
def Closed (s : TSt) (x : Nat) : Prop := ∃ C ∈ s.ret, x ∈ C

/-- Invariant of the traversal; `G` are the nodes whose visit is in progress. -/
structure TInv (n : Nat) (E : Nat → Nat → Prop) (G : List Nat) (s : TSt) : Prop where
  desc : s.st.Pairwise (fun a b => s.disc b < s.disc a)
  mem : ∀ x, s.stackMember x = true ↔ x ∈ s.st
  found : ∀ x, s.disc x ≠ -1 ↔ x ∈ s.st ∨ Closed s x
  apart : ∀ x, x ∈ s.st → ¬ Closed s x
  time : 0 ≤ s.time ∧ ∀ x, s.disc x ≠ -1 → 1 ≤ s.disc x ∧ s.disc x ≤ s.time
  lt : ∀ x, s.disc x ≠ -1 → x < n
  gray : ∀ x ∈ G, x ∈ s.st
  black : ∀ x y, s.disc x ≠ -1 → x ∉ G → E x y → s.disc y ≠ -1
  closed : ∀ x y, Closed s x → E x y → Closed s y
  up : ∀ y ∈ s.st, ∃ g ∈ G, s.disc g ≤ s.disc y ∧ ReflTransGen E y g
  down : ∀ g ∈ G, ∀ y ∈ s.st, s.disc g ≤ s.disc y → ReflTransGen E g y
  scc : ∀ C ∈ s.ret, C ≠ [] ∧ ∀ x ∈ C, ∀ y, y ∈ C ↔ ReflTransGen E x y ∧ ReflTransGen E y x
  nodup : s.ret.flatten.Nodup

/-- What is kept between two states of the traversal. -/
structure Ext (s s' : TSt) : Prop where
  disc : ∀ x, s.disc x ≠ -1 → s'.disc x = s.disc x
  low : ∀ x, s.disc x ≠ -1 → s'.low x = s.low x
  time : s.time ≤ s'.time
  stack : ∃ l, s'.st = l ++ s.st

theorem Ext.refl (s : TSt) : Ext s s := ⟨fun _ _ => rfl, fun _ _ => rfl, Int.le_refl _, [], rfl⟩

theorem Ext.trans {s s' s'' : TSt} (h : Ext s s') (h' : Ext s' s'') : Ext s s'' := by
  refine ⟨?_, ?_, Int.le_trans h.time h'.time, ?_⟩
  · intro x hx
    have := h.disc x hx
    rw [h'.disc x (by rw [this]; exact hx), this]
  · intro x hx
    have := h.disc x hx
    rw [h'.low x (by rw [this]; exact hx), h.low x hx]
  · obtain ⟨l, hl⟩ := h.stack
    obtain ⟨l', hl'⟩ := h'.stack
    exact ⟨l' ++ l, by rw [hl', hl, List.append_assoc]⟩

/-- Outcome of the visit of `u`. -/
structure Visited (n : Nat) (E : Nat → Nat → Prop) (G : List Nat) (u : Nat) (s s' : TSt) : Prop where
  inv : TInv n E G s'
  ext : Ext s s'
  seen : s'.disc u ≠ -1
  later : s.time < s'.disc u
  /-- either the component of `u` was returned, or `u` is on the stack and `low u` is as expected -/
  res : (s'.st = s.st ∧ s'.low u = s'.disc u) ∨
    ((∃ y ∈ s'.st, s'.disc y = s'.low u ∧ ReflTransGen E u y) ∧
      ∃ l, s'.st = l ++ s.st ∧ ∀ x ∈ l, ∀ y ∈ s.st, E x y → s'.low u ≤ s'.disc y)

/-- State of the loop over the children of `u`; `s0` is the state before the visit of `u`. -/
structure Loop (n : Nat) (E : Nat → Nat → Prop) (G : List Nat) (u : Nat) (s0 : TSt) (P : Nat → Prop) (s : TSt) : Prop where
  inv : TInv n E (u :: G) s
  disc : ∀ x, s0.disc x ≠ -1 → s.disc x = s0.disc x
  low : ∀ x, s0.disc x ≠ -1 → s.low x = s0.low x
  time : s0.time ≤ s.time
  later : s0.time < s.disc u
  lowle : s.low u ≤ s.disc u
  wit : ∃ y ∈ s.st, s.disc y = s.low u ∧ ReflTransGen E u y
  stack : ∃ l, s.st = l ++ u :: s0.st ∧ ∀ x ∈ l, ∀ y ∈ s0.st, E x y → s.low u ≤ s.disc y
  kids : ∀ w, P w → s.disc w ≠ -1 ∧ (w ∈ s0.st → s.low u ≤ s.disc w)

def unfound (n : Nat) (s : TSt) : Nat := (List.range n).countP (fun x => decide (s.disc x = -1))

theorem TInv.setLow {n : Nat} {E : Nat → Nat → Prop} {G : List Nat} {s : TSt} (h : TInv n E G s) (low : Nat → Int) :
    TInv n E G { s with low := low } :=
  ⟨h.desc, h.mem, h.found, h.apart, h.time, h.lt, h.gray, h.black, h.closed, h.up, h.down, h.scc, h.nodup⟩

theorem sccKids_spec {n : Nat} {E : Nat → Nat → Prop} (hb : ∀ x y, E x y → x < n ∧ y < n) (f : Nat)
    (rec : Nat → TSt → Except SErr TSt)
    (hrec : ∀ G v s, TInv n E G s → v < n → s.disc v = -1 → unfound n s < f → (∀ g ∈ G, ReflTransGen E g v) →
      ∃ s', rec v s = .ok s' ∧ Visited n E G v s s')
    (u : Nat) (G : List Nat) (s0 : TSt) (h0 : TInv n E G s0) (hu0 : s0.disc u = -1) (hG : ∀ g ∈ G, ReflTransGen E g u)
    (vs : List Nat) (hvs : ∀ v ∈ vs, E u v) (P : Nat → Prop) (s : TSt) (hs : Loop n E G u s0 P s) (hf : unfound n s < f) :
    ∃ s', sccKids rec u vs s = .ok s' ∧ Loop n E G u s0 (fun w => P w ∨ w ∈ vs) s' := by
  induction vs generalizing s P with
  | nil =>
    refine ⟨s, rfl, ?_⟩
    have : (fun w => P w ∨ w ∈ ([] : List Nat)) = P := by funext w; simp
    rw [this]; exact hs
  | cons v vs ih =>
    have hE := hvs v List.mem_cons_self
    have hvs' : ∀ v ∈ vs, E u v := fun w hw => hvs w (List.mem_cons_of_mem _ hw)
    have hfun : (fun w => P w ∨ w ∈ v :: vs) = (fun w => (P w ∨ w = v) ∨ w ∈ vs) := by
      funext w; simp only [List.mem_cons, or_assoc]
    rw [hfun]
    have hust : u ∈ s.st := hs.inv.gray u List.mem_cons_self
    have hsu : s.disc u ≠ -1 := (hs.inv.found u).mpr (Or.inl hust)
    have hold : ∀ y, y ∈ s0.st → s0.disc y ≠ -1 := fun y hy => (h0.found y).mpr (Or.inl hy)
    simp only [sccKids]
    by_cases hv : s.disc v = -1
    · rw [if_pos hv]
      have hgv : ∀ g ∈ u :: G, ReflTransGen E g v := by
        intro g hg
        rcases List.mem_cons.mp hg with rfl | hg
        · exact .single hE
        · exact (hG g hg).tail hE
      obtain ⟨s1, h1, hV⟩ := hrec (u :: G) v s hs.inv (hb _ _ hE).2 hv hf hgv
      rw [h1]
      simp only
      have hd1 : ∀ x, s.disc x ≠ -1 → s1.disc x = s.disc x := hV.ext.disc
      have huv : u ≠ v := fun hh => hsu (by rw [hh]; exact hv)
      have hlu : s1.low u = s.low u := hV.ext.low u hsu
      have hdu : s1.disc u = s.disc u := hd1 u hsu
      have hs0 : ∀ x, s0.disc x ≠ -1 → s.disc x ≠ -1 := fun x hx => by rw [hs.disc x hx]; exact hx
      have hvs0 : v ∉ s0.st := by
        intro h
        exact hs0 v (hold v h) hv
      obtain ⟨l, hl, hcr⟩ := hs.stack
      obtain ⟨l1, hl1⟩ := hV.ext.stack
      have hfnd : ∀ x, s.disc x ≠ -1 → s1.disc x ≠ -1 := fun x hx => by rw [hd1 x hx]; exact hx
      -- the new value of `low u`
      have hmin : min (s1.low u) (s1.low v) ≤ s.low u := by rw [hlu]; exact Int.min_le_left _ _
      apply ih hvs' (fun w => P w ∨ w = v) { s1 with low := upd s1.low u (min (s1.low u) (s1.low v)) }
      · refine ⟨hV.inv.setLow _, ?_, ?_, ?_, ?_, ?_, ?_, ?_, ?_⟩
        · intro x hx; exact (hd1 x (hs0 x hx)).trans (hs.disc x hx)
        · intro x hx
          have hxu : x ≠ u := fun hh => hx (by rw [hh]; exact hu0)
          simp only [upd, if_neg hxu]
          exact (hV.ext.low x (hs0 x hx)).trans (hs.low x hx)
        · exact Int.le_trans hs.time hV.ext.time
        · show s0.time < s1.disc u
          rw [hdu]; exact hs.later
        · show upd s1.low u _ u ≤ s1.disc u
          simp only [upd, ite_true]
          have := hs.lowle
          omega
        · show ∃ y ∈ s1.st, s1.disc y = upd s1.low u _ u ∧ _
          simp only [upd, ite_true]
          obtain ⟨y, hy1, hy2, hy3⟩ := hs.wit
          have hy' : y ∈ s1.st := by rw [hl1]; exact List.mem_append_right _ hy1
          have hyd : s1.disc y = s.low u := by rw [hd1 y ((hs.inv.found y).mpr (Or.inl hy1)), hy2]
          by_cases hle : s1.low u ≤ s1.low v
          · exact ⟨y, hy', by rw [Int.min_eq_left hle, hyd, hlu], hy3⟩
          · rcases hV.res with ⟨_, r2⟩ | ⟨⟨z, z1, z2, z3⟩, _⟩
            · exfalso
              have := hV.later
              have := (hs.inv.time.2 u hsu).2
              have := hs.lowle
              omega
            · exact ⟨z, z1, by rw [Int.min_eq_right (by omega), z2], ReflTransGen.head hE z3⟩
        · show ∃ l', s1.st = l' ++ u :: s0.st ∧ ∀ x ∈ l', ∀ y ∈ s0.st, E x y → upd s1.low u _ u ≤ s1.disc y
          simp only [upd, ite_true]
          have hcr' : ∀ x ∈ l, ∀ y ∈ s0.st, E x y → min (s1.low u) (s1.low v) ≤ s1.disc y := by
            intro x hx y hy hxy
            have := hcr x hx y hy hxy
            rw [hd1 y (hs0 y (hold y hy))]; omega
          rcases hV.res with ⟨r1, r2⟩ | ⟨-, l2, r3, r4⟩
          · exact ⟨l, by rw [r1, hl], hcr'⟩
          · refine ⟨l2 ++ l, by rw [r3, hl, List.append_assoc], ?_⟩
            intro x hx y hy hxy
            rcases List.mem_append.mp hx with hx | hx
            · have := r4 x hx y (by rw [hl]; simp [hy]) hxy
              have h3 := Int.min_le_right (s1.low u) (s1.low v)
              omega
            · exact hcr' x hx y hy hxy
        · rintro w (hw | rfl)
          · obtain ⟨k1, k2⟩ := hs.kids w hw
            refine ⟨hfnd w k1, ?_⟩
            show _ → upd s1.low u _ u ≤ s1.disc w
            intro hw0
            simp only [upd, ite_true]
            have := k2 hw0
            rw [hd1 w k1]; omega
          · exact ⟨hV.seen, fun h => absurd h hvs0⟩
      · refine Nat.lt_of_le_of_lt ?_ hf
        apply List.countP_mono_left
        intro x _ hx
        simp only [decide_eq_true_eq] at hx ⊢
        apply Classical.byContradiction
        intro hc
        exact hfnd x hc hx
    · rw [if_neg hv]
      by_cases hm : s.stackMember v = true
      · rw [if_pos hm]
        have hvst := (hs.inv.mem v).mp hm
        obtain ⟨l, hl, hcr⟩ := hs.stack
        apply ih hvs' (fun w => P w ∨ w = v) { s with low := upd s.low u (min (s.low u) (s.disc v)) }
        · refine ⟨hs.inv.setLow _, hs.disc, ?_, hs.time, hs.later, ?_, ?_, ⟨l, hl, ?_⟩, ?_⟩
          · intro x hx
            have hxu : x ≠ u := fun hh => hx (by rw [hh]; exact hu0)
            simp only [upd, if_neg hxu]
            exact hs.low x hx
          · show upd s.low u _ u ≤ s.disc u
            simp only [upd, ite_true]
            have := hs.lowle
            omega
          · show ∃ y ∈ s.st, s.disc y = upd s.low u _ u ∧ _
            simp only [upd, ite_true]
            by_cases hle : s.low u ≤ s.disc v
            · obtain ⟨y, hy1, hy2, hy3⟩ := hs.wit
              exact ⟨y, hy1, by rw [Int.min_eq_left hle, hy2], hy3⟩
            · exact ⟨v, hvst, by rw [Int.min_eq_right (by omega)], .single hE⟩
          · intro x hx y hy hxy
            show upd s.low u _ u ≤ s.disc y
            simp only [upd, ite_true]
            have := hcr x hx y hy hxy
            omega
          · rintro w (hw | rfl)
            · obtain ⟨k1, k2⟩ := hs.kids w hw
              refine ⟨k1, ?_⟩
              show _ → upd s.low u _ u ≤ s.disc w
              intro hw0
              simp only [upd, ite_true]
              have := k2 hw0
              omega
            · refine ⟨hv, ?_⟩
              show _ → upd s.low u _ u ≤ s.disc w
              intro _
              simp only [upd, ite_true]
              exact Int.min_le_right _ _
        · exact hf
      · rw [if_neg hm]
        obtain ⟨l, hl, hcr⟩ := hs.stack
        apply ih hvs' (fun w => P w ∨ w = v) s
        · refine ⟨hs.inv, hs.disc, hs.low, hs.time, hs.later, hs.lowle, hs.wit, hs.stack, ?_⟩
          rintro w (hw | rfl)
          · exact hs.kids w hw
          · refine ⟨hv, fun h => absurd ?_ hm⟩
            rw [hs.inv.mem, hl]; simp [h]
        · exact hf

theorem popTo_spec (u : Nat) (l r : List Nat) (h : u ∉ l) : popTo u (l ++ u :: r) = some (l ++ [u], r) := by
  induction l with
  | nil => simp [popTo]
  | cons x l ih =>
    have hx : x ≠ u := fun hh => h (by simp [hh])
    have := ih (fun hh => h (by simp [hh]))
    simp [popTo, hx, this]

theorem loop_init {n : Nat} {E : Nat → Nat → Prop} {u : Nat} {G : List Nat} {s0 : TSt} (h0 : TInv n E G s0) (hu : u < n)
    (hu0 : s0.disc u = -1) (hG : ∀ g ∈ G, ReflTransGen E g u) :
    Loop n E G u s0 (fun _ => False)
      ⟨s0.ret, upd s0.disc u (s0.time + 1), upd s0.low u (s0.time + 1), u :: s0.st, upd s0.stackMember u true, s0.time + 1⟩ := by
  have hust : u ∉ s0.st := fun h => (h0.found u).mpr (Or.inl h) hu0
  have hucl : ¬ Closed s0 u := fun h => (h0.found u).mpr (Or.inr h) hu0
  have hne : ∀ x, x ∈ s0.st → x ≠ u := fun x hx hh => hust (hh ▸ hx)
  have hlt : ∀ x ∈ s0.st, s0.disc x ≤ s0.time := fun x hx => (h0.time.2 x ((h0.found x).mpr (Or.inl hx))).2
  have h01 := h0.time.1
  refine ⟨⟨?_, ?_, ?_, ?_, ⟨?_, ?_⟩, ?_, ?_, ?_, h0.closed, ?_, ?_, h0.scc, h0.nodup⟩, ?_, ?_, ?_, ?_, ?_, ?_, ?_, ?_⟩
  · refine List.pairwise_cons.mpr ⟨?_, ?_⟩
    · intro b hb
      simp only [upd, ite_true, if_neg (hne b hb)]
      have := hlt b hb; omega
    · apply List.Pairwise.imp_of_mem _ h0.desc
      intro a b ha hb hab
      simpa only [upd, if_neg (hne a ha), if_neg (hne b hb)] using hab
  · intro x
    simp only [upd, List.mem_cons]
    split
    · next h => simp [h]
    · next h => rw [h0.mem]; simp [h]
  · intro x
    show upd s0.disc u _ x ≠ -1 ↔ x ∈ u :: s0.st ∨ Closed s0 x
    simp only [upd, List.mem_cons]
    split
    · next h => simp only [h, true_or, iff_true]; omega
    · next h => rw [h0.found]; simp [h]
  · intro x hx
    show ¬ Closed s0 x
    rcases List.mem_cons.mp hx with rfl | hx
    · exact hucl
    · exact h0.apart x hx
  · show 0 ≤ s0.time + 1
    omega
  · intro x
    simp only [upd]
    split
    · intro _; omega
    · intro hx
      have := h0.time.2 x hx
      omega
  · intro x
    simp only [upd]
    split
    · next h => subst h; intro _; exact hu
    · exact h0.lt x
  · intro x hx
    rcases List.mem_cons.mp hx with rfl | hx
    · exact List.mem_cons_self
    · exact List.mem_cons_of_mem _ (h0.gray x hx)
  · intro x y hx hxG hxy
    have hxu : x ≠ u := fun hh => hxG (by simp [hh])
    simp only [upd, if_neg hxu] at hx
    have := h0.black x y hx (fun hh => hxG (by simp [hh])) hxy
    simp only [upd]
    split
    · omega
    · exact this
  · intro y hy
    rcases List.mem_cons.mp hy with rfl | hy
    · exact ⟨y, List.mem_cons_self, Int.le_refl _, .refl⟩
    · obtain ⟨g, h1, h2, h3⟩ := h0.up y hy
      refine ⟨g, List.mem_cons_of_mem _ h1, ?_, h3⟩
      simpa only [upd, if_neg (hne y hy), if_neg (hne g (h0.gray g h1))] using h2
  · intro g hg y hy hgy
    rcases List.mem_cons.mp hg with hg' | hg' <;> rcases List.mem_cons.mp hy with hy' | hy'
    · rw [hg', hy']
    · subst hg'
      simp only [upd, ite_true, if_neg (hne y hy')] at hgy
      have := hlt y hy'; omega
    · rw [hy']; exact hG g hg'
    · simp only [upd, if_neg (hne y hy'), if_neg (hne g (h0.gray g hg'))] at hgy
      exact h0.down g hg' y hy' hgy
  · intro x hx
    have hxu : x ≠ u := fun hh => hx (by rw [hh]; exact hu0)
    simp [upd, hxu]
  · intro x hx
    have hxu : x ≠ u := fun hh => hx (by rw [hh]; exact hu0)
    simp [upd, hxu]
  · show s0.time ≤ s0.time + 1
    omega
  · simp only [upd, ite_true]; omega
  · simp [upd]
  · exact ⟨u, List.mem_cons_self, by simp [upd], .refl⟩
  · exact ⟨[], rfl, by simp⟩
  · intro w hw; exact hw.elim

theorem sccUtil_spec {g : Graph} {n : Nat} {E : Nat → Nat → Prop} (hg : Inv g n E) (f : Nat) (G : List Nat) (u : Nat) (s0 : TSt)
    (h0 : TInv n E G s0) (hu : u < n) (hu0 : s0.disc u = -1) (hf : unfound n s0 < f) (hG : ∀ g ∈ G, ReflTransGen E g u) :
    ∃ s', sccUtil g f u s0 = .ok s' ∧ Visited n E G u s0 s' := by
  induction f generalizing G u s0 with
  | zero => omega
  | succ f ih =>
    have hl0 := loop_init h0 hu hu0 hG
    have hust : u ∉ s0.st := fun h => (h0.found u).mpr (Or.inl h) hu0
    have h01 := h0.time.1
    have hf' : unfound n ⟨s0.ret, upd s0.disc u (s0.time + 1), upd s0.low u (s0.time + 1), u :: s0.st, upd s0.stackMember u true, s0.time + 1⟩ < f := by
      have : unfound n ⟨s0.ret, upd s0.disc u (s0.time + 1), upd s0.low u (s0.time + 1), u :: s0.st, upd s0.stackMember u true, s0.time + 1⟩ < unfound n s0 := by
        unfold unfound
        apply countP_lt_of _ _ _ _ u
        · simpa using hu
        · simp only [upd, ite_true, decide_eq_false_iff_not]; omega
        · simpa using hu0
        · intro x _ hx
          rw [decide_eq_true_eq] at hx ⊢
          simp only [upd] at hx
          split at hx
          · omega
          · exact hx
      omega
    obtain ⟨s, hk, hL⟩ := sccKids_spec hg.bnd f (sccUtil g f) (fun G v s a b c d e => ih G v s a b c d e) u G s0 h0 hu0 hG
      (g.kids u) (fun v hv => (hg.kids u v).mp hv) _ _ hl0 hf'
    simp only [sccUtil, hk]
    have hI := hL.inv
    obtain ⟨l, hl, hcr⟩ := hL.stack
    have hustS : u ∈ s.st := by rw [hl]; simp
    have hsu : s.disc u ≠ -1 := (hI.found u).mpr (Or.inl hustS)
    have hold : ∀ y, y ∈ s0.st → s0.disc y ≠ -1 := fun y hy => (h0.found y).mpr (Or.inl hy)
    have hdesc := hI.desc
    rw [hl] at hdesc
    have hd1 := List.pairwise_append.mp hdesc
    have hd2 := List.pairwise_cons.mp hd1.2.1
    have hul : u ∉ l := by
      intro h
      have := hd1.2.2 u h u List.mem_cons_self
      omega
    have hl_gt : ∀ x ∈ l, s.disc u < s.disc x := fun x hx => hd1.2.2 x hx u List.mem_cons_self
    have hl_s0 : ∀ x ∈ l, ∀ y ∈ s0.st, s.disc y < s.disc x := fun x hx y hy => hd1.2.2 x hx y (List.mem_cons_of_mem _ hy)
    have hu_s0 : ∀ y ∈ s0.st, s.disc y < s.disc u := hd2.1
    have hGs0 : ∀ x ∈ G, x ∈ s0.st := h0.gray
    have huG : u ∉ G := fun h => hust (hGs0 u h)
    have hlG : ∀ x ∈ l, x ∉ u :: G := by
      intro x hx hxG
      rcases List.mem_cons.mp hxG with rfl | hxG
      · exact hul hx
      · have := hl_s0 x hx x (hGs0 x hxG); omega
    have hkids : ∀ w, E u w → s.disc w ≠ -1 ∧ (w ∈ s0.st → s.low u ≤ s.disc w) :=
      fun w hw => hL.kids w (Or.inr ((hg.kids u w).mpr hw))
    have hext_disc := hL.disc
    by_cases hpop : s.low u = s.disc u
    · rw [if_pos hpop, hl, popTo_spec u l s0.st hul]
      simp only
      refine ⟨_, rfl, ?_⟩
      -- the component
      have hC : ∀ x, x ∈ l ++ [u] ↔ x ∈ l ∨ x = u := by simp
      have hCst : ∀ x, x ∈ l ++ [u] → x ∈ s.st := by
        intro x hx; rw [hl]
        rcases (hC x).mp hx with h | rfl
        · exact List.mem_append_left _ h
        · simp
      -- edges leaving the component go to closed nodes
      have hleave : ∀ x z, x ∈ l ++ [u] → E x z → z ∈ l ++ [u] ∨ Closed s z := by
        intro x z hx hxz
        have hz : s.disc z ≠ -1 := by
          rcases (hC x).mp hx with h | rfl
          · exact hI.black x z ((hI.found x).mpr (Or.inl (hCst x hx))) (hlG x h) hxz
          · exact (hkids z hxz).1
        rcases (hI.found z).mp hz with h | h
        · rw [hl] at h
          rcases List.mem_append.mp h with h | h
          · exact Or.inl ((hC z).mpr (Or.inl h))
          · rcases List.mem_cons.mp h with h1 | h1
            · exact Or.inl ((hC z).mpr (Or.inr h1))
            · exfalso
              have h3 : s.low u ≤ s.disc z := by
                rcases (hC x).mp hx with h' | h'
                · exact hcr x h' z h1 hxz
                · exact (hkids z (h' ▸ hxz)).2 h1
              have := hu_s0 z h1
              omega
        · exact Or.inr h
      have hreach : ∀ x y, (x ∈ l ++ [u] ∨ Closed s x) → ReflTransGen E x y → y ∈ l ++ [u] ∨ Closed s y := by
        intro x y hx hxy
        induction hxy with
        | refl => exact hx
        | tail _ h2 ih =>
          rcases ih with h | h
          · exact hleave _ _ h h2
          · exact Or.inr (hI.closed _ _ h h2)
      have hclosedReach : ∀ x y, Closed s x → ReflTransGen E x y → Closed s y := by
        intro x y hx hxy
        induction hxy with
        | refl => exact hx
        | tail _ h2 ih => exact hI.closed _ _ ih h2
      have hto : ∀ x ∈ l ++ [u], ReflTransGen E x u := by
        intro x hx
        obtain ⟨g', hg1, _, hg3⟩ := hI.up x (hCst x hx)
        rcases List.mem_cons.mp hg1 with rfl | hg1
        · exact hg3
        · exact hg3.trans (hG g' hg1)
      have hfrom : ∀ x ∈ l ++ [u], ReflTransGen E u x := by
        intro x hx
        apply hI.down u List.mem_cons_self x (hCst x hx)
        rcases (hC x).mp hx with h | rfl
        · exact Int.le_of_lt (hl_gt x h)
        · exact Int.le_refl _
      have hcl' : ∀ x, Closed { s with ret := s.ret ++ [l ++ [u]], st := s0.st, stackMember := fun x => if x ∈ l ++ [u] then false else s.stackMember x } x ↔ Closed s x ∨ x ∈ l ++ [u] := by
        intro x
        simp only [Closed, List.mem_append, List.mem_singleton]
        constructor
        · rintro ⟨C, h1 | rfl, h2⟩
          · exact Or.inl ⟨C, h1, h2⟩
          · exact Or.inr (by simpa using h2)
        · rintro (⟨C, h1, h2⟩ | h)
          · exact ⟨C, Or.inl h1, h2⟩
          · exact ⟨_, Or.inr rfl, by simpa using h⟩
      have hCs0 : ∀ x, x ∈ l ++ [u] → x ∉ s0.st := by
        intro x hx h
        rcases (hC x).mp hx with h' | rfl
        · have := hl_s0 x h' x h; omega
        · exact hust h
      refine ⟨⟨?_, ?_, ?_, ?_, hI.time, hI.lt, h0.gray, ?_, ?_, ?_, ?_, ?_, ?_⟩, ⟨hext_disc, hL.low, hL.time, [], rfl⟩, hsu, hL.later, Or.inl ⟨rfl, hpop⟩⟩
      · exact hd2.2
      · intro x
        show (if x ∈ l ++ [u] then false else s.stackMember x) = true ↔ x ∈ s0.st
        split
        · next h => simp [hCs0 x h]
        · next h =>
          rw [hI.mem, hl]
          have h' : ¬ (x ∈ l ∨ x = u) := fun hh => h ((hC x).mpr hh)
          simp only [List.mem_append, List.mem_cons]
          constructor
          · rintro (h1 | h1 | h1)
            · exact absurd (Or.inl h1) h'
            · exact absurd (Or.inr h1) h'
            · exact h1
          · intro h1; exact Or.inr (Or.inr h1)
      · intro x
        show s.disc x ≠ -1 ↔ x ∈ s0.st ∨ _
        rw [hcl', hI.found, hl]
        simp only [List.mem_append, List.mem_cons, List.not_mem_nil, or_false]
        constructor
        · rintro ((h1 | h1 | h1) | h1)
          · exact Or.inr (Or.inr (Or.inl h1))
          · exact Or.inr (Or.inr (Or.inr h1))
          · exact Or.inl h1
          · exact Or.inr (Or.inl h1)
        · rintro (h1 | h1 | h1 | h1)
          · exact Or.inl (Or.inr (Or.inr h1))
          · exact Or.inr h1
          · exact Or.inl (Or.inl h1)
          · exact Or.inl (Or.inr (Or.inl h1))
      · intro x hx
        have hx' : x ∈ s0.st := hx
        rw [hcl']
        rintro (h1 | h1)
        · exact hI.apart x (by rw [hl]; simp [hx']) h1
        · exact hCs0 x h1 hx'
      · intro x y hx hxG hxy
        by_cases hxu : x = u
        · subst hxu; exact (hkids y hxy).1
        · exact hI.black x y hx (by simp [hxu, hxG]) hxy
      · intro x y hx hxy
        rw [hcl'] at hx ⊢
        rcases hx with hx | hx
        · exact Or.inl (hI.closed x y hx hxy)
        · exact (hleave x y hx hxy).symm
      · intro y hy
        have hy' : y ∈ s0.st := hy
        obtain ⟨g', hg1, hg2, hg3⟩ := hI.up y (by rw [hl]; simp [hy'])
        rcases List.mem_cons.mp hg1 with rfl | hg1
        · have := hu_s0 y hy'; omega
        · exact ⟨g', hg1, hg2, hg3⟩
      · intro g' hg' y hy hgy
        have hy' : y ∈ s0.st := hy
        exact hI.down g' (List.mem_cons_of_mem _ hg') y (by rw [hl]; simp [hy']) hgy
      · intro C hCm
        rcases List.mem_append.mp hCm with h | h
        · exact hI.scc C h
        · simp only [List.mem_singleton] at h
          subst h
          refine ⟨by simp, ?_⟩
          intro x hx y
          constructor
          · intro hy
            exact ⟨(hto x hx).trans (hfrom y hy), (hto y hy).trans (hfrom x hx)⟩
          · rintro ⟨h1, h2⟩
            rcases hreach x y (Or.inl hx) h1 with h | h
            · exact h
            · exfalso
              exact hI.apart x (hCst x hx) (hclosedReach y x h h2)
      · show (s.ret ++ [l ++ [u]]).flatten.Nodup
        rw [List.flatten_append]
        apply List.nodup_append.mpr
        refine ⟨hI.nodup, ?_, ?_⟩
        · simp only [List.flatten_cons, List.flatten_nil, List.append_nil]
          apply List.nodup_append.mpr
          refine ⟨?_, by simp, ?_⟩
          · exact hd1.1.imp (fun {a b} hab e => by subst e; omega)
          · intro a ha b hb e
            simp only [List.mem_singleton] at hb
            subst hb; subst e; exact hul ha
        · intro a ha b hb e
          simp only [List.flatten_cons, List.flatten_nil, List.append_nil] at hb
          subst e
          apply hI.apart a (hCst a hb)
          obtain ⟨C, h1, h2⟩ := List.mem_flatten.mp ha
          exact ⟨C, h1, h2⟩
    · rw [if_neg hpop]
      have hlow : s.low u < s.disc u := by have := hL.lowle; omega
      obtain ⟨z, hz1, hz2, hz3⟩ := hL.wit
      have hzs0 : z ∈ s0.st := by
        rw [hl] at hz1
        rcases List.mem_append.mp hz1 with h | h
        · have := hl_gt z h; omega
        · rcases List.mem_cons.mp h with rfl | h
          · omega
          · exact h
      refine ⟨s, rfl, ⟨⟨hI.desc, hI.mem, hI.found, hI.apart, hI.time, hI.lt, ?_, ?_, hI.closed, ?_, ?_, hI.scc, hI.nodup⟩,
        ⟨hext_disc, hL.low, hL.time, l ++ [u], by rw [hl]; simp⟩, hsu, hL.later, Or.inr ⟨⟨z, hz1, hz2, hz3⟩, l ++ [u], by rw [hl]; simp, ?_⟩⟩⟩
      · intro x hx; exact hI.gray x (List.mem_cons_of_mem _ hx)
      · intro x y hx hxG hxy
        by_cases hxu : x = u
        · subst hxu; exact (hkids y hxy).1
        · exact hI.black x y hx (by simp [hxu, hxG]) hxy
      · intro y hy
        obtain ⟨g', hg1, hg2, hg3⟩ := hI.up y hy
        rcases List.mem_cons.mp hg1 with rfl | hg1
        · obtain ⟨g2, k1, k2, k3⟩ := hI.up z hz1
          rcases List.mem_cons.mp k1 with rfl | k1
          · omega
          · exact ⟨g2, k1, by omega, hg3.trans (hz3.trans k3)⟩
        · exact ⟨g', hg1, hg2, hg3⟩
      · intro g' hg' y hy hgy
        exact hI.down g' (List.mem_cons_of_mem _ hg') y hy hgy
      · intro x hx y hy hxy
        rcases List.mem_append.mp hx with hx | hx
        · exact hcr x hx y hy hxy
        · simp only [List.mem_singleton] at hx
          subst hx
          exact (hkids y hxy).2 hy

theorem sccAll_spec {g : Graph} {n : Nat} {E : Nat → Nat → Prop} (hg : Inv g n E) (is : List Nat) (his : ∀ i ∈ is, i < n) (s : TSt)
    (hs : TInv n E [] s) :
    ∃ s', sccAll g is s = .ok s' ∧ TInv n E [] s' ∧ (∀ x, s.disc x ≠ -1 → s'.disc x ≠ -1) ∧ ∀ i ∈ is, s'.disc i ≠ -1 := by
  induction is generalizing s with
  | nil => exact ⟨s, rfl, hs, fun _ h => h, by simp⟩
  | cons i is ih =>
    have his' : ∀ i ∈ is, i < n := fun j hj => his j (List.mem_cons_of_mem _ hj)
    simp only [sccAll]
    by_cases hi : s.disc i = -1
    · rw [if_pos hi]
      have hf : unfound n s < g.size + 1 := by
        have : g.size = n := hg.rlen
        rw [this]
        exact Nat.lt_succ_of_le (Nat.le_trans List.countP_le_length (by simp))
      obtain ⟨s1, h1, hV⟩ := sccUtil_spec hg (g.size + 1) [] i s hs (his i List.mem_cons_self) hi hf (by simp)
      rw [h1]
      obtain ⟨s2, h2, h3, h4, h5⟩ := ih his' s1 hV.inv
      refine ⟨s2, h2, h3, ?_, ?_⟩
      · intro x hx; apply h4; rw [hV.ext.disc x hx]; exact hx
      · intro j hj
        rcases List.mem_cons.mp hj with rfl | hj
        · exact h4 _ hV.seen
        · exact h5 j hj
    · rw [if_neg hi]
      obtain ⟨s2, h2, h3, h4, h5⟩ := ih his' s hs
      refine ⟨s2, h2, h3, h4, ?_⟩
      intro j hj
      rcases List.mem_cons.mp hj with rfl | hj
      · exact h4 _ hi
      · exact h5 j hj

theorem tinv_init (n : Nat) (E : Nat → Nat → Prop) : TInv n E [] {} := by
  constructor <;> simp [Closed]

/-- The strongly connected components found by `reduce`. -/
theorem sccAll_total {g : Graph} {n : Nat} {E : Nat → Nat → Prop} (hg : Inv g n E) :
    ∃ s, sccAll g (List.range g.size) {} = .ok s ∧ s.ret.flatten.Nodup ∧ (∀ x, x < n ↔ ∃ C ∈ s.ret, x ∈ C) ∧
      ∀ C ∈ s.ret, C ≠ [] ∧ ∀ x ∈ C, ∀ y, y ∈ C ↔ ReflTransGen E x y ∧ ReflTransGen E y x := by
  have hsz : g.size = n := hg.rlen
  obtain ⟨s, h1, h2, -, h4⟩ := sccAll_spec hg (List.range g.size) (by rw [hsz]; simp) {} (tinv_init n E)
  have hst : s.st = [] := by
    cases hs : s.st with
    | nil => rfl
    | cons y l =>
      obtain ⟨g', h, -⟩ := h2.up y (by rw [hs]; simp)
      cases h
  refine ⟨s, h1, h2.nodup, ?_, h2.scc⟩
  intro x
  constructor
  · intro hx
    rcases (h2.found x).mp (h4 x (by rw [hsz]; simpa using hx)) with h | h
    · rw [hst] at h; cases h
    · exact h
  · intro h
    exact h2.lt x ((h2.found x).mpr (Or.inr h))

end Verif.DG
