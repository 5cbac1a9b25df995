import Verif.Model.DependencyGraph
/-!
# Correctness of the disjoint-set structure of the dependency graph
-/
set_option autoImplicit false

namespace Verif.DG
open Verif

/-- `r` is at the end of the chain of parents of `x`. -/
inductive RootOf (d : DS) : Nat → Nat → Prop
  | base (x : Nat) : d.parent x = x → RootOf d x x
  | step (x r : Nat) : d.parent x ≠ x → RootOf d (d.parent x) r → RootOf d x r

/-- Two elements are in the same set. -/
def Conn (d : DS) (x y : Nat) : Prop := ∃ r, RootOf d x r ∧ RootOf d y r

structure DSInv (n : Nat) (d : DS) : Prop where
  lt : ∀ x, x < n → d.parent x < n
  rank : ∀ x, x < n → d.parent x ≠ x → d.rank x < d.rank (d.parent x)

theorem RootOf.isRoot {d : DS} {x r : Nat} (h : RootOf d x r) : d.parent r = r := by
  induction h with
  | base x h => exact h
  | step x r h _ ih => exact ih

theorem RootOf.det {d : DS} {x r s : Nat} (h : RootOf d x r) (h' : RootOf d x s) : r = s := by
  induction h with
  | base x h => cases h' with
    | base => rfl
    | step _ _ h1 => exact absurd h h1
  | step x r h _ ih => cases h' with
    | base _ h1 => exact absurd h1 h
    | step _ _ h1 h2 => exact ih h2

theorem RootOf.lt {d : DS} {n x r : Nat} (hd : DSInv n d) (h : RootOf d x r) (hx : x < n) : r < n := by
  induction h with
  | base x h => exact hx
  | step x r h _ ih => exact ih (hd.lt _ hx)

theorem RootOf.rank_lt {d : DS} {n x r : Nat} (hd : DSInv n d) (h : RootOf d x r) (hx : x < n) :
    x ≠ r → d.rank x < d.rank r := by
  induction h with
  | base x h => intro hh; exact absurd rfl hh
  | step x r h _ ih =>
    intro _
    have h1 := hd.rank _ hx h
    by_cases h2 : d.parent x = r
    · rw [h2] at h1; exact h1
    · have := ih (hd.lt _ hx) h2; omega

/-- Number of elements with a rank greater than the rank of `x`. -/
def above (d : DS) (n x : Nat) : Nat := (List.range n).countP (fun y => decide (d.rank x < d.rank y))

theorem countP_lt_of {α : Type} (p q : α → Bool) (l : List α) (h : ∀ x ∈ l, p x = true → q x = true)
    (a : α) (ha : a ∈ l) (hp : p a = false) (hq : q a = true) : l.countP p < l.countP q := by
  induction l with
  | nil => cases ha
  | cons b l ih =>
    have hle : l.countP p ≤ l.countP q :=
      List.countP_mono_left (fun x hx => h x (List.mem_cons_of_mem _ hx))
    rcases List.mem_cons.mp ha with rfl | ha'
    · simp [hp, hq]; omega
    · have := ih (fun x hx => h x (List.mem_cons_of_mem _ hx)) ha'
      simp only [List.countP_cons]
      have h3 := h b List.mem_cons_self
      cases hb : p b <;> cases hb2 : q b <;> simp_all <;> omega

theorem above_lt {d : DS} {n x : Nat} (hd : DSInv n d) (hx : x < n) (h : d.parent x ≠ x) :
    above d n (d.parent x) < above d n x := by
  have hr := hd.rank x hx h
  unfold above
  apply countP_lt_of _ _ _ _ (d.parent x)
  · simpa using hd.lt x hx
  · simp
  · simpa using hr
  · intro y _ hy
    simp only [decide_eq_true_eq] at hy ⊢
    omega

theorem above_le (d : DS) (n x : Nat) : above d n x ≤ n := by
  unfold above
  exact Nat.le_trans List.countP_le_length (by simp)

theorem root_eq {d : DS} {n : Nat} (hd : DSInv n d) (f x : Nat) (hx : x < n) (hf : above d n x < f) :
    ∃ r, d.root f x = some r ∧ RootOf d x r := by
  induction f generalizing x with
  | zero => omega
  | succ f ih =>
    unfold DS.root
    by_cases h : x ≠ d.parent x
    · rw [if_pos h]
      have h' := above_lt hd hx h.symm
      obtain ⟨r, h1, h2⟩ := ih (d.parent x) (hd.lt x hx) (by omega)
      exact ⟨r, h1, .step _ _ h.symm h2⟩
    · rw [if_neg h]
      have h' : x = d.parent x := by omega
      exact ⟨d.parent x, rfl, by rw [← h']; exact .base x h'.symm⟩

theorem root_total {d : DS} {n : Nat} (hd : DSInv n d) (x : Nat) (hx : x < n) :
    ∃ r, d.root (n + 1) x = some r ∧ RootOf d x r :=
  root_eq hd (n + 1) x hx (Nat.lt_succ_of_le (above_le d n x))

theorem compress {d : DS} {n x r : Nat} (hd : DSInv n d) (hx : x < n) (h : RootOf d x r) (hne : d.parent x ≠ x) :
    DSInv n { d with parent := upd d.parent x r } ∧
    ∀ y s, RootOf d y s → RootOf { d with parent := upd d.parent x r } y s := by
  have hxr : r ≠ x := fun hh => hne (by subst hh; exact h.isRoot)
  constructor
  · constructor
    · intro y hy
      simp only [upd]
      split
      · exact h.lt hd hx
      · exact hd.lt y hy
    · intro y hy
      simp only [upd]
      split
      · next hyx => intro _; subst hyx; exact h.rank_lt hd hx (fun hh => hxr hh.symm)
      · exact hd.rank y hy
  · intro y s hs
    have hrr : ({ d with parent := upd d.parent x r } : DS).parent r = r := by
      simp [upd, hxr, h.isRoot]
    induction hs with
    | base y hy =>
      refine .base y ?_
      simp only [upd]
      split
      · next hyx => subst hyx; exact absurd hy hne
      · exact hy
    | step y s h1 h2 ih =>
      by_cases hyx : y = x
      · subst hyx
        have := (RootOf.step _ _ h1 h2).det h
        subst this
        refine .step _ _ ?_ ?_
        · simpa [upd] using hxr
        · have : ({ d with parent := upd d.parent y s } : DS).parent y = s := by simp [upd]
          rw [this]
          exact .base _ hrr
      · have e : ({ d with parent := upd d.parent x r } : DS).parent y = d.parent y := by simp [upd, hyx]
        refine .step _ _ ?_ ?_
        · rw [e]; exact h1
        · rw [e]; exact ih

theorem rootCompr_eq {n : Nat} {d : DS} (hd : DSInv n d) (f x : Nat) (hx : x < n) (hf : above d n x < f) :
    ∃ d' r, d.rootCompr f x = some (d', r) ∧ RootOf d x r ∧ DSInv n d' ∧ d'.rank = d.rank ∧
      (∀ y s, RootOf d y s → RootOf d' y s) ∧ (∀ y, d.parent y = y → d'.parent y = y) ∧ d'.parent x = r := by
  induction f generalizing x with
  | zero => omega
  | succ f ih =>
    unfold DS.rootCompr
    by_cases h : x ≠ d.parent x
    · rw [if_pos h]
      have h' := above_lt hd hx h.symm
      obtain ⟨d', r, h1, h2, h3, h4, h5, h6, h7⟩ := ih (d.parent x) (hd.lt x hx) (by omega)
      rw [h1]
      have hr : RootOf d x r := .step _ _ h.symm h2
      have hr' := h5 _ _ hr
      refine ⟨_, r, rfl, hr, ?_⟩
      have hxr : r ≠ x := fun hh => h (by subst hh; exact h2.isRoot.symm)
      have hne : d'.parent x ≠ x := by
        intro hh
        exact hxr (hr'.det (.base _ hh))
      obtain ⟨c1, c2⟩ := compress h3 hx hr' hne
      refine ⟨c1, h4, fun y s hs => c2 _ _ (h5 _ _ hs), ?_, by simp [upd]⟩
      intro y hy
      simp only [upd]
      split
      · next hyx => subst hyx; exact absurd hy.symm h
      · exact h6 y hy
    · rw [if_neg h]
      have h' : x = d.parent x := by omega
      refine ⟨d, d.parent x, rfl, by rw [← h']; exact .base x h'.symm, hd, rfl, fun _ _ h => h, fun _ h => h, rfl⟩

theorem link {d d' : DS} {p q : Nat} (hpq : p ≠ q) (hp : d.parent p = p) (hq : d.parent q = q)
    (hd' : d'.parent = upd d.parent p q) (y s : Nat) (hs : RootOf d y s) :
    RootOf d' y (if s = p then q else s) := by
  have hq' : RootOf d' q q := .base _ (by simp [hd', upd, Ne.symm hpq, hq])
  induction hs with
  | base y hy =>
    split
    · next h =>
      subst h
      refine .step _ _ ?_ ?_
      · rw [hd']; simp [upd]; exact fun hh => hpq hh.symm
      · rw [hd']; simpa [upd] using hq'
    · next h => exact .base _ (by simp [hd', upd, h, hy])
  | step y s h1 h2 ih =>
    have hyp : y ≠ p := fun hh => h1 (by subst hh; exact hp)
    refine .step _ _ ?_ ?_
    · rw [hd']; simpa [upd, hyp] using h1
    · have e : d'.parent y = d.parent y := by rw [hd']; simp [upd, hyp]
      rw [e]; exact ih

/-- Effect of `unify` on the sets. -/
structure Unified (n : Nat) (d d' : DS) (a b : Nat) : Prop where
  inv : DSInv n d'
  mono : ∀ x y, Conn d x y → Conn d' x y
  joined : Conn d' a b
  only : ∀ x y, x < n → y < n → Conn d' x y → Conn d x y ∨ (Conn d x a ∧ Conn d b y) ∨ (Conn d x b ∧ Conn d a y)

theorem exists_root {d : DS} {n : Nat} (hd : DSInv n d) (x : Nat) (hx : x < n) : ∃ r, RootOf d x r := by
  obtain ⟨r, _, h⟩ := root_total hd x hx
  exact ⟨r, h⟩

theorem Conn.symm {d : DS} {x y : Nat} (h : Conn d x y) : Conn d y x := by
  obtain ⟨r, h1, h2⟩ := h; exact ⟨r, h2, h1⟩

theorem Conn.trans {d : DS} {x y z : Nat} (h : Conn d x y) (h' : Conn d y z) : Conn d x z := by
  obtain ⟨r, h1, h2⟩ := h; obtain ⟨s, h3, h4⟩ := h'
  have := h2.det h3; subst this
  exact ⟨r, h1, h4⟩

theorem Conn.refl {d : DS} {n : Nat} (hd : DSInv n d) {x : Nat} (hx : x < n) : Conn d x x := by
  obtain ⟨r, h⟩ := exists_root hd x hx; exact ⟨r, h, h⟩

/-- Joining two distinct sets. `dc` is the structure after path compression, `p` and `q` are the roots. -/
theorem unified_link {n : Nat} {d dc d' : DS} {a b p q : Nat} (hd : DSInv n d)
    (hmono : ∀ y s, RootOf d y s → RootOf dc y s)
    (ha : RootOf d a p ∧ RootOf d b q ∨ RootOf d b p ∧ RootOf d a q) (hpq : p ≠ q)
    (hd' : d'.parent = upd dc.parent p q) (hinv : DSInv n d') : Unified n d d' a b := by
  have hlink : ∀ y s, RootOf d y s → RootOf d' y (if s = p then q else s) := by
    intro y s hs
    refine link hpq ?_ ?_ hd' y s (hmono _ _ hs)
    · rcases ha with ⟨h, _⟩ | ⟨h, _⟩ <;> exact (hmono _ _ h).isRoot
    · rcases ha with ⟨_, h⟩ | ⟨_, h⟩ <;> exact (hmono _ _ h).isRoot
  refine ⟨hinv, ?_, ?_, ?_⟩
  · rintro x y ⟨r, h1, h2⟩
    exact ⟨_, hlink _ _ h1, hlink _ _ h2⟩
  · rcases ha with ⟨h1, h2⟩ | ⟨h1, h2⟩
    · refine ⟨q, ?_, ?_⟩
      · simpa using hlink _ _ h1
      · simpa [Ne.symm hpq] using hlink _ _ h2
    · refine ⟨q, ?_, ?_⟩
      · simpa [Ne.symm hpq] using hlink _ _ h2
      · simpa using hlink _ _ h1
  · rintro x y hx hy ⟨r, h1, h2⟩
    obtain ⟨s, hs⟩ := exists_root hd x hx
    obtain ⟨t, ht⟩ := exists_root hd y hy
    have e1 := (hlink _ _ hs).det h1
    have e2 := (hlink _ _ ht).det h2
    rw [← e2] at e1
    by_cases hs1 : s = p <;> by_cases ht1 : t = p
    · left; exact ⟨p, hs1 ▸ hs, ht1 ▸ ht⟩
    · simp only [hs1, ht1, ite_true, ite_false] at e1
      subst hs1; subst e1
      rcases ha with ⟨h3, h4⟩ | ⟨h3, h4⟩
      · right; left; exact ⟨⟨_, hs, h3⟩, ⟨_, h4, ht⟩⟩
      · right; right; exact ⟨⟨_, hs, h3⟩, ⟨_, h4, ht⟩⟩
    · simp only [hs1, ht1, ite_true, ite_false] at e1
      subst ht1; subst e1
      rcases ha with ⟨h3, h4⟩ | ⟨h3, h4⟩
      · right; right; exact ⟨⟨_, hs, h4⟩, ⟨_, h3, ht⟩⟩
      · right; left; exact ⟨⟨_, hs, h4⟩, ⟨_, h3, ht⟩⟩
    · simp only [hs1, ht1, ite_false] at e1
      subst e1
      left; exact ⟨_, hs, ht⟩

theorem unify_spec {n : Nat} {d : DS} (hd : DSInv n d) {a b : Nat} (ha : a < n) (hb : b < n) :
    ∃ d', d.unify (n + 1) a b = some d' ∧ Unified n d d' a b := by
  obtain ⟨d1, p, e1, r1, i1, k1, m1, q1, _⟩ := rootCompr_eq hd (n + 1) a ha (Nat.lt_succ_of_le (above_le _ _ _))
  obtain ⟨d2, q, e2, r2, i2, k2, m2, q2, _⟩ := rootCompr_eq i1 (n + 1) b hb (Nat.lt_succ_of_le (above_le _ _ _))
  obtain ⟨q', r2'⟩ := exists_root hd b hb
  have := (m1 _ _ r2').det r2
  subst this
  have hpn := r1.lt hd ha
  have hqn := r2'.lt hd hb
  have hm : ∀ y s, RootOf d y s → RootOf d2 y s := fun y s h => m2 _ _ (m1 _ _ h)
  have hpp := (hm _ _ r1).isRoot
  have hqq := (hm _ _ r2').isRoot
  simp only [DS.unify, e1, e2]
  by_cases hpq : p = q'
  · rw [if_pos hpq]
    refine ⟨d2, rfl, i2, ?_, ?_, ?_⟩
    · rintro x y ⟨r, h1, h2⟩; exact ⟨r, hm _ _ h1, hm _ _ h2⟩
    · subst hpq; exact ⟨_, hm _ _ r1, hm _ _ r2'⟩
    · rintro x y hx hy ⟨r, h1, h2⟩
      obtain ⟨s, hs⟩ := exists_root hd x hx
      obtain ⟨t, ht⟩ := exists_root hd y hy
      have e3 := (hm _ _ hs).det h1
      have e4 := (hm _ _ ht).det h2
      subst e3; subst e4
      exact Or.inl ⟨_, hs, ht⟩
  · rw [if_neg hpq]
    by_cases h1 : d2.rank p < d2.rank q'
    · rw [if_pos h1]
      refine ⟨_, rfl, unified_link hd hm (Or.inl ⟨r1, r2'⟩) hpq rfl ⟨?_, ?_⟩⟩
      · intro x hx; simp only [upd]; split
        · exact hqn
        · exact i2.lt x hx
      · intro x hx; simp only [upd]; split
        · next h => subst h; intro _; exact h1
        · exact i2.rank x hx
    · rw [if_neg h1]
      by_cases h2 : d2.rank p > d2.rank q'
      · rw [if_pos h2]
        refine ⟨_, rfl, unified_link hd hm (Or.inr ⟨r2', r1⟩) (Ne.symm hpq) rfl ⟨?_, ?_⟩⟩
        · intro x hx; simp only [upd]; split
          · exact hpn
          · exact i2.lt x hx
        · intro x hx; simp only [upd]; split
          · next h => subst h; intro _; exact h2
          · exact i2.rank x hx
      · rw [if_neg h2]
        refine ⟨_, rfl, unified_link hd hm (Or.inr ⟨r2', r1⟩) (Ne.symm hpq) rfl ⟨?_, ?_⟩⟩
        · intro x hx; simp only [upd]; split
          · exact hpn
          · exact i2.lt x hx
        · intro x hx
          by_cases hxq : x = q'
          · subst hxq
            intro _
            simp only [upd, ite_true]
            rw [if_neg (fun hh => hpq hh.symm)]; omega
          · by_cases hxp : x = p
            · subst hxp
              intro hh
              simp only [upd] at hh
              rw [if_neg hxq] at hh
              exact absurd hpp hh
            · simp only [upd, if_neg hxq, if_neg hxp]
              intro hne
              have := i2.rank x hx hne
              split
              · next h => rw [h] at this; omega
              · exact this

theorem dsinv_init (n : Nat) : DSInv n DS.init := ⟨fun _ h => h, fun _ _ h => absurd rfl h⟩

theorem conn_init {x y : Nat} (h : Conn DS.init x y) : x = y := by
  obtain ⟨r, h1, h2⟩ := h
  have e1 := (RootOf.base (d := DS.init) x rfl).det h1
  have e2 := (RootOf.base (d := DS.init) y rfl).det h2
  omega

end Verif.DG
