import Mathlib.Logic.Relation
import Verif.Lemmas.Token
/-!
# C29: paired tokens

A program owns tokens at addresses and handles. A token on which there is a handle is not touched otherwise until the handle is used
(it is not moved, destroyed, paired, and gets no second handle). `C29_two_handles` and `C29_handle_then_pair` show what happens
otherwise.
-/
set_option autoImplicit false

namespace Verif.C29
open Verif Verif.Tok

/-- Tokens of the program, and the token each valid handle points to. -/
structure St where
  toks : Store
  handles : Nat → Option Nat

/-- A living token without handle on it -/
def Free (s : St) (a : Nat) : Prop := s.toks a ≠ none ∧ ∀ h, s.handles h ≠ some a

/-- One operation of a program that respects the life of the objects. -/
inductive Step (s : St) : St → Prop
  | create (a : Nat) (t : Store) (ha : s.toks a = none) (e : s.toks.create a = some t) : Step s ⟨t, s.handles⟩
  | moveCtor (a b : Nat) (t : Store) (ha : s.toks a = none) (hb : Free s b) (e : s.toks.moveCtor a b = some t) : Step s ⟨t, s.handles⟩
  | moveAssign (a b : Nat) (t : Store) (ha : Free s a) (hb : Free s b) (e : s.toks.moveAssign a b = some t) : Step s ⟨t, s.handles⟩
  | destroy (a : Nat) (t : Store) (ha : Free s a) (e : s.toks.destroy a = some t) : Step s ⟨t, s.handles⟩
  | pairWith (a b : Nat) (t : Store) (ha : Free s a) (hb : Free s b) (e : s.toks.pairWith a b = some (some t)) : Step s ⟨t, s.handles⟩
  | handle (h a t : Nat) (ha : Free s a) (hh : s.handles h = none) (e : s.toks.handle a = some t) :
      Step s ⟨s.toks, fun k => if k = h then some t else s.handles k⟩
  | fromHandle (a h t : Nat) (u : Store) (ha : s.toks a = none) (hh : s.handles h = some t) (e : s.toks.fromHandle a t = some u) :
      Step s ⟨u, fun k => if k = h then none else s.handles k⟩
  | assignHandle (a h t : Nat) (u : Store) (ha : Free s a) (hh : s.handles h = some t) (e : s.toks.assignHandle a t = some u) :
      Step s ⟨u, fun k => if k = h then none else s.handles k⟩

/-- Reachable states -/
def Reach (s : St) : Prop := Relation.ReflTransGen Step ⟨fun _ => none, fun _ => none⟩ s

/-- Invariant: symmetry, and the tokens with a handle are alive and unpaired, each with one handle. -/
structure Inv (s : St) : Prop where
  sym : Sym s.toks
  ready : ∀ h t, s.handles h = some t → s.toks t = some none
  one : ∀ h h' t, s.handles h = some t → s.handles h' = some t → h = h'

theorem create_eq (s : Store) (a : Nat) (ha : s a = none) : s.create a = some (s.put a (some none)) := by
  unfold Store.create; rw [ha]

theorem step_inv (s s' : St) (hi : Inv s) (hs : Step s s') : Inv s' := by
  obtain ⟨hsym, hr, h1⟩ := hi
  cases hs with
  | create a t ha e =>
    rw [create_eq _ _ ha] at e; cases e
    refine ⟨?_, ?_, h1⟩
    · intro x y; have := hsym x y; have := hsym x a; simp only [put_apply]; grind
    · intro h t ht; have := hr h t ht; simp only [put_apply]; grind
  | moveCtor a b t ha hb e =>
    obtain ⟨m, hm⟩ := Option.ne_none_iff_exists'.1 hb.1
    refine ⟨sym_moveCtor _ _ hsym a b m ha hm e, ?_, h1⟩
    rw [moveCtor_eq _ hsym a b m ha hm] at e; cases e
    intro h t ht
    have := hr h t ht; have := hb.2 h; have := hsym b t
    grind
  | moveAssign a b t ha hb e =>
    refine ⟨sym_moveAssign _ _ hsym a b ha.1 hb.1 e, ?_, h1⟩
    intro h t ht
    have := hr h t ht; have := ha.2 h; have := hb.2 h; have := hsym a t; have := hsym b t
    by_cases hab : a = b
    · subst hab
      rw [moveAssign_self _ hsym a ha.1] at e; cases e; grind
    · rw [moveAssign_eq _ hsym a b ha.1 hb.1 hab] at e; cases e; grind
  | destroy a t ha e =>
    refine ⟨sym_destroy _ _ hsym a ha.1 e, ?_, h1⟩
    rw [destroy_eq _ hsym a ha.1] at e; cases e
    intro h t ht
    have := hr h t ht; have := ha.2 h
    grind
  | pairWith a b t ha hb e =>
    refine ⟨sym_pairWith _ _ hsym a b e, ?_, h1⟩
    intro h u hu
    have h2 := hr h u hu; have h3 := ha.2 h; have h4 := hb.2 h
    have hua : u ≠ a := by rintro rfl; exact h3 hu
    have hub : u ≠ b := by rintro rfl; exact h4 hu
    obtain ⟨m, hm⟩ := Option.ne_none_iff_exists'.1 ha.1
    obtain ⟨k, hk⟩ := Option.ne_none_iff_exists'.1 hb.1
    by_cases hmk : m = none ∧ k = none
    · rw [hmk.1] at hm; rw [hmk.2] at hk
      rw [pairWith_eq _ a b hm hk] at e; cases e
      simp [hua, hub, h2]
    · exfalso
      unfold Store.pairWith at e
      simp only [hm, hk] at e
      rw [if_pos (by grind)] at e; cases e
  | handle h a t ha hh e =>
    have : s.toks a = some none ∧ t = a := by
      unfold Store.handle at e
      split at e <;> grind
    obtain ⟨h2, rfl⟩ := this
    refine ⟨hsym, ?_, ?_⟩
    · intro k u; have := hr k u; simp only; grind
    · intro k k' u
      have := h1 k k' u; have := ha.2 k; have := ha.2 k'
      simp only; grind
  | fromHandle a h t u ha hh e =>
    have ht := hr h t hh
    refine ⟨sym_fromHandle _ _ hsym a t ha ht e, ?_, ?_⟩
    · rw [fromHandle_eq _ a t ha ht] at e; cases e
      intro k v; have := hr k v; have := h1 h k t hh; simp only; grind
    · intro k k' v; have := h1 k k' v; simp only; grind
  | assignHandle a h t u ha hh e =>
    have ht := hr h t hh
    refine ⟨sym_assignHandle _ _ hsym a t ha.1 ht e, ?_, ?_⟩
    · rw [assignHandle_eq _ hsym a t ha.1 ht] at e; cases e
      intro k v; have := hr k v; have := h1 h k t hh; have := ha.2 k; simp only; grind
    · intro k k' v; have := h1 k k' v; simp only; grind

theorem reach_inv (s : St) (h : Reach s) : Inv s := by
  induction h with
  | refl => exact ⟨fun _ _ h => (by cases h), fun _ _ h => (by cases h), fun _ _ _ h => (by cases h)⟩
  | tail _ hst ih => exact step_inv _ _ ih hst

/-! ## Properties -/

/-- In every reachable state, the mate of a token is a living token whose mate it is. -/
theorem C29_symmetric (s : St) (h : Reach s) (a b : Nat) :
    (s.toks.isPairedWith a b = true ↔ s.toks.isPairedWith b a = true) ∧ (s.toks a = some (some b) → s.toks b ≠ none) := by
  have hsym := (reach_inv s h).sym
  have h1 := hsym a b; have h2 := hsym b a
  simp only [Store.isPairedWith, decide_eq_true_eq]
  grind

/-- **C29 (other element).** `otherPairElement` gives the mate of a token, throws for a token that has none, and is its own inverse. -/
theorem C29_other (s : St) (h : Reach s) (a b : Nat) :
    (s.toks.other a = some (some b) ↔ s.toks.isPairedWith a b = true) ∧ (s.toks.other a = some (some b) ↔ s.toks.other b = some (some a)) ∧
    ((∃ m, s.toks.other a = some (some m)) ↔ s.toks.isPaired a = true) := by
  have h1 : ∀ a b, s.toks.other a = some (some b) ↔ s.toks.isPairedWith a b = true := by
    intro a b; simp [Store.other, Store.isPairedWith]
  refine ⟨h1 a b, (h1 a b).trans (Iff.trans ?_ (h1 b a).symm), ?_⟩
  · exact (C29_symmetric s h a b).1
  · unfold Store.other Store.isPaired
    cases e : s.toks a with
    | none => simp
    | some m => cases m <;> simp

/-- A token has at most one mate, and the relation with the mates is one to one. -/
theorem C29_one_mate (s : St) (h : Reach s) (a b c : Nat) (h1 : s.toks.isPairedWith b a = true) (h2 : s.toks.isPairedWith c a = true) :
    b = c := by
  have hsym := (reach_inv s h).sym
  simp only [Store.isPairedWith, decide_eq_true_eq] at h1 h2
  have e1 := hsym b a h1; have e2 := hsym c a h2
  rw [e1] at e2; cases e2; rfl

/-- No operation meets an object that does not exist or a failing assertion (`pairWith` may throw). -/
theorem C29_no_ub (s : St) (h : Reach s) :
    (∀ a, s.toks a = none → s.toks.create a ≠ none) ∧ (∀ a b, s.toks a = none → Free s b → s.toks.moveCtor a b ≠ none) ∧
    (∀ a b, Free s a → Free s b → s.toks.moveAssign a b ≠ none) ∧ (∀ a, Free s a → s.toks.destroy a ≠ none) ∧
    (∀ a b, Free s a → Free s b → s.toks.pairWith a b ≠ none) ∧
    (∀ h t a, s.handles h = some t → s.toks a = none → s.toks.fromHandle a t ≠ none) ∧
    (∀ h t a, s.handles h = some t → Free s a → s.toks.assignHandle a t ≠ none) := by
  obtain ⟨hsym, hr, _⟩ := reach_inv s h
  refine ⟨?_, ?_, ?_, ?_, ?_, ?_, ?_⟩
  · intro a ha; rw [create_eq _ _ ha]; simp
  · intro a b ha hb
    obtain ⟨m, hm⟩ := Option.ne_none_iff_exists'.1 hb.1
    rw [moveCtor_eq _ hsym a b m ha hm]; simp
  · intro a b ha hb
    by_cases hab : a = b
    · subst hab; rw [moveAssign_self _ hsym a ha.1]; simp
    · rw [moveAssign_eq _ hsym a b ha.1 hb.1 hab]; simp
  · intro a ha; rw [destroy_eq _ hsym a ha.1]; simp
  · intro a b ha hb
    obtain ⟨m, hm⟩ := Option.ne_none_iff_exists'.1 ha.1
    obtain ⟨k, hk⟩ := Option.ne_none_iff_exists'.1 hb.1
    by_cases hmk : m = none ∧ k = none
    · rw [hmk.1] at hm; rw [hmk.2] at hk
      rw [pairWith_eq _ a b hm hk]; simp
    · unfold Store.pairWith
      simp only [hm, hk]
      rw [if_pos (by grind)]; simp
  · intro k t a hk ha; rw [fromHandle_eq _ a t ha (hr k t hk)]; simp
  · intro k t a hk ha; rw [assignHandle_eq _ hsym a t ha.1 (hr k t hk)]; simp

/-- After the destruction of `a`: its mate is unpaired, all other pairs stay. -/
theorem C29_destroy (s : St) (h : Reach s) (a : Nat) (ha : Free s a) :
    ∃ t, s.toks.destroy a = some t ∧ t a = none ∧ (∀ b, b ≠ a → s.toks a = some (some b) → t b = some none) ∧
      (∀ b, b ≠ a → s.toks a ≠ some (some b) → t b = s.toks b) := by
  have hsym := (reach_inv s h).sym
  refine ⟨_, destroy_eq _ hsym a ha.1, by simp, ?_, ?_⟩
  · intro b hb e; simp [hb, e]
  · intro b hb e; simp [hb, e]

/-- After the move of `b` to a new place `a`: the mate of `b` is the mate of `a`, `b` is unpaired, all other pairs stay. -/
theorem C29_moveCtor (s : St) (h : Reach s) (a b : Nat) (ha : s.toks a = none) (hb : Free s b) (hself : s.toks b ≠ some (some b)) :
    ∃ t, s.toks.moveCtor a b = some t ∧ t a = s.toks b ∧ t b = some none ∧ (∀ c, s.toks b = some (some c) → t c = some (some a)) ∧
      (∀ c, c ≠ a → c ≠ b → s.toks b ≠ some (some c) → t c = s.toks c) := by
  have hsym := (reach_inv s h).sym
  obtain ⟨m, hm⟩ := Option.ne_none_iff_exists'.1 hb.1
  have hab : b ≠ a := by rintro rfl; exact hb.1 ha
  refine ⟨_, moveCtor_eq _ hsym a b m ha hm, by simp [hm], ?_, ?_, ?_⟩
  · grind
  · intro c hc; have := hsym b c hc; grind
  · intro c h1 h2 h3; grind

/-- After the assignment `a = std::move(b)`: the former mate of `a` is unpaired, `a` has the mate of `b` (none if it was `a`), `b` is
unpaired, all other pairs stay. -/
theorem C29_moveAssign (s : St) (h : Reach s) (a b : Nat) (ha : Free s a) (hb : Free s b) (hab : a ≠ b)
    (hself : s.toks b ≠ some (some b)) :
    ∃ t, s.toks.moveAssign a b = some t ∧ t b = some none ∧
      (s.toks a = some (some b) → t a = some none) ∧ (s.toks a ≠ some (some b) → t a = s.toks b) ∧
      (∀ c, c ≠ a → c ≠ b → s.toks a = some (some c) → t c = some none) ∧
      (∀ c, c ≠ a → s.toks b = some (some c) → t c = some (some a)) ∧
      (∀ c, c ≠ a → c ≠ b → s.toks a ≠ some (some c) → s.toks b ≠ some (some c) → t c = s.toks c) := by
  have hsym := (reach_inv s h).sym
  refine ⟨_, moveAssign_eq _ hsym a b ha.1 hb.1 hab, ?_, ?_, ?_, ?_, ?_, ?_⟩
  · grind
  · grind
  · grind
  · grind
  · intro c h1 h2
    have := hsym b c h2; have := hsym a c
    grind
  · grind

/-- Self assignment unpairs the token and its mate. -/
theorem C29_self_move (s : St) (h : Reach s) (a : Nat) (ha : Free s a) :
    ∃ t, s.toks.moveAssign a a = some t ∧ t a = some none ∧ ∀ b, s.toks a = some (some b) → t b = some none := by
  have hsym := (reach_inv s h).sym
  refine ⟨_, moveAssign_self _ hsym a ha.1, by simp, ?_⟩
  intro b hb; simp [hb]

/-- `pairWith` pairs two unpaired tokens, and throws otherwise. -/
theorem C29_pairWith (s : St) (a b : Nat) (ha : Free s a) (hb : Free s b) :
    ((s.toks.isPaired a = true ∨ s.toks.isPaired b = true) → s.toks.pairWith a b = some none) ∧
    (s.toks.isPaired a = false → s.toks.isPaired b = false → ∃ t, s.toks.pairWith a b = some (some t) ∧
      t.isPairedWith a b = true ∧ t.isPairedWith b a = true ∧ ∀ c, c ≠ a → c ≠ b → t c = s.toks c) := by
  obtain ⟨m, hm⟩ := Option.ne_none_iff_exists'.1 ha.1
  obtain ⟨k, hk⟩ := Option.ne_none_iff_exists'.1 hb.1
  constructor
  · intro hp
    unfold Store.pairWith
    simp only [hm, hk]
    rw [if_pos]
    simp only [Store.isPaired, hm, hk] at hp
    cases m <;> cases k <;> simp_all
  · intro h1 h2
    have h3 : m = none := by cases m <;> simp_all [Store.isPaired]
    have h4 : k = none := by cases k <;> simp_all [Store.isPaired]
    rw [h3] at hm; rw [h4] at hk
    refine ⟨_, pairWith_eq _ a b hm hk, ?_, ?_, ?_⟩
    · simp only [Store.isPairedWith, decide_eq_true_eq]; grind
    · simp [Store.isPairedWith]
    · intro c hc1 hc2; simp [hc1, hc2]

/-- The use of a handle pairs the new token with the token of the handle; the former mate of the token assigned to is unpaired. -/
theorem C29_handle (s : St) (h : Reach s) (k t : Nat) (hk : s.handles k = some t) :
    (∀ a, s.toks a = none → ∃ u, s.toks.fromHandle a t = some u ∧ u a = some (some t) ∧ u t = some (some a) ∧
      ∀ c, c ≠ a → c ≠ t → u c = s.toks c) ∧
    (∀ a, Free s a → ∃ u, s.toks.assignHandle a t = some u ∧ u a = some (some t) ∧ u t = some (some a) ∧
      (∀ c, c ≠ a → s.toks a = some (some c) → u c = some none) ∧
      ∀ c, c ≠ a → c ≠ t → s.toks a ≠ some (some c) → u c = s.toks c) := by
  obtain ⟨hsym, hr, _⟩ := reach_inv s h
  have ht := hr k t hk
  constructor
  · intro a ha
    refine ⟨_, fromHandle_eq _ a t ha ht, by simp, ?_, ?_⟩
    · grind
    · grind
  · intro a ha
    have hta : t ≠ a := fun e => ha.2 k (by rw [hk, e])
    refine ⟨_, assignHandle_eq _ hsym a t ha.1 ht, by simp, ?_, ?_, ?_⟩
    · grind
    · intro c hc e; have := hsym a c e; grind
    · grind

/-! ## What does not hold -/

/-- Two handles on the same token break the symmetry: the token 1 believes that it is paired with 0, which is paired with 2. After the
destruction of 0, the destruction of 1 is undefined behaviour. -/
theorem C29_two_handles :
    ∃ s0 s1 s2 s3 : Store, Store.create (fun _ => none) 0 = some s0 ∧ s0.handle 0 = some 0 ∧ s0.fromHandle 1 0 = some s1 ∧
      s1.fromHandle 2 0 = some s2 ∧ s2.isPairedWith 1 0 = true ∧ s2.isPairedWith 0 1 = false ∧ s2.destroy 0 = some s3 ∧
      s3.isPaired 1 = true ∧ s3.destroy 1 = none :=
  ⟨_, _, _, _, rfl, rfl, rfl, rfl, rfl, rfl, rfl, rfl, rfl⟩

/-- The same if the token is paired between the creation and the use of a handle. -/
theorem C29_handle_then_pair :
    ∃ s0 s1 s2 s3 : Store, Store.create (fun _ => none) 0 = some s0 ∧ s0.create 1 = some s1 ∧ s1.handle 0 = some 0 ∧
      s1.pairWith 0 1 = some (some s2) ∧ s2.fromHandle 2 0 = some s3 ∧ s3.isPairedWith 1 0 = true ∧ s3.isPairedWith 0 1 = false :=
  ⟨_, _, _, _, rfl, rfl, rfl, rfl, rfl, rfl, rfl⟩

/-- A token can be paired with itself. -/
theorem C29_self_pair :
    ∃ s0 s1 : Store, Store.create (fun _ => none) 0 = some s0 ∧ s0.pairWith 0 0 = some (some s1) ∧ s1.isPairedWith 0 0 = true :=
  ⟨_, _, rfl, rfl, rfl⟩

/-! ## Non-vacuity -/

/-- A pair (0, 1) and an unpaired token 2 with a handle, which is the fourth state of a legal history. -/
example : ∃ s : St, Reach s ∧ s.toks.isPairedWith 0 1 = true ∧ s.handles 7 = some 2 ∧ Free s 0 ∧ s.toks 5 = none := by
  let e0 : St := ⟨fun _ => none, fun _ => none⟩
  let e1 : St := ⟨e0.toks.put 0 (some none), e0.handles⟩
  let e2 : St := ⟨e1.toks.put 1 (some none), e1.handles⟩
  let e3 : St := ⟨e2.toks.put 2 (some none), e2.handles⟩
  let e4 : St := ⟨(e3.toks.put 0 (some (some 1))).put 1 (some (some 0)), e3.handles⟩
  let e5 : St := ⟨e4.toks, fun k => if k = 7 then some 2 else e4.handles k⟩
  have f : ∀ a, e3.toks a ≠ none → Free e3 a := fun a h => ⟨h, fun _ h => by cases h⟩
  have h3 : Reach e3 := .tail (.tail (.tail .refl (.create 0 _ rfl rfl)) (.create 1 _ rfl rfl)) (.create 2 _ rfl rfl)
  have h4 : Reach e4 := .tail h3 (.pairWith 0 1 _ (f 0 (by decide)) (f 1 (by decide)) rfl)
  have h5 : Reach e5 := .tail h4 (.handle 7 2 2 ⟨by decide, fun _ h => by cases h⟩ rfl rfl)
  refine ⟨e5, h5, rfl, rfl, ⟨by decide, ?_⟩, rfl⟩
  intro k hk
  simp only [e5, e4, e3, e2, e1, e0] at hk
  split at hk <;> cases hk

/-- Tokens 0 and 1 paired with each other, token 2 with a handle. -/
def exT : St :=
  ⟨((((Store.put (fun _ => none) 0 (some none)).put 1 (some none)).put 2 (some none)).put 0 (some (some 1))).put 1 (some (some 0)),
    fun k => if k = 7 then some 2 else none⟩

theorem exT_reach : Reach exT := by
  let e0 : St := ⟨fun _ => none, fun _ => none⟩
  let e1 : St := ⟨e0.toks.put 0 (some none), e0.handles⟩
  let e2 : St := ⟨e1.toks.put 1 (some none), e1.handles⟩
  let e3 : St := ⟨e2.toks.put 2 (some none), e2.handles⟩
  let e4 : St := ⟨(e3.toks.put 0 (some (some 1))).put 1 (some (some 0)), e3.handles⟩
  let e5 : St := ⟨e4.toks, fun k => if k = 7 then some 2 else e4.handles k⟩
  have f : ∀ a, e3.toks a ≠ none → Free e3 a := fun a h => ⟨h, fun _ h => by cases h⟩
  have h3 : Reach e3 := .tail (.tail (.tail .refl (.create 0 _ rfl rfl)) (.create 1 _ rfl rfl)) (.create 2 _ rfl rfl)
  have h4 : Reach e4 := .tail h3 (.pairWith 0 1 _ (f 0 (by decide)) (f 1 (by decide)) rfl)
  have h5 : Reach e5 := .tail h4 (.handle 7 2 2 ⟨by decide, fun _ h => by cases h⟩ rfl rfl)
  exact h5

theorem exT_free (a : Nat) (ha : a = 0 ∨ a = 1) : Free exT a := by
  refine ⟨by rcases ha with rfl | rfl <;> decide, ?_⟩
  intro k hk
  simp only [exT] at hk
  split at hk
  · rcases ha with rfl | rfl <;> cases hk
  · cases hk

example : exT.toks.isPairedWith 1 0 = true := (C29_symmetric exT exT_reach 0 1).1.1 rfl
example : exT.toks.other 1 = some (some 0) := (C29_other exT exT_reach 0 1).2.1.1 rfl
example : (0 : Nat) = 0 := C29_one_mate exT exT_reach 1 0 0 rfl rfl
example := C29_no_ub exT exT_reach
example : ∃ t, exT.toks.destroy 0 = some t ∧ t 0 = none ∧ t 1 = some none := by
  obtain ⟨t, h1, h2, h3, _⟩ := C29_destroy exT exT_reach 0 (exT_free 0 (by decide))
  exact ⟨t, h1, h2, h3 1 (by decide) rfl⟩
example : ∃ t, exT.toks.moveCtor 5 0 = some t ∧ t 5 = some (some 1) ∧ t 1 = some (some 5) := by
  obtain ⟨t, h1, h2, _, h3, _⟩ := C29_moveCtor exT exT_reach 5 0 rfl (exT_free 0 (by decide)) (by decide)
  exact ⟨t, h1, h2, h3 1 rfl⟩
example : ∃ t, exT.toks.moveAssign 0 1 = some t ∧ t 1 = some none ∧ t 0 = some none := by
  obtain ⟨t, h1, h2, h3, _⟩ := C29_moveAssign exT exT_reach 0 1 (exT_free 0 (by decide)) (exT_free 1 (by decide)) (by decide) (by decide)
  exact ⟨t, h1, h2, h3 rfl⟩
example := C29_self_move exT exT_reach 0 (exT_free 0 (by decide))
example : exT.toks.pairWith 0 1 = some none :=
  (C29_pairWith exT 0 1 (exT_free 0 (by decide)) (exT_free 1 (by decide))).1 (Or.inl rfl)
example : ∃ u, exT.toks.fromHandle 5 2 = some u ∧ u 5 = some (some 2) ∧ u 2 = some (some 5) := by
  obtain ⟨u, h1, h2, h3, _⟩ := (C29_handle exT exT_reach 7 2 rfl).1 5 rfl
  exact ⟨u, h1, h2, h3⟩

end Verif.C29
