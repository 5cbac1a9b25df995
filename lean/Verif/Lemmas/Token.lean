import Verif.Model.Token
/-!
# Closed forms of the operations on tokens, for symmetric stores
-/
set_option autoImplicit false

namespace Verif.Tok
open Verif

/-- Mates point to each other. -/
def Sym (s : Store) : Prop := ∀ a b, s a = some (some b) → s b = some (some a)

theorem tellDeath_eq (s : Store) (hs : Sym s) (a : Nat) (ha : s a ≠ none) :
    s.tellDeath a = some (fun x => if s a = some (some x) then some none else s x) := by
  unfold Store.tellDeath
  cases h : s a with
  | none => exact absurd h ha
  | some m =>
    cases m with
    | none => simp
    | some b =>
      have := hs a b h
      simp only [Store.write, this]
      congr 1
      funext x
      simp only [Store.put]
      by_cases hx : x = b
      · simp [hx]
      · have : ¬ b = x := fun e => hx e.symm
        simp [hx, this]

theorem destroy_eq (s : Store) (hs : Sym s) (a : Nat) (ha : s a ≠ none) :
    s.destroy a = some (fun x => if x = a then none else if s a = some (some x) then some none else s x) := by
  unfold Store.destroy
  rw [tellDeath_eq s hs a ha]
  rfl

theorem put_apply (s : Store) (a : Nat) (x : Option (Option Nat)) (b : Nat) : s.put a x b = if b = a then x else s b := rfl

theorem write_of (s : Store) (a : Nat) (x : Option Nat) (h : s a ≠ none) : s.write a x = some (s.put a (some x)) := by
  unfold Store.write
  cases hs : s a with
  | none => exact absurd hs h
  | some m => rfl

theorem tellMove_none (s : Store) (a : Nat) (h : s a = some none) : s.tellMove a = some s := by
  unfold Store.tellMove; rw [h]

theorem tellMove_some (s : Store) (a b : Nat) (h : s a = some (some b)) (hb : s b ≠ none) :
    s.tellMove a = some (s.put b (some (some a))) := by
  unfold Store.tellMove; rw [h]; exact write_of s b _ hb

theorem moveCtor_eq (s : Store) (hs : Sym s) (a b : Nat) (m : Option Nat) (ha : s a = none) (hb : s b = some m) :
    s.moveCtor a b = some (fun x => if x = a then some m else if x = b then (if m = some b then some (some a) else some none)
      else if m = some x then some (some a) else s x) := by
  have hab : b ≠ a := by rintro rfl; rw [ha] at hb; cases hb
  unfold Store.moveCtor
  simp only [ha, hb]
  rw [write_of _ b none (by simp [put_apply, hab, hb])]
  simp only
  cases m with
  | none =>
    rw [tellMove_none _ a (by simp [put_apply, Ne.symm hab])]
    congr 1; funext x; simp only [put_apply]; grind
  | some c =>
    have hc := hs b c hb
    have hca : c ≠ a := by rintro rfl; rw [ha] at hc; cases hc
    rw [tellMove_some _ a c (by simp [put_apply, Ne.symm hab]) (by simp only [put_apply]; grind)]
    congr 1; funext x; simp only [put_apply]; grind

theorem moveAssign_self (s : Store) (hs : Sym s) (a : Nat) (ha : s a ≠ none) :
    s.moveAssign a a = some (fun x => if x = a then some none else if s a = some (some x) then some none else s x) := by
  unfold Store.moveAssign
  rw [tellDeath_eq s hs a ha]
  obtain ⟨m, hm⟩ := Option.ne_none_iff_exists'.1 ha
  simp only [hm]
  have : ∃ k, (if some m = some (some a) then some none else some m) = some k := by grind
  obtain ⟨k, hk⟩ := this
  rw [hk]
  simp only
  rw [write_of _ a k (by simp only [hm, hk]; simp)]
  simp only
  rw [write_of _ a none (by simp [put_apply])]
  simp only
  rw [tellMove_none _ a (by simp [put_apply])]
  congr 1; funext x; simp only [put_apply]; grind

theorem moveAssign_eq (s : Store) (hs : Sym s) (a b : Nat) (ha : s a ≠ none) (hb : s b ≠ none) (hab : a ≠ b) :
    s.moveAssign a b = some (fun x => if x = a then (if s a = some (some b) then some none else s b)
      else if x = b then (if s b = some (some b) then some (some a) else some none)
      else if s a = some (some x) then some none else if s b = some (some x) then some (some a) else s x) := by
  unfold Store.moveAssign
  rw [tellDeath_eq s hs a ha]
  obtain ⟨m, hm⟩ := Option.ne_none_iff_exists'.1 ha
  obtain ⟨k, hk⟩ := Option.ne_none_iff_exists'.1 hb
  have hba : b ≠ a := Ne.symm hab
  simp only [hk]
  have : ∃ k', (if s a = some (some b) then some none else some k) = some k' := by grind
  obtain ⟨k', hk'⟩ := this
  rw [hk']
  simp only
  rw [write_of _ a k' (by grind)]
  simp only
  rw [write_of _ b none (by simp only [put_apply, hba, if_false, hk]; grind)]
  simp only
  cases k' with
  | none =>
    rw [tellMove_none _ a (by simp [put_apply, hab])]
    congr 1; funext x; simp only [put_apply]
    have := hs a b; have := hs b x; grind
  | some c =>
    have h1 : k = some c ∧ s a ≠ some (some b) := by grind
    have hc := hs b c (by rw [hk, h1.1])
    have hca : c ≠ a := by rintro rfl; exact h1.2 hc
    rw [tellMove_some _ a c (by simp [put_apply, hab]) (by simp only [put_apply]; grind)]
    congr 1; funext x; simp only [put_apply]
    have := hs a x; grind

theorem fromHandle_eq (s : Store) (a t : Nat) (ha : s a = none) (ht : s t = some none) :
    s.fromHandle a t = some (fun x => if x = a then some (some t) else if x = t then some (some a) else s x) := by
  have hta : t ≠ a := by rintro rfl; rw [ha] at ht; cases ht
  unfold Store.fromHandle
  simp only [ha]
  rw [write_of _ t _ (by simp [put_apply, hta, ht])]
  congr 1; funext x; simp only [put_apply]; grind

theorem assignHandle_eq (s : Store) (hs : Sym s) (a t : Nat) (ha : s a ≠ none) (ht : s t = some none) :
    s.assignHandle a t = some (fun x => if x = a then some (some t) else if x = t then some (some a)
      else if s a = some (some x) then some none else s x) := by
  unfold Store.assignHandle
  rw [tellDeath_eq s hs a ha]
  simp only
  rw [write_of _ a _ (by grind)]
  simp only
  rw [write_of _ t _ (by simp only [put_apply]; grind)]
  congr 1; funext x; simp only [put_apply]; grind

theorem pairWith_eq (s : Store) (a b : Nat) (ha : s a = some none) (hb : s b = some none) :
    s.pairWith a b = some (some (fun x => if x = b then some (some a) else if x = a then some (some b) else s x)) := by
  unfold Store.pairWith
  simp only [ha, hb]
  rw [if_neg (by simp), write_of _ a _ (by simp [ha])]
  simp only
  rw [write_of _ b _ (by simp only [put_apply]; grind)]
  simp only [Option.some.injEq]
  funext x; simp only [put_apply]

/-! ## Symmetry is kept -/

theorem sym_destroy (s s' : Store) (hs : Sym s) (a : Nat) (ha : s a ≠ none) (h : s.destroy a = some s') : Sym s' := by
  rw [destroy_eq s hs a ha] at h; cases h
  intro x y; have := hs x y; have := hs a x; have := hs a y; grind

theorem sym_moveCtor (s s' : Store) (hs : Sym s) (a b : Nat) (m : Option Nat) (ha : s a = none) (hb : s b = some m)
    (h : s.moveCtor a b = some s') : Sym s' := by
  rw [moveCtor_eq s hs a b m ha hb] at h; cases h
  intro x y
  have := hs x y; have := hs y x; have := hs b x; have := hs b y; have := hs x b; have := hs y b; have := hs x a; have := hs y a
  grind

theorem sym_moveAssign (s s' : Store) (hs : Sym s) (a b : Nat) (ha : s a ≠ none) (hb : s b ≠ none)
    (h : s.moveAssign a b = some s') : Sym s' := by
  by_cases hab : a = b
  · subst hab
    rw [moveAssign_self s hs a ha] at h; cases h
    intro x y; have := hs x y; have := hs a x; have := hs a y; grind
  · rw [moveAssign_eq s hs a b ha hb hab] at h; cases h
    intro x y
    have := hs x y; have := hs y x; have := hs b x; have := hs b y; have := hs x b; have := hs y b; have := hs x a; have := hs y a
    have := hs a x; have := hs a y; have := hs a b; have := hs b a
    grind

theorem sym_fromHandle (s s' : Store) (hs : Sym s) (a t : Nat) (ha : s a = none) (ht : s t = some none)
    (h : s.fromHandle a t = some s') : Sym s' := by
  rw [fromHandle_eq s a t ha ht] at h; cases h
  intro x y
  have := hs x y; have := hs x a; have := hs x t
  grind

theorem sym_assignHandle (s s' : Store) (hs : Sym s) (a t : Nat) (ha : s a ≠ none) (ht : s t = some none)
    (h : s.assignHandle a t = some s') : Sym s' := by
  rw [assignHandle_eq s hs a t ha ht] at h; cases h
  intro x y
  have := hs x y; have := hs x a; have := hs x t; have := hs a x; have := hs a y
  grind

theorem sym_pairWith (s s' : Store) (hs : Sym s) (a b : Nat) (h : s.pairWith a b = some (some s')) : Sym s' := by
  have h' := h
  unfold Store.pairWith at h'
  cases ha : s a with
  | none => simp [ha] at h'
  | some ma =>
    cases hb : s b with
    | none => simp [ha, hb] at h'
    | some mb =>
      simp only [ha, hb] at h'
      by_cases hm : ma ≠ none ∨ mb ≠ none
      · rw [if_pos hm] at h'; cases h'
      · have h1 : ma = none ∧ mb = none := by
          constructor <;> apply Classical.byContradiction <;> intro e <;> exact hm (by simp [e])
        rw [h1.1] at ha; rw [h1.2] at hb
        rw [pairWith_eq s a b ha hb] at h; cases h
        intro x y
        have := hs x y; have := hs x a; have := hs x b
        grind

end Verif.Tok
