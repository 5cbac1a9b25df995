import Verif.Lemmas.Token
/-!
# Tokens of the managers and of their users
-/
set_option autoImplicit false

namespace Verif.Tok
open Verif

theorem cl_inj (a b : Nat) : cl a = cl b ↔ a = b := by unfold cl; omega
theorem slot_inj (a b : Nat) : slot a = slot b ↔ a = b := by unfold slot; omega
theorem ss_inj (a b : Nat) (h : some (some (slot a)) = some (some (slot b))) : a = b := by
  simp only [Option.some.injEq, slot_inj] at h; exact h
theorem cl_ne_slot (a b : Nat) : cl a ≠ slot b := by unfold cl slot; omega
theorem slot_ne_cl (a b : Nat) : slot a ≠ cl b := by unfold cl slot; omega
theorem cases_addr (x : Nat) : (∃ a, x = cl a) ∨ (∃ k, x = slot k) := by
  rcases Nat.mod_two_eq_zero_or_one x with h | h
  · left; exact ⟨x / 2, by unfold cl; omega⟩
  · right; exact ⟨x / 2, by unfold slot; omega⟩

/-- The tokens of the managers are paired with tokens of users only. -/
def Apart (s : Store) : Prop := ∀ k y, s (slot k) = some (some y) → ∃ a, y = cl a

/-- Effect of `eraseTok` on the tokens -/
structure Erased (s s' : Store) (a n : Nat) : Prop where
  sym : Sym s'
  apart : Apart s'
  slots : ∀ k, s' (slot k) = if k = a + n then none else if a ≤ k ∧ k < a + n then s (slot (k + 1)) else s (slot k)
  first : ∀ b, s (cl b) = some (some (slot a)) → s' (cl b) = some none
  moved : ∀ b k, a < k → k ≤ a + n → s (cl b) = some (some (slot k)) → s' (cl b) = some (some (slot (k - 1)))
  kept : ∀ b, (∀ k, a ≤ k → k ≤ a + n → s (cl b) ≠ some (some (slot k))) → s' (cl b) = s (cl b)

theorem eraseTok_spec (n : Nat) (s : Store) (a : Nat) (hs : Sym s) (ha : Apart s) (hl : ∀ k, a ≤ k → k ≤ a + n → s (slot k) ≠ none) :
    ∃ s', eraseTok s a n = some s' ∧ Erased s s' a n := by
  induction n generalizing s a with
  | zero =>
    have e := destroy_eq s hs (slot a) (hl a (by omega) (by omega))
    refine ⟨_, e, sym_destroy s _ hs (slot a) (hl a (by omega) (by omega)) e, ?_, ?_, ?_, ?_, ?_⟩
    · intro k y
      simp only [slot_inj]
      have := ha k y
      grind
    · intro k
      simp only [slot_inj]
      have : s (slot a) ≠ some (some (slot k)) := fun e => by
        obtain ⟨b, hb⟩ := ha a _ e; exact slot_ne_cl _ _ hb
      simp only [this, if_false]
      by_cases hk : k = a
      · simp [hk]
      · rw [if_neg hk, if_neg (by omega), if_neg (by omega)]
    · intro b hb
      have := hs _ _ hb
      simp only [cl_ne_slot, if_false, this, if_true]
    · intro b k h1 h2; omega
    · intro b hb
      have h1 : s (slot a) ≠ some (some (cl b)) := fun e => hb a (by omega) (by omega) (hs _ _ e)
      simp only [cl_ne_slot, if_false, h1]
  | succ n ih =>
    have l0 := hl a (by omega) (by omega)
    have l1 := hl (a + 1) (by omega) (by omega)
    have hne : slot a ≠ slot (a + 1) := by rw [Ne, slot_inj]; omega
    have e := moveAssign_eq s hs (slot a) (slot (a + 1)) l0 l1 hne
    have hs1 := sym_moveAssign s _ hs (slot a) (slot (a + 1)) l0 l1 e
    have n0 : ∀ k, s (slot a) ≠ some (some (slot k)) := fun k e => by obtain ⟨b, hb⟩ := ha a _ e; exact slot_ne_cl _ _ hb
    have n1 : ∀ k, s (slot (a + 1)) ≠ some (some (slot k)) := fun k e => by obtain ⟨b, hb⟩ := ha _ _ e; exact slot_ne_cl _ _ hb
    simp only [eraseTok, e]
    generalize hgen : (fun x => if x = slot a then (if s (slot a) = some (some (slot (a + 1))) then some none else s (slot (a + 1)))
      else if x = slot (a + 1) then (if s (slot (a + 1)) = some (some (slot (a + 1))) then some (some (slot a)) else some none)
      else if s (slot a) = some (some x) then some none else if s (slot (a + 1)) = some (some x) then some (some (slot a)) else s x) = s1 at *
    have slots1 : ∀ k, s1 (slot k) = if k = a then s (slot (a + 1)) else if k = a + 1 then some none else s (slot k) := by
      intro k
      rw [← hgen]
      simp only [slot_inj, n0, n1, if_false]
    have cl1 : ∀ b, s1 (cl b) = if s (slot a) = some (some (cl b)) then some none
        else if s (slot (a + 1)) = some (some (cl b)) then some (some (slot a)) else s (cl b) := by
      intro b
      rw [← hgen]
      simp only [cl_ne_slot, if_false]
    have ha1 : Apart s1 := by
      intro k y
      rw [slots1]
      have := ha (a + 1) y; have := ha k y
      grind
    obtain ⟨s', e', E⟩ := ih s1 (a + 1) hs1 ha1 (by
      intro k h1 h2
      rw [slots1]
      by_cases h3 : k = a + 1
      · subst h3; simp
      · have := hl k (by omega) (by omega)
        have : k ≠ a := by omega
        simp [*])
    refine ⟨s', e', E.sym, E.apart, ?_, ?_, ?_, ?_⟩
    · intro k
      rw [E.slots]
      by_cases h1 : k = a + (n + 1)
      · rw [if_pos (by omega), if_pos h1]
      · rw [if_neg (by omega), if_neg h1]
        by_cases h2 : a + 1 ≤ k ∧ k < a + 1 + n
        · rw [if_pos h2, if_pos (by omega), slots1, if_neg (by omega), if_neg (by omega)]
        · rw [if_neg h2, slots1]
          by_cases h3 : k = a
          · subst h3; rw [if_pos rfl, if_pos (by omega)]
          · rw [if_neg h3, if_neg (by omega), if_neg (by omega)]
    · intro b hb
      have h1 : s1 (cl b) = some none := by rw [cl1, if_pos (hs _ _ hb)]
      rw [E.kept b (by intro k _ _ e; rw [h1] at e; cases e), h1]
    · intro b k h1 h2 hb
      have hk := hs _ _ hb
      have hna : s (slot a) ≠ some (some (cl b)) := fun e => by
        have := hs _ _ e; rw [hb] at this; have := ss_inj _ _ this; omega
      by_cases h3 : k = a + 1
      · subst h3
        have h4 : s1 (cl b) = some (some (slot a)) := by rw [cl1, if_neg hna, if_pos hk]
        rw [E.kept b (by intro k h5 _ e; rw [h4] at e; have := ss_inj _ _ e; omega), h4]
        rfl
      · have hn1 : s (slot (a + 1)) ≠ some (some (cl b)) := fun e => by
          have := hs _ _ e; rw [hb] at this; have := ss_inj _ _ this; omega
        have h4 : s1 (cl b) = some (some (slot k)) := by rw [cl1, if_neg hna, if_neg hn1, hb]
        exact E.moved b k (by omega) (by omega) h4
    · intro b hb
      have h1 : s (slot a) ≠ some (some (cl b)) := fun e => hb a (by omega) (by omega) (hs _ _ e)
      have h2 : s (slot (a + 1)) ≠ some (some (cl b)) := fun e => hb (a + 1) (by omega) (by omega) (hs _ _ e)
      have h4 : s1 (cl b) = s (cl b) := by rw [cl1, if_neg h1, if_neg h2]
      rw [E.kept b (by intro k h5 h6; rw [h4]; exact hb k (by omega) (by omega)), h4]

/-- Effect of `relocate` on the tokens -/
structure Relocated (s s' : Store) (dst src n : Nat) : Prop where
  sym : Sym s'
  apart : Apart s'
  new : ∀ i, i < n → s' (slot (dst + i)) = s (slot (src + i))
  old : ∀ i, i < n → s' (slot (src + i)) = none
  slots : ∀ k, (∀ i, i < n → k ≠ dst + i ∧ k ≠ src + i) → s' (slot k) = s (slot k)
  moved : ∀ b i, i < n → s (cl b) = some (some (slot (src + i))) → s' (cl b) = some (some (slot (dst + i)))
  kept : ∀ b, (∀ i, i < n → s (cl b) ≠ some (some (slot (src + i)))) → s' (cl b) = s (cl b)

theorem relocate_spec (n : Nat) (s : Store) (dst src : Nat) (hs : Sym s) (ha : Apart s) (hl : ∀ i, i < n → s (slot (src + i)) ≠ none)
    (hf : ∀ i, i < n → s (slot (dst + i)) = none) (hd : src + n ≤ dst ∨ n = 0) :
    ∃ s', relocate s dst src n = some s' ∧ Relocated s s' dst src n := by
  induction n with
  | zero =>
    exact ⟨s, rfl, hs, ha, by intro i h; omega, by intro i h; omega, fun _ _ => rfl, by intro b i h; omega, fun _ _ => rfl⟩
  | succ n ih =>
    obtain ⟨s1, e1, R⟩ := ih (fun i h => hl i (by omega)) (fun i h => hf i (by omega)) (by omega)
    have d1 : s1 (slot (dst + n)) = none := by
      rw [R.slots (dst + n) (by intro i h; omega)]; exact hf n (by omega)
    have l1 : s1 (slot (src + n)) = s (slot (src + n)) := R.slots (src + n) (by intro i h; omega)
    obtain ⟨m, hm⟩ := Option.ne_none_iff_exists'.1 (hl n (by omega))
    rw [hm] at l1
    have e2 := moveCtor_eq s1 R.sym _ _ m d1 l1
    have hs2 := sym_moveCtor s1 _ R.sym _ _ m d1 l1 e2
    have nm : ∀ k, m ≠ some (slot k) := fun k e => by
      rw [e] at hm; obtain ⟨b, hb⟩ := ha _ _ hm; exact slot_ne_cl _ _ hb
    generalize hgen : (fun x => if x = slot (dst + n) then some m else if x = slot (src + n) then
      (if m = some (slot (src + n)) then some (some (slot (dst + n))) else some none)
      else if m = some x then some (some (slot (dst + n))) else s1 x) = s2 at *
    have slots2 : ∀ k, s2 (slot k) = if k = dst + n then some m else if k = src + n then some none else s1 (slot k) := by
      intro k; rw [← hgen]; simp only [slot_inj, nm, if_false]
    have cl2 : ∀ b, s2 (cl b) = if m = some (cl b) then some (some (slot (dst + n))) else s1 (cl b) := by
      intro b; rw [← hgen]; simp only [cl_ne_slot, if_false]
    have l2 : s2 (slot (src + n)) = some none := by rw [slots2, if_neg (by omega), if_pos rfl]
    have e3 := destroy_eq s2 hs2 (slot (src + n)) (by rw [l2]; simp)
    have hs3 := sym_destroy s2 _ hs2 (slot (src + n)) (by rw [l2]; simp) e3
    have e3' : Store.destroy s2 (slot (src + n)) = some (fun x => if x = slot (src + n) then none else s2 x) := by
      rw [e3]; congr 1; funext x; simp [l2]
    rw [e3] at e3'
    injection e3' with e3''
    rw [e3''] at e3 hs3
    refine ⟨_, by simp only [relocate, e1, e2]; exact e3, hs3, ?_, ?_, ?_, ?_, ?_, ?_⟩
    · intro k y
      simp only [slot_inj, slots2]
      have := R.apart k y
      have h3 : m = some y → ∃ a, y = cl a := by intro e; rw [e] at hm; exact ha _ _ hm
      grind
    · intro i hi
      simp only [slot_inj, slots2]
      by_cases h1 : i = n
      · subst h1; rw [if_neg (by omega), if_pos rfl, hm]
      · rw [if_neg (by omega), if_neg (by omega), if_neg (by omega)]; exact R.new i (by omega)
    · intro i hi
      simp only [slot_inj, slots2]
      by_cases h1 : i = n
      · subst h1; rw [if_pos rfl]
      · rw [if_neg (by omega), if_neg (by omega), if_neg (by omega)]; exact R.old i (by omega)
    · intro k hk
      have h1 := hk n (by omega)
      simp only [slot_inj, slots2]
      rw [if_neg h1.2, if_neg h1.1, if_neg h1.2]
      exact R.slots k (fun i hi => hk i (by omega))
    · intro b i hi hb
      simp only [cl_ne_slot, if_false, cl2]
      have hb' := hs _ _ hb
      by_cases h1 : i = n
      · subst h1; rw [hm] at hb'; cases hb'; rw [if_pos rfl]
      · have : m ≠ some (cl b) := fun e => by
          rw [e] at hm; have := hs _ _ hm; rw [hb] at this; have := ss_inj _ _ this; omega
        rw [if_neg this]; exact R.moved b i (by omega) hb
    · intro b hb
      simp only [cl_ne_slot, if_false, cl2]
      have : m ≠ some (cl b) := fun e => by
        rw [e] at hm; exact hb n (by omega) (hs _ _ hm)
      rw [if_neg this]; exact R.kept b (fun i hi => hb i (by omega))

/-- Effect of `destroyToks` on the tokens -/
structure Destroyed (s s' : Store) (a n : Nat) : Prop where
  sym : Sym s'
  apart : Apart s'
  slots : ∀ k, s' (slot k) = if a ≤ k ∧ k < a + n then none else s (slot k)
  freed : ∀ b k, a ≤ k → k < a + n → s (cl b) = some (some (slot k)) → s' (cl b) = some none
  kept : ∀ b, (∀ k, a ≤ k → k < a + n → s (cl b) ≠ some (some (slot k))) → s' (cl b) = s (cl b)

theorem destroyToks_spec (n : Nat) (s : Store) (a : Nat) (hs : Sym s) (ha : Apart s) (hl : ∀ k, a ≤ k → k < a + n → s (slot k) ≠ none) :
    ∃ s', destroyToks s a n = some s' ∧ Destroyed s s' a n := by
  induction n generalizing s a with
  | zero =>
    refine ⟨s, rfl, hs, ha, ?_, ?_, fun _ _ => rfl⟩
    · intro k; rw [if_neg (by omega)]
    · intro b k h1 h2; omega
  | succ n ih =>
    have l0 := hl a (by omega) (by omega)
    obtain ⟨s1, e, E⟩ := eraseTok_spec 0 s a hs ha (by intro k h1 h2; have : k = a := by omega
                                                       rw [this]; exact l0)
    simp only [eraseTok] at e
    have slots1 : ∀ k, s1 (slot k) = if k = a then none else s (slot k) := by
      intro k; rw [E.slots]
      by_cases hk : k = a
      · simp [hk]
      · rw [if_neg (by omega), if_neg (by omega), if_neg hk]
    obtain ⟨s', e', D⟩ := ih s1 (a + 1) E.sym E.apart (by
      intro k h1 h2; rw [slots1, if_neg (by omega)]; exact hl k (by omega) (by omega))
    refine ⟨s', by simp only [destroyToks, e]; exact e', D.sym, D.apart, ?_, ?_, ?_⟩
    · intro k; rw [D.slots, slots1]; grind
    · intro b k h1 h2 hb
      by_cases hk : k = a
      · subst hk
        have := E.first b hb
        rw [D.kept b (by intro k _ _ e; rw [this] at e; cases e), this]
      · have h3 := E.kept b (by intro k' h3 h4 e; rw [hb] at e; have := ss_inj _ _ e; omega)
        exact D.freed b k (by omega) (by omega) (by rw [h3]; exact hb)
    · intro b hb
      have h3 := E.kept b (by intro k' h3 h4; exact hb k' (by omega) (by omega))
      rw [D.kept b (by intro k h1 h2; rw [h3]; exact hb k (by omega) (by omega)), h3]

end Verif.Tok
