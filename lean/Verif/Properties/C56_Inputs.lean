import Verif.Model.Inputs
/-!
# C56: the inputs are the pairs (source, output) that were added and not removed

The statement holds for every history, calls that throw included. A call that throws is not always without effect: what it leaves is described too, and the two surprising
cases (a source without outputs, a source that is used but not kept alive) are shown by concrete histories.
-/
set_option autoImplicit false

namespace Verif.C56
open Verif Inp

/-! ## Specification -/

/-- The states met by an object: `Hist h st` if the calls `h` (the last one first) lead to `st`. -/
inductive Hist : List Op → St → Prop where
  | new : Hist [] {}
  | ok {h op st st'} (hh : Hist h st) (hs : step op st = .ok st' ()) : Hist (op :: h) st'
  | throw {h op st st'} (hh : Hist h st) (hs : step op st = .throw st') : Hist (op :: h) st'

/-- The pair of the source `s` and the output `o` is recorded. -/
def Pair (st : St) (s o : Nat) : Prop := ∃ l, st.inputs s = some l ∧ o ∈ l

/-- The source is recorded. -/
def Source (st : St) (s : Nat) : Prop := ∃ l, st.inputs s = some l

/-- The call asks for adding the pair, and no output before it in the list, nor itself, is disabled. -/
def Adds (op : Op) (s o : Nat) : Prop :=
  match op with
  | .addRef en s' i args | .addShared en s' i args => s = s' ∧ ∃ a b, i :: args = a ++ o :: b ∧ en o = true ∧ ∀ x, x ∈ a → en x = true
  | _ => False

/-- The call made in a state where the recorded pairs are `P` asks for removing the pair, and no smaller output it asks to remove is absent. -/
def Removes (P : Nat → Nat → Prop) (op : Op) (s o : Nat) : Prop :=
  match op with
  | .removeAll s' => s = s'
  | .removeSome s' i args => s = s' ∧ o ∈ i :: args ∧ ∀ x, x ∈ i :: args → x ≤ o → P s x
  | _ => False

/-- The call is not refused when the recorded pairs are `P` and the recorded sources `S`. -/
def Accepted (P : Nat → Nat → Prop) (S : Nat → Prop) (op : Op) : Prop :=
  match op with
  | .addRef en _ i args | .addShared en _ i args => ∀ x, x ∈ i :: args → en x = true
  | .removeAll s => S s
  | .removeSome s i args => ∀ x, x ∈ i :: args → P s x

/-- What is recorded after the calls `h` (the last one first), according to the names of the calls: the pairs, the sources, the sources kept alive. -/
def Was : List Op → (Nat → Nat → Prop) × (Nat → Prop) × (Nat → Prop)
  | [] => (fun _ _ => False, fun _ => False, fun _ => False)
  | op :: h =>
    let (P, S, K) := Was h
    let P' := fun s o => Adds op s o ∨ P s o ∧ ¬ Removes P op s o
    -- a call that is accepted and removes the last pair removes the source
    let gone := fun s => Accepted P S op ∧ (∃ o, Removes P op s o) ∧ ¬ ∃ o, P' s o
    (P', fun s => (∃ o, Adds op s o) ∨ S s ∧ ¬ gone s,
      fun s => (Accepted P S op ∧ ∃ en i args, op = .addShared en s i args) ∨ K s ∧ ¬ gone s)

/-! ## Lemmas -/

theorem mem_insert (i o : Nat) (l : List Nat) : o ∈ Inp.insert i l ↔ o = i ∨ o ∈ l := by
  unfold Inp.insert
  split <;> grind

theorem mem_erase (i o : Nat) (l : List Nat) : o ∈ Inp.erase i l ↔ o ∈ l ∧ o ≠ i := by
  simp [Inp.erase]

theorem mem_insertSorted (i o : Nat) (l : List Nat) : o ∈ insertSorted i l ↔ o = i ∨ o ∈ l := by
  induction l with
  | nil => simp [insertSorted]
  | cons j l ih => simp only [insertSorted]; grind

theorem mem_sorted (o : Nat) (l : List Nat) : o ∈ sorted l ↔ o ∈ l := by
  induction l with
  | nil => simp [sorted]
  | cons j l ih => simp [sorted, mem_insertSorted, ih]

theorem insertSorted_lt (i : Nat) (l : List Nat) (h : l.Pairwise (· < ·)) : (insertSorted i l).Pairwise (· < ·) := by
  induction l with
  | nil => simp [insertSorted]
  | cons j l ih =>
    simp only [insertSorted]
    have h' := List.pairwise_cons.mp h
    by_cases h1 : i < j
    · rw [if_pos h1]
      refine List.pairwise_cons.mpr ⟨fun a ha => ?_, h⟩
      rcases List.mem_cons.mp ha with rfl | ha
      · exact h1
      · have := h'.1 a ha; omega
    · rw [if_neg h1]
      by_cases h2 : i = j
      · rw [if_pos h2]; exact h
      · rw [if_neg h2]
        refine List.pairwise_cons.mpr ⟨fun a ha => ?_, ih h'.2⟩
        rcases (mem_insertSorted i a l).mp ha with rfl | ha
        · omega
        · exact h'.1 a ha

theorem sorted_lt (l : List Nat) : (sorted l).Pairwise (· < ·) := by
  induction l with
  | nil => simp [sorted]
  | cons j l ih => exact insertSorted_lt j _ ih

theorem eraseAll_mem : ∀ (is l : List Nat), is.Pairwise (· < ·) → ∀ o,
    (o ∈ (eraseAll is l).1 ↔ o ∈ l ∧ ¬ (o ∈ is ∧ ∀ x, x ∈ is → x ≤ o → x ∈ l)) := by
  intro is
  induction is with
  | nil => simp [eraseAll]
  | cons i is ih =>
    intro l hp o
    have hp' := List.pairwise_cons.mp hp
    simp only [eraseAll]
    by_cases hi : i ∈ l
    · rw [if_pos hi, ih _ hp'.2]
      simp only [mem_erase, List.mem_cons]
      constructor
      · rintro ⟨⟨h1, h2⟩, h3⟩
        refine ⟨h1, fun h => h3 ⟨by grind, fun x hx hxo => ⟨h.2 x (Or.inr hx) hxo, ?_⟩⟩⟩
        have := hp'.1 x hx; omega
      · rintro ⟨h1, h2⟩
        refine ⟨⟨h1, ?_⟩, ?_⟩
        · rintro rfl
          apply h2
          refine ⟨Or.inl rfl, fun x hx hxo => ?_⟩
          rcases hx with rfl | hx
          · exact h1
          · have := hp'.1 x hx; omega
        · rintro ⟨h3, h4⟩
          apply h2
          refine ⟨Or.inr h3, fun x hx hxo => ?_⟩
          rcases hx with rfl | hx
          · exact hi
          · exact (h4 x hx hxo).1
    · rw [if_neg hi]
      simp only
      constructor
      · intro h
        refine ⟨h, ?_⟩
        rintro ⟨h1, h2⟩
        apply hi
        apply h2 i (List.mem_cons_self ..)
        rcases List.mem_cons.mp h1 with rfl | h1
        · exact Nat.le_refl _
        · have := hp'.1 o h1; omega
      · exact fun h => h.1

theorem eraseAll_ok : ∀ (is l : List Nat), is.Pairwise (· < ·) → ((eraseAll is l).2 = true ↔ ∀ x, x ∈ is → x ∈ l) := by
  intro is
  induction is with
  | nil => simp [eraseAll]
  | cons i is ih =>
    intro l hp
    have hp' := List.pairwise_cons.mp hp
    simp only [eraseAll]
    by_cases hi : i ∈ l
    · rw [if_pos hi, ih _ hp'.2]
      simp only [mem_erase, List.mem_cons]
      constructor
      · intro h x hx
        rcases hx with rfl | hx
        · exact hi
        · exact (h x hx).1
      · intro h x hx
        refine ⟨h x (Or.inr hx), ?_⟩
        have := hp'.1 x hx; omega
    · rw [if_neg hi]
      simp only [Bool.false_eq_true, List.mem_cons, false_iff]
      intro h
      exact hi (h i (Or.inl rfl))

/-- What `addRef` does, whether it throws or not. -/
theorem addRef_spec (en : Nat → Bool) (s : Nat) : ∀ (is : List Nat) (st : St), ∃ st',
    (addRef en s is st = .ok st' () ∧ (∀ x, x ∈ is → en x = true) ∨ addRef en s is st = .throw st' ∧ ¬ ∀ x, x ∈ is → en x = true) ∧
    (∀ t o, Pair st' t o ↔ Pair st t o ∨ t = s ∧ ∃ a b, is = a ++ o :: b ∧ en o = true ∧ ∀ x, x ∈ a → en x = true) ∧
    (∀ t, Source st' t ↔ Source st t ∨ t = s ∧ ∃ o a b, is = a ++ o :: b ∧ en o = true ∧ ∀ x, x ∈ a → en x = true) ∧
    st'.store = st.store := by
  intro is
  induction is with
  | nil =>
    intro st
    refine ⟨st, Or.inl ⟨rfl, by simp⟩, ?_, ?_, rfl⟩ <;> simp
  | cons i is ih =>
    intro st
    by_cases hi : en i = true
    · obtain ⟨st1, h1, hp1, hs1, hk1⟩ : ∃ st1, addOne en s i st = .ok st1 () ∧ (∀ t o, Pair st1 t o ↔ Pair st t o ∨ t = s ∧ o = i) ∧
          (∀ t, Source st1 t ↔ Source st t ∨ t = s) ∧ st1.store = st.store := by
        unfold addOne
        rw [if_pos hi]
        cases hl : st.inputs s with
        | none =>
          refine ⟨_, rfl, ?_, ?_, rfl⟩
          · intro t o
            unfold Pair upd
            by_cases ht : t = s
            · subst ht; simp [hl]
            · simp [ht]
          · intro t
            unfold Source upd
            by_cases ht : t = s
            · subst ht; simp
            · simp [ht]
        | some l =>
          refine ⟨_, rfl, ?_, ?_, rfl⟩
          · intro t o
            unfold Pair upd
            by_cases ht : t = s
            · subst ht; simp [hl, mem_insert, or_comm]
            · simp [ht]
          · intro t
            unfold Source upd
            by_cases ht : t = s
            · subst ht; simp
            · simp [ht]
      obtain ⟨st', h', hp, hs, hk⟩ := ih st1
      have hsplit : ∀ o, (∃ a b, i :: is = a ++ o :: b ∧ en o = true ∧ ∀ x, x ∈ a → en x = true) ↔
          o = i ∨ ∃ a b, is = a ++ o :: b ∧ en o = true ∧ ∀ x, x ∈ a → en x = true := by
        intro o
        constructor
        · rintro ⟨a, b, h1, h2, h3⟩
          cases a with
          | nil => simp only [List.nil_append, List.cons.injEq] at h1; exact Or.inl h1.1.symm
          | cons c a =>
            simp only [List.cons_append, List.cons.injEq] at h1
            exact Or.inr ⟨a, b, h1.2, h2, fun x hx => h3 x (List.mem_cons_of_mem _ hx)⟩
        · rintro (rfl | ⟨a, b, h1, h2, h3⟩)
          · exact ⟨[], is, rfl, hi, by simp⟩
          · exact ⟨i :: a, b, by simp [h1], h2, by simpa [hi] using h3⟩
      refine ⟨st', ?_, ?_, ?_, hk.trans hk1⟩
      · simp only [addRef, h1]
        simpa [hi] using h'
      · intro t o
        rw [hp, hp1, hsplit]
        grind
      · intro t
        rw [hs, hs1]
        constructor
        · rintro ((h | h) | ⟨h, o, ho⟩)
          · exact Or.inl h
          · exact Or.inr ⟨h, i, (hsplit i).mpr (Or.inl rfl)⟩
          · exact Or.inr ⟨h, o, (hsplit o).mpr (Or.inr ho)⟩
        · rintro (h | ⟨h, o, ho⟩)
          · exact Or.inl (Or.inl h)
          · exact Or.inl (Or.inr h)
    · refine ⟨st, Or.inr ⟨?_, ?_⟩, ?_, ?_, rfl⟩
      · simp [addRef, addOne, hi]
      · intro h; exact hi (h i (List.mem_cons_self ..))
      all_goals
        have : ∀ o, ¬ ∃ a b, i :: is = a ++ o :: b ∧ en o = true ∧ ∀ x, x ∈ a → en x = true := by
          rintro o ⟨a, b, h1, h2, h3⟩
          cases a with
          | nil => simp only [List.nil_append, List.cons.injEq] at h1; rw [← h1.1] at h2; exact hi h2
          | cons c a =>
            simp only [List.cons_append, List.cons.injEq] at h1
            apply hi; rw [h1.1]; exact h3 c (List.mem_cons_self ..)
        simp only [this, exists_false, and_false, or_false, implies_true]

/-- Each call does what its name says. -/
theorem step_spec (op : Op) (st : St) : ∃ st',
    (step op st = .ok st' () ∧ Accepted (Pair st) (Source st) op ∨ step op st = .throw st' ∧ ¬ Accepted (Pair st) (Source st) op) ∧
    (∀ s o, Pair st' s o ↔ Adds op s o ∨ Pair st s o ∧ ¬ Removes (Pair st) op s o) ∧
    (∀ s, Source st' s ↔ (∃ o, Adds op s o) ∨ Source st s ∧ ¬ (Accepted (Pair st) (Source st) op ∧ (∃ o, Removes (Pair st) op s o) ∧ ¬ ∃ o, Pair st' s o)) ∧
    (∀ s, st'.store s = true ↔ (Accepted (Pair st) (Source st) op ∧ ∃ en i args, op = .addShared en s i args) ∨
      st.store s = true ∧ ¬ (Accepted (Pair st) (Source st) op ∧ (∃ o, Removes (Pair st) op s o) ∧ ¬ ∃ o, Pair st' s o)) := by
  cases op with
  | addRef en s i args =>
    obtain ⟨st', h, hp, hs, hk'⟩ := addRef_spec en s (i :: args) st
    refine ⟨st', h, ?_, ?_, ?_⟩
    · intro t o; rw [hp]; simp [Adds, Removes, or_comm]
    · intro t; rw [hs]; simp [Adds, Removes, or_comm]
    · intro t; rw [hk']; simp [Removes]
  | addShared en s i args =>
    obtain ⟨st', h, hp, hs, hk'⟩ := addRef_spec en s (i :: args) st
    rcases h with ⟨h1, h2⟩ | ⟨h1, h2⟩
    · refine ⟨{ st' with store := upd st'.store s true }, Or.inl ⟨?_, h2⟩, ?_, ?_, ?_⟩
      · simp [step, addShared, h1]
      · intro t o
        change Pair st' t o ↔ _
        rw [hp]; simp [Adds, Removes, or_comm]
      · intro t
        change Source st' t ↔ _
        rw [hs]; simp [Adds, Removes, or_comm]
      · intro t
        have ha : Accepted (Pair st) (Source st) (.addShared en s i args) := h2
        simp only [ha, true_and, Removes, exists_false, false_and, not_false_eq_true, and_true, hk', upd]
        by_cases ht : t = s
        · subst ht; simp
        · have : ¬ ∃ en' i' args', Op.addShared en s i args = .addShared en' t i' args' := by
            rintro ⟨_, _, _, h⟩; cases h; exact ht rfl
          simp only [ht, this, if_false, false_or]
    · refine ⟨st', Or.inr ⟨?_, h2⟩, ?_, ?_, ?_⟩
      · simp [step, addShared, h1]
      · intro t o; rw [hp]; simp [Adds, Removes, or_comm]
      · intro t; rw [hs]; simp [Adds, Removes, or_comm]
      · intro t
        have ha : ¬ Accepted (Pair st) (Source st) (.addShared en s i args) := h2
        simp [ha, hk']
  | removeAll s =>
    cases hl : st.inputs s with
    | none =>
      have ha : ¬ Accepted (Pair st) (Source st) (.removeAll s) := by simp [Accepted, Source, hl]
      refine ⟨st, Or.inr ⟨by simp [step, removeAll, hl], ha⟩, ?_, ?_, ?_⟩
      · intro t o
        simp only [Adds, Removes, false_or, iff_self_and]
        rintro ⟨l, h, -⟩ rfl
        rw [hl] at h; cases h
      · intro t; simp [Adds, ha]
      · intro t; simp [ha]
    | some l =>
      have ha : Accepted (Pair st) (Source st) (.removeAll s) := ⟨l, hl⟩
      have hp : ∀ t o, Pair (drop s st) t o ↔ Pair st t o ∧ t ≠ s := by
        intro t o
        unfold Pair drop upd
        by_cases ht : t = s <;> simp [ht]
      refine ⟨drop s st, Or.inl ⟨by simp [step, removeAll, hl], ha⟩, ?_, ?_, ?_⟩
      · intro t o; rw [hp]; simp [Adds, Removes]
      · intro t
        simp only [ha, hp]
        unfold Source drop upd
        by_cases ht : t = s <;> simp [ht, Adds, Removes]
      · intro t
        simp only [ha, hp]
        unfold drop upd
        by_cases ht : t = s
        · subst ht; by_cases hs : st.store t = true <;> simp [hs, Removes]
        · by_cases hs : st.store s = true <;> simp [hs, ht, Removes]
  | removeSome s i args =>
    cases hl : st.inputs s with
    | none =>
      have hn : ∀ o, ¬ Pair st s o := by rintro o ⟨l, h, -⟩; rw [hl] at h; cases h
      have ha : ¬ Accepted (Pair st) (Source st) (.removeSome s i args) := by
        intro h
        exact hn i (h i (List.mem_cons_self ..))
      refine ⟨st, Or.inr ⟨by simp [step, removeSome, hl], ha⟩, ?_, ?_, ?_⟩
      · intro t o
        simp only [Adds, Removes, false_or, iff_self_and]
        rintro h1 ⟨rfl, -⟩
        exact hn o h1
      · intro t; simp [Adds, ha]
      · intro t; simp [ha]
    | some l =>
      have hP : ∀ o, Pair st s o ↔ o ∈ l := by intro o; simp [Pair, hl]
      have hmem := eraseAll_mem (sorted (i :: args)) l (sorted_lt _)
      have hok := eraseAll_ok (sorted (i :: args)) l (sorted_lt _)
      simp only [mem_sorted] at hmem hok
      generalize he : eraseAll (sorted (i :: args)) l = r at hmem hok
      obtain ⟨l', ok⟩ := r
      simp only at hmem hok
      have hacc : Accepted (Pair st) (Source st) (.removeSome s i args) ↔ ok = true := by
        rw [hok]; simp only [Accepted, hP]
      have hpr : ∀ t o, Pair { st with inputs := upd st.inputs s (some l') } t o ↔
          Adds (.removeSome s i args) t o ∨ Pair st t o ∧ ¬ Removes (Pair st) (.removeSome s i args) t o := by
        intro t o
        by_cases ht : t = s
        · subst ht
          simp only [Adds, Removes, false_or, true_and, hP]
          rw [← hmem]
          simp [Pair, upd]
        · simp [Pair, upd, ht, Adds, Removes]
      by_cases hb : ok = true
      · by_cases h0 : l'.length = 0
        · have h0' : l' = [] := List.length_eq_zero_iff.mp h0
          subst h0'
          have hp : ∀ t o, Pair (drop s { st with inputs := upd st.inputs s (some []) }) t o ↔
              Pair { st with inputs := upd st.inputs s (some []) } t o := by
            intro t o
            by_cases ht : t = s <;> simp [Pair, drop, upd, ht]
          refine ⟨drop s { st with inputs := upd st.inputs s (some []) }, Or.inl ⟨?_, hacc.mpr hb⟩, ?_, ?_, ?_⟩
          · simp only [step, removeSome, hl]
            rw [he]
            simp [hb]
          · intro t o; rw [hp, hpr]
          all_goals
            intro t
            have hrem : ∃ o, Removes (Pair st) (.removeSome s i args) s o := by
              have hall := hok.mp hb
              refine ⟨i, rfl, List.mem_cons_self .., fun x hx _ => (hP x).mpr (hall x hx)⟩
            simp only [hacc, hb, true_and, hp]
            by_cases ht : t = s
            · subst ht
              have : ¬ ∃ o, Pair { st with inputs := upd st.inputs t (some []) } t o := by
                rintro ⟨o, l, h1, h2⟩
                simp only [upd, if_true, Option.some.injEq] at h1
                subst h1; cases h2
              simp only [hrem, this, not_false_eq_true, and_self, not_true_eq_false, and_false]
              by_cases hs : st.store t = true <;> simp [Source, drop, upd, Adds, hs]
            · by_cases hs : st.store s = true <;> simp [Source, drop, upd, Adds, Removes, ht, hs]
        · refine ⟨{ st with inputs := upd st.inputs s (some l') }, Or.inl ⟨?_, hacc.mpr hb⟩, hpr, ?_, ?_⟩
          · simp only [step, removeSome, hl]
            rw [he]
            simp [hb, h0]
          all_goals
            intro t
            by_cases ht : t = s
            · subst ht
              have : ∃ o, Pair { st with inputs := upd st.inputs t (some l') } t o := by
                cases l' with
                | nil => simp at h0
                | cons o l' => exact ⟨o, o :: l', by simp [upd], List.mem_cons_self ..⟩
              have h2 : Source st t := ⟨l, hl⟩
              have h3 : Source { st with inputs := upd st.inputs t (some l') } t := ⟨l', by simp [upd]⟩
              simp [this, h2, h3]
            · simp [Source, upd, ht, Adds, Removes]
      · have ha : ¬ Accepted (Pair st) (Source st) (.removeSome s i args) := fun h => hb (hacc.mp h)
        refine ⟨{ st with inputs := upd st.inputs s (some l') }, Or.inr ⟨?_, ha⟩, hpr, ?_, ?_⟩
        · simp only [step, removeSome, hl]
          rw [he]
          simp [hb]
        · intro t
          by_cases ht : t = s
          · subst ht; simp [Source, upd, Adds, ha, hl]
          · simp [Source, upd, ht, Adds, Removes]
        · intro t; simp [ha]

theorem was_eq {h : List Op} {st : St} (hh : Hist h st) :
    (∀ s o, Pair st s o ↔ (Was h).1 s o) ∧ (∀ s, Source st s ↔ (Was h).2.1 s) ∧ (∀ s, st.store s = true ↔ (Was h).2.2 s) ∧
    ∀ s, st.store s = true → Source st s := by
  have key : ∀ (h : List Op) (op : Op) (st st' : St),
      ((∀ s o, Pair st s o ↔ (Was h).1 s o) ∧ (∀ s, Source st s ↔ (Was h).2.1 s) ∧ (∀ s, st.store s = true ↔ (Was h).2.2 s) ∧
        ∀ s, st.store s = true → Source st s) → (step op st = .ok st' () ∨ step op st = .throw st') →
      ((∀ s o, Pair st' s o ↔ (Was (op :: h)).1 s o) ∧ (∀ s, Source st' s ↔ (Was (op :: h)).2.1 s) ∧
        (∀ s, st'.store s = true ↔ (Was (op :: h)).2.2 s) ∧ ∀ s, st'.store s = true → Source st' s) := by
    intro h op st st' ⟨i1, i2, i3, i4⟩ hs
    obtain ⟨st1, h1, h2, h3, h4⟩ := step_spec op st
    have e : st1 = st' := by
      rcases h1 with ⟨h1, -⟩ | ⟨h1, -⟩ <;> rw [h1] at hs <;> rcases hs with hs | hs <;> cases hs <;> rfl
    subst e
    have e1 : Pair st = (Was h).1 := by funext s o; exact propext (i1 s o)
    have e2 : Source st = (Was h).2.1 := by funext s; exact propext (i2 s)
    have e3 : (fun s => st.store s = true) = (Was h).2.2 := by funext s; exact propext (i3 s)
    have e4 : Pair st1 = (Was (op :: h)).1 := by
      funext s o
      rw [h2 s o, e1]
      rfl
    refine ⟨fun s o => by rw [e4], fun s => ?_, fun s => ?_, fun s hst => ?_⟩
    · rw [h3 s, e4, e1, e2]; exact Iff.rfl
    · rw [h4 s, e4, e1, e2]
      have := congrFun e3 s
      rw [this]; exact Iff.rfl
    · rcases (h4 s).mp hst with ⟨hA, en, i, args, rfl⟩ | ⟨hst, hg⟩
      · refine (h3 s).mpr (Or.inl ⟨i, rfl, [], args, rfl, hA i (List.mem_cons_self ..), by simp⟩)
      · exact (h3 s).mpr (Or.inr ⟨i4 s hst, hg⟩)
  induction hh with
  | new => exact ⟨by simp [Pair, Was], by simp [Source, Was], by simp [Was], by simp⟩
  | ok hh hs ih => exact key _ _ _ _ ih (Or.inl hs)
  | throw hh hs ih => exact key _ _ _ _ ih (Or.inr hs)

/-! ## Properties -/

/-- **C56** After any history of calls, throwing or not: the pairs, the sources and the sources kept alive are those given by the names of the calls; `getInput` finds the
sources; the next call throws exactly if it names a disabled output, a source or a pair that is not recorded; and there is no undefined behaviour. -/
theorem C56_history {h : List Op} {st : St} (hh : Hist h st) :
    (∀ s o, Pair st s o ↔ (Was h).1 s o) ∧ (∀ s, getInput s st = true ↔ (Was h).2.1 s) ∧ (∀ s, st.store s = true ↔ (Was h).2.2 s) ∧
    ∀ op, ((∃ st', step op st = .ok st' ()) ↔ Accepted (Was h).1 (Was h).2.1 op) ∧
      ((∃ st', step op st = .throw st') ↔ ¬ Accepted (Was h).1 (Was h).2.1 op) ∧ step op st ≠ .ub := by
  obtain ⟨i1, i2, i3, i4⟩ := was_eq hh
  refine ⟨i1, fun s => ?_, i3, fun op => ?_⟩
  · rw [← i2]; simp [getInput, Source, Option.isSome_iff_exists]
  · have e1 : Pair st = (Was h).1 := by funext s o; exact propext (i1 s o)
    have e2 : Source st = (Was h).2.1 := by funext s; exact propext (i2 s)
    obtain ⟨st1, h1, -⟩ := step_spec op st
    rw [← e1, ← e2]
    rcases h1 with ⟨h1, h2⟩ | ⟨h1, h2⟩ <;> simp [h1, h2]

/-- **C56** A pair is recorded exactly if it was added and not removed since. -/
theorem C56_last {h : List Op} {st : St} (hh : Hist h st) (s o : Nat) :
    Pair st s o ↔ ∃ h2 op h1, h = h2 ++ op :: h1 ∧ Adds op s o ∧
      ∀ b op' a, h2 = b ++ op' :: a → ¬ Removes (Was (a ++ op :: h1)).1 op' s o := by
  rw [(was_eq hh).1]
  clear hh
  induction h with
  | nil => simp [Was]
  | cons op h ih =>
    change (Adds op s o ∨ (Was h).1 s o ∧ ¬ Removes (Was h).1 op s o) ↔ _
    rw [ih]
    constructor
    · rintro (h1 | ⟨⟨h2, op1, h1, rfl, ha, hr⟩, hn⟩)
      · exact ⟨[], op, h, rfl, h1, by intro b op' a hb; simp at hb⟩
      · refine ⟨op :: h2, op1, h1, rfl, ha, ?_⟩
        intro b op' a hb
        cases b with
        | nil =>
          simp only [List.nil_append, List.cons.injEq] at hb
          obtain ⟨rfl, rfl⟩ := hb
          exact hn
        | cons c b =>
          simp only [List.cons_append, List.cons.injEq] at hb
          exact hr b op' a hb.2
    · rintro ⟨h2, op1, h1, e, ha, hr⟩
      cases h2 with
      | nil =>
        simp only [List.nil_append, List.cons.injEq] at e
        obtain ⟨rfl, rfl⟩ := e
        exact Or.inl ha
      | cons c h2 =>
        simp only [List.cons_append, List.cons.injEq] at e
        obtain ⟨rfl, rfl⟩ := e
        refine Or.inr ⟨⟨h2, op1, h1, rfl, ha, fun b op' a hb => hr (op :: b) op' a (by simp [hb])⟩, hr [] op h2 rfl⟩

/-- The history has no removal that throws. -/
inductive Clean : List Op → St → Prop where
  | new : Clean [] {}
  | ok {h op st st'} (hh : Clean h st) (hs : step op st = .ok st' ()) : Clean (op :: h) st'
  | add {h en s i args st st'} (hh : Clean h st) (hs : step (.addRef en s i args) st = .throw st') : Clean (.addRef en s i args :: h) st'
  | addS {h en s i args st st'} (hh : Clean h st) (hs : step (.addShared en s i args) st = .throw st') : Clean (.addShared en s i args :: h) st'

theorem clean_hist {h : List Op} {st : St} (hh : Clean h st) : Hist h st := by
  induction hh with
  | new => exact .new
  | ok _ hs ih => exact .ok ih hs
  | add _ hs ih => exact .throw ih hs
  | addS _ hs ih => exact .throw ih hs

/-- **C56** As long as no removal has thrown, the recorded sources are those with a recorded output: a source whose last output is removed disappears. -/
theorem C56_sources {h : List Op} {st : St} (hh : Clean h st) (s : Nat) : getInput s st = true ↔ ∃ o, Pair st s o := by
  have hg : ∀ st : St, getInput s st = true ↔ Source st s := by
    intro st; simp [getInput, Source, Option.isSome_iff_exists]
  rw [hg]
  have back : ∀ st : St, (∃ o, Pair st s o) → Source st s := fun st ⟨o, l, h, _⟩ => ⟨l, h⟩
  refine ⟨?_, back st⟩
  induction hh with
  | new => rintro ⟨l, h⟩; cases h
  | @ok h op st st' hh hs ih =>
    obtain ⟨st1, h1, h2, h3, -⟩ := step_spec op st
    rcases h1 with ⟨h1, hA⟩ | ⟨h1, hA⟩
    · rw [h1] at hs; cases hs
      intro hsrc
      rcases (h3 s).mp hsrc with ⟨o, ho⟩ | ⟨ho, hn⟩
      · exact ⟨o, (h2 s o).mpr (Or.inl ho)⟩
      · obtain ⟨o, ho⟩ := ih ho
        by_cases hr : ∃ o, Removes (Pair st) op s o
        · exact Classical.byContradiction fun hc => hn ⟨hA, hr, hc⟩
        · exact ⟨o, (h2 s o).mpr (Or.inr ⟨ho, fun h => hr ⟨o, h⟩⟩)⟩
    · rw [h1] at hs; cases hs
  | @add h en t i args st st' hh hs ih =>
    obtain ⟨st1, h1, h2, h3, -⟩ := step_spec (.addRef en t i args) st
    rcases h1 with ⟨h1, hA⟩ | ⟨h1, hA⟩ <;> rw [h1] at hs <;> cases hs
    intro hsrc
    rcases (h3 s).mp hsrc with ⟨o, ho⟩ | ⟨ho, hn⟩
    · exact ⟨o, (h2 s o).mpr (Or.inl ho)⟩
    · obtain ⟨o, ho⟩ := ih ho
      exact ⟨o, (h2 s o).mpr (Or.inr ⟨ho, by simp [Removes]⟩)⟩
  | @addS h en t i args st st' hh hs ih =>
    obtain ⟨st1, h1, h2, h3, -⟩ := step_spec (.addShared en t i args) st
    rcases h1 with ⟨h1, hA⟩ | ⟨h1, hA⟩ <;> rw [h1] at hs <;> cases hs
    intro hsrc
    rcases (h3 s).mp hsrc with ⟨o, ho⟩ | ⟨ho, hn⟩
    · exact ⟨o, (h2 s o).mpr (Or.inl ho)⟩
    · obtain ⟨o, ho⟩ := ih ho
      exact ⟨o, (h2 s o).mpr (Or.inr ⟨ho, by simp [Removes]⟩)⟩

/-- **C56** A source is only kept alive while it is recorded. -/
theorem C56_kept {h : List Op} {st : St} (hh : Hist h st) (s : Nat) (hk : st.store s = true) : getInput s st = true := by
  obtain ⟨l, hl⟩ := (was_eq hh).2.2.2 s hk
  simp [getInput, hl]

/-- **C56** (what calls that throw do) A removal that throws can leave a source that is recorded without outputs, and an addition by shared pointer that throws can leave a source
that is recorded and not kept alive. -/
theorem C56_throwing :
    (∃ h st, Hist h st ∧ getInput 7 st = true ∧ ¬ ∃ o, Pair st 7 o) ∧
    (∃ en st, Hist [.addShared en 7 0 [1]] st ∧ Pair st 7 0 ∧ st.store 7 = false) := by
  constructor
  · refine ⟨[.removeSome 7 0 [1], .addRef (fun _ => true) 7 0 []], { inputs := upd (upd (fun _ => none) 7 (some [0])) 7 (some []) }, ?_, ?_, ?_⟩
    · refine .throw (.ok .new rfl) ?_
      rfl
    · rfl
    · rintro ⟨o, l, h1, h2⟩
      simp only [upd, if_true, Option.some.injEq] at h1
      subst h1; cases h2
  · refine ⟨fun i => i == 0, { inputs := upd (fun _ => none) 7 (some [0]) }, .throw .new rfl, ⟨[0], rfl, by simp⟩, rfl⟩

/-! ## Concrete cases -/

/-- Two outputs of the source 3 are added, then one of the source 5; one of the first is removed. -/
example : ∃ st, Clean [.removeSome 3 2 [], .addShared (fun _ => true) 5 0 [], .addRef (fun _ => true) 3 2 [4]] st ∧ Pair st 3 4 ∧ ¬ Pair st 3 2 ∧ st.store 5 = true := by
  refine ⟨_, .ok (.ok (.ok .new rfl) rfl) rfl, ⟨[4], rfl, by simp⟩, ?_, rfl⟩
  rintro ⟨l, h1, h2⟩
  have : l = [4] := by
    have h3 : (some [4] : Option (List Nat)) = some l := h1
    exact (Option.some.inj h3).symm
  subst this
  simp at h2

/-- The removal of the last output drops the source and releases it. -/
example : ∃ st, Clean [.removeSome 3 4 [2], .addShared (fun _ => true) 3 2 [4]] st ∧ getInput 3 st = false ∧ st.store 3 = false :=
  ⟨_, .ok (.ok .new rfl) rfl, rfl, rfl⟩

/-- After these calls, the inputs kept are inputs, and the pairs are those last added. -/
example : ∃ st, getInput 5 st = true ∧ (getInput 5 st = true ↔ ∃ o, Pair st 5 o) ∧ (Pair st 3 4 ↔ (Was [.removeSome 3 2 [], .addShared (fun _ => true) 5 0 [], .addRef (fun _ => true) 3 2 [4]]).1 3 4) := by
  have hc : Clean [.removeSome 3 2 [], .addShared (fun _ => true) 5 0 [], .addRef (fun _ => true) 3 2 [4]] _ := .ok (.ok (.ok .new rfl) rfl) rfl
  exact ⟨_, C56_kept (clean_hist hc) 5 rfl, C56_sources hc 5, (C56_history (clean_hist hc)).1 3 4⟩

end Verif.C56
