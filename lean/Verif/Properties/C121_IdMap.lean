import Verif.Model.IdMap
/-!
# C121: identifiers identify objects, and the maps ordered by them are maps from objects

Specification, from the calls only. `Who l h`: whether the object `h` exists and, if so, which identity it carries: the number of the
construction it comes from, or none once it has been moved from. `Content l h`: the value associated to the object `h`.
`Run P l s`: the calls `l` lead from no object and an empty map to `s`, each of them being allowed by `P` after the former ones.
-/
set_option autoImplicit false

namespace Verif.IM

/-! ## Specification -/

/-- Number of constructions, and identities. -/
structure Ids where
  n : Nat := 0
  who : Nat → Option (Option Nat) := fun _ => none

/-- Effect of a call on the identities. -/
def Ids.on (w : Ids) : Op → Ids
  | .create h => ⟨w.n + 1, fun x => if x = h then some (some w.n) else w.who x⟩
  | .moveNew h f => { w with who := fun x => if x = h then w.who f else if x = f then some none else w.who x }
  | .moveAssign h f => { w with who := fun x => if x = h then w.who f else if x = f then some none else w.who x }
  | .destroy h => { w with who := fun x => if x = h then none else w.who x }
  | _ => w

/-- The identities after calls. -/
def idsOf (l : List Op) : Ids := l.foldl Ids.on {}

/-- The identity of an object. -/
def Who (l : List Op) (h : Nat) : Option (Option Nat) := (idsOf l).who h

/-- Effect of a call on a map from objects. -/
def Op.on (m : Nat → Option Nat) : Op → Nat → Option Nat
  | .assign (some h) v => fun x => if x = h then some v else m x
  | .insert (some h) v => fun x => if x = h then some ((m h).getD v) else m x
  | .erase (some h) => fun x => if x = h then none else m x
  | _ => m

/-- The value of an object in the map. -/
def Content (l : List Op) : Nat → Option Nat := l.foldl Op.on (fun _ => none)

/-- The object exists and was not moved from. -/
def Proper (l : List Op) (h : Nat) : Prop := ∃ n, Who l h = some (some n)

/-- Calls of a program that does not move or destroy objects that are keys, and uses as keys existing objects that
were not moved from. -/
def Tame (l : List Op) : Op → Prop
  | .create h => Who l h = none
  | .moveNew h f => Who l h = none ∧ Who l f ≠ none ∧ Content l f = none
  | .moveAssign h f => Who l h ≠ none ∧ Who l f ≠ none ∧ h ≠ f ∧ Content l h = none ∧ Content l f = none
  | .destroy h => Who l h ≠ none ∧ Content l h = none
  | .find k => ∃ h, k = some h ∧ Proper l h
  | .assign k _ => ∃ h, k = some h ∧ Proper l h
  | .insert k _ => ∃ h, k = some h ∧ Proper l h
  | .erase k => ∃ h, k = some h ∧ Proper l h
  | .shape _ => True

/-- Sequences of calls; a tree is replaced by a tree with the same content. -/
inductive Run (P : List Op → Op → Prop) : List Op → St → Prop
  | init : Run P [] {}
  | step (l : List Op) (s s' : St) (op : Op) (a : Option Nat) : Run P l s → P l op → (∀ t, op = .shape t → t.toList = s.tree.toList) →
      s.step op = .ok s' a → Run P (l ++ [op]) s'

/-- All calls. -/
def Any : List Op → Op → Prop := fun _ _ => True

/-- All calls but move assignments of an object to itself. -/
def NoSelf : List Op → Op → Prop := fun _ op => ∀ h, op ≠ .moveAssign h h

/-! ## Search in a tree -/

theorem size_eq (t : Tree) : t.size = t.toList.length := by
  induction t with
  | leaf => rfl
  | node l k v r ih1 ih2 => simp [Tree.size, Tree.toList, ih1, ih2]; omega

theorem comb_toList (l : List (Key × Nat)) : (Tree.comb l).toList = l := by
  induction l with
  | nil => rfl
  | cons x l ih => obtain ⟨k, v⟩ := x; simp [Tree.comb, Tree.toList, ih]

section
variable {f : Key → Int} {lt : Key → Key → Option Bool} {k : Key}

/-- The keys are ordered. -/
def Sorted (f : Key → Int) (l : List (Key × Nat)) : Prop := l.Pairwise (fun a b => f a.1 < f b.1)

theorem lower_spec (t : Tree) (hs : Sorted f t.toList) (hlt : ∀ e ∈ t.toList, lt e.1 k = some (decide (f e.1 < f k))) :
    t.lower lt k = some (t.toList.filter (fun e => f e.1 < f k)).length := by
  induction t with
  | leaf => rfl
  | node l x v r ih1 ih2 =>
    simp only [Tree.toList] at hs hlt ⊢
    obtain ⟨h1, h2, h3⟩ := List.pairwise_append.1 hs
    obtain ⟨h4, h5⟩ := List.pairwise_cons.1 h2
    have g1 := ih1 h1 (fun e he => hlt e (by simp [he]))
    have g2 := ih2 h5 (fun e he => hlt e (by simp [he]))
    have hx := hlt (x, v) (by simp)
    simp only at hx
    simp only [Tree.lower, hx, List.filter_append, List.length_append, List.filter_cons]
    by_cases hh : f x < f k
    · have : l.toList.filter (fun e => f e.1 < f k) = l.toList := by
        rw [List.filter_eq_self]
        intro e he
        have := h3 e he (x, v) (by simp)
        simp only at this
        simp; omega
      simp [hh, g2, this, size_eq]; omega
    · have : r.toList.filter (fun e => f e.1 < f k) = [] := by
        rw [List.filter_eq_nil_iff]
        intro e he
        have := h4 e he
        simp only at this
        simp; omega
      simp [hh, g1, this]

theorem upper_spec (t : Tree) (hs : Sorted f t.toList) (hlt : ∀ e ∈ t.toList, lt k e.1 = some (decide (f k < f e.1))) :
    t.upper lt k = some (t.toList.filter (fun e => f e.1 ≤ f k)).length := by
  induction t with
  | leaf => rfl
  | node l x v r ih1 ih2 =>
    simp only [Tree.toList] at hs hlt ⊢
    obtain ⟨h1, h2, h3⟩ := List.pairwise_append.1 hs
    obtain ⟨h4, h5⟩ := List.pairwise_cons.1 h2
    have g1 := ih1 h1 (fun e he => hlt e (by simp [he]))
    have g2 := ih2 h5 (fun e he => hlt e (by simp [he]))
    have hx := hlt (x, v) (by simp)
    simp only at hx
    simp only [Tree.upper, hx, List.filter_append, List.length_append, List.filter_cons]
    by_cases hh : f k < f x
    · have : r.toList.filter (fun e => f e.1 ≤ f k) = [] := by
        rw [List.filter_eq_nil_iff]
        intro e he
        have := h4 e he
        simp only at this
        simp; omega
      have h' : ¬ f x ≤ f k := by omega
      simp [hh, h', g1, this]
    · have : l.toList.filter (fun e => f e.1 ≤ f k) = l.toList := by
        rw [List.filter_eq_self]
        intro e he
        have := h3 e he (x, v) (by simp)
        simp only at this
        simp; omega
      have h' : f x ≤ f k := by omega
      simp [hh, h', g2, this, size_eq]; omega

/-- An ordered list is the part before a threshold followed by the part after it. -/
theorem sorted_split (p : (Key × Nat) → Bool) : ∀ (l : List (Key × Nat)), Sorted f l →
    (∀ a b, f a.1 < f b.1 → p b = true → p a = true) → l = l.filter p ++ l.filter (fun e => !p e) := by
  intro l
  induction l with
  | nil => intro _ _; rfl
  | cons x l ih =>
    intro hs hp
    obtain ⟨h1, h2⟩ := List.pairwise_cons.1 hs
    cases hx : p x with
    | true =>
      simp only [List.filter_cons, hx, if_true, List.cons_append, Bool.not_true]
      rw [if_neg (by simp)]
      exact congrArg (List.cons x) (ih h2 hp)
    | false =>
      have h3 : l.filter p = [] := by
        rw [List.filter_eq_nil_iff]
        intro e he hpe
        rw [hp x e (h1 e he) hpe] at hx; cases hx
      have h4 := ih h2 hp
      simp only [List.filter_cons, hx, Bool.not_false, if_true]
      rw [if_neg (by simp), h3, List.nil_append]
      rw [h3, List.nil_append] at h4
      exact congrArg (List.cons x) h4

theorem take_drop_split (p : (Key × Nat) → Bool) (l : List (Key × Nat)) (hs : Sorted f l)
    (hp : ∀ a b, f a.1 < f b.1 → p b = true → p a = true) :
    l.take (l.filter p).length = l.filter p ∧ l.drop (l.filter p).length = l.filter (fun e => !p e) := by
  have h := sorted_split p l hs hp
  constructor
  · conv => lhs; arg 2; rw [h]
    simp
  · conv => lhs; arg 2; rw [h]
    simp
end

/-! ## Invariants -/

/-- The identifier that an identity gives. -/
def idOf : Option Nat → Int
  | some n => n
  | none => -1

theorem idsOf_append (l : List Op) (op : Op) : idsOf (l ++ [op]) = (idsOf l).on op := by simp [idsOf]

theorem Content_append (l : List Op) (op : Op) : Content (l ++ [op]) = op.on (Content l) := by simp [Content]

/-- Only the map is changed. -/
theorem splice_objs (s : St) (n m : Nat) (l : List (Key × Nat)) : (s.splice n m l).objs = s.objs ∧ (s.splice n m l).next = s.next :=
  ⟨rfl, rfl⟩

/-- How calls change the objects. -/
theorem step_objs {s s' : St} {op : Op} {a : Option Nat} (h : s.step op = .ok s' a) :
    (s'.objs = s.objs ∧ s'.next = s.next ∧ (∀ w : Ids, w.on op = w)) ∨
    (∃ x, op = .create x ∧ s.objs x = none ∧ s' = { s.set x (some s.next) with next := s.next + 1 }) ∨
    (∃ x f i, (op = .moveNew x f ∧ s.objs x = none ∨ op = .moveAssign x f ∧ s.objs x ≠ none) ∧ s.objs f = some i ∧
      s' = (s.set x (some i)).set f (some (-1))) ∨
    (∃ x, op = .destroy x ∧ s.objs x ≠ none ∧ s' = s.set x none) := by
  cases op with
  | create x =>
    simp only [St.step] at h
    split at h
    · injection h with h; exact Or.inr (Or.inl ⟨x, rfl, (by assumption), h.symm⟩)
    · cases h
  | moveNew x f =>
    simp only [St.step] at h
    split at h
    · rename_i i h1 h2
      injection h with h; exact Or.inr (Or.inr (Or.inl ⟨x, f, i, Or.inl ⟨rfl, h1⟩, h2, h.symm⟩))
    · cases h
  | moveAssign x f =>
    simp only [St.step] at h
    split at h
    · rename_i j i h1 h2
      injection h with h; exact Or.inr (Or.inr (Or.inl ⟨x, f, i, Or.inr ⟨rfl, by rw [h1]; simp⟩, h2, h.symm⟩))
    · cases h
  | destroy x =>
    simp only [St.step] at h
    split at h
    · rename_i i h1
      injection h with h; exact Or.inr (Or.inr (Or.inr ⟨x, rfl, by rw [h1]; simp, h.symm⟩))
    · cases h
  | find k =>
    simp only [St.step] at h
    split at h
    · cases h
    · injection h with h; subst h; exact Or.inl ⟨rfl, rfl, fun _ => rfl⟩
  | assign k v =>
    simp only [St.step] at h
    split at h
    · injection h with h; subst h; exact Or.inl ⟨rfl, rfl, fun _ => rfl⟩
    · injection h with h; subst h; exact Or.inl ⟨rfl, rfl, fun _ => rfl⟩
    · cases h
  | insert k v =>
    simp only [St.step] at h
    split at h
    · injection h with h; subst h; exact Or.inl ⟨rfl, rfl, fun _ => rfl⟩
    · injection h with h; subst h; exact Or.inl ⟨rfl, rfl, fun _ => rfl⟩
    · cases h
  | erase k =>
    simp only [St.step] at h
    split at h
    · injection h with h; subst h; exact Or.inl ⟨rfl, rfl, fun _ => rfl⟩
    · cases h
  | shape t =>
    simp only [St.step] at h
    injection h with h; subst h; exact Or.inl ⟨rfl, rfl, fun _ => rfl⟩

/-- Identifiers given out are below the counter, and two objects do not have the same one. -/
structure Fresh (s : St) : Prop where
  next : 0 ≤ s.next
  range : ∀ h i, s.objs h = some i → i = -1 ∨ (0 ≤ i ∧ i < s.next)
  inj : ∀ h h' i, s.objs h = some i → s.objs h' = some i → i ≠ -1 → h = h'

theorem Fresh.step {s s' : St} {op : Op} {a : Option Nat} (hf : Fresh s) (h : s.step op = .ok s' a) : Fresh s' := by
  rcases step_objs h with ⟨h1, h2, _⟩ | ⟨x, _, hx, rfl⟩ | ⟨x, f, i, hx, hfi, rfl⟩ | ⟨x, _, _, rfl⟩
  · exact ⟨by rw [h2]; exact hf.next, by rw [h1, h2]; exact hf.range, by rw [h1]; exact hf.inj⟩
  · have hn := hf.next
    refine ⟨by simp only; omega, fun h i hi => ?_, fun h h' i hi hi' hne => ?_⟩
    · simp only [St.set] at hi
      split at hi
      · injection hi with hi; subst hi; exact Or.inr ⟨hn, by simp only; omega⟩
      · rcases hf.range h i hi with h1 | h1
        · exact Or.inl h1
        · exact Or.inr ⟨h1.1, by simp only; omega⟩
    · simp only [St.set] at hi hi'
      split at hi <;> split at hi'
      · rename_i e1 e2; rw [e1, e2]
      · injection hi with hi
        have := hf.range h' i hi'; omega
      · injection hi' with hi'
        have := hf.range h i hi; omega
      · exact hf.inj h h' i hi hi' hne
  · refine ⟨hf.next, fun h j hj => ?_, fun h h' j hj hj' hne => ?_⟩
    · simp only [St.set] at hj
      split at hj
      · injection hj with hj; exact Or.inl hj.symm
      · split at hj
        · injection hj with hj; subst hj; exact hf.range f _ hfi
        · exact hf.range h j hj
    · simp only [St.set] at hj hj'
      split at hj
      · injection hj with hj; exact absurd hj.symm hne
      split at hj'
      · injection hj' with hj'; exact absurd hj'.symm hne
      split at hj <;> split at hj'
      · rename_i e1 e2; rw [e1, e2]
      · injection hj with hj; subst hj
        rename_i e1 _ _ _
        exact absurd (hf.inj h' f _ hj' hfi hne) (by assumption)
      · injection hj' with hj'; subst hj'
        exact absurd (hf.inj h f _ hj hfi hne) (by assumption)
      · exact hf.inj h h' j hj hj' hne
  · refine ⟨hf.next, fun h j hj => ?_, fun h h' j hj hj' hne => ?_⟩
    · simp only [St.set] at hj
      split at hj
      · cases hj
      · exact hf.range h j hj
    · simp only [St.set] at hj hj'
      split at hj
      · cases hj
      split at hj'
      · cases hj'
      exact hf.inj h h' j hj hj' hne

theorem Run.fresh {P : List Op → Op → Prop} {l : List Op} {s : St} (h : Run P l s) : Fresh s := by
  induction h with
  | init => exact ⟨Int.le_refl _, by simp, by simp⟩
  | step l s s' op a _ _ _ hs ih => exact ih.step hs

/-- The identifiers are the identities. -/
structure Named (l : List Op) (s : St) : Prop where
  next : s.next = (idsOf l).n
  objs : ∀ h, s.objs h = (Who l h).map idOf

theorem Named.step {l : List Op} {s s' : St} {op : Op} {a : Option Nat} (hn : Named l s) (h : s.step op = .ok s' a)
    (hself : ∀ x, op ≠ .moveAssign x x) : Named (l ++ [op]) s' := by
  have ho := hn.objs
  rcases step_objs h with ⟨h1, h2, h3⟩ | ⟨x, rfl, hx, rfl⟩ | ⟨x, f, i, hx, hfi, rfl⟩ | ⟨x, rfl, _, rfl⟩
  · refine ⟨by rw [h2, hn.next, idsOf_append, h3], fun y => ?_⟩
    rw [h1, ho y]; simp only [Who, idsOf_append, h3]
  · refine ⟨by rw [idsOf_append]; simp only [Ids.on, hn.next]; rfl, fun y => ?_⟩
    simp only [St.set, Who, idsOf_append, Ids.on]
    split
    · simp [idOf, hn.next]
    · exact ho y
  · have hxf : x ≠ f := by
      rintro rfl
      rcases hx with ⟨rfl, hx⟩ | ⟨rfl, _⟩
      · rw [hx] at hfi; cases hfi
      · exact hself _ rfl
    have hop : (idsOf l).on op = { idsOf l with who := fun y => if y = x then (idsOf l).who f else if y = f then some none else (idsOf l).who y } := by
      rcases hx with ⟨rfl, _⟩ | ⟨rfl, _⟩ <;> rfl
    refine ⟨by rw [idsOf_append, hop]; exact hn.next, fun y => ?_⟩
    simp only [St.set, Who, idsOf_append, hop]
    have hof := ho f
    rw [hfi] at hof
    by_cases h1 : y = f
    · subst h1
      rw [if_pos rfl, if_neg (Ne.symm hxf), if_pos rfl]; rfl
    · rw [if_neg h1]
      by_cases h2 : y = x
      · rw [if_pos h2, if_pos h2]; exact hof
      · rw [if_neg h2, if_neg h2, if_neg h1]; exact ho y
  · refine ⟨by rw [idsOf_append]; exact hn.next, fun y => ?_⟩
    simp only [St.set, Who, idsOf_append, Ids.on]
    split
    · rfl
    · exact ho y

theorem Run.named {l : List Op} {s : St} (h : Run NoSelf l s) : Named l s := by
  induction h with
  | init => exact ⟨rfl, fun _ => rfl⟩
  | step l s s' op a _ hp _ hs ih => exact ih.step hs hp

/-- The identifier behind a key. -/
def St.key (s : St) (k : Key) : Int := ((k.bind s.objs).getD (-1))

/-- The map is ordered, its keys are existing objects with an identity, and its content is the specified one. -/
structure Good (l : List Op) (s : St) : Prop where
  sorted : Sorted s.key s.tree.toList
  proper : ∀ e ∈ s.tree.toList, ∃ h, e.1 = some h ∧ Proper l h
  content : ∀ h v, (some h, v) ∈ s.tree.toList ↔ Content l h = some v

theorem key_of {l : List Op} {s : St} (hn : Named l s) {h : Nat} (hp : Proper l h) :
    ∃ n : Nat, s.objs h = some (n : Int) ∧ s.key (some h) = n ∧ Who l h = some (some n) := by
  obtain ⟨n, hw⟩ := hp
  have := hn.objs h
  rw [hw] at this
  exact ⟨n, this, by simp [St.key, this, idOf], hw⟩

theorem less_of {l : List Op} {s : St} (hn : Named l s) {h h' : Nat} (hp : Proper l h) (hp' : Proper l h') :
    s.less (some h) (some h') = some (decide (s.key (some h) < s.key (some h'))) := by
  obtain ⟨n, h1, h2, _⟩ := key_of hn hp
  obtain ⟨n', h1', h2', _⟩ := key_of hn hp'
  simp only [St.less, h1, h1', h2, h2']

theorem key_inj {l : List Op} {s : St} (hn : Named l s) (hf : Fresh s) {h h' : Nat} (hp : Proper l h) (hp' : Proper l h')
    (e : s.key (some h) = s.key (some h')) : h = h' := by
  obtain ⟨n, h1, h2, _⟩ := key_of hn hp
  obtain ⟨n', h1', h2', _⟩ := key_of hn hp'
  rw [h2, h2'] at e
  rw [← e] at h1'
  exact hf.inj h h' n h1 h1' (by omega)

section
variable {l : List Op} {s : St} (hn : Named l s) (hf : Fresh s) (hg : Good l s) {h : Nat} (hp : Proper l h)
include hn hf hg hp
set_option linter.unusedSectionVars false

/-- The entries less than a key, and the others. -/
abbrev St.before (s : St) (h : Nat) : List (Key × Nat) := s.tree.toList.filter (fun e => s.key e.1 < s.key (some h))

theorem lower_eq : s.tree.lower s.less (some h) = some (s.before h).length :=
  lower_spec s.tree hg.sorted fun e he => by
    obtain ⟨h', e1, hp'⟩ := hg.proper e he
    rw [e1]; exact less_of hn hp' hp

theorem upper_eq : s.tree.upper s.less (some h) = some (s.tree.toList.filter (fun e => s.key e.1 ≤ s.key (some h))).length :=
  upper_spec s.tree hg.sorted fun e he => by
    obtain ⟨h', e1, hp'⟩ := hg.proper e he
    rw [e1]; exact less_of hn hp hp'

theorem split_before : s.tree.toList.take (s.before h).length = s.before h ∧
    s.tree.toList.drop (s.before h).length = s.tree.toList.filter (fun e => !decide (s.key e.1 < s.key (some h))) :=
  take_drop_split _ _ hg.sorted fun a b hab hb => by simp only [decide_eq_true_eq] at hb ⊢; omega

theorem entry_unique {e : Key × Nat} (he : e ∈ s.tree.toList) (hk : s.key e.1 = s.key (some h)) : e.1 = some h := by
  obtain ⟨h', e1, hp'⟩ := hg.proper e he
  rw [e1] at hk
  rw [e1, key_inj hn hf hp' hp hk]

/-- The part after the lower bound when the key is in the map. -/
theorem after_some {v : Nat} (hc : Content l h = some v) :
    s.tree.toList.filter (fun e => !decide (s.key e.1 < s.key (some h))) =
      (some h, v) :: s.tree.toList.filter (fun e => s.key (some h) < s.key e.1) := by
  have hmem := (hg.content h v).2 hc
  have : ∀ (L : List (Key × Nat)), Sorted s.key L → (some h, v) ∈ L →
      L.filter (fun e => !decide (s.key e.1 < s.key (some h))) = (some h, v) :: L.filter (fun e => s.key (some h) < s.key e.1) := by
    intro L
    induction L with
    | nil => intro _ hm; simp at hm
    | cons x L ih =>
      intro hs hm
      obtain ⟨h1, h2⟩ := List.pairwise_cons.1 hs
      rcases List.mem_cons.1 hm with rfl | hm
      · have h3 : L.filter (fun e => !decide (s.key e.1 < s.key (some h))) = L := by
          rw [List.filter_eq_self]; intro e he; have := h1 e he; simp only at this; simp; omega
        have h4 : L.filter (fun e => decide (s.key (some h) < s.key e.1)) = L := by
          rw [List.filter_eq_self]; intro e he; have := h1 e he; simp only at this; simp; omega
        simp [h3, h4]
      · have h3 := h1 _ hm
        simp only at h3
        have h4 : ¬ s.key (some h) < s.key x.1 := by omega
        simp only [List.filter_cons, h3, h4, decide_true, decide_false, Bool.not_true]
        rw [if_neg (by simp), if_neg (by simp)]
        exact ih h2 hm
  exact this _ hg.sorted hmem

theorem after_none (hc : Content l h = none) :
    s.tree.toList.filter (fun e => !decide (s.key e.1 < s.key (some h))) =
      s.tree.toList.filter (fun e => s.key (some h) < s.key e.1) := by
  apply List.filter_congr
  intro e he
  have hne : s.key e.1 ≠ s.key (some h) := by
    intro hk
    have e1 := entry_unique hn hf hg hp he hk
    have : (some h, e.2) ∈ s.tree.toList := by rw [← e1]; exact he
    rw [(hg.content h e.2).1 this] at hc; cases hc
  rw [Bool.eq_iff_iff]; simp; omega

/-- What a search finds. -/
theorem search_eq : s.search (some h) = some ((Content l h).map (fun v => (some h, v))) := by
  simp only [St.search, lower_eq hn hf hg hp, (split_before hn hf hg hp).2]
  cases hc : Content l h with
  | none =>
    rw [after_none hn hf hg hp hc]
    cases hh : (s.tree.toList.filter (fun e => decide (s.key (some h) < s.key e.1))).head? with
    | none => rfl
    | some e =>
      have he := List.mem_of_head? hh
      obtain ⟨he1, he2⟩ := List.mem_filter.1 he
      obtain ⟨h', e1, hp'⟩ := hg.proper e he1
      have hless := less_of hn hp hp'
      rw [e1] at he2
      simp only [decide_eq_true_eq] at he2
      simp only [e1, hless, he2, decide_true]; rfl
  | some v =>
    rw [after_some hn hf hg hp hc]
    have hless := less_of hn hp hp
    simp only [List.head?_cons, hless, Int.lt_irrefl, decide_false]; rfl
end

theorem mem_before {s : St} {h : Nat} {e : Key × Nat} : e ∈ s.before h ↔ (e ∈ s.tree.toList ∧ s.key e.1 < s.key (some h)) := by
  simp [St.before]

/-- The part of the map before, between and after. -/
theorem good_middle {l : List Op} {op : Op} {s : St} (hn : Named l s) (hf : Fresh s) (hg : Good l s) {h : Nat} (hp : Proper l h)
    (M : List (Key × Nat)) (s' : St) (hw : Who (l ++ [op]) = Who l) (ho : s'.objs = s.objs)
    (hM : M = [] ∨ ∃ v, M = [(some h, v)])
    (ht : s'.tree.toList = s.before h ++ M ++ s.tree.toList.filter (fun e => s.key (some h) < s.key e.1))
    (hc : ∀ x v, x ≠ h → (Content (l ++ [op]) x = some v ↔ Content l x = some v))
    (hc' : ∀ v, (some h, v) ∈ M ↔ Content (l ++ [op]) h = some v) : Good (l ++ [op]) s' := by
  have hk : s'.key = s.key := by funext k; simp only [St.key, ho]
  have hP : ∀ x, Proper (l ++ [op]) x ↔ Proper l x := fun x => by simp only [Proper, hw]
  have hmM : ∀ e ∈ M, e.1 = some h := by
    rcases hM with rfl | ⟨v, rfl⟩
    · simp
    · simp
  refine ⟨?_, fun e he => ?_, fun x v => ?_⟩
  · rw [hk, ht]
    have hs1 : Sorted s.key (s.before h) := List.Pairwise.filter _ hg.sorted
    have hs2 : Sorted s.key (s.tree.toList.filter (fun e => decide (s.key (some h) < s.key e.1))) := List.Pairwise.filter _ hg.sorted
    have hs3 : Sorted s.key M := by
      rcases hM with rfl | ⟨v, rfl⟩
      · exact List.Pairwise.nil
      · exact List.pairwise_singleton _ _
    refine List.pairwise_append.2 ⟨List.pairwise_append.2 ⟨hs1, hs3, fun a ha b hb => ?_⟩, hs2, fun a ha b hb => ?_⟩
    · rw [hmM b hb]; exact (mem_before.1 ha).2
    · have hb2 : s.key (some h) < s.key b.1 := by simpa using (List.mem_filter.1 hb).2
      rcases List.mem_append.1 ha with ha | ha
      · have := (mem_before.1 ha).2; omega
      · rw [hmM a ha]; exact hb2
  · rw [ht] at he
    simp only [hP]
    rcases List.mem_append.1 he with he | he
    · rcases List.mem_append.1 he with he | he
      · exact hg.proper e (mem_before.1 he).1
      · exact ⟨h, hmM e he, hp⟩
    · exact hg.proper e (List.mem_filter.1 he).1
  · rw [ht]
    by_cases hx : x = h
    · subst hx
      rw [← hc' v]
      simp only [List.mem_append, List.mem_filter, decide_eq_true_eq, Int.lt_irrefl, and_false, false_or, or_false]
    · rw [hc x v hx, ← hg.content x v]
      simp only [List.mem_append, List.mem_filter, decide_eq_true_eq]
      constructor
      · rintro ((h1 | h1) | h1)
        · exact h1.1
        · have := hmM _ h1
          simp only [Option.some.injEq] at this
          exact absurd this hx
        · exact h1.1
      · intro hm
        obtain ⟨h', e1, hp'⟩ := hg.proper _ hm
        simp only [Option.some.injEq] at e1
        subst e1
        have : s.key (some x) ≠ s.key (some h) := fun hk' => hx (key_inj hn hf hp' hp hk')
        rcases Int.lt_or_gt_of_ne this with h1 | h1
        · exact Or.inl (Or.inl ⟨hm, h1⟩)
        · exact Or.inr ⟨hm, h1⟩

/-- The map is not concerned. -/
theorem good_same {l : List Op} {op : Op} {s s' : St} (hg : Good l s) (ht : s'.tree.toList = s.tree.toList)
    (hc : Content (l ++ [op]) = Content l) (ho : ∀ x, Content l x ≠ none → s'.objs x = s.objs x ∧ Who (l ++ [op]) x = Who l x) :
    Good (l ++ [op]) s' := by
  have hmem : ∀ e ∈ s.tree.toList, ∃ h, e.1 = some h ∧ Proper l h ∧ s'.objs h = s.objs h ∧ Who (l ++ [op]) h = Who l h := by
    intro e he
    obtain ⟨h, e1, hp⟩ := hg.proper e he
    have : (some h, e.2) ∈ s.tree.toList := by rw [← e1]; exact he
    obtain ⟨o1, o2⟩ := ho h (by rw [(hg.content h e.2).1 this]; simp)
    exact ⟨h, e1, hp, o1, o2⟩
  refine ⟨?_, fun e he => ?_, fun x v => by rw [ht, hc]; exact hg.content x v⟩
  · rw [ht]
    refine List.Pairwise.imp_of_mem ?_ hg.sorted
    intro a b ha hb hab
    obtain ⟨h, e1, _, o1, _⟩ := hmem a ha
    obtain ⟨h', e1', _, o1', _⟩ := hmem b hb
    simp only [e1, e1', St.key, Option.bind_some, o1, o1'] at hab ⊢
    exact hab
  · rw [ht] at he
    obtain ⟨h, e1, hp, _, o2⟩ := hmem e he
    exact ⟨h, e1, by simp only [Proper, o2]; exact hp⟩

theorem tame_noSelf {l : List Op} {op : Op} (h : Tame l op) : NoSelf l op := by
  rintro x rfl
  exact h.2.2.1 rfl

/-- A tame call is defined, and does what is specified. -/
theorem tame_step {l : List Op} {s : St} (hn : Named l s) (hf : Fresh s) (hg : Good l s) (op : Op) (ht : Tame l op)
    (hsh : ∀ t, op = .shape t → t.toList = s.tree.toList) :
    ∃ s' a, s.step op = .ok s' a ∧ Good (l ++ [op]) s' ∧ (∀ h, op = .find (some h) → a = Content l h) := by
  have hnone : ∀ x, Who l x = none → s.objs x = none := fun x hx => by rw [hn.objs, hx]; rfl
  have hsome : ∀ x, Who l x ≠ none → ∃ i, s.objs x = some i := by
    intro x hx
    rw [hn.objs]
    cases h : Who l x with
    | none => exact absurd h hx
    | some w => exact ⟨_, rfl⟩
  have hin : ∀ x, Content l x ≠ none → Who l x ≠ none := by
    intro x hx
    cases hc : Content l x with
    | none => exact absurd hc hx
    | some v =>
      obtain ⟨h, e1, n, hw⟩ := hg.proper _ ((hg.content x v).2 hc)
      simp only [Option.some.injEq] at e1
      subst e1; rw [hw]; simp
  cases op with
  | create x =>
    have hx := hnone x ht
    refine ⟨{ s.set x (some s.next) with next := s.next + 1 }, none, by simp only [St.step, hx],
      good_same hg rfl (by rw [Content_append]; rfl) (fun y hy => ?_), fun h hh => by cases hh⟩
    have hyx : y ≠ x := by rintro rfl; exact hin y hy ht
    simp only [St.set, Who, idsOf_append, Ids.on, if_neg hyx]; exact ⟨trivial, trivial⟩
  | moveNew x f =>
    obtain ⟨h1, h2, h3⟩ := ht
    obtain ⟨i, hi⟩ := hsome f h2
    refine ⟨(s.set x (some i)).set f (some (-1)), none, by simp only [St.step, hnone x h1, hi],
      good_same hg rfl (by rw [Content_append]; rfl) (fun y hy => ?_), fun h hh => by cases hh⟩
    have hyx : y ≠ x := by rintro rfl; exact hin y hy h1
    have hyf : y ≠ f := by rintro rfl; exact hy h3
    simp only [St.set, Who, idsOf_append, Ids.on, if_neg hyx, if_neg hyf]; exact ⟨trivial, trivial⟩
  | moveAssign x f =>
    obtain ⟨h1, h2, h3, h4, h5⟩ := ht
    obtain ⟨i, hi⟩ := hsome f h2
    obtain ⟨j, hj⟩ := hsome x h1
    refine ⟨(s.set x (some i)).set f (some (-1)), none, by simp only [St.step, hj, hi],
      good_same hg rfl (by rw [Content_append]; rfl) (fun y hy => ?_), fun h hh => by cases hh⟩
    have hyx : y ≠ x := by rintro rfl; exact hy h4
    have hyf : y ≠ f := by rintro rfl; exact hy h5
    simp only [St.set, Who, idsOf_append, Ids.on, if_neg hyx, if_neg hyf]; exact ⟨trivial, trivial⟩
  | destroy x =>
    obtain ⟨h1, h2⟩ := ht
    obtain ⟨i, hi⟩ := hsome x h1
    refine ⟨s.set x none, none, by simp only [St.step, hi],
      good_same hg rfl (by rw [Content_append]; rfl) (fun y hy => ?_), fun h hh => by cases hh⟩
    have hyx : y ≠ x := by rintro rfl; exact hy h2
    simp only [St.set, Who, idsOf_append, Ids.on, if_neg hyx]; exact ⟨trivial, trivial⟩
  | find k =>
    obtain ⟨h, rfl, hp⟩ := ht
    refine ⟨s, Content l h, ?_, good_same hg rfl (by rw [Content_append]; rfl) (fun y hy => ⟨rfl, by simp only [Who, idsOf_append]; rfl⟩), ?_⟩
    · simp only [St.step, search_eq hn hf hg hp]
      cases Content l h <;> rfl
    · intro h' e; injection e with e; injection e with e; rw [e]
  | assign k v =>
    obtain ⟨h, rfl, hp⟩ := ht
    have hw : Who (l ++ [Op.assign (some h) v]) = Who l := by funext x; simp only [Who, idsOf_append]; rfl
    have hcon : Content (l ++ [Op.assign (some h) v]) = fun x => if x = h then some v else Content l x := by rw [Content_append]; rfl
    cases hc : Content l h with
    | none =>
      refine ⟨s.splice (s.before h).length (s.before h).length [(some h, v)], none,
        by simp only [St.step, search_eq hn hf hg hp, lower_eq hn hf hg hp, hc]; rfl, ?_, fun h hh => by cases hh⟩
      refine good_middle hn hf hg hp [(some h, v)] _ hw rfl (Or.inr ⟨v, rfl⟩) ?_ (fun x u hx => by rw [hcon]; simp [hx]) (fun u => ?_)
      · simp only [St.splice, comb_toList, (split_before hn hf hg hp).1, (split_before hn hf hg hp).2, after_none hn hf hg hp hc]
      · rw [hcon]; simp [eq_comm]
    | some u =>
      refine ⟨s.splice (s.before h).length ((s.before h).length + 1) [(some h, v)], none,
        by simp only [St.step, search_eq hn hf hg hp, lower_eq hn hf hg hp, hc]; rfl, ?_, fun h hh => by cases hh⟩
      refine good_middle hn hf hg hp [(some h, v)] _ hw rfl (Or.inr ⟨v, rfl⟩) ?_ (fun x u hx => by rw [hcon]; simp [hx]) (fun u => ?_)
      · simp only [St.splice, comb_toList, (split_before hn hf hg hp).1]
        rw [← List.drop_drop, (split_before hn hf hg hp).2, after_some hn hf hg hp hc]; rfl
      · rw [hcon]; simp [eq_comm]
  | insert k v =>
    obtain ⟨h, rfl, hp⟩ := ht
    have hw : Who (l ++ [Op.insert (some h) v]) = Who l := by funext x; simp only [Who, idsOf_append]; rfl
    have hcon : Content (l ++ [Op.insert (some h) v]) = fun x => if x = h then some ((Content l h).getD v) else Content l x := by
      rw [Content_append]; rfl
    cases hc : Content l h with
    | none =>
      refine ⟨s.splice (s.before h).length (s.before h).length [(some h, v)], none,
        by simp only [St.step, search_eq hn hf hg hp, lower_eq hn hf hg hp, hc]; rfl, ?_, fun h hh => by cases hh⟩
      refine good_middle hn hf hg hp [(some h, v)] _ hw rfl (Or.inr ⟨v, rfl⟩) ?_ (fun x u hx => by rw [hcon]; simp [hx]) (fun u => ?_)
      · simp only [St.splice, comb_toList, (split_before hn hf hg hp).1, (split_before hn hf hg hp).2, after_none hn hf hg hp hc]
      · rw [hcon]; simp [hc, eq_comm]
    | some u =>
      refine ⟨s, none, by simp only [St.step, search_eq hn hf hg hp, lower_eq hn hf hg hp, hc]; rfl, ?_, fun h hh => by cases hh⟩
      refine good_same hg rfl ?_ (fun y hy => ⟨rfl, by rw [hw]⟩)
      rw [hcon]; funext x
      by_cases hx : x = h
      · subst hx; simp [hc]
      · simp [hx]
  | erase k =>
    obtain ⟨h, rfl, hp⟩ := ht
    have hw : Who (l ++ [Op.erase (some h)]) = Who l := by funext x; simp only [Who, idsOf_append]; rfl
    have hcon : Content (l ++ [Op.erase (some h)]) = fun x => if x = h then none else Content l x := by rw [Content_append]; rfl
    refine ⟨s.splice (s.before h).length (s.tree.toList.filter (fun e => s.key e.1 ≤ s.key (some h))).length [], none,
      by simp only [St.step, lower_eq hn hf hg hp, upper_eq hn hf hg hp], ?_, fun h hh => by cases hh⟩
    refine good_middle hn hf hg hp [] _ hw rfl (Or.inl rfl) ?_ (fun x u hx => by rw [hcon]; simp [hx]) (fun u => by rw [hcon]; simp)
    simp only [St.splice, comb_toList, (split_before hn hf hg hp).1]
    have := (take_drop_split (f := s.key) (fun e => decide (s.key e.1 ≤ s.key (some h))) s.tree.toList hg.sorted
      (fun a b hab hb => by simp only [decide_eq_true_eq] at hb ⊢; omega)).2
    rw [this]
    congr 1
    apply List.filter_congr
    intro e _
    rw [Bool.eq_iff_iff]; simp
  | shape t =>
    exact ⟨{ s with tree := t }, none, rfl, good_same hg (hsh t rfl) (by rw [Content_append]; rfl) (fun y hy => ⟨rfl, by simp only [Who, idsOf_append]; rfl⟩),
      fun h hh => by cases hh⟩

theorem Run.good {l : List Op} {s : St} (h : Run Tame l s) : Named l s ∧ Good l s := by
  induction h with
  | init => exact ⟨⟨rfl, fun _ => rfl⟩, ⟨List.Pairwise.nil, (by simp [Tree.toList]), (by simp [Tree.toList, Content])⟩⟩
  | step l s s' op a hr hp hsh hs ih =>
    refine ⟨ih.1.step hs (tame_noSelf hp), ?_⟩
    obtain ⟨s'', a', h1, h2, _⟩ := tame_step ih.1 hr.fresh ih.2 op hp hsh
    rw [hs] at h1
    injection h1 with h1 _
    subst h1; exact h2

/-! ## Properties -/

/-- **C121.** Whatever the constructions, moves and destructions, two different objects do not have the same identifier, unless both
were moved from (identifier -1); a new object has an identifier that no object ever had. -/
theorem C121_distinct {l : List Op} {s : St} (h : Run Any l s) :
    (∀ x y i, s.objs x = some i → s.objs y = some i → x ≠ y → i = -1) ∧
    (∀ x i, s.objs x = some i → i < s.next) ∧
    (∀ op s' a, s.step op = .ok s' a → s.next ≤ s'.next) ∧
    (∀ x s' a, s.step (.create x) = .ok s' a → s'.objs x = some s.next ∧ s'.next = s.next + 1) := by
  have hf := h.fresh
  refine ⟨fun x y i hx hy hxy => ?_, fun x i hx => ?_, fun op s' a hs => ?_, fun x s' a hs => ?_⟩
  · exact Decidable.byContradiction fun hne => hxy (hf.inj x y i hx hy hne)
  · have := hf.range x i hx
    have := hf.next
    omega
  · rcases step_objs hs with ⟨_, h2, _⟩ | ⟨x, _, _, rfl⟩ | ⟨x, f, i, _, _, rfl⟩ | ⟨x, _, _, rfl⟩
    · rw [h2]; exact Int.le_refl _
    · simp only; omega
    · exact Int.le_refl _
    · exact Int.le_refl _
  · simp only [St.step] at hs
    split at hs
    · injection hs with hs _; subst hs; exact ⟨by simp [St.set], rfl⟩
    · cases hs

/-- **C121.** The identifier of an object is the number of the construction it comes from, through any number of moves, and -1 once it
has been moved from. Missing: move assignments of an object to itself (`C121_self_false`). -/
theorem C121_identity_partial {l : List Op} {s : St} (h : Run NoSelf l s) (x : Nat) :
    s.objs x = (Who l x).map (fun w => match w with | some n => (n : Int) | none => -1) := by
  have := h.named.objs x
  rw [this]
  cases Who l x with
  | none => rfl
  | some w => cases w <;> rfl

/-- **C121.** A map ordered by identifiers is a map from objects, whatever the shape of the tree: no call is undefined, a search finds the
value last given to the object, and nothing if there is none; the iteration goes through the objects of the map, each one once, in the
order of their constructions. Missing: programs that move or destroy keys, and keys that are null or moved from
(`C121_moved_false`, `C121_destroyed_false`, `C121_null`, `C121_merged_false`). -/
theorem C121_map_partial {l : List Op} {s : St} (h : Run Tame l s) :
    (∀ op, Tame l op → (∀ t, op = .shape t → t.toList = s.tree.toList) → ∃ s' a, s.step op = .ok s' a) ∧
    (∀ x, Proper l x → s.step (.find (some x)) = .ok s (Content l x)) ∧
    (∀ k v, (k, v) ∈ s.tree.toList ↔ ∃ x, k = some x ∧ Content l x = some v) ∧
    s.tree.toList.Pairwise (fun a b => ∃ x y n m, a.1 = some x ∧ b.1 = some y ∧ Who l x = some (some n) ∧ Who l y = some (some m) ∧ n < m) := by
  obtain ⟨hn, hg⟩ := h.good
  have hf := h.fresh
  refine ⟨fun op ht hsh => ?_, fun x hx => ?_, fun k v => ⟨fun hm => ?_, ?_⟩, ?_⟩
  · obtain ⟨s', a, h1, _⟩ := tame_step hn hf hg op ht hsh
    exact ⟨s', a, h1⟩
  · simp only [St.step, search_eq hn hf hg hx]
    cases Content l x <;> rfl
  · obtain ⟨x, e1, _⟩ := hg.proper _ hm
    simp only at e1
    subst e1
    exact ⟨x, rfl, (hg.content x v).1 hm⟩
  · rintro ⟨x, rfl, hc⟩
    exact (hg.content x v).2 hc
  · refine List.Pairwise.imp_of_mem ?_ hg.sorted
    intro a b ha hb hab
    obtain ⟨x, e1, hp⟩ := hg.proper a ha
    obtain ⟨y, e2, hq⟩ := hg.proper b hb
    obtain ⟨n, _, h2, h3⟩ := key_of hn hp
    obtain ⟨m, _, h2', h3'⟩ := key_of hn hq
    rw [e1, e2, h2, h2'] at hab
    exact ⟨x, y, n, m, e1, e2, h3, h3', by omega⟩

/-- **C121.** A null key is equivalent to all the keys: a search for it finds the first entry, `erase` with it empties the map. -/
theorem C121_null (s : St) :
    s.step (.find none) = .ok s (s.tree.toList.head?.map (·.2)) ∧
    ∃ s', s.step (.erase none) = .ok s' none ∧ s'.tree.toList = [] ∧ s'.objs = s.objs := by
  have hl : ∀ t : Tree, t.lower s.less none = some 0 := by
    intro t
    induction t with
    | leaf => rfl
    | node l k v r ih1 _ =>
      have : s.less k none = some false := by cases k <;> rfl
      simp only [Tree.lower, this]; exact ih1
  have hu : ∀ t : Tree, t.upper s.less none = some t.size := by
    intro t
    induction t with
    | leaf => rfl
    | node l k v r _ ih2 =>
      have : s.less none k = some false := by cases k <;> rfl
      simp only [Tree.upper, this, ih2]; rfl
  constructor
  · simp only [St.step, St.search, hl, List.drop_zero]
    cases hh : s.tree.toList.head? with
    | none => rfl
    | some e =>
      have : s.less none e.1 = some false := by cases e.1 <;> rfl
      simp only [this]
      try rfl
  · refine ⟨s.splice 0 s.tree.size [], by simp only [St.step, hl, hu], ?_, rfl⟩
    simp [St.splice, comb_toList, size_eq]

/-! ### Counterexamples -/

theorem noShape {op : Op} {L : List (Key × Nat)} (h : (match op with | .shape _ => false | _ => true) = true) :
    ∀ t, op = .shape t → t.toList = L := by
  rintro t rfl; cases h

/-- A move assignment of an object to itself takes its identifier away. -/
theorem C121_self_false : ∃ l s, Run Any l s ∧ Who l 0 = some (some 0) ∧ s.objs 0 = some (-1) :=
  ⟨_, _, .step _ _ _ (.moveAssign 0 0) _ (.step _ _ _ (.create 0) _ .init trivial (noShape rfl) rfl) trivial (noShape rfl) rfl, rfl, rfl⟩

/-- Two objects that were moved from are the same key: a value given to the first one is found for the second one. -/
theorem C121_merged_false : ∃ l s, Run Any l s ∧ (∃ i, s.objs 0 = some i) ∧ (∃ i, s.objs 1 = some i) ∧ Content l 1 = none ∧
    s.step (.find (some 1)) = .ok s (some 7) :=
  ⟨_, _, .step _ _ _ (.assign (some 0) 7) _ (.step _ _ _ (.moveNew 3 1) _ (.step _ _ _ (.moveNew 2 0) _ (.step _ _ _ (.create 1) _
    (.step _ _ _ (.create 0) _ .init trivial (noShape rfl) rfl) trivial (noShape rfl) rfl) trivial (noShape rfl) rfl) trivial
    (noShape rfl) rfl) trivial (noShape rfl) rfl, ⟨_, rfl⟩, ⟨_, rfl⟩, rfl, rfl⟩

/-- A key is moved while it is in the map: another key, that was not touched, is not found any more. -/
theorem C121_moved_false : ∃ l s, Run Any l s ∧ Content l 0 = some 7 ∧ Proper l 0 ∧ s.step (.find (some 0)) = .ok s none :=
  ⟨_, _, .step _ _ _ (.moveNew 2 1) _ (.step _ _ _ (.shape (.node (.node .leaf (some 0) 7 .leaf) (some 1) 8 .leaf)) _
    (.step _ _ _ (.assign (some 1) 8) _ (.step _ _ _ (.assign (some 0) 7) _ (.step _ _ _ (.create 1) _
    (.step _ _ _ (.create 0) _ .init trivial (noShape rfl) rfl) trivial (noShape rfl) rfl) trivial (noShape rfl) rfl) trivial
    (noShape rfl) rfl) trivial (by rintro t e; injection e with e; subst e; rfl) rfl) trivial (noShape rfl) rfl, rfl, ⟨0, rfl⟩, rfl⟩

/-- A key is destroyed while it is in the map: the search for another key is undefined. -/
theorem C121_destroyed_false : ∃ l s, Run Any l s ∧ Proper l 0 ∧ s.step (.find (some 0)) = .ub :=
  ⟨_, _, .step _ _ _ (.destroy 1) _ (.step _ _ _ (.assign (some 1) 8) _ (.step _ _ _ (.create 1) _
    (.step _ _ _ (.create 0) _ .init trivial (noShape rfl) rfl) trivial (noShape rfl) rfl) trivial (noShape rfl) rfl) trivial
    (noShape rfl) rfl, ⟨0, rfl⟩, rfl⟩

/-! ### A case that meets the hypotheses -/

/-- An object is moved before it is used as a key, a key is erased then destroyed, and the tree is reshaped. -/
example : ∃ l s, Run Tame l s ∧ Content l 3 = some 9 ∧ Content l 1 = some 5 ∧ Content l 2 = none ∧ Who l 3 = some (some 0) ∧
    s.tree.toList = [(some 3, 9), (some 1, 5)] := by
  refine ⟨_, _, .step _ _ _ (.shape (.node (.node .leaf (some 3) 9 .leaf) (some 1) 5 .leaf)) _ (.step _ _ _ (.destroy 2) _
    (.step _ _ _ (.erase (some 2)) _ (.step _ _ _ (.insert (some 1) 8) _
    (.step _ _ _ (.assign (some 3) 9) _ (.step _ _ _ (.insert (some 2) 4) _ (.step _ _ _ (.assign (some 1) 5) _ (.step _ _ _ (.moveNew 3 0) _
    (.step _ _ _ (.create 2) _ (.step _ _ _ (.create 1) _ (.step _ _ _ (.create 0) _ .init rfl (noShape rfl) rfl) rfl (noShape rfl) rfl)
      rfl (noShape rfl) rfl) ⟨rfl, ?_, rfl⟩ (noShape rfl) rfl) ⟨1, rfl, 1, rfl⟩ (noShape rfl) rfl) ⟨2, rfl, 2, rfl⟩ (noShape rfl) rfl)
      ⟨3, rfl, 0, rfl⟩ (noShape rfl) rfl) ⟨1, rfl, 1, rfl⟩ (noShape rfl) rfl) ⟨2, rfl, 2, rfl⟩ (noShape rfl) rfl) ⟨?_, rfl⟩ (noShape rfl) rfl)
      trivial ?_ rfl, rfl, rfl, rfl, rfl, rfl⟩
  · intro h; cases h
  · intro h; cases h
  · rintro t e; injection e with e; subst e; rfl

end Verif.IM
