import Verif.Model.CountingLifetime
import Verif.Properties.C07_VariableCountingVector
/-!
# C116: the variables that a counting vector reads exist

The keys of the map of a counting vector are raw pointers. Which of them are read, and must exist, when the program adds and removes variables and drops its pointers to them?
-/
set_option autoImplicit false

namespace Verif.C116
open Verif Verif.RC Verif.VCV Verif.CL
open Verif.C07 (World Valid Call netV Reach reach_inv)

/-! ## Specification -/

/-- The calls that returned, after one more; `clear` forgets them -/
def newCalls (s : CL.State) : Op → List Call → List Call
  | .add v, h => match s.vcv.add v with
    | .ok _ _ => .add v :: h
    | _ => h
  | .remove v, h => match s.vcv.remove v with
    | .ok _ _ => .remove v :: h
    | _ => h
  | .clear, _ => []
  | _, h => h

/-- The super variables of the variables given to `add` since the last `clear`, after one more call -/
def newAdded : Op → List Nat → List Nat
  | .add v, K => v.root.id :: K
  | .clear, _ => []
  | _, K => K

/-- The program has a pointer to the variable, or to another one of its family (a variable and its derivatives, which keep each other): it exists. -/
def Held (fam : Nat → Nat) (s : CL.State) (id : Nat) : Prop := ∃ u ∈ s.users, fam u = fam id

theorem held_iff {fam : Nat → Nat} {s : CL.State} {id : Nat} : s.heldByUsers fam id = true ↔ Held fam s id := by
  simp [State.heldByUsers, Held]

/-- The calls of a program that has a pointer to the variables it gives to the calls -/
def Allowed (W : World) (fam : Nat → Nat) (s : CL.State) : Op → Prop
  | .add v => Valid W v ∧ Held fam s v.root.id
  | .remove v => Valid W v ∧ Held fam s v.root.id
  | .hold id => Held fam s id
  | _ => True

/-- The states that a program reaches, with the calls that returned and the variables that were added. `P` is required of all the states. -/
inductive Trace (W : World) (fam : Nat → Nat) (split : Bool) (P : CL.State → List Call → List Nat → Prop) : CL.State → List Call → List Nat → Prop
  | init (users : List Nat) : P ⟨{ split := split }, users⟩ [] [] → Trace W fam split P ⟨{ split := split }, users⟩ [] []
  | step (s s' : CL.State) (h : List Call) (K : List Nat) (op : Op) : Trace W fam split P s h K → Allowed W fam s op → s.step op = some s' → P s' (newCalls s op h) (newAdded op K) →
      Trace W fam split P s' (newCalls s op h) (newAdded op K)

/-- The program has pointers to the variables that are counted: those a part of which was added more often than removed -/
def CountedHeld (fam : Nat → Nat) (s : CL.State) (h : List Call) (_ : List Nat) : Prop := ∀ id, (∃ k, 0 < netV h id k) → Held fam s id

/-- The program has pointers to all the variables that were added since the last `clear`, those that were removed included -/
def AddedHeld (fam : Nat → Nat) (s : CL.State) (_ : List Call) (K : List Nat) : Prop := ∀ id ∈ K, Held fam s id

/-! ## Invariants -/

theorem trace_reach {W : World} {fam : Nat → Nat} {split : Bool} {P : CL.State → List Call → List Nat → Prop} {s : CL.State} {h : List Call} {K : List Nat} (ht : Trace W fam split P s h K) :
    Reach W split s.vcv h ∧ P s h K := by
  induction ht with
  | init users hp => exact ⟨.init, hp⟩
  | step s s' h K op _ ha hs hp ih =>
    refine ⟨?_, hp⟩
    obtain ⟨ih, _⟩ := ih
    cases op with
    | hold id => cases hs; exact ih
    | release id => cases hs; exact ih
    | clear => cases hs; exact .clear ih
    | add v =>
      simp only [State.step] at hs
      simp only [newCalls]
      cases e : s.vcv.add v with
      | ub => rw [e] at hs; cases hs
      | throw c => rw [e] at hs; cases hs; exact .addThrow ih ha.1 e
      | ok c b => rw [e] at hs; cases hs; exact .add ih ha.1 e
    | remove v =>
      simp only [State.step] at hs
      simp only [newCalls]
      cases e : s.vcv.remove v with
      | ub => rw [e] at hs; cases hs
      | throw c => rw [e] at hs; cases hs; exact .removeThrow ih ha.1 e
      | ok c b => rw [e] at hs; cases hs; exact .remove ih ha.1 e
    | variables =>
      simp only [State.step] at hs
      simp only [newCalls]
      cases e : s.vcv.getVariables with
      | ub => rw [e] at hs; cases hs
      | throw c =>
        unfold State.getVariables at e
        split at e <;> cases e
      | ok c b => rw [e] at hs; cases hs; exact .variables ih e

theorem put_keys (v : Root) (e : Entry) (l : List (Root × Entry)) (id : Nat) : id ∈ (put v e l).map (·.1.id) ↔ id = v.id ∨ id ∈ l.map (·.1.id) := by
  induction l with
  | nil => simp [put]
  | cons p l ih =>
    obtain ⟨w, x⟩ := p
    rw [put]
    split
    · simp
    · split
      · next h => simp [h]
      · simp only [List.map_cons, List.mem_cons, ih]
        constructor
        · rintro (h | h | h) <;> simp [h]
        · rintro (h | h | h) <;> simp [h]

theorem find_key {l : List (Root × Entry)} {i : Nat} {e : Entry} (h : find i l = some e) : i ∈ l.map (·.1.id) := by
  induction l with
  | nil => cases h
  | cons p l ih =>
    obtain ⟨w, x⟩ := p
    rw [find] at h
    split at h
    · next hw => simp [hw]
    · simp [ih h]

theorem update_keys {split : Bool} {l c : List (Root × Entry)} {vs : List Item} {ss : List Bool} (h : updateLoop split l = some (c, vs, ss)) : c.map (·.1.id) = l.map (·.1.id) := by
  induction l generalizing c vs ss with
  | nil => cases h; rfl
  | cons p l ih =>
    obtain ⟨v, e⟩ := p
    rw [updateLoop] at h
    split at h
    · next items l' vs' ss' h1 h2 =>
      cases h
      simp [ih h2]
    · cases h

/-- **C116** The keys of the map are the variables added since the last `clear`, those that were removed since then included. -/
theorem C116_keys {W : World} {fam : Nat → Nat} {split : Bool} {P : CL.State → List Call → List Nat → Prop} {s : CL.State} {h : List Call} {K : List Nat} (ht : Trace W fam split P s h K) (id : Nat) :
    id ∈ s.keys ↔ id ∈ K := by
  induction ht generalizing id with
  | init users hp => simp [State.keys]
  | step s s' h K op _ ha hs hp ih =>
    cases op with
    | hold i => cases hs; exact ih id
    | release i => cases hs; exact ih id
    | clear => cases hs; simp [State.keys, VCV.State.clear, newAdded]
    | add v =>
      have key : ∃ e, s'.vcv.count = put v.root e s.vcv.count := by
        simp only [State.step, VCV.State.add] at hs
        split at hs
        · cases hs
        · next e _ => cases hs; exact ⟨e, rfl⟩
        · next e _ _ => cases hs; exact ⟨e, rfl⟩
      obtain ⟨e, he⟩ := key
      rw [State.keys, he, put_keys, newAdded, List.mem_cons]
      exact or_congr_right (ih id)
    | remove v =>
      have key : s'.vcv.count = s.vcv.count ∨ ∃ e, s'.vcv.count = put v.root e s.vcv.count ∧ v.root.id ∈ s.keys := by
        simp only [State.step, VCV.State.remove] at hs
        cases hf : find v.root.id s.vcv.count with
        | none => rw [hf] at hs; cases hs; exact .inl rfl
        | some x =>
          rw [hf] at hs
          simp only at hs
          split at hs
          · cases hs
          · next e _ => cases hs; exact .inr ⟨e, rfl, find_key hf⟩
          · next e _ _ => cases hs; exact .inr ⟨e, rfl, find_key hf⟩
      change id ∈ s'.keys ↔ id ∈ K
      rw [← ih id]
      rcases key with e | ⟨e, he, hk⟩
      · rw [State.keys, e]; rfl
      · rw [State.keys, he, put_keys]
        constructor
        · rintro (rfl | h)
          · exact hk
          · exact h
        · exact .inr
    | variables =>
      change id ∈ s'.keys ↔ id ∈ K
      rw [← ih id]
      simp only [State.step, VCV.State.getVariables] at hs
      cases hu : s.vcv.update with
      | none => rw [hu] at hs; cases hs
      | some c =>
        rw [hu] at hs; cases hs
        have : c.count.map (·.1.id) = s.vcv.count.map (·.1.id) := by
          rw [VCV.State.update] at hu
          split at hu
          · cases hu; rfl
          · split at hu
            · cases hu
            · next h => cases hu; exact update_keys h
        rw [State.keys, State.keys, this]

/-- **C116** When the program has pointers to all the variables that were added since the last `clear`, every variable that is read exists. -/
theorem C116_added_partial {W : World} {fam : Nat → Nat} {split : Bool} {s : CL.State} {h : List Call} {K : List Nat} (ht : Trace W fam split (AddedHeld fam) s h K) (op : Op) (ha : Allowed W fam s op) :
    ∀ x ∈ s.reads fam op, x.2 = true := by
  have hk := (trace_reach ht).2
  have keys : ∀ id ∈ s.keys, s.heldByUsers fam id = true := fun id hid => held_iff.2 (hk id ((C116_keys ht id).1 hid))
  have both : ∀ v : Var, s.heldByUsers fam v.root.id = true →
      ∀ x ∈ (v.root.id :: s.keys).map (fun id => (id, s.heldByUsers fam id || s.heldByVector fam id)), x.2 = true := by
    intro v hv x hx
    obtain ⟨id, h1, rfl⟩ := List.mem_map.1 hx
    rcases List.mem_cons.1 h1 with rfl | h1
    · simp [hv]
    · simp [keys id h1]
  cases op with
  | hold id =>
    intro x hx
    cases List.mem_singleton.1 hx
    simp [held_iff.2 ha]
  | release id => intro x hx; cases hx
  | clear => intro x hx; cases hx
  | add v => exact both v (held_iff.2 ha.2)
  | remove v => exact both v (held_iff.2 ha.2)
  | variables =>
    intro x hx
    rw [State.reads] at hx
    split at hx
    · cases hx
    · obtain ⟨p, h1, rfl⟩ := List.mem_map.1 hx
      exact keys _ (List.mem_map.2 ⟨p, (List.mem_filter.1 h1).1, rfl⟩)

/-- **C116** When the program has pointers to the variables that are counted, `variables()` reads only variables that exist. -/
theorem C116_variables {W : World} {fam : Nat → Nat} {split : Bool} {s : CL.State} {h : List Call} {K : List Nat} (ht : Trace W fam split (CountedHeld fam) s h K) :
    ∀ x ∈ s.reads fam .variables, x.2 = true := by
  obtain ⟨hr, hk⟩ := trace_reach ht
  have hi := reach_inv hr
  intro x hx
  rw [State.reads] at hx
  split at hx
  · cases hx
  · obtain ⟨p, h1, rfl⟩ := List.mem_map.1 hx
    obtain ⟨h2, h3⟩ := List.mem_filter.1 h1
    refine held_iff.2 (hk p.1.id ?_)
    have he := (hi.entries p h2).2.m
    have hne : (p.2.m.ranges split).2 ≠ [] := by
      intro e
      rw [hi.splitEq, e] at h3
      cases h3
    obtain ⟨a, ha⟩ := List.exists_mem_of_ne_nil _ hne
    refine ⟨a.start, ?_⟩
    rw [← C07.net_proj]
    cases split with
    | false =>
      have hc := C02.C02_ranges_exact he
      have := hc.nonempty a ha
      exact (hc.cover a.start).1 ⟨a, ha, by unfold C02.In; omega⟩
    | true =>
      have hc := C02.C06_split_partition he
      have := hc.1 a ha
      exact (hc.2.2.1 a.start).1 ⟨a, ha, by unfold C02.In; omega⟩

/-- **C116** The list returned by `variables()` keeps the variables that are counted, and those of the same families, whatever pointers the program drops afterwards; it keeps no other one. -/
theorem C116_vector {W : World} {fam : Nat → Nat} {P : CL.State → List Call → List Nat → Prop} {s : CL.State} {h : List Call} {K : List Nat} (ht : Trace W fam false P s h K) :
    ∃ s', s.step .variables = some s' ∧ ∀ users id, State.heldByVector fam { s' with users := users } id = true ↔ ∃ i k, fam i = fam id ∧ 0 < netV h i k := by
  obtain ⟨c, l, h1, h2⟩ := C07.C07_variables_exact (trace_reach ht).1
  have hl : c.variables = l := by
    unfold State.getVariables at h1
    split at h1
    · cases h1
    · cases h1; rfl
  refine ⟨{ s with vcv := c }, by simp [State.step, h1, left], fun users id => ?_⟩
  simp only [State.heldByVector, hl, List.any_eq_true, beq_iff_eq]
  constructor
  · rintro ⟨x, hx, hf⟩
    exact ⟨_, x.var.start.m, hf, (h2.cover _ _).1 ⟨x, hx, rfl, Int.le_refl _, by have := h2.nonempty x hx; omega⟩⟩
  · rintro ⟨i, k, hf, hk⟩
    obtain ⟨x, hx, hi⟩ := (h2.cover i k).2 hk
    exact ⟨x, hx, by rw [hi.1, hf]⟩

/-! ## Variables that were removed -/

/-- The variables 0 and 1 -/
def x : Var := C07.exX 0 8
@[inherit_doc x]
def y : Var := C07.exRot

theorem held01 (s : CL.State) (hs : s.users = [0, 1]) (h : List Call) (K : List Nat) (hh : ∀ c ∈ h, c = .add x ∨ c = .remove x) : CountedHeld id s h K := by
  have key : ∀ (h : List Call), (∀ c ∈ h, c = .add x ∨ c = .remove x) → ∀ i, i ≠ 0 → ∀ k, netV h i k = 0 := by
    intro h
    induction h with
    | nil => intros; rfl
    | cons c h ih =>
      intro hh i hi k
      have := ih (fun c hc => hh c (by simp [hc])) i hi k
      rcases hh c (by simp) with rfl | rfl
      · rw [netV, this, if_neg (fun e => hi e.1.symm)]; rfl
      · rw [netV, this, if_neg (fun e => hi e.1.symm)]; rfl
  rintro i ⟨k, hk⟩
  by_cases hi : i = 0
  · subst hi; exact ⟨0, by simp [hs], rfl⟩
  · rw [key h hh i hi k] at hk; cases hk

/-- The state after calls, when none of them is undefined -/
def after (s : CL.State) (ops : List Op) : CL.State := ops.foldl (fun s op => (s.step op).getD s) s

/-- The program has pointers to `x` and `y` -/
def s₀ : CL.State := ⟨{ split := false }, [0, 1]⟩

/-- `x` is used, it is not used any more, `variables()` is called each time, and the program drops its pointer to `x` -/
theorem stale : Trace C07.exWorld id false (CountedHeld id) (after s₀ [.add x, .variables, .remove x, .variables, .release 0]) [.remove x, .add x] [0] := by
  have hx : Valid C07.exWorld x := C07.exX_valid 0 8 (by decide) (by decide) (by decide)
  have h0 : Trace C07.exWorld id false (CountedHeld id) s₀ [] [] := .init [0, 1] (held01 _ rfl _ _ (by simp))
  have h1 : Trace C07.exWorld id false (CountedHeld id) (after s₀ [.add x]) [.add x] [0] := .step _ _ _ _ (.add x) h0 ⟨hx, ⟨0, by decide, rfl⟩⟩ rfl (held01 _ rfl [.add x] _ (by simp))
  have h2 : Trace C07.exWorld id false (CountedHeld id) (after s₀ [.add x, .variables]) [.add x] [0] := .step _ _ _ _ .variables h1 trivial rfl (held01 _ rfl [.add x] _ (by simp))
  have h3 : Trace C07.exWorld id false (CountedHeld id) (after s₀ [.add x, .variables, .remove x]) [.remove x, .add x] [0] :=
    .step _ _ _ _ (.remove x) h2 ⟨hx, ⟨0, by decide, rfl⟩⟩ rfl (held01 _ rfl [.remove x, .add x] _ (by simp))
  have h4 : Trace C07.exWorld id false (CountedHeld id) (after s₀ [.add x, .variables, .remove x, .variables]) [.remove x, .add x] [0] :=
    .step _ _ _ _ .variables h3 trivial rfl (held01 _ rfl [.remove x, .add x] _ (by simp))
  refine .step _ _ _ _ (.release 0) h4 trivial rfl ?_
  rintro i ⟨k, hk⟩
  exfalso
  change 0 < netV [.remove x, .add x] i k at hk
  simp only [netV] at hk
  omega

/-- **C116** A program that has pointers to the variables that are counted, and to the variables it gives to the calls, can make the counting vector read a variable that was destroyed: `remove` does not remove the
key of a variable that is not used any more, and the next `add` compares with it. The map has this key only, so that it is read whatever the order of the comparisons. -/
theorem C116_counted_false : ¬ ∀ (W : World) (fam : Nat → Nat) (split : Bool) (s : CL.State) (h : List Call) (K : List Nat) (op : Op), Trace W fam split (CountedHeld fam) s h K → Allowed W fam s op →
    ∀ x ∈ s.reads fam op, x.2 = true := by
  intro hall
  have := hall _ _ _ _ _ _ (.add y) stale ⟨C07.exRot_valid, ⟨1, by decide, rfl⟩⟩ (0, false) (by decide)
  cases this

example : (after s₀ [.add x, .variables, .remove x, .variables, .release 0]).keys = [0] := by decide

/-- `variables()` reads `x`, which exists -/
example : (after s₀ [.add x]).reads id .variables = [(0, true)] ∧ ∀ p ∈ (after s₀ [.add x]).reads id .variables, p.2 = true :=
  ⟨by decide, C116_variables (.step _ _ _ _ (.add x) (.init [0, 1] (held01 _ rfl _ _ (by simp))) ⟨C07.exX_valid 0 8 (by decide) (by decide) (by decide), ⟨0, by decide, rfl⟩⟩ rfl (held01 _ rfl [.add x] _ (by simp)))⟩

/-- After `variables()`, `x` is kept without the pointer of the program, and `y` is not -/
example : ((after s₀ [.add x]).step .variables).map (fun s => [0, 1].map fun i => State.heldByVector id { s with users := [] } i) = some [true, false] := by decide

example : ∃ s', (after s₀ [.add x]).step .variables = some s' ∧ ∀ users i, State.heldByVector id { s' with users := users } i = true ↔ ∃ j k, id j = id i ∧ 0 < netV [.add x] j k :=
  C116_vector (.step _ _ _ _ (.add x) (.init [0, 1] (held01 _ rfl _ _ (by simp))) ⟨C07.exX_valid 0 8 (by decide) (by decide) (by decide), ⟨0, by decide, rfl⟩⟩ rfl (held01 _ rfl [.add x] _ (by simp)))

/-- With a pointer to `x` held until the end, the hypothesis of `C116_added_partial` is met -/
theorem kept : Trace C07.exWorld id false (AddedHeld id) (after s₀ [.add x, .variables, .remove x, .variables]) [.remove x, .add x] [0] := by
  have hx : Valid C07.exWorld x := C07.exX_valid 0 8 (by decide) (by decide) (by decide)
  have hk : ∀ (s : CL.State) (h : List Call), s.users = [0, 1] → AddedHeld id s h [0] := by
    intro s h hs i hi
    cases List.mem_singleton.1 hi
    exact ⟨0, by simp [hs], rfl⟩
  have h0 : Trace C07.exWorld id false (AddedHeld id) s₀ [] [] := .init [0, 1] (fun i hi => by cases hi)
  have h1 : Trace C07.exWorld id false (AddedHeld id) (after s₀ [.add x]) [.add x] [0] := .step _ _ _ _ (.add x) h0 ⟨hx, ⟨0, by decide, rfl⟩⟩ rfl (hk _ _ rfl)
  have h2 : Trace C07.exWorld id false (AddedHeld id) (after s₀ [.add x, .variables]) [.add x] [0] := .step _ _ _ _ .variables h1 trivial rfl (hk _ _ rfl)
  have h3 : Trace C07.exWorld id false (AddedHeld id) (after s₀ [.add x, .variables, .remove x]) [.remove x, .add x] [0] := .step _ _ _ _ (.remove x) h2 ⟨hx, ⟨0, by decide, rfl⟩⟩ rfl (hk _ _ rfl)
  exact .step _ _ _ _ .variables h3 trivial rfl (hk _ _ rfl)

example : ∀ p ∈ (after s₀ [.add x, .variables, .remove x, .variables]).reads id (.add y), p.2 = true := C116_added_partial kept (.add y) ⟨C07.exRot_valid, ⟨1, by decide, rfl⟩⟩

example : (after s₀ [.add x, .variables, .remove x, .variables]).reads id (.add y) = [(1, true), (0, true)] := by decide

/-- A pointer to the derivative 2 of `x` alone is enough -/
example : Held (fun i => if i = 2 then 0 else i) ⟨{ split := false }, [2]⟩ 0 ∧ State.reads (fun i => if i = 2 then 0 else i) ⟨{ split := false }, [2]⟩ (.add x) = [(0, true)] := ⟨⟨2, by decide, rfl⟩, by decide⟩

/-- The pointers in `variables_` do not help: a new call to `variables()` drops them before it reads the keys -/
example : (after s₀ [.add x, .variables, .release 0, .add y]).reads id .variables = [(0, false), (1, true)] := by decide

end Verif.C116
