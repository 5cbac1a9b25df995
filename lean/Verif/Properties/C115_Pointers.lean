import Verif.Model.VariablePointers
import Verif.Properties.C26_Variable
/-!
# C115: what the pointers to variables keep alive

A program holds pointers to variables, subvariables and derivatives. `State.run` is undefined when a call is made through a pointer to a variable that was destroyed.
-/
set_option autoImplicit false

namespace Verif.C115
open Verif Verif.Var Verif.Own Verif.C26
variable {V : Type}

/-! ## Specification -/

/-- The states that a program reaches, from nothing, with calls that satisfy `A`; calls that throw included -/
inductive Trace (z : V) (A : State V → Op → Prop) : State V → Prop
  | nil : Trace z A ⟨World.empty z, []⟩
  | ok (S S' : State V) (op : Op) (h : Trace z A S) (ha : A S op) (hr : S.run z op = .ok S' ()) : Trace z A S'
  | throw (S S' : State V) (op : Op) (h : Trace z A S) (ha : A S op) (hr : S.run z op = .throw S') : Trace z A S'

/-- The variable is a subvariable, or the derivative of one -/
def IsSub (w : World V) (i : Nat) : Prop := ∃ o, w.objs[i]? = some o ∧ o.root ≠ none

/-- The program does not ask for the primitives of a subvariable (nor for the base primitive of a subvariable that is one itself) -/
def NoPrimitiveOfSub (S : State V) : Op → Prop
  | .basePrimitive k => ∀ p, S.ptrs[k]? = some p → ¬ IsSub S.w p.target
  | .primitive k _ => ∀ p, S.ptrs[k]? = some p → ¬ IsSub S.w p.target
  | _ => True

/-- The pointer that a call goes through -/
def through : Op → Option Nat
  | .create _ => none
  | .dot k _ => some k
  | .subvariable k _ _ => some k
  | .superVariable k => some k
  | .basePrimitive k => some k
  | .primitive k _ => some k
  | .copy _ => none
  | .drop _ => none

/-! ## Base primitives -/

theorem base_zero (w : World V) (i : Nat) (o : Obj) (ho : w.objs[i]? = some o) (h0 : o.order = 0) : base w i = some i := by
  simp [base, ho, h0, World.basePrimitive]

theorem base_succ (w : World V) (hw : WF w) (i q : Nat) (o : Obj) (ho : w.objs[i]? = some o) (hq : o.prim = some q) : base w i = base w q := by
  obtain ⟨p, h1, h2, h3⟩ := (hw.at_ i o ho).prim1 q hq
  change w.objs[q]? = some p at h1
  simp [base, ho, h1, h3, World.basePrimitive, hq]

theorem base_deriv (w : World V) (hw : WF w) (i d : Nat) (o : Obj) (ho : w.objs[i]? = some o) (hd : o.deriv = some d) : base w d = base w i := by
  obtain ⟨p, h1, h2, h3, h4, h5, _⟩ := (hw.at_ i o ho).der d hd
  exact base_succ w hw d i p h1 h5

theorem base_nth (w : World V) (hw : WF w) (n : Nat) (i d : Nat) (hn : nthDeriv w i n = some d) : base w d = base w i := by
  induction n generalizing d with
  | zero => cases hn; rfl
  | succ n ih =>
    rw [nthDeriv] at hn
    cases hj : nthDeriv w i n with
    | none => rw [hj] at hn; cases hn
    | some j =>
      rw [hj] at hn
      simp only [Option.bind_some] at hn
      cases ho : w.objs[j]? with
      | none => rw [ho] at hn; cases hn
      | some o =>
        rw [ho] at hn
        exact (base_deriv w hw j d o ho hn).trans (ih j hj)

/-- The base primitive, and how its super variable is related to the one of the variable -/
theorem base_exists (w : World V) (hw : WF w) (n i : Nat) (o : Obj) (ho : w.objs[i]? = some o) (hn : o.order = n) :
    ∃ b bo, base w i = some b ∧ w.objs[b]? = some bo ∧ bo.order = 0 ∧ (o.root = none → bo.root = none) ∧
      ∀ s, o.root = some s → ∃ r, base w s = some r ∧ bo.root = some r := by
  induction n generalizing i o with
  | zero =>
    refine ⟨i, o, base_zero w i o ho hn, ho, hn, id, fun s hs => ?_⟩
    obtain ⟨so, g1, g2, g3, _⟩ := (hw.at_ i o ho).sub s hs
    exact ⟨s, base_zero w s so g1 (by omega), hs⟩
  | succ n ih =>
    have hoi := hw.at_ i o ho
    cases hp : o.prim with
    | none => have := hoi.prim0 hp; omega
    | some q =>
      obtain ⟨p, h1, h2, h3⟩ := hoi.prim1 q hp
      change w.objs[q]? = some p at h1
      obtain ⟨b, bo, g1, g2, g3, g4, g5⟩ := ih q p h1 (by omega)
      obtain ⟨p', a1, a2, a3, a4, a5, a6, a7⟩ := (hw.at_ q p h1).der i h2
      change w.objs[i]? = some p' at a1
      rw [ho] at a1; cases a1
      refine ⟨b, bo, (base_succ w hw i q o ho hp).trans g1, g2, g3, fun hr => ?_, fun s hs => ?_⟩
      · apply g4
        cases hpr : p.root with
        | none => rfl
        | some s =>
          obtain ⟨so, e1, _⟩ := (hw.at_ q p h1).sub s hpr
          obtain ⟨f1, f2⟩ := a7 s so hpr e1
          rw [hr] at f2; exact absurd f2.symm f1
      · cases hpr : p.root with
        | none => rw [a6 hpr] at hs; cases hs
        | some t =>
          obtain ⟨r, e1, e2⟩ := g5 t hpr
          obtain ⟨so, k1, _⟩ := (hw.at_ q p h1).sub t hpr
          obtain ⟨f1, f2⟩ := a7 t so hpr k1
          refine ⟨r, ?_, e2⟩
          rw [← e1]
          exact base_deriv w hw t s so k1 (f2.symm.trans hs)

theorem basePrimitive_ext (w w' : World V) (he : WExt w w') (n i b : Nat) (hb : w.basePrimitive i n = some b) : w'.basePrimitive i n = some b := by
  induction n generalizing i with
  | zero => exact hb
  | succ n ih =>
    rw [World.basePrimitive] at hb ⊢
    cases ho : w.objs[i]? with
    | none => rw [ho] at hb; cases hb
    | some o =>
      rw [ho] at hb
      obtain ⟨o', e1, _, _, _, _, _, _, e7, _⟩ := he i o ho
      change w'.objs[i]? = some o' at e1
      rw [e1]
      simp only at hb ⊢
      rw [e7]
      cases hp : o.prim with
      | none => rw [hp] at hb; cases hb
      | some q => rw [hp] at hb; exact ih q hb

theorem base_ext (w w' : World V) (he : WExt w w') (i b : Nat) (hb : base w i = some b) : base w' i = some b := by
  unfold base at hb ⊢
  cases ho : w.objs[i]? with
  | none => rw [ho] at hb; cases hb
  | some o =>
    rw [ho] at hb
    obtain ⟨o', e1, _, _, _, _, _, e6, _⟩ := he i o ho
    change w'.objs[i]? = some o' at e1
    rw [e1]
    simp only at hb ⊢
    rw [e6]
    exact basePrimitive_ext w w' he _ i b hb

theorem base_obj (w : World V) (hw : WF w) (i b : Nat) (hb : base w i = some b) :
    ∃ o bo, w.objs[i]? = some o ∧ w.objs[b]? = some bo ∧ bo.order = 0 ∧ (o.root = none ↔ bo.root = none) ∧ ∀ s, o.root = some s → bo.root = base w s := by
  cases ho : w.objs[i]? with
  | none => simp [base, ho] at hb
  | some o =>
    obtain ⟨b', bo, h1, h2, h3, h4, h5⟩ := base_exists w hw _ i o ho rfl
    rw [hb] at h1; cases h1
    refine ⟨o, bo, rfl, h2, h3, ⟨h4, fun h => ?_⟩, fun s hs => ?_⟩
    · cases hr : o.root with
      | none => rfl
      | some s => obtain ⟨r, _, e⟩ := h5 s hr; rw [h] at e; cases e
    · obtain ⟨r, e1, e2⟩ := h5 s hs
      rw [e1, e2]

/-! ## The pointers given by the functions -/

/-- The control block of `shared_from_this` is that of the base primitive of the super variable -/
theorem shared_eq (w : World V) (hw : WF w) (i : Nat) (o : Obj) (ho : w.objs[i]? = some o) : sharedFromThis w i = (base w (o.super i)).map fun b => ⟨b, i⟩ := by
  unfold sharedFromThis
  rw [ho]
  simp only
  cases hr : o.root with
  | none =>
    simp only [Obj.super, hr, Option.getD_none]
    split
    · next h => rw [base_zero w i o ho h]; rfl
    · rfl
  | some s =>
    simp only [Obj.super, hr, Option.getD_some]
    split
    · next h =>
      obtain ⟨so, g1, g2, g3, _⟩ := (hw.at_ i o ho).sub s hr
      rw [base_zero w s so g1 (by omega)]; rfl
    · rfl

/-- The control block is that of the base primitive, or of its super variable -/
def Kept (w : World V) (p : Ptr) : Prop := ∃ b bo, base w p.target = some b ∧ w.objs[b]? = some bo ∧ (p.owner = b ∨ bo.root = some p.owner)

/-- The control block is that of the base primitive -/
def Owned (w : World V) (p : Ptr) : Prop := base w p.target = some p.owner

theorem Owned.kept {w : World V} (hw : WF w) {p : Ptr} (h : Owned w p) : Kept w p := by
  obtain ⟨o, bo, _, h2, _⟩ := base_obj w hw _ _ h
  exact ⟨_, bo, h, h2, .inl rfl⟩

theorem Kept.owned {w : World V} (hw : WF w) {p : Ptr} (h : Kept w p) (hs : ¬ IsSub w p.target) : Owned w p := by
  obtain ⟨b, bo, h1, h2, h3⟩ := h
  obtain ⟨o, bo', g1, g2, _, g4, _⟩ := base_obj w hw _ _ h1
  rw [h2] at g2; cases g2
  have : o.root = none := by
    cases hr : o.root with
    | none => rfl
    | some s => exact absurd ⟨o, g1, by rw [hr]; exact fun h => by cases h⟩ hs
  rcases h3 with e | e
  · rw [Owned, h1, e]
  · rw [g4.1 this] at e; cases e

theorem super_ptr (w : World V) (hw : WF w) (i : Nat) (o : Obj) (ho : w.objs[i]? = some o) : ∃ p, superVariablePtr w i = some p ∧ p.target = o.super i ∧ Owned w p := by
  obtain ⟨so, g1, g2, _⟩ := root_spec w hw i o ho
  have : superVariablePtr w i = sharedFromThis w (o.super i) := by
    unfold superVariablePtr
    rw [ho]
    cases hr : o.root <;> simp [Obj.super, hr]
  rw [this, shared_eq w hw _ so g1]
  obtain ⟨b, bo, e, _⟩ := base_exists w hw _ (o.super i) so g1 rfl
  have e2 : so.super (o.super i) = o.super i := by rw [Obj.super, g2]; rfl
  rw [e2, e]
  exact ⟨⟨b, o.super i⟩, rfl, rfl, e⟩

theorem kept_of_base {w : World V} (hw : WF w) {i b : Nat} (hb : base w i = some b) (j : Nat) (hj : base w j = some b) :
    ∃ p, (basePrimitivePtr w i).map (fun p => (⟨p.owner, j⟩ : Ptr)) = some p ∧ p.target = j ∧ Kept w p := by
  obtain ⟨o, bo, h1, h2, h3, h4, h5⟩ := base_obj w hw i b hb
  have : basePrimitivePtr w i = (base w (bo.super b)).map fun r => ⟨r, b⟩ := by
    unfold basePrimitivePtr
    rw [hb]
    exact shared_eq w hw b bo h2
  rw [this]
  cases hr : bo.root with
  | none =>
    rw [Obj.super, hr]
    refine ⟨⟨b, j⟩, ?_, rfl, ⟨b, bo, hj, h2, .inl rfl⟩⟩
    rw [Option.getD_none, base_zero w b bo h2 h3]; rfl
  | some s =>
    obtain ⟨so, g1, g2, g3, _⟩ := (hw.at_ b bo h2).sub s hr
    rw [Obj.super, hr]
    refine ⟨⟨s, j⟩, ?_, rfl, ⟨b, bo, hj, h2, .inr hr⟩⟩
    rw [Option.getD_some, base_zero w s so g1 (by omega)]; rfl

theorem base_ptr (w : World V) (hw : WF w) (i b : Nat) (hb : base w i = some b) : ∃ p, basePrimitivePtr w i = some p ∧ base w p.target = base w i ∧ Kept w p := by
  obtain ⟨o, bo, h1, h2, h3, _⟩ := base_obj w hw i b hb
  obtain ⟨p, e1, e2, e3⟩ := kept_of_base hw hb b (base_zero w b bo h2 h3)
  cases hq : basePrimitivePtr w i with
  | none => rw [hq] at e1; cases e1
  | some q =>
    rw [hq] at e1
    have : q.target = b := by
      unfold basePrimitivePtr at hq
      rw [hb] at hq
      change sharedFromThis w b = some q at hq
      rw [shared_eq w hw b bo h2] at hq
      obtain ⟨r, _, rfl⟩ := Option.map_eq_some_iff.1 hq
      rfl
    have hp : p = q := by
      cases e1
      cases q
      cases this
      rfl
    subst hp
    refine ⟨p, rfl, ?_, e3⟩
    rw [this, hb]
    exact base_zero w b bo h2 h3

theorem prim_ptr (w : World V) (hw : WF w) (n i : Nat) (o : Obj) (ho : w.objs[i]? = some o) (hn : n + 1 ≤ o.order) :
    ∃ p, primitivePtr w i n = some p ∧ base w p.target = base w i ∧ Kept w p := by
  induction n generalizing i o with
  | zero =>
    have hoi := hw.at_ i o ho
    cases hp : o.prim with
    | none => have := hoi.prim0 hp; omega
    | some q =>
      obtain ⟨p, h1, h2, h3⟩ := hoi.prim1 q hp
      change w.objs[q]? = some p at h1
      have hbq := base_succ w hw i q o ho hp
      obtain ⟨b, bo, g1, g2, g3, _⟩ := base_exists w hw _ i o ho rfl
      rw [primitivePtr, ho]
      simp only [hp]
      split
      · obtain ⟨r, e1, e2, e3⟩ := kept_of_base hw g1 q (hbq ▸ g1)
        exact ⟨r, e1, by rw [e2, hbq], e3⟩
      · have h0 : p.order = 0 := by omega
        obtain ⟨r, e1, e2, e3⟩ := base_ptr w hw q q (base_zero w q p h1 h0)
        rw [basePrimitivePtr, base_zero w q p h1 h0] at e1
        exact ⟨r, e1, by rw [e2, hbq], e3⟩
  | succ n ih =>
    have hoi := hw.at_ i o ho
    cases hp : o.prim with
    | none => have := hoi.prim0 hp; omega
    | some q =>
      obtain ⟨p, h1, h2, h3⟩ := hoi.prim1 q hp
      change w.objs[q]? = some p at h1
      obtain ⟨r, e1, e2, e3⟩ := ih q p h1 (by omega)
      refine ⟨r, ?_, by rw [e2, base_succ w hw i q o ho hp], e3⟩
      rw [primitivePtr, ho]
      simp only [hp]
      exact e1

/-! ## Invariants -/

theorem Kept.ext {w w' : World V} (he : WExt w w') {p : Ptr} (h : Kept w p) : Kept w' p := by
  obtain ⟨b, bo, h1, h2, h3⟩ := h
  obtain ⟨bo', e1, _, _, _, _, _, _, _, e8, _⟩ := he b bo h2
  exact ⟨b, bo', base_ext w w' he _ _ h1, e1, by rw [e8]; exact h3⟩

theorem Owned.ext {w w' : World V} (he : WExt w w') {p : Ptr} (h : Owned w p) : Owned w' p := base_ext w w' he _ _ h

/-- Same variables being subvariables -/
theorem isSub_base {w : World V} (hw : WF w) {i j b : Nat} (hi : base w i = some b) (hj : base w j = some b) : IsSub w i ↔ IsSub w j := by
  obtain ⟨o, bo, h1, h2, _, h4, _⟩ := base_obj w hw i b hi
  obtain ⟨o', bo', g1, g2, _, g4, _⟩ := base_obj w hw j b hj
  rw [h2] at g2; cases g2
  constructor
  · rintro ⟨x, e1, e2⟩
    rw [h1] at e1; cases e1
    exact ⟨o', g1, fun e => e2 (h4.2 (g4.1 e))⟩
  · rintro ⟨x, e1, e2⟩
    rw [g1] at e1; cases e1
    exact ⟨o, h1, fun e => e2 (g4.2 (h4.1 e))⟩

/-- Effect of a call that is not undefined -/
theorem run_spec (z : V) (S : State V) (hw : WF S.w) (hk : ∀ p ∈ S.ptrs, Kept S.w p) (op : Op) :
    (S.run z op = .ub ∧ ∃ k p, through op = some k ∧ S.ptrs[k]? = some p ∧ S.alive p.target = false) ∨
    (S.run z op = .throw S) ∨
    ∃ S', S.run z op = .ok S' () ∧ WF S'.w ∧ WExt S.w S'.w ∧
      ∀ p ∈ S'.ptrs, p ∈ S.ptrs ∨ Owned S'.w p ∨
        (Kept S'.w p ∧ ((∃ k q, op = .basePrimitive k ∧ S.ptrs[k]? = some q ∧ base S.w p.target = base S.w q.target) ∨
          ∃ k n q, op = .primitive k n ∧ S.ptrs[k]? = some q ∧ base S.w p.target = base S.w q.target) ∧ S'.w = S.w) ∨
        (∃ q ∈ S.ptrs, q.owner = p.owner ∧ base S'.w p.target = base S'.w q.target) := by
  have obj : ∀ p ∈ S.ptrs, ∃ o, S.w.objs[p.target]? = some o := by
    intro p hp
    obtain ⟨b, bo, h1, _⟩ := hk p hp
    obtain ⟨o, _, h, _⟩ := base_obj _ hw _ _ h1
    exact ⟨o, h⟩
  have thr : ∀ (k : Nat) (f : Ptr → Outcome (State V) Unit) (P : Prop), (∀ p, S.ptrs[k]? = some p → p ∈ S.ptrs → S.through k f = f p → P) →
      (S.through k f = .ub → (∃ p, S.ptrs[k]? = some p ∧ S.alive p.target = false) → P) → (S.through k f = .ok S () → P) → P := by
    intro k f P h1 h2 h3
    cases hp : S.ptrs[k]? with
    | none => exact h3 (by simp [State.through, hp])
    | some p =>
      cases ha : S.alive p.target with
      | true => exact h1 p hp (List.mem_of_getElem? hp) (by simp [State.through, hp, ha])
      | false => exact h2 (by simp [State.through, hp, ha]) ⟨p, hp, ha⟩
  have same : ∀ p ∈ S.ptrs, p ∈ S.ptrs ∨ Owned S.w p ∨
        (Kept S.w p ∧ ((∃ k q, op = .basePrimitive k ∧ S.ptrs[k]? = some q ∧ base S.w p.target = base S.w q.target) ∨
          ∃ k n q, op = .primitive k n ∧ S.ptrs[k]? = some q ∧ base S.w p.target = base S.w q.target) ∧ S.w = S.w) ∨
        (∃ q ∈ S.ptrs, q.owner = p.owner ∧ base S.w p.target = base S.w q.target) := fun p hp => .inl hp
  cases op with
  | create s =>
    refine .inr (.inr ⟨_, rfl, ?_⟩)
    obtain ⟨h1, h2⟩ := step_wf z _ _ hw (Step.create S.w s)
    refine ⟨h1, h2, fun p hp => ?_⟩
    simp only [List.mem_append, List.mem_singleton] at hp
    rcases hp with hp | hp
    · exact .inl hp
    · refine .inr (.inl ?_)
      subst hp
      exact base_zero _ _ ⟨s, ⟨0, 0, 0⟩, S.w.blocks, 0, s.r, 0, none, none, none⟩ (by simp [World.create]) rfl
  | dot k n =>
    refine thr k (fun p => S.dot z p (n + 1)) _ (fun p hp hm e => ?_) (fun e ⟨p, h1, h2⟩ => .inl ⟨e, k, p, rfl, h1, h2⟩) (fun e => .inr (.inr ⟨S, e, hw, Ext.refl _, same⟩))
    obtain ⟨o, ho⟩ := obj p hm
    obtain ⟨w', d, h1, h2, h3, h4, _⟩ := dot_spec z (n + 1) S.w p.target o hw ho
    refine .inr (.inr ⟨⟨w', S.ptrs ++ [⟨p.owner, d⟩]⟩, e.trans (by simp [State.dot, h1]), h2, h3, fun q hq => ?_⟩)
    simp only [List.mem_append, List.mem_singleton] at hq
    rcases hq with hq | rfl
    · exact .inl hq
    · exact .inr (.inr (.inr ⟨p, hm, rfl, base_nth w' h2 _ _ _ h4⟩))
  | subvariable k space shift =>
    refine thr k (fun p => S.subvariable z p space shift) _ (fun p hp hm e => ?_) (fun e ⟨p, h1, h2⟩ => .inl ⟨e, k, p, rfl, h1, h2⟩) (fun e => .inr (.inr ⟨S, e, hw, Ext.refl _, same⟩))
    obtain ⟨o, ho⟩ := obj p hm
    by_cases hle : (space.mul shift).le o.space = true
    · obtain ⟨w', j, q, b, ⟨h0, x, hx, hx0⟩, h1, h2, h3, _⟩ := sub_spec_full z S.w p.target o space shift hw ho hle
      refine .inr (.inr ⟨⟨w', S.ptrs ++ [⟨S.w.objs.length, j⟩]⟩, e.trans (by simp [State.subvariable, h1]), h2, h3, fun r hr => ?_⟩)
      simp only [List.mem_append, List.mem_singleton] at hr
      rcases hr with hr | rfl
      · exact .inl hr
      · refine .inr (.inl ?_)
        rw [Owned, base_nth w' h2 _ _ _ h0]
        exact base_zero w' _ x hx hx0
    · refine .inr (.inl (e.trans ?_))
      simp [State.subvariable, World.subvariable, ho, hle]
  | superVariable k =>
    refine thr k (fun p => S.push (superVariablePtr S.w p.target)) _ (fun p hp hm e => ?_) (fun e ⟨p, h1, h2⟩ => .inl ⟨e, k, p, rfl, h1, h2⟩) (fun e => .inr (.inr ⟨S, e, hw, Ext.refl _, same⟩))
    obtain ⟨o, ho⟩ := obj p hm
    obtain ⟨r, h1, h2, h3⟩ := super_ptr S.w hw _ o ho
    refine .inr (.inr ⟨⟨S.w, S.ptrs ++ [r]⟩, e.trans (by simp [State.push, h1]), hw, Ext.refl _, fun q hq => ?_⟩)
    simp only [List.mem_append, List.mem_singleton] at hq
    rcases hq with hq | rfl
    · exact .inl hq
    · exact .inr (.inl h3)
  | basePrimitive k =>
    refine thr k (fun p => S.push (basePrimitivePtr S.w p.target)) _ (fun p hp hm e => ?_) (fun e ⟨p, h1, h2⟩ => .inl ⟨e, k, p, rfl, h1, h2⟩) (fun e => .inr (.inr ⟨S, e, hw, Ext.refl _, same⟩))
    obtain ⟨b, bo, hb, _⟩ := hk p hm
    obtain ⟨r, h1, h2, h3⟩ := base_ptr S.w hw _ b hb
    refine .inr (.inr ⟨⟨S.w, S.ptrs ++ [r]⟩, e.trans (by simp [State.push, h1]), hw, Ext.refl _, fun q hq => ?_⟩)
    simp only [List.mem_append, List.mem_singleton] at hq
    rcases hq with hq | rfl
    · exact .inl hq
    · exact .inr (.inr (.inl ⟨h3, .inl ⟨k, p, rfl, hp, h2⟩, rfl⟩))
  | primitive k n =>
    refine thr k (fun p => match S.w.objs[p.target]? with
      | none => .ub
      | some o => if n + 1 ≤ o.order then S.push (primitivePtr S.w p.target n) else .throw S) _ (fun p hp hm e => ?_) (fun e ⟨p, h1, h2⟩ => .inl ⟨e, k, p, rfl, h1, h2⟩)
      (fun e => .inr (.inr ⟨S, e, hw, Ext.refl _, same⟩))
    obtain ⟨o, ho⟩ := obj p hm
    by_cases hn : n + 1 ≤ o.order
    · obtain ⟨r, h1, h2, h3⟩ := prim_ptr S.w hw n _ o ho hn
      refine .inr (.inr ⟨⟨S.w, S.ptrs ++ [r]⟩, e.trans (by simp [State.push, h1, ho, hn]), hw, Ext.refl _, fun q hq => ?_⟩)
      simp only [List.mem_append, List.mem_singleton] at hq
      rcases hq with hq | rfl
      · exact .inl hq
      · exact .inr (.inr (.inl ⟨h3, .inr ⟨k, n, p, rfl, hp, h2⟩, rfl⟩))
    · exact .inr (.inl (e.trans (by simp [ho, hn])))
  | copy k =>
    cases hp : S.ptrs[k]? with
    | none => exact .inr (.inr ⟨S, by simp [State.run, hp], hw, Ext.refl _, same⟩)
    | some p =>
      refine .inr (.inr ⟨⟨S.w, S.ptrs ++ [p]⟩, by simp [State.run, hp], hw, Ext.refl _, fun q hq => ?_⟩)
      simp only [List.mem_append, List.mem_singleton] at hq
      rcases hq with hq | rfl
      · exact .inl hq
      · exact .inl (List.mem_of_getElem? hp)
  | drop k => exact .inr (.inr ⟨⟨S.w, S.ptrs.eraseIdx k⟩, rfl, hw, Ext.refl _, fun q hq => .inl (List.mem_of_mem_eraseIdx hq)⟩)

/-- What holds in all the states -/
theorem trace_inv (z : V) (A : State V → Op → Prop) (S : State V) (h : Trace z A S) : WF S.w ∧ ∀ p ∈ S.ptrs, Kept S.w p := by
  induction h with
  | nil => exact ⟨wf_empty z, fun p hp => by cases hp⟩
  | throw S S' op h _ hr ih =>
    rcases run_spec z S ih.1 ih.2 op with ⟨e, _⟩ | e | ⟨S'', e, _⟩
    · rw [hr] at e; cases e
    · rw [hr] at e; cases e; exact ih
    · rw [hr] at e; cases e
  | ok S S' op h _ hr ih =>
    rcases run_spec z S ih.1 ih.2 op with ⟨e, _⟩ | e | ⟨S'', e, h1, h2, h3⟩
    · rw [hr] at e; cases e
    · rw [hr] at e; cases e
    · rw [hr] at e; cases e
      refine ⟨h1, fun p hp => ?_⟩
      rcases h3 p hp with e | e | ⟨e, _⟩ | ⟨q, q1, q2, q3⟩
      · exact (ih.2 p e).ext h2
      · exact e.kept h1
      · exact e
      · obtain ⟨b, bo, k1, k2, k3⟩ := (ih.2 q q1).ext h2
        exact ⟨b, bo, q3.trans k1, k2, by rw [← q2]; exact k3⟩

/-- What holds when the program does not ask for the primitives of subvariables -/
theorem trace_owned (z : V) (S : State V) (h : Trace z NoPrimitiveOfSub S) : ∀ p ∈ S.ptrs, Owned S.w p := by
  induction h with
  | nil => intro p hp; cases hp
  | throw S S' op h _ hr ih =>
    have hi := trace_inv z _ S h
    rcases run_spec z S hi.1 hi.2 op with ⟨e, _⟩ | e | ⟨S'', e, _⟩
    · rw [hr] at e; cases e
    · rw [hr] at e; cases e; exact ih
    · rw [hr] at e; cases e
  | ok S S' op h ha hr ih =>
    have hi := trace_inv z _ S h
    rcases run_spec z S hi.1 hi.2 op with ⟨e, _⟩ | e | ⟨S'', e, h1, h2, h3⟩
    · rw [hr] at e; cases e
    · rw [hr] at e; cases e
    · rw [hr] at e; cases e
      intro p hp
      have low : ∀ (q : Ptr) (k : Nat), S.ptrs[k]? = some q → ¬ IsSub S.w q.target → base S.w p.target = base S.w q.target → Kept S'.w p → S'.w = S.w → Owned S'.w p := by
        intro q k hq hs hb hk hw
        rw [hw] at hk ⊢
        refine hk.owned hi.1 fun hp => hs ?_
        have ho := ih q (List.mem_of_getElem? hq)
        exact (isSub_base hi.1 (hb.trans ho) ho).1 hp
      rcases h3 p hp with e | e | ⟨e, e' | e', e''⟩ | ⟨q, q1, q2, q3⟩
      · exact (ih p e).ext h2
      · exact e
      · obtain ⟨k, q, rfl, hq, hb⟩ := e'
        exact low q k hq (ha q hq) hb e e''
      · obtain ⟨k, n, q, rfl, hq, hb⟩ := e'
        exact low q k hq (ha q hq) hb e e''
      · have := (ih q q1).ext h2
        rw [Owned] at this ⊢
        rw [q3, this, q2]

/-! ## Theorems -/

/-- **C115** In all the states, a pointer to a variable that is not a subvariable is valid; a pointer to a subvariable or to one of its derivatives is valid exactly as long as the program has a pointer with the
control block of this subvariable. -/
theorem C115_exact (z : V) (A : State V → Op → Prop) (S : State V) (h : Trace z A S) (p : Ptr) (hp : p ∈ S.ptrs) :
    S.alive p.target = true ↔ ¬ IsSub S.w p.target ∨ ∃ q ∈ S.ptrs, base S.w p.target = some q.owner := by
  obtain ⟨hw, hk⟩ := trace_inv z A S h
  obtain ⟨b, bo, h1, h2, h3⟩ := hk p hp
  obtain ⟨o, bo', g1, g2, g3, g4, g5⟩ := base_obj S.w hw _ _ h1
  rw [h2] at g2; cases g2
  simp only [State.alive, h1, List.any_eq_true]
  constructor
  · rintro ⟨q, hq, e⟩
    by_cases hs : IsSub S.w p.target
    · refine .inr ⟨q, hq, ?_⟩
      simp only [keeps, Bool.or_eq_true, decide_eq_true_eq] at e
      rcases e with e | e
      · rw [e]
      · exfalso
        cases hqo : S.w.objs[q.owner]? with
        | none => rw [hqo] at e; cases e
        | some x =>
          rw [hqo] at e
          simp only [decide_eq_true_eq] at e
          obtain ⟨so, k1, k2, _⟩ := (hw.at_ _ x hqo).sub b e
          change S.w.objs[b]? = some so at k1
          rw [h2] at k1; cases k1
          obtain ⟨o', e1, e2⟩ := hs
          rw [g1] at e1; cases e1
          exact e2 (g4.2 k2)
    · exact .inl hs
  · rintro (hs | ⟨q, hq, e⟩)
    · refine ⟨p, hp, ?_⟩
      have := (hk p hp).owned hw hs
      rw [Owned, h1] at this
      cases this
      simp [keeps]
    · cases e
      exact ⟨q, hq, by simp [keeps]⟩

/-- **C115** As long as the program does not ask for the primitives of subvariables, all its pointers are valid and no call is undefined. -/
theorem C115_valid_partial (z : V) (S : State V) (h : Trace z NoPrimitiveOfSub S) : (∀ p ∈ S.ptrs, S.alive p.target = true) ∧ ∀ op, S.run z op ≠ .ub := by
  have ha : ∀ p ∈ S.ptrs, S.alive p.target = true := fun p hp => (C115_exact z _ S h p hp).2 (.inr ⟨p, hp, trace_owned z S h p hp⟩)
  refine ⟨ha, fun op e => ?_⟩
  obtain ⟨hw, hk⟩ := trace_inv z _ S h
  rcases run_spec z S hw hk op with ⟨_, k, p, _, h1, h2⟩ | e' | ⟨S', e', _⟩
  · rw [ha p (List.mem_of_getElem? h1)] at h2; cases h2
  · rw [e] at e'; cases e'
  · rw [e] at e'; cases e'

/-- **C115** A call is undefined exactly when it goes through a pointer to a variable that was destroyed. -/
theorem C115_undefined (z : V) (A : State V → Op → Prop) (S : State V) (h : Trace z A S) (op : Op) :
    S.run z op = .ub ↔ ∃ k p, through op = some k ∧ S.ptrs[k]? = some p ∧ S.alive p.target = false := by
  obtain ⟨hw, hk⟩ := trace_inv z A S h
  constructor
  · intro e
    rcases run_spec z S hw hk op with ⟨_, h⟩ | e' | ⟨S', e', _⟩
    · exact h
    · rw [e] at e'; cases e'
    · rw [e] at e'; cases e'
  · rintro ⟨k, p, h1, h2, h3⟩
    cases op <;> simp only [through, Option.some.injEq, reduceCtorEq] at h1 <;> subst h1 <;> simp [State.run, State.through, h2, h3]

/-- **C115** The objects that a variable refers to exist as long as it does: the super variable, in the buffer of which its value is, the primitive and the derivative. -/
theorem C115_links (z : V) (A : State V → Op → Prop) (S : State V) (h : Trace z A S) (i : Nat) (o : Obj) (ho : S.w.objs[i]? = some o) (ha : S.alive i = true) :
    S.alive (o.super i) = true ∧ (∀ q, o.prim = some q → S.alive q = true) ∧ ∀ d, o.deriv = some d → S.alive d = true := by
  obtain ⟨hw, hk⟩ := trace_inv z A S h
  have eq : ∀ j, base S.w j = base S.w i → S.alive j = true := by
    intro j hj
    rw [State.alive, hj]
    exact ha
  refine ⟨?_, fun q hq => eq q (base_succ S.w hw i q o ho hq).symm, fun d hd => eq d (base_deriv S.w hw i d o ho hd)⟩
  cases hr : o.root with
  | none => simpa [Obj.super, hr] using ha
  | some s =>
    obtain ⟨b, bo, h1, h2, h3, h4, h5⟩ := base_exists S.w hw _ i o ho rfl
    obtain ⟨r, e1, e2⟩ := h5 s hr
    simp only [State.alive, h1, List.any_eq_true] at ha
    obtain ⟨p, hp, hpk⟩ := ha
    have : o.super i = s := by rw [Obj.super, hr]; rfl
    rw [this]
    simp only [State.alive, e1, List.any_eq_true]
    refine ⟨p, hp, ?_⟩
    simp only [keeps, Bool.or_eq_true, decide_eq_true_eq] at hpk ⊢
    rcases hpk with e | e
    · right
      rw [e, h2]
      simpa using e2
    · exfalso
      cases hqo : S.w.objs[p.owner]? with
      | none => rw [hqo] at e; cases e
      | some x =>
        rw [hqo] at e
        simp only [decide_eq_true_eq] at e
        obtain ⟨so, k1, k2, _⟩ := (hw.at_ _ x hqo).sub b e
        change S.w.objs[b]? = some so at k1
        rw [h2] at k1; cases k1
        rw [k2] at e2; cases e2

/-! ## The primitives of subvariables -/

/-- The state after calls that all succeed -/
def after (ops : List Op) : Option (State Int) :=
  ops.foldl (fun S op => S.bind fun S => match S.run 0 op with | .ok S' _ => some S' | _ => none) (some ⟨World.empty 0, []⟩)

theorem after_trace (ops : List Op) (S : State Int) (h : after ops = some S) : Trace 0 (fun _ _ => True) S := by
  have key : ∀ (ops : List Op) (S₀ : Option (State Int)) (S : State Int), (∀ T, S₀ = some T → Trace 0 (fun _ _ => True) T) →
      ops.foldl (fun S op => S.bind fun S => match S.run 0 op with | .ok S' _ => some S' | _ => none) S₀ = some S → Trace 0 (fun _ _ => True) S := by
    intro ops
    induction ops with
    | nil => intro S₀ S h e; exact h S e
    | cons op l ih =>
      intro S₀ S h e
      refine ih _ S ?_ e
      intro T hT
      cases hS : S₀ with
      | none => rw [hS] at hT; cases hT
      | some U =>
        rw [hS] at hT
        simp only [Option.bind_some] at hT
        cases hr : U.run 0 op with
        | ub => rw [hr] at hT; cases hT
        | throw _ => rw [hr] at hT; cases hT
        | ok U' u =>
          rw [hr] at hT; cases hT
          exact .ok U T op (h U hS) trivial hr
  exact key ops _ S (fun T e => by cases e; exact .nil) h

/-- A variable `x`, a subvariable, the base primitive of the subvariable (which is itself), the pointer to the subvariable is dropped -/
def dangling : List Op := [.create ⟨3, 3, 3⟩, .subvariable 0 ⟨2, 2, 2⟩ ⟨1, 1, 1⟩, .basePrimitive 1, .drop 1]

theorem dangling_state : ∃ S, after dangling = some S ∧ S.ptrs = [⟨0, 0⟩, ⟨0, 1⟩] ∧ S.alive 0 = true ∧ S.alive 1 = false := ⟨_, rfl, rfl, rfl, rfl⟩

/-- **C115** The pointers to variables do not always keep them alive: `basePrimitive()` of a subvariable gives a pointer with the control block of the super variable, and a call through it is undefined once the
program has no other pointer to the subvariable. The pointer to the super variable is held all along. -/
theorem C115_valid_false : ¬ ∀ (S : State Int), Trace 0 (fun _ _ => True) S → (∀ p ∈ S.ptrs, S.alive p.target = true) ∧ ∀ op, S.run 0 op ≠ .ub := by
  intro h
  obtain ⟨S, h1, h2, _, h4⟩ := dangling_state
  have := (h S (after_trace _ S h1)).1 ⟨0, 1⟩ (by rw [h2]; simp)
  rw [h4] at this; cases this

/-- The call through this pointer is undefined -/
example : ∃ S, after dangling = some S ∧ S.run 0 (.dot 1 0) = .ub := ⟨_, rfl, rfl⟩

/-- The same with the primitive of the derivative of a subvariable -/
example : ∃ S, after [.create ⟨3, 3, 3⟩, .subvariable 0 ⟨2, 2, 2⟩ ⟨1, 1, 1⟩, .dot 1 0, .primitive 2 0, .drop 1, .drop 1] = some S ∧ S.ptrs = [⟨0, 0⟩, ⟨0, 1⟩] ∧ S.alive 1 = false :=
  ⟨_, rfl, rfl, rfl⟩

/-- The derivative of a subvariable keeps the subvariable, the super variable and its derivative: the pointers to them can be dropped. Its super variable and the primitive of this one are obtained again. -/
theorem safe_trace : ∃ S, Trace 0 NoPrimitiveOfSub S ∧ S.ptrs = [⟨1, 3⟩, ⟨0, 2⟩, ⟨0, 0⟩] ∧ S.w.objs.length = 4 := by
  refine ⟨_, .ok _ _ (.primitive 1 0) (.ok _ _ (.superVariable 0) (.ok _ _ (.drop 0) (.ok _ _ (.drop 0) (.ok _ _ (.dot 1 0)
    (.ok _ _ (.subvariable 0 ⟨2, 2, 2⟩ ⟨1, 1, 1⟩) (.ok _ _ (.create ⟨3, 3, 3⟩) .nil trivial rfl) trivial rfl) trivial rfl) trivial rfl) trivial rfl) trivial rfl) ?_ rfl, rfl, rfl⟩
  rintro p hp ⟨o, h1, h2⟩
  cases hp
  cases h1
  exact h2 rfl

example : ∃ S, Trace 0 NoPrimitiveOfSub S ∧ S.ptrs = [⟨1, 3⟩, ⟨0, 2⟩, ⟨0, 0⟩] ∧ ∀ p ∈ S.ptrs, S.alive p.target = true :=
  let ⟨S, h, e, _⟩ := safe_trace
  ⟨S, h, e, (C115_valid_partial 0 S h).1⟩

end Verif.C115
