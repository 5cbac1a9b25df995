import Mathlib.Logic.Relation
import Verif.Lemmas.Variable
/-!
# C26, C27, C28: variables, subvariables, derivatives, spaces

Everything is stated on the worlds (the variables and their memory) that a program can reach by creating variables, asking
for derivatives and subvariables, and setting values.
-/
set_option autoImplicit false

namespace Verif.C26
open Verif Verif.Var
variable {V : Type}

/-! ## Specification -/

/-- One call of the API (successful calls, the others are shown not to change anything). -/
inductive Step (z : V) : World V → World V → Prop
  | create (w : World V) (s : Sizes) : Step z w (w.create z s).1
  | dot (w w' : World V) (i n d : Nat) (hi : i < w.objs.length) (h : w.dot z i n = some (w', d)) : Step z w w'
  | sub (w w' : World V) (i j : Nat) (space shift : Sizes) (hi : i < w.objs.length)
      (h : w.subvariable z i space shift = .ok w' j) : Step z w w'
  | set (w w' : World V) (i : Nat) (x : List V) (h : w.set i x = .ok w' ()) : Step z w w'
  | setSegment (w w' : World V) (i : Nat) (idx length : Int) (x : List V) (h : w.setSegment i idx length x = .ok w' ()) :
      Step z w w'
  | setAt (w w' : World V) (i : Nat) (idx : Int) (x : V) (h : w.setAt i idx x = .ok w' ()) : Step z w w'
  | setZero (w w' : World V) (i : Nat) (h : w.setZero z i = .ok w' ()) : Step z w w'

/-- A later world. -/
def Later (z : V) (w w' : World V) : Prop := Relation.ReflTransGen (Step z) w w'

/-- A world that a program can reach. -/
def Reach (z : V) (w : World V) : Prop := Later z (World.empty z) w

/-- `superVariable()` -/
def sup (w : World V) (i : Nat) : Option Nat := (w.objs[i]?).map (·.super i)

/-- Order of derivation -/
def ord (w : World V) (i : Nat) : Option Nat := (w.objs[i]?).map (·.order)

/-- `k`-th element of the value -/
def elem (w : World V) (i k : Nat) : Option V := (w.value i).bind (·[k]?)

/-- The derivative of order `n` counted from the variable, if it exists already. -/
def nthDeriv (w : World V) (i : Nat) : Nat → Option Nat
  | 0 => some i
  | n + 1 => (nthDeriv w i n).bind fun j => (w.objs[j]?).bind (·.deriv)

/-- The addresses of the elements of the value of a variable. -/
def addresses (w : World V) (i : Nat) : List (Nat × Nat) :=
  match w.objs[i]? with
  | none => []
  | some o => (List.range o.size).map fun k => (o.block, o.off + k)

/-- The part of the sizes that counts for a variable of order `n`. -/
def dim (n : Nat) (s : Sizes) : Nat := if n = 0 then s.r else s.t

/-! ## The links between objects -/

theorem _root_.Verif.Var.Sizes.le_iff (a b : Sizes) : a.le b = true ↔ a.m ≤ b.m ∧ a.r ≤ b.r ∧ a.t ≤ b.t := by
  simp [Sizes.le, and_assoc]

theorem nthDeriv_succ (w : World V) (i n : Nat) :
    nthDeriv w i (n + 1) = ((w.objs[i]?).bind (·.deriv)).bind fun d => nthDeriv w d n := by
  induction n with
  | zero =>
    cases h : (w.objs[i]?).bind (·.deriv) <;> simp [nthDeriv, h]
  | succ n ih =>
    rw [nthDeriv, ih]
    cases h : (w.objs[i]?).bind (·.deriv) <;> simp [nthDeriv]

theorem nthDeriv_mono (w w' : World V) (he : WExt w w') (i n d : Nat) (h : nthDeriv w i n = some d) :
    nthDeriv w' i n = some d := by
  induction n generalizing d with
  | zero => exact h
  | succ n ih =>
    rw [nthDeriv, Option.bind_eq_some_iff] at h ⊢
    obtain ⟨j, h1, h2⟩ := h
    refine ⟨j, ih j h1, ?_⟩
    rw [Option.bind_eq_some_iff] at h2 ⊢
    obtain ⟨o, h3, h4⟩ := h2
    obtain ⟨o', g1, _, _, _, _, _, _, _, _, g2⟩ := he j o h3
    exact ⟨o', g1, g2 d h4⟩

/-- What reaches an old object reached it before. -/
theorem nthDeriv_old (w w' : World V) (hw : WF w) (hw' : WF w') (he : WExt w w') (i n d : Nat) (q : Obj)
    (hd : w.objs[d]? = some q) (h : nthDeriv w' i n = some d) : nthDeriv w i n = some d := by
  induction n generalizing d q with
  | zero => exact h
  | succ n ih =>
    rw [nthDeriv, Option.bind_eq_some_iff] at h ⊢
    obtain ⟨j, h1, h2⟩ := h
    rw [Option.bind_eq_some_iff] at h2
    obtain ⟨o', h3, h4⟩ := h2
    obtain ⟨p', p1, _, _, _, p5, _⟩ := (hw'.at_ j o' h3).der d h4
    obtain ⟨q', q1, _, _, _, _, _, _, q8, _, _⟩ := he d q hd
    change w'.objs[d]? = some p' at p1
    change w'.objs[d]? = some q' at q1
    rw [p1] at q1; cases q1
    rw [p5] at q8
    obtain ⟨y, y1, y2, _⟩ := (hw.at_ d q hd).prim1 j q8.symm
    exact ⟨j, ih j y y1 h1, by rw [Option.bind_eq_some_iff]; exact ⟨y, y1, y2⟩⟩

/-- The derivatives keep space and shift, and their super variable is the derivative of the super variable. -/
theorem nthDeriv_obj (w : World V) (hw : WF w) (i n d : Nat) (o : Obj) (ho : w.objs[i]? = some o)
    (h : nthDeriv w i n = some d) : ∃ p, w.objs[d]? = some p ∧ p.order = o.order + n ∧ p.space = o.space ∧ p.shift = o.shift ∧
      (o.root = none → p.root = none) ∧ (∀ s, o.root = some s → p.root = nthDeriv w s n ∧ p.root ≠ none) := by
  induction n generalizing d with
  | zero =>
    cases h
    exact ⟨o, ho, rfl, rfl, rfl, id, fun s hs => ⟨hs, by rw [hs]; simp⟩⟩
  | succ n ih =>
    rw [nthDeriv, Option.bind_eq_some_iff] at h
    obtain ⟨j, h1, h2⟩ := h
    rw [Option.bind_eq_some_iff] at h2
    obtain ⟨p, h3, h4⟩ := h2
    obtain ⟨p', a1, a2, a3, a4, a5, a6⟩ := ih j h1
    rw [h3] at a1; cases a1
    obtain ⟨q, b1, b2, b3, b4, b5, b6, b7⟩ := (hw.at_ j p h3).der d h4
    refine ⟨q, b1, by omega, by rw [b3, a3], by rw [b4, a4], fun hr => b6 (a5 hr), ?_⟩
    intro s hs
    obtain ⟨c1, c2⟩ := a6 s hs
    cases hpr : p.root with
    | none => exact absurd hpr c2
    | some r =>
      rw [hpr] at c1
      obtain ⟨so, e1, _⟩ := (hw.at_ j p h3).sub r hpr
      change w.objs[r]? = some so at e1
      obtain ⟨f1, f2⟩ := b7 r so hpr e1
      rw [f2]
      refine ⟨?_, f1⟩
      rw [nthDeriv, ← c1]; simp [e1]

/-- The base primitive exists. -/
theorem base_spec (w : World V) (hw : WF w) (n i : Nat) (o : Obj) (ho : w.objs[i]? = some o) (hn : o.order = n) :
    ∃ b bo, w.basePrimitive i n = some b ∧ w.objs[b]? = some bo ∧ bo.order = 0 ∧ nthDeriv w b n = some i ∧
      (o.root = none → bo.root = none) ∧ bo.space = o.space ∧ (o.root ≠ none → bo.root ≠ none) := by
  induction n generalizing i o with
  | zero => exact ⟨i, o, rfl, ho, hn, rfl, id, rfl, id⟩
  | succ n ih =>
    have hoi := hw.at_ i o ho
    cases hp : o.prim with
    | none => have := hoi.prim0 hp; omega
    | some q =>
      obtain ⟨p, h1, h2, h3⟩ := hoi.prim1 q hp
      obtain ⟨b, bo, g1, g2, g3, g4, g5, g6, g7⟩ := ih q p h1 (by omega)
      obtain ⟨p', a1, a2, a3, a4, a5, a6, a7⟩ := (hw.at_ q p h1).der i h2
      change w.objs[i]? = some p' at a1
      rw [ho] at a1; cases a1
      refine ⟨b, bo, ?_, g2, g3, ?_, ?_, by rw [g6, a3], ?_⟩
      · simp [World.basePrimitive, ho, hp, g1]
      · rw [nthDeriv, g4]; simp only [Option.bind_some]
        change w.objs[q]? = some p at h1
        rw [h1]; exact h2
      · intro hr
        apply g5
        cases hpr : p.root with
        | none => rfl
        | some s =>
          obtain ⟨so, e1, _⟩ := (hw.at_ q p h1).sub s hpr
          obtain ⟨f1, f2⟩ := a7 s so hpr e1
          rw [hr] at f2; exact absurd f2.symm f1
      · intro hr
        apply g7
        intro hpr; exact hr (a6 hpr)

/-! ## Derivatives: exact effect -/

/-- The places of the root variable `j` that asking for `n` derivatives of `o` (at `i`) sets to zero. -/
def ZeroedRoot (w : World V) (i : Nat) (o : Obj) (n j k : Nat) : Prop :=
  InT o k ∧ ∃ m, m < n ∧ nthDeriv w i (m + 1) = none ∧ nthDeriv w (o.super i) (m + 1) = some j

theorem hit_iff (w : World V) (hw : WF w) (i j : Nat) (o : Obj) (ho : w.objs[i]? = some o) :
    Hit w o j ↔ nthDeriv w i 1 = none ∧ nthDeriv w (o.super i) 1 = some j := by
  have e1 : nthDeriv w i 1 = o.deriv := by simp [nthDeriv, ho]
  rw [e1]
  unfold Hit
  cases hr : o.root with
  | none =>
    have e2 : nthDeriv w (o.super i) 1 = o.deriv := by simp [Obj.super, hr, nthDeriv, ho]
    rw [e2]
    constructor
    · rintro ⟨_, s, so, h, _⟩; cases h
    · rintro ⟨h1, h2⟩; rw [h1] at h2; cases h2
  | some s =>
    obtain ⟨so, g1, _⟩ := (hw.at_ i o ho).sub s hr
    change w.objs[s]? = some so at g1
    have e2 : nthDeriv w (o.super i) 1 = so.deriv := by simp [Obj.super, hr, nthDeriv, g1]
    rw [e2]
    constructor
    · rintro ⟨h1, s', so', h2, h3, h4⟩
      cases h2; rw [g1] at h3; cases h3; exact ⟨h1, h4⟩
    · rintro ⟨h1, h2⟩
      exact ⟨h1, s, so, rfl, g1, h2⟩

theorem dot_spec (z : V) (n : Nat) (w : World V) (i : Nat) (o : Obj) (hw : WF w) (ho : w.objs[i]? = some o) :
    ∃ w' d, w.dot z i n = some (w', d) ∧ WF w' ∧ WExt w w' ∧ nthDeriv w' i n = some d ∧
      (∀ j q, w.objs[j]? = some q → q.root = none → ∀ k,
        (ZeroedRoot w i o n j k → w'.mem q.block k = z) ∧ (¬ ZeroedRoot w i o n j k → w'.mem q.block k = w.mem q.block k)) := by
  induction n generalizing w i o with
  | zero =>
    refine ⟨w, i, rfl, hw, Ext.refl _, rfl, ?_⟩
    intro j q _ _ k
    refine ⟨fun h => ?_, fun _ => rfl⟩
    obtain ⟨_, m, hm, _⟩ := h; omega
  | succ n ih =>
    obtain ⟨w1, d1, h1, wf1, ext1, ⟨o1, ho1, hd1⟩, hnew, hold, _, hmem⟩ := dot1_spec w z i o hw ho
    obtain ⟨p, a1, a2, a3, a4, a5, a6, a7⟩ := (wf1.at_ i o1 ho1).der d1 hd1
    change w1.objs[d1]? = some p at a1
    obtain ⟨o1', b1, b2, b3, b4, b5, b6, b7, b8, b9, b10⟩ := ext1 i o ho
    change w1.objs[i]? = some o1' at b1
    rw [ho1] at b1; cases b1
    obtain ⟨w', d, c1, c2, c3, c4, c5⟩ := ih w1 d1 p wf1 a1
    refine ⟨w', d, by simp [World.dot, h1, c1], c2, Ext.trans ext1 c3, ?_, ?_⟩
    · rw [nthDeriv_succ]
      obtain ⟨o2, e1, _, _, _, _, _, _, _, _, e10⟩ := c3 i o1 ho1
      change w'.objs[i]? = some o2 at e1
      rw [e1]; simp only [Option.bind_some, e10 d1 hd1]
      exact c4
    · intro j q hq hqr k
      obtain ⟨q1, f1, f2, f3, f4, f5, f6, f7, f8, f9, f10⟩ := ext1 j q hq
      have key := c5 j q1 f1 (by rw [f9]; exact hqr) k
      rw [f4] at key
      have hm := hmem j q hq hqr k
      have inT : InT p k ↔ InT o k := by unfold InT; rw [a4, b3, a3, b2]
      -- the chains
      have chain1 : ∀ m, nthDeriv w1 d1 (m + 1) = nthDeriv w1 i (m + 2) := by
        intro m
        rw [nthDeriv_succ w1 i (m + 1)]
        simp [ho1, hd1]
      have chain2 : ∀ m, nthDeriv w1 (p.super d1) (m + 1) = nthDeriv w1 (o.super i) (m + 2) := by
        intro m
        cases hr : o.root with
        | none =>
          have e1 : p.super d1 = d1 := by simp [Obj.super, a6 (by rw [b9]; exact hr)]
          have e2 : o.super i = i := by simp [Obj.super, hr]
          rw [e1, e2]; exact chain1 m
        | some s =>
          obtain ⟨so, g1, _⟩ := (wf1.at_ i o1 ho1).sub s (by rw [b9]; exact hr)
          change w1.objs[s]? = some so at g1
          obtain ⟨x1, x2⟩ := a7 s so (by rw [b9]; exact hr) g1
          cases hsd : so.deriv with
          | none => exact absurd hsd x1
          | some t =>
            have e1 : p.super d1 = t := by simp [Obj.super, x2, hsd]
            have e2 : o.super i = s := by simp [Obj.super, hr]
            rw [e1, e2, nthDeriv_succ w1 s (m + 1)]
            simp [g1, hsd]
      have equiv : ∀ m, (nthDeriv w1 d1 (m + 1) = none ∧ nthDeriv w1 (p.super d1) (m + 1) = some j) ↔
          (nthDeriv w i (m + 2) = none ∧ nthDeriv w (o.super i) (m + 2) = some j) := by
        intro m
        rw [chain2 m]
        have e2 : nthDeriv w1 (o.super i) (m + 2) = some j ↔ nthDeriv w (o.super i) (m + 2) = some j :=
          ⟨nthDeriv_old w w1 hw wf1 ext1 _ _ _ q hq, nthDeriv_mono w w1 ext1 _ _ _⟩
        rw [e2]
        cases hod : o.deriv with
        | some d' =>
          obtain ⟨rfl, _⟩ := hold d' hod
          rw [chain1 m]
        | none =>
          have e3 : nthDeriv w i (m + 2) = none := by rw [nthDeriv_succ]; simp [ho, hod]
          obtain ⟨p', y1, y2, _⟩ := hnew hod
          rw [a1] at y1; cases y1
          have e4 : nthDeriv w1 d1 (m + 1) = none := by rw [nthDeriv_succ]; simp [a1, y2]
          simp [e3, e4]
      have split : ZeroedRoot w i o (n + 1) j k ↔ ((Hit w o j ∧ InT o k) ∨ ZeroedRoot w1 d1 p n j k) := by
        constructor
        · rintro ⟨h1, m, h2, h3⟩
          cases m with
          | zero => exact Or.inl ⟨(hit_iff w hw i j o ho).2 h3, h1⟩
          | succ m => exact Or.inr ⟨inT.2 h1, m, by omega, (equiv m).2 h3⟩
        · rintro (⟨h1, h2⟩ | ⟨h1, m, h2, h3⟩)
          · exact ⟨h2, 0, by omega, (hit_iff w hw i j o ho).1 h1⟩
          · exact ⟨inT.1 h1, m + 1, by omega, (equiv m).1 h3⟩
      rw [split]
      by_cases hz : ZeroedRoot w1 d1 p n j k
      · exact ⟨fun _ => key.1 hz, fun h => absurd (Or.inr hz) h⟩
      · refine ⟨fun h => ?_, fun h => ?_⟩
        · rcases h with h | h
          · rw [key.2 hz]; exact hm.1 h
          · exact absurd h hz
        · rw [key.2 hz]; exact hm.2 (fun h' => h (Or.inl h'))

/-! ## Subvariables: exact effect -/

/-- The world after the creation of the subvariable object of `subvariable` (before the derivation). -/
theorem sub_spec_full (z : V) (w : World V) (i : Nat) (o : Obj) (space shift : Sizes) (hw : WF w) (ho : w.objs[i]? = some o)
    (hle : (space.mul shift).le o.space = true) :
    ∃ w' j p b, (nthDeriv w' w.objs.length o.order = some j ∧ ∃ x, w'.objs[w.objs.length]? = some x ∧ x.order = 0) ∧ w.subvariable z i space shift = .ok w' j ∧ WF w' ∧ WExt w w' ∧ w'.objs[j]? = some p ∧ p.order = o.order ∧
      p.space = space ∧ p.shift = o.shift.mul shift ∧ p.root = some (o.super i) ∧ w.objs.length ≤ j ∧
      nthDeriv w b o.order = some (o.super i) ∧
      (∀ l q, w.objs[l]? = some q → q.root = none → ∀ k,
        (((o.shift.mul shift).t ≤ k ∧ k < (o.shift.mul shift).t + space.t ∧ ∃ m, m < o.order ∧ nthDeriv w b (m + 1) = some l) →
            w'.mem q.block k = z) ∧
        (¬ ((o.shift.mul shift).t ≤ k ∧ k < (o.shift.mul shift).t + space.t ∧ ∃ m, m < o.order ∧ nthDeriv w b (m + 1) = some l) →
            w'.mem q.block k = w.mem q.block k)) := by
  have hoi := hw.at_ i o ho
  -- the super variable
  have hsup : ∃ so, w.objs[o.super i]? = some so ∧ so.root = none ∧ so.order = o.order ∧
      ((space.mul (o.shift.mul shift)).le so.space = true) := by
    cases hr : o.root with
    | none =>
      refine ⟨o, by simp [Obj.super, hr, ho], hr, rfl, ?_⟩
      have := hoi.nosub hr
      rw [this]
      rw [Sizes.le_iff] at hle ⊢
      simp only [Sizes.mul] at hle ⊢
      omega
    | some s =>
      obtain ⟨so, g1, g2, g3, g4, g5⟩ := hoi.sub s hr
      refine ⟨so, by simp [Obj.super, hr]; exact g1, g2, g3, ?_⟩
      rw [Sizes.le_iff] at hle g5 ⊢
      simp only [Sizes.mul] at hle g5 ⊢
      omega
  obtain ⟨so, s1, s2, s3, s4⟩ := hsup
  obtain ⟨b, bo, b1, b2, b3, b4, b5, b6, _⟩ := base_spec w hw so.order (o.super i) so s1 rfl
  have hlen : w.objs[w.objs.length]? = none := List.getElem?_eq_none (Nat.le_refl _)
  have hbl := lt_of_getElem? b2
  have hbn : b ≠ w.objs.length := by omega
  let sub : Obj := ⟨space, o.shift.mul shift, bo.block, (o.shift.mul shift).r, space.r, 0, none, some b, none⟩
  have wf1 : WF (World.mk (w.objs ++ [sub]) w.mem w.blocks) := by
    have key := ok_append (fun i => w.objs[i]?) w.blocks w.blocks w.objs.length sub hw hlen (Nat.le_refl _)
      ⟨rfl, rfl, (hw.at_ b bo b2).blk, by simp [sub], by
        intro s hs
        simp only [sub, Option.some.injEq] at hs
        subst hs
        exact ⟨bo, by simp [hbn, b2], b5 s2, b3, rfl, by rw [b6]; exact s4⟩, by simp [sub], by simp [sub], by simp [sub]⟩
      (by simp [sub])
    unfold WF
    have e : ∀ k, (w.objs ++ [sub])[k]? = _ := fun k => getElem?_append_one _ _ _
    simp only [e]
    exact key
  have ext1 : WExt w (World.mk (w.objs ++ [sub]) w.mem w.blocks) := ext_append w sub _ _
  have hsub : (World.mk (w.objs ++ [sub]) w.mem w.blocks).objs[w.objs.length]? = some sub := by simp
  obtain ⟨w', j, d1, d2, d3, d4, d5⟩ := dot_spec z o.order (World.mk (w.objs ++ [sub]) w.mem w.blocks) w.objs.length sub wf1 hsub
  obtain ⟨sub', e1, e2, e3, e4, e5, e6, e7, e8, e9, e10⟩ := d3 w.objs.length sub hsub
  obtain ⟨p, p1, p2, p3, p4, p5, p6⟩ := nthDeriv_obj w' d2 w.objs.length o.order j sub' e1 d4
  obtain ⟨p7, p8⟩ := p6 b (by rw [e9])
  have hroot : nthDeriv w' b o.order = some (o.super i) :=
    nthDeriv_mono _ _ d3 _ _ _ (nthDeriv_mono _ _ ext1 _ _ _ (by rw [← s3]; exact b4))
  have subnone : ∀ m, nthDeriv (World.mk (w.objs ++ [sub]) w.mem w.blocks) w.objs.length (m + 1) = none := by
    intro m; rw [nthDeriv_succ, hsub]; rfl
  refine ⟨w', j, p, b, ⟨d4, sub', e1, e7⟩, ?_, d2, Ext.trans ext1 d3, p1, ?_, by rw [p3, e2], by rw [p4, e3], by rw [p7, hroot], ?_, ?_, ?_⟩
  · simp only [World.subvariable, ho, hle, Bool.not_true, Bool.false_eq_true, if_false, s1, b1, b2, sub] at d1 ⊢
    rw [d1]
  · rw [p2, e7]; simp [sub]
  · -- the result is a new object
    by_cases hj : w.objs.length ≤ j
    · exact hj
    · exfalso
      have hj' : j < w.objs.length := by omega
      have hjo : w.objs[j]? = some w.objs[j] := List.getElem?_eq_getElem hj'
      have h0 : nthDeriv (World.mk (w.objs ++ [sub]) w.mem w.blocks) w.objs.length o.order = some j := by
        obtain ⟨q, q1, _⟩ := ext1 j _ hjo
        exact nthDeriv_old _ w' wf1 d2 d3 _ _ _ q q1 d4
      cases hoo : o.order with
      | zero => rw [hoo] at h0; simp [nthDeriv] at h0; omega
      | succ m => rw [hoo, subnone m] at h0; cases h0
  · rw [← s3]; exact b4
  · intro l q hq hqr k
    obtain ⟨q', f1, f2, f3, f4, f5, f6, f7, f8, f9, f10⟩ := ext1 l q hq
    have key := d5 l q' f1 (by rw [f9]; exact hqr) k
    rw [f4] at key
    have iff : ZeroedRoot (World.mk (w.objs ++ [sub]) w.mem w.blocks) w.objs.length sub o.order l k ↔
        ((o.shift.mul shift).t ≤ k ∧ k < (o.shift.mul shift).t + space.t ∧ ∃ m, m < o.order ∧ nthDeriv w b (m + 1) = some l) := by
      constructor
      · rintro ⟨⟨h1, h2⟩, m, h3, _, h5⟩
        exact ⟨h1, h2, m, h3, nthDeriv_old w _ hw wf1 ext1 _ _ _ q hq h5⟩
      · rintro ⟨h1, h2, m, h3, h4⟩
        exact ⟨⟨h1, h2⟩, m, h3, subnone m, nthDeriv_mono w _ ext1 _ _ _ h4⟩
    rw [iff] at key
    exact key

theorem sub_spec (z : V) (w : World V) (i : Nat) (o : Obj) (space shift : Sizes) (hw : WF w) (ho : w.objs[i]? = some o)
    (hle : (space.mul shift).le o.space = true) :
    ∃ w' j p b, w.subvariable z i space shift = .ok w' j ∧ WF w' ∧ WExt w w' ∧ w'.objs[j]? = some p ∧ p.order = o.order ∧
      p.space = space ∧ p.shift = o.shift.mul shift ∧ p.root = some (o.super i) ∧ w.objs.length ≤ j ∧
      nthDeriv w b o.order = some (o.super i) ∧
      (∀ l q, w.objs[l]? = some q → q.root = none → ∀ k,
        (((o.shift.mul shift).t ≤ k ∧ k < (o.shift.mul shift).t + space.t ∧ ∃ m, m < o.order ∧ nthDeriv w b (m + 1) = some l) →
            w'.mem q.block k = z) ∧
        (¬ ((o.shift.mul shift).t ≤ k ∧ k < (o.shift.mul shift).t + space.t ∧ ∃ m, m < o.order ∧ nthDeriv w b (m + 1) = some l) →
            w'.mem q.block k = w.mem q.block k)) := by
  obtain ⟨w', j, p, b, _, h⟩ := sub_spec_full z w i o space shift hw ho hle
  exact ⟨w', j, p, b, h⟩

/-! ## Invariant of the reachable worlds -/

theorem step_wf (z : V) (w w' : World V) (h : WF w) (hs : Step z w w') : WF w' ∧ WExt w w' := by
  cases hs with
  | @create s => exact ⟨wf_create w z s h, ext_append w _ _ _⟩
  | @dot _ i n d hi hd =>
    obtain ⟨w1, d1, h1, h2, h3, _⟩ := dot_spec z n w i w.objs[i] h (List.getElem?_eq_getElem hi)
    rw [hd] at h1; cases h1
    exact ⟨h2, h3⟩
  | @sub _ i j space shift hi hsub =>
    have ho := List.getElem?_eq_getElem hi
    by_cases hle : (space.mul shift).le (w.objs[i]).space = true
    · obtain ⟨w1, j1, p, b, h1, h2, h3, _⟩ := sub_spec z w i w.objs[i] space shift h ho hle
      rw [hsub] at h1; cases h1
      exact ⟨h2, h3⟩
    · simp [World.subvariable, ho, hle] at hsub
  | @set _ i x hset =>
    unfold World.set at hset
    cases ho : w.objs[i]? with
    | none => simp [ho] at hset
    | some o =>
      simp only [ho] at hset
      split at hset
      · cases hset; exact ⟨h, Ext.refl _⟩
      · cases hset
  | @setSegment _ i idx length x hset =>
    unfold World.setSegment at hset
    cases ho : w.objs[i]? with
    | none => simp [ho] at hset
    | some o =>
      simp only [ho] at hset
      split at hset
      · cases hset; exact ⟨h, Ext.refl _⟩
      · cases hset
  | @setAt _ i idx x hset =>
    unfold World.setAt at hset
    cases ho : w.objs[i]? with
    | none => simp [ho] at hset
    | some o =>
      simp only [ho] at hset
      split at hset
      · cases hset; exact ⟨h, Ext.refl _⟩
      · cases hset
  | @setZero _ i hset =>
    unfold World.setZero at hset
    cases ho : w.objs[i]? with
    | none => simp [ho] at hset
    | some o =>
      simp only [ho] at hset
      cases hset; exact ⟨h, Ext.refl _⟩

theorem later_wf (z : V) (w w' : World V) (h : WF w) (hs : Later z w w') : WF w' ∧ WExt w w' := by
  induction hs with
  | refl => exact ⟨h, Ext.refl _⟩
  | tail _ hst ih =>
    obtain ⟨h1, h2⟩ := step_wf z _ _ ih.1 hst
    exact ⟨h1, Ext.trans ih.2 h2⟩

theorem reach_wf (z : V) (w : World V) (h : Reach z w) : WF w := (later_wf z _ _ (wf_empty z) h).1

/-! ## Geometry -/

/-- The super variable is not a subvariable, has the same buffer and contains the variable. -/
theorem root_spec (w : World V) (hw : WF w) (i : Nat) (o : Obj) (ho : w.objs[i]? = some o) :
    ∃ so, w.objs[o.super i]? = some so ∧ so.root = none ∧ so.block = o.block ∧ so.off = 0 ∧ so.order = o.order ∧
      o.off + o.size ≤ so.size := by
  have hoi := hw.at_ i o ho
  cases hr : o.root with
  | none =>
    have hs := hoi.nosub hr
    have : o.off = 0 := by rw [hoi.off, hs]; simp [pick]
    refine ⟨o, by simp [Obj.super, hr, ho], hr, rfl, this, rfl, by omega⟩
  | some s =>
    obtain ⟨so, g1, g2, g3, g4, g5⟩ := hoi.sub s hr
    have hso := hw.at_ s so g1
    have : so.off = 0 := by rw [hso.off, hso.nosub g2]; simp [pick]
    refine ⟨so, by simp [Obj.super, hr]; exact g1, g2, g4, this, g3, ?_⟩
    rw [hoi.off, hoi.size, hso.size, g3]
    rw [Sizes.le_iff] at g5
    simp only [Sizes.mul] at g5
    unfold pick
    split <;> omega

theorem range_eq (w : World V) (hw : WF w) (i : Nat) (o : Obj) (ho : w.objs[i]? = some o) :
    w.subvariableRange i = some ((o.off : Int), (o.size : Int)) := by
  obtain ⟨so, g1, g2, g3, g4, _⟩ := root_spec w hw i o ho
  cases hr : o.root with
  | none =>
    have e : o.super i = i := by simp [Obj.super, hr]
    rw [e, ho] at g1; cases g1
    simp [World.subvariableRange, ho, hr, g4]
  | some s =>
    have e : o.super i = s := by simp [Obj.super, hr]
    rw [e] at g1
    simp [World.subvariableRange, ho, hr, g1, g4]

theorem trange_eq (w : World V) (hw : WF w) (i : Nat) (o : Obj) (ho : w.objs[i]? = some o) :
    w.tSubvariableRange i = some ((o.shift.t : Int), (o.space.t : Int)) := by
  have hoi := hw.at_ i o ho
  simp only [World.tSubvariableRange, ho, range_eq w hw i o ho, hoi.off, hoi.size, pick]
  by_cases h0 : o.order = 0
  · simp [h0]; omega
  · simp [h0]

theorem elem_eq (w : World V) (i k : Nat) (o : Obj) (ho : w.objs[i]? = some o) :
    elem w i k = if k < o.size then some (w.mem o.block (o.off + k)) else none := by
  simp only [elem, World.value, ho, Option.bind_some, List.getElem?_map]
  by_cases h : k < o.size
  · simp [h]
  · simp [h]

theorem same_block (w : World V) (hw : WF w) (i j : Nat) (o p : Obj) (ho : w.objs[i]? = some o) (hp : w.objs[j]? = some p) :
    o.block = p.block ↔ o.super i = p.super j := by
  obtain ⟨so, a1, a2, a3, _⟩ := root_spec w hw i o ho
  obtain ⟨sp, b1, b2, b3, _⟩ := root_spec w hw j p hp
  constructor
  · intro e
    exact hw.inj _ so _ sp a1 b1 a2 b2 (by rw [a3, b3, e])
  · intro e
    rw [e, b1] at a1; cases a1
    rw [← a3, b3]

theorem value_ext (w w' : World V) (i : Nat) (o : Obj) (o' : Obj) (ho : w.objs[i]? = some o) (ho' : w'.objs[i]? = some o')
    (hs : o'.size = o.size) (h : ∀ k, k < o.size → w'.mem o'.block (o'.off + k) = w.mem o.block (o.off + k)) :
    w'.value i = w.value i := by
  simp only [World.value, ho, ho', hs, Option.some.injEq]
  apply List.map_congr_left
  intro k hk
  exact h k (List.mem_range.1 hk)

/-! ## C26 -/

/-- **C26 (segments).** In every reachable world, the value of every variable is the segment of the value of its super
variable given by `subvariableRange()`; this range lies in the super variable, which is its own super variable. -/
theorem C26_segment (z : V) (w : World V) (h : Reach z w) (i : Nat) (hi : i < w.objs.length) :
    ∃ (s a n : Nat) (v : List V), sup w i = some s ∧ sup w s = some s ∧ w.subvariableRange i = some ((a : Int), (n : Int)) ∧
      w.value s = some v ∧ a + n ≤ v.length ∧ w.value i = some ((v.drop a).take n) := by
  have hw := reach_wf z w h
  have ho := List.getElem?_eq_getElem hi
  generalize w.objs[i] = o at ho
  obtain ⟨so, g1, g2, g3, g4, g5, g6⟩ := root_spec w hw i o ho
  refine ⟨o.super i, o.off, o.size, _, by simp [sup, ho], by rw [sup, g1]; simp [Obj.super, g2], range_eq w hw i o ho,
    by simp [World.value, g1]; rfl, by simpa using g6, ?_⟩
  simp only [World.value, ho, Option.some.injEq]
  apply List.ext_getElem?
  intro k
  simp only [List.getElem?_map, List.getElem?_take, List.getElem?_drop]
  by_cases hk : k < o.size
  · have : o.off + k < so.size := by omega
    simp [hk, List.getElem?_range this, g3, g4]
  · simp [hk]

/-- **C26 (creation of a subvariable).** `subvariable` throws exactly when the space and the shift do not fit in the variable,
and then nothing changes; otherwise it returns a new variable. -/
theorem C26_subvariable_returns (z : V) (w : World V) (h : Reach z w) (i : Nat) (o : Obj) (ho : w.objs[i]? = some o)
    (space shift : Sizes) :
    (space.m + shift.m ≤ o.space.m ∧ space.r + shift.r ≤ o.space.r ∧ space.t + shift.t ≤ o.space.t →
      ∃ w' j, w.subvariable z i space shift = .ok w' j ∧ Reach z w' ∧ w.objs.length ≤ j) ∧
    (¬ (space.m + shift.m ≤ o.space.m ∧ space.r + shift.r ≤ o.space.r ∧ space.t + shift.t ≤ o.space.t) →
      w.subvariable z i space shift = .throw w) := by
  have hw := reach_wf z w h
  have iff := Sizes.le_iff (space.mul shift) o.space
  simp only [Sizes.mul] at iff
  constructor
  · intro hle
    obtain ⟨w', j, p, b, h1, _, _, _, _, _, _, _, h2, _⟩ := sub_spec z w i o space shift hw ho (iff.2 hle)
    exact ⟨w', j, h1, h.tail (Step.sub w w' i j space shift (lt_of_getElem? ho) h1), h2⟩
  · intro hle
    have hle' : ¬ (space.mul shift).le o.space = true := fun e => hle (iff.1 e)
    simp [World.subvariable, ho, hle']

/-- **C26 (subvariables are views, for ever).** In every world later than the creation of the subvariable `j` of `i`, the value
of `j` is the segment of the value of `i` given by the shift and the space; both have the same super variable and order, and
the range of `j` in the super variable is that of `i` shifted. -/
theorem C26_view (z : V) (w w' w'' : World V) (h : Reach z w) (i j : Nat) (o : Obj) (ho : w.objs[i]? = some o)
    (space shift : Sizes) (hs : w.subvariable z i space shift = .ok w' j) (hl : Later z w' w'') :
    ∃ (v : List V) (a n : Int), w''.value i = some v ∧ dim o.order shift + dim o.order space ≤ v.length ∧
      w''.value j = some ((v.drop (dim o.order shift)).take (dim o.order space)) ∧
      sup w'' i = sup w i ∧ sup w'' j = sup w i ∧ ord w'' j = ord w i ∧
      w''.subvariableRange i = some (a, n) ∧ w''.subvariableRange j = some (a + (dim o.order shift : Int), (dim o.order space : Int)) := by
  have hw := reach_wf z w h
  have hle : (space.mul shift).le o.space = true := by
    by_cases hle : (space.mul shift).le o.space = true
    · exact hle
    · simp [World.subvariable, ho, hle] at hs
  obtain ⟨w1, j1, p, b, h1, wf', ext', h4, h5, h6, h7, h8, _⟩ := sub_spec z w i o space shift hw ho hle
  rw [hs] at h1; cases h1
  obtain ⟨wf'', ext''⟩ := later_wf z w' w'' wf' hl
  obtain ⟨o'', a1, a2, a3, a4, a5, a6, a7, a8, a9, _⟩ := Ext.trans ext' ext'' i o ho
  obtain ⟨p'', b1, b2, b3, b4, b5, b6, b7, b8, b9, _⟩ := ext'' j p h4
  change w''.objs[i]? = some o'' at a1
  change w''.objs[j]? = some p'' at b1
  have oi := wf''.at_ i o'' a1
  have pj := wf''.at_ j p'' b1
  have hsup : o''.super i = p''.super j := by
    simp only [Obj.super, a9, b9, h8, Option.getD_some]
  have hblk := (same_block w'' wf'' i j o'' p'' a1 b1).2 hsup
  have dimeq : dim o.order = pick o.order := rfl
  rw [Sizes.le_iff] at hle
  simp only [Sizes.mul] at hle
  have off : p''.off = o''.off + dim o.order shift := by
    rw [pj.off, oi.off, b7, h5, a7, b3, h7, a3, dimeq]
    unfold pick Sizes.mul; split <;> rfl
  have size : p''.size = dim o.order space := by rw [pj.size, b7, h5, b2, h6, dimeq]
  have fits : dim o.order shift + dim o.order space ≤ o''.size := by
    rw [oi.size, a7, a2, dimeq]
    unfold pick; split <;> omega
  refine ⟨_, (o''.off : Int), (o''.size : Int), by simp only [World.value, a1]; rfl, by simpa using fits, ?_,
    by simp [sup, a1, ho, Obj.super, a9], by simp [sup, b1, ho, Obj.super, b9, h8], by simp [ord, b1, ho, b7, h5],
    range_eq w'' wf'' i o'' a1, ?_⟩
  · simp only [World.value, b1, Option.some.injEq]
    apply List.ext_getElem?
    intro k
    simp only [List.getElem?_map, List.getElem?_take, List.getElem?_drop]
    rw [size]
    by_cases hk : k < dim o.order space
    · have : dim o.order shift + k < o''.size := by omega
      simp [hk, List.getElem?_range this, hblk, off, Nat.add_assoc]
    · simp [hk]
  · rw [range_eq w'' wf'' j p'' b1, off, size]; simp

/-- **C26 (setting a value).** `set` succeeds exactly for a vector of the size of the variable (otherwise it throws and nothing
changes). Then the variable has the given value, the variables with another super variable keep theirs, and the variables with
the same super variable get exactly the elements at the places in common. -/
theorem C26_set (z : V) (w : World V) (h : Reach z w) (i : Nat) (o : Obj) (ho : w.objs[i]? = some o) (x : List V) :
    (x.length ≠ o.size → w.set i x = .throw w) ∧
    (x.length = o.size → ∃ w', w.set i x = .ok w' () ∧ w'.objs = w.objs ∧ w'.value i = some x ∧
      ∀ j, j < w.objs.length →
        (sup w j ≠ sup w i → w'.value j = w.value j) ∧
        (sup w j = sup w i → ∀ a n b m, w.subvariableRange i = some (a, n) → w.subvariableRange j = some (b, m) →
          ∀ k : Nat, k < m → elem w' j k = if a ≤ b + k ∧ b + k < a + n then x[(b + k - a).toNat]? else elem w j k)) := by
  have hw := reach_wf z w h
  constructor
  · intro hx; simp [World.set, ho, hx]
  · intro hx
    refine ⟨⟨w.objs, write w.mem o.block o.off x, w.blocks⟩, by simp only [World.set, ho]; rw [if_pos hx], rfl, ?_, ?_⟩
    · simp only [World.value, ho, Option.some.injEq]
      apply List.ext_getElem?
      intro k
      simp only [List.getElem?_map]
      by_cases hk : k < o.size
      · have hk' : k < x.length := by omega
        simp [List.getElem?_range hk, write, List.getElem?_eq_getElem hk']
      · rw [List.getElem?_eq_none (by simp; omega), List.getElem?_eq_none (by omega)]; rfl
    · intro j hj
      have hp := List.getElem?_eq_getElem hj
      generalize w.objs[j] = p at hp
      have hsup : ∀ e, sup w e = (w.objs[e]?).map (·.super e) := fun _ => rfl
      rw [hsup, hsup, ho, hp]
      simp only [Option.map_some, ne_eq, Option.some.injEq]
      have hb := same_block w hw j i p o hp ho
      constructor
      · intro hne
        refine value_ext w _ j p p hp hp rfl ?_
        intro k hk
        simp only [write]
        have : ¬ p.block = o.block := fun e => hne (hb.1 e)
        simp [this]
      · intro he a n b m ha hbm k hk
        rw [range_eq w hw i o ho] at ha
        rw [range_eq w hw j p hp] at hbm
        cases ha; cases hbm
        have hblk := hb.2 he
        have hk' : k < p.size := by omega
        rw [elem_eq w j k p hp, elem_eq ⟨w.objs, write w.mem o.block o.off x, w.blocks⟩ j k p hp]
        simp only [hk', if_true, write, hblk, true_and]
        by_cases hc : o.off ≤ p.off + k
        · by_cases hd : p.off + k < o.off + o.size
          · have c1 : ((o.off : Int) ≤ p.off + k ∧ (p.off : Int) + k < o.off + o.size) := by omega
            have c2 : ((p.off : Int) + k - o.off).toNat = p.off + k - o.off := by omega
            have c3 : p.off + k - o.off < x.length := by omega
            rw [if_pos hc, if_pos c1, c2]
            simp [List.getElem?_eq_getElem c3]
          · have c1 : ¬ ((o.off : Int) ≤ p.off + k ∧ (p.off : Int) + k < o.off + o.size) := by omega
            have c3 : x[p.off + k - o.off]? = none := List.getElem?_eq_none (by omega)
            rw [if_pos hc, if_neg c1]
            simp [c3]
        · have c1 : ¬ ((o.off : Int) ≤ p.off + k ∧ (p.off : Int) + k < o.off + o.size) := by omega
          rw [if_neg hc, if_neg c1]

/-- **C26 (partial assignments).** Assigning a segment, an element, or zero is setting the whole value with the segment replaced;
out-of-bounds assignments throw and change nothing. -/
theorem C26_set_segment (z : V) (w : World V) (i : Nat) (v : List V) (hv : w.value i = some v) :
    (∀ (idx length : Int) (x : List V), (0 ≤ idx ∧ idx + length ≤ v.length ∧ (x.length : Int) = length →
        w.setSegment i idx length x = w.set i (v.take idx.toNat ++ x ++ v.drop (idx.toNat + x.length))) ∧
      (¬ (0 ≤ idx ∧ idx + length ≤ v.length ∧ (x.length : Int) = length) → w.setSegment i idx length x = .throw w)) ∧
    (∀ (idx : Int) (x : V), w.setAt i idx x = w.setSegment i idx 1 [x]) ∧
    w.setZero z i = w.set i (List.replicate v.length z) := by
  cases ho : w.objs[i]? with
  | none => simp [World.value, ho] at hv
  | some o =>
    simp only [World.value, ho, Option.some.injEq] at hv
    have hlen : v.length = o.size := by rw [← hv]; simp
    have hget : ∀ k, k < o.size → v[k]? = some (w.mem o.block (o.off + k)) := by
      intro k hk; rw [← hv]; simp [List.getElem?_range hk]
    refine ⟨?_, ?_, ?_⟩
    · intro idx length x
      constructor
      · rintro ⟨h1, h2, h3⟩
        have hl : (v.take idx.toNat ++ x ++ v.drop (idx.toNat + x.length)).length = o.size := by simp; omega
        simp only [World.setSegment, World.set, ho]
        rw [if_pos ⟨h1, by omega, h3⟩, if_pos hl]
        congr 2
        funext b k
        simp only [write]
        by_cases hb : b = o.block
        · subst hb
          simp only [true_and]
          by_cases hk : o.off ≤ k
          · rw [if_pos hk]
            by_cases hk2 : o.off + idx.toNat ≤ k
            · rw [if_pos hk2]
              by_cases hk3 : k < o.off + idx.toNat + x.length
              · have e1 : k - (o.off + idx.toNat) < x.length := by omega
                have e2 : (v.take idx.toNat ++ x ++ v.drop (idx.toNat + x.length))[k - o.off]? = some x[k - (o.off + idx.toNat)] := by
                  rw [List.append_assoc, List.getElem?_append_right (by simp; omega), List.getElem?_append_left (by simp; omega)]
                  rw [List.getElem?_eq_some_iff]
                  refine ⟨by simp; omega, ?_⟩
                  congr 1; simp; omega
                rw [List.getD_eq_getElem?_getD, List.getD_eq_getElem?_getD, List.getElem?_eq_getElem e1, e2]
              · have e1 : x[k - (o.off + idx.toNat)]? = none := List.getElem?_eq_none (by omega)
                by_cases hk4 : k < o.off + o.size
                · have e2 : (v.take idx.toNat ++ x ++ v.drop (idx.toNat + x.length))[k - o.off]? = some (w.mem o.block k) := by
                    rw [List.getElem?_append_right (by simp; omega), List.getElem?_drop]
                    have : idx.toNat + x.length + (k - o.off - (v.take idx.toNat ++ x).length) = k - o.off := by simp; omega
                    rw [this, hget _ (by omega)]
                    congr 2; omega
                  rw [List.getD_eq_getElem?_getD, List.getD_eq_getElem?_getD, e1, e2]; rfl
                · have e2 : (v.take idx.toNat ++ x ++ v.drop (idx.toNat + x.length))[k - o.off]? = none :=
                    List.getElem?_eq_none (by rw [hl]; omega)
                  rw [List.getD_eq_getElem?_getD, List.getD_eq_getElem?_getD, e1, e2]
            · rw [if_neg hk2]
              have e2 : (v.take idx.toNat ++ x ++ v.drop (idx.toNat + x.length))[k - o.off]? = some (w.mem o.block k) := by
                rw [List.append_assoc, List.getElem?_append_left (by simp; omega), List.getElem?_take_of_lt (by omega), hget _ (by omega)]
                congr 2; omega
              rw [List.getD_eq_getElem?_getD, e2]; rfl
          · rw [if_neg hk, if_neg (by omega)]
        · simp [hb]
      · intro hn
        simp only [World.setSegment, ho]
        rw [if_neg]
        rw [hlen] at hn
        exact hn
    · intro idx x
      simp only [World.setAt, World.setSegment, ho]
      by_cases hc : idx ≥ 0 ∧ idx < o.size
      · rw [if_pos hc, if_pos ⟨hc.1, by omega, by simp⟩]
      · rw [if_neg hc, if_neg]
        rintro ⟨a, b, _⟩; exact hc ⟨a, by omega⟩
    · simp only [World.setZero, World.set, ho]
      rw [if_pos (by simp [hlen])]
      congr 2
      funext b k
      simp only [fill, write]
      by_cases hb : b = o.block
      · subst hb
        simp only [true_and]
        by_cases hk : o.off ≤ k
        · rw [if_pos hk]
          by_cases hk2 : k < o.off + o.size
          · rw [if_pos ⟨hk, hk2⟩]
            have : k - o.off < o.size := by omega
            simp [List.getD_eq_getElem?_getD, hlen, this]
          · rw [if_neg (fun h => hk2 h.2)]
            have : ¬ k - o.off < o.size := by omega
            simp [List.getD_eq_getElem?_getD, hlen, this]
        · rw [if_neg (fun h => hk h.1), if_neg hk]
      · simp [hb]

theorem mem_addresses (w : World V) (i : Nat) (o : Obj) (ho : w.objs[i]? = some o) (a : Nat × Nat) :
    a ∈ addresses w i ↔ a.1 = o.block ∧ o.off ≤ a.2 ∧ a.2 < o.off + o.size := by
  simp only [addresses, ho, List.mem_map, List.mem_range]
  constructor
  · rintro ⟨k, hk, rfl⟩; simp; omega
  · rintro ⟨h1, h2, h3⟩
    exact ⟨a.2 - o.off, by omega, by rw [← h1]; ext <;> simp; omega⟩

/-- **C26 (`contains`).** For a non-empty `j`, `i.contains(j)` holds exactly when every element of `j` is an element of `i`. -/
theorem C26_contains (z : V) (w : World V) (h : Reach z w) (i j : Nat) (hi : i < w.objs.length) (hne : addresses w j ≠ []) :
    w.contains i j = some true ↔ ∀ a, a ∈ addresses w j → a ∈ addresses w i := by
  have hw := reach_wf z w h
  have ho := List.getElem?_eq_getElem hi
  generalize w.objs[i] = o at ho
  cases hp : w.objs[j]? with
  | none => simp [addresses, hp] at hne
  | some p =>
    have hps : p.size ≠ 0 := by
      intro e; apply hne; simp [addresses, hp, e]
    have hb := same_block w hw i j o p ho hp
    simp only [mem_addresses w i o ho, mem_addresses w j p hp]
    simp only [World.contains, ho, hp, range_eq w hw i o ho, range_eq w hw j p hp, Option.some.injEq, Bool.and_eq_true,
      decide_eq_true_eq]
    constructor
    · rintro ⟨⟨h1, h2, h3⟩, h4⟩ a ⟨h5, h6, h7⟩
      exact ⟨by rw [h5, hb.2 h1], by omega, by omega⟩
    · intro hall
      obtain ⟨a1, a2, a3⟩ := hall (p.block, p.off) (by simp; omega)
      obtain ⟨b1, b2, b3⟩ := hall (p.block, p.off + p.size - 1) (by simp; omega)
      simp only at a1 a2 a3 b2 b3
      exact ⟨⟨hb.1 a1.symm, by omega, by omega⟩, by omega⟩

/-- **C26 (`intersects`).** For non-empty variables, `i.intersects(j)` holds exactly when they have an element in common. -/
theorem C26_intersects (z : V) (w : World V) (h : Reach z w) (i j : Nat) (hei : addresses w i ≠ []) (hej : addresses w j ≠ []) :
    w.intersects i j = some true ↔ ∃ a, a ∈ addresses w i ∧ a ∈ addresses w j := by
  have hw := reach_wf z w h
  cases ho : w.objs[i]? with
  | none => simp [addresses, ho] at hei
  | some o =>
    cases hp : w.objs[j]? with
    | none => simp [addresses, hp] at hej
    | some p =>
      have hos : o.size ≠ 0 := by
        intro e; apply hei; simp [addresses, ho, e]
      have hps : p.size ≠ 0 := by
        intro e; apply hej; simp [addresses, hp, e]
      have hb := same_block w hw i j o p ho hp
      simp only [mem_addresses w i o ho, mem_addresses w j p hp]
      simp only [World.intersects, ho, hp, range_eq w hw i o ho, range_eq w hw j p hp, Option.some.injEq, Bool.and_eq_true,
        Bool.or_eq_true, decide_eq_true_eq]
      constructor
      · rintro ⟨h1, h2 | h2⟩
        · exact ⟨(p.block, p.off), ⟨(hb.2 h1).symm, by simp; omega, by simp; omega⟩, rfl, by simp, by simp; omega⟩
        · exact ⟨(o.block, o.off), ⟨rfl, by simp, by simp; omega⟩, hb.2 h1, by simp; omega, by simp; omega⟩
      · rintro ⟨a, ⟨h1, h2, h3⟩, h4, h5, h6⟩
        refine ⟨hb.1 (by rw [← h1, h4]), ?_⟩
        omega

/-- **C26 (equality).** For non-empty variables, `i == j` holds exactly when they have the same elements; and then they have the
same value in every later world. -/
theorem C26_equal (z : V) (w : World V) (h : Reach z w) (i j : Nat) (hei : addresses w i ≠ []) (hej : addresses w j ≠ []) :
    (w.eq i j = some true ↔ addresses w i = addresses w j) ∧
    (w.eq i j = some true → ∀ w', Later z w w' → w'.value i = w'.value j) := by
  have hw := reach_wf z w h
  cases ho : w.objs[i]? with
  | none => simp [addresses, ho] at hei
  | some o =>
    cases hp : w.objs[j]? with
    | none => simp [addresses, hp] at hej
    | some p =>
      have hos : o.size ≠ 0 := by
        intro e; apply hei; simp [addresses, ho, e]
      have heq : w.eq i j = some true ↔ (o.block = p.block ∧ o.off = p.off) ∧ o.size = p.size := by
        simp [World.eq, ho, hp]
      rw [heq]
      refine ⟨?_, ?_⟩
      · simp only [addresses, ho, hp]
        constructor
        · rintro ⟨⟨e1, e2⟩, e3⟩; rw [e1, e2, e3]
        · intro e
          have hl := congrArg List.length e
          simp at hl
          have h0 := congrArg (·[0]?) e
          have z1 : 0 < o.size := by omega
          have z2 : 0 < p.size := by omega
          simp [List.getElem?_range z1, List.getElem?_range z2] at h0
          exact ⟨h0, hl⟩
      · rintro ⟨⟨e1, e2⟩, e3⟩ w' hl
        obtain ⟨_, ext⟩ := later_wf z w w' hw hl
        obtain ⟨o', a1, _, _, a4, a5, a6, _⟩ := ext i o ho
        obtain ⟨p', b1, _, _, b4, b5, b6, _⟩ := ext j p hp
        change w'.objs[i]? = some o' at a1
        change w'.objs[j]? = some p' at b1
        simp only [World.value, a1, b1, a4, a5, a6, b4, b5, b6, e1, e2, e3]

/-- **C26 (derivatives).** `dot` always returns; the derivative of order `n` of `i` is always the same variable, in every later
world; its order is `n` more, its super variable is the derivative of order `n` of the super variable of `i`, and its range there
is `tSubvariableRange()` of `i`. -/
theorem C26_derivative (z : V) (w : World V) (h : Reach z w) (i n : Nat) (hi : i < w.objs.length) :
    ∃ w' d, w.dot z i (n + 1) = some (w', d) ∧ Reach z w' ∧
      ∀ w'', Later z w' w'' → nthDeriv w'' i (n + 1) = some d ∧ w''.dot z i (n + 1) = some (w'', d) ∧
        ord w'' d = (ord w i).map (· + (n + 1)) ∧ (∃ s, sup w i = some s ∧ nthDeriv w'' s (n + 1) = sup w'' d) ∧
        w''.subvariableRange d = w''.tSubvariableRange i := by
  have hw := reach_wf z w h
  have ho := List.getElem?_eq_getElem hi
  generalize w.objs[i] = o at ho
  obtain ⟨w', d, h1, h2, h3, h4, _⟩ := dot_spec z (n + 1) w i o hw ho
  refine ⟨w', d, h1, h.tail (Step.dot w w' i (n + 1) d hi h1), ?_⟩
  intro w'' hl
  obtain ⟨wf'', ext⟩ := later_wf z w' w'' h2 hl
  obtain ⟨o'', a1, a2, a3, a4, a5, a6, a7, a8, a9, _⟩ := Ext.trans h3 ext i o ho
  change w''.objs[i]? = some o'' at a1
  have hd := nthDeriv_mono w' w'' ext i (n + 1) d h4
  obtain ⟨p, b1, b2, b3, b4, b5, b6⟩ := nthDeriv_obj w'' wf'' i (n + 1) d o'' a1 hd
  refine ⟨hd, ?_, by simp [ord, b1, ho, b2, a7], ⟨o.super i, by simp [sup, ho], ?_⟩, ?_⟩
  · have gen : ∀ n j d, nthDeriv w'' j n = some d → w''.dot z j n = some (w'', d) := by
      intro n
      induction n with
      | zero => intro j d h; cases h; rfl
      | succ n ih =>
        intro j d h
        rw [nthDeriv_succ, Option.bind_eq_some_iff] at h
        obtain ⟨e, g1, g2⟩ := h
        rw [Option.bind_eq_some_iff] at g1
        obtain ⟨q, q1, q2⟩ := g1
        simp [World.dot, World.dot1, q1, q2, ih e d g2]
    exact gen _ _ _ hd
  · cases hr : o.root with
    | none =>
      have e1 := b5 (by rw [a9]; exact hr)
      simp [Obj.super, hr, sup, b1, e1, hd]
    | some s =>
      obtain ⟨e1, e2⟩ := b6 s (by rw [a9]; exact hr)
      cases hpr : p.root with
      | none => exact absurd hpr e2
      | some t =>
        rw [hpr] at e1
        simp [Obj.super, hr, sup, b1, hpr, ← e1]
  · have pd := wf''.at_ d p b1
    rw [range_eq w'' wf'' d p b1, trange_eq w'' wf'' i o'' a1, pd.off, pd.size, b2, b3, b4]
    simp [pick]

/-! ## C27 -/

theorem elem_frame (w w' : World V) (hw : WF w) (he : WExt w w') (z : V) (j k : Nat) (v : V) (hv : elem w j k = some v)
    (Z : Nat → Nat → Prop)
    (hm : ∀ l q, w.objs[l]? = some q → q.root = none → ∀ k, (Z l k → w'.mem q.block k = z) ∧
      (¬ Z l k → w'.mem q.block k = w.mem q.block k)) :
    ∃ p, w.objs[j]? = some p ∧ (Z (p.super j) (p.off + k) → elem w' j k = some z) ∧ (¬ Z (p.super j) (p.off + k) → elem w' j k = some v) := by
  cases hp : w.objs[j]? with
  | none => simp [elem, World.value, hp] at hv
  | some p =>
    refine ⟨p, rfl, ?_⟩
    obtain ⟨so, g1, g2, g3, _⟩ := root_spec w hw j p hp
    obtain ⟨p', a1, _, _, a4, a5, a6, _⟩ := he j p hp
    rw [elem_eq w j k p hp] at hv
    rw [elem_eq w' j k p' a1, a4, a5, a6]
    by_cases hk : k < p.size
    · simp only [hk, if_true, Option.some.injEq] at hv ⊢
      obtain ⟨h1, h2⟩ := hm _ so g1 g2 (p.off + k)
      rw [g3] at h1 h2
      exact ⟨h1, fun hz => by rw [h2 hz, hv]⟩
    · simp [hk] at hv

/-- **C27 (exact effect of `dot`).** Asking for the derivative of order `n` of `i` sets to zero exactly the following elements of
the existing variables and changes no other: those at a place of the tangent range of `i` in an existing derivative of order
`m+1 ≤ n` of the super variable of `i`, when `i` itself had no derivative of that order yet. -/
theorem C27_dot_exact (z : V) (w w' : World V) (h : Reach z w) (i n d s : Nat) (hs : sup w i = some s)
    (hd : w.dot z i n = some (w', d)) (j k : Nat) (v : V) (hv : elem w j k = some v) :
    ∃ a c ts tn, w.subvariableRange j = some (a, c) ∧ w.tSubvariableRange i = some (ts, tn) ∧
      ((ts ≤ a + k ∧ a + k < ts + tn ∧ ∃ m, m < n ∧ nthDeriv w i (m + 1) = none ∧ nthDeriv w s (m + 1) = sup w j) →
        elem w' j k = some z) ∧
      (¬ (ts ≤ a + k ∧ a + k < ts + tn ∧ ∃ m, m < n ∧ nthDeriv w i (m + 1) = none ∧ nthDeriv w s (m + 1) = sup w j) →
        elem w' j k = some v) := by
  have hw := reach_wf z w h
  cases ho : w.objs[i]? with
  | none => simp [sup, ho] at hs
  | some o =>
    simp only [sup, ho, Option.map_some, Option.some.injEq] at hs
    obtain ⟨w1, d1, h1, h2, h3, h4, h5⟩ := dot_spec z n w i o hw ho
    rw [hd] at h1; cases h1
    obtain ⟨p, p1, p2, p3⟩ := elem_frame w w' hw h3 z j k v hv (fun l k => ZeroedRoot w i o n l k) h5
    refine ⟨_, _, _, _, range_eq w hw j p p1, trange_eq w hw i o ho, ?_, ?_⟩
    · rintro ⟨c1, c2, m, c3, c4, c5⟩
      apply p2
      refine ⟨⟨by omega, by omega⟩, m, c3, c4, ?_⟩
      rw [hs, c5]; simp [sup, p1]
    · intro hn
      apply p3
      rintro ⟨⟨c1, c2⟩, m, c3, c4, c5⟩
      apply hn
      refine ⟨by omega, by omega, m, c3, c4, ?_⟩
      rw [← hs, c5]; simp [sup, p1]

/-- **C27 (exact effect of `subvariable`).** Creating a subvariable of a variable of order `n` sets to zero exactly the elements at
a place of the tangent range of the new subvariable in the existing derivatives of order 1 to `n` of the root variable. -/
theorem C27_subvariable_exact (z : V) (w w' : World V) (h : Reach z w) (i r s n : Nat) (space shift : Sizes)
    (hs : sup w i = some s) (hn : ord w i = some n) (hd : w.subvariable z i space shift = .ok w' r) (j k : Nat) (v : V)
    (hv : elem w j k = some v) :
    ∃ a c ts tn, w.subvariableRange j = some (a, c) ∧ w.tSubvariableRange i = some (ts, tn) ∧
      ((ts + shift.t ≤ a + k ∧ a + k < ts + shift.t + space.t ∧
          ∃ b m, m < n ∧ nthDeriv w b n = some s ∧ nthDeriv w b (m + 1) = sup w j) → elem w' j k = some z) ∧
      (¬ (ts + shift.t ≤ a + k ∧ a + k < ts + shift.t + space.t ∧
          ∃ b m, m < n ∧ nthDeriv w b n = some s ∧ nthDeriv w b (m + 1) = sup w j) → elem w' j k = some v) := by
  have hw := reach_wf z w h
  cases ho : w.objs[i]? with
  | none => simp [sup, ho] at hs
  | some o =>
    simp only [sup, ho, Option.map_some, Option.some.injEq] at hs
    simp only [ord, ho, Option.map_some, Option.some.injEq] at hn
    subst hn
    have hle : (space.mul shift).le o.space = true := by
      by_cases hle : (space.mul shift).le o.space = true
      · exact hle
      · simp [World.subvariable, ho, hle] at hd
    obtain ⟨w1, j1, q, b, h1, _, h3, _, _, _, _, _, _, hb, h5⟩ := sub_spec z w i o space shift hw ho hle
    rw [hd] at h1; cases h1
    obtain ⟨p, p1, p2, p3⟩ := elem_frame w w' hw h3 z j k v hv
      (fun l k => (o.shift.mul shift).t ≤ k ∧ k < (o.shift.mul shift).t + space.t ∧ ∃ m, m < o.order ∧ nthDeriv w b (m + 1) = some l) h5
    have hts : ((o.shift.mul shift).t : Int) = o.shift.t + shift.t := by simp [Sizes.mul]
    have uniq : ∀ n b b' s, nthDeriv w b n = some s → nthDeriv w b' n = some s → b = b' := by
      intro n
      induction n with
      | zero => intro b b' s e1 e2; cases e1; cases e2; rfl
      | succ n ih =>
        intro b b' s e1 e2
        rw [nthDeriv, Option.bind_eq_some_iff] at e1 e2
        obtain ⟨x, x1, x2⟩ := e1
        obtain ⟨y, y1, y2⟩ := e2
        rw [Option.bind_eq_some_iff] at x2 y2
        obtain ⟨ox, x3, x4⟩ := x2
        obtain ⟨oy, y3, y4⟩ := y2
        obtain ⟨px, a1, _, _, _, a5, _⟩ := (hw.at_ x ox x3).der s x4
        obtain ⟨py, b1, _, _, _, b5, _⟩ := (hw.at_ y oy y3).der s y4
        rw [a1] at b1; cases b1
        rw [a5] at b5; cases b5
        exact ih b b' x x1 y1
    refine ⟨_, _, _, _, range_eq w hw j p p1, trange_eq w hw i o ho, ?_, ?_⟩
    · rintro ⟨c1, c2, b', m, c3, c4, c5⟩
      apply p2
      have := uniq _ _ _ _ c4 (by rw [← hs]; exact hb)
      subst this
      refine ⟨by omega, by omega, m, c3, ?_⟩
      rw [c5]; simp [sup, p1]
    · intro hno
      apply p3
      rintro ⟨c1, c2, m, c3, c4⟩
      apply hno
      refine ⟨by omega, by omega, b, m, c3, by rw [← hs]; exact hb, ?_⟩
      rw [c4]; simp [sup, p1]

/-- **C27 (safe cases).** `dot` never changes the value of an existing variable when `i` is not a subvariable, or when `i` already
has the derivative, or when the super variable of `i` has no derivative; neither `dot` nor `subvariable` ever changes the value of
a variable that is not a derivative; and `subvariable` never changes anything when `i` is not a derivative. -/
theorem C27_safe (z : V) (w w' : World V) (h : Reach z w) (i : Nat) (hi : i < w.objs.length) :
    (∀ n d, w.dot z i n = some (w', d) →
      (sup w i = some i ∨ nthDeriv w i n ≠ none ∨ (∃ s, sup w i = some s ∧ nthDeriv w s 1 = none)) →
      ∀ j k v, elem w j k = some v → elem w' j k = some v) ∧
    (∀ n d, w.dot z i n = some (w', d) → ∀ j k v, ord w j = some 0 → elem w j k = some v → elem w' j k = some v) ∧
    (∀ space shift r, w.subvariable z i space shift = .ok w' r → ∀ j k v, (ord w j = some 0 ∨ ord w i = some 0) →
      elem w j k = some v → elem w' j k = some v) := by
  have hw := reach_wf z w h
  have ho := List.getElem?_eq_getElem hi
  generalize w.objs[i] = o at ho
  have hsup : sup w i = some (o.super i) := by simp [sup, ho]
  have none_mono : ∀ x a b, nthDeriv w x a = none → nthDeriv w x (a + b) = none := by
    intro x a b hx
    induction b with
    | zero => exact hx
    | succ b ih => rw [← Nat.add_assoc, nthDeriv, ih]; rfl
  -- a derivative of order m+1 is not of order 0
  have notzero : ∀ x m j, nthDeriv w x (m + 1) = sup w j → ord w j = some 0 → False := by
    intro x m j h1 h2
    cases hp : w.objs[j]? with
    | none => simp [ord, hp] at h2
    | some p =>
      simp only [ord, hp, Option.map_some, Option.some.injEq] at h2
      obtain ⟨so, g1, _, _, _, g5, _⟩ := root_spec w hw j p hp
      simp only [sup, hp, Option.map_some] at h1
      rw [nthDeriv, Option.bind_eq_some_iff] at h1
      obtain ⟨y, y1, y2⟩ := h1
      rw [Option.bind_eq_some_iff] at y2
      obtain ⟨oy, y3, y4⟩ := y2
      obtain ⟨q, q1, q2, _⟩ := (hw.at_ y oy y3).der _ y4
      change w.objs[p.super j]? = some q at q1
      rw [g1] at q1; cases q1
      omega
  refine ⟨?_, ?_, ?_⟩
  · intro n d hd hc j k v hv
    obtain ⟨a, c, ts, tn, _, _, _, h4⟩ := C27_dot_exact z w w' h i n d _ hsup hd j k v hv
    apply h4
    rintro ⟨_, _, m, m1, m2, m3⟩
    rcases hc with hc | hc | ⟨s, hs, hc⟩
    · rw [hsup, Option.some.injEq] at hc
      rw [hc, m2] at m3
      cases hp : w.objs[j]? with
      | none => simp [elem, World.value, hp] at hv
      | some p => simp [sup, hp] at m3
    · apply hc
      have := none_mono i (m + 1) (n - (m + 1)) m2
      rwa [Nat.add_sub_cancel' (by omega)] at this
    · rw [hsup] at hs; cases hs
      have := none_mono _ 1 m hc
      rw [Nat.add_comm] at this
      rw [this] at m3
      cases hp : w.objs[j]? with
      | none => simp [elem, World.value, hp] at hv
      | some p => simp [sup, hp] at m3
  · intro n d hd j k v hj hv
    obtain ⟨a, c, ts, tn, _, _, _, h4⟩ := C27_dot_exact z w w' h i n d _ hsup hd j k v hv
    apply h4
    rintro ⟨_, _, m, _, _, m3⟩
    exact notzero _ _ _ m3 hj
  · intro space shift r hr j k v hj hv
    obtain ⟨a, c, ts, tn, _, _, _, h4⟩ :=
      C27_subvariable_exact z w w' h i r _ o.order space shift hsup (by simp [ord, ho]) hr j k v hv
    apply h4
    rintro ⟨_, _, b, m, m1, _, m3⟩
    rcases hj with hj | hj
    · exact notzero _ _ _ m3 hj
    · simp [ord, ho] at hj; omega

/-! ### C27 does not hold in general -/

/-- Result of a step, with the previous world when it does not return. -/
def res {α : Type} (w : World V) : Outcome (World V) α → World V
  | .ok w' _ => w'
  | _ => w

/-- A variable `x` of size 3, its derivative set to `(1, 2, 3)`, and the subvariable of the two last elements of `x`. -/
def wx : World Int := ((World.empty 0).create 0 ⟨3, 3, 3⟩).1
/-- with its derivative -/
def wdx : World Int := (wx.newDeriv 0 0 ⟨⟨3, 3, 3⟩, ⟨0, 0, 0⟩, 0, 0, 3, 0, none, none, none⟩).1
/-- with the value of the derivative -/
def wset : World Int := res wdx (wdx.set 1 [1, 2, 3])
/-- with the subvariable -/
def wsub : World Int := res wset (wset.subvariable 0 0 ⟨2, 2, 2⟩ ⟨1, 1, 1⟩)
/-- after `dot(x.subvariable(2, 1))` -/
def wsd : World Int := ((wsub.dot 0 2 1).getD (wsub, 0)).1
/-- after `dot(x).subvariable(2, 1)` instead -/
def wds : World Int := res wset (wset.subvariable 0 1 ⟨2, 2, 2⟩ ⟨1, 1, 1⟩)

theorem reach_wset : Reach 0 wset := by
  have h0 : Reach 0 (World.empty (0 : Int)) := Relation.ReflTransGen.refl
  have h1 : Reach 0 wx := h0.tail (Step.create _ _)
  have h2 : Reach 0 wdx := h1.tail (Step.dot wx wdx 0 1 1 (by decide) rfl)
  exact h2.tail (Step.set wdx wset 1 [1, 2, 3] rfl)

theorem reach_wsub : Reach 0 wsub := reach_wset.tail (Step.sub wset wsub 0 2 ⟨2, 2, 2⟩ ⟨1, 1, 1⟩ (by decide) rfl)

/-- **C27 (false in general, by `dot`).** There are a reachable world, a variable and an existing variable whose value is changed
by asking for a derivative. -/
theorem C27_dot_false : ¬ ∀ (w w' : World Int) (i n d : Nat), Reach 0 w → i < w.objs.length → w.dot 0 i n = some (w', d) →
    ∀ j, j < w.objs.length → w'.value j = w.value j := by
  intro h
  have := h wsub wsd 2 1 3 reach_wsub (by decide) rfl 1 (by decide)
  revert this
  decide

/-- **C27 (false in general, by `subvariable`).** There are a reachable world, a variable and an existing variable whose value is
changed by asking for a subvariable. -/
theorem C27_subvariable_false : ¬ ∀ (w w' : World Int) (i j : Nat) (space shift : Sizes), Reach 0 w → i < w.objs.length →
    w.subvariable 0 i space shift = .ok w' j → ∀ l, l < w.objs.length → w'.value l = w.value l := by
  intro h
  have := h wset wds 1 3 ⟨2, 2, 2⟩ ⟨1, 1, 1⟩ reach_wset (by decide) rfl 1 (by decide)
  revert this
  decide

-- the values: the derivative of `x` was (1, 2, 3), it is (1, 0, 0) after each call
example : wset.value 1 = some [1, 2, 3] ∧ wsub.value 1 = some [1, 2, 3] ∧ wsd.value 1 = some [1, 0, 0] ∧ wds.value 1 = some [1, 0, 0] := by
  decide

-- the subvariable is the segment 1..2, with a new value seen from `x`
example : (res wsub (wsub.set 2 [7, 8])).value 0 = some [0, 7, 8] ∧ wsub.contains 0 2 = some true ∧ wsub.contains 2 0 = some false ∧
    wsub.intersects 2 0 = some true ∧ wsub.intersects 2 1 = some false ∧ wsub.subvariableRange 2 = some (1, 2) := by decide

-- hypotheses of the theorems
example : addresses wsub 2 ≠ [] ∧ addresses wsub 0 ≠ [] ∧ sup wsub 2 = some 0 ∧ ord wsub 2 = some 0 ∧ nthDeriv wsub 2 1 = none ∧
    nthDeriv wsub 0 1 = some 1 ∧ elem wsub 1 1 = some 2 := by decide
example : wsub.subvariable 0 2 ⟨2, 2, 2⟩ ⟨1, 1, 1⟩ = .throw wsub := rfl
example : wsub.setSegment 2 1 1 [5] = wsub.set 2 [0, 5] := by
  have := (C26_set_segment 0 wsub 2 [0, 0] rfl).1 1 1 [5]
  exact this.1 (by decide)

/-! ## C28 -/

/-- The spaces that can be built (with asserts on), with a non-negative size given for a Euclidean space. -/
inductive Built : Space → Prop
  | sizes (a b c : Int) (s : Space) (h : Space.ofSizes a b c = some s) : Built s
  | type (t : SType) (n : Int) (s : Space) (hn : t = .euclidean → 0 ≤ n) (h : Space.ofType t n = some s) : Built s
  | mul (a b : Space) (ha : Built a) (hb : Built b) : Built (a.mul b)

theorem built_inv (s : Space) (h : Built s) :
    0 ≤ s.m ∧ s.m ≤ s.r ∧ s.m ≤ s.t ∧ (s.type = .euclidean ↔ s.m = s.r ∧ s.m = s.t) := by
  induction h with
  | sizes a b c s h =>
    unfold Space.ofSizes at h
    split at h
    · rename_i hc
      cases h
      refine ⟨hc.1, hc.2.1, hc.2.2, ?_⟩
      simp only
      split
      · rename_i he; simp [he.1.symm, he.2.symm]
      · rename_i he; simp [he]
    · cases h
  | type t n s hn h =>
    cases t <;> simp only [Space.ofType] at h
    · cases h; simpa using hn rfl
    · split at h
      · cases h; simp
      · cases h
    · split at h
      · cases h; simp
      · cases h
    · cases h
  | mul a b _ _ iha ihb =>
    obtain ⟨a1, a2, a3, a4⟩ := iha
    obtain ⟨b1, b2, b3, b4⟩ := ihb
    refine ⟨by simp only [Space.mul]; omega, by simp only [Space.mul]; omega, by simp only [Space.mul]; omega, ?_⟩
    simp only [Space.mul]
    by_cases h : a.type = .euclidean ∧ b.type = .euclidean
    · have := a4.1 h.1
      have := b4.1 h.2
      simp [h]; omega
    · simp only [h, if_false]
      constructor
      · intro e; cases e
      · rintro ⟨e1, e2⟩
        exact absurd ⟨a4.2 (by omega), b4.2 (by omega)⟩ h

/-- Sizes of a space -/
def sizes (s : Space) : Int × Int × Int := (s.m, s.r, s.t)

/-- **C28 (products).** The product adds each size; it is commutative and associative (types included), its product with the
space of size 0 has the same sizes; spaces built by the API are Euclidean exactly when their three sizes are equal, and this is
kept by products: a product is Euclidean exactly when both factors are. -/
theorem C28_product (a b c : Space) (ha : Built a) :
    sizes (a.mul b) = (a.m + b.m, a.r + b.r, a.t + b.t) ∧ a.mul b = b.mul a ∧ (a.mul b).mul c = a.mul (b.mul c) ∧
    sizes (a.mul ⟨0, 0, 0, .euclidean⟩) = sizes a ∧
    (a.isEuclidean = true ↔ a.m = a.r ∧ a.m = a.t) ∧
    ((a.mul b).isEuclidean = true ↔ a.isEuclidean = true ∧ b.isEuclidean = true) ∧
    (0 ≤ a.m ∧ a.m ≤ a.r ∧ a.m ≤ a.t) := by
  obtain ⟨a1, a2, a3, a4⟩ := built_inv a ha
  refine ⟨rfl, ?_, ?_, ?_, ?_, ?_, a1, a2, a3⟩
  · simp only [Space.mul, Space.mk.injEq]
    refine ⟨Int.add_comm _ _, Int.add_comm _ _, Int.add_comm _ _, ?_⟩
    by_cases h : a.type = .euclidean <;> by_cases h' : b.type = .euclidean <;> simp [h, h']
  · simp only [Space.mul, Space.mk.injEq]
    refine ⟨Int.add_assoc _ _ _, Int.add_assoc _ _ _, Int.add_assoc _ _ _, ?_⟩
    by_cases h : a.type = .euclidean <;> by_cases h' : b.type = .euclidean <;> by_cases h'' : c.type = .euclidean <;> simp [h, h', h'']
  · simp [sizes, Space.mul]
  · simp only [Space.isEuclidean, decide_eq_true_eq]; exact a4
  · simp only [Space.isEuclidean, decide_eq_true_eq, Space.mul]
    by_cases h : a.type = .euclidean <;> by_cases h' : b.type = .euclidean <;> simp [h, h']

/-- **C28 (unit).** The space of size 0 is a unit for `==` exactly on the Euclidean and the unspecified spaces: `R^0 * SO3` is not
equal to `SO3` (its type is lost). -/
theorem C28_unit (a : Space) :
    a.mul ⟨0, 0, 0, .euclidean⟩ = a ↔ a.type = .euclidean ∨ a.type = .unspecified := by
  obtain ⟨m, r, t, ty⟩ := a
  cases ty <;> simp [Space.mul]

/-- **C28 (order).** `<=` is reflexive and transitive, is antisymmetric on sizes, holds between each factor and the product, and is
compatible with products; a space embeds only in spaces whose three sizes are at least as large. -/
theorem C28_order (a b c d : Space) (ha : Built a) :
    (a.le b = true ↔ a.m ≤ b.m ∧ a.r ≤ b.r ∧ a.t ≤ b.t) ∧ a.le a = true ∧
    (a.le b = true → b.le c = true → a.le c = true) ∧
    (a.le b = true → b.le a = true → sizes a = sizes b) ∧
    b.le (a.mul b) = true ∧ b.le (b.mul a) = true ∧
    (a.le b = true → c.le d = true → (a.mul c).le (b.mul d) = true) := by
  obtain ⟨a1, a2, a3, a4⟩ := built_inv a ha
  have iff : ∀ a b : Space, a.le b = true ↔ a.m ≤ b.m ∧ a.r ≤ b.r ∧ a.t ≤ b.t := by
    intro a b; simp [Space.le, and_assoc]
  refine ⟨iff a b, ?_, ?_, ?_, ?_, ?_, ?_⟩
  · rw [iff]; omega
  · rw [iff, iff, iff]; omega
  · rw [iff, iff]; simp only [sizes, Prod.mk.injEq]; omega
  · rw [iff]; simp only [Space.mul]; omega
  · rw [iff]; simp only [Space.mul]; omega
  · rw [iff, iff, iff]; simp only [Space.mul]; omega

/-- **C28 (constructors).** The constructors with sizes refuse exactly the sizes that are negative or those of a representation
or a tangent space smaller than the space; the sizes that are not given are that of the space; the space is Euclidean exactly
when its sizes are equal. -/
theorem C28_constructors (n r t : Int) :
    (Space.ofSizes n r t = none ↔ n < 0 ∨ r < n ∨ t < n) ∧
    (∀ s, Space.ofSizes n r t = some s → sizes s = (n, r, t) ∧ (s.type = .euclidean ∨ s.type = .unspecified) ∧
      (s.isEuclidean = true ↔ r = n ∧ t = n)) ∧
    (Space.ofSizes2 n r = none ↔ n < 0 ∨ r < n) ∧
    (∀ s, Space.ofSizes2 n r = some s → sizes s = (n, r, n) ∧ (s.isEuclidean = true ↔ r = n)) ∧
    (Space.ofSize n = none ↔ n < 0) ∧ ∀ s, Space.ofSize n = some s → sizes s = (n, n, n) ∧ s.isEuclidean = true := by
  have key : ∀ n r t : Int, (Space.ofSizes n r t = none ↔ n < 0 ∨ r < n ∨ t < n) ∧
      ∀ s, Space.ofSizes n r t = some s → sizes s = (n, r, t) ∧ (s.type = .euclidean ∨ s.type = .unspecified) ∧
        (s.isEuclidean = true ↔ r = n ∧ t = n) := by
    intro n r t
    unfold Space.ofSizes
    by_cases h : n ≥ 0 ∧ r ≥ n ∧ t ≥ n
    · rw [if_pos h]
      refine ⟨⟨fun e => (by cases e), fun e => by omega⟩, fun s e => ?_⟩
      cases e
      refine ⟨rfl, ?_, ?_⟩
      · by_cases e : n = r ∧ n = t
        · exact .inl (if_pos e)
        · exact .inr (if_neg e)
      · simp only [Space.isEuclidean, decide_eq_true_eq]
        by_cases e : n = r ∧ n = t
        · rw [if_pos e]; exact ⟨fun _ => ⟨e.1.symm, e.2.symm⟩, fun _ => rfl⟩
        · rw [if_neg e]; exact ⟨fun k => (by cases k), fun k => absurd ⟨k.1.symm, k.2.symm⟩ e⟩
    · rw [if_neg h]
      exact ⟨⟨fun _ => by omega, fun _ => rfl⟩, fun s e => (by cases e)⟩
  refine ⟨(key n r t).1, (key n r t).2, ?_, ?_, ?_, ?_⟩
  · refine (key n r n).1.trans ?_; omega
  · intro s e
    obtain ⟨h1, _, h3⟩ := (key n r n).2 s e
    exact ⟨h1, h3.trans (by simp)⟩
  · refine (key n n n).1.trans ?_; omega
  · intro s e
    obtain ⟨h1, _, h3⟩ := (key n n n).2 s e
    exact ⟨h1, h3.2 ⟨rfl, rfl⟩⟩

/-- **C28 (typed constructor).** The typed constructor refuses exactly the unspecified type and a size given for SO3 or SE3; the space has the
type that was asked for, 3 dimensions and a representation of 4 for SO3, 6 and 7 for SE3. -/
theorem C28_typed (t : SType) (n : Int) :
    (Space.ofType t n = none ↔ t = .unspecified ∨ (t = .so3 ∨ t = .se3) ∧ 0 ≤ n) ∧
    ∀ s, Space.ofType t n = some s → s.type = t ∧ (t = .euclidean → sizes s = (n, n, n)) ∧ (t = .so3 → sizes s = (3, 4, 3)) ∧ (t = .se3 → sizes s = (6, 7, 6)) := by
  cases t
  · refine ⟨by simp [Space.ofType], fun s e => ?_⟩
    cases e
    exact ⟨rfl, fun _ => rfl, fun h => (by cases h), fun h => (by cases h)⟩
  · refine ⟨by simp [Space.ofType], fun s e => ?_⟩
    simp only [Space.ofType] at e
    split at e
    · cases e
      exact ⟨rfl, fun h => (by cases h), fun _ => rfl, fun h => (by cases h)⟩
    · cases e
  · refine ⟨by simp [Space.ofType], fun s e => ?_⟩
    simp only [Space.ofType] at e
    split at e
    · cases e
      exact ⟨rfl, fun h => (by cases h), fun h => (by cases h), fun _ => rfl⟩
    · cases e
  · exact ⟨by simp [Space.ofType], fun s e => by cases e⟩

example : Space.ofType .se3 0 = none ∧ Space.ofType .se3 (-1) = some ⟨6, 7, 6, .se3⟩ := by decide

/-- **C28 (negative sizes).** The typed constructor accepts a Euclidean space without size, of size -1: with it, a product can be
smaller than its factors. -/
theorem C28_default_size : Space.ofType .euclidean (-1) = some ⟨-1, -1, -1, .euclidean⟩ ∧ Space.ofSize (-1) = none ∧
    ∃ a b, Space.ofType .euclidean (-1) = some a ∧ Space.ofType .so3 (-1) = some b ∧ b.le (a.mul b) = false :=
  ⟨rfl, rfl, _, _, rfl, rfl, by decide⟩

example : Built ⟨3, 4, 3, .so3⟩ ∧ Built ⟨5, 5, 5, .euclidean⟩ ∧ Built (Space.mul ⟨3, 4, 3, .so3⟩ ⟨5, 5, 5, .euclidean⟩) ∧
    Space.mul ⟨3, 4, 3, .so3⟩ ⟨5, 5, 5, .euclidean⟩ = ⟨8, 9, 8, .unspecified⟩ := by
  have h1 : Built ⟨3, 4, 3, .so3⟩ := Built.type .so3 (-1) _ (by decide) rfl
  have h2 : Built ⟨5, 5, 5, .euclidean⟩ := Built.sizes 5 5 5 _ (by decide)
  exact ⟨h1, h2, Built.mul _ _ h1 h2, by decide⟩

-- the theorems applied to the world `wsub`: `x` (0), its derivative (1) and the subvariable of `x` (2)
example := C26_segment 0 wsub reach_wsub 2 (by decide)
example : ∃ w' j, wsub.subvariable 0 2 ⟨1, 1, 1⟩ ⟨1, 1, 1⟩ = .ok w' j ∧ Reach 0 w' ∧ wsub.objs.length ≤ j :=
  (C26_subvariable_returns 0 wsub reach_wsub 2 _ rfl ⟨1, 1, 1⟩ ⟨1, 1, 1⟩).1 (by decide)
example : ∃ v : List Int, wsd.value 0 = some v ∧ wsd.value 2 = some ((v.drop 1).take 2) := by
  obtain ⟨v, _, _, h1, _, h2, _⟩ := C26_view 0 wset wsub wsd reach_wset 0 2 _ rfl ⟨2, 2, 2⟩ ⟨1, 1, 1⟩ rfl
    (.tail .refl (Step.dot wsub wsd 2 1 3 (by decide) rfl))
  exact ⟨v, h1, h2⟩
example : ∃ w', wsub.set 2 [7, 8] = .ok w' () ∧ w'.value 2 = some [7, 8] := by
  obtain ⟨w', h1, _, h2, _⟩ := (C26_set 0 wsub reach_wsub 2 _ rfl [7, 8]).2 rfl
  exact ⟨w', h1, h2⟩
example : ∀ a, a ∈ addresses wsub 2 → a ∈ addresses wsub 0 :=
  (C26_contains 0 wsub reach_wsub 0 2 (by decide) (by decide)).1 (by decide)
example : ∃ a, a ∈ addresses wsub 2 ∧ a ∈ addresses wsub 0 :=
  (C26_intersects 0 wsub reach_wsub 2 0 (by decide) (by decide)).1 (by decide)
example : addresses wsub 2 ≠ addresses wsub 0 := fun h =>
  absurd ((C26_equal 0 wsub reach_wsub 2 0 (by decide) (by decide)).1.2 h) (by decide)
example := C26_derivative 0 wsub reach_wsub 2 0 (by decide)
-- asking for the derivative of the subvariable overwrites the second element of the derivative, 2
example : elem wsd 1 1 = some 0 := by
  obtain ⟨a, c, ts, tn, h1, h2, h3, _⟩ := C27_dot_exact 0 wsub wsd reach_wsub 2 1 3 0 rfl rfl 1 1 2 rfl
  exact h3 (by
    simp only [show wsub.subvariableRange 1 = some (0, 3) by decide, Option.some.injEq, Prod.mk.injEq] at h1
    simp only [show wsub.tSubvariableRange 2 = some (1, 2) by decide, Option.some.injEq, Prod.mk.injEq] at h2
    obtain ⟨rfl, rfl⟩ := h1
    obtain ⟨rfl, rfl⟩ := h2
    exact ⟨by decide, by decide, 0, by decide, by decide, by decide⟩)
example := C27_subvariable_exact 0 wset wds reach_wset 1 3 1 1 ⟨2, 2, 2⟩ ⟨1, 1, 1⟩ rfl rfl rfl 1 0 1 rfl
example : ∀ j k v, ord wsub j = some 0 → elem wsub j k = some v → elem wsd j k = some v :=
  (C27_safe 0 wsub wsd reach_wsub 2 (by decide)).2.1 1 3 rfl
example := C28_product ⟨3, 4, 3, .so3⟩ ⟨5, 5, 5, .euclidean⟩ ⟨6, 7, 6, .se3⟩ (Built.type .so3 (-1) _ (by decide) rfl)
example := C28_order ⟨3, 4, 3, .so3⟩ ⟨5, 5, 5, .euclidean⟩ ⟨3, 4, 3, .so3⟩ ⟨6, 7, 6, .se3⟩ (Built.type .so3 (-1) _ (by decide) rfl)

end Verif.C26
