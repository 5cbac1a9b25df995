import Verif.Model.Variable
/-!
# Invariant of the variables

The property theorems are in `Verif/Properties/C26_Variable.lean`.
-/
set_option autoImplicit false

namespace Verif.Var
open Verif
variable {V : Type}

theorem getElem?_set_append {α : Type} (l : List α) (i k : Nat) (a b : α) (h : i < l.length) :
    (l.set i a ++ [b])[k]? = if k = l.length then some b else if k = i then some a else l[k]? := by
  rw [List.getElem?_append]
  simp only [List.length_set, List.getElem?_set]
  by_cases h1 : k < l.length
  · have : k ≠ l.length := by omega
    simp [h1, this]
    by_cases h2 : i = k
    · subst h2; simp [h1]
    · have : k ≠ i := fun h => h2 h.symm
      simp [h2, this]
  · by_cases h2 : k = l.length
    · subst h2; simp
    · have h3 : k ≠ i := by omega
      have h4 : k - l.length ≠ 0 := by omega
      simp only [h1, h2, h3, if_false]
      rw [List.getElem?_eq_none (by simp; omega), List.getElem?_eq_none (by omega)]

theorem getElem?_append_one {α : Type} (l : List α) (k : Nat) (b : α) :
    (l ++ [b])[k]? = if k = l.length then some b else l[k]? := by
  rw [List.getElem?_append]
  by_cases h1 : k < l.length
  · have : k ≠ l.length := by omega
    simp [h1, this]
  · by_cases h2 : k = l.length
    · subst h2; simp
    · simp only [h1, h2, if_false]
      rw [List.getElem?_eq_none (by simp; omega), List.getElem?_eq_none (by omega)]

theorem lt_of_getElem? {α : Type} {l : List α} {i : Nat} {a : α} (h : l[i]? = some a) : i < l.length :=
  (List.getElem?_eq_some_iff.1 h).1

/-- What the values of a variable have at hand, by order of derivation. -/
def pick (order : Nat) (s : Sizes) : Nat := if order = 0 then s.r else s.t

/-- Invariant on one object. -/
structure OkAt (f : Nat → Option Obj) (blocks i : Nat) (o : Obj) : Prop where
  size : o.size = pick o.order o.space
  off : o.off = pick o.order o.shift
  blk : o.block < blocks
  nosub : o.root = none → o.shift = ⟨0, 0, 0⟩
  sub : ∀ s, o.root = some s → ∃ so, f s = some so ∧ so.root = none ∧ so.order = o.order ∧ so.block = o.block ∧
    (o.space.mul o.shift).le so.space = true
  der : ∀ d, o.deriv = some d → ∃ p, f d = some p ∧ p.order = o.order + 1 ∧ p.space = o.space ∧ p.shift = o.shift ∧
    p.prim = some i ∧ (o.root = none → p.root = none) ∧
    (∀ s so, o.root = some s → f s = some so → so.deriv ≠ none ∧ p.root = so.deriv)
  prim0 : o.prim = none → o.order = 0
  prim1 : ∀ q, o.prim = some q → ∃ p, f q = some p ∧ p.deriv = some i ∧ o.order = p.order + 1

/-- Invariant on all the objects. -/
structure Ok (f : Nat → Option Obj) (blocks : Nat) : Prop where
  at_ : ∀ i o, f i = some o → OkAt f blocks i o
  inj : ∀ i o j p, f i = some o → f j = some p → o.root = none → p.root = none → o.block = p.block → i = j

/-- Invariant of the worlds. -/
def WF (w : World V) : Prop := Ok (fun i => w.objs[i]?) w.blocks

/-- Later state of the objects: they keep everything but the derivative, which can be added. -/
def Ext (f g : Nat → Option Obj) : Prop :=
  ∀ i o, f i = some o → ∃ o', g i = some o' ∧ o'.space = o.space ∧ o'.shift = o.shift ∧ o'.block = o.block ∧ o'.off = o.off ∧
    o'.size = o.size ∧ o'.order = o.order ∧ o'.prim = o.prim ∧ o'.root = o.root ∧ (∀ d, o.deriv = some d → o'.deriv = some d)

/-- `Ext` between worlds -/
def WExt (w w' : World V) : Prop := Ext (fun i => w.objs[i]?) (fun i => w'.objs[i]?)

theorem Ext.refl (f : Nat → Option Obj) : Ext f f := fun _ o h => ⟨o, h, rfl, rfl, rfl, rfl, rfl, rfl, rfl, rfl, fun _ h => h⟩

theorem Ext.trans {f g h : Nat → Option Obj} (a : Ext f g) (b : Ext g h) : Ext f h := by
  intro i o ho
  obtain ⟨o1, h1, e1, e2, e3, e4, e5, e6, e7, e8, e9⟩ := a i o ho
  obtain ⟨o2, h2, f1, f2, f3, f4, f5, f6, f7, f8, f9⟩ := b i o1 h1
  exact ⟨o2, h2, f1.trans e1, f2.trans e2, f3.trans e3, f4.trans e4, f5.trans e5, f6.trans e6, f7.trans e7, f8.trans e8,
    fun d hd => f9 d (e9 d hd)⟩

theorem wf_empty (z : V) : WF (World.empty z) := by
  constructor <;> simp [World.empty]

/-- Adding an object that is not a derivative. -/
theorem ok_append (f : Nat → Option Obj) (b b' n : Nat) (x : Obj) (h : Ok f b) (hn : f n = none) (hb : b ≤ b')
    (hx : OkAt (fun k => if k = n then some x else f k) b' n x)
    (hi : x.root = none → ∀ j p, f j = some p → p.root = none → p.block ≠ x.block) :
    Ok (fun k => if k = n then some x else f k) b' := by
  have keep : ∀ k o, f k = some o → (if k = n then some x else f k) = some o := by
    intro k o hk
    by_cases hkn : k = n
    · subst hkn; rw [hn] at hk; cases hk
    · simp [hkn, hk]
  constructor
  · intro i o hio
    by_cases hin : i = n
    · subst hin
      simp only [if_true] at hio
      cases hio; exact hx
    · simp only [hin, if_false] at hio
      have ho := h.at_ i o hio
      refine ⟨ho.size, ho.off, Nat.lt_of_lt_of_le ho.blk hb, ho.nosub, ?_, ?_, ho.prim0, ?_⟩
      · intro s hs
        obtain ⟨so, h1, h2⟩ := ho.sub s hs
        exact ⟨so, keep s so h1, h2⟩
      · intro d hd
        obtain ⟨p, h1, h2, h3, h4, h5, h6, h7⟩ := ho.der d hd
        refine ⟨p, keep d p h1, h2, h3, h4, h5, h6, ?_⟩
        intro s so hs hso
        obtain ⟨so', g1, g2⟩ := ho.sub s hs
        have := keep s so' g1
        rw [this] at hso; cases hso
        exact h7 s _ hs g1
      · intro q hq
        obtain ⟨p, h1, h2⟩ := ho.prim1 q hq
        exact ⟨p, keep q p h1, h2⟩
  · intro i o j p hi' hj' ro rp hb
    by_cases hin : i = n
    · by_cases hjn : j = n
      · rw [hin, hjn]
      · simp only [hin, if_true] at hi'
        simp only [hjn, if_false] at hj'
        cases hi'
        exact absurd hb.symm (hi ro j p hj' rp)
    · by_cases hjn : j = n
      · simp only [hjn, if_true] at hj'
        simp only [hin, if_false] at hi'
        cases hj'
        exact absurd hb (hi rp i o hi' ro)
      · simp only [hin, if_false] at hi'
        simp only [hjn, if_false] at hj'
        exact h.inj i o j p hi' hj' ro rp hb

/-- Adding a derivative `x` of the object `o` at `i`. -/
theorem ok_deriv (f : Nat → Option Obj) (b b' n i : Nat) (o x : Obj) (h : Ok f b) (hn : f n = none) (hb : b ≤ b')
    (ho : f i = some o) (hod : o.deriv = none) (hs : x.size = pick (o.order + 1) x.space)
    (hoff : x.off = pick (o.order + 1) x.shift) (hblk : x.block < b') (hord : x.order = o.order + 1) (hsp : x.space = o.space)
    (hsh : x.shift = o.shift) (hp : x.prim = some i) (hd : x.deriv = none)
    (hr0 : o.root = none → x.root = none ∧ ∀ j p, f j = some p → p.block ≠ x.block)
    (hr1 : ∀ s so, o.root = some s → f s = some so → so.deriv ≠ none ∧ x.root = so.deriv ∧
      ∀ d, so.deriv = some d → ∃ q, f d = some q ∧ q.block = x.block) :
    Ok (fun k => if k = n then some x else if k = i then some (o.withDeriv n) else f k) b' := by
  have hni : n ≠ i := by intro e; subst e; rw [hn] at ho; cases ho
  have hin : i ≠ n := fun e => hni e.symm
  -- any object persists, up to its derivative
  have keep : ∀ k p, f k = some p → ∃ p', (if k = n then some x else if k = i then some (o.withDeriv n) else f k) =
      some p' ∧ p'.space = p.space ∧ p'.shift = p.shift ∧ p'.block = p.block ∧ p'.off = p.off ∧ p'.size = p.size ∧
      p'.order = p.order ∧ p'.prim = p.prim ∧ p'.root = p.root ∧ (∀ d, p.deriv = some d → p'.deriv = some d) ∧ (k ≠ i → p' = p) := by
    intro k p hk
    by_cases h1 : k = n
    · subst h1; rw [hn] at hk; cases hk
    · by_cases h2 : k = i
      · subst h2
        rw [ho] at hk; cases hk
        refine ⟨o.withDeriv n, by simp [h1], rfl, rfl, rfl, rfl, rfl, rfl, rfl, rfl, ?_, fun h => absurd rfl h⟩
        intro d hd'; rw [hod] at hd'; cases hd'
      · exact ⟨p, by simp [h1, h2, hk], rfl, rfl, rfl, rfl, rfl, rfl, rfl, rfl, fun _ h => h, fun _ => rfl⟩
  have back : ∀ k p', k ≠ n → (if k = n then some x else if k = i then some (o.withDeriv n) else f k) = some p' →
      (k = i ∧ p' = (o.withDeriv n)) ∨ (k ≠ i ∧ f k = some p') := by
    intro k p' h1 hk
    by_cases h2 : k = i
    · subst h2; simp [h1] at hk; exact Or.inl ⟨rfl, hk.symm⟩
    · simp [h1, h2] at hk; exact Or.inr ⟨h2, hk⟩
  have hoi := h.at_ i o ho
  constructor
  · intro k p hk
    by_cases hkn : k = n
    · subst hkn
      simp only [if_true] at hk
      cases hk
      refine ⟨by rw [hord]; exact hs, by rw [hord]; exact hoff, hblk, ?_, ?_, ?_, ?_, ?_⟩
      · intro hr
        cases hro : o.root with
        | none => rw [hsh]; exact hoi.nosub hro
        | some s =>
          obtain ⟨so, g1, _⟩ := hoi.sub s hro
          obtain ⟨a1, a2, _⟩ := hr1 s so hro g1
          rw [hr] at a2; exact absurd a2.symm a1
      · intro s hxs
        cases hro : o.root with
        | none => rw [(hr0 hro).1] at hxs; cases hxs
        | some t =>
          obtain ⟨so, g1, g2, g3, g4, g5⟩ := hoi.sub t hro
          obtain ⟨a1, a2, a3⟩ := hr1 t so hro g1
          have hsd : so.deriv = some s := by rw [← a2, hxs]
          obtain ⟨q, q1, q2⟩ := a3 s hsd
          obtain ⟨q', b1, b2, b3, b4, b5, b6, b7⟩ := (h.at_ t so g1).der s hsd
          rw [q1] at b1; cases b1
          obtain ⟨q'', c1, c2, c3, c4, c5, c6, c7, c8, c9, _⟩ := keep s q q1
          refine ⟨q'', c1, by rw [c9]; exact b6 g2, by rw [c7, b2, g3, hord], by rw [c4, q2], ?_⟩
          rw [hsp, hsh, c2, b3]; exact g5
      · intro d hd'; rw [hd] at hd'; cases hd'
      · intro hpn; rw [hp] at hpn; cases hpn
      · intro q hq
        rw [hp] at hq; cases hq
        exact ⟨o.withDeriv k, by simp [hin], rfl, hord⟩
    · rcases back k p hkn hk with ⟨rfl, rfl⟩ | ⟨hki, hfk⟩
      · -- the primitive
        refine ⟨hoi.size, hoi.off, Nat.lt_of_lt_of_le hoi.blk hb, hoi.nosub, ?_, ?_, hoi.prim0, ?_⟩
        · intro s hs'
          obtain ⟨so, g1, g2, g3, g4, g5⟩ := hoi.sub s hs'
          obtain ⟨q, c1, c2, c3, c4, c5, c6, c7, c8, c9, _⟩ := keep s so g1
          exact ⟨q, c1, by rw [c9]; exact g2, by rw [c7]; exact g3, by rw [c4]; exact g4, by rw [c2]; exact g5⟩
        · intro d hd'
          simp only [Obj.withDeriv, Option.some.injEq] at hd'
          subst hd'
          refine ⟨x, by simp, hord, hsp, hsh, hp, fun hr => (hr0 hr).1, ?_⟩
          intro s so hs' hso
          obtain ⟨so', g1, g2, _⟩ := hoi.sub s hs'
          have hsn : s ≠ n := by intro e; subst e; rw [hn] at g1; cases g1
          have hsi : s ≠ k := by
            intro e; subst e
            rw [ho] at g1; cases g1
            have e : o.root = some s := hs'
            rw [g2] at e; cases e
          rcases back s so hsn hso with ⟨e, _⟩ | ⟨_, e⟩
          · exact absurd e hsi
          · obtain ⟨a1, a2, _⟩ := hr1 s so hs' e
            exact ⟨a1, a2⟩
        · intro q hq
          obtain ⟨p, h1, h2, h3⟩ := hoi.prim1 q hq
          obtain ⟨q', c1, c2, c3, c4, c5, c6, c7, c8, c9, c10, _⟩ := keep q p h1
          exact ⟨q', c1, c10 _ h2, by rw [c7]; exact h3⟩
      · have hp' := h.at_ k p hfk
        refine ⟨hp'.size, hp'.off, Nat.lt_of_lt_of_le hp'.blk hb, hp'.nosub, ?_, ?_, hp'.prim0, ?_⟩
        · intro s hs'
          obtain ⟨so, g1, g2, g3, g4, g5⟩ := hp'.sub s hs'
          obtain ⟨q, c1, c2, c3, c4, c5, c6, c7, c8, c9, _⟩ := keep s so g1
          exact ⟨q, c1, by rw [c9]; exact g2, by rw [c7]; exact g3, by rw [c4]; exact g4, by rw [c2]; exact g5⟩
        · intro d hd'
          obtain ⟨q, h1, h2, h3, h4, h5, h6, h7⟩ := hp'.der d hd'
          obtain ⟨q', c1, c2, c3, c4, c5, c6, c7, c8, c9, c10, _⟩ := keep d q h1
          refine ⟨q', c1, by rw [c7]; exact h2, by rw [c2]; exact h3, by rw [c3]; exact h4, by rw [c8]; exact h5,
            fun hr => by rw [c9]; exact h6 hr, ?_⟩
          intro s so hs' hso
          obtain ⟨so', g1, g2, _⟩ := hp'.sub s hs'
          obtain ⟨a1, a2⟩ := h7 s so' hs' g1
          obtain ⟨so'', e1, _, _, _, _, _, _, _, _, e10, _⟩ := keep s so' g1
          rw [e1] at hso; cases hso
          cases hsd : so'.deriv with
          | none => exact absurd hsd a1
          | some d' =>
            have := e10 d' hsd
            rw [this, c9, a2, hsd]; simp
        · intro q hq
          obtain ⟨p, h1, h2, h3⟩ := hp'.prim1 q hq
          obtain ⟨q', c1, c2, c3, c4, c5, c6, c7, c8, c9, c10, _⟩ := keep q p h1
          exact ⟨q', c1, c10 _ h2, by rw [c7]; exact h3⟩
  · intro k p l q hk hl rp rq hbl
    -- blocks and roots are those of the previous objects
    have old : ∀ k p, k ≠ n → (if k = n then some x else if k = i then some (o.withDeriv n) else f k) = some p →
        ∃ p', f k = some p' ∧ p'.block = p.block ∧ p'.root = p.root := by
      intro k p h1 h2
      rcases back k p h1 h2 with ⟨rfl, rfl⟩ | ⟨_, e⟩
      · exact ⟨o, ho, rfl, rfl⟩
      · exact ⟨p, e, rfl, rfl⟩
    have xnew : x.root = none → ∀ j p, f j = some p → p.block ≠ x.block := by
      intro hx
      cases hro : o.root with
      | none => exact (hr0 hro).2
      | some s =>
        obtain ⟨so, g1, _⟩ := hoi.sub s hro
        obtain ⟨a1, a2, _⟩ := hr1 s so hro g1
        rw [hx] at a2; exact absurd a2.symm a1
    by_cases hkn : k = n
    · by_cases hln : l = n
      · rw [hkn, hln]
      · obtain ⟨q', e1, e2, e3⟩ := old l q hln hl
        simp only [hkn, if_true] at hk
        cases hk
        exact absurd (by rw [e2, hbl]) (xnew rp l q' e1)
    · by_cases hln : l = n
      · obtain ⟨p', e1, e2, e3⟩ := old k p hkn hk
        simp only [hln, if_true] at hl
        cases hl
        exact absurd (by rw [e2, hbl]) (xnew rq k p' e1)
      · obtain ⟨p', e1, e2, e3⟩ := old k p hkn hk
        obtain ⟨q', e4, e5, e6⟩ := old l q hln hl
        exact h.inj k p' l q' e1 e4 (by rw [e3, rp]) (by rw [e6, rq]) (by rw [e2, e5, hbl])

/-! ## The operations -/

theorem wf_mem (w : World V) (m : Nat → Nat → V) : WF { w with mem := m } ↔ WF w := Iff.rfl

theorem wf_create (w : World V) (z : V) (s : Sizes) (h : WF w) : WF (w.create z s).1 := by
  have hn : w.objs[w.objs.length]? = none := List.getElem?_eq_none (Nat.le_refl _)
  have key := ok_append (fun i => w.objs[i]?) w.blocks (w.blocks + 1) w.objs.length
    ⟨s, ⟨0, 0, 0⟩, w.blocks, 0, s.r, 0, none, none, none⟩ h hn (by omega)
    ⟨rfl, rfl, by simp, fun _ => rfl, by simp, by simp, by simp, by simp⟩
    (by
      intro _ j p hj _ hb
      have := (h.at_ j p hj).blk
      simp at hb; omega)
  unfold WF World.create
  have : (fun i => (w.objs ++ [(⟨s, ⟨0, 0, 0⟩, w.blocks, 0, s.r, 0, none, none, none⟩ : Obj)])[i]?) =
      fun k => if k = w.objs.length then some (⟨s, ⟨0, 0, 0⟩, w.blocks, 0, s.r, 0, none, none, none⟩ : Obj) else w.objs[k]? := by
    funext k; exact getElem?_append_one _ _ _
  simp only [this]
  exact key

theorem ext_append (w : World V) (x : Obj) (m : Nat → Nat → V) (b : Nat) : WExt w ⟨w.objs ++ [x], m, b⟩ := by
  intro i o h
  refine ⟨o, ?_, rfl, rfl, rfl, rfl, rfl, rfl, rfl, rfl, fun _ h => h⟩
  show (w.objs ++ [x])[i]? = some o
  rw [List.getElem?_append_left (lt_of_getElem? h)]
  exact h

theorem ext_deriv (w : World V) (i : Nat) (o x : Obj) (m : Nat → Nat → V) (b : Nat) (ho : w.objs[i]? = some o)
    (hd : o.deriv = none) : WExt w ⟨w.objs.set i (o.withDeriv w.objs.length) ++ [x], m, b⟩ := by
  intro k p hp
  have hi := lt_of_getElem? ho
  have hk : k < w.objs.length := lt_of_getElem? hp
  show ∃ o', (w.objs.set i (o.withDeriv w.objs.length) ++ [x])[k]? = some o' ∧ _
  rw [getElem?_set_append _ _ _ _ _ hi]
  have h1 : k ≠ w.objs.length := by omega
  simp only [h1, if_false]
  by_cases hki : k = i
  · subst hki
    simp only [if_true]
    change w.objs[k]? = some p at hp
    rw [ho] at hp; cases hp
    exact ⟨_, rfl, rfl, rfl, rfl, rfl, rfl, rfl, rfl, rfl, fun d h => by rw [hd] at h; cases h⟩
  · simp only [hki, if_false]
    exact ⟨p, hp, rfl, rfl, rfl, rfl, rfl, rfl, rfl, rfl, fun _ h => h⟩

theorem wf_newDeriv (w : World V) (z : V) (i : Nat) (o : Obj) (h : WF w) (ho : w.objs[i]? = some o) (hd : o.deriv = none)
    (hr : o.root = none) : WF (w.newDeriv z i o).1 := by
  have hn : w.objs[w.objs.length]? = none := List.getElem?_eq_none (Nat.le_refl _)
  have key := ok_deriv (fun i => w.objs[i]?) w.blocks (w.blocks + 1) w.objs.length i o
    ⟨o.space, o.shift, w.blocks, 0, o.space.t, o.order + 1, some i, none, none⟩ h hn (by omega) ho hd
    (by simp [pick]) (by simp [pick, (h.at_ i o ho).nosub hr]) (by simp) rfl rfl rfl rfl rfl
    (by
      intro _
      refine ⟨rfl, ?_⟩
      intro j p hj hb
      have := (h.at_ j p hj).blk
      simp at hb; omega)
    (by intro s so hs; rw [hr] at hs; cases hs)
  unfold WF World.newDeriv
  have e : ∀ k, (w.objs.set i (o.withDeriv w.objs.length) ++
      [(⟨o.space, o.shift, w.blocks, 0, o.space.t, o.order + 1, some i, none, none⟩ : Obj)])[k]? = _ :=
    fun k => getElem?_set_append _ _ _ _ _ (lt_of_getElem? ho)
  simp only [e]
  exact key

theorem wf_newSubDeriv (w : World V) (z : V) (i s di : Nat) (o so d : Obj) (h : WF w) (ho : w.objs[i]? = some o)
    (hd : o.deriv = none) (hr : o.root = some s) (hs : w.objs[s]? = some so) (hsd : so.deriv = some di)
    (hdi : w.objs[di]? = some d) : WF (w.newSubDeriv z i o di d).1 := by
  have hn : w.objs[w.objs.length]? = none := List.getElem?_eq_none (Nat.le_refl _)
  have key := ok_deriv (fun i => w.objs[i]?) w.blocks w.blocks w.objs.length i o
    ⟨o.space, o.shift, d.block, o.shift.t, o.space.t, o.order + 1, some i, some di, none⟩ h hn (Nat.le_refl _) ho hd
    (by simp [pick]) (by simp [pick]) (h.at_ di d hdi).blk rfl rfl rfl rfl rfl
    (by intro h; rw [hr] at h; cases h)
    (by
      intro s' so' h1 h2
      rw [hr] at h1; cases h1
      change w.objs[s]? = some so' at h2
      rw [hs] at h2; cases h2
      refine ⟨by rw [hsd]; simp, hsd.symm, ?_⟩
      intro d' h3
      rw [hsd] at h3; cases h3
      exact ⟨d, hdi, rfl⟩)
  unfold WF World.newSubDeriv
  have e : ∀ k, (w.objs.set i (o.withDeriv w.objs.length) ++
      [(⟨o.space, o.shift, d.block, o.shift.t, o.space.t, o.order + 1, some i, some di, none⟩ : Obj)])[k]? = _ :=
    fun k => getElem?_set_append _ _ _ _ _ (lt_of_getElem? ho)
  simp only [e]
  exact key

/-- The objects that a new derivative of `i` zeroes: the existing derivative of its super variable. -/
def Hit (w : World V) (o : Obj) (j : Nat) : Prop :=
  o.deriv = none ∧ ∃ s so, o.root = some s ∧ w.objs[s]? = some so ∧ so.deriv = some j

/-- The place `k` is one of the tangent range of `o`. -/
def InT (o : Obj) (k : Nat) : Prop := o.shift.t ≤ k ∧ k < o.shift.t + o.space.t

theorem dot1_spec (w : World V) (z : V) (i : Nat) (o : Obj) (h : WF w) (ho : w.objs[i]? = some o) :
    ∃ w' d, w.dot1 z i = some (w', d) ∧ WF w' ∧ WExt w w' ∧
      (∃ o', w'.objs[i]? = some o' ∧ o'.deriv = some d) ∧
      (o.deriv = none → ∃ p, w'.objs[d]? = some p ∧ p.deriv = none ∧ w.objs.length ≤ d) ∧
      (∀ d', o.deriv = some d' → w' = w ∧ d = d') ∧
      (∀ (k : Nat) (q q' : Obj), w.objs[k]? = some q → w'.objs[k]? = some q' → q'.deriv ≠ q.deriv →
        ∃ e, q'.deriv = some e ∧ w.objs.length ≤ e) ∧
      (∀ j q, w.objs[j]? = some q → q.root = none → ∀ k,
        (Hit w o j ∧ InT o k → w'.mem q.block k = z) ∧ (¬ (Hit w o j ∧ InT o k) → w'.mem q.block k = w.mem q.block k)) := by
  have hi := lt_of_getElem? ho
  have hoi := h.at_ i o ho
  cases hd : o.deriv with
  | some d =>
    refine ⟨w, d, by simp [World.dot1, ho, hd], h, Ext.refl _, ⟨o, ho, hd⟩, by simp, ?_, ?_, ?_⟩
    · intro d' e; cases e; exact ⟨rfl, rfl⟩
    · intro k q q' h1 h2 h3; rw [h1] at h2; cases h2; exact absurd rfl h3
    · intro j q _ _ k
      refine ⟨fun hh => ?_, fun _ => rfl⟩
      have := hh.1.1; rw [hd] at this; cases this
  | none =>
    cases hr : o.root with
    | none =>
      refine ⟨(w.newDeriv z i o).1, w.objs.length, by simp [World.dot1, ho, hd, hr, World.newDeriv], wf_newDeriv w z i o h ho hd hr,
        ext_deriv w i o _ _ _ ho hd, ?_, ?_, by simp, ?_, ?_⟩
      · refine ⟨o.withDeriv w.objs.length, ?_, rfl⟩
        simp only [World.newDeriv, getElem?_set_append _ _ _ _ _ hi]
        have : i ≠ w.objs.length := by omega
        simp [this]
      · intro _
        refine ⟨⟨o.space, o.shift, w.blocks, 0, o.space.t, o.order + 1, some i, none, none⟩, ?_, rfl, Nat.le_refl _⟩
        simp only [World.newDeriv, getElem?_set_append _ _ _ _ _ hi]
        simp
      · intro k q q' h1 h2 h3
        have hk := lt_of_getElem? h1
        simp only [World.newDeriv, getElem?_set_append _ _ _ _ _ hi] at h2
        have hkn : k ≠ w.objs.length := by omega
        simp only [hkn, if_false] at h2
        by_cases hki : k = i
        · simp only [hki, if_true, Option.some.injEq] at h2
          exact ⟨w.objs.length, by rw [← h2]; rfl, Nat.le_refl _⟩
        · simp only [hki, if_false] at h2
          rw [h1] at h2; cases h2; exact absurd rfl h3
      · intro j q hq hqr k
        refine ⟨fun hh => ?_, fun _ => ?_⟩
        · obtain ⟨⟨_, s, so, h1, _⟩, _⟩ := hh
          rw [hr] at h1; cases h1
        · have := (h.at_ j q hq).blk
          have : q.block ≠ w.blocks := by omega
          simp [World.newDeriv, fill, this]
    | some s =>
      obtain ⟨so, hs, hsr, hso, hsb, hsle⟩ := hoi.sub s hr
      change w.objs[s]? = some so at hs
      have hsi : s ≠ i := by
        intro e; subst e; rw [ho] at hs; cases hs; rw [hr] at hsr; cases hsr
      have hsl := lt_of_getElem? hs
      cases hsd : so.deriv with
      | some di =>
        obtain ⟨d, hdi, g2, g3, g4, g5, g6, g7⟩ := (h.at_ s so hs).der di hsd
        change w.objs[di]? = some d at hdi
        refine ⟨(w.newSubDeriv z i o di d).1, w.objs.length,
          by simp [World.dot1, ho, hd, hr, World.dotRoot, hs, hsd, hdi, World.newSubDeriv],
          wf_newSubDeriv w z i s di o so d h ho hd hr hs hsd hdi, ext_deriv w i o _ _ _ ho hd, ?_, ?_, by simp, ?_, ?_⟩
        · refine ⟨o.withDeriv w.objs.length, ?_, rfl⟩
          simp only [World.newSubDeriv, getElem?_set_append _ _ _ _ _ hi]
          have : i ≠ w.objs.length := by omega
          simp [this]
        · intro _
          refine ⟨⟨o.space, o.shift, d.block, o.shift.t, o.space.t, o.order + 1, some i, some di, none⟩, ?_, rfl, Nat.le_refl _⟩
          simp only [World.newSubDeriv, getElem?_set_append _ _ _ _ _ hi]
          simp
        · intro k q q' h1 h2 h3
          have hk := lt_of_getElem? h1
          simp only [World.newSubDeriv, getElem?_set_append _ _ _ _ _ hi] at h2
          have hkn : k ≠ w.objs.length := by omega
          simp only [hkn, if_false] at h2
          by_cases hki : k = i
          · simp only [hki, if_true, Option.some.injEq] at h2
            exact ⟨w.objs.length, by rw [← h2]; rfl, Nat.le_refl _⟩
          · simp only [hki, if_false] at h2
            rw [h1] at h2; cases h2; exact absurd rfl h3
        · intro j q hq hqr k
          have hblk : q.block = d.block ↔ j = di := by
            constructor
            · intro e; exact h.inj j q di d hq hdi hqr (g6 hsr) e
            · intro e; subst e; rw [hq] at hdi; cases hdi; rfl
          refine ⟨fun hh => ?_, fun hh => ?_⟩
          · obtain ⟨⟨_, s', so', h1, h2, h3⟩, h4, h5⟩ := hh
            rw [hr] at h1; cases h1
            rw [hs] at h2; cases h2
            rw [hsd] at h3; cases h3
            simp [World.newSubDeriv, fill, hblk.2 rfl, h4, h5]
          · simp only [World.newSubDeriv, fill]
            rw [if_neg]
            rintro ⟨e1, e2, e3⟩
            exact hh ⟨⟨hd, s, so, hr, hs, by rw [hsd, hblk.1 e1]⟩, e2, e3⟩
      | none =>
        -- the derivative of the super variable is created first
        have wf1 := wf_newDeriv w z s so h hs hsd hsr
        have ext1 := ext_deriv w s so ⟨so.space, so.shift, w.blocks, 0, so.space.t, so.order + 1, some s, none, none⟩
          (fill w.mem w.blocks 0 so.space.t z) (w.blocks + 1) hs hsd
        have len1 : (w.newDeriv z s so).1.objs.length = w.objs.length + 1 := by simp [World.newDeriv]
        have get1 : ∀ k, (w.newDeriv z s so).1.objs[k]? = if k = w.objs.length then
            some ⟨so.space, so.shift, w.blocks, 0, so.space.t, so.order + 1, some s, none, none⟩ else
            if k = s then some (so.withDeriv w.objs.length) else w.objs[k]? := by
          intro k; simp only [World.newDeriv, getElem?_set_append _ _ _ _ _ hsl]
        have hil : i ≠ w.objs.length := by omega
        have hsl' : s ≠ w.objs.length := by omega
        have ho1 : (w.newDeriv z s so).1.objs[i]? = some o := by
          rw [get1]; simp [hil, ho]; intro e; exact absurd e.symm hsi
        have hs1 : (w.newDeriv z s so).1.objs[s]? = some (so.withDeriv w.objs.length) := by rw [get1]; simp [hsl']
        have hd1 : (w.newDeriv z s so).1.objs[w.objs.length]? =
            some ⟨so.space, so.shift, w.blocks, 0, so.space.t, so.order + 1, some s, none, none⟩ := by rw [get1]; simp
        have hi1 := lt_of_getElem? ho1
        refine ⟨((w.newDeriv z s so).1.newSubDeriv z i o w.objs.length
            ⟨so.space, so.shift, w.blocks, 0, so.space.t, so.order + 1, some s, none, none⟩).1, w.objs.length + 1, ?_,
          wf_newSubDeriv _ z i s w.objs.length o (so.withDeriv w.objs.length) _ wf1 ho1 hd hr hs1 rfl hd1,
          Ext.trans ext1 (ext_deriv _ i o _ _ _ ho1 hd), ?_, ?_, by simp, ?_, ?_⟩
        · have e : w.dotRoot z s = some ((w.newDeriv z s so).1, w.objs.length) := by
            simp [World.dotRoot, hs, hsd, hsr, World.newDeriv]
          simp only [World.dot1, ho, hd, hr, e, hd1]
          simp only [World.newSubDeriv, len1]
        · refine ⟨o.withDeriv (w.objs.length + 1), ?_, rfl⟩
          simp only [World.newSubDeriv, getElem?_set_append _ _ _ _ _ hi1, len1]
          have : i ≠ w.objs.length + 1 := by omega
          simp [this]
        · intro _
          refine ⟨⟨o.space, o.shift, w.blocks, o.shift.t, o.space.t, o.order + 1, some i, some w.objs.length, none⟩, ?_, rfl, by omega⟩
          simp only [World.newSubDeriv, getElem?_set_append _ _ _ _ _ hi1, len1]
          simp
        · intro k q q' h1 h2 h3
          have hk := lt_of_getElem? h1
          simp only [World.newSubDeriv, getElem?_set_append _ _ _ _ _ hi1, len1] at h2
          have hkn : k ≠ w.objs.length + 1 := by omega
          simp only [hkn, if_false] at h2
          by_cases hki : k = i
          · simp only [hki, if_true, Option.some.injEq] at h2
            exact ⟨w.objs.length + 1, by rw [← h2]; rfl, by omega⟩
          · simp only [hki, if_false, get1] at h2
            have hkn' : k ≠ w.objs.length := by omega
            simp only [hkn', if_false] at h2
            by_cases hks : k = s
            · simp only [hks, if_true, Option.some.injEq] at h2
              exact ⟨w.objs.length, by rw [← h2]; rfl, by omega⟩
            · simp only [hks, if_false] at h2
              rw [h1] at h2; cases h2; exact absurd rfl h3
        · intro j q hq hqr k
          refine ⟨fun hh => ?_, fun _ => ?_⟩
          · obtain ⟨⟨_, s', so', h1, h2, h3⟩, _⟩ := hh
            rw [hr] at h1; cases h1
            rw [hs] at h2; cases h2
            rw [hsd] at h3; cases h3
          · have := (h.at_ j q hq).blk
            have : q.block ≠ w.blocks := by omega
            simp [World.newDeriv, World.newSubDeriv, fill, this]

end Verif.Var
