import Verif.Lemmas.RangeParam
import Verif.Properties.C07_VariableCountingVector
/-!
# C08: `VariableCountingVector` in split mode

The full claim (in split mode `variables()` reflects all the calls made before) is false: an `add` that does not change
the set of coordinates in use does not invalidate the list (`C08_split_stale`). What holds is that the list is right
whenever it is recomputed: if `variables()` was not called before, or after a call to `add` or `remove` returned `true`.
-/
set_option autoImplicit false

namespace Verif.C08
open Verif Verif.RC Verif.VCV Verif.RangeAlign Verif.RangeParam Verif.C07
open Verif.C02 (In net Canonical)

/-- `items` partition the coordinates used in the history `h` into segments on which the number of uses is constant, and
whose ends are ends of variables of the history. -/
structure SplitLists (W : World) (h : List Call) (items : List Item) : Prop where
  valid : ∀ x ∈ items, Valid W x.var
  nonempty : ∀ x ∈ items, 0 < x.var.dim.m
  order : items.Pairwise (fun a b => a.var.root.id < b.var.root.id ∨
    (a.var.root = b.var.root ∧ a.var.start.m + a.var.dim.m ≤ b.var.start.m))
  cover : ∀ i k, (∃ x ∈ items, Has x.var i k) ↔ 0 < netV h i k
  constant : ∀ x ∈ items, ∀ i k k', Has x.var i k → Has x.var i k' → netV h i k = netV h i k'
  /-- variables that were only added are not cut -/
  uncut : (∀ c ∈ h, ∃ v, c = Call.add v) → ∀ x ∈ items, ∀ v, Call.add v ∈ h → ∀ i k, Has v i k → Has x.var i k →
    ∀ k', Has x.var i k' → Has v i k'

def splitItems (W : World) (p : Root × Entry) : List Item := ((p.2.m.ranges true).2).map (seg W p.1)

def allSplit (W : World) (l : List (Root × Entry)) : List Item := l.flatMap (splitItems W)

theorem split_bounds {W : World} {s : VCV.State} {h : List Call} (hs : SInv W true s h)
    {p : Root × Entry} (hp : p ∈ s.count) : ∀ a ∈ (p.2.m.ranges true).2,
      0 < a.dim ∧ 0 ≤ a.start ∧ a.start + a.dim ≤ p.1.space.m := by
  intro a ha
  obtain ⟨h1, h2⟩ := hs.entries p hp
  obtain ⟨c1, -, c3, -, -⟩ := C02.C06_split_partition h2.m
  have hd := c1 a ha
  have b1 := (c3 a.start).mp ⟨a, ha, by unfold In; omega⟩
  have b2 := (c3 (a.start + a.dim - 1)).mp ⟨a, ha, by unfold In; omega⟩
  rw [net_proj] at b1 b2
  have c1 := pos_bound hs.calls b1
  have c2 := pos_bound hs.calls b2
  rw [← h1] at c1 c2
  omega

theorem entry_split {W : World} {s : VCV.State} {h : List Call} (hs : SInv W true s h)
    {p : Root × Entry} (hp : p ∈ s.count) :
    itemsOf p.1 (p.2.m.ranges true).2 (p.2.r.ranges true).2 (p.2.t.ranges true).2 = some (splitItems W p) := by
  obtain ⟨h1, h2⟩ := hs.entries p hp
  obtain ⟨c1, c2, -⟩ := C02.C06_split_partition h2.m
  rw [split_img (W.monoR p.1.id) h2.m h2.r, split_img (W.monoT p.1.id) h2.m h2.t]
  exact itemsOf_map h1 c1 c2 (fun a ha => (split_bounds hs hp a ha).2)

theorem updateLoop_true {W : World} : ∀ {l : List (Root × Entry)},
    (∀ p ∈ l, itemsOf p.1 (p.2.m.ranges true).2 (p.2.r.ranges true).2 (p.2.t.ranges true).2
      = some (splitItems W p)) → ∃ c ss, updateLoop true l = some (c, allSplit W l, ss) := by
  intro l
  induction l with
  | nil => intro _; exact ⟨[], [], rfl⟩
  | cons p l ih =>
    intro h
    obtain ⟨v, e⟩ := p
    obtain ⟨c, ss, h1⟩ := ih (fun p hp => h p (by simp [hp]))
    have h2 := h (v, e) (by simp)
    simp only at h2
    simp only [updateLoop, h1, h2]
    exact ⟨_, _, rfl⟩

theorem mem_proj {i : Nat} {h : List Call} {v : Var} (hv : Call.add v ∈ h) (hi : v.root.id = i) :
    C02.Call.add (mRange v) ∈ proj i h := by
  induction h with
  | nil => cases hv
  | cons c h ih =>
    rcases List.mem_cons.mp hv with rfl | hv'
    · simp [proj, hi]
    · cases c with
      | add w => simp only [proj]; split <;> simp [ih hv']
      | remove w => simp only [proj]; split <;> simp [ih hv']

theorem addOnly_proj {h : List Call} (ha : ∀ c ∈ h, ∃ v, c = Call.add v) (i : Nat) : C02.AddOnly (proj i h) := by
  induction h with
  | nil => intro c hc; simp [proj] at hc
  | cons c h ih =>
    have ih := ih (fun c hc => ha c (by simp [hc]))
    obtain ⟨v, rfl⟩ := ha c (by simp)
    simp only [proj]
    split
    · intro c hc
      rcases List.mem_cons.mp hc with rfl | hc
      · exact ⟨_, rfl⟩
      · exact ih c hc
    · exact ih

theorem lists_allSplit {W : World} {s : VCV.State} {h : List Call} (hs : SInv W true s h) :
    SplitLists W h (allSplit W s.count) := by
  have hmem : ∀ x ∈ allSplit W s.count, ∃ p ∈ s.count, ∃ a ∈ (p.2.m.ranges true).2, x = seg W p.1 a := by
    intro x hx
    simp only [allSplit, List.mem_flatMap] at hx
    obtain ⟨p, hp, hx⟩ := hx
    obtain ⟨a, ha, rfl⟩ := List.mem_map.mp hx
    exact ⟨p, hp, a, ha, rfl⟩
  have hvar : ∀ p ∈ s.count, ∀ a ∈ (p.2.m.ranges true).2, Valid W (seg W p.1 a).var ∧
      (seg W p.1 a).var.root = p.1 ∧ (seg W p.1 a).var.start.m = a.start ∧
      (seg W p.1 a).var.dim.m = a.dim ∧ (a.dim = p.1.space.m → seg W p.1 a = .whole p.1) := by
    intro p hp a ha
    obtain ⟨h1, h2, h3⟩ := split_bounds hs hp a ha
    exact seg_var (hs.entries p hp).1 h1 h2 h3
  refine ⟨?_, ?_, ?_, ?_, ?_, ?_⟩
  · intro x hx
    obtain ⟨p, hp, a, ha, rfl⟩ := hmem x hx
    exact (hvar p hp a ha).1
  · intro x hx
    obtain ⟨p, hp, a, ha, rfl⟩ := hmem x hx
    rw [(hvar p hp a ha).2.2.2.1]
    exact (split_bounds hs hp a ha).1
  · have key : ∀ M : List (Root × Entry), M.Pairwise (fun a b => a.1.id < b.1.id) → (∀ p ∈ M, p ∈ s.count) →
        (allSplit W M).Pairwise (fun a b => a.var.root.id < b.var.root.id ∨
          (a.var.root = b.var.root ∧ a.var.start.m + a.var.dim.m ≤ b.var.start.m)) := by
      intro M
      induction M with
      | nil => intro _ _; simp [allSplit]
      | cons p M ih =>
        intro h1 h2
        rw [List.pairwise_cons] at h1
        simp only [allSplit, List.flatMap_cons]
        rw [List.pairwise_append]
        refine ⟨?_, ih h1.2 (fun q hq => h2 q (by simp [hq])), ?_⟩
        · simp only [splitItems]
          rw [List.pairwise_map]
          have hp := h2 p (by simp)
          have hc := (C02.C06_split_partition (hs.entries p hp).2.m).2.1
          refine List.Pairwise.imp_of_mem ?_ hc
          intro a b ha hb hab
          obtain ⟨-, a1, a2, a3, -⟩ := hvar p hp a ha
          obtain ⟨-, b1, b2, b3, -⟩ := hvar p hp b hb
          right
          rw [a1, b1, a2, a3, b2]
          exact ⟨rfl, hab⟩
        · intro x hx y hy
          obtain ⟨a, ha, rfl⟩ := List.mem_map.mp hx
          obtain ⟨q, hq, hy⟩ := List.mem_flatMap.mp hy
          obtain ⟨b, hb, rfl⟩ := List.mem_map.mp hy
          left
          rw [(hvar p (h2 p (by simp)) a ha).2.1, (hvar q (h2 q (by simp [hq])) b hb).2.1]
          exact h1.1 q hq
    exact key s.count hs.sorted (fun p hp => hp)
  · intro i k
    constructor
    · rintro ⟨x, hx, hh⟩
      obtain ⟨p, hp, a, ha, rfl⟩ := hmem x hx
      obtain ⟨-, h1, h2, h3, -⟩ := hvar p hp a ha
      obtain ⟨k1, k2, k3⟩ := hh
      rw [h1] at k1
      rw [h2] at k2 k3
      rw [h3] at k3
      have hc := (C02.C06_split_partition (hs.entries p hp).2.m).2.2.1
      have := (hc k).mp ⟨a, ha, k2, k3⟩
      rw [net_proj, k1] at this
      exact this
    · intro hk
      have : ∃ p ∈ s.count, p.1.id = i := by
        apply Classical.byContradiction
        intro hne
        have := hs.absent i (fun p hp hpi => hne ⟨p, hp, hpi⟩)
        rw [← net_proj, this] at hk
        simp [net] at hk
      obtain ⟨p, hp, rfl⟩ := this
      have hc := (C02.C06_split_partition (hs.entries p hp).2.m).2.2.1
      obtain ⟨a, ha, hin⟩ := (hc k).mpr (by rw [net_proj]; exact hk)
      obtain ⟨-, h1, h2, h3, -⟩ := hvar p hp a ha
      refine ⟨seg W p.1 a, ?_, ?_⟩
      · simp only [allSplit, List.mem_flatMap]
        exact ⟨p, hp, List.mem_map.mpr ⟨a, ha, rfl⟩⟩
      · unfold Has
        rw [h1, h2, h3]
        exact ⟨rfl, hin.1, hin.2⟩
  · intro x hx i k k' hk hk'
    obtain ⟨p, hp, a, ha, rfl⟩ := hmem x hx
    obtain ⟨-, h1, h2, h3, -⟩ := hvar p hp a ha
    unfold Has at hk hk'
    rw [h1, h2, h3] at hk hk'
    have hc := (C02.C06_split_partition (hs.entries p hp).2.m).2.2.2.1
    have := hc a ha k k' ⟨hk.2.1, hk.2.2⟩ ⟨hk'.2.1, hk'.2.2⟩
    rw [net_proj, net_proj, hk.1] at this
    exact this
  · intro hao x hx v hv i k hk hxk k' hxk'
    obtain ⟨p, hp, a, ha, rfl⟩ := hmem x hx
    obtain ⟨-, h1, h2, h3, -⟩ := hvar p hp a ha
    unfold Has at hxk hxk'
    rw [h1, h2, h3] at hxk hxk'
    obtain ⟨k1, k2, k3⟩ := hk
    have hb := (C02.C06_split_boundaries (hs.entries p hp).2.m).2 (addOnly_proj hao _) a ha
    have hmemv := mem_proj hv (show v.root.id = p.1.id by rw [k1]; exact hxk.1.symm)
    have b1 := hb v.start.m ⟨mRange v, Or.inl hmemv, by simp only [mRange]; omega, Or.inl rfl⟩
    have b2 := hb (v.start.m + v.dim.m) ⟨mRange v, Or.inl hmemv, by simp only [mRange]; omega, Or.inr rfl⟩
    refine ⟨k1, ?_, ?_⟩ <;> omega

theorem recomputed {W : World} {s : VCV.State} {h : List Call} (hR : Reach W true s h) (hu : s.upToDate = false) :
    ∃ s' l, s.getVariables = .ok s' l ∧ SplitLists W h l := by
  have hs := C07.reach_inv hR
  obtain ⟨c, ss, h1⟩ := updateLoop_true (W := W) (l := s.count) (fun p hp => entry_split hs hp)
  unfold State.getVariables State.update
  rw [hu, hs.splitEq, h1]
  exact ⟨_, _, rfl, lists_allSplit hs⟩

/-- **C08** (part) In split mode, just after an `add` or a `remove` that returned `true`, `variables()` returns the
split variables for the history. -/
theorem C08_split_fresh_after_change_partial {W : World} {s s' : VCV.State} {h : List Call} {v : Var}
    (hR : Reach W true s h) (hv : Valid W v) :
    (s.add v = .ok s' true → ∃ s'' l, s'.getVariables = .ok s'' l ∧ SplitLists W (.add v :: h) l) ∧
    (s.remove v = .ok s' true → ∃ s'' l, s'.getVariables = .ok s'' l ∧ SplitLists W (.remove v :: h) l) := by
  constructor
  · intro he
    refine recomputed (.add hR hv he) ?_
    unfold VCV.State.add at he
    split at he
    · cases he
    · cases he
    · simp only [Outcome.ok.injEq] at he
      obtain ⟨rfl, rfl⟩ := he
      simp
  · intro he
    refine recomputed (.remove hR hv he) ?_
    unfold VCV.State.remove at he
    split at he
    · cases he
    · split at he
      · cases he
      · cases he
      · simp only [Outcome.ok.injEq] at he
        obtain ⟨rfl, rfl⟩ := he
        simp

/-- States reached without a call to `variables()` or `simple()`. -/
inductive NoQuery (W : World) : VCV.State → List Call → Prop where
  | init : NoQuery W { split := true } []
  | add {s h v s' b} : NoQuery W s h → Valid W v → s.add v = .ok s' b → NoQuery W s' (.add v :: h)
  | remove {s h v s' b} : NoQuery W s h → Valid W v → s.remove v = .ok s' b → NoQuery W s' (.remove v :: h)

theorem noQuery_reach {W : World} {s : VCV.State} {h : List Call} (hN : NoQuery W s h) :
    Reach W true s h ∧ s.upToDate = false := by
  induction hN with
  | init => exact ⟨.init, rfl⟩
  | add _ hv he ih =>
    refine ⟨.add ih.1 hv he, ?_⟩
    unfold VCV.State.add at he
    split at he
    · cases he
    · cases he
    · simp only [Outcome.ok.injEq] at he
      obtain ⟨rfl, -⟩ := he
      simp [ih.2]
  | remove _ hv he ih =>
    refine ⟨.remove ih.1 hv he, ?_⟩
    unfold VCV.State.remove at he
    split at he
    · cases he
    · split at he
      · cases he
      · cases he
      · simp only [Outcome.ok.injEq] at he
        obtain ⟨rfl, -⟩ := he
        simp [ih.2]

/-- **C08** (part) In split mode, the first call to `variables()` returns the split variables for the history. -/
theorem C08_split_first_query_partial {W : World} {s : VCV.State} {h : List Call} (hN : NoQuery W s h) :
    ∃ s' l, s.getVariables = .ok s' l ∧ SplitLists W h l :=
  recomputed (noQuery_reach hN).1 (noQuery_reach hN).2

/-- The state after a call. -/
def after {α : Type} (s : VCV.State) : Outcome VCV.State α → VCV.State
  | .ok s' _ => s'
  | .throw s' => s'
  | .ub => s

/-- split object, then `add(x)`, `variables()`, `add(x[0:2])` for a variable `x` of size 8 -/
def st1 : VCV.State := after {} (VCV.State.add { split := true } (exX 0 8))
def st2 : VCV.State := after {} st1.getVariables
def st3 : VCV.State := after {} (st2.add (exX 0 3))

/-- **C08** (negation of the full claim) In split mode, adding `x`, asking for the variables, then adding the first part
of `x`: the variables are still `[x]`, on which the number of uses is not constant. -/
theorem C08_split_stale : Reach exWorld true st3 [.add (exX 0 3), .add (exX 0 8)] ∧
    st3.getVariables = .ok st3 [.whole (exWorld.root 0)] ∧
    ¬ SplitLists exWorld [.add (exX 0 3), .add (exX 0 8)] [.whole (exWorld.root 0)] := by
  have v8 := exX_valid 0 8 (by decide) (by decide) (by decide)
  have v3 := exX_valid 0 3 (by decide) (by decide) (by decide)
  have h1 : VCV.State.add { split := true } (exX 0 8) = .ok st1 true := by decide +kernel
  have h2 : st1.getVariables = .ok st2 [.whole (exWorld.root 0)] := by decide +kernel
  have h3 : st2.add (exX 0 3) = .ok st3 false := by decide +kernel
  refine ⟨.add (.variables (.add .init v8 h1) h2) v3 h3, by decide +kernel, fun hL => ?_⟩
  have := hL.constant (.whole (exWorld.root 0)) (by simp) 0 2 3 (by decide) (by decide)
  exact absurd this (by decide)

def st2' : VCV.State := after {} (st1.add (exX 0 3))

/-- Without the query in between, the split variables are right. -/
example : NoQuery exWorld st2' [.add (exX 0 3), .add (exX 0 8)] ∧
    ∃ s, st2'.getVariables =
      .ok s [.sub (exWorld.root 0) ⟨3, 3, 3⟩ ⟨0, 0, 0⟩, .sub (exWorld.root 0) ⟨5, 5, 5⟩ ⟨3, 3, 3⟩] := by
  have v8 := exX_valid 0 8 (by decide) (by decide) (by decide)
  have v3 := exX_valid 0 3 (by decide) (by decide) (by decide)
  have h1 : VCV.State.add { split := true } (exX 0 8) = .ok st1 true := by decide +kernel
  have h2 : st1.add (exX 0 3) = .ok st2' false := by decide +kernel
  exact ⟨.add (.add .init v8 h1) v3 h2, after {} st2'.getVariables, by decide +kernel⟩

-- each theorem applied: adding to a non-empty state, and the first query after two additions
example : ∃ s'' l, st1.getVariables = .ok s'' l ∧ SplitLists exWorld [.add (exX 0 8)] l :=
  (C08_split_fresh_after_change_partial Reach.init (exX_valid 0 8 (by decide) (by decide) (by decide))).1
    (by decide +kernel)
example : ∃ s' l, st2'.getVariables = .ok s' l ∧ SplitLists exWorld [.add (exX 0 3), .add (exX 0 8)] l := by
  have v8 := exX_valid 0 8 (by decide) (by decide) (by decide)
  have v3 := exX_valid 0 3 (by decide) (by decide) (by decide)
  have h1 : VCV.State.add { split := true } (exX 0 8) = .ok st1 true := by decide +kernel
  have h2 : st1.add (exX 0 3) = .ok st2' false := by decide +kernel
  exact C08_split_first_query_partial (.add (.add .init v8 h1) v3 h2)

end Verif.C08
