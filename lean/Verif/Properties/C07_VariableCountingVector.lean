import Verif.Lemmas.RangeAlign
import Verif.Model.VariableCountingVector
/-!
# C07: `VariableCountingVector` lists exactly the variables still in use
-/
set_option autoImplicit false

namespace Verif.C07
open Verif Verif.RC Verif.VCV Verif.RangeAlign
open Verif.C02 (In net Canonical)

/-! ## Specification -/

/-- The root variables. Subvariables of a root must be aligned: cutting the root at the position `i` of the
manifold coordinates is cutting it at `gR i` in the representation coordinates and at `gT i` in the tangent ones.
For a Euclidean variable the three coordinates are the same. -/
structure World where
  root : Nat → Root
  root_id : ∀ i, (root i).id = i
  gR : Nat → Int → Int
  gT : Nat → Int → Int
  monoR : ∀ i, SMono (gR i)
  monoT : ∀ i, SMono (gT i)
  zeroR : ∀ i, gR i 0 = 0
  zeroT : ∀ i, gT i 0 = 0
  fullR : ∀ i, gR i (root i).space.m = (root i).space.r
  fullT : ∀ i, gT i (root i).space.m = (root i).space.t

/-- `v` is a (sub)variable of one of the roots. -/
structure Valid (W : World) (v : Var) : Prop where
  root : v.root = W.root v.root.id
  start_nonneg : 0 ≤ v.start.m
  dim_nonneg : 0 ≤ v.dim.m
  bound : v.start.m + v.dim.m ≤ v.root.space.m
  startR : v.start.r = W.gR v.root.id v.start.m
  stopR : v.start.r + v.dim.r = W.gR v.root.id (v.start.m + v.dim.m)
  startT : v.start.t = W.gT v.root.id v.start.m
  stopT : v.start.t + v.dim.t = W.gT v.root.id (v.start.m + v.dim.m)

/-- A call that returned. -/
inductive Call where
  | add (v : Var)
  | remove (v : Var)
deriving Repr, DecidableEq

/-- Coordinate `k` of the root `i` is part of `v`. -/
def Has (v : Var) (i : Nat) (k : Int) : Prop := v.root.id = i ∧ v.start.m ≤ k ∧ k < v.start.m + v.dim.m

instance (v i k) : Decidable (Has v i k) := inferInstanceAs (Decidable (_ ∧ _))

/-- Number of times the coordinate `k` of the root `i` was added minus number of times it was removed. -/
def netV : List Call → Nat → Int → Int
  | [], _, _ => 0
  | .add v :: h, i, k => netV h i k + if Has v i k then 1 else 0
  | .remove v :: h, i, k => netV h i k - if Has v i k then 1 else 0

/-- `items` are the maximal segments of the coordinates used in the history `h`, in order, the segment that is a full
variable being this variable itself. -/
structure Lists (W : World) (h : List Call) (items : List Item) : Prop where
  valid : ∀ x ∈ items, Valid W x.var
  nonempty : ∀ x ∈ items, 0 < x.var.dim.m
  order : items.Pairwise (fun a b => a.var.root.id < b.var.root.id ∨
    (a.var.root = b.var.root ∧ a.var.start.m + a.var.dim.m < b.var.start.m))
  cover : ∀ i k, (∃ x ∈ items, Has x.var i k) ↔ 0 < netV h i k
  whole : ∀ x ∈ items, x.var.dim.m = x.var.root.space.m → x = .whole x.var.root

/-- States after the calls `h` returned, interleaved with calls that threw, and with queries. `split` is the argument
of the constructor. -/
inductive Reach (W : World) (split : Bool) : VCV.State → List Call → Prop where
  | init : Reach W split { split := split } []
  | add {s h v s' b} : Reach W split s h → Valid W v → s.add v = .ok s' b → Reach W split s' (.add v :: h)
  | addThrow {s h v s'} : Reach W split s h → Valid W v → s.add v = .throw s' → Reach W split s' h
  | remove {s h v s' b} : Reach W split s h → Valid W v → s.remove v = .ok s' b → Reach W split s' (.remove v :: h)
  | removeThrow {s h v s'} : Reach W split s h → Valid W v → s.remove v = .throw s' → Reach W split s' h
  | variables {s h s' l} : Reach W split s h → s.getVariables = .ok s' l → Reach W split s' h
  | simple {s h s' l} : Reach W split s h → s.getSimple = .ok s' l → Reach W split s' h
  | clear {s h} : Reach W split s h → Reach W split s.clear []

/-! ## Entries -/

def mRange (v : Var) : Range := ⟨v.start.m, v.dim.m⟩

/-- Calls on the root `i`, in manifold coordinates. -/
def proj (i : Nat) : List Call → List C02.Call
  | [] => []
  | .add v :: h => if v.root.id = i then .add (mRange v) :: proj i h else proj i h
  | .remove v :: h => if v.root.id = i then .remove (mRange v) :: proj i h else proj i h

theorem net_proj (i : Nat) (k : Int) : ∀ h, net (proj i h) k = netV h i k
  | [] => rfl
  | .add v :: h => by
    simp only [proj, netV]
    have ih := net_proj i k h
    by_cases hv : v.root.id = i
    · simp only [hv, if_true, net, ih, Has, In, mRange, true_and]; congr 1
    · simp [hv, ih, Has]
  | .remove v :: h => by
    simp only [proj, netV]
    have ih := net_proj i k h
    by_cases hv : v.root.id = i
    · simp only [hv, if_true, net, ih, Has, In, mRange, true_and]; congr 1
    · simp [hv, ih, Has]

structure EInv (W : World) (i : Nat) (e : Entry) (h : List C02.Call) : Prop where
  m : C02.Reach e.m h
  r : C02.Reach e.r (h.map (mapCall (W.gR i)))
  t : C02.Reach e.t (h.map (mapCall (W.gT i)))

theorem Valid.rRange {W : World} {v : Var} (hv : Valid W v) :
    (⟨v.start.r, v.dim.r⟩ : Range) = img (W.gR v.root.id) (mRange v) := by
  simp only [img, mRange]
  have h1 := hv.startR; have h2 := hv.stopR
  rw [← h1, ← h2]; simp only [Range.mk.injEq, true_and]; omega

theorem Valid.tRange {W : World} {v : Var} (hv : Valid W v) :
    (⟨v.start.t, v.dim.t⟩ : Range) = img (W.gT v.root.id) (mRange v) := by
  simp only [img, mRange]
  have h1 := hv.startT; have h2 := hv.stopT
  rw [← h1, ← h2]; simp only [Range.mk.injEq, true_and]; omega

theorem entry_add {W : World} {v : Var} (hv : Valid W v) {e : Entry} {h : List C02.Call}
    (he : EInv W v.root.id e h) :
    ∃ e' b, e.add v = .ok e' b ∧ EInv W v.root.id e' (.add (mRange v) :: h) ∧
      (b = true ↔ (e'.m.ranges false).2 ≠ (e.m.ranges false).2) ∧
      e'.counter = (if b then e.counter + 1 else e.counter) ∧ e.m.add (mRange v) = .ok e'.m b := by
  have hm : 0 ≤ (mRange v).dim := hv.dim_nonneg
  have hr := img_nonneg (W.monoR v.root.id) hm
  have ht := img_nonneg (W.monoT v.root.id) hm
  obtain ⟨⟨r', br, e1⟩, -⟩ := C02.C02_no_ub he.r (img (W.gR v.root.id) (mRange v)) hr
  obtain ⟨⟨t', bt, e2⟩, -⟩ := C02.C02_no_ub he.t (img (W.gT v.root.id) (mRange v)) ht
  obtain ⟨⟨m', bm, e3⟩, -⟩ := C02.C02_no_ub he.m (mRange v) hm
  refine ⟨⟨m', r', t', if bm then e.counter + 1 else e.counter⟩, bm, ?_, ⟨?_, ?_, ?_⟩, ?_, rfl, e3⟩
  · unfold Entry.add
    rw [hv.rRange, hv.tRange, e1]
    dsimp only
    rw [e2]
    dsimp only
    rw [show (⟨v.start.m, v.dim.m⟩ : Range) = mRange v from rfl, e3]
  · exact .add he.m hm e3
  · exact .add he.r hr e1
  · exact .add he.t ht e2
  · exact C02.C03_add_flag he.m hm e3

theorem entry_remove_ok {W : World} {v : Var} (hv : Valid W v) {e : Entry} {h : List C02.Call}
    (he : EInv W v.root.id e h) (hc : ¬ ∃ k, In (mRange v) k ∧ net h k = 0) :
    ∃ e' b, e.remove v = .ok e' b ∧ EInv W v.root.id e' (.remove (mRange v) :: h) ∧
      (b = true ↔ (e'.m.ranges false).2 ≠ (e.m.ranges false).2) := by
  have hm : 0 ≤ (mRange v).dim := hv.dim_nonneg
  have hr := img_nonneg (W.monoR v.root.id) hm
  have ht := img_nonneg (W.monoT v.root.id) hm
  have ok : ∀ {s : RC.State} {h : List C02.Call} {r : Range}, C02.Reach s h → 0 ≤ r.dim →
      (¬ ∃ k, In r k ∧ net h k = 0) → ∃ s' b, s.remove r = .ok s' b := by
    intro s h r hR hd hk
    have h1 := (C02.C02_no_ub hR r hd).2
    have h2 := mt (C02.C04_remove_throws_iff hR hd).mp hk
    cases hs : s.remove r with
    | ok s' b => exact ⟨s', b, rfl⟩
    | throw s' => exact absurd ⟨s', hs⟩ h2
    | ub => exact absurd hs h1
  obtain ⟨r', br, e1⟩ := ok he.r hr (mt (uncovered_img (W.monoR _)).mp hc)
  obtain ⟨t', bt, e2⟩ := ok he.t ht (mt (uncovered_img (W.monoT _)).mp hc)
  obtain ⟨m', bm, e3⟩ := ok he.m hm hc
  refine ⟨⟨m', r', t', if bm then (if m'.empty then 0 else e.counter + 10) else e.counter⟩, bm, ?_, ⟨?_, ?_, ?_⟩, ?_⟩
  · unfold Entry.remove
    rw [hv.rRange, hv.tRange, e1]
    dsimp only
    rw [e2]
    dsimp only
    rw [show (⟨v.start.m, v.dim.m⟩ : Range) = mRange v from rfl, e3]
  · exact .remove he.m hm e3
  · exact .remove he.r hr e1
  · exact .remove he.t ht e2
  · exact C02.C03_remove_flag he.m hm e3

theorem entry_remove_throw {W : World} {v : Var} (hv : Valid W v) {e : Entry} {h : List C02.Call}
    (he : EInv W v.root.id e h) (hc : ∃ k, In (mRange v) k ∧ net h k = 0) :
    ∃ e', e.remove v = .throw e' ∧ EInv W v.root.id e' h ∧ e'.m = e.m ∧ e'.counter = e.counter := by
  have hm : 0 ≤ (mRange v).dim := hv.dim_nonneg
  have hr := img_nonneg (W.monoR v.root.id) hm
  obtain ⟨r', e1⟩ := (C02.C04_remove_throws_iff he.r hr).mpr ((uncovered_img (W.monoR _)).mpr hc)
  refine ⟨{ e with r := r' }, ?_, ⟨he.m, .removeThrow he.r hr e1, he.t⟩, rfl, rfl⟩
  unfold Entry.remove
  rw [hv.rRange, e1]

/-! ## The ordered map -/

theorem find_some {l : List (Root × Entry)} {i : Nat} {e : Entry} (h : find i l = some e) :
    ∃ v, v.id = i ∧ (v, e) ∈ l := by
  induction l with
  | nil => simp [find] at h
  | cons p l ih =>
    obtain ⟨v, x⟩ := p
    simp only [find] at h
    split at h
    · rename_i hv
      simp only [Option.some.injEq] at h
      subst h; exact ⟨v, hv, by simp⟩
    · obtain ⟨w, h1, h2⟩ := ih h
      exact ⟨w, h1, by simp [h2]⟩

theorem find_none {l : List (Root × Entry)} {i : Nat} (h : find i l = none) : ∀ p ∈ l, p.1.id ≠ i := by
  induction l with
  | nil => simp
  | cons p l ih =>
    obtain ⟨v, x⟩ := p
    simp only [find] at h
    split at h
    · cases h
    · rename_i hv
      intro q hq
      rcases List.mem_cons.mp hq with rfl | hq
      · exact hv
      · exact ih h q hq

theorem mem_put {v : Root} {e : Entry} {l : List (Root × Entry)} {p : Root × Entry} (hp : p ∈ put v e l) :
    (p.1.id = v.id ∧ p.2 = e ∧ (p.1 = v ∨ ∃ x, (p.1, x) ∈ l)) ∨ p ∈ l := by
  induction l with
  | nil => simp only [put, List.mem_singleton] at hp; subst hp; simp
  | cons q l ih =>
    obtain ⟨w, x⟩ := q
    simp only [put] at hp
    split at hp
    · rcases List.mem_cons.mp hp with rfl | hp
      · exact Or.inl ⟨rfl, rfl, Or.inl rfl⟩
      · exact Or.inr hp
    · split at hp
      · rename_i h1
        rcases List.mem_cons.mp hp with rfl | hp
        · exact Or.inl ⟨h1.symm, rfl, Or.inr ⟨x, by simp⟩⟩
        · exact Or.inr (by simp [hp])
      · rcases List.mem_cons.mp hp with rfl | hp
        · exact Or.inr (by simp)
        · rcases ih hp with ⟨h1, h2, h3⟩ | h
          · refine Or.inl ⟨h1, h2, ?_⟩
            rcases h3 with h3 | ⟨y, h3⟩
            · exact Or.inl h3
            · exact Or.inr ⟨y, by simp [h3]⟩
          · exact Or.inr (by simp [h])

theorem put_sorted {v : Root} {e : Entry} {l : List (Root × Entry)} (h : l.Pairwise (fun a b => a.1.id < b.1.id)) :
    (put v e l).Pairwise (fun a b => a.1.id < b.1.id) := by
  induction l with
  | nil => simp [put]
  | cons q l ih =>
    obtain ⟨w, x⟩ := q
    rw [List.pairwise_cons] at h
    simp only [put]
    split
    · rename_i h1
      rw [List.pairwise_cons, List.pairwise_cons]
      refine ⟨?_, h⟩
      intro p hp
      rcases List.mem_cons.mp hp with rfl | hp
      · exact h1
      · have := h.1 p hp; simp only at this ⊢; omega
    · split
      · rw [List.pairwise_cons]; exact h
      · rw [List.pairwise_cons]
        refine ⟨?_, ih h.2⟩
        intro p hp
        rcases mem_put hp with ⟨h1, -⟩ | hp
        · simp only; omega
        · exact h.1 p hp

/-- Elements of the map other than the one written are kept. -/
theorem put_keep {v : Root} {e : Entry} {l : List (Root × Entry)} {p : Root × Entry} (hp : p ∈ l)
    (hne : p.1.id ≠ v.id) : p ∈ put v e l := by
  induction l with
  | nil => cases hp
  | cons q l ih =>
    obtain ⟨w, x⟩ := q
    simp only [put]
    split
    · exact List.mem_cons_of_mem _ hp
    · split
      · rename_i h1
        rcases List.mem_cons.mp hp with rfl | hp
        · exact absurd h1.symm hne
        · simp [hp]
      · rcases List.mem_cons.mp hp with rfl | hp
        · simp
        · simp [ih hp]

theorem put_mem (v : Root) (e : Entry) (l : List (Root × Entry)) : ∃ w, w.id = v.id ∧ (w, e) ∈ put v e l := by
  induction l with
  | nil => exact ⟨v, rfl, by simp [put]⟩
  | cons q l ih =>
    obtain ⟨w, x⟩ := q
    simp only [put]
    split
    · exact ⟨v, rfl, by simp⟩
    · split
      · rename_i h1; exact ⟨w, h1.symm, by simp⟩
      · obtain ⟨u, h1, h2⟩ := ih
        exact ⟨u, h1, by simp [h2]⟩

/-! ## Items -/

/-- The element of `variables()` for a segment of a root. -/
def seg (W : World) (v : Root) (a : Range) : Item :=
  if a = ⟨0, v.space.m⟩ then .whole v
  else .sub v ⟨a.dim, (img (W.gR v.id) a).dim, (img (W.gT v.id) a).dim⟩
    ⟨a.start, (img (W.gR v.id) a).start, (img (W.gT v.id) a).start⟩

/-- Elements of `variables()` for one root. -/
def items (W : World) (p : Root × Entry) : List Item := ((p.2.m.ranges false).2).map (seg W p.1)

def allItems (W : World) (l : List (Root × Entry)) : List Item := l.flatMap (items W)

theorem subs_map (v : Root) (f g : Range → Range) : ∀ ms : List Range,
    subs v ms (ms.map f) (ms.map g) =
      ms.map (fun a => .sub v ⟨a.dim, (f a).dim, (g a).dim⟩ ⟨a.start, (f a).start, (g a).start⟩)
  | [] => rfl
  | a :: ms => by simp only [List.map_cons, subs, subs_map v f g ms]

theorem itemsOf_map {W : World} {v : Root} (hv : v = W.root v.id) {ms : List Range}
    (hne : ∀ a ∈ ms, 0 < a.dim) (hsep : ms.Pairwise (fun a b => a.start + a.dim ≤ b.start))
    (hb : ∀ a ∈ ms, 0 ≤ a.start ∧ a.start + a.dim ≤ v.space.m) :
    itemsOf v ms (ms.map (img (W.gR v.id))) (ms.map (img (W.gT v.id))) = some (ms.map (seg W v)) := by
  unfold itemsOf
  rw [if_pos (by simp)]
  rcases ms with _ | ⟨a, _ | ⟨b, ms⟩⟩
  · simp [subs]
  · simp only [List.map_cons, List.map_nil]
    have ha := hb a (by simp)
    have hd := hne a (by simp)
    have hfullR := W.fullR v.id; have hzR := W.zeroR v.id
    have hfullT := W.fullT v.id; have hzT := W.zeroT v.id
    rw [← hv] at hfullR hfullT
    have key : ∀ {g : Int → Int} {n : Int}, SMono g → g 0 = 0 → g v.space.m = n →
        ((img g a).dim = n ↔ a = ⟨0, v.space.m⟩) := by
      intro g n hg h0 hn
      simp only [img]
      have h1 := hg.le ha.1
      have h2 := hg.le ha.2
      constructor
      · intro h
        have h3 : a.start = 0 := by
          by_cases hh : a.start = 0
          · exact hh
          · have := hg 0 a.start (by omega); omega
        have h4 : a.start + a.dim = v.space.m := by
          by_cases hh : a.start + a.dim = v.space.m
          · exact hh
          · have := hg (a.start + a.dim) v.space.m (by omega); omega
        obtain ⟨s, d⟩ := a
        simp only at h3 h4
        simp only [Range.mk.injEq]; omega
      · intro h
        subst h
        simp only [Int.zero_add, h0, hn]; omega
    have kR := key (W.monoR v.id) hzR hfullR
    have kT := key (W.monoT v.id) hzT hfullT
    have hcond : ((v.basePrimitive = true ∧ (img (W.gR v.id) a).dim = v.size) ∨
        (v.basePrimitive = false ∧ (img (W.gT v.id) a).dim = v.size)) ↔ a = ⟨0, v.space.m⟩ := by
      unfold Root.size
      cases hbp : v.basePrimitive
      · simp only [Bool.false_eq_true, false_and, if_false, true_and, false_or]; exact kT
      · simp only [if_true, true_and, Bool.true_eq_false, false_and, or_false]; exact kR
    by_cases hw : a = ⟨0, v.space.m⟩
    · rw [if_pos (hcond.mpr hw)]
      rw [if_pos (by rw [hw])]
      simp [seg, hw]
    · rw [if_neg (fun h => hw (hcond.mp h))]
      simp [seg, hw, subs]
  · have hnot : ∀ x ∈ a :: b :: ms, x ≠ ⟨0, v.space.m⟩ := by
      intro x hx heq
      have hdx := hne x hx
      rw [List.pairwise_cons] at hsep
      have hab := hsep.1
      rcases List.mem_cons.mp hx with rfl | hx'
      · have h1 := hab b (by simp)
        have h2 := hb b (by simp)
        have h3 := hne b (by simp)
        rw [heq] at h1; simp only at h1; omega
      · have h1 := hab x hx'
        have h2 := hb a (by simp)
        have h3 := hne a (by simp)
        rw [heq] at h1; simp only at h1; omega
    have hs := subs_map v (img (W.gR v.id)) (img (W.gT v.id)) (a :: b :: ms)
    simp only [List.map_cons] at hs ⊢
    rw [hs]
    congr 1
    have h1 := hnot a (by simp)
    have h2 := hnot b (by simp)
    simp only [seg, if_neg h1, if_neg h2, List.cons.injEq, true_and]
    apply List.map_congr_left
    intro x hx
    simp only [seg, if_neg (hnot x (by simp [hx]))]

/-! ## Invariant of the reachable states -/

structure SInv (W : World) (split : Bool) (s : VCV.State) (h : List Call) : Prop where
  splitEq : s.split = split
  sorted : s.count.Pairwise (fun a b => a.1.id < b.1.id)
  entries : ∀ p ∈ s.count, p.1 = W.root p.1.id ∧ EInv W p.1.id p.2 (proj p.1.id h)
  absent : ∀ i, (∀ p ∈ s.count, p.1.id ≠ i) → proj i h = []
  calls : ∀ v, (Call.add v ∈ h ∨ Call.remove v ∈ h) → Valid W v
  fresh : split = false → s.upToDate = true → s.variables = allItems W s.count

theorem pos_bound {W : World} {h : List Call} (hv : ∀ v, (Call.add v ∈ h ∨ Call.remove v ∈ h) → Valid W v)
    {i : Nat} {k : Int} (hk : 0 < netV h i k) : 0 ≤ k ∧ k < (W.root i).space.m := by
  induction h with
  | nil => simp [netV] at hk
  | cons c h ih =>
    have hv' : ∀ v, (Call.add v ∈ h ∨ Call.remove v ∈ h) → Valid W v := by
      intro v hh; exact hv v (by rcases hh with hh | hh <;> simp [hh])
    cases c with
    | add v =>
      simp only [netV] at hk
      by_cases hh : Has v i k
      · have hval := hv v (Or.inl (by simp))
        obtain ⟨h1, h2, h3⟩ := hh
        have h4 := hval.start_nonneg; have h5 := hval.bound; have h6 := hval.root
        rw [h1] at h6; rw [h6] at h5; omega
      · rw [if_neg hh] at hk; exact ih hv' (by omega)
    | remove v =>
      simp only [netV] at hk
      apply ih hv'
      split at hk <;> omega

theorem seg_bounds {W : World} {split : Bool} {s : VCV.State} {h : List Call} (hs : SInv W split s h)
    {p : Root × Entry} (hp : p ∈ s.count) : ∀ a ∈ (p.2.m.ranges false).2,
      0 < a.dim ∧ 0 ≤ a.start ∧ a.start + a.dim ≤ p.1.space.m := by
  intro a ha
  obtain ⟨h1, h2⟩ := hs.entries p hp
  have hc := C02.C02_ranges_exact h2.m
  have hd := hc.nonempty a ha
  have b1 := (hc.cover a.start).mp ⟨a, ha, by unfold In; omega⟩
  have b2 := (hc.cover (a.start + a.dim - 1)).mp ⟨a, ha, by unfold In; omega⟩
  simp only [net_proj] at b1 b2
  have c1 := pos_bound hs.calls b1
  have c2 := pos_bound hs.calls b2
  rw [← h1] at c1 c2
  omega

theorem entry_items {W : World} {split : Bool} {s : VCV.State} {h : List Call} (hs : SInv W split s h)
    {p : Root × Entry} (hp : p ∈ s.count) :
    itemsOf p.1 (p.2.m.ranges false).2 (p.2.r.ranges false).2 (p.2.t.ranges false).2 = some (items W p) := by
  obtain ⟨h1, h2⟩ := hs.entries p hp
  have hc := C02.C02_ranges_exact h2.m
  have hr := C02.canonical_unique (C02.C02_ranges_exact h2.r) (canonical_img (W.monoR p.1.id) hc)
  have ht := C02.canonical_unique (C02.C02_ranges_exact h2.t) (canonical_img (W.monoT p.1.id) hc)
  rw [hr, ht]
  exact itemsOf_map h1 hc.nonempty (hc.separated.imp (fun h => Int.le_of_lt h)) (fun a ha => (seg_bounds hs hp a ha).2)

/-- `ranges` does not change what `ranges(false)` returns. -/
theorem ranges_ranges {s : RC.State} {h : List C02.Call} (hR : C02.Reach s h) (b : Bool) :
    ((s.ranges b).1.ranges false).2 = (s.ranges false).2 :=
  C02.canonical_unique (C02.C02_ranges_exact (.ranges b hR)) (C02.C02_ranges_exact hR)

/-- What the loop of `update` does when it does not fail. -/
theorem updateLoop_count {W : World} {split : Bool} {h : List Call} :
    ∀ {l c vs ss}, updateLoop split l = some (c, vs, ss) →
    (∀ p ∈ l, p.1 = W.root p.1.id ∧ EInv W p.1.id p.2 (proj p.1.id h)) →
    (c.map (·.1) = l.map (·.1)) ∧
    (∀ p ∈ c, p.1 = W.root p.1.id ∧ EInv W p.1.id p.2 (proj p.1.id h)) ∧ allItems W c = allItems W l := by
  intro l
  induction l with
  | nil => intro c vs ss he _; simp only [updateLoop, Option.some.injEq, Prod.mk.injEq] at he; simp [← he.1]
  | cons p l ih =>
    intro c vs ss he hp
    obtain ⟨v, e⟩ := p
    simp only [updateLoop] at he
    split at he
    · rename_i its l' vs' ss' h1 h2
      simp only [Option.some.injEq, Prod.mk.injEq] at he
      obtain ⟨i1, i2, i3⟩ := ih h2 (fun p hp' => hp p (by simp [hp']))
      obtain ⟨j1, j2⟩ := hp (v, e) (by simp)
      rw [← he.1]
      refine ⟨by simp [i1], ?_, ?_⟩
      · intro q hq
        rcases List.mem_cons.mp hq with rfl | hq
        · exact ⟨j1, ⟨.ranges _ j2.m, .ranges _ j2.r, .ranges _ j2.t⟩⟩
        · exact i2 q hq
      · simp only [allItems, List.flatMap_cons] at i3 ⊢
        rw [i3]
        congr 1
        simp only [items]
        rw [ranges_ranges j2.m]
    · cases he

theorem updateLoop_false {W : World} : ∀ {l : List (Root × Entry)},
    (∀ p ∈ l, itemsOf p.1 (p.2.m.ranges false).2 (p.2.r.ranges false).2 (p.2.t.ranges false).2
      = some (items W p)) → ∃ c ss, updateLoop false l = some (c, allItems W l, ss) := by
  intro l
  induction l with
  | nil => intro _; exact ⟨[], [], rfl⟩
  | cons p l ih =>
    intro h
    obtain ⟨v, e⟩ := p
    obtain ⟨c, ss, h1⟩ := ih (fun p hp => h p (by simp [hp]))
    have h2 := h (v, e) (by simp)
    simp only at h2
    simp only [updateLoop, h1, h2]
    exact ⟨_, _, rfl⟩

theorem update_inv {W : World} {split : Bool} {s s' : VCV.State} {h : List Call} (hs : SInv W split s h)
    (he : s.update = some s') : SInv W split s' h := by
  unfold State.update at he
  split at he
  · simp only [Option.some.injEq] at he; subst he; exact hs
  · split at he
    · cases he
    · rename_i c vs ss hl
      simp only [Option.some.injEq] at he
      obtain ⟨h1, h2, h3⟩ := updateLoop_count (W := W) (h := h) hl hs.entries
      subst he
      refine ⟨hs.splitEq, ?_, h2, ?_, hs.calls, ?_⟩
      · have := hs.sorted
        rw [← List.pairwise_map (f := fun p : Root × Entry => p.1) (R := fun a b => a.id < b.id)] at this ⊢
        simp only
        rw [h1]; exact this
      · intro i hi
        apply hs.absent i
        intro p hp
        have : p.1 ∈ c.map (·.1) := by rw [h1]; exact List.mem_map.mpr ⟨p, hp, rfl⟩
        obtain ⟨q, hq, hq2⟩ := List.mem_map.mp this
        rw [← hq2]; exact hi q hq
      · intro hf _
        simp only
        rw [h3]
        have : split = false := hf
        have hsp := hs.splitEq
        rw [this] at hsp
        rw [hsp] at hl
        obtain ⟨c', ss', h4⟩ := updateLoop_false (W := W) (l := s.count) (fun p hp => entry_items hs hp)
        rw [h4] at hl
        simp only [Option.some.injEq, Prod.mk.injEq] at hl
        exact hl.2.1.symm

theorem proj_ne {v : Var} {i : Nat} (hi : v.root.id ≠ i) (h : List Call) :
    proj i (.add v :: h) = proj i h ∧ proj i (.remove v :: h) = proj i h := by
  simp [proj, hi]

/-- The entry used by `add`. -/
theorem find_inv {W : World} {split : Bool} {s : VCV.State} {h : List Call} (hs : SInv W split s h) (i : Nat) :
    EInv W i ((find i s.count).getD {}) (proj i h) := by
  cases hf : find i s.count with
  | none =>
    have := hs.absent i (find_none hf)
    rw [this]
    exact ⟨.init, .init, .init⟩
  | some e =>
    obtain ⟨v, h1, h2⟩ := find_some hf
    have := (hs.entries _ h2).2
    simp only [h1] at this
    exact this

/-- Writing an entry with the same ranges does not change the elements. -/
theorem allItems_put {W : World} {v : Root} {e : Entry} : ∀ {l : List (Root × Entry)},
    l.Pairwise (fun a b => a.1.id < b.1.id) →
    (e.m.ranges false).2 = (((find v.id l).getD {}).m.ranges false).2 →
    allItems W (put v e l) = allItems W l := by
  intro l
  have h0 : ((({} : Entry).m).ranges false).2 = [] := rfl
  induction l with
  | nil =>
    intro _ he
    simp only [find, Option.getD_none] at he
    rw [h0] at he
    simp [put, allItems, items, he]
  | cons q l ih =>
    intro hs he
    obtain ⟨w, x⟩ := q
    rw [List.pairwise_cons] at hs
    simp only [put]
    simp only [find] at he
    split
    · rename_i h1
      have : find v.id l = none := by
        cases hf : find v.id l with
        | none => rfl
        | some y =>
          obtain ⟨u, h2, h3⟩ := find_some hf
          have := hs.1 _ h3
          simp only at this; omega
      rw [if_neg (by omega), this] at he
      simp only [Option.getD_none] at he
      rw [h0] at he
      simp [allItems, items, he]
    · split
      · rename_i h1 h2
        rw [if_pos h2.symm] at he
        simp only [Option.getD_some] at he
        simp [allItems, items, he]
      · rename_i h1 h2
        rw [if_neg (by omega)] at he
        have := ih hs.2 he
        simp only [allItems, List.flatMap_cons] at this ⊢
        rw [this]

theorem put_inv {W : World} {split : Bool} {s : VCV.State} {h h' : List Call} (hs : SInv W split s h) {v : Var}
    (hv : Valid W v) {e : Entry} (he : EInv W v.root.id e (proj v.root.id h'))
    (hother : ∀ i, v.root.id ≠ i → proj i h' = proj i h)
    (hcalls : ∀ v, (Call.add v ∈ h' ∨ Call.remove v ∈ h') → Valid W v) {u : Bool}
    (hu : u = true → s.upToDate = true ∧
      (e.m.ranges false).2 = (((find v.root.id s.count).getD {}).m.ranges false).2) :
    SInv W split { s with count := put v.root e s.count, upToDate := u } h' := by
  refine ⟨hs.splitEq, put_sorted hs.sorted, ?_, ?_, hcalls, ?_⟩
  · intro p hp
    by_cases hid : p.1.id = v.root.id
    · rcases mem_put hp with ⟨-, h2, h3⟩ | h1
      · refine ⟨?_, ?_⟩
        · rcases h3 with h3 | ⟨x, h3⟩
          · rw [h3]; exact hv.root
          · exact (hs.entries _ h3).1
        · rw [hid, h2]; exact he
      · -- the old entry is no longer there: the keys are distinct
        obtain ⟨w, hw1, hw2⟩ := put_mem v.root e s.count
        have hsort := put_sorted (v := v.root) (e := e) hs.sorted
        have : p = (w, e) := by
          obtain ⟨i, hi1, hi2⟩ := List.getElem_of_mem hp
          obtain ⟨j, hj1, hj2⟩ := List.getElem_of_mem hw2
          have hpw := List.pairwise_iff_getElem.mp hsort
          rcases Nat.lt_trichotomy i j with hij | hij | hij
          · have := hpw i j hi1 hj1 hij; rw [hi2, hj2] at this; simp only at this; omega
          · subst hij; rw [← hi2, ← hj2]
          · have := hpw j i hj1 hi1 hij; rw [hi2, hj2] at this; simp only at this; omega
        have hr := (hs.entries p h1).1
        rw [this] at hr ⊢
        exact ⟨hr, by simp only [hw1]; exact he⟩
    · rcases mem_put hp with ⟨h1, -⟩ | h1
      · exact absurd h1 hid
      · have := hs.entries p h1
        rw [hother _ (fun h => hid h.symm)]
        exact this
  · intro i hi
    have hne : v.root.id ≠ i := by
      obtain ⟨w, hw1, hw2⟩ := put_mem v.root e s.count
      rw [← hw1]; exact hi _ hw2
    rw [hother i hne]
    apply hs.absent
    intro p hp hpi
    exact hi p (put_keep hp (by rw [hpi]; exact fun h => hne h.symm)) hpi
  · intro hf hu'
    obtain ⟨h1, h2⟩ := hu hu'
    simp only
    rw [allItems_put hs.sorted h2]
    exact hs.fresh hf h1

theorem reach_inv {W : World} {split : Bool} {s : VCV.State} {h : List Call} (hR : Reach W split s h) :
    SInv W split s h := by
  induction hR with
  | init => exact ⟨rfl, by simp, by simp, fun i _ => rfl, by simp, by simp⟩
  | @add s h v s' b _ hv he ih =>
    obtain ⟨e', b', h1, h2, h3, -, -⟩ := entry_add hv (find_inv ih v.root.id)
    unfold VCV.State.add at he
    rw [h1] at he
    simp only [Outcome.ok.injEq] at he
    obtain ⟨rfl, rfl⟩ := he
    refine put_inv ih hv (by simpa [proj] using h2) (fun i hi => (proj_ne hi h).1) ?_ ?_
    · intro w hw
      rcases hw with hw | hw
      · rcases List.mem_cons.mp hw with hw | hw
        · simp only [Call.add.injEq] at hw; rw [hw]; exact hv
        · exact ih.calls w (Or.inl hw)
      · rcases List.mem_cons.mp hw with hw | hw
        · cases hw
        · exact ih.calls w (Or.inr hw)
    · intro hu
      simp only [Bool.and_eq_true, Bool.not_eq_eq_eq_not, Bool.not_true] at hu
      refine ⟨hu.1, ?_⟩
      have h4 := mt h3.mpr (by simp [hu.2])
      simpa using h4
  | @addThrow s h v s' _ hv he ih =>
    obtain ⟨e', b', h1, h2, h3, -, -⟩ := entry_add hv (find_inv ih v.root.id)
    unfold VCV.State.add at he
    rw [h1] at he
    cases he
  | @remove s h v s' b _ hv he ih =>
    unfold VCV.State.remove at he
    cases hf : find v.root.id s.count with
    | none => rw [hf] at he; cases he
    | some e =>
      have hinv := find_inv ih v.root.id
      rw [hf] at he hinv
      simp only [Option.getD_some] at he hinv
      by_cases hc : ∃ k, In (mRange v) k ∧ net (proj v.root.id h) k = 0
      · obtain ⟨e', h1, -⟩ := entry_remove_throw hv hinv hc
        rw [h1] at he; cases he
      · obtain ⟨e', b', h1, h2, h3⟩ := entry_remove_ok hv hinv hc
        rw [h1] at he
        simp only [Outcome.ok.injEq] at he
        obtain ⟨rfl, rfl⟩ := he
        refine put_inv ih hv (by simpa [proj] using h2) (fun i hi => (proj_ne hi h).2) ?_ ?_
        · intro w hw
          rcases hw with hw | hw
          · rcases List.mem_cons.mp hw with hw | hw
            · cases hw
            · exact ih.calls w (Or.inl hw)
          · rcases List.mem_cons.mp hw with hw | hw
            · simp only [Call.remove.injEq] at hw; rw [hw]; exact hv
            · exact ih.calls w (Or.inr hw)
        · intro hu
          simp only [Bool.and_eq_true, Bool.not_eq_eq_eq_not, Bool.not_true] at hu
          refine ⟨hu.1, ?_⟩
          rw [hf]
          have h4 := mt h3.mpr (by simp [hu.2])
          simpa using h4
  | @removeThrow s h v s' _ hv he ih =>
    unfold VCV.State.remove at he
    cases hf : find v.root.id s.count with
    | none => rw [hf] at he; cases he; exact ih
    | some e =>
      have hinv := find_inv ih v.root.id
      rw [hf] at he hinv
      simp only [Option.getD_some] at he hinv
      by_cases hc : ∃ k, In (mRange v) k ∧ net (proj v.root.id h) k = 0
      · obtain ⟨e', h1, h2, h3, -⟩ := entry_remove_throw hv hinv hc
        rw [h1] at he
        simp only [Outcome.throw.injEq] at he
        subst he
        refine put_inv ih hv h2 (fun i hi => rfl) ih.calls ?_
        intro hu
        refine ⟨hu, ?_⟩
        rw [hf, h3]; rfl
      · obtain ⟨e', b', h1, -⟩ := entry_remove_ok hv hinv hc
        rw [h1] at he; cases he
  | @variables s h s' l _ he ih =>
    unfold State.getVariables at he
    split at he
    · cases he
    · rename_i s'' hu
      simp only [Outcome.ok.injEq] at he
      rw [← he.1]; exact update_inv ih hu
  | @simple s h s' l _ he ih =>
    unfold State.getSimple at he
    split at he
    · cases he
    · split at he
      · cases he
      · rename_i s'' hu
        simp only [Outcome.ok.injEq] at he
        rw [← he.1]; exact update_inv ih hu
  | @clear s h _ ih =>
    exact ⟨ih.splitEq, by simp [VCV.State.clear], by simp [VCV.State.clear], fun i _ => rfl, by simp,
      by simp [VCV.State.clear]⟩

/-- In every reachable non-split state `variables()` returns the elements for the current counters. -/
theorem variables_eq {W : World} {s : VCV.State} {h : List Call} (hR : Reach W false s h) :
    ∃ s', s.getVariables = .ok s' (allItems W s.count) := by
  have hs := reach_inv hR
  unfold State.getVariables State.update
  cases hu : s.upToDate with
  | true =>
    simp only [if_true]
    exact ⟨s, by rw [hs.fresh rfl hu]⟩
  | false =>
    obtain ⟨c, ss, h1⟩ := updateLoop_false (W := W) (l := s.count) (fun p hp => entry_items hs hp)
    simp only [Bool.false_eq_true, if_false]
    rw [hs.splitEq, h1]
    exact ⟨_, rfl⟩

theorem seg_var {W : World} {v : Root} (hv : v = W.root v.id) {a : Range} (hd : 0 < a.dim) (h0 : 0 ≤ a.start)
    (hb : a.start + a.dim ≤ v.space.m) :
    Valid W (seg W v a).var ∧ (seg W v a).var.root = v ∧ (seg W v a).var.start.m = a.start ∧
      (seg W v a).var.dim.m = a.dim ∧ (a.dim = v.space.m → seg W v a = .whole v) := by
  unfold seg
  have hfullR := W.fullR v.id; have hfullT := W.fullT v.id
  rw [← hv] at hfullR hfullT
  split
  · rename_i h
    subst h
    refine ⟨⟨hv, ?_, ?_, ?_, ?_, ?_, ?_, ?_⟩, rfl, rfl, rfl, fun _ => rfl⟩
    all_goals simp only [Item.var] at *
    · omega
    · omega
    · omega
    · rw [W.zeroR]
    · simp only [Int.zero_add, hfullR]
    · rw [W.zeroT]
    · simp only [Int.zero_add, hfullT]
  · rename_i hne
    refine ⟨⟨hv, ?_, ?_, ?_, ?_, ?_, ?_, ?_⟩, rfl, rfl, rfl, ?_⟩
    all_goals simp only [Item.var, img] at *
    · omega
    · omega
    · omega
    · omega
    · omega
    · intro hda
      exfalso; apply hne
      obtain ⟨x, y⟩ := a
      simp only at *
      simp only [Range.mk.injEq]; omega

theorem lists_allItems {W : World} {split : Bool} {s : VCV.State} {h : List Call} (hs : SInv W split s h) :
    Lists W h (allItems W s.count) := by
  have hmem : ∀ x ∈ allItems W s.count, ∃ p ∈ s.count, ∃ a ∈ (p.2.m.ranges false).2, x = seg W p.1 a := by
    intro x hx
    simp only [allItems, List.mem_flatMap] at hx
    obtain ⟨p, hp, hx⟩ := hx
    obtain ⟨a, ha, rfl⟩ := List.mem_map.mp hx
    exact ⟨p, hp, a, ha, rfl⟩
  have hvar : ∀ p ∈ s.count, ∀ a ∈ (p.2.m.ranges false).2, Valid W (seg W p.1 a).var ∧
      (seg W p.1 a).var.root = p.1 ∧ (seg W p.1 a).var.start.m = a.start ∧
      (seg W p.1 a).var.dim.m = a.dim ∧ (a.dim = p.1.space.m → seg W p.1 a = .whole p.1) := by
    intro p hp a ha
    obtain ⟨h1, h2, h3⟩ := seg_bounds hs hp a ha
    exact seg_var (hs.entries p hp).1 h1 h2 h3
  refine ⟨?_, ?_, ?_, ?_, ?_⟩
  · intro x hx
    obtain ⟨p, hp, a, ha, rfl⟩ := hmem x hx
    exact (hvar p hp a ha).1
  · intro x hx
    obtain ⟨p, hp, a, ha, rfl⟩ := hmem x hx
    rw [(hvar p hp a ha).2.2.2.1]
    exact (seg_bounds hs hp a ha).1
  · have hso := hs.sorted
    have hsub : ∀ p ∈ s.count, p ∈ s.count := fun p hp => hp
    revert hso hsub
    generalize hL : s.count = L at *
    have key : ∀ M : List (Root × Entry), M.Pairwise (fun a b => a.1.id < b.1.id) → (∀ p ∈ M, p ∈ L) →
        (allItems W M).Pairwise (fun a b => a.var.root.id < b.var.root.id ∨
          (a.var.root = b.var.root ∧ a.var.start.m + a.var.dim.m < b.var.start.m)) := by
      intro M
      induction M with
      | nil => intro _ _; simp [allItems]
      | cons p M ih =>
        intro h1 h2
        rw [List.pairwise_cons] at h1
        simp only [allItems, List.flatMap_cons]
        rw [List.pairwise_append]
        refine ⟨?_, ih h1.2 (fun q hq => h2 q (by simp [hq])), ?_⟩
        · simp only [items]
          rw [List.pairwise_map]
          have hp := h2 p (by simp)
          have hc := (C02.C02_ranges_exact (hs.entries p (by rw [hL]; exact hp)).2.m).separated
          refine List.Pairwise.imp_of_mem ?_ hc
          intro a b ha hb hab
          obtain ⟨-, a1, a2, a3, -⟩ := hvar p hp a ha
          obtain ⟨-, b1, b2, b3, -⟩ := hvar p hp b hb
          right
          rw [a1, b1, a2, a3, b2]
          exact ⟨rfl, hab⟩
        · intro x hx y hy
          obtain ⟨a, ha, rfl⟩ := List.mem_map.mp hx
          obtain ⟨q, hq, hy⟩ := List.mem_flatMap.mp hy
          obtain ⟨b, hb, rfl⟩ := List.mem_map.mp hy
          left
          rw [(hvar p (h2 p (by simp)) a ha).2.1, (hvar q (h2 q (by simp [hq])) b hb).2.1]
          exact h1.1 q hq
    intro h1 h2
    exact key L h1 h2
  · intro i k
    constructor
    · rintro ⟨x, hx, hh⟩
      obtain ⟨p, hp, a, ha, rfl⟩ := hmem x hx
      obtain ⟨-, h1, h2, h3, -⟩ := hvar p hp a ha
      obtain ⟨k1, k2, k3⟩ := hh
      rw [h1] at k1
      rw [h2] at k2 k3
      rw [h3] at k3
      have hc := C02.C02_ranges_exact (hs.entries p hp).2.m
      have := (hc.cover k).mp ⟨a, ha, k2, k3⟩
      rw [net_proj, k1] at this
      exact this
    · intro hk
      have : ∃ p ∈ s.count, p.1.id = i := by
        apply Classical.byContradiction
        intro hne
        have := hs.absent i (fun p hp hpi => hne ⟨p, hp, hpi⟩)
        rw [← net_proj, this] at hk
        simp [net] at hk
      obtain ⟨p, hp, rfl⟩ := this
      have hc := C02.C02_ranges_exact (hs.entries p hp).2.m
      obtain ⟨a, ha, hin⟩ := (hc.cover k).mpr (by rw [net_proj]; exact hk)
      obtain ⟨-, h1, h2, h3, -⟩ := hvar p hp a ha
      refine ⟨seg W p.1 a, ?_, ?_⟩
      · simp only [allItems, List.mem_flatMap]
        exact ⟨p, hp, List.mem_map.mpr ⟨a, ha, rfl⟩⟩
      · unfold Has
        rw [h1, h2, h3]
        exact ⟨rfl, hin.1, hin.2⟩
  · intro x hx
    obtain ⟨p, hp, a, ha, rfl⟩ := hmem x hx
    obtain ⟨-, h1, h2, h3, h4⟩ := hvar p hp a ha
    rw [h1, h3]; exact h4

/-! ## Properties -/

/-- **C07** After any history of calls, `variables()` does not fail and returns exactly the maximal segments of
variables that are still in use, whatever queries were made in between. -/
theorem C07_variables_exact {W : World} {s : VCV.State} {h : List Call} (hR : Reach W false s h) :
    ∃ s' l, s.getVariables = .ok s' l ∧ Lists W h l := by
  obtain ⟨s', h1⟩ := variables_eq hR
  exact ⟨s', _, h1, lists_allItems (reach_inv hR)⟩

/-- **C07** The list tells which coordinates are in use: histories with the same list use the same coordinates. -/
theorem C07_lists_cover_unique {W : World} {h h' : List Call} {l : List Item} (h1 : Lists W h l) (h2 : Lists W h' l) :
    ∀ i k, 0 < netV h i k ↔ 0 < netV h' i k := by
  intro i k; rw [← h1.cover, h2.cover]

/-- **C07** `add` never fails and returns `true` iff it changes the list returned by `variables()`. -/
theorem C07_add_flag {W : World} {s : VCV.State} {h : List Call} (hR : Reach W false s h) {v : Var}
    (hv : Valid W v) : ∃ s' b s1 l s2 l', s.add v = .ok s' b ∧ s.getVariables = .ok s1 l ∧
      s'.getVariables = .ok s2 l' ∧ (b = true ↔ l' ≠ l) := by
  have ih := reach_inv hR
  obtain ⟨e', b, h1, h2, h3, -, -⟩ := entry_add hv (find_inv ih v.root.id)
  have he : s.add v = .ok { s with count := put v.root e' s.count, upToDate := s.upToDate && !b } b := by
    unfold VCV.State.add; rw [h1]
  have hR' := Reach.add hR hv he
  have ih' := reach_inv hR'
  obtain ⟨s1, hs1⟩ := variables_eq hR
  obtain ⟨s2, hs2⟩ := variables_eq hR'
  refine ⟨_, b, s1, _, s2, _, he, hs1, hs2, ?_⟩
  rw [h3]
  simp only
  constructor
  · intro hne heq
    apply hne
    have c1 := C02.C02_ranges_exact h2.m
    have c0 := C02.C02_ranges_exact (find_inv ih v.root.id).m
    refine C02.canonical_unique c1 ⟨c0.nonempty, c0.separated, fun k => ?_⟩
    rw [c0.cover k]
    have l1 := lists_allItems ih
    have l2 := lists_allItems ih'
    simp only at l2
    rw [heq] at l2
    have := (l1.cover v.root.id k).symm.trans (l2.cover v.root.id k)
    rw [← net_proj, ← net_proj] at this
    simpa [proj] using this
  · intro hne heq
    exact hne (allItems_put ih.sorted heq)

/-- **C07** `remove` of a non-empty variable throws iff some of its coordinates is not in use; otherwise it returns
`true` iff it changes the list returned by `variables()`. -/
theorem C07_remove_flag {W : World} {s : VCV.State} {h : List Call} (hR : Reach W false s h) {v : Var}
    (hv : Valid W v) (hd : 0 < v.dim.m) :
    ((∃ k, Has v v.root.id k ∧ netV h v.root.id k = 0) ∧ ∃ s', s.remove v = .throw s') ∨
    ((∀ k, Has v v.root.id k → 0 < netV h v.root.id k) ∧
      ∃ s' b s1 l s2 l', s.remove v = .ok s' b ∧ s.getVariables = .ok s1 l ∧
      s'.getVariables = .ok s2 l' ∧ (b = true ↔ l' ≠ l)) := by
  have ih := reach_inv hR
  by_cases hc : ∃ k, Has v v.root.id k ∧ netV h v.root.id k = 0
  · left
    refine ⟨hc, ?_⟩
    unfold VCV.State.remove
    cases hf : find v.root.id s.count with
    | none => exact ⟨s, rfl⟩
    | some e =>
      have hinv := find_inv ih v.root.id
      rw [hf] at hinv
      simp only [Option.getD_some] at hinv
      obtain ⟨k, hk1, hk2⟩ := hc
      obtain ⟨e', h1, -⟩ := entry_remove_throw hv hinv ⟨k, ⟨hk1.2.1, hk1.2.2⟩, by rw [net_proj]; exact hk2⟩
      simp only
      rw [h1]
      exact ⟨_, rfl⟩
  · right
    have hinv := find_inv ih v.root.id
    have hc' : ¬ ∃ k, In (mRange v) k ∧ net (proj v.root.id h) k = 0 := by
      rintro ⟨k, hk1, hk2⟩
      exact hc ⟨k, ⟨rfl, hk1.1, hk1.2⟩, by rw [← net_proj]; exact hk2⟩
    have hpos : ∀ k, Has v v.root.id k → 0 < netV h v.root.id k := by
      intro k hk
      have h1 : netV h v.root.id k ≠ 0 := fun h0 => hc ⟨k, hk, h0⟩
      have h2 := C02.C02_net_nonneg hinv.m k
      rw [net_proj] at h2
      omega
    refine ⟨hpos, ?_⟩
    cases hf : find v.root.id s.count with
    | none =>
      exfalso
      have h1 := hpos v.start.m ⟨rfl, by omega, by omega⟩
      have h2 := ih.absent _ (find_none hf)
      rw [← net_proj, h2] at h1
      simp [net] at h1
    | some e =>
      rw [hf] at hinv
      simp only [Option.getD_some] at hinv
      obtain ⟨e', b, h1, h2, h3⟩ := entry_remove_ok hv hinv hc'
      have he : s.remove v = .ok { s with count := put v.root e' s.count, upToDate := s.upToDate && !b } b := by
        unfold VCV.State.remove; rw [hf]; simp only; rw [h1]
      have hR' := Reach.remove hR hv he
      have ih' := reach_inv hR'
      obtain ⟨s1, hs1⟩ := variables_eq hR
      obtain ⟨s2, hs2⟩ := variables_eq hR'
      refine ⟨_, b, s1, _, s2, _, he, hs1, hs2, ?_⟩
      rw [h3]
      simp only
      constructor
      · intro hne heq
        apply hne
        have c1 := C02.C02_ranges_exact h2.m
        have c0 := C02.C02_ranges_exact hinv.m
        refine C02.canonical_unique c1 ⟨c0.nonempty, c0.separated, fun k => ?_⟩
        rw [c0.cover k]
        have l1 := lists_allItems ih
        have l2 := lists_allItems ih'
        simp only at l2
        rw [heq] at l2
        have := (l1.cover v.root.id k).symm.trans (l2.cover v.root.id k)
        rw [← net_proj, ← net_proj] at this
        simpa [proj] using this
      · intro hne heq
        exact hne (allItems_put ih.sorted (by rw [hf]; exact heq))

/-- **C07/C05** `isDisjointUnion` says whether no coordinate is in use more than once. -/
theorem C07_isDisjointUnion {W : World} {split : Bool} {s : VCV.State} {h : List Call} (hR : Reach W split s h) :
    s.isDisjointUnion = true ↔ ∀ i k, netV h i k ≤ 1 := by
  have hs := reach_inv hR
  unfold State.isDisjointUnion
  rw [List.all_eq_true]
  constructor
  · intro hall i k
    by_cases hp : ∃ p ∈ s.count, p.1.id = i
    · obtain ⟨p, hp, rfl⟩ := hp
      have h1 := hall p hp
      simp only [Bool.not_eq_eq_eq_not, Bool.not_true, decide_eq_false_iff_not] at h1
      have h2 := (C02.C05_maxCount (hs.entries p hp).2.m).1 k
      rw [net_proj] at h2
      omega
    · have := hs.absent i (fun p hp' hpi => hp ⟨p, hp', hpi⟩)
      rw [← net_proj, this]; simp [net]
  · intro hall p hp
    simp only [Bool.not_eq_eq_eq_not, Bool.not_true, decide_eq_false_iff_not]
    obtain ⟨k, hk⟩ := (C02.C05_maxCount (hs.entries p hp).2.m).2
    have := hall p.1.id k
    rw [net_proj] at hk
    omega

/-! ## Non-vacuity -/

/-- A Euclidean variable `0` of size 8 and variables `i > 0` on a manifold with sizes (6, 7, 6) made of a Euclidean part
(3, 3, 3) followed by a rotation (3, 4, 3). -/
def exWorld : World where
  root i := if i = 0 then ⟨i, ⟨8, 8, 8⟩, true⟩ else ⟨i, ⟨6, 7, 6⟩, true⟩
  root_id i := by split <;> rfl
  gR i k := if i = 0 then k else if k ≤ 3 then k else k + 1
  gT _ k := k
  monoR i a b h := by dsimp only; repeat' split
                      all_goals omega
  monoT i a b h := h
  zeroR i := by split <;> rfl
  zeroT i := rfl
  fullR i := by split <;> rfl
  fullT i := by split <;> rfl

def exX (a d : Int) : Var := ⟨exWorld.root 0, ⟨a, a, a⟩, ⟨d, d, d⟩⟩
/-- the rotation part of variable 1 -/
def exRot : Var := ⟨exWorld.root 1, ⟨3, 3, 3⟩, ⟨3, 4, 3⟩⟩
def exTr : Var := ⟨exWorld.root 1, ⟨0, 0, 0⟩, ⟨3, 3, 3⟩⟩

theorem exX_valid (a d : Int) (h1 : 0 ≤ a) (h2 : 0 ≤ d) (h3 : a + d ≤ 8) : Valid exWorld (exX a d) :=
  ⟨rfl, h1, h2, h3, rfl, rfl, rfl, rfl⟩
theorem exRot_valid : Valid exWorld exRot := ⟨rfl, by decide, by decide, by decide, rfl, rfl, rfl, rfl⟩
theorem exTr_valid : Valid exWorld exTr := ⟨rfl, by decide, by decide, by decide, rfl, rfl, rfl, rfl⟩

/-- A sequence of calls, for the examples. -/
def run : VCV.State → List Call → Option VCV.State
  | s, [] => some s
  | s, .add v :: l => match s.add v with
    | .ok s' _ => run s' l
    | _ => none
  | s, .remove v :: l => match s.remove v with
    | .ok s' _ => run s' l
    | _ => none

theorem reach_run {W : World} {split : Bool} : ∀ {l : List Call} {s s' : VCV.State} {h : List Call},
    Reach W split s h → run s l = some s' →
    (∀ v, (Call.add v ∈ l ∨ Call.remove v ∈ l) → Valid W v) → Reach W split s' (l.reverse ++ h) := by
  intro l
  induction l with
  | nil => intro s s' h hR he _; simp only [run, Option.some.injEq] at he; subst he; simpa using hR
  | cons c l ih =>
    intro s s' h hR he hd
    have hd' : ∀ v, (Call.add v ∈ l ∨ Call.remove v ∈ l) → Valid W v := by
      intro v hv; exact hd v (by rcases hv with hv | hv <;> simp [hv])
    cases c with
    | add r =>
      simp only [run] at he
      split at he
      · rename_i s1 b hs1
        have := ih (Reach.add hR (hd r (by simp)) hs1) he hd'
        simpa using this
      · cases he
    | remove r =>
      simp only [run] at he
      split at he
      · rename_i s1 b hs1
        have := ih (Reach.remove hR (hd r (by simp)) hs1) he hd'
        simpa using this
      · cases he

def exHistory : List Call :=
  [.add (exX 0 5), .add exRot, .add (exX 3 5), .remove (exX 0 2), .add exTr, .remove (exX 3 2)]

/-- A history with overlapping parts, removals and two variables, one of which is not Euclidean. -/
example : ∃ s, Reach exWorld false s exHistory.reverse ∧
    (∃ s', s.getVariables = .ok s' [.sub (exWorld.root 0) ⟨6, 6, 6⟩ ⟨2, 2, 2⟩, .whole (exWorld.root 1)]) := by
  refine ⟨(run {} exHistory).get (by decide), ?_, ?_⟩
  · have := reach_run (W := exWorld) (split := false) (l := exHistory) Reach.init (Option.some_get (by decide)).symm (by
      intro v hv
      simp only [exHistory, List.mem_cons, List.not_mem_nil, or_false, Call.add.injEq, Call.remove.injEq,
        reduceCtorEq, false_or] at hv
      rcases hv with (rfl | rfl | rfl | rfl) | (rfl | rfl)
      · exact exX_valid 0 5 (by decide) (by decide) (by decide)
      · exact exRot_valid
      · exact exX_valid 3 5 (by decide) (by decide) (by decide)
      · exact exTr_valid
      · exact exX_valid 0 2 (by decide) (by decide) (by decide)
      · exact exX_valid 3 2 (by decide) (by decide) (by decide))
    simpa using this
  · exact ⟨_, rfl⟩

/-- The state after the history of the example. -/
def exState : VCV.State := (run {} exHistory).get (by decide)

theorem ex_reach : Reach exWorld false exState exHistory.reverse := by
  have := reach_run (W := exWorld) (split := false) (l := exHistory) Reach.init (Option.some_get (by decide)).symm (by
    intro v hv
    simp only [exHistory, List.mem_cons, List.not_mem_nil, or_false, Call.add.injEq, Call.remove.injEq,
      reduceCtorEq, false_or] at hv
    rcases hv with (rfl | rfl | rfl | rfl) | (rfl | rfl)
    · exact exX_valid 0 5 (by decide) (by decide) (by decide)
    · exact exRot_valid
    · exact exX_valid 3 5 (by decide) (by decide) (by decide)
    · exact exTr_valid
    · exact exX_valid 0 2 (by decide) (by decide) (by decide)
    · exact exX_valid 3 2 (by decide) (by decide) (by decide))
  simpa [exState] using this

-- each theorem applied to that state
example : ∃ s' l, exState.getVariables = .ok s' l ∧ Lists exWorld exHistory.reverse l := C07_variables_exact ex_reach
example : ∃ l, Lists exWorld exHistory.reverse l ∧ ∀ i k, 0 < netV exHistory.reverse i k ↔ 0 < netV exHistory.reverse i k := by
  obtain ⟨_, l, _, h⟩ := C07_variables_exact ex_reach
  exact ⟨l, h, C07_lists_cover_unique h h⟩
example : ∃ s' b s1 l s2 l', exState.add (exX 0 5) = .ok s' b ∧ exState.getVariables = .ok s1 l ∧
    s'.getVariables = .ok s2 l' ∧ (b = true ↔ l' ≠ l) :=
  C07_add_flag ex_reach (exX_valid 0 5 (by decide) (by decide) (by decide))
-- the first coordinates were removed already: the removal throws
example : ∃ s', exState.remove (exX 0 5) = .throw s' := by
  rcases C07_remove_flag ex_reach (exX_valid 0 5 (by decide) (by decide) (by decide)) (by decide) with h | h
  · exact h.2
  · obtain ⟨s', b, _, _, _, _, h, _⟩ := h.2
    have : ¬ ∃ s' b, exState.remove (exX 0 5) = .ok s' b := by
      rintro ⟨s', b, h⟩
      have e : (match exState.remove (exX 0 5) with | .ok _ _ => true | _ => false) = false := by decide
      rw [h] at e; cases e
    exact absurd ⟨s', b, h⟩ this
-- the rotation part can be removed and the variables change
example : ∃ s', exState.remove exRot = .ok s' true := ⟨_, rfl⟩
example : ∃ k, Has exRot exRot.root.id k ∧ 0 < netV exHistory.reverse exRot.root.id k := by
  rcases C07_remove_flag ex_reach exRot_valid (by decide) with h | h
  · obtain ⟨s', h⟩ := h.2
    have e : (match exState.remove exRot with | .throw _ => true | _ => false) = false := by decide
    rw [h] at e; cases e
  · refine ⟨3, ?_, h.1 3 ?_⟩ <;> simp [Has, exRot]
example : ∀ i k, netV exHistory.reverse i k ≤ 1 := (C07_isDisjointUnion ex_reach).1 (by decide)

end Verif.C07
