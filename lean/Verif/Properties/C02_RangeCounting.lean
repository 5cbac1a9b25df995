import Verif.Lemmas.RangeCounting4
/-!
# C02–C06: `RangeCounting` counts integers

Properties of `tvm::internal::RangeCounting` for every history of calls.
-/
set_option autoImplicit false

namespace Verif.C02
open Verif Verif.RC

/-! ## Specification

A history is the list of the calls to `add` and `remove` that returned (latest first). It says how many times
an integer is covered; nothing here refers to the representation by limits. -/

inductive Call where
  | add (r : Range)
  | remove (r : Range)
deriving Repr, DecidableEq

/-- `k` is an integer of the range `r`. -/
def In (r : Range) (k : Int) : Prop := r.start ≤ k ∧ k < r.start + r.dim

instance (r k) : Decidable (In r k) := inferInstanceAs (Decidable (_ ∧ _))

/-- Number of times `k` was added minus number of times it was removed. -/
def net : List Call → Int → Int
  | [], _ => 0
  | .add r :: h, k => net h k + if In r k then 1 else 0
  | .remove r :: h, k => net h k - if In r k then 1 else 0

/-- `rs` is the list of the maximal intervals of the set `S`, in increasing order. -/
structure Canonical (rs : List Range) (S : Int → Prop) : Prop where
  nonempty : ∀ r ∈ rs, 0 < r.dim
  /-- increasing order, with a gap of at least one integer between consecutive intervals -/
  separated : rs.Pairwise (fun a b => a.start + a.dim < b.start)
  cover : ∀ k, (∃ r ∈ rs, In r k) ↔ S k

/-- The object can be in state `s` after the calls `h` returned, interleaved with any number of calls that
threw and of calls to the queries. Ranges have a non-negative dimension (assertion of the constructor). -/
inductive Reach : State → List Call → Prop where
  | init : Reach State.init []
  | add {s h r s' b} : Reach s h → 0 ≤ r.dim → s.add r = .ok s' b → Reach s' (.add r :: h)
  | addThrow {s h r s'} : Reach s h → 0 ≤ r.dim → s.add r = .throw s' → Reach s' h
  | remove {s h r s' b} : Reach s h → 0 ≤ r.dim → s.remove r = .ok s' b → Reach s' (.remove r :: h)
  | removeThrow {s h r s'} : Reach s h → 0 ≤ r.dim → s.remove r = .throw s' → Reach s' h
  | ranges {s h} (split : Bool) : Reach s h → Reach (s.ranges split).1 h

/-- The history has no `remove`. -/
def AddOnly (h : List Call) : Prop := ∀ c ∈ h, ∃ r, c = .add r

/-- `i` is the beginning or the end of a range of the history. -/
def EndPoint (h : List Call) (i : Int) : Prop :=
  ∃ r, (Call.add r ∈ h ∨ Call.remove r ∈ h) ∧ 0 < r.dim ∧ (i = r.start ∨ i = r.start + r.dim)

/-! ## Invariant of the reachable states -/

/-- Validity of the lazily evaluated members. -/
def CacheOk (s : State) : Prop :=
  s.recompute = false → s.recomputeSplit = false → s.limits = [] ∧ s.intervals = []

structure RInv (s : State) (h : List Call) : Prop where
  inv : Inv s.limits
  cnt : ∀ k, cnt s.limits k = net h k
  cache : CacheOk s
  pos : ∀ x ∈ s.limits, EndPoint h x.i
  keep : AddOnly h → ∀ i, EndPoint h i → ∃ x ∈ s.limits, x.i = i

theorem in_iff (r : Range) (k : Int) : In r k ↔ r.start ≤ k ∧ k < r.stop := Iff.rfl

theorem add_zero {s : State} {r : Range} (hr : r.dim = 0) : s.add r = .ok s false := by
  unfold State.add; rw [if_pos hr]

theorem remove_zero {s : State} {r : Range} (hr : r.dim = 0) : s.remove r = .ok s false := by
  unfold State.remove; rw [if_pos hr]

theorem not_in_zero {r : Range} (hr : r.dim = 0) (k : Int) : ¬ In r k := by
  unfold In; omega

theorem endPoint_cons {c : Call} {h : List Call} {i : Int} (hi : EndPoint h i) : EndPoint (c :: h) i := by
  obtain ⟨r, h1, h2⟩ := hi
  exact ⟨r, by rcases h1 with h | h <;> simp [h], h2⟩

theorem reach_inv {s : State} {h : List Call} (hR : Reach s h) : RInv s h := by
  induction hR with
  | init => exact ⟨Inv.nil, by simp [State.init, net], fun _ _ => ⟨rfl, rfl⟩, by simp [State.init],
      by rintro - i ⟨r, h, -⟩; simp at h⟩
  | @add s h r s' b _ hr he ih =>
    by_cases h0 : r.dim = 0
    · rw [add_zero h0] at he
      cases he
      refine ⟨ih.inv, ?_, ih.cache, fun x hx => endPoint_cons (ih.pos x hx), ?_⟩
      · intro k; rw [ih.cnt]; simp [net, not_in_zero h0]
      · intro ha i hi
        apply ih.keep (fun c hc => ha c (by simp [hc]))
        obtain ⟨r', h1, h2⟩ := hi
        refine ⟨r', ?_, h2⟩
        rcases h1 with h1 | h1
        · rcases List.mem_cons.mp h1 with h1 | h1
          · simp only [Call.add.injEq] at h1; subst h1; omega
          · exact Or.inl h1
        · rcases List.mem_cons.mp h1 with h1 | h1
          · cases h1
          · exact Or.inr h1
    · obtain ⟨L', change, he', hspec⟩ := add_spec s r ih.inv (by omega)
      rw [he'] at he
      cases he
      refine ⟨hspec.inv, ?_, (by intro _ h2; cases h2), ?_, ?_⟩
      · intro k
        simp only [hspec.cnt, ih.cnt, net, in_iff]
      · intro x hx
        rcases hspec.pos x hx with h1 | h1 | ⟨y, hy, h1⟩
        · exact ⟨r, by simp, by omega, Or.inl h1⟩
        · exact ⟨r, by simp, by omega, Or.inr h1⟩
        · rw [← h1]; exact endPoint_cons (ih.pos y hy)
      · intro ha i hi
        obtain ⟨r', h1, h2, h3⟩ := hi
        have hmem : r' = r ∨ (Call.add r' ∈ h ∨ Call.remove r' ∈ h) := by
          rcases h1 with h1 | h1
          · rcases List.mem_cons.mp h1 with h1 | h1
            · left; simpa using h1
            · exact Or.inr (Or.inl h1)
          · rcases List.mem_cons.mp h1 with h1 | h1
            · cases h1
            · exact Or.inr (Or.inr h1)
        rcases hmem with rfl | hmem
        · rcases h3 with rfl | rfl
          · exact hspec.start
          · exact hspec.stop
        · obtain ⟨x, hx, hxi⟩ := ih.keep (fun c hc => ha c (by simp [hc])) i ⟨r', hmem, h2, h3⟩
          obtain ⟨y, hy, hyi⟩ := hspec.keep x hx
          exact ⟨y, hy, by omega⟩
  | @addThrow s h r s' _ hr he ih =>
    by_cases h0 : r.dim = 0
    · rw [add_zero h0] at he; cases he
    · obtain ⟨L', change, he', -⟩ := add_spec s r ih.inv (by omega)
      rw [he'] at he; cases he
  | @remove s h r s' b _ hr he ih =>
    have hna : ¬ AddOnly (Call.remove r :: h) := by
      intro ha; obtain ⟨r', h'⟩ := ha (.remove r) (by simp); cases h'
    by_cases h0 : r.dim = 0
    · rw [remove_zero h0] at he
      cases he
      refine ⟨ih.inv, ?_, ih.cache, fun x hx => endPoint_cons (ih.pos x hx), fun ha => absurd ha hna⟩
      intro k; rw [ih.cnt]; simp [net, not_in_zero h0]
    · have hs := remove_spec s r ih.inv (by omega)
      by_cases hc : ∀ k, r.start ≤ k → k < r.stop → 1 ≤ RC.cnt s.limits k
      · obtain ⟨L', change, he', hspec⟩ := hs.1 hc
        rw [he'] at he
        cases he
        refine ⟨hspec.inv, ?_, (by intro _ h2; cases h2), ?_, fun ha => absurd ha hna⟩
        · intro k
          simp only [hspec.cnt, ih.cnt, net, in_iff]
        · intro x hx
          rcases hspec.pos x hx with h1 | h1 | ⟨y, hy, h1⟩
          · exact ⟨r, by simp, by omega, Or.inl h1⟩
          · exact ⟨r, by simp, by omega, Or.inr h1⟩
          · rw [← h1]; exact endPoint_cons (ih.pos y hy)
      · have : ∃ k, r.start ≤ k ∧ k < r.stop ∧ RC.cnt s.limits k = 0 := by
          apply Classical.byContradiction
          intro hne
          apply hc
          intro k h1 h2
          have h3 := ih.inv.nonneg k
          by_cases h4 : RC.cnt s.limits k = 0
          · exact absurd ⟨k, h1, h2, h4⟩ hne
          · omega
        obtain ⟨b', hb', -⟩ := hs.2 this
        rw [hb'] at he; cases he
  | @removeThrow s h r s' _ hr he ih =>
    by_cases h0 : r.dim = 0
    · rw [remove_zero h0] at he; cases he
    · have hs := remove_spec s r ih.inv (by omega)
      by_cases hc : ∀ k, r.start ≤ k → k < r.stop → 1 ≤ RC.cnt s.limits k
      · obtain ⟨L', change, he', hspec⟩ := hs.1 hc
        rw [he'] at he; cases he
      · have : ∃ k, r.start ≤ k ∧ k < r.stop ∧ RC.cnt s.limits k = 0 := by
          apply Classical.byContradiction
          intro hne
          apply hc
          intro k h1 h2
          have h3 := ih.inv.nonneg k
          by_cases h4 : RC.cnt s.limits k = 0
          · exact absurd ⟨k, h1, h2, h4⟩ hne
          · omega
        obtain ⟨b', hb', hb⟩ := hs.2 this
        rw [hb'] at he
        cases he
        refine ⟨ih.inv, ih.cnt, ?_, ih.pos, ih.keep⟩
        intro h1 h2
        refine ih.cache h1 ?_
        simp only at h2
        cases hrs : s.recomputeSplit
        · rfl
        · rw [hb hrs] at h2; cases h2
  | @ranges s h split _ ih =>
    unfold State.ranges
    split
    · exact ih
    · split
      · rename_i hl
        exact ⟨ih.inv, ih.cnt, fun _ _ => ⟨hl, rfl⟩, ih.pos, ih.keep⟩
      · split
        · exact ⟨ih.inv, ih.cnt, (fun h => by cases h), ih.pos, ih.keep⟩
        · exact ⟨ih.inv, ih.cnt, (fun _ h => by cases h), ih.pos, ih.keep⟩

/-- Whatever the state of the lazily evaluated members, `ranges` returns what the limits say. -/
theorem ranges_eq {s : State} (hc : CacheOk s) (split : Bool) :
    (s.ranges split).2 = if split then splitRanges s.limits else mergedRanges s.limits := by
  unfold State.ranges
  by_cases h : (!s.recompute && !s.recomputeSplit) = true
  · rw [if_pos h]
    simp only [Bool.and_eq_true, Bool.not_eq_eq_eq_not, Bool.not_true] at h
    obtain ⟨h1, h2⟩ := hc h.1 h.2
    simp only [h1, h2]
    cases split <;> simp [splitRanges, mergedRanges, mergeLoop]
  · rw [if_neg h]
    by_cases hl : s.limits = []
    · rw [if_pos hl, hl]
      cases split <;> simp [splitRanges, mergedRanges, mergeLoop]
    · rw [if_neg hl]
      cases split <;> simp

/-- A set has only one list of maximal intervals. -/
theorem canonical_unique {S : Int → Prop} : ∀ {a b : List Range}, Canonical a S → Canonical b S → a = b := by
  intro a
  induction a generalizing S with
  | nil =>
    intro b ha hb
    rcases b with _ | ⟨r, b⟩
    · rfl
    · exfalso
      have h1 := hb.nonempty r (by simp)
      obtain ⟨r', h2, -⟩ := (ha.cover r.start).mpr ((hb.cover r.start).mp ⟨r, by simp, by unfold In; omega⟩)
      simp at h2
  | cons x a ih =>
    intro b ha hb
    rcases b with _ | ⟨y, b⟩
    · exfalso
      have h1 := ha.nonempty x (by simp)
      obtain ⟨r', h2, -⟩ := (hb.cover x.start).mpr ((ha.cover x.start).mp ⟨x, by simp, by unfold In; omega⟩)
      simp at h2
    · have hax := ha.nonempty x (by simp)
      have hby := hb.nonempty y (by simp)
      have hsa := ha.separated
      have hsb := hb.separated
      rw [List.pairwise_cons] at hsa hsb
      -- members of the tails start after the end of the first
      have mem_a : ∀ k, (∃ r ∈ x :: a, In r k) ↔ In x k ∨ (x.start + x.dim < k ∧ ∃ r ∈ a, In r k) := by
        intro k
        constructor
        · rintro ⟨r, hr, hk⟩
          rcases List.mem_cons.mp hr with rfl | hr
          · exact Or.inl hk
          · right; refine ⟨?_, r, hr, hk⟩
            have := hsa.1 r hr; unfold In at hk; omega
        · rintro (hk | ⟨-, r, hr, hk⟩)
          · exact ⟨x, by simp, hk⟩
          · exact ⟨r, by simp [hr], hk⟩
      have mem_b : ∀ k, (∃ r ∈ y :: b, In r k) ↔ In y k ∨ (y.start + y.dim < k ∧ ∃ r ∈ b, In r k) := by
        intro k
        constructor
        · rintro ⟨r, hr, hk⟩
          rcases List.mem_cons.mp hr with rfl | hr
          · exact Or.inl hk
          · right; refine ⟨?_, r, hr, hk⟩
            have := hsb.1 r hr; unfold In at hk; omega
        · rintro (hk | ⟨-, r, hr, hk⟩)
          · exact ⟨y, by simp, hk⟩
          · exact ⟨r, by simp [hr], hk⟩
      have hab : ∀ k, (In x k ∨ (x.start + x.dim < k ∧ ∃ r ∈ a, In r k)) ↔
          (In y k ∨ (y.start + y.dim < k ∧ ∃ r ∈ b, In r k)) := by
        intro k; rw [← mem_a, ← mem_b, ha.cover, hb.cover]
      have hstart : x.start = y.start := by
        have h1 := (hab x.start).mp (Or.inl (by unfold In; omega))
        have h2 := (hab y.start).mpr (Or.inl (by unfold In; omega))
        unfold In at h1 h2
        rcases h1 with h1 | ⟨h1, -⟩ <;> rcases h2 with h2 | ⟨h2, -⟩ <;> omega
      have hstop : x.start + x.dim = y.start + y.dim := by
        by_cases hlt : x.start + x.dim < y.start + y.dim
        · have h1 := (hab (x.start + x.dim)).mpr (Or.inl (by unfold In; omega))
          unfold In at h1
          rcases h1 with h1 | ⟨h1, -⟩ <;> omega
        · by_cases hlt2 : y.start + y.dim < x.start + x.dim
          · have h1 := (hab (y.start + y.dim)).mp (Or.inl (by unfold In; omega))
            unfold In at h1
            rcases h1 with h1 | ⟨h1, -⟩ <;> omega
          · omega
      have hxy : x = y := by
        obtain ⟨xs, xd⟩ := x; obtain ⟨ys, yd⟩ := y
        simp only at hstart hstop
        subst hstart
        have : xd = yd := by omega
        rw [this]
      subst hxy
      congr 1
      apply ih (S := fun k => x.start + x.dim < k ∧ S k)
      · refine ⟨fun r hr => ha.nonempty r (by simp [hr]), hsa.2, fun k => ?_⟩
        rw [← ha.cover k, mem_a]
        constructor
        · rintro ⟨r, hr, hk⟩
          have : x.start + x.dim < k := by have := hsa.1 r hr; unfold In at hk; omega
          exact ⟨this, Or.inr ⟨this, r, hr, hk⟩⟩
        · rintro ⟨h1, h2 | ⟨-, h2⟩⟩
          · unfold In at h2; omega
          · exact h2
      · refine ⟨fun r hr => hb.nonempty r (by simp [hr]), hsb.2, fun k => ?_⟩
        rw [← hb.cover k, mem_b]
        constructor
        · rintro ⟨r, hr, hk⟩
          have : x.start + x.dim < k := by have := hsb.1 r hr; unfold In at hk; omega
          exact ⟨this, Or.inr ⟨this, r, hr, hk⟩⟩
        · rintro ⟨h1, h2 | ⟨-, h2⟩⟩
          · unfold In at h2; omega
          · exact h2

theorem cnt_congr {L : List Limit} {k k' : Int} (h : ∀ x ∈ L, x.i ≤ k ↔ x.i ≤ k') :
    RC.cnt L k = RC.cnt L k' := by
  induction L with
  | nil => rfl
  | cons x L ih =>
    have h1 := h x (by simp)
    have h2 := ih (fun y hy => h y (by simp [hy]))
    simp only [cnt_cons, h2, h1]

/-! ## Properties -/

/-- **C02 (order of the limits).** The comparison of limits is a strict total order, and `<=` is its reflexive closure: at a given integer the ends of the ranges come in the order lower,
cut, upper. -/
theorem C02_limit_order (a b c : Limit) :
    a.lt a = false ∧ (a.lt b = true → b.lt c = true → a.lt c = true) ∧ (a.lt b = true ∨ a = b ∨ b.lt a = true) ∧ (a.lt b = true → b.lt a = false) ∧
    (a.le b = true ↔ a.lt b = true ∨ a = b) := by
  obtain ⟨i, x⟩ := a
  obtain ⟨j, y⟩ := b
  obtain ⟨k, z⟩ := c
  cases x <;> cases y <;> cases z <;> simp [Limit.lt, Limit.le, LType.val] <;> omega

/-- **C02** After any history, `ranges(false)` returns the maximal intervals of the set of integers that were
added more often than removed. -/
theorem C02_ranges_exact {s : State} {h : List Call} (hR : Reach s h) :
    Canonical (s.ranges false).2 (fun k => 0 < net h k) := by
  have hi := reach_inv hR
  rw [ranges_eq hi.cache]
  simp only [Bool.false_eq_true, if_false]
  have := mergedRanges_spec hi.inv
  refine ⟨this.1, this.2.1, fun k => ?_⟩
  rw [← hi.cnt k]
  exact this.2.2 k

/-- **C02** An integer is never covered a negative number of times. -/
theorem C02_net_nonneg {s : State} {h : List Call} (hR : Reach s h) (k : Int) : 0 ≤ net h k := by
  have hi := reach_inv hR
  rw [← hi.cnt k]; exact hi.inv.nonneg k

/-- **C02** No call has undefined behaviour (in particular no end iterator is dereferenced and no assertion
of `insert` fails), and `add` never throws. -/
theorem C02_no_ub {s : State} {h : List Call} (hR : Reach s h) (r : Range) (hr : 0 ≤ r.dim) :
    (∃ s' b, s.add r = .ok s' b) ∧ s.remove r ≠ .ub := by
  have hi := reach_inv hR
  by_cases h0 : r.dim = 0
  · rw [add_zero h0, remove_zero h0]
    exact ⟨⟨s, false, rfl⟩, by simp⟩
  · refine ⟨?_, ?_⟩
    · obtain ⟨L', change, he', -⟩ := add_spec s r hi.inv (by omega)
      exact ⟨_, _, he'⟩
    · have hs := remove_spec s r hi.inv (by omega)
      by_cases hc : ∀ k, r.start ≤ k → k < r.stop → 1 ≤ RC.cnt s.limits k
      · obtain ⟨L', change, he', -⟩ := hs.1 hc
        rw [he']; simp
      · have : ∃ k, r.start ≤ k ∧ k < r.stop ∧ RC.cnt s.limits k = 0 := by
          apply Classical.byContradiction
          intro hne
          apply hc
          intro k h1 h2
          have h3 := hi.inv.nonneg k
          by_cases h4 : RC.cnt s.limits k = 0
          · exact absurd ⟨k, h1, h2, h4⟩ hne
          · omega
        obtain ⟨b', hb', hb⟩ := hs.2 this
        rw [hb']; simp

/-- **C03** `add` returns `true` iff it changes the output of `ranges(false)`. -/
theorem C03_add_flag {s s' : State} {h : List Call} {r : Range} {b : Bool} (hR : Reach s h)
    (hr : 0 ≤ r.dim) (he : s.add r = .ok s' b) :
    b = true ↔ (s'.ranges false).2 ≠ (s.ranges false).2 := by
  have hi := reach_inv hR
  have hc := C02_ranges_exact hR
  have hc' := C02_ranges_exact (Reach.add hR hr he)
  by_cases h0 : r.dim = 0
  · rw [add_zero h0] at he; cases he; simp
  obtain ⟨L', change, he', hspec⟩ := add_spec s r hi.inv (by omega)
  rw [he'] at he
  cases he
  rw [hspec.change]
  constructor
  · rintro ⟨k, h1, h2, h3⟩ heq
    rw [heq] at hc'
    have := (hc.cover k).symm.trans (hc'.cover k)
    simp only [net] at this
    rw [hi.cnt] at h3
    rw [if_pos ⟨h1, h2⟩] at this
    have := this.mpr (by omega)
    omega
  · intro hne
    apply Classical.byContradiction
    intro hnk
    apply hne
    refine canonical_unique hc' ⟨hc.nonempty, hc.separated, fun k => ?_⟩
    rw [hc.cover k]
    simp only [net]
    split
    · rename_i hin
      have h1 : RC.cnt s.limits k ≠ 0 := fun h => hnk ⟨k, hin.1, hin.2, h⟩
      have h2 := hi.inv.nonneg k
      rw [hi.cnt] at h1 h2
      omega
    · omega

/-- **C03** `remove` returns `true` iff it changes the output of `ranges(false)`. -/
theorem C03_remove_flag {s s' : State} {h : List Call} {r : Range} {b : Bool} (hR : Reach s h)
    (hr : 0 ≤ r.dim) (he : s.remove r = .ok s' b) :
    b = true ↔ (s'.ranges false).2 ≠ (s.ranges false).2 := by
  have hi := reach_inv hR
  have hc := C02_ranges_exact hR
  have hc' := C02_ranges_exact (Reach.remove hR hr he)
  by_cases h0 : r.dim = 0
  · rw [remove_zero h0] at he; cases he; simp
  have hs := remove_spec s r hi.inv (by omega)
  have hcov : ∀ k, r.start ≤ k → k < r.stop → 1 ≤ RC.cnt s.limits k := by
    apply Classical.byContradiction
    intro hn
    have : ∃ k, r.start ≤ k ∧ k < r.stop ∧ RC.cnt s.limits k = 0 := by
      apply Classical.byContradiction
      intro hne
      apply hn
      intro k h1 h2
      have h3 := hi.inv.nonneg k
      by_cases h4 : RC.cnt s.limits k = 0
      · exact absurd ⟨k, h1, h2, h4⟩ hne
      · omega
    obtain ⟨b', hb', -⟩ := hs.2 this
    rw [hb'] at he; cases he
  obtain ⟨L', change, he', hspec⟩ := hs.1 hcov
  rw [he'] at he
  cases he
  rw [hspec.change]
  constructor
  · rintro ⟨k, h1, h2, h3⟩ heq
    rw [heq] at hc'
    have := (hc.cover k).symm.trans (hc'.cover k)
    simp only [net] at this
    rw [hi.cnt] at h3
    rw [if_pos ⟨h1, h2⟩] at this
    have := this.mp (by omega)
    omega
  · intro hne
    apply Classical.byContradiction
    intro hnk
    apply hne
    refine canonical_unique hc' ⟨hc.nonempty, hc.separated, fun k => ?_⟩
    rw [hc.cover k]
    simp only [net]
    split
    · rename_i hin
      have h1 : RC.cnt s.limits k ≠ 1 := fun h => hnk ⟨k, hin.1, hin.2, h⟩
      have h2 := hcov k hin.1 hin.2
      rw [hi.cnt] at h1 h2
      omega
    · omega

/-- **C04** `remove` throws iff some integer of the (non-empty) range is not covered. -/
theorem C04_remove_throws_iff {s : State} {h : List Call} {r : Range} (hR : Reach s h) (hr : 0 ≤ r.dim) :
    (∃ s', s.remove r = .throw s') ↔ ∃ k, In r k ∧ net h k = 0 := by
  have hi := reach_inv hR
  by_cases h0 : r.dim = 0
  · rw [remove_zero h0]
    simp [not_in_zero h0]
  have hs := remove_spec s r hi.inv (by omega)
  constructor
  · rintro ⟨s', he⟩
    apply Classical.byContradiction
    intro hne
    obtain ⟨L', change, he', -⟩ := hs.1 (by
      intro k h1 h2
      have h3 := hi.inv.nonneg k
      have h4 : net h k ≠ 0 := fun h => hne ⟨k, ⟨h1, h2⟩, h⟩
      rw [← hi.cnt] at h4; omega)
    rw [he'] at he; cases he
  · rintro ⟨k, ⟨h1, h2⟩, h3⟩
    rw [← hi.cnt] at h3
    obtain ⟨b', hb', -⟩ := hs.2 ⟨k, h1, h2, h3⟩
    exact ⟨_, hb'⟩

/-- A client call and what the client observes of it. -/
inductive Query where
  | add (r : Range)
  | remove (r : Range)
  | ranges (split : Bool)
  | maxCount
  | limits
  | empty

inductive Answer where
  | flag (b : Bool)
  | exception
  | undefined
  | ranges (l : List Range)
  | number (n : Int)
  | limits (l : List Limit)
  | bool (b : Bool)

/-- What a client observes of a sequence of calls. The sequence stops at an undefined behaviour. -/
def observe (s : State) : List Query → List Answer
  | [] => []
  | .add r :: q => match s.add r with
    | .ok s' b => .flag b :: observe s' q
    | .throw s' => .exception :: observe s' q
    | .ub => [.undefined]
  | .remove r :: q => match s.remove r with
    | .ok s' b => .flag b :: observe s' q
    | .throw s' => .exception :: observe s' q
    | .ub => [.undefined]
  | .ranges b :: q => .ranges (s.ranges b).2 :: observe (s.ranges b).1 q
  | .maxCount :: q => .number s.maxCount :: observe s q
  | .limits :: q => .limits s.limits :: observe s q
  | .empty :: q => .bool s.empty :: observe s q

/-- The client cannot distinguish two states with the same limits and a valid cache. -/
theorem observe_congr {q : List Query} : ∀ {s t : State} {h h' : List Call}, RInv s h → RInv t h' →
    Reach s h → Reach t h' →
    s.limits = t.limits → (∀ c ∈ q, ∀ r, (c = .add r ∨ c = .remove r) → 0 ≤ r.dim) →
    observe s q = observe t q := by
  induction q with
  | nil => intros; rfl
  | cons c q ih =>
    intro s t h h' hs ht hRs hRt hl hq
    have hq' : ∀ c ∈ q, ∀ r, (c = .add r ∨ c = .remove r) → 0 ≤ r.dim := fun c hc => hq c (by simp [hc])
    cases c with
    | add r =>
      have hr := hq (.add r) (by simp) r (Or.inl rfl)
      by_cases h0 : r.dim = 0
      · simp only [observe, add_zero h0]
        congr 1; exact ih hs ht hRs hRt hl hq'
      · obtain ⟨L1, b1, he1, hs1⟩ := add_spec s r hs.inv (by omega)
        obtain ⟨L2, b2, he2, hs2⟩ := add_spec t r ht.inv (by omega)
        have hsame : L1 = L2 ∧ b1 = b2 := by
          have h1 := he1; have h2 := he2
          obtain ⟨sl, s1, s2, s3⟩ := s; obtain ⟨tl, t1, t2, t3⟩ := t
          simp only at hl
          subst hl
          unfold State.add at h1 h2
          simp only at h1 h2
          repeat' split at h1
          all_goals repeat' split at h2
          all_goals simp_all [State.setRecompute]
        obtain ⟨rfl, rfl⟩ := hsame
        have hRs' := Reach.add hRs hr he1
        have hRt' := Reach.add hRt hr he2
        simp only [observe, he1, he2]
        congr 1
        exact ih (reach_inv hRs') (reach_inv hRt') hRs' hRt' rfl hq'
    | remove r =>
      have hr := hq (.remove r) (by simp) r (Or.inr rfl)
      by_cases h0 : r.dim = 0
      · simp only [observe, remove_zero h0]
        congr 1; exact ih hs ht hRs hRt hl hq'
      · have h1 := remove_spec s r hs.inv (by omega)
        have h2 := remove_spec t r ht.inv (by omega)
        by_cases hc : ∀ k, r.start ≤ k → k < r.stop → 1 ≤ RC.cnt s.limits k
        · obtain ⟨L1, b1, he1, hs1⟩ := h1.1 hc
          obtain ⟨L2, b2, he2, hs2⟩ := h2.1 (by rw [← hl]; exact hc)
          have hsame : L1 = L2 ∧ b1 = b2 := by
            clear h1 h2
            have h1 := he1; have h2 := he2
            obtain ⟨sl, s1, s2, s3⟩ := s; obtain ⟨tl, t1, t2, t3⟩ := t
            simp only at hl
            subst hl
            unfold State.remove at h1 h2
            simp only at h1 h2
            repeat' split at h1
            all_goals repeat' split at h2
            all_goals simp_all [State.setRecompute]
          obtain ⟨rfl, rfl⟩ := hsame
          have hRs' := Reach.remove hRs hr he1
          have hRt' := Reach.remove hRt hr he2
          simp only [observe, he1, he2]
          congr 1
          exact ih (reach_inv hRs') (reach_inv hRt') hRs' hRt' rfl hq'
        · have hk : ∃ k, r.start ≤ k ∧ k < r.stop ∧ RC.cnt s.limits k = 0 := by
            apply Classical.byContradiction
            intro hne
            apply hc
            intro k h1 h2
            have h3 := hs.inv.nonneg k
            by_cases h4 : RC.cnt s.limits k = 0
            · exact absurd ⟨k, h1, h2, h4⟩ hne
            · omega
          obtain ⟨b1, he1, -⟩ := h1.2 hk
          obtain ⟨b2, he2, -⟩ := h2.2 (by rw [← hl]; exact hk)
          have hRs' := Reach.removeThrow hRs hr he1
          have hRt' := Reach.removeThrow hRt hr he2
          simp only [observe, he1, he2]
          congr 1
          exact ih (reach_inv hRs') (reach_inv hRt') hRs' hRt' hl hq'
    | ranges b =>
      simp only [observe]
      rw [ranges_eq hs.cache, ranges_eq ht.cache, hl]
      congr 1
      have hlim : ∀ u : State, (u.ranges b).1.limits = u.limits := by
        intro u; unfold State.ranges
        repeat' split
        all_goals rfl
      have hRs' := Reach.ranges b hRs
      have hRt' := Reach.ranges b hRt
      exact ih (reach_inv hRs') (reach_inv hRt') hRs' hRt' (by rw [hlim, hlim, hl]) hq'
    | maxCount =>
      simp only [observe, State.maxCount, hl]
      congr 1; exact ih hs ht hRs hRt hl hq'
    | limits =>
      simp only [observe, hl]
      congr 1; exact ih hs ht hRs hRt hl hq'
    | empty =>
      simp only [observe, State.empty, hl]
      congr 1; exact ih hs ht hRs hRt hl hq'

/-- **C04** After a `remove` that threw, everything that a client can observe, through any sequence of calls,
is as if the call had not been made. -/
theorem C04_remove_strong_guarantee {s s' : State} {h : List Call} {r : Range} (hR : Reach s h)
    (hr : 0 ≤ r.dim) (he : s.remove r = .throw s') (q : List Query)
    (hq : ∀ c ∈ q, ∀ r, (c = .add r ∨ c = .remove r) → 0 ≤ r.dim) :
    observe s' q = observe s q := by
  have hi := reach_inv hR
  have hR' := Reach.removeThrow hR hr he
  refine observe_congr (reach_inv hR') hi hR' hR ?_ hq
  by_cases h0 : r.dim = 0
  · rw [remove_zero h0] at he; cases he
  have hs := remove_spec s r hi.inv (by omega)
  obtain ⟨k, ⟨h1, h2⟩, h3⟩ := (C04_remove_throws_iff hR hr).mp ⟨s', he⟩
  obtain ⟨b', hb', -⟩ := hs.2 ⟨k, h1, h2, by rw [hi.cnt]; exact h3⟩
  rw [hb'] at he; cases he; rfl

/-- **C05** `maxCount` is the maximum number of times an integer is covered. -/
theorem C05_maxCount {s : State} {h : List Call} (hR : Reach s h) :
    (∀ k, net h k ≤ s.maxCount) ∧ ∃ k, net h k = s.maxCount := by
  have hi := reach_inv hR
  have := maxCount_spec hi.inv
  simpa only [hi.cnt] using this

/-- **C06** `ranges(true)` partitions the covered integers into non-empty intervals with constant
multiplicity, each of them included in one of the intervals of `ranges(false)`. -/
theorem C06_split_partition {s : State} {h : List Call} (hR : Reach s h) :
    (∀ r ∈ (s.ranges true).2, 0 < r.dim) ∧
    (s.ranges true).2.Pairwise (fun a b => a.start + a.dim ≤ b.start) ∧
    (∀ k, (∃ r ∈ (s.ranges true).2, In r k) ↔ 0 < net h k) ∧
    (∀ r ∈ (s.ranges true).2, ∀ k k', In r k → In r k' → net h k = net h k') ∧
    (∀ r ∈ (s.ranges true).2, ∃ m ∈ (s.ranges false).2, ∀ k, In r k → In m k) := by
  have hi := reach_inv hR
  have hc := C02_ranges_exact hR
  have hs := splitRanges_spec hi.inv
  rw [ranges_eq hi.cache true]
  simp only [if_true]
  refine ⟨fun r hr => (hs.1 r hr).1, hs.2.1, fun k => by rw [← hi.cnt]; exact hs.2.2.1 k, ?_, ?_⟩
  · have key : ∀ r ∈ splitRanges s.limits, ∀ k, In r k → net h k = net h r.start := by
      intro r hr k hk
      rw [← hi.cnt, ← hi.cnt]
      apply cnt_congr
      intro x hx
      have h1 := hs.2.2.2 r hr x hx
      simp only [In] at hk
      simp only [Range.stop] at h1
      omega
    intro r hr k k' hk hk'
    rw [key r hr k hk, key r hr k' hk']
  · intro r hr
    have hd := (hs.1 r hr).1
    have hpos : ∀ k, In r k → ∃ m ∈ (s.ranges false).2, In m k := by
      intro k hk
      rw [hc.cover, ← hi.cnt]
      exact (hs.2.2.1 k).mp ⟨r, hr, hk⟩
    obtain ⟨m, hm, hmin⟩ := hpos r.start (by unfold In; omega)
    refine ⟨m, hm, ?_⟩
    -- the end of `m` is not covered
    have hend : ¬ ∃ m' ∈ (s.ranges false).2, In m' (m.start + m.dim) := by
      rintro ⟨m', hm', hin⟩
      have hsep := hc.separated
      by_cases hmm : m = m'
      · subst hmm; unfold In at hin; omega
      · have hor : m.start + m.dim < m'.start ∨ m'.start + m'.dim < m.start := by
          have hd1 := hc.nonempty m hm
          have := List.pairwise_iff_getElem.mp hsep
          obtain ⟨i, hi1, hi2⟩ := List.getElem_of_mem hm
          obtain ⟨j, hj1, hj2⟩ := List.getElem_of_mem hm'
          rcases Nat.lt_trichotomy i j with hij | hij | hij
          · have := this i j hi1 hj1 hij; rw [hi2, hj2] at this; exact Or.inl this
          · subst hij; rw [hi2] at hj2; exact absurd hj2 hmm
          · have := this j i hj1 hi1 hij; rw [hi2, hj2] at this; exact Or.inr this
        have hd1 := hc.nonempty m hm
        unfold In at hin; omega
    intro k hk
    by_cases hkm : In m k
    · exact hkm
    · exfalso
      apply hend
      apply hpos
      unfold In at *; omega

/-- **C06** The intervals of `ranges(true)` begin and end at end points of ranges of the history, and
without removal no end point of an added range is strictly inside one of them. -/
theorem C06_split_boundaries {s : State} {h : List Call} (hR : Reach s h) :
    (∀ r ∈ (s.ranges true).2, EndPoint h r.start ∧ EndPoint h (r.start + r.dim)) ∧
    (AddOnly h → ∀ r ∈ (s.ranges true).2, ∀ i, EndPoint h i → i ≤ r.start ∨ r.start + r.dim ≤ i) := by
  have hi := reach_inv hR
  have hs := splitRanges_spec hi.inv
  rw [ranges_eq hi.cache true]
  simp only [if_true]
  refine ⟨fun r hr => ?_, fun ha r hr i hEnd => ?_⟩
  · obtain ⟨-, ⟨x, hx, hxi⟩, ⟨y, hy, hyi⟩⟩ := hs.1 r hr
    refine ⟨hxi ▸ hi.pos x hx, ?_⟩
    have := hi.pos y hy
    rw [hyi] at this; exact this
  · obtain ⟨x, hx, hxi⟩ := hi.keep ha i hEnd
    have := hs.2.2.2 r hr x hx
    rw [hxi] at this; exact this

/-! ## Non-vacuity: a concrete history with overlap, adjacency and removals -/

/-- The state after some calls, for the examples. -/
def run : State → List Call → Option State
  | s, [] => some s
  | s, .add r :: l => match s.add r with
    | .ok s' _ => run s' l
    | _ => none
  | s, .remove r :: l => match s.remove r with
    | .ok s' _ => run s' l
    | _ => none

theorem reach_run : ∀ {l : List Call} {s s' : State} {h : List Call}, Reach s h → run s l = some s' →
    (∀ c ∈ l, ∀ r, (c = .add r ∨ c = .remove r) → 0 ≤ r.dim) → Reach s' (l.reverse ++ h) := by
  intro l
  induction l with
  | nil => intro s s' h hR he _; simp only [run, Option.some.injEq] at he; subst he; simpa using hR
  | cons c l ih =>
    intro s s' h hR he hd
    have hd' : ∀ c ∈ l, ∀ r, (c = .add r ∨ c = .remove r) → 0 ≤ r.dim := fun c hc => hd c (by simp [hc])
    cases c with
    | add r =>
      simp only [run] at he
      split at he
      · rename_i s1 b hs1
        have := ih (Reach.add hR (hd _ (by simp) r (Or.inl rfl)) hs1) he hd'
        simpa using this
      · cases he
    | remove r =>
      simp only [run] at he
      split at he
      · rename_i s1 b hs1
        have := ih (Reach.remove hR (hd _ (by simp) r (Or.inr rfl)) hs1) he hd'
        simpa using this
      · cases he

/-- The history of the documentation (RangeCounting.h, lines 15-19). -/
def docHistory : List Call := [.add ⟨1, 4⟩, .add ⟨3, 4⟩, .remove ⟨2, 3⟩]

example : ∃ s, Reach s docHistory.reverse ∧ (s.ranges false).2 = [⟨1, 1⟩, ⟨3, 4⟩] ∧ s.maxCount = 1 ∧
    (s.ranges true).2 = [⟨1, 1⟩, ⟨3, 2⟩, ⟨5, 2⟩] ∧ (∃ s', s.remove ⟨2, 2⟩ = .throw s') := by
  refine ⟨(run State.init docHistory).get (by decide), ?_, by decide, by decide, ?_, ?_⟩
  · have := reach_run (l := docHistory) Reach.init (Option.some_get (by decide)).symm (by
      intro c hc r h
      simp only [docHistory, List.mem_cons, List.not_mem_nil, or_false] at hc
      rcases hc with rfl | rfl | rfl <;> rcases h with h | h <;> cases h <;> decide)
    simpa using this
  · have hl : ((run State.init docHistory).get (by decide)).limits =
        [⟨1, .lower⟩, ⟨2, .upper⟩, ⟨3, .lower⟩, ⟨5, .cut⟩, ⟨7, .upper⟩] := by decide
    rw [ranges_eq (by intro h; exact absurd h (by decide)), hl]
    simp [splitRanges, splitLoop, skipEq, LType.val]
  · exact ⟨_, rfl⟩

/-- The state after the history of the documentation. -/
def docState : State := (run State.init docHistory).get (by decide)

theorem doc_reach : Reach docState docHistory.reverse := by
  have := reach_run (l := docHistory) Reach.init (Option.some_get (by decide)).symm (by
    intro c hc r h
    simp only [docHistory, List.mem_cons, List.not_mem_nil, or_false] at hc
    rcases hc with rfl | rfl | rfl <;> rcases h with h | h <;> cases h <;> decide)
  simpa [docState] using this

-- each theorem applied to that state
example : Canonical [⟨1, 1⟩, ⟨3, 4⟩] (fun k => 0 < net docHistory.reverse k) := by
  have := C02_ranges_exact doc_reach
  rwa [show (docState.ranges false).2 = [⟨1, 1⟩, ⟨3, 4⟩] by decide] at this
example : 0 ≤ net docHistory.reverse 3 := C02_net_nonneg doc_reach 3
example : docState.remove ⟨2, 3⟩ ≠ .ub := (C02_no_ub doc_reach ⟨2, 3⟩ (by decide)).2
-- adding 2 changes the set of indices, adding 4 does not
example : ∃ s', docState.add ⟨2, 1⟩ = .ok s' true ∧ (s'.ranges false).2 ≠ (docState.ranges false).2 :=
  ⟨_, rfl, (C03_add_flag doc_reach (r := ⟨2, 1⟩) (by decide) rfl).1 rfl⟩
example : ∃ s', docState.add ⟨4, 1⟩ = .ok s' false ∧ ¬ (s'.ranges false).2 ≠ (docState.ranges false).2 :=
  ⟨_, rfl, fun h => by cases (C03_add_flag doc_reach (r := ⟨4, 1⟩) (by decide) rfl).2 h⟩
example : ∃ s', docState.remove ⟨5, 2⟩ = .ok s' true ∧ (s'.ranges false).2 ≠ (docState.ranges false).2 :=
  ⟨_, rfl, (C03_remove_flag doc_reach (r := ⟨5, 2⟩) (by decide) rfl).1 rfl⟩
example : ∃ k, In ⟨2, 2⟩ k ∧ net docHistory.reverse k = 0 := (C04_remove_throws_iff doc_reach (by decide)).1 ⟨_, rfl⟩
example : ∃ s', docState.remove ⟨2, 2⟩ = .throw s' ∧
    observe s' [.add ⟨0, 3⟩, .ranges true, .remove ⟨3, 1⟩, .maxCount] =
      observe docState [.add ⟨0, 3⟩, .ranges true, .remove ⟨3, 1⟩, .maxCount] :=
  ⟨_, rfl, C04_remove_strong_guarantee (r := ⟨2, 2⟩) doc_reach (by decide) rfl _ (by
    intro c hc r h
    simp only [List.mem_cons, List.not_mem_nil, or_false] at hc
    rcases hc with rfl | rfl | rfl | rfl <;> rcases h with h | h <;> cases h <;> decide)⟩
example : ∃ k, net docHistory.reverse k = 1 := (C05_maxCount doc_reach).2
example : ∀ k, (∃ r ∈ (docState.ranges true).2, In r k) ↔ 0 < net docHistory.reverse k := (C06_split_partition doc_reach).2.2.1
example : ∀ r ∈ (docState.ranges true).2, EndPoint docHistory.reverse r.start := fun r h => ((C06_split_boundaries doc_reach).1 r h).1

end Verif.C02
