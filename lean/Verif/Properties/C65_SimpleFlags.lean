import Verif.Properties.C07_VariableCountingVector
import Mathlib.Data.List.Nodup
import Mathlib.Data.List.Perm.Subperm
/-!
# C65: the flags of `VariableCountingVector::simple`
-/
set_option autoImplicit false

namespace Verif.C65
open Verif Verif.RC Verif.VCV Verif.C07
open Verif.C02 (In net Canonical)

/-! ## Specification (histories are listed latest call first) -/

/-- Only `add` was called. -/
def AddOnly (h : List Call) : Prop := ∀ c ∈ h, ∃ v, c = .add v

/-- The coordinate `k` of the root `i` was added in the history. -/
def Used (h : List Call) (i : Nat) (k : Int) : Prop := ∃ v, Call.add v ∈ h ∧ Has v i k

/-- `v` is not empty and is neither meeting nor touching what was added in the history. -/
def Fresh (h : List Call) (v : Var) : Prop :=
  0 < v.dim.m ∧ ∀ k, v.start.m - 1 ≤ k → k ≤ v.start.m + v.dim.m → ¬ Used h v.root.id k

/-- Everything in `v` was already added in the history. -/
def Inside (h : List Call) (v : Var) : Prop := ∀ k, Has v v.root.id k → Used h v.root.id k

/-- Every call on the root `i` added a new piece away from all the previous ones, or nothing new. -/
def Clean : List Call → Nat → Prop
  | [], _ => True
  | .add v :: h, i => Clean h i ∧ (v.root.id = i → Fresh h v ∨ Inside h v)
  | .remove _ :: _, _ => False

/-- The documented criterion for one element `x`: "appears because of a single initial add (even if the same variable
was subsequently added several times after or subvariables of it were added)": an add of exactly `x` came before every
other add that has a coordinate of `x`, and all of these are inside `x`. -/
def SingleInitialAdd (h : List Call) (x : Var) : Prop :=
  ∃ later before v, h = later ++ Call.add v :: before ∧ v.root = x.root ∧ v.start.m = x.start.m ∧ v.dim.m = x.dim.m ∧
    (∀ k, Has x x.root.id k → ¬ Used before x.root.id k) ∧
    ∀ w, Call.add w ∈ later → (∃ k, Has w x.root.id k ∧ Has x x.root.id k) → ∀ k, Has w x.root.id k → Has x x.root.id k

/-! ## Counting intervals by their left ends -/

theorem starts_nodup {L : List Range} {P : Int → Prop} (hc : Canonical L P) : (L.map (·.start)).Nodup := by
  rw [List.Nodup, List.pairwise_map]
  refine List.Pairwise.imp_of_mem ?_ hc.separated
  intro a b ha _ hab
  have := hc.nonempty a ha
  omega

theorem mem_starts {L : List Range} {P : Int → Prop} (hc : Canonical L P) (k : Int) :
    k ∈ L.map (·.start) ↔ P k ∧ ¬ P (k - 1) := by
  constructor
  · intro hk
    obtain ⟨a, ha, rfl⟩ := List.mem_map.mp hk
    have hd := hc.nonempty a ha
    refine ⟨(hc.cover _).mp ⟨a, ha, by unfold In; omega⟩, fun hp => ?_⟩
    obtain ⟨b, hb, hin⟩ := (hc.cover _).mpr hp
    unfold In at hin
    obtain ⟨i, hi1, hi2⟩ := List.getElem_of_mem ha
    obtain ⟨j, hj1, hj2⟩ := List.getElem_of_mem hb
    have hpw := List.pairwise_iff_getElem.mp hc.separated
    rcases Nat.lt_trichotomy i j with h | h | h
    · have := hpw i j hi1 hj1 h; rw [hi2, hj2] at this; omega
    · subst h; rw [hi2] at hj2; subst hj2; omega
    · have := hpw j i hj1 hi1 h; rw [hi2, hj2] at this; omega
  · rintro ⟨h1, h2⟩
    obtain ⟨a, ha, hin⟩ := (hc.cover _).mpr h1
    unfold In at hin
    refine List.mem_map.mpr ⟨a, ha, ?_⟩
    by_cases h : a.start = k
    · exact h
    · exact absurd ((hc.cover _).mp ⟨a, ha, by unfold In; omega⟩) h2

/-- Adding an interval adds at most one maximal interval, and exactly one if and only if the interval is away from
the set. -/
theorem count_add {L L' : List Range} {P : Int → Prop} {r : Range} (hc : Canonical L P) (hr : 0 < r.dim)
    (hc' : Canonical L' (fun k => P k ∨ In r k)) :
    L'.length ≤ L.length + 1 ∧
    (L'.length = L.length + 1 ↔ ∀ k, r.start - 1 ≤ k → k ≤ r.start + r.dim → ¬ P k) := by
  have hn := starts_nodup hc
  have hn' := starts_nodup hc'
  have hm := mem_starts hc
  have hm' := mem_starts hc'
  have hl : (L.map (·.start)).length = L.length := by simp
  have hl' : (L'.map (·.start)).length = L'.length := by simp
  generalize L.map (·.start) = A at *
  generalize L'.map (·.start) = A' at *
  rw [← hl, ← hl']
  unfold In at hm'
  have hsub : A' ⊆ r.start :: A := by
    intro k hk
    rw [hm'] at hk
    rw [List.mem_cons, hm]
    by_cases h : k = r.start
    · exact Or.inl h
    · right
      obtain ⟨h1, h2⟩ := hk
      refine ⟨?_, fun hh => h2 (Or.inl hh)⟩
      rcases h1 with h1 | h1
      · exact h1
      · exact absurd (Or.inr (by omega)) h2
  have hle : A'.length ≤ A.length + 1 := by
    simpa using (List.subperm_of_subset hn' hsub).length_le
  refine ⟨hle, ?_⟩
  constructor
  · intro heq k hk1 hk2 hp
    by_cases hps : P (r.start - 1)
    · have : A' ⊆ A := by
        intro j hj
        rcases List.mem_cons.mp (hsub hj) with rfl | h
        · exact absurd (Or.inl hps) ((hm' _).mp hj).2
        · exact h
      have := (List.subperm_of_subset hn' this).length_le
      omega
    · obtain ⟨a, ha, hin⟩ := (hc.cover _).mpr hp
      unfold In at hin
      have h1 : r.start ≤ a.start := by
        by_cases h : r.start ≤ a.start
        · exact h
        · exact absurd ((hc.cover _).mp ⟨a, ha, by unfold In; omega⟩) hps
      have hd := hc.nonempty a ha
      have hPa : P a.start := (hc.cover _).mp ⟨a, ha, by unfold In; omega⟩
      have haA : a.start ∈ A := by
        have := List.mem_map_of_mem (f := fun x : Range => x.start) ha
        rw [mem_starts hc] at this
        exact (hm _).mpr this
      by_cases h2 : a.start = r.start
      · have : A' ⊆ A := by
          intro j hj
          rcases List.mem_cons.mp (hsub hj) with rfl | h
          · rw [← h2]; exact haA
          · exact h
        have := (List.subperm_of_subset hn' this).length_le
        omega
      · have : A' ⊆ r.start :: A.erase a.start := by
          intro j hj
          rcases List.mem_cons.mp (hsub hj) with rfl | h
          · simp
          · refine List.mem_cons_of_mem _ ?_
            refine (List.mem_erase_of_ne ?_).mpr h
            rintro rfl
            exact ((hm' _).mp hj).2 (Or.inr (by omega))
        have h3 := (List.subperm_of_subset hn' this).length_le
        have h4 : 0 < A.length := List.length_pos_of_mem haA
        simp only [List.length_cons, List.length_erase_of_mem haA] at h3
        omega
  · intro hf
    have hsub2 : r.start :: A ⊆ A' := by
      intro j hj
      rw [hm']
      rcases List.mem_cons.mp hj with rfl | h
      · refine ⟨Or.inr (by omega), ?_⟩
        rintro (h | h)
        · exact hf _ (by omega) (by omega) h
        · omega
      · rw [hm] at h
        refine ⟨Or.inl h.1, ?_⟩
        rintro (h2 | h2)
        · exact h.2 h2
        · exact hf j (by omega) (by omega) h.1
    have hnd : (r.start :: A).Nodup := by
      rw [List.nodup_cons]
      exact ⟨fun h => hf _ (by omega) (by omega) ((hm _).mp h).1, hn⟩
    have := (List.subperm_of_subset hnd hsub2).length_le
    simp only [List.length_cons] at this
    omega

/-! ## Flags -/

/-- Number of elements of the root. -/
def len (e : Entry) : Nat := (e.m.ranges false).2.length

def flags (p : Root × Entry) : List Bool :=
  ((p.2.m.ranges false).2).map (fun _ => decide (p.2.counter = len p.2))

def allFlags (l : List (Root × Entry)) : List Bool := l.flatMap flags

theorem find_put (i : Nat) (v : Root) (e : Entry) : ∀ {l : List (Root × Entry)},
    l.Pairwise (fun a b => a.1.id < b.1.id) → find i (put v e l) = if i = v.id then some e else find i l := by
  intro l
  induction l with
  | nil => intro _; simp only [put, find, eq_comm (a := i)]
  | cons q l ih =>
    intro hs
    obtain ⟨w, x⟩ := q
    rw [List.pairwise_cons] at hs
    simp only [put]
    split
    · simp only [find, eq_comm (a := i)]
    · split
      · rename_i h1 h2
        simp only [find, eq_comm (a := i), h2]
        by_cases h : w.id = i <;> simp [h]
      · rename_i h1 h2
        simp only [find]
        rw [ih hs.2]
        by_cases h : w.id = i
        · rw [if_pos h, if_pos h, if_neg (by omega)]
        · rw [if_neg h, if_neg h]

theorem allFlags_put {v : Root} {e : Entry} : ∀ {l : List (Root × Entry)},
    l.Pairwise (fun a b => a.1.id < b.1.id) →
    (e.m.ranges false).2 = (((find v.id l).getD {}).m.ranges false).2 →
    e.counter = ((find v.id l).getD {}).counter →
    allFlags (put v e l) = allFlags l := by
  intro l
  have h0 : ((({} : Entry).m).ranges false).2 = [] := rfl
  induction l with
  | nil =>
    intro _ he _
    simp only [find, Option.getD_none] at he
    rw [h0] at he
    simp [put, allFlags, flags, he]
  | cons q l ih =>
    intro hs he hcn
    obtain ⟨w, x⟩ := q
    rw [List.pairwise_cons] at hs
    simp only [put]
    simp only [find] at he hcn
    split
    · rename_i h1
      have : find v.id l = none := by
        cases hf : find v.id l with
        | none => rfl
        | some y =>
          obtain ⟨u, h2, h3⟩ := find_some hf
          have := hs.1 _ h3
          simp only at this; omega
      rw [if_neg (by omega), this] at he
      simp only [Option.getD_none] at he
      rw [h0] at he
      simp [allFlags, flags, he]
    · split
      · rename_i h1 h2
        rw [if_pos h2.symm] at he hcn
        simp only [Option.getD_some] at he hcn
        simp only [allFlags, List.flatMap_cons, flags, len, he, hcn]
        rfl
      · rename_i h1 h2
        rw [if_neg (by omega)] at he hcn
        have := ih hs.2 he hcn
        simp only [allFlags, List.flatMap_cons] at this ⊢
        rw [this]

theorem items_length {W : World} (p : Root × Entry) : (items W p).length = len p.2 := by simp [items, len]

theorem flags_length (p : Root × Entry) : (flags p).length = len p.2 := by simp [flags, len]

theorem updateLoop_flags {W : World} : ∀ {l : List (Root × Entry)},
    (∀ p ∈ l, (∃ h, C02.Reach p.2.m h) ∧
      itemsOf p.1 (p.2.m.ranges false).2 (p.2.r.ranges false).2 (p.2.t.ranges false).2 = some (items W p)) →
    ∃ c, updateLoop false l = some (c, allItems W l, allFlags l) ∧ allFlags c = allFlags l ∧
      ∀ i, ((find i c).getD {}).counter = ((find i l).getD {}).counter ∧
        len ((find i c).getD {}) = len ((find i l).getD {}) := by
  intro l
  induction l with
  | nil => intro _; exact ⟨[], rfl, rfl, fun i => ⟨rfl, rfl⟩⟩
  | cons p l ih =>
    intro h
    obtain ⟨v, e⟩ := p
    obtain ⟨c, h1, h2, h3⟩ := ih (fun p hp => h p (by simp [hp]))
    obtain ⟨⟨hh, hR⟩, h4⟩ := h (v, e) (by simp)
    simp only at h4 hR
    have hrr := ranges_ranges hR false
    simp only [updateLoop, h1, h4]
    refine ⟨_, congrArg (fun q => some (_, _, q)) (a₂ := allFlags ((v, e) :: l)) ?_, ?_, ?_⟩
    · simp only [allFlags, List.flatMap_cons, flags, items, List.map_map, len]
      rfl
    · simp only [allFlags, List.flatMap_cons] at h2 ⊢
      rw [h2]
      congr 1
      simp only [flags, len, hrr]
      rfl
    · intro i
      simp only [find]
      by_cases hi : v.id = i
      · rw [if_pos hi, if_pos hi]
        simp only [Option.getD_some, len, hrr, and_self]
      · rw [if_neg hi, if_neg hi]
        exact h3 i

/-! ## Invariant -/

structure FInv (s : VCV.State) (h : List Call) : Prop where
  le : ∀ i, len ((find i s.count).getD {}) ≤ ((find i s.count).getD {}).counter
  iff : ∀ i, ((find i s.count).getD {}).counter = len ((find i s.count).getD {}) ↔ Clean h i

def Cached (s : VCV.State) : Prop := s.upToDate = true → s.simple = allFlags s.count

theorem used_iff {h : List Call} (ha : AddOnly h) (i : Nat) (k : Int) : 0 < netV h i k ↔ Used h i k := by
  have hnn : ∀ h : List Call, AddOnly h → 0 ≤ netV h i k := by
    intro h
    induction h with
    | nil => intro _; simp [netV]
    | cons c h ih =>
      intro ha
      obtain ⟨v, rfl⟩ := ha c (by simp)
      have := ih (fun c hc => ha c (by simp [hc]))
      simp only [netV]
      split <;> omega
  induction h with
  | nil => simp [netV, Used]
  | cons c h ih =>
    have ha' : AddOnly h := fun c hc => ha c (by simp [hc])
    obtain ⟨v, rfl⟩ := ha c (by simp)
    have h0 := hnn h ha'
    have ih := ih ha'
    simp only [netV]
    by_cases hh : Has v i k
    · rw [if_pos hh]
      exact ⟨fun _ => ⟨v, by simp, hh⟩, fun _ => by omega⟩
    · rw [if_neg hh]
      simp only [Int.add_zero]
      refine Iff.trans ih ?_
      unfold Used
      constructor
      · rintro ⟨w, h1, h2⟩; exact ⟨w, by simp [h1], h2⟩
      · rintro ⟨w, h1, h2⟩
        rcases List.mem_cons.mp h1 with h1 | h1
        · simp only [Call.add.injEq] at h1; subst h1; exact absurd h2 hh
        · exact ⟨w, h1, h2⟩

/-- Effect of one `add` on the counter of its root. -/
theorem step_count {W : World} {h : List Call} (ha : AddOnly h) {v : Var} {e e' : Entry}
    {b : Bool} (he : EInv W v.root.id e (proj v.root.id h))
    (he' : EInv W v.root.id e' (.add (mRange v) :: proj v.root.id h))
    (hb : b = true ↔ (e'.m.ranges false).2 ≠ (e.m.ranges false).2)
    (hcn : e'.counter = (if b then e.counter + 1 else e.counter)) (hle : len e ≤ e.counter)
    (hiff : e.counter = len e ↔ Clean h v.root.id) :
    len e' ≤ e'.counter ∧ (e'.counter = len e' ↔ Clean (.add v :: h) v.root.id) := by
  have hc := C02.C02_ranges_exact he.m
  have hc' := C02.C02_ranges_exact he'.m
  have hP : ∀ k, (0 < net (proj v.root.id h) k) ↔ Used h v.root.id k := by
    intro k; rw [net_proj]; exact used_iff ha _ _
  have hnn : ∀ k, 0 ≤ net (proj v.root.id h) k := C02.C02_net_nonneg he.m
  have hP' : ∀ k, (0 < net (C02.Call.add (mRange v) :: proj v.root.id h) k) ↔
      (0 < net (proj v.root.id h) k ∨ In (mRange v) k) := by
    intro k
    have := hnn k
    simp only [net]
    by_cases hin : In (mRange v) k
    · rw [if_pos hin]; exact ⟨fun _ => Or.inr hin, fun _ => by omega⟩
    · rw [if_neg hin]; simp [hin]
  have hHas : ∀ k, Has v v.root.id k ↔ In (mRange v) k := by
    intro k; simp [Has, In, mRange]
  have hcu : Canonical (e'.m.ranges false).2
      (fun k => (0 < net (proj v.root.id h) k) ∨ In (mRange v) k) :=
    ⟨hc'.nonempty, hc'.separated, fun k => (hc'.cover k).trans (hP' k)⟩
  have hInside : Inside h v ↔ b = false := by
    constructor
    · intro hin
      have : (e'.m.ranges false).2 = (e.m.ranges false).2 := by
        refine C02.canonical_unique hcu ⟨hc.nonempty, hc.separated, fun k => ?_⟩
        rw [hc.cover k]
        constructor
        · exact Or.inl
        · rintro (h1 | h1)
          · exact h1
          · exact (hP k).mpr (hin k ((hHas k).mpr h1))
      cases b with
      | false => rfl
      | true => exact absurd this (hb.mp rfl)
    · intro hbf k hk
      have heq : (e'.m.ranges false).2 = (e.m.ranges false).2 := by
        apply Classical.byContradiction
        intro hne
        have := hb.mpr hne
        rw [hbf] at this; cases this
      have h1 := (hcu.cover k).mpr (Or.inr ((hHas k).mp hk))
      rw [heq] at h1
      exact (hP k).mp ((hc.cover k).mp h1)
  simp only [Clean, true_implies]
  cases b with
  | false =>
    have heq : (e'.m.ranges false).2 = (e.m.ranges false).2 := by
      apply Classical.byContradiction
      intro hne
      have := hb.mpr hne
      cases this
    have hlen : len e' = len e := by unfold len; rw [heq]
    rw [hlen]
    rw [if_neg (by simp)] at hcn
    rw [hcn]
    refine ⟨hle, ?_⟩
    rw [hiff]
    exact ⟨fun hcl => ⟨hcl, Or.inr (hInside.mpr rfl)⟩, fun hcl => hcl.1⟩
  | true =>
    rw [if_pos rfl] at hcn
    have hni : ¬ Inside h v := by rw [hInside]; simp
    have hpos : 0 < (mRange v).dim := by
      apply Classical.byContradiction
      intro hneg
      apply hni
      intro k hk
      rw [hHas] at hk
      unfold In at hk
      omega
    obtain ⟨h1, h2⟩ := count_add hc hpos hcu
    have hfr : Fresh h v ↔ len e' = len e + 1 := by
      unfold len
      rw [h2]
      unfold Fresh
      constructor
      · intro hf k hk1 hk2 hp
        exact hf.2 k hk1 hk2 ((hP k).mp hp)
      · intro hf
        exact ⟨hpos, fun k hk1 hk2 hp => hf k hk1 hk2 ((hP k).mpr hp)⟩
    change len e' ≤ len e + 1 at h1
    rw [hcn]
    refine ⟨by omega, ?_⟩
    constructor
    · intro h3
      exact ⟨hiff.mp (by omega), Or.inl (hfr.mpr (by omega))⟩
    · rintro ⟨h3, h4⟩
      have h5 := hiff.mpr h3
      rcases h4 with h4 | h4
      · have := hfr.mp h4; omega
      · exact absurd h4 hni

theorem update_flags {W : World} {s s' : VCV.State} {h : List Call} (hs : SInv W false s h)
    (he : s.update = some s') (hc : Cached s) :
    s'.simple = allFlags s.count ∧ s'.variables = allItems W s.count ∧ Cached s' ∧
    ∀ i, ((find i s'.count).getD {}).counter = ((find i s.count).getD {}).counter ∧
        len ((find i s'.count).getD {}) = len ((find i s.count).getD {}) := by
  unfold State.update at he
  by_cases hu : s.upToDate = true
  · rw [if_pos hu] at he
    simp only [Option.some.injEq] at he
    subst he
    exact ⟨hc hu, hs.fresh rfl hu, hc, fun i => ⟨rfl, rfl⟩⟩
  · rw [if_neg hu] at he
    obtain ⟨c, h1, h2, h3⟩ := updateLoop_flags (W := W) (l := s.count)
      (fun p hp => ⟨⟨_, (hs.entries p hp).2.m⟩, entry_items hs hp⟩)
    rw [hs.splitEq, h1] at he
    simp only [Option.some.injEq] at he
    subst he
    exact ⟨rfl, rfl, fun _ => h2.symm, h3⟩

theorem FInv.congr {s s' : VCV.State} {h : List Call} (hf : FInv s h)
    (he : ∀ i, ((find i s'.count).getD {}).counter = ((find i s.count).getD {}).counter ∧
        len ((find i s'.count).getD {}) = len ((find i s.count).getD {})) : FInv s' h :=
  ⟨fun i => by rw [(he i).1, (he i).2]; exact hf.le i, fun i => by rw [(he i).1, (he i).2]; exact hf.iff i⟩

theorem reach_flags {W : World} {s : VCV.State} {h : List Call} (hR : Reach W false s h) :
    Cached s ∧ (AddOnly h → FInv s h) := by
  induction hR with
  | init =>
    refine ⟨fun h => (by cases h), fun _ => ⟨fun i => Nat.le_refl 0, fun i => ?_⟩⟩
    exact ⟨fun _ => trivial, fun _ => rfl⟩
  | @add s h v s' b hR hv he ih =>
    have hs := reach_inv hR
    obtain ⟨e', b', h1, h2, h3, h4, -⟩ := entry_add hv (find_inv hs v.root.id)
    unfold VCV.State.add at he
    rw [h1] at he
    simp only [Outcome.ok.injEq] at he
    obtain ⟨rfl, rfl⟩ := he
    constructor
    · intro hu
      simp only [Bool.and_eq_true, Bool.not_eq_eq_eq_not, Bool.not_true] at hu
      obtain ⟨hu1, hu2⟩ := hu
      subst hu2
      simp only
      rw [ih.1 hu1, allFlags_put hs.sorted]
      · have h5 := mt h3.mpr (by simp)
        simpa using h5
      · simpa using h4
    · intro ha
      have ha' : AddOnly h := fun c hc => ha c (by simp [hc])
      have hf := ih.2 ha'
      obtain ⟨g1, g2⟩ := step_count ha' (find_inv hs v.root.id) h2 h3 h4 (hf.le _) (hf.iff _)
      refine ⟨fun i => ?_, fun i => ?_⟩
      · simp only
        rw [find_put i _ _ hs.sorted]
        by_cases hi : i = v.root.id
        · rw [if_pos hi]; exact g1
        · rw [if_neg hi]; exact hf.le i
      · simp only
        rw [find_put i _ _ hs.sorted]
        by_cases hi : i = v.root.id
        · rw [if_pos hi, hi]; exact g2
        · rw [if_neg hi, hf.iff i]
          simp only [Clean]
          exact ⟨fun h => ⟨h, fun h2 => absurd h2.symm hi⟩, fun h => h.1⟩
  | @addThrow s h v s' hR hv he ih =>
    obtain ⟨e', b', h1, -⟩ := entry_add hv (find_inv (reach_inv hR) v.root.id)
    unfold VCV.State.add at he
    rw [h1] at he
    cases he
  | @remove s h v s' b hR hv he ih =>
    have hs := reach_inv hR
    constructor
    · unfold VCV.State.remove at he
      cases hf : find v.root.id s.count with
      | none => rw [hf] at he; cases he
      | some e =>
        have hinv := find_inv hs v.root.id
        rw [hf] at he hinv
        simp only [Option.getD_some] at he hinv
        by_cases hc : ∃ k, In (mRange v) k ∧ net (proj v.root.id h) k = 0
        · obtain ⟨e', h1, -⟩ := entry_remove_throw hv hinv hc
          rw [h1] at he; cases he
        · obtain ⟨e', b', h1, h2, h3⟩ := entry_remove_ok hv hinv hc
          have hcnt : b' = false → e'.counter = e.counter := by
            intro hb
            unfold Entry.remove at h1
            split at h1 <;> try cases h1
            split at h1 <;> try cases h1
            split at h1
            · cases h1
            · cases h1
            · simp only [Outcome.ok.injEq] at h1
              obtain ⟨h5, h6⟩ := h1
              rw [← h5]
              simp only
              rw [if_neg]
              rw [h6, hb]; simp
          rw [h1] at he
          simp only [Outcome.ok.injEq] at he
          obtain ⟨rfl, rfl⟩ := he
          intro hu
          simp only [Bool.and_eq_true, Bool.not_eq_eq_eq_not, Bool.not_true] at hu
          obtain ⟨hu1, hu2⟩ := hu
          simp only
          rw [ih.1 hu1, allFlags_put hs.sorted]
          · rw [hf]
            have h5 := mt h3.mpr (by simp [hu2])
            simpa using h5
          · rw [hf]; exact hcnt hu2
    · intro ha
      obtain ⟨w, hw⟩ := ha (.remove v) (by simp)
      cases hw
  | @removeThrow s h v s' hR hv he ih =>
    have hs := reach_inv hR
    unfold VCV.State.remove at he
    cases hf : find v.root.id s.count with
    | none => rw [hf] at he; cases he; exact ih
    | some e =>
      have hinv := find_inv hs v.root.id
      rw [hf] at he hinv
      simp only [Option.getD_some] at he hinv
      by_cases hc : ∃ k, In (mRange v) k ∧ net (proj v.root.id h) k = 0
      · obtain ⟨e', h1, h2, h3, h4⟩ := entry_remove_throw hv hinv hc
        rw [h1] at he
        simp only [Outcome.throw.injEq] at he
        subst he
        constructor
        · intro hu
          simp only
          rw [ih.1 hu, allFlags_put hs.sorted]
          · rw [hf, h3]; rfl
          · rw [hf, h4]; rfl
        · intro ha
          refine (ih.2 ha).congr (fun i => ?_)
          simp only
          rw [find_put i _ _ hs.sorted]
          by_cases hi : i = v.root.id
          · rw [if_pos hi, hi, hf]
            simp only [Option.getD_some, len, h3, h4, and_self]
          · rw [if_neg hi]; exact ⟨rfl, rfl⟩
      · obtain ⟨e', b', h1, -⟩ := entry_remove_ok hv hinv hc
        rw [h1] at he; cases he
  | @«variables» s h s' l hR he ih =>
    unfold State.getVariables at he
    split at he
    · cases he
    · rename_i s'' hu
      simp only [Outcome.ok.injEq] at he
      rw [← he.1]
      obtain ⟨-, -, h3, h4⟩ := update_flags (reach_inv hR) hu ih.1
      exact ⟨h3, fun ha => (ih.2 ha).congr h4⟩
  | @simple s h s' l hR he ih =>
    unfold State.getSimple at he
    split at he
    · cases he
    · split at he
      · cases he
      · rename_i s'' hu
        simp only [Outcome.ok.injEq] at he
        rw [← he.1]
        obtain ⟨-, -, h3, h4⟩ := update_flags (reach_inv hR) hu ih.1
        exact ⟨h3, fun ha => (ih.2 ha).congr h4⟩
  | @clear s h _ ih =>
    refine ⟨fun h => (by cases h), fun _ => ⟨fun i => Nat.le_refl 0, fun i => ?_⟩⟩
    exact ⟨fun _ => trivial, fun _ => rfl⟩

theorem find_self {p : Root × Entry} : ∀ {l : List (Root × Entry)}, l.Pairwise (fun a b => a.1.id < b.1.id) → p ∈ l →
    find p.1.id l = some p.2 := by
  intro l
  induction l with
  | nil => intro _ h; cases h
  | cons q l ih =>
    intro hs hp
    rw [List.pairwise_cons] at hs
    obtain ⟨w, x⟩ := q
    simp only [find]
    rcases List.mem_cons.mp hp with rfl | hp
    · rw [if_pos rfl]
    · have := hs.1 p hp
      simp only at this
      rw [if_neg (by omega)]
      exact ih hs.2 hp

/-- The two lists have the same length and an element comes with the flag of its root. -/
theorem flag_of {W : World} : ∀ {l : List (Root × Entry)},
    (allFlags l).length = (allItems W l).length ∧
    ∀ (j : Nat) (x : Item) (b : Bool), (allItems W l)[j]? = some x → (allFlags l)[j]? = some b →
      ∃ p ∈ l, x ∈ items W p ∧ b = decide (p.2.counter = len p.2) := by
  intro l
  induction l with
  | nil => exact ⟨rfl, by intro j x b h; simp [allItems] at h⟩
  | cons p l ih =>
    obtain ⟨ih1, ih2⟩ := ih
    simp only [allFlags, allItems, List.flatMap_cons] at ih1 ih2 ⊢
    refine ⟨by simp only [List.length_append, ih1, items_length, flags_length], ?_⟩
    intro j x b hx hb
    by_cases hj : j < len p.2
    · rw [List.getElem?_append_left (by rw [items_length]; exact hj)] at hx
      rw [List.getElem?_append_left (by rw [flags_length]; exact hj)] at hb
      refine ⟨p, by simp, List.mem_of_getElem? hx, ?_⟩
      have := List.mem_of_getElem? hb
      obtain ⟨_, -, h⟩ := List.mem_map.mp this
      exact h.symm
    · rw [List.getElem?_append_right (by rw [items_length]; omega), items_length] at hx
      rw [List.getElem?_append_right (by rw [flags_length]; omega), flags_length] at hb
      obtain ⟨q, hq, h1, h2⟩ := ih2 _ x b hx hb
      exact ⟨q, by simp [hq], h1, h2⟩

/-! ## Properties -/

/-- **C65** After any history of additions, interleaved with queries, refused removals and `clear`, `simple()`
mirrors `variables()`, and the flag of an element is `true` exactly when every addition to its root variable was
either away from everything added before or brought nothing new. -/
theorem C65_simple_iff {W : World} {s : VCV.State} {h : List Call} (hR : Reach W false s h) (ha : AddOnly h) :
    ∃ s1 l s2 fl, s.getVariables = .ok s1 l ∧ s.getSimple = .ok s2 fl ∧ fl.length = l.length ∧
      ∀ (j : Nat) (x : Item) (b : Bool), l[j]? = some x → fl[j]? = some b →
        (b = true ↔ Clean h x.var.root.id) := by
  have hs := reach_inv hR
  obtain ⟨hca, hf⟩ := reach_flags hR
  have hf := hf ha
  obtain ⟨s1, hv⟩ := variables_eq hR
  have hup : ∃ s', s.update = some s' := by
    unfold State.getVariables at hv
    cases hu : s.update with
    | none => rw [hu] at hv; cases hv
    | some s' => exact ⟨s', rfl⟩
  obtain ⟨s2, hu⟩ := hup
  obtain ⟨g1, -, -, -⟩ := update_flags hs hu hca
  have hsimple : s.getSimple = .ok s2 (allFlags s.count) := by
    unfold State.getSimple
    rw [hs.splitEq, hu]
    simp only [Bool.false_eq_true, if_false, g1]
  obtain ⟨k1, k2⟩ := flag_of (W := W) (l := s.count)
  refine ⟨s1, allItems W s.count, s2, allFlags s.count, hv, hsimple, k1, ?_⟩
  intro j x b hx hb
  obtain ⟨p, hp, hxp, hbp⟩ := k2 j x b hx hb
  have hfind := find_self hs.sorted hp
  have hroot : x.var.root.id = p.1.id := by
    obtain ⟨a, ha, rfl⟩ := List.mem_map.mp hxp
    obtain ⟨q1, q2, q3⟩ := seg_bounds hs hp a ha
    rw [(seg_var (hs.entries p hp).1 q1 q2 q3).2.1]
  have hiff := hf.iff p.1.id
  rw [hfind] at hiff
  rw [hroot, hbp, decide_eq_true_iff]
  exact hiff

/-! ### The documented criterion -/

/-- `x` is a maximal segment of what was added. -/
structure Maximal (h : List Call) (x : Var) : Prop where
  pos : 0 < x.dim.m
  used : ∀ k, Has x x.root.id k → Used h x.root.id k
  left : ¬ Used h x.root.id (x.start.m - 1)
  right : ¬ Used h x.root.id (x.start.m + x.dim.m)

theorem used_cons {h : List Call} {v : Var} {i : Nat} {k : Int} :
    Used (.add v :: h) i k ↔ Has v i k ∨ Used h i k := by
  unfold Used
  constructor
  · rintro ⟨w, h1, h2⟩
    rcases List.mem_cons.mp h1 with h1 | h1
    · simp only [Call.add.injEq] at h1; subst h1; exact Or.inl h2
    · exact Or.inr ⟨w, h1, h2⟩
  · rintro (h1 | ⟨w, h1, h2⟩)
    · exact ⟨v, by simp, h1⟩
    · exact ⟨w, by simp [h1], h2⟩

theorem lists_maximal {W : World} {h : List Call} (ha : AddOnly h) {l : List Item} (hl : Lists W h l) {x : Item}
    (hx : x ∈ l) : Maximal h x.var := by
  have hpos := hl.nonempty x hx
  have key : ∀ k, (k = x.var.start.m - 1 ∨ k = x.var.start.m + x.var.dim.m) → ¬ Used h x.var.root.id k := by
    intro k hk hu
    obtain ⟨y, hy, h1, h2, h3⟩ := (hl.cover _ _).mpr ((used_iff ha _ _).mpr hu)
    obtain ⟨i, hi1, hi2⟩ := List.getElem_of_mem hx
    obtain ⟨j, hj1, hj2⟩ := List.getElem_of_mem hy
    have hpw := List.pairwise_iff_getElem.mp hl.order
    rcases Nat.lt_trichotomy i j with h | h | h
    · have := hpw i j hi1 hj1 h; rw [hi2, hj2] at this
      rcases this with h | h <;> omega
    · subst h; rw [hi2] at hj2; subst hj2; omega
    · have := hpw j i hj1 hi1 h; rw [hi2, hj2] at this
      rcases this with h | h <;> omega
  exact ⟨hpos, fun k hk => (used_iff ha _ _).mp ((hl.cover _ _).mp ⟨x, hx, hk⟩), key _ (Or.inl rfl), key _ (Or.inr rfl)⟩

/-- A segment all of which was added and that meets a maximal one is inside it. -/
theorem Maximal.absorb {h : List Call} {x v : Var} (hm : Maximal h x) (hv : ∀ k, Has v x.root.id k → Used h x.root.id k)
    (hmeet : ∃ k, Has v x.root.id k ∧ Has x x.root.id k) : ∀ k, Has v x.root.id k → Has x x.root.id k := by
  intro k hk
  obtain ⟨k0, h1, h2⟩ := hmeet
  have hl := hm.left
  have hr := hm.right
  refine ⟨rfl, ?_, ?_⟩
  · apply Classical.byContradiction
    intro hlt
    exact hl (hv _ ⟨hk.1, by have := hk.2; omega, by have := h1.2; have := h2.2; omega⟩)
  · apply Classical.byContradiction
    intro hlt
    exact hr (hv _ ⟨hk.1, by have := h1.2; have := h2.2; omega, by have := hk.2; omega⟩)

theorem clean_single {x : Var} : ∀ {h : List Call}, AddOnly h →
    (∀ v, Call.add v ∈ h → v.root.id = x.root.id → v.root = x.root) → Clean h x.root.id → Maximal h x →
    SingleInitialAdd h x := by
  intro h
  induction h with
  | nil =>
    intro _ _ _ hm
    obtain ⟨w, hw, -⟩ := hm.used x.start.m ⟨rfl, Int.le_refl _, by have := hm.pos; omega⟩
    cases hw
  | cons c h ih =>
    intro ha hval hcl hm
    obtain ⟨v, rfl⟩ := ha c (by simp)
    have ha' : AddOnly h := fun c hc => ha c (by simp [hc])
    have hval' : ∀ v, Call.add v ∈ h → v.root.id = x.root.id → v.root = x.root := fun w hw => hval w (by simp [hw])
    have hvused : ∀ k, Has v x.root.id k → Used (.add v :: h) x.root.id k := fun k hk => used_cons.mpr (Or.inl hk)
    -- adding at the front a call that does not meet `x` or stays inside
    have keep : Maximal h x → SingleInitialAdd (.add v :: h) x := by
      intro hm'
      obtain ⟨later, before, u, h1, h2, h3, h4, h5, h6⟩ := ih ha' hval' hcl.1 hm'
      refine ⟨.add v :: later, before, u, by rw [h1]; rfl, h2, h3, h4, h5, ?_⟩
      intro w hw hmeet
      rcases List.mem_cons.mp hw with hw | hw
      · simp only [Call.add.injEq] at hw; subst hw
        exact hm.absorb hvused hmeet
      · exact h6 w hw hmeet
    by_cases hmeet : ∃ k, Has v x.root.id k ∧ Has x x.root.id k
    · obtain ⟨k0, m1, m2⟩ := hmeet
      have hid : v.root.id = x.root.id := m1.1
      rcases hcl.2 hid with hf | hin
      · -- `x` is exactly `v`
        have hsub := hm.absorb hvused ⟨k0, m1, m2⟩
        have hfr : ∀ k, v.start.m - 1 ≤ k → k ≤ v.start.m + v.dim.m → ¬ Used h x.root.id k := by
          intro k a b; rw [← hid]; exact hf.2 k a b
        have b1 := hsub v.start.m ⟨hid, Int.le_refl _, by have := hf.1; omega⟩
        have b2 := hsub (v.start.m + v.dim.m - 1) ⟨hid, by have := hf.1; omega, by omega⟩
        have e1 : v.start.m = x.start.m := by
          apply Classical.byContradiction
          intro hne
          have := hm.used (v.start.m - 1) ⟨rfl, by have := b1.2; omega, by have := b1.2; omega⟩
          rcases used_cons.mp this with h | h
          · have := h.2; omega
          · exact hfr _ (by omega) (by have := hf.1; omega) h
        have e2 : v.dim.m = x.dim.m := by
          apply Classical.byContradiction
          intro hne
          have := hm.used (v.start.m + v.dim.m) ⟨rfl, by have := b2.2; have := hf.1; omega, by have := b2.2; omega⟩
          rcases used_cons.mp this with h | h
          · have := h.2; omega
          · exact hfr _ (by have := hf.1; omega) (by omega) h
        refine ⟨[], h, v, rfl, hval v (by simp) hid, e1, e2, ?_, by intro w hw; cases hw⟩
        intro k hk
        exact hfr k (by have := hk.2; omega) (by have := hk.2; omega)
      · apply keep
        have hsame : ∀ k, Used (.add v :: h) x.root.id k ↔ Used h x.root.id k := by
          intro k
          rw [used_cons]
          refine ⟨?_, Or.inr⟩
          rintro (h | h)
          · rw [← hid]; exact hin k ⟨rfl, h.2⟩
          · exact h
        exact ⟨hm.pos, fun k hk => (hsame k).mp (hm.used k hk), fun h => hm.left ((hsame _).mpr h),
          fun h => hm.right ((hsame _).mpr h)⟩
    · apply keep
      refine ⟨hm.pos, fun k hk => ?_, fun h => hm.left (used_cons.mpr (Or.inr h)),
        fun h => hm.right (used_cons.mpr (Or.inr h))⟩
      rcases used_cons.mp (hm.used k hk) with h | h
      · exact absurd ⟨k, h, hk⟩ hmeet
      · exact h

theorem single_clean {W : World} {h : List Call} (ha : AddOnly h) {l : List Item} (hl : Lists W h l) (i : Nat)
    (hs : ∀ x ∈ l, x.var.root.id = i → SingleInitialAdd h x.var) : ∀ h2 l1, h = l1 ++ h2 → Clean h2 i := by
  intro h2
  induction h2 with
  | nil => intro _ _; trivial
  | cons c h2 ih =>
    intro l1 heq
    obtain ⟨w, rfl⟩ := ha c (by rw [heq]; simp)
    refine ⟨ih (l1 ++ [.add w]) (by rw [heq]; simp), ?_⟩
    intro hw
    by_cases hpos : 0 < w.dim.m
    · have hw0 : Has w i w.start.m := ⟨hw, Int.le_refl _, by omega⟩
      obtain ⟨x, hx, hxk⟩ := (hl.cover i w.start.m).mpr
        ((used_iff ha _ _).mpr ⟨w, by rw [heq]; simp, hw0⟩)
      have hxi : x.var.root.id = i := hxk.1
      have hmax := lists_maximal ha hl hx
      obtain ⟨later, before, v, g1, g2, g3, g4, g5, g6⟩ := hs x hx hxi
      rw [hxi] at g5 g6
      have hvid : v.root.id = i := by rw [g2, hxi]
      rw [heq] at g1
      rcases List.append_eq_append_iff.mp g1 with ⟨m, a1, a2⟩ | ⟨m, a1, a2⟩
      · cases m with
        | nil =>
          simp only [List.nil_append, List.cons.injEq, Call.add.injEq] at a2
          obtain ⟨rfl, rfl⟩ := a2
          left
          refine ⟨hpos, ?_⟩
          intro k k1 k2
          rw [hw]
          have hml := hmax.left; have hmr := hmax.right
          rw [hxi] at hml hmr
          have hub : ∀ k, Used h2 i k → Used h i k := by
            rintro k ⟨u, u1, u2⟩; exact ⟨u, by rw [heq]; simp [u1], u2⟩
          by_cases c1 : k = w.start.m - 1
          · intro hu; apply hml; rw [← g3, ← c1]; exact hub _ hu
          by_cases c2 : k = w.start.m + w.dim.m
          · intro hu; apply hmr; rw [← g3, ← g4, ← c2]; exact hub _ hu
          exact g5 k ⟨hxi, by omega, by omega⟩
        | cons d m =>
          simp only [List.cons_append, List.cons.injEq] at a2
          obtain ⟨rfl, a2⟩ := a2
          right
          intro k hk
          rw [hw] at hk ⊢
          have := g6 w (by rw [a1]; simp) ⟨w.start.m, hw0, hxk⟩ k hk
          refine ⟨v, by rw [a2]; simp, hvid, ?_, ?_⟩
          · have := this.2; omega
          · have := this.2; omega
      · cases m with
        | nil =>
          simp only [List.nil_append, List.cons.injEq, Call.add.injEq] at a2
          obtain ⟨rfl, rfl⟩ := a2
          left
          refine ⟨hpos, ?_⟩
          intro k k1 k2
          rw [hw]
          have hml := hmax.left; have hmr := hmax.right
          rw [hxi] at hml hmr
          have hub : ∀ k, Used before i k → Used h i k := by
            rintro k ⟨u, u1, u2⟩; exact ⟨u, by rw [heq]; simp [u1], u2⟩
          by_cases c1 : k = v.start.m - 1
          · intro hu; apply hml; rw [← g3, ← c1]; exact hub _ hu
          by_cases c2 : k = v.start.m + v.dim.m
          · intro hu; apply hmr; rw [← g3, ← g4, ← c2]; exact hub _ hu
          exact g5 k ⟨hxi, by omega, by omega⟩
        | cons d m =>
          simp only [List.cons_append, List.cons.injEq] at a2
          obtain ⟨-, a2⟩ := a2
          exact absurd ⟨w, by rw [a2]; simp, hw0⟩ (g5 w.start.m hxk)
    · right
      intro k hk
      have := hk.2; omega

/-- **C65** What the flag of an element says in the terms of the documentation: it is `true` if and only if *every*
element of the same root variable appears because of a single initial add. -/
theorem C65_simple_exact {W : World} {s : VCV.State} {h : List Call} (hR : Reach W false s h) (ha : AddOnly h) :
    ∃ s1 l s2 fl, s.getVariables = .ok s1 l ∧ s.getSimple = .ok s2 fl ∧ fl.length = l.length ∧
      ∀ (j : Nat) (x : Item) (b : Bool), l[j]? = some x → fl[j]? = some b →
        (b = true ↔ ∀ y ∈ l, y.var.root.id = x.var.root.id → SingleInitialAdd h y.var) := by
  obtain ⟨s1, l, s2, fl, h1, h2, h3, h4⟩ := C65_simple_iff hR ha
  obtain ⟨s1', l', h1', hl⟩ := C07_variables_exact hR
  rw [h1] at h1'
  simp only [Outcome.ok.injEq] at h1'
  obtain ⟨rfl, rfl⟩ := h1'
  refine ⟨s1, l, s2, fl, h1, h2, h3, fun j x b hx hb => ?_⟩
  rw [h4 j x b hx hb]
  constructor
  · intro hcl y hy hyx
    refine clean_single ha ?_ (by rw [hyx]; exact hcl) (lists_maximal ha hl hy)
    intro v hv hid
    have e1 := ((reach_inv hR).calls v (Or.inl hv)).root
    have e2 := (hl.valid y hy).root
    rw [e1, e2, hid]
  · intro hs
    exact single_clean ha hl _ hs h [] rfl

/-- **C65** A flag is never wrongly `true` when only `add` is used. -/
theorem C65_simple_sound {W : World} {s : VCV.State} {h : List Call} (hR : Reach W false s h) (ha : AddOnly h) :
    ∃ s1 l s2 fl, s.getVariables = .ok s1 l ∧ s.getSimple = .ok s2 fl ∧
      ∀ (j : Nat) (x : Item), l[j]? = some x → fl[j]? = some true → SingleInitialAdd h x.var := by
  obtain ⟨s1, l, s2, fl, h1, h2, -, h4⟩ := C65_simple_exact hR ha
  exact ⟨s1, l, s2, fl, h1, h2, fun j x hx hb => (h4 j x true hx hb).mp rfl x (List.mem_of_getElem? hx) rfl⟩

/-! ### Where the documentation is wrong -/

/-- One Euclidean variable per id, of size 100. -/
def flat : World where
  root i := ⟨i, ⟨100, 100, 100⟩, true⟩
  root_id _ := rfl
  gR _ k := k
  gT _ k := k
  monoR _ := fun _ _ h => h
  monoT _ := fun _ _ h => h
  zeroR _ := rfl
  zeroT _ := rfl
  fullR _ := rfl
  fullT _ := rfl

/-- `x[a, a+d)` -/
def seg100 (a d : Int) : Var := ⟨⟨0, ⟨100, 100, 100⟩, true⟩, ⟨a, a, a⟩, ⟨d, d, d⟩⟩

theorem seg100_valid {a d : Int} (h0 : 0 ≤ a) (h1 : 0 ≤ d) (h2 : a + d ≤ 100) : Valid flat (seg100 a d) :=
  ⟨rfl, h0, h1, h2, rfl, rfl, rfl, rfl⟩

/-- A sequence of calls, stopped by anything else than a normal return. -/
def calls (s : VCV.State) : List Call → Option VCV.State
  | [] => some s
  | .add v :: l => match s.add v with
    | .ok s' _ => calls s' l
    | _ => none
  | .remove v :: l => match s.remove v with
    | .ok s' _ => calls s' l
    | _ => none

theorem reach_calls {W : World} : ∀ {l : List Call} {s s' : VCV.State} {h : List Call}, Reach W false s h →
    (∀ v, (Call.add v ∈ l ∨ Call.remove v ∈ l) → Valid W v) → calls s l = some s' →
    Reach W false s' (l.reverse ++ h) := by
  intro l
  induction l with
  | nil => intro s s' h hR _ he; simp only [calls, Option.some.injEq] at he; subst he; exact hR
  | cons c l ih =>
    intro s s' h hR hv he
    have hv' : ∀ v, (Call.add v ∈ l ∨ Call.remove v ∈ l) → Valid W v := by
      intro v hh; exact hv v (by rcases hh with hh | hh <;> simp [hh])
    rw [List.reverse_cons, List.append_assoc]
    cases c with
    | add v =>
      simp only [calls] at he
      split at he
      · rename_i s1 b h1
        exact ih (.add hR (hv v (Or.inl (by simp))) h1) hv' he
      · cases he
    | remove v =>
      simp only [calls] at he
      split at he
      · rename_i s1 b h1
        exact ih (.remove hR (hv v (Or.inr (by simp))) h1) hv' he
      · cases he

/-- `x[0,2)`, `x[5,7)`, `x[1,3)` added in this order. -/
def overlapping : List Call := [.add (seg100 0 2), .add (seg100 5 2), .add (seg100 1 2)]

/-- Calls that hide eleven pieces behind `x[0,50)`, then remove it; two pieces, `x[45,47)` and `x[46,48)`, overlap. -/
def removing : List Call :=
  [.add (seg100 0 50), .add (seg100 4 1), .add (seg100 8 1), .add (seg100 12 1), .add (seg100 16 1), .add (seg100 20 1),
   .add (seg100 24 1), .add (seg100 28 1), .add (seg100 32 1), .add (seg100 36 1), .add (seg100 40 1),
   .add (seg100 45 2), .add (seg100 46 2), .remove (seg100 0 50)]

/-- What is observed after the calls. -/
def observe (l : List Call) : Option (List Var × List Bool) :=
  match calls {} l with
  | none => none
  | some s => match s.getVariables, s.getSimple with
    | .ok _ vs, .ok _ fl => some (vs.map (·.var), fl)
    | _, _ => none

theorem observe_some {l : List Call} {vs : List Var} {fl : List Bool} (h : observe l = some (vs, fl))
    (hv : ∀ v, (Call.add v ∈ l ∨ Call.remove v ∈ l) → Valid flat v) :
    ∃ s s1 is s2, Reach flat false s l.reverse ∧ s.getVariables = .ok s1 is ∧ s.getSimple = .ok s2 fl ∧
      is.map (·.var) = vs := by
  unfold observe at h
  split at h
  · cases h
  · rename_i s hs
    have hR := reach_calls (W := flat) (h := []) .init hv hs
    rw [List.append_nil] at hR
    split at h
    · rename_i s1 is s2 fl' h1 h2
      simp only [Option.some.injEq, Prod.mk.injEq] at h
      rw [h.2] at h2
      exact ⟨s, s1, is, s2, hR, h1, h2, h.1⟩
    · cases h

/-- **C65** The documentation says that with only `add` the flags are exact. They are not: here `x[5,7)` appears
because of one single add that nothing else meets, and its flag is `false`. -/
theorem C65_not_exact : ∃ s s1 l s2 fl x, Reach flat false s overlapping.reverse ∧ AddOnly overlapping.reverse ∧
    s.getVariables = .ok s1 l ∧ s.getSimple = .ok s2 fl ∧ l[1]? = some x ∧ fl[1]? = some false ∧
    SingleInitialAdd overlapping.reverse x.var := by
  have ho : observe overlapping = some ([seg100 0 3, seg100 5 2], [false, false]) := by decide +kernel
  have hv : ∀ v, (Call.add v ∈ overlapping ∨ Call.remove v ∈ overlapping) → Valid flat v := by
    intro v hv
    simp only [overlapping, List.mem_cons, Call.add.injEq, List.not_mem_nil, or_false, reduceCtorEq] at hv
    rcases hv with rfl | rfl | rfl <;> exact seg100_valid (by decide) (by decide) (by decide)
  obtain ⟨s, s1, l, s2, hR, h1, h2, h3⟩ := observe_some ho hv
  have h4 : l[1]?.map (·.var) = some (seg100 5 2) := by
    rw [← List.getElem?_map, h3]; rfl
  obtain ⟨x, h5, h6⟩ := Option.map_eq_some_iff.mp h4
  · refine ⟨s, s1, _, s2, _, x, hR, ?_, h1, h2, h5, rfl, ?_⟩
    · intro c hc
      simp only [overlapping, List.reverse_cons, List.reverse_nil, List.nil_append, List.cons_append, List.mem_cons,
        List.not_mem_nil, or_false] at hc
      rcases hc with rfl | rfl | rfl <;> exact ⟨_, rfl⟩
    · rw [h6]
      refine ⟨[.add (seg100 1 2)], [.add (seg100 0 2)], seg100 5 2, rfl, rfl, rfl, rfl, ?_, ?_⟩
      · rintro k ⟨-, h1, h2⟩ ⟨w, hw, -, hw1, hw2⟩
        simp only [List.mem_cons, Call.add.injEq, List.not_mem_nil, or_false] at hw
        subst hw
        simp only [seg100] at *
        omega
      · rintro w hw ⟨k, ⟨-, h1, h2⟩, -, h3, h4⟩
        simp only [List.mem_cons, Call.add.injEq, List.not_mem_nil, or_false] at hw
        subst hw
        simp only [seg100] at *
        omega

/-- **C65** The documentation says that with removals the flags may be wrongly `false` but not wrongly `true`. They
may: here the last element is `x[45,48)`, its flag is `true`, and no call ever added it. -/
theorem C65_removal_unsound : ∃ s s1 l s2 fl x, Reach flat false s removing.reverse ∧
    s.getVariables = .ok s1 l ∧ s.getSimple = .ok s2 fl ∧ l[10]? = some x ∧ fl[10]? = some true ∧
    ∀ v, Call.add v ∈ removing.reverse → ¬ (v.start = x.var.start ∧ v.dim = x.var.dim) := by
  have ho : observe removing = some ([seg100 4 1, seg100 8 1, seg100 12 1, seg100 16 1, seg100 20 1, seg100 24 1,
      seg100 28 1, seg100 32 1, seg100 36 1, seg100 40 1, seg100 45 3], List.replicate 11 true) := by decide +kernel
  have hv : ∀ v, (Call.add v ∈ removing ∨ Call.remove v ∈ removing) → Valid flat v := by
    intro v hv
    simp only [removing, List.mem_cons, Call.add.injEq, Call.remove.injEq, List.not_mem_nil, or_false, false_or,
      reduceCtorEq] at hv
    rcases hv with (rfl | rfl | rfl | rfl | rfl | rfl | rfl | rfl | rfl | rfl | rfl | rfl | rfl) | rfl <;>
      exact seg100_valid (by decide) (by decide) (by decide)
  obtain ⟨s, s1, l, s2, hR, h1, h2, h3⟩ := observe_some ho hv
  have h4 : l[10]?.map (·.var) = some (seg100 45 3) := by
    rw [← List.getElem?_map, h3]; rfl
  obtain ⟨x, h5, h6⟩ := Option.map_eq_some_iff.mp h4
  refine ⟨s, s1, l, s2, _, x, hR, h1, h2, h5, rfl, ?_⟩
  intro v hv2
  rw [h6]
  simp only [List.mem_reverse, removing, List.mem_cons, Call.add.injEq, List.not_mem_nil, or_false, reduceCtorEq] at hv2
  rcases hv2 with rfl | rfl | rfl | rfl | rfl | rfl | rfl | rfl | rfl | rfl | rfl | rfl | rfl <;> decide

/-- A concrete case of the hypotheses of the theorems above, with two flags `true`. -/
example : ∃ s, Reach flat false s [.add (seg100 6 1), .add (seg100 5 2), .add (seg100 0 2)] ∧
    AddOnly [.add (seg100 6 1), .add (seg100 5 2), .add (seg100 0 2)] ∧
    ∃ s2, s.getSimple = .ok s2 [true, true] := by
  have ho : observe [.add (seg100 0 2), .add (seg100 5 2), .add (seg100 6 1)] =
      some ([seg100 0 2, seg100 5 2], [true, true]) := by decide +kernel
  obtain ⟨s, s1, l, s2, hR, h1, h2, h3⟩ := observe_some ho (by
    intro v hv
    simp only [List.mem_cons, Call.add.injEq, List.not_mem_nil, or_false, reduceCtorEq] at hv
    rcases hv with rfl | rfl | rfl <;> exact seg100_valid (by decide) (by decide) (by decide))
  exact ⟨s, hR, by intro c hc; simp only [List.mem_cons, List.not_mem_nil, or_false] at hc; grind, s2, h2⟩

end Verif.C65
