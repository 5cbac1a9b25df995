import Verif.Model.JointsSelector
/-!
# C76 - a selector keeps the columns of the active joints and only them
-/
set_option autoImplicit false
set_option linter.unusedSectionVars false

namespace Verif.C76
open Verif Verif.JSel

variable {S : Type} [DecidableEq S]

/-- The name of the joint of each degree of freedom of the robot, in order -/
def owners (mb : List (Joint S)) : List S := mb.flatMap (fun j => List.replicate j.dof j.name)

/-- The robot has a free-flyer: its first joint has 6 degrees of freedom -/
def HasFF (mb : List (Joint S)) : Prop := ∃ j, mb.head? = some j ∧ j.dof = 6

/-- The free-flyer is one of the joints `l` -/
def FFIn (mb : List (Joint S)) (l : List S) : Prop := ∃ j, mb.head? = some j ∧ j.dof = 6 ∧ j.name ∈ l

/-- Number of degrees of freedom in the variable of the free-flyer -/
def nFF (mb : List (Joint S)) : Nat := match mb with | ⟨_, 6⟩ :: _ => 6 | _ => 0

/-- Number of degrees of freedom in the variable of the joints -/
def nJ (mb : List (Joint S)) : Nat := (owners mb).length - nFF mb

/-- The column `c` of the variable of the joints belongs to a joint of `l` -/
def Active (mb : List (Joint S)) (l : List S) (c : Nat) : Prop := ∃ s ∈ l, (owners mb)[nFF mb + c]? = some s

instance (mb : List (Joint S)) (l : List S) (c : Nat) : Decidable (Active mb l c) := by
  unfold Active; infer_instance

/-! ## Positions -/

theorem posOf_zero (mb : List (Joint S)) : posOf mb 0 = 0 := by simp [posOf]

theorem posOf_cons (j : Joint S) (mb : List (Joint S)) (i : Nat) : posOf (j :: mb) (i + 1) = j.dof + posOf mb i := by
  simp [posOf]

theorem owners_at (mb : List (Joint S)) : ∀ (k : Nat) (s : S), (owners mb)[k]? = some s ↔
    ∃ (i : Nat) (j : Joint S), mb[i]? = some j ∧ j.name = s ∧ posOf mb i ≤ k ∧ k < posOf mb i + j.dof := by
  induction mb with
  | nil => intro k s; simp [owners]
  | cons a mb ih =>
    intro k s
    have e : owners (a :: mb) = List.replicate a.dof a.name ++ owners mb := by simp [owners]
    rw [e]
    by_cases hk : k < a.dof
    · rw [List.getElem?_append_left (by simpa using hk), List.getElem?_replicate]
      rw [if_pos hk]
      constructor
      · intro h
        exact ⟨0, a, rfl, by simpa using h, by simp [posOf_zero], by simpa [posOf_zero] using hk⟩
      · rintro ⟨i, j, h1, h2, h3, h4⟩
        cases i with
        | zero => simp at h1; subst h1; rw [h2]
        | succ i => rw [posOf_cons] at h3; omega
    · rw [List.getElem?_append_right (by simpa using hk), List.length_replicate, ih]
      constructor
      · rintro ⟨i, j, h1, h2, h3, h4⟩
        exact ⟨i + 1, j, by simpa using h1, h2, by rw [posOf_cons]; omega, by rw [posOf_cons]; omega⟩
      · rintro ⟨i, j, h1, h2, h3, h4⟩
        cases i with
        | zero => simp at h1; subst h1; rw [posOf_zero] at h4; omega
        | succ i =>
          rw [posOf_cons] at h3 h4
          exact ⟨i, j, by simpa using h1, h2, by omega, by omega⟩

theorem owners_length (mb : List (Joint S)) : ∀ (i : Nat) (j : Joint S), mb[i]? = some j → posOf mb i + j.dof ≤ (owners mb).length := by
  induction mb with
  | nil => intro i j h; simp at h
  | cons a mb ih =>
    intro i j h
    have e : (owners (a :: mb)).length = a.dof + (owners mb).length := by simp [owners]
    rw [e]
    cases i with
    | zero => simp at h; subst h; rw [posOf_zero]; omega
    | succ i =>
      have := ih i j (by simpa using h)
      rw [posOf_cons]; omega

theorem idxOf_some (mb : List (Joint S)) (s : S) (i : Nat) (h : idxOf mb s = some i) : ∃ j, mb[i]? = some j ∧ j.name = s := by
  unfold idxOf at h
  rw [List.findIdx?_eq_some_iff_getElem] at h
  obtain ⟨h1, h2, _⟩ := h
  exact ⟨mb[i], by simp, by simpa using h2⟩

theorem idxOf_none (mb : List (Joint S)) (s : S) : idxOf mb s = none ↔ ∀ j ∈ mb, j.name ≠ s := by
  unfold idxOf
  rw [List.findIdx?_eq_none_iff]
  simp

theorem idx_inj (mb : List (Joint S)) (hn : (mb.map Joint.name).Nodup) (i k : Nat) (a b : Joint S) (h1 : mb[i]? = some a) (h2 : mb[k]? = some b)
    (h : a.name = b.name) : i = k := by
  have e1 : (mb.map Joint.name)[i]? = some a.name := by simp [h1]
  have e2 : (mb.map Joint.name)[k]? = some a.name := by simp [h2, h]
  have l1 : i < (mb.map Joint.name).length := by
    rw [List.getElem?_eq_some_iff] at e1; exact e1.1
  exact (List.getElem?_inj l1 hn).1 (e1.trans e2.symm)

theorem dofOf_eq (mb : List (Joint S)) (i : Nat) (j : Joint S) (h : mb[i]? = some j) : dofOf mb i = j.dof := by
  simp [dofOf, h]

theorem ffSize_eq (mb : List (Joint S)) : ffSize mb = nFF mb := by
  unfold ffSize nFF dofOf
  cases mb with
  | nil => rfl
  | cons j mb =>
    obtain ⟨n, d⟩ := j
    by_cases h : d = 6
    · subst h; rfl
    · simp only [List.getElem?_cons_zero, Option.map_some, Option.getD_some]
      rw [if_neg h]
      split
      · simp_all
      · rfl

theorem nFF_pos (mb : List (Joint S)) (j : Joint S) (h : mb.head? = some j) : nFF mb = if j.dof = 6 then 6 else 0 := by
  cases mb with
  | nil => simp at h
  | cons a mb =>
    simp at h; subst h
    rw [← ffSize_eq]; simp [ffSize, dofOf]

theorem posOf_ge (mb : List (Joint S)) (i : Nat) (h : 0 < i) : nFF mb ≤ posOf mb i := by
  cases mb with
  | nil => simp [nFF]
  | cons j mb =>
    obtain ⟨i, rfl⟩ : ∃ k, i = k + 1 := ⟨i - 1, by omega⟩
    rw [posOf_cons, nFF_pos _ j rfl]
    split <;> omega

/-! ## The list of the ranges -/

/-- The column `c` is in a range of the list -/
def Cov (l : List (Int × Int)) (c : Int) : Prop := ∃ p ∈ l, p.1 ≤ c ∧ c < p.1 + p.2

/-- Column covered by a state of the loop -/
def CovS (t : Scan) (c : Int) : Prop := Cov t.acc c ∨ (t.start ≤ c ∧ c < t.start + t.size)

/-- The ranges are inside `[0, n)` and not empty -/
def Good (n : Int) (t : Scan) : Prop :=
  (∀ p ∈ t.acc, 0 ≤ p.1 ∧ 0 < p.2 ∧ p.1 + p.2 ≤ n) ∧ 0 ≤ t.start ∧ 0 ≤ t.size ∧ t.start + t.size ≤ n

theorem push_cov (t : Scan) (_h : 0 ≤ t.size) (c : Int) : Cov t.push c ↔ CovS t c := by
  unfold Scan.push CovS Cov
  by_cases h0 : t.size ≠ 0
  · rw [if_pos h0]
    simp only [List.mem_append, List.mem_singleton]
    constructor
    · rintro ⟨p, hp | rfl, h1⟩
      · exact Or.inl ⟨p, hp, h1⟩
      · exact Or.inr h1
    · rintro (⟨p, hp, h1⟩ | h1)
      · exact ⟨p, Or.inl hp, h1⟩
      · exact ⟨_, Or.inr rfl, h1⟩
  · rw [if_neg h0]
    constructor
    · exact fun h => Or.inl h
    · rintro (h | h)
      · exact h
      · omega

theorem push_good (n : Int) (t : Scan) (h : Good n t) : ∀ p ∈ t.push, 0 ≤ p.1 ∧ 0 < p.2 ∧ p.1 + p.2 ≤ n := by
  obtain ⟨h1, h2, h3, h4⟩ := h
  unfold Scan.push
  by_cases h0 : t.size ≠ 0
  · rw [if_pos h0]
    intro p hp
    rcases List.mem_append.1 hp with hp | hp
    · exact h1 p hp
    · simp only [List.mem_singleton] at hp
      subst hp
      exact ⟨h2, by omega, h4⟩
  · rw [if_neg h0]; exact h1

theorem step_spec (mb : List (Joint S)) (ff n : Int) (t : Scan) (i : Nat) (h : Good n t) (h0 : 0 ≤ (posOf mb i : Int) - ff)
    (h1 : (posOf mb i : Int) - ff + dofOf mb i ≤ n) :
    Good n (t.step mb ff i) ∧
      ∀ c, CovS (t.step mb ff i) c ↔ CovS t c ∨ ((posOf mb i : Int) - ff ≤ c ∧ c < (posOf mb i : Int) - ff + dofOf mb i) := by
  unfold Scan.step
  by_cases hp : (posOf mb i : Int) - ff ≠ t.start + t.size
  · simp only [if_pos hp]
    refine ⟨⟨push_good n t h, h0, by simp, h1⟩, fun c => ?_⟩
    rw [← push_cov t h.2.2.1]
    rfl
  · simp only [if_neg hp]
    obtain ⟨g1, g2, g3, g4⟩ := h
    refine ⟨⟨g1, g2, by simp; omega, by simp; omega⟩, fun c => ?_⟩
    unfold CovS
    simp only
    constructor
    · rintro (h | h)
      · exact Or.inl (Or.inl h)
      · by_cases hc : c < t.start + t.size
        · exact Or.inl (Or.inr ⟨h.1, hc⟩)
        · exact Or.inr ⟨by omega, by omega⟩
    · rintro ((h | h) | h)
      · exact Or.inl h
      · exact Or.inr ⟨h.1, by omega⟩
      · exact Or.inr ⟨by omega, by omega⟩

theorem scan_spec (mb : List (Joint S)) (ff n : Int) : ∀ (l : List S) (t t' : Scan), Good n t → scan mb ff t l = some t' →
    (∀ s ∈ l, ∀ i, idxOf mb s = some i → 0 ≤ (posOf mb i : Int) - ff ∧ (posOf mb i : Int) - ff + dofOf mb i ≤ n) →
    Good n t' ∧ ∀ c, CovS t' c ↔ CovS t c ∨
      ∃ s ∈ l, ∃ i, idxOf mb s = some i ∧ (posOf mb i : Int) - ff ≤ c ∧ c < (posOf mb i : Int) - ff + dofOf mb i := by
  intro l
  induction l with
  | nil =>
    intro t t' h he _
    simp only [scan, Option.some.injEq] at he
    subst he
    exact ⟨h, fun c => by simp⟩
  | cons s l ih =>
    intro t t' h he hb
    rw [scan] at he
    cases hi : idxOf mb s with
    | none => simp [hi] at he
    | some i =>
      simp only [hi] at he
      have hs := hb s (by simp) i hi
      obtain ⟨g, gc⟩ := step_spec mb ff n t i h hs.1 hs.2
      obtain ⟨g', gc'⟩ := ih _ _ g he (fun s' hs' => hb s' (by simp [hs']))
      refine ⟨g', fun c => ?_⟩
      rw [gc', gc]
      constructor
      · rintro ((h | h) | ⟨s', h1, h2⟩)
        · exact Or.inl h
        · exact Or.inr ⟨s, by simp, i, hi, h⟩
        · exact Or.inr ⟨s', by simp [h1], h2⟩
      · rintro (h | ⟨s', h1, k, h2, h3⟩)
        · exact Or.inl (Or.inl h)
        · rcases List.mem_cons.1 h1 with rfl | h1
          · rw [hi] at h2; cases h2
            exact Or.inl (Or.inr h3)
          · exact Or.inr ⟨s', h1, k, h2, h3⟩

theorem scan_none (mb : List (Joint S)) (ff : Int) : ∀ (l : List S) (t : Scan),
    scan mb ff t l = none ↔ ∃ s ∈ l, idxOf mb s = none := by
  intro l
  induction l with
  | nil => intro t; simp [scan]
  | cons s l ih =>
    intro t
    rw [scan]
    cases hi : idxOf mb s with
    | none => simp [hi]
    | some i => simp only [ih]; simp [hi]

/-! ## The selection -/

/-- What the theorems suppose of the robot and of the names: a joint at least, joints with different names, and the free-flyer named once at most -/
structure Input (mb : List (Joint S)) (l l' : List S) : Prop where
  nodup : (mb.map Joint.name).Nodup
  once : ∀ j, mb.head? = some j → j.dof = 6 → l.count j.name ≤ 1
  sorted : IsSorted mb l l'

theorem isFF_iff (mb : List (Joint S)) (l l' : List S) (h : Input mb l l') (hk : ∀ s ∈ l', idxOf mb s ≠ none) : isFF mb l' = true ↔ FFIn mb l := by
  unfold isFF FFIn
  cases hm : mb.head? with
  | none => simp
  | some j =>
    have m0 : mb[0]? = some j := by rw [← List.head?_eq_getElem?]; exact hm
    cases hl : l'.head? with
    | none =>
      have : l' = [] := by simpa using hl
      have hp := h.sorted.1
      rw [this] at hp
      have : l = [] := hp.symm.eq_nil
      simp [this]
    | some s =>
      obtain ⟨tl, htl⟩ : ∃ tl, l' = s :: tl := by
        cases l' with
        | nil => simp at hl
        | cons a b => simp at hl; exact ⟨b, by rw [hl]⟩
      simp only [Option.some.injEq, Bool.and_eq_true, beq_iff_eq]
      constructor
      · rintro ⟨h1, h2⟩
        exact ⟨j, rfl, h2, h.sorted.1.mem_iff.1 (by rw [htl, h1]; simp)⟩
      · rintro ⟨j', rfl, h2, h3⟩
        refine ⟨?_, h2⟩
        have h3' : j.name ∈ l' := h.sorted.1.mem_iff.2 h3
        rw [htl] at h3'
        rcases List.mem_cons.1 h3' with h3' | h3'
        · exact h3'.symm
        · -- the head has a position not after that of the free-flyer
          have hs := h.sorted.2
          rw [htl, List.pairwise_cons] at hs
          obtain ⟨i, hi⟩ := Option.ne_none_iff_exists'.1 (hk s (by rw [htl]; simp))
          obtain ⟨k, hkk⟩ := Option.ne_none_iff_exists'.1 (hk j.name (by rw [htl]; simp [h3']))
          have := hs.1 j.name h3' i k hi hkk
          obtain ⟨jk, e1, e2⟩ := idxOf_some mb j.name k hkk
          have k0 : k = 0 := idx_inj mb h.nodup k 0 jk j e1 m0 e2
          subst k0
          rw [posOf_zero] at this
          obtain ⟨ji, f1, f2⟩ := idxOf_some mb s i hi
          have i0 : i = 0 := by
            by_cases hi0 : i = 0
            · exact hi0
            · have := posOf_ge mb i (by omega)
              rw [nFF_pos mb j hm, if_pos h2] at this
              omega
          subst i0
          rw [m0] at f1
          cases f1
          exact f2.symm

/-- The names after the free-flyer has been taken out -/
theorem rest_spec (mb : List (Joint S)) (l l' : List S) (h : Input mb l l') (hk : ∀ s ∈ l', idxOf mb s ≠ none) (s : S) :
    s ∈ (if isFF mb l' then l'.tail else l') ↔ s ∈ l ∧ ¬ ∃ j, mb.head? = some j ∧ j.dof = 6 ∧ j.name = s := by
  by_cases hf : isFF mb l' = true
  · have hff := (isFF_iff mb l l' h hk).1 hf
    obtain ⟨j, hj, h6, hjl⟩ := hff
    rw [if_pos hf]
    cases hl : l' with
    | nil => rw [hl] at hf; simp [isFF] at hf
    | cons a tl =>
      have ha : a = j.name := by
        rw [hl] at hf; simp [isFF, hj] at hf; exact hf.1
      have hc := h.once j hj h6
      rw [← h.sorted.1.count_eq, hl, ha] at hc
      have hnot : j.name ∉ tl := by
        intro hm
        have := List.count_pos_iff.2 hm
        simp at hc
        omega
      have hm : s ∈ l ↔ s ∈ a :: tl := by rw [← hl]; exact h.sorted.1.mem_iff.symm
      rw [hm]
      simp only [List.tail_cons, List.mem_cons]
      constructor
      · intro hs
        refine ⟨Or.inr hs, ?_⟩
        rintro ⟨j', e1, e2, e3⟩
        rw [hj] at e1; cases e1
        exact hnot (by rw [e3]; exact hs)
      · rintro ⟨rfl | hs, hne⟩
        · exact absurd ⟨j, hj, h6, ha.symm⟩ hne
        · exact hs
  · rw [if_neg hf]
    rw [h.sorted.1.mem_iff]
    constructor
    · intro hs
      refine ⟨hs, ?_⟩
      rintro ⟨j, e1, e2, e3⟩
      exact hf ((isFF_iff mb l l' h hk).2 ⟨j, e1, e2, by rw [e3]; exact hs⟩)
    · exact fun h => h.1

theorem known_rest (mb : List (Joint S)) (l' : List S) (hmb : mb ≠ []) (h : ∃ s ∈ l', idxOf mb s = none) :
    ∃ s ∈ (if isFF mb l' then l'.tail else l'), idxOf mb s = none := by
  obtain ⟨s, hs, hn⟩ := h
  by_cases hf : isFF mb l' = true
  · rw [if_pos hf]
    cases hl : l' with
    | nil => rw [hl] at hs; simp at hs
    | cons a tl =>
      rw [hl] at hs hf
      rcases List.mem_cons.1 hs with rfl | hs
      · exfalso
        cases mb with
        | nil => exact hmb rfl
        | cons j mb =>
          simp [isFF] at hf
          rw [idxOf_none] at hn
          exact hn j (by simp) hf.1.symm
      · exact ⟨s, hs, hn⟩
  · rw [if_neg hf]; exact ⟨s, hs, hn⟩

theorem select_none (mb : List (Joint S)) (l' : List S) (hmb : mb ≠ []) : select mb l' = none ↔ ∃ s ∈ l', idxOf mb s = none := by
  have e : select mb l' = none ↔ scan mb (ffSize mb) ⟨0, 0, []⟩ (if isFF mb l' then l'.tail else l') = none := by
    unfold select
    simp only
    cases scan mb (ffSize mb) ⟨0, 0, []⟩ (if isFF mb l' then l'.tail else l') <;> simp
  rw [e, scan_none]
  constructor
  · rintro ⟨s, hs, hn⟩
    refine ⟨s, ?_, hn⟩
    split at hs
    · exact List.mem_of_mem_tail hs
    · exact hs
  · exact known_rest mb l' hmb

/-- `ActiveJoints` returns iff the function depends on the variables of the robot (those that are not empty) and every name is that of a joint of the robot. -/
theorem C76_returns (nff nj : Nat) (ffUsed jUsed : Bool) (mb : List (Joint S)) (l l' : List S) (hmb : mb ≠ []) (h : IsSorted mb l l') :
    (∃ s, activeJoints nff nj ffUsed jUsed mb l' = some s) ↔
      (nff ≠ 0 → ffUsed = true) ∧ (nj ≠ 0 → jUsed = true) ∧ ∀ s ∈ l, ∃ j ∈ mb, j.name = s := by
  have e1 : (∃ s, select mb l' = some s) ↔ ∀ s ∈ l, ∃ j ∈ mb, j.name = s := by
    rw [← Option.ne_none_iff_exists', Ne, select_none mb l' hmb]
    constructor
    · intro hn s hs
      rcases Classical.em (∃ j ∈ mb, j.name = s) with h1 | h1
      · exact h1
      · exact absurd ⟨s, h.1.mem_iff.2 hs, (idxOf_none mb s).2 (fun j hj he => h1 ⟨j, hj, he⟩)⟩ hn
    · rintro hn ⟨s, hs, hi⟩
      obtain ⟨j, hj, he⟩ := hn s (h.1.mem_iff.1 hs)
      exact (idxOf_none mb s).1 hi j hj he
  unfold activeJoints refused
  by_cases h1 : nff = 0 <;> by_cases h2 : nj = 0 <;> cases ffUsed <;> cases jUsed <;> simp [h1, h2, e1]

/-- The ranges of a selection are inside the variable of the joints, and they are exactly the columns of the active joints. -/
theorem select_spec (mb : List (Joint S)) (l l' : List S) (sel : Sel) (hmb : mb ≠ []) (h : Input mb l l') (he : select mb l' = some sel) :
    (sel.ffActive = true ↔ FFIn mb l) ∧ (∀ p ∈ sel.act, 0 ≤ p.1 ∧ 0 < p.2 ∧ p.1 + p.2 ≤ (nJ mb : Int)) ∧
      ∀ c : Nat, Cov sel.act c ↔ Active mb l c := by
  have hk : ∀ s ∈ l', idxOf mb s ≠ none := by
    intro s hs hn
    have := (select_none mb l' hmb).2 ⟨s, hs, hn⟩
    rw [he] at this; cases this
  have hrest := rest_spec mb l l' h hk
  unfold select at he
  simp only at he
  cases ht : scan mb (ffSize mb) ⟨0, 0, []⟩ (if isFF mb l' then l'.tail else l') with
  | none => simp [ht] at he
  | some t =>
    simp only [ht, Option.some.injEq] at he
    subst he
    obtain ⟨j0, mb', hmb'⟩ : ∃ j0 mb', mb = j0 :: mb' := by
      cases mb with
      | nil => exact absurd rfl hmb
      | cons a b => exact ⟨a, b, rfl⟩
    have hhead : mb.head? = some j0 := by rw [hmb']; rfl
    have m0 : mb[0]? = some j0 := by rw [hmb']; rfl
    have hge : ∀ s ∈ (if isFF mb l' then l'.tail else l'), ∀ i, idxOf mb s = some i → nFF mb ≤ posOf mb i := by
      intro s hs i hi
      by_cases h0 : i = 0
      · subst h0
        obtain ⟨j, e1, e2⟩ := idxOf_some mb s 0 hi
        rw [m0] at e1; cases e1
        by_cases h6 : j0.dof = 6
        · exact absurd ⟨j0, hhead, h6, e2⟩ ((hrest s).1 hs).2
        · rw [nFF_pos mb j0 hhead, if_neg h6]; omega
      · exact posOf_ge mb i (by omega)
    have hb : ∀ s ∈ (if isFF mb l' then l'.tail else l'), ∀ i, idxOf mb s = some i →
        0 ≤ (posOf mb i : Int) - (ffSize mb : Int) ∧ (posOf mb i : Int) - (ffSize mb : Int) + dofOf mb i ≤ (nJ mb : Int) := by
      intro s hs i hi
      obtain ⟨j, e1, e2⟩ := idxOf_some mb s i hi
      have := hge s hs i hi
      have := owners_length mb i j e1
      rw [ffSize_eq, dofOf_eq mb i j e1]
      unfold nJ
      omega
    have hg0 : Good (nJ mb : Int) ⟨0, 0, []⟩ := ⟨by simp, by simp, by simp, by simp⟩
    obtain ⟨hg, hc⟩ := scan_spec mb (ffSize mb) (nJ mb) _ _ _ hg0 ht hb
    refine ⟨isFF_iff mb l l' h hk, push_good _ t hg, fun c => ?_⟩
    show Cov t.push c ↔ _
    rw [push_cov t hg.2.2.1, hc]
    have hz : ¬ CovS ⟨0, 0, []⟩ (c : Int) := by unfold CovS Cov; simp
    unfold Active
    constructor
    · rintro (h1 | ⟨s, hs, i, hi, h1, h2⟩)
      · exact absurd h1 hz
      · refine ⟨s, ((hrest s).1 hs).1, ?_⟩
        obtain ⟨j, e1, e2⟩ := idxOf_some mb s i hi
        rw [dofOf_eq mb i j e1] at h2
        rw [ffSize_eq] at h1 h2
        exact (owners_at mb _ s).2 ⟨i, j, e1, e2, by omega, by omega⟩
    · rintro ⟨s, hs, ho⟩
      obtain ⟨i, j, e1, e2, h1, h2⟩ := (owners_at mb _ s).1 ho
      obtain ⟨k, hi⟩ := Option.ne_none_iff_exists'.1 (hk s (h.sorted.1.mem_iff.2 hs))
      obtain ⟨jk, f1, f2⟩ := idxOf_some mb s k hi
      have : k = i := idx_inj mb h.nodup k i jk j f1 e1 (by rw [f2, e2])
      subst this
      refine Or.inr ⟨s, (hrest s).2 ⟨hs, ?_⟩, k, hi, ?_, ?_⟩
      · rintro ⟨j', g1, g2, g3⟩
        rw [hhead] at g1; cases g1
        have : 0 = k := idx_inj mb h.nodup 0 k j0 j m0 e1 (by rw [g3, e2])
        subst this
        rw [m0] at e1; cases e1
        rw [nFF_pos mb j0 hhead, if_pos g2, posOf_zero] at h2
        omega
      · rw [ffSize_eq]; omega
      · rw [ffSize_eq, dofOf_eq mb k j e1]; omega

/-! ## The matrices -/

variable {K : Type} [Zero K]

theorem setAll_spec (src : Nat → Nat → K) : ∀ (l : List (Int × Int)) (J : Mat K), (∀ p ∈ l, 0 ≤ p.1 ∧ 0 < p.2 ∧ p.1 + p.2 ≤ (J.cols : Int)) →
    ∃ J', setAll src l J = some J' ∧ J'.cols = J.cols ∧
      ∀ (r c : Nat), (Cov l (c : Int) → J'.at_ r c = src r c) ∧ (¬ Cov l (c : Int) → J'.at_ r c = J.at_ r c) := by
  intro l
  induction l with
  | nil => intro J _; exact ⟨J, rfl, rfl, fun r c => ⟨(by rintro ⟨p, hp, _⟩; simp at hp), fun _ => rfl⟩⟩
  | cons p l ih =>
    intro J h
    have hp := h p (by simp)
    have e : setCols J src p = some ⟨J.cols, fun r c => if p.1 ≤ c ∧ (c : Int) < p.1 + p.2 then src r c else J.at_ r c⟩ := by
      unfold setCols
      rw [if_pos ⟨hp.1, by omega, hp.2.2⟩]
    obtain ⟨J', h1, h2, h3⟩ := ih ⟨J.cols, fun r c => if p.1 ≤ c ∧ (c : Int) < p.1 + p.2 then src r c else J.at_ r c⟩
      (fun q hq => h q (by simp [hq]))
    refine ⟨J', by rw [setAll, e]; exact h1, h2, fun r c => ?_⟩
    obtain ⟨h4, h5⟩ := h3 r c
    constructor
    · rintro ⟨q, hq, hc⟩
      by_cases hl : Cov l (c : Int)
      · exact h4 hl
      · rw [h5 hl]
        rcases List.mem_cons.1 hq with rfl | hq
        · exact if_pos hc
        · exact absurd ⟨q, hq, hc⟩ hl
    · intro hn
      rw [h5 (fun ⟨q, hq, hc⟩ => hn ⟨q, by simp [hq], hc⟩)]
      exact if_neg (fun hc => hn ⟨p, by simp, hc⟩)

/-- The histories of updates of a selector -/
inductive Hist : Selector K → Selector K → Prop where
  | refl (o : Selector K) : Hist o o
  | jac (o o' o'' : Selector K) (F J : Nat → Nat → K) : Hist o o' → o'.updateJacobian F J = some o'' → Hist o o''
  | dot (o o' o'' : Selector K) (F J : Nat → Nat → K) : Hist o o' → o'.updateJDot F J = some o'' → Hist o o''

/-- What a matrix of the selector is: there iff `b`, with `n` columns, and `e` in the columns that are not in a range -/
def IsMat (b : Prop) (n : Nat) (Z : Nat → Prop) (e : Nat → Nat → K) (m : Option (Mat K)) : Prop :=
  (b → ∃ M, m = some M ∧ M.cols = n ∧ ∀ r c, ¬ Z c → M.at_ r c = e r c) ∧ (¬ b → m = none)

structure Inv (sel : Sel) (nff nj : Nat) (e : Nat → Nat → K) (o : Selector K) : Prop where
  fsel : o.sel = sel
  fjff : IsMat (sel.ffActive = true) nff (fun _ => True) (fun _ _ => 0) o.jacFF
  fjj : IsMat (sel.act ≠ []) nj (fun c => Cov sel.act (c : Int)) (fun _ _ => 0) o.jacJ
  fdff : IsMat (sel.ffActive = true) nff (fun _ => True) (fun _ _ => 0) o.dotFF
  fdj : IsMat (sel.act ≠ []) nj (fun c => Cov sel.act (c : Int)) e o.dotJ

theorem ff_step (sel : Sel) (nff : Nat) (m : Option (Mat K)) (F : Nat → Nat → K)
    (h : IsMat (sel.ffActive = true) nff (fun _ => True) (fun _ _ => 0) m) :
    let m' := if sel.ffActive then m.map (fun m => (⟨m.cols, F⟩ : Mat K)) else m
    IsMat (sel.ffActive = true) nff (fun _ => True) (fun _ _ => 0) m' ∧ (sel.ffActive = true → m' = some ⟨nff, F⟩) := by
  intro m'
  by_cases hf : sel.ffActive = true
  · obtain ⟨M, e1, e2, _⟩ := h.1 hf
    have : m' = some ⟨nff, F⟩ := by
      show (if sel.ffActive then m.map (fun m => (⟨m.cols, F⟩ : Mat K)) else m) = _
      rw [if_pos hf, e1]; simp [e2]
    rw [this]
    exact ⟨⟨fun _ => ⟨_, rfl, rfl, by simp⟩, fun h => absurd hf h⟩, fun _ => rfl⟩
  · have : m' = m := by
      show (if sel.ffActive then m.map (fun m => (⟨m.cols, F⟩ : Mat K)) else m) = _
      rw [if_neg hf]
    rw [this]
    exact ⟨h, fun h => absurd h hf⟩

theorem jac_step (sel : Sel) (nff nj : Nat) (e : Nat → Nat → K) (o : Selector K) (h : Inv sel nff nj e o)
    (hg : ∀ p ∈ sel.act, 0 ≤ p.1 ∧ 0 < p.2 ∧ p.1 + p.2 ≤ (nj : Int)) (F J : Nat → Nat → K) :
    ∃ o', o.updateJacobian F J = some o' ∧ Inv sel nff nj e o' ∧ (sel.ffActive = true → o'.jacFF = some ⟨nff, F⟩) ∧
      (sel.act ≠ [] → ∃ M, o'.jacJ = some M ∧ ∀ (r c : Nat), Cov sel.act (c : Int) → M.at_ r c = J r c) := by
  obtain ⟨f1, f2⟩ := ff_step sel nff o.jacFF F h.fjff
  unfold Selector.updateJacobian
  rw [h.fsel]
  by_cases ha : sel.act ≠ []
  · obtain ⟨M, e1, e2, e3⟩ := h.fjj.1 ha
    obtain ⟨M', g1, g2, g3⟩ := setAll_spec J sel.act M (by rw [e2]; exact hg)
    simp only [if_pos ha, e1, g1]
    refine ⟨_, rfl, ⟨rfl, f1, ⟨fun _ => ⟨M', rfl, by rw [g2, e2], fun r c hc => ?_⟩, fun hn => absurd ha hn⟩, h.fdff, h.fdj⟩, f2,
      fun _ => ⟨M', rfl, fun r c hc => (g3 r c).1 hc⟩⟩
    rw [(g3 r c).2 hc]; exact e3 r c hc
  · simp only [if_neg ha]
    exact ⟨_, rfl, ⟨rfl, f1, h.fjj, h.fdff, h.fdj⟩, f2, fun hn => absurd hn ha⟩

theorem dot_step (sel : Sel) (nff nj : Nat) (e : Nat → Nat → K) (o : Selector K) (h : Inv sel nff nj e o)
    (hg : ∀ p ∈ sel.act, 0 ≤ p.1 ∧ 0 < p.2 ∧ p.1 + p.2 ≤ (nj : Int)) (F J : Nat → Nat → K) :
    ∃ o', o.updateJDot F J = some o' ∧ Inv sel nff nj e o' ∧ (sel.ffActive = true → o'.dotFF = some ⟨nff, F⟩) ∧
      (sel.act ≠ [] → ∃ M, o'.dotJ = some M ∧ ∀ (r c : Nat), Cov sel.act (c : Int) → M.at_ r c = J r c) := by
  obtain ⟨f1, f2⟩ := ff_step sel nff o.dotFF F h.fdff
  unfold Selector.updateJDot
  rw [h.fsel]
  by_cases ha : sel.act ≠ []
  · obtain ⟨M, e1, e2, e3⟩ := h.fdj.1 ha
    obtain ⟨M', g1, g2, g3⟩ := setAll_spec J sel.act M (by rw [e2]; exact hg)
    simp only [if_pos ha, e1, g1]
    refine ⟨_, rfl, ⟨rfl, h.fjff, h.fjj, f1, ⟨fun _ => ⟨M', rfl, by rw [g2, e2], fun r c hc => ?_⟩, fun hn => absurd ha hn⟩⟩, f2,
      fun _ => ⟨M', rfl, fun r c hc => (g3 r c).1 hc⟩⟩
    rw [(g3 r c).2 hc]; exact e3 r c hc
  · simp only [if_neg ha]
    exact ⟨_, rfl, ⟨rfl, h.fjff, h.fjj, f1, h.fdj⟩, f2, fun hn => absurd hn ha⟩

theorem make_inv (sel : Sel) (nff nj : Nat) (d e : Nat → Nat → K) : Inv sel nff nj e (make sel nff nj d e) := by
  have a : ∀ (b : Prop) [Decidable b] (n : Nat) (Z : Nat → Prop) (u w : Nat → Nat → K), (∀ r c, ¬ Z c → u r c = w r c) →
      IsMat b n Z w (if b then some (⟨n, u⟩ : Mat K) else none) := by
    intro b _ n Z u w hu
    exact ⟨fun h => ⟨⟨n, u⟩, by rw [if_pos h], rfl, hu⟩, fun h => by rw [if_neg h]⟩
  exact ⟨rfl, a _ _ _ _ _ (by simp), a _ _ _ _ _ (by simp), a _ _ _ _ _ (by simp), a _ _ _ _ _ (by simp)⟩

theorem Hist.inv (sel : Sel) (nff nj : Nat) (e : Nat → Nat → K)
    (hg : ∀ p ∈ sel.act, 0 ≤ p.1 ∧ 0 < p.2 ∧ p.1 + p.2 ≤ (nj : Int)) (o o' : Selector K) (hh : Hist o o') (h : Inv sel nff nj e o) :
    Inv sel nff nj e o' := by
  induction hh with
  | refl => exact h
  | jac o' o'' F J _ hu ih =>
    obtain ⟨o3, h1, h2, _⟩ := jac_step sel nff nj e o' ih hg F J
    rw [hu] at h1; cases h1; exact h2
  | dot o' o'' F J _ hu ih =>
    obtain ⟨o3, h1, h2, _⟩ := dot_step sel nff nj e o' ih hg F J
    rw [hu] at h1; cases h1; exact h2

theorem act_ne (mb : List (Joint S)) (l l' : List S) (sel : Sel) (hmb : mb ≠ []) (h : Input mb l l') (he : select mb l' = some sel) :
    sel.act ≠ [] ↔ ∃ c, Active mb l c := by
  obtain ⟨_, h2, h3⟩ := select_spec mb l l' sel hmb h he
  constructor
  · intro ha
    obtain ⟨p, hp⟩ := List.exists_mem_of_ne_nil _ ha
    have := h2 p hp
    exact ⟨p.1.toNat, (h3 _).1 ⟨p, hp, by omega, by omega⟩⟩
  · rintro ⟨c, hc⟩ hn
    obtain ⟨p, hp, _⟩ := (h3 c).2 hc
    rw [hn] at hp; simp at hp

/-- **C76** After any history of updates, an update of the jacobian of the selector of the joints `l` returns. The selector then depends on the free-flyer iff it is active,
with the jacobian of the function, and on the variable of the joints iff an active joint has a degree of freedom there; the columns of the active joints are those
of the function, the other ones are zero. -/
theorem C76_jacobian (mb : List (Joint S)) (l l' : List S) (sel : Sel) (nff : Nat) (d e : Nat → Nat → K) (o : Selector K) (F J : Nat → Nat → K)
    (hmb : mb ≠ []) (h : Input mb l l') (he : select mb l' = some sel) (hh : Hist (make sel nff (nJ mb) d e) o) :
    ∃ o', o.updateJacobian F J = some o' ∧
      (FFIn mb l → o'.jacFF = some ⟨nff, F⟩) ∧ (¬ FFIn mb l → o'.jacFF = none) ∧
      ((∃ c, Active mb l c) → ∃ M, o'.jacJ = some M ∧ M.cols = nJ mb ∧ ∀ r c, M.at_ r c = if Active mb l c then J r c else 0) ∧
      ((¬ ∃ c, Active mb l c) → o'.jacJ = none) := by
  obtain ⟨h1, h2, h3⟩ := select_spec mb l l' sel hmb h he
  have hi := hh.inv sel nff (nJ mb) e h2 _ _ (make_inv sel nff (nJ mb) d e)
  obtain ⟨o', g1, g2, g3, g4⟩ := jac_step sel nff (nJ mb) e o hi h2 F J
  have ha := act_ne mb l l' sel hmb h he
  refine ⟨o', g1, fun hf => g3 (h1.2 hf), fun hf => g2.fjff.2 (fun hc => hf (h1.1 hc)), fun hc => ?_, fun hc => g2.fjj.2 (fun hn => hc (ha.1 hn))⟩
  obtain ⟨M, e1, e2⟩ := g4 (ha.2 hc)
  obtain ⟨M', e1', e3, e4⟩ := g2.fjj.1 (ha.2 hc)
  rw [e1] at e1'; cases e1'
  refine ⟨M, e1, e3, fun r c => ?_⟩
  by_cases hA : Active mb l c
  · rw [if_pos hA]; exact e2 r c ((h3 c).2 hA)
  · rw [if_neg hA]; exact e4 r c (fun hn => hA ((h3 c).1 hn))

/-- The derivative of the jacobian: the columns of the active joints are those of the function, and the other ones are *what the memory held when the selector was built*
(`e`). Missing for the claim: zero in these columns, which is false. -/
theorem C76_jdot_partial (mb : List (Joint S)) (l l' : List S) (sel : Sel) (nff : Nat) (d e : Nat → Nat → K) (o : Selector K) (F J : Nat → Nat → K)
    (hmb : mb ≠ []) (h : Input mb l l') (he : select mb l' = some sel) (hh : Hist (make sel nff (nJ mb) d e) o) :
    ∃ o', o.updateJDot F J = some o' ∧
      (FFIn mb l → o'.dotFF = some ⟨nff, F⟩) ∧ (¬ FFIn mb l → o'.dotFF = none) ∧
      ((∃ c, Active mb l c) → ∃ M, o'.dotJ = some M ∧ M.cols = nJ mb ∧ ∀ r c, M.at_ r c = if Active mb l c then J r c else e r c) ∧
      ((¬ ∃ c, Active mb l c) → o'.dotJ = none) := by
  obtain ⟨h1, h2, h3⟩ := select_spec mb l l' sel hmb h he
  have hi := hh.inv sel nff (nJ mb) e h2 _ _ (make_inv sel nff (nJ mb) d e)
  obtain ⟨o', g1, g2, g3, g4⟩ := dot_step sel nff (nJ mb) e o hi h2 F J
  have ha := act_ne mb l l' sel hmb h he
  refine ⟨o', g1, fun hf => g3 (h1.2 hf), fun hf => g2.fdff.2 (fun hc => hf (h1.1 hc)), fun hc => ?_, fun hc => g2.fdj.2 (fun hn => hc (ha.1 hn))⟩
  obtain ⟨M, e1, e2⟩ := g4 (ha.2 hc)
  obtain ⟨M', e1', e3, e4⟩ := g2.fdj.1 (ha.2 hc)
  rw [e1] at e1'; cases e1'
  refine ⟨M, e1, e3, fun r c => ?_⟩
  by_cases hA : Active mb l c
  · rw [if_pos hA]; exact e2 r c ((h3 c).2 hA)
  · rw [if_neg hA]; exact e4 r c (fun hn => hA ((h3 c).1 hn))

/-- The selector of all the joints but `l`: the active columns are those of the joints that are not in `l`, and the conditions on the names hold. -/
theorem C76_inactive (mb : List (Joint S)) (l : List S) (hn : (mb.map Joint.name).Nodup) (l' : List S) (hs : IsSorted mb (complement mb l) l') :
    Input mb (complement mb l) l' ∧ (∀ s ∈ complement mb l, ∃ j ∈ mb, j.name = s) ∧
      (∀ c, Active mb (complement mb l) c ↔ ∃ s, (owners mb)[nFF mb + c]? = some s ∧ s ∉ l) ∧
      (FFIn mb (complement mb l) ↔ ∃ j, mb.head? = some j ∧ j.dof = 6 ∧ j.name ∉ l) := by
  have hm : ∀ s, s ∈ complement mb l ↔ (∃ j ∈ mb, j.name = s) ∧ s ∉ l := by
    intro s
    simp only [complement, List.mem_map, List.mem_filter]
    constructor
    · rintro ⟨j, ⟨h1, h2⟩, rfl⟩
      exact ⟨⟨j, h1, rfl⟩, by simpa using h2⟩
    · rintro ⟨⟨j, h1, rfl⟩, h2⟩
      exact ⟨j, ⟨h1, by simpa using h2⟩, rfl⟩
  have hnd : (complement mb l).Nodup := by
    unfold complement
    exact hn.sublist (List.Sublist.map _ (List.filter_sublist))
  refine ⟨⟨hn, fun j _ _ => List.nodup_iff_count.1 hnd _, hs⟩, fun s h => ((hm s).1 h).1, fun c => ?_, ?_⟩
  · constructor
    · rintro ⟨s, h1, h2⟩
      exact ⟨s, h2, ((hm s).1 h1).2⟩
    · rintro ⟨s, h1, h2⟩
      obtain ⟨i, j, e1, e2, _⟩ := (owners_at mb _ s).1 h1
      exact ⟨s, (hm s).2 ⟨⟨j, List.mem_of_getElem? e1, e2⟩, h2⟩, h1⟩
  · constructor
    · rintro ⟨j, h1, h2, h3⟩
      exact ⟨j, h1, h2, ((hm _).1 h3).2⟩
    · rintro ⟨j, h1, h2, h3⟩
      exact ⟨j, h1, h2, (hm _).2 ⟨⟨j, List.mem_of_mem_head? h1, rfl⟩, h3⟩⟩

/-! ## Cases -/

/-- A robot with a free-flyer, a fixed joint, and joints of 1, 2 and 1 degrees of freedom -/
def mb₀ : List (Joint Nat) := [⟨0, 6⟩, ⟨1, 1⟩, ⟨2, 0⟩, ⟨3, 2⟩, ⟨4, 1⟩]

theorem sorted₀ : IsSorted mb₀ [4, 2, 1, 0] [0, 1, 2, 4] := by
  refine ⟨by decide, ?_⟩
  simp only [List.pairwise_cons, List.mem_cons, List.not_mem_nil, or_false, forall_eq_or_imp, forall_eq, List.Pairwise.nil, and_true, false_imp_iff, implies_true]
  refine ⟨⟨?_, ?_, ?_⟩, ⟨?_, ?_⟩, ?_⟩ <;> (intro i j hi hj; revert hi hj) <;>
    (simp [idxOf, mb₀, List.findIdx?_cons]; rintro rfl rfl; decide)

theorem input₀ : Input mb₀ [4, 2, 1, 0] [0, 1, 2, 4] := by
  refine ⟨by decide, ?_, sorted₀⟩
  intro j hj _
  simp [mb₀] at hj; subst hj; decide

/-- The selector of the joints 4, 2, 1 and of the free-flyer keeps the columns 0 and 3 -/
example : ∃ sel, select mb₀ [0, 1, 2, 4] = some sel ∧ sel.ffActive = true ∧ sel.act = [(0, 1), (3, 1)] :=
  ⟨⟨true, [(0, 1), (3, 1)]⟩, by decide, rfl, rfl⟩

/-- The derivative of the jacobian is not what the claim says: with a memory that held ones, the column 1 of the joint 3, which is not active, is one after the update. -/
theorem C76_jdot_false : ∃ (sel : Sel) (o' : Selector Nat) (M : Mat Nat), select mb₀ [0, 1, 2, 4] = some sel ∧ ¬ Active mb₀ [4, 2, 1, 0] 1 ∧
    (make sel 6 (nJ mb₀) (fun _ _ => 1) (fun _ _ => 1)).updateJDot (fun _ _ => 0) (fun _ _ => 0) = some o' ∧ o'.dotJ = some M ∧ M.at_ 0 1 ≠ 0 := by
  refine ⟨⟨true, [(0, 1), (3, 1)]⟩, _, _, by decide, by decide, rfl, rfl, by decide⟩

/-- The free-flyer named twice: the update of the jacobian writes the columns from -6 on. -/
theorem C76_twice_undefined : ∃ sel, select mb₀ [0, 0, 1] = some sel ∧ IsSorted mb₀ [0, 0, 1] [0, 0, 1] ∧
    (make sel 6 (nJ mb₀) (fun _ _ => 0) (fun _ _ => 0)).updateJacobian (fun _ _ => (1 : Nat)) (fun _ _ => 1) = none := by
  refine ⟨⟨true, [(-6, 7)]⟩, by decide, ⟨List.Perm.refl _, ?_⟩, by decide⟩
  simp only [List.pairwise_cons, List.mem_cons, List.not_mem_nil, or_false, forall_eq_or_imp, forall_eq, List.Pairwise.nil, and_true, false_imp_iff, implies_true]
  refine ⟨⟨?_, ?_⟩, ?_⟩ <;> (intro i j hi hj; revert hi hj) <;>
    (simp [idxOf, mb₀, List.findIdx?_cons]; try (rintro rfl rfl; decide))

/-- The theorems for this selection -/
example : ∃ sel o', select mb₀ [0, 1, 2, 4] = some sel ∧ (make sel 6 (nJ mb₀) (fun _ _ => 0) (fun _ _ => 0)).updateJacobian (fun _ _ => (1 : Nat)) (fun r c => r + c) = some o' ∧
    (FFIn mb₀ [4, 2, 1, 0] → o'.jacFF = some ⟨6, fun _ _ => 1⟩) := by
  obtain ⟨o', h, h', -⟩ := C76_jacobian mb₀ [4, 2, 1, 0] [0, 1, 2, 4] ⟨true, [(0, 1), (3, 1)]⟩ 6 (fun _ _ => 0) (fun _ _ => 0) _ (fun _ _ => (1 : Nat)) (fun r c => r + c)
    (by simp [mb₀]) input₀ (by decide) (.refl _)
  exact ⟨⟨true, [(0, 1), (3, 1)]⟩, o', by decide, h, h'⟩
example : ∃ s, activeJoints 6 4 true true mb₀ [0, 1, 2, 4] = some s :=
  (C76_returns 6 4 true true mb₀ [4, 2, 1, 0] [0, 1, 2, 4] (by simp [mb₀]) sorted₀).2 ⟨fun _ => rfl, fun _ => rfl, by decide⟩

end Verif.C76
