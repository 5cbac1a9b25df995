import Verif.Model.SchemeAbilities
/-!
# C58: which tasks a scheme accepts
-/
set_option autoImplicit false

namespace Verif.SA

/-! ## Specification -/

/-- The level `p` is one of the `n` levels of the scheme, or the scheme has no limit. -/
def Handled (s : SchemeAbilities) (p : Int) : Prop := s.numberOfLevels = -1 ∨ (0 ≤ p ∧ p < s.numberOfLevels)

/-- `a` describes what the scheme can do at level `p`: the abilities given for this level, or the general ones if there
are none. -/
def Describes (s : SchemeAbilities) (p : Int) (a : LevelAbilities) : Prop :=
  s.abilities.lookup p = some a ∨ (s.abilities.lookup p = none ∧ s.abilities.lookup (-1) = some a)

/-- The level allows the type of the constraint and the evaluation of its violation. -/
def Allows (a : LevelAbilities) (isEquality : Bool) (v : VET) : Prop :=
  (isEquality = true ∨ a.inequalities = true) ∧ v ∈ a.evaluationTypes

/-! ## Theorems -/

theorem level_check (a : LevelAbilities) (e : Bool) (v : VET) :
    (a.check e v = .ok ↔ Allows a e v) ∧ a.check e v ≠ .outOfRange := by
  unfold LevelAbilities.check Allows
  cases e <;> cases h : a.inequalities <;> by_cases hv : v ∈ a.evaluationTypes <;> simp [hv]

/-- **C58, decision.** A scheme with at least one level (or no limit) accepts a task of priority `p ≥ 0` iff its level is
handled or scalarization is allowed, and the abilities of this level, or the general ones, allow it. -/
theorem C58_accepts (s : SchemeAbilities) (p : Int) (e : Bool) (v : VET) (hp : 0 ≤ p)
    (hn : s.numberOfLevels = -1 ∨ 0 < s.numberOfLevels) :
    s.check p e v = .ok ↔
      (Handled s p ∨ s.scalarization = true) ∧ ∃ a, Describes s p a ∧ Allows a e v := by
  unfold SchemeAbilities.check SchemeAbilities.find generalLevel
  by_cases hc : s.numberOfLevels > 0 ∧ p ≥ s.numberOfLevels ∧ s.scalarization = false
  · rw [if_pos hc]
    simp only [reduceCtorEq, false_iff, not_and, Handled]
    rintro (h | h)
    · omega
    · rw [hc.2.2] at h; simp at h
  · rw [if_neg hc]
    have hh : Handled s p ∨ s.scalarization = true := by
      unfold Handled
      cases hs : s.scalarization with
      | true => right; rfl
      | false => left; rw [hs] at hc; simp at hc; omega
    simp only [hh, true_and, Describes]
    cases h1 : s.abilities.lookup p with
    | some a => simp [(level_check a e v).1]
    | none =>
      cases h2 : s.abilities.lookup (-1) with
      | some a => simp [(level_check a e v).1]
      | none => simp

/-- **C58, lookup.** A scheme that could be constructed gives a verdict with an explanation for every level it handles: the
lookup of the abilities cannot fail. -/
theorem C58_lookup_handled (n : Int) (m : List (Int × LevelAbilities)) (sc : Bool) (s : SchemeAbilities)
    (h : SchemeAbilities.make n m sc = some s) (p : Int) (e : Bool) (v : VET) (hp : Handled s p) :
    s.check p e v ≠ .outOfRange := by
  have hs : s = ⟨n, sc, m⟩ := by
    unfold SchemeAbilities.make at h
    repeat' split at h
    all_goals simp at h
    all_goals exact h.symm
  subst hs
  unfold SchemeAbilities.check SchemeAbilities.find generalLevel
  split
  · simp
  · cases h1 : List.lookup p m with
    | some a => exact (level_check a e v).2
    | none =>
      cases h2 : List.lookup (-1) m with
      | some a => exact (level_check a e v).2
      | none =>
        exfalso
        unfold SchemeAbilities.make at h
        have hg : absent m generalLevel = true := by simp [absent, generalLevel, h2]
        have ha : absent m p = true := by simp [absent, h1]
        rcases hp with hp | ⟨hp0, hp1⟩
        · simp only at hp
          subst hp
          simp only [generalLevel] at hg
          simp [hg, generalLevel] at h
        · simp only at hp1
          rw [if_neg (by omega), if_pos (by omega), if_pos] at h
          · exact absurd h (by simp)
          · refine ⟨hg, List.any_eq_true.2 ⟨p.toNat, ?_, ?_⟩⟩
            · simp only [List.mem_range]; omega
            · rw [Int.toNat_of_nonneg hp0]; exact ha

/-- The constructor accepts exactly the descriptions that cover the levels handled. -/
theorem C58_construction (n : Int) (m : List (Int × LevelAbilities)) (sc : Bool) :
    (SchemeAbilities.make n m sc).isSome = true ↔
      -1 ≤ n ∧ ((m.lookup (-1)).isSome = true ∨ (0 ≤ n ∧ ∀ i : Int, 0 ≤ i → i < n → (m.lookup i).isSome = true)) := by
  unfold SchemeAbilities.make absent generalLevel
  by_cases h1 : n < 0 ∧ n ≠ -1
  · rw [if_pos h1]; simp; omega
  · rw [if_neg h1]
    by_cases h2 : 0 ≤ n
    · rw [if_pos h2]
      by_cases h3 : (m.lookup (-1)).isNone = true ∧ (List.range n.toNat).any (fun i => (m.lookup (i : Int)).isNone) = true
      · rw [if_pos h3]
        simp only [Option.isSome_none, Bool.false_eq_true, false_iff, not_and, not_or]
        intro _
        refine ⟨?_, ?_⟩
        · have := h3.1; cases hl : m.lookup (-1) <;> simp_all
        · intro _ hall
          obtain ⟨i, hi, hn⟩ := List.any_eq_true.1 h3.2
          have := hall i (by omega) (by simp at hi; omega)
          cases hl : m.lookup (i : Int) <;> simp_all
      · rw [if_neg h3]
        simp only [Option.isSome_some, true_iff]
        refine ⟨by omega, ?_⟩
        cases hl : m.lookup (-1) with
        | some a => left; rfl
        | none =>
          right
          refine ⟨h2, fun i hi hin => ?_⟩
          cases hi2 : m.lookup i with
          | some a => rfl
          | none =>
            exfalso
            apply h3
            refine ⟨by simp [hl], List.any_eq_true.2 ⟨i.toNat, by simp; omega, ?_⟩⟩
            rw [Int.toNat_of_nonneg hi, hi2]; rfl
    · rw [if_neg h2]
      have : n = -1 := by omega
      subst this
      cases hl : m.lookup (-1) <;> simp

/-- **C58 is false for scalarized levels.** `WeightedLeastSquares` declares two levels and scalarization for the others.
A task of priority 2 or more is announced as handled by scalarization, but the lookup of its abilities fails with
`std::out_of_range`, whatever its constraint. -/
theorem C58_scalarized_levels_false : SchemeAbilities.make 2 wls.abilities true = some wls ∧
    ∀ (p : Int) (e : Bool) (v : VET), 2 ≤ p → wls.scalarization = true ∧ wls.check p e v = .outOfRange := by
  refine ⟨by decide, fun p e v hp => ⟨rfl, ?_⟩⟩
  have h0 : (p == 0) = false := by simp; omega
  have h1 : (p == 1) = false := by simp; omega
  simp [SchemeAbilities.check, SchemeAbilities.find, wls, List.lookup, h0, h1, generalLevel]

/-- What the weighted scheme accepts in fact: L2 tasks of priority 0, and equality L2 tasks of priority 1. -/
theorem C58_wls (p : Int) (e : Bool) (v : VET) (hp : 0 ≤ p) :
    wls.check p e v = .ok ↔ v = .l2 ∧ (p = 0 ∨ (p = 1 ∧ e = true)) := by
  by_cases h0 : p = 0
  · subst h0; cases e <;> cases v <;> decide
  · by_cases h1 : p = 1
    · subst h1; cases e <;> cases v <;> decide
    · rw [(C58_scalarized_levels_false.2 p e v (by omega)).2]; simp; omega

/-- What the hierarchical scheme accepts: every L2 task. -/
theorem C58_hls (p : Int) (e : Bool) (v : VET) : hls.check p e v = .ok ↔ v = .l2 := by
  by_cases hp : p = -1
  · subst hp; cases e <;> cases v <;> decide
  · have : (p == -1) = false := by simp [hp]
    cases e <;> cases v <;> simp [SchemeAbilities.check, SchemeAbilities.find, hls, List.lookup, generalLevel, this, LevelAbilities.check]

/-- The hypothesis on the number of levels in `C58_accepts` is needed: with zero levels the constructor accepts the
abilities, and the scheme accepts tasks although it handles no level. -/
theorem C58_zero_levels : ∃ s, SchemeAbilities.make 0 [(-1, ⟨true, [.l2]⟩)] false = some s ∧ s.scalarization = false ∧
    (∀ p, ¬ Handled s p) ∧ s.check 5 false .l2 = .ok :=
  ⟨⟨0, false, [(-1, ⟨true, [.l2]⟩)]⟩, by decide, rfl, by simp [Handled], by decide⟩

/-! ## Non-vacuity -/

example : Handled wls 1 ∧ ¬ Handled wls 2 ∧ Handled hls 7 := by simp [Handled, wls, hls, generalLevel]
example : wls.check 0 false .l2 = .ok ∧ wls.check 1 false .l2 = .rejected ∧ wls.check 1 true .l1 = .rejected := by decide
example : SchemeAbilities.make 3 [(0, ⟨true, [.l2]⟩), (2, ⟨true, [.l2]⟩)] true = none := by decide

end Verif.SA
