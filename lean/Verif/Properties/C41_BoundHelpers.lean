import Verif.Model.BoundHelpers
import Verif.Properties.C16_MatrixProperties
/-!
# C41: a constraint is treated as a bound only when it is one

The constraint is a relation on `J x`, for a variable `x` of size `n`; when `x` is replaced by `S y + b`, it is a relation on `J (S y + b)`.
-/
set_option autoImplicit false

namespace Verif.C41
open Verif Verif.MP Verif.AS Verif.BH Verif.C16 Matrix

/-! ## Specification -/

/-- The relation of a row -/
def rel (ty : CType) (l u e v : ℝ) : Prop :=
  match ty with
  | .equal => v = e
  | .greaterThan => l ≤ v
  | .lowerThan => v ≤ u
  | .doubleSided => l ≤ v ∧ v ≤ u

/-- What a set must be to be given as a bound of the convention `target`: componentwise lower bounds, upper bounds, or intervals (a missing
side is `none`). -/
def IsBox {n : Nat} (target : CType) (F : (Fin n → ℝ) → Prop) : Prop :=
  match target with
  | .equal => False
  | .greaterThan => ∃ lo : Fin n → ℝ, ∀ y, F y ↔ ∀ i, lo i ≤ y i
  | .lowerThan => ∃ hi : Fin n → ℝ, ∀ y, F y ↔ ∀ i, y i ≤ hi i
  | .doubleSided => ∃ lo hi : Fin n → Option ℝ, ∀ y, F y ↔ ∀ i, (∀ a ∈ lo i, a ≤ y i) ∧ ∀ b ∈ hi i, y i ≤ b

/-! ## Rows -/

theorem row_interval (ty : CType) (d c l u e : ℝ) (hd : d ≠ 0) :
    ∃ lo hi : Option ℝ, ∀ r, rel ty l u e (d * r + c) ↔ (∀ a ∈ lo, a ≤ r) ∧ ∀ b ∈ hi, r ≤ b := by
  have ge : 0 < d → ∀ t r, t ≤ d * r + c ↔ (t - c) / d ≤ r := by
    intro h t r
    rw [div_le_iff₀ h, sub_le_iff_le_add, mul_comm]
  have le : 0 < d → ∀ t r, d * r + c ≤ t ↔ r ≤ (t - c) / d := by
    intro h t r
    rw [le_div_iff₀ h, le_sub_iff_add_le, mul_comm]
  have ge' : d < 0 → ∀ t r, t ≤ d * r + c ↔ r ≤ (t - c) / d := by
    intro h t r
    rw [le_div_iff_of_neg h, sub_le_iff_le_add, mul_comm]
  have le' : d < 0 → ∀ t r, d * r + c ≤ t ↔ (t - c) / d ≤ r := by
    intro h t r
    rw [div_le_iff_of_neg h, le_sub_iff_add_le, mul_comm]
  rcases lt_or_gt_of_ne hd with h | h
  · cases ty
    · refine ⟨some ((e - c) / d), some ((e - c) / d), fun r => ?_⟩
      simp only [rel, Option.mem_def, Option.some.injEq, forall_eq']
      rw [← ge' h, ← le' h]
      exact ⟨fun a => ⟨a.le, a.ge⟩, fun a => le_antisymm a.1 a.2⟩
    · exact ⟨none, some ((l - c) / d), fun r => by simp [rel, ge' h]⟩
    · exact ⟨some ((u - c) / d), none, fun r => by simp [rel, le' h]⟩
    · exact ⟨some ((u - c) / d), some ((l - c) / d), fun r => by simp [rel, ge' h, le' h, and_comm]⟩
  · cases ty
    · refine ⟨some ((e - c) / d), some ((e - c) / d), fun r => ?_⟩
      simp only [rel, Option.mem_def, Option.some.injEq, forall_eq']
      rw [← ge h, ← le h]
      exact ⟨fun a => ⟨a.ge, a.le⟩, fun a => le_antisymm a.2 a.1⟩
    · exact ⟨some ((l - c) / d), none, fun r => by simp [rel, ge h]⟩
    · exact ⟨none, some ((u - c) / d), fun r => by simp [rel, le h]⟩
    · exact ⟨some ((l - c) / d), some ((u - c) / d), fun r => by simp [rel, ge h, le h]⟩

variable {n : Nat}

theorem diag_mulVec {A : M n} (h : Diag A) (y : Fin n → ℝ) (i : Fin n) : (A *ᵥ y) i = A i i * y i := by
  simp only [mulVec, dotProduct]
  rw [Finset.sum_eq_single i]
  · intro j _ hj; rw [h i j (Ne.symm hj), zero_mul]
  · intro hi; exact absurd (Finset.mem_univ i) hi

theorem diag_ne {A : M n} (h : Diag A) (hi : Inv A) (i : Fin n) : A i i ≠ 0 := by
  obtain ⟨B, hB, _⟩ := hi
  intro h0
  have h1 := congrFun (congrFun hB i) i
  rw [Matrix.mul_apply, Finset.sum_eq_single i] at h1
  · rw [h0, zero_mul, Matrix.one_apply_eq] at h1; exact zero_ne_one h1
  · intro j _ hj; rw [h i j (Ne.symm hj), zero_mul]
  · intro hn; exact absurd (Finset.mem_univ i) hn

theorem diag_quad {A : M n} (h : Diag A) (i : Fin n) : quad A (Pi.single i 1) = A i i := by
  simp only [quad, dotProduct, diag_mulVec h]
  rw [Finset.sum_eq_single i]
  · simp
  · intro j _ hj; simp [hj]
  · intro hn; exact absurd (Finset.mem_univ i) hn

theorem single_ne (i : Fin n) : (Pi.single i 1 : Fin n → ℝ) ≠ 0 := by
  intro h
  have := congrFun h i
  simp at this

theorem pd_pos {A : M n} (h : Diag A) (hp : PD A) (i : Fin n) : 0 < A i i := by
  rw [← diag_quad h i]; exact hp.2 _ (single_ne i)

theorem nd_neg {A : M n} (h : Diag A) (hp : ND A) (i : Fin n) : A i i < 0 := by
  rw [← diag_quad h i]; exact hp.2 _ (single_ne i)

/-- Intervals, for any relation on `D y + c` with `D` diagonal and invertible -/
theorem box_double (ty : CType) (D : M n) (hD : Diag D) (hi : ∀ i, D i i ≠ 0) (c l u e : Fin n → ℝ) :
    IsBox .doubleSided fun y : Fin n → ℝ => ∀ i, rel ty (l i) (u i) (e i) ((D *ᵥ y) i + c i) := by
  have h : ∀ i, ∃ p : Option ℝ × Option ℝ, ∀ r, rel ty (l i) (u i) (e i) (D i i * r + c i) ↔ (∀ a ∈ p.1, a ≤ r) ∧ ∀ b ∈ p.2, r ≤ b := by
    intro i
    obtain ⟨lo, hi', h⟩ := row_interval ty (D i i) (c i) (l i) (u i) (e i) (hi i)
    exact ⟨(lo, hi'), h⟩
  choose p hp using h
  refine ⟨fun i => (p i).1, fun i => (p i).2, fun y => forall_congr' fun i => ?_⟩
  rw [diag_mulVec hD, hp]

theorem box_single (D : M n) (hD : Diag D) (l u e : Fin n → ℝ) :
    ((∀ i, 0 < D i i) → IsBox .greaterThan fun y : Fin n → ℝ => ∀ i, rel .greaterThan (l i) (u i) (e i) ((D *ᵥ y) i)) ∧
    ((∀ i, 0 < D i i) → IsBox .lowerThan fun y : Fin n → ℝ => ∀ i, rel .lowerThan (l i) (u i) (e i) ((D *ᵥ y) i)) ∧
    ((∀ i, D i i < 0) → IsBox .greaterThan fun y : Fin n → ℝ => ∀ i, rel .lowerThan (l i) (u i) (e i) ((D *ᵥ y) i)) ∧
    ((∀ i, D i i < 0) → IsBox .lowerThan fun y : Fin n → ℝ => ∀ i, rel .greaterThan (l i) (u i) (e i) ((D *ᵥ y) i)) := by
  refine ⟨fun h => ⟨fun i => l i / D i i, fun y => forall_congr' fun i => ?_⟩, fun h => ⟨fun i => u i / D i i, fun y => forall_congr' fun i => ?_⟩,
    fun h => ⟨fun i => u i / D i i, fun y => forall_congr' fun i => ?_⟩, fun h => ⟨fun i => l i / D i i, fun y => forall_congr' fun i => ?_⟩⟩ <;>
    rw [diag_mulVec hD]
  · rw [div_le_iff₀ (h i), mul_comm]; rfl
  · rw [le_div_iff₀ (h i), mul_comm]; rfl
  · rw [div_le_iff_of_neg (h i), mul_comm]; rfl
  · rw [le_div_iff_of_neg (h i), mul_comm]; rfl

/-! ## The claims -/

/-- **C41**, variable that is not substituted: if the constraint is accepted, it has this only variable, in which it is linear, no part of the
variable is substituted, and its feasible set is a box of the convention of the target, whatever the right hand sides. -/
theorem C41_plain {T : Type} (inter : Nat → Nat → Bool) (c : Cstr) (xs : List (Nat × Sub)) (target : CType) (J : T → M n)
    (hn : ∀ p ∈ xs, ∀ x ∈ c.vars, p.1 ≠ x) (hJ : ∀ x ∈ c.vars, Sound (c.jac x) J)
    (h : canBeUsedAsBound inter c xs target = some true) (t : T) (l u e : Fin n → ℝ) :
    (∃ x, c.vars = [x] ∧ c.linear x = true ∧ ∀ p ∈ xs, inter x p.1 = false) ∧
      IsBox target fun x : Fin n → ℝ => ∀ i, rel c.type (l i) (u i) (e i) ((J t *ᵥ x) i) := by
  unfold canBeUsedAsBound at h
  cases hb : isBoundSub inter c xs with
  | none => rw [hb] at h; simp at h
  | some b =>
    cases b with
    | false => rw [hb] at h; simp at h
    | true =>
      simp only [hb] at h
      unfold isBoundSub at hb
      by_cases hi : isBound c = true
      · rw [if_pos hi] at hb
        unfold isBound at hi
        cases hv : c.vars with
        | nil => rw [hv] at hi; simp at hi
        | cons x r =>
          simp only [hv] at hi hb h
          simp only [Bool.and_eq_true, decide_eq_true_eq, List.length_cons] at hi
          obtain ⟨⟨⟨i1, i2⟩, i3⟩, i4⟩ := hi
          have hr : r = [] := by cases r <;> simp at i2 ⊢
          have hf : xs.find? (fun p => p.1 == x) = none := by
            rw [List.find?_eq_none]
            intro p hp
            simpa using hn p hp x (by rw [hv]; simp)
          simp only [hf] at hb h
          have hint : ∀ p ∈ xs, inter x p.1 = false := by
            by_cases ha : (xs.any fun p => inter x p.1) = true
            · rw [if_pos ha] at hb; simp at hb
            · intro p hp
              simp only [List.any_eq_true, not_exists, not_and] at ha
              simpa using ha p hp
          have hS := hJ x (by rw [hv]; simp)
          have hD := hS.diagonal i3 t
          have hI := hS.invertible i4 t
          refine ⟨⟨x, by rw [hr], i1, hint⟩, ?_⟩
          have dbl := box_double c.type (J t) hD (diag_ne hD hI) (fun _ => 0) l u e
          simp only [add_zero] at dbl
          obtain ⟨s1, s2, s3, s4⟩ := box_single (J t) hD l u e
          have hp : (c.jac x).isPositiveDefinite = true → ∀ i, 0 < J t i i := fun hp i => pd_pos hD (hS.pd hp t) i
          have hq : (c.jac x).isNegativeDefinite = true → ∀ i, J t i i < 0 := fun hp i => nd_neg hD (hS.nd hp t) i
          cases target <;> cases ht : c.type <;> simp [ht] at h dbl ⊢
          · exact s1 (hp h)
          · exact s3 (hq h)
          · exact s4 (hq h)
          · exact s2 (hp h)
          all_goals exact dbl
      · rw [if_neg hi] at hb; simp at hb

/-- **C41**, substituted variable: if the constraint is accepted, its feasible set in the variable substituted into is a box of the convention
of the target. The substitution does not have the first substituted variable among its variables (the substituted variables are gone). -/
theorem C41_substituted {T : Type} (inter : Nat → Nat → Bool) (c : Cstr) (xs : List (Nat × Sub)) (target : CType) (J S : T → M n)
    (x : Nat) (s : Sub) (hx : x ∈ c.vars) (hs : xs.find? (fun p => p.1 == x) = some (x, s))
    (hfirst : ∀ p ∈ xs.head?, s.jac p.1 = none)
    (hJ : Sound (c.jac x) J) (hS : ∀ v ∈ s.vars, ∀ q, s.jac v = some q → Sound q S)
    (h : canBeUsedAsBound inter c xs target = some true) (t : T) (b l u e : Fin n → ℝ) :
    (∃ v, c.vars = [x] ∧ c.linear x = true ∧ s.vars = [v]) ∧
      IsBox target fun y : Fin n → ℝ => ∀ i, rel c.type (l i) (u i) (e i) ((J t *ᵥ (S t *ᵥ y + b)) i) := by
  unfold canBeUsedAsBound at h
  cases hb : isBoundSub inter c xs with
  | none => rw [hb] at h; simp at h
  | some bb =>
    cases bb with
    | false => rw [hb] at h; simp at h
    | true =>
      simp only [hb] at h
      unfold isBoundSub at hb
      by_cases hi : isBound c = true
      · rw [if_pos hi] at hb
        unfold isBound at hi
        cases hv : c.vars with
        | nil => rw [hv] at hi; simp at hi
        | cons x' r =>
          simp only [hv] at hi hb h
          simp only [Bool.and_eq_true, decide_eq_true_eq, List.length_cons] at hi
          obtain ⟨⟨⟨i1, i2⟩, i3⟩, i4⟩ := hi
          have hr : r = [] := by cases r <;> simp at i2 ⊢
          subst hr
          have hxx : x' = x := by rw [hv] at hx; simp at hx; exact hx.symm
          subst hxx
          simp only [hs] at hb h
          cases hsv : s.vars with
          | nil => simp [hsv] at hb
          | cons v r =>
            cases r with
            | cons _ _ => simp [hsv] at hb
            | nil =>
              simp only [hsv] at hb
              cases hq : s.jac v with
              | none => simp [hq] at hb
              | some q =>
                simp only [hq, Option.some.injEq, Bool.and_eq_true] at hb
                have hSq := hS v (by rw [hsv]; simp) q hq
                have hD := hJ.diagonal i3 t
                have hI := hJ.invertible i4 t
                have hD' := hSq.diagonal hb.1 t
                have hI' := hSq.invertible hb.2 t
                refine ⟨⟨v, rfl, i1, rfl⟩, ?_⟩
                have hfalse : (xs.head?.bind fun h => s.jac h.1) = none := by
                  cases hh : xs.head? with
                  | none => rfl
                  | some p => exact hfirst p (by rw [hh]; rfl)
                have hDD : Diag (J t * S t) := by
                  intro i j hij
                  rw [Matrix.mul_apply]
                  apply Finset.sum_eq_zero
                  intro k _
                  by_cases hk : i = k
                  · subst hk; rw [hD' i j hij, mul_zero]
                  · rw [hD i k hk, zero_mul]
                have hII : ∀ i, (J t * S t) i i ≠ 0 := by
                  intro i
                  rw [Matrix.mul_apply, Finset.sum_eq_single i]
                  · exact mul_ne_zero (diag_ne hD hI i) (diag_ne hD' hI' i)
                  · intro j _ hj; rw [hD i j (Ne.symm hj), zero_mul]
                  · intro hn; exact absurd (Finset.mem_univ i) hn
                have dbl := box_double c.type (J t * S t) hDD hII (J t *ᵥ b) l u e
                have heq : ∀ y : Fin n → ℝ, J t *ᵥ (S t *ᵥ y + b) = (J t * S t) *ᵥ y + J t *ᵥ b := by
                  intro y; rw [mulVec_add, mulVec_mulVec]
                simp only [heq, Pi.add_apply]
                cases target <;> cases ht : c.type <;> simp [ht, hfalse] at h dbl ⊢ <;> exact dbl
      · rw [if_neg hi] at hb; simp at hb

/-- With a double sided target, exactly these constraints are accepted: linear in a single variable with a Jacobian that is known to be
diagonal and invertible, the variable having no common part with a substituted variable, or being substituted by a function of a single
variable with a Jacobian that is known to be diagonal and invertible. -/
theorem C41_double_iff (inter : Nat → Nat → Bool) (c : Cstr) (xs : List (Nat × Sub)) (hok : ∀ p ∈ xs, ∀ v ∈ p.2.vars, (p.2.jac v).isSome = true) :
    canBeUsedAsBound inter c xs .doubleSided = some true ↔
      ∃ x, c.vars = [x] ∧ c.linear x = true ∧ (c.jac x).isDiagonal = true ∧ (c.jac x).isInvertible = true ∧
        match xs.find? fun p => p.1 == x with
        | none => ∀ p ∈ xs, inter x p.1 = false
        | some p => ∃ v q, p.2.vars = [v] ∧ p.2.jac v = some q ∧ q.isDiagonal = true ∧ q.isInvertible = true := by
  have red : canBeUsedAsBound inter c xs .doubleSided = isBoundSub inter c xs := by
    unfold canBeUsedAsBound
    cases isBoundSub inter c xs with
    | none => rfl
    | some b => cases b <;> rfl
  rw [red]
  unfold isBoundSub isBound
  cases hv : c.vars with
  | nil => simp
  | cons x r =>
    cases r with
    | cons y r => simp
    | nil =>
      simp only [List.length_singleton, decide_true, Bool.and_true, List.cons.injEq, and_true, exists_eq_left']
      by_cases hc : (c.linear x && (c.jac x).isDiagonal && (c.jac x).isInvertible) = true
      · rw [if_pos hc]
        simp only [Bool.and_eq_true] at hc
        obtain ⟨⟨c1, c2⟩, c3⟩ := hc
        simp only [c1, c2, c3, true_and]
        cases hf : xs.find? fun p => p.1 == x with
        | none =>
          simp only
          by_cases ha : (xs.any fun p => inter x p.1) = true
          · rw [if_pos ha]
            simp only [List.any_eq_true] at ha
            obtain ⟨p, hp, hpi⟩ := ha
            simp only [Option.some.injEq, Bool.false_eq_true, false_iff, not_forall]
            exact ⟨p, hp, by rw [hpi]; simp⟩
          · rw [if_neg ha]
            simp only [List.any_eq_true, not_exists, not_and, Bool.not_eq_true] at ha
            simpa using ha
        | some p =>
          simp only
          cases hpv : p.2.vars with
          | nil => simp
          | cons v r =>
            cases r with
            | cons _ _ => simp
            | nil =>
              simp only
              have := hok p (List.mem_of_find?_eq_some hf) v (by rw [hpv]; simp)
              cases hq : p.2.jac v with
              | none => rw [hq] at this; simp at this
              | some q => simp [hq]
      · rw [if_neg hc]
        simp only [Bool.and_eq_true, not_and] at hc
        simp only [Option.some.injEq, Bool.false_eq_true, false_iff]
        rintro ⟨a, b, d, _⟩
        exact hc ⟨a, b⟩ d

/-- The Jacobian asked in line 145 is not that of the variable of the substitution: for a one sided constraint and a one sided target, a bound
on a substituted variable is never accepted nor refused, the call throws. -/
theorem C41_one_sided_throws (inter : Nat → Nat → Bool) (c : Cstr) (xs : List (Nat × Sub)) (target : CType) (x : Nat) (s : Sub)
    (hx : c.vars.head? = some x) (hs : xs.find? (fun p => p.1 == x) = some (x, s)) (hfirst : ∀ p ∈ xs.head?, s.jac p.1 = none)
    (hb : isBoundSub inter c xs = some true) (ht : target = .greaterThan ∨ target = .lowerThan) (hc : c.type = .greaterThan ∨ c.type = .lowerThan) :
    canBeUsedAsBound inter c xs target = none := by
  have hfalse : (xs.head?.bind fun h => s.jac h.1) = none := by
    cases hh : xs.head? with
    | none => rfl
    | some p => exact hfirst p (by rw [hh]; rfl)
  unfold canBeUsedAsBound
  cases hv : c.vars with
  | nil => rw [hv] at hx; simp at hx
  | cons y r =>
    rw [hv] at hx
    simp at hx
    subst hx
    rcases ht with rfl | rfl <;> rcases hc with hc | hc <;> simp [hb, hc, hs, hfalse]

/-! ## Concrete cases -/

/-- `D x ≤ u` with `D` diagonal and negative definite: accepted as a lower bound -/
def exNd : Cstr := ⟨.lowerThan, [0], fun _ => true, fun _ => ⟨false, true, .diagonal, true, .nd⟩⟩

example : canBeUsedAsBound (fun _ _ => false) exNd [] .greaterThan = some true ∧ canBeUsedAsBound (fun _ _ => false) exNd [] .lowerThan = some false ∧
    MP.make (some .diagonal) (some .nd) none none = some (exNd.jac 0) := by decide

/-- The hypothesis on the Jacobian is met by a diagonal negative definite matrix. -/
example : Sound (exNd.jac 0) (fun _ : Unit => (-(2 : ℝ)) • (1 : M 2)) := by
  have hd : Diag ((-(2 : ℝ)) • (1 : M 2)) := by intro i j hij; simp [Matrix.one_apply_ne hij]
  have hs : Sym ((-(2 : ℝ)) • (1 : M 2)) := by
    intro i j
    by_cases h : i = j
    · subst h; rfl
    · rw [hd i j h, hd j i (Ne.symm h)]
  have hq : ∀ x : Fin 2 → ℝ, quad ((-(2 : ℝ)) • (1 : M 2)) x = -2 * (x ⬝ᵥ x) := by intro x; rw [quad_smul, quad_one]
  have hn : ND ((-(2 : ℝ)) • (1 : M 2)) := ⟨hs, fun x hx => by rw [hq]; linarith [dot_pos hx]⟩
  have hI : Inv ((-(2 : ℝ)) • (1 : M 2)) := nd_inv hn
  refine ⟨?_, fun _ _ => hI, ?_, ?_, ?_, fun _ _ => hd, ?_, ?_, ?_, ?_, fun _ _ => hs, ?_, ?_, fun _ _ => nd_nsd hn, fun _ _ => hn, fun _ _ => hs,
    fun _ _ => ⟨hs, hI⟩⟩
  · intro h; exact absurd h (by decide)
  · intro _ _; exact Or.inl fun i j hij => hd i j (ne_of_lt hij)
  · intro _ _ i j hij; exact hd i j (ne_of_lt hij)
  · intro _ _ i j hij; exact hd i j (ne_of_gt hij)
  all_goals (intro h; exact absurd h (by decide))

/-- A variable `1` substituted by a function of the variable `2`, with a diagonal invertible Jacobian, after the substitution of the variable
`0` by a function of `2` -/
def exSubs : List (Nat × Sub) :=
  [(0, ⟨[2], fun v => if v = 2 then some ⟨false, true, .diagonal, true, .pd⟩ else none⟩),
   (1, ⟨[2], fun v => if v = 2 then some ⟨false, true, .diagonal, true, .pd⟩ else none⟩)]

/-- A bound on the variable `1`: accepted for a double sided target; with a one sided target the call throws. -/
def exOn1 : Cstr := ⟨.greaterThan, [1], fun _ => true, fun _ => ⟨true, true, .identity, true, .pd⟩⟩

example : canBeUsedAsBound (fun _ _ => false) exOn1 exSubs .doubleSided = some true ∧
    canBeUsedAsBound (fun _ _ => false) exOn1 exSubs .greaterThan = none ∧ isBoundSub (fun _ _ => false) exOn1 exSubs = some true := by decide

example : (∀ p ∈ exSubs.head?, ((exSubs[1]).2).jac p.1 = none) ∧ (exSubs.find? fun p => p.1 == 1).isSome = true := by decide

-- the theorems applied to these constraints
theorem exNd_sound : Sound (exNd.jac 0) (fun _ : Unit => (-(2 : ℝ)) • (1 : M 2)) :=
  C16_declared_sound (some .diagonal) (some .nd) none none _ _
    ⟨by rintro x ⟨⟩ _; exact multiple_diag ⟨-2, rfl⟩,
     by
      rintro x ⟨⟩ _
      have : PD ((2 : ℝ) • (1 : M 2)) := pos_smul (p := .pd) (by norm_num) pd_one
      show ND _
      rw [nd_iff]; simpa using this, by simp, by simp⟩ (by decide)

theorem one_sound : Sound (⟨true, true, .identity, true, .pd⟩ : Props) (fun _ : Unit => (1 : M 2)) :=
  C16_declared_sound (some .identity) none none none _ _ ⟨by rintro x ⟨⟩ _; rfl, by simp, by simp, by simp⟩ (by decide)

theorem two_sound : Sound (⟨false, true, .diagonal, true, .pd⟩ : Props) (fun _ : Unit => (2 : ℝ) • (1 : M 2)) :=
  C16_declared_sound (some .diagonal) (some .pd) none none _ _
    ⟨by rintro x ⟨⟩ _; exact multiple_diag ⟨2, rfl⟩, by rintro x ⟨⟩ _; exact pos_smul (p := .pd) (by norm_num) pd_one, by simp, by simp⟩
    (by decide)

example (l u e : Fin 2 → ℝ) :
    IsBox .greaterThan fun x : Fin 2 → ℝ => ∀ i, rel .lowerThan (l i) (u i) (e i) ((((-(2 : ℝ)) • (1 : M 2)) *ᵥ x) i) :=
  (C41_plain (fun _ _ => false) exNd [] .greaterThan _ (by simp) (fun x _ => exNd_sound) (by decide) () l u e).2
example (b l u e : Fin 2 → ℝ) :
    IsBox .doubleSided fun y : Fin 2 → ℝ => ∀ i, rel .greaterThan (l i) (u i) (e i) (((1 : M 2) *ᵥ (((2 : ℝ) • (1 : M 2)) *ᵥ y + b)) i) :=
  (C41_substituted (fun _ _ => false) exOn1 exSubs .doubleSided (fun _ : Unit => (1 : M 2)) (fun _ => (2 : ℝ) • (1 : M 2)) 1 _
    (by simp [exOn1]) rfl (by decide) one_sound
    (by
      intro v hv q hq
      simp only [List.mem_singleton] at hv
      subst hv
      simp only [ite_true, Option.some.injEq] at hq
      subst hq
      exact two_sound) (by decide) () b l u e).2
example : ∃ x, exOn1.vars = [x] ∧ exOn1.linear x = true := by
  obtain ⟨x, h1, h2, _⟩ := (C41_double_iff (fun _ _ => false) exOn1 exSubs (by decide)).1 (by decide)
  exact ⟨x, h1, h2⟩
example : canBeUsedAsBound (fun _ _ => false) exOn1 exSubs .greaterThan = none :=
  C41_one_sided_throws (fun _ _ => false) exOn1 exSubs .greaterThan 1 _ rfl rfl (by decide) (by decide) (Or.inl rfl) (Or.inl rfl)

end Verif.C41
