import Verif.Model.MatrixProperties
import Mathlib.LinearAlgebra.Matrix.NonsingularInverse
import Mathlib.LinearAlgebra.Matrix.ToLinearEquiv
import Mathlib.Data.Real.Basic
import Mathlib.Tactic.Linarith
import Mathlib.Tactic.Ring
import Mathlib.Tactic.FieldSimp
/-!
# C16 - C21: the algebra of matrix properties

A matrix expression, whose value changes with the state of the program, is a family `A : T → Matrix (Fin n) (Fin n) ℝ`.
-/
set_option autoImplicit false

namespace Verif.C16
open Verif Verif.MP Matrix

/-! ## Specification: what the properties mean -/

abbrev M (n : Nat) := Matrix (Fin n) (Fin n) ℝ

section
variable {n : Nat}

def Lower (A : M n) : Prop := ∀ i j, i < j → A i j = 0
def Upper (A : M n) : Prop := ∀ i j, j < i → A i j = 0
def Diag (A : M n) : Prop := ∀ i j, i ≠ j → A i j = 0
def Multiple (A : M n) : Prop := ∃ a : ℝ, A = a • (1 : M n)
def Sym (A : M n) : Prop := ∀ i j, A i j = A j i
def Inv (A : M n) : Prop := ∃ B : M n, A * B = 1 ∧ B * A = 1
/-- the quadratic form `xᵀ A x` -/
def quad (A : M n) (x : Fin n → ℝ) : ℝ := x ⬝ᵥ (A *ᵥ x)
def PSD (A : M n) : Prop := Sym A ∧ ∀ x, 0 ≤ quad A x
def PD (A : M n) : Prop := Sym A ∧ ∀ x, x ≠ 0 → 0 < quad A x
def NSD (A : M n) : Prop := Sym A ∧ ∀ x, quad A x ≤ 0
def ND (A : M n) : Prop := Sym A ∧ ∀ x, x ≠ 0 → quad A x < 0

/-- Every query answered positively is true of the matrix. -/
structure Sound {T : Type} (p : Props) (A : T → M n) : Prop where
  constant : p.isConstant = true → ∀ s t, A s = A t
  invertible : p.isInvertible = true → ∀ t, Inv (A t)
  triangular : p.isTriangular = true → ∀ t, Lower (A t) ∨ Upper (A t)
  lower : p.isLowerTriangular = true → ∀ t, Lower (A t)
  upper : p.isUpperTriangular = true → ∀ t, Upper (A t)
  diagonal : p.isDiagonal = true → ∀ t, Diag (A t)
  multiple : p.isMultipleOfIdentity = true → ∀ t, Multiple (A t)
  identity : p.isIdentity = true → ∀ t, A t = 1
  minusIdentity : p.isMinusIdentity = true → ∀ t, A t = -1
  zero : p.isZero = true → ∀ t, A t = 0
  symmetric : p.isSymmetric = true → ∀ t, Sym (A t)
  psd : p.isPositiveSemiDefinite = true → ∀ t, PSD (A t)
  pd : p.isPositiveDefinite = true → ∀ t, PD (A t)
  nsd : p.isNegativeSemidefinite = true → ∀ t, NSD (A t)
  nd : p.isNegativeDefinite = true → ∀ t, ND (A t)
  indef : p.isIndefinite = true → ∀ t, Sym (A t)
  nzIndef : p.isNonZeroIndefinite = true → ∀ t, Sym (A t) ∧ Inv (A t)

/-- What the declaration of a shape asserts. -/
def ShapeOK (s : Shape) (A : M n) : Prop :=
  match s with
  | .general => True
  | .lower => Lower A
  | .upper => Upper A
  | .diagonal => Diag A
  | .multiple => Multiple A
  | .identity => A = 1
  | .minusIdentity => A = -1
  | .zero => A = 0

/-- What the declaration of a positiveness asserts. -/
def PosOK (p : Pos) (A : M n) : Prop :=
  match p with
  | .na => True
  | .psd => PSD A
  | .pd => PD A
  | .nsd => NSD A
  | .nd => ND A
  | .indef => Sym A
  | .nzIndef => Sym A ∧ Inv A

/-- The declarations that are made are true. -/
structure Declared {T : Type} (s : Option Shape) (p : Option Pos) (c i : Option Bool) (A : T → M n) : Prop where
  shape : ∀ x, s = some x → ∀ t, ShapeOK x (A t)
  pos : ∀ x, p = some x → ∀ t, PosOK x (A t)
  constant : c = some true → ∀ a b, A a = A b
  invertible : i = some true → ∀ t, Inv (A t)

/-- An object obtained from a constructor. -/
def Built (p : Props) : Prop := ∃ s q c i, make s q c i = some p

/-! ## Facts on matrices -/

theorem quad_neg (A : M n) (x : Fin n → ℝ) : quad (-A) x = -quad A x := by
  simp [quad, Matrix.neg_mulVec]

theorem quad_add (A B : M n) (x : Fin n → ℝ) : quad (A + B) x = quad A x + quad B x := by
  simp [quad, Matrix.add_mulVec, dotProduct_add]

theorem quad_smul (d : ℝ) (A : M n) (x : Fin n → ℝ) : quad (d • A) x = d * quad A x := by
  simp [quad, Matrix.smul_mulVec]

theorem quad_one (x : Fin n → ℝ) : quad (1 : M n) x = x ⬝ᵥ x := by simp [quad]

theorem dot_nonneg (x : Fin n → ℝ) : 0 ≤ x ⬝ᵥ x := Finset.sum_nonneg (fun i _ => mul_self_nonneg (x i))

theorem dot_pos {x : Fin n → ℝ} (hx : x ≠ 0) : 0 < x ⬝ᵥ x := by
  rcases lt_or_eq_of_le (dot_nonneg x) with h | h
  · exact h
  · exfalso
    apply hx
    funext i
    have := (Finset.sum_eq_zero_iff_of_nonneg (fun i _ => mul_self_nonneg (x i))).mp h.symm i (Finset.mem_univ i)
    simpa using this

theorem sym_iff {A : M n} : Sym A ↔ Aᵀ = A := by
  constructor
  · intro h; ext i j; exact h j i
  · intro h i j
    have := congrFun (congrFun h j) i
    simpa using this

theorem dot_sym {A : M n} (h : Sym A) (x y : Fin n → ℝ) : x ⬝ᵥ (A *ᵥ y) = y ⬝ᵥ (A *ᵥ x) := by
  rw [Matrix.dotProduct_mulVec, ← Matrix.mulVec_transpose, sym_iff.mp h, dotProduct_comm]

theorem quad_expand {A : M n} (h : Sym A) (x y : Fin n → ℝ) (t : ℝ) :
    quad A (x + t • y) = quad A x + 2 * t * (y ⬝ᵥ (A *ᵥ x)) + t * t * quad A y := by
  unfold quad
  rw [Matrix.mulVec_add, Matrix.mulVec_smul, dotProduct_add, add_dotProduct, add_dotProduct]
  simp only [dotProduct_smul, smul_dotProduct, smul_eq_mul]
  rw [dot_sym h x y]
  ring

/-- A positive semidefinite matrix is null on the vectors where its quadratic form is null. -/
theorem psd_null {A : M n} (h : PSD A) {x : Fin n → ℝ} (hx : quad A x = 0) : A *ᵥ x = 0 := by
  by_contra hne
  let y := A *ᵥ x
  have hyy : 0 < y ⬝ᵥ y := dot_pos hne
  have hq : 0 ≤ quad A y := h.2 y
  have key : ∀ t : ℝ, 0 ≤ 2 * t * (y ⬝ᵥ y) + t * t * quad A y := by
    intro t
    have := h.2 (x + t • y)
    rw [quad_expand h.1, hx] at this
    linarith
  have hk := key (-(y ⬝ᵥ y) / (quad A y + 1))
  have hpos : 0 < quad A y + 1 := by linarith
  have e : 2 * (-(y ⬝ᵥ y) / (quad A y + 1)) * (y ⬝ᵥ y) + (-(y ⬝ᵥ y) / (quad A y + 1)) * (-(y ⬝ᵥ y) / (quad A y + 1)) * quad A y
      = -((y ⬝ᵥ y) * (y ⬝ᵥ y)) * (quad A y + 2) / ((quad A y + 1) * (quad A y + 1)) := by
    field_simp
    ring
  rw [e] at hk
  have : -((y ⬝ᵥ y) * (y ⬝ᵥ y)) * (quad A y + 2) / ((quad A y + 1) * (quad A y + 1)) < 0 := by
    apply div_neg_of_neg_of_pos
    · apply mul_neg_of_neg_of_pos
      · have := mul_pos hyy hyy; linarith
      · linarith
    · exact mul_pos hpos hpos
  linarith

theorem psd_inv {A : M n} (h : PSD A) (hi : Inv A) : PD A := by
  refine ⟨h.1, ?_⟩
  intro x hx
  rcases lt_or_eq_of_le (h.2 x) with h' | h'
  · exact h'
  · exfalso
    obtain ⟨B, -, hB⟩ := hi
    have h0 := psd_null h h'.symm
    apply hx
    have : (B * A) *ᵥ x = 0 := by rw [← Matrix.mulVec_mulVec, h0, Matrix.mulVec_zero]
    rwa [hB, Matrix.one_mulVec] at this

theorem inv_of_injective {A : M n} (h : ∀ x, A *ᵥ x = 0 → x = 0) : Inv A := by
  have hdet : A.det ≠ 0 := by
    intro hd
    obtain ⟨v, hv, hv'⟩ := Matrix.exists_mulVec_eq_zero_iff.mpr hd
    exact hv (h v hv')
  have hu : IsUnit A.det := isUnit_iff_ne_zero.mpr hdet
  exact ⟨A⁻¹, Matrix.mul_nonsing_inv A hu, Matrix.nonsing_inv_mul A hu⟩

theorem pd_inv {A : M n} (h : PD A) : Inv A := by
  apply inv_of_injective
  intro x hx
  by_contra hne
  have := h.2 x hne
  simp [quad, hx] at this

theorem sym_neg {A : M n} (h : Sym A) : Sym (-A) := fun i j => by simp [h i j]

theorem inv_neg {A : M n} (h : Inv A) : Inv (-A) := by
  obtain ⟨B, h1, h2⟩ := h
  exact ⟨-B, by simp [h1], by simp [h2]⟩

theorem nd_iff {A : M n} : ND A ↔ PD (-A) := by
  constructor
  · intro h; exact ⟨sym_neg h.1, fun x hx => by rw [quad_neg]; linarith [h.2 x hx]⟩
  · intro h
    have h1 := sym_neg h.1
    rw [neg_neg] at h1
    exact ⟨h1, fun x hx => by have := h.2 x hx; rw [quad_neg] at this; linarith⟩

theorem nsd_iff {A : M n} : NSD A ↔ PSD (-A) := by
  constructor
  · intro h; exact ⟨sym_neg h.1, fun x => by rw [quad_neg]; linarith [h.2 x]⟩
  · intro h
    have h1 := sym_neg h.1
    rw [neg_neg] at h1
    exact ⟨h1, fun x => by have := h.2 x; rw [quad_neg] at this; linarith⟩

theorem nd_inv {A : M n} (h : ND A) : Inv A := by
  have := inv_neg (pd_inv (nd_iff.mp h)); rwa [neg_neg] at this

theorem nsd_inv {A : M n} (h : NSD A) (hi : Inv A) : ND A :=
  nd_iff.mpr (psd_inv (nsd_iff.mp h) (inv_neg hi))

theorem pd_psd {A : M n} (h : PD A) : PSD A := by
  refine ⟨h.1, fun x => ?_⟩
  by_cases hx : x = 0
  · subst hx; simp [quad]
  · exact le_of_lt (h.2 x hx)

theorem nd_nsd {A : M n} (h : ND A) : NSD A := nsd_iff.mpr (pd_psd (nd_iff.mp h))

theorem sym_one : Sym (1 : M n) := fun i j => by
  by_cases h : i = j
  · rw [h]
  · rw [Matrix.one_apply_ne h, Matrix.one_apply_ne (Ne.symm h)]

theorem pd_one : PD (1 : M n) := ⟨sym_one, fun x hx => by rw [quad_one]; exact dot_pos hx⟩

theorem nd_neg_one : ND (-1 : M n) := by rw [nd_iff, neg_neg]; exact pd_one

theorem diag_sym {A : M n} (h : Diag A) : Sym A := fun i j => by
  by_cases hij : i = j
  · rw [hij]
  · rw [h i j hij, h j i (Ne.symm hij)]

theorem multiple_diag {A : M n} (h : Multiple A) : Diag A := by
  obtain ⟨a, rfl⟩ := h
  intro i j hij
  simp [Matrix.one_apply_ne hij]

theorem lower_sym_diag {A : M n} (h : Lower A) (hs : Sym A) : Diag A := fun i j hij => by
  rcases lt_or_gt_of_ne hij with h1 | h1
  · exact h i j h1
  · rw [hs i j]; exact h j i h1

theorem upper_sym_diag {A : M n} (h : Upper A) (hs : Sym A) : Diag A := fun i j hij => by
  rcases lt_or_gt_of_ne hij with h1 | h1
  · rw [hs i j]; exact h j i h1
  · exact h i j h1

theorem diag_lower {A : M n} (h : Diag A) : Lower A := fun i j hij => h i j (ne_of_lt hij)
theorem diag_upper {A : M n} (h : Diag A) : Upper A := fun i j hij => h i j (ne_of_gt hij)

theorem psd_zero : PSD (0 : M n) := ⟨fun _ _ => rfl, fun x => by simp [quad]⟩
theorem nsd_zero : NSD (0 : M n) := ⟨fun _ _ => rfl, fun x => by simp [quad]⟩

theorem pos_sym {p : Pos} {A : M n} (h : PosOK p A) (hp : p ≠ .na) : Sym A := by
  cases p
  · exact absurd rfl hp
  · exact h.1
  · exact h.1
  · exact h.1
  · exact h.1
  · exact h
  · exact h.1

/-- Shapes at least as specific as a given one. -/
theorem shape_diag {s : Shape} {A : M n} (h : ShapeOK s A) (hs : s.toNat ≥ 3) : Diag A := by
  cases s <;> simp [Shape.toNat] at hs
  · exact h
  · exact multiple_diag h
  · exact multiple_diag ⟨1, by rw [one_smul]; exact h⟩
  · exact multiple_diag ⟨-1, by rw [neg_smul, one_smul]; exact h⟩
  · exact multiple_diag ⟨0, by rw [zero_smul]; exact h⟩

theorem shape_multiple {s : Shape} {A : M n} (h : ShapeOK s A) (hs : s.toNat ≥ 4) : Multiple A := by
  cases s <;> simp [Shape.toNat] at hs
  · exact h
  · exact ⟨1, by rw [one_smul]; exact h⟩
  · exact ⟨-1, by rw [neg_smul, one_smul]; exact h⟩
  · exact ⟨0, by rw [zero_smul]; exact h⟩

/-! ## Soundness of the deductions -/

theorem sound_of {T : Type} {p : Props} {A : T → M n} (h1 : ∀ t, ShapeOK p.shape (A t)) (h2 : ∀ t, PosOK p.pos (A t))
    (h3 : p.constant = true → ∀ s t, A s = A t) (h4 : p.invertible = true → ∀ t, Inv (A t))
    (h5 : p.symmetric = true → ∀ t, Sym (A t)) : Sound p A := by
  have hz : p.shape = .zero → ∀ t, A t = 0 := by
    intro h t; have := h1 t; rw [h] at this; exact this
  have hpd : p.pos = .pd → ∀ t, PD (A t) := by
    intro h t; have := h2 t; rw [h] at this; exact this
  have hnd : p.pos = .nd → ∀ t, ND (A t) := by
    intro h t; have := h2 t; rw [h] at this; exact this
  refine ⟨h3, h4, ?_, ?_, ?_, ?_, ?_, ?_, ?_, ?_, h5, ?_, ?_, ?_, ?_, ?_, ?_⟩
  · intro h t
    simp only [Props.isTriangular, decide_eq_true_eq] at h
    have hs := h1 t
    by_cases hd : p.shape.toNat ≥ 3
    · exact Or.inl (diag_lower (shape_diag hs hd))
    · cases hsh : p.shape <;> rw [hsh] at hs h hd <;> simp [Shape.toNat] at h hd
      · exact Or.inl hs
      · exact Or.inr hs
  · intro h t
    simp only [Props.isLowerTriangular, Props.isDiagonal, Bool.or_eq_true, beq_iff_eq, decide_eq_true_eq] at h
    have hs := h1 t
    rcases h with h | h
    · rw [h] at hs; exact hs
    · exact diag_lower (shape_diag hs h)
  · intro h t
    simp only [Props.isUpperTriangular, decide_eq_true_eq] at h
    have hs := h1 t
    by_cases hd : p.shape.toNat ≥ 3
    · exact diag_upper (shape_diag hs hd)
    · cases hsh : p.shape <;> rw [hsh] at hs h hd <;> simp [Shape.toNat] at h hd
      exact hs
  · intro h t
    simp only [Props.isDiagonal, decide_eq_true_eq] at h
    exact shape_diag (h1 t) h
  · intro h t
    simp only [Props.isMultipleOfIdentity, decide_eq_true_eq] at h
    exact shape_multiple (h1 t) h
  · intro h t
    simp only [Props.isIdentity, beq_iff_eq] at h
    have := h1 t; rw [h] at this; exact this
  · intro h t
    simp only [Props.isMinusIdentity, beq_iff_eq] at h
    have := h1 t; rw [h] at this; exact this
  · intro h t
    simp only [Props.isZero, beq_iff_eq] at h
    exact hz h t
  · intro h t
    simp only [Props.isPositiveSemiDefinite, Props.isPositiveDefinite, Props.isZero, Bool.or_eq_true, beq_iff_eq] at h
    rcases h with (h | h) | h
    · have := h2 t; rw [h] at this; exact this
    · exact pd_psd (hpd h t)
    · rw [hz h t]; exact psd_zero
  · intro h t
    simp only [Props.isPositiveDefinite, beq_iff_eq] at h
    exact hpd h t
  · intro h t
    simp only [Props.isNegativeSemidefinite, Props.isNegativeDefinite, Props.isZero, Bool.or_eq_true, beq_iff_eq] at h
    rcases h with (h | h) | h
    · have := h2 t; rw [h] at this; exact this
    · exact nd_nsd (hnd h t)
    · rw [hz h t]; exact nsd_zero
  · intro h t
    simp only [Props.isNegativeDefinite, beq_iff_eq] at h
    exact hnd h t
  · intro h t
    simp only [Props.isIndefinite, bne_iff_ne, ne_eq] at h
    exact pos_sym (h2 t) h
  · intro h t
    simp only [Props.isNonZeroIndefinite, Props.isPositiveDefinite, Props.isNegativeDefinite, Bool.or_eq_true, beq_iff_eq] at h
    rcases h with (h | h) | h
    · have := h2 t; rw [h] at this; exact this
    · exact ⟨(hpd h t).1, pd_inv (hpd h t)⟩
    · exact ⟨(hnd h t).1, nd_inv (hnd h t)⟩

theorem sound_shape {T : Type} {p : Props} {A : T → M n} (h : Sound p A) (t : T) : ShapeOK p.shape (A t) := by
  cases hs : p.shape
  · trivial
  · exact h.lower (by simp [Props.isLowerTriangular, hs]) t
  · exact h.upper (by simp [Props.isUpperTriangular, hs, Shape.toNat]) t
  · exact h.diagonal (by simp [Props.isDiagonal, hs, Shape.toNat]) t
  · exact h.multiple (by simp [Props.isMultipleOfIdentity, hs, Shape.toNat]) t
  · exact h.identity (by simp [Props.isIdentity, hs]) t
  · exact h.minusIdentity (by simp [Props.isMinusIdentity, hs]) t
  · exact h.zero (by simp [Props.isZero, hs]) t

theorem sound_pos {T : Type} {p : Props} {A : T → M n} (h : Sound p A) (t : T) : PosOK p.pos (A t) := by
  cases hs : p.pos
  · trivial
  · exact h.psd (by simp [Props.isPositiveSemiDefinite, hs]) t
  · exact h.pd (by simp [Props.isPositiveDefinite, hs]) t
  · exact h.nsd (by simp [Props.isNegativeSemidefinite, hs]) t
  · exact h.nd (by simp [Props.isNegativeDefinite, hs]) t
  · exact h.indef (by simp [Props.isIndefinite, hs]) t
  · exact h.nzIndef (by simp [Props.isNonZeroIndefinite, hs]) t

theorem max_sound {p q r : Pos} {A : M n} (hp : PosOK p A) (hq : PosOK q A) (h : maxPos p q = some r) : PosOK r A := by
  unfold maxPos at h
  split at h
  · cases h
  · cases h; exact hp
  · cases h; exact hq

theorem promote_sound {p : Pos} {i : Bool} {A : M n} (hp : PosOK p A) (hi : i = true → Inv A) : PosOK (promote p i) A := by
  unfold promote
  cases i
  · simpa using hp
  · simp only [ite_true]
    cases p
    · exact hp
    · exact psd_inv hp (hi rfl)
    · exact hp
    · exact nsd_inv hp (hi rfl)
    · exact hp
    · exact ⟨hp, hi rfl⟩
    · exact hp

theorem default_sound {s : Shape} {A : M n} (h : ShapeOK s A) : PosOK (defaultPos s) A := by
  cases s
  · trivial
  · trivial
  · trivial
  · exact diag_sym (shape_diag (s := .diagonal) h (by decide))
  · exact diag_sym (shape_diag (s := .multiple) h (by decide))
  · have : A = 1 := h
    subst this; exact pd_one
  · have : A = -1 := h
    subst this; exact nd_neg_one
  · have : A = 0 := h
    subst this; exact psd_zero.1

theorem build_sound {T : Type} {s : Shape} {p : Pos} {c i : Bool} {ch : Bool × Bool} {A : T → M n} {r : Props}
    (h1 : ∀ t, ShapeOK s (A t)) (h2 : ∀ t, PosOK p (A t)) (h3 : c = true → ∀ a b, A a = A b) (h4 : i = true → ∀ t, Inv (A t))
    (h : build s p c i ch = some r) : Sound r A := by
  unfold build at h
  split at h
  · cases h
  split at h
  · cases h
  split at h
  · cases h
  split at h
  · cases h
  split at h
  · cases h
  next q hq =>
  cases h
  apply sound_of
  · intro t
    simp only [deduceShape]
    split
    · next hc =>
      simp only [Bool.and_eq_true, Bool.or_eq_true, beq_iff_eq, bne_iff_ne, ne_eq] at hc
      have hsym := pos_sym (h2 t) hc.2
      have hs := h1 t
      rcases hc.1 with e | e
      · rw [e] at hs; exact lower_sym_diag hs hsym
      · rw [e] at hs; exact upper_sym_diag hs hsym
    · exact h1 t
  · intro t
    exact max_sound (promote_sound (default_sound (h1 t)) (fun hi => h4 hi t)) (promote_sound (h2 t) (fun hi => h4 hi t)) hq
  · intro hc
    simp only [Bool.or_eq_true] at hc
    rcases hc with hc | hc
    · exact h3 hc
    · simp only [deduceConstance, Bool.or_eq_true, beq_iff_eq] at hc
      intro a b
      have ha := h1 a
      have hb := h1 b
      rcases hc with (hc | hc) | hc <;> rw [hc] at ha hb <;> exact Eq.trans ha (Eq.symm hb)
  · intro hi t
    simp only [Bool.or_eq_true] at hi
    rcases hi with hi | hi
    · exact h4 hi t
    · simp only [deduceInvertibility, Bool.or_eq_true, beq_iff_eq] at hi
      have hs := h1 t
      have hp := h2 t
      rcases hi with (((hi | hi) | hi) | hi) | hi
      · rw [hi] at hs
        have hs : A t = 1 := hs
        rw [hs]; exact pd_inv pd_one
      · rw [hi] at hs
        have hs : A t = -1 := hs
        rw [hs]; exact nd_inv nd_neg_one
      · rw [hi] at hp; exact pd_inv hp
      · rw [hi] at hp; exact nd_inv hp
      · rw [hi] at hp; exact hp.2
  · intro hs t
    simp only [deduceSymmetry, Bool.or_eq_true, decide_eq_true_eq, bne_iff_ne, ne_eq] at hs
    rcases hs with hs | hs
    · exact diag_sym (shape_diag (h1 t) hs)
    · exact pos_sym (h2 t) hs

/-! ## C16 -/

/-- If the declarations given to the constructor are true of a matrix expression, so is every positive answer of the object. -/
theorem C16_declared_sound {T : Type} (s : Option Shape) (p : Option Pos) (c i : Option Bool) (A : T → M n) (r : Props)
    (hd : Declared s p c i A) (h : make s p c i = some r) : Sound r A := by
  refine build_sound ?_ ?_ ?_ ?_ h
  · intro t
    cases s with
    | none => trivial
    | some x => exact hd.shape x rfl t
  · intro t
    cases p with
    | none => trivial
    | some x => exact hd.pos x rfl t
  · intro hc
    cases c with
    | none => cases hc
    | some x => exact hd.constant (by simpa using hc)
  · intro hc
    cases i with
    | none => cases hc
    | some x => exact hd.invertible (by simpa using hc)

/-- The properties of an object built without declaration are those of the declarations that say nothing: they hold of any matrix expression, so that they can be given to a matrix that
is assigned (`ObjectWithProperties::operator=`, MatrixWithProperties.h, lines 79-88). -/
theorem C16_default {T : Type} (A : T → M n) : make none none none none = some MP.default ∧ Sound MP.default A :=
  ⟨by decide, C16_declared_sound none none none none A _ ⟨fun _ h => (by cases h), fun _ h => (by cases h), fun h => (by cases h), fun h => (by cases h)⟩ (by decide)⟩

end

def shapes : List Shape := [.general, .lower, .upper, .diagonal, .multiple, .identity, .minusIdentity, .zero]
def poss : List Pos := [.na, .psd, .pd, .nsd, .nd, .indef, .nzIndef]
def opt {α : Type} (l : List α) : List (Option α) := none :: l.map some

theorem mem_shapes (s : Shape) : s ∈ shapes := by cases s <;> decide
theorem mem_poss (p : Pos) : p ∈ poss := by cases p <;> decide
theorem mem_bools (b : Bool) : b ∈ [true, false] := by cases b <;> decide
theorem mem_opt {α : Type} {l : List α} (h : ∀ x, x ∈ l) (o : Option α) : o ∈ opt l := by
  cases o with
  | none => exact List.mem_cons_self
  | some x => exact List.mem_cons_of_mem _ (List.mem_map_of_mem (h x))

/-- The only declarations the constructor rejects. -/
theorem make_none {s : Option Shape} {p : Option Pos} {c i : Option Bool} (h : make s p c i = none) :
    (s = some .zero ∧ (p = some .pd ∨ p = some .nd ∨ p = some .nzIndef)) ∨
    (s = some .identity ∧ (p = some .nsd ∨ p = some .nd)) ∨
    (s = some .minusIdentity ∧ (p = some .psd ∨ p = some .pd)) ∨
    (c = some false ∧ (s = some .identity ∨ s = some .minusIdentity ∨ s = some .zero)) ∨
    (i = some false ∧ (s = some .identity ∨ s = some .minusIdentity ∨ p = some .pd ∨ p = some .nd ∨ p = some .nzIndef)) ∨
    (i = some true ∧ s = some .zero) := by
  have key : ∀ s ∈ opt shapes, ∀ p ∈ opt poss, ∀ c ∈ opt [true, false], ∀ i ∈ opt [true, false],
      ((make s p c i).isSome || (s == some .zero && (p == some .pd || (p == some .nd || p == some .nzIndef))
        || (s == some .identity && (p == some .nsd || p == some .nd)
        || (s == some .minusIdentity && (p == some .psd || p == some .pd)
        || (c == some false && (s == some .identity || (s == some .minusIdentity || s == some .zero))
        || (i == some false && (s == some .identity || (s == some .minusIdentity || (p == some .pd || (p == some .nd || p == some .nzIndef))))
        || i == some true && s == some .zero)))))) = true := by decide +kernel
  have := key s (mem_opt mem_shapes s) p (mem_opt mem_poss p) c (mem_opt mem_bools c) i (mem_opt mem_bools i)
  rw [h] at this
  simpa only [Option.isSome_none, Bool.false_or, Bool.or_eq_true, Bool.and_eq_true, beq_iff_eq] using this

/-- Truthful declarations about a matrix with at least one row are never rejected, where declaring "not constant" or "not
invertible" is truthful if the expression does change or is not always invertible. -/
theorem C16_truthful_accepted {n : Nat} {T : Type} [Inhabited T] (s : Option Shape) (p : Option Pos) (c i : Option Bool)
    (A : T → M (n + 1)) (hd : Declared s p c i A) (hc : c = some false → ¬ ∀ a b, A a = A b)
    (hi : i = some false → ¬ ∀ t, Inv (A t)) : ∃ r, make s p c i = some r := by
  cases h : make s p c i with
  | some r => exact ⟨r, rfl⟩
  | none =>
    exfalso
    have t0 : T := Inhabited.default
    have hx0 : (fun _ => 1 : Fin (n + 1) → ℝ) ≠ 0 := by
      intro h; have := congrFun h 0; simp at this
    have h1 : ∀ x, s = some x → ∀ t, ShapeOK x (A t) := hd.shape
    have h2 := hd.pos
    have z0 : ∀ t, A t = 0 → ¬ Inv (A t) := by
      rintro t h0 ⟨B, hB, -⟩
      rw [h0, Matrix.zero_mul] at hB
      have := congrFun (congrFun hB 0) 0
      simp at this
    have q1 : 0 < quad (1 : M (n+1)) (fun _ => 1) := pd_one.2 _ hx0
    have q2 : quad (-1 : M (n+1)) (fun _ => 1) < 0 := nd_neg_one.2 _ hx0
    rcases make_none h with ⟨e, h'⟩ | ⟨e, h'⟩ | ⟨e, h'⟩ | ⟨e, h'⟩ | ⟨e, h'⟩ | ⟨e, h'⟩
    · have hz : A t0 = 0 := h1 _ e t0
      rcases h' with h' | h' | h'
      · exact z0 t0 hz (pd_inv (h2 _ h' t0))
      · exact z0 t0 hz (nd_inv (h2 _ h' t0))
      · exact z0 t0 hz (h2 _ h' t0).2
    · have hz : A t0 = 1 := h1 _ e t0
      rcases h' with h' | h'
      · have : NSD (A t0) := h2 _ h' t0
        rw [hz] at this; linarith [this.2 (fun _ => 1)]
      · have : ND (A t0) := h2 _ h' t0
        rw [hz] at this; linarith [this.2 _ hx0]
    · have hz : A t0 = -1 := h1 _ e t0
      rcases h' with h' | h'
      · have : PSD (A t0) := h2 _ h' t0
        rw [hz] at this; linarith [this.2 (fun _ => 1)]
      · have : PD (A t0) := h2 _ h' t0
        rw [hz] at this; linarith [this.2 _ hx0]
    · apply hc e
      intro a b
      rcases h' with h' | h' | h' <;> exact Eq.trans (h1 _ h' a) (Eq.symm (h1 _ h' b))
    · apply hi e
      intro t
      rcases h' with h' | h' | h' | h' | h'
      · have : A t = 1 := h1 _ h' t
        rw [this]; exact pd_inv pd_one
      · have : A t = -1 := h1 _ h' t
        rw [this]; exact nd_inv nd_neg_one
      · exact pd_inv (h2 _ h' t)
      · exact nd_inv (h2 _ h' t)
      · exact (h2 _ h' t).2
    · exact z0 t0 (h1 _ h' t0) (hd.invertible e t0)

/-! ## Soundness of the operators -/

section
variable {n : Nat}

theorem negShape_sound {s : Shape} {A : M n} (h : ShapeOK s A) : ShapeOK (negShape s) (-A) := by
  cases s
  · trivial
  · intro i j hij; simp [show A i j = 0 from h i j hij]
  · intro i j hij; simp [show A i j = 0 from h i j hij]
  · intro i j hij; simp [show A i j = 0 from h i j hij]
  · obtain ⟨a, rfl⟩ := h; exact ⟨-a, by simp⟩
  · have : A = 1 := h
    subst this; rfl
  · have : A = -1 := h
    subst this; exact neg_neg _
  · have : A = 0 := h
    subst this; exact neg_zero

theorem negPos_sound {p : Pos} {A : M n} (h : PosOK p A) : PosOK (negPos p) (-A) := by
  cases p
  · trivial
  · exact nsd_iff.mpr (by rw [neg_neg]; exact h)
  · exact nd_iff.mpr (by rw [neg_neg]; exact h)
  · exact nsd_iff.mp h
  · exact nd_iff.mp h
  · exact sym_neg h
  · exact ⟨sym_neg h.1, inv_neg h.2⟩

theorem lower_add {A B : M n} (h : Lower A) (h' : Lower B) : Lower (A + B) := fun i j hij => by simp [h i j hij, h' i j hij]
theorem upper_add {A B : M n} (h : Upper A) (h' : Upper B) : Upper (A + B) := fun i j hij => by simp [h i j hij, h' i j hij]
theorem diag_add {A B : M n} (h : Diag A) (h' : Diag B) : Diag (A + B) := fun i j hij => by simp [h i j hij, h' i j hij]
theorem sym_add {A B : M n} (h : Sym A) (h' : Sym B) : Sym (A + B) := fun i j => by simp [h i j, h' i j]

theorem multiple_add {A B : M n} (h : Multiple A) (h' : Multiple B) : Multiple (A + B) := by
  obtain ⟨a, rfl⟩ := h; obtain ⟨b, rfl⟩ := h'; exact ⟨a + b, by rw [add_smul]⟩

theorem shape_lower {s : Shape} {A : M n} (h : ShapeOK s A) (hs : s = .lower ∨ s.toNat ≥ 3) : Lower A := by
  rcases hs with rfl | hs
  · exact h
  · exact diag_lower (shape_diag h hs)

theorem shape_upper {s : Shape} {A : M n} (h : ShapeOK s A) (hs : s.toNat ≥ 2) : Upper A := by
  by_cases h3 : s.toNat ≥ 3
  · exact diag_upper (shape_diag h h3)
  · cases s <;> simp [Shape.toNat] at hs h3
    exact h

/-- The sum on ordered shapes. -/
theorem addShape_sound' {s t : Shape} {A B : M n} (hA : ShapeOK s A) (hB : ShapeOK t B) (hle : s.toNat ≤ t.toNat) :
    ShapeOK (addShape s t) (A + B) := by
  have hmm : minmax s t = (s, t) := by rw [minmax, if_neg (by omega)]
  rw [addShape, hmm]
  cases s
  · trivial
  · by_cases ht : t = .upper
    · simp only [if_pos ht]; trivial
    · simp only [if_neg ht]
      refine lower_add hA (shape_lower hB ?_)
      cases t <;> simp [Shape.toNat] at hle ht ⊢
  · exact upper_add hA (shape_upper hB hle)
  · exact diag_add hA (shape_diag hB hle)
  · exact multiple_add hA (shape_multiple hB hle)
  · have hA : A = 1 := hA
    cases t <;> simp [Shape.toNat] at hle
    · have hB : B = 1 := hB
      subst hA hB
      exact ⟨2, by rw [two_smul]⟩
    · have hB : B = -1 := hB
      subst hA hB
      exact add_neg_cancel _
    · have hB : B = 0 := hB
      subst hA hB
      exact add_zero _
  · have hA : A = -1 := hA
    cases t <;> simp [Shape.toNat] at hle
    · have hB : B = -1 := hB
      subst hA hB
      exact ⟨-2, by rw [neg_smul, two_smul, neg_add]⟩
    · have hB : B = 0 := hB
      subst hA hB
      exact add_zero _
  · have hA : A = 0 := hA
    cases t <;> simp [Shape.toNat] at hle
    have hB : B = 0 := hB
    subst hA hB
    exact add_zero _

theorem addShape_comm (s t : Shape) : addShape s t = addShape t s := by
  cases s <;> cases t <;> rfl

theorem addShape_sound {s t : Shape} {A B : M n} (hA : ShapeOK s A) (hB : ShapeOK t B) : ShapeOK (addShape s t) (A + B) := by
  rcases Nat.le_total s.toNat t.toNat with h | h
  · exact addShape_sound' hA hB h
  · rw [addShape_comm, add_comm]; exact addShape_sound' hB hA h

theorem psd_add {A B : M n} (h : PSD A) (h' : PSD B) : PSD (A + B) :=
  ⟨sym_add h.1 h'.1, fun x => by rw [quad_add]; linarith [h.2 x, h'.2 x]⟩

theorem pd_add {A B : M n} (h : PD A) (h' : PSD B) : PD (A + B) :=
  ⟨sym_add h.1 h'.1, fun x hx => by rw [quad_add]; linarith [h.2 x hx, h'.2 x]⟩

theorem addPos_sound {p q r : Pos} {A B : M n} (hA : PosOK p A) (hB : PosOK q B) (h : addPos p q = some r) :
    PosOK r (A + B) := by
  have nsd_add : ∀ {A B : M n}, NSD A → NSD B → NSD (A + B) := fun h h' => by
    rw [nsd_iff, neg_add]; exact psd_add (nsd_iff.mp h) (nsd_iff.mp h')
  have nd_add : ∀ {A B : M n}, ND A → NSD B → ND (A + B) := fun h h' => by
    rw [nd_iff, neg_add]; exact pd_add (nd_iff.mp h) (nsd_iff.mp h')
  cases p <;> cases q <;> simp [addPos, maxPos, greaterThan, table] at h <;> subst h
  all_goals first
    | trivial
    | exact psd_add hA hB
    | exact pd_add hA hB
    | exact pd_add hA (pd_psd hB)
    | (rw [add_comm]; exact pd_add hB hA)
    | exact nsd_add hA hB
    | exact nd_add hA hB
    | exact nd_add hA (nd_nsd hB)
    | (rw [add_comm]; exact nd_add hB hA)
    | exact sym_add (pos_sym hA (by decide)) (pos_sym hB (by decide))

/-! ## C17: negation -/

/-- Negation is sound. -/
theorem C17_neg_sound {T : Type} (p r : Props) (A : T → M n) (hp : Sound p A) (h : neg p = some r) :
    Sound r (fun t => -A t) := by
  refine build_sound (fun t => negShape_sound (sound_shape hp t)) (fun t => negPos_sound (sound_pos hp t)) ?_ ?_ h
  · intro hc a b
    rw [hp.constant hc a b]
  · intro hi t
    exact inv_neg (hp.invertible hi t)

/-! ## C18: sum and difference -/

/-- The sum is sound. -/
theorem C18_add_sound {T : Type} (p q r : Props) (A B : T → M n) (hp : Sound p A) (hq : Sound q B) (h : add p q = some r) :
    Sound r (fun t => A t + B t) := by
  unfold MP.add at h
  split at h
  · cases h
  next u hu =>
  refine build_sound (fun t => addShape_sound (sound_shape hp t) (sound_shape hq t))
    (fun t => addPos_sound (sound_pos hp t) (sound_pos hq t) hu) ?_ (by simp) h
  intro hc a b
  simp only [Option.getD_some, Bool.and_eq_true] at hc
  rw [hp.constant hc.1 a b, hq.constant hc.2 a b]

/-- The difference is sound. -/
theorem C18_sub_sound {T : Type} (p q r : Props) (A B : T → M n) (hp : Sound p A) (hq : Sound q B) (h : sub p q = some r) :
    Sound r (fun t => A t - B t) := by
  unfold MP.sub at h
  split at h
  · cases h
  next u hu =>
  refine build_sound ?_ ?_ ?_ (by simp) h
  · intro t
    rw [sub_eq_add_neg]
    exact addShape_sound (sound_shape hp t) (negShape_sound (sound_shape hq t))
  · intro t
    rw [sub_eq_add_neg]
    exact addPos_sound (sound_pos hp t) (negPos_sound (sound_pos hq t)) hu
  · intro hc a b
    simp only [Option.getD_some, Bool.and_eq_true] at hc
    rw [hp.constant hc.1 a b, hq.constant hc.2 a b]

/-! ## C19: product -/

theorem lower_mul {A B : M n} (h : Lower A) (h' : Lower B) : Lower (A * B) := fun i j hij => by
  rw [Matrix.mul_apply]
  apply Finset.sum_eq_zero
  intro k _
  rcases lt_or_ge i k with hk | hk
  · rw [h i k hk, zero_mul]
  · rw [h' k j (lt_of_le_of_lt hk hij), mul_zero]

theorem upper_mul {A B : M n} (h : Upper A) (h' : Upper B) : Upper (A * B) := fun i j hij => by
  rw [Matrix.mul_apply]
  apply Finset.sum_eq_zero
  intro k _
  rcases lt_or_ge k i with hk | hk
  · rw [h i k hk, zero_mul]
  · rw [h' k j (lt_of_lt_of_le hij hk), mul_zero]

theorem diag_iff {A : M n} : Diag A ↔ Lower A ∧ Upper A :=
  ⟨fun h => ⟨diag_lower h, diag_upper h⟩, fun h i j hij => (lt_or_gt_of_ne hij).elim (h.1 i j) (h.2 i j)⟩

theorem diag_mul {A B : M n} (h : Diag A) (h' : Diag B) : Diag (A * B) := by
  rw [diag_iff] at *
  exact ⟨lower_mul h.1 h'.1, upper_mul h.2 h'.2⟩

theorem multiple_mul {A B : M n} (h : Multiple A) (h' : Multiple B) : Multiple (A * B) := by
  obtain ⟨a, rfl⟩ := h; obtain ⟨b, rfl⟩ := h'; exact ⟨a * b, by simp [smul_smul, mul_comm]⟩

theorem mulShape_sound {s t u : Shape} {A B : M n} (hA : ShapeOK s A) (hB : ShapeOK t B) (h : mulShape s t = some u) :
    ShapeOK u (A * B) := by
  by_cases hz : s = .zero
  · subst hz
    have hA : A = 0 := hA
    have : u = .zero := by cases t <;> simp [mulShape, minmax, Shape.toNat] at h <;> exact h.symm
    subst this hA; exact Matrix.zero_mul B
  by_cases hz' : t = .zero
  · subst hz'
    have hB : B = 0 := hB
    have : u = .zero := by cases s <;> simp [mulShape, minmax, Shape.toNat] at h <;> exact h.symm
    subst this hB; exact Matrix.mul_zero A
  have key : u = .general ∨ (u = .lower ∧ (s = .lower ∨ s.toNat ≥ 3) ∧ (t = .lower ∨ t.toNat ≥ 3)) ∨
      (u = .upper ∧ s.toNat ≥ 2 ∧ t.toNat ≥ 2) ∨ (u = .diagonal ∧ s.toNat ≥ 3 ∧ t.toNat ≥ 3) ∨
      (u = .multiple ∧ s.toNat ≥ 4 ∧ t.toNat ≥ 4) ∨ (s = .identity ∧ t = .identity ∧ u = .identity) ∨
      (s = .identity ∧ t = .minusIdentity ∧ u = .minusIdentity) ∨ (s = .minusIdentity ∧ t = .identity ∧ u = .minusIdentity) ∨
      (s = .minusIdentity ∧ t = .minusIdentity ∧ u = .identity) := by
    revert h hz hz'
    clear hA hB
    cases s <;> cases t <;> cases u <;> decide
  rcases key with rfl | ⟨rfl, h1, h2⟩ | ⟨rfl, h1, h2⟩ | ⟨rfl, h1, h2⟩ | ⟨rfl, h1, h2⟩ | ⟨rfl, rfl, rfl⟩ | ⟨rfl, rfl, rfl⟩ |
    ⟨rfl, rfl, rfl⟩ | ⟨rfl, rfl, rfl⟩
  · trivial
  · exact lower_mul (shape_lower hA h1) (shape_lower hB h2)
  · exact upper_mul (shape_upper hA h1) (shape_upper hB h2)
  · exact diag_mul (shape_diag hA h1) (shape_diag hB h2)
  · exact multiple_mul (shape_multiple hA h1) (shape_multiple hB h2)
  · have hA : A = 1 := hA
    have hB : B = 1 := hB
    subst hA hB; exact Matrix.mul_one _
  · have hA : A = 1 := hA
    have hB : B = -1 := hB
    subst hA hB; exact Matrix.one_mul _
  · have hA : A = -1 := hA
    have hB : B = 1 := hB
    subst hA hB; exact Matrix.mul_one _
  · have hA : A = -1 := hA
    have hB : B = -1 := hB
    subst hA hB
    show -1 * -1 = (1 : M n)
    simp

theorem inv_mul {A B : M n} (h : Inv A) (h' : Inv B) : Inv (A * B) := by
  obtain ⟨A', a1, a2⟩ := h
  obtain ⟨B', b1, b2⟩ := h'
  refine ⟨B' * A', ?_, ?_⟩
  · rw [Matrix.mul_assoc, ← Matrix.mul_assoc B, b1, Matrix.one_mul, a1]
  · rw [Matrix.mul_assoc, ← Matrix.mul_assoc A', a2, Matrix.one_mul, b2]

/-- The product is sound. -/
theorem C19_mul_sound {T : Type} (p q r : Props) (A B : T → M n) (hp : Sound p A) (hq : Sound q B) (h : mul p q = some r) :
    Sound r (fun t => A t * B t) := by
  unfold MP.mul at h
  split at h
  · cases h
  next u hu =>
  refine build_sound (fun t => mulShape_sound (sound_shape hp t) (sound_shape hq t) hu) (p := .na) (fun t => trivial) ?_ ?_ h
  · intro hc a b
    simp only [Option.getD_some, Bool.and_eq_true] at hc
    rw [hp.constant hc.1 a b, hq.constant hc.2 a b]
  · intro hc t
    simp only [Option.getD_some, Bool.and_eq_true] at hc
    exact inv_mul (hp.invertible hc.1 t) (hq.invertible hc.2 t)

/-! ## C20: scaling -/

theorem sym_smul {A : M n} (d : ℝ) (h : Sym A) : Sym (d • A) := fun i j => by simp [h i j]

theorem inv_smul {A : M n} {d : ℝ} (hd : d ≠ 0) (h : Inv A) : Inv (d • A) := by
  obtain ⟨B, h1, h2⟩ := h
  exact ⟨d⁻¹ • B, by simp [h1, smul_smul, hd], by simp [h2, smul_smul, hd]⟩

theorem shape_pos_smul {s : Shape} {A : M n} (d : ℝ) (h : ShapeOK s A) (hs : s ≠ .identity) (hs' : s ≠ .minusIdentity) :
    ShapeOK s (d • A) := by
  cases s
  · trivial
  · intro i j hij; simp [show A i j = 0 from h i j hij]
  · intro i j hij; simp [show A i j = 0 from h i j hij]
  · intro i j hij; simp [show A i j = 0 from h i j hij]
  · obtain ⟨a, rfl⟩ := h; exact ⟨d * a, by simp [smul_smul]⟩
  · exact absurd rfl hs
  · exact absurd rfl hs'
  · have : A = 0 := h
    subst this; exact smul_zero d

theorem pos_smul {p : Pos} {A : M n} {d : ℝ} (hd : 0 < d) (h : PosOK p A) : PosOK p (d • A) := by
  cases p
  · trivial
  · exact ⟨sym_smul d h.1, fun x => by rw [quad_smul]; exact mul_nonneg (le_of_lt hd) (h.2 x)⟩
  · exact ⟨sym_smul d h.1, fun x hx => by rw [quad_smul]; exact mul_pos hd (h.2 x hx)⟩
  · exact ⟨sym_smul d h.1, fun x => by rw [quad_smul]; exact mul_nonpos_of_nonneg_of_nonpos (le_of_lt hd) (h.2 x)⟩
  · exact ⟨sym_smul d h.1, fun x hx => by rw [quad_smul]; exact mul_neg_of_pos_of_neg hd (h.2 x hx)⟩
  · exact sym_smul d h
  · exact ⟨sym_smul d h.1, inv_smul (ne_of_gt hd) h.2⟩

theorem scalePos_sound {p : Pos} {A : M n} (d : ℝ) (h : PosOK p A) : PosOK (scalePos d p) (d • A) := by
  unfold scalePos
  by_cases h1 : d < 0
  · rw [if_pos h1]
    have : d • A = -((-d) • A) := by rw [neg_smul, neg_neg]
    rw [this]
    exact negPos_sound (pos_smul (by linarith) h)
  · rw [if_neg h1]
    by_cases h2 : d > 0
    · rw [if_pos h2]; exact pos_smul h2 h
    · rw [if_neg h2]
      by_cases h3 : p = .na
      · rw [if_pos h3, h3]; trivial
      · rw [if_neg h3]; exact sym_smul d (pos_sym h h3)

/-- Scaling is sound unless a matrix declared as plus or minus identity is multiplied by another scalar than -1, 0, 1. -/
theorem C20_scale_sound {T : Type} (d : ℝ) (p r : Props) (A : T → M n) (hp : Sound p A)
    (hd : (p.shape ≠ .identity ∧ p.shape ≠ .minusIdentity) ∨ d = -1 ∨ d = 0 ∨ d = 1) (h : scale d p = some r) :
    Sound r (fun t => d • A t) := by
  refine build_sound ?_ (fun t => scalePos_sound d (sound_pos hp t)) ?_ ?_ h
  · intro t
    simp only [Option.getD_some]
    have hs := sound_shape hp t
    unfold scaleShape
    by_cases h1 : d < 0
    · rw [if_pos h1]
      have e : d • A t = -((-d) • A t) := by rw [neg_smul, neg_neg]
      rw [e]
      apply negShape_sound
      rcases hd with ⟨h2, h3⟩ | rfl | rfl | rfl
      · exact shape_pos_smul (-d) hs h2 h3
      · rw [neg_neg, one_smul]; exact hs
      · linarith
      · linarith
    · rw [if_neg h1]
      by_cases h2 : d > 0
      · rw [if_pos h2]
        rcases hd with ⟨h3, h4⟩ | rfl | rfl | rfl
        · exact shape_pos_smul d hs h3 h4
        · linarith
        · linarith
        · rw [one_smul]; exact hs
      · rw [if_neg h2]
        have : d = 0 := by linarith
        rw [this, zero_smul]; rfl
  · intro hc a b
    simp only [Option.getD_some] at hc
    rw [hp.constant hc a b]
  · intro hi t
    simp only [Option.getD_some] at hi
    by_cases h0 : d = 0
    · rw [if_pos h0] at hi; cases hi
    · rw [if_neg h0] at hi
      exact inv_smul h0 (hp.invertible hi t)

end

/-! ## The objects that exist -/

/-- All the objects that can be built. -/
def builtList : List Props :=
  (shapes.flatMap fun s => poss.flatMap fun p => [true, false].flatMap fun c => [true, false].filterMap fun i =>
    make (some s) (some p) (some c) (some i)).eraseDups

theorem built_fix {s : Option Shape} {q : Option Pos} {c i : Option Bool} {p : Props} (h : make s q c i = some p) :
    make4 p.shape p.pos p.constant p.invertible = some p := by
  have key : ∀ s ∈ opt shapes, ∀ q ∈ opt poss, ∀ c ∈ opt [true, false], ∀ i ∈ opt [true, false],
      ((make s q c i).all fun p => make4 p.shape p.pos p.constant p.invertible == some p) = true := by decide +kernel
  have := key s (mem_opt mem_shapes s) q (mem_opt mem_poss q) c (mem_opt mem_bools c) i (mem_opt mem_bools i)
  rw [h] at this
  simpa using this

theorem built_mem {p : Props} (h : Built p) : p ∈ builtList := by
  obtain ⟨s, q, c, i, h⟩ := h
  have := built_fix h
  simp only [builtList, List.mem_eraseDups, List.mem_flatMap, List.mem_filterMap]
  exact ⟨p.shape, mem_shapes _, p.pos, mem_poss _, p.constant, by cases p.constant <;> simp, p.invertible,
    by cases p.invertible <;> simp, this⟩

/-- The default constructor gives an object that could be built from arguments. -/
theorem default_built : Built MP.default := ⟨none, none, none, none, rfl⟩

/-- Rebuilding an object from its own properties gives the same object. -/
theorem C16_rebuild {p : Props} (h : Built p) : make4 p.shape p.pos p.constant p.invertible = some p := by
  obtain ⟨s, q, c, i, h⟩ := h; exact built_fix h

/-- Negation never throws and is an involution. -/
theorem C17_neg_total {p : Props} (h : Built p) : ∃ q, neg p = some q ∧ neg q = some p := by
  have : ∀ p ∈ builtList, ((neg p).bind neg) = some p := by decide +kernel
  have := this p (built_mem h)
  cases hq : neg p with
  | none => rw [hq] at this; cases this
  | some q => rw [hq] at this; exact ⟨q, rfl, this⟩

/-! ## C21: when the operators throw -/

/-- The sum throws exactly when the result would be plus or minus the identity (one operand is zero) or definite. -/
theorem C21_add_throws_iff {p q : Props} (hp : Built p) (hq : Built q) :
    add p q = none ↔
      ((p.isIdentity || p.isMinusIdentity) && q.isZero) || ((q.isIdentity || q.isMinusIdentity) && p.isZero) ||
      ((p.isPositiveDefinite && (q.pos == .psd || q.pos == .pd)) || (q.isPositiveDefinite && (p.pos == .psd || p.pos == .pd))) ||
      ((p.isNegativeDefinite && (q.pos == .nsd || q.pos == .nd)) || (q.isNegativeDefinite && (p.pos == .nsd || p.pos == .nd))) := by
  have : ∀ p ∈ builtList, ∀ q ∈ builtList, add p q = none ↔
      ((p.isIdentity || p.isMinusIdentity) && q.isZero) || ((q.isIdentity || q.isMinusIdentity) && p.isZero) ||
      ((p.isPositiveDefinite && (q.pos == .psd || q.pos == .pd)) || (q.isPositiveDefinite && (p.pos == .psd || p.pos == .pd))) ||
      ((p.isNegativeDefinite && (q.pos == .nsd || q.pos == .nd)) || (q.isNegativeDefinite && (p.pos == .nsd || p.pos == .nd))) := by
    decide +kernel
  exact this p (built_mem hp) q (built_mem hq)

/-- The difference throws exactly when the sum with the opposite does. -/
theorem C21_sub_eq {p q q' : Props} (hp : Built p) (hq : Built q) (h : neg q = some q') : sub p q = add p q' := by
  have : ∀ p ∈ builtList, ∀ q ∈ builtList, some (sub p q) = (neg q).map (add p) := by decide +kernel
  have := this p (built_mem hp) q (built_mem hq)
  rw [h] at this
  simpa using this

/-- The product throws exactly when one operand is zero and the other is not known to be constant. -/
theorem C21_mul_throws_iff {p q : Props} (hp : Built p) (hq : Built q) :
    mul p q = none ↔ (p.isZero && !q.isConstant) || (q.isZero && !p.isConstant) := by
  have : ∀ p ∈ builtList, ∀ q ∈ builtList, mul p q = none ↔ (p.isZero && !q.isConstant) || (q.isZero && !p.isConstant) := by
    decide +kernel
  exact this p (built_mem hp) q (built_mem hq)

/-- The scaling throws exactly when the scalar is zero and the operand is not known to be constant. -/
theorem C21_scale_throws_iff {p : Props} (hp : Built p) (d : ℝ) : scale d p = none ↔ d = 0 ∧ p.isConstant = false := by
  have h1 := C16_rebuild hp
  have h2 := C17_neg_total hp
  rcases lt_trichotomy d 0 with h | h | h
  · have : scale d p = neg p := by
      simp [scale, scaleShape, scalePos, h, ne_of_lt h, MP.neg]
    rw [this]
    obtain ⟨q, hq, -⟩ := h2
    simp [hq, ne_of_lt h]
  · have : ∀ p ∈ builtList, make4 .zero (if p.pos = .na then p.pos else .indef) p.constant false = none ↔ p.isConstant = false := by
      decide +kernel
    have := this p (built_mem hp)
    subst h
    simpa [scale, scaleShape, scalePos] using this
  · have h' : ¬ d < 0 := not_lt.mpr (le_of_lt h)
    have : scale d p = some p := by
      simp [scale, scaleShape, scalePos, h, h', ne_of_gt h, h1]
    simp [this, ne_of_gt h]

/-! ## Negative results -/

/-- Scaling the identity by any scalar other than -1, 0, 1 gives an object claiming that the result is plus or minus identity:
the unrestricted form of C20 is false. -/
theorem C20_scale_false {n : Nat} (d : ℝ) (h0 : d ≠ 0) (h1 : d ≠ 1) (h2 : d ≠ -1) :
    ∃ p r, Built p ∧ Sound p (fun _ : Unit => (1 : M (n + 1))) ∧ scale d p = some r ∧
      ¬ Sound r (fun _ : Unit => d • (1 : M (n + 1))) := by
  let p : Props := ⟨true, true, .identity, true, .pd⟩
  have hm : make (some .identity) none none none = some p := rfl
  have hb : Built p := ⟨_, _, _, _, hm⟩
  have hs : Sound p (fun _ : Unit => (1 : M (n + 1))) :=
    C16_declared_sound _ _ _ _ _ _ ⟨by rintro x ⟨⟩ t; rfl, by simp, by simp, by simp⟩ hm
  cases hr : scale d p with
  | none => exact absurd ((C21_scale_throws_iff hb d).mp hr).1 h0
  | some r =>
    refine ⟨p, r, hb, hs, hr, ?_⟩
    intro hS
    rcases lt_or_gt_of_ne h0 with h | h
    · have hr' : scale d p = neg p := by
        simp [scale, scaleShape, scalePos, h, ne_of_lt h, MP.neg]
      rw [hr'] at hr
      have : neg p = some ⟨true, true, .minusIdentity, true, .nd⟩ := rfl
      rw [this] at hr; cases hr
      have := congrFun (congrFun (hS.minusIdentity rfl ()) 0) 0
      simp at this
      exact h2 this
    · have h' : ¬ d < 0 := not_lt.mpr (le_of_lt h)
      have hr' : scale d p = some p := by
        simp [scale, scaleShape, scalePos, h, h', ne_of_gt h, C16_rebuild hb]
      rw [hr'] at hr; cases hr
      have := congrFun (congrFun (hS.identity rfl ()) 0) 0
      simp at this
      exact h1 this

/-- Operators reject operands that are true of matrices: the sum of two positive definite matrices, of the identity and zero, the
product of a changing matrix by zero, and 0 times a changing matrix. -/
theorem C21_rejects_consistent {n : Nat} :
    (∃ p, Built p ∧ Sound p (fun _ : Bool => (1 : M n)) ∧ add p p = none) ∧
    (∃ p q, Built p ∧ Built q ∧ Sound p (fun _ : Bool => (1 : M n)) ∧ Sound q (fun _ : Bool => (0 : M n)) ∧ add p q = none) ∧
    (∃ p q, Built p ∧ Built q ∧ Sound p (fun b : Bool => if b then (1 : M n) else 0) ∧ Sound q (fun _ : Bool => (0 : M n)) ∧
      mul p q = none) ∧
    (∃ p, Built p ∧ Sound p (fun b : Bool => if b then (1 : M n) else 0) ∧ scale (0 : ℝ) p = none) := by
  have sI : ∀ p, make (some .identity) none none none = some p → Sound p (fun _ : Bool => (1 : M n)) := fun p hm =>
    C16_declared_sound _ _ _ _ _ _ ⟨by rintro x ⟨⟩ t; rfl, by simp, by simp, by simp⟩ hm
  have sZ : ∀ p, make (some .zero) none none none = some p → Sound p (fun _ : Bool => (0 : M n)) := fun p hm =>
    C16_declared_sound _ _ _ _ _ _ ⟨by rintro x ⟨⟩ t; rfl, by simp, by simp, by simp⟩ hm
  have sG : Sound MP.default (fun b : Bool => if b then (1 : M n) else 0) :=
    C16_declared_sound none none none none _ _ ⟨by simp, by simp, by simp, by simp⟩ rfl
  have bI : Built ⟨true, true, .identity, true, .pd⟩ := ⟨some .identity, none, none, none, rfl⟩
  have bZ : Built ⟨true, false, .zero, true, .indef⟩ := ⟨some .zero, none, none, none, rfl⟩
  refine ⟨⟨_, bI, sI _ rfl, rfl⟩, ⟨_, _, bI, bZ, sI _ rfl, sZ _ rfl, rfl⟩,
    ⟨_, _, default_built, bZ, sG, sZ _ rfl, rfl⟩, ⟨_, default_built, sG, ?_⟩⟩
  exact (C21_scale_throws_iff default_built 0).mpr ⟨rfl, rfl⟩

/-! ## The hypotheses can be met -/

/-- A lower triangular matrix declared symmetric and semidefinite, invertible: found diagonal and definite. -/
example : make (some .lower) (some .psd) none (some true) = some ⟨false, true, .diagonal, true, .pd⟩ := rfl
example : Declared (T := Unit) (some .diagonal) (some .psd) none (some true) (fun _ => (2 : ℝ) • (1 : M 3)) :=
  ⟨by rintro x ⟨⟩ t; exact multiple_diag ⟨2, rfl⟩,
   by rintro x ⟨⟩ t; exact pos_smul (p := .psd) (by norm_num) (pd_psd pd_one), by simp,
   fun _ _ => inv_smul (by norm_num) (pd_inv pd_one)⟩
example : add ⟨false, true, .diagonal, true, .pd⟩ ⟨true, false, .lower, false, .na⟩ = some ⟨false, false, .lower, false, .na⟩ := rfl
example : mul ⟨true, true, .multiple, true, .pd⟩ ⟨true, true, .minusIdentity, true, .nd⟩ = some ⟨true, true, .multiple, true, .nzIndef⟩ := rfl

-- the theorems applied to constant multiples of the identity, and to a matrix that changes
theorem ex_declared : Declared (T := Unit) (some .diagonal) (some .psd) (some true) (some true) (fun _ => (2 : ℝ) • (1 : M 3)) :=
  ⟨by rintro x ⟨⟩ t; exact multiple_diag ⟨2, rfl⟩,
   by rintro x ⟨⟩ t; exact pos_smul (p := .psd) (by norm_num) (pd_psd pd_one), by simp,
   fun _ _ => inv_smul (by norm_num) (pd_inv pd_one)⟩

theorem ex_sound : Sound (T := Unit) ⟨true, true, .diagonal, true, .pd⟩ (fun _ => (2 : ℝ) • (1 : M 3)) :=
  C16_declared_sound _ _ _ _ _ _ ex_declared rfl

example := C16_truthful_accepted (n := 2) _ _ _ _ _ ex_declared (by simp) (by simp)
example : Sound (T := Unit) ⟨true, true, .diagonal, true, .nd⟩ (fun _ => -((2 : ℝ) • (1 : M 3))) :=
  C17_neg_sound _ _ _ ex_sound rfl
example : ∃ r, Sound (T := Unit) r (fun _ => (2 : ℝ) • (1 : M 3) - (2 : ℝ) • (1 : M 3)) :=
  ⟨_, C18_sub_sound _ _ _ _ _ ex_sound ex_sound rfl⟩
example : Sound (T := Unit) ⟨true, true, .diagonal, true, .nzIndef⟩ (fun _ => ((2 : ℝ) • (1 : M 3)) * ((2 : ℝ) • (1 : M 3))) :=
  C19_mul_sound _ _ _ _ _ ex_sound ex_sound rfl
example : ∃ r, Sound r (fun t : Bool => (if t then (1 : M 3) else 0) + (if t then (0 : M 3) else 1)) :=
  ⟨_, C18_add_sound _ _ _ _ _ (C16_default _).2 (C16_default _).2 rfl⟩
example : ∃ r, Sound (T := Unit) r (fun _ => (3 : ℝ) • ((2 : ℝ) • (1 : M 3))) := by
  have hb : Built ⟨true, true, .diagonal, true, .pd⟩ := ⟨some .diagonal, some .psd, some true, some true, rfl⟩
  cases h : scale (3 : ℝ) ⟨true, true, .diagonal, true, .pd⟩ with
  | none => exact absurd ((C21_scale_throws_iff hb 3).1 h).1 (by norm_num)
  | some r => exact ⟨r, C20_scale_sound 3 _ _ _ ex_sound (Or.inl ⟨by decide, by decide⟩) h⟩
example : ∃ q, neg ⟨true, true, .diagonal, true, .pd⟩ = some q ∧ neg q = some ⟨true, true, .diagonal, true, .pd⟩ :=
  C17_neg_total ⟨some .diagonal, some .psd, some true, some true, rfl⟩
-- the sum of two positive definite matrices is refused
example : add ⟨true, true, .diagonal, true, .pd⟩ ⟨true, true, .diagonal, true, .pd⟩ = none :=
  (C21_add_throws_iff ⟨some .diagonal, some .psd, some true, some true, rfl⟩ ⟨some .diagonal, some .psd, some true, some true, rfl⟩).2 rfl
example : sub ⟨true, true, .diagonal, true, .pd⟩ ⟨true, true, .diagonal, true, .pd⟩ =
    add ⟨true, true, .diagonal, true, .pd⟩ ⟨true, true, .diagonal, true, .nd⟩ :=
  C21_sub_eq ⟨some .diagonal, some .psd, some true, some true, rfl⟩ ⟨some .diagonal, some .psd, some true, some true, rfl⟩ rfl
-- a zero matrix times a matrix that changes is refused
example : ∃ p, Built p ∧ p.isZero = true ∧ mul p MP.default = none := by
  have hp : Built ⟨true, true, .zero, false, .psd⟩ ∨ ∃ p, Built p ∧ p.isZero = true :=
    Or.inr ⟨_, ⟨some .zero, none, none, none, rfl⟩, rfl⟩
  obtain ⟨p, hb, hz⟩ := hp.elim (fun h => ⟨_, h, rfl⟩) id
  exact ⟨p, hb, hz, (C21_mul_throws_iff hb ⟨none, none, none, none, rfl⟩).2 (by rw [hz]; rfl)⟩
example := C20_scale_false (n := 2) 3 (by norm_num) (by norm_num) (by norm_num)

end Verif.C16
