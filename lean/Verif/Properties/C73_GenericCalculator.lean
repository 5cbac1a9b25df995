import Verif.Model.GenericCalculator
import Verif.Properties.C43_SubstitutionUnit
import Mathlib.LinearAlgebra.Matrix.Rank
/-!
# C73 - the generic calculator meets the law of the calculators

The specification of a rank-revealing QR factorization, and `C43.Lawful`.
-/
set_option autoImplicit false
set_option linter.unusedSectionVars false

namespace Verif.C73
open Verif Verif.GC Finset

variable {K : Type} [Field K]

/-- `q` is a rank-revealing QR factorization of the matrix `A` of size `m × n`: the columns of `A` taken in the order `P` are `Q R`, with `Q` orthogonal and
`R` upper triangular, with `rank` rows that are not zero and a diagonal without zero in these rows. -/
structure IsQR (A : Nat → Nat → K) (m n : Nat) (q : QR K) : Prop where
  perm : ∀ j < n, q.P j < n
  inj : ∀ i < n, ∀ j < n, q.P i = q.P j → i = j
  surj : ∀ v < n, ∃ j < n, q.P j = v
  ortho : ∀ k < m, ∀ l < m, ∑ i ∈ range m, q.Q i k * q.Q i l = if k = l then 1 else 0
  ortho' : ∀ i < m, ∀ j < m, ∑ k ∈ range m, q.Q i k * q.Q j k = if i = j then 1 else 0
  eq : ∀ i < m, ∀ j < n, A i (q.P j) = ∑ k ∈ range m, q.Q i k * q.R k j
  tri : ∀ i < m, ∀ j < n, j < i → q.R i j = 0
  zero : ∀ i < m, ∀ j < n, q.rank ≤ i → q.R i j = 0
  diag : ∀ i < q.rank, q.R i i ≠ 0
  rankm : q.rank ≤ m
  rankn : q.rank ≤ n

/-! ## Back substitution -/

theorem back_keep (R : Nat → Nat → K) (r k : Nat) (x : Nat → K) : ∀ i, k ≤ i → back R r k x i = x i := by
  induction k generalizing x with
  | zero => intro i _; rfl
  | succ k ih =>
    intro i hi
    rw [back, ih _ i (by omega), if_neg (by omega)]

/-- Row `k` of the system, from the diagonal -/
theorem back_row (R : Nat → Nat → K) (r : Nat) (hd : ∀ i < r, R i i ≠ 0) (k : Nat) (hk : k ≤ r) (x : Nat → K) : ∀ i < k,
    R i i * back R r k x i + ∑ j ∈ range (r - (i + 1)), R i (i + 1 + j) * back R r k x (i + 1 + j) = x i := by
  induction k generalizing x with
  | zero => intro i hi; omega
  | succ k ih =>
    intro i hi
    rw [back]
    by_cases hik : i < k
    · rw [ih (by omega) _ i hik, if_neg (by omega)]
    · obtain rfl : i = k := by omega
      have h1 : ∀ j, back R r i (fun a => if a = i then (x i - ∑ j ∈ range (r - (i + 1)), R i (i + 1 + j) * x (i + 1 + j)) / R i i else x a) (i + 1 + j) = x (i + 1 + j) := by
        intro j
        rw [back_keep _ _ _ _ _ (by omega), if_neg (by omega)]
      simp only [h1]
      rw [back_keep _ _ _ _ _ (le_refl i), if_pos rfl]
      rw [mul_comm (R i i), div_mul_cancel₀ _ (hd i (by omega)), sub_add_cancel]

theorem sum_split (f : Nat → K) (n r : Nat) (h : r ≤ n) : ∑ j ∈ range n, f j = ∑ j ∈ range r, f j + ∑ p ∈ range (n - r), f (r + p) := by
  conv_lhs => rw [show n = r + (n - r) by omega]
  exact Finset.sum_range_add f r (n - r)

theorem sum_tri (R : Nat → Nat → K) (r : Nat) (ht : ∀ i < r, ∀ j < r, j < i → R i j = 0) (x : Nat → K) (i : Nat) (hi : i < r) :
    ∑ j ∈ range r, R i j * x j = R i i * x i + ∑ j ∈ range (r - (i + 1)), R i (i + 1 + j) * x (i + 1 + j) := by
  rw [sum_split _ r (i + 1) (by omega), Finset.sum_range_succ, Finset.sum_eq_zero (s := range i), zero_add]
  intro j hj
  have hj : j < i := by simpa using hj
  rw [ht i hi j (by omega) hj, zero_mul]

/-- The back substitution solves the system, -/
theorem back_solves (R : Nat → Nat → K) (r : Nat) (hd : ∀ i < r, R i i ≠ 0) (ht : ∀ i < r, ∀ j < r, j < i → R i j = 0) (b : Nat → K) :
    ∀ i < r, ∑ j ∈ range r, R i j * back R r r b j = b i := by
  intro i hi
  rw [sum_tri R r ht _ i hi]
  exact back_row R r hd r (le_refl r) b i hi

/-- which has one solution. -/
theorem tri_unique (R : Nat → Nat → K) (r : Nat) (hd : ∀ i < r, R i i ≠ 0) (ht : ∀ i < r, ∀ j < r, j < i → R i j = 0) (x y : Nat → K)
    (h : ∀ i < r, ∑ j ∈ range r, R i j * x j = ∑ j ∈ range r, R i j * y j) : ∀ i < r, x i = y i := by
  have key : ∀ k ≤ r, ∀ i < r, r - k ≤ i → x i = y i := by
    intro k
    induction k with
    | zero => intro _ i hi h0; omega
    | succ k ih =>
      intro hk i hi hi'
      have h1 := h i hi
      rw [sum_tri R r ht x i hi, sum_tri R r ht y i hi] at h1
      have h2 : ∑ j ∈ range (r - (i + 1)), R i (i + 1 + j) * x (i + 1 + j) = ∑ j ∈ range (r - (i + 1)), R i (i + 1 + j) * y (i + 1 + j) := by
        apply Finset.sum_congr rfl
        intro j hj
        have hj : j < r - (i + 1) := by simpa using hj
        rw [ih (by omega) (i + 1 + j) (by omega) (by omega)]
      rw [h2] at h1
      exact mul_left_cancel₀ (hd i hi) (add_right_cancel h1)
  intro i hi
  exact key r (le_refl r) i hi (by omega)

theorem back_unique (R : Nat → Nat → K) (r : Nat) (hd : ∀ i < r, R i i ≠ 0) (ht : ∀ i < r, ∀ j < r, j < i → R i j = 0) (b x : Nat → K)
    (h : ∀ i < r, ∑ j ∈ range r, R i j * x j = b i) : ∀ i < r, x i = back R r r b i :=
  tri_unique R r hd ht x _ fun i hi => by rw [h i hi, back_solves R r hd ht b i hi]

/-! ## Writing rows -/

theorem putRows_at (P : Nat → Nat) (f : Nat → Nat → K) (M : Nat → Nat → K) (n : Nat) (hinj : ∀ i < n, ∀ j < n, P i = P j → i = j) : ∀ k ≤ n,
    (∀ i < k, ∀ j, putRows P f k M (P i) j = f i j) ∧ ∀ v, (∀ i < k, P i ≠ v) → ∀ j, putRows P f k M v j = M v j := by
  intro k
  induction k with
  | zero => intro _; exact ⟨fun i hi => by omega, fun v _ j => rfl⟩
  | succ k ih =>
    intro hk
    obtain ⟨h1, h2⟩ := ih (by omega)
    have e : putRows P f (k + 1) M = DC.setRow (putRows P f k M) (P k) (f k) := by
      unfold putRows
      rw [List.range_succ, List.foldl_append]
      rfl
    rw [e]
    refine ⟨fun i hi j => ?_, fun v hv j => ?_⟩
    · by_cases hik : i = k
      · subst hik; unfold DC.setRow; rw [if_pos rfl]
      · unfold DC.setRow
        rw [if_neg fun h => hik (hinj i (by omega) k (by omega) h)]
        exact h1 i (by omega) j
    · unfold DC.setRow
      rw [if_neg fun h => hv k (by omega) h.symm]
      exact h2 v (fun i hi => hv i (by omega)) j

/-- A second loop that writes other rows -/
theorem loop_at (P : Nat → Nat) (r : Nat) (g : Nat → Nat → K) (M : Nat → Nat → K) (step : (Nat → Nat → K) → Nat → Nat → Nat → K)
    (hs : ∀ M k v j, step M k v j = if v = P (r + k) then g k j else M v j) (n : Nat) (hinj : ∀ i < n, ∀ j < n, P i = P j → i = j) : ∀ k, r + k ≤ n →
    (∀ p < k, ∀ j, (List.range k).foldl step M (P (r + p)) j = g p j) ∧ ∀ v, (∀ p < k, P (r + p) ≠ v) → ∀ j, (List.range k).foldl step M v j = M v j := by
  intro k
  induction k with
  | zero => intro _; exact ⟨fun i hi => by omega, fun v _ j => rfl⟩
  | succ k ih =>
    intro hk
    obtain ⟨h1, h2⟩ := ih (by omega)
    rw [List.range_succ, List.foldl_append]
    simp only [List.foldl_cons, List.foldl_nil]
    refine ⟨fun p hp j => ?_, fun v hv j => ?_⟩
    · rw [hs]
      by_cases hpk : p = k
      · subst hpk; rw [if_pos rfl]
      · rw [if_neg fun h => hpk (by have := hinj _ (by omega) _ (by omega) h; omega)]
        exact h1 p (by omega) j
    · rw [hs, if_neg fun h => hv k (by omega) h.symm]
      exact h2 v (fun i hi => hv i (by omega)) j

/-- The entries of `N_` -/
theorem nullspace_at {A : Nat → Nat → K} {m n : Nat} {q : QR K} (h : IsQR A m n q) (old : Nat → Nat → K) :
    (∀ i < q.rank, ∀ p, nullspace q n q.rank old (q.P i) p = -back q.R q.rank q.rank (fun k => q.R k (q.rank + p)) i) ∧
    ∀ p < n - q.rank, ∀ j, nullspace q n q.rank old (q.P (q.rank + p)) j = if j = p then 1 else 0 := by
  have hr := h.rankn
  have hl := loop_at q.P q.rank (fun k j => if j = k then (1 : K) else 0) (putRows q.P (fun i p => -back q.R q.rank q.rank (fun k => q.R k (q.rank + p)) i) q.rank old)
    (fun M k => let M := DC.setRow M (q.P (q.rank + k)) fun _ => 0; fun i j => if i = q.P (q.rank + k) ∧ j = k then 1 else M i j)
    (by
      intro M k v j
      simp only [DC.setRow]
      by_cases hv : v = q.P (q.rank + k) <;> by_cases hj : j = k <;> simp [hv, hj]) n h.inj (n - q.rank) (by omega)
  refine ⟨fun i hi p => ?_, hl.1⟩
  unfold nullspace
  refine (hl.2 (q.P i) (fun p hp he => ?_) p).trans ((putRows_at q.P _ old n h.inj q.rank h.rankn).1 i hi p)
  have := h.inj _ (by omega) _ (by omega) he
  omega

/-- The rows written by `premultiply` -/
theorem premultiply_at {A : Nat → Nat → K} {I : Impl K} (h : IsQR A I.m I.n I.qr) (hr : I.qr.rank = I.r) (outA inp : Nat → Nat → K) (minus : Bool) :
    (∀ i < I.r, ∀ j, (I.premultiply outA inp minus).1 (I.qr.P i) j =
      (if minus then -1 else 1) * back I.qr.R I.r I.r (fun k => ∑ a ∈ range I.m, I.qr.Q a k * inp a j) i) ∧
    (∀ p < I.n - I.r, ∀ j, (I.premultiply outA inp minus).1 (I.qr.P (I.r + p)) j = 0) ∧
    ∀ i j, (I.premultiply outA inp minus).2 i j = ∑ a ∈ range I.m, I.qr.Q a (I.r + i) * inp a j := by
  have hrn : I.r ≤ I.n := by rw [← hr]; exact h.rankn
  have hl := fun M : Nat → Nat → K => loop_at I.qr.P I.r (fun _ _ => (0 : K)) M (fun M k => DC.setRow M (I.qr.P (I.r + k)) fun _ => 0) (fun M k v j => rfl) I.n h.inj (I.n - I.r) (by omega)
  refine ⟨fun i hi j => ?_, fun p hp j => ?_, fun i j => ?_⟩
  · unfold Impl.premultiply
    simp only
    rw [(hl _).2 (I.qr.P i) (fun p hp he => by have := h.inj _ (by omega) _ (by omega) he; omega) j, (putRows_at I.qr.P _ outA I.n h.inj I.r hrn).1 i hi j]
    rw [if_pos hi]
    by_cases hm : minus = true
    · rw [if_pos hm, if_pos hm]; ring
    · rw [if_neg hm, if_neg hm]; ring
  · unfold Impl.premultiply
    simp only
    exact (hl _).1 p hp j
  · unfold Impl.premultiply
    simp only
    rw [if_neg (by omega)]


/-! ## The law -/

theorem sum_comm' (m n : Nat) (f : Nat → Nat → K) : ∑ i ∈ range m, ∑ j ∈ range n, f i j = ∑ j ∈ range n, ∑ i ∈ range m, f i j := Finset.sum_comm

theorem sum_perm {n : Nat} {P : Nat → Nat} (hp : ∀ j < n, P j < n) (hi : ∀ i < n, ∀ j < n, P i = P j → i = j) (hs : ∀ v < n, ∃ j < n, P j = v) (f : Nat → K) :
    ∑ v ∈ range n, f v = ∑ j ∈ range n, f (P j) := by
  symm
  apply Finset.sum_bij (fun j _ => P j)
  · intro j hj; simpa using hp j (by simpa using hj)
  · intro i hi' j hj he; exact hi i (by simpa using hi') j (by simpa using hj) he
  · intro v hv
    obtain ⟨j, hj, e⟩ := hs v (by simpa using hv)
    exact ⟨j, by simpa using hj, e⟩
  · intro j _; rfl

/-- The system `A x = c` is the system `R y = Qᵀ c` for the permuted unknowns. -/
theorem system_qr {A : Nat → Nat → K} {m n : Nat} {q : QR K} (h : IsQR A m n q) (x c : Nat → K) :
    (∀ i < m, ∑ v ∈ range n, A i v * x v = c i) ↔ ∀ k < m, ∑ j ∈ range n, q.R k j * x (q.P j) = ∑ a ∈ range m, q.Q a k * c a := by
  have hA : ∀ i < m, ∑ v ∈ range n, A i v * x v = ∑ k ∈ range m, q.Q i k * ∑ j ∈ range n, q.R k j * x (q.P j) := by
    intro i hi
    rw [sum_perm h.perm h.inj h.surj fun v => A i v * x v]
    have : ∀ j ∈ range n, A i (q.P j) * x (q.P j) = ∑ k ∈ range m, q.Q i k * (q.R k j * x (q.P j)) := by
      intro j hj
      rw [h.eq i hi j (by simpa using hj), Finset.sum_mul]
      exact Finset.sum_congr rfl fun k _ => by ring
    rw [Finset.sum_congr rfl this, sum_comm']
    exact Finset.sum_congr rfl fun k _ => by rw [Finset.mul_sum]
  constructor
  · intro hx k hk
    have : ∀ a ∈ range m, q.Q a k * c a = ∑ l ∈ range m, q.Q a k * q.Q a l * ∑ j ∈ range n, q.R l j * x (q.P j) := by
      intro a ha
      rw [← hx a (by simpa using ha), hA a (by simpa using ha), Finset.mul_sum]
      exact Finset.sum_congr rfl fun l _ => by ring
    rw [Finset.sum_congr rfl this, sum_comm']
    have h2 : ∀ l ∈ range m, ∑ a ∈ range m, q.Q a k * q.Q a l * ∑ j ∈ range n, q.R l j * x (q.P j) = (if k = l then 1 else 0) * ∑ j ∈ range n, q.R l j * x (q.P j) := by
      intro l hl
      rw [← Finset.sum_mul, h.ortho k hk l (by simpa using hl)]
    rw [Finset.sum_congr rfl h2]
    symm
    rw [Finset.sum_eq_single k]
    · rw [if_pos rfl, one_mul]
    · intro l _ hl; rw [if_neg (Ne.symm hl), zero_mul]
    · intro hk'; exact absurd (by simpa using hk) hk'
  · intro hR i hi
    rw [hA i hi]
    have : ∀ k ∈ range m, q.Q i k * ∑ j ∈ range n, q.R k j * x (q.P j) = ∑ a ∈ range m, q.Q i k * q.Q a k * c a := by
      intro k hk
      rw [hR k (by simpa using hk), Finset.mul_sum]
      exact Finset.sum_congr rfl fun a _ => by ring
    rw [Finset.sum_congr rfl this, sum_comm']
    have h2 : ∀ a ∈ range m, ∑ k ∈ range m, q.Q i k * q.Q a k * c a = (if i = a then 1 else 0) * c a := by
      intro a ha
      rw [← Finset.sum_mul, h.ortho' i hi a (by simpa using ha)]
    rw [Finset.sum_congr rfl h2, Finset.sum_eq_single i]
    · rw [if_pos rfl, one_mul]
    · intro l _ hl; rw [if_neg (Ne.symm hl), zero_mul]
    · intro hk'; exact absurd (by simpa using hi) hk'

/-- Matrices with the rows computed by the calculator meet the law. -/
theorem lawful_of {A : Nat → Nat → K} {m n : Nat} {q : QR K} (h : IsQR A m n q) {sharp N St : Nat → Nat → K}
    (hs : ∀ i < q.rank, ∀ a < m, sharp (q.P i) a = back q.R q.rank q.rank (fun k => q.Q a k) i) (hs0 : ∀ p < n - q.rank, ∀ a < m, sharp (q.P (q.rank + p)) a = 0)
    (hN : ∀ i < q.rank, ∀ p < n - q.rank, N (q.P i) p = -back q.R q.rank q.rank (fun k => q.R k (q.rank + p)) i)
    (hN1 : ∀ p < n - q.rank, ∀ j < n - q.rank, N (q.P (q.rank + p)) j = if j = p then 1 else 0) (hS : ∀ i < m - q.rank, ∀ a < m, St i a = q.Q a (q.rank + i)) :
    C43.Lawful A m n q.rank ⟨sharp, N, St⟩ := by
  have hrn := h.rankn
  have hrm := h.rankm
  have htri : ∀ i < q.rank, ∀ j < q.rank, j < i → q.R i j = 0 := fun i hi j hj hji => h.tri i (by omega) j (by omega) hji
  -- the free unknowns give the others
  have hrow : ∀ (x c : Nat → K), (∀ i < q.rank, ∑ j ∈ range n, q.R i j * x (q.P j) = ∑ a ∈ range m, q.Q a i * c a) ↔
      ∀ i < q.rank, x (q.P i) = ∑ a ∈ range m, sharp (q.P i) a * c a + ∑ p ∈ range (n - q.rank), N (q.P i) p * x (q.P (q.rank + p)) := by
    intro x c
    have hsys : ∀ i < q.rank, ∑ j ∈ range q.rank, q.R i j * (∑ a ∈ range m, sharp (q.P j) a * c a + ∑ p ∈ range (n - q.rank), N (q.P j) p * x (q.P (q.rank + p))) =
        ∑ a ∈ range m, q.Q a i * c a - ∑ p ∈ range (n - q.rank), q.R i (q.rank + p) * x (q.P (q.rank + p)) := by
      intro i hi
      have e1 : ∑ j ∈ range q.rank, q.R i j * ∑ a ∈ range m, sharp (q.P j) a * c a = ∑ a ∈ range m, q.Q a i * c a := by
        have : ∀ j ∈ range q.rank, q.R i j * ∑ a ∈ range m, sharp (q.P j) a * c a = ∑ a ∈ range m, q.R i j * back q.R q.rank q.rank (fun k => q.Q a k) j * c a := by
          intro j hj
          rw [Finset.mul_sum]
          exact Finset.sum_congr rfl fun a ha => by rw [hs j (by simpa using hj) a (by simpa using ha)]; ring
        rw [Finset.sum_congr rfl this, sum_comm']
        exact Finset.sum_congr rfl fun a _ => by rw [← Finset.sum_mul, back_solves q.R q.rank h.diag htri _ i hi]
      have e2 : ∑ j ∈ range q.rank, q.R i j * ∑ p ∈ range (n - q.rank), N (q.P j) p * x (q.P (q.rank + p)) = -∑ p ∈ range (n - q.rank), q.R i (q.rank + p) * x (q.P (q.rank + p)) := by
        have : ∀ j ∈ range q.rank, q.R i j * ∑ p ∈ range (n - q.rank), N (q.P j) p * x (q.P (q.rank + p)) =
            ∑ p ∈ range (n - q.rank), q.R i j * back q.R q.rank q.rank (fun k => q.R k (q.rank + p)) j * -x (q.P (q.rank + p)) := by
          intro j hj
          rw [Finset.mul_sum]
          exact Finset.sum_congr rfl fun p hp => by rw [hN j (by simpa using hj) p (by simpa using hp)]; ring
        rw [Finset.sum_congr rfl this, sum_comm', ← Finset.sum_neg_distrib]
        exact Finset.sum_congr rfl fun p _ => by rw [← Finset.sum_mul, back_solves q.R q.rank h.diag htri _ i hi]; ring
      have : ∀ j ∈ range q.rank, q.R i j * (∑ a ∈ range m, sharp (q.P j) a * c a + ∑ p ∈ range (n - q.rank), N (q.P j) p * x (q.P (q.rank + p))) =
          q.R i j * ∑ a ∈ range m, sharp (q.P j) a * c a + q.R i j * ∑ p ∈ range (n - q.rank), N (q.P j) p * x (q.P (q.rank + p)) := fun j _ => mul_add ..
      rw [Finset.sum_congr rfl this, Finset.sum_add_distrib, e1, e2, sub_eq_add_neg]
    constructor
    · intro hx
      apply tri_unique q.R q.rank h.diag htri (fun i => x (q.P i))
      intro i hi
      rw [hsys i hi]
      have := hx i hi
      rw [sum_split _ n q.rank hrn] at this
      rw [← this, add_sub_cancel_right]
    · intro hx i hi
      rw [sum_split _ n q.rank hrn]
      have : ∀ j ∈ range q.rank, q.R i j * x (q.P j) = q.R i j * (∑ a ∈ range m, sharp (q.P j) a * c a + ∑ p ∈ range (n - q.rank), N (q.P j) p * x (q.P (q.rank + p))) :=
        fun j hj => by rw [hx j (by simpa using hj)]
      rw [Finset.sum_congr rfl this, hsys i hi, sub_add_cancel]
  have hsplit : ∀ v < n, (∃ i < q.rank, v = q.P i) ∨ ∃ p < n - q.rank, v = q.P (q.rank + p) := by
    intro v hv
    obtain ⟨j, hj, rfl⟩ := h.surj v hv
    by_cases hjr : j < q.rank
    · exact .inl ⟨j, hjr, rfl⟩
    · exact .inr ⟨j - q.rank, by omega, by rw [show q.rank + (j - q.rank) = j by omega]⟩
  have hz1 : ∀ (z : Nat → K), ∀ p < n - q.rank, ∑ j ∈ range (n - q.rank), N (q.P (q.rank + p)) j * z j = z p := by
    intro z p hp
    rw [Finset.sum_eq_single p]
    · rw [hN1 p hp p hp, if_pos rfl, one_mul]
    · intro j hj hjp
      rw [hN1 p hp j (by simpa using hj), if_neg hjp, zero_mul]
    · intro hp'; exact absurd (by simpa using hp) hp'
  constructor
  · intro x c
    rw [system_qr h]
    constructor
    · intro hx
      refine ⟨fun i hi => ?_, fun p => x (q.P (q.rank + p)), fun v hv => ?_⟩
      · have := hx (q.rank + i) (by omega)
        rw [Finset.sum_eq_zero (s := range n)] at this
        · rw [this]
          exact Finset.sum_congr rfl fun a ha => by
            show St _ _ * _ = _
            rw [hS i hi a (by simpa using ha)]
        · intro j hj
          rw [h.zero _ (by omega) j (by simpa using hj) (by omega), zero_mul]
      · rcases hsplit v hv with ⟨i, hi, rfl⟩ | ⟨p, hp, rfl⟩
        · exact (hrow x c).mp (fun i hi => hx i (by omega)) i hi
        · show _ = ∑ a ∈ range m, sharp _ a * c a + ∑ j ∈ range (n - q.rank), N _ j * x (q.P (q.rank + j))
          rw [hz1 (fun j => x (q.P (q.rank + j))) p hp, Finset.sum_eq_zero (s := range m), zero_add]
          intro a ha
          rw [hs0 p hp a (by simpa using ha), zero_mul]
    · rintro ⟨hS0, z, hz⟩
      have hfree : ∀ p < n - q.rank, x (q.P (q.rank + p)) = z p := by
        intro p hp
        have := hz (q.P (q.rank + p)) (h.perm _ (by omega))
        rw [this]
        show ∑ a ∈ range m, sharp _ a * c a + ∑ j ∈ range (n - q.rank), N _ j * z j = _
        rw [hz1 z p hp, Finset.sum_eq_zero (s := range m), zero_add]
        intro a ha
        rw [hs0 p hp a (by simpa using ha), zero_mul]
      intro k hk
      by_cases hkr : k < q.rank
      · refine (hrow x c).mpr (fun i hi => ?_) k hkr
        rw [hz (q.P i) (h.perm _ (by omega))]
        show ∑ a ∈ range m, sharp _ a * c a + ∑ j ∈ range (n - q.rank), N _ j * z j = _
        congr 1
        exact Finset.sum_congr rfl fun p hp => by rw [hfree p (by simpa using hp)]
      · rw [Finset.sum_eq_zero (s := range n)]
        · have := hS0 (k - q.rank) (by omega)
          rw [← this]
          exact Finset.sum_congr rfl fun a ha => by
            show St _ _ * _ = _
            rw [hS _ (by omega) a (by simpa using ha), show q.rank + (k - q.rank) = k by omega]
        · intro j hj
          rw [h.zero k hk j (by simpa using hj) (by omega), zero_mul]
  · intro z z' hz p hp
    have := hz (q.P (q.rank + p)) (h.perm _ (by omega))
    have h1 := hz1 z p hp
    have h2 := hz1 z' p hp
    rw [← h1, ← h2]
    exact this

/-! ## The rank -/

/-- The rank of the matrix made of the first `m` rows and `n` columns of `A` -/
noncomputable def rankOf (A : Nat → Nat → K) (m n : Nat) : Nat := (Matrix.of fun (i : Fin m) (j : Fin n) => A i j).rank

/-- The law determines the rank. -/
theorem lawful_rank {A : Nat → Nat → K} {m n r : Nat} {C : SU.Calc K} (h : C43.Lawful A m n r C) (hr : r ≤ n) : rankOf A m n = r := by
  let M : Matrix (Fin m) (Fin n) K := Matrix.of fun i j => A i j
  let N : Matrix (Fin n) (Fin (n - r)) K := Matrix.of fun i j => C.N i j
  let ext : {k : Nat} → (Fin k → K) → Nat → K := fun {k} x i => if h : i < k then x ⟨i, h⟩ else 0
  have hext : ∀ {k : Nat} (x : Fin k → K) (i : Fin k), ext x i = x i := by
    intro k x i
    simp [ext]
  have hM : ∀ (x : Fin n → K) (i : Fin m), M.mulVecLin x i = ∑ j ∈ range n, A i j * ext x j := by
    intro x i
    rw [Finset.sum_range]
    simp only [hext]
    rfl
  have hN : ∀ (z : Fin (n - r) → K) (j : Fin n), N.mulVecLin z j = ∑ p ∈ range (n - r), C.N j p * ext z p := by
    intro x i
    rw [Finset.sum_range]
    simp only [hext]
    rfl
  have hinj : Function.Injective N.mulVecLin := by
    intro z z' hz
    funext p
    have := h.inj (ext z) (ext z') (fun j hj => by
      have := congrFun hz ⟨j, hj⟩
      rw [hN, hN] at this
      exact this) p p.2
    rw [hext, hext] at this
    exact this
  have hker : LinearMap.ker M.mulVecLin = LinearMap.range N.mulVecLin := by
    ext x
    rw [LinearMap.mem_ker, LinearMap.mem_range]
    have hsol := h.sol (ext x) (fun _ => 0)
    simp only [mul_zero, Finset.sum_const_zero, zero_add, implies_true, true_and] at hsol
    constructor
    · intro hx
      obtain ⟨z, hz⟩ := hsol.mp fun i hi => by
        have := congrFun hx ⟨i, hi⟩
        rw [hM] at this
        exact this
      refine ⟨fun p => z p, ?_⟩
      funext j
      rw [hN, ← hext x j, hz j j.2]
      refine Finset.sum_congr rfl fun p hp => ?_
      have hp' : p < n - r := by simpa using hp
      simp [ext, hp']
    · rintro ⟨z, hz⟩
      funext i
      rw [hM]
      refine hsol.mpr ⟨ext z, fun j hj => ?_⟩ i i.2
      have := congrFun hz ⟨j, hj⟩
      rw [hN] at this
      rw [this, ← hext x ⟨j, hj⟩]
  have h1 := LinearMap.finrank_range_add_finrank_ker M.mulVecLin
  rw [hker, LinearMap.finrank_range_of_inj hinj, Module.finrank_fin_fun, Module.finrank_fin_fun] at h1
  show Module.finrank K (LinearMap.range M.mulVecLin) = r
  omega

/-! ## The matrix that is filled -/

/-- The entries that are written depend neither on the numbers nor on what was there. -/
theorem fillRow_form (dim : Nat → Nat) (vars cvars : List Nat) (row size : Nat) (vs : List Nat) : ∀ col : Nat, ∃ W : Nat → Nat → Prop,
    (∀ (jac : Nat → Nat → Nat → K) (A B : Nat → Nat → K) (i j : Nat), W i j → SU.fillRow dim jac vars cvars row size col vs A i j = SU.fillRow dim jac vars cvars row size col vs B i j) ∧
    ∀ (jac : Nat → Nat → Nat → K) (A : Nat → Nat → K) (i j : Nat), ¬W i j → SU.fillRow dim jac vars cvars row size col vs A i j = A i j := by
  induction vs with
  | nil => exact fun col => ⟨fun _ _ => False, fun _ _ _ _ _ h => h.elim, fun _ _ _ _ _ => rfl⟩
  | cons v vs ih =>
    intro col
    obtain ⟨W, h1, h2⟩ := ih (col + dim v)
    refine ⟨fun i j => W i j ∨ (v ∈ cvars ∧ row ≤ i ∧ i < row + size ∧ col ≤ j ∧ j < col + dim v), fun jac A B i j h => ?_, fun jac A i j h => ?_⟩
    · simp only [SU.fillRow]
      by_cases hW : W i j
      · exact h1 jac _ _ i j hW
      · rcases h with h | ⟨hv, h⟩
        · exact absurd h hW
        · rw [h2 jac _ i j hW, h2 jac _ i j hW, if_pos hv, if_pos hv, if_pos h, if_pos h]
    · simp only [SU.fillRow]
      rw [h2 jac _ i j fun hW => h (.inl hW)]
      by_cases hv : v ∈ cvars
      · rw [if_pos hv, if_neg fun h' => h (.inr ⟨hv, h'⟩)]
      · rw [if_neg hv]

theorem fillA_form (dim : Nat → Nat) (vars : List Nat) (cs : List SU.CInfo) : ∀ row : Nat, ∃ W : Nat → Nat → Prop,
    (∀ (jac : Nat → Nat → Nat → Nat → K) (A B : Nat → Nat → K) (i j : Nat), W i j → SU.fillA dim jac vars cs row A i j = SU.fillA dim jac vars cs row B i j) ∧
    ∀ (jac : Nat → Nat → Nat → Nat → K) (A : Nat → Nat → K) (i j : Nat), ¬W i j → SU.fillA dim jac vars cs row A i j = A i j := by
  induction cs with
  | nil => exact fun row => ⟨fun _ _ => False, fun _ _ _ _ _ h => h.elim, fun _ _ _ _ _ => rfl⟩
  | cons ci cs ih =>
    intro row
    obtain ⟨W, h1, h2⟩ := ih (row + ci.shape.size)
    obtain ⟨W', h1', h2'⟩ := fillRow_form (K := K) dim vars ci.shape.vars row ci.shape.size vars 0
    refine ⟨fun i j => W i j ∨ W' i j, fun jac A B i j h => ?_, fun jac A i j h => ?_⟩
    · simp only [SU.fillA]
      by_cases hW : W i j
      · exact h1 jac _ _ i j hW
      · rw [h2 jac _ i j hW, h2 jac _ i j hW]
        exact h1' _ _ _ i j (h.resolve_left hW)
    · simp only [SU.fillA]
      rw [h2 jac _ i j fun hW => h (.inl hW), h2' _ _ i j fun hW => h (.inr hW)]

/-- Filling a matrix that was filled is filling the null matrix. -/
theorem fillA_fill (dim : Nat → Nat) (vars : List Nat) (cs : List SU.CInfo) (jac jac' : Nat → Nat → Nat → Nat → K) (A : Nat → Nat → K) :
    SU.fillA dim jac vars cs 0 (SU.fillA dim jac' vars cs 0 A) = SU.fillA dim jac vars cs 0 A := by
  obtain ⟨W, h1, h2⟩ := fillA_form (K := K) dim vars cs 0
  funext i j
  by_cases hW : W i j
  · exact h1 jac _ _ i j hW
  · rw [h2 jac _ i j hW, h2 jac' _ i j hW, h2 jac _ i j hW]

theorem fillRow_congr (dim : Nat → Nat) (vars cvars : List Nat) (row size : Nat) (jac jac' : Nat → Nat → Nat → K) (vs : List Nat)
    (h : ∀ v ∈ vs, v ∈ cvars → ∀ r < size, ∀ c < dim v, jac v r c = jac' v r c) : ∀ (col : Nat) (A : Nat → Nat → K),
    SU.fillRow dim jac vars cvars row size col vs A = SU.fillRow dim jac' vars cvars row size col vs A := by
  induction vs with
  | nil => intro col A; rfl
  | cons v vs ih =>
    intro col A
    simp only [SU.fillRow]
    rw [ih fun v' hv' => h v' (List.mem_cons_of_mem _ hv')]
    congr 1
    by_cases hv : v ∈ cvars
    · rw [if_pos hv, if_pos hv]
      funext i j
      by_cases hc : row ≤ i ∧ i < row + size ∧ col ≤ j ∧ j < col + dim v
      · rw [if_pos hc, if_pos hc, h v (List.mem_cons_self ..) hv _ (by omega) _ (by omega)]
      · rw [if_neg hc, if_neg hc]
    · rw [if_neg hv, if_neg hv]

theorem fillA_congr (dim : Nat → Nat) (vars : List Nat) (jac jac' : Nat → Nat → Nat → Nat → K) (cs : List SU.CInfo)
    (h : ∀ ci ∈ cs, ∀ v ∈ vars, v ∈ ci.shape.vars → ∀ r < ci.shape.size, ∀ c < dim v, jac ci.idx v r c = jac' ci.idx v r c) : ∀ (row : Nat) (A : Nat → Nat → K),
    SU.fillA dim jac vars cs row A = SU.fillA dim jac' vars cs row A := by
  induction cs with
  | nil => intro row A; rfl
  | cons ci cs ih =>
    intro row A
    simp only [SU.fillA]
    rw [ih fun ci' hc => h ci' (List.mem_cons_of_mem _ hc), fillRow_congr dim vars ci.shape.vars row ci.shape.size (jac ci.idx) (jac' ci.idx) vars (h ci (List.mem_cons_self ..))]

/-- The matrix of the law (as in `C43.Calculators`) -/
def whole (dim : Nat → Nat) (vars : List Nat) (cs : List SU.CInfo) (jac : Nat → Nat → Nat → Nat → K) : Nat → Nat → K := SU.fillA dim jac vars cs 0 fun _ _ => 0

/-- One constraint and one variable: the matrix is the jacobian matrix. -/
theorem whole_simple (dim : Nat → Nat) (v : Nat) (ci : SU.CInfo) (hv : v ∈ ci.shape.vars) (jac : Nat → Nat → Nat → Nat → K) :
    ∀ i < ci.shape.size, ∀ j < dim v, whole dim [v] [ci] jac i j = jac ci.idx v i j := by
  intro i hi j hj
  simp only [whole, SU.fillA, SU.fillRow]
  rw [if_pos hv, if_pos (by omega)]
  rfl

/-! ## The history of a calculator -/

/-- `fac` factorizes the matrix `A`. -/
def Factors (fac : (Nat → Nat → K) → QR K) (A : Nat → Nat → K) (m n : Nat) : Prop := ∀ M : Nat → Nat → K, (∀ i < m, ∀ j < n, M i j = A i j) → IsQR A m n (fac M)

section
variable (dim : Nat → Nat) (vars : List Nat) (cs : List SU.CInfo) (r : Nat) (isConst : Nat → Nat → Bool) (J₀ : Nat → Nat → Nat → Nat → K)

/-- The numbers of the jacobian matrices that are declared constant are those of `J₀`. -/
def Constant (jac : Nat → Nat → Nat → Nat → K) : Prop :=
  ∀ ci ∈ cs, ∀ v ∈ vars, v ∈ ci.shape.vars → isConst ci.idx v = true → ∀ a < ci.shape.size, ∀ b < dim v, jac ci.idx v a b = J₀ ci.idx v a b

/-- The life of a calculator. The last argument is the numbers of the last update, when it returned. -/
inductive Hist : Impl K → Option (Nat → Nat → Nat → Nat → K) → Prop
  | make (anyQ : QR K) (anyN : Nat → Nat → K) : Hist (Impl.make dim vars cs r isConst anyQ anyN) none
  | updated {I I' : Impl K} {o : Option (Nat → Nat → Nat → Nat → K)} {fac : (Nat → Nat → K) → QR K} {jac : Nat → Nat → Nat → Nat → K} (h : Hist I o)
      (hj : Constant dim vars cs isConst J₀ jac) (hf : Factors fac (whole dim vars cs jac) (cs.map (·.shape.size)).sum (SU.total dim vars))
      (hu : I.update fac jac = .ok I' ()) : Hist I' (some jac)
  | refused {I I' : Impl K} {o : Option (Nat → Nat → Nat → Nat → K)} {fac : (Nat → Nat → K) → QR K} {jac : Nat → Nat → Nat → Nat → K} (h : Hist I o)
      (hj : Constant dim vars cs isConst J₀ jac) (hf : Factors fac (whole dim vars cs jac) (cs.map (·.shape.size)).sum (SU.total dim vars))
      (hu : I.update fac jac = .throw I') : Hist I' none

/-- What is computed is right for the numbers `jac`. -/
structure Right (I : Impl K) (jac : Nat → Nat → Nat → Nat → K) : Prop where
  qr : IsQR (whole dim vars cs jac) (cs.map (·.shape.size)).sum (SU.total dim vars) I.qr
  rank : I.qr.rank = r
  null : ∃ old, I.N = nullspace I.qr (SU.total dim vars) r old

structure Inv (I : Impl K) (o : Option (Nat → Nat → Nat → Nat → K)) : Prop where
  fdim : I.dim = dim
  fvars : I.vars = vars
  fcs : I.cs = cs
  fr : I.r = r
  const : I.constant = true → ∀ ci ∈ cs, ∀ v ∈ vars, v ∈ ci.shape.vars → isConst ci.idx v = true
  fill : ∀ jac, SU.fillA dim jac vars cs 0 I.A = whole dim vars cs jac
  last : ∀ jac, o = some jac → Right dim vars cs r I jac
  once : I.constant = true → I.init = false → Right dim vars cs r I J₀

variable {dim vars cs r isConst J₀}

theorem load_spec {I : Impl K} {o : Option (Nat → Nat → Nat → Nat → K)} (hI : Inv dim vars cs r isConst J₀ I o) (jac : Nat → Nat → Nat → Nat → K) :
    (I.load jac = none ∧ ∃ ci v, cs = [ci] ∧ vars = [v] ∧ v ∉ ci.shape.vars) ∨
    ∃ M A, I.load jac = some (M, A) ∧ (∀ i < (cs.map (·.shape.size)).sum, ∀ j < SU.total dim vars, M i j = whole dim vars cs jac i j) ∧
      (∀ jac', SU.fillA dim jac' vars cs 0 A = whole dim vars cs jac') ∧ ¬∃ ci v, cs = [ci] ∧ vars = [v] ∧ v ∉ ci.shape.vars := by
  have hgen : ∀ M, M = SU.fillA I.dim jac I.vars I.cs 0 I.A → (∀ i < (cs.map (·.shape.size)).sum, ∀ j < SU.total dim vars, M i j = whole dim vars cs jac i j) ∧
      ∀ jac', SU.fillA dim jac' vars cs 0 M = whole dim vars cs jac' := by
    intro M hM
    rw [hI.fdim, hI.fvars, hI.fcs, hI.fill] at hM
    subst hM
    exact ⟨fun _ _ _ _ => rfl, fun jac' => fillA_fill ..⟩
  unfold Impl.load
  split
  · rename_i ci v h1 h2
    rw [hI.fcs] at h1
    rw [hI.fvars] at h2
    by_cases hv : v ∈ ci.shape.vars
    · rw [if_pos hv]
      refine .inr ⟨_, _, rfl, ?_, hI.fill, ?_⟩
      · subst h1 h2
        intro i hi j hj
        simp only [List.map_cons, List.map_nil, List.sum_cons, List.sum_nil, Nat.add_zero, SU.total] at hi hj
        exact (whole_simple dim v ci hv jac i hi j hj).symm
      · rintro ⟨ci', v', e1, e2, hn⟩
        rw [h1] at e1
        rw [h2] at e2
        cases e1
        cases e2
        exact hn hv
    · rw [if_neg hv]
      exact .inl ⟨rfl, ci, v, h1, h2, hv⟩
  · rename_i h1
    refine .inr ⟨_, _, rfl, (hgen _ rfl).1, (hgen _ rfl).2, ?_⟩
    rintro ⟨ci, v, e1, e2, _⟩
    exact h1 ci v (hI.fcs.trans e1) (hI.fvars.trans e2)

theorem update_spec {I : Impl K} {o : Option (Nat → Nat → Nat → Nat → K)} (hI : Inv dim vars cs r isConst J₀ I o) {fac : (Nat → Nat → K) → QR K} {jac : Nat → Nat → Nat → Nat → K}
    (hj : Constant dim vars cs isConst J₀ jac) (hf : Factors fac (whole dim vars cs jac) (cs.map (·.shape.size)).sum (SU.total dim vars)) :
    (∃ I', I.update fac jac = .ok I' () ∧ Inv dim vars cs r isConst J₀ I' (some jac)) ∨
    (∃ I', I.update fac jac = .throw I' ∧ Inv dim vars cs r isConst J₀ I' none ∧
      ((∃ ci v, cs = [ci] ∧ vars = [v] ∧ v ∉ ci.shape.vars) ∨ rankOf (whole dim vars cs jac) (cs.map (·.shape.size)).sum (SU.total dim vars) ≠ r)) := by
  have hJ : I.constant = true → whole dim vars cs jac = whole dim vars cs J₀ := by
    intro hc
    exact fillA_congr dim vars jac J₀ cs (fun ci hci v hv hvc => hj ci hci v hv hvc (hI.const hc ci hci v hv hvc)) 0 _
  unfold Impl.update
  by_cases hc : (!I.constant || I.init) = true
  · rw [if_pos hc]
    unfold Impl.update_
    rcases load_spec hI jac with ⟨hl, hex⟩ | ⟨M, A, hl, hM, hA, hnex⟩
    · simp only [hl]
      refine .inr ⟨I, rfl, ⟨hI.fdim, hI.fvars, hI.fcs, hI.fr, hI.const, hI.fill, fun _ h => (by cases h), hI.once⟩, .inl hex⟩
    · simp only [hl]
      have hq := hf M hM
      by_cases hr : (fac M).rank = I.r
      · rw [if_neg fun h => h hr]
        have hR : ∀ I' : Impl K, I'.qr = fac M → I'.N = nullspace (fac M) I.n I.r I.N → Right dim vars cs r I' jac := by
          intro I' e1 e2
          refine ⟨by rw [e1]; exact hq, by rw [e1, hr, hI.fr], I.N, ?_⟩
          rw [e1, e2, hI.fr]
          congr 1
          unfold Impl.n
          rw [hI.fdim, hI.fvars]
        refine .inl ⟨_, rfl, ⟨hI.fdim, hI.fvars, hI.fcs, hI.fr, hI.const, hA, fun jac' h => ?_, fun hcc _ => ?_⟩⟩
        · cases h
          exact hR _ rfl rfl
        · have := hR { I with
            A := A
            qr := fac M
            N := nullspace (fac M) I.n I.r I.N
            init := false } rfl rfl
          refine ⟨?_, this.rank, this.null⟩
          have h1 := this.qr
          rw [hJ hcc] at h1
          exact h1
      · rw [if_pos hr]
        refine .inr ⟨_, rfl, ⟨hI.fdim, hI.fvars, hI.fcs, hI.fr, hI.const, hA, fun _ h => (by cases h), fun hcc hi => ?_⟩, .inr ?_⟩
        · exfalso
          change I.constant = true at hcc
          change I.init = false at hi
          rw [hcc, hi] at hc
          cases hc
        · rw [lawful_rank (C := ⟨fun v a => ∑ i ∈ range (fac M).rank, if v = (fac M).P i then back (fac M).R (fac M).rank (fac M).rank (fun k => (fac M).Q a k) i else 0,
            nullspace (fac M) (SU.total dim vars) (fac M).rank fun _ _ => 0, fun i a => (fac M).Q a ((fac M).rank + i)⟩) (r := (fac M).rank) ?_ hq.rankn, ← hI.fr]
          · exact hr
          · refine lawful_of hq ?_ ?_ (fun i hi p _ => (nullspace_at hq _).1 i hi p) (fun p hp j _ => (nullspace_at hq _).2 p hp j) fun _ _ _ _ => rfl
            · intro i hi a _
              rw [Finset.sum_eq_single i]
              · rw [if_pos rfl]
              · intro k hk hki
                have hk' : k < (fac M).rank := by simpa using hk
                have hrn := hq.rankn
                rw [if_neg fun e => hki (hq.inj i (by omega) k (by omega) e).symm]
              · intro h; exact absurd (by simpa using hi) h
            · intro p hp a _
              apply Finset.sum_eq_zero
              intro k hk
              have hk' : k < (fac M).rank := by simpa using hk
              have hrn := hq.rankn
              rw [if_neg fun e => (by have := hq.inj _ (by omega) k (by omega) e; omega)]
  · rw [if_neg hc]
    have h1 : I.constant = true := by revert hc; cases I.constant <;> simp
    have h2 : I.init = false := by revert hc; cases I.init <;> simp
    have hR := hI.once h1 h2
    refine .inl ⟨I, rfl, ⟨hI.fdim, hI.fvars, hI.fcs, hI.fr, hI.const, hI.fill, fun jac' h => ?_, hI.once⟩⟩
    cases h
    exact ⟨by rw [hJ h1]; exact hR.qr, hR.rank, hR.null⟩

theorem Hist.inv {I : Impl K} {o : Option (Nat → Nat → Nat → Nat → K)} (h : Hist dim vars cs r isConst J₀ I o) : Inv dim vars cs r isConst J₀ I o := by
  induction h with
  | make anyQ anyN =>
    refine ⟨rfl, rfl, rfl, rfl, fun h ci hci v hv hvc => ?_, fun _ => rfl, fun _ h => (by cases h), fun _ h => (by cases h)⟩
    simp only [Impl.make, List.all_eq_true] at h
    have := h ci hci v hv
    rw [if_pos hvc] at this
    exact this
  | updated h hj hf hu ih =>
    rcases update_spec ih hj hf with ⟨I', e, hI'⟩ | ⟨I', e, _⟩
    · rw [hu] at e; cases e; exact hI'
    · rw [hu] at e; cases e
  | refused h hj hf hu ih =>
    rcases update_spec ih hj hf with ⟨I', e, hI'⟩ | ⟨I', e, hI', _⟩
    · rw [hu] at e; cases e
    · rw [hu] at e; cases e; exact hI'

theorem premultiply_rows {A : Nat → Nat → K} {I : Impl K} (h : IsQR A I.m I.n I.qr) (hr : I.qr.rank = I.r) :
    ∃ a s : Nat → Nat → K, (∀ outA, (∀ j < I.n, ∀ q, (I.premultiply outA (fun i j => if i = j then 1 else 0) false).1 j q = a j q) ∧
        ∀ i q, (I.premultiply outA (fun i j => if i = j then 1 else 0) false).2 i q = s i q) ∧
      (∀ i < I.r, ∀ q < I.m, a (I.qr.P i) q = back I.qr.R I.r I.r (fun k => I.qr.Q q k) i) ∧ (∀ p < I.n - I.r, ∀ q, a (I.qr.P (I.r + p)) q = 0) ∧
      (∀ i, ∀ q < I.m, s i q = I.qr.Q q (I.r + i)) := by
  have hid : ∀ (f : Nat → K) (q : Nat), q < I.m → ∑ a ∈ range I.m, f a * (if a = q then 1 else 0) = f q := by
    intro f q hq
    rw [Finset.sum_eq_single q]
    · rw [if_pos rfl, mul_one]
    · intro a _ ha; rw [if_neg ha, mul_zero]
    · intro h; exact absurd (by simpa using hq) h
  refine ⟨(I.premultiply (fun _ _ => 0) (fun i j => if i = j then 1 else 0) false).1, (I.premultiply (fun _ _ => 0) (fun i j => if i = j then 1 else 0) false).2, fun outA => ⟨fun j hj q => ?_, fun i q => rfl⟩, ?_, ?_, ?_⟩
  · obtain ⟨k, hk, rfl⟩ := h.surj j hj
    by_cases hkr : k < I.r
    · rw [(premultiply_at h hr _ _ _).1 k hkr, (premultiply_at h hr _ _ _).1 k hkr]
    · have e : k = I.r + (k - I.r) := by omega
      rw [e, (premultiply_at h hr _ _ _).2.1 (k - I.r) (by omega), (premultiply_at h hr _ _ _).2.1 (k - I.r) (by omega)]
  · intro i hi q hq
    rw [(premultiply_at h hr _ _ _).1 i hi q]
    simp only [Bool.false_eq_true, if_false, one_mul]
    congr 1
    funext k
    exact hid (fun a => I.qr.Q a k) q hq
  · intro p hp q
    exact (premultiply_at h hr _ _ _).2.1 p hp q
  · intro i q hq
    rw [(premultiply_at h hr _ _ _).2.2 i q]
    exact hid (fun a => I.qr.Q a (I.r + i)) q hq

/-- **C73**: after an update that returned, the calculator meets the law for the present matrix, whatever was done before: its matrices (the products by the
identity) are right, and the products it computes are the products by these matrices. -/
theorem C73_calculator {I : Impl K} {jac : Nat → Nat → Nat → Nat → K} (h : Hist dim vars cs r isConst J₀ I (some jac)) :
    ∃ a s : Nat → Nat → K,
      (∀ outA, (∀ j < SU.total dim vars, ∀ q, (I.premultiply outA (fun i j => if i = j then 1 else 0) false).1 j q = a j q) ∧
        ∀ i q, (I.premultiply outA (fun i j => if i = j then 1 else 0) false).2 i q = s i q) ∧
      C43.Lawful (SU.fillA dim jac vars cs 0 fun _ _ => 0) (cs.map (·.shape.size)).sum (SU.total dim vars) r ⟨a, I.N, s⟩ ∧
      ∀ (outA inp : Nat → Nat → K) (minus : Bool),
        (∀ j < SU.total dim vars, ∀ q, (I.premultiply outA inp minus).1 j q = (if minus then -1 else 1) * ∑ k ∈ range (cs.map (·.shape.size)).sum, a j k * inp k q) ∧
        ∀ i < (cs.map (·.shape.size)).sum - r, ∀ q, (I.premultiply outA inp minus).2 i q = ∑ k ∈ range (cs.map (·.shape.size)).sum, s i k * inp k q := by
  have hI := h.inv
  have hR := hI.last jac rfl
  have hm : I.m = (cs.map (·.shape.size)).sum := by unfold Impl.m; rw [hI.fcs]
  have hn : I.n = SU.total dim vars := by unfold Impl.n; rw [hI.fdim, hI.fvars]
  have hq : IsQR (whole dim vars cs jac) I.m I.n I.qr := by rw [hm, hn]; exact hR.qr
  have hr : I.qr.rank = I.r := by rw [hR.rank, hI.fr]
  obtain ⟨old, hN⟩ := hR.null
  obtain ⟨a, s, h0, h1, h2, h3⟩ := premultiply_rows hq hr
  rw [← hm, ← hn]
  have hrn := hq.rankn
  rw [hr] at hrn
  have htri : ∀ i < I.r, ∀ j < I.r, j < i → I.qr.R i j = 0 := fun i hi j hj hji => by
    have := hq.rankm
    exact hq.tri i (by omega) j (by omega) hji
  have hdiag : ∀ i < I.r, I.qr.R i i ≠ 0 := fun i hi => hq.diag i (by omega)
  refine ⟨a, s, h0, ?_, fun outA inp minus => ⟨fun j hj q => ?_, fun i hi q => ?_⟩⟩
  · rw [← hI.fr, ← hr]
    refine lawful_of hq (fun i hi q hq' => ?_) (fun p hp q _ => ?_) (fun i hi p _ => ?_) (fun p hp j _ => ?_) (fun i _ q hq' => ?_)
    · rw [hr] at hi ⊢; exact h1 i hi q hq'
    · rw [hr] at hp ⊢; exact h2 p hp q
    · rw [hN, ← hn, ← hI.fr, ← hr]; exact (nullspace_at hq old).1 i hi p
    · rw [hN, ← hn, ← hI.fr, ← hr]; exact (nullspace_at hq old).2 p hp j
    · rw [hr]; exact h3 i q hq'
  · obtain ⟨k, hk, rfl⟩ := hq.surj j hj
    by_cases hkr : k < I.r
    · rw [(premultiply_at hq hr _ _ _).1 k hkr]
      congr 1
      refine (tri_unique I.qr.R I.r hdiag htri (fun k => ∑ a_1 ∈ range I.m, a (I.qr.P k) a_1 * inp a_1 q) _ (fun i hi => ?_) k hkr).symm
      rw [back_solves I.qr.R I.r hdiag htri _ i hi]
      have : ∀ j ∈ range I.r, I.qr.R i j * ∑ b ∈ range I.m, a (I.qr.P j) b * inp b q = ∑ b ∈ range I.m, I.qr.R i j * back I.qr.R I.r I.r (fun k => I.qr.Q b k) j * inp b q := by
        intro j hj
        rw [Finset.mul_sum]
        exact Finset.sum_congr rfl fun b hb => by rw [h1 j (by simpa using hj) b (by simpa using hb)]; ring
      rw [Finset.sum_congr rfl this, sum_comm']
      exact Finset.sum_congr rfl fun b _ => by rw [← Finset.sum_mul, back_solves I.qr.R I.r hdiag htri _ i hi]
    · have e : k = I.r + (k - I.r) := by omega
      rw [e, (premultiply_at hq hr _ _ _).2.1 (k - I.r) (by omega), Finset.sum_eq_zero, mul_zero]
      intro b _
      rw [h2 (k - I.r) (by omega), zero_mul]
  · rw [(premultiply_at hq hr _ _ _).2.2 i q]
    exact Finset.sum_congr rfl fun b hb => by rw [h3 i b (by simpa using hb)]

/-- **C73**: an update returns if, and only if, the present matrix has the rank declared at construction, whether it is computed again or not. The
constraint is supposed to depend on the variable, when there is one of each: the constructor of the substitution checks it. -/
theorem C73_update {I : Impl K} {o : Option (Nat → Nat → Nat → Nat → K)} (h : Hist dim vars cs r isConst J₀ I o) {fac : (Nat → Nat → K) → QR K} {jac : Nat → Nat → Nat → Nat → K}
    (hj : Constant dim vars cs isConst J₀ jac) (hf : Factors fac (SU.fillA dim jac vars cs 0 fun _ _ => 0) (cs.map (·.shape.size)).sum (SU.total dim vars))
    (hs : ∀ ci v, cs = [ci] → vars = [v] → v ∈ ci.shape.vars) :
    ((∃ I', I.update fac jac = .ok I' ()) ↔ rankOf (SU.fillA dim jac vars cs 0 fun _ _ => 0) (cs.map (·.shape.size)).sum (SU.total dim vars) = r) ∧
    ((∃ I', I.update fac jac = .throw I') ↔ rankOf (SU.fillA dim jac vars cs 0 fun _ _ => 0) (cs.map (·.shape.size)).sum (SU.total dim vars) ≠ r) := by
  rcases update_spec h.inv hj hf with ⟨I', e, _⟩ | ⟨I', e, _, he⟩
  · obtain ⟨a, s, _, hl, _⟩ := C73_calculator (h.updated hj hf e)
    have hR := (h.updated hj hf e).inv.last jac rfl
    have hrk := lawful_rank hl (by have := hR.qr.rankn; have := hR.rank; omega)
    refine ⟨⟨fun _ => hrk, fun _ => ⟨I', e⟩⟩, ⟨fun ⟨I'', e'⟩ => ?_, fun hne => absurd hrk hne⟩⟩
    rw [e] at e'; cases e'
  · have hne : rankOf (SU.fillA dim jac vars cs 0 fun _ _ => 0) (cs.map (·.shape.size)).sum (SU.total dim vars) ≠ r := by
      rcases he with ⟨ci, v, e1, e2, hn⟩ | he
      · exact absurd (hs ci v e1 e2) hn
      · exact he
    refine ⟨⟨fun ⟨I'', e'⟩ => ?_, fun hrk => absurd hrk hne⟩, ⟨fun _ => hne, fun _ => ⟨I', e⟩⟩⟩
    rw [e] at e'; cases e'

/-- **C73**: a product by the rows of `N` of a range is the product by `N` of the matrix completed by null columns. -/
theorem C73_range (I : Impl K) (out inp : Nat → Nat → K) (start size : Nat) (hs : start + size ≤ I.n) (add : Bool) (i p : Nat) :
    I.postNRange out inp start size add i p = I.postN out (fun i l => if start ≤ l ∧ l < start + size then inp i (l - start) else 0) add i p ∧
    I.postN out inp add i p = (if add then out i p else 0) + ∑ l ∈ range I.n, inp i l * I.N l p := by
  have key : ∑ l ∈ range I.n, (if start ≤ l ∧ l < start + size then inp i (l - start) else 0) * I.N l p = ∑ l ∈ range size, inp i l * I.N (start + l) p := by
    rw [sum_split _ I.n start (by omega), Finset.sum_eq_zero (s := range start), zero_add, sum_split _ (I.n - start) size (by omega)]
    · rw [Finset.sum_eq_zero (s := range (I.n - start - size)), add_zero]
      · refine Finset.sum_congr rfl fun l hl => ?_
        have hl' : l < size := by simpa using hl
        rw [if_pos (by omega), show start + l - start = l by omega]
      · intro l _
        rw [if_neg (by omega), zero_mul]
    · intro l hl
      have hl' : l < start := by simpa using hl
      rw [if_neg (by omega), zero_mul]
  constructor
  · unfold Impl.postNRange
    by_cases hc : start = 0 ∧ size = I.n
    · rw [if_pos hc]
      unfold Impl.postN
      rw [key, hc.1, hc.2]
      simp only [Nat.zero_add]
    · rw [if_neg hc]
      unfold Impl.postN
      rw [key]
  · unfold Impl.postN
    cases add
    · simp
    · simp

end

/-! ## The calculators of a unit -/

theorem lawful_congr {A B : Nat → Nat → K} {m n r : Nat} {C D : SU.Calc K} (h : C43.Lawful A m n r C) (hA : ∀ i < m, ∀ j < n, B i j = A i j)
    (h1 : ∀ j < n, ∀ q < m, D.sharp j q = C.sharp j q) (h2 : ∀ j < n, ∀ p < n - r, D.N j p = C.N j p) (h3 : ∀ i < m - r, ∀ q < m, D.St i q = C.St i q) : C43.Lawful B m n r D := by
  have hs : ∀ (k : Nat) (f g y : Nat → K), (∀ i < k, f i = g i) → ∑ i ∈ range k, f i * y i = ∑ i ∈ range k, g i * y i := by
    intro k f g y hf
    exact Finset.sum_congr rfl fun i hi => by rw [hf i (by simpa using hi)]
  constructor
  · intro x c
    have e0 : (∀ i < m, ∑ j ∈ range n, B i j * x j = c i) ↔ ∀ i < m, ∑ j ∈ range n, A i j * x j = c i :=
      forall_congr' fun i => forall_congr' fun hi => by rw [hs n (B i) (A i) x fun j hj => hA i hi j hj]
    have e1 : (∀ i < m - r, ∑ q ∈ range m, D.St i q * c q = 0) ↔ ∀ i < m - r, ∑ q ∈ range m, C.St i q * c q = 0 :=
      forall_congr' fun i => forall_congr' fun hi => by rw [hs m (D.St i) (C.St i) c fun j hj => h3 i hi j hj]
    have e2 : ∀ z : Nat → K, (∀ j < n, x j = ∑ q ∈ range m, D.sharp j q * c q + ∑ p ∈ range (n - r), D.N j p * z p) ↔
        ∀ j < n, x j = ∑ q ∈ range m, C.sharp j q * c q + ∑ p ∈ range (n - r), C.N j p * z p := fun z =>
      forall_congr' fun j => forall_congr' fun hj => by rw [hs m (D.sharp j) (C.sharp j) c fun q hq => h1 j hj q hq, hs (n - r) (D.N j) (C.N j) z fun p hp => h2 j hj p hp]
    rw [e0, e1, h.sol x c]
    exact and_congr_right fun _ => exists_congr fun z => (e2 z).symm
  · intro z z' hz
    refine h.inj z z' fun j hj => ?_
    have := hz j hj
    rw [hs (n - r) (D.N j) (C.N j) z fun p hp => h2 j hj p hp, hs (n - r) (D.N j) (C.N j) z' fun p hp => h2 j hj p hp] at this
    exact this

/-- The matrices of `C` are those of a generic calculator, constructed for the variables and the constraints, after any history that ends with an update with the
numbers `jac`. -/
def ByGeneric (dim : Nat → Nat) (vars : List Nat) (cs : List SU.CInfo) (rank : Nat) (jac : Nat → Nat → Nat → Nat → K) (C : SU.Calc K) : Prop :=
  ∃ (isConst : Nat → Nat → Bool) (J₀ : Nat → Nat → Nat → Nat → K) (I : Impl K) (any : Nat → Nat → K), Hist dim vars cs rank isConst J₀ I (some jac) ∧
    C = ⟨(I.premultiply any (fun i j => if i = j then 1 else 0) false).1, I.N, (I.premultiply any (fun i j => if i = j then 1 else 0) false).2⟩

/-- The matrices of `C` are those of the diagonal calculator constructed by `DiagonalCalculator()`. -/
def ByDiagonal (dim : Nat → Nat) (vars : List Nat) (cs : List SU.CInfo) (rank : Nat) (jac : Nat → Nat → Nat → Nat → K) (C : SU.Calc K) : Prop :=
  ∃ (v : Nat) (ci : SU.CInfo) (I : DC.Impl) (any any' a s : Nat → Nat → K), vars = [v] ∧ cs = [ci] ∧ v ∈ ci.shape.vars ∧ 0 < dim v ∧ DC.Impl.ofRange ci.shape.size (dim v) rank 0 (-1) = .ok () I ∧
    I.premultiply (jac ci.idx v) any any' (fun i j => if i = j then 1 else 0) false = .ok () (a, s) ∧ C = ⟨a, I.N, s⟩

/-- The properties declared for the jacobian matrix of a constraint with respect to a variable are true. -/
def Truthful (dim : Nat → Nat) (v : Nat) (ci : SU.CInfo) (isDiagonal isInvertible : Bool) (jac : Nat → Nat → Nat → Nat → K) : Prop :=
  (isDiagonal = true → ∀ i < ci.shape.size, ∀ j < dim v, i ≠ j → jac ci.idx v i j = 0) ∧
  (isInvertible = true → ci.shape.size = dim v ∧ ∀ x : Nat → K, (∀ i < ci.shape.size, ∑ j ∈ range (dim v), jac ci.idx v i j * x j = 0) → ∀ j < dim v, x j = 0)

theorem between_range (n : Nat) : DC.between 0 n = List.range n := by
  unfold DC.between
  simp

theorem between_self (n : Nat) : DC.between n n = [] := by
  unfold DC.between
  simp

theorem diagonal_lawful {dim : Nat → Nat} {vars : List Nat} {cs : List SU.CInfo} {rank : Nat} {jac : Nat → Nat → Nat → Nat → K} {C : SU.Calc K} (h : ByDiagonal dim vars cs rank jac C)
    (ht : ∀ v ci, vars = [v] → cs = [ci] → Truthful dim v ci true true jac) :
    C43.Lawful (SU.fillA dim jac vars cs 0 fun _ _ => 0) (cs.map (·.shape.size)).sum (SU.total dim vars) rank C := by
  obtain ⟨v, ci, I, any, any', a, s, rfl, rfl, hv, hpos, hI, hp, rfl⟩ := h
  obtain ⟨hoff, hinv⟩ := ht v ci rfl rfl
  obtain ⟨hmn, hker⟩ := hinv rfl
  have hoff := hoff rfl
  have hrank : rank = dim v := by
    unfold DC.Impl.ofRange at hI
    simp only [show ¬((0 : Int) < 0) by omega, show ¬((-1 : Int) < -1) by omega, if_false, if_true] at hI
    by_contra hne
    rw [if_pos (by omega)] at hI
    cases hI
  subst hrank
  have hnz : ∀ i < dim v, jac ci.idx v i i ≠ 0 := by
    intro i hi h0
    have := hker (fun j => if j = i then 1 else 0) (fun k hk => by
      apply Finset.sum_eq_zero
      intro j hj
      have hj' : j < dim v := by simpa using hj
      by_cases hji : j = i
      · subst hji
        by_cases hkj : k = j
        · subst hkj; rw [h0, zero_mul]
        · rw [hoff k hk j hj' hkj, zero_mul]
      · rw [if_neg hji, mul_zero]) i hi
    rw [if_pos rfl] at this
    exact one_ne_zero this
  obtain ⟨hB, hg, hz, hmem, _, _, _⟩ := C42.C42_range ci.shape.size (dim v) (dim v) 0 (-1) hpos I hI
  have hform : I = ⟨ci.shape.size, dim v, List.range (dim v), DC.innzLoop (List.range (dim v)) [] (dim v) 0 0, [], []⟩ := by
    unfold DC.Impl.ofRange at hI
    simp only [show ¬((0 : Int) < 0) by omega, show ¬((-1 : Int) < -1) by omega, if_false, if_true] at hI
    rw [if_neg (by omega)] at hI
    unfold DC.build at hI
    rw [show (0 : Int).toNat = 0 from rfl, Nat.zero_add, between_range, between_range, between_self] at hI
    by_cases hc : ((List.range (dim v)).any (fun i => decide (dim v ≤ i)) || ([] : List Nat).any (fun i => decide (dim v ≤ i))) = true
    · rw [if_pos hc] at hI; cases hI
    · rw [if_neg hc] at hI
      cases hI
      rfl
  have hs : C42.Selects (jac ci.idx v) I.m I.n I.nnz I.zeros (List.range (dim v)) := by
    rw [hform]
    refine ⟨List.pairwise_lt_range, fun i => (by simp), (by simpa using hmn.symm), fun k i hk j hj hji => ?_, fun k i hk hz => (by simp at hz), fun k i hk _ => ?_⟩
    · rw [List.getElem?_eq_some_iff] at hk
      obtain ⟨h1, h2⟩ := hk
      rw [List.getElem_range] at h2
      subst h2
      rw [List.length_range] at h1
      exact hoff k (by omega) j hj (Ne.symm hji)
    · rw [List.getElem?_eq_some_iff] at hk
      obtain ⟨h1, h2⟩ := hk
      rw [List.getElem_range] at h2
      subst h2
      rw [List.length_range] at h1
      exact hnz k h1
  obtain ⟨a', s', h1, hl, _⟩ := C43.C43_diagonal I hB (jac ci.idx v) (List.range (dim v)) hs hg
  obtain ⟨a'', s'', h2, h3, h4⟩ := h1 any any'
  rw [hp] at h2
  cases h2
  have em : I.m = ci.shape.size := by rw [hform]
  have en : I.n = dim v := by rw [hform]
  have ennz : I.nnz.length = dim v := by rw [hform]; simp
  rw [em, en, ennz] at hl
  rw [en] at h3
  simp only [List.map_cons, List.map_nil, List.sum_cons, List.sum_nil, Nat.add_zero, SU.total]
  refine lawful_congr hl (fun i hi j hj => whole_simple dim v ci hv jac i hi j hj) (fun j hj q _ => h3 j hj q) (fun _ _ _ _ => rfl) (fun i hi q _ => ?_)
  omega

/-- **C73**: the calculators chosen by `AutoCalculator` for the substitutions of a unit meet the law that the unit relies on (`C43.Calculators`), when the properties
declared for the jacobian matrices are true and the matrices are factorized. -/
theorem C73_auto (dim : Nat → Nat) (ss : List SU.SShape) (d : SU.Data K) (isDiagonal isInvertible : Nat → Bool)
    (hT : ∀ (k : Nat) (s : SU.SInfo) (v : Nat) (ci : SU.CInfo), (SU.scan dim ss).subs[k]? = some s → s.vars = [v] → s.cs = [ci] → Truthful dim v ci (isDiagonal k) (isInvertible k) d.jac)
    (hC : ∀ (k : Nat) (s : SU.SInfo) (t : SU.SShape), (SU.scan dim ss).subs[k]? = some s → ss[k]? = some t →
      match auto s.cs.length s.vars.length (isDiagonal k) (isInvertible k) with
      | .generic => ByGeneric dim s.vars s.cs t.rank d.jac (d.cal k)
      | .diagonal => ByDiagonal dim s.vars s.cs t.rank d.jac (d.cal k)) :
    C43.Calculators dim ss d := by
  intro k s t hs ht
  obtain ⟨t', e1, e2, e3, _⟩ := C43.shape_at (SU.linv_scan dim ss) hs
  rw [ht] at e1
  cases e1
  have hm : (t.cstrs.map (·.size)).sum = (s.cs.map (·.shape.size)).sum := by rw [e3, List.map_map]; rfl
  rw [hm, e2]
  have h := hC k s t hs ht
  have hauto : auto s.cs.length s.vars.length (isDiagonal k) (isInvertible k) = .diagonal → isDiagonal k = true ∧ isInvertible k = true := by
    unfold auto
    intro he
    by_cases h1 : (decide (s.cs.length > 1) || decide (s.vars.length > 1)) = true
    · rw [if_pos h1] at he; cases he
    · rw [if_neg h1] at he
      by_cases h2 : (isDiagonal k && isInvertible k) = true
      · simpa using h2
      · rw [if_neg h2] at he; cases he
  cases hk : auto s.cs.length s.vars.length (isDiagonal k) (isInvertible k) with
  | diagonal =>
    rw [hk] at h
    obtain ⟨hd, hi⟩ := hauto hk
    refine diagonal_lawful h fun v ci e1 e2 => ?_
    have := hT k s v ci hs e1 e2
    rw [hd, hi] at this
    exact this
  | generic =>
    rw [hk] at h
    obtain ⟨isConst, J₀, I, any, hH, hcal⟩ := h
    obtain ⟨a, st, h1, h2, _⟩ := C73_calculator hH
    rw [hcal]
    exact lawful_congr h2 (fun _ _ _ _ => rfl) (fun j hj q _ => (h1 any).1 j hj q) (fun _ _ _ _ => rfl) fun i _ q _ => (h1 any).2 i q

/-! ## A concrete case

The matrix `[3 6 3; 4 8 4]`, of rank one, made of the two rows of two constraints on a variable of size 1 and a variable of size 2. -/

def q₀ : QR ℚ := ⟨fun i j => if i = 0 then (if j = 0 then 3 / 5 else -4 / 5) else (if j = 0 then 4 / 5 else 3 / 5), fun i j => if i = 0 then (if j = 2 then 10 else 5) else 0,
  fun j => if j = 0 then 2 else if j = 1 then 0 else if j = 2 then 1 else 7, 1⟩

def dim₀ : Nat → Nat := fun v => if v = 1 ∨ v = 2 then 2 else 1

def cs₀ : List SU.CInfo := [⟨0, ⟨1, [0, 1], .zero⟩, [], []⟩, ⟨1, ⟨1, [0, 1], .zero⟩, [], []⟩]

def jac₀ : Nat → Nat → Nat → Nat → ℚ := fun i v a b =>
  if i = 2 then (if a = b then (if a = 0 then 2 else 3) else 0)
  else (if i = 0 then 3 else 4) * (if v = 1 ∧ b = 0 then 2 else 1)

theorem isQR₀ : IsQR (whole dim₀ [0, 1] cs₀ jac₀) 2 3 q₀ where
  perm := by decide
  inj := by decide
  surj := by decide
  ortho := by decide +kernel
  ortho' := by decide +kernel
  eq := by decide +kernel
  tri := by decide +kernel
  zero := by decide +kernel
  diag := by decide +kernel
  rankm := by decide
  rankn := by decide

def I₀ (c : Bool) : Impl ℚ := ⟨dim₀, [0, 1], cs₀, 1, c, false, whole dim₀ [0, 1] cs₀ jac₀, q₀, nullspace q₀ 3 1 fun _ _ => 7⟩

theorem hist₀ (c : Bool) : Hist dim₀ [0, 1] cs₀ 1 (fun _ _ => c) jac₀ (I₀ c) (some jac₀) := by
  refine .updated (fac := fun _ => q₀) (.make ⟨fun _ _ => 7, fun _ _ => 7, fun _ => 7, 7⟩ fun _ _ => 7) (fun _ _ _ _ _ _ _ _ _ _ => rfl) (fun _ _ => isQR₀) ?_
  cases c <;> rfl

/-- A calculator was updated twice, the second update having nothing to do when the matrix is constant: the hypotheses of `C73_calculator` and `C73_update` are met. -/
example (c : Bool) : ∃ I I', Hist dim₀ [0, 1] cs₀ 1 (fun _ _ => c) jac₀ I (some jac₀) ∧ I.update (fun _ => q₀) jac₀ = .ok I' () ∧ Hist dim₀ [0, 1] cs₀ 1 (fun _ _ => c) jac₀ I' (some jac₀) ∧
    (c = true → I' = I) := by
  have h := hist₀ c
  have hj : Constant dim₀ [0, 1] cs₀ (fun _ _ => c) jac₀ jac₀ := fun _ _ _ _ _ _ _ _ _ _ => rfl
  have hf : Factors (fun _ => q₀) (whole dim₀ [0, 1] cs₀ jac₀) 2 3 := fun _ _ => isQR₀
  rcases update_spec h.inv hj hf with ⟨I', e, _⟩ | ⟨I', e, _, he⟩
  · refine ⟨I₀ c, I', h, e, h.updated hj hf e, fun hct => ?_⟩
    subst hct
    exact (Outcome.ok.inj e).1.symm
  · obtain ⟨a, s, _, hl, _⟩ := C73_calculator h
    exfalso
    rcases he with ⟨ci, v, e1, _⟩ | he
    · cases e1
    · exact he (lawful_rank hl (by decide))

/-- The same matrix, declared of rank two: the update throws, and the next one again. -/
example : ∃ I, (Impl.make dim₀ [0, 1] cs₀ 2 (fun _ _ => true) q₀ fun _ _ => 0).update (fun _ => q₀) jac₀ = .throw I ∧ Hist dim₀ [0, 1] cs₀ 2 (fun _ _ => true) jac₀ I none ∧
    ∃ I', I.update (fun _ => q₀) jac₀ = .throw I' :=
  ⟨_, rfl, .refused (.make q₀ fun _ _ => 0) (fun _ _ _ _ _ _ _ _ _ _ => rfl) (fun _ _ => isQR₀) rfl, _, rfl⟩

/-- A product by the last two rows of `N` -/
example : ∃ I : Impl ℚ, 1 + 2 ≤ I.n ∧ I.n = 3 ∧ I.N 1 1 = 1 ∧ I.postNRange (fun _ _ => 5) (fun _ l => if l = 0 then 1 else 0) 1 2 true 0 1 = 6 := by
  refine ⟨{ Impl.make dim₀ [0, 1] cs₀ 1 (fun _ _ => true) q₀ (fun _ _ => 0) with N := nullspace q₀ 3 1 fun _ _ => 0 }, by decide, by decide, ?_, ?_⟩ <;> decide +kernel

/-- A unit of two substitutions: the one above with a generic calculator, and the matrix `[2 0; 0 3]` with a diagonal calculator -/
def ss₀ : List SU.SShape := [⟨[0, 1], [⟨1, [0, 1], .zero⟩, ⟨1, [0, 1], .zero⟩], 1⟩, ⟨[2], [⟨2, [2, 3], .zero⟩], 2⟩]

theorem scan₀ : (SU.scan dim₀ ss₀).subs = [⟨0, [0, 1], cs₀, 0, 0, 3, 2⟩, ⟨1, [2], [⟨2, ⟨2, [2, 3], .zero⟩, [0], []⟩], 2, 3, 2, 0⟩] := by decide

example : ∃ d : SU.Data ℚ, C43.Calculators dim₀ ss₀ d ∧ (d.cal 0).N 1 1 = 1 ∧ (d.cal 1).sharp 1 1 = 1 / 3 := by
  have hI := hist₀ true
  have hD : ∃ C : SU.Calc ℚ, ByDiagonal dim₀ [2] [⟨2, ⟨2, [2, 3], .zero⟩, [0], []⟩] 2 jac₀ C ∧ C.sharp 1 1 = 1 / 3 := by
    refine ⟨_, ⟨2, _, ⟨2, 2, [0, 1], [0, 1], [], []⟩, fun _ _ => 0, fun _ _ => 0, _, _, rfl, rfl, by decide, by decide, by decide, rfl, rfl⟩, ?_⟩
    decide +kernel
  obtain ⟨C, hC, hC1⟩ := hD
  refine ⟨⟨jac₀, fun _ _ => 0, fun k => if k = 0 then ⟨((I₀ true).premultiply (fun _ _ => 0) (fun i j => if i = j then 1 else 0) false).1, (I₀ true).N, ((I₀ true).premultiply (fun _ _ => 0) (fun i j => if i = j then 1 else 0) false).2⟩ else C⟩, ?_, ?_, hC1⟩
  · refine C73_auto dim₀ ss₀ _ (fun k => k == 1) (fun k => k == 1) (fun k s v ci hs hv hc => ?_) (fun k s t hs ht => ?_)
    · rw [scan₀] at hs
      match k, hs with
      | 0, hs => cases hs; cases hv
      | 1, hs =>
        cases hs
        cases hv
        cases hc
        refine ⟨fun _ i hi j hj hij => ?_, fun _ => ⟨rfl, fun x hx j hj => ?_⟩⟩
        · simp [jac₀, hij]
        · have h0 := hx 0 (by decide)
          have h1 := hx 1 (by decide)
          simp [dim₀, jac₀] at h0 h1
          have hj2 : j < 2 := hj
          rcases (show j = 0 ∨ j = 1 by omega) with rfl | rfl
          · exact h0
          · exact h1
    · rw [scan₀] at hs
      match k, hs, ht with
      | 0, hs, ht =>
        cases hs
        cases ht
        exact ⟨_, _, I₀ true, _, hI, rfl⟩
      | 1, hs, ht =>
        cases hs
        cases ht
        exact hC
  · show (I₀ true).N 1 1 = 1
    decide +kernel

end Verif.C73
