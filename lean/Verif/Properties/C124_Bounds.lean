import Verif.Properties.C38_Bounds
import Verif.Model.BigNumber
/-!
# C124, for the bounds

The box that a solver receives is first plus or minus the option `big_number` of the solver (e.g.
src/solver/QLDLeastSquareSolver.cpp, lines 111-115). The assignment of a bound that has one side writes plus or minus the number it
copied from the scheme for the other side (src/scheme/Assignment.cpp, lines 310-318). The two numbers are independent.
-/
set_option autoImplicit false
set_option linter.unusedSectionVars false

namespace Verif.C124
open Verif Verif.AS
open Verif.C38 (Bound InBox)

section
variable {K : Type} [Field K] [LinearOrder K] [IsStrictOrderedRing K]

/-- The box: the reset with the option `B` of the solver, then all the bounds, each with the number it copied. -/
def box (B : K) (bs : List (K × Bound K)) (m : Mem K) : Mem K :=
  bs.foldl (fun m x => x.2.run x.1 false m) ⟨m.A, fun c => if c = .l then fun _ => -B else if c = .u then fun _ => B else m.vec c⟩

/-- The side that the bound does not have is limited by `b`. -/
def Other (b : K) (c : Bound K) (z : Nat → K) : Prop :=
  ∀ i < c.n, (c.type = .greaterThan → c.jac i i * z (c.start + i) ≤ b) ∧ (c.type = .lowerThan → -b ≤ c.jac i i * z (c.start + i))

/-- The interval of a row -/
theorem ival_iff (b : K) (c : Bound K) (h : c.Honest) (hp : c.p ≠ .diagonal) (z : Nat → K) :
    (∀ i < c.n, (c.ival b i).1 ≤ z (c.start + i) ∧ z (c.start + i) ≤ (c.ival b i).2) ↔ c.Sat z ∧ Other b c z := by
  rw [C38.sat_rows c h z]
  unfold Other
  rw [← forall_and]
  refine forall_congr' fun i => ?_
  rw [← forall_and]
  refine forall_congr' fun hi => ?_
  obtain ⟨_, _, h3, h4⟩ := h
  cases hc : c.p with
  | diagonal => exact absurd hc hp
  | identity =>
    have hd := h3 hc i hi
    cases ht : c.type <;> simp only [Bound.ival, hc, Bound.pair, ht, hd, one_mul, reduceCtorEq, false_implies, true_implies, and_true, true_and]
    · constructor
      · rintro ⟨a, d⟩; exact le_antisymm d a
      · intro e; exact ⟨e.ge, e.le⟩
    · exact and_comm
  | minusIdentity =>
    have hd := h4 hc i hi
    cases ht : c.type <;> simp only [Bound.ival, hc, Bound.pair, ht, hd, neg_mul, one_mul, reduceCtorEq, false_implies, true_implies, and_true, true_and]
    · constructor
      · rintro ⟨a, d⟩; apply le_antisymm <;> linarith
      · intro e; constructor <;> linarith
    · constructor
      · rintro ⟨a, d⟩; constructor <;> linarith
      · rintro ⟨a, d⟩; constructor <;> linarith
    · constructor
      · rintro ⟨a, d⟩; constructor <;> linarith
      · rintro ⟨a, d⟩; constructor <;> linarith
    · constructor
      · rintro ⟨a, d⟩; constructor <;> linarith
      · rintro ⟨a, d⟩; constructor <;> linarith

theorem run_ival (b : K) (N : Nat) (c : Bound K) (h : c.Honest) (hN : c.start + c.n ≤ N) (m : Mem K) (z : Nat → K) :
    InBox N ((c.run b false m).vec .l) ((c.run b false m).vec .u) z ↔
      InBox N (m.vec .l) (m.vec .u) z ∧ ∀ i < c.n, (c.ival b i).1 ≤ z (c.start + i) ∧ z (c.start + i) ≤ (c.ival b i).2 := by
  constructor
  · intro hin
    constructor
    · intro k hk
      have := hin k hk
      rw [(C38.run_at b false c h m k).1, (C38.run_at b false c h m k).2] at this
      by_cases hr : c.start ≤ k ∧ k < c.start + c.n
      · rw [if_pos hr, if_pos hr] at this
        simp only [Bool.false_eq_true, if_false, max_le_iff, le_min_iff] at this
        exact ⟨this.1.1, this.2.1⟩
      · rwa [if_neg hr, if_neg hr] at this
    · intro i hi
      have := hin (c.start + i) (by omega)
      have hr : c.start ≤ c.start + i ∧ c.start + i < c.start + c.n := by omega
      rw [(C38.run_at b false c h m _).1, (C38.run_at b false c h m _).2, if_pos hr, if_pos hr] at this
      simp only [Bool.false_eq_true, if_false, max_le_iff, le_min_iff, Nat.add_sub_cancel_left] at this
      exact ⟨this.1.2, this.2.2⟩
  · rintro ⟨hin, hs⟩ k hk
    rw [(C38.run_at b false c h m k).1, (C38.run_at b false c h m k).2]
    by_cases hr : c.start ≤ k ∧ k < c.start + c.n
    · rw [if_pos hr, if_pos hr]
      simp only [Bool.false_eq_true, if_false, max_le_iff, le_min_iff]
      have hk' : c.start + (k - c.start) = k := by omega
      have := hs (k - c.start) (by omega)
      rw [hk'] at this
      exact ⟨⟨(hin k hk).1, this.1⟩, ⟨(hin k hk).2, this.2⟩⟩
    · rw [if_neg hr, if_neg hr]; exact hin k hk

/-- **C124** for bounds on single variables (identity or minus the identity): exactly what the box means. The bounds hold, the unknowns
are within the option of the solver, and the missing sides are within the numbers of the schemes. -/
theorem C124_bounds (B : K) (N : Nat) (bs : List (K × Bound K)) (h : ∀ x ∈ bs, x.2.Honest) (hp : ∀ x ∈ bs, x.2.p ≠ .diagonal)
    (hN : ∀ x ∈ bs, x.2.start + x.2.n ≤ N) (m : Mem K) (z : Nat → K) :
    InBox N ((box B bs m).vec .l) ((box B bs m).vec .u) z ↔ (∀ k < N, -B ≤ z k ∧ z k ≤ B) ∧ ∀ x ∈ bs, x.2.Sat z ∧ Other x.1 x.2 z := by
  have key : ∀ (bs : List (K × Bound K)) (m : Mem K), (∀ x ∈ bs, x.2.Honest) → (∀ x ∈ bs, x.2.p ≠ .diagonal) →
      (∀ x ∈ bs, x.2.start + x.2.n ≤ N) →
      (InBox N ((bs.foldl (fun m x => x.2.run x.1 false m) m).vec .l) ((bs.foldl (fun m x => x.2.run x.1 false m) m).vec .u) z ↔
        InBox N (m.vec .l) (m.vec .u) z ∧ ∀ x ∈ bs, x.2.Sat z ∧ Other x.1 x.2 z) := by
    intro bs
    induction bs with
    | nil => intro m _ _ _; simp
    | cons x l ih =>
      intro m h1 h2 h3
      rw [List.foldl_cons, ih _ (fun c hc => h1 c (List.mem_cons_of_mem _ hc)) (fun c hc => h2 c (List.mem_cons_of_mem _ hc))
        (fun c hc => h3 c (List.mem_cons_of_mem _ hc)), run_ival x.1 N x.2 (h1 x (List.mem_cons_self ..)) (h3 x (List.mem_cons_self ..)),
        ival_iff x.1 x.2 (h1 x (List.mem_cons_self ..)) (h2 x (List.mem_cons_self ..))]
      simp only [List.mem_cons, forall_eq_or_imp, and_assoc]
  unfold box
  rw [key bs _ h hp hN]
  refine and_congr ?_ Iff.rfl
  unfold InBox
  simp only [if_true, reduceCtorEq, if_false]

/-- The numbers of the schemes play no role when they are at least the option of the solver. -/
theorem C124_bounds_partial (B : K) (N : Nat) (bs : List (K × Bound K)) (h : ∀ x ∈ bs, x.2.Honest) (hp : ∀ x ∈ bs, x.2.p ≠ .diagonal)
    (hN : ∀ x ∈ bs, x.2.start + x.2.n ≤ N) (hB : ∀ x ∈ bs, B ≤ x.1) (m : Mem K) (z : Nat → K) :
    InBox N ((box B bs m).vec .l) ((box B bs m).vec .u) z ↔ (∀ k < N, -B ≤ z k ∧ z k ≤ B) ∧ ∀ x ∈ bs, x.2.Sat z := by
  rw [C124_bounds B N bs h hp hN m z]
  refine ⟨fun a => ⟨a.1, fun x hx => (a.2 x hx).1⟩, fun a => ⟨a.1, fun x hx => ⟨a.2 x hx, fun i hi => ?_⟩⟩⟩
  have hk := a.1 (x.2.start + i) (by have := hN x hx; omega)
  have hb := hB x hx
  obtain ⟨_, _, h3, h4⟩ := h x hx
  cases hc : x.2.p with
  | diagonal => exact absurd hc (hp x hx)
  | identity =>
    rw [h3 hc i hi, one_mul]
    exact ⟨fun _ => by linarith [hk.2], fun _ => by linarith [hk.1]⟩
  | minusIdentity =>
    rw [h4 hc i hi, neg_mul, one_mul]
    exact ⟨fun _ => by linarith [hk.1], fun _ => by linarith [hk.2]⟩

end

/-- `x ≥ 0` as a bound -/
def pos : Bound ℚ := ⟨.greaterThan, .asGiven, .identity, 0, 1, fun _ _ => 1, fun _ => 0, fun _ => 0, fun _ => 0, ⟨1, -1, fun _ => 1, fun _ => -1⟩⟩

theorem pos_honest : pos.Honest := by
  refine ⟨?_, fun i _ => one_ne_zero, fun _ i _ => rfl, fun h => by cases h⟩
  intro i hi j hj hne
  have h1 : i < 1 := hi
  have h2 : j < 1 := hj
  exact absurd (by omega) hne

/-- **C124** is false when the number of the scheme is smaller than the option of the solver: the bound `x ≥ 0` makes the solver refuse
`x = 3`, which it accepts when there is no bound. -/
theorem C124_bounds_false : ∃ (z : Nat → ℚ), pos.Sat z ∧
    InBox 1 ((box 1000 [] C38.exM).vec .l) ((box 1000 [] C38.exM).vec .u) z ∧
    ¬ InBox 1 ((box 1000 [(2, pos)] C38.exM).vec .l) ((box 1000 [(2, pos)] C38.exM).vec .u) z := by
  refine ⟨fun _ => 3, ?_, ?_, ?_⟩
  · rw [C38.sat_rows pos pos_honest]
    intro i _
    show (0 : ℚ) ≤ 1 * 3
    norm_num
  · rw [C124_bounds 1000 1 [] (fun _ h => by cases h) (fun _ h => by cases h) (fun _ h => by cases h)]
    exact ⟨fun _ _ => by norm_num, fun _ h => by cases h⟩
  · rw [C124_bounds 1000 1 [(2, pos)] (fun x hx => by rw [List.mem_singleton.mp hx]; exact pos_honest)
      (fun x hx => by rw [List.mem_singleton.mp hx]; decide) (fun x hx => by rw [List.mem_singleton.mp hx]; decide)]
    intro a
    have := ((a.2 (2, pos) (List.mem_singleton.mpr rfl)).2 0 Nat.one_pos).1 rfl
    change (1 : ℚ) * 3 ≤ 2 at this
    norm_num at this

-- two bounds on one variable, with numbers above the option of the solver
example : InBox 1 ((box 1000 [(5000, pos), (2000, C38.ex3)] C38.exM).vec .l) ((box 1000 [(5000, pos), (2000, C38.ex3)] C38.exM).vec .u) (fun _ => (2 : ℚ)) := by
  rw [C124_bounds_partial 1000 1]
  · refine ⟨fun _ _ => by norm_num, ?_⟩
    simp only [List.mem_cons, List.not_mem_nil, or_false, forall_eq_or_imp, forall_eq]
    constructor
    · rw [C38.sat_rows pos pos_honest]
      intro i _
      show (0 : ℚ) ≤ 1 * 2
      norm_num
    · rw [C38.sat_rows C38.ex3 C38.ex3_honest]
      intro i _
      show (-3 : ℚ) ≤ -1 * 2
      norm_num
  · simp [pos_honest, C38.ex3_honest]
  · simp [pos, C38.ex3]
  · simp [pos, C38.ex3]
  · simp only [List.mem_cons, List.not_mem_nil, or_false, forall_eq_or_imp, forall_eq]
    norm_num

end Verif.C124
