import Verif.Model.Hierarchical
import Mathlib.Algebra.Order.Field.Basic
import Mathlib.Algebra.Order.BigOperators.Group.Finset
import Mathlib.Algebra.BigOperators.Ring.Finset
import Mathlib.Algebra.BigOperators.Intervals
import Mathlib.Tactic.Ring
import Mathlib.Tactic.Linarith
import Mathlib.Tactic.NormNum
import Mathlib.Algebra.Order.Ring.Rat
import Mathlib.Algebra.Field.Rat
/-!
# C68: the problem handed to LexLS by the hierarchical scheme is the lexicographic problem of the priorities

Whatever the constraints, their priorities and the order in which they are given, and after any number of resolutions, the solutions of what is handed to LexLS are the points whose violations are minimal in the lexicographic order: priority by
priority, with the norm of the unknowns at the end when `autoDamping` is set. The bounds of priority 0 are a level before the others with the option `feasibleFirstLevel`, and are with the other constraints of priority 0 otherwise.
-/
set_option autoImplicit false
set_option linter.unusedSectionVars false

namespace Verif.C68
open Verif.HLS Finset

variable {K : Type} [Field K] [LinearOrder K] [IsStrictOrderedRing K]

/-! ## Specification -/

/-- Scalar product of the `n` first components -/
def dot (n : Nat) (a x : Nat → K) : K := ∑ j ∈ range n, a j * x j

/-- Distance of `t` to the interval `[l, u]` -/
def gap (l u t : K) : K := if t < l then l - t else if u < t then t - u else 0

/-- Square of the violation of a row of value `y`; inequalities with one side have `B` or `-B` as the other one. -/
def rowViol (B : K) (t : Ty) (lo up y : K) : K :=
  match t with
  | .equal => (y - lo) ^ 2
  | .greater => gap lo B y ^ 2
  | .lower => gap (-B) up y ^ 2
  | .both => gap lo up y ^ 2

/-- Violation of a constraint -/
def cviol (n : Nat) (B : K) (c : Cstr) (v : Val K) (x : Nat → K) : K :=
  ∑ i ∈ range c.size, rowViol B c.ty (v.lo i) (v.up i) (dot n (fun j => if c.cols j then v.a i j else 0) x)

/-- A constraint that is to be treated as a bound -/
def IsBnd (c : Cstr) : Bool := !c.used && (c.asBound && decide (c.prio = 0))

/-- A constraint that is to be treated as rows of a level -/
def IsOrd (c : Cstr) : Bool := !c.used && !(c.asBound && decide (c.prio = 0))

/-- Violation of the constraints of priority `p`, the additional constraints of the substitutions having priority 0 -/
def levelViol (pb : Pb) (B : K) (v : Nat → Val K) (p : Nat) (x : Nat → K) : K :=
  ((pb.cstrs.filter (fun c => IsOrd c && decide (c.prio = p))).map (fun c => cviol pb.n B c (v c.id) x)).sum +
    if p = 0 then (pb.extra.map (fun c => cviol pb.n B c (v c.id) x)).sum else 0

/-- The lower bounds on the unknown `k` -/
def lows (pb : Pb) (v : Nat → Val K) (k : Nat) : List K :=
  (pb.cstrs.filter (fun c => IsBnd c && (decide (c.start ≤ k) && decide (k < c.start + c.size) && decide (c.ty ≠ .lower)))).map (fun c => (v c.id).lo (k - c.start))

/-- The upper bounds on the unknown `k` -/
def ups (pb : Pb) (v : Nat → Val K) (k : Nat) : List K :=
  (pb.cstrs.filter (fun c => IsBnd c && (decide (c.start ≤ k) && decide (k < c.start + c.size) && decide (c.ty ≠ .greater)))).map
    (fun c => if c.ty = .equal then (v c.id).lo (k - c.start) else (v c.id).up (k - c.start))

/-- The largest of the violations of the bounds on `k`, and of the limit `B` on the unknowns -/
def worst (pb : Pb) (B : K) (v : Nat → Val K) (k : Nat) (t : K) : K :=
  (((-B) :: lows pb v k).map (· - t) ++ (B :: ups pb v k).map (t - ·)).foldl max 0

/-- Violation of the bounds -/
def boundViol (pb : Pb) (B : K) (v : Nat → Val K) (x : Nat → K) : K := ∑ k ∈ range pb.n, worst pb B v k (x k) ^ 2

/-- Is there a bound? -/
def HasBnd (pb : Pb) : Bool := pb.cstrs.any IsBnd

/-- Number of priorities: all constraints that are not bounds have a smaller one. -/
def priorities (pb : Pb) : Nat := ((pb.cstrs.filter IsOrd).map (·.prio + 1)).foldl max (if pb.extra = [] then 0 else 1)

/-- What is to be minimised, in this order -/
def goals (o : Opts K) (pb : Pb) (v : Nat → Val K) : List ((Nat → K) → K) :=
  (if HasBnd pb && o.feasibleFirst then [boundViol pb o.big v] else []) ++
    (List.range (max (priorities pb) (if HasBnd pb && !o.feasibleFirst then 1 else 0))).map (fun p x => levelViol pb o.big v p x + if p = 0 ∧ HasBnd pb = true ∧ o.feasibleFirst = false then boundViol pb o.big v x else 0) ++
    (if o.damping then [fun x => dot pb.n x x] else [])

/-- `x` is not worse than `y` in the lexicographic order. -/
def LexLE : List ((Nat → K) → K) → (Nat → K) → (Nat → K) → Prop
  | [], _, _ => True
  | f :: l, x, y => f x < f y ∨ f x = f y ∧ LexLE l x y

/-- `x` is minimal in the lexicographic order. -/
def LexMin (l : List ((Nat → K) → K)) (x : Nat → K) : Prop := ∀ y, LexLE l x y

/-- What LexLS minimises for an objective: the sum of the squares of the violations -/
def objViol (n : Nat) : Obj K → (Nat → K) → K
  | .simple xl xu, x => ∑ k ∈ range n, gap (xl k) (xu k) (x k) ^ 2
  | .general d, x => ∑ r ∈ range d.rows, gap (d.l r) (d.u r) (dot n (d.M r) x) ^ 2

/-- LexLS: the violations of the objectives are minimal in the lexicographic order. -/
def LexSolution (n : Nat) (objs : List (Obj K)) (x : Nat → K) : Prop := LexMin (objs.map (objViol n)) x

/-- What is true of the constraints: the additional ones are equalities, the variable of a bound is in the unknowns. -/
def WF (pb : Pb) : Prop := (∀ c ∈ pb.extra, c.ty = .equal) ∧ ∀ c ∈ pb.cstrs, IsBnd c = true → c.start + c.size ≤ pb.n

/-- The bounds do not contradict each other. -/
def Consistent (pb : Pb) (B : K) (v : Nat → Val K) : Prop :=
  ∀ k < pb.n, ∃ t : K, (-B ≤ t ∧ ∀ b ∈ lows pb v k, b ≤ t) ∧ t ≤ B ∧ ∀ b ∈ ups pb v k, t ≤ b

/-- The states of the solver: built, then used for any number of resolutions with any values. -/
inductive Hist (o : Opts K) (pb : Pb) : Solver K → Prop
  | build {s} (h : processProblem o pb = .ok () s) : Hist o pb s
  | solve {s s' objs} (h : Hist o pb s) (v : Nat → Val K) (hs : s.solve o v = .ok () (s', objs)) : Hist o pb s'

/-! ## Lists of sizes -/

/-- Rows of the equalities (`e = true`) or inequalities of a level -/
def cnt (e : Bool) : List (Nat × Cstr) → Nat → Nat
  | [], _ => 0
  | c :: l, p => (if c.1 = p ∧ c.2.isEq = e then c.2.size else 0) + cnt e l p

/-- Rows of a level -/
def tot : List (Nat × Cstr) → Nat → Nat
  | [], _ => 0
  | c :: l, p => (if c.1 = p then c.2.size else 0) + tot l p

theorem tot_eq (L : List (Nat × Cstr)) (p : Nat) : tot L p = cnt true L p + cnt false L p := by
  induction L with
  | nil => rfl
  | cons c l ih =>
    simp only [tot, cnt, ih]
    cases c.2.isEq <;> by_cases h : c.1 = p <;> simp [h] <;> omega

theorem cnt_append (e : Bool) (L M : List (Nat × Cstr)) (p : Nat) : cnt e (L ++ M) p = cnt e L p + cnt e M p := by
  induction L with
  | nil => simp [cnt]
  | cons c l ih => simp only [List.cons_append, cnt, ih]; omega

theorem tot_append (L M : List (Nat × Cstr)) (p : Nat) : tot (L ++ M) p = tot L p + tot M p := by
  induction L with
  | nil => simp [tot]
  | cons c l ih => simp only [List.cons_append, tot, ih]; omega

theorem bump_length (v : List Nat) (i k : Nat) : (bump v i k).length = v.length := by simp [bump]

theorem bump_getD (v : List Nat) (i k p : Nat) (hi : i < v.length) : (bump v i k).getD p 0 = v.getD p 0 + if p = i then k else 0 := by
  unfold bump
  rw [List.getD_eq_getElem?_getD, List.getD_eq_getElem?_getD, List.getElem?_modify]
  by_cases h : p = i
  · subst h
    simp [hi]
  · have h' : ¬ i = p := fun e => h e.symm
    simp [h, h']

theorem grow_length (v : List Nat) (p : Nat) : (grow v p).length = max v.length (p + 1) := by
  unfold grow
  by_cases h : v.length ≤ p
  · rw [if_pos h]; simp; omega
  · rw [if_neg h]; omega

theorem grow_getD (v : List Nat) (p q : Nat) : (grow v p).getD q 0 = v.getD q 0 := by
  unfold grow
  by_cases h : v.length ≤ p
  · rw [if_pos h]
    simp only [List.getD_eq_getElem?_getD, List.getElem?_append, List.getElem?_replicate]
    by_cases hq : q < v.length
    · simp [hq]
    · rw [if_neg hq, List.getElem?_eq_none (by omega)]
      by_cases h2 : q - v.length < p + 1 - v.length <;> simp [h2]
  · rw [if_neg h]

theorem ext_getD {v w : List Nat} (hl : v.length = w.length) (h : ∀ p, v.getD p 0 = w.getD p 0) : v = w := by
  refine List.ext_getElem hl fun i h1 h2 => ?_
  have := h i
  simpa [List.getD_eq_getElem?_getD, h1, h2] using this

/-! ## Scan of the constraints -/

/-- Rows given by constraints -/
def rowsOf (l : List Cstr) : List (Nat × Cstr) := (l.filter IsOrd).map (fun c => (c.prio, c))

/-- What the scan gives from a state -/
structure Scanned (l : List Cstr) (a b : Scan) : Prop where
  constr : b.constr = a.constr ++ rowsOf l
  bounds : b.bounds = a.bounds ++ l.filter IsBnd
  lenEq : b.nEq.length = ((l.filter IsOrd).map (·.prio + 1)).foldl max a.nEq.length
  lenIneq : b.nIneq.length = b.nEq.length
  eq : ∀ p, b.nEq.getD p 0 = a.nEq.getD p 0 + cnt true (rowsOf l) p
  ineq : ∀ p, b.nIneq.getD p 0 = a.nIneq.getD p 0 + cnt false (rowsOf l) p

theorem scanOne_spec {a b : Scan} {c : Cstr} (h : scanOne a c = some b) (hl : a.nIneq.length = a.nEq.length) : Scanned [c] a b := by
  unfold scanOne at h
  by_cases hu : c.used = true
  · rw [if_pos hu] at h
    obtain rfl := Option.some.inj h
    have h1 : IsOrd c = false := by simp [IsOrd, hu]
    have h2 : IsBnd c = false := by simp [IsBnd, hu]
    constructor <;> simp [rowsOf, h1, h2, cnt, hl]
  · rw [if_neg hu] at h
    have hu' : c.used = false := by simpa using hu
    by_cases ha : accepted c = false
    · rw [if_pos ha] at h; cases h
    · rw [if_neg ha] at h
      by_cases hb : c.asBound = true ∧ c.prio = 0
      · rw [if_pos hb] at h
        obtain rfl := Option.some.inj h
        have h1 : IsOrd c = false := by simp [IsOrd, hu', hb.1, hb.2]
        have h2 : IsBnd c = true := by simp [IsBnd, hu', hb.1, hb.2]
        constructor <;> simp [rowsOf, h1, h2, cnt, hl]
      · rw [if_neg hb] at h
        obtain rfl := Option.some.inj h
        have h1 : IsOrd c = true := by
          simp only [IsOrd, hu', Bool.not_false, Bool.true_and, Bool.not_eq_true']
          cases hc : c.asBound
          · rfl
          · simp only [Bool.true_and, decide_eq_false_iff_not]; exact fun e => hb ⟨hc, e⟩
        have h2 : IsBnd c = false := by
          have : IsBnd c = (!c.used && !(!(c.asBound && decide (c.prio = 0)))) := by simp [IsBnd]
          rw [this]
          simp only [IsOrd, hu', Bool.not_false, Bool.true_and] at h1
          rw [h1]; simp
        have g1 := grow_length a.nEq c.prio
        have g2 := grow_length a.nIneq c.prio
        constructor
        · simp [rowsOf, h1]
        · simp [h2]
        · cases hc : c.isEq <;> simp [h1, bump_length, g1]
        · cases hc : c.isEq <;> simp [bump_length, g1, g2, hl]
        · intro p
          cases hc : c.isEq
          · simp only [hc, rowsOf, h1, List.filter_cons, List.filter_nil, if_true, List.map_cons, List.map_nil, cnt, Bool.false_eq_true, if_false, and_false]
            rw [grow_getD]; rfl
          · simp only [hc, rowsOf, h1, List.filter_cons, List.filter_nil, if_true, List.map_cons, List.map_nil, cnt, and_true]
            rw [bump_getD _ _ _ _ (by omega), grow_getD]
            by_cases hp : p = c.prio
            · subst hp; simp
            · have : ¬ c.prio = p := fun e => hp e.symm
              simp [hp, this]
        · intro p
          cases hc : c.isEq
          · simp only [hc, rowsOf, h1, List.filter_cons, List.filter_nil, if_true, List.map_cons, List.map_nil, cnt, Bool.false_eq_true, if_false, and_true]
            rw [bump_getD _ _ _ _ (by omega), grow_getD]
            by_cases hp : p = c.prio
            · subst hp; simp
            · have : ¬ c.prio = p := fun e => hp e.symm
              simp [hp, this]
          · simp only [hc, rowsOf, h1, List.filter_cons, List.filter_nil, if_true, List.map_cons, List.map_nil, cnt, Bool.true_eq_false, and_false, if_false]
            rw [grow_getD]; rfl

theorem scanAll_spec {l : List Cstr} : ∀ {a b : Scan}, scanAll l a = some b → a.nIneq.length = a.nEq.length → Scanned l a b := by
  induction l with
  | nil =>
    intro a b h hl
    obtain rfl := Option.some.inj h
    constructor <;> simp [rowsOf, cnt, hl]
  | cons c l ih =>
    intro a b h hl
    unfold scanAll at h
    cases h1 : scanOne a c with
    | none => rw [h1] at h; cases h
    | some a' =>
      rw [h1] at h
      have s1 := scanOne_spec h1 hl
      have s2 := ih h s1.lenIneq
      have hr : rowsOf (c :: l) = rowsOf [c] ++ rowsOf l := by
        unfold rowsOf
        rw [← List.map_append, ← List.filter_append]; rfl
      have hf : ∀ f : Cstr → Bool, (c :: l).filter f = [c].filter f ++ l.filter f := fun f => by rw [← List.filter_append]; rfl
      constructor
      · rw [s2.constr, s1.constr, hr, List.append_assoc]
      · rw [s2.bounds, s1.bounds, hf, List.append_assoc]
      · rw [s2.lenEq, s1.lenEq, hf, List.map_append, List.foldl_append]
      · exact s2.lenIneq
      · intro p; rw [s2.eq, s1.eq, hr, cnt_append]; omega
      · intro p; rw [s2.ineq, s1.ineq, hr, cnt_append]; omega

/-- The scan fails if and only if a constraint that is not used by a substitution is refused. -/
theorem scanAll_none {l : List Cstr} : ∀ {a : Scan}, scanAll l a = none ↔ ∃ c ∈ l, c.used = false ∧ accepted c = false := by
  induction l with
  | nil => intro a; simp [scanAll]
  | cons c l ih =>
    intro a
    unfold scanAll
    cases h1 : scanOne a c with
    | none =>
      simp only [List.mem_cons, exists_eq_or_imp, true_iff]
      left
      unfold scanOne at h1
      by_cases hu : c.used = true
      · rw [if_pos hu] at h1; cases h1
      · rw [if_neg hu] at h1
        by_cases ha : accepted c = false
        · exact ⟨by simpa using hu, ha⟩
        · rw [if_neg ha] at h1
          by_cases hb : c.asBound = true ∧ c.prio = 0
          · rw [if_pos hb] at h1; cases h1
          · rw [if_neg hb] at h1; cases h1
    | some a' =>
      simp only [List.mem_cons, exists_eq_or_imp]
      rw [ih]
      constructor
      · exact Or.inr
      · rintro (⟨h2, h3⟩ | h)
        · unfold scanOne at h1
          rw [if_neg (by simp [h2]), if_pos h3] at h1; cases h1
        · exact h

/-- All the rows of a problem, with their levels -/
def allRows (pb : Pb) : List (Nat × Cstr) := rowsOf pb.cstrs ++ pb.extra.map (fun c => (0, c))

theorem foldl_max_init (l : List Nat) : ∀ k : Nat, l.foldl max k = max (l.foldl max 0) k := by
  induction l with
  | nil => intro k; simp
  | cons a l ih => intro k; simp only [List.foldl_cons]; rw [ih (max k a), ih (max 0 a)]; omega

theorem le_foldl_max {l : List Nat} {k a : Nat} (h : a ∈ l) : a ≤ l.foldl max k := by
  induction l generalizing k with
  | nil => cases h
  | cons b l ih =>
    rw [List.foldl_cons]
    rcases List.mem_cons.mp h with rfl | h
    · rw [foldl_max_init]; omega
    · exact ih h

/-- The levels of the rows are those of the priorities. -/
theorem lvl_lt (pb : Pb) : ∀ e ∈ allRows pb, e.1 < priorities pb := by
  intro e he
  unfold allRows rowsOf at he
  unfold priorities
  rcases List.mem_append.mp he with h | h
  · obtain ⟨c, hc, rfl⟩ := List.mem_map.mp h
    exact le_foldl_max (List.mem_map.mpr ⟨c, hc, rfl⟩)
  · obtain ⟨c, hc, rfl⟩ := List.mem_map.mp h
    have hne : pb.extra ≠ [] := fun e => by rw [e] at hc; cases hc
    rw [if_neg hne, foldl_max_init]; show 0 < _; omega

/-- The sizes of the levels without damping -/
structure Sizes (pb : Pb) (nE nI : List Nat) : Prop where
  lenE : nE.length = priorities pb
  lenI : nI.length = priorities pb
  eq : ∀ p, nE.getD p 0 = cnt true (allRows pb) p
  ineq : ∀ p, nI.getD p 0 = cnt false (allRows pb) p

theorem extra_bump (extra : List Cstr) (h : ∀ c ∈ extra, c.ty = .equal) : ∀ v : List Nat, (extra = [] ∨ 0 < v.length) →
    (extra.foldl (fun v c => bump v 0 c.size) v).length = v.length ∧
      ∀ p, (extra.foldl (fun v c => bump v 0 c.size) v).getD p 0 = v.getD p 0 + cnt true (extra.map (fun c => (0, c))) p := by
  induction extra with
  | nil => intro v _; exact ⟨rfl, fun p => rfl⟩
  | cons c l ih =>
    intro v hv
    have hv : 0 < v.length := by simpa using hv
    obtain ⟨h1, h2⟩ := ih (fun c hc => h c (List.mem_cons_of_mem _ hc)) (bump v 0 c.size) (Or.inr (by rw [bump_length]; exact hv))
    have he : c.isEq = true := by simp [Cstr.isEq, h c (List.mem_cons_self ..)]
    refine ⟨by rw [List.foldl_cons, h1, bump_length], fun p => ?_⟩
    rw [List.foldl_cons, h2, bump_getD _ _ _ _ hv]
    simp only [List.map_cons, cnt, he, and_true]
    by_cases hp : p = 0
    · subst hp; simp; omega
    · have : ¬ 0 = p := fun e => hp e.symm
      simp [hp, this]

theorem cnt_false_extra (extra : List Cstr) (h : ∀ c ∈ extra, c.ty = .equal) (p : Nat) : cnt false (extra.map (fun c => (0, c))) p = 0 := by
  induction extra with
  | nil => rfl
  | cons c l ih =>
    have he : c.isEq = true := by simp [Cstr.isEq, h c (List.mem_cons_self ..)]
    simp only [List.map_cons, cnt, he, Bool.true_eq_false, and_false, if_false]
    rw [ih (fun c hc => h c (List.mem_cons_of_mem _ hc))]

theorem scan_sizes {pb : Pb} (hw : WF pb) {a : Scan} (h : scanAll pb.cstrs ⟨[], [], [], []⟩ = some a) :
    Sizes pb (addExtra pb.extra a).nEq (addExtra pb.extra a).nIneq ∧ (addExtra pb.extra a).constr = allRows pb ∧ (addExtra pb.extra a).bounds = pb.cstrs.filter IsBnd := by
  have s := scanAll_spec h rfl
  have hlen : ∀ v : List Nat, v.length = a.nEq.length →
      (if pb.extra.length > 0 ∧ a.nEq.length = 0 then v ++ [0] else v).length = priorities pb := by
    intro v hv
    have hle : a.nEq.length = ((pb.cstrs.filter IsOrd).map (·.prio + 1)).foldl max 0 := s.lenEq
    unfold priorities
    rw [foldl_max_init, ← hle]
    by_cases hx : pb.extra = []
    · simp [hx, hv]
    · have h1 : pb.extra.length > 0 := List.length_pos_iff.mpr hx
      by_cases h2 : a.nEq.length = 0
      · rw [if_pos ⟨h1, h2⟩, if_neg hx]; simp; omega
      · rw [if_neg (fun h => h2 h.2), if_neg hx]; omega
  have hget : ∀ (v : List Nat) (p : Nat), (if pb.extra.length > 0 ∧ a.nEq.length = 0 then v ++ [0] else v).getD p 0 = v.getD p 0 := by
    intro v p
    by_cases hc : pb.extra.length > 0 ∧ a.nEq.length = 0
    · rw [if_pos hc]
      simp only [List.getD_eq_getElem?_getD, List.getElem?_append]
      by_cases hp : p < v.length
      · simp [hp]
      · rw [if_neg hp, List.getElem?_eq_none (by omega : v.length ≤ p)]
        cases p - v.length <;> simp
    · rw [if_neg hc]
  have hpos : pb.extra = [] ∨ 0 < (if pb.extra.length > 0 ∧ a.nEq.length = 0 then a.nEq ++ [0] else a.nEq).length := by
    by_cases hx : pb.extra = []
    · exact Or.inl hx
    · right
      rw [hlen _ rfl]
      unfold priorities
      rw [if_neg hx, foldl_max_init]; omega
  obtain ⟨e1, e2⟩ := extra_bump pb.extra hw.1 _ hpos
  refine ⟨⟨?_, ?_, ?_, ?_⟩, ?_, ?_⟩
  · exact e1.trans (hlen _ rfl)
  · exact hlen _ s.lenIneq
  · intro p
    refine (e2 p).trans ?_
    rw [hget, s.eq p, allRows, cnt_append]; simp
  · intro p
    refine (hget _ p).trans ?_
    rw [s.ineq p, allRows, cnt_append, cnt_false_extra _ hw.1]; simp
  · show a.constr ++ _ = _
    rw [s.constr]; rfl
  · show a.bounds = _
    rw [s.bounds]; rfl

/-! ## Build -/

/-- The assignments of rows, from given counters -/
def layout : (Nat → Nat) → List (Nat × Cstr) → List Asg
  | _, [] => []
  | f, e :: l => ⟨e.2.id, e.1, f e.1, e.2.size, e.2.ty, e.2.cols⟩ :: layout (fun p => if p = e.1 then f p + e.2.size else f p) l

theorem addConstraints_spec (L : List (Nat × Cstr)) : ∀ (s : Solver K), s.eqSize.length = s.nEq.length → s.ineqSize.length = s.nEq.length →
    (∀ e ∈ L, e.1 < s.nEq.length) → (∀ p, s.eqSize.getD p 0 + s.ineqSize.getD p 0 + tot L p ≤ s.nEq.getD p 0 + s.nIneq.getD p 0) →
    ∃ e i : List Nat, s.addConstraints L = .ok () { s with asg := s.asg ++ layout (fun p => s.eqSize.getD p 0 + s.ineqSize.getD p 0) L, eqSize := e, ineqSize := i } ∧
      e.length = s.nEq.length ∧ i.length = s.nEq.length ∧ (∀ p, e.getD p 0 = s.eqSize.getD p 0 + cnt true L p) ∧ ∀ p, i.getD p 0 = s.ineqSize.getD p 0 + cnt false L p := by
  induction L with
  | nil =>
    intro s h1 h2 _ _
    refine ⟨s.eqSize, s.ineqSize, ?_, h1, h2, fun _ => rfl, fun _ => rfl⟩
    simp [Solver.addConstraints, layout]
  | cons c l ih =>
    intro s h1 h2 h3 h4
    have hlt := h3 c (List.mem_cons_self ..)
    have hsz := h4 c.1
    simp only [tot, if_true] at hsz
    have hadd : s.addConstraint c.1 c.2 = .ok () { s with
        asg := s.asg ++ [⟨c.2.id, c.1, s.eqSize.getD c.1 0 + s.ineqSize.getD c.1 0, c.2.size, c.2.ty, c.2.cols⟩]
        eqSize := if c.2.isEq then bump s.eqSize c.1 c.2.size else s.eqSize
        ineqSize := if c.2.isEq then s.ineqSize else bump s.ineqSize c.1 c.2.size } := by
      unfold Solver.addConstraint
      rw [if_neg (by omega)]
      simp only
      rw [if_neg (by omega)]
    have hE : ∀ p, (if c.2.isEq = true then bump s.eqSize c.1 c.2.size else s.eqSize).getD p 0 = s.eqSize.getD p 0 + if c.1 = p ∧ c.2.isEq = true then c.2.size else 0 := by
      intro p
      by_cases hc : c.2.isEq = true
      · rw [if_pos hc, bump_getD _ _ _ _ (by omega)]; simp [hc, eq_comm]
      · rw [if_neg hc]; simp [hc]
    have hI : ∀ p, (if c.2.isEq = true then s.ineqSize else bump s.ineqSize c.1 c.2.size).getD p 0 = s.ineqSize.getD p 0 + if c.1 = p ∧ c.2.isEq = false then c.2.size else 0 := by
      intro p
      by_cases hc : c.2.isEq = true
      · rw [if_pos hc]; simp [hc]
      · rw [if_neg hc, bump_getD _ _ _ _ (by omega)]; simp [hc, eq_comm]
    have hsum : ∀ p, (if c.2.isEq = true then bump s.eqSize c.1 c.2.size else s.eqSize).getD p 0 + (if c.2.isEq = true then s.ineqSize else bump s.ineqSize c.1 c.2.size).getD p 0 =
        if p = c.1 then s.eqSize.getD p 0 + s.ineqSize.getD p 0 + c.2.size else s.eqSize.getD p 0 + s.ineqSize.getD p 0 := by
      intro p
      rw [hE, hI]
      by_cases hp : c.1 = p
      · subst hp; cases c.2.isEq <;> simp <;> omega
      · have : ¬ p = c.1 := fun e => hp e.symm
        simp [hp, this]
    obtain ⟨e, i, r1, r2, r3, r4, r5⟩ := ih { s with
        asg := s.asg ++ [⟨c.2.id, c.1, s.eqSize.getD c.1 0 + s.ineqSize.getD c.1 0, c.2.size, c.2.ty, c.2.cols⟩]
        eqSize := if c.2.isEq then bump s.eqSize c.1 c.2.size else s.eqSize
        ineqSize := if c.2.isEq then s.ineqSize else bump s.ineqSize c.1 c.2.size }
      (by show (if c.2.isEq = true then bump s.eqSize c.1 c.2.size else s.eqSize).length = _; by_cases hc : c.2.isEq = true <;> simp [hc, bump_length, h1])
      (by show (if c.2.isEq = true then s.ineqSize else bump s.ineqSize c.1 c.2.size).length = _; by_cases hc : c.2.isEq = true <;> simp [hc, bump_length, h2])
      (fun e he => h3 e (List.mem_cons_of_mem _ he))
      (by
        intro p
        show (if c.2.isEq = true then bump s.eqSize c.1 c.2.size else s.eqSize).getD p 0 + (if c.2.isEq = true then s.ineqSize else bump s.ineqSize c.1 c.2.size).getD p 0 + tot l p ≤ s.nEq.getD p 0 + s.nIneq.getD p 0
        rw [hsum]
        have := h4 p
        simp only [tot] at this
        by_cases hp : p = c.1
        · subst hp; simp only [if_true] at this ⊢; omega
        · have hp' : ¬ c.1 = p := fun e => hp e.symm
          rw [if_neg hp]; rw [if_neg hp'] at this; omega)
    refine ⟨e, i, ?_, r2, r3, fun p => ?_, fun p => ?_⟩
    · unfold Solver.addConstraints
      rw [hadd]
      simp only
      rw [r1]
      simp only [layout, hsum, List.append_assoc, List.singleton_append]
    · rw [r4]
      show (if c.2.isEq = true then bump s.eqSize c.1 c.2.size else s.eqSize).getD p 0 + _ = _
      rw [hE]; simp only [cnt]; omega
    · rw [r5]
      show (if c.2.isEq = true then s.ineqSize else bump s.ineqSize c.1 c.2.size).getD p 0 + _ = _
      rw [hI]; simp only [cnt]; omega

/-- The assignment of a bound -/
def toB (c : Cstr) : BAsg := ⟨c.id, c.start, c.size, c.ty⟩

theorem addBounds_spec (l : List Cstr) : ∀ s : Solver K, l.foldl Solver.addBound s = { s with basg := s.basg ++ l.map toB } := by
  induction l with
  | nil => intro s; simp
  | cons c l ih => intro s; rw [List.foldl_cons, ih]; simp [Solver.addBound, toB]

/-- A level of the solver after its build -/
def builtLevel (o : Opts K) (pb : Pb) (p : Nat) : Level K :=
  if o.damping = true ∧ p = priorities pb then (freshLevel o pb.n (HasBnd pb) p pb.n).minNorm else freshLevel o pb.n (HasBnd pb) p (tot (allRows pb) p)

theorem getD_append_last (v : List Nat) (k p : Nat) : (v ++ [k]).getD p 0 = if p = v.length then k else v.getD p 0 := by
  simp only [List.getD_eq_getElem?_getD, List.getElem?_append]
  rcases Nat.lt_trichotomy p v.length with h | h | h
  · rw [if_pos h, if_neg (by omega)]
  · subst h; simp
  · rw [if_neg (by omega), if_neg (by omega), List.getElem?_eq_none (by simp; omega), List.getElem?_eq_none (by omega)]

theorem cnt_zero {e : Bool} {L : List (Nat × Cstr)} {p : Nat} (h : ∀ c ∈ L, c.1 ≠ p) : cnt e L p = 0 := by
  induction L with
  | nil => rfl
  | cons c l ih =>
    simp only [cnt]
    rw [if_neg (fun hc => h c (List.mem_cons_self ..) hc.1), ih (fun c hc => h c (List.mem_cons_of_mem _ hc))]

theorem tot_zero {L : List (Nat × Cstr)} {p : Nat} (h : ∀ c ∈ L, c.1 ≠ p) : tot L p = 0 := by
  rw [tot_eq, cnt_zero h, cnt_zero h]

/-- What is built -/
structure Built (o : Opts K) (pb : Pb) (s : Solver K) : Prop where
  n : s.n = pb.n
  bounds : s.bounds = HasBnd pb
  levels : s.nEq.length = priorities pb + if o.damping then 1 else 0
  asg : s.asg = layout (fun _ => 0) (allRows pb)
  basg : s.basg = (pb.cstrs.filter IsBnd).map toB

theorem isEmpty_filter (pb : Pb) : (!(pb.cstrs.filter IsBnd).isEmpty) = HasBnd pb := by
  unfold HasBnd
  induction pb.cstrs with
  | nil => rfl
  | cons c l ih =>
    cases h : IsBnd c with
    | true => simp [h]
    | false => simp only [List.filter_cons, h, List.any_cons, Bool.false_or]; exact ih

theorem build_spec (o : Opts K) {pb : Pb} (hw : WF pb) (ha : ∀ c ∈ pb.cstrs, c.used = false → accepted c = true) :
    ∃ s, processProblem o pb = .ok () s ∧ Built o pb s ∧ (∀ p, s.data p = builtLevel o pb p) := by
  cases hsc : scanAll pb.cstrs ⟨[], [], [], []⟩ with
  | none =>
    obtain ⟨c, hc, h1, h2⟩ := scanAll_none.mp hsc
    rw [ha c hc h1] at h2; cases h2
  | some a =>
    obtain ⟨hs, hc, hb⟩ := scan_sizes hw hsc
    unfold processProblem
    rw [hsc]
    simp only
    generalize hA : addExtra pb.extra a = A at hs hc hb
    have hd1 : (addDamping o.damping pb.n A).constr = allRows pb := hc
    have hd2 : (addDamping o.damping pb.n A).bounds = pb.cstrs.filter IsBnd := hb
    rw [hd1, hd2, isEmpty_filter]
    have hlt := lvl_lt pb
    cases hdamp : o.damping with
    | false =>
      have e1 : (addDamping false pb.n A).nEq = A.nEq := rfl
      have e2 : (addDamping false pb.n A).nIneq = A.nIneq := rfl
      rw [e1, e2]
      obtain ⟨e, i, r1, r2, r3, r4, r5⟩ := addConstraints_spec (allRows pb) (startBuild o pb.n A.nEq A.nIneq (HasBnd pb))
        (by simp [startBuild]) (by simp [startBuild]) (by intro x hx; show x.1 < A.nEq.length; rw [hs.lenE]; exact hlt x hx)
        (by
          intro p
          show (List.replicate A.nEq.length 0).getD p 0 + (List.replicate A.nEq.length 0).getD p 0 + _ ≤ A.nEq.getD p 0 + A.nIneq.getD p 0
          rw [hs.eq, hs.ineq, tot_eq]
          have : (List.replicate A.nEq.length 0).getD p 0 = 0 := by simp [List.getD_eq_getElem?_getD, List.getElem?_replicate]; split <;> rfl
          omega)
      rw [r1]
      simp only [Bool.false_eq_true, if_false]
      rw [addBounds_spec]
      have hz : ∀ p, (List.replicate A.nEq.length 0).getD p 0 = 0 := by
        intro p; simp [List.getD_eq_getElem?_getD, List.getElem?_replicate]; split <;> rfl
      have hE : A.nEq = e := ext_getD r2.symm fun p => by
        rw [r4, hs.eq]
        show _ = (List.replicate A.nEq.length 0).getD p 0 + _
        rw [hz, Nat.zero_add]
      have hI : A.nIneq = i := ext_getD (by rw [r3]; show _ = A.nEq.length; rw [hs.lenE, hs.lenI]) fun p => by
        rw [r5, hs.ineq]
        show _ = (List.replicate A.nEq.length 0).getD p 0 + _
        rw [hz, Nat.zero_add]
      refine ⟨_, if_pos ⟨hE, hI⟩, ⟨rfl, rfl, ?_, ?_, ?_⟩, fun p => ?_⟩
      · show A.nEq.length = _
        rw [hs.lenE]; simp [hdamp]
      · show [] ++ layout (fun p => (List.replicate A.nEq.length 0).getD p 0 + (List.replicate A.nEq.length 0).getD p 0) _ = _
        simp only [hz, List.nil_append]
      · show [] ++ _ = _
        simp
      · show freshLevel o pb.n (HasBnd pb) p (A.nEq.getD p 0 + A.nIneq.getD p 0) = _
        unfold builtLevel
        rw [if_neg (by simp [hdamp]), hs.eq, hs.ineq, ← tot_eq]
    | true =>
      have e1 : (addDamping true pb.n A).nEq = A.nEq ++ [pb.n] := rfl
      have e2 : (addDamping true pb.n A).nIneq = A.nIneq ++ [0] := rfl
      rw [e1, e2]
      have hz : ∀ p, (List.replicate (A.nEq ++ [pb.n]).length 0).getD p 0 = 0 := by
        intro p; rw [List.getD_eq_getElem?_getD, List.getElem?_replicate]; split <;> rfl
      have hlast : ∀ c ∈ allRows pb, c.1 ≠ A.nEq.length := fun c hc => by have := hlt c hc; rw [hs.lenE]; omega
      obtain ⟨e, i, r1, r2, r3, r4, r5⟩ := addConstraints_spec (allRows pb) (startBuild o pb.n (A.nEq ++ [pb.n]) (A.nIneq ++ [0]) (HasBnd pb))
        (by simp [startBuild]) (by simp [startBuild]) (by intro x hx; show x.1 < (A.nEq ++ [pb.n]).length; have := hlt x hx; rw [List.length_append, hs.lenE]; omega)
        (by
          intro p
          show (List.replicate (A.nEq ++ [pb.n]).length 0).getD p 0 + (List.replicate (A.nEq ++ [pb.n]).length 0).getD p 0 + _ ≤ (A.nEq ++ [pb.n]).getD p 0 + (A.nIneq ++ [0]).getD p 0
          rw [hz, getD_append_last, getD_append_last, hs.eq, hs.ineq]
          by_cases hp : p = A.nEq.length
          · subst hp; rw [tot_zero hlast]; omega
          · rw [if_neg hp, if_neg (by rw [hs.lenI, ← hs.lenE]; exact hp), tot_eq]; omega)
      rw [r1]
      have r2' : e.length = A.nEq.length + 1 := by rw [r2]; simp [startBuild]
      have r3' : i.length = A.nEq.length + 1 := by rw [r3]; simp [startBuild]
      simp only [if_true]
      have hmin : Solver.setMinimumNorm { startBuild o pb.n (A.nEq ++ [pb.n]) (A.nIneq ++ [0]) (HasBnd pb) with
            asg := (startBuild o pb.n (A.nEq ++ [pb.n]) (A.nIneq ++ [0]) (HasBnd pb)).asg ++ layout (fun p => (startBuild o pb.n (A.nEq ++ [pb.n]) (A.nIneq ++ [0]) (HasBnd pb)).eqSize.getD p 0 + (startBuild o pb.n (A.nEq ++ [pb.n]) (A.nIneq ++ [0]) (HasBnd pb)).ineqSize.getD p 0) (allRows pb)
            eqSize := e
            ineqSize := i } = .ok () { startBuild o pb.n (A.nEq ++ [pb.n]) (A.nIneq ++ [0]) (HasBnd pb) with
            asg := layout (fun _ => 0) (allRows pb)
            eqSize := e.set A.nEq.length pb.n
            ineqSize := i
            autoMin := true
            data := fun p => if p = A.nEq.length then (freshLevel o pb.n (HasBnd pb) p ((A.nEq ++ [pb.n]).getD p 0 + (A.nIneq ++ [0]).getD p 0)).minNorm
              else freshLevel o pb.n (HasBnd pb) p ((A.nEq ++ [pb.n]).getD p 0 + (A.nIneq ++ [0]).getD p 0) } := by
        unfold Solver.setMinimumNorm
        have hlen : (A.nEq ++ [pb.n]).length - 1 = A.nEq.length := by simp
        simp only [startBuild, hlen, hz, List.nil_append]
        rw [if_neg (by simp), if_pos]
        constructor
        · rw [getD_append_last, if_pos rfl]
        · rw [getD_append_last, if_pos (by rw [hs.lenI, hs.lenE])]
      rw [hmin]
      simp only
      rw [addBounds_spec]
      have hE : A.nEq ++ [pb.n] = e.set A.nEq.length pb.n := ext_getD (by simp [r2']) fun p => by
        rw [getD_append_last]
        by_cases hp : p = A.nEq.length
        · rw [if_pos hp, hp, List.getD_eq_getElem?_getD, List.getElem?_set_self (by omega)]; rfl
        · rw [if_neg hp, hs.eq, List.getD_eq_getElem?_getD, List.getElem?_set_ne (by omega), ← List.getD_eq_getElem?_getD, r4]
          show _ = (List.replicate (A.nEq ++ [pb.n]).length 0).getD p 0 + _
          rw [hz, Nat.zero_add]
      have hI : A.nIneq ++ [0] = i := ext_getD (by rw [r3', List.length_append, hs.lenI, hs.lenE]; rfl) fun p => by
        rw [getD_append_last, r5]
        show _ = (List.replicate (A.nEq ++ [pb.n]).length 0).getD p 0 + _
        rw [hz, Nat.zero_add]
        by_cases hp : p = A.nIneq.length
        · rw [if_pos hp, cnt_zero]; intro c hc; rw [hp, hs.lenI, ← hs.lenE]; exact hlast c hc
        · rw [if_neg hp, hs.ineq]
      refine ⟨_, if_pos ⟨hE, hI⟩, ⟨rfl, rfl, ?_, rfl, ?_⟩, fun p => ?_⟩
      · show (A.nEq ++ [pb.n]).length = _
        rw [List.length_append, hs.lenE]; simp [hdamp]
      · show [] ++ _ = _
        simp
      · show (if p = A.nEq.length then _ else _) = _
        unfold builtLevel
        rw [getD_append_last, getD_append_last, hs.lenE, hs.lenI]
        by_cases hp : p = priorities pb
        · rw [if_pos hp, if_pos hp, if_pos hp, if_pos ⟨hdamp, hp⟩]; rfl
        · rw [if_neg hp, if_neg hp, if_neg hp, if_neg (fun h => hp h.2), hs.eq, hs.ineq, ← tot_eq]

/-! ## Assignments of the rows -/

/-- The entries that are not written in the rows of constraints are zero. -/
def Clean (d : Nat → Level K) : (Nat → Nat) → List (Nat × Cstr) → Prop
  | _, [] => True
  | f, e :: l => (∀ i < e.2.size, ∀ j, e.2.cols j = false → (d e.1).M ((d e.1).off + f e.1 + i) j = 0) ∧ Clean d (fun p => if p = e.1 then f p + e.2.size else f p) l

theorem clean_congr {d d' : Nat → Level K} (L : List (Nat × Cstr)) : ∀ f : Nat → Nat, (∀ p, (d' p).off = (d p).off) →
    (∀ p r j, (d p).off + f p ≤ r → (d' p).M r j = (d p).M r j) → Clean d f L → Clean d' f L := by
  induction L with
  | nil => intro _ _ _ _; trivial
  | cons e l ih =>
    intro f ho hM h
    refine ⟨fun i hi j hj => ?_, ih _ ho (fun p r j hr => hM p r j ?_) h.2⟩
    · rw [ho, hM _ _ _ (by omega)]; exact h.1 i hi j hj
    · by_cases hp : p = e.1
      · simp only [if_pos hp] at hr; omega
      · simpa only [if_neg hp] using hr

theorem runAsg_frame (o : Opts K) (v : Nat → Val K) (L : List (Nat × Cstr)) : ∀ (f : Nat → Nat) (d : Nat → Level K) (p : Nat),
    (runAsg o v (layout f L) d p).off = (d p).off ∧ (runAsg o v (layout f L) d p).rows = (d p).rows ∧
      ∀ r, (r < (d p).off + f p ∨ (d p).off + f p + tot L p ≤ r) →
        (∀ j, (runAsg o v (layout f L) d p).M r j = (d p).M r j) ∧ (runAsg o v (layout f L) d p).l r = (d p).l r ∧ (runAsg o v (layout f L) d p).u r = (d p).u r := by
  induction L with
  | nil => intro f d p; exact ⟨rfl, rfl, fun r _ => ⟨fun _ => rfl, rfl, rfl⟩⟩
  | cons e l ih =>
    intro f d p
    obtain ⟨h1, h2, h3⟩ := ih (fun q => if q = e.1 then f q + e.2.size else f q)
      (fun q => if q = e.1 then (d q).put o (v e.2.id) ⟨e.2.id, e.1, f e.1, e.2.size, e.2.ty, e.2.cols⟩ else d q) p
    simp only [layout, runAsg]
    by_cases hp : p = e.1
    · subst hp
      simp only [if_true] at h1 h2 h3
      refine ⟨h1, h2, fun r hr => ?_⟩
      simp only [tot, if_true] at hr
      have hoff : ((d e.1).put o (v e.2.id) ⟨e.2.id, e.1, f e.1, e.2.size, e.2.ty, e.2.cols⟩).off = (d e.1).off := rfl
      rw [hoff] at h3
      obtain ⟨a1, a2, a3⟩ := h3 r (by omega)
      refine ⟨fun j => (a1 j).trans ?_, a2.trans ?_, a3.trans ?_⟩
      · exact if_neg (fun h => by have := h.1; have := h.2.1; simp only at *; omega)
      · exact if_neg (fun h => by simp only at h; omega)
      · exact if_neg (fun h => by simp only at h; omega)
    · simp only [if_neg hp] at h1 h2 h3
      refine ⟨h1, h2, fun r hr => h3 r ?_⟩
      simp only [tot, if_neg (fun h => hp h.symm : ¬ e.1 = p)] at hr
      omega

theorem runAsg_clean (o : Opts K) (v : Nat → Val K) (L : List (Nat × Cstr)) : ∀ (f : Nat → Nat) (d : Nat → Level K),
    Clean d f L → Clean (runAsg o v (layout f L) d) f L := by
  induction L with
  | nil => intro _ _ _; trivial
  | cons e l ih =>
    intro f d h
    simp only [layout, runAsg]
    set d' : Nat → Level K := fun q => if q = e.1 then (d q).put o (v e.2.id) ⟨e.2.id, e.1, f e.1, e.2.size, e.2.ty, e.2.cols⟩ else d q with hd'
    have hoff : ∀ p, (d' p).off = (d p).off := by intro p; simp only [hd']; by_cases hp : p = e.1 <;> simp [hp, Level.put]
    have hclean : Clean d' (fun p => if p = e.1 then f p + e.2.size else f p) l := by
      refine clean_congr l _ hoff (fun p r j hr => ?_) h.2
      by_cases hp : p = e.1
      · subst hp
        simp only [if_true] at hr
        simp only [hd', if_true]
        exact if_neg (fun h => by have := h.1; have := h.2.1; simp only at *; omega)
      · simp only [hd', if_neg hp]
    refine ⟨fun i hi j hj => ?_, ih _ _ hclean⟩
    obtain ⟨h1, _, h3⟩ := runAsg_frame o v l (fun p => if p = e.1 then f p + e.2.size else f p) d' e.1
    rw [h1, hoff]
    obtain ⟨a1, _, _⟩ := h3 ((d e.1).off + f e.1 + i) (by left; rw [hoff]; simp only [if_true]; omega)
    rw [a1]
    simp only [hd', if_true]
    have : ((d e.1).put o (v e.2.id) ⟨e.2.id, e.1, f e.1, e.2.size, e.2.ty, e.2.cols⟩).M ((d e.1).off + f e.1 + i) j = (d e.1).M ((d e.1).off + f e.1 + i) j :=
      if_neg (fun h => by have h2 : e.2.cols j = true := h.2.2; rw [h2] at hj; cases hj)
    rw [this]
    exact h.1 i hi j hj

theorem gap_self (b t : K) : gap b b t ^ 2 = (t - b) ^ 2 := by
  unfold gap
  by_cases h1 : t < b
  · rw [if_pos h1]; ring
  · rw [if_neg h1]
    by_cases h2 : b < t
    · rw [if_pos h2]
    · rw [if_neg h2, show t = b by linarith [not_lt.mp h1, not_lt.mp h2]]; ring

theorem rowViol_eq (o : Opts K) (t : Ty) (v : Val K) (i : Nat) (y : K) : gap (lower o t v i) (upper o t v i) y ^ 2 = rowViol o.big t (v.lo i) (v.up i) y := by
  cases t
  · exact gap_self _ _
  · rfl
  · rfl
  · rfl

/-- Square of the violation of a row of a level -/
def rviol (n : Nat) (x : Nat → K) (d : Level K) (r : Nat) : K := gap (d.l r) (d.u r) (dot n (d.M r) x) ^ 2

/-- Sum of the violations of the constraints of a level -/
def viols (n : Nat) (B : K) (v : Nat → Val K) (x : Nat → K) : List (Nat × Cstr) → Nat → K
  | [], _ => 0
  | e :: l, p => (if e.1 = p then cviol n B e.2 (v e.2.id) x else 0) + viols n B v x l p

theorem dot_congr {n : Nat} {a a' x : Nat → K} (ha : ∀ j < n, a j = a' j) : dot n a x = dot n a' x :=
  sum_congr rfl fun j hj => by rw [ha j (mem_range.mp hj)]

/-- The rows of a level hold its constraints. -/
theorem runAsg_viols (o : Opts K) (n : Nat) (x : Nat → K) (v : Nat → Val K) (L : List (Nat × Cstr)) : ∀ (f : Nat → Nat) (d : Nat → Level K), Clean d f L →
    ∀ p, (∑ i ∈ range (tot L p), rviol n x (runAsg o v (layout f L) d p) ((d p).off + f p + i)) = viols n o.big v x L p := by
  induction L with
  | nil => intro f d _ p; simp [tot, viols]
  | cons e l ih =>
    intro f d h p
    simp only [layout, runAsg]
    set d' : Nat → Level K := fun q => if q = e.1 then (d q).put o (v e.2.id) ⟨e.2.id, e.1, f e.1, e.2.size, e.2.ty, e.2.cols⟩ else d q with hd'
    have hoff : ∀ p, (d' p).off = (d p).off := by intro p; simp only [hd']; by_cases hp : p = e.1 <;> simp [hp, Level.put]
    have hclean : Clean d' (fun p => if p = e.1 then f p + e.2.size else f p) l := by
      refine clean_congr l _ hoff (fun p r j hr => ?_) h.2
      by_cases hp : p = e.1
      · subst hp
        simp only [if_true] at hr
        simp only [hd', if_true]
        exact if_neg (fun h => by have := h.1; have := h.2.1; simp only at *; omega)
      · simp only [hd', if_neg hp]
    have hrec := ih _ _ hclean p
    obtain ⟨_, _, h3⟩ := runAsg_frame o v l (fun p => if p = e.1 then f p + e.2.size else f p) d' p
    rw [hoff] at hrec h3
    by_cases hp : p = e.1
    · subst hp
      simp only [if_true] at hrec h3
      simp only [tot, viols, if_true]
      rw [sum_range_add]
      congr 1
      · refine sum_congr rfl fun i hi => ?_
        have hi := mem_range.mp hi
        obtain ⟨a1, a2, a3⟩ := h3 ((d e.1).off + f e.1 + i) (by left; omega)
        unfold rviol
        rw [a2, a3, ← rowViol_eq]
        have hl : (d' e.1).l ((d e.1).off + f e.1 + i) = lower o e.2.ty (v e.2.id) i := by
          simp only [hd', if_true]
          refine (if_pos ⟨by simp, by simp only; omega⟩).trans ?_
          simp only; congr 1; omega
        have hu : (d' e.1).u ((d e.1).off + f e.1 + i) = upper o e.2.ty (v e.2.id) i := by
          simp only [hd', if_true]
          refine (if_pos ⟨by simp, by simp only; omega⟩).trans ?_
          simp only; congr 1; omega
        rw [hl, hu]
        congr 2
        refine dot_congr fun j _ => ?_
        rw [a1]
        simp only [hd', if_true]
        cases hc : e.2.cols j with
        | true =>
          refine (if_pos ⟨by simp, by simp only; omega, hc⟩).trans ?_
          simp only [if_true]; congr 1; omega
        | false =>
          refine (if_neg (fun h => by have h2 := h.2.2; simp only at h2; rw [hc] at h2; cases h2)).trans ?_
          simp only [Bool.false_eq_true, if_false]
          exact h.1 i hi j hc
      · rw [← hrec]
        refine sum_congr rfl fun i _ => ?_
        rw [show (d e.1).off + f e.1 + (e.2.size + i) = (d e.1).off + (f e.1 + e.2.size) + i by omega]
    · have hp' : ¬ e.1 = p := fun h => hp h.symm
      simp only [if_neg hp] at hrec
      simp only [tot, viols, if_neg hp', zero_add]
      exact hrec

/-- The constraints of the specification are those of the rows. -/
theorem viols_eq (pb : Pb) (B : K) (v : Nat → Val K) (x : Nat → K) (p : Nat) : viols pb.n B v x (allRows pb) p = levelViol pb B v p x := by
  have happ : ∀ L M : List (Nat × Cstr), viols pb.n B v x (L ++ M) p = viols pb.n B v x L p + viols pb.n B v x M p := by
    intro L M
    induction L with
    | nil => simp [viols]
    | cons e l ih => simp only [List.cons_append, viols, ih]; ring
  unfold allRows levelViol
  rw [happ]
  congr 1
  · unfold rowsOf
    induction pb.cstrs with
    | nil => simp [viols]
    | cons c l ih =>
      cases hc : IsOrd c with
      | false => simpa [hc] using ih
      | true =>
        simp only [List.filter_cons, hc, if_true, List.map_cons, viols, Bool.true_and]
        by_cases hp : c.prio = p
        · simp only [hp, if_true, decide_true, List.map_cons, List.sum_cons]
          rw [ih]
        · simp only [hp, if_false, decide_false, zero_add, Bool.false_eq_true]
          exact ih
  · induction pb.extra with
    | nil => simp [viols]
    | cons c l ih =>
      simp only [List.map_cons, viols, ih]
      by_cases hp : p = 0
      · subst hp; simp
      · have : ¬ 0 = p := fun h => hp h.symm
        simp [hp, this]

/-! ## Assignments of the bounds -/

theorem runLo_eq (v : Nat → Val K) (l : List Cstr) (k : Nat) : ∀ x : Nat → K,
    runLo v (l.map toB) x k = ((l.filter (fun c => decide (c.start ≤ k) && decide (k < c.start + c.size) && decide (c.ty ≠ .lower))).map (fun c => (v c.id).lo (k - c.start))).foldl max (x k) := by
  induction l with
  | nil => intro x; rfl
  | cons c l ih =>
    intro x
    show runLo v (l.map toB) (putLo (v c.id) (toB c) x) k = _
    rw [ih]
    have hput : putLo (v c.id) (toB c) x k = if c.start ≤ k ∧ k < c.start + c.size ∧ c.ty ≠ .lower then max (x k) ((v c.id).lo (k - c.start)) else x k := rfl
    rw [hput]
    by_cases h : c.start ≤ k ∧ k < c.start + c.size ∧ c.ty ≠ .lower
    · rw [if_pos h]; simp [h.1, h.2.1, h.2.2]
    · rw [if_neg h]
      have : (decide (c.start ≤ k) && decide (k < c.start + c.size) && decide (c.ty ≠ .lower)) = false := by
        rw [Bool.eq_false_iff]; intro hh; simp only [Bool.and_eq_true, decide_eq_true_eq] at hh; exact h ⟨hh.1.1, hh.1.2, hh.2⟩
      rw [List.filter_cons, if_neg (by rw [this]; simp)]

theorem runUp_eq (v : Nat → Val K) (l : List Cstr) (k : Nat) : ∀ x : Nat → K,
    runUp v (l.map toB) x k = ((l.filter (fun c => decide (c.start ≤ k) && decide (k < c.start + c.size) && decide (c.ty ≠ .greater))).map
      (fun c => if c.ty = .equal then (v c.id).lo (k - c.start) else (v c.id).up (k - c.start))).foldl min (x k) := by
  induction l with
  | nil => intro x; rfl
  | cons c l ih =>
    intro x
    show runUp v (l.map toB) (putUp (v c.id) (toB c) x) k = _
    rw [ih]
    have hput : putUp (v c.id) (toB c) x k = if c.start ≤ k ∧ k < c.start + c.size ∧ c.ty ≠ .greater then
        min (x k) (if c.ty = .equal then (v c.id).lo (k - c.start) else (v c.id).up (k - c.start)) else x k := rfl
    rw [hput]
    by_cases h : c.start ≤ k ∧ k < c.start + c.size ∧ c.ty ≠ .greater
    · rw [if_pos h]; simp [h.1, h.2.1, h.2.2]
    · rw [if_neg h]
      have : (decide (c.start ≤ k) && decide (k < c.start + c.size) && decide (c.ty ≠ .greater)) = false := by
        rw [Bool.eq_false_iff]; intro hh; simp only [Bool.and_eq_true, decide_eq_true_eq] at hh; exact h ⟨hh.1.1, hh.1.2, hh.2⟩
      rw [List.filter_cons, if_neg (by rw [this]; simp)]

theorem foldl_max_le (l : List K) (v x : K) : l.foldl max v ≤ x ↔ v ≤ x ∧ ∀ u ∈ l, u ≤ x := by
  induction l generalizing v with
  | nil => simp
  | cons a l ih => simp only [List.foldl_cons, ih, max_le_iff, List.forall_mem_cons, and_assoc]

theorem le_foldl_min (l : List K) (v x : K) : x ≤ l.foldl min v ↔ x ≤ v ∧ ∀ u ∈ l, x ≤ u := by
  induction l generalizing v with
  | nil => simp
  | cons a l ih => simp only [List.foldl_cons, ih, le_min_iff, List.forall_mem_cons, and_assoc]

theorem gap_le {l u t : K} (h : l ≤ u) (c : K) : gap l u t ≤ c ↔ 0 ≤ c ∧ l - t ≤ c ∧ t - u ≤ c := by
  unfold gap
  by_cases h1 : t < l
  · rw [if_pos h1]; constructor
    · intro hc; exact ⟨by linarith, hc, by linarith⟩
    · intro hc; exact hc.2.1
  · have h1 := not_lt.mp h1
    rw [if_neg (not_lt.mpr h1)]
    by_cases h2 : u < t
    · rw [if_pos h2]; constructor
      · intro hc; exact ⟨by linarith, by linarith, hc⟩
      · intro hc; exact hc.2.2
    · have h2 := not_lt.mp h2
      rw [if_neg (not_lt.mpr h2)]; constructor
      · intro hc; exact ⟨hc, by linarith, by linarith⟩
      · intro hc; exact hc.1

/-- The distance to the intersection of the bounds is the largest of the violations. -/
theorem worst_eq {pb : Pb} {B : K} {v : Nat → Val K} (hc : Consistent pb B v) {k : Nat} (hk : k < pb.n) (t : K) :
    gap ((lows pb v k).foldl max (-B)) ((ups pb v k).foldl min B) t = worst pb B v k t := by
  obtain ⟨z, hz1, hz2⟩ := hc k hk
  have hlu : (lows pb v k).foldl max (-B) ≤ (ups pb v k).foldl min B :=
    le_trans ((foldl_max_le _ _ _).mpr hz1) ((le_foldl_min _ _ _).mpr hz2)
  refine eq_of_forall_ge_iff fun c => ?_
  rw [gap_le hlu]
  unfold worst
  rw [foldl_max_le, sub_le_iff_le_add, foldl_max_le, sub_le_comm, le_foldl_min]
  simp only [List.mem_append, List.mem_map, List.mem_cons]
  constructor
  · rintro ⟨h0, ⟨h1, h2⟩, h3, h4⟩
    refine ⟨h0, ?_⟩
    rintro u (⟨a, rfl | ha, rfl⟩ | ⟨a, rfl | ha, rfl⟩)
    · linarith
    · linarith [h2 a ha]
    · linarith
    · linarith [h4 a ha]
  · rintro ⟨h0, h⟩
    refine ⟨h0, ⟨?_, fun u hu => ?_⟩, ?_, fun u hu => ?_⟩
    · linarith [h (-B - t) (Or.inl ⟨-B, Or.inl rfl, rfl⟩)]
    · linarith [h (u - t) (Or.inl ⟨u, Or.inr hu, rfl⟩)]
    · linarith [h (t - B) (Or.inr ⟨B, Or.inl rfl, rfl⟩)]
    · linarith [h (t - u) (Or.inr ⟨u, Or.inr hu, rfl⟩)]

/-! ## Histories -/

/-- What holds of the solver between two calls -/
structure Inv (o : Opts K) (pb : Pb) (s : Solver K) : Prop where
  built : Built o pb s
  off : ∀ p, (s.data p).off = offset o pb.n (HasBnd pb) p
  rows : ∀ p, (s.data p).rows = (builtLevel o pb p).rows
  clean : Clean s.data (fun _ => 0) (allRows pb)
  top : ∀ p r j, r < (s.data p).off → (s.data p).M r j = if r = j then 1 else 0
  last : o.damping = true → ∀ r, (s.data (priorities pb)).off ≤ r →
    (∀ j, (s.data (priorities pb)).M r j = if r = (s.data (priorities pb)).off + j then 1 else 0) ∧ (s.data (priorities pb)).l r = 0 ∧ (s.data (priorities pb)).u r = 0

theorem builtLevel_off (o : Opts K) (pb : Pb) (p : Nat) : (builtLevel o pb p).off = offset o pb.n (HasBnd pb) p := by
  unfold builtLevel; split <;> rfl

theorem clean_zero {d : Nat → Level K} (L : List (Nat × Cstr)) : ∀ f : Nat → Nat, (∀ e ∈ L, ∀ r j, (d e.1).off ≤ r → (d e.1).M r j = 0) → Clean d f L := by
  induction L with
  | nil => intro _ _; trivial
  | cons e l ih => exact fun f h => ⟨fun i _ j _ => h e (List.mem_cons_self ..) _ _ (by omega), ih _ fun e he => h e (List.mem_cons_of_mem _ he)⟩

theorem inv_build {o : Opts K} {pb : Pb} (hw : WF pb) {s : Solver K} (h : processProblem o pb = .ok () s) : Inv o pb s := by
  have ha : ∀ c ∈ pb.cstrs, c.used = false → accepted c = true := by
    intro c hc hu
    by_contra hcon
    have hn : scanAll pb.cstrs ⟨[], [], [], []⟩ = none := scanAll_none.mpr ⟨c, hc, hu, by simpa using hcon⟩
    unfold processProblem at h
    rw [hn] at h
    cases h
  obtain ⟨s', h1, h2, h3⟩ := build_spec o hw ha
  rw [h1] at h
  injection h with _ h
  subst h
  refine ⟨h2, fun p => by rw [h3, builtLevel_off], fun p => by rw [h3], clean_zero _ _ fun e he r j hr => ?_, fun p r j hr => ?_, fun hd r hr => ?_⟩
  · have hlt := lvl_lt pb e he
    rw [h3] at hr ⊢
    unfold builtLevel at hr ⊢
    rw [if_neg (fun h => by have := h.2; omega)] at hr ⊢
    exact if_neg (fun h => by have h1 := h.1; simp only [freshLevel] at hr; omega)
  · rw [h3] at hr ⊢
    rw [builtLevel_off] at hr
    unfold builtLevel
    by_cases hc : o.damping = true ∧ p = priorities pb
    · rw [if_pos hc]
      show (if offset o pb.n (HasBnd pb) p ≤ r then _ else if r < offset o pb.n (HasBnd pb) p ∧ r = j then (1 : K) else 0) = _
      rw [if_neg (by omega)]
      by_cases hj : r = j
      · rw [if_pos ⟨hr, hj⟩, if_pos hj]
      · rw [if_neg (fun h => hj h.2), if_neg hj]
    · rw [if_neg hc]
      show (if r < offset o pb.n (HasBnd pb) p ∧ r = j then (1 : K) else 0) = _
      by_cases hj : r = j
      · rw [if_pos ⟨hr, hj⟩, if_pos hj]
      · rw [if_neg (fun h => hj h.2), if_neg hj]
  · rw [h3] at hr ⊢
    unfold builtLevel at hr ⊢
    rw [if_pos ⟨hd, rfl⟩] at hr ⊢
    exact ⟨fun j => if_pos hr, if_pos hr, if_pos hr⟩

/-- The levels once the assignments of the rows are run -/
def ran (o : Opts K) (v : Nat → Val K) (s : Solver K) : Nat → Level K := runAsg o v s.asg (s.resetBounds o).data

theorem ran_frame {o : Opts K} {pb : Pb} {s : Solver K} (h : Inv o pb s) (v : Nat → Val K) (p : Nat) :
    (ran o v s p).off = (s.data p).off ∧ (ran o v s p).rows = (s.data p).rows ∧
      ∀ r, (r < (s.data p).off ∨ (s.data p).off + tot (allRows pb) p ≤ r) →
        (∀ j, (ran o v s p).M r j = (s.data p).M r j) ∧ (ran o v s p).l r = (if r < (s.data p).off then -o.big else (s.data p).l r) ∧
          (ran o v s p).u r = (if r < (s.data p).off then o.big else (s.data p).u r) := by
  have hf := runAsg_frame o v (allRows pb) (fun _ => 0) (s.resetBounds o).data p
  rw [← h.built.asg] at hf
  obtain ⟨h1, h2, h3⟩ := hf
  refine ⟨h1, h2, fun r hr => ?_⟩
  obtain ⟨a1, a2, a3⟩ := h3 r (by simpa [Solver.resetBounds] using hr)
  refine ⟨a1, a2.trans ?_, a3.trans ?_⟩
  · show (if r < offset o s.n s.bounds p then _ else _) = _
    rw [h.off, h.built.n, h.built.bounds]
  · show (if r < offset o s.n s.bounds p then _ else _) = _
    rw [h.off, h.built.n, h.built.bounds]

theorem prepare_M (o : Opts K) (v : Nat → Val K) (s : Solver K) (p : Nat) : ((s.prepare o v).data p).M = (ran o v s p).M := rfl
theorem prepare_off (o : Opts K) (v : Nat → Val K) (s : Solver K) (p : Nat) : ((s.prepare o v).data p).off = (ran o v s p).off := rfl
theorem prepare_rows (o : Opts K) (v : Nat → Val K) (s : Solver K) (p : Nat) : ((s.prepare o v).data p).rows = (ran o v s p).rows := rfl

theorem lows_eq (pb : Pb) (v : Nat → Val K) (k : Nat) :
    (((pb.cstrs.filter IsBnd).filter (fun c => decide (c.start ≤ k) && decide (k < c.start + c.size) && decide (c.ty ≠ .lower))).map (fun c => (v c.id).lo (k - c.start))) = lows pb v k := by
  rw [List.filter_filter]
  unfold lows
  congr 2
  funext c
  rw [Bool.and_comm]

theorem ups_eq (pb : Pb) (v : Nat → Val K) (k : Nat) :
    (((pb.cstrs.filter IsBnd).filter (fun c => decide (c.start ≤ k) && decide (k < c.start + c.size) && decide (c.ty ≠ .greater))).map
      (fun c => if c.ty = .equal then (v c.id).lo (k - c.start) else (v c.id).up (k - c.start))) = ups pb v k := by
  rw [List.filter_filter]
  unfold ups
  congr 2
  funext c
  rw [Bool.and_comm]

theorem lows_out {pb : Pb} (hw : WF pb) (v : Nat → Val K) {k : Nat} (hk : pb.n ≤ k) : lows pb v k = [] := by
  unfold lows
  rw [List.map_eq_nil_iff, List.filter_eq_nil_iff]
  intro c hc h
  simp only [Bool.and_eq_true, decide_eq_true_eq] at h
  have := hw.2 c hc h.1
  omega

theorem ups_out {pb : Pb} (hw : WF pb) (v : Nat → Val K) {k : Nat} (hk : pb.n ≤ k) : ups pb v k = [] := by
  unfold ups
  rw [List.map_eq_nil_iff, List.filter_eq_nil_iff]
  intro c hc h
  simp only [Bool.and_eq_true, decide_eq_true_eq] at h
  have := hw.2 c hc h.1
  omega

theorem lows_none {pb : Pb} (hb : HasBnd pb = false) (v : Nat → Val K) (k : Nat) : lows pb v k = [] := by
  unfold lows
  rw [List.map_eq_nil_iff, List.filter_eq_nil_iff]
  intro c hc h
  simp only [Bool.and_eq_true] at h
  have : HasBnd pb = true := List.any_eq_true.mpr ⟨c, hc, h.1⟩
  rw [this] at hb; cases hb

theorem ups_none {pb : Pb} (hb : HasBnd pb = false) (v : Nat → Val K) (k : Nat) : ups pb v k = [] := by
  unfold ups
  rw [List.map_eq_nil_iff, List.filter_eq_nil_iff]
  intro c hc h
  simp only [Bool.and_eq_true] at h
  have : HasBnd pb = true := List.any_eq_true.mpr ⟨c, hc, h.1⟩
  rw [this] at hb; cases hb

/-- The two sides of the rows when LexLS is called -/
theorem prepare_sides {o : Opts K} {pb : Pb} (hw : WF pb) {s : Solver K} (h : Inv o pb s) (v : Nat → Val K) (p r : Nat) :
    ((s.prepare o v).data p).l r = (if r < (s.data p).off then (lows pb v r).foldl max (-o.big) else (ran o v s p).l r) ∧
      ((s.prepare o v).data p).u r = (if r < (s.data p).off then (ups pb v r).foldl min o.big else (ran o v s p).u r) := by
  have hl : ((s.prepare o v).data p).l = if p = 0 ∧ o.feasibleFirst = false then runLo v s.basg (ran o v s p).l else (ran o v s p).l := rfl
  have hu : ((s.prepare o v).data p).u = if p = 0 ∧ o.feasibleFirst = false then runUp v s.basg (ran o v s p).u else (ran o v s p).u := rfl
  obtain ⟨_, _, hf⟩ := ran_frame h v p
  rw [hl, hu]
  by_cases hp : p = 0 ∧ o.feasibleFirst = false
  · rw [if_pos hp, if_pos hp, h.built.basg, runLo_eq, runUp_eq, lows_eq, ups_eq]
    by_cases hr : r < (s.data p).off
    · obtain ⟨_, a2, a3⟩ := hf r (Or.inl hr)
      rw [a2, a3]; simp only [if_pos hr, and_self]
    · rw [if_neg hr, if_neg hr]
      cases hb : HasBnd pb with
      | false => rw [lows_none hb, ups_none hb]; exact ⟨rfl, rfl⟩
      | true =>
        have : (s.data p).off = pb.n := by rw [h.off]; exact if_pos ⟨hp.1, hb, hp.2⟩
        rw [lows_out hw v (by omega), ups_out hw v (by omega)]; exact ⟨rfl, rfl⟩
  · rw [if_neg hp, if_neg hp]
    have h0 : (s.data p).off = 0 := by rw [h.off]; exact if_neg fun hh => hp ⟨hh.1, hh.2.2⟩
    rw [h0]; simp

theorem tot_last (pb : Pb) : tot (allRows pb) (priorities pb) = 0 := tot_zero fun c hc => by have := lvl_lt pb c hc; omega

theorem inv_prepare {o : Opts K} {pb : Pb} (hw : WF pb) {s : Solver K} (h : Inv o pb s) (v : Nat → Val K) : Inv o pb (s.prepare o v) := by
  have hran : ∀ p, (ran o v s p).off = (s.data p).off := fun p => (ran_frame h v p).1
  refine ⟨⟨h.built.n, h.built.bounds, h.built.levels, h.built.asg, h.built.basg⟩, fun p => ?_, fun p => ?_, ?_, fun p r j hr => ?_, fun hd r hr => ?_⟩
  · rw [prepare_off, hran, h.off]
  · rw [prepare_rows, (ran_frame h v p).2.1, h.rows]
  · have h1 : Clean (s.resetBounds o).data (fun _ => 0) (allRows pb) := clean_congr (d := s.data) _ _ (fun _ => rfl) (fun _ _ _ _ => rfl) h.clean
    have h2 := runAsg_clean o v (allRows pb) _ _ h1
    rw [← h.built.asg] at h2
    exact clean_congr _ _ (fun p => prepare_off o v s p) (fun p r j _ => by rw [prepare_M]) h2
  · rw [prepare_off, hran] at hr
    rw [prepare_M, ((ran_frame h v p).2.2 r (Or.inl hr)).1]
    exact h.top p r j hr
  · rw [prepare_off, hran] at hr
    obtain ⟨a1, a2, a3⟩ := (ran_frame h v (priorities pb)).2.2 r (Or.inr (by rw [tot_last]; omega))
    obtain ⟨b1, b2⟩ := prepare_sides hw h v (priorities pb) r
    rw [b1, b2, prepare_M, prepare_off, hran]
    obtain ⟨c1, c2, c3⟩ := h.last hd r hr
    have hn : ¬ r < (s.data (priorities pb)).off := by omega
    rw [if_neg hn, if_neg hn, a2, a3, if_neg hn, if_neg hn]
    exact ⟨fun j => by rw [a1]; exact c1 j, c2, c3⟩

theorem hist_inv {o : Opts K} {pb : Pb} (hw : WF pb) {s : Solver K} (h : Hist o pb s) : Inv o pb s := by
  induction h with
  | build h => exact inv_build hw h
  | @solve s s' objs _ v hs ih =>
    unfold Solver.solve at hs
    by_cases hc : s.n ≠ 0 ∧ s.sized o = false
    · rw [if_pos hc] at hs; cases hs
    · rw [if_neg hc] at hs
      injection hs with _ hs
      rw [← (Prod.mk.inj hs).1]
      exact inv_prepare hw ih v

/-! ## The objectives -/

theorem dot_one {n i : Nat} (hi : i < n) (x : Nat → K) : dot n (fun j => if i = j then (1 : K) else 0) x = x i := by simp [dot, hi]

/-- Violation of the first rows of a level, which are the bounds -/
theorem top_viol {o : Opts K} {pb : Pb} (hw : WF pb) {s : Solver K} (h : Inv o pb s) {v : Nat → Val K} (hc : Consistent pb o.big v) (x : Nat → K) (p : Nat) :
    (∑ r ∈ range (s.data p).off, rviol pb.n x ((s.prepare o v).data p) r) = if p = 0 ∧ HasBnd pb = true ∧ o.feasibleFirst = false then boundViol pb o.big v x else 0 := by
  rw [h.off]
  unfold offset
  by_cases hp : p = 0 ∧ HasBnd pb = true ∧ o.feasibleFirst = false
  · rw [if_pos hp, if_pos hp]
    refine sum_congr rfl fun r hr => ?_
    have hr := mem_range.mp hr
    have hoff : (s.data p).off = pb.n := by rw [h.off]; exact if_pos hp
    obtain ⟨b1, b2⟩ := prepare_sides hw h v p r
    unfold rviol
    rw [b1, b2, if_pos (by omega), if_pos (by omega), ← worst_eq hc hr]
    congr 2
    rw [← dot_one hr x]
    refine dot_congr fun j _ => ?_
    rw [prepare_M, ((ran_frame h v p).2.2 r (Or.inl (by omega))).1, h.top p r j (by omega)]
  · rw [if_neg hp, if_neg hp]; simp

/-- Violation of a level -/
theorem level_viol {o : Opts K} {pb : Pb} (hw : WF pb) {s : Solver K} (h : Inv o pb s) {v : Nat → Val K} (hc : Consistent pb o.big v) (x : Nat → K) {p : Nat} (hp : p < priorities pb) :
    objViol pb.n (.general ((s.prepare o v).data p)) x =
      levelViol pb o.big v p x + if p = 0 ∧ HasBnd pb = true ∧ o.feasibleFirst = false then boundViol pb o.big v x else 0 := by
  have hrows : ((s.prepare o v).data p).rows = (s.data p).off + tot (allRows pb) p := by
    rw [prepare_rows, (ran_frame h v p).2.1, h.rows, h.off]
    unfold builtLevel
    rw [if_neg (fun hh => by have := hh.2; omega)]; rfl
  show (∑ r ∈ range ((s.prepare o v).data p).rows, rviol pb.n x ((s.prepare o v).data p) r) = _
  rw [hrows, sum_range_add, top_viol hw h hc, add_comm]
  congr 1
  have hcl : Clean (s.resetBounds o).data (fun _ => 0) (allRows pb) := clean_congr (d := s.data) _ _ (fun _ => rfl) (fun _ _ _ _ => rfl) h.clean
  have hv := runAsg_viols o pb.n x v (allRows pb) (fun _ => 0) _ hcl p
  rw [← h.built.asg, viols_eq] at hv
  rw [← hv]
  refine sum_congr rfl fun i hi => ?_
  obtain ⟨b1, b2⟩ := prepare_sides hw h v p ((s.data p).off + i)
  unfold rviol
  rw [b1, b2, if_neg (by omega), if_neg (by omega), prepare_M]
  rfl

/-- Violation of the level of the damping -/
theorem last_viol {o : Opts K} {pb : Pb} (hw : WF pb) {s : Solver K} (h : Inv o pb s) {v : Nat → Val K} (hc : Consistent pb o.big v) (hd : o.damping = true) (x : Nat → K) :
    objViol pb.n (.general ((s.prepare o v).data (priorities pb))) x =
      dot pb.n x x + if priorities pb = 0 ∧ HasBnd pb = true ∧ o.feasibleFirst = false then boundViol pb o.big v x else 0 := by
  have hrows : ((s.prepare o v).data (priorities pb)).rows = (s.data (priorities pb)).off + pb.n := by
    rw [prepare_rows, (ran_frame h v _).2.1, h.rows, h.off]
    unfold builtLevel
    rw [if_pos ⟨hd, rfl⟩]; rfl
  show (∑ r ∈ range ((s.prepare o v).data (priorities pb)).rows, rviol pb.n x ((s.prepare o v).data (priorities pb)) r) = _
  rw [hrows, sum_range_add, top_viol hw h hc, add_comm]
  congr 1
  unfold dot
  refine sum_congr rfl fun i hi => ?_
  have hi := mem_range.mp hi
  have hI := inv_prepare hw h v
  have hoff : ((s.prepare o v).data (priorities pb)).off = (s.data (priorities pb)).off := by rw [prepare_off]; exact (ran_frame h v _).1
  obtain ⟨c1, c2, c3⟩ := hI.last hd ((s.data (priorities pb)).off + i) (by omega)
  unfold rviol
  rw [c2, c3, gap_self]
  have : dot pb.n (((s.prepare o v).data (priorities pb)).M ((s.data (priorities pb)).off + i)) x = x i := by
    rw [← dot_one hi x]
    refine dot_congr fun j _ => ?_
    rw [c1, hoff]
    by_cases hij : i = j
    · subst hij; simp
    · rw [if_neg (by omega), if_neg hij]
  rw [this]; ring

theorem simple_viol {o : Opts K} {pb : Pb} {s : Solver K} (h : Inv o pb s) {v : Nat → Val K} (hc : Consistent pb o.big v) (hf : o.feasibleFirst = true) (x : Nat → K) :
    objViol pb.n (.simple (s.prepare o v).xl (s.prepare o v).xu) x = boundViol pb o.big v x := by
  have hl : (s.prepare o v).xl = runLo v s.basg (fun _ => -o.big) := by simp [Solver.prepare, Solver.runBounds, Solver.resetBounds, hf]
  have hu : (s.prepare o v).xu = runUp v s.basg (fun _ => o.big) := by simp [Solver.prepare, Solver.runBounds, Solver.resetBounds, hf]
  refine sum_congr rfl fun k hk => ?_
  rw [← worst_eq hc (mem_range.mp hk), hl, hu, h.built.basg, runLo_eq, runUp_eq, lows_eq, ups_eq]

/-- The condition under which the bounds are not lost: they have a level of their own, or there are none, or there is a level to put them in. -/
def Placed (o : Opts K) (pb : Pb) : Prop := o.feasibleFirst = true ∨ HasBnd pb = false ∨ 0 < priorities pb

/-- **C68** After any number of resolutions, the solutions of the problem handed to LexLS are those of the lexicographic problem of the priorities. What is missing: without the option `feasibleFirstLevel`, problems that have bounds of priority 0 and no other
constraint (see `C68_only_bounds` and `C68_damped_bounds`). -/
theorem C68_partial {o : Opts K} {pb : Pb} (hw : WF pb) (hp : Placed o pb) {s s' : Solver K} (h : Hist o pb s) {v : Nat → Val K} (hc : Consistent pb o.big v) {objs : List (Obj K)}
    (hs : s.solve o v = .ok () (s', objs)) (x : Nat → K) : LexSolution pb.n objs x ↔ LexMin (goals o pb v) x := by
  have hi := hist_inv hw h
  have hobjs : objs = (s.prepare o v).objectives o := by
    unfold Solver.solve at hs
    by_cases hcd : s.n ≠ 0 ∧ s.sized o = false
    · rw [if_pos hcd] at hs; cases hs
    · rw [if_neg hcd] at hs
      injection hs with _ hs
      exact (Prod.mk.inj hs).2.symm
  have hmax : max (priorities pb) (if (HasBnd pb && !o.feasibleFirst) = true then 1 else 0) = priorities pb := by
    by_cases hcd : (HasBnd pb && !o.feasibleFirst) = true
    · rw [if_pos hcd]
      simp only [Bool.and_eq_true, Bool.not_eq_true'] at hcd
      rcases hp with hp | hp | hp
      · rw [hp] at hcd; exact absurd hcd.2 (by simp)
      · rw [hp] at hcd; exact absurd hcd.1 (by simp)
      · omega
    · rw [if_neg hcd]; omega
  have hoff : ¬ (priorities pb = 0 ∧ HasBnd pb = true ∧ o.feasibleFirst = false) := by
    rintro ⟨h1, h2, h3⟩
    rcases hp with hp | hp | hp
    · rw [hp] at h3; cases h3
    · rw [hp] at h2; cases h2
    · omega
  have hlist : objs.map (objViol pb.n) = goals o pb v := by
    rw [hobjs]
    unfold Solver.objectives goals
    have hlen : (s.prepare o v).nEq.length = priorities pb + if o.damping then 1 else 0 := hi.built.levels
    have hb : (s.prepare o v).bounds = HasBnd pb := hi.built.bounds
    rw [hlen, hb, hmax, List.map_append, List.append_assoc]
    congr 1
    · by_cases hcd : (HasBnd pb && o.feasibleFirst) = true
      · rw [if_pos hcd, if_pos hcd]
        simp only [List.map_cons, List.map_nil]
        congr 1
        funext x
        simp only [Bool.and_eq_true] at hcd
        exact simple_viol hi hc hcd.2 x
      · rw [if_neg hcd, if_neg hcd]; rfl
    · have hrange : (List.range (priorities pb)).map (fun i => objViol pb.n (.general ((s.prepare o v).data i))) =
          (List.range (priorities pb)).map (fun p x => levelViol pb o.big v p x + if p = 0 ∧ HasBnd pb = true ∧ o.feasibleFirst = false then boundViol pb o.big v x else 0) := by
        refine List.map_congr_left fun p hp => ?_
        funext x
        exact level_viol hw hi hc x (List.mem_range.mp hp)
      rw [List.map_map]
      by_cases hd : o.damping = true
      · rw [if_pos hd, if_pos hd, List.range_succ, List.map_append]
        congr 1
        simp only [List.map_cons, List.map_nil, Function.comp]
        congr 1
        funext x
        rw [last_viol hw hi hc hd, if_neg hoff, add_zero]
      · rw [if_neg hd, if_neg hd, List.append_nil]
        exact hrange
  unfold LexSolution
  rw [hlist]

/-! ## The construction and the resolutions return -/

theorem accepted_iff (c : Cstr) : accepted c = true ↔ c.vet = .l2 := by
  have hf : abilities.find (c.prio : Int) = none := by
    show List.lookup (c.prio : Int) [((-1 : Int), _)] = none
    have : ((c.prio : Int) == -1) = false := by
      rw [beq_eq_false_iff_ne]; omega
    rw [List.lookup_cons, this]; rfl
  unfold accepted SA.SchemeAbilities.check
  rw [if_neg (by rintro ⟨h, _⟩; exact absurd h (by decide)), hf]
  show ((⟨true, [.l2]⟩ : SA.LevelAbilities).check c.isEq c.vet == .ok) = true ↔ _
  cases c.vet <;> cases c.isEq <;> decide

/-- **C68** The construction of the solver never violates an assertion, and it throws exactly when the violation of a constraint that is not used by a substitution is not to be evaluated with the norm `L2`. -/
theorem C68_build (o : Opts K) {pb : Pb} (hw : WF pb) :
    processProblem o pb ≠ .ub ∧ (processProblem o pb = .throw () ↔ ∃ c ∈ pb.cstrs, c.used = false ∧ c.vet ≠ .l2) := by
  by_cases h : ∃ c ∈ pb.cstrs, c.used = false ∧ c.vet ≠ .l2
  · have ht : processProblem o pb = .throw () := by
      unfold processProblem
      rw [scanAll_none.mpr]
      obtain ⟨c, hc, hu, hv⟩ := h
      exact ⟨c, hc, hu, by rw [Bool.eq_false_iff]; exact fun hh => hv ((accepted_iff c).mp hh)⟩
    exact ⟨by rw [ht]; simp, fun _ => h, fun _ => ht⟩
  · obtain ⟨s, hs, _⟩ := build_spec o hw fun c hc hu => by
      rw [accepted_iff]; by_contra hv; exact h ⟨c, hc, hu, hv⟩
    rw [hs]
    exact ⟨by simp, ⟨fun hh => by simp at hh, fun hh => absurd hh h⟩⟩

theorem tot_ge {L : List (Nat × Cstr)} {e : Nat × Cstr} (h : e ∈ L) : e.2.size ≤ tot L e.1 := by
  induction L with
  | nil => cases h
  | cons a l ih =>
    unfold tot
    rcases List.mem_cons.mp h with rfl | h
    · rw [if_pos rfl]; omega
    · have := ih h; omega

theorem tot_ne {L : List (Nat × Cstr)} {p : Nat} (h : tot L p ≠ 0) : ∃ e ∈ L, e.2.size ≠ 0 := by
  induction L with
  | nil => exact absurd rfl h
  | cons a l ih =>
    by_cases h1 : a.2.size = 0
    · obtain ⟨e, he, hs⟩ := ih (fun h2 => h (by unfold tot; rw [h1, h2]; simp))
      exact ⟨e, List.mem_cons_of_mem _ he, hs⟩
    · exact ⟨a, List.mem_cons_self .., h1⟩

theorem mem_allRows {pb : Pb} : (∃ e ∈ allRows pb, e.2.size ≠ 0) ↔ ∃ c, (c ∈ pb.cstrs ∧ IsOrd c = true ∨ c ∈ pb.extra) ∧ c.size ≠ 0 := by
  unfold allRows rowsOf
  simp only [List.mem_append, List.mem_map, List.mem_filter]
  constructor
  · rintro ⟨e, ⟨c, hc, rfl⟩ | ⟨c, hc, rfl⟩, hs⟩
    · exact ⟨c, Or.inl hc, hs⟩
    · exact ⟨c, Or.inr hc, hs⟩
  · rintro ⟨c, hc | hc, hs⟩
    · exact ⟨(c.prio, c), Or.inl ⟨c, hc, rfl⟩, hs⟩
    · exact ⟨(0, c), Or.inr ⟨c, hc, rfl⟩, hs⟩

/-- **C68** When the resolutions return: there is no unknown, or the damping, or bounds with a level to put them in, or a constraint of positive size. -/
theorem C68_returns {o : Opts K} {pb : Pb} (hw : WF pb) {s : Solver K} (h : Hist o pb s) (v : Nat → Val K) :
    (∃ r, s.solve o v = .ok () r) ↔
      pb.n = 0 ∨ o.damping = true ∨ (HasBnd pb = true ∧ Placed o pb) ∨ ∃ c, (c ∈ pb.cstrs ∧ IsOrd c = true ∨ c ∈ pb.extra) ∧ c.size ≠ 0 := by
  have hi := hist_inv hw h
  have hrows : ∀ i, (s.data i).rows = offset o pb.n (HasBnd pb) i + if o.damping = true ∧ i = priorities pb then pb.n else tot (allRows pb) i := by
    intro i
    rw [hi.rows]
    unfold builtLevel
    split <;> rfl
  have hret : (∃ r, s.solve o v = .ok () r) ↔ pb.n = 0 ∨ s.sized o = true := by
    unfold Solver.solve
    rw [hi.built.n]
    by_cases hc : pb.n ≠ 0 ∧ s.sized o = false
    · rw [if_pos hc]
      constructor
      · rintro ⟨r, hr⟩; cases hr
      · rintro (hh | hh)
        · exact absurd hh hc.1
        · rw [hc.2] at hh; cases hh
    · rw [if_neg hc]
      constructor
      · intro _
        by_contra hn
        rw [not_or] at hn
        exact hc ⟨hn.1, by simpa using hn.2⟩
      · exact fun _ => ⟨_, rfl⟩
  rw [hret]
  by_cases hn : pb.n = 0
  · simp [hn]
  · simp only [hn, false_or]
    rw [← mem_allRows]
    have hsz : s.sized o = true ↔ (HasBnd pb = true ∧ o.feasibleFirst = true) ∨ ∃ i < priorities pb + (if o.damping then 1 else 0), (s.data i).rows ≠ 0 := by
      unfold Solver.sized
      rw [hi.built.bounds, hi.built.levels]
      simp
    rw [hsz]
    constructor
    · rintro (⟨hb, hf⟩ | ⟨i, hil, hr⟩)
      · exact Or.inr (Or.inl ⟨hb, Or.inl hf⟩)
      · by_cases hd : o.damping = true
        · exact Or.inl hd
        · rw [if_neg hd] at hil
          rw [hrows, if_neg (fun hh => hd hh.1)] at hr
          unfold offset at hr
          by_cases hc : i = 0 ∧ HasBnd pb = true ∧ o.feasibleFirst = false
          · exact Or.inr (Or.inl ⟨hc.2.1, Or.inr (Or.inr (by omega))⟩)
          · rw [if_neg hc, Nat.zero_add] at hr
            exact Or.inr (Or.inr (tot_ne hr))
    · rintro (hd | ⟨hb, hp⟩ | ⟨e, he, hs⟩)
      · refine Or.inr ⟨priorities pb, by rw [if_pos hd]; omega, ?_⟩
        rw [hrows, if_pos ⟨hd, rfl⟩]; omega
      · by_cases hf : o.feasibleFirst = true
        · exact Or.inl ⟨hb, hf⟩
        · have hf' : o.feasibleFirst = false := by simpa using hf
          have hpos : 0 < priorities pb := by
            rcases hp with hp | hp | hp
            · exact absurd hp hf
            · rw [hp] at hb; cases hb
            · exact hp
          refine Or.inr ⟨0, by omega, ?_⟩
          rw [hrows]
          unfold offset
          rw [if_pos ⟨rfl, hb, hf'⟩]; omega
      · have hlt := lvl_lt pb e he
        refine Or.inr ⟨e.1, by omega, ?_⟩
        have := tot_ge he
        rw [hrows, if_neg (fun hh => by have := hh.2; omega)]; omega

/-- **C68** With the default options (neither `feasibleFirstLevel` nor `autoDamping`), a problem that has only bounds is not solved: the behaviour is undefined. -/
theorem C68_only_bounds {o : Opts K} {pb : Pb} (hw : WF pb) (hf : o.feasibleFirst = false) (hd : o.damping = false) (hb : HasBnd pb = true) (hp : priorities pb = 0) (hn : pb.n ≠ 0)
    {s : Solver K} (h : Hist o pb s) (v : Nat → Val K) : s.solve o v = .ub := by
  have hr := (C68_returns hw h v).not.mpr (by
    rintro (h1 | h1 | ⟨_, h1⟩ | h1)
    · exact hn h1
    · rw [hd] at h1; cases h1
    · rcases h1 with h1 | h1 | h1
      · rw [hf] at h1; cases h1
      · rw [hb] at h1; cases h1
      · omega
    · obtain ⟨e, he, _⟩ := mem_allRows.mpr h1
      have := lvl_lt pb e he
      omega)
  unfold Solver.solve at hr ⊢
  by_cases hc : s.n ≠ 0 ∧ s.sized o = false
  · rw [if_pos hc]
  · rw [if_neg hc] at hr; exact absurd ⟨_, rfl⟩ hr

/-! ## Bounds with the damping only -/

/-- With the damping, bounds without a level of their own and no other constraint: the bounds and the norm are minimised together. -/
theorem C68_damped {o : Opts K} {pb : Pb} (hw : WF pb) (hf : o.feasibleFirst = false) (hd : o.damping = true) (hb : HasBnd pb = true) (hp : priorities pb = 0)
    {s s' : Solver K} (h : Hist o pb s) {v : Nat → Val K} (hc : Consistent pb o.big v) {objs : List (Obj K)} (hs : s.solve o v = .ok () (s', objs)) (x : Nat → K) :
    LexSolution pb.n objs x ↔ ∀ y, dot pb.n x x + boundViol pb o.big v x ≤ dot pb.n y y + boundViol pb o.big v y := by
  have hi := hist_inv hw h
  have hobjs : objs = (s.prepare o v).objectives o := by
    unfold Solver.solve at hs
    by_cases hcd : s.n ≠ 0 ∧ s.sized o = false
    · rw [if_pos hcd] at hs; cases hs
    · rw [if_neg hcd] at hs
      injection hs with _ hs
      exact (Prod.mk.inj hs).2.symm
  have hlist : objs.map (objViol pb.n) = [fun x => dot pb.n x x + boundViol pb o.big v x] := by
    rw [hobjs]
    unfold Solver.objectives
    have hlen : (s.prepare o v).nEq.length = priorities pb + if o.damping then 1 else 0 := hi.built.levels
    rw [hlen, hf, hd, hp]
    have hl := fun x => last_viol hw hi hc hd x
    rw [hp] at hl
    simp only [Bool.and_false, Bool.false_eq_true, if_false, List.nil_append, if_true, Nat.zero_add, List.range_one, List.map_cons, List.map_nil]
    congr 1
    funext x
    rw [hl x, if_pos ⟨rfl, hb, hf⟩]
  unfold LexSolution LexMin
  rw [hlist]
  simp only [LexLE, and_true]
  exact forall_congr' fun y => le_iff_lt_or_eq.symm

theorem worst_zero {pb : Pb} {B : K} {v : Nat → Val K} {k : Nat} {t : K} (c : K) : worst pb B v k t ≤ c ↔
    0 ≤ c ∧ (∀ b ∈ (-B) :: lows pb v k, b - t ≤ c) ∧ ∀ b ∈ B :: ups pb v k, t - b ≤ c := by
  unfold worst
  rw [foldl_max_le]
  simp only [List.mem_append, List.mem_map]
  constructor
  · rintro ⟨h0, h⟩
    exact ⟨h0, fun b hb => h _ (Or.inl ⟨b, hb, rfl⟩), fun b hb => h _ (Or.inr ⟨b, hb, rfl⟩)⟩
  · rintro ⟨h0, h1, h2⟩
    refine ⟨h0, ?_⟩
    rintro u (⟨a, ha, rfl⟩ | ⟨a, ha, rfl⟩)
    · exact h1 a ha
    · exact h2 a ha

theorem worst_nonneg (pb : Pb) (B : K) (v : Nat → Val K) (k : Nat) (t : K) : 0 ≤ worst pb B v k t := ((worst_zero _).mp le_rfl).1

/-- **C68** In the same case, no solution satisfies the bounds, unless zero does: the norm of the unknowns, which is to be minimised last, makes the bounds violated. -/
theorem C68_damped_bounds {o : Opts K} {pb : Pb} (hw : WF pb) (hf : o.feasibleFirst = false) (hd : o.damping = true) (hb : HasBnd pb = true) (hp : priorities pb = 0)
    {s s' : Solver K} (h : Hist o pb s) {v : Nat → Val K} (hc : Consistent pb o.big v) {objs : List (Obj K)} (hs : s.solve o v = .ok () (s', objs)) {x : Nat → K}
    (hx : LexSolution pb.n objs x) (hv : boundViol pb o.big v x = 0) : ∀ k < pb.n, x k = 0 := by
  rw [C68_damped hw hf hd hb hp h hc hs] at hx
  have hx := hx (fun k => x k / 2)
  have hz : ∀ k ∈ range pb.n, worst pb o.big v k (x k) ^ 2 = 0 := (sum_eq_zero_iff_of_nonneg fun k _ => sq_nonneg _).mp hv
  have hd4 : dot pb.n (fun k => x k / 2) (fun k => x k / 2) = dot pb.n x x / 4 := by
    unfold dot
    rw [div_eq_mul_inv, sum_mul]
    exact sum_congr rfl fun k _ => by ring
  have hb4 : boundViol pb o.big v (fun k => x k / 2) ≤ dot pb.n x x / 4 := by
    unfold boundViol dot
    rw [div_eq_mul_inv, sum_mul]
    refine sum_le_sum fun k hk => ?_
    have hw0 : worst pb o.big v k (x k) ≤ 0 := le_of_eq (pow_eq_zero_iff (two_ne_zero)|>.mp (hz k hk))
    obtain ⟨_, h1, h2⟩ := (worst_zero _).mp hw0
    have hle : worst pb o.big v k (x k / 2) ≤ |x k| / 2 := by
      rw [worst_zero]
      have ha := abs_nonneg (x k)
      have hb1 := le_abs_self (x k)
      have hb2 := neg_abs_le (x k)
      exact ⟨by linarith, fun b hb => by linarith [h1 b hb], fun b hb => by linarith [h2 b hb]⟩
    have hsq := pow_le_pow_left₀ (worst_nonneg pb o.big v k (x k / 2)) hle 2
    rw [div_pow, sq_abs] at hsq
    calc _ ≤ _ := hsq
      _ = _ := by ring
  rw [hv, hd4, add_zero] at hx
  have hdot : dot pb.n x x = 0 := le_antisymm (by linarith) (sum_nonneg fun k _ => mul_self_nonneg _)
  exact fun k hk => mul_self_eq_zero.mp ((sum_eq_zero_iff_of_nonneg fun k _ => mul_self_nonneg _).mp hdot k (mem_range.mpr hk))

/-! ## The two places of the bounds -/

theorem cviol_nonneg (n : Nat) (B : K) (c : Cstr) (v : Val K) (x : Nat → K) : 0 ≤ cviol n B c v x :=
  sum_nonneg fun i _ => by unfold rowViol; cases c.ty <;> exact sq_nonneg _

theorem levelViol_nonneg (pb : Pb) (B : K) (v : Nat → Val K) (p : Nat) (x : Nat → K) : 0 ≤ levelViol pb B v p x := by
  refine add_nonneg (List.sum_nonneg fun y hy => ?_) ?_
  · obtain ⟨c, _, rfl⟩ := List.mem_map.mp hy; exact cviol_nonneg ..
  · by_cases h : p = 0
    · rw [if_pos h]; exact List.sum_nonneg fun y hy => by obtain ⟨c, _, rfl⟩ := List.mem_map.mp hy; exact cviol_nonneg ..
    · rw [if_neg h]

theorem lexMin_two {f g : (Nat → K) → K} {l : List ((Nat → K) → K)} (hf : ∀ x, 0 ≤ f x) (hg : ∀ x, 0 ≤ g x) {z : Nat → K} (hz : f z = 0 ∧ g z = 0) (x : Nat → K) :
    LexMin (f :: g :: l) x ↔ f x = 0 ∧ g x = 0 ∧ ∀ y, f y = 0 → g y = 0 → LexLE l x y := by
  unfold LexMin
  simp only [LexLE]
  constructor
  · intro h
    have h0 : f x = 0 := by
      rcases h z with hh | hh
      · rw [hz.1] at hh; exact absurd hh (not_lt.mpr (hf x))
      · rw [hh.1, hz.1]
    have h1 : g x = 0 := by
      rcases h z with hh | ⟨_, hh | hh⟩
      · rw [hz.1] at hh; exact absurd hh (not_lt.mpr (hf x))
      · rw [hz.2] at hh; exact absurd hh (not_lt.mpr (hg x))
      · rw [hh.1, hz.2]
    refine ⟨h0, h1, fun y hy0 hy1 => ?_⟩
    rcases h y with hh | ⟨_, hh | hh⟩
    · rw [h0, hy0] at hh; exact absurd hh (lt_irrefl _)
    · rw [h1, hy1] at hh; exact absurd hh (lt_irrefl _)
    · exact hh.2
  · rintro ⟨h0, h1, h2⟩ y
    rcases (hf y).lt_or_eq with hh | hh
    · exact Or.inl (by rw [h0]; exact hh)
    · refine Or.inr ⟨by rw [h0, hh], ?_⟩
      rcases (hg y).lt_or_eq with hk | hk
      · exact Or.inl (by rw [h1]; exact hk)
      · exact Or.inr ⟨by rw [h1, hk], h2 y hh.symm hk.symm⟩

theorem lexMin_sum {f g : (Nat → K) → K} {l : List ((Nat → K) → K)} (hf : ∀ x, 0 ≤ f x) (hg : ∀ x, 0 ≤ g x) {z : Nat → K} (hz : f z = 0 ∧ g z = 0) (x : Nat → K) :
    LexMin ((fun x => g x + f x) :: l) x ↔ f x = 0 ∧ g x = 0 ∧ ∀ y, f y = 0 → g y = 0 → LexLE l x y := by
  have key : ∀ y, g y + f y = 0 ↔ f y = 0 ∧ g y = 0 := fun y =>
    ⟨fun h => ⟨by linarith [hf y, hg y], by linarith [hf y, hg y]⟩, fun h => by rw [h.1, h.2, add_zero]⟩
  unfold LexMin
  simp only [LexLE]
  constructor
  · intro h
    have h0 : g x + f x = 0 := by
      rcases h z with hh | hh
      · rw [hz.1, hz.2] at hh; exact absurd hh (not_lt.mpr (by linarith [hf x, hg x]))
      · rw [hh.1, hz.1, hz.2, add_zero]
    refine ⟨((key x).mp h0).1, ((key x).mp h0).2, fun y hy0 hy1 => ?_⟩
    rcases h y with hh | hh
    · rw [h0, hy0, hy1] at hh; exact absurd hh (by simp)
    · exact hh.2
  · rintro ⟨h0, h1, h2⟩ y
    rcases (add_nonneg (hg y) (hf y)).lt_or_eq with hh | hh
    · exact Or.inl (by rw [h0, h1, add_zero]; exact hh)
    · obtain ⟨k0, k1⟩ := (key y).mp hh.symm
      exact Or.inr ⟨by rw [h0, h1, k0, k1], h2 y k0 k1⟩

/-- **C68** If some point satisfies the bounds and the constraints of priority 0, the option `feasibleFirstLevel` has no effect on the solutions. -/
theorem C68_feasible (B : K) (d : Bool) {pb : Pb} {v : Nat → Val K} (hp : 0 < priorities pb) {z : Nat → K} (hz : boundViol pb B v z = 0 ∧ levelViol pb B v 0 z = 0) (x : Nat → K) :
    LexMin (goals ⟨B, true, d⟩ pb v) x ↔ LexMin (goals ⟨B, false, d⟩ pb v) x := by
  have hbn : ∀ x, 0 ≤ boundViol pb B v x := fun x => sum_nonneg fun k _ => sq_nonneg _
  obtain ⟨m, hm⟩ : ∃ m, priorities pb = m + 1 := ⟨priorities pb - 1, by omega⟩
  unfold goals
  cases hb : HasBnd pb with
  | false => simp
  | true =>
    have h1 : max (priorities pb) (if (true && !(⟨B, true, d⟩ : Opts K).feasibleFirst) = true then 1 else 0) = m + 1 := by simp [hm]
    have h2 : max (priorities pb) (if (true && !(⟨B, false, d⟩ : Opts K).feasibleFirst) = true then 1 else 0) = m + 1 := by simp [hm]
    rw [h1, h2, List.range_succ_eq_map]
    simp only [Bool.and_true, Bool.and_false, if_true, if_false, Bool.false_eq_true, List.map_cons, List.map_map, List.cons_append, List.nil_append, and_true, add_zero, Bool.true_eq_false, and_false]
    have hl : ∀ i : Nat, ((fun p x => levelViol pb B v p x + if p = 0 then boundViol pb B v x else 0) ∘ Nat.succ) i = ((fun p x => levelViol pb B v p x) ∘ Nat.succ) i := by
      intro i; funext x; simp
    rw [List.map_congr_left fun i _ => hl i]
    exact (lexMin_two hbn (levelViol_nonneg pb B v 0) hz x).trans (lexMin_sum hbn (levelViol_nonneg pb B v 0) hz x).symm

/-! ## The constant -/

/-- **C68** Within the constant, the rows with one side are violated on that side only. -/
theorem C68_limit {B y : K} (h : -B ≤ y ∧ y ≤ B) (lo up : K) :
    rowViol B .greater lo up y = max (lo - y) 0 ^ 2 ∧ rowViol B .lower lo up y = max (y - up) 0 ^ 2 := by
  unfold rowViol gap
  constructor
  · by_cases h1 : y < lo
    · simp only [if_pos h1]; rw [max_eq_left (by linarith)]
    · simp only [if_neg h1, if_neg (not_lt.mpr h.2)]
      rw [max_eq_right (by linarith [not_lt.mp h1])]
  · by_cases h1 : up < y
    · simp only [if_neg (not_lt.mpr h.1), if_pos h1]; rw [max_eq_left (by linarith)]
    · simp only [if_neg (not_lt.mpr h.1), if_neg h1]
      rw [max_eq_right (by linarith [not_lt.mp h1])]

/-! ## Cases that meet the hypotheses -/

/-- There is a resolution after the construction. -/
theorem resolution {o : Opts K} {pb : Pb} (hw : WF pb) (ha : ∀ c ∈ pb.cstrs, c.vet = .l2) (v : Nat → Val K)
    (hr : o.damping = true ∨ (HasBnd pb = true ∧ Placed o pb) ∨ ∃ c, (c ∈ pb.cstrs ∧ IsOrd c = true ∨ c ∈ pb.extra) ∧ c.size ≠ 0) :
    ∃ (s s' : Solver K) (objs : List (Obj K)), Hist o pb s ∧ s.solve o v = .ok () (s', objs) := by
  obtain ⟨s, hs, _⟩ := build_spec o hw fun c hc _ => (accepted_iff c).mpr (ha c hc)
  obtain ⟨⟨s', objs⟩, h⟩ := (C68_returns hw (.build hs) v).mpr (Or.inr hr)
  exact ⟨s, s', objs, .build hs, h⟩

/-- A bound `x 0 ≥ 1`, a constraint `x 0 + x 1 = 3` of priority 0, a task `x 1 = 5` of priority 2 -/
def pb₁ : Pb := ⟨2, [⟨2, 2, .l2, false, false, .equal, 1, 0, fun j => j == 1⟩, ⟨0, 0, .l2, true, false, .greater, 1, 0, fun j => j == 0⟩, ⟨1, 0, .l2, false, false, .equal, 1, 0, fun _ => true⟩], []⟩
def v₁ (i : Nat) : Val ℚ := ⟨fun _ _ => 1, fun _ => if i = 0 then 1 else if i = 1 then 3 else 5, fun _ => 0⟩

theorem wf₁ : WF pb₁ := by
  refine ⟨fun c hc => (by cases hc), fun c hc => ?_⟩
  simp only [pb₁, List.mem_cons, List.not_mem_nil, or_false] at hc
  rcases hc with rfl | rfl | rfl <;> decide

theorem lows₁ (k : Nat) : lows pb₁ v₁ k = if k = 0 then [1] else [] := by
  by_cases h : k = 0
  · subst h; simp [lows, pb₁, v₁, IsBnd]
  · simp [lows, pb₁, IsBnd, h]

theorem ups₁ (k : Nat) : ups pb₁ v₁ k = [] := by simp [ups, pb₁, IsBnd]

theorem consistent₁ : Consistent pb₁ 10 v₁ := by
  intro k _
  refine ⟨1, ⟨by norm_num, fun b hb => ?_⟩, by norm_num, fun b hb => ?_⟩
  · rw [lows₁] at hb
    by_cases hk : k = 0
    · rw [if_pos hk] at hb; exact le_of_eq (List.mem_singleton.mp hb)
    · rw [if_neg hk] at hb; cases hb
  · rw [ups₁] at hb; cases hb

example (f d : Bool) : ∃ (s s' : Solver ℚ) (objs : List (Obj ℚ)), Hist ⟨10, f, d⟩ pb₁ s ∧ s.solve ⟨10, f, d⟩ v₁ = .ok () (s', objs) ∧
    ∀ x, LexSolution 2 objs x ↔ LexMin (goals ⟨10, f, d⟩ pb₁ v₁) x := by
  have hp : Placed (⟨10, f, d⟩ : Opts ℚ) pb₁ := Or.inr (Or.inr (by decide))
  obtain ⟨s, s', objs, h, hs⟩ := resolution (o := ⟨10, f, d⟩) wf₁ (by decide) v₁ (Or.inr (Or.inl ⟨by decide, hp⟩))
  exact ⟨s, s', objs, h, hs, C68_partial wf₁ hp h consistent₁ hs⟩

/-- Three objectives for that problem: the bound and the constraint of priority 0, nothing, the task. -/
example : (goals (⟨10, false, false⟩ : Opts ℚ) pb₁ v₁).length = 3 := by
  simp [goals, priorities, pb₁, IsOrd, HasBnd, IsBnd]

/-- The hypothesis of `C68_feasible`: the point (1, 2) -/
example : boundViol pb₁ 10 v₁ (fun k => if k = 0 then 1 else 2) = 0 ∧ levelViol pb₁ 10 v₁ 0 (fun k => if k = 0 then 1 else 2) = 0 ∧ levelViol pb₁ 10 v₁ 2 (fun k => if k = 0 then 1 else 2) = 9 := by
  refine ⟨?_, ?_, ?_⟩
  · have h : ∀ k, worst pb₁ 10 v₁ k (if k = 0 then 1 else 2) = 0 := by
      intro k
      unfold worst
      rw [lows₁, ups₁]
      by_cases hk : k = 0
      · simp [hk]; norm_num
      · simp [hk]; norm_num
    unfold boundViol
    simp [h]
  · simp [levelViol, pb₁, IsOrd, cviol, rowViol, dot, v₁, sum_range_succ]; norm_num
  · simp [levelViol, pb₁, IsOrd, cviol, rowViol, dot, v₁, sum_range_succ]; norm_num

/-- A bound `x 0 ≥ 2` only -/
def pb₂ : Pb := ⟨1, [⟨0, 0, .l2, true, false, .greater, 1, 0, fun j => j == 0⟩], []⟩
def v₂ (_ : Nat) : Val ℚ := ⟨fun _ _ => 1, fun _ => 2, fun _ => 0⟩

theorem wf₂ : WF pb₂ := by
  refine ⟨fun c hc => (by cases hc), fun c hc => ?_⟩
  obtain rfl := List.mem_singleton.mp hc
  decide

theorem bound₂ (x : Nat → ℚ) : boundViol pb₂ 10 v₂ x = max (max (max 0 (-10 - x 0)) (2 - x 0)) (x 0 - 10) ^ 2 := by
  simp [boundViol, worst, lows, ups, pb₂, v₂, IsBnd]

theorem consistent₂ : Consistent pb₂ 10 v₂ := by
  intro k hk
  have h0 : k = 0 := by simp only [pb₂] at hk; omega
  subst h0
  refine ⟨2, ⟨by norm_num, fun b hb => ?_⟩, by norm_num, fun b hb => ?_⟩
  · have : b = 2 := by simpa [lows, pb₂, IsBnd, v₂] using hb
    rw [this]
  · simp [ups, pb₂, IsBnd] at hb

/-- **C68** The full statement is false: with the damping and without the first level, the solution for the bound `x ≥ 2` is `x = 1`, whereas `x = 2` satisfies the bound. -/
theorem C68_not : ∃ (o : Opts ℚ) (pb : Pb) (v : Nat → Val ℚ) (s s' : Solver ℚ) (objs : List (Obj ℚ)) (x : Nat → ℚ), WF pb ∧ Hist o pb s ∧ Consistent pb o.big v ∧ s.solve o v = .ok () (s', objs) ∧
    LexSolution pb.n objs x ∧ ¬ LexMin (goals o pb v) x ∧ boundViol pb o.big v x ≠ 0 ∧ boundViol pb o.big v (fun _ => 2) = 0 := by
  obtain ⟨s, s', objs, h, hs⟩ := resolution (o := ⟨10, false, true⟩) wf₂ (by decide) v₂ (Or.inl rfl)
  refine ⟨⟨10, false, true⟩, pb₂, v₂, s, s', objs, fun _ => 1, wf₂, h, consistent₂, hs, ?_, ?_, ?_, ?_⟩
  · rw [C68_damped wf₂ rfl rfl (by decide) (by decide) h consistent₂ hs]
    intro y
    show dot 1 (fun _ => 1) (fun _ => 1) + boundViol pb₂ 10 v₂ (fun _ => 1) ≤ dot 1 y y + boundViol pb₂ 10 v₂ y
    rw [bound₂, bound₂]
    have h1 : dot 1 (fun _ => (1 : ℚ)) (fun _ => 1) = 1 := by simp [dot]
    have h2 : dot 1 y y = y 0 * y 0 := by simp [dot]
    have h3 : max (max (max (0 : ℚ) (-10 - 1)) (2 - 1)) (1 - 10) = 1 := by norm_num
    rw [h1, h2, h3]
    have h4 : 2 - y 0 ≤ max (max (max 0 (-10 - y 0)) (2 - y 0)) (y 0 - 10) := le_trans (le_max_right _ _) (le_max_left _ _)
    have h5 : 0 ≤ max (max (max 0 (-10 - y 0)) (2 - y 0)) (y 0 - 10) := le_trans (le_max_left _ _) (le_trans (le_max_left _ _) (le_max_left _ _))
    generalize max (max (max 0 (-10 - y 0)) (2 - y 0)) (y 0 - 10) = m at h4 h5
    nlinarith [sq_nonneg (y 0 - m), sq_nonneg (y 0 + m - 2)]
  · intro hm
    rcases hm (fun _ => 2) with hh | hh
    · have := hh
      simp only at this
      have e1 : boundViol pb₂ 10 v₂ (fun _ => 1) = 1 := by rw [bound₂]; norm_num
      have e2 : boundViol pb₂ 10 v₂ (fun _ => 2) = 0 := by rw [bound₂]; norm_num
      have e3 : levelViol pb₂ 10 v₂ 0 (fun _ => 1) = 0 := by simp [levelViol, pb₂, IsOrd]
      have e4 : levelViol pb₂ 10 v₂ 0 (fun _ => 2) = 0 := by simp [levelViol, pb₂, IsOrd]
      have hb : HasBnd pb₂ = true := by decide
      simp [hb, e1, e2, e3, e4] at this
      linarith
    · have := hh.1
      have e1 : boundViol pb₂ 10 v₂ (fun _ => 1) = 1 := by rw [bound₂]; norm_num
      have e2 : boundViol pb₂ 10 v₂ (fun _ => 2) = 0 := by rw [bound₂]; norm_num
      have e3 : levelViol pb₂ 10 v₂ 0 (fun _ => 1) = 0 := by simp [levelViol, pb₂, IsOrd]
      have e4 : levelViol pb₂ 10 v₂ 0 (fun _ => 2) = 0 := by simp [levelViol, pb₂, IsOrd]
      have hb : HasBnd pb₂ = true := by decide
      simp [hb, e1, e2, e3, e4] at this
  · show boundViol pb₂ 10 v₂ (fun _ => 1) ≠ 0
    rw [bound₂]; norm_num
  · show boundViol pb₂ 10 v₂ (fun _ => 2) = 0
    rw [bound₂]; norm_num

/-- The hypotheses of `C68_only_bounds` -/
example : ∃ s : Solver ℚ, Hist ⟨10, false, false⟩ pb₂ s ∧ s.solve ⟨10, false, false⟩ v₂ = .ub := by
  obtain ⟨s, hs, _⟩ := build_spec (⟨10, false, false⟩ : Opts ℚ) wf₂ fun c hc _ => (accepted_iff c).mpr (by obtain rfl := List.mem_singleton.mp hc; rfl)
  exact ⟨s, .build hs, C68_only_bounds wf₂ rfl rfl (by decide) (by decide) (by decide) (.build hs) v₂⟩

/-- A problem that is refused -/
example : processProblem (⟨10, false, false⟩ : Opts ℚ) ⟨1, [⟨0, 0, .l1, false, false, .equal, 1, 0, fun _ => true⟩], []⟩ = .throw () :=
  (C68_build _ ⟨fun c hc => (by cases hc), by decide⟩).2.mpr ⟨_, List.mem_singleton.mpr rfl, rfl, by decide⟩

example : ∃ (s s' : Solver ℚ) (objs : List (Obj ℚ)), s.solve ⟨10, false, true⟩ v₂ = .ok () (s', objs) ∧
    ∀ x, LexSolution 1 objs x ↔ ∀ y, dot 1 x x + boundViol pb₂ 10 v₂ x ≤ dot 1 y y + boundViol pb₂ 10 v₂ y := by
  obtain ⟨s, hs, _⟩ := build_spec (⟨10, false, true⟩ : Opts ℚ) wf₂ fun c hc _ => (accepted_iff c).mpr (by obtain rfl := List.mem_singleton.mp hc; rfl)
  obtain ⟨⟨s', objs⟩, hr⟩ := (C68_returns wf₂ (.build hs) v₂).2 (Or.inr (Or.inl rfl))
  exact ⟨s, s', objs, hr, C68_damped wf₂ rfl rfl (by decide) (by decide) (.build hs) consistent₂ hr⟩

end Verif.C68
