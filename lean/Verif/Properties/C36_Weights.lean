import Verif.Properties.C34_Assignment
import Mathlib.Analysis.Real.Sqrt
/-!
# C36, C37: weights

`sqrt` is a parameter; of the square root only `sqrt x * sqrt x = x` and `0 ≤ sqrt x` for non-negative `x` are used.
-/
set_option autoImplicit false
set_option linter.unusedSectionVars false

namespace Verif.C36
open Verif Verif.CA Verif.AS Verif.C34 Finset

section
variable {K : Type} [Field K] [LinearOrder K]

/-- The weight a row should have: the weight used to emulate the priority, times the square roots of the scalar weight and of the
anisotropic weight (1 by default). -/
def target (sqrt : K → K) (r : Req K) (scal : K) (i : Nat) : K :=
  (if r.anisoDefault then 1 else sqrt (r.aniso i)) * (sqrt (if r.weightDefault then 1 else r.weight) * scal)

/-- A weight that is at its default is 1 (include/tvm/requirements/Weight.h, lines 24-31). -/
def Wf (r : Req K) : Prop := r.weightDefault = true → r.weight = 1

theorem omega_default (w : Weights K) (i : Nat) : (⟨true, true⟩ : Flags).omega w i = 1 := rfl

theorem process_omega (sqrt : K → K) (h1 : sqrt 1 = 1) (r : Req K) (hr : Wf r) (scal : K) (fl : Flags) (w : Weights K)
    (h : processRequirements sqrt (some r) scal = some (fl, w)) :
    (∀ i, fl.omega w i = target sqrt r scal i) ∧ w.ms = -w.s ∧ (∀ i, w.ma i = -w.a i) ∧
      w.s = sqrt (if r.weightDefault then 1 else r.weight) * scal ∧
      (fl.defScalar = true → w.s = 1) ∧ (fl.defScalar = true ↔ r.weightDefault = true ∧ scal = 1) ∧ fl.defAniso = r.anisoDefault := by
  simp only [processRequirements] at h
  cases hv : r.violation <;> simp only [hv, reduceCtorEq] at h
  by_cases hd : r.weightDefault = true ∧ scal = 1
  · rw [if_pos hd] at h
    cases ha : r.anisoDefault <;> simp only [ha, Bool.false_eq_true, if_false, if_true, Option.some.injEq, Prod.mk.injEq] at h <;>
      obtain ⟨rfl, rfl⟩ := h <;> simp [Flags.omega, Flags.wt, Wt.at, target, ha, hd.1, hd.2, h1]
  · rw [if_neg hd] at h
    have hs : sqrt r.weight = sqrt (if r.weightDefault = true then 1 else r.weight) := by
      split
      · rename_i hw; rw [hr hw]
      · rfl
    cases ha : r.anisoDefault <;> simp only [ha, Bool.false_eq_true, if_false, if_true, Option.some.injEq, Prod.mk.injEq] at h <;>
      obtain ⟨rfl, rfl⟩ := h <;> simp [Flags.omega, Flags.wt, Wt.at, target, ha, hs] <;> tauto

theorem scale_rows {S : Src} {V : Vars} {D : Data K} {n : Nat} {T : Target} {fl : Flags} {m m' : Mem K} {M : MatFun} {flip : Bool}
    (h : RowsAre S T V D n fl m M flip) (h' : RowsAre S T V D n ⟨true, true⟩ m' M flip) (z : Nat → K) (i : Nat) (hi : i < S.size) :
    row n m z ((T.rows M).1 + i) = fl.omega D.w i * row n m' z ((T.rows M).1 + i) := by
  rw [show row n m z _ = _ from h z i hi, show row n m' z _ = _ from h' z i hi, omega_default]
  ring

theorem scale_rhs {S : Src} {V : Vars} {D : Data K} {T : Target} {fl : Flags} {m m' : Mem K} {f : RhsFun} {v : VecFun} {flip : Bool}
    (h : RhsIs S T V D fl m f v flip) (h' : RhsIs S T V D ⟨true, true⟩ m' f v flip) (i : Nat) (hi : i < S.size) :
    side T.rhs (m.vec (T.seg v).cell ((T.seg v).start + i)) = fl.omega D.w i * side T.rhs (m'.vec (T.seg v).cell ((T.seg v).start + i)) := by
  rw [side_dec, side_dec, h i hi, h' i hi, omega_default]
  ring

/-- The row `r` of the target and its right hand sides, in `m`, are `c` times those in `m'`. -/
def Times (n : Nat) (T : Target) (m m' : Mem K) (r : Nat) (c : K) : Prop :=
  (∀ z, row n m z r = c * row n m' z r) ∧
  (T.type ≠ .doubleSided → side T.rhs (m.vec .b r) = c * side T.rhs (m'.vec .b r)) ∧
  (T.type = .doubleSided → side T.rhs (m.vec .l r) = c * side T.rhs (m'.vec .l r) ∧ side T.rhs (m.vec .u r) = c * side T.rhs (m'.vec .u r))

theorem times_all {S : Src} {V : Vars} {D : Data K} {n : Nat} {T : Target} {fl : Flags} {big : K} {o o' : Ops K} (h : Ok S V D n)
    (hb : create big S T V fl = some o) (hb' : create big S T V ⟨true, true⟩ = some o') (m m' : Mem K)
    (hc : ∀ r, T.start ≤ r → r < T.start + T.size → Clean S V n (m.A r)) (hc' : ∀ r, T.start ≤ r → r < T.start + T.size → Clean S V n (m'.A r)) :
    ∀ i < T.size, Times n T (o.run V D m) (o'.run V D m') (T.start + i) (fl.omega D.w (i % S.size)) := by
  obtain ⟨hch, hmap, hb⟩ := create_some hb
  obtain ⟨-, -, hb'⟩ := create_some hb'
  have hnil : ∀ o : Ops K, o = o.app ⟨[], [], [], []⟩ := by intro o; simp [Ops.app]
  have szs : (S.type = .doubleSided → T.type ≠ .doubleSided → T.size = 2 * S.size) ∧ (¬ (S.type = .doubleSided ∧ T.type ≠ .doubleSided) → T.size = S.size) := by
    have := hch
    simp only [checkTarget, Bool.and_eq_true] at this
    have hs := this.2
    refine ⟨fun h1 h2 => by simpa [h1, h2] using hs, fun h3 => ?_⟩
    by_cases h1 : S.type = .doubleSided
    · by_cases h2 : T.type = .doubleSided
      · simpa [h1, h2] using hs
      · exact absurd ⟨h1, h2⟩ h3
    · simpa [h1] using hs
  have noseg : ∀ op ∈ ([] : List (VOp K)), op.dst = ⟨.l, 0, 0⟩ ∧ op.plain := by simp
  have one : ∀ (f : RhsFun) (flip : Bool), T.type ≠ .doubleSided → T.size = S.size → o = addAssignments S T V fl .A f .b none flip →
      o' = addAssignments S T V ⟨true, true⟩ .A f .b none flip → ∀ i < T.size, Times n T (o.run V D m) (o'.run V D m') (T.start + i) (fl.omega D.w (i % S.size)) := by
    intro f flip hT hsz e e' i hi
    rw [Nat.mod_eq_of_lt (by omega), e, e', hnil (addAssignments _ _ _ fl _ _ _ _ _), hnil (addAssignments _ _ _ ⟨true, true⟩ _ _ _ _ _)]
    refine ⟨fun z => scale_rows (rows_one h .A f .b none flip hsz hc []) (rows_one h .A f .b none flip hsz hc' []) z i (by omega), fun _ => ?_,
      fun h => absurd h hT⟩
    exact scale_rhs (v := .b) (rhs_one h hch .A f .b flip hsz [] ⟨.l, 0, 0⟩ noseg (by simp [Target.seg]))
      (rhs_one h hch .A f .b flip hsz [] ⟨.l, 0, 0⟩ noseg (by simp [Target.seg])) i (by omega)
  have two : ∀ (f g : RhsFun), T.type = .doubleSided → T.size = S.size → o = addAssignments S T V fl .A f .l (some (g, .u)) false →
      o' = addAssignments S T V ⟨true, true⟩ .A f .l (some (g, .u)) false → ∀ i < T.size, Times n T (o.run V D m) (o'.run V D m') (T.start + i) (fl.omega D.w (i % S.size)) := by
    intro f g hT hsz e e' i hi
    rw [Nat.mod_eq_of_lt (by omega), e, e', hnil (addAssignments _ _ _ fl _ _ _ _ _), hnil (addAssignments _ _ _ ⟨true, true⟩ _ _ _ _ _)]
    refine ⟨fun z => scale_rows (rows_one h .A f .l _ false hsz hc []) (rows_one h .A f .l _ false hsz hc' []) z i (by omega), fun h => absurd hT h, fun _ => ?_⟩
    obtain ⟨a1, a2⟩ := rhs_two (fl := fl) (m := m) h hch f g hsz [] rfl
    obtain ⟨b1, b2⟩ := rhs_two (fl := ⟨true, true⟩) (m := m') h hch f g hsz [] rfl
    exact ⟨scale_rhs a1 b1 i (by omega), scale_rhs a2 b2 i (by omega)⟩
  have oneBig : ∀ (f : RhsFun) (v v' : VecFun) (d : K), T.type = .doubleSided → T.size = S.size → (v = .l ∧ v' = .u ∨ v = .u ∧ v' = .l) →
      o = (addAssignments S T V fl .A f v none false).app ⟨[], [], addConst fl .copy d (T.seg v') false, []⟩ →
      o' = (addAssignments S T V ⟨true, true⟩ .A f v none false).app ⟨[], [], addConst ⟨true, true⟩ .copy d (T.seg v') false, []⟩ →
      ∀ i < T.size, Times n T (o.run V D m) (o'.run V D m') (T.start + i) (fl.omega D.w (i % S.size)) := by
    intro f v v' d hT hsz hv e e' i hi
    have hcell : (T.seg v).cell ≠ (T.seg v').cell := by rcases hv with ⟨rfl, rfl⟩ | ⟨rfl, rfl⟩ <;> simp [Target.seg]
    have hlen : (T.seg v).len = S.size ∧ i < (T.seg v').len := by
      rcases hv with ⟨rfl, rfl⟩ | ⟨rfl, rfl⟩ <;> simp only [Target.seg] <;> omega
    rw [Nat.mod_eq_of_lt (by omega), e, e']
    have hdst : ∀ (fl : Flags), ∀ op ∈ addConst fl .copy d (T.seg v') false, op.dst = T.seg v' ∧ op.plain := by
      intro fl op ho
      exact ⟨by simp only [addConst, List.mem_singleton] at ho; subst ho; rfl, const_plain fl .copy d (T.seg v') false op (by simpa using ho)⟩
    have a := scale_rhs (rhs_one (fl := fl) (m := m) h hch .A f v false hlen.1 _ (T.seg v') (hdst fl) hcell.symm)
      (rhs_one (fl := ⟨true, true⟩) (m := m') h hch .A f v false hlen.1 _ (T.seg v') (hdst ⟨true, true⟩) hcell.symm) i (by omega)
    have b1 := const_side (S := S) (V := V) (D := D) (T := T) (fl := fl) (m := m) h.ms h.ma .A f v v' false d hcell i hlen.2
    have b2 := const_side (S := S) (V := V) (D := D) (T := T) (fl := ⟨true, true⟩) (m := m') h.ms h.ma .A f v v' false d hcell i hlen.2
    have b : side T.rhs (Mem.vec (Ops.run V D ((addAssignments S T V fl .A f v none false).app ⟨[], [], addConst fl .copy d (T.seg v') false, []⟩) m) (T.seg v').cell ((T.seg v').start + i)) =
        fl.omega D.w i * side T.rhs (Mem.vec (Ops.run V D ((addAssignments S T V ⟨true, true⟩ .A f v none false).app ⟨[], [], addConst ⟨true, true⟩ .copy d (T.seg v') false, []⟩) m') (T.seg v').cell ((T.seg v').start + i)) := by
      rw [b1, b2, omega_default]
      unfold side
      cases T.rhs <;> simp
    refine ⟨fun z => scale_rows (rows_one h .A f v none false hsz hc _) (rows_one h .A f v none false hsz hc' _) z i (by omega), fun h => absurd hT h, fun _ => ?_⟩
    rcases hv with ⟨rfl, rfl⟩ | ⟨rfl, rfl⟩
    · exact ⟨a, b⟩
    · exact ⟨b, a⟩
  have half : ∀ (f g : RhsFun), T.type ≠ .doubleSided → T.size = 2 * S.size →
      o = (addAssignments S T V fl .AFirstHalf f .bFirstHalf none false).app (addAssignments S T V fl .ASecondHalf g .bSecondHalf none true) →
      o' = (addAssignments S T V ⟨true, true⟩ .AFirstHalf f .bFirstHalf none false).app (addAssignments S T V ⟨true, true⟩ .ASecondHalf g .bSecondHalf none true) →
      ∀ i < T.size, Times n T (o.run V D m) (o'.run V D m') (T.start + i) (fl.omega D.w (i % S.size)) := by
    intro f g hT hsz e e' i hi
    have hh : T.size / 2 = S.size := by omega
    obtain ⟨r1, r2⟩ := rows_half (fl := fl) (m := m) h f g hsz hc
    obtain ⟨r1', r2'⟩ := rows_half (fl := ⟨true, true⟩) (m := m') h f g hsz hc'
    obtain ⟨v1, v2⟩ := rhs_half (fl := fl) (m := m) h hch f g hsz
    obtain ⟨v1', v2'⟩ := rhs_half (fl := ⟨true, true⟩) (m := m') h hch f g hsz
    rw [e, e']
    by_cases hlt : i < S.size
    · rw [Nat.mod_eq_of_lt hlt]
      exact ⟨fun z => scale_rows r1 r1' z i hlt, fun _ => scale_rhs v1 v1' i hlt, fun h => absurd h hT⟩
    · have hm : i % S.size = i - S.size := by
        rw [Nat.mod_eq_sub_mod (by omega), Nat.mod_eq_of_lt (by omega)]
      have hi' : i - S.size < S.size := by omega
      rw [hm]
      have er : T.start + i = (T.rows .ASecondHalf).1 + (i - S.size) := by simp only [Target.rows, hh]; omega
      have ev : T.start + i = (T.seg .bSecondHalf).start + (i - S.size) := by simp only [Target.seg, hh]; omega
      refine ⟨fun z => ?_, fun _ => ?_, fun h => absurd h hT⟩
      · rw [er]; exact scale_rows r2 r2' z _ hi'
      · rw [ev]; exact scale_rhs v2 v2' _ hi'
  cases hS : S.type <;> cases hT : T.type <;>
    simp only [buildOps, hS, hT, reduceCtorEq, if_true, if_false, decide_true, decide_false, Bool.not_true, Bool.not_false, Option.some.injEq] at hb hb'
  · exact one _ _ (by simp [hT]) (szs.2 (by simp [hS])) hb.symm hb'.symm
  · exact two _ _ hT (szs.2 (by simp [hS])) hb.symm hb'.symm
  · exact one _ _ (by simp [hT]) (szs.2 (by simp [hS])) hb.symm hb'.symm
  · exact one _ _ (by simp [hT]) (szs.2 (by simp [hS])) hb.symm hb'.symm
  · exact oneBig _ .l .u _ hT (szs.2 (by simp [hS])) (.inl ⟨rfl, rfl⟩) hb.symm hb'.symm
  · exact one _ _ (by simp [hT]) (szs.2 (by simp [hS])) hb.symm hb'.symm
  · exact one _ _ (by simp [hT]) (szs.2 (by simp [hS])) hb.symm hb'.symm
  · exact oneBig _ .u .l _ hT (szs.2 (by simp [hS])) (.inr ⟨rfl, rfl⟩) hb.symm hb'.symm
  · simp only [checkTarget, hS, hT] at hch; exact absurd hch (by simp)
  · exact half _ _ (by simp [hT]) (szs.1 hS (by simp [hT])) hb.symm hb'.symm
  · exact half _ _ (by simp [hT]) (szs.1 hS (by simp [hT])) hb.symm hb'.symm
  · exact two _ _ hT (szs.2 (by simp [hT])) hb.symm hb'.symm

/-- The value of the scalar weight: 1 by default -/
def wval (r : Req K) : K := if r.weightDefault then 1 else r.weight

/-- The value of the anisotropic weight: 1 by default -/
def vval (r : Req K) (i : Nat) : K := if r.anisoDefault then 1 else r.aniso i

/-- **C36**: with the weights of the requirements, every row of the target and its right hand sides are those of the assignment without
weights, times the weight used for the priority and the square roots of the weights, the row `i` having the weight of its row in the
source. -/
theorem C36_scaled (sqrt : K → K) (h1 : sqrt 1 = 1) (r : Req K) (hr : Wf r) (scal : K) {S : Src} {V : Vars} {D : Data K} {n : Nat} {T : Target} {fl : Flags}
    {big : K} {o o' : Ops K} (hp : processRequirements sqrt (some r) scal = some (fl, D.w)) (h : Ok S V D n)
    (hb : create big S T V fl = some o) (hb' : create big S T V ⟨true, true⟩ = some o') (m m' : Mem K)
    (hc : ∀ r, T.start ≤ r → r < T.start + T.size → ∀ j < n, m.A r j = 0) (hc' : ∀ r, T.start ≤ r → r < T.start + T.size → ∀ j < n, m'.A r j = 0) :
    ∀ i < T.size, Times n T (o.run V D m) (o'.run V D m') (T.start + i) (sqrt (vval r (i % S.size)) * (sqrt (wval r) * scal)) := by
  intro i hi
  have e := (process_omega sqrt h1 r hr scal fl D.w hp).1 (i % S.size)
  have et : target sqrt r scal (i % S.size) = sqrt (vval r (i % S.size)) * (sqrt (wval r) * scal) := by
    unfold target vval wval
    cases r.anisoDefault <;> simp [h1]
  rw [← et, ← e]
  exact times_all h hb hb' m m' (fun r a b j hj _ => hc r a b j hj) (fun r a b j hj _ => hc' r a b j hj) i hi

/-- The square of the residual of the rows of a target for equalities -/
def residual (n : Nat) (T : Target) (m : Mem K) (z : Nat → K) : K := ∑ i ∈ range T.size, (row n m z (T.start + i) - side T.rhs (m.vec .b (T.start + i))) ^ 2

/-- **C36**: the squared residual is the sum of the squared residuals of the objective, each one with its weights. -/
theorem C36_squared (sqrt : K → K) (h1 : sqrt 1 = 1) (hq : ∀ x, 0 ≤ x → sqrt x * sqrt x = x) (r : Req K) (hr : Wf r) (hw0 : 0 ≤ wval r)
    (hv0 : ∀ i, 0 ≤ vval r i) (scal : K) {S : Src} {V : Vars} {D : Data K} {n : Nat} {T : Target} {fl : Flags}
    {big : K} {o : Ops K} (hp : processRequirements sqrt (some r) scal = some (fl, D.w)) (h : Ok S V D n) (hS : S.type = .equal) (hT : T.type = .equal)
    (hb : create big S T V fl = some o) (m : Mem K) (hc : ∀ r, T.start ≤ r → r < T.start + T.size → ∀ j < n, m.A r j = 0) (z : Nat → K) :
    residual n T (o.run V D m) z =
      ∑ i ∈ range S.size, scal ^ 2 * wval r * vval r i * (image S V D (value S V D z) i - side S.rhs (D.e i)) ^ 2 := by
  obtain ⟨hch, hmap, hb⟩ := create_some hb
  have hsz : T.size = S.size := by
    have := hch
    simp only [checkTarget, Bool.and_eq_true] at this
    simpa [hS] using this.2
  simp only [buildOps, hS, hT, Option.some.injEq] at hb
  have hnil : o = o.app ⟨[], [], [], []⟩ := by simp [Ops.app]
  have hr1 := rows_one (fl := fl) (m := m) h .A .e .b none false hsz (fun r a b j hj _ => hc r a b j hj) []
  have hv1 := rhs_one (fl := fl) (m := m) h hch .A .e .b false hsz [] ⟨.l, 0, 0⟩ (by simp) (by simp [Target.seg])
  rw [hb, ← hnil] at hr1 hv1
  unfold residual
  rw [hsz]
  apply Finset.sum_congr rfl
  intro i hi
  have hi := mem_range.mp hi
  have e := (process_omega sqrt h1 r hr scal fl D.w hp).1 i
  have et : target sqrt r scal i = sqrt (vval r i) * (sqrt (wval r) * scal) := by
    unfold target vval wval
    cases r.anisoDefault <;> simp [h1]
  rw [show row n _ z (T.start + i) = _ from hr1 z i hi, side_dec, show T.dec (Mem.vec _ .b (T.start + i)) = _ from hv1 i hi, e, et, image_value, C34.image_const,
    (side_R S D i).1]
  have q1 := hq _ hw0
  have q2 := hq _ (hv0 i)
  simp only [sgn, Bool.false_eq_true, if_false, one_mul]
  calc (sqrt (vval r i) * (sqrt (wval r) * scal) * img S V D z i - sqrt (vval r i) * (sqrt (wval r) * scal) * (S.R D .e i - off S V D i)) ^ 2
      = scal ^ 2 * (sqrt (wval r) * sqrt (wval r)) * (sqrt (vval r i) * sqrt (vval r i)) * (img S V D z i + off S V D i - S.R D .e i) ^ 2 := by ring
    _ = _ := by rw [q1, q2]

/-- Without requirements (constraints of the first level) there is no weight. -/
theorem C36_none (sqrt : K → K) (scal : K) : ∃ w, processRequirements sqrt none scal = some ((⟨true, true⟩ : Flags), w) ∧ w.ms = -w.s ∧ ∀ i, w.ma i = -w.a i :=
  ⟨_, rfl, rfl, fun _ => by simp⟩

/-- Positive weights give positive factors: the hypothesis of **C34** and **C39**. -/
theorem C36_positive [IsStrictOrderedRing K] (sqrt : K → K) (h1 : sqrt 1 = 1) (hpos : ∀ x, 0 < x → 0 < sqrt x) (r : Req K) (hr : Wf r) (scal : K) (hs : 0 < scal) (hw : 0 < wval r)
    (hv : ∀ i, 0 < vval r i) (fl : Flags) (w : Weights K) (hp : processRequirements sqrt (some r) scal = some (fl, w)) (i : Nat) : 0 < fl.omega w i := by
  rw [(process_omega sqrt h1 r hr scal fl w hp).1 i]
  have : target sqrt r scal i = sqrt (vval r i) * (sqrt (wval r) * scal) := by
    unfold target vval wval
    cases r.anisoDefault <;> simp [h1]
  rw [this]
  exact mul_pos (hpos _ (hv i)) (mul_pos (hpos _ hw) hs)

/-! ## C37: changes of weights -/

/-- A task in a problem that is being solved: the requirements, what its assignment knows about the weights, and the changes announced
since the last resolution -/
structure St (K : Type) where
  r : Req K
  fl : Flags
  w : Weights K
  scalar : Bool
  vector : Bool

/-- The user sets a weight (`SingleSolvingRequirement::value`, include/tvm/requirements/abstract/SingleSolvingRequirement.h, lines 30-39; the
callbacks announce the change, src/ControlProblem.cpp, lines 79-82), or solves (the events are passed to `updateWeights`). -/
inductive Op (K : Type) where
  | setWeight (x : K)
  | setAniso (v : Nat → K) (n : Nat)
  | solve

/-- The effect of a call -/
def step (sqrt : K → K) (scal : K) (T : Target) (s : St K) : Op K → Outcome (St K) Unit
  | .setWeight x => .ok ⟨⟨s.r.violation, x, false, s.r.aniso, s.r.anisoSize, s.r.anisoDefault⟩, s.fl, s.w, true, s.vector⟩ ()
  | .setAniso v n => .ok ⟨⟨s.r.violation, s.r.weight, s.r.weightDefault, v, n, false⟩, s.fl, s.w, s.scalar, true⟩ ()
  | .solve =>
    match updateWeights sqrt (some s.r) scal T s.fl s.w s.scalar s.vector with
    | .ok (fl, w) _ => .ok ⟨s.r, fl, w, false, false⟩ ()
    | .throw (fl, w) => .throw ⟨s.r, fl, w, s.scalar, s.vector⟩
    | .ub => .ub

/-- The states reached by any sequence of calls that do not throw -/
inductive Reach (sqrt : K → K) (scal : K) (T : Target) : St K → Prop
  | init (r : Req K) (hr : Wf r) (fl : Flags) (w : Weights K) (h : processRequirements sqrt (some r) scal = some (fl, w)) :
    Reach sqrt scal T ⟨r, fl, w, false, false⟩
  | step (s s' : St K) (op : Op K) (h : Reach sqrt scal T s) (e : C36.step sqrt scal T s op = .ok s' ()) : Reach sqrt scal T s'

/-- What holds whatever the changes -/
structure Inv (sqrt : K → K) (scal : K) (s : St K) : Prop where
  wf : Wf s.r
  l2 : s.r.violation = .l2
  ms : s.w.ms = -s.w.s
  ma : ∀ i, s.w.ma i = -s.w.a i
  ss : s.scalar = false → s.w.s = sqrt (wval s.r) * scal
  ds : s.scalar = false → s.fl.defScalar = true → s.r.weightDefault = true ∧ scal = 1
  da : s.vector = false → s.fl.defAniso = s.r.anisoDefault
  da' : s.fl.defAniso = false → s.r.anisoDefault = false

theorem inv_process (sqrt : K → K) (h1 : sqrt 1 = 1) (scal : K) (r : Req K) (hr : Wf r) (fl : Flags) (w : Weights K)
    (h : processRequirements sqrt (some r) scal = some (fl, w)) : Inv sqrt scal ⟨r, fl, w, false, false⟩ := by
  obtain ⟨_, b, c, d, e, f, g⟩ := process_omega sqrt h1 r hr scal fl w h
  refine ⟨hr, ?_, b, c, fun _ => d, fun _ hf => f.mp hf, fun _ => g, fun hf => by rw [← g]; exact hf⟩
  simp only [processRequirements] at h
  cases hv : r.violation <;> simp only [hv, reduceCtorEq] at h
  rfl

theorem onUpdate_ok (sqrt : K → K) (r : Req K) (scal : K) (T : Target) (fl : Flags) (w w' : Weights K) (sc ve : Bool)
    (h : onUpdateWeights sqrt (some r) scal T fl w sc ve = .ok w' ()) :
    w'.s = (if sc then sqrt r.weight * scal else w.s) ∧ w'.ms = (if sc then -(sqrt r.weight * scal) else w.ms) ∧
      w'.a = (if ve then fun i => sqrt (r.aniso i) * w'.s else w.a) ∧ w'.ma = (if ve then fun i => -(sqrt (r.aniso i) * w'.s) else w.ma) := by
  unfold onUpdateWeights at h
  dsimp only at h
  by_cases h1 : (sc = true ∧ fl.defScalar = true ∧ r.weight ≠ 1)
  · rw [if_pos h1] at h; exact absurd h (by simp)
  · rw [if_neg h1] at h
    cases sc <;> cases ve <;> simp only [Bool.false_eq_true, if_false, if_true, Outcome.ok.injEq, and_true] at h
    · subst h; simp
    · by_cases h2 : r.anisoDefault = false ∧ r.anisoSize ≠ T.size
      · rw [if_pos h2] at h; exact absurd h (by simp)
      · rw [if_neg h2] at h
        by_cases h3 : fl.defAniso = true ∧ r.anisoDefault = false ∧ ¬ (∀ i < r.anisoSize, r.aniso i = 1)
        · rw [if_pos h3] at h; exact absurd h (by simp)
        · rw [if_neg h3] at h
          simp only [Outcome.ok.injEq, and_true] at h
          subst h; simp
    · subst h; simp
    · by_cases h2 : r.anisoDefault = false ∧ r.anisoSize ≠ T.size
      · rw [if_pos h2] at h; exact absurd h (by simp)
      · rw [if_neg h2] at h
        by_cases h3 : fl.defAniso = true ∧ r.anisoDefault = false ∧ ¬ (∀ i < r.anisoSize, r.aniso i = 1)
        · rw [if_pos h3] at h; exact absurd h (by simp)
        · rw [if_neg h3] at h
          simp only [Outcome.ok.injEq, and_true] at h
          subst h; simp

/-- What a resolution does with announced changes -/
theorem solve_cases (sqrt : K → K) (scal : K) (T : Target) (s s' : St K) (hi : Inv sqrt scal s) (e : C36.step sqrt scal T s .solve = .ok s' ()) :
    (processRequirements sqrt (some s.r) scal = some (s'.fl, s'.w) ∧ s' = ⟨s.r, s'.fl, s'.w, false, false⟩) ∨
    (∃ w, s' = ⟨s.r, s.fl, w, false, false⟩ ∧ (s.scalar = true → s.fl.defScalar = false) ∧ (s.vector = true → s.fl.defAniso = false) ∧
      w.s = sqrt (wval s.r) * scal ∧ w.ms = -w.s ∧ (∀ i, w.ma i = -w.a i) ∧
      (s.vector = true → ∀ i, w.a i = sqrt (s.r.aniso i) * w.s) ∧ (s.vector = false → w.a = s.w.a)) := by
  simp only [C36.step, updateWeights] at e
  by_cases hn : (s.scalar && s.fl.defScalar || s.vector && s.fl.defAniso) = true
  · rw [if_pos hn] at e
    cases hp : processRequirements sqrt (some s.r) scal with
    | none => simp [hp] at e
    | some p =>
      obtain ⟨fl, w⟩ := p
      simp only [hp, Outcome.ok.injEq] at e
      obtain ⟨rfl, _⟩ := e
      exact .inl ⟨rfl, rfl⟩
  · rw [if_neg hn] at e
    right
    have hsd : s.scalar = true → s.fl.defScalar = false := by
      intro h; cases hd : s.fl.defScalar <;> simp_all
    have hvd : s.vector = true → s.fl.defAniso = false := by
      intro h; cases hd : s.fl.defAniso <;> simp_all
    have hwd : sqrt s.r.weight = sqrt (wval s.r) := by
      unfold wval
      by_cases h : s.r.weightDefault = true
      · rw [if_pos h, hi.wf h]
      · rw [if_neg h]
    cases ho : onUpdateWeights sqrt (some s.r) scal T s.fl s.w s.scalar s.vector with
    | throw w => simp [ho] at e
    | ub => simp [ho] at e
    | ok w u =>
      simp only [ho, Outcome.ok.injEq, and_true] at e
      obtain ⟨a, b, c, d⟩ := onUpdate_ok sqrt s.r scal T s.fl s.w w s.scalar s.vector ho
      refine ⟨w, e.symm, hsd, hvd, ?_, ?_, ?_, ?_, ?_⟩
      · cases hsc : s.scalar
        · rw [a, hsc]; exact hi.ss hsc
        · rw [a, hsc, if_pos rfl, hwd]
      · cases hsc : s.scalar
        · rw [a, b, hsc]; exact hi.ms
        · rw [a, b, hsc]; rfl
      · intro i
        cases hve : s.vector
        · rw [c, d, hve]; exact hi.ma i
        · rw [c, d, hve]; rfl
      · intro hve i; rw [c, hve]; rfl
      · intro hve; rw [c, hve]; rfl

theorem inv_reach (sqrt : K → K) (h1 : sqrt 1 = 1) (scal : K) (T : Target) (s : St K) (h : Reach sqrt scal T s) : Inv sqrt scal s := by
  induction h with
  | init r hr fl w h => exact inv_process sqrt h1 scal r hr fl w h
  | step s s' op _ e hi =>
    cases op with
    | setWeight x =>
      simp only [C36.step, Outcome.ok.injEq, and_true] at e
      subst e
      exact ⟨by intro h; exact absurd h (by simp), hi.l2, hi.ms, hi.ma, by simp, by simp, hi.da, hi.da'⟩
    | setAniso v n =>
      simp only [C36.step, Outcome.ok.injEq, and_true] at e
      subst e
      exact ⟨hi.wf, hi.l2, hi.ms, hi.ma, hi.ss, hi.ds, by simp, by simp⟩
    | solve =>
      rcases solve_cases sqrt scal T s s' hi e with ⟨hp, e'⟩ | ⟨w, e', hsd, hvd, hs, hms, hma, _, _⟩
      · rw [e']; exact inv_process sqrt h1 scal s.r hi.wf _ _ hp
      · subst e'
        refine ⟨hi.wf, hi.l2, hms, hma, fun _ => hs, fun _ hd => ?_, fun _ => ?_, hi.da'⟩
        · cases hsc : s.scalar with
          | false => exact hi.ds hsc hd
          | true => have := hsd hsc; simp only at hd; rw [this] at hd; exact absurd hd (by simp)
        · cases hve : s.vector with
          | false => exact hi.da hve
          | true => have := hvd hve; show s.fl.defAniso = s.r.anisoDefault; rw [this, hi.da' this]

/-- **C37**: after any sequence of changes and resolutions, a resolution leaves the assignment with the current weights, unless it had to take
into account a change of the scalar weight only, while the anisotropic weight is used. -/
theorem C37_current_partial (sqrt : K → K) (h1 : sqrt 1 = 1) (scal : K) (T : Target) (s s' : St K) (h : Reach sqrt scal T s)
    (e : C36.step sqrt scal T s .solve = .ok s' ())
    (hne : s.vector = true ∨ s.fl.defAniso = true ∨ (s.scalar = true ∧ s.fl.defScalar = true)) (i : Nat) :
    s'.fl.omega s'.w i = sqrt (vval s'.r i) * (sqrt (wval s'.r) * scal) := by
  have hi := inv_reach sqrt h1 scal T s h
  have hi' := inv_reach sqrt h1 scal T s' (.step s s' .solve h e)
  rcases solve_cases sqrt scal T s s' hi e with ⟨hp, e'⟩ | ⟨w, e', hsd, hvd, hs, hms, hma, ha, ha'⟩
  · have hr : s'.r = s.r := by rw [e']
    have := (process_omega sqrt h1 s.r hi.wf scal _ _ hp).1 i
    rw [this, hr]
    unfold target vval wval
    cases s.r.anisoDefault <;> simp [h1]
  · subst e'
    simp only [Flags.omega, Flags.wt]
    cases hda : s.fl.defAniso with
    | false =>
      have hve : s.vector = true := by
        rcases hne with hv | hd | ⟨hd, hd'⟩
        · exact hv
        · rw [hda] at hd; exact absurd hd (by simp)
        · have := hsd hd; rw [hd'] at this; exact absurd this (by simp)
      have had : s.r.anisoDefault = false := hi.da' hda
      simp only [Bool.false_eq_true, if_false, Wt.at, vval, had]
      rw [ha hve, hs]
    | true =>
      have had : s.r.anisoDefault = true := by
        have := hi'.da rfl
        simp only at this
        rw [← this]; exact hda
      simp only [if_true]
      cases hds : s.fl.defScalar with
      | false => simp [Wt.at, vval, had, h1, hs]
      | true =>
        have hd : s.r.weightDefault = true ∧ scal = 1 := hi'.ds rfl hds
        simp [Wt.at, vval, had, h1, wval, hd.1, hd.2]

/-- In the remaining case, the assignment keeps the factors it had. -/
theorem C37_kept (sqrt : K → K) (h1 : sqrt 1 = 1) (scal : K) (T : Target) (s s' : St K) (h : Reach sqrt scal T s)
    (e : C36.step sqrt scal T s .solve = .ok s' ())
    (hne : ¬ (s.vector = true ∨ s.fl.defAniso = true ∨ (s.scalar = true ∧ s.fl.defScalar = true))) (i : Nat) :
    s'.fl.omega s'.w i = s.fl.omega s.w i := by
  have hi := inv_reach sqrt h1 scal T s h
  simp only [not_or] at hne
  obtain ⟨n1, n2, n3⟩ := hne
  have n1' : s.vector = false := by simpa using n1
  have n2' : s.fl.defAniso = false := by simpa using n2
  simp only [C36.step, updateWeights] at e
  rw [if_neg (by rw [n1', n2']; simpa using n3)] at e
  cases ho : onUpdateWeights sqrt (some s.r) scal T s.fl s.w s.scalar s.vector with
  | throw w => simp [ho] at e
  | ub => simp [ho] at e
  | ok w u =>
    simp only [ho, Outcome.ok.injEq, and_true] at e
    obtain ⟨_, _, c, _⟩ := onUpdate_ok sqrt s.r scal T s.fl s.w w s.scalar s.vector ho
    subst e
    simp [Flags.omega, Flags.wt, n2', Wt.at, c, n1']

/-- When nothing was announced since the last resolution, nothing changes. -/
theorem C37_quiet (sqrt : K → K) (scal : K) (T : Target) (s : St K) (hs : s.scalar = false) (hv : s.vector = false) :
    C36.step sqrt scal T s .solve = .ok s () := by
  obtain ⟨r, fl, w, sc, ve⟩ := s
  simp only at hs hv
  subst hs; subst hv
  simp [C36.step, updateWeights, onUpdateWeights]

/-- A resolution takes the changes into account or throws; it throws exactly when the anisotropic weight was changed, was already in use, and has
not the size of the target. -/
theorem C37_throws_iff (sqrt : K → K) (h1 : sqrt 1 = 1) (scal : K) (T : Target) (s : St K) (h : Reach sqrt scal T s) :
    (∀ s', C36.step sqrt scal T s .solve ≠ .ok s' ()) ↔
      (s.vector = true ∧ s.fl.defAniso = false ∧ ¬ (s.scalar = true ∧ s.fl.defScalar = true) ∧ s.r.anisoSize ≠ T.size) := by
  have hi := inv_reach sqrt h1 scal T s h
  have hproc : ∃ p, processRequirements sqrt (some s.r) scal = some p := by
    simp only [processRequirements, hi.l2]
    split <;> exact ⟨_, rfl⟩
  by_cases hn : (s.scalar && s.fl.defScalar || s.vector && s.fl.defAniso) = true
  · obtain ⟨⟨fl, w⟩, hp⟩ := hproc
    constructor
    · intro hno
      exact absurd (by simp only [C36.step, updateWeights]; rw [if_pos hn]; simp only [hp]) (hno ⟨s.r, fl, w, false, false⟩)
    · rintro ⟨a, b, c, _⟩
      simp only [a, b, Bool.and_false, Bool.or_false, Bool.and_eq_true] at hn
      exact absurd hn c
  · have hnt : ¬ (s.scalar = true ∧ s.fl.defScalar = true ∧ s.r.weight ≠ 1) := by
      rintro ⟨a, b, _⟩; simp [a, b] at hn
    have hns : ¬ (s.scalar = true ∧ s.fl.defScalar = true) := by
      rintro ⟨a, b⟩; simp [a, b] at hn
    simp only [C36.step, updateWeights]
    rw [if_neg hn]
    simp only [onUpdateWeights]
    rw [if_neg hnt]
    cases hve : s.vector with
    | false =>
      simp only [Bool.false_eq_true, if_false, false_and, iff_false]
      intro hno
      exact hno _ rfl
    | true =>
      have hda : s.fl.defAniso = false := by
        cases hd : s.fl.defAniso
        · rfl
        · simp [hve, hd] at hn
      have had := hi.da' hda
      simp only [if_true, had, hda, true_and, hns, not_false_eq_true]
      by_cases hsz : s.r.anisoSize ≠ T.size
      · simp [hsz]
      · rw [if_neg hsz]
        simp only [Bool.false_eq_true, false_and, if_false]
        constructor
        · intro hno; exact absurd rfl (hno _)
        · intro h; exact absurd h hsz

end

/-! ## Concrete cases -/

/-- A square root that is right at 0, 1 and 4 -/
def exSqrt (x : ℚ) : ℚ := if x = 4 then 2 else x

/-- Requirements with an anisotropic weight -/
def exR : Req ℚ := ⟨.l2, 1, false, fun i => if i = 0 then 4 else 1, 2, false⟩

/-- The target of an objective of size 2 -/
def exT : Target := ⟨.equal, .asGiven, 0, 2⟩

/-- **C37** is false when the scalar weight of a task with an anisotropic weight is set: the task keeps its old weight. Here the scalar weight
goes from 1 to 4, the row 0 keeps the factor 2 instead of 4. -/
theorem C37_scalar_false : ∃ s s' s'' : St ℚ, Reach exSqrt 1 exT s ∧ C36.step exSqrt 1 exT s (.setWeight 4) = .ok s' () ∧
    C36.step exSqrt 1 exT s' .solve = .ok s'' () ∧ s''.fl.omega s''.w 0 = 2 ∧ exSqrt (vval s''.r 0) * (exSqrt (wval s''.r) * 1) = 4 := by
  have h0 : processRequirements exSqrt (some exR) 1 =
      some (⟨false, false⟩, ⟨exSqrt 1 * 1, -(exSqrt 1 * 1), fun i => exSqrt (exR.aniso i) * (exSqrt 1 * 1), fun i => -(exSqrt (exR.aniso i) * (exSqrt 1 * 1))⟩) := by
    simp [processRequirements, exR]
  refine ⟨_, _, _, .init exR (by intro h; exact absurd h (by decide)) _ _ h0, rfl, rfl, ?_, ?_⟩
  · show exSqrt (exR.aniso 0) * (exSqrt 1 * 1) = 2
    norm_num [exSqrt, exR]
  · show exSqrt (vval ⟨.l2, 4, false, exR.aniso, 2, false⟩ 0) * (exSqrt (wval ⟨.l2, 4, false, exR.aniso, 2, false⟩) * 1) = 4
    norm_num [exSqrt, exR, vval, wval]

/-- The same change, with the anisotropic weight set again at the same time, is taken into account. -/
example : ∃ s s1 s2 s3 : St ℚ, Reach exSqrt 1 exT s ∧ C36.step exSqrt 1 exT s (.setWeight 4) = .ok s1 () ∧
    C36.step exSqrt 1 exT s1 (.setAniso exR.aniso 2) = .ok s2 () ∧ s2.vector = true ∧
    C36.step exSqrt 1 exT s2 .solve = .ok s3 () ∧ s3.fl.omega s3.w 0 = 4 := by
  have h0 : processRequirements exSqrt (some exR) 1 =
      some (⟨false, false⟩, ⟨exSqrt 1 * 1, -(exSqrt 1 * 1), fun i => exSqrt (exR.aniso i) * (exSqrt 1 * 1), fun i => -(exSqrt (exR.aniso i) * (exSqrt 1 * 1))⟩) := by
    simp [processRequirements, exR]
  refine ⟨_, _, _, _, .init exR (by intro h; exact absurd h (by decide)) _ _ h0, rfl, rfl, rfl, rfl, ?_⟩
  show exSqrt (exR.aniso 0) * (exSqrt 4 * 1) = 4
  norm_num [exSqrt, exR]

/-- The weights of an objective: the scalar weight 4 and the anisotropic weights (4, 1) -/
example : ∃ fl w, processRequirements exSqrt (some (⟨.l2, 4, false, fun i => if i = 0 then 4 else 1, 2, false⟩ : Req ℚ)) 1 = some (fl, w) ∧
    Wf (⟨.l2, 4, false, fun i => if i = 0 then 4 else 1, 2, false⟩ : Req ℚ) ∧ fl.omega w 0 = 4 ∧ fl.omega w 1 = 2 := by
  refine ⟨_, _, rfl, by intro h; exact absurd h (by decide), ?_, ?_⟩
  · show exSqrt (if (0 : Nat) = 0 then 4 else 1) * (exSqrt 4 * 1) = 4
    norm_num [exSqrt]
  · show exSqrt (if (1 : Nat) = 0 then 4 else 1) * (exSqrt 4 * 1) = 2
    norm_num [exSqrt]

/-- An objective `x_0 - 4` with the weight 4 and the real square root -/
noncomputable def exRW : Req ℝ := ⟨.l2, 4, false, fun _ => 1, 1, true⟩

noncomputable def exDW : Data ℝ :=
  ⟨fun _ _ _ => 1, fun _ => -4, fun _ => 0, fun _ => 0, fun _ _ _ _ => 0, fun _ _ => 0,
    ⟨Real.sqrt 4 * 1, -(Real.sqrt 4 * 1), fun _ => 0, fun _ => 0⟩⟩

def exTW : Target := ⟨.equal, .asGiven, 0, 1⟩

theorem exRW_process : processRequirements Real.sqrt (some exRW) 1 = some ((⟨false, true⟩ : Flags), exDW.w) := by
  simp [processRequirements, exRW, exDW]

theorem exDW_ok : Ok exS2 exV exDW 2 := by
  refine ⟨rfl, ex_range, ex_disj, by simp [exS2], ?_, by simp [exS2], by simp [Src.sub, exS2], by simp [subVars, Src.sub, exS2], ?_, ?_⟩
  · intro x _
    refine ⟨rfl, ?_⟩
    intro i hi k hk
    simp only [exS2] at hi hk
    rw [show i = k by omega]
    simp [exDW]
  · simp [exDW]
  · intro i; simp [exDW]

-- the squared norm of the rows is the weight times the squared norm of the function
example : ∃ o : Ops ℝ, create 1000 exS2 exTW exV ⟨false, true⟩ = some o ∧ ∀ z : Nat → ℝ,
    residual 2 exTW (o.run exV exDW ⟨fun _ _ => 0, fun _ _ => 42⟩) z =
      ∑ i ∈ range 1, (1 : ℝ) ^ 2 * 4 * 1 * (image exS2 exV exDW (value exS2 exV exDW z) i - side exS2.rhs (exDW.e i)) ^ 2 := by
  refine ⟨_, rfl, fun z => ?_⟩
  have := C36_squared Real.sqrt Real.sqrt_one (fun x hx => Real.mul_self_sqrt hx) exRW (fun h => by cases h)
    (by simp [wval, exRW]) (by simp [vval, exRW]) 1 exRW_process exDW_ok rfl rfl (big := 1000) (T := exTW) rfl
    ⟨fun _ _ => 0, fun _ _ => 42⟩ (fun _ _ _ _ _ => rfl) z
  simpa [wval, vval, exRW, exS2] using this
example := C36_scaled Real.sqrt Real.sqrt_one exRW (fun h => by cases h) 1 exRW_process exDW_ok (big := 1000) (T := exTW) rfl rfl
  ⟨fun _ _ => 0, fun _ _ => 42⟩ ⟨fun _ _ => 0, fun _ _ => 42⟩ (fun _ _ _ _ _ => rfl) (fun _ _ _ _ _ => rfl)
example (i : Nat) : 0 < (⟨false, true⟩ : Flags).omega exDW.w i :=
  C36_positive Real.sqrt Real.sqrt_one (fun x hx => Real.sqrt_pos.2 hx) exRW (fun h => by cases h) 1 one_pos (by simp [wval, exRW])
    (by simp [vval, exRW]) _ _ exRW_process i

-- the weights of a problem that is being solved, changed twice and solved
theorem exR_process : processRequirements exSqrt (some exR) 1 =
    some (⟨false, false⟩, ⟨exSqrt 1 * 1, -(exSqrt 1 * 1), fun i => exSqrt (exR.aniso i) * (exSqrt 1 * 1),
      fun i => -(exSqrt (exR.aniso i) * (exSqrt 1 * 1))⟩) := by
  simp [processRequirements, exR]

theorem exR_reach : Reach exSqrt 1 exT ⟨exR, ⟨false, false⟩, ⟨exSqrt 1 * 1, -(exSqrt 1 * 1),
    fun i => exSqrt (exR.aniso i) * (exSqrt 1 * 1), fun i => -(exSqrt (exR.aniso i) * (exSqrt 1 * 1))⟩, false, false⟩ :=
  .init exR (fun h => by cases h) _ _ exR_process

example : ∃ s s' : St ℚ, Reach exSqrt 1 exT s ∧ C36.step exSqrt 1 exT s .solve = .ok s' () ∧
    s'.fl.omega s'.w 1 = exSqrt (vval s'.r 1) * (exSqrt (wval s'.r) * 1) :=
  have h2 := Reach.step _ _ (.setAniso exR.aniso 2) (Reach.step _ _ (.setWeight 4) exR_reach rfl) rfl
  ⟨_, _, h2, rfl, C37_current_partial exSqrt (by norm_num [exSqrt]) 1 exT _ _ h2 rfl (Or.inl rfl) 1⟩
example : ∃ s s' : St ℚ, Reach exSqrt 1 exT s ∧ s.scalar = true ∧ C36.step exSqrt 1 exT s .solve = .ok s' () ∧
    s'.fl.omega s'.w 1 = s.fl.omega s.w 1 :=
  have h2 := Reach.step _ _ (.setWeight 4) exR_reach rfl
  ⟨_, _, h2, rfl, rfl, C37_kept exSqrt (by norm_num [exSqrt]) 1 exT _ _ h2 rfl (by simp) 1⟩
example := C37_quiet exSqrt 1 exT ⟨exR, ⟨false, false⟩, ⟨1, -1, fun _ => 1, fun _ => -1⟩, false, false⟩ rfl rfl
-- an anisotropic weight of the wrong size
example : ∃ s : St ℚ, Reach exSqrt 1 exT s ∧ ∀ s', C36.step exSqrt 1 exT s .solve ≠ .ok s' () :=
  have h2 := Reach.step _ _ (.setAniso exR.aniso 5) exR_reach rfl
  ⟨_, h2, (C37_throws_iff exSqrt (by norm_num [exSqrt]) 1 exT _ h2).2 ⟨rfl, rfl, by simp, by decide⟩⟩

end Verif.C36
