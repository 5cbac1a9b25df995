import Verif.Properties.C66_QPSolvers
/-!
# C67: without objectives, the automatic damping asks for the feasible point with the least norm

`WeightedLeastSquares::processProblem` calls `setMinimumNorm` when there is no objective and the option `autoDamping` is set. Each solver then has to be handed the minimisation of `‖x‖²` under the constraints and the bounds,
at each resolution. This is so as long as the sizes do not change, except for QLD and Quadprog with the Cholesky option, which are handed an empty matrix. The flag is not reset when an objective is added afterwards, so that the objective is
ignored or mixed with the norm.
-/
set_option autoImplicit false
set_option linter.unusedSectionVars false

namespace Verif.C67
open Verif.QP Verif.C66 Finset

variable {K : Type} [Field K] [LinearOrder K] [IsStrictOrderedRing K]

/-! ## Specification: the states between the call to `setMinimumNorm` and a resize -/

/-- QLD: resolutions, and resizings that leave the number of unknowns as it is -/
inductive QldMin (o : Opts K) : Pat → Qld K → Prop
  | start {p s} (h : QldHist o p s) : QldMin o p s.setMinimumNorm
  | solve {p s} (h : QldMin o p s) (d : Data K) (hd : Fits p d) : QldMin o p (s.prepare o d)
  | resize {p s} (h : QldMin o p s) (j : Junk K) (p' : Pat) (nObj nEq nIneq : Nat) : QldMin o p' (s.resize o s.n nObj nEq nIneq j)

/-- Quadprog -/
inductive QpdMin (o : Opts K) (qr : QR K) : Pat → Qpd K → Prop
  | start {p s} (h : QpdHist o qr p s) : QpdMin o qr p s.setMinimumNorm
  | solve {p s} (h : QpdMin o qr p s) (d : Data K) (hd : Fits p d) : QpdMin o qr p (s.prepare o qr d)
  | resize {p s} (h : QpdMin o qr p s) (j : Junk K) (p' : Pat) (nObj nEq nIneq : Nat) (bd : Bool) : QpdMin o qr p' (s.resize o s.n nObj nEq nIneq bd j)

/-- No objective is assigned. -/
def NoObj (d : DataDS K) : Prop := (∀ i j, d.obj i j = none) ∧ ∀ i, d.objRhs i = none

/-- LSSOL: resolutions without objectives; the solver has been built for as many rows of objectives as unknowns (WeightedLeastSquares.cpp, lines 170-173). -/
inductive LssMin (o : Opts K) : Pat → Lss K → Prop
  | start {p s} (h : LssHist o p s) (hn : s.nObj = s.n) : LssMin o p s.setMinimumNorm
  | solve {p s} (h : LssMin o p s) (d : DataDS K) (hd : FitsDS p d) (h0 : NoObj d) (j : Junk K) : LssMin o p ((s.prepare o d).solved j)

/-- LexLS -/
inductive LexMin (o : Opts K) : Pat → Lxl K → Prop
  | start {p s} (h : LexHist o p s) (hn : s.nObj = s.n) : LexMin o p s.setMinimumNorm
  | solve {p s} (h : LexMin o p s) (d : DataDS K) (hd : FitsDS p d) (h0 : NoObj d) : LexMin o p (s.prepare o d)

/-! ## The norm -/

theorem norm_eq (n : Nat) (y : Nat → K) : (∑ i ∈ range n, ∑ j ∈ range n, y i * one i j * y j) = dot n y y := by
  refine sum_congr rfl fun i hi => ?_
  have : ∀ j ∈ range n, y i * one i j * y j = if i = j then y i * y j else 0 := by
    intro j _
    unfold one
    by_cases h : i = j
    · rw [if_pos h, if_pos h]; ring
    · rw [if_neg h, if_neg h]; ring
  rw [sum_congr rfl this, sum_ite_eq, if_pos hi]

theorem dot_zero (n : Nat) (y : Nat → K) : dot n (fun _ => 0) y = 0 := by simp [dot]

theorem rows_one (n : Nat) (y : Nat → K) : (∑ i ∈ range n, (dot n (one i) y - 0) ^ 2) = dot n y y := by
  refine sum_congr rfl fun i hi => ?_
  have : dot n (one i) y = 1 * y i := dot_one (mem_range.mp hi) 1 y
  rw [this]; ring

theorem putRows_noObj {off m : Nat} {t : Ty} {d : DataDS K} (h : NoObj d) (M : Nat → Nat → K) : putRows off m t d.obj M = M := by
  funext i j
  exact putRows_none (h.1 _ _)

theorem putRhs_noObj {off m : Nat} {t : Ty} {r : Rhs} {d : DataDS K} (h : NoObj d) (v : Nat → K) : putRhs off m t r d.objRhs v = v := by
  funext i
  unfold putRhs
  rw [h.2]
  by_cases hi : off ≤ i ∧ i < off + m
  · rw [if_pos hi]
  · rw [if_neg hi]

/-! ## QLD -/

theorem qldMin_hist {o : Opts K} {p : Pat} {s : Qld K} (h : QldMin o p s) : QldHist o p s := by
  induction h with
  | start h => exact .minNorm h
  | solve _ d hd ih => exact .solve ih d hd
  | resize _ j p nObj nEq nIneq ih => exact .resize ih j p _ nObj nEq nIneq

/-- With `autoMin` the resolution leaves the cost as it is. -/
theorem qld_prepare_auto {o : Opts K} {s : Qld K} (hm : s.autoMin = true) (d : Data K) : s.prepare o d = (s.resetBounds o).assign d := by
  have h : ((s.resetBounds o).assign d).autoMin = true := hm
  unfold Qld.prepare Qld.post
  rw [if_pos h]

/-- Which size the vector of the cost has -/
theorem qld_nC {o : Opts K} {p : Pat} {s : Qld K} (h : QldHist o p s) : s.nC = s.n := by
  induction h with
  | first j0 j p n nObj nEq nIneq => rfl
  | build _ j p n nObj nEq nIneq _ => rfl
  | resize _ j p n nObj nEq nIneq _ => rfl
  | minNorm _ ih => exact ih
  | @solve p s _ d hd ih =>
    have : ∀ t : Qld K, (t.post o).nC = t.nC ∧ (t.post o).n = t.n := by
      intro t
      unfold Qld.post
      by_cases hm : t.autoMin = true
      · rw [if_pos hm]; exact ⟨rfl, rfl⟩
      · rw [if_neg hm]; exact ⟨rfl, rfl⟩
    exact (this ((s.resetBounds o).assign d)).1.trans (ih.trans (this ((s.resetBounds o).assign d)).2.symm)

theorem qldMin_state {o : Opts K} {p : Pat} {s : Qld K} (h : QldMin o p s) (hch : o.cholesky = false) : s.autoMin = true ∧ s.Q = one ∧ s.c = fun _ => 0 := by
  induction h with
  | start h => exact ⟨rfl, rfl, rfl⟩
  | solve _ d hd ih => rw [qld_prepare_auto ih.1]; exact ih
  | resize h j p nObj nEq nIneq ih =>
    have hn := (qld_inv (qldMin_hist h)).nQ hch
    have hc := qld_nC (qldMin_hist h)
    refine ⟨ih.1, ?_, ?_⟩
    · simp only [Qld.resize, hch, hn, decide_true, Bool.false_or, if_true]; exact ih.2.1
    · simp only [Qld.resize, hc, if_true]; exact ih.2.2

/-- **C67** (QLD) Without the Cholesky option, and as long as the number of unknowns is unchanged, QLD is handed the minimisation of the norm under the constraints and the bounds. -/
theorem C67_qld_partial {o : Opts K} {qr : QR K} {p : Pat} {s : Qld K} (h : QldMin o p s) (hch : o.cholesky = false) {d : Data K} (hd : Fits p d) (x : Nat → K) :
    QldSolution s.n ((s.prepare o d).call o qr) x ↔ Best (Feasible (some o.big) s.n s.nEq s.nIneq d) (fun y => dot s.n y y) x := by
  have hi := qld_inv (qldMin_hist h)
  have hF := qld_feasible hi hd qr
  obtain ⟨hm, hQ, hc⟩ := qldMin_state h hch
  have hquad : ((s.prepare o d).call o qr).quad = .full s.n one := by
    rw [qld_prepare_auto hm, ← hi.nQ hch, ← hQ]
    simp only [Qld.call, hch, Bool.false_and]; rfl
  have hcc : ((s.prepare o d).call o qr).c = fun _ => 0 := by rw [qld_prepare_auto hm, ← hc]; rfl
  unfold QldSolution
  rw [hquad, hcc]
  simp only [Minimises, true_and]
  refine best_iff 0 hF (fun y => ?_) x
  rw [norm_eq, dot_zero]; ring

/-! ## Quadprog -/

theorem qpdMin_hist {o : Opts K} {qr : QR K} {p : Pat} {s : Qpd K} (h : QpdMin o qr p s) : QpdHist o qr p s := by
  induction h with
  | start h => exact .minNorm h
  | solve _ d hd ih => exact .solve ih d hd
  | resize _ j p nObj nEq nIneq bd ih => exact .resize ih j p _ nObj nEq nIneq bd

theorem qpd_nC {o : Opts K} {qr : QR K} {p : Pat} {s : Qpd K} (h : QpdHist o qr p s) : s.nC = s.n := by
  induction h with
  | first j0 j p n nObj nEq nIneq bd => rfl
  | build _ j p n nObj nEq nIneq bd _ => rfl
  | resize _ j p n nObj nEq nIneq bd _ => rfl
  | minNorm _ ih => exact ih
  | solve _ d hd ih => exact ih

theorem qpdMin_state {o : Opts K} {qr : QR K} {p : Pat} {s : Qpd K} (h : QpdMin o qr p s) (hch : o.cholesky = false) :
    s.autoMin = true ∧ s.Q = one ∧ s.c = fun _ => 0 := by
  induction h with
  | start h => exact ⟨rfl, rfl, rfl⟩
  | @solve p s _ d hd ih =>
    have hm : (((s.resetBounds o).pre o).assign d).autoMin = true := ih.1
    refine ⟨ih.1, ?_, ?_⟩
    · simp only [Qpd.prepare, Qpd.post, hm, Bool.true_or, if_true]; exact ih.2.1
    · simp only [Qpd.prepare, Qpd.post, hm, if_true]; exact ih.2.2
  | resize h j p nObj nEq nIneq bd ih =>
    have hn := (qpd_inv (qpdMin_hist h)).nQ hch
    have hc := qpd_nC (qpdMin_hist h)
    refine ⟨ih.1, ?_, ?_⟩
    · simp only [Qpd.resize, hch, hn, decide_true, Bool.false_or, if_true]; exact ih.2.1
    · simp only [Qpd.resize, hc, if_true]; exact ih.2.2

/-- **C67** (Quadprog) -/
theorem C67_quadprog_partial {o : Opts K} {qr : QR K} {p : Pat} {s : Qpd K} (h : QpdMin o qr p s) (hch : o.cholesky = false) {d : Data K} (hd : Fits p d)
    (hb : s.bounds = false → ∀ k, d.lo k = [] ∧ d.up k = []) (x : Nat → K) :
    QpdSolution s.n ((s.prepare o qr d).call o) x ↔ Best (Feasible (qpdBox o s) s.n s.nEq s.nIneq d) (fun y => dot s.n y y) x := by
  have hi := qpd_inv (qpdMin_hist h)
  have hF := qpd_feasible hi hd hb qr
  obtain ⟨hm, hQ, hc⟩ := qpdMin_state (.solve h d hd) hch
  have hpn : (s.prepare o qr d).nQ = s.n := by rw [← hi.nQ hch]; rfl
  have hquad : ((s.prepare o qr d).call o).quad = .full s.n one := by
    simp only [Qpd.call, hch, hpn, hQ]; rfl
  have hcc : ((s.prepare o qr d).call o).c = fun _ => 0 := hc
  unfold QpdSolution
  rw [hquad, hcc]
  simp only [Minimises, true_and]
  refine best_iff 0 hF (fun y => ?_) x
  rw [norm_eq, dot_zero]; ring

/-! ## LSSOL -/

theorem lssMin_hist {o : Opts K} {p : Pat} {s : Lss K} (h : LssMin o p s) : LssHist o p s := by
  induction h with
  | start h => exact .minNorm h
  | solve _ d hd _ j ih => exact .solve ih d hd j

theorem lssMin_state {o : Opts K} {p : Pat} {s : Lss K} (h : LssMin o p s) : s.autoMin = true ∧ s.nObj = s.n ∧ s.b = fun _ => 0 := by
  induction h with
  | start h hn => exact ⟨rfl, hn, rfl⟩
  | solve _ d hd h0 j ih => exact ⟨ih.1, ih.2.1, (putRhs_noObj h0 _).trans ih.2.2⟩

/-- **C67** (LSSOL) -/
theorem C67_lssol_partial {o : Opts K} {p : Pat} {s : Lss K} (h : LssMin o p s) {d : DataDS K} (hd : FitsDS p d) (h0 : NoObj d) (x : Nat → K) :
    LssSolution s.n (s.prepare o d).call x ↔ Best (FeasibleDS (some o.big) s.n s.nC d) (fun y => dot s.n y y) x := by
  have hF := lss_feasible (o := o) (lss_inv (lssMin_hist h)) hd
  obtain ⟨hm, hn, hb⟩ := lssMin_state h
  have hA : (s.prepare o d).call.A = one := by
    simp only [Lss.call, Lss.prepare, Lss.post, Lss.assign, Lss.pre, Lss.resetBounds, hm, if_true]
  have hbb : (s.prepare o d).call.b = fun _ => 0 := (putRhs_noObj h0 _).trans hb
  have hno : (s.prepare o d).call.nObj = s.n := hn
  unfold LssSolution Best
  simp only [hF, hA, hbb, hno, rows_one]

/-! ## LexLS -/

theorem lexMin_hist {o : Opts K} {p : Pat} {s : Lxl K} (h : LexMin o p s) : LexHist o p s := by
  induction h with
  | start h => exact .minNorm h
  | solve _ d hd _ ih => exact .solve ih d hd

theorem lexMin_state {o : Opts K} {p : Pat} {s : Lxl K} (h : LexMin o p s) : s.nObj = s.n ∧ s.A2 = one ∧ (s.l2 = fun _ => 0) ∧ s.u2 = fun _ => 0 := by
  induction h with
  | start h hn => exact ⟨hn, rfl, rfl, rfl⟩
  | solve _ d hd h0 ih =>
    exact ⟨ih.1, (putRows_noObj h0 _).trans ih.2.1, (putRhs_noObj h0 _).trans ih.2.2.1, (putRhs_noObj h0 _).trans ih.2.2.2⟩

/-- **C67** (LexLS) -/
theorem C67_lexls_partial {o : Opts K} {p : Pat} {s : Lxl K} (h : LexMin o p s) {d : DataDS K} (hd : FitsDS p d) (h0 : NoObj d)
    (hf : ∃ y, FeasibleDS (some o.big) s.n s.nC d y) (x : Nat → K) :
    LexSolution (s.prepare o d) x ↔ Best (FeasibleDS (some o.big) s.n s.nC d) (fun y => dot s.n y y) x := by
  obtain ⟨hn, hA, hl, hu⟩ := lexMin_state (.solve h d hd h0)
  refine lex_iff (lxl_inv (lexMin_hist h)) hd (fun y => ?_) hf x
  have hn' : s.nObj = s.n := hn
  rw [hA, hl, hu, violation, hn', ← rows_one]
  exact sum_congr rfl fun i _ => gap_self _ _

/-! ## What is false -/

theorem qld_nQ_cholesky {o : Opts K} {p : Pat} {s : Qld K} (h : QldHist o p s) (hch : o.cholesky = true) : s.nQ = 0 := by
  induction h with
  | first j0 j p n nObj nEq nIneq => simp [Qld.build, Qld.resize, hch, Qld.new]
  | build _ j p n nObj nEq nIneq ih => simp [Qld.build, Qld.resize, hch, ih]
  | resize _ j p n nObj nEq nIneq ih => simp [Qld.resize, hch, ih]
  | minNorm _ ih => exact ih
  | @solve p s _ d hd ih =>
    have : ∀ t : Qld K, (t.post o).nQ = t.nQ := by
      intro t
      unfold Qld.post
      by_cases hm : t.autoMin = true
      · rw [if_pos hm]
      · rw [if_neg hm]
    exact (this _).trans ih

theorem qpd_nQ_cholesky {o : Opts K} {qr : QR K} {p : Pat} {s : Qpd K} (h : QpdHist o qr p s) (hch : o.cholesky = true) : s.nQ = 0 := by
  induction h with
  | first j0 j p n nObj nEq nIneq bd => simp [Qpd.build, Qpd.resize, hch, Qpd.new]
  | build _ j p n nObj nEq nIneq bd ih => simp [Qpd.build, Qpd.resize, hch, ih]
  | resize _ j p n nObj nEq nIneq bd ih => simp [Qpd.resize, hch, ih]
  | minNorm _ ih => exact ih
  | solve _ d hd ih => exact ih

/-- **C67** (Cholesky) With the Cholesky option, when the norm is to be minimised QLD and Quadprog are handed a matrix of size 0, whatever the number of unknowns: it is no problem in these unknowns. -/
theorem C67_cholesky {o : Opts K} (hch : o.cholesky = true) (qr : QR K) (p : Pat) :
    (∀ s : Qld K, QldHist o p s → s.autoMin = true → 0 < s.n → ∀ d x, ¬ QldSolution s.n ((s.prepare o d).call o qr) x) ∧
      ∀ s : Qpd K, QpdHist o qr p s → s.autoMin = true → 0 < s.n → ∀ d x, ¬ QpdSolution s.n ((s.prepare o qr d).call o) x := by
  constructor
  · intro s h hm hn d x hx
    have h0 := qld_nQ_cholesky h hch
    have hquad : ((s.prepare o d).call o qr).quad = .full s.nQ s.Q := by
      have hmm : ((s.resetBounds o).assign d).autoMin = true := hm
      rw [qld_prepare_auto hm]
      simp only [Qld.call, hmm, Bool.not_true, Bool.and_false]; rfl
    unfold QldSolution at hx
    rw [hquad] at hx
    have := hx.1
    omega
  · intro s h hm hn d x hx
    have h0 := qpd_nQ_cholesky h hch
    have hm' : (s.prepare o qr d).autoMin = true := hm
    have hquad : ((s.prepare o qr d).call o).quad = .full s.nQ (s.prepare o qr d).Q := by
      simp only [Qpd.call, hm', Bool.not_true, Bool.and_false]; rfl
    unfold QpdSolution at hx
    rw [hquad] at hx
    have := hx.1
    omega

/-- **C67** (change of the unknowns) When the number of unknowns changes, the cost handed to QLD and Quadprog is whatever the memory contains. -/
theorem C67_junk {o : Opts K} (hch : o.cholesky = false) (qr : QR K) (p : Pat) (n nObj nEq nIneq : Nat) (bd : Bool) (j : Junk K) (d : Data K) :
    (∀ s : Qld K, QldMin o p s → s.n ≠ n →
      (((s.resize o n nObj nEq nIneq j).prepare o d).call o qr).quad = .full n j.mat ∧ (((s.resize o n nObj nEq nIneq j).prepare o d).call o qr).c = j.vec) ∧
    ∀ s : Qpd K, QpdMin o qr p s → s.n ≠ n →
      (((s.resize o n nObj nEq nIneq bd j).prepare o qr d).call o).quad = .full n j.mat ∧ (((s.resize o n nObj nEq nIneq bd j).prepare o qr d).call o).c = j.vec := by
  constructor
  · intro s h hne
    have hm := (qldMin_state h hch).1
    have hnQ := (qld_inv (qldMin_hist h)).nQ hch
    have hnC := qld_nC (qldMin_hist h)
    have hm' : (s.resize o n nObj nEq nIneq j).autoMin = true := hm
    rw [qld_prepare_auto hm']
    constructor
    · simp only [Qld.call, hch, Bool.false_and, Qld.assign, Qld.resetBounds, Qld.resize, hnQ]
      simp [hne]
    · simp only [Qld.call, Qld.assign, Qld.resetBounds, Qld.resize, hnC, if_neg hne]
  · intro s h hne
    have hm := (qpdMin_state h hch).1
    have hnQ := (qpd_inv (qpdMin_hist h)).nQ hch
    have hnC := qpd_nC (qpdMin_hist h)
    constructor
    · simp only [Qpd.call, hch, Bool.false_and, Qpd.prepare, Qpd.post, Qpd.assign, Qpd.pre, Qpd.resetBounds, Qpd.resize, hm, hnQ]
      simp [hne]
    · simp only [Qpd.call, Qpd.prepare, Qpd.post, Qpd.assign, Qpd.pre, Qpd.resetBounds, Qpd.resize, hm, hnC, if_neg hne, if_true]

/-! ## An objective added to a problem that had none -/

/-- One unknown, the objective `x = 5` in the first row -/
def lateData : Data ℚ :=
  ⟨fun i _ => if i = 0 then some 1 else none, fun i => if i = 0 then some 5 else none, fun _ _ => none, fun _ => 0, fun _ _ => none, fun _ => 0, fun _ => [], fun _ => []⟩

/-- Two unknowns, the objective `2 x₁ = 6` in the first row -/
def lateDataDS : DataDS ℚ :=
  ⟨fun i j => if i = 0 ∧ j = 1 then some 2 else none, fun i => if i = 0 then some 6 else none, fun _ _ => none, fun _ => 0, fun _ => 0, fun _ => [], fun _ => []⟩

def latePat : Pat := ⟨fun i _ => decide (i = 0), fun _ _ => false, fun _ _ => false⟩

def latePatDS : Pat := ⟨fun i j => decide (i = 0 ∧ j = 1), fun _ _ => false, fun _ _ => false⟩

def noPat : Pat := ⟨fun _ _ => false, fun _ _ => false, fun _ _ => false⟩

/-- A point that is not a solution of the least-squares problem of one row -/
theorem late_not_best {F : (Nat → ℚ) → Prop} {n : Nat} {w : Nat → Nat → Option ℚ} {b : Nat → Option ℚ} {x : Nat → ℚ} (y : Nat → ℚ) (hy : F y)
    (hlt : lsq n 1 w b y < lsq n 1 w b x) : ¬ Best F (lsq n 1 w b) x := fun h => absurd (h.2 y hy) (not_le.mpr hlt)

theorem lateData_fits : Fits latePat lateData :=
  ⟨fun i j => by simp only [lateData, latePat]; by_cases h : i = 0 <;> simp [h], fun _ _ => rfl, fun _ _ => rfl⟩

/-- QLD built for the minimum of the norm, then resized for a new row (`nObj_` being the number of unknowns plus one) -/
def lateQld : Qld ℚ := ((Qld.new exJunk).build (exOpts false) 1 1 0 0 exJunk).setMinimumNorm.resize (exOpts false) 1 2 0 0 exJunk

/-- Quadprog -/
def lateQpd : Qpd ℚ := ((Qpd.new exJunk).build (exOpts false) 1 1 0 0 false exJunk).setMinimumNorm.resize (exOpts false) 1 2 0 0 false exJunk

/-- LSSOL -/
def lateLss : Lss ℚ := ((Lss.new exJunk).build (exOpts false) 2 2 0).setMinimumNorm.resize (exOpts false) 2 3 0

/-- LexLS -/
def lateLxl : Lxl ℚ := ((Lxl.new exJunk).build (exOpts false) 2 2 0).setMinimumNorm.resize (exOpts false) 2 3 0

theorem late_feasible (box : Option ℚ) (hbox : ∀ B, box = some B → B = 1000) (v : ℚ) (h1 : -1000 ≤ v) (h2 : v ≤ 1000) : Feasible box 1 0 0 lateData fun _ => v :=
  ⟨fun _ h => absurd h (by omega), fun _ h => absurd h (by omega), fun _ _ =>
    ⟨fun _ h => (by cases h), fun _ h => (by cases h), fun B hB => by rw [hbox B hB]; exact ⟨h1, h2⟩⟩⟩

theorem late_zero_best (box : Option ℚ) (hbox : ∀ B, box = some B → B = 1000) : Best (Feasible box 1 0 0 lateData) (fun y => dot 1 y y) fun _ => 0 := by
  refine ⟨late_feasible box hbox 0 (by norm_num) (by norm_num), fun y _ => ?_⟩
  have h0 : dot 1 (fun _ => (0 : ℚ)) (fun _ => 0) = 0 := dot_zero _ _
  have h1 : 0 ≤ dot 1 y y := sum_nonneg fun i _ => mul_self_nonneg _
  exact h0.trans_le h1

theorem late_lsq (v : ℚ) : lsq 1 1 lateData.obj lateData.objRhs (fun _ => v) = (v - 5) ^ 2 := by
  simp [lsq, dot, coef, lateData]

/-- **C67** (objective added afterwards, QLD and Quadprog) The objective `x = 5` is added, by an event, to a problem that had none: the solver gives `0`. -/
theorem C67_ignored :
    (QldSolution 1 ((lateQld.prepare (exOpts false) lateData).call (exOpts false) exQr) (fun _ => 0) ∧
      ¬ Best (Feasible (some 1000) 1 0 0 lateData) (lsq 1 1 lateData.obj lateData.objRhs) fun _ => 0) ∧
    (QpdSolution 1 ((lateQpd.prepare (exOpts false) exQr lateData).call (exOpts false)) (fun _ => 0) ∧
      ¬ Best (Feasible none 1 0 0 lateData) (lsq 1 1 lateData.obj lateData.objRhs) fun _ => 0) := by
  have hq : QldMin (exOpts false) latePat lateQld := .resize (.start (.first exJunk exJunk noPat 1 1 0 0)) exJunk latePat 2 0 0
  have hp : QpdMin (exOpts false) exQr latePat lateQpd := .resize (.start (.first exJunk exJunk noPat 1 1 0 0 false)) exJunk latePat 2 0 0 false
  refine ⟨⟨?_, ?_⟩, ?_, ?_⟩
  · exact (C67_qld_partial hq rfl lateData_fits _).mpr (late_zero_best _ fun B hB => by cases hB; rfl)
  · refine late_not_best (fun _ => 5) (late_feasible _ (fun B hB => by cases hB; rfl) 5 (by norm_num) (by norm_num)) ?_
    rw [late_lsq, late_lsq]; norm_num
  · exact (C67_quadprog_partial hp rfl lateData_fits (fun _ _ => ⟨rfl, rfl⟩) _).mpr (late_zero_best _ fun B hB => by cases hB)
  · refine late_not_best (fun _ => 5) (late_feasible _ (fun B hB => by cases hB) 5 (by norm_num) (by norm_num)) ?_
    rw [late_lsq, late_lsq]; norm_num

theorem lateDS_fits : FitsDS latePatDS lateDataDS :=
  ⟨fun i j => by simp only [lateDataDS, latePatDS]; by_cases h : i = 0 ∧ j = 1 <;> simp [h], fun _ _ => rfl⟩

theorem lateDS_feasible (v : Nat → ℚ) (h : ∀ k < 2, -1000 ≤ v k ∧ v k ≤ 1000) : FeasibleDS (some 1000) 2 0 lateDataDS v :=
  ⟨fun _ h => absurd h (by omega), fun k hk => ⟨fun _ h => (by cases h), fun _ h => (by cases h), fun B hB => by cases hB; exact h k hk⟩⟩

theorem lateDS_lsq (v : Nat → ℚ) : lsq 2 1 lateDataDS.obj lateDataDS.objRhs v = (2 * v 1 - 6) ^ 2 := by
  simp [lsq, dot, coef, lateDataDS, sum_range_succ]

/-- **C67** (objective added afterwards, LSSOL and LexLS) The objective `2 x₁ = 6` is added to a problem that had none. LSSOL is handed the rows of the identity with the right-hand side of the objective and gives `(6, 0)`. LexLS is handed
`x₀ + 2 x₁ = 6` and `x₁ = 0`, and gives `(6, 0)` as well. -/
theorem C67_mixed :
    LssSolution 2 (lateLss.prepare (exOpts false) lateDataDS).call (fun k => if k = 0 then 6 else 0) ∧
    LexSolution (lateLxl.prepare (exOpts false) lateDataDS) (fun k => if k = 0 then 6 else 0) ∧
    ¬ Best (FeasibleDS (some 1000) 2 0 lateDataDS) (lsq 2 1 lateDataDS.obj lateDataDS.objRhs) fun k => if k = 0 then 6 else 0 := by
  have hl : LssHist (exOpts false) latePatDS lateLss := .resize (.minNorm (.first exJunk noPat 2 2 0)) latePatDS 2 3 0
  have hx : LexHist (exOpts false) latePatDS lateLxl := .resize (.minNorm (.first exJunk noPat 2 2 0)) latePatDS 2 3 0
  have hfe : FeasibleDS (some (exOpts false).big) lateLss.n lateLss.nC lateDataDS fun k => if k = 0 then 6 else 0 :=
    lateDS_feasible _ fun k _ => by by_cases h : k = 0 <;> norm_num [h]
  refine ⟨⟨?_, fun y _ => ?_⟩, ?_, ?_⟩
  · exact (lss_feasible (o := exOpts false) (lss_inv hl) lateDS_fits _).mpr hfe
  · have h0 : ∀ i < 3, (dot 2 ((lateLss.prepare (exOpts false) lateDataDS).call.A i) (fun k => if k = 0 then 6 else 0) -
        (lateLss.prepare (exOpts false) lateDataDS).call.b i) ^ 2 = 0 := by
      intro i hi
      rcases (by omega : i = 0 ∨ i = 1 ∨ i = 2) with rfl | rfl | rfl <;>
        norm_num [dot, sum_range_succ, Lss.call, Lss.prepare, Lss.post, Lss.assign, Lss.pre, Lss.resetBounds, lateLss, Lss.resize, Lss.setMinimumNorm, Lss.build, Lss.new, one, putRhs,
          lateDataDS, rhsSign, coefSign]
    have : (∑ i ∈ range 3, (dot 2 ((lateLss.prepare (exOpts false) lateDataDS).call.A i) (fun k => if k = 0 then 6 else 0) -
        (lateLss.prepare (exOpts false) lateDataDS).call.b i) ^ 2) = 0 := sum_eq_zero fun i hi => h0 i (mem_range.mp hi)
    exact this.trans_le (sum_nonneg fun _ _ => sq_nonneg _)
  · refine (lex_iff (f := fun y => violation 3 (lateLxl.prepare (exOpts false) lateDataDS).l2 (lateLxl.prepare (exOpts false) lateDataDS).u2
      (fun i => dot 2 ((lateLxl.prepare (exOpts false) lateDataDS).A2 i) y)) (lxl_inv hx) lateDS_fits (fun _ => rfl) ⟨_, hfe⟩ _).mpr ⟨hfe, fun y _ => ?_⟩
    have : violation 3 (lateLxl.prepare (exOpts false) lateDataDS).l2 (lateLxl.prepare (exOpts false) lateDataDS).u2
        (fun i => dot 2 ((lateLxl.prepare (exOpts false) lateDataDS).A2 i) (fun k => if k = 0 then 6 else 0)) = 0 := by
      rw [violation_eq_zero]
      intro i hi
      rcases (by omega : i = 0 ∨ i = 1 ∨ i = 2) with rfl | rfl | rfl <;>
        norm_num [dot, sum_range_succ, Lxl.prepare, Lxl.assign, Lxl.resetBounds, lateLxl, Lxl.resize, Lxl.setMinimumNorm, Lxl.build, Lxl.new, one, putRhs, putRows,
          lateDataDS, rhsSign, coefSign]
    exact this.trans_le (violation_nonneg _ _ _ _)
  · refine late_not_best (fun _ => 3) (lateDS_feasible _ fun k _ => by norm_num) ?_
    rw [lateDS_lsq, lateDS_lsq]; norm_num

/-! ## Concrete cases -/

/-- Two unknowns, no objective, the constraint `x₀ + x₁ = 4` -/
def minData : Data ℚ := ⟨fun _ _ => none, fun _ => none, fun _ _ => some 1, fun _ => 4, fun _ _ => none, fun _ => 0, fun _ => [], fun _ => []⟩

def minPat : Pat := ⟨fun _ _ => false, fun _ _ => true, fun _ _ => false⟩

/-- QLD gives `(2, 2)` at the second resolution. -/
example : QldSolution 2 (((((Qld.new exJunk).build (exOpts false) 2 2 1 0 exJunk).setMinimumNorm.prepare (exOpts false) minData).prepare (exOpts false) minData).call (exOpts false) exQr)
    fun _ => 2 := by
  refine (C67_qld_partial (p := minPat) (.solve (.start (.first exJunk exJunk minPat 2 2 1 0)) minData ⟨fun _ _ => rfl, fun _ _ => rfl, fun _ _ => rfl⟩) rfl
    ⟨fun _ _ => rfl, fun _ _ => rfl, fun _ _ => rfl⟩ _).mpr ⟨⟨fun i _ => ?_, fun i hi => ?_, fun k _ => ⟨fun _ h => (by cases h), fun _ h => (by cases h), fun B hB => ?_⟩⟩, fun y hy => ?_⟩
  · show dot 2 (coef minData.eq i) (fun _ => 2) = 4
    norm_num [dot, coef, minData]
  · exact absurd hi (Nat.not_lt_zero i)
  · cases hB; norm_num [exOpts]
  · have h1 : dot 2 (coef minData.eq 0) y = 4 := hy.1 0 (by decide)
    have h2 : y 0 + y 1 = 4 := by simpa [dot, coef, minData, sum_range_succ] using h1
    show dot 2 (fun _ => (2 : ℚ)) (fun _ => 2) ≤ dot 2 y y
    simp only [dot, sum_range_succ, sum_range_zero]
    nlinarith [sq_nonneg (y 0 - y 1)]

end Verif.C67
