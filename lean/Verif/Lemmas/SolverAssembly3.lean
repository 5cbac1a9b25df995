import Verif.Lemmas.SolverAssembly2
/-!
# Lemmas on the runs of the assignments of a solver: they do what the models of the solvers sum up
-/
set_option autoImplicit false
set_option linter.unusedSectionVars false

namespace Verif.ASM
open Verif Verif.AS

section
variable {K : Type} [Field K] [LinearOrder K]

/-! ## Rows -/

/-- The entries written in a matrix, times a sign -/
def rowsOf (big : K) (V : Vars) (now : Now K) (js : List Job) (c : K) : Nat → Nat → Option K :=
  fun i j => if patOf V js i j = true then some (c * (runJobs big V now js zeroMem).A i j) else none

/-- The coefficients written in a vector, times a sign -/
def rhsOf (big : K) (V : Vars) (now : Now K) (js : List Job) (cell : Cell) (c : K) : Nat → K := fun i => c * (runJobs big V now js zeroMem).vec cell i

/-- The same, when they are written -/
def rhsOf? (big : K) (V : Vars) (now : Now K) (js : List Job) (cell : Cell) (c : K) : Nat → Option K :=
  fun i => if rowOf js i = true then some (c * (runJobs big V now js zeroMem).vec cell i) else none

theorem put_rows {big : K} {V : Vars} {now : Now K} {js : List Job} (h : ∀ j ∈ js, Sound V j) {b : Nat} (ht : TiledJobs js b) (off : Nat) (t : QP.Ty) (c : K)
    (hc : QP.coefSign t * c = 1) (A : Nat → Nat → K) (m : Mem K) (hm : ∀ r, m.A r = A (off + r)) :
    back off (runJobs big V now js m).A A = QP.putRows off b t (rowsOf big V now js c) A := by
  funext i k
  simp only [back, QP.putRows, rowsOf]
  by_cases h1 : off ≤ i
  · rw [if_pos h1]
    have e : off + (i - off) = i := by omega
    rw [runJobs_A js h m, hm, e]
    by_cases h2 : i < off + b
    · have h12 : off ≤ i ∧ i < off + b := ⟨h1, h2⟩
      by_cases hp : patOf V js (i - off) k = true
      · simp only [if_pos hp, if_pos h12]
        rw [← mul_assoc, hc, one_mul]
      · simp only [if_neg hp, if_pos h12]
    · have h12 : ¬ (off ≤ i ∧ i < off + b) := fun h => h2 h.2
      have hp : ¬ patOf V js (i - off) k = true := by
        rw [patOf_row (ht.out (by omega))]
        simp
      simp only [if_neg hp, if_neg h12]
  · have h12 : ¬ (off ≤ i ∧ i < off + b) := fun h => h1 h.1
    simp only [if_neg h1, if_neg h12]

theorem put_vec {big : K} {V : Vars} {now : Now K} {js : List Job} (h : ∀ j ∈ js, Sound V j) {b : Nat} (ht : TiledJobs js b) (off : Nat) (t : QP.Ty) (rh : QP.Rhs) (c : K)
    (hc : QP.rhsSign t rh * c = 1) (cell : Cell) (hu : ∀ j ∈ js, Target.uses j.T cell) (v : Nat → K) (m : Mem K) (hm : ∀ r, m.vec cell r = v (off + r)) :
    back off ((runJobs big V now js m).vec cell) v = QP.putVec off b t rh (rhsOf big V now js cell c) v := by
  funext i
  simp only [back, QP.putVec, rhsOf]
  by_cases h1 : off ≤ i
  · rw [if_pos h1]
    have e : off + (i - off) = i := by omega
    rw [runJobs_vec js h cell hu m, hm, e]
    by_cases h2 : i < off + b
    · have h12 : off ≤ i ∧ i < off + b := ⟨h1, h2⟩
      rw [if_pos (ht.cover _ (by omega)), if_pos h12, ← mul_assoc, hc, one_mul]
    · have h12 : ¬ (off ≤ i ∧ i < off + b) := fun h => h2 h.2
      rw [if_neg h12, ht.out (by omega)]
      simp
  · have h12 : ¬ (off ≤ i ∧ i < off + b) := fun h => h1 h.1
    rw [if_neg h1, if_neg h12]

theorem put_rhs {big : K} {V : Vars} {now : Now K} {js : List Job} (h : ∀ j ∈ js, Sound V j) {b : Nat} (ht : TiledJobs js b) (t : QP.Ty) (rh : QP.Rhs) (c : K)
    (hc : QP.rhsSign t rh * c = 1) (cell : Cell) (hu : ∀ j ∈ js, Target.uses j.T cell) (v : Nat → K) (m : Mem K) (hm : ∀ r, m.vec cell r = v r) :
    (runJobs big V now js m).vec cell = QP.putRhs 0 b t rh (rhsOf? big V now js cell c) v := by
  funext i
  simp only [QP.putRhs, rhsOf?, Nat.zero_le, Nat.zero_add, true_and, Nat.sub_zero]
  rw [runJobs_vec js h cell hu m, hm]
  by_cases h2 : i < b
  · simp only [if_pos h2, if_pos (ht.cover _ h2)]
    rw [← mul_assoc, hc, one_mul]
  · rw [if_neg h2, ht.out h2]
    simp

theorem back_zero {α : Type} (f g : Nat → α) : back 0 f g = f := by
  funext i; simp [back]

/-! ## Bounds -/

/-- The lower bounds put on a component -/
def loOf (big : K) (bs : List (C38.Bound K)) (k : Nat) : List K :=
  (bs.filter fun b => decide (b.start ≤ k ∧ k < b.start + b.n)).map fun b => (b.ival big (k - b.start)).1

/-- The upper bounds put on a component -/
def upOf (big : K) (bs : List (C38.Bound K)) (k : Nat) : List K :=
  (bs.filter fun b => decide (b.start ≤ k ∧ k < b.start + b.n)).map fun b => (b.ival big (k - b.start)).2

theorem runBounds_at (big : K) (bs : List (C38.Bound K)) (h : ∀ b ∈ bs, b.Honest) (m : Mem K) (k : Nat) :
    (runBounds big bs m).vec .l k = (loOf big bs k).foldl max (m.vec .l k) ∧ (runBounds big bs m).vec .u k = (upOf big bs k).foldl min (m.vec .u k) := by
  induction bs generalizing m with
  | nil => exact ⟨rfl, rfl⟩
  | cons b bs ih =>
    have hi := ih (fun c hc => h c (List.mem_cons_of_mem _ hc)) (b.run big false m)
    have e : runBounds big (b :: bs) m = runBounds big bs (b.run big false m) := rfl
    have hr := C38.run_at big false b (h b List.mem_cons_self) m k
    rw [e, hi.1, hi.2, hr.1, hr.2]
    simp only [loOf, upOf, List.filter_cons]
    by_cases hk : b.start ≤ k ∧ k < b.start + b.n
    · simp [hk]
    · simp [hk]

theorem bounds_out (big : K) (bs : List (C38.Bound K)) {n : Nat} (hn : ∀ b ∈ bs, 0 < b.n → b.start + b.n ≤ n) {k : Nat} (hk : ¬ k < n) :
    loOf big bs k = [] ∧ upOf big bs k = [] := by
  have : bs.filter (fun b => decide (b.start ≤ k ∧ k < b.start + b.n)) = [] := by
    rw [List.filter_eq_nil_iff]
    intro b hb
    simp only [decide_eq_true_eq]
    intro h
    have := hn b hb (by omega)
    omega
  simp only [loOf, upOf, this, List.map_nil, and_self]

theorem put_lo (big : K) (bs : List (C38.Bound K)) (h : ∀ b ∈ bs, b.Honest) {n : Nat} (hn : ∀ b ∈ bs, 0 < b.n → b.start + b.n ≤ n) (m : Mem K) :
    (runBounds big bs m).vec .l = QP.putLo 0 n (loOf big bs) (m.vec .l) ∧ (runBounds big bs m).vec .u = QP.putUp 0 n (upOf big bs) (m.vec .u) := by
  constructor <;> funext k <;> simp only [QP.putLo, QP.putUp, Nat.zero_le, Nat.zero_add, true_and, Nat.sub_zero]
  · rw [(runBounds_at big bs h m k).1]
    by_cases hk : k < n
    · rw [if_pos hk]
    · rw [if_neg hk, (bounds_out big bs hn hk).1]; rfl
  · rw [(runBounds_at big bs h m k).2]
    by_cases hk : k < n
    · rw [if_pos hk]
    · rw [if_neg hk, (bounds_out big bs hn hk).2]; rfl

/-! ## The solvers -/

/-- What the assignments of a run write: objectives with the sign `so` for the right-hand side, equality constraints with `se`, inequality constraints with `ci` for the matrix and `si` for the
right-hand side -/
def dataOf (big : K) (r : Run K) (so se ci si : K) : QP.Data K :=
  ⟨rowsOf big r.V r.now r.obj 1, rhsOf? big r.V r.now r.obj .b so, rowsOf big r.V r.now r.eq 1, rhsOf big r.V r.now r.eq .b se, rowsOf big r.V r.now r.ineq ci,
    rhsOf big r.V r.now r.ineq .b si, loOf big r.bnd, upOf big r.bnd⟩

/-- What the assignments of a run write for the solvers with double-sided rows; `cell` is the vector of the objectives. -/
def dataDS (big : K) (r : Run K) (cell : Cell) : QP.DataDS K :=
  ⟨rowsOf big r.V r.now r.obj 1, rhsOf? big r.V r.now r.obj cell 1, rowsOf big r.V r.now (r.eq ++ r.ineq) 1, rhsOf big r.V r.now (r.eq ++ r.ineq) .l 1,
    rhsOf big r.V r.now (r.eq ++ r.ineq) .u 1, loOf big r.bnd, upOf big r.bnd⟩

/-- The assignments of a run for a solver with separate equality and inequality constraints -/
structure Good (r : Run K) (n nObj nEq nIneq : Nat) : Prop where
  sound : ∀ j ∈ r.obj ++ r.eq ++ r.ineq, Sound r.V j
  uses : ∀ j ∈ r.obj ++ r.eq ++ r.ineq, Target.uses j.T .b
  obj : TiledJobs r.obj nObj
  eq : TiledJobs r.eq nEq
  ineq : TiledJobs r.ineq nIneq
  honest : ∀ b ∈ r.bnd, b.Honest
  bnd : ∀ b ∈ r.bnd, 0 < b.n → b.start + b.n ≤ n

/-- Same for the solvers with double-sided rows; `single` when the objectives have one vector -/
structure GoodDS (r : Run K) (n nObj nC : Nat) (single : Bool) : Prop where
  soundO : ∀ j ∈ r.obj, Sound r.V j
  soundC : ∀ j ∈ r.eq ++ r.ineq, Sound r.V j
  usesO : ∀ j ∈ r.obj, if single = true then Target.uses j.T .b else Target.uses j.T .l ∧ Target.uses j.T .u
  usesC : ∀ j ∈ r.eq ++ r.ineq, Target.uses j.T .l ∧ Target.uses j.T .u
  obj : TiledJobs r.obj nObj
  cstr : TiledJobs (r.eq ++ r.ineq) nC
  honest : ∀ b ∈ r.bnd, b.Honest
  bnd : ∀ b ∈ r.bnd, 0 < b.n → b.start + b.n ≤ n

theorem Good.parts {r : Run K} {n nObj nEq nIneq : Nat} (h : Good r n nObj nEq nIneq) :
    (∀ j ∈ r.obj, Sound r.V j ∧ Target.uses j.T .b) ∧ (∀ j ∈ r.eq, Sound r.V j ∧ Target.uses j.T .b) ∧ ∀ j ∈ r.ineq, Sound r.V j ∧ Target.uses j.T .b := by
  refine ⟨fun j hj => ?_, fun j hj => ?_, fun j hj => ?_⟩ <;> exact ⟨h.sound j (by simp [hj]), h.uses j (by simp [hj])⟩

theorem qld_assign (big : K) {r : Run K} {s : QP.Qld K} (h : Good r s.n s.nObj s.nEq s.nIneq) : qldAssign big r s = s.assign (dataOf big r (-1) (-1) 1 (-1)) := by
  obtain ⟨ho, he, hi⟩ := h.parts
  have so := fun j hj => (ho j hj).1
  have se := fun j hj => (he j hj).1
  have si := fun j hj => (hi j hj).1
  have e1 := put_rows (big := big) (now := r.now) so h.obj 0 .equal 1 (by simp [QP.coefSign]) s.D (block 0 s.D s.e) (fun _ => rfl)
  have e2 := put_rhs (big := big) (now := r.now) so h.obj .equal .opposite (-1) (by simp [QP.rhsSign, QP.coefSign]) .b (fun j hj => (ho j hj).2) s.e (block 0 s.D s.e) (by simp [block])
  have e3 := put_rows (big := big) (now := r.now) se h.eq 0 .equal 1 (by simp [QP.coefSign]) s.A (block 0 s.A s.b) (fun _ => rfl)
  have e4 := put_vec (big := big) (now := r.now) se h.eq 0 .equal .opposite (-1) (by simp [QP.rhsSign, QP.coefSign]) .b (fun j hj => (he j hj).2) s.b (block 0 s.A s.b) (by simp [block])
  rw [back_zero] at e1 e3 e4
  have e5 := put_rows (big := big) (now := r.now) si h.ineq (s.nEq + s.nIneq - s.nIneq) .greater 1 (by simp [QP.coefSign]) (runJobs big r.V r.now r.eq (block 0 s.A s.b)).A
    (block (s.nEq + s.nIneq - s.nIneq) (runJobs big r.V r.now r.eq (block 0 s.A s.b)).A ((runJobs big r.V r.now r.eq (block 0 s.A s.b)).vec .b)) (fun _ => rfl)
  have e6 := put_vec (big := big) (now := r.now) si h.ineq (s.nEq + s.nIneq - s.nIneq) .greater .opposite (-1) (by simp [QP.rhsSign, QP.coefSign]) .b (fun j hj => (hi j hj).2)
    ((runJobs big r.V r.now r.eq (block 0 s.A s.b)).vec .b)
    (block (s.nEq + s.nIneq - s.nIneq) (runJobs big r.V r.now r.eq (block 0 s.A s.b)).A ((runJobs big r.V r.now r.eq (block 0 s.A s.b)).vec .b)) (by simp [block])
  obtain ⟨e7, e8⟩ := put_lo big r.bnd h.honest h.bnd (block2 (fun _ _ => 0) 0 s.xl s.xu)
  have l1 : (block2 (fun _ _ => (0 : K)) 0 s.xl s.xu).vec .l = s.xl := by funext k; simp [block2]
  have l2 : (block2 (fun _ _ => (0 : K)) 0 s.xl s.xu).vec .u = s.xu := by funext k; simp [block2]
  rw [l1] at e7
  rw [l2] at e8
  simp only [qldAssign, QP.Qld.assign, dataOf]
  rw [e1, e2, e7, e8, e5, e6, e3, e4]

theorem qpd_assign (big : K) {r : Run K} {s : QP.Qpd K} (h : Good r s.n s.nObj s.nEq s.nIneq) : qpdAssign big r s = s.assign (dataOf big r (-1) 1 (-1) (-1)) := by
  obtain ⟨ho, he, hi⟩ := h.parts
  have so := fun j hj => (ho j hj).1
  have se := fun j hj => (he j hj).1
  have si := fun j hj => (hi j hj).1
  have e1 := put_rows (big := big) (now := r.now) so h.obj 0 .equal 1 (by simp [QP.coefSign]) s.D (block 0 s.D s.e) (fun _ => rfl)
  have e2 := put_rhs (big := big) (now := r.now) so h.obj .equal .opposite (-1) (by simp [QP.rhsSign, QP.coefSign]) .b (fun j hj => (ho j hj).2) s.e (block 0 s.D s.e) (by simp [block])
  have e3 := put_rows (big := big) (now := r.now) se h.eq 0 .equal 1 (by simp [QP.coefSign]) s.A (block 0 s.A s.b) (fun _ => rfl)
  have e4 := put_vec (big := big) (now := r.now) se h.eq 0 .equal .asGiven 1 (by simp [QP.rhsSign, QP.coefSign]) .b (fun j hj => (he j hj).2) s.b (block 0 s.A s.b) (by simp [block])
  rw [back_zero] at e1 e3 e4
  have e5 := put_rows (big := big) (now := r.now) si h.ineq s.nEq .lower (-1) (by simp [QP.coefSign]) (runJobs big r.V r.now r.eq (block 0 s.A s.b)).A
    (block s.nEq (runJobs big r.V r.now r.eq (block 0 s.A s.b)).A ((runJobs big r.V r.now r.eq (block 0 s.A s.b)).vec .b)) (fun _ => rfl)
  have e6 := put_vec (big := big) (now := r.now) si h.ineq s.nEq .lower .asGiven (-1) (by simp [QP.rhsSign, QP.coefSign]) .b (fun j hj => (hi j hj).2)
    ((runJobs big r.V r.now r.eq (block 0 s.A s.b)).vec .b)
    (block s.nEq (runJobs big r.V r.now r.eq (block 0 s.A s.b)).A ((runJobs big r.V r.now r.eq (block 0 s.A s.b)).vec .b)) (by simp [block])
  simp only [qpdAssign, QP.Qpd.assign, dataOf]
  rw [e5, e6, e1, e2, e3, e4]
  congr 1
  funext i
  simp only [backSeg, QP.putUp, QP.putLo]
  have hb := fun m k => runBounds_at big r.bnd h.honest m k
  by_cases hu : s.offU ≤ i ∧ i < s.offU + s.nB
  · rw [if_pos hu, if_pos hu, (hb _ _).2]
    have e : s.offU + (i - s.offU) = i := by omega
    have hl : ¬ (s.offL ≤ i ∧ i < s.offL + s.nB) := by
      have : s.offL + s.nB ≤ s.offU := by
        simp only [QP.Qpd.offL, QP.Qpd.offU, QP.Qpd.nB]
        cases s.bounds <;> simp
      omega
    rw [if_neg hl]
    simp [e]
  · rw [if_neg hu, if_neg hu]
    by_cases hl : s.offL ≤ i ∧ i < s.offL + s.nB
    · rw [if_pos hl, if_pos hl, (hb _ _).1]
      have e : s.offL + (i - s.offL) = i := by omega
      simp [e]
    · rw [if_neg hl, if_neg hl]

theorem lss_assign (big : K) {r : Run K} {s : QP.Lss K} (h : GoodDS r s.n s.nObj s.nC true) : lssAssign big r s = s.assign (dataDS big r .b) := by
  have e1 := put_rows (big := big) (now := r.now) h.soundO h.obj 0 .equal 1 (by simp [QP.coefSign]) s.A (block 0 s.A s.b) (fun _ => rfl)
  have e2 := put_rhs (big := big) (now := r.now) h.soundO h.obj .equal .asGiven 1 (by simp [QP.rhsSign, QP.coefSign]) .b (fun j hj => by simpa using h.usesO j hj) s.b (block 0 s.A s.b) (by simp [block])
  have e3 := put_rows (big := big) (now := r.now) h.soundC h.cstr 0 .equal 1 (by simp [QP.coefSign]) s.C (block2 s.C (s.nC + s.n - s.nC) s.l s.u) (fun r => by simp [block2])
  have e4 := put_vec (big := big) (now := r.now) h.soundC h.cstr (s.nC + s.n - s.nC) .equal .asGiven 1 (by simp [QP.rhsSign, QP.coefSign]) .l (fun j hj => (h.usesC j hj).1) s.l
    (block2 s.C (s.nC + s.n - s.nC) s.l s.u) (by simp [block2])
  have e5 := put_vec (big := big) (now := r.now) h.soundC h.cstr (s.nC + s.n - s.nC) .equal .asGiven 1 (by simp [QP.rhsSign, QP.coefSign]) .u (fun j hj => (h.usesC j hj).2) s.u
    (block2 s.C (s.nC + s.n - s.nC) s.l s.u) (by simp [block2])
  rw [back_zero] at e1 e3
  simp only [lssAssign, QP.Lss.assign, dataDS]
  rw [e1, e2, e3, e4, e5]
  obtain ⟨e7, e8⟩ := put_lo big r.bnd h.honest h.bnd (block2 (fun _ _ => 0) 0
    (QP.putVec (s.nC + s.n - s.nC) s.nC .equal .asGiven (rhsOf big r.V r.now (r.eq ++ r.ineq) .l 1) s.l)
    (QP.putVec (s.nC + s.n - s.nC) s.nC .equal .asGiven (rhsOf big r.V r.now (r.eq ++ r.ineq) .u 1) s.u))
  rw [e7, e8]
  congr 1
  · congr 1; funext k; simp [block2]
  · congr 1; funext k; simp [block2]

theorem lxl_assign (big : K) {r : Run K} {s : QP.Lxl K} (h : GoodDS r s.n s.nObj s.nC false) (hlu : rhsOf? big r.V r.now r.obj .u 1 = rhsOf? big r.V r.now r.obj .l 1) :
    lxlAssign big r s = s.assign (dataDS big r .l) := by
  have e1 := put_rows (big := big) (now := r.now) h.soundO h.obj 0 .equal 1 (by simp [QP.coefSign]) s.A2 (block2 s.A2 0 s.l2 s.u2) (fun r => by simp [block2])
  have e2 := put_rhs (big := big) (now := r.now) h.soundO h.obj .equal .asGiven 1 (by simp [QP.rhsSign, QP.coefSign]) .l
    (fun j hj => by have := h.usesO j hj; simp at this; exact this.1) s.l2 (block2 s.A2 0 s.l2 s.u2) (by simp [block2])
  have e2' := put_rhs (big := big) (now := r.now) h.soundO h.obj .equal .asGiven 1 (by simp [QP.rhsSign, QP.coefSign]) .u
    (fun j hj => by have := h.usesO j hj; simp at this; exact this.2) s.u2 (block2 s.A2 0 s.l2 s.u2) (by simp [block2])
  have e3 := put_rows (big := big) (now := r.now) h.soundC h.cstr 0 .equal 1 (by simp [QP.coefSign]) s.A1 (block2 s.A1 0 s.l1 s.u1) (fun r => by simp [block2])
  have e4 := put_vec (big := big) (now := r.now) h.soundC h.cstr 0 .equal .asGiven 1 (by simp [QP.rhsSign, QP.coefSign]) .l (fun j hj => (h.usesC j hj).1) s.l1
    (block2 s.A1 0 s.l1 s.u1) (by simp [block2])
  have e5 := put_vec (big := big) (now := r.now) h.soundC h.cstr 0 .equal .asGiven 1 (by simp [QP.rhsSign, QP.coefSign]) .u (fun j hj => (h.usesC j hj).2) s.u1
    (block2 s.A1 0 s.l1 s.u1) (by simp [block2])
  rw [back_zero] at e1 e3 e4 e5
  obtain ⟨e7, e8⟩ := put_lo big r.bnd h.honest h.bnd (block2 (fun _ _ => 0) 0 s.xl s.xu)
  have l1 : (block2 (fun _ _ => (0 : K)) 0 s.xl s.xu).vec .l = s.xl := by funext k; simp [block2]
  have l2 : (block2 (fun _ _ => (0 : K)) 0 s.xl s.xu).vec .u = s.xu := by funext k; simp [block2]
  rw [l1] at e7
  rw [l2] at e8
  simp only [lxlAssign, QP.Lxl.assign, dataDS]
  rw [e1, e2, e2', e3, e4, e5, e7, e8, hlu]

end
end Verif.ASM
