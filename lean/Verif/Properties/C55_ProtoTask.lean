import Verif.Model.ProtoTask
import Verif.Properties.C48_LinearizedTask
import Verif.Properties.C53_AffineFunction
/-!
# C55: the operators that form tasks keep the meaning of what is written

A user writes `f == r`, `r == f`, `f >= r`, `r >= f`, `f <= r`, `r <= f`, `l <= f <= u` or `u >= f >= l`, where `f` is a function, a variable or an expression and the
bounds are numbers or vectors. The task has the relation that is written, and for variables and expressions added without dynamics the linear constraint too.
-/
set_option autoImplicit false
set_option linter.unusedSectionVars false

namespace Verif.C55
open Verif TD LTask Proto

variable {K : Type} [Field K] [LinearOrder K] [IsStrictOrderedRing K]

/-! ## Specification -/

/-- A bound, as given by the user -/
inductive Arg (K : Type) where
  | scalar (d : K)
  | vec (n : Nat) (v : Nat → K)

/-- Component `i` of the bound -/
def Arg.at (a : Arg K) (i : Nat) : K :=
  match a with
  | .scalar d => d
  | .vec _ v => v i

/-- A vector has the size `n`. -/
def Arg.Fits (n : Nat) : Arg K → Prop
  | .scalar _ => True
  | .vec m _ => m = n

/-- What is written, `f` being the operand that is not a bound. The last two are `(f >= l) <= u` and `(f <= u) >= l`. -/
inductive Written (K : Type) where
  | eqL (r : Arg K)
  | eqR (r : Arg K)
  | geL (r : Arg K)
  | geR (r : Arg K)
  | leL (r : Arg K)
  | leR (r : Arg K)
  | leLe (l u : Arg K)
  | geGe (u l : Arg K)
  | geLe (l u : Arg K)
  | leGe (u l : Arg K)

/-- The relation that is written, for the value `y` of size `n` of the operand -/
def Written.Says (n : Nat) (y : Nat → K) : Written K → Prop
  | .eqL r => ∀ i, i < n → y i = r.at i
  | .eqR r => ∀ i, i < n → r.at i = y i
  | .geL r => ∀ i, i < n → y i ≥ r.at i
  | .geR r => ∀ i, i < n → r.at i ≥ y i
  | .leL r => ∀ i, i < n → y i ≤ r.at i
  | .leR r => ∀ i, i < n → r.at i ≤ y i
  | .leLe l u => ∀ i, i < n → l.at i ≤ y i ∧ y i ≤ u.at i
  | .geGe u l => ∀ i, i < n → u.at i ≥ y i ∧ y i ≥ l.at i
  | .geLe l u => ∀ i, i < n → y i ≥ l.at i ∧ y i ≤ u.at i
  | .leGe u l => ∀ i, i < n → y i ≤ u.at i ∧ y i ≥ l.at i

/-- The vectors have the size `n`. -/
def Written.Fits (n : Nat) : Written K → Prop
  | .eqL r | .eqR r | .geL r | .geR r | .leL r | .leR r => r.Fits n
  | .leLe a b | .geGe a b | .geLe a b | .leGe a b => a.Fits n ∧ b.Fits n

/-- The relation that a task asks of the value `y` of size `n` of its function -/
def TaskSays (n : Nat) (y : Nat → K) (T : TaskObj K) : Prop :=
  match T.type with
  | .equal => ∀ i, i < n → y i = T.td.rhs.v i
  | .greaterThan => ∀ i, i < n → T.td.rhs.v i ≤ y i
  | .lowerThan => ∀ i, i < n → y i ≤ T.td.rhs.v i
  | .doubleSided => ∃ d, T.td2 = some d ∧ ∀ i, i < n → T.td.rhs.v i ≤ y i ∧ y i ≤ d.rhs.v i

/-- The objects of the dynamics are made for the side they are used for. -/
def TaskSides (d : Dyn K) (T : TaskObj K) : Prop :=
  T.td.dyn = d ∧
  match T.type with
  | .doubleSided => T.td.type = .greaterThan ∧ ∃ d2, T.td2 = some d2 ∧ d2.dyn = d ∧ d2.type = .lowerThan
  | t => T.td.type = t ∧ T.td2 = none

/-! ## What the compiler does with the spellings -/

/-- The result of the operators -/
inductive AnyProto (F K : Type) where
  | eq (p : EQ F K)
  | lt (p : LT F K)
  | gt (p : GT F K)
  | ds (p : DS F K)

/-- The conversion of a bound to `RHS` -/
def Arg.rhs : Arg K → RHS K
  | .scalar d => .ofDouble d
  | .vec n v => .ofVector n v

/-- The operators called for an operand that is a function -/
def writeF {F : Type} [Sized F] (f : F) : Written K → Outcome Unit (AnyProto F K)
  | .eqL r => andThen (eqFR f r.rhs) fun p => .ok () (.eq p)
  | .eqR r => andThen (eqRF r.rhs f) fun p => .ok () (.eq p)
  | .geL r => andThen (geFR f r.rhs) fun p => .ok () (.gt p)
  | .geR r => andThen (geRF r.rhs f) fun p => .ok () (.lt p)
  | .leL r => andThen (leFR f r.rhs) fun p => .ok () (.lt p)
  | .leR r => andThen (leRF r.rhs f) fun p => .ok () (.gt p)
  | .leLe l u => andThen (leRF l.rhs f) fun p => andThen (leGT p u.rhs) fun q => .ok () (.ds q)
  | .geGe u l => andThen (geRF u.rhs f) fun p => andThen (geLT p l.rhs) fun q => .ok () (.ds q)
  | .geLe l u => andThen (geFR f l.rhs) fun p => andThen (leGT p u.rhs) fun q => .ok () (.ds q)
  | .leGe u l => andThen (leFR f u.rhs) fun p => andThen (geLT p l.rhs) fun q => .ok () (.ds q)

/-- The operators called for a variable or an expression -/
def writeO (o : Operand K) : Written K → Outcome Unit (AnyProto (AF.Fn K) K)
  | .eqL r => andThen (eqOR o r.rhs) fun p => .ok () (.eq p)
  | .eqR r => andThen (eqRO r.rhs o) fun p => .ok () (.eq p)
  | .geL r => andThen (geOR o r.rhs) fun p => .ok () (.gt p)
  | .geR r => andThen (geRO r.rhs o) fun p => .ok () (.lt p)
  | .leL r => andThen (leOR o r.rhs) fun p => .ok () (.lt p)
  | .leR r => andThen (leRO r.rhs o) fun p => .ok () (.gt p)
  | .leLe l u => andThen (leRO l.rhs o) fun p => andThen (leGT p u.rhs) fun q => .ok () (.ds q)
  | .geGe u l => andThen (geRO u.rhs o) fun p => andThen (geLT p l.rhs) fun q => .ok () (.ds q)
  | .geLe l u => andThen (geOR o l.rhs) fun p => andThen (leGT p u.rhs) fun q => .ok () (.ds q)
  | .leGe u l => andThen (leOR o u.rhs) fun p => andThen (geLT p l.rhs) fun q => .ok () (.ds q)

/-- The constructor of `Task` that is called -/
def AnyProto.task (p : AnyProto (LTask.Fn K) K) (d : Dyn K) : Outcome Unit (TaskObj K) :=
  match p with
  | .eq p => p.task d
  | .lt p => p.task d
  | .gt p => p.task d
  | .ds p => p.task d

/-- The conversion to `ProtoTask` -/
def AnyProto.map {F G : Type} (g : F → G) : AnyProto F K → AnyProto G K
  | .eq p => .eq (p.map g)
  | .lt p => .lt (p.map g)
  | .gt p => .gt (p.map g)
  | .ds p => .ds (p.map g)

/-! ## Lemmas -/

theorem fits_iff (n : Nat) (a : Arg K) : a.rhs.fits n = true ↔ a.Fits n := by
  cases a with
  | scalar d =>
    simp only [Arg.rhs, RHS.ofDouble, Arg.Fits, iff_true]
    by_cases h : d = 0 <;> simp [h, RHS.fits]
  | vec m v =>
    simp only [Arg.rhs, RHS.ofVector, Arg.Fits, RHS.fits, decide_eq_true_iff]
    exact eq_comm

theorem toVector_at {n : Nat} {a : Arg K} (h : a.Fits n) : ∃ v, a.rhs.toVector n = .ok () v ∧ v.n = n ∧ v.v = a.at := by
  cases a with
  | scalar d =>
    by_cases hd : d = 0
    · exact ⟨⟨n, fun _ => 0⟩, by simp [Arg.rhs, RHS.ofDouble, hd, RHS.toVector], rfl, by funext i; simp [Arg.at, hd]⟩
    · exact ⟨⟨n, fun _ => d⟩, by simp [Arg.rhs, RHS.ofDouble, hd, RHS.toVector], rfl, by funext i; simp [Arg.at]⟩
  | vec m v =>
    simp only [Arg.Fits] at h
    subst h
    exact ⟨⟨m, v⟩, by simp [Arg.rhs, RHS.ofVector, RHS.toVector], rfl, by funext i; simp [Arg.at]⟩

/-- The type and bounds that are written -/
def norm : Written K → CType × Arg K × Arg K
  | .eqL r | .eqR r => (.equal, r, r)
  | .geL r | .leR r => (.greaterThan, r, r)
  | .geR r | .leL r => (.lowerThan, r, r)
  | .leLe l u | .geGe u l | .geLe l u | .leGe u l => (.doubleSided, l, u)

/-- The object made by the operators -/
def normProto {F : Type} (f : F) (w : Written K) : AnyProto F K :=
  match norm w with
  | (.equal, l, _) => .eq ⟨f, l.rhs⟩
  | (.greaterThan, l, _) => .gt ⟨f, l.rhs⟩
  | (.lowerThan, l, _) => .lt ⟨f, l.rhs⟩
  | (.doubleSided, l, u) => .ds ⟨f, l.rhs, u.rhs⟩

theorem fits_norm (n : Nat) (w : Written K) : w.Fits n ↔ (norm w).2.1.Fits n ∧ (norm w).2.2.Fits n := by
  cases w <;> simp only [Written.Fits, norm, and_self] <;> exact and_comm

theorem says_norm (n : Nat) (y : Nat → K) (w : Written K) : w.Says n y ↔ ∀ i, i < n → match (norm w).1 with
    | .equal => y i = (norm w).2.1.at i
    | .greaterThan => (norm w).2.1.at i ≤ y i
    | .lowerThan => y i ≤ (norm w).2.1.at i
    | .doubleSided => (norm w).2.1.at i ≤ y i ∧ y i ≤ (norm w).2.2.at i := by
  cases w <;> simp only [Written.Says, norm, ge_iff_le]
  · exact forall_congr' fun i => forall_congr' fun _ => eq_comm
  · exact forall_congr' fun i => forall_congr' fun _ => and_comm
  · exact forall_congr' fun i => forall_congr' fun _ => and_comm

theorem writeF_fits {F : Type} [Sized F] (f : F) (w : Written K) (h : w.Fits (Sized.size f)) :
    writeF f w = .ok () (normProto f w) := by
  cases w <;> simp only [Written.Fits, ← fits_iff] at h <;>
    simp [writeF, eqFR, eqRF, geFR, geRF, leFR, leRF, geLT, leGT, EQ.make, LT.make, GT.make, DS.make, h, andThen, normProto, norm]

theorem writeF_throws {F : Type} [Sized F] (f : F) (w : Written K) (h : ¬ w.Fits (Sized.size f)) : writeF f w = .throw () := by
  cases w with
  | eqL r | eqR r | geL r | geR r | leL r | leR r =>
    simp only [Written.Fits, ← fits_iff] at h
    simp [writeF, eqFR, eqRF, geFR, geRF, leFR, leRF, EQ.make, LT.make, GT.make, h, andThen]
  | leLe a b | geGe a b | geLe a b | leGe a b =>
    simp only [Written.Fits, ← fits_iff] at h
    by_cases ha : a.rhs.fits (Sized.size f) = true <;> by_cases hb : b.rhs.fits (Sized.size f) = true
    · exact absurd ⟨ha, hb⟩ h
    all_goals
      simp [writeF, geFR, geRF, leFR, leRF, geLT, leGT, LT.make, GT.make, DS.make, ha, hb, andThen]

theorem writeO_eq (o : Operand K) (w : Written K) {f : AF.Fn K} (h : o.fn = .ok () f) : writeO o w = writeF f w := by
  cases w <;> simp only [writeO, writeF, eqOR, eqRO, geOR, geRO, leOR, leRO, h, andThen, eqFR, eqRF, geFR, geRF, leFR, leRF]

/-- The task made from what is written -/
def normTask (f : LTask.Fn K) (w : Written K) (d : Dyn K) (l u : Nat → K) : Option (TaskObj K) :=
  match (norm w).1 with
  | .doubleSided => makeTask2 f .doubleSided d ⟨f.size, l⟩ ⟨f.size, u⟩
  | t => makeTask f t d ⟨f.size, l⟩

theorem task_norm (f : LTask.Fn K) (w : Written K) (d : Dyn K) (h : w.Fits f.size) :
    (normProto f w).task d = ofOption (normTask f w d (norm w).2.1.at (norm w).2.2.at) := by
  rw [fits_norm] at h
  obtain ⟨h1, h2⟩ := h
  unfold normProto normTask
  generalize norm w = x at h1 h2
  obtain ⟨t, a, b⟩ := x
  obtain ⟨v, v1, v2, v3⟩ := toVector_at h1
  obtain ⟨v', v1', v2', v3'⟩ := toVector_at h2
  cases v; cases v'
  simp only at v1 v2 v3 v1' v2' v3'
  subst v2 v3 v2' v3'
  cases t <;>
    simp only [AnyProto.task, EQ.task, LT.task, GT.task, DS.task, v1, v1', andThen]

theorem normTask_some {f : LTask.Fn K} {w : Written K} {d : Dyn K} {l u : Nat → K} {T : TaskObj K} (h : normTask f w d l u = some T) :
    T = ⟨(norm w).1, ⟨d, if (norm w).1 = .doubleSided then .greaterThan else (norm w).1, ⟨f.size, l⟩⟩,
      if (norm w).1 = .doubleSided then some ⟨d, .lowerThan, ⟨f.size, u⟩⟩ else none⟩ := by
  unfold normTask at h
  by_cases h1 : d.accepts f ⟨f.size, l⟩ = true <;> by_cases h2 : d.accepts f ⟨f.size, u⟩ = true <;>
    cases he : f.euclidean <;> cases ht : (norm w).1 <;>
    simp [ht, makeTask, makeTask2, Dyn.impl, h1, h2, he] at h <;> simp [← h]

/-! ## Properties -/

/-- **C55** For a function `f` of size `n`: if the vectors that are written have the size `n`, every spelling gives a proto task, and the task that is made from it with any
dynamics asks for the relation that was written, each side having its own dynamics; the task is made when the dynamics accepts the bounds. If a vector has another size,
an exception is thrown. -/
theorem C55_function (f : LTask.Fn K) (w : Written K) :
    (w.Fits f.size → ∃ p, writeF f w = .ok () p ∧ ∀ d, p.task d ≠ .ub ∧
      (∀ T, p.task d = .ok () T → TaskSides d T ∧ ∀ y, TaskSays f.size y T ↔ w.Says f.size y) ∧
      (f.euclidean = true → (∀ v, v.n = f.size → d.accepts f v = true) → ∃ T, p.task d = .ok () T)) ∧
    (¬ w.Fits f.size → writeF f w = .throw ()) := by
  refine ⟨fun hw => ⟨normProto f w, writeF_fits f w hw, fun d => ⟨?_, ?_, ?_⟩⟩, fun hw => writeF_throws f w hw⟩
  · rw [task_norm f w d hw]
    unfold ofOption
    split <;> simp
  · intro T hT
    rw [task_norm f w d hw] at hT
    have hT' : normTask f w d (norm w).2.1.at (norm w).2.2.at = some T := by
      unfold ofOption at hT
      split at hT
      · rename_i x hx; simp only [Outcome.ok.injEq, true_and] at hT; subst hT; exact hx
      · cases hT
    clear hT hw
    have e := normTask_some hT'
    subst e
    constructor
    · cases ht : (norm w).1 <;> simp [TaskSides]
    · intro y
      rw [says_norm]
      cases ht : (norm w).1 <;> simp [TaskSays]
  · intro he hd
    rw [task_norm f w d hw]
    unfold normTask
    have h1 := hd ⟨f.size, (norm w).2.1.at⟩ rfl
    have h2 := hd ⟨f.size, (norm w).2.2.at⟩ rfl
    cases ht : (norm w).1 <;> simp [makeTask, makeTask2, Dyn.impl, h1, h2, he, ofOption]

/-! ## Variables and expressions -/

/-- The operand has value of size `m`, its matrices, variables and constant have coherent sizes. -/
def Coherent (R : C53.Roots) (m : Nat) : Operand K → Prop
  | .var x => C53.Part R x ∧ x.size = m
  | .lin t => C53.Sized R m t
  | .aff a => C53.Coherent R m a

/-- The value of the operand -/
def value (o : Operand K) (val : Nat → Nat → K) (r : Nat) : K :=
  match o with
  | .var x => val x.root.id (x.start + r)
  | .lin t => C53.termVal t val r
  | .aff a => C53.meaning a val r

theorem fn_value {R : C53.Roots} {m : Nat} {o : Operand K} (h : Coherent R m o) :
    ∃ f, o.fn = .ok () f ∧ f.size = m ∧ ∀ val r, r < m → f.value val r = value o val r := by
  cases o with
  | lin t =>
    obtain ⟨f, h1, h2, h3, -⟩ := C53.C53_linear h
    exact ⟨f, h1, h2, fun val r _ => h3 val r⟩
  | aff a =>
    obtain ⟨f, h1, h2, h3, -⟩ := C53.C53_affine h
    exact ⟨f, h1, h2, fun val r _ => h3 val r⟩
  | var x =>
    obtain ⟨hx, hm⟩ := h
    subst hm
    have h1 : AF.ofLists [(x.size, x.size, fun r c => if r = c then (1 : K) else 0)] [x] ⟨x.size, fun _ => 0⟩ =
        .ok () ⟨x.size, [⟨x, fun r c => if r = c then 1 else 0, .general⟩], fun _ => 0⟩ := by
      simp [AF.ofLists, AF.pairs, AF.Fn.addAll, AF.Fn.add, AF.addVariable, AF.Fn.setB, AF.Kind.shape]
    refine ⟨⟨x.size, [⟨x, fun r c => if r = c then 1 else 0, .identity⟩], fun _ => 0⟩, ?_, rfl, ?_⟩
    · simp only [Operand.fn, identityFn, h1, andThen, List.map_cons, List.map_nil]
    · intro val r hr
      simp only [AF.Fn.value, AF.sumBlks, List.map_cons, List.map_nil, List.sum_cons, List.sum_nil, add_zero, zero_add, value]
      rw [C53.sum_single _ _ hr]
      rfl

theorem range_map {α β : Type} (bs : List α) (g : Option α → β) :
    (List.range bs.length).map (fun j => g bs[j]?) = bs.map fun b => g (some b) := by
  apply List.ext_getElem
  · simp
  · intro i h1 h2
    simp only [List.length_map, List.length_range] at h1
    simp [List.getElem?_eq_getElem h1]

/-- **C55** For a variable, a linear expression or an affine expression with coherent sizes, added without dynamics: every spelling gives a task, and the linear constraint made
from it holds exactly when the relation that was written holds for the value of the expression, constant included. If a vector has the wrong size an exception is thrown. -/
theorem C55_expression {R : C53.Roots} {m : Nat} {o : Operand ℝ} (ho : Coherent R m o) (w : Written ℝ) :
    (w.Fits m → ∃ f p, o.fn = .ok () f ∧ writeO o w = .ok () p ∧ ∀ val vel, ∃ T c r y,
      (p.map fun f => view f val vel).task .none = .ok () T ∧ makeLTC (view f val vel) T = some c ∧
      c.update (view f val vel) = .ok () r ∧ c.value (view f val vel) (viewVal f val) = .ok () y ∧
      (C48.Holds m y r ↔ w.Says m (value o val))) ∧
    (¬ w.Fits m → writeO o w = .throw ()) := by
  obtain ⟨f, hf, hm, hv⟩ := fn_value ho
  rw [writeO_eq o w hf]
  subst hm
  refine ⟨fun hw => ⟨f, normProto f w, hf, writeF_fits f w hw, fun val vel => ?_⟩, fun hw => writeF_throws f w hw⟩
  have hmap : (normProto f w).map (fun f => view f val vel) = normProto (view f val vel) w := by
    unfold normProto
    generalize norm w = x
    obtain ⟨t, a, b⟩ := x
    cases t <;> rfl
  have hnd : (view f val vel).vars.Nodup := by
    simp only [view]
    exact List.Nodup.map (fun a b h => by simpa using h) List.nodup_range
  rw [hmap, task_norm (view f val vel) w .none hw]
  have hacc : ∀ v : TD.Vec ℝ, v.n = f.size → (Dyn.none : Dyn ℝ).accepts (view f val vel) v = true := by
    intro v hv
    simp [Dyn.accepts, implAccepts, view, hv]
  have ha1 := hacc ⟨f.size, (norm w).2.1.at⟩ rfl
  have ha2 := hacc ⟨f.size, (norm w).2.2.at⟩ rfl
  -- the task
  obtain ⟨T, hT, hT2⟩ : ∃ T, normTask (view f val vel) w .none (norm w).2.1.at (norm w).2.2.at = some T ∧
      T = ⟨(norm w).1, ⟨.none, if (norm w).1 = .doubleSided then .greaterThan else (norm w).1, ⟨f.size, (norm w).2.1.at⟩⟩,
        if (norm w).1 = .doubleSided then some ⟨.none, .lowerThan, ⟨f.size, (norm w).2.2.at⟩⟩ else none⟩ := by
    refine ⟨_, ?_, rfl⟩
    have e : (view f val vel).size = f.size := rfl
    have eu : (view f val vel).euclidean = true := rfl
    unfold normTask
    cases ht : (norm w).1 <;> simp [makeTask, makeTask2, Dyn.impl, e, eu, ha1, ha2]
  rw [hT]
  have hord : T.td.dyn.order = .zero := by rw [hT2]; rfl
  have hlin : (view f val vel).vars.all (view f val vel).linearIn = true := by simp [view]
  obtain ⟨c, hc⟩ : ∃ c, makeLTC (view f val vel) T = some c := by
    unfold makeLTC
    rw [if_neg]
    · simp only [hord, hlin, if_true]
      exact ⟨_, rfl⟩
    · rintro ⟨h1, h2⟩
      rw [hT2] at h1 h2
      simp only at h1
      simp [h1, Dyn.order] at h2
  obtain ⟨c1, c2, c3, c4⟩ := C48.ltc_vars (view f val vel) T c hc hnd
  -- the value
  have hval : c.value (view f val vel) (viewVal f val) = .ok () fun i => AF.sumBlks f.blks val i := by
    unfold LTC.value
    rw [c1, ← c2, C48.value_fold _ _ _ _ (fun v hv => hv)]
    congr 1
    funext i
    rw [zero_add]
    have hz : c.td.dyn.order.num = 0 := by rw [c2, hord]; rfl
    rw [hz]
    simp only [view, viewVal, VId.dot, List.map_map, Function.comp_def]
    rw [range_map f.blks (fun b => ∑ k ∈ Finset.range ((b.map fun b => b.v.size).getD 0),
      ((b.map fun b => b.J).getD fun _ _ => 0) i k * ((b.map fun b => b.v.value val).getD fun _ => 0) k)]
    simp [AF.sumBlks]
  -- the right-hand sides
  have hside : ∀ (t : CType) (v : Nat → ℝ), LTC.side ⟨.none, t, ⟨f.size, v⟩⟩ (view f val vel) = .ok () ⟨f.size, fun i => v i - f.b i⟩ := by
    intro t v
    simp [LTC.side, Dyn.value, noneValue, view, Dyn.order]
  have hy : ∀ i, i < f.size → AF.sumBlks f.blks val i = value o val i - f.b i := by
    intro i hi
    rw [← hv val i hi]
    simp [AF.Fn.value]
  cases ht : (norm w).1 with
  | equal =>
    refine ⟨T, c, ⟨.none, .none, some ⟨f.size, fun i => (norm w).2.1.at i - f.b i⟩⟩, _, rfl, hc, ?_, hval, ?_⟩
    · unfold LTC.update; rw [c2, c4, hT2]; simp [ht, hside]
    · rw [says_norm]
      simp only [C48.Holds, ht]
      refine forall_congr' fun i => forall_congr' fun hi => ?_
      simp [hy i hi]
  | greaterThan =>
    refine ⟨T, c, ⟨some ⟨f.size, fun i => (norm w).2.1.at i - f.b i⟩, .none, .none⟩, _, rfl, hc, ?_, hval, ?_⟩
    · unfold LTC.update; rw [c2, c4, hT2]; simp [ht, hside]
    · rw [says_norm]
      simp only [C48.Holds, ht]
      refine forall_congr' fun i => forall_congr' fun hi => ?_
      simp [hy i hi]
  | lowerThan =>
    refine ⟨T, c, ⟨.none, some ⟨f.size, fun i => (norm w).2.1.at i - f.b i⟩, .none⟩, _, rfl, hc, ?_, hval, ?_⟩
    · unfold LTC.update; rw [c2, c4, hT2]; simp [ht, hside]
    · rw [says_norm]
      simp only [C48.Holds, ht]
      refine forall_congr' fun i => forall_congr' fun hi => ?_
      simp [hy i hi]
  | doubleSided =>
    refine ⟨T, c, ⟨some ⟨f.size, fun i => (norm w).2.1.at i - f.b i⟩, some ⟨f.size, fun i => (norm w).2.2.at i - f.b i⟩, .none⟩, _, rfl, hc, ?_, hval, ?_⟩
    · unfold LTC.update; rw [c2, c3, c4, hT2]; simp [ht, hside]
    · rw [says_norm]
      simp only [C48.Holds, ht]
      refine forall_congr' fun i => forall_congr' fun hi => ?_
      simp [hy i hi]

/-! ## Concrete cases -/

/-- `1 <= -x[0:2] + 2 x[1:3] + … + c <= v` for the affine expression of C53 -/
example : (Written.leLe (.scalar 1) (.vec 2 fun i => (i : ℝ) + 5)).Fits 2 := ⟨trivial, rfl⟩

theorem var_coherent : Coherent (K := ℝ) C53.six 2 (.var (C53.part0 1 2)) :=
  ⟨⟨rfl, by simp [C53.part0], by simp [C53.part0, C53.six, C53.Roots.root]⟩, rfl⟩

/-- A vector of size 3 for a variable of size 2 -/
example : writeO (.var (C53.part0 1 2)) (Written.geR (.vec 3 fun _ => (0 : ℝ))) = .throw () :=
  (C55_expression var_coherent _).2 (by simp [Written.Fits, Arg.Fits])

/-- The hypotheses of `C55_function` are met by a function of size 2. -/
example : ∀ v : TD.Vec ℚ, v.n = 2 → (Dyn.none : Dyn ℚ).accepts (view (⟨2, [], fun i => (i : ℚ)⟩ : AF.Fn ℚ) (fun _ _ => 0) fun _ _ => 0) v = true := by
  intro v hv
  simp [Dyn.accepts, implAccepts, view, hv]

end Verif.C55
