import Verif.Lemmas.SolverAssembly5
import Verif.Properties.C36_Weights
/-!
# C95: what is handed to the underlying solver means the problem of the user

The previous properties look at one part each: the rows given to the constraints and objectives (C33), whether their assignments refer to the present matrices (C60), what an assignment writes (C34, C36, C38), what the
matrices mean for the underlying solver (C66). Here the parts are put together: a solver is built and follows batches of changes of the problem, its assignments are run at each resolution, on
the matrices left by the former ones. The solutions of what is handed to the underlying solver are the points that satisfy the constraints and the bounds of the problem and, among those, minimise the weighted sum of the squares of
the residuals of the objectives.
-/
set_option autoImplicit false
set_option linter.unusedSectionVars false

namespace Verif.C95
open Verif Verif.LS Verif.SE Verif.ASM

/-! ## Specification -/

/-- The type of a constraint -/
def ty : SE.CType → AS.CType
  | .equal => .equal
  | .greaterThan => .greaterThan
  | .lowerThan => .lowerThan
  | .doubleSided => .doubleSided

/-- What is fixed until the problem changes: the sources are those of the constraints and objectives, their variables are among those of the solver, substitutions are not nested, objectives are
equalities, the variables of the bounds are inside the vector of unknowns. -/
structure EnvOk (env : Env) (C B O : Cstr → Prop) (n : Nat) (vs : Cstr → Int) : Prop where
  type : ∀ c, C c ∨ O c → (env.src c).type = ty c.type ∧ (env.src c).size = c.size
  obj : ∀ c, O c → c.type = .equal
  maps : ∀ c, C c ∨ O c → AS.mapped (env.src c) env.V = true
  flat : ∀ c, C c ∨ O c → ∀ x y, y ∈ AS.subVars (env.src c) x → (env.src c).sub y = none
  bnd : ∀ c, B c → 0 ≤ vs c ∧ vs c + c.size ≤ n

section
variable {K : Type} [Field K] [LinearOrder K]

/-- A bound, at the place of its variable -/
def placed (now : Now K) (vs : Cstr → Int) (c : Cstr) : C38.Bound K := { now.bnd c with start := (vs c).toNat, n := c.size }

/-- The data of a resolution: the Jacobians are what their properties say. -/
structure NowOk (env : Env) (now : Now K) (C B O : Cstr → Prop) (n : Nat) (vs : Cstr → Int) : Prop where
  dat : ∀ c, C c ∨ O c → AS.Ok (env.src c) env.V (now.dat c) n
  bnd : ∀ c, B c → (placed now vs c).Honest

/-- The life of a solver of kind `k`, with the members `q` for its derived class, when the problem has the constraints `C`, bounds `B` and objectives `O`: it is built (once, WeightedLeastSquares.cpp, lines 101 and
109), then there are batches of changes, resolutions with any data, and calls to `setMinimumNorm`. -/
inductive Life {Q : Type} (M : Machine K Q) (k : Kind) (ch : Bool) : Solver → Q → Env → (Cstr → Prop) → (Cstr → Prop) → (Cstr → Prop) → Nat → (Cstr → Int) → Prop
  | build (j0 j : QP.Junk K) (env : Env) (n nObj nEq nIneq : Nat) (ub : Bool) (l : List Add) (vs : Cstr → Int) : GoodBuild k nObj nEq nIneq ub l →
      EnvOk env (· ∈ cstrsOf l) (· ∈ bndsOf l) (· ∈ (objectivesOf l).map (·.c)) n vs →
      Life M k ch ((Solver.new k ch).build n nObj nEq nIneq ub l vs) (M.build n nObj nEq nIneq ub j (M.new j0)) env (· ∈ cstrsOf l) (· ∈ bndsOf l)
        (· ∈ (objectivesOf l).map (·.c)) n vs
  | process (s : Solver) (q : Q) (env : Env) (C B O : Cstr → Prop) (n : Nat) (vs : Cstr → Int) (se : SolverEvents) (j : QP.Junk K) (env' : Env)
      (C' B' O' : Cstr → Prop) (n' : Nat) (vs' : Cstr → Int) : Life M k ch s q env C B O n vs →
      Net C C' se.addedConstraints se.removedConstraints → Net B B' se.addedBounds se.removedBounds →
      Net O O' (se.addedObjectives.map (·.c)) se.removedObjectives →
      (needMappingUpdate se = false → n' = n ∧ ∀ c, B c → vs' c = vs c) → Steady k se n n' B B' → EnvOk env' C' B' O' n' vs' →
      Life M k ch (s.process se n' vs') (M.resize n' (resizeArgs s se).1 (resizeArgs s se).2.1 (resizeArgs s se).2.2.1 (resizeArgs s se).2.2.2 j q) env' C' B' O' n' vs'
  | solve (s : Solver) (q : Q) (env : Env) (C B O : Cstr → Prop) (n : Nat) (vs : Cstr → Int) (now : Now K) (r : Run K) (j : QP.Junk K) : Life M k ch s q env C B O n vs →
      NowOk env now C B O n vs → Runs s env now r → Life M k ch s (M.solve r j q) env C B O n vs
  | minNorm (s : Solver) (q : Q) (env : Env) (C B O : Cstr → Prop) (n : Nat) (vs : Cstr → Int) : Life M k ch s q env C B O n vs →
      Life M k ch s (M.minNorm q) env C B O n vs

/-- The value of the function of a constraint or objective at a point of the solver -/
def valueOf (env : Env) (now : Now K) (c : Cstr) (z : Nat → K) (i : Nat) : K := C34.image (env.src c) env.V (now.dat c) (C34.value (env.src c) env.V (now.dat c) z) i

/-- The constraints hold. -/
def Holds (env : Env) (now : Now K) (C : Cstr → Prop) (z : Nat → K) : Prop := ∀ c, C c → C34.SrcSat (env.src c) env.V (now.dat c) (C34.value (env.src c) env.V (now.dat c) z)

/-- The bounds hold. -/
def InBounds (now : Now K) (vs : Cstr → Int) (B : Cstr → Prop) (z : Nat → K) : Prop := ∀ c, B c → (placed now vs c).Sat z

/-- The components are within `±big`. -/
def Limited (big : K) (n : Nat) (z : Nat → K) : Prop := ∀ k < n, -big ≤ z k ∧ z k ≤ big

/-- The rows of the one-sided constraints, without their constants, are within `±big` on the other side. -/
def RowsLimited (big : K) (env : Env) (now : Now K) (C : Cstr → Prop) (z : Nat → K) : Prop :=
  ∀ c, C c → ∀ i < c.size,
    (c.type = .greaterThan → valueOf env now c z i - C34.image (env.src c) env.V (now.dat c) (C34.const (env.src c) (now.dat c)) i ≤ big) ∧
    (c.type = .lowerThan → -big ≤ valueOf env now c z i - C34.image (env.src c) env.V (now.dat c) (C34.const (env.src c) (now.dat c)) i)

/-- The weighted sum of the squares of the residuals of the objectives `os` -/
def objective (env : Env) (now : Now K) (wt : Cstr → Nat → K) (os : List Cstr) (z : Nat → K) : K :=
  (os.map fun c => ∑ i ∈ Finset.range c.size, wt c i * (valueOf env now c z i - C34.side (env.src c).rhs ((now.dat c).e i)) ^ 2).sum

/-- `os` lists the objectives. -/
def Lists (O : Cstr → Prop) (os : List Cstr) : Prop := os.Nodup ∧ ∀ c, c ∈ os ↔ O c

/-- The weights of the assignments come from the requirements `req`, with the factors `scal` for the priorities; `wt` is the square of the factor times the weight times the anisotropic weight; the square roots
that are taken are right. -/
def Weighted (sqrt : K → K) (req : Cstr → AS.Req K) (scal : Cstr → K) (now : Now K) (O : Cstr → Prop) (wt : Cstr → Nat → K) : Prop :=
  ∀ c, O c → C36.Wf (req c) ∧ sqrt (C36.wval (req c)) ^ 2 = C36.wval (req c) ∧ (∀ i, sqrt (C36.vval (req c) i) ^ 2 = C36.vval (req c) i) ∧
    AS.processRequirements sqrt (some (req c)) (scal c) = some (now.fl c, (now.dat c).w) ∧
    ∀ i, wt c i = scal c ^ 2 * C36.wval (req c) * C36.vval (req c) i

/-- The rows of the constraints are not turned by their weights. -/
def Positive (now : Now K) (C : Cstr → Prop) : Prop := ∀ c, C c → ∀ i < c.size, 0 < (now.fl c).omega (now.dat c).w i

/-! ## Proof: the assignments that are run -/

theorem Life.reach {Q : Type} {M : Machine K Q} {k : Kind} {ch : Bool} {s : Solver} {q : Q} {env : Env} {C B O : Cstr → Prop} {n : Nat} {vs : Cstr → Int}
    (h : Life M k ch s q env C B O n vs) : Reach k ch (Steady k) s C B O n vs := by
  induction h with
  | build j0 j env n nObj nEq nIneq ub l vs hg he => exact Reach.first n nObj nEq nIneq ub l vs hg
  | process s q env C B O n vs se j env' C' B' O' n' vs' _ h1 h2 h3 h4 h5 _ ih => exact Reach.process s C B O n vs se C' B' O' n' vs' ih h1 h2 h3 h4 h5
  | solve _ _ _ _ _ _ _ _ _ _ _ _ _ _ ih => exact ih
  | minNorm _ _ _ _ _ _ _ _ _ ih => exact ih

theorem Life.envOk {Q : Type} {M : Machine K Q} {k : Kind} {ch : Bool} {s : Solver} {q : Q} {env : Env} {C B O : Cstr → Prop} {n : Nat} {vs : Cstr → Int}
    (h : Life M k ch s q env C B O n vs) : EnvOk env C B O n vs := by
  induction h with
  | build j0 j env n nObj nEq nIneq ub l vs hg he => exact he
  | process s q env C B O n vs se j env' C' B' O' n' vs' _ _ _ _ _ _ he _ => exact he
  | solve _ _ _ _ _ _ _ _ _ _ _ _ _ _ ih => exact ih
  | minNorm _ _ _ _ _ _ _ _ _ ih => exact ih

theorem ty_equal {t : SE.CType} : ty t = .equal ↔ t = .equal := by cases t <;> simp [ty]
theorem ty_double {t : SE.CType} : ty t = .doubleSided ↔ t = .doubleSided := by cases t <;> simp [ty]

/-- The assignments of a map: each constraint has one, on the present matrices. -/
structure MapOk (v : View) (m : AMap) (P : Cstr → Prop) : Prop where
  mem : ∀ c, (∃ l, (c, l) ∈ m) ↔ P c
  one : ∀ e ∈ m, ∃ a, e.2 = [a]
  cur : ∀ e ∈ m, 0 < e.1.size → ∀ a ∈ e.2, a.view = v
  nodup : (m.map (·.1)).Nodup

theorem MapOk.job {v : View} {m : AMap} {P : Cstr → Prop} (h : MapOk v m P) {env : Env} {conv : AS.CType × AS.Rhs} {size : Cstr → Nat} {j : Job}
    (hj : j ∈ jobsOf v m env conv size) : P j.c ∧ j.S = env.src j.c ∧ j.T.type = conv.1 ∧ j.T.rhs = conv.2 ∧ j.T.size = size j.c := by
  obtain ⟨e, he, a, ha, hv, rfl⟩ := mem_jobsOf.mp hj
  exact ⟨(h.mem e.1).mp ⟨e.2, he⟩, rfl, rfl, rfl, rfl⟩

/-- A property of the sources that holds for those without rows holds for all the assignments when it holds for all the constraints. -/
theorem MapOk.forall {v : View} {m : AMap} {P : Cstr → Prop} (h : MapOk v m P) (env : Env) (conv : AS.CType × AS.Rhs) (size : Cstr → Nat) (R : Cstr → Prop)
    (h0 : ∀ c, P c → c.size = 0 → R c) : (∀ j ∈ jobsOf v m env conv size, R j.c) ↔ ∀ c, P c → R c := by
  constructor
  · intro hj c hc
    by_cases hz : c.size = 0
    · exact h0 c hc hz
    · obtain ⟨l, hl⟩ := (h.mem c).mpr hc
      obtain ⟨a, ha⟩ := h.one _ hl
      simp only at ha
      have hv := h.cur _ hl (by simp only; omega) a (by simp [ha])
      exact hj _ (mem_jobsOf.mpr ⟨_, hl, a, by simp [ha], hv, rfl⟩)
  · intro hc j hj
    exact hc _ (h.job hj).1

theorem MapOk.sum {v : View} {m : AMap} {P : Cstr → Prop} (h : MapOk v m P) (env : Env) (conv : AS.CType × AS.Rhs) (size : Cstr → Nat) (g : Cstr → K)
    (h0 : ∀ c, P c → c.size = 0 → g c = 0) {os : List Cstr} (ho : Lists P os) : ((jobsOf v m env conv size).map fun j => g j.c).sum = (os.map g).sum := by
  have key : ∀ m : AMap, (∀ e ∈ m, P e.1) → (∀ e ∈ m, ∃ a, e.2 = [a]) → (∀ e ∈ m, 0 < e.1.size → ∀ a ∈ e.2, a.view = v) →
      ((jobsOf v m env conv size).map fun j => g j.c).sum = (m.map fun e => g e.1).sum := by
    intro m
    induction m with
    | nil => intro _ _ _; rfl
    | cons e m ih =>
      intro h1 h2 h3
      have hi := ih (fun e he => h1 e (List.mem_cons_of_mem _ he)) (fun e he => h2 e (List.mem_cons_of_mem _ he)) (fun e he => h3 e (List.mem_cons_of_mem _ he))
      simp only [jobsOf, List.flatMap_cons, List.map_append, List.sum_append, List.map_cons, List.sum_cons] at hi ⊢
      rw [hi]
      congr 1
      obtain ⟨a, ha⟩ := h2 e List.mem_cons_self
      rw [ha]
      by_cases hv : a.view = v
      · simp [hv]
      · have hz : e.1.size = 0 := by
          by_contra hz
          exact hv (h3 e List.mem_cons_self (by omega) a (by simp [ha]))
        simp [hv, h0 e.1 (h1 e List.mem_cons_self) hz]
  rw [key m (fun e he => (h.mem e.1).mp ⟨e.2, he⟩) h.one h.cur]
  have hp : (m.map (·.1)).Perm os := by
    refine (List.perm_ext_iff_of_nodup h.nodup ho.1).mpr fun c => ?_
    rw [ho.2 c, ← h.mem c, List.mem_map]
    exact ⟨fun ⟨e, he, hc⟩ => ⟨e.2, by rw [← hc]; exact he⟩, fun ⟨l, hl⟩ => ⟨(c, l), hl, rfl⟩⟩
  have := (hp.map g).sum_eq
  rw [← this, List.map_map]
  rfl

/-- What the maps of a solver are -/
structure SolverOk (s : Solver) (C B O : Cstr → Prop) (n : Nat) (vs : Cstr → Int) : Prop where
  eq : MapOk s.views.eq s.eq (fun c => C c ∧ c.type = .equal)
  ineq : MapOk s.views.ineq s.ineq (fun c => C c ∧ c.type ≠ .equal)
  bnd : MapOk s.views.bnd s.bnd B
  obj : MapOk s.views.obj s.obj O
  lay : Layout s C B O vs
  same : s.kind = .lssol ∨ s.kind = .lexls → s.views.eq = s.views.ineq
  bounds : (!s.bnd.isEmpty) = true ↔ ∃ c, B c

theorem Life.ok {Q : Type} {M : Machine K Q} {k : Kind} {ch : Bool} {s : Solver} {q : Q} {env : Env} {C B O : Cstr → Prop} {n : Nat} {vs : Cstr → Int}
    (h : Life M k ch s q env C B O n vs) : SolverOk s C B O n vs ∧ s.kind = k := by
  have hr := h.reach
  have hl := C33_layout hr
  obtain ⟨hlay, _, hk, _⟩ := reach_lay hr
  obtain ⟨hc, hsh⟩ := reach_current hr
  obtain ⟨o1, o2, o3, o4⟩ := hl.once
  have one := hl.one
  refine ⟨⟨⟨hl.inEq, one _ (by simp), hc.eq, o1⟩, ⟨hl.inIneq, one _ (by simp), hc.ineq, o2⟩, ⟨hl.inBnd, one _ (by simp), hc.bnd, o3⟩,
    ⟨hl.inObj, one _ (by simp), hc.obj, o4⟩, hl, ?_, ?_⟩, hk⟩
  · intro hj
    rw [hsh.views]
    rcases hj with hj | hj <;> rw [hj] <;> rfl
  · exact bnd_nonempty hlay.1

theorem sound_job {env : Env} {C B O : Cstr → Prop} {n : Nat} {vs : Cstr → Int} (he : EnvOk env C B O n vs) {j : Job} (hc : C j.c ∨ O j.c) (hS : j.S = env.src j.c)
    (h1 : j.c.type = .equal → j.T.type = .equal ∨ j.T.type = .doubleSided) (h2 : j.c.type ≠ .equal → j.T.type ≠ .equal) (hr : j.T.rhs ≠ .zero)
    (hz : j.T.size = if j.c.type = .doubleSided ∧ j.T.type ≠ .doubleSided then 2 * j.c.size else j.c.size) : Sound env.V j := by
  obtain ⟨t1, t2⟩ := he.type j.c hc
  refine ⟨((C34.C34_accepted (0 : ℚ) j.S j.T env.V ⟨true, true⟩).1).mpr ?_, ?_, ?_, hr⟩
  · refine ⟨fun h => h1 ?_, fun h => h2 ?_, fun _ => hr, ?_⟩
    · rw [hS, t1] at h; exact ty_equal.mp h
    · rw [hS, t1] at h; exact fun h' => h (ty_equal.mpr h')
    · rw [hz, hS, t1, t2]
      simp only [ty_double]
  · rw [hS]; exact he.maps _ hc
  · rw [hS]; exact he.flat _ hc

/-- What is known of an assignment -/
structure JobOk (env : Env) (P : Cstr → Prop) (conv : AS.CType × AS.Rhs) (j : Job) : Prop where
  sound : Sound env.V j
  mem : P j.c
  src : j.S = env.src j.c
  type : j.T.type = conv.1
  rhs : j.T.rhs = conv.2

theorem SolverOk.objJob {s : Solver} {C B O : Cstr → Prop} {n : Nat} {vs : Cstr → Int} (h : SolverOk s C B O n vs) {env : Env} (he : EnvOk env C B O n vs) :
    ∀ j ∈ objJobs s env, JobOk env O (convention s.kind .obj) j := by
  intro j hj
  obtain ⟨p1, p2, p3, p4, p5⟩ := h.obj.job hj
  have ht := he.obj _ p1
  refine ⟨sound_job he (Or.inr p1) p2 (fun _ => ?_) (fun hh => absurd ht hh) ?_ ?_, p1, p2, p3, p4⟩
  · rw [p3]; cases s.kind <;> simp [convention]
  · rw [p4]; cases s.kind <;> simp [convention]
  · rw [p5, ht]; simp

theorem SolverOk.eqJob {s : Solver} {C B O : Cstr → Prop} {n : Nat} {vs : Cstr → Int} (h : SolverOk s C B O n vs) {env : Env} (he : EnvOk env C B O n vs) :
    ∀ j ∈ eqJobs s env, JobOk env (fun c => C c ∧ c.type = .equal) (convention s.kind .eq) j := by
  intro j hj
  obtain ⟨p1, p2, p3, p4, p5⟩ := h.eq.job hj
  have ht := p1.2
  refine ⟨sound_job he (Or.inl p1.1) p2 (fun _ => ?_) (fun hh => absurd ht hh) ?_ ?_, p1, p2, p3, p4⟩
  · rw [p3]; cases s.kind <;> simp [convention]
  · rw [p4]; cases s.kind <;> simp [convention]
  · rw [p5]; simp [constraintSize, ht]

theorem SolverOk.ineqJob {s : Solver} {C B O : Cstr → Prop} {n : Nat} {vs : Cstr → Int} (h : SolverOk s C B O n vs) {env : Env} (he : EnvOk env C B O n vs) :
    ∀ j ∈ ineqJobs s env, JobOk env (fun c => C c ∧ c.type ≠ .equal) (convention s.kind .ineq) j := by
  intro j hj
  obtain ⟨p1, p2, p3, p4, p5⟩ := h.ineq.job hj
  have ht := p1.2
  refine ⟨sound_job he (Or.inl p1.1) p2 (fun hh => absurd hh ht) (fun _ => ?_) ?_ ?_, p1, p2, p3, p4⟩
  · rw [p3]; cases s.kind <;> simp [convention]
  · rw [p4]; cases s.kind <;> simp [convention]
  · rw [p5, p3]
    cases hk : s.kind <;> by_cases hd : j.c.type = .doubleSided <;> simp [convention, constraintSize, Kind.handleDoubleSided, hd]

theorem pos_of_constraintSize {k : Kind} {c : Cstr} (h : 0 < constraintSize k c) : 0 < c.size := by
  unfold constraintSize at h
  split at h <;> omega

theorem SolverOk.objTiled {s : Solver} {C B O : Cstr → Prop} {n : Nat} {vs : Cstr → Int} (h : SolverOk s C B O n vs) (env : Env) : TiledJobs (objJobs s env) s.nObj.toNat :=
  jobs_tiled env _ h.lay.objective h.obj.cur

theorem SolverOk.sepTiled {s : Solver} {C B O : Cstr → Prop} {n : Nat} {vs : Cstr → Int} (h : SolverOk s C B O n vs) (env : Env) (hk : s.kind = .qld ∨ s.kind = .quadprog) :
    TiledJobs (eqJobs s env) s.nEq.toNat ∧ TiledJobs (ineqJobs s env) s.nIneq.toNat :=
  ⟨jobs_tiled env _ (h.lay.separate hk).1 fun e he hp => h.eq.cur e he (pos_of_constraintSize hp),
    jobs_tiled env _ (h.lay.separate hk).2 fun e he hp => h.ineq.cur e he (pos_of_constraintSize hp)⟩

theorem SolverOk.jointTiled {s : Solver} {C B O : Cstr → Prop} {n : Nat} {vs : Cstr → Int} (h : SolverOk s C B O n vs) (env : Env) (hk : s.kind = .lssol ∨ s.kind = .lexls) :
    TiledJobs (eqJobs s env ++ ineqJobs s env) (s.nEq.toNat + s.nIneq.toNat) := by
  have hc : convention s.kind .ineq = convention s.kind .eq := by rcases hk with hk | hk <;> rw [hk] <;> rfl
  have e1 : eqJobs s env ++ ineqJobs s env = jobsOf s.views.eq (s.eq ++ s.ineq) env (convention s.kind .eq) (constraintSize s.kind) := by
    simp only [eqJobs, ineqJobs, jobsOf, List.flatMap_append, hc, h.same hk]
  have ht := h.lay.joint hk
  have e2 : intervals (constraintSize s.kind) s.eq ++ intervals (constraintSize s.kind) s.ineq = intervals (constraintSize s.kind) (s.eq ++ s.ineq) := by
    simp only [intervals, List.flatMap_append]
  rw [e2] at ht
  have e3 : s.nEq.toNat + s.nIneq.toNat = (s.nEq + s.nIneq).toNat := by
    have a := h.lay.nEq.1
    have b := h.lay.nIneq.1
    omega
  rw [e1, e3]
  refine jobs_tiled env _ ht fun e he hp => ?_
  rcases List.mem_append.mp he with he | he
  · exact h.eq.cur e he (pos_of_constraintSize hp)
  · rw [h.same hk]; exact h.ineq.cur e he (pos_of_constraintSize hp)

/-- The bounds that are run -/
theorem SolverOk.bounds_run {s : Solver} {C B O : Cstr → Prop} {n : Nat} {vs : Cstr → Int} (h : SolverOk s C B O n vs) (now : Now K) :
    (∀ b ∈ bndJobs s now, ∃ c, B c ∧ b = placed now vs c) ∧ ∀ c, B c → 0 < c.size → placed now vs c ∈ bndJobs s now := by
  constructor
  · intro b hb
    simp only [bndJobs, List.mem_flatMap, List.mem_map, List.mem_filter] at hb
    obtain ⟨e, he, a, ⟨ha, _⟩, rfl⟩ := hb
    refine ⟨e.1, (h.bnd.mem e.1).mp ⟨e.2, he⟩, ?_⟩
    rw [h.lay.bound e he a ha]
    rfl
  · intro c hc hz
    obtain ⟨l, hl⟩ := (h.bnd.mem c).mpr hc
    obtain ⟨a, ha⟩ := h.bnd.one _ hl
    simp only at ha
    have hv := h.bnd.cur _ hl hz a (by simp [ha])
    have hst := h.lay.bound _ hl a (by simp [ha])
    simp only [bndJobs, List.mem_flatMap, List.mem_map, List.mem_filter]
    refine ⟨_, hl, a, ⟨by simp [ha], by simp [hv]⟩, ?_⟩
    simp only at hst
    simp only [hst]
    rfl

theorem SolverOk.bnd_forall {s : Solver} {C B O : Cstr → Prop} {n : Nat} {vs : Cstr → Int} (h : SolverOk s C B O n vs) {env : Env} {now : Now K} {r : Run K} (hr : Runs s env now r)
    (R : C38.Bound K → Prop) (h0 : ∀ b : C38.Bound K, b.n = 0 → R b) : (∀ b ∈ r.bnd, R b) ↔ ∀ c, B c → R (placed now vs c) := by
  obtain ⟨h1, h2⟩ := h.bounds_run now
  constructor
  · intro hb c hc
    by_cases hz : c.size = 0
    · exact h0 _ hz
    · exact hb _ (hr.bnd.mem_iff.mpr (h2 c hc (by omega)))
  · intro hc b hb
    obtain ⟨c, hcB, rfl⟩ := h1 b (hr.bnd.mem_iff.mp hb)
    exact hc c hcB

theorem SolverOk.bnd_good {s : Solver} {C B O : Cstr → Prop} {n : Nat} {vs : Cstr → Int} (h : SolverOk s C B O n vs) {env : Env} (he : EnvOk env C B O n vs) {now : Now K}
    (hn : NowOk env now C B O n vs) {r : Run K} (hr : Runs s env now r) : (∀ b ∈ r.bnd, b.Honest) ∧ ∀ b ∈ r.bnd, 0 < b.n → b.start + b.n ≤ n := by
  obtain ⟨h1, _⟩ := h.bounds_run now
  refine ⟨fun b hb => ?_, fun b hb _ => ?_⟩
  · obtain ⟨c, hc, rfl⟩ := h1 b (hr.bnd.mem_iff.mp hb)
    exact hn.bnd c hc
  · obtain ⟨c, hc, rfl⟩ := h1 b (hr.bnd.mem_iff.mp hb)
    have := he.bnd c hc
    simp only [placed]
    omega

theorem SolverOk.good {s : Solver} {C B O : Cstr → Prop} {n : Nat} {vs : Cstr → Int} (h : SolverOk s C B O n vs) {env : Env} (he : EnvOk env C B O n vs) {now : Now K}
    (hn : NowOk env now C B O n vs) {r : Run K} (hr : Runs s env now r) (hk : s.kind = .qld ∨ s.kind = .quadprog) : Good r n s.nObj.toNat s.nEq.toNat s.nIneq.toNat := by
  obtain ⟨b1, b2⟩ := h.bnd_good he hn hr
  obtain ⟨t1, t2⟩ := h.sepTiled env hk
  have all : ∀ j ∈ r.obj ++ r.eq ++ r.ineq, Sound r.V j ∧ Target.uses j.T .b := by
    intro j hj
    rw [hr.vars]
    rcases List.mem_append.mp hj with hj | hj
    · rcases List.mem_append.mp hj with hj | hj
      · have := h.objJob he j (hr.obj.mem_iff.mp hj)
        refine ⟨this.sound, ?_⟩
        unfold Target.uses
        rw [this.type]
        rcases hk with hk | hk <;> rw [hk] <;> simp [convention]
      · have := h.eqJob he j (hr.eq.mem_iff.mp hj)
        refine ⟨this.sound, ?_⟩
        unfold Target.uses
        rw [this.type]
        rcases hk with hk | hk <;> rw [hk] <;> simp [convention]
    · have := h.ineqJob he j (hr.ineq.mem_iff.mp hj)
      refine ⟨this.sound, ?_⟩
      unfold Target.uses
      rw [this.type]
      rcases hk with hk | hk <;> rw [hk] <;> simp [convention]
  exact ⟨fun j hj => (all j hj).1, fun j hj => (all j hj).2, (h.objTiled env).perm hr.obj.symm, t1.perm hr.eq.symm, t2.perm hr.ineq.symm, b1, b2⟩

theorem SolverOk.goodDS {s : Solver} {C B O : Cstr → Prop} {n : Nat} {vs : Cstr → Int} (h : SolverOk s C B O n vs) {env : Env} (he : EnvOk env C B O n vs) {now : Now K}
    (hn : NowOk env now C B O n vs) {r : Run K} (hr : Runs s env now r) (hk : s.kind = .lssol ∨ s.kind = .lexls) :
    GoodDS r n s.nObj.toNat (s.nEq.toNat + s.nIneq.toNat) (decide (s.kind = .lssol)) := by
  obtain ⟨b1, b2⟩ := h.bnd_good he hn hr
  have t := h.jointTiled env hk
  have all : ∀ j ∈ r.eq ++ r.ineq, Sound r.V j ∧ Target.uses j.T .l ∧ Target.uses j.T .u := by
    intro j hj
    rw [hr.vars]
    rcases List.mem_append.mp hj with hj | hj
    · have := h.eqJob he j (hr.eq.mem_iff.mp hj)
      refine ⟨this.sound, ?_⟩
      unfold Target.uses
      rw [this.type]
      rcases hk with hk | hk <;> rw [hk] <;> simp [convention]
    · have := h.ineqJob he j (hr.ineq.mem_iff.mp hj)
      refine ⟨this.sound, ?_⟩
      unfold Target.uses
      rw [this.type]
      rcases hk with hk | hk <;> rw [hk] <;> simp [convention]
  refine ⟨fun j hj => ?_, fun j hj => (all j hj).1, fun j hj => ?_, fun j hj => (all j hj).2, (h.objTiled env).perm hr.obj.symm, t.perm (hr.eq.append hr.ineq).symm, b1, b2⟩
  · rw [hr.vars]; exact (h.objJob he j (hr.obj.mem_iff.mp hj)).sound
  · have := h.objJob he j (hr.obj.mem_iff.mp hj)
    unfold Target.uses
    rw [this.type]
    rcases hk with hk | hk <;> rw [hk] <;> simp [convention]

/-! ## Proof: the histories of the derived classes -/

theorem rowsOf_some (big : K) (V : AS.Vars) (now : Now K) (js : List Job) (c : K) (i k : Nat) : (rowsOf big V now js c i k).isSome = patOf V js i k := by
  unfold ASM.rowsOf
  by_cases h : patOf V js i k = true
  · simp [h]
  · simp [h]

/-- Which entries the assignments write -/
def patS (s : Solver) (env : Env) : C66.Pat := ⟨patOf env.V (objJobs s env), patOf env.V (eqJobs s env), patOf env.V (ineqJobs s env)⟩

/-- Same, for double-sided rows -/
def patD (s : Solver) (env : Env) : C66.Pat := ⟨patOf env.V (objJobs s env), patOf env.V (eqJobs s env ++ ineqJobs s env), fun _ _ => false⟩

theorem fitsS {s : Solver} {env : Env} {now : Now K} {r : Run K} (hr : Runs s env now r) (big so se ci si : K) : C66.Fits (patS s env) (dataOf big r so se ci si) := by
  refine ⟨fun i j => ?_, fun i j => ?_, fun i j => ?_⟩ <;> simp only [dataOf, patS, rowsOf_some, hr.vars]
  · rw [patOf_perm env.V hr.obj]
  · rw [patOf_perm env.V hr.eq]
  · rw [patOf_perm env.V hr.ineq]

theorem fitsD {s : Solver} {env : Env} {now : Now K} {r : Run K} (hr : Runs s env now r) (big : K) (cell : AS.Cell) : C66.FitsDS (patD s env) (dataDS big r cell) := by
  refine ⟨fun i j => ?_, fun i j => ?_⟩ <;> simp only [dataDS, patD, rowsOf_some, hr.vars]
  · rw [patOf_perm env.V hr.obj]
  · rw [patOf_perm env.V (hr.eq.append hr.ineq)]

theorem build_args {k : Kind} {ch : Bool} {n nObj nEq nIneq : Nat} {ub : Bool} {l : List Add} {vs : Cstr → Int} (hg : GoodBuild k nObj nEq nIneq ub l) :
    ((Solver.new k ch).build n nObj nEq nIneq ub l vs).nObj.toNat = nObj ∧ ((Solver.new k ch).build n nObj nEq nIneq ub l vs).nEq.toNat = nEq ∧
    ((Solver.new k ch).build n nObj nEq nIneq ub l vs).nIneq.toNat = nIneq ∧ (!((Solver.new k ch).build n nObj nEq nIneq ub l vs).bnd.isEmpty) = ub := by
  obtain ⟨h1, _, h3⟩ := build_lay (Solver.new k ch) n nObj nEq nIneq ub l vs hg
  have a := h3.nObj
  have b := h3.nEq
  have c := h3.nIneq
  simp only [Solver.startBuild] at a b c
  refine ⟨by rw [a]; rfl, by rw [b]; rfl, by rw [c]; rfl, ?_⟩
  have hb := bnd_nonempty h1.1
  have hu := hg.bounds
  refine Eq.trans ?_ hu.symm
  by_cases he : (bndsOf l).isEmpty = true
  · rw [he]
    have : ¬ ∃ c, c ∈ bndsOf l := by
      rintro ⟨c, hc⟩
      rw [List.isEmpty_iff.mp he] at hc
      cases hc
    have := fun h => this (hb.mp h)
    simpa using this
  · have : ∃ c, c ∈ bndsOf l := by
      cases hc : bndsOf l with
      | nil => rw [hc] at he; exact absurd rfl he
      | cons c _ => exact ⟨c, List.mem_cons_self⟩
    rw [hb.mpr this]
    simpa using he

theorem qld_prepare {o : QP.Opts K} {r : Run K} {q : QP.Qld K} (h : Good r q.n q.nObj q.nEq q.nIneq) : qldPrepare o r q = q.prepare o (dataOf o.big r (-1) (-1) 1 (-1)) := by
  unfold qldPrepare QP.Qld.prepare
  rw [qld_assign o.big (s := q.resetBounds o) h]

theorem qpd_prepare {o : QP.Opts K} {qr : QP.QR K} {r : Run K} {q : QP.Qpd K} (h : Good r q.n q.nObj q.nEq q.nIneq) :
    qpdPrepare o qr r q = q.prepare o qr (dataOf o.big r (-1) 1 (-1) (-1)) := by
  unfold qpdPrepare QP.Qpd.prepare
  rw [qpd_assign o.big (s := (q.resetBounds o).pre o) h]

theorem lss_prepare {o : QP.Opts K} {r : Run K} {q : QP.Lss K} (h : GoodDS r q.n q.nObj q.nC true) : lssPrepare o r q = q.prepare o (dataDS o.big r .b) := by
  unfold lssPrepare QP.Lss.prepare
  rw [lss_assign o.big (s := (q.resetBounds o).pre) h]

theorem lxl_prepare {o : QP.Opts K} {r : Run K} {q : QP.Lxl K} (h : GoodDS r q.n q.nObj q.nC false)
    (hlu : rhsOf? o.big r.V r.now r.obj .u 1 = rhsOf? o.big r.V r.now r.obj .l 1) : lxlPrepare o r q = q.prepare o (dataDS o.big r .l) := by
  unfold lxlPrepare QP.Lxl.prepare
  rw [lxl_assign o.big (s := q.resetBounds o) h hlu]

theorem qld_post (o : QP.Opts K) (d : QP.Data K) (q : QP.Qld K) :
    (q.prepare o d).n = q.n ∧ (q.prepare o d).nObj = q.nObj ∧ (q.prepare o d).nEq = q.nEq ∧ (q.prepare o d).nIneq = q.nIneq := by
  unfold QP.Qld.prepare QP.Qld.post
  split <;> exact ⟨rfl, rfl, rfl, rfl⟩

/-- The two sides of the objectives of LexLS are equal. -/
theorem SolverOk.both [IsStrictOrderedRing K] {s : Solver} {C B O : Cstr → Prop} {n : Nat} {vs : Cstr → Int} (h : SolverOk s C B O n vs) {env : Env} (he : EnvOk env C B O n vs) {now : Now K}
    (hn : NowOk env now C B O n vs) {r : Run K} (hr : Runs s env now r) (hk : s.kind = .lexls) (big : K) :
    rhsOf? big r.V r.now r.obj .u 1 = rhsOf? big r.V r.now r.obj .l 1 := by
  have hj := fun j hj => h.objJob he j (hr.obj.mem_iff.mp hj)
  rw [hr.vars, hr.cur]
  refine rhs_both (n := n) (fun j h => (hj j h).sound) ((h.objTiled env).perm hr.obj.symm).disj (fun j h => ?_) (fun j h => ?_) (fun j h => ?_)
  · rw [(hj j h).src]; exact hn.dat _ (Or.inr (hj j h).mem)
  · rw [(hj j h).src, (he.type _ (Or.inr (hj j h).mem)).1, he.obj _ (hj j h).mem]; rfl
  · rw [(hj j h).type, hk]; rfl

theorem Life.qld {o : QP.Opts K} {ch : Bool} {s : Solver} {q : QP.Qld K} {env : Env} {C B O : Cstr → Prop} {n : Nat} {vs : Cstr → Int}
    (h : Life (qldM o) .qld ch s q env C B O n vs) :
    C66.QldHist o (patS s env) q ∧ q.n = n ∧ q.nObj = s.nObj.toNat ∧ q.nEq = s.nEq.toNat ∧ q.nIneq = s.nIneq.toNat := by
  induction h with
  | build j0 j env n nObj nEq nIneq ub l vs hg he =>
    obtain ⟨a, b, c, _⟩ := build_args (ch := ch) (n := n) (vs := vs) hg
    exact ⟨C66.QldHist.first j0 j _ n nObj nEq nIneq, rfl, a.symm, b.symm, c.symm⟩
  | process s q env C B O n vs se j env' C' B' O' n' vs' _ _ _ _ _ _ _ ih =>
    rw [resize_args s se n' vs']
    exact ⟨C66.QldHist.resize ih.1 j _ n' _ _ _, rfl, rfl, rfl, rfl⟩
  | solve s q env C B O n vs now r j hl hn hr ih =>
    obtain ⟨ih1, i2, i3, i4, i5⟩ := ih
    obtain ⟨hs, hk⟩ := hl.ok
    have hg := hs.good hl.envOk hn hr (Or.inl hk)
    rw [← i2, ← i3, ← i4, ← i5] at hg
    have e : (qldM o).solve r j q = q.prepare o (dataOf o.big r (-1) (-1) 1 (-1)) := qld_prepare hg
    obtain ⟨a, b, c, d⟩ := qld_post o (dataOf o.big r (-1) (-1) 1 (-1)) q
    rw [e, a, b, c, d]
    exact ⟨C66.QldHist.solve ih1 _ (fitsS hr _ _ _ _ _), i2, i3, i4, i5⟩
  | minNorm s q env C B O n vs _ ih => exact ⟨C66.QldHist.minNorm ih.1, ih.2⟩

theorem Life.qpd {o : QP.Opts K} {qr : QP.QR K} {ch : Bool} {s : Solver} {q : QP.Qpd K} {env : Env} {C B O : Cstr → Prop} {n : Nat} {vs : Cstr → Int}
    (h : Life (qpdM o qr) .quadprog ch s q env C B O n vs) :
    C66.QpdHist o qr (patS s env) q ∧ q.n = n ∧ q.nObj = s.nObj.toNat ∧ q.nEq = s.nEq.toNat ∧ q.nIneq = s.nIneq.toNat ∧ q.bounds = !s.bnd.isEmpty := by
  induction h with
  | build j0 j env n nObj nEq nIneq ub l vs hg he =>
    obtain ⟨a, b, c, d⟩ := build_args (ch := ch) (n := n) (vs := vs) hg
    exact ⟨C66.QpdHist.first j0 j _ n nObj nEq nIneq ub, rfl, a.symm, b.symm, c.symm, d.symm⟩
  | process s q env C B O n vs se j env' C' B' O' n' vs' _ _ _ _ _ _ _ ih =>
    rw [resize_args s se n' vs']
    exact ⟨C66.QpdHist.resize ih.1 j _ n' _ _ _ _, rfl, rfl, rfl, rfl, rfl⟩
  | solve s q env C B O n vs now r j hl hn hr ih =>
    obtain ⟨ih1, i2, i3, i4, i5, i6⟩ := ih
    obtain ⟨hs, hk⟩ := hl.ok
    have hg := hs.good hl.envOk hn hr (Or.inr hk)
    rw [← i2, ← i3, ← i4, ← i5] at hg
    have e : (qpdM o qr).solve r j q = q.prepare o qr (dataOf o.big r (-1) 1 (-1) (-1)) := qpd_prepare hg
    rw [e]
    exact ⟨C66.QpdHist.solve ih1 _ (fitsS hr _ _ _ _ _), i2, i3, i4, i5, i6⟩
  | minNorm s q env C B O n vs _ ih => exact ⟨C66.QpdHist.minNorm ih.1, ih.2⟩

theorem Life.lss {o : QP.Opts K} {ch : Bool} {s : Solver} {q : QP.Lss K} {env : Env} {C B O : Cstr → Prop} {n : Nat} {vs : Cstr → Int}
    (h : Life (lssM o) .lssol ch s q env C B O n vs) :
    C66.LssHist o (patD s env) q ∧ q.n = n ∧ q.nObj = s.nObj.toNat ∧ q.nC = s.nEq.toNat + s.nIneq.toNat := by
  induction h with
  | build j0 j env n nObj nEq nIneq ub l vs hg he =>
    obtain ⟨a, b, c, d⟩ := build_args (ch := ch) (n := n) (vs := vs) hg
    exact ⟨C66.LssHist.first j0 _ n nObj (nEq + nIneq), rfl, a.symm, by rw [b, c]; rfl⟩
  | process s q env C B O n vs se j env' C' B' O' n' vs' _ _ _ _ _ _ _ ih =>
    rw [resize_args s se n' vs']
    exact ⟨C66.LssHist.resize ih.1 _ n' _ _, rfl, rfl, rfl⟩
  | solve s q env C B O n vs now r j hl hn hr ih =>
    obtain ⟨ih1, i2, i3, i4⟩ := ih
    obtain ⟨hs, hk⟩ := hl.ok
    have hg := hs.goodDS hl.envOk hn hr (Or.inl hk)
    rw [← i2, ← i3, ← i4, hk] at hg
    have e : (lssM o).solve r j q = (q.prepare o (dataDS o.big r .b)).solved j := congrArg (QP.Lss.solved j) (lss_prepare hg)
    rw [e]
    exact ⟨C66.LssHist.solve ih1 _ (fitsD hr _ _) j, i2, i3, i4⟩
  | minNorm s q env C B O n vs _ ih => exact ⟨C66.LssHist.minNorm ih.1, ih.2⟩

theorem Life.lxl [IsStrictOrderedRing K] {o : QP.Opts K} {ch : Bool} {s : Solver} {q : QP.Lxl K} {env : Env} {C B O : Cstr → Prop} {n : Nat} {vs : Cstr → Int}
    (h : Life (lxlM o) .lexls ch s q env C B O n vs) :
    C66.LexHist o (patD s env) q ∧ q.n = n ∧ q.nObj = s.nObj.toNat ∧ q.nC = s.nEq.toNat + s.nIneq.toNat := by
  induction h with
  | build j0 j env n nObj nEq nIneq ub l vs hg he =>
    obtain ⟨a, b, c, d⟩ := build_args (ch := ch) (n := n) (vs := vs) hg
    exact ⟨C66.LexHist.first j0 _ n nObj (nEq + nIneq), rfl, a.symm, by rw [b, c]; rfl⟩
  | process s q env C B O n vs se j env' C' B' O' n' vs' _ _ _ _ _ _ _ ih =>
    rw [resize_args s se n' vs']
    exact ⟨C66.LexHist.resize ih.1 _ n' _ _, rfl, rfl, rfl⟩
  | solve s q env C B O n vs now r j hl hn hr ih =>
    obtain ⟨ih1, i2, i3, i4⟩ := ih
    obtain ⟨hs, hk⟩ := hl.ok
    have hg := hs.goodDS hl.envOk hn hr (Or.inr hk)
    rw [← i2, ← i3, ← i4, hk] at hg
    have e : (lxlM o).solve r j q = q.prepare o (dataDS o.big r .l) := lxl_prepare hg (hs.both hl.envOk hn hr hk o.big)
    rw [e]
    exact ⟨C66.LexHist.solve ih1 _ (fitsD hr _ _), i2, i3, i4⟩
  | minNorm s q env C B O n vs _ ih => exact ⟨C66.LexHist.minNorm ih.1, ih.2⟩

/-! ## Proof: the meaning -/

variable [IsStrictOrderedRing K]

theorem group_sat {v : View} {m : AMap} {P : Cstr → Prop} (h : MapOk v m P) {env : Env} {conv : AS.CType × AS.Rhs} {size : Cstr → Nat} {js : List Job}
    (hp : js.Perm (jobsOf v m env conv size)) (hP : ∀ c, P c → (env.src c).type = ty c.type ∧ (env.src c).size = c.size) (hc : conv.1 = .doubleSided → conv.2 = .asGiven)
    (big : K) (now : Now K) (z : Nat → K) :
    (∀ j ∈ js, C34.SrcSat j.S env.V (now.dat j.c) (C34.value j.S env.V (now.dat j.c) z) ∧ C34.BigSide big j.S j.T env.V (now.dat j.c) z) ↔
      ∀ c, P c → C34.SrcSat (env.src c) env.V (now.dat c) (C34.value (env.src c) env.V (now.dat c) z) ∧ (conv.1 = .doubleSided → RowsLimited big env now (· = c) z) := by
  rw [← h.forall env conv size]
  · constructor
    · intro hj j hjj
      obtain ⟨p1, p2, p3, p4, _⟩ := h.job hjj
      obtain ⟨a, b⟩ := hj j (hp.mem_iff.mpr hjj)
      obtain ⟨t1, t2⟩ := hP _ p1
      rw [p2] at a b
      refine ⟨a, fun hd => ?_⟩
      rintro c rfl i hi
      have := b (by rw [p3]; exact hd) i (by rw [t2]; exact hi)
      rw [p4, hc hd, t1] at this
      exact ⟨fun hh => this.1 (by rw [hh]; rfl), fun hh => this.2 (by rw [hh]; rfl)⟩
    · intro hj j hjj
      have hjj := hp.mem_iff.mp hjj
      obtain ⟨p1, p2, p3, p4, _⟩ := h.job hjj
      obtain ⟨a, b⟩ := hj j hjj
      obtain ⟨t1, t2⟩ := hP _ p1
      rw [p2]
      refine ⟨a, fun hd i hi => ?_⟩
      rw [p3] at hd
      have := b hd j.c rfl i (by rw [← t2]; exact hi)
      rw [p4, hc hd, t1]
      refine ⟨fun hh => this.1 ?_, fun hh => this.2 ?_⟩
      · cases ht : j.c.type <;> simp_all [ty]
      · cases ht : j.c.type <;> simp_all [ty]
  · intro c hc' hz
    refine ⟨fun i hi => ?_, fun _ => ?_⟩
    · rw [(hP c hc').2, hz] at hi; omega
    · rintro c' rfl i hi; rw [hz] at hi; omega

theorem box_sat {s : Solver} {C B O : Cstr → Prop} {n : Nat} {vs : Cstr → Int} (h : SolverOk s C B O n vs) {env : Env} (he : EnvOk env C B O n vs) {now : Now K}
    (hn : NowOk env now C B O n vs) {r : Run K} (hr : Runs s env now r) {big : K} (hfit : ∀ c, B c → ∀ z, Limited big n z → (placed now vs c).Fits big z) (z : Nat → K) :
    C66.InBox (some big) n (loOf big r.bnd) (upOf big r.bnd) z ↔ InBounds now vs B z ∧ Limited big n z := by
  obtain ⟨b1, b2⟩ := h.bnd_good he hn hr
  have key : Limited big n z → (C66.InBox (some big) n (loOf big r.bnd) (upOf big r.bnd) z ↔ InBounds now vs B z ∧ Limited big n z) := by
    intro hl
    rw [box_bounds r.bnd b1 b2 z ?_]
    · rw [h.bnd_forall hr (fun b => b.Sat z) (fun b hb i hi => by rw [hb] at hi; omega)]
      exact ⟨fun ⟨a, b⟩ => ⟨b, a⟩, fun ⟨a, b⟩ => ⟨b, a⟩⟩
    · rw [h.bnd_forall hr (fun b => b.Fits big z) (fun b hb _ i hi => by rw [hb] at hi; omega)]
      exact fun c hc => hfit c hc z hl
  constructor
  · intro hb
    exact (key fun k hk => (hb k hk).2.2 big rfl).mp hb
  · intro hb
    exact (key hb.2).mpr hb

theorem jobs_sat {C B O : Cstr → Prop} {n : Nat} {vs : Cstr → Int} {env : Env} (he : EnvOk env C B O n vs) {now : Now K}
    (hn : NowOk env now C B O n vs) (hpos : Positive now C) {js : List Job} (hs : ∀ j ∈ js, Sound env.V j ∧ C j.c ∧ j.S = env.src j.c) (hd : Disj js) (big : K) (z : Nat → K) :
    (∀ j ∈ js, C34.TgtSat n j.T (runJobs big env.V now js zeroMem) z) ↔
      ∀ j ∈ js, C34.SrcSat j.S env.V (now.dat j.c) (C34.value j.S env.V (now.dat j.c) z) ∧ C34.BigSide big j.S j.T env.V (now.dat j.c) z := by
  refine forall_congr' fun j => forall_congr' fun hj => ?_
  obtain ⟨_, h2, h3⟩ := hs j hj
  refine runJobs_exact (fun j hj => (hs j hj).1) hd hj ?_ ?_ z
  · rw [h3]; exact hn.dat _ (Or.inl h2)
  · intro i hi
    rw [h3, (he.type _ (Or.inl h2)).2] at hi
    exact hpos _ h2 i hi

theorem holds_split (env : Env) (now : Now K) (C : Cstr → Prop) (z : Nat → K) :
    Holds env now C z ↔ (∀ c, C c ∧ c.type = .equal → C34.SrcSat (env.src c) env.V (now.dat c) (C34.value (env.src c) env.V (now.dat c) z)) ∧
      ∀ c, C c ∧ c.type ≠ .equal → C34.SrcSat (env.src c) env.V (now.dat c) (C34.value (env.src c) env.V (now.dat c) z) := by
  constructor
  · exact fun h => ⟨fun c hc => h c hc.1, fun c hc => h c hc.1⟩
  · intro ⟨h1, h2⟩ c hc
    by_cases ht : c.type = .equal
    · exact h1 c ⟨hc, ht⟩
    · exact h2 c ⟨hc, ht⟩

/-- The rows of the equality and inequality constraints of QLD and Quadprog -/
theorem SolverOk.sep_sat {s : Solver} {C B O : Cstr → Prop} {n : Nat} {vs : Cstr → Int} (h : SolverOk s C B O n vs) {env : Env} (he : EnvOk env C B O n vs) {now : Now K}
    (hn : NowOk env now C B O n vs) {r : Run K} (hr : Runs s env now r) (hpos : Positive now C) (hk : s.kind = .qld ∨ s.kind = .quadprog) (big so se ci si : K)
    (hse : ∀ v : K, C34.side (convention s.kind .eq).2 v = se * v)
    (hsi : (s.kind = .qld ∧ ci = 1 ∧ si = -1) ∨ (s.kind = .quadprog ∧ ci = -1 ∧ si = -1)) (z : Nat → K) :
    ((∀ i < s.nEq.toNat, C66.dot n (C66.coef (dataOf big r so se ci si).eq i) z = (dataOf big r so se ci si).eqRhs i) ∧
      ∀ i < s.nIneq.toNat, (dataOf big r so se ci si).ineqRhs i ≤ C66.dot n (C66.coef (dataOf big r so se ci si).ineq i) z) ↔ Holds env now C z := by
  obtain ⟨t1, t2⟩ := h.sepTiled env hk
  have t1 := t1.perm hr.eq.symm
  have t2 := t2.perm hr.ineq.symm
  have j1 := fun j hj => h.eqJob he j (hr.eq.mem_iff.mp hj)
  have j2 := fun j hj => h.ineqJob he j (hr.ineq.mem_iff.mp hj)
  have hx : (convention s.kind .eq).1 = .equal ∧ (convention s.kind .ineq).1 ≠ .doubleSided := by rcases hk with hk | hk <;> rw [hk] <;> simp [convention]
  simp only [dataOf, hr.vars, hr.cur, dot_rows (fun j hj => (j1 j hj).sound), dot_rows (fun j hj => (j2 j hj).sound), rhsOf]
  rw [rows_sat t1 n (runJobs big env.V now r.eq zeroMem) z, rows_sat t2 n (runJobs big env.V now r.ineq zeroMem) z]
  · rw [jobs_sat he hn hpos (fun j hj => ⟨(j1 j hj).sound, (j1 j hj).mem.1, (j1 j hj).src⟩) t1.disj, jobs_sat he hn hpos (fun j hj => ⟨(j2 j hj).sound, (j2 j hj).mem.1, (j2 j hj).src⟩) t2.disj,
      group_sat h.eq hr.eq (fun c hc => he.type c (Or.inl hc.1)) (fun hh => by rw [hx.1] at hh; cases hh),
      group_sat h.ineq hr.ineq (fun c hc => he.type c (Or.inl hc.1)) (fun hh => absurd hh hx.2), holds_split]
    · constructor
      · exact fun ⟨a, b⟩ => ⟨fun c hc => (a c hc).1, fun c hc => (b c hc).1⟩
      · exact fun ⟨a, b⟩ => ⟨fun c hc => ⟨a c hc, fun hh => by rw [hx.1] at hh; cases hh⟩, fun c hc => ⟨b c hc, fun hh => absurd hh hx.2⟩⟩
  · intro j hj i
    unfold rowSat
    rw [(j2 j hj).type, (j2 j hj).rhs]
    rcases hsi with ⟨k1, rfl, rfl⟩ | ⟨k1, rfl, rfl⟩ <;> rw [k1] <;> simp only [convention, C34.side]
    · rw [one_mul, neg_one_mul]
    · rw [neg_one_mul, neg_one_mul, neg_le_neg_iff]
  · intro j hj i
    unfold rowSat
    rw [(j1 j hj).type, (j1 j hj).rhs, hx.1, one_mul]
    simp only [hse]

/-- The rows of the constraints of LSSOL and LexLS -/
theorem SolverOk.joint_sat {s : Solver} {C B O : Cstr → Prop} {n : Nat} {vs : Cstr → Int} (h : SolverOk s C B O n vs) {env : Env} (he : EnvOk env C B O n vs) {now : Now K}
    (hn : NowOk env now C B O n vs) {r : Run K} (hr : Runs s env now r) (hpos : Positive now C) (hk : s.kind = .lssol ∨ s.kind = .lexls) (big : K) (cell : AS.Cell) (z : Nat → K) :
    (∀ i < s.nEq.toNat + s.nIneq.toNat, (dataDS big r cell).cl i ≤ C66.dot n (C66.coef (dataDS big r cell).cstr i) z ∧
      C66.dot n (C66.coef (dataDS big r cell).cstr i) z ≤ (dataDS big r cell).cu i) ↔ Holds env now C z ∧ RowsLimited big env now C z := by
  have t := (h.jointTiled env hk).perm (hr.eq.append hr.ineq).symm
  have j1 := fun j hj => h.eqJob he j (hr.eq.mem_iff.mp hj)
  have j2 := fun j hj => h.ineqJob he j (hr.ineq.mem_iff.mp hj)
  have hx : convention s.kind .eq = (.doubleSided, .asGiven) ∧ convention s.kind .ineq = (.doubleSided, .asGiven) := by rcases hk with hk | hk <;> rw [hk] <;> simp [convention]
  have ja : ∀ j ∈ r.eq ++ r.ineq, (Sound env.V j ∧ C j.c ∧ j.S = env.src j.c) ∧ j.T.type = .doubleSided ∧ j.T.rhs = .asGiven := by
    intro j hj
    rcases List.mem_append.mp hj with hj | hj
    · exact ⟨⟨(j1 j hj).sound, (j1 j hj).mem.1, (j1 j hj).src⟩, by rw [(j1 j hj).type, hx.1], by rw [(j1 j hj).rhs, hx.1]⟩
    · exact ⟨⟨(j2 j hj).sound, (j2 j hj).mem.1, (j2 j hj).src⟩, by rw [(j2 j hj).type, hx.2], by rw [(j2 j hj).rhs, hx.2]⟩
  simp only [dataDS, hr.vars, hr.cur, dot_rows (fun j hj => (ja j hj).1.1), rhsOf]
  rw [rows_sat t n (runJobs big env.V now (r.eq ++ r.ineq) zeroMem) z]
  · rw [jobs_sat he hn hpos (fun j hj => (ja j hj).1) t.disj]
    · have e : ∀ Q : Job → Prop, (∀ j ∈ r.eq ++ r.ineq, Q j) ↔ (∀ j ∈ r.eq, Q j) ∧ ∀ j ∈ r.ineq, Q j := by
        intro Q
        simp only [List.mem_append, or_imp, forall_and]
      rw [e, group_sat h.eq hr.eq (fun c hc => he.type c (Or.inl hc.1)) (fun _ => by rw [hx.1]), group_sat h.ineq hr.ineq (fun c hc => he.type c (Or.inl hc.1)) (fun _ => by rw [hx.2]), holds_split]
      rw [hx.1, hx.2]
      constructor
      · intro ⟨a, b⟩
        refine ⟨⟨fun c hc => (a c hc).1, fun c hc => (b c hc).1⟩, fun c hc => ?_⟩
        by_cases ht : c.type = .equal
        · exact (a c ⟨hc, ht⟩).2 rfl c rfl
        · exact (b c ⟨hc, ht⟩).2 rfl c rfl
      · intro ⟨⟨a, b⟩, l⟩
        refine ⟨fun c hc => ⟨a c hc, fun _ => ?_⟩, fun c hc => ⟨b c hc, fun _ => ?_⟩⟩
        · rintro c' rfl; exact l _ hc.1
        · rintro c' rfl; exact l _ hc.1
  · intro j hj i
    unfold rowSat
    rw [(ja j hj).2.1, (ja j hj).2.2]
    simp only [one_mul, C34.side]

/-- The cost -/
theorem SolverOk.cost {s : Solver} {C B O : Cstr → Prop} {n : Nat} {vs : Cstr → Int} (h : SolverOk s C B O n vs) {env : Env} (he : EnvOk env C B O n vs) {now : Now K}
    (hn : NowOk env now C B O n vs) {r : Run K} (hr : Runs s env now r) {sqrt : K → K} (hq1 : sqrt 1 = 1) {req : Cstr → AS.Req K} {scal : Cstr → K} {wt : Cstr → Nat → K}
    (hw : Weighted sqrt req scal now O wt) {os : List Cstr} (ho : Lists O os) (big : K) (cell : AS.Cell) (so : K)
    (hso : (if (convention s.kind .obj).1 = .doubleSided then AS.Cell.l else .b) = cell ∧ ∀ v : K, C34.side (convention s.kind .obj).2 v = so * v) (z : Nat → K) :
    C66.lsq n s.nObj.toNat (rowsOf big r.V r.now r.obj 1) (rhsOf? big r.V r.now r.obj cell so) z = objective env now wt os z := by
  have hj := fun j hj => h.objJob he j (hr.obj.mem_iff.mp hj)
  have t := (h.objTiled env).perm hr.obj.symm
  rw [hr.vars, hr.cur, lsq_jobs (fun j h => (hj j h).sound) t cell so]
  · have hg : ∀ j ∈ r.obj, (∑ i ∈ Finset.range j.S.size, ((now.fl j.c).omega (now.dat j.c).w i *
          (C34.image j.S env.V (now.dat j.c) (C34.value j.S env.V (now.dat j.c) z) i - C34.side j.S.rhs ((now.dat j.c).e i))) ^ 2) =
        ∑ i ∈ Finset.range j.c.size, wt j.c i * (valueOf env now j.c z i - C34.side (env.src j.c).rhs ((now.dat j.c).e i)) ^ 2 := by
      intro j hjj
      have hO := (hj j hjj).mem
      obtain ⟨w1, w2, w3, w4, w5⟩ := hw j.c hO
      rw [(hj j hjj).src, (he.type _ (Or.inr hO)).2]
      refine Finset.sum_congr rfl fun i _ => ?_
      rw [(C36.process_omega sqrt hq1 (req j.c) w1 (scal j.c) _ _ w4).1 i, w5 i, mul_pow]
      congr 1
      unfold C36.target
      have a : (if (req j.c).anisoDefault = true then 1 else sqrt ((req j.c).aniso i)) ^ 2 = C36.vval (req j.c) i := by
        have := w3 i
        unfold C36.vval at this ⊢
        split
        · ring
        · next hh => rw [if_neg hh] at this; exact this
      have b : sqrt (if (req j.c).weightDefault = true then 1 else (req j.c).weight) ^ 2 = C36.wval (req j.c) := by
        exact w2
      rw [mul_pow, a, mul_pow, b]
      ring
    rw [List.map_congr_left hg, (hr.obj.map _).sum_eq]
    exact h.obj.sum env _ _ (fun c => ∑ i ∈ Finset.range c.size, wt c i * (valueOf env now c z i - C34.side (env.src c).rhs ((now.dat c).e i)) ^ 2)
      (fun c _ hz => by rw [hz]; rfl) ho
  · intro j h
    refine ⟨?_, ?_⟩
    · unfold objCell; rw [(hj j h).type]; exact hso.1
    · rw [(hj j h).rhs]; exact hso.2
  · intro j h; rw [(hj j h).src]; exact hn.dat _ (Or.inr (hj j h).mem)
  · intro j h; rw [(hj j h).src, (he.type _ (Or.inr (hj j h).mem)).1, he.obj _ (hj j h).mem]; rfl

omit [IsStrictOrderedRing K] in
theorem SolverOk.all_rhs {s : Solver} {C B O : Cstr → Prop} {n : Nat} {vs : Cstr → Int} (h : SolverOk s C B O n vs) {env : Env} {now : Now K} {r : Run K} (hr : Runs s env now r)
    (big : K) (cell : AS.Cell) (so : K) : ∀ i < s.nObj.toNat, (rhsOf? big r.V r.now r.obj cell so i).isSome = true := by
  intro i hi
  have := ((h.objTiled env).perm hr.obj.symm).cover i hi
  unfold rhsOf?
  rw [if_pos this]
  rfl

theorem SolverOk.nObj {s : Solver} {C B O : Cstr → Prop} {n : Nat} {vs : Cstr → Int} (h : SolverOk s C B O n vs) {os : List Cstr} (ho : Lists O os) :
    s.nObj.toNat = (os.map (·.size)).sum := by
  have hp : (s.obj.map (·.1)).Perm os := by
    refine (List.perm_ext_iff_of_nodup h.obj.nodup ho.1).mpr fun c => ?_
    rw [ho.2 c, ← h.obj.mem c, List.mem_map]
    exact ⟨fun ⟨e, he, hc⟩ => ⟨e.2, by rw [← hc]; exact he⟩, fun ⟨l, hl⟩ => ⟨(c, l), hl, rfl⟩⟩
  rw [h.lay.nObj.1, ← (hp.map (·.size)).sum_eq, List.map_map]
  rfl

theorem best_congr {F F' : (Nat → K) → Prop} {f f' : (Nat → K) → K} (hF : ∀ z, F z ↔ F' z) (hf : ∀ z, f z = f' z) (x : Nat → K) : C66.Best F f x ↔ C66.Best F' f' x := by
  unfold C66.Best
  simp only [hF, hf]

/-! ## The property -/

/-- **C95** (QLD) After any life of the solver in which the changes of the number of variables are steady (C60), at each resolution the solutions of the quadratic program handed to QLD are the minima of the weighted sum of the squares of the
residuals of the objectives, regularised if asked for, among the points that satisfy the constraints and the bounds and are within `±big`. -/
theorem C95_qld_partial {o : QP.Opts K} {qr : QP.QR K} {ch : Bool} {s : Solver} {q : QP.Qld K} {env : Env} {C B O : Cstr → Prop} {n : Nat} {vs : Cstr → Int}
    (h : Life (qldM o) .qld ch s q env C B O n vs) {now : Now K} (hn : NowOk env now C B O n vs) {r : Run K} (hr : Runs s env now r) (hm : q.autoMin = false) (hpos : Positive now C)
    (hfit : ∀ c, B c → ∀ z, Limited o.big n z → (placed now vs c).Fits o.big z)
    {sqrt : K → K} (hq1 : sqrt 1 = 1) {req : Cstr → AS.Req K} {scal : Cstr → K} {wt : Cstr → Nat → K} (hw : Weighted sqrt req scal now O wt) {os : List Cstr} (ho : Lists O os)
    (hqr : o.cholesky = true → C66.IsFactor (q.rowsD o) n (qldPrepare o r q).D (qr (q.rowsD o) n (qldPrepare o r q).D)) (x : Nat → K) :
    C66.QldSolution n ((qldPrepare o r q).call o qr) x ↔
      C66.Best (fun z => Holds env now C z ∧ InBounds now vs B z ∧ Limited o.big n z)
        (fun z => objective env now wt os z + (if o.cholesky = true ∧ (os.map (·.size)).sum < n then o.choleskyDamping ^ 2 else 0) * C66.dot n z z) x := by
  obtain ⟨hs, hk⟩ := h.ok
  have he := h.envOk
  obtain ⟨hh, i2, i3, i4, i5⟩ := h.qld
  have hg := hs.good he hn hr (Or.inl hk)
  rw [← i2, ← i3, ← i4, ← i5] at hg
  rw [qld_prepare hg] at hqr ⊢
  subst i2
  rw [C66.C66_qld hh (fitsS hr _ _ _ _ _) (by rw [i3]; exact hs.all_rhs hr _ _ _) hm hqr x]
  refine best_congr (fun z => ?_) (fun z => ?_) x
  · unfold C66.Feasible
    rw [i4, i5, ← and_assoc, hs.sep_sat he hn hr hpos (Or.inl hk) o.big (-1) (-1) 1 (-1) (by rw [hk]; intro v; simp [convention, C34.side]) (Or.inl ⟨hk, rfl, rfl⟩) z]
    exact and_congr Iff.rfl (box_sat hs he hn hr hfit z)
  · unfold C66.cost C66.qldReg
    rw [i3]
    congr 1
    · exact hs.cost he hn hr hq1 hw ho o.big .b (-1) (by rw [hk]; simp [convention, C34.side]) z
    · rw [hs.nObj ho]

/-- **C95** (LSSOL) Same, for any changes of the problem; the one-sided constraints are within `±big` on the other side. -/
theorem C95_lssol_partial {o : QP.Opts K} {ch : Bool} {s : Solver} {q : QP.Lss K} {env : Env} {C B O : Cstr → Prop} {n : Nat} {vs : Cstr → Int}
    (h : Life (lssM o) .lssol ch s q env C B O n vs) {now : Now K} (hn : NowOk env now C B O n vs) {r : Run K} (hr : Runs s env now r) (hm : q.autoMin = false) (hpos : Positive now C)
    (hfit : ∀ c, B c → ∀ z, Limited o.big n z → (placed now vs c).Fits o.big z)
    {sqrt : K → K} (hq1 : sqrt 1 = 1) {req : Cstr → AS.Req K} {scal : Cstr → K} {wt : Cstr → Nat → K} (hw : Weighted sqrt req scal now O wt) {os : List Cstr} (ho : Lists O os) (x : Nat → K) :
    C66.LssSolution n (lssPrepare o r q).call x ↔
      C66.Best (fun z => (Holds env now C z ∧ RowsLimited o.big env now C z) ∧ InBounds now vs B z ∧ Limited o.big n z) (objective env now wt os) x := by
  obtain ⟨hs, hk⟩ := h.ok
  have he := h.envOk
  obtain ⟨hh, i2, i3, i4⟩ := h.lss
  have hg := hs.goodDS he hn hr (Or.inl hk)
  rw [← i2, ← i3, ← i4, hk] at hg
  rw [lss_prepare hg]
  subst i2
  rw [C66.C66_lssol hh (fitsD hr _ _) (by rw [i3]; exact hs.all_rhs hr _ _ _) hm x]
  refine best_congr (fun z => ?_) (fun z => ?_) x
  · unfold C66.FeasibleDS
    rw [i4, hs.joint_sat he hn hr hpos (Or.inl hk) o.big .b z]
    exact and_congr Iff.rfl (box_sat hs he hn hr hfit z)
  · rw [i3]
    exact hs.cost he hn hr hq1 hw ho o.big .b 1 (by rw [hk]; simp [convention, C34.side]) z

/-- **C95** (LexLS) Same, when some point satisfies everything. -/
theorem C95_lexls_partial {o : QP.Opts K} {ch : Bool} {s : Solver} {q : QP.Lxl K} {env : Env} {C B O : Cstr → Prop} {n : Nat} {vs : Cstr → Int}
    (h : Life (lxlM o) .lexls ch s q env C B O n vs) {now : Now K} (hn : NowOk env now C B O n vs) {r : Run K} (hr : Runs s env now r) (hm : q.autoMin = false) (hpos : Positive now C)
    (hfit : ∀ c, B c → ∀ z, Limited o.big n z → (placed now vs c).Fits o.big z)
    {sqrt : K → K} (hq1 : sqrt 1 = 1) {req : Cstr → AS.Req K} {scal : Cstr → K} {wt : Cstr → Nat → K} (hw : Weighted sqrt req scal now O wt) {os : List Cstr} (ho : Lists O os)
    (hsome : ∃ z, (Holds env now C z ∧ RowsLimited o.big env now C z) ∧ InBounds now vs B z ∧ Limited o.big n z) (x : Nat → K) :
    C66.LexSolution (lxlPrepare o r q) x ↔
      C66.Best (fun z => (Holds env now C z ∧ RowsLimited o.big env now C z) ∧ InBounds now vs B z ∧ Limited o.big n z) (objective env now wt os) x := by
  obtain ⟨hs, hk⟩ := h.ok
  have he := h.envOk
  obtain ⟨hh, i2, i3, i4⟩ := h.lxl
  have hg := hs.goodDS he hn hr (Or.inr hk)
  rw [← i2, ← i3, ← i4, hk] at hg
  rw [lxl_prepare hg (hs.both he hn hr hk o.big)]
  subst i2
  have hF : ∀ z, C66.FeasibleDS (some o.big) q.n q.nC (dataDS o.big r .l) z ↔ (Holds env now C z ∧ RowsLimited o.big env now C z) ∧ InBounds now vs B z ∧ Limited o.big q.n z := by
    intro z
    unfold C66.FeasibleDS
    rw [i4, hs.joint_sat he hn hr hpos (Or.inr hk) o.big .l z]
    exact and_congr Iff.rfl (box_sat hs he hn hr hfit z)
  rw [C66.C66_lexls hh (fitsD hr _ _) (by rw [i3]; exact hs.all_rhs hr _ _ _) hm (by obtain ⟨z, hz⟩ := hsome; exact ⟨z, (hF z).mpr hz⟩) x]
  refine best_congr hF (fun z => ?_) x
  rw [i3]
  exact hs.cost he hn hr hq1 hw ho o.big .l 1 (by rw [hk]; simp [convention, C34.side]) z

theorem SolverOk.kernel {s : Solver} {C B O : Cstr → Prop} {n : Nat} {vs : Cstr → Int} (h : SolverOk s C B O n vs) {env : Env} (he : EnvOk env C B O n vs) {now : Now K}
    (hn : NowOk env now C B O n vs) {r : Run K} (hr : Runs s env now r) (big : K) (hnz : ∀ c, O c → ∀ i < c.size, (now.fl c).omega (now.dat c).w i ≠ 0) (x : Nat → K)
    (hx : ∀ i < s.nObj.toNat, C66.dot n (C66.coef (rowsOf big r.V r.now r.obj 1) i) x = 0) :
    ∀ c, O c → ∀ i < c.size, valueOf env now c x i = valueOf env now c (fun _ => 0) i := by
  have hj := fun j hj => h.objJob he j (hr.obj.mem_iff.mp hj)
  have t := (h.objTiled env).perm hr.obj.symm
  rw [hr.vars, hr.cur] at hx
  have all : ∀ j ∈ r.obj, ∀ i < j.c.size, valueOf env now j.c x i = valueOf env now j.c (fun _ => 0) i := by
    intro j hjj i hi
    have hO := (hj j hjj).mem
    obtain ⟨t1, t2⟩ := he.type _ (Or.inr hO)
    have hok : AS.Ok j.S env.V (now.dat j.c) n := by rw [(hj j hjj).src]; exact hn.dat _ (Or.inr hO)
    have hS : j.S.type = .equal := by rw [(hj j hjj).src, t1, he.obj _ hO]; rfl
    have hsz : j.S.size = j.c.size := by rw [(hj j hjj).src, t2]
    obtain ⟨z1, a⟩ := runJobs_equal (big := big) (now := now) (fun j h => (hj j h).sound) t.disj hjj hok hS x
    obtain ⟨_, b⟩ := runJobs_equal (big := big) (now := now) (fun j h => (hj j h).sound) t.disj hjj hok hS (fun _ => 0)
    have a := (a i (by rw [hsz]; exact hi)).1
    have b := (b i (by rw [hsz]; exact hi)).1
    have hin := t.inside j hjj (j.T.start + i) ((has_iff _ _).mpr ⟨by omega, by rw [z1, hsz]; omega⟩)
    have hrow := hx _ hin
    rw [dot_rows (fun j h => (hj j h).sound), one_mul] at hrow
    have h0 : C34.row n (runJobs big env.V now r.obj zeroMem) (fun _ => (0 : K)) (j.T.start + i) = 0 := by simp [C34.row]
    rw [hrow] at a
    rw [h0] at b
    have e := a.symm.trans b
    have e := mul_left_cancel₀ (hnz j.c hO i hi) e
    unfold valueOf
    rw [← (hj j hjj).src]
    exact sub_left_injective e
  have := (h.obj.forall env (convention s.kind .obj) (·.size) (fun c => ∀ i < c.size, valueOf env now c x i = valueOf env now c (fun _ => 0) i)
    (fun c _ hz i hi => by rw [hz] at hi; omega)).mp fun j hjj => all j (hr.obj.mem_iff.mpr hjj)
  exact this

/-- **C95** (Quadprog) Same, with bounds at `±big` if the problem has bounds. With the Cholesky option the factor must be invertible: the objectives are fewer than the variables and damped, or determine the
variables. -/
theorem C95_quadprog_partial {o : QP.Opts K} {qr : QP.QR K} {ch : Bool} {s : Solver} {q : QP.Qpd K} {env : Env} {C B O : Cstr → Prop} {n : Nat} {vs : Cstr → Int}
    (h : Life (qpdM o qr) .quadprog ch s q env C B O n vs) {now : Now K} (hn : NowOk env now C B O n vs) {r : Run K} (hr : Runs s env now r) (hm : q.autoMin = false) (hpos : Positive now C)
    (hfit : ∀ c, B c → ∀ z, Limited o.big n z → (placed now vs c).Fits o.big z)
    {sqrt : K → K} (hq1 : sqrt 1 = 1) {req : Cstr → AS.Req K} {scal : Cstr → K} {wt : Cstr → Nat → K} (hw : Weighted sqrt req scal now O wt) {os : List Cstr} (ho : Lists O os)
    (hqr : o.cholesky = true → C66.IsFactor (q.rowsD o) n (qpdAssign o.big r ((q.resetBounds o).pre o)).D (qr (q.rowsD o) n (qpdAssign o.big r ((q.resetBounds o).pre o)).D))
    (hreg : o.cholesky = true → ((os.map (·.size)).sum < n ∧ o.choleskyDamping ≠ 0) ∨
      ((∀ c, O c → ∀ i < c.size, (now.fl c).omega (now.dat c).w i ≠ 0) ∧
        ∀ z : Nat → K, (∀ c, O c → ∀ i < c.size, valueOf env now c z i = valueOf env now c (fun _ => 0) i) → ∀ k < n, z k = 0)) (x : Nat → K) :
    C66.QpdSolution n ((qpdPrepare o qr r q).call o) x ↔
      C66.Best (fun z => Holds env now C z ∧ InBounds now vs B z ∧ ((∃ c, B c) → Limited o.big n z))
        (fun z => objective env now wt os z +
          (if o.cholesky = true then (if (os.map (·.size)).sum < n then o.choleskyDamping ^ 2 else 0) else o.damping) * C66.dot n z z) x := by
  obtain ⟨hs, hk⟩ := h.ok
  have he := h.envOk
  obtain ⟨hh, i2, i3, i4, i5, i6⟩ := h.qpd
  have hg := hs.good he hn hr (Or.inr hk)
  rw [← i2, ← i3, ← i4, ← i5] at hg
  rw [qpd_assign o.big (s := (q.resetBounds o).pre o) hg] at hqr
  rw [qpd_prepare hg]
  subst i2
  have nob : q.bounds = false → r.bnd = [] := by
    intro hb
    rw [i6] at hb
    cases hl : r.bnd with
    | nil => rfl
    | cons b l =>
      obtain ⟨c, hc, _⟩ := (hs.bounds_run now).1 b (hr.bnd.mem_iff.mp (by rw [hl]; exact List.mem_cons_self))
      rw [hs.bounds.mpr ⟨c, hc⟩] at hb
      cases hb
  rw [C66.C66_quadprog hh (fitsS hr _ _ _ _ _) (by rw [i3]; exact hs.all_rhs hr _ _ _) hm (fun hb k => by simp [dataOf, nob hb, loOf, upOf]) hqr ?_ x]
  · refine best_congr (fun z => ?_) (fun z => ?_) x
    · unfold C66.Feasible
      rw [i4, i5, ← and_assoc, hs.sep_sat he hn hr hpos (Or.inr hk) o.big (-1) 1 (-1) (-1) (by rw [hk]; intro v; simp [convention, C34.side]) (Or.inr ⟨hk, rfl, rfl⟩) z]
      refine and_congr Iff.rfl ?_
      unfold C66.qpdBox
      have hB : q.bounds = true ↔ ∃ c, B c := by rw [i6]; exact hs.bounds
      by_cases hb : q.bounds = true
      · rw [if_pos hb]
        refine (box_sat hs he hn hr hfit z).trans (and_congr Iff.rfl ?_)
        exact ⟨fun h _ => h, fun h => h (hB.mp hb)⟩
      · rw [if_neg hb]
        have hnb : ¬ ∃ c, B c := fun h => hb (hB.mpr h)
        refine ⟨fun _ => ⟨fun c hc => absurd ⟨c, hc⟩ hnb, fun h => absurd h hnb⟩, fun _ k _ => ?_⟩
        have := nob (by simpa using hb)
        simp [dataOf, this, loOf, upOf]
    · unfold C66.cost C66.qpdReg
      rw [i3]
      congr 1
      · exact hs.cost he hn hr hq1 hw ho o.big .b (-1) (by rw [hk]; simp [convention, C34.side]) z
      · rw [hs.nObj ho]
  · intro hc
    rw [i3]
    rcases hreg hc with ⟨a, b⟩ | ⟨a, b⟩
    · left; rw [hs.nObj ho]; exact ⟨a, b⟩
    · right
      intro z hz
      exact b z (hs.kernel he hn hr o.big a z hz)

end

/-! ## The hypotheses can be met

Two unknowns. Constraint `x₀ + x₁ ≥ 2`, objective `x = 0`, bound `x ≤ 5`; a resolution; then the constraint `x₀ - x₁ = 1` is added. -/

section
def exC : Cstr := ⟨1, 1, .greaterThan⟩
def exO : Cstr := ⟨2, 2, .equal⟩
def exB : Cstr := ⟨3, 2, .lowerThan⟩
def exE : Cstr := ⟨4, 1, .equal⟩
def exEnv : Env := ⟨⟨fun _ => 2, fun x => x == 0, fun _ => 0⟩, fun c => ⟨ty c.type, .asGiven, c.size, [0], fun _ => .other, []⟩⟩
def exNow : Now ℚ :=
  ⟨fun _ => ⟨true, true⟩,
    fun c => ⟨fun _ i k => if c.id = 1 then 1 else if c.id = 4 then (if k = 0 then 1 else -1) else if i = k then 1 else 0, fun _ => if c.id = 4 then 1 else 0, fun _ => 2, fun _ => 0,
      fun _ _ _ _ => 0, fun _ _ => 0, ⟨1, -1, fun _ => 0, fun _ => 0⟩⟩,
    fun _ => ⟨.lowerThan, .asGiven, .identity, 0, 2, fun i j => if i = j then 1 else 0, fun _ => 0, fun _ => 0, fun _ => 5, ⟨7, 5, fun _ => 3, fun _ => 2⟩⟩⟩
def exAdd : List Add := [.cstr exC, .obj ⟨exO, 0, 1⟩, .bnd exB]
def exSE : SolverEvents := ⟨[], [exE], [], [], [], [], [], [], [], false⟩

theorem exEnvOk (Cs Os : List Cstr) (hO : ∀ c ∈ Os, c.type = .equal) : EnvOk exEnv (· ∈ Cs) (· ∈ [exB]) (· ∈ Os) 2 (fun _ => 0) := by
  refine ⟨fun c _ => ⟨rfl, rfl⟩, hO, fun c _ => rfl, fun c _ x y hy => rfl, fun c hc => ?_⟩
  have : c = exB := by simpa using hc
  subst this
  decide

theorem exNowOk (Cs Os : List Cstr) : NowOk exEnv exNow (· ∈ Cs) (· ∈ [exB]) (· ∈ Os) 2 (fun _ => 0) := by
  refine ⟨fun c _ => ⟨rfl, ?_, ?_, by simp [exEnv], ?_, ?_, ?_, fun x y hy => rfl, rfl, fun i => by simp [exNow]⟩, fun c _ => ?_⟩
  · intro x _; simp [exEnv]
  · intro x y hx hy hxy
    have a : x = 0 := by simpa [exEnv] using hx
    have b : y = 0 := by simpa [exEnv] using hy
    exact absurd (a.trans b.symm) hxy
  · intro x hx; cases hx
  · intro x hx; cases hx
  · intro x i hx; cases hx
  · refine ⟨fun i _ j _ hij => ?_, fun i _ => ?_, fun _ i _ => ?_, fun hh => ?_⟩
    · simp [placed, exNow, hij]
    · simp [placed, exNow]
    · simp [placed, exNow]
    · cases hh

/-- The assignments in the order of the maps -/
def allRuns (s : Solver) (env : Env) (now : Now ℚ) : Run ℚ := ⟨env.V, now, objJobs s env, eqJobs s env, ineqJobs s env, bndJobs s now⟩

theorem allRuns_runs (s : Solver) (env : Env) (now : Now ℚ) : Runs s env now (allRuns s env now) := ⟨rfl, rfl, List.Perm.refl _, List.Perm.refl _, List.Perm.refl _, List.Perm.refl _⟩

/-- The life described above, for each of the solvers -/
theorem exLife {Q : Type} (M : Machine ℚ Q) (k : Kind) (ch : Bool) (j : QP.Junk ℚ) :
    ∃ s q, Life M k ch s q exEnv (· ∈ [exC, exE]) (· ∈ [exB]) (· ∈ [exO]) 2 (fun _ => 0) ∧
      ∃ q0 r, q = M.resize 2 2 1 1 true j (M.solve r j (M.build 2 2 0 1 true j q0)) := by
  have h := Life.build (M := M) (k := k) (ch := ch) j j exEnv 2 2 0 1 true exAdd (fun _ => 0) (by cases k <;> constructor <;> decide) (exEnvOk [exC] [exO] (by decide))
  have h2 := Life.solve _ _ _ _ _ _ _ _ exNow _ j h (exNowOk [exC] [exO]) (allRuns_runs _ _ _)
  have h3 := Life.process _ _ _ _ _ _ _ _ exSE j exEnv (· ∈ [exC, exE]) (· ∈ [exB]) (· ∈ [exO]) 2 (fun _ => 0) h2
    (Net.ofLists _ _ _ _ (by decide) (by decide) (by decide) (by decide) (by decide) (by decide))
    (Net.ofLists _ _ _ _ (by decide) (by decide) (by decide) (by decide) (by decide) (by decide))
    (Net.ofLists _ _ _ _ (by decide) (by decide) (by decide) (by decide) (by decide) (by decide)) (by decide)
    (Or.inr (Or.inr (Or.inl ⟨rfl, by decide⟩))) (exEnvOk [exC, exE] [exO] (by decide))
  refine ⟨_, _, h3, M.new j, allRuns ((Solver.new k ch).build 2 2 0 1 true exAdd fun _ => 0) exEnv exNow, ?_⟩
  have : ∀ k ch, resizeArgs ((Solver.new k ch).build 2 2 0 1 true exAdd fun _ => 0) exSE = (2, 1, 1, true) := by
    intro k ch
    cases k <;> cases ch <;> decide
  rw [this]

def exReq : AS.Req ℚ := ⟨.l2, 1, true, fun _ => 1, 0, true⟩

theorem exWeighted : Weighted (fun x => x) (fun _ => exReq) (fun _ => 1) exNow (· ∈ [exO]) (fun _ _ => 1) := by
  intro c _
  refine ⟨fun _ => rfl, by simp [C36.wval, exReq], fun i => by simp [C36.vval, exReq], ?_, fun i => by simp [C36.wval, C36.vval, exReq]⟩
  simp [AS.processRequirements, exReq, exNow]

theorem exFit (big : ℚ) : ∀ c, c ∈ [exB] → ∀ z, Limited big 2 z → (placed exNow (fun _ => 0) c).Fits big z := by
  intro c _ z _ hp
  cases hp

theorem exPositive (Cs : List Cstr) : Positive exNow (· ∈ Cs) := by
  intro c _ i _
  rw [show (exNow.fl c) = ⟨true, true⟩ from rfl, C36.omega_default]
  exact one_pos

/-- The points meant by the example -/
theorem exHolds (z : Nat → ℚ) : Holds exEnv exNow (· ∈ [exC, exE]) z ∧ InBounds exNow (fun _ => 0) (· ∈ [exB]) z ↔
    (2 ≤ z 0 + z 1 ∧ z 0 - z 1 = 1) ∧ z 0 ≤ 5 ∧ z 1 ≤ 5 := by
  simp only [Holds, InBounds, List.mem_cons, List.not_mem_nil, or_false, forall_eq_or_imp, forall_eq]
  simp [C34.SrcSat, exEnv, exNow, exC, exE, exB, ty, C34.image, C34.value, AS.Src.sub, C34.side, C38.side, placed, C38.Bound.Sat, Finset.sum_range_succ, sub_eq_add_neg]
  intro _ _
  constructor
  · intro h
    exact ⟨by simpa using h 0 (by omega), by simpa using h 1 (by omega)⟩
  · rintro ⟨a, b⟩ i hi
    have : i = 0 ∨ i = 1 := by omega
    rcases this with rfl | rfl <;> simpa

theorem exObjective (z : Nat → ℚ) : objective exEnv exNow (fun _ _ => 1) [exO] z = z 0 ^ 2 + z 1 ^ 2 := by
  simp [objective, valueOf, exEnv, exNow, exO, ty, C34.image, C34.value, AS.Src.sub, C34.side, Finset.sum_range_succ]

theorem exRows (z : Nat → ℚ) : RowsLimited 1000 exEnv exNow (· ∈ [exC, exE]) z ↔ z 0 + z 1 ≤ 1000 := by
  simp only [RowsLimited, List.mem_cons, List.not_mem_nil, or_false, forall_eq_or_imp, forall_eq]
  simp [valueOf, exEnv, exNow, exC, exE, ty, C34.image, C34.value, C34.const, AS.Src.sub, Finset.sum_range_succ]

def exOpts : QP.Opts ℚ := ⟨1000, false, 0, 0⟩

/-- The solution of the example: `(3/2, 1/2)` -/
def exX : Nat → ℚ := fun k => if k = 0 then 3 / 2 else 1 / 2

theorem exBest (F : (Nat → ℚ) → Prop) (f : (Nat → ℚ) → ℚ) (hF : ∀ z, F z → 2 ≤ z 0 + z 1 ∧ z 0 - z 1 = 1) (hx : F exX) (hf : ∀ z, f z = z 0 ^ 2 + z 1 ^ 2) : C66.Best F f exX := by
  refine ⟨hx, fun y hy => ?_⟩
  obtain ⟨a, b⟩ := hF y hy
  rw [hf, hf]
  simp only [exX]
  norm_num
  nlinarith [sq_nonneg (y 1 - 1 / 2)]

theorem exLists : Lists (· ∈ [exO]) [exO] := ⟨by decide, fun _ => Iff.rfl⟩

theorem exLimited : Limited 1000 2 exX := by
  intro k _
  simp only [exX]
  split <;> norm_num

theorem exIn : Holds exEnv exNow (· ∈ [exC, exE]) exX ∧ InBounds exNow (fun _ => 0) (· ∈ [exB]) exX := (exHolds exX).mpr (by norm_num [exX])

example (j : QP.Junk ℚ) (qr : QP.QR ℚ) : ∃ s q, Life (qldM exOpts) .qld false s q exEnv (· ∈ [exC, exE]) (· ∈ [exB]) (· ∈ [exO]) 2 (fun _ => 0) ∧
    C66.QldSolution 2 ((qldPrepare exOpts (allRuns s exEnv exNow) q).call exOpts qr) exX := by
  obtain ⟨s, q, h, q0, r, hq⟩ := exLife (qldM exOpts) .qld false j
  refine ⟨s, q, h, (C95_qld_partial h (exNowOk _ _) (allRuns_runs _ _ _) ?_ (exPositive _) (exFit _) rfl exWeighted exLists (fun hh => by cases hh) exX).mpr ?_⟩
  · rw [hq]
    show (qldPrepare exOpts r _).autoMin = false
    unfold qldPrepare QP.Qld.post
    split <;> rfl
  · refine exBest _ _ (fun z hz => ((exHolds z).mp ⟨hz.1, hz.2.1⟩).1) ⟨exIn.1, exIn.2, exLimited⟩ fun z => ?_
    simp [exObjective, exOpts]

example (j : QP.Junk ℚ) (qr : QP.QR ℚ) : ∃ s q, Life (qpdM exOpts qr) .quadprog false s q exEnv (· ∈ [exC, exE]) (· ∈ [exB]) (· ∈ [exO]) 2 (fun _ => 0) ∧
    C66.QpdSolution 2 ((qpdPrepare exOpts qr (allRuns s exEnv exNow) q).call exOpts) exX := by
  obtain ⟨s, q, h, q0, r, hq⟩ := exLife (qpdM exOpts qr) .quadprog false j
  refine ⟨s, q, h, (C95_quadprog_partial h (exNowOk _ _) (allRuns_runs _ _ _) ?_ (exPositive _) (exFit _) rfl exWeighted exLists (fun hh => by cases hh) (fun hh => by cases hh) exX).mpr ?_⟩
  · rw [hq]; rfl
  · refine exBest _ _ (fun z hz => ((exHolds z).mp ⟨hz.1, hz.2.1⟩).1) ⟨exIn.1, exIn.2, fun _ => exLimited⟩ fun z => ?_
    simp [exObjective, exOpts]

example (j : QP.Junk ℚ) : ∃ s q, Life (lssM exOpts) .lssol false s q exEnv (· ∈ [exC, exE]) (· ∈ [exB]) (· ∈ [exO]) 2 (fun _ => 0) ∧
    C66.LssSolution 2 (lssPrepare exOpts (allRuns s exEnv exNow) q).call exX := by
  obtain ⟨s, q, h, q0, r, hq⟩ := exLife (lssM exOpts) .lssol false j
  refine ⟨s, q, h, (C95_lssol_partial h (exNowOk _ _) (allRuns_runs _ _ _) ?_ (exPositive _) (exFit _) rfl exWeighted exLists exX).mpr ?_⟩
  · rw [hq]; rfl
  · exact exBest _ _ (fun z hz => ((exHolds z).mp ⟨hz.1.1, hz.2.1⟩).1) ⟨⟨exIn.1, (exRows _).mpr (by norm_num [exX])⟩, exIn.2, exLimited⟩ exObjective

example (j : QP.Junk ℚ) : ∃ s q, Life (lxlM exOpts) .lexls false s q exEnv (· ∈ [exC, exE]) (· ∈ [exB]) (· ∈ [exO]) 2 (fun _ => 0) ∧
    C66.LexSolution (lxlPrepare exOpts (allRuns s exEnv exNow) q) exX := by
  obtain ⟨s, q, h, q0, r, hq⟩ := exLife (lxlM exOpts) .lexls false j
  have hx : (Holds exEnv exNow (· ∈ [exC, exE]) exX ∧ RowsLimited exOpts.big exEnv exNow (· ∈ [exC, exE]) exX) ∧ InBounds exNow (fun _ => 0) (· ∈ [exB]) exX ∧ Limited exOpts.big 2 exX :=
    ⟨⟨exIn.1, (exRows _).mpr (by norm_num [exX])⟩, exIn.2, exLimited⟩
  refine ⟨s, q, h, (C95_lexls_partial h (exNowOk _ _) (allRuns_runs _ _ _) ?_ (exPositive _) (exFit _) rfl exWeighted exLists ⟨exX, hx⟩ exX).mpr ?_⟩
  · rw [hq]; rfl
  · exact exBest _ _ (fun z hz => ((exHolds z).mp ⟨hz.1.1, hz.2.1⟩).1) hx exObjective
end
end Verif.C95
