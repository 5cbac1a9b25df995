import Verif.Properties.C33_LeastSquareSolver
/-!
# C60: assignments of a least-squares solver write in its current matrices

The target of an assignment refers to a block of a matrix and of a vector of the solver: an allocation and a shape. After
a change of size these may be different. `Current` says that each assignment of a constraint with at least one row refers
to the present matrices of the solver. It holds in all reachable states of the LSSOL and LexLS solvers. It does not for QLD
and Quadprog: `C60_qld_false`, `C60_quadprog_false`. For these it holds when no batch of changes changes the number of
variables together with the number of inequality constraints or the presence of bounds.
-/
set_option autoImplicit false
set_option linter.unusedSimpArgs false

namespace Verif.LS
open Verif.SE

/-! ## Specification -/

/-- The assignments of the constraints of `m` that have rows refer to `v`. -/
def RefersTo (v : View) (m : AMap) : Prop := ∀ e ∈ m, 0 < e.1.size → ∀ a ∈ e.2, a.view = v

/-- Every assignment refers to the present matrices. -/
structure Current (s : Solver) : Prop where
  eq : RefersTo s.views.eq s.eq
  ineq : RefersTo s.views.ineq s.ineq
  bnd : RefersTo s.views.bnd s.bnd
  obj : RefersTo s.views.obj s.obj

/-- `v` is a block of matrices alive now. -/
structure Inside (s : Solver) (v : View) : Prop where
  mat : v.mat = s.bufs.objM ∨ v.mat = s.bufs.cstM ∨ v.mat = s.bufs.cstV ∨ v.mat = s.bufs.bnd
  vec : v.vec = s.bufs.objM ∨ v.vec = s.bufs.objV ∨ v.vec = s.bufs.cstM ∨ v.vec = s.bufs.cstV ∨ v.vec = s.bufs.bnd

/-- Writing `size` rows from `start` in `v` stays in `v`, and in the matrix it is a block of. -/
structure InBlock (s : Solver) (v : View) (start : Int) (size : Nat) : Prop where
  alive : Inside s v
  low : 0 ≤ start
  high : start + size ≤ v.rows

/-- The condition on batches for QLD and Quadprog: no change of the number of variables, or none of the number of rows of
inequality constraints nor, for Quadprog, of the presence of bounds. -/
def Steady (k : Kind) (se : SolverEvents) (n n' : Nat) (B B' : Cstr → Prop) : Prop :=
  k = .lssol ∨ k = .lexls ∨ (n' = n ∧ 0 < n) ∨
    ((∀ c ∈ se.addedConstraints, c.type ≠ .equal → c.size = 0) ∧ (k = .quadprog → ((∃ c, B c) ↔ ∃ c, B' c)))

/-! ## Proof -/

theorem RefersTo.retarget {v : View} (start : Int → Int) (size : Cstr → Int) : ∀ (m : AMap) (cum : Int), RefersTo v m →
    RefersTo v (retarget start size cum m).2 := by
  intro m
  induction m with
  | nil => intro cum h; exact h
  | cons e m ih =>
    intro cum h e' he' hp a ha
    obtain ⟨c, l⟩ := e
    simp only [LS.retarget, List.mem_cons] at he'
    rcases he' with rfl | he'
    · simp only [List.mem_map] at ha
      obtain ⟨a', ha', rfl⟩ := ha
      exact h (c, l) (by simp) hp a' ha'
    · exact ih _ (fun e he => h e (List.mem_cons_of_mem _ he)) e' he' hp a ha

theorem RefersTo.retargetBounds {v : View} (vs : Cstr → Int) {m : AMap} (h : RefersTo v m) :
    RefersTo v (retargetBounds vs m) := by
  intro e he hp a ha
  simp only [LS.retargetBounds, List.mem_map] at he
  obtain ⟨e', he', rfl⟩ := he
  simp only [List.mem_map] at ha
  obtain ⟨a', ha', rfl⟩ := ha
  exact h e' he' hp a' ha'

theorem RefersTo.redirect (v : View) (m : AMap) : RefersTo v (redirect v m) := by
  intro e he _ a ha
  simp only [LS.redirect, List.mem_map] at he
  obtain ⟨e', _, rfl⟩ := he
  simp only [List.mem_map] at ha
  obtain ⟨a', _, rfl⟩ := ha
  rfl

theorem push_mem_any (m : AMap) (c : Cstr) (a : Asg) : ∀ e ∈ m.push c a, ∀ b ∈ e.2,
    (e.1 = c ∧ b = a) ∨ ∃ e' ∈ m, e'.1 = e.1 ∧ b ∈ e'.2 := by
  induction m with
  | nil =>
    intro e he b hb
    simp only [AMap.push, List.mem_cons, List.not_mem_nil, or_false] at he
    subst he
    simp only [List.mem_cons, List.not_mem_nil, or_false] at hb
    exact Or.inl ⟨rfl, hb⟩
  | cons x m ih =>
    obtain ⟨d, l⟩ := x
    intro e he b hb
    simp only [AMap.push] at he
    by_cases h1 : d = c
    · rw [if_pos h1] at he
      rcases List.mem_cons.1 he with rfl | he
      · rcases List.mem_append.1 hb with hb | hb
        · exact Or.inr ⟨(d, l), by simp, rfl, hb⟩
        · exact Or.inl ⟨h1, by simpa using hb⟩
      · exact Or.inr ⟨e, List.mem_cons_of_mem _ he, rfl, hb⟩
    · rw [if_neg h1] at he
      by_cases h2 : c.id < d.id
      · rw [if_pos h2] at he
        rcases List.mem_cons.1 he with rfl | he
        · exact Or.inl ⟨rfl, by simpa using hb⟩
        · exact Or.inr ⟨e, he, rfl, hb⟩
      · rw [if_neg h2] at he
        rcases List.mem_cons.1 he with rfl | he
        · exact Or.inr ⟨(d, l), by simp, rfl, hb⟩
        · rcases ih e he b hb with h | ⟨e', h1, h2, h3⟩
          · exact Or.inl h
          · exact Or.inr ⟨e', List.mem_cons_of_mem _ h1, h2, h3⟩

theorem RefersTo.push {v : View} {m : AMap} (h : RefersTo v m) (c : Cstr) (x : Int) : RefersTo v (m.push c ⟨x, v⟩) := by
  intro e he hp b hb
  rcases push_mem_any m c _ e he b hb with ⟨_, rfl⟩ | ⟨e', h1, h2, h3⟩
  · rfl
  · exact h e' h1 (h2 ▸ hp) b h3

theorem Current.addConstraint {s : Solver} (h : Current s) (c : Cstr) : Current (s.addConstraint c) := by
  by_cases he : c.isEquality = true
  · simp only [Solver.addConstraint, if_pos he]
    exact ⟨h.eq.push c _, h.ineq, h.bnd, h.obj⟩
  · simp only [Solver.addConstraint, if_neg he]
    exact ⟨h.eq, h.ineq.push c _, h.bnd, h.obj⟩

theorem Current.addBound {s : Solver} (h : Current s) (vs : Cstr → Int) (c : Cstr) : Current (s.addBound vs c) :=
  ⟨h.eq, h.ineq, h.bnd.push c _, h.obj⟩

theorem Current.addObjective {s : Solver} (h : Current s) (o : Objective) : Current (s.addObjective o) :=
  ⟨h.eq, h.ineq, h.bnd, h.obj.push o.c _⟩

theorem Current.processAdded {s : Solver} (h : Current s) (vs : Cstr → Int) (se : SolverEvents) :
    Current (s.processAdded vs se) := by
  have f1 : ∀ (l : List Cstr) (s : Solver), Current s → Current (l.foldl Solver.addConstraint s) := by
    intro l; induction l with
    | nil => exact fun s h => h
    | cons c l ih => exact fun s h => ih _ (h.addConstraint c)
  have f2 : ∀ (l : List Cstr) (s : Solver), Current s → Current (l.foldl (fun s c => s.addBound vs c) s) := by
    intro l; induction l with
    | nil => exact fun s h => h
    | cons c l ih => exact fun s h => ih _ (h.addBound vs c)
  have f3 : ∀ (l : List Objective) (s : Solver), Current s → Current (l.foldl Solver.addObjective s) := by
    intro l; induction l with
    | nil => exact fun s h => h
    | cons c l ih => exact fun s h => ih _ (h.addObjective c)
  exact f3 _ _ (f2 _ _ (f1 _ _ h))

theorem Current.adds (vs : Cstr → Int) : ∀ (l : List Add) (s : Solver), Current s → Current (l.foldl (Solver.add vs) s) := by
  intro l; induction l with
  | nil => exact fun s h => h
  | cons c l ih =>
    intro s h
    refine ih _ ?_
    cases c with
    | cstr c => exact h.addConstraint c
    | obj o => exact h.addObjective o
    | bnd c => exact h.addBound vs c

/-! ### Shapes -/

theorem same_alloc (b : Buf) (r c f : Nat) (hr : b.rows = r) (hc : b.cols = c) : b.resize r c f = b := by
  subst hr hc
  simp [Buf.resize, Buf.willReallocate]

/-- The buffers have the shapes of the last call to `resize_`, and the views are blocks of them. -/
structure Shaped (k : Kind) (ch : Bool) (b : Bufs) (v : Views) (n o e i : Nat) (u : Bool) : Prop where
  views : v = viewsOf k b n o e i u
  bufs : ∃ b0 : Bufs, b = resizeBufs k ch b0 n o e i u

theorem views_eq_same {k : Kind} {ch : Bool} {b : Bufs} {v : Views} {n o e i : Nat} {u : Bool}
    (h : Shaped k ch b v n o e i u) (o' i' : Nat) (u' : Bool)
    (hr : k = .quadprog → quadprogRows e i' n u' = quadprogRows e i n u) (hi : k ≠ .quadprog → i' = i) :
    (viewsOf k (resizeBufs k ch b n o' e i' u') n o' e i' u').eq = v.eq := by
  obtain ⟨hv, b0, hb⟩ := h
  subst hv
  cases k with
  | quadprog => rw [hb]; simp [viewsOf, resizeBufs, same_alloc, Buf.resize, Buf.willReallocate, hr rfl]
  | _ => rw [hb, hi (by simp)]; simp [viewsOf, resizeBufs, same_alloc, Buf.resize, Buf.willReallocate]

theorem views_ineq_same {k : Kind} {ch : Bool} {b : Bufs} {v : Views} {n o e i : Nat} {u : Bool}
    (h : Shaped k ch b v n o e i u) (o' : Nat) (u' : Bool) (hu : k = .quadprog → quadprogRows e i n u' = quadprogRows e i n u) :
    (viewsOf k (resizeBufs k ch b n o' e i u') n o' e i u').ineq = v.ineq := by
  obtain ⟨hv, b0, hb⟩ := h
  subst hv
  cases k with
  | quadprog => rw [hb]; simp [viewsOf, resizeBufs, same_alloc, Buf.resize, Buf.willReallocate, hu rfl]
  | _ => rw [hb]; simp [viewsOf, resizeBufs, same_alloc, Buf.resize, Buf.willReallocate]

theorem views_obj_same {k : Kind} {ch : Bool} {b : Bufs} {v : Views} {n o e i : Nat} {u : Bool}
    (h : Shaped k ch b v n o e i u) (e' i' : Nat) (u' : Bool) :
    (viewsOf k (resizeBufs k ch b n o e' i' u') n o e' i' u').obj = v.obj := by
  obtain ⟨hv, b0, hb⟩ := h
  subst hv
  cases k <;> rw [hb] <;> simp [viewsOf, resizeBufs, same_alloc, Buf.resize, Buf.willReallocate]

theorem mul_left_inj_pos {m n n' : Nat} (hm : 0 < m) (h : m * n = m * n') : n = n' := Nat.eq_of_mul_eq_mul_left hm h

theorem quad_inj {m n n' : Nat} (h : (m + 2 * n) * n = (m + 2 * n') * n') : n = n' := by
  rcases Nat.lt_trichotomy n n' with hl | hl | hl
  · have h1 : (m + 2 * n) * n ≤ (m + 2 * n) * n' := Nat.mul_le_mul_left _ (by omega)
    have h2 : (m + 2 * n) * n' < (m + 2 * n') * n' := Nat.mul_lt_mul_of_pos_right (by omega) (by omega)
    omega
  · exact hl
  · have h1 : (m + 2 * n') * n' ≤ (m + 2 * n') * n := Nat.mul_le_mul_left _ (by omega)
    have h2 : (m + 2 * n') * n < (m + 2 * n) * n := Nat.mul_lt_mul_of_pos_right (by omega) (by omega)
    omega

theorem objRows_inj {ch : Bool} {o n n' : Nat} (ho : 0 < o) (h : objRows ch o n * n = objRows ch o n' * n') : n = n' := by
  simp only [objRows] at h
  have mono : ∀ a b : Nat, a < b → (if ch = true ∧ o < a then o + a else o) * a < (if ch = true ∧ o < b then o + b else o) * b := by
    intro a b hab
    have h1 : (if ch = true ∧ o < a then o + a else o) ≤ (if ch = true ∧ o < b then o + b else o) := by
      by_cases h2 : ch = true ∧ o < a
      · have h3 : ch = true ∧ o < b := ⟨h2.1, by omega⟩
        rw [if_pos h2, if_pos h3]; omega
      · rw [if_neg h2]; split <;> omega
    have h4 : 0 < (if ch = true ∧ o < b then o + b else o) := by split <;> omega
    calc _ ≤ (if ch = true ∧ o < b then o + b else o) * a := Nat.mul_le_mul_right _ h1
      _ < _ := Nat.mul_lt_mul_of_pos_left hab h4
  rcases Nat.lt_trichotomy n n' with hl | hl | hl
  · have := mono n n' hl; omega
  · exact hl
  · have := mono n' n hl; omega

theorem quadprogRows_inj {e i n n' : Nat} {u : Bool} (h : 0 < e + i ∨ u = true)
    (hh : quadprogRows e i n u * n = quadprogRows e i n' u * n') : n = n' := by
  cases u with
  | true => simp only [quadprogRows, if_true] at hh; exact quad_inj hh
  | false =>
    have hp : 0 < e + i := by simpa using h
    simp only [quadprogRows, Bool.false_eq_true, if_false] at hh
    exact mul_left_inj_pos hp hh

/-- Number of coefficients of the matrix of constraints after a call to `resize_`. -/
theorem realloc_cst {k : Kind} {ch : Bool} {b : Bufs} {v : Views} {n o e i : Nat} {u : Bool}
    (h : Shaped k ch b v n o e i u) (n' o' e' i' : Nat) (u' : Bool)
    (hz : (resizeImpact k ch b n' o' e' i' u').equality = false) :
    (k = .lssol → (e + i) * n = (e' + i') * n') ∧ (k = .lexls → (e + i) * (n + 2) = (e' + i') * (n' + 2)) ∧
    (k = .qld → (e + i) * n = (e' + i') * n') ∧
    (k = .quadprog → quadprogRows e i n u * n = quadprogRows e' i' n' u' * n') := by
  obtain ⟨hv, b0, hb⟩ := h
  subst hb
  cases k <;> simp [resizeImpact, resizeBufs, Buf.resize, Buf.willReallocate] at hz ⊢ <;> exact hz

/-- The impact on equality and inequality of a call to `resize_` is the same. -/
theorem impactZ_same (k : Kind) (ch : Bool) (b : Bufs) (n o e i : Nat) (u : Bool) :
    (resizeImpact k ch b n o e i u).inequality = (resizeImpact k ch b n o e i u).equality := by
  cases k <;> rfl

theorem realloc_obj {k : Kind} {ch : Bool} {b : Bufs} {v : Views} {n o e i : Nat} {u : Bool}
    (h : Shaped k ch b v n o e i u) (n' e' i' : Nat) (u' : Bool) (ho : 0 < o)
    (hz : (resizeImpact k ch b n' o e' i' u').objectives = false) : n = n' := by
  obtain ⟨hv, b0, hb⟩ := h
  subst hb
  cases k <;> simp [resizeImpact, resizeBufs, Buf.resize, Buf.willReallocate] at hz
  · exact mul_left_inj_pos ho hz
  · have := mul_left_inj_pos ho hz
    omega
  · exact objRows_inj ho hz
  · exact objRows_inj ho hz

/-- Bounds for the kinds other than Quadprog. -/
theorem views_bnd_same {k : Kind} {ch : Bool} {b : Bufs} {v : Views} {n o e i : Nat} {u : Bool}
    (h : Shaped k ch b v n o e i u) (n' o' e' i' : Nat) (u' : Bool) (hk : k ≠ .quadprog)
    (hz : (resizeImpact k ch b n' o' e' i' u').bounds = false) :
    (viewsOf k (resizeBufs k ch b n' o' e' i' u') n' o' e' i' u').bnd = v.bnd := by
  obtain ⟨hv, b0, hb⟩ := h
  subst hv
  subst hb
  cases k with
  | quadprog => exact absurd rfl hk
  | lssol =>
    simp [resizeImpact, resizeBufs, Buf.resize, Buf.willReallocate] at hz
    simp [viewsOf, resizeBufs, same_alloc, Buf.resize, Buf.willReallocate, hz.1]
  | lexls =>
    simp [resizeImpact, resizeBufs, Buf.resize, Buf.willReallocate] at hz
    have hz : n = n' := by omega
    simp [viewsOf, resizeBufs, same_alloc, Buf.resize, Buf.willReallocate, hz]
  | qld =>
    simp [resizeImpact, resizeBufs, Buf.resize, Buf.willReallocate] at hz
    simp [viewsOf, resizeBufs, same_alloc, Buf.resize, Buf.willReallocate, hz]

theorem views_bnd_same_quadprog {ch : Bool} {b : Bufs} {v : Views} {n o e i : Nat} {u : Bool}
    (h : Shaped .quadprog ch b v n o e i u) (o' : Nat) :
    (viewsOf .quadprog (resizeBufs .quadprog ch b n o' e i u) n o' e i u).bnd = v.bnd := by
  obtain ⟨hv, b0, hb⟩ := h
  subst hv
  subst hb
  simp [viewsOf, resizeBufs, same_alloc, Buf.resize, Buf.willReallocate]

/-! ### The invariant -/

/-- The matrices have the shapes of the counters. -/
def ShapedS (s : Solver) (n : Nat) : Prop :=
  Shaped s.kind s.cholesky s.bufs s.views n s.nObj.toNat s.nEq.toNat s.nIneq.toNat (!s.bnd.isEmpty)

theorem bnd_nonempty {s : Solver} {C B O : Cstr → Prop} (h : Maps s C B O) : ((!s.bnd.isEmpty) = true) ↔ ∃ c, B c := by
  constructor
  · intro hn
    cases hb : s.bnd with
    | nil => simp [hb] at hn
    | cons e l => exact ⟨e.1, (h.memB e.1).1 (by simp [keys, hb])⟩
  · rintro ⟨c, hc⟩
    have := (h.memB c).2 hc
    cases hb : s.bnd with
    | nil => simp [keys, hb] at this
    | cons e l => simp

theorem quadprog_bounds (i : Impact) :
    (Kind.quadprog.impactLogic i).bounds = (i.bounds || (i.equality || i.inequality)) := by
  obtain ⟨a, b, c, d⟩ := i
  cases a <;> cases b <;> cases c <;> cases d <;> decide

theorem size_le_total (size : Cstr → Nat) : ∀ (m : AMap) (e : Cstr × List Asg), e ∈ m → size e.1 ≤ total size m := by
  intro m
  induction m with
  | nil => intro e he; simp at he
  | cons x m ih =>
    intro e he
    simp only [total, List.map_cons, List.sum_cons]
    rcases List.mem_cons.1 he with rfl | he
    · omega
    · have := ih e he
      simp only [total] at this; omega

theorem le_constraintSize (k : Kind) (c : Cstr) : c.size ≤ constraintSize k c := by
  simp only [constraintSize]; split <;> omega

theorem rowsIneq_zero (k : Kind) : ∀ (l : List Cstr), (∀ c ∈ l, c.type ≠ .equal → c.size = 0) → rowsIneq k l = 0 := by
  intro l
  induction l with
  | nil => intro _; rfl
  | cons c l ih =>
    intro h
    have h1 := ih (fun d hd => h d (List.mem_cons_of_mem _ hd))
    simp only [rowsIneq, List.map_cons, List.sum_cons] at h1 ⊢
    rw [h1]
    by_cases he : c.isEquality = true
    · simp [he]
    · have := h c (by simp) (fun ht => he (by simp [Cstr.isEquality, ht]))
      simp [he, constraintSize, this]

theorem process_current {s : Solver} {C B O C' B' O' : Cstr → Prop} {vs vs' : Cstr → Int} (se : SolverEvents) (n n' : Nat)
    (h : Lay s C B O vs) (ha : s.assertSizes) (hcur : Current s) (hsh : ShapedS s n)
    (hC : Net C C' se.addedConstraints se.removedConstraints) (hB : Net B B' se.addedBounds se.removedBounds)
    (hO : Net O O' (se.addedObjectives.map (·.c)) se.removedObjectives)
    (hv : needMappingUpdate se = false → ∀ c, B c → vs' c = vs c) (hQ : Steady s.kind se n n' B B') :
    Current (s.process se n' vs') ∧ ShapedS (s.process se n' vs') n' := by
  have hp := process_lay se n' h ha hC hB hO hv
  obtain ⟨hm, hs, ht, ho, hb⟩ := h
  have hcount := Counts.of hs ha
  obtain ⟨r1, r2, r3, r4, r5, r6⟩ := processRemoved_spec se hm hcount hC.nodupR hO.nodupR hB.nodupR
    (fun c hc => ((hC.memR c).1 hc).1) (fun c hc => ((hO.memR c).1 hc).1) (fun c hc => ((hB.memR c).1 hc).1)
  have hpa : s.process se n' vs' = (s.processExisting se n' vs').processAdded vs' se := rfl
  generalize hs1 : s.processRemoved se = s1 at r1 r2 r3 r4 r5 r6
  generalize hs2 : s1.previewAdded se = s2
  have hs2' := previewAdded_eq s1 se
  rw [hs2] at hs2'
  generalize hub : (!s2.bnd.isEmpty || !se.addedBounds.isEmpty) = ub
  generalize hs3 : s2.resize n' s2.nObj.toNat s2.nEq.toNat s2.nIneq.toNat ub = s3
  generalize hi : (impactRemove s.kind se).or (impactAdd s2 se) = i
  generalize hz : resizeImpact s2.kind s2.cholesky s2.bufs n' s2.nObj.toNat s2.nEq.toNat s2.nIneq.toNat ub = iZ
  generalize hi' : s.kind.impactLogic (i.or iZ) = i'
  have e : s.processExisting se n' vs' = (s3.ranges i (needMappingUpdate se) vs').redirectAll i' := by
    simp only [Solver.processExisting, hs1, hs2, hub, hs3, hi, hz, hi', Solver.ranges]
  have g : s2.kind = s.kind ∧ s2.cholesky = s.cholesky ∧ s2.bufs = s.bufs ∧ s2.eqSize = s1.nEq ∧ s2.ineqSize = s1.nIneq ∧
      s2.nEq = s1.nEq + rowsEq s.kind se.addedConstraints ∧ s2.nIneq = s1.nIneq + rowsIneq s.kind se.addedConstraints ∧
      s2.nObj = s1.nObj + rowsObj se.addedObjectives ∧ s2.bnd = s1.bnd := by
    rw [hs2', ← r3.1]
    exact ⟨rfl, r3.2.1, r3.2.2.1, rfl, rfl, rfl, rfl, rfl, rfl⟩
  obtain ⟨g1, g2, g3, g4, g5, g6, g7, g8, g9⟩ := g
  have f : s3.kind = s.kind ∧ s3.cholesky = s.cholesky ∧ s3.eq = s1.eq ∧ s3.ineq = s1.ineq ∧ s3.bnd = s1.bnd ∧ s3.obj = s1.obj ∧
      s3.nEq = s2.nEq ∧ s3.nIneq = s2.nIneq ∧ s3.nObj = s2.nObj ∧
      s3.bufs = resizeBufs s.kind s.cholesky s.bufs n' s2.nObj.toNat s2.nEq.toNat s2.nIneq.toNat ub ∧
      s3.views = viewsOf s.kind (resizeBufs s.kind s.cholesky s.bufs n' s2.nObj.toNat s2.nEq.toNat s2.nIneq.toNat ub) n'
        s2.nObj.toNat s2.nEq.toNat s2.nIneq.toNat ub := by
    rw [← g1, ← g2, ← g3, ← hs3, hs2']
    exact ⟨rfl, rfl, rfl, rfl, rfl, rfl, rfl, rfl, rfl, rfl, rfl⟩
  obtain ⟨f1, f2, f3, f4, f5, f6, f7, f8, f9, f10, f11⟩ := f
  rw [g1, g2, g3] at hz
  -- impacts
  have L1 := impact_logic_eq s.kind ⟨!se.removedConstraints.isEmpty, !se.removedConstraints.isEmpty, !se.removedBounds.isEmpty, !se.removedObjectives.isEmpty⟩
  have L2 := impact_logic_eq s.kind ⟨s2.nEq ≠ s2.eqSize, s2.nIneq ≠ s2.ineqSize, false, !se.addedObjectives.isEmpty⟩
  have L3 := impact_logic_eq s.kind (i.or iZ)
  have hR : impactRemove s.kind se = s.kind.impactLogic ⟨!se.removedConstraints.isEmpty, !se.removedConstraints.isEmpty, !se.removedBounds.isEmpty, !se.removedObjectives.isEmpty⟩ := rfl
  have hA : impactAdd s2 se = s.kind.impactLogic ⟨s2.nEq ≠ s2.eqSize, s2.nIneq ≠ s2.ineqSize, false, !se.addedObjectives.isEmpty⟩ := by
    simp only [impactAdd, g1]
  rw [← hR] at L1
  rw [← hA] at L2
  rw [hi'] at L3
  have ie : i.equality = ((impactRemove s.kind se).equality || (impactAdd s2 se).equality) := by rw [← hi]; rfl
  have ii : i.inequality = ((impactRemove s.kind se).inequality || (impactAdd s2 se).inequality) := by rw [← hi]; rfl
  have io : i.objectives = ((impactRemove s.kind se).objectives || (impactAdd s2 se).objectives) := by rw [← hi]; rfl
  rw [L1.1, L2.1] at ie
  rw [L1.2.1, L2.2.1] at ii
  rw [L1.2.2.2, L2.2.2.2] at io
  have oe : (i.or iZ).equality = (i.equality || iZ.equality) := rfl
  have oi : (i.or iZ).inequality = (i.inequality || iZ.inequality) := rfl
  have ob : (i.or iZ).bounds = (i.bounds || iZ.bounds) := rfl
  have oo : (i.or iZ).objectives = (i.objectives || iZ.objectives) := rfl
  have iZs : iZ.inequality = iZ.equality := by rw [← hz]; exact impactZ_same ..
  -- no constraint event
  have keepE : i.equality = false → s1.eq = s.eq ∧ s1.ineq = s.ineq ∧ s1.nIneq = s.nIneq ∧ s2.nEq = s.nEq := by
    intro h
    rw [ie] at h; simp at h
    obtain ⟨q1, q2⟩ := r4 h.1.1
    refine ⟨q1, q2, ?_, ?_⟩
    · rw [r2.ineq, r3.1, q2]; exact hcount.ineq.symm
    · rw [h.2.1, g4, r2.eq, r3.1, q1]; exact hcount.eq.symm
  have keepI : i.inequality = false → s1.eq = s.eq ∧ s1.ineq = s.ineq ∧ s2.nIneq = s.nIneq ∧ s2.nEq = s.nEq := by
    intro h
    rw [ii] at h; simp at h
    obtain ⟨q1, q2⟩ := r4 h.1
    refine ⟨q1, q2, ?_, ?_⟩
    · rw [h.2.1, g5, r2.ineq, r3.1, q2]; exact hcount.ineq.symm
    · rw [h.2.2, g4, r2.eq, r3.1, q1]; exact hcount.eq.symm
  have keepIJ : s.kind.joint = true → i.equality = false → i.inequality = false := by
    intro hj h
    rw [ie, hj] at h
    rw [ii]
    simp at h ⊢
    exact ⟨h.1, h.2.2, h.2.1⟩
  -- use of bounds
  have hu' : ub = true ↔ ∃ c, B' c := by
    rw [← hub, Bool.or_eq_true, g9, bnd_nonempty r1]
    constructor
    · rintro (⟨c, h1, h2⟩ | h)
      · exact ⟨c, ((C32_apply hB).2 c).2 (Or.inl ⟨h1, h2⟩)⟩
      · cases hl : se.addedBounds with
        | nil => simp [hl] at h
        | cons c l => exact ⟨c, ((C32_apply hB).2 c).2 (Or.inr (by simp [hl]))⟩
    · rintro ⟨c, hc⟩
      rcases ((C32_apply hB).2 c).1 hc with h | h
      · exact Or.inl ⟨c, h⟩
      · right
        cases hl : se.addedBounds with
        | nil => simp [hl] at h
        | cons c l => simp
  have hu : (!s.bnd.isEmpty) = true ↔ ∃ c, B c := bnd_nonempty hm
  have huu : ((∃ c, B c) ↔ ∃ c, B' c) → ub = !s.bnd.isEmpty := by
    intro h
    have : (ub = true) ↔ ((!s.bnd.isEmpty) = true) := hu'.trans (h.symm.trans hu.symm)
    exact Bool.eq_iff_iff.2 this
  have RC : iZ.equality = false → _ := fun hf => realloc_cst hsh n' s2.nObj.toNat s2.nEq.toNat s2.nIneq.toNat ub (by rw [hz]; exact hf)
  -- sizes of entries
  have posE : ∀ e ∈ s.eq, 0 < e.1.size → 0 < s.nEq.toNat := by
    intro e he hp
    have h1 := size_le_total (constraintSize s.kind) s.eq e he
    have h2 := le_constraintSize s.kind e.1
    rw [hcount.eq]; omega
  have posI : ∀ e ∈ s.ineq, 0 < e.1.size → 0 < s.nIneq.toNat := by
    intro e he hp
    have h1 := size_le_total (constraintSize s.kind) s.ineq e he
    have h2 := le_constraintSize s.kind e.1
    rw [hcount.ineq]; omega
  have posO : ∀ e ∈ s.obj, 0 < e.1.size → 0 < s.nObj.toNat := by
    intro e he hp
    have h1 := size_le_total (·.size) s.obj e he
    rw [hcount.obj]; omega
  -- the four categories
  have cE : i'.equality = false → RefersTo s3.views.eq s3.eq := by
    intro hf
    rw [L3.1, oe, oi] at hf
    simp only [Bool.or_eq_false_iff, Bool.and_eq_false_iff] at hf
    obtain ⟨⟨x1, x2⟩, x3⟩ := hf
    obtain ⟨q1, q2, q3, q4⟩ := keepE x1
    obtain ⟨z1, z2, z3, z4⟩ := RC x2
    intro e he hp a haa
    rw [f3, q1] at he
    have hpos := posE e he hp
    rw [hcur.eq e he hp a haa, f11]
    rw [q4] at z1 z2 z3 z4 ⊢
    symm
    have same : s.kind ≠ .quadprog → s2.nIneq = s.nIneq → n' = n → 
        (viewsOf s.kind (resizeBufs s.kind s.cholesky s.bufs n' s2.nObj.toNat s.nEq.toNat s2.nIneq.toNat ub) n'
          s2.nObj.toNat s.nEq.toNat s2.nIneq.toNat ub).eq = s.views.eq := by
      intro hk h1 h2
      rw [h2]
      exact views_eq_same hsh _ _ _ (fun h => absurd h hk) (fun _ => by rw [h1])
    cases hk : s.kind with
    | lssol =>
      rw [hk] at same
      have hii := keepI (keepIJ (by rw [hk]; rfl) x1)
      refine same (by simp) hii.2.2.1 ?_
      have := z1 hk
      rw [hii.2.2.1] at this
      exact (mul_left_inj_pos (by omega) this).symm
    | lexls =>
      rw [hk] at same
      have hii := keepI (keepIJ (by rw [hk]; rfl) x1)
      refine same (by simp) hii.2.2.1 ?_
      have := z2 hk
      rw [hii.2.2.1] at this
      have := mul_left_inj_pos (by omega) this
      omega
    | qld =>
      rw [hk] at same
      have zz := z3 hk
      have nn : 0 ≤ s.nIneq ∧ 0 ≤ s2.nIneq := by
        have := hcount.ineq
        rw [g7, q3]; omega
      rcases hQ with hQ | hQ | hQ | hQ
      · rw [hk] at hQ; cases hQ
      · rw [hk] at hQ; cases hQ
      · obtain ⟨rfl, hpn⟩ := hQ
        have : s.nEq.toNat + s.nIneq.toNat = s.nEq.toNat + s2.nIneq.toNat := Nat.eq_of_mul_eq_mul_right hpn zz
        exact same (by simp) (by omega) rfl
      · have h0 := rowsIneq_zero s.kind _ hQ.1
        have h1 : s2.nIneq = s.nIneq := by rw [g7, q3, h0]; simp
        rw [h1] at zz
        exact same (by simp) h1 (mul_left_inj_pos (by omega) zz).symm
    | quadprog =>
      have hsh' := hsh
      simp only [ShapedS, hk] at hsh'
      have zz := z4 hk
      rcases hQ with hQ | hQ | hQ | hQ
      · rw [hk] at hQ; cases hQ
      · rw [hk] at hQ; cases hQ
      · obtain ⟨rfl, hpn⟩ := hQ
        have h1 := Nat.eq_of_mul_eq_mul_right hpn zz
        exact views_eq_same hsh' _ _ _ (fun _ => h1.symm) (fun h => absurd rfl h)
      · have h0 := rowsIneq_zero s.kind _ hQ.1
        have h1 : s2.nIneq = s.nIneq := by rw [g7, q3, h0]; simp
        have h2 := huu (hQ.2 hk)
        rw [h1, h2] at zz
        have h3 := quadprogRows_inj (Or.inl (by omega)) zz
        rw [h1, h2, ← h3]
        exact views_eq_same hsh' _ _ _ (fun _ => rfl) (fun h => absurd rfl h)
  have cI : i'.inequality = false → RefersTo s3.views.ineq s3.ineq := by
    intro hf
    rw [L3.2.1, oe, oi] at hf
    simp only [Bool.or_eq_false_iff] at hf
    obtain ⟨⟨x1, x2⟩, ⟨x3, x4⟩⟩ := hf
    obtain ⟨q1, q2, q3, q4⟩ := keepI x1
    obtain ⟨z1, z2, z3, z4⟩ := RC x4
    intro e he hp a haa
    rw [f4, q2] at he
    have hpos := posI e he hp
    rw [hcur.ineq e he hp a haa, f11]
    rw [q3, q4] at z1 z2 z3 z4
    rw [q3, q4]
    symm
    have same : s.kind ≠ .quadprog → n' = n → 
        (viewsOf s.kind (resizeBufs s.kind s.cholesky s.bufs n' s2.nObj.toNat s.nEq.toNat s.nIneq.toNat ub) n'
          s2.nObj.toNat s.nEq.toNat s.nIneq.toNat ub).ineq = s.views.ineq := by
      intro hk h2
      rw [h2]
      exact views_ineq_same hsh _ _ (fun h => absurd h hk)
    cases hk : s.kind with
    | lssol => rw [hk] at same; exact same (by simp) (mul_left_inj_pos (by omega) (z1 hk)).symm
    | lexls =>
      rw [hk] at same
      have := mul_left_inj_pos (by omega) (z2 hk)
      exact same (by simp) (by omega)
    | qld => rw [hk] at same; exact same (by simp) (mul_left_inj_pos (by omega) (z3 hk)).symm
    | quadprog =>
      have hsh' := hsh
      simp only [ShapedS, hk] at hsh'
      have zz := z4 hk
      rcases hQ with hQ | hQ | hQ | hQ
      · rw [hk] at hQ; cases hQ
      · rw [hk] at hQ; cases hQ
      · obtain ⟨rfl, hpn⟩ := hQ
        have h1 := Nat.eq_of_mul_eq_mul_right hpn zz
        exact views_ineq_same hsh' _ _ (fun _ => h1.symm)
      · have h2 := huu (hQ.2 hk)
        rw [h2] at zz
        have h3 := quadprogRows_inj (Or.inl (by omega)) zz
        rw [h2, ← h3]
        exact views_ineq_same hsh' _ _ (fun _ => rfl)
  have cB : i'.bounds = false → RefersTo s3.views.bnd s3.bnd := by
    intro hf e he hp a haa
    rw [f5] at he
    have he' := r6 e he
    rw [hcur.bnd e he' hp a haa, f11]
    symm
    have hbz : (i.or iZ).bounds = false := by
      cases hx : (i.or iZ).bounds with
      | false => rfl
      | true => rw [L3.2.2.1 hx] at hf; cases hf
    rw [ob] at hbz
    simp only [Bool.or_eq_false_iff] at hbz
    by_cases hk : s.kind = .quadprog
    · have hsh' := hsh
      simp only [ShapedS, hk] at hsh'
      rw [← hi', hk, quadprog_bounds, oe, oi] at hf
      simp only [Bool.or_eq_false_iff] at hf
      obtain ⟨q1, q2, q3, q4⟩ := keepI hf.2.2.1
      obtain ⟨z1, z2, z3, z4⟩ := RC hf.2.1.2
      have zz := z4 hk
      have hBe : ∃ c, B c := ⟨e.1, (hm.memB e.1).1 (List.mem_map_of_mem he')⟩
      have hBe' : ∃ c, B' c := ⟨e.1, ((C32_apply hB).2 e.1).2 (Or.inl ((r1.memB e.1).1 (List.mem_map_of_mem he)))⟩
      have h2 := huu ⟨fun _ => hBe', fun _ => hBe⟩
      rw [q3, q4, h2] at zz
      have h3 := quadprogRows_inj (Or.inr (hu.2 hBe)) zz
      rw [q3, q4, h2, ← h3, hk]
      exact views_bnd_same_quadprog hsh' _
    · exact views_bnd_same hsh _ _ _ _ _ hk (by rw [hz]; exact hbz.2)
  have cO : i'.objectives = false → RefersTo s3.views.obj s3.obj := by
    intro hf
    rw [L3.2.2.2, oo] at hf
    simp only [Bool.or_eq_false_iff] at hf
    obtain ⟨x1, x2⟩ := hf
    rw [io] at x1
    simp at x1
    intro e he hp a haa
    have q := r5 x1.1
    rw [f6, q] at he
    have hpos := posO e he hp
    have hn : s2.nObj = s.nObj := by
      rw [g8, r2.obj, q, ← hcount.obj, x1.2]; simp [rowsObj]
    rw [hcur.obj e he hp a haa, f11, hn]
    rw [hn] at hz
    have := realloc_obj hsh n' _ _ _ hpos (by rw [hz]; exact x2)
    rw [← this]
    exact (views_obj_same hsh _ _ _).symm
  have hd := ranges_head s3 i (needMappingUpdate se) vs'
  have cur : Current (s.processExisting se n' vs') := by
    rw [e]
    refine ⟨?_, ?_, ?_, ?_⟩
    · change RefersTo (s3.ranges i (needMappingUpdate se) vs').views.eq (if i'.equality then _ else _)
      rw [hd.views]
      cases hx : i'.equality with
      | true => rw [← hd.views]; exact RefersTo.redirect _ _
      | false =>
        rw [if_neg (by simp), ranges_eq]
        split
        · exact (cE hx).retarget _ _ _ _
        · exact cE hx
    · change RefersTo (s3.ranges i (needMappingUpdate se) vs').views.ineq (if i'.inequality then _ else _)
      rw [hd.views]
      cases hx : i'.inequality with
      | true => rw [← hd.views]; exact RefersTo.redirect _ _
      | false =>
        rw [if_neg (by simp), ranges_ineq]
        split
        · exact (cI hx).retarget _ _ _ _
        · exact cI hx
    · change RefersTo (s3.ranges i (needMappingUpdate se) vs').views.bnd (if i'.bounds then _ else _)
      rw [hd.views]
      cases hx : i'.bounds with
      | true => rw [← hd.views]; exact RefersTo.redirect _ _
      | false =>
        rw [if_neg (by simp), ranges_bnd]
        split
        · exact (cB hx).retargetBounds _
        · exact cB hx
    · change RefersTo (s3.ranges i (needMappingUpdate se) vs').views.obj (if i'.objectives then _ else _)
      rw [hd.views]
      cases hx : i'.objectives with
      | true => rw [← hd.views]; exact RefersTo.redirect _ _
      | false =>
        rw [if_neg (by simp), ranges_obj]
        split
        · exact (cO hx).retarget _ _ _ _
        · exact cO hx
  refine ⟨by rw [hpa]; exact cur.processAdded vs' se, ?_⟩
  -- shapes
  obtain ⟨p1, p2, p3, p4, p5⟩ := hp
  have hd2 : SameHead s3 (s.process se n' vs') := by
    have : SameHead s3 (s.processExisting se n' vs') := by
      rw [e]; exact hd.trans (redirectAll_head _ _)
    exact this.trans p5
  have hub2 : (!(s.process se n' vs').bnd.isEmpty) = ub := by
    have h1 := bnd_nonempty p1.maps
    have : ((!(s.process se n' vs').bnd.isEmpty) = true) ↔ ub = true := h1.trans hu'.symm
    exact Bool.eq_iff_iff.2 this
  have x := hd2.kind
  simp only [ShapedS]
  rw [hub2, hd2.kind, hd2.cholesky, hd2.bufs, hd2.views, hd2.nObj, hd2.nEq, hd2.nIneq, f1, f2, f7, f8, f9, f10, f11]
  exact ⟨rfl, _, rfl⟩

theorem build_current (s : Solver) (n nObj nEq nIneq : Nat) (ub : Bool) (l : List Add) (vs : Cstr → Int)
    (hg : GoodBuild s.kind nObj nEq nIneq ub l) :
    Current (s.build n nObj nEq nIneq ub l vs) ∧ ShapedS (s.build n nObj nEq nIneq ub l vs) n := by
  obtain ⟨h1, h2, h3⟩ := build_lay s n nObj nEq nIneq ub l vs hg
  have h0 : Current (s.startBuild n nObj nEq nIneq ub) :=
    ⟨fun e he => by simp [Solver.startBuild] at he, fun e he => by simp [Solver.startBuild] at he,
      fun e he => by simp [Solver.startBuild] at he, fun e he => by simp [Solver.startBuild] at he⟩
  refine ⟨Current.adds vs l _ h0, ?_⟩
  have hub2 : (!(s.build n nObj nEq nIneq ub l vs).bnd.isEmpty) = ub := by
    have h1 := bnd_nonempty h1.maps
    have h2 : (∃ c, c ∈ bndsOf l) ↔ ub = true := by
      rw [hg.bounds]
      cases hb : bndsOf l with
      | nil => simp
      | cons c l => simp
    exact Bool.eq_iff_iff.2 (h1.trans h2)
  simp only [ShapedS]
  rw [hub2, h3.kind, h3.cholesky, h3.bufs, h3.views, h3.nObj, h3.nEq, h3.nIneq]
  exact ⟨rfl, _, rfl⟩

theorem reach_current {k : Kind} {ch : Bool} {s : Solver} {C B O : Cstr → Prop} {n : Nat} {vs : Cstr → Int}
    (h : Reach k ch (Steady k) s C B O n vs) : Current s ∧ ShapedS s n := by
  induction h with
  | first n nObj nEq nIneq ub l vs hg => exact build_current (Solver.new k ch) n nObj nEq nIneq ub l vs hg
  | again s C B O n' vs' n nObj nEq nIneq ub l vs hr hg _ =>
    obtain ⟨_, _, hk, _⟩ := reach_lay hr
    rw [← hk] at hg
    exact build_current s n nObj nEq nIneq ub l vs hg
  | process s C B O n vs se C' B' O' n' vs' hr hC hB hO hv hQ ih =>
    obtain ⟨h1, h2, h3, _⟩ := reach_lay hr
    rw [← h3] at hQ
    exact process_current se n n' h1 h2 ih.1 ih.2 hC hB hO (fun h => (hv h).2) hQ

theorem Reach.mono {k : Kind} {ch : Bool} {Q Q' : SolverEvents → Nat → Nat → (Cstr → Prop) → (Cstr → Prop) → Prop}
    (hQ : ∀ se n n' B B', Q se n n' B B' → Q' se n n' B B') {s : Solver} {C B O : Cstr → Prop} {n : Nat} {vs : Cstr → Int}
    (h : Reach k ch Q s C B O n vs) : Reach k ch Q' s C B O n vs := by
  induction h with
  | first n nObj nEq nIneq ub l vs hg => exact .first n nObj nEq nIneq ub l vs hg
  | again s C B O n' vs' n nObj nEq nIneq ub l vs _ hg ih => exact .again s C B O n' vs' n nObj nEq nIneq ub l vs ih hg
  | process s C B O n vs se C' B' O' n' vs' _ hC hB hO hv hq ih =>
    exact .process s C B O n vs se C' B' O' n' vs' ih hC hB hO hv (hQ _ _ _ _ _ hq)

/-- **C60** for LSSOL and LexLS, without any condition on the batches. -/
theorem C60_current_joint {k : Kind} {ch : Bool} {s : Solver} {C B O : Cstr → Prop} {n : Nat} {vs : Cstr → Int}
    (hk : k = .lssol ∨ k = .lexls) (h : Reach k ch (fun _ _ _ _ _ => True) s C B O n vs) : Current s :=
  (reach_current (h.mono (fun _ _ _ _ _ _ => by
    rcases hk with hk | hk
    · exact Or.inl hk
    · exact Or.inr (Or.inl hk)))).1

/-- **C60** for all the solvers, when the batches are steady. Missing for QLD and Quadprog: batches that change at once the
number of variables and the rows of inequality constraints (or the presence of bounds), for which it is false. -/
theorem C60_current_partial {k : Kind} {ch : Bool} {s : Solver} {C B O : Cstr → Prop} {n : Nat} {vs : Cstr → Int}
    (h : Reach k ch (Steady k) s C B O n vs) : Current s :=
  (reach_current h).1

/-! ### No write outside the matrices -/

theorem Tile.within {l : List (Int × Int)} {a b : Int} (h : Tile l a b) (i : Int × Int) (hi : i ∈ l) (hp : i.1 < i.2) :
    a ≤ i.1 ∧ i.2 ≤ b := by
  have key : ∀ r, i.1 ≤ r → r < i.2 → a ≤ r ∧ r < b := by
    intro r h1 h2
    have hc := h r
    have hpos : 0 < l.countP (fun i => decide (i.1 ≤ r ∧ r < i.2)) := List.countP_pos_iff.2 ⟨i, hi, by simp [h1, h2]⟩
    by_cases hx : a ≤ r ∧ r < b
    · exact hx
    · rw [if_neg hx] at hc; omega
  have k1 := key i.1 (by omega) hp
  have k2 := key (i.2 - 1) (by omega) (by omega)
  omega

theorem mem_rowsOf (size : Cstr → Nat) (m : AMap) (e : Cstr × List Asg) (he : e ∈ m) (a : Asg) (ha : a ∈ e.2) :
    (a.start, a.start + (size e.1 : Int)) ∈ rowsOf size m := by
  simp only [rowsOf, List.mem_flatMap, List.mem_map]
  exact ⟨e, he, a, ha, rfl⟩

/-- **C60**, consequence: no assignment writes outside of the matrices of the solver. For bounds this supposes that the
variables of the bounds are among the variables of the solver. -/
theorem C60_no_write_outside_partial {k : Kind} {ch : Bool} {s : Solver} {C B O : Cstr → Prop} {n : Nat} {vs : Cstr → Int}
    (h : Reach k ch (Steady k) s C B O n vs) (hv : ∀ c, B c → 0 ≤ vs c ∧ vs c + c.size ≤ n) :
    (∀ e ∈ s.eq, 0 < e.1.size → ∀ a ∈ e.2, InBlock s a.view a.start (constraintSize k e.1)) ∧
    (∀ e ∈ s.ineq, 0 < e.1.size → ∀ a ∈ e.2, InBlock s a.view a.start (constraintSize k e.1)) ∧
    (∀ e ∈ s.obj, 0 < e.1.size → ∀ a ∈ e.2, InBlock s a.view a.start e.1.size) ∧
    (∀ e ∈ s.bnd, 0 < e.1.size → ∀ a ∈ e.2, InBlock s a.view a.start e.1.size) := by
  obtain ⟨⟨hm, hs, ht, ho, hb⟩, ha, hk, hch⟩ := reach_lay h
  obtain ⟨hc, hv', _⟩ := reach_current h
  obtain ⟨a1, a2, a3⟩ := ha
  have hE := hs.eq
  have hI := hs.ineq
  have hO := hs.obj
  rw [hk] at hv' hE hI
  have cs : ∀ c : Cstr, 0 < c.size → 0 < constraintSize k c := fun c hc => by
    have := le_constraintSize k c; omega
  have inE : Inside s s.views.eq := by rw [hv']; cases k <;> exact ⟨by simp [viewsOf], by simp [viewsOf]⟩
  have inI : Inside s s.views.ineq := by rw [hv']; cases k <;> exact ⟨by simp [viewsOf], by simp [viewsOf]⟩
  have inB : Inside s s.views.bnd := by rw [hv']; cases k <;> exact ⟨by simp [viewsOf], by simp [viewsOf]⟩
  have inO : Inside s s.views.obj := by rw [hv']; cases k <;> exact ⟨by simp [viewsOf], by simp [viewsOf]⟩
  refine ⟨fun e he hp a haa => ?_, fun e he hp a haa => ?_, fun e he hp a haa => ?_, fun e he hp a haa => ?_⟩
  · rw [hc.eq e he hp a haa]
    have hr := mem_rowsOf (constraintSize k) s.eq e he a haa
    have hq := cs e.1 hp
    by_cases hj : s.kind.joint = true
    · have := (ht.1 hj).within _ (List.mem_append_left _ (hk ▸ hr)) (by simp only; rw [← hk] at hq; omega)
      simp only [hk] at this
      refine ⟨inE, this.1, ?_⟩
      have hrows : s.nEq.toNat + s.nIneq.toNat ≤ s.views.eq.rows := by
        rw [hv']; rw [hk] at hj; cases k <;> simp [viewsOf, Kind.joint] at hj ⊢
      omega
    · have := (ht.2 (by simpa using hj)).1.within _ (hk ▸ hr) (by simp only; rw [← hk] at hq; omega)
      simp only [hk] at this
      refine ⟨inE, this.1, ?_⟩
      have hrows : s.nEq.toNat ≤ s.views.eq.rows := by
        rw [hv']
        cases k <;> simp [viewsOf, quadprogRows]
        all_goals (try split) <;> omega
      omega
  · rw [hc.ineq e he hp a haa]
    have hr := mem_rowsOf (constraintSize k) s.ineq e he a haa
    have hq := cs e.1 hp
    by_cases hj : s.kind.joint = true
    · have := (ht.1 hj).within _ (List.mem_append_right _ (hk ▸ hr)) (by simp only; rw [← hk] at hq; omega)
      simp only [hk] at this
      refine ⟨inI, this.1, ?_⟩
      have hrows : s.nEq.toNat + s.nIneq.toNat ≤ s.views.ineq.rows := by
        rw [hv']; rw [hk] at hj; cases k <;> simp [viewsOf, Kind.joint] at hj ⊢
      omega
    · have := (ht.2 (by simpa using hj)).2.within _ (hk ▸ hr) (by simp only; rw [← hk] at hq; omega)
      simp only [hk] at this
      refine ⟨inI, this.1, ?_⟩
      have hrows : s.nIneq.toNat ≤ s.views.ineq.rows := by
        rw [hv']
        cases k <;> simp [viewsOf]
      omega
  · rw [hc.obj e he hp a haa]
    have hr := mem_rowsOf (·.size) s.obj e he a haa
    have := Tile.within ho _ hr (by simp only; omega)
    simp only at this
    refine ⟨inO, this.1, ?_⟩
    have hrows : s.nObj.toNat ≤ s.views.obj.rows := by
      rw [hv']
      cases k <;> simp [viewsOf]
    omega
  · rw [hc.bnd e he hp a haa]
    have hB : B e.1 := (hm.memB e.1).1 (List.mem_map_of_mem he)
    have hst := hb e he a haa
    have := hv e.1 hB
    refine ⟨inB, by omega, ?_⟩
    have hne : (!s.bnd.isEmpty) = true := (bnd_nonempty hm).2 ⟨_, hB⟩
    have hrows : n ≤ s.views.bnd.rows := by
      rw [hv', hne]
      cases k <;> simp [viewsOf]
    omega

/-! ## The cases in which it is false -/

private def e1 : Cstr := ⟨1, 2, .equal⟩
private def i1 : Cstr := ⟨2, 1, .greaterThan⟩
private def b1 : Cstr := ⟨3, 2, .doubleSided⟩

/-- QLD: an equality constraint of size 2 on variables of total size 6. In one batch, an inequality constraint of size 1 is
added and variables of total size 2 are removed: the matrix of constraints goes from 2×6 to 3×4, which is the same number of
coefficients. No event on equality constraints, no reallocation of the matrix: the equality constraint keeps a target
with the former shape, and a vector that has been freed. -/
theorem C60_qld_false : ∃ s C B O, Reach .qld false (fun _ _ _ _ _ => True) s C B O 4 (fun _ => 0) ∧ ¬ Current s ∧
    ∃ e ∈ s.eq, e.1 = e1 ∧ ∃ a ∈ e.2, a.view.mat = ⟨3, 2, 6⟩ ∧ s.bufs.cstM = ⟨3, 3, 4⟩ ∧
      a.view.vec.alloc ∉ [s.bufs.objM.alloc, s.bufs.objV.alloc, s.bufs.cstM.alloc, s.bufs.cstV.alloc, s.bufs.bnd.alloc] := by
  have h := Reach.first (k := .qld) (ch := false) (Q := fun _ _ _ _ _ => True) 6 0 2 0 false [.cstr e1] (fun _ => 0)
    (by constructor <;> decide)
  have h2 := Reach.process _ _ _ _ _ _ ⟨[], [i1], [], [], [], [], [], [], [9], false⟩ (· ∈ [e1, i1]) (· ∈ []) (· ∈ []) 4
    (fun _ => 0) h
    (Net.ofLists _ _ _ _ (by decide) (by decide) (by decide) (by decide) (by decide) (by decide))
    (Net.ofLists _ _ _ _ (by decide) (by decide) (by decide) (by decide) (by decide) (by decide))
    (Net.ofLists _ _ _ _ (by decide) (by decide) (by decide) (by decide) (by decide) (by decide)) (by decide) trivial
  refine ⟨_, _, _, _, h2, fun hc => ?_, (e1, [⟨0, ⟨⟨3, 2, 6⟩, ⟨4, 2, 1⟩, 0, 2⟩⟩]), by decide, rfl, _, List.mem_singleton.2 rfl, rfl,
    by decide, by decide⟩
  exact absurd (hc.eq (e1, [⟨0, ⟨⟨3, 2, 6⟩, ⟨4, 2, 1⟩, 0, 2⟩⟩]) (by decide) (by decide) ⟨0, ⟨⟨3, 2, 6⟩, ⟨4, 2, 1⟩, 0, 2⟩⟩
    (by decide)) (by decide)

/-- Quadprog: an equality constraint of size 2 and a bound on a variable of size 2 (6×2 matrix). In one batch, the bound is
removed and a variable of size 4 is added (2×6 matrix). -/
theorem C60_quadprog_false : ∃ s C B O, Reach .quadprog false (fun _ _ _ _ _ => True) s C B O 6 (fun _ => 0) ∧ ¬ Current s ∧
    ∃ e ∈ s.eq, e.1 = e1 ∧ ∃ a ∈ e.2, a.view.mat = ⟨3, 6, 2⟩ ∧ s.bufs.cstM = ⟨3, 2, 6⟩ := by
  have h := Reach.first (k := .quadprog) (ch := false) (Q := fun _ _ _ _ _ => True) 2 0 2 0 true [.cstr e1, .bnd b1] (fun _ => 0)
    (by constructor <;> decide)
  have h2 := Reach.process _ _ _ _ _ _ ⟨[], [], [], [], [], [b1], [], [9], [], false⟩ (· ∈ [e1]) (· ∈ []) (· ∈ []) 6
    (fun _ => 0) h
    (Net.ofLists _ _ _ _ (by decide) (by decide) (by decide) (by decide) (by decide) (by decide))
    (Net.ofLists _ _ _ _ (by decide) (by decide) (by decide) (by decide) (by decide) (by decide))
    (Net.ofLists _ _ _ _ (by decide) (by decide) (by decide) (by decide) (by decide) (by decide)) (by decide) trivial
  refine ⟨_, _, _, _, h2, fun hc => ?_, (e1, [⟨0, ⟨⟨3, 6, 2⟩, ⟨4, 6, 1⟩, 0, 6⟩⟩]), by decide, rfl, _, List.mem_singleton.2 rfl, rfl,
    by decide⟩
  exact absurd (hc.eq (e1, [⟨0, ⟨⟨3, 6, 2⟩, ⟨4, 6, 1⟩, 0, 6⟩⟩]) (by decide) (by decide) ⟨0, ⟨⟨3, 6, 2⟩, ⟨4, 6, 1⟩, 0, 6⟩⟩
    (by decide)) (by decide)

/-! ## Non-vacuity -/

/-- The condition `Steady` with a change of the number of variables, of equality constraints and of the objectives. -/
theorem ex_steady : ∃ s C B O, Reach .quadprog true (Steady .quadprog) s C B O 6 (fun _ => 2) ∧ C i1 ∧ ¬ C e1 ∧ B b1 ∧ s.nIneq = 1 ∧
    s.bufs.cstM.rows = 13 := by
  have h := Reach.first (k := .quadprog) (ch := true) (Q := Steady .quadprog) 2 0 2 1 true [.cstr e1, .bnd b1, .cstr i1] (fun _ => 0)
    (by constructor <;> decide)
  have h2 := Reach.process _ _ _ _ _ _ ⟨[], [], [], [], [e1], [], [], [9], [], false⟩ (· ∈ [i1]) (· ∈ [b1]) (· ∈ []) 6
    (fun _ => 2) h
    (Net.ofLists _ _ _ _ (by decide) (by decide) (by decide) (by decide) (by decide) (by decide))
    (Net.ofLists _ _ _ _ (by decide) (by decide) (by decide) (by decide) (by decide) (by decide))
    (Net.ofLists _ _ _ _ (by decide) (by decide) (by decide) (by decide) (by decide) (by decide)) (by decide)
    (Or.inr (Or.inr (Or.inr ⟨by decide, fun _ => Iff.rfl⟩)))
  exact ⟨_, _, _, _, h2, by decide, by decide, by decide, by decide, by decide⟩

example : ∃ s : Solver, s.nIneq = 1 ∧ Current s := by
  obtain ⟨s, C, B, O, h, -, -, -, h', -⟩ := ex_steady
  exact ⟨s, h', C60_current_partial h⟩

end Verif.LS
