import Verif.Lemmas.SolverAssembly3
import Verif.Properties.C36_Weights
import Verif.Properties.C66_QPSolvers
/-!
# Lemmas on the runs of the assignments of a solver: what they mean
-/
set_option autoImplicit false
set_option linter.unusedSectionVars false

namespace Verif.ASM
open Verif Verif.AS

section
variable {K : Type} [Field K] [LinearOrder K]

/-! ## Rows -/

theorem runJobs_zero {big : K} {V : Vars} {now : Now K} {js : List Job} (h : ∀ j ∈ js, Sound V j) {r c : Nat} (hp : patOf V js r c = false) :
    (runJobs big V now js zeroMem).A r c = 0 := by
  rw [runJobs_A js h zeroMem, hp]; simp [zeroMem]

theorem dot_rows {big : K} {V : Vars} {now : Now K} {js : List Job} (h : ∀ j ∈ js, Sound V j) (n : Nat) (c : K) (i : Nat) (x : Nat → K) :
    C66.dot n (C66.coef (rowsOf big V now js c) i) x = c * C34.row n (runJobs big V now js zeroMem) x i := by
  unfold C66.dot C34.row
  rw [Finset.mul_sum]
  refine Finset.sum_congr rfl fun k _ => ?_
  simp only [C66.coef, rowsOf]
  by_cases hp : patOf V js i k = true
  · simp only [if_pos hp, Option.getD_some]; ring
  · simp only [if_neg hp, Option.getD_none]
    rw [runJobs_zero h (by simpa using hp)]; ring

/-- One row of a target -/
def rowSat (n : Nat) (T : Target) (m : Mem K) (z : Nat → K) (r : Nat) : Prop :=
  match T.type with
  | .equal => C34.row n m z r = C34.side T.rhs (m.vec .b r)
  | .greaterThan => C34.side T.rhs (m.vec .b r) ≤ C34.row n m z r
  | .lowerThan => C34.row n m z r ≤ C34.side T.rhs (m.vec .b r)
  | .doubleSided => C34.side T.rhs (m.vec .l r) ≤ C34.row n m z r ∧ C34.row n m z r ≤ C34.side T.rhs (m.vec .u r)

theorem rows_sat {js : List Job} {b : Nat} (ht : TiledJobs js b) (n : Nat) (m : Mem K) (z : Nat → K) (P : Nat → Prop) (hP : ∀ j ∈ js, ∀ r, P r ↔ rowSat n j.T m z r) :
    (∀ r < b, P r) ↔ ∀ j ∈ js, C34.TgtSat n j.T m z := by
  rw [ht.forall]
  refine forall₂_congr fun j hj => ?_
  constructor
  · intro h r h1 h2; exact (hP j hj r).mp (h r ((has_iff _ _).mpr ⟨h1, h2⟩))
  · intro h r hr
    obtain ⟨h1, h2⟩ := (has_iff _ _).mp hr
    exact (hP j hj r).mpr (h r h1 h2)

/-! ## Objectives -/

/-- The vector of an objective -/
def objCell (T : Target) : Cell := if T.type = .doubleSided then .l else .b

theorem equal_row {S : Src} {V : Vars} {D : Data K} {n : Nat} {T : Target} {fl : Flags} {big : K} {o : Ops K} (hb : create big S T V fl = some o) (h : Ok S V D n) (hS : S.type = .equal)
    (m : Mem K) (hc : ∀ r, T.start ≤ r → r < T.start + T.size → ∀ j < n, m.A r j = 0) (z : Nat → K) :
    T.size = S.size ∧ ∀ i < S.size,
      C34.row n (o.run V D m) z (T.start + i) - C34.side T.rhs ((o.run V D m).vec (objCell T) (T.start + i)) =
        fl.omega D.w i * (C34.image S V D (C34.value S V D z) i - C34.side S.rhs (D.e i)) ∧
      (T.type = .doubleSided → C34.side T.rhs ((o.run V D m).vec .u (T.start + i)) = C34.side T.rhs ((o.run V D m).vec .l (T.start + i))) := by
  obtain ⟨hch, hmap, hb⟩ := create_some hb
  have hsz : T.size = S.size := by
    have := hch
    simp only [checkTarget, Bool.and_eq_true] at this
    simpa [hS] using this.2
  refine ⟨hsz, ?_⟩
  have hnil : ∀ o : Ops K, o = o.app ⟨[], [], [], []⟩ := by intro o; simp [Ops.app]
  cases hT : T.type <;> simp only [buildOps, hS, hT, Option.some.injEq, reduceCtorEq] at hb
  · subst hb
    rw [hnil (addAssignments _ _ _ _ _ _ _ _ _)]
    have r := rows_one (fl := fl) (m := m) h .A .e .b none false hsz (fun r a b j hj _ => hc r a b j hj) []
    have v := rhs_one (fl := fl) (m := m) h hch .A .e .b false hsz [] ⟨.l, 0, 0⟩ (by simp) (by simp [Target.seg])
    intro i hi
    refine ⟨?_, by simp⟩
    have hcell : objCell T = .b := by simp [objCell, hT]
    rw [hcell, show C34.row n _ z (T.start + i) = _ from r z i hi, C34.side_dec, show T.dec (Mem.vec _ .b (T.start + i)) = _ from v i hi, C34.image_value, C34.image_const, (C34.side_R S D i).1]
    simp only [sgn, Bool.false_eq_true, if_false]
    ring
  · subst hb
    rw [hnil (addAssignments _ _ _ _ _ _ _ _ _)]
    have r := rows_one (fl := fl) (m := m) h .A .e .l (some (.e, .u)) false hsz (fun r a b j hj _ => hc r a b j hj) []
    obtain ⟨v1, v2⟩ := rhs_two (fl := fl) (m := m) h hch .e .e hsz [] rfl
    intro i hi
    have hcell : objCell T = .l := by simp [objCell, hT]
    rw [hcell, show C34.row n _ z (T.start + i) = _ from r z i hi, C34.side_dec, C34.side_dec, show T.dec (Mem.vec _ .l (T.start + i)) = _ from v1 i hi,
      show T.dec (Mem.vec _ .u (T.start + i)) = _ from v2 i hi, C34.image_value, C34.image_const, (C34.side_R S D i).1]
    refine ⟨?_, fun _ => rfl⟩
    simp only [sgn, Bool.false_eq_true, if_false]
    ring

theorem runJobs_equal {big : K} {V : Vars} {now : Now K} {js : List Job} (h : ∀ j ∈ js, Sound V j) (hd : Disj js) {j : Job} (hj : j ∈ js) {n : Nat}
    (hok : Ok j.S V (now.dat j.c) n) (hS : j.S.type = .equal) (z : Nat → K) :
    j.T.size = j.S.size ∧ ∀ i < j.S.size,
      C34.row n (runJobs big V now js zeroMem) z (j.T.start + i) - C34.side j.T.rhs ((runJobs big V now js zeroMem).vec (objCell j.T) (j.T.start + i)) =
        (now.fl j.c).omega (now.dat j.c).w i * (C34.image j.S V (now.dat j.c) (C34.value j.S V (now.dat j.c) z) i - C34.side j.S.rhs ((now.dat j.c).e i)) ∧
      (j.T.type = .doubleSided → (runJobs big V now js zeroMem).vec .u (j.T.start + i) = (runJobs big V now js zeroMem).vec .l (j.T.start + i)) := by
  obtain ⟨m, hm, hr⟩ := runJobs_job (big := big) (now := now) h hd hj
  obtain ⟨o, ho⟩ := (h j hj).create big (now.fl j.c)
  obtain ⟨hsz, he⟩ := equal_row ho hok hS m (fun r h1 h2 k _ => hm r ((has_iff _ _).mpr ⟨h1, h2⟩) k) z
  refine ⟨hsz, fun i hi => ?_⟩
  have hh : Target.has j.T (j.T.start + i) = true := (has_iff _ _).mpr ⟨by omega, by omega⟩
  obtain ⟨fA, fv⟩ := hr _ hh
  rw [run_eq ho] at fA fv
  obtain ⟨e1, e2⟩ := he i hi
  have hrow : C34.row n (runJobs big V now js zeroMem) z (j.T.start + i) = C34.row n (o.run V (now.dat j.c) m) z (j.T.start + i) := by
    unfold C34.row; rw [fA]
  rw [hrow, fv, e1]
  refine ⟨rfl, fun ht => ?_⟩
  rw [fv, fv]
  have := e2 ht
  cases hrh : j.T.rhs with
  | zero => exact absurd hrh (h j hj).rhs
  | asGiven => simpa [hrh, C34.side] using this
  | opposite => simpa [hrh, C34.side] using this

/-- The two right-hand sides of the objectives are the same when they have two. -/
theorem rhs_both {big : K} {V : Vars} {now : Now K} {js : List Job} (h : ∀ j ∈ js, Sound V j) (hd : Disj js) {n : Nat} (hok : ∀ j ∈ js, Ok j.S V (now.dat j.c) n)
    (hS : ∀ j ∈ js, j.S.type = .equal) (hT : ∀ j ∈ js, j.T.type = .doubleSided) : rhsOf? big V now js .u 1 = rhsOf? big V now js .l 1 := by
  funext i
  simp only [rhsOf?]
  by_cases hr : rowOf js i = true
  · simp only [if_pos hr]
    obtain ⟨j, hj, hi⟩ := List.any_eq_true.mp hr
    obtain ⟨h1, h2⟩ := (has_iff _ _).mp hi
    obtain ⟨hsz, he⟩ := runJobs_equal (big := big) (now := now) h hd hj (hok j hj) (hS j hj) (fun _ => 0)
    have := (he (i - j.T.start) (by omega)).2 (hT j hj)
    rw [show j.T.start + (i - j.T.start) = i by omega] at this
    rw [this]
  · simp only [if_neg hr]

/-- Sum of the squares of the residuals -/
theorem lsq_jobs {big : K} {V : Vars} {now : Now K} {js : List Job} (h : ∀ j ∈ js, Sound V j) {b : Nat} (ht : TiledJobs js b) {n : Nat} (cell : Cell) (so : K)
    (hso : ∀ j ∈ js, objCell j.T = cell ∧ ∀ v : K, C34.side j.T.rhs v = so * v) (hok : ∀ j ∈ js, Ok j.S V (now.dat j.c) n) (hS : ∀ j ∈ js, j.S.type = .equal) (x : Nat → K) :
    C66.lsq n b (rowsOf big V now js 1) (rhsOf? big V now js cell so) x =
      (js.map fun j => ∑ i ∈ Finset.range j.S.size,
        ((now.fl j.c).omega (now.dat j.c).w i * (C34.image j.S V (now.dat j.c) (C34.value j.S V (now.dat j.c) x) i - C34.side j.S.rhs ((now.dat j.c).e i))) ^ 2).sum := by
  have e1 : C66.lsq n b (rowsOf big V now js 1) (rhsOf? big V now js cell so) x =
      ∑ r ∈ Finset.range b, (C34.row n (runJobs big V now js zeroMem) x r - so * (runJobs big V now js zeroMem).vec cell r) ^ 2 := by
    unfold C66.lsq
    refine Finset.sum_congr rfl fun i hi => ?_
    rw [dot_rows h, one_mul]
    simp only [rhsOf?, if_pos (ht.cover i (Finset.mem_range.mp hi)), Option.getD_some]
  rw [e1, ht.sum]
  congr 1
  refine List.map_congr_left fun j hj => ?_
  obtain ⟨hsz, he⟩ := runJobs_equal (big := big) (now := now) h ht.disj hj (hok j hj) (hS j hj) x
  rw [hsz]
  refine Finset.sum_congr rfl fun i hi => ?_
  rw [← (he i (Finset.mem_range.mp hi)).1, (hso j hj).1, (hso j hj).2]

variable [IsStrictOrderedRing K]

/-! ## Bounds -/

theorem box_bounds {big : K} {n : Nat} (bs : List (C38.Bound K)) (h : ∀ b ∈ bs, b.Honest) (hn : ∀ b ∈ bs, 0 < b.n → b.start + b.n ≤ n) (x : Nat → K)
    (hf : ∀ b ∈ bs, b.Fits big x) :
    C66.InBox (some big) n (loOf big bs) (upOf big bs) x ↔ (∀ k < n, -big ≤ x k ∧ x k ≤ big) ∧ ∀ b ∈ bs, b.Sat x := by
  have row := fun b hb => C38.row_iff big b (h b hb) x (hf b hb)
  constructor
  · intro hin
    have hbox : ∀ k < n, -big ≤ x k ∧ x k ≤ big := fun k hk => (hin k hk).2.2 big rfl
    refine ⟨hbox, fun b hb => (C38.sat_rows b (h b hb) x).mpr fun i hi => ?_⟩
    have hlt := hn b hb (by omega)
    refine (row b hb i hi (hbox _ (by omega))).mp ?_
    obtain ⟨h1, h2, _⟩ := hin (b.start + i) (by omega)
    have hm : b ∈ bs.filter (fun b' => decide (b'.start ≤ b.start + i ∧ b.start + i < b'.start + b'.n)) := by
      rw [List.mem_filter]; exact ⟨hb, by simp [hi]⟩
    constructor
    · refine h1 _ ?_
      exact List.mem_map.mpr ⟨b, hm, by simp⟩
    · refine h2 _ ?_
      exact List.mem_map.mpr ⟨b, hm, by simp⟩
  · rintro ⟨hbox, hs⟩ k hk
    have key : ∀ b ∈ bs, b.start ≤ k ∧ k < b.start + b.n → (b.ival big (k - b.start)).1 ≤ x k ∧ x k ≤ (b.ival big (k - b.start)).2 := by
      intro b hb hkb
      have e : b.start + (k - b.start) = k := by omega
      have := (row b hb (k - b.start) (by omega) (by rw [e]; exact hbox k hk)).mpr ((C38.sat_rows b (h b hb) x).mp (hs b hb) _ (by omega))
      rwa [e] at this
    refine ⟨?_, ?_, fun B hB => by cases hB; exact hbox k hk⟩
    · intro v hv
      obtain ⟨b, hb, rfl⟩ := List.mem_map.mp hv
      obtain ⟨hb, hkb⟩ := List.mem_filter.mp hb
      exact (key b hb (by simpa using hkb)).1
    · intro v hv
      obtain ⟨b, hb, rfl⟩ := List.mem_map.mp hv
      obtain ⟨hb, hkb⟩ := List.mem_filter.mp hb
      exact (key b hb (by simpa using hkb)).2

end
end Verif.ASM
