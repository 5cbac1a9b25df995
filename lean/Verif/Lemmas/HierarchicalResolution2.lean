import Verif.Lemmas.HierarchicalResolution
import Verif.Properties.C95_SolverAssembly
/-!
# Lemmas on the resolutions of the hierarchical scheme: what is written for a constraint
-/
set_option autoImplicit false
set_option linter.unusedSectionVars false

namespace Verif.HR
open Verif Verif.HLS Verif.ASM Verif.AS Finset

section
variable {K : Type} [Field K] [LinearOrder K]

/-- The constant part of a row -/
def cpart (S : Src) (V : Vars) (D : Data K) (i : Nat) : K := C34.image S V D (C34.const S D) i

/-- The lower side of a row, without its constant part -/
def lowSide (big : K) (S : Src) (V : Vars) (D : Data K) (i : Nat) : K :=
  match S.type with
  | .equal => C34.side S.rhs (D.e i) - cpart S V D i
  | .greaterThan => C34.side S.rhs (D.l i) - cpart S V D i
  | .lowerThan => -big
  | .doubleSided => C34.side S.rhs (D.l i) - cpart S V D i

/-- The upper side of a row, without its constant part -/
def upSide (big : K) (S : Src) (V : Vars) (D : Data K) (i : Nat) : K :=
  match S.type with
  | .equal => C34.side S.rhs (D.e i) - cpart S V D i
  | .greaterThan => big
  | .lowerThan => C34.side S.rhs (D.u i) - cpart S V D i
  | .doubleSided => C34.side S.rhs (D.u i) - cpart S V D i

variable [IsStrictOrderedRing K]

theorem rows_double {S : Src} {V : Vars} {D : Data K} {n : Nat} {T : Target} {fl : Flags} {big : K} {o : Ops K} (hb : create big S T V fl = some o) (h : Ok S V D n) (hTt : T.type = .doubleSided)
    (hr : T.rhs = .asGiven) (m : Mem K) (hc : ∀ r, T.start ≤ r → r < T.start + T.size → Clean S V n (m.A r)) (z : Nat → K) {i : Nat} (hi : i < S.size) :
    C34.row n (o.run V D m) z (T.start + i) = fl.omega D.w i * (C34.image S V D (C34.value S V D z) i - cpart S V D i) ∧
      (o.run V D m).vec .l (T.start + i) = fl.omega D.w i * lowSide big S V D i ∧ (o.run V D m).vec .u (T.start + i) = fl.omega D.w i * upSide big S V D i := by
  obtain ⟨hch, hmap, hb⟩ := create_some hb
  have hnil : ∀ o : Ops K, o = o.app ⟨[], [], [], []⟩ := by intro o; simp [Ops.app]
  have hsz : T.size = S.size := by
    have := hch
    simp only [checkTarget, Bool.and_eq_true] at this
    have hs := this.2
    by_cases h1 : S.type = .doubleSided <;> simpa [h1, hTt] using hs
  have hdec : ∀ t : K, T.dec t = t := fun t => by simp [Target.dec, hr]
  unfold cpart lowSide upSide cpart
  simp only [C34.image_value, C34.image_const, add_sub_cancel_right, (C34.side_R S D _).1, (C34.side_R S D _).2.1, (C34.side_R S D _).2.2]
  cases hS : S.type <;> simp only [buildOps, hS, hTt, reduceCtorEq, if_true, if_false, Option.some.injEq] at hb <;> subst hb
  · rw [hnil (addAssignments _ _ _ _ _ _ _ _ _)]
    have r := rows_one (fl := fl) (m := m) h .A .e .l (some (.e, .u)) false hsz hc []
    obtain ⟨v1, v2⟩ := rhs_two (fl := fl) (m := m) h hch .e .e hsz [] rfl
    have v1 := v1 i hi
    have v2 := v2 i hi
    rw [hdec] at v1 v2
    exact ⟨(r z i hi).trans (by simp [sgn]), v1.trans (by simp [sgn]), v2.trans (by simp [sgn])⟩
  · have r := rows_one (fl := fl) (m := m) h .A .l .l none false hsz hc (addConst fl .copy big (T.seg .u) false)
    have v := rhs_one (fl := fl) (m := m) h hch .A .l .l false hsz (addConst fl .copy big (T.seg .u) false) (T.seg .u)
      (by intro op ho; exact ⟨by simp only [addConst, List.mem_singleton] at ho; subst ho; rfl, const_plain fl .copy big (T.seg .u) false op (by simpa using ho)⟩)
      (by simp [Target.seg]) i hi
    rw [hdec] at v
    have c := const_side (S := S) (V := V) (T := T) (fl := fl) (m := m) h.ms h.ma .A .l .l .u false big (by simp [Target.seg]) i (by simp only [Target.seg]; omega)
    exact ⟨(r z i hi).trans (by simp [sgn]), v.trans (by simp [sgn]), c⟩
  · have r := rows_one (fl := fl) (m := m) h .A .u .u none false hsz hc (addConst fl .copy (-big) (T.seg .l) false)
    have v := rhs_one (fl := fl) (m := m) h hch .A .u .u false hsz (addConst fl .copy (-big) (T.seg .l) false) (T.seg .l)
      (by intro op ho; exact ⟨by simp only [addConst, List.mem_singleton] at ho; subst ho; rfl, const_plain fl .copy (-big) (T.seg .l) false op (by simpa using ho)⟩)
      (by simp [Target.seg]) i hi
    rw [hdec] at v
    have c := const_side (S := S) (V := V) (T := T) (fl := fl) (m := m) h.ms h.ma .A .u .u .l false (-big) (by simp [Target.seg]) i (by simp only [Target.seg]; omega)
    exact ⟨(r z i hi).trans (by simp [sgn]), c, v.trans (by simp [sgn])⟩
  · rw [hnil (addAssignments _ _ _ _ _ _ _ _ _)]
    have r := rows_one (fl := fl) (m := m) h .A .l .l (some (.u, .u)) false hsz hc []
    obtain ⟨v1, v2⟩ := rhs_two (fl := fl) (m := m) h hch .l .u hsz [] rfl
    have v1 := v1 i hi
    have v2 := v2 i hi
    rw [hdec] at v1 v2
    exact ⟨(r z i hi).trans (by simp [sgn]), v1.trans (by simp [sgn]), v2.trans (by simp [sgn])⟩

/-- What is written for a constraint -/
theorem written_eq {big : K} {env : Env} {now : Now K} {cst : Nat → SE.Cstr} {a : Asg} (hs : Sound env.V (job env cst a)) {n : Nat} (hok : Ok (env.src (cst a.id)) env.V (now.dat (cst a.id)) n)
    (z : Nat → K) {i : Nat} (hi : i < (env.src (cst a.id)).size) :
    C68.dot n (fun j => if inSet (env.src (cst a.id)) env.V j then (written big env now cst a).a i j else 0) z =
        (now.fl (cst a.id)).omega (now.dat (cst a.id)).w i * (C95.valueOf env now (cst a.id) z i - cpart (env.src (cst a.id)) env.V (now.dat (cst a.id)) i) ∧
      (written big env now cst a).lo i = (now.fl (cst a.id)).omega (now.dat (cst a.id)).w i * lowSide big (env.src (cst a.id)) env.V (now.dat (cst a.id)) i ∧
      (written big env now cst a).up i = (now.fl (cst a.id)).omega (now.dat (cst a.id)).w i * upSide big (env.src (cst a.id)) env.V (now.dat (cst a.id)) i := by
  obtain ⟨ops, ho⟩ := hs.create big (now.fl (job env cst a).c)
  have hr := rows_double (n := n) ho (D := now.dat (cst a.id)) hok rfl rfl zeroMem (fun r _ _ c _ _ => rfl) z hi
  have e := run_eq ho (zeroMem : Mem K)
  have ec : (job env cst a).c = cst a.id := rfl
  rw [ec] at e hr
  rw [← e] at hr
  refine ⟨?_, hr.2.1, hr.2.2⟩
  refine Eq.trans ?_ hr.1
  unfold C68.dot C34.row
  refine Finset.sum_congr rfl fun j _ => ?_
  simp only
  by_cases hj : inSet (env.src (cst a.id)) env.V j = true
  · rw [if_pos hj]; rfl
  · rw [if_neg hj]
    have := Job.run_A (big := big) (now := now) hs zeroMem (a.start + i) j
    have hp : (job env cst a).pat env.V (a.start + i) j = false := by
      simp only [Job.pat, Bool.and_eq_false_iff]
      right; exact Bool.eq_false_iff.mpr hj
    rw [hp] at this
    show 0 * z j = ((job env cst a).run big env.V now zeroMem).A (a.start + i) j * z j
    rw [this]
    rfl

end
end Verif.HR
