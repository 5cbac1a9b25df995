import Verif.Lemmas.SolverAssembly4
import Verif.Properties.C60_SolverViews
/-!
# Lemmas on the runs of the assignments of a solver: the counters of the base class are the sizes of the matrices
-/
set_option autoImplicit false
set_option linter.unusedSectionVars false

namespace Verif.ASM
open Verif Verif.LS Verif.SE

theorem processAdded_head (s : Solver) (vs : Cstr → Int) (se : SolverEvents) : SameHead s (s.processAdded vs se) := by
  have f1 : ∀ (l : List Cstr) (s : Solver), SameHead s (l.foldl Solver.addConstraint s) := by
    intro l; induction l with
    | nil => exact fun s => SameHead.refl s
    | cons c l ih => exact fun s => (addConstraint_head s c).trans (ih _)
  have f2 : ∀ (l : List Cstr) (s : Solver), SameHead s (l.foldl (fun s c => s.addBound vs c) s) := by
    intro l; induction l with
    | nil => exact fun s => SameHead.refl s
    | cons c l ih => exact fun s => SameHead.trans (t := s.addBound vs c) ⟨rfl, rfl, rfl, rfl, rfl, rfl, rfl⟩ (ih _)
  have f3 : ∀ (l : List Objective) (s : Solver), SameHead s (l.foldl Solver.addObjective s) := by
    intro l; induction l with
    | nil => exact fun s => SameHead.refl s
    | cons c l ih => exact fun s => SameHead.trans (t := s.addObjective c) ⟨rfl, rfl, rfl, rfl, rfl, rfl, rfl⟩ (ih _)
  exact ((f1 _ _).trans (f2 _ _)).trans (f3 _ _)

theorem push_nonempty (m : AMap) (c : Cstr) (a : Asg) : (m.push c a).isEmpty = false := by
  cases m with
  | nil => rfl
  | cons x m =>
    obtain ⟨d, l⟩ := x
    simp only [AMap.push]
    by_cases h1 : d = c
    · rw [if_pos h1]; rfl
    · rw [if_neg h1]
      by_cases h2 : c.id < d.id
      · rw [if_pos h2]; rfl
      · rw [if_neg h2]; rfl

theorem processAdded_bnd (s : Solver) (vs : Cstr → Int) (se : SolverEvents) : (!(s.processAdded vs se).bnd.isEmpty) = (!s.bnd.isEmpty || !se.addedBounds.isEmpty) := by
  have f1 : ∀ (l : List Cstr) (s : Solver), (l.foldl Solver.addConstraint s).bnd = s.bnd := by
    intro l; induction l with
    | nil => exact fun s => rfl
    | cons c l ih =>
      intro s
      rw [List.foldl_cons, ih]
      simp only [Solver.addConstraint]
      by_cases hc : c.isEquality = true
      · rw [if_pos hc]
      · rw [if_neg hc]
  have f3 : ∀ (l : List Objective) (s : Solver), (l.foldl Solver.addObjective s).bnd = s.bnd := by
    intro l; induction l with
    | nil => exact fun s => rfl
    | cons c l ih => intro s; rw [List.foldl_cons, ih]; rfl
  have f2 : ∀ (l : List Cstr) (s : Solver), (!(l.foldl (fun s c => s.addBound vs c) s).bnd.isEmpty) = (!s.bnd.isEmpty || !l.isEmpty) := by
    intro l; induction l with
    | nil => intro s; simp
    | cons c l ih =>
      intro s
      rw [List.foldl_cons, ih]
      have : (s.addBound vs c).bnd.isEmpty = false := push_nonempty _ _ _
      rw [this]; simp
  simp only [Solver.processAdded]
  rw [f3, f2, f1]

theorem processExisting_bnd (s : Solver) (se : SolverEvents) (n : Nat) (vs : Cstr → Int) :
    (s.processExisting se n vs).bnd.isEmpty = ((s.processRemoved se).previewAdded se).bnd.isEmpty := by
  have map_empty : ∀ (m : AMap) (f : Cstr × List Asg → Cstr × List Asg), (m.map f).isEmpty = m.isEmpty := by
    intro m f; cases m <;> rfl
  generalize hi : (impactRemove s.kind se).or (impactAdd ((s.processRemoved se).previewAdded se) se) = i
  simp only [Solver.processExisting, hi]
  generalize hs2 : (s.processRemoved se).previewAdded se = s2
  generalize hs3 : s2.resize n s2.nObj.toNat s2.nEq.toNat s2.nIneq.toNat (!s2.bnd.isEmpty || !se.addedBounds.isEmpty) = s3
  have e3 : s3.bnd = s2.bnd := by rw [← hs3]; rfl
  have hr : (((((s3.resetSizes i).retargetEq i).retargetIneq i).retargetBnd i (needMappingUpdate se) vs).retargetObj i).bnd.isEmpty = s2.bnd.isEmpty := by
    have := ranges_bnd s3 i (needMappingUpdate se) vs
    simp only [Solver.ranges] at this
    rw [this, ← e3]
    by_cases hc : (i.bounds || needMappingUpdate se) = true
    · rw [if_pos hc]; exact map_empty _ _
    · rw [if_neg hc]
  rw [← hr]
  simp only [Solver.redirectAll]
  generalize s.kind.impactLogic _ = i'
  by_cases hc : i'.bounds = true
  · rw [if_pos hc]; exact map_empty _ _
  · rw [if_neg hc]

/-- The counters of the base class after a batch of changes are what `resize_` was given. -/
theorem resize_args (s : Solver) (se : SolverEvents) (n : Nat) (vs : Cstr → Int) :
    resizeArgs s se = ((s.process se n vs).nObj.toNat, (s.process se n vs).nEq.toNat, (s.process se n vs).nIneq.toNat, !(s.process se n vs).bnd.isEmpty) := by
  have hh : SameHead (s.processExisting se n vs) (s.process se n vs) := processAdded_head _ _ _
  have hb : (!(s.process se n vs).bnd.isEmpty) = (!(s.processExisting se n vs).bnd.isEmpty || !se.addedBounds.isEmpty) := processAdded_bnd _ _ _
  rw [processExisting_bnd] at hb
  have he : SameHead (((s.processRemoved se).previewAdded se).resize n ((s.processRemoved se).previewAdded se).nObj.toNat ((s.processRemoved se).previewAdded se).nEq.toNat
      ((s.processRemoved se).previewAdded se).nIneq.toNat (!((s.processRemoved se).previewAdded se).bnd.isEmpty || !se.addedBounds.isEmpty)) (s.processExisting se n vs) :=
    (ranges_head _ _ (needMappingUpdate se) vs).trans (redirectAll_head _ _)
  have h2 := he.trans hh
  rw [resizeArgs, hb, h2.nObj, h2.nEq, h2.nIneq]
  rfl

end Verif.ASM
