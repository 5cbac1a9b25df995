import Verif.Model.Sva
import Mathlib.Analysis.Calculus.Deriv.Add
import Mathlib.Analysis.Calculus.Deriv.Mul
/-!
# Derivatives of vectors of dimension 3
-/
set_option autoImplicit false

namespace Verif.Sva

/-- Derivative of a vector that depends on the time -/
def HasD (u : ℝ → V3 ℝ) (u' : V3 ℝ) (t : ℝ) : Prop :=
  HasDerivAt (fun s => (u s).x) u'.x t ∧ HasDerivAt (fun s => (u s).y) u'.y t ∧ HasDerivAt (fun s => (u s).z) u'.z t

theorem HasD.const (u : V3 ℝ) (t : ℝ) : HasD (fun _ => u) 0 t := ⟨hasDerivAt_const _ _, hasDerivAt_const _ _, hasDerivAt_const _ _⟩

theorem HasD.sub {u v : ℝ → V3 ℝ} {u' v' : V3 ℝ} {t : ℝ} (hu : HasD u u' t) (hv : HasD v v' t) : HasD (fun s => u s - v s) (u' - v') t :=
  ⟨hu.1.sub hv.1, hu.2.1.sub hv.2.1, hu.2.2.sub hv.2.2⟩

theorem HasD.dot {u v : ℝ → V3 ℝ} {u' v' : V3 ℝ} {t : ℝ} (hu : HasD u u' t) (hv : HasD v v' t) :
    HasDerivAt (fun s => (u s).dot (v s)) (u'.dot (v t) + (u t).dot v') t := by
  refine (((hu.1.mul hv.1).add (hu.2.1.mul hv.2.1)).add (hu.2.2.mul hv.2.2)).congr_deriv ?_
  simp only [V3.dot]; ring

end Verif.Sva
