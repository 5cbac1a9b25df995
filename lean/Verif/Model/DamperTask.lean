import Verif.Model.LinearizedTask
/-!
# Model of the velocity damper as the dynamics of a task
(src/task_dynamics/VelocityDamper.cpp, lines 122-135 and 205-251)

`TaskDynamics.lean` has the constructors and the update of the damper; here it is used by a task.

Simplified: with a fixed damping the members of the object `Impl` do not change (`updateValue_`, lines 231-251, writes `active_` and `axsi_` only if the damping is automatic), so that a dynamics without memory is the code. With
an automatic damping, it is the first update only.
-/
set_option autoImplicit false

namespace Verif.TD
open Verif LTask

variable {K : Type} [Field K] [LinearOrder K] [IsStrictOrderedRing K]

/-- `VelocityDamper::Impl::updateValue` (VelocityDamper.cpp, lines 205-229) and `VelocityDamper::order_` (line 135): the vector `value_`, of the size of the function (TaskDynamicsImpl.cpp). A component that is not a
number (division by zero, automatic damping only) makes the value undefined. -/
def VD.dyn (D : VD K) : Dyn K :=
  .other (if D.order = 2 then .two else .one) fun t f rhs =>
    if (List.range f.size).all fun i => ((updateVD t D f.value f.velocity rhs.v).2 i).isSome then .ok () ⟨f.size, fun i => ((updateVD t D f.value f.velocity rhs.v).2 i).getD 0⟩ else .ub

end Verif.TD
