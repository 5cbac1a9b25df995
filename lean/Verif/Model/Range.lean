/-!
# Model of `tvm::Range` (include/tvm/Range.h, lines 19-61)
-/
set_option autoImplicit false

namespace Verif

/-- `tvm::Range` (include/tvm/Range.h, lines 19-25). `int` is modelled by `Int`. The constructor asserts
`d >= 0` (line 23); the properties take this as hypothesis where they need it. -/
structure Range where
  /-- `start` (line 24) -/
  start : Int
  /-- `dim` (line 25) -/
  dim : Int
deriving Repr, DecidableEq

namespace Range

/-- `Range::end` (line 28) -/
def stop (r : Range) : Int := r.start + r.dim

/-- `Range::contains(int)` (line 35) -/
def containsInt (r : Range) (i : Int) : Bool := decide (r.start ≤ i) && decide (i < r.stop)

/-- `Range::contains(const Range&)` (line 41) -/
def contains (r o : Range) : Bool := r.containsInt o.start && decide (r.stop ≥ o.stop)

/-- `Range::intersects` (line 44) -/
def intersects (r o : Range) : Bool := r.containsInt o.start || o.containsInt r.start

/-- `Range::operator+(int)` (line 47) -/
def shift (r : Range) (i : Int) : Range := ⟨r.start + i, r.dim⟩

/-- `Range::operator-(int)` (line 50) -/
def unshift (r : Range) (i : Int) : Range := ⟨r.start - i, r.dim⟩

/-- `Range::relativeRange` (lines 56-60). The assertion `contains(other)` is a precondition. -/
def relativeRange (r o : Range) : Range := o.unshift r.start

end Range
end Verif
