/-!
# The matrices with a buffer

Model of `include/tvm/utils/internal/BufferedMatrix.h`. The buffer is identified by the number of allocations made before it. The sizes are natural numbers: Eigen asserts
that they are not negative, and the overflow of the products is not modelled.

`operator=` returns a reference to the map made by `get()` on line 72, which ends with the function: the reference never refers to an object, and is not modelled.
-/
set_option autoImplicit false

namespace Verif.BM

/-- `m_`, `n_` and `buffer_` (lines 45-47): its identity, its size and its content -/
structure Buf (K : Type) where
  m : Nat
  n : Nat
  id : Nat
  size : Nat
  data : Nat → K

variable {K : Type}

/-- `resize` (lines 58-66). `fresh` is what is in the memory that is allocated -/
def Buf.resize (b : Buf K) (fresh : Nat → K) (m n : Nat) : Buf K :=
  if m * n > b.size then ⟨m, n, b.id + 1, 2 * m * n, fresh⟩ else { b with m := m, n := n }

/-- The constructor (line 50): the buffer is empty, `m_` and `n_` are not given values before `resize` -/
def make (fresh : Nat → K) (m n : Nat) : Buf K := Buf.resize ⟨0, 0, 0, 0, fresh⟩ fresh m n

/-- `Eigen::Map<MatrixXd>`: the address and the sizes -/
structure Map where
  id : Nat
  m : Nat
  n : Nat

/-- `get` (lines 52-56) -/
def Buf.get (b : Buf K) : Map := ⟨b.id, b.m, b.n⟩

/-- Reading through a map, by columns: undefined out of the matrix, out of the buffer, or when the buffer is another one -/
def Buf.read (b : Buf K) (M : Map) (i j : Nat) : Option K :=
  if M.id = b.id ∧ i < M.m ∧ j < M.n ∧ i + j * M.m < b.size then some (b.data (i + j * M.m)) else none

/-- `operator=` (lines 68-73) with the matrix `f` of size `m` by `n`, which does not read the buffer: `get() = xpr` writes the columns one after the other -/
def Buf.assign (b : Buf K) (fresh : Nat → K) (m n : Nat) (f : Nat → Nat → K) : Buf K :=
  let b' := b.resize fresh m n
  { b' with data := fun k => if k < m * n then f (k % m) (k / m) else b'.data k }

end Verif.BM
