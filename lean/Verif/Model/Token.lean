import Verif.Model.Outcome
/-!
# Model of `tvm::internal::PairElementToken` and `tvm::internal::CallbackManager`
(include/tvm/internal/PairElementToken.h, include/tvm/internal/CallbackManager.h)

The tokens are objects at addresses. The store gives for each address `none` if no token lives there, and otherwise the address
`otherPairElement_`, `none` being the null pointer. A result `none` of an operation is undefined behaviour (access to an object that
does not exist, construction on a living object) or a failing assertion.

Not modelled: the private constructor `PairElementToken(PairElementToken *)` (line 128), which nothing calls; callbacks that
register, unregister or destroy while the manager runs (a callback only leaves a trace here).
-/
set_option autoImplicit false

namespace Verif.Tok
open Verif

/-- The living tokens and their mates -/
abbrev Store := Nat → Option (Option Nat)

/-- Change of what is at an address -/
def Store.put (s : Store) (a : Nat) (x : Option (Option Nat)) : Store := fun b => if b = a then x else s b

/-- Write to the member `otherPairElement_` of the object at `a` (undefined if there is none) -/
def Store.write (s : Store) (a : Nat) (m : Option Nat) : Option Store :=
  match s a with
  | none => none
  | some _ => some (s.put a (some m))

/-- `if(isPaired()) otherPairElement_->notifyDeath();` for the object at `a` (PairElementToken.h, lines 72-74, 88-90, 99-100 and 136) -/
def Store.tellDeath (s : Store) (a : Nat) : Option Store :=
  match s a with
  | none => none
  | some none => some s
  | some (some b) => s.write b none

/-- `if(isPaired()) otherPairElement_->notifyMove(this);` for the object at `a` (lines 55-56, 77-78 and 134) -/
def Store.tellMove (s : Store) (a : Nat) : Option Store :=
  match s a with
  | none => none
  | some none => some s
  | some (some b) => s.write b (some a)

/-- Default constructor (line 47) -/
def Store.create (s : Store) (a : Nat) : Option Store :=
  match s a with
  | some _ => none
  | none => some (s.put a (some none))

/-- Move constructor (lines 52-57), the new object at `a` -/
def Store.moveCtor (s : Store) (a b : Nat) : Option Store :=
  match s a, s b with
  | none, some m =>
    match (s.put a (some m)).write b none with
    | none => none
    | some s1 => s1.tellMove a
  | _, _ => none

/-- Move assignment `a = std::move(b)` (lines 70-80) -/
def Store.moveAssign (s : Store) (a b : Nat) : Option Store :=
  match s.tellDeath a with
  | none => none
  | some s1 =>
    match s1 b with
    | none => none
    | some m =>
      match s1.write a m with
      | none => none
      | some s2 =>
        match s2.write b none with
        | none => none
        | some s3 => s3.tellMove a

/-- Destructor (lines 97-101) -/
def Store.destroy (s : Store) (a : Nat) : Option Store :=
  match s.tellDeath a with
  | none => none
  | some s1 => some (s1.put a none)

/-- `pairWith` (lines 104-110): `some none` is the exception. -/
def Store.pairWith (s : Store) (a b : Nat) : Option (Option Store) :=
  match s a, s b with
  | some ma, some mb =>
    if ma ≠ none ∨ mb ≠ none then some none
    else
      match s.write a (some b) with
      | none => none
      | some s1 =>
        match s1.write b (some a) with
        | none => none
        | some s2 => some (some s2)
  | _, _ => none

/-- Constructor of `PairElementTokenHandle` (lines 141-142): the pointer kept by the handle. The token has to be unpaired (assertion). -/
def Store.handle (s : Store) (t : Nat) : Option Nat :=
  match s t with
  | some none => some t
  | _ => none

/-- Constructor from a handle on `t` (lines 62-67), the new object at `a` -/
def Store.fromHandle (s : Store) (a t : Nat) : Option Store :=
  match s a with
  | some _ => none
  | none => (s.put a (some (some t))).write t (some a)

/-- Assignment from a handle on `t` (lines 85-95) -/
def Store.assignHandle (s : Store) (a t : Nat) : Option Store :=
  match s.tellDeath a with
  | none => none
  | some s1 =>
    match s1.write a (some t) with
    | none => none
    | some s2 => s2.write t (some a)

/-- `isPaired` (line 113) -/
def Store.isPaired (s : Store) (a : Nat) : Bool :=
  match s a with
  | some (some _) => true
  | _ => false

/-- `isPairedWith` (line 116) -/
def Store.isPairedWith (s : Store) (a b : Nat) : Bool := decide (s a = some (some b))

/-- `otherPairElement` (lines 119-124): `some none` is the exception. -/
def Store.other (s : Store) (a : Nat) : Option (Option Nat) := s a

/-! ## Callback manager -/

/-- Addresses of the tokens of the users of the managers. They are kept apart from the memory of the managers: even and odd addresses. -/
def cl (a : Nat) : Nat := 2 * a

/-- Addresses of the memory of the vectors of the managers -/
def slot (k : Nat) : Nat := 2 * k + 1

/-- A `std::vector` of pairs (token, callback): the tokens are in the slots `base`, `base + 1`, ..., with room for `cap` of them
(CallbackManager.h, line 43). -/
structure Mgr where
  base : Nat
  cap : Nat
  cbs : List Nat
deriving Repr, DecidableEq

/-- The program: tokens, managers, and first slot that was never used (memory is never used again). -/
structure Prog where
  toks : Store
  mgrs : Nat → Mgr
  next : Nat

/-- No token, empty managers -/
def Prog.empty : Prog := ⟨fun _ => none, fun _ => ⟨0, 0, []⟩, 0⟩

/-- One manager replaced -/
def setMgr (f : Nat → Mgr) (m : Nat) (x : Mgr) : Nat → Mgr := fun k => if k = m then x else f k

/-- Move construction of `n` tokens from the slots `src + i` to the slots `dst + i`, and destruction of the old ones (growth
of a `std::vector` with elements that move without exceptions) -/
def relocate (s : Store) (dst src : Nat) : Nat → Option Store
  | 0 => some s
  | n + 1 =>
    match relocate s dst src n with
    | none => none
    | some s1 =>
      match s1.moveCtor (slot (dst + n)) (slot (src + n)) with
      | none => none
      | some s2 => s2.destroy (slot (src + n))

/-- `registerCallback` (CallbackManager.h, lines 46-50): `emplace_back` of a new pair and handle on its token. If the vector is full, it
gets a new buffer at a new place, with any larger capacity (`grow` more than needed). -/
def Prog.register (p : Prog) (m c grow : Nat) : Option (Prog × Nat) :=
  if (p.mgrs m).cbs.length < (p.mgrs m).cap then
    match p.toks.create (slot ((p.mgrs m).base + (p.mgrs m).cbs.length)) with
    | none => none
    | some s1 =>
      match s1.handle (slot ((p.mgrs m).base + (p.mgrs m).cbs.length)) with
      | none => none
      | some t => some (⟨s1, setMgr p.mgrs m ⟨(p.mgrs m).base, (p.mgrs m).cap, (p.mgrs m).cbs ++ [c]⟩, p.next⟩, t)
  else
    match p.toks.create (slot (p.next + (p.mgrs m).cbs.length)) with
    | none => none
    | some s1 =>
      match relocate s1 p.next (p.mgrs m).base (p.mgrs m).cbs.length with
      | none => none
      | some s2 =>
        match s2.handle (slot (p.next + (p.mgrs m).cbs.length)) with
        | none => none
        | some t =>
          some (⟨s2, setMgr p.mgrs m ⟨p.next, (p.mgrs m).cbs.length + 1 + grow, (p.mgrs m).cbs ++ [c]⟩,
            p.next + ((p.mgrs m).cbs.length + 1 + grow)⟩, t)

/-- `std::vector::erase` on the tokens: the tokens in the slots `a + 1`, ..., `a + n` are moved down by one, the last object is
destroyed. -/
def eraseTok (s : Store) (a : Nat) : Nat → Option Store
  | 0 => s.destroy (slot a)
  | n + 1 =>
    match s.moveAssign (slot a) (slot (a + 1)) with
    | none => none
    | some s1 => eraseTok s1 (a + 1) n

/-- `callbacks_.erase(callbacks_.begin() + i)` -/
def Prog.erase (p : Prog) (m i : Nat) : Option Prog :=
  match eraseTok p.toks ((p.mgrs m).base + i) ((p.mgrs m).cbs.length - 1 - i) with
  | none => none
  | some s => some ⟨s, setMgr p.mgrs m ⟨(p.mgrs m).base, (p.mgrs m).cap, (p.mgrs m).cbs.eraseIdx i⟩, p.next⟩

/-- `unregisterCallback` (CallbackManager.h, lines 52-60): `some none` is the exception. -/
def Prog.unregister (p : Prog) (m t : Nat) : Option (Option Prog) :=
  match (List.range (p.mgrs m).cbs.length).find? fun i => p.toks.isPairedWith (slot ((p.mgrs m).base + i)) t with
  | none => some none
  | some i =>
    match p.erase m i with
    | none => none
    | some q => some (some q)

/-- The loop of `run` (CallbackManager.h, lines 62-77), from the index `i`; the fuel bounds the number of turns (each turn goes to
the next index or erases an element; the bound is never reached, see the properties). The second component is the sequence of
callbacks invoked. -/
def Prog.runLoop (p : Prog) (m i : Nat) : Nat → Option (Prog × List Nat)
  | 0 => if i < (p.mgrs m).cbs.length then none else some (p, [])
  | fuel + 1 =>
    match (p.mgrs m).cbs[i]? with
    | none => some (p, [])
    | some c =>
      if p.toks.isPaired (slot ((p.mgrs m).base + i)) then
        match p.runLoop m (i + 1) fuel with
        | none => none
        | some (q, tr) => some (q, c :: tr)
      else
        match p.erase m i with
        | none => none
        | some q => q.runLoop m i fuel

/-- `run` -/
def Prog.run (p : Prog) (m : Nat) : Option (Prog × List Nat) := p.runLoop m 0 (p.mgrs m).cbs.length

/-- Destruction of the tokens in the slots `a`, ..., `a + n - 1` -/
def destroyToks (s : Store) (a : Nat) : Nat → Option Store
  | 0 => some s
  | n + 1 =>
    match s.destroy (slot a) with
    | none => none
    | some s1 => destroyToks s1 (a + 1) n

/-- Destructor of a manager (CallbackManager.h, line 27) -/
def Prog.destroyMgr (p : Prog) (m : Nat) : Option Prog :=
  match destroyToks p.toks (p.mgrs m).base (p.mgrs m).cbs.length with
  | none => none
  | some s => some ⟨s, setMgr p.mgrs m ⟨(p.mgrs m).base, (p.mgrs m).cap, []⟩, p.next⟩

end Verif.Tok
