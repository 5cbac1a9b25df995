import Verif.Model.AssignmentTarget
/-!
# C99 - a target stands for the rows of its range in the present data of the solver
-/
set_option autoImplicit false

namespace Verif.C99
open Verif Verif.AT
open Verif.AS (CType Rhs)

/-! ## Specification -/

/-- The targets that can be made: by a constructor that returns, then by any calls that are defined -/
inductive Reach : Tgt → Prop where
  | A (p : Nat) (A : MRef) (ct : CType) (T : Tgt) : mkA p A ct = some T → Reach T
  | Ab (p : Nat) (A : MRef) (b : VRef) (ct : CType) (cr : Rhs) (T : Tgt) : mkAb p A b ct cr = some T → Reach T
  | Alu (p : Nat) (A : MRef) (l u : VRef) (cr : Rhs) (T : Tgt) : mkAlu p A l u cr = some T → Reach T
  | Lu (p : Nat) (l u : VRef) : Reach (mkLu p l u)
  | bound (p : Nat) (b : VRef) (ct : CType) (T : Tgt) : mkBound p b ct = some T → Reach T
  | quad (Q : MRef) (q : VRef) (cr : Rhs) : Reach (mkQ Q q cr)
  | setA (T T' : Tgt) (M : MRef) : Reach T → T.setA M = some T' → Reach T'
  | setQ (T T' : Tgt) (M : MRef) : Reach T → T.setQ M = some T' → Reach T'
  | setl (T T' : Tgt) (v : VRef) : Reach T → T.setl v = some T' → Reach T'
  | setu (T T' : Tgt) (v : VRef) : Reach T → T.setu v = some T' → Reach T'
  | setb (T T' : Tgt) (v : VRef) : Reach T → T.setb v = some T' → Reach T'
  | setq (T T' : Tgt) (v : VRef) : Reach T → T.setq v = some T' → Reach T'
  | changeAb (T T' : Tgt) (M : MRef) (v : VRef) : Reach T → T.changeAb M v = some T' → Reach T'
  | changeAlu (T T' : Tgt) (M : MRef) (v w : VRef) : Reach T → T.changeAlu M v w = some T' → Reach T'
  | changeLu (T T' : Tgt) (v w : VRef) : Reach T → T.changeLu v w = some T' → Reach T'

/-- The conventions of a target: what it is for, and where -/
def conv (T : Tgt) : Kind × Option CType × Option Rhs × Option Nat := (T.kind, T.type, T.rhs, T.range)

/-- The coefficient `(i, j)` of a block is at this place of this matrix. -/
def Block.at (B : Block) (i j : Nat) : Option Nat × Nat × Nat := (B.addr, B.row + i, B.col + j)

/-- The coefficient `i` of a segment is at this place of this vector. -/
def Segment.at (s : Segment) (i : Nat) : Option Nat × Nat := (s.addr, s.start + i)

/-! ## Constructors -/

/-- **C99 (constructors).** The constructors refuse exactly a double sided convention where there is one vector, a zero right hand side
where there are two, and what is not an inequality for a bound with one vector; the others give the conventions asked for, with the data
given. -/
theorem C99_constructors (p : Nat) (A : MRef) (l u b : VRef) (ct : CType) (cr : Rhs) (Q : MRef) (q : VRef) :
    (mkA p A ct = none ↔ ct = .doubleSided) ∧ (mkAb p A b ct cr = none ↔ ct = .doubleSided) ∧ (mkAlu p A l u cr = none ↔ cr = .zero) ∧
    (mkBound p b ct = none ↔ ct = .equal ∨ ct = .doubleSided) ∧
    (∀ T, mkA p A ct = some T → conv T = (.linear, some ct, some .zero, some p) ∧ T.A = A) ∧
    (∀ T, mkAb p A b ct cr = some T → conv T = (.linear, some ct, some cr, some p) ∧ T.A = A ∧ T.b = b) ∧
    (∀ T, mkAlu p A l u cr = some T → conv T = (.linear, some .doubleSided, some cr, some p) ∧ T.A = A ∧ T.l = l ∧ T.u = u) ∧
    (conv (mkLu p l u) = (.linear, some .doubleSided, some .asGiven, some p) ∧ (mkLu p l u).l = l ∧ (mkLu p l u).u = u) ∧
    (∀ T, mkBound p b ct = some T → T.kind = .linear ∧ T.type = some ct ∧ T.range = some p ∧ T.b = b) ∧
    (mkQ Q q cr).kind = .quadratic ∧ (mkQ Q q cr).rhs = some cr ∧ (mkQ Q q cr).Q = Q ∧ (mkQ Q q cr).q = q := by
  refine ⟨?_, ?_, ?_, ?_, ?_, ?_, ?_, ⟨rfl, rfl, rfl⟩, ?_, rfl, rfl, rfl, rfl⟩
  · cases ct <;> simp [mkA, mkAb]
  · cases ct <;> simp [mkAb]
  · cases cr <;> simp [mkAlu]
  · cases ct <;> simp [mkBound]
  · intro T h
    cases ct <;> simp [mkA, mkAb] at h <;> subst h <;> exact ⟨rfl, rfl⟩
  · intro T h
    cases ct <;> simp [mkAb] at h <;> subst h <;> exact ⟨rfl, rfl, rfl⟩
  · intro T h
    cases cr <;> simp [mkAlu] at h <;> subst h <;> exact ⟨rfl, rfl, rfl, rfl⟩
  · intro T h
    cases ct <;> simp [mkBound] at h <;> subst h <;> exact ⟨rfl, rfl, rfl, rfl⟩

/-! ## Changing the data -/

theorem setA_some {T T' : Tgt} {M : MRef} : T.setA M = some T' ↔ T.kind = .linear ∧ { T with A := M } = T' := by
  unfold Tgt.setA; by_cases h : T.kind = .linear <;> simp [h]

theorem setQ_some {T T' : Tgt} {M : MRef} : T.setQ M = some T' ↔ T.kind = .quadratic ∧ { T with Q := M } = T' := by
  unfold Tgt.setQ; by_cases h : T.kind = .quadratic <;> simp [h]

theorem setl_some {T T' : Tgt} {v : VRef} :
    T.setl v = some T' ↔ (T.kind = .linear ∧ T.type = some .doubleSided ∧ T.rhsNotZero = true) ∧ { T with l := v } = T' := by
  unfold Tgt.setl
  by_cases h : T.kind = .linear ∧ T.type = some .doubleSided ∧ T.rhsNotZero = true
  · rw [if_pos h]; simp [h]
  · rw [if_neg h]; simp [h]

theorem setu_some {T T' : Tgt} {v : VRef} :
    T.setu v = some T' ↔ (T.kind = .linear ∧ T.type = some .doubleSided ∧ T.rhsNotZero = true) ∧ { T with u := v } = T' := by
  unfold Tgt.setu
  by_cases h : T.kind = .linear ∧ T.type = some .doubleSided ∧ T.rhsNotZero = true
  · rw [if_pos h]; simp [h]
  · rw [if_neg h]; simp [h]

theorem setb_some {T T' : Tgt} {v : VRef} :
    T.setb v = some T' ↔
      (T.kind = .linear ∧ T.type.isSome = true ∧ T.type ≠ some .doubleSided ∧ T.rhsNotZero = true) ∧ { T with b := v } = T' := by
  unfold Tgt.setb
  by_cases h : T.kind = .linear ∧ T.type.isSome = true ∧ T.type ≠ some .doubleSided ∧ T.rhsNotZero = true
  · rw [if_pos h]; simp only [Option.some.injEq]; exact ⟨fun e => ⟨h, e⟩, fun e => e.2⟩
  · rw [if_neg h]; exact ⟨fun e => (by cases e), fun e => absurd e.1 h⟩

theorem setq_some {T T' : Tgt} {v : VRef} :
    T.setq v = some T' ↔ (T.kind = .quadratic ∧ T.rhsNotZero = true) ∧ { T with q := v } = T' := by
  unfold Tgt.setq
  by_cases h : T.kind = .quadratic ∧ T.rhsNotZero = true
  · rw [if_pos h]; simp [h]
  · rw [if_neg h]; simp [h]

theorem rhsNotZero_iff (T : Tgt) : T.rhsNotZero = true ↔ T.rhs = some .asGiven ∨ T.rhs = some .opposite := by
  unfold Tgt.rhsNotZero
  cases h : T.rhs with
  | none => simp
  | some r => cases r <;> simp

theorem changeAb_some {T T' : Tgt} {M : MRef} {v : VRef} :
    T.changeAb M v = some T' ↔
      (T.kind = .linear ∧ T.type.isSome = true ∧ T.type ≠ some .doubleSided ∧ T.rhsNotZero = true ∧ { T with A := M, b := v } = T') ∨
      (T.kind = .quadratic ∧ T.rhsNotZero = true ∧ { T with Q := M, q := v } = T') := by
  have hl : T.kind = .linear → T.changeAb M v = (T.setA M).bind (·.setb v) := fun h => by unfold Tgt.changeAb; rw [h]
  have hq : T.kind = .quadratic → T.changeAb M v = (T.setQ M).bind (·.setq v) := fun h => by unfold Tgt.changeAb; rw [h]
  have hk : T.kind = .linear ∨ T.kind = .quadratic := by cases T.kind <;> simp
  rcases hk with hk | hk
  · rw [hl hk, Option.bind_eq_some_iff]
    constructor
    · rintro ⟨S, hS, h⟩
      obtain ⟨_, rfl⟩ := setA_some.1 hS
      obtain ⟨⟨_, h2, h3, h4⟩, h5⟩ := setb_some.1 h
      exact .inl ⟨hk, h2, h3, h4, h5⟩
    · rintro (⟨_, h2, h3, h4, h5⟩ | ⟨h1, _⟩)
      · exact ⟨_, setA_some.2 ⟨hk, rfl⟩, setb_some.2 ⟨⟨hk, h2, h3, h4⟩, h5⟩⟩
      · rw [hk] at h1; cases h1
  · rw [hq hk, Option.bind_eq_some_iff]
    constructor
    · rintro ⟨S, hS, h⟩
      obtain ⟨_, rfl⟩ := setQ_some.1 hS
      obtain ⟨⟨_, h2⟩, h5⟩ := setq_some.1 h
      exact .inr ⟨hk, h2, h5⟩
    · rintro (⟨h1, _⟩ | ⟨_, h2, h5⟩)
      · rw [hk] at h1; cases h1
      · exact ⟨_, setQ_some.2 ⟨hk, rfl⟩, setq_some.2 ⟨⟨hk, h2⟩, h5⟩⟩

theorem changeAlu_some {T T' : Tgt} {M : MRef} {v w : VRef} :
    T.changeAlu M v w = some T' ↔
      T.kind = .linear ∧ T.type = some .doubleSided ∧ T.rhsNotZero = true ∧ { T with A := M, l := v, u := w } = T' := by
  simp only [Tgt.changeAlu, Option.bind_eq_some_iff, setA_some, setl_some, setu_some]
  constructor
  · rintro ⟨S, ⟨S', ⟨h0, rfl⟩, ⟨h1, h2, h3⟩, rfl⟩, _, rfl⟩; exact ⟨h1, h2, h3, rfl⟩
  · rintro ⟨h1, h2, h3, rfl⟩; exact ⟨_, ⟨_, ⟨h1, rfl⟩, ⟨h1, h2, h3⟩, rfl⟩, ⟨h1, h2, h3⟩, rfl⟩

theorem changeLu_some {T T' : Tgt} {v w : VRef} :
    T.changeLu v w = some T' ↔
      T.kind = .linear ∧ T.type = some .doubleSided ∧ T.rhsNotZero = true ∧ { T with l := v, u := w } = T' := by
  simp only [Tgt.changeLu, Option.bind_eq_some_iff, setl_some, setu_some]
  constructor
  · rintro ⟨S, ⟨⟨h1, h2, h3⟩, rfl⟩, _, rfl⟩; exact ⟨h1, h2, h3, rfl⟩
  · rintro ⟨h1, h2, h3, rfl⟩; exact ⟨_, ⟨⟨h1, h2, h3⟩, rfl⟩, ⟨h1, h2, h3⟩, rfl⟩

/-- **C99 (changes).** Changing the data is defined exactly for the targets with these data and a right hand side that is not zero; it
replaces the data given, all of them, and nothing else. -/
theorem C99_change (T : Tgt) (M : MRef) (v w : VRef) :
    ((T.changeAb M v).isSome = true ↔
      (T.rhs = some .asGiven ∨ T.rhs = some .opposite) ∧ (T.kind = .linear → T.type.isSome = true ∧ T.type ≠ some .doubleSided)) ∧
    (∀ T', T.changeAb M v = some T' → conv T' = conv T ∧
      (T.kind = .linear → T'.A = M ∧ T'.b = v ∧ T'.Q = T.Q ∧ T'.q = T.q) ∧ (T.kind = .quadratic → T'.Q = M ∧ T'.q = v ∧ T'.A = T.A ∧ T'.b = T.b) ∧
      T'.l = T.l ∧ T'.u = T.u) ∧
    ((T.changeAlu M v w).isSome = true ↔
      (T.rhs = some .asGiven ∨ T.rhs = some .opposite) ∧ T.kind = .linear ∧ T.type = some .doubleSided) ∧
    (∀ T', T.changeAlu M v w = some T' → conv T' = conv T ∧ T'.A = M ∧ T'.l = v ∧ T'.u = w ∧ T'.b = T.b ∧ T'.Q = T.Q ∧ T'.q = T.q) ∧
    ((T.changeLu v w).isSome = true ↔
      (T.rhs = some .asGiven ∨ T.rhs = some .opposite) ∧ T.kind = .linear ∧ T.type = some .doubleSided) ∧
    ∀ T', T.changeLu v w = some T' → conv T' = conv T ∧ T'.A = T.A ∧ T'.l = v ∧ T'.u = w ∧ T'.b = T.b ∧ T'.Q = T.Q ∧ T'.q = T.q := by
  refine ⟨?_, ?_, ?_, ?_, ?_, ?_⟩
  · rw [Option.isSome_iff_exists, ← rhsNotZero_iff]
    constructor
    · rintro ⟨T', h⟩
      rcases changeAb_some.1 h with ⟨_, h2, h3, h4, _⟩ | ⟨h1, h2, _⟩
      · exact ⟨h4, fun _ => ⟨h2, h3⟩⟩
      · exact ⟨h2, fun h => (by rw [h1] at h; cases h)⟩
    · rintro ⟨h1, h2⟩
      cases hk : T.kind with
      | linear => exact ⟨_, changeAb_some.2 (.inl ⟨hk, (h2 hk).1, (h2 hk).2, h1, rfl⟩)⟩
      | quadratic => exact ⟨_, changeAb_some.2 (.inr ⟨hk, h1, rfl⟩)⟩
  · intro T' h
    rcases changeAb_some.1 h with ⟨h1, _, _, _, rfl⟩ | ⟨h1, _, rfl⟩
    · exact ⟨rfl, fun _ => ⟨rfl, rfl, rfl, rfl⟩, fun h => (by rw [h1] at h; cases h), rfl, rfl⟩
    · exact ⟨rfl, fun h => (by rw [h1] at h; cases h), fun _ => ⟨rfl, rfl, rfl, rfl⟩, rfl, rfl⟩
  · rw [Option.isSome_iff_exists, ← rhsNotZero_iff]
    constructor
    · rintro ⟨T', h⟩
      obtain ⟨h1, h2, h3, _⟩ := changeAlu_some.1 h
      exact ⟨h3, h1, h2⟩
    · rintro ⟨h1, h2, h3⟩; exact ⟨_, changeAlu_some.2 ⟨h2, h3, h1, rfl⟩⟩
  · intro T' h
    obtain ⟨_, _, _, rfl⟩ := changeAlu_some.1 h
    exact ⟨rfl, rfl, rfl, rfl, rfl, rfl, rfl⟩
  · rw [Option.isSome_iff_exists, ← rhsNotZero_iff]
    constructor
    · rintro ⟨T', h⟩
      obtain ⟨h1, h2, h3, _⟩ := changeLu_some.1 h
      exact ⟨h3, h1, h2⟩
    · rintro ⟨h1, h2, h3⟩; exact ⟨_, changeLu_some.2 ⟨h2, h3, h1, rfl⟩⟩
  · intro T' h
    obtain ⟨_, _, _, rfl⟩ := changeLu_some.1 h
    exact ⟨rfl, rfl, rfl, rfl, rfl, rfl, rfl⟩

/-! ## Conventions -/

/-- The conventions that a target can have -/
def Possible (c : Kind × Option CType × Option Rhs × Option Nat) : Prop :=
  (∃ p t r, c = (.linear, some t, some r, some p) ∧ ¬ (t = .doubleSided ∧ r = .zero)) ∨
  (∃ p t, c = (.linear, some t, none, some p) ∧ (t = .greaterThan ∨ t = .lowerThan)) ∨
  ∃ r, c = (.quadratic, none, some r, none)

/-- **C99 (conventions).** All the calls keep the conventions that the constructor set: a linear target has a range and a type, and is never
double sided with a zero right hand side; a quadratic one has a convention for its vector. The only one that may be missing is the
convention of the right hand side, for an inequality. -/
theorem C99_conventions {T : Tgt} (h : Reach T) : Possible (conv T) := by
  have keep : ∀ {T T' : Tgt}, Possible (conv T) → conv T' = conv T → Possible (conv T') := fun h e => e ▸ h
  induction h with
  | A p A ct T h =>
    obtain ⟨_, _, _, _, c, _⟩ := C99_constructors p A .null .null .null ct .zero .null .null
    obtain ⟨e, _⟩ := c T h
    refine .inl ⟨p, ct, .zero, e, fun hc => ?_⟩
    rw [hc.1] at h; cases h
  | Ab p A b ct cr T h =>
    obtain ⟨_, _, _, _, _, c, _⟩ := C99_constructors p A .null .null b ct cr .null .null
    obtain ⟨e, _⟩ := c T h
    refine .inl ⟨p, ct, cr, e, fun hc => ?_⟩
    rw [hc.1] at h; cases h
  | Alu p A l u cr T h =>
    obtain ⟨_, _, _, _, _, _, c, _⟩ := C99_constructors p A l u .null .equal cr .null .null
    obtain ⟨e, _⟩ := c T h
    refine .inl ⟨p, .doubleSided, cr, e, fun hc => ?_⟩
    rw [hc.2] at h; cases h
  | Lu p l u => exact .inl ⟨p, .doubleSided, .asGiven, rfl, fun hc => by cases hc.2⟩
  | bound p b ct T h =>
    cases ct <;> simp [mkBound] at h <;> subst h
    · exact .inr (.inl ⟨p, .greaterThan, rfl, .inl rfl⟩)
    · exact .inr (.inl ⟨p, .lowerThan, rfl, .inr rfl⟩)
  | quad Q q cr => exact .inr (.inr ⟨cr, rfl⟩)
  | setA T T' M _ h ih => exact keep ih (by obtain ⟨_, rfl⟩ := setA_some.1 h; rfl)
  | setQ T T' M _ h ih => exact keep ih (by obtain ⟨_, rfl⟩ := setQ_some.1 h; rfl)
  | setl T T' M _ h ih => exact keep ih (by obtain ⟨_, rfl⟩ := setl_some.1 h; rfl)
  | setu T T' M _ h ih => exact keep ih (by obtain ⟨_, rfl⟩ := setu_some.1 h; rfl)
  | setb T T' M _ h ih => exact keep ih (by obtain ⟨_, rfl⟩ := setb_some.1 h; rfl)
  | setq T T' M _ h ih => exact keep ih (by obtain ⟨_, rfl⟩ := setq_some.1 h; rfl)
  | changeAb T T' M v _ h ih => exact keep ih ((C99_change T M v v).2.1 T' h).1
  | changeAlu T T' M v w _ h ih => exact keep ih ((C99_change T M v w).2.2.2.1 T' h).1
  | changeLu T T' v w _ h ih => exact keep ih ((C99_change T .null v w).2.2.2.2.2 T' h).1

/-! ## Access -/

/-- **C99 (rows).** What a target of range `p` gives is, coefficient by coefficient, the rows of the range at present in the matrix and the
vectors last given: row `i` is the row `start + i`. The first half has the first `dim / 2` rows, the second one the `dim / 2` following
rows. It is defined exactly if the rows and columns asked for are in the data. -/
theorem C99_rows (T : Tgt) (R : Nat → Rows) (p : Nat) (hp : T.range = some p) (c d : Nat) :
    T.size R = some (R p).dim ∧
    ((T.getA R c d).isSome = true ↔ (R p).start + (R p).dim ≤ T.A.rows ∧ c + d ≤ T.A.cols) ∧
    (∀ B, T.getA R c d = some B → B.rows = (R p).dim ∧ B.cols = d ∧ ∀ i j, Block.at B i j = (T.A.addr, (R p).start + i, c + j)) ∧
    (∀ B, T.getAFirst R c d = some B → B.rows = (R p).dim / 2 ∧ B.cols = d ∧
      ∀ i j, Block.at B i j = (T.A.addr, (R p).start + i, c + j)) ∧
    (∀ B, T.getASecond R c d = some B → B.rows = (R p).dim / 2 ∧ B.cols = d ∧
      ∀ i j, Block.at B i j = (T.A.addr, (R p).start + ((R p).dim / 2 + i), c + j)) ∧
    ((T.getA R c d).isSome = true → (T.getAFirst R c d).isSome = true ∧ (T.getASecond R c d).isSome = true) ∧
    ((T.getl R).isSome = true ↔ (R p).start + (R p).dim ≤ T.l.size) ∧
    (∀ s, T.getl R = some s → s.len = (R p).dim ∧ ∀ i, Segment.at s i = (T.l.addr, (R p).start + i)) ∧
    ((T.getu R).isSome = true ↔ (R p).start + (R p).dim ≤ T.u.size) ∧
    (∀ s, T.getu R = some s → s.len = (R p).dim ∧ ∀ i, Segment.at s i = (T.u.addr, (R p).start + i)) ∧
    ((T.getb R).isSome = true ↔ (R p).start + (R p).dim ≤ T.b.size) ∧
    (∀ s, T.getb R = some s → s.len = (R p).dim ∧ ∀ i, Segment.at s i = (T.b.addr, (R p).start + i)) ∧
    (∀ s, T.getbFirst R = some s → s.len = (R p).dim / 2 ∧ ∀ i, Segment.at s i = (T.b.addr, (R p).start + i)) ∧
    (∀ s, T.getbSecond R = some s → s.len = (R p).dim / 2 ∧ ∀ i, Segment.at s i = (T.b.addr, (R p).start + ((R p).dim / 2 + i))) ∧
    ((T.getb R).isSome = true → (T.getbFirst R).isSome = true ∧ (T.getbSecond R).isSome = true) := by
  have hr : T.rows R = some (R p) := by unfold Tgt.rows; rw [hp]; rfl
  have blk : ∀ (M : MRef) (i j m n : Nat), ((M.block i j m n).isSome = true ↔ i + m ≤ M.rows ∧ j + n ≤ M.cols) ∧
      ∀ B, M.block i j m n = some B → B = ⟨M.addr, i, m, j, n⟩ := by
    intro M i j m n
    unfold MRef.block
    by_cases h : i + m ≤ M.rows ∧ j + n ≤ M.cols
    · rw [if_pos h]; exact ⟨⟨fun _ => h, fun _ => rfl⟩, fun B e => (Option.some.inj e).symm⟩
    · rw [if_neg h]; exact ⟨⟨fun e => (by cases e), fun e => absurd e h⟩, fun B e => (by cases e)⟩
  have seg : ∀ (v : VRef) (i n : Nat), ((v.segment i n).isSome = true ↔ i + n ≤ v.size) ∧
      ∀ s, v.segment i n = some s → s = ⟨v.addr, i, n⟩ := by
    intro v i n
    unfold VRef.segment
    by_cases h : i + n ≤ v.size
    · rw [if_pos h]; exact ⟨⟨fun _ => h, fun _ => rfl⟩, fun B e => (Option.some.inj e).symm⟩
    · rw [if_neg h]; exact ⟨⟨fun e => (by cases e), fun e => absurd e h⟩, fun B e => (by cases e)⟩
  unfold Tgt.size Tgt.getA Tgt.getAFirst Tgt.getASecond Tgt.getl Tgt.getu Tgt.getb Tgt.getbFirst Tgt.getbSecond
  simp only [hr, Option.map_some]
  refine ⟨trivial, (blk _ _ _ _ _).1, ?_, ?_, ?_, ?_, (seg _ _ _).1, ?_, (seg _ _ _).1, ?_, (seg _ _ _).1, ?_, ?_, ?_, ?_⟩
  · intro B h; obtain rfl := (blk _ _ _ _ _).2 B h; exact ⟨rfl, rfl, fun _ _ => rfl⟩
  · intro B h; obtain rfl := (blk _ _ _ _ _).2 B h; exact ⟨rfl, rfl, fun _ _ => rfl⟩
  · intro B h; obtain rfl := (blk _ _ _ _ _).2 B h
    exact ⟨rfl, rfl, fun i j => by simp only [Block.at, Nat.add_assoc]⟩
  · intro h
    have := (blk _ _ _ _ _).1.1 h
    exact ⟨(blk _ _ _ _ _).1.2 (by omega), (blk _ _ _ _ _).1.2 (by omega)⟩
  · intro s h; obtain rfl := (seg _ _ _).2 s h; exact ⟨rfl, fun _ => rfl⟩
  · intro s h; obtain rfl := (seg _ _ _).2 s h; exact ⟨rfl, fun _ => rfl⟩
  · intro s h; obtain rfl := (seg _ _ _).2 s h; exact ⟨rfl, fun _ => rfl⟩
  · intro s h; obtain rfl := (seg _ _ _).2 s h; exact ⟨rfl, fun _ => rfl⟩
  · intro s h; obtain rfl := (seg _ _ _).2 s h
    exact ⟨rfl, fun i => by simp only [Segment.at, Nat.add_assoc]⟩
  · intro h
    have := (seg _ _ _).1.1 h
    exact ⟨(seg _ _ _).1.2 (by omega), (seg _ _ _).1.2 (by omega)⟩

/-- **C99 (halves).** No row is in both halves, and each row of the target is in one of them exactly if the range has an even size (the
assignments use the halves for ranges of twice the size of the constraint, see `C34`): with an odd size the last row is in none. -/
theorem C99_halves (T : Tgt) (R : Nat → Rows) (c d : Nat) (B F S : Block) (hB : T.getA R c d = some B) (hF : T.getAFirst R c d = some F)
    (hS : T.getASecond R c d = some S) :
    (∀ i < F.rows, ∀ i' < S.rows, ∀ j j', Block.at F i j ≠ Block.at S i' j') ∧
    ((∀ i < B.rows, ∀ j, (∃ i' < F.rows, Block.at B i j = Block.at F i' j) ∨ ∃ i' < S.rows, Block.at B i j = Block.at S i' j) ↔
      2 ∣ B.rows) := by
  obtain ⟨p, hp⟩ : ∃ p, T.range = some p := by
    cases hp : T.range with
    | none => unfold Tgt.getA Tgt.rows at hB; rw [hp] at hB; cases hB
    | some p => exact ⟨p, rfl⟩
  obtain ⟨_, _, h3, h4, h5, _⟩ := C99_rows T R p hp c d
  obtain ⟨b1, _, b3⟩ := h3 B hB
  obtain ⟨f1, _, f3⟩ := h4 F hF
  obtain ⟨s1, _, s3⟩ := h5 S hS
  rw [b1, f1, s1]
  constructor
  · intro i hi i' hi' j j' e
    rw [f3, s3] at e
    injection e with _ e
    injection e with e _
    omega
  · constructor
    · intro h
      by_cases h0 : (R p).dim = 0
      · rw [h0]; exact ⟨0, rfl⟩
      rcases h ((R p).dim - 1) (by omega) 0 with ⟨i', hi', e⟩ | ⟨i', hi', e⟩
      · rw [b3, f3] at e
        injection e with _ e
        injection e with e _
        omega
      · rw [b3, s3] at e
        injection e with _ e
        injection e with e _
        omega
    · intro h i hi j
      by_cases hlt : i < (R p).dim / 2
      · exact .inl ⟨i, hlt, by rw [b3, f3]⟩
      · refine .inr ⟨i - (R p).dim / 2, by omega, ?_⟩
        rw [b3, s3]
        congr 2
        omega

/-- **C99 (what an assignment sees, partial).** A linear target whose convention for the right hand side is known is seen by the assignments
as one of the targets that they suppose (`C34`, `C38`), whose rows and segments are the ones that the accessors give. Missing: the target of
an inequality on a variable with one vector (`C99_unwritten_false`). -/
theorem C99_view_partial {T : Tgt} (h : Reach T) (hl : T.kind = .linear) (hr : T.rhs.isSome = true) (R : Nat → Rows) :
    ∃ G p, T.view R = some G ∧ T.range = some p ∧ G.valid = true ∧ some G.type = T.type ∧ some G.rhs = T.rhs ∧ G.start = (R p).start ∧
      G.size = (R p).dim ∧
      (∀ c d B, T.getA R c d = some B → (B.row, B.rows) = G.rows .A) ∧
      (∀ c d B, T.getAFirst R c d = some B → (B.row, B.rows) = G.rows .AFirstHalf) ∧
      (∀ c d B, T.getASecond R c d = some B → (B.row, B.rows) = G.rows .ASecondHalf) ∧
      (∀ s, T.getb R = some s → (s.start, s.len) = ((G.seg .b).start, (G.seg .b).len)) ∧
      (∀ s, T.getbFirst R = some s → (s.start, s.len) = ((G.seg .bFirstHalf).start, (G.seg .bFirstHalf).len)) ∧
      (∀ s, T.getbSecond R = some s → (s.start, s.len) = ((G.seg .bSecondHalf).start, (G.seg .bSecondHalf).len)) ∧
      (∀ s, T.getl R = some s → (s.start, s.len) = ((G.seg .l).start, (G.seg .l).len)) ∧
      ∀ s, T.getu R = some s → (s.start, s.len) = ((G.seg .u).start, (G.seg .u).len) := by
  rcases C99_conventions h with ⟨p, t, r, e, hv⟩ | ⟨p, t, e, _⟩ | ⟨r, e⟩
  · simp only [conv, Prod.mk.injEq] at e
    obtain ⟨_, e2, e3, e4⟩ := e
    have hrow : T.rows R = some (R p) := by unfold Tgt.rows; rw [e4]; rfl
    have blk : ∀ (M : MRef) (i j m n : Nat) B, M.block i j m n = some B → (B.row, B.rows) = (i, m) := by
      intro M i j m n B e
      unfold MRef.block at e
      split at e
      · obtain rfl := Option.some.inj e; rfl
      · cases e
    have seg : ∀ (v : VRef) (i n : Nat) s, v.segment i n = some s → (s.start, s.len) = (i, n) := by
      intro v i n s e
      unfold VRef.segment at e
      split at e
      · obtain rfl := Option.some.inj e; rfl
      · cases e
    refine ⟨⟨t, r, (R p).start, (R p).dim⟩, p, ?_, e4, ?_, e2.symm, e3.symm, rfl, rfl, ?_, ?_, ?_, ?_, ?_, ?_, ?_, ?_⟩
    · unfold Tgt.view; rw [e2, e3, hrow]
    · cases t <;> cases r <;> simp_all [AS.Target.valid]
    · intro c d B h; unfold Tgt.getA at h; rw [hrow] at h; exact blk _ _ _ _ _ _ h
    · intro c d B h; unfold Tgt.getAFirst at h; rw [hrow] at h; exact blk _ _ _ _ _ _ h
    · intro c d B h; unfold Tgt.getASecond at h; rw [hrow] at h; exact blk _ _ _ _ _ _ h
    · intro s h; unfold Tgt.getb at h; rw [hrow] at h; exact seg _ _ _ _ h
    · intro s h; unfold Tgt.getbFirst at h; rw [hrow] at h; exact seg _ _ _ _ h
    · intro s h; unfold Tgt.getbSecond at h; rw [hrow] at h; exact seg _ _ _ _ h
    · intro s h; unfold Tgt.getl at h; rw [hrow] at h; exact seg _ _ _ _ h
    · intro s h; unfold Tgt.getu at h; rw [hrow] at h; exact seg _ _ _ _ h
  · simp only [conv, Prod.mk.injEq] at e
    rw [e.2.2.1] at hr; cases hr
  · simp only [conv, Prod.mk.injEq] at e
    rw [e.1] at hl; cases hl

/-! ## What does not hold -/

/-- **C99 (false: known conventions).** Every target of an inequality on a variable (`x >= b` or `x <= b`) has no convention for its right
hand side: the constructor does not write it, no call writes it later, so that `constraintRhs()`, an assignment to it and any change of its
vector read a member that was never written. -/
theorem C99_unwritten_false (p : Nat) (b : VRef) (ct : CType) (T : Tgt) (h : mkBound p b ct = some T) :
    Reach T ∧ T.rhs = none ∧ (∀ R, T.view R = none) ∧ (∀ M v, T.changeAb M v = none) ∧ (∀ M v w, T.changeAlu M v w = none) ∧
    (∀ v w, T.changeLu v w = none) ∧ ∀ v, T.setb v = none := by
  refine ⟨.bound p b ct T h, ?_⟩
  cases ct <;> simp [mkBound] at h <;> subst h <;>
    simp [Tgt.view, Tgt.changeAb, Tgt.changeAlu, Tgt.changeLu, Tgt.setA, Tgt.setl, Tgt.setb, Tgt.rhsNotZero]

/-- **C99 (false: changing the data).** The data of a target of `Ax = 0`, `Ax <= 0` or `Ax >= 0` cannot be changed by `changeData`: all three
fail an assertion. The matrix alone can be (`setA`). -/
theorem C99_zero_false (p : Nat) (A : MRef) (ct : CType) (T : Tgt) (h : mkA p A ct = some T) :
    (∀ M v, T.changeAb M v = none) ∧ (∀ M v w, T.changeAlu M v w = none) ∧ (∀ v w, T.changeLu v w = none) ∧
    ∀ M, ∃ T', T.setA M = some T' ∧ conv T' = conv T ∧ T'.A = M := by
  cases ct <;> simp [mkA, mkAb] at h <;> subst h <;>
    simp [Tgt.changeAb, Tgt.changeAlu, Tgt.changeLu, Tgt.setA, Tgt.setl, Tgt.setb, Tgt.rhsNotZero, conv]

/-! ## Examples -/

/-- A target of `l <= Ax <= u` on three rows from the second one, whose data then change -/
example : ∃ T T', mkAlu 0 ⟨some 1, 5, 4⟩ ⟨some 2, 5⟩ ⟨some 3, 5⟩ .asGiven = some T ∧ Reach T ∧
    T.changeAlu ⟨some 11, 9, 4⟩ ⟨some 12, 9⟩ ⟨some 13, 9⟩ = some T' ∧ Reach T' ∧
    T'.getA (fun _ => ⟨1, 3⟩) 0 4 = some ⟨some 11, 1, 3, 0, 4⟩ ∧ T'.getl (fun _ => ⟨6, 3⟩) = some ⟨some 12, 6, 3⟩ :=
  have h : Reach ⟨.linear, some .doubleSided, some .asGiven, some 0, ⟨some 1, 5, 4⟩, .null, ⟨some 2, 5⟩, ⟨some 3, 5⟩, .null, .null⟩ :=
    .Alu 0 ⟨some 1, 5, 4⟩ ⟨some 2, 5⟩ ⟨some 3, 5⟩ .asGiven _ rfl
  ⟨_, ⟨.linear, some .doubleSided, some .asGiven, some 0, ⟨some 11, 9, 4⟩, .null, ⟨some 12, 9⟩, ⟨some 13, 9⟩, .null, .null⟩, rfl, h,
    by decide, .changeAlu _ _ ⟨some 11, 9, 4⟩ ⟨some 12, 9⟩ ⟨some 13, 9⟩ h (by decide), by decide, by decide⟩

/-- The halves of a range of four rows -/
example : ∃ T, mkAb 0 ⟨some 1, 6, 2⟩ ⟨some 2, 6⟩ .lowerThan .opposite = some T ∧
    T.getA (fun _ => ⟨2, 4⟩) 0 2 = some ⟨some 1, 2, 4, 0, 2⟩ ∧ T.getAFirst (fun _ => ⟨2, 4⟩) 0 2 = some ⟨some 1, 2, 2, 0, 2⟩ ∧
    T.getASecond (fun _ => ⟨2, 4⟩) 0 2 = some ⟨some 1, 4, 2, 0, 2⟩ := ⟨_, rfl, by decide, by decide, by decide⟩

example : ∃ T, mkBound 0 ⟨some 1, 6⟩ .lowerThan = some T := ⟨_, rfl⟩
example : ∃ T, mkA 0 ⟨some 1, 6, 2⟩ .equal = some T := ⟨_, rfl⟩

end Verif.C99
