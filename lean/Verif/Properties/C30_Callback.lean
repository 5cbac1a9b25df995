import Verif.Lemmas.Callback
/-!
# C30: callback managers

Any number of managers, and users that own tokens. The code moves tokens in memory (growth of the vectors, erasures, moves made by
the users) and the two sides find each other through addresses. The specification knows no addresses of the managers: a manager is the
list of its registrations, a token of a user holds at most one registration.
-/
set_option autoImplicit false

namespace Verif.C30
open Verif Verif.Tok

/-! ## Specification -/

/-- For each manager its registrations (number and callback, in order), and what each token of the users holds (`none`: no token
there; `some none`: a token that holds nothing). -/
structure Abs where
  regs : Nat → List (Nat × Nat)
  holds : Nat → Option (Option Nat)
  nextReg : Nat

/-- At the start -/
def Abs.empty : Abs := ⟨fun _ => [], fun _ => none, 0⟩

/-- Operations of the users -/
inductive Op where
  /-- default construction of a token -/
  | create (a : Nat)
  /-- registration, the result is a new token at `a`; `grow` is a choice of the allocation -/
  | register (m c grow a : Nat)
  /-- registration, the result is assigned to the token at `a` -/
  | registerAssign (m c grow a : Nat)
  /-- registration, the result is thrown away -/
  | registerDrop (m c grow : Nat)
  /-- move of the token at `b` to a new token at `a` -/
  | moveCtor (a b : Nat)
  | moveAssign (a b : Nat)
  | destroy (a : Nat)
  | unregister (m a : Nat)
  | run (m : Nat)
  | destroyMgr (m : Nat)

/-- What is observed -/
inductive Out where
  | nothing
  | exception
  | called (l : List Nat)
deriving DecidableEq

/-- A token that is used must exist, a token that is constructed must not. -/
def Abs.legal (A : Abs) : Op → Prop
  | .create a => A.holds a = none
  | .register _ _ _ a => A.holds a = none
  | .registerAssign _ _ _ a => A.holds a ≠ none
  | .registerDrop _ _ _ => True
  | .moveCtor a b => A.holds a = none ∧ A.holds b ≠ none
  | .moveAssign a b => A.holds a ≠ none ∧ A.holds b ≠ none
  | .destroy a => A.holds a ≠ none
  | .unregister _ a => A.holds a ≠ none
  | .run _ => True
  | .destroyMgr _ => True

/-- The registration is held by a living token. -/
def Abs.held (A : Abs) (r : Nat) : Prop := ∃ a, A.holds a = some (some r)

/-- `holds` changed at one place -/
def put (f : Nat → Option (Option Nat)) (a : Nat) (x : Option (Option Nat)) : Nat → Option (Option Nat) := fun b => if b = a then x else f b

/-- `regs` changed at one place -/
def putR (f : Nat → List (Nat × Nat)) (m : Nat) (x : List (Nat × Nat)) : Nat → List (Nat × Nat) := fun b => if b = m then x else f b

open Classical in
/-- Meaning of the operations -/
noncomputable def Abs.exec (A : Abs) : Op → Abs × Out
  | .create a => (⟨A.regs, put A.holds a (some none), A.nextReg⟩, .nothing)
  | .register m c _ a => (⟨putR A.regs m (A.regs m ++ [(A.nextReg, c)]), put A.holds a (some (some A.nextReg)), A.nextReg + 1⟩, .nothing)
  | .registerAssign m c _ a => (⟨putR A.regs m (A.regs m ++ [(A.nextReg, c)]), put A.holds a (some (some A.nextReg)), A.nextReg + 1⟩, .nothing)
  | .registerDrop m c _ => (⟨putR A.regs m (A.regs m ++ [(A.nextReg, c)]), A.holds, A.nextReg + 1⟩, .nothing)
  | .moveCtor a b => (⟨A.regs, put (put A.holds a (A.holds b)) b (some none), A.nextReg⟩, .nothing)
  | .moveAssign a b => (⟨A.regs, put (put A.holds a (A.holds b)) b (some none), A.nextReg⟩, .nothing)
  | .destroy a => (⟨A.regs, put A.holds a none, A.nextReg⟩, .nothing)
  | .unregister m a =>
    if ∃ r c, A.holds a = some (some r) ∧ (r, c) ∈ A.regs m then
      (⟨putR A.regs m ((A.regs m).filter fun x => decide (A.holds a ≠ some (some x.1))), put A.holds a (some none), A.nextReg⟩, .nothing)
    else (A, .exception)
  | .run m =>
    (⟨putR A.regs m ((A.regs m).filter fun x => decide (A.held x.1)), A.holds, A.nextReg⟩,
      .called (((A.regs m).filter fun x => decide (A.held x.1)).map Prod.snd))
  | .destroyMgr m =>
    (⟨putR A.regs m [], fun a => if ∃ r c, A.holds a = some (some r) ∧ (r, c) ∈ A.regs m then some none else A.holds a, A.nextReg⟩,
      .nothing)

/-- The same operations in the model of the code -/
def exec (p : Prog) : Op → Option (Prog × Out)
  | .create a => (p.toks.create (cl a)).map fun s => (⟨s, p.mgrs, p.next⟩, .nothing)
  | .register m c grow a =>
    match p.register m c grow with
    | none => none
    | some (q, t) => (q.toks.fromHandle (cl a) t).map fun s => (⟨s, q.mgrs, q.next⟩, .nothing)
  | .registerAssign m c grow a =>
    match p.register m c grow with
    | none => none
    | some (q, t) => (q.toks.assignHandle (cl a) t).map fun s => (⟨s, q.mgrs, q.next⟩, .nothing)
  | .registerDrop m c grow => (p.register m c grow).map fun x => (x.1, .nothing)
  | .moveCtor a b => (p.toks.moveCtor (cl a) (cl b)).map fun s => (⟨s, p.mgrs, p.next⟩, .nothing)
  | .moveAssign a b => (p.toks.moveAssign (cl a) (cl b)).map fun s => (⟨s, p.mgrs, p.next⟩, .nothing)
  | .destroy a => (p.toks.destroy (cl a)).map fun s => (⟨s, p.mgrs, p.next⟩, .nothing)
  | .unregister m a =>
    match p.unregister m (cl a) with
    | none => none
    | some none => some (p, .exception)
    | some (some q) => some (q, .nothing)
  | .run m => (p.run m).map fun x => (x.1, .called x.2)
  | .destroyMgr m => (p.destroyMgr m).map fun q => (q, .nothing)

/-- A history of the specification: the operations and the observations -/
inductive Hist : Abs → List Op → List Out → Abs → Prop
  | nil (A : Abs) : Hist A [] [] A
  | cons (A B : Abs) (o : Op) (l : List Op) (r : List Out) (h : A.legal o) (t : Hist (A.exec o).1 l r B) :
      Hist A (o :: l) ((A.exec o).2 :: r) B

/-- Execution of a list of operations by the code -/
def execAll (p : Prog) : List Op → Option (Prog × List Out)
  | [] => some (p, [])
  | o :: l =>
    match exec p o with
    | none => none
    | some (q, x) =>
      match execAll q l with
      | none => none
      | some (q', r) => some (q', x :: r)

/-! ## Simulation relation -/

structure Rel (p : Prog) (A : Abs) : Prop where
  sym : Sym p.toks
  apart : Apart p.toks
  cbs : ∀ m, (A.regs m).map Prod.snd = (p.mgrs m).cbs
  cap : ∀ m, (p.mgrs m).cbs.length ≤ (p.mgrs m).cap ∧ (p.mgrs m).base + (p.mgrs m).cap ≤ p.next
  disj : ∀ m m', m ≠ m' → (p.mgrs m).base + (p.mgrs m).cap ≤ (p.mgrs m').base ∨ (p.mgrs m').base + (p.mgrs m').cap ≤ (p.mgrs m).base
  uniq : ∀ (m m' i j r c c' : Nat), (A.regs m)[i]? = some (r, c) → (A.regs m')[j]? = some (r, c') → m = m' ∧ i = j
  lt : ∀ m r c, (r, c) ∈ A.regs m → r < A.nextReg
  hold : ∀ a r, A.holds a = some (some r) → ∃ m i c, (A.regs m)[i]? = some (r, c) ∧
    p.toks (cl a) = some (some (slot ((p.mgrs m).base + i)))
  unheld : ∀ a, A.holds a = some none → p.toks (cl a) = some none
  dead : ∀ a, A.holds a = none → p.toks (cl a) = none
  alive : ∀ k, p.toks (slot k) ≠ none ↔ ∃ m i, i < (A.regs m).length ∧ k = (p.mgrs m).base + i

theorem rel_empty : Rel Prog.empty Abs.empty := by
  constructor <;> simp [Prog.empty, Abs.empty, Sym, Apart]

section
variable (p : Prog) (A : Abs) (h : Rel p A)
include h

theorem Rel.len (m : Nat) : (A.regs m).length = (p.mgrs m).cbs.length := by rw [← h.cbs, List.length_map]

/-- Two places of buffers are the same only for the same manager and index. -/
theorem Rel.slot_uniq (m m' i j : Nat) (hi : i < (A.regs m).length) (hj : j < (A.regs m').length)
    (e : (p.mgrs m).base + i = (p.mgrs m').base + j) : m = m' ∧ i = j := by
  have h1 := h.cap m; have h2 := h.cap m'
  rw [h.len p A m] at hi; rw [h.len p A m'] at hj
  by_cases hm : m = m'
  · subst hm; exact ⟨rfl, by omega⟩
  · have := h.disj m m' hm; omega

/-- The mate of a token of a user -/
theorem Rel.mate (a y : Nat) (e : p.toks (cl a) = some (some y)) : ∃ m i r c, (A.regs m)[i]? = some (r, c) ∧
    y = slot ((p.mgrs m).base + i) ∧ A.holds a = some (some r) := by
  cases ha : A.holds a with
  | none => rw [h.dead a ha] at e; cases e
  | some x =>
    cases x with
    | none => rw [h.unheld a ha] at e; cases e
    | some r =>
      obtain ⟨m, i, c, h1, h2⟩ := h.hold a r ha
      rw [h2] at e
      simp only [Option.some.injEq] at e
      exact ⟨m, i, r, c, h1, e.symm, rfl⟩

theorem Rel.mate_holds (a m i r c : Nat) (h1 : (A.regs m)[i]? = some (r, c)) :
    p.toks (cl a) = some (some (slot ((p.mgrs m).base + i))) ↔ A.holds a = some (some r) := by
  have hi := (List.getElem?_eq_some_iff.1 h1).1
  constructor
  · intro e
    obtain ⟨m', j, r', c', h2, h3, h4⟩ := h.mate p A a _ e
    have hj := (List.getElem?_eq_some_iff.1 h2).1
    rw [slot_inj] at h3
    obtain ⟨rfl, rfl⟩ := h.slot_uniq p A m m' i j hi hj h3
    rw [h1] at h2; cases h2; exact h4
  · intro e
    obtain ⟨m', j, c', h2, h3⟩ := h.hold a r e
    obtain ⟨rfl, rfl⟩ := h.uniq m m' i j r c c' h1 h2
    exact h3

theorem Rel.not_cl (a b : Nat) : p.toks (cl a) ≠ some (some (cl b)) := by
  intro e
  obtain ⟨m, i, r, c, _, h2, _⟩ := h.mate p A a _ e
  exact cl_ne_slot _ _ h2

theorem Rel.dead_iff (a : Nat) : A.holds a = none ↔ p.toks (cl a) = none := by
  constructor
  · exact h.dead a
  · intro e
    cases ha : A.holds a with
    | none => rfl
    | some x =>
      cases x with
      | none => rw [h.unheld a ha] at e; cases e
      | some r => obtain ⟨m, i, c, _, h2⟩ := h.hold a r ha; rw [h2] at e; cases e

/-- Held registrations are those with a paired token in the manager. -/
theorem Rel.held_iff (m i r c : Nat) (h1 : (A.regs m)[i]? = some (r, c)) :
    A.held r ↔ p.toks.isPaired (slot ((p.mgrs m).base + i)) = true := by
  constructor
  · rintro ⟨a, ha⟩
    have := h.sym _ _ ((h.mate_holds p A a m i r c h1).2 ha)
    simp [Store.isPaired, this]
  · intro e
    cases hs : p.toks (slot ((p.mgrs m).base + i)) with
    | none => simp [Store.isPaired, hs] at e
    | some x =>
      cases x with
      | none => simp [Store.isPaired, hs] at e
      | some y =>
        obtain ⟨a, rfl⟩ := h.apart _ _ hs
        exact ⟨a, (h.mate_holds p A a m i r c h1).1 (h.sym _ _ hs)⟩

/-- Change of the links only -/
theorem Rel.relink (t : Store) (H : Nat → Option (Option Nat)) (hs : Sym t) (ha : Apart t)
    (hd : ∀ a, H a = none → t (cl a) = none) (hu : ∀ a, H a = some none → t (cl a) = some none)
    (hh : ∀ (a m i r c : Nat), H a = some (some r) → (A.regs m)[i]? = some (r, c) → t (cl a) = some (some (slot ((p.mgrs m).base + i))))
    (hr : ∀ a r, H a = some (some r) → ∃ (m i c : Nat), (A.regs m)[i]? = some (r, c))
    (hk : ∀ k, t (slot k) = none ↔ p.toks (slot k) = none) : Rel ⟨t, p.mgrs, p.next⟩ ⟨A.regs, H, A.nextReg⟩ := by
  refine ⟨hs, ha, h.cbs, h.cap, h.disj, h.uniq, h.lt, ?_, hu, hd, ?_⟩
  · intro a r e
    obtain ⟨m, i, c, h1⟩ := hr a r e
    exact ⟨m, i, c, h1, hh a m i r c e h1⟩
  · intro k
    rw [← h.alive k, Ne, Ne, hk]

theorem Rel.has (a r : Nat) (e : A.holds a = some (some r)) : ∃ (m i c : Nat), (A.regs m)[i]? = some (r, c) := by
  obtain ⟨m, i, c, h1, _⟩ := h.hold a r e; exact ⟨m, i, c, h1⟩

theorem sim_create (a : Nat) (hl : A.holds a = none) :
    ∃ q, exec p (.create a) = some (q, .nothing) ∧ Rel q ⟨A.regs, put A.holds a (some none), A.nextReg⟩ := by
  have e0 := h.dead a hl
  refine ⟨⟨p.toks.put (cl a) (some none), p.mgrs, p.next⟩, by simp [exec, Store.create, e0], ?_⟩
  apply h.relink
  · intro x y; have := h.sym x y; have := h.sym x (cl a); simp only [put_apply]; grind
  · intro k y; have := h.apart k y; simp only [put_apply, slot_ne_cl, if_false]; exact this
  · intro b; have := h.dead b; simp only [put_apply, cl_inj, put]; grind
  · intro b; have := h.unheld b; simp only [put_apply, cl_inj, put]; grind
  · intro b m i r c h1 h2
    have := h.mate_holds p A b m i r c h2; simp only [put_apply, cl_inj, put] at h1 ⊢; grind
  · intro b r h1; have := h.has p A b r; simp only [put] at h1; grind
  · intro k; simp only [put_apply, slot_ne_cl, if_false]

theorem sim_destroy (a : Nat) (hl : A.holds a ≠ none) :
    ∃ q, exec p (.destroy a) = some (q, .nothing) ∧ Rel q ⟨A.regs, put A.holds a none, A.nextReg⟩ := by
  have e0 : p.toks (cl a) ≠ none := fun e => hl ((h.dead_iff p A a).2 e)
  have e := destroy_eq p.toks h.sym (cl a) e0
  refine ⟨_, by simp only [exec, e, Option.map_some]; rfl, ?_⟩
  apply h.relink
  · exact sym_destroy _ _ h.sym (cl a) e0 e
  · intro k y; have := h.apart k y; simp only [slot_ne_cl, if_false]; grind
  · intro b; have := h.dead b; simp only [cl_inj, put, h.not_cl, if_false]; grind
  · intro b; have := h.unheld b; simp only [cl_inj, put, h.not_cl, if_false]; grind
  · intro b m i r c h1 h2
    have := h.mate_holds p A b m i r c h2; simp only [cl_inj, put, h.not_cl, if_false] at h1 ⊢; grind
  · intro b r h1; have := h.has p A b r; simp only [put] at h1; grind
  · intro k
    simp only [slot_ne_cl, if_false]
    have := h.sym (cl a) (slot k)
    grind

theorem sim_moveCtor (a b : Nat) (hl : A.holds a = none) (hb : A.holds b ≠ none) :
    ∃ q, exec p (.moveCtor a b) = some (q, .nothing) ∧ Rel q ⟨A.regs, put (put A.holds a (A.holds b)) b (some none), A.nextReg⟩ := by
  have e0 := h.dead a hl
  have e1 : p.toks (cl b) ≠ none := fun e => hb ((h.dead_iff p A b).2 e)
  obtain ⟨x, hx⟩ := Option.ne_none_iff_exists'.1 e1
  have hab : a ≠ b := by rintro rfl; exact hb hl
  have e := moveCtor_eq p.toks h.sym (cl a) (cl b) x e0 hx
  have nx : ∀ c, x ≠ some (cl c) := fun c e => h.not_cl p A b c (by rw [hx, e])
  refine ⟨_, by simp only [exec, e, Option.map_some]; rfl, ?_⟩
  apply h.relink
  · exact sym_moveCtor _ _ h.sym (cl a) (cl b) x e0 hx e
  · intro k y; have := h.apart k y; simp only [slot_ne_cl, if_false]; grind
  · intro c; have := h.dead c; have := h.dead b; simp only [cl_inj, put, nx, if_false]; grind
  · intro c; have := h.unheld c; have := h.unheld b; simp only [cl_inj, put, nx, if_false]; grind
  · intro d m i r c h1 h2
    have := h.mate_holds p A d m i r c h2; have := h.mate_holds p A b m i r c h2
    simp only [cl_inj, put, nx, if_false] at h1 ⊢; grind
  · intro c r h1; have := h.has p A c r; have := h.has p A b r; simp only [put] at h1; grind
  · intro k
    simp only [slot_ne_cl, if_false]
    have := h.sym (cl b) (slot k)
    grind

theorem sim_moveAssign (a b : Nat) (hl : A.holds a ≠ none) (hb : A.holds b ≠ none) :
    ∃ q, exec p (.moveAssign a b) = some (q, .nothing) ∧ Rel q ⟨A.regs, put (put A.holds a (A.holds b)) b (some none), A.nextReg⟩ := by
  have e0 : p.toks (cl a) ≠ none := fun e => hl ((h.dead_iff p A a).2 e)
  have e1 : p.toks (cl b) ≠ none := fun e => hb ((h.dead_iff p A b).2 e)
  have hsa : ∀ k, p.toks (cl a) = some (some (slot k)) → p.toks (slot k) ≠ none := fun k e => by rw [h.sym _ _ e]; simp
  by_cases hab : a = b
  · subst hab
    have e := moveAssign_self p.toks h.sym (cl a) e0
    refine ⟨_, by simp only [exec, e, Option.map_some]; rfl, ?_⟩
    apply h.relink
    · exact sym_moveAssign _ _ h.sym (cl a) (cl a) e0 e0 e
    · intro k y; have := h.apart k y; simp only [slot_ne_cl, if_false]; grind
    · intro c; have := h.dead c; simp only [cl_inj, put, h.not_cl, if_false]; grind
    · intro c; have := h.unheld c; simp only [cl_inj, put, h.not_cl, if_false]; grind
    · intro d m i r c h1 h2
      have := h.mate_holds p A d m i r c h2
      simp only [cl_inj, put, h.not_cl, if_false] at h1 ⊢; grind
    · intro c r h1; have := h.has p A c r; simp only [put] at h1; grind
    · intro k
      simp only [slot_ne_cl, if_false]
      have := hsa k
      grind
  · have e := moveAssign_eq p.toks h.sym (cl a) (cl b) e0 e1 (by rw [Ne, cl_inj]; exact hab)
    refine ⟨_, by simp only [exec, e, Option.map_some]; rfl, ?_⟩
    apply h.relink
    · exact sym_moveAssign _ _ h.sym (cl a) (cl b) e0 e1 e
    · intro k y; have := h.apart k y; simp only [slot_ne_cl, if_false]; grind
    · intro c; have := h.dead c; have := h.dead b; simp only [cl_inj, put, h.not_cl, if_false]; grind
    · intro c; have := h.unheld c; have := h.unheld b; simp only [cl_inj, put, h.not_cl, if_false]; grind
    · intro d m i r c h1 h2
      have := h.mate_holds p A d m i r c h2; have := h.mate_holds p A b m i r c h2
      simp only [cl_inj, put, h.not_cl, if_false] at h1 ⊢; grind
    · intro c r h1; have := h.has p A c r; have := h.has p A b r; simp only [put] at h1; grind
    · intro k
      simp only [slot_ne_cl, if_false]
      have := hsa k
      have := h.sym (cl b) (slot k)
      grind

/-! ### Registration -/

omit h in
theorem idx_lt {A : Abs} {m i r c : Nat} (h1 : (A.regs m)[i]? = some (r, c)) : i < (A.regs m).length :=
  (List.getElem?_eq_some_iff.1 h1).1

omit h in
theorem putR_get (m c r : Nat) (m' i r' c' : Nat) (e : (putR A.regs m (A.regs m ++ [(r, c)]) m')[i]? = some (r', c')) :
    ((A.regs m')[i]? = some (r', c')) ∨ (m' = m ∧ i = (A.regs m).length ∧ r' = r ∧ c' = c) := by
  unfold putR at e
  by_cases hm : m' = m
  · subst hm
    simp only [if_true, List.getElem?_append] at e
    by_cases hi : i < (A.regs m').length
    · rw [if_pos hi] at e; exact Or.inl e
    · rw [if_neg hi] at e
      right
      cases hj : i - (A.regs m').length with
      | zero =>
        rw [hj] at e; simp only [List.getElem?_cons_zero, Option.some.injEq, Prod.mk.injEq] at e
        exact ⟨rfl, by omega, e.1.symm, e.2.symm⟩
      | succ n => rw [hj] at e; simp at e
  · simp only [hm, if_false] at e; exact Or.inl e

omit h in
theorem putR_get_old (m : Nat) (x : Nat × Nat) (m' i r' c' : Nat) (e : (A.regs m')[i]? = some (r', c')) :
    (putR A.regs m (A.regs m ++ [x]) m')[i]? = some (r', c') := by
  unfold putR
  by_cases hm : m' = m
  · subst hm
    simp only [if_true]
    rw [List.getElem?_append_left (idx_lt e)]; exact e
  · simp only [hm, if_false]; exact e

theorem uniq_append (m c : Nat) : ∀ (m1 m2 i j r c1 c2 : Nat), (putR A.regs m (A.regs m ++ [(A.nextReg, c)]) m1)[i]? = some (r, c1) →
    (putR A.regs m (A.regs m ++ [(A.nextReg, c)]) m2)[j]? = some (r, c2) → m1 = m2 ∧ i = j := by
  intro m1 m2 i j r c1 c2 e1 e2
  rcases putR_get A m c _ _ _ _ _ e1 with h1 | ⟨h1, h2, h3, _⟩ <;> rcases putR_get A m c _ _ _ _ _ e2 with g1 | ⟨g1, g2, g3, _⟩
  · exact h.uniq _ _ _ _ _ _ _ h1 g1
  · have := h.lt _ _ _ (List.mem_of_getElem? h1); omega
  · have := h.lt _ _ _ (List.mem_of_getElem? g1); omega
  · exact ⟨by rw [h1, g1], by omega⟩

theorem lt_append (m c : Nat) : ∀ m' r c', (r, c') ∈ putR A.regs m (A.regs m ++ [(A.nextReg, c)]) m' → r < A.nextReg + 1 := by
  intro m' r c' e
  obtain ⟨i, hi⟩ := List.getElem?_of_mem e
  rcases putR_get A m c _ _ _ _ _ hi with h1 | ⟨_, _, h3, _⟩
  · have := h.lt _ _ _ (List.mem_of_getElem? h1); omega
  · omega

omit h in
theorem len_append (m m' : Nat) (x : Nat × Nat) : (putR A.regs m (A.regs m ++ [x]) m').length =
    if m' = m then (A.regs m).length + 1 else (A.regs m').length := by
  unfold putR; by_cases hm : m' = m <;> simp [hm]

theorem sim_reg (m c grow : Nat) :
    ∃ q t, p.register m c grow = some (q, t) ∧
      Rel q ⟨putR A.regs m (A.regs m ++ [(A.nextReg, c)]), A.holds, A.nextReg + 1⟩ ∧
      t = slot ((q.mgrs m).base + (A.regs m).length) ∧ q.toks t = some none := by
  have hlen := h.len p A m
  have hcap := h.cap m
  have hcbs : ∀ (b cp : Nat) (m' : Nat), (putR A.regs m (A.regs m ++ [(A.nextReg, c)]) m').map Prod.snd =
      (setMgr p.mgrs m ⟨b, cp, (p.mgrs m).cbs ++ [c]⟩ m').cbs := by
    intro b cp m'
    unfold putR setMgr
    by_cases hm : m' = m
    · simp [hm, h.cbs]
    · simp only [hm, if_false, h.cbs]
  by_cases hg : (p.mgrs m).cbs.length < (p.mgrs m).cap
  · have free : p.toks (slot ((p.mgrs m).base + (p.mgrs m).cbs.length)) = none := by
      refine Classical.byContradiction fun hn => ?_
      obtain ⟨m', i, hi, e⟩ := (h.alive _).1 hn
      rw [h.len p A m'] at hi
      have := h.cap m'
      by_cases hm : m' = m
      · subst hm; omega
      · have := h.disj m' m hm; omega
    have hne : ∀ a, p.toks (cl a) ≠ some (some (slot ((p.mgrs m).base + (p.mgrs m).cbs.length))) := by
      intro a e; rw [h.sym _ _ e] at free; cases free
    refine ⟨⟨p.toks.put (slot ((p.mgrs m).base + (p.mgrs m).cbs.length)) (some none),
      setMgr p.mgrs m ⟨(p.mgrs m).base, (p.mgrs m).cap, (p.mgrs m).cbs ++ [c]⟩, p.next⟩, _, ?_, ?_, rfl, ?_⟩
    · simp [Prog.register, hg, Store.create, free, Store.handle, put_apply, setMgr, hlen]
    · have hb : ∀ m', (setMgr p.mgrs m ⟨(p.mgrs m).base, (p.mgrs m).cap, (p.mgrs m).cbs ++ [c]⟩ m').base = (p.mgrs m').base := by
        intro m'; unfold setMgr; split
        · next e => rw [e]
        · rfl
      have hc : ∀ m', (setMgr p.mgrs m ⟨(p.mgrs m).base, (p.mgrs m).cap, (p.mgrs m).cbs ++ [c]⟩ m').cap = (p.mgrs m').cap := by
        intro m'; unfold setMgr; split
        · next e => rw [e]
        · rfl
      constructor
      · intro x y; have := h.sym x y; have := h.sym x (slot ((p.mgrs m).base + (p.mgrs m).cbs.length))
        simp only [put_apply]; grind
      · intro k y; have := h.apart k y; simp only [put_apply]; grind
      · exact hcbs _ _
      · intro m'
        refine ⟨?_, ?_⟩
        · have := hcbs (p.mgrs m).base (p.mgrs m).cap m'
          simp only
          rw [← this, List.length_map, len_append, hc]
          have h1 := (h.cap m').1; have h2 := h.len p A m'
          split
          · next e => rw [e]; omega
          · omega
        · simp only; rw [hb, hc]; exact (h.cap m').2
      · intro m1 m2 hm; simp only; rw [hb, hb, hc, hc]; exact h.disj m1 m2 hm
      · exact uniq_append p A h m c
      · exact lt_append p A h m c
      · intro a r e
        obtain ⟨m', i, c', h1, h2⟩ := h.hold a r e
        refine ⟨m', i, c', putR_get_old A m _ _ _ _ _ h1, ?_⟩
        simp only [put_apply, cl_ne_slot, if_false, hb]; exact h2
      · intro a e; simp only [put_apply, cl_ne_slot, if_false]; exact h.unheld a e
      · intro a e; simp only [put_apply, cl_ne_slot, if_false]; exact h.dead a e
      · intro k
        simp only [put_apply, slot_inj, hb]
        by_cases hk : k = (p.mgrs m).base + (p.mgrs m).cbs.length
        · simp only [hk, if_true]
          refine ⟨fun _ => ⟨m, (p.mgrs m).cbs.length, ?_, rfl⟩, fun _ => by simp⟩
          rw [len_append, if_pos rfl]; omega
        · simp only [hk, if_false]
          rw [h.alive]
          constructor
          · rintro ⟨m', i, hi, e⟩
            refine ⟨m', i, ?_, e⟩
            rw [len_append]; split
            · next e => subst e; omega
            · exact hi
          · rintro ⟨m', i, hi, e⟩
            refine ⟨m', i, ?_, e⟩
            rw [len_append] at hi
            split at hi
            · next e' => subst e'
                         have : i ≠ (A.regs m').length := by rintro rfl; omega
                         omega
            · exact hi
    · simp [put_apply, setMgr, hlen]
  · have hg' : (p.mgrs m).cbs.length = (p.mgrs m).cap := by omega
    have old : ∀ k, p.next ≤ k → p.toks (slot k) = none := by
      intro k hk
      refine Classical.byContradiction fun hn => ?_
      obtain ⟨m', i, hi, e⟩ := (h.alive _).1 hn
      rw [h.len p A m'] at hi
      have := h.cap m'; omega
    have lives : ∀ i, i < (p.mgrs m).cbs.length → p.toks (slot ((p.mgrs m).base + i)) ≠ none := by
      intro i hi; exact (h.alive _).2 ⟨m, i, by omega, rfl⟩
    have f0 := old (p.next + (p.mgrs m).cbs.length) (by omega)
    have s1sym : Sym (p.toks.put (slot (p.next + (p.mgrs m).cbs.length)) (some none)) := by
      intro x y; have := h.sym x y; have := h.sym x (slot (p.next + (p.mgrs m).cbs.length))
      simp only [put_apply]; grind
    have s1apart : Apart (p.toks.put (slot (p.next + (p.mgrs m).cbs.length)) (some none)) := by
      intro k y; have := h.apart k y; simp only [put_apply]; grind
    obtain ⟨s2, e2, R⟩ := relocate_spec (p.mgrs m).cbs.length _ p.next (p.mgrs m).base s1sym s1apart
      (by intro i hi; rw [put_apply, if_neg (by rw [slot_inj]; omega)]; exact lives i hi)
      (by intro i hi; rw [put_apply, if_neg (by rw [slot_inj]; omega)]; exact old _ (by omega))
      (by omega)
    have hnew : s2 (slot (p.next + (p.mgrs m).cbs.length)) = some none := by
      rw [R.slots _ (by intro i hi; omega)]; simp [put_apply]
    refine ⟨⟨s2, setMgr p.mgrs m ⟨p.next, (p.mgrs m).cbs.length + 1 + grow, (p.mgrs m).cbs ++ [c]⟩,
            p.next + ((p.mgrs m).cbs.length + 1 + grow)⟩, slot (p.next + (p.mgrs m).cbs.length), ?_, ?_, ?_, hnew⟩
    · simp only [Prog.register, if_neg hg, Store.create, f0, e2, Store.handle, hnew]
    · have hb : ∀ m', (setMgr p.mgrs m ⟨p.next, (p.mgrs m).cbs.length + 1 + grow, (p.mgrs m).cbs ++ [c]⟩ m').base =
          if m' = m then p.next else (p.mgrs m').base := by
        intro m'; unfold setMgr; split <;> rfl
      have hc : ∀ m', (setMgr p.mgrs m ⟨p.next, (p.mgrs m).cbs.length + 1 + grow, (p.mgrs m).cbs ++ [c]⟩ m').cap =
          if m' = m then (p.mgrs m).cbs.length + 1 + grow else (p.mgrs m').cap := by
        intro m'; unfold setMgr; split <;> rfl
      constructor
      · exact R.sym
      · exact R.apart
      · exact hcbs _ _
      · intro m'
        have e := hcbs p.next ((p.mgrs m).cbs.length + 1 + grow) m'
        simp only
        rw [← e, List.length_map, len_append, hc, hb]
        have h1 := (h.cap m'); have h2 := h.len p A m'
        split <;> omega
      · intro m1 m2 hm
        simp only [hb, hc]
        have := h.disj m1 m2 hm; have := h.cap m1; have := h.cap m2
        split <;> split <;> omega
      · exact uniq_append p A h m c
      · exact lt_append p A h m c
      · intro a r e
        obtain ⟨m', i, c', h1, h2⟩ := h.hold a r e
        refine ⟨m', i, c', putR_get_old A m _ _ _ _ _ h1, ?_⟩
        have hi := idx_lt h1
        simp only [hb]
        by_cases hm : m' = m
        · subst hm
          rw [if_pos rfl]
          exact R.moved a i (by omega) (by rw [put_apply, if_neg (cl_ne_slot _ _)]; exact h2)
        · rw [if_neg hm, R.kept a, put_apply, if_neg (cl_ne_slot _ _)]
          · exact h2
          · intro j hj
            rw [put_apply, if_neg (cl_ne_slot _ _), h2]
            intro e
            rw [Option.some.injEq, Option.some.injEq, slot_inj] at e
            exact hm (h.slot_uniq p A m' m i j hi (by omega) e).1
      · intro a e
        have := h.unheld a e
        simp only
        rw [R.kept a, put_apply, if_neg (cl_ne_slot _ _)]
        · exact this
        · intro j hj; rw [put_apply, if_neg (cl_ne_slot _ _), this]; simp
      · intro a e
        have := h.dead a e
        simp only
        rw [R.kept a, put_apply, if_neg (cl_ne_slot _ _)]
        · exact this
        · intro j hj; rw [put_apply, if_neg (cl_ne_slot _ _), this]; simp
      · intro k
        simp only [hb]
        by_cases h1 : p.next ≤ k
        · by_cases h2 : k < p.next + (p.mgrs m).cbs.length
          · obtain ⟨j, rfl⟩ := Nat.le.dest h1
            rw [R.new j (by omega), put_apply, if_neg (by rw [slot_inj]; omega)]
            refine ⟨fun _ => ⟨m, j, by rw [len_append, if_pos rfl]; omega, by rw [if_pos rfl]⟩, fun _ => lives j (by omega)⟩
          · by_cases h3 : k = p.next + (p.mgrs m).cbs.length
            · subst h3
              rw [hnew]
              exact ⟨fun _ => ⟨m, (p.mgrs m).cbs.length, by rw [len_append, if_pos rfl]; omega, by rw [if_pos rfl]⟩, fun _ => by simp⟩
            · rw [R.slots k (by intro i hi; omega), put_apply, if_neg (by rw [slot_inj]; omega), old k h1]
              simp only [ne_eq, not_true_eq_false, false_iff]
              rintro ⟨m', i, hi, e⟩
              rw [len_append] at hi
              have h5 := h.cap m'; have h6 := h.len p A m'
              split at hi <;> split at e <;> omega
        · by_cases h2 : ∃ i, i < (p.mgrs m).cbs.length ∧ k = (p.mgrs m).base + i
          · obtain ⟨i, hi, rfl⟩ := h2
            rw [R.old i hi]
            simp only [ne_eq, not_true_eq_false, false_iff]
            rintro ⟨m', j, hj, e⟩
            rw [len_append] at hj
            split at e
            · omega
            · next hm =>
              rw [if_neg hm] at hj
              exact hm (h.slot_uniq p A m' m j i hj (by omega) e.symm).1
          · rw [R.slots k (by intro i hi; exact ⟨by omega, fun e => h2 ⟨i, hi, e⟩⟩), put_apply, if_neg (by rw [slot_inj]; omega), h.alive]
            constructor
            · rintro ⟨m', i, hi, e⟩
              have hm : m' ≠ m := by rintro rfl; exact h2 ⟨i, by omega, e⟩
              exact ⟨m', i, by rw [len_append, if_neg hm]; exact hi, by rw [if_neg hm]; exact e⟩
            · rintro ⟨m', i, hi, e⟩
              have hm : m' ≠ m := by rintro rfl; rw [if_pos rfl] at e; omega
              rw [len_append, if_neg hm] at hi; rw [if_neg hm] at e
              exact ⟨m', i, hi, e⟩
    · simp [setMgr, hlen]

theorem sim_registerDrop (m c grow : Nat) :
    ∃ q, exec p (.registerDrop m c grow) = some (q, .nothing) ∧
      Rel q ⟨putR A.regs m (A.regs m ++ [(A.nextReg, c)]), A.holds, A.nextReg + 1⟩ := by
  obtain ⟨q, t, e, hq, _⟩ := sim_reg p A h m c grow
  exact ⟨q, by simp [exec, e], hq⟩

omit h in
theorem last_append (m : Nat) (x : Nat × Nat) : (putR A.regs m (A.regs m ++ [x]) m)[(A.regs m).length]? = some x := by
  simp [putR]

theorem sim_register (m c grow a : Nat) (hl : A.holds a = none) :
    ∃ q, exec p (.register m c grow a) = some (q, .nothing) ∧
      Rel q ⟨putR A.regs m (A.regs m ++ [(A.nextReg, c)]), put A.holds a (some (some A.nextReg)), A.nextReg + 1⟩ := by
  obtain ⟨q, t, e, hq, ht, hn⟩ := sim_reg p A h m c grow
  have ha : q.toks (cl a) = none := hq.dead a hl
  have e2 := fromHandle_eq q.toks (cl a) t ha hn
  have nt : ∀ b, q.toks (cl b) ≠ some (some t) := by
    intro b e; rw [hq.sym _ _ e] at hn; cases hn
  refine ⟨_, by simp only [exec, e, e2, Option.map_some]; rfl, ?_⟩
  have hlast := last_append A m (A.nextReg, c)
  refine hq.relink q _ _ _ ?_ ?_ ?_ ?_ ?_ ?_ ?_
  · exact sym_fromHandle _ _ hq.sym (cl a) t ha hn e2
  · intro k y; have := hq.apart k y; simp only [slot_ne_cl, if_false]; grind
  · intro b; have := hq.dead b; simp only [cl_inj, put, ht, cl_ne_slot, if_false]; grind
  · intro b; have := hq.unheld b; simp only [cl_inj, put, ht, cl_ne_slot, if_false]; grind
  · intro b m' i r c' h1 h2
    have h3 := hq.mate_holds q _ b m' i r c' h2
    simp only [put] at h1
    by_cases hb : b = a
    · subst hb
      rw [if_pos rfl] at h1
      cases h1
      obtain ⟨rfl, rfl⟩ := hq.uniq _ _ _ _ _ _ _ hlast h2
      simp only [if_true, ht]
    · rw [if_neg hb] at h1
      simp only [cl_inj, hb, ht, cl_ne_slot, if_false]
      exact h3.2 h1
  · intro b r h1
    simp only [put] at h1
    by_cases hb : b = a
    · rw [if_pos hb] at h1; cases h1; exact ⟨_, _, _, hlast⟩
    · rw [if_neg hb] at h1; exact hq.has q _ b r h1
  · intro k; simp only [slot_ne_cl, if_false]; grind

theorem sim_registerAssign (m c grow a : Nat) (hl : A.holds a ≠ none) :
    ∃ q, exec p (.registerAssign m c grow a) = some (q, .nothing) ∧
      Rel q ⟨putR A.regs m (A.regs m ++ [(A.nextReg, c)]), put A.holds a (some (some A.nextReg)), A.nextReg + 1⟩ := by
  obtain ⟨q, t, e, hq, ht, hn⟩ := sim_reg p A h m c grow
  have ha : q.toks (cl a) ≠ none := fun e => hl ((hq.dead_iff q _ a).2 e)
  have e2 := assignHandle_eq q.toks hq.sym (cl a) t ha hn
  refine ⟨_, by simp only [exec, e, e2, Option.map_some]; rfl, ?_⟩
  have hlast := last_append A m (A.nextReg, c)
  refine hq.relink q _ _ _ ?_ ?_ ?_ ?_ ?_ ?_ ?_
  · exact sym_assignHandle _ _ hq.sym (cl a) t ha hn e2
  · intro k y; have := hq.apart k y; simp only [slot_ne_cl, if_false]; grind
  · intro b; have := hq.dead b; simp only [cl_inj, put, ht, cl_ne_slot, if_false, hq.not_cl]; grind
  · intro b; have := hq.unheld b; simp only [cl_inj, put, ht, cl_ne_slot, if_false, hq.not_cl]; grind
  · intro b m' i r c' h1 h2
    have h3 := hq.mate_holds q _ b m' i r c' h2
    simp only [put] at h1
    by_cases hb : b = a
    · subst hb
      rw [if_pos rfl] at h1
      cases h1
      obtain ⟨rfl, rfl⟩ := hq.uniq _ _ _ _ _ _ _ hlast h2
      simp only [if_true, ht]
    · rw [if_neg hb] at h1
      simp only [cl_inj, hb, ht, cl_ne_slot, if_false, hq.not_cl]
      exact h3.2 h1
  · intro b r h1
    simp only [put] at h1
    by_cases hb : b = a
    · rw [if_pos hb] at h1; cases h1; exact ⟨_, _, _, hlast⟩
    · rw [if_neg hb] at h1; exact hq.has q _ b r h1
  · intro k
    simp only [slot_ne_cl, if_false]
    have : q.toks (cl a) = some (some (slot k)) → q.toks (slot k) ≠ none := fun e => by rw [hq.sym _ _ e]; simp
    grind

/-! ### Erasure of one registration -/

theorem holder_unique (a b r : Nat) (ha : A.holds a = some (some r)) (hb : A.holds b = some (some r)) : a = b := by
  obtain ⟨m, i, c, h1, h2⟩ := h.hold a r ha
  have h3 := (h.mate_holds p A b m i r c h1).2 hb
  have e1 := h.sym _ _ h2
  rw [h.sym _ _ h3] at e1
  rw [Option.some.injEq, Option.some.injEq, cl_inj] at e1
  exact e1.symm

/-- The holders of a registration lose it. -/
def drop1 (A : Abs) (r : Nat) : Nat → Option (Option Nat) := fun a => if A.holds a = some (some r) then some none else A.holds a

theorem sim_erase (m i r c : Nat) (hi : (A.regs m)[i]? = some (r, c)) :
    ∃ q, p.erase m i = some q ∧ Rel q ⟨putR A.regs m ((A.regs m).eraseIdx i), drop1 A r, A.nextReg⟩ ∧
      (q.mgrs m).base = (p.mgrs m).base := by
  have hlen := h.len p A m
  have hcap := h.cap m
  have hil := idx_lt hi
  obtain ⟨s', e, E⟩ := eraseTok_spec ((p.mgrs m).cbs.length - 1 - i) p.toks ((p.mgrs m).base + i) h.sym h.apart
    (by intro k h1 h2; exact (h.alive k).2 ⟨m, k - (p.mgrs m).base, by omega, by omega⟩)
  refine ⟨⟨s', setMgr p.mgrs m ⟨(p.mgrs m).base, (p.mgrs m).cap, (p.mgrs m).cbs.eraseIdx i⟩, p.next⟩, ?_, ?_, ?_⟩
  · simp only [Prog.erase, e]
  · have hb : ∀ m', (setMgr p.mgrs m ⟨(p.mgrs m).base, (p.mgrs m).cap, (p.mgrs m).cbs.eraseIdx i⟩ m').base = (p.mgrs m').base := by
      intro m'; unfold setMgr; split
      · next e => rw [e]
      · rfl
    have hc : ∀ m', (setMgr p.mgrs m ⟨(p.mgrs m).base, (p.mgrs m).cap, (p.mgrs m).cbs.eraseIdx i⟩ m').cap = (p.mgrs m').cap := by
      intro m'; unfold setMgr; split
      · next e => rw [e]
      · rfl
    have hl : ∀ m', (putR A.regs m ((A.regs m).eraseIdx i) m').length = if m' = m then (A.regs m).length - 1 else (A.regs m').length := by
      intro m'; unfold putR; split
      · next e => rw [List.length_eraseIdx_of_lt hil]
      · rfl
    have hcb : ∀ m', (putR A.regs m ((A.regs m).eraseIdx i) m').map Prod.snd =
        (setMgr p.mgrs m ⟨(p.mgrs m).base, (p.mgrs m).cap, (p.mgrs m).cbs.eraseIdx i⟩ m').cbs := by
      intro m'
      unfold putR setMgr
      split
      · simp only [← h.cbs m, List.eraseIdx_eq_take_drop_succ, List.map_append, List.map_take, List.map_drop]
      · exact h.cbs m'
    -- the entries that remain were there before
    have hget : ∀ m' j x, (putR A.regs m ((A.regs m).eraseIdx i) m')[j]? = some x ↔
        (A.regs m')[if m' = m ∧ i ≤ j then j + 1 else j]? = some x := by
      intro m' j x
      unfold putR
      by_cases hm : m' = m
      · subst hm
        simp only [if_true, true_and, List.getElem?_eraseIdx]
        by_cases hj : j < i
        · rw [if_pos hj, if_neg (by omega)]
        · rw [if_neg hj, if_pos (by omega)]
      · simp only [hm, if_false, false_and]
    constructor
    · exact E.sym
    · exact E.apart
    · exact hcb
    · intro m'
      have h1 := h.cap m'; have h2 := h.len p A m'
      refine ⟨?_, by simp only; rw [hb, hc]; exact h1.2⟩
      simp only
      rw [← hcb, List.length_map, hl, hc]
      split
      · next e => subst e; omega
      · omega
    · intro m1 m2 hm; simp only; rw [hb, hb, hc, hc]; exact h.disj m1 m2 hm
    · intro m1 m2 j1 j2 r' c1 c2 g1 g2
      rw [hget] at g1 g2
      obtain ⟨rfl, e⟩ := h.uniq _ _ _ _ _ _ _ g1 g2
      refine ⟨rfl, ?_⟩
      split at e <;> split at e <;> omega
    · intro m' r' c' hr
      obtain ⟨j, hj⟩ := List.getElem?_of_mem hr
      rw [hget] at hj
      exact h.lt _ _ _ (List.mem_of_getElem? hj)
    · intro a r' ha
      simp only [drop1] at ha
      by_cases hr : A.holds a = some (some r)
      · simp [hr] at ha
      · rw [if_neg hr] at ha
        obtain ⟨m', j, c', h1, h2⟩ := h.hold a r' ha
        have hj := idx_lt h1
        by_cases hm : m' = m
        · subst hm
          by_cases hji : j < i
          · refine ⟨m', j, c', (hget _ _ _).2 (by rw [if_neg (by omega)]; exact h1), ?_⟩
            simp only [hb]
            rw [E.kept a, h2]
            intro k k1 k2
            rw [h2, Ne, Option.some.injEq, Option.some.injEq, slot_inj]; omega
          · by_cases hji' : j = i
            · subst hji'; rw [hi] at h1; cases h1; exact absurd ha hr
            · refine ⟨m', j - 1, c', (hget _ _ _).2 (by rw [if_pos ⟨rfl, by omega⟩, show j - 1 + 1 = j from by omega]; exact h1), ?_⟩
              simp only [hb]
              rw [E.moved a ((p.mgrs m').base + j) (by omega) (by omega) h2, Option.some.injEq, Option.some.injEq, slot_inj]; omega
        · refine ⟨m', j, c', (hget _ _ _).2 (by rw [if_neg (by intro e; exact hm e.1)]; exact h1), ?_⟩
          simp only [hb]
          rw [E.kept a, h2]
          intro k k1 k2
          rw [h2, Ne, Option.some.injEq, Option.some.injEq, slot_inj]
          intro e
          exact hm (h.slot_uniq p A m' m j (k - (p.mgrs m).base) hj (by omega) (by omega)).1
    · intro a ha
      simp only [drop1] at ha
      by_cases hr : A.holds a = some (some r)
      · exact E.first a ((h.mate_holds p A a m i r c hi).2 hr)
      · rw [if_neg hr] at ha
        have := h.unheld a ha
        simp only
        rw [E.kept a, this]
        intro k _ _; rw [this]; simp
    · intro a ha
      simp only [drop1] at ha
      by_cases hr : A.holds a = some (some r)
      · simp [hr] at ha
      · rw [if_neg hr] at ha
        have := h.dead a ha
        simp only
        rw [E.kept a, this]
        intro k _ _; rw [this]; simp
    · intro k
      simp only [hb]
      rw [E.slots]
      by_cases k1 : k = (p.mgrs m).base + i + ((p.mgrs m).cbs.length - 1 - i)
      · rw [if_pos k1]
        simp only [ne_eq, not_true_eq_false, false_iff]
        rintro ⟨m', j, hj, e⟩
        rw [hl] at hj
        by_cases hm : m' = m
        · subst hm; rw [if_pos rfl] at hj; omega
        · rw [if_neg hm] at hj
          exact hm (h.slot_uniq p A m' m j ((p.mgrs m).cbs.length - 1) hj (by omega) (by omega)).1
      · rw [if_neg k1]
        by_cases k2 : (p.mgrs m).base + i ≤ k ∧ k < (p.mgrs m).base + i + ((p.mgrs m).cbs.length - 1 - i)
        · rw [if_pos k2]
          refine ⟨fun _ => ⟨m, k - (p.mgrs m).base, by rw [hl, if_pos rfl]; omega, by omega⟩, fun _ => ?_⟩
          exact (h.alive _).2 ⟨m, k + 1 - (p.mgrs m).base, by omega, by omega⟩
        · rw [if_neg k2, h.alive]
          constructor
          · rintro ⟨m', j, hj, e⟩
            refine ⟨m', j, ?_, e⟩
            rw [hl]; split
            · next e' => subst e'; omega
            · exact hj
          · rintro ⟨m', j, hj, e⟩
            refine ⟨m', j, ?_, e⟩
            rw [hl] at hj; split at hj
            · next e' => subst e'; omega
            · exact hj
  · simp [setMgr]

/-! ### Unregistration -/

omit h in
open Classical in
theorem filter_eraseIdx (l : List (Nat × Nat)) (i r c : Nat) (hi : l[i]? = some (r, c))
    (hu : ∀ j c', l[j]? = some (r, c') → j = i) : l.filter (fun x => decide (x.1 ≠ r)) = l.eraseIdx i := by
  induction l generalizing i with
  | nil => simp at hi
  | cons x l ih =>
    cases i with
    | zero =>
      simp only [List.getElem?_cons_zero, Option.some.injEq] at hi
      subst hi
      simp only [List.eraseIdx_zero, List.tail_cons]
      rw [List.filter_cons, if_neg (by simp), List.filter_eq_self]
      intro y hy
      obtain ⟨j, hj⟩ := List.getElem?_of_mem hy
      rw [decide_eq_true_iff]
      intro e
      have := hu (j + 1) y.2 (by rw [List.getElem?_cons_succ, hj, ← e])
      omega
    | succ i =>
      rw [List.getElem?_cons_succ] at hi
      rw [List.eraseIdx_cons_succ, List.filter_cons, if_pos, ih i hi]
      · intro j c' e; have := hu (j + 1) c' (by rw [List.getElem?_cons_succ]; exact e); omega
      · rw [decide_eq_true_iff]
        intro e
        have := hu 0 x.2 (by rw [List.getElem?_cons_zero, ← e])
        omega

theorem paired_iff (m i r c a : Nat) (hi : (A.regs m)[i]? = some (r, c)) :
    p.toks.isPairedWith (slot ((p.mgrs m).base + i)) (cl a) = true ↔ A.holds a = some (some r) := by
  rw [← h.mate_holds p A a m i r c hi]
  simp only [Store.isPairedWith, decide_eq_true_iff]
  exact ⟨fun e => h.sym _ _ e, fun e => h.sym _ _ e⟩

theorem sim_unregister (m a : Nat) :
    ∃ q, exec p (.unregister m a) = some (q, (A.exec (.unregister m a)).2) ∧ Rel q (A.exec (.unregister m a)).1 := by
  have hlen := h.len p A m
  simp only [exec, Prog.unregister, Abs.exec]
  cases hf : (List.range (p.mgrs m).cbs.length).find? fun i => p.toks.isPairedWith (slot ((p.mgrs m).base + i)) (cl a) with
  | none =>
    rw [if_neg]
    · exact ⟨p, rfl, h⟩
    · rintro ⟨r, c, h1, h2⟩
      obtain ⟨i, hi⟩ := List.getElem?_of_mem h2
      have := List.find?_eq_none.1 hf i (List.mem_range.2 (by have := idx_lt hi; omega))
      exact this ((paired_iff p A h m i r c a hi).2 h1)
  | some i =>
    have h1 := List.find?_some hf
    have h2 := List.mem_range.1 (List.mem_of_find?_eq_some hf)
    obtain ⟨⟨r, c⟩, hx⟩ : ∃ x, (A.regs m)[i]? = some x := ⟨_, List.getElem?_eq_getElem (by omega)⟩
    have ha := (paired_iff p A h m i r c a hx).1 h1
    obtain ⟨q, e, hq, _⟩ := sim_erase p A h m i r c hx
    rw [if_pos ⟨r, c, ha, List.mem_of_getElem? hx⟩]
    refine ⟨q, by simp only [e], ?_⟩
    have e1 : put A.holds a (some none) = drop1 A r := by
      funext b
      unfold put drop1
      by_cases hb : b = a
      · subst hb; rw [if_pos rfl, if_pos ha]
      · rw [if_neg hb, if_neg]
        intro e; exact hb (holder_unique p A h b a r e ha)
    have e2 : ((A.regs m).filter fun x => decide (A.holds a ≠ some (some x.1))) = (A.regs m).eraseIdx i := by
      rw [← filter_eraseIdx (A.regs m) i r c hx (fun j c' e => (h.uniq m m j i r c' c e hx).2)]
      congr 1; funext x
      rw [ha]
      by_cases hxr : x.1 = r
      · simp [hxr]
      · have : r ≠ x.1 := fun e => hxr e.symm
        simp [hxr, this]
    simp only
    rw [e1]
    rw [← e2] at hq
    exact hq

/-! ### Run -/

omit h in
open Classical in
theorem sim_runLoop (fuel : Nat) : ∀ (p : Prog) (A : Abs) (_ : Rel p A) (m i : Nat), (A.regs m).length ≤ i + fuel →
    ∃ q, p.runLoop m i fuel = some (q, (((A.regs m).drop i).filter fun x => decide (A.held x.1)).map Prod.snd) ∧
      Rel q ⟨putR A.regs m ((A.regs m).take i ++ ((A.regs m).drop i).filter fun x => decide (A.held x.1)), A.holds, A.nextReg⟩ := by
  have putR_self : ∀ (f : Nat → List (Nat × Nat)) m, putR f m (f m) = f := by
    intro f m; funext k; unfold putR; split
    · next e => rw [e]
    · rfl
  induction fuel with
  | zero =>
    intro p A h m i hf
    have hlen := h.len p A m
    refine ⟨p, ?_, ?_⟩
    · unfold Prog.runLoop
      rw [if_neg (by omega), List.drop_eq_nil_of_le (by omega)]; rfl
    · rw [List.drop_eq_nil_of_le (by omega), List.take_of_length_le (by omega)]
      simp only [List.filter_nil, List.append_nil, putR_self]
      exact h
  | succ fuel ih =>
    intro p A h m i hf
    have hlen := h.len p A m
    unfold Prog.runLoop
    cases hx : (A.regs m)[i]? with
    | none =>
      have hge : (A.regs m).length ≤ i := List.getElem?_eq_none_iff.1 hx
      have : (p.mgrs m).cbs[i]? = none := List.getElem?_eq_none_iff.2 (by omega)
      rw [this]
      refine ⟨p, ?_, ?_⟩
      · rw [List.drop_eq_nil_of_le hge]; rfl
      · rw [List.drop_eq_nil_of_le hge, List.take_of_length_le hge]
        simp only [List.filter_nil, List.append_nil, putR_self]
        exact h
    | some x =>
      obtain ⟨r, c⟩ := x
      have hil := idx_lt hx
      have hc : (p.mgrs m).cbs[i]? = some c := by rw [← h.cbs, List.getElem?_map, hx]; rfl
      have hdrop : (A.regs m).drop i = (r, c) :: (A.regs m).drop (i + 1) := by
        rw [List.drop_eq_getElem_cons hil]
        rw [List.getElem?_eq_getElem hil] at hx
        simp only [Option.some.injEq] at hx
        rw [hx]
      have htake : (A.regs m).take (i + 1) = (A.regs m).take i ++ [(r, c)] := by
        rw [List.take_add_one, hx]; rfl
      rw [hc]
      simp only
      by_cases hh : A.held r
      · rw [if_pos ((h.held_iff p A m i r c hx).1 hh)]
        obtain ⟨q, e, hq⟩ := ih p A h m (i + 1) (by omega)
        refine ⟨q, ?_, ?_⟩
        · rw [e, hdrop, List.filter_cons, if_pos (by simpa using hh)]
          rfl
        · rw [hdrop, List.filter_cons, if_pos (by simpa using hh)]
          rw [htake] at hq
          simpa using hq
      · rw [if_neg (fun e => hh ((h.held_iff p A m i r c hx).2 e))]
        obtain ⟨q, e, hq, _⟩ := sim_erase p A h m i r c hx
        rw [e]
        have e1 : drop1 A r = A.holds := by
          funext a; unfold drop1; rw [if_neg]; intro e; exact hh ⟨a, e⟩
        rw [e1] at hq
        have hm : putR A.regs m ((A.regs m).eraseIdx i) m = (A.regs m).eraseIdx i := by simp [putR]
        obtain ⟨q', e', hq'⟩ := ih q _ hq m i (by
          show (putR A.regs m ((A.regs m).eraseIdx i) m).length ≤ _
          rw [hm, List.length_eraseIdx_of_lt hil]; omega)
        have hd : ((A.regs m).eraseIdx i).drop i = (A.regs m).drop (i + 1) := by
          rw [List.eraseIdx_eq_take_drop_succ, List.drop_append_of_le_length (by simp; omega), List.drop_take]
          simp
        have ht : ((A.regs m).eraseIdx i).take i = (A.regs m).take i := by
          rw [List.eraseIdx_eq_take_drop_succ, List.take_append_of_le_length (by simp; omega), List.take_take, Nat.min_self]
        have hp : ∀ y, putR (putR A.regs m ((A.regs m).eraseIdx i)) m y = putR A.regs m y := by
          intro y; funext k; unfold putR; split <;> rfl
        have hh' : ∀ g, Abs.held ⟨putR A.regs m ((A.regs m).eraseIdx i), A.holds, A.nextReg⟩ g ↔ A.held g := fun _ => Iff.rfl
        simp only [hm, hd, ht, hp, hh'] at e' hq'
        simp only
        refine ⟨q', ?_, ?_⟩
        · rw [e', hdrop, List.filter_cons, if_neg (by simpa using hh)]
        · rw [hdrop, List.filter_cons, if_neg (by simpa using hh)]; exact hq'

theorem sim_run (m : Nat) :
    ∃ q, exec p (.run m) = some (q, (A.exec (.run m)).2) ∧ Rel q (A.exec (.run m)).1 := by
  have hlen := h.len p A m
  obtain ⟨q, e, hq⟩ := sim_runLoop (p.mgrs m).cbs.length p A h m 0 (by omega)
  refine ⟨q, ?_, ?_⟩
  · simp only [exec, Prog.run, e, Option.map_some, List.drop_zero, Abs.exec]
  · simpa [Abs.exec] using hq

/-! ### Destruction of a manager -/

theorem sim_destroyMgr (m : Nat) :
    ∃ q, exec p (.destroyMgr m) = some (q, (A.exec (.destroyMgr m)).2) ∧ Rel q (A.exec (.destroyMgr m)).1 := by
  have hlen := h.len p A m
  have hcap := h.cap m
  obtain ⟨s', e, E⟩ := destroyToks_spec (p.mgrs m).cbs.length p.toks (p.mgrs m).base h.sym h.apart
    (by intro k h1 h2; exact (h.alive k).2 ⟨m, k - (p.mgrs m).base, by omega, by omega⟩)
  refine ⟨⟨s', setMgr p.mgrs m ⟨(p.mgrs m).base, (p.mgrs m).cap, []⟩, p.next⟩, ?_, ?_⟩
  · simp only [exec, Prog.destroyMgr, e, Option.map_some, Abs.exec]
  · have hb : ∀ m', (setMgr p.mgrs m ⟨(p.mgrs m).base, (p.mgrs m).cap, []⟩ m').base = (p.mgrs m').base := by
      intro m'; unfold setMgr; split
      · next e => rw [e]
      · rfl
    have hc : ∀ m', (setMgr p.mgrs m ⟨(p.mgrs m).base, (p.mgrs m).cap, []⟩ m').cap = (p.mgrs m').cap := by
      intro m'; unfold setMgr; split
      · next e => rw [e]
      · rfl
    have hget : ∀ (m' j : Nat) (x : Nat × Nat), (putR A.regs m [] m')[j]? = some x ↔ m' ≠ m ∧ (A.regs m')[j]? = some x := by
      intro m' j x; unfold putR; by_cases hm : m' = m <;> simp [hm]
    have kept : ∀ (a m' j r c : Nat), A.holds a = some (some r) → (A.regs m')[j]? = some (r, c) → m' ≠ m → s' (cl a) = p.toks (cl a) := by
      intro a m' j r c ha hj hm
      have h2 := (h.mate_holds p A a m' j r c hj).2 ha
      rw [E.kept a]
      intro k k1 k2
      rw [h2, Ne, Option.some.injEq, Option.some.injEq, slot_inj]
      intro e
      exact hm (h.slot_uniq p A m' m j (k - (p.mgrs m).base) (idx_lt hj) (by omega) (by omega)).1
    simp only [Abs.exec]
    constructor
    · exact E.sym
    · exact E.apart
    · intro m'
      simp only
      unfold putR setMgr; split
      · rfl
      · exact h.cbs m'
    · intro m'
      simp only
      rw [hb, hc]
      refine ⟨?_, (h.cap m').2⟩
      unfold setMgr; split
      · simp
      · exact (h.cap m').1
    · intro m1 m2 hm; simp only; rw [hb, hb, hc, hc]; exact h.disj m1 m2 hm
    · intro m1 m2 j1 j2 r' c1 c2 g1 g2
      rw [hget] at g1 g2
      exact h.uniq _ _ _ _ _ _ _ g1.2 g2.2
    · intro m' r' c' hr
      obtain ⟨j, hj⟩ := List.getElem?_of_mem hr
      rw [hget] at hj
      exact h.lt _ _ _ (List.mem_of_getElem? hj.2)
    · intro a r ha
      simp only at ha
      split at ha
      · cases ha
      · next hn =>
        obtain ⟨m', j, c', h1, h2⟩ := h.hold a r ha
        have hm : m' ≠ m := by rintro rfl; exact hn ⟨r, c', ha, List.mem_of_getElem? h1⟩
        refine ⟨m', j, c', (hget _ _ _).2 ⟨hm, h1⟩, ?_⟩
        simp only [hb]
        rw [kept a m' j r c' ha h1 hm, h2]
    · intro a ha
      simp only at ha
      split at ha
      · next hy =>
        obtain ⟨r, c, h1, h2⟩ := hy
        obtain ⟨j, hj⟩ := List.getElem?_of_mem h2
        have hjl := idx_lt hj
        exact E.freed a ((p.mgrs m).base + j) (by omega) (by omega) ((h.mate_holds p A a m j r c hj).2 h1)
      · have := h.unheld a ha
        simp only
        rw [E.kept a, this]
        intro k _ _; rw [this]; simp
    · intro a ha
      simp only at ha
      split at ha
      · cases ha
      · have := h.dead a ha
        simp only
        rw [E.kept a, this]
        intro k _ _; rw [this]; simp
    · intro k
      simp only [hb]
      rw [E.slots]
      by_cases hk : (p.mgrs m).base ≤ k ∧ k < (p.mgrs m).base + (p.mgrs m).cbs.length
      · rw [if_pos hk]
        simp only [ne_eq, not_true_eq_false, false_iff]
        rintro ⟨m', j, hj, e⟩
        unfold putR at hj
        split at hj
        · simp at hj
        · next hm => exact hm (h.slot_uniq p A m' m j (k - (p.mgrs m).base) hj (by omega) (by omega)).1
      · rw [if_neg hk, h.alive]
        constructor
        · rintro ⟨m', j, hj, e⟩
          have hm : m' ≠ m := by rintro rfl; omega
          exact ⟨m', j, by simp only [putR, hm, if_false]; exact hj, e⟩
        · rintro ⟨m', j, hj, e⟩
          unfold putR at hj
          split at hj
          · simp at hj
          · exact ⟨m', j, hj, e⟩

/-- Every operation of the code does what the specification says. -/
theorem sim (o : Op) (hl : A.legal o) : ∃ q, exec p o = some (q, (A.exec o).2) ∧ Rel q (A.exec o).1 := by
  cases o with
  | create a => exact sim_create p A h a hl
  | register m c g a => exact sim_register p A h m c g a hl
  | registerAssign m c g a => exact sim_registerAssign p A h m c g a hl
  | registerDrop m c g => exact sim_registerDrop p A h m c g
  | moveCtor a b => exact sim_moveCtor p A h a b hl.1 hl.2
  | moveAssign a b => exact sim_moveAssign p A h a b hl.1 hl.2
  | destroy a => exact sim_destroy p A h a hl
  | unregister m a => exact sim_unregister p A h m a
  | run m => exact sim_run p A h m
  | destroyMgr m => exact sim_destroyMgr p A h m

end

theorem sim_all (A B : Abs) (l : List Op) (r : List Out) (ht : Hist A l r B) (p : Prog) (h : Rel p A) :
    ∃ q, execAll p l = some (q, r) ∧ Rel q B := by
  induction ht generalizing p with
  | nil A => exact ⟨p, rfl, h⟩
  | cons A B o l r hl t ih =>
    obtain ⟨q, e, hq⟩ := sim p A h o hl
    obtain ⟨q', e', hq'⟩ := ih q hq
    exact ⟨q', by simp only [execAll, e, e'], hq'⟩

/-! ## Theorems -/

/-- **C30, refinement.** For every legal history of constructions, registrations, moves, destructions, unregistrations, runs and
destructions of managers, whatever the allocations, the code has no undefined behaviour and is observed to do what the specification
says: the registrations run are exactly those that are held by a living token, each once, in the order of registration, those that are
no longer held are forgotten, unregistration removes exactly one registration or throws, and the destruction of a manager leaves all
tokens valid and unpaired. -/
theorem C30_refines (l : List Op) (r : List Out) (B : Abs) (ht : Hist Abs.empty l r B) :
    ∃ q, execAll Prog.empty l = some (q, r) := by
  obtain ⟨q, e, _⟩ := sim_all _ _ _ _ ht _ rel_empty
  exact ⟨q, e⟩

/-- States of the program after a legal history -/
def Reach (p : Prog) : Prop := ∃ l r B, Hist Abs.empty l r B ∧ execAll Prog.empty l = some (p, r)

theorem reach_rel (p : Prog) (h : Reach p) : ∃ A, Rel p A := by
  obtain ⟨l, r, B, ht, e⟩ := h
  obtain ⟨q, e', hq⟩ := sim_all _ _ _ _ ht _ rel_empty
  rw [e] at e'
  cases e'
  exact ⟨B, hq⟩

/-- `isPaired` of a token of a user tells exactly whether the token holds a registration of a living manager. -/
theorem C30_isPaired (l : List Op) (r : List Out) (B : Abs) (ht : Hist Abs.empty l r B) (q : Prog)
    (e : execAll Prog.empty l = some (q, r)) (a : Nat) :
    q.toks.isPaired (cl a) = true ↔ ∃ g m c, B.holds a = some (some g) ∧ (g, c) ∈ B.regs m := by
  obtain ⟨q', e', h⟩ := sim_all _ _ _ _ ht _ rel_empty
  rw [e] at e'; cases e'
  constructor
  · intro hp
    cases ht : q.toks (cl a) with
    | none => simp [Store.isPaired, ht] at hp
    | some x =>
      cases x with
      | none => simp [Store.isPaired, ht] at hp
      | some y =>
        obtain ⟨m, i, g, c, h1, _, h3⟩ := h.mate q B a y ht
        exact ⟨g, m, c, h3, List.mem_of_getElem? h1⟩
  · rintro ⟨g, m, c, h1, h2⟩
    obtain ⟨m', i, c', _, h4⟩ := h.hold a g h1
    simp [Store.isPaired, h4]

/-! ### Consequences read off the specification -/

/-- A registration is invoked by a run iff its token is alive; the number of invocations is the number of such registrations, in order. -/
theorem C30_run_observes (p : Prog) (A : Abs) (h : Rel p A) (m : Nat) :
    ∃ q tr, p.run m = some (q, tr) ∧ (∃ keep : List (Nat × Nat), keep.Sublist (A.regs m) ∧ keep.map Prod.snd = tr ∧
      ∀ x ∈ A.regs m, x ∈ keep ↔ A.held x.1) := by
  classical
  obtain ⟨q, e, _⟩ := sim_run p A h m
  simp only [exec, Abs.exec] at e
  cases hr : p.run m with
  | none => rw [hr] at e; cases e
  | some x =>
    rw [hr] at e
    simp only [Option.map_some, Option.some.injEq, Prod.mk.injEq, Out.called.injEq] at e
    refine ⟨x.1, x.2, rfl, _, List.filter_sublist (p := fun x => decide (A.held x.1)), ?_, ?_⟩
    · rw [e.2]
    · intro y hy; simp [List.mem_filter, hy]

/-- Running twice in a row invokes the same callbacks. -/
theorem C30_run_twice (p : Prog) (h : Reach p) (m : Nat) : ∃ q tr, p.run m = some (q, tr) ∧ ∃ q', q.run m = some (q', tr) := by
  obtain ⟨A, hA⟩ := reach_rel p h
  obtain ⟨q, e, hq⟩ := sim_run p A hA m
  obtain ⟨q', e', _⟩ := sim_run q _ hq m
  simp only [exec, Abs.exec, Abs.held] at e e'
  cases hr : p.run m with
  | none => rw [hr] at e; cases e
  | some x =>
    rw [hr] at e
    simp only [Option.map_some, Option.some.injEq, Prod.mk.injEq, Out.called.injEq] at e
    cases hr' : q.run m with
    | none => rw [hr'] at e'; cases e'
    | some x' =>
      rw [hr'] at e'
      simp only [Option.map_some, Option.some.injEq, Prod.mk.injEq, Out.called.injEq] at e'
      refine ⟨x.1, x.2, rfl, x'.1, ?_⟩
      rw [e.1, hr', e.2]
      have : x'.2 = x.2 := by
        rw [e'.2, e.2]
        simp only [putR, if_true, List.filter_filter]
        congr 1
        apply List.filter_congr
        intro y _
        by_cases hy : ∃ a, A.holds a = some (some y.1) <;> simp [hy]
      rw [← e.2, ← this]

/-- The handle returned by a registration is valid only until the next registration in the same manager: after a second registration
that makes the vector grow, converting the first handle writes to memory that was given back. -/
theorem C30_dangling_handle : ∃ p1 t1 p2 t2, Prog.empty.register 0 7 0 = some (p1, t1) ∧ p1.register 0 8 0 = some (p2, t2) ∧
    p2.toks.fromHandle (cl 0) t1 = none ∧ (p2.toks.fromHandle (cl 0) t2).isSome = true := by
  refine ⟨_, _, _, _, rfl, rfl, rfl, rfl⟩

/-- Non-vacuity: two managers, five registrations (one dropped), a move, a destruction, an unregistration from the wrong manager and
from the right one, runs, and the destruction of a manager. -/
def demo : List Op :=
  [.register 0 10 0 0, .register 0 11 0 1, .register 0 12 1 2, .registerDrop 0 13 0, .register 1 20 0 3, .run 0, .moveCtor 4 1, .destroy 0,
    .run 0, .unregister 1 4, .unregister 0 4, .run 0, .destroyMgr 1, .run 1, .destroy 3, .destroy 4]

example : (execAll Prog.empty demo).map Prod.snd = some [.nothing, .nothing, .nothing, .nothing, .nothing, .called [10, 11, 12], .nothing,
    .nothing, .called [11, 12], .exception, .nothing, .called [12], .nothing, .called [], .nothing, .nothing] := by
  rfl

theorem ex_hist : ∃ r B, Hist Abs.empty [.register 0 10 0 0, .register 0 11 0 1, .moveCtor 2 0, .run 0, .destroy 1, .run 0, .moveAssign 2 2, .unregister 0 2] r B :=
  ⟨_, _, .cons _ _ _ _ _ (by simp [Abs.legal, Abs.empty]) <| .cons _ _ _ _ _ (by simp [Abs.legal, Abs.exec, Abs.empty, put]) <|
    .cons _ _ _ _ _ (by simp [Abs.legal, Abs.exec, Abs.empty, put]) <| .cons _ _ _ _ _ trivial <|
    .cons _ _ _ _ _ (by simp [Abs.legal, Abs.exec, Abs.empty, put]) <| .cons _ _ _ _ _ trivial <|
    .cons _ _ _ _ _ (by simp [Abs.legal, Abs.exec, Abs.empty, put]) <| .cons _ _ _ _ _ (by simp [Abs.legal, Abs.exec, Abs.empty, put]) <|
    .nil _⟩

example : ∃ q r, execAll Prog.empty [.register 0 10 0 0, .register 0 11 0 1, .moveCtor 2 0, .run 0, .destroy 1, .run 0, .moveAssign 2 2, .unregister 0 2] = some (q, r) := by
  obtain ⟨r, B, h⟩ := ex_hist
  obtain ⟨q, h'⟩ := C30_refines _ _ _ h
  exact ⟨q, r, h'⟩

end Verif.C30
