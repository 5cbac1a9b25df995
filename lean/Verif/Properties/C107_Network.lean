import Verif.Model.EventNetwork
import Verif.Properties.C107_EventSource
/-!
# C107 Events through several sources

Listeners that notify other sources in answer: who receives the event, in which order, and when does the notification return?
-/
set_option autoImplicit false

namespace Verif.C107
open Verif Verif.EvN

/-! ## Specification -/

/-- A source and an event -/
abbrev Ev := Nat × Nat

/-- A listener of `p` notifies `q` in answer to `p`. -/
def Step (reg : Nat → Nat → List Nat) (react : Nat → Nat → Nat → List EvN.Act) (q p : Ev) : Prop := ∃ u ∈ reg p.1 p.2, EvN.Act.notify q.1 q.2 ∈ react u p.1 p.2

/-- The event `p` leads to the event `q`, after any number of answers. -/
inductive Leads (reg : Nat → Nat → List Nat) (react : Nat → Nat → Nat → List EvN.Act) : Ev → Ev → Prop
  | refl (p : Ev) : Leads reg react p p
  | step (p q r : Ev) : Step reg react q p → Leads reg react q r → Leads reg react p r

/-- The listeners do nothing but to notify sources. -/
def Relays (react : Nat → Nat → Nat → List EvN.Act) : Prop := ∀ u src e, ∀ a ∈ react u src e, ∃ src' e', a = .notify src' e'

/-- What the answer `a` makes be received, when `D` says what the events make be received -/
def answered (D : Ev → List (Nat × Ev)) : EvN.Act → List (Nat × Ev)
  | .notify src e => D (src, e)
  | _ => []

/-- `D` says what `p`, and the events it leads to, make be received: each listener in the order of registration, followed by what its own notifications make be received, before the next listener. -/
def DepthFirst (reg : Nat → Nat → List Nat) (react : Nat → Nat → Nat → List EvN.Act) (p : Ev) (D : Ev → List (Nat × Ev)) : Prop :=
  ∀ q, Leads reg react p q → D q = (reg q.1 q.2).flatMap fun u => (u, q) :: (react u q.1 q.2).flatMap (answered D)

/-! ## The depth of the stack -/

theorem acts_mono {n n' : Nat → Nat → Net → Option (Outcome Net Unit)} (h : ∀ src e s r, n src e s = some r → n' src e s = some r) {active : List Ev} {l : List EvN.Act} {s : Net} {r : Outcome Net Unit}
    (hr : acts n active l s = some r) : acts n' active l s = some r := by
  induction l generalizing s with
  | nil => exact hr
  | cons a l ih =>
    cases a with
    | expire u => exact ih hr
    | regist src u e =>
      simp only [acts] at hr ⊢
      split
      · next hc => rw [if_pos hc] at hr; exact hr
      · next hc => rw [if_neg hc] at hr; exact ih hr
    | notify src e =>
      simp only [acts] at hr ⊢
      cases hn : n src e s with
      | none => rw [hn] at hr; cases hr
      | some x =>
        rw [h _ _ _ _ hn]
        rw [hn] at hr
        cases x with
        | ok s' u => exact ih hr
        | throw s' => exact hr
        | ub => exact hr

theorem loop_mono {n n' : List Nat → Nat → Nat → Net → Option (Outcome Net Unit)} (h : ∀ b src e s r, n b src e s = some r → n' b src e s = some r) {react : Nat → Nat → Nat → List EvN.Act} {active : List Ev} {busy : List Nat}
    {src e : Nat} {l : List Nat} {s : Net} {r : Outcome Net Unit} (hr : EvN.loop n react active busy src e l s = some r) : EvN.loop n' react active busy src e l s = some r := by
  induction l generalizing s with
  | nil => exact hr
  | cons u l ih =>
    simp only [EvN.loop] at hr ⊢
    split
    · next hc =>
      rw [if_pos hc] at hr
      cases ha : acts (n (u :: busy)) active (react u src e) (s.receive u src e) with
      | none => rw [ha] at hr; cases hr
      | some x =>
        rw [acts_mono (h (u :: busy)) ha]
        rw [ha] at hr
        cases x with
        | ok s' v => exact ih hr
        | throw s' => exact hr
        | ub => exact hr
    · next hc => rw [if_neg hc] at hr; exact hr

theorem notify_succ (react : Nat → Nat → Nat → List EvN.Act) (d : Nat) : ∀ active busy src e s r, EvN.notify react d active busy src e s = some r → EvN.notify react (d + 1) active busy src e s = some r := by
  induction d with
  | zero => intro _ _ _ _ _ _ h; cases h
  | succ d ih =>
    intro active busy src e s r h
    simp only [EvN.notify] at h ⊢
    exact loop_mono (fun b src' e' s' r' h' => ih _ _ _ _ _ _ h') h

/-- **C107** A deeper stack changes nothing to a notification that returns. -/
theorem C107_depth (react : Nat → Nat → Nat → List EvN.Act) (d d' : Nat) (hd : d ≤ d') (s : Net) (src e : Nat) (r : Outcome Net Unit) (h : s.notify react d src e = some r) : s.notify react d' src e = some r := by
  induction hd with
  | refl => exact h
  | step _ ih => exact notify_succ _ _ _ _ _ _ _ _ ih

/-! ## What is received -/

section
variable {reg : Nat → Nat → List Nat} {alive : Nat → Bool} {react : Nat → Nat → Nat → List EvN.Act}

theorem Leads.cases {p r : Ev} (h : Leads reg react p r) : r = p ∨ ∃ q, Step reg react q p ∧ Leads reg react q r := by
  cases h with
  | refl => exact Or.inl rfl
  | step _ q _ h1 h2 => exact Or.inr ⟨q, h1, h2⟩

theorem Leads.snoc {p q r : Ev} (h : Leads reg react p q) (hr : Step reg react r q) : Leads reg react p r := by
  induction h with
  | refl p => exact .step _ r _ hr (.refl _)
  | step p q _ h _ ih => exact .step _ q _ h (ih hr)

/-- `L` is what `p` makes be received. -/
structure Good (reg : Nat → Nat → List Nat) (react : Nat → Nat → Nat → List EvN.Act) (p : Ev) (L : List (Nat × Ev)) : Prop where
  acc : Acc (Step reg react) p
  mem : ∀ x, x ∈ L ↔ Leads reg react p x.2 ∧ x.1 ∈ reg x.2.1 x.2.2
  order : ∀ D, DepthFirst reg react p D → L = D p

/-- The same for a list of answers -/
structure GoodActs (reg : Nat → Nat → List Nat) (react : Nat → Nat → Nat → List EvN.Act) (l : List EvN.Act) (L : List (Nat × Ev)) : Prop where
  acc : ∀ q : Ev, EvN.Act.notify q.1 q.2 ∈ l → Acc (Step reg react) q
  mem : ∀ x, x ∈ L ↔ ∃ q : Ev, EvN.Act.notify q.1 q.2 ∈ l ∧ Leads reg react q x.2 ∧ x.1 ∈ reg x.2.1 x.2.2
  order : ∀ D, (∀ q : Ev, EvN.Act.notify q.1 q.2 ∈ l → DepthFirst reg react q D) → L = l.flatMap (answered D)

theorem acts_good {n : Nat → Nat → Net → Option (Outcome Net Unit)}
    (hn : ∀ src e (s : Net), s.reg = reg → s.alive = alive → n src e s = none ∨ ∃ L, Good reg react (src, e) L ∧ n src e s = some (.ok { s with log := s.log ++ L } ()))
    (active : List Ev) (l : List EvN.Act) (hl : ∀ a ∈ l, ∃ src' e', a = EvN.Act.notify src' e') (s : Net) (h1 : s.reg = reg) (h2 : s.alive = alive) :
    acts n active l s = none ∨ ∃ L, GoodActs reg react l L ∧ acts n active l s = some (.ok { s with log := s.log ++ L } ()) := by
  induction l generalizing s with
  | nil => exact Or.inr ⟨[], ⟨fun q h => (by cases h), fun x => (by simp), fun D _ => rfl⟩, by simp [acts]⟩
  | cons a l ih =>
    obtain ⟨src, e, rfl⟩ := hl a (by simp)
    rcases hn src e s h1 h2 with h | ⟨L, hL, h⟩
    · left; simp [acts, h]
    · rcases ih (fun a ha => hl a (by simp [ha])) { s with log := s.log ++ L } h1 h2 with h' | ⟨L', hL', h'⟩
      · left; simp only [acts, h]; exact h'
      · refine Or.inr ⟨L ++ L', ⟨fun q hq => ?_, fun x => ?_, fun D hD => ?_⟩, ?_⟩
        · rcases List.mem_cons.1 hq with hq | hq
          · injection hq with q1 q2
            have : q = (src, e) := Prod.ext q1 q2
            rw [this]; exact hL.acc
          · exact hL'.acc q hq
        · rw [List.mem_append, hL.mem, hL'.mem]
          constructor
          · rintro (h | ⟨q, hq, h⟩)
            · exact ⟨(src, e), by simp, h⟩
            · exact ⟨q, by simp [hq], h⟩
          · rintro ⟨q, hq, h⟩
            rcases List.mem_cons.1 hq with hq | hq
            · injection hq with q1 q2
              have : q = (src, e) := Prod.ext q1 q2
              rw [this] at h; exact Or.inl h
            · exact Or.inr ⟨q, hq, h⟩
        · rw [hL.order D (hD (src, e) (by simp)), hL'.order D fun q hq => hD q (by simp [hq])]
          rfl
        · simp only [acts, h, h']
          simp

/-- The same for the listeners that remain -/
structure GoodLoop (reg : Nat → Nat → List Nat) (react : Nat → Nat → Nat → List EvN.Act) (p : Ev) (l : List Nat) (L : List (Nat × Ev)) : Prop where
  acc : ∀ u ∈ l, ∀ q : Ev, EvN.Act.notify q.1 q.2 ∈ react u p.1 p.2 → Acc (Step reg react) q
  mem : ∀ x, x ∈ L ↔ ∃ u ∈ l, x = (u, p) ∨ ∃ q : Ev, EvN.Act.notify q.1 q.2 ∈ react u p.1 p.2 ∧ Leads reg react q x.2 ∧ x.1 ∈ reg x.2.1 x.2.2
  order : ∀ D, (∀ u ∈ l, ∀ q : Ev, EvN.Act.notify q.1 q.2 ∈ react u p.1 p.2 → DepthFirst reg react q D) → L = l.flatMap fun u => (u, p) :: (react u p.1 p.2).flatMap (answered D)

theorem loop_good {n : List Nat → Nat → Nat → Net → Option (Outcome Net Unit)} (hr : Relays react) (ha : ∀ src e, ∀ u ∈ reg src e, alive u = true)
    (hn : ∀ b src e (s : Net), s.reg = reg → s.alive = alive → n b src e s = none ∨ ∃ L, Good reg react (src, e) L ∧ n b src e s = some (.ok { s with log := s.log ++ L } ()))
    (active : List Ev) (busy : List Nat) (p : Ev) (l : List Nat) (hl : ∀ u ∈ l, u ∈ reg p.1 p.2) (s : Net) (h1 : s.reg = reg) (h2 : s.alive = alive) :
    EvN.loop n react active busy p.1 p.2 l s = none ∨ ∃ L, GoodLoop reg react p l L ∧ EvN.loop n react active busy p.1 p.2 l s = some (.ok { s with log := s.log ++ L } ()) := by
  induction l generalizing s with
  | nil => exact Or.inr ⟨[], ⟨fun u h => (by cases h), fun x => (by simp), fun D _ => rfl⟩, by simp [EvN.loop]⟩
  | cons u l ih =>
    have hu : s.alive u = true := by rw [h2]; exact ha _ _ _ (hl u (by simp))
    simp only [EvN.loop, hu, Bool.true_or, if_true]
    rcases acts_good (hn (u :: busy)) active (react u p.1 p.2) (hr u p.1 p.2) (s.receive u p.1 p.2) h1 h2 with h | ⟨L, hL, h⟩
    · left; rw [h]
    · rw [h]
      rcases ih (fun v hv => hl v (by simp [hv])) { s.receive u p.1 p.2 with log := (s.receive u p.1 p.2).log ++ L } h1 h2 with h' | ⟨L', hL', h'⟩
      · left; exact h'
      · refine Or.inr ⟨(u, p) :: (L ++ L'), ⟨fun v hv => ?_, fun x => ?_, fun D hD => ?_⟩, ?_⟩
        · rcases List.mem_cons.1 hv with rfl | hv
          · exact hL.acc
          · exact hL'.acc v hv
        · rw [List.mem_cons, List.mem_append, hL.mem, hL'.mem]
          constructor
          · rintro (h | h | ⟨v, hv, h⟩)
            · exact ⟨u, by simp, Or.inl h⟩
            · exact ⟨u, by simp, Or.inr h⟩
            · exact ⟨v, by simp [hv], h⟩
          · rintro ⟨v, hv, hx⟩
            rcases List.mem_cons.1 hv with hv | hv
            · rw [hv] at hx
              rcases hx with hx | hx
              · exact Or.inl hx
              · exact Or.inr (Or.inl hx)
            · exact Or.inr (Or.inr ⟨v, hv, hx⟩)
        · rw [hL.order D (hD u (by simp)), hL'.order D fun v hv => hD v (by simp [hv])]
          rfl
        · refine h'.trans ?_
          simp [Net.receive]

theorem notify_good (hr : Relays react) (ha : ∀ src e, ∀ u ∈ reg src e, alive u = true) (d : Nat) : ∀ (active : List Ev) (busy : List Nat) (src e : Nat) (s : Net), s.reg = reg → s.alive = alive →
    EvN.notify react d active busy src e s = none ∨ ∃ L, Good reg react (src, e) L ∧ EvN.notify react d active busy src e s = some (.ok { s with log := s.log ++ L } ()) := by
  induction d with
  | zero => intro _ _ _ _ _ _ _; exact Or.inl rfl
  | succ d ih =>
    intro active busy src e s h1 h2
    rcases loop_good hr ha (fun b src' e' s' k1 k2 => ih ((src, e) :: active) b src' e' s' k1 k2) ((src, e) :: active) busy (src, e) (s.reg src e) (fun u hu => by rw [h1] at hu; exact hu) s h1 h2 with h | ⟨L, hL, h⟩
    · exact Or.inl h
    · refine Or.inr ⟨L, ⟨⟨_, fun q hq => ?_⟩, fun x => ?_, fun D hD => ?_⟩, h⟩
      · obtain ⟨u, hu, hq⟩ := hq
        exact hL.acc u (by rw [h1]; exact hu) q hq
      · rw [hL.mem, h1]
        constructor
        · rintro ⟨u, hu, rfl | ⟨q, hq, h3, h4⟩⟩
          · exact ⟨.refl _, hu⟩
          · exact ⟨.step _ q _ ⟨u, hu, hq⟩ h3, h4⟩
        · rintro ⟨h3, h4⟩
          rcases h3.cases with h5 | ⟨q, ⟨u, hu, hq⟩, h5⟩
          · exact ⟨x.1, by rw [h5] at h4; exact h4, Or.inl (Prod.ext rfl h5)⟩
          · exact ⟨u, hu, Or.inr ⟨q, hq, h5, h4⟩⟩
      · rw [hL.order D fun u hu q hq r hqr => hD r (.step _ q _ ⟨u, by rw [h1] at hu; exact hu, hq⟩ hqr), hD _ (.refl _), h1]

/-- One depth for all the elements of a list -/
theorem common {α : Type} {P : Nat → α → Prop} (hm : ∀ n x, P n x → P (n + 1) x) (l : List α) (h : ∀ x ∈ l, ∃ n, P n x) : ∃ n, ∀ x ∈ l, P n x := by
  have hm' : ∀ n k x, P n x → P (n + k) x := fun n k x hx => by
    induction k with
    | zero => exact hx
    | succ k ih => exact hm _ _ ih
  induction l with
  | nil => exact ⟨0, fun x hx => by cases hx⟩
  | cons a l ih =>
    obtain ⟨n, hn⟩ := h a (by simp)
    obtain ⟨k, hk⟩ := ih fun x hx => h x (by simp [hx])
    refine ⟨n + k, fun x hx => ?_⟩
    rcases List.mem_cons.1 hx with rfl | hx
    · exact hm' _ _ _ hn
    · rw [Nat.add_comm]; exact hm' _ _ _ (hk x hx)

/-- The notification of `p` returns with a stack of depth `d`, wherever it is called from. -/
def Returns (reg : Nat → Nat → List Nat) (alive : Nat → Bool) (react : Nat → Nat → Nat → List EvN.Act) (d : Nat) (p : Ev) : Prop :=
  ∀ (active : List Ev) (busy : List Nat) (s : Net), s.reg = reg → s.alive = alive → EvN.notify react d active busy p.1 p.2 s ≠ none

theorem Returns.succ (d : Nat) (p : Ev) (h : Returns reg alive react d p) : Returns reg alive react (d + 1) p := by
  intro active busy s h1 h2 hn
  cases hk : EvN.notify react d active busy p.1 p.2 s with
  | none => exact h active busy s h1 h2 hk
  | some r => rw [notify_succ _ _ _ _ _ _ _ _ hk] at hn; cases hn

theorem acts_returns {n : Nat → Nat → Net → Option (Outcome Net Unit)}
    (hn : ∀ src e (s : Net), s.reg = reg → s.alive = alive → n src e s = none ∨ ∃ L, Good reg react (src, e) L ∧ n src e s = some (.ok { s with log := s.log ++ L } ()))
    (active : List Ev) (l : List EvN.Act) (hl : ∀ a ∈ l, ∃ src' e', a = EvN.Act.notify src' e')
    (hd : ∀ q : Ev, EvN.Act.notify q.1 q.2 ∈ l → ∀ s : Net, s.reg = reg → s.alive = alive → n q.1 q.2 s ≠ none) (s : Net) (h1 : s.reg = reg) (h2 : s.alive = alive) : acts n active l s ≠ none := by
  induction l generalizing s with
  | nil => simp [acts]
  | cons a l ih =>
    obtain ⟨src, e, rfl⟩ := hl a (by simp)
    rcases hn src e s h1 h2 with h | ⟨L, hL, h⟩
    · exact absurd h (hd (src, e) (by simp) s h1 h2)
    · simp only [acts, h]
      exact ih (fun a ha => hl a (by simp [ha])) (fun q hq => hd q (by simp [hq])) _ h1 h2

theorem loop_returns {n : List Nat → Nat → Nat → Net → Option (Outcome Net Unit)} (hr : Relays react) (ha : ∀ src e, ∀ u ∈ reg src e, alive u = true)
    (hn : ∀ b src e (s : Net), s.reg = reg → s.alive = alive → n b src e s = none ∨ ∃ L, Good reg react (src, e) L ∧ n b src e s = some (.ok { s with log := s.log ++ L } ()))
    (active : List Ev) (busy : List Nat) (p : Ev) (l : List Nat) (hl : ∀ u ∈ l, u ∈ reg p.1 p.2)
    (hd : ∀ u ∈ l, ∀ q : Ev, EvN.Act.notify q.1 q.2 ∈ react u p.1 p.2 → ∀ b (s : Net), s.reg = reg → s.alive = alive → n b q.1 q.2 s ≠ none) (s : Net) (h1 : s.reg = reg) (h2 : s.alive = alive) :
    EvN.loop n react active busy p.1 p.2 l s ≠ none := by
  induction l generalizing s with
  | nil => simp [EvN.loop]
  | cons u l ih =>
    have hu : s.alive u = true := by rw [h2]; exact ha _ _ _ (hl u (by simp))
    simp only [EvN.loop, hu, Bool.true_or, if_true]
    rcases acts_good (hn (u :: busy)) active (react u p.1 p.2) (hr u p.1 p.2) (s.receive u p.1 p.2) h1 h2 with h | ⟨L, hL, h⟩
    · exact absurd h (acts_returns (hn (u :: busy)) active _ (hr u p.1 p.2) (fun q hq => hd u (by simp) q hq (u :: busy)) _ h1 h2)
    · rw [h]
      exact ih (fun v hv => hl v (by simp [hv])) (fun v hv => hd v (by simp [hv])) _ h1 h2

theorem acc_returns (hr : Relays react) (ha : ∀ src e, ∀ u ∈ reg src e, alive u = true) (p : Ev) (hp : Acc (Step reg react) p) : ∃ d, Returns reg alive react d p := by
  induction hp with
  | intro p _ ih =>
    have key : ∃ d, ∀ u ∈ reg p.1 p.2, ∀ a ∈ react u p.1 p.2, ∀ q : Ev, a = EvN.Act.notify q.1 q.2 → Returns reg alive react d q := by
      refine common (P := fun d u => ∀ a ∈ react u p.1 p.2, ∀ q : Ev, a = EvN.Act.notify q.1 q.2 → Returns reg alive react d q) (fun d u h a ha q hq => (h a ha q hq).succ) _ fun u hu => ?_
      refine common (P := fun d a => ∀ q : Ev, a = EvN.Act.notify q.1 q.2 → Returns reg alive react d q) (fun d a h q hq => (h q hq).succ) _ fun a haa => ?_
      obtain ⟨src, e, rfl⟩ := hr _ _ _ _ haa
      obtain ⟨d, hd⟩ := ih (src, e) ⟨u, hu, haa⟩
      refine ⟨d, fun q hq => ?_⟩
      injection hq with q1 q2
      have : q = (src, e) := Prod.ext q1.symm q2.symm
      rw [this]; exact hd
    obtain ⟨d, hd⟩ := key
    refine ⟨d + 1, fun active busy s h1 h2 => ?_⟩
    simp only [EvN.notify]
    exact loop_returns hr ha (fun b src' e' s' k1 k2 => notify_good hr ha d _ b src' e' s' k1 k2) _ busy p (s.reg p.1 p.2) (fun u hu => by rw [h1] at hu; exact hu)
      (fun u hu q hq b s' k1 k2 => hd u (by rw [h1] at hu; exact hu) _ hq q rfl _ b s' k1 k2) s h1 h2

end

/-! ## Theorems -/

/-- **C107** Listeners that notify sources in answer: a notification returns, given enough stack, exactly when the events it leads to do not lead to each other without end. -/
theorem C107_returns (react : Nat → Nat → Nat → List EvN.Act) (hr : Relays react) (s : Net) (ha : ∀ src e, ∀ u ∈ s.reg src e, s.alive u = true) (src e : Nat) :
    (∃ d, s.notify react d src e ≠ none) ↔ Acc (Step s.reg react) (src, e) := by
  constructor
  · rintro ⟨d, hd⟩
    rcases notify_good hr ha d [] [] src e s rfl rfl with h | ⟨L, hL, _⟩
    · exact absurd h hd
    · exact hL.acc
  · intro h
    obtain ⟨d, hd⟩ := acc_returns hr ha _ h
    exact ⟨d, hd [] [] s rfl rfl⟩

/-- **C107** A notification that leads back to itself never returns, whatever the stack. -/
theorem C107_cycle (react : Nat → Nat → Nat → List EvN.Act) (hr : Relays react) (s : Net) (ha : ∀ src e, ∀ u ∈ s.reg src e, s.alive u = true) (src e : Nat) (q : Ev) (h1 : Step s.reg react q (src, e))
    (h2 : Leads s.reg react q (src, e)) (d : Nat) : s.notify react d src e = none := by
  refine Classical.byContradiction fun hd => ?_
  have hacc := (C107_returns react hr s ha src e).1 ⟨d, hd⟩
  have key : ∀ p, Acc (Step s.reg react) p → ∀ q, Step s.reg react q p → Leads s.reg react q p → False := by
    intro p hp
    induction hp with
    | intro p _ ih =>
      intro q hq hl
      rcases hl.cases with h | ⟨q', h3, h4⟩
      · refine ih q hq q ?_ (.refl _)
        rw [h] at hq; exact hq
      · exact ih q hq q' h3 (h4.snoc hq)
  exact key _ hacc q h1 h2

/-- **C107** Listeners that notify sources in answer: a notification that returns has delivered the event, and those it leads to, to all the listeners registered for them and to no other; the registrations are as before. The order is that
of the registrations; what the answer of a listener makes be received comes before the next listener. -/
theorem C107_network (react : Nat → Nat → Nat → List EvN.Act) (hr : Relays react) (s : Net) (ha : ∀ src e, ∀ u ∈ s.reg src e, s.alive u = true) (src e d : Nat) (r : Outcome Net Unit)
    (h : s.notify react d src e = some r) :
    ∃ L, r = .ok { s with log := s.log ++ L } () ∧ (∀ u q, (u, q) ∈ L ↔ Leads s.reg react (src, e) q ∧ u ∈ s.reg q.1 q.2) ∧ ∀ D, DepthFirst s.reg react (src, e) D → L = D (src, e) := by
  rcases notify_good hr ha d [] [] src e s rfl rfl with h' | ⟨L, hL, h'⟩
  · rw [Net.notify, h'] at h; cases h
  · rw [Net.notify, h'] at h
    exact ⟨L, (Option.some.inj h).symm, fun u q => hL.mem (u, q), hL.order⟩

/-- What the two listeners of the event 0 of the source 0 do in a network with the shape of a diamond: they both notify the source 3. -/
def diamond : Nat → Nat → Nat → List EvN.Act := fun u _ _ => if u = 1 ∨ u = 2 then [.notify 3 0] else []

/-- The listeners 1 and 2 of the source 0 and the listener 4 of the source 3 -/
def diamondNet : Net := { reg := fun src e => if src = 0 ∧ e = 0 then [1, 2] else if src = 3 ∧ e = 0 then [4] else [] }

theorem diamond_relays : Relays diamond := by
  intro u src e a ha
  unfold diamond at ha
  split at ha
  · exact ⟨3, 0, by simpa using ha⟩
  · cases ha

/-- **C107** "A listener receives an event once per notification" does not hold: in a network where two listeners notify the same source, the listeners of that source receive its event twice (the comment of Source.h, lines 23-24, leaves it
to be considered). -/
theorem C107_twice : ¬ ∀ (react : Nat → Nat → Nat → List EvN.Act) (s s' : Net) (d src e : Nat), Relays react → (∀ src e, ∀ u ∈ s.reg src e, s.alive u = true) → (∀ src e, (s.reg src e).Nodup) → s.log = [] →
    s.notify react d src e = some (.ok s' ()) → s'.log.Nodup := by
  intro h
  have hn : ∀ src e, (diamondNet.reg src e).Nodup := by
    intro src e
    show (if src = 0 ∧ e = 0 then [1, 2] else if src = 3 ∧ e = 0 then [4] else []).Nodup
    split
    · decide
    · split <;> simp
  have := h diamond diamondNet { diamondNet with log := [(1, 0, 0), (4, 3, 0), (2, 0, 0), (4, 3, 0)] } 3 0 0 diamond_relays (fun _ _ _ _ => rfl) hn rfl rfl
  revert this
  decide

/-! ## Listeners that register and end others -/

/-- What any answers do to a network: registrations are appended, nobody comes back, what was received stays, and the registrations for the events of `active` do not change. -/
structure Grows (active : List Ev) (s s' : Net) : Prop where
  reg : ∀ src e, ∃ X, s'.reg src e = s.reg src e ++ X
  alive : ∀ u, s'.alive u = true → s.alive u = true
  log : ∃ L, s'.log = s.log ++ L
  same : ∀ p ∈ active, s'.reg p.1 p.2 = s.reg p.1 p.2

theorem Grows.refl (active : List Ev) (s : Net) : Grows active s s := ⟨fun _ _ => ⟨[], by simp⟩, fun _ h => h, ⟨[], by simp⟩, fun _ _ => rfl⟩

theorem Grows.trans {active : List Ev} {s s' s'' : Net} (h : Grows active s s') (h' : Grows active s' s'') : Grows active s s'' := by
  refine ⟨fun src e => ?_, fun u hu => h.alive u (h'.alive u hu), ?_, fun p hp => (h'.same p hp).trans (h.same p hp)⟩
  · obtain ⟨X, hX⟩ := h.reg src e
    obtain ⟨Y, hY⟩ := h'.reg src e
    exact ⟨X ++ Y, by rw [hY, hX, List.append_assoc]⟩
  · obtain ⟨X, hX⟩ := h.log
    obtain ⟨Y, hY⟩ := h'.log
    exact ⟨X ++ Y, by rw [hY, hX, List.append_assoc]⟩

/-- How a call ends -/
def Fine (active : List Ev) (s : Net) (r : Outcome Net Unit) : Prop := (∀ s', r ≠ .throw s') ∧ ∀ s', r = .ok s' () → Grows active s s'

theorem Fine.from {active : List Ev} {s s1 : Net} {r : Outcome Net Unit} (h : Grows active s s1) (h' : Fine active s1 r) : Fine active s r := ⟨h'.1, fun s' hs => h.trans (h'.2 s' hs)⟩

theorem fine_ub (active : List Ev) (s : Net) : Fine active s .ub := ⟨fun _ h => (by cases h), fun _ h => (by cases h)⟩

theorem fine_ok (active : List Ev) (s : Net) : Fine active s (.ok s ()) := ⟨fun _ h => (by cases h), fun _ h => (by cases h; exact .refl _ _)⟩

theorem acts_fine {n : Nat → Nat → Net → Option (Outcome Net Unit)} {active : List Ev} (hn : ∀ src e s r, n src e s = some r → Fine active s r) (l : List EvN.Act) (s : Net) (r : Outcome Net Unit)
    (h : acts n active l s = some r) : Fine active s r := by
  induction l generalizing s with
  | nil => cases h; exact fine_ok _ _
  | cons a l ih =>
    cases a with
    | expire u =>
      refine Fine.from (s1 := s.expire u) ⟨fun _ _ => ⟨[], by simp [Net.expire]⟩, fun v hv => ?_, ⟨[], by simp [Net.expire]⟩, fun _ _ => rfl⟩ (ih _ h)
      simp only [Net.expire] at hv
      split at hv
      · cases hv
      · exact hv
    | regist src u e =>
      simp only [acts] at h
      split at h
      · cases h; exact fine_ub _ _
      · next hc =>
        refine Fine.from (s1 := s.regist src u e) ⟨fun a k => ?_, fun _ h => h, ⟨[], by simp [Net.regist]⟩, fun p hp => ?_⟩ (ih _ h)
        · simp only [Net.regist]
          split
          · next hk => exact ⟨[u], by rw [hk.1, hk.2]⟩
          · exact ⟨[], by simp⟩
        · simp only [Net.regist]
          split
          · next hk =>
            have : p = (src, e) := Prod.ext hk.1 hk.2
            rw [this] at hp
            exact absurd (List.contains_iff_mem.2 hp) hc
          · rfl
    | notify src e =>
      simp only [acts] at h
      cases hk : n src e s with
      | none => rw [hk] at h; cases h
      | some x =>
        have hx := hn _ _ _ _ hk
        rw [hk] at h
        cases x with
        | ok s1 v => exact Fine.from (hx.2 s1 rfl) (ih _ h)
        | throw s1 => exact absurd rfl (hx.1 s1)
        | ub => cases h; exact fine_ub _ _

theorem loop_fine {n : List Nat → Nat → Nat → Net → Option (Outcome Net Unit)} {active : List Ev} (hn : ∀ b src e s r, n b src e s = some r → Fine active s r) (react : Nat → Nat → Nat → List EvN.Act) (busy : List Nat)
    (src e : Nat) (l : List Nat) (s : Net) (r : Outcome Net Unit) (h : EvN.loop n react active busy src e l s = some r) : Fine active s r := by
  induction l generalizing s with
  | nil => cases h; exact fine_ok _ _
  | cons u l ih =>
    simp only [EvN.loop] at h
    split at h
    · cases hk : acts (n (u :: busy)) active (react u src e) (s.receive u src e) with
      | none => rw [hk] at h; cases h
      | some x =>
        have hx := Fine.from (s := s) (s1 := s.receive u src e) ⟨fun _ _ => ⟨[], by simp [Net.receive]⟩, fun _ h => h, ⟨_, rfl⟩, fun _ _ => rfl⟩ (acts_fine (hn (u :: busy)) _ _ _ hk)
        rw [hk] at h
        cases x with
        | ok s1 v => exact Fine.from (hx.2 s1 rfl) (ih _ h)
        | throw s1 => exact absurd rfl (hx.1 s1)
        | ub => cases h; exact fine_ub _ _
    · cases h; exact fine_ub _ _

theorem notify_fine (react : Nat → Nat → Nat → List EvN.Act) (d : Nat) : ∀ active busy src e s r, EvN.notify react d active busy src e s = some r → Fine ((src, e) :: active) s r := by
  induction d with
  | zero => intro _ _ _ _ _ _ h; cases h
  | succ d ih =>
    intro active busy src e s r h
    refine loop_fine (fun b src' e' s' r' h' => ?_) react busy src e _ s r h
    have := ih ((src, e) :: active) b src' e' s' r' h'
    exact ⟨this.1, fun s'' hs => ⟨(this.2 s'' hs).reg, (this.2 s'' hs).alive, (this.2 s'' hs).log, fun p hp => (this.2 s'' hs).same p (List.mem_cons_of_mem _ hp)⟩⟩

/-- **C107** Whatever the listeners do in answer, at any depth: a notification does not throw; when it returns normally, nobody has been registered for the event notified meanwhile, the other registrations have only been appended to, in
all the sources, no listener that had ended exists again, and nothing received is forgotten. -/
theorem C107_answers (react : Nat → Nat → Nat → List EvN.Act) (d : Nat) (s : Net) (src e : Nat) (r : Outcome Net Unit) (h : s.notify react d src e = some r) :
    (∀ s', r ≠ .throw s') ∧ ∀ s', r = .ok s' () →
      s'.reg src e = s.reg src e ∧ (∀ a k, ∃ X, s'.reg a k = s.reg a k ++ X) ∧ (∀ u, s'.alive u = true → s.alive u = true) ∧ ∃ L, s'.log = s.log ++ L := by
  obtain ⟨h1, h2⟩ := notify_fine react d [] [] src e s r h
  exact ⟨h1, fun s' hs => ⟨(h2 s' hs).same _ (List.mem_singleton.2 rfl), (h2 s' hs).reg, (h2 s' hs).alive, (h2 s' hs).log⟩⟩

/-- **C107** A listener that loses its last owner while it processes an event still receives what it makes be notified to itself before it has finished; the next notification to it is undefined. -/
theorem C107_last_words (react : Nat → Nat → Nat → List EvN.Act) (s : Net) (u src e src' e' d : Nat) (hu : s.alive u = true) (h1 : s.reg src e = [u]) (h2 : s.reg src' e' = [u])
    (h3 : react u src e = [.expire u, .notify src' e']) (h4 : react u src' e' = []) :
    s.notify react (d + 2) src e = some (.ok { s.expire u with log := s.log ++ [(u, src, e), (u, src', e')] } ()) ∧
    ∀ d', ({ s.expire u with log := s.log ++ [(u, src, e), (u, src', e')] } : Net).notify react (d' + 1) src' e' = some .ub := by
  refine ⟨?_, fun d' => ?_⟩
  · simp [Net.notify, EvN.notify, EvN.loop, acts, h1, h2, h3, h4, hu, Net.receive, Net.expire]
  · simp [Net.notify, EvN.notify, EvN.loop, h2, Net.expire]

/-! ## One source -/

/-- The reactions of the listeners of one source, none of which notifies -/
def lift (src : Nat) : Ev.Act → EvN.Act
  | .regist u e => .regist src u e
  | .expire u => .expire u

/-- The source `src` in the state `s`, and the registrations `o` of the others -/
def embed (src : Nat) (o : Nat → Nat → List Nat) (s : Ev.St) : Net :=
  { reg := fun a k => if a = src then s.reg k else o a k, alive := s.alive, log := s.log.map fun x => (x.1, src, x.2) }

def image (src : Nat) (o : Nat → Nat → List Nat) : Outcome Ev.St Unit → Outcome Net Unit
  | .ok s () => .ok (embed src o s) ()
  | .throw s => .throw (embed src o s)
  | .ub => .ub

theorem embed_regist (src : Nat) (o : Nat → Nat → List Nat) (s : Ev.St) (u e : Nat) : (embed src o s).regist src u e = embed src o (s.regist u e) := by
  simp only [embed, Net.regist, Ev.St.regist]
  congr 1
  funext a k
  by_cases ha : a = src <;> by_cases hk : k = e <;> simp [ha, hk]

theorem acts_lift (n : Nat → Nat → Net → Option (Outcome Net Unit)) (src e : Nat) (o : Nat → Nat → List Nat) (l : List Ev.Act) (s : Ev.St) :
    acts n [(src, e)] (l.map (lift src)) (embed src o s) = some (image src o (Ev.during e l s)) := by
  induction l generalizing s with
  | nil => rfl
  | cons a l ih =>
    cases a with
    | expire u => exact ih (s.expire u)
    | regist u k =>
      simp only [List.map_cons, lift, acts, Ev.during]
      by_cases hk : k = e
      · simp [hk, image]
      · simp only [List.contains_cons, List.contains_nil, Bool.or_false, beq_iff_eq, Prod.mk.injEq, hk, and_false, if_false]
        rw [embed_regist]
        exact ih (s.regist u k)

theorem loop_lift (n : List Nat → Nat → Nat → Net → Option (Outcome Net Unit)) (react : Nat → Nat → List Ev.Act) (react' : Nat → Nat → Nat → List EvN.Act) (src e : Nat) (o : Nat → Nat → List Nat)
    (l : List Nat) (h : ∀ u ∈ l, react' u src e = (react u e).map (lift src)) (s : Ev.St) :
    EvN.loop n react' [(src, e)] [] src e l (embed src o s) = some (image src o (Ev.loop react e l s)) := by
  induction l generalizing s with
  | nil => rfl
  | cons u l ih =>
    have ha : (embed src o s).alive u = s.alive u := rfl
    simp only [EvN.loop, Ev.loop, ha, List.contains_nil, Bool.or_false]
    split
    · have hs : (embed src o s).receive u src e = embed src o { s with log := s.log ++ [(u, e)] } := by simp [embed, Net.receive]
      rw [h u (by simp), hs, acts_lift]
      cases Ev.during e (react u e) { s with log := s.log ++ [(u, e)] } with
      | ok s' v => exact ih (fun v hv => h v (by simp [hv])) s'
      | throw s' => rfl
      | ub => rfl
    · rfl

/-- **C107** When the listeners of the event do not notify, the notification is the one of `Verif.Model.EventSource`, whatever the other sources. -/
theorem C107_single (react : Nat → Nat → List Ev.Act) (react' : Nat → Nat → Nat → List EvN.Act) (src e d : Nat) (o : Nat → Nat → List Nat) (s : Ev.St) (h : ∀ u ∈ s.reg e, react' u src e = (react u e).map (lift src)) :
    (embed src o s).notify react' (d + 1) src e = some (image src o (s.notify react e)) := by
  have : (embed src o s).reg src e = s.reg e := by simp [embed]
  simp only [Net.notify, EvN.notify, this]
  exact loop_lift _ react react' src e o _ h s

/-! ## Cases that meet the hypotheses -/

theorem diamond_step (q p : Ev) (h : Step diamondNet.reg diamond q p) : q = (3, 0) ∧ p = (0, 0) := by
  obtain ⟨u, hu, hq⟩ := h
  obtain ⟨p1, p2⟩ := p
  simp only [diamondNet, diamond] at hu hq
  split at hq
  · next hc =>
    split at hu
    · next h0 => exact ⟨by simpa [Prod.ext_iff] using hq, by rw [h0.1, h0.2]⟩
    · split at hu
      · have : u = 4 := by simpa using hu
        omega
      · cases hu
  · cases hq

/-- The diamond: the notification returns with a stack of depth 2; the listeners 1, 2 and 4 receive events, and the events received are in this order. -/
example : (∃ d, diamondNet.notify diamond d 0 0 ≠ none) ∧ ∀ d r, diamondNet.notify diamond d 0 0 = some r → ∃ L, r = .ok { diamondNet with log := L } () ∧ (4, 3, 0) ∈ L ∧ L = [(1, 0, 0), (4, 3, 0), (2, 0, 0), (4, 3, 0)] := by
  refine ⟨(C107_returns diamond diamond_relays diamondNet (fun _ _ _ _ => rfl) 0 0).2 ⟨_, fun q hq => ⟨_, fun r hr => ?_⟩⟩, fun d r h => ?_⟩
  · have h1 := (diamond_step _ _ hq).1
    have h2 := (diamond_step _ _ hr).2
    rw [h1] at h2; cases h2
  · obtain ⟨L, h1, h2, h3⟩ := C107_network diamond diamond_relays diamondNet (fun _ _ _ _ => rfl) 0 0 d r h
    refine ⟨L, by simpa [diamondNet] using h1, (h2 4 (3, 0)).2 ⟨.step _ (3, 0) _ ⟨1, by simp [diamondNet], by simp [diamond]⟩ (.refl _), by simp [diamondNet]⟩, ?_⟩
    refine h3 (fun p => if p = (0, 0) then [(1, 0, 0), (4, 3, 0), (2, 0, 0), (4, 3, 0)] else if p = (3, 0) then [(4, 3, 0)] else []) fun q hq => ?_
    have : q = (0, 0) ∨ q = (3, 0) := by
      rcases hq.cases with h | ⟨p, hp, hl⟩
      · exact Or.inl h
      · have h1 := (diamond_step _ _ hp).1
        rw [h1] at hl
        rcases hl.cases with h | ⟨p', hp', _⟩
        · exact Or.inr h
        · have h2 := (diamond_step _ _ hp').2
          cases h2
    rcases this with rfl | rfl <;> rfl

/-- A listener that notifies the source it listens to: the notification never returns. -/
example (d : Nat) : ({ reg := fun _ _ => [1] } : Net).notify (fun _ _ _ => [.notify 0 0]) d 0 0 = none :=
  C107_cycle _ (fun _ _ _ a ha => ⟨0, 0, by simpa using ha⟩) _ (fun _ _ _ _ => rfl) 0 0 (0, 0) ⟨1, by simp, by simp⟩ (.refl _) d

/-- The listener 1 of the source 0 ends, and notifies the source 1, to which it is registered too. -/
example : ({ reg := fun _ _ => [1] } : Net).notify (fun _ src _ => if src = 0 then [.expire 1, .notify 1 0] else []) 2 0 0 = some (.ok { ({ reg := fun _ _ => [1] } : Net).expire 1 with log := [(1, 0, 0), (1, 1, 0)] } ()) :=
  (C107_last_words _ _ 1 0 0 1 0 0 rfl rfl rfl rfl rfl).1

/-- The listener 1 registers the listener 2 for another event, through a nested notification; for the event itself this would be undefined. -/
example : ∃ s', ({ reg := fun src _ => if src = 0 then [1] else [3] } : Net).notify (fun u _ _ => if u = 1 then [.notify 1 0] else [.regist 0 2 7]) 2 0 0 = some (.ok s' ()) ∧ s'.reg 0 0 = [1] ∧ s'.reg 0 7 = [1, 2] := ⟨_, rfl, rfl, rfl⟩

/-- The listener of the event 0 of the source 5 registers another one for another event; the other listeners would notify. -/
example : (embed 5 (fun _ _ => [7]) { reg := fun k => if k = 0 then [1] else [] }).notify (fun u src _ => if u = 1 then [.regist src 2 3] else [.notify 5 0]) 1 5 0 =
    some (.ok (embed 5 (fun _ _ => [7]) { reg := fun k => if k = 3 then [2] else if k = 0 then [1] else [], log := [(1, 0)] }) ()) := by
  rw [C107_single (fun u _ => if u = 1 then [.regist 2 3] else []) _ 5 0 0 _ _ (fun u hu => by
    have : u = 1 := by simpa using hu
    simp [this, lift])]
  rfl

end Verif.C107
