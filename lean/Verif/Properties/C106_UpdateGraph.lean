import Verif.Model.UpdateGraph
import Verif.Properties.C14_CallGraph
/-!
# C106: the graph generated from a list of objects and outputs
-/
set_option autoImplicit false

namespace Verif.C106
open Verif Verif.CG Verif.C14 Verif.UG Relation

/-! ## Specification -/

/-- In the list, the output `o` comes after the source `s`, with only outputs between. -/
def Asked (l : List Arg) (s o : Nat) : Prop :=
  ∃ (pre : List Arg) (outs : List Nat) (post : List Arg), l = pre ++ .src s :: (outs.map Arg.out ++ .out o :: post)

/-- The update is required by an output asked. -/
def Wanted (net : Net) (l : List Arg) (c : Call) : Prop :=
  ∃ s o, Asked l s o ∧ ∃ c0, Needs net (s, o) c0 ∧ ReflTransGen (Dep net) c0 c

/-! ## Proofs -/

theorem asked_out (s o : Nat) (l : List Arg) (a b : Nat) :
    Asked (.src s :: .out o :: l) a b ↔ (a = s ∧ b = o) ∨ Asked (.src s :: l) a b := by
  constructor
  · rintro ⟨pre, outs, post, e⟩
    cases pre with
    | nil =>
      simp only [List.nil_append, List.cons.injEq, Arg.src.injEq] at e
      obtain ⟨rfl, e⟩ := e
      cases outs with
      | nil => simp at e; exact .inl ⟨rfl, e.1.symm⟩
      | cons x outs =>
        simp only [List.map_cons, List.cons_append, List.cons.injEq] at e
        exact .inr ⟨[], outs, post, by rw [e.2]; rfl⟩
    | cons x pre =>
      simp only [List.cons_append, List.cons.injEq] at e
      cases pre with
      | nil => simp at e
      | cons y pre =>
        simp only [List.cons_append, List.cons.injEq] at e
        exact .inr ⟨x :: pre, outs, post, by rw [e.2.2, e.1]; rfl⟩
  · rintro (⟨rfl, rfl⟩ | ⟨pre, outs, post, e⟩)
    · exact ⟨[], [], l, rfl⟩
    · cases pre with
      | nil =>
        simp only [List.nil_append, List.cons.injEq, Arg.src.injEq] at e
        obtain ⟨rfl, e⟩ := e
        exact ⟨[], o :: outs, post, by rw [e]; rfl⟩
      | cons x pre =>
        simp only [List.cons_append, List.cons.injEq] at e
        exact ⟨x :: .out o :: pre, outs, post, by rw [e.2, ← e.1]; rfl⟩

theorem asked_src (s s' : Nat) (l : List Arg) (a b : Nat) : Asked (.src s :: .src s' :: l) a b ↔ Asked (.src s' :: l) a b := by
  constructor
  · rintro ⟨pre, outs, post, e⟩
    cases pre with
    | nil =>
      simp only [List.nil_append, List.cons.injEq, Arg.src.injEq] at e
      cases outs <;> simp at e
    | cons x pre =>
      simp only [List.cons_append, List.cons.injEq] at e
      exact ⟨pre, outs, post, e.2⟩
  · rintro ⟨pre, outs, post, e⟩
    exact ⟨.src s :: pre, outs, post, by rw [e]; rfl⟩

theorem asked_nil (s a b : Nat) : ¬ Asked [.src s] a b := by
  rintro ⟨pre, outs, post, e⟩
  have := congrArg List.length e
  simp at this
  omega

/-- The depth of the calls that is enough for all the outputs of a list, in any state. -/
theorem add_uniform {net : Net} (l : List (Nat × Nat)) (hwf : ∀ p ∈ l, Acc (Follows net) (.out p.1 p.2)) :
    ∃ f0, ∀ f, f0 ≤ f → ∀ l', (∀ p ∈ l', p ∈ l) → ∀ st reqs, Reach net st reqs → ∃ st', addInputs net f l' st = .ok st' := by
  obtain ⟨f0, h0⟩ := common_bound (net := net) (l.map (fun p => .out p.1 p.2)) (fun i hi => by
    obtain ⟨p, hp, rfl⟩ := List.mem_map.mp hi
    exact go_total _ (hwf p hp))
  refine ⟨f0, fun f hf l' hl st reqs h => ?_⟩
  have hI := (reach_inv h).inv
  clear h
  induction l' generalizing st with
  | nil => exact ⟨st, rfl⟩
  | cons p l' ih =>
    obtain ⟨st1, ids, h1⟩ := h0 (.out p.1 p.2) (List.mem_map.2 ⟨p, hl p (by simp), rfl⟩) f hf [] st hI
    have H := go_spec net f [] _ st st1 ids hI h1
    obtain ⟨st2, h2⟩ := ih (fun q hq => hl q (by simp [hq])) st1 H.inv
    exact ⟨st2, by simp only [addInputs, h1, h2]⟩

theorem addShared_ok (en : Nat → Bool) (s o : Nat) (user : Inp.St) (h : en o = true) :
    ∃ user', Inp.addShared en s [o] user = .ok user' () ∧ ∀ p, p ∈ pairs user' s ↔ p = (s, o) ∨ p ∈ pairs user s := by
  unfold Inp.addShared Inp.addRef Inp.addOne
  rw [if_pos h]
  cases e : user.inputs s with
  | none =>
    refine ⟨_, rfl, fun p => ?_⟩
    simp [pairs, Inp.upd, e]
  | some l =>
    refine ⟨_, rfl, fun p => ?_⟩
    simp only [pairs, Inp.upd, e, Option.getD_some, Inp.insert, if_true, List.mem_map]
    split
    · constructor
      · exact .inr
      · rintro (rfl | h)
        · exact ⟨o, by assumption, rfl⟩
        · exact h
    · constructor
      · rintro ⟨x, hx, rfl⟩
        rcases List.mem_cons.1 hx with rfl | hx
        · exact .inl rfl
        · exact .inr ⟨x, hx, rfl⟩
      · rintro (rfl | ⟨x, hx, rfl⟩)
        · exact ⟨o, by simp, rfl⟩
        · exact ⟨x, by simp [hx], rfl⟩

theorem addShared_throws (en : Nat → Bool) (s o : Nat) (user : Inp.St) (h : ¬ en o = true) :
    ∃ u, Inp.addShared en s [o] user = .throw u := by
  unfold Inp.addShared Inp.addRef Inp.addOne
  rw [if_neg h]
  exact ⟨_, rfl⟩

theorem parse_ok {net : Net} {f : Nat} {en : Nat → Nat → Bool} {all : List (Nat × Nat)}
    (hf : ∀ l', (∀ p ∈ l', p ∈ all) → ∀ st reqs, Reach net st reqs → ∃ st', addInputs net f l' st = .ok st') :
    ∀ (args : List Arg) (user : Inp.St) (s : Nat) (g : CSt) (r : List (Nat × Nat)), Reach net g r → (∀ p ∈ pairs user s, p ∈ all) →
      (∀ a b, Asked (.src s :: args) a b → (a, b) ∈ all) →
      ((∀ a b, Asked (.src s :: args) a b → en a b = true) →
        ∃ g' r', parse net f en args user s g = .ok g' ∧ Reach net g' r' ∧ ∀ a b, (a, b) ∈ r' ↔ (a, b) ∈ r ∨ (a, b) ∈ pairs user s ∨ Asked (.src s :: args) a b) ∧
      ((∃ a b, Asked (.src s :: args) a b ∧ en a b = false) → parse net f en args user s g = .throws)
  | [], user, s, g, r, hr, hp, _ => by
    obtain ⟨g', e⟩ := hf _ hp g r hr
    refine ⟨fun _ => ⟨g', _, by simp only [parse, e], .add f _ hr e, fun a b => ?_⟩, fun ⟨a, b, h, _⟩ => absurd h (asked_nil s a b)⟩
    simp only [List.mem_append, asked_nil, or_false]
    exact or_comm
  | .out o :: l, user, s, g, r, hr, hp, ha => by
    by_cases he : en s o = true
    · obtain ⟨user', e, hm⟩ := addShared_ok (en s) s o user he
      have ih := parse_ok hf (en := en) l user' s g r hr
        (fun p h => ((hm p).1 h).elim (fun h => h ▸ ha s o ((asked_out ..).2 (.inl ⟨rfl, rfl⟩))) (hp p))
        (fun a b h => ha a b ((asked_out ..).2 (.inr h)))
      have ep : parse net f en (.out o :: l) user s g = parse net f en l user' s g := by simp only [parse, e]
      refine ⟨fun hen => ?_, ?_⟩
      · obtain ⟨g', r', e', h', hx⟩ := ih.1 (fun a b h => hen a b ((asked_out ..).2 (.inr h)))
        refine ⟨g', r', by rw [ep, e'], h', fun a b => ?_⟩
        rw [hx, hm, asked_out, Prod.mk.injEq]
        grind
      · rintro ⟨a, b, h, hne⟩
        rcases (asked_out ..).1 h with ⟨rfl, rfl⟩ | h
        · rw [he] at hne; cases hne
        · rw [ep]; exact ih.2 ⟨a, b, h, hne⟩
    · refine ⟨fun hen => absurd (hen s o ((asked_out ..).2 (.inl ⟨rfl, rfl⟩))) he, fun _ => ?_⟩
      obtain ⟨u, e⟩ := addShared_throws (en s) s o user he
      simp only [parse, e]
  | .src s' :: l, user, s, g, r, hr, hp, ha => by
    obtain ⟨g1, e⟩ := hf _ hp g r hr
    have ih := parse_ok hf (en := en) l {} s' g1 _ (.add f _ hr e) (fun p h => by simp [pairs] at h)
      (fun a b h => ha a b ((asked_src ..).2 h))
    have ep : parse net f en (.src s' :: l) user s g = parse net f en l {} s' g1 := by simp only [parse, e]
    refine ⟨fun hen => ?_, ?_⟩
    · obtain ⟨g', r', e', h', hx⟩ := ih.1 (fun a b h => hen a b ((asked_src ..).2 h))
      refine ⟨g', r', by rw [ep, e'], h', fun a b => ?_⟩
      rw [hx, asked_src]
      have : (a, b) ∉ pairs {} s' := by simp [pairs]
      simp only [List.mem_append]
      grind
    · rintro ⟨a, b, h, hne⟩
      rw [ep]
      exact ih.2 ⟨a, b, (asked_src ..).1 h, hne⟩

/-- The outputs asked form a finite list. -/
theorem asked_list (s : Nat) : ∀ l : List Arg, ∃ all : List (Nat × Nat), ∀ a b, (a, b) ∈ all ↔ Asked (.src s :: l) a b := by
  intro l
  induction l generalizing s with
  | nil => exact ⟨[], fun a b => by simp [asked_nil]⟩
  | cons x l ih =>
    cases x with
    | src s' =>
      obtain ⟨all, h⟩ := ih s'
      exact ⟨all, fun a b => by rw [h, asked_src]⟩
    | out o =>
      obtain ⟨all, h⟩ := ih s
      exact ⟨(s, o) :: all, fun a b => by rw [asked_out, List.mem_cons, h, Prod.mk.injEq]⟩

theorem wanted_required {net : Net} {l : List Arg} {r : List (Nat × Nat)} (h : ∀ a b, (a, b) ∈ r ↔ Asked l a b) (c : Call) :
    Required net r c ↔ Wanted net l c := by
  constructor
  · rintro ⟨⟨a, b⟩, hp, c0, h0⟩; exact ⟨a, b, (h a b).1 hp, c0, h0⟩
  · rintro ⟨a, b, hp, c0, h0⟩; exact ⟨(a, b), (h a b).2 hp, c0, h0⟩

/-! ## Theorems -/

/-- When the outputs asked are enabled and nothing depends on itself, the graph is generated; its plan has exactly the updates that the outputs asked require, once each and after
those they depend on, and its execution refreshes them. -/
theorem C106_generate {net : Net} (en : Nat → Nat → Bool) (obj : Nat) (args : List Arg)
    (hwf : ∀ s o, Asked (.src obj :: args) s o → Acc (Follows net) (.out s o)) (hen : ∀ s o, Asked (.src obj :: args) s o → en s o = true)
    (hac : ∀ c, Wanted net (.src obj :: args) c → ¬ TransGen (Dep net) c c) :
    ∃ f0, ∀ f, f0 ≤ f → ∃ g, generate net f en obj args = .ok g ∧ g.plan.Nodup ∧ (∀ c, c ∈ g.plan ↔ Wanted net (.src obj :: args) c) ∧
      (∀ a c b, g.plan = a ++ c :: b → ∀ c', Dep net c c' → c' ∈ a) ∧
      ∀ (V : Type) (F : Call → Store V → V), ReadsDeps net F → ∀ v, ∀ c, Wanted net (.src obj :: args) c → F c (execute F g.plan v) = execute F g.plan v c := by
  obtain ⟨all, hall⟩ := asked_list obj args
  obtain ⟨f0, h0⟩ := add_uniform all (fun p hp => hwf p.1 p.2 ((hall p.1 p.2).1 hp))
  refine ⟨f0, fun f hf => ?_⟩
  obtain ⟨g, r, e, hr, hx⟩ := (parse_ok (h0 f hf) (en := en) args {} obj {} [] .init (fun p h => by simp [pairs] at h) (fun a b h => (hall a b).2 h)).1 hen
  have hx' : ∀ a b, (a, b) ∈ r ↔ Asked (.src obj :: args) a b := fun a b => by rw [hx]; simp [pairs]
  have hw := fun c => wanted_required (net := net) hx' c
  obtain ⟨g', hu, hp⟩ := C14_plan_complete hr (fun c hc => hac c ((hw c).1 hc))
  obtain ⟨n1, -, n3⟩ := C14_plan_sound hr hu
  refine ⟨g', by simp only [generate, e, hu], n1, fun c => by rw [hp, hw], n3, fun V F hF v c hc => ?_⟩
  exact C15_execute_refreshes hr hu F hF v c ((hp c).2 ((hw c).2 hc))

/-- When an output asked is not enabled, the call throws. -/
theorem C106_disabled {net : Net} (en : Nat → Nat → Bool) (obj : Nat) (args : List Arg)
    (hwf : ∀ s o, Asked (.src obj :: args) s o → Acc (Follows net) (.out s o)) (s o : Nat) (h : Asked (.src obj :: args) s o) (hne : en s o = false) :
    ∃ f0, ∀ f, f0 ≤ f → generate net f en obj args = .throws := by
  obtain ⟨all, hall⟩ := asked_list obj args
  obtain ⟨f0, h0⟩ := add_uniform all (fun p hp => hwf p.1 p.2 ((hall p.1 p.2).1 hp))
  refine ⟨f0, fun f hf => ?_⟩
  have e := (parse_ok (h0 f hf) (en := en) args {} obj {} [] .init (fun p h => by simp [pairs] at h) (fun a b h => (hall a b).2 h)).2 ⟨s, o, h, hne⟩
  simp only [generate, e]

/-- A call that returns a graph never returns one that has an update nobody asked for, that misses a dependency or that has not checked its outputs, whatever the
dependencies. -/
theorem C106_sound {net : Net} (en : Nat → Nat → Bool) (obj : Nat) (args : List Arg)
    (hwf : ∀ s o, Asked (.src obj :: args) s o → Acc (Follows net) (.out s o)) :
    ∃ f0, ∀ f, f0 ≤ f → (∀ e, generate net f en obj args ≠ .error e) ∧ ∀ g, generate net f en obj args = .ok g →
      (∀ s o, Asked (.src obj :: args) s o → en s o = true) ∧ g.plan.Nodup ∧ (∀ c ∈ g.plan, Wanted net (.src obj :: args) c) ∧
      ∀ a c b, g.plan = a ++ c :: b → ∀ c', Dep net c c' → c' ∈ a := by
  obtain ⟨all, hall⟩ := asked_list obj args
  obtain ⟨f0, h0⟩ := add_uniform all (fun p hp => hwf p.1 p.2 ((hall p.1 p.2).1 hp))
  refine ⟨f0, fun f hf => ?_⟩
  have H := parse_ok (h0 f hf) (en := en) args {} obj {} [] .init (fun p h => by simp [pairs] at h) (fun a b h => (hall a b).2 h)
  by_cases hen : ∀ s o, Asked (.src obj :: args) s o → en s o = true
  · obtain ⟨g, r, e, hr, hx⟩ := H.1 hen
    have hx' : ∀ a b, (a, b) ∈ r ↔ Asked (.src obj :: args) a b := fun a b => by rw [hx]; simp [pairs]
    have hd := C14_update_defined hr
    cases hu : update g with
    | ub => exact absurd hu hd
    | throw g' => exact ⟨fun e' h => by simp [generate, e, hu] at h, fun g' h => by simp [generate, e, hu] at h⟩
    | ok g' u =>
      refine ⟨fun e' h => by simp [generate, e, hu] at h, fun g'' h => ?_⟩
      simp only [generate, e, hu, Res.ok.injEq] at h
      subst h
      obtain ⟨n1, n2, n3⟩ := C14_plan_sound hr hu
      exact ⟨hen, n1, fun c hc => (wanted_required hx' c).1 (n2 c hc), n3⟩
  · have : ∃ a b, Asked (.src obj :: args) a b ∧ en a b = false := by
      simp only [Classical.not_forall] at hen
      obtain ⟨a, b, h, he⟩ := hen
      exact ⟨a, b, h, by simpa using he⟩
    have e := H.2 this
    exact ⟨fun e' h => by simp [generate, e] at h, fun g' h => by simp [generate, e] at h⟩

/-! ## The hypotheses can be met -/

/-- Two sources; the second forwards its output 1 to the first. -/
example : (∀ s o, Asked [.src 0, .out 0, .src 1, .out 0] s o → (s = 0 ∧ o = 0) ∨ (s = 1 ∧ o = 0)) ∧ Asked [.src 0, .out 0, .src 1, .out 0] 1 0 ∧
    ¬ Asked [.src 0, .out 0, .src 1, .out 0] 0 1 := by
  refine ⟨fun s o h => ?_, ⟨[.src 0, .out 0], [], [], rfl⟩, fun h => ?_⟩ 
  · simpa [asked_out, asked_src, asked_nil] using h
  · simp [asked_out, asked_src, asked_nil] at h

/-- A rank of the elements of the network -/
def rank : Item → Nat
  | .out s o => if s = 0 ∧ o = 0 then 10 else if s = 0 then 8 else if s = 1 then 5 else 0
  | .call c => if c = (0, 0) then 9 else if c.1 = 0 then 7 else if c.1 = 1 then 4 else 0

theorem ex_follows {x y : Item} (h : Follows exNet y x) : rank y < rank x := by
  cases h with
  | @upd s o us u h1 h2 h3 =>
    simp only [exNet] at h2
    split at h2
    · simp at h2; subst h2; simp at h3; simp [rank, *]
    · split at h2
      · simp at h2; subst h2; simp at h3; simp [rank, *]
      · cases h2
  | @direct s o s' o' h1 h2 h3 =>
    simp only [exNet] at h3
    split at h3
    · next hs =>
      simp at h3; obtain ⟨rfl, rfl⟩ := h3; obtain ⟨rfl, rfl⟩ := hs; decide
    · cases h3
  | @intern c u h =>
    simp only [exNet] at h
    split at h
    · obtain ⟨a, b⟩ := c
      simp at h; simp_all [rank]
    · cases h
  | @input c s os o h1 h2 =>
    obtain ⟨a, b⟩ := c
    simp only [exNet] at h1
    split at h1
    · simp at h1
      rcases h1 with ⟨rfl, rfl⟩ | ⟨rfl, rfl⟩ <;> simp at h2 <;> simp_all [rank]
    · split at h1
      · simp at h1
        obtain ⟨rfl, rfl⟩ := h1
        simp at h2; simp_all [rank]
      · cases h1

/-- The hypotheses of the theorems on a network with a forwarded output, for any arguments -/
example (obj : Nat) (args : List Arg) :
    (∀ s o, Asked (.src obj :: args) s o → Acc (Follows exNet) (.out s o)) ∧ ∀ c, Wanted exNet (.src obj :: args) c → ¬ TransGen (Dep exNet) c c := by
  refine ⟨fun s o _ => Subrelation.accessible (fun h => ex_follows h) ((measure rank).wf.apply _), fun c _ h => ?_⟩
  have key : ∀ a b, TransGen (Dep exNet) a b → exRank b < exRank a := by
    intro a b h
    induction h with
    | single h => exact ex_dep h
    | tail _ h ih => exact Nat.lt_trans (ex_dep h) ih
  exact absurd (key c c h) (Nat.lt_irrefl _)

/-- A list of two outputs of a network with a forwarded output; the graph has the three updates. -/
example : (match generate exNet 10 (fun _ _ => true) 0 [.out 1, .out 0] with | .ok g => g.plan.length | _ => 0) = 3 ∧
    (match generate exNet 10 (fun s o => ! (s = 0 && o = 0)) 0 [.out 1, .out 0] with | .throws => true | _ => false) = true := by
  constructor <;> decide

end Verif.C106
