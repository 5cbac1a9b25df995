import Verif.Model.BigNumber
import Verif.Properties.C34_Assignment
/-!
# C124: the number that stands for infinity

The side that a one sided constraint does not have is written as plus or minus the number of the scheme. The claim is that the rows
of a problem mean its constraints with the number of the scheme that solves it.
-/
set_option autoImplicit false
set_option linter.unusedSectionVars false

namespace Verif.C124
open Verif Verif.AS Verif.BN
open Verif.C34 (TgtSat SrcSat BigSide value)

section
variable {K : Type} [Field K] [LinearOrder K] [IsStrictOrderedRing K]

/-- The rows that the compiled assignments `o` write mean the constraint, and nothing else than that its image is not beyond `b` on
the side that the constraint does not have. This is for all data, positive weights and points, and for any content of the memory that
the assignments do not write (the columns of the other variables are zero). -/
def Stands (b : K) (r : Req) (o : Ops K) : Prop :=
  ∀ (n : Nat) (D : Data K) (m : Mem K) (z : Nat → K), Ok r.S r.V D n → (∀ i < r.S.size, 0 < r.fl.omega D.w i) →
    (∀ k, r.T.start ≤ k → k < r.T.start + r.T.size → Clean r.S r.V n (m.A k)) →
    (TgtSat n r.T (o.run r.V D m) z ↔ SrcSat r.S r.V D (value r.S r.V D z) ∧ BigSide b r.S r.T r.V D z)

/-- All the rows of problem `p` for scheme `h` are with the number of the scheme. -/
def Right (w : World K) (p h : Nat) : Prop :=
  ∀ js, w.data p h = some js → ∀ j ∈ js, ∀ o, j.ops = some o → Stands (w.scheme h) j.r o

/-- An assignment stands for the number that it copied. -/
theorem stands_num (j : Job K) (o : Ops K) (h : j.ops = some o) : Stands j.num j.r o := by
  intro n D m z hok hw hc
  exact C34.assembled_exact h hok hw m hc z

theorem buildAll_num (big : K) (rs : List Req) : ∀ j ∈ (buildAll big rs).1, j.num = big := by
  induction rs with
  | nil => intro j hj; cases hj
  | cons r l ih =>
    intro j hj
    unfold buildAll at hj
    split at hj
    · cases List.mem_cons.mp hj with
      | inl e => rw [e]
      | inr e => exact ih j e
    · cases hj

/-- All the assignments of problem `p` for scheme `h` have copied `b`. -/
def Nums (b : K) (w : World K) (p h : Nat) : Prop := ∀ js, w.data p h = some js → ∀ j ∈ js, j.num = b

theorem Nums.right {w : World K} {p h : Nat} (n : Nums (w.scheme h) w p h) : Right w p h := by
  intro js hj j hm o ho
  have := stands_num j o ho
  rwa [n js hj j hm] at this

theorem nums_put {b : K} {w : World K} {p h : Nat} {d : Option (List (Job K))} (hd : ∀ js, d = some js → ∀ j ∈ js, j.num = b) (p' h' : Nat)
    (hn : ¬ (p' = p ∧ h' = h) → Nums b w p' h') : Nums b (w.put p h d) p' h' := by
  intro js hj
  by_cases e : p' = p ∧ h' = h
  · exact hd js ((if_pos e).symm.trans hj)
  · exact hn e js ((if_neg e).symm.trans hj)

/-- The number and the schemes after data are put -/
theorem put_big (w : World K) (p h : Nat) (d : Option (List (Job K))) : (w.put p h d).big = w.big ∧ (w.put p h d).scheme = w.scheme := ⟨rfl, rfl⟩

/-- A build, whether it returns or throws: the numbers of the schemes are the same, the number of the program is the one of the scheme,
and the data of the others are not touched. -/
theorem build_spec (w w' : World K) (p h : Nat) (rs : List Req) (hb : w.build p h rs = .ok w' () ∨ w.build p h rs = .throw w') :
    w'.scheme = w.scheme ∧ w'.big = w.scheme h ∧ (∀ p' h', ¬ (p' = p ∧ h' = h) → w'.data p' h' = w.data p' h') ∧
      (w.build p h rs = .ok w' () ∨ (w.data p h).isSome → Nums (w.scheme h) w' p h) ∧
      (w.data p h = none → w.build p h rs = .throw w' → w'.data p h = none) := by
  have hnum := buildAll_num (w.scheme h) rs
  unfold World.build at hb ⊢
  generalize hx : buildAll (w.scheme h) rs = x at *
  obtain ⟨js, ok⟩ := x
  have key : ∀ w0 : World K, Nums (w.scheme h) (w0.put p h (some js)) p h := fun w0 =>
    nums_put (fun l hl => by cases hl; exact hnum) p h (fun e => absurd ⟨rfl, rfl⟩ e)
  cases ok with
  | true =>
    simp only [hx] at hb ⊢
    cases hb with
    | inr e => cases e
    | inl e =>
      cases e
      exact ⟨rfl, rfl, fun p' h' e => if_neg e, fun _ => key _, fun _ e => by cases e⟩
  | false =>
    simp only [hx] at hb ⊢
    cases hb with
    | inl e => cases e
    | inr e =>
      cases e
      by_cases hs : (w.data p h).isSome = true
      · simp only [hs, if_true]
        exact ⟨rfl, rfl, fun p' h' e => if_neg e, fun _ => key _, fun e => by rw [e] at hs; cases hs⟩
      · simp only [hs]
        refine ⟨rfl, rfl, fun p' h' _ => rfl, fun e => ?_, fun e _ => e⟩
        rcases e with e | e
        · cases e
        · cases e

theorem rework_num (b : K) (ws : List (Nat × Flags)) : ∀ js : List (Job K), (∀ j ∈ js, j.num = b) →
    ∀ j ∈ ws.foldl (fun js x => rework b x.1 x.2 js) js, j.num = b := by
  induction ws with
  | nil => intro js h; exact h
  | cons x l ih =>
    intro js h
    refine ih _ ?_
    intro j hj
    obtain ⟨i, hi, e⟩ := List.mem_map.mp hj
    rw [← e]
    split
    · rfl
    · exact h i hi

/-- An update, when the number of the program is the one that the assignments have copied. -/
theorem process_spec (w w' : World K) (p h : Nat) (ws : List (Nat × Flags)) (rm : List Nat) (mv : Req → Target × Vars) (ad : List Req)
    (hb : w.process p h ws rm mv ad = .ok w' () ∨ w.process p h ws rm mv ad = .throw w') :
    w'.scheme = w.scheme ∧ w'.big = w.big ∧ (∀ p' h', ¬ (p' = p ∧ h' = h) → w'.data p' h' = w.data p' h') ∧
      (Nums w.big w p h → Nums w.big w' p h) := by
  unfold World.process at hb
  cases hd : w.data p h with
  | none => simp only [hd] at hb; rcases hb with e | e <;> cases e
  | some js =>
    have hnew := buildAll_num w.big ad
    generalize hx : buildAll w.big ad = x at *
    obtain ⟨new, ok⟩ := x
    simp only [hd] at hb
    have hw : w' = w.put p h (some ((((ws.foldl (fun js x => rework w.big x.1 x.2 js) js).filter fun j => !rm.contains j.r.key).map
        fun j => { j with r := { j.r with T := (mv j.r).1, V := (mv j.r).2 } }) ++ new)) := by
      cases ok <;> simp only at hb <;> rcases hb with e | e <;> cases e <;> rfl
    subst hw
    refine ⟨rfl, rfl, fun p' h' e => if_neg e, fun hn => nums_put ?_ p h (fun e => absurd ⟨rfl, rfl⟩ e)⟩
    intro l hl j hj
    cases hl
    rcases List.mem_append.mp hj with hj | hj
    · obtain ⟨i, hi, e⟩ := List.mem_map.mp hj
      have := rework_num w.big ws js (hn js hd) i (List.mem_filter.mp hi).1
      rw [← e]; exact this
    · exact hnew j hj

/-! ## The claims -/

/-- **C124**, at a build. After the data of a problem are built or reset for a scheme, the rows are with the number that the scheme has
then, whatever was done before and by whichever scheme. -/
theorem C124_build (w w' : World K) (p h : Nat) (rs : List Req) (hb : w.build p h rs = .ok w' ()) :
    Right w' p h ∧ ∃ js, w'.data p h = some js ∧ js.map (·.r) = rs := by
  obtain ⟨a, _, _, d, _⟩ := build_spec w w' p h rs (.inl hb)
  have hn := d (.inl hb)
  rw [← a] at hn
  refine ⟨hn.right, ?_⟩
  have hr : ∀ rs : List Req, ∀ js, buildAll (w.scheme h) rs = (js, true) → js.map (·.r) = rs := by
    intro rs
    induction rs with
    | nil => intro js e; cases e; rfl
    | cons r l ih =>
      intro js e
      unfold buildAll at e
      split at e
      · generalize hx : buildAll (w.scheme h) l = x at e ih
        obtain ⟨js', ok⟩ := x
        simp only [Prod.mk.injEq] at e
        obtain ⟨e1, e2⟩ := e
        rw [← e1, List.map_cons, ih js' (by rw [e2])]
      · cases e
  unfold World.build at hb
  generalize hx : buildAll (w.scheme h) rs = x at hb
  obtain ⟨js, ok⟩ := x
  cases ok with
  | true => simp only [hx] at hb; cases hb; exact ⟨js, if_pos ⟨rfl, rfl⟩, hr rs js hx⟩
  | false => simp only [hx] at hb; cases hb

/-- What a call does to schemes that share a number: only they build, and none gets another number. -/
def Agrees (b : K) (U : Nat → Prop) : Call K → Prop
  | .build _ h _ => U h
  | .process _ _ _ _ _ _ => True
  | .setBig h b' => U h → b' = b
  | .drop _ _ => True

/-- **C124**, along a program. `U` are the schemes that build data in the program. If they all have the number `b` before they build
anything, and are given no other number, then at any time, after any builds, updates, exceptions and destructions, the rows of all the
problems are with the number of the scheme. Missing: schemes with different numbers, and a number that is changed; the claim is then
false (below). -/
theorem C124_partial (b : K) (U : Nat → Prop) (calls : List (Call K)) (w w' : World K) (hU : ∀ h, U h → w.scheme h = b)
    (hnew : ∀ p h, w.data p h = none) (hc : ∀ c ∈ calls, Agrees b U c) (hr : Runs w calls w') (p h : Nat) :
    Right w' p h ∧ (U h → w'.scheme h = b) ∧ (¬ U h → w'.data p h = none) := by
  have inv : ∀ (w : World K), Runs w calls w' → (∀ h, U h → w.scheme h = b) → (∀ p h, Nums b w p h) →
      (∀ p h, ¬ U h → w.data p h = none) → ((∃ p h, (w.data p h).isSome) → w.big = b) →
      (∀ h, U h → w'.scheme h = b) ∧ (∀ p h, Nums b w' p h) ∧ (∀ p h, ¬ U h → w'.data p h = none) := by
    intro w hr
    clear hnew hU
    rename_i hr0
    clear hr0
    have one : ∀ (w1 w2 : World K) (c : Call K), Agrees b U c → (step w1 c = .ok w2 () ∨ step w1 c = .throw w2) →
        (∀ h, U h → w1.scheme h = b) → (∀ p h, Nums b w1 p h) → (∀ p h, ¬ U h → w1.data p h = none) →
        ((∃ p h, (w1.data p h).isSome) → w1.big = b) →
        (∀ h, U h → w2.scheme h = b) ∧ (∀ p h, Nums b w2 p h) ∧ (∀ p h, ¬ U h → w2.data p h = none) ∧
          ((∃ p h, (w2.data p h).isSome) → w2.big = b) := by
      intro w1 w2 c hag hst h1 h2 h3 h4
      cases c with
      | build p h rs =>
        obtain ⟨a, e, f, g, k⟩ := build_spec w1 w2 p h rs hst
        have hh : w1.scheme h = b := h1 h hag
        refine ⟨fun k hk => by rw [a]; exact h1 k hk, ?_, ?_, fun _ => by rw [e, hh]⟩
        · intro p' h'
          by_cases eq : p' = p ∧ h' = h
          · obtain ⟨rfl, rfl⟩ := eq
            rw [hh] at g
            rcases hst with hst | hst
            · exact g (.inl hst)
            · cases hd : w1.data p' h' with
              | none => intro js hj; rw [k hd hst] at hj; cases hj
              | some js => exact g (.inr (by rw [hd]; rfl))
          · intro js hj
            rw [f p' h' eq] at hj
            exact h2 p' h' js hj
        · intro p' h' hn
          rw [f p' h' (fun eq => hn (by rw [eq.2]; exact hag))]
          exact h3 p' h' hn
      | process p h ws rm mv ad =>
        obtain ⟨a, e, f, g⟩ := process_spec w1 w2 p h ws rm mv ad hst
        have hd : (w1.data p h).isSome = true := by
          cases hd : w1.data p h with
          | some _ => rfl
          | none => simp only [step, World.process, hd] at hst; rcases hst with e | e <;> cases e
        have hbig : w1.big = b := h4 ⟨p, h, hd⟩
        have hu : ∀ h', ¬ U h' → h' ≠ h := by
          intro h' hn e
          rw [e] at hn
          rw [h3 p h hn] at hd; cases hd
        refine ⟨fun k hk => by rw [a]; exact h1 k hk, ?_, ?_, fun _ => by rw [e, hbig]⟩
        · intro p' h'
          by_cases eq : p' = p ∧ h' = h
          · obtain ⟨rfl, rfl⟩ := eq
            rw [hbig] at g
            exact g (h2 p' h')
          · intro js hj
            rw [f p' h' eq] at hj
            exact h2 p' h' js hj
        · intro p' h' hn
          rw [f p' h' (fun eq => hu h' hn eq.2)]
          exact h3 p' h' hn
      | setBig h b' =>
        by_cases hb : 0 < b'
        · have e : w2 = { w1 with scheme := fun k => if k = h then b' else w1.scheme k } := by
            simp only [step, World.setBig, hb, if_true] at hst
            rcases hst with e | e <;> cases e; rfl
          subst e
          refine ⟨fun k hk => ?_, h2, h3, h4⟩
          show (if k = h then b' else w1.scheme k) = b
          by_cases e : k = h
          · rw [if_pos e]; exact hag (by rw [← e]; exact hk)
          · rw [if_neg e]; exact h1 k hk
        · simp only [step, World.setBig, hb, if_false] at hst
          rcases hst with e | e <;> cases e
      | drop p h =>
        have e : w2 = w1.put p h none := by
          simp only [step] at hst
          rcases hst with e | e <;> cases e; rfl
        subst e
        have sub : ∀ p' h' js, (w1.put p h none).data p' h' = some js → w1.data p' h' = some js := by
          intro p' h' js hj
          by_cases eq : p' = p ∧ h' = h
          · have := (if_pos eq).symm.trans hj; cases this
          · exact (if_neg eq).symm.trans hj
        refine ⟨h1, fun p' h' js hj => h2 p' h' js (sub p' h' js hj), fun p' h' hn => ?_, fun ⟨p', h', hs⟩ => ?_⟩
        · cases hd : (w1.put p h none).data p' h' with
          | none => rfl
          | some js => have := sub p' h' js hd; rw [h3 p' h' hn] at this; cases this
        · cases hd : (w1.put p h none).data p' h' with
          | none => rw [hd] at hs; cases hs
          | some js => exact h4 ⟨p', h', by rw [sub p' h' js hd]; rfl⟩
    induction hr with
    | nil w => intro h1 h2 h3 _; exact ⟨h1, h2, h3⟩
    | ok w w1 w2 c l hs _ ih =>
      intro h1 h2 h3 h4
      obtain ⟨a, e, f, g⟩ := one w w1 c (hc c (List.mem_cons_self ..)) (.inl hs) h1 h2 h3 h4
      exact ih (fun c hm => hc c (List.mem_cons_of_mem _ hm)) a e f g
    | caught w w1 w2 c l hs _ ih =>
      intro h1 h2 h3 h4
      obtain ⟨a, e, f, g⟩ := one w w1 c (hc c (List.mem_cons_self ..)) (.inr hs) h1 h2 h3 h4
      exact ih (fun c hm => hc c (List.mem_cons_of_mem _ hm)) a e f g
  obtain ⟨a, e, f⟩ := inv w hr hU (fun p h js hj => by rw [hnew p h] at hj; cases hj) (fun p h _ => hnew p h)
    (fun ⟨p, h, hs⟩ => by rw [hnew p h] at hs; cases hs)
  refine ⟨?_, a h, f p h⟩
  by_cases hu : U h
  · refine Nums.right ?_
    rw [a h hu]
    exact e p h
  · intro js hj
    rw [f p h hu] at hj; cases hj

/-- **C124** for a program that never sets a number: it holds for all the problems and all the schemes. -/
theorem C124_default (c : K) (calls : List (Call K)) (w' : World K) (hc : ∀ h b, Call.setBig h b ∉ calls) (hr : Runs (World.init c) calls w')
    (p h : Nat) : Right w' p h ∧ w'.scheme h = c := by
  obtain ⟨a, b, _⟩ := C124_partial c (fun _ => True) calls (World.init c) w' (fun _ _ => rfl) (fun _ _ => rfl)
    (fun x hx => by cases x <;> first | trivial | exact absurd hx (hc _ _)) hr p h
  exact ⟨a, b trivial⟩

/-- The number plays no role in a target that has one side (the solvers QLD and Quadprog use only these): the rows mean the constraint,
whatever the number of the program was. -/
theorem C124_one_sided (b : K) (j : Job K) (o : Ops K) (ho : j.ops = some o) (ht : j.r.T.type ≠ .doubleSided) : Stands b j.r o := by
  intro n D m z hok hw hc
  rw [stands_num j o ho n D m z hok hw hc]
  exact and_congr Iff.rfl ⟨fun _ e => absurd e ht, fun _ e => absurd e ht⟩

end

/-! ## Where the claim is false -/

/-- `x ≥ 0`, as a constraint in a double sided target of the variables of the example of C34 -/
def req : Req := ⟨0, ⟨.greaterThan, .asGiven, 1, [0], fun _ => .identity, []⟩, C34.exT1, C34.exV, ⟨true, true⟩⟩

/-- The row `0 ≤ x ≤ 2` is not the constraint with the number 1000. -/
theorem not_stands (a b : ℚ) (h : b < a) (hb : 0 < b) : ∀ o, (Job.ops ⟨req, b⟩) = some o → ¬ Stands a req o := by
  intro o ho hs
  have t := stands_num (⟨req, b⟩ : Job ℚ) o ho
  have hok : Ok req.S req.V C34.exD2 2 := C34.ex_ok2 _ _
  have hw : ∀ i < req.S.size, 0 < req.fl.omega C34.exD2.w i := by
    intro i _; simp [Flags.omega, Flags.wt, Wt.at, req]
  have hcl : ∀ k, req.T.start ≤ k → k < req.T.start + req.T.size → Clean req.S req.V 2 (C34.exM.A k) := fun _ _ _ _ _ _ => rfl
  have im : ∀ i, C34.image req.S req.V C34.exD2 (value req.S req.V C34.exD2 fun _ => a) i = a := by
    intro i
    have e1 : req.S.sub 0 = none := rfl
    have e3 : req.S.parts = [0] := rfl
    have e4 : req.V = C34.exV := rfl
    simp [C34.image, e3, value, e1, e4, C34.exV, C34.exD2]
  have ic : ∀ i, C34.image req.S req.V C34.exD2 (C34.const req.S C34.exD2) i = 0 := by
    intro i
    have e1 : req.S.sub 0 = none := rfl
    have e3 : req.S.parts = [0] := rfl
    simp [C34.image, e3, C34.const, e1]
  have h1 : SrcSat req.S req.V C34.exD2 (value req.S req.V C34.exD2 fun _ => a) := by
    intro i _
    show (0 : ℚ) ≤ C34.image req.S req.V C34.exD2 _ i
    rw [im i]; exact le_of_lt (lt_trans hb h)
  have h2 : BigSide a req.S req.T req.V C34.exD2 fun _ => a := by
    intro _ i _
    refine ⟨fun _ => ?_, fun e => by cases e⟩
    rw [im i, ic i, sub_zero]; exact le_refl a
  have h3 := ((t 2 C34.exD2 C34.exM (fun _ => a) hok hw hcl).mp ((hs 2 C34.exD2 C34.exM (fun _ => a) hok hw hcl).mpr ⟨h1, h2⟩)).2 rfl 0 Nat.one_pos
  have h4 := h3.1 rfl
  rw [im 0, ic 0, sub_zero] at h4
  exact absurd (lt_of_lt_of_le h h4) (lt_irrefl _)

/-- **C124** is false when two schemes have different numbers. Scheme 1 has the number 2. Problem 0 is built for scheme 0, then problem 1
for scheme 1; then the constraint `x ≥ 0` is added to problem 0 and its data are updated. The row is `0 ≤ x ≤ 2`: it refuses `x = 1000`,
which the constraint and the number of scheme 0 allow. -/
theorem C124_other_false : ∃ (calls : List (Call ℚ)) (w : World ℚ),
    Runs (World.init 1000) calls w ∧ w.scheme 0 = 1000 ∧ ¬ Right w 0 0 := by
  refine ⟨[.setBig 1 2, .build 0 0 [], .build 1 1 [], .process 0 0 [] [] (fun r => (r.T, r.V)) [req]], _,
    .ok _ _ _ _ _ rfl (.ok _ _ _ _ _ rfl (.ok _ _ _ _ _ rfl (.ok _ _ _ _ _ rfl (.nil _)))), rfl, ?_⟩
  intro hr
  exact not_stands 1000 2 (by norm_num) (by norm_num) _ rfl (hr [⟨req, 2⟩] rfl ⟨req, 2⟩ (List.mem_singleton.mpr rfl) _ rfl)

/-- **C124** is false after a scheme is given another number: the rows that were built are not built again. The number was 2, becomes
1000, and the row is still `0 ≤ x ≤ 2`, even after a later update of the data. -/
theorem C124_setter_false : ∃ (calls : List (Call ℚ)) (w : World ℚ),
    Runs (World.init 2) calls w ∧ calls = [.build 0 0 [req], .setBig 0 1000, .process 0 0 [] [] (fun r => (r.T, r.V)) []] ∧
      w.scheme 0 = 1000 ∧ ¬ Right w 0 0 := by
  refine ⟨_, _, .ok _ _ _ _ _ rfl (.ok _ _ _ _ _ rfl (.ok _ _ _ _ _ rfl (.nil _))), rfl, rfl, ?_⟩
  intro hr
  exact not_stands 1000 2 (by norm_num) (by norm_num) _ rfl (hr [⟨req, 2⟩] rfl ⟨req, 2⟩ (List.mem_singleton.mpr rfl) _ rfl)

/-! ## What an update changes -/

section
variable {K : Type} [Neg K]

/-- The last flags given to a constraint by a list of changes of weights -/
def lastFlags (ws : List (Nat × Flags)) (key : Nat) : Option Flags := (ws.reverse.find? fun x => x.1 == key).map (·.2)

/-- The job after the changes of weights: built again with the number of the program when its weight is concerned, untouched otherwise -/
def again (big : K) (ws : List (Nat × Flags)) (j : Job K) : Job K :=
  match lastFlags ws j.r.key with
  | none => j
  | some fl => ⟨{ j.r with fl := fl }, big⟩

theorem rework_again (big : K) (ws : List (Nat × Flags)) (js : List (Job K)) : ws.foldl (fun js x => rework big x.1 x.2 js) js = js.map (again big ws) := by
  induction ws using List.reverseRecOn with
  | nil => exact (List.map_id js).symm
  | append_singleton ws x ih =>
    rw [List.foldl_append, ih]
    simp only [List.foldl_cons, List.foldl_nil, rework, List.map_map]
    refine List.map_congr_left fun j _ => ?_
    have hk : (again big ws j).r.key = j.r.key := by
      unfold again; split <;> rfl
    simp only [Function.comp, hk]
    by_cases hx : j.r.key = x.1
    · have h1 : lastFlags (ws ++ [x]) j.r.key = some x.2 := by simp [lastFlags, hx]
      rw [if_pos hx]
      unfold again
      rw [h1]
      split <;> rfl
    · have hx' : (x.1 == j.r.key) = false := by simpa using fun e : x.1 = j.r.key => hx e.symm
      have h1 : lastFlags (ws ++ [x]) j.r.key = lastFlags ws j.r.key := by simp [lastFlags, hx']
      rw [if_neg hx]
      unfold again
      rw [h1]

theorem buildAll_prefix (big : K) (rs : List Req) : ∃ n, (buildAll big rs).1 = (rs.take n).map (fun r => ⟨r, big⟩) ∧ ((buildAll big rs).2 = true → rs.take n = rs) := by
  induction rs with
  | nil => exact ⟨0, rfl, fun _ => rfl⟩
  | cons r rs ih =>
    obtain ⟨n, h1, h2⟩ := ih
    simp only [buildAll]
    split
    · exact ⟨n + 1, by simp [h1], fun h => by simp [h2 h]⟩
    · exact ⟨0, rfl, fun h => by cases h⟩

/-- **C124** What an update changes, with or without an exception. The assignments of the constraints that are not removed stay in order; those whose weight changed are built again, with the last flags given and the number of the
program; the others keep their number and their flags; all follow their targets and variables. The new ones come after, in order, all of them when there is no exception, with the number of the program. The data of the other problems and
schemes, and the numbers, do not change. -/
theorem C124_update (w w' : World K) (p h : Nat) (ws : List (Nat × Flags)) (rm : List Nat) (mv : Req → Target × Vars) (ad : List Req) (js : List (Job K)) (hd : w.data p h = some js)
    (hp : w.process p h ws rm mv ad = .ok w' () ∨ w.process p h ws rm mv ad = .throw w') :
    (∃ n, w'.data p h = some (((js.filter fun j => !rm.contains j.r.key).map fun j => { again w.big ws j with r := { (again w.big ws j).r with T := (mv (again w.big ws j).r).1, V := (mv (again w.big ws j).r).2 } })
        ++ (ad.take n).map fun r => ⟨r, w.big⟩) ∧ (w.process p h ws rm mv ad = .ok w' () → ad.take n = ad)) ∧
    (∀ p' h', ¬ (p' = p ∧ h' = h) → w'.data p' h' = w.data p' h') ∧ w'.big = w.big ∧ w'.scheme = w.scheme := by
  obtain ⟨n, h1, h2⟩ := buildAll_prefix w.big ad
  have hf : ((ws.foldl (fun js x => rework w.big x.1 x.2 js) js).filter fun j => !rm.contains j.r.key) = (js.filter fun j => !rm.contains j.r.key).map (again w.big ws) := by
    rw [rework_again, List.filter_map]
    congr 2
    funext j
    have hk : (again w.big ws j).r.key = j.r.key := by
      unfold again; split <;> rfl
    simp only [Function.comp, hk]
  simp only [World.process, hd, hf] at hp ⊢
  rcases hb : buildAll w.big ad with ⟨new, ok⟩
  rw [hb] at h1 h2
  simp only [hb] at hp ⊢
  cases ok with
  | true =>
    rcases hp with hp | hp <;> cases hp
    refine ⟨⟨n, ?_, fun _ => h2 rfl⟩, fun p' h' hne => ?_, rfl, rfl⟩
    · simp only at h1
      simp [World.put, h1, List.map_map, Function.comp_def]
    · simp [World.put, hne]
  | false =>
    rcases hp with hp | hp <;> cases hp
    refine ⟨⟨n, ?_, fun e => by cases e⟩, fun p' h' hne => ?_, rfl, rfl⟩
    · simp only at h1
      simp [World.put, h1, List.map_map, Function.comp_def]
    · simp [World.put, hne]

end

/-! ## Concrete cases -/

-- two constraints with the number 2; the program has the number 9 when the weight of the second one changes
example : (∃ w : World ℚ, (⟨9, fun _ => 2, fun _ _ => some [⟨req, 2⟩, ⟨{ req with key := 1 }, 2⟩]⟩ : World ℚ).process 0 0 [(1, ⟨true, false⟩)] [] (fun r => (r.T, r.V)) [] = .ok w () ∧
    w.data 0 0 = some [⟨req, 2⟩, ⟨{ req with key := 1, fl := ⟨true, false⟩ }, 9⟩]) := by
  refine ⟨_, rfl, ?_⟩
  obtain ⟨⟨n, h1, _⟩, _⟩ := C124_update (⟨9, fun _ => 2, fun _ _ => some [⟨req, 2⟩, ⟨{ req with key := 1 }, 2⟩]⟩ : World ℚ) _ 0 0 [(1, ⟨true, false⟩)] [] (fun r => (r.T, r.V)) [] _ rfl (Or.inl rfl)
  rw [List.take_nil] at h1
  exact h1

-- two problems and two schemes with the number 50, with an update after both are built
example : ∃ w : World ℚ, Runs (World.init 50) [.build 0 0 [], .build 1 1 [req], .process 0 0 [] [] (fun r => (r.T, r.V)) [req]] w ∧
    (∃ js, w.data 0 0 = some js ∧ js ≠ []) ∧ Right w 0 0 ∧ Right w 1 1 := by
  have hr : Runs (World.init (50 : ℚ)) [.build 0 0 [], .build 1 1 [req], .process 0 0 [] [] (fun r => (r.T, r.V)) [req]] _ :=
    .ok _ _ _ _ _ rfl (.ok _ _ _ _ _ rfl (.ok _ _ _ _ _ rfl (.nil _)))
  refine ⟨_, hr, ⟨[⟨req, 50⟩], rfl, by simp⟩, (C124_default 50 _ _ ?_ hr 0 0).1, (C124_default 50 _ _ ?_ hr 1 1).1⟩ <;>
    · intro h b; simp

-- a scheme that is given its number before it builds
example : ∃ w w' : World ℚ, (World.init 50).setBig 0 7 = .ok w () ∧ Runs w [.build 0 0 [req], .setBig 1 3] w' ∧ Right w' 0 0 ∧ w'.scheme 0 = 7 := by
  have hr : Runs (⟨50, fun k => if k = 0 then 7 else 50, fun _ _ => none⟩ : World ℚ) [.build 0 0 [req], .setBig 1 3] _ :=
    .ok _ _ _ _ _ rfl (.ok _ _ _ _ _ rfl (.nil _))
  have t := C124_partial 7 (fun h => h = 0) _ _ _ (fun h e => if_pos e) (fun _ _ => rfl) (fun c hc => by
    simp only [List.mem_cons, List.not_mem_nil, or_false] at hc
    rcases hc with rfl | rfl
    · rfl
    · intro e; cases e) hr 0 0
  exact ⟨_, _, rfl, hr, t.1, t.2.1 rfl⟩

example : ∃ w : World ℚ, (World.init 50).build 3 4 [req] = .ok w () ∧ Right w 3 4 :=
  ⟨_, rfl, (C124_build _ _ 3 4 [req] rfl).1⟩

-- a one sided target
example : ∃ o, Job.ops (⟨{ req with T := ⟨.greaterThan, .asGiven, 0, 1⟩ }, 2⟩ : Job ℚ) = some o ∧ Stands 1000 { req with T := ⟨.greaterThan, .asGiven, 0, 1⟩ } o :=
  ⟨_, rfl, C124_one_sided 1000 (⟨{ req with T := ⟨.greaterThan, .asGiven, 0, 1⟩ }, 2⟩ : Job ℚ) _ rfl (by decide)⟩

end Verif.C124
