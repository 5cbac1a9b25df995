import Verif.Model.SolverBook
/-!
# C120: a solver keeps the assignments of its constraints, and those only

Specification. `Made l`: from the calls only, the list of the roles and constraints of the assignments that the solver should have, in the
order in which they were made. `Building l`: from the calls only, whether a build is not finished. `Run cost l s`: the calls
`l` lead from a new solver to `s`; each of them returned or threw.
-/
set_option autoImplicit false

namespace Verif.SB

/-! ## Specification -/

/-- Number of assignments made by an addition. -/
def Res.count : Res → Nat
  | .refused => 0
  | .failed j => j
  | .made k => k

/-- The addition returns. -/
def Res.returns : Res → Bool
  | .made _ => true
  | _ => false

/-- Assignments made by additions, the first exception being the end. -/
def addsMade : List (Role × Nat × Res) → List (Role × Nat)
  | [] => []
  | (r, c, res) :: l => List.replicate res.count (r, c) ++ if res.returns then addsMade l else []

/-- Effect of a call on the list of assignments. -/
def Op.on (L : List (Role × Nat)) : Op → List (Role × Nat)
  | .startBuild _ _ _ => []
  | .add r c res => L ++ List.replicate res.count (r, c)
  | .process b => L.filter (fun x => !b.removed.contains x) ++ addsMade b.added
  | _ => L

/-- The assignments that the solver should have. -/
def Made (l : List Op) : List (Role × Nat) := l.foldl Op.on []

/-- Effect of a call on the state of the build. -/
def Op.onBuild (B : Bool) : Op → Bool
  | .startBuild _ _ _ => true
  | .finalizeBuild => false
  | .process b => !b.added.all (fun x => x.2.2.returns)
  | _ => B

/-- A build or a processing is not finished. -/
def Building (l : List Op) : Bool := l.foldl Op.onBuild false

/-- The constraints given to the solver exist. -/
def Can (s : St) : Op → Prop
  | .add _ c _ => s.ptrs c = true
  | .process b => (∀ x ∈ b.removed, s.ptrs x.2 = true) ∧ ∀ x ∈ b.added, s.ptrs x.2.1 = true
  | _ => True

/-- Sequences of calls; the program goes on after exceptions. -/
inductive Run (cost : Role → Nat → Nat) : List Op → St → Prop
  | init : Run cost [] {}
  | ok (l : List Op) (s s' : St) (op : Op) : Run cost l s → Can s op → s.step cost op = .ok s' → Run cost (l ++ [op]) s'
  | threw (l : List Op) (s s' : St) (op : Op) : Run cost l s → Can s op → s.step cost op = .threw s' → Run cost (l ++ [op]) s'

/-- The additions of a call. -/
def Op.adds : Op → List (Role × Nat × Res)
  | .add r c res => [(r, c, res)]
  | .process b => b.added
  | _ => []

/-- An addition makes at least an assignment, or does not begin. -/
def Res.solid : Res → Prop
  | .refused => True
  | .failed j => 0 < j
  | .made k => 0 < k

/-! ## Proof -/

/-- The role and constraint of an assignment. -/
def Asg.of (a : Asg) : Role × Nat := (a.role, a.c)

/-- The assignments of a constraint in a role. -/
def St.ids (s : St) (r : Role) (c : Nat) : List Nat := (s.asgs.filter (fun a => a.of == (r, c))).map (·.id)

structure Inv (s : St) : Prop where
  nodup : (s.asgs.map (·.id)).Nodup
  lt : ∀ a ∈ s.asgs, a.id < s.next
  val : ∀ r c, s.val r c = s.ids r c
  key : ∀ a ∈ s.asgs, a.c ∈ s.keys a.role

theorem upd_same {α : Type} (f : Role → α) (r : Role) (x : α) : upd f r x r = x := by simp [upd]

theorem upd_other {α : Type} (f : Role → α) {r r' : Role} (x : α) (h : r' ≠ r) : upd f r x r' = f r' := by simp [upd, h]

theorem Inv.has {s : St} (h : Inv s) {r : Role} {c i : Nat} (hi : i ∈ s.val r c) : s.has i = true := by
  rw [h.val] at hi
  obtain ⟨a, ha, rfl⟩ := List.mem_map.1 hi
  exact List.any_eq_true.2 ⟨a, (List.mem_filter.1 ha).1, by simp⟩

theorem Inv.all_has {s : St} (h : Inv s) (r : Role) (c : Nat) : (s.val r c).all s.has = true :=
  List.all_eq_true.2 fun _ hi => h.has hi

theorem Inv.make {s : St} (h : Inv s) (r : Role) (c j : Nat) : Inv (s.make r c j) := by
  refine ⟨?_, fun a ha => ?_, fun r' c' => ?_, fun a ha => ?_⟩
  · simp only [St.make, List.map_append, List.map_map]
    have e : (List.range' s.next j).map ((fun a : Asg => a.id) ∘ fun i => ⟨i, r, c⟩) = List.range' s.next j := by
      simp [Function.comp_def]
    rw [e, List.nodup_append]
    refine ⟨h.nodup, List.nodup_range', fun x hx y hy hxy => ?_⟩
    obtain ⟨a, ha, rfl⟩ := List.mem_map.1 hx
    have h1 := h.lt a ha
    have h2 := (List.mem_range'_1.1 hy).1
    omega
  · simp only [St.make] at ha ⊢
    rcases List.mem_append.1 ha with ha | ha
    · have := h.lt a ha; omega
    · obtain ⟨i, hi, rfl⟩ := List.mem_map.1 ha
      have := (List.mem_range'_1.1 hi).2
      exact this
  · simp only [St.make, St.ids, List.filter_append, List.map_append]
    by_cases hr : r' = r
    · subst hr
      rw [upd_same]
      by_cases hc : c' = c
      · subst hc
        rw [if_pos rfl, h.val]
        congr 1
        rw [List.filter_eq_self.2]
        · simp [Function.comp_def]
        · intro a ha; obtain ⟨i, _, rfl⟩ := List.mem_map.1 ha; simp [Asg.of]
      · rw [if_neg hc, h.val]
        have : List.filter (fun a : Asg => a.of == (r', c')) ((List.range' s.next j).map (fun i => ⟨i, r', c⟩)) = [] := by
          rw [List.filter_eq_nil_iff]
          intro a ha; obtain ⟨i, _, rfl⟩ := List.mem_map.1 ha
          simp [Asg.of]; exact fun h => hc h.symm
        rw [this]; simp [St.ids]
    · rw [upd_other _ _ hr, h.val]
      have : List.filter (fun a : Asg => a.of == (r', c')) ((List.range' s.next j).map (fun i => ⟨i, r, c⟩)) = [] := by
        rw [List.filter_eq_nil_iff]
        intro a ha; obtain ⟨i, _, rfl⟩ := List.mem_map.1 ha
        simp [Asg.of]; exact fun h => absurd h.symm hr
      rw [this]; simp [St.ids]
  · simp only [St.make] at ha ⊢
    rcases List.mem_append.1 ha with ha | ha
    · have := h.key a ha
      by_cases hr : a.role = r
      · rw [hr, upd_same]; rw [hr] at this
        split
        · exact this
        · exact List.mem_append_left _ this
      · rw [upd_other _ _ hr]; exact this
    · obtain ⟨i, _, rfl⟩ := List.mem_map.1 ha
      simp only [upd_same]
      split
      · assumption
      · simp

theorem make_of (s : St) (r : Role) (c j : Nat) :
    (s.make r c j).asgs.map Asg.of = s.asgs.map Asg.of ++ List.replicate j (r, c) := by
  simp [St.make, Asg.of, Function.comp_def, List.map_const']

theorem make_key (s : St) (r : Role) (c j : Nat) (r' : Role) (c' : Nat) :
    c' ∈ (s.make r c j).keys r' ↔ (c' ∈ s.keys r' ∨ (r' = r ∧ c' = c)) := by
  simp only [St.make]
  by_cases hr : r' = r
  · subst hr
    rw [upd_same]
    split
    · constructor
      · exact Or.inl
      · rintro (h | ⟨_, rfl⟩)
        · exact h
        · assumption
    · simp
  · rw [upd_other _ _ hr]; simp [hr]

theorem id_inj : ∀ {l : List Asg}, (l.map (·.id)).Nodup → ∀ {a b : Asg}, a ∈ l → b ∈ l → a.id = b.id → a = b := by
  intro l
  induction l with
  | nil => intro _ a b ha; simp at ha
  | cons x l ih =>
    intro hn a b ha hb hab
    simp only [List.map_cons, List.nodup_cons] at hn
    rcases List.mem_cons.1 ha with rfl | ha <;> rcases List.mem_cons.1 hb with rfl | hb
    · rfl
    · exact absurd (List.mem_map.2 ⟨b, hb, hab.symm⟩) hn.1
    · exact absurd (List.mem_map.2 ⟨a, (by assumption), hab⟩ : b.id ∈ l.map (·.id)) hn.1
    · exact ih hn.2 ha hb hab

/-- What `unmap` does. -/
theorem unmap_spec (cost : Role → Nat → Nat) : ∀ (l : List (Role × Nat)) (s : St),
    (∀ r c, (s.val r c).all s.has = true) →
    ((∀ r, s.keysOk r = true) → s.unmap cost l ≠ none) ∧ ∀ s' marks, s.unmap cost l = some (s', marks) → s'.asgs = s.asgs ∧ s'.next = s.next ∧ s'.ptrs = s.ptrs ∧
      s'.building = s.building ∧ (∀ r c, s'.val r c = if (r, c) ∈ l then [] else s.val r c) ∧
      (∀ r c, c ∈ s'.keys r ↔ (c ∈ s.keys r ∧ (r, c) ∉ l)) ∧ (∀ i, i ∈ marks ↔ ∃ x ∈ l, i ∈ s.val x.1 x.2) := by
  intro l
  induction l with
  | nil =>
    intro s _
    refine ⟨fun _ h => (by cases h), fun s' marks h => ?_⟩
    injection h with h
    injection h with h h'
    subst h; subst h'
    exact ⟨rfl, rfl, rfl, rfl, by simp, by simp, by simp⟩
  | cons x l ih =>
    intro s hs
    obtain ⟨r, c⟩ := x
    let st1 : St := { s with
      n := upd s.n r (s.n r - cost r c)
      keys := upd s.keys r ((s.keys r).filter (· ≠ c))
      val := upd s.val r (fun d => if d = c then [] else s.val r d) }
    have hv : ∀ r' c', st1.val r' c' = if (r', c') = (r, c) then [] else s.val r' c' := by
      intro r' c'
      change upd s.val r (fun d => if d = c then [] else s.val r d) r' c' = _
      by_cases hr : r' = r
      · subst hr; rw [upd_same]; simp
      · rw [upd_other _ _ hr]; simp [hr]
    have hk : ∀ r' c', c' ∈ st1.keys r' ↔ (c' ∈ s.keys r' ∧ (r', c') ≠ (r, c)) := by
      intro r' c'
      change c' ∈ upd s.keys r ((s.keys r).filter (· ≠ c)) r' ↔ _
      by_cases hr : r' = r
      · subst hr; rw [upd_same]; simp
      · rw [upd_other _ _ hr]; simp [hr]
    obtain ⟨ih1, ih2⟩ := ih st1 (by
      intro r' c'; rw [hv]; split
      · rfl
      · exact hs r' c')
    have e : s.unmap cost ((r, c) :: l) = if s.keysOk r = true then
        (match st1.unmap cost l with
          | none => none
          | some (st2, marks) => some (st2, s.val r c ++ marks)) else none := by
      simp only [St.unmap, hs r c, Bool.and_true]; rfl
    rw [e]
    constructor
    · intro hok
      rw [if_pos (hok r)]
      cases ht : st1.unmap cost l with
      | none =>
        refine absurd ht (ih1 fun r' => List.all_eq_true.2 fun c' hc => ?_)
        exact List.all_eq_true.1 (hok r') c' ((hk r' c').1 hc).1
      | some y => simp
    intro s' marks' hm
    split at hm
    case isFalse => cases hm
    cases ht : st1.unmap cost l with
    | none => rw [ht] at hm; cases hm
    | some y =>
    obtain ⟨s'', marks⟩ := y
    rw [ht] at hm
    injection hm with hm
    injection hm with hm hm'
    subst hm; subst hm'
    obtain ⟨h2, h3, h4, h5, h6, h7, h8⟩ := ih2 s'' marks ht
    refine ⟨h2, h3, h4, h5, fun r' c' => ?_, fun r' c' => ?_, fun i => ?_⟩
    · rw [h6, hv]
      by_cases ha : (r', c') = (r, c)
      · simp [ha]
      · by_cases hb : (r', c') ∈ l <;> simp [ha, hb]
    · rw [h7, hk, List.mem_cons, not_or, and_assoc]
    · rw [List.mem_append, h8]
      constructor
      · rintro (h | ⟨x, hx, h⟩)
        · exact ⟨(r, c), by simp, h⟩
        · rw [hv] at h
          split at h
          · simp at h
          · exact ⟨x, by simp [hx], h⟩
      · rintro ⟨x, hx, h⟩
        by_cases hxx : (x.1, x.2) = (r, c)
        · simp only [Prod.mk.injEq] at hxx
          rw [hxx.1, hxx.2] at h; exact Or.inl h
        · rcases List.mem_cons.1 hx with rfl | hx
          · exact absurd rfl hxx
          · exact Or.inr ⟨x, hx, by rw [hv, if_neg hxx]; exact h⟩

/-- What `processRemoved` does. -/
theorem processRemoved_spec (cost : Role → Nat → Nat) (l : List (Role × Nat)) {s s' : St} (h : Inv s)
    (hs : s.processRemoved cost l = some s') :
    Inv s' ∧ s'.ptrs = s.ptrs ∧ s'.building = s.building ∧
      s'.asgs.map Asg.of = (s.asgs.map Asg.of).filter (fun x => !l.contains x) ∧
      (∀ r c, c ∈ s'.keys r ↔ (c ∈ s.keys r ∧ (r, c) ∉ l)) := by
  cases h1 : s.unmap cost l with
  | none => simp only [St.processRemoved, h1] at hs; cases hs
  | some y =>
  obtain ⟨s1, marks⟩ := y
  simp only [St.processRemoved, h1, Option.some.injEq] at hs
  subst hs
  obtain ⟨h2, h3, h4, h5, h6, h7, h8⟩ := (unmap_spec cost l s h.all_has).2 s1 marks h1
  have hmark : ∀ a ∈ s.asgs, (marks.contains a.id = l.contains a.of) := by
    intro a ha
    rw [Bool.eq_iff_iff]
    simp only [List.contains_iff_mem, h8]
    constructor
    · rintro ⟨x, hx, hi⟩
      rw [h.val] at hi
      obtain ⟨b, hb, hab⟩ := List.mem_map.1 hi
      obtain ⟨hb1, hb2⟩ := List.mem_filter.1 hb
      have : b = a := id_inj h.nodup hb1 ha hab
      rw [← this, eq_of_beq hb2]; exact hx
    · intro hx
      refine ⟨a.of, hx, ?_⟩
      rw [h.val]
      exact List.mem_map.2 ⟨a, List.mem_filter.2 ⟨ha, by simp [Asg.of]⟩, rfl⟩
  have hasg : s1.asgs.filter (fun a => !marks.contains a.id) = s.asgs.filter (fun a => !l.contains a.of) := by
    rw [h2]
    exact List.filter_congr fun a ha => by rw [hmark a ha]
  refine ⟨⟨?_, ?_, ?_, ?_⟩, h4, h5, ?_, h7⟩
  · simp only [hasg]
    exact h.nodup.sublist (List.Sublist.map _ List.filter_sublist)
  · simp only [hasg, h3]
    exact fun a ha => h.lt a (List.mem_filter.1 ha).1
  · intro r c
    simp only [St.ids, hasg, h6]
    by_cases hx : (r, c) ∈ l
    · rw [if_pos hx, List.filter_filter]
      symm
      rw [List.map_eq_nil_iff, List.filter_eq_nil_iff]
      intro a _ hh
      simp only [Bool.and_eq_true, beq_iff_eq, Bool.not_eq_eq_eq_not, Bool.not_true] at hh
      rw [hh.1] at hh
      simp [hx] at hh
    · rw [if_neg hx, h.val, St.ids, List.filter_filter]
      congr 1
      apply List.filter_congr
      intro a _
      by_cases ha : a.of = (r, c)
      · simp [ha, hx]
      · have : (a.of == (r, c)) = false := by simp [ha]
        simp [this]
  · intro a ha
    simp only [hasg] at ha
    obtain ⟨h9, h10⟩ := List.mem_filter.1 ha
    refine (h7 _ _).2 ⟨h.key a h9, fun hx => ?_⟩
    simp [Asg.of, hx] at h10
  · simp only [hasg]
    rw [List.filter_map]; rfl

theorem processRemoved_alive (cost : Role → Nat → Nat) (l : List (Role × Nat)) {s : St} (h : Inv s) (hk : ∀ r, s.keysOk r = true) :
    s.processRemoved cost l ≠ none := by
  intro hn
  cases h1 : s.unmap cost l with
  | none => exact (unmap_spec cost l s h.all_has).1 hk h1
  | some y => simp only [St.processRemoved, h1] at hn; cases hn

/-- The invariant does not depend on sizes, pointers and the state of the build. -/
theorem Inv.of_same {s s' : St} (h : Inv s) (h1 : s'.asgs = s.asgs) (h2 : s'.keys = s.keys) (h3 : s'.val = s.val)
    (h4 : s'.next = s.next) : Inv s' := by
  refine ⟨by rw [h1]; exact h.nodup, by rw [h1, h4]; exact h.lt, fun r c => ?_, by rw [h1, h2]; exact h.key⟩
  rw [h3, h.val]; simp only [St.ids, h1]

/-- Same but for the sizes. -/
structure Same (s s' : St) : Prop where
  asgs : s'.asgs = s.asgs
  keys : s'.keys = s.keys
  val : s'.val = s.val
  next : s'.next = s.next
  ptrs : s'.ptrs = s.ptrs
  building : s'.building = s.building

theorem retargetAll_spec (cost : Role → Nat → Nat) (impact : Role → Bool) : ∀ (l : List Role) (s : St), Inv s →
    (∀ s', s.retargetAll cost impact l = some s' → Same s s') ∧
    ((∀ r c, c ∈ s.keys r → s.alive c = true) → s.retargetAll cost impact l ≠ none) := by
  intro l
  induction l with
  | nil => intro s _; exact ⟨fun s' h => by injection h with h; subst h; exact ⟨rfl, rfl, rfl, rfl, rfl, rfl⟩, fun _ h => by cases h⟩
  | cons r l ih =>
    intro s hi
    simp only [St.retargetAll]
    by_cases hr : impact r = true
    · rw [if_pos hr]
      cases ht : s.retarget cost r with
      | none =>
        refine ⟨by simp, fun hk => ?_⟩
        exfalso
        simp only [St.retarget] at ht
        split at ht
        · simp at ht
        · rename_i hh
          apply hh
          rw [List.all_eq_true]
          intro c hc
          rw [hk r c hc, hi.all_has r c]; rfl
      | some s1 =>
        have h1 : Same s s1 := by
          simp only [St.retarget] at ht
          split at ht
          · injection ht with ht; subst ht; exact ⟨rfl, rfl, rfl, rfl, rfl, rfl⟩
          · simp at ht
        obtain ⟨g1, g2⟩ := ih s1 (hi.of_same h1.asgs h1.keys h1.val h1.next)
        refine ⟨fun s' hs' => ?_, fun hk => g2 fun r' c hc => ?_⟩
        · have h2 := g1 s' hs'
          exact ⟨h2.asgs.trans h1.asgs, h2.keys.trans h1.keys, h2.val.trans h1.val, h2.next.trans h1.next, h2.ptrs.trans h1.ptrs,
            h2.building.trans h1.building⟩
        · rw [h1.keys] at hc
          have := hk r' c hc
          simp only [St.alive, h1.asgs, h1.ptrs] at this ⊢
          exact this
    · rw [if_neg hr]; exact ih s hi

/-- The state that an outcome gives. -/
def Out.state : Out → Option St
  | .ok s => some s
  | .threw s => some s
  | _ => none

theorem add_spec (cost : Role → Nat → Nat) {s s' : St} (h : Inv s) (r : Role) (c : Nat) (res : Res)
    (hs : (s.add cost r c res).state = some s') :
    Inv s' ∧ s'.asgs.map Asg.of = s.asgs.map Asg.of ++ List.replicate res.count (r, c) ∧ s'.building = s.building ∧
    s.building = true ∧ (res.returns = true ↔ s.add cost r c res = .ok s') ∧ s'.ptrs = s.ptrs ∧
    (∀ r' c', c' ∈ s'.keys r' → c' ∈ s.keys r' ∨ (r' = r ∧ c' = c ∧ res ≠ .refused)) := by
  cases hb : s.building with
  | false => cases res <;> simp [St.add, hb, Out.state] at hs
  | true =>
    cases res with
    | refused =>
      simp only [St.add, hb, if_true, Out.state, Option.some.injEq] at hs
      subst hs
      refine ⟨h, by simp [Res.count], hb, rfl, by simp [Res.returns, St.add, hb], rfl, fun _ _ => Or.inl⟩
    | failed j =>
      cases hk : s.keysOk r with
      | false => simp [St.add, hb, hk, Out.state] at hs
      | true =>
      simp only [St.add, hb, hk, if_true, Out.state, Option.some.injEq] at hs
      subst hs
      refine ⟨h.make r c j, make_of s r c j, hb, rfl, by simp [Res.returns, St.add, hb, hk], rfl, fun r' c' hc => ?_⟩
      rcases (make_key s r c j r' c').1 hc with hh | ⟨h1, h2⟩
      · exact Or.inl hh
      · exact Or.inr ⟨h1, h2, by simp⟩
    | made k =>
      cases hk : s.keysOk r with
      | false => simp [St.add, hb, hk, Out.state] at hs
      | true =>
      simp only [St.add, hb, hk, if_true, Out.state, Option.some.injEq] at hs
      subst hs
      refine ⟨(h.make r c k).of_same rfl rfl rfl rfl, make_of s r c k, hb, rfl, by simp [Res.returns, St.add, hb, hk], rfl,
        fun r' c' hc => ?_⟩
      rcases (make_key s r c k r' c').1 hc with hh | ⟨h1, h2⟩
      · exact Or.inl hh
      · exact Or.inr ⟨h1, h2, by simp⟩

theorem addAll_spec (cost : Role → Nat → Nat) : ∀ (l : List (Role × Nat × Res)) (s s' : St), Inv s → s.building = true →
    (s.addAll cost l).state = some s' →
    Inv s' ∧ s'.asgs.map Asg.of = s.asgs.map Asg.of ++ addsMade l ∧ s'.building = true ∧
    (l.all (fun x => x.2.2.returns) = true ↔ s.addAll cost l = .ok s') ∧ s'.ptrs = s.ptrs ∧
    (∀ r c, c ∈ s'.keys r → c ∈ s.keys r ∨ ∃ res, (r, c, res) ∈ l ∧ res ≠ .refused ∧ (res.solid → (r, c) ∈ addsMade l)) := by
  intro l
  induction l with
  | nil =>
    intro s s' h hb hs
    simp only [St.addAll, Out.state, Option.some.injEq] at hs
    subst hs
    exact ⟨h, by simp [addsMade], hb, by simp [St.addAll], rfl, fun _ _ => Or.inl⟩
  | cons x l ih =>
    intro s s' h hb hs
    obtain ⟨r, c, res⟩ := x
    have hsolid : res ≠ .refused → res.solid → ∀ L, (r, c) ∈ List.replicate res.count (r, c) ++ L := by
      intro h1 h2 L
      apply List.mem_append_left
      cases res with
      | refused => exact absurd rfl h1
      | failed j => exact List.mem_replicate.2 ⟨Nat.pos_iff_ne_zero.1 h2, rfl⟩
      | made j => exact List.mem_replicate.2 ⟨Nat.pos_iff_ne_zero.1 h2, rfl⟩
    cases ha : s.add cost r c res with
    | asserted => simp only [St.addAll, ha, Out.state] at hs; simp at hs
    | dangling => simp only [St.addAll, ha, Out.state] at hs; simp at hs
    | threw s1 =>
      simp only [St.addAll, ha, Out.state, Option.some.injEq] at hs
      subst hs
      obtain ⟨g1, g2, g3, _, g5, g6, g7⟩ := add_spec cost (s' := s1) h r c res (by rw [ha]; rfl)
      have hret : res.returns = false := by
        cases hh : res.returns with
        | false => rfl
        | true => rw [g5.1 hh] at ha; cases ha
      refine ⟨g1, by simp [addsMade, hret, g2], by rw [g3, hb], by simp [St.addAll, ha, hret], g6, fun r' c' hc => ?_⟩
      rcases g7 r' c' hc with hh | ⟨rfl, rfl, hh⟩
      · exact Or.inl hh
      · exact Or.inr ⟨res, by simp, hh, fun h2 => by simp only [addsMade]; exact hsolid hh h2 _⟩
    | ok s1 =>
      simp only [St.addAll, ha] at hs
      obtain ⟨g1, g2, g3, _, g5, g6, g7⟩ := add_spec cost (s' := s1) h r c res (by rw [ha]; rfl)
      have hret : res.returns = true := g5.2 ha
      obtain ⟨k1, k2, k3, k4, k5, k6⟩ := ih s1 s' g1 (by rw [g3, hb]) hs
      refine ⟨k1, by rw [k2, g2]; simp [addsMade, hret], k3, by simp [St.addAll, ha, hret]; simpa using k4, k5.trans g6,
        fun r' c' hc => ?_⟩
      rcases k6 r' c' hc with hh | ⟨res', hm, hn, hh⟩
      · rcases g7 r' c' hh with hh | ⟨rfl, rfl, hh⟩
        · exact Or.inl hh
        · exact Or.inr ⟨res, by simp, hh, fun h2 => by simp only [addsMade]; exact hsolid hh h2 _⟩
      · refine Or.inr ⟨res', by simp [hm], hn, fun h2 => ?_⟩
        simp only [addsMade, hret, if_true]
        exact List.mem_append_right _ (hh h2)

/-- The keys exist. -/
def Live (s : St) : Prop := ∀ r c, c ∈ s.keys r → s.alive c = true

theorem Live.ok {s : St} (h : Live s) (r : Role) : s.keysOk r = true := List.all_eq_true.2 fun c hc => h r c hc

theorem Live.make {s : St} (h : Live s) (r : Role) {c : Nat} (hc : s.ptrs c = true) (j : Nat) : Live (s.make r c j) := by
  intro r' c' hc'
  simp only [St.alive, St.make, Bool.or_eq_true, List.any_append]
  rcases (make_key s r c j r' c').1 hc' with hh | ⟨_, rfl⟩
  · have := h r' c' hh
    simp only [St.alive, Bool.or_eq_true] at this
    rcases this with h1 | h1
    · exact Or.inl h1
    · exact Or.inr (Or.inl h1)
  · exact Or.inl hc

theorem add_live (cost : Role → Nat → Nat) {s : St} (h : Live s) (r : Role) {c : Nat} (hc : s.ptrs c = true) (res : Res) :
    s.add cost r c res ≠ .dangling ∧ ∀ s', (s.add cost r c res).state = some s' → Live s' := by
  cases hb : s.building with
  | false => cases res <;> simp [St.add, hb, Out.state]
  | true =>
    cases res with
    | refused => simp only [St.add, hb, if_true, Out.state]; exact ⟨by simp, fun s' hs => by injection hs with hs; subst hs; exact h⟩
    | failed j =>
      simp only [St.add, hb, h.ok r, if_true, Out.state]
      exact ⟨by simp, fun s' hs => by injection hs with hs; subst hs; exact h.make r hc j⟩
    | made k =>
      simp only [St.add, hb, h.ok r, if_true, Out.state]
      exact ⟨by simp, fun s' hs => by injection hs with hs; subst hs; exact h.make r hc k⟩

theorem addAll_not_dangling (cost : Role → Nat → Nat) : ∀ (l : List (Role × Nat × Res)) (s : St), Inv s → Live s →
    (∀ x ∈ l, s.ptrs x.2.1 = true) → s.addAll cost l ≠ .dangling := by
  intro l
  induction l with
  | nil => intro s _ _ _ h; cases h
  | cons x l ih =>
    intro s hi hl hp h
    obtain ⟨r, c, res⟩ := x
    obtain ⟨l1, l2⟩ := add_live cost hl r (c := c) (hp (r, c, res) (by simp)) res
    simp only [St.addAll] at h
    cases ha : s.add cost r c res with
    | ok s1 =>
      rw [ha] at h
      obtain ⟨g1, _, _, _, _, g6, _⟩ := add_spec cost (s' := s1) hi r c res (by rw [ha]; rfl)
      exact ih s1 g1 (l2 s1 (by rw [ha]; rfl)) (fun x hx => by rw [g6]; exact hp x (by simp [hx])) h
    | threw s1 => rw [ha] at h; cases h
    | asserted => rw [ha] at h; cases h
    | dangling => exact l1 ha

/-- The keys are the constraints that have assignments. -/
def Solid (s : St) : Prop := ∀ r c, c ∈ s.keys r → (r, c) ∈ s.asgs.map Asg.of

theorem Solid.live {s : St} (h : Solid s) : Live s := by
  intro r c hc
  obtain ⟨a, ha, hac⟩ := List.mem_map.1 (h r c hc)
  simp only [Asg.of, Prod.mk.injEq] at hac
  simp only [St.alive, Bool.or_eq_true]
  exact Or.inr (List.any_eq_true.2 ⟨a, ha, by simp [hac.2]⟩)

/-- What `process` does. -/
theorem process_spec (cost : Role → Nat → Nat) {s : St} (h : Inv s) (b : Batch) :
    (∀ s', (s.process cost b).state = some s' → Inv s' ∧
      s'.asgs.map Asg.of = (s.asgs.map Asg.of).filter (fun x => !b.removed.contains x) ++ addsMade b.added ∧
      s'.building = !b.added.all (fun x => x.2.2.returns) ∧
      (Solid s → (∀ x ∈ b.added, x.2.2.solid) → Solid s')) ∧
    (Solid s → (∀ x ∈ b.added, s.ptrs x.2.1 = true) → s.process cost b ≠ .dangling) := by
  cases h1 : s.processRemoved cost b.removed with
  | none =>
    refine ⟨fun s' hs' => ?_, fun hso _ => absurd h1 (processRemoved_alive cost b.removed h hso.live.ok)⟩
    simp only [St.process, h1] at hs'
    split at hs' <;> simp [Out.state] at hs'
  | some s1 =>
  obtain ⟨h2, h3, h4, h5, h6⟩ := processRemoved_spec cost b.removed h h1
  have hp : Inv (s1.preview cost b.added) := h2.of_same rfl rfl rfl rfl
  obtain ⟨r1, r2⟩ := retargetAll_spec cost b.impact [.eq, .ineq, .bnd, .obj] _ hp
  have hsol1 : Solid s → Solid s1 := by
    intro hso r c hc
    obtain ⟨hc1, hc2⟩ := (h6 r c).1 hc
    rw [h5, List.mem_filter]
    exact ⟨hso r c hc1, by simp [hc2]⟩
  constructor
  · intro s' hs'
    simp only [St.process, h1] at hs'
    split at hs'
    case isFalse => simp [Out.state] at hs'
    cases ht : (s1.preview cost b.added).retargetAll cost b.impact [.eq, .ineq, .bnd, .obj] with
    | none => simp only [ht] at hs'; simp [Out.state] at hs'
    | some s2 =>
      have hsame := r1 s2 ht
      have hi2 : Inv { s2 with building := true } := hp.of_same hsame.asgs hsame.keys hsame.val hsame.next
      simp only [ht] at hs'
      have hsol : ∀ s3 : St, (St.addAll cost { s2 with building := true } b.added).state = some s3 → Solid s →
          (∀ x ∈ b.added, x.2.2.solid) → Solid s3 := by
        intro s3 h3' hso hall r c hc
        obtain ⟨k1, k2, k3, k4, k5, k6⟩ := addAll_spec cost b.added _ s3 hi2 rfl h3'
        rw [k2]
        rcases k6 r c hc with hh | ⟨res, hm, hn, hh⟩
        · apply List.mem_append_left
          have hk : c ∈ s1.keys r := by
            have : c ∈ s2.keys r := hh
            rw [hsame.keys] at this; exact this
          have := hsol1 hso r c hk
          have e : s2.asgs = s1.asgs := hsame.asgs
          change (r, c) ∈ s2.asgs.map Asg.of
          rw [e]; exact this
        · exact List.mem_append_right _ (hh (hall _ hm))
      have e : (s2.asgs).map Asg.of = (s.asgs.map Asg.of).filter (fun x => !b.removed.contains x) := by
        have e : s2.asgs = s1.asgs := hsame.asgs
        rw [e, h5]
      cases ha : St.addAll cost { s2 with building := true } b.added with
      | asserted => simp only [ha] at hs'; simp [Out.state] at hs'
      | dangling => simp only [ha] at hs'; simp [Out.state] at hs'
      | threw s3 =>
        simp only [ha, Out.state, Option.some.injEq] at hs'
        subst hs'
        obtain ⟨k1, k2, k3, k4, k5, k6⟩ := addAll_spec cost b.added _ s3 hi2 rfl (by rw [ha]; rfl)
        refine ⟨k1, by rw [k2]; simp only [e], ?_, hsol s3 (by rw [ha]; rfl)⟩
        rw [k3]
        cases hh : b.added.all (fun x => x.2.2.returns) with
        | false => rfl
        | true => rw [k4.1 hh] at ha; cases ha
      | ok s3 =>
        simp only [ha] at hs'
        obtain ⟨k1, k2, k3, k4, k5, k6⟩ := addAll_spec cost b.added _ s3 hi2 rfl (by rw [ha]; rfl)
        split at hs'
        · simp only [Out.state, Option.some.injEq] at hs'
          subst hs'
          refine ⟨k1.of_same rfl rfl rfl rfl, by rw [k2]; simp only [e], by rw [k4.2 ha]; rfl, fun hso hall => ?_⟩
          have := hsol s3 (by rw [ha]; rfl) hso hall
          exact this
        · simp [Out.state] at hs'
  · intro hso hpt hd
    have hw : b.weights.all (fun c => s.keysOk .obj && (s.val .obj c).all s.has) = true :=
      List.all_eq_true.2 fun c _ => by rw [h.all_has .obj c, hso.live.ok .obj]; rfl
    simp only [St.process, hw, if_true, h1] at hd
    cases ht : (s1.preview cost b.added).retargetAll cost b.impact [.eq, .ineq, .bnd, .obj] with
    | none =>
      refine r2 ?_ ht
      intro r c hc
      exact (hsol1 hso).live r c hc
    | some s2 =>
      simp only [ht] at hd
      cases ha : St.addAll cost { s2 with building := true } b.added with
      | asserted => simp only [ha] at hd; cases hd
      | dangling =>
        have hsame := r1 s2 ht
        refine addAll_not_dangling cost _ { s2 with building := true } (hp.of_same hsame.asgs hsame.keys hsame.val hsame.next) (fun r c hc => ?_) (fun x hx => ?_) ha
        · have hc : c ∈ s2.keys r := hc
          rw [hsame.keys] at hc
          have := (hsol1 hso).live r c hc
          simp only [St.alive, hsame.asgs, hsame.ptrs] at this ⊢
          exact this
        · have e1 : s2.ptrs = s1.ptrs := hsame.ptrs
          change s2.ptrs x.2.1 = true
          rw [e1, h3]; exact hpt x hx
      | threw s3 => simp only [ha] at hd; cases hd
      | ok s3 => simp only [ha] at hd; split at hd <;> cases hd

theorem step_spec (cost : Role → Nat → Nat) {s : St} (h : Inv s) (op : Op) :
    (∀ s', (s.step cost op).state = some s' → Inv s' ∧ s'.asgs.map Asg.of = op.on (s.asgs.map Asg.of) ∧
      s'.building = op.onBuild s.building ∧ (Solid s → (∀ x ∈ op.adds, x.2.2.solid) → Solid s')) ∧
    (Solid s → Can s op → s.step cost op ≠ .dangling) := by
  cases op with
  | startBuild a b c =>
    refine ⟨fun s' hs => ?_, fun _ _ hd => by cases hd⟩
    simp only [St.step, Out.state, Option.some.injEq] at hs
    subst hs
    refine ⟨⟨by simp, by simp, fun _ _ => by simp [St.ids], by simp⟩, rfl, rfl, fun _ _ r c hc => by simp at hc⟩
  | add r c res =>
    refine ⟨fun s' hs => ?_, fun hso hc => (add_live cost hso.live r hc res).1⟩
    · obtain ⟨g1, g2, g3, _, _, _, g7⟩ := add_spec cost h r c res hs
      refine ⟨g1, g2, g3, fun hso hall r' c' hc => ?_⟩
      rw [g2]
      rcases g7 r' c' hc with hh | ⟨rfl, rfl, hh⟩
      · exact List.mem_append_left _ (hso r' c' hh)
      · apply List.mem_append_right
        have := hall _ (List.mem_singleton.2 rfl)
        cases res with
        | refused => exact absurd rfl hh
        | failed j => exact List.mem_replicate.2 ⟨Nat.pos_iff_ne_zero.1 this, rfl⟩
        | made j => exact List.mem_replicate.2 ⟨Nat.pos_iff_ne_zero.1 this, rfl⟩
  | finalizeBuild =>
    refine ⟨fun s' hs => ?_, fun _ _ hd => ?_⟩
    · simp only [St.step] at hs
      split at hs
      · simp only [Out.state, Option.some.injEq] at hs
        subst hs
        exact ⟨h.of_same rfl rfl rfl rfl, rfl, rfl, fun hso _ => hso⟩
      · simp [Out.state] at hs
    · simp only [St.step] at hd
      split at hd <;> cases hd
  | process b => exact ⟨(process_spec cost h b).1, fun hso hc => (process_spec cost h b).2 hso hc.2⟩
  | solve =>
    refine ⟨fun s' hs => ?_, fun _ _ hd => ?_⟩
    · simp only [St.step] at hs
      split at hs <;>
      · simp only [Out.state, Option.some.injEq] at hs
        subst hs
        exact ⟨h, rfl, rfl, fun hso _ => hso⟩
    · simp only [St.step] at hd
      split at hd <;> cases hd
  | take c =>
    refine ⟨fun s' hs => ?_, fun _ _ hd => by cases hd⟩
    simp only [St.step, Out.state, Option.some.injEq] at hs
    subst hs
    exact ⟨h.of_same rfl rfl rfl rfl, rfl, rfl, fun hso _ => hso⟩
  | release c =>
    refine ⟨fun s' hs => ?_, fun _ _ hd => by cases hd⟩
    simp only [St.step, Out.state, Option.some.injEq] at hs
    subst hs
    exact ⟨h.of_same rfl rfl rfl rfl, rfl, rfl, fun hso _ => hso⟩

theorem run_spec {cost : Role → Nat → Nat} {l : List Op} {s : St} (h : Run cost l s) :
    Inv s ∧ s.asgs.map Asg.of = Made l ∧ s.building = Building l ∧
    ((∀ op ∈ l, ∀ x ∈ op.adds, x.2.2.solid) → Solid s) := by
  have key : ∀ (l : List Op) (s s' : St) (op : Op), (s.step cost op).state = some s' →
      (Inv s ∧ s.asgs.map Asg.of = Made l ∧ s.building = Building l ∧ ((∀ op ∈ l, ∀ x ∈ op.adds, x.2.2.solid) → Solid s)) →
      Inv s' ∧ s'.asgs.map Asg.of = Made (l ++ [op]) ∧ s'.building = Building (l ++ [op]) ∧
        ((∀ op' ∈ l ++ [op], ∀ x ∈ op'.adds, x.2.2.solid) → Solid s') := by
    rintro l s s' op hs ⟨i1, i2, i3, i4⟩
    obtain ⟨g1, g2, g3, g4⟩ := (step_spec cost i1 op).1 s' hs
    refine ⟨g1, by rw [g2, i2]; simp [Made], by rw [g3, i3]; simp [Building], fun hall => ?_⟩
    exact g4 (i4 fun o ho => hall o (by simp [ho])) (hall op (by simp))
  induction h with
  | init => exact ⟨⟨by simp, by simp, fun _ _ => by simp [St.ids], by simp⟩, rfl, rfl, fun _ r c hc => by simp at hc⟩
  | ok l s s' op _ _ hs ih => exact key l s s' op (by rw [hs]; rfl) ih
  | threw l s s' op _ _ hs ih => exact key l s s' op (by rw [hs]; rfl) ih

/-! ## Properties -/

/-- **C120.** Whatever the builds, additions, removals and exceptions, the assignments that a resolution runs are, in this order, those made for
the constraints added and not removed since; a resolution runs them if and only if the last build or processing is finished, and
throws otherwise. -/
theorem C120_assignments {cost : Role → Nat → Nat} {l : List Op} {s : St} (h : Run cost l s) :
    s.asgs.map (fun a => (a.role, a.c)) = Made l ∧
    s.step cost .solve = if Building l then .threw s else .ok s := by
  obtain ⟨_, h2, h3, _⟩ := run_spec h
  refine ⟨h2, ?_⟩
  simp only [St.step, h3]

/-- **C120.** The maps register each assignment once, under the constraint and in the role for which it was made, and nothing else: no
pointer in them is to a destroyed assignment. -/
theorem C120_registered {cost : Role → Nat → Nat} {l : List Op} {s : St} (h : Run cost l s) :
    (s.asgs.map (·.id)).Nodup ∧
    (∀ r c i, i ∈ s.val r c ↔ ⟨i, r, c⟩ ∈ s.asgs) ∧ (∀ r c, (s.val r c).Nodup) ∧ (∀ r c i, i ∈ s.val r c → c ∈ s.keys r) := by
  obtain ⟨hi, _⟩ := run_spec h
  have h1 : ∀ r c i, i ∈ s.val r c ↔ ⟨i, r, c⟩ ∈ s.asgs := by
    intro r c i
    rw [hi.val, St.ids, List.mem_map]
    constructor
    · rintro ⟨a, ha, rfl⟩
      obtain ⟨h1, h2⟩ := List.mem_filter.1 ha
      have := eq_of_beq h2
      simp only [Asg.of, Prod.mk.injEq] at this
      rw [← this.1, ← this.2]; exact h1
    · intro ha
      exact ⟨_, List.mem_filter.2 ⟨ha, by simp [Asg.of]⟩, rfl⟩
  refine ⟨hi.nodup, h1, fun r c => ?_, fun r c i hic => ?_⟩
  · rw [hi.val, St.ids]
    exact hi.nodup.sublist (List.Sublist.map _ List.filter_sublist)
  · exact hi.key _ ((h1 r c i).1 hic)

/-- **C120.** Whatever the program does with its own pointers to the constraints, no call reads a destroyed constraint or a destroyed
assignment, and the keys of the maps are the constraints that have assignments, provided that every addition that begins
makes an assignment and that the constraints given exist. Missing: additions that throw before their first assignment, for which this is false (`C120_key_false`). -/
theorem C120_alive_partial {cost : Role → Nat → Nat} {l : List Op} {s : St} (h : Run cost l s)
    (hs : ∀ op ∈ l, ∀ x ∈ op.adds, x.2.2.solid) (op : Op) (hop : Can s op) :
    s.step cost op ≠ .dangling ∧ ∀ r c, c ∈ s.keys r ↔ (r, c) ∈ Made l := by
  obtain ⟨hi, h2, _, h4⟩ := run_spec h
  refine ⟨(step_spec cost hi op).2 (h4 hs) hop, fun r c => ⟨fun hc => h2 ▸ h4 hs r c hc, fun hc => ?_⟩⟩
  rw [← h2] at hc
  obtain ⟨a, ha, hac⟩ := List.mem_map.1 hc
  have := hi.key a ha
  simp only [Asg.of, Prod.mk.injEq] at hac
  rw [hac.1, hac.2] at this
  exact this

/-! ### Counterexamples -/

theorem can_process {s : St} {b : Batch} (h1 : b.removed.all (fun x => s.ptrs x.2) = true)
    (h2 : b.added.all (fun x => s.ptrs x.2.1) = true) : Can s (.process b) :=
  ⟨fun x hx => List.all_eq_true.1 h1 x hx, fun x hx => List.all_eq_true.1 h2 x hx⟩

/-- Sizes for the examples: 2 rows, none for a bound. -/
def two : Role → Nat → Nat := fun r _ => if r = .bnd then 0 else 2

/-- The restriction is needed: the addition of an equality constraint throws (its assignment cannot be made), the program destroys the
constraint, and adds another one: `process` reads the destroyed constraint, whose entry was left in the map. -/
theorem C120_key_false : ∃ l s b, Run two l s ∧ Can s (.process b) ∧ (∀ x ∈ b.added, x.2.2 = .made 1) ∧
    s.step two (.process b) = .dangling := by
  refine ⟨_, _, { added := [(.eq, 1, .made 1)], impact := fun r => r = .eq },
    .ok _ _ _ (.take 1) (.ok _ _ _ (.release 0) (.threw _ _ _ (.process { added := [(.eq, 0, .failed 0)], impact := fun r => r = .eq })
      (.ok _ _ _ .finalizeBuild (.ok _ _ _ (.startBuild 0 0 0) (.ok _ _ _ (.take 0) .init trivial rfl) trivial rfl) trivial rfl)
      ?_ rfl) trivial rfl) trivial rfl, ?_, ?_, rfl⟩
  · exact can_process rfl rfl
  · exact can_process rfl rfl
  · simp

/-- After the addition of an equality constraint that throws, the next processing succeeds, and so does the resolution: the
solver has two rows of equality constraints that no assignment writes. -/
theorem C120_rows_false : ∃ l s, Run two l s ∧ s.step two .solve = .ok s ∧ s.n .eq = 2 ∧ s.size .eq = 2 ∧
    (∀ a ∈ s.asgs, a.role ≠ .eq) ∧ s.asgs ≠ [] := by
  refine ⟨_, _, .ok _ _ _ (.process { added := [(.obj, 0, .made 1)], impact := fun r => r = .obj })
    (.threw _ _ _ (.process { added := [(.eq, 0, .failed 0)], impact := fun r => r = .eq })
      (.ok _ _ _ .finalizeBuild (.ok _ _ _ (.startBuild 0 0 0) (.ok _ _ _ (.take 0) .init trivial rfl) trivial rfl) trivial rfl)
      ?_ rfl) ?_ rfl, rfl, rfl, rfl, ?_, ?_⟩
  · exact can_process rfl rfl
  · exact can_process rfl rfl
  · intro a ha
    have : a = ⟨0, .obj, 0⟩ := by
      have : a ∈ [(⟨0, .obj, 0⟩ : Asg)] := ha
      simpa using this
    rw [this]; decide
  · intro hh; cases hh

/-- A solver whose additions make several assignments, and throw in between, keeps the first ones: a resolution runs a part of
the constraint. (The solvers of the library make one assignment for each addition.) -/
theorem C120_half_false : ∃ l s, Run two l s ∧ s.step two .solve = .ok s ∧ (∃ a ∈ s.asgs, a.c = 0) ∧
    (∀ op ∈ l, ∀ x ∈ op.adds, x.2.1 = 0 → x.2.2 = .failed 1) := by
  refine ⟨_, _, .ok _ _ _ (.process {}) (.threw _ _ _ (.process { added := [(.eq, 0, .failed 1)], impact := fun r => r = .eq })
      (.ok _ _ _ .finalizeBuild (.ok _ _ _ (.startBuild 0 0 0) (.ok _ _ _ (.take 0) .init trivial rfl) trivial rfl) trivial rfl)
      ?_ rfl) ?_ rfl, rfl, ⟨⟨0, .eq, 0⟩, List.mem_singleton.2 rfl, rfl⟩, ?_⟩
  · exact can_process rfl rfl
  · exact can_process rfl rfl
  · simp only [List.mem_append, List.mem_singleton, List.not_mem_nil, false_or]
    rintro op (((((rfl | rfl) | rfl) | rfl) | rfl)) x hx h0 <;> simp [Op.adds] at hx
    rw [hx]

/-! ### A case that meets the hypotheses -/

/-- Two constraints and an objective are built, then a constraint is removed and a bound added while the addition of an objective is
refused; a processing without addition ends the build. -/
example : ∃ l s, Run two l s ∧ (∀ op ∈ l, ∀ x ∈ op.adds, x.2.2.solid) ∧ Made l = [(.ineq, 1), (.obj, 2), (.bnd, 3)] ∧
    Building l = true ∧ s.val .bnd 3 = [3] := by
  refine ⟨_, _, .threw _ _ _ (.process { removed := [(.eq, 0)], added := [(.bnd, 3, .made 1), (.obj, 0, .refused)], impact := fun r => r = .eq })
    (.ok _ _ _ .finalizeBuild (.ok _ _ _ (.add .obj 2 (.made 1)) (.ok _ _ _ (.add .ineq 1 (.made 1)) (.ok _ _ _ (.add .eq 0 (.made 1))
      (.ok _ _ _ (.startBuild 2 2 2) (.ok _ _ _ (.take 3) (.ok _ _ _ (.take 2) (.ok _ _ _ (.take 1) (.ok _ _ _ (.take 0) .init trivial rfl)
        trivial rfl) trivial rfl) trivial rfl) trivial rfl) ?_ rfl) ?_ rfl) ?_ rfl) trivial rfl) ?_ rfl, ?_, rfl, rfl, rfl⟩
  · rfl
  · rfl
  · rfl
  · exact can_process rfl rfl
  · simp only [List.mem_append, List.mem_singleton, List.not_mem_nil, false_or]
    rintro op (((((((((rfl | rfl) | rfl) | rfl) | rfl) | rfl) | rfl) | rfl) | rfl) | rfl) x hx <;> simp [Op.adds] at hx
    · rw [hx]; simp [Res.solid]
    · rw [hx]; simp [Res.solid]
    · rw [hx]; simp [Res.solid]
    · rcases hx with rfl | rfl <;> simp [Res.solid]

/-! ### The sizes announced -/

/-- The rows of the additions of `A` in role `r` that return -/
def rows (cost : Role → Nat → Nat) (r : Role) : List (Role × Nat × Res) → Nat
  | [] => 0
  | (r', c, res) :: A => (if r' = r ∧ res.returns = true then cost r c else 0) + rows cost r A

theorem rows_append (cost : Role → Nat → Nat) (r : Role) (A B : List (Role × Nat × Res)) : rows cost r (A ++ B) = rows cost r A + rows cost r B := by
  induction A with
  | nil => simp [rows]
  | cons a A ih => simp [rows, ih, Nat.add_assoc]

theorem run_snoc {cost : Role → Nat → Nat} {l : List Op} {op : Op} {s : St} (h : Run cost (l ++ [op]) s) : ∃ s0, Run cost l s0 ∧ (s0.step cost op = .ok s ∨ s0.step cost op = .threw s) := by
  generalize hl : l ++ [op] = l' at h
  cases h with
  | init => simp at hl
  | ok l0 s0 _ op0 h0 _ h2 =>
    obtain ⟨h3, h4⟩ := List.append_inj' hl rfl
    injection h4 with h4 _
    subst h3 h4
    exact ⟨s0, h0, Or.inl h2⟩
  | threw l0 s0 _ op0 h0 _ h2 =>
    obtain ⟨h3, h4⟩ := List.append_inj' hl rfl
    injection h4 with h4 _
    subst h3 h4
    exact ⟨s0, h0, Or.inr h2⟩

/-- The numbers given to `startBuild` -/
def announced (nObj nEq nIneq : Nat) : Role → Nat
  | .obj => nObj
  | .eq => nEq
  | .ineq => nIneq
  | .bnd => 0

theorem add_sizes {cost : Role → Nat → Nat} {s s' : St} {r : Role} {c : Nat} {res : Res} (h : s.add cost r c res = .ok s' ∨ s.add cost r c res = .threw s') :
    s'.n = s.n ∧ ∀ r', s'.size r' = s.size r' + rows cost r' [(r, c, res)] := by
  cases res with
  | refused =>
    simp only [St.add] at h
    split at h
    · rcases h with h | h <;> cases h
      simp [rows, Res.returns]
    · rcases h with h | h <;> cases h
  | failed j =>
    simp only [St.add] at h
    split at h
    · split at h
      · rcases h with h | h <;> cases h
        simp [rows, Res.returns, St.make]
      · rcases h with h | h <;> cases h
    · rcases h with h | h <;> cases h
  | made k =>
    simp only [St.add] at h
    split at h
    · split at h
      · rcases h with h | h <;> cases h
        refine ⟨rfl, fun r' => ?_⟩
        by_cases hr : r' = r
        · subst hr; simp [rows, Res.returns, upd, St.make]
        · have hr' : ¬ r = r' := fun e => hr e.symm
          simp [rows, upd, St.make, hr, hr']
      · rcases h with h | h <;> cases h
    · rcases h with h | h <;> cases h

theorem build_sizes {cost : Role → Nat → Nat} {l : List Op} {nObj nEq nIneq : Nat} (A : List (Role × Nat × Res)) :
    ∀ {s : St}, Run cost (l ++ [.startBuild nObj nEq nIneq] ++ A.reverse.map fun x => .add x.1 x.2.1 x.2.2) s →
      (∀ r, s.n r = announced nObj nEq nIneq r) ∧ ∀ r, s.size r = rows cost r A.reverse := by
  induction A with
  | nil =>
    intro s h
    simp only [List.reverse_nil, List.map_nil, List.append_nil] at h
    obtain ⟨s0, _, h | h⟩ := run_snoc h
    · cases h
      exact ⟨fun r => by cases r <;> rfl, fun r => rfl⟩
    · cases h
  | cons a A ih =>
    intro s h
    rw [List.reverse_cons, List.map_append, ← List.append_assoc] at h
    obtain ⟨s0, h0, h1⟩ := run_snoc h
    obtain ⟨k1, k2⟩ := ih h0
    obtain ⟨j1, j2⟩ := add_sizes h1
    refine ⟨fun r => by rw [j1]; exact k1 r, fun r => ?_⟩
    rw [j2, k2, List.reverse_cons, rows_append, Int.natCast_add]

/-- **C120.** A build ends exactly when the rows of the objectives, of the equality constraints and of the inequality constraints that were added since it began are as many as announced, the bounds not being counted; otherwise an assertion
fails. -/
theorem C120_announced {cost : Role → Nat → Nat} {l : List Op} {s : St} {nObj nEq nIneq : Nat} (A : List (Role × Nat × Res))
    (h : Run cost (l ++ [.startBuild nObj nEq nIneq] ++ A.map fun x => .add x.1 x.2.1 x.2.2) s) :
    ((∃ s', s.step cost .finalizeBuild = .ok s') ↔ rows cost .obj A = nObj ∧ rows cost .eq A = nEq ∧ rows cost .ineq A = nIneq) ∧
    (s.step cost .finalizeBuild = .asserted ↔ ¬ ∃ s', s.step cost .finalizeBuild = .ok s') := by
  obtain ⟨h1, h2⟩ := build_sizes (cost := cost) (l := l) A.reverse (s := s) (by rw [List.reverse_reverse]; exact h)
  rw [List.reverse_reverse] at h2
  have key : s.sizesOk = true ↔ rows cost .obj A = nObj ∧ rows cost .eq A = nEq ∧ rows cost .ineq A = nIneq := by
    simp only [St.sizesOk, h1, h2, announced, Bool.and_eq_true, beq_iff_eq, Int.natCast_inj]
    constructor
    · rintro ⟨⟨a, b⟩, c⟩; exact ⟨a.symm, b.symm, c.symm⟩
    · rintro ⟨a, b, c⟩; exact ⟨⟨a.symm, b.symm⟩, c.symm⟩
  rw [← key]
  simp only [St.step]
  split <;> simp_all

/-- **C120.** A processing that returns leaves as many rows as the solver has, in the three kinds. -/
theorem C120_processed {cost : Role → Nat → Nat} {s s' : St} {b : Batch} (h : s.step cost (.process b) = .ok s') : ∀ r, r ≠ .bnd → s'.n r = s'.size r := by
  simp only [St.step, St.process] at h
  split at h
  · split at h
    · cases h
    · split at h
      · cases h
      · split at h
        · split at h
          · next hs =>
            cases h
            simp only [St.sizesOk, Bool.and_eq_true, beq_iff_eq] at hs
            intro r hr
            cases r
            · exact hs.1.2
            · exact hs.2
            · exact absurd rfl hr
            · exact hs.1.1
          · cases h
        · next ho => subst_vars; simp_all
  · cases h

/-- Two rows of each kind are announced; the addition of an inequality constraint is refused: the build does not end. With the other one it ends. -/
example : ∃ l s, Run two (l ++ [.startBuild 2 2 2] ++ [(Role.eq, 0, Res.made 1), (.ineq, 1, .refused), (.obj, 2, .made 1)].map fun x => .add x.1 x.2.1 x.2.2) s ∧ s.step two .finalizeBuild = .asserted ∧
    ∃ s', s.step two (.add .ineq 1 (.made 1)) = .ok s' ∧ (∃ s'', s'.step two .finalizeBuild = .ok s'') := by
  have h := Run.ok (cost := two) _ _ _ (.add .obj 2 (.made 1)) (.threw _ _ _ (.add .ineq 1 .refused) (.ok _ _ _ (.add .eq 0 (.made 1))
      (.ok _ _ _ (.startBuild 2 2 2) (.ok _ _ _ (.take 2) (.ok _ _ _ (.take 1) (.ok _ _ _ (.take 0) .init trivial rfl)
        trivial rfl) trivial rfl) trivial rfl) rfl rfl) rfl rfl) rfl rfl
  exact ⟨[.take 0, .take 1, .take 2], _, h, rfl, _, rfl, _, rfl⟩

end Verif.SB
