import Verif.Lemmas.WeightedLeastSquares
/-!
# Building the data from the problem
-/
set_option autoImplicit false
set_option linter.unusedSimpArgs false

namespace Verif.PB
open Verif.SE Verif.LS

/-- The entries of a map not used by substitutions. -/
def live (p : Problem) (l : List (Nat × Cstr)) : List (Nat × Cstr) := l.filter (fun e => !uses p.subs e.2)

/-- The live entries with a given role. -/
def role (E : Env) (p : Problem) (k : Cat) (l : List (Nat × Cstr)) : List (Nat × Cstr) :=
  (live p l).filter (fun e => catOf E p e.1 = k)

/-- What the scan computes, starting from `a`. -/
def scanned (E : Env) (p : Problem) (l : List (Nat × Cstr)) (a : Scan) : Scan :=
  ⟨a.vars ++ (live p l).flatMap (fun e => varsOf E p e.1),
   a.constr ++ (live p l).filter (fun e => catOf E p e.1 ≠ .bnd),
   a.bounds ++ (role E p .bnd l).map (·.2),
   a.nEq + ((role E p .cstr l).map (fun e => if e.2.isEquality then constraintSize E.kind e.2 else 0)).sum,
   a.nIneq + ((role E p .cstr l).map (fun e => if e.2.isEquality then 0 else constraintSize E.kind e.2)).sum,
   a.nObj + ((role E p .obj l).map (fun e => e.2.size)).sum,
   (role E p .obj l).foldl (fun m e => max m (E.task e.1).prio) a.maxp⟩

/-- Conditions for the scan to succeed. -/
def Scannable (E : Env) (p : Problem) (l : List (Nat × Cstr)) : Prop :=
  ∀ e ∈ live p l, accepted E e.1 = true ∧ (catOf E p e.1 = .obj → e.2.type = .equal)

theorem scanAll_spec (E : Env) (p : Problem) : ∀ (l : List (Nat × Cstr)) (a b : Scan),
    scanAll E p l a = .ok b ↔ (Scannable E p l ∧ b = scanned E p l a) := by
  intro l
  induction l with
  | nil =>
    intro a b
    simp only [scanAll, Scannable, live, List.filter_nil, List.not_mem_nil, false_implies, implies_true, true_and,
      scanned, role, List.flatMap_nil, List.append_nil, List.map_nil, List.sum_nil, Nat.add_zero, List.foldl_nil]
    exact ⟨fun h => by injection h with h; exact h.symm, fun h => by rw [h]⟩
  | cons e l ih =>
    intro a b
    by_cases hu : uses p.subs e.2 = true
    · have h1 : scanOne E p a e = .ok a := by simp [scanOne, hu]
      have h2 : live p (e :: l) = live p l := by simp [live, hu]
      simp only [scanAll, h1, ih]
      simp only [Scannable, scanned, role, h2]
    · simp only [Bool.not_eq_true] at hu
      have h2 : live p (e :: l) = e :: live p l := by simp [live, hu]
      by_cases ha : accepted E e.1 = true
      · simp only [scanAll, scanOne, hu, Bool.false_eq_true, if_false, ha, Bool.true_eq_false]
        cases hc : catOf E p e.1 with
        | bnd =>
          simp only [ih]
          have h3 : Scannable E p (e :: l) ↔ Scannable E p l := by
            simp only [Scannable, h2, List.mem_cons, forall_eq_or_imp]
            simp [ha, hc]
          rw [h3]
          have h4 : scanned E p (e :: l) a =
              scanned E p l { a with vars := a.vars ++ varsOf E p e.1, bounds := a.bounds ++ [e.2] } := by
            simp [scanned, role, h2, hc]
          rw [h4]
        | obj =>
          by_cases ht : e.2.type = .equal
          · simp only [ht, ne_eq, not_true_eq_false, if_false, ih]
            have h3 : Scannable E p (e :: l) ↔ Scannable E p l := by
              simp only [Scannable, h2, List.mem_cons, forall_eq_or_imp]
              simp [ha, hc, ht]
            rw [h3]
            have h4 : scanned E p (e :: l) a =
                scanned E p l { a with vars := a.vars ++ varsOf E p e.1, nObj := a.nObj + e.2.size, maxp := max a.maxp (E.task e.1).prio, constr := a.constr ++ [e] } := by
              simp [scanned, role, h2, hc, Nat.add_assoc]
            rw [h4]
          · simp only [ne_eq, ht, not_false_eq_true, if_true]
            constructor
            · intro h; simp at h
            · rintro ⟨h, _⟩
              exact absurd ((h e (by rw [h2]; simp)).2 hc) ht
        | cstr =>
          have h3 : Scannable E p (e :: l) ↔ Scannable E p l := by
            simp only [Scannable, h2, List.mem_cons, forall_eq_or_imp]
            simp [ha, hc]
          rw [h3]
          by_cases he : e.2.isEquality = true
          · simp only [he, if_true, ih]
            have h4 : scanned E p (e :: l) a =
                scanned E p l { a with vars := a.vars ++ varsOf E p e.1, nEq := a.nEq + constraintSize E.kind e.2, constr := a.constr ++ [e] } := by
              simp [scanned, role, h2, hc, he, Nat.add_assoc]
            rw [h4]
          · simp only [he, Bool.false_eq_true, if_false, ih]
            have h4 : scanned E p (e :: l) a =
                scanned E p l { a with vars := a.vars ++ varsOf E p e.1, nIneq := a.nIneq + constraintSize E.kind e.2, constr := a.constr ++ [e] } := by
              simp [scanned, role, h2, hc, he, Nat.add_assoc]
            rw [h4]
      · simp only [Bool.not_eq_true] at ha
        simp only [scanAll, scanOne, hu, Bool.false_eq_true, if_false, ha, if_true]
        constructor
        · intro h; simp at h
        · rintro ⟨h, _⟩
          have := (h e (by rw [h2]; simp)).1
          simp [ha] at this

/-- The constraints with a given role in a map. -/
def CatSet (E : Env) (p : Problem) (m : List (Nat × Cstr)) (k : Cat) (c : Cstr) : Prop :=
  ∃ t, get m t = some c ∧ uses p.subs c = false ∧ catOf E p t = k

theorem mem_role {E : Env} {p : Problem} {m : List (Nat × Cstr)} (hn : (keysOf m).Nodup) (k : Cat) (t : Nat) (c : Cstr) :
    (t, c) ∈ role E p k m ↔ (get m t = some c ∧ uses p.subs c = false ∧ catOf E p t = k) := by
  simp only [role, live, List.mem_filter, mem_get hn, Bool.not_eq_eq_eq_not, Bool.not_true, decide_eq_true_eq, and_assoc]

theorem mem_role_map {E : Env} {p : Problem} {m : List (Nat × Cstr)} (hn : (keysOf m).Nodup) (k : Cat) (c : Cstr) :
    c ∈ (role E p k m).map (·.2) ↔ CatSet E p m k c := by
  simp only [List.mem_map, CatSet]
  constructor
  · rintro ⟨⟨t, d⟩, h, rfl⟩
    exact ⟨t, (mem_role hn k t d).1 h⟩
  · rintro ⟨t, h⟩
    exact ⟨(t, c), (mem_role hn k t c).2 h, rfl⟩

theorem snd_nodup {m : List (Nat × Cstr)} (hn : (keysOf m).Nodup)
    (hi : ∀ t u c, get m t = some c → get m u = some c → t = u) : (m.map (·.2)).Nodup := by
  have h1 : m.Pairwise (fun a b => a.1 ≠ b.1) := List.pairwise_map.1 hn
  refine List.pairwise_map.2 (h1.imp_of_mem ?_)
  intro a b ha hb hab he
  obtain ⟨t, c⟩ := a
  obtain ⟨u, d⟩ := b
  simp only at he hab
  subst he
  exact hab (hi t u c ((mem_get hn _ _).1 ha) ((mem_get hn _ _).1 hb))

theorem role_nodup {E : Env} {p : Problem} {m : List (Nat × Cstr)} (hn : (keysOf m).Nodup)
    (hi : ∀ t u c, get m t = some c → get m u = some c → t = u) (k : Cat) : ((role E p k m).map (·.2)).Nodup :=
  ((List.filter_sublist.trans List.filter_sublist).map _).nodup (snd_nodup hn hi)

theorem catOf_zero {E : Env} {p : Problem} {t : Nat} : (E.task t).prio = 0 ↔ catOf E p t ≠ .obj := by
  simp only [catOf]
  by_cases h : (E.task t).prio = 0
  · rw [if_pos h]; split <;> simp [h]
  · rw [if_neg h]; simp [h]

/-- The additions by category. -/
theorem adds_categories (E : Env) (p : Problem) (m : List (Nat × Cstr)) (a : Scan) (ha : a = scanned E p m {}) :
    cstrsOf (addsOf E p a) = (role E p .cstr m).map (·.2) ++ p.extra ∧
    bndsOf (addsOf E p a) = (role E p .bnd m).map (·.2) ∧
    objectivesOf (addsOf E p a) = (role E p .obj m).map (fun e => ⟨e.2, e.1, weightOf E a.maxp e.1⟩) := by
  have key : ∀ (l : List (Nat × Cstr)) (mp : Nat),
      cstrsOf ((l.filter (fun e => catOf E p e.1 ≠ .bnd)).map (addOf E mp)) = (l.filter (fun e => catOf E p e.1 = .cstr)).map (·.2) ∧
      bndsOf ((l.filter (fun e => catOf E p e.1 ≠ .bnd)).map (addOf E mp)) = [] ∧
      objectivesOf ((l.filter (fun e => catOf E p e.1 ≠ .bnd)).map (addOf E mp)) =
        (l.filter (fun e => catOf E p e.1 = .obj)).map (fun e => ⟨e.2, e.1, weightOf E mp e.1⟩) := by
    intro l mp
    induction l with
    | nil => exact ⟨rfl, rfl, rfl⟩
    | cons e l ih =>
      obtain ⟨i1, i2, i3⟩ := ih
      cases hc : catOf E p e.1 with
      | bnd =>
        simp only [List.filter_cons, hc, ne_eq, reduceCtorEq, not_true_eq_false, decide_true, if_true, decide_false, Bool.false_eq_true, if_false]
        exact ⟨i1, i2, i3⟩
      | cstr =>
        have h0 : (E.task e.1).prio = 0 := (catOf_zero (p := p)).2 (by rw [hc]; simp)
        have h1 : addOf E mp e = .cstr e.2 := by simp [addOf, h0]
        simp only [List.filter_cons, hc, ne_eq, reduceCtorEq, not_false_eq_true, decide_true, if_true, List.map_cons, h1,
          decide_false, Bool.false_eq_true, if_false]
        refine ⟨?_, ?_, ?_⟩
        · exact congrArg (e.2 :: ·) i1
        · exact i2
        · exact i3
      | obj =>
        have h0 : (E.task e.1).prio ≠ 0 := fun h => (catOf_zero (p := p)).1 h hc
        have h1 : addOf E mp e = .obj ⟨e.2, e.1, weightOf E mp e.1⟩ := by simp [addOf, h0]
        simp only [List.filter_cons, hc, ne_eq, reduceCtorEq, not_false_eq_true, decide_true, if_true, List.map_cons, h1,
          decide_false, Bool.false_eq_true, if_false]
        refine ⟨?_, ?_, ?_⟩
        · exact i1
        · exact i2
        · exact congrArg (List.cons _) i3
  have ex : ∀ l : List Cstr, cstrsOf (l.map Add.cstr) = l ∧ bndsOf (l.map Add.cstr) = [] ∧ objectivesOf (l.map Add.cstr) = [] := by
    intro l
    induction l with
    | nil => exact ⟨rfl, rfl, rfl⟩
    | cons c l ih =>
      refine ⟨?_, ih.2.1, ih.2.2⟩
      exact congrArg (c :: ·) ih.1
  have eb : ∀ l : List Cstr, cstrsOf (l.map Add.bnd) = [] ∧ bndsOf (l.map Add.bnd) = l ∧ objectivesOf (l.map Add.bnd) = [] := by
    intro l
    induction l with
    | nil => exact ⟨rfl, rfl, rfl⟩
    | cons c l ih =>
      refine ⟨ih.1, ?_, ih.2.2⟩
      exact congrArg (c :: ·) ih.2.1
  have ac : ∀ l m, cstrsOf (l ++ m) = cstrsOf l ++ cstrsOf m := fun l m => List.filterMap_append
  have ab : ∀ l m, bndsOf (l ++ m) = bndsOf l ++ bndsOf m := fun l m => List.filterMap_append
  have ao : ∀ l m, objectivesOf (l ++ m) = objectivesOf l ++ objectivesOf m := fun l m => List.filterMap_append
  obtain ⟨k1, k2, k3⟩ := key (live p m) a.maxp
  have hc : a.constr = (live p m).filter (fun e => catOf E p e.1 ≠ .bnd) := by rw [ha]; simp [scanned]
  have hb : a.bounds = (role E p .bnd m).map (·.2) := by rw [ha]; simp [scanned]
  simp only [addsOf, ac, ab, ao, ex, eb, hc, hb, k1, k2, k3, List.append_nil, List.nil_append]
  simp only [role, and_self]

theorem constraintSize_equal (k : Kind) (c : Cstr) (h : c.type = .equal) : constraintSize k c = c.size := by
  simp [constraintSize, h]

/-- The sizes announced by `processProblem`. -/
theorem scanned_good {E : Env} {p : Problem} (hp : PInv E p) (a : Scan) (ha : a = scanned E p p.cons {}) :
    GoodBuild E.kind a.nObj (a.nEq + (p.extra.map (·.size)).sum) a.nIneq (!a.bounds.isEmpty) (addsOf E p a) := by
  obtain ⟨h1, h2, h3⟩ := adds_categories E p p.cons a ha
  have hb : a.bounds = (role E p .bnd p.cons).map (·.2) := by rw [ha]; simp [scanned]
  have he : ∀ c ∈ p.extra, c.isEquality = true := fun c hc => by simp [Cstr.isEquality, (hp.extraOld c hc).2]
  constructor
  · rw [h1, List.nodup_append]
    refine ⟨role_nodup hp.keysNodup hp.inj _, hp.extraNodup, ?_⟩
    rintro c hc d hd rfl
    obtain ⟨t, ht, _⟩ := (mem_role_map hp.keysNodup _ _).1 hc
    exact hp.extraOther c hd t ht
  · rw [h2]; exact role_nodup hp.keysNodup hp.inj _
  · rw [h3, List.map_map]; exact role_nodup hp.keysNodup hp.inj _
  · rw [h1, List.map_append, List.sum_append, List.map_map, ha]
    have : p.extra.map (fun c => if c.isEquality = true then constraintSize E.kind c else 0) = p.extra.map (·.size) := by
      apply List.map_congr_left
      intro c hc
      rw [if_pos (he c hc), constraintSize_equal _ _ (hp.extraOld c hc).2]
    rw [this]
    simp only [scanned, Nat.zero_add]
    rfl
  · rw [h1, List.map_append, List.sum_append, List.map_map, ha]
    have : p.extra.map (fun c => if c.isEquality = true then 0 else constraintSize E.kind c) = p.extra.map (fun _ => 0) := by
      apply List.map_congr_left
      intro c hc
      rw [if_pos (he c hc)]
    rw [this]
    simp only [scanned, Nat.zero_add]
    have z : ∀ l : List Cstr, (l.map (fun _ => 0)).sum = 0 := by
      intro l; induction l <;> simp_all
    rw [z]
    rfl
  · rw [h3, List.map_map, ha]
    simp only [scanned, Nat.zero_add]
    rfl
  · rw [h2, hb]

end Verif.PB
