import Verif.Model.WeightedLeastSquares
import Verif.Properties.C31_EventQueue
import Verif.Properties.C33_LeastSquareSolver
import Verif.Properties.C58_SchemeAbilities
/-!
# Maps, problem invariant
-/
set_option autoImplicit false
set_option linter.unusedSimpArgs false

namespace Verif.PB
open Verif.SE Verif.LS

/-! ## Maps -/

/-- Keys of a map. -/
def keysOf (l : List (Nat × Cstr)) : List Nat := l.map (·.1)

theorem get_cons (l : List (Nat × Cstr)) (e : Nat × Cstr) (t : Nat) :
    get (e :: l) t = if t = e.1 then some e.2 else get l t := by
  obtain ⟨k, c⟩ := e
  simp only [get, List.lookup_cons]
  by_cases h : t = k
  · simp [h]
  · have : (t == k) = false := by simpa using h
    simp [h, this]

theorem get_mem {l : List (Nat × Cstr)} {t : Nat} {c : Cstr} (h : get l t = some c) : (t, c) ∈ l := by
  induction l with
  | nil => simp [get] at h
  | cons e l ih =>
    rw [get_cons] at h
    by_cases ht : t = e.1
    · rw [if_pos ht] at h
      injection h with h
      rw [ht, ← h]; simp
    · rw [if_neg ht] at h
      exact List.mem_cons_of_mem _ (ih h)

theorem get_isSome (l : List (Nat × Cstr)) (t : Nat) : (get l t).isSome = true ↔ t ∈ keysOf l := by
  induction l with
  | nil => simp [get, keysOf]
  | cons e l ih =>
    rw [get_cons]
    by_cases ht : t = e.1
    · simp [ht, keysOf]
    · rw [if_neg ht, ih]; simp [keysOf, ht]

theorem get_none (l : List (Nat × Cstr)) (t : Nat) : get l t = none ↔ t ∉ keysOf l := by
  rw [← get_isSome]; cases get l t <;> simp

theorem mem_get {l : List (Nat × Cstr)} (hn : (keysOf l).Nodup) (t : Nat) (c : Cstr) : (t, c) ∈ l ↔ get l t = some c := by
  refine ⟨fun h => ?_, get_mem⟩
  induction l with
  | nil => simp at h
  | cons e l ih =>
    simp only [keysOf, List.map_cons, List.nodup_cons] at hn
    rw [get_cons]
    rcases List.mem_cons.1 h with h | h
    · subst h; simp
    · have : t ≠ e.1 := by
        intro ht; subst ht
        exact hn.1 (List.mem_map.2 ⟨_, h, rfl⟩)
      rw [if_neg this]; exact ih hn.2 h

theorem get_append (l m : List (Nat × Cstr)) (t : Nat) : get (l ++ m) t = (get l t).or (get m t) := by
  induction l with
  | nil => simp [get]
  | cons e l ih =>
    rw [List.cons_append, get_cons, get_cons, ih]
    by_cases ht : t = e.1 <;> simp [ht]

theorem get_del (l : List (Nat × Cstr)) (t u : Nat) : get (del l t) u = if u = t then none else get l u := by
  induction l with
  | nil => simp [get, del]
  | cons e l ih =>
    have : del (e :: l) t = if e.1 = t then del l t else e :: del l t := by
      by_cases h : e.1 = t <;> simp [del, h]
    rw [this]
    by_cases h : e.1 = t
    · rw [if_pos h, ih, get_cons]
      by_cases hu : u = t
      · simp [hu]
      · have : u ≠ e.1 := by rw [h]; exact hu
        simp [hu, this]
    · rw [if_neg h, get_cons, get_cons, ih]
      by_cases hu : u = t
      · subst hu; simp [Ne.symm h]
      · simp [hu]

theorem get_put (l : List (Nat × Cstr)) (t u : Nat) (c : Cstr) :
    get (put l t c) u = if u = t then some c else get l u := by
  rw [put, get_append, get_del, get_cons]
  by_cases hu : u = t <;> simp [hu, get]

theorem keys_del (l : List (Nat × Cstr)) (t : Nat) (hn : (keysOf l).Nodup) : (keysOf (del l t)).Nodup := by
  exact (List.filter_sublist.map _).nodup hn

theorem not_mem_keys_del (l : List (Nat × Cstr)) (t : Nat) : t ∉ keysOf (del l t) := by
  rw [← get_none, get_del]; simp

theorem keys_put (l : List (Nat × Cstr)) (t : Nat) (c : Cstr) (hn : (keysOf l).Nodup) : (keysOf (put l t c)).Nodup := by
  have h1 := keys_del l t hn
  have h2 := not_mem_keys_del l t
  simp only [put, keysOf, List.map_append, List.map_cons, List.map_nil]
  rw [List.nodup_append]
  refine ⟨h1, by simp, ?_⟩
  intro a ha b hb hab
  simp only [List.mem_singleton] at hb
  subst hab; subst hb
  exact h2 ha

theorem del_of_not_mem (l : List (Nat × Cstr)) (t : Nat) (h : get l t = none) : del l t = l := by
  rw [del, List.filter_eq_self]
  intro e he
  rw [get_none] at h
  simp only [ne_eq, decide_not, Bool.not_eq_eq_eq_not, Bool.not_true, decide_eq_false_iff_not]
  intro h1
  exact h (List.mem_map.2 ⟨e, he, h1⟩)

/-- Sums over a map. -/
theorem sum_del (f : Nat × Cstr → Nat) (l : List (Nat × Cstr)) (hn : (keysOf l).Nodup) (t : Nat) (c : Cstr)
    (h : get l t = some c) : (l.map f).sum = ((del l t).map f).sum + f (t, c) := by
  induction l with
  | nil => simp [get] at h
  | cons e l ih =>
    simp only [keysOf, List.map_cons, List.nodup_cons] at hn
    rw [get_cons] at h
    have e1 : del (e :: l) t = if e.1 = t then del l t else e :: del l t := by
      by_cases h : e.1 = t <;> simp [del, h]
    rw [e1]
    by_cases ht : t = e.1
    · rw [if_pos ht] at h
      injection h with h
      rw [if_pos ht.symm]
      have : get l t = none := by rw [get_none, ht]; exact hn.1
      have he : (t, c) = e := by rw [ht, ← h]
      rw [del_of_not_mem _ _ this, he]
      simp only [List.map_cons, List.sum_cons]; omega
    · rw [if_neg ht] at h
      rw [if_neg (fun h => ht h.symm)]
      have := ih hn.2 h
      simp only [List.map_cons, List.sum_cons]; omega

theorem sum_put (f : Nat × Cstr → Nat) (l : List (Nat × Cstr)) (t : Nat) (c : Cstr) (h : get l t = none) :
    ((put l t c).map f).sum = (l.map f).sum + f (t, c) := by
  rw [put, del_of_not_mem _ _ h]; simp

/-! ## Substitutions -/

theorem findSub_none (l : List Sub) (c : Cstr) : findSub l c = none ↔ uses l c = false := by
  induction l with
  | nil => simp [findSub, uses]
  | cons s l ih =>
    simp only [findSub, uses, List.any_cons, Bool.or_eq_false_iff] at ih ⊢
    by_cases h : c ∈ s.cstrs
    · simp [h]
    · rw [if_neg h, Option.map_eq_none_iff, ih]; simp [h]

theorem findSub_some {l : List Sub} {c : Cstr} {i : Nat} (h : findSub l c = some i) :
    ∃ s, l[i]? = some s ∧ c ∈ s.cstrs := by
  induction l generalizing i with
  | nil => simp [findSub] at h
  | cons s l ih =>
    simp only [findSub] at h
    by_cases hc : c ∈ s.cstrs
    · rw [if_pos hc] at h
      injection h with h
      subst h
      exact ⟨s, rfl, hc⟩
    · rw [if_neg hc] at h
      cases hf : findSub l c with
      | none => simp [hf] at h
      | some j =>
        rw [hf] at h
        simp only [Option.map_some] at h
        injection h with h
        subst h
        simpa using ih hf

theorem uses_iff (l : List Sub) (c : Cstr) : uses l c = true ↔ ∃ s ∈ l, c ∈ s.cstrs := by
  simp [uses]

/-! ## Additional constraints -/

theorem mkExtra_mem : ∀ (l : List Nat) (n : Nat) (c : Cstr), c ∈ mkExtra n l →
    n ≤ c.id ∧ c.id < n + l.length ∧ c.type = .equal := by
  intro l
  induction l with
  | nil => intro n c h; simp [mkExtra] at h
  | cons k l ih =>
    intro n c h
    simp only [mkExtra, List.mem_cons] at h
    rcases h with rfl | h
    · simp
    · obtain ⟨h1, h2, h3⟩ := ih _ _ h
      simp only [List.length_cons]
      exact ⟨by omega, by omega, h3⟩

theorem mkExtra_nodup : ∀ (l : List Nat) (n : Nat), (mkExtra n l).Nodup := by
  intro l
  induction l with
  | nil => intro n; simp [mkExtra]
  | cons k l ih =>
    intro n
    simp only [mkExtra, List.nodup_cons]
    refine ⟨fun h => ?_, ih _⟩
    have := (mkExtra_mem _ _ _ h).1
    simp only at this
    omega

theorem mkExtra_sizes : ∀ (l : List Nat) (n : Nat), (mkExtra n l).map (·.size) = l := by
  intro l
  induction l with
  | nil => intro n; rfl
  | cons k l ih => intro n; simp [mkExtra, ih]

/-! ## Invariant of the problem -/

/-- Invariant of the problem, kept by all the calls that return. -/
structure PInv (E : Env) (p : Problem) : Prop where
  trNodup : p.tr.Nodup
  keys : ∀ t, t ∈ keysOf p.cons ↔ t ∈ p.tr
  keysNodup : (keysOf p.cons).Nodup
  inj : ∀ t u c, get p.cons t = some c → get p.cons u = some c → t = u
  old : ∀ t c, get p.cons t = some c → c.id < p.nextC
  info : ∀ t c, get p.cons t = some c → c.size = (E.task t).size ∧ c.type = (E.task t).type
  subsOld : ∀ x ∈ p.subs, ∀ c ∈ x.cstrs, c.id < p.nextC
  extraOld : ∀ c ∈ p.extra, c.id < p.nextC ∧ c.type = .equal
  extraNodup : p.extra.Nodup
  extraOther : ∀ c ∈ p.extra, ∀ t, get p.cons t ≠ some c
  toks : ∀ t, t ∈ p.toks ↔ t ∈ p.tr
  current : p.finalized = true → p.extra.map (·.size) = E.extraSizes p.subs

theorem PInv.empty (E : Env) : PInv E {} := by
  constructor <;> simp [keysOf, get]

/-- A call `addTask` of the user must concern a task that is not in the problem; the constraints of a substitution exist. -/
def LegalCall (s : State) : Call → Prop
  | .addTask t => t ∉ s.pb.tr
  | .addSub x => ∀ c ∈ x.cstrs, c.id < s.pb.nextC
  | .removeSub i => i < s.pb.subs.length
  | _ => True

theorem PInv.add {E : Env} {p : Problem} (h : PInv E p) (t : Nat) (ht : t ∉ p.tr) :
    PInv E { p with tr := p.tr ++ [t], toks := t :: p.toks.filter (· ≠ t), finalized := false, cons := put p.cons t ⟨p.nextC, (E.task t).size, (E.task t).type⟩, nextC := p.nextC + 1 } := by
  have hnew : ∀ u c, get p.cons u = some c → c ≠ ⟨p.nextC, (E.task t).size, (E.task t).type⟩ := by
    intro u c hc he
    have := h.old u c hc
    rw [he] at this; simp at this
  constructor
  · simp only [List.nodup_append]
    exact ⟨h.trNodup, by simp, fun a ha b hb hab => ht (by simp at hb; rw [← hb, ← hab]; exact ha)⟩
  · intro u
    simp only [← get_isSome, get_put, List.mem_append, List.mem_singleton]
    by_cases hu : u = t
    · simp [hu]
    · rw [if_neg hu, get_isSome, h.keys]; simp [hu]
  · exact keys_put _ _ _ h.keysNodup
  · intro u v c hu hv
    simp only [get_put] at hu hv
    split at hu <;> split at hv
    · simp_all
    · injection hu with hu; exact absurd hu.symm (hnew _ _ hv)
    · injection hv with hv; exact absurd hv.symm (hnew _ _ hu)
    · exact h.inj u v c hu hv
  · intro u c hu
    simp only [get_put] at hu
    split at hu
    · injection hu with hu; rw [← hu]; simp
    · exact Nat.lt_succ_of_lt (h.old u c hu)
  · intro u c hu
    simp only [get_put] at hu
    split at hu
    · next he => injection hu with hu; rw [← hu, he]; simp
    · exact h.info u c hu
  · intro x hx c hc; exact Nat.lt_succ_of_lt (h.subsOld x hx c hc)
  · intro c hc; exact ⟨Nat.lt_succ_of_lt (h.extraOld c hc).1, (h.extraOld c hc).2⟩
  · exact h.extraNodup
  · intro c hc u hu
    simp only [get_put] at hu
    split at hu
    · injection hu with hu
      have := (h.extraOld c hc).1
      rw [← hu] at this; simp at this
    · exact h.extraOther c hc u hu
  · intro u
    simp only [List.mem_cons, List.mem_filter, ne_eq, decide_not, Bool.not_eq_eq_eq_not, Bool.not_true,
      decide_eq_false_iff_not, h.toks, List.mem_append, List.mem_singleton]
    by_cases hu : u = t <;> simp [hu]
  · intro hf; simp at hf

theorem PInv.remove {E : Env} {p : Problem} (h : PInv E p) (t : Nat) :
    PInv E { p with tr := p.tr.erase t, toks := p.toks.filter (· ≠ t), finalized := false, cons := del p.cons t } := by
  constructor
  · exact h.trNodup.erase t
  · intro u
    simp only [← get_isSome, get_del, h.trNodup.mem_erase_iff]
    by_cases hu : u = t
    · simp [hu]
    · rw [if_neg hu, get_isSome, h.keys]; simp [hu]
  · exact keys_del _ _ h.keysNodup
  · intro u v c hu hv
    simp only [get_del] at hu hv
    split at hu
    · simp at hu
    · split at hv
      · simp at hv
      · exact h.inj u v c hu hv
  · intro u c hu
    simp only [get_del] at hu
    split at hu
    · simp at hu
    · exact h.old u c hu
  · intro u c hu
    simp only [get_del] at hu
    split at hu
    · simp at hu
    · exact h.info u c hu
  · exact h.subsOld
  · exact h.extraOld
  · exact h.extraNodup
  · intro c hc u hu
    simp only [get_del] at hu
    split at hu
    · simp at hu
    · exact h.extraOther c hc u hu
  · intro u
    simp only [List.mem_filter, h.toks, h.trNodup.mem_erase_iff]
    simp [and_comm]
  · intro hf; simp at hf

theorem PInv.subs {E : Env} {p : Problem} (h : PInv E p) (l : List Sub) (hl : ∀ x ∈ l, ∀ c ∈ x.cstrs, c.id < p.nextC) :
    PInv E { p with subs := l, finalized := false } :=
  ⟨h.trNodup, h.keys, h.keysNodup, h.inj, h.old, h.info, hl, h.extraOld, h.extraNodup, h.extraOther, h.toks,
    fun hf => by simp at hf⟩

theorem PInv.finalize {E : Env} {p : Problem} (h : PInv E p) : PInv E (p.finalize E) ∧ (p.finalize E).finalized = true ∧
    (p.finalize E).tr = p.tr ∧ (p.finalize E).cons = p.cons ∧ (p.finalize E).subs = p.subs ∧ p.nextC ≤ (p.finalize E).nextC ∧
    (p.finalize E).toks = p.toks := by
  unfold Problem.finalize
  by_cases hf : p.finalized = true
  · rw [if_pos hf]; exact ⟨h, hf, rfl, rfl, rfl, Nat.le_refl _, rfl⟩
  · rw [if_neg hf]
    refine ⟨⟨h.trNodup, h.keys, h.keysNodup, h.inj, fun t c hc => ?_, h.info, fun x hx c hc => ?_, fun c hc => ?_,
      mkExtra_nodup _ _, fun c hc t ht => ?_, h.toks, fun _ => mkExtra_sizes _ _⟩, rfl, rfl, rfl, rfl, Nat.le_add_right _ _, rfl⟩
    · exact Nat.lt_of_lt_of_le (h.old t c hc) (Nat.le_add_right _ _)
    · exact Nat.lt_of_lt_of_le (h.subsOld x hx c hc) (Nat.le_add_right _ _)
    · obtain ⟨_, h2, h3⟩ := mkExtra_mem _ _ _ hc
      exact ⟨h2, h3⟩
    · obtain ⟨h1, _, _⟩ := mkExtra_mem _ _ _ hc
      have := h.old t c ht
      omega

end Verif.PB
