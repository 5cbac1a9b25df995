import Verif.Model.Outputs
/-!
# C89 - the outputs of a class have distinct values, and the enabled ones are those that were asked
-/
set_option autoImplicit false

namespace Verif.C89
open Verif Verif.Outp

/-! ## Specification -/

/-- All the outputs of a class: those of its base, then its own, with the type that declares them -/
def all : Cls → List (Nat × String)
  | [] => []
  | L :: B => all B ++ L.outs.map (fun n => (B.length + 1, n))

/-- What a user asked: an output and whether it should be enabled -/
abbrev Ask := Int × Bool

/-- The last thing asked for an output; outputs are enabled at first. -/
def last (tr : List Ask) (v : Int) : Bool := ((tr.filter (fun a => a.1 = v)).getLast?.map Prod.snd).getD true

/-- The life of an object of a class: the constructors from the base to the class, and at any time calls made in any class of the line, that succeed or throw -/
inductive Run : Cls → List Ask → Obj → Prop where
  | start : Run [] [] ⟨[], false⟩
  | enter (L : Layer) (B : Cls) (tr : List Ask) (o : Obj) : Run B tr o → Run (L :: B) tr (enter L B o)
  | disable (C T P : Cls) (tr : List Ask) (o o' : Obj) (E : Nat) (v : Int) : Run C tr o → T <:+ C → provider T = some P → disable P E v o = .ok o' () → Run C (tr ++ [(v, false)]) o'
  | enable (C T P : Cls) (tr : List Ask) (o o' : Obj) (E : Nat) (v : Int) : Run C tr o → T <:+ C → provider T = some P → enable C P E v o = .ok o' () → Run C (tr ++ [(v, true)]) o'
  | disableThrow (C T P : Cls) (tr : List Ask) (o o' : Obj) (E : Nat) (v : Int) : Run C tr o → T <:+ C → provider T = some P → disable P E v o = .throw o' → Run C tr o'
  | enableThrow (C T P : Cls) (tr : List Ask) (o o' : Obj) (E : Nat) (v : Int) : Run C tr o → T <:+ C → provider T = some P → enable C P E v o = .throw o' → Run C tr o'
  | lock (C : Cls) (tr : List Ask) (o : Obj) (b : Bool) : Run C tr o → Run C tr (setLock o b)

/-- The output number `j` of the class `L :: B`, of the line of `C` -/
def Declared (C : Cls) (L : Layer) (B : Cls) (j : Nat) : Prop := (L :: B) <:+ C ∧ j < L.outs.length

/-! ## Numbering -/

theorem size_base (C : Cls) : size (base C) = size C := by
  induction C with
  | nil => rfl
  | cons L B ih =>
    by_cases h : L.outs = []
    · simp [base, size, h, ih]
    · simp [base, size, h]

theorem size_all (C : Cls) : (all C).length = size C := by
  induction C with
  | nil => rfl
  | cons L B ih => simp [all, size, ih]

theorem value_cons (L : Layer) (B : Cls) (j : Nat) (h : j < L.outs.length) : value (L :: B) j = size B + j := by
  have h0 : L.outs ≠ [] := by intro e; rw [e] at h; simp at h
  simp [value, parent, h0, size_base]

theorem all_prefix {C B : Cls} (h : B <:+ C) : all B <+: all C := by
  induction C with
  | nil => rw [List.suffix_nil.1 h]
  | cons L D ih =>
    rcases List.suffix_cons_iff.1 h with rfl | h
    · exact List.prefix_rfl
    · exact (ih h).trans ⟨_, rfl⟩

theorem size_mono {C B : Cls} (h : B <:+ C) : size B ≤ size C := by
  rw [← size_all, ← size_all]; exact (all_prefix h).length_le

theorem nameScan_spec (l : List String) : ∀ (first j : Nat) (h : j < l.length), nameScan first ((first + j : Nat) : Int) l = l[j] := by
  induction l with
  | nil => intro _ j h; simp at h
  | cons n l ih =>
    intro first j h
    cases j with
    | zero => simp [nameScan]
    | succ j =>
      have hne : ¬(((first + (j + 1) : Nat) : Int) = (first : Int)) := by omega
      have e : first + (j + 1) = first + 1 + j := by omega
      rw [nameScan, if_neg hne, e]
      simpa using ih (first + 1) j (by simpa using h)

theorem nameScan_out (l : List String) : ∀ (first : Nat) (v : Int), (v < first ∨ first + l.length ≤ v) → nameScan first v l = "INVALID" := by
  induction l with
  | nil => intro _ _ _; rfl
  | cons n l ih =>
    intro first v h
    rw [List.length_cons] at h
    rw [nameScan, if_neg (by omega)]
    exact ih (first + 1) v (by omega)

theorem suffix_eq {A B C : Cls} (h1 : A <:+ C) (h2 : B <:+ C) (h : A.length = B.length) : A = B := by
  obtain ⟨p, rfl⟩ := h1
  obtain ⟨q, e⟩ := h2
  exact ((List.append_inj' e h.symm).2).symm

/-- The outputs of a class are numbered from 0 in the order of the declarations, those of the base first; the names are those declared. -/
theorem C89_numbering (C : Cls) : size C = (all C).length ∧ ∀ L B j, Declared C L B j → value (L :: B) j < size C ∧
    (all C)[value (L :: B) j]? = (L.outs[j]?).map (fun n => (B.length + 1, n)) ∧ some (name C (B.length + 1) (value (L :: B) j)) = L.outs[j]? := by
  refine ⟨(size_all C).symm, ?_⟩
  rintro L B j ⟨hs, hj⟩
  have hv := value_cons L B j hj
  have hlt : value (L :: B) j < size (L :: B) := by rw [hv]; simp [size, hj]
  have hall : (all (L :: B))[value (L :: B) j]? = (L.outs[j]?).map (fun n => (B.length + 1, n)) := by
    rw [hv, all, List.getElem?_append_right (by rw [size_all]; omega), size_all]
    simp
  refine ⟨Nat.lt_of_lt_of_le hlt (size_mono hs), ?_, ?_⟩
  · obtain ⟨t, ht⟩ := all_prefix hs
    rw [← ht, List.getElem?_append_left (by rw [size_all]; exact hlt), hall]
  · have key : ∀ D : Cls, (L :: B) <:+ D → name D (B.length + 1) (value (L :: B) j) = L.outs[j] := by
      intro D
      induction D with
      | nil => intro h; rw [List.suffix_nil] at h; cases h
      | cons M D ih =>
        intro h
        rcases List.suffix_cons_iff.1 h with e | h
        · obtain ⟨rfl, rfl⟩ := List.cons.inj e
          have h0 : L.outs ≠ [] := by intro e; rw [e] at hj; simp at hj
          rw [name, if_pos ⟨h0, rfl⟩, value_cons L B 0 (by omega), hv]
          exact nameScan_spec _ _ _ hj
        · have := h.length_le
          rw [List.length_cons] at this
          rw [name, if_neg (by omega)]
          exact ih h
    rw [key C hs, List.getElem?_eq_getElem hj]

/-- Two outputs declared in a line have different values, and each number below the size is that of an output. -/
theorem C89_distinct (C : Cls) : (∀ L B j L' B' j', Declared C L B j → Declared C L' B' j' → value (L :: B) j = value (L' :: B') j' → L :: B = L' :: B' ∧ j = j') ∧
    ∀ v < size C, ∃ L B j, Declared C L B j ∧ value (L :: B) j = v := by
  constructor
  · intro L B j L' B' j' h h' e
    have h1 := ((C89_numbering C).2 L B j h).2.1
    have h2 := ((C89_numbering C).2 L' B' j' h').2.1
    rw [e, h2, List.getElem?_eq_getElem h.2, List.getElem?_eq_getElem h'.2] at h1
    have hl : B'.length + 1 = B.length + 1 := (Prod.mk.inj (Option.some.inj h1)).1
    have hc : L :: B = L' :: B' := suffix_eq h.1 h'.1 (by simp; omega)
    obtain ⟨rfl, rfl⟩ := List.cons.inj hc
    refine ⟨rfl, ?_⟩
    rw [value_cons _ _ _ h.2, value_cons _ _ _ h'.2] at e
    omega
  · induction C with
    | nil => intro v h; simp [size] at h
    | cons L B ih =>
      intro v h
      by_cases hv : v < size B
      · obtain ⟨M, D, j, ⟨hs, hj⟩, e⟩ := ih v hv
        exact ⟨M, D, j, ⟨hs.trans (List.suffix_cons _ _), hj⟩, e⟩
      · rw [size] at h
        exact ⟨L, B, v - size B, ⟨List.suffix_rfl, by omega⟩, by rw [value_cons _ _ _ (by omega)]; omega⟩

/-! ## Valid types -/

theorem isValid_nil (E : Nat) : isValid [] E = decide (0 = E) := by
  rw [isValid, dif_neg (by simp [parent, base]), Bool.or_false]; rfl

theorem isValid_skip (L : Layer) (B : Cls) (h : L.outs = []) (E : Nat) : isValid (L :: B) E = isValid B E := by
  have e1 : parent (L :: B) = parent B := by simp [parent, h]
  have e2 : base (L :: B) = base B := by simp [base, h]
  have e3 : enumT (L :: B) = enumT B := by simp [enumT, h]
  rw [isValid, e3]
  conv_rhs => rw [isValid]
  simp only [e1, e2]

theorem isValid_base (B : Cls) (E : Nat) : isValid (base B) E = isValid B E := by
  induction B with
  | nil => rfl
  | cons L B ih =>
    by_cases h : L.outs = []
    · rw [isValid_skip L B h]
      have e2 : base (L :: B) = base B := by simp [base, h]
      rw [e2, ih]
    · have e2 : base (L :: B) = L :: B := by simp [base, h]
      rw [e2]

theorem isValid_cons (L : Layer) (B : Cls) (h : L.outs ≠ []) (E : Nat) : isValid (L :: B) E = (decide (B.length + 1 = E) || isValid B E) := by
  have e1 : parent (L :: B) = base B := by simp [parent, h]
  have e2 : base (L :: B) = L :: B := by simp [base, h]
  have e3 : enumT (L :: B) = B.length + 1 := by simp [enumT, h]
  have hb := base_le B
  rw [isValid, e3]
  simp only [e1, e2, List.length_cons]
  rw [dif_pos (by omega), isValid_base]

/-- An output is accepted iff its type is declared by a class of the line (or is the empty enumeration of `Outputs`). -/
theorem C89_valid (C : Cls) (E : Nat) : isValid C E = true ↔ E = 0 ∨ ∃ L B, (L :: B) <:+ C ∧ L.outs ≠ [] ∧ E = B.length + 1 := by
  induction C with
  | nil =>
    rw [isValid_nil, decide_eq_true_iff]
    constructor
    · intro h; exact Or.inl h.symm
    · rintro (h | ⟨L, B, h, _⟩)
      · exact h.symm
      · rw [List.suffix_nil] at h; cases h
  | cons M D ih =>
    by_cases h0 : M.outs = []
    · rw [isValid_skip M D h0, ih]
      constructor
      · rintro (h | ⟨L, B, h, h1⟩)
        · exact Or.inl h
        · exact Or.inr ⟨L, B, h.trans (List.suffix_cons _ _), h1⟩
      · rintro (h | ⟨L, B, h, h1, h2⟩)
        · exact Or.inl h
        · rcases List.suffix_cons_iff.1 h with e | h
          · obtain ⟨rfl, rfl⟩ := List.cons.inj e; exact absurd h0 h1
          · exact Or.inr ⟨L, B, h, h1, h2⟩
    · rw [isValid_cons M D h0, Bool.or_eq_true, decide_eq_true_iff, ih]
      constructor
      · rintro (h | h | ⟨L, B, h, h1⟩)
        · exact Or.inr ⟨M, D, List.suffix_rfl, h0, h.symm⟩
        · exact Or.inl h
        · exact Or.inr ⟨L, B, h.trans (List.suffix_cons _ _), h1⟩
      · rintro (h | ⟨L, B, h, h1, h2⟩)
        · exact Or.inr (Or.inl h)
        · rcases List.suffix_cons_iff.1 h with e | h
          · obtain ⟨rfl, rfl⟩ := List.cons.inj e; exact Or.inl h2.symm
          · exact Or.inr (Or.inr ⟨L, B, h, h1, h2⟩)

/-! ## Static selection -/

/-- Only the last class that gives a list counts. -/
theorem C89_static (U : List Layer) (hU : ∀ L ∈ U, L.dis = none) (v : Int) :
    static U v = true ∧ ∀ L B l, L.dis = some l → (static (U ++ L :: B) v = true ↔ v ∉ l) := by
  induction U with
  | nil =>
    refine ⟨rfl, fun L B l h => ?_⟩
    rw [List.nil_append, static, h]
    simp
  | cons M U ih =>
    obtain ⟨h1, h2⟩ := ih (fun L hL => hU L (List.mem_cons_of_mem _ hL))
    have hM := hU M List.mem_cons_self
    refine ⟨?_, fun L B l h => ?_⟩
    · rw [static, hM]; exact h1
    · rw [List.cons_append, static, hM]; exact h2 L B l h

/-! ## Dynamic selection -/

theorem provider_suffix {C P : Cls} (h : provider C = some P) : P <:+ C := by
  induction C with
  | nil => cases h
  | cons L B ih =>
    unfold provider at h
    cases hs : L.sel with
    | direct => rw [hs] at h; exact (ih h).trans (List.suffix_cons _ _)
    | base => rw [hs] at h; rw [← Option.some.inj h]; exact List.suffix_cons _ _
    | self => rw [hs] at h; rw [← Option.some.inj h]

theorem provider_some {C T : Cls} (hs : T <:+ C) {P : Cls} (h : provider T = some P) : ∃ Q, provider C = some Q ∧ P <:+ Q := by
  induction C with
  | nil => rw [List.suffix_nil.1 hs] at h; cases h
  | cons L B ih =>
    rcases List.suffix_cons_iff.1 hs with rfl | hs
    · exact ⟨P, h, List.suffix_rfl⟩
    · obtain ⟨Q, hQ, hp⟩ := ih hs
      unfold provider
      cases L.sel with
      | direct => exact ⟨Q, hQ, hp⟩
      | base => exact ⟨B, rfl, hp.trans (provider_suffix hQ)⟩
      | self => exact ⟨L :: B, rfl, (hp.trans (provider_suffix hQ)).trans (List.suffix_cons _ _)⟩

theorem last_append (tr : List Ask) (a : Ask) (v : Int) : last (tr ++ [a]) v = if a.1 = v then a.2 else last tr v := by
  unfold last
  rw [List.filter_append]
  by_cases h : a.1 = v <;> simp [h]

theorem last_absent (tr : List Ask) (v : Int) (h : ∀ a ∈ tr, a.1 ≠ v) : last tr v = true := by
  have : tr.filter (fun a => a.1 = v) = [] := by simpa using h
  simp [last, this]

structure Inv (C : Cls) (tr : List Ask) (o : Obj) : Prop where
  len : o.dyn.length = ((provider C).map size).getD 0
  bit : ∀ v : Nat, v < o.dyn.length → o.dyn[v]? = some (last tr v)
  ask : ∀ a ∈ tr, 0 ≤ a.1 ∧ a.1 < o.dyn.length

theorem assign_spec (o o' : Obj) (v : Int) (x : Bool) (h : assign o v x = .ok o' ()) : (0 ≤ v ∧ v < o.dyn.length) ∧ o' = { o with dyn := o.dyn.set v.toNat x } := by
  unfold assign at h
  by_cases hc : 0 ≤ v ∧ v < o.dyn.length
  · rw [if_pos hc] at h; exact ⟨hc, ((Outcome.ok.inj h).1).symm⟩
  · rw [if_neg hc] at h; cases h

theorem inv_assign (C : Cls) (tr : List Ask) (o o' : Obj) (v : Int) (x : Bool) (hi : Inv C tr o) (h : assign o v x = .ok o' ()) : Inv C (tr ++ [(v, x)]) o' := by
  obtain ⟨⟨h1, h2⟩, rfl⟩ := assign_spec o o' v x h
  constructor
  · simpa using hi.len
  · intro w hw
    simp only [List.length_set] at hw
    rw [last_append]
    simp only [List.getElem?_set]
    by_cases e : v.toNat = w
    · have e' : v = (w : Int) := by omega
      rw [if_pos e, if_pos e', if_pos (by omega)]
    · have e' : v ≠ (w : Int) := by omega
      rw [if_neg e, if_neg e']
      exact hi.bit w hw
  · intro a ha
    simp only [List.length_set]
    rcases List.mem_append.1 ha with ha | ha
    · exact hi.ask a ha
    · rw [List.mem_singleton.1 ha]; exact ⟨h1, h2⟩

theorem inv_resize (tr : List Ask) (o : Obj) (C D : Cls) (n : Nat) (hn : o.dyn.length ≤ n) (hD : ((provider D).map size).getD 0 = n) (hi : Inv C tr o) :
    Inv D tr { o with dyn := resize o.dyn n } := by
  have hl : (resize o.dyn n).length = n := by unfold resize; simp; omega
  have ht : o.dyn.take n = o.dyn := List.take_of_length_le hn
  constructor
  · exact hl.trans hD.symm
  · intro v hv
    simp only [hl] at hv
    show (resize o.dyn n)[v]? = _
    unfold resize
    rw [ht]
    by_cases h : v < o.dyn.length
    · rw [List.getElem?_append_left h, hi.bit v h]
    · rw [List.getElem?_append_right (by omega), List.getElem?_replicate, if_pos (by omega), last_absent]
      intro a ha e
      have := (hi.ask a ha).2
      omega
  · intro a ha
    have := hi.ask a ha
    simp only [hl]
    omega

theorem disable_ok {P : Cls} {E : Nat} {v : Int} {o o' : Obj} (h : disable P E v o = .ok o' ()) : assign o v false = .ok o' () := by
  unfold disable at h
  split at h
  · cases h
  · split at h
    · exact h
    · cases h

theorem enable_ok {C P : Cls} {E : Nat} {v : Int} {o o' : Obj} (h : enable C P E v o = .ok o' ()) : assign o v true = .ok o' () := by
  unfold enable at h
  split at h
  · cases h
  · split at h
    · cases h
    · split at h
      · exact h
      · cases h

theorem assign_no_throw (o o' : Obj) (v : Int) (x : Bool) : assign o v x ≠ .throw o' := by
  unfold assign; split <;> simp

theorem disable_throw {P : Cls} {E : Nat} {v : Int} {o o' : Obj} (h : disable P E v o = .throw o') : o' = o := by
  unfold disable at h
  split at h
  · exact (Outcome.throw.inj h).symm
  · split at h
    · exact absurd h (assign_no_throw _ _ _ _)
    · exact (Outcome.throw.inj h).symm

theorem enable_throw {C P : Cls} {E : Nat} {v : Int} {o o' : Obj} (h : enable C P E v o = .throw o') : o' = o := by
  unfold enable at h
  split at h
  · exact (Outcome.throw.inj h).symm
  · split at h
    · exact (Outcome.throw.inj h).symm
    · split at h
      · exact absurd h (assign_no_throw _ _ _ _)
      · exact (Outcome.throw.inj h).symm

theorem Run.inv {C : Cls} {tr : List Ask} {o : Obj} (h : Run C tr o) : Inv C tr o := by
  induction h with
  | start => exact ⟨rfl, fun v hv => by simp at hv, by simp⟩
  | enter L B tr o _ ih =>
    have hle : o.dyn.length ≤ size B := by
      rw [ih.len]
      cases hp : provider B with
      | none => simp
      | some P => simpa using size_mono (provider_suffix hp)
    unfold Outp.enter
    cases hs : L.sel with
    | direct =>
      refine ⟨?_, ih.bit, ih.ask⟩
      rw [provider, hs]; exact ih.len
    | base => exact inv_resize tr o B (L :: B) _ hle (by rw [provider, hs]; rfl) ih
    | self => exact inv_resize tr o B (L :: B) _ (Nat.le_trans hle (size_mono (List.suffix_cons _ _))) (by rw [provider, hs]; rfl) ih
  | disable C T P tr o o' E v _ _ _ e ih => exact inv_assign C tr o o' v false ih (disable_ok e)
  | enable C T P tr o o' E v _ _ _ e ih => exact inv_assign C tr o o' v true ih (enable_ok e)
  | disableThrow C T P tr o o' E v _ _ _ e ih => rw [disable_throw e]; exact ih
  | enableThrow C T P tr o o' E v _ _ _ e ih => rw [enable_throw e]; exact ih
  | lock C tr o b _ ih => exact ⟨ih.len, ih.bit, ih.ask⟩

/-- An output of the class of the selector is enabled iff it is statically enabled and the last thing asked for it was not to disable it, whatever the calls and the constructors that ran
since. Without a selector only the static selection counts. -/
theorem C89_enabled (C : Cls) (tr : List Ask) (o : Obj) (h : Run C tr o) :
    (∀ P, provider C = some P → ∀ v : Nat, v < size P → isEnabled C o v = .ok () (static C v && last tr v)) ∧ (provider C = none → ∀ v, isEnabled C o v = .ok () (static C v)) := by
  have hi := h.inv
  constructor
  · intro P hP v hv
    have hl : o.dyn.length = size P := by rw [hi.len, hP]; rfl
    have hb := hi.bit v (by omega)
    unfold isEnabled custom
    rw [hP]
    cases hs : static C v with
    | false => simp
    | true =>
      have hc : ¬((v : Int) < 0 ∨ (o.dyn.length : Int) ≤ v) := by omega
      simp only [if_true, if_neg hc, Bool.true_and, Int.toNat_natCast, List.getD_eq_getElem?_getD, hb, Option.getD_some]
  · intro hP v
    unfold isEnabled custom
    rw [hP]
    cases static C v <;> simp

/-- For the other values, in particular outputs declared above the last selector, the question throws unless the output is statically disabled. -/
theorem C89_above (C P : Cls) (tr : List Ask) (o : Obj) (h : Run C tr o) (hP : provider C = some P) (v : Int) (hv : v < 0 ∨ size P ≤ v) :
    isEnabled C o v = if static C v = true then .throw () else .ok () false := by
  have hl : o.dyn.length = size P := by rw [h.inv.len, hP]; rfl
  unfold isEnabled custom
  simp only [hP]
  rw [hl, if_pos hv]

/-- Disabling an output declared in the line of the provider succeeds iff the object is not locked, and changes only this output; otherwise it throws and nothing changes. -/
theorem C89_disable (C T P : Cls) (tr : List Ask) (o : Obj) (h : Run C tr o) (hT : T <:+ C) (hP : provider T = some P) :
    (∀ L B j, Declared P L B j → (o.locked = false → ∃ o', disable P (B.length + 1) (value (L :: B) j) o = .ok o' () ∧ o'.locked = false ∧
        isEnabled C o' (value (L :: B) j) = .ok () false ∧ ∀ w : Int, w ≠ value (L :: B) j → isEnabled C o' w = isEnabled C o w) ∧
      (o.locked = true → disable P (B.length + 1) (value (L :: B) j) o = .throw o)) ∧
    ∀ E v, isValid P E = false → disable P E v o = .throw o := by
  obtain ⟨Q, hQ, hPQ⟩ := provider_some hT hP
  have hl : o.dyn.length = size Q := by rw [h.inv.len, hQ]; rfl
  refine ⟨?_, fun E v hE => by unfold disable; rw [if_pos hE]⟩
  intro L B j hd
  have hval : ¬isValid P (B.length + 1) = false := by
    rw [Bool.not_eq_false, C89_valid]
    exact Or.inr ⟨L, B, hd.1, by intro e; have := hd.2; rw [e] at this; simp at this, rfl⟩
  have hlt := Nat.lt_of_lt_of_le ((C89_numbering P).2 L B j hd).1 (size_mono hPQ)
  constructor
  · intro hlk
    have e1 : assign o (value (L :: B) j) false = .ok { o with dyn := o.dyn.set (value (L :: B) j) false } () := by
      unfold assign; rw [if_pos (by omega)]; simp
    have e2 : disable P (B.length + 1) (value (L :: B) j) o = .ok { o with dyn := o.dyn.set (value (L :: B) j) false } () := by
      unfold disable; rw [if_neg hval, if_pos hlk]; exact e1
    have hr := Run.disable C T P tr o _ _ _ h hT hP e2
    refine ⟨_, e2, hlk, ?_, fun w hw => ?_⟩
    · rw [(C89_enabled C _ _ hr).1 Q hQ _ hlt, last_append]; simp
    · by_cases hw0 : w < 0 ∨ size Q ≤ w
      · rw [C89_above C Q _ _ hr hQ w hw0, C89_above C Q _ _ h hQ w hw0]
      · obtain ⟨n, rfl⟩ : ∃ n : Nat, w = n := ⟨w.toNat, by omega⟩
        rw [(C89_enabled C _ _ hr).1 Q hQ n (by omega), (C89_enabled C _ _ h).1 Q hQ n (by omega), last_append, if_neg (Ne.symm hw)]
  · intro hlk
    unfold disable
    rw [if_neg hval, if_neg (by rw [hlk]; simp)]

/-- Enabling: the same, and it throws for outputs that are statically disabled. -/
theorem C89_enable (C T P : Cls) (tr : List Ask) (o : Obj) (h : Run C tr o) (hT : T <:+ C) (hP : provider T = some P) :
    (∀ L B j, Declared P L B j → (o.locked = false → static C (value (L :: B) j) = true → ∃ o', enable C P (B.length + 1) (value (L :: B) j) o = .ok o' () ∧ o'.locked = false ∧
        isEnabled C o' (value (L :: B) j) = .ok () true ∧ ∀ w : Int, w ≠ value (L :: B) j → isEnabled C o' w = isEnabled C o w) ∧
      (o.locked = true ∨ static C (value (L :: B) j) = false → enable C P (B.length + 1) (value (L :: B) j) o = .throw o)) ∧
    ∀ E v, isValid P E = false → enable C P E v o = .throw o := by
  obtain ⟨Q, hQ, hPQ⟩ := provider_some hT hP
  have hl : o.dyn.length = size Q := by rw [h.inv.len, hQ]; rfl
  refine ⟨?_, fun E v hE => by unfold enable; rw [if_pos hE]⟩
  intro L B j hd
  have hval : ¬isValid P (B.length + 1) = false := by
    rw [Bool.not_eq_false, C89_valid]
    exact Or.inr ⟨L, B, hd.1, by intro e; have := hd.2; rw [e] at this; simp at this, rfl⟩
  have hlt := Nat.lt_of_lt_of_le ((C89_numbering P).2 L B j hd).1 (size_mono hPQ)
  constructor
  · intro hlk hst
    have e1 : assign o (value (L :: B) j) true = .ok { o with dyn := o.dyn.set (value (L :: B) j) true } () := by
      unfold assign; rw [if_pos (by omega)]; simp
    have e2 : enable C P (B.length + 1) (value (L :: B) j) o = .ok { o with dyn := o.dyn.set (value (L :: B) j) true } () := by
      unfold enable; rw [if_neg hval, if_neg (by rw [hst]; simp), if_pos hlk]; exact e1
    have hr := Run.enable C T P tr o _ _ _ h hT hP e2
    refine ⟨_, e2, hlk, ?_, fun w hw => ?_⟩
    · rw [(C89_enabled C _ _ hr).1 Q hQ _ hlt, last_append, hst]; simp
    · by_cases hw0 : w < 0 ∨ size Q ≤ w
      · rw [C89_above C Q _ _ hr hQ w hw0, C89_above C Q _ _ h hQ w hw0]
      · obtain ⟨n, rfl⟩ : ∃ n : Nat, w = n := ⟨w.toNat, by omega⟩
        rw [(C89_enabled C _ _ hr).1 Q hQ n (by omega), (C89_enabled C _ _ h).1 Q hQ n (by omega), last_append, if_neg (Ne.symm hw)]
  · intro hlk
    unfold enable
    rw [if_neg hval]
    by_cases hst : static C (value (L :: B) j) = false
    · rw [if_pos hst]
    · rw [if_neg hst, if_neg (by rcases hlk with hlk | hlk; · rw [hlk]; simp
                                 · exact absurd hlk hst)]

/-- A locked object does not change until it is unlocked, whatever is asked. -/
theorem C89_lock (C P : Cls) (o : Obj) (h : o.locked = true) : (∀ E v, disable P E v o = .throw o ∧ enable C P E v o = .throw o) ∧
    (setLock o false).locked = false ∧ (setLock o false).dyn = o.dyn ∧ ∀ o₂ : Obj, (setLock o₂ true).locked = true ∧ (setLock o₂ true).dyn = o₂.dyn := by
  refine ⟨fun E v => ⟨?_, ?_⟩, rfl, rfl, fun _ => ⟨rfl, rfl⟩⟩
  · unfold disable; simp [h]
  · unfold enable; simp [h]

/-- With several arguments: the calls before the first that throws are done, the others are not. -/
theorem C89_several (f : Nat → Int → Obj → Outcome Obj Unit) (l : List (Nat × Int)) (o : Obj) :
    (∀ a m, each f (a :: l) o = .ok m () ↔ ∃ o₁, f a.1 a.2 o = .ok o₁ () ∧ each f l o₁ = .ok m ()) ∧
    ∀ l₂ o₁, each f l o = .ok o₁ () → each f (l ++ l₂) o = each f l₂ o₁ := by
  constructor
  · intro a m
    rw [each]
    cases hf : f a.1 a.2 o with
    | ok o₁ u => simp
    | throw o₁ => simp
    | ub => simp
  · intro l₂
    induction l generalizing o with
    | nil => intro o₁ h; rw [(Outcome.ok.inj h).1]; rfl
    | cons a l ih =>
      intro o₁ h
      rw [List.cons_append, each]
      rw [each] at h
      cases hf : f a.1 a.2 o with
      | ok o₂ u => simp only [hf] at h; exact ih o₂ o₁ h
      | throw o₂ => simp only [hf] at h; cases h
      | ub => simp only [hf] at h; cases h

/-! ## Constraints -/

/-- The selector of a constraint after its construction -/
theorem C89_constraint (ct : BLC.CType) (cr : BLC.Rhs) : ∃ o, constraintBody ct cr ⟨resize [] (size constraintCls), false⟩ = .ok o () ∧
    isEnabled constraintCls o 0 = .ok () true ∧ isEnabled constraintCls o 1 = .ok () true ∧ isEnabled constraintCls o (value constraintCls 0) = .ok () (BLC.useL ct cr) ∧
    isEnabled constraintCls o (value constraintCls 1) = .ok () (BLC.useU ct cr) ∧ isEnabled constraintCls o (value constraintCls 2) = .ok () (BLC.useE ct cr) := by
  have hv : isValid constraintCls 2 = true := by
    rw [C89_valid]; exact Or.inr ⟨⟨["L", "U", "E"], none, .self⟩, [⟨["Value", "Jacobian"], none, .direct⟩], List.suffix_rfl, by simp, rfl⟩
  have hd : ∀ v o, disable constraintCls 2 v o = if o.locked = false then assign o v false else .throw o := by
    intro v o; unfold disable; rw [if_neg (by rw [hv]; simp)]
  unfold constraintBody
  cases hL : BLC.useL ct cr <;> cases hU : BLC.useU ct cr <;> cases hE : BLC.useE ct cr <;>
    simp only [if_true, if_false, Bool.false_eq_true, List.nil_append, List.append_nil, List.cons_append, each, hd] <;> exact ⟨_, rfl, rfl, rfl, rfl, rfl, rfl⟩

/-! ## What is not guaranteed -/

/-- The classes of the test of `OutputSelector`: `Provider1`, `Provider2`, `Provider3`, and `Provider4` that declares outputs above the selector -/
def p1 : Layer := ⟨["O0", "O1", "O2"], none, .direct⟩
def p2 : Layer := ⟨["O3", "O4"], some [1], .direct⟩
def p3 : Layer := ⟨[], none, .base⟩
def p4 : Layer := ⟨["O5", "O6", "O7"], none, .direct⟩
def p5 : Layer := ⟨[], none, .base⟩

def o₁ : Obj := ⟨[true, true, true, true, true], false⟩

theorem run₁ : Run [p4, p3, p2, p1] [] o₁ := .enter _ _ _ _ (.enter _ _ _ _ (.enter _ _ _ _ (.enter _ _ _ _ .start)))

theorem valid₁ (E : Nat) : isValid [p2, p1] E = true ↔ E = 0 ∨ E = 1 ∨ E = 2 := by
  rw [isValid_cons _ _ (by decide), isValid_cons _ _ (by decide), isValid_nil]
  simp only [Bool.or_eq_true, decide_eq_true_iff, List.length_cons, List.length_nil]
  omega

/-- An output declared above the last selector can neither be asked about nor disabled: both throw. -/
theorem C89_above_false : Declared [p4, p3, p2, p1] p4 [p3, p2, p1] 0 ∧ isEnabled [p4, p3, p2, p1] o₁ (value [p4, p3, p2, p1] 0) = .throw () ∧
    provider [p4, p3, p2, p1] = some [p2, p1] ∧ disable [p2, p1] 4 (value [p4, p3, p2, p1] 0) o₁ = .throw o₁ := by
  refine ⟨⟨List.suffix_rfl, by decide⟩, rfl, rfl, ?_⟩
  unfold disable
  rw [if_pos]
  rw [← Bool.not_eq_true, valid₁]
  omega

/-- A value that is not that of an output passes the test of validity when it is converted to the type of an enumeration: undefined. -/
theorem C89_cast_false : disable [p2, p1] 1 9 o₁ = .ub ∧ disable [p2, p1] 0 9 o₁ = .ub := by
  have h1 : ¬isValid [p2, p1] 1 = false := by rw [Bool.not_eq_false, valid₁]; omega
  have h0 : ¬isValid [p2, p1] 0 = false := by rw [Bool.not_eq_false, valid₁]; omega
  constructor
  · unfold disable; rw [if_neg h1]; rfl
  · unfold disable; rw [if_neg h0]; rfl

/-- When a call with several arguments throws, the first outputs may have been changed. -/
theorem C89_several_false : each (disable [p2, p1]) [(1, 0), (4, 5)] o₁ = .throw ⟨[false, true, true, true, true], false⟩ := by
  have h1 : ¬isValid [p2, p1] 1 = false := by rw [Bool.not_eq_false, valid₁]; omega
  have h4 : isValid [p2, p1] 4 = false := by rw [← Bool.not_eq_true, valid₁]; omega
  have e1 : disable [p2, p1] 1 0 o₁ = .ok ⟨[false, true, true, true, true], false⟩ () := by unfold disable; rw [if_neg h1]; rfl
  have e2 : disable [p2, p1] 4 5 ⟨[false, true, true, true, true], false⟩ = .throw ⟨[false, true, true, true, true], false⟩ := by unfold disable; rw [if_pos h4]
  simp only [each, e1, e2]

/-! ## Examples -/

/-- The selection made below is kept by a selector above: `Provider5`. -/
example : ∃ o, Run [p5, p4, p3, p2, p1] [(3, false)] o ∧ isEnabled [p5, p4, p3, p2, p1] o 3 = .ok () false ∧ isEnabled [p5, p4, p3, p2, p1] o 7 = .ok () true ∧
    isEnabled [p5, p4, p3, p2, p1] o 1 = .ok () false := by
  have h2 : ¬isValid [p2, p1] 2 = false := by rw [Bool.not_eq_false, valid₁]; omega
  have e1 : disable [p2, p1] 2 3 o₁ = .ok ⟨[true, true, true, false, true], false⟩ () := by unfold disable; rw [if_neg h2]; rfl
  exact ⟨_, .enter _ _ _ _ (.disable [p4, p3, p2, p1] [p4, p3, p2, p1] [p2, p1] _ o₁ _ 2 3 run₁ List.suffix_rfl rfl e1), rfl, rfl, rfl⟩

example : name [p4, p3, p2, p1] 2 4 = "O4" ∧ size [p4, p3, p2, p1] = 8 ∧ value [p4, p3, p2, p1] 1 = 6 := by decide

end Verif.C89
