import Verif.Model.HierarchicalRebuild
import Mathlib.Algebra.Order.Ring.Rat
import Mathlib.Algebra.Field.Rat
/-!
# C122: which builds of a hierarchical solver succeed when the solver was already built

Specification. `rows l p e`: the rows that the constraints `l` (each with its level) have at the level `p`, equalities if `e`, inequalities otherwise.
`Declared nEq nIneq l`: the sizes given to `startBuild` are those of the constraints that are added.
-/
set_option autoImplicit false

namespace Verif.HLS

variable {K : Type} [Field K] [LinearOrder K]

set_option linter.unusedSectionVars false

/-! ## Specification -/

/-- Rows of the constraints at a level. -/
def rows : List (Nat × Cstr) → Nat → Bool → Nat
  | [], _, _ => 0
  | e :: l, p, q => (if e.1 = p ∧ e.2.isEq = q then e.2.size else 0) + rows l p q

/-- The sizes declared are those of the constraints. -/
structure Declared (nEq nIneq : List Nat) (l : List (Nat × Cstr)) : Prop where
  len : nEq.length = nIneq.length
  lvl : ∀ e ∈ l, e.1 < nEq.length
  eq : ∀ p, p < nEq.length → nEq.getD p 0 = rows l p true
  ineq : ∀ p, p < nEq.length → nIneq.getD p 0 = rows l p false

/-! ## Proof -/

theorem getD_bump (v : List Nat) (i k j : Nat) (hi : i < v.length) :
    (bump v i k).getD j 0 = v.getD j 0 + if i = j then k else 0 := by
  simp only [bump, List.getD_eq_getElem?_getD, List.getElem?_modify]
  by_cases h : i = j
  · subst h; simp [hi]
  · simp [h]

theorem length_bump (v : List Nat) (i k : Nat) : (bump v i k).length = v.length := by simp [bump]

theorem length_keep (v : List Nat) (m : Nat) : (keep v m).length = m := by simp [keep]; omega

theorem getD_keep (v : List Nat) (m p : Nat) (hp : p < m) : (keep v m).getD p 0 = v.getD p 0 := by
  simp only [keep, List.getD_eq_getElem?_getD]
  by_cases h : p < v.length
  · rw [List.getElem?_append_left (by simp; omega), List.getElem?_take_of_lt hp]
  · rw [List.getElem?_append_right (by simp; omega), List.getElem?_replicate]
    simp only [List.length_take, List.getElem?_eq_none (Nat.le_of_not_lt h)]
    split <;> rfl

theorem list_ext_getD {u v : List Nat} (hl : u.length = v.length) (h : ∀ p, p < u.length → u.getD p 0 = v.getD p 0) : u = v := by
  apply List.ext_getElem hl
  intro i h1 h2
  have := h i h1
  simpa [List.getD_eq_getElem?_getD, List.getElem?_eq_getElem h1, List.getElem?_eq_getElem h2] using this

/-- The two counters have the length of the levels. -/
structure Shaped (s : Solver K) : Prop where
  l1 : s.eqSize.length = s.nEq.length
  l2 : s.ineqSize.length = s.nEq.length

/-- What additions that return do. -/
theorem adds_ok : ∀ (l : List (Nat × Cstr)) (s s' : Solver K), Shaped s → (∀ e ∈ l, e.1 < s.nEq.length) → s.addConstraints l = .ok () s' →
    Shaped s' ∧ s'.nEq = s.nEq ∧ s'.nIneq = s.nIneq ∧ s'.n = s.n ∧ s'.bounds = s.bounds ∧ s'.data = s.data ∧
    ∀ p, s'.eqSize.getD p 0 = s.eqSize.getD p 0 + rows l p true ∧ s'.ineqSize.getD p 0 = s.ineqSize.getD p 0 + rows l p false := by
  intro l
  induction l with
  | nil =>
    intro s s' hs _ h
    simp only [Solver.addConstraints, Outcome.ok.injEq, true_and] at h
    subst h
    exact ⟨hs, rfl, rfl, rfl, rfl, rfl, fun p => by simp [rows]⟩
  | cons e l ih =>
    intro s s' hs hl h
    have he := hl e (by simp)
    have he1 : ¬ s.nEq.length ≤ e.1 := by omega
    by_cases hr : s.nEq.getD e.1 0 + s.nIneq.getD e.1 0 < s.eqSize.getD e.1 0 + s.ineqSize.getD e.1 0 + e.2.size
    · simp only [Solver.addConstraints, Solver.addConstraint, if_neg he1, if_pos hr] at h
      cases h
    · simp only [Solver.addConstraints, Solver.addConstraint, if_neg he1, if_neg hr] at h
      cases hq : e.2.isEq with
      | true =>
        simp only [hq, if_true] at h
        obtain ⟨g1, g2, g3, g4, g5, g6, g7⟩ := (fun a b => ih _ s' a b h) ⟨by simp only [length_bump]; exact hs.l1, hs.l2⟩ (fun e he => hl e (by simp [he]))
        refine ⟨g1, g2, g3, g4, g5, g6, fun p => ?_⟩
        obtain ⟨k1, k2⟩ := g7 p
        simp only at k1 k2
        rw [getD_bump _ _ _ _ (by rw [hs.l1]; exact he)] at k1
        simp only [rows, hq, k1, k2]
        constructor
        · simp [-List.getD_eq_getElem?_getD]; omega
        · simp
      | false =>
        simp only [hq, Bool.false_eq_true, if_false] at h
        obtain ⟨g1, g2, g3, g4, g5, g6, g7⟩ := (fun a b => ih _ s' a b h) ⟨hs.l1, by simp only [length_bump]; exact hs.l2⟩ (fun e he => hl e (by simp [he]))
        refine ⟨g1, g2, g3, g4, g5, g6, fun p => ?_⟩
        obtain ⟨k1, k2⟩ := g7 p
        simp only at k1 k2
        rw [getD_bump _ _ _ _ (by rw [hs.l2]; exact he)] at k2
        simp only [rows, hq, k1, k2]
        constructor
        · simp
        · simp [-List.getD_eq_getElem?_getD]; omega

/-- Additions return when there is room. -/
theorem adds_total : ∀ (l : List (Nat × Cstr)) (s : Solver K), Shaped s → (∀ e ∈ l, e.1 < s.nEq.length) →
    (∀ p, p < s.nEq.length → s.eqSize.getD p 0 + rows l p true + (s.ineqSize.getD p 0 + rows l p false) ≤ s.nEq.getD p 0 + s.nIneq.getD p 0) →
    ∃ s', s.addConstraints l = .ok () s' := by
  intro l
  induction l with
  | nil => intro s _ _ _; exact ⟨s, rfl⟩
  | cons e l ih =>
    intro s hs hl hroom
    have he := hl e (by simp)
    have he1 : ¬ s.nEq.length ≤ e.1 := by omega
    have hr : ¬ s.nEq.getD e.1 0 + s.nIneq.getD e.1 0 < s.eqSize.getD e.1 0 + s.ineqSize.getD e.1 0 + e.2.size := by
      have := hroom e.1 he
      simp only [rows] at this
      cases hq : e.2.isEq <;> simp [hq, -List.getD_eq_getElem?_getD] at this <;> omega
    simp only [Solver.addConstraints, Solver.addConstraint, if_neg he1, if_neg hr]
    cases hq : e.2.isEq with
    | true =>
      simp only [if_true]
      refine ih _ ⟨by simp only [length_bump]; exact hs.l1, hs.l2⟩ (fun e he => hl e (by simp [he])) fun p hp => ?_
      have := hroom p hp
      simp only [rows, hq] at this
      simp only
      rw [getD_bump _ _ _ _ (by rw [hs.l1]; exact he)]
      by_cases hep : e.1 = p <;> simp [hep, -List.getD_eq_getElem?_getD] at this ⊢ <;> omega
    | false =>
      simp only [Bool.false_eq_true, if_false]
      refine ih _ ⟨hs.l1, by simp only [length_bump]; exact hs.l2⟩ (fun e he => hl e (by simp [he])) fun p hp => ?_
      have := hroom p hp
      simp only [rows, hq] at this
      simp only
      rw [getD_bump _ _ _ _ (by rw [hs.l2]; exact he)]
      by_cases hep : e.1 = p <;> simp [hep, -List.getD_eq_getElem?_getD] at this ⊢ <;> omega

theorem addBounds_same (bs : List Cstr) : ∀ s : Solver K, (bs.foldl Solver.addBound s).eqSize = s.eqSize ∧ (bs.foldl Solver.addBound s).ineqSize = s.ineqSize ∧
    (bs.foldl Solver.addBound s).nEq = s.nEq ∧ (bs.foldl Solver.addBound s).nIneq = s.nIneq ∧ (bs.foldl Solver.addBound s).bounds = s.bounds ∧
    (bs.foldl Solver.addBound s).n = s.n := by
  induction bs with
  | nil => intro s; exact ⟨rfl, rfl, rfl, rfl, rfl, rfl⟩
  | cons c bs ih => intro s; exact ih (s.addBound c)

/-- `addConstraints` during a build. -/
theorem built_adds (b : Built K) (hb : b.building = true) (l : List (Nat × Cstr)) :
    b.addConstraints l = match b.s.addConstraints l with
      | .ok _ s => .ok () { b with s := s }
      | .throw _ => .throw ()
      | .ub => .ub := by
  cases l with
  | nil => rfl
  | cons e l =>
    simp only [Built.addConstraints, hb, List.isEmpty_cons, Bool.false_eq_true, if_false, Bool.true_eq_false]
    cases b.s.addConstraints (e :: l) <;> rfl

/-- `finalizeBuild` compares the counters with the sizes declared. -/
theorem finalize_iff (b b' : Built K) : b.finalizeBuild = .ok () b' ↔
    (b.s.nEq = b.s.eqSize ∧ b.s.nIneq = b.s.ineqSize) ∧ b' = { b with building := false } := by
  simp only [Built.finalizeBuild, Solver.finalizeBuild]
  by_cases h : b.s.nEq = b.s.eqSize ∧ b.s.nIneq = b.s.ineqSize
  · rw [if_pos h]; simp [h, eq_comm]
  · rw [if_neg h]; simp [h]

/-- A build of the declared sizes, in a closed form. -/
theorem build_iff (o : Opts K) (b b' : Built K) (n : Nat) {nEq nIneq : List Nat} {l : List (Nat × Cstr)} (hd : Declared nEq nIneq l) (bs : List Cstr) :
    b.build o n nEq nIneq l false bs = .ok () b' → (∀ p, p < nEq.length → b.s.eqSize.getD p 0 = 0 ∧ b.s.ineqSize.getD p 0 = 0) ∧
      b'.s.nEq = nEq ∧ b'.s.nIneq = nIneq ∧ b'.s.eqSize = nEq ∧ b'.s.ineqSize = nIneq ∧ b'.building = false ∧ b'.vars = true ∧
      b'.nData = max b.nData nEq.length ∧ b'.s.bounds = (!bs.isEmpty) ∧
      b'.ours = (((!bs.isEmpty) && (o.feasibleFirst || decide (0 < nEq.length))) || (b.ours && !(b.inData && decide (0 < nEq.length)))) := by
  intro h
  simp only [Built.build, Built.startBuild, hd.len, ne_eq, not_true_eq_false, if_false] at h
  rw [built_adds _ rfl] at h
  simp only at h
  split at h
  · rename_i b2 hb2
    split at hb2
    · rename_i s2 hs2
      injection hb2 with _ hb2
      subst hb2
      simp only [Bool.false_eq_true, if_false] at h
      rw [finalize_iff] at h
      obtain ⟨⟨h1, h2⟩, rfl⟩ := h
      obtain ⟨g1, g2, g3, g4, g5, g6, g7⟩ := adds_ok l _ s2 ⟨by simp [length_keep, HLS.startBuild, hd.len], by simp [length_keep, HLS.startBuild, hd.len]⟩
        (fun e he => hd.lvl e he) hs2
      obtain ⟨a1, a2, a3, a4, a5, a6⟩ := addBounds_same bs s2
      simp only [Built.addBounds, a1, a2, a3, a4] at h1 h2
      rw [g2] at h1
      rw [g3] at h2
      have h1 : nEq = s2.eqSize := h1
      have h2 : nIneq = s2.ineqSize := h2
      refine ⟨fun p hp => ?_, ?_, ?_, ?_, ?_, rfl, rfl, by rw [hd.len]; rfl, ?_, by rw [hd.len]; rfl⟩
      · obtain ⟨k1, k2⟩ := g7 p
        simp only at k1 k2
        rw [getD_keep _ _ _ (by rw [← hd.len]; exact hp), ← h1, hd.eq p hp] at k1
        rw [getD_keep _ _ _ (by rw [← hd.len]; exact hp), ← h2, hd.ineq p hp] at k2
        omega
      · simp only [Built.addBounds, a3, g2]; rfl
      · simp only [Built.addBounds, a4, g3]; rfl
      · simp only [Built.addBounds, a1, ← h1]
      · simp only [Built.addBounds, a2, ← h2]
      · simp only [Built.addBounds, a5, g5]; rfl
    · cases hb2
    · cases hb2
  · cases h
  · cases h

theorem build_total (o : Opts K) (b : Built K) (n : Nat) {nEq nIneq : List Nat} {l : List (Nat × Cstr)} (hd : Declared nEq nIneq l) (bs : List Cstr)
    (hz : ∀ p, p < nEq.length → b.s.eqSize.getD p 0 = 0 ∧ b.s.ineqSize.getD p 0 = 0) :
    ∃ b', b.build o n nEq nIneq l false bs = .ok () b' := by
  simp only [Built.build, Built.startBuild, hd.len, ne_eq, not_true_eq_false, if_false]
  rw [built_adds _ rfl]
  simp only
  let s0 : Solver K := { HLS.startBuild o n nEq nIneq (!bs.isEmpty) with
    eqSize := keep b.s.eqSize nIneq.length
    ineqSize := keep b.s.ineqSize nIneq.length
    data := fun i => if i < nIneq.length then (HLS.startBuild o n nEq nIneq (!bs.isEmpty)).data i else b.s.data i }
  have hsh : Shaped s0 := ⟨by simp [s0, length_keep, HLS.startBuild, hd.len], by simp [s0, length_keep, HLS.startBuild, hd.len]⟩
  have hz' : ∀ p, p < nEq.length → s0.eqSize.getD p 0 = 0 ∧ s0.ineqSize.getD p 0 = 0 := by
    intro p hp
    have hp' : p < nIneq.length := by rw [← hd.len]; exact hp
    exact ⟨(getD_keep _ _ _ hp').trans (hz p hp).1, (getD_keep _ _ _ hp').trans (hz p hp).2⟩
  obtain ⟨s2, hs2⟩ := adds_total l s0 hsh (fun e he => hd.lvl e he) (fun p hp => by
    have hp : p < nEq.length := hp
    rw [(hz' p hp).1, (hz' p hp).2]
    change _ ≤ nEq.getD p 0 + nIneq.getD p 0
    rw [hd.eq p hp, hd.ineq p hp]; omega)
  simp only [s0] at hs2
  rw [hs2]
  simp only [Bool.false_eq_true, if_false]
  obtain ⟨g1, g2, g3, g4, g5, g6, g7⟩ := adds_ok l s0 s2 hsh (fun e he => hd.lvl e he) hs2
  obtain ⟨a1, a2, a3, a4, a5, a6⟩ := addBounds_same bs s2
  refine ⟨_, (finalize_iff _ _).2 ⟨⟨?_, ?_⟩, rfl⟩⟩
  · simp only [Built.addBounds, a1, a3]
    have e2 : s2.nEq = nEq := g2
    refine list_ext_getD g1.l1.symm fun p hp => ?_
    rw [(g7 p).1, e2]
    rw [e2] at hp
    rw [(hz' p hp).1, hd.eq p hp]; omega
  · simp only [Built.addBounds, a2, a4]
    have e2 : s2.nEq = nEq := g2
    have e3 : s2.nIneq = nIneq := g3
    refine list_ext_getD (by rw [g1.l2, e2, e3, hd.len]) fun p hp => ?_
    rw [(g7 p).2, e3]
    rw [e3, ← hd.len] at hp
    rw [(hz' p hp).2, hd.ineq p hp]; omega

/-- The additions do not read the matrices. -/
theorem adds_data (d : Nat → Level K) : ∀ (l : List (Nat × Cstr)) (s s' : Solver K), s.addConstraints l = .ok () s' →
    Solver.addConstraints { s with data := d } l = .ok () { s' with data := d } := by
  intro l
  induction l with
  | nil => intro s s' h; simp only [Solver.addConstraints, Outcome.ok.injEq, true_and] at h ⊢; rw [h]
  | cons e l ih =>
    intro s s' h
    simp only [Solver.addConstraints] at h ⊢
    by_cases h1 : s.nEq.length ≤ e.1
    · simp [Solver.addConstraint, h1] at h
    · by_cases h2 : s.nEq.getD e.1 0 + s.nIneq.getD e.1 0 < s.eqSize.getD e.1 0 + s.ineqSize.getD e.1 0 + e.2.size
      · simp only [Solver.addConstraint, if_neg h1, if_pos h2] at h; cases h
      · simp only [Solver.addConstraint, if_neg h1, if_neg h2] at h ⊢
        exact ih _ s' h

theorem addBounds_data (d : Nat → Level K) (bs : List Cstr) : ∀ s : Solver K,
    bs.foldl Solver.addBound { s with data := d } = { bs.foldl Solver.addBound s with data := d } ∧ (bs.foldl Solver.addBound s).data = s.data := by
  induction bs with
  | nil => intro s; exact ⟨rfl, rfl⟩
  | cons c bs ih => intro s; exact ih (s.addBound c)

theorem runAsg_congr (o : Opts K) (v : Nat → Val K) (m : Nat) : ∀ (l : List Asg) (d d' : Nat → Level K), (∀ p, p < m → d p = d' p) →
    ∀ p, p < m → runAsg o v l d p = runAsg o v l d' p := by
  intro l
  induction l with
  | nil => intro d d' h; exact h
  | cons a l ih => intro d d' h; exact ih _ _ fun p hp => by simp only [h p hp]

/-- The levels given depend on the levels of the same rank only. -/
theorem prepare_congr (o : Opts K) (v : Nat → Val K) (s : Solver K) (d : Nat → Level K) (m : Nat) (h : ∀ p, p < m → s.data p = d p) :
    (s.prepare o v).bounds = (Solver.prepare o v { s with data := d }).bounds ∧ (s.prepare o v).xl = (Solver.prepare o v { s with data := d }).xl ∧
    (s.prepare o v).xu = (Solver.prepare o v { s with data := d }).xu ∧ ∀ p, p < m → (s.prepare o v).data p = (Solver.prepare o v { s with data := d }).data p := by
  refine ⟨rfl, rfl, rfl, fun p hp => ?_⟩
  simp only [Solver.prepare, Solver.runBounds, Solver.resetBounds]
  rw [runAsg_congr o v m s.asg _ _ (fun p hp => by rw [h p hp]) p hp]

/-- A build over a solver without rows at the levels of the build differs from a first build as modelled in `Model.Hierarchical` by the further levels. -/
theorem build_chain (o : Opts K) (b b' : Built K) (n : Nat) {nEq nIneq : List Nat} {l : List (Nat × Cstr)} (hd : Declared nEq nIneq l) (bs : List Cstr)
    (hz : ∀ p, p < nEq.length → b.s.eqSize.getD p 0 = 0 ∧ b.s.ineqSize.getD p 0 = 0) (h : b.build o n nEq nIneq l false bs = .ok () b') :
    ∃ s s1 d, (HLS.startBuild o n nEq nIneq (!bs.isEmpty)).addConstraints l = .ok () s ∧ (bs.foldl Solver.addBound s).finalizeBuild = .ok () s1 ∧
      s1 = { b'.s with data := d } ∧ ∀ p, p < nEq.length → b'.s.data p = d p := by
  have hk : ∀ v : List Nat, (∀ p, p < nIneq.length → v.getD p 0 = 0) → keep v nIneq.length = List.replicate nEq.length 0 := by
    intro v hv
    refine list_ext_getD (by simp [length_keep, hd.len]) fun p hp => ?_
    rw [length_keep] at hp
    rw [getD_keep _ _ _ hp, hv p hp]
    simp [List.getD_eq_getElem?_getD, hd.len, hp]
  have k1 := hk b.s.eqSize (fun p hp => (hz p (by rw [hd.len]; exact hp)).1)
  have k2 := hk b.s.ineqSize (fun p hp => (hz p (by rw [hd.len]; exact hp)).2)
  simp only [Built.build, Built.startBuild, hd.len, ne_eq, not_true_eq_false, if_false, k1, k2] at h
  rw [built_adds _ rfl] at h
  simp only at h
  split at h
  · rename_i b2 hb2
    split at hb2
    · rename_i s2 hs2
      injection hb2 with _ hb2
      subst hb2
      simp only [Bool.false_eq_true, if_false] at h
      rw [finalize_iff] at h
      obtain ⟨h12, rfl⟩ := h
      let d : Nat → Level K := (HLS.startBuild o n nEq nIneq (!bs.isEmpty)).data
      have hs0 := adds_data d l _ s2 hs2
      have hb := addBounds_data d bs s2
      have hdata : s2.data = fun i => if i < nIneq.length then (HLS.startBuild o n nEq nIneq (!bs.isEmpty)).data i else b.s.data i :=
        (adds_ok l _ s2 ⟨by simp [HLS.startBuild, hd.len], by simp [HLS.startBuild, hd.len]⟩ (fun e he => hd.lvl e he) hs2).2.2.2.2.2.1
      refine ⟨{ s2 with data := d }, bs.foldl Solver.addBound { s2 with data := d }, d, ?_, ?_, hb.1, fun p hp => ?_⟩
      · rw [← hd.len] at hs0
        exact hs0
      · simp only [Built.addBounds] at h12
        rw [hb.1]
        exact if_pos h12
      · rw [hd.len] at hp
        simp only [Built.addBounds, hb.2, hdata, d, if_pos hp]
    · cases hb2
    · cases hb2
  · cases h
  · cases h

/-- The resolutions after such a build -/
theorem solve_chain (o : Opts K) (b b' : Built K) (n : Nat) {nEq nIneq : List Nat} {l : List (Nat × Cstr)} (hd : Declared nEq nIneq l) (bs : List Cstr)
    (hz : ∀ p, p < nEq.length → b.s.eqSize.getD p 0 = 0 ∧ b.s.ineqSize.getD p 0 = 0) (hl : b.nData ≤ nEq.length) (ho : b.ours = true)
    (hb : b.inData = true → bs ≠ []) (h : b.build o n nEq nIneq l false bs = .ok () b') :
    ∃ s s1, (HLS.startBuild o n nEq nIneq (!bs.isEmpty)).addConstraints l = .ok () s ∧ (bs.foldl Solver.addBound s).finalizeBuild = .ok () s1 ∧
      s1.nEq.length = nEq.length ∧ ∀ v, b'.solve o v = .ok () ((s1.prepare o v).objectives o) := by
  obtain ⟨_, g2, g3, _, _, g6, g7, g8, g9, g10⟩ := build_iff o _ b' n hd bs h
  obtain ⟨s, s1, d, c1, c2, c3, c4⟩ := build_chain o b b' n hd bs hz h
  refine ⟨s, s1, c1, c2, by rw [c3, g2], fun v => ?_⟩
  have hours : b'.ours = true := by
    rw [g10, ho]
    cases hi : b.inData with
    | false => simp
    | true =>
      have : bs.isEmpty = false := by
        cases bs with
        | nil => exact absurd rfl (hb hi)
        | cons _ _ => rfl
      simp only [this]
      by_cases h0 : 0 < nEq.length <;> simp [h0]
  have hn : b'.nData = nEq.length := by rw [g8]; omega
  obtain ⟨p1, p2, p3, p4⟩ := prepare_congr o v b'.s d nEq.length c4
  have hq : (s1.prepare o v).nEq = nEq := by rw [c3]; exact g2
  simp only [Built.solve, g6, g7, hours, hn, Solver.objectives, hq, Bool.false_eq_true, if_false, Bool.true_eq_false, or_self]
  rw [c3, p1, p2, p3]
  congr 2
  apply List.map_congr_left
  intro p hp
  rw [p4 p (List.mem_range.1 hp)]

/-! ## Properties -/

/-- **C122.** A build whose declared sizes are those of the constraints added succeeds if and only if the former builds of the solver left
no row at the levels of the new build. (`startBuild` does not reset the rows already used.) -/
theorem C122_build (o : Opts K) (b : Built K) (n : Nat) {nEq nIneq : List Nat} {l : List (Nat × Cstr)} (hd : Declared nEq nIneq l) (bs : List Cstr) :
    (∃ b', b.build o n nEq nIneq l false bs = .ok () b') ↔
      ∀ p, p < nEq.length → b.s.eqSize.getD p 0 = 0 ∧ b.s.ineqSize.getD p 0 = 0 :=
  ⟨fun ⟨b', h⟩ => (build_iff o b b' n hd bs h).1, build_total o b n hd bs⟩

/-- **C122.** The first build of a solver succeeds, and the resolutions give LexLS the levels of the build, each one once: those of the solver of C68, which has exactly the constraints and
bounds of the build, provided that the vector of variables still exists. Missing: later builds (`C122_again_false`, `C122_levels_false`) and the variables
(`C122_variables_false`). -/
theorem C122_first_partial (o : Opts K) (n : Nat) {nEq nIneq : List Nat} {l : List (Nat × Cstr)} (hd : Declared nEq nIneq l) (bs : List Cstr) :
    ∃ b' s s1, (Built.new : Built K).build o n nEq nIneq l false bs = .ok () b' ∧
      (HLS.startBuild o n nEq nIneq (!bs.isEmpty)).addConstraints l = .ok () s ∧ (bs.foldl Solver.addBound s).finalizeBuild = .ok () s1 ∧ s1.nEq.length = nEq.length ∧
      ∀ v, b'.solve o v = .ok () ((s1.prepare o v).objectives o) := by
  have hz : ∀ p, p < nEq.length → (Built.new : Built K).s.eqSize.getD p 0 = 0 ∧ (Built.new : Built K).s.ineqSize.getD p 0 = 0 := by simp [Built.new]
  obtain ⟨b', h⟩ := build_total o (Built.new : Built K) n hd bs hz
  obtain ⟨s, s1, h1⟩ := solve_chain o _ b' n hd bs hz (Nat.zero_le _) rfl (fun h => by cases h) h
  exact ⟨b', s, s1, h, h1⟩

/-- **C122.** A later build is as good as a first one when the former builds left no row at its levels and had no more levels, with
bounds if the bounds were rows of the first level: the resolutions give LexLS what they would give after a build of a new solver. -/
theorem C122_later_partial (o : Opts K) (b : Built K) (n : Nat) {nEq nIneq : List Nat} {l : List (Nat × Cstr)} (hd : Declared nEq nIneq l) (bs : List Cstr)
    (hz : ∀ p, p < nEq.length → b.s.eqSize.getD p 0 = 0 ∧ b.s.ineqSize.getD p 0 = 0) (hl : b.nData ≤ nEq.length) (ho : b.ours = true)
    (hb : b.inData = true → bs ≠ []) :
    ∃ b' b0, b.build o n nEq nIneq l false bs = .ok () b' ∧ (Built.new : Built K).build o n nEq nIneq l false bs = .ok () b0 ∧
      ∀ v, ∃ objs, b'.solve o v = .ok () objs ∧ b0.solve o v = .ok () objs := by
  obtain ⟨b', h⟩ := build_total o b n hd bs hz
  obtain ⟨s, s1, c1, c2, _, c3⟩ := solve_chain o b b' n hd bs hz hl ho hb h
  obtain ⟨b0, t, t1, h0, d1, d2, _, d3⟩ := C122_first_partial o n hd bs
  rw [c1] at d1
  injection d1 with _ d1
  subst d1
  rw [c2] at d2
  injection d2 with _ d2
  subst d2
  exact ⟨b', b0, h, h0, fun v => ⟨_, c3 v, d3 v⟩⟩

/-- A solver cannot be built twice: once a build with a constraint of at least one row has succeeded, no build that has the level of this constraint
succeeds, in particular the same one. -/
theorem C122_again_false (o : Opts K) (b b' : Built K) (n : Nat) {nEq nIneq : List Nat} {l : List (Nat × Cstr)} (hd : Declared nEq nIneq l) (bs : List Cstr)
    (h : b.build o n nEq nIneq l false bs = .ok () b') {e : Nat × Cstr} (he : e ∈ l) (hs : 0 < e.2.size)
    (n' : Nat) {nEq' nIneq' : List Nat} {l' : List (Nat × Cstr)} (hd' : Declared nEq' nIneq' l') (bs' : List Cstr) (hlvl : e.1 < nEq'.length) (b'' : Built K) :
    b'.build o n' nEq' nIneq' l' false bs' ≠ .ok () b'' := by
  intro h'
  obtain ⟨_, _, _, g4, g5, _⟩ := build_iff o b b' n hd bs h
  have hz := (build_iff o b' b'' n' hd' bs' h').1 e.1 hlvl
  rw [g4, g5, hd.eq e.1 (hd.lvl e he), hd.ineq e.1 (hd.lvl e he)] at hz
  have : ∀ (l : List (Nat × Cstr)), e ∈ l → 0 < rows l e.1 true + rows l e.1 false := by
    intro l
    induction l with
    | nil => intro h; simp at h
    | cons x l ih =>
      intro hx
      simp only [rows]
      rcases List.mem_cons.1 hx with rfl | hx
      · cases hq : e.2.isEq <;> simp <;> omega
      · have := ih hx; omega
  have := this l he
  omega

/-! ### Counterexamples -/

/-- An equality constraint of one row. -/
def one (i : Nat) : Cstr := ⟨i, 0, .l2, false, false, .equal, 1, 0, fun _ => true⟩

/-- A bound. -/
def bnd (i : Nat) : Cstr := ⟨i, 0, .l2, true, false, .both, 1, 0, fun _ => false⟩

theorem declared_of {nEq nIneq : List Nat} {l : List (Nat × Cstr)} (h1 : nEq.length = nIneq.length) (h2 : l.all (fun e => e.1 < nEq.length) = true)
    (h3 : (List.range nEq.length).all (fun p => nEq.getD p 0 == rows l p true && nIneq.getD p 0 == rows l p false) = true) : Declared nEq nIneq l := by
  have h3' := List.all_eq_true.1 h3
  refine ⟨h1, fun e he => by simpa using List.all_eq_true.1 h2 e he, fun p hp => ?_, fun p hp => ?_⟩
  · have := h3' p (List.mem_range.2 hp)
    simp only [Bool.and_eq_true, beq_iff_eq] at this
    exact this.1
  · have := h3' p (List.mem_range.2 hp)
    simp only [Bool.and_eq_true, beq_iff_eq] at this
    exact this.2

/-- A build with two levels, of which the first one is empty, then a build with one level: LexLS is given the second level of the
former build too. -/
theorem C122_levels_false : ∃ (b b' : Built ℚ) (objs : List (Obj ℚ)), (Built.new : Built ℚ).build ⟨10, true, false⟩ 1 [0, 1] [0, 0] [(1, one 0)] false [] = .ok () b ∧
    Declared [1] [0] [(0, one 1)] ∧ b.build ⟨10, true, false⟩ 1 [1] [0] [(0, one 1)] false [] = .ok () b' ∧
    b'.solve ⟨10, true, false⟩ (fun _ => ⟨fun _ _ => 1, fun _ => 2, fun _ => 3⟩) = .ok () objs ∧ objs.length = 2 :=
  ⟨_, _, _, rfl, declared_of rfl rfl rfl, rfl, rfl, rfl⟩

/-- The same, with a minimum norm in the second build: it is the level of the former build that is set to the minimum norm, and the last level of
the build is left without any row of it. -/
theorem C122_norm_false : ∃ (b b' : Built ℚ), (Built.new : Built ℚ).build ⟨10, true, false⟩ 1 [0, 1] [0, 0] [(1, one 0)] false [] = .ok () b ∧
    b.build ⟨10, true, false⟩ 1 [1] [0] [] true [] = .ok () b' ∧ (b'.s.data 0).M 0 0 = 0 ∧ (b'.s.data 1).M 0 0 = 1 :=
  ⟨_, _, rfl, rfl, rfl, rfl⟩

/-- A build with bounds as rows of the first level, then a build without bounds: the resolution writes the bounds in memory that was freed or is
used for the new first level. -/
theorem C122_bounds_false : ∃ (b b' : Built ℚ), (Built.new : Built ℚ).build ⟨10, false, false⟩ 1 [0] [0] [] false [bnd 0] = .ok () b ∧
    Declared [1] [0] [(0, one 1)] ∧ b.build ⟨10, false, false⟩ 1 [1] [0] [(0, one 1)] false [] = .ok () b' ∧ ∀ v, b'.solve ⟨10, false, false⟩ v = .ub :=
  ⟨_, _, rfl, declared_of rfl rfl rfl, rfl, fun _ => rfl⟩

/-- The vector of variables is read by the resolution, though it is documented to be needed until `finalizeBuild` only: if it is destroyed after the
build, a resolution is undefined. -/
theorem C122_variables_false (o : Opts K) (b b' : Built K) (n : Nat) {nEq nIneq : List Nat} {l : List (Nat × Cstr)} (hd : Declared nEq nIneq l) (bs : List Cstr)
    (h : b.build o n nEq nIneq l false bs = .ok () b') (v : Nat → Val K) : b'.dropVariables.solve o v = .ub := by
  obtain ⟨_, _, _, _, _, g6, _⟩ := build_iff o b b' n hd bs h
  simp [Built.dropVariables, Built.solve, g6]

/-! ### Cases that meet the hypotheses -/

/-- Two levels, with an equality and two constraints at the same level. -/
example : Declared [2, 1] [0, 2] [(0, one 0), (1, { one 1 with ty := .both, size := 2 }), (0, one 2), (1, one 3)] := declared_of rfl rfl rfl

/-- A later build that succeeds: the first one has bounds only, and an empty level. -/
example : ∃ (b b' : Built ℚ), (Built.new : Built ℚ).build ⟨10, true, false⟩ 1 [0] [0] [] false [bnd 0] = .ok () b ∧
    b.build ⟨10, true, false⟩ 1 [1, 1] [0, 0] [(0, one 1), (1, one 2)] false [bnd 0] = .ok () b' ∧ b.nData ≤ 2 ∧ b.ours = true :=
  ⟨_, _, rfl, rfl, by decide, rfl⟩

end Verif.HLS
