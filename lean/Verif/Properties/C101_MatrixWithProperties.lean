import Verif.Model.MatrixWithProperties
import Verif.Properties.C16_MatrixProperties
/-!
# C101 - the properties carried by a matrix are true of it
-/
set_option autoImplicit false

namespace Verif.C101
open Verif Verif.MP Verif.Prov Verif.WP

/-! ## Specification -/

/-- Two matrices are equal. -/
def Same (X Y : Mat ℝ) : Prop := X.rows = Y.rows ∧ X.cols = Y.cols ∧ ∀ i < X.rows, ∀ j < X.cols, X.at_ i j = Y.at_ i j

def IsZero (X : Mat ℝ) : Prop := ∀ i < X.rows, ∀ j < X.cols, X.at_ i j = 0

/-- A square matrix of size `n`, as in C16 -/
def toM (n : Nat) (X : Mat ℝ) : C16.M n := fun i j => X.at_ i j

/-- Something is claimed that has a meaning for square matrices only. -/
def Special (p : Props) : Prop := p.isZero = false ∧ (p.isInvertible = true ∨ p.isTriangular = true ∨ p.isLowerTriangular = true ∨ p.isUpperTriangular = true ∨
  p.isDiagonal = true ∨ p.isMultipleOfIdentity = true ∨ p.isIdentity = true ∨ p.isMinusIdentity = true ∨ p.isSymmetric = true ∨ p.isPositiveSemiDefinite = true ∨
  p.isPositiveDefinite = true ∨ p.isNegativeSemidefinite = true ∨ p.isNegativeDefinite = true ∨ p.isIndefinite = true ∨ p.isNonZeroIndefinite = true)

/-- All that the properties claim is true of the values `H` taken by a matrix. -/
structure TrueOf (p : Props) (H : List (Mat ℝ)) : Prop where
  constant : p.isConstant = true → ∀ X ∈ H, ∀ Y ∈ H, Same X Y
  zero : p.isZero = true → ∀ X ∈ H, IsZero X
  square : Special p → ∀ X ∈ H, X.rows = X.cols
  sound : ∀ n, (∀ X ∈ H, X.rows = n ∧ X.cols = n) → C16.Sound p (fun t : {X // X ∈ H} => toM n t.1)

/-- An object and the values it has had since its properties were stated, for a program that uses the interface of the class and only
states, and only keeps, properties that are true. -/
inductive Honest : Obj ℝ → List (Mat ℝ) → Prop where
  | ofExpr (X : Mat ℝ) : Honest (ofExpr X) [X]
  | ofExprP (X : Mat ℝ) (p : Props) (hp : C16.Built p) (h : TrueOf p [X]) : Honest (ofExprP X p) [X]
  | copy {o : Obj ℝ} {H : List (Mat ℝ)} (h : Honest o H) : Honest (copy o) [o.val]
  | assign {o : Obj ℝ} {H : List (Mat ℝ)} (h : Honest o H) {X : Mat ℝ} {o' : Obj ℝ} (e : o.assign X = some o') : Honest o' [o'.val]
  | add {o : Obj ℝ} {H : List (Mat ℝ)} (h : Honest o H) {X : Mat ℝ} {o' : Obj ℝ} (e : o.addAssign X = some o') : Honest o' [o'.val]
  | sub {o : Obj ℝ} {H : List (Mat ℝ)} (h : Honest o H) {X : Mat ℝ} {o' : Obj ℝ} (e : o.subAssign X = some o') : Honest o' [o'.val]
  | keep {o : Obj ℝ} {H : List (Mat ℝ)} (h : Honest o H) {X : Mat ℝ} {o' : Obj ℝ} (e : o.keepAssign true X = some o')
      (ht : TrueOf o.props (X :: H)) : Honest o' (X :: H)
  | noKeep {o : Obj ℝ} {H : List (Mat ℝ)} (h : Honest o H) {X : Mat ℝ} {o' : Obj ℝ} (e : o.keepAssign false X = some o') : Honest o' [o'.val]
  | state {o : Obj ℝ} {H : List (Mat ℝ)} (h : Honest o H) (p : Props) (hp : C16.Built p) (ht : TrueOf p [o.val]) : Honest (o.setProps p) [o.val]
  | refAssign {o : Obj ℝ} {H : List (Mat ℝ)} (h : Honest o H) {r : Range} {X : Mat ℝ} {o' : Obj ℝ} (e : o.refAssign r false X = some o') : Honest o' [o'.val]
  | refKeep {o : Obj ℝ} {H : List (Mat ℝ)} (h : Honest o H) {r : Range} {X : Mat ℝ} {o' : Obj ℝ} (e : o.refAssign r true X = some o')
      (ht : TrueOf o.props (o'.val :: H)) : Honest o' (o'.val :: H)
  | refAdd {o : Obj ℝ} {H : List (Mat ℝ)} (h : Honest o H) {r : Range} {X : Mat ℝ} {o' : Obj ℝ} (e : o.refAdd r X = some o') : Honest o' [o'.val]
  | setA {o : Obj ℝ} {H : List (Mat ℝ)} (h : Honest o H) {X : Mat ℝ} {p : Props} {o' : Obj ℝ} (e : o.setA X p = some o') (hp : C16.Built p)
      (ht : TrueOf p [X]) : Honest o' [o'.val]
  | accumulate {o : Obj ℝ} {H : List (Mat ℝ)} (h : Honest o H) {r : Range} {X : Mat ℝ} {o' : Obj ℝ} (e : o.accumulate r X = some o') : Honest o' [o'.val]

/-! ## Facts -/

/-- Properties that claim at most to be constant -/
def plain (c : Bool) : Props := ⟨c, false, .general, false, .na⟩

theorem plain_make (c : Bool) : make none none (some c) none = some (plain c) := by cases c <;> decide
theorem default_plain : MP.default = plain false := rfl
theorem plain_built (c : Bool) : C16.Built (plain c) := ⟨_, _, _, _, plain_make c⟩

theorem plain_special (c : Bool) : ¬ Special (plain c) := by cases c <;> (unfold Special; decide)

theorem same_refl (X : Mat ℝ) : Same X X := ⟨rfl, rfl, fun _ _ _ _ => rfl⟩

theorem plain_true (c : Bool) (H : List (Mat ℝ)) (h : c = true → ∀ X ∈ H, ∀ Y ∈ H, Same X Y) : TrueOf (plain c) H where
  constant := h
  zero := fun e => absurd e (by cases c <;> decide)
  square := fun e => absurd e (plain_special c)
  sound := fun n hn => C16.C16_declared_sound none none (some c) none _ _
    ⟨fun _ e => (by cases e), fun _ e => (by cases e), fun e a b => by
      obtain ⟨_, _, k⟩ := h (by simpa using e) a.1 a.2 b.1 b.2
      funext i j
      exact k i (by rw [(hn a.1 a.2).1]; exact i.2) j (by rw [(hn a.1 a.2).2]; exact j.2), fun e => (by cases e)⟩ (plain_make c)

theorem single (c : Bool) (X : Mat ℝ) : TrueOf (plain c) [X] :=
  plain_true c _ (fun _ A hA B hB => by rw [List.mem_singleton.1 hA, List.mem_singleton.1 hB]; exact same_refl X)

/-- What is true of some values is true of fewer. -/
theorem TrueOf.mono {p : Props} {H H' : List (Mat ℝ)} (h : TrueOf p H) (hs : ∀ X ∈ H', X ∈ H) (hx : ∃ X, X ∈ H') (hr : ∀ X ∈ H, ∀ Y ∈ H, X.rows = Y.rows ∧ X.cols = Y.cols) :
    TrueOf p H' where
  constant := fun e X hX Y hY => h.constant e X (hs X hX) Y (hs Y hY)
  zero := fun e X hX => h.zero e X (hs X hX)
  square := fun e X hX => h.square e X (hs X hX)
  sound := fun n hn => by
    obtain ⟨Z, hZ⟩ := hx
    have k := h.sound n (fun X hX => by
      obtain ⟨a, b⟩ := hr X hX Z (hs Z hZ)
      exact ⟨a.trans (hn Z hZ).1, b.trans (hn Z hZ).2⟩)
    let g : {X // X ∈ H'} → {X // X ∈ H} := fun t => ⟨t.1, hs t.1 t.2⟩
    exact ⟨fun e s t => k.constant e (g s) (g t), fun e t => k.invertible e (g t), fun e t => k.triangular e (g t), fun e t => k.lower e (g t), fun e t => k.upper e (g t),
      fun e t => k.diagonal e (g t), fun e t => k.multiple e (g t), fun e t => k.identity e (g t), fun e t => k.minusIdentity e (g t), fun e t => k.zero e (g t),
      fun e t => k.symmetric e (g t), fun e t => k.psd e (g t), fun e t => k.pd e (g t), fun e t => k.nsd e (g t), fun e t => k.nd e (g t), fun e t => k.indef e (g t),
      fun e t => k.nzIndef e (g t)⟩

theorem sameSize_iff (X Y : Mat ℝ) : sameSize X Y = true ↔ X.rows = Y.rows ∧ X.cols = Y.cols := by simp [sameSize]

/-- The invariant: the present value is one of the values, which have one size, and the properties were built by a constructor. -/
structure Inv (o : Obj ℝ) (H : List (Mat ℝ)) : Prop where
  true : TrueOf o.props H
  mem : o.val ∈ H
  size : ∀ X ∈ H, X.rows = o.val.rows ∧ X.cols = o.val.cols
  built : C16.Built o.props

theorem inv_single {o : Obj ℝ} (h : TrueOf o.props [o.val]) (hb : C16.Built o.props) : Inv o [o.val] :=
  ⟨h, by simp, fun X hX => by rw [List.mem_singleton.1 hX]; exact ⟨rfl, rfl⟩, hb⟩

theorem inv_plain {o : Obj ℝ} (c : Bool) (h : o.props = plain c) : Inv o [o.val] := inv_single (by rw [h]; exact single c _) (by rw [h]; exact plain_built c)

theorem Honest.inv {o : Obj ℝ} {H : List (Mat ℝ)} (h : Honest o H) : Inv o H := by
  induction h with
  | ofExpr X => exact inv_plain (o := WP.ofExpr X) false rfl
  | ofExprP X p hp ht => exact inv_single (o := WP.ofExprP X p) ht hp
  | @copy o H _ ih =>
    refine inv_single (o := WP.copy o) (ih.true.mono (fun X hX => by rw [List.mem_singleton.1 hX]; exact ih.mem) ⟨_, List.mem_singleton.2 rfl⟩ ?_) ih.built
    intro X hX Y hY
    exact ⟨(ih.size X hX).1.trans (ih.size Y hY).1.symm, (ih.size X hX).2.trans (ih.size Y hY).2.symm⟩
  | @assign o H _ X o' e ih =>
    unfold Obj.assign at e
    split at e
    · cases e; exact inv_plain false rfl
    · cases e
  | @add o H _ X o' e ih =>
    unfold Obj.addAssign at e
    split at e
    · cases e; exact inv_plain false rfl
    · cases e
  | @sub o H _ X o' e ih =>
    unfold Obj.subAssign at e
    split at e
    · cases e; exact inv_plain false rfl
    · cases e
  | @keep o H _ X o' e ht ih =>
    unfold Obj.keepAssign Obj.assignKeep at e
    rw [if_pos rfl] at e
    split at e
    case isTrue hs =>
      cases e
      obtain ⟨a, b⟩ := (sameSize_iff _ _).1 hs
      refine ⟨ht, by simp, fun Y hY => ?_, ih.built⟩
      rcases List.mem_cons.1 hY with rfl | hY
      · exact ⟨rfl, rfl⟩
      · exact ⟨(ih.size Y hY).1.trans a, (ih.size Y hY).2.trans b⟩
    case isFalse => cases e
  | @noKeep o H _ X o' e ih =>
    unfold Obj.keepAssign Obj.assign at e
    rw [if_neg (by decide)] at e
    split at e
    · cases e; exact inv_plain false rfl
    · cases e
  | @state o H _ p hp ht ih => exact inv_single (o := o.setProps p) ht hp
  | @refAssign o H _ r X o' e ih =>
    unfold Obj.refAssign at e
    split at e
    · cases e
    · split at e
      · cases e; exact inv_plain false rfl
      · cases e
  | @refKeep o H _ r X o' e ht ih =>
    unfold Obj.refAssign at e
    split at e
    · cases e
    · split at e
      · cases e
        refine ⟨ht, by simp, fun Y hY => ?_, ih.built⟩
        rcases List.mem_cons.1 hY with rfl | hY
        · exact ⟨rfl, rfl⟩
        · exact ih.size Y hY
      · cases e
  | @refAdd o H _ r X o' e ih =>
    unfold Obj.refAdd at e
    split at e
    · cases e
    · split at e
      · cases e; exact inv_plain false rfl
      · cases e
  | @setA o H _ X p o' e hp ht ih =>
    unfold Obj.setA Obj.assign at e
    split at e
    · cases e; exact inv_single ht hp
    · cases e
  | @accumulate o H _ r X o' e ih =>
    unfold Obj.accumulate at e
    rw [plain_make] at e
    split at e
    · rename_i a b o1 p h1 h2
      cases h2; cases e
      exact inv_plain true rfl
    · cases e

/-! ## Properties -/

/-- **C101 (partial).** Whatever the calls, as long as the properties that are stated or kept are true when they are, all that the
properties of the object claim is true of all the values it has had since they were stated, the present one among them. Missing: the
functions inherited from Eigen (`C101_raw_false`) and what is stated or read through slices (`C101_ref_false`). -/
theorem C101_partial {o : Obj ℝ} {H : List (Mat ℝ)} (h : Honest o H) : TrueOf o.props H ∧ o.val ∈ H := ⟨h.inv.true, h.inv.mem⟩

/-- **C101 (slices).** The properties of a slice of a const object can always be built; they claim of the slice to be constant or zero
exactly if the properties of the object do, and nothing else that has a meaning for square matrices only; and all they claim is true of the
slices of all the values. -/
theorem C101_slice {o : Obj ℝ} {H : List (Mat ℝ)} (h : Honest o H) (r : Range) (hr : 0 ≤ r.start ∧ 0 ≤ r.dim ∧ r.stop ≤ o.val.cols) :
    ∃ s, o.constSlice r = some s ∧ s.props.isConstant = o.props.isConstant ∧ s.props.isZero = o.props.isZero ∧ ¬ Special s.props ∧
      TrueOf s.props (H.filterMap fun X => X.middle r) ∧ s.val ∈ H.filterMap fun X => X.middle r := by
  have hv : ∀ X ∈ H, X.middle r = some ⟨X.rows, r.dim.toNat, fun i j => X.at_ i (r.start.toNat + j)⟩ := by
    intro X hX
    unfold Mat.middle
    rw [if_pos ⟨hr.1, hr.2.1, by rw [(h.inv.size X hX).2]; exact hr.2.2⟩]
  have hm : ∀ Y ∈ H.filterMap (fun X => X.middle r), ∃ X ∈ H, Y = ⟨X.rows, r.dim.toNat, fun i j => X.at_ i (r.start.toNat + j)⟩ := by
    intro Y hY
    obtain ⟨X, hX, e⟩ := List.mem_filterMap.1 hY
    rw [hv X hX] at e
    exact ⟨X, hX, (Option.some.inj e).symm⟩
  have hin : ∀ j, j < r.dim.toNat → ∀ X ∈ H, r.start.toNat + j < X.cols := by
    intro j hj X hX
    rw [(h.inv.size X hX).2]
    have := hr.2.2
    unfold Range.stop at this
    have h1 := hr.1
    have h2 := hr.2.1
    omega
  have hconst : o.props.isConstant = true → ∀ X ∈ H.filterMap (fun X => X.middle r), ∀ Y ∈ H.filterMap (fun X => X.middle r), Same X Y := by
    intro e X hX Y hY
    obtain ⟨A, hA, rfl⟩ := hm X hX
    obtain ⟨B, hB, rfl⟩ := hm Y hY
    obtain ⟨s1, s2, s3⟩ := h.inv.true.constant e A hA B hB
    exact ⟨s1, rfl, fun i hi j hj => s3 i hi _ (hin j hj A hA)⟩
  have hmem : (⟨o.val.rows, r.dim.toNat, fun i j => o.val.at_ i (r.start.toNat + j)⟩ : Mat ℝ) ∈ H.filterMap (fun X => X.middle r) :=
    List.mem_filterMap.2 ⟨o.val, h.inv.mem, hv _ h.inv.mem⟩
  by_cases hz : o.props.isZero = true
  · have hc : o.props.isConstant = true := by
      obtain ⟨s, p, c, i, hb⟩ := h.inv.built
      have key : ∀ q : Props, make s p c i = some q → q.isZero = true → q.isConstant = true := by
        intro q
        unfold MP.make build
        split
        · intro e; cases e
        split
        · intro e; cases e
        split
        · intro e; cases e
        split
        · intro e; cases e
        split
        · intro e; cases e
        · intro e; cases e
          intro hq
          simp only [Props.isZero, Props.isConstant, deduceShape] at hq ⊢
          split at hq
          · cases hq
          · have : s.getD .general = .zero := by simpa using hq
            rw [this]
            simp [deduceConstance]
      exact key _ hb hz
    let p : Props := ⟨true, false, .zero, true, .indef⟩
    have hps : ¬ Special p := fun e => (by cases e.1)
    have hp : sliceProps o.props = some p := by
      unfold sliceProps
      rw [if_pos hz, hc]
      decide
    refine ⟨⟨_, p⟩, ?_, hc.symm, hz.symm, hps, ?_, hmem⟩
    · unfold Obj.constSlice
      rw [hv _ h.inv.mem]
      simp only
      rw [hp]
      rfl
    · have zz : ∀ Y ∈ H.filterMap (fun X => X.middle r), IsZero Y := by
        intro Y hY
        obtain ⟨A, hA, rfl⟩ := hm Y hY
        exact fun i hi j hj => h.inv.true.zero hz A hA i hi _ (hin j hj A hA)
      refine ⟨fun _ => hconst hc, fun _ => zz, fun e => absurd e hps, fun n hn => ?_⟩
      have hM : ∀ t : {X // X ∈ H.filterMap (fun X => X.middle r)}, toM n t.1 = 0 := by
        intro t
        funext i j
        exact zz t.1 t.2 i (by rw [(hn t.1 t.2).1]; exact i.2) j (by rw [(hn t.1 t.2).2]; exact j.2)
      exact C16.C16_declared_sound (some .zero) none (some true) none _ p
        ⟨fun x e t => by cases e; exact hM t, fun _ e => (by cases e), fun _ a b => by rw [hM a, hM b], fun e => (by cases e)⟩ (by decide)
  · have hz' : o.props.isZero = false := by simpa using hz
    have hp : sliceProps o.props = some (plain o.props.isConstant) := by
      unfold sliceProps
      rw [if_neg hz, plain_make]
    refine ⟨⟨_, plain o.props.isConstant⟩, ?_, rfl, by rw [hz']; rfl, ?_, plain_true _ _ hconst, hmem⟩
    · unfold Obj.constSlice
      rw [hv _ h.inv.mem]
      simp only
      rw [hp]
      rfl
    · exact plain_special _

/-- **C101 (accumulation).** `BasicLinearFunction::add` on a part of a variable claims no more than to be constant, whatever was claimed
before, and adds to the columns of the part only. -/
theorem C101_accumulate (o o' : Obj ℝ) (r : Range) (X : Mat ℝ) (h : o.accumulate r X = some o') :
    o'.props.isConstant = true ∧ o'.props.isZero = false ∧ ¬ Special o'.props ∧ o'.val.rows = o.val.rows ∧ o'.val.cols = o.val.cols ∧ (X.cols : Int) = r.dim ∧
    (∀ i, ∀ j < X.cols, o'.val.at_ i (r.start.toNat + j) = o.val.at_ i (r.start.toNat + j) + X.at_ i j) ∧
    ∀ i j : Nat, ((j : Int) < r.start ∨ r.stop ≤ (j : Int)) → o'.val.at_ i j = o.val.at_ i j := by
  unfold Obj.accumulate at h
  rw [plain_make] at h
  split at h
  case h_2 => cases h
  rename_i a b o1 p h1 h2
  cases h2; cases h
  unfold Obj.refAdd at h1
  split at h1
  · cases h1
  rename_i V hV
  split at h1
  case isFalse => cases h1
  rename_i hs
  cases h1
  unfold Mat.middle at hV
  split at hV
  case isFalse => cases hV
  rename_i hr
  cases hV
  obtain ⟨_, s2⟩ := (sameSize_iff _ _).1 hs
  simp only at s2
  refine ⟨rfl, rfl, plain_special true, rfl, rfl, by omega, fun i j hj => ?_, fun i j hj => ?_⟩
  · show (if _ then _ else _) = _
    unfold Range.stop
    rw [if_pos (by omega)]
    simp
  · show (if _ then _ else _) = _
    rw [if_neg (by omega)]

/-- **C101 (resets).** An assignment, an addition or a subtraction, on the object or on a slice of it, is defined exactly for operands of
the right size and leaves no claim; the assignments that keep the properties are defined in the same cases and leave all the claims. -/
theorem C101_reset (o : Obj ℝ) (X : Mat ℝ) (r : Range) (k : Bool) :
    ((o.val.rows = X.rows ∧ o.val.cols = X.cols) →
      (∃ a, o.assign X = some a ∧ a.props = MP.default ∧ a.val = X) ∧ (∃ a, o.addAssign X = some a ∧ a.props = MP.default ∧ ∀ i j, a.val.at_ i j = o.val.at_ i j + X.at_ i j) ∧
      (∃ a, o.subAssign X = some a ∧ a.props = MP.default ∧ ∀ i j, a.val.at_ i j = o.val.at_ i j - X.at_ i j) ∧
      ∃ a, o.keepAssign k X = some a ∧ a.props = (if k then o.props else MP.default) ∧ a.val = X) ∧
    (¬ (o.val.rows = X.rows ∧ o.val.cols = X.cols) → o.assign X = none ∧ o.addAssign X = none ∧ o.subAssign X = none ∧ o.keepAssign k X = none) ∧
    ((o.refAssign r k X).isSome = true ↔ (0 ≤ r.start ∧ 0 ≤ r.dim ∧ r.stop ≤ o.val.cols) ∧ o.val.rows = X.rows ∧ r.dim = X.cols) ∧
    ∀ a, o.refAssign r k X = some a → a.props = if k then o.props else MP.default := by
  refine ⟨fun h => ?_, fun h => ?_, ?_, ?_⟩
  · have hs : sameSize o.val X = true := (sameSize_iff _ _).2 h
    refine ⟨⟨_, if_pos hs, rfl, rfl⟩, ⟨_, if_pos hs, rfl, fun _ _ => rfl⟩, ⟨_, if_pos hs, rfl, fun _ _ => rfl⟩, ?_⟩
    cases k
    · exact ⟨_, if_pos hs, rfl, rfl⟩
    · exact ⟨_, if_pos hs, rfl, rfl⟩
  · have hs : ¬ sameSize o.val X = true := fun e => h ((sameSize_iff _ _).1 e)
    refine ⟨if_neg hs, if_neg hs, if_neg hs, ?_⟩
    cases k
    · exact if_neg hs
    · exact if_neg hs
  · unfold Obj.refAssign Mat.middle
    by_cases hr : 0 ≤ r.start ∧ 0 ≤ r.dim ∧ r.stop ≤ o.val.cols
    · rw [if_pos hr]
      simp only
      by_cases hs : o.val.rows = X.rows ∧ r.dim.toNat = X.cols
      · rw [if_pos ((sameSize_iff _ _).2 hs)]
        exact ⟨fun _ => ⟨hr, hs.1, by omega⟩, fun _ => rfl⟩
      · rw [if_neg (fun e => hs ((sameSize_iff _ _).1 e))]
        exact ⟨fun e => (by cases e), fun e => absurd ⟨e.2.1, by omega⟩ hs⟩
    · rw [if_neg hr]
      exact ⟨fun e => (by cases e), fun e => absurd e.1 hr⟩
  · intro a e
    unfold Obj.refAssign at e
    split at e
    · cases e
    · split at e
      · cases e; rfl
      · cases e

/-- **C101 (statements).** What is stated is what is read, on the object, on copies of it, and after the matrix of a linear function or
constraint is changed, which is defined exactly for matrices of the same size. -/
theorem C101_stated (o : Obj ℝ) (X : Mat ℝ) (p : Props) :
    (copy o).props = o.props ∧ (copy o).val = o.val ∧ (ofExprP X p).props = p ∧ (ofExprP X p).val = X ∧ (ofExpr X).props = MP.default ∧ (ofExpr X).val = X ∧
    (o.setProps p).props = p ∧ (o.setProps p).val = o.val ∧ ((o.setA X p).isSome = true ↔ o.val.rows = X.rows ∧ o.val.cols = X.cols) ∧
    ∀ a, o.setA X p = some a → a.props = p ∧ a.val = X := by
  refine ⟨rfl, rfl, rfl, rfl, rfl, rfl, rfl, rfl, ?_, fun a e => ?_⟩
  · unfold Obj.setA Obj.assign
    rw [← sameSize_iff]
    by_cases h : sameSize o.val X = true <;> simp [h]
  · unfold Obj.setA Obj.assign at e
    split at e
    · cases e; exact ⟨rfl, rfl⟩
    · cases e

/-! ## Where it is false -/

def id₀ : Mat ℝ := ⟨2, 2, fun i j => if i = j then 1 else 0⟩
def pId : Props := ⟨true, true, .identity, true, .pd⟩
def pZero : Props := ⟨true, false, .zero, true, .indef⟩

theorem pId_true : TrueOf pId [id₀] where
  constant := fun _ X hX Y hY => by rw [List.mem_singleton.1 hX, List.mem_singleton.1 hY]; exact same_refl _
  zero := fun e => absurd e (by decide)
  square := fun _ X hX => by rw [List.mem_singleton.1 hX]; rfl
  sound := fun n hn => by
    have h1 : ∀ t : {X // X ∈ [id₀]}, toM n t.1 = 1 := by
      rintro ⟨X, hX⟩
      obtain rfl := List.mem_singleton.1 hX
      funext i j
      simp [toM, id₀, Matrix.one_apply, Fin.ext_iff]
    exact C16.C16_declared_sound (some .identity) none none none _ pId
      ⟨fun x e t => by cases e; exact h1 t, fun _ e => (by cases e), fun e => (by cases e), fun e => (by cases e)⟩ (by decide)

theorem honest₀ : Honest (ofExprP id₀ pId) [id₀] := .ofExprP _ _ ⟨some .identity, none, none, none, by decide⟩ pId_true

/-- **C101 (false: functions of Eigen).** The functions inherited from Eigen leave the properties: after `setZero` on an identity the
object still claims to be one, constant and invertible. -/
theorem C101_raw_false : ∃ (o : Obj ℝ) (H : List (Mat ℝ)) (X : Mat ℝ), Honest o H ∧ IsZero X ∧ X.rows = o.val.rows ∧ X.cols = o.val.cols ∧
    (o.raw X).props.isIdentity = true ∧ (o.raw X).props.isConstant = true ∧ (o.raw X).props.isInvertible = true ∧ ¬ TrueOf (o.raw X).props [(o.raw X).val] := by
  refine ⟨_, _, ⟨2, 2, fun _ _ => 0⟩, honest₀, fun _ _ _ _ => rfl, rfl, rfl, rfl, rfl, rfl, fun h => ?_⟩
  have k := (h.sound 2 (fun X hX => by rw [List.mem_singleton.1 hX]; exact ⟨rfl, rfl⟩)).identity rfl ⟨_, List.mem_singleton.2 rfl⟩
  have := congrFun (congrFun k 0) 0
  simp [toM, Obj.raw] at this

/-- **C101 (false: slices that are not const).** The properties read through such a slice are those of the whole matrix, and are not true of
the slice: the first column of an identity claims to be an identity. And properties that are true of the slice, stated through it, become
claims on the whole matrix: that a column is zero makes the matrix claim to be zero. -/
theorem C101_ref_false :
    (∃ (o : Obj ℝ) (H : List (Mat ℝ)) (r : Range) (S : Mat ℝ), Honest o H ∧ o.val.middle r = some S ∧ ¬ TrueOf o.refProps [S]) ∧
    ∃ (o o1 : Obj ℝ) (H : List (Mat ℝ)) (r : Range) (S : Mat ℝ), Honest o H ∧ o.refAssign r false S = some o1 ∧ TrueOf pZero [S] ∧
      (o1.refSetProps pZero).props.isZero = true ∧ ¬ TrueOf (o1.refSetProps pZero).props [(o1.refSetProps pZero).val] := by
  constructor
  · refine ⟨_, _, ⟨0, 1⟩, ⟨2, 1, fun i j => id₀.at_ i (0 + j)⟩, honest₀, ?_, fun h => ?_⟩
    · rfl
    · have := h.square (by show Special pId; unfold Special; decide) _ (List.mem_singleton.2 rfl)
      simp at this
  · refine ⟨_, ⟨putCols id₀ ⟨0, 1⟩ ⟨2, 1, fun _ _ => 0⟩, MP.default⟩, _, ⟨0, 1⟩, ⟨2, 1, fun _ _ => 0⟩, honest₀, ?_, ?_, rfl, fun h => ?_⟩
    · rfl
    · refine ⟨fun _ X hX Y hY => by rw [List.mem_singleton.1 hX, List.mem_singleton.1 hY]; exact same_refl _, fun _ X hX => by rw [List.mem_singleton.1 hX]; exact fun _ _ _ _ => rfl,
        fun e => absurd e.1 (by decide), fun n hn => ?_⟩
      have := hn _ (List.mem_singleton.2 rfl)
      simp only at this
      omega
    · have := h.zero rfl _ (List.mem_singleton.2 rfl) 1 (by decide) 1 (by decide)
      have e : (putCols id₀ ⟨0, 1⟩ ⟨2, 1, fun _ _ => 0⟩ : Mat ℝ).at_ 1 1 = 1 := by simp [putCols, id₀, Range.stop]
      exact absurd (e.symm.trans this) one_ne_zero

/-- **C101 (false: constant).** What is claimed to be constant can change: the claim is about the values since it was made, and who has read
it before an assignment is not told. -/
theorem C101_constant_false : ∃ (o o' : Obj ℝ) (H H' : List (Mat ℝ)) (X : Mat ℝ), Honest o H ∧ o.props.isConstant = true ∧ o.setA X (plain true) = some o' ∧ Honest o' H' ∧
    o'.props.isConstant = true ∧ ¬ Same o.val o'.val := by
  have e : (ofExprP id₀ pId).setA ⟨2, 2, fun _ _ => 5⟩ (plain true) = some ⟨⟨2, 2, fun _ _ => 5⟩, plain true⟩ := rfl
  refine ⟨_, _, _, _, _, honest₀, rfl, e, .setA honest₀ e (plain_built _) (single _ _), rfl, fun h => ?_⟩
  have := h.2.2 0 (by decide) 0 (by decide)
  simp [ofExprP, id₀] at this

/-! ## Example -/

/-- An identity to which a column is added, then a slice of it -/
example : ∃ (o : Obj ℝ) (s : Obj ℝ), Honest o [o.val] ∧ o.props.isConstant = true ∧ o.constSlice ⟨1, 1⟩ = some s ∧ s.props.isConstant = true := by
  have e : (ofExprP id₀ pId).accumulate ⟨0, 1⟩ ⟨2, 1, fun _ _ => 3⟩ = some ⟨putCols id₀ ⟨0, 1⟩ ⟨2, 1, fun i j => id₀.at_ i (0 + j) + 3⟩, plain true⟩ := rfl
  exact ⟨_, _, .accumulate honest₀ e, rfl, rfl, rfl⟩

example : TrueOf (ofExprP id₀ pId).props [id₀] := (C101_partial honest₀).1
example : ∃ s, (ofExprP id₀ pId).constSlice ⟨1, 1⟩ = some s ∧ ¬ Special s.props := by
  obtain ⟨s, h, -, -, h', -⟩ := C101_slice honest₀ ⟨1, 1⟩ (by decide)
  exact ⟨s, h, h'⟩

end Verif.C101
