import Verif.Model.BasicLinearFunction
import Verif.Properties.C83_FirstOrderProvider
import Verif.Properties.C53_AffineFunction
import Mathlib.Analysis.Calculus.Deriv.Add
import Mathlib.Analysis.Calculus.Deriv.Mul
/-!
# C88 - a linear function is the one that its matrices say, with its derivatives
-/
set_option autoImplicit false
set_option linter.unusedSectionVars false

namespace Verif.C88
open Verif Verif.VV Verif.Prov Verif.BLF Verif.C83

variable {K : Type} (geo : Nat → Geo) (tr : Nat → Range) (euc : Nat → Bool) (dt : Nat → Nat)

/-! ## Specification -/

/-- The calls of a class derived from `Function`: it adds variables that are not empty, removes variables that it has, changes the size -/
inductive FHist : Fn K → Prop where
  | make (mem : Memory K) (m : Nat) : FHist (BLF.make mem m)
  | add (F F' : Fn K) (mem : Memory K) (v : Nat) (linear : Bool) : FHist F → 0 < (geo v).size → F.addVar geo tr dt mem v linear = .ok F' () → FHist F'
  | addThrow (F F' : Fn K) (mem : Memory K) (v : Nat) (linear : Bool) : FHist F → 0 < (geo v).size → F.addVar geo tr dt mem v linear = .throw F' → FHist F'
  | remove (F F' : Fn K) (v : Nat) : FHist F → v ∈ F.P.vars → F.removeVar geo dt v = .ok F' () → FHist F'
  | resize (F : Fn K) (mem : Memory K) (m : Nat) : FHist F → FHist (F.resize tr mem m)

/-- The lives of a basic linear function: a constructor, on variables that are Euclidean and not empty, then calls of the setters (and of `resize`, by a derived class) -/
inductive Built [Zero K] [Add K] : Fn K → Prop where
  | ab (mem : Memory K) (As : List (Mat K)) (xs : List Nat) (b : Vec K) (F : Fn K) : (∀ v ∈ xs, 0 < (geo v).size) → makeAB geo tr euc dt mem As xs b = .ok () F → Built F
  | a (mem : Memory K) (As : List (Mat K)) (xs : List Nat) (F : Fn K) : (∀ v ∈ xs, 0 < (geo v).size) → makeA geo tr euc dt mem As xs = .ok () F → Built F
  | alloc (mem : Memory K) (m : Nat) (xs : List Nat) (F : Fn K) : (∀ v ∈ xs, 0 < (geo v).size) → (∀ v ∈ xs, euc v = true) → makeAlloc geo tr dt mem m xs = .ok () F → Built F
  | setA (F F' : Fn K) (A : Mat K) (x : Nat) : Built F → F.setA geo A x = .ok F' () → Built F'
  | setA1 (F F' : Fn K) (A : Mat K) : Built F → F.setA1 geo A = .ok F' () → Built F'
  | setB (F F' : Fn K) (b : Vec K) : Built F → F.setB b = .ok F' () → Built F'
  | resize (F : Fn K) (mem : Memory K) (m : Nat) : Built F → Built (F.linResize tr mem m)

/-- Euclidean variables: the tangent space has the size of the variable, and a part is at the same place in both. -/
structure Flat : Prop where
  dim : ∀ v, euc v = true → (tr v).dim = (geo v).size
  shift : ∀ v w, euc v = true → euc w = true → (geo v).contains (geo w) = true → (tr w).start - (tr v).start = (geo w).start - (geo v).start

/-- Values of the variables: the value of a part of a Euclidean variable is a part of its value (C26). -/
def Coherent (x : Nat → Nat → K) : Prop :=
  ∀ v w, euc v = true → euc w = true → (geo v).contains (geo w) = true → ∀ c, x w c = x v (((geo w).start - (geo v).start).toNat + c)

/-- The matrices go with the variables, and each variable is a part of one that comes before it or has nothing in common with those. -/
def Fits (m : Nat) (As : List (Mat K)) (xs : List Nat) : Prop :=
  As.length = xs.length ∧ (∀ t ∈ As.zip xs, euc t.2 = true ∧ t.1.rows = m ∧ t.1.cols = (geo t.2).size) ∧
  ∀ l₁ w l₂, xs = l₁ ++ w :: l₂ → (∃ v ∈ l₁, (geo v).contains (geo w) = true) ∨ ∀ v ∈ l₁, (geo v).intersects (geo w) = false

/-- The row `i` of the sum of the products of the matrices by the values of the variables -/
def combo [CommRing K] (ts : List (Mat K × Nat)) (x : Nat → Nat → K) (i : Nat) : K := (ts.map (fun t => ∑ c ∈ Finset.range t.1.cols, t.1.at_ i c * x t.2 c)).sum

/-! ## The invariant of functions -/

structure FInv (F : Fn K) : Prop where
  hist : Hist geo tr F.P
  sd : Sorted F.jdot
  dk : ∀ v, v ∈ F.P.vars ↔ ∃ M, find F.jdot v = some M
  ds : ∀ v M, find F.jdot v = some M → M.rows = F.P.m ∧ M.cols = (tr v).dim.toNat
  na : F.na.size = F.P.m
  vd : F.vdots = F.P.vars.map dt

/-- The three cases of `addVariable` -/
theorem addVar_cases (F : Fn K) (mem : Memory K) (v : Nat) (linear : Bool) :
    ((∃ x ∈ F.P.vars, (geo x).contains (geo v) = true) ∧ F.addVar geo tr dt mem v linear = .ok F ()) ∨
    ((∀ x ∈ F.P.vars, (geo x).contains (geo v) = false) ∧ (∃ x ∈ F.P.vars, (geo x).intersects (geo v) = true) ∧ F.addVar geo tr dt mem v linear = .throw F) ∨
    ((∀ x ∈ F.P.vars, (geo x).contains (geo v) = false) ∧ (∀ x ∈ F.P.vars, (geo x).intersects (geo v) = false) ∧
      ∃ P', F.P.add geo tr v linear (mem.mat v) = .ok P' () ∧ P' = ⟨F.P.m, F.P.vars ++ [v], put F.P.jac v ⟨F.P.m, (tr v).dim.toNat, mem.mat v⟩, put F.P.lin v linear⟩ ∧
        F.addVar geo tr dt mem v linear = .ok ⟨P', F.vdots ++ [dt v], put F.jdot v ⟨F.P.m, (tr v).dim.toNat, mem.dmat v⟩, F.na, F.b⟩ ()) := by
  unfold Fn.addVar Provider.add
  by_cases h1 : F.P.vars.any (fun x => (geo x).contains (geo v)) = true
  · left
    obtain ⟨y, hy, hc⟩ := List.any_eq_true.1 h1
    refine ⟨⟨y, hy, hc⟩, ?_⟩
    simp only [h1, if_true]
  · have h1' : ∀ x ∈ F.P.vars, (geo x).contains (geo v) = false := by
      intro x hx
      cases hb : (geo x).contains (geo v) with
      | false => rfl
      | true => exact absurd (List.any_eq_true.2 ⟨x, hx, hb⟩) h1
    right
    by_cases h2 : F.P.vars.any (fun x => (geo x).intersects (geo v)) = true
    · left
      obtain ⟨y, hy, hc⟩ := List.any_eq_true.1 h2
      refine ⟨h1', ⟨y, hy, hc⟩, ?_⟩
      simp only [h1, h2, if_true]
      simp
    · right
      refine ⟨h1', ?_, ?_⟩
      · intro x hx
        cases hb : (geo x).intersects (geo v) with
        | false => rfl
        | true => exact absurd (List.any_eq_true.2 ⟨x, hx, hb⟩) h2
      · simp only [h1, h2]
        exact ⟨_, rfl, rfl, rfl⟩

theorem finv_make (mem : Memory K) (m : Nat) : FInv geo tr dt (BLF.make mem m) :=
  ⟨.make m, List.Pairwise.nil, by simp [BLF.make, Prov.make, find], by simp [BLF.make, find], rfl, rfl⟩

theorem finv_add (F F' : Fn K) (mem : Memory K) (v : Nat) (linear : Bool) (h : FInv geo tr dt F) (hs : 0 < (geo v).size) (e : F.addVar geo tr dt mem v linear = .ok F' ()) :
    FInv geo tr dt F' := by
  rcases addVar_cases geo tr dt F mem v linear with ⟨_, e1⟩ | ⟨_, _, e1⟩ | ⟨_, _, P', eP, hP, e1⟩
  · rw [e1] at e; rw [← (Outcome.ok.inj e).1]; exact h
  · rw [e1] at e; cases e
  · rw [e1] at e; rw [← (Outcome.ok.inj e).1]
    refine ⟨.add F.P P' v linear _ h.hist hs eP, sorted_put _ _ _ h.sd, ?_, ?_, ?_, ?_⟩
    · intro w
      show w ∈ P'.vars ↔ ∃ M, find (put F.jdot v _) w = some M
      rw [hP]
      show w ∈ F.P.vars ++ [v] ↔ _
      by_cases hw : w = v
      · subst hw; rw [find_put_self]; simp
      · rw [find_put_of_ne _ _ _ _ hw, ← h.dk w]; simp [hw]
    · intro w M hM
      change find (put F.jdot v _) w = some M at hM
      show M.rows = P'.m ∧ _
      rw [hP]
      by_cases hw : w = v
      · subst hw; rw [find_put_self] at hM; rw [← Option.some.inj hM]; exact ⟨rfl, rfl⟩
      · rw [find_put_of_ne _ _ _ _ hw] at hM; exact h.ds w M hM
    · show F.na.size = P'.m
      rw [hP]; exact h.na
    · show F.vdots ++ [dt v] = P'.vars.map dt
      rw [hP, h.vd]; simp

/-- Writing the same matrix for each variable of a list -/
theorem find_foldl (f : Nat → Mat K) : ∀ (l : List Nat) (j : VMap (Mat K)), Sorted j → Sorted (l.foldl (fun j v => put j v (f v)) j) ∧
    ∀ w, find (l.foldl (fun j v => put j v (f v)) j) w = if w ∈ l then some (f w) else find j w := by
  intro l
  induction l with
  | nil => intro j hj; exact ⟨hj, fun w => by simp⟩
  | cons a l ihl =>
    intro j hj
    obtain ⟨k1, k2⟩ := ihl (put j a (f a)) (sorted_put _ _ _ hj)
    refine ⟨k1, fun w => ?_⟩
    rw [List.foldl_cons, k2 w]
    by_cases hw : w ∈ l
    · rw [if_pos hw, if_pos (List.mem_cons_of_mem _ hw)]
    · rw [if_neg hw]
      by_cases hwa : w = a
      · subst hwa; rw [find_put_self, if_pos List.mem_cons_self]
      · rw [find_put_of_ne _ _ _ _ hwa, if_neg (by simp [hwa, hw])]

theorem finv_resize (F : Fn K) (mem : Memory K) (m : Nat) (h : FInv geo tr dt F) : FInv geo tr dt (F.resize tr mem m) := by
  obtain ⟨k1, k2⟩ := find_foldl (fun v => (⟨m, (tr v).dim.toNat, mem.dmat v⟩ : Mat K)) F.P.vars F.jdot h.sd
  refine ⟨.resize F.P m _ h.hist, k1, ?_, ?_, rfl, h.vd⟩
  · intro w
    show w ∈ F.P.vars ↔ ∃ M, find (resizeJDot tr mem m F.P.vars F.jdot) w = some M
    unfold resizeJDot
    rw [k2 w]
    by_cases hw : w ∈ F.P.vars
    · rw [if_pos hw]; exact ⟨fun _ => ⟨_, rfl⟩, fun _ => hw⟩
    · rw [if_neg hw]; exact h.dk w
  · intro w M hM
    change find (resizeJDot tr mem m F.P.vars F.jdot) w = some M at hM
    unfold resizeJDot at hM
    rw [k2 w] at hM
    by_cases hw : w ∈ F.P.vars
    · rw [if_pos hw] at hM; rw [← Option.some.inj hM]; exact ⟨rfl, rfl⟩
    · rw [if_neg hw] at hM; exact absurd ((h.dk w).2 ⟨M, hM⟩) hw

/-- Removing a variable of the function removes this very variable. -/
theorem remove_vars (P : Provider K) (hP : Hist geo tr P) (v : Nat) (hv : v ∈ P.vars) : (P.remove geo v).vars = P.vars.erase v := by
  have ih := hP.inv geo tr
  have hself : ∀ x ∈ P.vars, (geo x).eqv (geo v) = true → x = v := by
    intro x hx hxe
    refine ih.apart geo tr x v hx hv ?_
    rw [(eqv_iff _ _).1 hxe, intersects_iff]
    have := ih.pos v hv
    exact ⟨rfl, Or.inl ⟨le_refl _, by omega⟩⟩
  show P.vars.eraseP (fun x => (geo x).eqv (geo v)) = _
  revert hself
  generalize P.vars = l
  intro hself
  induction l with
  | nil => rfl
  | cons a l ihl =>
    by_cases ha : a = v
    · rw [List.eraseP_cons_of_pos (p := fun x => (geo x).eqv (geo v)) (by rw [ha]; exact (eqv_iff _ _).2 rfl), ha, List.erase_cons_head]
    · rw [List.eraseP_cons_of_neg (p := fun x => (geo x).eqv (geo v)) (fun he => ha (hself a List.mem_cons_self he)), List.erase_cons_tail (by simpa using ha),
        ihl fun x hx => hself x (List.mem_cons_of_mem _ hx)]

theorem finv_remove (hdt : Function.Injective dt) (F F' : Fn K) (v : Nat) (h : FInv geo tr dt F) (hv : v ∈ F.P.vars) (e : F.removeVar geo dt v = .ok F' ()) : FInv geo tr dt F' := by
  unfold Fn.removeVar at e
  by_cases hd : dt v ∈ F.vdots
  · rw [if_pos hd] at e
    rw [← (Outcome.ok.inj e).1]
    have hvars := remove_vars geo tr F.P h.hist v hv
    have hnd := (h.hist.inv geo tr).nodup
    refine ⟨.remove F.P v h.hist hv, sorted_erase _ _ h.sd, ?_, ?_, h.na, ?_⟩
    · intro w
      show w ∈ (F.P.remove geo v).vars ↔ ∃ M, find (erase F.jdot v) w = some M
      rw [hvars, hnd.mem_erase_iff]
      by_cases hw : w = v
      · subst hw; rw [find_erase_self _ _ h.sd]; simp
      · rw [find_erase_of_ne _ _ _ hw, ← h.dk w]; simp [hw]
    · intro w M hM
      change find (erase F.jdot v) w = some M at hM
      by_cases hw : w = v
      · subst hw; rw [find_erase_self _ _ h.sd] at hM; cases hM
      · rw [find_erase_of_ne _ _ _ hw] at hM; exact h.ds w M hM
    · show F.vdots.erase (dt v) = (F.P.remove geo v).vars.map dt
      rw [hvars, h.vd, List.map_erase hdt]
  · rw [if_neg hd] at e; cases e

theorem FHist.inv (hdt : Function.Injective dt) {F : Fn K} (h : FHist geo tr dt F) : FInv geo tr dt F := by
  induction h with
  | make mem m => exact finv_make geo tr dt mem m
  | add F F' mem v linear _ hs e ih => exact finv_add geo tr dt F F' mem v linear ih hs e
  | addThrow F F' mem v linear _ hs e ih =>
    rcases addVar_cases geo tr dt F mem v linear with ⟨_, e1⟩ | ⟨_, _, e1⟩ | ⟨_, _, P', _, _, e1⟩
    · rw [e1] at e; cases e
    · rw [e1] at e; rw [← Outcome.throw.inj e]; exact ih
    · rw [e1] at e; cases e
  | remove F F' v _ hv e ih => exact finv_remove geo tr dt hdt F F' v ih hv e
  | resize F mem m _ ih => exact finv_resize geo tr dt F mem m ih

/-- After any calls, the derivatives of the variables are listed in the order of the variables, there is a derivative of jacobian for each variable and for no other, with the size of the
jacobian, and the normal acceleration has the size of the function. Removing a variable of the function is always defined. -/
theorem C88_function (hdt : Function.Injective dt) (F : Fn K) (h : FHist geo tr dt F) :
    F.vdots = F.P.vars.map dt ∧ F.na.size = F.P.m ∧ (∀ v, v ∈ F.P.vars ↔ ∃ M, find F.jdot v = some M) ∧
    (∀ v M J, find F.jdot v = some M → find F.P.jac v = some J → M.rows = J.rows ∧ M.cols = J.cols) ∧
    ∀ v ∈ F.P.vars, ∃ F', F.removeVar geo dt v = .ok F' () ∧ F'.P.vars = F.P.vars.erase v ∧ F'.vdots = F.vdots.erase (dt v) := by
  have hi := h.inv geo tr dt hdt
  refine ⟨hi.vd, hi.na, hi.dk, ?_, ?_⟩
  · intro v M J hM hJ
    obtain ⟨a, b⟩ := hi.ds v M hM
    obtain ⟨c, d⟩ := (hi.hist.inv geo tr).size v J hJ
    exact ⟨a.trans c.symm, b.trans d.symm⟩
  · intro v hv
    have hd : dt v ∈ F.vdots := by rw [hi.vd]; exact List.mem_map_of_mem hv
    exact ⟨{ F with P := F.P.remove geo v, jdot := erase F.jdot v, vdots := F.vdots.erase (dt v) }, if_pos hd, remove_vars geo tr F.P hi.hist v hv, rfl⟩

/-! ## The invariant of linear functions -/

structure LInv (F : Fn K) : Prop where
  f : FInv geo tr dt F
  euc : ∀ v ∈ F.P.vars, euc v = true
  bs : F.b.size = F.P.m

/-- The derivatives are null. -/
def Null [Zero K] (F : Fn K) : Prop := (∀ i, F.na.v i = 0) ∧ ∀ v M, find F.jdot v = some M → ∀ i c, M.at_ i c = 0

section
variable [Zero K]

theorem zero_foldl : ∀ (l : List Nat) (j : VMap (Mat K)), Sorted j → Sorted (l.foldl zeroEntry j) ∧
    ∀ w, (w ∉ l → find (l.foldl zeroEntry j) w = find j w) ∧
      (w ∈ l → ∀ M, find j w = some M → find (l.foldl zeroEntry j) w = some ⟨M.rows, M.cols, fun _ _ => 0⟩) := by
  intro l
  induction l with
  | nil => intro j hj; exact ⟨hj, fun w => ⟨fun _ => rfl, fun h => by simp at h⟩⟩
  | cons a l ih =>
    intro j hj
    rw [List.foldl_cons]
    have hs : Sorted (zeroEntry j a) := by
      unfold zeroEntry
      cases find j a with
      | none => exact sorted_put _ _ _ hj
      | some M => exact sorted_put _ _ _ hj
    have hf : ∀ w, w ≠ a → find (zeroEntry j a) w = find j w := by
      intro w hw
      unfold zeroEntry
      cases find j a with
      | none => exact find_put_of_ne _ _ _ _ hw
      | some M => exact find_put_of_ne _ _ _ _ hw
    have hz : ∀ M, find j a = some M → find (zeroEntry j a) a = some ⟨M.rows, M.cols, fun _ _ => 0⟩ := by
      intro M hM
      unfold zeroEntry
      simp only [hM]
      exact find_put_self _ _ _
    obtain ⟨k1, k2⟩ := ih (zeroEntry j a) hs
    refine ⟨k1, fun w => ⟨?_, ?_⟩⟩
    · intro hw
      rw [List.mem_cons, not_or] at hw
      rw [(k2 w).1 hw.2, hf w hw.1]
    · intro hw M hM
      by_cases hwl : w ∈ l
      · by_cases hwa : w = a
        · subst hwa; exact (k2 w).2 hwl ⟨M.rows, M.cols, fun _ _ => 0⟩ (hz M hM)
        · exact (k2 w).2 hwl _ ((hf w hwa).trans hM)
      · rcases List.mem_cons.1 hw with hwa | hwa
        · subst hwa; rw [(k2 w).1 hwl]; exact hz M hM
        · exact absurd hwa hwl

theorem zero_finv (F : Fn K) (h : FInv geo tr dt F) : FInv geo tr dt F.zeroDerivatives ∧ Null F.zeroDerivatives := by
  obtain ⟨k1, k2⟩ := zero_foldl F.P.vars F.jdot h.sd
  have key : ∀ w, find (F.P.vars.foldl zeroEntry F.jdot) w = (find F.jdot w).map (fun M => ⟨M.rows, M.cols, fun _ _ => 0⟩) := by
    intro w
    by_cases hw : w ∈ F.P.vars
    · obtain ⟨M, hM⟩ := (h.dk w).1 hw
      rw [(k2 w).2 hw M hM, hM]; rfl
    · rw [(k2 w).1 hw]
      cases hf : find F.jdot w with
      | none => rfl
      | some M => exact absurd ((h.dk w).2 ⟨M, hf⟩) hw
  refine ⟨⟨h.hist, k1, ?_, ?_, h.na, h.vd⟩, fun _ => rfl, ?_⟩
  · intro w
    show w ∈ F.P.vars ↔ ∃ M, find (F.P.vars.foldl zeroEntry F.jdot) w = some M
    rw [key w, h.dk w]
    cases find F.jdot w with
    | none => simp
    | some M => simp
  · intro w M hM
    change find (F.P.vars.foldl zeroEntry F.jdot) w = some M at hM
    rw [key w] at hM
    obtain ⟨M', h1, h2⟩ := Option.map_eq_some_iff.1 hM
    rw [← h2]; exact h.ds w M' h1
  · intro w M hM i c
    change find (F.P.vars.foldl zeroEntry F.jdot) w = some M at hM
    rw [key w] at hM
    obtain ⟨M', h1, h2⟩ := Option.map_eq_some_iff.1 hM
    rw [← h2]

/-- `jacobian_.at(v) = A` with the right sizes -/
theorem atAssign_spec (F : Fn K) (h : FInv geo tr dt F) (A : Mat K) (v : Nat) (h1 : A.rows = F.P.m) (h2 : A.cols = (tr v).dim.toNat) :
    (v ∈ F.P.vars ∧ F.atAssign A v = .ok { F with P := F.P.write v A } () ∧ FInv geo tr dt { F with P := F.P.write v A }) ∨ (v ∉ F.P.vars ∧ F.atAssign A v = .throw F) := by
  have hi := h.hist.inv geo tr
  unfold Fn.atAssign
  cases hf : find F.P.jac v with
  | none =>
    right
    refine ⟨fun hv => ?_, rfl⟩
    obtain ⟨M, hM⟩ := (hi.keys v).1 hv
    rw [hf] at hM; cases hM
  | some M =>
    left
    have hv := (hi.keys v).2 ⟨M, hf⟩
    exact ⟨hv, rfl, ⟨.write F.P v A h.hist hv h1 h2, h.sd, h.dk, h.ds, h.na, h.vd⟩⟩

end

/-! ## Terms -/

/-- The sum of the products of the jacobians by values -/
def sumJ [CommRing K] (P : Provider K) (x : Nat → Nat → K) (i : Nat) : K :=
  (P.vars.map (fun v => ∑ c ∈ Finset.range ((find P.jac v).getD ⟨0, 0, fun _ _ => 0⟩).cols, ((find P.jac v).getD ⟨0, 0, fun _ _ => 0⟩).at_ i c * x v c)).sum

section
variable [CommRing K]

theorem sum_change (l : List Nat) (hn : l.Nodup) (a : Nat) (ha : a ∈ l) (f g : Nat → K) (h : ∀ w ∈ l, w ≠ a → g w = f w) : (l.map g).sum = (l.map f).sum + (g a - f a) := by
  induction l with
  | nil => simp at ha
  | cons b l ih =>
    obtain ⟨n1, n2⟩ := List.nodup_cons.1 hn
    rw [List.map_cons, List.sum_cons, List.map_cons, List.sum_cons]
    rcases List.mem_cons.1 ha with rfl | ha'
    · have : l.map g = l.map f := List.map_congr_left fun w hw => h w (List.mem_cons_of_mem _ hw) (fun e => n1 (e ▸ hw))
      rw [this]; ring
    · rw [ih n2 ha' (fun w hw => h w (List.mem_cons_of_mem _ hw)), h b List.mem_cons_self (fun e => n1 (e ▸ ha'))]; ring

/-- A sum with a matrix added on some columns -/
theorem sum_addCols (J A : Mat K) (off : Nat) (hk : off + A.cols ≤ J.cols) (y z : Nat → K) (hz : ∀ c, z c = y (off + c)) (i : Nat) :
    ∑ c ∈ Finset.range (addCols J A off).cols, (addCols J A off).at_ i c * y c = ∑ c ∈ Finset.range J.cols, J.at_ i c * y c + ∑ c ∈ Finset.range A.cols, A.at_ i c * z c := by
  have key : ∑ k ∈ Finset.range J.cols, (if off ≤ k ∧ k < off + A.cols then A.at_ i (k - off) * z (k - off) else 0) = ∑ c ∈ Finset.range A.cols, A.at_ i c * z c := by
    obtain ⟨d, hd⟩ := Nat.exists_eq_add_of_le hk
    rw [hd, Finset.sum_range_add, Finset.sum_range_add]
    have h1 : ∑ k ∈ Finset.range off, (if off ≤ k ∧ k < off + A.cols then A.at_ i (k - off) * z (k - off) else 0) = 0 :=
      Finset.sum_eq_zero fun k hk => by
        have := Finset.mem_range.mp hk
        rw [if_neg (by omega)]
    have h2 : ∑ k ∈ Finset.range d, (if off ≤ off + A.cols + k ∧ off + A.cols + k < off + A.cols then A.at_ i (off + A.cols + k - off) * z (off + A.cols + k - off) else 0) = 0 :=
      Finset.sum_eq_zero fun k hk => by rw [if_neg (by omega)]
    rw [h1, h2, zero_add, add_zero]
    refine Finset.sum_congr rfl fun k hk => ?_
    have := Finset.mem_range.mp hk
    rw [if_pos (by omega)]
    have e : off + k - off = k := by omega
    rw [e]
  rw [← key, ← Finset.sum_add_distrib]
  refine Finset.sum_congr rfl fun k _ => ?_
  show (if off ≤ k ∧ k < off + A.cols then J.at_ i k + A.at_ i (k - off) else J.at_ i k) * y k = _
  by_cases hk : off ≤ k ∧ k < off + A.cols
  · rw [if_pos hk, if_pos hk, hz (k - off)]
    have e : off + (k - off) = k := by omega
    rw [e]; ring
  · rw [if_neg hk, if_neg hk, add_zero]

/-- One term: it is refused iff it does not fit; otherwise the sum increases by its product. -/
theorem addTerm_spec (hfl : Flat geo tr euc) (mem : Memory K) (F : Fn K) (h : LInv geo tr euc dt F) (A : Mat K) (v : Nat) (hs : 0 < (geo v).size) :
    ((euc v = true ∧ A.rows = F.P.m ∧ A.cols = (geo v).size ∧ ((∃ w ∈ F.P.vars, (geo w).contains (geo v) = true) ∨ ∀ w ∈ F.P.vars, (geo w).intersects (geo v) = false)) ∧
      ∃ F', F.addTerm geo tr euc dt mem A v = .ok F' () ∧ LInv geo tr euc dt F' ∧ F'.P.m = F.P.m ∧ F'.b = F.b ∧
        ((∃ w ∈ F.P.vars, (geo w).contains (geo v) = true) → F'.P.vars = F.P.vars) ∧ ((∀ w ∈ F.P.vars, (geo w).intersects (geo v) = false) → F'.P.vars = F.P.vars ++ [v]) ∧
        ∀ x, Coherent geo euc x → ∀ i, sumJ F'.P x i = sumJ F.P x i + ∑ c ∈ Finset.range A.cols, A.at_ i c * x v c) ∨
    (¬(euc v = true ∧ A.rows = F.P.m ∧ A.cols = (geo v).size ∧ ((∃ w ∈ F.P.vars, (geo w).contains (geo v) = true) ∨ ∀ w ∈ F.P.vars, (geo w).intersects (geo v) = false)) ∧
      ∃ F', F.addTerm geo tr euc dt mem A v = .throw F') := by
  have hi := h.f.hist.inv geo tr
  unfold Fn.addTerm
  by_cases h1 : euc v = false
  · right; rw [if_pos h1]; exact ⟨fun g => by rw [h1] at g; exact absurd g.1 (by simp), _, rfl⟩
  rw [if_neg h1]
  have h1' : euc v = true := by simpa using h1
  by_cases h2 : A.rows ≠ F.P.m
  · right; rw [if_pos h2]; exact ⟨fun g => h2 g.2.1, _, rfl⟩
  rw [if_neg h2]
  have h2' : A.rows = F.P.m := by omega
  by_cases h3 : A.cols ≠ (geo v).size
  · right; rw [if_pos h3]; exact ⟨fun g => h3 g.2.2.1, _, rfl⟩
  rw [if_neg h3]
  have h3' : A.cols = (geo v).size := by omega
  have hdimv : (tr v).dim.toNat = (geo v).size := by rw [hfl.dim v h1']; simp
  by_cases h4 : F.P.vars.any (fun x => (geo x).contains (geo v)) = true
  · rw [if_pos h4]
    left
    obtain ⟨w, hw, hc⟩ := List.any_eq_true.1 h4
    refine ⟨⟨h1', h2', h3', Or.inl ⟨w, hw, hc⟩⟩, ?_⟩
    obtain ⟨J, hJ⟩ := (hi.keys w).1 hw
    obtain ⟨s1, s2⟩ := hi.size w J hJ
    have hew := h.euc w hw
    have hdimw : (tr w).dim.toNat = (geo w).size := by rw [hfl.dim w hew]; simp
    have hcc := (contains_iff _ _).1 hc
    -- the entry that changes
    have hacc : ∃ off, accumulate geo tr F.P.jac A v = some (put F.P.jac w (addCols J A off)) ∧ (off : Int) = (geo v).start - (geo w).start := by
      unfold accumulate
      cases hf : find F.P.jac v with
      | some J' =>
        have hv := (hi.keys v).2 ⟨J', hf⟩
        have e : w = v := hi.apart geo tr w v hw hv (common _ _ (geo v) hc (contains_self _ hs))
        subst e
        rw [hJ] at hf
        rw [← Option.some.inj hf]
        exact ⟨0, rfl, by simp⟩
      | none =>
        have hfe : F.P.jac.find? (fun e => (geo e.1).contains (geo v)) = some (w, J) := by
          have hm : (w, J) ∈ F.P.jac := mem_of_find _ _ _ hJ
          cases hf2 : F.P.jac.find? (fun e => (geo e.1).contains (geo v)) with
          | none => exact absurd hc (by have := List.find?_eq_none.1 hf2 _ hm; simpa using this)
          | some e =>
            have he := List.find?_some hf2
            have hem := List.mem_of_find?_eq_some hf2
            have hek := (hi.keys e.1).2 ⟨e.2, find_mem _ hi.sj e hem⟩
            have e1 : e.1 = w := hi.apart geo tr e.1 w hek hw (common _ _ (geo v) (by simpa using he) hc)
            have e2 : e.2 = J := by
              have := find_mem _ hi.sj e hem
              rw [e1, hJ] at this; exact (Option.some.inj this).symm
            rw [← e1, ← e2]
        simp only [hfe]
        refine ⟨_, rfl, ?_⟩
        rw [hfl.shift w v hew h1' hc]
        have := hcc.2.1
        omega
    obtain ⟨off, hacc, hoff⟩ := hacc
    simp only [hacc]
    have hHist : Hist geo tr (F.P.write w (addCols J A off)) := .write F.P w _ h.f.hist hw s1 s2
    refine ⟨_, rfl, ⟨⟨hHist, h.f.sd, h.f.dk, h.f.ds, h.f.na, h.f.vd⟩, h.euc, h.bs⟩, rfl, rfl, fun _ => rfl, ?_, ?_⟩
    · intro hn
      exfalso
      have hx : (geo w).intersects (geo v) = true := common _ _ (geo v) hc (contains_self _ hs)
      rw [hn w hw] at hx; cases hx
    · intro x hx i
      unfold sumJ
      show (F.P.vars.map _).sum = _
      rw [sum_change F.P.vars (hi.nodup geo tr) w hw
        (fun v => ∑ c ∈ Finset.range ((find F.P.jac v).getD ⟨0, 0, fun _ _ => 0⟩).cols, ((find F.P.jac v).getD ⟨0, 0, fun _ _ => 0⟩).at_ i c * x v c)]
      · congr 1
        show ∑ c ∈ Finset.range ((find (put F.P.jac w (addCols J A off)) w).getD _).cols, _ - _ = _
        simp only [find_put_self, hJ, Option.getD_some]
        rw [sum_addCols J A off (by rw [s2, hdimw, h3']; omega) (x w) (x v) (fun c => by rw [hx w v hew h1' hc c, ← hoff]; simp) i]
        ring
      · intro u _ hu
        show ∑ c ∈ Finset.range ((find (put F.P.jac w (addCols J A off)) u).getD _).cols, _ = _
        simp only [find_put_of_ne _ _ _ _ hu]
  · rw [if_neg h4]
    rcases addVar_cases geo tr dt F mem v true with ⟨⟨w, hw, hc⟩, _⟩ | ⟨hc, ⟨w, hw, hx⟩, e1⟩ | ⟨hc, hx, P', eP, hP, e1⟩
    · exact absurd (List.any_eq_true.2 ⟨w, hw, hc⟩) h4
    · right
      simp only [e1]
      refine ⟨fun g => ?_, _, rfl⟩
      rcases g.2.2.2 with ⟨u, hu, huc⟩ | g
      · rw [hc u hu] at huc; cases huc
      · rw [g w hw] at hx; cases hx
    · left
      refine ⟨⟨h1', h2', h3', Or.inr hx⟩, ?_⟩
      simp only [e1]
      have hF := finv_add geo tr dt F _ mem v true h.f hs e1
      have hvm : v ∈ P'.vars := by rw [hP]; simp
      rcases atAssign_spec geo tr dt _ hF A v (by show A.rows = P'.m; rw [hP]; exact h2') (by rw [h3', hdimv]) with ⟨_, e2, hF2⟩ | ⟨hn, _⟩
      · refine ⟨_, e2, ⟨hF2, ?_, ?_⟩, ?_, rfl, ?_, ?_, ?_⟩
        · intro w hw
          have hw' : w ∈ P'.vars := hw
          rw [hP] at hw'
          rcases List.mem_append.1 hw' with hw' | hw'
          · exact h.euc w hw'
          · rw [List.mem_singleton.1 hw']; exact h1'
        · show F.b.size = P'.m
          rw [hP]; exact h.bs
        · show P'.m = _
          rw [hP]
        · rintro ⟨u, hu, huc⟩
          rw [hc u hu] at huc; cases huc
        · intro _
          show P'.vars = _
          rw [hP]
        · intro x _ i
          have hvn : v ∉ F.P.vars := fun hv => by
            have := hc v hv
            rw [contains_self _ hs] at this; cases this
          unfold sumJ
          show (P'.vars.map (fun u => ∑ c ∈ Finset.range ((find (put P'.jac v A) u).getD _).cols, ((find (put P'.jac v A) u).getD _).at_ i c * x u c)).sum = _
          have hv1 : P'.vars = F.P.vars ++ [v] := by rw [hP]
          have hj1 : P'.jac = put F.P.jac v ⟨F.P.m, (tr v).dim.toNat, mem.mat v⟩ := by rw [hP]
          rw [hv1, hj1, List.map_append, List.sum_append]
          congr 1
          · congr 1
            refine List.map_congr_left fun u hu => ?_
            have huv : u ≠ v := fun e => hvn (e ▸ hu)
            simp only [find_put_of_ne _ _ _ _ huv]
          · simp [find_put_self]
      · exact absurd hvm hn


theorem contains_trans (a b c : Geo) (h1 : a.contains b = true) (h2 : b.contains c = true) : a.contains c = true := by
  rw [contains_iff] at *
  refine ⟨h1.1.trans h2.1, ?_, ?_, ?_⟩ <;> omega

theorem intersects_up (a b c : Geo) (h1 : a.contains b = true) (h2 : b.intersects c = true) : a.intersects c = true := by
  rw [contains_iff] at h1
  rw [intersects_iff] at *
  refine ⟨h1.1.trans h2.1, ?_⟩
  omega

/-- The conditions on terms that come after the variables `pre` -/
def Good (m : Nat) (pre : List Nat) (ts : List (Mat K × Nat)) : Prop :=
  (∀ t ∈ ts, euc t.2 = true ∧ t.1.rows = m ∧ t.1.cols = (geo t.2).size) ∧
  ∀ l₁ w l₂, ts.map Prod.snd = l₁ ++ w :: l₂ → (∃ v ∈ pre ++ l₁, (geo v).contains (geo w) = true) ∨ ∀ v ∈ pre ++ l₁, (geo v).intersects (geo w) = false

theorem good_cons (m : Nat) (pre : List Nat) (t : Mat K × Nat) (ts : List (Mat K × Nat)) :
    Good geo euc m pre (t :: ts) ↔ (euc t.2 = true ∧ t.1.rows = m ∧ t.1.cols = (geo t.2).size ∧ ((∃ v ∈ pre, (geo v).contains (geo t.2) = true) ∨ ∀ v ∈ pre, (geo v).intersects (geo t.2) = false)) ∧
      Good geo euc m (pre ++ [t.2]) ts := by
  unfold Good
  constructor
  · rintro ⟨h1, h2⟩
    obtain ⟨a, b, c⟩ := h1 t List.mem_cons_self
    have h3 := h2 [] t.2 (ts.map Prod.snd) (by simp)
    rw [List.append_nil] at h3
    refine ⟨⟨a, b, c, h3⟩, fun s hs => h1 s (List.mem_cons_of_mem _ hs), ?_⟩
    intro l₁ w l₂ e
    have := h2 (t.2 :: l₁) w l₂ (by rw [List.map_cons, e]; rfl)
    simpa using this
  · rintro ⟨⟨a, b, c, h3⟩, h1, h2⟩
    refine ⟨?_, ?_⟩
    · intro s hs
      rcases List.mem_cons.1 hs with rfl | hs
      · exact ⟨a, b, c⟩
      · exact h1 s hs
    · intro l₁ w l₂ e
      cases l₁ with
      | nil =>
        rw [List.map_cons] at e
        have e1 : t.2 = w := by simpa using (List.cons.inj e).1
        rw [List.append_nil, ← e1]; exact h3
      | cons u l₁ =>
        rw [List.map_cons] at e
        have e1 : t.2 = u := (List.cons.inj e).1
        have := h2 l₁ w l₂ (List.cons.inj e).2
        rw [e1] at this
        simpa using this

theorem addTerms_spec (hfl : Flat geo tr euc) (mem : Memory K) : ∀ (ts : List (Mat K × Nat)) (pre : List Nat) (F : Fn K), LInv geo tr euc dt F → (∀ t ∈ ts, 0 < (geo t.2).size) →
    (∀ v ∈ F.P.vars, v ∈ pre) → (∀ v ∈ pre, ∃ w ∈ F.P.vars, (geo w).contains (geo v) = true) →
    (Good geo euc F.P.m pre ts ∧ ∃ F', addTerms geo tr euc dt mem F ts = .ok () F' ∧ LInv geo tr euc dt F' ∧ F'.P.m = F.P.m ∧ F'.b = F.b ∧
      (∀ v ∈ F'.P.vars, v ∈ pre ++ ts.map Prod.snd) ∧ (∀ v ∈ pre ++ ts.map Prod.snd, ∃ w ∈ F'.P.vars, (geo w).contains (geo v) = true) ∧
      ∀ x, Coherent geo euc x → ∀ i, sumJ F'.P x i = sumJ F.P x i + combo ts x i) ∨
    (¬Good geo euc F.P.m pre ts ∧ addTerms geo tr euc dt mem F ts = .throw ()) := by
  intro ts
  induction ts with
  | nil =>
    intro pre F h _ h1 h2
    left
    refine ⟨⟨by simp, by simp⟩, F, rfl, h, rfl, rfl, by simpa using h1, by simpa using h2, fun x _ i => by simp [combo]⟩
  | cons t ts ih =>
    intro pre F h hs h1 h2
    rw [good_cons]
    unfold addTerms
    have hst := hs t List.mem_cons_self
    have hiff : ((∃ v ∈ pre, (geo v).contains (geo t.2) = true) ∨ ∀ v ∈ pre, (geo v).intersects (geo t.2) = false) ↔
        ((∃ w ∈ F.P.vars, (geo w).contains (geo t.2) = true) ∨ ∀ w ∈ F.P.vars, (geo w).intersects (geo t.2) = false) := by
      constructor
      · rintro (⟨v, hv, hc⟩ | hn)
        · obtain ⟨w, hw, hwc⟩ := h2 v hv
          exact Or.inl ⟨w, hw, contains_trans _ _ _ hwc hc⟩
        · exact Or.inr fun w hw => hn w (h1 w hw)
      · rintro (⟨w, hw, hc⟩ | hn)
        · exact Or.inl ⟨w, h1 w hw, hc⟩
        · refine Or.inr fun v hv => ?_
          cases hb : (geo v).intersects (geo t.2) with
          | false => rfl
          | true =>
            obtain ⟨w, hw, hwc⟩ := h2 v hv
            have := intersects_up _ _ _ hwc hb
            rw [hn w hw] at this; cases this
    rw [hiff]
    rcases addTerm_spec geo tr euc dt hfl mem F h t.1 t.2 hst with ⟨g, F', e, hi, hm, hb, hv1, hv2, hsum⟩ | ⟨g, F', e⟩
    · simp only [e]
      have hvars : (∀ v ∈ F'.P.vars, v ∈ F.P.vars ∨ v = t.2) ∧ (∀ v ∈ F.P.vars, v ∈ F'.P.vars) ∧ ∃ w ∈ F'.P.vars, (geo w).contains (geo t.2) = true := by
        rcases g.2.2.2 with hc | hn
        · rw [hv1 hc]; exact ⟨fun v hv => Or.inl hv, fun v hv => hv, hc⟩
        · rw [hv2 hn]
          refine ⟨fun v hv => ?_, fun v hv => List.mem_append_left _ hv, t.2, by simp, contains_self _ hst⟩
          rcases List.mem_append.1 hv with hv | hv
          · exact Or.inl hv
          · exact Or.inr (List.mem_singleton.1 hv)
      obtain ⟨q1, q2, q3⟩ := hvars
      rcases ih (pre ++ [t.2]) F' hi (fun s hs' => hs s (List.mem_cons_of_mem _ hs'))
        (fun v hv => by
          rcases q1 v hv with hv | rfl
          · exact List.mem_append_left _ (h1 v hv)
          · simp)
        (fun v hv => by
          rcases List.mem_append.1 hv with hv | hv
          · obtain ⟨w, hw, hc⟩ := h2 v hv
            exact ⟨w, q2 w hw, hc⟩
          · rw [List.mem_singleton.1 hv]; exact q3) with ⟨g', F'', e', i1, i2, i3, i4, i5, i6⟩ | ⟨g', e'⟩
      · left
        rw [hm] at g'
        refine ⟨⟨g, g'⟩, F'', e', i1, i2.trans hm, i3.trans hb, by simpa using i4, by simpa using i5, fun x hx i => ?_⟩
        rw [i6 x hx i, hsum x hx i]
        simp [combo, add_assoc]
      · right
        rw [hm] at g'
        exact ⟨fun q => g' q.2, e'⟩
    · right
      simp only [e]
      exact ⟨fun q => g q.1, trivial⟩

theorem good_iff (m : Nat) (As : List (Mat K)) (xs : List Nat) (h : As.length = xs.length) : Good geo euc m [] (As.zip xs) ↔ Fits geo euc m As xs := by
  unfold Good Fits
  have e : (As.zip xs).map Prod.snd = xs := by rw [List.map_snd_zip]; omega
  rw [e]
  simp [h]

/-! ## The value and the velocity -/

/-- The loop gives the sum of the products. -/
theorem sumLoop_spec (F : Fn K) (h : FInv geo tr dt F) (sz : Nat → Nat) (x : Nat → Nat → K) : ∀ (l : List Nat) (acc : Nat → K), (∀ v ∈ l, v ∈ F.P.vars) → (∀ v ∈ l, (tr v).dim.toNat = sz v) →
    ∃ r, sumLoop geo tr F sz x l acc = .ok () r ∧ ∀ i, r i = acc i +
      (l.map (fun v => ∑ c ∈ Finset.range ((find F.P.jac v).getD ⟨0, 0, fun _ _ => 0⟩).cols, ((find F.P.jac v).getD ⟨0, 0, fun _ _ => 0⟩).at_ i c * x v c)).sum := by
  have hi := h.hist.inv geo tr
  intro l
  induction l with
  | nil => intro acc _ _; exact ⟨acc, rfl, fun i => by simp⟩
  | cons v l ih =>
    intro acc hl hz
    obtain ⟨M, hM⟩ := (hi.keys v).1 (hl v List.mem_cons_self)
    obtain ⟨s1, s2⟩ := hi.size v M hM
    have ej : F.P.jacobian geo tr v = .ok () M := by unfold Provider.jacobian atSub; simp only [hM]
    obtain ⟨r, hr, hs⟩ := ih (fun i => acc i + ∑ c ∈ Finset.range M.cols, M.at_ i c * x v c) (fun w hw => hl w (List.mem_cons_of_mem _ hw)) (fun w hw => hz w (List.mem_cons_of_mem _ hw))
    refine ⟨r, ?_, fun i => ?_⟩
    · unfold sumLoop
      simp only [ej]
      rw [if_pos ⟨s1, by rw [s2]; exact hz v List.mem_cons_self⟩]
      exact hr
    · rw [hs i, List.map_cons, List.sum_cons, hM, Option.getD_some]; ring

theorem value_spec (hfl : Flat geo tr euc) (F : Fn K) (h : LInv geo tr euc dt F) (x : Nat → Nat → K) :
    ∃ r, F.value geo tr x = .ok () ⟨F.P.m, r⟩ ∧ ∀ i, r i = F.b.v i + sumJ F.P x i := by
  obtain ⟨r, hr, hs⟩ := sumLoop_spec geo tr dt F h.f (fun v => (geo v).size) x F.P.vars F.b.v (fun v hv => hv) (fun v hv => by rw [hfl.dim v (h.euc v hv)]; simp)
  refine ⟨r, ?_, hs⟩
  unfold Fn.value
  simp only [hr, h.bs]

theorem velocity_spec (F : Fn K) (h : FInv geo tr dt F) (x : Nat → Nat → K) :
    ∃ r, F.velocity geo tr dt x = .ok () ⟨F.P.m, r⟩ ∧ ∀ i, r i = sumJ F.P (fun v => x (dt v)) i := by
  obtain ⟨r, hr, hs⟩ := sumLoop_spec geo tr dt F h (fun v => (tr v).dim.toNat) (fun v => x (dt v)) F.P.vars (fun _ => 0) (fun v hv => hv) (fun v _ => rfl)
  refine ⟨r, ?_, fun i => by rw [hs i, zero_add]; rfl⟩
  unfold Fn.velocity
  simp only [hr]

end

/-! ## The constructors and the setters -/

section
variable [CommRing K]

theorem linv_make (mem : Memory K) (m : Nat) : LInv geo tr euc dt (BLF.make mem m) := ⟨finv_make geo tr dt mem m, by simp [BLF.make, Prov.make], rfl⟩

theorem makeAB_cons (mem : Memory K) (A : Mat K) (As : List (Mat K)) (xs : List Nat) (b : Vec K) (h : ¬(A :: As).length ≠ xs.length) :
    makeAB geo tr euc dt mem (A :: As) xs b =
      match addTerms geo tr euc dt mem (BLF.make mem A.rows) ((A :: As).zip xs) with
      | .ub => .ub
      | .throw _ => .throw ()
      | .ok _ F =>
        match F.setB b with
        | .ub => .ub
        | .throw _ => .throw ()
        | .ok F' _ => .ok () F'.zeroDerivatives := if_neg h

/-- A constructor with matrices builds a function iff the matrices go with the variables and the vector has the right size; otherwise it throws. The value of the function is the sum of the
products of the given matrices by the values of the variables and of the vector, whatever the memory held, for overlapping and repeated variables too. -/
theorem C88_constructor (hfl : Flat geo tr euc) (mem : Memory K) (A : Mat K) (As : List (Mat K)) (xs : List Nat) (hs : ∀ v ∈ xs, 0 < (geo v).size) (b : Vec K) :
    ((Fits geo euc A.rows (A :: As) xs ∧ b.size = A.rows) ∧ ∃ F, makeAB geo tr euc dt mem (A :: As) xs b = .ok () F ∧ F.P.m = A.rows ∧
      ∀ x, Coherent geo euc x → ∃ r, F.value geo tr x = .ok () ⟨A.rows, r⟩ ∧ ∀ i, r i = combo ((A :: As).zip xs) x i + b.v i) ∨
    (¬(Fits geo euc A.rows (A :: As) xs ∧ b.size = A.rows) ∧ makeAB geo tr euc dt mem (A :: As) xs b = .throw ()) := by
  by_cases hl : (A :: As).length ≠ xs.length
  · right; exact ⟨fun h => hl h.1.1, if_pos hl⟩
  have hl' : (A :: As).length = xs.length := by omega
  rw [makeAB_cons geo tr euc dt mem A As xs b hl]
  rcases addTerms_spec geo tr euc dt hfl mem ((A :: As).zip xs) [] (BLF.make mem A.rows) (linv_make geo tr euc dt mem A.rows)
      (fun t ht => hs t.2 (List.of_mem_zip ht).2) (by simp [BLF.make, Prov.make]) (by simp) with ⟨g, F, e, i1, i2, _, _, _, i6⟩ | ⟨g, e⟩
  · simp only [e]
    have g' := (good_iff geo euc A.rows _ _ hl').1 g
    unfold Fn.setB
    have hm : F.P.m = A.rows := i2
    by_cases hb : b.size = F.P.m
    · left
      rw [if_pos hb]
      refine ⟨⟨g', hb.trans hm⟩, _, rfl, hm, fun x hx => ?_⟩
      have hL : LInv geo tr euc dt ({ F with b := b } : Fn K).zeroDerivatives := ⟨(zero_finv geo tr dt ({ F with b := b } : Fn K) ⟨i1.f.hist, i1.f.sd, i1.f.dk, i1.f.ds, i1.f.na, i1.f.vd⟩).1, i1.euc, hb⟩
      obtain ⟨r, hr, hsum⟩ := value_spec geo tr euc dt hfl _ hL x
      refine ⟨r, ?_, fun i => ?_⟩
      · rw [hr]
        show Outcome.ok () (⟨F.P.m, r⟩ : BLF.Vec K) = _
        rw [hm]
      · rw [hsum i]
        show b.v i + sumJ F.P x i = _
        rw [i6 x hx i]
        show b.v i + (sumJ (Prov.make A.rows) x i + _) = _
        simp only [sumJ, Prov.make, List.map_nil, List.sum_nil, zero_add]
        ring
    · right
      rw [if_neg hb]
      exact ⟨fun h => hb (h.2.trans hm.symm), rfl⟩
  · right
    simp only [e]
    exact ⟨fun h => g ((good_iff geo euc A.rows _ _ hl').2 h.1), trivial⟩

/-- Without a vector, the value is the sum of the products. -/
theorem C88_constructor_linear (hfl : Flat geo tr euc) (mem : Memory K) (A : Mat K) (As : List (Mat K)) (xs : List Nat) (hs : ∀ v ∈ xs, 0 < (geo v).size) :
    (Fits geo euc A.rows (A :: As) xs ∧ ∃ F, makeA geo tr euc dt mem (A :: As) xs = .ok () F ∧ F.P.m = A.rows ∧
      ∀ x, Coherent geo euc x → ∃ r, F.value geo tr x = .ok () ⟨A.rows, r⟩ ∧ ∀ i, r i = combo ((A :: As).zip xs) x i) ∨
    (¬Fits geo euc A.rows (A :: As) xs ∧ makeA geo tr euc dt mem (A :: As) xs = .throw ()) := by
  rcases C88_constructor geo tr euc dt hfl mem A As xs hs ⟨A.rows, fun _ => 0⟩ with ⟨h, F, e, hm, hv⟩ | ⟨h, e⟩
  · refine Or.inl ⟨h.1, F, e, hm, fun x hx => ?_⟩
    obtain ⟨r, hr, hs⟩ := hv x hx
    exact ⟨r, hr, fun i => by rw [hs i, add_zero]⟩
  · exact Or.inr ⟨fun g => h ⟨g, rfl⟩, e⟩

theorem alloc_spec (mem : Memory K) : ∀ (xs : List Nat) (F F' : Fn K), LInv geo tr euc dt F → (∀ v ∈ xs, 0 < (geo v).size) → (∀ v ∈ xs, euc v = true) →
    allocVars geo tr dt mem F xs = .ok () F' → LInv geo tr euc dt F' ∧ F'.P.m = F.P.m ∧ ∀ v, v ∈ F'.P.vars ↔ v ∈ F.P.vars ∨ v ∈ xs := by
  intro xs
  induction xs with
  | nil => intro F F' h _ _ e; rw [← (Outcome.ok.inj e).2]; exact ⟨h, rfl, by simp⟩
  | cons v l ih =>
    intro F F' h hs he e
    unfold allocVars at e
    have hsv := hs v List.mem_cons_self
    rcases addVar_cases geo tr dt F mem v true with ⟨_, e1⟩ | ⟨_, _, e1⟩ | ⟨_, _, P', _, hP, e1⟩
    · simp only [e1] at e
      cases hf : find F.P.jac v with
      | none => simp only [hf] at e; cases e
      | some M =>
        simp only [hf] at e
        have hv := ((h.f.hist.inv geo tr).keys v).2 ⟨M, hf⟩
        obtain ⟨a, b, c⟩ := ih F F' h (fun w hw => hs w (List.mem_cons_of_mem _ hw)) (fun w hw => he w (List.mem_cons_of_mem _ hw)) e
        refine ⟨a, b, fun w => ?_⟩
        rw [c w, List.mem_cons]
        constructor
        · rintro (h | h)
          · exact Or.inl h
          · exact Or.inr (Or.inr h)
        · rintro (h | rfl | h)
          · exact Or.inl h
          · exact Or.inl hv
          · exact Or.inr h
    · simp only [e1] at e; cases e
    · simp only [e1] at e
      have hF := finv_add geo tr dt F _ mem v true h.f hsv e1
      have hvars : P'.vars = F.P.vars ++ [v] := by rw [hP]
      have hm : P'.m = F.P.m := by rw [hP]
      cases hf : find P'.jac v with
      | none => simp only [hf] at e; cases e
      | some M =>
        simp only [hf] at e
        obtain ⟨a, b, c⟩ := ih _ F' ⟨hF, by
            intro w hw
            have hw' : w ∈ P'.vars := hw
            rw [hvars] at hw'
            rcases List.mem_append.1 hw' with hw' | hw'
            · exact h.euc w hw'
            · rw [List.mem_singleton.1 hw']; exact he v List.mem_cons_self, by show F.b.size = P'.m; rw [hm]; exact h.bs⟩
          (fun w hw => hs w (List.mem_cons_of_mem _ hw)) (fun w hw => he w (List.mem_cons_of_mem _ hw)) e
        refine ⟨a, b.trans hm, fun w => ?_⟩
        rw [c w]
        show w ∈ P'.vars ∨ _ ↔ _
        rw [hvars]
        simp [or_assoc]

theorem setA_linv (hfl : Flat geo tr euc) (F : Fn K) (h : LInv geo tr euc dt F) (A : Mat K) (x : Nat) :
    ((x ∈ F.P.vars ∧ A.rows = F.P.m ∧ A.cols = (geo x).size) ∧ F.setA geo A x = .ok { F with P := F.P.write x A } () ∧ LInv geo tr euc dt { F with P := F.P.write x A }) ∨
    (¬(x ∈ F.P.vars ∧ A.rows = F.P.m ∧ A.cols = (geo x).size) ∧ F.setA geo A x = .throw F) := by
  unfold Fn.setA
  by_cases hc : A.rows = F.P.m ∧ A.cols = (geo x).size
  · rw [if_pos hc]
    by_cases hx : x ∈ F.P.vars
    · rcases atAssign_spec geo tr dt F h.f A x hc.1 (by rw [hc.2, hfl.dim x (h.euc x hx)]; simp) with ⟨_, e, hF⟩ | ⟨hn, _⟩
      · exact Or.inl ⟨⟨hx, hc⟩, e, ⟨hF, h.euc, h.bs⟩⟩
      · exact absurd hx hn
    · right
      refine ⟨fun g => hx g.1, ?_⟩
      unfold Fn.atAssign
      cases hf : find F.P.jac x with
      | none => rfl
      | some M => exact absurd (((h.f.hist.inv geo tr).keys x).2 ⟨M, hf⟩) hx
  · right
    rw [if_neg hc]
    exact ⟨fun g => hc g.2, rfl⟩

theorem Built.linv (hfl : Flat geo tr euc) {F : Fn K} (h : Built geo tr euc dt F) : LInv geo tr euc dt F ∧ Null F := by
  have mk : ∀ (mem : Memory K) (As : List (Mat K)) (xs : List Nat) (b : Vec K) (F : Fn K), (∀ v ∈ xs, 0 < (geo v).size) → makeAB geo tr euc dt mem As xs b = .ok () F →
      LInv geo tr euc dt F ∧ Null F := by
    intro mem As xs b F hs e
    cases As with
    | nil => cases e
    | cons A As =>
      by_cases hl : (A :: As).length ≠ xs.length
      · have e1 : makeAB geo tr euc dt mem (A :: As) xs b = .throw () := if_pos hl
        rw [e1] at e; cases e
      rw [makeAB_cons geo tr euc dt mem A As xs b hl] at e
      rcases addTerms_spec geo tr euc dt hfl mem ((A :: As).zip xs) [] (BLF.make mem A.rows) (linv_make geo tr euc dt mem A.rows)
        (fun t ht => hs t.2 (List.of_mem_zip ht).2) (by simp [BLF.make, Prov.make]) (by simp) with ⟨g, F0, e0, i1, i2, _, _, _, i6⟩ | ⟨g, e0⟩
      · simp only [e0] at e
        unfold Fn.setB at e
        by_cases hb : b.size = F0.P.m
        · rw [if_pos hb] at e
          have z := zero_finv geo tr dt { F0 with b := b } ⟨i1.f.hist, i1.f.sd, i1.f.dk, i1.f.ds, i1.f.na, i1.f.vd⟩
          rw [← (Outcome.ok.inj e).2]
          exact ⟨⟨z.1, i1.euc, hb⟩, z.2⟩
        · rw [if_neg hb] at e; cases e
      · simp only [e0] at e; cases e
  have hA : ∀ (F F' : Fn K) (A : Mat K) (x : Nat), LInv geo tr euc dt F ∧ Null F → F.setA geo A x = .ok F' () → LInv geo tr euc dt F' ∧ Null F' := by
    intro F F' A x ih e
    rcases setA_linv geo tr euc dt hfl F ih.1 A x with ⟨_, e1, hL⟩ | ⟨_, e1⟩
    · rw [e1] at e; rw [← (Outcome.ok.inj e).1]; exact ⟨hL, ih.2⟩
    · rw [e1] at e; cases e
  induction h with
  | ab mem As xs b F hs e => exact mk mem As xs b F hs e
  | a mem As xs F hs e =>
    cases As with
    | nil => cases e
    | cons A As => exact mk mem (A :: As) xs _ F hs e
  | alloc mem m xs F hs he e =>
    unfold makeAlloc at e
    cases ea : allocVars geo tr dt mem (BLF.make mem m) xs with
    | ub => simp only [ea] at e; cases e
    | throw s => simp only [ea] at e; cases e
    | ok s F0 =>
      simp only [ea] at e
      obtain ⟨a, _, _⟩ := alloc_spec geo tr euc dt mem xs _ F0 (linv_make geo tr euc dt mem m) hs he ea
      have z := zero_finv geo tr dt F0 a.f
      rw [← (Outcome.ok.inj e).2]
      exact ⟨⟨z.1, a.euc, a.bs⟩, z.2⟩
  | setA F F' A x _ e ih => exact hA F F' A x ih e
  | setA1 F F' A _ e ih =>
    unfold Fn.setA1 at e
    split at e
    · exact hA F F' A _ ih e
    · cases e
  | setB F F' b _ e ih =>
    unfold Fn.setB at e
    by_cases hb : b.size = F.P.m
    · rw [if_pos hb] at e; rw [← (Outcome.ok.inj e).1]
      exact ⟨⟨⟨ih.1.f.hist, ih.1.f.sd, ih.1.f.dk, ih.1.f.ds, ih.1.f.na, ih.1.f.vd⟩, ih.1.euc, hb⟩, ih.2⟩
    · rw [if_neg hb] at e; cases e
  | resize F mem m _ ih =>
    have hF := finv_resize geo tr dt F mem m ih.1.f
    have z := zero_finv geo tr dt { F.resize tr mem m with b := ⟨m, mem.b⟩ } ⟨hF.hist, hF.sd, hF.dk, hF.ds, hF.na, hF.vd⟩
    exact ⟨⟨z.1, ih.1.euc, rfl⟩, z.2⟩

/-- What is read of a linear function is consistent at any time: the value and the velocity are always defined and are the sums of the products of the jacobians that are read by the values
of the variables and of their derivatives, the derivatives of the jacobians and the normal acceleration are null and have their sizes, and `dot` of the variables are listed in order. -/
theorem C88_state (hfl : Flat geo tr euc) (F : Fn K) (h : Built geo tr euc dt F) :
    ∃ J : Nat → Mat K, (∀ v ∈ F.P.vars, F.P.jacobian geo tr v = .ok () (J v) ∧ (J v).rows = F.P.m ∧ (J v).cols = (geo v).size) ∧
      (∀ x, ∃ r, F.value geo tr x = .ok () ⟨F.P.m, r⟩ ∧ ∀ i, r i = F.b.v i + (F.P.vars.map (fun v => ∑ c ∈ Finset.range (J v).cols, (J v).at_ i c * x v c)).sum) ∧
      (∀ x, ∃ r, F.velocity geo tr dt x = .ok () ⟨F.P.m, r⟩ ∧ ∀ i, r i = (F.P.vars.map (fun v => ∑ c ∈ Finset.range (J v).cols, (J v).at_ i c * x (dt v) c)).sum) ∧
      F.vdots = F.P.vars.map dt ∧ F.na.size = F.P.m ∧ (∀ i, F.na.v i = 0) ∧
      ∀ v ∈ F.P.vars, ∃ M, find F.jdot v = some M ∧ M.rows = F.P.m ∧ M.cols = (geo v).size ∧ ∀ i c, M.at_ i c = 0 := by
  obtain ⟨hL, hz⟩ := h.linv geo tr euc dt hfl
  have hi := hL.f.hist.inv geo tr
  have hd : ∀ v ∈ F.P.vars, (tr v).dim.toNat = (geo v).size := fun v hv => by rw [hfl.dim v (hL.euc v hv)]; simp
  refine ⟨fun v => (find F.P.jac v).getD ⟨0, 0, fun _ _ => 0⟩, ?_, fun x => value_spec geo tr euc dt hfl F hL x, fun x => velocity_spec geo tr dt F hL.f x, hL.f.vd, hL.f.na, hz.1, ?_⟩
  · intro v hv
    obtain ⟨M, hM⟩ := (hi.keys v).1 hv
    obtain ⟨s1, s2⟩ := hi.size v M hM
    simp only [hM, Option.getD_some]
    refine ⟨?_, s1, by rw [s2, hd v hv]⟩
    unfold Provider.jacobian atSub; simp only [hM]
  · intro v hv
    obtain ⟨M, hM⟩ := (hL.f.dk v).1 hv
    obtain ⟨s1, s2⟩ := hL.f.ds v M hM
    exact ⟨M, hM, s1, by rw [s2, hd v hv], hz.2 v M hM⟩

/-- Giving a matrix: it is accepted iff the function has this variable and the sizes are right, and then it is the jacobian of the variable and nothing else changes; otherwise the call
throws and nothing changes. -/
theorem C88_setA (hfl : Flat geo tr euc) (F : Fn K) (h : Built geo tr euc dt F) (A : Mat K) (x : Nat) :
    ((x ∈ F.P.vars ∧ A.rows = F.P.m ∧ A.cols = (geo x).size) ∧ ∃ F', F.setA geo A x = .ok F' () ∧ F'.P.jacobian geo tr x = .ok () A ∧
      (∀ v ∈ F.P.vars, v ≠ x → F'.P.jacobian geo tr v = F.P.jacobian geo tr v) ∧ F'.P.vars = F.P.vars ∧ F'.b = F.b ∧ F'.P.m = F.P.m) ∨
    (¬(x ∈ F.P.vars ∧ A.rows = F.P.m ∧ A.cols = (geo x).size) ∧ F.setA geo A x = .throw F) := by
  obtain ⟨hL, _⟩ := h.linv geo tr euc dt hfl
  have hi := hL.f.hist.inv geo tr
  rcases setA_linv geo tr euc dt hfl F hL A x with ⟨hc, e, _⟩ | hn
  · left
    refine ⟨hc, _, e, ?_, ?_, rfl, rfl, rfl⟩
    · have e1 : find (F.P.write x A).jac x = some A := find_put_self _ _ _
      unfold Provider.jacobian atSub
      simp only [e1]
    · intro v hv hne
      obtain ⟨M, hM⟩ := (hi.keys v).1 hv
      have e1 : find (F.P.write x A).jac v = some M := (find_put_of_ne _ _ _ _ hne).trans hM
      unfold Provider.jacobian atSub
      simp only [hM, e1]
  · exact Or.inr hn

/-- Without naming the variable: as with the variable when there is exactly one, otherwise the call throws and nothing changes. -/
theorem C88_setA1 (F : Fn K) (A : Mat K) : (∀ x, F.P.vars = [x] → F.setA1 geo A = F.setA geo A x) ∧ (F.P.vars.length ≠ 1 → F.setA1 geo A = .throw F) := by
  constructor
  · intro x h; unfold Fn.setA1; simp only [h]
  · intro h
    unfold Fn.setA1
    split
    · rename_i x hx; rw [hx] at h; simp at h
    · rfl

/-- Giving the vector -/
theorem C88_setB (F : Fn K) (b : Vec K) :
    (b.size = F.P.m ∧ ∃ F', F.setB b = .ok F' () ∧ F'.b = b ∧ F'.P = F.P ∧ F'.jdot = F.jdot ∧ F'.na = F.na ∧ F'.vdots = F.vdots) ∨ (b.size ≠ F.P.m ∧ F.setB b = .throw F) := by
  unfold Fn.setB
  by_cases h : b.size = F.P.m
  · rw [if_pos h]; exact Or.inl ⟨h, _, rfl, rfl, rfl, rfl, rfl, rfl⟩
  · rw [if_neg h]; exact Or.inr ⟨h, rfl⟩

end

/-! ## Derivatives -/

/-- Along any motion of the variables, the velocity of the function is the derivative of its value, and the derivative of the velocity is the sum of the products of the jacobians by the
accelerations of the variables and of the normal acceleration. -/
theorem C88_derivative (hfl : Flat geo tr euc) (F : Fn ℝ) (h : Built geo tr euc dt F) (x : ℝ → Nat → Nat → ℝ) (t : ℝ)
    (hx : ∀ v ∈ F.P.vars, ∀ c, HasDerivAt (fun s => x s v c) (x t (dt v) c) t) (hx2 : ∀ v ∈ F.P.vars, ∀ c, HasDerivAt (fun s => x s (dt v) c) (x t (dt (dt v)) c) t) :
    ∃ (f fd : ℝ → Nat → ℝ) (J : Nat → Mat ℝ), (∀ s, F.value geo tr (x s) = .ok () ⟨F.P.m, f s⟩) ∧ (∀ s, F.velocity geo tr dt (x s) = .ok () ⟨F.P.m, fd s⟩) ∧
      (∀ v ∈ F.P.vars, F.P.jacobian geo tr v = .ok () (J v)) ∧ ∀ i, HasDerivAt (fun s => f s i) (fd t i) t ∧
        HasDerivAt (fun s => fd s i) ((F.P.vars.map (fun v => ∑ c ∈ Finset.range (J v).cols, (J v).at_ i c * x t (dt (dt v)) c)).sum + F.na.v i) t := by
  obtain ⟨J, hJ, hv, hd, _, _, hz, _⟩ := C88_state geo tr euc dt hfl F h
  choose f hf1 hf2 using fun s => hv (x s)
  choose fd hd1 hd2 using fun s => hd (x s)
  have key : ∀ (i : Nat) (y : ℝ → Nat → Nat → ℝ) (y' : Nat → Nat → ℝ) (l : List Nat), (∀ v ∈ l, ∀ c, HasDerivAt (fun s => y s v c) (y' v c) t) →
      HasDerivAt (fun s => (l.map (fun v => ∑ c ∈ Finset.range (J v).cols, (J v).at_ i c * y s v c)).sum) ((l.map (fun v => ∑ c ∈ Finset.range (J v).cols, (J v).at_ i c * y' v c)).sum) t := by
    intro i y y' l
    induction l with
    | nil => intro _; simpa using hasDerivAt_const t (0 : ℝ)
    | cons v l ih =>
      intro hl
      simp only [List.map_cons, List.sum_cons]
      refine HasDerivAt.add ?_ (ih fun w hw => hl w (List.mem_cons_of_mem _ hw))
      exact HasDerivAt.fun_sum fun c _ => (hl v List.mem_cons_self c).const_mul _
  refine ⟨f, fd, J, hf1, hd1, fun v hv => (hJ v hv).1, fun i => ⟨?_, ?_⟩⟩
  · have k := (key i x (fun v => x t (dt v)) F.P.vars hx).const_add (F.b.v i)
    have e1 : (fun s => f s i) = fun s => F.b.v i + (F.P.vars.map (fun v => ∑ c ∈ Finset.range (J v).cols, (J v).at_ i c * x s v c)).sum := by funext s; exact hf2 s i
    rw [e1, hd2 t i]; exact k
  · have k := key i (fun s v => x s (dt v)) (fun v => x t (dt (dt v))) F.P.vars hx2
    have e1 : (fun s => fd s i) = fun s => (F.P.vars.map (fun v => ∑ c ∈ Finset.range (J v).cols, (J v).at_ i c * x s (dt v) c)).sum := by funext s; exact hd2 s i
    rw [e1, hz i, add_zero]; exact k

/-! ## Functions built without data -/

section
variable [CommRing K]

/-- The matrices given one after the other -/
def setAll (F : Fn K) : List (Mat K × Nat) → Outcome (Fn K) Unit
  | [] => .ok F ()
  | t :: l =>
    match F.setA geo t.1 t.2 with
    | .ok F' _ => setAll F' l
    | .throw F' => .throw F'
    | .ub => .ub

/-- A function built without data has the given variables; once every matrix and the vector have been given, its value is the sum of the products and of the vector, whatever the memory
held. -/
theorem C88_filled (hfl : Flat geo tr euc) (mem : Memory K) (m : Nat) (xs : List Nat) (hs : ∀ v ∈ xs, 0 < (geo v).size) (he : ∀ v ∈ xs, euc v = true) (F : Fn K)
    (e : makeAlloc geo tr dt mem m xs = .ok () F) (As : Nat → Mat K) (hA : ∀ v ∈ F.P.vars, (As v).rows = m ∧ (As v).cols = (geo v).size) (b : Vec K) (hb : b.size = m) :
    (∀ v, v ∈ F.P.vars ↔ v ∈ xs) ∧ F.P.vars.Nodup ∧ ∃ F₁ F₂, setAll geo F (F.P.vars.map (fun v => (As v, v))) = .ok F₁ () ∧ F₁.setB b = .ok F₂ () ∧ F₂.P.vars = F.P.vars ∧
      ∀ x, ∃ r, F₂.value geo tr x = .ok () ⟨m, r⟩ ∧ ∀ i, r i = combo (F.P.vars.map (fun v => (As v, v))) x i + b.v i := by
  obtain ⟨hL, _⟩ := (Built.alloc mem m xs F hs he e).linv geo tr euc dt hfl
  have hi := hL.f.hist.inv geo tr
  have hm : F.P.m = m ∧ ∀ v, v ∈ F.P.vars ↔ v ∈ xs := by
    unfold makeAlloc at e
    cases ea : allocVars geo tr dt mem (BLF.make mem m) xs with
    | ub => simp only [ea] at e; cases e
    | throw s => simp only [ea] at e; cases e
    | ok s F0 =>
      simp only [ea] at e
      obtain ⟨_, a, b⟩ := alloc_spec geo tr euc dt mem xs _ F0 (linv_make geo tr euc dt mem m) hs he ea
      rw [← (Outcome.ok.inj e).2]
      refine ⟨a, fun v => ?_⟩
      show v ∈ F0.P.vars ↔ _
      rw [b v]; simp [BLF.make, Prov.make]
  have key : ∀ (l : List Nat) (G : Fn K), LInv geo tr euc dt G → G.P.m = m → (∀ v ∈ l, v ∈ G.P.vars) → (∀ v ∈ l, (As v).rows = m ∧ (As v).cols = (geo v).size) → l.Nodup →
      ∃ G', setAll geo G (l.map (fun v => (As v, v))) = .ok G' () ∧ LInv geo tr euc dt G' ∧ G'.P.m = m ∧ G'.P.vars = G.P.vars ∧ (∀ v ∈ l, find G'.P.jac v = some (As v)) ∧
        ∀ v, v ∉ l → find G'.P.jac v = find G.P.jac v := by
    intro l
    induction l with
    | nil => intro G h1 h2 _ _ _; exact ⟨G, rfl, h1, h2, rfl, by simp, fun _ _ => rfl⟩
    | cons v l ih =>
      intro G h1 h2 h3 h4 h5
      obtain ⟨n1, n2⟩ := List.nodup_cons.1 h5
      rcases setA_linv geo tr euc dt hfl G h1 (As v) v with ⟨_, e1, hL1⟩ | ⟨hn, _⟩
      · obtain ⟨G', a1, a2, a3, a4, a5, a6⟩ := ih { G with P := G.P.write v (As v) } hL1 h2 (fun w hw => h3 w (List.mem_cons_of_mem _ hw)) (fun w hw => h4 w (List.mem_cons_of_mem _ hw)) n2
        refine ⟨G', ?_, a2, a3, a4, ?_, ?_⟩
        · rw [List.map_cons]; unfold setAll; simp only [e1]; exact a1
        · intro w hw
          rcases List.mem_cons.1 hw with rfl | hw
          · rw [a6 w n1]; exact find_put_self _ _ _
          · exact a5 w hw
        · intro w hw
          rw [List.mem_cons, not_or] at hw
          rw [a6 w hw.2]; exact find_put_of_ne _ _ _ _ hw.1
      · exact absurd ⟨h3 v List.mem_cons_self, (h4 v List.mem_cons_self).1.trans h2.symm, (h4 v List.mem_cons_self).2⟩ hn
  obtain ⟨F₁, a1, a2, a3, a4, a5, _⟩ := key F.P.vars F hL hm.1 (fun v hv => hv) hA (hi.nodup geo tr)
  refine ⟨hm.2, hi.nodup geo tr, F₁, { F₁ with b := b }, a1, if_pos (hb.trans a3.symm), a4, fun x => ?_⟩
  obtain ⟨r, hr, hsum⟩ := value_spec geo tr euc dt hfl { F₁ with b := b } ⟨⟨a2.f.hist, a2.f.sd, a2.f.dk, a2.f.ds, a2.f.na, a2.f.vd⟩, a2.euc, hb.trans a3.symm⟩ x
  refine ⟨r, ?_, fun i => ?_⟩
  · rw [hr]
    show Outcome.ok () (⟨F₁.P.m, r⟩ : BLF.Vec K) = _
    rw [a3]
  · rw [hsum i]
    show b.v i + sumJ F₁.P x i = _
    unfold sumJ combo
    rw [a4, List.map_map, add_comm]
    congr 2
    refine List.map_congr_left fun v hv => ?_
    simp only [Function.comp, a5 v hv, Option.getD_some]

/-! ## Identity -/

/-- The identity function of a Euclidean variable: its value and velocity are those of the variable and of its derivative, as the linear function that it is says, its jacobian is the identity,
and the setters throw and change nothing. It cannot be built for another variable. -/
theorem C88_identity (hfl : Flat geo tr euc) (mem : Memory K) (v : Nat) (hs : 0 < (geo v).size) :
    (euc v = false → makeIdentity (K := K) geo tr euc dt mem v = .throw ()) ∧
    (euc v = true → ∃ F : Fn K, makeIdentity geo tr euc dt mem v = .ok () F ∧ F.P.vars = [v] ∧ F.P.m = (geo v).size ∧
      (∃ M, F.P.jacobian geo tr v = .ok () M ∧ M.rows = (geo v).size ∧ M.cols = (geo v).size ∧ ∀ i c, M.at_ i c = if i = c then 1 else 0) ∧
      (∀ x, ∃ r, F.value geo tr x = .ok () ⟨(geo v).size, r⟩ ∧ F.idValue geo x = .ok () ⟨(geo v).size, x v⟩ ∧ ∀ i < (geo v).size, r i = x v i) ∧
      (∀ x, ∃ r, F.velocity geo tr dt x = .ok () ⟨(geo v).size, r⟩ ∧ F.idVelocity tr dt x = .ok () ⟨(geo v).size, x (dt v)⟩ ∧ ∀ i < (geo v).size, r i = x (dt v) i) ∧
      ∀ A w b, F.idSetA A w = .throw F ∧ F.idSetA1 A = .throw F ∧ F.idSetB b = .throw F) := by
  constructor
  · intro h
    simp [makeIdentity, makeA, makeAB, addTerms, Fn.addTerm, h]
  · intro h
    have hf : makeIdentity (K := K) geo tr euc dt mem v = .ok () (⟨⟨(geo v).size, [v], [(v, ⟨(geo v).size, (geo v).size, fun i j => if i = j then 1 else 0⟩)], [(v, true)]⟩, [dt v],
        [(v, ⟨(geo v).size, (tr v).dim.toNat, fun _ _ => 0⟩)], ⟨(geo v).size, fun _ => 0⟩, ⟨(geo v).size, fun _ => 0⟩⟩ : Fn K) := by
      simp [makeIdentity, makeA, makeAB, addTerms, Fn.addTerm, h, BLF.make, Prov.make, Fn.addVar, Provider.add, Fn.atAssign, find, put, Provider.write, Fn.setB, Fn.zeroDerivatives, zeroEntry]
    have hb : Built geo tr euc dt _ := Built.a mem _ _ _ (by simpa using hs) hf
    have hL := (hb.linv geo tr euc dt hfl).1
    refine ⟨_, hf, rfl, rfl, ⟨⟨(geo v).size, (geo v).size, fun i j => if i = j then 1 else 0⟩, ?_, rfl, rfl, fun i c => rfl⟩, fun x => ?_, fun x => ?_, fun _ _ _ => ⟨rfl, rfl, rfl⟩⟩
    · simp [Provider.jacobian, atSub, find]
    · obtain ⟨r, hr, hsum⟩ := value_spec geo tr euc dt hfl _ hL x
      refine ⟨r, hr, rfl, fun i hi => ?_⟩
      rw [hsum i]
      simp [sumJ, find, hi]
    · obtain ⟨r, hr, hsum⟩ := velocity_spec geo tr dt _ hL.f x
      refine ⟨r, hr, ?_, fun i hi => ?_⟩
      · show Outcome.ok () (⟨(tr v).dim.toNat, x (dt v)⟩ : Vec K) = _
        rw [hfl.dim v h]; simp
      · rw [hsum i]
        simp [sumJ, find, hi]

end

/-! ## What is not guaranteed -/

def geo₁ : Nat → Geo := fun k => if k = 2 then ⟨2, 0, 4⟩ else if k = 3 then ⟨0, 1, 1⟩ else ⟨k, 0, 2⟩
def tr₁ : Nat → Range := fun k => if k = 2 then ⟨0, 3⟩ else if k = 3 then ⟨1, 1⟩ else ⟨0, 2⟩
def euc₁ : Nat → Bool := fun k => decide (k ≠ 2)
def mem₁ : Memory Int := ⟨fun _ _ _ => 7, fun _ _ _ => 7, fun _ => 7, fun _ => 7⟩

/-- Variable 2 is a rotation (four numbers, three velocities), variable 3 is the second component of variable 0. -/
theorem flat₁ : Flat geo₁ tr₁ euc₁ := by
  constructor
  · intro v h
    have : v ≠ 2 := by simpa [euc₁] using h
    by_cases h3 : v = 3 <;> simp [tr₁, geo₁, this, h3]
  · intro v w hv hw hc
    have h1 : v ≠ 2 := by simpa [euc₁] using hv
    have h2 : w ≠ 2 := by simpa [euc₁] using hw
    by_cases h3 : v = 3 <;> by_cases h4 : w = 3 <;> simp [tr₁, geo₁, h1, h2, h3, h4]

/-- Without data, a variable that is not Euclidean is accepted: the value is then undefined. -/
theorem C88_euclid_false : ∃ F : Fn Int, makeAlloc geo₁ tr₁ (· + 10) mem₁ 1 [2] = .ok () F ∧ F.value geo₁ tr₁ (fun _ _ => 0) = .ub := ⟨_, rfl, rfl⟩

/-- Removing a variable that the function does not have is undefined (the comment in the code expects an exception). -/
theorem C88_remove_false : (BLF.make mem₁ 1).removeVar geo₁ (· + 10) 0 = .ub := rfl

/-- The constructor with matrices is undefined when there are none. -/
theorem C88_empty_false : makeAB geo₁ tr₁ euc₁ (· + 10) mem₁ [] [] ⟨0, fun _ => 0⟩ = .ub ∧ makeA geo₁ tr₁ euc₁ (· + 10) mem₁ [] [] = .ub := ⟨rfl, rfl⟩

/-! ## Examples -/

example : FHist geo₁ tr₁ (· + 10) (⟨⟨1, [0], [(0, ⟨1, 2, fun _ _ => 7⟩)], [(0, true)]⟩, [10], [(0, ⟨1, 2, fun _ _ => 7⟩)], ⟨1, fun _ => 7⟩, ⟨1, fun _ => 7⟩⟩ : Fn Int) :=
  .add _ _ mem₁ 0 true (.make mem₁ 1) (by decide) rfl

def A₁ : Mat Int := ⟨1, 2, fun _ c => c + 1⟩
def B₁ : Mat Int := ⟨1, 1, fun _ _ => 5⟩

example : Fits geo₁ euc₁ 1 [A₁, B₁] [0, 3] := by
  refine ⟨rfl, ?_, ?_⟩
  · intro t ht
    simp only [List.zip_cons_cons, List.zip_nil_right, List.mem_cons, List.not_mem_nil, or_false] at ht
    rcases ht with rfl | rfl <;> exact ⟨by decide, rfl, rfl⟩
  · intro l₁ w l₂ e
    match l₁, e with
    | [], _ => right; simp
    | [a], e =>
      left
      have h0 : (0 : Nat) = a := (List.cons.inj e).1
      have h3 : (3 : Nat) = w := (List.cons.inj (List.cons.inj e).2).1
      subst h0; subst h3
      exact ⟨0, by simp, by decide⟩
    | a :: b :: l, e => exfalso; have := congrArg List.length e; simp at this

/-- x₀ + 2 x₁ + 5 x₁ + 3, where the last variable is a part of the first -/
example : ∃ F : Fn Int, makeAB geo₁ tr₁ euc₁ (· + 10) mem₁ [A₁, B₁] [0, 3] ⟨1, fun _ => 3⟩ = .ok () F ∧ Built geo₁ tr₁ euc₁ (· + 10) F ∧ F.P.vars = [0] ∧
    ∃ r, F.value geo₁ tr₁ (fun v c => if v = 0 then c + 1 else 2) = .ok () ⟨1, r⟩ ∧ r 0 = 18 := by
  refine ⟨_, rfl, .ab mem₁ [A₁, B₁] [0, 3] ⟨1, fun _ => 3⟩ _ (by decide) rfl, rfl, _, rfl, ?_⟩
  decide

end Verif.C88
