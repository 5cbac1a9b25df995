import Verif.Model.VariableVectorPartition
import Verif.Properties.C08_SplitVariables
import Mathlib.Data.List.Forall2
/-!
# C54: iterating over the pieces of variables

Iterating over `VariableVectorPartition(vs, p)` visits, for each variable of `vs` in order, the elements of the partition
that are in it, in order.
-/
set_option autoImplicit false

namespace Verif.C54
open Verif Verif.VCV Verif.VVP
open Verif.C07 (World Valid Has Call)

/-! ## Specification -/

/-- `p` lists disjoint non-empty variables, by increasing super variable and position. -/
structure Pieces (W : World) (p : List Item) : Prop where
  valid : ∀ x ∈ p, Valid W x.var
  nonempty : ∀ x ∈ p, 0 < x.var.dim.m
  order : p.Pairwise (fun a b => a.var.root.id < b.var.root.id ∨
    (a.var.root = b.var.root ∧ a.var.start.m + a.var.dim.m ≤ b.var.start.m))

/-- The variable is not empty and is a union of elements of `p`. -/
structure Refined (W : World) (p : List Item) (v : Var) : Prop where
  valid : Valid W v
  nonempty : 0 < v.dim.m
  covered : ∀ i k, Has v i k → ∃ x ∈ p, Has x.var i k
  uncut : ∀ x ∈ p, ∀ i k, Has x.var i k → Has v i k → ∀ k', Has x.var i k' → Has v i k'

/-- `seg` lists, in the order of `p`, exactly the elements of `p` that are in `v`; they cover `v`. -/
structure PiecesOf (p : List Item) (v : Var) (seg : List Item) : Prop where
  sub : seg.Sublist p
  exact : ∀ x ∈ p, x ∈ seg ↔ ∀ i k, Has x.var i k → Has v i k
  union : ∀ i k, Has v i k ↔ ∃ x ∈ seg, Has x.var i k

/-- The loop terminates normally after visiting the elements `l`. -/
def Visits (vs : List Var) (p l : List Item) : Prop := ∃ n, ∀ m, n ≤ m → run vs p m = some (.ok () l)

/-! ## Containment -/

theorem mono_le {g : Int → Int} (h : RangeAlign.SMono g) {a b : Int} : g a ≤ g b ↔ a ≤ b := by
  constructor
  · intro hab
    apply Classical.byContradiction
    intro hn
    have := h b a (by omega); omega
  · intro hab
    rcases Int.lt_or_eq_of_le hab with h1 | h1
    · have := h a b h1; omega
    · subst h1; exact Int.le_refl _

theorem mono_lt {g : Int → Int} (h : RangeAlign.SMono g) {a b : Int} : g a < g b ↔ a < b := by
  have := mono_le h (a := b) (b := a)
  omega

/-- The map from the positions to the positions in the buffer of the root `i` -/
def pos (W : World) (v : Var) : Int → Int := if v.root.basePrimitive then W.gR v.root.id else W.gT v.root.id

theorem pos_mono (W : World) (v : Var) : RangeAlign.SMono (pos W v) := by
  unfold pos; split
  · exact W.monoR _
  · exact W.monoT _

theorem subRange_pos {W : World} {v : Var} (h : Valid W v) :
    (subRange v).start = pos W v v.start.m ∧ (subRange v).stop = pos W v (v.start.m + v.dim.m) := by
  have h1 := h.startR; have h2 := h.stopR; have h3 := h.startT; have h4 := h.stopT
  unfold subRange pos Range.stop
  split
  · exact ⟨h1, h2⟩
  · exact ⟨h3, h4⟩

theorem contains_iff {W : World} {v x : Var} (hv : Valid W v) (hx : Valid W x) (hn : 0 < x.dim.m) :
    contains v x = true ↔ v.root = x.root ∧ v.start.m ≤ x.start.m ∧ x.start.m + x.dim.m ≤ v.start.m + v.dim.m := by
  obtain ⟨v1, v2⟩ := subRange_pos hv
  obtain ⟨x1, x2⟩ := subRange_pos hx
  simp only [contains, Range.contains, Range.containsInt, Bool.and_eq_true, decide_eq_true_iff]
  by_cases hr : v.root = x.root
  · have hp : pos W x = pos W v := by unfold pos; rw [hr]
    rw [v1, v2, x1, x2, hp, mono_le (pos_mono W v), mono_lt (pos_mono W v), ge_iff_le, mono_le (pos_mono W v)]
    constructor
    · rintro ⟨-, ⟨a, b⟩, c⟩; exact ⟨hr, a, c⟩
    · rintro ⟨-, a, c⟩; exact ⟨hr, ⟨a, by omega⟩, c⟩
  · simp [hr]

theorem contains_has {W : World} {v x : Var} (hv : Valid W v) (hx : Valid W x) (hn : 0 < x.dim.m) :
    contains v x = true ↔ ∀ i k, Has x i k → Has v i k := by
  rw [contains_iff hv hx hn]
  constructor
  · rintro ⟨h1, h2, h3⟩ i k ⟨k1, k2, k3⟩
    exact ⟨by rw [h1]; exact k1, by omega, by omega⟩
  · intro h
    obtain ⟨a1, a2, a3⟩ := h x.root.id x.start.m ⟨rfl, by omega, by omega⟩
    obtain ⟨b1, b2, b3⟩ := h x.root.id (x.start.m + x.dim.m - 1) ⟨rfl, by omega, by omega⟩
    refine ⟨?_, a2, by omega⟩
    rw [hv.root, hx.root, a1]

/-! ## Search and steps -/

theorem search_some {v : Var} : ∀ {p : List Item} {j : Nat}, (∃ x ∈ p, contains v x.var = true) →
    ∃ ip x, search v p j = some (j + ip) ∧ p[ip]? = some x ∧ contains v x.var = true ∧
      ∀ y ∈ p.take ip, contains v y.var = false := by
  intro p
  induction p with
  | nil => intro j h; obtain ⟨x, hx, -⟩ := h; cases hx
  | cons a p ih =>
    intro j h
    by_cases ha : contains v a.var = true
    · exact ⟨0, a, by simp [search, ha], rfl, ha, by simp⟩
    · have : ∃ x ∈ p, contains v x.var = true := by
        obtain ⟨x, hx, hc⟩ := h
        rcases List.mem_cons.mp hx with rfl | hx
        · exact absurd hc ha
        · exact ⟨x, hx, hc⟩
      obtain ⟨ip, x, h1, h2, h3, h4⟩ := ih (j := j + 1) this
      refine ⟨ip + 1, x, ?_, by simpa using h2, h3, ?_⟩
      · simp only [search]
        rw [if_neg ha, h1]
        congr 1; omega
      · intro y hy
        rw [List.take_succ_cons] at hy
        rcases List.mem_cons.mp hy with rfl | hy
        · simpa using ha
        · exact h4 y hy

theorem refined_some {W : World} {p : List Item} {v : Var} (hp : Pieces W p) (hv : Refined W p v) :
    ∃ x ∈ p, contains v x.var = true := by
  have hn := hv.nonempty
  have h0 : Has v v.root.id v.start.m := ⟨rfl, by omega, by omega⟩
  obtain ⟨x, hx, hh⟩ := hv.covered _ _ h0
  refine ⟨x, hx, (contains_has hv.valid (hp.valid x hx) (hp.nonempty x hx)).mpr ?_⟩
  intro i k hk
  have : i = v.root.id := by rw [← hk.1, ← hh.1]
  subst this
  exact hv.uncut x hx _ _ hh h0 k hk

/-- The elements of the partition contained in a variable are consecutive, and the last one ends as the variable. -/
theorem last_piece {W : World} {p : List Item} {v : Var} (hp : Pieces W p) (hv : Refined W p v) {j : Nat} {x : Item}
    (hx : p[j]? = some x) (hc : contains v x.var = true)
    (hnext : ∀ y, p[j + 1]? = some y → contains v y.var = false) :
    (subRange x.var).stop = (subRange v).stop ∧ ∀ y ∈ p.drop (j + 1), contains v y.var = false := by
  have hxm : x ∈ p := List.mem_of_getElem? hx
  have hxv := hp.valid x hxm
  have hxn := hp.nonempty x hxm
  obtain ⟨c1, c2, c3⟩ := (contains_iff hv.valid hxv hxn).mp hc
  have hpw := List.pairwise_iff_getElem.mp hp.order
  have hord : ∀ (a b : Nat) (y z : Item), p[a]? = some y → p[b]? = some z → a < b →
      y.var.root.id < z.var.root.id ∨ (y.var.root = z.var.root ∧ y.var.start.m + y.var.dim.m ≤ z.var.start.m) := by
    intro a b y z hy hz hab
    obtain ⟨ha, rfl⟩ := List.getElem?_eq_some_iff.mp hy
    obtain ⟨hb, rfl⟩ := List.getElem?_eq_some_iff.mp hz
    exact hpw a b ha hb hab
  have hend : x.var.start.m + x.var.dim.m = v.start.m + v.dim.m := by
    apply Classical.byContradiction
    intro hne
    -- the coordinate just after `x`
    have hk : Has v v.root.id (x.var.start.m + x.var.dim.m) := ⟨rfl, by omega, by omega⟩
    obtain ⟨z, hz, z1, z2, z3⟩ := hv.covered _ _ hk
    obtain ⟨i, hi⟩ := List.mem_iff_getElem?.mp hz
    have hzr : z.var.root.id = x.var.root.id := by rw [z1, c1]
    rcases Nat.lt_trichotomy i j with h | h | h
    · have := hord i j z x hi hx h
      rcases this with h1 | ⟨-, h1⟩ <;> omega
    · subst h
      rw [hx] at hi
      simp only [Option.some.injEq] at hi
      subst hi; omega
    · have hlen : j + 1 < p.length := by
        have := (List.getElem?_eq_some_iff.mp hi).1; omega
      have hy : p[j + 1]? = some p[j + 1] := List.getElem?_eq_getElem hlen
      generalize p[j + 1] = y at hy
      have hym : y ∈ p := List.mem_of_getElem? hy
      have hyn := hp.nonempty y hym
      have hij : i = j + 1 := by
        apply Classical.byContradiction
        intro hne2
        have o1 := hord j (j + 1) x y hx hy (by omega)
        have o2 := hord (j + 1) i y z hy hi (by omega)
        rcases o1 with o1 | ⟨e1, o1⟩ <;> rcases o2 with o2 | ⟨e2, o2⟩
        · omega
        · rw [← e2] at hzr; omega
        · rw [e1] at hzr; omega
        · omega
      subst hij
      rw [hy] at hi
      simp only [Option.some.injEq] at hi
      subst hi
      have : contains v y.var = true := by
        apply (contains_has hv.valid (hp.valid y hym) hyn).mpr
        intro i k hk2
        have : i = v.root.id := by rw [← hk2.1, z1]
        subst this
        exact hv.uncut y hym _ _ ⟨z1, z2, z3⟩ hk k hk2
      rw [hnext y hy] at this
      cases this
  refine ⟨?_, ?_⟩
  · rw [(subRange_pos hxv).2, (subRange_pos hv.valid).2, hend]
    unfold pos; rw [c1]
  · intro y hy
    rw [Bool.eq_false_iff]
    intro hcy
    have hym : y ∈ p := List.mem_of_mem_drop hy
    obtain ⟨d1, d2, d3⟩ := (contains_iff hv.valid (hp.valid y hym) (hp.nonempty y hym)).mp hcy
    obtain ⟨i, hi⟩ := List.mem_iff_getElem?.mp hy
    rw [List.getElem?_drop] at hi
    have := hp.nonempty y hym
    rcases hord j (j + 1 + i) x y hx hi (by omega) with h | ⟨-, h⟩
    · rw [← d1, c1] at h; omega
    · omega

/-- Iterations of a fixed variable then of the next ones -/
def expected (p : List Item) (vs : List Var) : List Item := vs.flatMap fun v => p.filter fun x => contains v x.var

theorem filter_drop {v : Var} {p : List Item} {ip : Nat} (h : ∀ y ∈ p.take ip, contains v y.var = false) :
    p.filter (fun x => contains v x.var) = (p.drop ip).filter (fun x => contains v x.var) := by
  conv => lhs; rw [← List.take_append_drop ip p]
  rw [List.filter_append]
  have : (p.take ip).filter (fun x => contains v x.var) = [] := by
    rw [List.filter_eq_nil_iff]
    intro y hy; rw [h y hy]; simp
  rw [this, List.nil_append]

theorem visit_mono {vs : List Var} {p : List Item} {stop : It} : ∀ {n : Nat} {it : It} {r : Outcome Unit (List Item)},
    visit vs p stop n it = some r → visit vs p stop (n + 1) it = some r := by
  intro n
  induction n with
  | zero =>
    intro it r h
    unfold visit at h ⊢
    split at h
    · rename_i hs; rw [if_pos hs]; exact h
    · cases h
  | succ n ih =>
    intro it r h
    rw [visit] at h ⊢
    split at h
    · rename_i hs; rw [if_pos hs]; exact h
    · rename_i hs; rw [if_neg hs]
      cases hd : deref p it with
      | ub => simp only [hd] at h ⊢; exact h
      | throw u => simp only [hd] at h ⊢; exact h
      | ok u x =>
        simp only [hd] at h ⊢
        cases hn : next vs p it with
        | ub => simp only [hn] at h ⊢; exact h
        | throw u => simp only [hn] at h ⊢; exact h
        | ok u it' =>
          simp only [hn] at h ⊢
          cases hv : visit vs p stop n it' with
          | none => simp only [hv] at h; cases h
          | some r' => rw [ih hv]; simp only [hv] at h; exact h

theorem visit_le {vs : List Var} {p : List Item} {stop : It} {r : Outcome Unit (List Item)} {n m : Nat} {it : It}
    (h : visit vs p stop n it = some r) (hm : n ≤ m) : visit vs p stop m it = some r := by
  induction hm with
  | refl => exact h
  | step _ ih => exact visit_mono ih

/-- From a position in the variable number `iv`, the rest of the loop. -/
theorem visit_from {W : World} {vs : List Var} {p : List Item} (hp : Pieces W p) (hvs : ∀ v ∈ vs, Refined W p v)
    {stop : It} (hstop : stop.ip = p.length) :
    ∀ (d iv : Nat), vs.length - iv = d → ∀ (e ip : Nat), p.length - ip = e → ∀ v x, vs[iv]? = some v → p[ip]? = some x →
      contains v x.var = true → ∃ n, visit vs p stop n ⟨ip, iv⟩ =
        some (.ok () ((p.drop ip).filter (fun x => contains v x.var) ++ expected p (vs.drop (iv + 1)))) := by
  intro d
  induction d with
  | zero =>
    intro iv hd e ip _ v x hv
    have := (List.getElem?_eq_some_iff.mp hv).1
    omega
  | succ d ihd =>
    intro iv hd e
    induction e with
    | zero =>
      intro ip he v x _ hx
      have := (List.getElem?_eq_some_iff.mp hx).1
      omega
    | succ e ihe =>
      intro ip he v x hv hx hc
      have hvr := hvs v (List.mem_of_getElem? hv)
      have hipl := (List.getElem?_eq_some_iff.mp hx).1
      have hivl := (List.getElem?_eq_some_iff.mp hv).1
      have hne : ¬ (It.eq ⟨ip, iv⟩ stop = true) := by
        simp only [It.eq, decide_eq_true_iff]; omega
      have hdrop : p.drop ip = x :: p.drop (ip + 1) := by
        rw [List.drop_eq_getElem_cons hipl]
        rw [List.getElem?_eq_getElem hipl, Option.some.injEq] at hx
        rw [hx]
      have hfil : (p.drop ip).filter (fun x => contains v x.var) =
          x :: (p.drop (ip + 1)).filter (fun x => contains v x.var) := by
        rw [hdrop, List.filter_cons_of_pos (p := fun x : Item => contains v x.var) hc]
      by_cases hnx : ∃ y, p[ip + 1]? = some y ∧ contains v y.var = true
      · -- the next element is in the same variable
        obtain ⟨y, hy, hyc⟩ := hnx
        obtain ⟨n, hn⟩ := ihe (ip + 1) (by omega) v y hv hy hyc
        refine ⟨n + 1, ?_⟩
        rw [visit, if_neg hne]
        have h1 : deref p ⟨ip, iv⟩ = .ok () x := by simp only [deref, hx]
        have h2 : next vs p ⟨ip, iv⟩ = .ok () ⟨ip + 1, iv⟩ := by simp only [next, hv, hx, hy, hyc, if_true]
        simp only [h1, h2, hn, hfil]
        rfl
      · -- the variable is finished
        have hnext : ∀ y, p[ip + 1]? = some y → contains v y.var = false := by
          intro y hy
          rw [Bool.eq_false_iff]
          intro h; exact hnx ⟨y, hy, h⟩
        obtain ⟨hend, hrest⟩ := last_piece hp hvr hx hc hnext
        have hnil : (p.drop (ip + 1)).filter (fun x => contains v x.var) = [] := by
          rw [List.filter_eq_nil_iff]
          intro y hy; rw [hrest y hy]; simp
        have h1 : deref p ⟨ip, iv⟩ = .ok () x := by simp only [deref, hx]
        have h2 : next vs p ⟨ip, iv⟩ = nextVar vs p ⟨ip, iv⟩ := by
          simp only [next, hv, hx]
          cases hy : p[ip + 1]? with
          | none => simp only [hend, if_true]
          | some y => simp only [hnext y hy, Bool.false_eq_true, if_false, hend, if_true]
        by_cases hl : iv + 1 = vs.length
        · refine ⟨1, ?_⟩
          have h3 : nextVar vs p ⟨ip, iv⟩ = .ok () ⟨p.length, iv + 1⟩ := by simp only [nextVar, hl, if_true]
          rw [visit, if_neg hne]
          simp only [h1, h2, h3]
          rw [visit, if_pos (by simp [It.eq, hstop])]
          simp only
          rw [hfil, hnil, hl, List.drop_length]
          rfl
        · have hl2 : iv + 1 < vs.length := by omega
          have hw : vs[iv + 1]? = some vs[iv + 1] := List.getElem?_eq_getElem hl2
          have hdropv : vs.drop (iv + 1) = vs[iv + 1] :: vs.drop (iv + 1 + 1) := List.drop_eq_getElem_cons hl2
          generalize vs[iv + 1] = w at hw hdropv
          have hwr := hvs w (List.mem_of_getElem? hw)
          obtain ⟨jp, y, s1, s2, s3, s4⟩ := search_some (j := 0) (refined_some hp hwr)
          rw [Nat.zero_add] at s1
          have h3 : nextVar vs p ⟨ip, iv⟩ = .ok () ⟨jp, iv + 1⟩ := by simp only [nextVar, if_neg hl, hw, s1]
          obtain ⟨n, hn⟩ := ihd (iv + 1) (by omega) (p.length - jp) jp rfl w y hw s2 s3
          refine ⟨n + 1, ?_⟩
          rw [visit, if_neg hne]
          simp only [h1, h2, h3, hn]
          rw [hfil, hnil, hdropv]
          simp only [expected, List.flatMap_cons]
          rw [filter_drop s4]
          rfl

theorem piecesOf {W : World} {p : List Item} {v : Var} (hp : Pieces W p) (hv : Refined W p v) :
    PiecesOf p v (p.filter fun x => contains v x.var) := by
  have hmem : ∀ x ∈ p, x ∈ p.filter (fun x => contains v x.var) ↔ ∀ i k, Has x.var i k → Has v i k := by
    intro x hx
    rw [List.mem_filter, contains_has hv.valid (hp.valid x hx) (hp.nonempty x hx)]
    exact ⟨fun h => h.2, fun h => ⟨hx, h⟩⟩
  refine ⟨List.filter_sublist, hmem, ?_⟩
  intro i k
  constructor
  · intro h
    obtain ⟨x, hx, hh⟩ := hv.covered i k h
    refine ⟨x, (hmem x hx).mpr ?_, hh⟩
    intro i' k' hk'
    have : i' = i := by rw [← hk'.1, ← hh.1]
    subst this
    exact hv.uncut x hx _ _ hh h k' hk'
  · rintro ⟨x, hx, hh⟩
    exact (hmem x (List.mem_filter.mp hx).1).mp hx i k hh

/-! ## Properties -/

/-- **C54** For a non-empty container of variables that are unions of elements of the partition, the loop terminates
normally. It visits, for each variable in the order of the container, exactly the elements of the partition that are in
the variable, in the order of the partition. -/
theorem C54_visits {W : World} {vs : List Var} {p : List Item} (hp : Pieces W p) (hvs : ∀ v ∈ vs, Refined W p v)
    (hne : vs ≠ []) : ∃ segs : List (List Item), List.Forall₂ (PiecesOf p) vs segs ∧ Visits vs p segs.flatten := by
  refine ⟨vs.map fun v => p.filter fun x => contains v x.var, ?_, ?_⟩
  · rw [List.forall₂_map_right_iff]
    rw [List.forall₂_same]
    exact fun v hv => piecesOf hp (hvs v hv)
  · have e : (vs.map fun v => p.filter fun x => contains v x.var).flatten = expected p vs := by
      simp [expected, List.flatMap]
    rw [e]
    obtain ⟨v, vs', rfl⟩ := List.exists_cons_of_ne_nil hne
    have hvr := hvs v (by simp)
    obtain ⟨ip, x, s1, s2, s3, s4⟩ := search_some (j := 0) (refined_some hp hvr)
    rw [Nat.zero_add] at s1
    have hlen : 0 ≠ p.length := by
      have := (List.getElem?_eq_some_iff.mp s2).1; omega
    obtain ⟨n, hn⟩ := visit_from (vs := v :: vs') hp hvs (stop := ⟨p.length, p.length⟩) rfl _ 0 rfl _ ip rfl v x rfl s2 s3
    refine ⟨n, fun m hm => ?_⟩
    have hb : begin_ (v :: vs') p = .ok () ⟨ip, 0⟩ := by
      simp only [begin_, mkIt, if_neg hlen, List.getElem?_cons_zero, s1]
    have he : end_ (v :: vs') p = .ok () ⟨p.length, p.length⟩ := by simp only [end_, mkIt, if_true]
    simp only [run, hb, he]
    rw [visit_le hn hm]
    simp only [expected, List.flatMap_cons, List.drop_succ_cons, List.drop_zero]
    rw [filter_drop s4]

/-- **C54** The use in the code (Assignment.cpp, lines 545-548, SubstitutionUnit.cpp, line 312): a new split counting
vector to which all the variables were added, among others, is a partition that suits. -/
theorem C54_of_added {W : World} {s : VCV.State} {h : List Call} (hN : C08.NoQuery W s h)
    (hadd : ∀ c ∈ h, ∃ v, c = Call.add v) {vs : List Var} (hne : vs ≠ [])
    (hvs : ∀ v ∈ vs, Call.add v ∈ h ∧ 0 < v.dim.m) :
    ∃ s' p, s.getVariables = .ok s' p ∧ (∀ i k, (∃ x ∈ p, Has x.var i k) ↔ ∃ v, Call.add v ∈ h ∧ Has v i k) ∧
      ∃ segs : List (List Item), List.Forall₂ (PiecesOf p) vs segs ∧ Visits vs p segs.flatten := by
  obtain ⟨s', p, h1, h2⟩ := C08.C08_split_first_query_partial hN
  have hnet : ∀ i k, 0 < C07.netV h i k ↔ ∃ v, Call.add v ∈ h ∧ Has v i k := by
    clear h1 h2 hne hvs hN
    induction h with
    | nil => intro i k; simp [C07.netV]
    | cons c h ih =>
      intro i k
      obtain ⟨w, rfl⟩ := hadd c (by simp)
      have ih := ih (fun c hc => hadd c (by simp [hc]))
      have nonneg : ∀ (h : List Call), (∀ c ∈ h, ∃ v, c = Call.add v) → 0 ≤ C07.netV h i k := by
        intro h
        induction h with
        | nil => intro _; simp [C07.netV]
        | cons c h ih2 =>
          intro hh
          obtain ⟨u, rfl⟩ := hh c (by simp)
          have := ih2 (fun c hc => hh c (by simp [hc]))
          simp only [C07.netV]
          split <;> omega
      have h0 := nonneg h (fun c hc => hadd c (by simp [hc]))
      simp only [C07.netV, List.mem_cons, Call.add.injEq]
      by_cases hw : Has w i k
      · simp only [hw, if_true]
        exact ⟨fun _ => ⟨w, Or.inl rfl, hw⟩, fun _ => by omega⟩
      · simp only [hw, if_false, Int.add_zero, ih i k]
        constructor
        · rintro ⟨v, hv, hh⟩; exact ⟨v, Or.inr hv, hh⟩
        · rintro ⟨v, rfl | hv, hh⟩
          · exact absurd hh hw
          · exact ⟨v, hv, hh⟩
  refine ⟨s', p, h1, fun i k => (h2.cover i k).trans (hnet i k), ?_⟩
  have hval : ∀ v, Call.add v ∈ h → Valid W v := by
    clear h1 h2 hne hvs hadd hnet
    induction hN with
    | init => intro v hv; cases hv
    | add _ hv _ ih =>
      intro u hu
      rcases List.mem_cons.mp hu with hu | hu
      · simp only [Call.add.injEq] at hu; subst hu; exact hv
      · exact ih u hu
    | remove _ _ _ ih =>
      intro u hu
      rcases List.mem_cons.mp hu with hu | hu
      · cases hu
      · exact ih u hu
  refine C54_visits (W := W) ⟨h2.valid, h2.nonempty, h2.order⟩ ?_ hne
  intro v hv
  obtain ⟨v1, v2⟩ := hvs v hv
  refine ⟨hval v v1, v2, ?_, ?_⟩
  · intro i k hk
    exact (h2.cover i k).mpr ((hnet i k).mpr ⟨v, v1, hk⟩)
  · intro x hx i k hk1 hk2 k' hk'
    exact h2.uncut hadd x hx v v1 i k hk2 hk1 k' hk'

/-- **C54** Limits. With an empty container and a partition that is not empty, `begin()` reads out of the container; with
an empty partition nothing is visited; a variable of size zero makes the loop throw. -/
theorem C54_limits (n : Nat) :
    (∀ p : List Item, p ≠ [] → run [] p n = some .ub) ∧
    (∀ vs : List Var, run vs [] n = some (.ok () [])) ∧
    (∀ (W : World) (v : Var) (vs : List Var) (p : List Item), p ≠ [] → Valid W v → v.dim.m = 0 → (∀ x ∈ p, Valid W x.var) →
      run (v :: vs) p n = some (.throw ())) := by
  refine ⟨?_, ?_, ?_⟩
  · intro p hp
    have : 0 ≠ p.length := by
      intro h; exact hp (List.length_eq_zero_iff.mp h.symm)
    simp [run, begin_, mkIt, this]
  · intro vs
    simp only [run, begin_, end_, mkIt, List.length_nil, if_true]
    cases n <;> simp [visit, It.eq]
  · intro W v vs p hp hv hd hx
    have h0 : 0 ≠ p.length := by
      intro h; exact hp (List.length_eq_zero_iff.mp h.symm)
    have hc : ∀ x ∈ p, contains v x.var = false := by
      intro x hxm
      obtain ⟨v1, v2⟩ := subRange_pos hv
      rw [hd, Int.add_zero] at v2
      simp only [contains, Range.contains, Range.containsInt]
      rw [v1, v2]
      simp only [Bool.and_eq_false_iff, decide_eq_false_iff_not]
      right; left
      by_cases h : pos W v v.start.m ≤ (subRange x.var).start
      · right; omega
      · left; exact h
    have hs : ∀ (p : List Item) (j : Nat), (∀ x ∈ p, contains v x.var = false) → search v p j = none := by
      intro p
      induction p with
      | nil => intro j _; rfl
      | cons a p ih =>
        intro j h
        simp only [search, h a (by simp), Bool.false_eq_true, if_false]
        exact ih (j + 1) (fun x hx => h x (by simp [hx]))
    simp only [run, begin_, mkIt, if_neg h0, List.getElem?_cons_zero, hs p 0 hc]

/-! ## A concrete case -/

open Verif.C07 (exWorld exX exX_valid exRot exTr exRot_valid exTr_valid)

/-- Adds of the rotation, then of `x[0:3]` and of `x[2:6]` -/
def exHist : List Call := [.add (exX 2 5), .add (exX 0 4), .add exRot]

def e1 : VCV.State := C08.after {} (VCV.State.add { split := true } exRot)
def e2 : VCV.State := C08.after {} (e1.add (exX 0 4))
def e3 : VCV.State := C08.after {} (e2.add (exX 2 5))

example : C08.NoQuery exWorld e3 exHist := by
  have h1 : VCV.State.add { split := true } exRot = .ok e1 true := by decide +kernel
  have h2 : e1.add (exX 0 4) = .ok e2 true := by decide +kernel
  have h3 : e2.add (exX 2 5) = .ok e3 true := by decide +kernel
  exact .add (.add (.add .init exRot_valid h1) (exX_valid 0 4 (by decide) (by decide) (by decide)) h2)
    (exX_valid 2 5 (by decide) (by decide) (by decide)) h3

/-- The pieces of `x[2:6]`, then the rotation, then the pieces of `x[0:3]` -/
example : ∃ s p, e3.getVariables = .ok s p ∧ run [exX 2 5, exRot, exX 0 4] p 10 = some (.ok ()
    [.sub (exWorld.root 0) ⟨2, 2, 2⟩ ⟨2, 2, 2⟩, .sub (exWorld.root 0) ⟨3, 3, 3⟩ ⟨4, 4, 4⟩,
     .sub (exWorld.root 1) ⟨3, 4, 3⟩ ⟨3, 3, 3⟩,
     .sub (exWorld.root 0) ⟨2, 2, 2⟩ ⟨0, 0, 0⟩, .sub (exWorld.root 0) ⟨2, 2, 2⟩ ⟨2, 2, 2⟩]) := by
  refine ⟨C08.after {} e3.getVariables, [.sub (exWorld.root 0) ⟨2, 2, 2⟩ ⟨0, 0, 0⟩, .sub (exWorld.root 0) ⟨2, 2, 2⟩ ⟨2, 2, 2⟩,
    .sub (exWorld.root 0) ⟨3, 3, 3⟩ ⟨4, 4, 4⟩, .sub (exWorld.root 1) ⟨3, 4, 3⟩ ⟨3, 3, 3⟩], by decide +kernel, by decide +kernel⟩

/-- The visits of the three variables added, in the order of the list given -/
example : ∃ s p, e3.getVariables = .ok s p ∧ ∃ segs : List (List Item), List.Forall₂ (PiecesOf p) [exX 2 5, exRot] segs ∧ Visits [exX 2 5, exRot] p segs.flatten := by
  have h1 : VCV.State.add { split := true } exRot = .ok e1 true := by decide +kernel
  have h2 : e1.add (exX 0 4) = .ok e2 true := by decide +kernel
  have h3 : e2.add (exX 2 5) = .ok e3 true := by decide +kernel
  have hN : C08.NoQuery exWorld e3 exHist := .add (.add (.add .init exRot_valid h1) (exX_valid 0 4 (by decide) (by decide) (by decide)) h2)
    (exX_valid 2 5 (by decide) (by decide) (by decide)) h3
  obtain ⟨s, p, h, -, h'⟩ := C54_of_added hN (by simp [exHist]) (vs := [exX 2 5, exRot]) (by simp) (by
    intro v hv
    simp only [List.mem_cons, List.not_mem_nil, or_false] at hv
    rcases hv with rfl | rfl
    · exact ⟨by simp [exHist], by decide⟩
    · exact ⟨by simp [exHist], by decide⟩)
  exact ⟨s, p, h, h'⟩

end Verif.C54
