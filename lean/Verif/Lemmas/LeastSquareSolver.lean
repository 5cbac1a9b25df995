import Verif.Model.LeastSquareSolver
/-!
# Lemmas on the maps of assignments and the rows of the least-squares solvers
-/
set_option autoImplicit false
set_option linter.unusedSimpArgs false

namespace Verif.LS
open Verif.SE

/-! ## Specification of a tiling -/

/-- The half-open intervals of `l` tile `[a, b)`: each row of `[a, b)` is in exactly one interval, and no other row is in
any. -/
def Tile (l : List (Int × Int)) (a b : Int) : Prop :=
  ∀ r : Int, l.countP (fun i => decide (i.1 ≤ r ∧ r < i.2)) = if a ≤ r ∧ r < b then 1 else 0

/-- The rows written by the assignments of a map, an assignment of `c` writing `size c` rows from its start. -/
def rowsOf (size : Cstr → Nat) (m : AMap) : List (Int × Int) :=
  m.flatMap (fun e => e.2.map (fun a => (a.start, a.start + size e.1)))

/-- The constraints of a map. -/
def keys (m : AMap) : List Cstr := m.map (·.1)

/-- Total number of rows of the constraints of a map. -/
def total (size : Cstr → Nat) (m : AMap) : Nat := (m.map (fun e => size e.1)).sum

/-- Each constraint of the map has one assignment. -/
def Single (m : AMap) : Prop := ∀ e ∈ m, ∃ a, e.2 = [a]

/-! ## Tilings -/

theorem Tile.nil (a : Int) : Tile [] a a := by
  intro r
  have : ¬ (a ≤ r ∧ r < a) := by omega
  simp [this]

theorem Tile.perm {l m : List (Int × Int)} {a b : Int} (h : Tile l a b) (hp : l.Perm m) : Tile m a b := by
  intro r
  rw [← hp.countP_eq]
  exact h r

theorem Tile.cons {l : List (Int × Int)} {a b c : Int} (h : Tile l b c) (h1 : a ≤ b) (h2 : b ≤ c) :
    Tile ((a, b) :: l) a c := by
  intro r
  rw [List.countP_cons, h r]
  simp only [decide_eq_true_eq]
  by_cases h3 : a ≤ r ∧ r < b
  · have h4 : ¬ (b ≤ r ∧ r < c) := by omega
    have h5 : a ≤ r ∧ r < c := by omega
    simp [h3, h4, h5]
  · by_cases h4 : b ≤ r ∧ r < c
    · have h5 : a ≤ r ∧ r < c := by omega
      simp [h3, h4, h5]
    · have h5 : ¬ (a ≤ r ∧ r < c) := by omega
      simp [h3, h4, h5]

theorem Tile.snoc {l : List (Int × Int)} {a b c : Int} (h : Tile l a b) (h1 : a ≤ b) (h2 : b ≤ c) :
    Tile ((b, c) :: l) a c := by
  intro r
  rw [List.countP_cons, h r]
  simp only [decide_eq_true_eq]
  by_cases h3 : b ≤ r ∧ r < c
  · have h4 : ¬ (a ≤ r ∧ r < b) := by omega
    have h5 : a ≤ r ∧ r < c := by omega
    simp [h3, h4, h5]
  · by_cases h4 : a ≤ r ∧ r < b
    · have h5 : a ≤ r ∧ r < c := by omega
      simp [h3, h4, h5]
    · have h5 : ¬ (a ≤ r ∧ r < c) := by omega
      simp [h3, h4, h5]

theorem Tile.append {l m : List (Int × Int)} {a b c : Int} (h : Tile l a b) (h' : Tile m b c) (h1 : a ≤ b)
    (h2 : b ≤ c) : Tile (l ++ m) a c := by
  intro r
  rw [List.countP_append, h r, h' r]
  by_cases h3 : a ≤ r ∧ r < b
  · have h4 : ¬ (b ≤ r ∧ r < c) := by omega
    have h5 : a ≤ r ∧ r < c := by omega
    simp [h3, h4, h5]
  · by_cases h4 : b ≤ r ∧ r < c
    · have h5 : a ≤ r ∧ r < c := by omega
      simp [h3, h4, h5]
    · have h5 : ¬ (a ≤ r ∧ r < c) := by omega
      simp [h3, h4, h5]

/-- Two intervals of a tiling, at different places of the list, have no row in common. -/
theorem Tile.disjoint {l : List (Int × Int)} {a b : Int} (h : Tile l a b) (i j : Nat) (hij : i < j)
    (hj : j < l.length) (r : Int) : ¬ ((l[i].1 ≤ r ∧ r < l[i].2) ∧ (l[j].1 ≤ r ∧ r < l[j].2)) := by
  rintro ⟨h1, h2⟩
  have hc := h r
  have hi : i < l.length := by omega
  have hdrop : l = l.take j ++ l[j] :: l.drop (j + 1) := by
    rw [List.getElem_cons_drop, List.take_append_drop]
  have hmem : l[i] ∈ l.take j := by
    rw [List.mem_take_iff_getElem]
    exact ⟨i, by omega, rfl⟩
  rw [hdrop, List.countP_append, List.countP_cons] at hc
  have hp : 0 < (l.take j).countP (fun i => decide (i.1 ≤ r ∧ r < i.2)) :=
    List.countP_pos_iff.2 ⟨l[i], hmem, by simpa using h1⟩
  have : (if (decide (l[j].1 ≤ r ∧ r < l[j].2)) = true then 1 else 0) = 1 := by simp [h2]
  rw [this] at hc
  split at hc <;> omega

/-! ## `push` and `erase` -/

theorem push_perm : ∀ (m : AMap) (c : Cstr) (a : Asg), c ∉ keys m → (AMap.push m c a).Perm ((c, [a]) :: m) := by
  intro m
  induction m with
  | nil => intro c a _; exact List.Perm.refl _
  | cons e m ih =>
    obtain ⟨d, l⟩ := e
    intro c a h
    have h1 : d ≠ c := fun hd => h (by simp [keys, hd])
    have h2 : c ∉ keys m := fun hm => h (by simp only [keys, List.map_cons] at hm ⊢; exact List.mem_cons_of_mem _ hm)
    simp only [AMap.push, if_neg h1]
    split
    · exact List.Perm.refl _
    · exact (List.Perm.cons _ (ih c a h2)).trans (List.Perm.swap ..)

theorem erase_perm (m : AMap) (c : Cstr) (hn : (keys m).Nodup) (hc : c ∈ keys m) :
    ∃ l, m.Perm ((c, l) :: m.erase c) := by
  induction m with
  | nil => simp [keys] at hc
  | cons e m ih =>
    obtain ⟨d, l⟩ := e
    simp only [keys, List.map_cons, List.nodup_cons] at hn
    by_cases h : d = c
    · subst h
      refine ⟨l, ?_⟩
      have : AMap.erase ((d, l) :: m) d = m := by
        simp only [AMap.erase, List.filter_cons, ne_eq, not_true, decide_false]
        rw [if_neg (by simp), List.filter_eq_self]
        intro e he
        have : e.1 ≠ d := fun h => hn.1 (by rw [← h]; exact List.mem_map_of_mem he)
        simpa using this
      rw [this]
    · have hc' : c ∈ keys m := by
        simp only [keys, List.map_cons, List.mem_cons] at hc
        rcases hc with hc | hc
        · exact absurd hc.symm h
        · exact hc
      obtain ⟨l', hp⟩ := ih hn.2 hc'
      refine ⟨l', ?_⟩
      have : AMap.erase ((d, l) :: m) c = (d, l) :: AMap.erase m c := by
        simp [AMap.erase, List.filter_cons, h]
      rw [this]
      exact (List.Perm.cons _ hp).trans (List.Perm.swap ..)

theorem keys_perm {m m' : AMap} (h : m.Perm m') : (keys m).Perm (keys m') := h.map _

theorem total_perm {size : Cstr → Nat} {m m' : AMap} (h : m.Perm m') : total size m = total size m' :=
  (h.map _).sum_nat

theorem rowsOf_perm {size : Cstr → Nat} {m m' : AMap} (h : m.Perm m') : (rowsOf size m).Perm (rowsOf size m') :=
  h.flatMap_right _

theorem keys_erase (m : AMap) (c d : Cstr) : d ∈ keys (m.erase c) ↔ (d ∈ keys m ∧ d ≠ c) := by
  simp only [keys, AMap.erase, List.mem_map, List.mem_filter]
  constructor
  · rintro ⟨e, ⟨h1, h2⟩, rfl⟩
    exact ⟨⟨e, h1, rfl⟩, by simpa using h2⟩
  · rintro ⟨⟨e, h1, rfl⟩, h2⟩
    exact ⟨e, ⟨h1, by simpa using h2⟩, rfl⟩

theorem keys_erase_nodup (m : AMap) (c : Cstr) (h : (keys m).Nodup) : (keys (m.erase c)).Nodup :=
  List.Nodup.sublist (List.Sublist.map _ List.filter_sublist) h

theorem single_erase {m : AMap} (h : Single m) (c : Cstr) : Single (m.erase c) :=
  fun e he => h e (List.mem_filter.1 he).1

theorem total_erase {size : Cstr → Nat} (m : AMap) (c : Cstr) (hn : (keys m).Nodup) (hc : c ∈ keys m) :
    total size m = size c + total size (m.erase c) := by
  obtain ⟨l, hp⟩ := erase_perm m c hn hc
  rw [total_perm hp]
  simp [total]

/-! ## `retarget`, `redirect` -/

theorem retarget_keys (start : Int → Int) (size : Cstr → Int) : ∀ (m : AMap) (cum : Int),
    keys (retarget start size cum m).2 = keys m := by
  intro m
  induction m with
  | nil => intro cum; rfl
  | cons e m ih => intro cum; simp only [retarget, keys, List.map_cons]; exact congrArg _ (ih _)

theorem retarget_sum (start : Int → Int) (size : Cstr → Nat) : ∀ (m : AMap) (cum : Int),
    (retarget start (fun c => (size c : Int)) cum m).1 = cum + total size m := by
  intro m
  induction m with
  | nil => intro cum; simp [retarget, total]
  | cons e m ih =>
    intro cum
    simp only [retarget, ih, total, List.map_cons, List.sum_cons]
    simp only [Int.natCast_add, Int.add_assoc]

theorem retarget_single (start : Int → Int) (size : Cstr → Int) : ∀ (m : AMap) (cum : Int), Single m →
    Single (retarget start size cum m).2 := by
  intro m
  induction m with
  | nil => intro cum _ e he; simp [retarget] at he
  | cons e m ih =>
    intro cum h e' he'
    obtain ⟨c, l⟩ := e
    simp only [retarget, List.mem_cons] at he'
    rcases he' with rfl | he'
    · obtain ⟨a, ha⟩ := h (c, l) (by simp)
      simp only at ha
      subst ha
      exact ⟨_, rfl⟩
    · exact ih _ (fun e he => h e (List.mem_cons_of_mem _ he)) e' he'

theorem retarget_tile (k : Int) (size : Cstr → Nat) : ∀ (m : AMap) (cum : Int), Single m →
    Tile (rowsOf size (retarget (fun x => x + k) (fun c => (size c : Int)) cum m).2) (cum + k)
      (cum + k + total size m) := by
  intro m
  induction m with
  | nil => intro cum _; simpa [retarget, rowsOf, total] using Tile.nil (cum + k)
  | cons e m ih =>
    intro cum h
    obtain ⟨c, l⟩ := e
    obtain ⟨a, ha⟩ := h (c, l) (by simp)
    simp only at ha
    subst ha
    have := ih (cum + size c) (fun e he => h e (List.mem_cons_of_mem _ he))
    have e1 : rowsOf size (retarget (fun x => x + k) (fun c => (size c : Int)) cum ((c, [a]) :: m)).2 =
        (cum + k, cum + k + size c) ::
          rowsOf size (retarget (fun x => x + k) (fun c => (size c : Int)) (cum + size c) m).2 := by
      simp [rowsOf, retarget]
    have e2 : cum + (size c : Int) + k = cum + k + size c := by omega
    have e3 : cum + k + (total size ((c, [a]) :: m) : Int) = cum + k + size c + total size m := by
      simp only [total, List.map_cons, List.sum_cons, Int.natCast_add]; omega
    rw [e1, e3]
    rw [e2] at this
    exact this.cons (by omega) (by omega)

theorem redirect_keys (v : View) (m : AMap) : keys (redirect v m) = keys m := by
  simp [keys, redirect, List.map_map, Function.comp_def]

theorem redirect_single (v : View) (m : AMap) (h : Single m) : Single (redirect v m) := by
  intro e he
  simp only [redirect, List.mem_map] at he
  obtain ⟨e', he', rfl⟩ := he
  obtain ⟨a, ha⟩ := h e' he'
  exact ⟨_, by simp only [ha, List.map_cons, List.map_nil]; rfl⟩

theorem redirect_rows (size : Cstr → Nat) (v : View) (m : AMap) : rowsOf size (redirect v m) = rowsOf size m := by
  simp [rowsOf, redirect, List.flatMap_map, Function.comp_def]

theorem total_keys (size : Cstr → Nat) (m : AMap) : total size m = ((keys m).map size).sum := by
  simp [total, keys, List.map_map, Function.comp_def]

theorem total_congr (size : Cstr → Nat) {m m' : AMap} (h : keys m = keys m') : total size m = total size m' := by
  rw [total_keys, total_keys, h]

theorem bounds_keys (vs : Cstr → Int) (m : AMap) : keys (retargetBounds vs m) = keys m := by
  simp [keys, retargetBounds, List.map_map, Function.comp_def]

/-! ## Invariants of the solver -/

/-- The maps have as keys the constraints, bounds and objectives of given sets, with one assignment each. -/
structure Maps (s : Solver) (C B O : Cstr → Prop) : Prop where
  nodupE : (keys s.eq).Nodup
  nodupI : (keys s.ineq).Nodup
  nodupB : (keys s.bnd).Nodup
  nodupO : (keys s.obj).Nodup
  memE : ∀ c, c ∈ keys s.eq ↔ (C c ∧ c.isEquality = true)
  memI : ∀ c, c ∈ keys s.ineq ↔ (C c ∧ c.isEquality = false)
  memB : ∀ c, c ∈ keys s.bnd ↔ B c
  memO : ∀ c, c ∈ keys s.obj ↔ O c
  singleE : Single s.eq
  singleI : Single s.ineq
  singleB : Single s.bnd
  singleO : Single s.obj

/-- The announced numbers of rows are those of the maps. -/
structure Counts (s : Solver) : Prop where
  eq : s.nEq = total (constraintSize s.kind) s.eq
  ineq : s.nIneq = total (constraintSize s.kind) s.ineq
  obj : s.nObj = total (·.size) s.obj

/-- The accumulated numbers of rows are those of the maps. -/
structure Sizes (s : Solver) : Prop where
  eq : s.eqSize = total (constraintSize s.kind) s.eq
  ineq : s.ineqSize = total (constraintSize s.kind) s.ineq
  obj : s.objSize = total (·.size) s.obj

/-- Rows of equality and inequality constraints. -/
def CstrTiles (s : Solver) : Prop :=
  (s.kind.joint = true →
    Tile (rowsOf (constraintSize s.kind) s.eq ++ rowsOf (constraintSize s.kind) s.ineq) 0 (s.eqSize + s.ineqSize)) ∧
  (s.kind.joint = false →
    Tile (rowsOf (constraintSize s.kind) s.eq) 0 s.eqSize ∧ Tile (rowsOf (constraintSize s.kind) s.ineq) 0 s.ineqSize)

/-- Rows of the objectives. -/
def ObjTiles (s : Solver) : Prop := Tile (rowsOf (·.size) s.obj) 0 s.objSize

/-- Rows of the bounds. -/
def BndStarts (s : Solver) (vs : Cstr → Int) : Prop := ∀ e ∈ s.bnd, ∀ a ∈ e.2, a.start = vs e.1

theorem push_keys_nodup {m : AMap} {c : Cstr} {a : Asg} (hn : (keys m).Nodup) (hc : c ∉ keys m) :
    (keys (m.push c a)).Nodup := by
  rw [(keys_perm (push_perm m c a hc)).nodup_iff]
  simp only [keys, List.map_cons, List.nodup_cons]
  exact ⟨hc, hn⟩

theorem push_keys_mem {m : AMap} {c : Cstr} {a : Asg} (hc : c ∉ keys m) (d : Cstr) :
    d ∈ keys (m.push c a) ↔ (d = c ∨ d ∈ keys m) := by
  rw [(keys_perm (push_perm m c a hc)).mem_iff]
  simp [keys]

theorem push_mem {m : AMap} {c : Cstr} {a : Asg} (hc : c ∉ keys m) (e : Cstr × List Asg) :
    e ∈ m.push c a ↔ (e = (c, [a]) ∨ e ∈ m) := by
  rw [(push_perm m c a hc).mem_iff]; simp

theorem push_single {m : AMap} {c : Cstr} {a : Asg} (h : Single m) (hc : c ∉ keys m) : Single (m.push c a) := by
  intro e he
  rcases (push_mem hc e).1 he with rfl | he
  · exact ⟨a, rfl⟩
  · exact h e he

theorem push_total {size : Cstr → Nat} {m : AMap} {c : Cstr} {a : Asg} (hc : c ∉ keys m) :
    total size (m.push c a) = size c + total size m := by
  rw [total_perm (push_perm m c a hc)]; simp [total]

theorem push_rows {size : Cstr → Nat} {m : AMap} {c : Cstr} {a : Asg} (hc : c ∉ keys m) :
    ((a.start, a.start + (size c : Int)) :: rowsOf size m).Perm (rowsOf size (m.push c a)) := by
  refine List.Perm.symm ((rowsOf_perm (push_perm m c a hc)).trans ?_)
  simp [rowsOf]

/-- Everything that holds of a solver between two calls. -/
structure Lay (s : Solver) (C B O : Cstr → Prop) (vs : Cstr → Int) : Prop where
  maps : Maps s C B O
  sizes : Sizes s
  cstr : CstrTiles s
  obj : ObjTiles s
  bnd : BndStarts s vs

theorem Lay.addConstraint {s : Solver} {C B O : Cstr → Prop} {vs : Cstr → Int} (h : Lay s C B O vs) (c : Cstr)
    (hc : ¬ C c) : Lay (s.addConstraint c) (fun d => C d ∨ d = c) B O vs := by
  obtain ⟨hm, hs, ht, ho, hb⟩ := h
  have hE := hs.eq
  have hI := hs.ineq
  by_cases he : c.isEquality = true
  · have hk : c ∉ keys s.eq := fun hk => hc ((hm.memE c).1 hk).1
    have e : s.addConstraint c = { s with eq := s.eq.push c ⟨s.nextEq, s.views.eq⟩, eqSize := s.eqSize + constraintSize s.kind c } := by
      simp only [Solver.addConstraint, if_pos he]
    rw [e]
    refine ⟨⟨push_keys_nodup hm.nodupE hk, hm.nodupI, hm.nodupB, hm.nodupO, fun d => ?_, fun d => ?_, hm.memB, hm.memO,
      push_single hm.singleE hk, hm.singleI, hm.singleB, hm.singleO⟩, ⟨?_, hs.ineq, hs.obj⟩, ⟨fun hj => ?_, fun hj => ?_⟩,
      ho, hb⟩
    · simp only [push_keys_mem hk, hm.memE]
      constructor
      · rintro (rfl | h)
        · exact ⟨Or.inr rfl, he⟩
        · exact ⟨Or.inl h.1, h.2⟩
      · rintro ⟨h | h, h2⟩
        · exact Or.inr ⟨h, h2⟩
        · exact Or.inl h
    · simp only [hm.memI]
      constructor
      · exact fun h => ⟨Or.inl h.1, h.2⟩
      · rintro ⟨h | rfl, h2⟩
        · exact ⟨h, h2⟩
        · rw [he] at h2; exact absurd h2 (by simp)
    · simp only [push_total hk, hE]; omega
    · simp only at hj
      have := ht.1 hj
      have h1 : s.nextEq = s.eqSize + s.ineqSize := by simp [Solver.nextEq, hj]
      have h2 := this.snoc (c := s.eqSize + s.ineqSize + constraintSize s.kind c) (by omega) (by omega)
      have h3 : s.eqSize + (constraintSize s.kind c : Int) + s.ineqSize = s.eqSize + s.ineqSize + constraintSize s.kind c := by
        omega
      simp only [h3]
      refine h2.perm ?_
      rw [← List.cons_append, ← h1]
      exact List.Perm.append_right _ (push_rows (a := ⟨s.nextEq, s.views.eq⟩) hk)
    · simp only at hj
      have := ht.2 hj
      have h1 : s.nextEq = s.eqSize := by simp [Solver.nextEq, hj]
      have h2 := this.1.snoc (c := s.eqSize + constraintSize s.kind c) (by omega) (by omega)
      refine ⟨h2.perm ?_, this.2⟩
      rw [← h1]
      exact push_rows (a := ⟨s.nextEq, s.views.eq⟩) hk
  · have he' : c.isEquality = false := by simpa using he
    have hk : c ∉ keys s.ineq := fun hk => hc ((hm.memI c).1 hk).1
    have e : s.addConstraint c = { s with ineq := s.ineq.push c ⟨s.nextIneq, s.views.ineq⟩, ineqSize := s.ineqSize + constraintSize s.kind c } := by
      simp only [Solver.addConstraint, if_neg he]
    rw [e]
    refine ⟨⟨hm.nodupE, push_keys_nodup hm.nodupI hk, hm.nodupB, hm.nodupO, fun d => ?_, fun d => ?_, hm.memB, hm.memO,
      hm.singleE, push_single hm.singleI hk, hm.singleB, hm.singleO⟩, ⟨hs.eq, ?_, hs.obj⟩, ⟨fun hj => ?_, fun hj => ?_⟩,
      ho, hb⟩
    · simp only [hm.memE]
      constructor
      · exact fun h => ⟨Or.inl h.1, h.2⟩
      · rintro ⟨h | rfl, h2⟩
        · exact ⟨h, h2⟩
        · exact absurd h2 he
    · simp only [push_keys_mem hk, hm.memI]
      constructor
      · rintro (rfl | h)
        · exact ⟨Or.inr rfl, he'⟩
        · exact ⟨Or.inl h.1, h.2⟩
      · rintro ⟨h | h, h2⟩
        · exact Or.inr ⟨h, h2⟩
        · exact Or.inl h
    · simp only [push_total hk, hI]; omega
    · simp only at hj
      have := ht.1 hj
      have h1 : s.nextIneq = s.eqSize + s.ineqSize := by simp [Solver.nextIneq, hj]
      have h2 := this.snoc (c := s.eqSize + s.ineqSize + constraintSize s.kind c) (by omega) (by omega)
      have h3 : s.eqSize + (s.ineqSize + (constraintSize s.kind c : Int)) = s.eqSize + s.ineqSize + constraintSize s.kind c := by
        omega
      simp only [h3]
      refine h2.perm ?_
      refine (List.perm_middle.symm).trans (List.Perm.append_left _ ?_)
      rw [← h1]
      exact push_rows (a := ⟨s.nextIneq, s.views.ineq⟩) hk
    · simp only at hj
      have := ht.2 hj
      have h1 : s.nextIneq = s.ineqSize := by simp [Solver.nextIneq, hj]
      have h2 := this.2.snoc (c := s.ineqSize + constraintSize s.kind c) (by omega) (by omega)
      refine ⟨this.1, h2.perm ?_⟩
      rw [← h1]
      exact push_rows (a := ⟨s.nextIneq, s.views.ineq⟩) hk

theorem Lay.addObjective {s : Solver} {C B O : Cstr → Prop} {vs : Cstr → Int} (h : Lay s C B O vs) (o : Objective)
    (hc : ¬ O o.c) : Lay (s.addObjective o) C B (fun d => O d ∨ d = o.c) vs := by
  obtain ⟨hm, hs, ht, ho, hb⟩ := h
  have hO := hs.obj
  have hk : o.c ∉ keys s.obj := fun hk => hc ((hm.memO _).1 hk)
  refine ⟨⟨hm.nodupE, hm.nodupI, hm.nodupB, push_keys_nodup hm.nodupO hk, hm.memE, hm.memI, hm.memB, fun d => ?_,
    hm.singleE, hm.singleI, hm.singleB, push_single hm.singleO hk⟩, ⟨hs.eq, hs.ineq, ?_⟩, ht, ?_, hb⟩
  · simp only [Solver.addObjective, push_keys_mem hk, hm.memO]
    exact or_comm
  · simp only [Solver.addObjective, push_total hk, hO]; omega
  · have h2 := Tile.snoc ho (c := s.objSize + o.c.size) (by omega) (by omega)
    exact h2.perm (push_rows (a := ⟨s.objSize, s.views.obj⟩) hk)

theorem Lay.addBound {s : Solver} {C B O : Cstr → Prop} {vs : Cstr → Int} (h : Lay s C B O vs) (c : Cstr)
    (hc : ¬ B c) : Lay (s.addBound vs c) C (fun d => B d ∨ d = c) O vs := by
  obtain ⟨hm, hs, ht, ho, hb⟩ := h
  have hk : c ∉ keys s.bnd := fun hk => hc ((hm.memB _).1 hk)
  refine ⟨⟨hm.nodupE, hm.nodupI, push_keys_nodup hm.nodupB hk, hm.nodupO, hm.memE, hm.memI, fun d => ?_, hm.memO,
    hm.singleE, hm.singleI, push_single hm.singleB hk, hm.singleO⟩, ⟨hs.eq, hs.ineq, hs.obj⟩, ht, ho, ?_⟩
  · simp only [Solver.addBound, push_keys_mem hk, hm.memB]
    exact or_comm
  · intro e he a ha
    rcases (push_mem hk e).1 he with rfl | he
    · simp only [List.mem_cons, List.not_mem_nil, or_false] at ha; rw [ha]
    · exact hb e he a ha

end Verif.LS
