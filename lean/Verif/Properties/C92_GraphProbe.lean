import Verif.Model.GraphProbe
import Verif.Properties.C91_GraphLog

/-!
# C92: the trees of the probe show what the selected outputs depend upon

The specification uses the vertices and the logged dependencies of C91.
-/

set_option autoImplicit false
set_option linter.unusedSectionVars false

namespace Verif.C92
open Verif.GL Verif.GP Verif.C91

/-! ## Specification -/

/-- An output is followed only if it passes the test, an update always. -/
def Ok (sel : Out → Bool) : Vtx → Prop
  | .out a i => sel ⟨i, a⟩ = true
  | .upd _ _ => True

/-- What is to be explored from `v₀`: what can be reached without going through an output that does not pass. -/
def Explored (l : Log) (sel : Out → Bool) (v₀ : Vtx) : Vtx → Prop :=
  Reach (fun v v' => Link l v v' ∧ Ok sel v') (fun v => v = v₀ ∧ Ok sel v)

/-- What `v` depends upon, in the order of the log. -/
def targets (l : Log) : Vtx → List Vtx
  | .out a o => (l.dirDeps.filter fun d => decide (d.owner = a ∧ d.output = o)).map (fun d => .out d.source d.input) ++
      (l.outDeps.filter fun d => decide (d.owner = a ∧ d.output = o)).map (fun d => .upd d.owner d.update)
  | .upd a u => (l.inDeps.filter fun d => decide (d.owner = a ∧ d.update = u)).map (fun d => .out d.source d.input) ++
      (l.intDeps.filter fun d => decide (d.owner = a ∧ d.dst = u)).map (fun d => .upd d.owner d.src)

/-- The vertex of a node of the tree. -/
def lab : PV → Vtx
  | .out o => .out o.owner o.id
  | .upd u => .upd u.owner u.id

/-- The vertices of the first nodes. -/
def tops : Forest → List Vtx
  | .nil => []
  | .node v _ r => lab v :: tops r

/-- The vertices of all nodes. -/
def labels : Forest → List Vtx
  | .nil => []
  | .node v c r => lab v :: (labels c ++ labels r)

/-- The nodes that have children, with the vertices of their children. -/
def expansions : Forest → List (Vtx × List Vtx)
  | .nil => []
  | .node v c r => (if tops c = [] then [] else [(lab v, tops c)]) ++ (expansions c ++ expansions r)

/-- The property holds of all nodes. -/
def All (P : PV → Prop) : Forest → Prop
  | .nil => True
  | .node v c r => P v ∧ All P c ∧ All P r

/-! ## One loop over all dependencies -/

/-- A dependency: what depends, upon what, and the result of the search in the log. -/
abbrev GD := Vtx × Vtx × Option PV

/-- All dependencies of the log. -/
def gdeps (l : Log) : List GD :=
  l.dirDeps.map (fun d => (.out d.owner d.output, .out d.source d.input, (resD l (allOutputs l) d).map .out)) ++
  (l.outDeps.map (fun d => (.out d.owner d.output, .upd d.owner d.update, (findUpdate l.updates d).map .upd)) ++
  (l.inDeps.map (fun d => (.upd d.owner d.update, .out d.source d.input, (resI l (allOutputs l) d).map .out)) ++
  l.intDeps.map (fun d => (.upd d.owner d.dst, .upd d.owner d.src, (findFromUpdate l.updates d).map .upd))))

def gch (f : PV → Proc → PRes) (v : Vtx) (ds : List GD) (p : Proc) : PRes :=
  children f (fun d => decide (d.1 = v)) (fun d => d.2.2) ds p

theorem ch_map {D : Type} (f : PV → Proc → PRes) (v : Vtx) (sel : D → Bool) (res : D → Option PV) (g : D → GD)
    (h1 : ∀ d, sel d = decide ((g d).1 = v)) (h2 : ∀ d, res d = (g d).2.2) (ds : List D) :
    ∀ p, children f sel res ds p = gch f v (ds.map g) p := by
  induction ds with
  | nil => intro p; rfl
  | cons d ds ih =>
    intro p
    unfold gch at ih ⊢
    simp only [List.map_cons, children, h1 d, h2 d, ih]

theorem append_nil (f : Forest) : f.append .nil = f := by
  induction f with
  | nil => rfl
  | node v c r _ ih => simp only [Forest.append, ih]

theorem ch_append (f : PV → Proc → PRes) (v : Vtx) (as bs : List GD) :
    ∀ p, gch f v (as ++ bs) p = andThen (gch f v as p) (gch f v bs) := by
  induction as with
  | nil =>
    intro p
    simp only [gch, List.nil_append, children, andThen]
    cases children f (fun d : GD => decide (d.1 = v)) (fun d => d.2.2) bs p <;> rfl
  | cons d as ih =>
    intro p
    unfold gch at ih ⊢
    simp only [List.cons_append, children]
    by_cases hs : decide (d.1 = v) = true
    · rw [if_pos hs, if_pos hs]
      cases d.2.2 with
      | none => rfl
      | some w =>
        simp only
        cases f w p with
        | throw => rfl
        | more => rfl
        | done c p1 =>
          simp only [ih p1]
          cases children f (fun d : GD => decide (d.1 = v)) (fun d => d.2.2) as p1 with
          | throw => rfl
          | more => rfl
          | done c2 p2 =>
            simp only [andThen]
            cases children f (fun d : GD => decide (d.1 = v)) (fun d => d.2.2) bs p2 <;> rfl
    · rw [if_neg hs, if_neg hs]
      exact ih p

theorem ch_none (f : PV → Proc → PRes) (v : Vtx) (ds : List GD) (h : ∀ d ∈ ds, d.1 ≠ v) :
    ∀ p, gch f v ds p = .done .nil p := by
  induction ds with
  | nil => intro p; rfl
  | cons d ds ih =>
    intro p
    have hd : ¬ decide (d.1 = v) = true := by simpa using h d List.mem_cons_self
    have := ih (fun e he => h e (List.mem_cons_of_mem _ he)) p
    unfold gch at this ⊢
    simp only [children, if_neg hd, this]

theorem andThen_nil (x : PRes) : andThen x (fun p => .done .nil p) = x := by
  cases x <;> simp [andThen, append_nil]

theorem andThen_left (k : Proc → PRes) (p : Proc) : andThen (.done .nil p) k = k p := by
  simp only [andThen]
  cases k p <;> rfl

/-- The visit does nothing. -/
def Skip (sel : Out → Bool) (p : Proc) : PV → Prop
  | .out o => o ∈ p.outs ∨ sel o = false
  | .upd u => u ∈ p.upds

instance (sel : Out → Bool) (p : Proc) (v : PV) : Decidable (Skip sel p v) := by
  cases v <;> unfold Skip <;> infer_instance

def mark (p : Proc) : PV → Proc
  | .out o => ⟨o :: p.outs, p.upds⟩
  | .upd u => ⟨p.outs, u :: p.upds⟩

theorem visit_eq (l : Log) (sel : Out → Bool) (n : Nat) (v : PV) (p : Proc) :
    visit l (allOutputs l) sel (n + 1) v p =
      if Skip sel p v then .done .nil p else gch (visit l (allOutputs l) sel n) (lab v) (gdeps l) (mark p v) := by
  cases v with
  | out o =>
    by_cases h : o ∈ p.outs ∨ sel o = false
    · have h' : Skip sel p (.out o) := h
      simp only [visit, if_pos h', if_pos h]
    · have h' : ¬Skip sel p (.out o) := h
      simp only [visit, if_neg h', if_neg h, mark, lab]
      unfold gdeps
      rw [ch_append, ch_map _ (.out o.owner o.id) _ _
        (fun d : DirDep => (.out d.owner d.output, .out d.source d.input, (resD l (allOutputs l) d).map .out))
        (fun d => by simp) (fun d => rfl)]
      congr 1
      funext p1
      rw [ch_append, ch_map _ (.out o.owner o.id) _ _
        (fun d : OutDep => (.out d.owner d.output, .upd d.owner d.update, (findUpdate l.updates d).map .upd))
        (fun d => by simp) (fun d => rfl)]
      have hz : ∀ X : List GD, (∀ d ∈ X, d.1 ≠ .out o.owner o.id) →
          gch (visit l (allOutputs l) sel n) (.out o.owner o.id) X = fun p => .done .nil p :=
        fun X h => funext (ch_none _ _ X h)
      rw [hz (_ ++ _) ?_, andThen_nil]
      intro d hd
      rcases List.mem_append.mp hd with hd | hd
      · obtain ⟨e, _, rfl⟩ := List.mem_map.mp hd
        simp
      · obtain ⟨e, _, rfl⟩ := List.mem_map.mp hd
        simp
  | upd u =>
    by_cases h : u ∈ p.upds
    · have h' : Skip sel p (.upd u) := h
      simp only [visit, if_pos h', if_pos h]
    · have h' : ¬Skip sel p (.upd u) := h
      simp only [visit, if_neg h', if_neg h, mark, lab]
      unfold gdeps
      rw [ch_append, ch_none _ (.upd u.owner u.id) (l.dirDeps.map _) (fun d hd => by
        obtain ⟨e, _, rfl⟩ := List.mem_map.mp hd
        simp), andThen_left, ch_append, ch_none _ (.upd u.owner u.id) (l.outDeps.map _) (fun d hd => by
        obtain ⟨e, _, rfl⟩ := List.mem_map.mp hd
        simp), andThen_left, ch_append, ch_map _ (.upd u.owner u.id) _ _
        (fun d : InDep => (.upd d.owner d.update, .out d.source d.input, (resI l (allOutputs l) d).map .out))
        (fun d => by simp) (fun d => rfl)]
      congr 1
      funext p1
      rw [ch_map _ (.upd u.owner u.id) _ _
        (fun d : IntDep => (.upd d.owner d.dst, .upd d.owner d.src, (findFromUpdate l.updates d).map .upd))
        (fun d => by simp) (fun d => rfl)]

/-! ## What the dependencies are -/

theorem gd_link (l : Log) (d : GD) (hd : d ∈ gdeps l) : Link l d.1 d.2.1 := by
  simp only [gdeps, List.mem_append, List.mem_map] at hd
  rcases hd with ⟨e, he, rfl⟩ | ⟨e, he, rfl⟩ | ⟨e, he, rfl⟩ | ⟨e, he, rfl⟩
  · exact .outOut e he
  · exact .outUpd e he
  · exact .updOut e he
  · exact .updUpd e he

/-- The update is the one the searches find. -/
def Known (l : Log) : PV → Prop
  | .out _ => True
  | .upd u => Canon l u

theorem gd_some (l : Log) (d : GD) (hd : d ∈ gdeps l) (w : PV) (h : d.2.2 = some w) : lab w = d.2.1 ∧ Known l w := by
  simp only [gdeps, List.mem_append, List.mem_map] at hd
  rcases hd with ⟨e, he, rfl⟩ | ⟨e, he, rfl⟩ | ⟨e, he, rfl⟩ | ⟨e, he, rfl⟩
  · obtain ⟨o, ho, rfl⟩ := Option.map_eq_some_iff.mp h
    obtain ⟨rfl, _⟩ := resD_some l e o ho
    exact ⟨rfl, trivial⟩
  · obtain ⟨u, hu, rfl⟩ := Option.map_eq_some_iff.mp h
    obtain ⟨_, h1, h2, h3⟩ := findUpdate_some l e u hu
    exact ⟨by simp only [lab, h1, h2], h3⟩
  · obtain ⟨o, ho, rfl⟩ := Option.map_eq_some_iff.mp h
    obtain ⟨rfl, _⟩ := resI_some l e o ho
    exact ⟨rfl, trivial⟩
  · obtain ⟨u, hu, rfl⟩ := Option.map_eq_some_iff.mp h
    obtain ⟨_, h1, h2, h3⟩ := findFrom_some l e u hu
    exact ⟨by simp only [lab, h1, h2], h3⟩

theorem gd_none (l : Log) (sel : Out → Bool) (d : GD) (hd : d ∈ gdeps l) (h : d.2.2 = none) :
    Missing l d.1 ∨ (Missing l d.2.1 ∧ Ok sel d.2.1) := by
  simp only [gdeps, List.mem_append, List.mem_map] at hd
  rcases hd with ⟨e, he, rfl⟩ | ⟨e, he, rfl⟩ | ⟨e, he, rfl⟩ | ⟨e, he, rfl⟩
  · exact .inl (.direct e he (resD_none l e (Option.map_eq_none_iff.mp h)))
  · exact .inr ⟨.update _ _ (findUpdate_none l e (Option.map_eq_none_iff.mp h)), trivial⟩
  · exact .inl (.input e he (resI_none l e (Option.map_eq_none_iff.mp h)))
  · exact .inr ⟨.update _ _ (findFrom_none l e (Option.map_eq_none_iff.mp h)), trivial⟩

theorem gd_whole (l : Log) (v : PV) (hv : Known l v) (h : ∀ d ∈ gdeps l, d.1 = lab v → d.2.2 ≠ none) :
    ¬Missing l (lab v) := by
  intro hm
  cases v with
  | out o =>
    generalize hx : lab (.out o) = x at hm
    cases hm with
    | update a i _ => cases hx
    | input d _ _ => cases hx
    | direct d hd hn =>
      have hmem : ((.out d.owner d.output, .out d.source d.input, (resD l (allOutputs l) d).map .out) : GD) ∈ gdeps l :=
        List.mem_append_left _ (List.mem_map.mpr ⟨d, hd, rfl⟩)
      cases hr : resD l (allOutputs l) d with
      | none => exact h _ hmem hx.symm (by simp only [hr, Option.map_none])
      | some o' =>
        obtain ⟨_, x, hxm, hk⟩ := resD_some l d o' hr
        exact hn x hxm hk
  | upd u =>
    generalize hx : lab (.upd u) = x at hm
    cases hm with
    | direct d _ _ => cases hx
    | update a i hn =>
      injection hx with h1 h2
      exact hn u (List.mem_of_find?_eq_some hv) ⟨h1, h2⟩
    | input d hd hn =>
      have hmem : ((.upd d.owner d.update, .out d.source d.input, (resI l (allOutputs l) d).map .out) : GD) ∈ gdeps l :=
        List.mem_append_right _ (List.mem_append_right _ (List.mem_append_left _ (List.mem_map.mpr ⟨d, hd, rfl⟩)))
      cases hr : resI l (allOutputs l) d with
      | none => exact h _ hmem hx.symm (by simp only [hr, Option.map_none])
      | some o' =>
        obtain ⟨_, x, hxm, hk⟩ := resI_some l d o' hr
        exact hn x hxm hk

theorem filter_map_head {D : Type} (g : D → GD) (s : D → Bool) (t : D → Vtx) (v : Vtx)
    (h1 : ∀ d, s d = decide ((g d).1 = v)) (h2 : ∀ d, (g d).2.1 = t d) (ds : List D) :
    ((ds.map g).filter fun d => decide (d.1 = v)).map (fun d => d.2.1) = (ds.filter s).map t := by
  induction ds with
  | nil => rfl
  | cons d ds ih =>
    by_cases h : s d = true
    · rw [List.map_cons, List.filter_cons_of_pos (by rw [← h1]; exact h), List.filter_cons_of_pos h, List.map_cons,
        List.map_cons, ih, h2]
    · rw [List.map_cons, List.filter_cons_of_neg (by rw [← h1]; exact h), List.filter_cons_of_neg h, ih]

theorem filter_no {D : Type} (ds : List D) : ds.filter (fun _ => false) = [] := by
  induction ds with
  | nil => rfl
  | cons d ds ih => exact ih

theorem gd_targets (l : Log) (v : Vtx) : ((gdeps l).filter fun d => decide (d.1 = v)).map (fun d => d.2.1) = targets l v := by
  unfold gdeps
  simp only [List.filter_append, List.map_append]
  cases v with
  | out a o =>
    rw [filter_map_head _ (fun d : DirDep => decide (d.owner = a ∧ d.output = o)) (fun d => .out d.source d.input) _
        (fun d => by simp) (fun d => rfl),
      filter_map_head _ (fun d : OutDep => decide (d.owner = a ∧ d.output = o)) (fun d => .upd d.owner d.update) _
        (fun d => by simp) (fun d => rfl),
      filter_map_head _ (fun d : InDep => false) (fun d => .out d.source d.input) _
        (fun d => by simp) (fun d => rfl),
      filter_map_head _ (fun d : IntDep => false) (fun d => .upd d.owner d.src) _
        (fun d => by simp) (fun d => rfl)]
    simp [targets, filter_no]
  | upd a u =>
    rw [filter_map_head _ (fun d : DirDep => false) (fun d => .out d.source d.input) _
        (fun d => by simp) (fun d => rfl),
      filter_map_head _ (fun d : OutDep => false) (fun d => .upd d.owner d.update) _
        (fun d => by simp) (fun d => rfl),
      filter_map_head _ (fun d : InDep => decide (d.owner = a ∧ d.update = u)) (fun d => .out d.source d.input) _
        (fun d => by simp) (fun d => rfl),
      filter_map_head _ (fun d : IntDep => decide (d.owner = a ∧ d.dst = u)) (fun d => .upd d.owner d.src) _
        (fun d => by simp) (fun d => rfl)]
    simp [targets, filter_no]

theorem gd_length (l : Log) : (gdeps l).length = l.size := by
  unfold gdeps Log.size
  simp only [List.length_append, List.length_map]
  omega

/-! ## The visit -/

/-- The vertex has been processed. -/
def inb (p : Proc) : Vtx → Bool
  | .out a i => decide ((⟨i, a⟩ : Out) ∈ p.outs)
  | .upd a i => p.upds.any fun u => decide (u.owner = a ∧ u.id = i)

def CanonP (l : Log) (p : Proc) : Prop := ∀ u ∈ p.upds, Canon l u

theorem inb_mark (p : Proc) (v : PV) (x : Vtx) : inb (mark p v) x = true ↔ x = lab v ∨ inb p x = true := by
  cases v with
  | out o =>
    cases x with
    | out a i =>
      simp only [mark, inb, lab, decide_eq_true_eq, List.mem_cons, Vtx.out.injEq]
      constructor
      · rintro (rfl | h)
        · exact .inl ⟨rfl, rfl⟩
        · exact .inr h
      · rintro (⟨rfl, rfl⟩ | h)
        · exact .inl rfl
        · exact .inr h
    | upd a i => simp [mark, inb, lab]
  | upd u =>
    cases x with
    | out a i => exact ⟨fun h => .inr h, fun h => h.resolve_left (by simp [lab])⟩
    | upd a i =>
      simp only [mark, inb, lab, List.any_cons, Bool.or_eq_true, decide_eq_true_eq, Vtx.upd.injEq]
      constructor
      · rintro (⟨h1, h2⟩ | h)
        · exact .inl ⟨h1.symm, h2.symm⟩
        · exact .inr h
      · rintro (⟨h1, h2⟩ | h)
        · exact .inl ⟨h1.symm, h2.symm⟩
        · exact .inr h

theorem not_skip (l : Log) (sel : Out → Bool) (p : Proc) (hp : CanonP l p) (v : PV) (hv : Known l v) (h : ¬Skip sel p v) :
    inb p (lab v) = false ∧ Ok sel (lab v) := by
  cases v with
  | out o =>
    simp only [Skip, not_or, Bool.not_eq_false] at h
    exact ⟨decide_eq_false h.1, h.2⟩
  | upd u =>
    refine ⟨?_, trivial⟩
    simp only [inb, lab, List.any_eq_false, decide_eq_true_eq]
    intro w hw hk
    have : w = u := (hp w hw).unique hv hk.1 hk.2
    subst this
    exact h hw

theorem skip_in (sel : Out → Bool) (p : Proc) (v : PV) (h : Skip sel p v) (ho : Ok sel (lab v)) : inb p (lab v) = true := by
  cases v with
  | out o =>
    rcases h with h | h
    · exact decide_eq_true h
    · simp only [Ok, lab] at ho
      rw [h] at ho
      cases ho
  | upd u => exact List.any_eq_true.mpr ⟨u, h, by simp⟩

/-- The dependencies of what has not been processed. -/
def mu (l : Log) (p : Proc) : Nat := ((gdeps l).filter fun d => !inb p d.1).length

theorem filter_le {D : Type} (P Q : D → Bool) (ds : List D) (h : ∀ d ∈ ds, P d = true → Q d = true) :
    (ds.filter P).length ≤ (ds.filter Q).length := by
  induction ds with
  | nil => exact Nat.le_refl _
  | cons d ds ih =>
    have ih := ih fun e he => h e (List.mem_cons_of_mem _ he)
    by_cases hp : P d = true
    · rw [List.filter_cons_of_pos hp, List.filter_cons_of_pos (h d List.mem_cons_self hp)]
      simpa using ih
    · rw [List.filter_cons_of_neg hp]
      by_cases hq : Q d = true
      · rw [List.filter_cons_of_pos hq, List.length_cons]; omega
      · rw [List.filter_cons_of_neg hq]; exact ih

theorem filter_lt {D : Type} (P Q : D → Bool) (ds : List D) (h : ∀ d ∈ ds, P d = true → Q d = true) (e : D) (he : e ∈ ds)
    (h1 : P e = false) (h2 : Q e = true) : (ds.filter P).length < (ds.filter Q).length := by
  induction ds with
  | nil => cases he
  | cons d ds ih =>
    have hr : ∀ d ∈ ds, P d = true → Q d = true := fun x hx => h x (List.mem_cons_of_mem _ hx)
    have hle := filter_le P Q ds hr
    rcases List.mem_cons.mp he with rfl | he
    · rw [List.filter_cons_of_neg (by simp [h1]), List.filter_cons_of_pos h2, List.length_cons]
      omega
    · have ih := ih hr he
      by_cases hp : P d = true
      · rw [List.filter_cons_of_pos hp, List.filter_cons_of_pos (h d List.mem_cons_self hp)]
        simpa using ih
      · rw [List.filter_cons_of_neg hp]
        by_cases hq : Q d = true
        · rw [List.filter_cons_of_pos hq, List.length_cons]; omega
        · rw [List.filter_cons_of_neg hq]; exact ih

def Mono (p p' : Proc) : Prop := ∀ x, inb p x = true → inb p' x = true

theorem mu_mono (l : Log) (p p' : Proc) (h : Mono p p') : mu l p' ≤ mu l p := by
  refine filter_le _ _ _ fun d _ hd => ?_
  cases hp : inb p d.1 with
  | false => rfl
  | true => rw [h _ hp] at hd; exact hd

def New (p p' : Proc) (x : Vtx) : Prop := inb p' x = true ∧ inb p x = false

/-- The nodes with children are those of the vertices processed meanwhile, each once, with all their children. -/
def Ex (l : Log) (p p' : Proc) (f : Forest) : Prop :=
  ((expansions f).map Prod.fst).Nodup ∧
  ∀ x cs, (x, cs) ∈ expansions f ↔ New p p' x ∧ cs = targets l x ∧ cs ≠ []

/-- What is said of the vertices processed meanwhile. -/
def Closed (l : Log) (sel : Out → Bool) (p p' : Proc) : Prop :=
  ∀ x, New p p' x → ¬Missing l x ∧ ∀ y ∈ targets l x, Ok sel y → inb p' y = true

theorem explored_step {l : Log} {sel : Out → Bool} {v w x : Vtx} (hv : Ok sel v) (hl : Link l v w)
    (h : Explored l sel w x) : Explored l sel v x := by
  induction h with
  | start x hx =>
    obtain ⟨rfl, ho⟩ := hx
    exact .link v _ (.start v ⟨rfl, hv⟩) ⟨hl, ho⟩
  | link x y _ hxy ih => exact .link x y ih hxy

def VSpec (l : Log) (sel : Out → Bool) (v : PV) (p : Proc) : PRes → Prop
  | .more => False
  | .throw => ∃ x, Explored l sel (lab v) x ∧ Missing l x
  | .done f p' => Mono p p' ∧ CanonP l p' ∧ (Ok sel (lab v) → inb p' (lab v) = true) ∧
      (∀ x, New p p' x → Explored l sel (lab v) x) ∧ Closed l sel p p' ∧ Ex l p p' (.node v f .nil) ∧ All (Known l) f

def CSpec (l : Log) (sel : Out → Bool) (v : Vtx) (ds : List GD) (p : Proc) : PRes → Prop
  | .more => False
  | .throw => (∃ d ∈ ds, d.1 = v ∧ d.2.2 = none) ∨ ∃ d ∈ ds, d.1 = v ∧ ∃ x, Explored l sel d.2.1 x ∧ Missing l x
  | .done f p' => Mono p p' ∧ CanonP l p' ∧ tops f = (ds.filter fun d => decide (d.1 = v)).map (fun d => d.2.1) ∧
      (∀ d ∈ ds, d.1 = v → d.2.2 ≠ none ∧ (Ok sel d.2.1 → inb p' d.2.1 = true)) ∧
      (∀ x, New p p' x → ∃ d ∈ ds, d.1 = v ∧ Explored l sel d.2.1 x) ∧
      Closed l sel p p' ∧ Ex l p p' f ∧ All (Known l) f

theorem ex_node (l : Log) (p p1 p2 : Proc) (w : PV) (c r : Forest) (m1 : Mono p p1) (m2 : Mono p1 p2)
    (h1 : Ex l p p1 (.node w c .nil)) (h2 : Ex l p1 p2 r) : Ex l p p2 (.node w c r) := by
  have e : expansions (.node w c r) = expansions (.node w c .nil) ++ expansions r := by
    simp only [expansions, List.append_nil, List.append_assoc]
  obtain ⟨n1, k1⟩ := h1
  obtain ⟨n2, k2⟩ := h2
  unfold Ex
  rw [e]
  constructor
  · rw [List.map_append]
    refine List.nodup_append.mpr ⟨n1, n2, ?_⟩
    intro x hx y hy hxy
    subst hxy
    obtain ⟨⟨x', cs⟩, h3, rfl⟩ := List.mem_map.mp hx
    obtain ⟨⟨y', cs'⟩, h4, h5⟩ := List.mem_map.mp hy
    simp only at h5
    subst h5
    have a := ((k1 y' cs).mp h3).1
    have b := ((k2 y' cs').mp h4).1
    have := a.1
    rw [b.2] at this
    cases this
  · intro x cs
    rw [List.mem_append, k1, k2]
    constructor
    · rintro (⟨⟨a, b⟩, h⟩ | ⟨⟨a, b⟩, h⟩)
      · exact ⟨⟨m2 x a, b⟩, h⟩
      · refine ⟨⟨a, ?_⟩, h⟩
        cases hp : inb p x with
        | false => rfl
        | true => rw [m1 x hp] at b; cases b
    · rintro ⟨⟨a, b⟩, h⟩
      cases hp : inb p1 x with
      | false => exact .inr ⟨⟨a, hp⟩, h⟩
      | true => exact .inl ⟨⟨hp, b⟩, h⟩

theorem new_split {p p1 p2 : Proc} {x : Vtx} (h : New p p2 x) : New p p1 x ∨ New p1 p2 x := by
  cases hp : inb p1 x with
  | false => exact .inr ⟨h.1, hp⟩
  | true => exact .inl ⟨hp, h.2⟩

theorem ch_spec (l : Log) (sel : Out → Bool) (n : Nat) (f : PV → Proc → PRes) (v : Vtx)
    (hf : ∀ (w : PV) (p : Proc), CanonP l p → Known l w → mu l p < n → VSpec l sel w p (f w p)) :
    ∀ (ds : List GD), (∀ d ∈ ds, d ∈ gdeps l) → ∀ p : Proc, CanonP l p → ((∃ d ∈ ds, d.1 = v) → mu l p < n) →
      CSpec l sel v ds p (gch f v ds p) := by
  intro ds
  induction ds with
  | nil =>
    intro _ p hp _
    refine ⟨fun x h => h, hp, rfl, fun d hd => (by cases hd), fun x h => ?_, fun x h => ?_, ⟨by simp [expansions], fun x cs => ?_⟩,
      trivial⟩
    · rw [New, h.2] at h; exact absurd h.1 (by simp)
    · rw [New, h.2] at h; exact absurd h.1 (by simp)
    · constructor
      · intro h; cases h
      · rintro ⟨⟨a, b⟩, _⟩
        rw [a] at b; cases b
  | cons d ds ih =>
    intro hg p hp hm
    have hg' : ∀ e ∈ ds, e ∈ gdeps l := fun e he => hg e (List.mem_cons_of_mem _ he)
    by_cases hs : d.1 = v
    · have hs' : decide (d.1 = v) = true := decide_eq_true hs
      have hmu : mu l p < n := hm ⟨d, List.mem_cons_self, hs⟩
      cases hr : d.2.2 with
      | none =>
        have e : gch f v (d :: ds) p = .throw := by simp only [gch, children, if_pos hs', hr]
        rw [e]
        exact .inl ⟨d, List.mem_cons_self, hs, hr⟩
      | some w =>
        obtain ⟨hl, hk⟩ := gd_some l d (hg d List.mem_cons_self) w hr
        have hv := hf w p hp hk hmu
        cases hw : f w p with
        | more => rw [hw] at hv; exact hv.elim
        | throw =>
          rw [hw] at hv
          have e : gch f v (d :: ds) p = .throw := by simp only [gch, children, if_pos hs', hr, hw]
          rw [e]
          rw [VSpec, hl] at hv
          exact .inr ⟨d, List.mem_cons_self, hs, hv⟩
        | done c p1 =>
          rw [hw] at hv
          obtain ⟨v1, v2, v3, v4, v5, v6, v7⟩ := hv
          rw [hl] at v3 v4
          have hc := ih hg' p1 v2 fun _ => Nat.lt_of_le_of_lt (mu_mono l p p1 v1) hmu
          cases hx : gch f v ds p1 with
          | more => rw [hx] at hc; exact hc.elim
          | throw =>
            rw [hx] at hc
            have e : gch f v (d :: ds) p = .throw := by
              unfold gch at hx ⊢
              simp only [children, if_pos hs', hr, hw, hx]
            rw [e]
            rcases hc with ⟨y, hy, h⟩ | ⟨y, hy, h⟩
            · exact .inl ⟨y, List.mem_cons_of_mem _ hy, h⟩
            · exact .inr ⟨y, List.mem_cons_of_mem _ hy, h⟩
          | done r p2 =>
            rw [hx] at hc
            obtain ⟨c1, c2, c3, c4, c5, c6, c7, c8⟩ := hc
            have e : gch f v (d :: ds) p = .done (.node w c r) p2 := by
              unfold gch at hx ⊢
              simp only [children, if_pos hs', hr, hw, hx]
            rw [e]
            refine ⟨fun x h => c1 x (v1 x h), c2, ?_, ?_, ?_, ?_, ex_node l p p1 p2 w c r v1 c1 v6 c7, ⟨hk, v7, c8⟩⟩
            · rw [List.filter_cons_of_pos (p := fun d : GD => decide (d.1 = v)) hs', List.map_cons, tops, c3, hl]
            · intro y hy hyv
              rcases List.mem_cons.mp hy with rfl | hy
              · exact ⟨by rw [hr]; simp, fun ho => c1 _ (v3 ho)⟩
              · exact c4 y hy hyv
            · intro x hxn
              rcases new_split (p1 := p1) hxn with h | h
              · exact ⟨d, List.mem_cons_self, hs, v4 x h⟩
              · obtain ⟨y, hy, h'⟩ := c5 x h
                exact ⟨y, List.mem_cons_of_mem _ hy, h'⟩
            · intro x hxn
              rcases new_split (p1 := p1) hxn with h | h
              · exact ⟨(v5 x h).1, fun y hy ho => c1 y ((v5 x h).2 y hy ho)⟩
              · exact c6 x h
    · have hs' : ¬decide (d.1 = v) = true := by simpa using hs
      have e : gch f v (d :: ds) p = gch f v ds p := by simp only [gch, children, if_neg hs']
      rw [e]
      have hc := ih hg' p hp fun ⟨y, hy, h⟩ => hm ⟨y, List.mem_cons_of_mem _ hy, h⟩
      cases hx : gch f v ds p with
      | more => rw [hx] at hc; exact hc.elim
      | throw =>
        rw [hx] at hc
        rcases hc with ⟨y, hy, h⟩ | ⟨y, hy, h⟩
        · exact .inl ⟨y, List.mem_cons_of_mem _ hy, h⟩
        · exact .inr ⟨y, List.mem_cons_of_mem _ hy, h⟩
      | done r p2 =>
        rw [hx] at hc
        obtain ⟨c1, c2, c3, c4, c5, c6, c7, c8⟩ := hc
        refine ⟨c1, c2, ?_, ?_, ?_, c6, c7, c8⟩
        · rw [List.filter_cons_of_neg (p := fun d : GD => decide (d.1 = v)) hs', c3]
        · intro y hy hyv
          rcases List.mem_cons.mp hy with rfl | hy
          · exact absurd hyv hs
          · exact c4 y hy hyv
        · intro x hxn
          obtain ⟨y, hy, h'⟩ := c5 x hxn
          exact ⟨y, List.mem_cons_of_mem _ hy, h'⟩

theorem visit_spec (l : Log) (sel : Out → Bool) : ∀ (n : Nat) (v : PV) (p : Proc), CanonP l p → Known l v →
    mu l p < n → VSpec l sel v p (visit l (allOutputs l) sel n v p) := by
  intro n
  induction n with
  | zero => intro v p _ _ h; exact absurd h (Nat.not_lt_zero _)
  | succ n ih =>
    intro v p hp hk hm
    rw [visit_eq]
    by_cases hs : Skip sel p v
    · rw [if_pos hs]
      have hno : ∀ x, ¬New p p x := fun x h => by
        have := h.1
        rw [h.2] at this
        cases this
      refine ⟨fun x h => h, hp, skip_in sel p v hs, fun x h => absurd h (hno x), fun x h => absurd h (hno x),
        ⟨by simp [expansions, tops], fun x cs => ?_⟩, trivial⟩
      constructor
      · intro h; simp [expansions, tops] at h
      · rintro ⟨h, _⟩; exact absurd h (hno x)
    · rw [if_neg hs]
      obtain ⟨hin, hok⟩ := not_skip l sel p hp v hk hs
      have hp1 : CanonP l (mark p v) := by
        intro u hu
        cases v with
        | out o => exact hp u hu
        | upd w =>
          rcases List.mem_cons.mp hu with rfl | hu
          · exact hk
          · exact hp u hu
      have m1 : Mono p (mark p v) := fun x h => (inb_mark p v x).mpr (.inr h)
      have hmu : (∃ d ∈ gdeps l, d.1 = lab v) → mu l (mark p v) < n := by
        rintro ⟨d, hd, hdv⟩
        have : mu l (mark p v) < mu l p := by
          refine filter_lt _ _ _ (fun e _ he => ?_) d hd ?_ ?_
          · cases hpe : inb p e.1 with
            | false => rfl
            | true => rw [m1 _ hpe] at he; exact he
          · rw [(inb_mark p v d.1).mpr (.inl hdv)]; rfl
          · rw [hdv, hin]; rfl
        omega
      have hc := ch_spec l sel n (visit l (allOutputs l) sel n) (lab v) ih (gdeps l) (fun _ h => h) (mark p v) hp1 hmu
      cases hx : gch (visit l (allOutputs l) sel n) (lab v) (gdeps l) (mark p v) with
      | more => rw [hx] at hc; exact hc.elim
      | throw =>
        rw [hx] at hc
        rcases hc with ⟨d, hd, hdv, hn⟩ | ⟨d, hd, hdv, x, hx, hmx⟩
        · have hl := gd_link l d hd
          rcases gd_none l sel d hd hn with h | ⟨h, ho⟩
          · exact ⟨lab v, .start _ ⟨rfl, hok⟩, by rw [← hdv]; exact h⟩
          · refine ⟨d.2.1, .link (lab v) _ (.start _ ⟨rfl, hok⟩) ⟨?_, ho⟩, h⟩
            rw [← hdv]; exact hl
        · have hl := gd_link l d hd
          rw [hdv] at hl
          exact ⟨x, explored_step hok hl hx, hmx⟩
      | done f p' =>
        rw [hx] at hc
        obtain ⟨c1, c2, c3, c4, c5, c6, c7, c8⟩ := hc
        rw [gd_targets] at c3
        have hv' : inb p' (lab v) = true := c1 _ ((inb_mark p v _).mpr (.inl rfl))
        have hsp : ∀ x, New p p' x → x = lab v ∨ New (mark p v) p' x := by
          intro x h
          cases hq : inb (mark p v) x with
          | false => exact .inr ⟨h.1, hq⟩
          | true =>
            rcases (inb_mark p v x).mp hq with h' | h'
            · exact .inl h'
            · rw [h.2] at h'; cases h'
        have hnv : ¬New (mark p v) p' (lab v) := fun h => by
          have := h.2
          rw [(inb_mark p v _).mpr (.inl rfl)] at this
          cases this
        have hsp' : ∀ x, New (mark p v) p' x → New p p' x := by
          intro x h
          refine ⟨h.1, ?_⟩
          cases hq : inb p x with
          | false => rfl
          | true => have := h.2; rw [m1 x hq] at this; cases this
        refine ⟨fun x h => c1 x (m1 x h), c2, fun _ => hv', ?_, ?_, ?_, c8⟩
        · intro x h
          rcases hsp x h with rfl | h
          · exact .start _ ⟨rfl, hok⟩
          · obtain ⟨d, hd, hdv, he⟩ := c5 x h
            have hl := gd_link l d hd
            rw [hdv] at hl
            exact explored_step hok hl he
        · intro x h
          rcases hsp x h with rfl | h
          · refine ⟨gd_whole l v hk fun d hd hdv => (c4 d hd hdv).1, fun y hy ho => ?_⟩
            rw [← gd_targets] at hy
            obtain ⟨d, hd, rfl⟩ := List.mem_map.mp hy
            rw [List.mem_filter, decide_eq_true_eq] at hd
            exact (c4 d hd.1 hd.2).2 ho
          · exact c6 x h
        · obtain ⟨n1, k1⟩ := c7
          constructor
          · simp only [expansions, List.append_nil]
            by_cases ht : tops f = []
            · rw [if_pos ht]; exact n1
            · rw [if_neg ht]
              simp only [List.cons_append, List.nil_append, List.map_cons]
              refine List.nodup_cons.mpr ⟨fun hmem => ?_, n1⟩
              obtain ⟨⟨x, cs⟩, h, hxl⟩ := List.mem_map.mp hmem
              simp only at hxl
              subst hxl
              exact hnv ((k1 _ cs).mp h).1
          · intro x cs
            simp only [expansions, List.append_nil, List.mem_append, k1]
            constructor
            · rintro (h | ⟨h, h'⟩)
              · by_cases ht : tops f = []
                · rw [if_pos ht] at h; cases h
                · rw [if_neg ht, List.mem_singleton] at h
                  injection h with h1 h2
                  subst h1
                  subst h2
                  exact ⟨⟨hv', hin⟩, c3, ht⟩
              · exact ⟨hsp' x h, h'⟩
            · rintro ⟨h, h', h''⟩
              rcases hsp x h with rfl | h
              · left
                subst h'
                rw [if_neg (by rw [c3]; exact h''), c3]
                exact List.mem_singleton.mpr rfl
              · exact .inr ⟨h, h', h''⟩

/-! ## The theorems -/

theorem follow_spec (l : Log) (sel : Out → Bool) (o : Out) : VSpec l sel (.out o) ⟨[], []⟩ (followUp l sel o) := by
  refine visit_spec l sel _ _ _ (fun u hu => by cases hu) trivial ?_
  have := List.length_filter_le (fun d : GD => !inb ⟨[], []⟩ d.1) (gdeps l)
  rw [gd_length] at this
  unfold mu depth
  omega

theorem new_empty (p : Proc) (x : Vtx) : New ⟨[], []⟩ p x ↔ inb p x = true := by
  refine ⟨fun h => h.1, fun h => ⟨h, ?_⟩⟩
  cases x <;> simp [inb]

theorem link_targets (l : Log) (v v' : Vtx) : Link l v v' ↔ v' ∈ targets l v := by
  rw [← gd_targets]
  constructor
  · intro h
    have : ∃ d ∈ gdeps l, d.1 = v ∧ d.2.1 = v' := by
      unfold gdeps
      cases h with
      | outUpd d hd => exact ⟨_, List.mem_append_right _ (List.mem_append_left _ (List.mem_map.mpr ⟨d, hd, rfl⟩)), rfl, rfl⟩
      | outOut d hd => exact ⟨_, List.mem_append_left _ (List.mem_map.mpr ⟨d, hd, rfl⟩), rfl, rfl⟩
      | updOut d hd =>
        exact ⟨_, List.mem_append_right _ (List.mem_append_right _ (List.mem_append_left _ (List.mem_map.mpr ⟨d, hd, rfl⟩))),
          rfl, rfl⟩
      | updUpd d hd =>
        exact ⟨_, List.mem_append_right _ (List.mem_append_right _ (List.mem_append_right _ (List.mem_map.mpr ⟨d, hd, rfl⟩))),
          rfl, rfl⟩
    obtain ⟨d, hd, h1, h2⟩ := this
    exact List.mem_map.mpr ⟨d, List.mem_filter.mpr ⟨hd, decide_eq_true h1⟩, h2⟩
  · intro h
    obtain ⟨d, hd, rfl⟩ := List.mem_map.mp h
    rw [List.mem_filter, decide_eq_true_eq] at hd
    rw [← hd.2]
    exact gd_link l d hd.1

theorem explored_in (l : Log) (sel : Out → Bool) (o : Out) (f : Forest) (p : Proc)
    (h : followUp l sel o = .done f p) (x : Vtx) : Explored l sel (.out o.owner o.id) x ↔ inb p x = true := by
  have hs := follow_spec l sel o
  rw [h] at hs
  obtain ⟨_, _, h3, h4, h5, _, _⟩ := hs
  constructor
  · intro hx
    induction hx with
    | start v hv =>
      obtain ⟨rfl, ho⟩ := hv
      exact h3 ho
    | link v v' _ hl ih =>
      exact (h5 v ((new_empty p v).mpr ih)).2 v' ((link_targets l v v').mp hl.1) hl.2
  · exact fun hx => h4 x ((new_empty p x).mpr hx)

/-- **C92 (it ends).**  On every log, cyclic ones included, following up an output ends, with calls nested at most one
more deep than there are logged dependencies. -/
theorem C92_terminates (l : Log) (sel : Out → Bool) (o : Out) : followUp l sel o ≠ .more := by
  have hs := follow_spec l sel o
  intro h
  rw [h] at hs
  exact hs

/-- **C92 (what the tree shows).**  The nodes of the tree that have children are, each once, the vertices to explore
that depend upon something, and their children are all that they depend upon, in the order of the log. -/
theorem C92_tree (l : Log) (sel : Out → Bool) (o : Out) (f : Forest) (p : Proc)
    (h : followUp l sel o = .done f p) :
    ((expansions (.node (.out o) f .nil)).map Prod.fst).Nodup ∧
    ∀ x cs, (x, cs) ∈ expansions (.node (.out o) f .nil) ↔
      Explored l sel (.out o.owner o.id) x ∧ cs = targets l x ∧ cs ≠ [] := by
  have hs := follow_spec l sel o
  rw [h] at hs
  obtain ⟨_, _, _, _, _, h6, _⟩ := hs
  refine ⟨h6.1, fun x cs => ?_⟩
  rw [h6.2, new_empty, explored_in l sel o f p h]

theorem labels_spec (f : Forest) (x : Vtx) : x ∈ labels f ↔ x ∈ tops f ∨ ∃ e ∈ expansions f, x ∈ e.2 := by
  induction f with
  | nil => simp [labels, tops, expansions]
  | node v c r ihc ihr =>
    simp only [labels, tops, expansions, List.mem_cons, List.mem_append, ihc, ihr]
    constructor
    · rintro (rfl | (h | ⟨e, he, h⟩) | h | ⟨e, he, h⟩)
      · exact .inl (.inl rfl)
      · refine .inr ⟨(lab v, tops c), .inl ?_, h⟩
        rw [if_neg (fun hn => by rw [hn] at h; cases h)]
        exact List.mem_singleton.mpr rfl
      · exact .inr ⟨e, .inr (.inl he), h⟩
      · exact .inl (.inr h)
      · exact .inr ⟨e, .inr (.inr he), h⟩
    · rintro ((rfl | h) | ⟨e, he | he | he, h⟩)
      · exact .inl rfl
      · exact .inr (.inr (.inl h))
      · by_cases ht : tops c = []
        · rw [if_pos ht] at he; cases he
        · rw [if_neg ht, List.mem_singleton] at he
          subst he
          exact .inr (.inl (.inl h))
      · exact .inr (.inl (.inr ⟨e, he, h⟩))
      · exact .inr (.inr (.inr ⟨e, he, h⟩))

/-- **C92 (which vertices are in the tree).**  The output itself, and what the explored vertices depend upon: outputs
that do not pass the test appear, without children, below what depends upon them. -/
theorem C92_labels (l : Log) (sel : Out → Bool) (o : Out) (f : Forest) (p : Proc)
    (h : followUp l sel o = .done f p) (x : Vtx) :
    x ∈ labels (.node (.out o) f .nil) ↔
      x = .out o.owner o.id ∨ ∃ y, Explored l sel (.out o.owner o.id) y ∧ Link l y x := by
  rw [labels_spec]
  have ht := (C92_tree l sel o f p h).2
  constructor
  · rintro (h1 | ⟨⟨y, cs⟩, he, h1⟩)
    · exact .inl (List.mem_singleton.mp h1)
    · obtain ⟨a, rfl, c⟩ := (ht y cs).mp he
      exact .inr ⟨y, a, (link_targets l y x).mpr h1⟩
  · rintro (rfl | ⟨y, hy, hl⟩)
    · exact .inl List.mem_cons_self
    · have hm := (link_targets l y x).mp hl
      exact .inr ⟨(y, targets l y), (ht _ _).mpr ⟨hy, rfl, fun hn => by rw [hn] at hm; cases hm⟩, hm⟩

theorem all_known (l : Log) (f : Forest) (h : All (Known l) f) : All (fun v => ∀ u, v = .upd u → u ∈ l.updates) f := by
  induction f with
  | nil => trivial
  | node v c r ihc ihr =>
    refine ⟨?_, ihc h.2.1, ihr h.2.2⟩
    rintro u rfl
    exact List.mem_of_find?_eq_some h.1

/-- **C92 (the updates of the tree are logged).** -/
theorem C92_logged (l : Log) (sel : Out → Bool) (o : Out) (f : Forest) (p : Proc)
    (h : followUp l sel o = .done f p) : All (fun v => ∀ u, v = .upd u → u ∈ l.updates) f := by
  have hs := follow_spec l sel o
  rw [h] at hs
  exact all_known l f hs.2.2.2.2.2.2

/-- **C92 (when it throws).**  Following up an output throws when, and only when, a vertex to explore is not wholly in
the log. -/
theorem C92_throws (l : Log) (sel : Out → Bool) (o : Out) :
    followUp l sel o = .throw ↔ ∃ x, Explored l sel (.out o.owner o.id) x ∧ Missing l x := by
  have hs := follow_spec l sel o
  cases h : followUp l sel o with
  | more => rw [h] at hs; exact hs.elim
  | throw => rw [h] at hs; exact ⟨fun _ => hs, fun _ => rfl⟩
  | done f p =>
    have he := explored_in l sel o f p h
    rw [h] at hs
    obtain ⟨_, _, _, _, h5, _, _⟩ := hs
    refine ⟨fun h' => (by cases h'), fun ⟨x, hx, hm⟩ => ?_⟩
    exact absurd hm (h5 x ((new_empty p x).mpr ((he x).mp hx))).1

theorem labels_length (f : Forest) :
    (labels f).length = (tops f).length + ((expansions f).map fun e => e.2.length).sum := by
  induction f with
  | nil => rfl
  | node v c r ihc ihr =>
    simp only [labels, tops, expansions, List.length_cons, List.length_append, List.map_append, List.sum_append, ihc, ihr]
    by_cases ht : tops c = []
    · rw [if_pos ht, ht]
      simp only [List.length_nil, List.map_nil, List.sum_nil]
      omega
    · rw [if_neg ht]
      simp only [List.map_cons, List.map_nil, List.sum_cons, List.sum_nil]
      omega

theorem sum_targets : ∀ (es : List Vtx) (ds : List GD), es.Nodup →
    (es.map fun x => (ds.filter fun d => decide (d.1 = x)).length).sum ≤ ds.length := by
  intro es
  induction es with
  | nil => intro ds _; simp
  | cons x es ih =>
    intro ds hn
    rw [List.nodup_cons] at hn
    have h1 := ih (ds.filter fun d => !decide (d.1 = x)) hn.2
    have h2 : ∀ y ∈ es, ((ds.filter fun d => !decide (d.1 = x)).filter fun d => decide (d.1 = y)).length =
        (ds.filter fun d => decide (d.1 = y)).length := by
      intro y hy
      rw [List.filter_filter]
      congr 1
      apply List.filter_congr
      intro d _
      by_cases hd : d.1 = y
      · have : ¬y = x := fun h => hn.1 (h ▸ hy)
        simp [hd, this]
      · simp [hd]
    rw [List.map_congr_left h2] at h1
    have h3 : (ds.filter fun d => decide (d.1 = x)).length + (ds.filter fun d => !decide (d.1 = x)).length = ds.length := by
      clear h1 h2 ih
      induction ds with
      | nil => rfl
      | cons d ds ih =>
        by_cases hd : d.1 = x
        · rw [List.filter_cons_of_pos (by simp [hd]), List.filter_cons_of_neg (by simp [hd])]
          simp only [List.length_cons]
          omega
        · rw [List.filter_cons_of_neg (by simp [hd]), List.filter_cons_of_pos (by simp [hd])]
          simp only [List.length_cons]
          omega
    simp only [List.map_cons, List.sum_cons]
    omega

/-- **C92 (the size of the tree).**  The tree has at most one node more than there are dependencies in the log. -/
theorem C92_size (l : Log) (sel : Out → Bool) (o : Out) (f : Forest) (p : Proc) (h : followUp l sel o = .done f p) :
    (labels (.node (.out o) f .nil)).length ≤ 1 + l.size := by
  obtain ⟨h1, h2⟩ := C92_tree l sel o f p h
  rw [labels_length]
  generalize expansions (.node (.out o) f .nil) = es at h1 h2
  have h3 : es.map (fun e => e.2.length) = (es.map Prod.fst).map fun x =>
      ((gdeps l).filter fun d => decide (d.1 = x)).length := by
    rw [List.map_map]
    apply List.map_congr_left
    rintro ⟨x, cs⟩ he
    obtain ⟨_, rfl, _⟩ := (h2 x cs).mp he
    simp only [Function.comp_apply]
    rw [← gd_targets, List.length_map]
  rw [h3]
  have := sum_targets (es.map Prod.fst) (gdeps l) h1
  rw [gd_length] at this
  simp only [tops, List.length_cons, List.length_nil]
  omega

/-- **C92 (all outputs).**  With a test that all outputs pass, the vertices of the tree are those of the sub graph that
the log gives for the output. -/
theorem C92_same (l : Log) (sel : Out → Bool) (hsel : ∀ o, sel o = true) (o : Out) :
    (followUp l sel o = .throw ↔ subGraphOut l o = .throw) ∧
    ∀ f p os us, followUp l sel o = .done f p → subGraphOut l o = .done os us →
      ∀ x, x ∈ labels (.node (.out o) f .nil) ↔ In os us x := by
  have hok : ∀ v, Ok sel v := fun v => by cases v with
    | out a i => exact hsel _
    | upd a i => trivial
  have he : ∀ x, Explored l sel (.out o.owner o.id) x ↔ Reach (Link l) (fun v => v = .out o.owner o.id) x := by
    intro x
    constructor
    · intro h
      induction h with
      | start v hv => exact .start v hv.1
      | link v v' _ hl ih => exact .link v v' ih hl.1
    · intro h
      induction h with
      | start v hv => exact .start v ⟨hv, hok v⟩
      | link v v' _ hl ih => exact .link v v' ih ⟨hl, hok v'⟩
  obtain ⟨_, h2, h3⟩ := C91_output l o
  refine ⟨?_, fun f p os us hf hs x => ?_⟩
  · rw [C92_throws, h3]
    exact ⟨fun ⟨x, a, b⟩ => ⟨x, (he x).mp a, b⟩, fun ⟨x, a, b⟩ => ⟨x, (he x).mpr a, b⟩⟩
  · rw [C92_labels l sel o f p hf, (h2 os us hs).2.2.2.1]
    constructor
    · rintro (rfl | ⟨y, hy, hl⟩)
      · exact .start _ rfl
      · exact .link y x ((he y).mp hy) hl
    · intro h
      cases h with
      | start _ hv => exact .inl hv
      | link y _ hy hl => exact .inr ⟨y, (he y).mpr hy, hl⟩

theorem children_congr {D : Type} (f g : PV → Proc → PRes) (sel : D → Bool) (res : D → Option PV)
    (h : ∀ w p, f w p ≠ .more → g w p = f w p) (ds : List D) :
    ∀ p, children f sel res ds p ≠ .more → children g sel res ds p = children f sel res ds p := by
  induction ds with
  | nil => intro p _; rfl
  | cons d ds ih =>
    intro p hn
    by_cases hs : sel d = true
    · cases hr : res d with
      | none => simp only [children, if_pos hs, hr]
      | some w =>
        cases hf : f w p with
        | more => simp only [children, if_pos hs, hr, hf] at hn; exact absurd rfl hn
        | throw => simp only [children, if_pos hs, hr, hf, h w p (by rw [hf]; simp)]
        | done c p1 =>
          have hc : children f sel res ds p1 ≠ .more := by
            intro hc
            simp only [children, if_pos hs, hr, hf, hc] at hn
            exact hn rfl
          simp only [children, if_pos hs, hr, hf, h w p (by rw [hf]; simp), ih p1 hc]
    · simp only [children, if_neg hs] at hn ⊢
      exact ih p hn

theorem visit_more (l : Log) (sel : Out → Bool) : ∀ (n : Nat) (v : PV) (p : Proc),
    visit l (allOutputs l) sel n v p ≠ .more → visit l (allOutputs l) sel (n + 1) v p = visit l (allOutputs l) sel n v p := by
  intro n
  induction n with
  | zero => intro v p h; exact absurd rfl h
  | succ n ih =>
    intro v p h
    rw [visit_eq l sel n] at h ⊢
    rw [visit_eq l sel (n + 1)]
    by_cases hs : Skip sel p v
    · rw [if_pos hs, if_pos hs]
    · rw [if_neg hs] at h ⊢
      rw [if_neg hs]
      exact children_congr _ _ _ _ (fun w q hq => ih w q hq) _ _ h

/-- **C92 (the bound on nesting has no effect).**  Any deeper nesting gives the same result. -/
theorem C92_depth (l : Log) (sel : Out → Bool) (o : Out) (k : Nat) :
    visit l (allOutputs l) sel (depth l + k) (.out o) ⟨[], []⟩ = followUp l sel o := by
  induction k with
  | zero => rfl
  | succ k ih =>
    rw [← Nat.add_assoc, visit_more, ih]
    rw [ih]
    exact C92_terminates l sel o

/-! ## Graphs -/

theorem roots_spec (l : Log) (sel : Out → Bool) : ∀ ss : List Out,
    (∀ r, roots l sel ss = some r →
      tops r = (ss.filter sel).map (fun o => .out o.owner o.id) ∧
      ∀ o ∈ ss, sel o = true → ∃ c p, followUp l sel o = .done c p) ∧
    (roots l sel ss = none ↔ ∃ o ∈ ss, sel o = true ∧ followUp l sel o = .throw) := by
  intro ss
  induction ss with
  | nil =>
    refine ⟨fun r h => ?_, by simp [roots]⟩
    obtain rfl : Forest.nil = r := by simpa [roots] using h
    exact ⟨rfl, fun o ho => by cases ho⟩
  | cons o ss ih =>
    obtain ⟨ih1, ih2⟩ := ih
    by_cases hs : sel o = true
    · cases hf : followUp l sel o with
      | more => exact absurd hf (C92_terminates l sel o)
      | throw =>
        have e : roots l sel (o :: ss) = none := by simp only [roots, if_pos hs, hf]
        rw [e]
        exact ⟨fun r h => (by cases h), ⟨fun _ => ⟨o, List.mem_cons_self, hs, hf⟩, fun _ => rfl⟩⟩
      | done c p =>
        have e : roots l sel (o :: ss) = (roots l sel ss).map fun r => .node (.out o) c r := by
          simp only [roots, if_pos hs, hf]
        rw [e]
        refine ⟨fun r h => ?_, ?_⟩
        · obtain ⟨r', hr', rfl⟩ := Option.map_eq_some_iff.mp h
          obtain ⟨a, b⟩ := ih1 r' hr'
          refine ⟨by rw [List.filter_cons_of_pos hs, List.map_cons, tops, a, lab], fun y hy hsy => ?_⟩
          rcases List.mem_cons.mp hy with rfl | hy
          · exact ⟨c, p, hf⟩
          · exact b y hy hsy
        · rw [Option.map_eq_none_iff, ih2]
          constructor
          · rintro ⟨y, hy, h⟩
            exact ⟨y, List.mem_cons_of_mem _ hy, h⟩
          · rintro ⟨y, hy, h1, h2⟩
            rcases List.mem_cons.mp hy with rfl | hy
            · rw [hf] at h2; cases h2
            · exact ⟨y, hy, h1, h2⟩
    · have e : roots l sel (o :: ss) = roots l sel ss := by simp only [roots, if_neg hs]
      rw [e]
      refine ⟨fun r h => ?_, ?_⟩
      · obtain ⟨a, b⟩ := ih1 r h
        refine ⟨by rw [List.filter_cons_of_neg hs, a], fun y hy hsy => ?_⟩
        rcases List.mem_cons.mp hy with rfl | hy
        · exact absurd hsy hs
        · exact b y hy hsy
      · rw [ih2]
        constructor
        · rintro ⟨y, hy, h⟩
          exact ⟨y, List.mem_cons_of_mem _ hy, h⟩
        · rintro ⟨y, hy, h1, h2⟩
          rcases List.mem_cons.mp hy with rfl | hy
          · exact absurd h1 hs
          · exact ⟨y, hy, h1, h2⟩

/-- The trees of the forest, one by one. -/
def trees : Forest → List (PV × Forest)
  | .nil => []
  | .node v c r => (v, c) :: trees r

theorem roots_trees (l : Log) (sel : Out → Bool) : ∀ (ss : List Out) (r : Forest), roots l sel ss = some r →
    ∀ t ∈ trees r, ∃ o ∈ ss, sel o = true ∧ t.1 = .out o ∧ ∃ p, followUp l sel o = .done t.2 p := by
  intro ss
  induction ss with
  | nil =>
    intro r h t ht
    obtain rfl : Forest.nil = r := by simpa [roots] using h
    cases ht
  | cons o ss ih =>
    intro r h t ht
    by_cases hs : sel o = true
    · cases hf : followUp l sel o with
      | more => exact absurd hf (C92_terminates l sel o)
      | throw => simp only [roots, if_pos hs, hf] at h; cases h
      | done c p =>
        have e : roots l sel (o :: ss) = (roots l sel ss).map fun r => .node (.out o) c r := by
          simp only [roots, if_pos hs, hf]
        rw [e] at h
        obtain ⟨r', hr', rfl⟩ := Option.map_eq_some_iff.mp h
        rcases List.mem_cons.mp ht with rfl | ht
        · exact ⟨o, List.mem_cons_self, hs, rfl, p, hf⟩
        · obtain ⟨y, hy, h⟩ := ih r' hr' t ht
          exact ⟨y, List.mem_cons_of_mem _ hy, h⟩
    · have e : roots l sel (o :: ss) = roots l sel ss := by simp only [roots, if_neg hs]
      rw [e] at h
      obtain ⟨y, hy, h⟩ := ih r h t ht
      exact ⟨y, List.mem_cons_of_mem _ hy, h⟩

/-- **C92 (the trees of a graph).**  Following up a graph throws when the graph is not in the log, or when a vertex to
explore from one of its outputs that pass the test is not wholly in the log, and only then.  Otherwise there is a tree
for each output of the graph that passes the test and for no other, and each tree is the one of its output. -/
theorem C92_graph (l : Log) (sel : Out → Bool) (g : Nat) :
    (followUpGraph l sel g = none ↔ l.graphs g = none ∨ ∃ a i, GStart l g (.out a i) ∧
      ∃ x, Explored l sel (.out a i) x ∧ Missing l x) ∧
    ∀ r, followUpGraph l sel g = some r →
      (∀ v, v ∈ tops r ↔ GStart l g v ∧ Ok sel v) ∧
      ∀ t ∈ trees r, ∃ o p, t.1 = .out o ∧ followUp l sel o = .done t.2 p := by
  cases hg : l.graphs g with
  | none =>
    have e : followUpGraph l sel g = none := by unfold followUpGraph; simp only [hg]
    rw [e]
    exact ⟨⟨fun _ => .inl rfl, fun _ => rfl⟩, fun r h => by cases h⟩
  | some ps =>
    obtain ⟨ss, h1, h2⟩ := starts_spec l ps
    have e : followUpGraph l sel g = roots l sel ss := by unfold followUpGraph; simp only [hg, h1]
    have hst : ∀ v, GStart l g v ↔ ∃ o ∈ ss, v = .out o.owner o.id := by
      intro v
      constructor
      · rintro ⟨ps', hg', i, hi, hk, rfl⟩
        rw [hg] at hg'
        obtain rfl := Option.some.inj hg'
        exact ⟨⟨i.id, i.source⟩, (h2 _).mpr ⟨i, hi, hk, rfl⟩, rfl⟩
      · rintro ⟨o, ho, rfl⟩
        obtain ⟨i, hi, hk, rfl⟩ := (h2 o).mp ho
        exact ⟨ps, hg, i, hi, hk, rfl⟩
    obtain ⟨r1, r2⟩ := roots_spec l sel ss
    rw [e]
    refine ⟨?_, fun r h => ⟨fun v => ?_, fun t ht => ?_⟩⟩
    · rw [r2]
      constructor
      · rintro ⟨o, ho, hs, ht⟩
        exact .inr ⟨o.owner, o.id, (hst _).mpr ⟨o, ho, rfl⟩, (C92_throws l sel o).mp ht⟩
      · rintro (h | ⟨a, i, hgs, x, hx, hm⟩)
        · cases h
        · obtain ⟨o, ho, hv⟩ := (hst _).mp hgs
          injection hv with hv1 hv2
          subst hv1
          subst hv2
          have hok : sel o = true := by
            have : ∀ x, Explored l sel (.out o.owner o.id) x → sel o = true := by
              intro x hx
              induction hx with
              | start v hv =>
                obtain ⟨rfl, ho⟩ := hv
                exact ho
              | link _ _ _ _ ih => exact ih
            exact this x hx
          exact ⟨o, ho, hok, (C92_throws l sel o).mpr ⟨x, hx, hm⟩⟩
    · rw [(r1 r h).1]
      constructor
      · intro hv
        obtain ⟨o, ho, rfl⟩ := List.mem_map.mp hv
        rw [List.mem_filter] at ho
        exact ⟨(hst _).mpr ⟨o, ho.1, rfl⟩, ho.2⟩
      · rintro ⟨hv, ho⟩
        obtain ⟨o, hm, rfl⟩ := (hst v).mp hv
        exact List.mem_map.mpr ⟨o, List.mem_filter.mpr ⟨hm, ho⟩, rfl⟩
    · obtain ⟨o, _, _, h3, p, h4⟩ := roots_trees l sel ss r h t ht
      exact ⟨o, p, h3, h4⟩

/-! ## Concrete trees -/

/-- On the cycle of C91 the tree stops at the second visit of the first output. -/
example : ∃ p, followUp (run cyc).log (fun _ => true) ⟨e0, 1⟩ =
    .done (.node (.upd ⟨e0, 10, 1⟩) (.node (.out ⟨e1, 2⟩) (.node (.upd ⟨e1, 20, 2⟩) (.node (.out ⟨e0, 1⟩) .nil .nil) .nil)
      .nil) .nil) p := ⟨_, rfl⟩

/-- When the output of node 2 does not pass, it is a leaf. -/
example : ∃ p, followUp (run cyc).log (fun o => decide (o.owner = 1)) ⟨e0, 1⟩ =
    .done (.node (.upd ⟨e0, 10, 1⟩) (.node (.out ⟨e1, 2⟩) .nil .nil) .nil) p := ⟨_, rfl⟩

example : followUpGraph (run cyc).log (fun o => decide (o.owner = 1)) 7 =
    some (.node (.out ⟨e0, 1⟩) (.node (.upd ⟨e0, 10, 1⟩) (.node (.out ⟨e1, 2⟩) .nil .nil) .nil) .nil) := by decide

end Verif.C92
