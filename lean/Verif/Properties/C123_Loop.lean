import Verif.Properties.C123_Priorities
/-!
# C123 The control loop with the hierarchical scheme

At each time the tasks are posed again, a resolution with the hierarchical scheme gives the values, and the variables follow these values. A task of one of the priorities up to `q`, which can be achieved together at each time, then behaves in the loop
as its dynamics say (C97), whatever the tasks of the following priorities are: the tasks, the constraints, the substitutions, and the solver can change from one time to the other.
-/
set_option autoImplicit false
set_option linter.unusedSectionVars false

namespace Verif.C123
open Verif Verif.SBS Verif.RV

section
open C97 C48 TD LTask TR
variable {w : World} {vn : VId → Nat} {un : Nat → VId}

/-- At the time `t` of the motion `X`, the task `τ₀`, whose constraint is `u₀`, has one of the priorities up to `q` (or is a bound) in a problem solved with the hierarchical scheme; the resolution gives the values `W`, which the motion follows; and some
motion achieves the tasks of the priorities up to `q` within the limits of the solver. -/
def Resolved (w : World) (vn : VId → Nat) (un : Nat → VId) (q : Nat) (τ₀ : Tk) (u₀ : UserCstr ℝ) (X : Path) (t : ℝ) (W : Nat → Nat → ℝ) : Prop :=
  ∃ (S : State) (o : Nat → SU.Out ℝ) (num : PVar → Nat) (env : ASM.Env) (now : ASM.Now ℝ) (J : Nat → Nat → Nat → Nat → ℝ) (e : Nat → Nat → ℝ) (l : List Sub) (usr : SE.Cstr → UserCstr ℝ) (items : List HR.Item)
    (extra : List SE.Cstr) (wt : SE.Cstr → Nat → ℝ) (op : HLS.Opts ℝ) (n N : Nat) (x : Nat → ℝ) (val : PVar → Nat → ℝ) (τ : SE.Cstr → Tk) (σ : Nat → Tk) (c : SE.Cstr),
    C98.Solves w S o num env now J e l usr items extra (C98.At items 0) wt op n 1 N x val ∧
    (∀ c, C98.Ords items c ∨ C98.Bnds items c → Posed w vn un (τ c) (usr c)) ∧ (∀ s ∈ l, ∀ a ∈ s.cstrs, PosedSub w J e vn un (σ a) a) ∧
    Follows vn items l τ σ X t W ∧ W = finalValues w S o env.V num x val ∧ q < N ∧ (∀ c p, 1 ≤ p → p ≤ q → C98.At items p c → ∀ r < (τ c).f.size, 0 < wt c r) ∧
    (∃ X' W' z ζ, Follows vn items l τ σ X' t W' ∧ AchievedUpTo items l τ σ q X' t ∧ C96.Represents w S o env.V num z W' ζ ∧ C70.Additional w S o W' ζ ∧ C98.Within op.big env now items (C98.Rows items extra) n z) ∧
    (UpTo items q c ∨ C98.Bnds items c) ∧ τ c = τ₀ ∧ usr c = u₀

theorem Resolved.key (hu : ∀ v, un (vn v) = v) {q : Nat} {τ₀ : Tk} {u₀ : UserCstr ℝ} {X : Path} {t : ℝ} {W : Nat → Nat → ℝ} (h : Resolved w vn un q τ₀ u₀ X t W) :
    Posed w vn un τ₀ u₀ ∧ τ₀.Ok X t ∧ Decided vn τ₀ X t W ∧ C96.Sat w u₀ W := by
  obtain ⟨S, o', num, env, now, J, e', l, usr', items, extra, wt, op, n, N, x, val, τ, σ, c, h1, h2, h3, h4, h5, h6, h7, h8, h9, h10, h11⟩ := h
  have ha := C123_tasks_partial hu h1 h2 h3 (h5 ▸ h4) h6 h7 h8
  have hc := upTo_ord h9
  obtain ⟨k1, k2⟩ := h4.1 c hc
  have k3 := h2 c hc
  have k4 := ha.2 c h9
  rw [h10] at k1 k2 k3 k4
  rw [h11] at k3
  exact ⟨k3, k1, k2, (C97_task hu k3 k1 k2).1.2 k4⟩

/-- **C123** The loop with the hierarchical scheme is a control loop, in the meaning of C97, for each task of the priorities up to `q`. Partial for the reasons of `C98_partial`, which gives the resolutions. -/
theorem C123_loop_partial (hu : ∀ v, un (vn v) = v) {q : Nat} {f : Fn ℝ} {T : TaskObj ℝ} {F : Pt f → Nat → ℝ} {D : Nat → Pt f → Pt f →L[ℝ] ℝ} {o : ℝ → Outs ℝ} {e e2 : ℝ → Nat → ℝ} {usr : ℝ → UserCstr ℝ} {X : Path}
    {W : ℝ → Nat → Nat → ℝ} (h : ∀ t, 0 ≤ t → Resolved w vn un q (Tk.at f T F D o e e2 t) (usr t) X t (W t)) (hval : ∀ t, 0 ≤ t → ∀ i < f.size, (o t).value i = F (point f X 0 t) i)
    (hcont : ∀ v ∈ f.vars, ∀ c < f.dim v.base, ContinuousOn (X v c) (Set.Ici 0)) : Loop w vn un f T F D o e e2 usr X W :=
  ⟨fun t ht => ((h t ht).key hu).1, fun t ht => ((h t ht).key hu).2.1, fun t ht => ((h t ht).key hu).2.2.1, fun t ht => ((h t ht).key hu).2.2.2, hval, hcont⟩

/-- **C123** In the loop with the hierarchical scheme, a task with proportional dynamics of one of the priorities up to `q` keeps its function in the relation of the task with `rhs` plus an error that vanishes at the rate of the gain: an equality is
approached exponentially, an inequality that holds at the beginning is never violated. The tasks of the following priorities do not disturb it. -/
theorem C123_proportional_partial (hu : ∀ v, un (vn v) = v) {q : Nat} {f : Fn ℝ} {ty : CType} {kp : Gain ℝ} {l u : Vec ℝ} {T : TaskObj ℝ}
    (hT : makeTask f ty (.proportional kp) l = some T ∨ makeTask2 f ty (.proportional kp) l u = some T) (hd : C64.Decoupled f.size kp) {F : Pt f → Nat → ℝ} {D : Nat → Pt f → Pt f →L[ℝ] ℝ}
    {o : ℝ → Outs ℝ} {e e2 : ℝ → Nat → ℝ} {usr : ℝ → UserCstr ℝ} {X : Path} {W : ℝ → Nat → Nat → ℝ}
    (h : ∀ t, 0 ≤ t → Resolved w vn un q (Tk.at f T F D o e e2 t) (usr t) X t (W t)) (hval : ∀ t, 0 ≤ t → ∀ i < f.size, (o t).value i = F (point f X 0 t) i)
    (hcont : ∀ v ∈ f.vars, ∀ c < f.dim v.base, ContinuousOn (X v c) (Set.Ici 0)) (i : Nat) (hi : i < f.size) (t : ℝ) (ht : 0 ≤ t) :
    Related ty (F (point f X 0 t) i) (l.v i + (F (point f X 0 0) i - l.v i) * Real.exp (-(C64.coef kp i * t))) (u.v i + (F (point f X 0 0) i - u.v i) * Real.exp (-(C64.coef kp i * t))) :=
  C97_proportional hu hT hd (C123_loop_partial hu h hval hcont) i hi t ht

end

/-! ## The hypotheses are met: the three tasks of `C123_Priorities`, at `x = κ` with `0 < κ ≤ 1`, along the motion `x = exp (-t/2)` -/

section
open C97 C48 TD LTask TR
open Verif.C96 (num₁ den₁ back₁)

theorem row₇ (ty : CType) (k κ : ℝ) (W : Nat → Nat → ℝ) (i : Nat) : C96.row w₃ (sqC ty k κ) W i = 2 * κ * W 1 0 := by
  have h1 : un₀ 1 = ⟨0, 1⟩ := un_vn₀ ⟨0, 1⟩
  simp [C96.row, w₃, sqC, h1]

noncomputable def tk₇ (κ : ℝ) (c : SE.Cstr) : Tk := if c.id = 1 then sqTk .greaterThan 2 κ else if c.id = 2 then sqTk .equal 1 κ else sqTk .equal 3 κ
noncomputable def usr₇ (κ : ℝ) (c : SE.Cstr) : UserCstr ℝ := if c.id = 1 then sqC .greaterThan 2 κ else if c.id = 2 then sqC .equal 1 κ else sqC .equal 3 κ

theorem posed₇ (κ : ℝ) (c : SE.Cstr) : Posed w₃ vn₀ un₀ ((tk₇ κ) c) ((usr₇ κ) c) := by
  unfold tk₇ usr₇
  split
  · exact sq_posed _ (by decide) _ _
  · split <;> exact sq_posed _ (by decide) _ _

noncomputable def env₇ (κ : ℝ) : ASM.Env := ⟨V₃, fun c => sourceOf w₃ final₃ num₁ (fun _ _ => true) (fun _ => .other) ((usr₇ κ) c)⟩

noncomputable def now₇ (κ : ℝ) : ASM.Now ℝ where
  fl := fun _ => ⟨true, true⟩
  dat := fun c => dataOf w₃ final₃ out₃ den₁ ⟨1, -1, fun _ => 0, fun _ => 0⟩ ((usr₇ κ) c)
  bnd := fun _ => ⟨.lowerThan, .asGiven, .identity, 0, 1, fun _ _ => 1, fun _ => 0, fun _ => 0, fun _ => 0, ⟨7, 5, fun _ => 3, fun _ => 2⟩⟩

theorem unk₇ (κ : ℝ) (c : SE.Cstr) : unknowns w₃ final₃ [(usr₇ κ) c] = [.var 1] := by
  unfold usr₇
  split
  · rfl
  · split <;> rfl

theorem assembled₇ (κ : ℝ) : C96.Assembled w₃ final₃ out₃ num₁ den₁ (env₇ κ) (now₇ κ) (usr₇ κ) (fun _ _ => cU) (C98.Ords items₆) (C98.Rows items₆ []) (C98.Bnds items₆) (fun _ => False) (fun _ => 0) := by
  have hd : ∀ p, V₃.dim (num₁ p) = match p with
    | .var _ => 1
    | .z _ _ => 0 := by
    intro p
    simp only [V₃, back₁]
    cases p <;> rfl
  refine ⟨back₁, fun x => hd (.var x), fun a k => hd (.z a k), ?_, ?_, ?_, ?_, ?_, ?_⟩
  · intro p p' h h' hne
    exact absurd (((known₃ p).mp h).trans ((known₃ p').mp h').symm) hne
  · intro p
    refine (known₃ p).trans ⟨fun h => ⟨cU, Or.inl ((ords₆ _).2 (Or.inl rfl)), by rw [unk₇ κ, h]; simp⟩, ?_⟩
    rintro ⟨c, -, hp⟩
    rw [unk₇ κ] at hp; simpa using hp
  · intro c
    have : final₃.addCstrs = [] := rfl
    simp [this, C98.Rows]
  · intro c hc
    refine ⟨⟨_, _, rfl⟩, ⟨_, rfl⟩, ?_⟩
    rcases hc with hc | hc
    · rcases (ords₆ c).1 hc with rfl | rfl | rfl <;> simp [usr₇, cU, cO, cE, sqC]
    · exact hc.elim
  · intro a k hak
    cases hak
  · intro c hc
    exact (bnds₆ c hc).elim

theorem linked₇ (κ : ℝ) : C96.Linked w₃ final₃ out₃ num₁ (env₇ κ) (now₇ κ) (usr₇ κ) (fun _ _ => cU) (C98.Ords items₆) (C98.Rows items₆ []) (C98.Bnds items₆) (fun _ => False) (fun _ => 0) := (C96.C96_assembled .init finalize₃ (assembled₇ κ)).1

theorem envOk₇ (κ : ℝ) : C98.EnvOk (env₇ κ) items₆ [] 1 (fun _ => 0) := by
  refine ⟨⟨?_, fun c hc => hc.elim, ?_, ?_, fun c hc => (bnds₆ c hc).elim⟩, by decide, fun c hc => by cases hc⟩
  · intro c hc
    rcases (ords₆ c).1 (rows₆ hc) with rfl | rfl | rfl <;> simp [env₇, usr₇, cU, cO, cE, sqC, sourceOf, ctype, C95.ty]
  · intro c hc
    exact (C96.C96_assembled .init finalize₃ (assembled₇ κ)).2 c (Or.inl (rows₆ hc))
  · intro c hc x y hy
    have : ((env₇ κ).src c).subs = [] := rfl
    unfold AS.Src.sub
    rw [this]; rfl

theorem nowOk₇ (κ : ℝ) : C98.NowOk (env₇ κ) (now₇ κ) items₆ [] 1 (fun _ => 0) := by
  have hk : ∀ m, V₃.known m = true → m = 2 := by intro m h; simpa [V₃] using h
  have hs : ∀ c x, ((env₇ κ).src c).sub x = none := fun c x => rfl
  refine ⟨⟨fun c hc => ⟨(envOk₇ κ).base.maps c hc, ?_, ?_, ?_, ?_, ?_, ?_, (envOk₇ κ).base.flat c hc, ?_, ?_⟩, fun c hc => (bnds₆ c hc).elim⟩, fun c hc => (bnds₆ c hc).elim⟩
  · intro x hx
    obtain rfl := hk x hx
    show V₃.col 2 + V₃.dim 2 ≤ 1
    decide
  · intro x y hx hy hne j
    exact absurd ((hk x hx).trans (hk y hy).symm) hne
  · rcases (ords₆ c).1 (rows₆ hc) with rfl | rfl | rfl <;> simp [env₇, usr₇, cU, cO, cE, sqC, sourceOf]
  · intro x hx; cases hx
  · intro x hx; cases hx
  · intro x i hx hu
    rw [hs] at hx; cases hx
  · rfl
  · intro i
    simp [now₇, dataOf]

theorem omega₇ (κ : ℝ) (c : SE.Cstr) (r : Nat) : ((now₇ κ).fl c).omega ((now₇ κ).dat c).w r = 1 := by
  rw [show ((now₇ κ).fl c) = ⟨true, true⟩ from rfl, C36.omega_default]

theorem weighted₇ (κ : ℝ) : C98.Weighted (fun x => x) (fun _ => req₆) (now₇ κ) items₆ (fun _ _ => 1) := by
  refine ⟨fun c hc => ⟨fun _ => rfl, by simp [C36.wval, req₆], fun i => by simp [C36.vval, req₆], ?_, fun i => by simp [C36.wval, C36.vval, req₆]⟩,
    fun c _ i _ => by rw [omega₇ κ]; exact zero_le_one⟩
  simp [AS.processRequirements, req₆, now₇, dataOf]

theorem value₇ (κ : ℝ) (z : Nat → ℝ) (val : PVar → Nat → ℝ) : finalValues w₃ final₃ out₃ (env₇ κ).V num₁ z val 1 0 = z 0 := value₃ z val

theorem level₇ (κ : ℝ) (W : Nat → Nat → ℝ) : C98.levelCost w₃ (usr₇ κ) (fun _ _ => 1) items₆ 0 W = max (-(2 * (κ * κ)) - 2 * κ * W 1 0) 0 ^ 2 ∧ C98.levelCost w₃ (usr₇ κ) (fun _ _ => 1) items₆ 1 W = (2 * κ * W 1 0 + κ * κ) ^ 2 ∧
    C98.levelCost w₃ (usr₇ κ) (fun _ _ => 1) items₆ 2 W = (2 * κ * W 1 0 + 3 * (κ * κ)) ^ 2 := by
  have h1 : (usr₇ κ) cU = sqC .greaterThan 2 κ := rfl
  have h2 : (usr₇ κ) cO = sqC .equal 1 κ := rfl
  have h3 : (usr₇ κ) cE = sqC .equal 3 κ := rfl
  have e1 : items₆.filter (fun i => C98.isOrd i && decide (i.prio = 0)) = [⟨cU, 0, .l2, false, false⟩] := rfl
  have e2 : items₆.filter (fun i => C98.isOrd i && decide (i.prio = 1)) = [⟨cO, 1, .l2, false, false⟩] := rfl
  have e3 : items₆.filter (fun i => C98.isOrd i && decide (i.prio = 2)) = [⟨cE, 2, .l2, false, false⟩] := rfl
  unfold C98.levelCost
  rw [e1, e2, e3]
  simp only [List.map_cons, List.map_nil, h1, h2, h3, row₇]
  refine ⟨?_, ?_, ?_⟩ <;> simp [C98.lack, sqC, ctype, C96.meant]

theorem life₇ (κ : ℝ) : ∃ s s' objs, C98.Life op₆ (env₇ κ) items₆ [] 1 (fun _ => 0) s ∧ HR.solve op₆ (env₇ κ) (now₇ κ) (HR.cstOf items₆ []) s = .ok () (s', objs) := by
  obtain ⟨s, h, -⟩ := C68.build_spec op₆ (C98.wf (envOk₇ κ)) fun c hc _ => by
    obtain ⟨i, hi, rfl⟩ := List.mem_map.mp hc
    refine (C68.accepted_iff _).mpr ?_
    simp only [items₆, List.mem_cons, List.not_mem_nil, or_false] at hi
    rcases hi with rfl | rfl | rfl <;> rfl
  have hL : C98.Life op₆ (env₇ κ) items₆ [] 1 (fun _ => 0) s := .build h
  obtain ⟨⟨s', objs⟩, hr⟩ := (C68.C68_returns (C98.wf (envOk₇ κ)) (C98.hist (envOk₇ κ) hL) (C98.theVals op₆ (env₇ κ) (now₇ κ) items₆ [] 1 (fun _ => 0))).mpr (Or.inr (Or.inr (Or.inr
    ⟨HR.Item.cstr (env₇ κ) (fun _ => 0) ⟨cU, 0, .l2, false, false⟩, Or.inl ⟨List.mem_map_of_mem List.mem_cons_self, rfl⟩, Nat.one_ne_zero⟩)))
  exact ⟨s, s', objs, hL, by rw [C98.solve_eq (envOk₇ κ) (nowOk₇ κ) (C98.hist (envOk₇ κ) hL)]; exact hr⟩

/-- The derivative of `x` that achieves the first two tasks: `2 κ x' = -κ²` -/
noncomputable def x₇ (κ : ℝ) (_ : Nat) : ℝ := -κ / 2

theorem rowsLimited₇ {κ : ℝ} (hκ : 0 < κ ∧ κ ≤ 1) : C95.RowsLimited op₆.big (env₇ κ) (now₇ κ) (C98.Rows items₆ []) (x₇ κ) := by
  intro c hc i hi
  rcases (ords₆ c).1 (rows₆ (Or.inl hc)) with rfl | rfl | rfl
  · have hi0 : i = 0 := by have : i < 1 := hi; omega
    subst hi0
    refine ⟨fun _ => ?_, fun hh => by cases hh⟩
    have hcu : C98.Ords items₆ cU := (ords₆ cU).mpr (Or.inl rfl)
    obtain ⟨-, -, l3, -, -, -, l7, -⟩ := C70.C70_lists .init finalize₃
    have hr := (C96.final_represents .init finalize₃ (linked₇ κ) (x₇ κ) fun _ _ => 0).1
    have q1 := C96.image_eq l3 (linked₇ κ).dimVar (linked₇ κ).dimZ ((linked₇ κ).src cU (Or.inl hcu)).1 ((envOk₇ κ).base.maps cU (Or.inl (Or.inl hcu))) hr (i := 0) (Nat.one_pos)
    have q2 : C34.image ((env₇ κ).src cU) (env₇ κ).V ((now₇ κ).dat cU) (C34.const ((env₇ κ).src cU) ((now₇ κ).dat cU)) 0 = 0 := by
      unfold C34.image C34.const
      simp [show ∀ x, ((env₇ κ).src cU).sub x = none from fun _ => rfl]
    unfold C95.valueOf
    rw [q1, q2, show (usr₇ κ) cU = sqC .greaterThan 2 κ from rfl, row₇, (value₇ κ)]
    have h1 : C96.meant .asGiven (0 : ℝ) = 0 := rfl
    simp only [op₆, x₇]
    nlinarith [hκ.1, hκ.2]
  · exact ⟨fun hh => (by cases hh), fun hh => (by cases hh)⟩
  · exact ⟨fun hh => (by cases hh), fun hh => (by cases hh)⟩

theorem sol₇ {κ : ℝ} (hκ : 0 < κ ∧ κ ≤ 1) {s s' : HLS.Solver ℝ} {objs : List (HLS.Obj ℝ)} (hL : C98.Life op₆ (env₇ κ) items₆ [] 1 (fun _ => 0) s) (hs : HR.solve op₆ (env₇ κ) (now₇ κ) (HR.cstOf items₆ []) s = .ok () (s', objs)) : C68.LexSolution 1 objs (x₇ κ) := by
  obtain ⟨-, -, l3, -, -, -, l7, -⟩ := C70.C70_lists .init finalize₃
  have hw0 : ∀ c, C98.Rows items₆ [] c → ∀ r < c.size, 0 ≤ ((now₇ κ).fl c).omega ((now₇ κ).dat c).w r := fun c _ r _ => by rw [omega₇ κ]; exact zero_le_one
  have hside : C98.Sides op₆.big (env₇ κ) (now₇ κ) (C98.Ords items₆) := by
    intro c hc ht
    rcases (ords₆ c).mp hc with rfl | rfl | rfl <;> cases ht
  have hcons := C98.consistent (op := op₆) (envOk₇ κ) (nowOk₇ κ) (by norm_num [op₆]) (fun c hc => (bnds₆ c hc).elim) (z := (x₇ κ)) fun ⟨c, hc⟩ => (bnds₆ c hc).elim
  have hH := C98.hist (envOk₇ κ) hL
  rw [C98.solve_eq (envOk₇ κ) (nowOk₇ κ) hH] at hs
  have hbnd : C68.HasBnd (HR.pbOf (env₇ κ) (fun _ => 0) 1 items₆ []) = false := rfl
  have hpr : C68.priorities (HR.pbOf (env₇ κ) (fun _ => 0) 1 items₆ []) = 3 := rfl
  refine (C68.C68_partial (C98.wf (envOk₇ κ)) (Or.inl rfl) hH hcons hs _).mpr fun y => ?_
  unfold C68.goals
  rw [hpr, hbnd]
  show C68.LexLE [_, _, _] _ y
  have hx : ∀ p, C68.levelViol (HR.pbOf (env₇ κ) (fun _ => 0) 1 items₆ []) op₆.big (C98.theVals op₆ (env₇ κ) (now₇ κ) items₆ [] 1 (fun _ => 0)) p (x₇ κ) =
      C98.levelCost w₃ (usr₇ κ) (fun _ _ => 1) items₆ p (finalValues w₃ final₃ out₃ (env₇ κ).V num₁ (x₇ κ) fun _ _ => 0) := by
    intro p
    rw [C98.zcost_eq op₆ (envOk₇ κ) (nowOk₇ κ) hw0 rfl (weighted₇ κ) (fun _ => rfl) (rowsLimited₇ hκ), ← C98.levelCost_eq l3 (linked₇ κ) (envOk₇ κ) (C96.final_represents .init finalize₃ (linked₇ κ) (x₇ κ) fun _ _ => 0).1]
  have hy : ∀ p, C98.levelCost w₃ (usr₇ κ) (fun _ _ => 1) items₆ p (finalValues w₃ final₃ out₃ (env₇ κ).V num₁ y fun _ _ => 0) ≤
      C68.levelViol (HR.pbOf (env₇ κ) (fun _ => 0) 1 items₆ []) op₆.big (C98.theVals op₆ (env₇ κ) (now₇ κ) items₆ [] 1 (fun _ => 0)) p y := by
    intro p
    rw [C98.levelCost_eq l3 (linked₇ κ) (envOk₇ κ) (C96.final_represents .init finalize₃ (linked₇ κ) y fun _ _ => 0).1]
    exact C98.zcost_le op₆ (envOk₇ κ) (nowOk₇ κ) hw0 rfl (weighted₇ κ) hside (fun _ => rfl) y
  have hx0 := hx 0; have hx1 := hx 1; have hx2 := hx 2
  have hy0 := hy 0; have hy1 := hy 1; have hy2 := hy 2
  rw [((level₇ κ) _).1, (value₇ κ)] at hx0 hy0
  rw [((level₇ κ) _).2.1, (value₇ κ)] at hx1 hy1
  rw [((level₇ κ) _).2.2, (value₇ κ)] at hx2 hy2
  have e0 : max (-(2 * (κ * κ)) - 2 * κ * (x₇ κ) 0) 0 = 0 := max_eq_right (by simp only [x₇]; nlinarith [mul_self_nonneg κ])
  have e1 : 2 * κ * (x₇ κ) 0 + κ * κ = 0 := by simp only [x₇]; ring
  rw [e0] at hx0
  rw [e1] at hx1
  simp only [Bool.false_eq_true, false_and, and_false, if_false, add_zero]
  refine lexLE_cons (by rw [hx0]; exact le_trans (by show (0 : ℝ) ^ 2 ≤ _; rw [zero_pow (by norm_num)]; exact sq_nonneg _) hy0) fun _ => lexLE_cons (by rw [hx1]; exact le_trans (by show (0 : ℝ) ^ 2 ≤ _; rw [zero_pow (by norm_num)]; exact sq_nonneg _) hy1) fun h => ?_
  have h2 : (2 * κ * y 0 + κ * κ) ^ 2 ≤ 0 := by rw [hx1] at h; linarith
  have h3 : y 0 = (x₇ κ) 0 := by
    have h4 : 2 * κ * y 0 + κ * κ = 0 := by nlinarith
    have h5 : κ * (2 * y 0 + κ) = 0 := by linarith
    rcases mul_eq_zero.1 h5 with h6 | h6
    · exact absurd h6 hκ.1.ne'
    · simp only [x₇]; linarith
  rw [h3] at hy2
  exact lexLE_cons (by rw [hx2]; exact hy2) fun _ => trivial

theorem hold₇ (κ : ℝ) (W : Nat → Nat → ℝ) (h : 2 * κ * W 1 0 = -(κ * κ)) : C96.AllHold w₃ (fun _ _ _ _ => 0) (fun _ _ => 0) [] (usr₇ κ) (UpTo items₆ 1) (C98.Bnds items₆) W := by
  refine ⟨fun s hs => (by cases hs), fun c hc => ?_⟩
  rcases hc with ⟨p, hp, hc⟩ | hc
  · rcases (at₆ p c).1 hc with ⟨-, rfl⟩ | ⟨-, rfl⟩ | ⟨rfl, -⟩
    · intro i _
      show C96.meant .asGiven (-(2 * (κ * κ - 0)) : ℝ) ≤ C96.row w₃ (sqC .greaterThan 2 κ) W i
      rw [row₇, h]; simp only [C96.meant]; nlinarith [mul_self_nonneg κ]
    · intro i _
      show C96.row w₃ (sqC .equal 1 κ) W i = C96.meant .asGiven (-(1 * (κ * κ - 0)) : ℝ)
      rw [row₇, h]; simp only [C96.meant]; nlinarith [mul_self_nonneg κ]
    · omega
  · exact (bnds₆ c hc).elim

theorem repr₇ (κ : ℝ) (val : PVar → Nat → ℝ) : ∃ ζ, C96.Represents w₃ final₃ out₃ (env₇ κ).V num₁ (x₇ κ) (finalValues w₃ final₃ out₃ (env₇ κ).V num₁ (x₇ κ) val) ζ ∧ C70.Additional w₃ final₃ out₃ (finalValues w₃ final₃ out₃ (env₇ κ).V num₁ (x₇ κ) val) ζ :=
  ⟨_, (C96.final_represents .init finalize₃ (linked₇ κ) (x₇ κ) val).1, fun a u hu => by cases hu⟩

/-- The hypotheses of `C123_partial`, and of `C98_partial` -/
theorem solved₇ {κ : ℝ} (hκ : 0 < κ ∧ κ ≤ 1) : ∃ s s' objs, C98.Life op₆ (env₇ κ) items₆ [] 1 (fun _ => 0) s ∧ HR.solve op₆ (env₇ κ) (now₇ κ) (HR.cstOf items₆ []) s = .ok () (s', objs) ∧ ∀ x, C68.LexSolution 1 objs x → ∀ val,
    C96.AllHold w₃ (fun _ _ _ _ => 0) (fun _ _ => 0) [] (usr₇ κ) (UpTo items₆ 1) (C98.Bnds items₆) (finalValues w₃ final₃ out₃ (env₇ κ).V num₁ x val) ∧
    C98.Solves w₃ final₃ out₃ num₁ (env₇ κ) (now₇ κ) (fun _ _ _ _ => 0) (fun _ _ => 0) [] (usr₇ κ) items₆ [] (C98.At items₆ 0) (fun _ _ => 1) op₆ 1 1 3 x val := by
  obtain ⟨s, s', objs, hL, hs⟩ := (life₇ κ)
  have hside : C98.Sides op₆.big (env₇ κ) (now₇ κ) (C98.Ords items₆) := by
    intro c hc ht
    rcases (ords₆ c).mp hc with rfl | rfl | rfl <;> cases ht
  have hpos : C95.Positive (now₇ κ) fun c => C98.At items₆ 0 c ∨ c ∈ ([] : List SE.Cstr) := fun c _ i _ => by rw [omega₇ κ]; exact one_pos
  obtain ⟨ζ, h1, h2⟩ := (repr₇ κ) fun _ _ => 0
  have hall := (hold₇ κ) (finalValues w₃ final₃ out₃ (env₇ κ).V num₁ (x₇ κ) fun _ _ => 0) (by rw [value₇ κ]; simp only [x₇]; ring)
  refine ⟨s, s', objs, hL, hs, fun x hx val => ⟨?_, ?_⟩⟩
  · exact C123_partial (fun _ => by simp [w₃]) .init finalize₃ (cal := fun _ _ => ⟨fun _ _ => 0, fun _ _ => 0, fun _ _ => 0⟩) (fun a u hu => by cases hu) (linked₇ κ) rfl (envOk₇ κ) hL (nowOk₇ κ) hs (Or.inl rfl) (by norm_num [op₆])
      (fun c hc => (bnds₆ c hc).elim) rfl (weighted₇ κ) hpos hside (q := 1) (fun _ _ _ _ _ _ _ => one_pos) ⟨_, (x₇ κ), ζ, hall, h1, h2, fun ⟨c, hc⟩ => (bnds₆ c hc).elim, (rowsLimited₇ hκ)⟩ hx val
  · exact C98.C98_partial (fun _ => by simp [w₃]) .init finalize₃ (cal := fun _ _ => ⟨fun _ _ => 0, fun _ _ => 0, fun _ _ => 0⟩) (fun a u hu => by cases hu) (linked₇ κ) rfl (envOk₇ κ) hL (nowOk₇ κ) hs (Or.inl rfl) (by norm_num [op₆])
      (fun c hc => (bnds₆ c hc).elim) rfl (weighted₇ κ) hpos hside (N := 3) (by decide) ⟨_, (x₇ κ), ζ, ⟨hall.1, fun c hc => hall.2 c (hc.imp (fun h => ⟨0, Nat.zero_le _, h⟩) id)⟩, h1, h2, fun ⟨c, hc⟩ => (bnds₆ c hc).elim,
        fun c hc => (rowsLimited₇ hκ) c (Or.inl (by obtain ⟨i, a, b, -, d⟩ := hc; exact ⟨i, a, b, d⟩))⟩ hx val

/-- The motion `x = exp (-t/2)` follows the values decided by the resolutions. -/
theorem follows₇ (t : ℝ) : Follows vn₀ items₆ [] (tk₇ (path₃ ⟨0, 0⟩ 0 t)) (fun _ => sqTk .equal 1 1) path₃ t (finalValues w₃ final₃ out₃ (env₇ (path₃ ⟨0, 0⟩ 0 t)).V num₁ (x₇ (path₃ ⟨0, 0⟩ 0 t)) fun _ _ => 0) := by
  have hd : ∀ ty k, Decided vn₀ (sqTk ty k (path₃ ⟨0, 0⟩ 0 t)) path₃ t (finalValues w₃ final₃ out₃ (env₇ (path₃ ⟨0, 0⟩ 0 t)).V num₁ (x₇ (path₃ ⟨0, 0⟩ 0 t)) fun _ _ => 0) := by
    intro ty k v hv k hk
    have hv : v ∈ [(⟨0, 0⟩ : VId)] := hv
    have hk : k < 1 := hk
    rw [List.mem_singleton] at hv
    obtain rfl : k = 0 := by omega
    subst hv
    exact Eq.trans (by simp [path₃, VId.dot, Tk.order, sqTk, sqT, Dyn.order, Order.num, x₇]) (value₇ _ (x₇ (path₃ ⟨0, 0⟩ 0 t)) fun _ _ => 0).symm
  refine ⟨fun c _ => ?_, fun s hs => by cases hs⟩
  unfold tk₇
  split
  · exact ⟨sq_ok _ (by decide) _ _ _ _ rfl (path₃_deriv t).hasDerivWithinAt, hd _ _⟩
  · split <;> exact ⟨sq_ok _ (by decide) _ _ _ _ rfl (path₃_deriv t).hasDerivWithinAt, hd _ _⟩

theorem resolved₇ (t : ℝ) (ht : 0 ≤ t) {c : SE.Cstr} (hc : UpTo items₆ 1 c) : Resolved w₃ vn₀ un₀ 1 (tk₇ (path₃ ⟨0, 0⟩ 0 t) c) (usr₇ (path₃ ⟨0, 0⟩ 0 t) c) path₃ t
    (finalValues w₃ final₃ out₃ (env₇ (path₃ ⟨0, 0⟩ 0 t)).V num₁ (x₇ (path₃ ⟨0, 0⟩ 0 t)) fun _ _ => 0) := by
  have hκ : 0 < path₃ ⟨0, 0⟩ 0 t ∧ path₃ ⟨0, 0⟩ 0 t ≤ 1 := by
    have : path₃ ⟨0, 0⟩ 0 t = Real.exp (-t / 2) := by simp [path₃]
    rw [this]
    exact ⟨Real.exp_pos _, Real.exp_le_one_iff.2 (by linarith)⟩
  have hf := follows₇ t
  generalize path₃ ⟨0, 0⟩ 0 t = κ at hκ hf
  obtain ⟨s, s', objs, hL, hs, hsol⟩ := solved₇ hκ
  obtain ⟨h1, h2⟩ := hsol (x₇ κ) (sol₇ hκ hL hs) fun _ _ => 0
  obtain ⟨ζ, h3, h4⟩ := repr₇ κ fun _ _ => 0
  have hσ : ∀ s ∈ ([] : List Sub), ∀ a ∈ s.cstrs, PosedSub w₃ (fun _ _ _ _ => 0) (fun _ _ => 0) vn₀ un₀ (sqTk .equal 1 1) a := fun s hs => by cases hs
  exact ⟨_, _, _, _, _, _, _, _, _, _, _, _, _, _, _, _, _, tk₇ κ, fun _ => sqTk .equal 1 1, c, h2, fun c _ => posed₇ κ c, hσ, hf, rfl, by norm_num, fun _ _ _ _ _ _ _ => one_pos,
    ⟨path₃, _, x₇ κ, ζ, hf, (holds_iff un_vn₀ (fun c _ => posed₇ κ c) hσ hf 1).1 h1, h3, h4, fun ⟨c, hc⟩ => (bnds₆ c hc).elim, rowsLimited₇ hκ⟩, Or.inl hc, rfl, rfl⟩

theorem sq₇ (t : ℝ) : C97.sqF (point square path₃ 0 t) 0 = Real.exp (-t) := by
  show path₃ ⟨0, 0⟩ 0 t * path₃ ⟨0, 0⟩ 0 t = _
  have : path₃ ⟨0, 0⟩ 0 t = Real.exp (-t / 2) := by simp [path₃]
  rw [this, ← Real.exp_add]; congr 1; ring

theorem cont₇ : ∀ v ∈ square.vars, ∀ c < square.dim v.base, ContinuousOn (path₃ v c) (Set.Ici 0) := by
  intro v hv c hc
  have hv : v ∈ [(⟨0, 0⟩ : VId)] := hv
  have hc : c < 1 := hc
  rw [List.mem_singleton] at hv
  obtain rfl : c = 0 := by omega
  subst hv
  exact fun t _ => (path₃_deriv t).continuousAt.continuousWithinAt

/-- The theorem applies to the tasks of the priorities 0 and 1: `x² ≥ exp (-2 t)` and `x² = exp (-t)`; the task of the priority 2, which asks for `x² = exp (-3 t)`, does not disturb them and does not get what it asks for. -/
example (t : ℝ) (ht : 0 ≤ t) : Real.exp (-(2 * t)) ≤ C97.sqF (point square path₃ 0 t) 0 ∧ C97.sqF (point square path₃ 0 t) 0 = Real.exp (-t) ∧ (0 < t → C97.sqF (point square path₃ 0 t) 0 ≠ Real.exp (-(3 * t))) := by
  have h0 : C97.sqF (point square path₃ 0 0) 0 = 1 := by rw [sq₇]; simp
  refine ⟨?_, ?_, fun h => ?_⟩
  · have := C123_proportional_partial un_vn₀ (q := 1) (u := ⟨1, fun _ => 0⟩) (Or.inl (sqT_made .greaterThan (by decide) 2)) (by trivial) (o := fun t => outs (path₃ ⟨0, 0⟩ 0 t))
      (e := fun t _ => -(2 * (path₃ ⟨0, 0⟩ 0 t * path₃ ⟨0, 0⟩ 0 t - 0))) (e2 := fun _ => 0) (F := C97.sqF) (D := C97.sqD) (fun s hs => resolved₇ s hs (c := cU) ⟨0, by norm_num, (at₆ _ _).2 (Or.inl ⟨rfl, rfl⟩)⟩) (fun _ _ _ _ => rfl) cont₇ 0 (by decide) t ht
    simpa [Related, h0, C64.coef] using this
  · have := C123_proportional_partial un_vn₀ (q := 1) (u := ⟨1, fun _ => 0⟩) (Or.inl (sqT_made .equal (by decide) 1)) (by trivial) (o := fun t => outs (path₃ ⟨0, 0⟩ 0 t))
      (e := fun t _ => -(1 * (path₃ ⟨0, 0⟩ 0 t * path₃ ⟨0, 0⟩ 0 t - 0))) (e2 := fun _ => 0) (F := C97.sqF) (D := C97.sqD) (fun s hs => resolved₇ s hs (c := cO) ⟨1, le_rfl, (at₆ _ _).2 (Or.inr (Or.inl ⟨rfl, rfl⟩))⟩) (fun _ _ _ _ => rfl) cont₇ 0 (by decide) t ht
    simpa [Related, h0, C64.coef] using this
  · rw [sq₇]
    intro hh
    have := Real.exp_injective hh
    linarith

end

end Verif.C123
