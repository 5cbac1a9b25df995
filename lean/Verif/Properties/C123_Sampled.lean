import Verif.Properties.C123_Loop
import Verif.Properties.C97_ResolvedSampled
/-!
# C123 Resolutions of the hierarchical scheme every `dt`

As in `C97_ResolvedSampled`: the values computed by a resolution with the hierarchical scheme are kept until the next one. The tasks of the priorities up to `q`, which can be achieved together at each resolution, behave as C97 and C110 say, whatever the
tasks of the following priorities are.
-/
set_option autoImplicit false
set_option linter.unusedSectionVars false

namespace Verif.C123
open Verif Verif.SBS Verif.RV

section
open C97 C48 TD LTask TR C110
variable {w : World} {vn : VId → Nat} {un : Nat → VId}

/-- **C123** Resolutions with the hierarchical scheme at the times `k dt`, between which the variables move along straight lines, make a sampled control loop for each task of the priorities up to `q`. Partial for the reasons of `C98_partial`, which gives
the resolutions. -/
theorem C123_sampled_partial (hu : ∀ v, un (vn v) = v) {q : Nat} {dt : ℝ} {f : Fn ℝ} {T : TaskObj ℝ} {F : Pt f → Nat → ℝ} {D : Nat → Pt f → Pt f →L[ℝ] ℝ} {o : ℝ → Outs ℝ} {e e2 : ℝ → Nat → ℝ} {usr : ℝ → UserCstr ℝ} {X : Path}
    {W : ℝ → Nat → Nat → ℝ} (h : ∀ k : ℕ, Resolved w vn un q (Tk.at f T F D o e e2 (k * dt)) (usr (k * dt)) X (k * dt) (W (k * dt))) (hval : ∀ k : ℕ, ∀ i < f.size, (o (k * dt)).value i = F (point f X 0 (k * dt)) i)
    (hstraight : ∀ k : ℕ, ∀ s, k * dt ≤ s → s ≤ (k + 1) * dt → ∀ v ∈ f.vars, ∀ c < f.dim v.base, X (v.dot 0) c s = X (v.dot 0) c (k * dt) + (s - k * dt) * X (v.dot 1) c (k * dt)) :
    Sampled w vn un dt f T F D o e e2 usr X W :=
  ⟨fun k => ((h k).key hu).1, fun k => ((h k).key hu).2.1, fun k => ((h k).key hu).2.2.1, fun k => ((h k).key hu).2.2.2, hval, hstraight⟩

/-- **C123** With resolutions every `dt`, the task of an affine function with the one-step dynamics of the same `dt`, of one of the priorities up to `q`, holds from the first resolution on, whatever the tasks of the following priorities ask for. -/
theorem C123_oneStep_partial (hu : ∀ v, un (vn v) = v) {q : Nat} {dt : ℝ} (hdt : 0 < dt) {f : Fn ℝ} {ty : CType} {l u : Vec ℝ} {T : TaskObj ℝ} (hT : makeTask f ty (.oneStep false dt) l = some T ∨ makeTask2 f ty (.oneStep false dt) l u = some T)
    {F : Pt f → Nat → ℝ} {D : Nat → Pt f → Pt f →L[ℝ] ℝ} (ha : Affine F D) {o : ℝ → Outs ℝ} {e e2 : ℝ → Nat → ℝ} {usr : ℝ → UserCstr ℝ} {X : Path} {W : ℝ → Nat → Nat → ℝ}
    (h : ∀ k : ℕ, Resolved w vn un q (Tk.at f T F D o e e2 (k * dt)) (usr (k * dt)) X (k * dt) (W (k * dt))) (hval : ∀ k : ℕ, ∀ i < f.size, (o (k * dt)).value i = F (point f X 0 (k * dt)) i)
    (hstraight : ∀ k : ℕ, ∀ s, k * dt ≤ s → s ≤ (k + 1) * dt → ∀ v ∈ f.vars, ∀ c < f.dim v.base, X (v.dot 0) c s = X (v.dot 0) c (k * dt) + (s - k * dt) * X (v.dot 1) c (k * dt)) (k : ℕ) :
    ∀ i < f.size, Related ty (F (point f X 0 ((k + 1) * dt)) i) (l.v i) (u.v i) :=
  fun i hi => C97_sampled_oneStep hu hT (C123_sampled_partial hu h hval hstraight) ha hdt i hi k

end

/-! ## The hypotheses are met: `x ≥ 1` of gain 1, then `x = 3/2` in one step, then `x = 0` in one step, along the motion `pathB` from 2 to `3/2` with resolutions every `1/2` -/

section
open C97 C48 TD LTask TR C110
open Verif.C96 (num₁ den₁ back₁)

/-- What the dynamics of the third task give at `x = κ`; for the others, `eU₉` and `eO₉` -/
noncomputable def eE₉ (κ : ℝ) : ℝ := (0 - κ) / (1 / 2)

noncomputable def tkE₉ (κ : ℝ) : Tk := ⟨after square (C110.outs κ), oneT .equal (.oneStep false (1 / 2)) 0, linF, linD, fun _ => eE₉ κ, 0⟩

noncomputable def tk₉ (κ : ℝ) (c : SE.Cstr) : Tk := if c.id = 1 then tkU₉ κ else if c.id = 2 then tkO₉ κ else tkE₉ κ
noncomputable def usr₉ (κ : ℝ) (c : SE.Cstr) : UserCstr ℝ := if c.id = 1 then oneC .greaterThan (eU₉ κ) else if c.id = 2 then oneC .equal (eO₉ κ) else oneC .equal (eE₉ κ)

theorem posed₉ (κ : ℝ) (c : SE.Cstr) : Posed w₃ vn₀ un₀ (tk₉ κ c) (usr₉ κ c) := by
  unfold tk₉ usr₉
  split
  · exact one_posed (by decide) rfl _ _ rfl
  · split
    · exact one_posed (by decide) rfl _ _ rfl
    · exact one_posed (by decide) rfl _ _ rfl

noncomputable def env₉ (κ : ℝ) : ASM.Env := ⟨V₃, fun c => sourceOf w₃ final₃ num₁ (fun _ _ => true) (fun _ => .other) ((usr₉ κ) c)⟩

noncomputable def now₉ (κ : ℝ) : ASM.Now ℝ where
  fl := fun _ => ⟨true, true⟩
  dat := fun c => dataOf w₃ final₃ out₃ den₁ ⟨1, -1, fun _ => 0, fun _ => 0⟩ ((usr₉ κ) c)
  bnd := fun _ => ⟨.lowerThan, .asGiven, .identity, 0, 1, fun _ _ => 1, fun _ => 0, fun _ => 0, fun _ => 0, ⟨7, 5, fun _ => 3, fun _ => 2⟩⟩

theorem unk₉ (κ : ℝ) (c : SE.Cstr) : unknowns w₃ final₃ [(usr₉ κ) c] = [.var 1] := by
  unfold usr₉
  split
  · rfl
  · split <;> rfl

theorem assembled₉ (κ : ℝ) : C96.Assembled w₃ final₃ out₃ num₁ den₁ (env₉ κ) (now₉ κ) (usr₉ κ) (fun _ _ => cU) (C98.Ords items₆) (C98.Rows items₆ []) (C98.Bnds items₆) (fun _ => False) (fun _ => 0) := by
  have hd : ∀ p, V₃.dim (num₁ p) = match p with
    | .var _ => 1
    | .z _ _ => 0 := by
    intro p
    simp only [V₃, back₁]
    cases p <;> rfl
  refine ⟨back₁, fun x => hd (.var x), fun a k => hd (.z a k), ?_, ?_, ?_, ?_, ?_, ?_⟩
  · intro p p' h h' hne
    exact absurd (((known₃ p).mp h).trans ((known₃ p').mp h').symm) hne
  · intro p
    refine (known₃ p).trans ⟨fun h => ⟨cU, Or.inl ((ords₆ _).2 (Or.inl rfl)), by rw [unk₉ κ, h]; simp⟩, ?_⟩
    rintro ⟨c, -, hp⟩
    rw [unk₉ κ] at hp; simpa using hp
  · intro c
    have : final₃.addCstrs = [] := rfl
    simp [this, C98.Rows]
  · intro c hc
    refine ⟨⟨_, _, rfl⟩, ⟨_, rfl⟩, ?_⟩
    rcases hc with hc | hc
    · rcases (ords₆ c).1 hc with rfl | rfl | rfl <;> simp [usr₉, cU, cO, cE, oneC]
    · exact hc.elim
  · intro a k hak
    cases hak
  · intro c hc
    exact (bnds₆ c hc).elim

theorem linked₉ (κ : ℝ) : C96.Linked w₃ final₃ out₃ num₁ (env₉ κ) (now₉ κ) (usr₉ κ) (fun _ _ => cU) (C98.Ords items₆) (C98.Rows items₆ []) (C98.Bnds items₆) (fun _ => False) (fun _ => 0) := (C96.C96_assembled .init finalize₃ (assembled₉ κ)).1

theorem envOk₉ (κ : ℝ) : C98.EnvOk (env₉ κ) items₆ [] 1 (fun _ => 0) := by
  refine ⟨⟨?_, fun c hc => hc.elim, ?_, ?_, fun c hc => (bnds₆ c hc).elim⟩, by decide, fun c hc => by cases hc⟩
  · intro c hc
    rcases (ords₆ c).1 (rows₆ hc) with rfl | rfl | rfl <;> simp [env₉, usr₉, cU, cO, cE, oneC, sourceOf, ctype, C95.ty]
  · intro c hc
    exact (C96.C96_assembled .init finalize₃ (assembled₉ κ)).2 c (Or.inl (rows₆ hc))
  · intro c hc x y hy
    have : ((env₉ κ).src c).subs = [] := rfl
    unfold AS.Src.sub
    rw [this]; rfl

theorem nowOk₉ (κ : ℝ) : C98.NowOk (env₉ κ) (now₉ κ) items₆ [] 1 (fun _ => 0) := by
  have hk : ∀ m, V₃.known m = true → m = 2 := by intro m h; simpa [V₃] using h
  have hs : ∀ c x, ((env₉ κ).src c).sub x = none := fun c x => rfl
  refine ⟨⟨fun c hc => ⟨(envOk₉ κ).base.maps c hc, ?_, ?_, ?_, ?_, ?_, ?_, (envOk₉ κ).base.flat c hc, ?_, ?_⟩, fun c hc => (bnds₆ c hc).elim⟩, fun c hc => (bnds₆ c hc).elim⟩
  · intro x hx
    obtain rfl := hk x hx
    show V₃.col 2 + V₃.dim 2 ≤ 1
    decide
  · intro x y hx hy hne j
    exact absurd ((hk x hx).trans (hk y hy).symm) hne
  · rcases (ords₆ c).1 (rows₆ hc) with rfl | rfl | rfl <;> simp [env₉, usr₉, cU, cO, cE, oneC, sourceOf]
  · intro x hx; cases hx
  · intro x hx; cases hx
  · intro x i hx hu
    rw [hs] at hx; cases hx
  · rfl
  · intro i
    simp [now₉, dataOf]

theorem omega₉ (κ : ℝ) (c : SE.Cstr) (r : Nat) : ((now₉ κ).fl c).omega ((now₉ κ).dat c).w r = 1 := by
  rw [show ((now₉ κ).fl c) = ⟨true, true⟩ from rfl, C36.omega_default]

theorem weighted₉ (κ : ℝ) : C98.Weighted (fun x => x) (fun _ => req₆) (now₉ κ) items₆ (fun _ _ => 1) := by
  refine ⟨fun c hc => ⟨fun _ => rfl, by simp [C36.wval, req₆], fun i => by simp [C36.vval, req₆], ?_, fun i => by simp [C36.wval, C36.vval, req₆]⟩,
    fun c _ i _ => by rw [omega₉ κ]; exact zero_le_one⟩
  simp [AS.processRequirements, req₆, now₉, dataOf]

theorem value₉ (κ : ℝ) (z : Nat → ℝ) (val : PVar → Nat → ℝ) : finalValues w₃ final₃ out₃ (env₉ κ).V num₁ z val 1 0 = z 0 := value₃ z val

theorem level₉ (κ : ℝ) (W : Nat → Nat → ℝ) : C98.levelCost w₃ (usr₉ κ) (fun _ _ => 1) items₆ 0 W = max (eU₉ κ - W 1 0) 0 ^ 2 ∧ C98.levelCost w₃ (usr₉ κ) (fun _ _ => 1) items₆ 1 W = (W 1 0 - eO₉ κ) ^ 2 ∧
    C98.levelCost w₃ (usr₉ κ) (fun _ _ => 1) items₆ 2 W = (W 1 0 - eE₉ κ) ^ 2 := by
  have h1 : (usr₉ κ) cU = oneC .greaterThan (eU₉ κ) := rfl
  have h2 : (usr₉ κ) cO = oneC .equal (eO₉ κ) := rfl
  have h3 : (usr₉ κ) cE = oneC .equal (eE₉ κ) := rfl
  have e1 : items₆.filter (fun i => C98.isOrd i && decide (i.prio = 0)) = [⟨cU, 0, .l2, false, false⟩] := rfl
  have e2 : items₆.filter (fun i => C98.isOrd i && decide (i.prio = 1)) = [⟨cO, 1, .l2, false, false⟩] := rfl
  have e3 : items₆.filter (fun i => C98.isOrd i && decide (i.prio = 2)) = [⟨cE, 2, .l2, false, false⟩] := rfl
  unfold C98.levelCost
  rw [e1, e2, e3]
  simp only [List.map_cons, List.map_nil, h1, h2, h3, row₉]
  refine ⟨?_, ?_, ?_⟩ <;> simp [C98.lack, oneC, ctype, C96.meant]

theorem life₉ (κ : ℝ) : ∃ s s' objs, C98.Life op₆ (env₉ κ) items₆ [] 1 (fun _ => 0) s ∧ HR.solve op₆ (env₉ κ) (now₉ κ) (HR.cstOf items₆ []) s = .ok () (s', objs) := by
  obtain ⟨s, h, -⟩ := C68.build_spec op₆ (C98.wf (envOk₉ κ)) fun c hc _ => by
    obtain ⟨i, hi, rfl⟩ := List.mem_map.mp hc
    refine (C68.accepted_iff _).mpr ?_
    simp only [items₆, List.mem_cons, List.not_mem_nil, or_false] at hi
    rcases hi with rfl | rfl | rfl <;> rfl
  have hL : C98.Life op₆ (env₉ κ) items₆ [] 1 (fun _ => 0) s := .build h
  obtain ⟨⟨s', objs⟩, hr⟩ := (C68.C68_returns (C98.wf (envOk₉ κ)) (C98.hist (envOk₉ κ) hL) (C98.theVals op₆ (env₉ κ) (now₉ κ) items₆ [] 1 (fun _ => 0))).mpr (Or.inr (Or.inr (Or.inr
    ⟨HR.Item.cstr (env₉ κ) (fun _ => 0) ⟨cU, 0, .l2, false, false⟩, Or.inl ⟨List.mem_map_of_mem List.mem_cons_self, rfl⟩, Nat.one_ne_zero⟩)))
  exact ⟨s, s', objs, hL, by rw [C98.solve_eq (envOk₉ κ) (nowOk₉ κ) (C98.hist (envOk₉ κ) hL)]; exact hr⟩

theorem rowsLimited₉ {κ : ℝ} (hκ : 3 / 2 ≤ κ ∧ κ ≤ 2) : C95.RowsLimited op₆.big (env₉ κ) (now₉ κ) (C98.Rows items₆ []) (x₉ κ) := by
  intro c hc i hi
  rcases (ords₆ c).1 (rows₆ (Or.inl hc)) with rfl | rfl | rfl
  · have hi0 : i = 0 := by have : i < 1 := hi; omega
    subst hi0
    refine ⟨fun _ => ?_, fun hh => by cases hh⟩
    have hcu : C98.Ords items₆ cU := (ords₆ cU).mpr (Or.inl rfl)
    obtain ⟨-, -, l3, -, -, -, l7, -⟩ := C70.C70_lists .init finalize₃
    have hr := (C96.final_represents .init finalize₃ (linked₉ κ) (x₉ κ) fun _ _ => 0).1
    have q1 := C96.image_eq l3 (linked₉ κ).dimVar (linked₉ κ).dimZ ((linked₉ κ).src cU (Or.inl hcu)).1 ((envOk₉ κ).base.maps cU (Or.inl (Or.inl hcu))) hr (i := 0) (Nat.one_pos)
    have q2 : C34.image ((env₉ κ).src cU) (env₉ κ).V ((now₉ κ).dat cU) (C34.const ((env₉ κ).src cU) ((now₉ κ).dat cU)) 0 = 0 := by
      unfold C34.image C34.const
      simp [show ∀ x, ((env₉ κ).src cU).sub x = none from fun _ => rfl]
    unfold C95.valueOf
    rw [q1, q2, show (usr₉ κ) cU = oneC .greaterThan (eU₉ κ) from rfl, row₉, (value₉ κ)]
    have h1 : C96.meant .asGiven (0 : ℝ) = 0 := rfl
    simp only [op₆, x₉, eO₉]
    linarith [hκ.1, hκ.2]
  · exact ⟨fun hh => (by cases hh), fun hh => (by cases hh)⟩
  · exact ⟨fun hh => (by cases hh), fun hh => (by cases hh)⟩

theorem sol₉ {κ : ℝ} (hκ : 3 / 2 ≤ κ ∧ κ ≤ 2) {s s' : HLS.Solver ℝ} {objs : List (HLS.Obj ℝ)} (hL : C98.Life op₆ (env₉ κ) items₆ [] 1 (fun _ => 0) s) (hs : HR.solve op₆ (env₉ κ) (now₉ κ) (HR.cstOf items₆ []) s = .ok () (s', objs)) : C68.LexSolution 1 objs (x₉ κ) := by
  obtain ⟨-, -, l3, -, -, -, l7, -⟩ := C70.C70_lists .init finalize₃
  have hw0 : ∀ c, C98.Rows items₆ [] c → ∀ r < c.size, 0 ≤ ((now₉ κ).fl c).omega ((now₉ κ).dat c).w r := fun c _ r _ => by rw [omega₉ κ]; exact zero_le_one
  have hside : C98.Sides op₆.big (env₉ κ) (now₉ κ) (C98.Ords items₆) := by
    intro c hc ht
    rcases (ords₆ c).mp hc with rfl | rfl | rfl <;> cases ht
  have hcons := C98.consistent (op := op₆) (envOk₉ κ) (nowOk₉ κ) (by norm_num [op₆]) (fun c hc => (bnds₆ c hc).elim) (z := (x₉ κ)) fun ⟨c, hc⟩ => (bnds₆ c hc).elim
  have hH := C98.hist (envOk₉ κ) hL
  rw [C98.solve_eq (envOk₉ κ) (nowOk₉ κ) hH] at hs
  have hbnd : C68.HasBnd (HR.pbOf (env₉ κ) (fun _ => 0) 1 items₆ []) = false := rfl
  have hpr : C68.priorities (HR.pbOf (env₉ κ) (fun _ => 0) 1 items₆ []) = 3 := rfl
  refine (C68.C68_partial (C98.wf (envOk₉ κ)) (Or.inl rfl) hH hcons hs _).mpr fun y => ?_
  unfold C68.goals
  rw [hpr, hbnd]
  show C68.LexLE [_, _, _] _ y
  have hx : ∀ p, C68.levelViol (HR.pbOf (env₉ κ) (fun _ => 0) 1 items₆ []) op₆.big (C98.theVals op₆ (env₉ κ) (now₉ κ) items₆ [] 1 (fun _ => 0)) p (x₉ κ) =
      C98.levelCost w₃ (usr₉ κ) (fun _ _ => 1) items₆ p (finalValues w₃ final₃ out₃ (env₉ κ).V num₁ (x₉ κ) fun _ _ => 0) := by
    intro p
    rw [C98.zcost_eq op₆ (envOk₉ κ) (nowOk₉ κ) hw0 rfl (weighted₉ κ) (fun _ => rfl) (rowsLimited₉ hκ), ← C98.levelCost_eq l3 (linked₉ κ) (envOk₉ κ) (C96.final_represents .init finalize₃ (linked₉ κ) (x₉ κ) fun _ _ => 0).1]
  have hy : ∀ p, C98.levelCost w₃ (usr₉ κ) (fun _ _ => 1) items₆ p (finalValues w₃ final₃ out₃ (env₉ κ).V num₁ y fun _ _ => 0) ≤
      C68.levelViol (HR.pbOf (env₉ κ) (fun _ => 0) 1 items₆ []) op₆.big (C98.theVals op₆ (env₉ κ) (now₉ κ) items₆ [] 1 (fun _ => 0)) p y := by
    intro p
    rw [C98.levelCost_eq l3 (linked₉ κ) (envOk₉ κ) (C96.final_represents .init finalize₃ (linked₉ κ) y fun _ _ => 0).1]
    exact C98.zcost_le op₆ (envOk₉ κ) (nowOk₉ κ) hw0 rfl (weighted₉ κ) hside (fun _ => rfl) y
  have hx0 := hx 0; have hx1 := hx 1; have hx2 := hx 2
  have hy0 := hy 0; have hy1 := hy 1; have hy2 := hy 2
  rw [((level₉ κ) _).1, (value₉ κ)] at hx0 hy0
  rw [((level₉ κ) _).2.1, (value₉ κ)] at hx1 hy1
  rw [((level₉ κ) _).2.2, (value₉ κ)] at hx2 hy2
  have e0 : max (eU₉ κ - (x₉ κ) 0) 0 = 0 := max_eq_right (by simp only [x₉, eU₉, eO₉]; linarith [hκ.2])
  have e1 : (x₉ κ) 0 - eO₉ κ = 0 := by simp only [x₉]; ring
  rw [e0] at hx0
  rw [e1] at hx1
  simp only [Bool.false_eq_true, false_and, and_false, if_false, add_zero]
  refine lexLE_cons (by rw [hx0]; exact le_trans (by show (0 : ℝ) ^ 2 ≤ _; rw [zero_pow (by norm_num)]; exact sq_nonneg _) hy0) fun _ => lexLE_cons (by rw [hx1]; exact le_trans (by show (0 : ℝ) ^ 2 ≤ _; rw [zero_pow (by norm_num)]; exact sq_nonneg _) hy1) fun h => ?_
  have h2 : (y 0 - eO₉ κ) ^ 2 ≤ 0 := by rw [hx1] at h; linarith
  have h3 : y 0 = (x₉ κ) 0 := by
    have h4 : y 0 - eO₉ κ = 0 := by nlinarith
    simp only [x₉]; linarith
  rw [h3] at hy2
  exact lexLE_cons (by rw [hx2]; exact hy2) fun _ => trivial

theorem hold₉ {κ : ℝ} (hκ : 3 / 2 ≤ κ ∧ κ ≤ 2) (W : Nat → Nat → ℝ) (h : W 1 0 = eO₉ κ) : C96.AllHold w₃ (fun _ _ _ _ => 0) (fun _ _ => 0) [] (usr₉ κ) (UpTo items₆ 1) (C98.Bnds items₆) W := by
  refine ⟨fun s hs => (by cases hs), fun c hc => ?_⟩
  rcases hc with ⟨p, hp, hc⟩ | hc
  · rcases (at₆ p c).1 hc with ⟨-, rfl⟩ | ⟨-, rfl⟩ | ⟨rfl, -⟩
    · intro i _
      show C96.meant .asGiven (eU₉ κ) ≤ C96.row w₃ (oneC .greaterThan (eU₉ κ)) W i
      rw [row₉, h]; simp only [C96.meant, eU₉, eO₉]; linarith [hκ.2]
    · intro i _
      show C96.row w₃ (oneC .equal (eO₉ κ)) W i = C96.meant .asGiven (eO₉ κ)
      rw [row₉, h]; rfl
    · omega
  · exact (bnds₆ c hc).elim

theorem repr₉ (κ : ℝ) (val : PVar → Nat → ℝ) : ∃ ζ, C96.Represents w₃ final₃ out₃ (env₉ κ).V num₁ (x₉ κ) (finalValues w₃ final₃ out₃ (env₉ κ).V num₁ (x₉ κ) val) ζ ∧ C70.Additional w₃ final₃ out₃ (finalValues w₃ final₃ out₃ (env₉ κ).V num₁ (x₉ κ) val) ζ :=
  ⟨_, (C96.final_represents .init finalize₃ (linked₉ κ) (x₉ κ) val).1, fun a u hu => by cases hu⟩

/-- The hypotheses of `C123_partial`, and of `C98_partial` -/
theorem solved₉ {κ : ℝ} (hκ : 3 / 2 ≤ κ ∧ κ ≤ 2) : ∃ s s' objs, C98.Life op₆ (env₉ κ) items₆ [] 1 (fun _ => 0) s ∧ HR.solve op₆ (env₉ κ) (now₉ κ) (HR.cstOf items₆ []) s = .ok () (s', objs) ∧ ∀ x, C68.LexSolution 1 objs x → ∀ val,
    C96.AllHold w₃ (fun _ _ _ _ => 0) (fun _ _ => 0) [] (usr₉ κ) (UpTo items₆ 1) (C98.Bnds items₆) (finalValues w₃ final₃ out₃ (env₉ κ).V num₁ x val) ∧
    C98.Solves w₃ final₃ out₃ num₁ (env₉ κ) (now₉ κ) (fun _ _ _ _ => 0) (fun _ _ => 0) [] (usr₉ κ) items₆ [] (C98.At items₆ 0) (fun _ _ => 1) op₆ 1 1 3 x val := by
  obtain ⟨s, s', objs, hL, hs⟩ := (life₉ κ)
  have hside : C98.Sides op₆.big (env₉ κ) (now₉ κ) (C98.Ords items₆) := by
    intro c hc ht
    rcases (ords₆ c).mp hc with rfl | rfl | rfl <;> cases ht
  have hpos : C95.Positive (now₉ κ) fun c => C98.At items₆ 0 c ∨ c ∈ ([] : List SE.Cstr) := fun c _ i _ => by rw [omega₉ κ]; exact one_pos
  obtain ⟨ζ, h1, h2⟩ := (repr₉ κ) fun _ _ => 0
  have hall := (hold₉ hκ) (finalValues w₃ final₃ out₃ (env₉ κ).V num₁ (x₉ κ) fun _ _ => 0) (by rw [value₉ κ]; rfl)
  refine ⟨s, s', objs, hL, hs, fun x hx val => ⟨?_, ?_⟩⟩
  · exact C123_partial (fun _ => by simp [w₃]) .init finalize₃ (cal := fun _ _ => ⟨fun _ _ => 0, fun _ _ => 0, fun _ _ => 0⟩) (fun a u hu => by cases hu) (linked₉ κ) rfl (envOk₉ κ) hL (nowOk₉ κ) hs (Or.inl rfl) (by norm_num [op₆])
      (fun c hc => (bnds₆ c hc).elim) rfl (weighted₉ κ) hpos hside (q := 1) (fun _ _ _ _ _ _ _ => one_pos) ⟨_, (x₉ κ), ζ, hall, h1, h2, fun ⟨c, hc⟩ => (bnds₆ c hc).elim, (rowsLimited₉ hκ)⟩ hx val
  · exact C98.C98_partial (fun _ => by simp [w₃]) .init finalize₃ (cal := fun _ _ => ⟨fun _ _ => 0, fun _ _ => 0, fun _ _ => 0⟩) (fun a u hu => by cases hu) (linked₉ κ) rfl (envOk₉ κ) hL (nowOk₉ κ) hs (Or.inl rfl) (by norm_num [op₆])
      (fun c hc => (bnds₆ c hc).elim) rfl (weighted₉ κ) hpos hside (N := 3) (by decide) ⟨_, (x₉ κ), ζ, ⟨hall.1, fun c hc => hall.2 c (hc.imp (fun h => ⟨0, Nat.zero_le _, h⟩) id)⟩, h1, h2, fun ⟨c, hc⟩ => (bnds₆ c hc).elim,
        fun c hc => (rowsLimited₉ hκ) c (Or.inl (by obtain ⟨i, a, b, -, d⟩ := hc; exact ⟨i, a, b, d⟩))⟩ hx val

theorem range₉ (k : ℕ) : 3 / 2 ≤ pathB ⟨0, 0⟩ 0 (k * (1 / 2)) ∧ pathB ⟨0, 0⟩ 0 (k * (1 / 2)) ≤ 2 := by
  refine ⟨?_, (speed₉ k).2⟩
  simp only [pathB, if_true]
  exact le_max_right _ _

theorem follows₉ (k : ℕ) : Follows vn₀ items₆ [] (tk₉ (pathB ⟨0, 0⟩ 0 (k * (1 / 2)))) (fun _ => sqTk .equal 1 1) pathB (k * (1 / 2))
    (finalValues w₃ final₃ out₃ (env₉ (pathB ⟨0, 0⟩ 0 (k * (1 / 2)))).V num₁ (x₉ (pathB ⟨0, 0⟩ 0 (k * (1 / 2)))) fun _ _ => 0) := by
  have hd : ∀ τ : Tk, τ.f.vars = [⟨0, 0⟩] → τ.f.dim = square.dim → τ.order = 1 →
      Decided vn₀ τ pathB (k * (1 / 2)) (finalValues w₃ final₃ out₃ (env₉ (pathB ⟨0, 0⟩ 0 (k * (1 / 2)))).V num₁ (x₉ (pathB ⟨0, 0⟩ 0 (k * (1 / 2)))) fun _ _ => 0) := by
    intro τ h1 h2 h3 v hv c hc
    rw [h1, List.mem_singleton] at hv
    rw [h2] at hc
    have hc : c < 1 := hc
    obtain rfl : c = 0 := by omega
    subst hv
    rw [h3]
    exact ((speed₉ k).1.trans rfl).trans (value₉ _ (x₉ (pathB ⟨0, 0⟩ 0 (k * (1 / 2)))) fun _ _ => 0).symm
  refine ⟨fun c _ => ?_, fun s hs => by cases hs⟩
  unfold tk₉
  split
  · exact ⟨one_ok (by decide) rfl _ _ rfl pathB _ (pathB_deriv _), hd _ rfl rfl rfl⟩
  · split
    · exact ⟨one_ok (by decide) rfl _ _ rfl pathB _ (pathB_deriv _), hd _ rfl rfl rfl⟩
    · exact ⟨one_ok (by decide) rfl _ _ rfl pathB _ (pathB_deriv _), hd _ rfl rfl rfl⟩

theorem resolved₉ (k : ℕ) {c : SE.Cstr} (hc : UpTo items₆ 1 c) : Resolved w₃ vn₀ un₀ 1 (tk₉ (pathB ⟨0, 0⟩ 0 (k * (1 / 2))) c) (usr₉ (pathB ⟨0, 0⟩ 0 (k * (1 / 2))) c) pathB (k * (1 / 2))
    (finalValues w₃ final₃ out₃ (env₉ (pathB ⟨0, 0⟩ 0 (k * (1 / 2)))).V num₁ (x₉ (pathB ⟨0, 0⟩ 0 (k * (1 / 2)))) fun _ _ => 0) := by
  have hκ := range₉ k
  have hf := follows₉ k
  generalize pathB ⟨0, 0⟩ 0 (k * (1 / 2)) = κ at hκ hf
  obtain ⟨s, s', objs, hL, hs, hsol⟩ := solved₉ hκ
  obtain ⟨h1, h2⟩ := hsol (x₉ κ) (sol₉ hκ hL hs) fun _ _ => 0
  obtain ⟨ζ, h3, h4⟩ := repr₉ κ fun _ _ => 0
  have hσ : ∀ s ∈ ([] : List Sub), ∀ a ∈ s.cstrs, PosedSub w₃ (fun _ _ _ _ => 0) (fun _ _ => 0) vn₀ un₀ (sqTk .equal 1 1) a := fun s hs => by cases hs
  exact ⟨_, _, _, _, _, _, _, _, _, _, _, _, _, _, _, _, _, tk₉ κ, fun _ => sqTk .equal 1 1, c, h2, fun c _ => posed₉ κ c, hσ, hf, rfl, by norm_num, fun _ _ _ _ _ _ _ => one_pos,
    ⟨pathB, _, x₉ κ, ζ, hf, (holds_iff un_vn₀ (fun c _ => posed₉ κ c) hσ hf 1).1 h1, h3, h4, fun ⟨c, hc⟩ => (bnds₆ c hc).elim, rowsLimited₉ hκ⟩, Or.inl hc, rfl, rfl⟩

/-- The theorem applies to the tasks of the priorities 0 and 1: `x ≥ 1 + (1/2)^k` at the time `k/2`, and `x = 3/2` from the time `1/2` on; the task of the priority 2, which asks for `x = 0`, does not disturb them. -/
example (k : ℕ) : 1 + (1 / 2 : ℝ) ^ k ≤ linF (point square pathB 0 (k * (1 / 2))) 0 ∧ linF (point square pathB 0 ((k + 1) * (1 / 2))) 0 = 3 / 2 := by
  constructor
  · have hS : Sampled w₃ vn₀ un₀ (1 / 2) square (oneT .greaterThan (.proportional (.scalar 1)) 1) linF linD (fun t => C110.outs (pathB ⟨0, 0⟩ 0 t)) (fun t _ => eU₉ (pathB ⟨0, 0⟩ 0 t)) (fun _ => 0) (fun t => usr₉ (pathB ⟨0, 0⟩ 0 t) cU) pathB
        (fun t => finalValues w₃ final₃ out₃ (env₉ (pathB ⟨0, 0⟩ 0 t)).V num₁ (x₉ (pathB ⟨0, 0⟩ 0 t)) fun _ _ => 0) :=
      C123_sampled_partial un_vn₀ (q := 1) (fun k => resolved₉ k (c := cU) ⟨0, by norm_num, (at₆ _ _).2 (Or.inl ⟨rfl, rfl⟩)⟩) (fun _ _ _ => rfl) sampledB.straight
    have := C97_sampled_proportional un_vn₀ (ty := .greaterThan) (l := ⟨1, fun _ => 1⟩) (u := ⟨1, fun _ => 0⟩) (kp := .scalar 1) (Or.inl (by simp [makeTask, Dyn.impl, Dyn.accepts, implAccepts, propAccepts, square, oneT])) (by trivial) hS lin_affine
      (by norm_num) 0 (by decide) (Or.inr (by simp [C64.coef]; norm_num)) k
    have h0 : linF (point square pathB 0 0) 0 = 2 := by
      show pathB ⟨0, 0⟩ 0 0 = 2
      rw [pathB_low (by norm_num)]; norm_num
    have this : (1 : ℝ) + (1 - 1 * (1 / 2)) ^ k * (linF (point square pathB 0 0) 0 - 1) ≤ linF (point square pathB 0 (k * (1 / 2))) 0 := this
    rw [h0] at this
    norm_num at this ⊢
    exact this
  · exact C123_oneStep_partial un_vn₀ (q := 1) (dt := 1 / 2) (by norm_num) (ty := .equal) (l := ⟨1, fun _ => 3 / 2⟩) (u := ⟨1, fun _ => 0⟩) (T := oneT .equal (.oneStep false (1 / 2)) (3 / 2))
      (Or.inl (by simp [makeTask, Dyn.impl, Dyn.accepts, implAccepts, square, oneT])) lin_affine
      (o := fun t => C110.outs (pathB ⟨0, 0⟩ 0 t)) (e := fun t _ => eO₉ (pathB ⟨0, 0⟩ 0 t)) (e2 := fun _ => 0) (usr := fun t => usr₉ (pathB ⟨0, 0⟩ 0 t) cO) (X := pathB)
      (W := fun t => finalValues w₃ final₃ out₃ (env₉ (pathB ⟨0, 0⟩ 0 t)).V num₁ (x₉ (pathB ⟨0, 0⟩ 0 t)) fun _ _ => 0)
      (fun k => resolved₉ k (c := cO) ⟨1, le_rfl, (at₆ _ _).2 (Or.inr (Or.inl ⟨rfl, rfl⟩))⟩) (fun _ _ _ => rfl) sampledB.straight k 0 (by decide)

end

end Verif.C123
