import Verif.Properties.C123_Sampled
import Verif.Properties.C112_Resolved
/-!
# C123 Resolutions of the hierarchical scheme every `dt`, for tasks of the second order

As in `C112_Resolved`, with the hierarchical scheme: the accelerations computed by a resolution are kept until the next one.
-/
set_option autoImplicit false
set_option linter.unusedSectionVars false

namespace Verif.C123
open Verif Verif.SBS Verif.RV Filter Topology

section
open C97 C48 TD LTask TR C110 C112
variable {w : World} {vn : VId → Nat} {un : Nat → VId}
variable {f : Fn ℝ} {T : TaskObj ℝ} {F : Pt f → Nat → ℝ} {D : Nat → Pt f → Pt f →L[ℝ] ℝ} {o : ℝ → Outs ℝ} {e e2 : ℝ → Nat → ℝ} {usr : ℝ → UserCstr ℝ} {X : Path} {W : ℝ → Nat → Nat → ℝ} {dt : ℝ}

/-- **C123** Resolutions with the hierarchical scheme at the times `k dt`, between which the accelerations are kept, make the sampled control loop of the second order for each task of the priorities up to `q`. Partial for the reasons of `C98_partial`,
which gives the resolutions. -/
theorem C123_second_partial (hu : ∀ v, un (vn v) = v) {q : Nat} (h : ∀ k : ℕ, Resolved w vn un q (Tk.at f T F D o e e2 (k * dt)) (usr (k * dt)) X (k * dt) (W (k * dt)))
    (hval : ∀ k : ℕ, ∀ i < f.size, (o (k * dt)).value i = F (point f X 0 (k * dt)) i ∧ (o (k * dt)).velocity i = D i (point f X 0 (k * dt)) (point f X 1 (k * dt))) (harcs : Arcs dt f X) :
    Sampled2 w vn un dt f T F D o e e2 usr X W :=
  ⟨fun k => ((h k).key hu).1, fun k => ((h k).key hu).2.1, fun k => ((h k).key hu).2.2.1, fun k => ((h k).key hu).2.2.2, fun k i hi => (hval k i hi).1, fun k i hi => (hval k i hi).2,
    fun k s h1 h2 v hv c hc => (harcs k s h1 h2 v hv c hc).1, fun k s h1 h2 v hv c hc => (harcs k s h1 h2 v hv c hc).2⟩

/-- **C123** With resolutions every `dt` that keep the accelerations in between, an equality task on an affine function with a proportional derivative dynamics, of one of the priorities up to `q`, is attained in the limit, and its velocity vanishes, if
`0 < kp` and `kp dt / 2 < kv < 2 / dt`, whatever the tasks of the following priorities ask for. -/
theorem C123_pd_partial (hu : ∀ v, un (vn v) = v) {q : Nat} {kp kv : Gain ℝ} {rhs : Vec ℝ} (hT : makeTask f .equal (.pd kp kv) rhs = some T) (hp : C64.Decoupled f.size kp) (hv : C64.Decoupled f.size kv) (ha : Affine F D) (hdt : 0 < dt)
    (h : ∀ k : ℕ, Resolved w vn un q (Tk.at f T F D o e e2 (k * dt)) (usr (k * dt)) X (k * dt) (W (k * dt)))
    (hval : ∀ k : ℕ, ∀ i < f.size, (o (k * dt)).value i = F (point f X 0 (k * dt)) i ∧ (o (k * dt)).velocity i = D i (point f X 0 (k * dt)) (point f X 1 (k * dt))) (harcs : Arcs dt f X)
    (i : Nat) (hi : i < f.size) (hS : 0 < C64.coef kp i ∧ C64.coef kp i * dt / 2 < C64.coef kv i ∧ C64.coef kv i * dt < 2) :
    Tendsto (fun k : ℕ => F (point f X 0 (k * dt)) i) atTop (𝓝 (rhs.v i)) ∧ Tendsto (fun k : ℕ => D i (point f X 0 (k * dt)) (point f X 1 (k * dt))) atTop (𝓝 0) :=
  C112_sampled_pd hu hT hp hv (C123_second_partial hu h hval harcs) ha hdt i hi hS

end

/-! ## The hypotheses are met: `x ≥ -10`, then `x = 5`, then `x = 0`, all with proportional derivative dynamics, along the motion of `C112_Resolved` -/

section
open C97 C48 TD LTask TR C110
open Verif.C96 (num₁ den₁ back₁)
open Verif.C112 (outs3 twoC two_posed two_ok pd_value_decoupled eU₂ eO₂ tkU₂ tkO₂ valueU₂ valueO₂ row₂ V₂ known₂ x₂ p₂ step₂ above₂ path₂ at₂ arcs₂ arcs_deriv Sampled2)

/-- What the dynamics of the third task give; for the others, `eU₂` and `eO₂` -/
noncomputable def eE₂ (y z : ℝ) : ℝ := -(1 * z) - 1 / 4 * (y - 0)

noncomputable def tkE₂ (y z : ℝ) : Tk := ⟨after square (outs3 y z), oneT .equal (.pd (.scalar (1 / 4)) (.scalar 1)) 0, linF, linD, fun _ => eE₂ y z, 0⟩

noncomputable def tk₂ (y z : ℝ) (c : SE.Cstr) : Tk := if c.id = 1 then tkU₂ y z else if c.id = 2 then tkO₂ y z else tkE₂ y z
noncomputable def usr₂ (y z : ℝ) (c : SE.Cstr) : UserCstr ℝ := if c.id = 1 then twoC .greaterThan (eU₂ y z) else if c.id = 2 then twoC .equal (eO₂ y z) else twoC .equal (eE₂ y z)

theorem valueE₂ (y z : ℝ) : (Dyn.pd (.scalar (1 / 4)) (.scalar 1) : Dyn ℝ).value .equal (after square (outs3 y z)) ⟨1, fun _ => 0⟩ = .ok () ⟨1, fun _ => eE₂ y z⟩ :=
  pd_value_decoupled (kp := .scalar (1 / 4)) (kv := .scalar 1) (n := 1) trivial trivial _ _ _

theorem posed₂ (y z : ℝ) (c : SE.Cstr) : Posed w₃ vn₀ un₀ (tk₂ y z c) (usr₂ y z c) := by
  unfold tk₂ usr₂
  split
  · exact two_posed (by decide) rfl _ _ _ (valueU₂ y z)
  · split
    · exact two_posed (by decide) rfl _ _ _ (valueO₂ y z)
    · exact two_posed (by decide) rfl _ _ _ (valueE₂ y z)

noncomputable def env₂ (y z : ℝ) : ASM.Env := ⟨V₂, fun c => sourceOf w₃ final₃ num₁ (fun _ _ => true) (fun _ => .other) ((usr₂ y z) c)⟩

noncomputable def now₂ (y z : ℝ) : ASM.Now ℝ where
  fl := fun _ => ⟨true, true⟩
  dat := fun c => dataOf w₃ final₃ out₃ den₁ ⟨1, -1, fun _ => 0, fun _ => 0⟩ ((usr₂ y z) c)
  bnd := fun _ => ⟨.lowerThan, .asGiven, .identity, 0, 1, fun _ _ => 1, fun _ => 0, fun _ => 0, fun _ => 0, ⟨7, 5, fun _ => 3, fun _ => 2⟩⟩

theorem unk₂ (y z : ℝ) (c : SE.Cstr) : unknowns w₃ final₃ [(usr₂ y z) c] = [.var 4] := by
  unfold usr₂
  split
  · rfl
  · split <;> rfl

theorem assembled₂ (y z : ℝ) : C96.Assembled w₃ final₃ out₃ num₁ den₁ (env₂ y z) (now₂ y z) (usr₂ y z) (fun _ _ => cU) (C98.Ords items₆) (C98.Rows items₆ []) (C98.Bnds items₆) (fun _ => False) (fun _ => 0) := by
  have hd : ∀ p, V₂.dim (num₁ p) = match p with
    | .var _ => 1
    | .z _ _ => 0 := by
    intro p
    simp only [V₂, back₁]
    cases p <;> rfl
  refine ⟨back₁, fun x => hd (.var x), fun a k => hd (.z a k), ?_, ?_, ?_, ?_, ?_, ?_⟩
  · intro p p' h h' hne
    exact absurd (((known₂ p).mp h).trans ((known₂ p').mp h').symm) hne
  · intro p
    refine (known₂ p).trans ⟨fun h => ⟨cU, Or.inl ((ords₆ _).2 (Or.inl rfl)), by rw [unk₂ y z, h]; simp⟩, ?_⟩
    rintro ⟨c, -, hp⟩
    rw [unk₂ y z] at hp; simpa using hp
  · intro c
    have : final₃.addCstrs = [] := rfl
    simp [this, C98.Rows]
  · intro c hc
    refine ⟨⟨_, _, rfl⟩, ⟨_, rfl⟩, ?_⟩
    rcases hc with hc | hc
    · rcases (ords₆ c).1 hc with rfl | rfl | rfl <;> simp [usr₂, cU, cO, cE, twoC]
    · exact hc.elim
  · intro a k hak
    cases hak
  · intro c hc
    exact (bnds₆ c hc).elim

theorem linked₂ (y z : ℝ) : C96.Linked w₃ final₃ out₃ num₁ (env₂ y z) (now₂ y z) (usr₂ y z) (fun _ _ => cU) (C98.Ords items₆) (C98.Rows items₆ []) (C98.Bnds items₆) (fun _ => False) (fun _ => 0) := (C96.C96_assembled .init finalize₃ (assembled₂ y z)).1

theorem envOk₂ (y z : ℝ) : C98.EnvOk (env₂ y z) items₆ [] 1 (fun _ => 0) := by
  refine ⟨⟨?_, fun c hc => hc.elim, ?_, ?_, fun c hc => (bnds₆ c hc).elim⟩, by decide, fun c hc => by cases hc⟩
  · intro c hc
    rcases (ords₆ c).1 (rows₆ hc) with rfl | rfl | rfl <;> simp [env₂, usr₂, cU, cO, cE, twoC, sourceOf, ctype, C95.ty]
  · intro c hc
    exact (C96.C96_assembled .init finalize₃ (assembled₂ y z)).2 c (Or.inl (rows₆ hc))
  · intro c hc x x' hy
    have : ((env₂ y z).src c).subs = [] := rfl
    unfold AS.Src.sub
    rw [this]; rfl

theorem nowOk₂ (y z : ℝ) : C98.NowOk (env₂ y z) (now₂ y z) items₆ [] 1 (fun _ => 0) := by
  have hk : ∀ m, V₂.known m = true → m = 8 := by intro m h; simpa [V₂] using h
  have hs : ∀ c x, ((env₂ y z).src c).sub x = none := fun c x => rfl
  refine ⟨⟨fun c hc => ⟨(envOk₂ y z).base.maps c hc, ?_, ?_, ?_, ?_, ?_, ?_, (envOk₂ y z).base.flat c hc, ?_, ?_⟩, fun c hc => (bnds₆ c hc).elim⟩, fun c hc => (bnds₆ c hc).elim⟩
  · intro x hx
    obtain rfl := hk x hx
    show V₂.col 8 + V₂.dim 8 ≤ 1
    decide
  · intro x x' hx hy hne j
    exact absurd ((hk x hx).trans (hk x' hy).symm) hne
  · rcases (ords₆ c).1 (rows₆ hc) with rfl | rfl | rfl <;> simp [env₂, usr₂, cU, cO, cE, twoC, sourceOf]
  · intro x hx; cases hx
  · intro x hx; cases hx
  · intro x i hx hu
    rw [hs] at hx; cases hx
  · rfl
  · intro i
    simp [now₂, dataOf]

theorem omega₂ (y z : ℝ) (c : SE.Cstr) (r : Nat) : ((now₂ y z).fl c).omega ((now₂ y z).dat c).w r = 1 := by
  rw [show ((now₂ y z).fl c) = ⟨true, true⟩ from rfl, C36.omega_default]

theorem weighted₂ (y z : ℝ) : C98.Weighted (fun x => x) (fun _ => req₆) (now₂ y z) items₆ (fun _ _ => 1) := by
  refine ⟨fun c hc => ⟨fun _ => rfl, by simp [C36.wval, req₆], fun i => by simp [C36.vval, req₆], ?_, fun i => by simp [C36.wval, C36.vval, req₆]⟩,
    fun c _ i _ => by rw [omega₂ y z]; exact zero_le_one⟩
  simp [AS.processRequirements, req₆, now₂, dataOf]

theorem value₂ (y z : ℝ) (g : Nat → ℝ) (val : PVar → Nat → ℝ) : finalValues w₃ final₃ out₃ (env₂ y z).V num₁ g val 4 0 = g 0 := C112.value₂ g val

theorem level₂ (y z : ℝ) (W : Nat → Nat → ℝ) : C98.levelCost w₃ (usr₂ y z) (fun _ _ => 1) items₆ 0 W = max (eU₂ y z - W 4 0) 0 ^ 2 ∧ C98.levelCost w₃ (usr₂ y z) (fun _ _ => 1) items₆ 1 W = (W 4 0 - eO₂ y z) ^ 2 ∧
    C98.levelCost w₃ (usr₂ y z) (fun _ _ => 1) items₆ 2 W = (W 4 0 - eE₂ y z) ^ 2 := by
  have h1 : (usr₂ y z) cU = twoC .greaterThan (eU₂ y z) := rfl
  have h2 : (usr₂ y z) cO = twoC .equal (eO₂ y z) := rfl
  have h3 : (usr₂ y z) cE = twoC .equal (eE₂ y z) := rfl
  have e1 : items₆.filter (fun i => C98.isOrd i && decide (i.prio = 0)) = [⟨cU, 0, .l2, false, false⟩] := rfl
  have e2 : items₆.filter (fun i => C98.isOrd i && decide (i.prio = 1)) = [⟨cO, 1, .l2, false, false⟩] := rfl
  have e3 : items₆.filter (fun i => C98.isOrd i && decide (i.prio = 2)) = [⟨cE, 2, .l2, false, false⟩] := rfl
  unfold C98.levelCost
  rw [e1, e2, e3]
  simp only [List.map_cons, List.map_nil, h1, h2, h3, row₂]
  refine ⟨?_, ?_, ?_⟩ <;> simp [C98.lack, twoC, ctype, C96.meant]

theorem life₂ (y z : ℝ) : ∃ s s' objs, C98.Life op₆ (env₂ y z) items₆ [] 1 (fun _ => 0) s ∧ HR.solve op₆ (env₂ y z) (now₂ y z) (HR.cstOf items₆ []) s = .ok () (s', objs) := by
  obtain ⟨s, h, -⟩ := C68.build_spec op₆ (C98.wf (envOk₂ y z)) fun c hc _ => by
    obtain ⟨i, hi, rfl⟩ := List.mem_map.mp hc
    refine (C68.accepted_iff _).mpr ?_
    simp only [items₆, List.mem_cons, List.not_mem_nil, or_false] at hi
    rcases hi with rfl | rfl | rfl <;> rfl
  have hL : C98.Life op₆ (env₂ y z) items₆ [] 1 (fun _ => 0) s := .build h
  obtain ⟨⟨s', objs⟩, hr⟩ := (C68.C68_returns (C98.wf (envOk₂ y z)) (C98.hist (envOk₂ y z) hL) (C98.theVals op₆ (env₂ y z) (now₂ y z) items₆ [] 1 (fun _ => 0))).mpr (Or.inr (Or.inr (Or.inr
    ⟨HR.Item.cstr (env₂ y z) (fun _ => 0) ⟨cU, 0, .l2, false, false⟩, Or.inl ⟨List.mem_map_of_mem List.mem_cons_self, rfl⟩, Nat.one_ne_zero⟩)))
  exact ⟨s, s', objs, hL, by rw [C98.solve_eq (envOk₂ y z) (nowOk₂ y z) (C98.hist (envOk₂ y z) hL)]; exact hr⟩

theorem rowsLimited₂ {y z : ℝ} (hκ : 5 ≤ y ∧ y ≤ 6 ∧ -1 ≤ z ∧ z ≤ 1) : C95.RowsLimited op₆.big (env₂ y z) (now₂ y z) (C98.Rows items₆ []) (x₂ y z) := by
  intro c hc i hi
  rcases (ords₆ c).1 (rows₆ (Or.inl hc)) with rfl | rfl | rfl
  · have hi0 : i = 0 := by have : i < 1 := hi; omega
    subst hi0
    refine ⟨fun _ => ?_, fun hh => by cases hh⟩
    have hcu : C98.Ords items₆ cU := (ords₆ cU).mpr (Or.inl rfl)
    obtain ⟨-, -, l3, -, -, -, l7, -⟩ := C70.C70_lists .init finalize₃
    have hr := (C96.final_represents .init finalize₃ (linked₂ y z) (x₂ y z) fun _ _ => 0).1
    have q1 := C96.image_eq l3 (linked₂ y z).dimVar (linked₂ y z).dimZ ((linked₂ y z).src cU (Or.inl hcu)).1 ((envOk₂ y z).base.maps cU (Or.inl (Or.inl hcu))) hr (i := 0) (Nat.one_pos)
    have q2 : C34.image ((env₂ y z).src cU) (env₂ y z).V ((now₂ y z).dat cU) (C34.const ((env₂ y z).src cU) ((now₂ y z).dat cU)) 0 = 0 := by
      unfold C34.image C34.const
      simp [show ∀ x, ((env₂ y z).src cU).sub x = none from fun _ => rfl]
    unfold C95.valueOf
    rw [q1, q2, show (usr₂ y z) cU = twoC .greaterThan (eU₂ y z) from rfl, row₂, (value₂ y z)]
    have h1 : C96.meant .asGiven (0 : ℝ) = 0 := rfl
    simp only [op₆, x₂, eO₂]
    linarith [hκ.1, hκ.1, hκ.2.1, hκ.2.2.1, hκ.2.2.2]
  · exact ⟨fun hh => (by cases hh), fun hh => (by cases hh)⟩
  · exact ⟨fun hh => (by cases hh), fun hh => (by cases hh)⟩

theorem sol₂ {y z : ℝ} (hκ : 5 ≤ y ∧ y ≤ 6 ∧ -1 ≤ z ∧ z ≤ 1) {s s' : HLS.Solver ℝ} {objs : List (HLS.Obj ℝ)} (hL : C98.Life op₆ (env₂ y z) items₆ [] 1 (fun _ => 0) s) (hs : HR.solve op₆ (env₂ y z) (now₂ y z) (HR.cstOf items₆ []) s = .ok () (s', objs)) : C68.LexSolution 1 objs (x₂ y z) := by
  obtain ⟨-, -, l3, -, -, -, l7, -⟩ := C70.C70_lists .init finalize₃
  have hw0 : ∀ c, C98.Rows items₆ [] c → ∀ r < c.size, 0 ≤ ((now₂ y z).fl c).omega ((now₂ y z).dat c).w r := fun c _ r _ => by rw [omega₂ y z]; exact zero_le_one
  have hside : C98.Sides op₆.big (env₂ y z) (now₂ y z) (C98.Ords items₆) := by
    intro c hc ht
    rcases (ords₆ c).mp hc with rfl | rfl | rfl <;> cases ht
  have hcons := C98.consistent (op := op₆) (envOk₂ y z) (nowOk₂ y z) (by norm_num [op₆]) (fun c hc => (bnds₆ c hc).elim) (z := (x₂ y z)) fun ⟨c, hc⟩ => (bnds₆ c hc).elim
  have hH := C98.hist (envOk₂ y z) hL
  rw [C98.solve_eq (envOk₂ y z) (nowOk₂ y z) hH] at hs
  have hbnd : C68.HasBnd (HR.pbOf (env₂ y z) (fun _ => 0) 1 items₆ []) = false := rfl
  have hpr : C68.priorities (HR.pbOf (env₂ y z) (fun _ => 0) 1 items₆ []) = 3 := rfl
  refine (C68.C68_partial (C98.wf (envOk₂ y z)) (Or.inl rfl) hH hcons hs _).mpr fun g => ?_
  unfold C68.goals
  rw [hpr, hbnd]
  show C68.LexLE [_, _, _] _ g
  have hx : ∀ p, C68.levelViol (HR.pbOf (env₂ y z) (fun _ => 0) 1 items₆ []) op₆.big (C98.theVals op₆ (env₂ y z) (now₂ y z) items₆ [] 1 (fun _ => 0)) p (x₂ y z) =
      C98.levelCost w₃ (usr₂ y z) (fun _ _ => 1) items₆ p (finalValues w₃ final₃ out₃ (env₂ y z).V num₁ (x₂ y z) fun _ _ => 0) := by
    intro p
    rw [C98.zcost_eq op₆ (envOk₂ y z) (nowOk₂ y z) hw0 rfl (weighted₂ y z) (fun _ => rfl) (rowsLimited₂ hκ), ← C98.levelCost_eq l3 (linked₂ y z) (envOk₂ y z) (C96.final_represents .init finalize₃ (linked₂ y z) (x₂ y z) fun _ _ => 0).1]
  have hy : ∀ p, C98.levelCost w₃ (usr₂ y z) (fun _ _ => 1) items₆ p (finalValues w₃ final₃ out₃ (env₂ y z).V num₁ g fun _ _ => 0) ≤
      C68.levelViol (HR.pbOf (env₂ y z) (fun _ => 0) 1 items₆ []) op₆.big (C98.theVals op₆ (env₂ y z) (now₂ y z) items₆ [] 1 (fun _ => 0)) p g := by
    intro p
    rw [C98.levelCost_eq l3 (linked₂ y z) (envOk₂ y z) (C96.final_represents .init finalize₃ (linked₂ y z) g fun _ _ => 0).1]
    exact C98.zcost_le op₆ (envOk₂ y z) (nowOk₂ y z) hw0 rfl (weighted₂ y z) hside (fun _ => rfl) g
  have hx0 := hx 0; have hx1 := hx 1; have hx2 := hx 2
  have hy0 := hy 0; have hy1 := hy 1; have hy2 := hy 2
  rw [((level₂ y z) _).1, (value₂ y z)] at hx0 hy0
  rw [((level₂ y z) _).2.1, (value₂ y z)] at hx1 hy1
  rw [((level₂ y z) _).2.2, (value₂ y z)] at hx2 hy2
  have e0 : max (eU₂ y z - (x₂ y z) 0) 0 = 0 := max_eq_right (by simp only [x₂, eU₂, eO₂]; linarith [hκ.1, hκ.2.1, hκ.2.2.1, hκ.2.2.2])
  have e1 : (x₂ y z) 0 - eO₂ y z = 0 := by simp only [x₂]; ring
  rw [e0] at hx0
  rw [e1] at hx1
  simp only [Bool.false_eq_true, false_and, and_false, if_false, add_zero]
  refine lexLE_cons (by rw [hx0]; exact le_trans (by show (0 : ℝ) ^ 2 ≤ _; rw [zero_pow (by norm_num)]; exact sq_nonneg _) hy0) fun _ => lexLE_cons (by rw [hx1]; exact le_trans (by show (0 : ℝ) ^ 2 ≤ _; rw [zero_pow (by norm_num)]; exact sq_nonneg _) hy1) fun h => ?_
  have h2 : (g 0 - eO₂ y z) ^ 2 ≤ 0 := by rw [hx1] at h; linarith
  have h3 : g 0 = (x₂ y z) 0 := by
    have h4 : g 0 - eO₂ y z = 0 := by nlinarith
    simp only [x₂]; linarith
  rw [h3] at hy2
  exact lexLE_cons (by rw [hx2]; exact hy2) fun _ => trivial

theorem hold₂ {y z : ℝ} (hκ : 5 ≤ y ∧ y ≤ 6 ∧ -1 ≤ z ∧ z ≤ 1) (W : Nat → Nat → ℝ) (h : W 4 0 = eO₂ y z) : C96.AllHold w₃ (fun _ _ _ _ => 0) (fun _ _ => 0) [] (usr₂ y z) (UpTo items₆ 1) (C98.Bnds items₆) W := by
  refine ⟨fun s hs => (by cases hs), fun c hc => ?_⟩
  rcases hc with ⟨p, hp, hc⟩ | hc
  · rcases (at₆ p c).1 hc with ⟨-, rfl⟩ | ⟨-, rfl⟩ | ⟨rfl, -⟩
    · intro i _
      show C96.meant .asGiven (eU₂ y z) ≤ C96.row w₃ (twoC .greaterThan (eU₂ y z)) W i
      rw [row₂, h]; simp only [C96.meant, eU₂, eO₂]; linarith [hκ.1, hκ.2.1, hκ.2.2.1, hκ.2.2.2]
    · intro i _
      show C96.row w₃ (twoC .equal (eO₂ y z)) W i = C96.meant .asGiven (eO₂ y z)
      rw [row₂, h]; rfl
    · omega
  · exact (bnds₆ c hc).elim

theorem repr₂ (y z : ℝ) (val : PVar → Nat → ℝ) : ∃ ζ, C96.Represents w₃ final₃ out₃ (env₂ y z).V num₁ (x₂ y z) (finalValues w₃ final₃ out₃ (env₂ y z).V num₁ (x₂ y z) val) ζ ∧ C70.Additional w₃ final₃ out₃ (finalValues w₃ final₃ out₃ (env₂ y z).V num₁ (x₂ y z) val) ζ :=
  ⟨_, (C96.final_represents .init finalize₃ (linked₂ y z) (x₂ y z) val).1, fun a u hu => by cases hu⟩

/-- The hypotheses of `C123_partial`, and of `C98_partial` -/
theorem solved₂ {y z : ℝ} (hκ : 5 ≤ y ∧ y ≤ 6 ∧ -1 ≤ z ∧ z ≤ 1) : ∃ s s' objs, C98.Life op₆ (env₂ y z) items₆ [] 1 (fun _ => 0) s ∧ HR.solve op₆ (env₂ y z) (now₂ y z) (HR.cstOf items₆ []) s = .ok () (s', objs) ∧ ∀ x, C68.LexSolution 1 objs x → ∀ val,
    C96.AllHold w₃ (fun _ _ _ _ => 0) (fun _ _ => 0) [] (usr₂ y z) (UpTo items₆ 1) (C98.Bnds items₆) (finalValues w₃ final₃ out₃ (env₂ y z).V num₁ x val) ∧
    C98.Solves w₃ final₃ out₃ num₁ (env₂ y z) (now₂ y z) (fun _ _ _ _ => 0) (fun _ _ => 0) [] (usr₂ y z) items₆ [] (C98.At items₆ 0) (fun _ _ => 1) op₆ 1 1 3 x val := by
  obtain ⟨s, s', objs, hL, hs⟩ := (life₂ y z)
  have hside : C98.Sides op₆.big (env₂ y z) (now₂ y z) (C98.Ords items₆) := by
    intro c hc ht
    rcases (ords₆ c).mp hc with rfl | rfl | rfl <;> cases ht
  have hpos : C95.Positive (now₂ y z) fun c => C98.At items₆ 0 c ∨ c ∈ ([] : List SE.Cstr) := fun c _ i _ => by rw [omega₂ y z]; exact one_pos
  obtain ⟨ζ, h1, h2⟩ := (repr₂ y z) fun _ _ => 0
  have hall := (hold₂ hκ) (finalValues w₃ final₃ out₃ (env₂ y z).V num₁ (x₂ y z) fun _ _ => 0) (by rw [value₂ y z]; rfl)
  refine ⟨s, s', objs, hL, hs, fun x hx val => ⟨?_, ?_⟩⟩
  · exact C123_partial (fun _ => by simp [w₃]) .init finalize₃ (cal := fun _ _ => ⟨fun _ _ => 0, fun _ _ => 0, fun _ _ => 0⟩) (fun a u hu => by cases hu) (linked₂ y z) rfl (envOk₂ y z) hL (nowOk₂ y z) hs (Or.inl rfl) (by norm_num [op₆])
      (fun c hc => (bnds₆ c hc).elim) rfl (weighted₂ y z) hpos hside (q := 1) (fun _ _ _ _ _ _ _ => one_pos) ⟨_, (x₂ y z), ζ, hall, h1, h2, fun ⟨c, hc⟩ => (bnds₆ c hc).elim, (rowsLimited₂ hκ)⟩ hx val
  · exact C98.C98_partial (fun _ => by simp [w₃]) .init finalize₃ (cal := fun _ _ => ⟨fun _ _ => 0, fun _ _ => 0, fun _ _ => 0⟩) (fun a u hu => by cases hu) (linked₂ y z) rfl (envOk₂ y z) hL (nowOk₂ y z) hs (Or.inl rfl) (by norm_num [op₆])
      (fun c hc => (bnds₆ c hc).elim) rfl (weighted₂ y z) hpos hside (N := 3) (by decide) ⟨_, (x₂ y z), ζ, ⟨hall.1, fun c hc => hall.2 c (hc.imp (fun h => ⟨0, Nat.zero_le _, h⟩) id)⟩, h1, h2, fun ⟨c, hc⟩ => (bnds₆ c hc).elim,
        fun c hc => (rowsLimited₂ hκ) c (Or.inl (by obtain ⟨i, a, b, -, d⟩ := hc; exact ⟨i, a, b, d⟩))⟩ hx val

theorem range₂ (k : ℕ) : 5 ≤ path₂ ⟨0, 0⟩ 0 (k * 1) ∧ path₂ ⟨0, 0⟩ 0 (k * 1) ≤ 6 ∧ -1 ≤ path₂ ⟨0, 1⟩ 0 (k * 1) ∧ path₂ ⟨0, 1⟩ 0 (k * 1) ≤ 1 := by
  have h : ∀ k : ℕ, (p₂ k).1 ≤ 1 ∧ (p₂ k).2 ≤ 0 := by
    intro k
    induction k with
    | zero =>
      have h : p₂ 0 = (1, 0) := rfl
      rw [h]; norm_num
    | succ k ih =>
      rw [(step₂ k).1, (step₂ k).2]
      constructor <;> linarith [ih.1, ih.2, (above₂ k).1]
  rw [(at₂ k).1, (at₂ k).2.1]
  have h1 := above₂ k
  have h2 := h k
  refine ⟨?_, ?_, ?_, ?_⟩ <;> linarith [h1.1, h1.2, h2.1, h2.2]

theorem follows₂ (k : ℕ) : Follows vn₀ items₆ [] (tk₂ (path₂ ⟨0, 0⟩ 0 (k * 1)) (path₂ ⟨0, 1⟩ 0 (k * 1))) (fun _ => sqTk .equal 1 1) path₂ (k * 1)
    (finalValues w₃ final₃ out₃ (env₂ (path₂ ⟨0, 0⟩ 0 (k * 1)) (path₂ ⟨0, 1⟩ 0 (k * 1))).V num₁ (x₂ (path₂ ⟨0, 0⟩ 0 (k * 1)) (path₂ ⟨0, 1⟩ 0 (k * 1))) fun _ _ => 0) := by
  have hd : ∀ τ : Tk, τ.f.vars = [⟨0, 0⟩] → τ.f.dim = square.dim → τ.order = 2 →
      Decided vn₀ τ path₂ (k * 1) (finalValues w₃ final₃ out₃ (env₂ (path₂ ⟨0, 0⟩ 0 (k * 1)) (path₂ ⟨0, 1⟩ 0 (k * 1))).V num₁ (x₂ (path₂ ⟨0, 0⟩ 0 (k * 1)) (path₂ ⟨0, 1⟩ 0 (k * 1))) fun _ _ => 0) := by
    intro τ h1 h2 h3 v hv c hc
    rw [h1, List.mem_singleton] at hv
    rw [h2] at hc
    have hc : c < 1 := hc
    obtain rfl : c = 0 := by omega
    subst hv
    rw [h3]
    refine Eq.trans ?_ (value₂ _ _ (x₂ (path₂ ⟨0, 0⟩ 0 (k * 1)) (path₂ ⟨0, 1⟩ 0 (k * 1))) fun _ _ => 0).symm
    show path₂ ⟨0, 2⟩ 0 (k * 1) = eO₂ _ _
    rw [(at₂ k).1, (at₂ k).2.1, (at₂ k).2.2]
  refine ⟨fun c _ => ?_, fun s hs => by cases hs⟩
  unfold tk₂
  split
  · exact ⟨two_ok (by decide) rfl _ _ _ (valueU₂ _ _) _ _ fun s hs => arcs_deriv (le_trans (by positivity) hs), hd _ rfl rfl rfl⟩
  · split
    · exact ⟨two_ok (by decide) rfl _ _ _ (valueO₂ _ _) _ _ fun s hs => arcs_deriv (le_trans (by positivity) hs), hd _ rfl rfl rfl⟩
    · exact ⟨two_ok (by decide) rfl _ _ _ (valueE₂ _ _) _ _ fun s hs => arcs_deriv (le_trans (by positivity) hs), hd _ rfl rfl rfl⟩

theorem resolved₂ (k : ℕ) {c : SE.Cstr} (hc : UpTo items₆ 1 c) :
    Resolved w₃ vn₀ un₀ 1 (tk₂ (path₂ ⟨0, 0⟩ 0 (k * 1)) (path₂ ⟨0, 1⟩ 0 (k * 1)) c) (usr₂ (path₂ ⟨0, 0⟩ 0 (k * 1)) (path₂ ⟨0, 1⟩ 0 (k * 1)) c) path₂ (k * 1)
    (finalValues w₃ final₃ out₃ (env₂ (path₂ ⟨0, 0⟩ 0 (k * 1)) (path₂ ⟨0, 1⟩ 0 (k * 1))).V num₁ (x₂ (path₂ ⟨0, 0⟩ 0 (k * 1)) (path₂ ⟨0, 1⟩ 0 (k * 1))) fun _ _ => 0) := by
  have hκ := range₂ k
  have hf := follows₂ k
  generalize path₂ ⟨0, 0⟩ 0 (k * 1) = y at hκ hf
  generalize path₂ ⟨0, 1⟩ 0 (k * 1) = z at hκ hf
  obtain ⟨s, s', objs, hL, hs, hsol⟩ := solved₂ hκ
  obtain ⟨h1, h2⟩ := hsol (x₂ y z) (sol₂ hκ hL hs) fun _ _ => 0
  obtain ⟨ζ, h3, h4⟩ := repr₂ y z fun _ _ => 0
  have hσ : ∀ s ∈ ([] : List Sub), ∀ a ∈ s.cstrs, PosedSub w₃ (fun _ _ _ _ => 0) (fun _ _ => 0) vn₀ un₀ (sqTk .equal 1 1) a := fun s hs => by cases hs
  exact ⟨_, _, _, _, _, _, _, _, _, _, _, _, _, _, _, _, _, tk₂ y z, fun _ => sqTk .equal 1 1, c, h2, fun c _ => posed₂ y z c, hσ, hf, rfl, by norm_num, fun _ _ _ _ _ _ _ => one_pos,
    ⟨path₂, _, x₂ y z, ζ, hf, (holds_iff un_vn₀ (fun c _ => posed₂ y z c) hσ hf 1).1 h1, h3, h4, fun ⟨c, hc⟩ => (bnds₆ c hc).elim, rowsLimited₂ hκ⟩, Or.inl hc, rfl, rfl⟩

/-- The theorems apply to the task of the priority 1, `x` tends to 5 though the task of the priority 2 asks for 0, and to the one of the priority 0. -/
example : (linF (point square path₂ 0 0) 0 = 6 ∧ Tendsto (fun k : ℕ => linF (point square path₂ 0 (k * 1)) 0) atTop (𝓝 5)) ∧
    Sampled2 w₃ vn₀ un₀ 1 square (oneT .greaterThan (.pd (.scalar (1 / 3)) (.scalar 1)) (-10)) linF linD (fun t => outs3 (path₂ ⟨0, 0⟩ 0 t) (path₂ ⟨0, 1⟩ 0 t)) (fun t _ => eU₂ (path₂ ⟨0, 0⟩ 0 t) (path₂ ⟨0, 1⟩ 0 t)) (fun _ => 0)
      (fun t => usr₂ (path₂ ⟨0, 0⟩ 0 t) (path₂ ⟨0, 1⟩ 0 t) cU) path₂
      (fun t => finalValues w₃ final₃ out₃ (env₂ (path₂ ⟨0, 0⟩ 0 t) (path₂ ⟨0, 1⟩ 0 t)).V num₁ (x₂ (path₂ ⟨0, 0⟩ 0 t) (path₂ ⟨0, 1⟩ 0 t)) fun _ _ => 0) := by
  refine ⟨⟨?_, ?_⟩, C123_second_partial un_vn₀ (q := 1) (fun k => resolved₂ k (c := cU) ⟨0, by norm_num, (at₆ _ _).2 (Or.inl ⟨rfl, rfl⟩)⟩) (fun k i _ => ⟨rfl, rfl⟩) arcs₂⟩
  · have := (at₂ 0).1
    rw [Nat.cast_zero, zero_mul] at this
    refine this.trans ?_
    show (1 : ℝ) + 5 = 6
    norm_num
  · exact (C123_pd_partial un_vn₀ (q := 1) (kp := .scalar (1 / 4)) (kv := .scalar 1) (rhs := ⟨1, fun _ => 5⟩) (T := oneT .equal (.pd (.scalar (1 / 4)) (.scalar 1)) 5)
      (by simp [makeTask, Dyn.impl, Dyn.accepts, implAccepts, gainFits, square, oneT]) trivial trivial lin_affine one_pos
      (o := fun t => outs3 (path₂ ⟨0, 0⟩ 0 t) (path₂ ⟨0, 1⟩ 0 t)) (e := fun t _ => eO₂ (path₂ ⟨0, 0⟩ 0 t) (path₂ ⟨0, 1⟩ 0 t)) (e2 := fun _ => 0) (usr := fun t => usr₂ (path₂ ⟨0, 0⟩ 0 t) (path₂ ⟨0, 1⟩ 0 t) cO) (X := path₂)
      (W := fun t => finalValues w₃ final₃ out₃ (env₂ (path₂ ⟨0, 0⟩ 0 t) (path₂ ⟨0, 1⟩ 0 t)).V num₁ (x₂ (path₂ ⟨0, 0⟩ 0 t) (path₂ ⟨0, 1⟩ 0 t)) fun _ _ => 0)
      (fun k => resolved₂ k (c := cO) ⟨1, le_rfl, (at₆ _ _).2 (Or.inr (Or.inl ⟨rfl, rfl⟩))⟩) (fun k i _ => ⟨rfl, rfl⟩) arcs₂ 0 (by decide)
      (by simp only [C64.coef]; norm_num)).1

end

end Verif.C123
