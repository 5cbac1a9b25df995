import Verif.Model.ResolutionValues
import Verif.Properties.C95_SolverAssembly
/-!
# C96: after a resolution, the values of the variables solve the problem of the user, substitutions included

C95 is about the unknowns of the solver. Here the problem of the user is stated without the solver: variables, the constraints used for substitutions, the other constraints, the bounds, the objectives. After the
resolution the unknowns of the solver have received its result and the substituted variables the values of their functions: these values satisfy all the constraints, and no other values that satisfy
all of them do better.
-/
set_option autoImplicit false
set_option linter.unusedSectionVars false

namespace Verif.C96
open Verif Verif.SBS Verif.RV

/-! ## Specification -/

section
variable {K : Type} [Field K] [LinearOrder K]

/-- `Σ J_x x` for the values `W` of the variables -/
def row (w : World) (c : UserCstr K) (W : Nat → Nat → K) (i : Nat) : K := (c.vars.map fun x => ∑ k ∈ Finset.range (w.dim x), c.jac x i k * W x k).sum

/-- The right-hand side meant by a vector -/
def meant (r : AS.Rhs) (v : K) : K :=
  match r with
  | .zero => 0
  | .asGiven => v
  | .opposite => -v

/-- The constraint holds for the values `W` of the variables. -/
def Sat (w : World) (c : UserCstr K) (W : Nat → Nat → K) : Prop :=
  ∀ i < c.size,
    match c.type with
    | .equal => row w c W i = meant c.rhs (c.e i)
    | .greaterThan => meant c.rhs (c.l i) ≤ row w c W i
    | .lowerThan => row w c W i ≤ meant c.rhs (c.u i)
    | .doubleSided => meant c.rhs (c.l i) ≤ row w c W i ∧ row w c W i ≤ meant c.rhs (c.u i)

/-- What the user asks: the constraints `U` and `B` (the bounds), and those used for the substitutions `l`, hold. -/
def AllHold (w : World) (J : Nat → Nat → Nat → Nat → K) (e : Nat → Nat → K) (l : List Sub) (usr : SE.Cstr → UserCstr K) (U B : SE.Cstr → Prop) (W : Nat → Nat → K) : Prop :=
  (∀ s ∈ l, ∀ c ∈ s.cstrs, C70.Holds w J e W c) ∧ ∀ c, U c ∨ B c → Sat w (usr c) W

/-- The weighted sum of the squares of the residuals -/
def cost (w : World) (usr : SE.Cstr → UserCstr K) (wt : SE.Cstr → Nat → K) (os : List SE.Cstr) (W : Nat → Nat → K) : K :=
  (os.map fun c => ∑ i ∈ Finset.range (usr c).size, wt c i * (row w (usr c) W i - meant (usr c).rhs ((usr c).e i)) ^ 2).sum

/-- What the assignments of a constraint or objective `c` refer to: its matrices, and the functions of the variables that are substituted (`variableSubstitutions`, with the matrices given by the units). -/
structure SourceOf (w : World) (S : State) (o : Nat → SU.Out K) (num : PVar → Nat) (src : AS.Src) (dat : AS.Data K) (c : UserCstr K) : Prop where
  type : src.type = c.type
  rhs : src.rhs = c.rhs
  size : src.size = c.size
  parts : src.parts = c.vars.map fun x => num (.var x)
  jac : ∀ x ∈ c.vars, ∀ i < c.size, ∀ k < w.dim x, dat.jac (num (.var x)) i k = c.jac x i k
  e : ∀ i < c.size, dat.e i = c.e i
  l : ∀ i < c.size, dat.l i = c.l i
  u : ∀ i < c.size, dat.u i = c.u i
  keep : ∀ x ∈ c.vars, x ∉ S.vars → src.sub (num (.var x)) = none
  sub : ∀ x ∈ c.vars, ∀ a k, (x, a, k) ∈ S.vars.zip S.funcs → ∃ b, src.sub (num (.var x)) = some ⟨(fvars (layout w (S.units.getD a [])) a k).map num, b⟩
  subY : ∀ x ∈ c.vars, ∀ a k, (x, a, k) ∈ S.vars.zip S.funcs → ∀ j ∈ SU.XY (layout w (S.units.getD a [])) (SU.deps (layout w (S.units.getD a []))) k, ∀ q < w.dim x,
    ∀ r < w.dim ((layout w (S.units.getD a [])).y.getD j 0), dat.subA (num (.var x)) (num (.var ((layout w (S.units.getD a [])).y.getD j 0))) q r = (o a).fY k j q r
  subZ : ∀ x ∈ c.vars, ∀ a k, (x, a, k) ∈ S.vars.zip S.funcs → ∀ j ∈ SU.XZ (layout w (S.units.getD a [])) (SU.deps (layout w (S.units.getD a []))) k, ∀ q < w.dim x,
    ∀ r < (layout w (S.units.getD a [])).zdim j, dat.subA (num (.var x)) (num (.z a j)) q r = (o a).fZ k j q r
  subB : ∀ x ∈ c.vars, ∀ a k, (x, a, k) ∈ S.vars.zip S.funcs → ∀ q < w.dim x, dat.subB (num (.var x)) q = (o a).fb k q

/-- What the assignments of the additional constraint of the substitution `k` of the unit `a` refer to (SubstitutionUnit.cpp, lines 454-468 and 230-251) -/
structure AdditionalOf (w : World) (S : State) (o : Nat → SU.Out K) (num : PVar → Nat) (a k : Nat) (src : AS.Src) (dat : AS.Data K) : Prop where
  type : src.type = .equal
  rhs : src.rhs = .asGiven
  size : ∀ u t, S.units[a]? = some u → u[k]? = some t → src.size = rows w t.cstrs - t.rank
  parts : src.parts = ((SU.deps (layout w (S.units.getD a []))).sy k).map (fun j => num (.var ((layout w (S.units.getD a [])).y.getD j 0))) ++
    ((SU.deps (layout w (S.units.getD a []))).sz k).map fun j => num (.z a j)
  jacY : ∀ j ∈ (SU.deps (layout w (S.units.getD a []))).sy k, ∀ i < src.size, ∀ r < w.dim ((layout w (S.units.getD a [])).y.getD j 0),
    dat.jac (num (.var ((layout w (S.units.getD a [])).y.getD j 0))) i r = (o a).rY k i j r
  jacZ : ∀ j ∈ (SU.deps (layout w (S.units.getD a []))).sz k, ∀ i < src.size, ∀ r < (layout w (S.units.getD a [])).zdim j, dat.jac (num (.z a j)) i r = (o a).rZ k i j r
  e : ∀ i < src.size, dat.e i = (o a).rb k i
  keep : ∀ x ∈ src.parts, src.sub x = none

/-- A bound of the user on a variable that is not substituted, as the solver sees it -/
structure BoundOf (w : World) (V : AS.Vars) (num : PVar → Nat) (c : SE.Cstr) (b : C38.Bound K) (start : Int) (v : UserCstr K) : Prop where
  var : ∃ x, v.vars = [x] ∧ V.known (num (.var x)) = true ∧ w.dim x = v.size ∧ start = V.col (num (.var x)) ∧ ∀ i < v.size, ∀ k < v.size, b.jac i k = v.jac x i k
  size : c.size = v.size
  type : b.type = v.type
  rhs : b.rhs = v.rhs
  e : ∀ i < v.size, b.e i = v.e i
  l : ∀ i < v.size, b.l i = v.l i
  u : ∀ i < v.size, b.u i = v.u i

/-- The solver works on the problem of the user: constraints `U`, bounds `B`, objectives `O`, substitutions in `S`. The constraints `C` of the solver are those of `U` and the additional constraints `add a k`. -/
structure Linked (w : World) (S : State) (o : Nat → SU.Out K) (num : PVar → Nat) (env : ASM.Env) (now : ASM.Now K) (usr : SE.Cstr → UserCstr K) (add : Nat → Nat → SE.Cstr)
    (U C B O : SE.Cstr → Prop) (vs : SE.Cstr → Int) : Prop where
  inj : ∀ p p', num p = num p' → p = p'
  dimVar : ∀ x, env.V.dim (num (.var x)) = w.dim x
  dimZ : ∀ a k, env.V.dim (num (.z a k)) = (layout w (S.units.getD a [])).zdim k
  unknown : ∀ x ∈ S.vars, env.V.known (num (.var x)) = false
  disj : ∀ p p', env.V.known (num p) = true → env.V.known (num p') = true → p ≠ p' → ∀ j, (env.V.col (num p) ≤ j ∧ j < env.V.col (num p) + env.V.dim (num p)) →
    ¬ (env.V.col (num p') ≤ j ∧ j < env.V.col (num p') + env.V.dim (num p'))
  cstrs : ∀ c, C c ↔ U c ∨ ∃ a k, (a, k) ∈ S.addCstrs ∧ c = add a k
  src : ∀ c, U c ∨ O c → SourceOf w S o num (env.src c) (now.dat c) (usr c) ∧ (usr c).size = c.size
  addl : ∀ a k, (a, k) ∈ S.addCstrs → AdditionalOf w S o num a k (env.src (add a k)) (now.dat (add a k))
  bnd : ∀ c, B c → BoundOf w env.V num c (now.bnd c) (vs c) (usr c)

/-- The unknowns of the solver have at the point `z` the values `W`, for the variables of the problem, and `ζ`, for the additional variables; the substituted variables have the values of their functions. -/
structure Represents (w : World) (S : State) (o : Nat → SU.Out K) (V : AS.Vars) (num : PVar → Nat) (z : Nat → K) (W : Nat → Nat → K) (ζ : Nat → Nat → Nat → K) : Prop where
  var : ∀ x, V.known (num (.var x)) = true → ∀ q < V.dim (num (.var x)), z (V.col (num (.var x)) + q) = W x q
  add : ∀ a k, V.known (num (.z a k)) = true → ∀ q < V.dim (num (.z a k)), z (V.col (num (.z a k)) + q) = ζ a k q
  funcs : C70.Functions w S o W ζ

/-- What the user gets from a resolution with the result `x`, when the solver limits its unknowns by `lim` and adds the term `pen` to the cost: all the constraints hold, those used for substitutions included; the
variables that are neither substituted nor among the unknowns keep their values; and any other values `W` that satisfy all the constraints are represented by a point of the solver, and have not a lower cost
if such a point respects the limits. -/
def Solves (w : World) (S : State) (o : Nat → SU.Out K) (num : PVar → Nat) (V : AS.Vars) (J : Nat → Nat → Nat → Nat → K) (e : Nat → Nat → K) (l : List Sub) (usr : SE.Cstr → UserCstr K)
    (U B : SE.Cstr → Prop) (wt : SE.Cstr → Nat → K) (os : List SE.Cstr) (lim : (Nat → K) → Prop) (pen : (Nat → K) → K) (x : Nat → K) (val : PVar → Nat → K) : Prop :=
  AllHold w J e l usr U B (finalValues w S o V num x val) ∧
  (∀ v, (∀ s ∈ l, v ∉ s.vars) → V.known (num (.var v)) = false → finalValues w S o V num x val v = val (.var v)) ∧
  ∀ W, AllHold w J e l usr U B W → (∃ z ζ, Represents w S o V num z W ζ ∧ C70.Additional w S o W ζ) ∧
    ∀ z ζ, Represents w S o V num z W ζ → C70.Additional w S o W ζ → lim z → cost w usr wt os (finalValues w S o V num x val) + pen x ≤ cost w usr wt os W + pen z

/-! ## Proof: the values seen by the solver -/

theorem side_meant (r : AS.Rhs) (v : K) : C34.side r v = meant r v := by cases r <;> rfl

theorem side_meant38 (r : AS.Rhs) (v : K) : C38.side r v = meant r v := by cases r <;> rfl

theorem mapped_part {S : AS.Src} {V : AS.Vars} (h : AS.mapped S V = true) {x : Nat} (hx : x ∈ S.parts) (hd : 0 < V.dim x) :
    (S.sub x = none → V.known x = true) ∧ ∀ i, S.sub x = some i → ∀ y ∈ i.vars, V.known y = true := by
  unfold AS.mapped at h
  rw [Bool.and_eq_true] at h
  have h2 := List.all_eq_true.mp h.2 x hx
  rw [Bool.or_eq_true, decide_eq_true_eq] at h2
  rcases h2 with h2 | h2
  · omega
  · constructor
    · intro hs; rw [hs] at h2; exact h2
    · intro i hs y hy
      rw [hs] at h2
      exact List.all_eq_true.mp h2 y hy

variable {w : World} {S : State} {o : Nat → SU.Out K} {num : PVar → Nat} {env : ASM.Env} {now : ASM.Now K} {usr : SE.Cstr → UserCstr K} {add : Nat → Nat → SE.Cstr}
  {U C B O : SE.Cstr → Prop} {vs : SE.Cstr → Int} {n : Nat}

/-- The values of the variables of a constraint at a point of the solver are those that the point represents. -/
theorem value_eq (hlen : S.vars.length = S.funcs.length) (hdv : ∀ x, env.V.dim (num (.var x)) = w.dim x) (hdz : ∀ a k, env.V.dim (num (.z a k)) = (layout w (S.units.getD a [])).zdim k)
    {src : AS.Src} {dat : AS.Data K} {c : UserCstr K} (hs : SourceOf w S o num src dat c) (hm : AS.mapped src env.V = true) {z : Nat → K} {W : Nat → Nat → K} {ζ : Nat → Nat → Nat → K}
    (hr : Represents w S o env.V num z W ζ) {x : Nat} (hx : x ∈ c.vars) {q : Nat} (hq : q < w.dim x) : C34.value src env.V dat z (num (.var x)) q = W x q := by
  have hp : num (.var x) ∈ src.parts := by rw [hs.parts]; exact List.mem_map.mpr ⟨x, hx, rfl⟩
  have hd : 0 < env.V.dim (num (.var x)) := by rw [hdv]; omega
  obtain ⟨m1, m2⟩ := mapped_part hm hp hd
  by_cases hxs : x ∈ S.vars
  · obtain ⟨i, hi, ei⟩ := List.getElem_of_mem hxs
    have hi2 : i < S.funcs.length := by omega
    have hz : (x, (S.funcs[i]).1, (S.funcs[i]).2) ∈ S.vars.zip S.funcs := by
      refine List.mem_iff_getElem.mpr ⟨i, by rw [List.length_zip]; omega, ?_⟩
      rw [List.getElem_zip, ei]
    generalize (S.funcs[i]).1 = a at hz
    generalize (S.funcs[i]).2 = k at hz
    obtain ⟨b, hb⟩ := hs.sub x hx a k hz
    have hkn := m2 _ hb
    rw [hr.funcs x a k hz q hq]
    unfold C34.value C70.fvalue C43.fval
    rw [hb]
    simp only [fvars, List.map_append, List.map_map, List.sum_append]
    simp only [fvars, List.map_append, List.mem_append, List.mem_map, List.map_map] at hkn
    rw [hs.subB x hx a k hz q hq]
    congr 1
    congr 1
    · congr 1
      refine List.map_congr_left fun j hj => ?_
      have hky := hkn _ (Or.inl ⟨j, hj, rfl⟩)
      simp only [Function.comp] at hky ⊢
      rw [hdv]
      refine Finset.sum_congr rfl fun r hrr => ?_
      rw [Finset.mem_range] at hrr
      rw [hs.subY x hx a k hz j hj q hq r hrr, hr.var _ hky r (by rw [hdv]; exact hrr)]
    · congr 1
      refine List.map_congr_left fun j hj => ?_
      have hkz := hkn _ (Or.inr ⟨j, hj, rfl⟩)
      simp only [Function.comp] at hkz ⊢
      rw [hdz]
      refine Finset.sum_congr rfl fun r hrr => ?_
      rw [Finset.mem_range] at hrr
      rw [hs.subZ x hx a k hz j hj q hq r hrr, hr.add _ _ hkz r (by rw [hdz]; exact hrr)]
  · have hn := hs.keep x hx hxs
    unfold C34.value
    rw [hn]
    exact hr.var x (m1 hn) q (by rw [hdv]; exact hq)

theorem image_eq (hlen : S.vars.length = S.funcs.length) (hdv : ∀ x, env.V.dim (num (.var x)) = w.dim x) (hdz : ∀ a k, env.V.dim (num (.z a k)) = (layout w (S.units.getD a [])).zdim k)
    {src : AS.Src} {dat : AS.Data K} {c : UserCstr K} (hs : SourceOf w S o num src dat c) (hm : AS.mapped src env.V = true) {z : Nat → K} {W : Nat → Nat → K} {ζ : Nat → Nat → Nat → K}
    (hr : Represents w S o env.V num z W ζ) {i : Nat} (hi : i < c.size) : C34.image src env.V dat (C34.value src env.V dat z) i = row w c W i := by
  unfold C34.image row
  rw [hs.parts, List.map_map]
  congr 1
  refine List.map_congr_left fun x hx => ?_
  simp only [Function.comp]
  rw [hdv]
  refine Finset.sum_congr rfl fun k hk => ?_
  rw [Finset.mem_range] at hk
  rw [hs.jac x hx i hi k hk, value_eq hlen hdv hdz hs hm hr hx hk]

theorem sat_eq (hlen : S.vars.length = S.funcs.length) (hdv : ∀ x, env.V.dim (num (.var x)) = w.dim x) (hdz : ∀ a k, env.V.dim (num (.z a k)) = (layout w (S.units.getD a [])).zdim k)
    {src : AS.Src} {dat : AS.Data K} {c : UserCstr K} (hs : SourceOf w S o num src dat c) (hm : AS.mapped src env.V = true) {z : Nat → K} {W : Nat → Nat → K} {ζ : Nat → Nat → Nat → K}
    (hr : Represents w S o env.V num z W ζ) : C34.SrcSat src env.V dat (C34.value src env.V dat z) ↔ Sat w c W := by
  unfold C34.SrcSat Sat
  rw [hs.size, hs.type, hs.rhs]
  refine forall_congr' fun i => forall_congr' fun hi => ?_
  rw [image_eq hlen hdv hdz hs hm hr hi, hs.e i hi, hs.l i hi, hs.u i hi]
  simp only [side_meant]
  cases c.type <;> exact Iff.rfl

/-- The additional constraint of a substitution -/
theorem additional_eq (hdv : ∀ x, env.V.dim (num (.var x)) = w.dim x) (hdz : ∀ a k, env.V.dim (num (.z a k)) = (layout w (S.units.getD a [])).zdim k) {a k : Nat} {u : List Sub} {t : Sub}
    (hu : S.units[a]? = some u) (ht : u[k]? = some t)
    {src : AS.Src} {dat : AS.Data K} (hs : AdditionalOf w S o num a k src dat) (hm : AS.mapped src env.V = true) {z : Nat → K} {W : Nat → Nat → K} {ζ : Nat → Nat → Nat → K}
    (hr : Represents w S o env.V num z W ζ) : C34.SrcSat src env.V dat (C34.value src env.V dat z) ↔ ∀ r < rows w t.cstrs - t.rank, C43.rval w.dim (layout w u) (o a) W (ζ a) k r = 0 := by
  have hL : S.units.getD a [] = u := by rw [List.getD_eq_getElem?_getD, hu]; rfl
  unfold C34.SrcSat
  rw [hs.type, hs.rhs]
  have hz := hs.size u t hu ht
  rw [← hz]
  refine forall_congr' fun i => forall_congr' fun hi => ?_
  simp only
  have himg : C34.image src env.V dat (C34.value src env.V dat z) i = C43.rval w.dim (layout w u) (o a) W (ζ a) k i + (o a).rb k i := by
    have hval : ∀ x ∈ src.parts, ∀ q < env.V.dim x, C34.value src env.V dat z x q = z (env.V.col x + q) ∧ env.V.known x = true := by
      intro x hx q hq
      have hn := hs.keep x hx
      refine ⟨by unfold C34.value; rw [hn], (mapped_part hm hx (by omega)).1 hn⟩
    unfold C34.image C43.rval
    have hpy : ∀ j ∈ (SU.deps (layout w u)).sy k, num (.var ((layout w u).y.getD j 0)) ∈ src.parts := by
      intro j hj
      rw [hs.parts, hL, List.mem_append]
      exact Or.inl (List.mem_map.mpr ⟨j, hj, rfl⟩)
    have hpz : ∀ j ∈ (SU.deps (layout w u)).sz k, num (.z a j) ∈ src.parts := by
      intro j hj
      rw [hs.parts, hL, List.mem_append]
      exact Or.inr (List.mem_map.mpr ⟨j, hj, rfl⟩)
    have jy := hs.jacY
    have jz := hs.jacZ
    rw [hL] at jy jz
    rw [sub_add_cancel, hs.parts, hL, List.map_append, List.sum_append, List.map_map, List.map_map]
    congr 1
    · congr 1
      refine List.map_congr_left fun j hj => ?_
      simp only [Function.comp]
      rw [hdv]
      refine Finset.sum_congr rfl fun r hrr => ?_
      rw [Finset.mem_range] at hrr
      obtain ⟨v1, v2⟩ := hval _ (hpy j hj) r (by rw [hdv]; exact hrr)
      rw [jy j hj i hi r hrr, v1, hr.var _ v2 r (by rw [hdv]; exact hrr)]
    · congr 1
      refine List.map_congr_left fun j hj => ?_
      simp only [Function.comp]
      rw [hdz, hL]
      refine Finset.sum_congr rfl fun r hrr => ?_
      rw [Finset.mem_range] at hrr
      obtain ⟨v1, v2⟩ := hval _ (hpz j hj) r (by rw [hdz, hL]; exact hrr)
      rw [jz j hj i hi r hrr, v1, hr.add _ _ v2 r (by rw [hdz, hL]; exact hrr)]
  rw [himg, hs.e i hi]
  simp only [C34.side]
  exact ⟨fun h => by linear_combination h, fun h => by rw [h, zero_add]⟩

theorem bound_eq (hdv : ∀ x, env.V.dim (num (.var x)) = w.dim x) {c : SE.Cstr} (hb : BoundOf w env.V num c (now.bnd c) (vs c) (usr c)) {z : Nat → K} {W : Nat → Nat → K} {ζ : Nat → Nat → Nat → K}
    (hr : Represents w S o env.V num z W ζ) : (C95.placed now vs c).Sat z ↔ Sat w (usr c) W := by
  obtain ⟨x, h1, h2, h3, h4, h5⟩ := hb.var
  have hrow : ∀ i < (usr c).size, ∑ j ∈ Finset.range c.size, (now.bnd c).jac i j * z ((vs c).toNat + j) = row w (usr c) W i := by
    intro i hi
    unfold row
    rw [h1, List.map_singleton, List.sum_singleton, h3, hb.size]
    refine Finset.sum_congr rfl fun k hk => ?_
    rw [Finset.mem_range] at hk
    rw [h5 i hi k hk, h4]
    congr 1
    exact hr.var x h2 k (by rw [hdv, h3]; exact hk)
  unfold C38.Bound.Sat Sat C95.placed
  simp only [hb.size]
  refine forall_congr' fun i => forall_congr' fun hi => ?_
  have := hrow i hi
  rw [hb.size] at this
  rw [hb.type, hb.rhs, this, hb.e i hi, hb.l i hi, hb.u i hi]
  simp only [side_meant38]
  cases (usr c).type <;> exact Iff.rfl

/-- The problem handed to the solver at a point is the problem of the user for the values that the point represents. -/
theorem problem_eq (hlen : S.vars.length = S.funcs.length)
    (hadd : ∀ a k, (a, k) ∈ S.addCstrs ↔ ∃ (u : List Sub) (s : Sub), S.units[a]? = some u ∧ u[k]? = some s ∧ s.rank < rows w s.cstrs)
    (hk : Linked w S o num env now usr add U C B O vs) (he : C95.EnvOk env C B O n vs) {z : Nat → K} {W : Nat → Nat → K} {ζ : Nat → Nat → Nat → K}
    (hr : Represents w S o env.V num z W ζ) :
    (C95.Holds env now C z ∧ C95.InBounds now vs B z ↔ (∀ c, U c ∨ B c → Sat w (usr c) W) ∧ C70.Additional w S o W ζ) ∧
    ∀ (wt : SE.Cstr → Nat → K) (os : List SE.Cstr), C95.Lists O os → C95.objective env now wt os z = cost w usr wt os W := by
  have hU : ∀ c, U c → (C34.SrcSat (env.src c) env.V (now.dat c) (C34.value (env.src c) env.V (now.dat c) z) ↔ Sat w (usr c) W) := fun c hc =>
    sat_eq hlen hk.dimVar hk.dimZ (hk.src c (Or.inl hc)).1 (he.maps c (Or.inl ((hk.cstrs c).mpr (Or.inl hc)))) hr
  have hA : ∀ a k u t, S.units[a]? = some u → u[k]? = some t → t.rank < rows w t.cstrs →
      (C34.SrcSat (env.src (add a k)) env.V (now.dat (add a k)) (C34.value (env.src (add a k)) env.V (now.dat (add a k)) z) ↔
        ∀ r < rows w t.cstrs - t.rank, C43.rval w.dim (layout w u) (o a) W (ζ a) k r = 0) := fun a k u t hu ht hlt =>
    additional_eq hk.dimVar hk.dimZ hu ht (hk.addl a k ((hadd a k).mpr ⟨u, t, hu, ht, hlt⟩))
      (he.maps _ (Or.inl ((hk.cstrs _).mpr (Or.inr ⟨a, k, (hadd a k).mpr ⟨u, t, hu, ht, hlt⟩, rfl⟩)))) hr
  have hBd : ∀ c, B c → ((C95.placed now vs c).Sat z ↔ Sat w (usr c) W) := fun c hc => bound_eq hk.dimVar (hk.bnd c hc) hr
  refine ⟨⟨fun ⟨h1, h2⟩ => ⟨fun c hc => ?_, fun a u hu k t ht r hrr => ?_⟩, fun ⟨h1, h2⟩ => ⟨fun c hc => ?_, fun c hc => ?_⟩⟩, fun wt os hos => ?_⟩
  · rcases hc with hc | hc
    · exact (hU c hc).mp (h1 c ((hk.cstrs c).mpr (Or.inl hc)))
    · exact (hBd c hc).mp (h2 c hc)
  · rw [List.getElem?_map, Option.map_eq_some_iff] at ht
    obtain ⟨s, hs, rfl⟩ := ht
    have hsz : ((Sub.shape w s).cstrs.map (·.size)).sum = rows w s.cstrs := by
      simp only [Sub.shape, List.map_map, rows]; rfl
    rw [hsz] at hrr
    have hrr' : r < rows w s.cstrs - s.rank := hrr
    exact (hA a k u s hu hs (by omega)).mp (h1 _ ((hk.cstrs _).mpr (Or.inr ⟨a, k, (hadd a k).mpr ⟨u, s, hu, hs, by omega⟩, rfl⟩))) r hrr'
  · rcases (hk.cstrs c).mp hc with hc | ⟨a, k, hak, rfl⟩
    · exact (hU c hc).mpr (h1 c (Or.inl hc))
    · obtain ⟨u, s, hu, hs, hlt⟩ := (hadd a k).mp hak
      refine (hA a k u s hu hs hlt).mpr fun r hrr => ?_
      refine h2 a u hu k (Sub.shape w s) (by rw [List.getElem?_map, hs]; rfl) r ?_
      have hsz : ((Sub.shape w s).cstrs.map (·.size)).sum = rows w s.cstrs := by
        simp only [Sub.shape, List.map_map, rows]; rfl
      rw [hsz]
      exact hrr
  · exact (hBd c hc).mpr (h1 c (Or.inr hc))
  · unfold C95.objective cost
    congr 1
    refine List.map_congr_left fun c hc => ?_
    have hO := (hos.2 c).mp hc
    obtain ⟨hs, hsz⟩ := hk.src c (Or.inr hO)
    rw [← hsz]
    refine Finset.sum_congr rfl fun i hi => ?_
    rw [Finset.mem_range] at hi
    unfold C95.valueOf
    rw [image_eq hlen hk.dimVar hk.dimZ hs (he.maps c (Or.inr hO)) hr hi, side_meant, hs.rhs, hs.e i hi]

/-! ## Proof: points and values -/

/-- The values after the resolution are represented by the result of the solver. -/
theorem final_represents {S0 : State} {l : List Sub} (h : C70.Hist w S0 l) (hf : S0.finalize w = .ok S ()) (hk : Linked w S o num env now usr add U C B O vs) (x : Nat → K)
    (val : PVar → Nat → K) :
    Represents w S o env.V num x (finalValues w S o env.V num x val) (fun a k => setToSolution env.V num x val (.z a k)) ∧
      ∀ v, v ∉ S.vars → finalValues w S o env.V num x val v = setToSolution env.V num x val (.var v) := by
  obtain ⟨l1, l2, l3, l4, -⟩ := C70.C70_lists h hf
  have hmap : (S.vars.zip S.funcs).map (·.1) = S.vars := List.map_fst_zip (by omega)
  obtain ⟨w1, w2⟩ := C70.writeLoop_spec (C70.fvalue w S o fun a k => setToSolution env.V num x val (.z a k)) (S.vars.zip S.funcs) (by rw [hmap]; exact l1)
    (fun p hp v v' hv => C70.fvalue_congr h hf o _ hp v v' (by rw [hmap] at hv; exact hv)) (S.vars.zip S.funcs) (fun y => setToSolution env.V num x val (.var y))
    (fun y => setToSolution env.V num x val (.var y)) ⟨[], rfl⟩ (fun _ _ => rfl)
  have hkeep : ∀ v, v ∉ S.vars → finalValues w S o env.V num x val v = setToSolution env.V num x val (.var v) := fun v hv => w1 v (by rw [hmap]; exact hv)
  refine ⟨⟨fun y hy q _ => ?_, fun a k hz q _ => ?_, fun y a k hm q hq => ?_⟩, hkeep⟩
  · have hys : y ∉ S.vars := fun hh => by rw [hk.unknown y hh] at hy; cases hy
    rw [hkeep y hys]
    unfold setToSolution
    rw [if_pos hy]
  · show _ = setToSolution env.V num x val (.z a k) q
    unfold setToSolution
    rw [if_pos hz]
  · have h1 := congrFun (w2 (y, a, k) hm) q
    have h2 : finalValues w S o env.V num x val y q = C70.fvalue w S o (fun a k => setToSolution env.V num x val (.z a k)) (fun y => setToSolution env.V num x val (.var y)) a k q := h1
    rw [h2]
    exact (congrFun (C70.fvalue_congr h hf o _ hm _ _ hkeep) q).symm

open Classical in
/-- The point of the solver that represents some values -/
noncomputable def pointOf (V : AS.Vars) (num : PVar → Nat) (W : Nat → Nat → K) (ζ : Nat → Nat → Nat → K) (j : Nat) : K :=
  if h : ∃ p, V.known (num p) = true ∧ V.col (num p) ≤ j ∧ j < V.col (num p) + V.dim (num p) then
    match Classical.choose h with
    | .var x => W x (j - V.col (num (.var x)))
    | .z a k => ζ a k (j - V.col (num (.z a k)))
  else 0

theorem pointOf_at (hk : Linked w S o num env now usr add U C B O vs) (W : Nat → Nat → K) (ζ : Nat → Nat → Nat → K) (p : PVar) (hp : env.V.known (num p) = true) {q : Nat}
    (hq : q < env.V.dim (num p)) : pointOf env.V num W ζ (env.V.col (num p) + q) = match p with
      | .var x => W x q
      | .z a k => ζ a k q := by
  have h : ∃ p', env.V.known (num p') = true ∧ env.V.col (num p') ≤ env.V.col (num p) + q ∧ env.V.col (num p) + q < env.V.col (num p') + env.V.dim (num p') := ⟨p, hp, by omega, by omega⟩
  have hc : Classical.choose h = p := by
    obtain ⟨c1, c2, c3⟩ := Classical.choose_spec h
    by_contra hne
    exact hk.disj _ p c1 hp hne _ ⟨c2, c3⟩ ⟨by omega, by omega⟩
  unfold pointOf
  rw [dif_pos h, hc]
  cases p <;> simp

theorem pointOf_represents (hk : Linked w S o num env now usr add U C B O vs) {W : Nat → Nat → K} {ζ : Nat → Nat → Nat → K} (hF : C70.Functions w S o W ζ) :
    Represents w S o env.V num (pointOf env.V num W ζ) W ζ :=
  ⟨fun x hx _ hq => pointOf_at hk W ζ (.var x) hx hq, fun a k hz _ hq => pointOf_at hk W ζ (.z a k) hz hq, hF⟩

/-! ## The property -/

/-- **C96** If `x` is a solution of the problem handed to the solver (with any limits `lim` on its unknowns and any additional term `pen` in its cost), then after the resolution the values of the variables are a
solution of the problem of the user. -/
theorem C96_values (hc : ∀ c, (w.cstr c).vars.Nodup) {S0 : State} {l : List Sub} (h : C70.Hist w S0 l) (hf : S0.finalize w = .ok S ())
    {J : Nat → Nat → Nat → Nat → K} {e : Nat → Nat → K} {cal : Nat → Nat → SU.Calc K} (hu : C70.Updated w S J e cal o) (hk : Linked w S o num env now usr add U C B O vs)
    (he : C95.EnvOk env C B O n vs) {wt : SE.Cstr → Nat → K} {os : List SE.Cstr} (ho : C95.Lists O os) {lim : (Nat → K) → Prop} {pen : (Nat → K) → K} {x : Nat → K}
    (hx : C66.Best (fun z => (C95.Holds env now C z ∧ C95.InBounds now vs B z) ∧ lim z) (fun z => C95.objective env now wt os z + pen z) x) (val : PVar → Nat → K) :
    Solves w S o num env.V J e l usr U B wt os lim pen x val := by
  obtain ⟨-, l2, l3, -, -, -, l7, -⟩ := C70.C70_lists h hf
  obtain ⟨r1, r2⟩ := final_represents h hf hk x val
  obtain ⟨p1, p2⟩ := problem_eq l3 l7 hk he r1
  obtain ⟨q1, q2⟩ := p1.mp hx.1.1
  refine ⟨⟨(C70.C70_solutions_partial hc h hf hu _).mpr ⟨_, q2, r1.funcs⟩, q1⟩, fun v hv hn => ?_, fun W hW => ⟨?_, fun z ζ hr hA hl => ?_⟩⟩
  · rw [r2 v fun hh => by obtain ⟨s, hs, hvs⟩ := (l2 v).mp hh; exact hv s hs hvs]
    unfold setToSolution
    simp [hn]
  · obtain ⟨ζ, hA, hF⟩ := (C70.C70_solutions_partial hc h hf hu W).mp hW.1
    exact ⟨_, ζ, pointOf_represents hk hF, hA⟩
  · obtain ⟨p3, p4⟩ := problem_eq l3 l7 hk he hr
    have := hx.2 z ⟨p3.mpr ⟨hW.2, hA⟩, hl⟩
    simp only [p2 wt os ho, p4 wt os ho] at this
    exact this

section
variable [IsStrictOrderedRing K]

/-- **C96**, for QLD. Partial for the same reasons as `C95_qld_partial` and `C70_solutions_partial`. -/
theorem C96_qld_partial (hc : ∀ c, (w.cstr c).vars.Nodup) {S0 : State} {l : List Sub} (hh : C70.Hist w S0 l) (hf : S0.finalize w = .ok S ())
    {J : Nat → Nat → Nat → Nat → K} {e : Nat → Nat → K} {cal : Nat → Nat → SU.Calc K} (hu : C70.Updated w S J e cal o) (hk : Linked w S o num env now usr add U C B O vs)
    {op : QP.Opts K} {qr : QP.QR K} {ch : Bool} {s : LS.Solver} {q : QP.Qld K}
    (h : C95.Life (ASM.qldM op) .qld ch s q env C B O n vs) (hn : C95.NowOk env now C B O n vs) {r : ASM.Run K} (hr : ASM.Runs s env now r) (hm : q.autoMin = false) (hpos : C95.Positive now C)
    (hfit : ∀ c, B c → ∀ z, C95.Limited op.big n z → (C95.placed now vs c).Fits op.big z)
    {sqrt : K → K} (hq1 : sqrt 1 = 1) {req : SE.Cstr → AS.Req K} {scal : SE.Cstr → K} {wt : SE.Cstr → Nat → K} (hw : C95.Weighted sqrt req scal now O wt) {os : List SE.Cstr} (ho : C95.Lists O os)
    (hqr : op.cholesky = true → C66.IsFactor (q.rowsD op) n (ASM.qldPrepare op r q).D (qr (q.rowsD op) n (ASM.qldPrepare op r q).D)) {x : Nat → K}
    (hx : C66.QldSolution n ((ASM.qldPrepare op r q).call op qr) x) (val : PVar → Nat → K) :
    Solves w S o num env.V J e l usr U B wt os (C95.Limited op.big n)
      (fun z => (if op.cholesky = true ∧ (os.map (·.size)).sum < n then op.choleskyDamping ^ 2 else 0) * C66.dot n z z) x val := by
  have hb := (C95.C95_qld_partial h hn hr hm hpos hfit hq1 hw ho hqr x).mp hx
  exact C96_values hc hh hf hu hk h.envOk ho ⟨⟨⟨hb.1.1, hb.1.2.1⟩, hb.1.2.2⟩, fun y hy => hb.2 y ⟨hy.1.1, hy.1.2, hy.2⟩⟩ val

/-- **C96**, for LSSOL -/
theorem C96_lssol_partial (hc : ∀ c, (w.cstr c).vars.Nodup) {S0 : State} {l : List Sub} (hh : C70.Hist w S0 l) (hf : S0.finalize w = .ok S ())
    {J : Nat → Nat → Nat → Nat → K} {e : Nat → Nat → K} {cal : Nat → Nat → SU.Calc K} (hu : C70.Updated w S J e cal o) (hk : Linked w S o num env now usr add U C B O vs)
    {op : QP.Opts K} {ch : Bool} {s : LS.Solver} {q : QP.Lss K}
    (h : C95.Life (ASM.lssM op) .lssol ch s q env C B O n vs) (hn : C95.NowOk env now C B O n vs) {r : ASM.Run K} (hr : ASM.Runs s env now r) (hm : q.autoMin = false) (hpos : C95.Positive now C)
    (hfit : ∀ c, B c → ∀ z, C95.Limited op.big n z → (C95.placed now vs c).Fits op.big z)
    {sqrt : K → K} (hq1 : sqrt 1 = 1) {req : SE.Cstr → AS.Req K} {scal : SE.Cstr → K} {wt : SE.Cstr → Nat → K} (hw : C95.Weighted sqrt req scal now O wt) {os : List SE.Cstr} (ho : C95.Lists O os)
    {x : Nat → K} (hx : C66.LssSolution n (ASM.lssPrepare op r q).call x) (val : PVar → Nat → K) :
    Solves w S o num env.V J e l usr U B wt os (fun z => C95.RowsLimited op.big env now C z ∧ C95.Limited op.big n z) (fun _ => 0) x val := by
  have hb := (C95.C95_lssol_partial h hn hr hm hpos hfit hq1 hw ho x).mp hx
  refine C96_values hc hh hf hu hk h.envOk ho ⟨⟨⟨hb.1.1.1, hb.1.2.1⟩, hb.1.1.2, hb.1.2.2⟩, fun y hy => ?_⟩ val
  simp only [add_zero]
  exact hb.2 y ⟨⟨hy.1.1, hy.2.1⟩, hy.1.2, hy.2.2⟩

/-- **C96**, for LexLS -/
theorem C96_lexls_partial (hc : ∀ c, (w.cstr c).vars.Nodup) {S0 : State} {l : List Sub} (hh : C70.Hist w S0 l) (hf : S0.finalize w = .ok S ())
    {J : Nat → Nat → Nat → Nat → K} {e : Nat → Nat → K} {cal : Nat → Nat → SU.Calc K} (hu : C70.Updated w S J e cal o) (hk : Linked w S o num env now usr add U C B O vs)
    {op : QP.Opts K} {ch : Bool} {s : LS.Solver} {q : QP.Lxl K}
    (h : C95.Life (ASM.lxlM op) .lexls ch s q env C B O n vs) (hn : C95.NowOk env now C B O n vs) {r : ASM.Run K} (hr : ASM.Runs s env now r) (hm : q.autoMin = false) (hpos : C95.Positive now C)
    (hfit : ∀ c, B c → ∀ z, C95.Limited op.big n z → (C95.placed now vs c).Fits op.big z)
    {sqrt : K → K} (hq1 : sqrt 1 = 1) {req : SE.Cstr → AS.Req K} {scal : SE.Cstr → K} {wt : SE.Cstr → Nat → K} (hw : C95.Weighted sqrt req scal now O wt) {os : List SE.Cstr} (ho : C95.Lists O os)
    (hsome : ∃ z, (C95.Holds env now C z ∧ C95.RowsLimited op.big env now C z) ∧ C95.InBounds now vs B z ∧ C95.Limited op.big n z)
    {x : Nat → K} (hx : C66.LexSolution (ASM.lxlPrepare op r q) x) (val : PVar → Nat → K) :
    Solves w S o num env.V J e l usr U B wt os (fun z => C95.RowsLimited op.big env now C z ∧ C95.Limited op.big n z) (fun _ => 0) x val := by
  have hb := (C95.C95_lexls_partial h hn hr hm hpos hfit hq1 hw ho hsome x).mp hx
  refine C96_values hc hh hf hu hk h.envOk ho ⟨⟨⟨hb.1.1.1, hb.1.2.1⟩, hb.1.1.2, hb.1.2.2⟩, fun y hy => ?_⟩ val
  simp only [add_zero]
  exact hb.2 y ⟨⟨hy.1.1, hy.2.1⟩, hy.1.2, hy.2.2⟩

/-- **C96**, for Quadprog -/
theorem C96_quadprog_partial (hc : ∀ c, (w.cstr c).vars.Nodup) {S0 : State} {l : List Sub} (hh : C70.Hist w S0 l) (hf : S0.finalize w = .ok S ())
    {J : Nat → Nat → Nat → Nat → K} {e : Nat → Nat → K} {cal : Nat → Nat → SU.Calc K} (hu : C70.Updated w S J e cal o) (hk : Linked w S o num env now usr add U C B O vs)
    {op : QP.Opts K} {qr : QP.QR K} {ch : Bool} {s : LS.Solver} {q : QP.Qpd K}
    (h : C95.Life (ASM.qpdM op qr) .quadprog ch s q env C B O n vs) (hn : C95.NowOk env now C B O n vs) {r : ASM.Run K} (hr : ASM.Runs s env now r) (hm : q.autoMin = false)
    (hpos : C95.Positive now C) (hfit : ∀ c, B c → ∀ z, C95.Limited op.big n z → (C95.placed now vs c).Fits op.big z)
    {sqrt : K → K} (hq1 : sqrt 1 = 1) {req : SE.Cstr → AS.Req K} {scal : SE.Cstr → K} {wt : SE.Cstr → Nat → K} (hw : C95.Weighted sqrt req scal now O wt) {os : List SE.Cstr} (ho : C95.Lists O os)
    (hqr : op.cholesky = true →
      C66.IsFactor (q.rowsD op) n (ASM.qpdAssign op.big r ((q.resetBounds op).pre op)).D (qr (q.rowsD op) n (ASM.qpdAssign op.big r ((q.resetBounds op).pre op)).D))
    (hreg : op.cholesky = true → ((os.map (·.size)).sum < n ∧ op.choleskyDamping ≠ 0) ∨
      ((∀ c, O c → ∀ i < c.size, (now.fl c).omega (now.dat c).w i ≠ 0) ∧
        ∀ z : Nat → K, (∀ c, O c → ∀ i < c.size, C95.valueOf env now c z i = C95.valueOf env now c (fun _ => 0) i) → ∀ k < n, z k = 0))
    {x : Nat → K} (hx : C66.QpdSolution n ((ASM.qpdPrepare op qr r q).call op) x) (val : PVar → Nat → K) :
    Solves w S o num env.V J e l usr U B wt os (fun z => (∃ c, B c) → C95.Limited op.big n z)
      (fun z => (if op.cholesky = true then (if (os.map (·.size)).sum < n then op.choleskyDamping ^ 2 else 0) else op.damping) * C66.dot n z z) x val := by
  have hb := (C95.C95_quadprog_partial h hn hr hm hpos hfit hq1 hw ho hqr hreg x).mp hx
  exact C96_values hc hh hf hu hk h.envOk ho ⟨⟨⟨hb.1.1, hb.1.2.1⟩, hb.1.2.2⟩, fun y hy => hb.2 y ⟨hy.1.1, hy.1.2, hy.2⟩⟩ val

end

/-! ## The assignments of the solvers -/

theorem nodup_scanVar (t : SU.SShape) (x : List Nat) : ∀ (vs : List Nat) (p : List Nat × List Nat × List Nat), p.1.Nodup → (vs.foldl (SU.scanVar t x) p).1.Nodup := by
  intro vs
  induction vs with
  | nil => intro p h; exact h
  | cons v vs ih =>
    intro p h
    refine ih _ ?_
    unfold SU.scanVar
    split
    · split <;> exact h
    · simp only
      split
      · exact h
      · rename_i hv
        exact List.nodup_append.mpr ⟨h, List.nodup_singleton v, fun a ha b hb => by rw [List.mem_singleton] at hb; subst hb; exact fun e => hv (e ▸ ha)⟩

theorem nodup_scanCstr (t : SU.SShape) (x : List Nat) : ∀ (cs : List SU.CShape) (p : List Nat × List SU.CInfo × Nat), p.1.Nodup → (cs.foldl (SU.scanCstr t x) p).1.Nodup := by
  intro cs
  induction cs with
  | nil => intro p h; exact h
  | cons c cs ih => intro p h; exact ih _ (nodup_scanVar t x c.vars _ h)

theorem nodup_scan (dim : Nat → Nat) : ∀ (ss : List SU.SShape) (L : SU.Layout), L.y.Nodup → (ss.foldl (SU.scanSub dim) L).y.Nodup := by
  intro ss
  induction ss with
  | nil => intro L h; exact h
  | cons t ss ih => intro L h; exact ih _ (nodup_scanCstr t _ t.cstrs _ h)

theorem nodup_y (w : World) (u : List Sub) : (layout w u).y.Nodup := nodup_scan w.dim _ _ List.nodup_nil

theorem deps_lt (L : SU.Layout) : ∀ k, ∀ j ∈ (SU.deps L).sy k, j < L.y.length := by
  have key : ∀ (ss : List SU.SInfo) (D : SU.Deps), (∀ k, ∀ j ∈ D.sy k, j < L.y.length) → ∀ k, ∀ j ∈ (ss.foldl (SU.depStep L) D).sy k, j < L.y.length := by
    intro ss
    induction ss with
    | nil => intro D h; exact h
    | cons t ss ih =>
      intro D h
      refine ih _ fun k j hj => ?_
      unfold SU.depStep at hj
      simp only at hj
      split at hj
      · simp only [List.mem_filter, List.mem_range] at hj
        exact hj.1
      · exact h k j hj
  exact key _ _ fun k j hj => by cases hj

/-- The index of a variable of a unit is found. -/
theorem idx_y (w : World) (u : List Sub) {k j : Nat} (hj : j ∈ (SU.deps (layout w u)).sy k) : (layout w u).y.idxOf ((layout w u).y.getD j 0) = j := by
  have hlt := deps_lt _ k j hj
  rw [List.getD_eq_getElem?_getD, List.getElem?_eq_getElem hlt]
  exact (nodup_y w u).idxOf_getElem j hlt

theorem getD_mem {l : List Nat} {j : Nat} (h : j < l.length) : l.getD j 0 ∈ l := by
  rw [List.getD_eq_getElem?_getD, List.getElem?_eq_getElem h]
  exact List.getElem_mem h

theorem find_some {α : Type} : ∀ (l : List (Nat × α)), (l.map (·.1)).Nodup → ∀ t ∈ l, (l.find? fun p => p.1 == t.1) = some t := by
  intro l
  induction l with
  | nil => intro _ t ht; cases ht
  | cons a l ih =>
    intro hn t ht
    rw [List.map_cons, List.nodup_cons] at hn
    rcases List.mem_cons.mp ht with rfl | ht
    · simp
    · have hne : a.1 ≠ t.1 := fun e => hn.1 (by rw [e]; exact List.mem_map.mpr ⟨t, ht, rfl⟩)
      rw [List.find?_cons_of_neg (by simpa using hne)]
      exact ih hn.2 t ht

section
variable {den : Nat → PVar}

theorem sub_some (hd : ∀ p, den (num p) = p) (hnd : S.vars.Nodup) (hlen : S.vars.length = S.funcs.length) (ub : Nat → Nat → Bool) {T : AS.Src} (hT : T.subs = subsOf w S num ub) {x a k : Nat}
    (hm : (x, a, k) ∈ S.vars.zip S.funcs) : T.sub (num (.var x)) = some ⟨(fvars (layout w (S.units.getD a [])) a k).map num, ub a k⟩ := by
  unfold AS.Src.sub
  rw [hT]
  have h1 : ((subsOf w S num ub).map (·.1)).Nodup := by
    unfold subsOf
    rw [List.map_map]
    have : ((fun p : Nat × AS.SubInfo => p.1) ∘ fun t : Nat × Nat × Nat => (num (.var t.1), (⟨(fvars (layout w (S.units.getD t.2.1 [])) t.2.1 t.2.2).map num, ub t.2.1 t.2.2⟩ : AS.SubInfo))) =
        (fun v => num (.var v)) ∘ (·.1) := rfl
    rw [this, ← List.map_map, List.map_fst_zip (by omega)]
    refine hnd.map fun a b hab => ?_
    have := congrArg den hab
    rw [hd, hd] at this
    exact PVar.var.inj this
  have h2 := find_some _ h1 (num (.var x), ⟨(fvars (layout w (S.units.getD a [])) a k).map num, ub a k⟩) (List.mem_map.mpr ⟨(x, a, k), hm, rfl⟩)
  simp only at h2
  rw [h2]
  rfl

theorem sub_none (hd : ∀ p, den (num p) = p) (hlen : S.vars.length = S.funcs.length) (ub : Nat → Nat → Bool) {T : AS.Src} (hT : T.subs = subsOf w S num ub) {p : PVar}
    (hm : ∀ x ∈ S.vars, p ≠ .var x) : T.sub (num p) = none := by
  unfold AS.Src.sub
  rw [hT, Option.map_eq_none_iff, List.find?_eq_none]
  intro t ht hh
  obtain ⟨t, ht', rfl⟩ := List.mem_map.mp ht
  have h1 : t.1 ∈ S.vars := by
    have := List.mem_map_of_mem (f := Prod.fst) ht'
    rwa [List.map_fst_zip (by omega)] at this
  have := congrArg den (beq_iff_eq.mp hh)
  rw [hd, hd] at this
  exact hm _ h1 this.symm

theorem find_zip (hnd : S.vars.Nodup) (hlen : S.vars.length = S.funcs.length) {x a k : Nat} (hm : (x, a, k) ∈ S.vars.zip S.funcs) :
    ((S.vars.zip S.funcs).find? fun t => t.1 == x) = some (x, a, k) :=
  find_some _ (by rw [List.map_fst_zip (by omega)]; exact hnd) (x, a, k) hm

/-- The assignments of the constraints of the user refer to what they should. -/
theorem sourceOf_ok (hd : ∀ p, den (num p) = p) (hnd : S.vars.Nodup) (hlen : S.vars.length = S.funcs.length) (ub : Nat → Nat → Bool) (prop : Nat → AS.JProp) (wt : AS.Weights K) (c : UserCstr K) :
    SourceOf w S o num (sourceOf w S num ub prop c) (dataOf w S o den wt c) c := by
  refine ⟨rfl, rfl, rfl, rfl, fun x _ i _ k _ => ?_, fun _ _ => rfl, fun _ _ => rfl, fun _ _ => rfl, fun x _ hx => ?_, fun x _ a k hm => ⟨_, sub_some hd hnd hlen ub rfl hm⟩,
    fun x _ a k hm j hj q _ r _ => ?_, fun x _ a k hm j hj q _ r _ => ?_, fun x _ a k hm q _ => ?_⟩
  · simp [dataOf, hd]
  · exact sub_none hd hlen ub rfl fun y hy e => hx (PVar.var.inj e ▸ hy)
  · simp only [dataOf, hd, subMatrix, find_zip hnd hlen hm]
    rw [idx_y w _ hj]
  · simp only [dataOf, hd, subMatrix, find_zip hnd hlen hm]
  · simp only [dataOf, hd, subVector, find_zip hnd hlen hm]

theorem additional_ok {S0 : State} {l : List Sub} (h : C70.Hist w S0 l) (hf : S0.finalize w = .ok S ()) (hd : ∀ p, den (num p) = p) (ub : Nat → Nat → Bool) (prop : Nat → AS.JProp) (wt : AS.Weights K)
    (a k : Nat) : AdditionalOf w S o num a k (additionalSource w S num ub prop a k) (additionalData w S o den wt a k) := by
  obtain ⟨l1, l2, l3, -, -, l6, -, -⟩ := C70.C70_lists h hf
  refine ⟨rfl, rfl, fun u t hu ht => ?_, rfl, fun j hj i _ r _ => ?_, fun j hj i _ r _ => ?_, fun _ _ => rfl, fun m hm => ?_⟩
  · have hL : S.units.getD a [] = u := by rw [List.getD_eq_getElem?_getD, hu]; rfl
    simp only [additionalSource, hL, ht]
  · simp only [additionalData, hd]
    rw [idx_y w _ hj]
  · simp only [additionalData, hd]
  · rcases List.mem_append.mp hm with hm | hm
    · obtain ⟨j, hj, rfl⟩ := List.mem_map.mp hm
      refine sub_none hd l3 ub rfl fun y hy e => ?_
      have hlt := deps_lt _ k j hj
      have hy' : (layout w (S.units.getD a [])).y.getD j 0 ∈ (layout w (S.units.getD a [])).y := getD_mem hlt
      rw [PVar.var.inj e] at hy'
      obtain ⟨gs, us, g1, g2, g3⟩ := C70.finalize_ok (C70.hist_inv h) hf
      obtain ⟨-, -, r7, -⟩ := C70.retrieveLoop_frame w us 0 { S0 with units := us, vars := [], funcs := [], addCstrs := [], others := [] }
      obtain ⟨r1, -⟩ := C70.retrieveLoop_spec w us 0 { S0 with units := us, vars := [], funcs := [], addCstrs := [], others := [] }
      have e4 : S.units = us := by rw [g3]; exact r7
      have e1 : S.vars = C70.allVars us := by rw [g3]; exact r1
      have hu : us[a]? = some (S.units.getD a []) := by
        by_cases ha : a < us.length
        · rw [e4, List.getD_eq_getElem?_getD, List.getElem?_eq_getElem ha]; rfl
        · rw [e4, List.getD_eq_getElem?_getD, List.getElem?_eq_none (by omega)] at hlt
          exact absurd hlt (Nat.not_lt_zero _)
      exact ((C70.layout_y g1 hu).1 y hy').2 (e1 ▸ hy)
    · obtain ⟨j, hj, rfl⟩ := List.mem_map.mp hm
      exact sub_none hd l3 ub rfl fun y _ e => by cases e

/-- The assignments of a solver, its unknowns, and what the user asks -/
structure Assembled (w : World) (S : State) (o : Nat → SU.Out K) (num : PVar → Nat) (den : Nat → PVar) (env : ASM.Env) (now : ASM.Now K) (usr : SE.Cstr → UserCstr K) (add : Nat → Nat → SE.Cstr)
    (U C B O : SE.Cstr → Prop) (vs : SE.Cstr → Int) : Prop where
  back : ∀ p, den (num p) = p
  dimVar : ∀ x, env.V.dim (num (.var x)) = w.dim x
  dimZ : ∀ a k, env.V.dim (num (.z a k)) = (layout w (S.units.getD a [])).zdim k
  disj : ∀ p p', env.V.known (num p) = true → env.V.known (num p') = true → p ≠ p' → ∀ j, (env.V.col (num p) ≤ j ∧ j < env.V.col (num p) + env.V.dim (num p)) →
    ¬ (env.V.col (num p') ≤ j ∧ j < env.V.col (num p') + env.V.dim (num p'))
  known : ∀ p, env.V.known (num p) = true ↔ ∃ c, (U c ∨ O c ∨ B c) ∧ p ∈ unknowns w S [usr c]
  cstrs : ∀ c, C c ↔ U c ∨ ∃ a k, (a, k) ∈ S.addCstrs ∧ c = add a k
  src : ∀ c, U c ∨ O c → (∃ ub prop, env.src c = sourceOf w S num ub prop (usr c)) ∧ (∃ wt, now.dat c = dataOf w S o den wt (usr c)) ∧ (usr c).size = c.size
  addl : ∀ a k, (a, k) ∈ S.addCstrs → (∃ ub prop, env.src (add a k) = additionalSource w S num ub prop a k) ∧ ∃ wt, now.dat (add a k) = additionalData w S o den wt a k
  bnd : ∀ c, B c → BoundOf w env.V num c (now.bnd c) (vs c) (usr c)

/-- **C96** The assignments of the solvers refer to the problem of the user, and those of its constraints and objectives find all their variables among the unknowns, the variables of the substitutions included. -/
theorem C96_assembled {S0 : State} {l : List Sub} (h : C70.Hist w S0 l) (hf : S0.finalize w = .ok S ()) (ha : Assembled w S o num den env now usr add U C B O vs) :
    Linked w S o num env now usr add U C B O vs ∧ ∀ c, U c ∨ O c → AS.mapped (env.src c) env.V = true := by
  obtain ⟨l1, l2, l3, l4, -, l6, l7, -⟩ := C70.C70_lists h hf
  refine ⟨⟨fun p p' e => ?_, ha.dimVar, ha.dimZ, fun x hx => ?_, ha.disj, ha.cstrs, fun c hc => ?_, fun a k hak => ?_, ha.bnd⟩, fun c hc => ?_⟩
  · rw [← ha.back p, e, ha.back]
  · by_contra hne
    obtain ⟨c, -, hp⟩ := (ha.known (.var x)).mp (by simpa using hne)
    simp only [unknowns, List.flatMap_cons, List.flatMap_nil, List.append_nil, List.mem_flatMap] at hp
    obtain ⟨y, hy, hp⟩ := hp
    by_cases hys : y ∈ S.vars
    · obtain ⟨-, c2⟩ := C70.C70_substitute h hf y
      rcases (c2 ((l2 y).mp hys)).2 _ hp with ⟨v, hv, e⟩ | ⟨a, k, u, t, -, -, -, e⟩
      · obtain ⟨s, hs, hxs⟩ := (l2 x).mp hx
        exact ((l6 v).mp hv).2 s hs (PVar.var.inj e ▸ hxs)
      · cases e
    · unfold State.substitute at hp
      rw [if_neg hys, List.mem_singleton] at hp
      exact hys (PVar.var.inj hp ▸ hx)
  · obtain ⟨⟨ub, prop, e1⟩, ⟨wt, e2⟩, e3⟩ := ha.src c hc
    rw [e1, e2]
    exact ⟨sourceOf_ok ha.back l1 l3 ub prop wt (usr c), e3⟩
  · obtain ⟨⟨ub, prop, e1⟩, wt, e2⟩ := ha.addl a k hak
    rw [e1, e2]
    exact additional_ok h hf ha.back ub prop wt a k
  · obtain ⟨⟨ub, prop, e1⟩, -, -⟩ := ha.src c hc
    have hkn : ∀ x ∈ (usr c).vars, ∀ p ∈ S.substitute w x, env.V.known (num p) = true := fun x hx p hp => (ha.known p).mpr ⟨c, by tauto, by
      simp only [unknowns, List.flatMap_cons, List.flatMap_nil, List.append_nil, List.mem_flatMap]
      exact ⟨x, hx, hp⟩⟩
    have hsub : ∀ x ∈ (usr c).vars, ∀ i, (env.src c).sub (num (.var x)) = some i → ∀ y ∈ i.vars, env.V.known y = true := by
      intro x hx i hi y hy
      rw [e1] at hi
      by_cases hxs : x ∈ S.vars
      · obtain ⟨j, hj, ej⟩ := List.getElem_of_mem hxs
        have hj2 : j < S.funcs.length := by omega
        have hz : (x, (S.funcs[j]).1, (S.funcs[j]).2) ∈ S.vars.zip S.funcs := by
          refine List.mem_iff_getElem.mpr ⟨j, by rw [List.length_zip]; omega, ?_⟩
          rw [List.getElem_zip, ej]
        rw [sub_some ha.back l1 l3 ub rfl hz] at hi
        have hi := Option.some.inj hi
        subst hi
        obtain ⟨p, hp, rfl⟩ := List.mem_map.mp hy
        obtain ⟨u, hu, huk⟩ := (l4 _ _ _).mp hz
        refine hkn x hx p ?_
        obtain ⟨-, c2⟩ := C70.C70_substitute h hf x
        rw [(c2 ((l2 x).mp hxs)).1 _ _ u hu huk]
        have : S.units.getD (S.funcs[j]).1 [] = u := by rw [List.getD_eq_getElem?_getD, hu]; rfl
        rw [this] at hp
        exact hp
      · have hx' : (sourceOf w S num ub prop (usr c)).sub (num (.var x)) = none := sub_none ha.back l3 ub rfl fun v hv e => hxs (PVar.var.inj e ▸ hv)
        rw [hx'] at hi
        cases hi
    have hno : ∀ x ∈ (usr c).vars, (env.src c).sub (num (.var x)) = none → env.V.known (num (.var x)) = true := by
      intro x hx hi
      have hxs : x ∉ S.vars := by
        intro hxs
        obtain ⟨j, hj, ej⟩ := List.getElem_of_mem hxs
        have hj2 : j < S.funcs.length := by omega
        have hz : (x, (S.funcs[j]).1, (S.funcs[j]).2) ∈ S.vars.zip S.funcs := by
          refine List.mem_iff_getElem.mpr ⟨j, by rw [List.length_zip]; omega, ?_⟩
          rw [List.getElem_zip, ej]
        rw [e1, sub_some ha.back l1 l3 ub rfl hz] at hi
        cases hi
      refine hkn x hx _ ?_
      unfold State.substitute
      rw [if_neg hxs]
      exact List.mem_singleton.mpr rfl
    have hparts : (env.src c).parts = (usr c).vars.map fun x => num (.var x) := by rw [e1]; rfl
    unfold AS.mapped
    rw [Bool.and_eq_true, List.all_eq_true, List.all_eq_true]
    constructor
    · intro y hy
      unfold AS.intoVars at hy
      rw [List.mem_filter, List.mem_eraseDups, List.mem_flatMap] at hy
      obtain ⟨⟨m, hm, hy⟩, -⟩ := hy
      rw [hparts] at hm
      obtain ⟨x, hx, rfl⟩ := List.mem_map.mp hm
      split at hy
      · rename_i i hi
        exact hsub x hx i hi y hy
      · cases hy
    · intro m hm
      rw [hparts] at hm
      obtain ⟨x, hx, rfl⟩ := List.mem_map.mp hm
      rw [Bool.or_eq_true]
      right
      split
      · rename_i i hi
        exact List.all_eq_true.mpr (hsub x hx i hi)
      · rename_i hi
        exact hno x hx hi
end
/-! ## When there are only substitutions -/

/-- The substitutions are not more than the constraints they use. -/
theorem length_le_flatMap {l : List Sub} (hne : ∀ s ∈ l, s.cstrs ≠ []) : l.length ≤ (l.flatMap (·.cstrs)).length := by
  induction l with
  | nil => simp
  | cons s l ih =>
    have h1 := ih fun t ht => hne t (List.mem_cons_of_mem _ ht)
    have h2 := List.length_pos_iff.mpr (hne s List.mem_cons_self)
    simp only [List.flatMap_cons, List.length_append, List.length_cons]
    omega

theorem unused_length {l : List Sub} {cs : List Nat} (hd : (l.flatMap (·.cstrs)).Nodup) (hne : ∀ s ∈ l, s.cstrs ≠ []) (hin : ∀ s ∈ l, ∀ c ∈ s.cstrs, c ∈ cs) {c : Nat} (hc : c ∈ cs)
    (hnu : ∀ s ∈ l, c ∉ s.cstrs) : l.length < cs.length := by
  have h1 : (c :: l.flatMap (·.cstrs)).Nodup := List.nodup_cons.mpr ⟨fun hm => by
    obtain ⟨s, hs, hcs⟩ := List.mem_flatMap.mp hm
    exact hnu s hs hcs, hd⟩
  have h2 : (c :: l.flatMap (·.cstrs)).length ≤ cs.length := (h1.subperm fun x hx => by
    rcases List.mem_cons.mp hx with rfl | hx
    · exact hc
    · obtain ⟨s, hs, hcs⟩ := List.mem_flatMap.mp hx
      exact hin s hs x hcs).length_le
  have h3 := length_le_flatMap hne
  simp only [List.length_cons] at h2
  omega

/-- **C96** If a constraint of the problem is not used by a substitution, the solver is called: what it returns is returned, and the values are those of its result. `cs` are the constraints of the problem; those of different
substitutions are different (as in C71). -/
theorem C96_called (w : World) (S : State) (o : Nat → SU.Out K) (V : AS.Vars) (num : PVar → Nat) {l : List Sub} {cs : List Nat} (hd : (l.flatMap (·.cstrs)).Nodup) (hne : ∀ s ∈ l, s.cstrs ≠ [])
    (hin : ∀ s ∈ l, ∀ c ∈ s.cstrs, c ∈ cs) (hnu : ∃ c ∈ cs, ∀ s ∈ l, c ∉ s.cstrs) (prob : Nat → Bool) (solver : Bool × (Nat → K)) (before : Nat → K) (val : PVar → Nat → K) :
    resolve w S o V num cs.length l.length prob solver before val = (solver.1, finalValues w S o V num solver.2 val) := by
  obtain ⟨c, hc, hn⟩ := hnu
  have := unused_length hd hne hin hc hn
  unfold resolve
  rw [if_pos (by omega)]

/-- **C96** When there are no more constraints than substitutions, and those have no additional constraint, the solver is not called, `true` is returned, and all the constraints of the problem hold for the values that
are given to the variables. The other variables of the problem that are not among the unknowns of the solver are set to zero, and the variables that are not of the problem keep their values. -/
theorem C96_skipped_partial (hc : ∀ c, (w.cstr c).vars.Nodup) {S0 : State} {l : List Sub} (h : C70.Hist w S0 l) (hf : S0.finalize w = .ok S ())
    {J : Nat → Nat → Nat → Nat → K} {e : Nat → Nat → K} {cal : Nat → Nat → SU.Calc K} (hu : C70.Updated w S J e cal o) (hadd : S.addCstrs = []) (V : AS.Vars)
    {cs : List Nat} (hd : (l.flatMap (·.cstrs)).Nodup) (hne : ∀ s ∈ l, s.cstrs ≠ []) (hin : ∀ s ∈ l, ∀ c ∈ s.cstrs, c ∈ cs) (hs : cs.length ≤ l.length)
    (prob : Nat → Bool) (solver : Bool × (Nat → K)) (before : Nat → K) (val : PVar → Nat → K) :
    (resolve w S o V num cs.length l.length prob solver before val).1 = true ∧
      (∀ c ∈ cs, C70.Holds w J e (resolve w S o V num cs.length l.length prob solver before val).2 c) ∧
      ∀ v, (∀ s ∈ l, v ∉ s.vars) → V.known (num (.var v)) = false → (resolve w S o V num cs.length l.length prob solver before val).2 v = if prob v then fun _ => 0 else val (.var v) := by
  suffices hh : (resolve w S o V num cs.length l.length prob solver before val).1 = true ∧
      (∀ s ∈ l, ∀ c ∈ s.cstrs, C70.Holds w J e (resolve w S o V num cs.length l.length prob solver before val).2 c) ∧
      ∀ v, (∀ s ∈ l, v ∉ s.vars) → (resolve w S o V num cs.length l.length prob solver before val).2 v = fun q => if V.known (num (.var v)) = true then before (V.col (num (.var v)) + q) else if prob v then 0 else val (.var v) q by
    refine ⟨hh.1, fun c hcc => ?_, fun v hv hk => ?_⟩
    swap
    · rw [hh.2.2 v hv]
      funext q
      rw [hk, if_neg (by simp)]
      cases prob v <;> rfl
    by_contra hno
    have := unused_length hd hne hin hcc fun s hs' hm => hno (hh.2.1 s hs' c hm)
    omega
  obtain ⟨-, -, -, -, -, -, l7, -⟩ := C70.C70_lists h hf
  unfold resolve
  rw [if_neg (by omega)]
  refine ⟨rfl, ?_⟩
  refine C70.C70_values_partial hc h hf hu _ _ fun a u hu' k t ht r hr => ?_
  exfalso
  rw [List.getElem?_map, Option.map_eq_some_iff] at ht
  obtain ⟨s, hs', rfl⟩ := ht
  have hsz : ((Sub.shape w s).cstrs.map (·.size)).sum = rows w s.cstrs := by
    simp only [Sub.shape, List.map_map, rows]; rfl
  rw [hsz] at hr
  have hr' : r < rows w s.cstrs - s.rank := hr
  have := (l7 a k).mpr ⟨u, s, hu', hs', by omega⟩
  rw [hadd] at this
  cases this

end

/-! ## Examples -/

/-- A variable `0` of size `2`, the others of size `1`. A constraint of size `2`: `x₀[0] = 1`, `x₁ = 1`. -/
def w₁ : World := ⟨fun x => if x = 0 then 2 else 1, fun _ => ⟨2, [0, 1], .asGiven⟩, fun _ => true⟩

/-- The substitution of `x₀`, of rank `1` -/
def sub₁ : Sub := ⟨[0], [0], 1⟩

def before₁ : State :=
  match State.add w₁ {} sub₁ with
  | .ok S _ => S
  | _ => {}

theorem hist₁ : C70.Hist w₁ before₁ [sub₁] := .add [0] [0] (some 1) sub₁ .init rfl rfl

def final₁ : State :=
  match before₁.finalize w₁ with
  | .ok S _ => S
  | _ => {}

theorem finalize₁ : before₁.finalize w₁ = .ok final₁ () := rfl

example : final₁.units = [[sub₁]] ∧ final₁.vars = [0] ∧ final₁.funcs = [(0, 0)] ∧ final₁.addCstrs = [(0, 0)] ∧ final₁.others = [1] ∧ final₁.substitute w₁ 0 = [.var 1, .z 0 0] :=
  ⟨rfl, rfl, rfl, rfl, rfl, rfl⟩

def J₁ : Nat → Nat → Nat → Nat → ℚ := fun _ v r q => if v = 0 then (if r = 0 ∧ q = 0 then 1 else 0) else if r = 1 then 1 else 0
def e₁ : Nat → Nat → ℚ := fun _ _ => 1
def cal₁ : Nat → Nat → SU.Calc ℚ := fun _ _ => C43.trunc 1

theorem units₁ {a : Nat} {u : List Sub} (hu : final₁.units[a]? = some u) : a = 0 ∧ u = [sub₁] := by
  have ha := (List.getElem?_eq_some_iff.mp hu).1
  match a, ha with
  | 0, _ => exact ⟨rfl, (Option.some.inj hu).symm⟩

def run₁ (a : Nat) : SU.Mem ℚ :=
  let u := final₁.units.getD a []
  let L := layout w₁ u
  SU.subLoop w₁.dim L (SU.deps L) (C70.unitData J₁ e₁ (cal₁ a) u) L.subs (SU.init w₁.dim (u.map (Sub.shape w₁)) C43.noMem) 0

def out₁ (a : Nat) : SU.Out ℚ := SU.output w₁.dim (layout w₁ (final₁.units.getD a [])) (C70.unitData J₁ e₁ (cal₁ a) (final₁.units.getD a [])) (run₁ a)

theorem updated₁ : C70.Updated w₁ final₁ J₁ e₁ cal₁ out₁ := by
  intro a u hu
  obtain ⟨rfl, rfl⟩ := units₁ hu
  refine ⟨?_, SU.init w₁.dim ([sub₁].map (Sub.shape w₁)) C43.noMem, run₁ 0, .init C43.noMem, C43.update_run (by decide)⟩
  intro k s t hs ht
  have hk := (List.getElem?_eq_some_iff.mp ht).1
  match k, hk with
  | 0, _ =>
    have e1 : s = ((SU.scan w₁.dim ([sub₁].map (Sub.shape w₁))).subs[0]?).get (by decide) := C70.get_of hs _
    have e2 : t = (([sub₁].map (Sub.shape w₁))[0]?).get (by decide) := C70.get_of ht _
    rw [e1, e2]
    apply C43.lawful_trunc _ 2 2 1 (by omega) (by omega)
    decide +kernel

/-- The values of the variables that satisfy the constraint of the substitution -/
theorem holds₁ (W : Nat → Nat → ℚ) : (∀ s ∈ [sub₁], ∀ c ∈ s.cstrs, C70.Holds w₁ J₁ e₁ W c) ↔ W 0 0 = 1 ∧ W 1 0 = 1 := by
  simp only [List.mem_singleton, forall_eq, sub₁, C70.Holds, w₁]
  constructor
  · intro h
    have h0 := h 0 (by omega)
    have h1 := h 1 (by omega)
    simp [J₁, e₁] at h0 h1
    exact ⟨h0, h1⟩
  · rintro ⟨h0, h1⟩ r hr
    have : r = 0 ∨ r = 1 := by omega
    rcases this with rfl | rfl <;> simp [J₁, e₁, h0, h1]

/-- The user asks `x₀[1] ≥ 3` and `x₁ ≤ 5`, and `x₀` as small as possible. -/
def cU : SE.Cstr := ⟨1, 1, .greaterThan⟩
def cO : SE.Cstr := ⟨2, 2, .equal⟩
def cB : SE.Cstr := ⟨3, 1, .lowerThan⟩
/-- The additional constraint -/
def cA : SE.Cstr := ⟨4, 1, .equal⟩

def usr₁ (c : SE.Cstr) : UserCstr ℚ :=
  if c.id = 1 then ⟨.greaterThan, .asGiven, 1, [0], fun _ _ k => if k = 1 then 1 else 0, fun _ => 0, fun _ => 3, fun _ => 0⟩
  else if c.id = 2 then ⟨.equal, .zero, 2, [0], fun _ i k => if i = k then 1 else 0, fun _ => 0, fun _ => 0, fun _ => 0⟩
  else ⟨.lowerThan, .asGiven, 1, [1], fun _ _ _ => 1, fun _ => 0, fun _ => 0, fun _ => 5⟩

def num₁ : PVar → Nat
  | .var x => 2 * x
  | .z a k => 2 * Nat.pair a k + 1

def den₁ (m : Nat) : PVar := if m % 2 = 0 then .var (m / 2) else .z (Nat.unpair (m / 2)).1 (Nat.unpair (m / 2)).2

theorem back₁ (p : PVar) : den₁ (num₁ p) = p := by
  cases p with
  | var x => simp [den₁, num₁]
  | z a k =>
    unfold den₁ num₁
    have h1 : (2 * Nat.pair a k + 1) % 2 = 1 := by omega
    have h2 : (2 * Nat.pair a k + 1) / 2 = Nat.pair a k := by omega
    simp [h1, h2]

/-- The unknowns of the solver: `x₁`, then the variable `z` of the substitution -/
def V₁ : AS.Vars where
  dim := fun m => match den₁ m with
    | .var x => w₁.dim x
    | .z a k => (layout w₁ (final₁.units.getD a [])).zdim k
  known := fun m => decide (m = 2) || decide (m = 1)
  col := fun m => if m = 1 then 1 else 0

def env₁ : ASM.Env := ⟨V₁, fun c => if c = cA then additionalSource w₁ final₁ num₁ (fun _ _ => true) (fun _ => .other) 0 0 else
  sourceOf w₁ final₁ num₁ (fun _ _ => true) (fun _ => .other) (usr₁ c)⟩

def wt₁ : AS.Weights ℚ := ⟨1, -1, fun _ => 0, fun _ => 0⟩

def now₁ : ASM.Now ℚ where
  fl := fun _ => ⟨true, true⟩
  dat := fun c => if c = cA then additionalData w₁ final₁ out₁ den₁ wt₁ 0 0 else dataOf w₁ final₁ out₁ den₁ wt₁ (usr₁ c)
  bnd := fun _ => ⟨.lowerThan, .asGiven, .identity, 0, 1, fun _ _ => 1, fun _ => 0, fun _ => 0, fun _ => 5, ⟨7, 5, fun _ => 3, fun _ => 2⟩⟩

theorem known₁ (p : PVar) : V₁.known (num₁ p) = true ↔ p = .var 1 ∨ p = .z 0 0 := by
  have h : ∀ q, num₁ p = num₁ q ↔ p = q := fun q => ⟨fun e => by rw [← back₁ p, e, back₁], fun e => e ▸ rfl⟩
  rw [← h (.var 1), ← h (.z 0 0)]
  simp [V₁, num₁, Nat.pair]

theorem assembled₁ : Assembled w₁ final₁ out₁ num₁ den₁ env₁ now₁ usr₁ (fun _ _ => cA) (· ∈ [cU]) (· ∈ [cU, cA]) (· ∈ [cB]) (· ∈ [cO]) (fun _ => 0) := by
  have hd : ∀ p, V₁.dim (num₁ p) = match p with
    | .var x => w₁.dim x
    | .z a k => (layout w₁ (final₁.units.getD a [])).zdim k := by
    intro p
    simp only [V₁, back₁]
  refine ⟨back₁, fun x => hd (.var x), fun a k => hd (.z a k), ?_, ?_, ?_, ?_, ?_, ?_⟩
  · intro p p' h h' hne j
    rcases (known₁ p).mp h with rfl | rfl <;> rcases (known₁ p').mp h' with rfl | rfl
    · exact absurd rfl hne
    · rintro ⟨-, h2⟩ ⟨h3, -⟩
      have h4 : j < 1 := h2
      have h5 : 1 ≤ j := h3
      omega
    · rintro ⟨h3, -⟩ ⟨-, h2⟩
      have h4 : j < 1 := h2
      have h5 : 1 ≤ j := h3
      omega
    · exact absurd rfl hne
  · intro p
    have h1 : unknowns w₁ final₁ [usr₁ cU] = [.var 1, .z 0 0] := rfl
    have h2 : unknowns w₁ final₁ [usr₁ cO] = [.var 1, .z 0 0] := rfl
    have h3 : unknowns w₁ final₁ [usr₁ cB] = [.var 1] := rfl
    refine (known₁ p).trans ⟨fun h => ⟨cU, Or.inl (by simp), by rw [h1]; simpa using h⟩, ?_⟩
    rintro ⟨c, hc, hp⟩
    simp only [List.mem_singleton] at hc
    rcases hc with rfl | rfl | rfl
    · rw [h1] at hp; simpa using hp
    · rw [h2] at hp; simpa using hp
    · rw [h3] at hp; exact Or.inl (by simpa using hp)
  · intro c
    have : final₁.addCstrs = [(0, 0)] := rfl
    simp [this]
  · intro c hc
    simp only [List.mem_singleton] at hc
    rcases hc with rfl | rfl <;> exact ⟨⟨_, _, rfl⟩, ⟨_, rfl⟩, rfl⟩
  · intro a k hak
    have : final₁.addCstrs = [(0, 0)] := rfl
    rw [this, List.mem_singleton] at hak
    cases hak
    exact ⟨⟨_, _, rfl⟩, ⟨_, rfl⟩⟩
  · intro c hc
    rw [List.mem_singleton] at hc
    subst hc
    exact ⟨⟨1, rfl, rfl, rfl, rfl, fun _ _ _ _ => rfl⟩, rfl, rfl, rfl, fun _ _ => rfl, fun _ _ => rfl, fun _ _ => rfl⟩

theorem linked₁ : Linked w₁ final₁ out₁ num₁ env₁ now₁ usr₁ (fun _ _ => cA) (· ∈ [cU]) (· ∈ [cU, cA]) (· ∈ [cB]) (· ∈ [cO]) (fun _ => 0) := (C96_assembled hist₁ finalize₁ assembled₁).1

theorem envOk₁ : C95.EnvOk env₁ (· ∈ [cU, cA]) (· ∈ [cB]) (· ∈ [cO]) 2 (fun _ => 0) := by
  have hm := (C96_assembled hist₁ finalize₁ assembled₁).2
  refine ⟨?_, ?_, ?_, ?_, ?_⟩
  · intro c hc
    simp only [List.mem_cons, List.not_mem_nil, or_false] at hc
    rcases hc with (rfl | rfl) | rfl <;> exact ⟨rfl, rfl⟩
  · intro c hc
    simp only [List.mem_singleton] at hc
    subst hc; rfl
  · intro c hc
    simp only [List.mem_cons, List.not_mem_nil, or_false] at hc
    rcases hc with (rfl | rfl) | rfl
    · exact hm _ (Or.inl (by simp))
    · decide
    · exact hm _ (Or.inr (by simp))
  · intro c hc x y hy
    simp only [List.mem_cons, List.not_mem_nil, or_false] at hc
    have key : ∀ T : AS.Src, T.subs = [(0, ⟨[2, 1], true⟩)] → y ∈ AS.subVars T x → T.sub y = none := by
      intro T hT hy
      unfold AS.subVars at hy
      unfold AS.Src.sub at hy ⊢
      rw [hT] at hy ⊢
      by_cases hx : x = 0
      · subst hx
        simp at hy
        rcases hy with rfl | rfl <;> rfl
      · have : (0 == x) = false := by simp; omega
        simp [this] at hy
    rcases hc with (rfl | rfl) | rfl <;> exact key _ rfl hy
  · intro c hc
    simp only [List.mem_singleton] at hc
    subst hc; decide

theorem nowOk₁ : C95.NowOk env₁ now₁ (· ∈ [cU, cA]) (· ∈ [cB]) (· ∈ [cO]) 2 (fun _ => 0) := by
  have hk : ∀ m, V₁.known m = true → m = 2 ∨ m = 1 := by intro m h; simpa [V₁] using h
  have h2 : V₁.dim 2 = 1 := rfl
  have h1 : V₁.dim 1 = 1 := rfl
  have c2 : V₁.col 2 = 0 := rfl
  have c1 : V₁.col 1 = 1 := rfl
  refine ⟨fun c hc => ⟨envOk₁.maps c hc, ?_, ?_, ?_, ?_, ?_, ?_, envOk₁.flat c hc, ?_, ?_⟩, fun c hc => ?_⟩
  · intro x hx
    rcases hk x hx with rfl | rfl
    · show V₁.col 2 + V₁.dim 2 ≤ 2; rw [h2, c2]; omega
    · show V₁.col 1 + V₁.dim 1 ≤ 2; rw [h1, c1]
  · intro x y hx hy hne j
    show (V₁.col x ≤ j ∧ j < V₁.col x + V₁.dim x) → ¬ (V₁.col y ≤ j ∧ j < V₁.col y + V₁.dim y)
    rcases hk x hx with rfl | rfl <;> rcases hk y hy with rfl | rfl <;> simp only [h1, h2, c1, c2] <;> omega
  · simp only [List.mem_cons, List.not_mem_nil, or_false] at hc
    rcases hc with (rfl | rfl) | rfl <;> decide
  · intro x hx
    simp only [List.mem_cons, List.not_mem_nil, or_false] at hc
    rcases hc with (rfl | rfl) | rfl <;> cases hx
  · intro x hx
    simp only [List.mem_cons, List.not_mem_nil, or_false] at hc
    rcases hc with (rfl | rfl) | rfl <;> cases hx
  · intro x i hx hu
    exfalso
    have key : ∀ T : AS.Src, T.subs = [(0, ⟨[2, 1], true⟩)] → T.sub x = some i → i.useB = false → False := by
      intro T hT h1 h2
      unfold AS.Src.sub at h1
      rw [hT, Option.map_eq_some_iff] at h1
      obtain ⟨t, ht, rfl⟩ := h1
      have := List.mem_of_find?_eq_some ht
      rw [List.mem_singleton] at this
      subst this
      cases h2
    simp only [List.mem_cons, List.not_mem_nil, or_false] at hc
    rcases hc with (rfl | rfl) | rfl <;> exact key _ rfl hx hu
  · simp only [List.mem_cons, List.not_mem_nil, or_false] at hc
    rcases hc with (rfl | rfl) | rfl <;> rfl
  · intro i
    simp only [List.mem_cons, List.not_mem_nil, or_false] at hc
    rcases hc with (rfl | rfl) | rfl <;> simp [now₁, cU, cA, cO, dataOf, additionalData, wt₁]
  · refine ⟨fun i hi j hj hij => ?_, fun i _ => ?_, fun _ i _ => ?_, fun hh => ?_⟩
    · simp only [List.mem_singleton] at hc
      subst hc
      have h1 : i < 1 := hi
      have h2 : j < 1 := hj
      omega
    · simp [C95.placed, now₁]
    · simp [C95.placed, now₁]
    · cases hh

/-- The values for which all the constraints of the user hold -/
theorem allHold₁ (W : Nat → Nat → ℚ) : AllHold w₁ J₁ e₁ [sub₁] usr₁ (· ∈ [cU]) (· ∈ [cB]) W ↔ (W 0 0 = 1 ∧ W 1 0 = 1) ∧ 3 ≤ W 0 1 := by
  unfold AllHold
  rw [holds₁]
  have h1 : Sat w₁ (usr₁ cU) W ↔ 3 ≤ W 0 1 := by
    simp [Sat, row, usr₁, cU, meant, w₁]
  have h2 : Sat w₁ (usr₁ cB) W ↔ W 1 0 ≤ 5 := by
    simp [Sat, row, usr₁, cB, meant, w₁]
  refine and_congr_right fun ⟨_, h0⟩ => ⟨fun h => h1.mp (h cU (Or.inl (by simp))), fun h c hc => ?_⟩
  simp only [List.mem_singleton] at hc
  rcases hc with rfl | rfl
  · exact h1.mpr h
  · exact h2.mpr (by rw [h0]; norm_num)

theorem cost₁ (W : Nat → Nat → ℚ) : cost w₁ usr₁ (fun _ _ => 1) [cO] W = W 0 0 ^ 2 + W 0 1 ^ 2 := by
  simp [cost, row, usr₁, cO, meant, w₁, Finset.sum_range_succ]

/-- The best values: `x₀ = (1, 3)`, `x₁ = 1` -/
def best₁ : Nat → Nat → ℚ := fun v q => if v = 0 ∧ q = 1 then 3 else 1

theorem nodup₁ : ∀ c, (w₁.cstr c).vars.Nodup := fun _ => show [0, 1].Nodup by decide

theorem point₁ : ∃ ζ, C70.Additional w₁ final₁ out₁ best₁ ζ ∧ C70.Functions w₁ final₁ out₁ best₁ ζ ∧ ζ 0 0 0 = 3 := by
  obtain ⟨ζ, h1, h2⟩ := (C70.C70_solutions_partial nodup₁ hist₁ finalize₁ updated₁ best₁).mp ((holds₁ best₁).mpr ⟨rfl, rfl⟩)
  refine ⟨ζ, h1, h2, ?_⟩
  have h3 := h2 0 0 0 (by decide) 1 (by decide)
  have a1 : (out₁ 0).fY 0 0 1 0 = 0 := by decide +kernel
  have a2 : (out₁ 0).fZ 0 0 1 0 = 1 := by decide +kernel
  have a3 : (out₁ 0).fb 0 1 = 0 := by decide +kernel
  have b1 : SU.XY (layout w₁ (final₁.units.getD 0 [])) (SU.deps (layout w₁ (final₁.units.getD 0 []))) 0 = [0] := by decide
  have b2 : SU.XZ (layout w₁ (final₁.units.getD 0 [])) (SU.deps (layout w₁ (final₁.units.getD 0 []))) 0 = [0] := by decide
  have b3 : (layout w₁ (final₁.units.getD 0 [])).zdim 0 = 1 := by decide
  have b4 : w₁.dim ((layout w₁ (final₁.units.getD 0 [])).y.getD 0 0) = 1 := by decide
  unfold C70.fvalue C43.fval at h3
  rw [b1, b2] at h3
  simp only [List.map_cons, List.map_nil, List.sum_cons, List.sum_nil, b3, b4, Finset.sum_range_one, a1, a2, a3, zero_mul, one_mul, add_zero, zero_add] at h3
  rw [← h3]
  rfl

/-- A solution of the problem of the solver; the values that it represents are the best ones. -/
theorem solution₁ : ∃ x, C95.Limited 1000 2 x ∧ (C95.Holds env₁ now₁ (· ∈ [cU, cA]) x ∧ C95.InBounds now₁ (fun _ => 0) (· ∈ [cB]) x) ∧
    (∀ z, C95.Holds env₁ now₁ (· ∈ [cU, cA]) z ∧ C95.InBounds now₁ (fun _ => 0) (· ∈ [cB]) z →
      C95.objective env₁ now₁ (fun _ _ => 1) [cO] x ≤ C95.objective env₁ now₁ (fun _ _ => 1) [cO] z) ∧
    ∀ val, finalValues w₁ final₁ out₁ env₁.V num₁ x val 0 0 = 1 ∧ finalValues w₁ final₁ out₁ env₁.V num₁ x val 1 0 = 1 ∧ finalValues w₁ final₁ out₁ env₁.V num₁ x val 0 1 = 3 := by
  obtain ⟨-, -, l3, -, -, -, l7, -⟩ := C70.C70_lists hist₁ finalize₁
  obtain ⟨ζ, h1, h2, h3⟩ := point₁
  have ho : C95.Lists (· ∈ [cO]) [cO] := ⟨by decide, fun _ => Iff.rfl⟩
  have hr := pointOf_represents linked₁ h2
  have hx0 : pointOf env₁.V num₁ best₁ ζ 0 = 1 := pointOf_at linked₁ best₁ ζ (.var 1) rfl (q := 0) (by decide)
  have hx1 : pointOf env₁.V num₁ best₁ ζ 1 = 3 := (pointOf_at linked₁ best₁ ζ (.z 0 0) rfl (q := 0) (by decide)).trans h3
  have hall : AllHold w₁ J₁ e₁ [sub₁] usr₁ (· ∈ [cU]) (· ∈ [cB]) best₁ := (allHold₁ best₁).mpr ⟨⟨rfl, rfl⟩, by norm_num [best₁]⟩
  obtain ⟨p1, p2⟩ := problem_eq l3 l7 linked₁ envOk₁ hr
  have hfin : ∀ z, C95.Holds env₁ now₁ (· ∈ [cU, cA]) z ∧ C95.InBounds now₁ (fun _ => 0) (· ∈ [cB]) z → ∀ val,
      AllHold w₁ J₁ e₁ [sub₁] usr₁ (· ∈ [cU]) (· ∈ [cB]) (finalValues w₁ final₁ out₁ env₁.V num₁ z val) ∧
      C95.objective env₁ now₁ (fun _ _ => 1) [cO] z = cost w₁ usr₁ (fun _ _ => 1) [cO] (finalValues w₁ final₁ out₁ env₁.V num₁ z val) := by
    intro z hz val
    obtain ⟨r1, -⟩ := final_represents hist₁ finalize₁ linked₁ z val
    obtain ⟨q1, q2⟩ := problem_eq l3 l7 linked₁ envOk₁ r1
    obtain ⟨s1, s2⟩ := q1.mp hz
    exact ⟨⟨(C70.C70_solutions_partial nodup₁ hist₁ finalize₁ updated₁ _).mpr ⟨_, s2, r1.funcs⟩, s1⟩, q2 _ _ ho⟩
  have hx := p1.mpr ⟨hall.2, h1⟩
  have hc : C95.objective env₁ now₁ (fun _ _ => 1) [cO] (pointOf env₁.V num₁ best₁ ζ) = 10 := by
    rw [p2 _ _ ho, cost₁]
    norm_num [best₁]
  refine ⟨_, ?_, hx, fun z hz => ?_, fun val => ?_⟩
  · intro k hk
    have : k = 0 ∨ k = 1 := by omega
    rcases this with rfl | rfl
    · rw [hx0]; norm_num
    · rw [hx1]; norm_num
  · obtain ⟨a, b⟩ := hfin z hz fun _ _ => 0
    rw [allHold₁] at a
    rw [b, hc, cost₁, a.1.1]
    nlinarith [a.2]
  · obtain ⟨a, b⟩ := hfin _ hx val
    rw [allHold₁] at a
    rw [hc, cost₁, a.1.1] at b
    refine ⟨a.1.1, a.1.2, ?_⟩
    nlinarith [a.2]

/-- The life of a solver with this problem -/
theorem life₁ {Q : Type} (M : ASM.Machine ℚ Q) (k : LS.Kind) (j : QP.Junk ℚ) : ∃ s, C95.Life M k false s (M.build 2 2 1 1 true j (M.new j)) env₁ (· ∈ [cU, cA]) (· ∈ [cB]) (· ∈ [cO]) 2 (fun _ => 0) :=
  ⟨_, C95.Life.build (M := M) (k := k) (ch := false) j j env₁ 2 2 1 1 true [.cstr cU, .cstr cA, .obj ⟨cO, 0, 1⟩, .bnd cB] (fun _ => 0) (by cases k <;> constructor <;> decide) envOk₁⟩

theorem positive₁ : C95.Positive now₁ (· ∈ [cU, cA]) := by
  intro c _ i _
  rw [show (now₁.fl c) = ⟨true, true⟩ from rfl, C36.omega_default]
  exact one_pos

theorem fit₁ (big : ℚ) : ∀ c, c ∈ [cB] → ∀ z, C95.Limited big 2 z → (C95.placed now₁ (fun _ => 0) c).Fits big z := by
  intro c _ z _ hp
  cases hp

theorem weighted₁ : C95.Weighted (fun x => x) (fun _ => C95.exReq) (fun _ => 1) now₁ (· ∈ [cO]) (fun _ _ => 1) := by
  intro c hc
  refine ⟨fun _ => rfl, by simp [C36.wval, C95.exReq], fun i => by simp [C36.vval, C95.exReq], ?_, fun i => by simp [C36.wval, C36.vval, C95.exReq]⟩
  simp only [List.mem_singleton] at hc
  subst hc
  simp [AS.processRequirements, C95.exReq, now₁, cO, cA, dataOf, wt₁]

/-- The hypotheses of `C96_qld_partial`: QLD is built with this problem, and finds `x₀ = (1, 3)`, `x₁ = 1`. -/
example (j : QP.Junk ℚ) (qr : QP.QR ℚ) : ∃ s q x, C95.Life (ASM.qldM C95.exOpts) .qld false s q env₁ (· ∈ [cU, cA]) (· ∈ [cB]) (· ∈ [cO]) 2 (fun _ => 0) ∧ q.autoMin = false ∧
    C66.QldSolution 2 ((ASM.qldPrepare C95.exOpts (C95.allRuns s env₁ now₁) q).call C95.exOpts qr) x ∧
    ∀ val, Solves w₁ final₁ out₁ num₁ env₁.V J₁ e₁ [sub₁] usr₁ (· ∈ [cU]) (· ∈ [cB]) (fun _ _ => 1) [cO] (C95.Limited 1000 2) (fun _ => 0) x val ∧
      finalValues w₁ final₁ out₁ env₁.V num₁ x val 0 1 = 3 := by
  obtain ⟨s, h⟩ := life₁ (ASM.qldM C95.exOpts) .qld j
  obtain ⟨x, x1, x2, x3, x4⟩ := solution₁
  have hm : ((ASM.qldM C95.exOpts).build 2 2 1 1 true j ((ASM.qldM C95.exOpts).new j)).autoMin = false := rfl
  have ho : C95.Lists (· ∈ [cO]) [cO] := ⟨by decide, fun _ => Iff.rfl⟩
  have hx := (C95.C95_qld_partial h nowOk₁ (C95.allRuns_runs _ _ _) hm positive₁ (fit₁ _) rfl weighted₁ ho (fun hh => by cases hh) (qr := qr) x).mpr
    ⟨⟨x2.1, x2.2, x1⟩, fun y hy => by simpa [C95.exOpts] using x3 y ⟨hy.1, hy.2.1⟩⟩
  refine ⟨s, _, x, h, hm, hx, fun val => ⟨?_, (x4 val).2.2⟩⟩
  have := C96_qld_partial nodup₁ hist₁ finalize₁ updated₁ linked₁ h nowOk₁ (C95.allRuns_runs _ _ _) hm positive₁ (fit₁ _) rfl weighted₁ ho (fun hh => by cases hh) hx val
  simpa [C95.exOpts] using this

/-- The hypotheses of `C96_quadprog_partial` -/
example (j : QP.Junk ℚ) (qr : QP.QR ℚ) : ∃ s q x, C95.Life (ASM.qpdM C95.exOpts qr) .quadprog false s q env₁ (· ∈ [cU, cA]) (· ∈ [cB]) (· ∈ [cO]) 2 (fun _ => 0) ∧ q.autoMin = false ∧
    C66.QpdSolution 2 ((ASM.qpdPrepare C95.exOpts qr (C95.allRuns s env₁ now₁) q).call C95.exOpts) x := by
  obtain ⟨s, h⟩ := life₁ (ASM.qpdM C95.exOpts qr) .quadprog j
  obtain ⟨x, x1, x2, x3, x4⟩ := solution₁
  have hm : ((ASM.qpdM C95.exOpts qr).build 2 2 1 1 true j ((ASM.qpdM C95.exOpts qr).new j)).autoMin = false := rfl
  have ho : C95.Lists (· ∈ [cO]) [cO] := ⟨by decide, fun _ => Iff.rfl⟩
  exact ⟨s, _, x, h, hm, (C95.C95_quadprog_partial h nowOk₁ (C95.allRuns_runs _ _ _) hm positive₁ (fit₁ _) rfl weighted₁ ho (fun hh => by cases hh) (fun hh => by cases hh) x).mpr
    ⟨⟨x2.1, x2.2, fun _ => x1⟩, fun y hy => by simpa [C95.exOpts] using x3 y ⟨hy.1, hy.2.1⟩⟩⟩

/-- The value of the constraint with a single side is in the limits. -/
theorem rows₁ {x : Nat → ℚ} (hx : ∀ val, finalValues w₁ final₁ out₁ env₁.V num₁ x val 0 0 = 1 ∧ finalValues w₁ final₁ out₁ env₁.V num₁ x val 1 0 = 1 ∧ finalValues w₁ final₁ out₁ env₁.V num₁ x val 0 1 = 3) :
    C95.RowsLimited 1000 env₁ now₁ (· ∈ [cU, cA]) x := by
  obtain ⟨-, -, l3, -, -, -, l7, -⟩ := C70.C70_lists hist₁ finalize₁
  intro c hc i hi
  simp only [List.mem_cons, List.not_mem_nil, or_false] at hc
  rcases hc with rfl | rfl
  · have hi0 : i = 0 := by have : i < 1 := hi; omega
    subst hi0
    refine ⟨fun _ => ?_, fun hh => by cases hh⟩
    obtain ⟨r1, -⟩ := final_represents hist₁ finalize₁ linked₁ x fun _ _ => 0
    have h1 := image_eq l3 linked₁.dimVar linked₁.dimZ (linked₁.src cU (Or.inl (by simp))).1 (envOk₁.maps cU (Or.inl (by simp))) r1 (i := 0) (by decide)
    have h2 : C34.image (env₁.src cU) env₁.V (now₁.dat cU) (C34.const (env₁.src cU) (now₁.dat cU)) 0 = 0 := by decide +kernel
    unfold C95.valueOf
    rw [h1, h2]
    have h3 : row w₁ (usr₁ cU) (finalValues w₁ final₁ out₁ env₁.V num₁ x fun _ _ => 0) 0 = finalValues w₁ final₁ out₁ env₁.V num₁ x (fun _ _ => 0) 0 1 := by
      simp [row, usr₁, cU, w₁]
    rw [h3, (hx _).2.2]
    norm_num
  · exact ⟨fun hh => (by cases hh), fun hh => (by cases hh)⟩

/-- The hypotheses of `C96_lssol_partial` -/
example (j : QP.Junk ℚ) : ∃ s q x, C95.Life (ASM.lssM C95.exOpts) .lssol false s q env₁ (· ∈ [cU, cA]) (· ∈ [cB]) (· ∈ [cO]) 2 (fun _ => 0) ∧ q.autoMin = false ∧
    C66.LssSolution 2 (ASM.lssPrepare C95.exOpts (C95.allRuns s env₁ now₁) q).call x := by
  obtain ⟨s, h⟩ := life₁ (ASM.lssM C95.exOpts) .lssol j
  obtain ⟨x, x1, x2, x3, x4⟩ := solution₁
  have hm : ((ASM.lssM C95.exOpts).build 2 2 1 1 true j ((ASM.lssM C95.exOpts).new j)).autoMin = false := rfl
  have ho : C95.Lists (· ∈ [cO]) [cO] := ⟨by decide, fun _ => Iff.rfl⟩
  exact ⟨s, _, x, h, hm, (C95.C95_lssol_partial h nowOk₁ (C95.allRuns_runs _ _ _) hm positive₁ (fit₁ _) rfl weighted₁ ho x).mpr
    ⟨⟨⟨x2.1, rows₁ x4⟩, x2.2, x1⟩, fun y hy => x3 y ⟨hy.1.1, hy.2.1⟩⟩⟩

/-- The hypotheses of `C96_lexls_partial` -/
example (j : QP.Junk ℚ) : ∃ s q x, C95.Life (ASM.lxlM C95.exOpts) .lexls false s q env₁ (· ∈ [cU, cA]) (· ∈ [cB]) (· ∈ [cO]) 2 (fun _ => 0) ∧ q.autoMin = false ∧
    C66.LexSolution (ASM.lxlPrepare C95.exOpts (C95.allRuns s env₁ now₁) q) x := by
  obtain ⟨s, h⟩ := life₁ (ASM.lxlM C95.exOpts) .lexls j
  obtain ⟨x, x1, x2, x3, x4⟩ := solution₁
  have hm : ((ASM.lxlM C95.exOpts).build 2 2 1 1 true j ((ASM.lxlM C95.exOpts).new j)).autoMin = false := rfl
  have ho : C95.Lists (· ∈ [cO]) [cO] := ⟨by decide, fun _ => Iff.rfl⟩
  have hs : (C95.Holds env₁ now₁ (· ∈ [cU, cA]) x ∧ C95.RowsLimited C95.exOpts.big env₁ now₁ (· ∈ [cU, cA]) x) ∧ C95.InBounds now₁ (fun _ => 0) (· ∈ [cB]) x ∧
    C95.Limited C95.exOpts.big 2 x := ⟨⟨x2.1, rows₁ x4⟩, x2.2, x1⟩
  exact ⟨s, _, x, h, hm, (C95.C95_lexls_partial h nowOk₁ (C95.allRuns_runs _ _ _) hm positive₁ (fit₁ _) rfl weighted₁ ho ⟨x, hs⟩ x).mpr ⟨hs, fun y hy => x3 y ⟨hy.1.1, hy.2.1⟩⟩⟩

/-- An objective on a variable that no substitution uses -/
def other₁ : UserCstr ℚ := ⟨.equal, .zero, 1, [2], fun _ _ _ => 1, fun _ => 0, fun _ => 0, fun _ => 0⟩

/-- **C96**: the assignments of the additional constraints do not always find their variables. Here a variable is substituted with a constraint which is not of full rank, and neither of the variables of this constraint is
in another one; there are values for which all the constraints of the problem hold, but the assignment of the additional constraint throws an exception: `processProblem` gives to the solver the variables of the constraints of the user, not those
of the additional constraints (WeightedLeastSquares.cpp, lines 127-167). -/
theorem C96_missing_false : ∃ (w : World) (S0 S : State) (l : List Sub) (J : Nat → Nat → Nat → Nat → ℚ) (e : Nat → Nat → ℚ) (c : UserCstr ℚ) (a k : Nat), C70.Hist w S0 l ∧
    S0.finalize w = .ok S () ∧ (∃ W, (∀ s ∈ l, ∀ c ∈ s.cstrs, C70.Holds w J e W c) ∧ Sat w c W) ∧ (a, k) ∈ S.addCstrs ∧
    ∀ (V : AS.Vars) (num : PVar → Nat) (ub : Nat → Nat → Bool) (prop : Nat → AS.JProp) (T : AS.Target) (fl : AS.Flags) (big : ℚ),
      (∀ p, V.known (num p) = true ↔ p ∈ unknowns w S [c]) → (∀ x, V.dim (num (.var x)) = w.dim x) → (∀ p p', num p = num p' → p = p') →
      AS.create big (additionalSource w S num ub prop a k) T V fl = none := by
  refine ⟨w₁, before₁, final₁, [sub₁], J₁, e₁, other₁, 0, 0, hist₁, finalize₁, ⟨fun v _ => if v = 2 then 0 else 1, (holds₁ _).mpr ⟨rfl, rfl⟩, ?_⟩, by decide, ?_⟩
  · simp [Sat, row, other₁, meant, w₁]
  · intro V num ub prop T fl big hk hd hi
    have hn : V.known (num (.var 1)) = false := by
      have h0 : unknowns w₁ final₁ [other₁] = [.var 2] := rfl
      have := (not_congr (hk (.var 1))).mpr (by rw [h0]; simp)
      simpa using this
    have hm : AS.mapped (additionalSource w₁ final₁ num ub prop 0 0) V = false := by
      by_contra hne
      have hne : AS.mapped (additionalSource w₁ final₁ num ub prop 0 0) V = true := by simpa using hne
      have hp : num (.var 1) ∈ (additionalSource w₁ final₁ num ub prop 0 0).parts := by
        have : (additionalSource w₁ final₁ num ub prop 0 0).parts = [num (.var 1)] := rfl
        rw [this]; exact List.mem_singleton.mpr rfl
      have hs : (additionalSource w₁ final₁ num ub prop 0 0).sub (num (.var 1)) = none := by
        have h1 : (additionalSource w₁ final₁ num ub prop 0 0).subs = [(num (.var 0), ⟨[num (.var 1), num (.z 0 0)], ub 0 0⟩)] := rfl
        unfold AS.Src.sub
        rw [h1]
        have : (num (.var 0) == num (.var 1)) = false := by
          rw [beq_eq_false_iff_ne]
          exact fun e => by cases hi _ _ e
        simp [this]
      have := (mapped_part hne hp (by rw [hd]; decide)).1 hs
      rw [hn] at this
      cases this
    unfold AS.create
    rw [hm, Bool.and_false]
    rfl

/-- A variable of size `2` and a constraint of size `2`: `x₀[0] = 1`, `0 = 1` -/
def w₂ : World := ⟨fun _ => 2, fun _ => ⟨2, [0], .asGiven⟩, fun _ => true⟩

def before₂ : State :=
  match State.add w₂ {} sub₁ with
  | .ok S _ => S
  | _ => {}

def final₂ : State :=
  match before₂.finalize w₂ with
  | .ok S _ => S
  | _ => {}

def out₂ (a : Nat) : SU.Out ℚ :=
  let u := final₂.units.getD a []
  let L := layout w₂ u
  SU.output w₂.dim L (C70.unitData J₁ e₁ (cal₁ a) u) (SU.subLoop w₂.dim L (SU.deps L) (C70.unitData J₁ e₁ (cal₁ a) u) L.subs (SU.init w₂.dim (u.map (Sub.shape w₂)) C43.noMem) 0)

/-- **C96**: without the hypothesis on the additional constraints, `C96_skipped_partial` is false. Here the constraint of the problem is used for a substitution, and no values satisfy it; the solver, which has the additional constraint
`0 = 1`, is not called, and `solve` returns `true`. -/
theorem C96_skipped_false : ∃ (w : World) (S0 S : State) (l : List Sub) (J : Nat → Nat → Nat → Nat → ℚ) (e : Nat → Nat → ℚ) (cal : Nat → Nat → SU.Calc ℚ) (o : Nat → SU.Out ℚ), C70.Hist w S0 l ∧
    S0.finalize w = .ok S () ∧ C70.Updated w S J e cal o ∧ (∀ W, ¬ ∀ s ∈ l, ∀ c ∈ s.cstrs, C70.Holds w J e W c) ∧
    ∀ (V : AS.Vars) (num : PVar → Nat) (prob : Nat → Bool) (solver : Bool × (Nat → ℚ)) (before : Nat → ℚ) (val : PVar → Nat → ℚ),
      (resolve w S o V num (l.flatMap (·.cstrs)).length l.length prob solver before val).1 = true := by
  refine ⟨w₂, before₂, final₂, [sub₁], J₁, e₁, cal₁, out₂, .add [0] [0] (some 1) sub₁ .init rfl rfl, rfl, ?_, ?_, fun _ _ _ _ _ _ => rfl⟩
  · intro a u hu
    have ha := (List.getElem?_eq_some_iff.mp hu).1
    match a, ha with
    | 0, _ =>
      have e0 : u = [sub₁] := (Option.some.inj hu).symm
      subst e0
      refine ⟨?_, SU.init w₂.dim ([sub₁].map (Sub.shape w₂)) C43.noMem, _, .init C43.noMem, C43.update_run (by decide)⟩
      intro k s t hs ht
      have hk := (List.getElem?_eq_some_iff.mp ht).1
      match k, hk with
      | 0, _ =>
        have e1 : s = ((SU.scan w₂.dim ([sub₁].map (Sub.shape w₂))).subs[0]?).get (by decide) := C70.get_of hs _
        have e2 : t = (([sub₁].map (Sub.shape w₂))[0]?).get (by decide) := C70.get_of ht _
        rw [e1, e2]
        apply C43.lawful_trunc _ 2 2 1 (by omega) (by omega)
        decide +kernel
  · intro W h
    have := h sub₁ (by simp) 0 (by simp [sub₁]) 1 (by decide)
    simp [w₂, J₁, e₁] at this

/-- The hypotheses of `C96_skipped_partial`: the problem of C70 -/
example (V : AS.Vars) (num : PVar → Nat) (val : PVar → Nat → ℚ) : (resolve C70.w₀ C70.final₀ C70.out₀ V num 4 4 (fun _ => true) (false, fun _ => 0) (fun _ => 0) val).1 = true :=
  (C96_skipped_partial (fun c => by
    simp only [C70.w₀]
    split
    · decide
    · split
      · decide
      · split
        · decide
        · split <;> decide) C70.hist₄ C70.finalize₀ C70.updated₀ rfl V (cs := [0, 1, 2, 3]) (by decide) (by decide) (by decide) (by decide) (fun _ => true) (false, fun _ => 0) (fun _ => 0) val).1

/-- With a fifth constraint the solver is called. -/
example (V : AS.Vars) (num : PVar → Nat) (val : PVar → Nat → ℚ) (x : Nat → ℚ) :
    resolve C70.w₀ C70.final₀ C70.out₀ V num 5 4 (fun _ => true) (false, x) (fun _ => 0) val = (false, finalValues C70.w₀ C70.final₀ C70.out₀ V num x val) :=
  C96_called C70.w₀ C70.final₀ C70.out₀ V num (l := [C70.subB, C70.subD, C70.subA, C70.subC]) (cs := [0, 1, 2, 3, 4]) (by decide) (by decide) (by decide) ⟨4, by decide, by decide⟩ (fun _ => true) (false, x) (fun _ => 0) val

end Verif.C96
