import Verif.Properties.C97_Tasks
import Verif.Properties.C98_HierarchicalResolution
/-!
# C123: with the hierarchical scheme, the priorities that can be achieved together are achieved, and the others are the best possible

C98 compares the costs of the levels in the lexicographic order. Here its consequence for the user: the constraints of the priorities up to `q` hold after the resolution if they can hold together; and the same
for tasks, in terms of the motion of the variables (as in C97): the tasks are achieved if some motion through the same state achieves them, and for the following priorities no motion has derivatives closer to those that the
dynamics ask for, in the lexicographic order.
-/
set_option autoImplicit false
set_option linter.unusedSectionVars false

namespace Verif.C123
open Verif Verif.SBS Verif.RV

/-! ## Specification -/

/-- The constraints of the priorities up to `q` that are not bounds -/
def UpTo (items : List HR.Item) (q : Nat) (c : SE.Cstr) : Prop := ∃ p, p ≤ q ∧ C98.At items p c

/-- How much the derivative `d` of a component of a task is wrong, when the dynamics give `e` and `e2` -/
noncomputable def miss (t : TD.CType) (d e e2 : ℝ) : ℝ :=
  match t with
  | .equal => d - e
  | .greaterThan => max (e - d) 0
  | .lowerThan => max (d - e) 0
  | .doubleSided => if d < e then e - d else if e2 < d then d - e2 else 0

/-- The weighted sum of the squares of what is wrong in the tasks of the priority `p` -/
noncomputable def taskCost (τ : SE.Cstr → C97.Tk) (wt : SE.Cstr → Nat → ℝ) (rate : SE.Cstr → Nat → ℝ) (items : List HR.Item) (p : Nat) : ℝ :=
  ((items.filter fun i => C98.isOrd i && decide (i.prio = p)).map fun i => ∑ r ∈ Finset.range (τ i.c).f.size, wt i.c r * miss (τ i.c).T.type (rate i.c r) ((τ i.c).e r) ((τ i.c).e2 r) ^ 2).sum

/-! ## Proof -/

section
variable {K : Type} [Field K] [LinearOrder K] [IsStrictOrderedRing K]

/-- A row holds if and only if nothing lacks. -/
theorem lack_zero (t : AS.CType) (e l u y : K) : C98.lack t e l u y = 0 ↔
    match t with
    | .equal => y = e
    | .greaterThan => l ≤ y
    | .lowerThan => y ≤ u
    | .doubleSided => l ≤ y ∧ y ≤ u := by
  cases t with
  | equal => simp [C98.lack, sub_eq_zero]
  | greaterThan => simp [C98.lack]
  | lowerThan => simp [C98.lack]
  | doubleSided =>
    simp only [C98.lack, C68.gap]
    split
    · rename_i h
      constructor
      · intro h2; linarith
      · intro h2; linarith [h2.1]
    · rename_i h
      split
      · rename_i h2
        constructor
        · intro h3; linarith
        · intro h3; linarith [h3.2]
      · rename_i h2
        exact ⟨fun _ => ⟨not_lt.mp h, not_lt.mp h2⟩, fun _ => rfl⟩

theorem sum_zero_iff {α : Type} (f : α → K) : ∀ L : List α, (∀ a ∈ L, 0 ≤ f a) → 0 ≤ (L.map f).sum ∧ ((L.map f).sum = 0 ↔ ∀ a ∈ L, f a = 0) := by
  intro L
  induction L with
  | nil => intro _; simp
  | cons a L ih =>
    intro h
    obtain ⟨h1, h2⟩ := ih fun b hb => h b (by simp [hb])
    have ha := h a (by simp)
    simp only [List.map_cons, List.sum_cons, List.mem_cons, forall_eq_or_imp]
    refine ⟨by linarith, ?_⟩
    rw [← h2]
    constructor
    · intro h3; constructor <;> linarith
    · rintro ⟨h3, h4⟩; linarith

variable {w : World} {usr : SE.Cstr → UserCstr K} {wt : SE.Cstr → Nat → K} {items : List HR.Item}

/-- The cost of a level with weights that are not negative is not negative; with positive weights, it is null if and only if the constraints hold. -/
theorem cost_zero (p : Nat) (W : Nat → Nat → K) (hpos : ∀ c, C98.At items p c → ∀ r < (usr c).size, 0 < wt c r) :
    0 ≤ C98.levelCost w usr wt items p W ∧ (C98.levelCost w usr wt items p W = 0 ↔ ∀ c, C98.At items p c → C96.Sat w (usr c) W) := by
  have hmem : ∀ i, i ∈ items.filter (fun i => C98.isOrd i && decide (i.prio = p)) ↔ i ∈ items ∧ C98.isOrd i = true ∧ i.prio = p := by
    intro i; simp [List.mem_filter]
  have hnn : ∀ i ∈ items.filter (fun i => C98.isOrd i && decide (i.prio = p)), ∀ r ∈ Finset.range (usr i.c).size, 0 ≤ wt i.c r *
      C98.lack (usr i.c).type (C96.meant (usr i.c).rhs ((usr i.c).e r)) (C96.meant (usr i.c).rhs ((usr i.c).l r)) (C96.meant (usr i.c).rhs ((usr i.c).u r)) (C96.row w (usr i.c) W r) ^ 2 := by
    intro i hi r hr
    obtain ⟨h1, h2, h3⟩ := (hmem i).1 hi
    exact mul_nonneg (hpos i.c ⟨i, h1, h2, h3, rfl⟩ r (Finset.mem_range.1 hr)).le (sq_nonneg _)
  obtain ⟨g1, g2⟩ := sum_zero_iff _ _ fun i hi => Finset.sum_nonneg (hnn i hi)
  refine ⟨g1, g2.trans ⟨fun h c hc r hr => ?_, fun h i hi => ?_⟩⟩
  · obtain ⟨i, h1, h2, h3, rfl⟩ := hc
    have hi := (hmem i).2 ⟨h1, h2, h3⟩
    have h0 := (Finset.sum_eq_zero_iff_of_nonneg (hnn i hi)).1 (h i hi) r (Finset.mem_range.2 hr)
    have hw := hpos i.c ⟨i, h1, h2, h3, rfl⟩ r hr
    have h0 : C98.lack (usr i.c).type (C96.meant (usr i.c).rhs ((usr i.c).e r)) (C96.meant (usr i.c).rhs ((usr i.c).l r)) (C96.meant (usr i.c).rhs ((usr i.c).u r)) (C96.row w (usr i.c) W r) = 0 := by
      rcases mul_eq_zero.1 h0 with h0 | h0
      · linarith
      · exact pow_eq_zero_iff (by norm_num) |>.1 h0
    exact (lack_zero _ _ _ _ _).1 h0
  · obtain ⟨h1, h2, h3⟩ := (hmem i).1 hi
    refine Finset.sum_eq_zero fun r hr => ?_
    have h0 := (lack_zero (usr i.c).type (C96.meant (usr i.c).rhs ((usr i.c).e r)) (C96.meant (usr i.c).rhs ((usr i.c).l r)) (C96.meant (usr i.c).rhs ((usr i.c).u r)) (C96.row w (usr i.c) W r)).2
      (h i.c ⟨i, h1, h2, h3, rfl⟩ r (Finset.mem_range.1 hr))
    rw [h0]; ring

/-- The first `m` numbers of a list are null if they are so for a list that is not better, and are not negative. -/
theorem lex_zero (f g : Nat → K) : ∀ (m k a : Nat) (t t' : List K), m ≤ k → C98.Lex ((List.range k).map (fun q => f (a + q)) ++ t) ((List.range k).map (fun q => g (a + q)) ++ t') →
    (∀ q < m, 0 ≤ f (a + q)) → (∀ q < m, g (a + q) = 0) → ∀ q < m, f (a + q) = 0 := by
  intro m
  induction m with
  | zero => intro k a t t' _ _ _ _ q hq; omega
  | succ m ih =>
    intro k a t t' hk hL hf hg q hq
    obtain ⟨k, rfl⟩ : ∃ k', k = k' + 1 := ⟨k - 1, by omega⟩
    have e : ∀ f : Nat → K, (List.range (k + 1)).map (fun q => f (a + q)) = f a :: (List.range k).map (fun q => f ((a + 1) + q)) := by
      intro f
      rw [List.range_succ_eq_map, List.map_cons, List.map_map]
      refine congrArg₂ _ rfl (List.map_congr_left fun q _ => ?_)
      show f (a + (q + 1)) = _
      congr 1; omega
    rw [e f, e g, List.cons_append, List.cons_append] at hL
    have h0 := hf 0 (by omega)
    have h1 := hg 0 (by omega)
    simp only [add_zero] at h0 h1
    rcases hL with hL | ⟨h2, hL⟩
    · rw [h1] at hL; linarith
    · cases q with
      | zero => simp only [add_zero]; rw [h2, h1]
      | succ q =>
        have := ih k (a + 1) t t' (by omega) hL (fun q hq => by rw [show a + 1 + q = a + (q + 1) by omega]; exact hf _ (by omega))
          (fun q hq => by rw [show a + 1 + q = a + (q + 1) by omega]; exact hg _ (by omega)) q (by omega)
        rw [show a + (q + 1) = a + 1 + q by omega]; exact this

/-! ## The property, for constraints -/

variable {S : State} {o : Nat → SU.Out K} {num : PVar → Nat} {env : ASM.Env} {now : ASM.Now K} {extra : List SE.Cstr} {n : Nat} {vs : SE.Cstr → Int} {op : HLS.Opts K}
  {add : Nat → Nat → SE.Cstr} {sqrt : K → K} {req : SE.Cstr → AS.Req K}

/-- After a resolution, the priorities that can be satisfied together are satisfied. -/
theorem solves_upTo {J : Nat → Nat → Nat → Nat → K} {e : Nat → Nat → K} {l : List Sub} {N q : Nat} {x : Nat → K} {val : PVar → Nat → K}
    (hs : C98.Solves w S o num env now J e l usr items extra (C98.At items 0) wt op n 1 N x val) (hq : q < N)
    (hpos : ∀ c p, 1 ≤ p → p ≤ q → C98.At items p c → ∀ r < (usr c).size, 0 < wt c r)
    (hsome : ∃ W z ζ, C96.AllHold w J e l usr (UpTo items q) (C98.Bnds items) W ∧ C96.Represents w S o env.V num z W ζ ∧ C70.Additional w S o W ζ ∧
      C98.Within op.big env now items (C98.Rows items extra) n z) :
    C96.AllHold w J e l usr (UpTo items q) (C98.Bnds items) (finalValues w S o env.V num x val) := by
  obtain ⟨W, z, ζ, ha, hr, hz, hw⟩ := hsome
  obtain ⟨h1, _, h3⟩ := hs
  have hL := (h3 W ⟨ha.1, fun c hc => ha.2 c (hc.imp (fun h => ⟨0, Nat.zero_le _, h⟩) id)⟩).2 z ζ hr hz hw
  unfold C98.costs at hL
  have key := lex_zero (fun p => C98.levelCost w usr wt items p (finalValues w S o env.V num x val)) (fun p => C98.levelCost w usr wt items p W) q (N - 1) 1 _ _ (by omega) hL
    (fun p hp => (cost_zero _ _ (fun c hc => hpos c _ (by omega) (by omega) hc)).1)
    (fun p hp => (cost_zero _ _ (fun c hc => hpos c _ (by omega) (by omega) hc)).2.2 fun c hc => ha.2 c (Or.inl ⟨1 + p, by omega, hc⟩))
  refine ⟨h1.1, fun c hc => ?_⟩
  rcases hc with ⟨p, hp, hc⟩ | hc
  · cases p with
    | zero => exact h1.2 c (Or.inl hc)
    | succ p =>
      have := key p (by omega)
      rw [show 1 + p = p + 1 by omega] at this
      exact (cost_zero _ _ (fun c hc => hpos c _ (by omega) hp hc)).2.1 this c hc
  · exact h1.2 c (Or.inr hc)

/-- **C123** If the constraints used for substitutions, the bounds and the constraints of the priorities up to `q` can be satisfied together within the limits, and have positive weights, they hold for the values of the variables after the
resolution. Partial for the reasons of `C98_partial`. -/
theorem C123_partial (hc : ∀ c, (w.cstr c).vars.Nodup) {S0 : State} {l : List Sub} (hh : C70.Hist w S0 l) (hf : S0.finalize w = .ok S ()) {J : Nat → Nat → Nat → Nat → K} {e : Nat → Nat → K}
    {cal : Nat → Nat → SU.Calc K} (hu : C70.Updated w S J e cal o) (hk : C96.Linked w S o num env now usr add (C98.Ords items) (C98.Rows items extra) (C98.Bnds items) (fun _ => False) vs)
    (hadd : extra = S.addCstrs.map fun p => add p.1 p.2) (he : C98.EnvOk env items extra n vs) {s s' : HLS.Solver K} (h : C98.Life op env items extra n vs s) (hn : C98.NowOk env now items extra n vs)
    {objs : List (HLS.Obj K)} (hs : HR.solve op env now (HR.cstOf items extra) s = .ok () (s', objs)) (hp : C68.Placed op (HR.pbOf env vs n items extra)) (hbig : 0 ≤ op.big)
    (hfit : ∀ c, C98.Bnds items c → ∀ z, C95.Limited op.big n z → (C95.placed now vs c).Fits op.big z) (hq1 : sqrt 1 = 1) (hw : C98.Weighted sqrt req now items wt)
    (hpos : C95.Positive now fun c => C98.At items 0 c ∨ c ∈ extra) (hside : C98.Sides op.big env now (C98.Ords items)) {q : Nat}
    (hwt : ∀ c p, 1 ≤ p → p ≤ q → C98.At items p c → ∀ r < (usr c).size, 0 < wt c r)
    (hsome : ∃ W z ζ, C96.AllHold w J e l usr (UpTo items q) (C98.Bnds items) W ∧ C96.Represents w S o env.V num z W ζ ∧ C70.Additional w S o W ζ ∧
      C98.Within op.big env now items (C98.Rows items extra) n z)
    {x : Nat → K} (hx : C68.LexSolution n objs x) (val : PVar → Nat → K) :
    C96.AllHold w J e l usr (UpTo items q) (C98.Bnds items) (finalValues w S o env.V num x val) := by
  obtain ⟨N, hqN, hN⟩ : ∃ N, q < N ∧ ∀ i ∈ items, C98.isOrd i = true → i.prio < N := by
    have : ∀ L : List HR.Item, ∃ N, q < N ∧ ∀ i ∈ L, i.prio < N := by
      intro L
      induction L with
      | nil => exact ⟨q + 1, by omega, fun i hi => by cases hi⟩
      | cons a L ih =>
        obtain ⟨N, h1, h2⟩ := ih
        refine ⟨N + a.prio + 1, by omega, fun i hi => ?_⟩
        rcases List.mem_cons.1 hi with rfl | hi
        · omega
        · have := h2 i hi; omega
    obtain ⟨N, h1, h2⟩ := this items
    exact ⟨N, h1, fun i hi _ => h2 i hi⟩
  have hsol : C98.Solves w S o num env now J e l usr items extra (C98.At items 0) wt op n 1 N x val := by
    refine C98.C98_partial hc hh hf hu hk hadd he h hn hs hp hbig hfit hq1 hw hpos hside hN ?_ hx val
    obtain ⟨W, z, ζ, ha, hr, hz, h1, h2⟩ := hsome
    refine ⟨W, z, ζ, ⟨ha.1, fun c hc => ha.2 c (hc.imp (fun h => ⟨0, Nat.zero_le _, h⟩) id)⟩, hr, hz, h1, fun c hc => h2 c (Or.inl ?_)⟩
    obtain ⟨i, a, b, _, d⟩ := hc
    exact ⟨i, a, b, d⟩
  exact solves_upTo hsol hqN hwt hsome

end

/-! ## The property, for tasks -/

section
open C97 C48 TD LTask TR
variable {w : World} {vn : VId → Nat} {un : Nat → VId}

/-- The vectors of the constraint of a task -/
theorem ltc_exact (f : Fn ℝ) (T : TaskObj ℝ) (c : LTC ℝ) (h : makeLTC f T = some c) (hn : f.vars.Nodup) (e e2 : Nat → ℝ) (hw : Wants f T e e2) :
    ∃ r, c.update f = .ok () r ∧ ∀ i, match T.type with
      | .equal => vec r.e i = e i - if T.td.dyn.order = .two then f.normalAcc i else 0
      | .greaterThan => vec r.l i = e i - if T.td.dyn.order = .two then f.normalAcc i else 0
      | .lowerThan => vec r.u i = e i - if T.td.dyn.order = .two then f.normalAcc i else 0
      | .doubleSided => vec r.l i = (e i - if T.td.dyn.order = .two then f.normalAcc i else 0) ∧ vec r.u i = e2 i - if T.td.dyn.order = .two then f.normalAcc i else 0 := by
  obtain ⟨-, htd, htd2, htype⟩ := ltc_vars f T c h hn
  have hside : ∀ (D : Impl ℝ) (x : Vec ℝ), D.dyn.value D.type f D.rhs = .ok () x → x.n = f.size → D.dyn.order = T.td.dyn.order →
      ∃ z, LTC.side D f = .ok () z ∧ ∀ i, z.v i = x.v i - if T.td.dyn.order = .two then f.normalAcc i else 0 := by
    intro D x hx hs ho
    unfold LTC.side
    simp only [hx, ho, hs, if_true]
    by_cases h2 : T.td.dyn.order = .two
    · simp [h2]
    · simp [h2]
  obtain ⟨x, hx, hxn, hxe⟩ := hw.first
  obtain ⟨z, hz, hze⟩ := hside T.td x hx hxn rfl
  have hd : T.type ≠ .doubleSided ∨ ∃ d z2, T.td2 = some d ∧ LTC.side d f = .ok () z2 ∧
      ∀ i, z2.v i = e2 i - if T.td.dyn.order = .two then f.normalAcc i else 0 := by
    by_cases hds : T.type = .doubleSided
    · right
      obtain ⟨d, x2, hd, hx2, hxn2, hxe2⟩ := hw.second hds
      have ho : d.dyn.order = T.td.dyn.order := by
        unfold makeLTC at h
        split at h
        · simp at h
        · rename_i hno
          by_contra hne
          exact hno ⟨hds, by simp [hd, hne]⟩
      obtain ⟨z2, hz2, hze2⟩ := hside d x2 hx2 hxn2 ho
      exact ⟨d, z2, hd, hz2, fun i => by rw [hze2, hxe2]⟩
    · exact Or.inl hds
  unfold LTC.update
  rw [htd, htd2, htype, hz]
  subst hxe
  cases ht : T.type with
  | equal => exact ⟨_, rfl, fun i => hze i⟩
  | greaterThan => exact ⟨_, rfl, fun i => hze i⟩
  | lowerThan => exact ⟨_, rfl, fun i => hze i⟩
  | doubleSided =>
    rcases hd with hd | ⟨d, z2, hd, hz2, hze2⟩
    · exact absurd ht hd
    · simp only [hd, hz2]
      exact ⟨_, rfl, fun i => ⟨hze i, hze2 i⟩⟩

/-- What lacks to a row of the constraint of a task is what is wrong in the derivative of the task. -/
theorem lack_task (hu : ∀ v, un (vn v) = v) {τ : Tk} {c : UserCstr ℝ} (hp : Posed w vn un τ c) {X : Path} {t : ℝ} (h : τ.Ok X t) {W : Nat → Nat → ℝ} (hW : Decided vn τ X t W)
    {i : Nat} (hi : i < τ.f.size) {d : ℝ} (hd : RightDeriv τ.order (τ.along X i) t d) :
    C98.lack c.type (C96.meant c.rhs (c.e i)) (C96.meant c.rhs (c.l i)) (C96.meant c.rhs (c.u i)) (C96.row w c W i) = miss τ.T.type d (τ.e i) (τ.e2 i) := by
  have hrow := row_eq hu hp h hW (i := i) hi
  obtain ⟨⟨L, hL, hc⟩, hdim⟩ := hp
  obtain ⟨hv, htd, -, hty⟩ := ltc_vars τ.f τ.T L hL h.nodup
  obtain ⟨r, hr, hex⟩ := ltc_exact τ.f τ.T L hL h.nodup τ.e τ.e2 h.wants
  have hex := hex i
  unfold constraintOf at hc
  rw [hr] at hc
  injection hc with _ hc
  have hde : d = C96.row w c W i + if τ.T.td.dyn.order = .two then τ.f.normalAcc i else 0 := by
    rw [← rightDeriv_unique _ _ _ _ _ _ (fun _ _ => rfl) (rate_deriv h hi) hd, hrow]
    rfl
  have hct : c.type = ctype τ.T.type := by rw [← hc, hty]
  have hcr : c.rhs = .asGiven := by rw [← hc]
  have hce : c.e = vec r.e := by rw [← hc]
  have hcl : c.l = vec r.l := by rw [← hc]
  have hcu : c.u = vec r.u := by rw [← hc]
  generalize C96.row w c W i = R at *
  rw [hct, hcr, hce, hcl, hcu, hde]
  generalize (if τ.T.td.dyn.order = .two then τ.f.normalAcc i else 0) = N at *
  cases ht : τ.T.type <;> simp only [ht] at hex <;> simp only [ctype, C98.lack, C96.meant, miss, C68.gap]
  · rw [hex]; ring
  · rw [hex]; congr 1; ring
  · rw [hex]; congr 1; ring
  · rw [hex.1, hex.2]
    show (if R < τ.e i - N then τ.e i - N - R else if τ.e2 i - N < R then R - (τ.e2 i - N) else 0) = _
    have e1 : (R < τ.e i - N) = (R + N < τ.e i) := propext ⟨fun h => by linarith, fun h => by linarith⟩
    have e2 : (τ.e2 i - N < R) = (τ.e2 i < R + N) := propext ⟨fun h => by linarith, fun h => by linarith⟩
    simp only [e1, e2]
    split
    · ring
    · split
      · ring
      · rfl

variable {S : State} {o : Nat → SU.Out ℝ} {num : PVar → Nat} {env : ASM.Env} {now : ASM.Now ℝ} {J : Nat → Nat → Nat → Nat → ℝ} {e : Nat → Nat → ℝ} {l : List Sub}
  {usr : SE.Cstr → UserCstr ℝ} {items : List HR.Item} {extra : List SE.Cstr} {wt : SE.Cstr → Nat → ℝ} {op : HLS.Opts ℝ} {n N : Nat} {x : Nat → ℝ} {val : PVar → Nat → ℝ}
  {τ : SE.Cstr → Tk} {σ : Nat → Tk}

/-- The motion `X` follows the values `W` at the time `t`, and the functions of all the tasks are what their documentation says along it. -/
def Follows (vn : VId → Nat) (items : List HR.Item) (l : List Sub) (τ : SE.Cstr → Tk) (σ : Nat → Tk) (X : Path) (t : ℝ) (W : Nat → Nat → ℝ) : Prop :=
  (∀ c, C98.Ords items c ∨ C98.Bnds items c → (τ c).Ok X t ∧ Decided vn (τ c) X t W) ∧ ∀ s ∈ l, ∀ a ∈ s.cstrs, (σ a).Ok X t ∧ Decided vn (σ a) X t W

/-- Along the motion `X`, at the time `t`, the tasks of the substitutions, those of the bounds and those of the priorities up to `q` are achieved. -/
def AchievedUpTo (items : List HR.Item) (l : List Sub) (τ : SE.Cstr → Tk) (σ : Nat → Tk) (q : Nat) (X : Path) (t : ℝ) : Prop :=
  (∀ s ∈ l, ∀ a ∈ s.cstrs, (σ a).Achieved X t) ∧ ∀ c, UpTo items q c ∨ C98.Bnds items c → (τ c).Achieved X t

theorem upTo_ord {q : Nat} {c : SE.Cstr} (h : UpTo items q c ∨ C98.Bnds items c) : C98.Ords items c ∨ C98.Bnds items c := by
  refine h.imp ?_ id
  rintro ⟨p, _, i, a, b, _, d⟩
  exact ⟨i, a, b, d⟩

theorem holds_iff (hu : ∀ v, un (vn v) = v) (hτ : ∀ c, C98.Ords items c ∨ C98.Bnds items c → Posed w vn un (τ c) (usr c)) (hσ : ∀ s ∈ l, ∀ a ∈ s.cstrs, PosedSub w J e vn un (σ a) a)
    {X : Path} {t : ℝ} {W : Nat → Nat → ℝ} (hf : Follows vn items l τ σ X t W) (q : Nat) :
    C96.AllHold w J e l usr (UpTo items q) (C98.Bnds items) W ↔ AchievedUpTo items l τ σ q X t := by
  refine and_congr ?_ ?_
  · refine forall_congr' fun s => forall_congr' fun hs => forall_congr' fun a => forall_congr' fun ha => ?_
    exact sub_eq hu (hσ s hs a ha) (hf.2 s hs a ha).1 (hf.2 s hs a ha).2
  · refine forall_congr' fun c => forall_congr' fun hc => ?_
    exact (C97_task hu (hτ c (upTo_ord hc)) (hf.1 c (upTo_ord hc)).1 (hf.1 c (upTo_ord hc)).2).1

/-- **C123** After a resolution with the hierarchical scheme, along a motion whose derivatives are the values of the variables: if some motion achieves the tasks of the substitutions, of the bounds and of the priorities up to `q`, within the
limits of the solver, they are achieved. Partial for the reasons of `C98_partial`, which gives the hypothesis `hs`. -/
theorem C123_tasks_partial (hu : ∀ v, un (vn v) = v) (hs : C98.Solves w S o num env now J e l usr items extra (C98.At items 0) wt op n 1 N x val)
    (hτ : ∀ c, C98.Ords items c ∨ C98.Bnds items c → Posed w vn un (τ c) (usr c)) (hσ : ∀ s ∈ l, ∀ a ∈ s.cstrs, PosedSub w J e vn un (σ a) a)
    {X : Path} {t : ℝ} (hX : Follows vn items l τ σ X t (finalValues w S o env.V num x val)) {q : Nat} (hq : q < N)
    (hpos : ∀ c p, 1 ≤ p → p ≤ q → C98.At items p c → ∀ r < (τ c).f.size, 0 < wt c r)
    (hsome : ∃ X' W z ζ, Follows vn items l τ σ X' t W ∧ AchievedUpTo items l τ σ q X' t ∧ C96.Represents w S o env.V num z W ζ ∧ C70.Additional w S o W ζ ∧
      C98.Within op.big env now items (C98.Rows items extra) n z) : AchievedUpTo items l τ σ q X t := by
  obtain ⟨X', W, z, ζ, h1, h2, h3, h4, h5⟩ := hsome
  refine (holds_iff hu hτ hσ hX q).1 (solves_upTo hs hq (fun c p hp hpq hc r hr => hpos c p hp hpq hc r ?_) ⟨W, z, ζ, (holds_iff hu hτ hσ h1 q).2 h2, h3, h4, h5⟩)
  have hc' := upTo_ord (Or.inl ⟨p, hpq, hc⟩)
  rw [← (C97_task hu (hτ c hc') (hX.1 c hc').1 (hX.1 c hc').2).2.1]
  exact hr

/-- **C123** And for the priorities from 1 on, no motion that achieves the tasks of the substitutions, of the bounds and of the priority 0 is better: the weighted sums of the squares of what is wrong in the derivatives of the tasks, priority after
priority (and then what the damping of the solver penalizes), are the lowest in the lexicographic order. -/
theorem C123_best_partial (hu : ∀ v, un (vn v) = v) (hs : C98.Solves w S o num env now J e l usr items extra (C98.At items 0) wt op n 1 N x val)
    (hτ : ∀ c, C98.Ords items c ∨ C98.Bnds items c → Posed w vn un (τ c) (usr c)) (hσ : ∀ s ∈ l, ∀ a ∈ s.cstrs, PosedSub w J e vn un (σ a) a)
    {X : Path} {t : ℝ} (hX : Follows vn items l τ σ X t (finalValues w S o env.V num x val)) :
    AchievedUpTo items l τ σ 0 X t ∧ ∀ (X' : Path) (W : Nat → Nat → ℝ), Follows vn items l τ σ X' t W → AchievedUpTo items l τ σ 0 X' t →
      (∃ z ζ, C96.Represents w S o env.V num z W ζ ∧ C70.Additional w S o W ζ) ∧
      ∀ z ζ, C96.Represents w S o env.V num z W ζ → C70.Additional w S o W ζ → C98.Within op.big env now items (C98.Rows items extra) n z → ∀ rate rate' : SE.Cstr → Nat → ℝ,
        (∀ c, C98.Ords items c → ∀ i < (τ c).f.size, RightDeriv (τ c).order ((τ c).along X i) t (rate c i) ∧ RightDeriv (τ c).order ((τ c).along X' i) t (rate' c i)) →
        C98.Lex ((List.range (N - 1)).map (fun p => taskCost τ wt rate items (1 + p)) ++ if op.damping then [∑ k ∈ Finset.range n, x k ^ 2] else [])
          ((List.range (N - 1)).map (fun p => taskCost τ wt rate' items (1 + p)) ++ if op.damping then [∑ k ∈ Finset.range n, z k ^ 2] else []) := by
  have h0 : ∀ W, C96.AllHold w J e l usr (UpTo items 0) (C98.Bnds items) W ↔ C96.AllHold w J e l usr (C98.At items 0) (C98.Bnds items) W := by
    intro W
    have : UpTo items 0 = C98.At items 0 := by
      funext c
      refine propext ⟨?_, fun h => ⟨0, le_rfl, h⟩⟩
      rintro ⟨p, hp, h⟩
      rw [Nat.le_zero.1 hp] at h; exact h
    rw [this]
  have hcost : ∀ (Y : Path) (W : Nat → Nat → ℝ) (ρ : SE.Cstr → Nat → ℝ), Follows vn items l τ σ Y t W →
      (∀ c, C98.Ords items c → ∀ i < (τ c).f.size, RightDeriv (τ c).order ((τ c).along Y i) t (ρ c i)) → ∀ p, C98.levelCost w usr wt items p W = taskCost τ wt ρ items p := by
    intro Y W ρ hY hρ p
    unfold C98.levelCost taskCost
    congr 1
    refine List.map_congr_left fun i hi => ?_
    have hi := List.mem_filter.1 hi
    have ho : C98.Ords items i.c := ⟨i, hi.1, (by have := hi.2; simp at this; exact this.1), rfl⟩
    have hY' := hY.1 i.c (Or.inl ho)
    rw [(C97_task hu (hτ i.c (Or.inl ho)) hY'.1 hY'.2).2.1]
    refine Finset.sum_congr rfl fun r hr => ?_
    have hr := Finset.mem_range.1 hr
    rw [lack_task hu (hτ i.c (Or.inl ho)) hY'.1 hY'.2 hr (hρ i.c ho r hr)]
  obtain ⟨h1, -, h3⟩ := hs
  refine ⟨(holds_iff hu hτ hσ hX 0).1 ((h0 _).2 h1), fun X' W hf ha => ?_⟩
  obtain ⟨h4, h5⟩ := h3 W ((h0 _).1 ((holds_iff hu hτ hσ hf 0).2 ha))
  refine ⟨h4, fun z ζ hr hz hw rate rate' hrate => ?_⟩
  have := h5 z ζ hr hz hw
  unfold C98.costs at this
  simp only [hcost X _ rate hX (fun c hc i hi => (hrate c hc i hi).1), hcost X' W rate' hf (fun c hc i hi => (hrate c hc i hi).2)] at this
  exact this

end

/-! ## The hypotheses are met: three tasks on `x²` at `x = 1`, `x² ≥ 0` of gain 2 with the priority 0, `x² = 0` of gain 1 with the priority 1 and `x² = 0` of gain 3 with the priority 2 -/

section
open C97 C48 TD LTask TR
open Verif.C96 (num₁ den₁ back₁)

def cE : SE.Cstr := ⟨3, 1, .equal⟩

def items₆ : List HR.Item := [⟨cU, 0, .l2, false, false⟩, ⟨cO, 1, .l2, false, false⟩, ⟨cE, 2, .l2, false, false⟩]

noncomputable def tk₆ (c : SE.Cstr) : Tk := if c.id = 1 then sqTk .greaterThan 2 1 else if c.id = 2 then sqTk .equal 1 1 else sqTk .equal 3 1
noncomputable def usr₆ (c : SE.Cstr) : UserCstr ℝ := if c.id = 1 then sqC .greaterThan 2 1 else if c.id = 2 then sqC .equal 1 1 else sqC .equal 3 1

theorem posed₆ (c : SE.Cstr) : Posed w₃ vn₀ un₀ (tk₆ c) (usr₆ c) := by
  unfold tk₆ usr₆
  split
  · exact sq_posed _ (by decide) _ _
  · split <;> exact sq_posed _ (by decide) _ _

noncomputable def env₆ : ASM.Env := ⟨V₃, fun c => sourceOf w₃ final₃ num₁ (fun _ _ => true) (fun _ => .other) (usr₆ c)⟩

noncomputable def now₆ : ASM.Now ℝ where
  fl := fun _ => ⟨true, true⟩
  dat := fun c => dataOf w₃ final₃ out₃ den₁ ⟨1, -1, fun _ => 0, fun _ => 0⟩ (usr₆ c)
  bnd := fun _ => ⟨.lowerThan, .asGiven, .identity, 0, 1, fun _ _ => 1, fun _ => 0, fun _ => 0, fun _ => 0, ⟨7, 5, fun _ => 3, fun _ => 2⟩⟩

theorem at₆ (p : Nat) (c : SE.Cstr) : C98.At items₆ p c ↔ (p = 0 ∧ c = cU) ∨ (p = 1 ∧ c = cO) ∨ (p = 2 ∧ c = cE) := by
  constructor
  · rintro ⟨i, hi, ho, rfl, rfl⟩
    simp only [items₆, List.mem_cons, List.not_mem_nil, or_false] at hi
    rcases hi with rfl | rfl | rfl <;> simp
  · rintro (⟨rfl, rfl⟩ | ⟨rfl, rfl⟩ | ⟨rfl, rfl⟩)
    · exact ⟨_, List.mem_cons_self, rfl, rfl, rfl⟩
    · exact ⟨_, List.mem_cons_of_mem _ List.mem_cons_self, rfl, rfl, rfl⟩
    · exact ⟨_, List.mem_cons_of_mem _ (List.mem_cons_of_mem _ List.mem_cons_self), rfl, rfl, rfl⟩

theorem ords₆ (c : SE.Cstr) : C98.Ords items₆ c ↔ c = cU ∨ c = cO ∨ c = cE := by
  constructor
  · rintro ⟨i, hi, ho, rfl⟩
    simp only [items₆, List.mem_cons, List.not_mem_nil, or_false] at hi
    rcases hi with rfl | rfl | rfl <;> simp
  · rintro (rfl | rfl | rfl)
    · exact ⟨_, List.mem_cons_self, rfl, rfl⟩
    · exact ⟨_, List.mem_cons_of_mem _ List.mem_cons_self, rfl, rfl⟩
    · exact ⟨_, List.mem_cons_of_mem _ (List.mem_cons_of_mem _ List.mem_cons_self), rfl, rfl⟩

theorem bnds₆ (c : SE.Cstr) : ¬ C98.Bnds items₆ c := by
  rintro ⟨i, hi, ho, rfl⟩
  simp only [items₆, List.mem_cons, List.not_mem_nil, or_false] at hi
  rcases hi with rfl | rfl | rfl <;> cases ho

theorem unk₆ (c : SE.Cstr) : unknowns w₃ final₃ [usr₆ c] = [.var 1] := by
  unfold usr₆
  split
  · rfl
  · split <;> rfl

theorem assembled₆ : C96.Assembled w₃ final₃ out₃ num₁ den₁ env₆ now₆ usr₆ (fun _ _ => cU) (C98.Ords items₆) (C98.Rows items₆ []) (C98.Bnds items₆) (fun _ => False) (fun _ => 0) := by
  have hd : ∀ p, V₃.dim (num₁ p) = match p with
    | .var _ => 1
    | .z _ _ => 0 := by
    intro p
    simp only [V₃, back₁]
    cases p <;> rfl
  refine ⟨back₁, fun x => hd (.var x), fun a k => hd (.z a k), ?_, ?_, ?_, ?_, ?_, ?_⟩
  · intro p p' h h' hne
    exact absurd (((known₃ p).mp h).trans ((known₃ p').mp h').symm) hne
  · intro p
    refine (known₃ p).trans ⟨fun h => ⟨cU, Or.inl ((ords₆ _).2 (Or.inl rfl)), by rw [unk₆, h]; simp⟩, ?_⟩
    rintro ⟨c, -, hp⟩
    rw [unk₆] at hp; simpa using hp
  · intro c
    have : final₃.addCstrs = [] := rfl
    simp [this, C98.Rows]
  · intro c hc
    refine ⟨⟨_, _, rfl⟩, ⟨_, rfl⟩, ?_⟩
    rcases hc with hc | hc
    · rcases (ords₆ c).1 hc with rfl | rfl | rfl <;> simp [usr₆, cU, cO, cE, sqC]
    · exact hc.elim
  · intro a k hak
    cases hak
  · intro c hc
    exact (bnds₆ c hc).elim

theorem linked₆ : C96.Linked w₃ final₃ out₃ num₁ env₆ now₆ usr₆ (fun _ _ => cU) (C98.Ords items₆) (C98.Rows items₆ []) (C98.Bnds items₆) (fun _ => False) (fun _ => 0) := (C96.C96_assembled .init finalize₃ assembled₆).1

theorem rows₆ {c : SE.Cstr} (h : C98.Rows items₆ [] c ∨ False) : C98.Ords items₆ c := by
  rcases h with (h | h) | h
  · exact h
  · cases h
  · exact h.elim

theorem envOk₆ : C98.EnvOk env₆ items₆ [] 1 (fun _ => 0) := by
  refine ⟨⟨?_, fun c hc => hc.elim, ?_, ?_, fun c hc => (bnds₆ c hc).elim⟩, by decide, fun c hc => by cases hc⟩
  · intro c hc
    rcases (ords₆ c).1 (rows₆ hc) with rfl | rfl | rfl <;> simp [env₆, usr₆, cU, cO, cE, sqC, sourceOf, ctype, C95.ty]
  · intro c hc
    exact (C96.C96_assembled .init finalize₃ assembled₆).2 c (Or.inl (rows₆ hc))
  · intro c hc x y hy
    have : (env₆.src c).subs = [] := rfl
    unfold AS.Src.sub
    rw [this]; rfl

theorem nowOk₆ : C98.NowOk env₆ now₆ items₆ [] 1 (fun _ => 0) := by
  have hk : ∀ m, V₃.known m = true → m = 2 := by intro m h; simpa [V₃] using h
  have hs : ∀ c x, (env₆.src c).sub x = none := fun c x => rfl
  refine ⟨⟨fun c hc => ⟨envOk₆.base.maps c hc, ?_, ?_, ?_, ?_, ?_, ?_, envOk₆.base.flat c hc, ?_, ?_⟩, fun c hc => (bnds₆ c hc).elim⟩, fun c hc => (bnds₆ c hc).elim⟩
  · intro x hx
    obtain rfl := hk x hx
    show V₃.col 2 + V₃.dim 2 ≤ 1
    decide
  · intro x y hx hy hne j
    exact absurd ((hk x hx).trans (hk y hy).symm) hne
  · rcases (ords₆ c).1 (rows₆ hc) with rfl | rfl | rfl <;> simp [env₆, usr₆, cU, cO, cE, sqC, sourceOf]
  · intro x hx; cases hx
  · intro x hx; cases hx
  · intro x i hx hu
    rw [hs] at hx; cases hx
  · rfl
  · intro i
    simp [now₆, dataOf]

theorem omega₆ (c : SE.Cstr) (r : Nat) : (now₆.fl c).omega (now₆.dat c).w r = 1 := by
  rw [show (now₆.fl c) = ⟨true, true⟩ from rfl, C36.omega_default]

noncomputable def req₆ : AS.Req ℝ := ⟨.l2, 1, true, fun _ => 1, 0, true⟩

theorem weighted₆ : C98.Weighted (fun x => x) (fun _ => req₆) now₆ items₆ (fun _ _ => 1) := by
  refine ⟨fun c hc => ⟨fun _ => rfl, by simp [C36.wval, req₆], fun i => by simp [C36.vval, req₆], ?_, fun i => by simp [C36.wval, C36.vval, req₆]⟩,
    fun c _ i _ => by rw [omega₆]; exact zero_le_one⟩
  simp [AS.processRequirements, req₆, now₆, dataOf]

noncomputable def op₆ : HLS.Opts ℝ := ⟨1000, true, false⟩

theorem value₆ (z : Nat → ℝ) (val : PVar → Nat → ℝ) : finalValues w₃ final₃ out₃ env₆.V num₁ z val 1 0 = z 0 := value₃ z val

theorem level₆ (W : Nat → Nat → ℝ) : C98.levelCost w₃ usr₆ (fun _ _ => 1) items₆ 0 W = max (-2 - 2 * W 1 0) 0 ^ 2 ∧ C98.levelCost w₃ usr₆ (fun _ _ => 1) items₆ 1 W = (2 * W 1 0 + 1) ^ 2 ∧
    C98.levelCost w₃ usr₆ (fun _ _ => 1) items₆ 2 W = (2 * W 1 0 + 3) ^ 2 := by
  have h1 : usr₆ cU = sqC .greaterThan 2 1 := rfl
  have h2 : usr₆ cO = sqC .equal 1 1 := rfl
  have h3 : usr₆ cE = sqC .equal 3 1 := rfl
  have e1 : items₆.filter (fun i => C98.isOrd i && decide (i.prio = 0)) = [⟨cU, 0, .l2, false, false⟩] := rfl
  have e2 : items₆.filter (fun i => C98.isOrd i && decide (i.prio = 1)) = [⟨cO, 1, .l2, false, false⟩] := rfl
  have e3 : items₆.filter (fun i => C98.isOrd i && decide (i.prio = 2)) = [⟨cE, 2, .l2, false, false⟩] := rfl
  unfold C98.levelCost
  rw [e1, e2, e3]
  simp only [List.map_cons, List.map_nil, h1, h2, h3, row₃]
  refine ⟨?_, ?_, ?_⟩ <;> simp [C98.lack, sqC, ctype, C96.meant]

theorem lexLE_cons {f : (Nat → ℝ) → ℝ} {l : List ((Nat → ℝ) → ℝ)} {x y : Nat → ℝ} (h1 : f x ≤ f y) (h2 : f x = f y → C68.LexLE l x y) : C68.LexLE (f :: l) x y := by
  rcases h1.lt_or_eq with h | h
  · exact Or.inl h
  · exact Or.inr ⟨h, h2 h⟩

theorem life₆ : ∃ s s' objs, C98.Life op₆ env₆ items₆ [] 1 (fun _ => 0) s ∧ HR.solve op₆ env₆ now₆ (HR.cstOf items₆ []) s = .ok () (s', objs) := by
  obtain ⟨s, h, -⟩ := C68.build_spec op₆ (C98.wf envOk₆) fun c hc _ => by
    obtain ⟨i, hi, rfl⟩ := List.mem_map.mp hc
    refine (C68.accepted_iff _).mpr ?_
    simp only [items₆, List.mem_cons, List.not_mem_nil, or_false] at hi
    rcases hi with rfl | rfl | rfl <;> rfl
  have hL : C98.Life op₆ env₆ items₆ [] 1 (fun _ => 0) s := .build h
  obtain ⟨⟨s', objs⟩, hr⟩ := (C68.C68_returns (C98.wf envOk₆) (C98.hist envOk₆ hL) (C98.theVals op₆ env₆ now₆ items₆ [] 1 (fun _ => 0))).mpr (Or.inr (Or.inr (Or.inr
    ⟨HR.Item.cstr env₆ (fun _ => 0) ⟨cU, 0, .l2, false, false⟩, Or.inl ⟨List.mem_map_of_mem List.mem_cons_self, rfl⟩, by decide⟩)))
  exact ⟨s, s', objs, hL, by rw [C98.solve_eq envOk₆ nowOk₆ (C98.hist envOk₆ hL)]; exact hr⟩

/-- The derivative of `x` that achieves the first two tasks: `2 x' = -1` -/
noncomputable def x₆ (_ : Nat) : ℝ := -1 / 2

theorem rowsLimited₆ : C95.RowsLimited op₆.big env₆ now₆ (C98.Rows items₆ []) x₆ := by
  intro c hc i hi
  rcases (ords₆ c).1 (rows₆ (Or.inl hc)) with rfl | rfl | rfl
  · have hi0 : i = 0 := by have : i < 1 := hi; omega
    subst hi0
    refine ⟨fun _ => ?_, fun hh => by cases hh⟩
    have hcu : C98.Ords items₆ cU := (ords₆ cU).mpr (Or.inl rfl)
    obtain ⟨-, -, l3, -, -, -, l7, -⟩ := C70.C70_lists .init finalize₃
    have hr := (C96.final_represents .init finalize₃ linked₆ x₆ fun _ _ => 0).1
    have q1 := C96.image_eq l3 linked₆.dimVar linked₆.dimZ (linked₆.src cU (Or.inl hcu)).1 (envOk₆.base.maps cU (Or.inl (Or.inl hcu))) hr (i := 0) (by show 0 < (sqC .greaterThan 2 1).size; decide)
    have q2 : C34.image (env₆.src cU) env₆.V (now₆.dat cU) (C34.const (env₆.src cU) (now₆.dat cU)) 0 = 0 := by
      unfold C34.image C34.const
      simp [show ∀ x, (env₆.src cU).sub x = none from fun _ => rfl]
    unfold C95.valueOf
    rw [q1, q2, show usr₆ cU = sqC .greaterThan 2 1 from rfl, row₃, value₆]
    norm_num [op₆, x₆]
  · exact ⟨fun hh => (by cases hh), fun hh => (by cases hh)⟩
  · exact ⟨fun hh => (by cases hh), fun hh => (by cases hh)⟩

theorem sol₆ {s s' : HLS.Solver ℝ} {objs : List (HLS.Obj ℝ)} (hL : C98.Life op₆ env₆ items₆ [] 1 (fun _ => 0) s) (hs : HR.solve op₆ env₆ now₆ (HR.cstOf items₆ []) s = .ok () (s', objs)) : C68.LexSolution 1 objs x₆ := by
  obtain ⟨-, -, l3, -, -, -, l7, -⟩ := C70.C70_lists .init finalize₃
  have hw0 : ∀ c, C98.Rows items₆ [] c → ∀ r < c.size, 0 ≤ (now₆.fl c).omega (now₆.dat c).w r := fun c _ r _ => by rw [omega₆]; exact zero_le_one
  have hside : C98.Sides op₆.big env₆ now₆ (C98.Ords items₆) := by
    intro c hc ht
    rcases (ords₆ c).mp hc with rfl | rfl | rfl <;> cases ht
  have hcons := C98.consistent (op := op₆) envOk₆ nowOk₆ (by norm_num [op₆]) (fun c hc => (bnds₆ c hc).elim) (z := x₆) fun ⟨c, hc⟩ => (bnds₆ c hc).elim
  have hH := C98.hist envOk₆ hL
  rw [C98.solve_eq envOk₆ nowOk₆ hH] at hs
  have hbnd : C68.HasBnd (HR.pbOf env₆ (fun _ => 0) 1 items₆ []) = false := by decide
  have hpr : C68.priorities (HR.pbOf env₆ (fun _ => 0) 1 items₆ []) = 3 := by decide
  refine (C68.C68_partial (C98.wf envOk₆) (Or.inl rfl) hH hcons hs _).mpr fun y => ?_
  unfold C68.goals
  rw [hpr, hbnd]
  show C68.LexLE [_, _, _] _ y
  have hx : ∀ p, C68.levelViol (HR.pbOf env₆ (fun _ => 0) 1 items₆ []) op₆.big (C98.theVals op₆ env₆ now₆ items₆ [] 1 (fun _ => 0)) p x₆ =
      C98.levelCost w₃ usr₆ (fun _ _ => 1) items₆ p (finalValues w₃ final₃ out₃ env₆.V num₁ x₆ fun _ _ => 0) := by
    intro p
    rw [C98.zcost_eq op₆ envOk₆ nowOk₆ hw0 rfl weighted₆ (fun _ => rfl) rowsLimited₆, ← C98.levelCost_eq l3 linked₆ envOk₆ (C96.final_represents .init finalize₃ linked₆ x₆ fun _ _ => 0).1]
  have hy : ∀ p, C98.levelCost w₃ usr₆ (fun _ _ => 1) items₆ p (finalValues w₃ final₃ out₃ env₆.V num₁ y fun _ _ => 0) ≤
      C68.levelViol (HR.pbOf env₆ (fun _ => 0) 1 items₆ []) op₆.big (C98.theVals op₆ env₆ now₆ items₆ [] 1 (fun _ => 0)) p y := by
    intro p
    rw [C98.levelCost_eq l3 linked₆ envOk₆ (C96.final_represents .init finalize₃ linked₆ y fun _ _ => 0).1]
    exact C98.zcost_le op₆ envOk₆ nowOk₆ hw0 rfl weighted₆ hside (fun _ => rfl) y
  have hx0 := hx 0; have hx1 := hx 1; have hx2 := hx 2
  have hy0 := hy 0; have hy1 := hy 1; have hy2 := hy 2
  rw [(level₆ _).1, value₆] at hx0 hy0
  rw [(level₆ _).2.1, value₆] at hx1 hy1
  rw [(level₆ _).2.2, value₆] at hx2 hy2
  have e0 : max (-2 - 2 * x₆ 0) 0 = 0 := by norm_num [x₆]
  have e1 : 2 * x₆ 0 + 1 = 0 := by norm_num [x₆]
  rw [e0] at hx0
  rw [e1] at hx1
  simp only [Bool.false_eq_true, false_and, and_false, if_false, add_zero]
  refine lexLE_cons (by rw [hx0]; exact le_trans (by show (0 : ℝ) ^ 2 ≤ _; rw [zero_pow (by norm_num)]; exact sq_nonneg _) hy0) fun _ => lexLE_cons (by rw [hx1]; exact le_trans (by show (0 : ℝ) ^ 2 ≤ _; rw [zero_pow (by norm_num)]; exact sq_nonneg _) hy1) fun h => ?_
  have h2 : (2 * y 0 + 1) ^ 2 ≤ 0 := by rw [hx1] at h; linarith
  have h3 : y 0 = x₆ 0 := by
    have : 2 * y 0 + 1 = 0 := by nlinarith
    simp only [x₆]; linarith
  rw [h3] at hy2
  exact lexLE_cons (by rw [hx2]; exact hy2) fun _ => trivial

theorem hold₆ (W : Nat → Nat → ℝ) (h : 2 * W 1 0 = -1) : C96.AllHold w₃ (fun _ _ _ _ => 0) (fun _ _ => 0) [] usr₆ (UpTo items₆ 1) (C98.Bnds items₆) W := by
  refine ⟨fun s hs => (by cases hs), fun c hc => ?_⟩
  rcases hc with ⟨p, hp, hc⟩ | hc
  · rcases (at₆ p c).1 hc with ⟨-, rfl⟩ | ⟨-, rfl⟩ | ⟨rfl, -⟩
    · intro i _
      show C96.meant .asGiven (-(2 * (1 * 1 - 0)) : ℝ) ≤ C96.row w₃ (sqC .greaterThan 2 1) W i
      rw [row₃, h]; norm_num [C96.meant]
    · intro i _
      show C96.row w₃ (sqC .equal 1 1) W i = C96.meant .asGiven (-(1 * (1 * 1 - 0)) : ℝ)
      rw [row₃, h]; norm_num [C96.meant]
    · omega
  · exact (bnds₆ c hc).elim

theorem repr₆ (val : PVar → Nat → ℝ) : ∃ ζ, C96.Represents w₃ final₃ out₃ env₆.V num₁ x₆ (finalValues w₃ final₃ out₃ env₆.V num₁ x₆ val) ζ ∧ C70.Additional w₃ final₃ out₃ (finalValues w₃ final₃ out₃ env₆.V num₁ x₆ val) ζ :=
  ⟨_, (C96.final_represents .init finalize₃ linked₆ x₆ val).1, fun a u hu => by cases hu⟩

/-- The hypotheses of `C123_partial`, and of `C98_partial` -/
theorem solved₆ : ∃ s s' objs, C98.Life op₆ env₆ items₆ [] 1 (fun _ => 0) s ∧ HR.solve op₆ env₆ now₆ (HR.cstOf items₆ []) s = .ok () (s', objs) ∧ ∀ x, C68.LexSolution 1 objs x → ∀ val,
    C96.AllHold w₃ (fun _ _ _ _ => 0) (fun _ _ => 0) [] usr₆ (UpTo items₆ 1) (C98.Bnds items₆) (finalValues w₃ final₃ out₃ env₆.V num₁ x val) ∧
    C98.Solves w₃ final₃ out₃ num₁ env₆ now₆ (fun _ _ _ _ => 0) (fun _ _ => 0) [] usr₆ items₆ [] (C98.At items₆ 0) (fun _ _ => 1) op₆ 1 1 3 x val := by
  obtain ⟨s, s', objs, hL, hs⟩ := life₆
  have hside : C98.Sides op₆.big env₆ now₆ (C98.Ords items₆) := by
    intro c hc ht
    rcases (ords₆ c).mp hc with rfl | rfl | rfl <;> cases ht
  have hpos : C95.Positive now₆ fun c => C98.At items₆ 0 c ∨ c ∈ ([] : List SE.Cstr) := fun c _ i _ => by rw [omega₆]; exact one_pos
  obtain ⟨ζ, h1, h2⟩ := repr₆ fun _ _ => 0
  have hall := hold₆ (finalValues w₃ final₃ out₃ env₆.V num₁ x₆ fun _ _ => 0) (by rw [value₆]; norm_num [x₆])
  refine ⟨s, s', objs, hL, hs, fun x hx val => ⟨?_, ?_⟩⟩
  · exact C123_partial (fun _ => by simp [w₃]) .init finalize₃ (cal := fun _ _ => ⟨fun _ _ => 0, fun _ _ => 0, fun _ _ => 0⟩) (fun a u hu => by cases hu) linked₆ rfl envOk₆ hL nowOk₆ hs (Or.inl rfl) (by norm_num [op₆])
      (fun c hc => (bnds₆ c hc).elim) rfl weighted₆ hpos hside (q := 1) (fun _ _ _ _ _ _ _ => one_pos) ⟨_, x₆, ζ, hall, h1, h2, fun ⟨c, hc⟩ => (bnds₆ c hc).elim, rowsLimited₆⟩ hx val
  · exact C98.C98_partial (fun _ => by simp [w₃]) .init finalize₃ (cal := fun _ _ => ⟨fun _ _ => 0, fun _ _ => 0, fun _ _ => 0⟩) (fun a u hu => by cases hu) linked₆ rfl envOk₆ hL nowOk₆ hs (Or.inl rfl) (by norm_num [op₆])
      (fun c hc => (bnds₆ c hc).elim) rfl weighted₆ hpos hside (N := 3) (by decide) ⟨_, x₆, ζ, ⟨hall.1, fun c hc => hall.2 c (hc.imp (fun h => ⟨0, Nat.zero_le _, h⟩) id)⟩, h1, h2, fun ⟨c, hc⟩ => (bnds₆ c hc).elim,
        fun c hc => rowsLimited₆ c (Or.inl (by obtain ⟨i, a, b, -, d⟩ := hc; exact ⟨i, a, b, d⟩))⟩ hx val

/-- The motion with the derivative decided by the resolution -/
theorem follows₆ : Follows vn₀ items₆ [] tk₆ (fun _ => sqTk .equal 1 1) path₄ 0 (finalValues w₃ final₃ out₃ env₆.V num₁ x₆ fun _ _ => 0) := by
  have h0 : HasDerivAt (path₄ ⟨0, 0⟩ 0) (path₄ ⟨0, 1⟩ 0 0) 0 := by
    have h1 : path₄ ⟨0, 0⟩ 0 = fun s => 1 - s / 2 := by funext s; simp [path₄]
    have h2 : path₄ ⟨0, 1⟩ 0 0 = -(1 / 2) := by simp [path₄]; ring
    rw [h1, h2]
    exact ((hasDerivAt_id (0 : ℝ)).div_const 2).const_sub 1
  have h1 : path₄ ⟨0, 0⟩ 0 0 = 1 := by simp [path₄]
  have hd : ∀ ty k, Decided vn₀ (sqTk ty k 1) path₄ 0 (finalValues w₃ final₃ out₃ env₆.V num₁ x₆ fun _ _ => 0) := by
    intro ty k v hv k hk
    have hv : v ∈ [(⟨0, 0⟩ : VId)] := hv
    have hk : k < 1 := hk
    rw [List.mem_singleton] at hv
    obtain rfl : k = 0 := by omega
    subst hv
    exact Eq.trans (by simp [path₄, VId.dot, Tk.order, sqTk, sqT, Dyn.order, Order.num, x₆]) (value₆ x₆ fun _ _ => 0).symm
  refine ⟨fun c _ => ?_, fun s hs => by cases hs⟩
  unfold tk₆
  split
  · exact ⟨sq_ok _ (by decide) _ _ _ _ h1 h0.hasDerivWithinAt, hd _ _⟩
  · split <;> exact ⟨sq_ok _ (by decide) _ _ _ _ h1 h0.hasDerivWithinAt, hd _ _⟩

/-- The first two tasks are achieved: `C123_tasks_partial` applies, and so does `C123_best_partial`. -/
example : AchievedUpTo items₆ [] tk₆ (fun _ => sqTk .equal 1 1) 1 path₄ 0 ∧ AchievedUpTo items₆ [] tk₆ (fun _ => sqTk .equal 1 1) 0 path₄ 0 ∧ ¬ (sqTk .equal 3 1).Achieved path₄ 0 := by
  obtain ⟨s, s', objs, hL, hs, hsol⟩ := solved₆
  obtain ⟨h1, h2⟩ := hsol x₆ (sol₆ hL hs) fun _ _ => 0
  obtain ⟨ζ, h3, h4⟩ := repr₆ fun _ _ => 0
  have hσ : ∀ s ∈ ([] : List Sub), ∀ a ∈ s.cstrs, PosedSub w₃ (fun _ _ _ _ => 0) (fun _ _ => 0) vn₀ un₀ (sqTk .equal 1 1) a := fun s hs => by cases hs
  refine ⟨C123_tasks_partial un_vn₀ h2 (fun c _ => posed₆ c) hσ follows₆ (by norm_num) (fun _ _ _ _ _ _ _ => one_pos)
    ⟨path₄, _, x₆, ζ, follows₆, (holds_iff un_vn₀ (fun c _ => posed₆ c) hσ follows₆ 1).1 h1, h3, h4, fun ⟨c, hc⟩ => (bnds₆ c hc).elim, rowsLimited₆⟩,
    (C123_best_partial un_vn₀ h2 (fun c _ => posed₆ c) hσ follows₆).1, ?_⟩
  have hE := follows₆.1 cE (Or.inl ((ords₆ _).2 (Or.inr (Or.inr rfl))))
  intro hA
  have h5 := (C97_task un_vn₀ (posed₆ cE) hE.1 hE.2).1.2 hA 0 (by show 0 < 1; decide)
  have h5 : C96.row w₃ (sqC .equal 3 1) (finalValues w₃ final₃ out₃ env₆.V num₁ x₆ fun _ _ => 0) 0 = C96.meant .asGiven (-(3 * (1 * 1 - 0)) : ℝ) := h5
  rw [row₃, value₆] at h5
  norm_num [C96.meant, x₆] at h5

end

end Verif.C123
