import Verif.Model.HierarchicalResolution
import Verif.Properties.C68_Hierarchical
import Verif.Lemmas.SolverAssembly3
/-!
# Lemmas on the resolutions of the hierarchical scheme: the runs of the assignments are what `Verif.Model.Hierarchical` says of them
-/
set_option autoImplicit false
set_option linter.unusedSectionVars false

namespace Verif.HR
open Verif Verif.HLS Verif.ASM

section
variable {K : Type} [Field K] [LinearOrder K]

/-- What an assignment writes -/
def written (big : K) (env : Env) (now : Now K) (cst : Nat → SE.Cstr) (a : Asg) : Val K :=
  let m := (job env cst a).run big env.V now zeroMem
  ⟨fun i j => m.A (a.start + i) j, fun i => m.vec .l (a.start + i), fun i => m.vec .u (a.start + i)⟩

/-- What is known of an assignment of a constraint -/
structure AsgOk (big : K) (env : Env) (now : Now K) (cst : Nat → SE.Cstr) (a : Asg) : Prop where
  sound : Sound env.V (job env cst a)
  cols : a.cols = inSet (env.src (cst a.id)) env.V
  ty : a.ty = .equal ∨ a.ty = .both
  eq : a.ty = .equal → ∀ i < a.size, (written big env now cst a).up i = (written big env now cst a).lo i

theorem put_eq {big : K} {env : Env} {now : Now K} {cst : Nat → SE.Cstr} {a : Asg} (h : AsgOk big env now cst a) {o : Opts K} (ho : o.big = big) (d : Level K) :
    put big env now cst a d = d.put o (written big env now cst a) a := by
  subst ho
  have hu : ∀ c, c = AS.Cell.l ∨ c = .u → Target.uses (job env cst a).T c := by
    intro c hc; simp only [Target.uses, job, if_true]; exact hc
  have hs : (job env cst a).T.start = a.start ∧ (job env cst a).T.size = a.size := ⟨rfl, rfl⟩
  unfold put Level.put
  simp only [Level.mk.injEq, true_and]
  refine ⟨?_, ?_, ?_⟩
  · funext r j
    unfold back
    by_cases hr : d.off ≤ r
    · rw [if_pos hr, Job.run_A h.sound]
      simp only [Job.pat, Bool.and_eq_true, has_iff, hs.1, hs.2, h.cols]
      by_cases hc : d.off + a.start ≤ r ∧ r < d.off + a.start + a.size ∧ inSet (env.src (cst a.id)) env.V j = true
      · rw [if_pos hc, if_pos ⟨⟨by omega, by omega⟩, hc.2.2⟩]
        simp only [written]
        rw [show a.start + (r - (d.off + a.start)) = r - d.off by omega]
      · rw [if_neg hc, if_neg (fun hh => hc ⟨by omega, by omega, hh.2⟩)]
        rw [show d.off + (r - d.off) = r by omega]
    · rw [if_neg hr, if_neg (fun hh => hr (by omega))]
  · funext r
    unfold back
    by_cases hr : d.off ≤ r
    · rw [if_pos hr, Job.run_vec h.sound _ _ (hu _ (Or.inl rfl))]
      simp only [has_iff, hs.1, hs.2]
      by_cases hc : d.off + a.start ≤ r ∧ r < d.off + a.start + a.size
      · rw [if_pos hc, if_pos ⟨by omega, by omega⟩]
        have hl : lower o a.ty (written o.big env now cst a) (r - (d.off + a.start)) = (written o.big env now cst a).lo (r - (d.off + a.start)) := by
          rcases h.ty with e | e <;> rw [e] <;> rfl
        rw [hl]
        simp only [written]
        rw [show a.start + (r - (d.off + a.start)) = r - d.off by omega]
      · rw [if_neg hc, if_neg (fun hh => hc ⟨by omega, by omega⟩)]
        simp only [if_true]
        rw [show d.off + (r - d.off) = r by omega]
    · rw [if_neg hr, if_neg (fun hh => hr (by omega))]
  · funext r
    unfold back
    by_cases hr : d.off ≤ r
    · rw [if_pos hr, Job.run_vec h.sound _ _ (hu _ (Or.inr rfl))]
      simp only [has_iff, hs.1, hs.2]
      by_cases hc : d.off + a.start ≤ r ∧ r < d.off + a.start + a.size
      · rw [if_pos hc, if_pos ⟨by omega, by omega⟩]
        have hl : upper o a.ty (written o.big env now cst a) (r - (d.off + a.start)) = (written o.big env now cst a).up (r - (d.off + a.start)) := by
          rcases h.ty with e | e
          · rw [h.eq e _ (by omega), e]; rfl
          · rw [e]; rfl
        rw [hl]
        simp only [written]
        rw [show a.start + (r - (d.off + a.start)) = r - d.off by omega]
      · rw [if_neg hc, if_neg (fun hh => hc ⟨by omega, by omega⟩)]
        simp only [reduceCtorEq, if_true, if_false]
        rw [show d.off + (r - d.off) = r by omega]
    · rw [if_neg hr, if_neg (fun hh => hr (by omega))]

theorem runAsg_eq {o : Opts K} {env : Env} {now : Now K} {cst : Nat → SE.Cstr} {v : Nat → Val K} (L : List Asg) (h : ∀ a ∈ L, AsgOk o.big env now cst a ∧ v a.id = written o.big env now cst a) :
    ∀ d : Nat → Level K, runAsg o.big env now cst L d = HLS.runAsg o v L d := by
  induction L with
  | nil => intro d; rfl
  | cons a L ih =>
    intro d
    unfold runAsg HLS.runAsg
    rw [ih fun b hb => h b (List.mem_cons_of_mem _ hb)]
    congr 1
    funext p
    by_cases hp : p = a.lvl
    · rw [if_pos hp, if_pos hp, (h a List.mem_cons_self).2, put_eq (h a List.mem_cons_self).1 rfl]
    · rw [if_neg hp, if_neg hp]

/-- What is known of an assignment of a bound -/
structure BAsgOk (big : K) (now : Now K) (cst : Nat → SE.Cstr) (b : BAsg) : Prop where
  honest : (bound now cst b).Honest
  ty : b.ty = .equal ∨ b.ty = .both
  eq : b.ty = .equal → (now.bnd (cst b.id)).type = .equal

/-- What it intersects the bounds with -/
def between (big : K) (now : Now K) (cst : Nat → SE.Cstr) (b : BAsg) : Val K :=
  ⟨fun _ _ => 0, fun i => ((bound now cst b).ival big i).1,
    fun i => ((bound now cst b).ival big i).2⟩

theorem ival_equal {big : K} {b : C38.Bound K} (h : b.type = .equal) (i : Nat) : (b.ival big i).2 = (b.ival big i).1 := by
  unfold C38.Bound.ival C38.Bound.pair C38.Bound.dpair
  rw [h]
  cases b.p <;> simp

theorem boundsOn_eq {big : K} {now : Now K} {cst : Nat → SE.Cstr} {v : Nat → Val K} (L : List BAsg) (h : ∀ b ∈ L, BAsgOk big now cst b ∧ v b.id = between big now cst b) (l u : Nat → K) :
    (boundsOn big now cst L l u).vec .l = runLo v L l ∧ (boundsOn big now cst L l u).vec .u = runUp v L u := by
  have key : ∀ (L : List BAsg), (∀ b ∈ L, BAsgOk big now cst b ∧ v b.id = between big now cst b) → ∀ m : AS.Mem K,
      (runBounds big (bounds now cst L) m).vec .l = runLo v L (m.vec .l) ∧ (runBounds big (bounds now cst L) m).vec .u = runUp v L (m.vec .u) := by
    intro L
    induction L with
    | nil => intro _ m; exact ⟨rfl, rfl⟩
    | cons b L ih =>
      intro h m
      obtain ⟨hb, hv⟩ := h b List.mem_cons_self
      have hi := ih (fun c hc => h c (List.mem_cons_of_mem _ hc)) ((bound now cst b).run big false m)
      have e : runBounds big (bounds now cst (b :: L)) m = runBounds big (bounds now cst L) ((bound now cst b).run big false m) := rfl
      have hl : ((bound now cst b).run big false m).vec .l = putLo (v b.id) b (m.vec .l) := by
        funext k
        rw [(C38.run_at big false _ hb.honest m k).1, hv]
        show (if b.start ≤ k ∧ k < b.start + b.size then max (m.vec .l k) ((bound now cst b).ival big (k - b.start)).1 else m.vec .l k) = _
        unfold putLo
        by_cases hk : b.start ≤ k ∧ k < b.start + b.size
        · rw [if_pos hk]
          exact (if_pos ⟨hk.1, hk.2, by rcases hb.ty with e | e <;> simp [e]⟩).symm
        · rw [if_neg hk]
          exact (if_neg (fun hh => hk ⟨hh.1, hh.2.1⟩)).symm
      have hu : ((bound now cst b).run big false m).vec .u = putUp (v b.id) b (m.vec .u) := by
        funext k
        rw [(C38.run_at big false _ hb.honest m k).2, hv]
        show (if b.start ≤ k ∧ k < b.start + b.size then min (m.vec .u k) ((bound now cst b).ival big (k - b.start)).2 else m.vec .u k) = _
        unfold putUp
        by_cases hk : b.start ≤ k ∧ k < b.start + b.size
        · rw [if_pos hk]
          refine Eq.trans ?_ (if_pos ⟨hk.1, hk.2, by rcases hb.ty with e | e <;> simp [e]⟩).symm
          by_cases he : b.ty = .equal
          · rw [if_pos he, ival_equal (b := bound now cst b) (hb.eq he)]; rfl
          · rw [if_neg he]; rfl
        · rw [if_neg hk]
          exact (if_neg (fun hh => hk ⟨hh.1, hh.2.1⟩)).symm
      rw [e, hi.1, hi.2, hl, hu]
      exact ⟨rfl, rfl⟩
  have := key L h (block2 (fun _ _ => 0) 0 l u)
  have el : (block2 (fun _ _ => (0 : K)) 0 l u).vec .l = l := by funext k; simp [block2]
  have eu : (block2 (fun _ _ => (0 : K)) 0 l u).vec .u = u := by funext k; simp [block2]
  rw [el, eu] at this
  exact this

theorem prepare_eq {o : Opts K} {env : Env} {now : Now K} {cst : Nat → SE.Cstr} {v : Nat → Val K} {s : Solver K} (ha : ∀ a ∈ s.asg, AsgOk o.big env now cst a ∧ v a.id = written o.big env now cst a)
    (hb : ∀ b ∈ s.basg, BAsgOk o.big now cst b ∧ v b.id = between o.big now cst b) : prepare o env now cst s = s.prepare o v := by
  unfold prepare Solver.prepare runBnd Solver.runBounds
  have h1 : ∀ d, runAsg o.big env now cst (s.resetBounds o).asg d = HLS.runAsg o v (s.resetBounds o).asg d := runAsg_eq s.asg ha
  have h2 := boundsOn_eq s.basg hb
  have e : (s.resetBounds o).basg = s.basg := rfl
  simp only [h1, e, h2]

theorem solve_eq {o : Opts K} {env : Env} {now : Now K} {cst : Nat → SE.Cstr} {v : Nat → Val K} {s : Solver K} (ha : ∀ a ∈ s.asg, AsgOk o.big env now cst a ∧ v a.id = written o.big env now cst a)
    (hb : ∀ b ∈ s.basg, BAsgOk o.big now cst b ∧ v b.id = between o.big now cst b) : solve o env now cst s = s.solve o v := by
  unfold solve Solver.solve
  rw [prepare_eq ha hb]

end
end Verif.HR
