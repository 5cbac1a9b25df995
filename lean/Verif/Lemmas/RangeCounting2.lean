import Verif.Lemmas.RangeCounting
/-!
# `add` and `remove` of `RangeCounting` keep the invariant and refine the counts
-/
set_option autoImplicit false

namespace Verif.RC
open Verif

set_option linter.unusedSimpArgs false

theorem Inv.nil : Inv [] where
  sorted := List.Pairwise.nil
  cuts := List.Pairwise.nil
  excl := by simp
  nonneg := by simp
  total := rfl
  cutDepth := by simp

/-- Depth after a non-empty prefix, given non-negative counts. -/
theorem Str.prefix_nonneg {p q : List Limit} {x : Limit} (h : Str (p ++ x :: q))
    (hn : ∀ k, 0 ≤ cnt (p ++ x :: q) k) : 0 ≤ dep p - x.t.val := by
  rcases val_cases x.t with ⟨ht, hv⟩ | ⟨ht, hv⟩ | ⟨ht, hv⟩
  · have := h.depth_lower ht; have := hn (x.i - 1); omega
  · have := h.depth_cut ht; have := hn x.i; omega
  · have := h.depth_upper ht; have := hn x.i; omega

theorem Str.prefix_nonneg' {p q : List Limit} (h : Str (p ++ q))
    (hn : ∀ k, 0 ≤ cnt (p ++ q) k) : 0 ≤ dep p := by
  rcases List.eq_nil_or_concat p with rfl | ⟨p', x, rfl⟩
  · simp
  · simp only [List.concat_eq_append, List.append_assoc, List.singleton_append] at h hn
    have := h.prefix_nonneg hn
    simp only [List.concat_eq_append, dep_append, dep_cons, dep_nil]; omega

/-- The last limit is an upper one. -/
theorem Inv.last_upper {p : List Limit} {x : Limit} (h : Inv (p ++ [x])) : x.t = .upper := by
  have ht := h.total
  simp only [dep_append, dep_cons, dep_nil] at ht
  rcases val_cases x.t with ⟨hx, hv⟩ | ⟨hx, hv⟩ | ⟨hx, hv⟩
  · have := h.toStr.depth_lower hx; have := h.nonneg (x.i - 1); omega
  · have := h.toStr.depth_cut hx; have := h.cutDepth x (by simp) hx; omega
  · exact hx

theorem insertLower_pos {i : Int} {pre post : List Limit} {d : Int} {pre' post' d'}
    (h : insertLower i pre post d = some (pre', post', d')) :
    ∀ x ∈ pre'.reverse ++ post', x.i = i ∨ ∃ y ∈ pre.reverse ++ post, y.i = x.i := by
  unfold insertLower at h
  intro z hz
  have gen : z ∈ pre.reverse ++ post → z.i = i ∨ ∃ y ∈ pre.reverse ++ post, y.i = z.i :=
    fun h => Or.inr ⟨z, h, rfl⟩
  repeat' split at h
  all_goals
    simp only [reduceCtorEq, Option.some.injEq, Prod.mk.injEq] at h
  all_goals
    obtain ⟨rfl, rfl, rfl⟩ := h
    simp only [List.reverse_cons, List.append_assoc, List.mem_append, List.mem_cons, List.mem_reverse,
      List.not_mem_nil, or_false, List.cons_append, List.nil_append] at hz gen ⊢
  all_goals grind

theorem insertUpper_pos {i : Int} {pre post : List Limit} {d : Int} {pre' post' d'}
    (h : insertUpper i pre post d = some (pre', post', d')) (post₀ : List Limit) :
    ∀ x ∈ pre'.reverse ++ post₀, x.i = i ∨ ∃ y ∈ pre.reverse ++ post₀, y.i = x.i := by
  unfold insertUpper at h
  intro z hz
  have gen : z ∈ pre.reverse ++ post₀ → z.i = i ∨ ∃ y ∈ pre.reverse ++ post₀, y.i = z.i :=
    fun h => Or.inr ⟨z, h, rfl⟩
  repeat' split at h
  all_goals
    simp only [reduceCtorEq, Option.some.injEq, Prod.mk.injEq] at h
  all_goals
    obtain ⟨rfl, rfl, rfl⟩ := h
    simp only [List.reverse_cons, List.append_assoc, List.mem_append, List.mem_cons, List.mem_reverse,
      List.not_mem_nil, or_false, List.cons_append, List.nil_append] at hz gen ⊢
  all_goals grind

/-- What `add` does to the limits. -/
structure AddSpec (L L' : List Limit) (r : Range) (change : Bool) : Prop where
  inv : Inv L'
  cnt : ∀ k, cnt L' k = cnt L k + if r.start ≤ k ∧ k < r.stop then 1 else 0
  change : change = true ↔ ∃ k, r.start ≤ k ∧ k < r.stop ∧ RC.cnt L k = 0
  pos : ∀ x ∈ L', x.i = r.start ∨ x.i = r.stop ∨ ∃ y ∈ L, y.i = x.i
  keep : ∀ x ∈ L, ∃ y ∈ L', y.i = x.i
  start : ∃ y ∈ L', y.i = r.start
  stop : ∃ y ∈ L', y.i = r.stop

theorem Str.append_two {L : List Limit} {a b : Int} (h : Str L) (hL : ∀ y ∈ L, Le y ⟨a, .lower⟩)
    (hab : a < b) : Str (L ++ [⟨a, .lower⟩, ⟨b, .upper⟩]) := by
  have h1 : Str (L ++ [⟨a, .lower⟩]) := by
    refine Str.insert (q := []) (by simpa using h) hL (by simp) (by simp) ?_ (by simp)
    intro _ y hy hyi hu
    have := hL y (by simpa using hy)
    simp only [Le, hu, LType.val] at this hyi; omega
  have := Str.insert (p := L ++ [⟨a, .lower⟩]) (q := []) (v := ⟨b, .upper⟩) (by simpa using h1) ?_
    (by simp) (by simp) (by simp) ?_
  · simpa using this
  · intro y hy
    rcases List.mem_append.mp hy with hy | hy
    · have := hL y hy
      simp only [Le] at this ⊢; omega
    · simp only [List.mem_cons, List.not_mem_nil, or_false] at hy
      subst hy; left; exact hab
  · intro _ y hy hyi _
    simp only [List.append_nil] at hy
    rcases List.mem_append.mp hy with hy | hy
    · have := hL y hy
      simp only [Le] at this hyi; omega
    · simp only [List.mem_cons, List.not_mem_nil, or_false] at hy
      subst hy; simp only at hyi; omega

/-- Adding a range after all the limits. -/
theorem addSpec_append {L : List Limit} (h : Inv L) {r : Range} (hr : 0 < r.dim)
    (hL : ∀ y ∈ L, Le y ⟨r.start, .lower⟩) :
    AddSpec L (L ++ [⟨r.start, .lower⟩, ⟨r.stop, .upper⟩]) r true := by
  have hlt : r.start < r.stop := by unfold Range.stop; omega
  have hcnt : ∀ k, cnt (L ++ [⟨r.start, .lower⟩, ⟨r.stop, .upper⟩]) k =
      cnt L k + if r.start ≤ k ∧ k < r.stop then 1 else 0 := by
    intro k
    simp only [cnt_append, cnt_cons, cnt_nil, LType.val]
    repeat' split
    all_goals omega
  refine ⟨⟨h.toStr.append_two hL hlt, ?_, ?_, ?_⟩, hcnt, ?_, ?_, ?_, ?_, ?_⟩
  · intro k; rw [hcnt]; have := h.nonneg k; split <;> omega
  · have := h.total
    simp only [dep_append, dep_cons, dep_nil, LType.val]; omega
  · intro c hc ht
    have hcL : c ∈ L := by
      simp only [List.mem_append, List.mem_cons, List.not_mem_nil, or_false] at hc
      rcases hc with h | h | h
      · exact h
      · rw [h] at ht; cases ht
      · rw [h] at ht; cases ht
    have := h.cutDepth c hcL ht
    rw [hcnt, hcnt]
    rcases this with h | h
    · left; split <;> omega
    · right; split <;> omega
  · simp only [true_iff]
    refine ⟨r.start, by omega, hlt, ?_⟩
    rw [cnt_eq_dep_of_le, h.total]
    intro y hy
    have := hL y hy
    simp only [Le] at this; omega
  · intro x hx
    simp only [List.mem_append, List.mem_cons, List.not_mem_nil, or_false] at hx
    rcases hx with h | h | h
    · exact Or.inr (Or.inr ⟨x, h, rfl⟩)
    · left; rw [h]
    · right; left; rw [h]
  · intro x hx; exact ⟨x, by simp [hx], rfl⟩
  · exact ⟨⟨r.start, .lower⟩, by simp, rfl⟩
  · exact ⟨⟨r.stop, .upper⟩, by simp, rfl⟩

theorem add_spec (s : State) (r : Range) (h : Inv s.limits) (hr : 0 < r.dim) :
    ∃ L' change, s.add r = .ok { s with limits := L', recomputeSplit := true,
                                        recompute := s.recompute || change } change ∧
      AddSpec s.limits L' r change := by
  have hlt : r.start < r.stop := by unfold Range.stop; omega
  unfold State.add
  rw [if_neg (by omega)]
  simp only
  by_cases hempty : s.limits = []
  · rw [if_pos hempty]
    refine ⟨_, true, rfl, ?_⟩
    rw [hempty]
    exact addSpec_append Inv.nil hr (by simp)
  rw [if_neg hempty]
  have hm := move_spec ⟨r.start, .lower⟩ 0 [] s.limits 0 false
  generalize moveToFirstAfter ⟨r.start, .lower⟩ 0 [] s.limits 0 false = res at hm
  obtain ⟨L, rc, rs, iv⟩ := s
  simp only at h hm hempty ⊢
  rcases res with _ | ⟨pre, post, depth, hit⟩
  · -- no exception
    obtain ⟨m, x, q, rfl, _, h2⟩ := hm
    have := h.toStr.prefix_nonneg h.nonneg
    omega
  simp only at hm ⊢
  obtain ⟨mid, rfl, hpre, hdepth, hmidle, hpost, -, -⟩ := hm
  simp only [List.append_nil] at hpre
  subst hpre
  rcases post with _ | ⟨x, post⟩
  · refine ⟨_, true, rfl, ?_⟩
    simp only [List.append_nil, List.reverse_reverse] at h ⊢
    exact addSpec_append h hr hmidle
  simp only
  -- insertion of the lower limit
  have hpost' : ∀ y ∈ x :: post, ¬ y.le ⟨r.start, .lower⟩ = true := by
    intro y hy
    have hx := hpost x post rfl
    rcases List.mem_cons.mp hy with rfl | hy
    · exact hx
    · have hs := h.sorted
      rw [List.pairwise_append, List.pairwise_cons] at hs
      have := hs.2.1.1 y hy
      rw [not_le_iff] at hx ⊢
      simp only [Le] at this hx ⊢; omega
  have hil := insertLower_spec r.start mid.reverse (x :: post) depth (by simp)
    (by simpa using h.toStr) (by simpa using hmidle) hpost' (by rw [dep_reverse]; omega)
  obtain ⟨pre1, post1, depth1, he1, hS1, hcnt1, hdep1, hd1, hpre1, hpost1, hcut1, hkeep1⟩ := hil
  rw [he1]
  have hpos1 := insertLower_pos he1
  simp only [List.reverse_reverse] at hcnt1 hdep1 hcut1 hkeep1 hpos1 ⊢
  generalize hL : mid ++ x :: post = L at *
  have hup1 : (⟨r.start, .upper⟩ : Limit) ∈ x :: post → depth ≠ 0 := by
    intro hu
    have huL : (⟨r.start, .upper⟩ : Limit) ∈ L := by rw [← hL]; simp only [List.mem_append]; exact Or.inr hu
    obtain ⟨a, b, hab⟩ := List.append_of_mem huL
    have hmid : cnt L (r.start - 1) = dep mid := by
      rw [← hL, cnt_append, cnt_eq_dep_of_le, cnt_eq_zero_of_gt]
      · omega
      · intro y hy
        have := hpost' y hy
        rw [not_le_iff] at this
        simp only at this; omega
      · intro y hy
        have h1 := hmidle y hy
        simp only [Le] at h1
        by_cases hyi : y.i = r.start
        · have hyt : y.t = .lower := by
            rcases val_cases y.t with ⟨ht, hv⟩ | ⟨ht, hv⟩ | ⟨ht, hv⟩
            · exact ht
            · simp only [hv, val_lower, val_cut, val_upper] at h1; omega
            · simp only [hv, val_lower, val_cut, val_upper] at h1; omega
          exact (h.excl y (by rw [← hL]; simp [hy]) _ huL hyi hyt rfl).elim
        · omega
    have h2 := (hab ▸ h.toStr).depth_upper rfl
    rw [← hab] at h2
    simp only at h2
    have h3 := h.nonneg r.start
    omega
  obtain ⟨hstart1, hkeep1⟩ := hkeep1 hup1
  generalize hL1 : pre1.reverse ++ post1 = L1 at *
  have hnn1 : ∀ k, 0 ≤ cnt L1 k := by
    intro k; rw [hcnt1]; have := h.nonneg k; split <;> omega
  have hge1 : ∀ k, r.start ≤ k → 1 ≤ cnt L1 k := by
    intro k hk; rw [hcnt1, if_pos hk]; have := h.nonneg k; omega
  -- no lower limit at `r.start` after the cursor
  have hnolow : ∀ y ∈ post1, y.i = r.start → y.t ≠ .lower := by
    intro y hy hyi ht
    have := hpost1 y hy
    simp only [Le, ht, LType.val] at this; omega
  have hpoststart : ∀ y ∈ post1, r.start ≤ y.i := by
    intro y hy
    have := hpost1 y hy
    simp only [Le] at this; omega
  -- depth after any prefix of the part travelled
  have hprefix : ∀ m y q, post1 = m ++ y :: q → Le y ⟨r.stop, .cut⟩ →
      1 ≤ depth1 + dep m - y.t.val ∧
      (depth1 + dep m - y.t.val = 1 → ∃ k, r.start ≤ k ∧ k < r.stop ∧ cnt L1 k = 1) := by
    intro m y q hq hy
    have hS1' : Str ((pre1.reverse ++ m) ++ y :: q) := by
      rw [List.append_assoc, ← hq, hL1]; exact hS1
    have hLeq : (pre1.reverse ++ m) ++ y :: q = L1 := by rw [List.append_assoc, ← hq, hL1]
    have hdd : dep (pre1.reverse ++ m) = depth1 + dep m := by rw [dep_append, dep_reverse, hd1]
    have hyst := hpoststart y (by rw [hq]; simp)
    rcases val_cases y.t with ⟨ht, hv⟩ | ⟨ht, hv⟩ | ⟨ht, hv⟩
    · have h1 := hS1'.depth_lower ht
      rw [hLeq, hdd] at h1
      have hne : y.i ≠ r.start := fun he => hnolow y (by rw [hq]; simp) he ht
      have := hge1 (y.i - 1) (by omega)
      constructor
      · omega
      · intro; omega
    · have h1 := hS1'.depth_cut ht
      rw [hLeq, hdd] at h1
      have h2 := hge1 y.i hyst
      simp only [Le, hv, val_lower, val_cut, val_upper] at hy
      refine ⟨by omega, fun he => ?_⟩
      by_cases hyi : y.i < r.stop
      · exact ⟨y.i, hyst, hyi, by omega⟩
      · have := hge1 (y.i - 1) (by omega)
        exact ⟨y.i - 1, by omega, by omega, by omega⟩
    · have h1 := hS1'.depth_upper ht
      rw [hLeq, hdd] at h1
      have h2 := hge1 y.i hyst
      simp only [Le, hv, val_lower, val_cut, val_upper] at hy
      exact ⟨by omega, fun he => ⟨y.i, hyst, by omega, by omega⟩⟩
  -- second move
  have hm2 := move_spec ⟨r.stop, .cut⟩ 1 pre1 post1 depth1 false
  generalize moveToFirstAfter ⟨r.stop, .cut⟩ 1 pre1 post1 depth1 false = res at hm2 ⊢
  rcases res with _ | ⟨pre2, post2, depth2, hit2⟩
  · obtain ⟨m, y, q, hq, hle, hlt2⟩ := hm2
    have := hprefix m y q hq (hle y (by simp))
    omega
  simp only at hm2 ⊢
  obtain ⟨mid2, hmid2, rfl, hdepth2, hmid2le, hpost2, hmid2pre, hhit2⟩ := hm2
  have hL1' : pre1.reverse ++ mid2 ++ post2 = L1 := by rw [List.append_assoc, ← hmid2, hL1]
  have hpost2' : ∀ y ∈ post2, ¬ y.le ⟨r.stop, .cut⟩ = true := by
    intro y hy
    rcases post2 with _ | ⟨z, post2⟩
    · simp at hy
    have hz := hpost2 z post2 rfl
    rcases List.mem_cons.mp hy with rfl | hy
    · exact hz
    · have hs := hS1.sorted
      rw [← hL1', List.pairwise_append, List.pairwise_cons] at hs
      have := hs.2.1.1 y hy
      rw [not_le_iff] at hz ⊢
      simp only [Le] at this hz ⊢; omega
  have hpre2 : ∀ y ∈ mid2.reverse ++ pre1, Le y ⟨r.stop, .cut⟩ := by
    intro y hy
    rcases List.mem_append.mp hy with hy | hy
    · exact hmid2le y (by simpa using hy)
    · have := hpre1 y hy
      simp only [Le] at this ⊢; omega
  have hrev2 : (mid2.reverse ++ pre1).reverse ++ post2 = L1 := by
    rw [List.reverse_append, List.reverse_reverse, hL1']
  have hdepth2' : depth2 = dep (mid2.reverse ++ pre1) := by
    rw [dep_append, dep_reverse]; omega
  have hne2 : mid2.reverse ++ pre1 ≠ [] := by
    intro hnil
    rw [hnil] at hdepth2'
    have h1 : cnt L1 r.start = 0 := by
      have h2 := hge1 r.start (by omega)
      have h3 : cnt L1 r.start ≤ 0 := by
        rw [← hrev2, hnil]
        simp only [List.reverse_nil, List.nil_append]
        refine cnt_nonpos (fun y hy hk hl => ?_)
        have := hpost2' y hy
        rw [not_le_iff] at this
        simp only at this; omega
      omega
    have h2 := hge1 r.start (by omega)
    omega
  have hiu := insertUpper_spec r.stop (mid2.reverse ++ pre1) post2 depth2 hne2
    (by rw [hrev2]; exact hS1) hpre2 hpost2' hdepth2'
  obtain ⟨pre3, depth3, he3, hS3, hcnt3, hdep3, -, -, hcut3, hkeep3⟩ := hiu
  rw [he3]
  have hpos3 := insertUpper_pos (he3 post2) post2
  rw [hrev2] at hcnt3 hdep3 hcut3 hkeep3 hpos3
  have hlow3 : (⟨r.stop, .lower⟩ : Limit) ∈ mid2.reverse ++ pre1 → 2 ≤ depth2 := by
    intro hl
    have hmem : (⟨r.stop, .lower⟩ : Limit) ∈ (mid2.reverse ++ pre1).reverse := by
      simpa only [List.mem_reverse] using hl
    have hmemL : (⟨r.stop, .lower⟩ : Limit) ∈ L1 := by rw [← hrev2]; simp only [List.mem_append]; exact Or.inl hmem
    obtain ⟨a, b, hab⟩ := List.append_of_mem hmemL
    have h1 := (hab ▸ hS1).depth_lower rfl
    rw [← hab] at h1
    simp only at h1
    have h2 := hge1 (r.stop - 1) (by omega)
    have h3 : cnt L1 r.stop ≤ depth2 := by
      rw [← hrev2, cnt_append, hdepth2', cnt_reverse, cnt_eq_dep_of_le]
      · have : cnt post2 r.stop ≤ 0 := cnt_nonpos (fun y hy hk hl => by
          have := hpost2' y hy
          rw [not_le_iff] at this
          simp only [hl, LType.val] at this; omega)
        omega
      · intro y hy
        have := hpre2 y hy
        simp only [Le] at this; omega
    omega
  obtain ⟨hstop3, hkeep3⟩ := hkeep3 hlow3
  simp only
  generalize hL3 : pre3.reverse ++ post2 = L3 at *
  refine ⟨L3, hit2 || decide (depth1 = 1), rfl, ?_⟩
  have hcnt : ∀ k, cnt L3 k = cnt L k + if r.start ≤ k ∧ k < r.stop then 1 else 0 := by
    intro k
    rw [hcnt3, hcnt1]
    repeat' split
    all_goals omega
  refine ⟨⟨hS3, ?_, ?_, ?_⟩, hcnt, ?_, ?_, ?_, ?_, hstop3⟩
  · intro k; rw [hcnt]; have := h.nonneg k; split <;> omega
  · have := h.total; omega
  · intro c hc ht
    rcases hcut3 c hc ht with hc1 | ⟨hci, hcl⟩
    · rcases hcut1 c hc1 ht with hc0 | ⟨hci, hcu⟩
      · have := h.cutDepth c hc0 ht
        rw [hcnt, hcnt]
        rcases this with h | h
        · left; split <;> omega
        · right; split <;> omega
      · -- new cut at `r.start`: there was an upper limit
        left
        obtain ⟨a, b, hab⟩ := List.append_of_mem hcu
        have h1 := (hab ▸ h.toStr).depth_upper rfl
        rw [← hab] at h1
        simp only at h1
        have h2 := h.nonneg r.start
        rw [hcnt, hci]
        split <;> omega
    · left
      rw [hcnt, hci, if_pos ⟨by omega, by omega⟩]
      have := h.nonneg (r.stop - 1); omega
  · -- change flag
    have key : (hit2 = true ∨ depth1 = 1) ↔ ∃ k, r.start ≤ k ∧ k < r.stop ∧ cnt L1 k = 1 := by
      constructor
      · rintro (hh | hh)
        · rw [hhit2] at hh
          rcases hh with hh | ⟨m, y, q, hq, he⟩
          · cases hh
          · exact (hprefix m y (q ++ post2) (by rw [hmid2, hq]; simp) (hmid2le y (by rw [hq]; simp))).2 he
        · refine ⟨r.start, by omega, hlt, ?_⟩
          have h1 := hge1 r.start (by omega)
          have h2 : cnt L1 r.start ≤ depth1 := by
            rw [← hL1, cnt_append, cnt_reverse, hd1, cnt_eq_dep_of_le]
            · have : cnt post1 r.start ≤ 0 := cnt_nonpos (fun y hy hk hl =>
                hnolow y hy (by have := hpoststart y hy; omega) hl)
              omega
            · intro y hy
              have := hpre1 y hy
              simp only [Le] at this; omega
          omega
      · rintro ⟨k, hk1, hk2, hk3⟩
        obtain ⟨p, q, hpq, hp, hq, hc⟩ := split_at hS1.sorted k
        have hpre1k : ∀ y ∈ pre1.reverse, y.i ≤ k := by
          intro y hy
          have := hpre1 y (by simpa using hy)
          simp only [Le] at this; omega
        -- `p` extends `pre1.reverse` by a prefix of `mid2`
        have : ∃ m m', mid2 = m ++ m' ∧ p = pre1.reverse ++ m := by
          have e : p ++ q = (pre1.reverse ++ mid2) ++ post2 := by rw [← hpq, hL1']
          have hq2 : ∀ y ∈ post2, k < y.i := by
            intro y hy
            have := hpost2' y hy
            rw [not_le_iff] at this
            simp only at this; omega
          rcases List.append_eq_append_iff.mp e with ⟨w, hw1, hw2⟩ | ⟨w, hw1, hw2⟩
          · rcases List.append_eq_append_iff.mp hw1 with ⟨v, hv1, hv2⟩ | ⟨v, hv1, hv2⟩
            · exact ⟨v, w, hv2, hv1⟩
            · -- p is a strict prefix of pre1.reverse: then v = []
              rcases v with _ | ⟨z, v⟩
              · exact ⟨[], mid2, rfl, by simpa using hv1.symm⟩
              · exfalso
                have h1 := hpre1k z (by rw [hv1]; simp)
                have h2 := hq z (by rw [hw2, hv2]; simp)
                omega
          · rcases w with _ | ⟨z, w⟩
            · exact ⟨mid2, [], by simp, by simpa using hw1⟩
            · exfalso
              have h1 := hp z (by rw [hw1]; simp)
              have h2 := hq2 z (by rw [hw2]; simp)
              omega
        obtain ⟨m, m', hm, hpm⟩ := this
        have hdp : dep p = depth1 + dep m := by rw [hpm, dep_append, dep_reverse, hd1]
        rcases List.eq_nil_or_concat m with rfl | ⟨m0, y, rfl⟩
        · right; simp only [dep_nil] at hdp; omega
        · left
          rw [hhit2]
          right
          refine ⟨m0, y, m', by rw [hm]; simp, ?_⟩
          simp only [List.concat_eq_append, dep_append, dep_cons, dep_nil] at hdp
          omega
    simp only [Bool.or_eq_true, decide_eq_true_eq]
    rw [key]
    constructor
    · rintro ⟨k, h1, h2, h3⟩
      refine ⟨k, h1, h2, ?_⟩
      rw [hcnt1, if_pos h1] at h3; omega
    · rintro ⟨k, h1, h2, h3⟩
      refine ⟨k, h1, h2, ?_⟩
      rw [hcnt1, if_pos h1]; omega
  · intro z hz
    rcases hpos3 z hz with h1 | ⟨y, hy, hyz⟩
    · exact Or.inr (Or.inl h1)
    · rcases hpos1 y hy with h2 | ⟨w, hw, hwy⟩
      · left; omega
      · exact Or.inr (Or.inr ⟨w, hw, by omega⟩)
  · intro z hz
    obtain ⟨y, hy, hyz⟩ := hkeep1 z hz
    obtain ⟨w, hw, hwy⟩ := hkeep3 y hy
    exact ⟨w, hw, by omega⟩
  · obtain ⟨y, hy, hyz⟩ := hstart1
    obtain ⟨w, hw, hwy⟩ := hkeep3 y hy
    exact ⟨w, hw, by omega⟩

end Verif.RC
