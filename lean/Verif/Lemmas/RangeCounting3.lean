import Verif.Lemmas.RangeCounting2
/-!
# `remove` of `RangeCounting`
-/
set_option autoImplicit false

namespace Verif.RC
open Verif

set_option linter.unusedSimpArgs false

/-- Comparison of the splitting of a list at the cursor and at an integer. -/
theorem split_between {a mid b p q L : List Limit} {k : Int} (hL : L = a ++ mid ++ b) (hpq : L = p ++ q)
    (ha : ∀ y ∈ a, y.i ≤ k) (hb : ∀ y ∈ b, k < y.i) (hp : ∀ y ∈ p, y.i ≤ k) (hq : ∀ y ∈ q, k < y.i) :
    ∃ m m', mid = m ++ m' ∧ p = a ++ m := by
  have e : p ++ q = (a ++ mid) ++ b := by rw [← hpq, hL]
  rcases List.append_eq_append_iff.mp e with ⟨w, hw1, hw2⟩ | ⟨w, hw1, hw2⟩
  · rcases List.append_eq_append_iff.mp hw1 with ⟨v, hv1, hv2⟩ | ⟨v, hv1, hv2⟩
    · exact ⟨v, w, hv2, hv1⟩
    · rcases v with _ | ⟨z, v⟩
      · exact ⟨[], mid, rfl, by simpa using hv1.symm⟩
      · exfalso
        have h1 := ha z (by rw [hv1]; simp)
        have h2 := hq z (by rw [hw2, hv2]; simp)
        omega
  · rcases w with _ | ⟨z, w⟩
    · exact ⟨mid, [], by simp, by simpa using hw1⟩
    · exfalso
      have h1 := hp z (by rw [hw1]; simp)
      have h2 := hb z (by rw [hw2]; simp)
      omega

/-- What a successful `remove` does to the limits. -/
structure RemoveSpec (L L' : List Limit) (r : Range) (change : Bool) : Prop where
  inv : Inv L'
  cnt : ∀ k, cnt L' k = cnt L k - if r.start ≤ k ∧ k < r.stop then 1 else 0
  change : change = true ↔ ∃ k, r.start ≤ k ∧ k < r.stop ∧ RC.cnt L k = 1
  pos : ∀ x ∈ L', x.i = r.start ∨ x.i = r.stop ∨ ∃ y ∈ L, y.i = x.i

/-- Outcome of `remove`. -/
theorem remove_spec (s : State) (r : Range) (h : Inv s.limits) (hr : 0 < r.dim) :
    ((∀ k, r.start ≤ k → k < r.stop → 1 ≤ cnt s.limits k) →
      ∃ L' change, s.remove r = .ok
        { s with limits := L', recomputeSplit := true, recompute := s.recompute || change } change ∧
      RemoveSpec s.limits L' r change) ∧
    ((∃ k, r.start ≤ k ∧ k < r.stop ∧ cnt s.limits k = 0) →
      ∃ b, s.remove r = .throw { s with recomputeSplit := b } ∧ (s.recomputeSplit = true → b = true)) := by
  have hlt : r.start < r.stop := by unfold Range.stop; omega
  obtain ⟨L, rc, rs, iv⟩ := s
  simp only at h ⊢
  unfold State.remove
  rw [if_neg (by omega)]
  simp only
  rcases L with _ | ⟨f, L'⟩
  · simp only [cnt_nil, List.head?_nil]
    exact ⟨fun hk => absurd (hk r.start (by omega) hlt) (by omega), fun _ => ⟨rs, rfl, id⟩⟩
  obtain ⟨bl, b, hbl⟩ : ∃ bl b, f :: L' = bl ++ [b] := by
    rcases List.eq_nil_or_concat (f :: L') with h | ⟨a, b, h⟩
    · cases h
    · exact ⟨a, b, by simpa using h⟩
  have hlast : (f :: L').getLast? = some b := by rw [hbl]; simp
  have hbu : b.t = .upper := (hbl ▸ h).last_upper
  have hfmin : ∀ y ∈ f :: L', f.i ≤ y.i := by
    intro y hy
    have hs := h.sorted
    rw [List.pairwise_cons] at hs
    rcases List.mem_cons.mp hy with rfl | hy
    · omega
    · have := hs.1 y hy; simp only [Le] at this; omega
  have hbmax : ∀ y ∈ f :: L', y.i ≤ b.i := by
    intro y hy
    have hs := h.sorted
    rw [hbl] at hs hy
    rw [List.pairwise_append] at hs
    rcases List.mem_append.mp hy with hy | hy
    · have := hs.2.2 y hy b (by simp); simp only [Le] at this; omega
    · simp only [List.mem_cons, List.not_mem_nil, or_false] at hy; rw [hy]; omega
  simp only [List.head?_cons, hlast]
  generalize f :: L' = L at *
  by_cases hhull : r.start < f.i ∨ r.start ≥ b.i ∨ r.stop ≤ f.i ∨ r.stop > b.i
  · rw [if_pos hhull]
    refine ⟨fun hk => ?_, fun _ => ⟨rs, rfl, id⟩⟩
    exfalso
    have h0 : ∀ k, k < f.i → cnt L k = 0 := fun k hk => cnt_eq_zero_of_gt (fun y hy => by
      have := hfmin y hy; omega)
    have h1 : ∀ k, b.i ≤ k → cnt L k = 0 := fun k hk => by
      rw [cnt_eq_dep_of_le (fun y hy => by have := hbmax y hy; omega), h.total]
    have h2 := hk r.start (by omega) hlt
    have h3 := hk (r.stop - 1) (by omega) (by omega)
    rcases hhull with hh | hh | hh | hh
    · have := h0 r.start (by omega); omega
    · have := h1 r.start (by omega); omega
    · have := h0 r.start (by omega); omega
    · have := h1 (r.stop - 1) (by omega); omega
  rw [if_neg hhull]
  have hm := move_spec ⟨r.start, .cut⟩ 0 [] L 0 false
  generalize moveToFirstAfter ⟨r.start, .cut⟩ 0 [] L 0 false = res at hm ⊢
  rcases res with _ | ⟨pre, rest, depth, hit⟩
  · obtain ⟨m, x, q, rfl, _, h2⟩ := hm
    have := h.toStr.prefix_nonneg h.nonneg
    omega
  simp only at hm ⊢
  obtain ⟨mid, hmid, hpre, hdepth, hmidle, hrest, -, -⟩ := hm
  simp only [List.append_nil] at hpre
  subst hpre
  have hrest' : ∀ y ∈ rest, ¬ y.le ⟨r.start, .cut⟩ = true := by
    intro y hy
    rcases rest with _ | ⟨z, rest⟩
    · simp at hy
    have hz := hrest z rest rfl
    rcases List.mem_cons.mp hy with rfl | hy
    · exact hz
    · have hs := h.sorted
      rw [hmid, List.pairwise_append, List.pairwise_cons] at hs
      have := hs.2.1.1 y hy
      rw [not_le_iff] at hz ⊢
      simp only [Le] at this hz ⊢; omega
  have hresti : ∀ y ∈ rest, r.start ≤ y.i ∧ (y.i = r.start → y.t = .upper) := by
    intro y hy
    have := hrest' y hy
    rw [not_le_iff] at this
    simp only [val_cut] at this
    refine ⟨by omega, fun hi => ?_⟩
    rcases val_cases y.t with ⟨ht, hv⟩ | ⟨ht, hv⟩ | ⟨ht, hv⟩
    · omega
    · omega
    · exact ht
  have hmidi : ∀ y ∈ mid, y.i ≤ r.start := by
    intro y hy
    have := hmidle y hy
    simp only [Le] at this; omega
  have hd0 : 0 ≤ depth := by
    have := (hmid ▸ h.toStr).prefix_nonneg' (hmid ▸ h.nonneg)
    omega
  have hcs : cnt L r.start ≤ depth := by
    rw [hmid, cnt_append, cnt_eq_dep_of_le hmidi, hdepth]
    have : cnt rest r.start ≤ 0 := cnt_nonpos (fun y hy hk hl => by
      have h1 := hresti y hy
      have := h1.2 (by omega); rw [hl] at this; cases this)
    omega
  by_cases hdz : depth = 0
  · rw [if_pos hdz]
    refine ⟨fun hk => ?_, fun _ => ⟨true, rfl, fun _ => rfl⟩⟩
    have := hk r.start (by omega) hlt
    omega
  rw [if_neg hdz]
  -- depths of the prefixes of the part travelled, when all points are covered
  have hprefix : (∀ k, r.start ≤ k → k < r.stop → 1 ≤ cnt L k) →
      ∀ m y q, rest = m ++ y :: q → Le y ⟨r.stop, .lower⟩ →
      1 ≤ depth + dep m - y.t.val ∧
      (depth + dep m - y.t.val = 1 → ∃ k, r.start ≤ k ∧ k < r.stop ∧ cnt L k = 1) := by
    intro hall m y q hq hy
    have hLeq : (mid ++ m) ++ y :: q = L := by rw [List.append_assoc, ← hq, hmid]
    have hS1' : Str ((mid ++ m) ++ y :: q) := by rw [hLeq]; exact h.toStr
    have hdd : dep (mid ++ m) = depth + dep m := by rw [dep_append]; omega
    have hyst := hresti y (by rw [hq]; simp)
    rcases val_cases y.t with ⟨ht, hv⟩ | ⟨ht, hv⟩ | ⟨ht, hv⟩
    · have h1 := hS1'.depth_lower ht
      rw [hLeq, hdd] at h1
      have hne : y.i ≠ r.start := fun he => by have := hyst.2 he; rw [ht] at this; cases this
      simp only [Le, hv, val_lower] at hy
      have := hall (y.i - 1) (by omega) (by omega)
      constructor
      · omega
      · intro; omega
    · have h1 := hS1'.depth_cut ht
      rw [hLeq, hdd] at h1
      simp only [Le, hv, val_lower] at hy
      have h2 := hall y.i hyst.1 (by omega)
      exact ⟨by omega, fun he => ⟨y.i, by omega, by omega, by omega⟩⟩
    · have h1 := hS1'.depth_upper ht
      rw [hLeq, hdd] at h1
      simp only [Le, hv, val_lower] at hy
      have h2 := hall y.i hyst.1 (by omega)
      exact ⟨by omega, fun he => ⟨y.i, by omega, by omega, by omega⟩⟩
  have hm2 := move_spec ⟨r.stop, .lower⟩ 1 [] rest depth false
  generalize moveToFirstAfter ⟨r.stop, .lower⟩ 1 [] rest depth false = res at hm2 ⊢
  rcases res with _ | ⟨midRev, post, depth2, hit2⟩
  · simp only
    refine ⟨fun hk => ?_, fun _ => ⟨true, rfl, fun _ => rfl⟩⟩
    obtain ⟨m, y, q, hq, hle, hlt2⟩ := hm2
    have := hprefix hk m y q hq (hle y (by simp))
    omega
  simp only at hm2 ⊢
  obtain ⟨mid2, hmid2, hmr, hdepth2, hmid2le, hpost, hmid2pre, hhit2⟩ := hm2
  simp only [List.append_nil] at hmr
  subst hmr
  have hLall : L = mid ++ mid2 ++ post := by rw [hmid, hmid2, List.append_assoc]
  have hpost' : ∀ y ∈ post, ¬ y.le ⟨r.stop, .lower⟩ = true := by
    intro y hy
    rcases post with _ | ⟨z, post⟩
    · simp at hy
    have hz := hpost z post rfl
    rcases List.mem_cons.mp hy with rfl | hy
    · exact hz
    · have hs := h.sorted
      rw [hLall, List.pairwise_append, List.pairwise_cons] at hs
      have := hs.2.1.1 y hy
      rw [not_le_iff] at hz ⊢
      simp only [Le] at this hz ⊢; omega
  have hposti : ∀ y ∈ post, r.stop ≤ y.i := by
    intro y hy
    have := hpost' y hy
    rw [not_le_iff] at this
    simp only at this; omega
  -- splitting at an integer of the removed range
  have hsplit : ∀ k, r.start ≤ k → k < r.stop →
      cnt L k = depth ∨ ∃ m y q, mid2 = m ++ y :: q ∧ cnt L k = depth + dep m - y.t.val := by
    intro k hk1 hk2
    obtain ⟨p, q, hpq, hp, hq, hc⟩ := split_at h.sorted k
    obtain ⟨m, m', hm, hpm⟩ := split_between hLall hpq (fun y hy => by have := hmidi y hy; omega)
      (fun y hy => by have := hposti y hy; omega) hp hq
    have hdp : dep p = depth + dep m := by rw [hpm, dep_append]; omega
    rcases List.eq_nil_or_concat m with rfl | ⟨m0, y, rfl⟩
    · left; simp only [dep_nil] at hdp; omega
    · right
      refine ⟨m0, y, m', by rw [hm]; simp, ?_⟩
      simp only [List.concat_eq_append, dep_append, dep_cons, dep_nil] at hdp
      omega
  have hall : ∀ k, r.start ≤ k → k < r.stop → 1 ≤ cnt L k := by
    intro k hk1 hk2
    rcases hsplit k hk1 hk2 with h1 | ⟨m, y, q, h1, h2⟩
    · omega
    · have := hmid2pre m y q h1; omega
  refine ⟨fun _ => ?_, fun ⟨k, hk1, hk2, hk3⟩ => by have := hall k hk1 hk2; omega⟩
  -- insertion of the upper limit at `r.start`
  have hnemid : mid.reverse ≠ [] := by
    intro hnil
    have : mid = [] := by simpa using hnil
    rw [this] at hdepth
    simp only [dep_nil] at hdepth; omega
  have hiu := insertUpper_spec r.start mid.reverse rest depth hnemid
    (by rw [List.reverse_reverse, ← hmid]; exact h.toStr) (by simpa using hmidle) hrest'
    (by rw [dep_reverse]; omega)
  obtain ⟨pre1, depth1, he1, hS1, hcnt1, hdep1, hd1, hpre1, hcut1, -⟩ := hiu
  have hpos1 := insertUpper_pos (he1 rest) rest
  simp only [he1, List.reverse_reverse, ← hmid] at hcnt1 hdep1 hcut1 hpos1 ⊢
  -- insertion of the lower limit at `r.stop`
  have hbpost : b ∈ post := by
    have hbL : b ∈ L := by rw [hbl]; simp
    rw [hLall] at hbL
    rcases List.mem_append.mp hbL with hb | hb
    · exfalso
      rcases List.mem_append.mp hb with hb | hb
      · have := hmidle b hb
        simp only [Le, hbu, val_cut, val_upper] at this; omega
      · have := hmid2le b hb
        simp only [Le, hbu, val_lower, val_upper] at this; omega
    · exact hb
  have hrev1 : (mid2.reverse ++ pre1).reverse ++ post = pre1.reverse ++ rest := by
    rw [List.reverse_append, List.reverse_reverse, List.append_assoc, ← hmid2]
  have hil := insertLower_spec r.stop (mid2.reverse ++ pre1) post (depth2 - 1)
    (List.ne_nil_of_mem hbpost) (by rw [hrev1]; exact hS1) (by
      intro y hy
      rcases List.mem_append.mp hy with hy | hy
      · exact hmid2le y (by simpa using hy)
      · have := hpre1 y hy
        simp only [Le] at this ⊢; omega) hpost' (by
      rw [dep_append, dep_reverse]
      simp only [dep_append, dep_reverse] at hdep1
      have := congrArg dep hmid
      simp only [dep_append] at this
      omega)
  obtain ⟨pre2, post2, depth3, he2, hS2, hcnt2, hdep2, -, -, -, hcut2, -⟩ := hil
  have hpos2 := insertLower_pos he2
  rw [he2]
  rw [hrev1] at hcnt2 hdep2 hcut2 hpos2
  simp only
  generalize hL2 : pre2.reverse ++ post2 = L2 at *
  refine ⟨dropCuts 0 L2, hit2 || decide (depth = 1), rfl, ?_⟩
  have hcntL2 : ∀ k, cnt L2 k = cnt L k - if r.start ≤ k ∧ k < r.stop then 1 else 0 := by
    intro k
    rw [hcnt2, hcnt1]
    repeat' split
    all_goals omega
  have hnn : ∀ k, 0 ≤ cnt L2 k := by
    intro k
    rw [hcntL2]
    have h1 := h.nonneg k
    split
    · rename_i hk; have := hall k hk.1 hk.2; omega
    · omega
  refine ⟨⟨hS2.sublist (dropCuts_sublist _ _), ?_, ?_, ?_⟩, ?_, ?_, ?_⟩
  · intro k; rw [dropCuts_cnt]; exact hnn k
  · rw [dropCuts_dep]; have := h.total; omega
  · intro c hc ht
    obtain ⟨p, q, hpq, hne⟩ := dropCuts_cut 0 L2 c hc ht
    have h1 := (hpq ▸ hS2).depth_cut ht
    rw [← hpq] at h1
    rw [dropCuts_cnt, dropCuts_cnt]
    have := hnn c.i
    omega
  · intro k; rw [dropCuts_cnt]; exact hcntL2 k
  · simp only [Bool.or_eq_true, decide_eq_true_eq]
    constructor
    · rintro (hh | hh)
      · rw [hhit2] at hh
        rcases hh with hh | ⟨m, y, q, hq, he⟩
        · cases hh
        · exact (hprefix hall m y (q ++ post) (by rw [hmid2, hq]; simp)
            (hmid2le y (by rw [hq]; simp))).2 he
      · have := hall r.start (by omega) hlt
        exact ⟨r.start, by omega, hlt, by omega⟩
    · rintro ⟨k, hk1, hk2, hk3⟩
      rcases hsplit k hk1 hk2 with h1 | ⟨m, y, q, h1, h2⟩
      · right; omega
      · left; rw [hhit2]; right; exact ⟨m, y, q, h1, by omega⟩
  · intro z hz
    have hz := (dropCuts_sublist _ _).subset hz
    rcases hpos2 z hz with h1 | ⟨y, hy, hyz⟩
    · exact Or.inr (Or.inl h1)
    · rcases hpos1 y hy with h2 | ⟨w, hw, hwy⟩
      · left; omega
      · exact Or.inr (Or.inr ⟨w, hw, by omega⟩)

end Verif.RC
