import Verif.Lemmas.SubstitutionUnit1
/-!
# Lemmas on `SubstitutionUnit`: the scan of the substitutions and their dependencies
-/
set_option autoImplicit false

namespace Verif.SU
open Verif

theorem getD_prefix {a b : List Nat} (h : a <+: b) {i : Nat} (hi : i < a.length) : b.getD i 0 = a.getD i 0 := by
  obtain ⟨t, rfl⟩ := h
  rw [List.getD_eq_getElem?_getD, List.getD_eq_getElem?_getD, List.getElem?_append_left hi]

theorem getD_idxOf {a : List Nat} {v : Nat} (h : v ∈ a) : a.getD (a.idxOf v) 0 = v := by
  have hl := List.idxOf_lt_length_of_mem h
  rw [List.getD_eq_getElem?_getD, List.getElem?_eq_getElem hl]
  simp

/-! ## The classification of the variables of a constraint -/

theorem scanVar_fold (s : SShape) (x : List Nat) (vs : List Nat) : ∀ p : List Nat × List Nat × List Nat,
    ∃ ys xs, (vs.foldl (scanVar s x) p).2.1 = p.2.1 ++ ys ∧ (vs.foldl (scanVar s x) p).2.2 = p.2.2 ++ xs ∧
      p.1 <+: (vs.foldl (scanVar s x) p).1 ∧
      (∀ j ∈ ys, j < (vs.foldl (scanVar s x) p).1.length) ∧
      ys.map ((vs.foldl (scanVar s x) p).1.getD · 0) = vs.filter (fun v => decide (v ∉ x)) ∧
      (∀ l ∈ xs, ∃ v ∈ vs, v ∈ x ∧ v ∉ s.vars ∧ l = x.idxOf v) ∧
      xs.map (x.getD · 0) = vs.filter (fun v => decide (v ∈ x ∧ v ∉ s.vars)) ∧
      (∀ v ∈ (vs.foldl (scanVar s x) p).1, v ∈ p.1 ∨ (v ∈ vs ∧ v ∉ x)) := by
  induction vs with
  | nil => intro p; exact ⟨[], [], by simp, by simp, by simp, by simp, by simp, by simp, by simp, by simp⟩
  | cons v vs ih =>
    intro p
    obtain ⟨ys, xs, h1, h2, h3, h4, h5, h6, h7, h8⟩ := ih (scanVar s x p v)
    simp only [List.foldl_cons]
    by_cases hx : v ∈ x
    · by_cases hs : v ∈ s.vars
      · have e : scanVar s x p v = p := by simp [scanVar, hx, hs]
        rw [e] at h1 h2 h3 h4 h5 h8 ⊢
        refine ⟨ys, xs, h1, h2, h3, h4, by rw [h5]; simp [hx], ?_, by rw [h7]; simp [hs], ?_⟩
        · intro l hl
          obtain ⟨w, hw, hh⟩ := h6 l hl
          exact ⟨w, by simp [hw], hh⟩
        · intro w hw
          rcases h8 w hw with h | h
          · exact .inl h
          · exact .inr ⟨by simp [h.1], h.2⟩
      · have e : scanVar s x p v = (p.1, p.2.1, p.2.2 ++ [x.idxOf v]) := by simp [scanVar, hx, hs]
        rw [e] at h1 h2 h3 h4 h5 h8 ⊢
        refine ⟨ys, x.idxOf v :: xs, h1, by rw [h2]; simp, h3, h4, by rw [h5]; simp [hx], ?_, ?_, ?_⟩
        · intro l hl
          simp only [List.mem_cons] at hl
          rcases hl with rfl | hl
          · exact ⟨v, by simp, hx, hs, rfl⟩
          · obtain ⟨w, hw, hh⟩ := h6 l hl
            exact ⟨w, by simp [hw], hh⟩
        · rw [List.map_cons, h7, getD_idxOf hx]
          simp [hx, hs]
        · intro w hw
          rcases h8 w hw with h | h
          · exact .inl h
          · exact .inr ⟨by simp [h.1], h.2⟩
    · have e : scanVar s x p v = ((if v ∈ p.1 then p.1 else p.1 ++ [v]), p.2.1 ++ [(if v ∈ p.1 then p.1 else p.1 ++ [v]).idxOf v], p.2.2) := by simp [scanVar, hx]
      rw [e] at h1 h2 h3 h4 h5 h8 ⊢
      simp only at h1 h2 h3 h8
      have hmem : v ∈ (if v ∈ p.1 then p.1 else p.1 ++ [v]) := by
        by_cases hp : v ∈ p.1
        · rw [if_pos hp]; exact hp
        · rw [if_neg hp]; simp
      have hpre : p.1 <+: (if v ∈ p.1 then p.1 else p.1 ++ [v]) := by
        by_cases hp : v ∈ p.1
        · rw [if_pos hp]
        · rw [if_neg hp]; exact List.prefix_append _ _
      have hy' : ∀ w ∈ (if v ∈ p.1 then p.1 else p.1 ++ [v]), w ∈ p.1 ∨ w = v := by
        intro w hw
        by_cases hp : v ∈ p.1
        · rw [if_pos hp] at hw; exact .inl hw
        · rw [if_neg hp] at hw; simpa using hw
      generalize (if v ∈ p.1 then p.1 else p.1 ++ [v]) = y' at *
      have hlt := List.idxOf_lt_length_of_mem hmem
      refine ⟨y'.idxOf v :: ys, xs, by rw [h1]; simp, h2, hpre.trans h3, ?_, ?_, ?_, by rw [h7]; simp [hx], ?_⟩
      · intro j hj
        simp only [List.mem_cons] at hj
        rcases hj with rfl | hj
        · exact Nat.lt_of_lt_of_le hlt h3.length_le
        · exact h4 j hj
      · rw [List.map_cons, h5, getD_prefix h3 hlt, getD_idxOf hmem]
        simp [hx]
      · intro l hl
        obtain ⟨w, hw, hh⟩ := h6 l hl
        exact ⟨w, by simp [hw], hh⟩
      · intro w hw
        rcases h8 w hw with h | h
        · rcases hy' w h with h | h
          · exact .inl h
          · subst h; exact .inr ⟨by simp, hx⟩
        · exact .inr ⟨by simp [h.1], h.2⟩

/-- What the scan finds for a constraint, in the final vectors: its variables are those of `y_` it is given, those of `x_` of the preceding substitutions
it is given, and those of its substitution. -/
structure CGood (svars xk : List Nat) (x0 : Nat) (xF yF : List Nat) (ci : CInfo) : Prop where
  ys : ci.ys.map (yF.getD · 0) = ci.shape.vars.filter fun v => decide (v ∉ xk)
  xs : ci.xs.map (xF.getD · 0) = ci.shape.vars.filter fun v => decide (v ∈ xk ∧ v ∉ svars)
  ylt : ∀ j ∈ ci.ys, j < yF.length
  xlt : ∀ l ∈ ci.xs, l < x0

theorem CGood.mono {svars xk : List Nat} {x0 : Nat} {x x' y y' : List Nat} {ci : CInfo} (h : CGood svars xk x0 x y ci) (hx : x <+: x') (hy : y <+: y') (hx0 : x0 ≤ x.length) :
    CGood svars xk x0 x' y' ci := by
  refine ⟨?_, ?_, fun j hj => Nat.lt_of_lt_of_le (h.ylt j hj) hy.length_le, h.xlt⟩
  · rw [← h.ys]
    apply List.map_congr_left
    intro j hj
    exact getD_prefix hy (h.ylt j hj)
  · rw [← h.xs]
    apply List.map_congr_left
    intro l hl
    exact getD_prefix hx (Nat.lt_of_lt_of_le (h.xlt l hl) hx0)

theorem scanCstr_fold (s : SShape) (X : List Nat) (cs : List CShape) : ∀ p : List Nat × List CInfo × Nat,
    ∃ is, (cs.foldl (scanCstr s (X ++ s.vars)) p).2.1 = p.2.1 ++ is ∧ p.1 <+: (cs.foldl (scanCstr s (X ++ s.vars)) p).1 ∧
      is.map (fun ci => (ci.shape, ci.idx)) = cs.zipIdx p.2.2 ∧ (cs.foldl (scanCstr s (X ++ s.vars)) p).2.2 = p.2.2 + cs.length ∧
      (∀ ci ∈ is, CGood s.vars (X ++ s.vars) X.length (X ++ s.vars) (cs.foldl (scanCstr s (X ++ s.vars)) p).1 ci) ∧
      (∀ v ∈ (cs.foldl (scanCstr s (X ++ s.vars)) p).1, v ∈ p.1 ∨ ∃ c ∈ cs, v ∈ c.vars ∧ v ∉ X ++ s.vars) := by
  induction cs with
  | nil => intro p; exact ⟨[], by simp, by simp, by simp, by simp, by simp, by simp⟩
  | cons c cs ih =>
    intro p
    obtain ⟨is, h1, h2, h3, h4, h5, h8⟩ := ih (scanCstr s (X ++ s.vars) p c)
    obtain ⟨ys, xs, g1, g2, g3, g4, g5, g6, g7, g8⟩ := scanVar_fold s (X ++ s.vars) c.vars (p.1, [], [])
    simp only [List.nil_append] at g1 g2
    simp only [List.foldl_cons]
    have e1 : (scanCstr s (X ++ s.vars) p c).1 = (c.vars.foldl (scanVar s (X ++ s.vars)) (p.1, [], [])).1 := rfl
    have e2 : (scanCstr s (X ++ s.vars) p c).2.1 = p.2.1 ++ [⟨p.2.2, c, ys, xs⟩] := by
      simp only [scanCstr]; rw [g1, g2]
    have e3 : (scanCstr s (X ++ s.vars) p c).2.2 = p.2.2 + 1 := rfl
    rw [e2] at h1
    rw [e3] at h3 h4
    rw [e1] at h2
    refine ⟨⟨p.2.2, c, ys, xs⟩ :: is, by rw [h1]; simp, g3.trans h2, ?_, by rw [h4]; simp; omega, ?_, ?_⟩
    · simp only [List.map_cons, h3, List.zipIdx_cons]
    · intro ci hci
      simp only [List.mem_cons] at hci
      rcases hci with rfl | hci
      · refine CGood.mono (x := X ++ s.vars) (y := (c.vars.foldl (scanVar s (X ++ s.vars)) (p.1, [], [])).1) ⟨g5, g7, g4, ?_⟩ (List.prefix_refl _) h2 (by simp)
        intro l hl
        obtain ⟨v, _, hvx, hvs, rfl⟩ := g6 l hl
        have hvX : v ∈ X := by
          rcases List.mem_append.mp hvx with h | h
          · exact h
          · exact absurd h hvs
        rw [List.idxOf_append_of_mem hvX]
        exact List.idxOf_lt_length_of_mem hvX
      · exact h5 ci hci
    · intro v hv
      rcases h8 v hv with h | ⟨c', hc', h⟩
      · rw [e1] at h
        rcases g8 v h with h | h
        · exact .inl h
        · exact .inr ⟨c, by simp, h⟩
      · exact .inr ⟨c', by simp [hc'], h⟩

/-! ## The scan -/

theorem total_append (dim : Nat → Nat) (a b : List Nat) : total dim (a ++ b) = total dim a + total dim b := by simp [total]

theorem starts_length (dim : Nat → Nat) (l : List Nat) : ∀ a, (starts dim a l).length = l.length := by
  induction l with
  | nil => intro a; rfl
  | cons v l ih => intro a; simp [starts, ih]

theorem starts_get (dim : Nat → Nat) (l : List Nat) : ∀ a p, p < l.length → (starts dim a l)[p]? = some (a + total dim (l.take p)) := by
  induction l with
  | nil => intro a p hp; simp at hp
  | cons v l ih =>
    intro a p hp
    cases p with
    | zero => simp [starts, total]
    | succ p =>
      simp only [starts, List.getElem?_cons_succ, List.take_succ_cons]
      rw [ih _ p (by simpa using hp)]
      simp only [total, List.map_cons, List.sum_cons]
      congr 1; omega

structure SGood (dim : Nat → Nat) (L : Layout) (k : Nat) (s : SInfo) : Prop where
  idx : s.idx = k
  x0 : s.x0 = ((L.subs.take k).flatMap (·.vars)).length
  len : s.x0 + s.vars.length ≤ L.x.length
  at_ : ∀ (p : Nat) (v : Nat), s.vars[p]? = some v → L.x[s.x0 + p]? = some v ∧ L.x2sub[s.x0 + p]? = some k ∧ L.xr[s.x0 + p]? = some (total dim (s.vars.take p))
  n0 : s.n0 = total dim (L.x.take s.x0)
  n : s.n = total dim s.vars
  cs : ∀ ci ∈ s.cs, CGood s.vars (L.x.take (s.x0 + s.vars.length)) s.x0 L.x L.y ci

structure LInv (dim : Nat → Nat) (ss : List SShape) (L : Layout) : Prop where
  x : L.x = L.subs.flatMap (·.vars)
  len2 : L.x2sub.length = L.x.length
  len3 : L.xr.length = L.x.length
  n : L.n = total dim L.x
  good : ∀ (k : Nat) (s : SInfo), L.subs[k]? = some s → SGood dim L k s
  shapes : L.subs.map (fun s => (s.vars, s.cs.map (·.shape), s.zdim)) = ss.map (fun s => (s.vars, s.cstrs, total dim s.vars - s.rank))
  cstrs : (L.subs.flatMap (·.cs)).map (fun ci => (ci.shape, ci.idx)) = (ss.flatMap (·.cstrs)).zipIdx
  nc : L.nc = (ss.flatMap (·.cstrs)).length
  y : ∀ v ∈ L.y, ∃ (k : Nat) (s : SInfo), L.subs[k]? = some s ∧ (∃ ci ∈ s.cs, v ∈ ci.shape.vars) ∧ v ∉ L.x.take (s.x0 + s.vars.length)

theorem take_prefix {a b : List Nat} (h : a <+: b) {i : Nat} (hi : i ≤ a.length) : b.take i = a.take i := by
  obtain ⟨t, rfl⟩ := h
  rw [List.take_append_of_le_length hi]

theorem get_prefix {α : Type} {a b : List α} (h : a <+: b) {i : Nat} {v : α} (hi : a[i]? = some v) : b[i]? = some v := by
  obtain ⟨t, rfl⟩ := h
  have := (List.getElem?_eq_some_iff.mp hi).1
  rw [List.getElem?_append_left this, hi]

theorem SGood.mono {dim : Nat → Nat} {L L' : Layout} {k : Nat} {s : SInfo} (h : SGood dim L k s) (hk : k ≤ L.subs.length) (hx : L.x <+: L'.x) (h2 : L.x2sub <+: L'.x2sub)
    (h3 : L.xr <+: L'.xr) (hy : L.y <+: L'.y) (hs : L.subs <+: L'.subs) : SGood dim L' k s := by
  refine ⟨h.idx, ?_, Nat.le_trans h.len hx.length_le, ?_, ?_, h.n, ?_⟩
  · rw [h.x0]
    obtain ⟨t, ht⟩ := hs
    rw [← ht, List.take_append_of_le_length hk]
  · intro p v hp
    obtain ⟨a, b, c⟩ := h.at_ p v hp
    exact ⟨get_prefix hx a, get_prefix h2 b, get_prefix h3 c⟩
  · rw [h.n0, take_prefix hx (by have := h.len; omega)]
  · intro ci hci
    rw [take_prefix hx h.len]
    exact (h.cs ci hci).mono hx hy (by have := h.len; omega)

theorem linv_step (dim : Nat → Nat) (ss : List SShape) (L : Layout) (h : LInv dim ss L) (s : SShape) : LInv dim (ss ++ [s]) (scanSub dim L s) := by
  obtain ⟨is, h1, h2, h3, h4, h5, h8⟩ := scanCstr_fold s L.x s.cstrs (L.y, [], L.nc)
  simp only [List.nil_append] at h1
  have hx : L.x <+: (scanSub dim L s).x := List.prefix_append _ _
  have hx2 : L.x2sub <+: (scanSub dim L s).x2sub := List.prefix_append _ _
  have hx3 : L.xr <+: (scanSub dim L s).xr := List.prefix_append _ _
  have hy : L.y <+: (scanSub dim L s).y := h2
  have hs : L.subs <+: (scanSub dim L s).subs := List.prefix_append _ _
  have hsub : (scanSub dim L s).subs = L.subs ++ [⟨L.subs.length, s.vars, is, L.x.length, L.n, total dim s.vars, total dim s.vars - s.rank⟩] := by
    unfold scanSub; simp only; rw [h1]
  have hxe : (scanSub dim L s).x = L.x ++ s.vars := rfl
  constructor
  · rw [hsub, hxe, h.x]; simp
  · show (L.x2sub ++ s.vars.map _).length = (L.x ++ s.vars).length
    simp [h.len2]
  · show (L.xr ++ starts dim 0 s.vars).length = (L.x ++ s.vars).length
    simp [h.len3, starts_length]
  · show L.n + total dim s.vars = total dim (L.x ++ s.vars)
    rw [total_append, h.n]
  · intro k t ht
    rw [hsub] at ht
    by_cases hk : k < L.subs.length
    · rw [List.getElem?_append_left hk] at ht
      exact (h.good k t ht).mono (by omega) hx hx2 hx3 hy hs
    · have hk' : k = L.subs.length := by
        have := (List.getElem?_eq_some_iff.mp ht).1
        simp at this; omega
      subst hk'
      rw [List.getElem?_append_right le_rfl] at ht
      simp only [Nat.sub_self, List.getElem?_cons_zero, Option.some.injEq] at ht
      subst ht
      constructor
      · rfl
      · show L.x.length = _
        rw [hsub, List.take_append_of_le_length le_rfl, List.take_length, h.x]
      · show L.x.length + s.vars.length ≤ (L.x ++ s.vars).length
        simp
      · intro p v hp
        have hpl := (List.getElem?_eq_some_iff.mp hp).1
        simp only at hp hpl ⊢
        refine ⟨?_, ?_, ?_⟩
        · show (L.x ++ s.vars)[L.x.length + p]? = _
          rw [List.getElem?_append_right (by omega), Nat.add_sub_cancel_left, hp]
        · show (L.x2sub ++ s.vars.map fun _ => L.subs.length)[L.x.length + p]? = _
          rw [List.getElem?_append_right (by rw [h.len2]; omega), h.len2, Nat.add_sub_cancel_left, List.getElem?_map, hp]
          rfl
        · show (L.xr ++ starts dim 0 s.vars)[L.x.length + p]? = _
          rw [List.getElem?_append_right (by rw [h.len3]; omega), h.len3, Nat.add_sub_cancel_left, starts_get dim s.vars 0 p hpl]
          simp
      · show L.n = total dim ((L.x ++ s.vars).take L.x.length)
        rw [List.take_append_of_le_length le_rfl, List.take_length, h.n]
      · rfl
      · intro ci hci
        show CGood s.vars ((L.x ++ s.vars).take (L.x.length + s.vars.length)) L.x.length (L.x ++ s.vars) _ ci
        rw [List.take_of_length_le (by simp)]
        exact h5 ci hci
  · rw [hsub, List.map_append, List.map_append, h.shapes]
    congr 1
    simp only [List.map_cons, List.map_nil, List.cons.injEq, Prod.mk.injEq, and_true, true_and]
    have := congrArg (List.map Prod.fst) h3
    rw [List.map_map] at this
    have e2 : (s.cstrs.zipIdx L.nc).map Prod.fst = s.cstrs := by simp
    rw [e2] at this
    exact this
  · rw [hsub]
    simp only [List.flatMap_append, List.map_append, List.flatMap_cons, List.flatMap_nil, List.append_nil]
    rw [h.cstrs, h3, List.zipIdx_append, Nat.zero_add, h.nc]
  · show (s.cstrs.foldl (scanCstr s (L.x ++ s.vars)) (L.y, [], L.nc)).2.2 = _
    rw [h4]; simp [h.nc]
  · intro v hv
    rcases h8 v hv with hv' | ⟨c, hc, hvc, hvx⟩
    · obtain ⟨k, t, ht, hci, hn⟩ := h.y v hv'
      refine ⟨k, t, get_prefix hs ht, hci, ?_⟩
      rw [take_prefix hx (h.good k t ht).len]
      exact hn
    · refine ⟨L.subs.length, _, by rw [hsub, List.getElem?_append_right le_rfl]; simp; rfl, ?_, ?_⟩
      · have hcs : c ∈ is.map (·.shape) := by
          have := congrArg (List.map Prod.fst) h3
          rw [List.map_map] at this
          have e2 : (s.cstrs.zipIdx L.nc).map Prod.fst = s.cstrs := by simp
          rw [e2] at this
          have e3 : is.map (·.shape) = s.cstrs := this
          rw [e3]; exact hc
        obtain ⟨ci, hci, rfl⟩ := List.mem_map.mp hcs
        exact ⟨ci, hci, hvc⟩
      · show v ∉ (L.x ++ s.vars).take (L.x.length + s.vars.length)
        rw [List.take_of_length_le (by simp)]
        exact hvx

theorem linv_fold (dim : Nat → Nat) (rest : List SShape) : ∀ (done : List SShape) (L : Layout), LInv dim done L → LInv dim (done ++ rest) (rest.foldl (scanSub dim) L) := by
  induction rest with
  | nil => intro done L h; simpa using h
  | cons s rest ih =>
    intro done L h
    have := ih (done ++ [s]) _ (linv_step dim done L h s)
    simpa using this

theorem linv_scan (dim : Nat → Nat) (ss : List SShape) : LInv dim ss (scan dim ss) := by
  have := linv_fold dim ss [] ⟨[], [], [], [], [], 0, 0⟩ ⟨rfl, rfl, rfl, rfl, by simp, rfl, rfl, rfl, by simp⟩
  rw [List.nil_append] at this
  exact this

/-! ## Consequences -/

theorem LInv.x0_succ {dim : Nat → Nat} {ss : List SShape} {L : Layout} (h : LInv dim ss L) {k : Nat} {s t : SInfo} (hs : L.subs[k]? = some s) (ht : L.subs[k + 1]? = some t) :
    t.x0 = s.x0 + s.vars.length ∧ t.n0 = s.n0 + s.n := by
  have e1 : t.x0 = s.x0 + s.vars.length := by
    rw [(h.good _ _ ht).x0, (h.good _ _ hs).x0, List.take_add_one, hs]
    simp
  refine ⟨e1, ?_⟩
  rw [(h.good _ _ ht).n0, (h.good _ _ hs).n0, (h.good _ _ hs).n, e1, List.take_add, total_append]
  congr 2
  apply List.ext_getElem?
  intro p
  by_cases hp : p < s.vars.length
  · have hv : s.vars[p]? = some s.vars[p] := List.getElem?_eq_getElem hp
    rw [List.getElem?_take, if_pos hp, List.getElem?_drop, ((h.good _ _ hs).at_ p _ hv).1, hv]
  · rw [List.getElem?_eq_none (by rw [List.length_take]; omega), List.getElem?_eq_none (by omega)]

/-- Every substituted variable before the first one of a substitution is of a preceding substitution. -/
theorem LInv.cover {dim : Nat → Nat} {ss : List SShape} {L : Layout} (h : LInv dim ss L) (k : Nat) : ∀ l, l < ((L.subs.take k).flatMap (·.vars)).length →
    ∃ (k' : Nat) (s : SInfo) (p : Nat) (v : Nat), k' < k ∧ L.subs[k']? = some s ∧ s.vars[p]? = some v ∧ l = s.x0 + p := by
  induction k with
  | zero => intro l hl; simp at hl
  | succ k ih =>
    intro l hl
    by_cases hk : k < L.subs.length
    · have hs : L.subs[k]? = some L.subs[k] := List.getElem?_eq_getElem hk
      rw [List.take_add_one, hs, List.flatMap_append, List.length_append] at hl
      by_cases hl' : l < ((L.subs.take k).flatMap (·.vars)).length
      · obtain ⟨k', s, p, v, a, b⟩ := ih l hl'
        exact ⟨k', s, p, v, by omega, b⟩
      · have hx0 := (h.good k _ hs).x0
        have hp : l - L.subs[k].x0 < L.subs[k].vars.length := by
          simp only [Option.toList_some, List.flatMap_cons, List.flatMap_nil, List.append_nil] at hl
          omega
        exact ⟨k, _, l - L.subs[k].x0, _, by omega, hs, List.getElem?_eq_getElem hp, by omega⟩
    · rw [List.take_of_length_le (by omega)] at hl ih
      obtain ⟨k', s, p, v, a, b⟩ := ih l hl
      exact ⟨k', s, p, v, by omega, b⟩

theorem LInv.sub_lt {dim : Nat → Nat} {ss : List SShape} {L : Layout} (h : LInv dim ss L) {k : Nat} {s : SInfo} (hs : L.subs[k]? = some s) {l : Nat} (hl : l < s.x0) :
    L.sub l < k := by
  rw [(h.good k s hs).x0] at hl
  obtain ⟨k', t, p, v, hk', ht, hp, rfl⟩ := h.cover k l hl
  have := ((h.good k' t ht).at_ p v hp).2.1
  unfold Layout.sub
  rw [List.getD_eq_getElem?_getD, this]
  exact hk'

theorem SGood.sub {dim : Nat → Nat} {L : Layout} {k : Nat} {s : SInfo} (h : SGood dim L k s) {p v : Nat} (hp : s.vars[p]? = some v) :
    L.sub (s.x0 + p) = k ∧ L.x.getD (s.x0 + p) 0 = v ∧ L.xr.getD (s.x0 + p) 0 = total dim (s.vars.take p) ∧ xstart dim L (s.x0 + p) = s.n0 + total dim (s.vars.take p) := by
  obtain ⟨a, b, c⟩ := h.at_ p v hp
  have hpl := (List.getElem?_eq_some_iff.mp hp).1
  refine ⟨?_, ?_, ?_, ?_⟩
  · unfold Layout.sub; rw [List.getD_eq_getElem?_getD, b]; rfl
  · rw [List.getD_eq_getElem?_getD, a]; rfl
  · rw [List.getD_eq_getElem?_getD, c]; rfl
  · unfold xstart
    rw [h.n0, List.take_add, total_append]
    congr 2
    apply List.ext_getElem?
    intro i
    by_cases hi : i < p
    · have hil : i < s.vars.length := by omega
      have hv : s.vars[i]? = some s.vars[i] := List.getElem?_eq_getElem hil
      rw [List.getElem?_take, if_pos hi, List.getElem?_drop, (h.at_ i _ hv).1, List.getElem?_take, if_pos hi, hv]
    · rw [List.getElem?_eq_none (by rw [List.length_take]; omega), List.getElem?_eq_none (by rw [List.length_take]; omega)]

/-! ## The dependencies -/

/-- The dependencies of a substitution on `y_`, given those of the preceding ones -/
def syOf (L : Layout) (D : Deps) (s : SInfo) : List Nat :=
  (List.range L.y.length).filter fun j => s.cs.any fun ci => decide (j ∈ ci.ys) || ci.xs.any fun l => decide (j ∈ XY L D l)
def szOf (L : Layout) (D : Deps) (s : SInfo) : List Nat :=
  (List.range L.subs.length).filter fun j => s.cs.any fun ci => ci.xs.any fun l => decide (j ∈ XZ L D l)

theorem sy_congr (L : Layout) (D E : Deps) (s : SInfo) (h : ∀ ci ∈ s.cs, ∀ l ∈ ci.xs, D.sy (L.sub l) = E.sy (L.sub l)) : syOf L D s = syOf L E s := by
  unfold syOf
  apply List.filter_congr
  intro j _
  rw [Bool.eq_iff_iff]
  simp only [List.any_eq_true, Bool.or_eq_true, decide_eq_true_eq]
  have h' : ∀ ci ∈ s.cs, ∀ l ∈ ci.xs, XY L D l = XY L E l := h
  constructor
  · rintro ⟨ci, hci, h1 | ⟨l, hl, h1⟩⟩
    · exact ⟨ci, hci, .inl h1⟩
    · exact ⟨ci, hci, .inr ⟨l, hl, by rw [← h' ci hci l hl]; exact h1⟩⟩
  · rintro ⟨ci, hci, h1 | ⟨l, hl, h1⟩⟩
    · exact ⟨ci, hci, .inl h1⟩
    · exact ⟨ci, hci, .inr ⟨l, hl, by rw [h' ci hci l hl]; exact h1⟩⟩

theorem sz_congr (L : Layout) (D E : Deps) (s : SInfo) (h : ∀ ci ∈ s.cs, ∀ l ∈ ci.xs, D.sz (L.sub l) = E.sz (L.sub l)) : szOf L D s = szOf L E s := by
  unfold szOf
  apply List.filter_congr
  intro j _
  rw [Bool.eq_iff_iff]
  simp only [List.any_eq_true, decide_eq_true_eq]
  have h' : ∀ ci ∈ s.cs, ∀ l ∈ ci.xs, XZ L D l = XZ L E l := by
    intro ci hci l hl
    unfold XZ; rw [h ci hci l hl]
  constructor
  · rintro ⟨ci, hci, l, hl, h1⟩
    exact ⟨ci, hci, l, hl, by rw [← h' ci hci l hl]; exact h1⟩
  · rintro ⟨ci, hci, l, hl, h1⟩
    exact ⟨ci, hci, l, hl, by rw [h' ci hci l hl]; exact h1⟩

theorem deps_fold (L : Layout) (subs : List SInfo) : ∀ (D : Deps) (k : Nat),
    (∀ (i : Nat) (s : SInfo), subs[i]? = some s → s.idx = k + i ∧ ∀ ci ∈ s.cs, ∀ l ∈ ci.xs, L.sub l < k + i) →
    (∀ j < k, (subs.foldl (depStep L) D).sy j = D.sy j ∧ (subs.foldl (depStep L) D).sz j = D.sz j) ∧
    ∀ (i : Nat) (s : SInfo), subs[i]? = some s → (subs.foldl (depStep L) D).sy (k + i) = syOf L (subs.foldl (depStep L) D) s ∧
      (subs.foldl (depStep L) D).sz (k + i) = szOf L (subs.foldl (depStep L) D) s := by
  induction subs with
  | nil => intro D k _; exact ⟨fun _ _ => ⟨rfl, rfl⟩, by simp⟩
  | cons t subs ih =>
    intro D k h
    have h0 := h 0 t (by simp)
    obtain ⟨g1, g2⟩ := ih (depStep L D t) (k + 1) (by
      intro i s hs
      have := h (i + 1) s (by simpa using hs)
      refine ⟨by omega, fun ci hci l hl => ?_⟩
      have := this.2 ci hci l hl
      omega)
    simp only [List.foldl_cons]
    have hlow : ∀ j < k, (subs.foldl (depStep L) (depStep L D t)).sy j = D.sy j ∧ (subs.foldl (depStep L) (depStep L D t)).sz j = D.sz j := by
      intro j hj
      obtain ⟨a, b⟩ := g1 j (by omega)
      rw [a, b]
      have hne : j ≠ t.idx := by omega
      simp only [depStep]
      rw [if_neg hne, if_neg hne]
      exact ⟨rfl, rfl⟩
    refine ⟨hlow, ?_⟩
    intro i s hs
    cases i with
    | zero =>
      simp only [List.getElem?_cons_zero, Option.some.injEq] at hs
      subst hs
      obtain ⟨a, b⟩ := g1 k (by omega)
      rw [Nat.add_zero, a, b]
      have he : k = t.idx := by omega
      constructor
      · rw [sy_congr L _ D t fun ci hci l hl => (hlow _ (h0.2 ci hci l hl)).1]
        simp only [depStep]; rw [if_pos he]; rfl
      · rw [sz_congr L _ D t fun ci hci l hl => (hlow _ (h0.2 ci hci l hl)).2]
        simp only [depStep]; rw [if_pos he]; rfl
    | succ i =>
      have := g2 i s (by simpa using hs)
      rwa [show k + 1 + i = k + (i + 1) by omega] at this

theorem deps_eq {dim : Nat → Nat} {ss : List SShape} {L : Layout} (h : LInv dim ss L) {k : Nat} {s : SInfo} (hs : L.subs[k]? = some s) :
    (deps L).sy k = syOf L (deps L) s ∧ (deps L).sz k = szOf L (deps L) s := by
  have := (deps_fold L L.subs ⟨fun _ => [], fun _ => []⟩ 0 (by
    intro i t ht
    refine ⟨by rw [(h.good i t ht).idx]; omega, fun ci hci l hl => ?_⟩
    have := h.sub_lt ht (((h.good i t ht).cs ci hci).xlt l hl)
    omega)).2 k s hs
  rwa [Nat.zero_add] at this

theorem deps_mem {dim : Nat → Nat} {ss : List SShape} {L : Layout} (h : LInv dim ss L) {k : Nat} {s : SInfo} (hs : L.subs[k]? = some s) :
    ((deps L).sy k).Nodup ∧ ((deps L).sz k).Nodup ∧
    (∀ ci ∈ s.cs, ∀ j ∈ ci.ys, j ∈ (deps L).sy k) ∧
    (∀ ci ∈ s.cs, ∀ l ∈ ci.xs, ∀ j ∈ XY L (deps L) l, j ∈ (deps L).sy k) ∧
    (∀ j ∈ (deps L).sz k, j < k) ∧
    (∀ ci ∈ s.cs, ∀ l ∈ ci.xs, ∀ j ∈ XZ L (deps L) l, j ∈ (deps L).sz k) := by
  induction k using Nat.strongRecOn generalizing s with
  | _ k ih =>
    have hkl := (List.getElem?_eq_some_iff.mp hs).1
    obtain ⟨e1, e2⟩ := deps_eq h hs
    have hlt : ∀ ci ∈ s.cs, ∀ l ∈ ci.xs, ∃ t, L.sub l < k ∧ L.subs[L.sub l]? = some t := by
      intro ci hci l hl
      have := h.sub_lt hs (((h.good k s hs).cs ci hci).xlt l hl)
      exact ⟨_, this, List.getElem?_eq_getElem (by omega)⟩
    have hy : ∀ j ∈ (deps L).sy k, j < L.y.length := by
      intro j hj; rw [e1] at hj; simp only [syOf, List.mem_filter, List.mem_range] at hj; exact hj.1
    have hxz : ∀ ci ∈ s.cs, ∀ l ∈ ci.xs, ∀ j ∈ XZ L (deps L) l, j < k := by
      intro ci hci l hl j hj
      obtain ⟨t, ht1, ht2⟩ := hlt ci hci l hl
      simp only [XZ, List.mem_append] at hj
      rcases hj with hj | hj
      · have := (ih _ ht1 ht2).2.2.2.2.1 j hj
        omega
      · by_cases hz : 0 < L.zdim (L.sub l)
        · rw [if_pos hz] at hj; simp at hj; omega
        · rw [if_neg hz] at hj; simp at hj
    refine ⟨?_, ?_, ?_, ?_, ?_, ?_⟩
    · rw [e1]; exact List.nodup_range.filter _
    · rw [e2]; exact List.nodup_range.filter _
    · intro ci hci j hj
      rw [e1]
      simp only [syOf, List.mem_filter, List.mem_range, List.any_eq_true, Bool.or_eq_true, decide_eq_true_eq]
      exact ⟨((h.good k s hs).cs ci hci).ylt j hj, ci, hci, .inl hj⟩
    · intro ci hci l hl j hj
      rw [e1]
      simp only [syOf, List.mem_filter, List.mem_range, List.any_eq_true, Bool.or_eq_true, decide_eq_true_eq]
      refine ⟨?_, ci, hci, .inr ⟨l, hl, hj⟩⟩
      obtain ⟨t, ht1, ht2⟩ := hlt ci hci l hl
      have e := (deps_eq h ht2).1
      unfold XY at hj
      rw [e] at hj
      simp only [syOf, List.mem_filter, List.mem_range] at hj
      exact hj.1
    · intro j hj
      rw [e2] at hj
      simp only [szOf, List.mem_filter, List.any_eq_true, decide_eq_true_eq] at hj
      obtain ⟨_, ci, hci, l, hl, hj⟩ := hj
      exact hxz ci hci l hl j hj
    · intro ci hci l hl j hj
      rw [e2]
      simp only [szOf, List.mem_filter, List.mem_range, List.any_eq_true, decide_eq_true_eq]
      have := hxz ci hci l hl j hj
      exact ⟨by omega, ci, hci, l, hl, hj⟩

end Verif.SU
