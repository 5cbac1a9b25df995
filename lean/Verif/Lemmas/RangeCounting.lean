import Verif.Model.RangeCounting
/-!
# Helper lemmas on the limits of a `RangeCounting`
-/
set_option autoImplicit false

namespace Verif.RC
open Verif

set_option linter.unusedSimpArgs false

/-- Number of lower limits minus number of upper limits at or before `k`. -/
def cnt : List Limit → Int → Int
  | [], _ => 0
  | x :: l, k => (if x.i ≤ k then - x.t.val else 0) + cnt l k

/-- Number of lower limits minus number of upper limits. -/
def dep : List Limit → Int
  | [] => 0
  | x :: l => - x.t.val + dep l

@[simp] theorem cnt_nil (k) : cnt [] k = 0 := rfl
@[simp] theorem dep_nil : dep [] = 0 := rfl
theorem cnt_cons (x l k) : cnt (x :: l) k = (if x.i ≤ k then - x.t.val else 0) + cnt l k := rfl
theorem dep_cons (x l) : dep (x :: l) = - x.t.val + dep l := rfl

theorem cnt_append (a b k) : cnt (a ++ b) k = cnt a k + cnt b k := by
  induction a with
  | nil => simp
  | cons x a ih => simp only [List.cons_append, cnt_cons, ih]; omega

theorem dep_append (a b) : dep (a ++ b) = dep a + dep b := by
  induction a with
  | nil => simp
  | cons x a ih => simp only [List.cons_append, dep_cons, ih]; omega

theorem cnt_reverse (a k) : cnt a.reverse k = cnt a k := by
  induction a with
  | nil => rfl
  | cons x a ih => simp only [List.reverse_cons, cnt_append, ih, cnt_cons, cnt_nil]; omega

theorem dep_reverse (a) : dep a.reverse = dep a := by
  induction a with
  | nil => rfl
  | cons x a ih => simp only [List.reverse_cons, dep_append, ih, dep_cons, dep_nil]; omega

/-- Propositional order on limits. -/
def Le (a b : Limit) : Prop := a.i < b.i ∨ (a.i = b.i ∧ a.t.val ≤ b.t.val)

theorem le_iff (a b : Limit) : a.le b = true ↔ Le a b := by
  simp [Limit.le, Le]

theorem not_le_iff (a b : Limit) : ¬ a.le b = true ↔ (b.i < a.i ∨ (b.i = a.i ∧ b.t.val < a.t.val)) := by
  rw [le_iff, Le]; omega

theorem val_cases (t : LType) : (t = .lower ∧ t.val = -1) ∨ (t = .cut ∧ t.val = 0) ∨
    (t = .upper ∧ t.val = 1) := by cases t <;> simp [LType.val]

@[simp] theorem val_lower : LType.lower.val = -1 := rfl
@[simp] theorem val_cut : LType.cut.val = 0 := rfl
@[simp] theorem val_upper : LType.upper.val = 1 := rfl

/-- Structural invariant: rules (1), (2), and (3)-(4) of RangeCounting.h, lines 46-52. -/
structure Str (L : List Limit) : Prop where
  sorted : L.Pairwise Le
  cuts : L.Pairwise (fun a b => ¬ (a = b ∧ a.t = .cut))
  excl : ∀ a ∈ L, ∀ b ∈ L, a.i = b.i → a.t = .lower → b.t = .upper → False

/-- Full invariant. -/
structure Inv (L : List Limit) : Prop extends Str L where
  nonneg : ∀ k, 0 ≤ cnt L k
  total : dep L = 0
  cutDepth : ∀ c ∈ L, c.t = .cut → 1 ≤ cnt L (c.i - 1) ∨ 1 ≤ cnt L c.i

theorem cnt_eq_dep_of_le {p : List Limit} {k : Int} (h : ∀ y ∈ p, y.i ≤ k) : cnt p k = dep p := by
  induction p with
  | nil => rfl
  | cons x p ih =>
    have h1 := h x (by simp)
    have h2 := ih (fun y hy => h y (by simp [hy]))
    simp only [cnt_cons, dep_cons, h2, if_pos h1]

theorem cnt_eq_zero_of_gt {p : List Limit} {k : Int} (h : ∀ y ∈ p, k < y.i) : cnt p k = 0 := by
  induction p with
  | nil => rfl
  | cons x p ih =>
    have h1 := h x (by simp)
    have h2 := ih (fun y hy => h y (by simp [hy]))
    simp only [cnt_cons, h2, if_neg (Int.not_le.mpr h1)]; omega

theorem cnt_le_dep {p : List Limit} {k : Int} (h : ∀ y ∈ p, k < y.i → y.t ≠ .upper) :
    cnt p k ≤ dep p := by
  induction p with
  | nil => simp
  | cons x p ih =>
    have h1 := h x (by simp)
    have h2 := ih (fun y hy => h y (by simp [hy]))
    simp only [cnt_cons, dep_cons]
    rcases val_cases x.t with ⟨ht, hv⟩ | ⟨ht, hv⟩ | ⟨ht, hv⟩ <;> split <;> first | omega | skip
    exact absurd ht (h1 (by omega))

theorem dep_le_cnt {p : List Limit} {k : Int} (h : ∀ y ∈ p, k < y.i → y.t ≠ .lower) :
    dep p ≤ cnt p k := by
  induction p with
  | nil => simp
  | cons x p ih =>
    have h1 := h x (by simp)
    have h2 := ih (fun y hy => h y (by simp [hy]))
    simp only [cnt_cons, dep_cons]
    rcases val_cases x.t with ⟨ht, hv⟩ | ⟨ht, hv⟩ | ⟨ht, hv⟩ <;> split <;> first | omega | skip
    exact absurd ht (h1 (by omega))

theorem cnt_nonneg {p : List Limit} {k : Int} (h : ∀ y ∈ p, y.i ≤ k → y.t ≠ .upper) :
    0 ≤ cnt p k := by
  induction p with
  | nil => simp
  | cons x p ih =>
    have h1 := h x (by simp)
    have h2 := ih (fun y hy => h y (by simp [hy]))
    simp only [cnt_cons]
    rcases val_cases x.t with ⟨ht, hv⟩ | ⟨ht, hv⟩ | ⟨ht, hv⟩ <;> split <;> first | omega | skip
    exact absurd ht (h1 (by omega))

theorem cnt_nonpos {p : List Limit} {k : Int} (h : ∀ y ∈ p, y.i ≤ k → y.t ≠ .lower) :
    cnt p k ≤ 0 := by
  induction p with
  | nil => simp
  | cons x p ih =>
    have h1 := h x (by simp)
    have h2 := ih (fun y hy => h y (by simp [hy]))
    simp only [cnt_cons]
    rcases val_cases x.t with ⟨ht, hv⟩ | ⟨ht, hv⟩ | ⟨ht, hv⟩ <;> split <;> first | omega | skip
    exact absurd ht (h1 (by omega))

/-- A sorted list can be split at any integer; the depth of the first part is the count. -/
theorem split_at {L : List Limit} (hs : L.Pairwise Le) (k : Int) :
    ∃ p q, L = p ++ q ∧ (∀ y ∈ p, y.i ≤ k) ∧ (∀ y ∈ q, k < y.i) ∧ cnt L k = dep p := by
  induction L with
  | nil => exact ⟨[], [], by simp⟩
  | cons x L ih =>
    rw [List.pairwise_cons] at hs
    by_cases hx : x.i ≤ k
    · obtain ⟨p, q, rfl, hp, hq, hc⟩ := ih hs.2
      refine ⟨x :: p, q, rfl, ?_, hq, ?_⟩
      · intro y hy
        rcases List.mem_cons.mp hy with rfl | hy
        · exact hx
        · exact hp y hy
      · simp only [cnt_cons, dep_cons, hc, if_pos hx]
    · have hall : ∀ y ∈ x :: L, k < y.i := by
        intro y hy
        rcases List.mem_cons.mp hy with rfl | hy
        · omega
        · have := hs.1 y hy; unfold Le at this; omega
      exact ⟨[], x :: L, rfl, by simp, hall, by simp [cnt_eq_zero_of_gt hall]⟩

section prefixes
variable {p q : List Limit} {x : Limit}

theorem Str.pre_le (h : Str (p ++ x :: q)) : ∀ y ∈ p, Le y x := by
  have := h.sorted
  rw [List.pairwise_append] at this
  exact fun y hy => this.2.2 y hy x (by simp)

theorem Str.le_post (h : Str (p ++ x :: q)) : ∀ y ∈ q, Le x y := by
  have := h.sorted
  rw [List.pairwise_append, List.pairwise_cons] at this
  exact this.2.1.1

/-- Depth before a lower limit. -/
theorem Str.depth_lower (h : Str (p ++ x :: q)) (hx : x.t = .lower) :
    cnt (p ++ x :: q) (x.i - 1) ≤ dep p ∧ dep p + 1 ≤ cnt (p ++ x :: q) x.i := by
  have hv : x.t.val = -1 := by rw [hx]; rfl
  constructor
  · rw [cnt_append]
    have h1 : cnt p (x.i - 1) ≤ dep p := cnt_le_dep (by
      intro y hy hk hu
      have := h.pre_le y hy
      have hu' : y.t.val = 1 := by rw [hu]; rfl
      unfold Le at this; omega)
    have h2 : cnt (x :: q) (x.i - 1) = 0 := cnt_eq_zero_of_gt (by
      intro y hy
      rcases List.mem_cons.mp hy with rfl | hy
      · omega
      · have := h.le_post y hy; unfold Le at this; omega)
    omega
  · rw [cnt_append, cnt_cons]
    have h1 : cnt p x.i = dep p := cnt_eq_dep_of_le (by
      intro y hy
      have := h.pre_le y hy
      unfold Le at this; omega)
    have h2 : 0 ≤ cnt q x.i := cnt_nonneg (by
      intro y hy hk hu
      have h3 := h.le_post y hy
      exact h.excl x (by simp) y (by simp [hy]) (by unfold Le at h3; omega) hx hu)
    rw [if_pos (by omega)]; omega

/-- Depth before an upper limit. -/
theorem Str.depth_upper (h : Str (p ++ x :: q)) (hx : x.t = .upper) :
    cnt (p ++ x :: q) x.i ≤ dep p - 1 ∧ dep p ≤ cnt (p ++ x :: q) (x.i - 1) := by
  have hv : x.t.val = 1 := by rw [hx]; rfl
  constructor
  · rw [cnt_append, cnt_cons]
    have h1 : cnt p x.i = dep p := cnt_eq_dep_of_le (by
      intro y hy
      have := h.pre_le y hy
      unfold Le at this; omega)
    have h2 : cnt q x.i ≤ 0 := cnt_nonpos (by
      intro y hy hk hu
      have h3 := h.le_post y hy
      unfold Le at h3
      exact h.excl y (by simp [hy]) x (by simp) (by omega) hu hx)
    rw [if_pos (by omega)]; omega
  · rw [cnt_append]
    have h1 : dep p ≤ cnt p (x.i - 1) := dep_le_cnt (by
      intro y hy hk hu
      have h3 := h.pre_le y hy
      unfold Le at h3
      exact h.excl y (by simp [hy]) x (by simp) (by omega) hu hx)
    have h2 : cnt (x :: q) (x.i - 1) = 0 := cnt_eq_zero_of_gt (by
      intro y hy
      rcases List.mem_cons.mp hy with rfl | hy
      · omega
      · have := h.le_post y hy; unfold Le at this; omega)
    omega

/-- Depth before a cut. -/
theorem Str.depth_cut (h : Str (p ++ x :: q)) (hx : x.t = .cut) :
    cnt (p ++ x :: q) x.i ≤ dep p ∧ cnt (p ++ x :: q) (x.i - 1) ≤ dep p ∧
    (dep p = cnt (p ++ x :: q) x.i ∨ dep p = cnt (p ++ x :: q) (x.i - 1)) := by
  have hv : x.t.val = 0 := by rw [hx]; rfl
  have hp : ∀ y ∈ p, y.i < x.i ∨ (y.i = x.i ∧ y.t = .lower) := by
    intro y hy
    have h3 := h.pre_le y hy
    have h4 := h.cuts
    rw [List.pairwise_append] at h4
    have h5 := h4.2.2 y hy x (by simp)
    unfold Le at h3
    rcases val_cases y.t with ⟨ht, hv'⟩ | ⟨ht, hv'⟩ | ⟨ht, hv'⟩
    · simp only [ht, and_true]; omega
    · by_cases hi : y.i = x.i
      · exfalso; apply h5
        obtain ⟨yi, yt⟩ := y; obtain ⟨xi, xt⟩ := x
        simp_all
      · left; omega
    · left; omega
  have hq : ∀ y ∈ q, x.i < y.i ∨ (y.i = x.i ∧ y.t = .upper) := by
    intro y hy
    have h3 := h.le_post y hy
    have h4 := h.cuts
    rw [List.pairwise_append, List.pairwise_cons] at h4
    have h5 := h4.2.1.1 y hy
    unfold Le at h3
    rcases val_cases y.t with ⟨ht, hv'⟩ | ⟨ht, hv'⟩ | ⟨ht, hv'⟩
    · left; omega
    · by_cases hi : y.i = x.i
      · exfalso; apply h5
        obtain ⟨yi, yt⟩ := y; obtain ⟨xi, xt⟩ := x
        simp_all
      · left; omega
    · simp only [ht, and_true]; omega
  have e1 : cnt p x.i = dep p := cnt_eq_dep_of_le (fun y hy => by have := hp y hy; omega)
  have e2 : cnt (x :: q) (x.i - 1) = 0 := cnt_eq_zero_of_gt (by
      intro y hy
      rcases List.mem_cons.mp hy with rfl | hy
      · omega
      · have := hq y hy; omega)
  have e3 : cnt p (x.i - 1) ≤ dep p := cnt_le_dep (by
      intro y hy hk hu
      rcases hp y hy with h | ⟨_, h⟩
      · omega
      · rw [hu] at h; cases h)
  have e4 : cnt q x.i ≤ 0 := cnt_nonpos (by
      intro y hy hk hu
      rcases hq y hy with h | ⟨_, h⟩
      · omega
      · rw [hu] at h; cases h)
  rw [cnt_append, cnt_append, cnt_cons, if_pos (by omega), e2]
  refine ⟨by omega, by omega, ?_⟩
  by_cases hl : ∃ y ∈ p, y.i = x.i
  · left
    have : cnt q x.i = 0 := by
      obtain ⟨y, hy, hyi⟩ := hl
      have hyl : y.t = .lower := by
        rcases hp y hy with h | ⟨_, h⟩
        · omega
        · exact h
      apply cnt_eq_zero_of_gt
      intro z hz
      rcases hq z hz with h' | ⟨hzi, hzu⟩
      · exact h'
      · exact (h.excl y (by simp [hy]) z (by simp [hz]) (by omega) hyl hzu).elim
    omega
  · right
    have : cnt p (x.i - 1) = dep p := cnt_eq_dep_of_le (by
      intro y hy
      rcases hp y hy with h' | ⟨h', _⟩
      · omega
      · exact (hl ⟨y, hy, h'⟩).elim)
    omega

end prefixes

/-- Specification of `moveToFirstAfter`. -/
theorem move_spec (val : Limit) (c : Int) (pre post : List Limit) (d : Int) (hit : Bool) :
    match moveToFirstAfter val c pre post d hit with
    | none => ∃ m x r, post = m ++ x :: r ∧ (∀ y ∈ m ++ [x], Le y val) ∧ d + dep m - x.t.val < c
    | some (pre', post', d', hit') =>
      ∃ mid, post = mid ++ post' ∧ pre' = mid.reverse ++ pre ∧ d' = d + dep mid ∧
        (∀ y ∈ mid, Le y val) ∧ (∀ y r, post' = y :: r → ¬ y.le val = true) ∧
        (∀ m x r, mid = m ++ x :: r → c ≤ d + dep m - x.t.val) ∧
        (hit' = true ↔ hit = true ∨ ∃ m x r, mid = m ++ x :: r ∧ d + dep m - x.t.val = c) := by
  induction post generalizing pre d hit with
  | nil =>
    simp only [moveToFirstAfter]
    exact ⟨[], by simp⟩
  | cons x post ih =>
    unfold moveToFirstAfter
    by_cases hx : x.le val = true
    · simp only [hx, if_true]
      by_cases hd : d - x.t.val < c
      · simp only [hd, if_true]
        refine ⟨[], x, post, rfl, ?_, by simpa using hd⟩
        simp [← le_iff, hx]
      · simp only [hd, if_false]
        have := ih (x :: pre) (d - x.t.val) (if d - x.t.val = c then true else hit)
        split
        · rename_i heq
          rw [heq] at this
          obtain ⟨m, y, r, rfl, h1, h2⟩ := this
          refine ⟨x :: m, y, r, rfl, ?_, by simp only [dep_cons]; omega⟩
          intro z hz
          simp only [List.cons_append, List.mem_cons] at hz
          rcases hz with rfl | hz
          · exact (le_iff _ _).mp hx
          · exact h1 z hz
        · rename_i pre' post' d' hit' heq
          rw [heq] at this
          obtain ⟨mid, rfl, rfl, h3, h4, h5, h6, h7⟩ := this
          refine ⟨x :: mid, rfl, by simp, by simp only [dep_cons]; omega, ?_, h5, ?_, ?_⟩
          · intro z hz
            rcases List.mem_cons.mp hz with rfl | hz
            · exact (le_iff _ _).mp hx
            · exact h4 z hz
          · intro m y r hm
            rcases m with _ | ⟨a, m⟩
            · simp only [List.nil_append, List.cons.injEq] at hm
              obtain ⟨rfl, rfl⟩ := hm
              simp; omega
            · simp only [List.cons_append, List.cons.injEq] at hm
              obtain ⟨rfl, hm⟩ := hm
              have := h6 m y r hm
              simp only [dep_cons]; omega
          · rw [h7]
            constructor
            · rintro (h | ⟨m, y, r, rfl, h⟩)
              · split at h
                · rename_i h'
                  exact Or.inr ⟨[], x, mid, rfl, by simp; omega⟩
                · exact Or.inl h
              · exact Or.inr ⟨x :: m, y, r, rfl, by simp only [dep_cons]; omega⟩
            · rintro (h | ⟨m, y, r, hm, h⟩)
              · left; simp [h]
              · rcases m with _ | ⟨a, m⟩
                · simp only [List.nil_append, List.cons.injEq] at hm
                  obtain ⟨rfl, rfl⟩ := hm
                  left; simp only [dep_nil] at h; rw [if_pos (by omega)]
                · simp only [List.cons_append, List.cons.injEq] at hm
                  obtain ⟨rfl, hm⟩ := hm
                  right
                  exact ⟨m, y, r, hm, by simp only [dep_cons] at h; omega⟩
    · simp only [hx]
      exact ⟨[], by simp [hx]⟩

theorem dropCuts_sublist (d : Int) (l : List Limit) : (dropCuts d l).Sublist l := by
  induction l generalizing d with
  | nil => simp [dropCuts]
  | cons x l ih =>
    unfold dropCuts
    simp only
    split
    · exact (ih _).cons _
    · exact (ih _).cons_cons _

theorem Str.sublist {L L' : List Limit} (h : Str L) (hs : L'.Sublist L) : Str L' where
  sorted := h.sorted.sublist hs
  cuts := h.cuts.sublist hs
  excl := fun a ha b hb => h.excl a (hs.subset ha) b (hs.subset hb)

theorem dropCuts_cnt (d : Int) (l : List Limit) (k : Int) : cnt (dropCuts d l) k = cnt l k := by
  induction l generalizing d with
  | nil => rfl
  | cons x l ih =>
    unfold dropCuts
    simp only
    split
    · rename_i h
      simp only [Bool.and_eq_true, decide_eq_true_eq] at h
      rw [ih, cnt_cons, h.2]; simp [LType.val]
    · rw [cnt_cons, cnt_cons, ih]

theorem dropCuts_dep (d : Int) (l : List Limit) : dep (dropCuts d l) = dep l := by
  induction l generalizing d with
  | nil => rfl
  | cons x l ih =>
    unfold dropCuts
    simp only
    split
    · rename_i h
      simp only [Bool.and_eq_true, decide_eq_true_eq] at h
      rw [ih, dep_cons, h.2]; simp [LType.val]
    · rw [dep_cons, dep_cons, ih]

theorem dropCuts_cut (d : Int) (l : List Limit) (c : Limit) (hc : c ∈ dropCuts d l) (ht : c.t = .cut) :
    ∃ p q, l = p ++ c :: q ∧ d + dep p ≠ 0 := by
  induction l generalizing d with
  | nil => simp [dropCuts] at hc
  | cons x l ih =>
    unfold dropCuts at hc
    simp only at hc
    have key : c ∈ dropCuts (d - x.t.val) l → ∃ p q, x :: l = p ++ c :: q ∧ d + dep p ≠ 0 := by
      intro hc
      obtain ⟨p, q, rfl, h⟩ := ih _ hc
      exact ⟨x :: p, q, rfl, by simp only [dep_cons]; omega⟩
    split at hc
    · exact key hc
    · rename_i h
      rcases List.mem_cons.mp hc with rfl | hc
      · refine ⟨[], l, rfl, ?_⟩
        simp only [ht, LType.val, decide_true, Bool.and_true, decide_eq_true_eq] at h
        simp only [dep_nil]; omega
      · exact key hc

theorem Str.insert {p q : List Limit} {v : Limit} (h : Str (p ++ q)) (hp : ∀ y ∈ p, Le y v)
    (hq : ∀ y ∈ q, Le v y) (hc : v.t = .cut → v ∉ p ++ q)
    (hl : v.t = .lower → ∀ y ∈ p ++ q, y.i = v.i → y.t ≠ .upper)
    (hu : v.t = .upper → ∀ y ∈ p ++ q, y.i = v.i → y.t ≠ .lower) : Str (p ++ v :: q) where
  sorted := by
    have h1 := h.sorted
    rw [List.pairwise_append] at h1 ⊢
    rw [List.pairwise_cons]
    refine ⟨h1.1, ⟨hq, h1.2.1⟩, ?_⟩
    intro a ha b hb
    rcases List.mem_cons.mp hb with rfl | hb
    · exact hp a ha
    · exact h1.2.2 a ha b hb
  cuts := by
    have h1 := h.cuts
    rw [List.pairwise_append] at h1 ⊢
    rw [List.pairwise_cons]
    refine ⟨h1.1, ⟨?_, h1.2.1⟩, ?_⟩
    · rintro a ha ⟨rfl, ht⟩
      exact hc ht (by simp [ha])
    · intro a ha b hb
      rcases List.mem_cons.mp hb with rfl | hb
      · rintro ⟨rfl, ht⟩
        exact hc ht (by simp [ha])
      · exact h1.2.2 a ha b hb
  excl := by
    intro a ha b hb hab hal hbu
    have key : ∀ z, z ∈ p ++ v :: q → z = v ∨ z ∈ p ++ q := by
      intro z hz; simp only [List.mem_append, List.mem_cons] at hz ⊢
      rcases hz with h | h | h <;> simp [h]
    rcases key a ha with rfl | ha'
    · rcases key b hb with rfl | hb'
      · rw [hal] at hbu; cases hbu
      · exact hl hal b hb' hab.symm hbu
    · rcases key b hb with rfl | hb'
      · exact hu hbu a ha' hab hal
      · exact h.excl a ha' b hb' hab hal hbu

theorem insertLower_spec (i : Int) (pre post : List Limit) (d : Int) (hne : post ≠ [])
    (hS : Str (pre.reverse ++ post)) (hpre : ∀ y ∈ pre, Le y ⟨i, .lower⟩)
    (hpost : ∀ y ∈ post, ¬ y.le ⟨i, .lower⟩ = true) (hd : d = dep pre) :
    ∃ pre' post' d', insertLower i pre post d = some (pre', post', d') ∧
      Str (pre'.reverse ++ post') ∧
      (∀ k, cnt (pre'.reverse ++ post') k = cnt (pre.reverse ++ post) k + if i ≤ k then 1 else 0) ∧
      dep (pre'.reverse ++ post') = dep (pre.reverse ++ post) + 1 ∧ d' = dep pre' ∧
      (∀ y ∈ pre', Le y ⟨i, .cut⟩) ∧ (∀ y ∈ post', Le ⟨i, .cut⟩ y) ∧
      (∀ c ∈ pre'.reverse ++ post', c.t = .cut →
        c ∈ pre.reverse ++ post ∨ (c.i = i ∧ ⟨i, .upper⟩ ∈ pre.reverse ++ post)) ∧
      ((⟨i, .upper⟩ ∈ post → d ≠ 0) → (∃ y ∈ pre'.reverse ++ post', y.i = i) ∧
        ∀ x ∈ pre.reverse ++ post, ∃ y ∈ pre'.reverse ++ post', y.i = x.i) := by
  obtain ⟨x, post', rfl⟩ : ∃ x l, post = x :: l := by
    cases post with
    | nil => exact absurd rfl hne
    | cons x l => exact ⟨x, l, rfl⟩
  have hpreC : ∀ y ∈ pre, Le y ⟨i, .cut⟩ := by
    intro y hy
    have := hpre y hy
    simp only [Le, LType.val] at this ⊢; omega
  have hpostC : ∀ y ∈ x :: post', Le ⟨i, .cut⟩ y := by
    intro y hy
    have := hpost y hy
    rw [not_le_iff] at this
    simp only [Le, LType.val] at this ⊢; omega
  have hpostL : ∀ y ∈ x :: post', Le ⟨i, .lower⟩ y := by
    intro y hy
    have := hpostC y hy
    simp only [Le, LType.val] at this ⊢; omega
  -- result of a plain insertion
  have plain : (∀ y ∈ x :: post', y.i = i → y.t ≠ .upper) →
      Str ((⟨i, .lower⟩ :: pre).reverse ++ x :: post') ∧
      (∀ k, cnt ((⟨i, .lower⟩ :: pre).reverse ++ x :: post') k =
        cnt (pre.reverse ++ x :: post') k + if i ≤ k then 1 else 0) ∧
      dep ((⟨i, .lower⟩ :: pre).reverse ++ x :: post') = dep (pre.reverse ++ x :: post') + 1 ∧
      d + 1 = dep (⟨i, .lower⟩ :: pre) ∧
      (∀ y ∈ (⟨i, .lower⟩ : Limit) :: pre, Le y ⟨i, .cut⟩) ∧ (∀ y ∈ x :: post', Le ⟨i, .cut⟩ y) ∧
      (∀ c ∈ (⟨i, .lower⟩ :: pre).reverse ++ x :: post', c.t = .cut →
        c ∈ pre.reverse ++ x :: post' ∨ (c.i = i ∧ ⟨i, .upper⟩ ∈ pre.reverse ++ x :: post')) ∧
      ((⟨i, .upper⟩ ∈ x :: post' → d ≠ 0) →
        (∃ y ∈ (⟨i, .lower⟩ :: pre).reverse ++ x :: post', y.i = i) ∧
        ∀ z ∈ pre.reverse ++ x :: post', ∃ y ∈ (⟨i, .lower⟩ :: pre).reverse ++ x :: post', y.i = z.i) := by
    intro hnu
    refine ⟨?_, ?_, ?_, ?_, ?_, hpostC, ?_, ?_⟩
    · have := Str.insert (v := ⟨i, .lower⟩) hS (by simpa using hpre) hpostL (by simp) ?_ (by simp)
      · simpa using this
      · intro _ y hy hyi
        rcases List.mem_append.mp hy with hy | hy
        · intro hu
          have := hpre y (by simpa using hy)
          simp only [Le, LType.val, hu] at this hyi; omega
        · exact hnu y hy hyi
    · intro k
      simp only [cnt_append, cnt_reverse, cnt_cons, LType.val]; split <;> omega
    · simp only [dep_append, dep_reverse, dep_cons, LType.val]; omega
    · simp only [dep_cons, LType.val]; omega
    · intro y hy
      rcases List.mem_cons.mp hy with rfl | hy
      · simp [Le, LType.val]
      · exact hpreC y hy
    · intro c hc ht
      left
      simp only [List.reverse_cons, List.append_assoc, List.mem_append, List.mem_cons,
        List.not_mem_nil, or_false] at hc ⊢
      rcases hc with h | h | h
      · simp [h]
      · rw [h] at ht; cases ht
      · simp [h]
    · intro _
      refine ⟨⟨⟨i, .lower⟩, by simp, rfl⟩, ?_⟩
      intro z hz
      refine ⟨z, ?_, rfl⟩
      simp only [List.reverse_cons, List.append_assoc, List.mem_append, List.mem_cons,
        List.not_mem_nil, or_false] at hz ⊢
      rcases hz with h | h <;> simp [h]
  unfold insertLower
  simp only
  by_cases hi : i = x.i
  · rw [if_pos hi]
    have hxpost := hpost x (by simp)
    rw [not_le_iff] at hxpost
    split
    · -- lonely cut
      rename_i hxt
      exact ⟨_, _, _, rfl, plain (by
        intro y hy _ hu
        simp only [List.mem_cons, List.not_mem_nil, or_false] at hy
        rw [hy, hxt] at hu; cases hu)⟩
    · rename_i n post'' hxt
      split
      · -- cut followed by upper
        rename_i hn
        subst hn
        have hsub : (pre.reverse ++ x :: post'').Sublist (pre.reverse ++ x :: ⟨i, .upper⟩ :: post'') :=
          List.Sublist.append (List.Sublist.refl _) ((List.sublist_cons_self _ _).cons_cons _)
        have hsub2 : (pre.reverse ++ post'').Sublist (pre.reverse ++ x :: ⟨i, .upper⟩ :: post'') :=
          (List.Sublist.append (List.Sublist.refl _) (List.sublist_cons_self _ _)).trans hsub
        split
        · rename_i hd0
          refine ⟨_, _, _, rfl, hS.sublist hsub2, ?_, ?_, hd, hpreC, ?_, ?_, ?_⟩
          · intro k
            simp only [cnt_append, cnt_reverse, cnt_cons, LType.val, hxt]; split <;> split <;> omega
          · simp only [dep_append, dep_reverse, dep_cons, LType.val, hxt]; omega
          · intro y hy; exact hpostC y (by simp [hy])
          · intro c hc _
            exact Or.inl (hsub2.subset hc)
          · intro h; exact absurd hd0 (h (by simp))
        · refine ⟨_, _, _, rfl, ?_, ?_, ?_, ?_, ?_, ?_, ?_, ?_⟩
          · simpa using hS.sublist hsub
          · intro k
            simp only [cnt_append, cnt_reverse, cnt_cons, LType.val, hxt]; split <;> split <;> omega
          · simp only [dep_append, dep_reverse, dep_cons, LType.val, hxt]; omega
          · simp only [dep_cons, LType.val, hxt]; omega
          · intro y hy
            rcases List.mem_cons.mp hy with rfl | hy
            · simp only [Le, LType.val, hxt]; omega
            · exact hpreC y hy
          · intro y hy; exact hpostC y (by simp [hy])
          · intro c hc _
            exact Or.inl (hsub.subset (by simpa using hc))
          · intro _
            refine ⟨⟨x, by simp, hi.symm⟩, ?_⟩
            intro z hz
            simp only [List.reverse_cons, List.append_assoc, List.mem_append, List.mem_cons,
              List.not_mem_nil, or_false] at hz
            rcases hz with h | h | h | h
            · exact ⟨z, by simp [h], rfl⟩
            · exact ⟨z, by simp [h], rfl⟩
            · exact ⟨x, by simp, by rw [h]; exact hi.symm⟩
            · exact ⟨z, by simp [h], rfl⟩
      · rename_i hn
        refine ⟨_, _, _, rfl, plain ?_⟩
        intro y hy hyi hu
        have hsort := hS.sorted
        rw [List.pairwise_append, List.pairwise_cons, List.pairwise_cons] at hsort
        have hn1 := hsort.2.1.1 n (by simp)
        rcases List.mem_cons.mp hy with rfl | hy
        · rw [hxt] at hu; cases hu
        rcases List.mem_cons.mp hy with rfl | hy
        · apply hn; obtain ⟨yi, yt⟩ := y; simp_all
        · have hn2 := hsort.2.1.2.1 y hy
          have hcut := hS.cuts
          rw [List.pairwise_append, List.pairwise_cons] at hcut
          have hn3 := hcut.2.1.1 n (by simp)
          simp only [Le, hu, hxt, LType.val] at hn1 hn2
          obtain ⟨ni, nt⟩ := n
          obtain ⟨xi, xt⟩ := x
          simp only at hi hxt hn1 hn2
          subst hxt hi
          cases nt
          · simp only [LType.val] at hn1 hn2; omega
          · simp only [LType.val] at hn1 hn2
            apply hn3; simp; omega
          · simp only [LType.val] at hn1 hn2
            apply hn; simp; omega
    · rename_i hxt
      simp only [hxt, LType.val] at hxpost; omega
    · rename_i post' _ _ hxt
      have hx : x = ⟨i, .upper⟩ := by obtain ⟨xi, xt⟩ := x; simp_all
      subst hx
      have hsub : (pre.reverse ++ post').Sublist (pre.reverse ++ ⟨i, .upper⟩ :: post') :=
        List.Sublist.append (List.Sublist.refl _) (List.sublist_cons_self _ _)
      split
      · rename_i hd0
        refine ⟨_, _, _, rfl, hS.sublist hsub, ?_, ?_, hd, hpreC, ?_, ?_, ?_⟩
        · intro k
          simp only [cnt_append, cnt_reverse, cnt_cons, LType.val]; split <;> omega
        · simp only [dep_append, dep_reverse, dep_cons, LType.val]; omega
        · intro y hy; exact hpostC y (by simp [hy])
        · intro c hc _
          exact Or.inl (hsub.subset hc)
        · intro h; exact absurd hd0 (h (by simp))
      · refine ⟨_, _, _, rfl, ?_, ?_, ?_, ?_, ?_, ?_, ?_, ?_⟩
        · have := Str.insert (v := ⟨i, .cut⟩) (hS.sublist hsub) (by simpa using hpreC)
            (fun y hy => hpostC y (by simp [hy])) ?_ (by simp) (by simp)
          · simpa using this
          · intro _ hmem
            rcases List.mem_append.mp hmem with hy | hy
            · have := hpre _ (List.mem_reverse.mp hy)
              simp [Le, LType.val] at this
            · have := hS.sorted
              rw [List.pairwise_append, List.pairwise_cons] at this
              have := this.2.1.1 _ hy
              simp [Le, LType.val] at this
        · intro k
          simp only [cnt_append, cnt_reverse, cnt_cons, LType.val]; split <;> omega
        · simp only [dep_append, dep_reverse, dep_cons, LType.val]; omega
        · simp only [dep_cons, LType.val]; omega
        · intro y hy
          rcases List.mem_cons.mp hy with rfl | hy
          · simp [Le]
          · exact hpreC y hy
        · intro y hy; exact hpostC y (by simp [hy])
        · intro c hc ht
          simp only [List.reverse_cons, List.append_assoc, List.mem_append, List.mem_cons,
            List.not_mem_nil, or_false] at hc ⊢
          rcases hc with h | h | h
          · simp [h]
          · right; rw [h]; simp
          · simp [h]
        · intro _
          refine ⟨⟨⟨i, .cut⟩, by simp, rfl⟩, ?_⟩
          intro z hz
          simp only [List.mem_append, List.mem_cons] at hz
          rcases hz with h | h | h
          · exact ⟨z, by simpa using Or.inl h, rfl⟩
          · exact ⟨⟨i, .cut⟩, by simp, by rw [h]⟩
          · exact ⟨z, by simp [h], rfl⟩
  · rw [if_neg hi]
    refine ⟨_, _, _, rfl, plain ?_⟩
    intro y hy hyi
    have h1 := hpostC x (by simp)
    rcases List.mem_cons.mp hy with rfl | hy
    · omega
    · have := hS.sorted
      rw [List.pairwise_append, List.pairwise_cons] at this
      have := this.2.1.1 y hy
      simp only [Le] at this h1; omega

theorem insertUpper_spec (i : Int) (pre post : List Limit) (d : Int) (hne : pre ≠ [])
    (hS : Str (pre.reverse ++ post)) (hpre : ∀ y ∈ pre, Le y ⟨i, .cut⟩)
    (hpost : ∀ y ∈ post, ¬ y.le ⟨i, .cut⟩ = true) (hd : d = dep pre) :
    ∃ pre' d', (∀ post₀, insertUpper i pre post₀ d = some (pre', post₀, d')) ∧
      Str (pre'.reverse ++ post) ∧
      (∀ k, cnt (pre'.reverse ++ post) k = cnt (pre.reverse ++ post) k - if i ≤ k then 1 else 0) ∧
      dep (pre'.reverse ++ post) = dep (pre.reverse ++ post) - 1 ∧ d' = dep pre' ∧
      (∀ y ∈ pre', Le y ⟨i, .upper⟩) ∧
      (∀ c ∈ pre'.reverse ++ post, c.t = .cut →
        c ∈ pre.reverse ++ post ∨ (c.i = i ∧ ⟨i, .lower⟩ ∈ pre.reverse ++ post)) ∧
      ((⟨i, .lower⟩ ∈ pre → 2 ≤ d) → (∃ y ∈ pre'.reverse ++ post, y.i = i) ∧
        ∀ x ∈ pre.reverse ++ post, ∃ y ∈ pre'.reverse ++ post, y.i = x.i) := by
  obtain ⟨p, pre', rfl⟩ : ∃ x l, pre = x :: l := by
    cases pre with
    | nil => exact absurd rfl hne
    | cons x l => exact ⟨x, l, rfl⟩
  have hpreU : ∀ y ∈ p :: pre', Le y ⟨i, .upper⟩ := by
    intro y hy
    have := hpre y hy
    simp only [Le, LType.val] at this ⊢; omega
  have hpostU : ∀ y ∈ post, Le ⟨i, .upper⟩ y := by
    intro y hy
    have := hpost y hy
    rw [not_le_iff] at this
    simp only [Le, LType.val] at this ⊢; omega
  have hnl : ∀ y ∈ post, y.i = i → y.t = .upper := by
    intro y hy hyi
    have := hpost y hy
    rw [not_le_iff] at this
    rcases val_cases y.t with ⟨ht, hv⟩ | ⟨ht, hv⟩ | ⟨ht, hv⟩
    · have e : LType.cut.val = 0 := rfl
      simp only at this; omega
    · have e : LType.cut.val = 0 := rfl
      simp only at this; omega
    · exact ht
  have hsortrev : ∀ y ∈ pre', Le y p := by
    have := hS.sorted
    simp only [List.reverse_cons, List.append_assoc, List.singleton_append] at this
    rw [List.pairwise_append] at this
    intro y hy
    exact this.2.2 y (by simpa using hy) p (by simp)
  have plain : (∀ y ∈ p :: pre', y.i = i → y.t ≠ .lower) →
      Str ((⟨i, .upper⟩ :: p :: pre').reverse ++ post) ∧
      (∀ k, cnt ((⟨i, .upper⟩ :: p :: pre').reverse ++ post) k =
        cnt ((p :: pre').reverse ++ post) k - if i ≤ k then 1 else 0) ∧
      dep ((⟨i, .upper⟩ :: p :: pre').reverse ++ post) = dep ((p :: pre').reverse ++ post) - 1 ∧
      d - 1 = dep (⟨i, .upper⟩ :: p :: pre') ∧
      (∀ y ∈ (⟨i, .upper⟩ : Limit) :: p :: pre', Le y ⟨i, .upper⟩) ∧
      (∀ c ∈ (⟨i, .upper⟩ :: p :: pre').reverse ++ post, c.t = .cut →
        c ∈ (p :: pre').reverse ++ post ∨ (c.i = i ∧ ⟨i, .lower⟩ ∈ (p :: pre').reverse ++ post)) ∧
      ((⟨i, .lower⟩ ∈ p :: pre' → 2 ≤ d) →
        (∃ y ∈ (⟨i, .upper⟩ :: p :: pre').reverse ++ post, y.i = i) ∧
        ∀ x ∈ (p :: pre').reverse ++ post, ∃ y ∈ (⟨i, .upper⟩ :: p :: pre').reverse ++ post, y.i = x.i) := by
    intro hnlow
    refine ⟨?_, ?_, ?_, ?_, ?_, ?_, ?_⟩
    · have := Str.insert (v := ⟨i, .upper⟩) hS (by
        intro y hy; exact hpreU y (List.mem_reverse.mp hy)) hpostU (by simp) (by simp) ?_
      · rw [List.reverse_cons, List.append_assoc]; exact this
      · intro _ y hy hyi
        rcases List.mem_append.mp hy with hy | hy
        · exact hnlow y (List.mem_reverse.mp hy) hyi
        · intro h; have := hnl y hy hyi; rw [h] at this; cases this
    · intro k
      simp only [cnt_append, cnt_reverse, cnt_cons, LType.val]; split <;> omega
    · simp only [dep_append, dep_reverse, dep_cons, LType.val]; omega
    · simp only [dep_cons, LType.val] at hd ⊢; omega
    · intro y hy
      rcases List.mem_cons.mp hy with rfl | hy
      · simp [Le]
      · exact hpreU y hy
    · intro c hc ht
      left
      rw [List.reverse_cons, List.append_assoc] at hc
      simp only [List.mem_append, List.mem_cons, List.not_mem_nil, or_false] at hc ⊢
      rcases hc with h | h | h
      · exact Or.inl h
      · rw [h] at ht; cases ht
      · exact Or.inr h
    · intro _
      refine ⟨⟨⟨i, .upper⟩, by simp, rfl⟩, ?_⟩
      intro z hz
      refine ⟨z, ?_, rfl⟩
      rw [List.reverse_cons, List.append_assoc]
      simp only [List.mem_append, List.mem_cons, List.not_mem_nil, or_false] at hz ⊢
      rcases hz with h | h
      · exact Or.inl h
      · exact Or.inr (Or.inr h)
  unfold insertUpper
  simp only
  have hpp := hpre p (by simp)
  by_cases hi : i = p.i
  · simp only [if_pos hi]
    split
    · rename_i hpt
      exact ⟨_, _, fun _ => rfl, plain (by
        intro y hy _ hu
        simp only [List.mem_cons, List.not_mem_nil, or_false] at hy
        rw [hy, hpt] at hu; cases hu)⟩
    · rename_i q pre'' hpt
      by_cases hq : q = ⟨i, .lower⟩
      · simp only [if_pos hq]
        subst hq
        have hsub : ((p :: pre'').reverse ++ post).Sublist ((p :: ⟨i, .lower⟩ :: pre'').reverse ++ post) := by
          refine List.Sublist.append ?_ (List.Sublist.refl _)
          exact List.Sublist.reverse ((List.sublist_cons_self _ _).cons_cons _)
        have hsub2 : ((pre'').reverse ++ post).Sublist ((p :: ⟨i, .lower⟩ :: pre'').reverse ++ post) := by
          refine List.Sublist.append ?_ (List.Sublist.refl _)
          exact List.Sublist.reverse (((List.Sublist.refl _).cons _).cons _)
        by_cases hd0 : d = 0
        · simp only [if_pos hd0]
          refine ⟨_, _, fun _ => rfl, hS.sublist hsub2, ?_, ?_, ?_, ?_, ?_, ?_⟩
          · intro k
            simp only [cnt_append, cnt_reverse, cnt_cons, LType.val, hpt]; split <;> split <;> omega
          · simp only [dep_append, dep_reverse, dep_cons, LType.val, hpt]; omega
          · simp only [dep_cons, LType.val, hpt] at hd; omega
          · intro y hy; exact hpreU y (by simp [hy])
          · intro c hc _
            exact Or.inl (hsub2.subset hc)
          · intro h; have := h (by simp); omega
        · simp only [if_neg hd0]
          refine ⟨_, _, fun _ => rfl, hS.sublist hsub, ?_, ?_, ?_, ?_, ?_, ?_⟩
          · intro k
            simp only [cnt_append, cnt_reverse, cnt_cons, LType.val, hpt]; split <;> split <;> omega
          · simp only [dep_append, dep_reverse, dep_cons, LType.val, hpt]; omega
          · simp only [dep_cons, LType.val, hpt] at hd ⊢; omega
          · intro y hy; exact hpreU y (by
              rcases List.mem_cons.mp hy with rfl | hy
              · simp
              · simp [hy])
          · intro c hc _
            exact Or.inl (hsub.subset hc)
          · intro _
            refine ⟨⟨p, by simp, hi.symm⟩, ?_⟩
            intro z hz
            simp only [List.reverse_cons, List.append_assoc, List.mem_append, List.mem_cons,
              List.not_mem_nil, or_false] at hz
            rcases hz with h | h | h | h
            · exact ⟨z, by simpa using Or.inl h, rfl⟩
            · exact ⟨p, by simp, by rw [h]; exact hi.symm⟩
            · exact ⟨z, by simp [h], rfl⟩
            · exact ⟨z, by simp [h], rfl⟩
      · simp only [if_neg hq]
        refine ⟨_, _, fun _ => rfl, plain ?_⟩
        intro y hy hyi hu
        rcases List.mem_cons.mp hy with rfl | hy
        · rw [hpt] at hu; cases hu
        have hy2 := hsortrev q (by simp)
        have hsort := hS.sorted
        simp only [List.reverse_cons, List.append_assoc, List.singleton_append, List.cons_append, List.nil_append] at hsort
        rw [List.pairwise_append] at hsort
        rcases List.mem_cons.mp hy with rfl | hy
        · apply hq; obtain ⟨yi, yt⟩ := y; simp_all
        · have hyq := hsort.2.2 y (by simpa using hy) q (by simp)
          have hcut := hS.cuts
          simp only [List.reverse_cons, List.append_assoc, List.singleton_append, List.cons_append, List.nil_append] at hcut
          rw [List.pairwise_append, List.pairwise_cons] at hcut
          have hn3 := hcut.2.1.1 p (by simp)
          simp only [Le, hu, hpt, LType.val] at hy2 hyq
          obtain ⟨qi, qt⟩ := q
          obtain ⟨pi, pt⟩ := p
          simp only at hi hpt hy2 hyq
          subst hpt hi
          cases qt
          · apply hq; simp; omega
          · apply hn3
            simp only [LType.val] at hy2 hyq
            simp; omega
          · simp only [LType.val] at hy2 hyq; omega
    · rename_i hpt
      simp only [Le, hpt, LType.val] at hpp; omega
    · rename_i pre' _ _ hpt
      have hp : p = ⟨i, .lower⟩ := by obtain ⟨xi, xt⟩ := p; simp_all
      subst hp
      have hsub : (pre'.reverse ++ post).Sublist ((⟨i, .lower⟩ :: pre').reverse ++ post) := by
        refine List.Sublist.append ?_ (List.Sublist.refl _)
        exact List.Sublist.reverse (List.sublist_cons_self _ _)
      by_cases hd0 : d = 1
      · simp only [if_pos hd0]
        refine ⟨_, _, fun _ => rfl, hS.sublist hsub, ?_, ?_, ?_, ?_, ?_, ?_⟩
        · intro k
          simp only [cnt_append, cnt_reverse, cnt_cons, LType.val]; split <;> omega
        · simp only [dep_append, dep_reverse, dep_cons, LType.val]; omega
        · simp only [dep_cons, LType.val] at hd; omega
        · intro y hy; exact hpreU y (by simp [hy])
        · intro c hc _
          exact Or.inl (hsub.subset hc)
        · intro h; have := h (by simp); omega
      · simp only [if_neg hd0]
        refine ⟨_, _, fun _ => rfl, ?_, ?_, ?_, ?_, ?_, ?_, ?_⟩
        · have := Str.insert (v := ⟨i, .cut⟩) (hS.sublist hsub) ?_ ?_ ?_ (by simp) (by simp)
          · simpa using this
          · intro y hy; exact hpre y (by simp [List.mem_reverse.mp hy])
          · intro y hy
            have := hpostU y hy
            simp only [Le, LType.val] at this ⊢; omega
          · intro _ hmem
            rcases List.mem_append.mp hmem with hy | hy
            · have := hsortrev _ (List.mem_reverse.mp hy)
              simp [Le, LType.val] at this
            · have := hnl _ hy rfl
              cases this
        · intro k
          simp only [cnt_append, cnt_reverse, cnt_cons, LType.val]; split <;> omega
        · simp only [dep_append, dep_reverse, dep_cons, LType.val]; omega
        · simp only [dep_cons, LType.val] at hd ⊢; omega
        · intro y hy
          rcases List.mem_cons.mp hy with rfl | hy
          · simp [Le, LType.val]
          · exact hpreU y (by simp [hy])
        · intro c hc ht
          simp only [List.reverse_cons, List.append_assoc, List.mem_append, List.mem_cons,
            List.not_mem_nil, or_false] at hc ⊢
          rcases hc with h | h | h
          · simp [h]
          · right; rw [h]; simp
          · simp [h]
        · intro _
          refine ⟨⟨⟨i, .cut⟩, by simp, rfl⟩, ?_⟩
          intro z hz
          simp only [List.reverse_cons, List.append_assoc, List.mem_append, List.mem_cons,
              List.not_mem_nil, or_false] at hz
          rcases hz with h | h | h
          · exact ⟨z, by simpa using Or.inl h, rfl⟩
          · exact ⟨⟨i, .cut⟩, by simp, by rw [h]⟩
          · exact ⟨z, by simp [h], rfl⟩
  · simp only [if_neg hi]
    refine ⟨_, _, fun _ => rfl, plain ?_⟩
    intro y hy hyi
    rcases List.mem_cons.mp hy with rfl | hy
    · omega
    · have := hsortrev y hy
      simp only [Le, LType.val] at this hpp; omega

end Verif.RC
