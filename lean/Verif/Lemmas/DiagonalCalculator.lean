import Verif.Model.DiagonalCalculator
import Mathlib.Data.List.Sort
import Mathlib.Algebra.BigOperators.Group.Finset.Basic
import Mathlib.Algebra.BigOperators.Ring.Finset
/-!
# Lemmas on `DiagonalCalculator`
-/
set_option autoImplicit false
set_option linter.unusedSectionVars false

namespace Verif.DC
open Verif Finset

/-! ## Increasing lists -/

theorem inc_ext {a b : List Nat} (ha : a.Pairwise (· < ·)) (hb : b.Pairwise (· < ·)) (h : ∀ i, i ∈ a ↔ i ∈ b) : a = b := by
  induction a generalizing b with
  | nil =>
    cases b with
    | nil => rfl
    | cons x b => exact absurd ((h x).mpr (by simp)) (by simp)
  | cons x a ih =>
    cases b with
    | nil => exact absurd ((h x).mp (by simp)) (by simp)
    | cons y b =>
      rw [List.pairwise_cons] at ha hb
      have hxy : x = y := by
        have h1 := (h x).mp (by simp)
        have h2 := (h y).mpr (by simp)
        simp only [List.mem_cons] at h1 h2
        rcases h1 with h1 | h1
        · exact h1
        · rcases h2 with h2 | h2
          · exact h2.symm
          · have := hb.1 x h1
            have := ha.1 y h2
            omega
      subst hxy
      congr 1
      apply ih ha.2 hb.2
      intro i
      constructor
      · intro hi
        have := (h i).mp (by simp [hi])
        simp only [List.mem_cons] at this
        rcases this with e | e
        · have := ha.1 i hi; omega
        · exact e
      · intro hi
        have := (h i).mpr (by simp [hi])
        simp only [List.mem_cons] at this
        rcases this with e | e
        · have := hb.1 i hi; omega
        · exact e

theorem mem_between (a b i : Nat) : i ∈ between a b ↔ a ≤ i ∧ i < b := by
  simp only [between, List.mem_map, List.mem_range]
  constructor
  · rintro ⟨k, hk, rfl⟩; omega
  · intro h; exact ⟨i - a, by omega, by omega⟩

theorem between_inc (a b : Nat) : (between a b).Pairwise (· < ·) := by
  unfold between
  rw [List.pairwise_map]
  exact List.pairwise_lt_range.imp fun h => by omega

theorem between_length (a b : Nat) : (between a b).length = b - a := by simp [between]

theorem cnnz_mem (n : Nat) (l : List Nat) (a : Nat) (hl : l.Pairwise (· < ·)) (ha : ∀ i ∈ l, a ≤ i) (hn : ∀ i ∈ l, i < n) (j : Nat) :
    j ∈ cnnzLoop n a l ↔ a ≤ j ∧ j < n ∧ j ∉ l := by
  induction l generalizing a with
  | nil => simp [cnnzLoop, mem_between]
  | cons x l ih =>
    rw [List.pairwise_cons] at hl
    have hax := ha x (by simp)
    have hxn := hn x (by simp)
    rw [cnnzLoop, List.mem_append, mem_between, ih (x + 1) hl.2 (fun i hi => hl.1 i hi) (fun i hi => hn i (by simp [hi]))]
    simp only [List.mem_cons, not_or]
    constructor
    · rintro (h | h)
      · refine ⟨h.1, by omega, by omega, fun hj => ?_⟩
        have := hl.1 j hj; omega
      · exact ⟨by omega, h.2.1, by omega, h.2.2⟩
    · rintro ⟨h1, h2, h3, h4⟩
      by_cases hj : j < x
      · exact .inl ⟨h1, hj⟩
      · exact .inr ⟨by omega, h2, h4⟩

theorem cnnz_inc (n : Nat) (l : List Nat) (a : Nat) (hl : l.Pairwise (· < ·)) (ha : ∀ i ∈ l, a ≤ i) (hn : ∀ i ∈ l, i < n) :
    (cnnzLoop n a l).Pairwise (· < ·) := by
  induction l generalizing a with
  | nil => exact between_inc a n
  | cons x l ih =>
    rw [List.pairwise_cons] at hl
    rw [cnnzLoop, List.pairwise_append]
    have hn' : ∀ i ∈ l, i < n := fun i hi => hn i (by simp [hi])
    refine ⟨between_inc _ _, ih (x + 1) hl.2 (fun i hi => hl.1 i hi) hn', ?_⟩
    intro i hi j hj
    rw [mem_between] at hi
    rw [cnnz_mem n l (x + 1) hl.2 (fun i hi => hl.1 i hi) hn'] at hj
    omega

/-- `innz_`: the places of the non-zero rows in the list of all the rows, in order -/
theorem innz_eq (nnz zeros : List Nat) (f : Nat) : ∀ (i k : Nat) (sel : List Nat), sel.Pairwise (· < ·) →
    (∀ j, j ∈ sel ↔ (i ≤ j ∧ (j ∈ nnz ∨ j ∈ zeros))) → (∀ j ∈ sel, j < i + f) →
    innzLoop nnz zeros f i k = ((sel.zipIdx k).filter fun p => decide (p.1 ∈ nnz)).map (·.2) := by
  induction f with
  | zero =>
    intro i k sel hs hm hb
    have : sel = [] := by
      cases sel with
      | nil => rfl
      | cons x l =>
        have h1 := hb x (by simp)
        have h2 := (hm x).mp (by simp)
        omega
    subst this
    rfl
  | succ f ih =>
    intro i k sel hs hm hb
    by_cases hi : i ∈ nnz ∨ i ∈ zeros
    · have him : i ∈ sel := (hm i).mpr ⟨le_rfl, hi⟩
      obtain ⟨rest, rfl⟩ : ∃ rest, sel = i :: rest := by
        cases sel with
        | nil => simp at him
        | cons x l =>
          rw [List.pairwise_cons] at hs
          have h1 := (hm x).mp (by simp)
          simp only [List.mem_cons] at him
          rcases him with e | e
          · exact ⟨l, by rw [e]⟩
          · have := hs.1 i e; omega
      rw [List.pairwise_cons] at hs
      have hrec := ih (i + 1) (k + 1) rest hs.2 (by
        intro j
        constructor
        · intro hj
          have h1 := (hm j).mp (by simp [hj])
          have h2 := hs.1 j hj
          exact ⟨by omega, h1.2⟩
        · intro hj
          have := (hm j).mpr ⟨by omega, hj.2⟩
          simp only [List.mem_cons] at this
          rcases this with e | e
          · omega
          · exact e) (by intro j hj; have := hb j (by simp [hj]); omega)
      rw [innzLoop]
      by_cases h1 : i ∈ nnz
      · rw [if_pos h1, hrec]
        simp [List.zipIdx_cons, h1]
      · have h2 : i ∈ zeros := by simpa [h1] using hi
        rw [if_neg h1, if_pos h2, hrec]
        simp [List.zipIdx_cons, h1]
    · simp only [not_or] at hi
      rw [innzLoop, if_neg hi.1, if_neg hi.2]
      apply ih (i + 1) k sel hs
      · intro j
        rw [hm j]
        constructor
        · rintro ⟨a, b⟩
          refine ⟨?_, b⟩
          rcases Nat.eq_or_lt_of_le a with e | e
          · subst e; rcases b with b | b
            · exact absurd b hi.1
            · exact absurd b hi.2
          · exact e
        · rintro ⟨a, b⟩; exact ⟨by omega, b⟩
      · intro j hj; have := hb j hj; omega

theorem zipIdx_filter_fst (nnz sel : List Nat) (k : Nat) :
    ((sel.zipIdx k).filter fun p => decide (p.1 ∈ nnz)).map (·.1) = sel.filter fun i => decide (i ∈ nnz) := by
  induction sel generalizing k with
  | nil => rfl
  | cons x l ih =>
    rw [List.zipIdx_cons]
    by_cases hx : x ∈ nnz
    · simp [hx, ih]
    · simp [hx, ih]

theorem inc_ge (l : List Nat) (h : l.Pairwise (· < ·)) (b : Nat) (hb : ∀ i ∈ l, b ≤ i) (k i : Nat) (hk : l[k]? = some i) : b + k ≤ i := by
  induction l generalizing b k with
  | nil => simp at hk
  | cons x l ih =>
    rw [List.pairwise_cons] at h
    cases k with
    | zero => simp at hk; subst hk; have := hb x (by simp); omega
    | succ k =>
      simp only [List.getElem?_cons_succ] at hk
      have := ih h.2 (b + 1) (fun i hi => by have := h.1 i hi; have := hb x (by simp); omega) k hk
      omega

/-- An index all of whose predecessors are in the list is at its own place. -/
theorem inc_self (l : List Nat) (h : l.Pairwise (· < ·)) (b i : Nat) (hb : ∀ j ∈ l, b ≤ j) (hall : ∀ j, b ≤ j → j ≤ b + i → j ∈ l) : l[i]? = some (b + i) := by
  induction l generalizing b i with
  | nil => exact absurd (hall b le_rfl (by omega)) (by simp)
  | cons x l ih =>
    rw [List.pairwise_cons] at h
    have hx : x = b := by
      have h1 := hall b le_rfl (by omega)
      simp only [List.mem_cons] at h1
      rcases h1 with e | e
      · exact e.symm
      · have := h.1 b e
        have := hb x (by simp)
        omega
    subst hx
    cases i with
    | zero => simp
    | succ i =>
      have := ih h.2 (x + 1) i (fun j hj => h.1 j hj) (by
        intro j h1 h2
        have := hall j (by omega) (by omega)
        simp only [List.mem_cons] at this
        rcases this with e | e
        · omega
        · exact e)
      simp only [List.getElem?_cons_succ, this]
      congr 1; omega

/-- What the constructors ensure -/
structure Good (I : Impl) : Prop where
  nnz_inc : I.nnz.Pairwise (· < ·)
  zeros_inc : I.zeros.Pairwise (· < ·)
  disj : ∀ i ∈ I.nnz, i ∉ I.zeros
  nnz_lt : ∀ i ∈ I.nnz, i < I.n
  zeros_lt : ∀ i ∈ I.zeros, i < I.n
  cnnz_inc : I.cnnz.Pairwise (· < ·)
  cnnz_mem : ∀ j, j ∈ I.cnnz ↔ j < I.n ∧ j ∉ I.nnz
  innz : I.innz = innzLoop I.nnz I.zeros I.n 0 0

theorem build_ok (m n : Nat) (nnz cnnz zeros : List Nat) (I : Impl) (h : build m n nnz cnnz zeros = .ok () I) :
    I = ⟨m, n, nnz, innzLoop nnz zeros n 0 0, cnnz, zeros⟩ ∧ (∀ i ∈ nnz, i < n) ∧ ∀ i ∈ zeros, i < n := by
  unfold build at h
  by_cases hc : (nnz.any (fun i => decide (n ≤ i)) || zeros.any (fun i => decide (n ≤ i))) = true
  · rw [if_pos hc] at h; simp at h
  · rw [if_neg hc] at h
    simp only [Outcome.ok.injEq, true_and] at h
    simp only [Bool.or_eq_true, List.any_eq_true, decide_eq_true_eq, not_or, not_exists, not_and, Nat.not_le] at hc
    exact ⟨h.symm, hc.1, hc.2⟩

theorem good_ofLists (m n rank : Nat) (nnz zeros : List Nat) (h1 : nnz.Pairwise (· < ·)) (h2 : zeros.Pairwise (· < ·))
    (h3 : ∀ i ∈ nnz, i ∉ zeros) (I : Impl) (h : Impl.ofLists m n rank nnz zeros = .ok () I) :
    Good I ∧ I.m = m ∧ I.n = n ∧ I.nnz = nnz ∧ I.zeros = zeros ∧ nnz.length = rank := by
  unfold Impl.ofLists at h
  by_cases ha : n ≤ optionalMax nnz zeros
  · rw [if_pos ha] at h; simp at h
  · rw [if_neg ha] at h
    by_cases hb : nnz.length ≠ rank
    · rw [if_pos hb] at h; simp at h
    · rw [if_neg hb] at h
      obtain ⟨rfl, hn, hz⟩ := build_ok _ _ _ _ _ _ h
      exact ⟨⟨h1, h2, h3, hn, hz, cnnz_inc n nnz 0 h1 (by simp) hn, fun j => by
        show j ∈ cnnzLoop n 0 nnz ↔ _
        rw [cnnz_mem n nnz 0 h1 (by simp) hn]; simp, rfl⟩, rfl, rfl, rfl, rfl, not_not.mp hb⟩

theorem good_ofRange (m n rank : Nat) (first size : Int) (I : Impl) (h : Impl.ofRange m n rank first size = .ok () I) :
    Good I ∧ I.m = m ∧ I.n = n ∧ 0 ≤ first ∧ (size = rank ∨ (size = -1 ∧ (rank : Int) = n - first)) ∧ I.zeros = [] ∧
      I.nnz = between first.toNat (first.toNat + rank) ∧ first.toNat + rank ≤ n ∨ rank = 0 := by
  by_cases hr : rank = 0
  · exact .inr hr
  left
  unfold Impl.ofRange at h
  by_cases h1 : first < 0
  · rw [if_pos h1] at h; simp at h
  rw [if_neg h1] at h
  by_cases h2 : size < -1
  · rw [if_pos h2] at h; simp at h
  rw [if_neg h2] at h
  dsimp only at h
  by_cases h3 : (if size = -1 then (n : Int) - first else size) ≠ rank
  · rw [if_pos h3] at h; simp at h
  rw [if_neg h3] at h
  obtain ⟨rfl, hn, hz⟩ := build_ok _ _ _ _ _ _ h
  have hle : first.toNat + rank ≤ n := by
    have := hn (first.toNat + rank - 1) (by rw [mem_between]; omega)
    omega
  refine ⟨⟨between_inc _ _, by simp, by simp, hn, by simp, ?_, ?_, rfl⟩, rfl, rfl, by omega, ?_, rfl, rfl, hle⟩
  · show (between 0 first.toNat ++ between (first.toNat + rank) n).Pairwise (· < ·)
    rw [List.pairwise_append]
    refine ⟨between_inc _ _, between_inc _ _, ?_⟩
    intro i hi j hj
    rw [mem_between] at hi hj
    omega
  · intro j
    show j ∈ between 0 first.toNat ++ between (first.toNat + rank) n ↔ j < n ∧ j ∉ between first.toNat (first.toNat + rank)
    rw [List.mem_append, mem_between, mem_between, mem_between]
    omega
  · by_cases hs : size = -1
    · rw [if_pos hs] at h3; right; exact ⟨hs, by omega⟩
    · rw [if_neg hs] at h3; left; omega

/-- The pairs (index, place) of the non-zero rows -/
theorem Good.pairs {I : Impl} (g : Good I) (sel : List Nat) (hs : sel.Pairwise (· < ·)) (hm : ∀ i, i ∈ sel ↔ i ∈ I.nnz ∨ i ∈ I.zeros) :
    I.nnz.zip I.innz = sel.zipIdx.filter fun p => decide (p.1 ∈ I.nnz) := by
  have h1 : I.innz = (sel.zipIdx.filter fun p => decide (p.1 ∈ I.nnz)).map (·.2) := by
    rw [g.innz]
    apply innz_eq I.nnz I.zeros I.n 0 0 sel hs
    · intro j; rw [hm j]; simp
    · intro j hj
      rcases (hm j).mp hj with h | h
      · have := g.nnz_lt j h; omega
      · have := g.zeros_lt j h; omega
  have h2 : I.nnz = (sel.zipIdx.filter fun p => decide (p.1 ∈ I.nnz)).map (·.1) := by
    rw [zipIdx_filter_fst]
    apply inc_ext g.nnz_inc (hs.sublist List.filter_sublist)
    intro i
    simp only [List.mem_filter, hm i, decide_eq_true_eq]
    constructor
    · intro h; exact ⟨.inl h, h⟩
    · intro h; exact h.2
  generalize sel.zipIdx.filter (fun p => decide (p.1 ∈ I.nnz)) = L at h1 h2
  rw [h1, h2]
  clear h1 h2
  induction L with
  | nil => rfl
  | cons p L ih => simp only [List.map_cons, List.zip_cons_cons, ih]

section
variable {K : Type} [Field K]

/-! ## Folds of writes -/

theorem rows_out {α : Type} (l : List α) (key : α → Nat) (val : α → Nat → K) (M : Nat → Nat → K) (r : Nat) (h : ∀ p ∈ l, key p ≠ r) :
    l.foldl (fun M p => setRow M (key p) (val p)) M r = M r := by
  induction l generalizing M with
  | nil => rfl
  | cons p l ih =>
    rw [List.foldl_cons, ih _ fun q hq => h q (by simp [hq])]
    have hp := h p (by simp)
    funext j
    simp [setRow, Ne.symm hp]

theorem rows_in {α : Type} (l : List α) (key : α → Nat) (val : α → Nat → K) (M : Nat → Nat → K) (p : α) (hp : p ∈ l)
    (hd : l.Pairwise fun a b => key a ≠ key b) :
    l.foldl (fun M p => setRow M (key p) (val p)) M (key p) = val p := by
  induction l generalizing M with
  | nil => simp at hp
  | cons q l ih =>
    rw [List.pairwise_cons] at hd
    rw [List.foldl_cons]
    by_cases hpl : p ∈ l
    · exact ih _ hpl hd.2
    · have : p = q := by simpa [hpl] using hp
      subst this
      rw [rows_out l key val _ (key p) fun a ha => (hd.1 a ha).symm]
      funext j
      simp [setRow]

theorem cols_out (l : List (Nat × Nat)) (f : K → Nat → Nat → K) (M : Nat → Nat → K) (i j : Nat) (h : ∀ p ∈ l, p.2 ≠ j) :
    l.foldl (fun M p => fun i j => if j = p.2 then f (M i j) i p.1 else M i j) M i j = M i j := by
  induction l generalizing M with
  | nil => rfl
  | cons p l ih =>
    rw [List.foldl_cons, ih _ fun q hq => h q (by simp [hq])]
    have hp := h p (by simp)
    simp [Ne.symm hp]

theorem cols_in (l : List (Nat × Nat)) (f : K → Nat → Nat → K) (M : Nat → Nat → K) (i : Nat) (p : Nat × Nat) (hp : p ∈ l)
    (hd : l.Pairwise fun a b => a.2 ≠ b.2) :
    l.foldl (fun M p => fun i j => if j = p.2 then f (M i j) i p.1 else M i j) M i p.2 = f (M i p.2) i p.1 := by
  induction l generalizing M with
  | nil => simp at hp
  | cons q l ih =>
    rw [List.pairwise_cons] at hd
    rw [List.foldl_cons]
    by_cases hpl : p ∈ l
    · rw [ih _ hpl hd.2]
      have : p.2 ≠ q.2 := fun e => hd.1 p hpl e.symm
      simp [this]
    · have : p = q := by simpa [hpl] using hp
      subst this
      rw [cols_out l f _ i p.2 fun a ha => (hd.1 a ha).symm]
      simp

theorem zipIdx_snd_ne {α : Type} (l : List α) : l.zipIdx.Pairwise fun a b => a.2 ≠ b.2 := by
  rw [List.pairwise_iff_getElem]
  intro i j hi hj hij
  simp only [List.getElem_zipIdx, Nat.zero_add]
  omega

theorem zipIdx_fst_ne (l : List Nat) (h : l.Pairwise (· < ·)) : l.zipIdx.Pairwise fun a b => a.1 ≠ b.1 := by
  rw [List.pairwise_iff_getElem] at h ⊢
  intro i j hi hj hij
  simp only [List.getElem_zipIdx]
  have := h i j (by simpa using hi) (by simpa using hj) hij
  omega

/-- The coefficients of `N`: the columns are the unit vectors of the indices that are not among the non-zero rows. -/
theorem N_eq {I : Impl} (j i : Nat) : I.N (K := K) j i = if I.cnnz[i]? = some j then 1 else 0 := by
  unfold Impl.N
  have key : ∀ (l : List (Nat × Nat)) (M : Nat → Nat → K),
      l.foldl (fun M p => fun i j => if i = p.1 ∧ j = p.2 then 1 else M i j) M j i = if (j, i) ∈ l then 1 else M j i := by
    intro l
    induction l with
    | nil => intro M; simp
    | cons p l ih =>
      intro M
      rw [List.foldl_cons, ih]
      by_cases h1 : (j, i) ∈ l
      · simp [h1]
      · rw [if_neg h1]
        by_cases h2 : j = p.1 ∧ i = p.2
        · rw [if_pos h2, if_pos]; simp [h2]
        · rw [if_neg h2, if_neg]
          simp only [List.mem_cons, not_or]
          refine ⟨fun e => h2 ?_, h1⟩
          rw [← e]; exact ⟨rfl, rfl⟩
  rw [key]
  have : (j, i) ∈ I.cnnz.zipIdx ↔ I.cnnz[i]? = some j := by
    rw [List.mem_zipIdx_iff_getElem?]
  simp only [this]

/-- `postMultiplyByN_` -/
theorem postN_eq {I : Impl} (out inp : Nat → Nat → K) (add : Bool) (i j : Nat) (hj : j < I.cnnz.length) :
    I.postN out inp add i j = (if add then out i j else 0) + inp i I.cnnz[j] := by
  unfold Impl.postN
  have hp : (I.cnnz[j], j) ∈ I.cnnz.zipIdx := by rw [List.mem_zipIdx_iff_getElem?]; exact List.getElem?_eq_getElem hj
  have := cols_in I.cnnz.zipIdx (fun old i c => if add then old + inp i c else inp i c) out i _ hp (zipIdx_snd_ne _)
  simp only at this
  rw [this]
  cases add <;> simp

/-- The rows of `premultiplyByASharpAndSTranspose_` -/
theorem premul_rows {I : Impl} (g : Good I) (sel : List Nat) (hs : sel.Pairwise (· < ·)) (hm : ∀ i, i ∈ sel ↔ i ∈ I.nnz ∨ i ∈ I.zeros)
    (hlen : sel.length = I.m) (hz : ∀ i ∈ I.zeros, i < I.m) (A outA outS inp : Nat → Nat → K) (minus : Bool) :
    ∃ a s, I.premultiply A outA outS inp minus = .ok () (a, s) ∧
      (∀ k i j, sel[k]? = some i → i ∈ I.nnz → a i j = (if minus then -(1 / A k i) else 1 / A k i) * inp k j) ∧
      (∀ i j, i < I.n → i ∉ I.nnz → a i j = 0) ∧ (∀ (q j : Nat) (hq : q < I.zeros.length), s q j = inp I.zeros[q] j) := by
  have hpairs := g.pairs sel hs hm
  have hub : ¬ (I.innz.any (fun i => decide (I.m ≤ i)) || I.zeros.any (fun i => decide (I.m ≤ i))) = true := by
    simp only [Bool.or_eq_true, List.any_eq_true, decide_eq_true_eq, not_or, not_exists, not_and, Nat.not_le]
    refine ⟨?_, hz⟩
    intro k hk
    have hin : I.innz = (sel.zipIdx.filter fun p => decide (p.1 ∈ I.nnz)).map (·.2) := by
      rw [g.innz]
      apply innz_eq I.nnz I.zeros I.n 0 0 sel hs
      · intro j; rw [hm j]; simp
      · intro j hj
        rcases (hm j).mp hj with h | h
        · have := g.nnz_lt j h; omega
        · have := g.zeros_lt j h; omega
    rw [hin] at hk
    simp only [List.mem_map, List.mem_filter] at hk
    obtain ⟨p, ⟨hp, _⟩, rfl⟩ := hk
    rw [List.mem_zipIdx_iff_getElem?] at hp
    have := (List.getElem?_eq_some_iff.mp hp).1
    omega
  refine ⟨_, _, by unfold Impl.premultiply; rw [if_neg hub], ?_, ?_, ?_⟩
  · intro k i j hk hi
    rw [rows_out I.cnnz (fun i => i) (fun _ _ => 0) _ i (by
      intro p hp e
      subst e
      exact ((g.cnnz_mem p).mp hp).2 hi)]
    have hmem : (i, k, 1 / A k i) ∈ I.inverses A := by
      unfold Impl.inverses
      rw [hpairs]
      simp only [List.mem_map, List.mem_filter, decide_eq_true_eq]
      exact ⟨(i, k), ⟨by rw [List.mem_zipIdx_iff_getElem?]; exact hk, hi⟩, rfl⟩
    have hdist : (I.inverses A).Pairwise fun a b => a.1 ≠ b.1 := by
      unfold Impl.inverses
      rw [hpairs, List.pairwise_map]
      exact (zipIdx_fst_ne sel hs).filter _
    have := rows_in (I.inverses A) (fun p => p.1) (fun p j => (if minus then -p.2.2 else p.2.2) * inp p.2.1 j) outA (i, k, 1 / A k i) hmem hdist
    simp only at this
    rw [this]
  · intro i j hi hn
    have := rows_in I.cnnz (fun i => i) (fun _ _ => (0 : K)) ((I.inverses A).foldl (fun M p => setRow M p.1 fun j => (if minus then -p.2.2 else p.2.2) * inp p.2.1 j) outA)
      i ((g.cnnz_mem i).mpr ⟨hi, hn⟩) (g.cnnz_inc.imp fun h => by omega)
    rw [this]
  · intro q j hq
    have hp : (I.zeros[q], q) ∈ I.zeros.zipIdx := by rw [List.mem_zipIdx_iff_getElem?]; exact List.getElem?_eq_getElem hq
    have := rows_in I.zeros.zipIdx (fun p => p.2) (fun p j => inp p.1 j) outS _ hp (zipIdx_snd_ne _)
    simp only at this
    rw [this]

end
end Verif.DC
