import Verif.Model.BufferedMatrix
import Mathlib.Data.List.Induction
import Mathlib.Tactic.Ring
import Mathlib.Tactic.Linarith
/-!
# C104 - the matrices with a buffer
-/
set_option autoImplicit false

namespace Verif.C104
open Verif.BM

variable {K : Type}

/-! ## Specification -/

/-- The calls -/
inductive Op (K : Type) where
  | resize (fresh : Nat → K) (m n : Nat)
  | assign (fresh : Nat → K) (m n : Nat) (f : Nat → Nat → K)

def Op.apply (b : Buf K) : Op K → Buf K
  | .resize g m n => b.resize g m n
  | .assign g m n f => b.assign g m n f

/-- The number of entries asked -/
def Op.room : Op K → Nat
  | .resize _ m n => m * n
  | .assign _ m n _ => m * n

def run (b : Buf K) (l : List (Op K)) : Buf K := l.foldl Op.apply b

/-- The matrix `f` of size `m` by `n` is read through the map -/
def Shows (b : Buf K) (M : Map) (m n : Nat) (f : Nat → Nat → K) : Prop := M.m = m ∧ M.n = n ∧ ∀ i < m, ∀ j < n, b.read M i j = some (f i j)

/-! ## Room -/

theorem index_lt {m n i j : Nat} (hi : i < m) (hj : j < n) : i + j * m < m * n := by
  have : (j + 1) * m ≤ n * m := Nat.mul_le_mul_right m hj
  nlinarith

theorem resize_eq (b : Buf K) (g : Nat → K) (m n : Nat) :
    (b.resize g m n).m = m ∧ (b.resize g m n).n = n ∧ b.size ≤ (b.resize g m n).size ∧ m * n ≤ (b.resize g m n).size ∧
    (m * n ≤ b.size → (b.resize g m n).id = b.id ∧ (b.resize g m n).size = b.size ∧ (b.resize g m n).data = b.data) ∧
    (b.size < m * n → (b.resize g m n).id = b.id + 1 ∧ (b.resize g m n).size = 2 * (m * n)) := by
  unfold Buf.resize
  by_cases h : m * n > b.size
  · rw [if_pos h]
    refine ⟨rfl, rfl, ?_, ?_, fun h' => absurd h (by omega), fun _ => ⟨rfl, by simp only; ring⟩⟩
    · simp only; have : 2 * m * n = 2 * (m * n) := by ring
      omega
    · simp only; have : 2 * m * n = 2 * (m * n) := by ring
      omega
  · rw [if_neg h]
    exact ⟨rfl, rfl, le_refl _, by simp only; omega, fun _ => ⟨rfl, rfl, rfl⟩, fun h' => absurd h' h⟩

theorem apply_eq (b : Buf K) (o : Op K) : ∃ m n, (o.apply b).m = m ∧ (o.apply b).n = n ∧ o.room = m * n ∧ b.size ≤ (o.apply b).size ∧ m * n ≤ (o.apply b).size ∧
    (m * n ≤ b.size → (o.apply b).id = b.id ∧ (o.apply b).size = b.size) ∧ (b.size < m * n → (o.apply b).id = b.id + 1 ∧ (o.apply b).size = 2 * (m * n)) := by
  cases o with
  | resize g m n =>
    obtain ⟨h1, h2, h3, h4, h5, h6⟩ := resize_eq b g m n
    exact ⟨m, n, h1, h2, rfl, h3, h4, fun h => ⟨(h5 h).1, (h5 h).2.1⟩, h6⟩
  | assign g m n f =>
    obtain ⟨h1, h2, h3, h4, h5, h6⟩ := resize_eq b g m n
    exact ⟨m, n, h1, h2, rfl, h3, h4, fun h => ⟨(h5 h).1, (h5 h).2.1⟩, h6⟩

theorem run_snoc (b : Buf K) (l : List (Op K)) (o : Op K) : run b (l ++ [o]) = o.apply (run b l) := by
  unfold run; rw [List.foldl_append]; rfl

theorem room (g : Nat → K) (m n : Nat) (l : List (Op K)) : (run (make g m n) l).m * (run (make g m n) l).n ≤ (run (make g m n) l).size := by
  induction l using List.reverseRecOn with
  | nil =>
    obtain ⟨h1, h2, -, h4, -⟩ := resize_eq (⟨0, 0, 0, 0, g⟩ : Buf K) g m n
    show (make g m n).m * (make g m n).n ≤ (make g m n).size
    unfold make
    rw [h1, h2]; exact h4
  | append_singleton l o ih =>
    rw [run_snoc]
    obtain ⟨m', n', h1, h2, -, -, h5, -⟩ := apply_eq (run (make g m n) l) o
    rw [h1, h2]; exact h5

/-- After any calls all the entries of the matrix can be read, and the matrix has the sizes last asked. -/
theorem C104_get (g : Nat → K) (m n : Nat) (l : List (Op K)) (i j : Nat) :
    (i < (run (make g m n) l).get.m ∧ j < (run (make g m n) l).get.n ↔ ∃ a, (run (make g m n) l).read (run (make g m n) l).get i j = some a) ∧
    ((make g m n).get.m = m ∧ (make g m n).get.n = n) ∧
    (∀ g' m' n', (run (make g m n) (l ++ [.resize g' m' n'])).get.m = m' ∧ (run (make g m n) (l ++ [.resize g' m' n'])).get.n = n') := by
  have hr := room g m n l
  refine ⟨?_, ⟨(resize_eq _ _ _ _).1, (resize_eq _ _ _ _).2.1⟩, fun g' m' n' => ?_⟩
  · generalize run (make g m n) l = b at *
    unfold Buf.read
    constructor
    · rintro ⟨hi, hj⟩
      rw [if_pos ⟨rfl, hi, hj, lt_of_lt_of_le (index_lt hi hj) hr⟩]
      exact ⟨_, rfl⟩
    · rintro ⟨a, ha⟩
      split at ha
      · rename_i h; exact ⟨h.2.1, h.2.2.1⟩
      · cases ha
  · rw [run_snoc]
    exact ⟨(resize_eq _ _ _ _).1, (resize_eq _ _ _ _).2.1⟩

/-- After an assignment, in any state, the matrix is the one assigned. -/
theorem C104_assign (b : Buf K) (g : Nat → K) (m n : Nat) (f : Nat → Nat → K) : Shows (b.assign g m n f) (b.assign g m n f).get m n f := by
  obtain ⟨h1, h2, -, h4, -⟩ := resize_eq b g m n
  refine ⟨h1, h2, fun i hi j hj => ?_⟩
  have hk := index_lt hi hj
  show (b.assign g m n f).read ⟨(b.resize g m n).id, (b.resize g m n).m, (b.resize g m n).n⟩ i j = _
  rw [h1, h2]
  have hc : (b.resize g m n).id = (b.assign g m n f).id ∧ i < m ∧ j < n ∧ i + j * m < (b.assign g m n f).size := ⟨rfl, hi, hj, lt_of_lt_of_le hk h4⟩
  unfold Buf.read
  rw [if_pos hc]
  show some (if i + j * m < m * n then f ((i + j * m) % m) ((i + j * m) / m) else _) = _
  rw [if_pos hk, Nat.add_mul_mod_self_right, Nat.mod_eq_of_lt hi, Nat.add_mul_div_right _ _ (by omega), Nat.div_eq_of_lt hi, Nat.zero_add]

/-! ## Allocations -/

theorem run_mono (b : Buf K) (l : List (Op K)) : b.size ≤ (run b l).size ∧ b.id ≤ (run b l).id := by
  induction l using List.reverseRecOn with
  | nil => exact ⟨le_refl _, le_refl _⟩
  | append_singleton l o ih =>
    rw [run_snoc]
    obtain ⟨m', n', -, -, -, h4, -, h6, h7⟩ := apply_eq (run b l) o
    refine ⟨le_trans ih.1 h4, le_trans ih.2 ?_⟩
    by_cases h : m' * n' ≤ (run b l).size
    · rw [(h6 h).1]
    · rw [(h7 (by omega)).1]; omega

/-- A call allocates iff the buffer is too small for what is asked. The number of allocations, the one of the constructor included, is at most the logarithm of the
largest size asked, whatever the number of calls; the buffer is never more than twice the largest size. -/
theorem C104_allocations (g : Nat → K) (m n : Nat) (l : List (Op K)) (S : Nat) (hS : m * n ≤ S) (hl : ∀ o ∈ l, o.room ≤ S) :
    2 ^ (run (make g m n) l).id ≤ S + 1 ∧ (run (make g m n) l).size ≤ 2 * S ∧
    ∀ o : Op K, ((o.apply (run (make g m n) l)).id ≠ (run (make g m n) l).id ↔ (run (make g m n) l).size < o.room) := by
  have step : ∀ (b : Buf K) (o : Op K), o.room ≤ S → 2 ^ b.id ≤ S + 1 ∧ b.size ≤ 2 * S ∧ 2 ^ (b.id + 1) ≤ b.size + 2 →
      2 ^ (o.apply b).id ≤ S + 1 ∧ (o.apply b).size ≤ 2 * S ∧ 2 ^ ((o.apply b).id + 1) ≤ (o.apply b).size + 2 := by
    intro b o ho ⟨i1, i2, i3⟩
    obtain ⟨m', n', -, -, h3, -, -, h6, h7⟩ := apply_eq b o
    by_cases h : m' * n' ≤ b.size
    · rw [(h6 h).1, (h6 h).2]; exact ⟨i1, i2, i3⟩
    · rw [(h7 (by omega)).1, (h7 (by omega)).2, pow_succ (n := b.id + 1)]
      rw [h3] at ho
      refine ⟨by omega, by omega, by omega⟩
  have inv : 2 ^ (run (make g m n) l).id ≤ S + 1 ∧ (run (make g m n) l).size ≤ 2 * S ∧ 2 ^ ((run (make g m n) l).id + 1) ≤ (run (make g m n) l).size + 2 := by
    induction l using List.reverseRecOn with
    | nil => exact step ⟨0, 0, 0, 0, g⟩ (.resize g m n) hS ⟨by simp, by simp, by simp⟩
    | append_singleton l o ih =>
      rw [run_snoc]
      exact step _ o (hl o (by simp)) (ih (fun o ho => hl o (by simp [ho])))
  refine ⟨inv.1, inv.2.1, fun o => ?_⟩
  obtain ⟨m', n', -, -, h3, -, -, h6, h7⟩ := apply_eq (run (make g m n) l) o
  rw [h3]
  constructor
  · intro h
    by_contra hc
    exact h (h6 (by omega)).1
  · intro h
    rw [(h7 h).1]; omega

/-- A map obtained before some calls still reads the buffer iff none of them asked for more than the size of the buffer at the time. -/
theorem C104_map (g : Nat → K) (m n : Nat) (l l' : List (Op K)) (i j : Nat) (hi : i < (run (make g m n) l).get.m) (hj : j < (run (make g m n) l).get.n) :
    (∃ a, (run (run (make g m n) l) l').read (run (make g m n) l).get i j = some a) ↔ ∀ o ∈ l', o.room ≤ (run (make g m n) l).size := by
  have hr := room g m n l
  generalize run (make g m n) l = b at *
  have key : ((run b l').id = b.id ↔ ∀ o ∈ l', o.room ≤ b.size) ∧ ((run b l').id = b.id → (run b l').size = b.size) := by
    induction l' using List.reverseRecOn with
    | nil => exact ⟨⟨fun _ o ho => (by cases ho), fun _ => rfl⟩, fun _ => rfl⟩
    | append_singleton l' o ih =>
      rw [run_snoc]
      obtain ⟨m', n', -, -, h3, -, -, h6, h7⟩ := apply_eq (run b l') o
      have hm := (run_mono b l').2
      by_cases h : m' * n' ≤ (run b l').size
      · rw [(h6 h).1, (h6 h).2]
        refine ⟨⟨fun e o' ho' => ?_, fun e => ?_⟩, ih.2⟩
        · rcases List.mem_append.1 ho' with h' | h'
          · exact ih.1.1 e o' h'
          · rw [List.mem_singleton.1 h', h3, ← ih.2 e]; exact h
        · exact ih.1.2 (fun o' ho' => e o' (by simp [ho']))
      · rw [(h7 (by omega)).1]
        refine ⟨⟨fun e => by omega, fun e => ?_⟩, fun e => by omega⟩
        exfalso
        have e1 := ih.1.2 (fun o' ho' => e o' (by simp [ho']))
        have e2 := e o (by simp)
        rw [h3] at e2
        have := ih.2 e1
        omega
  unfold Buf.read
  rw [← key.1]
  constructor
  · rintro ⟨a, ha⟩
    split at ha
    · rename_i h; exact h.1.symm
    · cases ha
  · intro e
    rw [if_pos ⟨e.symm, hi, hj, by rw [key.2 e]; exact lt_of_lt_of_le (index_lt hi hj) hr⟩]
    exact ⟨_, rfl⟩

/-! ## What a resize keeps -/

/-- A resize with the same number of rows, without allocation, keeps the entries of the columns that remain. -/
theorem C104_columns (b : Buf K) (g : Nat → K) (n : Nat) (h : b.m * n ≤ b.size) (i j : Nat) (hj : j < n) (hj' : j < b.n) :
    (b.resize g b.m n).read (b.resize g b.m n).get i j = b.read b.get i j := by
  obtain ⟨h1, h2, -, -, h5, -⟩ := resize_eq b g b.m n
  obtain ⟨e1, e2, e3⟩ := h5 h
  unfold Buf.read Buf.get
  simp only
  rw [h1, h2, e2, e3]
  simp [hj, hj']

/-- In general a resize does not keep the entries: with fewer rows they move, and with more columns than the room they are lost. -/
theorem C104_keep_false : (∃ (b : Buf Nat) (g : Nat → Nat), Shows b b.get 2 2 (fun i j => 2 * i + j) ∧ (b.resize g 1 2).read (b.resize g 1 2).get 0 1 ≠ b.read b.get 0 1) ∧
    (∃ (b : Buf Nat) (g : Nat → Nat), Shows b b.get 2 2 (fun i j => 2 * i + j) ∧ (b.resize g 2 5).read (b.resize g 2 5).get 1 1 ≠ b.read b.get 1 1) := by
  constructor
  · exact ⟨(make (fun _ => 0) 2 2).assign (fun _ => 0) 2 2 (fun i j => 2 * i + j), fun _ => 0, C104_assign _ _ _ _ _, by decide⟩
  · exact ⟨(make (fun _ => 0) 2 2).assign (fun _ => 0) 2 2 (fun i j => 2 * i + j), fun _ => 0, C104_assign _ _ _ _ _, by decide⟩

/-! ## Concrete cases -/

/-- Two allocations: for 2 by 3, then for 5 by 5 (the buffer has 12 places); 4 by 3 and 5 by 10 need none -/
example : (run (make (fun _ => (0 : Nat)) 2 3) [.resize (fun _ => 0) 4 3, .assign (fun _ => 0) 5 5 (fun i j => i + j), .resize (fun _ => 0) 5 10]).id = 2 := by decide

example : ∀ o ∈ [Op.resize (fun _ => (0 : Nat)) 4 3, .assign (fun _ => 0) 5 5 (fun i j => i + j)], o.room ≤ 25 := by
  intro o ho
  simp only [List.mem_cons, List.not_mem_nil, or_false] at ho
  rcases ho with h | h <;> subst h <;> decide

/-- The map of the constructor is lost by the second call and not by the first -/
example : (run (make (fun _ => (0 : Nat)) 2 3) [.resize (fun _ => 0) 4 3]).read (make (fun _ => (0 : Nat)) 2 3).get 1 2 = some 0 ∧
    (run (make (fun _ => (0 : Nat)) 2 3) [.resize (fun _ => 0) 4 3, .resize (fun _ => 0) 5 5]).read (make (fun _ => (0 : Nat)) 2 3).get 1 2 = none := by decide

end Verif.C104
