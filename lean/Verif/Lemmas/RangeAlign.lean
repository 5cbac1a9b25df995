import Verif.Properties.C02_RangeCounting
/-!
# Image of a history of ranges by a strictly increasing map
-/
set_option autoImplicit false

namespace Verif.RangeAlign
open Verif Verif.C02

/-- `g` is strictly increasing. -/
def SMono (g : Int → Int) : Prop := ∀ a b, a < b → g a < g b

/-- Image of a range: the range between the images of its ends. -/
def img (g : Int → Int) (r : Range) : Range := ⟨g r.start, g (r.start + r.dim) - g r.start⟩

def mapCall (g : Int → Int) : Call → Call
  | .add r => .add (img g r)
  | .remove r => .remove (img g r)

theorem SMono.le {g : Int → Int} (hg : SMono g) {a b : Int} (h : a ≤ b) : g a ≤ g b := by
  rcases Int.lt_or_eq_of_le h with h | h
  · exact Int.le_of_lt (hg a b h)
  · rw [h]; exact Int.le_refl _

theorem SMono.lt_iff {g : Int → Int} (hg : SMono g) {a b : Int} : g a < g b ↔ a < b := by
  constructor
  · intro h
    by_cases hab : a < b
    · exact hab
    · have := hg.le (show b ≤ a by omega); omega
  · exact hg a b

theorem SMono.le_iff {g : Int → Int} (hg : SMono g) {a b : Int} : g a ≤ g b ↔ a ≤ b := by
  have := hg.lt_iff (a := b) (b := a); omega

theorem SMono.up {g : Int → Int} (hg : SMono g) (n : Nat) : g 0 + n ≤ g n := by
  induction n with
  | zero => simp
  | succ n ih => have := hg n (n + 1) (by omega); push_cast; omega

theorem SMono.down {g : Int → Int} (hg : SMono g) (n : Nat) : g (-(n : Int)) ≤ g 0 - n := by
  induction n with
  | zero => simp
  | succ n ih => have := hg (-((n + 1 : Nat) : Int)) (-(n : Int)) (by omega); push_cast at *; omega

/-- Every integer is between the images of two consecutive integers. -/
theorem SMono.floor {g : Int → Int} (hg : SMono g) (k : Int) : ∃ j, g j ≤ k ∧ k < g (j + 1) := by
  have key : ∀ (n : Nat) (a : Int), g a ≤ k → k < g (a + n) → ∃ j, g j ≤ k ∧ k < g (j + 1) := by
    intro n
    induction n with
    | zero => intro a h1 h2; simp at h2; omega
    | succ n ih =>
      intro a h1 h2
      by_cases h : g (a + 1) ≤ k
      · exact ih (a + 1) h (by rw [show a + 1 + (n : Int) = a + ((n + 1 : Nat) : Int) by push_cast; omega]; exact h2)
      · exact ⟨a, h1, by omega⟩
  have h1 := hg.down (k - g 0).natAbs
  have h2 := hg.up ((k - g 0).natAbs + 1)
  refine key ((k - g 0).natAbs + ((k - g 0).natAbs + 1)) (-((k - g 0).natAbs : Int)) (by omega) ?_
  rw [show -(((k - g 0).natAbs : Nat) : Int) + (((k - g 0).natAbs + ((k - g 0).natAbs + 1) : Nat) : Int)
    = (((k - g 0).natAbs + 1 : Nat) : Int) by push_cast; omega]
  push_cast at h2 ⊢
  omega

theorem in_img {g : Int → Int} (hg : SMono g) {r : Range} {j k : Int} (h1 : g j ≤ k) (h2 : k < g (j + 1)) :
    In (img g r) k ↔ In r j := by
  simp only [In, img]
  have a1 := hg.le_iff (a := r.start) (b := j)
  have a2 := hg.lt_iff (a := r.start) (b := j + 1)
  have a3 := hg.lt_iff (a := j) (b := r.start + r.dim)
  have a4 := hg.le_iff (a := j + 1) (b := r.start + r.dim)
  have a5 := hg.le_iff (a := r.start) (b := j)
  constructor
  · rintro ⟨h3, h4⟩
    constructor
    · have := a2.mp (by omega); omega
    · exact a3.mp (by omega)
  · rintro ⟨h3, h4⟩
    constructor
    · have := a1.mpr h3; omega
    · have := a4.mpr (by omega); omega

theorem net_map {g : Int → Int} (hg : SMono g) {j k : Int} (h1 : g j ≤ k) (h2 : k < g (j + 1)) :
    ∀ h, net (h.map (mapCall g)) k = net h j
  | [] => rfl
  | .add r :: h => by
    simp only [List.map_cons, mapCall, net, net_map hg h1 h2 h, in_img hg h1 h2]
  | .remove r :: h => by
    simp only [List.map_cons, mapCall, net, net_map hg h1 h2 h, in_img hg h1 h2]

theorem canonical_img {g : Int → Int} (hg : SMono g) {rs : List Range} {h : List Call}
    (hc : Canonical rs (fun k => 0 < net h k)) :
    Canonical (rs.map (img g)) (fun k => 0 < net (h.map (mapCall g)) k) := by
  refine ⟨?_, ?_, ?_⟩
  · intro r hr
    obtain ⟨r', hr', rfl⟩ := List.mem_map.mp hr
    have := hc.nonempty r' hr'
    have := hg r'.start (r'.start + r'.dim) (by omega)
    simp only [img]; omega
  · rw [List.pairwise_map]
    refine hc.separated.imp ?_
    intro a b hab
    have := hg _ _ hab
    simp only [img]; omega
  · intro k
    obtain ⟨j, h1, h2⟩ := hg.floor k
    rw [net_map hg h1 h2, ← hc.cover j]
    constructor
    · rintro ⟨r, hr, hk⟩
      obtain ⟨r', hr', rfl⟩ := List.mem_map.mp hr
      exact ⟨r', hr', (in_img hg h1 h2).mp hk⟩
    · rintro ⟨r, hr, hk⟩
      exact ⟨img g r, List.mem_map.mpr ⟨r, hr, rfl⟩, (in_img hg h1 h2).mpr hk⟩

theorem img_nonneg {g : Int → Int} (hg : SMono g) {r : Range} (h : 0 ≤ r.dim) : 0 ≤ (img g r).dim := by
  have := hg.le (show r.start ≤ r.start + r.dim by omega)
  simp only [img]; omega

/-- Some integer of the range is uncovered iff some integer of its image is. -/
theorem uncovered_img {g : Int → Int} (hg : SMono g) {r : Range} {h : List Call} :
    (∃ k, In (img g r) k ∧ net (h.map (mapCall g)) k = 0) ↔ ∃ j, In r j ∧ net h j = 0 := by
  constructor
  · rintro ⟨k, hk, hn⟩
    obtain ⟨j, h1, h2⟩ := hg.floor k
    exact ⟨j, (in_img hg h1 h2).mp hk, by rw [← net_map hg h1 h2]; exact hn⟩
  · rintro ⟨j, hj, hn⟩
    have h1 : g j ≤ g j := Int.le_refl _
    have h2 := hg j (j + 1) (by omega)
    exact ⟨g j, (in_img hg h1 h2).mpr hj, by rw [net_map hg h1 h2]; exact hn⟩

end Verif.RangeAlign
