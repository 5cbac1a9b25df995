import Verif.Model.RobotLoading
import Mathlib.Data.List.Nodup
/-!
# C109: the configuration of a robot that is loaded
-/
set_option autoImplicit false

namespace Verif.C109
open Verif Verif.Rob Verif.Load

variable {K : Type}

/-! ## Specification -/

/-- The names of the joints are distinct and the configuration by default has the parameters of each joint (RBDyn). -/
structure Loaded (js : List Joint) (q0 : List (List K)) : Prop where
  names : (js.map Joint.name).Nodup
  sizes : q0.map List.length = js.map Joint.params

/-- What a user asks for a joint: the values given under its name, if there are as many as it has parameters; otherwise the values by default -/
def Wanted (given : List (Nat × List K)) (j : Joint) (default q : List K) : Prop :=
  (∃ v, (j.name, v) ∈ given ∧ v.length = j.params ∧ q = v) ∨ ((∀ v, (j.name, v) ∈ given → v.length ≠ j.params) ∧ q = default)

/-! ## Proofs -/

theorem index_some {js : List Joint} {n j : Nat} (h : index js n = some j) : ∃ a, js[j]? = some a ∧ a.name = n := by
  unfold index at h
  rw [List.findIdx?_eq_some_iff_getElem] at h
  obtain ⟨hj, h1, -⟩ := h
  exact ⟨js[j], by simp [hj], by simpa using h1⟩

theorem index_none {js : List Joint} {n : Nat} (h : index js n = none) : ∀ j ∈ js, j.name ≠ n := by
  unfold index at h
  rw [List.findIdx?_eq_none_iff] at h
  intro j hj e
  simpa [e] using h j hj

/-- An index is the only one with its name. -/
theorem name_inj {js : List Joint} (hn : (js.map Joint.name).Nodup) {i j : Nat} {a b : Joint} (ha : js[i]? = some a) (hb : js[j]? = some b) (e : a.name = b.name) : i = j := by
  obtain ⟨hi, rfl⟩ := List.getElem?_eq_some_iff.1 ha
  obtain ⟨hj, rfl⟩ := List.getElem?_eq_some_iff.1 hb
  exact (List.Nodup.getElem_inj_iff hn (hi := by simpa using hi) (hj := by simpa using hj)).1 (by simpa using e)

theorem configure_spec {js : List Joint} (hn : (js.map Joint.name).Nodup) (given : List (Nat × List K)) (hk : (given.map Prod.fst).Nodup) (q0 : List (List K))
    (hs : q0.map List.length = js.map Joint.params) :
    ∃ q, configure js given q0 = some q ∧ q.map List.length = js.map Joint.params ∧
      ∀ (i : Nat) (j : Joint) (d : List K), js[i]? = some j → q0[i]? = some d → ∃ v, q[i]? = some v ∧ Wanted given j d v := by
  induction given generalizing q0 with
  | nil => exact ⟨q0, rfl, hs, fun i j d _ hd => ⟨d, hd, .inr ⟨by simp, rfl⟩⟩⟩
  | cons g l ih =>
    obtain ⟨n, v⟩ := g
    simp only [List.map_cons, List.nodup_cons] at hk
    have hnot : ∀ w, (n, w) ∉ l := fun w hw => hk.1 (List.mem_map.2 ⟨_, hw, rfl⟩)
    cases hi : index js n with
    | none =>
      obtain ⟨q, e, h1, h2⟩ := ih hk.2 q0 hs
      refine ⟨q, by simp only [configure, step, hi, Option.bind_some, e], h1, fun i j d hj hd => ?_⟩
      obtain ⟨w, hw, hW⟩ := h2 i j d hj hd
      have hne : j.name ≠ n := index_none hi j (List.mem_of_getElem? hj)
      refine ⟨w, hw, ?_⟩
      unfold Wanted at hW ⊢
      simp only [List.mem_cons, Prod.mk.injEq, hne, false_and, false_or]
      exact hW
    | some k =>
      obtain ⟨a, ha, rfl⟩ := index_some hi
      have hlen : q0.length = js.length := by simpa using congrArg List.length hs
      obtain ⟨hk', rfl⟩ := List.getElem?_eq_some_iff.1 ha
      have hq : q0[k]? = some q0[k] := List.getElem?_eq_getElem (by omega)
      have hold : (q0[k]'(by omega)).length = (js[k]).params := by
        have := congrArg (fun l => l[k]?) hs
        simpa [hq, hk'] using this
      by_cases hl : v.length = (js[k]).params
      · have hs' : (q0.set k v).map List.length = js.map Joint.params := by
          rw [← hs]
          apply List.ext_getElem (by simp)
          intro i h1 h2
          simp only [List.getElem_map, List.getElem_set]
          split
          · next h => subst h; rw [hl, hold]
          · rfl
        obtain ⟨q, e, h1, h2⟩ := ih hk.2 (q0.set k v) hs'
        refine ⟨q, ?_, h1, fun i j d hj hd => ?_⟩
        · simp only [configure, step, hi, hq]
          rw [if_neg (by rw [hold, hl]; simp)]
          exact e
        · by_cases hik : i = k
          · subst hik
            obtain ⟨w, hw, hW⟩ := h2 i j v hj (by simp [show i < q0.length by omega])
            have hj' : js[i] = j := by rw [List.getElem?_eq_getElem hk'] at hj; exact Option.some.inj hj
            refine ⟨w, hw, .inl ⟨v, by rw [hj']; simp, by rw [hl, hj'], ?_⟩⟩
            rcases hW with ⟨x, hx, -⟩ | ⟨-, rfl⟩
            · rw [hj'] at hnot; exact absurd hx (hnot x)
            · rfl
          · obtain ⟨w, hw, hW⟩ := h2 i j d hj (by rw [List.getElem?_set_ne (fun h => hik h.symm)]; exact hd)
            have hne : j.name ≠ (js[k]).name := fun e => hik (name_inj hn hj (List.getElem?_eq_getElem hk') e)
            refine ⟨w, hw, ?_⟩
            unfold Wanted at hW ⊢
            simp only [List.mem_cons, Prod.mk.injEq, hne, false_and, false_or]
            exact hW
      · obtain ⟨q, e, h1, h2⟩ := ih hk.2 q0 hs
        refine ⟨q, ?_, h1, fun i j d hj hd => ?_⟩
        · simp only [configure, step, hi, hq]
          rw [if_pos (by rw [hold]; exact fun h => hl h.symm)]
          exact e
        · obtain ⟨w, hw, hW⟩ := h2 i j d hj hd
          refine ⟨w, hw, ?_⟩
          unfold Wanted at hW ⊢
          by_cases hik : i = k
          · subst hik
            have hj' : js[i] = j := by rw [List.getElem?_eq_getElem hk'] at hj; exact Option.some.inj hj
            rcases hW with ⟨x, hx, -⟩ | ⟨h3, rfl⟩
            · rw [hj'] at hnot; exact absurd hx (hnot x)
            · refine .inr ⟨fun x hx => ?_, rfl⟩
              rcases List.mem_cons.1 hx with hx | hx
              · rw [(Prod.mk.inj hx).2, ← hj']; exact hl
              · exact h3 x hx
          · have hne : j.name ≠ (js[k]).name := fun e => hik (name_inj hn hj (List.getElem?_eq_getElem hk') e)
            simp only [List.mem_cons, Prod.mk.injEq, hne, false_and, false_or]
            exact hW

theorem flatten_get (q : List (List K)) (i k : Nat) (v : List K) (hv : q[i]? = some v) (hk : k < v.length) :
    q.flatten[((q.take i).map List.length).sum + k]? = v[k]? := by
  induction q generalizing i with
  | nil => simp at hv
  | cons a q ih =>
    cases i with
    | zero =>
      simp at hv
      subst hv
      simp [List.getElem?_append_left hk]
    | succ i =>
      simp only [List.getElem?_cons_succ] at hv
      have := ih i hv
      simp only [List.flatten_cons, List.take_succ_cons, List.map_cons, List.sum_cons]
      rw [List.getElem?_append_right (by omega), ← this]
      congr 1
      omega

/-! ## Theorems -/

/-- Each joint gets the values given under its name, provided their number fits, and keeps those by default otherwise; names that are not those of joints have no effect; there
is no access out of range. -/
theorem C109_configuration {js : List Joint} {q0 : List (List K)} (h : Loaded js q0) (given : List (Nat × List K)) (hk : (given.map Prod.fst).Nodup) :
    ∃ q, configure js given q0 = some q ∧ q.length = js.length ∧
      ∀ (i : Nat) (j : Joint) (d : List K), js[i]? = some j → q0[i]? = some d → ∃ v, q[i]? = some v ∧ v.length = j.params ∧ Wanted given j d v := by
  obtain ⟨q, e, h1, h2⟩ := configure_spec h.names given hk q0 h.sizes
  refine ⟨q, e, by simpa using congrArg List.length h1, fun i j d hj hd => ?_⟩
  obtain ⟨v, hv, hW⟩ := h2 i j d hj hd
  refine ⟨v, hv, ?_, hW⟩
  have := congrArg (fun l => l[i]?) h1
  simpa [hv, hj] using this

/-- The initial value of the variable of the robot has the values of each joint at the place of the joint, and as many coefficients as the robot has parameters. -/
theorem C109_vector {js : List Joint} {q0 : List (List K)} (h : Loaded js q0) (given : List (Nat × List K)) (hk : (given.map Prod.fst).Nodup) :
    ∃ q, configure js given q0 = some q ∧ (vector q).length = total Joint.params js ∧
      ∀ (i : Nat) (j : Joint) (d : List K), js[i]? = some j → q0[i]? = some d → ∃ v, Wanted given j d v ∧ ∀ k < j.params, (vector q)[pos Joint.params js i + k]? = v[k]? := by
  obtain ⟨q, e, h1, h2⟩ := configure_spec h.names given hk q0 h.sizes
  refine ⟨q, e, by simp [vector, List.length_flatten, h1, total], fun i j d hj hd => ?_⟩
  obtain ⟨v, hv, hW⟩ := h2 i j d hj hd
  refine ⟨v, hW, fun k hk => ?_⟩
  have hl : v.length = j.params := by
    have := congrArg (fun l => l[i]?) h1
    simpa [hv, hj] using this
  have hp : pos Joint.params js i = ((q.take i).map List.length).sum := by
    unfold pos
    rw [List.map_take, List.map_take, h1]
  rw [hp]
  exact flatten_get q i k v hv (by omega)

/-- The order in which the map is read does not matter. -/
theorem C109_order {js : List Joint} {q0 : List (List K)} (h : Loaded js q0) (g g' : List (Nat × List K)) (hk : (g.map Prod.fst).Nodup) (hp : g.Perm g') :
    configure js g q0 = configure js g' q0 := by
  have hk' : (g'.map Prod.fst).Nodup := (hp.map _).nodup_iff.1 hk
  obtain ⟨q, e, l1, h1⟩ := C109_configuration h g hk
  obtain ⟨q', e', l2, h2⟩ := C109_configuration h g' hk'
  rw [e, e', Option.some.injEq]
  have hl0 : q0.length = js.length := by simpa using congrArg List.length h.sizes
  have inj : ∀ (n : Nat) (v w : List K), (n, v) ∈ g → (n, w) ∈ g → v = w := by
    intro n v w hv hw
    obtain ⟨i, hi, ei⟩ := List.getElem_of_mem hv
    obtain ⟨j, hj, ej⟩ := List.getElem_of_mem hw
    have : i = j := (List.Nodup.getElem_inj_iff hk (hi := by simpa using hi) (hj := by simpa using hj)).1 (by simp [ei, ej])
    subst this
    rw [ei] at ej
    exact (Prod.mk.inj ej).2
  apply List.ext_getElem (by omega)
  intro i hi hi'
  obtain ⟨v, hv, -, hW⟩ := h1 i (js[i]'(by omega)) (q0[i]'(by omega)) (by simp) (by simp)
  obtain ⟨v', hv', -, hW'⟩ := h2 i (js[i]'(by omega)) (q0[i]'(by omega)) (by simp) (by simp)
  rw [List.getElem?_eq_getElem hi, Option.some.injEq] at hv
  rw [List.getElem?_eq_getElem hi', Option.some.injEq] at hv'
  rw [hv, hv']
  rcases hW with ⟨x, hx, lx, rfl⟩ | ⟨hx, rfl⟩ <;> rcases hW' with ⟨y, hy, ly, rfl⟩ | ⟨hy, rfl⟩
  · exact inj _ _ _ hx (hp.mem_iff.2 hy)
  · exact absurd lx (hy _ (hp.mem_iff.1 hx))
  · exact absurd ly (hx _ (hp.mem_iff.2 hy))
  · rfl

/-! ## The hypotheses can be met -/

/-- A free flyer and two joints; a configuration for the second joint, one of the wrong size for the third, one for an unknown joint -/
example : Loaded (K := Nat) [⟨10, 7, 6⟩, ⟨11, 1, 1⟩, ⟨12, 1, 1⟩] [[1, 0, 0, 0, 0, 0, 0], [0], [0]] ∧
    configure [⟨10, 7, 6⟩, ⟨11, 1, 1⟩, ⟨12, 1, 1⟩] [(5, [3]), (11, [4]), (12, [5, 6])] [[1, 0, 0, 0, 0, 0, 0], [0], [0]] = some [[1, 0, 0, 0, 0, 0, 0], [4], [0]] :=
  ⟨⟨by decide, by decide⟩, by decide⟩

end Verif.C109
