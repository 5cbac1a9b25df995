import Verif.Model.BasicLinearConstraint
import Verif.Properties.C83_FirstOrderProvider
/-!
# C84 - a basic linear constraint stands for the set it was built for
-/
set_option autoImplicit false
set_option linter.unusedSectionVars false

namespace Verif.C84
open Verif Verif.VV Verif.Prov Verif.BLC Verif.C83

variable {K : Type} (geo : Nat → Geo) (tr : Nat → Range) (euc : Nat → Bool)

/-! ## Specification -/

/-- What a number is compared to (enums.h, lines 29-37) -/
def rho [CommRing K] (cr : Rhs) (b : K) : K :=
  match cr with
  | .zero => 0
  | .asGiven => b
  | .opposite => -b

/-- The comparisons (enums.h, lines 12-26) -/
def Holds [LE K] (ct : CType) (f e l u : K) : Prop :=
  match ct with
  | .equal => f = e
  | .greaterThan => l ≤ f
  | .lowerThan => f ≤ u
  | .doubleSided => l ≤ f ∧ f ≤ u

/-- What a constraint says of the values `x` of the variables, from what can be read of it: its type, its convention, its variables, its jacobians and its vectors -/
def Sat [CommRing K] [LE K] (C : Cstr K) (x : Nat → Nat → K) : Prop :=
  ∃ J : Nat → Mat K, (∀ v ∈ C.P.vars, C.P.jacobian geo tr v = .ok () (J v)) ∧ ∀ i < C.P.m,
    Holds C.ct ((C.P.vars.map (fun v => ∑ c ∈ Finset.range (J v).cols, (J v).at_ i c * x v c)).sum) (rho C.cr (C.e.v i)) (rho C.cr (C.l.v i)) (rho C.cr (C.u.v i))

/-- The row `i` of the sum of the products of the matrices by the values of the variables -/
def combo [CommRing K] (As : List (Mat K)) (xs : List Nat) (x : Nat → Nat → K) (i : Nat) : K := ((As.zip xs).map (fun t => ∑ c ∈ Finset.range t.1.cols, t.1.at_ i c * x t.2 c)).sum

/-- The matrices go with the variables: same number, Euclidean variables, right sizes, and two variables of the list are the same one or have nothing in common -/
def Fits (m : Nat) (As : List (Mat K)) (xs : List Nat) : Prop :=
  As.length = xs.length ∧ (∀ t ∈ As.zip xs, euc t.2 = true ∧ t.1.rows = m ∧ t.1.cols = (geo t.2).size) ∧ xs.Pairwise (fun a b => a = b ∨ (geo a).intersects (geo b) = false)

/-- The tangent space of a Euclidean variable has its size. -/
def EucOk : Prop := ∀ v, euc v = true → (tr v).dim = (geo v).size

/-! ## One term -/

theorem find_some_of_mem {P : Provider K} (hi : Inv geo tr P) (v : Nat) (hv : v ∈ P.vars) : ∃ M, find P.jac v = some M := (hi.keys v).1 hv

theorem addTerm_spec (he : EucOk geo tr euc) (mem : Memory K) (C : Cstr K) (hi : Inv geo tr C.P) (A : Mat K) (v : Nat) (hs : 0 < (geo v).size) :
    ((euc v = true ∧ A.rows = C.P.m ∧ A.cols = (geo v).size ∧ ∀ w ∈ C.P.vars, w = v ∨ (geo w).intersects (geo v) = false) ∧
      ∃ P', addTerm geo tr euc mem C A v = .ok { C with P := P' } () ∧ Inv geo tr P' ∧ P'.m = C.P.m ∧ P'.vars = (if v ∈ C.P.vars then C.P.vars else C.P.vars ++ [v]) ∧
        ∀ w, find P'.jac w = if w = v then some A else find C.P.jac w) ∨
    (¬(euc v = true ∧ A.rows = C.P.m ∧ A.cols = (geo v).size ∧ ∀ w ∈ C.P.vars, w = v ∨ (geo w).intersects (geo v) = false) ∧ ∃ C', addTerm geo tr euc mem C A v = .throw C') := by
  unfold addTerm
  by_cases h1 : euc v = false
  · rw [if_pos h1]; exact Or.inr ⟨fun h => (by rw [h1] at h; exact absurd h.1 (by simp)), _, rfl⟩
  rw [if_neg h1]
  have h1' : euc v = true := by simpa using h1
  by_cases h2 : A.rows ≠ C.P.m
  · rw [if_pos h2]; exact Or.inr ⟨fun h => h2 h.2.1, _, rfl⟩
  rw [if_neg h2]
  have h2' : A.rows = C.P.m := by simpa using h2
  by_cases h3 : A.cols ≠ (geo v).size
  · rw [if_pos h3]; exact Or.inr ⟨fun h => h3 h.2.2.1, _, rfl⟩
  rw [if_neg h3]
  have h3' : A.cols = (geo v).size := by simpa using h3
  have hcols : A.cols = (tr v).dim.toNat := by rw [h3', he v h1']; simp
  unfold Provider.add
  by_cases h4 : C.P.vars.any (fun x => (geo x).contains (geo v)) = true
  · rw [if_pos h4]
    obtain ⟨y, hy, hc⟩ := List.any_eq_true.1 h4
    have hint : (geo y).intersects (geo v) = true := common _ _ (geo v) hc (contains_self _ hs)
    by_cases hv : v ∈ C.P.vars
    · obtain ⟨M, hM⟩ := (hi.keys v).1 hv
      left
      refine ⟨⟨h1', h2', h3', fun w hw => ?_⟩, C.P.write v A, ?_, inv_put geo tr C.P v A hi hv h2' hcols, rfl, (by rw [if_pos hv]; rfl), fun w => ?_⟩
      · cases hb : (geo w).intersects (geo v) with
        | false => exact Or.inr rfl
        | true => exact Or.inl (hi.apart geo tr w v hw hv hb)
      · simp only [atAssign, hM]
      · by_cases hw : w = v
        · rw [if_pos hw, hw]; exact find_put_self _ _ _
        · rw [if_neg hw]; exact find_put_of_ne _ _ _ _ hw
    · right
      refine ⟨fun h => ?_, C, ?_⟩
      · rcases h.2.2.2 y hy with e | e
        · exact hv (e ▸ hy)
        · rw [hint] at e; cases e
      · have : find C.P.jac v = none := by
          cases hf : find C.P.jac v with
          | none => rfl
          | some M => exact absurd ((hi.keys v).2 ⟨M, hf⟩) hv
        simp only [atAssign, this]
  · rw [if_neg h4]
    have hv : v ∉ C.P.vars := fun hv => h4 (List.any_eq_true.2 ⟨v, hv, contains_self _ hs⟩)
    by_cases h5 : C.P.vars.any (fun x => (geo x).intersects (geo v)) = true
    · rw [if_pos h5]
      obtain ⟨y, hy, hint⟩ := List.any_eq_true.1 h5
      right
      refine ⟨fun h => ?_, _, rfl⟩
      rcases h.2.2.2 y hy with e | e
      · exact hv (e ▸ hy)
      · rw [hint] at e; cases e
    · rw [if_neg h5]
      have hn : ∀ w ∈ C.P.vars, (geo w).intersects (geo v) = false := by
        intro w hw
        cases hb : (geo w).intersects (geo v) with
        | false => rfl
        | true => exact absurd (List.any_eq_true.2 ⟨w, hw, hb⟩) h5
      left
      have hi2 : Inv geo tr (⟨C.P.m, C.P.vars ++ [v], put C.P.jac v ⟨C.P.m, (tr v).dim.toNat, mem.mat v⟩, put C.P.lin v true⟩ : Provider K) := by
        refine ⟨sorted_put _ _ _ hi.sj, sorted_put _ _ _ hi.sl, ?_, ?_, ?_, ?_, ?_⟩
        · intro w hw
          rcases List.mem_append.1 hw with hw | hw
          · exact hi.pos w hw
          · rw [List.mem_singleton.1 hw]; exact hs
        · refine List.pairwise_append.2 ⟨hi.disj, by simp, ?_⟩
          intro a ha b hb
          rw [List.mem_singleton.1 hb]; exact hn a ha
        · intro w
          show w ∈ C.P.vars ++ [v] ↔ _
          by_cases hw : w = v
          · subst hw; rw [find_put_self]; simp
          · rw [find_put_of_ne _ _ _ _ hw, ← hi.keys w]; simp [hw]
        · intro w
          show w ∈ C.P.vars ++ [v] ↔ _
          by_cases hw : w = v
          · subst hw; rw [find_put_self]; simp
          · rw [find_put_of_ne _ _ _ _ hw, ← hi.lkeys w]; simp [hw]
        · intro w M hM
          by_cases hw : w = v
          · subst hw; rw [find_put_self] at hM; rw [← Option.some.inj hM]; exact ⟨rfl, rfl⟩
          · rw [find_put_of_ne _ _ _ _ hw] at hM; exact hi.size w M hM
      refine ⟨⟨h1', h2', h3', fun w hw => Or.inr (hn w hw)⟩,
        Provider.write ⟨C.P.m, C.P.vars ++ [v], put C.P.jac v ⟨C.P.m, (tr v).dim.toNat, mem.mat v⟩, put C.P.lin v true⟩ v A, ?_, inv_put geo tr _ v A hi2 (by simp) h2' hcols, rfl,
        (by rw [if_neg hv]; rfl), fun w => ?_⟩
      · simp only [atAssign, find_put_self]
      · by_cases hw : w = v
        · rw [if_pos hw, hw]; exact find_put_self _ _ _
        · rw [if_neg hw]
          exact (find_put_of_ne _ _ _ _ hw).trans (find_put_of_ne _ _ _ _ hw)

/-! ## All the terms -/

/-- The conditions on the terms, with variables already there -/
def Good (m : Nat) (vars : List Nat) (ts : List (Mat K × Nat)) : Prop :=
  (∀ t ∈ ts, euc t.2 = true ∧ t.1.rows = m ∧ t.1.cols = (geo t.2).size) ∧ (ts.map Prod.snd).Pairwise (fun a b => a = b ∨ (geo a).intersects (geo b) = false) ∧
  ∀ t ∈ ts, ∀ w ∈ vars, w = t.2 ∨ (geo w).intersects (geo t.2) = false

theorem addTerms_spec (he : EucOk geo tr euc) (mem : Memory K) : ∀ (ts : List (Mat K × Nat)) (C : Cstr K), Inv geo tr C.P → (∀ t ∈ ts, 0 < (geo t.2).size) →
    (Good geo euc C.P.m C.P.vars ts ∧ ∃ P', addTerms geo tr euc mem C ts = .ok () { C with P := P' } ∧ Inv geo tr P' ∧ P'.m = C.P.m ∧ (∀ w, w ∈ P'.vars ↔ w ∈ C.P.vars ∨ w ∈ ts.map Prod.snd) ∧
      (∀ w, w ∉ ts.map Prod.snd → find P'.jac w = find C.P.jac w) ∧
      ((ts.map Prod.snd).Nodup → (∀ w ∈ ts.map Prod.snd, w ∉ C.P.vars) → P'.vars = C.P.vars ++ ts.map Prod.snd ∧ ∀ t ∈ ts, find P'.jac t.2 = some t.1)) ∨
    (¬Good geo euc C.P.m C.P.vars ts ∧ addTerms geo tr euc mem C ts = .throw ()) := by
  intro ts
  induction ts with
  | nil =>
    intro C hi _
    left
    refine ⟨⟨by simp, by simp, by simp⟩, C.P, rfl, hi, rfl, by simp, by simp, fun _ _ => ⟨by simp, by simp⟩⟩
  | cons t l ih =>
    intro C hi hs
    unfold addTerms
    rcases addTerm_spec geo tr euc he mem C hi t.1 t.2 (hs t List.mem_cons_self) with ⟨hc, P', hP, hi', hm, hvars, hjac⟩ | ⟨hc, C', hP⟩
    · simp only [hP]
      have hmem : ∀ w, w ∈ P'.vars ↔ w ∈ C.P.vars ∨ w = t.2 := by
        intro w
        rw [hvars]
        by_cases h : t.2 ∈ C.P.vars
        · rw [if_pos h]; constructor
          · exact Or.inl
          · rintro (h' | h')
            · exact h'
            · rw [h']; exact h
        · rw [if_neg h]; simp
      have hgood : Good geo euc C.P.m C.P.vars (t :: l) ↔ Good geo euc P'.m P'.vars l := by
        unfold Good
        rw [hm, List.map_cons, List.pairwise_cons]
        constructor
        · rintro ⟨g1, ⟨g2, g3⟩, g4⟩
          refine ⟨fun s h => g1 s (List.mem_cons_of_mem _ h), g3, fun s h w hw => ?_⟩
          rcases (hmem w).1 hw with hw | hw
          · exact g4 s (List.mem_cons_of_mem _ h) w hw
          · rw [hw]; exact g2 s.2 (List.mem_map_of_mem h)
        · rintro ⟨g1, g2, g3⟩
          refine ⟨?_, ⟨?_, g2⟩, ?_⟩
          · intro s h
            rcases List.mem_cons.1 h with h | h
            · rw [h]; exact ⟨hc.1, hc.2.1, hc.2.2.1⟩
            · exact g1 s h
          · intro b hb
            obtain ⟨s, h, rfl⟩ := List.mem_map.1 hb
            exact g3 s h t.2 ((hmem _).2 (Or.inr rfl))
          · intro s h w hw
            rcases List.mem_cons.1 h with h | h
            · rw [h]; exact hc.2.2.2 w hw
            · exact g3 s h w ((hmem w).2 (Or.inl hw))
      rcases ih { C with P := P' } hi' (fun s h => hs s (List.mem_cons_of_mem _ h)) with ⟨g, P'', e, i1, i2, i3, i4, i5⟩ | ⟨g, e⟩
      · left
        refine ⟨hgood.2 g, P'', e, i1, i2.trans hm, ?_, ?_, ?_⟩
        · intro w
          rw [i3 w]
          show w ∈ P'.vars ∨ _ ↔ _
          rw [hmem w]
          simp [or_assoc]
        · intro w hw
          rw [List.map_cons, List.mem_cons, not_or] at hw
          rw [i4 w hw.2]
          show find P'.jac w = _
          rw [hjac w, if_neg hw.1]
        · intro hn hd
          rw [List.map_cons] at hn
          obtain ⟨n1, n2⟩ := List.nodup_cons.1 hn
          have ht : t.2 ∉ C.P.vars := hd t.2 (by simp)
          obtain ⟨j1, j2⟩ := i5 n2 (fun w hw hw' => by
            rcases (hmem w).1 hw' with h | h
            · exact hd w (by rw [List.map_cons]; exact List.mem_cons_of_mem _ hw) h
            · exact n1 (h ▸ hw))
          refine ⟨?_, ?_⟩
          · rw [j1]
            show P'.vars ++ _ = _
            rw [hvars, if_neg ht]; simp
          · intro s h
            rcases List.mem_cons.1 h with h | h
            · rw [h, i4 t.2 n1]
              show find P'.jac t.2 = _
              rw [hjac, if_pos rfl]
            · exact j2 s h
      · right
        exact ⟨fun h => g (hgood.1 h), e⟩
    · right
      simp only [hP]
      refine ⟨fun h => hc ?_, trivial⟩
      obtain ⟨g1, _, g3⟩ := h
      obtain ⟨a, b, c⟩ := g1 t List.mem_cons_self
      exact ⟨a, b, c, g3 t List.mem_cons_self⟩

theorem zip_map_snd (As : List (Mat K)) (xs : List Nat) (h : As.length = xs.length) : (As.zip xs).map Prod.snd = xs := by
  rw [List.map_snd_zip]; omega

theorem good_iff (m : Nat) (As : List (Mat K)) (xs : List Nat) (h : As.length = xs.length) : Good geo euc m [] (As.zip xs) ↔ Fits geo euc m As xs := by
  unfold Good Fits
  rw [zip_map_snd As xs h]
  simp [h]

theorem inv_make (m : Nat) : Inv geo tr (Prov.make m : Provider K) := Hist.inv geo tr (.make m)

/-- The jacobian of a variable is its entry. -/
theorem jacobian_entry (P : Provider K) (v : Nat) (M : Mat K) (h : find P.jac v = some M) : P.jacobian geo tr v = .ok () M := by
  unfold Provider.jacobian atSub; simp only [h]

/-- What a constraint says depends on its entries. -/
theorem sat_iff [CommRing K] [LE K] (C : Cstr K) (x : Nat → Nat → K) (J : Nat → Mat K) (hJ : ∀ v ∈ C.P.vars, find C.P.jac v = some (J v)) :
    Sat geo tr C x ↔ ∀ i < C.P.m, Holds C.ct ((C.P.vars.map (fun v => ∑ c ∈ Finset.range (J v).cols, (J v).at_ i c * x v c)).sum) (rho C.cr (C.e.v i)) (rho C.cr (C.l.v i))
      (rho C.cr (C.u.v i)) := by
  constructor
  · rintro ⟨J', h1, h2⟩ i hi
    have := h2 i hi
    have e : C.P.vars.map (fun v => ∑ c ∈ Finset.range (J' v).cols, (J' v).at_ i c * x v c) = C.P.vars.map (fun v => ∑ c ∈ Finset.range (J v).cols, (J v).at_ i c * x v c) := by
      refine List.map_congr_left fun v hv => ?_
      have e1 := h1 v hv
      rw [jacobian_entry geo tr C.P v _ (hJ v hv)] at e1
      rw [(Outcome.ok.inj e1).2]
    rw [e] at this; exact this
  · intro h
    exact ⟨J, fun v hv => jacobian_entry geo tr C.P v _ (hJ v hv), h⟩

/-- The sum over the variables of a constraint built from distinct variables -/
theorem combo_eq [CommRing K] (P : Provider K) (As : List (Mat K)) (xs : List Nat) (hl : As.length = xs.length) (hvars : P.vars = xs)
    (hjac : ∀ t ∈ As.zip xs, find P.jac t.2 = some t.1) : ∃ J : Nat → Mat K, (∀ v ∈ P.vars, find P.jac v = some (J v)) ∧
      ∀ (x : Nat → Nat → K) (i : Nat), (P.vars.map (fun v => ∑ c ∈ Finset.range (J v).cols, (J v).at_ i c * x v c)).sum = combo As xs x i := by
  have hmem : ∀ v ∈ P.vars, ∃ t ∈ As.zip xs, t.2 = v := by
    intro v hv
    rw [hvars, ← zip_map_snd As xs hl] at hv
    obtain ⟨t, h, e⟩ := List.mem_map.1 hv
    exact ⟨t, h, e⟩
  refine ⟨fun v => (find P.jac v).getD ⟨0, 0, fun _ _ => 0⟩, ?_, ?_⟩
  · intro v hv
    obtain ⟨t, h, e⟩ := hmem v hv
    simp only [← e, hjac t h, Option.getD_some]
  · intro x i
    unfold combo
    rw [hvars]
    conv_lhs => rw [← zip_map_snd As xs hl]
    rw [List.map_map]
    congr 1
    refine List.map_congr_left fun t ht => ?_
    simp only [Function.comp, hjac t ht, Option.getD_some]

/-! ## The constructors -/

variable (he : EucOk geo tr euc) (mem : Memory K)
include he

/-- Ax = 0, Ax <= 0, Ax >= 0: an object is built iff the type has one side and the matrices go with the variables; otherwise the constructor throws. It stands for the set it was asked for
when the variables are distinct. -/
theorem C84_zero [CommRing K] [LE K] (A : Mat K) (As : List (Mat K)) (xs : List Nat) (hs : ∀ v ∈ xs, 0 < (geo v).size) (ct : CType) :
    ((ct ≠ .doubleSided ∧ Fits geo euc A.rows (A :: As) xs) ∧ ∃ C, makeZero geo tr euc mem (A :: As) xs ct = .ok () C ∧ C.ct = ct ∧ C.cr = .zero ∧ C.P.m = A.rows ∧ (∀ v, v ∈ C.P.vars ↔ v ∈ xs) ∧
      (xs.Nodup → C.P.vars = xs ∧ ∀ x, Sat geo tr C x ↔ ∀ i < A.rows, Holds ct (combo (A :: As) xs x i) 0 0 0)) ∨
    (¬(ct ≠ .doubleSided ∧ Fits geo euc A.rows (A :: As) xs) ∧ makeZero geo tr euc mem (A :: As) xs ct = .throw ()) := by
  unfold makeZero init
  by_cases h1 : ct = .doubleSided
  · right; simp [h1]
  simp only [h1, false_and, if_false]
  by_cases h2 : (A :: As).length ≠ xs.length
  · right; rw [if_pos h2]; exact ⟨fun h => h2 h.2.1, rfl⟩
  rw [if_neg h2]
  have hl : (A :: As).length = xs.length := by omega
  rcases addTerms_spec geo tr euc he mem ((A :: As).zip xs)
      ⟨ct, .zero, Prov.make A.rows, ⟨if useL ct .zero then A.rows else 0, mem.l⟩, ⟨if useU ct .zero then A.rows else 0, mem.u⟩, ⟨if useE ct .zero then A.rows else 0, mem.e⟩⟩
      (inv_make geo tr A.rows) (fun t ht => hs t.2 (List.of_mem_zip ht).2) with ⟨g, P', e, _, i2, i3, _, i5⟩ | ⟨g, e⟩
  · left
    refine ⟨⟨h1, (good_iff geo euc A.rows _ _ hl).1 g⟩, _, e, rfl, rfl, i2, ?_, ?_⟩
    · intro v; rw [i3 v, zip_map_snd _ _ hl]; simp [Prov.make]
    · intro hn
      obtain ⟨j1, j2⟩ := i5 (by rw [zip_map_snd _ _ hl]; exact hn) (by simp [Prov.make])
      rw [zip_map_snd _ _ hl] at j1
      have j1' : P'.vars = xs := by simpa [Prov.make] using j1
      obtain ⟨J, k1, k2⟩ := combo_eq P' _ _ hl j1' j2
      refine ⟨j1', fun x => ?_⟩
      rw [sat_iff geo tr _ x J k1]
      show (∀ i < P'.m, _) ↔ _
      rw [i2]
      simp only [k2, rho]
      rfl
  · right
    exact ⟨fun h => g ((good_iff geo euc A.rows _ _ hl).2 h.2), e⟩

/-- Ax = ±b, Ax <= ±b, Ax >= ±b -/
theorem C84_b [CommRing K] [LE K] (A : Mat K) (As : List (Mat K)) (xs : List Nat) (hs : ∀ v ∈ xs, 0 < (geo v).size) (b : Vec K) (ct : CType) (cr : Rhs) :
    ((ct ≠ .doubleSided ∧ cr ≠ .zero ∧ b.size = A.rows ∧ Fits geo euc A.rows (A :: As) xs) ∧
      ∃ C, makeB geo tr euc mem (A :: As) xs b ct cr = .ok () C ∧ C.ct = ct ∧ C.cr = cr ∧ C.P.m = A.rows ∧ (∀ v, v ∈ C.P.vars ↔ v ∈ xs) ∧
      (xs.Nodup → C.P.vars = xs ∧ ∀ x, Sat geo tr C x ↔ ∀ i < A.rows, Holds ct (combo (A :: As) xs x i) (rho cr (b.v i)) (rho cr (b.v i)) (rho cr (b.v i)))) ∨
    (¬(ct ≠ .doubleSided ∧ cr ≠ .zero ∧ b.size = A.rows ∧ Fits geo euc A.rows (A :: As) xs) ∧ makeB geo tr euc mem (A :: As) xs b ct cr = .throw ()) := by
  unfold makeB init
  by_cases h1 : ct = .doubleSided
  · right
    by_cases h0 : cr = .zero <;> simp [h1, h0]
  simp only [h1, false_and, if_false]
  by_cases h0 : cr = .zero
  · right; simp [h0]
  rw [if_neg h0]
  by_cases h2 : (A :: As).length ≠ xs.length
  · right; rw [if_pos h2]; exact ⟨fun h => h2 h.2.2.2.1, rfl⟩
  rw [if_neg h2]
  have hl : (A :: As).length = xs.length := by omega
  by_cases h3 : b.size ≠ (Prov.make A.rows : Provider K).m
  · right; rw [if_pos h3]; exact ⟨fun h => h3 h.2.2.1, rfl⟩
  rw [if_neg h3]
  have hb : b.size = A.rows := not_not.1 h3
  rcases addTerms_spec geo tr euc he mem ((A :: As).zip xs)
      ⟨ct, cr, Prov.make A.rows, ⟨if useL ct cr then A.rows else 0, mem.l⟩, ⟨if useU ct cr then A.rows else 0, mem.u⟩, ⟨if useE ct cr then A.rows else 0, mem.e⟩⟩
      (inv_make geo tr A.rows) (fun t ht => hs t.2 (List.of_mem_zip ht).2) with ⟨g, P', e, _, i2, i3, _, i5⟩ | ⟨g, e⟩
  · left
    refine ⟨⟨h1, h0, hb, (good_iff geo euc A.rows _ _ hl).1 g⟩, ?_⟩
    simp only [e]
    have hset : ∃ l u e' : Vec K, built (Cstr.setB ⟨ct, cr, P', ⟨if useL ct cr then A.rows else 0, mem.l⟩, ⟨if useU ct cr then A.rows else 0, mem.u⟩, ⟨if useE ct cr then A.rows else 0, mem.e⟩⟩ b)
        = .ok () ⟨ct, cr, P', l, u, e'⟩ ∧ (ct = .equal → e' = b) ∧ (ct = .greaterThan → l = b) ∧ (ct = .lowerThan → u = b) := by
      unfold Cstr.setB
      rw [if_pos ⟨h1, h0⟩, if_pos (by show b.size = P'.m; rw [i2]; exact hb)]
      cases ct with
      | equal => exact ⟨_, _, _, rfl, fun _ => rfl, by simp, by simp⟩
      | greaterThan => exact ⟨_, _, _, rfl, by simp, fun _ => rfl, by simp⟩
      | lowerThan => exact ⟨_, _, _, rfl, by simp, by simp, fun _ => rfl⟩
      | doubleSided => exact absurd rfl h1
    obtain ⟨l, u, e', s1, s2, s3, s4⟩ := hset
    refine ⟨_, s1, rfl, rfl, i2, ?_, ?_⟩
    · intro v
      show v ∈ P'.vars ↔ _
      rw [i3 v, zip_map_snd _ _ hl]; simp [Prov.make]
    · intro hn
      obtain ⟨j1, j2⟩ := i5 (by rw [zip_map_snd _ _ hl]; exact hn) (by simp [Prov.make])
      rw [zip_map_snd _ _ hl] at j1
      have j1' : P'.vars = xs := by simpa [Prov.make] using j1
      obtain ⟨J, k1, k2⟩ := combo_eq P' _ _ hl j1' j2
      refine ⟨j1', fun x => ?_⟩
      rw [sat_iff geo tr _ x J k1]
      show (∀ i < P'.m, _) ↔ _
      rw [i2]
      simp only [k2]
      show (∀ i < A.rows, _) ↔ _
      refine forall_congr' fun i => forall_congr' fun _ => ?_
      cases ct with
      | equal => simp only [Holds, s2 rfl]
      | greaterThan => simp only [Holds, s3 rfl]
      | lowerThan => simp only [Holds, s4 rfl]
      | doubleSided => exact absurd rfl h1
  · right
    simp only [e]
    exact ⟨fun h => g ((good_iff geo euc A.rows _ _ hl).2 h.2.2.2), trivial⟩

/-- l <= Ax <= u, or -l <= Ax <= -u -/
theorem C84_lu [CommRing K] [LE K] (A : Mat K) (As : List (Mat K)) (xs : List Nat) (hs : ∀ v ∈ xs, 0 < (geo v).size) (l u : Vec K) (cr : Rhs) :
    ((cr ≠ .zero ∧ l.size = A.rows ∧ u.size = A.rows ∧ Fits geo euc A.rows (A :: As) xs) ∧
      ∃ C, makeLU geo tr euc mem (A :: As) xs l u cr = .ok () C ∧ C.ct = .doubleSided ∧ C.cr = cr ∧ C.P.m = A.rows ∧ (∀ v, v ∈ C.P.vars ↔ v ∈ xs) ∧
      (xs.Nodup → C.P.vars = xs ∧ ∀ x, Sat geo tr C x ↔ ∀ i < A.rows, rho cr (l.v i) ≤ combo (A :: As) xs x i ∧ combo (A :: As) xs x i ≤ rho cr (u.v i))) ∨
    (¬(cr ≠ .zero ∧ l.size = A.rows ∧ u.size = A.rows ∧ Fits geo euc A.rows (A :: As) xs) ∧ makeLU geo tr euc mem (A :: As) xs l u cr = .throw ()) := by
  unfold makeLU init
  by_cases h0 : cr = .zero
  · right; simp [h0]
  simp only [h0, and_false, if_false]
  by_cases h2 : (A :: As).length ≠ xs.length
  · right; rw [if_pos h2]; exact ⟨fun h => h2 h.2.2.2.1, rfl⟩
  rw [if_neg h2]
  have hl : (A :: As).length = xs.length := by omega
  by_cases h3 : l.size ≠ (Prov.make A.rows : Provider K).m
  · right; rw [if_pos h3]; exact ⟨fun h => h3 h.2.1, rfl⟩
  rw [if_neg h3]
  have hb : l.size = A.rows := not_not.1 h3
  by_cases h4 : u.size ≠ (Prov.make A.rows : Provider K).m
  · right; rw [if_pos h4]; exact ⟨fun h => h4 h.2.2.1, rfl⟩
  rw [if_neg h4]
  have hb' : u.size = A.rows := not_not.1 h4
  rcases addTerms_spec geo tr euc he mem ((A :: As).zip xs)
      ⟨.doubleSided, cr, Prov.make A.rows, ⟨if useL .doubleSided cr then A.rows else 0, mem.l⟩, ⟨if useU .doubleSided cr then A.rows else 0, mem.u⟩,
        ⟨if useE .doubleSided cr then A.rows else 0, mem.e⟩⟩
      (inv_make geo tr A.rows) (fun t ht => hs t.2 (List.of_mem_zip ht).2) with ⟨g, P', e, _, i2, i3, _, i5⟩ | ⟨g, e⟩
  · left
    refine ⟨⟨h0, hb, hb', (good_iff geo euc A.rows _ _ hl).1 g⟩, ?_⟩
    simp only [e]
    have i2' : P'.m = A.rows := i2
    unfold Cstr.setL
    rw [if_pos ⟨rfl, h0⟩, if_pos (by show l.size = P'.m; rw [i2']; exact hb)]
    simp only
    unfold Cstr.setU
    rw [if_pos ⟨rfl, h0⟩, if_pos (by show u.size = P'.m; rw [i2']; exact hb')]
    refine ⟨_, rfl, rfl, rfl, i2, ?_, ?_⟩
    · intro v
      show v ∈ P'.vars ↔ _
      rw [i3 v, zip_map_snd _ _ hl]; simp [Prov.make]
    · intro hn
      obtain ⟨j1, j2⟩ := i5 (by rw [zip_map_snd _ _ hl]; exact hn) (by simp [Prov.make])
      rw [zip_map_snd _ _ hl] at j1
      have j1' : P'.vars = xs := by simpa [Prov.make] using j1
      obtain ⟨J, k1, k2⟩ := combo_eq P' _ _ hl j1' j2
      refine ⟨j1', fun x => ?_⟩
      rw [sat_iff geo tr _ x J k1]
      show (∀ i < P'.m, _) ↔ _
      rw [i2']
      simp only [k2, Holds]
  · right
    simp only [e]
    exact ⟨fun h => g ((good_iff geo euc A.rows _ _ hl).2 h.2.2.2), trivial⟩

omit he

/-! ## The setters -/

/-- A constraint on Euclidean variables: the objects built by the constructors, after any setters that returned -/
inductive Built : Cstr K → Prop where
  | zero (As : List (Mat K)) (xs : List Nat) (ct : CType) (C : Cstr K) : (∀ v ∈ xs, 0 < (geo v).size) → makeZero geo tr euc mem As xs ct = .ok () C → Built C
  | b (As : List (Mat K)) (xs : List Nat) (b : Vec K) (ct : CType) (cr : Rhs) (C : Cstr K) : (∀ v ∈ xs, 0 < (geo v).size) → makeB geo tr euc mem As xs b ct cr = .ok () C → Built C
  | lu (As : List (Mat K)) (xs : List Nat) (l u : Vec K) (cr : Rhs) (C : Cstr K) : (∀ v ∈ xs, 0 < (geo v).size) → makeLU geo tr euc mem As xs l u cr = .ok () C → Built C
  | alloc (m : Nat) (xs : List Nat) (ct : CType) (cr : Rhs) (C : Cstr K) : (∀ v ∈ xs, 0 < (geo v).size) → (∀ v ∈ xs, euc v = true) → makeAlloc geo tr mem m xs ct cr = .ok () C → Built C
  | setA (C C' : Cstr K) (A : Mat K) (v : Nat) : Built C → C.setA geo A v = .ok C' () → Built C'
  | setB (C C' : Cstr K) (b : Vec K) : Built C → C.setB b = .ok C' () → Built C'
  | setL (C C' : Cstr K) (l : Vec K) : Built C → C.setL l = .ok C' () → Built C'
  | setU (C C' : Cstr K) (u : Vec K) : Built C → C.setU u = .ok C' () → Built C'

theorem setB_P (C C' : Cstr K) (b : Vec K) (h : C.setB b = .ok C' ()) : C'.P = C.P := by
  unfold Cstr.setB at h
  by_cases h1 : C.ct ≠ .doubleSided ∧ C.cr ≠ .zero
  · rw [if_pos h1] at h
    by_cases h2 : b.size = C.P.m
    · rw [if_pos h2] at h
      cases hc : C.ct <;> simp only [hc] at h <;> (rw [← (Outcome.ok.inj h).1])
    · rw [if_neg h2] at h; cases h
  · rw [if_neg h1] at h; cases h

theorem setL_P (C C' : Cstr K) (b : Vec K) (h : C.setL b = .ok C' ()) : C'.P = C.P := by
  unfold Cstr.setL at h
  by_cases h1 : C.ct = .doubleSided ∧ C.cr ≠ .zero
  · rw [if_pos h1] at h
    by_cases h2 : b.size = C.P.m
    · rw [if_pos h2] at h; rw [← (Outcome.ok.inj h).1]
    · rw [if_neg h2] at h; cases h
  · rw [if_neg h1] at h; cases h

theorem setU_P (C C' : Cstr K) (b : Vec K) (h : C.setU b = .ok C' ()) : C'.P = C.P := by
  unfold Cstr.setU at h
  by_cases h1 : C.ct = .doubleSided ∧ C.cr ≠ .zero
  · rw [if_pos h1] at h
    by_cases h2 : b.size = C.P.m
    · rw [if_pos h2] at h; rw [← (Outcome.ok.inj h).1]
    · rw [if_neg h2] at h; cases h
  · rw [if_neg h1] at h; cases h

theorem alloc_inv : ∀ (xs : List Nat) (P P' : Provider K), Inv geo tr P → (∀ v ∈ P.vars, euc v = true) → (∀ v ∈ xs, 0 < (geo v).size) → (∀ v ∈ xs, euc v = true) → allocVars geo tr mem P xs = .ok () P' →
    Inv geo tr P' ∧ ∀ v ∈ P'.vars, euc v = true := by
  intro xs
  induction xs with
  | nil => intro P P' hi hv _ _ e; simp only [allocVars] at e; rw [← (Outcome.ok.inj e).2]; exact ⟨hi, hv⟩
  | cons v l ih =>
    intro P P' hi hv hs hu e
    unfold allocVars at e
    cases ha : P.add geo tr v true (mem.mat v) with
    | ub => simp only [ha] at e; cases e
    | throw _ => simp only [ha] at e; cases e
    | ok P1 _ =>
      simp only [ha] at e
      have hs1 := hs v List.mem_cons_self
      refine ih P1 P' ?_ ?_ (fun w hw => hs w (List.mem_cons_of_mem _ hw)) (fun w hw => hu w (List.mem_cons_of_mem _ hw)) e
      · -- as in the history of a provider
        unfold Provider.add at ha
        by_cases h1 : P.vars.any (fun x => (geo x).contains (geo v)) = true
        · rw [if_pos h1] at ha; rw [← (Outcome.ok.inj ha).1]; exact hi
        · rw [if_neg h1] at ha
          by_cases h2 : P.vars.any (fun x => (geo x).intersects (geo v)) = true
          · rw [if_pos h2] at ha; cases ha
          · rw [if_neg h2] at ha
            rw [← (Outcome.ok.inj ha).1]
            have hn : ∀ x ∈ P.vars, (geo x).intersects (geo v) = false := by
              intro x hx
              cases hb : (geo x).intersects (geo v) with
              | false => rfl
              | true => exact absurd (List.any_eq_true.2 ⟨x, hx, hb⟩) h2
            refine ⟨sorted_put _ _ _ hi.sj, sorted_put _ _ _ hi.sl, ?_, ?_, ?_, ?_, ?_⟩
            · intro w hw
              rcases List.mem_append.1 hw with hw | hw
              · exact hi.pos w hw
              · rw [List.mem_singleton.1 hw]; exact hs1
            · refine List.pairwise_append.2 ⟨hi.disj, by simp, ?_⟩
              intro a ha b hb
              rw [List.mem_singleton.1 hb]; exact hn a ha
            · intro w
              show w ∈ P.vars ++ [v] ↔ _
              by_cases hw : w = v
              · subst hw; rw [find_put_self]; simp
              · rw [find_put_of_ne _ _ _ _ hw, ← hi.keys w]; simp [hw]
            · intro w
              show w ∈ P.vars ++ [v] ↔ _
              by_cases hw : w = v
              · subst hw; rw [find_put_self]; simp
              · rw [find_put_of_ne _ _ _ _ hw, ← hi.lkeys w]; simp [hw]
            · intro w M hM
              by_cases hw : w = v
              · subst hw; rw [find_put_self] at hM; rw [← Option.some.inj hM]; exact ⟨rfl, rfl⟩
              · rw [find_put_of_ne _ _ _ _ hw] at hM; exact hi.size w M hM
      · obtain ⟨_, _, _, h4⟩ := C83_add geo tr P v hs1 true (mem.mat v)
        intro w hw
        rcases (h4 P1 ha).2.2.1 w hw with h | h
        · exact hv w h
        · rw [h]; exact hu v List.mem_cons_self

theorem terms_inv (he : EucOk geo tr euc) (ct : CType) (cr : Rhs) (m : Nat) (l u e : Vec K) (ts : List (Mat K × Nat)) (C : Cstr K) (hs : ∀ t ∈ ts, 0 < (geo t.2).size)
    (h : addTerms geo tr euc mem ⟨ct, cr, Prov.make m, l, u, e⟩ ts = .ok () C) : Inv geo tr C.P ∧ ∀ v ∈ C.P.vars, euc v = true := by
  rcases addTerms_spec geo tr euc he mem ts ⟨ct, cr, Prov.make m, l, u, e⟩ (inv_make geo tr m) hs with ⟨g, P', e, i1, i2, i3, _⟩ | ⟨_, e⟩
  · rw [e] at h
    rw [← (Outcome.ok.inj h).2]
    refine ⟨i1, fun v hv => ?_⟩
    rcases (i3 v).1 hv with hv | hv
    · simp [Prov.make] at hv
    · obtain ⟨t, ht, rfl⟩ := List.mem_map.1 hv
      exact (g.1 t ht).1
  · rw [e] at h; cases h

theorem Built.inv (he : EucOk geo tr euc) {C : Cstr K} (h : Built geo tr euc mem C) : Inv geo tr C.P ∧ ∀ v ∈ C.P.vars, euc v = true := by
  induction h with
  | zero As xs ct C hs h =>
    unfold makeZero init at h
    cases As with
    | nil => cases h
    | cons A As =>
      simp only at h
      by_cases h1 : ct = .doubleSided
      · simp [h1] at h
      simp only [h1, false_and, if_false] at h
      by_cases h2 : (A :: As).length ≠ xs.length
      · rw [if_pos h2] at h; cases h
      rw [if_neg h2] at h
      exact terms_inv geo tr euc mem he _ _ _ _ _ _ _ _ (fun t ht => hs t.2 (List.of_mem_zip ht).2) h
  | b As xs b ct cr C hs h =>
    unfold makeB init at h
    cases As with
    | nil => cases h
    | cons A As =>
      simp only at h
      by_cases h1 : ct = .doubleSided
      · by_cases h0 : cr = .zero <;> simp [h1, h0] at h
      simp only [h1, false_and, if_false] at h
      by_cases h0 : cr = .zero
      · rw [if_pos h0] at h; cases h
      rw [if_neg h0] at h
      by_cases h2 : (A :: As).length ≠ xs.length
      · rw [if_pos h2] at h; cases h
      rw [if_neg h2] at h
      by_cases h3 : b.size ≠ (Prov.make A.rows : Provider K).m
      · rw [if_pos h3] at h; cases h
      rw [if_neg h3] at h
      cases ht : addTerms geo tr euc mem
        ⟨ct, cr, Prov.make A.rows, ⟨if useL ct cr then A.rows else 0, mem.l⟩, ⟨if useU ct cr then A.rows else 0, mem.u⟩, ⟨if useE ct cr then A.rows else 0, mem.e⟩⟩ ((A :: As).zip xs) with
      | ub => simp only [ht] at h; cases h
      | throw _ => simp only [ht] at h; cases h
      | ok _ C1 =>
        simp only [ht] at h
        have := terms_inv geo tr euc mem he _ _ _ _ _ _ _ _ (fun t ht => hs t.2 (List.of_mem_zip ht).2) ht
        cases hb : C1.setB b with
        | ub => simp only [hb, built] at h; cases h
        | throw _ => simp only [hb, built] at h; cases h
        | ok C2 _ =>
          simp only [hb, built] at h
          rw [← (Outcome.ok.inj h).2, setB_P C1 C2 b hb]; exact this
  | lu As xs l u cr C hs h =>
    unfold makeLU init at h
    cases As with
    | nil => cases h
    | cons A As =>
      simp only at h
      by_cases h0 : cr = .zero
      · simp [h0] at h
      simp only [h0, and_false, if_false] at h
      by_cases h2 : (A :: As).length ≠ xs.length
      · rw [if_pos h2] at h; cases h
      rw [if_neg h2] at h
      by_cases h3 : l.size ≠ (Prov.make A.rows : Provider K).m
      · rw [if_pos h3] at h; cases h
      rw [if_neg h3] at h
      by_cases h4 : u.size ≠ (Prov.make A.rows : Provider K).m
      · rw [if_pos h4] at h; cases h
      rw [if_neg h4] at h
      cases ht : addTerms geo tr euc mem
        ⟨.doubleSided, cr, Prov.make A.rows, ⟨if useL .doubleSided cr then A.rows else 0, mem.l⟩, ⟨if useU .doubleSided cr then A.rows else 0, mem.u⟩,
          ⟨if useE .doubleSided cr then A.rows else 0, mem.e⟩⟩ ((A :: As).zip xs) with
      | ub => simp only [ht] at h; cases h
      | throw _ => simp only [ht] at h; cases h
      | ok _ C1 =>
        simp only [ht] at h
        have := terms_inv geo tr euc mem he _ _ _ _ _ _ _ _ (fun t ht => hs t.2 (List.of_mem_zip ht).2) ht
        cases hb : C1.setL l with
        | ub => simp only [hb] at h; cases h
        | throw _ => simp only [hb] at h; cases h
        | ok C2 _ =>
          simp only [hb] at h
          cases hu : C2.setU u with
          | ub => simp only [hu, built] at h; cases h
          | throw _ => simp only [hu, built] at h; cases h
          | ok C3 _ =>
            simp only [hu, built] at h
            rw [← (Outcome.ok.inj h).2, setU_P C2 C3 u hu, setL_P C1 C2 l hb]; exact this
  | alloc m xs ct cr C hs hu h =>
    unfold makeAlloc init at h
    by_cases h1 : ct = .doubleSided ∧ cr = .zero
    · rw [if_pos h1] at h; cases h
    rw [if_neg h1] at h
    simp only at h
    cases ha : allocVars geo tr mem (Prov.make m) xs with
    | ub => simp only [ha] at h; cases h
    | throw _ => simp only [ha] at h; cases h
    | ok _ P =>
      simp only [ha] at h
      rw [← (Outcome.ok.inj h).2]
      exact alloc_inv geo tr euc mem xs (Prov.make m) P (inv_make geo tr m) (by simp [Prov.make]) hs hu ha
  | setA C C' A v _ h ih =>
    unfold Cstr.setA atAssign at h
    by_cases h1 : A.rows = C.P.m ∧ A.cols = (geo v).size
    · rw [if_pos h1] at h
      cases hf : find C.P.jac v with
      | none => simp only [hf] at h; cases h
      | some M =>
        simp only [hf] at h
        rw [← (Outcome.ok.inj h).1]
        have hv := (ih.1.keys v).2 ⟨M, hf⟩
        exact ⟨inv_put geo tr C.P v A ih.1 hv h1.1 (by rw [h1.2, he v (ih.2 v hv)]; simp), ih.2⟩
    · rw [if_neg h1] at h; cases h
  | setB C C' b _ h ih => rw [setB_P C C' b h]; exact ih
  | setL C C' b _ h ih => rw [setL_P C C' b h]; exact ih
  | setU C C' b _ h ih => rw [setU_P C C' b h]; exact ih

/-- `A` replaces the matrix of a variable of the constraint, and only this; it throws and changes nothing when the size is wrong or the variable is not (the very object that is) one of the
constraint. -/
theorem C84_setA (he : EucOk geo tr euc) (C : Cstr K) (h : Built geo tr euc mem C) (A : Mat K) (v : Nat) :
    ((A.rows = C.P.m ∧ A.cols = (geo v).size ∧ v ∈ C.P.vars) ∧ ∃ C', C.setA geo A v = .ok C' () ∧ C'.P.jacobian geo tr v = .ok () A ∧
      (∀ w ∈ C.P.vars, w ≠ v → C'.P.jacobian geo tr w = C.P.jacobian geo tr w) ∧ C'.P.vars = C.P.vars ∧ C'.P.m = C.P.m ∧ C'.ct = C.ct ∧ C'.cr = C.cr ∧ C'.l = C.l ∧ C'.u = C.u ∧ C'.e = C.e) ∨
    (¬(A.rows = C.P.m ∧ A.cols = (geo v).size ∧ v ∈ C.P.vars) ∧ C.setA geo A v = .throw C) := by
  have hi := (h.inv geo tr euc mem he).1
  unfold Cstr.setA atAssign
  by_cases h1 : A.rows = C.P.m ∧ A.cols = (geo v).size
  · rw [if_pos h1]
    by_cases hv : v ∈ C.P.vars
    · obtain ⟨M, hM⟩ := (hi.keys v).1 hv
      left
      simp only [hM]
      refine ⟨⟨h1.1, h1.2, hv⟩, _, rfl, jacobian_entry geo tr _ _ _ (find_put_self _ _ _), ?_, rfl, rfl, rfl, rfl, rfl, rfl, rfl⟩
      intro w hw hwv
      obtain ⟨M', hM'⟩ := (hi.keys w).1 hw
      rw [jacobian_entry geo tr C.P w M' hM']
      exact jacobian_entry geo tr _ _ _ ((find_put_of_ne _ _ _ _ hwv).trans hM')
    · right
      have : find C.P.jac v = none := by
        cases hf : find C.P.jac v with
        | none => rfl
        | some M => exact absurd ((hi.keys v).2 ⟨M, hf⟩) hv
      simp only [this]
      exact ⟨fun h => hv h.2.2, trivial⟩
  · right
    rw [if_neg h1]
    exact ⟨fun h => h1 ⟨h.1, h.2.1⟩, rfl⟩

/-- `A` without a variable is for the constraints with one variable. -/
theorem C84_setA1 (C : Cstr K) (A : Mat K) :
    (∀ v, C.P.vars = [v] → C.setA1 geo A = C.setA geo A v) ∧ (C.P.vars.length ≠ 1 → C.setA1 geo A = .throw C) := by
  unfold Cstr.setA1
  refine ⟨fun v hv => by simp only [hv], fun h => ?_⟩
  cases hc : C.P.vars with
  | nil => rfl
  | cons a l =>
    cases l with
    | nil => rw [hc] at h; exact absurd rfl h
    | cons b l => rfl

/-- `b`, `l` and `u` replace the vectors of the comparison: for all values of the variables, the constraint is then the one with the new vector. They throw and change nothing when the type, the
convention or the size is not right. -/
theorem C84_setB [CommRing K] [LE K] (he : EucOk geo tr euc) (C : Cstr K) (h : Built geo tr euc mem C) (b : Vec K) :
    ((C.ct ≠ .doubleSided ∧ C.cr ≠ .zero ∧ b.size = C.P.m) ∧ ∃ C', C.setB b = .ok C' () ∧ C'.ct = C.ct ∧ C'.cr = C.cr ∧ C'.P = C.P ∧
      ∃ J : Nat → Mat K, (∀ v ∈ C.P.vars, C.P.jacobian geo tr v = .ok () (J v)) ∧ ∀ x, Sat geo tr C' x ↔ ∀ i < C.P.m,
        Holds C.ct ((C.P.vars.map (fun v => ∑ c ∈ Finset.range (J v).cols, (J v).at_ i c * x v c)).sum) (rho C.cr (b.v i)) (rho C.cr (b.v i)) (rho C.cr (b.v i))) ∨
    (¬(C.ct ≠ .doubleSided ∧ C.cr ≠ .zero ∧ b.size = C.P.m) ∧ C.setB b = .throw C) := by
  have hi := (h.inv geo tr euc mem he).1
  have hJ : ∃ J : Nat → Mat K, ∀ v ∈ C.P.vars, find C.P.jac v = some (J v) := by
    refine ⟨fun v => (find C.P.jac v).getD ⟨0, 0, fun _ _ => 0⟩, fun v hv => ?_⟩
    obtain ⟨M, hM⟩ := (hi.keys v).1 hv
    simp [hM]
  obtain ⟨J, hJ⟩ := hJ
  by_cases h1 : C.ct ≠ .doubleSided ∧ C.cr ≠ .zero
  · by_cases h2 : b.size = C.P.m
    · left
      refine ⟨⟨h1.1, h1.2, h2⟩, ?_⟩
      unfold Cstr.setB
      rw [if_pos h1, if_pos h2]
      clear h
      obtain ⟨ct, cr, P, l, u, e⟩ := C
      cases ct with
      | equal =>
        exact ⟨_, rfl, rfl, rfl, rfl, J, fun v hv => jacobian_entry geo tr P v _ (hJ v hv), fun x => sat_iff geo tr ⟨.equal, cr, P, l, u, b⟩ x J hJ⟩
      | greaterThan =>
        exact ⟨_, rfl, rfl, rfl, rfl, J, fun v hv => jacobian_entry geo tr P v _ (hJ v hv), fun x => sat_iff geo tr ⟨.greaterThan, cr, P, b, u, e⟩ x J hJ⟩
      | lowerThan =>
        exact ⟨_, rfl, rfl, rfl, rfl, J, fun v hv => jacobian_entry geo tr P v _ (hJ v hv), fun x => sat_iff geo tr ⟨.lowerThan, cr, P, l, b, e⟩ x J hJ⟩
      | doubleSided => exact absurd rfl h1.1
    · right
      unfold Cstr.setB
      rw [if_pos h1, if_neg h2]
      exact ⟨fun h => h2 h.2.2, rfl⟩
  · right
    unfold Cstr.setB
    rw [if_neg h1]
    exact ⟨fun h => h1 ⟨h.1, h.2.1⟩, rfl⟩

theorem C84_setLU (C : Cstr K) (l : Vec K) :
    ((C.ct = .doubleSided ∧ C.cr ≠ .zero ∧ l.size = C.P.m) ∧ C.setL l = .ok ⟨C.ct, C.cr, C.P, l, C.u, C.e⟩ () ∧ C.setU l = .ok ⟨C.ct, C.cr, C.P, C.l, l, C.e⟩ ()) ∨
    (¬(C.ct = .doubleSided ∧ C.cr ≠ .zero ∧ l.size = C.P.m) ∧ C.setL l = .throw C ∧ C.setU l = .throw C) := by
  unfold Cstr.setL Cstr.setU
  by_cases h1 : C.ct = .doubleSided ∧ C.cr ≠ .zero
  · by_cases h2 : l.size = C.P.m
    · left; rw [if_pos h1, if_pos h2, if_pos h1, if_pos h2]; exact ⟨⟨h1.1, h1.2, h2⟩, rfl, rfl⟩
    · right; rw [if_pos h1, if_neg h2, if_pos h1, if_neg h2]; exact ⟨fun h => h2 h.2.2, rfl, rfl⟩
  · right; rw [if_neg h1, if_neg h1]; exact ⟨fun h => h1 ⟨h.1, h.2.1⟩, rfl, rfl⟩

/-! ## The value -/

/-- The value of the constraint is always defined, and is the sum of the products of the jacobians by the values of the variables. -/
theorem C84_value [CommRing K] (he : EucOk geo tr euc) (C : Cstr K) (h : Built geo tr euc mem C) (x : Nat → Nat → K) :
    ∃ (J : Nat → Mat K) (f : Nat → K), (∀ v ∈ C.P.vars, C.P.jacobian geo tr v = .ok () (J v) ∧ (J v).rows = C.P.m ∧ (J v).cols = (geo v).size) ∧ C.value geo tr x = .ok () f ∧
      ∀ i, f i = (C.P.vars.map (fun v => ∑ c ∈ Finset.range (J v).cols, (J v).at_ i c * x v c)).sum := by
  obtain ⟨hi, hu⟩ := h.inv geo tr euc mem he
  have hJ : ∃ J : Nat → Mat K, ∀ v ∈ C.P.vars, find C.P.jac v = some (J v) := by
    refine ⟨fun v => (find C.P.jac v).getD ⟨0, 0, fun _ _ => 0⟩, fun v hv => ?_⟩
    obtain ⟨M, hM⟩ := (hi.keys v).1 hv
    simp [hM]
  obtain ⟨J, hJ⟩ := hJ
  have hall : ∀ v ∈ C.P.vars, C.P.jacobian geo tr v = .ok () (J v) ∧ (J v).rows = C.P.m ∧ (J v).cols = (geo v).size := by
    intro v hv
    obtain ⟨s1, s2⟩ := hi.size v _ (hJ v hv)
    exact ⟨jacobian_entry geo tr C.P v _ (hJ v hv), s1, by rw [s2, he v (hu v hv)]; simp⟩
  have key : ∀ (l : List Nat) (acc : Nat → K), (∀ v ∈ l, v ∈ C.P.vars) → ∃ f, valueLoop geo tr C x l acc = .ok () f ∧
      ∀ i, f i = acc i + (l.map (fun v => ∑ c ∈ Finset.range (J v).cols, (J v).at_ i c * x v c)).sum := by
    intro l
    induction l with
    | nil => intro acc _; exact ⟨acc, rfl, fun i => by simp⟩
    | cons v l ih =>
      intro acc hl
      obtain ⟨e1, e2, e3⟩ := hall v (hl v List.mem_cons_self)
      obtain ⟨f, hf, hs⟩ := ih (fun i => acc i + ∑ c ∈ Finset.range (J v).cols, (J v).at_ i c * x v c) (fun w hw => hl w (List.mem_cons_of_mem _ hw))
      refine ⟨f, ?_, fun i => ?_⟩
      · unfold valueLoop
        simp only [e1]
        rw [if_pos ⟨e2, e3⟩]; exact hf
      · rw [hs i, List.map_cons, List.sum_cons]; ring
  obtain ⟨f, hf, hs⟩ := key C.P.vars (fun _ => 0) (fun v hv => hv)
  exact ⟨J, f, hall, hf, fun i => by rw [hs i]; simp⟩

/-! ## What is not guaranteed -/

def geo₁ : Nat → Geo := fun k => if k = 2 then ⟨2, 0, 4⟩ else ⟨k, 0, 1⟩
def tr₁ : Nat → Range := fun k => if k = 2 then ⟨0, 3⟩ else ⟨0, 1⟩
def euc₁ : Nat → Bool := fun k => decide (k ≠ 2)
def mem₁ : Memory Int := ⟨fun _ _ _ => 7, fun _ => 7, fun _ => 7, fun _ => 7⟩
def one₁ : Mat Int := ⟨1, 1, fun _ _ => 1⟩

theorem euc₁_ok : EucOk geo₁ tr₁ euc₁ := by
  intro v h
  have : v ≠ 2 := by simpa [euc₁] using h
  simp [tr₁, geo₁, this]

/-- The same variable twice: the constraint x + x <= 1 is accepted and stands for x <= 1. -/
theorem C84_repeated_false : ∃ C, makeB geo₁ tr₁ euc₁ mem₁ [one₁, one₁] [0, 0] ⟨1, fun _ => 1⟩ .lowerThan .asGiven = .ok () C ∧
    Sat geo₁ tr₁ C (fun _ _ => 1) ∧ ¬ combo [one₁, one₁] [0, 0] (fun _ _ => (1 : Int)) 0 ≤ 1 := by
  refine ⟨_, rfl, ?_, by simp [combo, one₁]⟩
  refine ⟨fun _ => one₁, ?_, ?_⟩
  · intro v hv
    have : v = 0 := by simpa [Prov.make, Provider.write] using hv
    subst this; rfl
  · intro i _
    simp [Holds, rho, one₁, Prov.make, Provider.write]

/-- A variable that is not Euclidean is refused by the constructors with matrices but not by the one that allocates: the value is then undefined, and remains so if a matrix is given. -/
theorem C84_euclid_false : ∃ C C' : Cstr Int, makeAlloc geo₁ tr₁ mem₁ 1 [2] .equal .zero = .ok () C ∧ C.value geo₁ tr₁ (fun _ _ => 0) = .ub ∧
    C.setA geo₁ ⟨1, 4, fun _ _ => 1⟩ 2 = .ok C' () ∧ C'.P.jacobian geo₁ tr₁ 2 = .ok () ⟨1, 4, fun _ _ => 1⟩ ∧ (tr₁ 2).dim = 3 := by
  exact ⟨_, _, rfl, rfl, rfl, rfl, rfl⟩

/-! ## Examples -/

example : Fits geo₁ euc₁ 1 [one₁, one₁] [0, 1] := by
  refine ⟨rfl, ?_, ?_⟩
  · intro t ht
    simp only [List.zip_cons_cons, List.zip_nil_right, List.mem_cons, List.not_mem_nil, or_false] at ht
    rcases ht with rfl | rfl <;> exact ⟨by decide, rfl, rfl⟩
  · simp [geo₁, Geo.intersects]

example : ∃ C : Cstr Int, Built geo₁ tr₁ euc₁ mem₁ C ∧ C.P.vars = [0, 1] ∧ C.value geo₁ tr₁ (fun v _ => v + 2) = .ok () (fun _ => 5) := by
  refine ⟨_, .b [one₁, one₁] [0, 1] ⟨1, fun _ => 1⟩ .lowerThan .asGiven _ (by decide) rfl, rfl, ?_⟩
  rfl

/-! ## The vectors in use -/

/-- The vectors that the type and the convention use have the size of the constraint, and the others are empty. -/
structure Sizes (C : Cstr K) : Prop where
  l : C.l.size = if (C.ct = .greaterThan ∨ C.ct = .doubleSided) ∧ C.cr ≠ .zero then C.P.m else 0
  u : C.u.size = if (C.ct = .lowerThan ∨ C.ct = .doubleSided) ∧ C.cr ≠ .zero then C.P.m else 0
  e : C.e.size = if C.ct = .equal ∧ C.cr ≠ .zero then C.P.m else 0

theorem init_sizes (ct : CType) (cr : Rhs) (m : Nat) (C : Cstr K) (h : init mem ct cr m = .ok () C) : Sizes C := by
  unfold init at h
  by_cases hc : ct = .doubleSided ∧ cr = .zero
  · rw [if_pos hc] at h; cases h
  · rw [if_neg hc] at h
    rw [← (Outcome.ok.inj h).2]
    refine ⟨?_, ?_, ?_⟩ <;> simp only [useL, useU, useE, Prov.make, decide_eq_true_eq]

theorem addTerm_same (C C' : Cstr K) (A : Mat K) (v : Nat) (h : addTerm geo tr euc mem C A v = .ok C' ()) : C'.ct = C.ct ∧ C'.cr = C.cr ∧ C'.l = C.l ∧ C'.u = C.u ∧ C'.e = C.e ∧ C'.P.m = C.P.m := by
  unfold addTerm at h
  by_cases h1 : euc v = false
  · rw [if_pos h1] at h; cases h
  rw [if_neg h1] at h
  by_cases h2 : A.rows ≠ C.P.m
  · rw [if_pos h2] at h; cases h
  rw [if_neg h2] at h
  by_cases h3 : A.cols ≠ (geo v).size
  · rw [if_pos h3] at h; cases h
  rw [if_neg h3] at h
  cases ha : C.P.add geo tr v true (mem.mat v) with
  | ub => simp only [ha] at h; cases h
  | throw _ => simp only [ha] at h; cases h
  | ok P1 _ =>
    have hm : P1.m = C.P.m := by
      unfold Provider.add at ha
      by_cases k1 : C.P.vars.any (fun x => (geo x).contains (geo v)) = true
      · rw [if_pos k1] at ha; rw [← (Outcome.ok.inj ha).1]
      · rw [if_neg k1] at ha
        by_cases k2 : C.P.vars.any (fun x => (geo x).intersects (geo v)) = true
        · rw [if_pos k2] at ha; cases ha
        · rw [if_neg k2] at ha; rw [← (Outcome.ok.inj ha).1]
    simp only [ha] at h
    unfold atAssign at h
    cases hf : find P1.jac v with
    | none => simp only [hf] at h; cases h
    | some M =>
      simp only [hf] at h
      rw [← (Outcome.ok.inj h).1]
      exact ⟨rfl, rfl, rfl, rfl, rfl, hm⟩

theorem addTerms_sizes : ∀ (ts : List (Mat K × Nat)) (C C' : Cstr K), Sizes C → addTerms geo tr euc mem C ts = .ok () C' → Sizes C' ∧ C'.ct = C.ct ∧ C'.cr = C.cr ∧ C'.P.m = C.P.m := by
  intro ts
  induction ts with
  | nil => intro C C' hs h; unfold addTerms at h; rw [← (Outcome.ok.inj h).2]; exact ⟨hs, rfl, rfl, rfl⟩
  | cons t l ih =>
    intro C C' hs h
    unfold addTerms at h
    cases ha : addTerm geo tr euc mem C t.1 t.2 with
    | ub => simp only [ha] at h; cases h
    | throw _ => simp only [ha] at h; cases h
    | ok C1 _ =>
      simp only [ha] at h
      obtain ⟨a1, a2, a3, a4, a5, a6⟩ := addTerm_same geo tr euc mem C C1 t.1 t.2 ha
      obtain ⟨b1, b2, b3, b4⟩ := ih C1 C' ⟨by rw [a1, a2, a3, a6]; exact hs.l, by rw [a1, a2, a4, a6]; exact hs.u, by rw [a1, a2, a5, a6]; exact hs.e⟩ h
      exact ⟨b1, b2.trans a1, b3.trans a2, b4.trans a6⟩

theorem setB_sizes (C C' : Cstr K) (b : Vec K) (hs : Sizes C) (h : C.setB b = .ok C' ()) : Sizes C' := by
  unfold Cstr.setB at h
  by_cases h1 : C.ct ≠ .doubleSided ∧ C.cr ≠ .zero
  · rw [if_pos h1] at h
    by_cases h2 : b.size = C.P.m
    · rw [if_pos h2] at h
      obtain ⟨hl, hu, he⟩ := hs
      cases hc : C.ct <;> simp only [hc] at h hl hu he h1 <;> rw [← (Outcome.ok.inj h).1] <;> refine ⟨?_, ?_, ?_⟩ <;> simp_all
    · rw [if_neg h2] at h; cases h
  · rw [if_neg h1] at h; cases h

theorem setL_sizes (C C' : Cstr K) (b : Vec K) (hs : Sizes C) (h : C.setL b = .ok C' ()) : Sizes C' := by
  unfold Cstr.setL at h
  by_cases h1 : C.ct = .doubleSided ∧ C.cr ≠ .zero
  · rw [if_pos h1] at h
    by_cases h2 : b.size = C.P.m
    · rw [if_pos h2] at h
      obtain ⟨hl, hu, he⟩ := hs
      rw [← (Outcome.ok.inj h).1]
      refine ⟨?_, ?_, ?_⟩ <;> simp_all
    · rw [if_neg h2] at h; cases h
  · rw [if_neg h1] at h; cases h

theorem setU_sizes (C C' : Cstr K) (b : Vec K) (hs : Sizes C) (h : C.setU b = .ok C' ()) : Sizes C' := by
  unfold Cstr.setU at h
  by_cases h1 : C.ct = .doubleSided ∧ C.cr ≠ .zero
  · rw [if_pos h1] at h
    by_cases h2 : b.size = C.P.m
    · rw [if_pos h2] at h
      obtain ⟨hl, hu, he⟩ := hs
      rw [← (Outcome.ok.inj h).1]
      refine ⟨?_, ?_, ?_⟩ <;> simp_all
    · rw [if_neg h2] at h; cases h
  · rw [if_neg h1] at h; cases h

theorem alloc_m : ∀ (xs : List Nat) (P P' : Provider K), allocVars geo tr mem P xs = .ok () P' → P'.m = P.m := by
  intro xs
  induction xs with
  | nil => intro P P' h; unfold allocVars at h; rw [← (Outcome.ok.inj h).2]
  | cons v l ih =>
    intro P P' h
    unfold allocVars at h
    cases ha : P.add geo tr v true (mem.mat v) with
    | ub => simp only [ha] at h; cases h
    | throw _ => simp only [ha] at h; cases h
    | ok P1 _ =>
      simp only [ha] at h
      rw [ih P1 P' h]
      unfold Provider.add at ha
      by_cases k1 : P.vars.any (fun x => (geo x).contains (geo v)) = true
      · rw [if_pos k1] at ha; rw [← (Outcome.ok.inj ha).1]
      · rw [if_neg k1] at ha
        by_cases k2 : P.vars.any (fun x => (geo x).intersects (geo v)) = true
        · rw [if_pos k2] at ha; cases ha
        · rw [if_neg k2] at ha; rw [← (Outcome.ok.inj ha).1]

/-- The vectors of a constraint in use have its size, the others are empty, whatever was done to it. -/
theorem C84_sizes {C : Cstr K} (h : Built geo tr euc mem C) : Sizes C := by
  induction h with
  | zero As xs ct C hs h =>
    unfold makeZero at h
    cases As with
    | nil => cases h
    | cons A As =>
      simp only at h
      cases hi : init mem ct .zero A.rows with
      | ub => simp only [hi] at h; cases h
      | throw _ => simp only [hi] at h; cases h
      | ok _ C0 =>
        simp only [hi] at h
        by_cases c1 : ct = .doubleSided
        · rw [if_pos c1] at h; cases h
        rw [if_neg c1] at h
        by_cases c2 : (A :: As).length ≠ xs.length
        · rw [if_pos c2] at h; cases h
        rw [if_neg c2] at h
        exact (addTerms_sizes geo tr euc mem _ C0 C (init_sizes mem _ _ _ C0 hi) h).1
  | b As xs b ct cr C hs h =>
    unfold makeB at h
    cases As with
    | nil => cases h
    | cons A As =>
      simp only at h
      cases hi : init mem ct cr A.rows with
      | ub => simp only [hi] at h; cases h
      | throw _ => simp only [hi] at h; cases h
      | ok _ C0 =>
        simp only [hi] at h
        by_cases c1 : ct = .doubleSided
        · rw [if_pos c1] at h; cases h
        rw [if_neg c1] at h
        by_cases c2 : cr = .zero
        · rw [if_pos c2] at h; cases h
        rw [if_neg c2] at h
        by_cases c3 : (A :: As).length ≠ xs.length
        · rw [if_pos c3] at h; cases h
        rw [if_neg c3] at h
        by_cases c4 : b.size ≠ C0.P.m
        · rw [if_pos c4] at h; cases h
        rw [if_neg c4] at h
        cases ht : addTerms geo tr euc mem C0 ((A :: As).zip xs) with
        | ub => simp only [ht] at h; cases h
        | throw _ => simp only [ht] at h; cases h
        | ok _ C1 =>
          simp only [ht] at h
          cases hb : C1.setB b with
          | ub => simp only [hb, built] at h; cases h
          | throw _ => simp only [hb, built] at h; cases h
          | ok C2 _ =>
            simp only [hb, built] at h
            rw [← (Outcome.ok.inj h).2]
            exact setB_sizes C1 C2 b (addTerms_sizes geo tr euc mem _ C0 C1 (init_sizes mem _ _ _ C0 hi) ht).1 hb
  | lu As xs l u cr C hs h =>
    unfold makeLU at h
    cases As with
    | nil => cases h
    | cons A As =>
      simp only at h
      cases hi : init mem .doubleSided cr A.rows with
      | ub => simp only [hi] at h; cases h
      | throw _ => simp only [hi] at h; cases h
      | ok _ C0 =>
        simp only [hi] at h
        by_cases c2 : cr = .zero
        · rw [if_pos c2] at h; cases h
        rw [if_neg c2] at h
        by_cases c3 : (A :: As).length ≠ xs.length
        · rw [if_pos c3] at h; cases h
        rw [if_neg c3] at h
        by_cases c4 : l.size ≠ C0.P.m
        · rw [if_pos c4] at h; cases h
        rw [if_neg c4] at h
        by_cases c5 : u.size ≠ C0.P.m
        · rw [if_pos c5] at h; cases h
        rw [if_neg c5] at h
        cases ht : addTerms geo tr euc mem C0 ((A :: As).zip xs) with
        | ub => simp only [ht] at h; cases h
        | throw _ => simp only [ht] at h; cases h
        | ok _ C1 =>
          simp only [ht] at h
          cases hl : C1.setL l with
          | ub => simp only [hl] at h; cases h
          | throw _ => simp only [hl] at h; cases h
          | ok C2 _ =>
            simp only [hl] at h
            cases hu : C2.setU u with
            | ub => simp only [hu, built] at h; cases h
            | throw _ => simp only [hu, built] at h; cases h
            | ok C3 _ =>
              simp only [hu, built] at h
              rw [← (Outcome.ok.inj h).2]
              exact setU_sizes C2 C3 u (setL_sizes C1 C2 l (addTerms_sizes geo tr euc mem _ C0 C1 (init_sizes mem _ _ _ C0 hi) ht).1 hl) hu
  | alloc m xs ct cr C hs he h =>
    unfold makeAlloc at h
    cases hi : init mem ct cr m with
    | ub => simp only [hi] at h; cases h
    | throw _ => simp only [hi] at h; cases h
    | ok _ C0 =>
      simp only [hi] at h
      cases ha : allocVars geo tr mem C0.P xs with
      | ub => simp only [ha] at h; cases h
      | throw _ => simp only [ha] at h; cases h
      | ok _ P1 =>
        simp only [ha] at h
        rw [← (Outcome.ok.inj h).2]
        have hm := alloc_m geo tr mem xs C0.P P1 ha
        obtain ⟨a, b, c⟩ := init_sizes mem _ _ _ C0 hi
        exact ⟨by simp only [hm]; exact a, by simp only [hm]; exact b, by simp only [hm]; exact c⟩
  | setA C C' A v h e ih =>
    unfold Cstr.setA at e
    by_cases c : A.rows = C.P.m ∧ A.cols = (geo v).size
    · rw [if_pos c] at e
      unfold atAssign at e
      cases hf : find C.P.jac v with
      | none => simp only [hf] at e; cases e
      | some M =>
        simp only [hf] at e
        rw [← (Outcome.ok.inj e).1]
        exact ⟨ih.l, ih.u, ih.e⟩
    · rw [if_neg c] at e; cases e
  | setB C C' b h e ih => exact setB_sizes C C' b ih e
  | setL C C' b h e ih => exact setL_sizes C C' b ih e
  | setU C C' b h e ih => exact setU_sizes C C' b ih e

end Verif.C84
