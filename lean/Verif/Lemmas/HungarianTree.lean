import Verif.Lemmas.HungarianBfs
import Mathlib.Algebra.Order.Group.Abs
import Mathlib.Algebra.Order.Ring.Abs
import Mathlib.Data.Fintype.Card
import Mathlib.Data.Finset.Card
import Mathlib.Algebra.Order.BigOperators.Group.Finset
import Mathlib.Tactic.FieldSimp
import Mathlib.Tactic.Ring

set_option linter.unusedSectionVars false

namespace RFS
namespace Hungarian

variable {K : Type*} [Field K] [LinearOrder K] [IsStrictOrderedRing K] {n : Nat}

theorem tolS_pos : (0 : K) < tolS := by unfold tolS; positivity
theorem tolE_pos : (0 : K) < tolE := by unfold tolE; positivity
theorem tolS_le_tolE : (tolS : K) ≤ tolE := by
  unfold tolS tolE
  exact one_div_le_one_div_of_le (by positivity) (pow_le_pow_right₀ (by norm_num) (by norm_num))

/-- Invariant of labels and matching: a consistent matching, feasible labels, matched edges tight up to `tolE`. -/
structure CInv (C : Mat K n) (c : Core K n) : Prop where
  cons : Consistent c.xy c.yx
  feas : ∀ x y, 0 ≤ sl C c x y
  tight : ∀ x y, c.xy x = some y → sl C c x y < tolE

/-- Invariant of the alternating tree. -/
structure TInv (C : Mat K n) (c : Core K n) (t : Tree K n) : Prop where
  free : c.xy t.root = none
  rootS : t.S t.root = true
  tMatched : ∀ y, t.T y = true → ∃ x, c.yx y = some x ∧ t.S x = true
  sMatched : ∀ x, t.S x = true → x = t.root ∨ ∃ y, c.xy x = some y ∧ t.T y = true
  tNS : ∀ y, t.T y = true → t.NS y = true
  ns : ∀ y, t.NS y = true → ∃ x, t.S x = true ∧ sl C c x y < tolS
  notNS : ∀ y, t.NS y = false → 0 < t.slack y ∧ (∀ x, t.S x = true → t.slack y ≤ sl C c x y) ∧
    ∃ x, t.S x = true ∧ sl C c x y = t.slack y
  reach : ∀ x, t.S x = true → Reach C c t.S t.root x

theorem pickRoot_none {C : Mat K n} {c : Core K n} (h : pickRoot C c = none) : ∀ x, (c.xy x).isSome = true := by
  unfold pickRoot at h
  split at h
  · rename_i hf
    intro x
    have := List.find?_eq_none.1 hf x (List.mem_finRange x)
    cases hx : c.xy x <;> simp_all
  · cases h

theorem pickRoot_some {C : Mat K n} {c : Core K n} {t : Tree K n} (hc : CInv C c) (h : pickRoot C c = some t) :
    TInv C c t ∧ (∀ y, t.T y = false) := by
  unfold pickRoot at h
  split at h
  · cases h
  · rename_i x hf
    have hx := List.find?_some hf
    simp at hx
    cases h
    refine ⟨⟨hx, by simp, by simp, ?_, by simp, ?_, ?_, ?_⟩, fun y => rfl⟩
    · intro x' hx'; left; simpa using hx'
    · intro y hy
      simp at hy
      exact ⟨x, by simp, lt_of_le_of_lt (le_abs_self _) hy⟩
    · intro y hy
      simp only [decide_eq_false_iff_not] at hy
      have hpos : 0 < sl C c x y := by
        rw [abs_of_nonneg (hc.feas x y)] at hy
        exact lt_of_lt_of_le tolS_pos (not_lt.1 hy)
      simp only [if_neg hy]
      refine ⟨hpos, ?_, x, by simp, rfl⟩
      intro x' hx'
      simp at hx'; subst hx'; exact le_refl _
    · intro x' hx'
      simp at hx'; subst hx'; exact .root

theorem minSlack_aux (t : Tree K n) : ∀ (l : List (Fin n)) (a0 : Option K),
    let r := l.foldl (fun a y => if t.T y then a else
      match a with
      | none => some (t.slack y)
      | some b => some (min b (t.slack y))) a0
    (r = none → a0 = none ∧ ∀ y ∈ l, t.T y = true) ∧
    (∀ a, r = some a → (∀ b, a0 = some b → a ≤ b) ∧ (∀ y ∈ l, t.T y = false → a ≤ t.slack y) ∧
      (a0 = some a ∨ ∃ y ∈ l, t.T y = false ∧ t.slack y = a)) := by
  intro l
  induction l with
  | nil =>
    intro a0
    refine ⟨fun h => ⟨h, by simp⟩, fun a h => ⟨fun b hb => ?_, by simp, Or.inl h⟩⟩
    simp only [List.foldl_nil] at h
    rw [h] at hb; cases hb; exact le_refl _
  | cons y l ih =>
    intro a0
    simp only [List.foldl_cons]
    by_cases hT : t.T y = true
    · simp only [hT, if_true]
      obtain ⟨h1, h2⟩ := ih a0
      refine ⟨fun h => ⟨(h1 h).1, ?_⟩, fun a h => ⟨(h2 a h).1, ?_, ?_⟩⟩
      · intro y' hy'
        rcases List.mem_cons.1 hy' with rfl | hy'
        · exact hT
        · exact (h1 h).2 y' hy'
      · intro y' hy' hf
        rcases List.mem_cons.1 hy' with rfl | hy'
        · simp [hT] at hf
        · exact (h2 a h).2.1 y' hy' hf
      · rcases (h2 a h).2.2 with h3 | ⟨y', h3, h4⟩
        · exact Or.inl h3
        · exact Or.inr ⟨y', List.mem_cons_of_mem _ h3, h4⟩
    · have hT' : t.T y = false := by simpa using hT
      simp only [hT', Bool.false_eq_true, if_false]
      cases a0 with
      | none =>
        obtain ⟨h1, h2⟩ := ih (some (t.slack y))
        refine ⟨fun h => by simpa using (h1 h).1, fun a h => ⟨by simp, ?_, ?_⟩⟩
        · intro y' hy' hf
          rcases List.mem_cons.1 hy' with rfl | hy'
          · exact (h2 a h).1 _ rfl
          · exact (h2 a h).2.1 y' hy' hf
        · right
          rcases (h2 a h).2.2 with h3 | ⟨y', h3, h4⟩
          · exact ⟨y, List.mem_cons_self, hT', by simpa using h3⟩
          · exact ⟨y', List.mem_cons_of_mem _ h3, h4⟩
      | some b0 =>
        obtain ⟨h1, h2⟩ := ih (some (min b0 (t.slack y)))
        refine ⟨fun h => by simpa using (h1 h).1, fun a h => ⟨?_, ?_, ?_⟩⟩
        · intro b hb; cases hb
          exact le_trans ((h2 a h).1 _ rfl) (min_le_left _ _)
        · intro y' hy' hf
          rcases List.mem_cons.1 hy' with rfl | hy'
          · exact le_trans ((h2 a h).1 _ rfl) (min_le_right _ _)
          · exact (h2 a h).2.1 y' hy' hf
        · rcases (h2 a h).2.2 with h3 | ⟨y', h3, h4⟩
          · simp at h3
            rcases le_total b0 (t.slack y) with h5 | h5
            · left; rw [min_eq_left h5] at h3; rw [h3]
            · right; rw [min_eq_right h5] at h3; exact ⟨y, List.mem_cons_self, hT', h3⟩
          · exact Or.inr ⟨y', List.mem_cons_of_mem _ h3, h4⟩

theorem minSlack_spec (t : Tree K n) :
    (minSlack t = none → ∀ y, t.T y = true) ∧
    (∀ a, minSlack t = some a → (∀ y, t.T y = false → a ≤ t.slack y) ∧ ∃ y, t.T y = false ∧ t.slack y = a) := by
  obtain ⟨h1, h2⟩ := minSlack_aux t (List.finRange n) none
  refine ⟨fun h y => (h1 h).2 y (List.mem_finRange y), fun a h => ⟨fun y => (h2 a h).2.1 y (List.mem_finRange y), ?_⟩⟩
  rcases (h2 a h).2.2 with h3 | ⟨y, _, h4⟩
  · cases h3
  · exact ⟨y, h4⟩

/-- There is always a Y vertex outside the tree: the tree's Y vertices are matched to its X vertices other than the
root. -/
theorem exists_not_T {C : Mat K n} {c : Core K n} {t : Tree K n} (hc : CInv C c) (ht : TInv C c t) :
    ∃ y, t.T y = false := by
  by_contra hcon
  have hall : ∀ y, t.T y = true := by
    intro y
    by_contra h
    exact hcon ⟨y, by simpa using h⟩
  choose f hf using fun y => ht.tMatched y (hall y)
  have hinj : Function.Injective f := by
    intro y1 y2 h
    have h1 := (hc.cons _ _).2 (hf y1).1
    have h2 := (hc.cons _ _).2 (hf y2).1
    rw [h, h2] at h1
    exact (Option.some.inj h1).symm
  obtain ⟨y, hy⟩ := Finite.surjective_of_injective hinj t.root
  have := (hc.cons _ _).2 (hf y).1
  rw [hy, ht.free] at this
  cases this

/-- Step 3 keeps the invariants and leaves a vertex in `N(S) \ T`. -/
theorem updateLabels_spec {C : Mat K n} {c : Core K n} {t : Tree K n} (hc : CInv C c) (ht : TInv C c t) :
    ∃ c' t', updateLabels c t = some (c', t') ∧ CInv C c' ∧ TInv C c' t' ∧ (∃ y, t'.NS y = true ∧ t'.T y = false) ∧
      c'.xy = c.xy ∧ c'.yx = c.yx ∧ t'.T = t.T ∧ t'.root = t.root := by
  unfold updateLabels
  by_cases hNS : ∀ y, t.NS y = t.T y
  · rw [if_pos hNS]
    obtain ⟨y0, hy0⟩ := exists_not_T hc ht
    cases hm : minSlack t with
    | none =>
      have := (minSlack_spec t).1 hm y0
      simp [hy0] at this
    | some a =>
      obtain ⟨hle, y1, hy1, hy1a⟩ := (minSlack_spec t).2 a hm
      have hnNS : ∀ y, t.T y = false → t.NS y = false := fun y h => by rw [hNS]; exact h
      have hpos : 0 < a := by rw [← hy1a]; exact (ht.notNS y1 (hnNS y1 hy1)).1
      -- the new slacks
      set c' : Core K n := { c with lx := fun x => if t.S x then c.lx x - a else c.lx x
                                    ly := fun y => if t.T y then c.ly y + a else c.ly y } with hc'
      have s1 : ∀ x y, t.S x = true → t.T y = true → sl C c' x y = sl C c x y := by
        intro x y h1 h2; simp [sl, hc', h1, h2]
      have s2 : ∀ x y, t.S x = true → t.T y = false → sl C c' x y = sl C c x y - a := by
        intro x y h1 h2; simp [sl, hc', h1, h2]; ring
      have s3 : ∀ x y, t.S x = false → t.T y = true → sl C c' x y = sl C c x y + a := by
        intro x y h1 h2; simp [sl, hc', h1, h2]; ring
      have s4 : ∀ x y, t.S x = false → t.T y = false → sl C c' x y = sl C c x y := by
        intro x y h1 h2; simp [sl, hc', h1, h2]
      have hfeas : ∀ x y, 0 ≤ sl C c' x y := by
        intro x y
        cases hS : t.S x <;> cases hT : t.T y
        · rw [s4 x y hS hT]; exact hc.feas x y
        · rw [s3 x y hS hT]; have := hc.feas x y; linarith
        · rw [s2 x y hS hT]
          have h1 := (ht.notNS y (hnNS y hT)).2.1 x hS
          have h2 := hle y hT
          linarith
        · rw [s1 x y hS hT]; exact hc.feas x y
      have hdec : ∀ x y, t.S x = true → sl C c' x y ≤ sl C c x y := by
        intro x y hS
        cases hT : t.T y
        · rw [s2 x y hS hT]; linarith
        · rw [s1 x y hS hT]
      have hST : ∀ x y, c.xy x = some y → t.S x = t.T y := by
        intro x y hxy
        cases hT : t.T y
        · by_contra hS
          have hS : t.S x = true := by simpa using hS
          rcases ht.sMatched x hS with h | ⟨y', h1, h2⟩
          · subst h; rw [ht.free] at hxy; cases hxy
          · rw [hxy] at h1; cases h1; simp [hT] at h2
        · obtain ⟨x', h1, h2⟩ := ht.tMatched y hT
          rw [(hc.cons x y).1 hxy] at h1; cases h1; exact h2
      have hreach : ∀ x, Reach C c t.S t.root x → t.S x = true → Reach C c' t.S t.root x := by
        intro x hx
        induction hx with
        | root => intro _; exact .root
        | @step x y x' h1 h2 h3 h4 h5 h6 ih =>
          intro hS'
          have hS : t.S x = true := by
            cases h1 with
            | root => exact ht.rootS
            | step _ _ _ _ h _ => exact h
          refine .step (ih hS) ?_ h3 h4 h5 ?_
          · rw [abs_of_nonneg (hfeas x y)]
            rw [abs_of_nonneg (hc.feas x y)] at h2
            exact lt_of_le_of_lt (hdec x y hS) h2
          · rw [abs_of_nonneg (hfeas x' y)]
            rw [abs_of_nonneg (hc.feas x' y)] at h6
            exact lt_of_le_of_lt (hdec x' y h5) h6
      refine ⟨_, _, rfl, ⟨hc.cons, hfeas, ?_⟩, ⟨ht.free, ht.rootS, ht.tMatched, ht.sMatched, ?_, ?_, ?_, ?_⟩, ?_,
        rfl, rfl, rfl, rfl⟩
      · intro x y hxy
        have h1 := hST x y hxy
        have h2 := hc.tight x y hxy
        cases hT : t.T y
        · rw [s4 x y (by rw [h1, hT]) hT]; exact h2
        · rw [s1 x y (by rw [h1, hT]) hT]; exact h2
      · intro y hy
        simp [ht.tNS y hy]
      · intro y hy
        simp only [Bool.or_eq_true, decide_eq_true_eq] at hy
        cases hT : t.T y
        · have hn := hnNS y hT
          simp only [hn, Bool.false_eq_true, false_or, hT, if_false] at hy
          obtain ⟨x, h1, h2⟩ := (ht.notNS y hn).2.2
          refine ⟨x, h1, ?_⟩
          have := s2 x y h1 hT
          rw [← hc', this, h2, hy]; exact tolS_pos
        · obtain ⟨x, h1, h2⟩ := ht.ns y (ht.tNS y hT)
          exact ⟨x, h1, by rw [← hc', s1 x y h1 hT]; exact h2⟩
      · intro y hy
        simp only [Bool.or_eq_false_iff, decide_eq_false_iff_not] at hy
        obtain ⟨hn, hne⟩ := hy
        have hT : t.T y = false := by rw [← hNS]; exact hn
        simp only [hT, Bool.false_eq_true, if_false] at hne ⊢
        obtain ⟨g1, g2, x, g3, g4⟩ := ht.notNS y hn
        refine ⟨lt_of_le_of_ne (by have := hle y hT; linarith) (Ne.symm hne), ?_, x, g3, ?_⟩
        · intro x' hx'
          have := s2 x' y hx' hT
          rw [← hc', this]
          have := g2 x' hx'; linarith
        · rw [← hc', s2 x y g3 hT, g4]
      · intro x hx
        exact hreach x (ht.reach x hx) hx
      · refine ⟨y1, ?_, hy1⟩
        simp [hy1, hy1a]
  · rw [if_neg hNS]
    refine ⟨c, t, rfl, hc, ht, ?_, rfl, rfl, rfl, rfl⟩
    push Not at hNS
    obtain ⟨y, hy⟩ := hNS
    refine ⟨y, ?_⟩
    cases h1 : t.NS y <;> cases h2 : t.T y <;> simp_all
    have := ht.tNS y h2
    simp [h1] at this

/-- Step 4 keeps the invariants; it either augments (one more matched vertex) or grows the tree. -/
theorem step4_spec {C : Mat K n} {c : Core K n} {t : Tree K n} (hc : CInv C c) (ht : TInv C c t)
    (hex : ∃ y, t.NS y = true ∧ t.T y = false) :
    (∃ c', step4 C c t = .cont c' none ∧ CInv C c' ∧
      (∀ x, (c'.xy x).isSome = true ↔ (x = t.root ∨ (c.xy x).isSome = true))) ∨
    (∃ t' y, step4 C c t = .cont c (some t') ∧ TInv C c t' ∧ t.T y = false ∧
      t'.T = Function.update t.T y true) := by
  unfold step4
  split
  · rename_i hf
    obtain ⟨y, h1, h2⟩ := hex
    have := List.find?_eq_none.1 hf y (List.mem_finRange y)
    simp [h1, h2] at this
  · rename_i y hf
    have hy := List.find?_some hf
    simp only [Bool.and_eq_true, Bool.not_eq_true'] at hy
    obtain ⟨hNS, hT⟩ := hy
    obtain ⟨x0, hS0, hsl0⟩ := ht.ns y hNS
    have hx0 : c.xy x0 ≠ some y := by
      intro h
      rcases ht.sMatched x0 hS0 with h1 | ⟨y', h1, h2⟩
      · subst h1; rw [ht.free] at h; cases h
      · rw [h] at h1; cases h1; simp [hT] at h2
    have habs0 : |sl C c x0 y| < tolE := by
      rw [abs_of_nonneg (hc.feas x0 y)]; exact lt_of_lt_of_le hsl0 tolS_le_tolE
    split
    · rename_i hyx
      left
      obtain ⟨b, c', e1, e2, e3, e4, e5, e6, e7⟩ := search_augment (C := C) (c := c) (S := t.S) (root := t.root)
        (target := y) ⟨x0, ht.reach x0 hS0, habs0, hx0⟩ hc.cons ht.free hyx (by
          intro x' y' h
          rw [abs_of_nonneg (hc.feas x' y')]; exact hc.tight x' y' h)
      have hsl : ∀ x y, sl C c' x y = sl C c x y := by
        intro x y; simp [sl, e3, e4]
      refine ⟨c', by simp only [e1, e2], ⟨e5, ?_, ?_⟩, e7⟩
      · intro x y; rw [hsl]; exact hc.feas x y
      · intro x y h
        rw [hsl]
        have := e6 x y h
        rwa [abs_of_nonneg (hc.feas x y)] at this
    · rename_i xt hyx
      right
      have hxt : c.xy xt = some y := (hc.cons xt y).2 hyx
      have hxtS : t.S xt = false := by
        by_contra h
        have h : t.S xt = true := by simpa using h
        rcases ht.sMatched xt h with h1 | ⟨y', h1, h2⟩
        · subst h1; rw [ht.free] at hxt; cases hxt
        · rw [hxt] at h1; cases h1; simp [hT] at h2
      have hS' : ∀ x, Function.update t.S xt true x = true ↔ x = xt ∨ t.S x = true := by
        intro x; by_cases e : x = xt
        · subst e; simp
        · simp [e]
      have hT' : ∀ x, Function.update t.T y true x = true ↔ x = y ∨ t.T x = true := by
        intro x; by_cases e : x = y
        · subst e; simp
        · simp [e]
      have hrm : ∀ x, Reach C c t.S t.root x → Reach C c (Function.update t.S xt true) t.root x := by
        intro x hx
        induction hx with
        | root => exact .root
        | step _ h2 h3 h4 h5 h6 ih => exact .step ih h2 h3 h4 ((hS' _).2 (Or.inr h5)) h6
      refine ⟨_, y, rfl, ⟨ht.free, (hS' _).2 (Or.inr ht.rootS), ?_, ?_, ?_, ?_, ?_, ?_⟩, hT, rfl⟩
      · intro y' hy'
        rcases (hT' y').1 hy' with rfl | h
        · exact ⟨xt, hyx, (hS' _).2 (Or.inl rfl)⟩
        · obtain ⟨x, h1, h2⟩ := ht.tMatched y' h
          exact ⟨x, h1, (hS' _).2 (Or.inr h2)⟩
      · intro x hx
        rcases (hS' x).1 hx with rfl | h
        · exact Or.inr ⟨y, hxt, (hT' _).2 (Or.inl rfl)⟩
        · rcases ht.sMatched x h with h1 | ⟨y', h1, h2⟩
          · exact Or.inl h1
          · exact Or.inr ⟨y', h1, (hT' _).2 (Or.inr h2)⟩
      · intro y' hy'
        rcases (hT' y').1 hy' with rfl | h
        · simp [hNS]
        · simp [ht.tNS y' h]
      · intro y' hy'
        simp only [Bool.or_eq_true, decide_eq_true_eq] at hy'
        rcases hy' with h | h
        · obtain ⟨x, h1, h2⟩ := ht.ns y' h
          exact ⟨x, (hS' _).2 (Or.inr h1), h2⟩
        · exact ⟨xt, (hS' _).2 (Or.inl rfl), lt_of_le_of_lt (le_abs_self _) h⟩
      · intro y' hy'
        simp only [Bool.or_eq_false_iff, decide_eq_false_iff_not] at hy'
        obtain ⟨h1, h2⟩ := hy'
        obtain ⟨g1, g2, x, g3, g4⟩ := ht.notNS y' h1
        have hge : tolS ≤ sl C c xt y' := by
          rw [abs_of_nonneg (hc.feas xt y')] at h2; exact not_lt.1 h2
        have hpos : 0 < sl C c xt y' := lt_of_lt_of_le tolS_pos hge
        by_cases hlt : sl C c xt y' < t.slack y'
        · simp only [if_pos hlt]
          refine ⟨hpos, ?_, xt, (hS' _).2 (Or.inl rfl), rfl⟩
          intro x' hx'
          rcases (hS' x').1 hx' with rfl | h
          · exact le_refl _
          · exact le_trans (le_of_lt hlt) (g2 x' h)
        · simp only [if_neg hlt]
          refine ⟨g1, ?_, x, (hS' _).2 (Or.inr g3), g4⟩
          intro x' hx'
          rcases (hS' x').1 hx' with rfl | h
          · exact not_lt.1 hlt
          · exact g2 x' h
      · intro x hx
        rcases (hS' x).1 hx with rfl | h
        · refine .step (hrm x0 (ht.reach x0 hS0)) habs0 hx0 hyx hx ?_
          rw [abs_of_nonneg (hc.feas _ _)]; exact hc.tight _ _ hxt
        · exact hrm x (ht.reach x h)

end Hungarian
end RFS
