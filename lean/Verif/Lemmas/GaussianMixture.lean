import Verif.Model.GaussianMixture
import Mathlib.Algebra.BigOperators.Fin
import Mathlib.Algebra.Group.Int.Defs
import Mathlib.Data.List.Sort
import Mathlib.Tactic.Ring
import Mathlib.Tactic.FieldSimp
import Mathlib.Tactic.Linarith
import Mathlib.Tactic.Abel

set_option linter.unusedSectionVars false

namespace RFS
namespace GM

variable {K : Type*} [Field K] [LinearOrder K] [IsStrictOrderedRing K] {d : Nat}

/-- Number of stored Gaussians. -/
def cnt (g : List (Gauss K d)) : Nat := g.countP fun e => e.lm.isSome

theorem cnt_nil : cnt ([] : List (Gauss K d)) = 0 := rfl

theorem cnt_append (a b : List (Gauss K d)) : cnt (a ++ b) = cnt a + cnt b := by simp [cnt]

theorem cnt_le (g : List (Gauss K d)) : cnt g ≤ g.length := List.countP_le_length

theorem cnt_map {g : List (Gauss K d)} {f : Gauss K d → Gauss K d} (h : ∀ e, (f e).lm = e.lm) : cnt (g.map f) = cnt g := by
  unfold cnt
  rw [List.countP_map]
  congr 1
  funext e
  simp [h]

/-- Replacing one element of a list changes a sum by the difference. -/
theorem sum_set {V : Type*} [AddCommGroup V] (F : Gauss K d → V) :
    ∀ (g : List (Gauss K d)) (i : Nat) (e e' : Gauss K d), g[i]? = some e →
      ((g.set i e').map F).sum + F e = (g.map F).sum + F e'
  | [], _, _, _, h => by simp at h
  | a :: g, 0, e, e', h => by
    simp only [List.getElem?_cons_zero, Option.some.injEq] at h
    subst h
    simp only [List.set_cons_zero, List.map_cons, List.sum_cons]
    abel
  | a :: g, i + 1, e, e', h => by
    simp only [List.getElem?_cons_succ] at h
    have := sum_set F g i e e' h
    simp only [List.set_cons_succ, List.map_cons, List.sum_cons]
    rw [add_assoc, this, add_assoc]

theorem cnt_eq_sum (g : List (Gauss K d)) : (cnt g : Int) = (g.map fun e => if e.lm.isSome then (1 : Int) else 0).sum := by
  induction g with
  | nil => rfl
  | cons a g ih =>
    unfold cnt at ih ⊢
    rw [List.countP_cons, List.map_cons, List.sum_cons, ← ih]
    push_cast
    cases a.lm <;> simp [add_comm]

theorem cnt_set (g : List (Gauss K d)) (i : Nat) (e e' : Gauss K d) (h : g[i]? = some e) :
    (cnt (g.set i e') : Int) = cnt g - (if e.lm.isSome then 1 else 0) + (if e'.lm.isSome then 1 else 0) := by
  have := sum_set (fun e : Gauss K d => if e.lm.isSome then (1 : Int) else 0) g i e e' h
  rw [cnt_eq_sum, cnt_eq_sum]
  linarith

theorem removeGaussian_cases (m : GMix K d) (i : Nat) :
    (m.g.length ≤ i ∧ removeGaussian m i = none) ∨
    (∃ e, m.g[i]? = some e ∧ e.lm = none ∧ removeGaussian m i = some { m with sorted := false }) ∨
    (∃ e l, m.g[i]? = some e ∧ e.lm = some l ∧
      removeGaussian m i = some ⟨m.n - 1, m.g.set i ⟨none, 0, 0⟩, false⟩) := by
  unfold removeGaussian
  cases h : m.g[i]? with
  | none => left; exact ⟨List.getElem?_eq_none_iff.1 h, rfl⟩
  | some e =>
    right
    cases h2 : e.lm with
    | none => left; exact ⟨e, rfl, h2, by simp [h2]⟩
    | some l => right; exact ⟨e, l, rfl, h2, by simp [h2]⟩

/-- Count invariant. -/
def CountOK (m : GMix K d) : Prop := m.n = cnt m.g

theorem CountOK.remove {m m' : GMix K d} {i : Nat} (h : CountOK m) (e : removeGaussian m i = some m') : CountOK m' := by
  rcases removeGaussian_cases m i with ⟨-, h1⟩ | ⟨e', h1, h2, h3⟩ | ⟨e', l, h1, h2, h3⟩
  · rw [h1] at e; cases e
  · rw [h3] at e; cases e; exact h
  · rw [h3] at e; cases e
    unfold CountOK at *
    simp only
    rw [cnt_set _ _ _ _ h1, h, h2]
    simp

theorem CountOK.addAt {m m' : GMix K d} {i : Nat} {l : Lm K d} {w : K} (h : CountOK m)
    (e : addGaussianAt m i l w = some m') : CountOK m' := by
  unfold addGaussianAt at e
  cases hr : removeGaussian m i with
  | none => rw [hr] at e; cases e
  | some m1 =>
    rw [hr] at e
    cases e
    have h1 := h.remove hr
    have hnull : ∃ e, m1.g[i]? = some e ∧ e.lm = none := by
      clear h1
      rcases removeGaussian_cases m i with ⟨-, h1⟩ | ⟨e', h1, h2, h3⟩ | ⟨e', l, h1, h2, h3⟩
      · rw [h1] at hr; cases hr
      · rw [h3] at hr; cases hr; exact ⟨e', h1, h2⟩
      · rw [h3] at hr; cases hr
        refine ⟨⟨none, 0, 0⟩, ?_, rfl⟩
        rw [List.getElem?_set_self]
        exact (List.getElem?_eq_some_iff.1 h1).1
    obtain ⟨e0, h2, h3⟩ := hnull
    unfold CountOK at *
    simp only
    rw [cnt_set _ _ _ _ h2, h1, h3]
    simp

/-- What one pairwise merge does. -/
theorem merge2_cases (maha : Lm K d → Lm K d → K) (t f : K) (m : GMix K d) (i j : Nat) (hij : i ≠ j)
    (hi : i < m.g.length) (hj : j < m.g.length) :
    (merge2 maha t f m i j = some (false, { m with sorted := false }) ∧
      ∀ e1 e2 l1 l2, m.g[i]? = some e1 → m.g[j]? = some e2 → e1.lm = some l1 → e2.lm = some l2 →
        (t * t < maha l1 l2 ∧ t * t < maha l2 l1) ∨ e1.w + e2.w = 0) ∨
    ∃ e1 e2 l1 l2, m.g[i]? = some e1 ∧ m.g[j]? = some e2 ∧ e1.lm = some l1 ∧ e2.lm = some l2 ∧
      ¬ (t * t < maha l1 l2 ∧ t * t < maha l2 l1) ∧ e1.w + e2.w ≠ 0 ∧
      merge2 maha t f m i j = some (true, ⟨m.n - 1,
        (m.g.set i ⟨some (mergeLm e1.w e2.w f l1 l2), e1.w + e2.w, 0⟩).set j ⟨none, 0, 0⟩, false⟩) := by
  obtain ⟨e1, h1⟩ : ∃ e1, m.g[i]? = some e1 := ⟨_, List.getElem?_eq_getElem hi⟩
  obtain ⟨e2, h2⟩ : ∃ e2, m.g[j]? = some e2 := ⟨_, List.getElem?_eq_getElem hj⟩
  unfold merge2
  rw [h1, h2]
  cases h3 : e1.lm with
  | none =>
    left
    refine ⟨by simp [h3], ?_⟩
    intro e1' e2' l1 l2 a b c' d'
    cases a; rw [h3] at c'; cases c'
  | some l1 =>
    cases h4 : e2.lm with
    | none =>
      left
      refine ⟨by simp [h3, h4], ?_⟩
      intro e1' e2' l1 l2 a b c' d'
      cases b; rw [h4] at d'; cases d'
    | some l2 =>
      simp only [h3, h4]
      by_cases h5 : t * t < maha l1 l2 ∧ t * t < maha l2 l1
      · left
        rw [if_pos h5]
        refine ⟨rfl, ?_⟩
        intro e1' e2' l1' l2' a b c' d'
        cases a; cases b; rw [h3] at c'; rw [h4] at d'; cases c'; cases d'
        exact Or.inl h5
      · rw [if_neg h5]
        by_cases h6 : e1.w + e2.w = 0
        · left
          rw [if_pos h6]
          refine ⟨rfl, ?_⟩
          intro e1' e2' l1' l2' a b c' d'
          cases a; cases b
          exact Or.inr h6
        · right
          rw [if_neg h6]
          refine ⟨e1, e2, l1, l2, rfl, rfl, h3, h4, h5, h6, ?_⟩
          unfold removeGaussian
          simp only
          rw [List.getElem?_set_ne hij, h2]
          simp [h4]

theorem merge2_length {maha : Lm K d → Lm K d → K} {t f : K} {m m' : GMix K d} {i j : Nat} {b : Bool} (hij : i ≠ j)
    (hi : i < m.g.length) (hj : j < m.g.length) (e : merge2 maha t f m i j = some (b, m')) : m'.g.length = m.g.length := by
  rcases merge2_cases maha t f m i j hij hi hj with ⟨h, -⟩ | ⟨e1, e2, l1, l2, -, -, -, -, -, -, h⟩
  · rw [h] at e; cases e; rfl
  · rw [h] at e; cases e; simp

/-- Sums of a quantity that a merge keeps. `F` gives the contribution of an entry. -/
structure Additive {V : Type*} [AddCommGroup V] (f : K) (F : Gauss K d → V) : Prop where
  hole : F ⟨none, 0, 0⟩ = 0
  pair : ∀ e1 e2 l1 l2, e1.lm = some l1 → e2.lm = some l2 → e1.w + e2.w ≠ 0 →
    F ⟨some (mergeLm e1.w e2.w f l1 l2), e1.w + e2.w, 0⟩ = F e1 + F e2

theorem merge2_sum {V : Type*} [AddCommGroup V] {f : K} {F : Gauss K d → V} (hF : Additive f F)
    {maha : Lm K d → Lm K d → K} {t : K} {m m' : GMix K d} {i j : Nat} {b : Bool} (hij : i ≠ j)
    (hi : i < m.g.length) (hj : j < m.g.length) (e : merge2 maha t f m i j = some (b, m')) :
    (m'.g.map F).sum = (m.g.map F).sum := by
  rcases merge2_cases maha t f m i j hij hi hj with ⟨h, -⟩ | ⟨e1, e2, l1, l2, g1, g2, g3, g4, -, g6, h⟩
  · rw [h] at e; cases e; rfl
  · rw [h] at e; cases e
    simp only
    have s1 := sum_set F m.g i e1 ⟨some (mergeLm e1.w e2.w f l1 l2), e1.w + e2.w, 0⟩ g1
    have s2 := sum_set F (m.g.set i ⟨some (mergeLm e1.w e2.w f l1 l2), e1.w + e2.w, 0⟩) j e2 ⟨none, 0, 0⟩
      (by rw [List.getElem?_set_ne hij, g2])
    rw [hF.pair e1 e2 l1 l2 g3 g4 g6] at s1
    rw [hF.hole, add_zero] at s2
    have : (List.map F (m.g.set i ⟨some (mergeLm e1.w e2.w f l1 l2), e1.w + e2.w, 0⟩)).sum = (m.g.map F).sum + F e2 := by
      have h' := s1
      rw [add_comm (F e1), ← add_assoc] at h'
      exact add_right_cancel h'
    rw [this] at s2
    exact add_right_cancel s2

theorem merge2_count {maha : Lm K d → Lm K d → K} {t f : K} {m m' : GMix K d} {i j : Nat} {b : Bool} (hij : i ≠ j)
    (hi : i < m.g.length) (hj : j < m.g.length) (e : merge2 maha t f m i j = some (b, m')) :
    (cnt m'.g : Int) + (if b then 1 else 0) = cnt m.g ∧ m'.n + (if b then 1 else 0) = m.n := by
  rcases merge2_cases maha t f m i j hij hi hj with ⟨h, -⟩ | ⟨e1, e2, l1, l2, g1, g2, g3, g4, -, g6, h⟩
  · rw [h] at e; cases e; simp
  · rw [h] at e; cases e
    simp only
    rw [cnt_set _ _ e2 _ (by rw [List.getElem?_set_ne hij, g2]), cnt_set _ _ _ _ g1, g3, g4]
    simp

/-- An invariant of the whole merge, given that each pairwise merge keeps it. -/
theorem mergeInner_inv {maha : Lm K d → Lm K d → K} {t f : K} (P : Nat × GMix K d → Prop) (N i : Nat) (hi : i < N)
    (hP : ∀ k m j b m', P (k, m) → m.g.length = N → i < j → j < N → merge2 maha t f m i j = some (b, m') →
      P (if b then k + 1 else k, m')) :
    ∀ (js : List Nat) (s : Nat × GMix K d), (∀ j ∈ js, i < j ∧ j < N) → P s → s.2.g.length = N →
      ∃ s', mergeInner maha t f i js s = some s' ∧ P s' ∧ s'.2.g.length = N
  | [], s, _, h, hl => ⟨s, rfl, h, hl⟩
  | j :: js, s, hjs, h, hl => by
    obtain ⟨h1, h2⟩ := hjs j (by simp)
    have hex : ∃ b m', merge2 maha t f s.2 i j = some (b, m') := by
      rcases merge2_cases maha t f s.2 i j (by omega) (by omega) (by omega) with ⟨h, -⟩ | ⟨_, _, _, _, -, -, -, -, -, -, h⟩
      · exact ⟨_, _, h⟩
      · exact ⟨_, _, h⟩
    obtain ⟨b, m', e⟩ := hex
    have hl' := merge2_length (by omega) (by omega) (by omega) e
    obtain ⟨s', e', g1, g2⟩ := mergeInner_inv P N i hi hP js (if b then s.1 + 1 else s.1, m')
      (fun j' hj' => hjs j' (by simp [hj'])) (hP s.1 s.2 j b m' h hl h1 h2 e) (by simp only; omega)
    exact ⟨s', by simp only [mergeInner, e, e'], g1, g2⟩

theorem mergeOuter_inv {maha : Lm K d → Lm K d → K} {t f : K} (P : Nat × GMix K d → Prop) (N : Nat)
    (hP : ∀ k m i j b m', P (k, m) → m.g.length = N → i < j → j < N → merge2 maha t f m i j = some (b, m') →
      P (if b then k + 1 else k, m')) :
    ∀ (is : List Nat) (s : Nat × GMix K d), (∀ i ∈ is, i < N) → P s → s.2.g.length = N →
      ∃ s', mergeOuter maha t f N is s = some s' ∧ P s' ∧ s'.2.g.length = N
  | [], s, _, h, hl => ⟨s, rfl, h, hl⟩
  | i :: is, s, his, h, hl => by
    have hi := his i (by simp)
    have his' : ∀ i ∈ is, i < N := fun i' hi' => his i' (by simp [hi'])
    unfold mergeOuter
    rw [List.getElem?_eq_getElem (by omega : i < s.2.g.length)]
    simp only
    cases (s.2.g[i]'(by omega)).lm with
    | none => exact mergeOuter_inv P N hP is s his' h hl
    | some l =>
      simp only
      obtain ⟨s', e', g1, g2⟩ := mergeInner_inv P N i hi (fun k m j b m' a1 a2 a3 a4 a5 => hP k m i j b m' a1 a2 a3 a4 a5)
        ((List.range N).drop (i + 1)) s (by
          intro j hj
          rw [List.range_eq_range', List.drop_range', List.mem_range'_1] at hj
          omega) h hl
      rw [e']
      exact mergeOuter_inv P N hP is s' his' g1 g2

theorem merge_inv {maha : Lm K d → Lm K d → K} {t f : K} (P : Nat × GMix K d → Prop) (m : GMix K d)
    (h0 : P (0, { m with sorted := false }))
    (hP : ∀ k m1 i j b m', P (k, m1) → m1.g.length = m.g.length → i < j → j < m.g.length →
      merge2 maha t f m1 i j = some (b, m') → P (if b then k + 1 else k, m')) :
    ∃ s', merge maha t f m = some s' ∧ P s' ∧ s'.2.g.length = m.g.length :=
  mergeOuter_inv P m.g.length hP (List.range m.g.length) _ (by simp) h0 rfl

/-! ### prune -/

theorem bsearch_spec {ws : List K} {t : K} (hs : ws.Pairwise fun a b => b ≤ a) :
    ∀ (fuel mn mx idx old : Nat) (w : K), idx ≠ old → mn ≤ mx → mx < ws.length → idx = (mx + mn) / 2 →
      ws[idx]? = some w → (mn = 0 ∨ ∃ v, ws[mn]? = some v ∧ t < v) → mx - mn + 2 ≤ fuel →
      ∃ i0 w0, bsearch ws t fuel mn mx idx old w = some (i0, w0) ∧ ws[i0]? = some w0 ∧ (i0 = 0 ∨ t < w0) := by
  intro fuel
  induction fuel with
  | zero => intro mn mx idx old w _ _ _ _ _ _ h; omega
  | succ fuel ih =>
    intro mn mx idx old w hne hle hmx hidx hw hmn hf
    unfold bsearch
    rw [if_neg hne]
    simp only
    by_cases hwt : w ≤ t
    · simp only [hwt, if_true]
      have hlt : (idx + mn) / 2 < ws.length := by omega
      rw [List.getElem?_eq_getElem hlt]
      simp only
      by_cases heq : (idx + mn) / 2 = idx
      · -- stops: idx = mn
        have hmi : mn = idx := by omega
        cases fuel with
        | zero => omega
        | succ fuel =>
          unfold bsearch
          rw [if_pos heq]
          refine ⟨_, _, rfl, List.getElem?_eq_getElem hlt, ?_⟩
          left
          rcases hmn with h | ⟨v, hv, htv⟩
          · omega
          · rw [hmi, hw] at hv
            cases hv
            exact absurd hwt (not_le.2 htv)
      · exact ih mn idx _ idx _ heq (by omega) (by omega) rfl (List.getElem?_eq_getElem hlt) hmn (by omega)
    · simp only [hwt, if_false]
      have hlt : (mx + idx) / 2 < ws.length := by omega
      rw [List.getElem?_eq_getElem hlt]
      simp only
      by_cases heq : (mx + idx) / 2 = idx
      · cases fuel with
        | zero => omega
        | succ fuel =>
          unfold bsearch
          rw [if_pos heq]
          refine ⟨_, _, rfl, List.getElem?_eq_getElem hlt, Or.inr ?_⟩
          have : ws[(mx + idx) / 2]'hlt = w := by
            have h1 := List.getElem?_eq_getElem hlt
            have h2 : ws[(mx + idx) / 2]? = some w := by rw [heq]; exact hw
            rw [h2] at h1
            exact (Option.some.inj h1).symm
          rw [this]; exact not_le.1 hwt
      · exact ih idx mx _ idx _ heq (by omega) hmx rfl (List.getElem?_eq_getElem hlt)
          (Or.inr ⟨w, hw, not_le.1 hwt⟩) (by omega)

theorem scanUp_spec {ws : List K} {t : K} :
    ∀ (fuel idx : Nat) (w : K), ws[idx]? = some w → ws.length - idx < fuel → (∀ j < idx, ∀ v, ws[j]? = some v → t ≤ v) →
      ∃ i1, scanUp ws t fuel idx w = some i1 ∧ i1 ≤ ws.length ∧ (∀ j < i1, ∀ v, ws[j]? = some v → t ≤ v) ∧
        (∀ v, ws[i1]? = some v → v < t) := by
  intro fuel
  induction fuel with
  | zero => intro idx w _ h; omega
  | succ fuel ih =>
    intro idx w hw hf hlow
    have hl := (List.getElem?_eq_some_iff.1 hw).1
    unfold scanUp
    by_cases htw : t ≤ w
    · rw [if_pos htw]
      have hlow' : ∀ j < idx + 1, ∀ v, ws[j]? = some v → t ≤ v := by
        intro j hj v hv
        rcases Nat.lt_succ_iff_lt_or_eq.1 hj with h | h
        · exact hlow j h v hv
        · subst h; rw [hw] at hv; cases hv; exact htw
      cases hn : ws[idx + 1]? with
      | none =>
        refine ⟨idx + 1, rfl, by omega, hlow', ?_⟩
        intro v hv; rw [hn] at hv; cases hv
      | some w' => exact ih (idx + 1) w' hn (by omega) hlow'
    · rw [if_neg htw]
      exact ⟨idx, rfl, hl.le, hlow, fun v hv => by rw [hw] at hv; cases hv; exact not_le.1 htw⟩

theorem removeFrom_spec (c : Nat) : ∀ (is : List Nat) (m : GMix K d), (∀ i ∈ is, c ≤ i ∧ i < m.g.length) →
    ∃ m', removeFrom m is = some m' ∧ m'.g.length = m.g.length ∧ m'.g.take c = m.g.take c ∧
      m'.n - cnt m'.g = m.n - cnt m.g ∧
      (∀ i ∈ is, ∀ e, m'.g[i]? = some e → e.lm = none) ∧
      (∀ (i : Nat) (e : Gauss K d), m.g[i]? = some e → e.lm = none → ∃ e', m'.g[i]? = some e' ∧ e'.lm = none)
  | [], m, _ => ⟨m, rfl, rfl, rfl, rfl, by simp, fun i e h1 h2 => ⟨e, h1, h2⟩⟩
  | i :: is, m, h => by
    obtain ⟨h1, h2⟩ := h i (by simp)
    have key : ∃ m1, removeGaussian m i = some m1 ∧ m1.g.length = m.g.length ∧ m1.g.take c = m.g.take c ∧
        m1.n - cnt m1.g = m.n - cnt m.g ∧ (∃ e, m1.g[i]? = some e ∧ e.lm = none) ∧
        (∀ (k : Nat) (e : Gauss K d), m.g[k]? = some e → e.lm = none → ∃ e', m1.g[k]? = some e' ∧ e'.lm = none) := by
      rcases removeGaussian_cases m i with ⟨a, -⟩ | ⟨e, a1, a2, a3⟩ | ⟨e, l, a1, a2, a3⟩
      · omega
      · exact ⟨_, a3, rfl, rfl, rfl, ⟨e, a1, a2⟩, fun k e h1 h2 => ⟨e, h1, h2⟩⟩
      · refine ⟨_, a3, by simp, ?_, ?_, ⟨⟨none, 0, 0⟩, ?_, rfl⟩, ?_⟩
        · simp only
          rw [List.take_set_of_le h1]
        · simp only
          rw [cnt_set _ _ _ _ a1, a2]
          simp
        · rw [List.getElem?_set_self h2]
        · intro k e' hk he'
          simp only
          by_cases hki : i = k
          · subst hki; exact ⟨⟨none, 0, 0⟩, List.getElem?_set_self h2, rfl⟩
          · exact ⟨e', by rw [List.getElem?_set_ne hki]; exact hk, he'⟩
    obtain ⟨m1, e1, k1, k2, k3, ⟨e0, k4, k5⟩, k6⟩ := key
    obtain ⟨m', e', j1, j2, j3, j4, j5⟩ := removeFrom_spec c is m1 (fun i' hi' => by
      have := h i' (by simp [hi']); omega)
    refine ⟨m', by simp only [removeFrom, e1, e'], by omega, by rw [j2, k2], by omega, ?_, ?_⟩
    · intro k hk e he
      rcases List.mem_cons.1 hk with rfl | hk
      · obtain ⟨e'', g1, g2⟩ := j5 k e0 k4 k5
        rw [g1] at he; cases he; exact g2
      · exact j4 k hk e he
    · intro k e hk he
      obtain ⟨e1', g1, g2⟩ := k6 k e hk he
      exact j5 k e1' g1 g2

/-- What `prune` does. -/
theorem prune_spec {srt : List (Gauss K d) → List (Gauss K d)} (hsrt : IsSort srt) (t : K) (m : GMix K d) :
    ∃ k m', prune srt t m = some (k, m') ∧ m'.g.Perm (m.g.filter fun e => decide (t ≤ e.w)) ∧
      m'.g.Pairwise (fun a b => b.w ≤ a.w) ∧ k + m'.g.length = m.g.length ∧ m'.n - cnt m'.g = m.n - cnt m.g := by
  obtain ⟨hperm, hpair⟩ := hsrt m.g
  by_cases h0 : m.g.length < 1
  · have hnil : m.g = [] := List.eq_nil_of_length_eq_zero (by omega)
    refine ⟨0, { m with sorted := false }, ?_, ?_, ?_, ?_, ?_⟩
    · unfold prune
      simp only [h0, if_true]
    · simp [hnil]
    · simp [hnil]
    · simp
    · simp
  · set L := srt m.g with hL
    have hlen : L.length = m.g.length := hperm.length_eq
    have hws : (L.map Gauss.w).Pairwise fun a b => b ≤ a := by
      rw [List.pairwise_map]; exact hpair
    have hwl : (L.map Gauss.w).length = L.length := by simp
    have hidx : (L.length - 1) / 2 < (L.map Gauss.w).length := by rw [hwl]; omega
    obtain ⟨i0, w0, b1, b2, b3⟩ := bsearch_spec (t := t) hws (L.length + 2) 0 (L.length - 1) ((L.length - 1) / 2)
      ((L.length - 1) / 2 + 1) _ (by omega) (by omega) (by rw [hwl]; omega) (by simp) (List.getElem?_eq_getElem hidx)
      (Or.inl rfl) (by omega)
    obtain ⟨i1, c1, c2, c3, c4⟩ := scanUp_spec (t := t) (ws := L.map Gauss.w) (L.length + 1) i0 w0 b2
      (by rw [hwl]; omega) (by
        intro j hj v hv
        rcases b3 with h | h
        · omega
        · obtain ⟨hl0, e0⟩ := List.getElem?_eq_some_iff.1 b2
          obtain ⟨hlj, ej⟩ := List.getElem?_eq_some_iff.1 hv
          have := List.pairwise_iff_getElem.1 hws j i0 hlj hl0 hj
          rw [e0, ej] at this
          linarith)
    rw [hwl] at c2
    obtain ⟨m2, d1, d2, d3, d4, d5, -⟩ := removeFrom_spec i1 ((List.range L.length).drop i1)
      ({ n := m.n, g := L, sorted := true } : GMix K d) (by
        intro i hi
        rw [List.range_eq_range', List.drop_range', List.mem_range'_1] at hi
        simp only
        omega)
    simp only at d2 d3 d4
    have htake : L.take i1 = L.filter fun e => decide (t ≤ e.w) := by
      have h1 : (L.take i1).filter (fun e => decide (t ≤ e.w)) = L.take i1 := by
        rw [List.filter_eq_self]
        intro e he
        obtain ⟨j, hj, rfl⟩ := List.getElem_of_mem he
        rw [List.length_take] at hj
        have := c3 j (by omega) _ (by rw [List.getElem?_map, List.getElem?_eq_getElem (by omega)]; rfl)
        simpa using this
      have h2 : (L.drop i1).filter (fun e => decide (t ≤ e.w)) = [] := by
        rw [List.filter_eq_nil_iff]
        intro e he
        obtain ⟨j, hj, rfl⟩ := List.getElem_of_mem he
        rw [List.length_drop] at hj
        have hlt : i1 < L.length := by omega
        have hi1 := c4 (L[i1].w) (by rw [List.getElem?_map, List.getElem?_eq_getElem hlt]; rfl)
        rw [List.getElem_drop]
        simp only [decide_eq_true_eq, not_le]
        rcases Nat.eq_zero_or_pos j with rfl | hjp
        · simpa using hi1
        · have := List.pairwise_iff_getElem.1 hpair i1 (i1 + j) hlt (by omega) (by omega)
          linarith
      conv_rhs => rw [← List.take_append_drop i1 L, List.filter_append, h1, h2, List.append_nil]
    have hcnt : cnt m2.g = cnt (L.take i1) := by
      rw [← d3]
      conv_lhs => rw [← List.take_append_drop i1 m2.g]
      rw [cnt_append]
      have : cnt (m2.g.drop i1) = 0 := by
        unfold cnt
        rw [List.countP_eq_zero]
        intro e he
        obtain ⟨j, hj, rfl⟩ := List.getElem_of_mem he
        rw [List.length_drop] at hj
        rw [List.getElem_drop]
        have := d5 (i1 + j) (by
          rw [List.range_eq_range', List.drop_range', List.mem_range'_1]; omega) _ (List.getElem?_eq_getElem (by omega))
        simp [this]
      omega
    have hg : m2.g.take (m2.g.length - (L.length - i1)) = L.take i1 := by
      rw [d2, Nat.sub_sub_self c2, d3]
    refine ⟨L.length - i1, { m2 with g := m2.g.take (m2.g.length - (L.length - i1)) }, ?_, ?_, ?_, ?_, ?_⟩
    · unfold prune
      simp only
      rw [if_neg h0]
      have hs : sortByWeight srt { n := m.n, g := m.g, sorted := false } = { n := m.n, g := L, sorted := true } := by
        simp [sortByWeight, hL]
      rw [hs]
      simp only
      rw [List.getElem?_eq_getElem hidx]
      simp only [b1, c1, d1]
    · simp only
      rw [hg, htake]
      exact hperm.filter _
    · simp only
      rw [hg]
      exact hpair.sublist (List.take_sublist _ _)
    · simp only
      rw [hg, List.length_take]; omega
    · simp only
      rw [hg, ← hcnt, d4]
      have : cnt L = cnt m.g := by unfold cnt; exact hperm.countP_eq _
      rw [this]

end GM
end RFS
