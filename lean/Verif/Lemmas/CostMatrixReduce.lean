import Verif.Model.CostMatrixReduce
import Verif.Lemmas.Hungarian
import Mathlib.Data.List.FinRange
import Mathlib.Data.Fintype.Perm
import Mathlib.GroupTheory.Perm.Basic
import Mathlib.Algebra.BigOperators.Group.List.Basic
import Mathlib.Data.Fin.Basic
import Mathlib.Algebra.BigOperators.Fin

set_option linter.unusedSectionVars false

namespace RFS
namespace CostMat
open Hungarian (Mat Consistent)

variable {K : Type*} [Field K] [LinearOrder K] [IsStrictOrderedRing K] {n : Nat}

/-! ### The scan loop -/

/-- Number of candidates in row `i` among the pairs `P`. -/
def cntI (lim : K) (mv : Bool) (C0 : Mat K n) (P : List (Fin n × Fin n)) (i : Fin n) : Nat :=
  P.countP fun p => decide (p.1 = i) && !(beyond lim mv (C0 p.1 p.2))

/-- Number of candidates in column `j` among the pairs `P`. -/
def cntJ (lim : K) (mv : Bool) (C0 : Mat K n) (P : List (Fin n × Fin n)) (j : Fin n) : Nat :=
  P.countP fun p => decide (p.2 = j) && !(beyond lim mv (C0 p.1 p.2))

structure SInv (lim : K) (mv : Bool) (C0 : Mat K n) (P : List (Fin n × Fin n)) (s : Scan K n) : Prop where
  hC : ∀ i j, s.C i j = if (i, j) ∈ P ∧ beyond lim mv (C0 i j) = true then lim else C0 i j
  hni : ∀ i, s.ni i = cntI lim mv C0 P i
  hnj : ∀ j, s.nj j = cntJ lim mv C0 P j
  a1 : ∀ i j, s.af i = some j → (i, j) ∈ P ∧ beyond lim mv (C0 i j) = false ∧ s.ni i = 1
  a2 : ∀ i j, (i, j) ∈ P → beyond lim mv (C0 i j) = false → s.ni i = 1 → s.nj j = 1 → s.af i = some j
  b1 : ∀ i j, s.ar j = some i → (i, j) ∈ P ∧ beyond lim mv (C0 i j) = false ∧ s.nj j = 1
  b2 : ∀ i j, (i, j) ∈ P → beyond lim mv (C0 i j) = false → s.ni i = 1 → s.nj j = 1 → s.ar j = some i

theorem cntI_pos {lim : K} {mv : Bool} {C0 : Mat K n} {P : List (Fin n × Fin n)} {i j : Fin n} (h : (i, j) ∈ P)
    (hb : beyond lim mv (C0 i j) = false) : 1 ≤ cntI lim mv C0 P i := by
  unfold cntI
  rw [Nat.succ_le_iff, List.countP_pos_iff]
  exact ⟨(i, j), h, by simp [hb]⟩

theorem cntJ_pos {lim : K} {mv : Bool} {C0 : Mat K n} {P : List (Fin n × Fin n)} {i j : Fin n} (h : (i, j) ∈ P)
    (hb : beyond lim mv (C0 i j) = false) : 1 ≤ cntJ lim mv C0 P j := by
  unfold cntJ
  rw [Nat.succ_le_iff, List.countP_pos_iff]
  exact ⟨(i, j), h, by simp [hb]⟩

theorem scanStep_inv {lim : K} {mv : Bool} {C0 : Mat K n} {P : List (Fin n × Fin n)} {s : Scan K n}
    (h : SInv lim mv C0 P s) (q : Fin n × Fin n) (hq : q ∉ P) :
    SInv lim mv C0 (P ++ [q]) (scanStep lim mv s q) := by
  obtain ⟨i, j⟩ := q
  have hCij : s.C i j = C0 i j := by rw [h.hC]; simp [hq]
  unfold scanStep
  simp only [hCij]
  by_cases hb : beyond lim mv (C0 i j) = true
  · rw [if_pos hb]
    have eI : ∀ i', cntI lim mv C0 (P ++ [(i, j)]) i' = cntI lim mv C0 P i' := by
      intro i'; simp [cntI, List.countP_append, hb]
    have eJ : ∀ j', cntJ lim mv C0 (P ++ [(i, j)]) j' = cntJ lim mv C0 P j' := by
      intro j'; simp [cntJ, List.countP_append, hb]
    have hmem : ∀ i' j', (i', j') ∈ P ++ [(i, j)] → beyond lim mv (C0 i' j') = false → (i', j') ∈ P := by
      intro i' j' h1 h2
      rcases List.mem_append.1 h1 with h1 | h1
      · exact h1
      · simp at h1; obtain ⟨rfl, rfl⟩ := h1; simp [hb] at h2
    refine ⟨?_, ?_, ?_, ?_, ?_, ?_, ?_⟩
    · intro i' j'
      simp only
      by_cases e1 : i' = i
      · subst e1
        by_cases e2 : j' = j
        · subst e2; simp [hb]
        · simp only [Function.update_self, Function.update_apply, if_neg e2]
          rw [h.hC]; simp [e2]
      · simp only [Function.update_apply, if_neg e1]
        rw [h.hC]; simp [e1]
    · intro i'; rw [eI]; exact h.hni i'
    · intro j'; rw [eJ]; exact h.hnj j'
    · intro i' j' h1
      obtain ⟨g1, g2, g3⟩ := h.a1 i' j' h1
      exact ⟨List.mem_append_left _ g1, g2, g3⟩
    · intro i' j' h1 h2 h3 h4
      exact h.a2 i' j' (hmem _ _ h1 h2) h2 h3 h4
    · intro i' j' h1
      obtain ⟨g1, g2, g3⟩ := h.b1 i' j' h1
      exact ⟨List.mem_append_left _ g1, g2, g3⟩
    · intro i' j' h1 h2 h3 h4
      exact h.b2 i' j' (hmem _ _ h1 h2) h2 h3 h4
  · have hb : beyond lim mv (C0 i j) = false := by simpa using hb
    rw [if_neg (by simp [hb])]
    have eI : ∀ i', cntI lim mv C0 (P ++ [(i, j)]) i' = Function.update s.ni i (s.ni i + 1) i' := by
      intro i'
      by_cases e : i' = i
      · subst e; simp [cntI, List.countP_append, hb, h.hni]
      · simp [cntI, List.countP_append, hb, h.hni, e, Ne.symm e]
    have eJ : ∀ j', cntJ lim mv C0 (P ++ [(i, j)]) j' = Function.update s.nj j (s.nj j + 1) j' := by
      intro j'
      by_cases e : j' = j
      · subst e; simp [cntJ, List.countP_append, hb, h.hnj]
      · simp [cntJ, List.countP_append, hb, h.hnj, e, Ne.symm e]
    have hnone : ∀ j', s.af i = some j' → s.ni i = 1 := fun j' h1 => (h.a1 i j' h1).2.2
    have hnoneR : ∀ i', s.ar j = some i' → s.nj j = 1 := fun i' h1 => (h.b1 i' j h1).2.2
    simp only [Function.update_self]
    -- the two arrays, cell by cell
    have hAf : ∀ i' j',
        (if 1 < s.ni i + 1 then Function.update
            (if s.ni i + 1 = 1 ∧ s.nj j + 1 = 1 then Function.update s.af i (some j) else s.af) i none
          else if s.ni i + 1 = 1 ∧ s.nj j + 1 = 1 then Function.update s.af i (some j) else s.af) i' = some j' ↔
        (i' ≠ i ∧ s.af i' = some j') ∨ (i' = i ∧ j' = j ∧ s.ni i = 0 ∧ s.nj j = 0) := by
      intro i' j'
      by_cases e : i' = i
      · subst e
        by_cases h0 : s.ni i' = 0
        · by_cases h1 : s.nj j = 0
          · simp [h0, h1, eq_comm]
          · simp [h0, h1]
            intro hc
            have := hnone j' hc
            omega
        · have : 1 < s.ni i' + 1 := by omega
          simp [this, h0]
      · by_cases h0 : s.ni i = 0 <;> by_cases h1 : s.nj j = 0 <;> simp [h0, h1, e] <;> split <;> simp [e]
    have hAr : ∀ i' j',
        (if 1 < s.nj j + 1 then Function.update
            (if s.ni i + 1 = 1 ∧ s.nj j + 1 = 1 then Function.update s.ar j (some i) else s.ar) j none
          else if s.ni i + 1 = 1 ∧ s.nj j + 1 = 1 then Function.update s.ar j (some i) else s.ar) j' = some i' ↔
        (j' ≠ j ∧ s.ar j' = some i') ∨ (j' = j ∧ i' = i ∧ s.ni i = 0 ∧ s.nj j = 0) := by
      intro i' j'
      by_cases e : j' = j
      · subst e
        by_cases h0 : s.nj j' = 0
        · by_cases h1 : s.ni i = 0
          · simp [h0, h1, eq_comm]
          · simp [h0, h1]
            intro hc
            have := hnoneR i' hc
            omega
        · have : 1 < s.nj j' + 1 := by omega
          simp [this, h0]
      · by_cases h0 : s.nj j = 0 <;> by_cases h1 : s.ni i = 0 <;> simp [h0, h1, e] <;> split <;> simp [e]
    refine ⟨?_, ?_, ?_, ?_, ?_, ?_, ?_⟩
    · intro i' j'
      simp only
      rw [h.hC]
      by_cases e : (i', j') = (i, j)
      · cases e; simp [hb]
      · simp [e]
    · intro i'; rw [eI]
    · intro j'; rw [eJ]
    · intro i' j' h1
      rw [hAf] at h1
      rcases h1 with ⟨e, h1⟩ | ⟨rfl, rfl, h1, h2⟩
      · obtain ⟨g1, g2, g3⟩ := h.a1 i' j' h1
        exact ⟨List.mem_append_left _ g1, g2, by simp [e, g3]⟩
      · exact ⟨by simp, hb, by simp [h1]⟩
    · intro i' j' h1 h2 h3 h4
      rw [hAf]
      by_cases e : (i', j') = (i, j)
      · cases e
        simp at h3 h4
        exact Or.inr ⟨rfl, rfl, h3, h4⟩
      · have h1' : (i', j') ∈ P := by simpa [e] using h1
        have hi := cntI_pos h1' h2
        have hj := cntJ_pos h1' h2
        rw [← h.hni] at hi
        rw [← h.hnj] at hj
        have ei : i' ≠ i := by
          rintro rfl; simp at h3; omega
        have ej : j' ≠ j := by
          rintro rfl; simp at h4; omega
        simp [ei] at h3
        simp [ej] at h4
        exact Or.inl ⟨ei, h.a2 i' j' h1' h2 h3 h4⟩
    · intro i' j' h1
      rw [hAr] at h1
      rcases h1 with ⟨e, h1⟩ | ⟨rfl, rfl, h1, h2⟩
      · obtain ⟨g1, g2, g3⟩ := h.b1 i' j' h1
        exact ⟨List.mem_append_left _ g1, g2, by simp [e, g3]⟩
      · exact ⟨by simp, hb, by simp [h2]⟩
    · intro i' j' h1 h2 h3 h4
      rw [hAr]
      by_cases e : (i', j') = (i, j)
      · cases e
        simp at h3 h4
        exact Or.inr ⟨rfl, rfl, h3, h4⟩
      · have h1' : (i', j') ∈ P := by simpa [e] using h1
        have hi := cntI_pos h1' h2
        have hj := cntJ_pos h1' h2
        rw [← h.hni] at hi
        rw [← h.hnj] at hj
        have ei : i' ≠ i := by
          rintro rfl; simp at h3; omega
        have ej : j' ≠ j := by
          rintro rfl; simp at h4; omega
        simp [ei] at h3
        simp [ej] at h4
        exact Or.inl ⟨ej, h.b2 i' j' h1' h2 h3 h4⟩

theorem mem_pairs (i j : Fin n) : (i, j) ∈ pairs n := by
  simp [pairs]

theorem nodup_pairs : (pairs n).Nodup := by
  unfold pairs
  rw [List.nodup_flatMap]
  refine ⟨?_, ?_⟩
  · intro i _
    exact (List.nodup_finRange n).map (fun a b h => by simpa using h)
  · apply (List.nodup_finRange n).imp
    intro a b hab
    simp only [List.disjoint_left, List.mem_map]
    rintro p ⟨j, _, rfl⟩ ⟨j', _, h⟩
    simp at h; exact hab h.1.symm

theorem scan_foldl {lim : K} {mv : Bool} {C0 : Mat K n} : ∀ (Q P : List (Fin n × Fin n)) (s : Scan K n), (P ++ Q).Nodup →
    SInv lim mv C0 P s → SInv lim mv C0 (P ++ Q) (Q.foldl (scanStep lim mv) s) := by
  intro Q
  induction Q with
  | nil => intro P s _ h; simpa using h
  | cons q Q ih =>
    intro P s hnd h
    have hq : q ∉ P := by
      rw [List.nodup_append] at hnd
      intro hc
      exact hnd.2.2 q hc q List.mem_cons_self rfl
    have := ih (P ++ [q]) (scanStep lim mv s q) (by simpa using hnd) (scanStep_inv h q hq)
    simpa using this

/-- The clamped matrix. -/
def clamp (lim : K) (mv : Bool) (C0 : Mat K n) : Mat K n := fun i j => if beyond lim mv (C0 i j) then lim else C0 i j

theorem scan_spec (cm : CM K n) (lim : K) (mv : Bool) (h1 : ∀ i, cm.af i = none) (h2 : ∀ j, cm.ar j = none) :
    SInv lim mv cm.C (pairs n) (scan cm lim mv) := by
  have := scan_foldl (lim := lim) (mv := mv) (C0 := cm.C) (pairs n) [] ⟨cm.C, fun _ => 0, fun _ => 0, cm.af, cm.ar⟩
    (by simpa using nodup_pairs) ⟨by simp, by simp [cntI], by simp [cntJ], by simp [h1], by simp, by simp [h2], by simp⟩
  simpa [scan] using this

/-- The pair is the only candidate of its row and of its column. -/
def Sole (lim : K) (mv : Bool) (C0 : Mat K n) (i j : Fin n) : Prop :=
  beyond lim mv (C0 i j) = false ∧ (∀ j', j' ≠ j → beyond lim mv (C0 i j') = true) ∧
    (∀ i', i' ≠ i → beyond lim mv (C0 i' j) = true)

theorem countP_eq_one {α : Type*} {l : List α} (hl : l.Nodup) {p : α → Bool} {a : α} (ha : a ∈ l) (hpa : p a = true) :
    l.countP p = 1 ↔ ∀ b ∈ l, p b = true → b = a := by
  classical
  induction l with
  | nil => simp at ha
  | cons c l ih =>
    rw [List.nodup_cons] at hl
    by_cases hc : p c = true
    · rw [List.countP_cons_of_pos hc]
      constructor
      · intro h b hb hpb
        have h0 : l.countP p = 0 := by omega
        rw [List.countP_eq_zero] at h0
        have e : ∀ b ∈ c :: l, p b = true → b = c := by
          intro b hb hpb
          rcases List.mem_cons.1 hb with rfl | hb
          · rfl
          · exact absurd hpb (h0 b hb)
        rw [e b hb hpb, e a ha hpa]
      · intro h
        have : l.countP p = 0 := by
          rw [List.countP_eq_zero]
          intro b hb hpb
          have h1 := h b (List.mem_cons_of_mem _ hb) hpb
          have h2 := h c List.mem_cons_self hc
          rw [h1, ← h2] at hb; exact hl.1 hb
        omega
    · rw [List.countP_cons_of_neg hc]
      have ha' : a ∈ l := by
        rcases List.mem_cons.1 ha with rfl | h
        · exact absurd hpa hc
        · exact h
      rw [ih hl.2 ha']
      constructor
      · intro h b hb hpb
        rcases List.mem_cons.1 hb with rfl | hb
        · exact absurd hpb hc
        · exact h b hb hpb
      · intro h b hb hpb; exact h b (List.mem_cons_of_mem _ hb) hpb

theorem sole_iff (lim : K) (mv : Bool) (C0 : Mat K n) (i j : Fin n) (hb : beyond lim mv (C0 i j) = false) :
    Sole lim mv C0 i j ↔ cntI lim mv C0 (pairs n) i = 1 ∧ cntJ lim mv C0 (pairs n) j = 1 := by
  unfold cntI cntJ
  rw [countP_eq_one nodup_pairs (mem_pairs i j) (by simp [hb]), countP_eq_one nodup_pairs (mem_pairs i j) (by simp [hb])]
  unfold Sole
  constructor
  · rintro ⟨-, h1, h2⟩
    refine ⟨?_, ?_⟩
    · rintro ⟨i', j'⟩ _ h
      simp at h
      obtain ⟨rfl, h⟩ := h
      by_contra hne
      have := h1 j' (fun e => hne (by rw [e]))
      simp [this] at h
    · rintro ⟨i', j'⟩ _ h
      simp at h
      obtain ⟨rfl, h⟩ := h
      by_contra hne
      have := h2 i' (fun e => hne (by rw [e]))
      simp [this] at h
  · rintro ⟨h1, h2⟩
    refine ⟨hb, ?_, ?_⟩
    · intro j' hne
      by_contra hc
      have := h1 (i, j') (mem_pairs _ _) (by simpa using hc)
      simp at this; exact hne this
    · intro i' hne
      by_contra hc
      have := h2 (i', j) (mem_pairs _ _) (by simpa using hc)
      simp at this; exact hne this

theorem keepAf_iff (cm : CM K n) (lim : K) (mv : Bool) (h1 : ∀ i, cm.af i = none) (h2 : ∀ j, cm.ar j = none) (i j : Fin n) :
    keepAf (scan cm lim mv) i = some j ↔ Sole lim mv cm.C i j := by
  have h := scan_spec cm lim mv h1 h2
  unfold keepAf
  constructor
  · intro he
    split at he
    · cases he
    · rename_i j' hj'
      split at he
      · cases he
      · rename_i hn
        cases he
        obtain ⟨g1, g2, g3⟩ := h.a1 i j hj'
        rw [sole_iff _ _ _ _ _ g2]
        rw [h.hni] at g3
        rw [h.hnj] at hn
        exact ⟨g3, by omega⟩
  · intro hs
    have hb := hs.1
    rw [sole_iff _ _ _ _ _ hb] at hs
    have := h.a2 i j (mem_pairs i j) hb (by rw [h.hni]; exact hs.1) (by rw [h.hnj]; exact hs.2)
    rw [this]
    simp [h.hnj, hs.2]

theorem keepAr_iff (cm : CM K n) (lim : K) (mv : Bool) (h1 : ∀ i, cm.af i = none) (h2 : ∀ j, cm.ar j = none) (i j : Fin n) :
    keepAr (scan cm lim mv) j = some i ↔ Sole lim mv cm.C i j := by
  have h := scan_spec cm lim mv h1 h2
  unfold keepAr
  constructor
  · intro he
    split at he
    · cases he
    · rename_i i' hj'
      split at he
      · cases he
      · rename_i hn
        cases he
        obtain ⟨g1, g2, g3⟩ := h.b1 i j hj'
        rw [sole_iff _ _ _ _ _ g2]
        rw [h.hnj] at g3
        rw [h.hni] at hn
        exact ⟨by omega, g3⟩
  · intro hs
    have hb := hs.1
    rw [sole_iff _ _ _ _ _ hb] at hs
    have := h.b2 i j (mem_pairs i j) hb (by rw [h.hni]; exact hs.1) (by rw [h.hnj]; exact hs.2)
    rw [this]
    simp [h.hni, hs.1]

theorem scan_C (cm : CM K n) (lim : K) (mv : Bool) (h1 : ∀ i, cm.af i = none) (h2 : ∀ j, cm.ar j = none) :
    (scan cm lim mv).C = clamp lim mv cm.C := by
  funext i j
  rw [(scan_spec cm lim mv h1 h2).hC]
  simp [mem_pairs, clamp]

/-! ### The exchange argument -/

theorem swap_fix {A : Mat K n} {lim : K} (hge : ∀ i j, lim ≤ A i j) {f g : Fin n → Option (Fin n)}
    (hfg : Consistent f g) (hrow : ∀ i j, f i = some j → ∀ j', j' ≠ j → A i j' = lim)
    (hcol : ∀ i j, f i = some j → ∀ i', i' ≠ i → A i' j = lim) :
    ∀ (k : Nat) (σ : Equiv.Perm (Fin n)),
      (Finset.univ.filter fun i => ∃ j, f i = some j ∧ σ i ≠ j).card = k →
      ∃ σ' : Equiv.Perm (Fin n), ∑ i, A i (σ i) ≤ ∑ i, A i (σ' i) ∧ ∀ i j, f i = some j → σ' i = j := by
  intro k
  induction k using Nat.strong_induction_on with
  | _ k ih =>
    intro σ hk
    by_cases h0 : ∀ i j, f i = some j → σ i = j
    · exact ⟨σ, le_refl _, h0⟩
    · push Not at h0
      obtain ⟨i, j, hij, hne⟩ := h0
      set i' := σ.symm j with hi'
      have hσi' : σ i' = j := by simp [hi']
      have hii' : i' ≠ i := by rintro e; rw [e] at hσi'; exact hne hσi'
      let σ1 : Equiv.Perm (Fin n) := (Equiv.swap i i').trans σ
      have e1 : σ1 i = j := by simp [σ1, hσi']
      have e2 : σ1 i' = σ i := by simp [σ1]
      have e3 : ∀ z, z ≠ i → z ≠ i' → σ1 z = σ z := by
        intro z h1 h2; simp [σ1, Equiv.swap_apply_of_ne_of_ne h1 h2]
      have hsum : ∑ z, A z (σ z) ≤ ∑ z, A z (σ1 z) := by
        rw [← Finset.add_sum_erase _ _ (Finset.mem_univ i), ← Finset.add_sum_erase _ _ (Finset.mem_univ i)]
        have hm : i' ∈ Finset.univ.erase i := by simp [hii']
        rw [← Finset.add_sum_erase _ _ hm, ← Finset.add_sum_erase _ _ hm, e1, e2, hσi']
        have hrest : ∑ z ∈ (Finset.univ.erase i).erase i', A z (σ z)
            = ∑ z ∈ (Finset.univ.erase i).erase i', A z (σ1 z) := by
          apply Finset.sum_congr rfl
          intro z hz
          simp at hz
          rw [e3 z hz.2 hz.1]
        rw [hrest]
        have h1 := hrow i j hij (σ i) hne
        have h2 := hcol i j hij i' hii'
        have h3 := hge i j
        have h4 := hge i' (σ i)
        linarith
      have hcard : (Finset.univ.filter fun z => ∃ j, f z = some j ∧ σ1 z ≠ j).card
          < (Finset.univ.filter fun z => ∃ j, f z = some j ∧ σ z ≠ j).card := by
        apply Finset.card_lt_card
        rw [Finset.ssubset_iff_of_subset]
        · refine ⟨i, by simp [hij, hne], by simp [hij, e1]⟩
        · intro z hz
          simp only [Finset.mem_filter, Finset.mem_univ, true_and] at hz ⊢
          obtain ⟨jz, hz1, hz2⟩ := hz
          refine ⟨jz, hz1, ?_⟩
          by_cases ez : z = i
          · subst ez; rw [hij] at hz1; cases hz1; exact hne
          · by_cases ez' : z = i'
            · rw [ez', hσi']
              rintro rfl
              have h1 := (hfg _ _).1 hz1
              have h2 := (hfg _ _).1 hij
              rw [h1] at h2; exact ez (Option.some.inj h2)
            · rw [← e3 z ez ez']; exact hz2
      obtain ⟨σ', h1, h2⟩ := ih _ (hk ▸ hcard) σ1 rfl
      exact ⟨σ', le_trans hsum h1, h2⟩

theorem sum_filter_split (p : Fin n → Bool) (h : Fin n → K) :
    ∑ i, h i = ∑ i, (if p i = true then 0 else h i) + ((List.finRange n).filter p |>.map h).sum := by
  have key : ∀ l : List (Fin n), (l.map h).sum
      = (l.map fun i => if p i = true then 0 else h i).sum + ((l.filter p).map h).sum := by
    intro l
    induction l with
    | nil => simp
    | cons x l ih =>
      by_cases hp : p x = true
      · simp [hp, ih]; ring
      · simp [hp, ih]; ring
  rw [Fin.sum_univ_def, Fin.sum_univ_def]
  exact key _

theorem sum_get (l : List (Fin n)) (h : Fin n → K) : ∑ a : Fin l.length, h (l.get a) = (l.map h).sum := by
  rw [← List.sum_ofFn]
  congr 1
  apply List.ext_get
  · simp
  · intro k h1 h2; simp

/-- The rows not preassigned and the columns not preassigned are equally many. -/
theorem unfixed_length {f g : Fin n → Option (Fin n)} (hfg : Consistent f g) :
    ((List.finRange n).filter fun i => (f i).isNone).length = ((List.finRange n).filter fun j => (g j).isNone).length := by
  have e : ∀ q : Fin n → Bool, ((List.finRange n).filter q).length = (Finset.univ.filter fun i => q i = true).card := by
    intro q
    rw [← List.toFinset_card_of_nodup ((List.nodup_finRange n).filter _)]
    congr 1
    ext i; simp
  rw [e, e]
  have hc : ∀ q : Fin n → Bool, (Finset.univ.filter fun i => q i = true).card
      = n - (Finset.univ.filter fun i => q i = false).card := by
    intro q
    have := Finset.card_filter_add_card_filter_not (s := (Finset.univ : Finset (Fin n))) (fun i => q i = true)
    simp only [Bool.not_eq_true, Finset.card_univ, Fintype.card_fin] at this
    omega
  rw [hc, hc]
  congr 1
  apply Finset.card_bij' (i := fun i _ => (f i).getD i) (j := fun j _ => (g j).getD j)
  · intro i hi
    simp only [Finset.mem_filter, Finset.mem_univ, true_and] at hi ⊢
    cases hf : f i with
    | none => simp [hf] at hi
    | some j => simp [(hfg i j).1 hf]
  · intro j hj
    simp only [Finset.mem_filter, Finset.mem_univ, true_and] at hj ⊢
    cases hg : g j with
    | none => simp [hg] at hj
    | some i => simp [(hfg i j).2 hg]
  · intro i hi
    simp only [Finset.mem_filter, Finset.mem_univ, true_and] at hi
    cases hf : f i with
    | none => simp [hf] at hi
    | some j => simp [(hfg i j).1 hf]
  · intro j hj
    simp only [Finset.mem_filter, Finset.mem_univ, true_and] at hj
    cases hg : g j with
    | none => simp [hg] at hj
    | some i => simp [(hfg i j).2 hg]

/-- Rows or columns not preassigned. -/
abbrev unfixed (f : Fin n → Option (Fin n)) : List (Fin n) := (List.finRange n).filter fun i => (f i).isNone

theorem mem_unfixed {f : Fin n → Option (Fin n)} {i : Fin n} : i ∈ unfixed f ↔ f i = none := by
  simp [unfixed]

theorem nodup_unfixed (f : Fin n → Option (Fin n)) : (unfixed f).Nodup := (List.nodup_finRange n).filter _

/-- An assignment that respects the preassignment restricts to the remaining rows and columns. -/
theorem restrict {f g : Fin n → Option (Fin n)} (hfg : Consistent f g) (σ : Equiv.Perm (Fin n))
    (hσ : ∀ i j, f i = some j → σ i = j) {m : Nat} (hi : (unfixed f).length = m) (hj : (unfixed g).length = m) :
    ∃ τ : Fin m → Fin m, Function.Bijective τ ∧
      ∀ a, (unfixed g).get ((τ a).cast hj.symm) = σ ((unfixed f).get (a.cast hi.symm)) := by
  have hmem : ∀ i, f i = none → σ i ∈ unfixed g := by
    intro i hfi
    rw [mem_unfixed]
    by_contra hc
    obtain ⟨i2, h2⟩ := Option.ne_none_iff_exists'.1 hc
    have h3 := (hfg _ _).2 h2
    have h4 := hσ _ _ h3
    have h5 := σ.injective h4
    rw [h5, hfi] at h3; cases h3
  have hex : ∀ a : Fin m, ∃ b : Fin m, (unfixed g).get (b.cast hj.symm) = σ ((unfixed f).get (a.cast hi.symm)) := by
    intro a
    have h1 : f ((unfixed f).get (a.cast hi.symm)) = none := mem_unfixed.1 (List.get_mem _ _)
    obtain ⟨b, hb⟩ := List.mem_iff_get.1 (hmem _ h1)
    exact ⟨b.cast hj, by simpa using hb⟩
  choose τ hτ using hex
  refine ⟨τ, ?_, hτ⟩
  apply (Finite.injective_iff_bijective).1
  intro a b hab
  have h1 := hτ a
  rw [hab, hτ b] at h1
  have h2 := σ.injective h1
  have h3 := (List.nodup_iff_injective_get.1 (nodup_unfixed f)) h2
  simpa [Fin.ext_iff] using h3.symm

theorem remap_spec {iMap jMap : List (Fin n)} (hi : iMap.Nodup) {m : Nat} (hli : iMap.length = m) (hlj : jMap.length = m)
    (τ : Fin m → Fin m) (f : Fin n → Option (Fin n)) :
    (∀ a : Fin m, remap iMap jMap τ f (iMap.get (a.cast hli.symm)) = some (jMap.get ((τ a).cast hlj.symm))) ∧
    (∀ i, i ∉ iMap → remap iMap jMap τ f i = f i) := by
  unfold remap
  have key : ∀ (l : List (Fin m)) (h : Fin n → Option (Fin n)), l.Nodup →
      (∀ a ∈ l, l.foldl (fun soln a =>
        match iMap[a.val]?, jMap[(τ a).val]? with
        | some i, some j => Function.update soln i (some j)
        | _, _ => soln) h (iMap.get (a.cast hli.symm)) = some (jMap.get ((τ a).cast hlj.symm))) ∧
      (∀ i, (∀ a ∈ l, iMap.get (a.cast hli.symm) ≠ i) → l.foldl (fun soln a =>
        match iMap[a.val]?, jMap[(τ a).val]? with
        | some i, some j => Function.update soln i (some j)
        | _, _ => soln) h i = h i) := by
    intro l
    induction l with
    | nil => intro h _; simp
    | cons a l ih =>
      intro h hnd
      rw [List.nodup_cons] at hnd
      have e1 : iMap[a.val]? = some (iMap.get (a.cast hli.symm)) := by simp [hli]
      have e2 : jMap[(τ a).val]? = some (jMap.get ((τ a).cast hlj.symm)) := by simp [hlj]
      simp only [List.foldl_cons, e1, e2]
      obtain ⟨g1, g2⟩ := ih (Function.update h (iMap.get (a.cast hli.symm)) (some (jMap.get ((τ a).cast hlj.symm)))) hnd.2
      refine ⟨?_, ?_⟩
      · intro b hb
        rcases List.mem_cons.1 hb with rfl | hb
        · rw [g2]
          · simp
          · intro c hc he
            have := List.nodup_iff_injective_get.1 hi he
            have : c = b := by simpa [Fin.ext_iff] using this
            exact hnd.1 (this ▸ hc)
        · exact g1 b hb
      · intro i hne
        rw [g2 i fun c hc => hne c (List.mem_cons_of_mem _ hc)]
        rw [Function.update_apply, if_neg]
        exact fun e => hne a List.mem_cons_self e.symm
  obtain ⟨g1, g2⟩ := key (List.finRange m) f (List.nodup_finRange m)
  refine ⟨fun a => g1 a (List.mem_finRange a), fun i hne => g2 i fun a _ he => hne ?_⟩
  rw [← he]; exact List.get_mem _ _

/-- A solution of the remaining problem extends to a full assignment. -/
theorem merge_spec {f g : Fin n → Option (Fin n)} (hfg : Consistent f g) {m : Nat} (hi : (unfixed f).length = m)
    (hj : (unfixed g).length = m) (τ : Fin m → Fin m) (hτ : Function.Bijective τ) :
    ∃ s : Fin n → Fin n, Function.Bijective s ∧ (∀ i, remap (unfixed f) (unfixed g) τ f i = some (s i)) ∧
      (∀ i j, f i = some j → s i = j) ∧
      ∀ a : Fin m, s ((unfixed f).get (a.cast hi.symm)) = (unfixed g).get ((τ a).cast hj.symm) := by
  obtain ⟨h1, h2⟩ := remap_spec (nodup_unfixed f) hi hj τ f
  have hsome : ∀ i, ∃ j, remap (unfixed f) (unfixed g) τ f i = some j := by
    intro i
    by_cases hm : i ∈ unfixed f
    · obtain ⟨a, ha⟩ := List.mem_iff_get.1 hm
      exact ⟨_, by rw [← ha]; exact h1 (a.cast hi)⟩
    · rw [h2 i hm]
      rw [mem_unfixed] at hm
      exact Option.ne_none_iff_exists'.1 hm
  choose s hs using hsome
  have hfix : ∀ i j, f i = some j → s i = j := by
    intro i j h
    have h3 : i ∉ unfixed f := by rw [mem_unfixed, h]; simp
    have h4 := h2 i h3
    rw [hs, h] at h4; exact Option.some.inj h4
  have hun : ∀ a : Fin m, s ((unfixed f).get (a.cast hi.symm)) = (unfixed g).get ((τ a).cast hj.symm) := by
    intro a
    have := h1 a
    rw [hs] at this; exact Option.some.inj this
  have hun' : ∀ i, f i = none → ∃ a : Fin m, (unfixed f).get (a.cast hi.symm) = i := by
    intro i hf
    obtain ⟨a, ha⟩ := List.mem_iff_get.1 (mem_unfixed.2 hf)
    exact ⟨a.cast hi, ha⟩
  refine ⟨s, ?_, hs, hfix, hun⟩
  apply (Finite.injective_iff_bijective).1
  intro x y hxy
  cases hx : f x with
  | some jx =>
    cases hy : f y with
    | some jy =>
      rw [hfix x jx hx, hfix y jy hy] at hxy
      subst hxy
      have := ((hfg _ _).1 hx).symm.trans ((hfg _ _).1 hy)
      exact Option.some.inj this
    | none =>
      obtain ⟨a, rfl⟩ := hun' y hy
      rw [hfix x jx hx, hun] at hxy
      have h3 := (hfg _ _).1 hx
      have h4 : g ((unfixed g).get ((τ a).cast hj.symm)) = none := mem_unfixed.1 (List.get_mem _ _)
      rw [← hxy, h3] at h4; cases h4
  | none =>
    obtain ⟨a, rfl⟩ := hun' x hx
    cases hy : f y with
    | some jy =>
      rw [hfix y jy hy, hun] at hxy
      have h3 := (hfg _ _).1 hy
      have h4 : g ((unfixed g).get ((τ a).cast hj.symm)) = none := mem_unfixed.1 (List.get_mem _ _)
      rw [hxy, h3] at h4; cases h4
    | none =>
      obtain ⟨b, rfl⟩ := hun' y hy
      rw [hun, hun] at hxy
      have h3 := List.nodup_iff_injective_get.1 (nodup_unfixed g) hxy
      have h4 : τ a = τ b := by simpa [Fin.ext_iff] using h3
      rw [hτ.1 h4]

/-- The score of the preassigned pairs. -/
def preScore (A : Mat K n) (f : Fin n → Option (Fin n)) : K := ∑ i, (match f i with | none => 0 | some j => A i j)

theorem total_split (A : Mat K n) {f : Fin n → Option (Fin n)} (s : Fin n → Fin n) (hs : ∀ i j, f i = some j → s i = j)
    {m : Nat} (hi : (unfixed f).length = m) :
    ∑ i, A i (s i) = preScore A f + ∑ a : Fin m, A ((unfixed f).get (a.cast hi.symm)) (s ((unfixed f).get (a.cast hi.symm))) := by
  subst hi
  rw [sum_filter_split (fun i => (f i).isNone) (fun i => A i (s i)), preScore]
  congr 1
  · apply Finset.sum_congr rfl
    intro i _
    cases hf : f i with
    | none => simp
    | some j => simp [hs i j hf]
  · exact (sum_get (unfixed f) (fun i => A i (s i))).symm

theorem foldl_score (A : Mat K n) (f : Fin n → Option (Fin n)) :
    (List.finRange n).foldl (fun s i => match f i with | none => s | some j => s + A i j) 0 = preScore A f := by
  rw [preScore, ← Hungarian.foldl_add_eq_sum]
  congr 1
  funext s i
  cases f i <;> simp

/-- `b` is at least as good as `a` for the direction in which entries at the limit are worthless. -/
def NoWorse (mv : Bool) (a b : K) : Prop := if mv then a ≤ b else b ≤ a

theorem swap_fix' {A : Mat K n} {lim : K} (mv : Bool) (hge : ∀ i j, NoWorse mv lim (A i j)) {f g : Fin n → Option (Fin n)}
    (hfg : Consistent f g) (hrow : ∀ i j, f i = some j → ∀ j', j' ≠ j → A i j' = lim)
    (hcol : ∀ i j, f i = some j → ∀ i', i' ≠ i → A i' j = lim) (σ : Equiv.Perm (Fin n)) :
    ∃ σ' : Equiv.Perm (Fin n), NoWorse mv (∑ i, A i (σ i)) (∑ i, A i (σ' i)) ∧ ∀ i j, f i = some j → σ' i = j := by
  cases mv with
  | true =>
    obtain ⟨σ', h1, h2⟩ := swap_fix (A := A) (lim := lim) (fun i j => by simpa [NoWorse] using hge i j) hfg hrow hcol _ σ rfl
    exact ⟨σ', by simpa [NoWorse] using h1, h2⟩
  | false =>
    obtain ⟨σ', h1, h2⟩ := swap_fix (A := fun i j => -A i j) (lim := -lim)
      (fun i j => by simpa [NoWorse] using hge i j) hfg (fun i j h j' hj => by rw [hrow i j h j' hj])
      (fun i j h i' hi => by rw [hcol i j h i' hi]) _ σ rfl
    exact ⟨σ', by simpa [NoWorse] using h1, h2⟩

theorem clamp_noWorse (lim : K) (mv : Bool) (C : Mat K n) (i j : Fin n) : NoWorse mv lim (clamp lim mv C i j) := by
  unfold clamp NoWorse
  cases mv
  · by_cases h : lim ≤ C i j <;> simp [beyond, h]
    exact le_of_lt (not_le.1 h)
  · by_cases h : C i j ≤ lim <;> simp [beyond, h]
    exact le_of_lt (not_le.1 h)

theorem unfixed_eq_singleton {f : Fin n → Option (Fin n)} (h : (unfixed f).length = 1) :
    ∃ a, unfixed f = [a] := List.length_eq_one_iff.1 h

theorem getReduced_ok (cm : CM K n) (h : cm.avail = true) (hn : cm.nRed ≤ n) : getReduced cm = .ok
    (Reduced.mk cm.nRed cm.Cred cm.af (preScore cm.C cm.af) (cm.iRed.take cm.nRed) (cm.jRed.take cm.nRed)) := by
  unfold getReduced
  rw [if_pos h, if_neg (not_lt.2 hn)]
  refine congrArg GetOut.ok ?_
  congr 1
  exact foldl_score cm.C cm.af

theorem reduce_core (C : Mat K n) (lim : K) (mv : Bool) :
    ∃ cm r g, reduce (mk C) lim mv = some cm ∧ getReduced cm = .ok r ∧ cm.C = clamp lim mv C ∧
      Consistent r.fixed g ∧ r.iMap = unfixed r.fixed ∧ r.jMap = unfixed g ∧ (unfixed r.fixed).length = r.size ∧
      (unfixed g).length = r.size ∧ r.score = preScore (clamp lim mv C) r.fixed ∧ r.size ≠ 1 ∧
      (∀ σ : Equiv.Perm (Fin n), ∃ σ' : Equiv.Perm (Fin n),
        NoWorse mv (∑ i, clamp lim mv C i (σ i)) (∑ i, clamp lim mv C i (σ' i)) ∧ ∀ i j, r.fixed i = some j → σ' i = j) ∧
      ∃ Cr : Mat K r.size, (0 < r.size → r.C = some ⟨r.size, Cr⟩) ∧
        ∀ a b i j, r.iMap[a.val]? = some i → r.jMap[b.val]? = some j → Cr a b = clamp lim mv C i j := by
  set s := scan (mk C) lim mv with hs
  have hA := fun i j => keepAf_iff (mk C) lim mv (fun _ => rfl) (fun _ => rfl) i j
  have hB := fun i j => keepAr_iff (mk C) lim mv (fun _ => rfl) (fun _ => rfl) i j
  have hfg : Consistent (keepAf s) (keepAr s) := fun x y => (hA x y).trans (hB x y).symm
  have hC : s.C = clamp lim mv C := scan_C (mk C) lim mv (fun _ => rfl) (fun _ => rfl)
  have hrow : ∀ i j, keepAf s i = some j → ∀ j', j' ≠ j → clamp lim mv C i j' = lim := by
    intro i j h j' hj
    have := ((hA i j).1 h).2.1 j' hj
    unfold clamp; rw [if_pos]; exact this
  have hcol : ∀ i j, keepAf s i = some j → ∀ i', i' ≠ i → clamp lim mv C i' j = lim := by
    intro i j h i' hi
    have := ((hA i j).1 h).2.2 i' hi
    unfold clamp; rw [if_pos]; exact this
  have hlen := unfixed_length hfg
  have hswap := fun σ => swap_fix' mv (clamp_noWorse lim mv C) hfg hrow hcol σ
  have hle : (unfixed (keepAf s)).length ≤ n := by
    have := List.length_filter_le (fun i => (keepAf s i).isNone) (List.finRange n)
    simpa using this
  have hred : reduce (mk C) lim mv =
      if h1 : (unfixed (keepAf s)).length = 1 then
        some (CM.mk s.C (Function.update (keepAf s) ((unfixed (keepAf s)).get ⟨0, by omega⟩)
                  (some ((unfixed (keepAr s)).get ⟨0, by rw [← show (unfixed (keepAf s)).length = (unfixed (keepAr s)).length from hlen, h1]; exact one_pos⟩)))
               (keepAr s) (unfixed (keepAf s)) (unfixed (keepAr s)) 0
               (some ⟨(unfixed (keepAf s)).length,
                fun a b => s.C ((unfixed (keepAf s)).get a) ((unfixed (keepAr s)).get (b.cast hlen))⟩) true)
      else some (CM.mk s.C (keepAf s) (keepAr s) (unfixed (keepAf s)) (unfixed (keepAr s)) (unfixed (keepAf s)).length
               (if (unfixed (keepAf s)).length ≠ 0 then some ⟨(unfixed (keepAf s)).length,
                fun a b => s.C ((unfixed (keepAf s)).get a) ((unfixed (keepAr s)).get (b.cast hlen))⟩ else none) true) := by
    unfold reduce
    simp only [← hs]
    rw [dif_pos (by exact hlen)]
    by_cases h1 : (unfixed (keepAf s)).length = 1
    · rw [dif_pos h1, dif_pos (by exact h1)]
      have h0 : (unfixed (keepAf s)).length ≠ 0 := by omega
      congr 2
      exact if_pos h0
    · rw [dif_neg h1, dif_neg (by exact h1)]
      rfl
  by_cases h1 : (unfixed (keepAf s)).length = 1
  · rw [dif_pos h1] at hred
    obtain ⟨i0, hi0⟩ := unfixed_eq_singleton h1
    obtain ⟨j0, hj0⟩ := unfixed_eq_singleton (f := keepAr s) (hlen.symm.trans h1)
    have ei : (unfixed (keepAf s)).get ⟨0, by omega⟩ = i0 := by simp [hi0]
    have ej : (unfixed (keepAr s)).get ⟨0, by rw [hj0]; exact one_pos⟩ = j0 := by simp [hj0]
    have fi0 : keepAf s i0 = none := mem_unfixed.1 (by rw [hi0]; simp)
    have gj0 : keepAr s j0 = none := mem_unfixed.1 (by rw [hj0]; simp)
    have ui : ∀ i, keepAf s i = none → i = i0 := fun i h => by
      have : i ∈ unfixed (keepAf s) := mem_unfixed.2 h
      rw [hi0] at this; simpa using this
    have uj : ∀ j, keepAr s j = none → j = j0 := fun i h => by
      have : i ∈ unfixed (keepAr s) := mem_unfixed.2 h
      rw [hj0] at this; simpa using this
    have hcons : Consistent (Function.update (keepAf s) i0 (some j0)) (Function.update (keepAr s) j0 (some i0)) := by
      intro x y
      by_cases hx : x = i0
      · subst hx
        by_cases hy : y = j0
        · subst hy; simp
        · simp only [Function.update_self, Function.update_of_ne hy]
          constructor
          · intro h; exact absurd (Option.some.inj h).symm hy
          · intro h; rw [← hfg, fi0] at h; cases h
      · by_cases hy : y = j0
        · subst hy
          simp only [Function.update_self, Function.update_of_ne hx]
          constructor
          · intro h; rw [hfg, gj0] at h; cases h
          · intro h; exact absurd (Option.some.inj h).symm hx
        · simp only [Function.update_of_ne hx, Function.update_of_ne hy]; exact hfg x y
    have hempty : ∀ (f : Fin n → Option (Fin n)) (i0 j0 : Fin n), (∀ i, f i = none → i = i0) →
        unfixed (Function.update f i0 (some j0)) = [] := by
      intro f i0 j0 h
      rw [List.eq_nil_iff_forall_not_mem]
      intro i hi
      rw [mem_unfixed] at hi
      by_cases e : i = i0
      · subst e; simp at hi
      · rw [Function.update_of_ne e] at hi; exact e (h i hi)
    have e1 := hempty (keepAf s) i0 j0 ui
    have e2 := hempty (keepAr s) j0 i0 uj
    simp only [ei, ej] at hred
    refine ⟨_, _, Function.update (keepAr s) j0 (some i0), hred, getReduced_ok _ rfl (Nat.zero_le n), ?_⟩
    · simp only [List.take_zero]
      refine ⟨hC, hcons, e1.symm, e2.symm, by rw [e1]; rfl, by rw [e2]; rfl, ?_, by simp, ?_, ?_⟩
      · rw [hC]
      · intro σ
        obtain ⟨σ', g1, g2⟩ := hswap σ
        refine ⟨σ', g1, ?_⟩
        intro i j h
        by_cases e : i = i0
        · subst e
          simp at h; subst h
          apply uj
          by_contra hc
          obtain ⟨i2, h2⟩ := Option.ne_none_iff_exists'.1 hc
          have h3 := (hfg _ _).2 h2
          have h5 := σ'.injective (g2 _ _ h3)
          rw [h5, fi0] at h3; cases h3
        · rw [Function.update_of_ne e] at h
          exact g2 i j h
      · exact ⟨fun a _ => a.elim0, fun h => absurd h (by simp), fun a => a.elim0⟩
  · rw [dif_neg h1] at hred
    refine ⟨_, _, keepAr s, hred, getReduced_ok _ rfl hle, ?_⟩
    · have t1 : List.take (unfixed (keepAf s)).length (unfixed (keepAf s)) = unfixed (keepAf s) := List.take_length
      have t2 : List.take (unfixed (keepAf s)).length (unfixed (keepAr s)) = unfixed (keepAr s) := by
        rw [show (unfixed (keepAf s)).length = (unfixed (keepAr s)).length from hlen]; exact List.take_length
      simp only [t1, t2]
      refine ⟨hC, hfg, trivial, trivial, trivial, hlen.symm, ?_, h1, hswap, ?_⟩
      · rw [hC]
      · refine ⟨_, fun h => if_pos (by omega), ?_⟩
        intro a b i j hi hj
        rw [List.getElem?_eq_some_iff] at hi hj
        obtain ⟨_, hi⟩ := hi
        obtain ⟨_, hj⟩ := hj
        simp only [List.get_eq_getElem, Fin.val_cast, hC]
        rw [hi, hj]

end CostMat
end RFS
