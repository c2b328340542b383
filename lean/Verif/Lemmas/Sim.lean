import Verif.Model.Sim
import Mathlib.MeasureTheory.Measure.Lebesgue.Basic
import Mathlib.Tactic.Linarith
import Mathlib.Tactic.Positivity

/-! Lemmas for `Verif/Props/Sim.lean`. -/

set_option linter.unusedSectionVars false

namespace RFS
namespace Sim
open Real

/-! ### Dispatch -/

section dispatch
variable {T Z : Type} [LinearOrder T]

theorem collect_sorted (t : T) : ∀ l : List (T × Z), l.Pairwise (fun a b => a.1 ≤ b.1) → (∀ m ∈ l, t ≤ m.1) →
    collect t l = ((l.filter (fun m => decide (m.1 = t))).map Prod.snd, l.filter (fun m => decide (m.1 ≠ t)))
  | [], _, _ => by simp [collect]
  | (a, z) :: r, hs, hge => by
    have hs' := List.pairwise_cons.1 hs
    have ih := collect_sorted t r hs'.2 (fun m hm => hge m (List.mem_cons_of_mem _ hm))
    by_cases h : a = t
    · simp [collect, h, ih]
    · have hlt : t < a := lt_of_le_of_ne (hge (a, z) (List.mem_cons_self ..)) (Ne.symm h)
      have hne : ∀ m ∈ r, m.1 ≠ t := fun m hm => (lt_of_lt_of_le hlt (hs'.1 m hm)).ne'
      have e1 : r.filter (fun m => decide (m.1 = t)) = [] := by
        rw [List.filter_eq_nil_iff]; intro m hm; simpa using hne m hm
      have e2 : r.filter (fun m => decide (m.1 ≠ t)) = r := by
        rw [List.filter_eq_self]; intro m hm; simpa using hne m hm
      have e1' : (((a, z) :: r).filter (fun m => decide (m.1 = t))) = [] := by
        rw [List.filter_cons_of_neg (by simpa using h), e1]
      have e2' : (((a, z) :: r).filter (fun m => decide (m.1 ≠ t))) = (a, z) :: r := by
        rw [List.filter_cons_of_pos (by simpa using h), e2]
      rw [e1', e2']
      simp [collect, h]

/-- What the measurements of a time are. -/
theorem filter_filter_ne (t s : T) (l : List (T × Z)) (h : s ≠ t) :
    ((l.filter (fun m => decide (m.1 ≠ t))).filter (fun m => decide (m.1 = s))) = l.filter (fun m => decide (m.1 = s)) := by
  rw [List.filter_filter]
  refine List.filter_congr fun m _ => ?_
  by_cases e : m.1 = s <;> simp [e, h]

theorem runFrom_ok : ∀ (suf pre : List T) (l : List (T × Z)), suf.Pairwise (· < ·) → l.Pairwise (fun a b => a.1 ≤ b.1) → (∀ m ∈ l, m.1 ∈ suf) →
    (∀ last, suf.getLast? = some last → ∃ m ∈ l, m.1 = last) →
    runFrom (pre ++ suf) suf.length pre.length l = some (suf.map fun t => (l.filter (fun m => decide (m.1 = t))).map Prod.snd)
  | [], _, _, _, _, _, _ => by simp [runFrom]
  | t :: ts, pre, l, hts, hl, hmem, hlast => by
    have hp := List.pairwise_cons.1 hts
    have hge : ∀ m ∈ l, t ≤ m.1 := by
      intro m hm
      rcases List.mem_cons.1 (hmem m hm) with h | h
      · exact h.ge
      · exact (hp.1 _ h).le
    have hne : l ≠ [] := by
      obtain ⟨m, hm, -⟩ := hlast _ (List.getLast?_eq_some_getLast (List.cons_ne_nil t ts))
      exact List.ne_nil_of_mem hm
    obtain ⟨r, rs, rfl⟩ := List.exists_cons_of_ne_nil hne
    have hc := collect_sorted t (r :: rs) hl hge
    have ih := runFrom_ok ts (pre ++ [t]) ((r :: rs).filter (fun m => decide (m.1 ≠ t))) hp.2 (hl.sublist List.filter_sublist)
      (by
        intro m hm
        obtain ⟨h1, h2⟩ := List.mem_filter.1 hm
        rcases List.mem_cons.1 (hmem m h1) with h | h
        · simp [h] at h2
        · exact h)
      (by
        intro last hl'
        obtain ⟨m, hm, e⟩ := hlast last (by
          rw [List.getLast?_cons]; simp [hl'])
        refine ⟨m, List.mem_filter.2 ⟨hm, ?_⟩, e⟩
        have : last ∈ ts := List.mem_of_getLast? hl'
        simpa [e] using (hp.1 _ this).ne')
    have hi : (pre ++ t :: ts)[pre.length]? = some t := by simp
    have hpre : pre ++ [t] ++ ts = pre ++ t :: ts := by simp
    rw [hpre, List.length_append, List.length_singleton] at ih
    simp only [List.length_cons, runFrom, hi]
    rw [hc]
    simp only [ih, Option.map_some, List.map_cons]
    congr 2
    refine List.map_congr_left fun s hs => ?_
    rw [filter_filter_ne t s _ (hp.1 s hs).ne']

theorem runFrom_ub : ∀ (suf pre : List T) (l : List (T × Z)), suf ≠ [] → suf.Pairwise (· < ·) → l.Pairwise (fun a b => a.1 ≤ b.1) → (∀ m ∈ l, m.1 ∈ suf) →
    (∀ last, suf.getLast? = some last → ∀ m ∈ l, m.1 ≠ last) →
    runFrom (pre ++ suf) suf.length pre.length l = none
  | [], _, _, h, _, _, _, _ => absurd rfl h
  | t :: ts, pre, l, _, hts, hl, hmem, hlast => by
    have hp := List.pairwise_cons.1 hts
    have hi : (pre ++ t :: ts)[pre.length]? = some t := by simp
    have hge : ∀ m ∈ l, t ≤ m.1 := by
      intro m hm
      rcases List.mem_cons.1 (hmem m hm) with h | h
      · exact h.ge
      · exact (hp.1 _ h).le
    cases l with
    | nil => simp [runFrom]
    | cons r rs =>
      have hts' : ts ≠ [] := by
        rintro rfl
        have := hlast t (by simp) r (List.mem_cons_self ..)
        exact this (by simpa using hmem r (List.mem_cons_self ..))
      have hc := collect_sorted t (r :: rs) hl hge
      have ih := runFrom_ub ts (pre ++ [t]) ((r :: rs).filter (fun m => decide (m.1 ≠ t))) hts' hp.2 (hl.sublist List.filter_sublist)
        (by
          intro m hm
          obtain ⟨h1, h2⟩ := List.mem_filter.1 hm
          rcases List.mem_cons.1 (hmem m h1) with h | h
          · simp [h] at h2
          · exact h)
        (by
          intro last hl' m hm
          exact hlast last (by rw [List.getLast?_cons]; simp [hl']) m (List.mem_filter.1 hm).1)
      have hpre : pre ++ [t] ++ ts = pre ++ t :: ts := by simp
      rw [hpre, List.length_append, List.length_singleton] at ih
      simp only [List.length_cons, runFrom, hi]
      rw [hc]
      simp only [ih, Option.map_none]

theorem runVP_ok : ∀ (ts : List T) (l : List (T × Z)), ts.Pairwise (· < ·) → l.Pairwise (fun a b => a.1 ≤ b.1) → (∀ m ∈ l, m.1 ∈ ts) →
    runVP ts l = ts.map fun t => (l.filter (fun m => decide (m.1 = t))).map Prod.snd
  | [], _, _, _, _ => by simp [runVP]
  | t :: ts, l, hts, hl, hmem => by
    have hp := List.pairwise_cons.1 hts
    have hge : ∀ m ∈ l, t ≤ m.1 := by
      intro m hm
      rcases List.mem_cons.1 (hmem m hm) with h | h
      · exact h.ge
      · exact (hp.1 _ h).le
    have ih := runVP_ok ts (l.filter (fun m => decide (m.1 ≠ t))) hp.2 (hl.sublist List.filter_sublist)
      (by
        intro m hm
        obtain ⟨h1, h2⟩ := List.mem_filter.1 hm
        rcases List.mem_cons.1 (hmem m h1) with h | h
        · simp [h] at h2
        · exact h)
    simp only [runVP, collect_sorted t l hl hge, ih, List.map_cons]
    congr 1
    refine List.map_congr_left fun s hs => ?_
    rw [filter_filter_ne t s _ (hp.1 s hs).ne']

end dispatch

/-! ### Poisson table -/

theorem table_fst (m : ℝ) : ∀ i, (table m i).1 = m ^ i
  | 0 => by simp [table]
  | i + 1 => by simp [table, table_fst m i, pow_succ]

theorem table_fact (m : ℝ) : ∀ i, (table m i).2.1 = (i.factorial : ℝ)
  | 0 => by simp [table]
  | i + 1 => by simp only [table, table_fact m i, Nat.factorial_succ]; push_cast; ring

theorem cmf_eq (m : ℝ) : ∀ n, cmf m n = ∑ i ∈ Finset.range (n + 1), m ^ i / i.factorial * exp (-m)
  | 0 => by simp [cmf, table]
  | n + 1 => by
    rw [Finset.sum_range_succ, ← cmf_eq m n]
    unfold cmf
    have h1 := table_fst m (n + 1)
    have h2 := table_fact m (n + 1)
    simp only [table] at h1 h2 ⊢
    rw [h1, h2]

theorem cmf_mono (m : ℝ) (hm : 0 ≤ m) {i j : Nat} (h : i ≤ j) : cmf m i ≤ cmf m j := by
  rw [cmf_eq, cmf_eq]
  refine Finset.sum_le_sum_of_subset_of_nonneg (by simpa using h) fun k _ _ => by positivity

theorem cmf_le_one (m : ℝ) (hm : 0 ≤ m) (n : Nat) : cmf m n ≤ 1 := by
  rw [cmf_eq, ← Finset.sum_mul]
  calc _ ≤ exp m * exp (-m) := mul_le_mul_of_nonneg_right (sum_le_exp_of_nonneg hm _) (exp_pos _).le
    _ = 1 := by rw [← exp_add]; simp

theorem cmf_lt_one (m : ℝ) (hm : 0 < m) (n : Nat) : cmf m n < 1 := by
  refine lt_of_lt_of_le ?_ (cmf_le_one m hm.le (n + 1))
  rw [cmf_eq, cmf_eq, Finset.sum_range_succ _ (n + 1)]
  have : 0 < m ^ (n + 1) / (n + 1).factorial * exp (-m) := by positivity
  linarith

theorem countFrom_some (m u : ℝ) (k : Nat) : ∀ n, countFrom m u n = some k ↔ n ≤ k ∧ k < 100 ∧ (∀ j, n ≤ j → j < k → cmf m j < u) ∧ u ≤ cmf m k := by
  have key : ∀ d n, 100 - n = d → (countFrom m u n = some k ↔ n ≤ k ∧ k < 100 ∧ (∀ j, n ≤ j → j < k → cmf m j < u) ∧ u ≤ cmf m k) := by
    intro d
    induction d with
    | zero =>
      intro n hn
      rw [countFrom, if_neg (by omega)]
      simp only [reduceCtorEq, false_iff]
      rintro ⟨h1, h2, -⟩
      omega
    | succ d ih =>
      intro n hn
      rw [countFrom, if_pos (by omega)]
      by_cases h : cmf m n < u
      · rw [if_pos h, ih (n + 1) (by omega)]
        constructor
        · rintro ⟨h1, h2, h3, h4⟩
          refine ⟨by omega, h2, fun j hj hk => ?_, h4⟩
          rcases Nat.eq_or_lt_of_le hj with e | e
          · exact e ▸ h
          · exact h3 j e hk
        · rintro ⟨h1, h2, h3, h4⟩
          have : n ≠ k := by rintro rfl; exact absurd h (not_lt.2 h4)
          exact ⟨by omega, h2, fun j hj hk => h3 j (by omega) hk, h4⟩
      · rw [if_neg h]
        constructor
        · intro e
          cases e
          exact ⟨le_rfl, by omega, fun j h1 h2 => by omega, not_lt.1 h⟩
        · rintro ⟨h1, h2, h3, h4⟩
          rcases Nat.eq_or_lt_of_le h1 with e | e
          · rw [e]
          · exact absurd (h3 n le_rfl e) h
  exact fun n => key _ n rfl

theorem countFrom_none (m u : ℝ) : ∀ n, countFrom m u n = none ↔ ∀ j, n ≤ j → j < 100 → cmf m j < u := by
  have key : ∀ d n, 100 - n = d → (countFrom m u n = none ↔ ∀ j, n ≤ j → j < 100 → cmf m j < u) := by
    intro d
    induction d with
    | zero =>
      intro n hn
      rw [countFrom, if_neg (by omega)]
      simp only [true_iff]
      intro j h1 h2; omega
    | succ d ih =>
      intro n hn
      rw [countFrom, if_pos (by omega)]
      by_cases h : cmf m n < u
      · rw [if_pos h, ih (n + 1) (by omega)]
        constructor
        · intro h3 j hj hk
          rcases Nat.eq_or_lt_of_le hj with e | e
          · exact e ▸ h
          · exact h3 j e hk
        · exact fun h3 j hj hk => h3 j (by omega) hk
      · rw [if_neg h]
        simp only [reduceCtorEq, false_iff]
        exact fun h3 => h (h3 n le_rfl (by omega))
  exact fun n => key _ n rfl

theorem nClutter_none (m u : ℝ) (hm : 0 ≤ m) : nClutter m u = none ↔ cmf m 99 < u := by
  rw [nClutter, countFrom_none]
  exact ⟨fun h => h 99 (by omega) (by omega), fun h j _ hj => lt_of_le_of_lt (cmf_mono m hm (by omega)) h⟩

/-! ### Landmarks -/

theorem lmkSteps_length (q : Nat) (hq : 2 ≤ q) : ∀ n k : Nat, 1 ≤ k → (lmkSteps q n (k + 1) (k / q + 1)).length = (k + n) / q - k / q
  | 0, k, _ => by simp [lmkSteps]
  | n + 1, k, hk => by
    have hq0 : 0 < q := by omega
    unfold lmkSteps
    have e1 : k + 1 + n = k + (n + 1) := by ring
    have hmono : (k + 1) / q ≤ (k + (n + 1)) / q := Nat.div_le_div_right (by omega)
    split
    · rename_i h
      have h1 : (k + 1) / q = k / q + 1 := by
        apply le_antisymm
        · calc (k + 1) / q ≤ (k + q) / q := Nat.div_le_div_right (by omega)
            _ = k / q + 1 := by rw [Nat.add_div_right _ hq0]
        · rw [Nat.le_div_iff_mul_le hq0, Nat.mul_comm]; exact h
      have ih := lmkSteps_length q hq n (k + 1) (by omega)
      rw [h1, e1] at ih
      rw [List.length_cons, ih]
      omega
    · rename_i h
      have h1 : (k + 1) / q = k / q := by
        apply le_antisymm
        · rw [← Nat.lt_succ_iff, Nat.div_lt_iff_lt_mul hq0, Nat.mul_comm]
          exact not_le.1 h
        · exact Nat.div_le_div_right (by omega)
      have ih := lmkSteps_length q hq n (k + 1) (by omega)
      rw [h1, e1] at ih
      exact ih

theorem lmkSteps_length_small (q : Nat) (hq : q ≤ 1) : ∀ n k c : Nat, c ≤ k → (lmkSteps q n k c).length = n
  | 0, _, _, _ => by simp [lmkSteps]
  | n + 1, k, c, h => by
    unfold lmkSteps
    rw [if_pos (by
      calc q * c ≤ 1 * c := Nat.mul_le_mul_right _ hq
        _ ≤ k := by omega)]
    rw [List.length_cons, lmkSteps_length_small q hq n (k + 1) (c + 1) (by omega)]

theorem lmkSteps_mem (q : Nat) : ∀ n k c s : Nat, s ∈ lmkSteps q n k c → k ≤ s ∧ s < k + n
  | 0, _, _, _, h => by simp [lmkSteps] at h
  | n + 1, k, c, s, h => by
    unfold lmkSteps at h
    split at h
    · rcases List.mem_cons.1 h with e | e
      · omega
      · have := lmkSteps_mem q n (k + 1) (c + 1) s e; omega
    · have := lmkSteps_mem q n (k + 1) c s h; omega

end Sim
end RFS
