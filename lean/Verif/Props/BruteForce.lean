import Verif.Model.BruteForce
import Verif.Props.PermLex
import Mathlib.Data.List.OfFn
import Mathlib.Data.List.Sort
import Mathlib.Data.Rat.Floor
import Mathlib.Tactic.FinCases
import Mathlib.Tactic.Ring

/-!
Property C16: `BruteForceLinearAssignment::run`.

Specification: assignments are bijections of `Fin n`, given to the caller as the array of the columns; the total is the sum of
the selected entries of the caller's matrix before the call.
-/

set_option linter.unusedSectionVars false

namespace RFS
namespace BruteForceProps
open BruteForce
open Hungarian (Mat)

variable {K : Type*} [Field K] [LinearOrder K] [IsStrictOrderedRing K] {n : Nat}

/-- Specification: the total of an assignment. -/
def total (C : Fin n → Fin n → K) (σ : Fin n → Fin n) : K := ∑ x, C x (σ x)

/-- Specification: the array of the columns. -/
def asArray (σ : Fin n → Fin n) : List Nat := List.ofFn fun i => (σ i).val

theorem asArray_inj {σ τ : Fin n → Fin n} (h : asArray σ = asArray τ) : σ = τ := by
  have := List.ofFn_injective h
  funext i
  exact Fin.ext (congrFun this i)

theorem perm_range_iff (o : List Nat) :
    o.Perm (List.range n) ↔ ∃ σ : Fin n → Fin n, Function.Bijective σ ∧ o = asArray σ := by
  constructor
  · intro h
    have hl : o.length = n := by simpa using h.length_eq
    have hlt : ∀ x ∈ o, x < n := fun x hx => List.mem_range.1 (h.mem_iff.1 hx)
    refine ⟨fun i => ⟨o[i.val]'(by omega), hlt _ (List.getElem_mem _)⟩, ?_, ?_⟩
    · rw [← Finite.injective_iff_bijective]
      intro i j e
      have hnd : o.Nodup := h.nodup_iff.2 List.nodup_range
      exact Fin.ext ((List.Nodup.getElem_inj_iff hnd).1 (congrArg Fin.val e))
    · apply List.ext_getElem
      · simp [asArray, hl]
      · intro i h1 h2; simp [asArray]
  · rintro ⟨σ, hσ, rfl⟩
    rw [List.perm_ext_iff_of_nodup]
    · intro a
      simp only [asArray, List.mem_ofFn, List.mem_range]
      constructor
      · rintro ⟨i, rfl⟩; exact (σ i).2
      · intro ha
        obtain ⟨i, hi⟩ := hσ.2 ⟨a, ha⟩
        exact ⟨i, by rw [hi]⟩
    · exact List.nodup_ofFn.2 fun i j e => hσ.1 (Fin.ext e)
    · exact List.nodup_range

theorem score_eq (C : Mat K n) (off : K) (m : Bool) (σ : Fin n → Fin n) :
    score C off m (asArray σ) = some (∑ i, if m then C i (σ i) else - (C i (σ i) + off)) := by
  unfold score
  have hget : ∀ i : Fin n, (asArray σ)[i.val]? = some (σ i).val := by
    intro i; simp [asArray, List.getElem?_ofFn]
  have key : ∀ (l : List (Fin n)) (s : K), l.foldlM (fun s i =>
      match (asArray σ)[i.val]? with
      | none => none
      | some j =>
        if h : j < n then
          some (if m then s + C i ⟨j, h⟩ else s - (C i ⟨j, h⟩ + off))
        else none) s = some (s + (l.map fun i => if m then C i (σ i) else - (C i (σ i) + off)).sum) := by
    intro l
    induction l with
    | nil => intro s; simp
    | cons i l ih =>
      intro s
      rw [List.foldlM_cons]
      simp only [hget, (σ i).2, dif_pos]
      have := ih (if m then s + C i (σ i) else s - (C i (σ i) + off))
      simp only [hget] at this
      show (List.foldlM _ _ l) = _
      rw [this]
      cases m <;> simp [add_assoc, sub_eq_add_neg]
  refine (key (List.finRange n) 0).trans ?_
  rw [zero_add, ← List.sum_ofFn, List.ofFn_eq_map]

theorem collect_spec (C : Mat K n) (off : K) (m : Bool) :
    ∀ (L : List (Fin n → Fin n)) (fuel : Nat) (s : PermLex.St) (cnt : Nat) (q : List (Row K)),
      (∀ k, PermLex.call s k = if h : k < L.length then some (asArray L[k], (cnt + k + 1) % 2 ^ 32)
        else some (List.replicate n 0, 0)) →
      L.length < fuel → cnt + L.length < 2 ^ 32 →
      collect C off m fuel s cnt q = some (q ++ L.map (fun σ =>
        (asArray σ, ∑ i, if m then C i (σ i) else - (C i (σ i) + off))), cnt + L.length)
  | [], fuel + 1, s, cnt, q, h, _, _ => by
    have h0 := h 0
    simp only [List.length_nil, Nat.lt_irrefl, dif_neg, not_false_eq_true] at h0
    unfold collect
    simp only [PermLex.call] at h0
    cases e : PermLex.next s with
    | none => rw [e] at h0; cases h0
    | some r =>
      rw [e] at h0
      simp only [Option.map_some, Option.some.injEq, Prod.mk.injEq] at h0
      obtain ⟨o, np, s'⟩ := r
      simp only at h0
      simp [h0.2]
  | σ :: L, fuel + 1, s, cnt, q, h, hf, hc => by
    have h0 := h 0
    simp only [List.length_cons] at h0 hf hc
    rw [dif_pos (by omega)] at h0
    simp only [PermLex.call] at h0
    unfold collect
    cases e : PermLex.next s with
    | none => rw [e] at h0; cases h0
    | some r =>
      rw [e] at h0
      obtain ⟨o, np, s'⟩ := r
      simp only [Option.map_some, Option.some.injEq, Prod.mk.injEq, List.getElem_cons_zero] at h0
      obtain ⟨rfl, rfl⟩ := h0
      have hmod : (cnt + 0 + 1) % 2 ^ 32 = cnt + 1 := Nat.mod_eq_of_lt (by omega)
      simp only [hmod, score_eq]
      rw [if_neg (by omega), collect_spec C off m L fuel s' (cnt + 1) _ ?_ (by omega) (by omega)]
      · simp [List.append_assoc]; omega
      · intro k
        have := h (k + 1)
        simp only [PermLex.call, e] at this
        rw [this]
        simp only [List.length_cons, List.getElem_cons_succ, Nat.add_lt_add_iff_right]
        have e2 : cnt + (k + 1) + 1 = cnt + 1 + k + 1 := by omega
        rw [e2]
  | _, 0, _, _, _, _, h, _ => by omega

/-- The score of each row as a total of the caller's matrix. -/
theorem score_total (C : Mat K n) (m : Bool) (σ : Fin n → Fin n) :
    (∑ i, if m then (prepare C m).1 i (σ i) else - ((prepare C m).1 i (σ i) + (prepare C m).2)) = total C σ := by
  unfold total
  refine Finset.sum_congr rfl fun i _ => ?_
  cases m <;> simp [prepare]

/-- What holds in both directions. -/
theorem run_spec (drain : List (Row K) → List (Row K)) (hd : IsDrain drain) (C : Fin n → Fin n → K) (m : Bool)
    (h0 : 0 < n) (hn : n.factorial < 2 ^ 32) (fuel : Nat) (hf : n.factorial < fuel) :
    ∃ rows : List (Row K), run drain C m fuel = some ⟨rows, n.factorial, (prepare C m).1⟩ ∧
      rows.length = n.factorial ∧ (rows.map Prod.fst).Nodup ∧
      (∀ r, r ∈ rows ↔ ∃ σ : Fin n → Fin n, Function.Bijective σ ∧ r = (asArray σ, total C σ)) ∧
      rows.Pairwise (fun a b => b.2 ≤ a.2) := by
  obtain ⟨L, h1, h2, h3, h4⟩ := PermLexProps.C05_square n h0
  have hex : ∀ o : List Nat, o ∈ L → ∃ σ : Fin n → Fin n, Function.Bijective σ ∧ o = asArray σ :=
    fun o ho => (perm_range_iff o).1 ((h2 o).1 ho)
  have hL : ∃ S : List (Fin n → Fin n), S.map asArray = L ∧ ∀ σ ∈ S, Function.Bijective σ := by
    clear h1 h2 h3 h4
    induction L with
    | nil => exact ⟨[], rfl, by simp⟩
    | cons o L ih =>
      obtain ⟨S, e, hS⟩ := ih fun o ho => hex o (List.mem_cons_of_mem _ ho)
      obtain ⟨σ, hσ, rfl⟩ := hex o List.mem_cons_self
      exact ⟨σ :: S, by simp [e], by
        intro τ hτ
        rcases List.mem_cons.1 hτ with rfl | hτ
        · exact hσ
        · exact hS τ hτ⟩
  obtain ⟨S, rfl, hS⟩ := hL
  have hlen : S.length = n.factorial := by simpa using h3
  have hcol := collect_spec (prepare C m).1 (prepare C m).2 m S fuel (PermLex.init n n false) 0 []
    (by
      intro k
      rw [h4 k]
      simp only [List.length_map, List.getElem_map, Nat.zero_add]) (by omega) (by omega)
  simp only [score_total, List.nil_append, Nat.zero_add, hlen] at hcol
  set q := S.map fun σ => (asArray σ, total C σ) with hq
  have hql : q.length = n.factorial := by simp [hq, hlen]
  obtain ⟨hp, hs⟩ := hd q
  have hdl : (drain q).length = n.factorial := by rw [hp.length_eq, hql]
  refine ⟨drain q, ?_, hdl, ?_, ?_, hs⟩
  · unfold run
    simp only [hcol]
    rw [if_pos (by omega), List.take_of_length_le (by omega)]
  · rw [(hp.map Prod.fst).nodup_iff, hq, List.map_map]
    have : (Prod.fst ∘ fun σ : Fin n → Fin n => (asArray σ, total C σ)) = asArray := rfl
    rw [this]
    exact h1.imp fun h => ne_of_lt h
  · intro r
    rw [hp.mem_iff, hq, List.mem_map]
    constructor
    · rintro ⟨σ, hσ, rfl⟩; exact ⟨σ, hS σ hσ, rfl⟩
    · rintro ⟨σ, hσ, rfl⟩
      have := (h2 (asArray σ)).2 ((perm_range_iff _).2 ⟨σ, hσ, rfl⟩)
      obtain ⟨τ, hτ, e⟩ := List.mem_map.1 this
      rw [← asArray_inj e]
      exact ⟨τ, hτ, rfl⟩

/-- **C16**, the part that holds for both directions: for `1 <= n` with `n!` in the range of `unsigned int`, the call returns
`n!` and the rows are exactly the permutations, each once and with its total, in order of non-increasing total whatever the
direction asked for. With `maxToMin` the matrix is unchanged, so the full claim holds for that direction. Missing: the other
direction, where the order and the caller's matrix are wrong (`C16_min_order_violated`, `C16_min_matrix_violated`). -/
theorem C16_max_partial (drain : List (Row K) → List (Row K)) (hd : IsDrain drain) (C : Fin n → Fin n → K)
    (h0 : 0 < n) (hn : n.factorial < 2 ^ 32) (fuel : Nat) (hf : n.factorial < fuel) :
    ∃ rows : List (Row K), run drain C true fuel = some ⟨rows, n.factorial, C⟩ ∧
      rows.length = n.factorial ∧ (rows.map Prod.fst).Nodup ∧
      (∀ r, r ∈ rows ↔ ∃ σ : Fin n → Fin n, Function.Bijective σ ∧ r = (asArray σ, total C σ)) ∧
      rows.Pairwise (fun a b => b.2 ≤ a.2) :=
  run_spec drain hd C true h0 hn fuel hf

theorem C16_min_rows_partial (drain : List (Row K) → List (Row K)) (hd : IsDrain drain) (C : Fin n → Fin n → K)
    (h0 : 0 < n) (hn : n.factorial < 2 ^ 32) (fuel : Nat) (hf : n.factorial < fuel) :
    ∃ (rows : List (Row K)) (C' : Fin n → Fin n → K), run drain C false fuel = some ⟨rows, n.factorial, C'⟩ ∧
      rows.length = n.factorial ∧ (rows.map Prod.fst).Nodup ∧
      (∀ r, r ∈ rows ↔ ∃ σ : Fin n → Fin n, Function.Bijective σ ∧ r = (asArray σ, total C σ)) ∧
      rows.Pairwise (fun a b => b.2 ≤ a.2) := by
  obtain ⟨rows, h⟩ := run_spec drain hd C false h0 hn fuel hf
  exact ⟨rows, _, h⟩

/-- Specification of the order asked for. -/
def BestFirst (maxToMin : Bool) (rows : List (Row K)) : Prop :=
  rows.Pairwise fun a b => if maxToMin then b.2 ≤ a.2 else a.2 ≤ b.2

/-- **C16** is false for `maxToMin = false`: whenever two assignments have different totals, the rows come out worst first. -/
theorem C16_min_order_violated (drain : List (Row K) → List (Row K)) (hd : IsDrain drain) (C : Fin n → Fin n → K)
    (h0 : 0 < n) (hn : n.factorial < 2 ^ 32) (fuel : Nat) (hf : n.factorial < fuel)
    (hdiff : ∃ σ τ : Fin n → Fin n, Function.Bijective σ ∧ Function.Bijective τ ∧ total C σ < total C τ) :
    ∃ r, run drain C false fuel = some r ∧ ¬ BestFirst false r.rows := by
  obtain ⟨rows, h1, -, -, h4, h5⟩ := run_spec drain hd C false h0 hn fuel hf
  refine ⟨_, h1, fun hb => ?_⟩
  obtain ⟨σ, τ, hσ, hτ, hlt⟩ := hdiff
  obtain ⟨i, hi, ei⟩ := List.getElem_of_mem ((h4 _).2 ⟨σ, hσ, rfl⟩)
  obtain ⟨j, hj, ej⟩ := List.getElem_of_mem ((h4 _).2 ⟨τ, hτ, rfl⟩)
  have e1 : rows[i].2 = total C σ := by rw [ei]
  have e2 : rows[j].2 = total C τ := by rw [ej]
  rcases Nat.lt_trichotomy i j with h | h | h
  · have := List.pairwise_iff_getElem.1 h5 i j hi hj h
    rw [e1, e2] at this
    exact absurd hlt (not_lt.2 this)
  · subst h; rw [e1] at e2; exact absurd hlt (by rw [e2]; exact lt_irrefl _)
  · have := List.pairwise_iff_getElem.1 hb j i hj hi h
    simp only [Bool.false_eq_true, if_false] at this
    rw [e1, e2] at this
    exact absurd hlt (not_lt.2 this)

/-- A way to drain the queue. -/
theorem exists_drain : ∃ drain : List (Row K) → List (Row K), IsDrain drain := by
  refine ⟨fun q => q.insertionSort fun a b => b.2 ≤ a.2, fun q => ⟨List.perm_insertionSort _ _, ?_⟩⟩
  have : Std.Total fun a b : Row K => b.2 ≤ a.2 := ⟨fun a b => le_total _ _⟩
  have : IsTrans (Row K) fun a b => b.2 ≤ a.2 := ⟨fun a b c h1 h2 => h2.trans h1⟩
  exact List.pairwise_insertionSort _ _

/-- **C16** is false for `maxToMin = false` also in that the caller's matrix is left negated and shifted. -/
theorem C16_min_matrix_violated (drain : List (Row ℚ) → List (Row ℚ)) (hd : IsDrain drain) :
    ∃ r, run drain (![![1, 2], ![3, 5]] : Fin 2 → Fin 2 → ℚ) false 3 = some r ∧
      r.C = ![![4, 3], ![2, 0]] ∧ r.C ≠ ![![1, 2], ![3, 5]] := by
  obtain ⟨rows, h, -⟩ := run_spec drain hd (![![1, 2], ![3, 5]] : Fin 2 → Fin 2 → ℚ) false (by decide) (by decide) 3 (by decide)
  have e : (prepare (![![1, 2], ![3, 5]] : Fin 2 → Fin 2 → ℚ) false).1 = ![![4, 3], ![2, 0]] := by decide +kernel
  refine ⟨_, h, e, ?_⟩
  show (prepare (![![1, 2], ![3, 5]] : Fin 2 → Fin 2 → ℚ) false).1 ≠ _
  rw [e]; decide +kernel

/-- Non-vacuity of the hypotheses of `C16_min_order_violated`. -/
example : ∃ σ τ : Fin 2 → Fin 2, Function.Bijective σ ∧ Function.Bijective τ ∧
    total (![![1, 2], ![3, 5]] : Fin 2 → Fin 2 → ℚ) σ < total ![![1, 2], ![3, 5]] τ :=
  ⟨![1, 0], ![0, 1], by decide, by decide, by decide +kernel⟩

end BruteForceProps
end RFS
