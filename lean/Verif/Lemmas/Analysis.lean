import Verif.Model.Analysis
import Mathlib.Algebra.BigOperators.Group.List.Basic
import Mathlib.Tactic.Linarith

/-!
Lemmas on the reading of logs.
-/

set_option linter.unusedSectionVars false

namespace RFS
namespace Analysis

variable {K : Type} [Field K] [LinearOrder K] [IsStrictOrderedRing K]

/-- The members `c` and the rest of the file stand for the records `L` that have not been processed, `ts` being the times to come. -/
def Rep {R : Type} (time : R → K) (ts : List K) (c : R) (rest L : List R) : Prop :=
  c :: rest = L ∨ (L = [] ∧ rest = [] ∧ ∀ t ∈ ts, ¬ sameTime (time c) t)

theorem readLoop_spec {R S : Type} (time : R → K) (step : S → R → Option S) (t : K) (ts : List K) (L' : List R) (hL' : ∀ r ∈ L', ¬ sameTime (time r) t) :
    ∀ (g : List R) (s s' : S) (c : R) (rest : List R), Rep time (t :: ts) c rest (g ++ L') → (∀ r ∈ g, sameTime (time r) t) →
    (∀ r ∈ g, ∀ t' ∈ ts, ¬ sameTime (time r) t') → g.foldlM step s = some s' →
    ∃ c' rest', readLoop time step t s c rest = some (s', c', rest') ∧ Rep time ts c' rest' L'
  | [], s, s', c, rest, hR, _, _, hf => by
    cases hf
    have hc : ¬ sameTime (time c) t := by
      rcases hR with h | ⟨-, -, h⟩
      · exact hL' c (by rw [← (List.nil_append L').symm.trans h.symm |>.symm]; simp)
      · exact h t (by simp)
    refine ⟨c, rest, ?_, ?_⟩
    · cases rest <;> simp [readLoop, hc]
    · rcases hR with h | ⟨h1, h2, h3⟩
      · exact Or.inl (by simpa using h)
      · exact Or.inr ⟨by simpa using h1, h2, fun t' ht' => h3 t' (by simp [ht'])⟩
  | r :: g, s, s', c, rest, hR, hg, hl, hf => by
    rcases hR with h | ⟨h, -, -⟩
    swap
    · simp at h
    simp only [List.cons_append, List.cons.injEq] at h
    obtain ⟨rfl, rfl⟩ := h
    obtain ⟨s1, h1, h2⟩ : ∃ s1, step s c = some s1 ∧ g.foldlM step s1 = some s' := by
      rw [List.foldlM_cons] at hf
      exact Option.bind_eq_some_iff.1 hf
    have hc : sameTime (time c) t := hg c (by simp)
    cases hgl : g ++ L' with
    | nil =>
      obtain ⟨rfl, rfl⟩ := List.append_eq_nil_iff.1 hgl
      cases h2
      exact ⟨c, [], by simp [readLoop, hc, h1], Or.inr ⟨rfl, rfl, fun t' ht' => hl c (by simp) t' ht'⟩⟩
    | cons n rest =>
      obtain ⟨c', rest', h3, h4⟩ := readLoop_spec time step t ts L' hL' g s1 s' n rest (Or.inl hgl.symm) (fun r hr => hg r (by simp [hr]))
        (fun r hr => hl r (by simp [hr])) h2
      exact ⟨c', rest', by simp [readLoop, hc, h1, h3], h4⟩

/-- Weight and index after a list of records. -/
def best : List (PRec K) → K → Option Nat → K × Option Nat
  | [], w, i => (w, i)
  | p :: ps, w, i => if w < p.w then best ps p.w (some p.id) else best ps w i

theorem foldP (g : List (PRec K)) : ∀ s : PSt K, (∀ (j : Nat) (p : PRec K), g[j]? = some p → p.id ≤ s.parts.length + j) →
    g.foldlM stepP s = some ⟨s.wSum + (g.map PRec.w).sum, (best g s.wHi s.iHi).1, (best g s.wHi s.iHi).2, s.parts ++ g⟩ := by
  induction g with
  | nil => intro s _; simp [best]
  | cons p g ih =>
    intro s h
    have h0 := h 0 p (by simp)
    rw [List.foldlM_cons]
    have e : stepP s p = some ⟨s.wSum + p.w, if s.wHi < p.w then p.w else s.wHi, if s.wHi < p.w then some p.id else s.iHi, s.parts ++ [p]⟩ := by
      rw [stepP, if_pos (by omega)]
    rw [e]
    show List.foldlM stepP _ g = _
    rw [ih _ (by
      intro j q hq
      have := h (j + 1) q (by simpa using hq)
      simp
      omega)]
    simp only [List.map_cons, List.sum_cons, add_assoc, List.append_assoc, List.singleton_append, best]
    split <;> simp

theorem best_spec : ∀ (g : List (PRec K)) (w : K) (i : Option Nat),
    w ≤ (best g w i).1 ∧ (∀ p ∈ g, p.w ≤ (best g w i).1) ∧
    ((best g w i = (w, i) ∧ ∀ p ∈ g, p.w ≤ w) ∨
      ∃ (j : Nat) (p : PRec K), g[j]? = some p ∧ best g w i = (p.w, some p.id) ∧ w < p.w ∧ ∀ (j' : Nat) (q : PRec K), j' < j → g[j']? = some q → q.w < p.w)
  | [], w, i => by simp [best]
  | p :: g, w, i => by
    unfold best
    split
    · rename_i hlt
      obtain ⟨h1, h2, h3⟩ := best_spec g p.w (some p.id)
      refine ⟨hlt.le.trans h1, ?_, Or.inr ?_⟩
      · intro q hq
        rcases List.mem_cons.1 hq with rfl | hq
        · exact h1
        · exact h2 q hq
      · rcases h3 with ⟨h3, -⟩ | ⟨j, q, h3, h4, h5, h6⟩
        · exact ⟨0, p, rfl, h3, hlt, fun j' q hj => by omega⟩
        · refine ⟨j + 1, q, by simpa using h3, h4, hlt.trans h5, ?_⟩
          rintro (_ | j') r hj hr
          · simp only [List.getElem?_cons_zero, Option.some.injEq] at hr
            subst hr
            exact h5
          · exact h6 j' r (by omega) (by simpa using hr)
    · rename_i hlt
      have hlt := not_lt.1 hlt
      obtain ⟨h1, h2, h3⟩ := best_spec g w i
      refine ⟨h1, ?_, ?_⟩
      · intro q hq
        rcases List.mem_cons.1 hq with rfl | hq
        · exact hlt.trans h1
        · exact h2 q hq
      · rcases h3 with ⟨h3, h4⟩ | ⟨j, q, h3, h4, h5, h6⟩
        · refine Or.inl ⟨h3, ?_⟩
          intro q hq
          rcases List.mem_cons.1 hq with rfl | hq
          · exact hlt
          · exact h4 q hq
        · refine Or.inr ⟨j + 1, q, by simpa using h3, h4, h5, ?_⟩
          rintro (_ | j') r hj hr
          · simp only [List.getElem?_cons_zero, Option.some.injEq] at hr
            subst hr
            exact lt_of_le_of_lt hlt h5
          · exact h6 j' r (by omega) (by simpa using hr)

theorem foldL (i : Nat) (g : List (LRec K)) : ∀ s : List (LRec K) × K,
    g.foldlM (stepL (some i)) s = some (s.1 ++ (g.filter fun l => decide (l.pid = i ∧ wThreshold ≤ l.w)), s.2 + ((g.filter fun l => decide (l.pid = i)).map LRec.w).sum) := by
  induction g with
  | nil => intro s; simp
  | cons l g ih =>
    intro s
    rw [List.foldlM_cons]
    show List.foldlM (stepL (some i)) _ g = _
    rw [ih]
    by_cases h1 : l.pid = i
    · by_cases h2 : wThreshold ≤ l.w
      · simp [h1, h2, add_assoc]
      · simp [h1, h2, add_assoc]
    · simp [h1]

end Analysis
end RFS
