import Verif.Model.OspaFile
import Verif.Props.OSPA

/-!
Property C247: the error printed by `ospaErrorFromFile`.
-/

set_option linter.unusedSectionVars false

namespace RFS
namespace OspaFileProps
open OspaFile OSPAProps

/-- Specification: the words of a file that lists the points `A`. -/
def wordsOf (A : List (ℝ × ℝ)) : List (Option ℝ) := A.flatMap fun a => [some a.1, some a.2]

/-- Specification: the value is the OSPA error of order 1 with cutoff 1 of the two lists of points (up to the tolerance of the solver). -/
def IsError (A B : List (ℝ × ℝ)) (v : ℝ) : Prop :=
  let d : Fin A.length → Fin B.length → ℝ := fun i j => Real.sqrt ((A[i].1 - B[j].1) ^ 2 + (A[i].2 - B[j].2) ^ 2)
  (∃ f, OneToOne f ∧ (max A.length B.length : ℕ) * v = pairCost id d 1 f) ∧ ∀ f, OneToOne f → (max A.length B.length : ℕ) * v ≤ pairCost id d 1 f + (max A.length B.length : ℕ) * (1 / 10 ^ 12)

/-- **C247**, the full statement: for any two files that list points, not both none, the value printed is their OSPA error. -/
def FromFiles : Prop := ∀ (A B : List (ℝ × ℝ)) (wa wb : Bool) (fuel : Nat), ¬ (A = [] ∧ B = []) → max A.length B.length * (max A.length B.length + 1) < fuel →
  ∃ v e1 e2, main (opened (wordsOf A) wa) (opened (wordsOf B) wb) fuel = some ⟨some v, e1, e2⟩ ∧ IsError A B v

theorem get_good (v : ℝ) (ws : List (Option ℝ)) (w : Bool) : get ⟨some v :: ws, w, false⟩ = (v, ⟨ws, w, ws.isEmpty && !w⟩) := rfl

theorem wordsOf_empty (A : List (ℝ × ℝ)) : (wordsOf A).isEmpty = A.isEmpty := by cases A <;> rfl

/-- What is read from a list of points. -/
theorem readSet_words (w : Bool) : ∀ (A : List (ℝ × ℝ)) (k : Nat), A.length < k → readSet k ⟨wordsOf A, w, false⟩ = if w then A else A.dropLast
  | [], k + 1, _ => by
    cases w <;> simp [readSet, wordsOf, OspaFile.get]
  | a :: A, k + 1, h => by
    have ih := readSet_words w A k (by simpa using h)
    have e1 : get ⟨wordsOf (a :: A), w, false⟩ = (a.1, ⟨some a.2 :: wordsOf A, w, false⟩) := rfl
    have e2 : get ⟨some a.2 :: wordsOf A, w, false⟩ = (a.2, ⟨wordsOf A, w, A.isEmpty && !w⟩) := by rw [get_good, wordsOf_empty]
    unfold readSet
    simp only
    rw [e1, e2]
    simp only
    cases w with
    | true => simp only [Bool.not_true, Bool.and_false, Bool.false_eq_true, if_false, if_true] at ih ⊢; rw [ih]
    | false =>
      cases A with
      | nil => simp
      | cons b A =>
        simp only [List.isEmpty_cons, Bool.not_false, Bool.and_true, Bool.false_eq_true, if_false] at ih ⊢
        rw [ih, List.dropLast_cons_cons]

theorem wordsOf_length (A : List (ℝ × ℝ)) : A.length ≤ (wordsOf A).length := by
  induction A with
  | nil => simp
  | cons a A ih =>
    have : (wordsOf (a :: A)).length = (wordsOf A).length + 2 := by unfold wordsOf; rw [List.flatMap_cons, List.length_append]; simp only [List.length_cons, List.length_nil]; omega
    simp only [List.length_cons]
    omega

theorem main_words (A B : List (ℝ × ℝ)) (wa wb : Bool) (fuel : Nat) :
    main (opened (wordsOf A) wa) (opened (wordsOf B) wb) fuel = errorOf (if wa then A else A.dropLast) (if wb then B else B.dropLast) fuel := by
  have h1 := wordsOf_length A
  have h2 := wordsOf_length B
  unfold main
  rw [show readSet ((opened (wordsOf A) wa).words.length + 1) (opened (wordsOf A) wa) = _ from readSet_words wa A _ (by simp only [opened]; omega),
    show readSet ((opened (wordsOf B) wb).words.length + 1) (opened (wordsOf B) wb) = _ from readSet_words wb B _ (by simp only [opened]; omega)]

theorem errorOf_spec (A B : List (ℝ × ℝ)) (fuel : Nat) (hne : ¬ (A = [] ∧ B = [])) (hf : max A.length B.length * (max A.length B.length + 1) < fuel) :
    ∃ v e1 e2, errorOf A B fuel = some ⟨some v, e1, e2⟩ ∧ IsError A B v := by
  have hd : (fun (i : Fin A.length) (j : Fin B.length) => distance A[i] B[j]) = fun i j => Real.sqrt ((A[i].1 - B[j].1) ^ 2 + (A[i].2 - B[j].2) ^ 2) := by
    funext i j
    unfold distance
    rw [sq, sq]
  obtain ⟨o, v, e1, e2, h1, h2, -, -, -, ⟨f, f1, f2, -⟩, h7⟩ := C18_order1 (fun (i : Fin A.length) (j : Fin B.length) => distance A[i] B[j]) 1 (fun i j => Real.sqrt_nonneg _) zero_le_one
    (fun h => hne ⟨List.length_eq_zero_iff.1 h.1, List.length_eq_zero_iff.1 h.2⟩) fuel hf
  refine ⟨v, some e1, some e2, ?_, ?_⟩
  · unfold errorOf
    rw [h1, Option.map_some, h2]
  · rw [hd] at f2 h7
    exact ⟨⟨f, f1, f2⟩, h7⟩

/-- **C247** (partial): if white space follows the last number of both files, the value printed is the OSPA error of the points in the files. Missing: files without (`C247_violated`). -/
theorem C247_partial (A B : List (ℝ × ℝ)) (fuel : Nat) (hne : ¬ (A = [] ∧ B = [])) (hf : max A.length B.length * (max A.length B.length + 1) < fuel) :
    ∃ v e1 e2, main (opened (wordsOf A) true) (opened (wordsOf B) true) fuel = some ⟨some v, e1, e2⟩ ∧ IsError A B v := by
  rw [main_words]
  exact errorOf_spec A B fuel hne hf

/-- **C247**: of a file that ends with a number the last point is left out: the value printed is the error without it. -/
theorem C247_last_lost (A B : List (ℝ × ℝ)) (wb : Bool) (fuel : Nat) : main (opened (wordsOf A) false) (opened (wordsOf B) wb) fuel = main (opened (wordsOf A.dropLast) true) (opened (wordsOf B) wb) fuel := by
  rw [main_words, main_words]
  simp

/-- **C247** fails: the same point in both files, one of which does not end with a new line: the error printed is 1 instead of 0. -/
theorem C247_violated : (∀ fuel, 2 < fuel → ∃ e1 e2, main (opened (wordsOf [(0, 0)]) false) (opened (wordsOf [(0, 0)]) true) fuel = some ⟨some 1, e1, e2⟩) ∧ ¬ IsError [(0, 0)] [(0, 0)] 1 ∧ ¬ FromFiles := by
  have h1 : ∀ fuel, 2 < fuel → ∃ e1 e2, main (opened (wordsOf [(0, 0)]) false) (opened (wordsOf [(0, 0)]) true) fuel = some ⟨some 1, e1, e2⟩ := by
    intro fuel hf
    rw [main_words]
    obtain ⟨v, e1, e2, h, ⟨f, -, hv⟩, -⟩ := errorOf_spec [] [(0, 0)] fuel (by simp) (by simpa using hf)
    have : v = 1 := by
      have : ((max 0 1 : ℕ) : ℝ) * v = 1 := by
        refine hv.trans ?_
        unfold pairCost pairs
        simp
      simpa using this
    subst this
    exact ⟨e1, e2, by simpa using h⟩
  have h2 : ¬ IsError [(0, 0)] [(0, 0)] 1 := by
    rintro ⟨-, h⟩
    have := h (fun _ => some 0) (fun i i' _ _ _ => by have h1 := i.2; have h2 := i'.2; simp only [List.length_singleton] at h1 h2; exact Fin.ext (by omega))
    unfold pairCost pairs at this
    norm_num at this
  refine ⟨h1, h2, fun h => ?_⟩
  obtain ⟨v, e1, e2, e, hv⟩ := h [(0, 0)] [(0, 0)] false true 3 (by simp) (by simp)
  obtain ⟨e1', e2', e'⟩ := h1 3 (by norm_num)
  rw [e'] at e
  simp only [Option.some.injEq, OSPA.Err.mk.injEq] at e
  exact h2 (e.1 ▸ hv)

/-- The hypotheses of the partial theorem are met by two files of two points and one point. -/
example : ¬ (([(0, 0), (3, 4)] : List (ℝ × ℝ)) = [] ∧ ([(0, 1)] : List (ℝ × ℝ)) = []) ∧ max ([(0, 0), (3, 4)] : List (ℝ × ℝ)).length ([(0, 1)] : List (ℝ × ℝ)).length * (max ([(0, 0), (3, 4)] : List (ℝ × ℝ)).length ([(0, 1)] : List (ℝ × ℝ)).length + 1) < 7 := by simp

end OspaFileProps
end RFS
