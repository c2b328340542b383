import Mathlib.Tactic.TypeStar
import Mathlib.Data.List.Basic

/-!
Lists modified at several indices.
-/

namespace RFS

/-- Writing back: every index is written at most once. -/
theorem modify_other {α β : Type*} (f : β → Nat) (g : β → α → α) (l : List β) : ∀ ts : List α, ∀ i, (∀ m ∈ l, f m ≠ i) →
    (l.foldl (fun ts m => ts.modify (f m) (g m)) ts)[i]? = ts[i]? := by
  induction l with
  | nil => intro ts i _; rfl
  | cons b l ih =>
    intro ts i h
    rw [List.foldl_cons, ih _ _ fun m hm => h m (by simp [hm]), List.getElem?_modify]
    cases ts[i]? with
    | none => rfl
    | some x => exact congrArg some (if_neg (h b (by simp)))

theorem modify_one {α β : Type*} (f : β → Nat) (g : β → α → α) (l : List β) (hnd : l.Nodup) (hf : Function.Injective f) : ∀ ts : List α, ∀ m ∈ l,
    (l.foldl (fun ts m => ts.modify (f m) (g m)) ts)[f m]? = (ts[f m]?).map (g m) := by
  induction l with
  | nil => intro ts m h; simp at h
  | cons b l ih =>
    intro ts m h
    rw [List.nodup_cons] at hnd
    rw [List.foldl_cons]
    by_cases hb : m = b
    · subst hb
      rw [modify_other f g l _ _ (fun m' hm' he => hnd.1 (by rw [← hf he]; exact hm')), List.getElem?_modify]
      cases ts[f m]? with
      | none => rfl
      | some x => exact congrArg some (if_pos rfl)
    · have hm : m ∈ l := by
        rcases List.mem_cons.1 h with h | h
        · exact absurd h hb
        · exact h
      rw [ih hnd.2 _ m hm, List.getElem?_modify]
      cases ts[f m]? with
      | none => rfl
      | some x => exact congrArg (fun y => some (g m y)) (if_neg (fun he => hb (hf he).symm))

theorem modify_length {α β : Type*} (f : β → Nat) (g : β → α → α) (l : List β) : ∀ ts : List α,
    (l.foldl (fun ts m => ts.modify (f m) (g m)) ts).length = ts.length := by
  induction l with
  | nil => intro ts; rfl
  | cons b l ih => intro ts; rw [List.foldl_cons, ih, List.length_modify]

end RFS
