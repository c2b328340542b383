import Verif.Lemmas.PHDThreads
import Mathlib.Tactic.Positivity
import Mathlib.Algebra.Order.Field.Basic

/-! Lemmas for `Verif.Props.PHDLeak`: what the landmark table holds outside the part that `updateMap` uses, and the sign of the weights in the table. -/

set_option linter.unusedSectionVars false

namespace RFS
namespace PHDT
open PHD

variable {T Z K X F : Type} [Field K] [LinearOrder K]

theorem foldlM_pres {σ α : Type} {step : σ → α → Except Err σ} (P : σ → Prop) (l : List α) (h : ∀ s, ∀ a ∈ l, ∀ s', P s → step s a = .ok s' → P s') (s s' : σ) (h0 : P s)
    (e : l.foldlM step s = .ok s') : P s' := by
  induction l generalizing s with
  | nil => cases e; exact h0
  | cons a l ih =>
    rw [List.foldlM_cons] at e
    cases h1 : step s a with
    | error x => rw [h1] at e; cases e
    | ok s1 =>
      rw [h1] at e
      exact ih (fun s b hb => h s b (List.mem_cons_of_mem _ hb)) s1 (h s a List.mem_cons_self s1 h0 h1) e

/-- No landmark outside the part of the table in use. -/
def Out (nM nZ : Nat) (t : Tab T K) : Prop := ∀ i j, ¬ (i < nM ∧ j < nZ) → t.m i j = none

theorem put_out {nM nZ i j : Nat} {t t' : Tab T K} {l : Option T} {w : K} (e : t.put i j l w = .ok t') (hi : i < nM) (hj : j < nZ) (h : Out nM nZ t) : Out nM nZ t' := by
  unfold Tab.put at e
  split at e
  · cases e
    intro i' j' h'
    simp only
    by_cases hii : i' = i
    · subst hii
      rw [Function.update_self, Function.update_of_ne (by omega)]
      exact h _ _ h'
    · rw [Function.update_of_ne hii]
      exact h _ _ h'
  · cases e

theorem check_clean {t : Tab T K} (r c : Nat) (h : ∀ i j, t.m i j = none) : ∀ i j, (t.check r c).m i j = none := by
  intro i j
  unfold Tab.check
  simp only
  split
  · unfold Tab.resize
    simp only
    split
    · exact h _ _
    · rfl
  · exact h _ _

theorem emap_ok {α β : Type} {x : Except Err α} {g : α → β} {b : β} (e : x.map g = .ok b) : ∃ a, x = .ok a ∧ g a = b := by
  cases x with
  | error y => cases e
  | ok a => cases e; exact ⟨a, rfl, rfl⟩

theorem ebind_inv {α β : Type} {x : Except Err α} {g : α → Except Err β} {b : β} (e : x.bind g = .ok b) : ∃ a, x = .ok a ∧ g a = .ok b := by
  cases x with
  | error y => cases e
  | ok a => exact ⟨a, rfl, e⟩

theorem mem_zipIdx_lt {Zs : List Z} {q : Z × Nat} (h : q ∈ Zs.zipIdx) : q.2 < Zs.length := by
  obtain ⟨i, hi, rfl⟩ := List.getElem_of_mem h
  simpa using hi

/-- What every step keeps. -/
def Keeps (nM nZ : Nat) (a : Work X T K) : Prop := a.loc.nM = nM ∧ Out nM nZ a.tab

/-- A step that stays in the table. -/
def Act.In (nM nZ : Nat) : Act → Prop
  | .row m => m < nM
  | .col z => z < nZ
  | .weight => True
  | .add m z => m < nM ∧ z < nZ
  | .miss m => m < nM
  | .use z => z < nZ

theorem acts_in (cl : Bool) (nM nZ : Nat) : ∀ x ∈ acts cl nM nZ, x.In nM nZ := by
  intro x hx
  unfold acts at hx
  simp only [List.mem_append, List.mem_map, List.mem_range, List.mem_flatMap] at hx
  rcases hx with ((((⟨m, h, rfl⟩ | ⟨m, h, rfl⟩) | h) | ⟨m, hm, z, hz, rfl⟩) | ⟨m, h, rfl⟩) | ⟨m, h, rfl⟩
  · exact h
  · exact h
  · cases cl with
    | false => simp at h
    | true => simp at h; subst h; trivial
  · exact ⟨hm, hz⟩
  · exact h
  · exact h

theorem act_keeps {env : Env X T Z K F} {cfg : TCfg K} {f : F} {thr2 : K} {Zs : List Z} {nM : Nat} {a a' : Work X T K} {x : Act} (hx : x.In nM Zs.length) (h : Keeps nM Zs.length a)
    (e : act env cfg f thr2 Zs a x = .ok a') : Keeps nM Zs.length a' := by
  obtain ⟨h1, h2⟩ := h
  cases x with
  | row m =>
    change doRow env f thr2 Zs m a = .ok a' at e
    unfold doRow at e
    split at e
    · cases e
    · rename_i g _
      simp only at e
      generalize (if (env.pd a.cell.x g.lm).2 = true then (1 : K) else (env.pd a.cell.x g.lm).1) = p at e
      split at e
      · obtain ⟨t, e1, rfl⟩ := emap_ok e
        refine ⟨h1, foldlM_pres (Out nM Zs.length) _ (fun s q hq s' hs es => ?_) _ _ h2 e1⟩
        split at es
        · exact put_out es hx (mem_zipIdx_lt hq) hs
        · exact put_out es hx (mem_zipIdx_lt hq) hs
      · obtain ⟨t, e1, rfl⟩ := emap_ok e
        exact ⟨h1, foldlM_pres (Out nM Zs.length) _ (fun s q hq s' hs es => put_out es hx (mem_zipIdx_lt hq) hs) _ _ h2 e1⟩
  | col z =>
    change doCol env cfg Zs z a = .ok a' at e
    unfold doCol at e
    split at e
    · cases e
    · obtain ⟨sum, e1, e2⟩ := ebind_inv e
      simp only at e2
      split at e2
      · obtain ⟨t, e3, rfl⟩ := emap_ok e2
        refine ⟨?_, foldlM_pres (Out nM Zs.length) _ (fun s m hm s' hs es => ?_) _ _ h2 e3⟩
        · simp only
          split <;> exact h1
        · obtain ⟨p, e4, e5⟩ := ebind_inv es
          exact put_out e5 (by rw [← h1]; exact List.mem_range.1 hm) hx hs
      · cases e2
        refine ⟨?_, h2⟩
        simp only
        split <;> exact h1
  | weight =>
    cases e
    exact ⟨h1, h2⟩
  | add m z =>
    change doAdd m z a = .ok a' at e
    unfold doAdd at e
    obtain ⟨p, e1, e2⟩ := ebind_inv e
    split at e2
    · cases e2; exact ⟨h1, h2⟩
    · split at e2
      · obtain ⟨t, e3, rfl⟩ := emap_ok e2
        exact ⟨h1, put_out e3 hx.1 hx.2 h2⟩
      · cases e2; exact ⟨h1, h2⟩
  | miss m =>
    change doMiss cfg Zs.length m a = .ok a' at e
    unfold doMiss at e
    split at e
    · cases e
    · simp only at e
      split at e
      · obtain ⟨s, e3, rfl⟩ := emap_ok e
        exact ⟨h1, h2⟩
      · cases e; exact ⟨h1, h2⟩
  | use z =>
    change doUse z a = .ok a' at e
    unfold doUse at e
    obtain ⟨u, e1, rfl⟩ := emap_ok e
    split <;> exact ⟨h1, h2⟩

theorem acts_keep {env : Env X T Z K F} {cfg : TCfg K} {f : F} {thr2 : K} {Zs : List Z} {nM : Nat} {a a' : Work X T K} (h : Keeps nM Zs.length a)
    (e : (acts cfg.cluster nM Zs.length).foldlM (act env cfg f thr2 Zs) a = .ok a') : Keeps nM Zs.length a' :=
  foldlM_pres (Keeps nM Zs.length) _ (fun _ _ hx _ hs es => act_keeps (acts_in _ _ _ _ hx) hs es) _ _ h e

/-! ### Signs -/

section signs
variable [IsStrictOrderedRing K]

theorem entry_nonneg {s : Sensor T Z K} {thr : K} (hp : ∀ l, 0 ≤ (s.pd l).1) (hl : ∀ l z, 0 ≤ (s.kf l z).2.1) {g : Comp T K} (hg : 0 ≤ g.w) (z : Z) : 0 ≤ (entry s thr g z).2 := by
  have hpd : 0 ≤ Pd s g.lm := by
    unfold Pd
    split
    · exact zero_le_one
    · exact hp _
  unfold entry
  simp only
  split
  · split
    · exact le_rfl
    · exact mul_nonneg (mul_nonneg hpd hg) (hl _ _)
  · exact le_rfl

theorem foldl_ge (map : List (Comp T K)) (v : Comp T K → K) (hv : ∀ g ∈ map, 0 ≤ v g) : ∀ a : K, a ≤ map.foldl (fun a c => a + v c) a := by
  induction map with
  | nil => exact fun a => le_rfl
  | cons g l ih =>
    intro a
    have h1 := hv g List.mem_cons_self
    have h2 := ih (fun g hg => hv g (List.mem_cons_of_mem _ hg)) (a + v g)
    rw [List.foldl_cons]
    linarith

theorem foldl_ge_mem (map : List (Comp T K)) (v : Comp T K → K) (hv : ∀ g ∈ map, 0 ≤ v g) : ∀ a : K, 0 ≤ a → ∀ g ∈ map, v g ≤ map.foldl (fun a c => a + v c) a := by
  induction map with
  | nil => intro a _ g hg; cases hg
  | cons b l ih =>
    intro a ha g hg
    have h1 := hv b List.mem_cons_self
    rw [List.foldl_cons]
    rcases List.mem_cons.1 hg with rfl | hg
    · have := foldl_ge l v (fun g hg => hv g (List.mem_cons_of_mem _ hg)) (a + v g)
      linarith
    · exact ih (fun g hg => hv g (List.mem_cons_of_mem _ hg)) (a + v b) (by linarith) g hg

/-- A weight in the table is positive exactly if it was before it was divided by the sum. -/
theorem wTab_pos {s : Sensor T Z K} {thr : K} (hp : ∀ l, 0 ≤ (s.pd l).1) (hl : ∀ l z, 0 ≤ (s.kf l z).2.1) (hc : ∀ z n, 0 ≤ s.clutter z n) {map : List (Comp T K)} (hw : ∀ g ∈ map, 0 ≤ g.w)
    (n : Nat) {g : Comp T K} (hg : g ∈ map) (z : Z) : 0 < wTab s thr map n g z ↔ 0 < (entry s thr g z).2 := by
  have h1 := foldl_ge_mem map (fun c => (entry s thr c z).2) (fun c hc => entry_nonneg hp hl (hw c hc) z) (s.clutter z n) (hc z n) g hg
  have h0 := entry_nonneg (thr := thr) hp hl (hw g hg) z
  change (entry s thr g z).2 ≤ colSum s thr map n z at h1
  unfold wTab
  split
  · rename_i hs
    have hs' : 0 < colSum s thr map n z := lt_of_le_of_ne (le_trans h0 h1) (Ne.symm hs)
    rw [div_pos_iff_of_pos_right hs']
  · rfl

end signs

end PHDT
end RFS
