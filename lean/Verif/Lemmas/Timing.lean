import Verif.Model.Timing
import Mathlib.Tactic.Ring
import Mathlib.Tactic.Linarith

/-!
Lemmas on the model of timers.
-/

namespace RFS
namespace TimingProps
open Timing

/-- Whether timer `n` runs after the events, and what it was charged with. -/
def charge (n : Name) : Bool → List Ev → Bool × ℤ
  | r, [] => (r, 0)
  | r, .work d :: l => ((charge n r l).1, (if r then (d : ℤ) else 0) + (charge n r l).2)
  | r, .start m :: l => charge n (if m = n then true else r) l
  | r, .stop m :: l => charge n (if m = n then false else r) l
  | r, .resume m :: l => charge n (if m = n then true else r) l

theorem charge_append (n : Name) (r : Bool) (a b : List Ev) : charge n r (a ++ b) = ((charge n (charge n r a).1 b).1, (charge n r a).2 + (charge n (charge n r a).1 b).2) := by
  induction a generalizing r with
  | nil => simp [charge]
  | cons e a ih =>
    cases e <;> simp only [List.cons_append, charge, ih]
    ring_nf

theorem exec_append (a b : List Ev) (w : World) : exec (a ++ b) w = exec b (exec a w) := List.foldl_append ..

theorem exec_charge (n : Name) (evs : List Ev) (w : World) (h : Ev.start n ∉ evs) :
    ((exec evs w).tm n).stopped = !(charge n (!(w.tm n).stopped) evs).1 ∧ (exec evs w).elapsed n = w.elapsed n + (charge n (!(w.tm n).stopped) evs).2 := by
  induction evs generalizing w with
  | nil => simp [exec, charge]
  | cons e l ih =>
    have hl : Ev.start n ∉ l := fun hh => h (List.mem_cons_of_mem _ hh)
    have hx : exec (e :: l) w = exec l (step w e) := rfl
    rw [hx]
    obtain ⟨h1, h2⟩ := ih (step w e) hl
    cases e with
    | work d =>
      have hs : ((step w (.work d)).tm n).stopped = (w.tm n).stopped := rfl
      have he : (step w (.work d)).elapsed n = w.elapsed n + if (w.tm n).stopped then 0 else (d : ℤ) := by
        unfold World.elapsed step Tm.elapsed
        dsimp only
        cases (w.tm n).stopped <;> simp
        ring
      rw [hs] at h1 h2
      refine ⟨h1, ?_⟩
      rw [h2, he, charge]
      cases (w.tm n).stopped <;> simp <;> ring
    | start m =>
      have hmn : m ≠ n := fun hh => h (by rw [hh]; exact List.mem_cons_self)
      have hs : (step w (.start m)).tm n = w.tm n := by
        show (if n = m then _ else w.tm n) = _
        rw [if_neg (Ne.symm hmn)]
      have he : (step w (.start m)).elapsed n = w.elapsed n := by
        unfold World.elapsed
        rw [hs]
        rfl
      rw [hs] at h1 h2
      rw [he] at h2
      simp only [charge, if_neg hmn]
      exact ⟨h1, h2⟩
    | stop m =>
      by_cases hmn : m = n
      · subst hmn
        have hs : (step w (.stop m)).tm m = (w.tm m).stop w.now := by
          show (if m = m then _ else w.tm m) = _
          rw [if_pos rfl]
        have hst : ((w.tm m).stop w.now).stopped = true := by
          unfold Tm.stop
          cases hq : (w.tm m).stopped <;> simp [hq]
        have he : (step w (.stop m)).elapsed m = w.elapsed m := by
          unfold World.elapsed
          rw [hs]
          show ((w.tm m).stop w.now).elapsed w.now = _
          unfold Tm.stop Tm.elapsed
          cases hq : (w.tm m).stopped <;> simp [hq]
        rw [hs, hst] at h1 h2
        rw [he] at h2
        simp only [charge, if_true]
        exact ⟨h1, h2⟩
      · have hs : (step w (.stop m)).tm n = w.tm n := by
          show (if n = m then _ else w.tm n) = _
          rw [if_neg (Ne.symm hmn)]
        have he : (step w (.stop m)).elapsed n = w.elapsed n := by
          unfold World.elapsed
          rw [hs]
          rfl
        rw [hs] at h1 h2
        rw [he] at h2
        simp only [charge, if_neg hmn]
        exact ⟨h1, h2⟩
    | resume m =>
      by_cases hmn : m = n
      · subst hmn
        have hs : (step w (.resume m)).tm m = (w.tm m).resume w.now := by
          show (if m = m then _ else w.tm m) = _
          rw [if_pos rfl]
        have hst : ((w.tm m).resume w.now).stopped = false := by
          unfold Tm.resume
          cases hq : (w.tm m).stopped <;> simp [hq]
        have he : (step w (.resume m)).elapsed m = w.elapsed m := by
          unfold World.elapsed
          rw [hs]
          show ((w.tm m).resume w.now).elapsed w.now = _
          unfold Tm.resume Tm.elapsed
          cases hq : (w.tm m).stopped <;> simp [hq]
        rw [hs, hst] at h1 h2
        rw [he] at h2
        simp only [charge, if_true]
        exact ⟨h1, h2⟩
      · have hs : (step w (.resume m)).tm n = w.tm n := by
          show (if n = m then _ else w.tm n) = _
          rw [if_neg (Ne.symm hmn)]
        have he : (step w (.resume m)).elapsed n = w.elapsed n := by
          unfold World.elapsed
          rw [hs]
          rfl
        rw [hs] at h1 h2
        rw [he] at h2
        simp only [charge, if_neg hmn]
        exact ⟨h1, h2⟩

/-- Time that passes. -/
def passed : List Ev → ℤ
  | [] => 0
  | .work d :: l => d + passed l
  | _ :: l => passed l

theorem passed_append (a b : List Ev) : passed (a ++ b) = passed a + passed b := by
  induction a with
  | nil => simp [passed]
  | cons e a ih => cases e <;> simp only [List.cons_append, passed, ih]; ring

theorem exec_now (evs : List Ev) (w : World) : (exec evs w).now = w.now + passed evs := by
  induction evs generalizing w with
  | nil => simp [exec, passed]
  | cons e l ih =>
    have hx : exec (e :: l) w = exec l (step w e) := rfl
    rw [hx, ih]
    cases e <;> simp only [step, passed]
    ring

/-- Lists of pieces each of which leaves the timer as it was. -/
theorem charge_flatMap {α : Type*} (n : Name) (r : Bool) (g : α → List Ev) (v : α → ℤ) (l : List α) (h : ∀ a ∈ l, charge n r (g a) = (r, v a)) : charge n r (l.flatMap g) = (r, (l.map v).sum) := by
  induction l with
  | nil => simp [charge]
  | cons a l ih =>
    rw [List.flatMap_cons, charge_append, h a List.mem_cons_self]
    dsimp only
    rw [ih fun b hb => h b (List.mem_cons_of_mem _ hb)]
    simp

/-- Events that are time, or calls of other timers, or `stop` of the timer when it is stopped. -/
theorem charge_par (n : Name) (r : Bool) (par : List Ev) (h : ∀ e ∈ par, (∃ d, e = .work d) ∨ ∃ m, e = .stop m ∧ (m ≠ n ∨ r = false)) : charge n r par = (r, if r then passed par else 0) := by
  induction par with
  | nil => cases r <;> rfl
  | cons e l ih =>
    have ih' := ih fun b hb => h b (List.mem_cons_of_mem _ hb)
    rcases h e List.mem_cons_self with ⟨d, rfl⟩ | ⟨m, rfl, hm⟩
    · rw [charge, ih']
      cases r <;> simp [passed]
    · rw [charge]
      have : (if m = n then false else r) = r := by
        rcases hm with hm | hm
        · rw [if_neg hm]
        · subst hm; simp
      rw [this, ih']
      cases r <;> rfl

end TimingProps
end RFS
