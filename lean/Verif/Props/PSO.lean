import Verif.Lemmas.PSO
import Mathlib.Tactic.Linarith
import Mathlib.Tactic.NormNum
import Mathlib.Tactic.FinCases
import Mathlib.Data.Fintype.Pi
import Mathlib.Data.Fin.VecNotation

/-!
Properties C54, C55, C101-C105: particle swarm SLAM, `RFSPSOSLAM`.

Specification: the schedule of the parallel loop is any order that OpenMP allows; the likelihood, the random numbers, the distance and the assignments between
maps are arbitrary.
-/

set_option linter.unusedSectionVars false

namespace RFS
namespace PSOProps
open PSO

/-! ### C54 -/

variable {n : Nat} {Λ : Type} [LinearOrder Λ]

/-- **C54**, the full statement: whatever the schedule, no data race and the selected particle has the greatest likelihood. -/
def C54_full : Prop := ∀ (n : Nat) (h0 : 0 < n) (thread : Fin n → Nat) (val old : Fin n → Int) (sched : List (Ev n)), Schedule thread sched →
  (evRun thread val old h0 sched).race = false ∧ ∀ i, val i ≤ val (evRun thread val old h0 sched).besti

/-- **C54**, the part that holds: if the likelihood of the particle selected so far is never read by an unsynchronised thread, the particle selected has the
greatest likelihood. Missing: schedules in which iterations of other threads finish before iteration 0 (`C54_violated`). -/
theorem C54_best_partial (h0 : 0 < n) (thread : Fin n → Nat) (val old : Fin n → Λ) (sched : List (Ev n)) (hs : Schedule thread sched)
    (hr : (evRun thread val old h0 sched).race = false) (i : Fin n) : val i ≤ val (evRun thread val old h0 sched).besti :=
  (ev_best hs sched [] (by simp) hr i (hs.all _)).2

/-- **C54** for a single thread: no race. -/
theorem C54_one_thread_partial (h0 : 0 < n) (thread : Fin n → Nat) (val old : Fin n → Λ) (sched : List (Ev n)) (hs : Schedule thread sched)
    (h1 : ∀ i j, thread i = thread j) :
    (evRun thread val old h0 sched).race = false ∧ ∀ i, val i ≤ val (evRun thread val old h0 sched).besti := by
  have hr : ∀ l : List (Ev n), (evRun thread val old h0 l).race = false := by
    intro l
    induction l using List.reverseRecOn with
    | nil => rfl
    | append_singleton l e ih =>
      rw [evRun_append]
      cases e with
      | eval j => exact ih
      | crit j => simp [evStep, ih, h1 (evRun thread val old h0 l).besti j]
  exact ⟨hr sched, C54_best_partial h0 thread val old sched hs (hr sched)⟩

/-- **C54**: also with a race, in the sense of some interleaving of the reads and writes, the particle is a best one if the first particle's likelihood has not
become smaller since the last evaluation, in particular at the first evaluation. -/
theorem C54_first_partial (h0 : 0 < n) (thread : Fin n → Nat) (val old : Fin n → Λ) (sched : List (Ev n)) (hs : Schedule thread sched)
    (hold : old ⟨0, h0⟩ ≤ val ⟨0, h0⟩) (i : Fin n) : val i ≤ val (evRun thread val old h0 sched).besti := by
  have h := ev_best_old hs sched [] (by simp) hold i (hs.all _)
  have h2 := (evInv_run (thread := thread) (val := val) (old := old) (h0 := h0) sched).cur (evRun thread val old h0 sched).besti
  rwa [h2, if_pos (hs.all _)] at h

/-- Two particles, two threads, the second iteration first. -/
def badSched : List (Ev 2) := [.eval 1, .crit 1, .eval 0, .crit 0]

theorem badSched_ok : Schedule (fun i : Fin 2 => i.1) badSched := by
  refine ⟨by decide, ?_, ?_, ?_⟩
  · intro e
    cases e with
    | eval i => fin_cases i <;> decide
    | crit i => fin_cases i <;> decide
  · intro i; fin_cases i <;> decide
  · intro i j h hij
    have : i = j := Fin.ext h
    exact absurd hij (by rw [this]; exact lt_irrefl _)

/-- **C54** is false of the code: the second particle is compared with the first particle's likelihood of the previous round. -/
theorem C54_violated : ¬ C54_full := by
  intro h
  have := (h 2 (by decide) (fun i => i.1) ![1, 5] ![10, 0] badSched badSched_ok).2 1
  exact absurd this (by decide +kernel)

/-- The same schedule: the race is there, and the particle selected has likelihood 1 although the other has 5. -/
theorem C54_violated_race : (evRun (fun i : Fin 2 => i.1) ![(1 : Int), 5] ![10, 0] (by decide) badSched).race = true ∧
    (evRun (fun i : Fin 2 => i.1) ![(1 : Int), 5] ![10, 0] (by decide) badSched).besti = 0 := by decide +kernel

/-- Non-trivial instance: two threads, the first iteration first. -/
example : Schedule (fun i : Fin 2 => i.1) [.eval 0, .eval 1, .crit 0, .crit 1] ∧
    (evRun (fun i : Fin 2 => i.1) ![(1 : Int), 5] ![10, 0] (by decide) [.eval 0, .eval 1, .crit 0, .crit 1]).race = false := by
  refine ⟨⟨by decide, ?_, ?_, ?_⟩, by decide +kernel⟩
  · intro e
    cases e with
    | eval i => fin_cases i <;> decide
    | crit i => fin_cases i <;> decide
  · intro i; fin_cases i <;> decide
  · intro i j h hij
    have : i = j := Fin.ext h
    exact absurd hij (by rw [this]; exact lt_irrefl _)

/-! ### C101 -/

variable {T L : Type}

/-- One round: particles get new trajectories, maps and velocities, and are evaluated under a schedule. -/
structure Round (n : Nat) (T L : Type) where
  move : Fin n → T × List L × List L
  thread : Fin n → Nat
  sched : List (Ev n)

/-- The particles after the move. -/
def moved (r : Round n T L) (o : Obj n T L Λ) : Obj n T L Λ :=
  { o with parts := fun i => { o.parts i with traj := (r.move i).1, lms := (r.move i).2.1, vel := (r.move i).2.2 } }

/-- A run: the object and whether there was a race. -/
def runRounds (lik : T → List L → Λ) (h0 : 0 < n) (o : Obj n T L Λ) : List (Round n T L) → Obj n T L Λ × Bool
  | [] => (o, false)
  | r :: rs =>
    let s := evaluate lik r.thread h0 r.sched (moved r o)
    let t := runRounds lik h0 s.1 rs
    (t.1, s.2 || t.2)

theorem evalPart_cur (lik : T → List L → Λ) (p : Part T L Λ) : (evalPart lik p).cur = lik p.traj p.lms := by
  unfold evalPart; simp only; split <;> rfl

theorem evalPart_pos (lik : T → List L → Λ) (p : Part T L Λ) : (evalPart lik p).traj = p.traj ∧ (evalPart lik p).lms = p.lms ∧ (evalPart lik p).vel = p.vel := by
  unfold evalPart; simp only; split <;> exact ⟨rfl, rfl, rfl⟩

theorem evaluate_parts (lik : T → List L → Λ) (thread : Fin n → Nat) (h0 : 0 < n) (sched : List (Ev n)) (o : Obj n T L Λ) (i : Fin n) :
    (evaluate lik thread h0 sched o).1.parts i = evalPart lik (o.parts i) := by
  unfold evaluate; simp only; split <;> rfl

theorem evalPart_best (lik : T → List L → Λ) (p : Part T L Λ) : p.best ≤ (evalPart lik p).best ∧ lik p.traj p.lms ≤ (evalPart lik p).best ∧
    ((evalPart lik p).best = p.best ∧ (evalPart lik p).bestTraj = p.bestTraj ∧ (evalPart lik p).bestLms = p.bestLms ∧ (evalPart lik p).bestVel = p.bestVel ∨
      (evalPart lik p).best = lik p.traj p.lms ∧ (evalPart lik p).bestTraj = p.traj ∧ (evalPart lik p).bestLms = p.lms ∧ (evalPart lik p).bestVel = p.vel) := by
  unfold evalPart
  simp only
  split
  · rename_i h
    exact ⟨h.le, le_refl _, Or.inr ⟨rfl, rfl, rfl, rfl⟩⟩
  · rename_i h
    exact ⟨le_refl _, not_lt.1 h, Or.inl ⟨rfl, rfl, rfl, rfl⟩⟩

/-- **C101**, personal best: after any run, under any schedules, a particle's best likelihood is the greatest of its likelihoods so far, and its best trajectory
and map are those of that round (those it started with if no round was better). -/
theorem C101_personal_best (lik : T → List L → Λ) (h0 : 0 < n) (rs : List (Round n T L)) (i : Fin n) : ∀ o : Obj n T L Λ,
    let p := (runRounds lik h0 o rs).1.parts i
    (o.parts i).best ≤ p.best ∧ (∀ r ∈ rs, lik (r.move i).1 (r.move i).2.1 ≤ p.best) ∧
    ((p.best = (o.parts i).best ∧ p.bestTraj = (o.parts i).bestTraj ∧ p.bestLms = (o.parts i).bestLms ∧ p.bestVel = (o.parts i).bestVel) ∨
      ∃ r ∈ rs, p.best = lik (r.move i).1 (r.move i).2.1 ∧ p.bestTraj = (r.move i).1 ∧ p.bestLms = (r.move i).2.1 ∧ p.bestVel = (r.move i).2.2) := by
  induction rs with
  | nil => intro o; exact ⟨le_refl _, by simp, Or.inl ⟨rfl, rfl, rfl, rfl⟩⟩
  | cons r rs ih =>
    intro o
    have h := ih (evaluate lik r.thread h0 r.sched (moved r o)).1
    have e := evalPart_best lik ((moved r o).parts i)
    rw [← evaluate_parts lik r.thread h0 r.sched (moved r o) i] at e
    simp only [runRounds]
    refine ⟨e.1.trans h.1, ?_, ?_⟩
    · intro r' hr'
      rcases List.mem_cons.1 hr' with rfl | hr'
      · exact e.2.1.trans h.1
      · exact h.2.1 r' hr'
    · rcases h.2.2 with h2 | ⟨r', hr', h2⟩
      · rcases e.2.2 with e2 | e2
        · exact Or.inl ⟨h2.1.trans e2.1, h2.2.1.trans e2.2.1, h2.2.2.1.trans e2.2.2.1, h2.2.2.2.trans e2.2.2.2⟩
        · exact Or.inr ⟨r, List.mem_cons_self .., h2.1.trans e2.1, h2.2.1.trans e2.2.1, h2.2.2.1.trans e2.2.2.1, h2.2.2.2.trans e2.2.2.2⟩
      · exact Or.inr ⟨r', List.mem_cons_of_mem _ hr', h2⟩

/-- **C101**, the best particle: it never gets worse, whatever the schedules, and is one that was evaluated. -/
theorem C101_best_monotone (lik : T → List L → Λ) (h0 : 0 < n) (rs : List (Round n T L)) : ∀ o : Obj n T L Λ,
    let b := (runRounds lik h0 o rs).1.bestP
    o.bestP.cur ≤ b.cur ∧ (b = o.bestP ∨ ∃ r ∈ rs, ∃ i, b.traj = (r.move i).1 ∧ b.lms = (r.move i).2.1 ∧ b.cur = lik b.traj b.lms ∧ o.bestP.cur < b.cur) := by
  induction rs with
  | nil => intro o; exact ⟨le_refl _, Or.inl rfl⟩
  | cons r rs ih =>
    intro o
    have h := ih (evaluate lik r.thread h0 r.sched (moved r o)).1
    simp only [runRounds]
    have key : o.bestP.cur ≤ (evaluate lik r.thread h0 r.sched (moved r o)).1.bestP.cur ∧ ((evaluate lik r.thread h0 r.sched (moved r o)).1.bestP = o.bestP ∨
        ∃ i, (evaluate lik r.thread h0 r.sched (moved r o)).1.bestP = evalPart lik ((moved r o).parts i) ∧
          o.bestP.cur < (evaluate lik r.thread h0 r.sched (moved r o)).1.bestP.cur) := by
      unfold evaluate
      simp only
      split
      · rename_i hlt; exact ⟨le_of_lt hlt, Or.inr ⟨_, rfl, hlt⟩⟩
      · exact ⟨le_refl _, Or.inl rfl⟩
    refine ⟨key.1.trans h.1, ?_⟩
    rcases h.2 with h2 | ⟨r', hr', i, h2⟩
    · rcases key.2 with k | ⟨i, k, klt⟩
      · exact Or.inl (h2.trans k)
      · refine Or.inr ⟨r, List.mem_cons_self .., i, ?_⟩
        rw [h2, k]
        have hp := evalPart_pos lik ((moved r o).parts i)
        refine ⟨hp.1, hp.2.1, ?_, by rw [← k]; exact klt⟩
        rw [evalPart_cur, hp.1, hp.2.1]
    · exact Or.inr ⟨r', List.mem_cons_of_mem _ hr', i, h2.1, h2.2.1, h2.2.2.1, lt_of_le_of_lt key.1 h2.2.2.2⟩

theorem evaluate_ge (lik : T → List L → Λ) (thread : Fin n → Nat) (h0 : 0 < n) (sched : List (Ev n)) (hs : Schedule thread sched) (o : Obj n T L Λ)
    (ho : (o.parts ⟨0, h0⟩).cur ≤ o.bestP.cur) (i : Fin n) : lik (o.parts i).traj (o.parts i).lms ≤ (evaluate lik thread h0 sched o).1.bestP.cur := by
  have h := ev_best_any (val := fun i => lik (o.parts i).traj (o.parts i).lms) (old := fun i => (o.parts i).cur) (h0 := h0) hs sched [] (by simp) i (hs.all _)
  have h2 := (evInv_run (thread := thread) (val := fun i => lik (o.parts i).traj (o.parts i).lms) (old := fun i => (o.parts i).cur) (h0 := h0) sched).cur
    (evRun thread (fun i => lik (o.parts i).traj (o.parts i).lms) (fun i => (o.parts i).cur) h0 sched).besti
  rw [if_pos (hs.all _)] at h2
  rw [h2] at h
  unfold evaluate
  simp only
  split
  · rename_i hlt
    simp only [evalPart_cur] at hlt ⊢
    exact h.elim id fun h => (h.trans ho).trans hlt.le
  · rename_i hlt
    simp only [evalPart_cur] at hlt
    exact h.elim (fun h => h.trans (not_lt.1 hlt)) fun h => h.trans ho

/-- **C101**, the best particle of a run: it is at least as good as every particle of every round, whatever the schedules. A round that selects a wrong particle
(`C54_violated`) does so because of a likelihood of the first particle that an earlier round has recorded. At the start all likelihoods are minus infinity. -/
theorem C101_best_of_run (lik : T → List L → Λ) (h0 : 0 < n) (rs : List (Round n T L)) (hs : ∀ r ∈ rs, Schedule r.thread r.sched) :
    ∀ o : Obj n T L Λ, (o.parts ⟨0, h0⟩).cur ≤ o.bestP.cur → ∀ r ∈ rs, ∀ i, lik (r.move i).1 (r.move i).2.1 ≤ (runRounds lik h0 o rs).1.bestP.cur := by
  induction rs with
  | nil => intro o _ r hr; cases hr
  | cons r rs ih =>
    intro o ho r' hr' i
    have hge := evaluate_ge lik r.thread h0 r.sched (hs r (List.mem_cons_self ..)) (moved r o) ho
    simp only [runRounds]
    rcases List.mem_cons.1 hr' with rfl | hr'
    · exact (hge i).trans (C101_best_monotone lik h0 rs _).1
    · refine ih (fun r hr => hs r (List.mem_cons_of_mem _ hr)) _ ?_ r' hr' i
      rw [evaluate_parts, evalPart_cur]
      exact hge _

/-- The hypotheses are met by a run with the race of `C54_violated`: the second round selects the first particle (1) though the other has 5; the best is the 10 of the first round. -/
example : Schedule (fun i : Fin 2 => i.1) badSched ∧ (runRounds (Λ := Int) (fun (t : Int) (_ : List Int) => t) (n := 2) (by decide)
    ⟨fun _ => ⟨0, [], [], 0, [], [], -9, -9⟩, ⟨0, [], [], 0, [], [], -9, -9⟩, false⟩
    [⟨fun i => (![10, 0] i, [], []), fun i => i.1, badSched⟩, ⟨fun i => (![1, 5] i, [], []), fun i => i.1, badSched⟩]).1.bestP.cur = 10 := ⟨badSched_ok, by decide +kernel⟩

/-- Non-trivial instance: one particle, two rounds; the second is worse and changes nothing. -/
example : ((runRounds (Λ := Int) (fun (t : Int) (_ : List Int) => t) (n := 1) (by decide)
    ⟨fun _ => ⟨0, [], [], 0, [], [], -9, -9⟩, ⟨0, [], [], 0, [], [], -9, -9⟩, false⟩
    [⟨fun _ => (4, [7], [1]), fun _ => 0, [.eval 0, .crit 0]⟩, ⟨fun _ => (3, [8], [1]), fun _ => 0, [.eval 0, .crit 0]⟩]).1.bestP.lms) = [7] := by decide +kernel

/-! ### C55 -/

variable {K : Type} [Field K] [LinearOrder K] {d : Nat}

/-- **C55**: the loop removes exactly the flagged landmarks, each with its velocity, for every pattern of flags. -/
theorem C55_removal {α : Type} (del : List Bool) (lms vel : List α) (h : vel.length = lms.length) :
    let r := removeLoop del lms.length (lms, vel)
    r.1.length = r.2.length ∧
      (r.1.zip r.2).Perm (((lms.zip vel).zipIdx.filter fun x => decide (del[x.2]? ≠ some true)).map Prod.fst) := by
  intro r
  have hr : r = (rem1 del lms.length lms, rem1 del lms.length vel) := removeLoop_eq del _ _
  rw [hr]
  refine ⟨rem1_length del _ _ _ h.symm, ?_⟩
  simp only
  rw [rem1_zip del _ _ _ h.symm]
  have := rem1_perm del (lms.zip vel) []
  simp only [List.append_nil, List.length_zip, h, Nat.min_self] at this
  exact this

/-- Non-trivial instance. -/
example : removeLoop [true, false, true, false] 4 ([1, 2, 3, 4], [10, 20, 30, 40]) = ([4, 2], [40, 20]) := by decide +kernel

/-- Specification: the pull on a landmark by landmark `j` of a best map, if there is one nearer than `c`. -/
noncomputable def pull (c : K) (dist : (Fin d → K) → (Fin d → K) → K) (best : List (Fin d → K)) (j : Nat) (phi : K) (r lm : Fin d → K) : Fin d → K :=
  match best[j]? with
  | none => 0
  | some b => open Classical in if dist b lm < c then fun k => phi * r k * (b k - lm k) else 0

theorem own_vel (cfg : Cfg K) (dist : (Fin d → K) → (Fin d → K) → K) (rnd : Nat → K) (best : List (Fin d → K)) (j : Nat) (lm v : Fin d → K) (pos : Nat) :
    ∃ r : Fin d → K, (∀ k, r k ∈ Set.range rnd) ∧ (ownPart cfg dist rnd best j lm v pos).1 = v + pull cfg.c dist best j cfg.phiP r lm := by
  refine ⟨fun k => rnd (pos + 1 + k), fun k => ⟨_, rfl⟩, ?_⟩
  unfold ownPart pull
  cases h : best[j]? with
  | none => simp
  | some b =>
    by_cases hc : cfg.c ≤ dist b lm
    · simp [hc, not_lt.2 hc]
    · simp only [hc, if_false, not_le.1 hc, if_true]
      rfl

theorem global_vel (cfg : Cfg K) (dist : (Fin d → K) → (Fin d → K) → K) (rnd : Nat → K) (best : List (Fin d → K)) (j : Nat) (lm v : Fin d → K) (pos : Nat) :
    ∃ r : Fin d → K, (∀ k, r k ∈ Set.range rnd) ∧ (globalPart cfg dist rnd best j lm v pos).1 = v + pull cfg.c dist best j cfg.phiG r lm := by
  refine ⟨fun k => rnd (pos + k), fun k => ⟨_, rfl⟩, ?_⟩
  unfold globalPart pull
  cases h : best[j]? with
  | none => simp
  | some b =>
    by_cases hc : cfg.c ≤ dist b lm
    · simp [hc, not_lt.2 hc]
    · simp only [hc, if_false, not_le.1 hc, if_true]
      rfl

theorem own_flag (cfg : Cfg K) (dist : (Fin d → K) → (Fin d → K) → K) (rnd : Nat → K) (best : List (Fin d → K)) (j : Nat) (lm v : Fin d → K) (pos : Nat)
    (h : (ownPart cfg dist rnd best j lm v pos).2.1 = true) :
    (Near cfg.c dist best j lm ∧ ∃ k, rnd k < 1 / 20) ∨ (¬ Near cfg.c dist best j lm ∧ ∃ k, rnd k < cfg.cardP) := by
  unfold ownPart at h
  cases hb : best[j]? with
  | none =>
    simp only [hb, decide_eq_true_eq] at h
    exact Or.inr ⟨fun ⟨b, hb', _⟩ => (by rw [hb] at hb'; cases hb'), _, h⟩
  | some b =>
    simp only [hb] at h
    by_cases hc : cfg.c ≤ dist b lm
    · simp only [hc, if_true, decide_eq_true_eq] at h
      refine Or.inr ⟨fun ⟨b', hb', hlt⟩ => ?_, _, h⟩
      rw [hb] at hb'; cases hb'
      exact absurd hlt (not_lt.2 hc)
    · simp only [hc, if_false, decide_eq_true_eq] at h
      exact Or.inl ⟨⟨b, hb, not_le.1 hc⟩, _, h⟩

theorem global_flag (cfg : Cfg K) (dist : (Fin d → K) → (Fin d → K) → K) (rnd : Nat → K) (best : List (Fin d → K)) (j : Nat) (lm v : Fin d → K) (pos : Nat)
    (h : (globalPart cfg dist rnd best j lm v pos).2.1 = true) : ¬ Near cfg.c dist best j lm ∧ ∃ k, rnd k < cfg.cardG := by
  unfold globalPart at h
  cases hb : best[j]? with
  | none =>
    simp only [hb, decide_eq_true_eq] at h
    exact ⟨fun ⟨b, hb', _⟩ => (by rw [hb] at hb'; cases hb'), _, h⟩
  | some b =>
    simp only [hb] at h
    by_cases hc : cfg.c ≤ dist b lm
    · simp only [hc, if_true, decide_eq_true_eq] at h
      refine ⟨fun ⟨b', hb', hlt⟩ => ?_, _, h⟩
      rw [hb] at hb'; cases hb'
      exact absurd hlt (not_lt.2 hc)
    · simp [hc] at h

theorem flag_if (cfg : Cfg K) (dist : (Fin d → K) → (Fin d → K) → K) (rnd : Nat → K) (own glob : List (Fin d → K)) (j j' : Nat) (lm v v' : Fin d → K) (p p' : Nat)
    (h1 : ∀ k, rnd k < cfg.cardP) (h2 : ∀ k, rnd k < cfg.cardG) (hn : ¬ Near cfg.c dist own j lm ∨ ¬ Near cfg.c dist glob j' lm) :
    ((ownPart cfg dist rnd own j lm v p).2.1 || (globalPart cfg dist rnd glob j' lm v' p').2.1) = true := by
  rcases hn with hn | hn
  · have : (ownPart cfg dist rnd own j lm v p).2.1 = true := by
      unfold ownPart
      cases hb : own[j]? with
      | none => simp [h1]
      | some b =>
        have : cfg.c ≤ dist b lm := not_lt.1 fun hlt => hn ⟨b, hb, hlt⟩
        simp [this, h1]
    simp [this]
  · have : (globalPart cfg dist rnd glob j' lm v' p').2.1 = true := by
      unfold globalPart
      cases hb : glob[j']? with
      | none => simp [h2]
      | some b =>
        have : cfg.c ≤ dist b lm := not_lt.1 fun hlt => hn ⟨b, hb, hlt⟩
        simp [this, h2]
    simp [this]

/-- **C55** for the whole of `updateLandmarkVelocity`: it accesses nothing out of range; the new map consists of the landmarks that were not removed, each with
its own new velocity, followed by landmarks of the two best maps, each with its own velocity and each from an index no landmark was matched with. The new
velocity is the old one times the inertia plus the pulls of the matched landmarks. A landmark is removed only by a random number below the probability that
applies to it, and an unmatched one is removed, and an unmatched one of a best map is added, if all random numbers are below. -/
theorem C55_update (cfg : Cfg K) (dist : (Fin d → K) → (Fin d → K) → K) (rnd : Nat → K) (sp sg : Nat → Nat) (own ownVel glob globVel : List (Fin d → K))
    (lms vel : List (Fin d → K)) (pos : Nat) (hv : vel.length = lms.length) (ho : ownVel.length = own.length) (hg : globVel.length = glob.length) :
    ∃ (l' v' : List (Fin d → K)) (p : Nat) (del : Nat → Prop) (nv : List (Fin d → K)) (kept : List ((Fin d → K) × (Fin d → K))) (cP cG : List Nat),
      updateVel cfg dist rnd sp sg own ownVel glob globVel lms vel pos = some (l', v', p) ∧
      l'.length = v'.length ∧ nv.length = lms.length ∧
      l'.zip v' = kept ++ (cP.filterMap (own[·]?)).zip (cP.filterMap (ownVel[·]?)) ++ (cG.filterMap (glob[·]?)).zip (cG.filterMap (globVel[·]?)) ∧
      (open Classical in kept.Perm (((lms.zip nv).zipIdx.filter fun x => decide (¬ del x.2)).map Prod.fst)) ∧
      (∀ (i : Nat) (lm v : Fin d → K), lms[i]? = some lm → vel[i]? = some v → ∃ r r' : Fin d → K, (∀ k, r k ∈ Set.range rnd) ∧ (∀ k, r' k ∈ Set.range rnd) ∧
        nv[i]? = some ((fun k => v k * cfg.w) + pull cfg.c dist own (sp i) cfg.phiP r lm + pull cfg.c dist glob (sg i) cfg.phiG r' lm)) ∧
      (∀ (i : Nat) (lm : Fin d → K), lms[i]? = some lm → del i → (Near cfg.c dist own (sp i) lm ∧ ∃ k, rnd k < 1 / 20) ∨
        (¬ Near cfg.c dist own (sp i) lm ∧ ∃ k, rnd k < cfg.cardP) ∨ (¬ Near cfg.c dist glob (sg i) lm ∧ ∃ k, rnd k < cfg.cardG)) ∧
      (∀ (i : Nat) (lm : Fin d → K), lms[i]? = some lm → (∀ k, rnd k < cfg.cardP) → (∀ k, rnd k < cfg.cardG) →
        ¬ Near cfg.c dist own (sp i) lm ∨ ¬ Near cfg.c dist glob (sg i) lm → del i) ∧
      (cP.Sublist (List.range own.length) ∧ (∀ j ∈ cP, ∀ (i : Nat) (lm : Fin d → K), lms[i]? = some lm → sp i = j → ¬ Near cfg.c dist own j lm) ∧
        (cP ≠ [] → ∃ k, rnd k < cfg.cardP) ∧ ((∀ k, rnd k < cfg.cardP) → ∀ j < own.length,
          (∀ (i : Nat) (lm : Fin d → K), lms[i]? = some lm → sp i = j → ¬ Near cfg.c dist own j lm) → j ∈ cP)) ∧
      (cG.Sublist (List.range glob.length) ∧ (∀ j ∈ cG, ∀ (i : Nat) (lm : Fin d → K), lms[i]? = some lm → sg i = j → ¬ Near cfg.c dist glob j lm) ∧
        (cG ≠ [] → ∃ k, rnd k < cfg.cardG) ∧ ((∀ k, rnd k < cfg.cardG) → ∀ j < glob.length,
          (∀ (i : Nat) (lm : Fin d → K), lms[i]? = some lm → sg i = j → ¬ Near cfg.c dist glob j lm) → j ∈ cG)) := by
  obtain ⟨s, hs, hi⟩ := velLoop cfg dist rnd lms own glob vel sp sg pos hv lms.length le_rfl
  have hsl : s.vel.length = lms.length := hi.lv.trans hv
  obtain ⟨hr1, hr2⟩ := C55_removal s.del lms s.vel hsl
  set r := removeLoop s.del lms.length (lms, s.vel) with hr
  obtain ⟨cP, p1, a1, a2, a3, a4, a5⟩ := addLoop_spec cfg.cardP rnd s.addP own ownVel ho r.1 r.2 s.pos
  obtain ⟨cG, p2, b1, b2, b3, b4, b5⟩ := addLoop_spec cfg.cardG rnd s.addG glob globVel hg (r.1 ++ cP.filterMap (own[·]?)) (r.2 ++ cP.filterMap (ownVel[·]?)) p1
  have len : ∀ (ch : List Nat) (a b : List (Fin d → K)), b.length = a.length → (ch.filterMap (a[·]?)).length = (ch.filterMap (b[·]?)).length := by
    intro ch a b hab
    induction ch with
    | nil => rfl
    | cons c ch ih =>
      by_cases hc : c < a.length
      · have h1 : a[c]? = some a[c] := List.getElem?_eq_getElem hc
        have h2 : b[c]? = some b[c] := List.getElem?_eq_getElem (by omega)
        simp [h1, h2, ih]
      · have h1 : a[c]? = none := List.getElem?_eq_none (by omega)
        have h2 : b[c]? = none := List.getElem?_eq_none (by omega)
        simp [h1, h2, ih]
  have lP := len cP own ownVel ho
  have lG := len cG glob globVel hg
  have bnd : ∀ {α : Type} (l : List α) (i : Nat) (x : α), l[i]? = some x → i < l.length := fun l i x h => (List.getElem?_eq_some_iff.1 h).1
  refine ⟨r.1 ++ cP.filterMap (own[·]?) ++ cG.filterMap (glob[·]?), r.2 ++ cP.filterMap (ownVel[·]?) ++ cG.filterMap (globVel[·]?), p2, fun i => s.del[i]? = some true, s.vel, r.1.zip r.2, cP, cG, ?_, ?_, hsl, ?_, ?_, ?_, ?_, ?_, ⟨a2, ?_, a4, ?_⟩, ⟨b2, ?_, b4, ?_⟩⟩
  · unfold updateVel
    rw [hs]
    simp only [Option.bind_some]
    rw [← hr, a1]
    simp only [Option.bind_some]
    exact b1
  · simp only [List.length_append, hr1, lP, lG]
  · rw [List.zip_append (by simp only [List.length_append, hr1, lP]), List.zip_append hr1]
  · convert hr2 using 5
  · intro i lm v h1 h2
    obtain ⟨p, h3, -⟩ := hi.new i lm v (bnd _ _ _ h1) h1 h2
    obtain ⟨ra, hra, ea⟩ := own_vel cfg dist rnd own (sp i) lm (fun k => v k * cfg.w) p
    obtain ⟨rb, hrb, eb⟩ := global_vel cfg dist rnd glob (sg i) lm (ownPart cfg dist rnd own (sp i) lm (fun k => v k * cfg.w) p).1
      (ownPart cfg dist rnd own (sp i) lm (fun k => v k * cfg.w) p).2.2.2
    refine ⟨ra, rb, hra, hrb, ?_⟩
    rw [h3, eb, ea]
  · intro i lm h1 h2
    have hil := bnd _ _ _ h1
    obtain ⟨p, -, h4⟩ := hi.new i lm _ hil h1 (List.getElem?_eq_getElem (by omega : i < vel.length))
    rw [h4] at h2
    simp only [Option.some.injEq, Bool.or_eq_true] at h2
    rcases h2 with h2 | h2
    · rcases own_flag _ _ _ _ _ _ _ _ h2 with h | h
      · exact Or.inl h
      · exact Or.inr (Or.inl h)
    · exact Or.inr (Or.inr (global_flag _ _ _ _ _ _ _ _ h2))
  · intro i lm h1 c1 c2 hn
    have hil := bnd _ _ _ h1
    obtain ⟨p, -, h4⟩ := hi.new i lm _ hil h1 (List.getElem?_eq_getElem (by omega : i < vel.length))
    rw [h4, flag_if cfg dist rnd own glob _ _ lm _ _ _ _ c1 c2 hn]
  · intro j hj i lm h1 h2
    exact ((hi.aP j).1 (a3 j hj)).2 i lm (bnd _ _ _ h1) h1 h2
  · intro hall j hj hun
    exact a5 hall j hj ((hi.aP j).2 ⟨hj, fun i lm _ => hun i lm⟩)
  · intro j hj i lm h1 h2
    exact ((hi.aG j).1 (b3 j hj)).2 i lm (bnd _ _ _ h1) h1 h2
  · intro hall j hj hun
    exact b5 hall j hj ((hi.aG j).2 ⟨hj, fun i lm _ => hun i lm⟩)

/-- Non-trivial instance: two landmarks, the second unmatched and removed, an unmatched landmark of the best map added. -/
example : (updateVel (K := ℚ) (d := 1) ⟨5, 1 / 2, 1, 1 / 2, 1, 1 / 2⟩ (fun a b => |a 0 - b 0|) (fun k => if k = 0 then 1 / 4 else 0) (fun i => 1 - i) (fun i => 1 - i)
    [![50], ![1]] [![7], ![8]] [![50], ![1]] [![7], ![8]] [![0], ![100]] [![2], ![3]] 0).map (fun r => (r.1.map (· 0), r.2.1.map (· 0))) =
    some ([0, 50, 50], [1, 7, 7]) := by decide +kernel

/-! ### C102 -/

/-- The containers of a particle fit together. -/
def Fits {L : Type} (p : Part T L Λ) : Prop := p.vel.length = p.lms.length ∧ p.bestVel.length = p.bestLms.length

/-- **C102**, initialisation. -/
theorem C102_init {L : Type} (dflt : L) (new : List L) (p : Part T L Λ) : Fits (initMap dflt new p) := by
  constructor
  · simp only [initMap, List.length_append, List.length_take, List.length_replicate]; omega
  · simp only [initMap, List.length_append, List.length_take, List.length_replicate]; omega

/-- **C102**, evaluation. -/
theorem C102_evaluate {L : Type} (lik : T → List L → Λ) (thread : Fin n → Nat) (h0 : 0 < n) (sched : List (Ev n)) (o : Obj n T L Λ)
    (h : ∀ i, Fits (o.parts i)) (i : Fin n) : Fits ((evaluate lik thread h0 sched o).1.parts i) := by
  rw [evaluate_parts]
  have h1 := evalPart_pos lik (o.parts i)
  have h2 := (evalPart_best lik (o.parts i)).2.2
  have h3 := h i
  refine ⟨by rw [h1.2.1, h1.2.2]; exact h3.1, ?_⟩
  rcases h2 with h2 | h2
  · rw [h2.2.2.1, h2.2.2.2]; exact h3.2
  · rw [h2.2.2.1, h2.2.2.2]; exact h3.1

/-- **C102**, moving: no access out of range, the containers fit afterwards, the best solutions are untouched. -/
theorem C102_move {Λ : Type} [LinearOrder Λ] (cfg : Cfg K) (dist : (Fin d → K) → (Fin d → K) → K) (rnd : Nat → K)
    (asg : List (Fin d → K) → List (Fin d → K) → Nat → Nat) (mt : T → T → T → T) (top : Fin n → List (Fin n)) (parts : Fin n → Part T (Fin d → K) Λ) (pos : Nat)
    (h : ∀ i, Fits (parts i)) : ∃ r p, moveParticles cfg dist rnd asg mt top parts pos = some (r, p) ∧ (∀ i, Fits (r i)) ∧
      ∀ i, (r i).bestLms = (parts i).bestLms ∧ (r i).bestVel = (parts i).bestVel ∧ (r i).bestTraj = (parts i).bestTraj ∧ (r i).best = (parts i).best ∧
        (r i).cur = (parts i).cur := by
  unfold moveParticles
  suffices hl : ∀ (l : List (Fin n)) (q : Fin n → Part T (Fin d → K) Λ) (pos : Nat), (∀ i, Fits (q i)) → ∃ r p, l.foldlM (fun s i =>
    (movePart cfg dist rnd asg mt (s.1 i) (s.1 (attractor s.1 i (top i))) s.2).map fun r => (Function.update s.1 i r.1, r.2)) (q, pos) = some (r, p) ∧
      (∀ i, Fits (r i)) ∧ ∀ i, (r i).bestLms = (q i).bestLms ∧ (r i).bestVel = (q i).bestVel ∧ (r i).bestTraj = (q i).bestTraj ∧ (r i).best = (q i).best ∧
        (r i).cur = (q i).cur from hl _ parts pos h
  intro l
  induction l with
  | nil => intro q pos hq; exact ⟨q, pos, rfl, hq, fun i => ⟨rfl, rfl, rfl, rfl, rfl⟩⟩
  | cons j l ih =>
    intro q pos hq
    set a := attractor q j (top j) with ha
    obtain ⟨l', v', p', del, nv, kept, cP, cG, e1, e2, -⟩ := C55_update cfg dist rnd (asg (q j).lms (q j).bestLms) (asg (q j).lms (q a).bestLms)
      (q j).bestLms (q j).bestVel (q a).bestLms (q a).bestVel (q j).lms (q j).vel pos (hq j).1 (hq j).2 (hq a).2
    have hm : movePart cfg dist rnd asg mt (q j) (q a) pos = some ({ q j with
        traj := mt (q j).traj (q j).bestTraj (q a).bestTraj,
        lms := List.zipWith (fun l v => l + v) l' v', vel := v' }, p') := by
      simp [movePart, e1, e2]
    have hq' : ∀ i, Fits (Function.update q j { q j with
        traj := mt (q j).traj (q j).bestTraj (q a).bestTraj,
        lms := List.zipWith (fun l v => l + v) l' v', vel := v' } i) := by
      intro i
      by_cases hij : i = j
      · subst hij
        rw [Function.update_self]
        exact ⟨by simp [e2], (hq i).2⟩
      · rw [Function.update_of_ne hij]; exact hq i
    obtain ⟨r, p, f1, f2, f3⟩ := ih _ p' hq'
    refine ⟨r, p, ?_, f2, ?_⟩
    · rw [List.foldlM_cons]
      simp only [← ha, hm, Option.map_some, Option.bind_eq_bind, Option.bind_some]
      exact f1
    · intro i
      have := f3 i
      by_cases hij : i = j
      · subst hij
        rw [Function.update_self] at this
        exact this
      · rw [Function.update_of_ne hij] at this; exact this

/-- Two particles with two landmarks and with one. -/
example : ∀ i, Fits ((![⟨0, [![1], ![2]], [![0], ![1]], 0, [![5]], [![0]], 1, 2⟩, ⟨0, [![3]], [![0]], 0, [![3]], [![0]], 1, 2⟩] : Fin 2 → Part Nat (Fin 1 → ℚ) ℚ) i) := by
  intro i
  fin_cases i <;> exact ⟨rfl, rfl⟩

/-! ### C103 -/

/-- Specification: how often landmark `j` of the particle's best map was added. Since the landmarks of a map can coincide, the statement is about a map that did
not have the landmark, and counts it. -/
def C103_full : Prop := ∀ (cfg : Cfg ℚ) (dist : (Fin 1 → ℚ) → (Fin 1 → ℚ) → ℚ) (rnd : Nat → ℚ) (asg : List (Fin 1 → ℚ) → List (Fin 1 → ℚ) → Nat → Nat)
  (p : Part Unit (Fin 1 → ℚ) Int), Fits p → p.bestLms.Nodup →
  ∀ r, movePart cfg dist rnd asg (fun a _ _ => a) p p 0 = some r → ∀ b ∈ p.bestLms, b ∉ p.lms → p.vel = [] → p.bestVel = p.bestLms.map (fun _ => 0) →
    r.1.lms.count b ≤ 1

/-- **C103** is false of the code: when no other particle is better, the particle is compared with its own best map twice, and a landmark it lacks can be added
twice. -/
theorem C103_violated : ¬ C103_full := by
  intro h
  have := h ⟨1, 1, 1, 1, 1, 1⟩ (fun _ _ => 0) (fun _ => 0) (fun _ _ i => i) ⟨(), [], [], (), [![3]], [![0]], 0, 0⟩ ⟨rfl, rfl⟩ (by decide +kernel)
  have e : movePart (K := ℚ) (d := 1) (T := Unit) (Λ := Int) ⟨1, 1, 1, 1, 1, 1⟩ (fun _ _ => 0) (fun _ => 0) (fun _ _ i => i) (fun a _ _ => a)
    ⟨(), [], [], (), [![3]], [![0]], 0, 0⟩ ⟨(), [], [], (), [![3]], [![0]], 0, 0⟩ 0 = some (⟨(), [![3] + ![0], ![3] + ![0]], [![0], ![0]], (), [![3]], [![0]], 0, 0⟩, 2) := by
    rfl
  have h2 := this _ e ![3] (by simp) (by simp) rfl (by decide +kernel)
  have h3 : (![3] + ![0] : Fin 1 → ℚ) = ![3] := by ext i; simp
  rw [h3] at h2
  simp at h2

/-- **C103**, the part that holds: from each of the two best maps, a landmark is added at most once. Missing: that the two maps are different. -/
theorem C103_once_partial (cfg : Cfg K) (dist : (Fin d → K) → (Fin d → K) → K) (rnd : Nat → K) (sp sg : Nat → Nat) (own ownVel glob globVel : List (Fin d → K))
    (lms vel : List (Fin d → K)) (pos : Nat) (hv : vel.length = lms.length) (ho : ownVel.length = own.length) (hg : globVel.length = glob.length) :
    ∃ (l' v' : List (Fin d → K)) (p : Nat) (kept : List (Fin d → K)) (cP cG : List Nat),
      updateVel cfg dist rnd sp sg own ownVel glob globVel lms vel pos = some (l', v', p) ∧ l' = kept ++ cP.filterMap (own[·]?) ++ cG.filterMap (glob[·]?) ∧
      cP.Nodup ∧ cG.Nodup ∧ ∃ k : List (Fin d → K), k.Sublist lms ∧ kept.Perm k := by
  obtain ⟨s, hs, hi⟩ := velLoop cfg dist rnd lms own glob vel sp sg pos hv lms.length le_rfl
  obtain ⟨cP, p1, a1, a2, -⟩ := addLoop_spec cfg.cardP rnd s.addP own ownVel ho (removeLoop s.del lms.length (lms, s.vel)).1
    (removeLoop s.del lms.length (lms, s.vel)).2 s.pos
  obtain ⟨cG, p2, b1, b2, -⟩ := addLoop_spec cfg.cardG rnd s.addG glob globVel hg ((removeLoop s.del lms.length (lms, s.vel)).1 ++ cP.filterMap (own[·]?))
    ((removeLoop s.del lms.length (lms, s.vel)).2 ++ cP.filterMap (ownVel[·]?)) p1
  refine ⟨(removeLoop s.del lms.length (lms, s.vel)).1 ++ cP.filterMap (own[·]?) ++ cG.filterMap (glob[·]?),
    (removeLoop s.del lms.length (lms, s.vel)).2 ++ cP.filterMap (ownVel[·]?) ++ cG.filterMap (globVel[·]?), p2,
    (removeLoop s.del lms.length (lms, s.vel)).1, cP, cG, ?_, rfl, a2.nodup List.nodup_range, b2.nodup List.nodup_range, unflagged s.del lms, ?_, ?_⟩
  · unfold updateVel
    rw [hs]
    simp only [Option.bind_some]
    rw [a1]
    simp only [Option.bind_some]
    exact b1
  · have h1 := (List.filter_sublist (p := fun x : (Fin d → K) × Nat => decide (s.del[x.2]? ≠ some true)) (l := lms.zipIdx)).map Prod.fst
    rwa [List.zipIdx_map_fst] at h1
  · rw [removeLoop_eq]
    have := rem1_perm s.del lms []
    simpa using this

/-- Lists of equal lengths: two landmarks, of the own best one, of the best of all two. -/
example (cfg : Cfg ℚ) (dist : (Fin 1 → ℚ) → (Fin 1 → ℚ) → ℚ) (rnd : Nat → ℚ) (sp sg : Nat → Nat) : (updateVel cfg dist rnd sp sg [![1]] [![0]] [![1], ![4]] [![0], ![0]] [![1], ![2]] [![0], ![0]] 0).isSome = true := by
  obtain ⟨l', v', p, k, cP, cG, h, -⟩ := C103_once_partial cfg dist rnd sp sg [![1]] [![0]] [![1], ![4]] [![0], ![0]] [![1], ![2]] [![0], ![0]] 0 rfl rfl rfl
  rw [h]
  rfl

/-! ### C104 -/

/-- **C104**, the full statement: the best solution that attracts a particle is the best that the particles of its neighbourhood know. -/
def C104_full : Prop := ∀ (n : Nat) (parts : Fin n → Part Unit Unit Int) (i : Fin n) (nb : List (Fin n)), (∀ j, (parts j).cur ≤ (parts j).best) →
  ∀ j ∈ nb, (parts j).best ≤ (parts (attractor parts i nb)).best

/-- **C104** is false of the code: the neighbours are compared by their current likelihoods. -/
theorem C104_violated : ¬ C104_full := by
  intro h
  have := h 2 ![⟨(), [], [], (), [], [], 5, 5⟩, ⟨(), [], [], (), [], [], 1, 9⟩] 0 [0, 1] (by decide) 1 (by decide)
  exact absurd this (by decide +kernel)

/-- What the code selects. -/
theorem attractor_spec (parts : Fin n → Part T L Λ) (i : Fin n) (nb : List (Fin n)) :
    (attractor parts i nb = i ∧ ∀ j ∈ nb, (parts j).cur ≤ (parts i).best) ∨
    (attractor parts i nb ∈ nb ∧ (parts i).best < (parts (attractor parts i nb)).cur ∧ ∀ j ∈ nb, (parts j).cur ≤ (parts (attractor parts i nb)).cur) := by
  unfold attractor
  suffices h : ∀ l : List (Fin n), (let s := l.foldl (fun (s : Fin n × Λ) j => if s.2 < (parts j).cur then (j, (parts j).cur) else s) (i, (parts i).best)
      (s = (i, (parts i).best) ∧ ∀ j ∈ l, (parts j).cur ≤ (parts i).best) ∨
      (s.1 ∈ l ∧ s.2 = (parts s.1).cur ∧ (parts i).best < s.2 ∧ ∀ j ∈ l, (parts j).cur ≤ s.2)) by
    rcases h nb with h | h
    · exact Or.inl ⟨by rw [h.1], h.2⟩
    · refine Or.inr ⟨h.1, ?_, ?_⟩
      · rw [← h.2.1]; exact h.2.2.1
      · intro j hj; rw [← h.2.1]; exact h.2.2.2 j hj
  intro l
  induction l using List.reverseRecOn with
  | nil => exact Or.inl ⟨rfl, by simp⟩
  | append_singleton l x ih =>
    simp only [List.foldl_append, List.foldl_cons, List.foldl_nil]
    simp only at ih
    generalize l.foldl (fun (s : Fin n × Λ) j => if s.2 < (parts j).cur then (j, (parts j).cur) else s) (i, (parts i).best) = s at ih
    by_cases hlt : s.2 < (parts x).cur
    · rw [if_pos hlt]
      refine Or.inr ⟨by simp, rfl, ?_, ?_⟩
      · rcases ih with h | h
        · rw [h.1] at hlt; exact hlt
        · exact h.2.2.1.trans hlt
      · intro j hj
        rcases List.mem_append.1 hj with hj | hj
        · rcases ih with h | h
          · rw [h.1] at hlt
            exact (h.2 j hj).trans hlt.le
          · exact (h.2.2.2 j hj).trans hlt.le
        · simp only [List.mem_singleton] at hj; rw [hj]
    · rw [if_neg hlt]
      rcases ih with h | h
      · refine Or.inl ⟨h.1, fun j hj => ?_⟩
        rcases List.mem_append.1 hj with hj | hj
        · exact h.2 j hj
        · simp only [List.mem_singleton] at hj
          rw [h.1] at hlt
          rw [hj]; exact not_lt.1 hlt
      · refine Or.inr ⟨List.mem_append_left _ h.1, h.2.1, h.2.2.1, fun j hj => ?_⟩
        rcases List.mem_append.1 hj with hj | hj
        · exact h.2.2.2 j hj
        · simp only [List.mem_singleton] at hj
          rw [hj]; exact not_lt.1 hlt

/-- **C104**, the part that holds: the particle follows itself if no neighbour's current likelihood exceeds its own best, and else the neighbour with the greatest
current likelihood; so the statement holds if every neighbour is at its best, as after the first evaluation. Missing: neighbours that have been better before. -/
theorem C104_attractor_partial (parts : Fin n → Part T L Λ) (i : Fin n) (nb : List (Fin n)) (hcb : ∀ j, (parts j).cur ≤ (parts j).best) :
    ((attractor parts i nb = i ∧ ∀ j ∈ nb, (parts j).cur ≤ (parts i).best) ∨
      (attractor parts i nb ∈ nb ∧ (parts i).best < (parts (attractor parts i nb)).cur ∧ ∀ j ∈ nb, (parts j).cur ≤ (parts (attractor parts i nb)).cur)) ∧
    (parts i).best ≤ (parts (attractor parts i nb)).best ∧
    ((∀ j ∈ nb, (parts j).cur = (parts j).best) → ∀ j ∈ nb, (parts j).best ≤ (parts (attractor parts i nb)).best) := by
  have h := attractor_spec parts i nb
  refine ⟨h, ?_, ?_⟩
  · rcases h with h | h
    · rw [h.1]
    · exact h.2.1.le.trans (hcb _)
  · intro hall j hj
    rw [← hall j hj]
    rcases h with h | h
    · rw [h.1]; exact h.2 j hj
    · exact (h.2.2 j hj).trans (hcb _)

/-- Non-trivial instance: the second neighbour is better than the particle's best. -/
example : attractor (L := Unit) ![⟨(), [], [], (), [], [], 3, 5⟩, ⟨(), [], [], (), [], [], 7, 9⟩, ⟨(), [], [], (), [], [], 6, 6⟩] (0 : Fin 3) [0, 2, 1] = 1 ∧
    ∀ j, ((![⟨(), [], [], (), [], [], 3, 5⟩, ⟨(), [], [], (), [], [], 7, 9⟩, ⟨(), [], [], (), [], [], 6, 6⟩] : Fin 3 → Part Unit Unit Int) j).cur ≤
      ((![⟨(), [], [], (), [], [], 3, 5⟩, ⟨(), [], [], (), [], [], 7, 9⟩, ⟨(), [], [], (), [], [], 6, 6⟩] : Fin 3 → Part Unit Unit Int) j).best := by
  decide +kernel

/-! ### C105 -/

theorem inform_some (i : Nat) (top : List (List Nat)) (k : Nat) (hk : k < top.length) (hne : ∀ l ∈ top, l ≠ []) :
    ∃ t, inform i top k = some t ∧ t.length = top.length ∧ (∀ l ∈ t, l ≠ []) ∧
      ∀ (m : Nat) (l l' : List Nat), top[m]? = some l → t[m]? = some l' → l'.head? = l.head? ∧ ∀ x, x ∈ l' ↔ x ∈ l ∨ (m = k ∧ x = i) := by
  have hg : top[k]? = some top[k] := List.getElem?_eq_getElem hk
  obtain ⟨b, hb⟩ : ∃ b, top[k].getLast? = some b := by
    cases h : top[k].getLast? with
    | none => exact absurd (List.getLast?_eq_none_iff.1 h) (hne _ (List.getElem_mem hk))
    | some b => exact ⟨b, rfl⟩
  have hbm : b ∈ top[k] := List.mem_of_getLast? hb
  unfold inform
  rw [hg]
  simp only [Option.bind_some, hb, Option.map_some]
  by_cases hbi : b = i
  · subst hbi
    refine ⟨top, by simp, rfl, hne, fun m l l' h1 h2 => ?_⟩
    rw [h1] at h2; cases h2
    refine ⟨rfl, fun x => ⟨Or.inl, ?_⟩⟩
    rintro (h | ⟨rfl, rfl⟩)
    · exact h
    · rw [hg] at h1; cases h1; exact hbm
  · refine ⟨top.set k (top[k] ++ [i]), by simp [hbi], by simp, ?_, fun m l l' h1 h2 => ?_⟩
    · intro l hl
      rcases List.mem_or_eq_of_mem_set hl with h | h
      · exact hne l h
      · rw [h]; simp
    · rw [List.getElem?_set] at h2
      by_cases hkm : k = m
      · subst hkm
        simp only [hk, if_true, Option.some.injEq] at h2
        rw [hg] at h1; cases h1
        subst h2
        have : top[k] ≠ [] := hne _ (List.getElem_mem hk)
        refine ⟨?_, fun x => by simp⟩
        obtain ⟨a, as, has⟩ := List.exists_cons_of_ne_nil this
        simp [has]
      · simp only [hkm, if_false] at h2
        rw [h1] at h2; cases h2
        exact ⟨rfl, fun x => ⟨Or.inl, fun h => h.resolve_right fun ⟨e, _⟩ => hkm e.symm⟩⟩

theorem informs (i : Nat) (f : Nat → Nat) : ∀ (js : List Nat) (top : List (List Nat)), (∀ j ∈ js, f j < top.length) → (∀ l ∈ top, l ≠ []) →
    ∃ t, js.foldlM (fun t j => inform i t (f j)) top = some t ∧ t.length = top.length ∧ (∀ l ∈ t, l ≠ []) ∧
      ∀ (m : Nat) (l l' : List Nat), top[m]? = some l → t[m]? = some l' → l'.head? = l.head? ∧ ∀ x, x ∈ l' ↔ x ∈ l ∨ (x = i ∧ ∃ j ∈ js, f j = m)
  | [], top, _, hne => ⟨top, rfl, rfl, hne, fun m l l' h1 h2 => by rw [h1] at h2; cases h2; exact ⟨rfl, fun x => by simp⟩⟩
  | j :: js, top, hf, hne => by
    obtain ⟨t1, a1, a2, a3, a4⟩ := inform_some i top (f j) (hf j (List.mem_cons_self ..)) hne
    obtain ⟨t2, b1, b2, b3, b4⟩ := informs i f js t1 (fun k hk => by rw [a2]; exact hf k (List.mem_cons_of_mem _ hk)) a3
    refine ⟨t2, ?_, b2.trans a2, b3, fun m l l' h1 h2 => ?_⟩
    · rw [List.foldlM_cons, a1]
      exact b1
    · obtain ⟨l1, hl1⟩ : ∃ l1, t1[m]? = some l1 := ⟨_, List.getElem?_eq_getElem (by rw [a2]; exact (List.getElem?_eq_some_iff.1 h1).1)⟩
      have p := a4 m l l1 h1 hl1
      have q := b4 m l1 l' hl1 h2
      refine ⟨q.1.trans p.1, fun x => ?_⟩
      rw [q.2 x, p.2 x]
      constructor
      · rintro ((h | ⟨h, rfl⟩) | ⟨h, j', hj', h'⟩)
        · exact Or.inl h
        · exact Or.inr ⟨rfl, j, List.mem_cons_self .., h.symm⟩
        · exact Or.inr ⟨h, j', List.mem_cons_of_mem _ hj', h'⟩
      · rintro (h | ⟨rfl, j', hj', h'⟩)
        · exact Or.inl (Or.inl h)
        · rcases List.mem_cons.1 hj' with rfl | hj'
          · exact Or.inl (Or.inr ⟨h'.symm, rfl⟩)
          · exact Or.inr ⟨rfl, j', hj', h'⟩

/-- **C105**, random topology: every particle is its own first informant, and particle `i` informs particle `m` exactly if `i = m` or one of its `K` draws is `m`. -/
theorem C105_random (n K : Nat) (pick : Nat → Nat → Nat) (hp : ∀ i < n, ∀ j < K, pick i j < n) (top : List (List Nat)) :
    ∃ t, updateTopology false n K pick top = some t ∧ t.length = n ∧ ∀ (m : Nat) (l : List Nat), t[m]? = some l →
      l.head? = some m ∧ ∀ x, x ∈ l ↔ x = m ∨ (x < n ∧ ∃ j < K, pick x j = m) := by
  suffices h : ∀ k ≤ n, ∃ t, (List.range k).foldlM (fun t i => (List.range K).foldlM (fun t j => inform i t (pick i j)) t) ((List.range n).map fun i => [i]) = some t ∧
      t.length = n ∧ (∀ l ∈ t, l ≠ []) ∧ ∀ (m : Nat) (l : List Nat), t[m]? = some l → l.head? = some m ∧ ∀ x, x ∈ l ↔ x = m ∨ (x < k ∧ ∃ j < K, pick x j = m) by
    obtain ⟨t, h1, h2, -, h4⟩ := h n le_rfl
    exact ⟨t, by simpa [updateTopology] using h1, h2, h4⟩
  intro k
  induction k with
  | zero =>
    intro _
    refine ⟨_, rfl, by simp, by simp, fun m l h => ?_⟩
    rw [List.getElem?_map] at h
    by_cases hm : m < n
    · rw [List.getElem?_range hm] at h
      simp only [Option.map_some, Option.some.injEq] at h
      subst h
      exact ⟨rfl, fun x => by simp⟩
    · rw [List.getElem?_eq_none (by simpa using hm)] at h; cases h
  | succ k ih =>
    intro hk
    obtain ⟨t, a1, a2, a3, a4⟩ := ih (by omega)
    obtain ⟨t2, b1, b2, b3, b4⟩ := informs k (pick k) (List.range K) t (fun j hj => by rw [a2]; exact hp k (by omega) j (List.mem_range.1 hj)) a3
    refine ⟨t2, ?_, b2.trans a2, b3, fun m l h => ?_⟩
    · rw [List.range_succ, List.foldlM_append, a1]
      simp only [Option.bind_eq_bind, Option.bind_some, List.foldlM_cons, List.foldlM_nil]
      rw [b1]; rfl
    · obtain ⟨l1, hl1⟩ : ∃ l1, t[m]? = some l1 := ⟨_, List.getElem?_eq_getElem (by have := (List.getElem?_eq_some_iff.1 h).1; omega)⟩
      have p := a4 m l1 hl1
      have q := b4 m l1 l hl1 h
      refine ⟨q.1.trans p.1, fun x => ?_⟩
      rw [q.2 x, p.2 x]
      constructor
      · rintro ((h | ⟨h, h'⟩) | ⟨rfl, j, hj, h'⟩)
        · exact Or.inl h
        · exact Or.inr ⟨by omega, h'⟩
        · exact Or.inr ⟨by omega, j, List.mem_range.1 hj, h'⟩
      · rintro (h | ⟨h, j, hj, h'⟩)
        · exact Or.inl (Or.inl h)
        · by_cases hx : x = k
          · exact Or.inr ⟨hx, j, List.mem_range.2 hj, by rw [← hx]; exact h'⟩
          · exact Or.inl (Or.inr ⟨by omega, j, hj, h'⟩)

/-- **C105**, global topology: everybody informs everybody, if the topology was not set up before for the same number of particles. Missing: a topology left from
the random mode (`C105_violated`). -/
theorem C105_global_partial (n K : Nat) (pick : Nat → Nat → Nat) (top : List (List Nat)) (h : top.length ≠ n) :
    ∃ t, updateTopology true n K pick top = some t ∧ t.length = n ∧ ∀ (m : Nat) (l : List Nat), t[m]? = some l → ∀ x, x ∈ l ↔ x < n := by
  refine ⟨List.replicate n (List.range n), by simp [updateTopology, h], by simp, fun m l hm x => ?_⟩
  rw [List.getElem?_replicate] at hm
  split at hm
  · cases hm; simp
  · cases hm

/-- **C105**, the full statement for the global topology. -/
def C105_global_full : Prop := ∀ (n K : Nat) (pick : Nat → Nat → Nat) (top : List (List Nat)),
    ∃ t, updateTopology true n K pick top = some t ∧ t.length = n ∧ ∀ (m : Nat) (l : List Nat), t[m]? = some l → ∀ x, x ∈ l ↔ x < n

/-- **C105** is false of the code when `use_global` is switched on after a topology was drawn: the drawn one stays. -/
theorem C105_violated : ¬ C105_global_full := by
  intro h
  obtain ⟨t, h1, -, h3⟩ := h 2 0 (fun _ _ => 0) [[0], [1]]
  simp only [updateTopology] at h1
  cases h1
  exact absurd ((h3 0 [0] rfl 1).2 (by decide)) (by decide)

/-- Non-trivial instance: three particles, two draws each. -/
example : updateTopology false 3 2 (fun i j => (i + j) % 3) [] = some [[0, 2], [1, 0], [2, 1]] ∨
    updateTopology false 3 2 (fun i j => (i + j) % 3) [] = some [[0, 2], [1, 0, 1], [2, 1, 2]] := by decide +kernel

end PSOProps
end RFS
