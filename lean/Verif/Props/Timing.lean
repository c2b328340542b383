import Verif.Lemmas.Timing
import Mathlib.Algebra.BigOperators.Group.List.Basic
import Mathlib.Data.List.Induction
import Mathlib.Algebra.Order.BigOperators.Group.List

/-!
Properties of the timers (`Verif.Model.Timing`): what a timer reports, and what the sums printed by the programs mean.
-/

namespace RFS
namespace TimingProps
open Timing

/-! ### C225 -/

/-- Whether timer `n` runs after the events `l` if `r` tells whether it ran before: the last call decides. -/
def runs (n : Name) (r : Bool) (l : List Ev) : Bool :=
  l.foldl (fun b e => if e = .start n ∨ e = .resume n then true else if e = .stop n then false else b) r

/-- The time that passed while timer `n` was running and after which it was not started afresh. -/
def charged (n : Name) (r : Bool) (evs : List Ev) : ℤ :=
  ((List.range evs.length).map fun i => match evs[i]? with
    | some (.work d) => if runs n r (evs.take i) = true ∧ Ev.start n ∉ evs.drop (i + 1) then (d : ℤ) else 0
    | _ => 0).sum

theorem charged_snoc (n : Name) (r : Bool) (evs : List Ev) (e : Ev) : charged n r (evs ++ [e]) = (if e = .start n then 0 else charged n r evs) + match e with
    | .work d => if runs n r evs = true then (d : ℤ) else 0
    | _ => 0 := by
  unfold charged
  rw [List.length_append, List.length_singleton, List.range_succ, List.map_append, List.sum_append]
  congr 1
  · by_cases he : e = .start n
    · rw [if_pos he]
      apply List.sum_eq_zero
      intro x hx
      obtain ⟨i, hi, rfl⟩ := List.mem_map.1 hx
      rw [List.mem_range] at hi
      rw [List.getElem?_append_left hi, List.drop_append_of_le_length (by omega)]
      subst he
      split <;> simp
    · rw [if_neg he]
      congr 1
      refine List.map_congr_left fun i hi => ?_
      rw [List.mem_range] at hi
      rw [List.getElem?_append_left hi, List.drop_append_of_le_length (by omega), List.take_append_of_le_length (by omega)]
      have : (Ev.start n ∉ List.drop (i + 1) evs ++ [e]) ↔ Ev.start n ∉ List.drop (i + 1) evs := by
        rw [List.mem_append, List.mem_singleton]
        constructor
        · exact fun h h' => h (Or.inl h')
        · rintro h (h' | h')
          · exact h h'
          · exact he h'.symm
      simp only [this]
  · simp only [List.map_cons, List.map_nil, List.sum_singleton, List.getElem?_concat_length, List.take_left', List.drop_eq_nil_of_le (show (evs ++ [e]).length ≤ evs.length + 1 by simp)]
    cases e <;> simp

theorem runs_snoc (n : Name) (r : Bool) (evs : List Ev) (e : Ev) : runs n r (evs ++ [e]) = if e = .start n ∨ e = .resume n then true else if e = .stop n then false else runs n r evs := by
  unfold runs
  rw [List.foldl_append]
  rfl

theorem elapsed_runs (n : Name) (evs : List Ev) (w : World) :
    ((exec evs w).tm n).stopped = !(runs n (!(w.tm n).stopped) evs) ∧ (exec evs w).elapsed n = (if Ev.start n ∈ evs then 0 else w.elapsed n) + charged n (!(w.tm n).stopped) evs := by
  induction evs using List.reverseRecOn with
  | nil => simp [exec, runs, charged]
  | append_singleton evs e ih =>
    obtain ⟨h1, h2⟩ := ih
    rw [exec_append, charged_snoc, runs_snoc]
    have hx : exec [e] (exec evs w) = step (exec evs w) e := rfl
    rw [hx]
    generalize exec evs w = v at *
    have hmem : Ev.start n ∈ evs ++ [e] ↔ Ev.start n ∈ evs ∨ e = .start n := by
      rw [List.mem_append, List.mem_singleton]
      exact or_congr Iff.rfl eq_comm
    simp only [hmem]
    cases e with
    | work d =>
      have hst : ((step v (.work d)).tm n).stopped = (v.tm n).stopped := rfl
      refine ⟨by rw [hst, h1]; simp, ?_⟩
      have he : (step v (.work d)).elapsed n = v.elapsed n + if (v.tm n).stopped then 0 else (d : ℤ) := by
        unfold World.elapsed step Tm.elapsed
        dsimp only
        cases (v.tm n).stopped <;> simp
        ring
      rw [he, h2, h1]
      cases runs n (!(w.tm n).stopped) evs <;> simp [add_assoc]
    | start m =>
      by_cases hmn : m = n
      · subst hmn
        have hs : (step v (.start m)).tm m = Tm.start v.now := by
          show (if m = m then _ else v.tm m) = _
          rw [if_pos rfl]
        refine ⟨by rw [hs]; simp [Tm.start], ?_⟩
        unfold World.elapsed
        rw [hs]
        show (Tm.start v.now).elapsed v.now = _
        simp [Tm.start, Tm.elapsed]
      · have hs : (step v (.start m)).tm n = v.tm n := by
          show (if n = m then _ else v.tm n) = _
          rw [if_neg (Ne.symm hmn)]
        have he : (step v (.start m)).elapsed n = v.elapsed n := by
          unfold World.elapsed
          rw [hs]
          rfl
        rw [hs, he, h1, h2]
        simp [hmn]
    | stop m =>
      by_cases hmn : m = n
      · subst hmn
        have hs : (step v (.stop m)).tm m = (v.tm m).stop v.now := by
          show (if m = m then _ else v.tm m) = _
          rw [if_pos rfl]
        have he : (step v (.stop m)).elapsed m = v.elapsed m := by
          unfold World.elapsed
          rw [hs]
          show ((v.tm m).stop v.now).elapsed v.now = _
          unfold Tm.stop Tm.elapsed
          cases hq : (v.tm m).stopped <;> simp [hq]
        rw [he, h2, hs]
        refine ⟨?_, by simp⟩
        unfold Tm.stop
        cases hq : (v.tm m).stopped <;> simp [hq]
      · have hs : (step v (.stop m)).tm n = v.tm n := by
          show (if n = m then _ else v.tm n) = _
          rw [if_neg (Ne.symm hmn)]
        have he : (step v (.stop m)).elapsed n = v.elapsed n := by
          unfold World.elapsed
          rw [hs]
          rfl
        rw [hs, he, h1, h2]
        simp [hmn]
    | resume m =>
      by_cases hmn : m = n
      · subst hmn
        have hs : (step v (.resume m)).tm m = (v.tm m).resume v.now := by
          show (if m = m then _ else v.tm m) = _
          rw [if_pos rfl]
        have he : (step v (.resume m)).elapsed m = v.elapsed m := by
          unfold World.elapsed
          rw [hs]
          show ((v.tm m).resume v.now).elapsed v.now = _
          unfold Tm.resume Tm.elapsed
          cases hq : (v.tm m).stopped <;> simp [hq]
        rw [he, h2, hs]
        refine ⟨?_, by simp⟩
        unfold Tm.resume
        cases hq : (v.tm m).stopped <;> simp [hq]
      · have hs : (step v (.resume m)).tm n = v.tm n := by
          show (if n = m then _ else v.tm n) = _
          rw [if_neg (Ne.symm hmn)]
        have he : (step v (.resume m)).elapsed n = v.elapsed n := by
          unfold World.elapsed
          rw [hs]
          rfl
        rw [hs, he, h1, h2]
        simp [hmn]

/-- **C225**: whatever is called in whatever order, a timer reports the time that passed while it was running since it was last started afresh (if it never was: added to what it reported before). -/
theorem C225_elapsed (n : Name) (evs : List Ev) (w : World) : (exec evs w).elapsed n = (if Ev.start n ∈ evs then 0 else w.elapsed n) + charged n (!(w.tm n).stopped) evs := (elapsed_runs n evs w).2

/-- **C225**: a new timer is stopped, and reports the time its own constructor took. -/
theorem C225_new (a b now : ℤ) : (Tm.new a b).stopped = true ∧ (Tm.new a b).elapsed now = b - a := by
  simp [Tm.new, Tm.start, Tm.stop, Tm.elapsed]

/-- Two timers, overlapping; a resume while running and a stop while stopped do nothing; starting forgets. -/
example : let w : World := ⟨100, fun _ => Tm.new 7 8⟩
    let evs : List Ev := [.resume .kf, .work 5, .resume .kf, .resume .merge, .work 3, .stop .kf, .stop .kf, .work 10, .start .merge, .work 2]
    (exec evs w).elapsed .kf = 9 ∧ (exec evs w).elapsed .merge = 2 ∧ charged .kf false evs = 8 := by decide

/-! ### C226 -/

/-- How long `updateMap` takes for a particle. -/
def partTime (p : PartDur) : ℤ := if p.map then (p.first + p.sum + p.table + p.kf + p.weight + p.rest : ℤ) else p.first

/-- How much of it is particle weighting. -/
def partWeight (p : PartDur) : ℤ := if p.map then (p.sum + p.weight : ℤ) else 0

/-- How long the map updates, weighting, merging, pruning and resampling of an `update` take. -/
def updTime (k : Kind) (one : Bool) (u : UpdDur) (par : List Ev) : ℤ :=
  if u.some then (if one then (u.parts.map partTime).sum else passed par) + (match k with
    | .phd false => (u.weighting : ℤ)
    | _ => 0) + u.merge + u.prune + u.resample else 0

/-- How long a call takes in `predict` and the parts of `update`. -/
def callTime (k : Kind) (one : Bool) : Call → ℤ
  | .other _ => 0
  | .predict d => d
  | .update u par => updTime k one u par

/-- What can happen inside the parallel region with several threads. -/
def Par (k : Kind) (par : List Ev) : Prop := ∀ e ∈ par, (∃ d, e = .work d) ∨ k = .phd true ∧ e = .stop .weighting

/-- The parallel regions of a run with several threads. -/
def Pars (k : Kind) (one : Bool) (cs : List Call) : Prop := one = false → ∀ u par, Call.update u par ∈ cs → Par k par

/-- All timers are stopped. -/
def Rest (w : World) : Prop := ∀ n, (w.tm n).stopped = true

/-- Weighting time of a call with the cluster process and one thread. -/
def callWeight (k : Kind) (one : Bool) : Call → ℤ
  | .update u _ => match k with
    | .phd true => if one = true ∧ u.some = true then (u.parts.map partWeight).sum else 0
    | _ => 0
  | _ => 0

theorem charge_map_other {n : Name} (k : Kind) (one : Bool) (r : Bool) (p : PartDur) (h1 : n ≠ .kf) (h2 : n ≠ .weighting) : charge n r (updateMapEvs k one p) = (r, if r then partTime p else 0) := by
  have h1' := Ne.symm h1
  have h2' := Ne.symm h2
  unfold updateMapEvs partTime
  cases hm : p.map
  · cases r <;> simp [charge]
  · rcases k with _ | _
    · rename_i c
      cases c <;> cases one <;> cases r <;> simp [clusterEvs, when, charge, h1', h2'] <;> ring
    · cases one <;> cases r <;> simp [when, charge, h1'] <;> ring

theorem charge_map_weight (k : Kind) (one : Bool) (p : PartDur) : charge .weighting false (updateMapEvs k one p) = (false, match k with
    | .phd true => if one then partWeight p else 0
    | _ => 0) := by
  unfold updateMapEvs partWeight
  cases hm : p.map
  · rcases k with _ | _
    · rename_i c
      cases c <;> simp [charge]
    · simp [charge]
  · rcases k with _ | _
    · rename_i c
      cases c <;> cases one <;> simp [clusterEvs, when, charge]
    · cases one <;> simp [when, charge]

theorem charge_map_kf (k : Kind) (one : Bool) (p : PartDur) : ∃ v, charge .kf false (updateMapEvs k one p) = (false, v) := by
  unfold updateMapEvs
  cases hm : p.map
  · simp [charge]
  · rcases k with _ | _
    · rename_i c
      cases c <;> cases one <;> simp [clusterEvs, when, charge]
    · cases one <;> simp [when, charge]

/-- The loop over the particles as the timers see it. -/
theorem charge_maps {n : Name} (k : Kind) (one : Bool) (r : Bool) (ps : List PartDur) (par : List Ev) (hp : one = false → Par k par) (h1 : n ≠ .kf) (h2 : n ≠ .weighting) :
    charge n r (mapEvs k one ps par) = (r, if r then (if one then (ps.map partTime).sum else passed par) else 0) := by
  unfold mapEvs
  cases one
  · simp only [Bool.false_eq_true, if_false]
    refine charge_par n r par fun e he => ?_
    rcases hp rfl e he with h | ⟨-, h⟩
    · exact Or.inl h
    · exact Or.inr ⟨_, h, Or.inl (Ne.symm h2)⟩
  · simp only [if_true]
    rw [charge_flatMap n r _ (fun p => if r then partTime p else 0) ps fun p _ => charge_map_other k true r p h1 h2]
    cases r <;> simp

theorem charge_maps_weight (k : Kind) (one : Bool) (ps : List PartDur) (par : List Ev) (hp : one = false → Par k par) : charge .weighting false (mapEvs k one ps par) = (false, match k with
    | .phd true => if one then (ps.map partWeight).sum else 0
    | _ => 0) := by
  unfold mapEvs
  cases one
  · simp only [Bool.false_eq_true, if_false]
    rw [charge_par .weighting false par fun e he => ?_]
    · rcases k with c | _
      · cases c <;> rfl
      · rfl
    · rcases hp rfl e he with h | ⟨-, h⟩
      · exact Or.inl h
      · exact Or.inr ⟨_, h, Or.inr rfl⟩
  · simp only [if_true]
    rw [charge_flatMap .weighting false _ _ ps fun p _ => charge_map_weight k true p]
    rcases k with c | _
    · cases c <;> simp
    · simp

theorem charge_maps_kf (k : Kind) (one : Bool) (ps : List PartDur) (par : List Ev) (hp : one = false → Par k par) : ∃ v, charge .kf false (mapEvs k one ps par) = (false, v) := by
  unfold mapEvs
  cases one
  · simp only [Bool.false_eq_true, if_false]
    refine ⟨_, charge_par .kf false par fun e he => ?_⟩
    rcases hp rfl e he with h | ⟨-, h⟩
    · exact Or.inl h
    · exact Or.inr ⟨_, h, Or.inr rfl⟩
  · simp only [if_true]
    exact ⟨_, charge_flatMap .kf false _ (fun p => (charge .kf false (updateMapEvs k true p)).2) ps fun p _ => by
      obtain ⟨v, hv⟩ := charge_map_kf k true p
      rw [hv]⟩

/-- What an `update` adds to the timers, which it leaves stopped. -/
theorem charge_update (k : Kind) (one : Bool) (u : UpdDur) (par : List Ev) (hp : one = false → Par k par) :
    (∀ n, (charge n false (updateEvs k one u par)).1 = false) ∧
    (charge .predict false (updateEvs k one u par)).2 + (charge .mapUpdate false (updateEvs k one u par)).2 + (charge .weighting false (updateEvs k one u par)).2 + (charge .merge false (updateEvs k one u par)).2 +
      (charge .prune false (updateEvs k one u par)).2 + (charge .resample false (updateEvs k one u par)).2 = updTime k one u par + callWeight k one (.update u par) := by
  unfold updateEvs updTime callWeight
  cases hs : u.some
  · constructor
    · intro n; simp [charge]
    · rcases k with c | _
      · cases c <;> simp [charge, hs]
      · simp [charge]
  · have e1 : ∀ r, charge .predict r (mapEvs k one u.parts par) = _ := fun r => charge_maps k one r u.parts par hp (by decide) (by decide)
    have e2 : ∀ r, charge .mapUpdate r (mapEvs k one u.parts par) = _ := fun r => charge_maps k one r u.parts par hp (by decide) (by decide)
    have e3 := charge_maps_weight k one u.parts par hp
    have e4 : ∀ r, charge .merge r (mapEvs k one u.parts par) = _ := fun r => charge_maps k one r u.parts par hp (by decide) (by decide)
    have e5 : ∀ r, charge .prune r (mapEvs k one u.parts par) = _ := fun r => charge_maps k one r u.parts par hp (by decide) (by decide)
    have e6 : ∀ r, charge .resample r (mapEvs k one u.parts par) = _ := fun r => charge_maps k one r u.parts par hp (by decide) (by decide)
    have e7 : ∀ r, charge .assoc r (mapEvs k one u.parts par) = _ := fun r => charge_maps k one r u.parts par hp (by decide) (by decide)
    have e8 : ∀ r, charge .manage r (mapEvs k one u.parts par) = _ := fun r => charge_maps k one r u.parts par hp (by decide) (by decide)
    obtain ⟨v, e9⟩ := charge_maps_kf k one u.parts par hp
    constructor
    · intro n
      rcases k with c | _
      · cases c <;> cases one <;> cases n <;> simp [when, weightEvs, loopEvs, charge, charge_append, e1, e2, e3, e4, e5, e6, e7, e8, e9]
      · cases one <;> cases n <;> simp [when, weightEvs, loopEvs, charge, charge_append, e1, e2, e3, e4, e5, e6, e7, e8, e9]
    · rcases k with c | _
      · cases c <;> cases one <;> simp [when, weightEvs, loopEvs, charge, charge_append, e1, e2, e3, e4, e5, e6, hs] <;> ring
      · cases one <;> simp [when, weightEvs, loopEvs, charge, charge_append, e1, e2, e3, e4, e5, e6] <;> ring

theorem no_start_when (n : Name) (b : Bool) (l : List Ev) (h : Ev.start n ∉ l) : Ev.start n ∉ when b l := by
  unfold when
  split
  · exact h
  · simp

theorem no_start_cluster (n : Name) (k : Kind) (one : Bool) (d : Nat) : Ev.start n ∉ clusterEvs k one d := by
  unfold clusterEvs
  split
  · cases one <;> simp [when]
  · simp

theorem no_start_map (n : Name) (k : Kind) (one : Bool) (p : PartDur) : Ev.start n ∉ updateMapEvs k one p := by
  unfold updateMapEvs
  split
  · split
    · have h := no_start_cluster n
      cases one <;> simp [when, h]
    · cases one <;> simp [when]
  · simp

theorem no_start_call (n : Name) (k : Kind) (one : Bool) (c : Call) (hp : one = false → ∀ u par, c = .update u par → Par k par) : Ev.start n ∉ callEvs k one c := by
  cases c with
  | other d => simp [callEvs]
  | predict d => simp [callEvs, predictEvs]
  | update u par =>
    have hm : Ev.start n ∉ mapEvs k one u.parts par := by
      unfold mapEvs
      split
      · intro h
        obtain ⟨p, -, h'⟩ := List.mem_flatMap.1 h
        exact no_start_map n k one p h'
      · rename_i ho
        intro h
        rcases hp (by simpa using ho) u par rfl _ h with ⟨d, h'⟩ | ⟨-, h'⟩ <;> cases h'
    unfold callEvs updateEvs
    cases hs : u.some
    · simp [hs]
    · have hw : Ev.start n ∉ weightEvs k one u.weighting := by
        unfold weightEvs
        split
        · cases one <;> simp [loopEvs, when]
        · simp
      cases one <;> simp [when, loopEvs, hm, hw, hs]

theorem elapsed_call {k : Kind} {one : Bool} {c : Call} {w : World} (hw : Rest w) (hp : one = false → ∀ u par, c = .update u par → Par k par) :
    Rest (exec (callEvs k one c) w) ∧ total (exec (callEvs k one c) w) = total w + callTime k one c + callWeight k one c := by
  have h : ∀ n, ((exec (callEvs k one c) w).tm n).stopped = !(charge n false (callEvs k one c)).1 ∧ (exec (callEvs k one c) w).elapsed n = w.elapsed n + (charge n false (callEvs k one c)).2 := by
    intro n
    have := exec_charge n (callEvs k one c) w (no_start_call n k one c hp)
    rw [hw n] at this
    exact this
  have hc : (∀ n, (charge n false (callEvs k one c)).1 = false) ∧
      (charge .predict false (callEvs k one c)).2 + (charge .mapUpdate false (callEvs k one c)).2 + (charge .weighting false (callEvs k one c)).2 + (charge .merge false (callEvs k one c)).2 +
        (charge .prune false (callEvs k one c)).2 + (charge .resample false (callEvs k one c)).2 = callTime k one c + callWeight k one c := by
    cases c with
    | other d => exact ⟨fun n => by simp [callEvs, charge], by simp [callEvs, charge, callTime, callWeight]⟩
    | predict d => exact ⟨fun n => by cases n <;> simp [callEvs, predictEvs, charge], by simp [callEvs, predictEvs, charge, callTime, callWeight]⟩
    | update u par => exact charge_update k one u par fun ho => hp ho u par rfl
  refine ⟨fun n => by rw [(h n).1, hc.1 n]; rfl, ?_⟩
  unfold total
  rw [(h .predict).2, (h .mapUpdate).2, (h .weighting).2, (h .merge).2, (h .prune).2, (h .resample).2]
  linarith [hc.2]

/-- **C226**, what the line "Total" is exactly, for every filter, number of threads and run: what the timers showed before (the durations of their constructors), plus the time spent in `predict` and the parts of `update`; with the cluster
process and one thread, plus the time of the weighting once more. All timers are stopped after every call, so it does not matter when the line is printed. -/
theorem C226_exact (k : Kind) (one : Bool) (cs : List Call) (w : World) (hw : Rest w) (hp : Pars k one cs) :
    Rest (exec (runEvs k one cs) w) ∧ total (exec (runEvs k one cs) w) = total w + (cs.map (callTime k one)).sum + (cs.map (callWeight k one)).sum := by
  induction cs generalizing w with
  | nil => exact ⟨hw, by simp [runEvs, exec]⟩
  | cons c cs ih =>
    obtain ⟨h1, h2⟩ := elapsed_call (c := c) hw fun ho u par e => hp ho u par (by rw [e]; exact List.mem_cons_self)
    obtain ⟨h3, h4⟩ := ih _ h1 fun ho u par h => hp ho u par (List.mem_cons_of_mem _ h)
    have e : exec (runEvs k one (c :: cs)) w = exec (runEvs k one cs) (exec (callEvs k one c) w) := by
      unfold runEvs
      rw [List.flatMap_cons, exec_append]
    rw [e]
    refine ⟨h3, ?_⟩
    rw [h4, h2]
    simp only [List.map_cons, List.sum_cons]
    ring

theorem passed_nonneg (l : List Ev) : 0 ≤ passed l := by
  induction l with
  | nil => exact le_rfl
  | cons e l ih => cases e <;> simp only [passed] <;> first | exact ih | positivity

theorem passed_map (k : Kind) (one : Bool) (p : PartDur) : passed (updateMapEvs k one p) = partTime p := by
  unfold updateMapEvs partTime
  cases p.map
  · simp [passed]
  · rcases k with c | _
    · cases c <;> cases one <;> simp [clusterEvs, when, passed] <;> ring
    · cases one <;> simp [when, passed] <;> ring

theorem passed_flatMap {α : Type*} (g : α → List Ev) (v : α → ℤ) (l : List α) (h : ∀ a, passed (g a) = v a) : passed (l.flatMap g) = (l.map v).sum := by
  induction l with
  | nil => rfl
  | cons a l ih => rw [List.flatMap_cons, passed_append, h, ih, List.map_cons, List.sum_cons]

theorem callTime_le (k : Kind) (one : Bool) (c : Call) : callTime k one c ≤ passed (callEvs k one c) := by
  cases c with
  | other d => simp [callTime, callEvs, passed]
  | predict d => simp [callTime, callEvs, predictEvs, passed]
  | update u par =>
    have hm : passed (mapEvs k one u.parts par) = if one then (u.parts.map partTime).sum else passed par := by
      unfold mapEvs
      cases one
      · rfl
      · simp only [if_true]
        exact passed_flatMap _ _ _ fun p => passed_map k true p
    unfold callTime callEvs updTime updateEvs
    cases hs : u.some
    · simp [passed, hs]
    · rcases k with c | _
      · cases c <;> cases one <;> simp [when, weightEvs, loopEvs, passed_append, passed, hs] <;> rw [hm] <;> simp <;> linarith
      · cases one <;> simp [when, weightEvs, loopEvs, passed_append, passed, hs] <;> rw [hm] <;> simp <;> linarith

/-- The full claim: between two readings of the line "Total" it grows by no more than the time that passes. -/
def TotalFits (k : Kind) (one : Bool) : Prop := ∀ (cs : List Call) (w : World), Rest w → Pars k one cs → total (exec (runEvs k one cs) w) - total w ≤ (exec (runEvs k one cs) w).now - w.now

/-- **C226**, the claim as far as it holds: for the LMB and CB-MeMBer filters, for the RB-PHD filter without the cluster process, and with it if there are several threads, "Total" grows by the time spent in `predict` and the parts of
`update`, no more than the time that passes. -/
theorem C226_partial (k : Kind) (one : Bool) (h : k = .phd true → one = false) : (∀ (cs : List Call) (w : World), Rest w → Pars k one cs → total (exec (runEvs k one cs) w) = total w + (cs.map (callTime k one)).sum) ∧ TotalFits k one := by
  have h0 : ∀ cs : List Call, (cs.map (callWeight k one)).sum = 0 := by
    intro cs
    apply List.sum_eq_zero
    intro x hx
    obtain ⟨c, -, rfl⟩ := List.mem_map.1 hx
    unfold callWeight
    split
    · split
      · rename_i hk
        have := h rfl
        simp [this]
      · rfl
    · rfl
  have h1 : ∀ (cs : List Call) (w : World), Rest w → Pars k one cs → total (exec (runEvs k one cs) w) = total w + (cs.map (callTime k one)).sum := by
    intro cs w hw hp
    rw [(C226_exact k one cs w hw hp).2, h0 cs, add_zero]
  refine ⟨h1, fun cs w hw hp => ?_⟩
  rw [h1 cs w hw hp, exec_now]
  have : (cs.map (callTime k one)).sum ≤ passed (runEvs k one cs) := by
    unfold runEvs
    rw [passed_flatMap _ _ _ fun c => rfl]
    exact List.sum_le_sum fun c _ => callTime_le k one c
  linarith

/-- **C226**, violated: with the cluster process and one thread the weighting of particles with landmarks counts twice: an update in which nothing else takes time adds twice its duration. -/
theorem C226_violated (d : Nat) (w : World) (hw : Rest w) :
    let cs : List Call := [.update ⟨true, 0, 0, [⟨true, 0, 0, 0, 0, d, 0⟩], 0, 0, 0, 0⟩ []]
    total (exec (runEvs (.phd true) true cs) w) - total w = 2 * d ∧ (exec (runEvs (.phd true) true cs) w).now - w.now = d := by
  intro cs
  have h := (C226_exact (.phd true) true cs w hw (fun h => by cases h)).2
  refine ⟨?_, ?_⟩
  · rw [h]
    simp [cs, callTime, callWeight, updTime, partTime, partWeight]
    ring
  · rw [exec_now]
    simp [cs, runEvs, callEvs, updateEvs, mapEvs, updateMapEvs, clusterEvs, weightEvs, loopEvs, when, passed]

/-- Timers just constructed. -/
def fresh : World := ⟨0, fun _ => Tm.new (-1) 0⟩

theorem fresh_rest : Rest fresh := fun _ => rfl

theorem C226_violated_full : ¬ TotalFits (.phd true) true := by
  intro h
  have h1 := h [.update ⟨true, 0, 0, [⟨true, 0, 0, 0, 0, 1, 0⟩], 0, 0, 0, 0⟩ []] fresh fresh_rest (fun h => by cases h)
  obtain ⟨h2, h3⟩ := C226_violated 1 fresh fresh_rest
  rw [h2, h3] at h1
  revert h1
  decide

/-- A run with two threads and the cluster process: `stop` of the idle timer changes nothing. -/
example : Pars (.phd true) false [.predict 4, .update ⟨true, 1, 1, [], 0, 2, 3, 5⟩ [.work 7, .stop .weighting, .work 1], .other 100] ∧
    total (exec (runEvs (.phd true) false [.predict 4, .update ⟨true, 1, 1, [], 0, 2, 3, 5⟩ [.work 7, .stop .weighting, .work 1], .other 100]) fresh) = 6 + 4 + 8 + 2 + 3 + 5 := by
  refine ⟨fun _ u par h => ?_, by decide⟩
  simp only [List.mem_cons, Call.update.injEq, List.not_mem_nil, or_false, reduceCtorEq, false_or] at h
  obtain ⟨-, rfl⟩ := h
  intro e he
  simp only [List.mem_cons, List.not_mem_nil, or_false] at he
  rcases he with rfl | rfl | rfl
  · exact Or.inl ⟨_, rfl⟩
  · exact Or.inr ⟨rfl, rfl⟩
  · exact Or.inl ⟨_, rfl⟩

/-! ### C227 -/

/-- Time of a hypothesis that the timers see. -/
def hypTime (h : HypDur) : ℤ := h.kf + h.manage + h.weight

/-- Time of a particle that the timers see. -/
def fSeen (p : FPart) : ℤ := p.assoc + (p.hyps.map hypTime).sum

/-- Time of a particle. -/
def fTime (p : FPart) : ℤ := p.first + p.assoc + (p.hyps.map fun h => h.first + hypTime h).sum + p.rest

/-- Duration of the loop over the particles. -/
def fLoop (omp : Bool) (save : Option Nat) (u : FUpd) : ℤ :=
  match omp, save with
  | true, some d => d
  | _, _ => (u.parts.map fTime).sum

/-- Part of the duration of a call that goes into "Total". -/
def fCounted (omp : Bool) : FCall → ℤ
  | .other _ => 0
  | .predict d => d
  | .update u _ => if u.some then (if omp then 0 else (u.parts.map fSeen).sum) + u.resample else 0

/-- Duration of prediction, map update and resampling in a call. -/
def fSpent (omp : Bool) : FCall → ℤ
  | .other _ => 0
  | .predict d => d
  | .update u save => if u.some then fLoop omp save u + u.resample else 0

theorem charge_hyp (omp : Bool) (n : Name) (r : Bool) (h : HypDur) (hn : n ≠ .kf ∧ n ≠ .manage ∧ n ≠ .weighting) : charge n r (hypEvs omp h) = (r, if r then h.first + hypTime h else 0) := by
  obtain ⟨h1, h2, h3⟩ := hn
  unfold hypEvs hypTime
  cases omp <;> cases r <;> simp [when, charge, Ne.symm h1, Ne.symm h2, Ne.symm h3] <;> ring

theorem charge_hyps (omp : Bool) (n : Name) (r : Bool) (hs : List HypDur) (hn : n ≠ .kf ∧ n ≠ .manage ∧ n ≠ .weighting) : charge n r (hs.flatMap (hypEvs omp)) = (r, if r then (hs.map fun h => (h.first : ℤ) + hypTime h).sum else 0) := by
  rw [charge_flatMap n r _ (fun h => if r then (h.first : ℤ) + hypTime h else 0) hs fun h _ => charge_hyp omp n r h hn]
  cases r <;> simp

theorem charge_hyp_in (omp : Bool) (h : HypDur) : charge .kf false (hypEvs omp h) = (false, if omp then 0 else (h.kf : ℤ)) ∧ charge .manage false (hypEvs omp h) = (false, if omp then 0 else (h.manage : ℤ)) ∧
    charge .weighting false (hypEvs omp h) = (false, if omp then 0 else (h.weight : ℤ)) := by
  unfold hypEvs
  cases omp <;> simp [when, charge]

theorem charge_part (omp : Bool) (n : Name) (r : Bool) (p : FPart) (hn : n = .predict ∨ n = .mapUpdate ∨ n = .resample ∨ n = .merge ∨ n = .prune) : charge n r (fMapEvs omp p) = (r, if r then fTime p else 0) := by
  have hh : ∀ r, charge n r (p.hyps.flatMap (hypEvs omp)) = _ := fun r => charge_hyps omp n r p.hyps (by rcases hn with rfl | rfl | rfl | rfl | rfl <;> decide)
  have ha : Name.assoc ≠ n := by rcases hn with rfl | rfl | rfl | rfl | rfl <;> decide
  unfold fMapEvs fTime
  cases omp <;> cases r <;> simp [when, charge, charge_append, hh, ha] <;> ring

theorem charge_part_in (omp : Bool) (p : FPart) : charge .assoc false (fMapEvs omp p) = (false, if omp then 0 else (p.assoc : ℤ)) ∧
    charge .kf false (fMapEvs omp p) = (false, if omp then 0 else (p.hyps.map fun h => (h.kf : ℤ)).sum) ∧ charge .manage false (fMapEvs omp p) = (false, if omp then 0 else (p.hyps.map fun h => (h.manage : ℤ)).sum) ∧
    charge .weighting false (fMapEvs omp p) = (false, if omp then 0 else (p.hyps.map fun h => (h.weight : ℤ)).sum) := by
  have a1 := charge_hyps omp .assoc false p.hyps (by decide)
  have a2 := charge_flatMap .kf false (hypEvs omp) _ p.hyps fun h _ => (charge_hyp_in omp h).1
  have a3 := charge_flatMap .manage false (hypEvs omp) _ p.hyps fun h _ => (charge_hyp_in omp h).2.1
  have a4 := charge_flatMap .weighting false (hypEvs omp) _ p.hyps fun h _ => (charge_hyp_in omp h).2.2
  unfold fMapEvs
  cases omp <;> simp [when, charge, charge_append, a1, a2, a3, a4]

theorem hypEvs_start (omp : Bool) (n : Name) (h : HypDur) : Ev.start n ∉ hypEvs omp h := by
  cases omp <;> simp [hypEvs, when]

theorem fMapEvs_start (omp : Bool) (n : Name) (p : FPart) : Ev.start n ∉ fMapEvs omp p := by
  have h : Ev.start n ∉ p.hyps.flatMap (hypEvs omp) := by
    intro h
    obtain ⟨a, -, h'⟩ := List.mem_flatMap.1 h
    exact hypEvs_start omp n a h'
  unfold fMapEvs
  intro hh
  cases omp <;> simp [when] at hh <;> exact h (by simpa using hh)

/-- The events of the loop over the particles. -/
def fLoopEvs (omp : Bool) (save : Option Nat) (u : FUpd) : List Ev :=
  match omp, save with
  | true, some d => [.work d]
  | _, _ => u.parts.flatMap (fMapEvs omp)

theorem fUpdate_eq (omp : Bool) (save : Option Nat) (u : FUpd) :
    fUpdateEvs omp save u = [.work u.setup] ++ if u.some then [.work u.copy, .resume .mapUpdate] ++ fLoopEvs omp save u ++ [.stop .mapUpdate, .resume .resample, .work u.resample, .stop .resample] else [] := rfl

theorem fLoop_start (omp : Bool) (save : Option Nat) (u : FUpd) (n : Name) : Ev.start n ∉ fLoopEvs omp save u := by
  have h : Ev.start n ∉ u.parts.flatMap (fMapEvs omp) := by
    intro h
    obtain ⟨a, -, h'⟩ := List.mem_flatMap.1 h
    exact fMapEvs_start omp n a h'
  unfold fLoopEvs
  split
  · simp
  · exact h

theorem charge_loop (omp : Bool) (save : Option Nat) (u : FUpd) (n : Name) (r : Bool) (hn : n = .predict ∨ n = .mapUpdate ∨ n = .resample ∨ n = .merge ∨ n = .prune) : charge n r (fLoopEvs omp save u) = (r, if r then fLoop omp save u else 0) := by
  unfold fLoopEvs fLoop
  split
  · cases r <;> simp [charge]
  · rw [charge_flatMap n r _ _ u.parts fun p _ => charge_part omp n r p hn]
    cases r <;> simp

theorem sum_add4 {α : Type*} (l : List α) (a b c d : α → ℤ) : (l.map a).sum + (l.map b).sum + (l.map c).sum + (l.map d).sum = (l.map fun x => a x + b x + c x + d x).sum := by
  induction l with
  | nil => rfl
  | cons x l ih => simp only [List.map_cons, List.sum_cons]; linarith

theorem sum_hyp (hs : List HypDur) : (hs.map fun h => (h.kf : ℤ)).sum + (hs.map fun h => (h.manage : ℤ)).sum + (hs.map fun h => (h.weight : ℤ)).sum = (hs.map hypTime).sum := by
  induction hs with
  | nil => rfl
  | cons x l ih => simp only [List.map_cons, List.sum_cons, hypTime] at ih ⊢; linarith

theorem charge_loop_in (omp : Bool) (save : Option Nat) (u : FUpd) : (∀ n, (charge n false (fLoopEvs omp save u)).1 = false) ∧
    (charge .assoc false (fLoopEvs omp save u)).2 + (charge .kf false (fLoopEvs omp save u)).2 + (charge .manage false (fLoopEvs omp save u)).2 + (charge .weighting false (fLoopEvs omp save u)).2 = if omp then 0 else (u.parts.map fSeen).sum := by
  have h0 : ∀ n, n = .predict ∨ n = .mapUpdate ∨ n = .resample ∨ n = .merge ∨ n = .prune → (charge n false (fLoopEvs omp save u)).1 = false := fun n hn => by rw [charge_loop omp save u n false hn]
  by_cases hx : omp = true ∧ ∃ d, save = some d
  · obtain ⟨rfl, d, rfl⟩ := hx
    exact ⟨fun n => by simp [fLoopEvs, charge], by simp [fLoopEvs, charge]⟩
  · have he : fLoopEvs omp save u = u.parts.flatMap (fMapEvs omp) := by
      unfold fLoopEvs
      split
      · exact absurd ⟨rfl, _, rfl⟩ hx
      · rfl
    rw [he]
    have a1 := charge_flatMap .assoc false (fMapEvs omp) _ u.parts fun p _ => (charge_part_in omp p).1
    have a2 := charge_flatMap .kf false (fMapEvs omp) _ u.parts fun p _ => (charge_part_in omp p).2.1
    have a3 := charge_flatMap .manage false (fMapEvs omp) _ u.parts fun p _ => (charge_part_in omp p).2.2.1
    have a4 := charge_flatMap .weighting false (fMapEvs omp) _ u.parts fun p _ => (charge_part_in omp p).2.2.2
    refine ⟨fun n => ?_, ?_⟩
    · rw [← he]
      cases n
      all_goals first | exact h0 _ (by decide) | (rw [he]; first | rw [a1] | rw [a2] | rw [a3] | rw [a4])
    · rw [a1, a2, a3, a4]
      dsimp only
      rw [sum_add4]
      cases omp
      · simp only [Bool.false_eq_true, if_false]
        congr 1
        apply List.map_congr_left
        intro p _
        unfold fSeen
        rw [← sum_hyp]
        ring
      · simp

theorem elapsed_fcall (omp : Bool) (c : FCall) (w : World) (hw : Rest w) : Rest (exec (fCallEvs omp c) w) ∧ fTotal (exec (fCallEvs omp c) w) = fTotal w + fCounted omp c ∧
    w.elapsed .predict + w.elapsed .mapUpdate + w.elapsed .resample + fSpent omp c = (exec (fCallEvs omp c) w).elapsed .predict + (exec (fCallEvs omp c) w).elapsed .mapUpdate + (exec (fCallEvs omp c) w).elapsed .resample := by
  have hst : ∀ n, Ev.start n ∉ fCallEvs omp c := by
    intro n
    cases c with
    | other d => simp [fCallEvs]
    | predict d => simp [fCallEvs, predictEvs]
    | update u save =>
      have h := fLoop_start omp save u n
      show _ ∉ fUpdateEvs omp save u
      rw [fUpdate_eq]
      cases hs : u.some <;> simp [h]
  have h : ∀ n, ((exec (fCallEvs omp c) w).tm n).stopped = !(charge n false (fCallEvs omp c)).1 ∧ (exec (fCallEvs omp c) w).elapsed n = w.elapsed n + (charge n false (fCallEvs omp c)).2 := by
    intro n
    have := exec_charge n (fCallEvs omp c) w (hst n)
    rw [hw n] at this
    exact this
  have hc : (∀ n, (charge n false (fCallEvs omp c)).1 = false) ∧
      (charge .predict false (fCallEvs omp c)).2 + (charge .assoc false (fCallEvs omp c)).2 + (charge .kf false (fCallEvs omp c)).2 + (charge .weighting false (fCallEvs omp c)).2 +
        (charge .manage false (fCallEvs omp c)).2 + (charge .resample false (fCallEvs omp c)).2 = fCounted omp c ∧
      (charge .predict false (fCallEvs omp c)).2 + (charge .mapUpdate false (fCallEvs omp c)).2 + (charge .resample false (fCallEvs omp c)).2 = fSpent omp c := by
    cases c with
    | other d => exact ⟨fun n => by simp [fCallEvs, charge], by simp [fCallEvs, charge, fCounted], by simp [fCallEvs, charge, fSpent]⟩
    | predict d => exact ⟨fun n => by cases n <;> simp [fCallEvs, predictEvs, charge], by simp [fCallEvs, predictEvs, charge, fCounted], by simp [fCallEvs, predictEvs, charge, fSpent]⟩
    | update u save =>
      have e : fCallEvs omp (.update u save) = fUpdateEvs omp save u := rfl
      rw [e, fUpdate_eq]
      cases hs : u.some
      · exact ⟨fun n => by simp [charge], by simp [charge, fCounted, hs], by simp [charge, fSpent, hs]⟩
      · obtain ⟨b1, b2⟩ := charge_loop_in omp save u
        have p1 := charge_loop omp save u .predict false (by decide)
        have p2 := charge_loop omp save u .mapUpdate true (by decide)
        have p3 := charge_loop omp save u .resample false (by decide)
        refine ⟨fun n => ?_, ?_, ?_⟩
        · cases n <;> simp [charge, charge_append, p1, p2, p3, b1]
        · simp only [fCounted, hs, if_true, ← b2]
          simp [charge, charge_append, p1, p3, b1]
          ring
        · simp [charge, charge_append, p1, p2, p3, fSpent, hs]
  refine ⟨fun n => by rw [(h n).1, hc.1 n]; rfl, ?_, ?_⟩
  · unfold fTotal
    rw [(h .predict).2, (h .assoc).2, (h .weighting).2, (h .kf).2, (h .manage).2, (h .resample).2]
    linarith [hc.2.1]
  · rw [(h .predict).2, (h .mapUpdate).2, (h .resample).2]
    linarith [hc.2.2]

/-- **C227**, what the lines show exactly: "Total" grows by `fCounted`, the lines of prediction, map update and resampling by `fSpent`. -/
theorem C227_exact (omp : Bool) (cs : List FCall) (w : World) (hw : Rest w) : Rest (exec (fRunEvs omp cs) w) ∧ fTotal (exec (fRunEvs omp cs) w) = fTotal w + (cs.map (fCounted omp)).sum ∧
    (exec (fRunEvs omp cs) w).elapsed .predict + (exec (fRunEvs omp cs) w).elapsed .mapUpdate + (exec (fRunEvs omp cs) w).elapsed .resample =
      w.elapsed .predict + w.elapsed .mapUpdate + w.elapsed .resample + (cs.map (fSpent omp)).sum := by
  induction cs generalizing w with
  | nil => exact ⟨hw, by simp [fRunEvs, exec], by simp [fRunEvs, exec]⟩
  | cons c cs ih =>
    obtain ⟨h1, h2, h3⟩ := elapsed_fcall omp c w hw
    obtain ⟨h4, h5, h6⟩ := ih _ h1
    have e : exec (fRunEvs omp (c :: cs)) w = exec (fRunEvs omp cs) (exec (fCallEvs omp c) w) := by
      unfold fRunEvs
      rw [List.flatMap_cons, exec_append]
    rw [e]
    refine ⟨h4, ?_, ?_⟩
    · rw [h5, h2]
      simp only [List.map_cons, List.sum_cons]
      ring
    · rw [h6, ← h3]
      simp only [List.map_cons, List.sum_cons]
      ring

/-- The full claim: "Total" grows by the time spent in prediction, map update and resampling. -/
def FTotalIs (omp : Bool) : Prop := ∀ (cs : List FCall) (w : World), Rest w → fTotal (exec (fRunEvs omp cs) w) - fTotal w = (cs.map (fSpent omp)).sum

theorem fTime_nonneg (p : FPart) : fSeen p ≤ fTime p := by
  have h : (p.hyps.map hypTime).sum ≤ (p.hyps.map fun h => (h.first : ℤ) + hypTime h).sum := List.sum_le_sum fun h _ => by simp
  unfold fSeen fTime
  linarith [Int.natCast_nonneg p.first, Int.natCast_nonneg p.rest]

theorem fSeen_nonneg (p : FPart) : 0 ≤ fSeen p := by
  have h : 0 ≤ (p.hyps.map hypTime).sum := List.sum_nonneg fun x hx => by
    obtain ⟨h, -, rfl⟩ := List.mem_map.1 hx
    unfold hypTime
    positivity
  unfold fSeen
  linarith [Int.natCast_nonneg p.assoc]

/-- **C227**, the claim as far as it holds: "Total" grows by no more than the time spent; without OpenMP what it misses is the time outside of association, Kalman filter, map management and weighting, so it is exact if that is 0. -/
theorem C227_partial (omp : Bool) (cs : List FCall) (w : World) (hw : Rest w) : fTotal (exec (fRunEvs omp cs) w) - fTotal w ≤ (cs.map (fSpent omp)).sum ∧
    (omp = false → (∀ u save, FCall.update u save ∈ cs → ∀ p ∈ u.parts, p.first = 0 ∧ p.rest = 0 ∧ ∀ h ∈ p.hyps, h.first = 0) → fTotal (exec (fRunEvs omp cs) w) - fTotal w = (cs.map (fSpent omp)).sum) := by
  rw [(C227_exact omp cs w hw).2.1, add_sub_cancel_left]
  refine ⟨List.sum_le_sum fun c _ => ?_, ?_⟩
  · cases c with
    | other d => exact le_rfl
    | predict d => exact le_rfl
    | update u save =>
      unfold fCounted fSpent
      dsimp only
      split
      · have h1 : (u.parts.map fSeen).sum ≤ (u.parts.map fTime).sum := List.sum_le_sum fun p _ => fTime_nonneg p
        have h2 : 0 ≤ (u.parts.map fSeen).sum := List.sum_nonneg fun x hx => by
          obtain ⟨p, -, rfl⟩ := List.mem_map.1 hx
          exact fSeen_nonneg p
        have h3 : (if omp then 0 else (u.parts.map fSeen).sum) ≤ fLoop omp save u := by
          unfold fLoop
          cases omp
          · simpa using h1
          · cases save <;> simp
            linarith
        linarith
      · exact le_rfl
  · rintro rfl h
    congr 1
    apply List.map_congr_left
    intro c hc
    cases c with
    | other d => rfl
    | predict d => rfl
    | update u save =>
      unfold fCounted fSpent fLoop
      dsimp only
      have : u.parts.map fSeen = u.parts.map fTime := by
        apply List.map_congr_left
        intro p hp
        obtain ⟨h1, h2, h3⟩ := h u save hc p hp
        unfold fSeen fTime
        rw [h1, h2]
        have : p.hyps.map hypTime = p.hyps.map fun h => (h.first : ℤ) + hypTime h := List.map_congr_left fun x hx => by rw [h3 x hx]; simp
        rw [this]
        simp
      simp [this]

/-- **C227**, violated: in a build with OpenMP, the default, "Total" contains prediction and resampling only: the map update, however long, is missing. -/
theorem C227_violated (cs : List FCall) (w : World) (hw : Rest w) : fTotal (exec (fRunEvs true cs) w) - fTotal w =
    (cs.map fun c => match c with | .other _ => (0 : ℤ) | .predict d => d | .update u _ => if u.some then (u.resample : ℤ) else 0).sum := by
  rw [(C227_exact true cs w hw).2.1, add_sub_cancel_left]
  congr 1
  apply List.map_congr_left
  intro c _
  cases c <;> simp [fCounted]

theorem C227_violated_full : ¬ FTotalIs true := by
  intro h
  have h1 := h [.update ⟨true, 0, 0, [⟨0, 3, [], 0⟩], 1⟩ none] fresh fresh_rest
  rw [C227_violated _ _ fresh_rest] at h1
  revert h1
  decide

/-- An update of one particle with two hypotheses: 1 before and 2 after, association 10, hypotheses 111 and 222 of which 11 and 22 are not timed, resampling 5. -/
example : fTotal (exec (fRunEvs false [.update ⟨true, 7, 7, [⟨1, 10, [⟨11, 20, 30, 50⟩, ⟨22, 40, 60, 100⟩], 2⟩], 5⟩ none]) fresh) - fTotal fresh = 10 + 100 + 200 + 5 ∧
    (exec (fRunEvs false [.update ⟨true, 7, 7, [⟨1, 10, [⟨11, 20, 30, 50⟩, ⟨22, 40, 60, 100⟩], 2⟩], 5⟩ none]) fresh).elapsed .mapUpdate - fresh.elapsed .mapUpdate = 1 + 10 + 111 + 222 + 2 := by decide

end TimingProps
end RFS
