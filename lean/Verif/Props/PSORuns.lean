import Verif.Lemmas.PSORuns
import Verif.Props.BatchLik
import Mathlib.Data.Rat.Floor

/-!
Properties C209-C214: whole runs of the particle swarm programs `rfspsoslam1dSim`, `rfspsoslam2dSim` and `rfspsoorbslam1dSim`.

Specification: the random numbers are below 1 (`drand48`), there is a set of measurements for every pose; the models, the schedules of the threads and the results of the optimiser are arbitrary.
What a user sees are the lines of the files and the particles at the end.
-/

set_option linter.unusedSectionVars false

namespace RFS
namespace PSORunsProps
open PSO PSORuns

variable {K Λ Z : Type} {P d n : Nat}
variable [Field K] [LinearOrder K] [FloorSemiring K] [IsStrictOrderedRing K] [LinearOrder Λ]

/-- A property of state and files kept by the iterations holds at the end of the loop. -/
theorem loop_keep (pr : Prog) (env : Env K Λ Z P d) (cfg : RCfg K) (W : World K n) (h0 : 0 < n) (every : Int) (I : St K Λ P d n × Files K Λ P d → Prop)
    (hstep : ∀ it s f, I (s, f) → ∃ t, body pr env cfg W h0 every it s = some t ∧ I (t, log it t f)) (its : List Nat) (s : St K Λ P d n × Files K Λ P d) (hs : I s) :
    ∃ t, loop pr env cfg W h0 every its s = some t ∧ I t := by
  refine foldlM_keep _ I its (fun s hs it _ => ?_) s hs
  obtain ⟨t, e, ht⟩ := hstep it s.1 s.2 hs
  exact ⟨_, by rw [e]; rfl, ht⟩

theorem start_ok [Bot Λ] (pr : Prog) (env : Env K Λ Z P d) (cfg : RCfg K) (W : World K n) (h0 : 0 < n) (us : Fin n → List (Fin P → K)) (Zs : List (List Z)) (N : Nat)
    (hr : ∀ k, W.rnd k < 1) (hu : ∀ i, (us i).length = N) (hZ : Zs.length = N + 1) :
    ∃ s : St K Λ P d n, start pr env cfg W h0 us Zs = some (s, log 0 s ⟨[], [], []⟩) ∧ SGood N s ∧
      ∃ s0 : St K Λ P d n, SGood N s0 ∧ s0.obj.bestP.cur = ⊥ ∧ (∀ i, (s0.obj.parts i).cur = ⊥) ∧ s = match pr with
        | .sim => s0
        | .orb => evalAll env h0 (W.sched 0 0) s0 := by
  obtain ⟨s, e, hs, -, h1, h2⟩ := init_ok (Λ := Λ) env cfg h0 W.rnd hr us Zs N hu hZ
  unfold start
  rw [e]
  cases pr with
  | sim => exact ⟨s, rfl, hs, s, hs, h1, h2, rfl⟩
  | orb => exact ⟨_, rfl, evalAll_good env h0 _ s N hs, s, hs, h1, h2, rfl⟩

/-- From a property of the start that the iterations keep. -/
theorem run_keep [Bot Λ] (pr : Prog) (env : Env K Λ Z P d) (cfg : RCfg K) (W : World K n) (h0 : 0 < n) (every maxiter : Int) (us : Fin n → List (Fin P → K)) (Zs : List (List Z)) (N : Nat)
    (hr : ∀ k, W.rnd k < 1) (hu : ∀ i, (us i).length = N) (hZ : Zs.length = N + 1) (I : St K Λ P d n × Files K Λ P d → Prop)
    (hstart : ∀ s0 : St K Λ P d n, SGood N s0 → s0.obj.bestP.cur = ⊥ → (∀ i, (s0.obj.parts i).cur = ⊥) →
      I (match pr with
        | .sim => (s0, log 0 s0 ⟨[], [], []⟩)
        | .orb => (evalAll env h0 (W.sched 0 0) s0, log 0 (evalAll env h0 (W.sched 0 0) s0) ⟨[], [], []⟩)))
    (hstep : ∀ it s f, I (s, f) → ∃ t, body pr env cfg W h0 every it s = some t ∧ I (t, log it t f)) :
    ∃ t, optimise pr env cfg W h0 every maxiter us Zs = some t ∧ I t := by
  obtain ⟨s, e, hs, s0, hs0, h1, h2, h3⟩ := start_ok (Λ := Λ) pr env cfg W h0 us Zs N hr hu hZ
  unfold optimise
  rw [e]
  refine loop_keep pr env cfg W h0 every I hstep _ _ ?_
  have := hstart s0 hs0 h1 h2
  cases pr with
  | sim => rw [h3]; exact this
  | orb => rw [h3]; exact this

/-! ### C209 -/

/-- **C209**: for every number of particles but zero, every measurements and every odometry of at least one input, a run ends without undefined behaviour, whatever the random numbers, the schedules and the
results of the optimiser. Every particle has a pose and a velocity for every time, an input between any two times, and a velocity for every landmark of its map and of its best map. -/
theorem C209_run [Bot Λ] (pr : Prog) (env : Env K Λ Z P d) (cfg : RCfg K) (W : World K n) (h0 : 0 < n) (every maxiter : Int) (us : Fin n → List (Fin P → K)) (Zs : List (List Z)) (N : Nat)
    (hr : ∀ k, W.rnd k < 1) (hu : ∀ i, (us i).length = N) (hZ : Zs.length = N + 1) (hN : every ≤ 0 ∨ 0 < N) :
    ∃ (s : St K Λ P d n) (f : Files K Λ P d), optimise pr env cfg W h0 every maxiter us Zs = some (s, f) ∧
      (∀ i, (s.obj.parts i).traj.pos.length = N + 1 ∧ (s.obj.parts i).traj.vel.length = N + 1 ∧ (s.obj.parts i).traj.inp.length = N ∧
        (s.obj.parts i).bestTraj.pos.length = N + 1 ∧ (s.obj.parts i).vel.length = (s.obj.parts i).lms.length ∧ (s.obj.parts i).bestVel.length = (s.obj.parts i).bestLms.length) ∧
      (s.top.length = n ∧ ∀ l ∈ s.top, ∀ j ∈ l, j < n) ∧
      ∀ row ∈ f.pose, row.2.2.length = N + 1 := by
  obtain ⟨⟨s, f⟩, e, hs, hf⟩ := run_keep (Λ := Λ) pr env cfg W h0 every maxiter us Zs N hr hu hZ
    (fun q => SGood N q.1 ∧ ∀ row ∈ q.2.pose, row.2.2.length = N + 1)
    (by
      have hlog : ∀ s : St K Λ P d n, SGood N s → ∀ row ∈ (log 0 s (⟨[], [], []⟩ : Files K Λ P d)).pose, row.2.2.length = N + 1 := by
        intro s hs row hrow
        simp only [log, List.nil_append, List.mem_map] at hrow
        obtain ⟨i, -, rfl⟩ := hrow
        exact (hs.parts i).pos
      intro s0 hs0 _ _
      cases pr with
      | sim => exact ⟨hs0, hlog _ hs0⟩
      | orb => exact ⟨evalAll_good env h0 _ s0 N hs0, hlog _ (evalAll_good env h0 _ s0 N hs0)⟩)
    (by
      intro it s f ⟨hs, hf⟩
      obtain ⟨t, e, ht⟩ := body_ok pr env cfg W h0 hr every it s N hN hs
      refine ⟨t, e, ht, fun row hrow => ?_⟩
      simp only [log, List.mem_append, List.mem_map] at hrow
      rcases hrow with hrow | ⟨i, -, rfl⟩
      · exact hf row hrow
      · exact (ht.parts i).pos)
  exact ⟨s, f, e, fun i => ⟨(hs.parts i).pos, (hs.parts i).vel, (hs.parts i).inp, (hs.parts i).best, (hs.parts i).fits.1, (hs.parts i).fits.2⟩, hs.top, hf⟩

/-- **C209**, the start: `init` gives every particle its odometry, no velocity, its own trajectory and map as the best ones, and no likelihood yet. -/
theorem C209_new [Bot Λ] (env : Env K Λ Z P d) (cfg : RCfg K) (rnd : Nat → K) (us : Fin n → List (Fin P → K)) (Zs : List (List Z)) (s : St K Λ P d n)
    (e : init env cfg rnd us Zs = some s) (i : Fin n) :
    (s.obj.parts i).traj.inp = us i ∧ (∀ v ∈ (s.obj.parts i).traj.vel, v = 0) ∧ (∀ v ∈ (s.obj.parts i).vel, v = 0) ∧ (s.obj.parts i).bestTraj = (s.obj.parts i).traj ∧
      (s.obj.parts i).bestLms = (s.obj.parts i).lms ∧ (s.obj.parts i).cur = ⊥ ∧ (s.obj.parts i).best = ⊥ := by
  let p0 : Pt K Λ P d := ⟨⟨[], [], []⟩, [], [], ⟨[], [], []⟩, [], [], ⊥, ⊥⟩
  let I : (Fin n → Pt K Λ P d) × Nat → Fin n → Prop := fun s i => (s.1 i).traj.inp = us i ∧ (∀ v ∈ (s.1 i).traj.vel, v = 0) ∧ (∀ v ∈ (s.1 i).vel, v = 0) ∧ (s.1 i).bestTraj = (s.1 i).traj ∧
    (s.1 i).bestLms = (s.1 i).lms ∧ (s.1 i).cur = ⊥ ∧ (s.1 i).best = ⊥
  have key : ∀ (l : List (Fin n)) (s r : (Fin n → Pt K Λ P d) × Nat), initParts env cfg rnd us Zs l s = some r → ∀ i, (i ∈ l ∨ I s i) → I r i := by
    intro l
    induction l with
    | nil => intro s r h i hi; cases h; simpa using hi
    | cons j l ih =>
      intro s r h i hi
      unfold initParts at h
      rw [List.foldlM_cons] at h
      cases e2 : initLms env.inv cfg.prob rnd (initTraj env.step (us j)).pos Zs s.2 with
      | none => rw [e2] at h; cases h
      | some q =>
        rw [e2] at h
        refine ih _ r h i ?_
        by_cases hij : i = j
        · subst hij
          right
          simp only [I, Function.update_self]
          refine ⟨rfl, fun v hv => List.eq_of_mem_replicate hv, fun v hv => ?_, rfl, rfl, rfl, rfl⟩
          simp only [initPart, PSO.initMap, List.take_nil, List.nil_append] at hv
          exact List.eq_of_mem_replicate hv
        · rcases hi with hi | hi
          · exact Or.inl ((List.mem_cons.1 hi).resolve_left hij)
          · right
            simp only [I, Function.update_of_ne hij]
            exact hi
  unfold init at e
  simp only at e
  cases e1 : initParts env cfg rnd us Zs (List.finRange n) (fun _ => p0, 0) with
  | none => rw [e1] at e; cases e
  | some r =>
    rw [e1] at e
    simp only [Option.bind_some, Option.map_eq_some_iff] at e
    obtain ⟨t, -, rfl⟩ := e
    exact key _ _ _ e1 i (Or.inl (List.mem_finRange i))

/-- A world for the examples: random numbers 0, one thread, an optimiser that changes nothing. -/
def quiet : World ℚ 1 := ⟨fun _ => 0, fun _ _ => ⟨fun _ => 0, [.eval 0, .crit 0]⟩, fun _ _ ps k => ps.getD k 0⟩

/-- Models for the examples: the likelihood grows with the number of landmarks. -/
def count : Env ℚ ℕ ℚ 1 1 := ⟨fun _ l => l.length + 1, fun x u k => x k + u k, fun x z k => x k + z, fun a b => |a 0 - b 0|, fun _ _ j => j⟩

/-- A configuration for the examples: every measurement makes a landmark. -/
def cfg1 : RCfg ℚ := ⟨⟨5, 1, 1, 1 / 2, 1, 1 / 2⟩, 1, true, 1⟩

/-- The hypotheses are met by a particle with three poses and three landmarks, optimised in every iteration. -/
example : (0 : Nat) < 1 ∧ (∀ k, quiet.rnd k < 1) ∧ (∀ _ : Fin 1, [(fun _ => 1 : Fin 1 → ℚ), fun _ => 2].length = 2) ∧
    (((optimise .orb count cfg1 quiet (by decide) 1 1 (fun _ => [fun _ => 1, fun _ => 2]) [[1], [2], [3]]).map fun r =>
      (r.2.pose.map fun row => (row.1, row.2.1, row.2.2.map (· 0)))) = some [(0, 4, [0, 1, 3]), (1, 4, [0, 1, 3])]) := by
  refine ⟨by decide, fun k => by norm_num [quiet], fun _ => rfl, by decide +kernel⟩

/-- A new particle with three landmarks. -/
example : ((init count cfg1 (fun _ => 0) (n := 1) (fun _ => [fun _ => 1, fun _ => 1]) [[1], [2], [3]]).map fun s => ((s.obj.parts 0).traj.inp.length, (s.obj.parts 0).bestLms.length, (s.obj.parts 0).vel.length)) = some (2, 3, 3) := by
  decide +kernel

/-- **C209**, the case excluded: without odometry inputs `optimizeParticles` reads a pose that does not exist. -/
theorem C209_single_pose (pr : Prog) (env : Env K Λ Z P d) (cfg : RCfg K) (W : World K n) (h0 : 0 < n) (every : Int) (it : Nat) (s : St K Λ P d n) (hs : SGood 0 s)
    (he : 0 < every ∧ (it : Int) % every = 0) : body pr env cfg W h0 every it s = none := by
  have key : ∀ s : St K Λ P d n, SGood 0 s → optimize (W.solve it) s = none := by
    intro s hs
    unfold optimize
    rw [if_neg]
    intro h
    have := h ⟨0, h0⟩
    unfold optPart at this
    rw [if_pos (Or.inl (by rw [(hs.parts _).pos]; omega))] at this
    cases this
  unfold body
  cases pr with
  | sim => simp [he, key s hs]
  | orb => simp [he, key _ (evalAll_good env h0 _ s 0 hs)]

/-! ### C210 -/

/-- **C210**: in every line of the trajectory file, in every particle at the end and in the best particle, the first pose is the origin. -/
theorem C210_origin [Bot Λ] (pr : Prog) (env : Env K Λ Z P d) (cfg : RCfg K) (W : World K n) (h0 : 0 < n) (every maxiter : Int) (us : Fin n → List (Fin P → K)) (Zs : List (List Z)) (N : Nat)
    (hr : ∀ k, W.rnd k < 1) (hu : ∀ i, (us i).length = N) (hZ : Zs.length = N + 1) (hN : every ≤ 0 ∨ 0 < N) (s : St K Λ P d n) (f : Files K Λ P d)
    (e : optimise pr env cfg W h0 every maxiter us Zs = some (s, f)) :
    (∀ row ∈ f.pose, row.2.2[0]? = some 0) ∧ (∀ i, (s.obj.parts i).traj.pos[0]? = some 0) ∧ (s.obj.bestP.traj.pos ≠ [] → s.obj.bestP.traj.pos[0]? = some 0) := by
  obtain ⟨q, e2, hs, hf⟩ := run_keep (Λ := Λ) pr env cfg W h0 every maxiter us Zs N hr hu hZ
    (fun q => SGood N q.1 ∧ ∀ row ∈ q.2.pose, row.2.2[0]? = some 0)
    (by
      have hlog : ∀ s : St K Λ P d n, SGood N s → ∀ row ∈ (log 0 s (⟨[], [], []⟩ : Files K Λ P d)).pose, row.2.2[0]? = some 0 := by
        intro s hs row hrow
        simp only [log, List.nil_append, List.mem_map] at hrow
        obtain ⟨i, -, rfl⟩ := hrow
        exact (hs.parts i).pos0
      intro s0 hs0 _ _
      cases pr with
      | sim => exact ⟨hs0, hlog _ hs0⟩
      | orb => exact ⟨evalAll_good env h0 _ s0 N hs0, hlog _ (evalAll_good env h0 _ s0 N hs0)⟩)
    (by
      intro it s f ⟨hs, hf⟩
      obtain ⟨t, e, ht⟩ := body_ok pr env cfg W h0 hr every it s N hN hs
      refine ⟨t, e, ht, fun row hrow => ?_⟩
      simp only [log, List.mem_append, List.mem_map] at hrow
      rcases hrow with hrow | ⟨i, -, rfl⟩
      · exact hf row hrow
      · exact (ht.parts i).pos0)
  rw [e] at e2
  cases e2
  exact ⟨hf, fun i => (hs.parts i).pos0, fun h => hs.bestP.resolve_left h⟩

/-- A world whose optimiser moves everything by one. -/
def pushy : World ℚ 1 := ⟨fun _ => 0, fun _ _ => ⟨fun _ => 0, [.eval 0, .crit 0]⟩, fun _ _ ps k => ps.getD k 0 + 1⟩

/-- The other poses do move. -/
example : (∀ k, pushy.rnd k < 1) ∧ ((optimise .orb count cfg1 pushy (by decide) 1 2 (fun _ => [fun _ => 1, fun _ => 2]) [[1], [2], [3]]).map fun r =>
      (r.2.pose.map fun row => row.2.2.map (· 0))) = some [[0, 1, 3], [0, 2, 4], [0, 3, 5]] := ⟨fun k => by norm_num [pushy], by decide +kernel⟩

/-! ### C211 -/

/-- **C211**, the full statement for a program: the likelihood in a line of the trajectory file is that of the trajectory in the same line and of the map in the same line of the map file. -/
def C211_full (pr : Prog) : Prop := ∀ (n : Nat) (h0 : 0 < n) (env : Env ℚ ℕ ℚ 1 1) (cfg : RCfg ℚ) (W : World ℚ n) (every maxiter : Int) (us : Fin n → List (Fin 1 → ℚ)) (Zs : List (List ℚ)) (N : Nat),
  (∀ k, 0 ≤ W.rnd k ∧ W.rnd k < 1) → (∀ i, (us i).length = N) → Zs.length = N + 1 → 0 < N → ∀ s f, optimise pr env cfg W h0 every maxiter us Zs = some (s, f) →
  ∀ (j : Nat) row map, f.pose[j]? = some row → f.lms[j]? = some map → row.2.1 = env.lik row.2.2 map.2

/-- **C211** is false of `rfspsoslam1dSim` and `rfspsoslam2dSim`: the first lines are written before the first evaluation. -/
theorem C211_violated_sim : ¬ C211_full .sim := by
  intro h
  have e : ∃ r, optimise .sim count cfg1 quiet (n := 1) (by decide) 0 1 (fun _ => [fun _ => 1]) [[1], [2]] = some r ∧
      (r.2.pose[0]?.map fun row => row.2.1) = some 0 ∧ (r.2.lms[0]?.map fun m => m.2.length) = some 2 :=
    Option.isSome_iff_exists.1 (by decide +kernel : (optimise .sim count cfg1 quiet (n := 1) (by decide) 0 1 (fun _ => [fun _ => 1]) [[1], [2]]).isSome) |>.elim
      fun r hr => ⟨r, hr, by
        have : ((optimise .sim count cfg1 quiet (n := 1) (by decide) 0 1 (fun _ => [fun _ => 1]) [[1], [2]]).map fun r => (r.2.pose[0]?.map fun row => row.2.1)) = some (some 0) := by decide +kernel
        rw [hr] at this; exact Option.some.inj this, by
        have : ((optimise .sim count cfg1 quiet (n := 1) (by decide) 0 1 (fun _ => [fun _ => 1]) [[1], [2]]).map fun r => (r.2.lms[0]?.map fun m => m.2.length)) = some (some 2) := by decide +kernel
        rw [hr] at this; exact Option.some.inj this⟩
  obtain ⟨⟨s, f⟩, e, h1, h2⟩ := e
  cases e1 : f.pose[0]? with
  | none => rw [e1] at h1; cases h1
  | some row =>
    cases e2 : f.lms[0]? with
    | none => rw [e2] at h2; cases h2
    | some m =>
      rw [e1] at h1; rw [e2] at h2
      have := h 1 (by decide) count cfg1 quiet 0 1 (fun _ => [fun _ => 1]) [[1], [2]] 1 (fun k => by norm_num [quiet]) (fun _ => rfl) rfl (by decide) s f e 0 row m e1 e2
      simp only [Option.map_some, Option.some.injEq] at h1 h2
      rw [h1] at this
      simp [count] at this

/-- Two measurements far apart; the particle's map differs from its best map after the first move. -/
def far : Env ℚ ℕ ℚ 1 1 := { count with asg := fun _ _ _ => 5 }

/-- **C211** is false of `rfspsoorbslam1dSim` too: the particles are moved after the evaluation. -/
theorem C211_violated_orb : ¬ C211_full .orb := by
  intro h
  have h1 : (optimise .orb far cfg1 quiet (n := 1) (by decide) 0 1 (fun _ => [fun _ => 1]) [[1], [2]]).isSome := by decide +kernel
  have h2 : ((optimise .orb far cfg1 quiet (n := 1) (by decide) 0 1 (fun _ => [fun _ => 1]) [[1], [2]]).map fun r => ((r.2.pose[1]?.map fun row => row.2.1), r.2.lms[1]?.map fun m => m.2.length)) =
      some (some 3, some 4) := by decide +kernel
  obtain ⟨⟨s, f⟩, e⟩ := Option.isSome_iff_exists.1 h1
  rw [e] at h2
  simp only [Option.map_some, Option.some.injEq, Prod.mk.injEq, Option.map_eq_some_iff] at h2
  obtain ⟨⟨row, e1, h3⟩, m, e2, h4⟩ := h2
  have := h 1 (by decide) far cfg1 quiet 0 1 (fun _ => [fun _ => 1]) [[1], [2]] 1 (fun k => by norm_num [quiet]) (fun _ => rfl) rfl (by decide) s f e 1 row m e1 e2
  simp [far, count, h3, h4] at this
/-- Without optimisation both programs evaluate and move. -/
theorem body_plain (pr : Prog) (env : Env K Λ Z P d) (cfg : RCfg K) (W : World K n) (h0 : 0 < n) (every : Int) (he : every ≤ 0) (it : Nat) (s : St K Λ P d n) :
    body pr env cfg W h0 every it s = move env cfg W.rnd (evalAll env h0 (W.sched it 0) s) := by
  have h : ¬ (0 < every ∧ (it : Int) % every = 0) := by omega
  cases pr <;> simp only [body, h, decide_false, Bool.false_eq_true, if_false, Option.bind_some]

theorem finRange_get {α : Type} (g : Fin n → α) (i : Nat) (a : α) : ((List.finRange n).map g)[i]? = some a ↔ ∃ h : i < n, g ⟨i, h⟩ = a := by
  constructor
  · intro h
    obtain ⟨h1, h2⟩ := List.getElem?_eq_some_iff.1 h
    simp at h1 h2
    exact ⟨h1, h2⟩
  · rintro ⟨h, rfl⟩
    rw [List.getElem?_eq_getElem (by simpa using h)]
    simp

/-- The last lines of the files are those of the state, and the lines of an iteration hold the likelihoods of the lines before. -/
structure Shift (env : Env K Λ Z P d) (s : St K Λ P d n) (f : Files K Λ P d) : Prop where
  len : f.lms.length = f.pose.length
  ge : n ≤ f.pose.length
  last : ∀ (j : Nat) row map, f.pose[j]? = some row → f.lms[j]? = some map → f.pose.length ≤ j + n → ∃ h : j + n - f.pose.length < n,
    row.2.1 = (s.obj.parts ⟨_, h⟩).cur ∧ row.2.2 = (s.obj.parts ⟨_, h⟩).traj.pos ∧ map.2 = (s.obj.parts ⟨_, h⟩).lms
  shift : ∀ (j : Nat) row map row', f.pose[j]? = some row → f.lms[j]? = some map → f.pose[j + n]? = some row' → row'.2.1 = env.lik row.2.2 map.2

theorem shift_start (env : Env K Λ Z P d) (s : St K Λ P d n) : Shift env s (log 0 s ⟨[], [], []⟩) where
  len := by simp [log]
  ge := by simp [log]
  last := by
    intro j row map h1 h2 h3
    simp only [log, List.nil_append] at h1 h2
    obtain ⟨hj, rfl⟩ := (finRange_get _ _ _).1 h1
    obtain ⟨-, rfl⟩ := (finRange_get _ _ _).1 h2
    have hl : (log 0 s (⟨[], [], []⟩ : Files K Λ P d)).pose.length = n := by simp [log]
    have : j + n - (log 0 s (⟨[], [], []⟩ : Files K Λ P d)).pose.length = j := by omega
    refine ⟨by omega, ?_⟩
    simp only [this]
    exact ⟨trivial, trivial, trivial⟩
  shift := by
    intro j row map row' h1 h2 h3
    have := (List.getElem?_eq_some_iff.1 h3).1
    simp [log] at this

theorem shift_step (env : Env K Λ Z P d) (s t : St K Λ P d n) (f : Files K Λ P d) (it : Nat) (hs : Shift env s f)
    (ht : ∀ i, (t.obj.parts i).cur = env.lik (s.obj.parts i).traj.pos (s.obj.parts i).lms) : Shift env t (log it t f) := by
  have hl : (log it t f).pose.length = f.pose.length + n := by simp [log]
  refine ⟨by simp [log, hs.len], by rw [hl]; omega, ?_, ?_⟩
  · intro j row map h1 h2 h3
    rw [hl] at h3
    simp only [log] at h1 h2
    rw [List.getElem?_append_right (by omega)] at h1
    rw [List.getElem?_append_right (by rw [hs.len]; omega)] at h2
    obtain ⟨hj, rfl⟩ := (finRange_get _ _ _).1 h1
    obtain ⟨-, rfl⟩ := (finRange_get _ _ _).1 h2
    have : j + n - (log it t f).pose.length = j - f.pose.length := by omega
    refine ⟨by omega, ?_⟩
    simp only [this, hs.len]
    exact ⟨trivial, trivial, trivial⟩
  · intro j row map row' h1 h2 h3
    have hj := (List.getElem?_eq_some_iff.1 h3).1
    rw [hl] at hj
    simp only [log] at h1 h2 h3
    rw [List.getElem?_append_left (by omega)] at h1
    rw [List.getElem?_append_left (by rw [hs.len]; omega)] at h2
    by_cases hjn : j + n < f.pose.length
    · rw [List.getElem?_append_left hjn] at h3
      exact hs.shift j row map row' h1 h2 h3
    · rw [List.getElem?_append_right (by omega)] at h3
      obtain ⟨hi, rfl⟩ := (finRange_get _ _ _).1 h3
      obtain ⟨hh, -, e1, e2⟩ := hs.last j row map h1 h2 (by omega)
      rw [e1, e2]
      exact ht _

/-- **C211**, the part that holds: without optimisation, the likelihood in a line of the trajectory file is that of the trajectory and the map in the same particle's lines of the iteration before. In
`rfspsoorbslam1dSim` the lines of iteration 0 hold their own likelihood. Missing: the likelihood of the lines themselves (`C211_violated_sim`, `C211_violated_orb`); with optimisation also that of the lines before. -/
theorem C211_shift_partial [Bot Λ] (pr : Prog) (env : Env K Λ Z P d) (cfg : RCfg K) (W : World K n) (h0 : 0 < n) (every maxiter : Int) (us : Fin n → List (Fin P → K)) (Zs : List (List Z)) (N : Nat)
    (hr : ∀ k, W.rnd k < 1) (hu : ∀ i, (us i).length = N) (hZ : Zs.length = N + 1) (he : every ≤ 0) (s : St K Λ P d n) (f : Files K Λ P d)
    (e : optimise pr env cfg W h0 every maxiter us Zs = some (s, f)) :
    f.lms.length = f.pose.length ∧
    (∀ (j : Nat) row map row', f.pose[j]? = some row → f.lms[j]? = some map → f.pose[j + n]? = some row' → row'.2.1 = env.lik row.2.2 map.2) ∧
    ∀ (j : Nat) row map, j < n → f.pose[j]? = some row → f.lms[j]? = some map → match pr with
      | .sim => row.2.1 = ⊥
      | .orb => row.2.1 = env.lik row.2.2 map.2 := by
  obtain ⟨q, e2, hs, hf, hg⟩ := run_keep (Λ := Λ) pr env cfg W h0 every maxiter us Zs N hr hu hZ
    (fun q => SGood N q.1 ∧ Shift env q.1 q.2 ∧ ∀ (j : Nat) row map, j < n → q.2.pose[j]? = some row → q.2.lms[j]? = some map → match pr with
      | .sim => row.2.1 = ⊥
      | .orb => row.2.1 = env.lik row.2.2 map.2)
    (by
      intro s0 hs0 hb hc
      cases pr with
      | sim =>
        refine ⟨hs0, shift_start env s0, fun j row map hj h1 h2 => ?_⟩
        simp only [log, List.nil_append] at h1
        obtain ⟨-, rfl⟩ := (finRange_get _ _ _).1 h1
        exact hc _
      | orb =>
        refine ⟨evalAll_good env h0 _ s0 N hs0, shift_start env _, fun j row map hj h1 h2 => ?_⟩
        simp only [log, List.nil_append] at h1 h2
        obtain ⟨-, rfl⟩ := (finRange_get _ _ _).1 h1
        obtain ⟨-, rfl⟩ := (finRange_get _ _ _).1 h2
        have := evalAll_part env h0 (W.sched 0 0) s0 ⟨j, hj⟩
        simp only
        rw [this.1, this.2.1, this.2.2])
    (by
      intro it s f ⟨hs, hf, hg⟩
      have hf : Shift env s f := hf
      obtain ⟨t, e, ht, hc, -⟩ := move_ok env cfg h0 W.rnd hr _ N (evalAll_good env h0 (W.sched it 0) s N hs)
      refine ⟨t, by rw [body_plain pr env cfg W h0 every he, e], ht, shift_step env s t f it hf fun i => ?_, fun j row map hj h1 h2 => ?_⟩
      · rw [hc i]; exact (evalAll_part env h0 (W.sched it 0) s i).1
      · have hge : n ≤ f.pose.length := hf.ge
        simp only [log] at h1 h2
        rw [List.getElem?_append_left (by omega)] at h1
        rw [List.getElem?_append_left (by rw [hf.len]; omega)] at h2
        exact hg j row map hj h1 h2)
  rw [e] at e2
  cases e2
  exact ⟨hf.len, hf.shift, hg⟩

/-- Two iterations: the 2 landmarks of iteration 0 have likelihood 3, which is in the line of iteration 1 too; the likelihood 5 of the 4 landmarks of that iteration is in the line of iteration 2. -/
example : ((optimise .orb far cfg1 quiet (n := 1) (by decide) 0 2 (fun _ => [fun _ => 1]) [[1], [2]]).map fun r => (r.2.pose.map fun row => row.2.1, r.2.lms.map fun m => m.2.length)) =
    some ([3, 3, 5], [2, 4, 8]) := by decide +kernel

/-! ### C212 -/

/-- **C212**, the full statement for a program: the lines written are those of the iterations 0 to the configured number, each for every particle. -/
def C212_full (pr : Prog) : Prop := ∀ (n : Nat) (h0 : 0 < n) (env : Env ℚ ℕ ℚ 1 1) (cfg : RCfg ℚ) (W : World ℚ n) (every maxiter : Int) (us : Fin n → List (Fin 1 → ℚ)) (Zs : List (List ℚ)) s f,
  optimise pr env cfg W h0 every maxiter us Zs = some (s, f) → f.pose.map Prod.fst = (List.range (maxiter.toNat + 1)).flatMap fun it => List.replicate n it

/-- The number of iterations each program runs. -/
def rounds : Prog → Int → Nat
  | .sim, maxiter => (maxiter - 1).toNat
  | .orb, maxiter => maxiter.toNat

theorem iterations_eq (pr : Prog) (maxiter : Int) : iterations pr maxiter = List.range' 1 (rounds pr maxiter) := by
  have key : ∀ (p : Nat → Bool) (m k a : Nat), m < k → (∀ x, a ≤ x → x < a + m → p x = true) → p (a + m) = false → (List.range' a k).takeWhile p = List.range' a m := by
    intro p m
    induction m with
    | zero =>
      intro k a hk _ hf
      obtain ⟨k, rfl⟩ := Nat.exists_eq_succ_of_ne_zero (by omega : k ≠ 0)
      rw [List.range'_succ, List.takeWhile_cons, if_neg (by simpa using hf)]
      rfl
    | succ m ih =>
      intro k a hk ht hf
      obtain ⟨k, rfl⟩ := Nat.exists_eq_succ_of_ne_zero (by omega : k ≠ 0)
      rw [List.range'_succ, List.takeWhile_cons, if_pos (ht a (le_refl _) (by omega)), List.range'_succ,
        ih k (a + 1) (by omega) (fun x h1 h2 => ht x (by omega) (by omega)) (by rw [show a + 1 + m = a + (m + 1) by omega]; exact hf)]
  unfold iterations
  cases pr with
  | sim => exact key _ _ _ _ (by simp only [rounds]; omega) (fun x h1 h2 => by simp only [rounds] at h2; simp only [decide_eq_true_eq]; omega) (decide_eq_false (by simp only [rounds]; omega))
  | orb => exact key _ _ _ _ (by simp only [rounds]; omega) (fun x h1 h2 => by simp only [rounds] at h2; simp only [decide_eq_true_eq]; omega) (decide_eq_false (by simp only [rounds]; omega))

theorem loop_files (pr : Prog) (env : Env K Λ Z P d) (cfg : RCfg K) (W : World K n) (h0 : 0 < n) (every : Int) : ∀ (its : List Nat) (q r : St K Λ P d n × Files K Λ P d),
    loop pr env cfg W h0 every its q = some r → r.2.pose.map Prod.fst = q.2.pose.map Prod.fst ++ (its.flatMap fun it => List.replicate n it) ∧
      r.2.lms.map Prod.fst = q.2.lms.map Prod.fst ++ (its.flatMap fun it => List.replicate n it) ∧ r.2.best = q.2.best
  | [], q, r, h => by cases h; simp
  | it :: its, q, r, h => by
    unfold loop at h
    rw [List.foldlM_cons] at h
    cases e : body pr env cfg W h0 every it q.1 with
    | none => rw [e] at h; cases h
    | some t =>
      rw [e] at h
      obtain ⟨h1, h2, h3⟩ := loop_files pr env cfg W h0 every its (t, log it t q.2) r h
      have hc : ∀ l : List (Fin n), (l.map fun _ => it) = List.replicate l.length it := fun l => by simp
      refine ⟨?_, ?_, h3⟩
      · rw [h1]; simp [log, Function.comp_def]
      · rw [h2]; simp [log, Function.comp_def]

/-- **C212**: the iterations written. `rfspsoorbslam1dSim` runs as many as configured, the other two one less (but they write iteration 0 too); none for numbers below. -/
theorem C212_rounds [Bot Λ] (pr : Prog) (env : Env K Λ Z P d) (cfg : RCfg K) (W : World K n) (h0 : 0 < n) (every maxiter : Int) (us : Fin n → List (Fin P → K)) (Zs : List (List Z))
    (s : St K Λ P d n) (f : Files K Λ P d) (e : optimise pr env cfg W h0 every maxiter us Zs = some (s, f)) :
    f.pose.map Prod.fst = f.lms.map Prod.fst ∧ f.pose.map Prod.fst = (List.range (rounds pr maxiter + 1)).flatMap fun it => List.replicate n it := by
  unfold optimise at e
  cases e1 : start pr env cfg W h0 us Zs with
  | none => rw [e1] at e; cases e
  | some q =>
    rw [e1] at e
    obtain ⟨h1, h2, -⟩ := loop_files pr env cfg W h0 every _ q _ e
    have hq : q.2.pose.map Prod.fst = List.replicate n 0 ∧ q.2.lms.map Prod.fst = List.replicate n 0 := by
      unfold start at e1
      obtain ⟨s0, -, rfl⟩ := Option.map_eq_some_iff.1 e1
      simp [log, Function.comp_def]
    simp only at h1 h2
    rw [h1, h2, hq.1, hq.2]
    refine ⟨rfl, ?_⟩
    rw [iterations_eq, List.range_eq_range', List.range'_succ, List.flatMap_cons]

/-- **C212** holds of `rfspsoorbslam1dSim`. -/
theorem C212_orb_partial : C212_full .orb := fun _ h0 env cfg W every maxiter us Zs s f e => (C212_rounds .orb env cfg W h0 every maxiter us Zs s f e).2

/-- **C212** is false of the other programs: with 2 iterations configured, iteration 2 is not run. -/
theorem C212_violated : ¬ C212_full .sim := by
  intro h
  have h1 : (optimise .sim count cfg1 quiet (n := 1) (by decide) 0 2 (fun _ => [fun _ => 1]) [[1], [2]]).isSome := by decide +kernel
  obtain ⟨⟨s, f⟩, e⟩ := Option.isSome_iff_exists.1 h1
  have h2 := h 1 (by decide) count cfg1 quiet 0 2 _ _ s f e
  rw [(C212_rounds .sim count cfg1 quiet (by decide) 0 2 _ _ s f e).2] at h2
  exact absurd h2 (by decide)

example : ((optimise .orb count cfg1 quiet (n := 1) (by decide) 0 2 (fun _ => [fun _ => 1]) [[1], [2]]).map fun r => r.2.pose.map Prod.fst) = some [0, 1, 2] := by decide +kernel

/-! ### C213 -/

/-- **C213**, the full statement for a program: the file `bestParticlePose.dat` has a line with the best trajectory found. -/
def C213_full (pr : Prog) : Prop := ∀ (n : Nat) (h0 : 0 < n) (env : Env ℚ ℕ ℚ 1 1) (cfg : RCfg ℚ) (W : World ℚ n) (every maxiter : Int) (us : Fin n → List (Fin 1 → ℚ)) (Zs : List (List ℚ)) s f,
  2 ≤ maxiter → optimise pr env cfg W h0 every maxiter us Zs = some (s, f) → ∃ row ∈ f.best, row.2.2 = s.obj.bestP.traj.pos

/-- **C213**: the file is empty after every run of every program. -/
theorem C213_violated_empty [Bot Λ] (pr : Prog) (env : Env K Λ Z P d) (cfg : RCfg K) (W : World K n) (h0 : 0 < n) (every maxiter : Int) (us : Fin n → List (Fin P → K)) (Zs : List (List Z))
    (s : St K Λ P d n) (f : Files K Λ P d) (e : optimise pr env cfg W h0 every maxiter us Zs = some (s, f)) : f.best = [] := by
  unfold optimise at e
  cases e1 : start pr env cfg W h0 us Zs with
  | none => rw [e1] at e; cases e
  | some q =>
    rw [e1] at e
    obtain ⟨-, -, h3⟩ := loop_files pr env cfg W h0 every _ q _ e
    unfold start at e1
    obtain ⟨s0, -, rfl⟩ := Option.map_eq_some_iff.1 e1
    exact h3

theorem C213_violated (pr : Prog) : ¬ C213_full pr := by
  intro h
  have h1 : ∀ pr, (optimise pr count cfg1 quiet (n := 1) (by decide) 0 2 (fun _ => [fun _ => 1]) [[1], [2]]).isSome := by
    intro pr
    cases pr <;> decide +kernel
  obtain ⟨⟨s, f⟩, e⟩ := Option.isSome_iff_exists.1 (h1 pr)
  obtain ⟨row, hrow, -⟩ := h 1 (by decide) count cfg1 quiet 0 2 _ _ s f (by decide) e
  rw [C213_violated_empty pr count cfg1 quiet (by decide) 0 2 _ _ s f e] at hrow
  cases hrow

/-- What is known of the best particle between two iterations. -/
structure BestInv [Bot Λ] (env : Env K Λ Z P d) (h0 : 0 < n) (s : St K Λ P d n) (f : Files K Λ P d) : Prop where
  first : (s.obj.parts ⟨0, h0⟩).cur ≤ s.obj.bestP.cur
  all : ∀ (j : Nat) row map, j + n < f.pose.length → f.pose[j]? = some row → f.lms[j]? = some map → env.lik row.2.2 map.2 ≤ s.obj.bestP.cur
  found : s.obj.bestP.cur = ⊥ ∨ (s.obj.bestP.cur = env.lik s.obj.bestP.traj.pos s.obj.bestP.lms ∧
    ∃ (j : Nat) (row : Nat × Λ × List (Fin P → K)) (map : Nat × List (Fin d → K)), f.pose[j]? = some row ∧ f.lms[j]? = some map ∧ row.2.2 = s.obj.bestP.traj.pos ∧ map.2 = s.obj.bestP.lms)

/-- **C213**, the part that holds: without optimisation, the best particle (`getBestParticle`) is in the files, with a likelihood no smaller than that of any trajectory and map in the lines of the iterations but
the last, whatever the schedules of the threads; or no likelihood was above minus infinity. Missing: the file of the best particle, the lines of the last iteration (their particles are never evaluated). -/
theorem C213_logged_partial [Bot Λ] (pr : Prog) (env : Env K Λ Z P d) (cfg : RCfg K) (W : World K n) (h0 : 0 < n) (every maxiter : Int) (us : Fin n → List (Fin P → K)) (Zs : List (List Z)) (N : Nat)
    (hr : ∀ k, W.rnd k < 1) (hu : ∀ i, (us i).length = N) (hZ : Zs.length = N + 1) (he : every ≤ 0) (hσ : ∀ it k, Schedule (W.sched it k).thread (W.sched it k).evs)
    (s : St K Λ P d n) (f : Files K Λ P d) (e : optimise pr env cfg W h0 every maxiter us Zs = some (s, f)) :
    (∀ (j : Nat) row map, j + n < f.pose.length → f.pose[j]? = some row → f.lms[j]? = some map → env.lik row.2.2 map.2 ≤ s.obj.bestP.cur) ∧
    (s.obj.bestP.cur = ⊥ ∨ (s.obj.bestP.cur = env.lik s.obj.bestP.traj.pos s.obj.bestP.lms ∧
      ∃ (j : Nat) (row : Nat × Λ × List (Fin P → K)) (map : Nat × List (Fin d → K)), f.pose[j]? = some row ∧ f.lms[j]? = some map ∧ row.2.2 = s.obj.bestP.traj.pos ∧ map.2 = s.obj.bestP.lms)) := by
  have hlast : ∀ (s : St K Λ P d n) f, Shift env s f → ∀ i : Fin n, ∃ (j : Nat) (row : Nat × Λ × List (Fin P → K)) (map : Nat × List (Fin d → K)),
      f.pose[j]? = some row ∧ f.lms[j]? = some map ∧ row.2.2 = (s.obj.parts i).traj.pos ∧ map.2 = (s.obj.parts i).lms := by
    intro s f hf i
    have h1 : f.pose.length - n + i < f.pose.length := by have := hf.ge; have := i.2; omega
    have e1 := List.getElem?_eq_getElem h1
    have e2 := List.getElem?_eq_getElem (by rw [hf.len]; exact h1 : f.pose.length - n + i < f.lms.length)
    obtain ⟨hh, -, h3, h4⟩ := hf.last _ _ _ e1 e2 (by omega)
    have : (⟨_, hh⟩ : Fin n) = i := Fin.ext (by have := hf.ge; show f.pose.length - n + i + n - f.pose.length = i; omega)
    rw [this] at h3 h4
    exact ⟨_, _, _, e1, e2, h3, h4⟩
  have heval : ∀ (σ : Sched n) (s : St K Λ P d n), Schedule σ.thread σ.evs → (s.obj.parts ⟨0, h0⟩).cur ≤ s.obj.bestP.cur → ∀ i,
      env.lik (s.obj.parts i).traj.pos (s.obj.parts i).lms ≤ (evalAll env h0 σ s).obj.bestP.cur :=
    fun σ s hσ ho i => PSOProps.evaluate_ge (fun (t : Traj K P) l => env.lik t.pos l) σ.thread h0 σ.evs hσ s.obj ho i
  obtain ⟨q, e2, -, -, hb⟩ := run_keep (Λ := Λ) pr env cfg W h0 every maxiter us Zs N hr hu hZ (fun q => SGood N q.1 ∧ Shift env q.1 q.2 ∧ BestInv env h0 q.1 q.2)
    (by
      have hall : ∀ (s : St K Λ P d n) (j : Nat) row map, j + n < (log 0 s (⟨[], [], []⟩ : Files K Λ P d)).pose.length → (log 0 s (⟨[], [], []⟩ : Files K Λ P d)).pose[j]? = some row →
          (log 0 s (⟨[], [], []⟩ : Files K Λ P d)).lms[j]? = some map → env.lik row.2.2 map.2 ≤ s.obj.bestP.cur := by
        intro s j row map h
        simp [log] at h
      intro s0 hs0 hb hc
      cases pr with
      | sim => exact ⟨hs0, shift_start env s0, by rw [hb, hc], hall s0, Or.inl hb⟩
      | orb =>
        refine ⟨evalAll_good env h0 _ s0 N hs0, shift_start env _, ?_, hall _, ?_⟩
        · rw [(evalAll_part env h0 (W.sched 0 0) s0 _).1]
          exact heval _ s0 (hσ 0 0) (by rw [hb, hc]) _
        · rcases (evalAll_best env h0 (W.sched 0 0) s0).2 with h | ⟨i, h⟩
          · left; rw [h]; exact hb
          · right
            rw [h]
            have := evalAll_part env h0 (W.sched 0 0) s0 i
            refine ⟨by rw [this.1, this.2.1, this.2.2], hlast _ _ (shift_start env _) i⟩)
    (by
      intro it s f ⟨hs, hf, hb⟩
      have hf : Shift env s f := hf
      obtain ⟨t, e, ht, hc, hbt⟩ := move_ok env cfg h0 W.rnd hr _ N (evalAll_good env h0 (W.sched it 0) s N hs)
      have hge := heval (W.sched it 0) s (hσ it 0) hb.first
      have hl : (log it t f).pose.length = f.pose.length + n := by simp [log]
      refine ⟨t, by rw [body_plain pr env cfg W h0 every he, e], ht, shift_step env s t f it hf fun i => ?_, ?_, ?_, ?_⟩
      · rw [hc i]; exact (evalAll_part env h0 (W.sched it 0) s i).1
      · rw [hc, hbt, (evalAll_part env h0 (W.sched it 0) s _).1]; exact hge _
      · intro j row map hj h1 h2
        rw [hl] at hj
        simp only [log] at h1 h2
        rw [List.getElem?_append_left (by omega)] at h1
        rw [List.getElem?_append_left (by rw [hf.len]; omega)] at h2
        rw [hbt]
        by_cases hjn : j + n < f.pose.length
        · exact (hb.all j row map hjn h1 h2).trans (evalAll_best env h0 (W.sched it 0) s).1
        · obtain ⟨hh, -, e1, e2⟩ := hf.last j row map h1 h2 (by omega)
          rw [e1, e2]
          exact hge _
      · have hold : ∀ {α : Type} (l l' : List α) (j : Nat) (a : α), l[j]? = some a → (l ++ l')[j]? = some a := by
          intro α l l' j a h
          rw [List.getElem?_append_left (List.getElem?_eq_some_iff.1 h).1]; exact h
        rw [hbt]
        rcases (evalAll_best env h0 (W.sched it 0) s).2 with h | ⟨i, h⟩
        · rw [h]
          rcases hb.found with h' | ⟨h', j, row, map, a1, a2, a3, a4⟩
          · exact Or.inl h'
          · exact Or.inr ⟨h', j, row, map, hold _ _ _ _ a1, hold _ _ _ _ a2, a3, a4⟩
        · right
          rw [h]
          have hp := evalAll_part env h0 (W.sched it 0) s i
          obtain ⟨j, row, map, a1, a2, a3, a4⟩ := hlast s f hf i
          exact ⟨by rw [hp.1, hp.2.1, hp.2.2], j, row, map, hold _ _ _ _ a1, hold _ _ _ _ a2, by rw [hp.2.1]; exact a3, by rw [hp.2.2]; exact a4⟩)
  rw [e] at e2
  cases e2
  exact ⟨hb.all, hb.found⟩

/-- The hypotheses are met; the best particle has 4 landmarks and likelihood 5, the last lines 8 landmarks. -/
example : (∀ it k, Schedule (quiet.sched it k).thread (quiet.sched it k).evs) ∧
    ((optimise .orb far cfg1 quiet (n := 1) (by decide) 0 2 (fun _ => [fun _ => 1]) [[1], [2]]).map fun r => (r.1.obj.bestP.cur, r.1.obj.bestP.lms.length)) = some (5, 4) := by
  refine ⟨fun it k => ?_, by decide +kernel⟩
  show Schedule (fun _ : Fin 1 => 0) [.eval 0, .crit 0]
  refine ⟨by decide, fun e => ?_, fun i => ?_, fun i j _ hij => absurd hij (by fin_cases i; fin_cases j; decide)⟩
  · cases e with
    | eval i => fin_cases i; decide
    | crit i => fin_cases i; decide
  · fin_cases i; decide

/-- What the optimiser does in the witness: nothing, then the pose 3, then 100, then 7. -/
def spur : World ℚ 1 := ⟨fun _ => 1 / 2, fun _ _ => ⟨fun _ => 0, [.eval 0, .crit 0]⟩, fun it _ ps k => if it < 2 then ps.getD k 0 else if it = 2 then 3 else if it = 3 then 100 else 7⟩

/-- A likelihood that is greatest at 100. -/
def peak : Env ℚ ℕ ℚ 1 1 := { count with lik := fun pos _ => match pos with
  | [_, x] => if x 0 = 100 then 9 else if x 0 = 1 then 5 else 1
  | _ => 0 }

/-- **C213** with optimisation: the best trajectory need not be in any file. The particle is evaluated after the optimisation and then moved by its velocity before it is written. -/
theorem C213_violated_unlogged (pr : Prog) : ∃ s f, optimise pr peak cfg1 spur (n := 1) (by decide) 1 4 (fun _ => [fun _ => 1]) [[], []] = some (s, f) ∧ s.obj.bestP.cur = 9 ∧
    ∀ row ∈ f.pose, row.2.2 ≠ s.obj.bestP.traj.pos := by
  have h1 : ∀ pr, ((optimise pr peak cfg1 spur (n := 1) (by decide) 1 4 (fun _ => [fun _ => 1]) [[], []]).map fun r =>
      (r.1.obj.bestP.cur, r.1.obj.bestP.traj.pos, decide (∀ row ∈ r.2.pose, row.2.2 ≠ r.1.obj.bestP.traj.pos))) = some (9, [fun _ => 0, fun _ => 100], true) := by
    intro pr
    cases pr <;> decide +kernel
  obtain ⟨⟨s, f⟩, e, h2⟩ := Option.map_eq_some_iff.1 (h1 pr)
  simp only [Prod.mk.injEq, decide_eq_true_eq] at h2
  exact ⟨s, f, e, h2.1, h2.2.2⟩

theorem optPart_cur (solve : List K → Nat → K) (p r : Pt K Λ P d) (h : optPart solve p = some r) : r.cur = p.cur := by
  unfold optPart at h
  split at h
  · cases h
  · cases e : Batch.initParams p.traj.pos p.lms with
    | none => rw [e] at h; cases h
    | some ps =>
      rw [e] at h
      simp only [Option.bind_some] at h
      obtain ⟨q, -, rfl⟩ := Option.map_eq_some_iff.1 h
      rfl

/-- The first particle is never better than the best one, and the likelihood of the best one is that of its trajectory and map. -/
structure BestFit [Bot Λ] (env : Env K Λ Z P d) (h0 : 0 < n) (s : St K Λ P d n) : Prop where
  first : (s.obj.parts ⟨0, h0⟩).cur ≤ s.obj.bestP.cur
  fit : s.obj.bestP.cur = ⊥ ∨ s.obj.bestP.cur = env.lik s.obj.bestP.traj.pos s.obj.bestP.lms

theorem bestFit_eval [Bot Λ] (env : Env K Λ Z P d) (h0 : 0 < n) (σ : Sched n) (hσ : Schedule σ.thread σ.evs) (s : St K Λ P d n) (hs : BestFit env h0 s) : BestFit env h0 (evalAll env h0 σ s) where
  first := by
    rw [(evalAll_part env h0 σ s _).1]
    exact PSOProps.evaluate_ge (fun (t : Traj K P) l => env.lik t.pos l) σ.thread h0 σ.evs hσ s.obj hs.first _
  fit := by
    rcases (evalAll_best env h0 σ s).2 with h | ⟨i, h⟩
    · rw [h]; exact hs.fit
    · right
      have := evalAll_part env h0 σ s i
      rw [h, this.1, this.2.1, this.2.2]

theorem bestFit_opt [Bot Λ] (env : Env K Λ Z P d) (h0 : 0 < n) (solve : Fin n → List K → Nat → K) (s t : St K Λ P d n) (hs : BestFit env h0 s)
    (ht : ∀ i, optPart (solve i) (s.obj.parts i) = some (t.obj.parts i)) (hb : t.obj.bestP = s.obj.bestP) : BestFit env h0 t where
  first := by rw [hb, optPart_cur _ _ _ (ht _)]; exact hs.first
  fit := by rw [hb]; exact hs.fit

theorem bestFit_body [Bot Λ] (pr : Prog) (env : Env K Λ Z P d) (cfg : RCfg K) (W : World K n) (h0 : 0 < n) (hr : ∀ k, W.rnd k < 1) (hσ : ∀ it k, Schedule (W.sched it k).thread (W.sched it k).evs)
    (every : Int) (it : Nat) (s : St K Λ P d n) (N : Nat) (hN : every ≤ 0 ∨ 0 < N) (hs : SGood N s) (hb : BestFit env h0 s) :
    ∃ t, body pr env cfg W h0 every it s = some t ∧ SGood N t ∧ BestFit env h0 t := by
  have hmove : ∀ s, SGood N s → BestFit env h0 s → ∃ t, move env cfg W.rnd s = some t ∧ SGood N t ∧ BestFit env h0 t := by
    intro s hs hb
    obtain ⟨t, e, ht, hc, hbt⟩ := move_ok env cfg h0 W.rnd hr s N hs
    exact ⟨t, e, ht, by rw [hc, hbt]; exact hb.first, by rw [hbt]; exact hb.fit⟩
  by_cases ho : 0 < every ∧ (it : Int) % every = 0
  · have hN : 0 < N := hN.resolve_left (by omega)
    unfold body
    cases pr with
    | sim =>
      obtain ⟨t, e, ht, hp, hbt⟩ := optimize_ok (W.solve it) s N hN hs
      obtain ⟨u, e2, hu⟩ := hmove _ (evalAll_good env h0 (W.sched it 0) t N ht) (bestFit_eval env h0 _ (hσ it 0) t (bestFit_opt env h0 _ s t hb hp hbt))
      exact ⟨u, by simp only [ho, and_self, decide_true, if_true, e, Option.bind_some, e2], hu⟩
    | orb =>
      obtain ⟨t, e, ht, hp, hbt⟩ := optimize_ok (W.solve it) _ N hN (evalAll_good env h0 (W.sched it 0) s N hs)
      obtain ⟨u, e2, hu⟩ := hmove _ (evalAll_good env h0 (W.sched it 1) t N ht)
        (bestFit_eval env h0 _ (hσ it 1) t (bestFit_opt env h0 _ _ t (bestFit_eval env h0 _ (hσ it 0) s hb) hp hbt))
      exact ⟨u, by simp only [ho, and_self, decide_true, if_true, e, Option.map_some, Option.bind_some, e2], hu⟩
  · obtain ⟨u, e2, hu⟩ := hmove _ (evalAll_good env h0 (W.sched it 0) s N hs) (bestFit_eval env h0 _ (hσ it 0) s hb)
    unfold body
    cases pr with
    | sim => exact ⟨u, by simp only [ho, decide_false, Bool.false_eq_true, if_false, Option.bind_some, e2], hu⟩
    | orb => exact ⟨u, by simp only [ho, decide_false, Bool.false_eq_true, if_false, Option.bind_some, e2], hu⟩

theorem run_bestFit [Bot Λ] (pr : Prog) (env : Env K Λ Z P d) (cfg : RCfg K) (W : World K n) (h0 : 0 < n) (every maxiter : Int) (us : Fin n → List (Fin P → K)) (Zs : List (List Z)) (N : Nat)
    (hr : ∀ k, W.rnd k < 1) (hu : ∀ i, (us i).length = N) (hZ : Zs.length = N + 1) (hN : every ≤ 0 ∨ 0 < N) (hσ : ∀ it k, Schedule (W.sched it k).thread (W.sched it k).evs)
    (s : St K Λ P d n) (f : Files K Λ P d) (e : optimise pr env cfg W h0 every maxiter us Zs = some (s, f)) : BestFit env h0 s := by
  obtain ⟨q, e2, -, h⟩ := run_keep (Λ := Λ) pr env cfg W h0 every maxiter us Zs N hr hu hZ (fun q => SGood N q.1 ∧ BestFit env h0 q.1)
    (by
      intro s0 hs0 hb hc
      have h : BestFit env h0 s0 := ⟨by rw [hb, hc], Or.inl hb⟩
      cases pr with
      | sim => exact ⟨hs0, h⟩
      | orb => exact ⟨evalAll_good env h0 _ s0 N hs0, bestFit_eval env h0 _ (hσ 0 0) s0 h⟩)
    (by
      intro it s f ⟨hs, hb⟩
      obtain ⟨t, e, ht⟩ := bestFit_body pr env cfg W h0 hr hσ every it s N hN hs hb
      exact ⟨t, e, ht⟩)
  rw [e] at e2
  cases e2
  exact h

/-- **C213**, with or without optimisation: the likelihood of the best particle is that of its trajectory and map. -/
theorem C213_consistent_partial [Bot Λ] (pr : Prog) (env : Env K Λ Z P d) (cfg : RCfg K) (W : World K n) (h0 : 0 < n) (every maxiter : Int) (us : Fin n → List (Fin P → K)) (Zs : List (List Z)) (N : Nat)
    (hr : ∀ k, W.rnd k < 1) (hu : ∀ i, (us i).length = N) (hZ : Zs.length = N + 1) (hN : every ≤ 0 ∨ 0 < N) (hσ : ∀ it k, Schedule (W.sched it k).thread (W.sched it k).evs)
    (s : St K Λ P d n) (f : Files K Λ P d) (e : optimise pr env cfg W h0 every maxiter us Zs = some (s, f)) :
    s.obj.bestP.cur = ⊥ ∨ s.obj.bestP.cur = env.lik s.obj.bestP.traj.pos s.obj.bestP.lms :=
  (run_bestFit pr env cfg W h0 every maxiter us Zs N hr hu hZ hN hσ s f e).fit

/-- **C213**, the end of the run: in `rfspsoorbslam1dSim` the best particle stays the one found; the number printed is the likelihood of the truth in all programs. -/
theorem C213_truth_partial (pr : Prog) (env : Env K Λ Z P d) (σ : Sched n) (h0 : 0 < n) (gt : List (Fin P → K)) (gl : List (Fin d → K)) (s : St K Λ P d n) :
    (truth pr env σ h0 gt gl s).2 = env.lik gt gl ∧ (pr = .orb → (truth pr env σ h0 gt gl s).1.obj.bestP = s.obj.bestP) := by
  cases pr with
  | sim =>
    refine ⟨?_, fun h => by cases h⟩
    unfold truth
    simp only
    rw [(evalAll_part env h0 σ _ _).1]
    simp
  | orb => exact ⟨rfl, fun _ => rfl⟩

/-- **C213**: in the other two programs the truth takes part in the search at the end: after every run the best particle is at least as likely as the truth, even if no particle came near it. -/
theorem C213_violated_truth [Bot Λ] (env : Env K Λ Z P d) (cfg : RCfg K) (W : World K n) (h0 : 0 < n) (every maxiter : Int) (us : Fin n → List (Fin P → K)) (Zs : List (List Z)) (N : Nat)
    (hr : ∀ k, W.rnd k < 1) (hu : ∀ i, (us i).length = N) (hZ : Zs.length = N + 1) (hN : every ≤ 0 ∨ 0 < N) (hσ : ∀ it k, Schedule (W.sched it k).thread (W.sched it k).evs)
    (s : St K Λ P d n) (f : Files K Λ P d) (e : optimise .sim env cfg W h0 every maxiter us Zs = some (s, f)) (σ : Sched n) (hs : Schedule σ.thread σ.evs) (gt : List (Fin P → K))
    (gl : List (Fin d → K)) : env.lik gt gl ≤ (truth .sim env σ h0 gt gl s).1.obj.bestP.cur := by
  have hb := run_bestFit .sim env cfg W h0 every maxiter us Zs N hr hu hZ hN hσ s f e
  unfold truth
  simp only
  have := PSOProps.evaluate_ge (fun (t : Traj K P) l => env.lik t.pos l) σ.thread h0 σ.evs hs
    { s.obj with parts := Function.update s.obj.parts ⟨0, h0⟩ { s.obj.parts ⟨0, h0⟩ with traj := { (s.obj.parts ⟨0, h0⟩).traj with pos := gt }, lms := gl } } (by simpa using hb.first) ⟨0, h0⟩
  simpa [evalAll] using this

/-- The best particle of the run has likelihood 1, that after the end of the program 31. -/
example : ((optimise .sim count cfg1 spur (n := 1) (by decide) 0 4 (fun _ => [fun _ => 1]) [[], []]).map fun r =>
    (r.1.obj.bestP.cur, (truth .sim count ⟨fun _ => 0, [.eval 0, .crit 0]⟩ (by decide) [fun _ => 0, fun _ => 1] (List.replicate 30 fun _ => 1) r.1).1.obj.bestP.cur)) = some (1, 31) := by decide +kernel

/-! ### C214 -/

/-- The parameters returned by the optimiser, as an array. -/
def vec (k : Nat) (g : Nat → K) : List K := (List.range k).map g

/-- **C214**, the part that holds: the optimiser starts from the trajectory and the map of the particle, and the trajectory and the map of the particle afterwards are those that the objective reads from the array
the optimiser returned. So if the optimiser does not make the objective worse, the particle is no worse in terms of the objective; and no less likely, if the likelihood of the swarm orders trajectories and maps as the
objective does. Missing: it does not (`C214_violated`). -/
theorem C214_optimised_partial (E : List (Fin P → K) → List (Fin d → K) → K) (solve : List K → Nat → K) (p : Pt K Λ P d) (N : Nat) (hN : 0 < N) (hp : PGood N p)
    (hsolve : ∀ (ps : List K) a b a' b', ps.length = Batch.numParameters P d (N + 1) p.lms.length → Batch.readParams P d (N + 1) p.lms.length ps = some (a, b) →
      Batch.readParams P d (N + 1) p.lms.length (vec ps.length (solve ps)) = some (a', b') → E a b ≤ E a' b') :
    ∃ (ps : List K) (r : Pt K Λ P d), optPart solve p = some r ∧ Batch.readParams P d (N + 1) p.lms.length ps = some (p.traj.pos, p.lms) ∧
      Batch.readParams P d (N + 1) p.lms.length (vec ps.length (solve ps)) = some (r.traj.pos, r.lms) ∧ E p.traj.pos p.lms ≤ E r.traj.pos r.lms ∧
      ∀ lik : List (Fin P → K) → List (Fin d → K) → Λ, (∀ a b a' b', E a b ≤ E a' b' → lik a b ≤ lik a' b') → lik p.traj.pos p.lms ≤ lik r.traj.pos r.lms := by
  obtain ⟨ps, e1, e2, e3⟩ := optPart_ok solve p N hN hp
  have hne : p.traj.pos ≠ [] := by intro h; have := hp.pos; rw [h] at this; simp at this
  have hr1 : Batch.readParams P d (N + 1) p.lms.length ps = some (p.traj.pos, p.lms) := by
    obtain ⟨ps', f1, f2, f3⟩ := BatchProps.C108_round_trip p.traj.pos p.lms hne
    have : ps' = ps := by
      rw [e1] at f1
      exact (List.map_injective_iff.2 (Option.some_injective K) (Option.some.inj f1)).symm
    subst this
    rw [hp.pos] at f3
    rw [f3]
    congr 2
    cases hq : p.traj.pos with
    | nil => exact absurd hq hne
    | cons x l =>
      have := hp.pos0
      rw [hq] at this
      simp only [List.length_cons, Nat.zero_lt_succ, List.getElem?_eq_getElem, List.getElem_cons_zero, Option.some.injEq] at this
      rw [this]; rfl
  have hvlen : (vec ps.length (solve ps)).length = Batch.numParameters P d (N + 1) p.lms.length := by simp [vec, e2]
  have hvget : ∀ k, k < ps.length → (vec ps.length (solve ps)).getD k 0 = solve ps k := by
    intro k hk
    rw [List.getD_eq_getElem?_getD, List.getElem?_eq_getElem (by simpa [vec] using hk)]
    simp [vec]
  have hr2 : Batch.readParams P d (N + 1) p.lms.length (vec ps.length (solve ps)) =
      some (posBack p.traj.pos (solve ps), lmsBack (P := P) p.traj.pos.length p.lms (solve ps)) := by
    unfold Batch.readParams
    rw [if_neg (by rw [hvlen]; omega)]
    have hnum : ps.length = N * P + p.lms.length * d := by rw [e2]; simp [Batch.numParameters]
    congr 2
    · apply List.ext_getElem
      · simp [posBack, hp.pos]
      · intro k h1 h2
        simp only [List.getElem_map, List.getElem_range, posBack, List.getElem_mapIdx]
        by_cases hk : k = 0
        · subst hk
          have := hp.pos0
          rw [List.getElem?_eq_getElem (by rw [hp.pos]; omega), Option.some.injEq] at this
          simp only [if_true, this]
          rfl
        · simp only [hk, if_false]
          funext e
          refine hvget _ ?_
          have hk2 : k - 1 + 1 ≤ N := by simp at h1; omega
          have := Nat.mul_le_mul_right P hk2
          rw [Nat.add_mul, Nat.one_mul] at this
          have := e.2
          omega
    · apply List.ext_getElem
      · simp [lmsBack]
      · intro m h1 h2
        simp only [List.getElem_map, List.getElem_range, lmsBack, List.getElem_mapIdx, hp.pos]
        funext e
        refine hvget _ ?_
        have hm : m + 1 ≤ p.lms.length := by simp at h1; omega
        have := Nat.mul_le_mul_right d hm
        rw [Nat.add_mul, Nat.one_mul] at this
        have := e.2
        simp only [Nat.add_sub_cancel]
        omega
  refine ⟨ps, _, e3, hr1, hr2, hsolve ps _ _ _ _ e2 hr1 hr2, fun lik h => h _ _ _ _ (hsolve ps _ _ _ _ e2 hr1 hr2)⟩

/-- The hypotheses are met by an optimiser that goes to 3, for an objective that prefers greater last poses, and a particle with two poses. -/
example : PGood 1 (⟨⟨[0, fun _ => 1], [0, 0], [fun _ => 1]⟩, [], [], ⟨[0, fun _ => 1], [0, 0], [fun _ => 1]⟩, [], [], 0, 0⟩ : Pt ℚ ℕ 1 1) := by
  refine ⟨rfl, rfl, rfl, rfl, ⟨rfl, rfl⟩, rfl, rfl, rfl⟩

/-- **C214**: after an optimisation the inputs of a particle are the differences of its poses, the poses being the optimised ones. -/
theorem C214_inputs (solve : List K → Nat → K) (p r : Pt K Λ P d) (N : Nat) (hN : 0 < N) (hp : PGood N p) (e : optPart solve p = some r) (k : Nat) (hk : k < N) :
    ∃ x y, r.traj.pos[k]? = some x ∧ r.traj.pos[k + 1]? = some y ∧ r.traj.inp[k]? = some (fun e => y e - x e) := by
  obtain ⟨ps, -, -, e3⟩ := optPart_ok solve p N hN hp
  rw [e3] at e
  cases e
  have hl : (posBack p.traj.pos (solve ps)).length = N + 1 := by simp [posBack, hp.pos]
  refine ⟨_, _, List.getElem?_eq_getElem (by simp only [hl]; omega), List.getElem?_eq_getElem (by simp only [hl]; omega), ?_⟩
  simp only [inpBack, List.getElem?_mapIdx]
  rw [List.getElem?_eq_getElem (l := p.traj.inp) (by rw [hp.inp]; exact hk), List.getElem?_eq_getElem (i := k) (by rw [hl]; omega), List.getElem?_eq_getElem (i := k + 1) (by rw [hl]; omega)]
  rfl

/-- The optimiser puts the second pose at 3: the input is 3. -/
example : ((optPart (fun _ _ => 3) (⟨⟨[fun _ => 0, fun _ => 1], [fun _ => 0, fun _ => 0], [fun _ => 1]⟩, [], [], ⟨[], [], []⟩, [], [], 0, 0⟩ : Pt ℚ ℚ 1 1)).map fun r => r.traj.inp.map fun u => u 0) = some [3] := by
  decide +kernel

/-- The likelihoods of an empty scan as both classes compute them, for the integral 1/2 of the clutter intensity and a landmark of detection probability 9/10 in view or no landmark in view: the swarm prefers the
landmark, the optimiser no landmark. (The swarm divides by the integral, and only if there are landmarks; the optimiser subtracts it in every case: C115, C116.) -/
theorem C214_scan (Q : ∀ n, Murty.PQ ℝ n) (fuel : Nat) (hf : 2 < fuel) :
    BatchLik.psoLik Q 10000 fuel (fun (_ : Fin 1) (z : Fin 0) => z.elim0) (fun _ => 9 / 10) (fun z => z.elim0) (1 / 2) 1 (fun _ => 0) = some (9 / 5) ∧
    BatchLik.psoLik Q 10000 fuel (fun (_ : Fin 0) (z : Fin 0) => z.elim0) (fun m => m.elim0) (fun z => z.elim0) (1 / 2) 0 (fun _ => 0) = some 1 ∧
    (BatchLik.ceresLogLik Q 10000 fuel (fun (_ : Fin 1) (z : Fin 0) => (z.elim0 : ℝ)) (fun _ z => z.elim0) (fun _ z => z.elim0) (fun _ => 9 / 10) (fun z => z.elim0) (1 / 2) 1 (fun _ => 0)).map
      BatchLik.Out.val = some (Real.log (9 / 10) - 1 / 2) ∧
    (BatchLik.ceresLogLik Q 10000 fuel (fun (_ : Fin 0) (z : Fin 0) => (z.elim0 : ℝ)) (fun _ z => z.elim0) (fun _ z => z.elim0) (fun m => m.elim0) (fun z => z.elim0) (1 / 2) 0 (fun _ => 0)).map
      BatchLik.Out.val = some (- (1 / 2)) := by
  have hc : ∀ bot, Partition.IsComponents (fun (_ : Fin 1) (z : Fin 0) => (z.elim0 : ℝ)) bot 1 (fun _ => 0) := by
    intro bot
    refine ⟨fun _ => by decide, fun x hx => ⟨Sum.inl 0, by omega⟩, fun u v => ⟨fun _ => ?_, fun _ => rfl⟩⟩
    have : ∀ w : Fin 1 ⊕ Fin 0, w = Sum.inl 0 := by
      rintro (w | w)
      · rw [Subsingleton.elim w 0]
      · exact w.elim0
    rw [this u, this v]
    exact Relation.EqvGen.refl _
  refine ⟨?_, by simp [BatchLik.psoLik], ?_, by simp [BatchLik.ceresLogLik]⟩
  · have h := (BatchLikProps.C115_violated_missed Q fuel 1 (fun _ => 0) (hc 0) hf).1
    unfold BatchLik.psoLik at h ⊢
    rw [if_neg (by decide)] at h ⊢
    cases e : Partition.partition (nR := 1) (nC := 0) 1 (fun _ => 0) none with
    | none => rw [e] at h; cases h
    | some o =>
      rw [e] at h
      simp only [Option.bind_some] at h ⊢
      obtain ⟨l, e2, e3⟩ := Option.map_eq_some_iff.1 h
      rw [e2, Option.map_some]
      congr 1
      rw [div_one] at e3
      rw [e3]; norm_num
  · obtain ⟨out, h, h2, -⟩ := BatchLikProps.C116_violated Q fuel 1 (fun _ => 0) (hc (-1000)) hf
    unfold BatchLik.ceresLogLik at h ⊢
    rw [if_neg (by decide)] at h ⊢
    cases e : Partition.partition (nR := 1) (nC := 0) 1 (fun _ => 0) none with
    | none => rw [e] at h; cases h
    | some o =>
      rw [e] at h
      simp only [Option.bind_some] at h ⊢
      obtain ⟨l, e2, e3⟩ := Option.map_eq_some_iff.1 h
      rw [e2, Option.map_some, Option.map_some]
      congr 1
      rw [← e3] at h2
      simp only [sub_zero] at h2
      simp only [h2]

/-- The landmark at `l` is in view of the last pose if it is at most 1 away. The likelihood of the swarm, of an empty scan at the last pose. -/
noncomputable def swarmLik (Q : ∀ n, Murty.PQ ℝ n) (fuel : Nat) (pos : List (Fin 1 → ℝ)) (lms : List (Fin 1 → ℝ)) : ℝ :=
  match pos, lms with
  | [_, x], [l] =>
    if |l 0 - x 0| ≤ 1 then
      Real.log ((BatchLik.psoLik Q 10000 fuel (fun (_ : Fin 1) (z : Fin 0) => z.elim0) (fun _ => 9 / 10) (fun z => z.elim0) (1 / 2) 1 (fun _ => 0)).getD 0)
    else Real.log ((BatchLik.psoLik Q 10000 fuel (fun (_ : Fin 0) (z : Fin 0) => z.elim0) (fun m => m.elim0) (fun z => z.elim0) (1 / 2) 0 (fun _ => 0)).getD 0)
  | _, _ => 0

/-- The objective of the optimiser for the same scan. -/
noncomputable def objective (Q : ∀ n, Murty.PQ ℝ n) (fuel : Nat) (pos : List (Fin 1 → ℝ)) (lms : List (Fin 1 → ℝ)) : ℝ :=
  match pos, lms with
  | [_, x], [l] =>
    if |l 0 - x 0| ≤ 1 then
      ((BatchLik.ceresLogLik Q 10000 fuel (fun (_ : Fin 1) (z : Fin 0) => (z.elim0 : ℝ)) (fun _ z => z.elim0) (fun _ z => z.elim0) (fun _ => 9 / 10) (fun z => z.elim0) (1 / 2) 1 (fun _ => 0)).map
        BatchLik.Out.val).getD 0
    else ((BatchLik.ceresLogLik Q 10000 fuel (fun (_ : Fin 0) (z : Fin 0) => (z.elim0 : ℝ)) (fun _ z => z.elim0) (fun _ z => z.elim0) (fun m => m.elim0) (fun z => z.elim0) (1 / 2) 0
      (fun _ => 0)).map BatchLik.Out.val).getD 0
  | _, _ => 0

/-- **C214**, the full statement for this scan: an optimisation that does not make the objective worse does not make a particle less likely. -/
def C214_full (Q : ∀ n, Murty.PQ ℝ n) (fuel : Nat) : Prop := ∀ (solve : List ℝ → Nat → ℝ) (p r : Pt ℝ ℝ 1 1), PGood 1 p → p.lms.length = 1 →
  (∀ (ps : List ℝ) a b a' b', ps.length = 2 → Batch.readParams 1 1 2 1 ps = some (a, b) → Batch.readParams 1 1 2 1 (vec 2 (solve ps)) = some (a', b') → objective Q fuel a b ≤ objective Q fuel a' b') →
  optPart solve p = some r → swarmLik Q fuel p.traj.pos p.lms ≤ swarmLik Q fuel r.traj.pos r.lms

/-- **C214** is false of the code: the optimiser moves the landmark out of view, which the objective prefers and the likelihood of the swarm does not. -/
theorem C214_violated (Q : ∀ n, Murty.PQ ℝ n) (fuel : Nat) (hf : 2 < fuel) : ¬ C214_full Q fuel := by
  intro h
  obtain ⟨h1, h2, h3, h4⟩ := C214_scan Q fuel hf
  let solve : List ℝ → Nat → ℝ := fun _ k => if k = 0 then 0 else 5
  let p : Pt ℝ ℝ 1 1 := ⟨⟨[0, fun _ => 0], [0, 0], [fun _ => 0]⟩, [fun _ => 0], [0], ⟨[0, fun _ => 0], [0, 0], [fun _ => 0]⟩, [], [], 0, 0⟩
  have hp : PGood 1 p := ⟨rfl, rfl, rfl, rfl, ⟨rfl, rfl⟩, rfl, rfl, rfl⟩
  have hle : Real.log (9 / 10) - 1 / 2 ≤ (- (1 / 2) : ℝ) := by
    have : Real.log (9 / 10) ≤ 0 := Real.log_nonpos (by norm_num) (by norm_num)
    linarith
  obtain ⟨ps, -, hlen, e⟩ := optPart_ok solve p 1 (by decide) hp
  have key := h solve p _ hp rfl (by
    intro ps a b a' b' hl ha hb
    have e1 : Batch.readParams 1 1 2 1 (vec 2 (solve ps)) = some ([fun _ => 0, fun _ => 0], [fun _ => 5]) := by
      simp [Batch.readParams, Batch.numParameters, vec, List.range_succ, solve]
    rw [e1] at hb
    cases hb
    have e2 : objective Q fuel [fun _ => 0, fun _ => 0] [fun _ => 5] = - (1 / 2) := by
      unfold objective
      simp only
      rw [if_neg (by norm_num), h4, Option.getD_some]
    rw [e2]
    have e3 : ∃ x y l, a = [x, y] ∧ b = [l] := by
      unfold Batch.readParams at ha
      split at ha
      · cases ha
      · cases ha
        exact ⟨_, _, _, rfl, rfl⟩
    obtain ⟨x, y, l, rfl, rfl⟩ := e3
    unfold objective
    simp only
    split
    · rw [h3, Option.getD_some]; exact hle
    · rw [h4, Option.getD_some]) e
  have k1 : swarmLik Q fuel p.traj.pos p.lms = Real.log (9 / 5) := by
    show swarmLik Q fuel [0, fun _ => 0] [fun _ => 0] = _
    unfold swarmLik
    simp only
    rw [if_pos (by norm_num), h1, Option.getD_some]
  have k2 : swarmLik Q fuel (posBack p.traj.pos (solve ps)) (lmsBack (P := 1) p.traj.pos.length p.lms (solve ps)) = Real.log 1 := by
    have : posBack p.traj.pos (solve ps) = [0, fun _ => 0] := by simp [posBack, p, solve]
    have h' : lmsBack (P := 1) p.traj.pos.length p.lms (solve ps) = [fun _ => 5] := by simp [lmsBack, p, solve]
    rw [this, h']
    unfold swarmLik
    simp only
    rw [if_neg (by norm_num [solve]), h2, Option.getD_some]
  simp only at key
  rw [k1, k2, Real.log_one] at key
  exact absurd key (not_le.2 (Real.log_pos (by norm_num)))

end PSORunsProps
end RFS
