import Verif.Model.Programs

/-!
Properties C186-C188: random numbers in the main programs.
-/

set_option linter.unusedSectionVars false

namespace RFS
namespace ProgramsProps
open Programs

variable {S G N V A D R : Type}

/-- The threads that draw are those there are. -/
inductive Within (n : Nat) : Draws V A → Prop
  | ret (a) : Within n (.ret a)
  | uniform (k) : (∀ v, Within n (k v)) → Within n (.uniform k)
  | normal (t k) : t < n → (∀ v, Within n (k v)) → Within n (.normal t k)

theorem pushGens_eq (l : Lib S G N V) (n : Nat) : ∀ s : State S G N, ∃ r es, es.length = n ∧ pushGens l n s = ⟨r, s.engines ++ es, s.normals ++ List.replicate n l.fresh⟩ := by
  induction n with
  | zero => intro s; exact ⟨s.rng, [], rfl, by simp [pushGens]⟩
  | succ n ih =>
    intro s
    obtain ⟨r, es, h1, h2⟩ := ih ⟨(l.lrand s.rng).2, s.engines ++ [l.mt (l.lrand s.rng).1], s.normals ++ [l.fresh]⟩
    refine ⟨r, l.mt (l.lrand s.rng).1 :: es, by simp [h1], ?_⟩
    unfold pushGens
    rw [h2]
    simp [List.replicate_succ]

/-- There is a generator for every thread. -/
def Ready (n : Nat) (s : State S G N) : Prop := n ≤ s.engines.length ∧ n ≤ s.normals.length

theorem ready_init (l : Lib S G N V) (n : Nat) (s : State S G N) : Ready n (Programs.init l n s) := by
  obtain ⟨r, es, h1, h2⟩ := pushGens_eq l n { s with normals := [] }
  unfold Programs.init
  rw [h2]
  exact ⟨by simp [h1], by simp⟩

theorem exec_ready (l : Lib S G N V) (n : Nat) (d : Draws V A) (hd : Within n d) : ∀ s : State S G N, Ready n s → ∃ a s', exec l d s = some (a, s') ∧ Ready n s' := by
  induction hd with
  | ret a => intro s h; exact ⟨a, s, rfl, h⟩
  | uniform k _ ih => intro s h; exact ih _ _ h
  | normal t k ht _ ih =>
    intro s h
    have h1 : t < s.engines.length := by have := h.1; omega
    have h2 : t < s.normals.length := by have := h.2; omega
    unfold exec
    rw [List.getElem?_eq_getElem h1, List.getElem?_eq_getElem h2]
    exact ih _ _ ⟨by simpa using h.1, by simpa using h.2⟩

/-! ### C186: a generator for every draw -/

/-- **C186**, the full claim for a program: whatever it draws, every draw finds its generator. -/
def C186_full (p : List Stmt) : Prop :=
  ∀ (S G N V D R : Type) (l : Lib S G N V) (nThreads : Nat) (e : Env V D R) (rng0 : S) (d0 : D), Within nThreads e.gen → (∀ d, Within nThreads (e.run d)) → (execProg l nThreads e p (start rng0) d0 none).isSome

/-- Whether the generators are initialised before anything is generated or run. -/
def initFirst : List Stmt → Bool
  | [] => true
  | .init :: _ => true
  | .gen :: _ => false
  | .run :: _ => false
  | _ :: p => initFirst p

theorem execProg_ready (l : Lib S G N V) (n : Nat) (e : Env V D R) (hg : Within n e.gen) (hr : ∀ d, Within n (e.run d)) :
    ∀ (p : List Stmt) (s : State S G N) (d : D) (r : Option R), Ready n s → (execProg l n e p s d r).isSome := by
  intro p
  induction p with
  | nil => intro s d r _; rfl
  | cons c p ih =>
    intro s d r h
    cases c <;> simp only [execProg]
    · exact ih _ _ _ h
    · exact ih _ _ _ h
    · exact ih _ _ _ h
    · exact ih _ _ _ h
    · exact ih _ _ _ (ready_init l n s)
    · obtain ⟨a, s', h1, h2⟩ := exec_ready l n e.gen hg s h
      rw [h1]
      exact ih _ _ _ h2
    · obtain ⟨a, s', h1, h2⟩ := exec_ready l n (e.run d) (hr d) s h
      rw [h1]
      exact ih _ _ _ h2

theorem full_of_initFirst (p : List Stmt) (h : initFirst p = true) : C186_full p := by
  intro S G N V D R l n e rng0 d0 hg hr
  generalize start rng0 = s
  generalize (none : Option R) = r
  induction p generalizing s with
  | nil => rfl
  | cons c p ih =>
    cases c <;> simp only [execProg]
    · exact ih h _
    · exact ih h _
    · exact ih h _
    · exact ih h _
    · exact execProg_ready l n e hg hr p _ _ _ (ready_init l n _)
    · simp [initFirst] at h
    · simp [initFirst] at h

/-- C186 (partial): all programs but those of FastSLAM. Missing: `fastslam2dSim`, `fastslam_VictoriaPark` (`C186_violated`). -/
theorem C186_defined_partial : ∀ p ∈ [rbphdslam2dSim, rblmbslam2dSim, rbcbmemberslam2dSim, rbphdslam6dSim, rbphdslam2dSim_amplitude, rbphdslam_VictoriaPark, rbphdslamCityTrees10000,
    rblmbslamCityTrees10000, batchSim], C186_full p := by
  intro p hp
  refine full_of_initFirst p ?_
  revert p
  decide

/-- **C186 is violated** by both FastSLAM programs, which never initialise the generators: the first normal number of a thread is drawn from a generator that does not exist, whatever the library and the number of threads. -/
theorem C186_violated (l : Lib S G N V) (nThreads : Nat) (e : Env V D R) (rng0 : S) (d0 : D) (t : Nat) :
    ((∃ k, e.gen = .normal t k) → execProg l nThreads e fastslam2dSim (start rng0) d0 none = none) ∧
    ((∃ k, e.run d0 = .normal t k) → execProg l nThreads e fastslam_VictoriaPark (start rng0) d0 none = none) := by
  constructor
  · rintro ⟨k, hk⟩
    simp [fastslam2dSim, execProg, hk, exec, start]
  · rintro ⟨k, hk⟩
    simp [fastslam_VictoriaPark, execProg, hk, exec, start]

/-- The full claim fails for both. -/
theorem C186_not_full : ¬ C186_full fastslam2dSim ∧ ¬ C186_full fastslam_VictoriaPark := by
  let l : Lib Unit Unit Unit Unit := ⟨fun _ => (), fun _ => ((), ()), fun _ => (0, ()), fun _ => (), (), fun _ _ => ((), (), ())⟩
  have w : Within 1 (.normal 0 fun _ => .ret () : Draws Unit Unit) := .normal _ _ (by norm_num) fun _ => .ret _
  constructor
  · intro h
    have := h Unit Unit Unit Unit Unit Unit l 1 ⟨0, 0, 0, .normal 0 fun _ => .ret (), fun _ => .ret ()⟩ () () w fun _ => .ret _
    rw [(C186_violated l 1 _ () () 0).1 ⟨_, rfl⟩] at this
    simp at this
  · intro h
    have := h Unit Unit Unit Unit Unit Unit l 1 ⟨0, 0, 0, .ret (), fun _ => .normal 0 fun _ => .ret ()⟩ () () (.ret _) fun _ => w
    rw [(C186_violated l 1 _ () () 0).2 ⟨_, rfl⟩] at this
    simp at this

/-- The hypotheses are met by a program of two threads that draws from both and from `drand48`. -/
example : Within (V := Nat) 2 (.normal 0 fun v => .uniform fun w => .normal 1 fun x => .ret (v + w + x)) :=
  .normal _ _ (by norm_num) fun _ => .uniform _ fun _ => .normal _ _ (by norm_num) fun _ => .ret _

/-! ### C187: the seed option -/

/-- The generators as they are after the user's seed: of a process that does nothing before. -/
def seeded (l : Lib S G N V) (nThreads seed : Nat) (rng0 : S) : State S G N := Programs.init l nThreads ⟨l.srand seed, (start (G := G) (N := N) rng0).engines, []⟩

/-- **C187**, the full claim for a program: the seed determines the random numbers of the run; its result is that of the same run in a new process, seeded with the seed and nothing else. -/
def C187_full (p : List Stmt) : Prop :=
  ∀ (S G N V D R : Type) (l : Lib S G N V) (nThreads : Nat) (e : Env V D R) (rng0 : S) (d0 : D) (d : D) (r : R), execProg l nThreads e p (start rng0) d0 none = some (d, some r) →
    (exec l (e.run d) (seeded l nThreads e.seed rng0)).map Prod.fst = some r

/-- C187 (partial): the programs that read their data from files. Missing: all simulators (`C187_violated`). -/
theorem C187_seed_partial : ∀ p ∈ [rbphdslam_VictoriaPark, rbphdslamCityTrees10000, rblmbslamCityTrees10000], C187_full p := by
  have key : C187_full [.setup, .srandSeed, .init, .run] := by
    intro S G N V D R l n e rng0 d0 d r h
    simp only [execProg, Option.bind_eq_some_iff] at h
    obtain ⟨q, h1, h2⟩ := h
    simp only [Option.some.injEq, Prod.mk.injEq] at h2
    obtain ⟨rfl, h2⟩ := h2
    have : exec l (e.run d0) (seeded l n e.seed rng0) = some q := h1
    rw [this, Option.map_some, h2]
  intro p hp
  simp only [List.mem_cons, List.not_mem_nil, or_false] at hp
  rcases hp with rfl | rfl | rfl <;> exact key

/-- Only normal numbers of existing threads are drawn. -/
inductive NormalOnly (n : Nat) : Draws V A → Prop
  | ret (a) : NormalOnly n (.ret a)
  | normal (t k) : t < n → (∀ v, NormalOnly n (k v)) → NormalOnly n (.normal t k)

theorem exec_congr (l : Lib S G N V) (n : Nat) (d : Draws V A) (hd : NormalOnly n d) : ∀ s s' : State S G N, n ≤ s.engines.length → n ≤ s'.engines.length → (∀ i < n, s.engines[i]? = s'.engines[i]?) →
    (∀ i < n, s.normals[i]? = s'.normals[i]?) → (exec l d s).map Prod.fst = (exec l d s').map Prod.fst := by
  induction hd with
  | ret a => intro s s' _ _ _ _; rfl
  | normal t k ht _ ih =>
    intro s s' l1 l2 h1 h2
    unfold exec
    rw [h1 t ht, h2 t ht]
    rcases hE : s'.engines[t]? with _ | g
    · rfl
    rcases hN : s'.normals[t]? with _ | m
    · rfl
    refine ih _ _ _ (by simpa using l1) (by simpa using l2) (fun i hi => ?_) (fun i hi => ?_)
    · simp only [List.getElem?_set]
      split_ifs with a b c c
      · rfl
      · omega
      · omega
      · rfl
      · exact h1 i hi
    · simp only [List.getElem?_set]
      have hn : t < s.normals.length ↔ t < s'.normals.length := by
        have := h2 t ht
        constructor <;> intro hh
        · by_contra hc
          rw [List.getElem?_eq_getElem hh, List.getElem?_eq_none (by omega)] at this
          cases this
        · by_contra hc
          rw [List.getElem?_eq_getElem hh, List.getElem?_eq_none (by omega)] at this
          cases this
      split_ifs with a b c c
      · rfl
      · exact absurd (hn.1 b) c
      · exact absurd (hn.2 c) b
      · rfl
      · exact h2 i hi

/-- Engines that exist are not replaced by a further initialisation. -/
theorem init_engines (l : Lib S G N V) (n : Nat) (s : State S G N) (i : Nat) (hi : i < s.engines.length) :
    (Programs.init l n s).engines[i]? = s.engines[i]? := by
  obtain ⟨r, es, h1, h2⟩ := pushGens_eq l n { s with normals := [] }
  unfold Programs.init
  rw [h2]
  simp only
  rw [List.getElem?_append_left hi]

theorem init_normals (l : Lib S G N V) (n : Nat) (s : State S G N) : (Programs.init l n s).normals = List.replicate n l.fresh := by
  obtain ⟨r, es, h1, h2⟩ := pushGens_eq l n { s with normals := [] }
  unfold Programs.init
  rw [h2]
  simp

/-- **C187 is violated** by every simulator: the normal numbers of the run do not depend on the seed at all. Two runs on one trajectory that differ in the seed only, and draw normal numbers only, have the same result,
for every library and every number of threads. -/
theorem C187_violated : ∀ p ∈ [rbphdslam2dSim, rblmbslam2dSim, rbcbmemberslam2dSim, rbphdslam6dSim, batchSim], ∀ (S G N V D R : Type) (l : Lib S G N V) (nThreads : Nat) (e : Env V D R) (rng0 : S) (d0 : D),
    Within nThreads e.gen → (∀ d, NormalOnly nThreads (e.run d)) → ∀ seed', (execProg l nThreads e p (start rng0) d0 none).map Prod.snd = (execProg l nThreads { e with seed := seed' } p (start rng0) d0 none).map Prod.snd := by
  have keyA : ∀ (S G N V D R : Type) (l : Lib S G N V) (n : Nat) (e : Env V D R) (seed' : Nat) (s s' : State S G N) (d : D), NormalOnly n (e.run d) → n ≤ s.engines.length → n ≤ s'.engines.length →
      (∀ i < n, s.engines[i]? = s'.engines[i]?) → (∀ i < n, s.normals[i]? = s'.normals[i]?) →
      (execProg l n e [.run] s d none).map Prod.snd = (execProg l n { e with seed := seed' } [.run] s' d none).map Prod.snd := by
    intro S G N V D R l n e seed' s s' d hr h1 h2 h3 h4
    have := exec_congr l n (e.run d) hr s s' h1 h2 h3 h4
    simp only [execProg]
    rcases hx : exec l (e.run d) s with _ | q <;> rcases hy : exec l (e.run d) s' with _ | q' <;> rw [hx, hy] at this <;> simp_all
  have keyB : ∀ (S G N V D R : Type) (l : Lib S G N V) (n : Nat) (e : Env V D R) (seed' : Nat) (s : State S G N) (d : D), NormalOnly n (e.run d) → Ready n s →
      (execProg l n e [.srandSeed, .run] s d none).map Prod.snd = (execProg l n { e with seed := seed' } [.srandSeed, .run] s d none).map Prod.snd := by
    intro S G N V D R l n e seed' s d hr hs
    simp only [execProg]
    exact keyA S G N V D R l n e seed' _ _ d hr hs.1 hs.1 (fun _ _ => rfl) (fun _ _ => rfl)
  have keyC : ∀ (S G N V D R : Type) (l : Lib S G N V) (n : Nat) (e : Env V D R) (seed' : Nat) (s : State S G N) (d : D), NormalOnly n (e.run d) → Ready n s →
      (execProg l n e [.srandSeed, .init, .run] s d none).map Prod.snd = (execProg l n { e with seed := seed' } [.srandSeed, .init, .run] s d none).map Prod.snd := by
    intro S G N V D R l n e seed' s d hr hs
    simp only [execProg]
    refine keyA S G N V D R l n e seed' _ _ d hr (ready_init _ _ _).1 (ready_init _ _ _).1 (fun i hi => ?_) (fun i _ => ?_)
    · have := lt_of_lt_of_le hi hs.1
      exact (init_engines l n ⟨l.srand e.seed, s.engines, s.normals⟩ i this).trans (init_engines l n ⟨l.srand seed', s.engines, s.normals⟩ i this).symm
    · rw [init_normals, init_normals]
  intro p hp S G N V D R l n e rng0 d0 hg hr seed'
  have gen : ∀ (s : State S G N), ∃ a s', Ready n s' ∧ ∀ p seed, execProg l n { e with seed := seed } (.gen :: p) (Programs.init l n s) d0 none = execProg l n { e with seed := seed } p s' a none := by
    intro s
    obtain ⟨a, s', h1, h2⟩ := exec_ready l n e.gen hg _ (ready_init l n s)
    refine ⟨a, s', h2, fun p seed => ?_⟩
    simp only [execProg]
    rw [h1]
    rfl
  simp only [List.mem_cons, List.not_mem_nil, or_false] at hp
  rcases hp with rfl | rfl | rfl | rfl | rfl
  · obtain ⟨a, s', h2, h3⟩ := gen ⟨l.srand e.traj, [], []⟩
    have := keyC S G N V D R l n e seed' s' a (hr a) h2
    rw [← h3 _ seed'] at this
    rw [← h3 _ e.seed] at this
    exact this
  · obtain ⟨a, s', h2, h3⟩ := gen ⟨l.srand e.traj, [], []⟩
    have := keyC S G N V D R l n e seed' { s' with rng := l.srand e.time } a (hr a) h2
    change (execProg l n { e with seed := e.seed } (.setup :: [.srandSeed, .init, .run]) s' a none).map Prod.snd =
      (execProg l n { e with seed := seed' } (.setup :: [.srandSeed, .init, .run]) s' a none).map Prod.snd at this
    rw [← h3 _ seed', ← h3 _ e.seed] at this
    exact this
  · obtain ⟨a, s', h2, h3⟩ := gen ⟨l.srand e.traj, [], []⟩
    have := keyB S G N V D R l n e seed' { s' with rng := l.srand e.time } a (hr a) h2
    change (execProg l n { e with seed := e.seed } (.setup :: [.srandSeed, .run]) s' a none).map Prod.snd =
      (execProg l n { e with seed := seed' } (.setup :: [.srandSeed, .run]) s' a none).map Prod.snd at this
    rw [← h3 _ seed', ← h3 _ e.seed] at this
    exact this
  · obtain ⟨a, s', h2, h3⟩ := gen ⟨l.srand e.traj, [], []⟩
    have := keyB S G N V D R l n e seed' { s' with rng := l.srand e.time } a (hr a) h2
    change (execProg l n { e with seed := e.seed } (.setup :: [.srandSeed, .run]) s' a none).map Prod.snd =
      (execProg l n { e with seed := seed' } (.setup :: [.srandSeed, .run]) s' a none).map Prod.snd at this
    rw [← h3 _ seed', ← h3 _ e.seed] at this
    exact this
  · obtain ⟨a, s', h2, h3⟩ := gen ⟨l.srand e.traj, [], []⟩
    have := keyC S G N V D R l n e seed' s' a (hr a) h2
    rw [← h3 _ seed', ← h3 _ e.seed] at this
    exact this

/-- Only numbers of `drand48` are drawn. -/
inductive UniformOnly : Draws V A → Prop
  | ret (a) : UniformOnly (.ret a)
  | uniform (k) : (∀ v, UniformOnly (k v)) → UniformOnly (.uniform k)

theorem exec_uniform (l : Lib S G N V) (d : Draws V A) (hd : UniformOnly d) : ∀ s s' : State S G N, s.rng = s'.rng → (exec l d s).map Prod.fst = (exec l d s').map Prod.fst := by
  induction hd with
  | ret a => intro s s' _; rfl
  | uniform k _ ih =>
    intro s s' h
    unfold exec
    rw [h]
    exact ih _ _ _ rfl

/-- The state of `drand48` after an initialisation depends on that before only. -/
theorem init_rng (l : Lib S G N V) (n : Nat) : ∀ s s' : State S G N, s.rng = s'.rng → (Programs.init l n s).rng = (Programs.init l n s').rng := by
  have : ∀ s s' : State S G N, s.rng = s'.rng → (pushGens l n s).rng = (pushGens l n s').rng := by
    induction n with
    | zero => intro s s' h; exact h
    | succ n ih => intro s s' h; exact ih _ _ (by rw [h])
  intro s s' h
  exact this _ _ h

/-- C187 (partial), what the seed does determine in the simulators: the numbers of `drand48`. Runs that draw no others are as the full claim says; the two programs that do not initialise again draw them right after seeding. -/
theorem C187_uniform_partial {S G N V D R : Type} (l : Lib S G N V) (nThreads : Nat) (e : Env V D R) (rng0 : S) (d0 d : D) (r : R) (hu : ∀ d, UniformOnly (e.run d)) :
    (∀ p ∈ [rbphdslam2dSim, rblmbslam2dSim, batchSim], execProg l nThreads e p (start rng0) d0 none = some (d, some r) → (exec l (e.run d) (seeded l nThreads e.seed rng0)).map Prod.fst = some r) ∧
    (∀ p ∈ [rbcbmemberslam2dSim, rbphdslam6dSim], execProg l nThreads e p (start rng0) d0 none = some (d, some r) → (exec l (e.run d) (⟨l.srand e.seed, [], []⟩ : State S G N)).map Prod.fst = some r) := by
  have keyC : ∀ (s : State S G N) (d1 : D), execProg l nThreads e [.srandSeed, .init, .run] s d1 none = some (d, some r) → (exec l (e.run d) (seeded l nThreads e.seed rng0)).map Prod.fst = some r := by
    intro s d1 h
    simp only [execProg, Option.bind_eq_some_iff] at h
    obtain ⟨q, h1, h2⟩ := h
    simp only [Option.some.injEq, Prod.mk.injEq] at h2
    obtain ⟨rfl, h2⟩ := h2
    rw [exec_uniform l _ (hu d1) (seeded l nThreads e.seed rng0) (Programs.init l nThreads ⟨l.srand e.seed, s.engines, s.normals⟩) (init_rng l nThreads _ _ rfl), h1, Option.map_some, h2]
  have keyB : ∀ (s : State S G N) (d1 : D), execProg l nThreads e [.srandSeed, .run] s d1 none = some (d, some r) → (exec l (e.run d) (⟨l.srand e.seed, [], []⟩ : State S G N)).map Prod.fst = some r := by
    intro s d1 h
    simp only [execProg, Option.bind_eq_some_iff] at h
    obtain ⟨q, h1, h2⟩ := h
    simp only [Option.some.injEq, Prod.mk.injEq] at h2
    obtain ⟨rfl, h2⟩ := h2
    rw [exec_uniform l _ (hu d1) ⟨l.srand e.seed, [], []⟩ ⟨l.srand e.seed, s.engines, s.normals⟩ rfl, h1, Option.map_some, h2]
  have gen : ∀ p (s : State S G N), execProg l nThreads e (.gen :: p) s d0 none = some (d, some r) → ∃ s' d1, execProg l nThreads e p s' d1 none = some (d, some r) := by
    intro p s h
    simp only [execProg, Option.bind_eq_some_iff] at h
    obtain ⟨q, -, h2⟩ := h
    exact ⟨_, _, h2⟩
  constructor
  · intro p hp h
    simp only [List.mem_cons, List.not_mem_nil, or_false] at hp
    rcases hp with rfl | rfl | rfl
    · obtain ⟨s', d1, h⟩ := gen [.srandSeed, .init, .run] _ h
      exact keyC _ _ h
    · obtain ⟨s', d1, h⟩ := gen (.setup :: [.srandSeed, .init, .run]) _ h
      exact keyC _ _ h
    · obtain ⟨s', d1, h⟩ := gen [.srandSeed, .init, .run] _ h
      exact keyC _ _ h
  · intro p hp h
    simp only [List.mem_cons, List.not_mem_nil, or_false] at hp
    rcases hp with rfl | rfl
    · obtain ⟨s', d1, h⟩ := gen (.setup :: [.srandSeed, .run]) _ h
      exact keyB _ _ h
    · obtain ⟨s', d1, h⟩ := gen (.setup :: [.srandSeed, .run]) _ h
      exact keyB _ _ h

/-- A library of counters: the n-th number after seed s is s + n; an engine seeded with x draws x, x + 1, … -/
def counters : Lib Nat Nat Unit Nat := ⟨id, fun s => (s, s + 1), fun s => (s, s + 1), id, (), fun _ g => (g, (), g + 1)⟩

/-- The full claim fails for all of them. -/
theorem C187_not_full : ∀ p ∈ [rbphdslam2dSim, rblmbslam2dSim, rbcbmemberslam2dSim, rbphdslam6dSim, batchSim], ¬ C187_full p := by
  intro p hp h
  have h1 : execProg counters 1 ⟨7, 100, 5, .ret (), fun _ => .normal 0 fun v => .ret v⟩ p (start 0) () none = some ((), some 7) := by
    clear h
    revert p
    decide
  have := h Nat Nat Unit Nat Unit Nat counters 1 _ 0 () () 7 h1
  revert this
  decide

/-- In that library the Victoria Park program draws what the seed says. -/
example : execProg counters 1 ⟨7, 100, 5, .ret (), fun _ => .normal 0 fun v => .ret v⟩ rbphdslam_VictoriaPark (start 0) () none = some ((), some 100) := by decide

/-- A run of the 2-D simulator that draws from `drand48` (after one engine has been seeded). -/
example : execProg counters 1 ⟨7, 100, 5, .ret (), fun _ => .uniform fun v => .ret v⟩ rbphdslam2dSim (start 0) () none = some ((), some 101) := by decide

/-! ### C188: same options, same result -/

/-- Whether the state of `drand48` is set by an option before it is next used. -/
def timeless : List Stmt → Bool
  | [] => true
  | .srandTraj :: _ => true
  | .srandSeed :: _ => true
  | .setup :: p => timeless p
  | _ :: _ => false

/-- No use of the time. -/
def pure : List Stmt → Bool
  | [] => true
  | .setup :: p => timeless p && pure p
  | .srandTime :: _ => false
  | _ :: p => pure p

theorem timeless_eq (l : Lib S G N V) (n : Nat) (e : Env V D R) (p : List Stmt) (h : timeless p = true) (s s' : State S G N) (he : s.engines = s'.engines) (hn : s.normals = s'.normals) (d : D) (r : Option R) :
    execProg l n e p s d r = execProg l n e p s' d r := by
  induction p generalizing s s' with
  | nil => rfl
  | cons c p ih =>
    cases c <;> simp only [timeless, Bool.false_eq_true] at h
    · exact ih h _ _ he hn
    · simp only [execProg, he, hn]
    · simp only [execProg, he, hn]

theorem pure_eq (l : Lib S G N V) (n : Nat) (e : Env V D R) (time' : Nat) (p : List Stmt) (h : pure p = true) : ∀ (s : State S G N) (d : D) (r : Option R),
    execProg l n e p s d r = execProg l n { e with time := time' } p s d r := by
  induction p with
  | nil => intro s d r; rfl
  | cons c p ih =>
    intro s d r
    cases c
    case setup =>
      simp only [pure, Bool.and_eq_true] at h
      simp only [execProg]
      rw [ih h.2]
      exact timeless_eq l n _ p h.1 ⟨l.srand e.time, s.engines, s.normals⟩ ⟨l.srand time', s.engines, s.normals⟩ rfl rfl d r
    case srandTime => cases h
    case gen =>
      simp only [execProg]
      congr 1
      funext q
      exact ih h _ _ _
    case run =>
      simp only [execProg]
      congr 1
      funext q
      exact ih h _ _ _
    all_goals exact ih h _ _ _

/-- **C188.** The same options give the same data and the same result at any time, for every program with a seed: what the constructor of the filter does to the state of `drand48` is undone before a number is drawn.
(`none` included: a program undefined at one time is so at any.) -/
theorem C188_reproducible : ∀ p ∈ [rbphdslam2dSim, rblmbslam2dSim, rbcbmemberslam2dSim, rbphdslam6dSim, fastslam2dSim, rbphdslam_VictoriaPark, fastslam_VictoriaPark, rbphdslamCityTrees10000, rblmbslamCityTrees10000, batchSim],
    ∀ (S G N V D R : Type) (l : Lib S G N V) (nThreads : Nat) (e : Env V D R) (rng0 : S) (d0 : D) (time' : Nat),
      execProg l nThreads e p (start rng0) d0 none = execProg l nThreads { e with time := time' } p (start rng0) d0 none := by
  intro p hp S G N V D R l n e rng0 d0 time'
  refine pure_eq l n e time' p ?_ _ _ _
  revert p
  decide

/-- C188 for the amplitude program, which has one option: the data depend on it alone, whenever both runs are defined. -/
theorem C188_data {S G N V D R : Type} (l : Lib S G N V) (nThreads : Nat) (e : Env V D R) (rng0 : S) (d0 : D) (time' : Nat) (q q' : D × Option R)
    (h : execProg l nThreads e rbphdslam2dSim_amplitude (start rng0) d0 none = some q)
    (h' : execProg l nThreads { e with time := time' } rbphdslam2dSim_amplitude (start rng0) d0 none = some q') : q.1 = q'.1 := by
  simp only [rbphdslam2dSim_amplitude, execProg, Option.bind_eq_some_iff] at h h'
  obtain ⟨a, h1, b, h2, h3⟩ := h
  obtain ⟨a', h1', b', h2', h3'⟩ := h'
  rw [h1] at h1'
  cases h1'
  cases h3
  cases h3'
  rfl

/-- Its result does depend on the time: the numbers of `drand48`, which decide resampling, do. -/
theorem C188_violated_amplitude : execProg counters 1 ⟨7, 100, 5, .ret (), fun _ => .uniform fun v => .ret v⟩ rbphdslam2dSim_amplitude (start 0) () none ≠
    execProg counters 1 ⟨7, 100, 6, .ret (), fun _ => .uniform fun v => .ret v⟩ rbphdslam2dSim_amplitude (start 0) () none := by decide

/-- The amplitude program has defined runs. -/
example : (execProg counters 1 ⟨7, 100, 5, .ret (), fun _ => .uniform fun v => .ret v⟩ rbphdslam2dSim_amplitude (start 0) () none).isSome = true := by decide

end ProgramsProps
end RFS
