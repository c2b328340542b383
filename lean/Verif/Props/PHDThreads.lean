import Verif.Lemmas.PHDThreadsRun

/-!
Properties of the map update of `RBPHDFilter` with its tables and threads (`Verif.Model.PHDThreads`): the tables a thread keeps never show in the result, the result does not depend on the number of threads, the division
of the particles among them or the interleaving, and which members two threads touch at the same time.
-/

set_option linter.unusedSectionVars false

namespace RFS
namespace PHDTProps
open PHD hiding Filt
open PHDT

variable {T Z K X F : Type} [Field K] [LinearOrder K]

/-! ### C206 -/

/-- **C206**: whatever the weighting tables of the thread held and however large they were, `updateMap` stays within them and gives the particle the map, the unused measurements and the count of landmarks in view
of the closed form (`PHD.updateMap`, C43 to C47), in which no table occurs; with the cluster process also its weight. -/
theorem C206_tables (env : Env X T Z K F) (cfg : TCfg K) (f : F) (Zs : List Z) (t : Tab T K) (c : Cell X T K) :
    let s : Sensor T Z K := ⟨env.pd c.x, env.kf f c.x, env.clutter⟩
    let u := updateMap s cfg.mdThr cfg.birthW c.map Zs
    ∃ t', updateOne env cfg f Zs t c = .ok (t', ⟨c.x, u.map, if cfg.cluster = true ∧ c.map.length ≠ 0 then
      env.ex (c.map.foldl (fun a g => a + g.w) cfg.tiny) * Zs.foldl (fun p z => p * colSum s cfg.mdThr c.map Zs.length z) 1 * c.w else c.w, u.unused, u.nFOV⟩) := by
  simp only
  have hw : (if cfg.cluster = true ∧ c.map.length ≠ 0 then
      env.ex (c.map.foldl (fun a g => a + g.w) cfg.tiny) * Zs.foldl (fun p z => p * colSum ⟨env.pd c.x, env.kf f c.x, env.clutter⟩ cfg.mdThr c.map Zs.length z) 1 * c.w else c.w) =
      if c.map.length = 0 then c.w else wOut env cfg f Zs c := by
    unfold wOut
    by_cases h1 : c.map.length = 0
    · rw [if_neg (fun h => h.2 h1), if_pos h1]
    · rw [if_neg h1]
      by_cases h2 : cfg.cluster = true
      · rw [if_pos ⟨h2, h1⟩, if_pos h2]; rfl
      · rw [if_neg (fun h => h2 h.1), if_neg h2]
  rw [hw]
  unfold updateOne
  by_cases hm : c.map.length = 0
  · rw [if_pos hm]
    refine ⟨t, ?_⟩
    rw [result_noMap (env := env) (cfg := cfg) (f := f) hm]
    rfl
  · rw [if_neg hm]
    obtain ⟨a, e1, e2, _⟩ := acts_ok env cfg f Zs c hm t
    rw [e1]
    refine ⟨a.tab, ?_⟩
    simp only
    rw [e2]
    rfl

/-- **C206**, consequence: two tables give the same particle. -/
theorem C206_stale (env : Env X T Z K F) (cfg : TCfg K) (f : F) (Zs : List Z) (t1 t2 : Tab T K) (c : Cell X T K) :
    (updateOne env cfg f Zs t1 c).map Prod.snd = (updateOne env cfg f Zs t2 c).map Prod.snd := by
  obtain ⟨a1, e1⟩ := C206_tables env cfg f Zs t1 c
  obtain ⟨a2, e2⟩ := C206_tables env cfg f Zs t2 c
  rw [e1, e2]
  rfl

/-- A sensor on the line: a landmark is seen with probability 1/2, at its place, likelihood 1 at distance 0 and 1/4 at distance 1. -/
def lineEnv : Env Nat Nat Nat ℚ Unit :=
  ⟨fun _ _ => (1 / 2, false), fun _ x l z => (l, if x + l = z then 1 else if x + l = z + 1 ∨ x + l + 1 = z then 1 / 4 else 0, if x + l = z then 0 else 1), fun _ _ => 1 / 2, fun w => 1 + w⟩

def lineCfg (cl : Bool) (n : Nat) : TCfg ℚ := ⟨3, 1 / 10, cl, 0, n⟩

/-- A table that is too small and full of old entries. -/
def dirty : Tab Nat ℚ := ⟨1, 2, fun i j => i + j + 1, fun i j => some (i + j)⟩

def lineCell : Cell Nat Nat ℚ := ⟨2, [⟨3, 1, 0⟩, ⟨7, 1, 0⟩], 1, [4, 4], 9⟩

/-- A map with two landmarks, three measurements, a dirty table of one row: the result has the two landmarks and a detection each; the third measurement is unused. -/
example : ((updateOne lineEnv (lineCfg true 1) () [5, 9, 20] dirty lineCell).toOption.map fun q => (q.2.map.map fun g => (g.lm, g.w), q.2.w, q.2.unused, q.2.nFOV)) =
    some ([(3, 1 / 2), (7, 1 / 2), (3, 1 / 2), (7, 1 / 2)], 3 / 2, [2], 2) := by decide +kernel

/-! ### C207 -/

/-- Every particle is given to exactly one of the `n` threads. -/
structure Division (n N : Nat) (share : Nat → List Nat) : Prop where
  nodup : ∀ t, (share t).Nodup
  one : ∀ t t', t ≠ t' → ∀ i ∈ share t, i ∉ share t'
  all : ∀ i, i < N ↔ ∃ t, i ∈ share t
  idle : ∀ t, n ≤ t → share t = []

/-- A filter with `n` threads: a table and a Kalman filter for each; `k` is the Kalman filter the user gets from `getKalmanFilter` (line 1195). -/
structure Has (n : Nat) (k : F) (f : Filt X T K F) : Prop where
  tabs : f.tabs.length = n
  kfs : f.kfs.length = n
  first : f.kfs[0]? = some k

/-- The particle after `updateMap`, by the closed form. -/
def updated (env : Env X T Z K F) (cfg : TCfg K) (k : F) (Zs : List Z) (c : Cell X T K) : Cell X T K :=
  let s : Sensor T Z K := ⟨env.pd c.x, env.kf k c.x, env.clutter⟩
  let u := updateMap s cfg.mdThr cfg.birthW c.map Zs
  ⟨c.x, u.map, if cfg.cluster = true ∧ c.map.length ≠ 0 then
    env.ex (c.map.foldl (fun a g => a + g.w) cfg.tiny) * Zs.foldl (fun p z => p * colSum s cfg.mdThr c.map Zs.length z) 1 * c.w else c.w, u.unused, u.nFOV⟩

theorem updated_eq (env : Env X T Z K F) (cfg : TCfg K) (k : F) (Zs : List Z) (c : Cell X T K) : updated env cfg k Zs c = result env cfg k Zs c := by
  unfold updated result wOut
  simp only
  congr 1
  by_cases h1 : c.map.length = 0
  · rw [if_neg (fun h => h.2 h1), if_pos h1]
  · rw [if_neg h1]
    by_cases h2 : cfg.cluster = true
    · rw [if_pos ⟨h2, h1⟩, if_pos h2]; rfl
    · rw [if_neg (fun h => h2 h.1), if_neg h2]

theorem start_good {n : Nat} {k : F} {f : Filt X T K F} {share : Nat → List Nat} (env : Env X T Z K F) (cfg : TCfg K) (Zs : List Z) (hf : Has n k f) (hd : Division n f.cells.length share) :
    Good env cfg k Zs f.cells n (launch share f) := launch_good f share hf.kfs hf.tabs hf.first hd.nodup hd.one hd.all

/-- **C207**: with any number of threads, any division of the particles among them and any interleaving of their steps, no step of the map updates goes wrong, and once all threads are through, every particle is what `updateMap` makes
of it alone - with the settings of the Kalman filter the user sees. -/
theorem C207_threads (env : Env X T Z K F) (cfg : TCfg K) (n : Nat) (k : F) (Zs : List Z) (f : Filt X T K F) (hf : Has n k f) (share : Nat → List Nat) (hd : Division n f.cells.length share)
    (σ : List Nat) (hσ : ∀ t ∈ σ, t < n) : ∃ M, run env cfg Zs σ (launch share f) = .ok M ∧ (M.atEnd → M.cells = f.cells.map (updated env cfg k Zs)) := by
  obtain ⟨M, e, h⟩ := run_good hσ (start_good env cfg Zs hf hd)
  refine ⟨M, e, fun he => ?_⟩
  rw [good_atEnd h he]
  exact List.map_congr_left fun c _ => (updated_eq env cfg k Zs c).symm

theorem sum_le_mul (l : List Nat) (B : Nat) (h : ∀ x ∈ l, x ≤ B) : l.sum ≤ l.length * B := by
  induction l with
  | nil => simp
  | cons a l ih =>
    have h1 := h a List.mem_cons_self
    have h2 := ih fun x hx => h x (List.mem_cons_of_mem _ hx)
    rw [List.sum_cons, List.length_cons, Nat.succ_mul]
    omega

/-- **C207**, progress: the loop ends once every thread has had enough steps (as many as its particles have, at most). -/
theorem C207_ends (env : Env X T Z K F) (cfg : TCfg K) (n : Nat) (k : F) (Zs : List Z) (f : Filt X T K F) (hf : Has n k f) (share : Nat → List Nat) (hd : Division n f.cells.length share)
    (σ : List Nat) (hσ : ∀ t ∈ σ, t < n) (B : Nat) (hB : ∀ c ∈ f.cells, (acts cfg.cluster c.map.length Zs.length).length + 2 ≤ B) (hc : ∀ t < n, (share t).length * B ≤ σ.count t)
    (M : Mem X T K F) (e : run env cfg Zs σ (launch share f) = .ok M) : M.atEnd := by
  have hg := start_good env cfg Zs hf hd
  obtain ⟨M', e', h'⟩ := run_good hσ hg
  rw [e] at e'
  cases e'
  refine left_zero (cfg := cfg) (nZ := Zs.length) (c0 := f.cells) (fun t => ?_) (fun t i hi => h'.lt t i (List.mem_append_right _ hi))
  have h1 := run_left hσ hg e t
  have h2 : left cfg Zs.length f.cells (launch share f) t ≤ (share t).length * B := by
    unfold left launch curLeft
    simp only [Nat.zero_add]
    have : ∀ x ∈ (share t).map (fun i => ((f.cells[i]?).map (cost cfg.cluster Zs.length)).getD 0), x ≤ B := by
      intro x hx
      obtain ⟨i, hi, rfl⟩ := List.mem_map.1 hx
      have hlt : i < f.cells.length := (hd.all i).2 ⟨t, hi⟩
      rw [List.getElem?_eq_getElem hlt]
      exact hB _ (List.getElem_mem hlt)
    have h := sum_le_mul _ B this
    simpa using h
  by_cases ht : t < n
  · have := hc t ht
    omega
  · have : share t = [] := hd.idle t (by omega)
    rw [this] at h2
    simp only [List.length_nil, Nat.zero_mul] at h2
    omega

/-- A schedule of a whole `update` for `n` threads and `N` particles. -/
structure Fair (n N : Nat) (σ : Sched) : Prop where
  div : Division n N σ.share
  steps : ∀ t ∈ σ.steps, t < n
  p2 : σ.o2.Perm (List.range N)
  p3 : σ.o3.Perm (List.range N)
  p4 : σ.o4.Perm (List.range N)

/-- What the four loops do to a particle. -/
def through (env : Env X T Z K F) (cfg : TCfg K) (l : Later X T K) (k : F) (Zs : List Z) (c : Cell X T K) : Cell X T K :=
  let u := updated env cfg k Zs c
  if cfg.cluster then { u with map := l.prune (l.merge u.map) } else { u with w := l.imp u.x u.map u.w, map := l.prune (l.merge (l.order u.map)) }

/-- **C207**, all loops of `update`: no schedule makes an access go wrong, and a complete one gives every particle what its own four steps give. -/
theorem C207_loops (env : Env X T Z K F) (cfg : TCfg K) (l : Later X T K) (n : Nat) (k : F) (Zs : List Z) (f : Filt X T K F) (hf : Has n k f) (σ : Sched) (hσ : Fair n f.cells.length σ) :
    loops env cfg l σ Zs f = .ok none ∨ ∃ M, loops env cfg l σ Zs f = .ok (some M) ∧ M.cells = f.cells.map (through env cfg l k Zs) := by
  obtain ⟨M, e, h⟩ := C207_threads env cfg n k Zs f hf σ.share hσ.div σ.steps hσ.steps
  unfold loops
  rw [e]
  simp only
  by_cases he : M.atEnd
  · rw [if_pos he, h he]
    right
    cases hc : cfg.cluster with
    | true =>
      simp only [if_true]
      rw [loop_perm _ _ _ (by simpa using hσ.p3)]
      simp only
      rw [loop_perm _ _ _ (by simpa using hσ.p4)]
      refine ⟨_, rfl, ?_⟩
      simp only [List.map_map]
      refine List.map_congr_left fun c _ => ?_
      simp [through, hc]
    | false =>
      simp only [Bool.false_eq_true, if_false]
      rw [loop_perm _ _ _ (by simpa using hσ.p2)]
      simp only
      rw [loop_perm _ _ _ (by simpa using hσ.p3)]
      simp only
      rw [loop_perm _ _ _ (by simpa using hσ.p4)]
      refine ⟨_, rfl, ?_⟩
      simp only [List.map_map]
      refine List.map_congr_left fun c _ => ?_
      simp [through, hc]
  · rw [if_neg he]
    exact Or.inl rfl

/-- **C207**, independence: two filters with the same particles and the same Kalman filter, one with `n1` threads and one with `n2`, with whatever tables, filters of other threads and schedules, end with the same particles. -/
theorem C207_same (env : Env X T Z K F) (cfg : TCfg K) (l : Later X T K) (n1 n2 m : Nat) (k : F) (Zs : List Z) (f1 f2 : Filt X T K F) (h1 : Has n1 k f1) (h2 : Has n2 k f2) (hc : f1.cells = f2.cells)
    (σ1 σ2 : Sched) (s1 : Fair n1 f1.cells.length σ1) (s2 : Fair n2 f2.cells.length σ2) (M1 M2 : Mem X T K F) (e1 : loops env cfg l σ1 Zs f1 = .ok (some M1))
    (e2 : loops env { cfg with nThreads := m } l σ2 Zs f2 = .ok (some M2)) : M1.cells = M2.cells := by
  rcases C207_loops env cfg l n1 k Zs f1 h1 σ1 s1 with h | ⟨A, a1, a2⟩
  · rw [h] at e1; cases e1
  · rcases C207_loops env { cfg with nThreads := m } l n2 k Zs f2 h2 σ2 s2 with h | ⟨B, b1, b2⟩
    · rw [h] at e2; cases e2
    · rw [e1] at a1
      rw [e2] at b1
      cases a1
      cases b1
      rw [a2, b2, hc]
      rfl

/-- **C207**, whole `update`: with the resampling that follows, `update` with threads is the sequential `update` of `Verif.Model.PHD`, of which C43 to C47, C75, C76, C100 and C189 to C191 speak. -/
theorem C207_update (env : Env X T Z K F) (cfg : TCfg K) (pc : PHD.Cfg K) (hm : pc.mdThr = cfg.mdThr) (hb : pc.birthW = cfg.birthW) (l : Later X T K) (n : Nat) (k : F) (Zs : List Z) (hZ : Zs ≠ [])
    (g : PHD.Filt X T Z K) (f : Filt X T K F) (hc : f.cells = cellsOf g) (hf : Has n k f) (σ : Sched) (hσ : Fair n f.cells.length σ) (M : Mem X T K F) (e : loops env cfg l σ Zs f = .ok (some M)) (t tp r : K) :
    finish pc t tp r (rebuild g Zs M.cells) =
      PHD.update pc (fun x => ⟨env.pd x, env.kf k x, env.clutter⟩)
        (fun p p' => if cfg.cluster = true then
          (if p.st.map.length ≠ 0 then env.ex (p.st.map.foldl (fun a g => a + g.w) cfg.tiny) *
            Zs.foldl (fun q z => q * colSum ⟨env.pd p.st.x, env.kf k p.st.x, env.clutter⟩ cfg.mdThr p.st.map Zs.length z) 1 * p.w else p.w)
          else l.imp p'.st.x p'.st.map p.w)
        (fun m => l.prune (l.merge (if cfg.cluster = true then m else l.order m))) t tp r Zs g := by
  rcases C207_loops env cfg l n k Zs f hf σ hσ with h | ⟨A, a1, a2⟩
  · rw [h] at e; cases e
  · rw [e] at a1
    cases a1
    have hl : Zs.length ≠ 0 := fun h => hZ (List.length_eq_zero_iff.1 h)
    have hparts : List.zipWith (fun (p : PF.Part (PState X T K) K) (c : Cell X T K) => ({ p with st := ⟨c.x, c.map⟩, w := c.w } : PF.Part (PState X T K) K)) g.parts M.cells =
        g.parts.map fun p => ({ p with st := ⟨(through env cfg l k Zs ⟨p.st.x, p.st.map, p.w, [], 0⟩).x, (through env cfg l k Zs ⟨p.st.x, p.st.map, p.w, [], 0⟩).map⟩, w := (through env cfg l k Zs ⟨p.st.x, p.st.map, p.w, [], 0⟩).w } :
          PF.Part (PState X T K) K) := by
      rw [a2, hc]
      unfold cellsOf
      rw [List.map_map, List.zipWith_map_right, List.zipWith_self]
      rfl
    let sn : PF.Part (PState X T K) K → Sensor T Z K := fun p => ⟨env.pd p.st.x, env.kf k p.st.x, env.clutter⟩
    let u : PF.Part (PState X T K) K → Upd T K := fun p => updateMap (sn p) cfg.mdThr cfg.birthW p.st.map Zs
    let wt : PF.Part (PState X T K) K → K := fun p => if cfg.cluster = true then
      (if p.st.map.length ≠ 0 then env.ex (p.st.map.foldl (fun a g => a + g.w) cfg.tiny) * Zs.foldl (fun q z => q * colSum (sn p) cfg.mdThr p.st.map Zs.length z) 1 * p.w else p.w)
      else l.imp p.st.x ((u p).map) p.w
    let mp : PF.Part (PState X T K) K → List (Comp T K) := fun p => l.prune (l.merge (if cfg.cluster = true then (u p).map else l.order ((u p).map)))
    have h1 : rebuild g Zs M.cells = { g with
        parts := g.parts.map (fun p => ({ p with st := ⟨p.st.x, mp p⟩, w := wt p } : PF.Part (PState X T K) K))
        meas := Zs
        unused := (g.parts.map u).map Upd.unused
        nFOV := (g.parts.map u).map Upd.nFOV
        nUpd := g.nUpd + 1
        nMeas := g.nMeas + Zs.length
        resampled := false } := by
      unfold rebuild
      rw [hparts, a2, hc]
      unfold cellsOf
      simp only [List.map_map]
      congr 1
      · refine List.map_congr_left fun p _ => ?_
        unfold through updated
        cases hcl : cfg.cluster <;> simp [mp, wt, u, sn, hcl]
      · refine List.map_congr_left fun p _ => ?_
        unfold through updated
        cases hcl : cfg.cluster <;> simp [mp, wt, u, sn, hcl]
      · refine List.map_congr_left fun p _ => ?_
        unfold through updated
        cases hcl : cfg.cluster <;> simp [mp, wt, u, sn, hcl]
    rw [h1]
    unfold finish PHD.update
    rw [if_neg hl, hm, hb]
    rfl

/-- Two threads, three particles (one without a map), dirty tables, different settings of the second Kalman filter. -/
def twoFilt : Filt Nat Nat ℚ Unit := ⟨[lineCell, ⟨0, [], 1, [], 0⟩, ⟨4, [⟨1, 1 / 2, 0⟩], 1, [], 0⟩], [dirty, Tab.init], [(), ()], 7, true⟩

def twoShare : Nat → List Nat := fun t => if t = 0 then [2, 1] else if t = 1 then [0] else []

theorem two_has : Has 2 () twoFilt := ⟨rfl, rfl, rfl⟩

theorem two_div : Division 2 twoFilt.cells.length twoShare := by
  refine ⟨fun t => ?_, fun t t' h i hi hi' => ?_, fun i => ?_, fun t h => ?_⟩
  · unfold twoShare; split; decide; split <;> decide
  · unfold twoShare at hi hi'
    split at hi <;> split at hi' <;> (try split at hi) <;> (try split at hi') <;> simp at hi hi' <;> omega
  · constructor
    · intro h
      have h' : i < 3 := h
      rcases (show i = 0 ∨ i = 1 ∨ i = 2 by omega) with rfl | rfl | rfl
      · exact ⟨1, by simp [twoShare]⟩
      · exact ⟨0, by simp [twoShare]⟩
      · exact ⟨0, by simp [twoShare]⟩
    · rintro ⟨t, ht⟩
      unfold twoShare at ht
      change i < 3
      split at ht
      · simp at ht; omega
      · split at ht <;> simp at ht
        omega
  · unfold twoShare; rw [if_neg (by omega), if_neg (by omega)]

/-- The two threads in turn. -/
def turns : List Nat := (List.replicate 60 [0, 1]).flatten

/-- The hypotheses of C207 are met and the loop completes. -/
example : ∃ M, run lineEnv (lineCfg true 2) [5, 9, 20] turns (launch twoShare twoFilt) = .ok M ∧ M.atEnd ∧ M.cells = twoFilt.cells.map (updated lineEnv (lineCfg true 2) () [5, 9, 20]) := by
  have hσ : ∀ t ∈ turns, t < 2 := by decide
  obtain ⟨M, e, h⟩ := C207_threads lineEnv (lineCfg true 2) 2 () [5, 9, 20] twoFilt two_has twoShare two_div turns hσ
  have he := C207_ends lineEnv (lineCfg true 2) 2 () [5, 9, 20] twoFilt two_has twoShare two_div turns hσ 24 (by decide) (by decide) M e
  exact ⟨M, e, he, h he⟩

/-- A complete schedule of all four loops. -/
example : ∃ M, loops lineEnv (lineCfg false 2) ⟨fun _ m w => m.length * w, List.reverse, id, id⟩ ⟨twoShare, turns, [2, 0, 1], [0, 1, 2], [1, 2, 0]⟩ [5, 9, 20] twoFilt = .ok (some M) := by
  have hσ : ∀ t ∈ turns, t < 2 := by decide
  have hp : Fair 2 twoFilt.cells.length ⟨twoShare, turns, [2, 0, 1], [0, 1, 2], [1, 2, 0]⟩ := ⟨two_div, hσ, by decide, by decide, by decide⟩
  rcases C207_loops lineEnv (lineCfg false 2) ⟨fun _ m w => m.length * w, List.reverse, id, id⟩ 2 () [5, 9, 20] twoFilt two_has _ hp with h | ⟨M, h, -⟩
  · exfalso
    obtain ⟨M, e, -⟩ := C207_threads lineEnv (lineCfg false 2) 2 () [5, 9, 20] twoFilt two_has twoShare two_div turns hσ
    have he := C207_ends lineEnv (lineCfg false 2) 2 () [5, 9, 20] twoFilt two_has twoShare two_div turns hσ 24 (by decide) (by decide) M e
    obtain ⟨hc, -⟩ : M.cells.length = 3 ∧ True := ⟨by
      obtain ⟨M', e', h'⟩ := run_good hσ (start_good lineEnv (lineCfg false 2) [5, 9, 20] two_has two_div)
      rw [e] at e'
      cases e'
      exact h'.len, trivial⟩
    unfold loops at h
    rw [e] at h
    simp only at h
    rw [if_pos he] at h
    simp only [lineCfg, Bool.false_eq_true, if_false] at h
    rw [loop_perm _ _ _ (by rw [hc]; decide)] at h
    simp only at h
    rw [loop_perm _ _ _ (by rw [List.length_map, hc]; decide)] at h
    simp only at h
    rw [loop_perm _ _ _ (by rw [List.length_map, List.length_map, hc]; decide)] at h
    cases h
  · exact ⟨M, h⟩

/-! ### C208 -/

/-- Two threads are about to touch the same place, and one of them to write it. -/
def Race (cfg : TCfg K) (M : Mem X T K F) (t t' : Nat) (p : Place) : Prop := t ≠ t' ∧ p ∈ writesOf cfg M t ∧ (p ∈ readsOf M t' ∨ p ∈ writesOf cfg M t')

/-- The full claim: in no reachable state are two threads about to touch the same place with one of them writing (C++ calls that a data race, and the behaviour undefined). -/
def NoRace (X T Z K F : Type) [Field K] [LinearOrder K] : Prop :=
  ∀ (env : Env X T Z K F) (cfg : TCfg K) (n : Nat) (k : F) (Zs : List Z) (f : Filt X T K F) (share : Nat → List Nat) (σ : List Nat) (M : Mem X T K F),
    Has n k f → cfg.nThreads = n → Division n f.cells.length share → (∀ t ∈ σ, t < n) → run env cfg Zs σ (launch share f) = .ok M → ∀ t t' p, ¬ Race cfg M t t' p

/-- A step changes no place outside `writesOf`. -/
theorem C208_frame (env : Env X T Z K F) (cfg : TCfg K) (Zs : List Z) (M M' : Mem X T K F) (t : Nat) (e : tick env cfg Zs M t = .ok M') (p : Place) (hp : p ∉ writesOf cfg M t) : p.same M M' := by
  unfold tick at e
  unfold writesOf at hp
  split at e
  · cases e; cases p <;> rfl
  · rename_i i q hq
    rw [hq] at hp
    simp only at hp
    unfold begin at e
    split at e
    · cases e
    · rename_i c hc
      rw [hc] at hp
      simp only at hp e
      by_cases hm : c.map.length = 0
      · rw [if_pos hm] at hp e
        cases e
        cases p with
        | cell j => exact (List.getElem?_set_ne (fun h => hp (by simp [h]))).symm
        | _ => rfl
      · rw [if_neg hm] at hp e
        split at e
        · cases e
        · cases e
          cases p with
          | cell j => exact (List.getElem?_set_ne (fun h => hp (by simp [h]))).symm
          | tab j => exact (List.getElem?_set_ne (fun h => hp (by simp [h]))).symm
          | kf j => rfl
          | thr2 => exact absurd (by simp) hp
          | timer =>
            cases hc' : cfg.cluster with
            | true => exact absurd (by simp [hc']) hp
            | false => simp [Place.same]
  · cases e; cases p <;> rfl
  · rename_i i loc a rest q hq
    rw [hq] at hp
    unfold stepAct at e
    split at e
    · split at e
      · cases e
      · cases e
        cases p with
        | cell j => exact (List.getElem?_set_ne (fun h => hp (by cases a <;> simp [h]))).symm
        | tab j => exact (List.getElem?_set_ne (fun h => hp (by cases a <;> simp [h]))).symm
        | kf j => rfl
        | thr2 => rfl
        | timer =>
          simp only [Place.same]
          rw [if_neg]
          rintro rfl
          exact hp (by simp)
    · cases e

theorem act_thr2 (env : Env X T Z K F) (cfg : TCfg K) (f : F) (Zs : List Z) (w : Work X T K) (a b : K) (x : Act) (h : (∀ m, x ≠ .row m) ∨ a = b) : act env cfg f a Zs w x = act env cfg f b Zs w x := by
  rcases h with h | rfl
  · cases x with
    | row m => exact absurd rfl (h m)
    | _ => rfl
  · rfl

/-- What a step does depends only on its thread and the places in `readsOf`. -/
theorem C208_local (env : Env X T Z K F) (cfg : TCfg K) (Zs : List Z) (M1 M2 M1' : Mem X T K F) (t : Nat) (hth : M1.th t = M2.th t) (hr : ∀ p ∈ readsOf M1 t, p.same M1 M2) (e : tick env cfg Zs M1 t = .ok M1') :
    ∃ M2', tick env cfg Zs M2 t = .ok M2' ∧ M1'.th t = M2'.th t ∧ ∀ p ∈ writesOf cfg M1 t, p.same M1' M2' := by
  unfold tick at e ⊢
  unfold readsOf at hr
  unfold writesOf
  rw [← hth]
  split at e
  · rename_i hq
    cases e
    simp only [hq]
    exact ⟨M2, rfl, hq.symm.trans hth, fun p hp => by simp at hp⟩
  · rename_i i q hq
    simp only [hq] at hr ⊢
    have h1 : M1.cells[i]? = M2.cells[i]? := hr (.cell i) (by simp)
    have h2 : M1.tabs[t]? = M2.tabs[t]? := hr (.tab t) (by simp)
    unfold begin at e ⊢
    rw [← h1, ← h2]
    cases hc : M1.cells[i]? with
    | none => rw [hc] at e; cases e
    | some c =>
      simp only [hc] at e ⊢
      obtain ⟨c1, -⟩ := List.getElem?_eq_some_iff.1 hc
      obtain ⟨c2, -⟩ := List.getElem?_eq_some_iff.1 (h1 ▸ hc)
      by_cases hm : c.map.length = 0
      · rw [if_pos hm] at e ⊢
        cases e
        refine ⟨_, rfl, by simp, fun p hp => ?_⟩
        rw [if_pos hm] at hp
        simp only [List.mem_singleton] at hp
        subst hp
        simp only [Place.same]
        rw [List.getElem?_set_self c1, List.getElem?_set_self c2]
      · rw [if_neg hm] at e ⊢
        cases htab : M1.tabs[t]? with
        | none => rw [htab] at e; cases e
        | some tab =>
        rw [htab] at e
        simp only at e ⊢
        obtain ⟨t1, -⟩ := List.getElem?_eq_some_iff.1 htab
        obtain ⟨t2, -⟩ := List.getElem?_eq_some_iff.1 (h2 ▸ htab)
        cases e
        refine ⟨_, rfl, by simp, fun p hp => ?_⟩
        rw [if_neg hm] at hp
        cases hcl : cfg.cluster with
        | true =>
          rw [hcl] at hp
          simp only [if_true, List.cons_append, List.nil_append, List.mem_cons, List.not_mem_nil, or_false] at hp
          rcases hp with rfl | rfl | rfl | rfl
          · simp only [Place.same]
            rw [List.getElem?_set_self c1, List.getElem?_set_self c2]
          · simp only [Place.same]
            rw [List.getElem?_set_self t1, List.getElem?_set_self t2]
          · rfl
          · simp [Place.same]
        | false =>
          rw [hcl] at hp
          simp only [Bool.false_eq_true, if_false, List.append_nil, List.mem_cons, List.not_mem_nil, or_false] at hp
          rcases hp with rfl | rfl | rfl
          · simp only [Place.same]
            rw [List.getElem?_set_self c1, List.getElem?_set_self c2]
          · simp only [Place.same]
            rw [List.getElem?_set_self t1, List.getElem?_set_self t2]
          · rfl
  · rename_i i loc q hq
    cases e
    simp only [hq]
    exact ⟨_, rfl, by simp, fun p hp => by simp at hp⟩
  · rename_i i loc a rest q hq
    have h1 : M1.cells[i]? = M2.cells[i]? := hr (.cell i) (by rw [hq]; cases a <;> simp)
    have h2 : M1.tabs[t]? = M2.tabs[t]? := hr (.tab t) (by rw [hq]; cases a <;> simp)
    have h3 : M1.kfs[t]? = M2.kfs[t]? := hr (.kf t) (by rw [hq]; cases a <;> simp)
    have h4 : (∀ m, a ≠ .row m) ∨ M1.thr2 = M2.thr2 := by
      cases a with
      | row m => exact Or.inr (hr .thr2 (by rw [hq]; simp))
      | _ => exact Or.inl fun m h => by cases h
    simp only [hq]
    unfold stepAct at e ⊢
    rw [← h1, ← h2, ← h3]
    split at e
    · rename_i c tab f hc htab hkf
      rw [← act_thr2 env cfg f Zs _ _ _ a h4]
      split at e
      · cases e
      · rename_i r hr'
        cases e
        obtain ⟨c1, -⟩ := List.getElem?_eq_some_iff.1 hc
        obtain ⟨t1, -⟩ := List.getElem?_eq_some_iff.1 htab
        obtain ⟨c2, -⟩ := List.getElem?_eq_some_iff.1 (h1 ▸ hc)
        obtain ⟨t2, -⟩ := List.getElem?_eq_some_iff.1 (h2 ▸ htab)
        refine ⟨_, rfl, by simp, fun p hp => ?_⟩
        have hcase : p = .cell i ∨ p = .tab t ∨ p = .timer ∧ a = .weight := by
          cases a <;> simp at hp <;> tauto
        rcases hcase with rfl | rfl | ⟨rfl, rfl⟩
        · simp only [Place.same]
          rw [List.getElem?_set_self c1, List.getElem?_set_self c2]
        · simp only [Place.same]
          rw [List.getElem?_set_self t1, List.getElem?_set_self t2]
        · simp [Place.same]
    · cases e

/-- The places of a step: of its particles, of its thread, or shared. -/
theorem place_cases {cfg : TCfg K} {M : Mem X T K F} {t : Nat} {p : Place} (h : p ∈ readsOf M t ∨ p ∈ writesOf cfg M t) :
    (∃ i ∈ (M.th t).todo, p = .cell i) ∨ p = .tab t ∨ p = .kf t ∨ p = .thr2 ∨ p = .timer := by
  have hth : ∃ cur q, M.th t = ⟨cur, q⟩ := ⟨_, _, rfl⟩
  obtain ⟨cur, q, hq⟩ := hth
  unfold readsOf writesOf at h
  rw [hq] at h ⊢
  rcases cur with _ | ⟨i, loc, as⟩
  · cases q with
    | nil => simp at h
    | cons i q =>
      have hi : i ∈ (⟨none, i :: q⟩ : Thread K).todo := by simp [Thread.todo]
      simp only at h
      rcases h with h | h
      · simp only [List.mem_cons, List.not_mem_nil, or_false] at h
        rcases h with rfl | rfl
        · exact Or.inl ⟨i, hi, rfl⟩
        · exact Or.inr (Or.inl rfl)
      · split at h
        · simp at h
        · split at h
          · simp only [List.mem_singleton] at h
            exact Or.inl ⟨i, hi, h⟩
          · split at h <;> simp at h
            · rcases h with rfl | rfl | rfl | rfl <;> simp [hi]
            · rcases h with rfl | rfl | rfl <;> simp [hi]
  · have hi : i ∈ (⟨some (i, loc, as), q⟩ : Thread K).todo := by simp [Thread.todo]
    cases as with
    | nil => simp at h
    | cons a as =>
      have : p = .cell i ∨ p = .tab t ∨ p = .kf t ∨ p = .thr2 ∨ p = .timer := by cases a <;> simp at h <;> tauto
      rcases this with rfl | h
      · exact Or.inl ⟨i, hi, rfl⟩
      · exact Or.inr h

/-- **C208** (partial): the only places two threads can be about to touch at the same time, one of them writing, are the member `threshold_mahalanobisDistance2_mapUpdate_` and - with the cluster process - `timer_particleWeighting_`;
particles, their unused measurements and counts, tables and Kalman filters are never contended. And the threshold has the configured value whenever a thread is inside an iteration, so that the race on it
changes nothing if a concurrent write of the same value is harmless. Missing: those two members (`C208_violated`). -/
theorem C208_private_partial (env : Env X T Z K F) (cfg : TCfg K) (n : Nat) (k : F) (Zs : List Z) (f : Filt X T K F) (hf : Has n k f) (share : Nat → List Nat) (hd : Division n f.cells.length share) (σ : List Nat)
    (hσ : ∀ t ∈ σ, t < n) (M : Mem X T K F) (e : run env cfg Zs σ (launch share f) = .ok M) :
    (∀ t t' p, Race cfg M t t' p → p = .thr2 ∨ p = .timer) ∧ ∀ t, (M.th t).cur ≠ none → M.thr2 = cfg.mdThr * cfg.mdThr := by
  obtain ⟨M', e', h⟩ := run_good hσ (start_good env cfg Zs hf hd)
  rw [e] at e'
  cases e'
  refine ⟨fun t t' p hr => ?_, fun t ht => ?_⟩
  · obtain ⟨h1, h2, h3⟩ := hr
    rcases place_cases (Or.inr h2) with ⟨i, hi, rfl⟩ | rfl | rfl | h | h
    · rcases place_cases h3 with ⟨j, hj, he⟩ | he | he | he | he
      · cases he
        exact absurd hj (h.disj t t' h1 i hi)
      all_goals cases he
    · rcases place_cases h3 with ⟨j, hj, he⟩ | he | he | he | he
      · cases he
      · cases he; exact absurd rfl h1
      all_goals cases he
    · rcases place_cases h3 with ⟨j, hj, he⟩ | he | he | he | he
      · cases he
      · cases he
      · cases he; exact absurd rfl h1
      all_goals cases he
    · exact Or.inl h
    · exact Or.inr h
  · cases hc : (M.th t).cur with
    | none => exact absurd hc ht
    | some q =>
      obtain ⟨i, loc, as⟩ := q
      exact (h.cur t i loc as hc).1

/-- With one thread there is no race. -/
theorem C208_single_partial (env : Env X T Z K F) (cfg : TCfg K) (Zs : List Z) (f : Filt X T K F) (share : Nat → List Nat) (hd : Division 1 f.cells.length share) (σ : List Nat)
    (hσ : ∀ t ∈ σ, t < 1) (M : Mem X T K F) (e : run env cfg Zs σ (launch share f) = .ok M) (t t' : Nat) (p : Place) : ¬ Race cfg M t t' p := by
  have key : ∀ (σ : List Nat) (M0 : Mem X T K F), (∀ t ∈ σ, t < 1) → (∀ t, 1 ≤ t → M0.th t = ⟨none, []⟩) → run env cfg Zs σ M0 = .ok M → ∀ t, 1 ≤ t → M.th t = ⟨none, []⟩ := by
    intro σ
    induction σ with
    | nil => intro M0 _ h e; cases e; exact h
    | cons s σ ih =>
      intro M0 hs h e
      unfold run at e
      rw [List.foldlM_cons] at e
      cases h1 : tick env cfg Zs M0 s with
      | error _ => rw [h1] at e; cases e
      | ok M1 =>
        rw [h1] at e
        have hs0 : s = 0 := by have := hs s List.mem_cons_self; omega
        subst hs0
        refine ih M1 (fun t ht => hs t (List.mem_cons_of_mem _ ht)) (fun t ht => ?_) e
        have hne : t ≠ 0 := by omega
        rw [← h t ht]
        unfold tick at h1
        split at h1
        · cases h1; rfl
        · unfold begin at h1
          split at h1
          · cases h1
          · split at h1
            · cases h1; exact Function.update_of_ne hne _ _
            · split at h1
              · cases h1
              · cases h1; exact Function.update_of_ne hne _ _
        · cases h1; exact Function.update_of_ne hne _ _
        · unfold stepAct at h1
          split at h1
          · split at h1
            · cases h1
            · cases h1; exact Function.update_of_ne hne _ _
          · cases h1
  have hidle := key σ _ hσ (fun t ht => by simp only [launch]; rw [hd.idle t ht]) e
  rintro ⟨h1, h2, h3⟩
  by_cases ht : 1 ≤ t
  · unfold writesOf at h2
    rw [hidle t ht] at h2
    simp at h2
  · have ht' : 1 ≤ t' := by omega
    unfold readsOf writesOf at h3
    rw [hidle t' ht'] at h3
    simp at h3

/-- **C208** (partial): whatever the interleaving, a timer that is stopped before the loop is never left running, and with the cluster process every iteration over a particle with a map stops it. -/
theorem C208_timer_partial (env : Env X T Z K F) (cfg : TCfg K) (Zs : List Z) (f : Filt X T K F) (share : Nat → List Nat) :
    (∀ (σ : List Nat) (M : Mem X T K F), f.timer = false → run env cfg Zs σ (launch share f) = .ok M → M.timer = false) ∧
    ∀ (M M' : Mem X T K F) (t i : Nat) (q : List Nat) (c : Cell X T K), cfg.cluster = true → M.th t = ⟨none, i :: q⟩ → M.cells[i]? = some c → c.map ≠ [] →
      tick env cfg Zs M t = .ok M' → M'.timer = false := by
  have hbegin : ∀ (M M' : Mem X T K F) (t i : Nat) (q : List Nat) (c : Cell X T K), M.cells[i]? = some c → c.map ≠ [] →
      begin cfg Zs.length M t i q = .ok M' → M'.timer = if cfg.cluster then false else M.timer := by
    intro M M' t i q c hc hm e
    unfold begin at e
    simp only [hc] at e
    rw [if_neg (by simpa using hm)] at e
    split at e
    · cases e
    · cases e; rfl
  have htick : ∀ (M M' : Mem X T K F) (t : Nat), M.timer = false → tick env cfg Zs M t = .ok M' → M'.timer = false := by
    intro M M' t h e
    unfold tick at e
    split at e
    · cases e; exact h
    · rename_i i q _
      cases hc : M.cells[i]? with
      | none => unfold begin at e; simp [hc] at e
      | some c =>
        by_cases hm : c.map = []
        · unfold begin at e
          simp only [hc, hm, List.length_nil, if_true] at e
          cases e; exact h
        · rw [hbegin M M' t i q c hc hm e, h]; simp
    · cases e; exact h
    · unfold stepAct at e
      split at e
      · split at e
        · cases e
        · cases e; simp [h]
      · cases e
  refine ⟨?_, fun M M' t i q c hcl ht hc hm e => ?_⟩
  · intro σ M hf e
    have key : ∀ (σ : List Nat) (M0 : Mem X T K F), M0.timer = false → run env cfg Zs σ M0 = .ok M → M.timer = false := by
      intro σ
      induction σ with
      | nil => intro M0 h e; cases e; exact h
      | cons t σ ih =>
        intro M0 h e
        cases e1 : tick env cfg Zs M0 t with
        | error x => simp [run, e1, Bind.bind, Except.bind] at e
        | ok M1 => exact ih M1 (htick M0 M1 t h e1) (by simpa [run, e1, Bind.bind, Except.bind] using e)
    exact key σ _ hf e
  · unfold tick at e
    rw [ht] at e
    rw [hbegin M M' t i q c hc hm e, hcl]; rfl

/-- **C208 is violated** whenever two threads have a particle with a map: both write `threshold_mahalanobisDistance2_mapUpdate_` without any protection, and with the cluster process both stop `timer_particleWeighting_`. -/
theorem C208_violated_always (cfg : TCfg K) (f : Filt X T K F) (share : Nat → List Nat) (t t' i j : Nat) (q q' : List Nat) (ht : t ≠ t') (hi : share t = i :: q) (hj : share t' = j :: q') (c d : Cell X T K)
    (hc : f.cells[i]? = some c) (hd : f.cells[j]? = some d) (hcm : c.map ≠ []) (hdm : d.map ≠ []) :
    Race cfg (launch share f) t t' .thr2 ∧ (cfg.cluster = true → Race cfg (launch share f) t t' .timer) := by
  have h1 : c.map.length ≠ 0 := fun h => hcm (List.length_eq_zero_iff.1 h)
  have h2 : d.map.length ≠ 0 := fun h => hdm (List.length_eq_zero_iff.1 h)
  constructor
  · refine ⟨ht, ?_, Or.inr ?_⟩ <;> simp [writesOf, launch, hi, hj, hc, hd, h1, h2]
  · intro hcl
    refine ⟨ht, ?_, Or.inr ?_⟩ <;> simp [writesOf, launch, hi, hj, hc, hd, h1, h2, hcl]

/-- **C208 is violated**: two threads, three particles. -/
theorem C208_violated : ¬ NoRace Nat Nat Nat ℚ Unit := by
  intro h
  refine h lineEnv (lineCfg true 2) 2 () [5, 9, 20] twoFilt twoShare [] (launch twoShare twoFilt) two_has rfl two_div (fun _ h => by simp at h) rfl 0 1 .thr2 ?_
  exact (C208_violated_always (lineCfg true 2) twoFilt twoShare 0 1 2 0 [1] [] (by decide) rfl rfl _ _ rfl rfl (by simp) (by simp [lineCell])).1

/-- The two threads of the example: after any prefix of their steps nothing else is shared. -/
example : ∃ M, run lineEnv (lineCfg true 2) [5, 9, 20] turns (launch twoShare twoFilt) = .ok M ∧ ∀ t t' p, Race (lineCfg true 2) M t t' p → p = .thr2 ∨ p = .timer := by
  have hσ : ∀ t ∈ turns, t < 2 := by decide
  obtain ⟨M, e, -⟩ := C207_threads lineEnv (lineCfg true 2) 2 () [5, 9, 20] twoFilt two_has twoShare two_div turns hσ
  exact ⟨M, e, (C208_private_partial lineEnv (lineCfg true 2) 2 () [5, 9, 20] twoFilt two_has twoShare two_div turns hσ M e).1⟩

/-- A run of both threads from a stopped timer, which ends with the timer stopped. -/
example : ∃ M, run lineEnv (lineCfg true 2) [5, 9, 20] turns (launch twoShare { twoFilt with timer := false }) = .ok M ∧ M.timer = false := by
  have hσ : ∀ t ∈ turns, t < 2 := by decide
  obtain ⟨M, e, -⟩ := C207_threads lineEnv (lineCfg true 2) 2 () [5, 9, 20] { twoFilt with timer := false } ⟨rfl, rfl, rfl⟩ twoShare two_div turns hσ
  exact ⟨M, e, (C208_timer_partial lineEnv (lineCfg true 2) [5, 9, 20] _ twoShare).1 turns M rfl e⟩

/-! ### C239 -/

/-- The full claim: the loops of `update` do for any number `N` of threads what they do for each particle alone, whatever number the filter was constructed for (`f.tabs.length`, `omp_get_max_threads()` at that time). -/
def AnyThreads (X T Z K F : Type) [Field K] [LinearOrder K] : Prop :=
  ∀ (env : Env X T Z K F) (cfg : TCfg K) (l : Later X T K) (n N : Nat) (k : F) (Zs : List Z) (f : Filt X T K F) (σ : Sched), Has n k f → Fair N f.cells.length σ →
    loops env cfg l σ Zs f = .ok none ∨ ∃ M, loops env cfg l σ Zs f = .ok (some M) ∧ M.cells = f.cells.map (through env cfg l k Zs)

/-- **C239**, the claim as far as it holds: for at most as many threads as at construction. -/
theorem C239_partial (env : Env X T Z K F) (cfg : TCfg K) (l : Later X T K) (n N : Nat) (hN : N ≤ n) (k : F) (Zs : List Z) (f : Filt X T K F) (hf : Has n k f) (σ : Sched) (hσ : Fair N f.cells.length σ) :
    loops env cfg l σ Zs f = .ok none ∨ ∃ M, loops env cfg l σ Zs f = .ok (some M) ∧ M.cells = f.cells.map (through env cfg l k Zs) :=
  C207_loops env cfg l n k Zs f hf σ
    ⟨⟨hσ.div.nodup, hσ.div.one, hσ.div.all, fun t ht => hσ.div.idle t (le_trans hN ht)⟩, fun t ht => lt_of_lt_of_le (hσ.steps t ht) hN, hσ.p2, hσ.p3, hσ.p4⟩

theorem run_other {env : Env X T Z K F} {cfg : TCfg K} {Zs : List Z} {k : F} {c0 : List (Cell X T K)} {n t : Nat} (ht : n ≤ t) : ∀ (σ : List Nat), (∀ s ∈ σ, s < n) → ∀ M M' : Mem X T K F,
    Good env cfg k Zs c0 n M → run env cfg Zs σ M = .ok M' → M'.th t = M.th t := by
  intro σ
  induction σ with
  | nil => intro _ M M' _ e; cases e; rfl
  | cons s σ ih =>
    intro hσ M M' h e
    obtain ⟨M1, e1, h1⟩ := tick_good h (hσ s List.mem_cons_self)
    unfold run at e
    rw [List.foldlM_cons, e1] at e
    rw [ih (fun s hs => hσ s (List.mem_cons_of_mem _ hs)) M1 M' h1 e]
    have := hσ s List.mem_cons_self
    exact (tick_left h e1).2 t (by omega)

/-- **C239**, violated: as soon as a thread that did not exist at construction gets a particle with a map, its table is accessed outside `wTables_`, whatever the other threads did before. -/
theorem C239_violated (env : Env X T Z K F) (cfg : TCfg K) (n N : Nat) (k : F) (Zs : List Z) (f : Filt X T K F) (hf : Has n k f) (share : Nat → List Nat) (hd : Division N f.cells.length share)
    (t i : Nat) (q : List Nat) (ht : n ≤ t) (hi : share t = i :: q) (c : Cell X T K) (hc : f.cells[i]? = some c) (hm : c.map ≠ []) (σ1 σ2 : List Nat) (h1 : ∀ s ∈ σ1, s < n) :
    run env cfg Zs (σ1 ++ t :: σ2) (launch share f) = .error .index := by
  have hg : Good env cfg k Zs f.cells n (launch share f) := launch_good f share hf.kfs hf.tabs hf.first hd.nodup hd.one hd.all
  obtain ⟨M, e, h⟩ := run_good h1 hg
  have hth : M.th t = ⟨none, i :: q⟩ := by
    rw [run_other ht σ1 h1 _ _ hg e]
    change (⟨none, share t⟩ : Thread K) = _
    rw [hi]
  have hcell : M.cells[i]? = some c := (h.wait t i (by rw [hth]; exact List.mem_cons_self)).trans hc
  have htab : M.tabs[t]? = none := List.getElem?_eq_none (by rw [h.tabs]; exact ht)
  have hm' : c.map.length ≠ 0 := fun h => hm (List.length_eq_zero_iff.1 h)
  unfold run at e ⊢
  rw [List.foldlM_append, e]
  change (t :: σ2).foldlM (tick env cfg Zs) M = _
  have : tick env cfg Zs M t = .error .index := by
    unfold tick
    simp only [hth]
    unfold begin
    rw [hcell]
    simp only
    rw [if_neg hm', htab]
  rw [List.foldlM_cons, this]
  rfl

/-- A filter constructed for one thread, two threads at the call. -/
def oneFilt : Filt Nat Nat ℚ Unit := ⟨[lineCell, ⟨4, [⟨1, 1 / 2, 0⟩], 1, [], 0⟩], [Tab.init], [()], 7, true⟩

def oneShare : Nat → List Nat := fun t => if t = 0 then [0] else if t = 1 then [1] else []

theorem one_div : Division 2 oneFilt.cells.length oneShare := by
  refine ⟨fun t => ?_, fun t t' h i hi => ?_, fun i => ?_, fun t ht => ?_⟩
  · unfold oneShare; split <;> [simp; (split <;> simp)]
  · unfold oneShare at hi ⊢
    split at hi
    · simp only [List.mem_singleton] at hi
      subst hi
      split
      · omega
      · split <;> simp
    · split at hi
      · simp only [List.mem_singleton] at hi
        subst hi
        split
        · simp
        · split
          · omega
          · simp
      · simp at hi
  · change i < 2 ↔ _
    constructor
    · intro hi
      exact ⟨i, by unfold oneShare; rcases (by omega : i = 0 ∨ i = 1) with rfl | rfl <;> simp⟩
    · rintro ⟨t, ht⟩
      unfold oneShare at ht
      split at ht
      · simp at ht; omega
      · split at ht
        · simp at ht; omega
        · simp at ht
  · unfold oneShare
    rw [if_neg (by omega), if_neg (by omega)]

/-- **C239**, violated: the full claim is false. -/
theorem C239_violated_full : ¬ AnyThreads Nat Nat Nat ℚ Unit := by
  intro h
  have hr := C239_violated lineEnv (lineCfg false 1) 1 2 () [5, 9, 20] oneFilt ⟨rfl, rfl, rfl⟩ oneShare one_div 1 1 [] le_rfl rfl _ rfl (by simp) [0, 0] [] (by decide)
  have := h lineEnv (lineCfg false 1) ⟨fun _ _ w => w, id, id, id⟩ 1 2 () [5, 9, 20] oneFilt ⟨oneShare, [0, 0, 1], [0, 1], [0, 1], [0, 1]⟩ ⟨rfl, rfl, rfl⟩
    ⟨one_div, by decide, List.Perm.refl _, List.Perm.refl _, List.Perm.refl _⟩
  unfold loops at this
  rw [show run lineEnv (lineCfg false 1) [5, 9, 20] [0, 0, 1] (launch oneShare oneFilt) = .error .index from hr] at this
  rcases this with h | ⟨M, h, _⟩ <;> cases h

/-- The hypotheses of `C239_partial` can be met: one thread of the two that `twoFilt` was constructed for does all the work. -/
example : Has 2 () twoFilt ∧ Fair 1 twoFilt.cells.length ⟨fun t => if t = 0 then [0, 1, 2] else [], List.replicate 60 0, [0, 1, 2], [0, 1, 2], [0, 1, 2]⟩ := by
  refine ⟨two_has, ⟨fun t => ?_, fun t t' h i hi => ?_, fun i => ?_, fun t ht => ?_⟩, by decide, List.Perm.refl _, List.Perm.refl _, List.Perm.refl _⟩
  · dsimp only; split <;> simp
  · dsimp only at hi ⊢
    split at hi
    · rw [if_neg (by omega)]; simp
    · simp at hi
  · change i < 3 ↔ _
    constructor
    · intro hi
      exact ⟨0, by simp; omega⟩
    · rintro ⟨t, ht⟩
      dsimp only at ht
      split at ht
      · simp at ht; omega
      · simp at ht
  · dsimp only
    rw [if_neg (by omega)]

end PHDTProps
end RFS
