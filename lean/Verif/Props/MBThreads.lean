import Verif.Lemmas.MBThreads

/-!
Properties of the parallel loops of `RBCBMeMBerFilter` and `RBLMBFilter` (`Verif.Model.MBThreads`): `update` does not depend on the number of threads, the division of the particles among them or the interleaving, but two threads
write the same member at once, and a filter must not be run by more threads than it was constructed for.
-/

set_option linter.unusedSectionVars false

namespace RFS
namespace MBTProps
open MBF MBT

variable {X D Z B K F : Type*} [Field K] [LinearOrder K]

/-! ### C222 -/

/-- **C222**: `update` by `T` threads, whatever the division of the particles and the interleaving of the steps in each of the three loops (`Full`: every iteration has an owner among the threads and is run to its end), does exactly what the
sequential `update` of `Verif.Model.MBFilter` does, errors included, with the settings of the Kalman filter that `getKalmanFilter` hands out; the threads are left with these settings. -/
theorem C222_update (o : Pieces X D Z B K F) (md t tp r : K) (Zs : List Z) (k : F) (g : TFilt X D Z B K F) (hk : g.kfs[0]? = some k) (σ1 σ2 σ3 : Sched) (h1 : Full g.kfs.length g.f.parts.length 2 σ1)
    (h2 : Full g.kfs.length g.f.parts.length 1 σ2) (h3 : Full g.kfs.length g.f.parts.length 2 σ3) :
    update o md t tp r Zs σ1 σ2 σ3 g = match MBF.update (o.ops k) t tp r Zs g.f with
      | .error e => .error e
      | .ok f' => .ok (some ⟨f', if Zs.length = 0 then g.kfs else g.kfs.map fun _ => k, if Zs.length ≠ 0 ∧ ∃ p ∈ g.f.parts, o.has p.st.m = true then md * md else g.thr⟩) := by
  unfold MBT.update MBF.update
  by_cases hz : Zs.length = 0
  · simp [hz]
  · by_cases hu : g.f.unused.length < g.f.parts.length
    · simp [hz, hu]
    · have hs : shareKf g.kfs = g.kfs.map fun _ => k := by
        cases hg : g.kfs with
        | nil => rw [hg] at hk; cases hk
        | cons a l => rw [hg] at hk; cases hk; rfl
      have hl := cellsOf_len g.f hu
      rw [if_neg hz, if_neg hz, if_neg hu, if_neg hu, if_neg hz]
      have hthr : (∃ c ∈ cellsOf g.f, o.has c.p.st.m = true) ↔ ∃ p ∈ g.f.parts, o.has p.st.m = true := by
        rw [← cellsOf_p g.f hu]
        simp
      have ha := three_all o Zs k (cellsOf g.f) (cellsOf_ub g.f)
      rw [cellsOf_p g.f hu] at ha
      rcases loops_eq (o := o) (md := md) (Zs := Zs) (k := k) (M := ⟨cellsOf g.f, [], shareKf g.kfs, g.thr⟩) (fun j hj => shareKf_get hk hj) (by rw [hl]; exact h1) (by rw [hl]; exact h2)
        (by rw [hl]; exact h3) with ⟨cs, a1, a2, tt, a3⟩ | ⟨a1, a2⟩
      · rw [a3]
        dsimp only at a1 ⊢
        rw [a1] at ha
        cases hq : updAll (o.ops k) Zs g.f.parts with
        | none => rw [hq] at ha; cases ha
        | some us =>
          rw [hq] at ha
          cases ha
          dsimp only
          unfold finish
          simp only [List.map_map, List.any_map, Function.comp_def, hs, hthr, ne_eq, hz, not_false_eq_true, true_and]
          by_cases hm : o.minUpd ≤ g.f.nUpd + 1
          · rw [if_pos hm, if_pos (show (o.ops k).minUpd ≤ g.f.nUpd + 1 from hm)]
            cases PF.resample (us.map fun u => u.2.1) 0 false t tp r with
            | none => rfl
            | some q =>
              obtain ⟨b, P⟩ := q
              cases b <;> rfl
          · rw [if_neg hm, if_neg (show ¬ (o.ops k).minUpd ≤ g.f.nUpd + 1 from hm)]
      · rw [a2]
        dsimp only at a1 ⊢
        rw [a1] at ha
        cases hq : updAll (o.ops k) Zs g.f.parts with
        | none => rfl
        | some us => rw [hq] at ha; cases ha

/-- **C222**, consequence: two filters in the same state, with the same Kalman filter to be seen, one for `g1.kfs.length` threads and one for `g2.kfs.length`, whatever the others threads' Kalman filters hold, are in the same state after `update`. -/
theorem C222_same (o : Pieces X D Z B K F) (md t tp r : K) (Zs : List Z) (k : F) (g1 g2 : TFilt X D Z B K F) (hf : g1.f = g2.f) (hk1 : g1.kfs[0]? = some k) (hk2 : g2.kfs[0]? = some k) (σ1 σ2 σ3 τ1 τ2 τ3 : Sched)
    (h1 : Full g1.kfs.length g1.f.parts.length 2 σ1) (h2 : Full g1.kfs.length g1.f.parts.length 1 σ2) (h3 : Full g1.kfs.length g1.f.parts.length 2 σ3)
    (u1 : Full g2.kfs.length g2.f.parts.length 2 τ1) (u2 : Full g2.kfs.length g2.f.parts.length 1 τ2) (u3 : Full g2.kfs.length g2.f.parts.length 2 τ3) :
    (MBT.update o md t tp r Zs σ1 σ2 σ3 g1).map (Option.map TFilt.f) = (MBT.update o md t tp r Zs τ1 τ2 τ3 g2).map (Option.map TFilt.f) := by
  rw [C222_update o md t tp r Zs k g1 hk1 σ1 σ2 σ3 h1 h2 h3, C222_update o md t tp r Zs k g2 hk2 τ1 τ2 τ3 u1 u2 u3, hf]
  cases MBF.update (o.ops k) t tp r Zs g2.f <;> rfl

open GM GMB in
/-- **C222** for `RBCBMeMBerFilter`: the sequential filter is the one of C175 to C179 (`lik` is 1 for a particle without tracks, RBCBMeMBerFilter.hpp 533). -/
theorem C222_cbm {d : Nat} (cfg : MBF.Cfg K) (env : F → X → (Zs : List Z) → CBM.Env K d Zs.length) (lik : F → X → List Z → List (Track K d) → K) (hl : ∀ k x Zs, lik k x Zs [] = 1) (inv : X → Z → Lm K d)
    (lstep : Lm K d → Lm K d) (maha : Lm K d → Lm K d → K) (srt : List (Gauss K d) → List (Gauss K d)) (garb garb2 : X → List Z → Nat → GMix K d) (k : F) :
    (MBT.cbm cfg env lik inv lstep maha srt garb garb2).ops k = MBF.cbm cfg (env k) (lik k) inv lstep maha srt garb garb2 := by
  unfold Pieces.ops MBT.cbm MBF.cbm
  congr 1
  · funext x Zs ts
    unfold cbmUpd
    cases ts with
    | nil => simp [CBM.updateMap]
    | cons a l => simp
  · funext x Zs ts
    cases ts with
    | nil => simp [hl]
    | cons a l => simp

open GM GMB in
/-- **C222** for `RBLMBFilter`: the sequential filter is the one of C175 and C180. -/
theorem C222_lmb {d : Nat} (cfg : LCfg) (c : LMB.Cfg) (env : F → X → (Zs : List Z) → CBM.Env ℝ d Zs.length) (murty : X → (Zs : List Z) → List (Track ℝ d) → ∀ n, List (Fin n) → List (Fin Zs.length) → List (List Nat × ℝ))
    (fuel ncc : Nat) (lab : X → (Zs : List Z) → List (Track ℝ d) → ∀ n, Fin n ⊕ Fin Zs.length → Nat) (inv : X → Z → Lm ℝ d) (lstep : Lm ℝ d → Lm ℝ d) (maha : Lm ℝ d → Lm ℝ d → ℝ)
    (srt : List (Gauss ℝ d) → List (Gauss ℝ d)) (garb : X → List Z → Nat → GMix ℝ d) (k : F) :
    (MBT.lmb cfg (fun k x Zs ts => LMB.updateMap (env k x Zs) c ts (murty x Zs ts) fuel ncc (lab x Zs ts)) inv lstep maha srt garb fun Zs => min c.maxPE (c.expected / Zs.length)).ops k =
      MBF.lmb cfg (fun x Zs ts => LMB.updateMap (env k x Zs) c ts (murty x Zs ts) fuel ncc (lab x Zs ts)) inv lstep maha srt garb := by
  unfold Pieces.ops MBT.lmb MBF.lmb
  congr 1
  · funext x Zs ts
    unfold lmbUpd
    cases ts with
    | nil =>
      simp only [List.length_nil, ne_eq, not_true_eq_false, decide_false, Bool.false_eq_true, if_false, Option.bind_some, Bool.false_or]
      rw [show LMB.updateMap (env k x Zs) c [] (murty x Zs []) fuel ncc (lab x Zs []) = some ([], (List.finRange Zs.length).map fun z => (z, min c.maxPE (c.expected / Zs.length)), 1) from by simp [LMB.updateMap]]
      simp only [Option.bind_some]
      have : (List.range Zs.length).map (fun z => (z, min c.maxPE (c.expected / Zs.length))) =
          ((List.finRange Zs.length).map fun z => (z, min c.maxPE (c.expected / Zs.length))).map fun b : Fin Zs.length × ℝ => (b.1.1, b.2) := by
        rw [List.map_map, ← List.map_coe_finRange_eq_range, List.map_map]
        rfl
      rw [this]
    | cons a l =>
      simp only [List.length_cons, ne_eq, Nat.add_eq_zero_iff, one_ne_zero, and_false, not_false_eq_true, decide_true, if_true]
      cases LMB.updateMap (env k x Zs) c (a :: l) (murty x Zs (a :: l)) fuel ncc (lab x Zs (a :: l)) with
      | none => rfl
      | some q => simp
  · funext x Zs ts
    cases ts with
    | nil => simp [LMB.updateMap]
    | cons a l =>
      simp only [List.length_cons, ne_eq, Nat.add_eq_zero_iff, one_ne_zero, and_false, not_false_eq_true, decide_true, if_true]
      cases LMB.updateMap (env k x Zs) c (a :: l) (murty x Zs (a :: l)) fuel ncc (lab x Zs (a :: l)) <;> rfl

/-- **C222**, the parallel loop over the landmarks in `predict`: every particle gets its own landmarks moved, whatever the schedule. -/
theorem C222_predict (o : Pieces X D Z B K F) (md : K) (Zs : List Z) (k : F) (T : Nat) (M : Mem X D B K F) (hk : ∀ j < T, M.kfs[j]? = some k) (σ : Sched) (h : Full T M.cells.length 1 σ) :
    (loop o md Zs [.still] σ M).map (Option.map Mem.cells) =
      match M.cells.mapM fun c => (o.still c.p.st.m).map fun m => ({ c with p := { c.p with st := ⟨c.p.st.x, m⟩ } } : Cell X D B K) with
      | none => .error .map
      | some cs => .ok (some cs) := by
  have e : ∀ cs : List (Cell X D B K), cs.mapM (alone o Zs k [.still]) =
      match cs.mapM fun c => (o.still c.p.st.m).map fun m => ({ c with p := { c.p with st := ⟨c.p.st.x, m⟩ } } : Cell X D B K) with
      | none => .error .map
      | some cs => .ok cs := by
    intro cs
    induction cs with
    | nil => rfl
    | cons c cs ih =>
      rw [List.mapM_cons, List.mapM_cons, ih, alone1]
      unfold act
      cases o.still c.p.st.m with
      | none => rfl
      | some m =>
        dsimp only [Option.map_some]
        cases cs.mapM fun c => (o.still c.p.st.m).map fun m => ({ c with p := { c.p with st := ⟨c.p.st.x, m⟩ } } : Cell X D B K) <;> rfl
  rcases loop_eq (o := o) (md := md) (Zs := Zs) (k := k) (as := [.still]) (σ := σ) (M := M) (begin_none (by decide)) h.range h.enough (fun i hi => hk _ (h.owner i hi)) with ⟨cs, a1, a2, t, a3⟩ | ⟨a1, a2⟩
  · rw [a3]
    rw [e] at a1
    split at a1
    · cases a1
    · rename_i q hq
      cases a1
      rfl
  · rw [a2]
    rw [e] at a1
    split at a1
    · rfl
    · cases a1

/-- A toy filter: maps are lists of numbers, a scan is appended to the map, the settings of the Kalman filter count. -/
def toy : Pieces Nat (List Nat) Nat Nat ℚ Nat where
  has m := decide (m ≠ [])
  map k x Zs m := some (false, m ++ Zs.map (fun z => k * x + z), [0])
  lik k x _ m := k + x + m.length
  fresh Zs := List.range Zs.length
  merge m := some m.dedup
  prT _ _ m := some (false, m.filter fun a => decide (a < 9))
  prG m := some m.reverse
  idx := id
  born _ _ z m := m ++ [z]
  still m := some m
  minUpd := 5

/-- Three particles (the second one without a map), two threads; the second Kalman filter has old settings. -/
def toyF : TFilt Nat (List Nat) Nat Nat ℚ Nat := ⟨⟨[⟨⟨1, [3]⟩, 0, 0, 1⟩, ⟨⟨2, []⟩, 1, 1, 1⟩, ⟨⟨3, [4, 4]⟩, 2, 2, 1⟩], [], [[], [], []], 0, false⟩, [1, 7], 0⟩

/-- Threads 0 and 1 in turn, the particle 2 belonging to thread 1. -/
def toyS : Sched := ⟨fun i => i / 2, [0, 2, 0, 2, 1, 1, 1]⟩

theorem toyS_full (len : Nat) (h : len ≤ 2) : Full 2 3 len toyS := by
  refine ⟨by decide, fun i hi => ?_, fun i hi => ?_⟩
  · have : ∀ i < 3, 2 ≤ toyS.steps.count i := by decide
    exact le_trans h (this i hi)
  · show i / 2 < 2
    omega

/-- The hypotheses of C222 are met; the third particle is updated with the settings 1, not 7. -/
example : toyF.kfs[0]? = some 1 ∧ Full toyF.kfs.length toyF.f.parts.length 2 toyS ∧ Full toyF.kfs.length toyF.f.parts.length 1 toyS ∧
    ((MBT.update toy 3 0 0 0 [5] toyS toyS toyS toyF).toOption.map fun q => q.map fun g => (g.f.parts.map fun p => p.st.m, g.f.unused, g.kfs, g.thr)) = some (some ([[6, 3], [], [8, 4]], [[0], [0], [0]], [1, 1], 9)) :=
  ⟨rfl, toyS_full 2 le_rfl, toyS_full 1 (by omega), by decide +kernel⟩

/-! ### C223 -/

/-- Iterations `i` and `j`, which different threads run, are about to touch the same place, and one of them to write it. -/
def Race (o : Pieces X D Z B K F) (owner : Nat → Nat) (M : Mem X D B K F) (i j : Nat) (p : Place) : Prop :=
  owner i ≠ owner j ∧ p ∈ writesOf o M i ∧ (p ∈ readsOf owner M j ∨ p ∈ writesOf o M j)

/-- The state of a filter when a loop with the steps `as` begins. -/
def launch (as : List Act) (g : TFilt X D Z B K F) : Mem X D B K F := ⟨cellsOf g.f, (cellsOf g.f).map fun _ => as, shareKf g.kfs, g.thr⟩

/-- The full claim: in no state that the first loop of `update` reaches are two threads about to touch the same place with one of them writing it (a data race in C++, behaviour undefined). -/
def NoRace (o : Pieces X D Z B K F) (md : K) : Prop :=
  ∀ (Zs : List Z) (g : TFilt X D Z B K F) (owner : Nat → Nat) (σ : List Nat) (M : Mem X D B K F), (∀ i < g.f.parts.length, owner i < g.kfs.length) → run o md Zs owner σ (launch [.begin, .work] g) = .ok M →
    ∀ i j p, ¬ Race o owner M i j p

/-- A step changes no place outside `writesOf`. -/
theorem C223_frame (o : Pieces X D Z B K F) (md : K) (Zs : List Z) (owner : Nat → Nat) (M M' : Mem X D B K F) (i : Nat) (e : tick o md Zs owner M i = .ok M') (p : Place) (hp : p ∉ writesOf o M i) : p.same M M' := by
  unfold tick at e
  unfold writesOf at hp
  split at e
  · cases e; cases p <;> rfl
  · rename_i a rest c h1 h2
    rw [h1, h2] at hp
    split at e
    · cases e
    · rename_i c' hc
      cases e
      cases p with
      | cell j =>
        refine (List.getElem?_set_ne fun h => hp ?_).symm
        subst h
        cases a <;> simp
        split <;> simp
      | kf t => rfl
      | thr =>
        simp only [Place.same]
        rw [if_neg]
        rintro ⟨rfl, hh⟩
        exact hp (by simp [hh])
  · cases e

/-- What a step does depends only on the places in `readsOf`: in particular never on the threshold, nor on other particles. -/
theorem C223_local (o : Pieces X D Z B K F) (md : K) (Zs : List Z) (owner : Nat → Nat) (M1 M2 M1' : Mem X D B K F) (i : Nat) (ht : M1.todo[i]? = M2.todo[i]?) (hr : ∀ p ∈ readsOf owner M1 i, p.same M1 M2)
    (hn : M1.todo[i]? = some [] → M1.cells[i]? = M2.cells[i]?) (e : tick o md Zs owner M1 i = .ok M1') :
    ∃ M2', tick o md Zs owner M2 i = .ok M2' ∧ M1'.todo[i]? = M2'.todo[i]? ∧ ∀ p ∈ writesOf o M1 i, p.same M1' M2' := by
  unfold tick at e ⊢
  unfold readsOf at hr
  unfold writesOf
  rw [← ht]
  split at e
  · rename_i h1 h2
    cases e
    rw [h1, ← hn h1, h2]
    exact ⟨M2, rfl, h1.symm.trans ht, fun p hp => by simp at hp⟩
  · rename_i a rest c h1 h2
    have hc : M1.cells[i]? = M2.cells[i]? := hr (.cell i) (by rw [h1]; cases a <;> simp)
    have ha : act o Zs M2.kfs[owner i]? c a = act o Zs M1.kfs[owner i]? c a := by
      cases a with
      | work =>
        have hk : M1.kfs[owner i]? = M2.kfs[owner i]? := hr (.kf (owner i)) (by rw [h1]; simp)
        rw [hk]
      | _ => rfl
    rw [h1, ← hc, h2]
    dsimp only
    rw [ha]
    split at e
    · cases e
    · rename_i c' hc'
      cases e
      obtain ⟨l1, -⟩ := List.getElem?_eq_some_iff.1 h2
      obtain ⟨l2, -⟩ := List.getElem?_eq_some_iff.1 (hc ▸ h2)
      obtain ⟨t1, -⟩ := List.getElem?_eq_some_iff.1 h1
      obtain ⟨t2, -⟩ := List.getElem?_eq_some_iff.1 (ht ▸ h1)
      refine ⟨_, rfl, ?_, fun p hp => ?_⟩
      · dsimp only
        rw [List.getElem?_set_self t1, List.getElem?_set_self t2]
      · have hcase : p = .cell i ∨ p = .thr ∧ a = .begin ∧ o.has c.p.st.m = true := by
          cases a <;> simp at hp <;> try (exact Or.inl hp)
          split at hp
          · rename_i hh
            simp at hp
            rcases hp with hp | hp
            · exact Or.inl hp
            · exact Or.inr ⟨hp, rfl, hh⟩
          · exact Or.inl (by simpa using hp)
        rcases hcase with rfl | ⟨rfl, hh⟩
        · simp only [Place.same]
          rw [List.getElem?_set_self l1, List.getElem?_set_self l2]
        · simp only [Place.same]
          rw [if_pos hh, if_pos hh]
  · cases e

/-- **C223**, the claim as far as it holds: in every state, reachable or not, and in every loop the only place where two threads can collide is the threshold, at the very beginning of the map updates of two particles with tracks. -/
theorem C223_partial (o : Pieces X D Z B K F) (owner : Nat → Nat) (M : Mem X D B K F) (i j : Nat) (p : Place) (h : Race o owner M i j p) :
    p = .thr ∧ ∃ ri rj ci cj, M.todo[i]? = some (.begin :: ri) ∧ M.todo[j]? = some (.begin :: rj) ∧ M.cells[i]? = some ci ∧ M.cells[j]? = some cj ∧ o.has ci.p.st.m = true ∧ o.has cj.p.st.m = true := by
  obtain ⟨hne, hw, hr⟩ := h
  have hij : i ≠ j := fun h => hne (by rw [h])
  have hwr : ∀ i, p ∈ writesOf o M i → p = .cell i ∨ p = .thr ∧ ∃ r c, M.todo[i]? = some (.begin :: r) ∧ M.cells[i]? = some c ∧ o.has c.p.st.m = true := by
    intro i hw
    unfold writesOf at hw
    split at hw
    · rename_i r c h1 h2
      split at hw
      · rename_i hh
        simp at hw
        rcases hw with hw | hw
        · exact Or.inl hw
        · exact Or.inr ⟨hw, r, c, h1, h2, hh⟩
      · exact Or.inl (by simpa using hw)
    · exact Or.inl (by simpa using hw)
    · simp at hw
  have hrd : p ∈ readsOf owner M j → p = .cell j ∨ p = .kf (owner j) := by
    intro hr
    unfold readsOf at hr
    split at hr
    · simpa using hr
    · exact Or.inl (by simpa using hr)
    · simp at hr
  rcases hwr i hw with rfl | ⟨rfl, r, c, h1, h2, h3⟩
  · rcases hr with hr | hr
    · rcases hrd hr with h | h <;> cases h
      exact absurd rfl hij
    · rcases hwr j hr with h | ⟨h, -⟩ <;> cases h
      exact absurd rfl hij
  · rcases hr with hr | hr
    · rcases hrd hr with h | h <;> cases h
    · rcases hwr j hr with h | ⟨-, r', c', h1', h2', h3'⟩
      · cases h
      · exact ⟨rfl, r, r', c, c', h1, h1', h2, h2', h3, h3'⟩

/-- **C223**, single threads: a filter run by one thread has no race. -/
theorem C223_single (o : Pieces X D Z B K F) (t : Nat) (M : Mem X D B K F) (i j : Nat) (p : Place) : ¬ Race o (fun _ => t) M i j p := fun h => h.1 rfl

/-- **C223**, violated: whenever two particles with tracks belong to different threads, the threads race for the threshold as soon as the loop begins. -/
theorem C223_violated (o : Pieces X D Z B K F) (g : TFilt X D Z B K F) (owner : Nat → Nat) (i j : Nat) (hne : owner i ≠ owner j) (ci cj : Cell X D B K) (hi : (cellsOf g.f)[i]? = some ci) (hj : (cellsOf g.f)[j]? = some cj)
    (ti : o.has ci.p.st.m = true) (tj : o.has cj.p.st.m = true) : Race o owner (launch [.begin, .work] g) i j .thr := by
  refine ⟨hne, ?_, Or.inr ?_⟩
  · have h1 : (launch [.begin, .work] g).todo[i]? = some [.begin, .work] := by simp only [launch, List.getElem?_map, hi, Option.map_some]
    have h2 : (launch [.begin, .work] g).cells[i]? = some ci := hi
    unfold writesOf
    rw [h1, h2]
    simp [ti]
  · have h1 : (launch [.begin, .work] g).todo[j]? = some [.begin, .work] := by simp only [launch, List.getElem?_map, hj, Option.map_some]
    have h2 : (launch [.begin, .work] g).cells[j]? = some cj := hj
    unfold writesOf
    rw [h1, h2]
    simp [tj]

/-- **C223**, violated: the full claim is false for every filter of which some map has tracks. -/
theorem C223_violated_full (o : Pieces X D Z B K F) (md : K) (x : X) (m : D) (hm : o.has m = true) (k : F) : ¬ NoRace o md := by
  intro h
  let p : PF.Part (PState X D) K := ⟨⟨x, m⟩, 0, 0, 1⟩
  let g : TFilt X D Z B K F := ⟨⟨[p, p], [], [[], []], 0, false⟩, [k, k], 0⟩
  exact h [] g (fun i => i) [] (launch [.begin, .work] g) (fun i hi => hi) rfl 0 1 .thr (C223_violated o g (fun i => i) 0 1 (by decide) ⟨p, [], false⟩ ⟨p, [], false⟩ rfl rfl hm hm)

/-- The particles 0 and 2 of the toy filter race, on threads 0 and 1. -/
example : Race toy toyS.owner (launch [.begin, .work] toyF) 0 2 .thr := C223_violated toy toyF toyS.owner 0 2 (by decide) _ _ rfl rfl rfl rfl

/-! ### C224 -/

/-- The full claim: `update` does what the sequential `update` does for any number `T` of threads, whatever number the filter was constructed for (`g.kfs.length`, `omp_get_max_threads()` at that time). -/
def AnyThreads (o : Pieces X D Z B K F) : Prop :=
  ∀ (T : Nat) (md t tp r : K) (Zs : List Z) (k : F) (g : TFilt X D Z B K F) (σ1 σ2 σ3 : Sched), g.kfs[0]? = some k → Full T g.f.parts.length 2 σ1 → Full T g.f.parts.length 1 σ2 → Full T g.f.parts.length 2 σ3 →
    (MBT.update o md t tp r Zs σ1 σ2 σ3 g).map (Option.map TFilt.f) = (MBF.update (o.ops k) t tp r Zs g.f).map some

/-- **C224**, the claim as far as it holds: for at most as many threads as at construction. -/
theorem C224_partial (o : Pieces X D Z B K F) (T : Nat) (md t tp r : K) (Zs : List Z) (k : F) (g : TFilt X D Z B K F) (σ1 σ2 σ3 : Sched) (hk : g.kfs[0]? = some k) (hT : T ≤ g.kfs.length)
    (h1 : Full T g.f.parts.length 2 σ1) (h2 : Full T g.f.parts.length 1 σ2) (h3 : Full T g.f.parts.length 2 σ3) :
    (MBT.update o md t tp r Zs σ1 σ2 σ3 g).map (Option.map TFilt.f) = (MBF.update (o.ops k) t tp r Zs g.f).map some := by
  have hf : ∀ {len : Nat} {σ : Sched}, Full T g.f.parts.length len σ → Full g.kfs.length g.f.parts.length len σ := fun h => ⟨h.range, h.enough, fun i hi => lt_of_lt_of_le (h.owner i hi) hT⟩
  rw [C222_update o md t tp r Zs k g hk σ1 σ2 σ3 (hf h1) (hf h2) (hf h3)]
  cases MBF.update (o.ops k) t tp r Zs g.f <;> rfl

/-- **C224**, violated: a filter constructed for one thread, two particles with tracks, a later `update` by two threads: `kfs_[1]` is read outside the vector. -/
theorem C224_violated (o : Pieces X D Z B K F) (md t tp r : K) (x : X) (m : D) (hm : o.has m = true) (k : F) (z : Z) (q : Bool × D × List B) (hq : o.map k x [z] m = some q) (σ2 σ3 : Sched) :
    let p : PF.Part (PState X D) K := ⟨⟨x, m⟩, 0, 0, 1⟩
    MBT.update o md t tp r [z] ⟨fun i => i, [0, 1, 0, 1]⟩ σ2 σ3 ⟨⟨[p, p], [], [[], []], 0, false⟩, [k], 0⟩ = .error .index := by
  simp only [MBT.update, loops, loop, run, cellsOf, shareKf, List.zipWith_cons_cons, List.zipWith_nil_left, List.map_cons, List.map_nil, List.length_cons, List.length_nil]
  simp [List.foldlM_cons, tick, act, hm, hq, andThen, bind, Except.bind]

theorem C224_violated_full (o : Pieces X D Z B K F) (x : X) (m : D) (hm : o.has m = true) (k : F) (z : Z) (q : Bool × D × List B) (hq : o.map k x [z] m = some q) (hu : 1 < o.minUpd) : ¬ AnyThreads o := by
  intro h
  have hs : ∀ len ≤ 2, Full 2 2 len ⟨fun i => i, [0, 1, 0, 1]⟩ := by
    intro len hl
    refine ⟨by decide, fun i hi => ?_, fun i hi => hi⟩
    have : ∀ i < 2, 2 ≤ ([0, 1, 0, 1] : List Nat).count i := by decide
    exact le_trans hl (this i hi)
  have := h 2 0 0 0 0 [z] k ⟨⟨[⟨⟨x, m⟩, 0, 0, 1⟩, ⟨⟨x, m⟩, 0, 0, 1⟩], [], [[], []], 0, false⟩, [k], 0⟩ _ _ _ rfl (hs 2 le_rfl) (hs 1 (by omega)) (hs 2 le_rfl)
  rw [C224_violated o 0 0 0 0 x m hm k z q hq] at this
  unfold MBF.update at this
  rw [if_neg (by simp), if_neg (by simp)] at this
  split at this
  · cases this
  · dsimp only at this
    rw [if_neg (show ¬ (o.ops k).minUpd ≤ 0 + 1 from by show ¬ o.minUpd ≤ 0 + 1; omega)] at this
    cases this

example : toy.has [3] = true ∧ toy.map 1 0 [5] [3] = some (false, [3, 5], [0]) ∧ 1 < toy.minUpd := by decide

end MBTProps
end RFS
