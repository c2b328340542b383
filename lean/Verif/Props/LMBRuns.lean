import Verif.Lemmas.LMBRuns

/-!
Property C180: maps of the LMB filter over whole runs.
-/

set_option linter.unusedSectionVars false

namespace RFS
namespace MBFProps
open MBF PF GMB Partition
open GM hiding normalizeWeights

variable {X Z : Type*} {d nZ : Nat}

/-- Specification: a map whose existence probabilities are in `[0, 1]` and whose mixtures have as many Gaussians as they say, no null pointers, and weights that are not negative and have a total of at
most one. -/
def LMapOk (ts : List (Track ℝ d)) : Prop := ∀ t ∈ ts, 0 ≤ t.P ∧ t.P ≤ 1 ∧ getGaussianCount t.gm = t.gm.g.length ∧ (∀ e ∈ t.gm.g, e.lm.isSome ∧ 0 ≤ e.w) ∧ (t.gm.g.map Gauss.w).sum ≤ 1

/-- Birth probabilities are limited to `[0, 1]`, and the number of expected births is not negative. -/
structure LCfgOk (c : LMB.Cfg) : Prop where
  max : 0 ≤ c.maxPE ∧ c.maxPE ≤ 1
  min : 0 ≤ c.minPE
  expected : 0 ≤ c.expected

/-- `run` is `LMB.updateMap`, with some result of Murty's algorithm (weights that are not negative) and some labelling of the connected components (`boost::connected_components`) of every table. -/
def IsUpdateMap (env : X → (Zs : List Z) → CBM.Env ℝ d Zs.length) (c : LMB.Cfg)
    (run : X → (Zs : List Z) → List (Track ℝ d) → Option (List (Track ℝ d) × List (Fin Zs.length × ℝ) × ℝ)) : Prop :=
  ∀ x Zs ts, ∃ (murty : ∀ n, List (Fin n) → List (Fin Zs.length) → List (List Nat × ℝ)) (fuel ncc : Nat) (lab : ∀ n, Fin n ⊕ Fin Zs.length → Nat),
    (∀ n r co, ∀ y ∈ murty n r co, 0 ≤ y.2) ∧
    (∀ cs, (ts.mapM fun t => (CBM.comps t.gm).map fun c => (t, c)) = some cs →
      IsComponents (fun (m : Fin (LMB.inFov (env x Zs) cs).length) z => LMB.entry (env x Zs) c.thr z (LMB.inFov (env x Zs) cs)[m].2.2) 0 ncc (lab _)) ∧
    run x Zs ts = LMB.updateMap (env x Zs) c ts murty fuel ncc lab

/-- `LMapOk` in terms of `Solid`. -/
def LSolid (ts : List (Track ℝ d)) : Prop := ∀ t ∈ ts, (0 ≤ t.P ∧ t.P ≤ 1) ∧ Solid t.gm

theorem lmapOk_iff (ts : List (Track ℝ d)) : LMapOk ts ↔ LSolid ts := by
  constructor
  · intro h t ht
    obtain ⟨a, b, c, e, f⟩ := h t ht
    exact ⟨⟨a, b⟩, c, fun x hx => (e x hx).1, fun x hx => (e x hx).2, f⟩
  · intro h t ht
    obtain ⟨⟨a, b⟩, c⟩ := h t ht
    exact ⟨a, b, c.n, fun x hx => ⟨c.lm x hx, c.w0 x hx⟩, c.w1⟩

theorem mixEntry_plain {env : CBM.Env ℝ d nZ} (he : CBMProps.EnvOk env) (z : Fin nZ) (s : CBM.Seen ℝ d) (hc : ∀ x ∈ s.c, 0 ≤ x.1) (hp : 0 ≤ s.pd) : Plain (LMB.mixEntry env z s) := by
  rw [LMBProps.mixEntry_eq]
  refine ⟨(mkMix_shape _).1, (mkMix_shape _).2, ?_⟩
  intro e h
  obtain ⟨x, hx, rfl⟩ := List.mem_map.1 h
  obtain ⟨y, hy, h2⟩ := List.mem_filterMap.1 hx
  obtain ⟨r, hr, rfl⟩ := Option.map_eq_some_iff.1 h2
  exact div_nonneg (mul_nonneg (mul_nonneg (he.lik _ _ _ hr) (hc y hy)) hp) (he.clut z).le

theorem lmb_updateMap_ok {env : CBM.Env ℝ d nZ} (he : CBMProps.EnvOk env) {c : LMB.Cfg} (hc : LCfgOk c) (ts : List (Track ℝ d)) (h : LSolid ts)
    (murty : ∀ n, List (Fin n) → List (Fin nZ) → List (List Nat × ℝ)) (hm : ∀ n r co, ∀ y ∈ murty n r co, 0 ≤ y.2) (fuel ncc : Nat) (lab : ∀ n, Fin n ⊕ Fin nZ → Nat)
    (hcomp : ∀ cs, (ts.mapM fun t => (CBM.comps t.gm).map fun c => (t, c)) = some cs →
      IsComponents (fun (m : Fin (LMB.inFov env cs).length) z => LMB.entry env c.thr z (LMB.inFov env cs)[m].2.2) 0 ncc (lab _))
    (r : List (Track ℝ d) × List (Fin nZ × ℝ) × ℝ) (hr : LMB.updateMap env c ts murty fuel ncc lab = some r) : LSolid r.1 ∧ ∀ b ∈ r.2.1, 0 ≤ b.2 ∧ b.2 ≤ 1 := by
  unfold LMB.updateMap at hr
  split at hr
  · cases hr
    refine ⟨h, fun b hb => ?_⟩
    obtain ⟨z, -, rfl⟩ := List.mem_map.1 hb
    exact ⟨le_min hc.max.1 (div_nonneg hc.expected (Nat.cast_nonneg _)), (min_le_left _ _).trans hc.max.2⟩
  · obtain ⟨cs, hcs, hr⟩ := Option.bind_eq_some_iff.1 hr
    have hseen : ∀ y ∈ LMB.inFov env cs, y.2.1 ∈ ts ∧ y.2.2.p = y.2.1.P ∧ (∀ x ∈ y.2.2.c, 0 ≤ x.1) ∧ 0 ≤ y.2.2.pd ∧ y.2.2.pd ≤ 1 := by
      intro y hy
      obtain ⟨w, hw, h2⟩ := List.mem_filterMap.1 hy
      obtain ⟨s, hs, rfl⟩ := Option.map_eq_some_iff.1 h2
      obtain ⟨t, ht, h3⟩ := (forall2_get ((mapM_some_iff _ _ _).1 hcs) w.2).2 w.1 (List.mem_zipIdx_iff_getElem?.1 hw)
      obtain ⟨cp, hcp, h4⟩ := Option.map_eq_some_iff.1 h3
      have htm := List.mem_of_getElem? ht
      obtain ⟨cp', hcp', hw'⟩ := comps_solid (h t htm).2.n (h t htm).2.lm
      rw [hcp] at hcp'
      cases hcp'
      have h0 : ∀ x ∈ cp, 0 ≤ x.1 := by
        intro x hx
        have : x.1 ∈ cp.map Prod.fst := List.mem_map_of_mem hx
        rw [hw'] at this
        obtain ⟨e, he', h5⟩ := List.mem_map.1 this
        rw [← h5]
        exact (h t htm).2.w0 e he'
      have h1 : (cp.map Prod.fst).sum ≤ 1 := by rw [hw']; exact (h t htm).2.w1
      unfold CBM.seenOf at hs
      split at hs
      · cases hs
        rw [← h4]
        exact ⟨htm, rfl, h0, CBMProps.pd_range he h0 h1⟩
      · cases hs
    unfold LMB.updateFov at hr
    obtain ⟨s, hs, rfl⟩ := Option.map_eq_some_iff.1 hr
    have hget : ∀ m : Fin (LMB.inFov env cs).length, (LMB.inFov env cs)[m] ∈ LMB.inFov env cs := fun m => List.getElem_mem m.2
    have hpd : ∀ m : Fin (LMB.inFov env cs).length, 0 ≤ (LMB.inFov env cs)[m].2.2.pd ∧ (LMB.inFov env cs)[m].2.2.pd ≤ 1 := fun m => (hseen _ (hget m)).2.2.2
    have hpe : ∀ m : Fin (LMB.inFov env cs).length, 0 ≤ (LMB.inFov env cs)[m].2.2.p ∧ (LMB.inFov env cs)[m].2.2.p ≤ 1 := fun m => by
      rw [(hseen _ (hget m)).2.1]
      exact (h _ (hseen _ (hget m)).1).1
    have hP := LMBProps.C48_range _ _ _ _ _ hpd hpe _ (hm _) _ _ _ (hcomp cs hcs) s hs
    have hst := update_mix _ hpd hpe _ _ (fun m => (h _ (hseen _ (hget m)).1).2) (fun m z => mixEntry_plain he z _ (hseen _ (hget m)).2.2.1 (hpd m).1) _ (hm _) _ _ _ s hs
    refine ⟨?_, ?_⟩
    · have key : ∀ (l : List (Fin (LMB.inFov env cs).length)) (us : List (Track ℝ d)), LSolid us →
          LSolid (l.foldl (fun ts m => ts.modify (LMB.inFov env cs)[m].1 fun t => { t with P := s.P m, gm := s.mix m }) us) := by
        intro l
        induction l with
        | nil => intro us hu; exact hu
        | cons m l ih =>
          intro us hu
          refine ih _ ?_
          intro t ht
          obtain ⟨i, hi, rfl⟩ := List.getElem_of_mem ht
          rw [List.getElem_modify]
          split
          · exact ⟨hP m, hst.mix m⟩
          · exact hu _ (List.getElem_mem _)
      refine key _ _ ?_
      intro t ht
      obtain ⟨u, hu, rfl⟩ := List.mem_map.1 ht
      exact h u hu
    · intro b hb
      obtain ⟨z, -, h2⟩ := List.mem_filterMap.1 hb
      simp only at h2
      split at h2
      · rename_i hlt
        cases h2
        exact ⟨hc.min.trans hlt.le, (min_le_left _ _).trans hc.max.2⟩
      · cases h2

theorem lmbUpd_ok {env : X → (Zs : List Z) → CBM.Env ℝ d Zs.length} (he : ∀ x Zs, CBMProps.EnvOk (env x Zs)) {c : LMB.Cfg} (hc : LCfgOk c)
    {run : X → (Zs : List Z) → List (Track ℝ d) → Option (List (Track ℝ d) × List (Fin Zs.length × ℝ) × ℝ)} (hrun : IsUpdateMap env c run) (cfg : LCfg) (hp : 0 < cfg.pruneT) (maha : Lm ℝ d → Lm ℝ d → ℝ)
    {srt : List (Gauss ℝ d) → List (Gauss ℝ d)} (hs : IsSort srt) (garb : X → List Z → Nat → GMix ℝ d) (x : X) (Zs : List Z) (ts : List (Track ℝ d)) (h : LSolid ts)
    (r : Bool × List (Track ℝ d) × List (Nat × ℝ)) (hr : lmbUpd cfg run maha srt garb x Zs ts = some r) :
    LSolid r.2.1 ∧ (∀ t ∈ r.2.1, cfg.trackT ≤ t.P) ∧ ∀ b ∈ r.2.2, 0 ≤ b.2 ∧ b.2 ≤ 1 := by
  obtain ⟨murty, fuel, ncc, lab, hm, hcomp, e⟩ := hrun x Zs ts
  unfold lmbUpd at hr
  rw [e] at hr
  obtain ⟨q, hq, hr⟩ := Option.bind_eq_some_iff.1 hr
  obtain ⟨h1, h2⟩ := lmb_updateMap_ok (he x Zs) hc ts h murty hm fuel ncc lab hcomp q hq
  obtain ⟨t1, ub, t2, t3, a1, a2, a3, a4⟩ := tidy_solid maha cfg.mergeT cfg.mergeF hs hp cfg.trackT (garb x Zs) q.1 fun t ht => (h1 t ht).2
  simp only [a1, a2, a3, Option.bind_some, Option.map_some, Option.some.injEq] at hr
  subst hr
  refine ⟨fun t ht => ?_, fun t ht => ?_, fun b hb => ?_⟩
  · obtain ⟨b1, u, hu, b2, -⟩ := a4 t ht
    rw [b2]
    exact ⟨(h1 u hu).1, b1⟩
  · obtain ⟨-, u, hu, b2, b3⟩ := a4 t ht
    rw [b2]
    exact b3
  · obtain ⟨b', hb', rfl⟩ := List.mem_map.1 hb
    exact h2 b' hb'

theorem stillTracks_kept (f : Lm ℝ d → Lm ℝ d) {ts ts' : List (Track ℝ d)} (h : LSolid ts) (he : stillTracks f ts = some ts') : LSolid ts' := by
  have h2 := (mapM_some_iff _ _ _).1 he
  intro t' ht'
  obtain ⟨i, hi, rfl⟩ := List.getElem_of_mem ht'
  obtain ⟨t, ht, h3⟩ := (forall2_get h2 i).2 _ (List.getElem?_eq_getElem hi)
  obtain ⟨m, hm, e⟩ := Option.map_eq_some_iff.1 h3
  obtain ⟨m', hm', hs, -⟩ := still_solid f (h t (List.mem_of_getElem? ht)).2
  rw [hm] at hm'
  cases hm'
  rw [← e]
  exact ⟨(h t (List.mem_of_getElem? ht)).1, hs⟩

/-- **C180**: in every run of the LMB filter, up to the point where it becomes undefined if it does, all existence probabilities are in `[0, 1]`, all mixtures in order, and every recorded birth
probability is in `[0, 1]`. -/
theorem C180_runs (env : X → (Zs : List Z) → CBM.Env ℝ d Zs.length) (he : ∀ x Zs, CBMProps.EnvOk (env x Zs)) (c : LMB.Cfg) (hc : LCfgOk c)
    (run : X → (Zs : List Z) → List (Track ℝ d) → Option (List (Track ℝ d) × List (Fin Zs.length × ℝ) × ℝ)) (hrun : IsUpdateMap env c run) (cfg : LCfg) (hp : 0 < cfg.pruneT) (inv : X → Z → Lm ℝ d)
    (lstep : Lm ℝ d → Lm ℝ d) (maha : Lm ℝ d → Lm ℝ d → ℝ) (srt : List (Gauss ℝ d) → List (Gauss ℝ d)) (hs : IsSort srt) (garb : X → List Z → Nat → GMix ℝ d) (n : Nat) (x0 : X)
    (cmds : List (Cmd X Z ℝ)) (f : Filt X (List (Track ℝ d)) Z (Nat × ℝ) ℝ) (h : exec (lmb cfg run inv lstep maha srt garb) cmds (ctor n x0 []) = .ok f) :
    (∀ p ∈ f.parts, LMapOk p.st.m) ∧ ∀ u ∈ f.unused, ∀ b ∈ u, 0 ≤ b.2 ∧ b.2 ≤ 1 := by
  have := exec_kept (o := lmb cfg run inv lstep maha srt garb) (G := LSolid) (H := fun b : Nat × ℝ => 0 ≤ b.2 ∧ b.2 ≤ 1)
    (fun x Zs m r _ hm hr => by
      obtain ⟨a, -, b⟩ := lmbUpd_ok he hc hrun cfg hp maha hs garb x Zs m hm r hr
      exact ⟨a, b⟩)
    (fun x b z m hb hm t ht => by
      rcases List.mem_append.1 ht with ht | ht
      · exact hm t ht
      · rw [List.mem_singleton] at ht
        subst ht
        exact ⟨hb, addGaussian_solid _⟩)
    (fun m m' hm h => stillTracks_kept lstep hm h) cmds _ f (ctor_kept n x0 [] (by intro t ht; simp at ht)) h
  exact ⟨fun p hp => (lmapOk_iff _).2 (this.1 p hp), this.2⟩

/-- C180 (pruning of tracks): right after the update of a map no track is left whose existence probability is below the threshold. -/
theorem C180_threshold (env : X → (Zs : List Z) → CBM.Env ℝ d Zs.length) (he : ∀ x Zs, CBMProps.EnvOk (env x Zs)) (c : LMB.Cfg) (hc : LCfgOk c)
    (run : X → (Zs : List Z) → List (Track ℝ d) → Option (List (Track ℝ d) × List (Fin Zs.length × ℝ) × ℝ)) (hrun : IsUpdateMap env c run) (cfg : LCfg) (hp : 0 < cfg.pruneT)
    (maha : Lm ℝ d → Lm ℝ d → ℝ) (srt : List (Gauss ℝ d) → List (Gauss ℝ d)) (hs : IsSort srt) (garb : X → List Z → Nat → GMix ℝ d) (x : X) (Zs : List Z) (ts : List (Track ℝ d)) (h : LMapOk ts)
    (r : Bool × List (Track ℝ d) × List (Nat × ℝ)) (hr : lmbUpd cfg run maha srt garb x Zs ts = some r) : ∀ t ∈ r.2.1, cfg.trackT ≤ t.P :=
  (lmbUpd_ok he hc hrun cfg hp maha hs garb x Zs ts ((lmapOk_iff _).1 h) r hr).2.1

/-- There is such a `run` for every model and configuration. -/
theorem updateMap_exists (env : X → (Zs : List Z) → CBM.Env ℝ d Zs.length) (c : LMB.Cfg) : ∃ run, IsUpdateMap env c run := by
  classical
  have h : ∀ x (Zs : List Z) (ts : List (Track ℝ d)), ∃ (ncc : Nat) (lab : ∀ n, Fin n ⊕ Fin Zs.length → Nat), ∀ cs, (ts.mapM fun t => (CBM.comps t.gm).map fun c => (t, c)) = some cs →
      IsComponents (fun (m : Fin (LMB.inFov (env x Zs) cs).length) z => LMB.entry (env x Zs) c.thr z (LMB.inFov (env x Zs) cs)[m].2.2) 0 ncc (lab _) := by
    intro x Zs ts
    cases hc : ts.mapM fun t => (CBM.comps t.gm).map fun c => (t, c) with
    | none => exact ⟨0, fun _ _ => 0, by simp⟩
    | some cs =>
      obtain ⟨ncc, lab, h⟩ := components_exist (fun (m : Fin (LMB.inFov (env x Zs) cs).length) z => LMB.entry (env x Zs) c.thr z (LMB.inFov (env x Zs) cs)[m].2.2) 0
      refine ⟨ncc, fun n => if e : n = (LMB.inFov (env x Zs) cs).length then e ▸ lab else fun _ => 0, ?_⟩
      intro cs' h'
      cases h'
      simpa using h
  choose ncc lab hl using h
  exact ⟨fun x Zs ts => LMB.updateMap (env x Zs) c ts (fun _ _ _ => []) (2 ^ 32) (ncc x Zs ts) (lab x Zs ts), fun x Zs ts => ⟨_, _, _, _, by simp, hl x Zs ts, rfl⟩⟩

/-- C180 needs `expectedBirths_`, which the constructor of the filter leaves uninitialised: a negative value gives all births of the first scan negative existence probabilities. -/
theorem C180_expected (env : CBM.Env ℝ d nZ) (c : LMB.Cfg) (hz : 0 < nZ) (hx : c.expected < 0) (murty : ∀ n, List (Fin n) → List (Fin nZ) → List (List Nat × ℝ)) (fuel ncc : Nat)
    (lab : ∀ n, Fin n ⊕ Fin nZ → Nat) : ∃ r, LMB.updateMap env c [] murty fuel ncc lab = some r ∧ r.2.1.length = nZ ∧ ∀ b ∈ r.2.1, b.2 < 0 := by
  refine ⟨_, rfl, by simp, fun b hb => ?_⟩
  obtain ⟨z, -, rfl⟩ := List.mem_map.1 hb
  exact (min_le_right _ _).trans_lt (div_neg_of_neg_of_pos hx (by exact_mod_cast hz))

example : ∃ run, IsUpdateMap (X := ℝ) (Z := ℝ) (d := 1) (fun _ _ => ⟨fun _ => 1 / 2, fun _ l => some (l, 1), fun _ => 1⟩) ⟨1 / 2, 0, 1, 0⟩ run ∧ LCfgOk ⟨1 / 2, 0, 1, 0⟩ ∧
    ∃ f, exec (lmb ⟨1, 1, 1 / 2, 1 / 10, 10⟩ run (fun x z => ⟨fun _ => x + z, fun _ _ => 1⟩) id (fun _ _ => 0) id fun _ _ _ => empty)
      [.update 0 0 0 [3, 7], .predict fun _ x => x + 1] (ctor 1 0 []) = .ok f ∧ ∀ p ∈ f.parts, p.st.m.map (fun t => t.P) = [1 / 2, 1 / 2] := by
  obtain ⟨run, hrun⟩ := updateMap_exists (X := ℝ) (Z := ℝ) (d := 1) (fun _ _ => ⟨fun _ => 1 / 2, fun _ l => some (l, 1), fun _ => 1⟩) ⟨1 / 2, 0, 1, 0⟩
  refine ⟨run, hrun, ⟨by norm_num, by norm_num, by norm_num⟩, ?_⟩
  obtain ⟨murty, fuel, ncc, lab, -, -, h⟩ := hrun 0 [3, 7] []
  have h1 : run 0 [3, 7] [] = some ([], [(0, 1 / 2), (1, 1 / 2)], 1) := by
    rw [h]
    simp [LMB.updateMap, List.finRange_succ]
  have h2 : ∃ f, step (lmb ⟨1, 1, 1 / 2, 1 / 10, 10⟩ run (fun x z => ⟨fun _ => x + z, fun _ _ => 1⟩) id (fun _ _ => 0) id fun _ _ _ => empty) (ctor 1 0 []) (.update 0 0 0 [3, 7]) = .ok f ∧
      f.meas = [3, 7] ∧ f.unused = [[(0, 1 / 2), (1, 1 / 2)]] ∧ ∃ p, f.parts = [p] ∧ p.st = ⟨0, []⟩ := by
    refine ⟨_, by simp [step, update, ctor, addParticles, updAll, lmb, lmbUpd, h1, mergeGM, pruneTracks, pruneGM]; rfl, ?_⟩
    exact ⟨rfl, by norm_num, _, rfl, rfl⟩
  obtain ⟨f, a1, a2, a3, p, a4, a5⟩ := h2
  simp only [exec, a1]
  refine ⟨_, by simp [step, predict, a2, a3, a4, a5, birthAll, birthLoop, lmb, stillTracks, addGaussian, empty, stillStep, List.range_succ]; rfl, ?_⟩
  simp

end MBFProps
end RFS
