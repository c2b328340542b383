import Verif.Props.MBRuns
import Verif.Props.PHDRuns
import Verif.Props.LMBRuns
import Verif.Props.FastRuns

/-!
Property C254: what a prediction does to the landmarks.
-/

set_option linter.unusedSectionVars false

namespace RFS
namespace PredictProps
open MBF GMB
open GM hiding normalizeWeights

variable {X D Z B K : Type*} [Field K] [LinearOrder K] [IsStrictOrderedRing K] {d : Nat}

/-- Specification: `t'` is `t` with the motion `f` applied once to each Gaussian below `getGaussianCount()`, and nothing else changed. -/
structure Stepped (f : Lm K d → Lm K d) (t t' : Track K d) : Prop where
  P : t'.P = t.P
  prevP : t'.prevP = t.prevP
  count : getGaussianCount t'.gm = getGaussianCount t.gm
  sorted : t'.gm.sorted = t.gm.sorted
  size : t'.gm.g.length = t.gm.g.length
  inside : ∀ i : Nat, (i : Int) < getGaussianCount t.gm → ∃ l w wp, t.gm.g[i]? = some ⟨some l, w, wp⟩ ∧ t'.gm.g[i]? = some ⟨some (f l), w, wp⟩
  outside : ∀ i : Nat, getGaussianCount t.gm ≤ i → t'.gm.g[i]? = t.gm.g[i]?

/-- What a loop that has reached Gaussian `k` has done. -/
theorem fold_stepped (f : Lm K d → Lm K d) (m : GMix K d) : ∀ (k : Nat) (m' : GMix K d), (List.range k).foldlM (stillStep f) m = some m' →
    m'.n = m.n ∧ m'.sorted = m.sorted ∧ m'.g.length = m.g.length ∧
      (∀ i < k, ∃ l w wp, m.g[i]? = some ⟨some l, w, wp⟩ ∧ m'.g[i]? = some ⟨some (f l), w, wp⟩) ∧ ∀ i, k ≤ i → m'.g[i]? = m.g[i]? := by
  intro k
  induction k with
  | zero =>
    intro m' h
    cases h
    exact ⟨rfl, rfl, rfl, fun i hi => absurd hi (Nat.not_lt_zero i), fun _ _ => rfl⟩
  | succ k ih =>
    intro m' h
    rw [List.range_succ, List.foldlM_append] at h
    obtain ⟨m1, h1, h2⟩ := Option.bind_eq_some_iff.1 h
    obtain ⟨a, b, c, e, g⟩ := ih m1 h1
    have h2' : stillStep f m1 k = some m' := by simpa using h2
    unfold stillStep at h2'
    split at h2'
    · cases h2'
    · rename_i q hq
      obtain ⟨l, hl, rfl⟩ := Option.map_eq_some_iff.1 h2'
      have hk : k < m1.g.length := (List.getElem?_eq_some_iff.1 hq).1
      refine ⟨a, b, by simpa using c, fun i hi => ?_, fun i hi => ?_⟩
      · rcases Nat.lt_succ_iff_lt_or_eq.1 hi with hi | rfl
        · obtain ⟨l', w, wp, x, y⟩ := e i hi
          exact ⟨l', w, wp, x, by rw [List.getElem?_set_ne (by omega)]; exact y⟩
        · refine ⟨l, q.w, q.wp, ?_, by simp [hk]⟩
          rw [← g i le_rfl, hq, ← hl]
      · rw [List.getElem?_set_ne (by omega)]
        exact g i (by omega)

/-- **C254**, the tracks of a particle: if `predict` gets through, every Gaussian of every track has been moved once. -/
theorem C254_tracks (f : Lm K d → Lm K d) (ts ts' : List (Track K d)) (h : stillTracks f ts = some ts') : List.Forall₂ (Stepped f) ts ts' := by
  unfold stillTracks at h
  induction ts generalizing ts' with
  | nil => cases h; exact .nil
  | cons t ts ih =>
    rw [List.mapM_cons] at h
    obtain ⟨t1, h1, h⟩ := Option.bind_eq_some_iff.1 h
    obtain ⟨ts1, h2, h⟩ := Option.bind_eq_some_iff.1 h
    cases h
    obtain ⟨m, hm, rfl⟩ := Option.map_eq_some_iff.1 h1
    obtain ⟨a, b, c, e, g⟩ := fold_stepped f _ _ _ hm
    refine .cons ⟨rfl, rfl, a, b, c, fun i hi => e i ?_, fun i hi => g i ?_⟩ (ih _ h2)
    · unfold getGaussianCount at hi; omega
    · unfold getGaussianCount at hi; omega

/-- Specification: the births of a particle. `zs` are the measurements with the indices `bs`; each adds a track `tr b z`. -/
def Born (idx : B → Nat) (meas : List Z) (tr : B → Z → Track K d) (bs : List B) (m m1 : List (Track K d)) : Prop :=
  ∃ zs : List Z, List.Forall₂ (fun b z => meas[idx b]? = some z) bs zs ∧ m1 = m ++ List.zipWith tr bs zs

theorem birthLoop_born {o : Ops X (List (Track K d)) Z B K} {tr : X → B → Z → Track K d} (hb : ∀ x b z m, o.born x b z m = m ++ [tr x b z]) (meas : List Z) (x : X) :
    ∀ (bs : List B) (m m1 : List (Track K d)), birthLoop o meas x bs m = .ok m1 → Born o.idx meas (tr x) bs m m1 := by
  intro bs
  induction bs with
  | nil => intro m m1 h; cases h; exact ⟨[], .nil, by simp⟩
  | cons b bs ih =>
    intro m m1 h
    unfold birthLoop at h
    split at h
    · cases h
    · rename_i z hz
      obtain ⟨zs, h1, h2⟩ := ih _ _ h
      exact ⟨z :: zs, .cons hz h1, by rw [h2, hb]; simp⟩

theorem birthAll_born {o : Ops X (List (Track K d)) Z B K} {tr : X → B → Z → Track K d} (hb : ∀ x b z m, o.born x b z m = m ++ [tr x b z]) (meas : List Z) :
    ∀ (ps : List (PF.Part (PState X (List (Track K d))) K)) (us : List (List B)) ps', birthAll o meas ps us = .ok ps' →
      ps'.length = ps.length ∧ ∀ (i : Nat) p, ps[i]? = some p → ∃ u m1, us[i]? = some u ∧ Born o.idx meas (tr p.st.x) u.reverse p.st.m m1 ∧ ps'[i]? = some { p with st := ⟨p.st.x, m1⟩ } := by
  intro ps
  induction ps with
  | nil => intro us ps' h; cases h; exact ⟨rfl, fun i p hp => by simp at hp⟩
  | cons p ps ih =>
    intro us ps' h
    cases us with
    | nil => cases h
    | cons u us =>
      unfold birthAll at h
      split at h
      · cases h
      · rename_i m hm
        split at h
        · cases h
        · rename_i qs hqs
          cases h
          obtain ⟨a, b⟩ := ih us qs hqs
          refine ⟨by simp [a], fun i q hq => ?_⟩
          cases i with
          | zero =>
            cases hq
            exact ⟨u, m, rfl, birthLoop_born hb meas _ _ _ _ hm, rfl⟩
          | succ i => exact b i q (by simpa using hq)

theorem mapM_get {α β : Type*} {g : α → Option β} : ∀ {l : List α} {r : List β}, l.mapM g = some r → r.length = l.length ∧ ∀ (i : Nat) a, l[i]? = some a → ∃ b, g a = some b ∧ r[i]? = some b := by
  intro l
  induction l with
  | nil => intro r h; cases h; exact ⟨rfl, fun i a ha => by simp at ha⟩
  | cons x l ih =>
    intro r h
    rw [List.mapM_cons] at h
    obtain ⟨b, h1, h⟩ := Option.bind_eq_some_iff.1 h
    obtain ⟨bs, h2, h⟩ := Option.bind_eq_some_iff.1 h
    cases h
    obtain ⟨a1, a2⟩ := ih h2
    refine ⟨by simp [a1], fun i a ha => ?_⟩
    cases i with
    | zero => cases ha; exact ⟨b, h1, rfl⟩
    | succ i => exact a2 i a (by simpa using ha)

/-- Specification of a prediction of one of the two multi-Bernoulli filters: particle `i` keeps its identity and weight and moves by `move i`; its map is the one it had with one track for each unused measurement
behind it, the last unused measurement first, seen from the pose before the motion, and all of these are moved by `lstep` once. No measurement is left over. -/
def Predicted (idx : B → Nat) (tr : X → B → Z → Track K d) (lstep : Lm K d → Lm K d) (move : Nat → X → X) (f f' : Filt X (List (Track K d)) Z B K) : Prop :=
  f'.parts.length = f.parts.length ∧ f'.meas = f.meas ∧ f'.nUpd = f.nUpd ∧ (∀ i < f.parts.length, ∀ u, f'.unused[i]? = some u → u = []) ∧
    ∀ (i : Nat) p, f.parts[i]? = some p → ∃ u m1 q, f.unused[i]? = some u ∧ Born idx f.meas (tr p.st.x) u.reverse p.st.m m1 ∧ f'.parts[i]? = some q ∧ q.id = p.id ∧ q.parent = p.parent ∧
      q.w = p.w ∧ q.st.x = move i p.st.x ∧ List.Forall₂ (Stepped lstep) m1 q.st.m

theorem predict_predicted {o : Ops X (List (Track K d)) Z B K} {tr : X → B → Z → Track K d} {lstep : Lm K d → Lm K d} (hb : ∀ x b z m, o.born x b z m = m ++ [tr x b z])
    (hs : o.still = stillTracks lstep) {move : Nat → X → X} {f f' : Filt X (List (Track K d)) Z B K} (h : predict o move f = .ok f') : Predicted o.idx tr lstep move f f' := by
  unfold predict at h
  split at h
  · cases h
  · rename_i ps hps
    split at h
    · cases h
    · rename_i ps' hps'
      cases h
      obtain ⟨a1, a2⟩ := birthAll_born hb f.meas _ _ _ hps
      obtain ⟨b1, b2⟩ := mapM_get hps'
      refine ⟨by simpa [a1] using b1, rfl, rfl, fun i hi u hu => ?_, fun i p hp => ?_⟩
      · simp only [List.getElem?_mapIdx] at hu
        obtain ⟨v, -, rfl⟩ := Option.map_eq_some_iff.1 hu
        simp [hi]
      · obtain ⟨u, m1, c1, c2, c3⟩ := a2 i p hp
        obtain ⟨q, d1, d2⟩ := b2 i ({ p with st := ⟨p.st.x, m1⟩ }, i) (by rw [List.getElem?_zipIdx, c3]; simp)
        obtain ⟨m2, e1, rfl⟩ := Option.map_eq_some_iff.1 d1
        rw [hs] at e1
        exact ⟨u, m1, _, c1, c2, d2, rfl, rfl, rfl, rfl, C254_tracks _ _ _ e1⟩

/-- The track that a birth adds. -/
def birthTrack (P : K) (l : Lm K d) : Track K d := ⟨P, 0, ⟨1, [⟨some l, 1, 0⟩], false⟩⟩

/-- **C254**, the CB-MeMBer filter. -/
theorem C254_cbm (cfg : MBF.Cfg K) (env : X → (Zs : List Z) → CBM.Env K d Zs.length) (lik : X → List Z → List (Track K d) → K) (inv : X → Z → Lm K d) (lstep : Lm K d → Lm K d)
    (maha : Lm K d → Lm K d → K) (srt : List (Gauss K d) → List (Gauss K d)) (garb garb2 : X → List Z → Nat → GMix K d) (move : Nat → X → X) (f f' : Filt X (List (Track K d)) Z Nat K)
    (h : predict (cbm cfg env lik inv lstep maha srt garb garb2) move f = .ok f') : Predicted (fun b => b) (fun x _ z => birthTrack cfg.birthPE (inv x z)) lstep move f f' :=
  predict_predicted (o := cbm cfg env lik inv lstep maha srt garb garb2) (fun x b z m => by simp [cbm, birthTrack, addGaussian, empty]) rfl h

/-- **C254**, the LMB filter: the existence probability of a birth is the one `updateMap` left with the measurement. -/
theorem C254_lmb (cfg : LCfg) (run : X → (Zs : List Z) → List (Track ℝ d) → Option (List (Track ℝ d) × List (Fin Zs.length × ℝ) × ℝ)) (inv : X → Z → Lm ℝ d) (lstep : Lm ℝ d → Lm ℝ d)
    (maha : Lm ℝ d → Lm ℝ d → ℝ) (srt : List (Gauss ℝ d) → List (Gauss ℝ d)) (garb : X → List Z → Nat → GMix ℝ d) (move : Nat → X → X) (f f' : Filt X (List (Track ℝ d)) Z (Nat × ℝ) ℝ)
    (h : predict (lmb cfg run inv lstep maha srt garb) move f = .ok f') : Predicted Prod.fst (fun x b z => birthTrack b.2 (inv x z)) lstep move f f' :=
  predict_predicted (o := lmb cfg run inv lstep maha srt garb) (fun x b z m => by simp [lmb, birthTrack, addGaussian, empty]) rfl h

theorem stepped_all {f : Lm K d → Lm K d} {ts ts' : List (Track K d)} (hok : ∀ t ∈ ts, getGaussianCount t.gm = t.gm.g.length) (h : List.Forall₂ (Stepped f) ts ts') :
    ts'.map (fun t => (t.P, t.gm.g)) = ts.map fun t => (t.P, t.gm.g.map fun e => ⟨e.lm.map f, e.w, e.wp⟩) := by
  induction h with
  | nil => rfl
  | @cons t t' ts ts' h1 _ ih =>
    rw [List.map_cons, List.map_cons, ih fun t ht => hok t (List.mem_cons_of_mem _ ht), h1.P]
    congr 2
    apply List.ext_getElem?
    intro i
    have hc := hok t List.mem_cons_self
    rw [List.getElem?_map]
    by_cases hi : i < t.gm.g.length
    · obtain ⟨l, w, wp, a, b⟩ := h1.inside i (by rw [hc]; exact_mod_cast hi)
      rw [a, b]; rfl
    · rw [h1.outside i (by rw [hc]; exact_mod_cast not_lt.1 hi), List.getElem?_eq_none (not_lt.1 hi)]; rfl

/-- Specification: existence probabilities and Gaussians of the map `m'` are those of `m` and of a list of births, all landmarks moved by `lstep`. -/
def MovedMap (lstep : Lm K d → Lm K d) (m births m' : List (Track K d)) : Prop :=
  m'.map (fun t => (t.P, t.gm.g)) = (m ++ births).map fun t => (t.P, t.gm.g.map fun e => ⟨e.lm.map lstep, e.w, e.wp⟩)

theorem predicted_moved {idx : B → Nat} {P : B → K} {inv : X → Z → Lm K d} {lstep : Lm K d → Lm K d} {move : Nat → X → X} {f f' : Filt X (List (Track K d)) Z B K}
    (h : Predicted idx (fun x b z => birthTrack (P b) (inv x z)) lstep move f f') (hok : ∀ p ∈ f.parts, ∀ t ∈ p.st.m, getGaussianCount t.gm = t.gm.g.length) :
    ∀ (i : Nat) p, f.parts[i]? = some p → ∃ u zs q, f.unused[i]? = some u ∧ List.Forall₂ (fun b z => f.meas[idx b]? = some z) u.reverse zs ∧ f'.parts[i]? = some q ∧
      MovedMap lstep p.st.m (List.zipWith (fun b z => birthTrack (P b) (inv p.st.x z)) u.reverse zs) q.st.m := by
  intro i p hp
  obtain ⟨u, m1, q, h1, ⟨zs, h2, rfl⟩, h3, -, -, -, -, h4⟩ := h.2.2.2.2 i p hp
  refine ⟨u, zs, q, h1, h2, h3, stepped_all (fun t ht => ?_) h4⟩
  rcases List.mem_append.1 ht with ht | ht
  · exact hok p (List.mem_of_getElem? hp) t ht
  · obtain ⟨j, hj, rfl⟩ := List.getElem_of_mem ht
    rw [List.getElem_zipWith]
    rfl

/-- **C254**, the CB-MeMBer filter in a run: no landmark is left where it was. -/
theorem C254_cbm_runs (cfg : MBF.Cfg K) (env : X → (Zs : List Z) → CBM.Env K d Zs.length) (lik : X → List Z → List (Track K d) → K) (inv : X → Z → Lm K d) (lstep : Lm K d → Lm K d)
    (maha : Lm K d → Lm K d → K) {srt : List (Gauss K d) → List (Gauss K d)} (garb garb2 : X → List Z → Nat → GMix K d) (hs : IsSort srt) (he : ∀ x Zs, CBMProps.EnvOk (env x Zs))
    (hl : ∀ x Zs ts, 0 < lik x Zs ts) (hb : 0 ≤ cfg.birthPE ∧ cfg.birthPE < 1) (hp : 0 < cfg.pruneT) (n : Nat) (hn : 0 < n) (x0 : X) (cmds : List (MBF.Cmd X Z K)) (hpr : MBFProps.Proper true cmds)
    (hd : MBFProps.Draws cmds) (move : Nat → X → X) (f f' : Filt X (List (Track K d)) Z Nat K) (h : exec (cbm cfg env lik inv lstep maha srt garb garb2) cmds (ctor n x0 []) = .ok f)
    (h' : predict (cbm cfg env lik inv lstep maha srt garb garb2) move f = .ok f') :
    ∀ (i : Nat) p, f.parts[i]? = some p → ∃ u zs q, f.unused[i]? = some u ∧ List.Forall₂ (fun b z => f.meas[b]? = some z) u.reverse zs ∧ f'.parts[i]? = some q ∧
      MovedMap lstep p.st.m (List.zipWith (fun _ z => birthTrack cfg.birthPE (inv p.st.x z)) u.reverse zs) q.st.m := by
  refine predicted_moved (P := fun _ => cfg.birthPE) (C254_cbm _ _ _ _ _ _ _ _ _ _ _ _ h') fun p hpp t ht => ?_
  obtain ⟨g, hg, -, hm⟩ := MBFProps.C178_runs_partial cfg env lik inv lstep maha garb garb2 hs he hl hb hp n hn x0 cmds hpr hd
  rw [h] at hg
  cases hg
  exact ((hm p hpp).2 t ht).2.2.1

/-- **C254**, the LMB filter in a run: no landmark is left where it was. -/
theorem C254_lmb_runs (env : X → (Zs : List Z) → CBM.Env ℝ d Zs.length) (he : ∀ x Zs, CBMProps.EnvOk (env x Zs)) (c : LMB.Cfg) (hc : MBFProps.LCfgOk c)
    (run : X → (Zs : List Z) → List (Track ℝ d) → Option (List (Track ℝ d) × List (Fin Zs.length × ℝ) × ℝ)) (hrun : MBFProps.IsUpdateMap env c run) (cfg : LCfg) (hp : 0 < cfg.pruneT) (inv : X → Z → Lm ℝ d)
    (lstep : Lm ℝ d → Lm ℝ d) (maha : Lm ℝ d → Lm ℝ d → ℝ) (srt : List (Gauss ℝ d) → List (Gauss ℝ d)) (hs : IsSort srt) (garb : X → List Z → Nat → GMix ℝ d) (n : Nat) (x0 : X)
    (cmds : List (MBF.Cmd X Z ℝ)) (move : Nat → X → X) (f f' : Filt X (List (Track ℝ d)) Z (Nat × ℝ) ℝ) (h : exec (lmb cfg run inv lstep maha srt garb) cmds (ctor n x0 []) = .ok f)
    (h' : predict (lmb cfg run inv lstep maha srt garb) move f = .ok f') :
    ∀ (i : Nat) p, f.parts[i]? = some p → ∃ u zs q, f.unused[i]? = some u ∧ List.Forall₂ (fun b z => f.meas[b.1]? = some z) u.reverse zs ∧ f'.parts[i]? = some q ∧
      MovedMap lstep p.st.m (List.zipWith (fun b z => birthTrack b.2 (inv p.st.x z)) u.reverse zs) q.st.m :=
  predicted_moved (P := Prod.snd) (C254_lmb _ _ _ _ _ _ _ _ _ _ h') fun p hpp t ht =>
    ((MBFProps.C180_runs env he c hc run hrun cfg hp inv lstep maha srt hs garb n x0 cmds f h).1 p hpp t ht).2.2.1

/-- A run of a CB-MeMBer filter on a line whose landmarks spread: a birth from a scan is moved in the prediction that makes it, and again in the next. -/
def spread (cmds : List (MBF.Cmd ℚ ℚ ℚ)) : Option (List (List (ℚ × ℚ))) :=
  (exec (cbm ⟨1 / 2, 1 / 2, 3 / 2, 1 / 5, 1 / 1000, 1⟩ (fun _ _ => ⟨fun _ => 1 / 2, fun _ l => some (l, 1), fun _ => 1⟩) (fun _ _ _ => 1) (fun x z => ⟨fun _ => x + z, fun _ _ => 1⟩)
    (fun l => ⟨l.x, fun i j => l.S i j + 1⟩) (fun a b => (a.x 0 - b.x 0) ^ 2) GMProps.srtQ (fun _ _ _ => empty) (fun _ _ _ => empty)) cmds (ctor 1 0 [])).toOption.map fun f =>
      f.parts.flatMap fun p => p.st.m.map fun t => t.gm.g.filterMap fun e => e.lm.map fun l => (l.x 0, l.S 0 0)

example : spread [.update 0 0 0 [3], .predict fun _ x => x + 1] = some [[(3, 2)]] ∧ spread [.update 0 0 0 [3], .predict fun _ x => x + 1, .predict fun _ x => x + 1] = some [[(3, 3)]] := by decide +kernel

/-- A track with two Gaussians, of which the second has a landmark too. -/
def two : List (Track ℚ 1) := [⟨1 / 2, 0, ⟨2, [⟨some ⟨fun _ => 1, fun _ _ => 1⟩, 3 / 4, 0⟩, ⟨some ⟨fun _ => 5, fun _ _ => 1⟩, 1 / 4, 0⟩], true⟩⟩]

def push (l : Lm ℚ 1) : Lm ℚ 1 := ⟨l.x, fun i j => l.S i j + 1⟩

/-- The motion adds to the covariances of both. -/
example : (stillTracks push two).map (fun ts => ts.map fun t => t.gm.g.map fun e => e.lm.map fun l => (l.x 0, l.S 0 0)) = some [[some (1, 2), some (5, 2)]] := by decide +kernel

/-! ### The RB-PHD filter -/

section phd
open PHD PHDR

variable {cfg : PHD.Cfg K} {tc : TCfg K} {maha : Lm K d → Lm K d → K} {srt : List (Gauss K d) → List (Gauss K d)}

/-- **C254**, the RB-PHD filter without births: particle `i` moves by `mx i`, every landmark by `ml`, once. -/
theorem C254_phd (b : X → BSensor (Lm K d) Z) (mx : Nat → X → X) (ml : Lm K d → Lm K d) (f : PHD.Filt X (Lm K d) Z K) :
    ∃ f', PHDR.step cfg tc maha srt f (.predict b mx ml false) = .ok f' ∧ f'.parts.length = f.parts.length ∧ f'.meas = f.meas ∧ f'.unused = f.unused ∧ f'.births = f.births ∧ f'.nFOV = f.nFOV ∧
      f'.nUpd = f.nUpd ∧ f'.nMeas = f.nMeas ∧ f'.resampled = f.resampled ∧ ∀ (i : Nat) p, f.parts[i]? = some p → ∃ q, f'.parts[i]? = some q ∧ q.id = p.id ∧ q.parent = p.parent ∧ q.w = p.w ∧
        q.st.x = mx i p.st.x ∧ List.Forall₂ (fun c c' => c'.lm = ml c.lm ∧ c'.w = c.w ∧ c'.wp = c.wp) p.st.map q.st.map := by
  refine ⟨_, rfl, by simp, rfl, rfl, rfl, rfl, rfl, rfl, rfl, fun i p hp => ⟨{ p with st := moved mx ml i p.st }, by simp [List.getElem?_map, List.getElem?_zipIdx, hp], rfl, rfl, rfl, rfl, ?_⟩⟩
  show List.Forall₂ _ p.st.map (p.st.map.map _)
  rw [List.forall₂_map_right_iff]
  exact List.forall₂_same.2 fun c _ => ⟨rfl, rfl, rfl⟩

/-- **C254**, the RB-PHD filter with births: they come first, from the poses before the motion, and their landmarks move with the others. -/
theorem C254_phd_births (b b' : X → BSensor (Lm K d) Z) (mx : Nat → X → X) (ml : Lm K d → Lm K d) (f f' : PHD.Filt X (Lm K d) Z K) :
    PHDR.step cfg tc maha srt f (.predict b mx ml true) = .ok f' ↔
      ∃ g, addBirthGaussians cfg b f = .ok g ∧ PHDR.step cfg tc maha srt g (.predict b' mx ml false) = .ok f' := by
  unfold PHDR.step PHD.predict
  simp only [if_true, Bool.false_eq_true, if_false]
  constructor
  · intro h
    split at h
    · cases h
    · rename_i g hg
      exact ⟨g, hg, h⟩
  · rintro ⟨g, hg, h⟩
    rw [hg]
    exact h

end phd

/-- **C254**, FastSLAM. -/
theorem C254_fastslam {X Lm : Type} (cfg : FastRuns.RCfg) (mx : Nat → X → X) (ml : Lm → Lm) (f : FastRuns.Filt X Lm) :
    ∃ f', FastRuns.step cfg f (.predict mx ml) = .ok f' ∧ f'.parts.length = f.parts.length ∧ ∀ (i : Nat) p, f.parts[i]? = some p → ∃ q, f'.parts[i]? = some q ∧ q.id = p.id ∧ q.parent = p.parent ∧
      q.w = p.w ∧ q.st.x = mx i p.st.x ∧ List.Forall₂ (fun c c' => c'.1 = ml c.1 ∧ c'.2 = c.2) p.st.map q.st.map := by
  refine ⟨_, rfl, by simp, fun i p hp => ⟨{ p with st := ⟨mx i p.st.x, p.st.map.map fun c => (ml c.1, c.2)⟩ }, by simp [List.getElem?_map, List.getElem?_zipIdx, hp], rfl, rfl, rfl, rfl, ?_⟩⟩
  show List.Forall₂ _ p.st.map (p.st.map.map _)
  rw [List.forall₂_map_right_iff]
  exact List.forall₂_same.2 fun c _ => ⟨rfl, rfl⟩

end PredictProps
end RFS
