import Verif.Lemmas.PHDRuns
import Verif.Props.ParticleFilter

/-!
Properties C189-C191: whole runs of the RB-PHD filter.
-/

set_option linter.unusedSectionVars false

namespace RFS
namespace PHDRProps
open GM PHD PHDR

variable {K : Type*} [Field K] [LinearOrder K] [IsStrictOrderedRing K] {X Z : Type*} {d : Nat}

/-- Probabilities of detection are probabilities, likelihoods and clutter are not negative. -/
structure SensorOk (s : Sensor (Lm K d) Z K) (Zs : List Z) : Prop where
  pd0 : ∀ l, 0 ≤ (s.pd l).1
  pd1 : ∀ l, (s.pd l).1 ≤ 1
  lik : ∀ l z, 0 ≤ (s.kf l z).2.1
  clut : ∀ z ∈ Zs, 0 ≤ s.clutter z Zs.length

/-- What is assumed of a call: sensible sensor models, a positive factor for the particle weights, a random number in [0, 1). -/
def CmdOk : Cmd X Z K d → Prop
  | .predict .. => True
  | .update s weigh order _ _ r Zs => (∀ x, SensorOk (s x) Zs) ∧ (∀ p p', 0 < p.w → 0 < weigh p p') ∧ (∀ m, (order m).Perm m) ∧ 0 ≤ r ∧ r < 1

/-- Number of measurements in a run. -/
def measurements : List (Cmd X Z K d) → Nat
  | [] => 0
  | .predict .. :: cs => measurements cs
  | .update _ _ _ _ _ _ Zs :: cs => Zs.length + measurements cs

/-- Number of calls of `predict` that check for births. -/
def birthChecks : List (Cmd X Z K d) → Nat
  | [] => 0
  | .predict _ _ _ check :: cs => (if check then 1 else 0) + birthChecks cs
  | .update .. :: cs => birthChecks cs

/-- Number of calls of `update`. -/
def updates : List (Cmd X Z K d) → Nat
  | [] => 0
  | .predict .. :: cs => updates cs
  | .update .. :: cs => 1 + updates cs

/-- Expected number of landmarks: the sum of the weights. -/
def expected (m : List (Comp (Lm K d) K)) : K := (m.map Comp.w).sum

section
variable {cfg : Cfg K} {tc : TCfg K} {maha : Lm K d → Lm K d → K} {srt : List (Gauss K d) → List (Gauss K d)}

/-- A particle in order: positive weight, positive weights in the map, expected number at most `B`. -/
def Good (B : K) (p : PF.Part (PState X (Lm K d) K) K) : Prop := 0 < p.w ∧ (∀ c ∈ p.st.map, 0 < c.w) ∧ tot p.st.map ≤ B

/-- The particle after its map update. -/
def after (cfg : Cfg K) (s : X → Sensor (Lm K d) Z K) (Zs : List Z) (p : PF.Part (PState X (Lm K d) K) K) : PF.Part (PState X (Lm K d) K) K :=
  { p with st := ⟨p.st.x, (updateMap (s p.st.x) cfg.mdThr cfg.birthW p.st.map Zs).map⟩ }

theorem tidy_after (hs : IsSort srt) (ht : 0 < tc.pruneT) {B : K} {p : PF.Part (PState X (Lm K d) K) K} (hp : Good B p) {s : X → Sensor (Lm K d) Z K} {Zs : List Z} (hso : ∀ x, SensorOk (s x) Zs)
    {order : List (Comp (Lm K d) K) → List (Comp (Lm K d) K)} (ho : ∀ m, (order m).Perm m) :
    ∃ m', tidy maha srt tc (order (after cfg s Zs p).st.map) = some m' ∧ tot m' ≤ tot p.st.map + Zs.length ∧ ∀ c ∈ m', tc.pruneT ≤ c.w := by
  have hn : Nonneg (s p.st.x) p.st.map Zs := ⟨(hso _).pd0, (hso _).pd1, (hso _).lik, (hso _).clut, fun c hc => (hp.2.1 c hc).le⟩
  have h0 := PHDProps.C43_nonneg (s p.st.x) cfg.mdThr cfg.birthW p.st.map Zs hn
  obtain ⟨m', h1, h2, h3⟩ := tidy_ok maha hs tc ht (order (after cfg s Zs p).st.map) fun c hc => h0 c ((ho _).mem_iff.1 hc)
  refine ⟨m', h1, ?_, h3⟩
  have h4 := update_tot hn cfg.mdThr cfg.birthW
  have h5 : tot (order (after cfg s Zs p).st.map) = tot (after cfg s Zs p).st.map := ((ho _).map Comp.w).sum_eq
  rw [h5] at h2
  exact h2.trans h4

theorem sum_pos {α : Type*} (g : α → K) (l : List α) (hl : l ≠ []) (h : ∀ a ∈ l, 0 < g a) : 0 < (l.map g).sum := by
  refine List.sum_pos _ ?_ (by simpa using hl)
  intro x hx
  obtain ⟨a, ha, rfl⟩ := List.mem_map.1 hx
  exact h a ha

/-- A non-empty scan. -/
theorem step_update (hs : IsSort srt) (ht : 0 < tc.pruneT) {B : K} {f : Filt X (Lm K d) Z K} (hne : f.parts ≠ []) (hg : ∀ p ∈ f.parts, Good B p) {s : X → Sensor (Lm K d) Z K}
    {weigh : PF.Part (PState X (Lm K d) K) K → PF.Part (PState X (Lm K d) K) K → K} {order : List (Comp (Lm K d) K) → List (Comp (Lm K d) K)} {t tp r : K} {Zs : List Z} (hZ : Zs ≠ [])
    (hc : CmdOk (.update s weigh order t tp r Zs)) : ∃ f', step cfg tc maha srt f (.update s weigh order t tp r Zs) = .ok f' ∧ f'.parts.length = f.parts.length ∧ f'.births = f.births ∧
      f'.unused.length = f.parts.length ∧ (∀ u ∈ f'.unused, u.length ≤ Zs.length) ∧ f'.nUpd ≤ f.nUpd + 1 ∧ (∀ p ∈ f'.parts, Good (B + Zs.length) p ∧ ∀ c ∈ p.st.map, tc.pruneT ≤ c.w) ∧
      ((∀ p ∈ f'.parts, p.w = 1) ∨ (f'.parts.map PF.Part.w).sum = 1) ∧
      (f.nUpd + 1 < cfg.minUpd → ∀ (i : Nat) p', f'.parts[i]? = some p' → ∃ p, f.parts[i]? = some p ∧ p'.parent = p.parent ∧ tot p'.st.map ≤ tot p.st.map + Zs.length) := by
  obtain ⟨hso, hw, ho, hr0, hr1⟩ := hc
  have hlen : Zs.length ≠ 0 := by rwa [Ne, List.length_eq_zero_iff]
  have hno : ¬ (Zs.length ≠ 0 ∧ ∃ p ∈ f.parts, tidy maha srt tc (order (updateMap (s p.st.x) cfg.mdThr cfg.birthW p.st.map Zs).map) = none) := by
    rintro ⟨-, p, hp, hn⟩
    obtain ⟨m', h1, -⟩ := tidy_after (cfg := cfg) (maha := maha) hs ht (hg p hp) hso ho
    have h1' : tidy maha srt tc (order (updateMap (s p.st.x) cfg.mdThr cfg.birthW p.st.map Zs).map) = some m' := h1
    rw [hn] at h1'
    cases h1'
  have key : ∀ p ∈ f.parts, ∃ m', (tidy maha srt tc (order (after cfg s Zs p).st.map)).getD [] = m' ∧ tot m' ≤ tot p.st.map + Zs.length ∧ ∀ c ∈ m', tc.pruneT ≤ c.w := by
    intro p hp
    obtain ⟨m', h1, h2, h3⟩ := tidy_after (cfg := cfg) (maha := maha) hs ht (hg p hp) hso ho
    exact ⟨m', by rw [h1]; rfl, h2, h3⟩
  let parts1 := f.parts.map fun p => ({ after cfg s Zs p with st := ⟨p.st.x, (tidy maha srt tc (order (after cfg s Zs p).st.map)).getD []⟩, w := weigh p (after cfg s Zs p) } : PF.Part (PState X (Lm K d) K) K)
  have h1 : ∀ p ∈ parts1, Good (B + Zs.length) p ∧ ∀ c ∈ p.st.map, tc.pruneT ≤ c.w := by
    intro p hp
    obtain ⟨q, hq, rfl⟩ := List.mem_map.1 hp
    obtain ⟨m', e, h2, h3⟩ := key q hq
    simp only [e]
    have hB := (hg q hq).2.2
    exact ⟨⟨hw _ _ (hg q hq).1, fun c hc => ht.trans_le (h3 c hc), by simp only; linarith⟩, h3⟩
  have hne1 : parts1 ≠ [] := by simpa [parts1] using hne
  have hsum : 0 < (parts1.map PF.Part.w).sum := sum_pos _ _ hne1 fun p hp => (h1 p hp).1.1
  have hnorm : (∀ p ∈ PF.normalizeWeights parts1, Good (B + Zs.length) p ∧ ∀ c ∈ p.st.map, tc.pruneT ≤ c.w) ∧ ((PF.normalizeWeights parts1).map PF.Part.w).sum = 1 := by
    refine ⟨fun p hp => ?_, (PFProps.C31_normalize parts1 hsum.ne').1⟩
    obtain ⟨q, hq, rfl⟩ := List.mem_map.1 hp
    obtain ⟨⟨a1, a2, a3⟩, a4⟩ := h1 q hq
    exact ⟨⟨div_pos a1 hsum, a2, a3⟩, a4⟩
  have hunused : ∀ u ∈ (f.parts.map fun p => updateMap (s p.st.x) cfg.mdThr cfg.birthW p.st.map Zs).map Upd.unused, u.length ≤ Zs.length := by
    intro u hu
    obtain ⟨q, hq, rfl⟩ := List.mem_map.1 hu
    obtain ⟨p, hp, rfl⟩ := List.mem_map.1 hq
    unfold updateMap
    split
    · simp
    · exact (List.length_filter_le _ _).trans (by simp)
  have hslot : ∀ (i : Nat) p', (PF.normalizeWeights parts1)[i]? = some p' → ∃ p, f.parts[i]? = some p ∧ p'.parent = p.parent ∧ tot p'.st.map ≤ tot p.st.map + Zs.length := by
    intro i p' hp'
    unfold PF.normalizeWeights at hp'
    rw [List.getElem?_map, List.getElem?_map] at hp'
    obtain ⟨q, hq, rfl⟩ := Option.map_eq_some_iff.1 hp'
    obtain ⟨p, hp, rfl⟩ := Option.map_eq_some_iff.1 hq
    refine ⟨p, hp, rfl, ?_⟩
    obtain ⟨m', e, h2, h3⟩ := key p (List.mem_of_getElem? hp)
    simp only [e]
    exact h2
  have hnl : (PF.normalizeWeights parts1).length = f.parts.length := by simp [PF.normalizeWeights, parts1]
  unfold step
  simp only
  rw [if_neg hno]
  unfold update
  rw [if_neg hlen]
  simp only
  by_cases hdue : cfg.minUpd ≤ f.nUpd + 1 ∧ cfg.minMeas ≤ f.nMeas + Zs.length
  · rw [if_pos hdue]
    by_cases hen : PF.enough (PF.normalizeWeights parts1) t tp
    · have hres : PF.resample parts1 0 false t tp r = some (false, PF.normalizeWeights parts1) := by
        unfold PF.resample
        simp only
        rw [if_pos ⟨by simp, hen⟩]
      have hone : ((PF.normalizeWeights parts1).map PF.Part.w).sum = 1 := hnorm.2
      have hdouble : PF.normalizeWeights (PF.normalizeWeights parts1) = PF.normalizeWeights parts1 := by
        conv_lhs => unfold PF.normalizeWeights
        rw [show ((List.map (fun p => { p with w := p.w / (List.map PF.Part.w parts1).sum }) parts1).map PF.Part.w).sum = 1 from hone]
        simp [PF.normalizeWeights]
      split
      · rename_i he
        cases hres.symm.trans he
      · rename_i P he
        cases hres.symm.trans he
      · rename_i P he
        cases hres.symm.trans he
        rw [hdouble]
        exact ⟨_, rfl, hnl, rfl, by simp, hunused, le_rfl, hnorm.1, .inr hone, fun _ => hslot⟩
    · obtain ⟨P', L, src, hres, -, -, -, hl, -, hw1, -⟩ := PFProps.C30_resample parts1 hsum 0 false t tp r hr0 hr1 (.inr hen)
      have hmem := MBFProps.resample_mem (fun st : PState X (Lm K d) K => (∀ c ∈ st.map, tc.pruneT ≤ c.w) ∧ tot st.map ≤ B + Zs.length) parts1 t tp r true P'
        (fun p hp => ⟨(h1 p hp).2, (h1 p hp).1.2.2⟩) hres
      split
      · rename_i he
        cases hres.symm.trans he
      · rename_i P he
        cases hres.symm.trans he
        refine ⟨_, rfl, ?_, rfl, by simp, hunused, by simp, ?_, .inl hw1, fun h => absurd hdue.1 (by omega)⟩
        · exact (resample_length _ _ _ _ _ _ _ hres).trans (by simp [parts1])
        · intro p hp
          obtain ⟨a1, a2⟩ := hmem p hp
          exact ⟨⟨by rw [hw1 p hp]; exact zero_lt_one, fun c hc => ht.trans_le (a1 c hc), a2⟩, a1⟩
      · rename_i P he
        cases hres.symm.trans he
  · rw [if_neg hdue]
    exact ⟨_, rfl, hnl, rfl, by simp, hunused, le_rfl, hnorm.1, .inr hnorm.2, fun _ => hslot⟩

/-- What every run keeps: `M` measurements and `P` checks for births so far. -/
structure Inv (cfg : Cfg K) (n M P : Nat) (f : Filt X (Lm K d) Z K) : Prop where
  nP : f.parts.length = n
  nU : f.unused.length = n
  nB : f.births.length = n
  lists : Lists M f
  good : ∀ p ∈ f.parts, Good (M + cfg.birthW * (P * M)) p

/-- What is kept as long as nobody is resampled. -/
structure Own (cfg : Cfg K) (M U : Nat) (f : Filt X (Lm K d) Z K) : Prop where
  upd : f.nUpd ≤ U
  own : ∀ (j : Nat) p, f.parts[j]? = some p → p.parent = j
  pot : ∀ (j : Nat) p u c, f.parts[j]? = some p → f.unused[j]? = some u → f.births[j]? = some c → tot p.st.map + cfg.birthW * (u.length + c.length : Nat) ≤ (1 + cfg.birthW) * M

theorem inv_ctor (n : Nat) (x0 : X) (b : Bool) : Inv cfg n 0 0 (ctor n x0 b : Filt X (Lm K d) Z K) := by
  refine ⟨by simp [ctor, PF.addParticles], by simp [ctor], by simp [ctor], ?_, ?_⟩
  · intro i u c hu hc
    have h1 := List.mem_of_getElem? hu
    have h2 := List.mem_of_getElem? hc
    rw [show (ctor n x0 b : Filt X (Lm K d) Z K).unused = List.replicate n [] from rfl, List.mem_replicate] at h1
    rw [show (ctor n x0 b : Filt X (Lm K d) Z K).births = List.replicate n [] from rfl, List.mem_replicate] at h2
    simp [h1.2, h2.2]
  · intro p hp
    simp only [ctor, PF.addParticles, List.nil_append, List.mem_map] at hp
    obtain ⟨i, -, rfl⟩ := hp
    refine ⟨?_, by simp, by simp [tot]⟩
    simp only
    rw [if_neg (by exact not_lt.2 zero_le_one)]
    exact zero_lt_one

theorem own_ctor (n : Nat) (x0 : X) (b : Bool) : Own cfg 0 0 (ctor n x0 b : Filt X (Lm K d) Z K) := by
  have hparts : ∀ (j : Nat) p, (ctor n x0 b : Filt X (Lm K d) Z K).parts[j]? = some p → p.parent = j ∧ p.st.map = [] := by
    intro j p hp
    simp only [ctor, PF.addParticles, List.nil_append, List.getElem?_map] at hp
    obtain ⟨i, hi, rfl⟩ := Option.map_eq_some_iff.1 hp
    obtain ⟨h1, h2⟩ := List.getElem?_eq_some_iff.1 hi
    simp only [List.getElem_range] at h2
    exact ⟨h2.symm, rfl⟩
  refine ⟨le_rfl, fun j p hp => (hparts j p hp).1, ?_⟩
  intro j p u c hp hu hc
  have h1 := List.mem_of_getElem? hu
  have h2 := List.mem_of_getElem? hc
  rw [show (ctor n x0 b : Filt X (Lm K d) Z K).unused = List.replicate n [] from rfl, List.mem_replicate] at h1
  rw [show (ctor n x0 b : Filt X (Lm K d) Z K).births = List.replicate n [] from rfl, List.mem_replicate] at h2
  simp [h1.2, h2.2, (hparts j p hp).2, tot]

theorem tot_moved (ml : Lm K d → Lm K d) (m : List (Comp (Lm K d) K)) : tot (m.map fun c => (⟨ml c.lm, c.w, c.wp⟩ : Comp (Lm K d) K)) = tot m := by
  simp [tot, Function.comp_def]

theorem predict_ok {b : X → BSensor (Lm K d) Z} {mx : Nat → X → X} {ml : Lm K d → Lm K d} {check : Bool} {f f' : Filt X (Lm K d) Z K} (h : step cfg tc maha srt f (.predict b mx ml check) = .ok f') :
    ∃ g, (if check then birthN cfg b f f.parts.length else .ok f) = .ok g ∧ f' = { g with parts := g.parts.zipIdx.map fun q => { q.1 with st := moved mx ml q.2 q.1.st } } := by
  unfold step predict addBirthGaussians at h
  simp only at h
  split at h
  · cases h
  · rename_i g hg
    exact ⟨g, hg, (Except.ok.inj h).symm⟩

theorem moved_get {mx : Nat → X → X} {ml : Lm K d → Lm K d} {g : Filt X (Lm K d) Z K} {j : Nat} {p' : PF.Part (PState X (Lm K d) K) K}
    (h : (g.parts.zipIdx.map fun q => ({ q.1 with st := moved mx ml q.2 q.1.st } : PF.Part (PState X (Lm K d) K) K))[j]? = some p') :
    ∃ p, g.parts[j]? = some p ∧ p' = { p with st := moved mx ml j p.st } := by
  rw [List.getElem?_map, List.getElem?_zipIdx] at h
  obtain ⟨q, hq, rfl⟩ := Option.map_eq_some_iff.1 h
  obtain ⟨p, hp, rfl⟩ := Option.map_eq_some_iff.1 hq
  exact ⟨p, hp, by simp⟩

theorem good_moved {B : K} {mx : Nat → X → X} {ml : Lm K d → Lm K d} {j : Nat} {p : PF.Part (PState X (Lm K d) K) K} (h : Good B p) : Good B { p with st := moved mx ml j p.st } := by
  refine ⟨h.1, ?_, ?_⟩
  · intro c hc
    obtain ⟨c', hc', rfl⟩ := List.mem_map.1 hc
    exact h.2.1 c' hc'
  · change tot (p.st.map.map fun c => (⟨ml c.lm, c.w, c.wp⟩ : Comp (Lm K d) K)) ≤ B
    rw [tot_moved]
    exact h.2.2

theorem inv_predict (hw : 0 < cfg.birthW) {n M P : Nat} {f f' : Filt X (Lm K d) Z K} (hi : Inv cfg n M P f) {b : X → BSensor (Lm K d) Z} {mx : Nat → X → X} {ml : Lm K d → Lm K d} {check : Bool}
    (h : step cfg tc maha srt f (.predict b mx ml check) = .ok f') : Inv cfg n M (P + if check then 1 else 0) f' := by
  obtain ⟨g, hg, rfl⟩ := predict_ok h
  have hgi : Inv cfg n M (P + if check then 1 else 0) g := by
    cases check with
    | false =>
      cases hg
      simpa using hi
    | true =>
      rw [if_pos rfl] at hg
      obtain ⟨a1, a2, a3, -⟩ := birthN_frame _ _ hg
      obtain ⟨b1, b2⟩ := birthN_lists hw.le hi.lists _ _ hg
      refine ⟨a1.trans hi.nP, a2.trans hi.nU, a3.trans hi.nB, b1, ?_⟩
      intro p' hp'
      obtain ⟨j, hj⟩ := List.mem_iff_getElem?.1 hp'
      obtain ⟨p, m, k, c1, rfl, c3, c4, -⟩ := b2 j p' hj
      obtain ⟨g1, g2, g3⟩ := hi.good p (List.mem_of_getElem? c1)
      refine ⟨g1, fun c hc => ?_, ?_⟩
      · rcases c3.pos c hc with h' | h'
        · exact g2 c h'
        · rw [h']; exact hw
      · have h1 := c3.le
        have h2 : cfg.birthW * (k : K) ≤ cfg.birthW * M := mul_le_mul_of_nonneg_left (by exact_mod_cast c4) hw.le
        simp only [if_true]
        push_cast
        nlinarith
  refine ⟨by simpa using hgi.nP, hgi.nU, hgi.nB, hgi.lists, ?_⟩
  intro p' hp'
  obtain ⟨j, hj⟩ := List.mem_iff_getElem?.1 hp'
  obtain ⟨p, hp, rfl⟩ := moved_get hj
  exact good_moved (hgi.good p (List.mem_of_getElem? hp))

theorem own_predict (hw : 0 < cfg.birthW) {n M P U : Nat} {f f' : Filt X (Lm K d) Z K} (hi : Inv cfg n M P f) (ho : Own cfg M U f) {b : X → BSensor (Lm K d) Z} {mx : Nat → X → X} {ml : Lm K d → Lm K d} {check : Bool}
    (h : step cfg tc maha srt f (.predict b mx ml check) = .ok f') : Own cfg M U f' := by
  obtain ⟨g, hg, rfl⟩ := predict_ok h
  have hgo : Own cfg M U g := by
    cases check with
    | false =>
      cases hg
      exact ho
    | true =>
      rw [if_pos rfl] at hg
      obtain ⟨a1, a2, a3, -, -, -, -, a8⟩ := birthN_frame _ _ hg
      obtain ⟨b1, b2⟩ := birthN_lists hw.le hi.lists _ _ hg
      have hn : g.nUpd = f.nUpd := birthN_nUpd _ _ hg
      refine ⟨hn ▸ ho.upd, ?_, ?_⟩
      · intro j p' hj
        obtain ⟨p, m, k, c1, rfl, -⟩ := b2 j p' hj
        exact ho.own j p c1
      · intro j p' u' c' hj hu hc
        have hjn : j < f.parts.length := a1 ▸ (List.getElem?_eq_some_iff.1 hj).1
        obtain ⟨p, m, k, c1, rfl, c3, -, c5⟩ := b2 j p' hj
        obtain ⟨u, c, c2, d1, d2, d3, d4⟩ := c5 hjn fun _ => ho.own j p c1
        rw [a8 j hjn] at hu
        cases hu
        rw [d3] at hc
        cases hc
        have h1 := ho.pot j p u c c1 d1 d2
        have h2 := c3.le
        have h3 : cfg.birthW * ((k + c'.length : Nat) : K) ≤ cfg.birthW * ((u.length + c.length : Nat) : K) := mul_le_mul_of_nonneg_left (by exact_mod_cast d4) hw.le
        push_cast at h1 h2 h3 ⊢
        simp only [List.length_nil, Nat.cast_zero]
        nlinarith
  refine ⟨hgo.upd, ?_, ?_⟩
  · intro j p' hj
    obtain ⟨p, hp, rfl⟩ := moved_get hj
    exact hgo.own j p hp
  · intro j p' u c hj hu hc
    obtain ⟨p, hp, rfl⟩ := moved_get hj
    have := hgo.pot j p u c hp hu hc
    change tot (p.st.map.map fun c => (⟨ml c.lm, c.w, c.wp⟩ : Comp (Lm K d) K)) + _ ≤ _
    rw [tot_moved]
    exact this

theorem empty_update {s : X → Sensor (Lm K d) Z K} {weigh : PF.Part (PState X (Lm K d) K) K → PF.Part (PState X (Lm K d) K) K → K} {order : List (Comp (Lm K d) K) → List (Comp (Lm K d) K)} {t tp r : K}
    (f : Filt X (Lm K d) Z K) : step cfg tc maha srt f (.update s weigh order t tp r []) = .ok { f with nUpd := f.nUpd + 1, meas := [] } := by
  unfold step
  simp [update]

theorem inv_update (hs : IsSort srt) (ht : 0 < tc.pruneT) (hw : 0 < cfg.birthW) {n M P : Nat} (hn : 0 < n) {f f' : Filt X (Lm K d) Z K} (hi : Inv cfg n M P f) {s : X → Sensor (Lm K d) Z K}
    {weigh : PF.Part (PState X (Lm K d) K) K → PF.Part (PState X (Lm K d) K) K → K} {order : List (Comp (Lm K d) K) → List (Comp (Lm K d) K)} {t tp r : K} {Zs : List Z}
    (hc : CmdOk (.update s weigh order t tp r Zs)) (h : step cfg tc maha srt f (.update s weigh order t tp r Zs) = .ok f') : Inv cfg n (M + Zs.length) P f' := by
  by_cases hZ : Zs = []
  · subst hZ
    rw [empty_update] at h
    cases h
    exact ⟨hi.nP, hi.nU, hi.nB, hi.lists, hi.good⟩
  · have hne : f.parts ≠ [] := by
      intro h0
      have := hi.nP
      rw [h0] at this
      simp at this
      omega
    obtain ⟨g, h1, h2, h3, h4, h5, -, h7, -⟩ := step_update (cfg := cfg) (maha := maha) hs ht hne hi.good hZ hc
    rw [h] at h1
    cases h1
    refine ⟨h2.trans hi.nP, h4.trans hi.nP, by rw [h3]; exact hi.nB, ?_, ?_⟩
    · intro i u c hu hcc
      rw [h3] at hcc
      have hin : i < f.unused.length := by rw [hi.nU, ← hi.nB]; exact (List.getElem?_eq_some_iff.1 hcc).1
      have := hi.lists i _ c (List.getElem?_eq_getElem hin) hcc
      have := h5 u (List.mem_of_getElem? hu)
      omega
    · intro p hp
      obtain ⟨⟨g1, g2, g3⟩, -⟩ := h7 p hp
      refine ⟨g1, g2, g3.trans ?_⟩
      have h0 : (0 : K) ≤ cfg.birthW * (P * Zs.length) := by positivity
      push_cast
      nlinarith

theorem own_update (hs : IsSort srt) (ht : 0 < tc.pruneT) (hw : 0 < cfg.birthW) {n M P U : Nat} (hn : 0 < n) {f f' : Filt X (Lm K d) Z K} (hi : Inv cfg n M P f) (ho : Own cfg M U f) (hU : U + 1 < cfg.minUpd)
    {s : X → Sensor (Lm K d) Z K} {weigh : PF.Part (PState X (Lm K d) K) K → PF.Part (PState X (Lm K d) K) K → K} {order : List (Comp (Lm K d) K) → List (Comp (Lm K d) K)} {t tp r : K} {Zs : List Z}
    (hc : CmdOk (.update s weigh order t tp r Zs)) (h : step cfg tc maha srt f (.update s weigh order t tp r Zs) = .ok f') : Own cfg (M + Zs.length) (U + 1) f' := by
  by_cases hZ : Zs = []
  · subst hZ
    rw [empty_update] at h
    cases h
    exact ⟨Nat.succ_le_succ ho.upd, ho.own, ho.pot⟩
  · have hne : f.parts ≠ [] := by
      intro h0
      have := hi.nP
      rw [h0] at this
      simp at this
      omega
    obtain ⟨g, h1, h2, h3, h4, h5, h6, -, -, h9⟩ := step_update (cfg := cfg) (maha := maha) hs ht hne hi.good hZ hc
    rw [h] at h1
    cases h1
    have h9' := h9 (by have := ho.upd; omega)
    refine ⟨h6.trans (Nat.succ_le_succ ho.upd), ?_, ?_⟩
    · intro j p' hj
      obtain ⟨p, hp, e, -⟩ := h9' j p' hj
      rw [e]
      exact ho.own j p hp
    · intro j p' u c hj hu hcc
      rw [h3] at hcc
      obtain ⟨p, hp, -, e⟩ := h9' j p' hj
      have hin : j < f.unused.length := by rw [hi.nU, ← hi.nB]; exact (List.getElem?_eq_some_iff.1 hcc).1
      have h10 := ho.pot j p _ c hp (List.getElem?_eq_getElem hin) hcc
      have h11 : (u.length : K) ≤ Zs.length := by exact_mod_cast h5 u (List.mem_of_getElem? hu)
      have h12 : cfg.birthW * (u.length : K) ≤ cfg.birthW * Zs.length := mul_le_mul_of_nonneg_left h11 hw.le
      have h13 : (0 : K) ≤ cfg.birthW * (f.unused[j].length : K) := by positivity
      push_cast at h10 ⊢
      nlinarith

theorem exec_inv (hs : IsSort srt) (ht : 0 < tc.pruneT) (hw : 0 < cfg.birthW) {n : Nat} (hn : 0 < n) : ∀ (cmds : List (Cmd X Z K d)) (M P : Nat) (f f' : Filt X (Lm K d) Z K), Inv cfg n M P f → (∀ c ∈ cmds, CmdOk c) →
    exec cfg tc maha srt cmds f = .ok f' → Inv cfg n (M + measurements cmds) (P + birthChecks cmds) f' := by
  intro cmds
  induction cmds with
  | nil => intro M P f f' hi _ h; cases h; exact hi
  | cons c cs ih =>
    intro M P f f' hi hc h
    unfold exec at h
    split at h
    · cases h
    · rename_i f1 h1
      cases c with
      | predict b mx ml check =>
        have := ih M _ f1 f' (inv_predict hw hi h1) (fun c hcc => hc c (List.mem_cons_of_mem _ hcc)) h
        simpa only [measurements, birthChecks, Nat.add_assoc] using this
      | update s weigh order t tp r Zs =>
        have := ih _ P f1 f' (inv_update hs ht hw hn hi (hc _ List.mem_cons_self) h1) (fun c hcc => hc c (List.mem_cons_of_mem _ hcc)) h
        simpa only [measurements, birthChecks, Nat.add_assoc] using this

theorem exec_own (hs : IsSort srt) (ht : 0 < tc.pruneT) (hw : 0 < cfg.birthW) {n : Nat} (hn : 0 < n) : ∀ (cmds : List (Cmd X Z K d)) (M P U : Nat) (f f' : Filt X (Lm K d) Z K), Inv cfg n M P f → Own cfg M U f →
    U + updates cmds < cfg.minUpd → (∀ c ∈ cmds, CmdOk c) → exec cfg tc maha srt cmds f = .ok f' → Own cfg (M + measurements cmds) (U + updates cmds) f' := by
  intro cmds
  induction cmds with
  | nil => intro M P U f f' _ ho _ _ h; cases h; exact ho
  | cons c cs ih =>
    intro M P U f f' hi ho hU hc h
    unfold exec at h
    split at h
    · cases h
    · rename_i f1 h1
      cases c with
      | predict b mx ml check =>
        have := ih M _ U f1 f' (inv_predict hw hi h1) (own_predict hw hi ho h1) hU (fun c hcc => hc c (List.mem_cons_of_mem _ hcc)) h
        simpa only [measurements, updates, Nat.add_assoc] using this
      | update s weigh order t tp r Zs =>
        simp only [updates] at hU
        have hok := hc _ List.mem_cons_self
        have := ih _ P _ f1 f' (inv_update hs ht hw hn hi hok h1) (own_update hs ht hw hn hi ho (by omega) hok h1) (by omega) (fun c hcc => hc c (List.mem_cons_of_mem _ hcc)) h
        simpa only [measurements, updates, Nat.add_assoc] using this

theorem exec_append (more : List (Cmd X Z K d)) : ∀ (cmds : List (Cmd X Z K d)) (f : Filt X (Lm K d) Z K), exec cfg tc maha srt (cmds ++ more) f = (exec cfg tc maha srt cmds f).bind (exec cfg tc maha srt more) := by
  intro cmds
  induction cmds with
  | nil => intro f; rfl
  | cons c cs ih =>
    intro f
    simp only [List.cons_append, exec]
    split
    · rfl
    · exact ih _

theorem exec_one (c : Cmd X Z K d) (f : Filt X (Lm K d) Z K) : exec cfg tc maha srt [c] f = step cfg tc maha srt f c := by
  simp only [exec]
  split
  · rename_i h; rw [h]
  · rename_i h; rw [h]

/-! ### C189 -/

/-- C189: after any calls the Gaussians of all particles have positive weights. -/
theorem C189_positive (hs : IsSort srt) (ht : 0 < tc.pruneT) (hw : 0 < cfg.birthW) (n : Nat) (hn : 0 < n) (x0 : X) (b : Bool) (cmds : List (Cmd X Z K d)) (hc : ∀ c ∈ cmds, CmdOk c) (f : Filt X (Lm K d) Z K)
    (h : exec cfg tc maha srt cmds (ctor n x0 b) = .ok f) : ∀ p ∈ f.parts, ∀ c ∈ p.st.map, 0 < c.w :=
  fun p hp => ((exec_inv hs ht hw hn cmds 0 0 _ f (inv_ctor n x0 b) hc h).good p hp).2.1

/-- C189: right after an update with measurements no weight is below the threshold of pruning, and the update has added at most one expected landmark per measurement to the largest map. -/
theorem C189_after_update (hs : IsSort srt) (ht : 0 < tc.pruneT) (hw : 0 < cfg.birthW) (n : Nat) (hn : 0 < n) (x0 : X) (b : Bool) (cmds : List (Cmd X Z K d)) (s : X → Sensor (Lm K d) Z K)
    (weigh : PF.Part (PState X (Lm K d) K) K → PF.Part (PState X (Lm K d) K) K → K) (order : List (Comp (Lm K d) K) → List (Comp (Lm K d) K)) (t tp r : K) (Zs : List Z) (hZ : Zs ≠ [])
    (hc : ∀ c ∈ cmds ++ [.update s weigh order t tp r Zs], CmdOk c) (f g : Filt X (Lm K d) Z K) (hf : exec cfg tc maha srt cmds (ctor n x0 b) = .ok f)
    (hg : exec cfg tc maha srt (cmds ++ [.update s weigh order t tp r Zs]) (ctor n x0 b) = .ok g) :
    (∀ p ∈ g.parts, ∀ c ∈ p.st.map, tc.pruneT ≤ c.w) ∧ ∀ B, (∀ p ∈ f.parts, expected p.st.map ≤ B) → ∀ p ∈ g.parts, expected p.st.map ≤ B + Zs.length := by
  have hi := exec_inv hs ht hw hn cmds 0 0 _ f (inv_ctor n x0 b) (fun c hcc => hc c (List.mem_append_left _ hcc)) hf
  rw [exec_append, hf] at hg
  change exec cfg tc maha srt _ f = _ at hg
  rw [exec_one] at hg
  have hne : f.parts ≠ [] := by
    intro h0
    have := hi.nP
    rw [h0] at this
    simp at this
    omega
  have hok := hc _ (List.mem_append_right _ List.mem_cons_self)
  refine ⟨?_, ?_⟩
  · obtain ⟨g', h1, -, -, -, -, -, h7, -⟩ := step_update (cfg := cfg) (maha := maha) hs ht hne hi.good hZ hok
    rw [hg] at h1
    cases h1
    exact fun p hp => (h7 p hp).2
  · intro B hB
    obtain ⟨g', h1, -, -, -, -, -, h7, -⟩ := step_update (cfg := cfg) (maha := maha) hs ht hne (B := B) (fun p hp => ⟨(hi.good p hp).1, (hi.good p hp).2.1, hB p hp⟩) hZ hok
    rw [hg] at h1
    cases h1
    exact fun p hp => (h7 p hp).1.2.2

/-! ### C190 -/

/-- C190: with `M` measurements and `P` checks for births a map never expects more than `M (1 + birthW P)` landmarks. -/
theorem C190_expected (hs : IsSort srt) (ht : 0 < tc.pruneT) (hw : 0 < cfg.birthW) (n : Nat) (hn : 0 < n) (x0 : X) (b : Bool) (cmds : List (Cmd X Z K d)) (hc : ∀ c ∈ cmds, CmdOk c) (f : Filt X (Lm K d) Z K)
    (h : exec cfg tc maha srt cmds (ctor n x0 b) = .ok f) : ∀ p ∈ f.parts, expected p.st.map ≤ measurements cmds * (1 + cfg.birthW * birthChecks cmds) := by
  intro p hp
  have h1 := ((exec_inv hs ht hw hn cmds 0 0 _ f (inv_ctor n x0 b) hc h).good p hp).2.2
  rw [Nat.zero_add, Nat.zero_add] at h1
  change tot p.st.map ≤ _
  linarith

/-- C190: as long as resampling is not due, a map never expects more than `M (1 + birthW)` landmarks. -/
theorem C190_before_resampling (hs : IsSort srt) (ht : 0 < tc.pruneT) (hw : 0 < cfg.birthW) (n : Nat) (hn : 0 < n) (x0 : X) (b : Bool) (cmds : List (Cmd X Z K d)) (hc : ∀ c ∈ cmds, CmdOk c)
    (hU : updates cmds < cfg.minUpd) (f : Filt X (Lm K d) Z K) (h : exec cfg tc maha srt cmds (ctor n x0 b) = .ok f) : ∀ p ∈ f.parts, expected p.st.map ≤ measurements cmds * (1 + cfg.birthW) := by
  intro p hp
  have hi := exec_inv hs ht hw hn cmds 0 0 _ f (inv_ctor n x0 b) hc h
  have ho := exec_own hs ht hw hn cmds 0 0 0 _ f (inv_ctor n x0 b) (own_ctor n x0 b) (by omega) hc h
  obtain ⟨j, hj⟩ := List.mem_iff_getElem?.1 hp
  have hjn := (List.getElem?_eq_some_iff.1 hj).1
  have h1 := ho.pot j p _ _ hj (List.getElem?_eq_getElem (by rw [hi.nU, ← hi.nP]; exact hjn)) (List.getElem?_eq_getElem (by rw [hi.nB, ← hi.nP]; exact hjn))
  simp only [Nat.zero_add] at h1
  change tot p.st.map ≤ _
  have h2 : (0 : K) ≤ cfg.birthW * ((f.unused[j]'(by rw [hi.nU, ← hi.nP]; exact hjn)).length + (f.births[j]'(by rw [hi.nB, ← hi.nP]; exact hjn)).length : Nat) := by positivity
  linarith

/-! ### C191 -/

/-- C191: after any calls there are as many particles as at the start, with positive weights, and `update` is defined, whatever the scan. -/
theorem C191_defined (hs : IsSort srt) (ht : 0 < tc.pruneT) (hw : 0 < cfg.birthW) (n : Nat) (hn : 0 < n) (x0 : X) (b : Bool) (cmds : List (Cmd X Z K d)) (hc : ∀ c ∈ cmds, CmdOk c) (f : Filt X (Lm K d) Z K)
    (h : exec cfg tc maha srt cmds (ctor n x0 b) = .ok f) : f.parts.length = n ∧ (∀ p ∈ f.parts, 0 < p.w) ∧
      ∀ s weigh order t tp r Zs, CmdOk (.update s weigh order t tp r Zs) → ∃ f', step cfg tc maha srt f (.update s weigh order t tp r Zs) = .ok f' := by
  have hi := exec_inv hs ht hw hn cmds 0 0 _ f (inv_ctor n x0 b) hc h
  refine ⟨hi.nP, fun p hp => (hi.good p hp).1, ?_⟩
  intro s weigh order t tp r Zs hok
  by_cases hZ : Zs = []
  · subst hZ
    exact ⟨_, empty_update f⟩
  · have hne : f.parts ≠ [] := by
      intro h0
      have := hi.nP
      rw [h0] at this
      simp at this
      omega
    obtain ⟨g', h1, -⟩ := step_update (cfg := cfg) (maha := maha) hs ht hne hi.good hZ hok
    exact ⟨g', h1⟩

/-- C191: after an update with measurements the weights sum to one, or all are one (the particles were resampled). -/
theorem C191_weights (hs : IsSort srt) (ht : 0 < tc.pruneT) (hw : 0 < cfg.birthW) (n : Nat) (hn : 0 < n) (x0 : X) (b : Bool) (cmds : List (Cmd X Z K d)) (s : X → Sensor (Lm K d) Z K)
    (weigh : PF.Part (PState X (Lm K d) K) K → PF.Part (PState X (Lm K d) K) K → K) (order : List (Comp (Lm K d) K) → List (Comp (Lm K d) K)) (t tp r : K) (Zs : List Z) (hZ : Zs ≠ [])
    (hc : ∀ c ∈ cmds ++ [.update s weigh order t tp r Zs], CmdOk c) (g : Filt X (Lm K d) Z K) (hg : exec cfg tc maha srt (cmds ++ [.update s weigh order t tp r Zs]) (ctor n x0 b) = .ok g) :
    (∀ p ∈ g.parts, p.w = 1) ∨ (g.parts.map PF.Part.w).sum = 1 := by
  rw [exec_append] at hg
  cases hf : exec cfg tc maha srt cmds (ctor n x0 b) with
  | error e =>
    rw [hf] at hg
    cases hg
  | ok f =>
    have hi := exec_inv hs ht hw hn cmds 0 0 _ f (inv_ctor n x0 b) (fun c hcc => hc c (List.mem_append_left _ hcc)) hf
    rw [hf] at hg
    change exec cfg tc maha srt _ f = _ at hg
    rw [exec_one] at hg
    have hne : f.parts ≠ [] := by
      intro h0
      have := hi.nP
      rw [h0] at this
      simp at this
      omega
    obtain ⟨g', h1, -, -, -, -, -, -, h8, -⟩ := step_update (cfg := cfg) (maha := maha) hs ht hne hi.good hZ (hc _ (List.mem_append_right _ List.mem_cons_self))
    rw [hg] at h1
    cases h1
    exact h8

end

/-! ### A run -/

/-- Landmarks of the run: points on a line with variance 1. -/
def pt (a : ℚ) : Lm ℚ 1 := ⟨fun _ => a, fun _ _ => 1⟩
/-- Distance of the run: squared difference of the means. -/
def exMaha (a b : Lm ℚ 1) : ℚ := (a.x 0 - b.x 0) * (a.x 0 - b.x 0)
/-- Sensor of the run: half of the landmarks are seen, at their position. -/
def exS : ℚ → Sensor (Lm ℚ 1) ℚ ℚ := fun x => ⟨fun _ => (1/2, false), fun l z => (l, if l.x 0 = x + z then 1 else 0, 0), fun _ _ => 1/4⟩
def exB : ℚ → BSensor (Lm ℚ 1) ℚ := fun x => ⟨fun l z => l.x 0 == x + z, fun l _ => l, fun z => pt (x + z)⟩
def exCfg : Cfg ℚ := ⟨1/4, 1, 3, 0, 1, 2, 0⟩
def exT : TCfg ℚ := ⟨1/2, 1, 1/10⟩
/-- Two scans with two measurements each, births in between; the particles move apart and are weighted by position. -/
def exCmds : List (Cmd ℚ ℚ ℚ 1) :=
  [.update exS (fun p _ => p.w) id 2 1 (1/3) [1, 5], .predict exB (fun i x => x + i) id true, .update exS (fun p _ => p.w / (1 + p.st.x * p.st.x)) id 2 1 (1/3) [1, 5]]

theorem exS_ok (x : ℚ) (Zs : List ℚ) : SensorOk (exS x) Zs := by
  refine ⟨fun _ => by norm_num [exS], fun _ => by norm_num [exS], fun l z => ?_, fun _ _ => by norm_num [exS]⟩
  simp only [exS]
  split <;> norm_num

theorem exCmds_ok : ∀ c ∈ exCmds, CmdOk c := by
  intro c hc
  simp only [exCmds, List.mem_cons, List.not_mem_nil, or_false] at hc
  rcases hc with rfl | rfl | rfl
  · exact ⟨fun x => exS_ok x _, fun p _ h => h, fun m => .refl _, by norm_num, by norm_num⟩
  · trivial
  · exact ⟨fun x => exS_ok x _, fun p _ h => div_pos h (by nlinarith [mul_self_nonneg p.st.x]), fun m => .refl _, by norm_num, by norm_num⟩

/-- The run is defined: two particles, both copies of the first after resampling, and two landmarks in each map. -/
example : ((exec exCfg exT exMaha GMProps.srtQ exCmds (ctor 2 0 false)).toOption.map fun f => f.parts.map fun p => ((p.parent : ℚ) :: p.w :: p.st.map.map fun c => c.w)) =
    some [[0, 1, 11/24, 11/24], [0, 1, 11/24, 11/24]] := by decide +kernel

example : measurements exCmds = 4 ∧ birthChecks exCmds = 1 ∧ updates exCmds = 2 := ⟨rfl, rfl, rfl⟩

end PHDRProps
end RFS
