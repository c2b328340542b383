import Verif.Lemmas.PHD

/-!
Properties C43-C47, C75, C76: map update, births and bookkeeping of the RB-PHD filter.
-/

set_option linter.unusedSectionVars false

namespace RFS
namespace PHDProps
open PHD

variable {T Z K X : Type*} [Field K] [LinearOrder K] [IsStrictOrderedRing K]

/-! ### Specification -/

/-- Expected number of detections of landmark `c` that explain measurement `z`: detection probability (one near the sensing limit) times weight
times likelihood, counted only within the gate `d ≤ thr` on the Mahalanobis distance. -/
def explains (s : Sensor T Z K) (thr : K) (c : Comp T K) (z : Z) : K :=
  if (s.kf c.lm z).2.2 ≤ thr * thr then (if (s.pd c.lm).2 then 1 else (s.pd c.lm).1) * c.w * (s.kf c.lm z).2.1 else 0

theorem entry_eq (s : Sensor T Z K) (thr : K) (c : Comp T K) (z : Z) : (entry s thr c z).2 = explains s thr c z := by
  unfold entry explains
  simp only
  change _ = if _ then Pd s c.lm * c.w * (s.kf c.lm z).2.1 else 0
  split_ifs with h1 h2 h3 h4
  · rcases h2 with h2 | h2
    · rw [h2, mul_zero]
    · exact absurd h3 (not_le.2 h2)
  · rfl
  · rfl
  · push Not at h2; exact absurd h2.2 h4
  · rw [not_not.1 h1, zero_mul, zero_mul]
  · rfl

/-! ### C43 -/

/-- The components added, with the index of the measurement each was created for. -/
def tagged (s : Sensor T Z K) (thr : K) (map : List (Comp T K)) (Zs : List Z) (l : List (Comp T K)) (k : Nat) : List (Nat × Comp T K) :=
  l.flatMap fun c => (Zs.zipIdx k).filterMap fun q => (newComp s thr map Zs.length c q.1).map fun e => (q.2, e)

theorem tag_row (g : Z → Option (Comp T K)) : ∀ (Zs : List Z) (k i : Nat),
    ((((Zs.zipIdx k).filterMap fun q => (g q.1).map fun e => (q.2, e)).filter fun p => decide (p.1 = k + i)).map fun p => p.2.w).sum =
      ((Zs[i]?.bind g).map Comp.w).getD 0 := by
  intro Zs
  have hnone : ∀ (Zs : List Z) (k j : Nat), j < k →
      (((Zs.zipIdx k).filterMap fun q => (g q.1).map fun e => (q.2, e)).filter fun p => decide (p.1 = j)) = [] := by
    intro Zs k j hj
    rw [List.filter_eq_nil_iff]
    intro p hp
    obtain ⟨q, hq, hqp⟩ := List.mem_filterMap.1 hp
    obtain ⟨e, -, rfl⟩ := Option.map_eq_some_iff.1 hqp
    have := List.le_snd_of_mem_zipIdx hq
    simp only [decide_eq_true_eq]
    omega
  induction Zs with
  | nil => intro k i; simp
  | cons z Zs ih =>
    intro k i
    rw [List.zipIdx_cons]
    cases i with
    | zero =>
      rw [List.filterMap_cons]
      cases hg : g z with
      | none => simp [hg, hnone Zs (k + 1) k (by omega)]
      | some e =>
        simp only [Option.map_some, Nat.add_zero, List.filter_cons, decide_true, if_true, List.map_cons, List.sum_cons, List.getElem?_cons_zero,
          Option.bind_some, hg, Option.getD_some]
        rw [hnone Zs (k + 1) k (by omega)]
        simp
    | succ i =>
      have e1 := ih (k + 1) i
      rw [show k + 1 + i = k + (i + 1) from by omega] at e1
      rw [List.getElem?_cons_succ, ← e1, List.filterMap_cons]
      cases hg : g z with
      | none => simp
      | some e => simp [List.filter_cons]

theorem tag_sum (s : Sensor T Z K) (thr : K) (map : List (Comp T K)) (Zs : List Z) (l : List (Comp T K)) (i : Nat) :
    (((tagged s thr map Zs l 0).filter fun p => decide (p.1 = i)).map fun p => p.2.w).sum =
      (l.map fun c => ((Zs[i]?.bind (newComp s thr map Zs.length c)).map Comp.w).getD 0).sum := by
  induction l with
  | nil => simp [tagged]
  | cons c l ih =>
    have : tagged s thr map Zs (c :: l) 0 = ((Zs.zipIdx 0).filterMap fun q => (newComp s thr map Zs.length c q.1).map fun e => (q.2, e)) ++ tagged s thr map Zs l 0 := by
      simp [tagged]
    rw [this, List.filter_append, List.map_append, List.sum_append, ih, List.map_cons, List.sum_cons]
    have h := tag_row (newComp s thr map Zs.length c) Zs 0 i
    rw [Nat.zero_add] at h
    rw [h]

theorem tagged_snd (s : Sensor T Z K) (thr : K) (map : List (Comp T K)) (Zs : List Z) (l : List (Comp T K)) (k : Nat) :
    (tagged s thr map Zs l k).map Prod.snd = l.flatMap fun c => Zs.filterMap fun z => newComp s thr map Zs.length c z := by
  induction l with
  | nil => rfl
  | cons c l ih =>
    have : tagged s thr map Zs (c :: l) k = ((Zs.zipIdx k).filterMap fun q => (newComp s thr map Zs.length c q.1).map fun e => (q.2, e)) ++ tagged s thr map Zs l k := by
      simp [tagged]
    rw [this, List.map_append, ih, List.flatMap_cons]
    congr 1
    have hz : ∀ (Y : List Z) (k : Nat) (g : Z → Option (Comp T K)),
        (((Y.zipIdx k).filterMap fun q => (g q.1).map fun e => (q.2, e)).map Prod.snd) = Y.filterMap g := by
      intro Y
      induction Y with
      | nil => intro k g; rfl
      | cons y Y ih2 =>
        intro k g
        rw [List.zipIdx_cons, List.filterMap_cons, List.filterMap_cons]
        cases g y with
        | none => exact ih2 (k + 1) g
        | some e =>
          show e :: _ = e :: _
          congr 1
          exact ih2 (k + 1) g
    exact hz Zs k _

theorem updateMap_map (s : Sensor T Z K) (thr birthW : K) (map : List (Comp T K)) (Zs : List Z) :
    (updateMap s thr birthW map Zs).map =
      map.map (missed s thr birthW map Zs) ++ map.flatMap fun c => Zs.filterMap fun z => newComp s thr map Zs.length c z := by
  unfold updateMap
  split
  · rename_i h
    rw [List.length_eq_zero_iff.1 h]; rfl
  · rfl

/-- C43: the components created by the update can be attributed to measurements, each being the correction of a landmark of the map by
its measurement; those of one measurement `z` have total weight `S / (c + S)`, where `S` is what the map explains of `z` and `c` is the clutter
intensity, and so at most one. -/
theorem C43_new_components (s : Sensor T Z K) (thr birthW : K) (map : List (Comp T K)) (Zs : List Z) (h : Nonneg s map Zs) :
    ∃ (old : List (Comp T K)) (new : List (Nat × Comp T K)), (updateMap s thr birthW map Zs).map = old ++ new.map Prod.snd ∧
      old.map Comp.lm = map.map Comp.lm ∧
      (∀ q ∈ new, ∃ z, Zs[q.1]? = some z ∧ ∃ c ∈ map, q.2.lm = (s.kf c.lm z).1 ∧ 0 < explains s thr c z) ∧
      ∀ i z, Zs[i]? = some z →
        let S := (map.map fun c => explains s thr c z).sum
        let total := ((new.filter fun q => decide (q.1 = i)).map fun q => q.2.w).sum
        total * (s.clutter z Zs.length + S) = S ∧ total ≤ 1 ∧ (S = 0 → total = 0) := by
  refine ⟨map.map (missed s thr birthW map Zs), tagged s thr map Zs map 0, ?_, ?_, ?_, ?_⟩
  · rw [updateMap_map, tagged_snd]
  · rw [List.map_map]; rfl
  · intro q hq
    obtain ⟨c, hc, hq⟩ := List.mem_flatMap.1 hq
    obtain ⟨r, hr, hrq⟩ := List.mem_filterMap.1 hq
    obtain ⟨e, he, rfl⟩ := Option.map_eq_some_iff.1 hrq
    have hz : Zs[r.2]? = some r.1 := by
      have := List.mem_zipIdx hr
      rw [List.getElem?_eq_some_iff]
      exact ⟨by omega, by simpa using this.2.2.symm⟩
    refine ⟨r.1, hz, c, hc, ?_⟩
    unfold newComp at he
    split at he
    · cases he
    · rename_i l hl
      split at he
      · rename_i hw
        cases he
        refine ⟨?_, ?_⟩
        · unfold entry at hl
          simp only at hl
          split_ifs at hl
          simpa using hl.symm
        · rw [← entry_eq]
          refine lt_of_le_of_ne (entry_nonneg h thr c hc _) fun h0 => ?_
          rw [wTab_zero _ _ _ _ _ _ h0.symm] at hw
          exact lt_irrefl _ hw
      · cases he
  · intro i z hz S total
    have hzm : z ∈ Zs := List.mem_of_getElem? hz
    have ht : total = (map.map fun c => wTab s thr map Zs.length c z).sum := by
      refine (tag_sum s thr map Zs map i).trans ?_
      rw [hz]
      congr 1
      refine List.map_congr_left fun c hc => ?_
      exact newComp_weight h thr c hc z hzm
    have hS : S = (map.map fun c => (entry s thr c z).2).sum := by
      show (map.map fun c => explains s thr c z).sum = _
      congr 1
      exact List.map_congr_left fun c _ => (entry_eq s thr c z).symm
    have hS0 : 0 ≤ S := by
      rw [hS]
      refine List.sum_nonneg fun x hx => ?_
      obtain ⟨c, hc, rfl⟩ := List.mem_map.1 hx
      exact entry_nonneg h thr c hc z
    have hc0 := h.clut z hzm
    have hcol : colSum s thr map Zs.length z = s.clutter z Zs.length + S := by rw [colSum_eq, hS]
    by_cases hne : colSum s thr map Zs.length z = 0
    · have hS' : S = 0 := by linarith
      have ht0 : total = 0 := by
        rw [ht]
        refine List.sum_eq_zero fun x hx => ?_
        obtain ⟨c, hc, rfl⟩ := List.mem_map.1 hx
        refine wTab_zero _ _ _ _ _ _ ?_
        refine le_antisymm ?_ (entry_nonneg h thr c hc z)
        have := List.single_le_sum (l := map.map fun c => (entry s thr c z).2) (by
          intro x hx
          obtain ⟨c, hc, rfl⟩ := List.mem_map.1 hx
          exact entry_nonneg h thr c hc z) _ (List.mem_map_of_mem hc)
        rw [← hS, hS'] at this
        exact this
      rw [ht0, hS']
      simp
    · have htot : total = S / (s.clutter z Zs.length + S) := by
        rw [ht, hS, ← sum_map_div]
        congr 1
        refine List.map_congr_left fun c _ => ?_
        unfold wTab
        rw [if_pos hne, hcol, hS]
      rw [hcol] at hne
      have hpos : 0 < s.clutter z Zs.length + S := lt_of_le_of_ne (add_nonneg hc0 hS0) (Ne.symm hne)
      refine ⟨by rw [htot]; field_simp, ?_, fun h0 => by rw [htot, h0, zero_div]⟩
      rw [htot, div_le_one hpos]
      linarith

/-- C43: no weight becomes negative. -/
theorem C43_nonneg (s : Sensor T Z K) (thr birthW : K) (map : List (Comp T K)) (Zs : List Z) (h : Nonneg s map Zs) :
    ∀ c ∈ (updateMap s thr birthW map Zs).map, 0 ≤ c.w := by
  intro c hc
  rw [updateMap_map] at hc
  rcases List.mem_append.1 hc with hc | hc
  · obtain ⟨d, hd, rfl⟩ := List.mem_map.1 hc
    have h1 : 0 ≤ (1 - Pd s d.lm) * d.w := mul_nonneg (by linarith [Pd_le h d.lm]) (h.w d hd)
    unfold missed
    simp only
    split_ifs
    · exact zero_le_one
    · linarith
    · exact h1
    · exact h1
  · obtain ⟨d, hd, hc⟩ := List.mem_flatMap.1 hc
    obtain ⟨z, hz, he⟩ := List.mem_filterMap.1 hc
    unfold newComp at he
    split at he
    · cases he
    · split at he
      · rename_i hw; cases he; exact hw.le
      · cases he

/-- C43: the components of the map keep their places; a component that is not near the sensing limit keeps the fraction `1 - Pd` of its weight, hence
all of it outside the field of view; near the limit it never gains weight. -/
theorem C43_missed_detection (s : Sensor T Z K) (thr birthW : K) (map : List (Comp T K)) (Zs : List Z) (h : Nonneg s map Zs) (m : Nat) (c : Comp T K)
    (hm : map[m]? = some c) : ∃ c', (updateMap s thr birthW map Zs).map[m]? = some c' ∧ c'.lm = c.lm ∧ c'.w ≤ c.w ∧
      ((s.pd c.lm).2 = false → c'.w = (1 - (s.pd c.lm).1) * c.w) ∧ ((s.pd c.lm).2 = false → (s.pd c.lm).1 = 0 → c'.w = c.w) := by
  have hml : m < map.length := (List.getElem?_eq_some_iff.1 hm).1
  have hcm : c ∈ map := List.mem_of_getElem? hm
  refine ⟨missed s thr birthW map Zs c, ?_, rfl, ?_, ?_, ?_⟩
  · rw [updateMap_map, List.getElem?_append_left (by simpa using hml), List.getElem?_map, hm]
    rfl
  · have hw := h.w c hcm
    have h1 := Pd_nonneg h c.lm
    have h2 : (1 - Pd s c.lm) * c.w ≤ c.w := by nlinarith
    have h3 : 0 ≤ Zs.foldl (fun a z => a + wTab s thr map Zs.length c z) 0 := by
      rw [foldl_add, zero_add]
      refine List.sum_nonneg fun x hx => ?_
      obtain ⟨z, hz, rfl⟩ := List.mem_map.1 hx
      exact wTab_nonneg h thr c hcm z hz
    unfold missed
    simp only
    split_ifs
    · linarith
    · linarith
    · exact h2
    · exact h2
  · intro hf
    unfold missed Pd
    simp [hf]
  · intro hf h0
    unfold missed Pd
    simp [hf, h0]

/-- A sensor that sees landmark 0 with probability 1/2 and nothing of landmark 1. -/
def exSensor : Sensor Nat Nat Rat :=
  ⟨fun l => (if l = 0 then 1 / 2 else 0, false), fun l z => (l + 10 * z, if l = 0 then 1 else 0, 0), fun _ _ => 1 / 4⟩

example : Nonneg exSensor [⟨0, 1, 0⟩, ⟨1, 1, 0⟩] [1, 2] := by
  refine ⟨fun l => ?_, fun l => ?_, fun l z => ?_, fun z _ => ?_, fun c hc => ?_⟩
  · unfold exSensor; simp only; split <;> norm_num
  · unfold exSensor; simp only; split <;> norm_num
  · unfold exSensor; simp only; split <;> norm_num
  · show (0 : Rat) ≤ 1 / 4; norm_num
  · simp at hc; rcases hc with rfl | rfl <;> norm_num

/-- The map after one update: landmark 0 loses half its weight, landmark 1 nothing, and the two measurements each add weight 2/3. -/
example : (updateMap exSensor 1 (1/10) [⟨0, 1, 0⟩, ⟨1, 1, 0⟩] [1, 2]).map = [⟨0, 1/2, 1⟩, ⟨1, 1, 1⟩, ⟨10, 2/3, 0⟩, ⟨20, 2/3, 0⟩] := by
  decide +kernel

/-! ### C75 -/

/-- C75: the previous weights recorded by the update reproduce the intensity before the update, at every point: for every function `g` of a
landmark, its sum over the updated map with the recorded weights is its sum over the old map. -/
theorem C75_prior_intensity (s : Sensor T Z K) (thr birthW : K) (map : List (Comp T K)) (Zs : List Z) (g : T → K) :
    ((updateMap s thr birthW map Zs).map.map fun c => c.wp * g c.lm).sum = (map.map fun c => c.w * g c.lm).sum := by
  rw [updateMap_map, List.map_append, List.sum_append, List.map_map]
  have : ((map.flatMap fun c => Zs.filterMap fun z => newComp s thr map Zs.length c z).map fun c => c.wp * g c.lm).sum = 0 := by
    refine List.sum_eq_zero fun x hx => ?_
    obtain ⟨c, hc, rfl⟩ := List.mem_map.1 hx
    obtain ⟨d, hd, hc⟩ := List.mem_flatMap.1 hc
    obtain ⟨z, hz, he⟩ := List.mem_filterMap.1 hc
    unfold newComp at he
    split at he
    · cases he
    · split at he
      · cases he; simp
      · cases he
  rw [this, add_zero]
  rfl

/-! ### C76 -/

/-- C76: the measurements kept for births are, in order and each once, exactly those no landmark of the map explains. -/
theorem C76_unused (s : Sensor T Z K) (thr birthW : K) (map : List (Comp T K)) (Zs : List Z) (h : Nonneg s map Zs) :
    (updateMap s thr birthW map Zs).unused.Pairwise (· < ·) ∧
    ∀ i, i ∈ (updateMap s thr birthW map Zs).unused ↔ ∃ z, Zs[i]? = some z ∧ ∀ c ∈ map, explains s thr c z = 0 := by
  unfold updateMap
  split
  · rename_i h0
    have : map = [] := List.length_eq_zero_iff.1 h0
    subst this
    refine ⟨List.pairwise_lt_range, fun i => ?_⟩
    simp only [List.mem_range, List.not_mem_nil, false_imp_iff, implies_true, and_true]
    exact ⟨fun h => ⟨_, List.getElem?_eq_getElem h⟩, fun ⟨z, hz⟩ => (List.getElem?_eq_some_iff.1 hz).1⟩
  · refine ⟨List.pairwise_lt_range.filter _, fun i => ?_⟩
    simp only [List.mem_filter, List.mem_range]
    constructor
    · rintro ⟨hi, hz⟩
      rw [List.getElem?_eq_getElem hi] at hz ⊢
      refine ⟨_, rfl, fun c hc => ?_⟩
      simp only [Bool.not_eq_true', List.any_eq_false, decide_eq_true_eq, not_not] at hz
      have hw := hz c hc
      rw [← entry_eq]
      unfold wTab at hw
      split at hw
      · rename_i hne
        exact (div_eq_zero_iff.1 hw).resolve_right hne
      · exact hw
    · rintro ⟨z, hz, hc⟩
      have hi := (List.getElem?_eq_some_iff.1 hz).1
      refine ⟨hi, ?_⟩
      rw [hz]
      simp only [Bool.not_eq_true', List.any_eq_false, decide_eq_true_eq, not_not]
      intro c hcm
      exact wTab_zero _ _ _ _ _ _ ((entry_eq s thr c z).trans (hc c hcm))

example : (updateMap exSensor 1 (1/10) [⟨1, 1, 0⟩] [1, 2]).unused = [0, 1] := by decide +kernel

/-! ### C44 -/

/-- C44 (partial): every scan with at least one measurement lowers the weight of an in-view landmark to its missed detection weight (before
merging and pruning, `tidy`). Missing: empty scans, which are ignored (`C44_violated`). -/
theorem C44_nonempty_scan_partial (s : Sensor T Z K) (thr birthW : K) (map : List (Comp T K)) (Zs : List Z) (h : Nonneg s map Zs) (m : Nat)
    (c : Comp T K) (hm : map[m]? = some c) (hw : 0 < c.w) (hpd : 0 < (s.pd c.lm).1) (hlim : (s.pd c.lm).2 = false) :
    ∃ c', (updateMap s thr birthW map Zs).map[m]? = some c' ∧ c'.w < c.w := by
  obtain ⟨c', e, -, -, h1, -⟩ := C43_missed_detection s thr birthW map Zs h m c hm
  refine ⟨c', e, ?_⟩
  rw [h1 hlim]
  nlinarith [mul_pos hpd hw]

/-- An empty scan leaves every particle as it is, whatever the models. -/
theorem C44_violated (cfg : Cfg K) (s : X → Sensor T Z K) (weigh : PF.Part (PState X T K) K → PF.Part (PState X T K) K → K)
    (tidy : List (Comp T K) → List (Comp T K)) (t tp r : K) (f : Filt X T Z K) :
    ∃ f', update cfg s weigh tidy t tp r [] f = .ok f' ∧ f'.parts = f.parts := ⟨_, rfl, rfl⟩

/-- The landmark 0 of weight 1 is in view with detection probability below 1, away from the limit. -/
example : ∃ c', (updateMap exSensor 1 (1/10) [⟨0, 1, 0⟩, ⟨1, 1, 0⟩] [1, 2]).map[0]? = some c' ∧ c'.w < 1 :=
  ⟨_, rfl, by decide +kernel⟩

/-! ### C45 -/

section
variable (cfg : Cfg K) (s : X → Sensor T Z K) (b : X → BSensor T Z)

/-- Histories of calls: `fresh` says that births were processed (or the filter constructed) after the last non-empty scan; `stale` allows empty scans
while there are unprocessed births. Models may change from call to call except for `s` and `b`. -/
inductive Hist (stale : Prop) : Bool → Filt X T Z K → Prop
  | ctor (n : Nat) (x0 : X) (r : Bool) : Hist stale true (ctor n x0 r)
  | predictBirth (fr : Bool) (f f' : Filt X T Z K) (move : Nat → PState X T K → PState X T K) :
      Hist stale fr f → predict cfg b move true f = .ok f' → Hist stale true f'
  | predict (fr : Bool) (f f' : Filt X T Z K) (move : Nat → PState X T K → PState X T K) :
      Hist stale fr f → predict cfg b move false f = .ok f' → Hist stale fr f'
  | update (fr : Bool) (f f' : Filt X T Z K) (weigh : PF.Part (PState X T K) K → PF.Part (PState X T K) K → K)
      (tidy : List (Comp T K) → List (Comp T K)) (t tp r : K) (Zs : List Z) :
      Hist stale fr f → Zs ≠ [] → update cfg s weigh tidy t tp r Zs f = .ok f' → Hist stale false f'
  | empty (fr : Bool) (f f' : Filt X T Z K) (weigh : PF.Part (PState X T K) K → PF.Part (PState X T K) K → K)
      (tidy : List (Comp T K) → List (Comp T K)) (t tp r : K) :
      Hist stale fr f → (fr = true ∨ stale) → update cfg s weigh tidy t tp r [] f = .ok f' → Hist stale fr f'

theorem update_ok {cfg : Cfg K} {s : X → Sensor T Z K} {weigh : PF.Part (PState X T K) K → PF.Part (PState X T K) K → K}
    {tidy : List (Comp T K) → List (Comp T K)} {t tp r : K} {Zs : List Z} {f f' : Filt X T Z K} (hZ : Zs ≠ [])
    (h : update cfg s weigh tidy t tp r Zs f = .ok f') : f'.meas = Zs ∧ f'.parts.length = f.parts.length ∧ f'.births = f.births ∧
      f'.unused = (f.parts.map fun p => updateMap (s p.st.x) cfg.mdThr cfg.birthW p.st.map Zs).map Upd.unused ∧
      f'.nFOV = (f.parts.map fun p => updateMap (s p.st.x) cfg.mdThr cfg.birthW p.st.map Zs).map Upd.nFOV := by
  unfold update at h
  rw [if_neg (by rwa [List.length_eq_zero_iff])] at h
  simp only at h
  split at h
  · split at h
    · cases h
    · rename_i P hr
      cases h
      exact ⟨rfl, by simpa using resample_length _ _ _ _ _ _ _ hr, rfl, rfl, rfl⟩
    · rename_i P hr
      cases h
      exact ⟨rfl, by simpa [PF.normalizeWeights] using resample_length _ _ _ _ _ _ _ hr, rfl, rfl, rfl⟩
  · cases h
    exact ⟨rfl, by simp [PF.normalizeWeights], rfl, rfl, rfl⟩

theorem unused_lt (s : Sensor T Z K) (thr birthW : K) (map : List (Comp T K)) (Zs : List Z) : ∀ i ∈ (updateMap s thr birthW map Zs).unused, i < Zs.length := by
  intro i hi
  unfold updateMap at hi
  split at hi
  · exact List.mem_range.1 hi
  · exact List.mem_range.1 (List.mem_filter.1 hi).1

theorem hist_inv {fr : Bool} {f : Filt X T Z K} (h : Hist cfg s b False fr f) : Valid f ∧ f.unused.length = f.parts.length ∧
    (fr = true → ∀ u ∈ f.unused, u = []) := by
  induction h with
  | ctor n x0 r =>
    have he : ∀ u ∈ (ctor n x0 r : Filt X T Z K).unused, u = [] := fun u hu => List.eq_of_mem_replicate hu
    exact ⟨fun u hu i hi => by rw [he u hu] at hi; simp at hi, by simp [ctor, PF.addParticles], fun _ => he⟩
  | predictBirth fr f f' move hf hp ih =>
    obtain ⟨hv, hl, -⟩ := ih
    unfold predict at hp
    rw [if_pos rfl] at hp
    split at hp
    · cases hp
    · rename_i g hg
      cases hp
      have hg' : birthN cfg b f f.parts.length = .ok g := hg
      obtain ⟨a1, a2, -, -, -, -, -, a8⟩ := birthN_frame _ _ hg'
      refine ⟨(birthN_err hv _).2 g hg', by simp [a1, a2, hl], fun _ u hu => ?_⟩
      obtain ⟨j, hj, rfl⟩ := List.getElem_of_mem hu
      have hj' : j < f.parts.length := by rw [← hl, ← a2]; exact hj
      have := a8 j hj'
      rw [List.getElem?_eq_getElem hj] at this
      exact Option.some.inj this
  | predict fr f f' move hf hp ih =>
    obtain ⟨hv, hl, he⟩ := ih
    unfold predict at hp
    rw [if_neg (by simp)] at hp
    cases hp
    exact ⟨hv, by simp [hl], he⟩
  | update fr f f' weigh tidy t tp r Zs hf hZ hu ih =>
    obtain ⟨e1, e2, -, e3, -⟩ := update_ok hZ hu
    refine ⟨?_, by rw [e2, e3]; simp, by simp⟩
    intro u hu i hi
    rw [e3] at hu
    obtain ⟨q, hq, rfl⟩ := List.mem_map.1 hu
    obtain ⟨p, hp, rfl⟩ := List.mem_map.1 hq
    rw [e1]
    exact unused_lt _ _ _ _ _ i hi
  | empty fr f f' weigh tidy t tp r hf hfr hu ih =>
    obtain ⟨hv, hl, he⟩ := ih
    have hfr' : fr = true := hfr.resolve_right id
    cases hu
    have hu := he hfr'
    exact ⟨fun u h i hi => by rw [hu u h] at hi; simp at hi, hl, he⟩

/-- C45 (partial): the birth step never reads a measurement that does not exist, in every history in which births are processed between a
non-empty scan and a following empty one. Missing: an empty scan right after a non-empty one (`C45_violated`). -/
theorem C45_indices_valid_partial (fr : Bool) (f : Filt X T Z K) (h : Hist cfg s b False fr f) (move : Nat → PState X T K → PState X T K) (check : Bool) :
    predict cfg b move check f ≠ .error .meas := by
  obtain ⟨hv, -, -⟩ := hist_inv cfg s b h
  intro hp
  unfold predict at hp
  split at hp
  · rename_i e he
    cases hp
    split at he
    · exact (birthN_err hv _).1 he
    · cases he
  · cases hp
end

/-- Thresholds of the examples: two supporting measurements, dropped after three checks, births only by evidence when a landmark is in view. -/
def exCfg : Cfg Rat := ⟨1/4, 2, 3, 0, 1, 5, 0⟩
/-- Births of the examples: a landmark is the measurement it came from. -/
def exB : Unit → BSensor Nat Nat := fun _ => ⟨fun l z => l == z, fun l _ => l, fun z => z⟩
def exS : Unit → Sensor Nat Nat Rat := fun _ => ⟨fun _ => (1/2, false), fun l z => (l, if l = z then 1 else 0, 0), fun _ _ => 1/4⟩

/-- One measurement, then an empty scan, then `predict`: measurement 0 of the empty set is read. -/
theorem C45_violated : ∃ (fr : Bool) (f : Filt Unit Nat Nat Rat), Hist exCfg exS exB True fr f ∧
    predict exCfg exB (fun _ p => p) true f = .error .meas := by
  obtain ⟨f1, h1⟩ : ∃ f1, update exCfg exS (fun p _ => p.w) id 0 0 0 [7] (ctor 1 () false) = .ok f1 := ⟨_, rfl⟩
  obtain ⟨f2, h2⟩ : ∃ f2, update exCfg exS (fun p _ => p.w) id 0 0 0 [] f1 = .ok f2 := ⟨_, rfl⟩
  refine ⟨_, f2, Hist.empty _ f1 f2 _ _ _ _ _ (Hist.update _ _ f1 _ _ _ _ _ [7] (Hist.ctor 1 () false) (by simp) h1) (Or.inr trivial) h2, ?_⟩
  cases h1
  cases h2
  rfl

/-- A run that meets the hypothesis: a scan, then a prediction with births. -/
example : ∃ f : Filt Unit Nat Nat Rat, Hist exCfg exS exB False false f ∧ (predict exCfg exB (fun _ p => p) true f).toOption.isSome = true := by
  obtain ⟨f1, h1⟩ : ∃ f1, update exCfg exS (fun p _ => p.w) id 0 0 0 [7] (ctor 1 () false) = .ok f1 := ⟨_, rfl⟩
  refine ⟨f1, Hist.update _ _ f1 _ _ _ _ _ [7] (Hist.ctor 1 () false) (by simp) h1, ?_⟩
  cases h1
  rfl

/-! ### C46 -/

/-- The condition under which the code adds a candidate to the map: enough support, or few landmarks in view. -/
def Supported (cfg : Cfg K) (nv : Nat) (c : Cand T) : Prop := cfg.countThr ≤ c.sup ∨ nv ≤ cfg.curThr

instance (cfg : Cfg K) (nv : Nat) (c : Cand T) : Decidable (Supported cfg nv c) := by unfold Supported; infer_instance

/-- The condition under which a candidate is given up: too many checks, this one included. -/
def Expired (cfg : Cfg K) (c : Cand T) : Prop := cfg.checkThr < c.chk + 1

instance (cfg : Cfg K) (c : Cand T) : Decidable (Expired cfg c) := by unfold Expired; infer_instance

theorem promote_eq (cfg : Cfg K) (nv : Nat) (c : Cand T) (map : List (Comp T K)) :
    promote cfg nv c map = map ++ if Supported cfg nv c then [⟨c.lm, cfg.birthW, 0⟩] else [] := by
  unfold promote Supported
  by_cases h1 : cfg.countThr ≤ c.sup <;> by_cases h2 : nv ≤ cfg.curThr <;> simp [h1, h2]

theorem promoteAll_due (cfg : Cfg K) (nv : Nat) (l : List (Cand T)) (map : List (Comp T K)) :
    promoteAll cfg nv ((l.map inc).filter (due cfg nv)) map =
      map ++ (l.filter fun c => decide (Supported cfg nv c)).map fun c => ⟨c.lm, cfg.birthW, 0⟩ := by
  induction l generalizing map with
  | nil => simp [promoteAll]
  | cons c l ih =>
    rw [List.map_cons, List.filter_cons, List.filter_cons]
    by_cases hs : Supported cfg nv c
    · have hd : due cfg nv (inc c) = true := by
        unfold due
        simp only [decide_eq_true_eq]
        rcases hs with h | h
        · exact Or.inl h
        · exact Or.inr (Or.inr h)
      rw [if_pos hd, if_pos (by simpa using hs)]
      show promoteAll cfg nv _ (promote cfg nv (inc c) map) = _
      rw [ih, promote_eq, if_pos (show Supported cfg nv (inc c) from hs)]
      simp [inc]
    · rw [if_neg (c := decide (Supported cfg nv c) = true) (by simpa using hs)]
      split
      · show promoteAll cfg nv _ (promote cfg nv (inc c) map) = _
        rw [ih, promote_eq, if_neg (show ¬ Supported cfg nv (inc c) from hs), List.append_nil]
      · rw [ih]

theorem due_inc (cfg : Cfg K) (nv : Nat) (c : Cand T) : due cfg nv (inc c) = decide (Supported cfg nv c ∨ Expired cfg c) := by
  unfold due Supported Expired inc
  congr 1
  simp only [eq_iff_iff]
  tauto

/-- C46 (partial): when the last candidate stays, the sweep adds to the map exactly the supported candidates, in order, keeps exactly those neither
supported nor expired, with one more check, and drops the rest. Missing: lists whose last candidate leaves (`C46_violated`). -/
theorem C46_sweep_partial (cfg : Cfg K) (nv : Nat) (cands : List (Cand T)) (map : List (Comp T K))
    (hlast : ∀ c, cands.getLast? = some c → ¬ Supported cfg nv c ∧ ¬ Expired cfg c) :
    sweep cfg nv cands map = .ok (map ++ (cands.filter fun c => decide (Supported cfg nv c)).map (fun c => ⟨c.lm, cfg.birthW, 0⟩),
      (cands.filter fun c => !decide (Supported cfg nv c) && !decide (Expired cfg c)).map fun c => ⟨c.lm, c.sup, c.chk + 1⟩) := by
  unfold sweep
  rw [sweepFor_spec _ _ _ _ _ _ (le_refl _), if_neg, promoteAll_due]
  · congr 2
    rw [List.nil_append, List.filter_map]
    congr 1
    refine List.filter_congr fun c _ => ?_
    show (!due cfg nv (inc c)) = _
    rw [due_inc]
    by_cases h1 : Supported cfg nv c <;> by_cases h2 : Expired cfg c <;> simp [h1, h2]
  · rw [List.getLast?_map]
    cases h : cands.getLast? with
    | none => simp
    | some c =>
      obtain ⟨h1, h2⟩ := hlast c h
      simp [due_inc, h1, h2]

/-- The sweep increments the end iterator whenever the last candidate is promoted or dropped. -/
theorem C46_violated (cfg : Cfg K) (nv : Nat) (cands : List (Cand T)) (c : Cand T) (map : List (Comp T K)) (h : Supported cfg nv c ∨ Expired cfg c) :
    sweep cfg nv (cands ++ [c]) map = .error .iter := by
  unfold sweep
  rw [sweepFor_spec _ _ _ _ _ _ (le_refl _), if_pos]
  rw [List.map_append, List.map_cons, List.map_nil, List.getLast?_append]
  simp [due_inc, h]

example : sweep exCfg 1 [⟨5, 2, 0⟩, ⟨6, 1, 3⟩, ⟨7, 1, 0⟩] ([] : List (Comp Nat Rat)) = .ok ([⟨5, 1/4, 0⟩], [⟨7, 1, 1⟩]) := by decide +kernel

/-! ### C47 -/

/-- The birth step of one particle alone, from its pose and map, the unused measurements and the candidates. -/
def births (cfg : Cfg K) (b : X → BSensor T Z) (nv : Nat) (meas : List Z) (p : PState X T K) (u : List Nat) (c : List (Cand T)) :
    Except Err (List (Comp T K) × List (Cand T)) :=
  match birthLoop cfg (b p.x) nv meas u.reverse (p.map, c) with
  | .error e => .error e
  | .ok r => sweep cfg nv r.2 r.1

/-- The particle whose lists particle `i` should start from. -/
def source (f : Filt X T Z K) (i : Nat) (p : PF.Part (PState X T K) K) : Nat := if f.resampled = true then p.parent else i

/-- C47 (partial): when no particle was copied from one with a smaller index, every particle starts from the unused measurements and candidates
its source had before the call. Missing: copies from smaller indices (`C47_violated`), and calls after the first (`C47_violated_repeat`). -/
theorem C47_inheritance_partial (cfg : Cfg K) (b : X → BSensor T Z) (f f' : Filt X T Z K)
    (hup : ∀ i p, f.parts[i]? = some p → i ≤ source f i p) (h : addBirthGaussians cfg b f = .ok f') (i : Nat) (p : PF.Part (PState X T K) K)
    (hp : f.parts[i]? = some p) : ∃ u c nv m' c', f.unused[source f i p]? = some u ∧ f.births[source f i p]? = some c ∧ f.nFOV[i]? = some nv ∧
      births cfg b nv f.meas p.st u c = .ok (m', c') ∧ f'.parts[i]? = some { p with st := ⟨p.st.x, m'⟩ } ∧ f'.births[i]? = some c' := by
  have hN : ∀ n g, birthN cfg b f n = .ok g → ∀ i < n, ∀ p, f.parts[i]? = some p → ∃ u c nv m' c', f.unused[source f i p]? = some u ∧
      f.births[source f i p]? = some c ∧ f.nFOV[i]? = some nv ∧ births cfg b nv f.meas p.st u c = .ok (m', c') ∧
      g.parts[i]? = some { p with st := ⟨p.st.x, m'⟩ } ∧ g.births[i]? = some c' := by
    intro n
    induction n with
    | zero => intro g _ i hi; omega
    | succ n ih =>
      intro g' hg' i hi p hp
      obtain ⟨g, hg, hb⟩ := birthN_ok hg'
      obtain ⟨-, -, -, a4, a5, a6, a7, -⟩ := birthN_frame _ _ hg
      by_cases hin : i = n
      · subst hin
        obtain ⟨k, q, u, c, nv, m1, c1, m2, c2, hk, hq, hu, hc, hn, hl, hs, rfl⟩ := birthParticle_ok hb
        obtain ⟨q', hq', hcase⟩ := inherit_ok hk
        have hpq' : q' = p := by rw [(a7 i (le_refl _)).1, hp] at hq'; exact (Option.some.inj hq').symm
        subst hpq'
        have hsrc := hup i q' hp
        rcases hcase with ⟨hr, hne, u', c', hu', hc', rfl⟩ | ⟨hn', rfl⟩
        · have hs' : source f i q' = q'.parent := by unfold source; rw [if_pos (a6 ▸ hr)]
          rw [hs'] at hsrc ⊢
          have hui : i < g.unused.length := by have := (List.getElem?_eq_some_iff.1 hu).1; simpa using this
          have hbi : i < g.births.length := by have := (List.getElem?_eq_some_iff.1 hc).1; simpa using this
          have hq2 : q = q' := Option.some.inj (hq.symm.trans hq')
          subst hq2
          have hu2 : u = u' := Option.some.inj (hu.symm.trans (List.getElem?_set_self hui))
          have hc2 : c = c' := Option.some.inj (hc.symm.trans (List.getElem?_set_self hbi))
          subst hu2; subst hc2
          refine ⟨u, c, nv, m2, c2, ?_, ?_, ?_, ?_, ?_, ?_⟩
          · rw [← (a7 _ hsrc).2.1]; exact hu'
          · rw [← (a7 _ hsrc).2.2]; exact hc'
          · rw [← a4]; exact hn
          · unfold births
            rw [← a5]
            change birthLoop cfg (b q.st.x) nv g.meas u.reverse (q.st.map, c) = .ok (m1, c1) at hl
            rw [hl]
            exact hs
          · exact List.getElem?_set_self (List.getElem?_eq_some_iff.1 hq).1
          · exact List.getElem?_set_self (by simpa using hbi)
        · have hs' : source f i q' = i := by
            unfold source
            split
            · rename_i hr
              by_contra hne
              exact hn' ⟨a6 ▸ hr, hne⟩
            · rfl
          have hq2 : q = q' := Option.some.inj (hq.symm.trans hq')
          subst hq2
          rw [hs']
          have hbi := (List.getElem?_eq_some_iff.1 hc).1
          refine ⟨u, c, nv, m2, c2, ?_, ?_, ?_, ?_, ?_, ?_⟩
          · rw [← (a7 _ (le_refl i)).2.1]; exact hu
          · rw [← (a7 _ (le_refl i)).2.2]; exact hc
          · rw [← a4]; exact hn
          · unfold births
            rw [← a5, hl]
            exact hs
          · exact List.getElem?_set_self (List.getElem?_eq_some_iff.1 hq).1
          · exact List.getElem?_set_self hbi
      · obtain ⟨u, c, nv, m', c', h1, h2, h3, h4, h5, h6⟩ := ih g hg i (by omega) p hp
        obtain ⟨-, -, -, -, -, -, b7, -⟩ := birthParticle_frame hb
        exact ⟨u, c, nv, m', c', h1, h2, h3, h4, by rw [(b7 i hin).1]; exact h5, by rw [(b7 i hin).2.2]; exact h6⟩
  exact hN _ f' h i (List.getElem?_eq_some_iff.1 hp).1 p hp

/-- Two particles, both copied from particle 0, which has an unused measurement. -/
def exFilt (c0 c1 : List (Cand Nat)) (u0 : List Nat) : Filt Unit Nat Nat Rat :=
  ⟨[⟨⟨(), []⟩, 0, 0, 1⟩, ⟨⟨(), []⟩, 0, 0, 1⟩], [7], [u0, []], [c0, c1], [0, 0], 0, 0, true⟩

/-- Particle 1, a copy of particle 0, gets no birth from the measurement left over by particle 0, since particle 0 consumed it. -/
theorem C47_violated : ∃ f', addBirthGaussians exCfg exB (exFilt [] [] [0]) = .ok f' ∧
    f'.parts.map (fun p => p.st.map) = [[⟨7, 1/4, 0⟩], []] ∧ births exCfg exB 0 [7] ⟨(), []⟩ [0] [] = .ok ([⟨7, 1/4, 0⟩], []) :=
  ⟨_, rfl, by decide +kernel, by decide +kernel⟩

/-- `resampleOccured_` stays set until the next non-empty scan: a second call again replaces the candidates of particle 1 by those of
particle 0, and what particle 1 gathered meanwhile is lost. -/
theorem C47_violated_repeat : ∃ f f' : Filt Unit Nat Nat Rat, update exCfg exS (fun p _ => p.w) id 0 0 0 [] (exFilt [⟨5, 1, 0⟩] [⟨6, 1, 0⟩] []) = .ok f ∧
    addBirthGaussians ⟨1/4, 2, 9, 0, 1, 0, 0⟩ exB { f with nFOV := [1, 1] } = .ok f' ∧ f.births = [[⟨5, 1, 0⟩], [⟨6, 1, 0⟩]] ∧
    f'.births = [[⟨5, 1, 1⟩], [⟨5, 1, 2⟩]] :=
  ⟨_, _, rfl, rfl, by decide +kernel, by decide +kernel⟩

/-- Without resampling every particle starts from its own lists, and the call succeeds. -/
example : (addBirthGaussians exCfg exB { exFilt [] [] [0] with resampled := false }).toOption.isSome = true ∧
    ∀ (i : Nat) p, source ({ exFilt [] [] [0] with resampled := false } : Filt Unit Nat Nat Rat) i p = i :=
  ⟨by decide +kernel, fun _ _ => rfl⟩

/-! ### C100 -/

theorem absorb_none (b : BSensor T Z) (z : Z) (cs : List (Cand T)) (h : ∀ c ∈ cs, b.near c.lm z = false) : absorb b z cs = none := by
  induction cs with
  | nil => rfl
  | cons c cs ih =>
    unfold absorb
    rw [if_neg (by rw [h c (by simp)]; simp), ih fun d hd => h d (by simp [hd])]
    rfl

theorem absorb_first (b : BSensor T Z) (z : Z) (pre post : List (Cand T)) (c : Cand T) (h : ∀ d ∈ pre, b.near d.lm z = false) (hc : b.near c.lm z = true) :
    absorb b z (pre ++ c :: post) = some (pre ++ ⟨b.corr c.lm z, c.sup + 1, c.chk⟩ :: post) := by
  induction pre with
  | nil => unfold absorb; simp [hc]
  | cons d pre ih =>
    rw [List.cons_append]
    unfold absorb
    rw [if_neg (by rw [h d (by simp)]; simp), ih fun x hx => h x (by simp [hx])]
    rfl

/-- **C100**, an unexplained measurement: the first candidate near it is corrected with it and gains one supporting measurement, all other candidates and the map
staying as they are; if no candidate is near, it becomes a landmark (one supporting measurement suffices, or few landmarks are in view) or a new candidate. -/
theorem C100_birth_step (cfg : Cfg K) (b : BSensor T Z) (nv : Nat) (map : List (Comp T K)) (z : Z) :
    (∀ pre c post, (∀ d ∈ pre, b.near d.lm z = false) → b.near c.lm z = true →
      birthStep cfg b nv (map, pre ++ c :: post) z = (map, pre ++ ⟨b.corr c.lm z, c.sup + 1, c.chk⟩ :: post)) ∧
    ∀ cs : List (Cand T), (∀ c ∈ cs, b.near c.lm z = false) →
      (cfg.countThr = 1 ∨ nv ≤ cfg.curThr → birthStep cfg b nv (map, cs) z = (map ++ [⟨b.inv z, cfg.birthW, 0⟩], cs)) ∧
      (cfg.countThr ≠ 1 → cfg.curThr < nv → birthStep cfg b nv (map, cs) z = (map, cs ++ [⟨b.inv z, 1, 0⟩])) := by
  refine ⟨fun pre c post h1 h2 => ?_, fun cs h => ⟨fun h1 => ?_, fun h1 h2 => ?_⟩⟩
  · unfold birthStep
    rw [absorb_first b z pre post c h1 h2]
  · unfold birthStep
    simp only
    rw [absorb_none b z cs h]
    exact if_pos h1
  · unfold birthStep
    simp only
    rw [absorb_none b z cs h]
    exact if_neg (by omega)

/-- **C100**, all of them: the unused measurements are processed one by one, last first, and each once. -/
theorem C100_birth_loop (cfg : Cfg K) (b : BSensor T Z) (nv : Nat) (meas : List Z) (u : List Nat) (h : ∀ i ∈ u, i < meas.length) (st : List (Comp T K) × List (Cand T)) :
    birthLoop cfg b nv meas u.reverse st = .ok ((u.filterMap fun i => meas[i]?).foldr (fun z st => birthStep cfg b nv st z) st) := by
  have key : ∀ (l : List Nat) (st : List (Comp T K) × List (Cand T)), (∀ i ∈ l, i < meas.length) →
      birthLoop cfg b nv meas l st = .ok ((l.filterMap fun i => meas[i]?).foldl (fun st z => birthStep cfg b nv st z) st) := by
    intro l
    induction l with
    | nil => intro st _; rfl
    | cons i l ih =>
      intro st hl
      unfold birthLoop
      rw [List.getElem?_eq_getElem (hl i (by simp)), List.filterMap_cons, List.getElem?_eq_getElem (hl i (by simp))]
      simp only [List.foldl_cons]
      exact ih _ fun j hj => hl j (by simp [hj])
  rw [key u.reverse st (by simpa using h), List.filterMap_reverse, List.foldl_reverse]

/-- **C100**, landmarks in view: `nLandmarksInFOV_` is the number of landmarks with non-zero probability of detection or near the sensing
limit. -/
theorem C100_in_view (s : Sensor T Z K) (thr birthW : K) (map : List (Comp T K)) (Zs : List Z) :
    (updateMap s thr birthW map Zs).nFOV = (map.filter fun c => decide ((s.pd c.lm).1 ≠ 0) || (s.pd c.lm).2).length := by
  unfold updateMap
  split
  · next h => rw [List.length_eq_zero_iff.1 h]; rfl
  · simp only [List.countP_eq_length_filter, Pd]
    congr 2
    funext c
    by_cases h2 : (s.pd c.lm).2 = true <;> simp [h2]

example : birthStep exCfg (exB ()) 1 (([] : List (Comp Nat Rat)), [⟨4, 1, 1⟩, ⟨5, 1, 2⟩, ⟨5, 1, 0⟩]) 5 = ([], [⟨4, 1, 1⟩, ⟨5, 2, 2⟩, ⟨5, 1, 0⟩]) := by decide +kernel

end PHDProps
end RFS
