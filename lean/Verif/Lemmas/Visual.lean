import Mathlib.Algebra.Order.Field.Basic
import Mathlib.Tactic.Linarith
import Mathlib.Tactic.Push
import Verif.Model.Visual

/-! Lemmas on `Visualizer6D`. -/

set_option linter.unusedSectionVars false

namespace RFS
namespace Visual

section
variable {V : Type}

/-- Memory after writing `vs` from index `k` on. -/
def written (mem : List (Option V)) (k : Nat) (vs : List V) : List (Option V) := mem.take k ++ vs.map some ++ mem.drop (k + vs.length)

theorem written_nil (mem : List (Option V)) (k : Nat) : written mem k [] = mem := by simp [written]

theorem written_length (mem : List (Option V)) (k : Nat) (vs : List V) (h : k + vs.length ≤ mem.length) : (written mem k vs).length = mem.length := by
  simp only [written, List.length_append, List.length_take, List.length_map, List.length_drop]
  omega

theorem written_cons (mem : List (Option V)) (k : Nat) (v : V) (vs : List V) (h : k < mem.length) :
    written (mem.set k (some v)) (k + 1) vs = written mem k (v :: vs) := by
  unfold written
  rw [List.set_eq_take_append_cons_drop, if_pos h]
  have h1 : (List.take k mem).length = k := by rw [List.length_take]; omega
  have e1 : List.take (k + 1) (List.take k mem ++ some v :: List.drop (k + 1) mem) = List.take k mem ++ [some v] := by
    rw [List.take_append, h1, List.take_of_length_le (by omega)]
    simp
  have e2 : List.drop (k + 1 + vs.length) (List.take k mem ++ some v :: List.drop (k + 1) mem) = List.drop (k + (v :: vs).length) mem := by
    rw [List.drop_append, h1, List.drop_eq_nil_of_le (by omega), List.nil_append, show k + 1 + vs.length - k = vs.length + 1 by omega, List.drop_succ_cons, List.drop_drop]
    congr 1
    simp
    omega
  rw [e1, e2]
  simp

theorem resize_n (p : Pts V) (n : Nat) : (p.resize n).n = n := by unfold Pts.resize; split <;> rfl

theorem resize_wf (p : Pts V) (n : Nat) : n ≤ (p.resize n).mem.length := by
  unfold Pts.resize
  split
  · assumption
  · simp

theorem resize_mem (p : Pts V) (n : Nat) (h : n ≤ p.mem.length) : (p.resize n).mem = p.mem := by unfold Pts.resize; rw [if_pos h]

theorem put_eq (p : Pts V) (i : Nat) (v : V) (h : i < p.n) : p.put i v = some ⟨p.mem.set i (some v), p.n⟩ := by unfold Pts.put; rw [if_pos h]

/-- Consecutive writes. -/
theorem fill_from : ∀ (vs : List V) (k : Nat) (p : Pts V), p.n ≤ p.mem.length → k + vs.length ≤ p.n →
    (vs.zipIdx k).foldlM (fun q a => Pts.put q a.2 a.1) p = some ⟨written p.mem k vs, p.n⟩
  | [], k, p, _, _ => by simp [written_nil]
  | v :: vs, k, p, h1, h2 => by
    simp only [List.length_cons] at h2
    rw [List.zipIdx_cons, List.foldlM_cons, put_eq _ _ _ (by omega)]
    have := fill_from vs (k + 1) ⟨p.mem.set k (some v), p.n⟩ (by simpa using h1) (by simp only; omega)
    simp only [Option.bind_eq_bind, Option.bind_some]
    rw [this]
    simp only
    rw [written_cons _ _ _ _ (by omega)]

theorem written_take (mem : List (Option V)) (vs : List V) : (written mem 0 vs).take vs.length = vs.map some := by
  simp [written]

theorem fill_eq (p : Pts V) (vs : List V) : ∃ q, (p.resize vs.length).fill vs = some q ∧ q.shown = vs.map some := by
  refine ⟨_, fill_from vs 0 _ ?_ ?_, ?_⟩
  · rw [resize_n]; exact resize_wf p _
  · rw [resize_n]; omega
  · unfold Pts.shown
    rw [resize_n]
    exact written_take _ _

end

section
variable {V P K L M : Type} [Field K] [LinearOrder K] [IsStrictOrderedRing K]

/-- What the loop over the particles finds: the start value, or the first of the heaviest particles. -/
def Best (ps : List (Part P K L)) (k : Nat) (s r : Nat × K) : Prop :=
  (r = s ∧ ∀ p ∈ ps, p.w ≤ s.2) ∨ ∃ j b, ps[j]? = some b ∧ r = (k + j, b.w) ∧ s.2 < b.w ∧ (∀ p ∈ ps, p.w ≤ b.w) ∧ ∀ i p, i < j → ps[i]? = some p → p.w < b.w

/-- The loop over the particles. -/
theorem part_loop (pos : P → V) : ∀ (ps : List (Part P K L)) (k : Nat) (p : Pts V) (c : Pts Col) (s : Nat × K), p.n ≤ p.mem.length → c.n ≤ c.mem.length → k + ps.length ≤ p.n → k + ps.length ≤ c.n →
    ∃ r, (ps.zipIdx k).foldlM (partStep pos) (p, c, s) = some (⟨written p.mem k (ps.map fun a => pos a.pose), p.n⟩, ⟨written c.mem k (ps.map fun _ => (255, 0, 0)), c.n⟩, r) ∧ Best ps k s r
  | [], k, p, c, s, _, _, _, _ => ⟨s, by simp [written_nil], Or.inl ⟨rfl, by simp⟩⟩
  | a :: ps, k, p, c, s, h1, h2, h3, h4 => by
    simp only [List.length_cons] at h3 h4
    obtain ⟨r, e, hr⟩ := part_loop pos ps (k + 1) ⟨p.mem.set k (some (pos a.pose)), p.n⟩ ⟨c.mem.set k (some (255, 0, 0)), c.n⟩ (if s.2 < a.w then (k, a.w) else s)
      (by simpa using h1) (by simpa using h2) (by simp only; omega) (by simp only; omega)
    refine ⟨r, ?_, ?_⟩
    · rw [List.zipIdx_cons, List.foldlM_cons]
      have e0 : partStep pos (p, c, s) (a, k) = some (⟨p.mem.set k (some (pos a.pose)), p.n⟩, ⟨c.mem.set k (some (255, 0, 0)), c.n⟩, if s.2 < a.w then (k, a.w) else s) := by
        simp only [partStep, put_eq p k _ (by omega), put_eq c k _ (by omega), Option.bind_eq_bind, Option.bind_some]
      rw [e0]
      simp only [Option.bind_eq_bind, Option.bind_some]
      rw [e]
      simp only [List.map_cons]
      rw [written_cons _ _ _ _ (by omega), written_cons _ _ _ _ (by omega)]
    · by_cases hw : s.2 < a.w
      · rw [if_pos hw] at hr
        rcases hr with ⟨hr, ha⟩ | ⟨j, b, hj, hr, hs, ha, hf⟩
        · refine Or.inr ⟨0, a, rfl, hr, hw, ?_, ?_⟩
          · intro q hq
            rcases List.mem_cons.1 hq with rfl | hq
            · exact le_rfl
            · exact ha q hq
          · intro i q hi; omega
        · refine Or.inr ⟨j + 1, b, hj, ?_, hw.trans hs, ?_, ?_⟩
          · rw [hr, show k + 1 + j = k + (j + 1) by omega]
          · intro q hq
            rcases List.mem_cons.1 hq with rfl | hq
            · exact hs.le
            · exact ha q hq
          · intro i q hi hq
            cases i with
            | zero => cases hq; exact hs
            | succ i => exact hf i q (by omega) hq
      · rw [if_neg hw] at hr
        push Not at hw
        rcases hr with ⟨hr, ha⟩ | ⟨j, b, hj, hr, hs, ha, hf⟩
        · refine Or.inl ⟨hr, ?_⟩
          intro q hq
          rcases List.mem_cons.1 hq with rfl | hq
          · exact hw
          · exact ha q hq
        · refine Or.inr ⟨j + 1, b, hj, ?_, hs, ?_, ?_⟩
          · rw [hr, show k + 1 + j = k + (j + 1) by omega]
          · intro q hq
            rcases List.mem_cons.1 hq with rfl | hq
            · exact hw.trans hs.le
            · exact ha q hq
          · intro i q hi hq
            cases i with
            | zero => cases hq; exact lt_of_le_of_lt hw hs
            | succ i => exact hf i q (by omega) hq

/-- The loop over the map. -/
theorem map_loop (pick : L → Option (Option V)) (sel : L → Option V) : ∀ (ls : List L) (k : Nat) (p : Pts V) (c : Pts Col), (∀ l ∈ ls, pick l = some (sel l)) → p.n ≤ p.mem.length → c.n ≤ c.mem.length →
    k + ls.length ≤ p.n → k + ls.length ≤ c.n →
    ls.foldlM (mapStep pick) (p, c, k) = some (⟨written p.mem k (ls.filterMap sel), p.n⟩, ⟨written c.mem k ((ls.filterMap sel).map fun _ => (200, 200, 200)), c.n⟩, k + (ls.filterMap sel).length)
  | [], k, p, c, _, _, _, _, _ => by simp [written_nil]
  | l :: ls, k, p, c, h, h1, h2, h3, h4 => by
    simp only [List.length_cons] at h3 h4
    have h0 := h l List.mem_cons_self
    have hr : ∀ l ∈ ls, pick l = some (sel l) := fun l hl => h l (List.mem_cons_of_mem _ hl)
    rw [List.foldlM_cons]
    cases e : sel l with
    | none =>
      have e0 : mapStep pick (p, c, k) l = some (p, c, k) := by simp only [mapStep, h0, e]
      rw [e0]
      simp only [Option.bind_eq_bind, Option.bind_some]
      rw [map_loop pick sel ls k p c hr h1 h2 (by omega) (by omega), List.filterMap_cons_none e]
    | some v =>
      have e0 : mapStep pick (p, c, k) l = some (⟨p.mem.set k (some v), p.n⟩, ⟨c.mem.set k (some (200, 200, 200)), c.n⟩, k + 1) := by
        simp only [mapStep, h0, e, put_eq p k _ (by omega), put_eq c k _ (by omega), Option.bind_eq_bind, Option.bind_some]
      rw [e0]
      simp only [Option.bind_eq_bind, Option.bind_some]
      rw [map_loop pick sel ls (k + 1) _ _ hr (by simpa using h1) (by simpa using h2) (by simp only; omega) (by simp only; omega), List.filterMap_cons_some e]
      simp only [List.map_cons, List.length_cons]
      rw [written_cons _ _ _ _ (by omega), written_cons _ _ _ _ (by omega), show k + 1 + (ls.filterMap sel).length = k + ((ls.filterMap sel).length + 1) by omega]

theorem cell2 (c : Cells) (i j : Nat) : cellPoint (cellPoint (nextCell c) i) j = c ++ [[i, j]] := by
  simp [cellPoint, nextCell]

/-- The loop over the measurements. -/
theorem meas_loop (inv : P → M → V) (x : P) : ∀ (Z : List M) (k : Nat) (p : Pts V) (c : Cells), p.n ≤ p.mem.length → k + 1 + Z.length ≤ p.n →
    (Z.zipIdx k).foldlM (measStep inv x) (p, c) = some (⟨written p.mem (k + 1) (Z.map (inv x)), p.n⟩, c ++ (List.range' k Z.length).map fun i => [0, i + 1])
  | [], k, p, c, _, _ => by simp [written_nil]
  | z :: Z, k, p, c, h1, h2 => by
    simp only [List.length_cons] at h2
    rw [List.zipIdx_cons, List.foldlM_cons]
    have e0 : measStep inv x (p, c) (z, k) = some (⟨p.mem.set (k + 1) (some (inv x z)), p.n⟩, c ++ [[0, k + 1]]) := by
      simp only [measStep, put_eq p (k + 1) _ (by omega), Option.bind_eq_bind, Option.bind_some, cell2]
    rw [e0]
    simp only [Option.bind_eq_bind, Option.bind_some]
    rw [meas_loop inv x Z (k + 1) _ _ (by simpa using h1) (by simp only; omega)]
    simp only [List.map_cons, List.length_cons, List.range'_succ]
    rw [written_cons _ _ _ _ (by omega)]
    simp

/-- `trajStep` does not look at the particles, the map and the measurements. -/
theorem traj_with (v : V) (d : Disp V) (a : Pts V) (b : Pts Col) (c : Pts V) (e : Pts Col) :
    trajStep v { d with part := a, partCol := b, map := c, mapCol := e } = (trajStep v d).map fun t => { t with part := a, partCol := b, map := c, mapCol := e } := by
  unfold trajStep
  split
  · simp only [Option.bind_eq_bind]
    cases d.est.put (d.estCells.length - 1) v <;> rfl
  · simp only [Option.bind_eq_bind]
    cases d.est.put ((growLine d.estCells).length - 1) v <;> rfl

/-- What one call shows, except for the trajectories, which are those of `t`. -/
theorem update_ok (pos : P → V) (inv : P → M → V) (pick : L → Option (Option V)) (sel : L → Option V) (ps : List (Part P K L)) (Z : List M) (d t : Disp V) (i : Nat) (b : Part P K L)
    (hb : ps[i]? = some b) (hi : ∀ r, Best ps 0 (0, 0) r → r.1 = i) (hp : ∀ l ∈ b.map, pick l = some (sel l)) (ht : trajStep (pos b.pose) d = some t) :
    ∃ d', update pos inv pick ps Z d = some d' ∧
      d'.part.shown = ps.map (fun p => some (pos p.pose)) ∧ d'.partCol.shown = ps.map (fun _ => some (255, 0, 0)) ∧
      d'.map.shown = (b.map.filterMap sel).map some ∧ d'.mapCol.shown = (b.map.filterMap sel).map (fun _ => some (200, 200, 200)) ∧
      d'.meas.shown = some (pos b.pose) :: Z.map (fun z => some (inv b.pose z)) ∧ d'.measCells = (List.range Z.length).map (fun i => [0, i + 1]) ∧
      d'.gt = t.gt ∧ d'.gtCells = t.gtCells ∧ d'.dr = t.dr ∧ d'.drCells = t.drCells ∧ d'.est = t.est ∧ d'.estCells = t.estCells ∧ d'.started = t.started ∧ d'.gtMap = t.gtMap ∧ d'.gtMapCol = t.gtMapCol := by
  obtain ⟨r, e, hr⟩ := part_loop pos ps 0 (d.part.resize ps.length) (d.partCol.resize ps.length) (0, 0) (by rw [resize_n]; exact resize_wf _ _) (by rw [resize_n]; exact resize_wf _ _)
    (by rw [resize_n]; omega) (by rw [resize_n]; omega)
  have hri := hi r hr
  have em := map_loop pick sel b.map 0 (d.map.resize b.map.length) (d.mapCol.resize b.map.length) hp (by rw [resize_n]; exact resize_wf _ _) (by rw [resize_n]; exact resize_wf _ _)
    (by rw [resize_n]; omega) (by rw [resize_n]; omega)
  have hm : ∀ (q : Pts V) (vs : List V) , q.n ≤ q.mem.length → vs.length ≤ q.n → ((⟨written q.mem 0 vs, q.n⟩ : Pts V).resize (0 + vs.length)).shown = vs.map some := by
    intro q vs h1 h2
    unfold Pts.shown
    rw [resize_n, resize_mem _ _ (by simp only; rw [written_length _ _ _ (by omega)]; omega), Nat.zero_add]
    exact written_take _ _
  have hm' : ∀ (q : Pts Col) (vs : List Col) (n : Nat), vs.length = n → q.n ≤ q.mem.length → vs.length ≤ q.n → ((⟨written q.mem 0 vs, q.n⟩ : Pts Col).resize (0 + n)).shown = vs.map some := by
    intro q vs n hn h1 h2
    subst hn
    unfold Pts.shown
    rw [resize_n, resize_mem _ _ (by simp only; rw [written_length _ _ _ (by omega)]; omega), Nat.zero_add]
    exact written_take _ _
  have hfl : (b.map.filterMap sel).length ≤ b.map.length := List.length_filterMap_le _ _
  refine ⟨{ t with
    part := ⟨written (d.part.resize ps.length).mem 0 (ps.map fun a => pos a.pose), (d.part.resize ps.length).n⟩
    partCol := ⟨written (d.partCol.resize ps.length).mem 0 (ps.map fun _ => (255, 0, 0)), (d.partCol.resize ps.length).n⟩
    map := (⟨written (d.map.resize b.map.length).mem 0 (b.map.filterMap sel), (d.map.resize b.map.length).n⟩ : Pts V).resize (0 + (b.map.filterMap sel).length)
    mapCol := (⟨written (d.mapCol.resize b.map.length).mem 0 ((b.map.filterMap sel).map fun _ => (200, 200, 200)), (d.mapCol.resize b.map.length).n⟩ : Pts Col).resize (0 + (b.map.filterMap sel).length)
    meas := ⟨written (((t.meas.resize (Z.length + 1)).mem).set 0 (some (pos b.pose))) (0 + 1) (Z.map (inv b.pose)), (t.meas.resize (Z.length + 1)).n⟩
    measCells := [] ++ (List.range' 0 Z.length).map fun i => [0, i + 1] }, ?_, ?_, ?_, ?_, ?_, ?_, ?_, rfl, rfl, rfl, rfl, rfl, rfl, rfl, rfl, rfl⟩
  · unfold update
    simp only [Option.bind_eq_bind]
    rw [e]
    simp only [Option.bind_some, hri, hb]
    rw [em]
    simp only [Option.bind_some]
    rw [traj_with, ht]
    simp only [Option.map_some, Option.bind_some]
    rw [put_eq _ _ _ (by rw [resize_n]; omega)]
    simp only [Option.bind_some]
    rw [meas_loop inv b.pose Z 0 _ _ (by simp only [List.length_set]; rw [resize_n]; exact resize_wf _ _) (by simp only; rw [resize_n]; omega)]
    simp only [Option.bind_some]
  · unfold Pts.shown
    simp only [resize_n]
    have := written_take (d.part.resize ps.length).mem (ps.map fun a => pos a.pose)
    rw [List.length_map] at this
    rw [this, List.map_map]
    rfl
  · unfold Pts.shown
    simp only [resize_n]
    have := written_take (d.partCol.resize ps.length).mem (ps.map fun _ => ((255, 0, 0) : Col))
    rw [List.length_map] at this
    rw [this, List.map_map]
    rfl
  · exact hm _ _ (by rw [resize_n]; exact resize_wf _ _) (by rw [resize_n]; exact hfl)
  · simp only
    rw [hm' _ _ _ (by simp) (by rw [resize_n]; exact resize_wf _ _) (by rw [resize_n, List.length_map]; exact hfl), List.map_map]
    rfl
  · unfold Pts.shown
    simp only [resize_n]
    have hw := resize_wf t.meas (Z.length + 1)
    rw [written_cons _ 0 (pos b.pose) _ (by omega)]
    have := written_take (t.meas.resize (Z.length + 1)).mem (pos b.pose :: Z.map (inv b.pose))
    simp only [List.length_cons, List.length_map] at this
    rw [this]
    simp
  · simp [List.range_eq_range']

/-- Without a place for the next point of the estimated trajectory a call fails. -/
theorem update_none (pos : P → V) (inv : P → M → V) (pick : L → Option (Option V)) (ps : List (Part P K L)) (Z : List M) (d : Disp V) (h : ∀ v, trajStep v d = none) :
    update pos inv pick ps Z d = none := by
  unfold update
  simp only [Option.bind_eq_bind, Option.bind_eq_none_iff]
  intro r _ b _ m _ d2 hd2
  rw [traj_with, h] at hd2
  cases hd2

/-! Trajectories. -/

/-- The cells of a trajectory after `k` calls. -/
def lineOf (k : Nat) : Cells := [0] :: (List.range (k - 1)).map fun i => [i + 1, i]

theorem lineOf_length (k : Nat) : (lineOf k).length = k - 1 + 1 := by simp [lineOf]

theorem grow_eq (c : Cells) : growLine c = c ++ [[c.length, c.length - 1]] := by
  simp [growLine, nextCell, cellPoint]

theorem grow_line (k : Nat) (hk : 0 < k) : growLine (lineOf k) = lineOf (k + 1) := by
  rw [grow_eq, lineOf_length]
  obtain ⟨m, rfl⟩ : ∃ m, k = m + 1 := ⟨k - 1, by omega⟩
  simp [lineOf, List.range_succ]

/-- The trajectories after the poses `poses` have been shown. -/
structure Shown (lms gt dr poses : List V) (d : Disp V) : Prop where
  gtMap : d.gtMap.shown = lms.map some
  gtMapCol : d.gtMapCol.shown = lms.map fun _ => some (0, 191, 255)
  gtPts : d.gt.shown = gt.map some
  drPts : d.dr.shown = dr.map some
  gtCells : d.gtCells = lineOf poses.length
  drCells : d.drCells = lineOf poses.length
  estCells : d.estCells = lineOf poses.length
  started : d.started = decide (0 < poses.length)
  n : d.est.n = gt.length
  est : d.est.mem = poses.map some ++ List.replicate (gt.length - poses.length) none

theorem setup_ok (lms gt dr : List V) : ∃ d, setup lms gt dr = some d ∧ Shown lms gt dr [] d := by
  obtain ⟨g, eg, hg⟩ := fill_eq Pts.new gt
  obtain ⟨r, er, hr⟩ := fill_eq Pts.new dr
  obtain ⟨m, em, hm⟩ := fill_eq Pts.new lms
  obtain ⟨c, ec, hc⟩ := fill_eq Pts.new (lms.map fun _ => ((0, 191, 255) : Col))
  rw [List.length_map] at ec
  rw [List.map_map] at hc
  refine ⟨_, by unfold setup; simp only [Option.bind_eq_bind, eg, er, em, ec, Option.bind_some]; rfl, hm, hc, hg, hr, rfl, rfl, rfl, rfl, resize_n _ _, ?_⟩
  show (Pts.new.resize gt.length : Pts V).mem = _
  cases gt with
  | nil => rfl
  | cons a l => rfl

theorem set_none (poses : List V) (m : Nat) (v : V) : (poses.map some ++ List.replicate (m + 1) none).set poses.length (some v) = (poses ++ [v]).map some ++ List.replicate m none := by
  rw [List.set_append_right _ _ (by simp)]
  simp [List.replicate_succ]

theorem traj_ok {lms gt dr poses : List V} {d : Disp V} (h : Shown lms gt dr poses d) (hl : poses.length < gt.length) (v : V) :
    ∃ t, trajStep v d = some t ∧ Shown lms gt dr (poses ++ [v]) t := by
  have he : d.est.mem.set poses.length (some v) = (poses ++ [v]).map some ++ List.replicate (gt.length - (poses ++ [v]).length) none := by
    rw [h.est, show gt.length - poses.length = gt.length - (poses ++ [v]).length + 1 by simp; omega]
    exact set_none _ _ _
  by_cases hs : poses.length = 0
  · have h0 : poses = [] := List.eq_nil_of_length_eq_zero hs
    refine ⟨{ d with est := ⟨d.est.mem.set poses.length (some v), d.est.n⟩, started := true }, ?_, h.gtMap, h.gtMapCol, h.gtPts, h.drPts, ?_, ?_, ?_, by simp, h.n, he⟩
    · unfold trajStep
      rw [if_pos (by rw [h.started]; simp [hs]), h.estCells, lineOf_length, put_eq _ _ _ (by rw [h.n]; omega)]
      simp only [Option.bind_eq_bind, Option.bind_some]
      simp [hs]
    · rw [h.gtCells, h0]; rfl
    · rw [h.drCells, h0]; rfl
    · rw [h.estCells, h0]; rfl
  · have hp : 0 < poses.length := by omega
    have hg : growLine (lineOf poses.length) = lineOf (poses ++ [v]).length := by rw [grow_line _ hp]; simp
    refine ⟨{ d with gtCells := growLine d.gtCells, drCells := growLine d.drCells, estCells := growLine d.estCells, est := ⟨d.est.mem.set poses.length (some v), d.est.n⟩ }, ?_,
      h.gtMap, h.gtMapCol, h.gtPts, h.drPts, ?_, ?_, ?_, ?_, h.n, he⟩
    · unfold trajStep
      rw [if_neg (by rw [h.started, decide_eq_true (by omega)]; simp)]
      simp only [h.estCells, hg, lineOf_length]
      rw [put_eq _ _ _ (by rw [h.n]; simp; omega)]
      simp
    · simp only [h.gtCells, hg]
    · simp only [h.drCells, hg]
    · simp only [h.estCells, hg]
    · simp only [h.started, List.length_append]; simp; omega

theorem traj_full {lms gt dr poses : List V} {d : Disp V} (h : Shown lms gt dr poses d) (hl : gt.length ≤ poses.length) (v : V) : trajStep v d = none := by
  unfold trajStep
  by_cases hs : poses.length = 0
  · rw [if_pos (by rw [h.started]; simp [hs]), h.estCells, lineOf_length]
    unfold Pts.put
    rw [if_neg (by rw [h.n]; omega)]
    rfl
  · rw [if_neg (by rw [h.started, decide_eq_true (by omega)]; simp)]
    simp only [h.estCells]
    rw [grow_line _ (by omega), lineOf_length]
    unfold Pts.put
    rw [if_neg (by rw [h.n]; omega)]
    rfl

end

/-! Threads. -/

theorem Steps.trans {n : Nat} {a b c : Both} (h : Steps n a b) (h' : Steps n b c) : Steps n a c := by
  induction h' with
  | refl => exact h
  | tail _ e ih => exact ih.tail e

/-- What holds in every state. -/
structure Inv (s : Both) : Prop where
  disp : s.owner = some .disp ↔ s.disp = .events ∨ s.disp = .ended
  sim : s.owner = some .sim ↔ s.sim = .inside

theorem inv_step {n : Nat} {s s' : Both} (h : Inv s) (e : Step n s s') : Inv s' := by
  obtain ⟨h1, h2⟩ := h
  obtain ⟨d, m, o, k⟩ := s
  simp only at h1 h2
  cases e <;> simp_all <;> constructor <;> simp_all

theorem inv_steps {n : Nat} {s s' : Both} (h : Inv s) (e : Steps n s s') : Inv s' := by
  induction e with
  | refl => exact h
  | tail _ e ih => exact inv_step ih e

theorem inv_init : Inv Both.init := ⟨by simp [Both.init], by simp [Both.init]⟩

end Visual
end RFS
