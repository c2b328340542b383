import Verif.Lemmas.Visual
import Verif.Props.GMBernoulli

/-!
C240-C245: `Visualizer6D`.
-/

set_option linter.unusedSectionVars false

namespace RFS
namespace VisualProps

open Visual

/-! ### C240, C241: the display thread and the simulation -/

/-- C240: the display thread handles events or draws only while the simulation is not changing what is drawn, in every state of every run; `display_mutex_` is unlocked by its owner only. -/
theorem C240_exclusive (n : Nat) (s : Both) (h : Steps n Both.init s) :
    ¬(s.disp = .events ∧ s.sim = .inside) ∧ (s.disp = .events → s.owner = some .disp) ∧ (s.sim = .inside → s.owner = some .sim) := by
  obtain ⟨h1, h2⟩ := inv_steps inv_init h
  refine ⟨?_, fun e => h1.2 (Or.inl e), fun e => h2.2 e⟩
  rintro ⟨e1, e2⟩
  have a := h1.2 (Or.inl e1)
  rw [h2.2 e2] at a
  cases a

example : Steps 2 Both.init ⟨.pausing, .inside, some .sim, 0⟩ := by
  have h1 := (Steps.refl Both.init (n := 2)).tail (.enter _ rfl rfl)
  have h2 := h1.tail (.pause _ rfl)
  exact h2.tail (.lock _ rfl (by decide) rfl)

/-- C241, what holds: as long as the interaction has not been ended, whatever has happened so far, the threads can go on such that the simulation completes all its calls. -/
theorem C241_partial (n : Nat) (s : Both) (h : Steps n Both.init s) (he : s.disp ≠ .ended) : ∃ s', Steps n s s' ∧ n ≤ s'.done := by
  -- a state in which nobody owns the mutex and the display thread is not ended
  have key : ∀ m (s : Both), n - s.done ≤ m → s.owner = none → s.sim = .out → ∃ s', Steps n s s' ∧ n ≤ s'.done := by
    intro m
    induction m with
    | zero => exact fun s hm _ _ => ⟨s, .refl s, by omega⟩
    | succ m ih =>
      intro s hm ho hs
      by_cases hd : n ≤ s.done
      · exact ⟨s, .refl s, hd⟩
      · have a := (Steps.refl s (n := n)).tail (.lock s hs (by omega) ho)
        have b := a.tail (.unlock _ rfl)
        obtain ⟨s', c, d⟩ := ih ⟨s.disp, .out, none, s.done + 1⟩ (by simp only; omega) rfl rfl
        exact ⟨s', b.trans c, d⟩
  obtain ⟨h1, h2⟩ := inv_steps inv_init h
  cases hs : s.sim with
  | inside =>
    obtain ⟨s', c, d⟩ := key n _ (by simp only; omega : n - (⟨s.disp, .out, none, s.done + 1⟩ : Both).done ≤ n) rfl rfl
    exact ⟨s', ((Steps.refl s (n := n)).tail (.unlock s hs)).trans c, d⟩
  | out =>
    cases ho : s.owner with
    | none => exact key n s (by omega) ho hs
    | some t =>
      cases t with
      | sim => rw [h2.1 ho] at hs; cases hs
      | disp =>
        rcases h1.1 ho with e | e
        · obtain ⟨s', c, d⟩ := key n _ (by simp only; omega : n - (⟨.pausing, s.sim, none, s.done⟩ : Both).done ≤ n) rfl hs
          exact ⟨s', ((Steps.refl s (n := n)).tail (.pause s e)).trans c, d⟩
        · exact absurd e he

/-- C241: once the interaction has been ended, no further call of `update` ever returns. -/
theorem C241_frozen (n : Nat) (s s' : Both) (h : Steps n Both.init s) (he : s.disp = .ended) (h' : Steps n s s') : s'.done = s.done ∧ s'.sim = .out ∧ s'.disp = .ended := by
  have hi := inv_steps inv_init h
  have hs : s.sim = .out := by
    cases e : s.sim with
    | out => rfl
    | inside => have a := hi.sim.2 e; rw [hi.disp.2 (Or.inr he)] at a; cases a
  have ho := hi.disp.2 (Or.inr he)
  suffices s'.done = s.done ∧ s'.sim = .out ∧ s'.disp = .ended ∧ s'.owner = some .disp from ⟨this.1, this.2.1, this.2.2.1⟩
  induction h' with
  | refl => exact ⟨rfl, hs, he, ho⟩
  | tail _ e ih =>
    obtain ⟨a, b, c, d⟩ := ih
    cases e <;> simp_all

/-- C241 (the simulation can always complete its calls) does not hold: the user can end the interaction at any time at which events are handled, and then the simulation waits for ever, whatever happens. -/
theorem C241_violated (n : Nat) (k : Nat) (hk : k < n) : ∃ s, Steps n Both.init s ∧ s.done = k ∧ ∀ s', Steps n s s' → s'.done = k := by
  have key : ∀ k, k < n → ∃ s, Steps n Both.init s ∧ s.done = k ∧ s.disp = .events ∧ s.sim = .out := by
    intro k
    induction k with
    | zero => exact fun _ => ⟨_, (Steps.refl Both.init (n := n)).tail (.enter _ rfl rfl), rfl, rfl, rfl⟩
    | succ k ih =>
      intro h
      obtain ⟨s, a, b, c, d⟩ := ih (by omega)
      exact ⟨_, (((a.tail (.pause s c)).tail (.lock _ d (by simp only; omega) rfl)).tail (.unlock _ rfl)).tail (.resume _ rfl rfl), by simp [b], rfl, rfl⟩
  obtain ⟨s, a, b, c, d⟩ := key k hk
  have a' := a.tail (.close s c)
  exact ⟨_, a', b, fun s' h => by rw [(C241_frozen n _ s' a' rfl h).1]; exact b⟩

/-! ### C242-C245: what is shown -/

variable {V P K L M : Type} [Field K] [LinearOrder K] [IsStrictOrderedRing K]

/-- The particle whose map is to be shown: the first of those with the greatest weight. -/
def Heaviest (ps : List (Part P K L)) (b : Part P K L) : Prop :=
  ∃ i : Nat, ps[i]? = some b ∧ (∀ p ∈ ps, p.w ≤ b.w) ∧ ∀ (j : Nat) (p : Part P K L), j < i → ps[j]? = some p → p.w < b.w

/-- A filter has particles, and no weight is negative. -/
def Proper (ps : List (Part P K L)) : Prop := ps ≠ [] ∧ ∀ p ∈ ps, 0 ≤ p.w

/-- The pieces that are drawn: the two ends of every cell of two points. -/
def pieces (p : Pts V) (c : Cells) : List (Option V × Option V) := c.filterMap fun l =>
  match l with
  | [i, j] => some ((p.shown[i]?).join, (p.shown[j]?).join)
  | _ => none

theorem best_exists (ps : List (Part P K L)) (h : Proper ps) : ∃ i b, ps[i]? = some b ∧ (∀ r, Best ps 0 (0, 0) r → r.1 = i) ∧ Heaviest ps b := by
  have hf : ∀ r, Best ps 0 (0, 0) r → ∃ b, ps[r.1]? = some b ∧ (∀ p ∈ ps, p.w ≤ b.w) ∧ ∀ j p, j < r.1 → ps[j]? = some p → p.w < b.w := by
    rintro r (⟨rfl, ha⟩ | ⟨j, b, hj, rfl, -, ha, hf⟩)
    · cases ps with
      | nil => exact absurd rfl h.1
      | cons p ps => exact ⟨p, rfl, fun q hq => (ha q hq).trans (h.2 p List.mem_cons_self), fun j _ hj => absurd hj (Nat.not_lt_zero j)⟩
    · exact ⟨b, by simpa using hj, ha, fun i p hi => hf i p (by simpa using hi)⟩
  obtain ⟨r, -, hr⟩ := part_loop (fun _ : P => ()) ps 0 (Pts.new.resize ps.length) (Pts.new.resize ps.length) (0, 0) (by rw [resize_n]; exact resize_wf _ _) (by rw [resize_n]; exact resize_wf _ _)
    (by rw [resize_n]; omega) (by rw [resize_n]; omega)
  obtain ⟨b, h1, h2, h3⟩ := hf r hr
  refine ⟨r.1, b, h1, fun r' hr' => ?_, r.1, h1, h2, h3⟩
  obtain ⟨b', h1', h2', h3'⟩ := hf r' hr'
  by_contra hne
  rcases Nat.lt_or_gt_of_ne hne with hl | hl
  · exact absurd (h2' b (List.mem_of_getElem? h1)) (not_le.2 (h3 _ _ hl h1'))
  · exact absurd (h2 b' (List.mem_of_getElem? h1')) (not_le.2 (h3' _ _ hl h1))

/-- What a call shows of the filter: all particles in red, the selected part of the map of the heaviest particle in grey, lines from its pose to its measurements. -/
def ShowsFilter (pos : P → V) (inv : P → M → V) (ps : List (Part P K L)) (Z : List M) (vs : List V) (x : P) (d : Disp V) : Prop :=
  d.part.shown = ps.map (fun p => some (pos p.pose)) ∧ d.partCol.shown = ps.map (fun _ => some (255, 0, 0)) ∧
  d.map.shown = vs.map some ∧ d.mapCol.shown = vs.map (fun _ => some (200, 200, 200)) ∧
  pieces d.meas d.measCells = Z.map fun z => (some (pos x), some (inv x z))

theorem pieces_meas (p : Pts V) (x : V) (zs : List V) (h : p.shown = some x :: zs.map some) :
    pieces p ((List.range zs.length).map fun i => [0, i + 1]) = zs.map fun z => (some x, some z) := by
  unfold pieces
  rw [List.filterMap_map, h]
  apply List.ext_getElem?
  intro i
  have : (List.range zs.length).filterMap ((fun l => match l with
      | [i, j] => some ((((some x :: zs.map some : List (Option V))[i]?)).join, ((some x :: zs.map some : List (Option V))[j]?).join)
      | _ => none) ∘ fun i => [0, i + 1]) = (List.range zs.length).map fun i => (some x, ((zs.map some)[i]?).join) := by
    rw [show ∀ f : Nat → Option V × Option V, (List.range zs.length).map f = (List.range zs.length).filterMap (some ∘ f) from fun f => by rw [List.filterMap_eq_map]]
    rfl
  rw [this]
  simp only [List.getElem?_map]
  by_cases hi : i < zs.length
  · rw [List.getElem?_range hi, List.getElem?_eq_getElem hi]
    simp [List.getElem?_eq_getElem hi]
  · rw [List.getElem?_eq_none (by simpa using hi), List.getElem?_eq_none (by omega)]
    rfl

/-- Any number of calls after `setup`. -/
theorem runs (pos : P → V) (inv : P → M → V) (pick : L → Option (Option V)) (sel : L → Option V) (lms gt dr : List V) (fs : List (List (Part P K L) × List M))
    (hp : ∀ f ∈ fs, Proper f.1) (hs : ∀ f ∈ fs, ∀ b, Heaviest f.1 b → ∀ l ∈ b.map, pick l = some (sel l)) (hl : fs.length ≤ gt.length) :
    ∃ d poses, (setup lms gt dr).bind (updates pos inv pick fs) = some d ∧ Shown lms gt dr poses d ∧ List.Forall₂ (fun f x => ∃ b, Heaviest f.1 b ∧ x = pos b.pose) fs poses ∧
      ∀ f, fs.getLast? = some f → ∃ b, Heaviest f.1 b ∧ ShowsFilter pos inv f.1 f.2 (b.map.filterMap sel) b.pose d := by
  induction fs using List.reverseRecOn with
  | nil =>
    obtain ⟨d, e, h⟩ := setup_ok lms gt dr
    exact ⟨d, [], by rw [e]; rfl, h, .nil, by simp⟩
  | append_singleton fs f ih =>
    simp only [List.length_append, List.length_cons, List.length_nil] at hl
    obtain ⟨d, poses, e, h, hf, -⟩ := ih (fun f hf => hp f (List.mem_append_left _ hf)) (fun f hf => hs f (List.mem_append_left _ hf)) (by omega)
    have hf0 : f ∈ fs ++ [f] := by simp
    obtain ⟨i, b, h1, h2, h3⟩ := best_exists f.1 (hp f hf0)
    obtain ⟨t, ht, ht'⟩ := traj_ok h (by rw [← hf.length_eq]; omega) (pos b.pose)
    obtain ⟨d', e', a1, a2, a3, a4, a5, a6, b1, b2, b3, b4, b5, b6, b7, b8, b9⟩ := update_ok pos inv pick sel f.1 f.2 d t i b h1 h2 (hs f hf0 b h3) ht
    refine ⟨d', poses ++ [pos b.pose], ?_, ?_, List.rel_append hf (.cons ⟨b, h3, rfl⟩ .nil), ?_⟩
    · have e1 : (setup lms gt dr).bind (updates pos inv pick (fs ++ [f])) = ((setup lms gt dr).bind (updates pos inv pick fs)).bind (fun d => update pos inv pick f.1 f.2 d) := by
        cases setup lms gt dr with
        | none => rfl
        | some d0 => simp only [Option.bind_some, updates, List.foldlM_append, Option.bind_eq_bind]; congr 1; funext d; simp
      rw [e1, e]
      exact e'
    · exact ⟨by rw [b8]; exact ht'.gtMap, by rw [b9]; exact ht'.gtMapCol, by rw [b1]; exact ht'.gtPts, by rw [b3]; exact ht'.drPts, by rw [b2]; exact ht'.gtCells, by rw [b4]; exact ht'.drCells,
        by rw [b6]; exact ht'.estCells, by rw [b7]; exact ht'.started, by rw [b5]; exact ht'.n, by rw [b5]; exact ht'.est⟩
    · intro g hg
      rw [List.getLast?_concat] at hg
      cases hg
      refine ⟨b, h3, a1, a2, a3, a4, ?_⟩
      have := pieces_meas d'.meas (pos b.pose) (f.2.map (inv b.pose)) (by rw [a5, List.map_map]; rfl)
      rw [List.length_map] at this
      rw [a6, this, List.map_map]
      rfl

/-- C242: after every call of `update` for the RB-PHD filter the display shows the particles and the measurements of that call, and of the map of the heaviest particle exactly the Gaussians whose weight exceeds one half. -/
theorem C242_phd (pos : P → V) (inv : P → M → V) (lms gt dr : List V) (fs : List (List (Part P K (V × K)) × List M)) (f : List (Part P K (V × K)) × List M)
    (hp : ∀ g ∈ fs ++ [f], Proper g.1) (hl : fs.length < gt.length) :
    ∃ d b, (setup lms gt dr).bind (updates pos inv pickPHD (fs ++ [f])) = some d ∧ Heaviest f.1 b ∧
      ShowsFilter pos inv f.1 f.2 ((b.map.filter fun l => decide (1 / 2 < l.2)).map Prod.fst) b.pose d := by
  obtain ⟨d, poses, e, -, -, h⟩ := runs pos inv pickPHD (fun l => if 1 / 2 < l.2 then some l.1 else none) lms gt dr (fs ++ [f]) hp (fun _ _ _ _ _ _ => rfl) (by simp; omega)
  obtain ⟨b, hb, hs⟩ := h f (by simp)
  have ef : b.map.filterMap (fun l => if 1 / 2 < l.2 then some l.1 else none) = (b.map.filter fun l => decide (1 / 2 < l.2)).map Prod.fst := by
    rw [← List.filterMap_eq_map, List.filterMap_filter]
    congr 1
    funext l
    by_cases hl : (1 / 2 : K) < l.2 <;> simp [hl]
  rw [ef] at hs
  exact ⟨d, b, e, hb, hs⟩

/-- Points on a line: two particles, the second is heavier. -/
def exPs : List (Part ℚ ℚ (ℚ × ℚ)) := [⟨0, 1 / 4, [(7, 1)]⟩, ⟨1, 3 / 4, [(5, 1), (6, 1 / 2), (8, 2 / 3)]⟩]

example : ((setup [9] [0, 1, 3] [0, 1, 2]).bind (updates id (fun x z => x + z) pickPHD [(exPs, [1, 2])])).map (fun d => (d.part.shown, d.map.shown, pieces d.meas d.measCells)) =
    some ([some 0, some 1], [some 5, some 8], [(some 1, some 2), (some 1, some 3)]) := by decide +kernel

/-- C243, what holds: for the RB-LMB filter the display shows, of the tracks of the heaviest particle whose existence probability exceeds 0.1, the heaviest Gaussian, if every such track has only present Gaussians, one of positive weight. -/
theorem C243_partial {n : Nat} (pos : P → Fin n → K) (inv : P → M → Fin n → K) (lms gt dr : List (Fin n → K)) (fs : List (List (Part P K (GMB.Track K n)) × List M))
    (f : List (Part P K (GMB.Track K n)) × List M) (hp : ∀ g ∈ fs ++ [f], Proper g.1)
    (hg : ∀ g ∈ fs ++ [f], ∀ p ∈ g.1, ∀ t ∈ p.map, 1 / 10 < t.P → t.gm.n = t.gm.g.length ∧ (∀ e ∈ t.gm.g, e.lm.isSome) ∧ ∃ e ∈ t.gm.g, 0 < e.w) (hl : fs.length < gt.length) :
    ∃ d b vs, (setup lms gt dr).bind (updates pos inv pickLMB (fs ++ [f])) = some d ∧ Heaviest f.1 b ∧ ShowsFilter pos inv f.1 f.2 vs b.pose d ∧
      List.Forall₂ (fun (t : GMB.Track K n) v => ∃ l w, v = l.x ∧ (l, w) ∈ GMProps.gaussians t.gm ∧ ∀ q ∈ GMProps.gaussians t.gm, q.2 ≤ w) (b.map.filter fun t => decide (1 / 10 < t.P)) vs := by
  have hk : ∀ t : GMB.Track K n, (1 / 10 < t.P → t.gm.n = t.gm.g.length ∧ (∀ e ∈ t.gm.g, e.lm.isSome) ∧ ∃ e ∈ t.gm.g, 0 < e.w) →
      pickLMB t = some ((pickLMB t).getD none) ∧ (1 / 10 < t.P → ∃ l w, pickLMB t = some (some l.x) ∧ (l, w) ∈ GMProps.gaussians t.gm ∧ ∀ q ∈ GMProps.gaussians t.gm, q.2 ≤ w) ∧
      (¬1 / 10 < t.P → pickLMB t = some none) := by
    intro t ht
    by_cases hP : 1 / 10 < t.P
    · obtain ⟨h1, h2, h3⟩ := ht hP
      obtain ⟨l, w, e, hm⟩ := GMBProps.C28_no_holes_partial t.gm h1 h2 h3
      have e1 : pickLMB t = some (some l.x) := by unfold pickLMB; rw [if_pos hP, e]
      exact ⟨by rw [e1]; rfl, fun _ => ⟨l, w, e1, hm⟩, fun h => absurd hP h⟩
    · have e1 : pickLMB t = some none := by unfold pickLMB; rw [if_neg hP]
      exact ⟨by rw [e1]; rfl, fun h => absurd h hP, fun _ => e1⟩
  have hmem : ∀ {ps : List (Part P K (GMB.Track K n))} {b}, Heaviest ps b → b ∈ ps := fun ⟨_, h, _⟩ => List.mem_of_getElem? h
  obtain ⟨d, poses, e, -, -, h⟩ := runs pos inv pickLMB (fun t => (pickLMB t).getD none) lms gt dr (fs ++ [f]) hp
    (fun g hgm b hb t ht => (hk t (hg g hgm b (hmem hb) t ht)).1) (by simp; omega)
  obtain ⟨b, hb, hs⟩ := h f (by simp)
  refine ⟨d, b, _, e, hb, hs, ?_⟩
  have hb' := fun t ht => hk t (hg f (by simp) b (hmem hb) t ht)
  clear hs hb hmem
  generalize b.map = ts at hb'
  induction ts with
  | nil => exact .nil
  | cons t ts ih =>
    have h0 := hb' t List.mem_cons_self
    have hr := ih fun t ht => hb' t (List.mem_cons_of_mem _ ht)
    by_cases hP : 1 / 10 < t.P
    · obtain ⟨l, w, e1, hm⟩ := h0.2.1 hP
      rw [List.filter_cons_of_pos (by simpa using hP), List.filterMap_cons_some (by rw [e1]; rfl)]
      exact .cons ⟨l, w, rfl, hm⟩ hr
    · rw [List.filter_cons_of_neg (by simpa using hP), List.filterMap_cons_none (by rw [h0.2.2 hP]; rfl)]
      exact hr

/-- A track with two Gaussians. -/
def exTrack : GMB.Track ℚ 1 := ⟨1 / 2, 0, GM.addGaussian (GM.addGaussian GM.empty ⟨fun _ => 4, fun _ _ => 1⟩ (1 / 4)) ⟨fun _ => 6, fun _ _ => 1⟩ (3 / 4)⟩

example : ((setup [] [fun _ => 0] []).bind (updates id (fun x (z : Unit) => x) pickLMB [([⟨fun _ => 2, 1, [exTrack, ⟨1 / 10, 0, GM.empty⟩]⟩], [])])).map
    (fun d => d.map.shown.map fun v => v.map fun v => v 0) = some [some 6] := by decide +kernel

/-- C243 (every track with existence probability above 0.1 is shown) does not hold: for a track without Gaussians the location is read of an element that does not exist. -/
theorem C243_violated : ∃ f : List (Part ℚ ℚ (GMB.Track ℚ 1)) × List Unit, Proper f.1 ∧
    (setup [] [fun _ => 0, fun _ => 0] []).bind (updates (fun x _ => x) (fun x _ _ => x) pickLMB [f]) = none := by
  refine ⟨([⟨0, 1, [⟨1 / 2, 0, GM.empty⟩]⟩], []), ⟨by simp, by simp⟩, ?_⟩
  have h : ((setup [] [fun _ => 0, fun _ => 0] []).bind (updates (fun (x : ℚ) (_ : Fin 1) => x) (fun x (_ : Unit) _ => x) pickLMB [([⟨0, 1, [⟨1 / 2, 0, GM.empty⟩]⟩], [])])).isNone = true := by decide +kernel
  exact Option.isNone_iff_eq_none.1 h

/-- The consecutive pairs of a list, latest point first: a line through its points. -/
def lineThrough (l : List V) : List (Option V × Option V) := (List.range (l.length - 1)).map fun i => (l[i + 1]?, l[i]?)

theorem pieces_line (p : Pts V) (l : List V) (m : List (Option V)) (h : p.shown = l.map some ++ m) : pieces p (lineOf l.length) = lineThrough l := by
  unfold pieces lineOf lineThrough
  rw [List.filterMap_cons_none (by rfl), List.filterMap_map, ← List.filterMap_eq_map]
  apply List.filterMap_congr
  intro i hi
  rw [List.mem_range] at hi
  have a : ∀ j, j < l.length → (p.shown[j]?).join = l[j]? := by
    intro j hj
    rw [h, List.getElem?_append_left (by simpa using hj), List.getElem?_map, List.getElem?_eq_getElem hj]
    rfl
  simp only [Function.comp]
  rw [a _ (by omega), a _ (by omega)]

theorem pieces_gt (p : Pts V) (l : List V) (k : Nat) (hk : k ≤ l.length) (h : p.shown = l.map some) : pieces p (lineOf k) = lineThrough (l.take k) := by
  have e : p.shown = (l.take k).map some ++ (l.drop k).map some := by rw [h, ← List.map_append, List.take_append_drop]
  have := pieces_line p (l.take k) _ e
  rwa [List.length_take_of_le hk] at this

/-- C244: up to as many calls as the true trajectory has poses succeed; then the line through the locations of the heaviest particles of all calls is drawn, and as much of the true and of the dead-reckoning trajectory. -/
theorem C244_lines (pos : P → V) (inv : P → M → V) (lms gt dr : List V) (fs : List (List (Part P K (V × K)) × List M)) (hp : ∀ g ∈ fs, Proper g.1) (hl : fs.length ≤ gt.length) (hd : fs.length ≤ dr.length) :
    ∃ d poses, (setup lms gt dr).bind (updates pos inv pickPHD fs) = some d ∧ List.Forall₂ (fun f x => ∃ b, Heaviest f.1 b ∧ x = pos b.pose) fs poses ∧
      pieces d.est d.estCells = lineThrough poses ∧ pieces d.gt d.gtCells = lineThrough (gt.take fs.length) ∧ pieces d.dr d.drCells = lineThrough (dr.take fs.length) ∧
      d.gtMap.shown = lms.map some ∧ d.gtMapCol.shown = lms.map fun _ => some (0, 191, 255) := by
  obtain ⟨d, poses, e, h, hf, -⟩ := runs pos inv pickPHD (fun l => if 1 / 2 < l.2 then some l.1 else none) lms gt dr fs hp (fun _ _ _ _ _ _ => rfl) hl
  have hlen := hf.length_eq
  refine ⟨d, poses, e, hf, ?_, ?_, ?_, h.gtMap, h.gtMapCol⟩
  · rw [h.estCells]
    refine pieces_line _ _ (List.replicate (gt.length - poses.length) none) ?_
    unfold Pts.shown
    rw [h.est, h.n]
    exact List.take_of_length_le (by simp; omega)
  · rw [h.gtCells, ← hlen]
    exact pieces_gt _ _ _ hl h.gtPts
  · rw [h.drCells, ← hlen]
    exact pieces_gt _ _ _ hd h.drPts

/-- C244: one call more writes outside the points of the estimated trajectory. -/
theorem C244_range (pos : P → V) (inv : P → M → V) (lms gt dr : List V) (fs : List (List (Part P K (V × K)) × List M)) (hp : ∀ g ∈ fs, Proper g.1) (hl : fs.length = gt.length)
    (f : List (Part P K (V × K)) × List M) : (setup lms gt dr).bind (updates pos inv pickPHD (fs ++ [f])) = none := by
  obtain ⟨d, poses, e, h, hf, -⟩ := runs pos inv pickPHD (fun l => if 1 / 2 < l.2 then some l.1 else none) lms gt dr fs hp (fun _ _ _ _ _ _ => rfl) hl.le
  have e1 : (setup lms gt dr).bind (updates pos inv pickPHD (fs ++ [f])) = ((setup lms gt dr).bind (updates pos inv pickPHD fs)).bind (fun d => update pos inv pickPHD f.1 f.2 d) := by
    cases setup lms gt dr with
    | none => rfl
    | some d0 => simp only [Option.bind_some, updates, List.foldlM_append, Option.bind_eq_bind]; congr 1; funext d; simp
  rw [e1, e]
  exact update_none pos inv pickPHD f.1 f.2 d (traj_full h (by rw [← hf.length_eq]; omega))

/-- C244 for the simulator: `kMax` poses and `kMax - 1` calls are within the range. -/
theorem C244_sim (pos : P → V) (inv : P → M → V) (lms gt dr : List V) (kMax : Nat) (fs : List (List (Part P K (V × K)) × List M)) (hp : ∀ g ∈ fs, Proper g.1) (hk : 1 ≤ kMax)
    (h1 : gt.length = kMax) (h2 : fs.length = kMax - 1) : ((setup lms gt dr).bind (updates pos inv pickPHD fs)).isSome := by
  obtain ⟨d, poses, e, -⟩ := runs pos inv pickPHD (fun l => if 1 / 2 < l.2 then some l.1 else none) lms gt dr fs hp (fun _ _ _ _ _ _ => rfl) (by omega)
  rw [e]
  rfl

example : ((setup [9] [0, 1, 3] [0, 1, 2]).bind (updates id (fun x (z : ℚ) => x + z) pickPHD [(exPs, []), ([⟨4, 1, []⟩], [])])).map
    (fun d : Disp ℚ => [pieces d.est d.estCells, pieces d.gt d.gtCells, pieces d.dr d.drCells]) = some [[(some 4, some 1)], [(some 1, some 0)], [(some 1, some 0)]] := by decide +kernel

/-- A filter without errors in a run of the simulator: the heaviest particle of the `i`-th call (made in step `i + 1`, src/rbphdslam6dSim.cpp 642-759) is at the true pose of that step. -/
def Perfect (pos : P → V) (gt : List V) (fs : List (List (Part P K (V × K)) × List M)) : Prop :=
  fs.length + 1 = gt.length ∧ ∀ i f b, fs[i]? = some f → Heaviest f.1 b → gt[i + 1]? = some (pos b.pose)

/-- C245, what holds: for a filter without errors the estimated trajectory that is drawn is the true one from the second pose on, whereas the true trajectory that is drawn ends one pose before the last. -/
theorem C245_partial (pos : P → V) (inv : P → M → V) (lms gt dr : List V) (fs : List (List (Part P K (V × K)) × List M)) (hp : ∀ g ∈ fs, Proper g.1) (hf : Perfect pos gt fs) :
    ∃ d, (setup lms gt dr).bind (updates pos inv pickPHD fs) = some d ∧ pieces d.est d.estCells = lineThrough gt.tail ∧ pieces d.gt d.gtCells = lineThrough gt.dropLast := by
  obtain ⟨d, poses, e, h, h2, -⟩ := runs pos inv pickPHD (fun l => if 1 / 2 < l.2 then some l.1 else none) lms gt dr fs hp (fun _ _ _ _ _ _ => rfl) (by have := hf.1; omega)
  have hlen := h2.length_eq
  have hl := hf.1
  have ep : poses = gt.tail := by
    apply List.ext_getElem?
    intro i
    rw [List.getElem?_tail]
    by_cases hi : i < fs.length
    · obtain ⟨b, hb, hx⟩ := (List.forall₂_iff_get.1 h2).2 i hi (by omega)
      rw [hf.2 i _ b (List.getElem?_eq_getElem hi) hb, ← hx, List.getElem?_eq_getElem (by omega)]
      rfl
    · rw [List.getElem?_eq_none (by omega), List.getElem?_eq_none (by omega)]
  refine ⟨d, e, ?_, ?_⟩
  · rw [h.estCells, ← ep]
    refine pieces_line _ _ (List.replicate (gt.length - poses.length) none) ?_
    unfold Pts.shown
    rw [h.est, h.n]
    exact List.take_of_length_le (by simp; omega)
  · rw [h.gtCells, List.dropLast_eq_take, ← hlen, show gt.length - 1 = fs.length by omega]
    exact pieces_gt _ _ _ (by omega) h.gtPts

/-- C245 (a filter without errors is drawn on the true trajectory) does not hold: the true trajectory is drawn one step late. -/
theorem C245_violated : ∃ (gt : List ℚ) (fs : List (List (Part ℚ ℚ (ℚ × ℚ)) × List ℚ)), (∀ g ∈ fs, Proper g.1) ∧ Perfect id gt fs ∧
    ∀ d, (setup [] gt gt).bind (updates id (fun x z => x + z) pickPHD fs) = some d → pieces d.est d.estCells ≠ pieces d.gt d.gtCells := by
  have hp : ∀ g ∈ ([([⟨1, 1, []⟩], []), ([⟨3, 1, []⟩], [])] : List (List (Part ℚ ℚ (ℚ × ℚ)) × List ℚ)), Proper g.1 := by
    intro g hg
    simp only [List.mem_cons, List.not_mem_nil, or_false] at hg
    rcases hg with rfl | rfl <;> exact ⟨by simp, by simp⟩
  have hf : Perfect id [0, 1, 3] ([([⟨1, 1, []⟩], []), ([⟨3, 1, []⟩], [])] : List (List (Part ℚ ℚ (ℚ × ℚ)) × List ℚ)) := by
    refine ⟨rfl, ?_⟩
    rintro i f b hi ⟨j, hj, -⟩
    have hb : b ∈ f.1 := List.mem_of_getElem? hj
    match i with
    | 0 => cases hi; simp only [List.mem_singleton] at hb; rw [hb]; rfl
    | 1 => cases hi; simp only [List.mem_singleton] at hb; rw [hb]; rfl
    | i + 2 => simp at hi
  refine ⟨_, _, hp, hf, ?_⟩
  intro d hd
  obtain ⟨d', e, h1, h2⟩ := C245_partial id (fun x z => x + z) [] _ [0, 1, 3] _ hp hf
  rw [hd] at e
  cases e
  rw [h1, h2]
  decide

/-- A filter that is where the robot is. -/
example : Perfect (K := ℚ) (M := ℚ) id [(0 : ℚ), 1, 3] [([⟨1, 1, []⟩], []), ([⟨3, 1, []⟩], [])] := by
  refine ⟨rfl, fun i f b hf hb => ?_⟩
  match i, hf with
  | 0, hf => cases hf; obtain ⟨j, h, -⟩ := hb; have := List.mem_of_getElem? h; simp at this; subst this; rfl
  | 1, hf => cases hf; obtain ⟨j, h, -⟩ := hb; have := List.mem_of_getElem? h; simp at this; subst this; rfl

end VisualProps
end RFS
