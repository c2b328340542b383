import Verif.Props.MBFilter

/-!
Lemmas for properties C178-C179: runs of multi-Bernoulli filters whose map update preserves a condition on maps, and mixtures through the steps of an update.
-/

set_option linter.unusedSectionVars false

namespace RFS
namespace MBFProps
open MBF PF GMB
open GM hiding normalizeWeights

variable {X D Z B K : Type*} [Field K] [LinearOrder K] [IsStrictOrderedRing K]

/-- Every particle has a positive weight and a map with `G`. -/
def Good (G : D → Prop) (f : Filt X D Z B K) : Prop := ∀ p ∈ f.parts, 0 < p.w ∧ G p.st.m

theorem births_good {o : Ops X D Z B K} {G : D → Prop} (hb : ∀ x b z m, G m → G (o.born x b z m)) {Zs : List Z} {x : X} {u : List B} {m m' : D} (h : Births o Zs x u m m') (hm : G m) : G m' := by
  obtain ⟨zs, -, rfl⟩ := h
  have key : ∀ (l : List (B × Z)) (m : D), G m → G (l.foldl (fun m bz => o.born x bz.1 bz.2 m) m) := by
    intro l
    induction l with
    | nil => intro m hm; exact hm
    | cons a l ih => intro m hm; exact ih _ (hb _ _ _ _ hm)
  exact key _ _ hm

/-- All random numbers of a run are in `[0, 1)`. -/
def Draws : List (Cmd X Z K) → Prop
  | [] => True
  | .predict _ :: cs => Draws cs
  | .update _ _ r _ :: cs => (0 ≤ r ∧ r < 1) ∧ Draws cs

theorem predict_good {o : Ops X D Z B K} {G : D → Prop} (hb : ∀ x b z m, G m → G (o.born x b z m)) (hst : ∀ m, G m → ∃ m', o.still m = some m' ∧ G m')
    {n : Nat} {fr : Bool} {f : Filt X D Z B K} (hi : Inv o n fr f) (hg : Good G f) (move : Nat → X → X) : ∃ f', predict o move f = .ok f' ∧ Good G f' := by
  obtain ⟨ps, hps⟩ := predict_no_meas hi move
  have hl : f.unused.length = f.parts.length := hi.unused.trans hi.parts.symm
  have h1 := (birthAll_iff o _ _ _ hl _).1 hps
  have hpg : ∀ p ∈ ps, 0 < p.w ∧ G p.st.m := by
    intro p hp
    obtain ⟨i, hi', rfl⟩ := List.getElem_of_mem hp
    obtain ⟨q, hq, m, hm, he⟩ := (forall2_get h1 i).2 _ (List.getElem?_eq_getElem hi')
    have hq1 := (List.of_mem_zip (List.mem_of_getElem? hq)).1
    rw [he]
    exact ⟨(hg _ hq1).1, births_good hb hm (hg _ hq1).2⟩
  obtain ⟨ps', h2, h3⟩ := forall2_exists (f := fun q : Part (PState X D) K × Nat => (o.still q.1.st.m).map fun m => ({ q.1 with st := ⟨move q.2 q.1.st.x, m⟩ } : Part (PState X D) K))
    (P := fun _ p => 0 < p.w ∧ G p.st.m) ps.zipIdx (by
      intro q hq
      have hq' := List.mem_of_getElem? (List.mem_zipIdx_iff_getElem?.1 hq)
      obtain ⟨m', hm', hgm⟩ := hst _ (hpg _ hq').2
      exact ⟨({ q.1 with st := ⟨move q.2 q.1.st.x, m'⟩ } : Part (PState X D) K), by rw [hm']; rfl, (hpg _ hq').1, hgm⟩)
  refine ⟨_, by unfold predict; rw [hps]; simp only; rw [h2], ?_⟩
  intro p hp
  obtain ⟨i, hi', rfl⟩ := List.getElem_of_mem hp
  obtain ⟨q, -, -, hq⟩ := (forall2_get h3 i).2 _ (List.getElem?_eq_getElem hi')
  exact hq

theorem update_good {o : Ops X D Z B K} {G : D → Prop} (hu : ∀ x Zs m, Zs ≠ [] → G m → ∃ r, o.upd x Zs m = some r ∧ G r.2.1) (hlik : ∀ x Zs m, Zs ≠ [] → G m → 0 < o.lik x Zs m)
    {n : Nat} (hn : 0 < n) {fr : Bool} {f : Filt X D Z B K} (hi : Inv o n fr f) (hg : Good G f) (t tp : K) {r : K} (hr : 0 ≤ r ∧ r < 1) (Zs : List Z) :
    ∃ f', update o t tp r Zs f = .ok f' ∧ Good G f' := by
  by_cases hZ : Zs = []
  · subst hZ
    exact ⟨{ f with nUpd := f.nUpd + 1, meas := [] }, by unfold update; simp only [List.length_nil, if_true], hg⟩
  have hpos : ∀ p ∈ f.parts, 0 < post o Zs p := fun p hp => mul_pos (hlik _ _ _ hZ (hg p hp).2) (hg p hp).1
  have hsum : 0 < (f.parts.map (post o Zs)).sum := by
    apply List.sum_pos
    · intro y hy
      obtain ⟨p, hp, rfl⟩ := List.mem_map.1 hy
      exact hpos p hp
    · intro h0
      rw [List.map_eq_nil_iff] at h0
      have := hi.parts
      rw [h0, List.length_nil] at this
      omega
  obtain ⟨f', hf'⟩ := C177_defined o t tp r Zs hZ f (by rw [hi.parts, hi.unused]) hr hsum fun p hp => by
    obtain ⟨v, hv, -⟩ := hu p.st.x Zs p.st.m hZ (hg p hp).2
    exact ⟨v, hv⟩
  refine ⟨f', hf', ?_⟩
  obtain ⟨-, h2, h3⟩ := C177_weights o t tp r Zs hZ f f' hf' hr hsum
  intro q hq
  by_cases h0 : f'.nUpd = 0
  · obtain ⟨hw, p, hp, v, hv, hst⟩ := (h2 h0).2 q hq
    obtain ⟨v', hv', hg'⟩ := hu p.st.x Zs p.st.m hZ (hg p hp).2
    rw [hv] at hv'
    cases hv'
    rw [hw, hst]
    exact ⟨one_pos, hg'⟩
  · obtain ⟨i, hi', rfl⟩ := List.getElem_of_mem hq
    have hl : i < f.parts.length := by rw [← parts_length hf']; exact hi'
    obtain ⟨v, hv, he⟩ := (h3 h0).2.2 i _ (List.getElem?_eq_getElem hl)
    rw [List.getElem?_eq_getElem hi', Option.some.injEq] at he
    have hp := List.getElem_mem hl
    obtain ⟨v', hv', hg'⟩ := hu _ Zs _ hZ (hg _ hp).2
    rw [hv] at hv'
    cases hv'
    rw [he]
    exact ⟨div_pos (hpos _ hp) hsum, hg'⟩

theorem exec_good {o : Ops X D Z B K} (ho : Reports o) {G : D → Prop} (hu : ∀ x Zs m, Zs ≠ [] → G m → ∃ r, o.upd x Zs m = some r ∧ G r.2.1)
    (hlik : ∀ x Zs m, Zs ≠ [] → G m → 0 < o.lik x Zs m) (hb : ∀ x b z m, G m → G (o.born x b z m)) (hst : ∀ m, G m → ∃ m', o.still m = some m' ∧ G m') {n : Nat} (hn : 0 < n) :
    ∀ (cmds : List (Cmd X Z K)) (fr : Bool) (f : Filt X D Z B K), Inv o n fr f → Good G f → Proper fr cmds → Draws cmds → ∃ f', exec o cmds f = .ok f' ∧ Good G f' := by
  intro cmds
  induction cmds with
  | nil => intro fr f _ hg _ _; exact ⟨f, rfl, hg⟩
  | cons c cs ih =>
    intro fr f hi hg hp hd
    cases c with
    | predict move =>
      obtain ⟨f1, h1, hg1⟩ := predict_good hb hst hi hg move
      obtain ⟨f2, h2, hg2⟩ := ih true f1 (inv_predict hi h1) hg1 hp hd
      exact ⟨f2, by simp only [exec, step, h1, h2], hg2⟩
    | update t tp r Zs =>
      obtain ⟨f1, h1, hg1⟩ := update_good hu hlik hn hi hg t tp hd.1 Zs
      obtain ⟨f2, h2, hg2⟩ := ih _ f1 (inv_update ho hi hp.1 h1) hg1 hp.2 hd.2
      exact ⟨f2, by simp only [exec, step, h1, h2], hg2⟩

theorem ctor_good {G : D → Prop} (n : Nat) (x0 : X) (m0 : D) (h : G m0) : Good G (ctor n x0 m0 : Filt X D Z B K) := by
  intro p hp
  obtain ⟨i, hi, rfl⟩ := List.getElem_of_mem hp
  have hw : ¬ ((1 : K) < 0) := not_lt.2 zero_le_one
  simp [ctor, addParticles, hw, h]

/-! ### Mixtures -/

variable {d : Nat}

/-- A mixture without holes, whose weights are not negative and have a total of at most one. -/
structure Solid (m : GMix K d) : Prop where
  n : m.n = m.g.length
  lm : ∀ e ∈ m.g, e.lm.isSome
  w0 : ∀ e ∈ m.g, 0 ≤ e.w
  w1 : (m.g.map Gauss.w).sum ≤ 1

/-- The same with holes of weight zero. -/
structure Holed (m : GMix K d) : Prop where
  n : m.n = cnt m.g
  lm : ∀ e ∈ m.g, e.lm = none → e.w = 0
  w0 : ∀ e ∈ m.g, 0 ≤ e.w
  w1 : (m.g.map Gauss.w).sum ≤ 1

theorem cnt_all {g : List (Gauss K d)} (h : ∀ e ∈ g, e.lm.isSome) : cnt g = g.length := by
  unfold cnt
  rw [List.countP_eq_length]
  exact h

theorem comps_solid {m : GMix K d} (hn : m.n = m.g.length) (hl : ∀ e ∈ m.g, e.lm.isSome) : ∃ c, CBM.comps m = some c ∧ c.map Prod.fst = m.g.map Gauss.w := by
  obtain ⟨c, h1, h2⟩ := forall2_exists (f := fun i : Nat => (m.g[i]?).bind fun e => e.lm.map fun l => (e.w, l)) (P := fun i x => ∃ e, m.g[i]? = some e ∧ x.1 = e.w) (List.range m.g.length) (by
    intro i hi
    rw [List.mem_range] at hi
    obtain ⟨l, hl'⟩ := Option.isSome_iff_exists.1 (hl _ (List.getElem_mem hi))
    exact ⟨(m.g[i].w, l), by rw [List.getElem?_eq_getElem hi, Option.bind_some, hl']; rfl, _, List.getElem?_eq_getElem hi, rfl⟩)
  refine ⟨c, by unfold CBM.comps; rw [hn, Int.toNat_natCast]; exact h1, ?_⟩
  refine List.ext_getElem? fun i => ?_
  have hlen := h2.length_eq
  rw [List.length_range] at hlen
  rw [List.getElem?_map, List.getElem?_map]
  by_cases hi : i < m.g.length
  · obtain ⟨x, hx, -, e, he, hw⟩ := (forall2_get h2 i).1 i (List.getElem?_range hi)
    rw [hx, he, Option.map_some, Option.map_some, hw]
  · rw [List.getElem?_eq_none (by omega), List.getElem?_eq_none (by omega)]
    rfl

theorem solid_of_comps {m : GMix K d} (hn : m.n = m.g.length) (hl : ∀ e ∈ m.g, e.lm.isSome) {c : List (K × Lm K d)} (hc : CBM.comps m = some c) (h0 : ∀ x ∈ c, 0 ≤ x.1)
    (h1 : (c.map Prod.fst).sum ≤ 1) : Solid m := by
  obtain ⟨c', hc', he⟩ := comps_solid hn hl
  rw [hc] at hc'
  cases hc'
  refine ⟨hn, hl, fun e hm => ?_, by rw [← he]; exact h1⟩
  have : e.w ∈ c.map Prod.fst := by rw [he]; exact List.mem_map_of_mem hm
  obtain ⟨x, hx, hxe⟩ := List.mem_map.1 this
  rw [← hxe]
  exact h0 x hx

theorem trackOk_of_solid {t : Track K d} (h : Solid t.gm) (h0 : 0 ≤ t.P) (h1 : t.P < 1) : CBMProps.TrackOk t := by
  obtain ⟨c, hc, he⟩ := comps_solid h.n h.lm
  refine ⟨h0, h1, c, hc, fun x hx => ?_, by rw [he]; exact h.w1⟩
  have : x.1 ∈ t.gm.g.map Gauss.w := by rw [← he]; exact List.mem_map_of_mem hx
  obtain ⟨e, hm, hxe⟩ := List.mem_map.1 this
  rw [← hxe]
  exact h.w0 e hm

theorem mkMix_shape (xs : List (Lm K d × K)) : (CBM.mkMix xs).n = (CBM.mkMix xs).g.length ∧ ∀ e ∈ (CBM.mkMix xs).g, e.lm.isSome := by
  refine ⟨by simp [CBM.mkMix], fun e he => ?_⟩
  simp only [CBM.mkMix] at he
  obtain ⟨x, -, rfl⟩ := List.mem_map.1 he
  rfl

/-- Tracks of a map are in order: existence probability in `[0, 1)`, mixture without holes. -/
def SolidMap (ts : List (Track K d)) : Prop := ∀ t ∈ ts, 0 ≤ t.P ∧ t.P < 1 ∧ Solid t.gm

theorem updateMap_solid {nZ : Nat} {env : CBM.Env K d nZ} (he : CBMProps.EnvOk env) (garb : Nat → GMix K d) {ts : List (Track K d)} (h : SolidMap ts) :
    ∃ ub ts' un, CBM.updateMap env garb ts = some (ub, ts', un) ∧ SolidMap ts' := by
  have hok : ∀ t ∈ ts, CBMProps.TrackOk t := fun t ht => trackOk_of_solid (h t ht).2.2 (h t ht).1 (h t ht).2.1
  unfold CBM.updateMap
  split_ifs with h0
  · exact ⟨_, _, _, rfl, h⟩
  obtain ⟨cs, h1, h2, h3⟩ := CBMProps.updateTracks_eq env ts hok
  have hl : ts.length = (cs.map (fun x => CBM.legacy env x.1 x.2)).length := by rw [← h1]; simp
  have hn : nZ = ((List.finRange nZ).map (CBMProps.newTrack env (cs.filterMap (CBM.seenOf env)))).length := by simp
  obtain ⟨ub, kept, e1, e2, e3, -⟩ := CBM.compact_eq garb (cs.map (fun x => CBM.legacy env x.1 x.2)) ((List.finRange nZ).map (CBMProps.newTrack env (cs.filterMap (CBM.seenOf env))))
  rw [← hl, ← hn] at e1
  refine ⟨ub, _, _, by rw [h3, Option.bind_some, e1], ?_⟩
  have hseen : ∀ s ∈ cs.filterMap (CBM.seenOf env), 0 ≤ s.p ∧ s.p < 1 ∧ 0 ≤ s.pd ∧ s.pd ≤ 1 ∧ ∀ y ∈ s.c, 0 ≤ y.1 := by
    intro s hs
    obtain ⟨x, hx, hxs⟩ := List.mem_filterMap.1 hs
    unfold CBM.seenOf at hxs
    split_ifs at hxs
    cases hxs
    obtain ⟨a1, -, a3, a4⟩ := h2 x hx
    obtain ⟨p0, p1⟩ := CBMProps.pd_range he a3 a4
    exact ⟨a1.1, a1.2.1, p0, p1, a3⟩
  intro t ht
  rcases List.mem_append.1 ht with ht | ht
  · obtain ⟨x, hx, rfl⟩ := List.mem_map.1 ht
    obtain ⟨a1, a2, a3, a4⟩ := h2 x hx
    have hxt : x.1 ∈ ts := by rw [← h1]; exact List.mem_map_of_mem hx
    have := CBMProps.legacy_ok he a1 a2 a3 a4
    exact ⟨this.1, this.2.1, (h _ hxt).2.2⟩
  · obtain ⟨i, hi, rfl⟩ := List.getElem_of_mem ht
    have e4 := e3 i hi
    rw [List.getElem?_eq_getElem hi] at e4
    obtain ⟨z, -, hz⟩ := List.mem_map.1 (List.mem_of_getElem? e4.symm)
    rw [← hz]
    obtain ⟨b0, b1, c, hc, c0, c1⟩ := CBMProps.newTrack_ok he z hseen
    obtain ⟨m1, m2⟩ := mkMix_shape ((CBM.rawMix env (cs.filterMap (CBM.seenOf env)) z).map fun x => (x.1, x.2 / ((CBM.rawMix env (cs.filterMap (CBM.seenOf env)) z).map Prod.snd).sum))
    exact ⟨b0, b1, solid_of_comps m1 m2 hc c0 c1⟩

theorem merge_solid (maha : Lm K d → Lm K d → K) (t f : K) {m : GMix K d} (h : Solid m) : ∃ r, merge maha t f m = some r ∧ Holed r.2 := by
  have hnone : ∀ e ∈ m.g, e.lm = none → e.w = 0 := fun e he hn => by have := h.lm e he; rw [hn] at this; cases this
  obtain ⟨s, e, ⟨h1, h2, h3⟩, -⟩ := merge_inv (maha := maha) (t := t) (f := f)
    (fun s => GMProps.NN s.2 ∧ s.2.n = cnt s.2.g ∧ (s.2.g.map Gauss.w).sum = (m.g.map Gauss.w).sum) m
    ⟨⟨h.w0, hnone, by simp⟩, by simp only; rw [h.n, cnt_all h.lm], rfl⟩ (by
      rintro k m1 i j b m' ⟨a1, a2, a3⟩ hl hij hj he
      have hi : i < m1.g.length := by omega
      have hj' : j < m1.g.length := by omega
      refine ⟨GMProps.merge2_NN (by omega) hi hj' a1 he, ?_, ?_⟩
      · obtain ⟨b1, b2⟩ := merge2_count (by omega) hi hj' he
        simp only at a2 ⊢
        omega
      · simp only at a3 ⊢
        rw [← a3]
        exact merge2_sum (F := Gauss.w) ⟨rfl, fun _ _ _ _ _ _ _ => rfl⟩ (by omega) hi hj' he)
  exact ⟨s, e, h2, h1.2.1, h1.1, by rw [h3]; exact h.w1⟩

theorem prune_solid {srt : List (Gauss K d) → List (Gauss K d)} (hs : IsSort srt) {t : K} (ht : 0 < t) {m : GMix K d} (h : Holed m) : ∃ r, prune srt t m = some r ∧ Solid r.2 := by
  obtain ⟨k, m', e, h1, -, -, h4⟩ := prune_spec hs t m
  have hmem : ∀ x ∈ m'.g, x ∈ m.g ∧ t ≤ x.w := fun x hx => by simpa using h1.mem_iff.1 hx
  have hl : ∀ x ∈ m'.g, x.lm.isSome := by
    intro x hx
    obtain ⟨a, b⟩ := hmem x hx
    rcases Option.eq_none_or_eq_some x.lm with hn | ⟨l, hl⟩
    · rw [h.lm x a hn] at b
      exact absurd ht (not_lt.2 b)
    · rw [hl]; rfl
  refine ⟨_, e, ?_, hl, fun x hx => h.w0 x (hmem x hx).1, ?_⟩
  · have := h.n
    rw [cnt_all hl] at h4
    simp only
    omega
  · simp only
    rw [(h1.map Gauss.w).sum_eq]
    refine le_trans ?_ h.w1
    exact ((List.filter_sublist (l := m.g)).map Gauss.w).sum_le_sum fun x hx => by
      obtain ⟨y, hy, rfl⟩ := List.mem_map.1 hx
      exact h.w0 y hy

theorem still_solid (f : Lm K d → Lm K d) {m : GMix K d} (h : Solid m) : ∃ m', (List.range m.n.toNat).foldlM (stillStep f) m = some m' ∧ Solid m' ∧ m'.g.map Gauss.w = m.g.map Gauss.w := by
  have key : ∀ (is : List Nat) (m1 : GMix K d), Solid m1 → m1.g.length = m.g.length → m1.g.map Gauss.w = m.g.map Gauss.w → (∀ i ∈ is, i < m.g.length) →
      ∃ m', is.foldlM (stillStep f) m1 = some m' ∧ Solid m' ∧ m'.g.map Gauss.w = m.g.map Gauss.w := by
    intro is
    induction is with
    | nil => intro m1 h1 _ hw _; exact ⟨m1, rfl, h1, hw⟩
    | cons i is ih =>
      intro m1 h1 hl hw hi
      have hi' : i < m1.g.length := by rw [hl]; exact hi i (by simp)
      obtain ⟨l, hlm⟩ := Option.isSome_iff_exists.1 (h1.lm _ (List.getElem_mem hi'))
      have hst : stillStep f m1 i = some { m1 with g := m1.g.set i { m1.g[i] with lm := some (f l) } } := by
        unfold stillStep
        rw [List.getElem?_eq_getElem hi']
        simp only [hlm, Option.map_some]
      have hws : (m1.g.set i { m1.g[i] with lm := some (f l) }).map Gauss.w = m1.g.map Gauss.w := by
        rw [List.map_set]
        simp only
        rw [← List.getElem_map Gauss.w (h := by rw [List.length_map]; exact hi'), List.set_getElem_self]
      rw [List.foldlM_cons, hst]
      refine ih _ ⟨by simp only [List.length_set]; exact h1.n, ?_, ?_, by simp only; rw [hws]; exact h1.w1⟩ (by simp only [List.length_set]; exact hl) (by simp only; rw [hws, hw])
        fun j hj => hi j (by simp [hj])
      · intro e he
        rcases List.mem_or_eq_of_mem_set he with he | rfl
        · exact h1.lm e he
        · rfl
      · intro e he
        rcases List.mem_or_eq_of_mem_set he with he | rfl
        · exact h1.w0 e he
        · exact h1.w0 m1.g[i] (List.getElem_mem hi')
  exact key _ m h rfl rfl fun i hi => by rw [List.mem_range, h.n] at hi; simpa using hi

theorem addGaussian_solid (l : Lm K d) : Solid (addGaussian empty l (1 : K)) := by
  refine ⟨by simp [addGaussian, empty], ?_, ?_, ?_⟩ <;> simp [addGaussian, empty]

end MBFProps
end RFS
