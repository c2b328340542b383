import Verif.Lemmas.MBRuns
import Verif.Props.LMB

/-!
Lemmas for property C180: what runs of a multi-Bernoulli filter preserve as long as they are defined, and mixtures through the update of the LMB filter.
-/

set_option linter.unusedSectionVars false

namespace RFS
namespace MBFProps
open MBF PF GMB
open GM hiding normalizeWeights

section Runs
variable {X D Z B K : Type*} [Field K] [LinearOrder K] [IsStrictOrderedRing K]

theorem copyLoop_mem {S : Type*} (flag : Nat → Bool) (n : Nat) (Q : S → Prop) : ∀ (L : List Nat) (prev : Option Nat) (s : List (Part S K) × Nat) (P : List (Part S K)),
    (∀ p ∈ s.1, Q p.st) → copyLoop flag n L prev s = some P → ∀ p ∈ P, Q p.st := by
  intro L
  induction L with
  | nil => intro prev s P hs h; unfold copyLoop at h; cases h; exact hs
  | cons a L ih =>
    intro prev s P hs h
    unfold copyLoop at h
    have key : ∀ p (f : Nat), s.1[a]? = some p → ∀ q ∈ s.1.set f { p with parent := p.id }, Q q.st := by
      intro p f hp q hq
      rcases List.mem_or_eq_of_mem_set hq with hq | rfl
      · exact hs q hq
      · exact hs p (List.mem_of_getElem? hp)
    split at h
    · cases h
    · rename_i p hp
      split at h
      · exact ih _ _ _ (key p _ hp) h
      · split at h
        · cases h
        · exact ih _ _ _ (key p _ hp) h

theorem resample_mem {S : Type*} (Q : S → Prop) (P0 : List (Part S K)) (t tp u : K) (b : Bool) (P : List (Part S K)) (h0 : ∀ p ∈ P0, Q p.st)
    (h : resample P0 0 false t tp u = some (b, P)) : ∀ p ∈ P, Q p.st := by
  have hn : ∀ p ∈ normalizeWeights P0, Q p.st := by
    intro p hp
    obtain ⟨q, hq, rfl⟩ := List.mem_map.1 hp
    exact h0 q hq
  unfold resample at h
  simp only at h
  split at h
  · cases h
    exact hn
  · split at h
    · cases h
    · split at h
      · cases h
      · rename_i P' hc
        cases h
        intro p hp
        obtain ⟨q, hq, rfl⟩ := List.mem_map.1 hp
        exact copyLoop_mem _ _ Q _ _ _ _ hn hc q (List.mem_of_mem_take hq)

/-- Every map has `G`, every entry of the lists of unused measurements has `H`. -/
def Kept (G : D → Prop) (H : B → Prop) (f : Filt X D Z B K) : Prop := (∀ p ∈ f.parts, G p.st.m) ∧ ∀ u ∈ f.unused, ∀ b ∈ u, H b

theorem birthLoop_kept {o : Ops X D Z B K} {G : D → Prop} {H : B → Prop} (hb : ∀ x b z m, H b → G m → G (o.born x b z m)) (meas : List Z) (x : X) : ∀ (l : List B) (m m' : D), (∀ b ∈ l, H b) → G m →
    birthLoop o meas x l m = .ok m' → G m' := by
  intro l
  induction l with
  | nil => intro m m' _ hm h; cases h; exact hm
  | cons b l ih =>
    intro m m' hl hm h
    unfold birthLoop at h
    split at h
    · cases h
    · exact ih _ _ (fun c hc => hl c (by simp [hc])) (hb _ _ _ _ (hl b (by simp)) hm) h

theorem birthAll_kept {o : Ops X D Z B K} {G : D → Prop} {H : B → Prop} (hb : ∀ x b z m, H b → G m → G (o.born x b z m)) (meas : List Z) : ∀ (ps : List (Part (PState X D) K)) (us : List (List B))
    (ps' : List (Part (PState X D) K)), (∀ p ∈ ps, G p.st.m) → (∀ u ∈ us, ∀ b ∈ u, H b) → birthAll o meas ps us = .ok ps' → ∀ p ∈ ps', G p.st.m := by
  intro ps
  induction ps with
  | nil => intro us ps' _ _ h; cases h; simp
  | cons p ps ih =>
    intro us ps' hp hu h
    cases us with
    | nil => cases h
    | cons u us =>
      unfold birthAll at h
      split at h
      · cases h
      · rename_i m hm
        split at h
        · cases h
        · rename_i ps1 hps1
          cases h
          intro q hq
          rcases List.mem_cons.1 hq with rfl | hq
          · exact birthLoop_kept hb meas _ _ _ _ (fun b hb' => hu u (by simp) b (List.mem_reverse.1 hb')) (hp p (by simp)) hm
          · exact ih _ _ (fun r hr => hp r (by simp [hr])) (fun v hv => hu v (by simp [hv])) hps1 q hq

theorem step_kept {o : Ops X D Z B K} {G : D → Prop} {H : B → Prop} (hu : ∀ x Zs m r, Zs ≠ [] → G m → o.upd x Zs m = some r → G r.2.1 ∧ ∀ b ∈ r.2.2, H b)
    (hb : ∀ x b z m, H b → G m → G (o.born x b z m)) (hst : ∀ m m', G m → o.still m = some m' → G m') (c : Cmd X Z K) {f f' : Filt X D Z B K} (hk : Kept G H f) (h : step o f c = .ok f') : Kept G H f' := by
  cases c with
  | predict move =>
    unfold step predict at h
    simp only at h
    split at h
    · cases h
    · rename_i ps hps
      split at h
      · cases h
      · rename_i ps' hps'
        cases h
        have h1 := birthAll_kept hb _ _ _ _ hk.1 hk.2 hps
        have h2 := (mapM_some_iff _ _ _).1 hps'
        refine ⟨fun p hp => ?_, fun u hu b hbu => ?_⟩
        · obtain ⟨i, hi, rfl⟩ := List.getElem_of_mem hp
          obtain ⟨q, hq, hq2⟩ := (forall2_get h2 i).2 _ (List.getElem?_eq_getElem hi)
          obtain ⟨m', hm', he⟩ := Option.map_eq_some_iff.1 hq2
          rw [← he]
          exact hst _ _ (h1 _ (List.mem_of_getElem? (List.mem_zipIdx_iff_getElem?.1 (List.mem_of_getElem? hq)))) hm'
        · obtain ⟨i, hi, rfl⟩ := List.getElem_of_mem hu
          simp only [List.getElem_mapIdx] at hbu
          split at hbu
          · simp at hbu
          · exact hk.2 _ (List.getElem_mem _) b hbu
  | update t tp r Zs =>
    have h' : update o t tp r Zs f = .ok f' := h
    by_cases hZ : Zs = []
    · subst hZ
      rw [update_empty h']
      exact hk
    · obtain ⟨-, us, h1, -, h3, -, h5⟩ := update_ok hZ h'
      have hs := updAll_spec h1
      have hus : ∀ u ∈ us, G u.2.1.st.m ∧ ∀ b ∈ u.2.2, H b := by
        intro u hu'
        obtain ⟨i, hi, rfl⟩ := List.getElem_of_mem hu'
        obtain ⟨p, hp, v, hv, he⟩ := (forall2_get hs i).2 _ (List.getElem?_eq_getElem hi)
        rw [he]
        exact hu _ _ _ _ hZ (hk.1 _ (List.mem_of_getElem? hp)) hv
      have hus' : ∀ p ∈ us.map fun u => u.2.1, (fun s : PState X D => G s.m) p.st := by
        intro p hp
        obtain ⟨u, hu', rfl⟩ := List.mem_map.1 hp
        exact (hus u hu').1
      refine ⟨?_, ?_⟩
      · rcases h5 with ⟨-, -, h5⟩ | ⟨-, h5, -⟩
        · exact resample_mem (fun s : PState X D => G s.m) _ _ _ _ _ _ hus' h5
        · rw [h5]
          intro p hp
          obtain ⟨q, hq, rfl⟩ := List.mem_map.1 hp
          exact hus' q hq
      · rw [h3]
        intro u hu' b hbu
        rcases List.mem_append.1 hu' with hu' | hu'
        · obtain ⟨v, hv, rfl⟩ := List.mem_map.1 hu'
          exact (hus v hv).2 b hbu
        · exact hk.2 u (List.mem_of_mem_drop hu') b hbu

theorem exec_kept {o : Ops X D Z B K} {G : D → Prop} {H : B → Prop} (hu : ∀ x Zs m r, Zs ≠ [] → G m → o.upd x Zs m = some r → G r.2.1 ∧ ∀ b ∈ r.2.2, H b)
    (hb : ∀ x b z m, H b → G m → G (o.born x b z m)) (hst : ∀ m m', G m → o.still m = some m' → G m') : ∀ (cmds : List (Cmd X Z K)) (f f' : Filt X D Z B K), Kept G H f →
    exec o cmds f = .ok f' → Kept G H f' := by
  intro cmds
  induction cmds with
  | nil => intro f f' hk h; cases h; exact hk
  | cons c cs ih =>
    intro f f' hk h
    simp only [exec] at h
    split at h
    · cases h
    · rename_i f1 h1
      exact ih f1 f' (step_kept hu hb hst c hk h1) h

theorem ctor_kept {G : D → Prop} {H : B → Prop} (n : Nat) (x0 : X) (m0 : D) (h : G m0) : Kept G H (ctor n x0 m0 : Filt X D Z B K) := by
  refine ⟨fun p hp => ?_, fun u hu b hb => ?_⟩
  · obtain ⟨i, hi, rfl⟩ := List.getElem_of_mem hp
    simp [ctor, addParticles, h]
  · rw [List.eq_of_mem_replicate hu] at hb
    simp at hb

/-- Merging, pruning of tracks and pruning of Gaussians keep mixtures in order, and change no existence probability. -/
theorem tidy_solid {d : Nat} (maha : Lm K d → Lm K d → K) (mt mf : K) {srt : List (Gauss K d) → List (Gauss K d)} (hs : IsSort srt) {pt : K} (hp : 0 < pt) (tt : K) (garb : Nat → GMix K d)
    (ts : List (Track K d)) (h : ∀ t ∈ ts, Solid t.gm) : ∃ t1 ub t2 t3, mergeGM maha mt mf ts = some t1 ∧ pruneTracks garb tt t1 = some (ub, t2) ∧ pruneGM srt pt t2 = some t3 ∧
      ∀ t' ∈ t3, Solid t'.gm ∧ ∃ t ∈ ts, t'.P = t.P ∧ tt ≤ t.P := by
  obtain ⟨t1, h3, h4⟩ := forall2_exists (f := fun tr : Track K d => (merge maha mt mf tr.gm).map fun r => { tr with gm := r.2 }) (P := fun t t' => t'.P = t.P ∧ Holed t'.gm) ts (by
    intro t ht
    obtain ⟨r, hr, hh⟩ := merge_solid maha mt mf (h t ht)
    exact ⟨{ t with gm := r.2 }, by rw [hr]; rfl, rfl, hh⟩)
  obtain ⟨ub2, t2, h5, h6, -⟩ := GMBProps.C27_kept_tracks_partial garb tt t1
  have hmem2 : ∀ t, t ∈ t2 ↔ t ∈ t1 ∧ tt ≤ t.P := fun t => by rw [h6.mem_iff]; simp
  have hback : ∀ t' ∈ t1, Holed t'.gm ∧ ∃ t ∈ ts, t'.P = t.P := by
    intro t' ht'
    obtain ⟨i, hi, rfl⟩ := List.getElem_of_mem ht'
    obtain ⟨t, ht, -, hP, hh⟩ := (forall2_get h4 i).2 _ (List.getElem?_eq_getElem hi)
    exact ⟨hh, t, List.mem_of_getElem? ht, hP⟩
  obtain ⟨t3, h7, h8⟩ := forall2_exists (f := fun tr : Track K d => (prune srt pt tr.gm).map fun r => { tr with gm := r.2 }) (P := fun t t' => t'.P = t.P ∧ Solid t'.gm) t2 (by
    intro t ht
    obtain ⟨q, hq, hqs⟩ := prune_solid hs hp (hback t ((hmem2 t).1 ht).1).1
    exact ⟨{ t with gm := q.2 }, by rw [hq]; rfl, rfl, hqs⟩)
  refine ⟨t1, ub2, t2, t3, h3, h5, h7, ?_⟩
  intro t' ht'
  obtain ⟨i, hi, rfl⟩ := List.getElem_of_mem ht'
  obtain ⟨t, ht, -, hP, hq⟩ := (forall2_get h8 i).2 _ (List.getElem?_eq_getElem hi)
  obtain ⟨hm, hT⟩ := (hmem2 t).1 (List.mem_of_getElem? ht)
  obtain ⟨-, t'', ht'', e1⟩ := hback t hm
  exact ⟨hq, t'', ht'', by rw [hP, e1], by rw [← e1]; exact hT⟩

end Runs

/-! ### Mixtures in the update of the LMB filter -/

open LMB CBM Partition RFSLik
variable {d n nZ : Nat}

/-- A mixture without holes whose weights are not negative. -/
structure Plain (m : GMix ℝ d) : Prop where
  n : m.n = m.g.length
  lm : ∀ e ∈ m.g, e.lm.isSome
  w0 : ∀ e ∈ m.g, 0 ≤ e.w

structure StOk (s : St d n nZ) : Prop where
  mix : ∀ m, Solid (s.mix m)
  mm : ∀ m c, Plain (s.mm m c)
  mw : ∀ m k, 0 ≤ s.mw m k

theorem empty_plain : Plain (empty : GMix ℝ d) := ⟨rfl, by simp [empty], by simp [empty]⟩

theorem rowStep_mw {pd pe : Fin n → ℝ} (hpd : ∀ m, 0 ≤ pd m ∧ pd m ≤ 1) (hpe : ∀ m, 0 ≤ pe m ∧ pe m ≤ 1) (cols : List (Fin nZ)) {w : ℝ} (hw : 0 ≤ w) (x : Fin n × Nat) {t t' : Tab n nZ}
    (ht : ∀ m k, 0 ≤ t.mw m k) (h : rowStep pd pe cols w t x = some t') : ∀ m k, 0 ≤ t'.mw m k := by
  unfold rowStep at h
  split at h
  · cases h
    intro m k
    simp only
    split
    · exact add_nonneg (ht m k) hw
    · exact ht m k
  · split at h
    · cases h
    · cases h
      intro m k
      simp only
      split
      · refine add_nonneg (ht m k) (div_nonneg (mul_nonneg (mul_nonneg hw (hpe _).1) (sub_nonneg.2 (hpd _).2)) ?_)
        have := mul_le_one₀ (hpd x.1).2 (hpe x.1).1 (hpe x.1).2
        linarith
      · exact ht m k

theorem foldlM_keep {α β : Type*} (Q : β → Prop) (step : β → α → Option β) (l : List α) (hstep : ∀ t t', ∀ a ∈ l, Q t → step t a = some t' → Q t') :
    ∀ t t', Q t → l.foldlM step t = some t' → Q t' := by
  induction l with
  | nil => intro t t' ht h; cases h; exact ht
  | cons a l ih =>
    intro t t' ht h
    rw [List.foldlM_cons] at h
    cases h1 : step t a with
    | none => rw [h1] at h; cases h
    | some t1 =>
      rw [h1] at h
      exact ih (fun u u' b hb => hstep u u' b (by simp [hb])) t1 t' (hstep t t1 a (by simp) ht h1) h

theorem lexTab_keep (Q : Tab n nZ → Prop) (step : Tab n nZ → List Nat → Option (Tab n nZ)) (hstep : ∀ t t' o, Q t → step t o = some t' → Q t') :
    ∀ fuel st t t', Q t → lexTab step fuel st t = some t' → Q t' := by
  intro fuel
  induction fuel with
  | zero => intro st t t' _ h; cases h
  | succ fuel ih =>
    intro st t t' ht h
    unfold lexTab at h
    split at h
    · cases h
    · split at h
      · cases h; exact ht
      · obtain ⟨t1, h1, h2⟩ := Option.bind_eq_some_iff.1 h
        exact ih _ _ _ (hstep _ _ _ ht h1) h2

theorem assign_mw {pd pe : Fin n → ℝ} (hpd : ∀ m, 0 ≤ pd m ∧ pd m ≤ 1) (hpe : ∀ m, 0 ≤ pe m ∧ pe m ≤ 1) (rows : List (Fin n)) (cols : List (Fin nZ)) {w : ℝ} (hw : 0 ≤ w) (o : List Nat) {t t' : Tab n nZ}
    (ht : ∀ m k, 0 ≤ t.mw m k) (h : assign pd pe rows cols t o w = some t') : ∀ m k, 0 ≤ t'.mw m k := by
  unfold assign at h
  exact foldlM_keep (fun t : Tab n nZ => ∀ m k, 0 ≤ t.mw m k) _ _ (fun t t' x _ ha hb => rowStep_mw hpd hpe cols hw x ha hb) _ _ (by exact ht) h

theorem scale_mem {c : ℝ} (hc : 0 ≤ c) {l : List (Gauss ℝ d)} (h : ∀ e ∈ l, e.lm.isSome ∧ 0 ≤ e.w) : ∀ e ∈ scale c l, e.lm.isSome ∧ 0 ≤ e.w := by
  intro e he
  obtain ⟨e', he', rfl⟩ := List.mem_map.1 he
  exact ⟨(h e' he').1, mul_nonneg (h e' he').2 hc⟩

theorem trackStep_ok (cols : List (Fin nZ)) (lik : ℝ) (s s' : St d n nZ) (r : Fin n) (hs : StOk s) (h : trackStep cols lik s r = some s') : StOk s' := by
  unfold trackStep at h
  split_ifs at h with hlik
  simp only at h
  obtain ⟨m2, hm2, rfl⟩ := Option.map_eq_some_iff.1 h
  obtain ⟨hb1, hb2⟩ := build_fold (s.mm r) (fun c => (hs.mm r c).n) (fun c => s.mw r (some c)) cols (multiplyWeights (s.mix r) (s.mw r none)) (by simp [multiplyWeights, (hs.mix r).n])
  set m1 := cols.foldl (fun m c => (addGM m (s.mm r c) (s.mw r (some c))).1) (multiplyWeights (s.mix r) (s.mw r none)) with hm1
  have hmem : ∀ e ∈ m1.g, e.lm.isSome ∧ 0 ≤ e.w := by
    rw [hb1]
    intro e he
    rcases List.mem_append.1 he with he | he
    · exact scale_mem (hs.mw r none) (fun e he => ⟨(hs.mix r).lm e he, (hs.mix r).w0 e he⟩) e he
    · obtain ⟨c, -, he⟩ := List.mem_flatMap.1 he
      exact scale_mem (hs.mw r (some c)) (fun e he => ⟨(hs.mm r c).lm e he, (hs.mm r c).w0 e he⟩) e he
  have hw : wsum m1.g ≠ 0 := by
    intro h0
    unfold LMB.normalize at hm2
    rw [gws m1 hb2] at hm2
    simp [h0] at hm2
  rw [normalize_eq m1 hb2 hw] at hm2
  cases hm2
  have hpos : 0 < wsum m1.g := lt_of_le_of_ne (List.sum_nonneg (by
    intro y hy
    obtain ⟨e, he, rfl⟩ := List.mem_map.1 hy
    exact (hmem e he).2)) (Ne.symm hw)
  refine ⟨fun m => ?_, fun m c => ?_, hs.mw⟩
  · simp only
    by_cases hm : m = r
    · subst hm
      rw [Function.update_self]
      refine ⟨by simp [normed, hb2], ?_, ?_, ?_⟩
      · intro e he
        obtain ⟨e', he', rfl⟩ := List.mem_map.1 he
        exact (hmem e' he').1
      · intro e he
        obtain ⟨e', he', rfl⟩ := List.mem_map.1 he
        exact div_nonneg (hmem e' he').2 hpos.le
      · simp only [normed, List.map_map, Function.comp_def]
        have : (m1.g.map fun e => e.w / wsum m1.g).sum = wsum m1.g / wsum m1.g := by
          simp only [div_eq_mul_inv]
          rw [List.sum_map_mul_right]
          rfl
        rw [this, div_self hw]
    · rw [Function.update_of_ne hm]
      exact hs.mix m
  · simp only
    split
    · exact empty_plain
    · exact hs.mm m c

theorem partStep_ok (L : Fin n → Fin nZ → ℝ) {pd pe : Fin n → ℝ} (hpd : ∀ m, 0 ≤ pd m ∧ pd m ≤ 1) (hpe : ∀ m, 0 ≤ pe m ∧ pe m ≤ 1)
    (murty : List (Fin n) → List (Fin nZ) → List (List Nat × ℝ)) (hmurty : ∀ r c, ∀ x ∈ murty r c, 0 ≤ x.2) (fuel : Nat) (o : Obj n nZ) (s s' : St d n nZ) (p : Nat) (hs : StOk s)
    (h : partStep L pd pe murty fuel o s p = some s') : StOk s' := by
  unfold partStep at h
  simp only at h
  generalize (if (getPartitionSize o p).2.1 + (getPartitionSize o p).2.2 ≤ 8 ∨ (getPartitionSize o p).1 = false then false else true) = um at h
  split at h
  · obtain ⟨P', -, rfl⟩ := Option.map_eq_some_iff.1 h
    exact ⟨hs.mix, hs.mm, hs.mw⟩
  · obtain ⟨t, ht, h3⟩ := Option.bind_eq_some_iff.1 h
    obtain ⟨s1, hs1, rfl⟩ := Option.map_eq_some_iff.1 h3
    have hT : ∀ m k, 0 ≤ t.mw m k := by
      split at ht
      · exact foldlM_keep (fun t : Tab n nZ => ∀ m k, 0 ≤ t.mw m k) _ _ (fun t t' x hx ha hb => assign_mw hpd hpe _ _ (hmurty _ _ x hx) _ ha hb) _ _ (by exact hs.mw) ht
      · exact lexTab_keep (fun t : Tab n nZ => ∀ m k, 0 ≤ t.mw m k) _ (fun t t' o' ha hb => assign_mw hpd hpe _ _ (LMBProps.ex_nonneg _) _ ha hb) _ _ _ _ (by exact hs.mw) ht
    have h1 : StOk s1 := foldlM_keep StOk _ _ (fun a b r _ ha hb => trackStep_ok _ _ a b r ha hb) { s with mw := t.mw, upd := t.upd } _ ⟨hs.mix, hs.mm, hT⟩ hs1
    exact ⟨h1.mix, h1.mm, h1.mw⟩

theorem update_mix (L : Fin n → Fin nZ → ℝ) {pd pe : Fin n → ℝ} (hpd : ∀ m, 0 ≤ pd m ∧ pd m ≤ 1) (hpe : ∀ m, 0 ≤ pe m ∧ pe m ≤ 1) (mix : Fin n → GMix ℝ d) (mm : Fin n → Fin nZ → GMix ℝ d)
    (hmix : ∀ m, Solid (mix m)) (hmm : ∀ m c, Plain (mm m c)) (murty : List (Fin n) → List (Fin nZ) → List (List Nat × ℝ)) (hmurty : ∀ r c, ∀ x ∈ murty r c, 0 ≤ x.2) (fuel ncc : Nat)
    (lab : Fin n ⊕ Fin nZ → Nat) (s : St d n nZ) (h : LMB.update L pd pe mix mm murty fuel ncc lab = some s) : StOk s := by
  unfold LMB.update at h
  obtain ⟨o, -, h⟩ := Option.bind_eq_some_iff.1 h
  exact foldlM_keep StOk _ _ (fun a b p _ ha hb => partStep_ok L hpd hpe murty hmurty fuel o a b p ha hb) _ _ ⟨hmix, hmm, fun _ _ => le_rfl⟩ h

end MBFProps
end RFS
