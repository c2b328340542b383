import Verif.Model.GMBernoulli
import Verif.Props.GaussianMixture

/-!
Properties C27 and C28: tracks of a multi-Bernoulli mixture; C23 and C24 for the mixtures of tracks.
-/

set_option linter.unusedSectionVars false

namespace RFS
namespace GMBProps
open GM GMB

variable {K : Type*} [Field K] [LinearOrder K] [IsStrictOrderedRing K] {d : Nat}

/-- State after the indices `i, i+1, …` have been treated. -/
structure PInv (t : K) (orig : List (Track K d)) (i : Nat) (s : PSt K d) : Prop where
  len : s.tracks.length = orig.length
  room : s.pruned + i ≤ orig.length
  low : s.tracks.take i = orig.take i
  seg : ((s.tracks.drop i).take (orig.length - s.pruned - i)).Perm ((orig.drop i).filter fun x => decide (t ≤ x.P))
  ub : s.ub = true → ∃ last, orig.getLast? = some last ∧ last.P < t

theorem pruneStep_inv (garb : Nat → GMix K d) (t : K) (orig : List (Track K d)) (i : Nat) (s : PSt K d) (hi : i < orig.length)
    (h : PInv t orig (i + 1) s) : ∃ s', pruneStep garb t s i = some s' ∧ PInv t orig i s' := by
  obtain ⟨len, room, low, seg, ub⟩ := h
  have hil : i < s.tracks.length := by omega
  have hget : s.tracks[i] = orig[i] := by
    have h1 : (s.tracks.take (i + 1))[i]? = (orig.take (i + 1))[i]? := by rw [low]
    rw [List.getElem?_take_of_lt (by omega), List.getElem?_take_of_lt (by omega), List.getElem?_eq_getElem hil,
      List.getElem?_eq_getElem hi] at h1
    exact Option.some.inj h1
  have low' : s.tracks.take i = orig.take i := by
    have := congrArg (List.take i) low
    rwa [List.take_take, List.take_take, min_eq_left (by omega)] at this
  have hdrop : orig.drop i = orig[i] :: orig.drop (i + 1) := List.drop_eq_getElem_cons hi
  have hdropt : s.tracks.drop i = orig[i] :: s.tracks.drop (i + 1) := by rw [List.drop_eq_getElem_cons hil, hget]
  unfold pruneStep
  rw [List.getElem?_eq_getElem hil]
  simp only [hget]
  by_cases hp : orig[i].P < t
  · rw [if_pos hp]
    have hj : s.tracks.length - 1 - s.pruned < s.tracks.length := by omega
    have hnot : ¬ t ≤ orig[i].P := not_le.2 hp
    unfold copyTrack
    rw [List.getElem?_eq_getElem hj]
    simp only
    by_cases hself : s.tracks.length - 1 - s.pruned = i
    · rw [if_pos hself]
      refine ⟨_, rfl, ?_, ?_, ?_, ?_, ?_⟩
      · simp [len]
      · simp only; omega
      · simp only
        rw [List.take_set_of_le (by omega)]; exact low'
      · simp only
        have h0 : orig.length - (s.pruned + 1) - i = 0 := by omega
        have h1 : orig.length - s.pruned - (i + 1) = 0 := by omega
        rw [h0, List.take_zero, hdrop, List.filter_cons]
        simp only [hnot, decide_false]
        rw [h1, List.take_zero] at seg
        exact seg
      · intro _
        -- everything from i on is below the threshold
        have h1 : orig.length - s.pruned - (i + 1) = 0 := by omega
        rw [h1, List.take_zero] at seg
        have hnil := seg.nil_eq
        obtain ⟨last, hlast⟩ : ∃ last, orig.getLast? = some last := by
          rw [List.getLast?_eq_getElem?]
          exact ⟨_, List.getElem?_eq_getElem (by omega)⟩
        refine ⟨last, hlast, ?_⟩
        rw [List.getLast?_eq_getElem?] at hlast
        by_cases hi1 : i + 1 = orig.length
        · have : orig.length - 1 = i := by omega
          rw [this, List.getElem?_eq_getElem hi] at hlast
          cases hlast; exact hp
        · have hmem : last ∈ orig.drop (i + 1) := by
            apply List.mem_of_getElem? (i := orig.length - 1 - (i + 1))
            rw [List.getElem?_drop, ← hlast]
            congr 1; omega
          by_contra hcon
          have : last ∈ (orig.drop (i + 1)).filter fun x => decide (t ≤ x.P) :=
            List.mem_filter.2 ⟨hmem, by simpa using not_lt.1 hcon⟩
          rw [← hnil] at this
          simp at this
    · rw [if_neg hself]
      have hji : i < s.tracks.length - 1 - s.pruned := by omega
      refine ⟨_, rfl, ?_, ?_, ?_, ?_, ?_⟩
      · simp [len]
      · simp only; omega
      · simp only
        rw [List.take_set_of_le (by omega)]; exact low'
      · simp only
        have hset : (s.tracks.set i s.tracks[s.tracks.length - 1 - s.pruned]).drop i =
            s.tracks[s.tracks.length - 1 - s.pruned] :: s.tracks.drop (i + 1) := by
          rw [List.drop_set, if_neg (by omega), Nat.sub_self, hdropt, List.set_cons_zero]
        obtain ⟨k, hk⟩ : ∃ k, orig.length - s.pruned - (i + 1) = k + 1 := ⟨orig.length - s.pruned - (i + 2), by omega⟩
        have hk2 : orig.length - (s.pruned + 1) - i = k + 1 := by omega
        rw [hset, hk2, List.take_succ_cons, hdrop, List.filter_cons]
        simp only [hnot, decide_false]
        rw [hk, List.take_succ] at seg
        have hlast : (s.tracks.drop (i + 1))[k]? = some s.tracks[s.tracks.length - 1 - s.pruned] := by
          rw [List.getElem?_drop, ← List.getElem?_eq_getElem hj]
          congr 1; omega
        rw [hlast] at seg
        refine List.Perm.trans ?_ seg
        exact (List.perm_append_singleton _ _).symm
      · exact ub
  · rw [if_neg hp]
    refine ⟨s, rfl, len, by omega, low', ?_, ub⟩
    have h1 : orig.length - s.pruned - i = (orig.length - s.pruned - (i + 1)) + 1 := by omega
    rw [h1, hdropt, List.take_succ_cons, hdrop, List.filter_cons]
    have : t ≤ orig[i].P := not_lt.1 hp
    simp only [this, decide_true, if_true]
    exact seg.cons _

theorem pruneLoop_inv (garb : Nat → GMix K d) (t : K) (orig : List (Track K d)) : ∀ (i : Nat) (s : PSt K d), i ≤ orig.length →
    PInv t orig i s → ∃ s', (List.range i).reverse.foldlM (pruneStep garb t) s = some s' ∧ PInv t orig 0 s'
  | 0, s, _, h => ⟨s, rfl, h⟩
  | i + 1, s, hi, h => by
    obtain ⟨s1, e1, h1⟩ := pruneStep_inv garb t orig i s (by omega) h
    obtain ⟨s2, e2, h2⟩ := pruneLoop_inv garb t orig i s1 (by omega) h1
    refine ⟨s2, ?_, h2⟩
    rw [List.range_succ, List.reverse_append, List.reverse_singleton, List.singleton_append, List.foldlM_cons, e1]
    exact e2

/-- C27, what holds: the kept tracks are exactly (as a multiset, with their distributions) those at or above the threshold, whatever
the copies of a track onto itself leave behind; and freed memory is read only when the last track is below the threshold. -/
theorem C27_kept_tracks_partial (garb : Nat → GMix K d) (t : K) (tracks : List (Track K d)) :
    ∃ ub r, pruneTracks garb t tracks = some (ub, r) ∧ r.Perm (tracks.filter fun x => decide (t ≤ x.P)) ∧
      (ub = true → ∃ last, tracks.getLast? = some last ∧ last.P < t) := by
  obtain ⟨s, e, h⟩ := pruneLoop_inv garb t tracks tracks.length ⟨0, tracks, false⟩ le_rfl
    ⟨rfl, by simp, rfl, by simp, by simp⟩
  obtain ⟨len, room, low, seg, ub⟩ := h
  refine ⟨s.ub, s.tracks.take (s.tracks.length - s.pruned), by simp only [pruneTracks, e], ?_, ?_⟩
  · simpa [len] using seg
  · exact ub

def trk (P : ℚ) : Track ℚ 1 := ⟨P, 0, addGaussian empty GMProps.lmA 1⟩

/-- C27 does not hold in full: pruning a last track that has a Gaussian copies the track onto itself, which reads freed memory. -/
theorem C27_violated : ∃ tracks : List (Track ℚ 1), ∀ garb, ∃ r, pruneTracks garb 1 tracks = some (true, r) := by
  refine ⟨[trk 1, trk 0], fun garb => ⟨[trk 1], ?_⟩⟩
  have e1 : (List.range 2).reverse = [1, 0] := rfl
  simp only [pruneTracks, List.length_cons, List.length_nil]
  rw [e1]
  simp [List.foldlM_cons, pruneStep, copyTrack, trk, addGaussian, empty]

example : ((pruneTracks (fun _ => empty) (1 / 2) [trk (1 / 4), trk 1, trk (1 / 8), trk (3 / 4)]).map fun r => (r.1, r.2.map (·.P))) =
    some (false, [3 / 4, 1]) := by decide +kernel

/-- C28 (the Gaussian with the largest weight) does not hold after a merge or removal: the loop stops at the count although entries
are spread over a longer container, and may even return a null pointer. -/
theorem C28_violated : ∃ m : GMix ℚ 1, GMProps.Reach (fun w => 0 ≤ w) true m ∧ (GMProps.gaussians m).length = 1 ∧
    (getMaxGaussian m).map Option.isSome = some false := by
  have h : (match removeGaussian (addGaussian (addGaussian empty GMProps.lmA 1) GMProps.lmB 3) 0 with
    | some m => decide ((GMProps.gaussians m).length = 1 ∧ (getMaxGaussian m).map Option.isSome = some false)
    | none => false) = true := by decide +kernel
  split at h
  · rename_i m hm
    exact ⟨m, .remove 0 (.add _ _ (.add _ _ .empty (by norm_num)) (by norm_num)) hm, of_decide_eq_true h⟩
  · cases h

theorem maxLoop (m : GMix K d) (hh : ∀ e ∈ m.g, e.lm.isSome) : ∀ k, k ≤ m.g.length →
    ∃ s, (List.range k).foldlM (maxStep m) (0, 0) = some s ∧ 0 ≤ s.1 ∧ (∀ i e, i < k → m.g[i]? = some e → e.w ≤ s.1) ∧
      ((s.1 = 0 ∧ s.2 = 0) ∨ ∃ e, m.g[s.2]? = some e ∧ e.w = s.1)
  | 0, _ => ⟨(0, 0), rfl, le_rfl, by simp, Or.inl ⟨rfl, rfl⟩⟩
  | k + 1, hk => by
    obtain ⟨s, e, h0, h1, h2⟩ := maxLoop m hh k (by omega)
    rw [List.range_succ, List.foldlM_append, e]
    have hl : k < m.g.length := by omega
    have hsome := hh m.g[k] (List.getElem_mem _)
    simp only [Option.bind_eq_bind, Option.bind_some, List.foldlM_cons, List.foldlM_nil]
    unfold maxStep
    rw [List.getElem?_eq_getElem hl]
    simp only [hsome, true_and]
    by_cases hw : s.1 < m.g[k].w
    · rw [if_pos hw]
      refine ⟨(m.g[k].w, k), rfl, (lt_of_le_of_lt h0 hw).le, ?_, Or.inr ⟨m.g[k], List.getElem?_eq_getElem hl, rfl⟩⟩
      intro i e' hi he'
      rcases Nat.lt_succ_iff_lt_or_eq.1 hi with h | h
      · exact (h1 i e' h he').trans hw.le
      · subst h; rw [List.getElem?_eq_getElem hl] at he'; cases he'; exact le_rfl
    · rw [if_neg hw]
      refine ⟨s, rfl, h0, ?_, h2⟩
      intro i e' hi he'
      rcases Nat.lt_succ_iff_lt_or_eq.1 hi with h | h
      · exact h1 i e' h he'
      · subst h; rw [List.getElem?_eq_getElem hl] at he'; cases he'; exact not_lt.1 hw

/-- C28, what holds: without removed entries and with some positive weight, the returned Gaussian has the largest weight. -/
theorem C28_no_holes_partial (m : GMix K d) (hn : m.n = m.g.length) (hh : ∀ e ∈ m.g, e.lm.isSome) (hpos : ∃ e ∈ m.g, 0 < e.w) :
    ∃ l w, getMaxGaussian m = some (some l) ∧ (l, w) ∈ GMProps.gaussians m ∧ ∀ p ∈ GMProps.gaussians m, p.2 ≤ w := by
  obtain ⟨s, e, h0, h1, h2⟩ := maxLoop m hh m.g.length le_rfl
  obtain ⟨e1, he1, hw1⟩ := hpos
  obtain ⟨i1, hi1, rfl⟩ := List.getElem_of_mem he1
  have hs1 : 0 < s.1 := lt_of_lt_of_le hw1 (h1 i1 _ hi1 (List.getElem?_eq_getElem hi1))
  rcases h2 with ⟨h2, -⟩ | ⟨e2, h2, h3⟩
  · rw [h2] at hs1; exact absurd hs1 (lt_irrefl _)
  · obtain ⟨l, hl⟩ := Option.isSome_iff_exists.1 (hh e2 (List.mem_of_getElem? h2))
    refine ⟨l, s.1, ?_, ?_, ?_⟩
    · unfold getMaxGaussian
      rw [hn, Int.toNat_natCast, e]
      simp [h2, hl]
    · exact List.mem_filterMap.2 ⟨e2, List.mem_of_getElem? h2, by simp [hl, h3]⟩
    · rintro ⟨l', w'⟩ hp
      obtain ⟨x, hx, hxe⟩ := List.mem_filterMap.1 hp
      obtain ⟨j, hj, rfl⟩ := List.getElem_of_mem hx
      cases hxl : (m.g[j]).lm with
      | none => rw [hxl] at hxe; cases hxe
      | some lx =>
        rw [hxl] at hxe
        cases hxe
        exact h1 j _ hj (List.getElem?_eq_getElem hj)

example : (getMaxGaussian GMProps.exM).map (fun l => l.map fun l => l.x 0) = some (some 1) := by decide +kernel

theorem mapM_each {α β : Type*} (f : α → Option β) (R : α → β → Prop) : ∀ l : List α, (∀ a ∈ l, ∃ b, f a = some b ∧ R a b) → ∃ l', l.mapM f = some l' ∧ List.Forall₂ R l l'
  | [], _ => ⟨[], rfl, List.Forall₂.nil⟩
  | a :: l, h => by
    obtain ⟨b, e, hb⟩ := h a (by simp)
    obtain ⟨l', e', hl⟩ := mapM_each f R l fun x hx => h x (by simp [hx])
    exact ⟨b :: l', by rw [List.mapM_cons, e, e']; rfl, List.Forall₂.cons hb hl⟩

/-- C24 for `pruneGM`: every track keeps its existence probability and exactly its Gaussians of at least the given weight, heaviest first. -/
theorem C24_tracks {srt : List (Gauss K d) → List (Gauss K d)} (hs : IsSort srt) (t : K) (ts : List (Track K d)) (hh : ∀ tr ∈ ts, ∀ e ∈ tr.gm.g, e.lm = none → e.w < t) :
    ∃ ts', pruneGM srt t ts = some ts' ∧ List.Forall₂ (fun a b => b.P = a.P ∧ b.prevP = a.prevP ∧
      (GMProps.gaussians b.gm).Perm ((GMProps.gaussians a.gm).filter fun p => decide (t ≤ p.2)) ∧ (GMProps.gaussians b.gm).Pairwise fun x y => y.2 ≤ x.2) ts ts' := by
  refine mapM_each _ _ ts fun a ha => ?_
  obtain ⟨k, m', e, -, h1, h2⟩ := GMProps.C24_prune hs t a.gm (hh a ha)
  exact ⟨{ a with gm := m' }, by rw [e]; rfl, rfl, rfl, h1, h2⟩

/-- C23 for `mergeGM`: every track keeps its existence probability, its total weight and its weighted mean, and with inflation factor 1 its second moment; it keeps all its Gaussians exactly
if no two of them are within the distance. -/
theorem C23_tracks (maha : Lm K d → Lm K d → K) (t f : K) (ts : List (Track K d)) :
    ∃ ts', mergeGM maha t f ts = some ts' ∧ List.Forall₂ (fun a b => b.P = a.P ∧ b.prevP = a.prevP ∧
      ((GMProps.gaussians b.gm).map fun p => p.2).sum = ((GMProps.gaussians a.gm).map fun p => p.2).sum ∧
      (∀ c, ((GMProps.gaussians b.gm).map fun p => p.2 * p.1.x c).sum = ((GMProps.gaussians a.gm).map fun p => p.2 * p.1.x c).sum) ∧
      (f = 1 → ∀ c c', ((GMProps.gaussians b.gm).map fun p => p.2 * (p.1.S c c' + p.1.x c * p.1.x c')).sum =
        ((GMProps.gaussians a.gm).map fun p => p.2 * (p.1.S c c' + p.1.x c * p.1.x c')).sum) ∧
      ((GMProps.gaussians b.gm).length = (GMProps.gaussians a.gm).length ↔
        ∀ (i j : Nat) (e1 e2 : Gauss K d) l1 l2, i < j → a.gm.g[i]? = some e1 → a.gm.g[j]? = some e2 → e1.lm = some l1 → e2.lm = some l2 →
          (t * t < maha l1 l2 ∧ t * t < maha l2 l1) ∨ e1.w + e2.w = 0)) ts ts' := by
  refine mapM_each _ _ ts fun a _ => ?_
  obtain ⟨k, m', e, h1, h2, h3, h4, h5, -⟩ := GMProps.C23_merge_moments maha t f a.gm
  refine ⟨{ a with gm := m' }, by rw [e]; rfl, rfl, rfl, h1, h2, h3, ?_⟩
  rw [← h5]
  simp only
  omega

/-- Two tracks with three Gaussians each, all at one place for the given distance: merged into one Gaussian of weight 9/2. -/
example : ((mergeGM (fun _ _ => (9 : ℚ)) 3 1 [⟨1 / 2, 0, GMProps.exM⟩, ⟨1 / 4, 0, GMProps.exM⟩]).map fun ts => ts.map fun t => (t.P, (GMProps.gaussians t.gm).map fun p => p.2)) =
    some [(1 / 2, [9 / 2]), (1 / 4, [9 / 2])] := by decide +kernel

end GMBProps
end RFS
