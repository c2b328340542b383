import Verif.Lemmas.LMBOutcome
import Verif.Lemmas.CBMeMBer
import Verif.Props.CBMeMBer
import Verif.Lemmas.ListModify

/-!
Lemmas about `LMB.updateMap`: the tracks in view, their table and how the results are written back.
-/

namespace RFS
namespace LMBProps
open GM GMB CBM Partition RFSLik Assoc PartitionProps RFSLikProps LMB
open CBMProps (EnvOk)

variable {d n nZ : Nat}

/-- A track with an existence probability in `[0, 1)` and a complete mixture of non-negative weights of total at most one. -/
structure TrackOk (t : Track ℝ d) : Prop where
  P0 : 0 ≤ t.P
  P1 : t.P < 1
  n : t.gm.n = t.gm.g.length
  lm : ∀ e ∈ t.gm.g, e.lm.isSome = true
  w0 : ∀ e ∈ t.gm.g, 0 ≤ e.w
  w1 : wsum t.gm.g ≤ 1

/-- Weights and landmarks of a mixture. -/
def parts (g : List (Gauss ℝ d)) : List (ℝ × Lm ℝ d) := g.filterMap fun e => e.lm.map fun l => (e.w, l)

theorem parts_cons (g : List (Gauss ℝ d)) (h : ∀ e ∈ g, e.lm.isSome = true) : (parts g).map Prod.fst = g.map Gauss.w := by
  induction g with
  | nil => rfl
  | cons e g ih =>
    have h1 := h e (by simp)
    obtain ⟨l, hl⟩ := Option.isSome_iff_exists.1 h1
    have : parts (e :: g) = (e.w, l) :: parts g := by simp [parts, hl]
    rw [this, List.map_cons, List.map_cons, ih fun e he => h e (by simp [he])]

theorem comps_parts (m : GMix ℝ d) (hn : m.n = m.g.length) (h : ∀ e ∈ m.g, e.lm.isSome = true) : comps m = some (parts m.g) := by
  unfold comps
  have hf : ∀ g : List (Gauss ℝ d), (∀ e ∈ g, e.lm.isSome = true) → ∃ f : Gauss ℝ d → ℝ × Lm ℝ d, (∀ e ∈ g, (e.lm.map fun l => (e.w, l)) = some (f e)) ∧ parts g = g.map f := by
    intro g hg
    have hex : ∀ e : Gauss ℝ d, ∃ y : ℝ × Lm ℝ d, e.lm.isSome = true → (e.lm.map fun l => (e.w, l)) = some y := by
      intro e
      by_cases he : e.lm.isSome = true
      · obtain ⟨l, hl⟩ := Option.isSome_iff_exists.1 he
        exact ⟨(e.w, l), fun _ => by rw [hl]; rfl⟩
      · exact ⟨(0, ⟨fun _ => 0, fun _ _ => 0⟩), fun h => absurd h he⟩
    choose f hf using hex
    refine ⟨f, fun e he => hf e (hg e he), ?_⟩
    unfold parts
    rw [List.filterMap_congr (g := fun e => some (f e)) fun e he => hf e (hg e he)]
    simp
  obtain ⟨f, hf1, hf2⟩ := hf m.g h
  rw [hn, Int.toNat_natCast, hf2]
  refine mapM_range_some m.g f _ ?_
  intro i hi
  rw [List.getElem?_eq_getElem hi, Option.bind_some]
  exact hf1 _ (List.getElem_mem hi)

theorem mapM_comps (tracks : List (Track ℝ d)) (h : ∀ t ∈ tracks, TrackOk t) :
    (tracks.mapM fun t => (comps t.gm).map fun c => (t, c)) = some (tracks.map fun t => (t, parts t.gm.g)) :=
  mapM_some _ _ tracks fun t ht => by rw [comps_parts _ (h t ht).n (h t ht).lm]; rfl

theorem parts_nonneg {t : Track ℝ d} (h : TrackOk t) : ∀ x ∈ parts t.gm.g, 0 ≤ x.1 := by
  intro x hx
  obtain ⟨e, he, hx⟩ := List.mem_filterMap.1 hx
  obtain ⟨l, -, rfl⟩ := Option.map_eq_some_iff.1 hx
  exact h.w0 e he

theorem parts_sum {t : Track ℝ d} (h : TrackOk t) : ((parts t.gm.g).map Prod.fst).sum ≤ 1 := by
  rw [parts_cons _ h.lm]
  exact h.w1

/-- The tracks in view with their indices. -/
theorem mem_inFov (env : Env ℝ d nZ) (tracks : List (Track ℝ d)) (x : Nat × Track ℝ d × Seen ℝ d) :
    x ∈ inFov env (tracks.map fun t => (t, parts t.gm.g)) ↔
      tracks[x.1]? = some x.2.1 ∧ 0 < trackPd env (parts x.2.1.gm.g) ∧ x.2.2 = ⟨x.2.1.P, parts x.2.1.gm.g, trackPd env (parts x.2.1.gm.g)⟩ := by
  obtain ⟨i, t, s⟩ := x
  unfold inFov
  rw [List.mem_filterMap]
  constructor
  · rintro ⟨⟨⟨t', c⟩, j⟩, hm, hx⟩
    obtain ⟨s', hs, he⟩ := Option.map_eq_some_iff.1 hx
    simp only [Prod.mk.injEq] at he
    obtain ⟨rfl, rfl, rfl⟩ := he
    rw [List.mem_zipIdx_iff_getElem?, List.getElem?_map] at hm
    obtain ⟨t'', ht, he⟩ := Option.map_eq_some_iff.1 hm
    simp only [Prod.mk.injEq] at he
    obtain ⟨rfl, rfl⟩ := he
    unfold seenOf at hs
    split at hs
    · rename_i hp
      simp only [Option.some.injEq] at hs
      exact ⟨ht, hp, hs.symm⟩
    · simp at hs
  · rintro ⟨ht, hp, hs⟩
    dsimp only at ht hp hs
    refine ⟨((t, parts t.gm.g), i), ?_, ?_⟩
    · rw [List.mem_zipIdx_iff_getElem?, List.getElem?_map, ht]; rfl
    · dsimp only
      unfold seenOf
      rw [if_pos hp, hs]
      rfl

theorem inFov_inj (env : Env ℝ d nZ) (cs : List (Track ℝ d × List (ℝ × Lm ℝ d))) (i j : Fin (inFov env cs).length)
    (h : (inFov env cs)[i].1 = (inFov env cs)[j].1) : i = j := by
  have hp : ((inFov env cs).map Prod.fst).Pairwise (· < ·) := by
    rw [List.pairwise_map]
    unfold inFov
    rw [List.pairwise_filterMap]
    have h0 : (cs.zipIdx.map Prod.snd).Pairwise (· < ·) := by
      rw [List.zipIdx_map_snd]
      exact List.pairwise_lt_range'
    rw [List.pairwise_map] at h0
    refine h0.imp ?_
    intro a b hab x hx y hy
    obtain ⟨s, -, rfl⟩ := Option.map_eq_some_iff.1 hx
    obtain ⟨s', -, rfl⟩ := Option.map_eq_some_iff.1 hy
    exact hab
  have hnd : ((inFov env cs).map Prod.fst).Nodup := hp.imp fun h => Nat.ne_of_lt h
  have := (List.Nodup.getElem_inj_iff hnd (hi := by simp) (hj := by simp)).1 (show ((inFov env cs).map Prod.fst)[i.1]'(by simp) = ((inFov env cs).map Prod.fst)[j.1]'(by simp) by
    rw [List.getElem_map, List.getElem_map]; exact h)
  exact Fin.ext this

theorem corrected_nonneg {env : Env ℝ d nZ} (he : EnvOk env) (z : Fin nZ) (s : Seen ℝ d) (hc : ∀ x ∈ s.c, 0 ≤ x.1) (hp : 0 ≤ s.pd) : ∀ x ∈ corrected env z s, 0 ≤ x.2 := by
  intro x hx
  obtain ⟨y, hy, hx⟩ := List.mem_filterMap.1 hx
  obtain ⟨r, hr, rfl⟩ := Option.map_eq_some_iff.1 hx
  exact div_nonneg (mul_nonneg (mul_nonneg (he.lik _ _ _ hr) (hc y hy)) hp) (he.clut z).le

theorem mixEntry_eq (env : Env ℝ d nZ) (z : Fin nZ) (s : Seen ℝ d) : mixEntry env z s = mkMix (corrected env z s) := by
  unfold mixEntry
  rw [empty_eq, fold_add (fun x => x.2)]
  simp

theorem wsum_mixEntry (env : Env ℝ d nZ) (z : Fin nZ) (s : Seen ℝ d) : wsum (mixEntry env z s).g = ((corrected env z s).map Prod.snd).sum := by
  rw [mixEntry_eq]
  unfold wsum mkMix
  rw [List.map_map]
  rfl

theorem map_ok {env : Env ℝ d nZ} (he : EnvOk env) (thr : ℝ) (tracks : List (Track ℝ d)) (h : ∀ t ∈ tracks, TrackOk t) :
    let fov := inFov env (tracks.map fun t => (t, parts t.gm.g))
    Ok (fun (m : Fin fov.length) z => entry env thr z fov[m].2.2) (fun m => fov[m].2.2.pd) (fun m => fov[m].2.2.p)
      (fun m => fov[m].2.1.gm) (fun m z => mixEntry env z fov[m].2.2) := by
  intro fov
  have key : ∀ m : Fin fov.length, TrackOk fov[m].2.1 ∧ 0 < fov[m].2.2.pd ∧ fov[m].2.2.pd ≤ 1 ∧ fov[m].2.2.p = fov[m].2.1.P ∧ fov[m].2.2.c = parts fov[m].2.1.gm.g := by
    intro m
    obtain ⟨h1, h2, h3⟩ := (mem_inFov env tracks fov[m]).1 (List.getElem_mem m.2)
    have ht := h _ (List.mem_of_getElem? h1)
    rw [h3]
    exact ⟨ht, h2, (CBMProps.pd_range he (parts_nonneg ht) (parts_sum ht)).2, rfl, rfl⟩
  have hc : ∀ (m : Fin fov.length) (z : Fin nZ), ∀ x ∈ corrected env z fov[m].2.2, 0 ≤ x.2 := fun m z =>
    corrected_nonneg he z _ (by rw [(key m).2.2.2.2]; exact parts_nonneg (key m).1) (key m).2.1.le
  have hs : ∀ (m : Fin fov.length) (z : Fin nZ), 0 ≤ ((corrected env z fov[m].2.2).map Prod.snd).sum := fun m z =>
    List.sum_nonneg fun y hy => by
      obtain ⟨x, hx, rfl⟩ := List.mem_map.1 hy
      exact hc m z x hx
  have hp : ∀ m : Fin fov.length, 0 ≤ fov[m].2.2.p := fun m => by rw [(key m).2.2.2.1]; exact (key m).1.P0
  have hg : ∀ (m : Fin fov.length) (z : Fin nZ), 0 ≤ gammaOf env z fov[m].2.2 := fun m z => mul_nonneg (hs m z) (hp m)
  refine ⟨?_, fun m => (key m).2.2.1, hp, ?_, fun m => (key m).1.n, ?_, ?_, ?_, ?_⟩
  · intro m z
    show 0 ≤ entry env thr z fov[m].2.2
    unfold entry
    split
    · exact hg m z
    · exact le_refl _
  · intro m
    show fov[m].2.2.pd * fov[m].2.2.p < 1
    rw [(key m).2.2.2.1]
    have h1 := (key m).1.P1
    have h0 := (key m).1.P0
    have h2 := (key m).2.2.1
    nlinarith [(key m).2.1]
  · intro m z
    show (mixEntry env z fov[m].2.2).n = _
    rw [mixEntry_eq]
    simp [mkMix]
  · intro m
    exact List.sum_nonneg fun y hy => by
      obtain ⟨x, hx, rfl⟩ := List.mem_map.1 hy
      exact (key m).1.w0 x hx
  · intro m z
    show 0 ≤ wsum (mixEntry env z fov[m].2.2).g
    rw [wsum_mixEntry]
    exact hs m z
  · intro m z hL
    show 0 < wsum (mixEntry env z fov[m].2.2).g
    rw [wsum_mixEntry]
    refine lt_of_le_of_ne (hs m z) fun h0 => ?_
    have : entry env thr z fov[m].2.2 = 0 := by
      unfold entry gammaOf
      rw [← h0, zero_mul]
      simp
    exact absurd hL (by rw [this]; exact lt_irrefl _)

end LMBProps
end RFS
