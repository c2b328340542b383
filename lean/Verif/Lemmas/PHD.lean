import Verif.Model.PHD
import Mathlib.Algebra.Order.Field.Basic
import Mathlib.Algebra.Order.BigOperators.Group.List
import Mathlib.Tactic.Linarith
import Mathlib.Tactic.Ring
import Mathlib.Tactic.FieldSimp
import Mathlib.Tactic.Positivity

set_option linter.unusedSectionVars false

namespace RFS
namespace PHD

variable {T Z K X : Type*} [Field K] [LinearOrder K] [IsStrictOrderedRing K]

theorem foldl_add (f : α → K) (l : List α) (a : K) : l.foldl (fun a c => a + f c) a = a + (l.map f).sum := by
  induction l generalizing a with
  | nil => simp
  | cons x l ih => rw [List.foldl_cons, ih, List.map_cons, List.sum_cons, add_assoc]

theorem colSum_eq (s : Sensor T Z K) (thr : K) (map : List (Comp T K)) (nZ : Nat) (z : Z) :
    colSum s thr map nZ z = s.clutter z nZ + (map.map fun c => (entry s thr c z).2).sum := foldl_add _ _ _

theorem entry_none (s : Sensor T Z K) (thr : K) (c : Comp T K) (z : Z) (h : (entry s thr c z).1 = none) : (entry s thr c z).2 = 0 := by
  unfold entry at h ⊢
  simp only at h ⊢
  split_ifs at h ⊢ <;> simp_all

theorem wTab_zero (s : Sensor T Z K) (thr : K) (map : List (Comp T K)) (nZ : Nat) (c : Comp T K) (z : Z) (h : (entry s thr c z).2 = 0) :
    wTab s thr map nZ c z = 0 := by
  unfold wTab
  rw [h, zero_div, ite_self]

/-- Non-negative models: what the filter assumes of its sensor and map. -/
structure Nonneg (s : Sensor T Z K) (map : List (Comp T K)) (Zs : List Z) : Prop where
  pd0 : ∀ l, 0 ≤ (s.pd l).1
  pd1 : ∀ l, (s.pd l).1 ≤ 1
  lik : ∀ l z, 0 ≤ (s.kf l z).2.1
  clut : ∀ z ∈ Zs, 0 ≤ s.clutter z Zs.length
  w : ∀ c ∈ map, 0 ≤ c.w

theorem Pd_nonneg {s : Sensor T Z K} {map : List (Comp T K)} {Zs : List Z} (h : Nonneg s map Zs) (l : T) : 0 ≤ Pd s l := by
  unfold Pd; split
  · exact zero_le_one
  · exact h.pd0 l

theorem Pd_le {s : Sensor T Z K} {map : List (Comp T K)} {Zs : List Z} (h : Nonneg s map Zs) (l : T) : Pd s l ≤ 1 := by
  unfold Pd; split
  · exact le_refl _
  · exact h.pd1 l

theorem entry_nonneg {s : Sensor T Z K} {map : List (Comp T K)} {Zs : List Z} (h : Nonneg s map Zs) (thr : K) (c : Comp T K) (hc : c ∈ map) (z : Z) :
    0 ≤ (entry s thr c z).2 := by
  unfold entry
  simp only
  split_ifs
  · exact le_refl _
  · exact mul_nonneg (mul_nonneg (Pd_nonneg h _) (h.w c hc)) (h.lik _ _)
  · exact le_refl _

theorem colSum_nonneg {s : Sensor T Z K} {map : List (Comp T K)} {Zs : List Z} (h : Nonneg s map Zs) (thr : K) (z : Z) (hz : z ∈ Zs) :
    0 ≤ colSum s thr map Zs.length z := by
  rw [colSum_eq]
  refine add_nonneg (h.clut z hz) (List.sum_nonneg ?_)
  intro x hx
  obtain ⟨c, hc, rfl⟩ := List.mem_map.1 hx
  exact entry_nonneg h thr c hc z

theorem wTab_nonneg {s : Sensor T Z K} {map : List (Comp T K)} {Zs : List Z} (h : Nonneg s map Zs) (thr : K) (c : Comp T K) (hc : c ∈ map) (z : Z)
    (hz : z ∈ Zs) : 0 ≤ wTab s thr map Zs.length c z := by
  unfold wTab
  split
  · exact div_nonneg (entry_nonneg h thr c hc z) (colSum_nonneg h thr z hz)
  · exact entry_nonneg h thr c hc z

/-- The weight of the component added for a pair is the table entry. -/
theorem newComp_weight {s : Sensor T Z K} {map : List (Comp T K)} {Zs : List Z} (h : Nonneg s map Zs) (thr : K) (c : Comp T K) (hc : c ∈ map) (z : Z)
    (hz : z ∈ Zs) : ((newComp s thr map Zs.length c z).map Comp.w).getD 0 = wTab s thr map Zs.length c z := by
  unfold newComp
  cases he : (entry s thr c z).1 with
  | none => simp [wTab_zero s thr map Zs.length c z (entry_none s thr c z he)]
  | some l =>
    simp only
    split
    · rfl
    · rename_i hn
      exact (le_antisymm (not_lt.1 hn) (wTab_nonneg h thr c hc z hz)).symm

theorem sum_map_div (f : α → K) (a : K) (l : List α) : (l.map fun c => f c / a).sum = (l.map f).sum / a := by
  induction l with
  | nil => simp
  | cons x l ih => rw [List.map_cons, List.sum_cons, ih, List.map_cons, List.sum_cons, add_div]

/-! ### Sweep -/

/-- One more check. -/
def inc (c : Cand T) : Cand T := ⟨c.lm, c.sup, c.chk + 1⟩

/-- The map after the due candidates of a list are removed. -/
def promoteAll (cfg : Cfg K) (nv : Nat) (l : List (Cand T)) (map : List (Comp T K)) : List (Comp T K) := l.foldl (fun m c => promote cfg nv c m) map

theorem promoteAll_append (cfg : Cfg K) (nv : Nat) (l r : List (Cand T)) (map : List (Comp T K)) :
    promoteAll cfg nv (l ++ r) map = promoteAll cfg nv r (promoteAll cfg nv l map) := List.foldl_append

theorem sweepWhile_spec (cfg : Cfg K) (nv : Nat) (rest : List (Cand T)) : ∀ (c : Cand T) (map : List (Comp T K)),
    (∃ d, (∀ x ∈ d, due cfg nv x = true) ∧ c :: rest.map inc = d ∧ sweepWhile cfg nv c rest map = (promoteAll cfg nv d map, none)) ∨
    (∃ d c' rest', (∀ x ∈ d, due cfg nv x = true) ∧ due cfg nv c' = false ∧ c :: rest.map inc = d ++ c' :: rest'.map inc ∧ rest'.length ≤ rest.length ∧
      sweepWhile cfg nv c rest map = (promoteAll cfg nv d map, some (c', rest'))) := by
  induction rest with
  | nil =>
    intro c map
    by_cases h : due cfg nv c = true
    · left
      refine ⟨[c], by simpa using h, rfl, ?_⟩
      unfold sweepWhile
      rw [if_pos h]; rfl
    · right
      refine ⟨[], c, [], by simp, by simpa using h, rfl, le_refl _, ?_⟩
      unfold sweepWhile
      rw [if_neg h]; rfl
  | cons a rest ih =>
    intro c map
    by_cases h : due cfg nv c = true
    · have hs : sweepWhile cfg nv c (a :: rest) map = sweepWhile cfg nv (inc a) rest (promote cfg nv c map) := by
        rw [sweepWhile, if_pos h]; rfl
      rcases ih (inc a) (promote cfg nv c map) with ⟨d, hd, he, hw⟩ | ⟨d, c', rest', hd, hc', he, hl, hw⟩
      · left
        refine ⟨c :: d, ?_, by rw [← he]; rfl, by rw [hs, hw]; rfl⟩
        intro x hx
        rcases List.mem_cons.1 hx with rfl | hx
        · exact h
        · exact hd x hx
      · right
        refine ⟨c :: d, c', rest', ?_, hc', by rw [List.map_cons, he]; rfl, by simp only [List.length_cons]; omega, by rw [hs, hw]; rfl⟩
        intro x hx
        rcases List.mem_cons.1 hx with rfl | hx
        · exact h
        · exact hd x hx
    · right
      refine ⟨[], c, a :: rest, by simp, by simpa using h, rfl, le_refl _, ?_⟩
      unfold sweepWhile
      rw [if_neg h]; rfl

theorem sweepFor_spec (cfg : Cfg K) (nv : Nat) : ∀ (fuel : Nat) (kept rest : List (Cand T)) (map : List (Comp T K)), rest.length ≤ fuel →
    sweepFor cfg nv fuel kept rest map =
      if (rest.map inc).getLast?.any (due cfg nv) then .error .iter
      else .ok (promoteAll cfg nv ((rest.map inc).filter (due cfg nv)) map, kept ++ (rest.map inc).filter fun c => !due cfg nv c) := by
  intro fuel
  induction fuel with
  | zero =>
    intro kept rest map h
    have : rest = [] := List.length_eq_zero_iff.1 (by omega)
    subst this
    simp [sweepFor, promoteAll]
  | succ fuel ih =>
    intro kept rest map h
    cases rest with
    | nil => simp [sweepFor, promoteAll]
    | cons c rest =>
      have hfil : ∀ d : List (Cand T), (∀ x ∈ d, due cfg nv x = true) → d.filter (due cfg nv) = d ∧ d.filter (fun c => !due cfg nv c) = [] := by
        intro d hd
        refine ⟨List.filter_eq_self.2 hd, List.filter_eq_nil_iff.2 fun x hx => by simp [hd x hx]⟩
      simp only [List.length_cons] at h
      rcases sweepWhile_spec cfg nv rest (inc c) map with ⟨d, hd, he, hw⟩ | ⟨d, c', rest', hd, hc', he, hl, hw⟩
      · have hne : d ≠ [] := by rw [← he]; simp
        have hlast : ((c :: rest).map inc).getLast?.any (due cfg nv) = true := by
          rw [List.map_cons, he, List.getLast?_eq_some_getLast hne]
          exact hd _ (List.getLast_mem hne)
        rw [if_pos hlast, sweepFor]
        change (match sweepWhile cfg nv (inc c) rest map with
          | (_, none) => Except.error Err.iter
          | (map', some (c', rest')) => sweepFor cfg nv fuel (kept ++ [c']) rest' map') = _
        rw [hw]
      · rw [sweepFor]
        change (match sweepWhile cfg nv (inc c) rest map with
          | (_, none) => Except.error Err.iter
          | (map', some (c', rest')) => sweepFor cfg nv fuel (kept ++ [c']) rest' map') = _
        rw [hw]
        change sweepFor cfg nv fuel (kept ++ [c']) rest' (promoteAll cfg nv d map) = _
        rw [ih _ _ _ (by omega), List.map_cons, he]
        have hlast : (d ++ c' :: rest'.map inc).getLast?.any (due cfg nv) = (rest'.map inc).getLast?.any (due cfg nv) := by
          cases hr : rest'.map inc with
          | nil => simp [hc']
          | cons a l => simp [List.getLast?_append, List.getLast?_cons]
        rw [hlast, List.filter_append, List.filter_append, (hfil d hd).1, (hfil d hd).2, List.filter_cons, List.filter_cons, hc', promoteAll_append]
        simp

/-! ### Birth loop -/

theorem birthLoop_ok (cfg : Cfg K) (b : BSensor T Z) (nv : Nat) (meas : List Z) : ∀ (u : List Nat) (st : List (Comp T K) × List (Cand T)),
    (∀ i ∈ u, i < meas.length) → ∃ r, birthLoop cfg b nv meas u st = .ok r := by
  intro u
  induction u with
  | nil => intro st _; exact ⟨st, rfl⟩
  | cons i u ih =>
    intro st h
    have hi : i < meas.length := h i (List.mem_cons_self ..)
    rw [birthLoop, List.getElem?_eq_getElem hi]
    exact ih _ fun j hj => h j (List.mem_cons_of_mem _ hj)

theorem birthLoop_err (cfg : Cfg K) (b : BSensor T Z) (nv : Nat) (meas : List Z) : ∀ (u : List Nat) (st : List (Comp T K) × List (Cand T)) (e : Err),
    birthLoop cfg b nv meas u st = .error e → e = .meas := by
  intro u
  induction u with
  | nil => intro st e h; exact absurd h (by simp [birthLoop])
  | cons i u ih =>
    intro st e h
    rw [birthLoop] at h
    split at h
    · cases h; rfl
    · exact ih _ _ h

/-! ### Loop over the particles -/

theorem inherit_ok {f f' : Filt X T Z K} {i : Nat} (h : inherit f i = .ok f') : ∃ p, f.parts[i]? = some p ∧
    ((f.resampled = true ∧ p.parent ≠ i ∧ ∃ u c, f.unused[p.parent]? = some u ∧ f.births[p.parent]? = some c ∧
        f' = { f with unused := f.unused.set i u, births := f.births.set i c }) ∨
      (¬ (f.resampled = true ∧ p.parent ≠ i) ∧ f' = f)) := by
  unfold inherit at h
  split at h
  · cases h
  · rename_i p hp
    refine ⟨p, hp, ?_⟩
    split at h
    · rename_i hc
      split at h
      · rename_i u c hu hb
        cases h
        exact Or.inl ⟨hc.1, hc.2, u, c, hu, hb, rfl⟩
      · cases h
    · rename_i hc
      cases h
      exact Or.inr ⟨hc, rfl⟩

theorem inherit_err {f : Filt X T Z K} {i : Nat} {e : Err} (h : inherit f i = .error e) : e = .index := by
  unfold inherit at h
  split at h
  · cases h; rfl
  · split at h
    · split at h
      · cases h
      · cases h; rfl
    · cases h

/-- All recorded indices are those of measurements. -/
def Valid (f : Filt X T Z K) : Prop := ∀ u ∈ f.unused, ∀ i ∈ u, i < f.meas.length

theorem inherit_valid {f f' : Filt X T Z K} {i : Nat} (hv : Valid f) (h : inherit f i = .ok f') : Valid f' := by
  obtain ⟨p, -, ⟨-, -, u, c, hu, -, rfl⟩ | ⟨-, rfl⟩⟩ := inherit_ok h
  · intro v hv' j hj
    rcases List.mem_or_eq_of_mem_set hv' with hm | rfl
    · exact hv v hm j hj
    · exact hv _ (List.mem_of_getElem? hu) j hj
  · exact hv

theorem birthParticle_ok {cfg : Cfg K} {b : X → BSensor T Z} {f0 f' : Filt X T Z K} {i : Nat} (h : birthParticle cfg b f0 i = .ok f') :
    ∃ f p u c nv m1 c1 m2 c2, inherit f0 i = .ok f ∧ f.parts[i]? = some p ∧ f.unused[i]? = some u ∧ f.births[i]? = some c ∧ f.nFOV[i]? = some nv ∧
      birthLoop cfg (b p.st.x) nv f.meas u.reverse (p.st.map, c) = .ok (m1, c1) ∧ sweep cfg nv c1 m1 = .ok (m2, c2) ∧
      f' = { f with parts := f.parts.set i { p with st := ⟨p.st.x, m2⟩ }, unused := f.unused.set i [], births := f.births.set i c2 } := by
  unfold birthParticle at h
  split at h
  · cases h
  · rename_i f hf
    split at h
    · rename_i p u c nv hp hu hc hn
      split at h
      · cases h
      · rename_i m1 c1 hl
        split at h
        · cases h
        · rename_i m2 c2 hs
          cases h
          exact ⟨f, p, u, c, nv, m1, c1, m2, c2, hf, hp, hu, hc, hn, hl, hs, rfl⟩
    · cases h

theorem birthParticle_err {cfg : Cfg K} {b : X → BSensor T Z} {f0 : Filt X T Z K} {i : Nat} (hv : Valid f0) :
    birthParticle cfg b f0 i ≠ .error .meas := by
  intro h
  unfold birthParticle at h
  split at h
  · rename_i e he
    cases h
    exact absurd (inherit_err he) (by simp)
  · rename_i f hf
    have hv' := inherit_valid hv hf
    split at h
    · rename_i p u c nv hp hu hc hn
      split at h
      · rename_i e he
        obtain ⟨r, hr⟩ := birthLoop_ok cfg (b p.st.x) nv f.meas u.reverse (p.st.map, c)
          (fun j hj => hv' u (List.mem_of_getElem? hu) j (List.mem_reverse.1 hj))
        rw [hr] at he; cases he
      · rename_i m1 c1 hl
        split at h
        · rename_i e he
          cases h
          unfold sweep at he
          rw [sweepFor_spec _ _ _ _ _ _ (le_refl _)] at he
          split at he <;> cases he
        · cases h
    · cases h

theorem birthParticle_valid {cfg : Cfg K} {b : X → BSensor T Z} {f f' : Filt X T Z K} {i : Nat} (hv : Valid f) (h : birthParticle cfg b f i = .ok f') :
    Valid f' := by
  obtain ⟨g, p, u, c, nv, m1, c1, m2, c2, hg, -, -, -, -, -, -, rfl⟩ := birthParticle_ok h
  intro v hv' j hj
  rcases List.mem_or_eq_of_mem_set hv' with hm | rfl
  · exact inherit_valid hv hg v hm j hj
  · simp at hj

/-- What a pass leaves alone. -/
theorem birthParticle_frame {cfg : Cfg K} {b : X → BSensor T Z} {f f' : Filt X T Z K} {i : Nat} (h : birthParticle cfg b f i = .ok f') :
    f'.parts.length = f.parts.length ∧ f'.unused.length = f.unused.length ∧ f'.births.length = f.births.length ∧ f'.nFOV = f.nFOV ∧ f'.meas = f.meas ∧
      f'.resampled = f.resampled ∧ (∀ j, j ≠ i → f'.parts[j]? = f.parts[j]? ∧ f'.unused[j]? = f.unused[j]? ∧ f'.births[j]? = f.births[j]?) ∧
      f'.unused[i]? = some [] := by
  obtain ⟨g, p, u, c, nv, m1, c1, m2, c2, hg, hp, hu, hc, -, -, -, rfl⟩ := birthParticle_ok h
  have hui : i < g.unused.length := (List.getElem?_eq_some_iff.1 hu).1
  obtain ⟨q, -, ⟨-, -, u', c', -, -, rfl⟩ | ⟨-, rfl⟩⟩ := inherit_ok hg
  · refine ⟨by simp, by simp, by simp, rfl, rfl, rfl, fun j hj => ?_, ?_⟩
    · refine ⟨List.getElem?_set_ne (Ne.symm hj), ?_, ?_⟩
      · exact (List.getElem?_set_ne (Ne.symm hj)).trans (List.getElem?_set_ne (Ne.symm hj))
      · exact (List.getElem?_set_ne (Ne.symm hj)).trans (List.getElem?_set_ne (Ne.symm hj))
    · exact List.getElem?_set_self hui
  · refine ⟨by simp, by simp, by simp, rfl, rfl, rfl, fun j hj => ?_, List.getElem?_set_self hui⟩
    exact ⟨List.getElem?_set_ne (Ne.symm hj), List.getElem?_set_ne (Ne.symm hj), List.getElem?_set_ne (Ne.symm hj)⟩

/-- The loop over the first `n` particles. -/
def birthN (cfg : Cfg K) (b : X → BSensor T Z) (f : Filt X T Z K) (n : Nat) : Except Err (Filt X T Z K) :=
  (List.range n).foldlM (birthParticle cfg b) f

theorem birthN_succ (cfg : Cfg K) (b : X → BSensor T Z) (f : Filt X T Z K) (n : Nat) :
    birthN cfg b f (n + 1) = (birthN cfg b f n).bind fun g => birthParticle cfg b g n := by
  unfold birthN
  rw [List.range_succ, List.foldlM_append]
  simp only [List.foldlM_cons, List.foldlM_nil, bind_pure]
  rfl

theorem birthN_ok {cfg : Cfg K} {b : X → BSensor T Z} {f f' : Filt X T Z K} {n : Nat} (h : birthN cfg b f (n + 1) = .ok f') :
    ∃ g, birthN cfg b f n = .ok g ∧ birthParticle cfg b g n = .ok f' := by
  rw [birthN_succ] at h
  cases hg : birthN cfg b f n with
  | error e => rw [hg] at h; cases h
  | ok g => rw [hg] at h; exact ⟨g, rfl, h⟩

theorem birthN_err {cfg : Cfg K} {b : X → BSensor T Z} {f : Filt X T Z K} (hv : Valid f) : ∀ n, birthN cfg b f n ≠ .error .meas ∧
    ∀ g, birthN cfg b f n = .ok g → Valid g := by
  intro n
  induction n with
  | zero =>
    refine ⟨?_, ?_⟩
    · intro h; cases h
    · intro g h; cases h; exact hv
  | succ n ih =>
    rw [birthN_succ]
    cases hg : birthN cfg b f n with
    | error e =>
      refine ⟨?_, fun g h => by cases h⟩
      intro h
      cases h
      exact ih.1 hg
    | ok g =>
      exact ⟨birthParticle_err (ih.2 g hg), fun g' h => birthParticle_valid (ih.2 g hg) h⟩

theorem birthN_frame {cfg : Cfg K} {b : X → BSensor T Z} {f : Filt X T Z K} : ∀ n g, birthN cfg b f n = .ok g →
    g.parts.length = f.parts.length ∧ g.unused.length = f.unused.length ∧ g.births.length = f.births.length ∧ g.nFOV = f.nFOV ∧ g.meas = f.meas ∧
      g.resampled = f.resampled ∧ (∀ j, n ≤ j → g.parts[j]? = f.parts[j]? ∧ g.unused[j]? = f.unused[j]? ∧ g.births[j]? = f.births[j]?) ∧
      ∀ j < n, g.unused[j]? = some [] := by
  intro n
  induction n with
  | zero => intro g h; cases h; simp
  | succ n ih =>
    intro g' h
    obtain ⟨g, hg, hp⟩ := birthN_ok h
    obtain ⟨a1, a2, a3, a4, a5, a6, a7, a8⟩ := ih g hg
    obtain ⟨b1, b2, b3, b4, b5, b6, b7, b8⟩ := birthParticle_frame hp
    refine ⟨b1.trans a1, b2.trans a2, b3.trans a3, b4.trans a4, b5.trans a5, b6.trans a6, ?_, ?_⟩
    · intro j hj
      obtain ⟨c1, c2, c3⟩ := b7 j (by omega)
      obtain ⟨d1, d2, d3⟩ := a7 j (by omega)
      exact ⟨c1.trans d1, c2.trans d2, c3.trans d3⟩
    · intro j hj
      by_cases hjn : j = n
      · rw [hjn]; exact b8
      · rw [(b7 j hjn).2.1]; exact a8 j (by omega)

/-! ### Resampling keeps the number of particles -/

theorem copyLoop_length {S : Type*} (flag : Nat → Bool) (n : Nat) : ∀ (L : List Nat) (prev : Option Nat) (s : List (PF.Part S K) × Nat) (P : List (PF.Part S K)),
    PF.copyLoop flag n L prev s = some P → P.length = s.1.length := by
  intro L
  induction L with
  | nil => intro prev s P h; unfold PF.copyLoop at h; cases h; rfl
  | cons a L ih =>
    intro prev s P h
    unfold PF.copyLoop at h
    split at h
    · cases h
    · split at h
      · have := ih _ _ _ h; simpa using this
      · split at h
        · cases h
        · have := ih _ _ _ h; simpa using this

theorem resample_length {S : Type*} (P0 : List (PF.Part S K)) (force : Bool) (t tp u : K) (b : Bool) (P : List (PF.Part S K))
    (h : PF.resample P0 0 force t tp u = some (b, P)) : P.length = P0.length := by
  unfold PF.resample at h
  simp only at h
  split at h
  · cases h; simp [PF.normalizeWeights]
  · split at h
    · cases h
    · split at h
      · cases h
      · rename_i P' hc
        cases h
        have := copyLoop_length _ _ _ _ _ _ hc
        simp [PF.normalizeWeights] at this ⊢
        omega

end PHD
end RFS
