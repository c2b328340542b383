import Verif.Model.PHDThreads
import Mathlib.Tactic.Ring
import Mathlib.Tactic.Linarith
import Mathlib.Data.List.Basic

/-! Lemmas for `Verif.Props.PHDThreads`: `updateMap` with tables gives what the closed form `PHD.updateMap` says, whatever the tables held before. -/

set_option linter.unusedSectionVars false

namespace RFS
namespace PHDT
open PHD

variable {T Z K X F : Type} [Field K] [LinearOrder K]

theorem foldlM_inv {σ α : Type} {step : σ → α → Except Err σ} (l : List α) (I : Nat → σ → Prop)
    (h : ∀ k (hk : k < l.length) s, I k s → ∃ s', step s l[k] = .ok s' ∧ I (k + 1) s') (s : σ) (h0 : I 0 s) : ∃ s', l.foldlM step s = .ok s' ∧ I l.length s' := by
  induction l generalizing s I with
  | nil => exact ⟨s, rfl, h0⟩
  | cons a l ih =>
    obtain ⟨s1, e1, h1⟩ := h 0 (by simp) s h0
    obtain ⟨s2, e2, h2⟩ := ih (fun k => I (k + 1)) (fun k hk s hs => h (k + 1) (by simpa using hk) s hs) s1 h1
    refine ⟨s2, ?_, h2⟩
    rw [List.foldlM_cons, show step s a = .ok s1 from e1]
    exact e2

theorem foldlM_range_inv {σ : Type} {step : σ → Nat → Except Err σ} (n : Nat) (I : Nat → σ → Prop)
    (h : ∀ k, k < n → ∀ s, I k s → ∃ s', step s k = .ok s' ∧ I (k + 1) s') (s : σ) (h0 : I 0 s) : ∃ s', (List.range n).foldlM step s = .ok s' ∧ I n s' := by
  obtain ⟨s', e, h'⟩ := foldlM_inv (List.range n) I (fun k hk s hs => by
    rw [List.getElem_range]
    exact h k (by simpa using hk) s hs) s h0
  rw [List.length_range] at h'
  exact ⟨s', e, h'⟩

theorem foldlM_append' {σ α : Type} {step : σ → α → Except Err σ} (l m : List α) (s s' : σ) (h : l.foldlM step s = .ok s') : (l ++ m).foldlM step s = m.foldlM step s' := by
  rw [List.foldlM_append, h]
  rfl

theorem foldlM_flatMap' {σ α β : Type} {step : σ → α → Except Err σ} (l : List β) (g : β → List α) (s : σ) : (l.flatMap g).foldlM step s = l.foldlM (fun s b => (g b).foldlM step s) s := by
  induction l generalizing s with
  | nil => rfl
  | cons b l ih =>
    rw [List.flatMap_cons, List.foldlM_append, List.foldlM_cons]
    exact bind_congr fun s => ih s

theorem foldlM_map' {σ α β : Type} {step : σ → α → Except Err σ} (l : List β) (g : β → α) (s : σ) : (l.map g).foldlM step s = l.foldlM (fun s b => step s (g b)) s := by
  induction l generalizing s with
  | nil => rfl
  | cons b l ih =>
    rw [List.map_cons, List.foldlM_cons, List.foldlM_cons]
    exact bind_congr fun s => ih s

theorem ebind_ok {α β : Type} (a : α) (g : α → Except Err β) : (Except.ok a : Except Err α).bind g = g a := rfl

/-! ### Tables -/

/-- The table has room. -/
def Tab.Big (t : Tab T K) (r c : Nat) : Prop := r ≤ t.rows ∧ c ≤ t.cols

theorem le_expand (n : Nat) : n ≤ expand n := by unfold expand; omega

theorem check_big (t : Tab T K) (r c : Nat) : (t.check r c).Big r c := by
  have h1 := le_expand r
  have h2 := le_expand c
  unfold Tab.check Tab.Big
  simp only
  split
  · unfold Tab.resize
    simp only
    constructor <;> split <;> omega
  · rename_i h
    push Not at h
    omega

theorem put_ok {t : Tab T K} {r c i j : Nat} (hb : t.Big r c) (hi : i < r) (hj : j < c) (l : Option T) (w : K) :
    ∃ t', t.put i j l w = .ok t' ∧ t'.Big r c ∧ (t'.w i j = w ∧ t'.m i j = l) ∧ ∀ i' j', i' ≠ i ∨ j' ≠ j → t'.w i' j' = t.w i' j' ∧ t'.m i' j' = t.m i' j' := by
  obtain ⟨h1, h2⟩ := hb
  refine ⟨_, if_pos ⟨by omega, by omega⟩, ⟨h1, h2⟩, by simp, fun i' j' h => ?_⟩
  by_cases hii : i' = i
  · subst hii
    have hjj : j' ≠ j := by rcases h with h | h; exact absurd rfl h; exact h
    simp [hjj]
  · simp [hii]

theorem get_ok {t : Tab T K} {r c i j : Nat} (hb : t.Big r c) (hi : i < r) (hj : j < c) : t.get i j = .ok (t.m i j, t.w i j) := by
  obtain ⟨h1, h2⟩ := hb
  exact if_pos ⟨by omega, by omega⟩

/-- A row is filled. -/
theorem fillRow {Zs : List Z} {r m : Nat} {t : Tab T K} (val : Z → Option T × K) (hm : m < r) (hb : t.Big r Zs.length) :
    ∃ t', Zs.zipIdx.foldlM (fun (t : Tab T K) (q : Z × Nat) => t.put m q.2 (val q.1).1 (val q.1).2) t = .ok t' ∧ t'.Big r Zs.length ∧
      (∀ j (hj : j < Zs.length), (t'.m m j, t'.w m j) = val Zs[j]) ∧ ∀ i j, i ≠ m → t'.w i j = t.w i j ∧ t'.m i j = t.m i j := by
  obtain ⟨t', e, h1, h2, h3⟩ := foldlM_inv (step := fun (t : Tab T K) (q : Z × Nat) => t.put m q.2 (val q.1).1 (val q.1).2) Zs.zipIdx
    (fun k t' => t'.Big r Zs.length ∧ (∀ j (hj : j < Zs.length), j < k → (t'.m m j, t'.w m j) = val Zs[j]) ∧ ∀ i j, i ≠ m → t'.w i j = t.w i j ∧ t'.m i j = t.m i j)
    (fun k hk s hs => by
      obtain ⟨s1, s2, s3⟩ := hs
      have hk' : k < Zs.length := by simpa using hk
      obtain ⟨t', e, b, ⟨v1, v2⟩, o⟩ := put_ok s1 hm hk' (val Zs[k]).1 (val Zs[k]).2
      refine ⟨t', by simpa using e, b, fun j hj hjk => ?_, fun i j hi => ?_⟩
      · by_cases hjk' : j = k
        · subst hjk'; rw [v1, v2]
        · obtain ⟨o1, o2⟩ := o m j (Or.inr hjk')
          rw [o1, o2]
          exact s2 j hj (by omega)
      · obtain ⟨o1, o2⟩ := o i j (Or.inl hi)
        rw [o1, o2]
        exact s3 i j hi) t ⟨hb, fun j _ h => absurd h (by omega), fun _ _ _ => ⟨rfl, rfl⟩⟩
  exact ⟨t', e, h1, fun j hj => h2 j hj (by simpa using hj), h3⟩

/-! ### The stages of `updateMap` -/

/-- The sensor at a pose, for a Kalman filter with settings `f`. -/
def sens (env : Env X T Z K F) (f : F) (x : X) : Sensor T Z K := ⟨env.pd x, env.kf f x, env.clutter⟩

section stages
variable (env : Env X T Z K F) (cfg : TCfg K) (f : F) (Zs : List Z) (c : Cell X T K)

/-- What stays the same. -/
structure Fix (a : Work X T K) : Prop where
  nM : a.loc.nM = c.map.length
  big : a.tab.Big c.map.length Zs.length
  x : a.cell.x = c.x
  wSum : a.loc.wSum = if cfg.cluster then c.map.foldl (fun a g => a + g.w) cfg.tiny else cfg.tiny

/-- After the rows below `k`. -/
structure Rows (k : Nat) (a : Work X T K) : Prop where
  fix : Fix cfg Zs c a
  map : a.cell.map = c.map
  w : a.cell.w = c.w
  un : a.cell.unused = []
  prod : a.loc.prod = 1
  pd : ∀ m (hm : m < c.map.length), m < k → a.loc.pd m = Pd (sens env f c.x) c.map[m].lm ∧ a.loc.close m = ((sens env f c.x).pd c.map[m].lm).2
  fov : a.cell.nFOV = (c.map.take k).countP fun g => decide (Pd (sens env f c.x) g.lm ≠ 0)
  tab : ∀ m (hm : m < c.map.length) z (hz : z < Zs.length), m < k → (a.tab.m m z, a.tab.w m z) = entry (sens env f c.x) cfg.mdThr c.map[m] Zs[z]

theorem setup_rows (t : Tab T K) : Rows env cfg f Zs c 0 (setup cfg Zs.length t c) :=
  ⟨⟨rfl, check_big _ _ _, rfl, rfl⟩, rfl, rfl, rfl, rfl, fun _ _ h => absurd h (by omega), by simp [setup], fun _ _ _ _ h => absurd h (by omega)⟩

theorem doRow_ok (k : Nat) (hk : k < c.map.length) (a : Work X T K) (h : Rows env cfg f Zs c k a) : ∃ a', doRow env f (cfg.mdThr * cfg.mdThr) Zs k a = .ok a' ∧ Rows env cfg f Zs c (k + 1) a' := by
  obtain ⟨t', e, b, v, o⟩ := fillRow (t := a.tab) (Zs := Zs) (entry (sens env f c.x) cfg.mdThr c.map[k]) hk h.fix.big
  have hpd : (if (env.pd a.cell.x c.map[k].lm).2 then 1 else (env.pd a.cell.x c.map[k].lm).1) = Pd (sens env f c.x) c.map[k].lm := by rw [h.fix.x]; rfl
  have htake : (c.map.take (k + 1)).countP (fun g => decide (Pd (sens env f c.x) g.lm ≠ 0)) = (c.map.take k).countP (fun g => decide (Pd (sens env f c.x) g.lm ≠ 0)) + if Pd (sens env f c.x) c.map[k].lm ≠ 0 then 1 else 0 := by
    rw [List.take_succ_eq_append_getElem hk, List.countP_append]
    congr 1
    rw [List.countP_cons, List.countP_nil]
    simp
  have hm : a.cell.map[k]? = some c.map[k] := by rw [h.map]; exact List.getElem?_eq_getElem hk
  have hloc : ∀ m (hm : m < c.map.length), m < k + 1 → Function.update a.loc.pd k (Pd (sens env f c.x) c.map[k].lm) m = Pd (sens env f c.x) c.map[m].lm ∧
      Function.update a.loc.close k (env.pd a.cell.x c.map[k].lm).2 m = ((sens env f c.x).pd c.map[m].lm).2 := by
    intro m hm hmk
    by_cases hmk' : m = k
    · subst hmk'
      rw [Function.update_self, Function.update_self, h.fix.x]
      exact ⟨rfl, rfl⟩
    · rw [Function.update_of_ne hmk', Function.update_of_ne hmk']
      exact h.pd m hm (by omega)
  have htab : ∀ m (hm : m < c.map.length) z (hz : z < Zs.length), m < k + 1 → (t'.m m z, t'.w m z) = entry (sens env f c.x) cfg.mdThr c.map[m] Zs[z] := by
    intro m hm z hz hmk
    by_cases hmk' : m = k
    · subst hmk'
      exact v z hz
    · obtain ⟨o1, o2⟩ := o m z hmk'
      rw [o1, o2]
      exact h.tab m hm z hz (by omega)
  unfold doRow
  rw [hm]
  simp only
  rw [hpd]
  by_cases hp : Pd (sens env f c.x) c.map[k].lm ≠ 0
  · rw [if_pos hp]
    have hstep : (fun (t : Tab T K) (q : Z × Nat) =>
        if (env.kf f a.cell.x c.map[k].lm q.1).2.1 = 0 ∨ cfg.mdThr * cfg.mdThr < (env.kf f a.cell.x c.map[k].lm q.1).2.2 then t.put k q.2 none 0
        else t.put k q.2 (some (env.kf f a.cell.x c.map[k].lm q.1).1) (Pd (sens env f c.x) c.map[k].lm * c.map[k].w * (env.kf f a.cell.x c.map[k].lm q.1).2.1)) =
        fun (t : Tab T K) (q : Z × Nat) => t.put k q.2 (entry (sens env f c.x) cfg.mdThr c.map[k] q.1).1 (entry (sens env f c.x) cfg.mdThr c.map[k] q.1).2 := by
      funext t q
      rw [h.fix.x]
      unfold entry
      rw [if_pos hp]
      change _ = Tab.put t k q.2 (if (env.kf f c.x c.map[k].lm q.1).2.1 = 0 ∨ cfg.mdThr * cfg.mdThr < (env.kf f c.x c.map[k].lm q.1).2.2 then (none, 0) else _ : Option T × K).1
        (if (env.kf f c.x c.map[k].lm q.1).2.1 = 0 ∨ cfg.mdThr * cfg.mdThr < (env.kf f c.x c.map[k].lm q.1).2.2 then (none, 0) else _ : Option T × K).2
      split <;> rfl
    rw [hstep, e]
    refine ⟨_, rfl, ⟨h.fix.nM, b, h.fix.x, h.fix.wSum⟩, h.map, h.w, h.un, h.prod, hloc, ?_, htab⟩
    rw [htake, if_pos hp]
    simp only
    rw [h.fov]
  · rw [if_neg hp]
    have hstep : (fun (t : Tab T K) (q : Z × Nat) => t.put k q.2 none 0) =
        fun (t : Tab T K) (q : Z × Nat) => t.put k q.2 (entry (sens env f c.x) cfg.mdThr c.map[k] q.1).1 (entry (sens env f c.x) cfg.mdThr c.map[k] q.1).2 := by
      funext t q
      unfold entry
      rw [if_neg hp]
    rw [hstep, e]
    refine ⟨_, rfl, ⟨h.fix.nM, b, h.fix.x, h.fix.wSum⟩, h.map, h.w, h.un, h.prod, hloc, ?_, htab⟩
    rw [htake, if_neg hp]
    simp only
    rw [h.fov]
    simp

/-- After the columns below `k`. -/
structure Cols (k : Nat) (a : Work X T K) : Prop where
  fix : Fix cfg Zs c a
  map : a.cell.map = c.map
  w : a.cell.w = c.w
  un : a.cell.unused = []
  prod : a.loc.prod = if cfg.cluster then (Zs.take k).foldl (fun p z => p * colSum (sens env f c.x) cfg.mdThr c.map Zs.length z) 1 else 1
  pd : ∀ m (hm : m < c.map.length), a.loc.pd m = Pd (sens env f c.x) c.map[m].lm ∧ a.loc.close m = ((sens env f c.x).pd c.map[m].lm).2
  fov : a.cell.nFOV = c.map.countP fun g => decide (Pd (sens env f c.x) g.lm ≠ 0)
  tab : ∀ m (hm : m < c.map.length) z (hz : z < Zs.length), a.tab.m m z = (entry (sens env f c.x) cfg.mdThr c.map[m] Zs[z]).1 ∧
    a.tab.w m z = if z < k then wTab (sens env f c.x) cfg.mdThr c.map Zs.length c.map[m] Zs[z] else (entry (sens env f c.x) cfg.mdThr c.map[m] Zs[z]).2

theorem rows_cols (a : Work X T K) (h : Rows env cfg f Zs c c.map.length a) : Cols env cfg f Zs c 0 a := by
  refine ⟨h.fix, h.map, h.w, h.un, by rw [h.prod]; simp, fun m hm => h.pd m hm hm, by rw [h.fov, List.take_length], fun m hm z hz => ?_⟩
  have := h.tab m hm z hz hm
  rw [← this]
  simp

theorem doCol_ok (k : Nat) (hk : k < Zs.length) (a : Work X T K) (h : Cols env cfg f Zs c k a) : ∃ a', doCol env cfg Zs k a = .ok a' ∧ Cols env cfg f Zs c (k + 1) a' := by
  have hz : Zs[k]? = some Zs[k] := List.getElem?_eq_getElem hk
  obtain ⟨sum, e1, e2⟩ := foldlM_range_inv (step := fun (s : K) m => (a.tab.get m k).map fun e => s + e.2) c.map.length
    (fun i s => s = (c.map.take i).foldl (fun b g => b + (entry (sens env f c.x) cfg.mdThr g Zs[k]).2) (env.clutter Zs[k] Zs.length))
    (fun i hi s hs => by
      refine ⟨_, by rw [get_ok h.fix.big hi hk]; rfl, ?_⟩
      rw [List.take_succ_eq_append_getElem hi, List.foldl_append, ← hs, (h.tab i hi k hk).2, if_neg (by omega)]
      rfl) (env.clutter Zs[k] Zs.length) (by simp)
  rw [List.take_length] at e2
  have hsum : sum = colSum (sens env f c.x) cfg.mdThr c.map Zs.length Zs[k] := e2
  have hprod : (if cfg.cluster then { a.loc with prod := a.loc.prod * sum } else a.loc).prod =
      if cfg.cluster then (Zs.take (k + 1)).foldl (fun p z => p * colSum (sens env f c.x) cfg.mdThr c.map Zs.length z) 1 else 1 := by
    have := h.prod
    cases hc : cfg.cluster with
    | false => rw [hc] at this; simpa using this
    | true =>
      rw [hc] at this
      simp only [if_true] at this ⊢
      rw [List.take_succ_eq_append_getElem hk, List.foldl_append, ← this, hsum]
      rfl
  have hrest : ∀ P : Loc K → Prop, P { a.loc with prod := a.loc.prod * sum } → P a.loc → P (if cfg.cluster then { a.loc with prod := a.loc.prod * sum } else a.loc) := by
    intro P h1 h2; split <;> assumption
  have hfix : ∀ t : Tab T K, t.Big c.map.length Zs.length → Fix cfg Zs c ⟨t, (if cfg.cluster then { a.loc with prod := a.loc.prod * sum } else a.loc), a.cell⟩ := by
    intro t ht
    refine ⟨?_, ht, h.fix.x, ?_⟩
    · exact hrest (fun l => l.nM = c.map.length) h.fix.nM h.fix.nM
    · exact hrest (fun l => l.wSum = _) h.fix.wSum h.fix.wSum
  have hpd := hrest (fun l => ∀ m (hm : m < c.map.length), l.pd m = Pd (sens env f c.x) c.map[m].lm ∧ l.close m = ((sens env f c.x).pd c.map[m].lm).2) h.pd h.pd
  unfold doCol
  rw [hz]
  simp only
  rw [show List.range a.loc.nM = List.range c.map.length by rw [h.fix.nM], e1]
  simp only [ebind_ok]
  by_cases hs : sum ≠ 0
  · rw [if_pos hs]
    obtain ⟨t', e3, e4, e5, e6⟩ := foldlM_range_inv (step := fun (t : Tab T K) m => (t.get m k).bind fun e => t.put m k e.1 (e.2 / sum)) c.map.length
      (fun i t => t.Big c.map.length Zs.length ∧ (∀ m j, t.m m j = a.tab.m m j) ∧ ∀ m j, t.w m j = if m < i ∧ j = k then a.tab.w m j / sum else a.tab.w m j)
      (fun i hi t ht => by
        obtain ⟨t1, t2, t3⟩ := ht
        obtain ⟨t', e, b, ⟨v1, v2⟩, o⟩ := put_ok t1 hi hk (t.m i k) (t.w i k / sum)
        refine ⟨t', by rw [get_ok t1 hi hk]; exact e, b, fun m j => ?_, fun m j => ?_⟩
        · by_cases hmj : m = i ∧ j = k
          · obtain ⟨rfl, rfl⟩ := hmj; rw [v2, t2]
          · rw [(o m j (by omega)).2, t2]
        · by_cases hmj : m = i ∧ j = k
          · obtain ⟨rfl, rfl⟩ := hmj
            rw [v1, t3, if_neg (by omega), if_pos (by omega)]
          · rw [(o m j (by omega)).1, t3]
            by_cases h' : m < i ∧ j = k
            · rw [if_pos h', if_pos (by omega)]
            · rw [if_neg h', if_neg (by omega)]) a.tab ⟨h.fix.big, fun _ _ => rfl, fun m j => by simp⟩
    rw [e3]
    refine ⟨_, rfl, hfix t' e4, h.map, h.w, h.un, hprod, hpd, h.fov, fun m hm z hz => ?_⟩
    simp only
    rw [e5, e6]
    obtain ⟨q1, q2⟩ := h.tab m hm z hz
    refine ⟨q1, ?_⟩
    by_cases hzk : z = k
    · subst hzk
      rw [if_pos ⟨hm, rfl⟩, q2, if_neg (by omega), if_pos (by omega)]
      unfold wTab
      rw [← hsum, if_pos hs]
    · rw [if_neg (by omega), q2]
      by_cases h' : z < k
      · rw [if_pos h', if_pos (by omega)]
      · rw [if_neg h', if_neg (by omega)]
  · rw [if_neg hs]
    refine ⟨_, rfl, hfix a.tab h.fix.big, h.map, h.w, h.un, hprod, hpd, h.fov, fun m hm z hz => ?_⟩
    obtain ⟨q1, q2⟩ := h.tab m hm z hz
    refine ⟨q1, ?_⟩
    simp only
    rw [q2]
    by_cases hzk : z = k
    · subst hzk
      rw [if_neg (by omega), if_pos (by omega)]
      unfold wTab
      rw [← hsum, if_neg hs]
    · by_cases h' : z < k
      · rw [if_pos h', if_pos (by omega)]
      · rw [if_neg h', if_neg (by omega)]

/-- The weight of the particle afterwards. -/
def wOut : K :=
  if cfg.cluster then env.ex (c.map.foldl (fun a g => a + g.w) cfg.tiny) * Zs.foldl (fun p z => p * colSum (sens env f c.x) cfg.mdThr c.map Zs.length z) 1 * c.w else c.w

/-- What a place of the table holds after the new Gaussians were added: a landmark that was not added stays. -/
def kept (g : Comp T K) (z : Z) : Option T :=
  if 0 < wTab (sens env f c.x) cfg.mdThr c.map Zs.length g z then none else (entry (sens env f c.x) cfg.mdThr g z).1

/-- While the new Gaussians are added: those of the landmarks below `k`, and of landmark `k` with measurements below `j`. -/
structure Adds (k j : Nat) (a : Work X T K) : Prop where
  fix : Fix cfg Zs c a
  map : a.cell.map = c.map ++ ((c.map.take k).flatMap fun g => Zs.filterMap fun z => newComp (sens env f c.x) cfg.mdThr c.map Zs.length g z) ++
    (if hk : k < c.map.length then (Zs.take j).filterMap fun z => newComp (sens env f c.x) cfg.mdThr c.map Zs.length c.map[k] z else [])
  w : a.cell.w = wOut env cfg f Zs c
  un : a.cell.unused = []
  pd : ∀ m (hm : m < c.map.length), a.loc.pd m = Pd (sens env f c.x) c.map[m].lm ∧ a.loc.close m = ((sens env f c.x).pd c.map[m].lm).2
  fov : a.cell.nFOV = c.map.countP fun g => decide (Pd (sens env f c.x) g.lm ≠ 0)
  tabm : ∀ m (hm : m < c.map.length) z (hz : z < Zs.length), k < m ∨ k = m ∧ j ≤ z → a.tab.m m z = (entry (sens env f c.x) cfg.mdThr c.map[m] Zs[z]).1
  tabw : ∀ m (hm : m < c.map.length) z (hz : z < Zs.length), a.tab.w m z = wTab (sens env f c.x) cfg.mdThr c.map Zs.length c.map[m] Zs[z]
  tabl : ∀ m (hm : m < c.map.length) z (hz : z < Zs.length), m < k ∨ m = k ∧ z < j → a.tab.m m z = kept env cfg f Zs c c.map[m] Zs[z]

theorem cols_adds (a : Work X T K) (h : Cols env cfg f Zs c Zs.length a) :
    ∃ a', (if cfg.cluster then [Act.weight] else []).foldlM (act env cfg f (cfg.mdThr * cfg.mdThr) Zs) a = .ok a' ∧ Adds env cfg f Zs c 0 0 a' := by
  have htw : ∀ m (hm : m < c.map.length) z (hz : z < Zs.length), a.tab.w m z = wTab (sens env f c.x) cfg.mdThr c.map Zs.length c.map[m] Zs[z] := fun m hm z hz => by
    rw [(h.tab m hm z hz).2, if_pos hz]
  have hp := h.prod
  have hw := h.fix.wSum
  rw [List.take_length] at hp
  by_cases hc : cfg.cluster = true
  · rw [if_pos hc] at hp hw
    rw [if_pos hc]
    refine ⟨doWeight env a, rfl, ⟨h.fix.nM, h.fix.big, h.fix.x, h.fix.wSum⟩, ?_, ?_, h.un, h.pd, h.fov, fun m hm z hz _ => (h.tab m hm z hz).1, htw, fun m hm z hz h => absurd h (by omega)⟩
    · simp [doWeight, h.map]
    · unfold doWeight wOut
      simp only
      rw [if_pos hc, hp, hw, h.w]
  · rw [if_neg hc]
    refine ⟨a, rfl, h.fix, ?_, ?_, h.un, h.pd, h.fov, fun m hm z hz _ => (h.tab m hm z hz).1, htw, fun m hm z hz h => absurd h (by omega)⟩
    · simp [h.map]
    · unfold wOut
      rw [if_neg hc, h.w]

theorem doAdd_ok (k : Nat) (hk : k < c.map.length) (j : Nat) (hj : j < Zs.length) (a : Work X T K) (h : Adds env cfg f Zs c k j a) :
    ∃ a', doAdd k j a = .ok a' ∧ Adds env cfg f Zs c k (j + 1) a' := by
  have hm := h.tabm k hk j hj (Or.inr ⟨rfl, le_rfl⟩)
  have hw := h.tabw k hk j hj
  have htake : (Zs.take (j + 1)).filterMap (fun z => newComp (sens env f c.x) cfg.mdThr c.map Zs.length c.map[k] z) =
      (Zs.take j).filterMap (fun z => newComp (sens env f c.x) cfg.mdThr c.map Zs.length c.map[k] z) ++ (newComp (sens env f c.x) cfg.mdThr c.map Zs.length c.map[k] Zs[j]).toList := by
    rw [List.take_succ_eq_append_getElem hj, List.filterMap_append]
    congr 1
  have hnew : newComp (sens env f c.x) cfg.mdThr c.map Zs.length c.map[k] Zs[j] = match a.tab.m k j with
      | none => none
      | some l => if 0 < a.tab.w k j then some ⟨l, a.tab.w k j, 0⟩ else none := by
    rw [hm, hw]
    unfold newComp
    rfl
  have hmap := h.map
  rw [dif_pos hk] at hmap
  have hleft : a.tab.m k j = kept env cfg f Zs c c.map[k] Zs[j] → ∀ m (hm : m < c.map.length) z (hz : z < Zs.length), m < k ∨ m = k ∧ z < j + 1 → a.tab.m m z = kept env cfg f Zs c c.map[m] Zs[z] := by
    intro he m hm z hz h'
    by_cases hmz : m = k ∧ z = j
    · obtain ⟨rfl, rfl⟩ := hmz
      exact he
    · exact h.tabl m hm z hz (by omega)
  unfold doAdd
  rw [get_ok h.fix.big hk hj]
  simp only [ebind_ok]
  cases hl : a.tab.m k j with
  | none =>
    rw [hl] at hnew
    refine ⟨a, rfl, h.fix, ?_, h.w, h.un, h.pd, h.fov, fun m hm z hz hz' => h.tabm m hm z hz (by omega), h.tabw, hleft ?_⟩
    · rw [dif_pos hk, htake, hnew, hmap]
      simp
    · unfold kept
      rw [← hm, hl]
      simp
  | some l =>
    rw [hl] at hnew
    simp only at hnew ⊢
    by_cases h0 : 0 < a.tab.w k j
    · rw [if_pos h0] at hnew ⊢
      obtain ⟨t', e, b, ⟨v1, v2⟩, o⟩ := put_ok h.fix.big hk hj none (a.tab.w k j)
      rw [e]
      refine ⟨_, rfl, ⟨h.fix.nM, b, h.fix.x, h.fix.wSum⟩, ?_, h.w, h.un, h.pd, h.fov, fun m hm z hz hz' => ?_, fun m hm z hz => ?_, fun m hm z hz hz' => ?_⟩
      · simp only
        rw [dif_pos hk, htake, hnew, hmap]
        simp
      · simp only
        rw [(o m z (by omega)).2]
        exact h.tabm m hm z hz (by omega)
      · simp only
        by_cases hmz : m = k ∧ z = j
        · obtain ⟨rfl, rfl⟩ := hmz
          rw [v1]; exact hw
        · rw [(o m z (by omega)).1]
          exact h.tabw m hm z hz
      · simp only
        by_cases hmz : m = k ∧ z = j
        · obtain ⟨rfl, rfl⟩ := hmz
          rw [v2]
          unfold kept
          rw [← hw, if_pos h0]
        · rw [(o m z (by omega)).2]
          exact h.tabl m hm z hz (by omega)
    · rw [if_neg h0] at hnew ⊢
      refine ⟨a, rfl, h.fix, ?_, h.w, h.un, h.pd, h.fov, fun m hm z hz hz' => h.tabm m hm z hz (by omega), h.tabw, hleft ?_⟩
      · rw [dif_pos hk, htake, hnew, hmap]
        simp
      · unfold kept
        rw [← hw, if_neg h0, ← hm]

theorem addRow_ok (k : Nat) (hk : k < c.map.length) (a : Work X T K) (h : Adds env cfg f Zs c k 0 a) :
    ∃ a', (List.range Zs.length).foldlM (fun a z => doAdd k z a) a = .ok a' ∧ Adds env cfg f Zs c (k + 1) 0 a' := by
  obtain ⟨a', e, h'⟩ := foldlM_range_inv (step := fun (a : Work X T K) z => doAdd k z a) Zs.length (fun j a => Adds env cfg f Zs c k j a) (fun j hj a ha => doAdd_ok env cfg f Zs c k hk j hj a ha) a h
  refine ⟨a', e, h'.fix, ?_, h'.w, h'.un, h'.pd, h'.fov, fun m hm z hz hz' => h'.tabm m hm z hz (by omega), h'.tabw, fun m hm z hz hz' => h'.tabl m hm z hz (by omega)⟩
  have := h'.map
  rw [dif_pos hk, List.take_length] at this
  rw [this, List.take_succ_eq_append_getElem hk, List.flatMap_append, List.flatMap_singleton]
  simp

/-- The components added. -/
def added : List (Comp T K) := c.map.flatMap fun g => Zs.filterMap fun z => newComp (sens env f c.x) cfg.mdThr c.map Zs.length g z

/-- While the weights of the old components are set (those below `k`), and then the unused measurements found (those below `j`). -/
structure Ends (k j : Nat) (a : Work X T K) : Prop where
  fix : Fix cfg Zs c a
  map : a.cell.map = (c.map.take k).map (missed (sens env f c.x) cfg.mdThr cfg.birthW c.map Zs) ++ c.map.drop k ++ added env cfg f Zs c
  w : a.cell.w = wOut env cfg f Zs c
  un : a.cell.unused = (List.range j).filter fun i =>
        match Zs[i]? with
        | none => false
        | some z => !(c.map.any fun g => decide (wTab (sens env f c.x) cfg.mdThr c.map Zs.length g z ≠ 0))
  pd : ∀ m (hm : m < c.map.length), a.loc.pd m = Pd (sens env f c.x) c.map[m].lm ∧ a.loc.close m = ((sens env f c.x).pd c.map[m].lm).2
  fov : a.cell.nFOV = c.map.countP fun g => decide (Pd (sens env f c.x) g.lm ≠ 0)
  tabw : ∀ m (hm : m < c.map.length) z (hz : z < Zs.length), a.tab.w m z = wTab (sens env f c.x) cfg.mdThr c.map Zs.length c.map[m] Zs[z]
  tabl : ∀ m (hm : m < c.map.length) z (hz : z < Zs.length), a.tab.m m z = kept env cfg f Zs c c.map[m] Zs[z]

theorem adds_ends (a : Work X T K) (h : Adds env cfg f Zs c c.map.length 0 a) : Ends env cfg f Zs c 0 0 a := by
  refine ⟨h.fix, ?_, h.w, by rw [h.un]; simp, h.pd, h.fov, h.tabw, fun m hm z hz => h.tabl m hm z hz (Or.inl hm)⟩
  rw [h.map, dif_neg (by omega), List.take_length]
  simp [added]

theorem doMiss_ok (k : Nat) (hk : k < c.map.length) (a : Work X T K) (h : Ends env cfg f Zs c k 0 a) : ∃ a', doMiss cfg Zs.length k a = .ok a' ∧ Ends env cfg f Zs c (k + 1) 0 a' := by
  have hl : ((c.map.take k).map (missed (sens env f c.x) cfg.mdThr cfg.birthW c.map Zs)).length = k := by simp; omega
  have hdrop : c.map.drop k = c.map[k] :: c.map.drop (k + 1) := List.drop_eq_getElem_cons hk
  have hget : a.cell.map[k]? = some c.map[k] := by
    rw [h.map, List.append_assoc, List.getElem?_append_right (by rw [hl]), hl, hdrop, Nat.sub_self]
    rfl
  have hset : ∀ g, a.cell.map.set k g = (c.map.take k).map (missed (sens env f c.x) cfg.mdThr cfg.birthW c.map Zs) ++ g :: (c.map.drop (k + 1) ++ added env cfg f Zs c) := by
    intro g
    rw [h.map, List.append_assoc, List.set_append_right _ _ (by rw [hl]), hl, hdrop, Nat.sub_self]
    rfl
  have hfin : ∀ g, g = missed (sens env f c.x) cfg.mdThr cfg.birthW c.map Zs c.map[k] → a.cell.map.set k g = (c.map.take (k + 1)).map (missed (sens env f c.x) cfg.mdThr cfg.birthW c.map Zs) ++ c.map.drop (k + 1) ++ added env cfg f Zs c := by
    rintro g rfl
    rw [hset, List.take_succ_eq_append_getElem hk, List.map_append, List.append_assoc, List.append_assoc]
    rfl
  obtain ⟨p1, p2⟩ := h.pd k hk
  obtain ⟨sum, e1, e2⟩ := foldlM_range_inv (step := fun (s : K) z => (a.tab.get k z).map fun e => s + e.2) Zs.length
    (fun i s => s = (Zs.take i).foldl (fun b z => b + wTab (sens env f c.x) cfg.mdThr c.map Zs.length c.map[k] z) 0)
    (fun i hi s hs => by
      refine ⟨_, by rw [get_ok h.fix.big hk hi]; rfl, ?_⟩
      rw [List.take_succ_eq_append_getElem hi, List.foldl_append, ← hs, h.tabw k hk i hi]
      rfl) 0 (by simp)
  rw [List.take_length] at e2
  unfold doMiss
  rw [hget]
  simp only
  rw [p1, p2]
  by_cases hcl : ((sens env f c.x).pd c.map[k].lm).2 = true ∧ cfg.birthW < c.map[k].w
  · rw [if_pos hcl, e1]
    refine ⟨_, rfl, ⟨h.fix.nM, h.fix.big, h.fix.x, h.fix.wSum⟩, ?_, h.w, h.un, h.pd, h.fov, h.tabw, h.tabl⟩
    refine hfin _ ?_
    unfold missed
    simp only
    rw [if_pos hcl, e2]
  · rw [if_neg hcl]
    refine ⟨_, rfl, ⟨h.fix.nM, h.fix.big, h.fix.x, h.fix.wSum⟩, ?_, h.w, h.un, h.pd, h.fov, h.tabw, h.tabl⟩
    refine hfin _ ?_
    unfold missed
    simp only
    rw [if_neg hcl]

theorem anyUsed_ok {t : Tab T K} {z : Nat} (l : List Nat) (v : Nat → K) (h : ∀ m ∈ l, ∃ o, t.get m z = .ok (o, v m)) : anyUsed t z l = .ok (l.any fun m => decide (v m ≠ 0)) := by
  induction l with
  | nil => rfl
  | cons m l ih =>
    obtain ⟨o, e⟩ := h m List.mem_cons_self
    unfold anyUsed
    rw [e]
    simp only [ebind_ok]
    by_cases hv : v m ≠ 0
    · rw [if_pos hv]; simp [hv]
    · rw [if_neg hv, ih fun m hm => h m (List.mem_cons_of_mem _ hm)]
      simp only [ne_eq, not_not] at hv
      simp [hv]

theorem doUse_ok (j : Nat) (hj : j < Zs.length) (a : Work X T K) (h : Ends env cfg f Zs c c.map.length j a) : ∃ a', doUse j a = .ok a' ∧ Ends env cfg f Zs c c.map.length (j + 1) a' := by
  have hany : anyUsed a.tab j (List.range c.map.length) = .ok (c.map.any fun g => decide (wTab (sens env f c.x) cfg.mdThr c.map Zs.length g Zs[j] ≠ 0)) := by
    rw [anyUsed_ok (List.range c.map.length) (fun m => a.tab.w m j) (fun m hm => ⟨_, get_ok h.fix.big (List.mem_range.1 hm) hj⟩)]
    congr 1
    rw [Bool.eq_iff_iff, List.any_eq_true, List.any_eq_true]
    constructor
    · rintro ⟨m, hm, e⟩
      have hm' := List.mem_range.1 hm
      rw [h.tabw m hm' j hj] at e
      exact ⟨_, List.getElem_mem hm', e⟩
    · rintro ⟨g, hg, e⟩
      obtain ⟨m, hm, rfl⟩ := List.getElem_of_mem hg
      exact ⟨m, List.mem_range.2 hm, by rw [h.tabw m hm j hj]; exact e⟩
  have hz : Zs[j]? = some Zs[j] := List.getElem?_eq_getElem hj
  unfold doUse
  rw [h.fix.nM, hany]
  refine ⟨_, rfl, ?_⟩
  cases hb : (c.map.any fun g => decide (wTab (sens env f c.x) cfg.mdThr c.map Zs.length g Zs[j] ≠ 0)) with
  | true =>
    refine ⟨h.fix, h.map, h.w, ?_, h.pd, h.fov, h.tabw, h.tabl⟩
    change a.cell.unused = _
    rw [List.range_succ, List.filter_append, h.un, List.filter_singleton, hz]
    simp only
    rw [hb]
    exact (List.append_nil _).symm
  | false =>
    refine ⟨⟨h.fix.nM, h.fix.big, h.fix.x, h.fix.wSum⟩, h.map, h.w, ?_, h.pd, h.fov, h.tabw, h.tabl⟩
    rw [List.range_succ, List.filter_append, List.filter_singleton, hz]
    simp only
    rw [hb, h.un]
    rfl

/-- The particle after `updateMap`. -/
def result : Cell X T K :=
  ⟨c.x, (updateMap (sens env f c.x) cfg.mdThr cfg.birthW c.map Zs).map, if c.map.length = 0 then c.w else wOut env cfg f Zs c, (updateMap (sens env f c.x) cfg.mdThr cfg.birthW c.map Zs).unused,
    (updateMap (sens env f c.x) cfg.mdThr cfg.birthW c.map Zs).nFOV⟩

/-- All steps, whatever the table held. -/
theorem acts_ok (hm : c.map.length ≠ 0) (t : Tab T K) : ∃ a, (acts cfg.cluster c.map.length Zs.length).foldlM (act env cfg f (cfg.mdThr * cfg.mdThr) Zs) (setup cfg Zs.length t c) = .ok a ∧
    a.cell = result env cfg f Zs c ∧ ∀ m (hm : m < c.map.length) z (hz : z < Zs.length), a.tab.m m z = kept env cfg f Zs c c.map[m] Zs[z] := by
  unfold acts
  obtain ⟨a1, e1, h1⟩ := foldlM_range_inv (step := fun (a : Work X T K) m => doRow env f (cfg.mdThr * cfg.mdThr) Zs m a) c.map.length (fun k a => Rows env cfg f Zs c k a)
    (fun k hk a ha => doRow_ok env cfg f Zs c k hk a ha) _ (setup_rows env cfg f Zs c t)
  obtain ⟨a2, e2, h2⟩ := foldlM_range_inv (step := fun (a : Work X T K) z => doCol env cfg Zs z a) Zs.length (fun k a => Cols env cfg f Zs c k a)
    (fun k hk a ha => doCol_ok env cfg f Zs c k hk a ha) _ (rows_cols env cfg f Zs c a1 h1)
  obtain ⟨a3, e3, h3⟩ := cols_adds env cfg f Zs c a2 h2
  obtain ⟨a4, e4, h4⟩ := foldlM_range_inv (step := fun (a : Work X T K) m => (List.range Zs.length).foldlM (fun a z => doAdd m z a) a) c.map.length (fun k a => Adds env cfg f Zs c k 0 a)
    (fun k hk a ha => addRow_ok env cfg f Zs c k hk a ha) _ h3
  obtain ⟨a5, e5, h5⟩ := foldlM_range_inv (step := fun (a : Work X T K) m => doMiss cfg Zs.length m a) c.map.length (fun k a => Ends env cfg f Zs c k 0 a)
    (fun k hk a ha => doMiss_ok env cfg f Zs c k hk a ha) _ (adds_ends env cfg f Zs c a4 h4)
  obtain ⟨a6, e6, h6⟩ := foldlM_range_inv (step := fun (a : Work X T K) z => doUse z a) Zs.length (fun k a => Ends env cfg f Zs c c.map.length k a)
    (fun k hk a ha => doUse_ok env cfg f Zs c k hk a ha) _ h5
  refine ⟨a6, ?_, ?_, h6.tabl⟩
  · rw [List.append_assoc, List.append_assoc, List.append_assoc, List.append_assoc, foldlM_append' _ _ _ a1 (by rw [foldlM_map']; exact e1), foldlM_append' _ _ _ a2 (by rw [foldlM_map']; exact e2),
      foldlM_append' _ _ _ a3 e3, foldlM_append' _ _ _ a4 (by rw [foldlM_flatMap']; simp only [foldlM_map']; exact e4), foldlM_append' _ _ _ a5 (by rw [foldlM_map']; exact e5), foldlM_map']
    exact e6
  · have hx := h6.fix.x
    have hmap := h6.map
    have hw := h6.w
    have hun := h6.un
    have hfov := h6.fov
    rw [List.take_length, List.drop_length, List.append_nil] at hmap
    unfold result updateMap
    rw [if_neg hm, if_neg hm]
    obtain ⟨t6, l6, ⟨x6, m6, w6, u6, n6⟩⟩ := a6
    simp only at hx hmap hw hun hfov
    subst hx hmap hw hun hfov
    rfl

end stages

end PHDT
end RFS
