import Verif.Lemmas.PHDThreads

/-! Lemmas for `Verif.Props.PHDThreads`: the invariant of the loop, its progress, and what the steps touch. -/

set_option linter.unusedSectionVars false

namespace RFS
namespace PHDT
open PHD

variable {T Z K X F : Type} [Field K] [LinearOrder K]

/-- The iterations a thread has begun or has to begin. -/
def Thread.todo (th : Thread K) : List Nat := (th.cur.map fun q => q.1).toList ++ th.queue

section
variable (env : Env X T Z K F) (cfg : TCfg K) (f : F) (Zs : List Z) (c0 : List (Cell X T K)) (n : Nat)

/-- The invariant of the loop: every particle is untouched and waits in one queue, or is being worked on by one thread whose remaining steps give the result, or has the result. -/
structure Good (M : Mem X T K F) : Prop where
  len : M.cells.length = c0.length
  tabs : M.tabs.length = n
  kfs : M.kfs = List.replicate n f
  nodup : ∀ t, (M.th t).todo.Nodup
  disj : ∀ t t', t ≠ t' → ∀ i, i ∈ (M.th t).todo → i ∉ (M.th t').todo
  lt : ∀ t, ∀ i ∈ (M.th t).todo, i < c0.length
  wait : ∀ t, ∀ i ∈ (M.th t).queue, M.cells[i]? = c0[i]?
  cur : ∀ t i loc as, (M.th t).cur = some (i, loc, as) → M.thr2 = cfg.mdThr * cfg.mdThr ∧ ∃ tab c d a, M.tabs[t]? = some tab ∧ M.cells[i]? = some c ∧ c0[i]? = some d ∧
    as.foldlM (act env cfg f (cfg.mdThr * cfg.mdThr) Zs) ⟨tab, loc, c⟩ = .ok a ∧ a.cell = result env cfg f Zs d
  done : ∀ i, (∀ t, i ∉ (M.th t).todo) → M.cells[i]? = (c0[i]?).map (result env cfg f Zs)

variable {env cfg f Zs c0 n}

theorem todo_update_ne {M : Mem X T K F} {t t' : Nat} {th : Thread K} (h : t' ≠ t) : (Function.update M.th t th t') = M.th t' := Function.update_of_ne h _ _

/-- A step of thread `t` on particle `i` of its list. -/
theorem Good.move {M M' : Mem X T K F} (h : Good env cfg f Zs c0 n M) {t i : Nat} (hi : i ∈ (M.th t).todo)
    (hlen : M'.cells.length = M.cells.length) (hcell : ∀ j, j ≠ i → M'.cells[j]? = M.cells[j]?)
    (htlen : M'.tabs.length = M.tabs.length) (htab : ∀ s, s ≠ t → M'.tabs[s]? = M.tabs[s]?) (hkf : M'.kfs = M.kfs) (hthr : M'.thr2 = M.thr2 ∨ M'.thr2 = cfg.mdThr * cfg.mdThr)
    (hth : ∀ s, s ≠ t → M'.th s = M.th s) (hsub : (M'.th t).todo.Sublist (M.th t).todo) (hq : ∀ j ∈ (M'.th t).queue, j ∈ (M.th t).queue ∧ j ≠ i)
    (hgone : ∀ j ∈ (M.th t).todo, j ≠ i → j ∈ (M'.th t).todo)
    (hcur : ∀ j loc as, (M'.th t).cur = some (j, loc, as) → j = i ∧ M'.thr2 = cfg.mdThr * cfg.mdThr ∧ ∃ tab c d a, M'.tabs[t]? = some tab ∧ M'.cells[i]? = some c ∧ c0[i]? = some d ∧
      as.foldlM (act env cfg f (cfg.mdThr * cfg.mdThr) Zs) ⟨tab, loc, c⟩ = .ok a ∧ a.cell = result env cfg f Zs d)
    (hdone : i ∉ (M'.th t).todo → M'.cells[i]? = (c0[i]?).map (result env cfg f Zs)) : Good env cfg f Zs c0 n M' := by
  have hsub' : ∀ s, ∀ j ∈ (M'.th s).todo, j ∈ (M.th s).todo := by
    intro s j hj
    by_cases hs : s = t
    · subst hs; exact hsub.subset hj
    · rw [hth s hs] at hj; exact hj
  have hne : ∀ s, s ≠ t → ∀ j ∈ (M.th s).todo, j ≠ i := by
    rintro s hs j hj rfl
    exact h.disj s t hs j hj hi
  refine ⟨hlen.trans h.len, htlen.trans h.tabs, hkf.trans h.kfs, fun s => ?_, fun s s' hss j hj hj' => h.disj s s' hss j (hsub' s j hj) (hsub' s' j hj'), fun s j hj => h.lt s j (hsub' s j hj), fun s j hj => ?_,
    fun s j loc as hj => ?_, fun j hj => ?_⟩
  · by_cases hs : s = t
    · subst hs; exact hsub.nodup (h.nodup s)
    · rw [hth s hs]; exact h.nodup s
  · by_cases hs : s = t
    · subst hs
      obtain ⟨h1, h2⟩ := hq j hj
      rw [hcell j h2]
      exact h.wait s j h1
    · rw [hth s hs] at hj
      rw [hcell j (hne s hs j (List.mem_append_right _ hj))]
      exact h.wait s j hj
  · by_cases hs : s = t
    · subst hs
      obtain ⟨rfl, h2⟩ := hcur j loc as hj
      exact h2
    · rw [hth s hs] at hj
      have hmem : j ∈ (M.th s).todo := by unfold Thread.todo; rw [hj]; simp
      obtain ⟨h1, h2⟩ := h.cur s j loc as hj
      refine ⟨by rcases hthr with e | e; exact e.trans h1; exact e, ?_⟩
      rw [htab s hs, hcell j (hne s hs j hmem)]
      exact h2
  · by_cases hji : j = i
    · subst hji; exact hdone (hj t)
    · rw [hcell j hji]
      refine h.done j fun s hs => ?_
      by_cases hst : s = t
      · subst hst; exact hj s (hgone j hs hji)
      · exact hj s (by rw [hth s hst]; exact hs)

theorem launch_good (f0 : Filt X T K F) (share : Nat → List Nat) (hk : f0.kfs.length = n) (ht : f0.tabs.length = n) (hf : f0.kfs[0]? = some f) (h1 : ∀ t, (share t).Nodup)
    (h2 : ∀ t t', t ≠ t' → ∀ i ∈ share t, i ∉ share t') (h3 : ∀ i, i < f0.cells.length ↔ ∃ t, i ∈ share t) : Good env cfg f Zs f0.cells n (launch share f0) := by
  refine ⟨rfl, ht, ?_, fun t => ?_, fun t t' htt i hi => ?_, fun t i hi => ?_, fun t i hi => rfl, fun t i loc as h => ?_, fun i hi => ?_⟩
  · unfold launch shareKf
    simp only
    cases hkk : f0.kfs with
    | nil => rw [hkk] at hf; simp at hf
    | cons g gs =>
      rw [hkk] at hf hk
      simp only [List.getElem?_cons_zero, Option.some.injEq] at hf
      rw [← hk, ← hf]
  · simpa [launch, Thread.todo] using h1 t
  · simp only [launch, Thread.todo, Option.map_none, Option.toList_none, List.nil_append] at hi ⊢
    exact h2 t t' htt i hi
  · simp only [launch, Thread.todo, Option.map_none, Option.toList_none, List.nil_append] at hi
    exact (h3 i).2 ⟨t, hi⟩
  · simp [launch] at h
  · have : ¬ i < f0.cells.length := fun hlt => by
      obtain ⟨t, ht'⟩ := (h3 i).1 hlt
      exact hi t (by simpa [launch, Thread.todo] using ht')
    simp only [launch]
    rw [List.getElem?_eq_none (by omega)]
    rfl

theorem result_noMap {c : Cell X T K} (h : c.map.length = 0) : noMap Zs.length c = result env cfg f Zs c := by
  unfold result updateMap noMap
  rw [if_pos h, if_pos h]

theorem act_cons_ne {as : List Act} (h : as ≠ []) : ∃ a rest, as = a :: rest := by
  cases as with
  | nil => exact absurd rfl h
  | cons a rest => exact ⟨a, rest, rfl⟩

/-- Every step of a thread succeeds and keeps the invariant. -/
theorem tick_good {M : Mem X T K F} (h : Good env cfg f Zs c0 n M) {t : Nat} (ht : t < n) : ∃ M', tick env cfg Zs M t = .ok M' ∧ Good env cfg f Zs c0 n M' := by
  have hself : ∀ q, M.th t = q → (M.th t) = q := fun q hq => hq
  unfold tick
  split
  · exact ⟨M, rfl, h⟩
  · rename_i i q hq
    have hmem : i ∈ (M.th t).todo := by rw [hq]; simp [Thread.todo]
    have hlt := h.lt t i hmem
    have hnd := h.nodup t
    rw [hq] at hnd
    simp only [Thread.todo, Option.map_none, Option.toList_none, List.nil_append, List.nodup_cons] at hnd
    have hci : M.cells[i]? = c0[i]? := h.wait t i (by rw [hq]; exact List.mem_cons_self)
    have htl : t < M.tabs.length := by rw [h.tabs]; exact ht
    have hcl : i < M.cells.length := by rw [h.len]; exact hlt
    obtain ⟨c, hc⟩ : ∃ c, M.cells[i]? = some c := ⟨_, List.getElem?_eq_getElem hcl⟩
    obtain ⟨tab, htab⟩ : ∃ tab, M.tabs[t]? = some tab := ⟨_, List.getElem?_eq_getElem htl⟩
    unfold begin
    rw [hc]
    simp only
    by_cases hm : c.map.length = 0
    · rw [if_pos hm]
      refine ⟨_, rfl, h.move hmem ?_ (fun j hj => List.getElem?_set_ne (Ne.symm hj)) rfl (fun _ _ => rfl) rfl (Or.inl rfl) (fun s hs => Function.update_of_ne hs _ _) ?_ ?_ ?_ ?_ ?_⟩
      · simp
      · simp only [Function.update_self]; rw [hq]; simp [Thread.todo]
      · simp only [Function.update_self]
        intro j hj
        rw [hq]
        exact ⟨List.mem_cons_of_mem _ hj, fun e => hnd.1 (e ▸ hj)⟩
      · simp only [Function.update_self]
        intro j hj hji
        rw [hq] at hj
        simpa [Thread.todo, hji] using hj
      · intro j loc as hj
        simp at hj
      · intro _
        simp only
        rw [List.getElem?_set_self hcl, ← hci, hc, result_noMap hm]
        rfl
    · rw [if_neg hm, htab]
      obtain ⟨a, e1, e2, _⟩ := acts_ok env cfg f Zs c hm tab
      refine ⟨_, rfl, h.move hmem ?_ (fun j hj => List.getElem?_set_ne (Ne.symm hj)) ?_ (fun s hs => List.getElem?_set_ne (Ne.symm hs)) rfl (Or.inr rfl) (fun s hs => Function.update_of_ne hs _ _) ?_ ?_ ?_ ?_ ?_⟩
      · simp
      · simp
      · simp only [Function.update_self]; rw [hq]; simp [Thread.todo]
      · simp only [Function.update_self]
        intro j hj
        rw [hq]
        exact ⟨List.mem_cons_of_mem _ hj, fun e => hnd.1 (e ▸ hj)⟩
      · simp only [Function.update_self]
        intro j hj hji
        rw [hq] at hj
        simpa [Thread.todo, hji] using hj
      · intro j loc as hj
        simp only [Function.update_self, Option.some.injEq, Prod.mk.injEq] at hj
        obtain ⟨rfl, rfl, rfl⟩ := hj
        refine ⟨rfl, rfl, _, _, c, a, List.getElem?_set_self htl, List.getElem?_set_self hcl, hci ▸ hc, e1, e2⟩
      · intro hn
        exact absurd (by simp [Thread.todo]) hn
  · rename_i i loc q hq
    have hmem : i ∈ (M.th t).todo := by rw [hq]; simp [Thread.todo]
    obtain ⟨h1, tab, c, d, a, k1, k2, k3, k4, k5⟩ := h.cur t i loc [] (by rw [hq])
    have hnd := h.nodup t
    rw [hq] at hnd
    simp only [Thread.todo, Option.map_some, Option.toList_some, List.singleton_append, List.nodup_cons] at hnd
    refine ⟨_, rfl, h.move hmem rfl (fun _ _ => rfl) rfl (fun _ _ => rfl) rfl (Or.inl rfl) (fun s hs => Function.update_of_ne hs _ _) ?_ ?_ ?_ ?_ ?_⟩
    · simp only [Function.update_self]; rw [hq]; simp [Thread.todo]
    · simp only [Function.update_self]
      intro j hj
      rw [hq]
      exact ⟨hj, fun e => hnd.1 (e ▸ hj)⟩
    · simp only [Function.update_self]
      intro j hj hji
      rw [hq] at hj
      simpa [Thread.todo, hji] using hj
    · intro j loc as hj
      simp at hj
    · intro _
      simp only
      cases k4
      rw [k2, k3, Option.map_some, ← k5]
  · rename_i i loc x rest q hq
    have hmem : i ∈ (M.th t).todo := by rw [hq]; simp [Thread.todo]
    have hlt := h.lt t i hmem
    obtain ⟨h1, tab, c, d, a, k1, k2, k3, k4, k5⟩ := h.cur t i loc (x :: rest) (by rw [hq])
    have hnd := h.nodup t
    rw [hq] at hnd
    simp only [Thread.todo, Option.map_some, Option.toList_some, List.singleton_append, List.nodup_cons] at hnd
    have htl : t < M.tabs.length := by rw [h.tabs]; exact ht
    have hcl : i < M.cells.length := by rw [h.len]; exact hlt
    have hkf : M.kfs[t]? = some f := by rw [h.kfs, List.getElem?_replicate, if_pos ht]
    obtain ⟨r, r1, r2⟩ : ∃ r, act env cfg f (cfg.mdThr * cfg.mdThr) Zs ⟨tab, loc, c⟩ x = .ok r ∧ rest.foldlM (act env cfg f (cfg.mdThr * cfg.mdThr) Zs) r = .ok a := by
      rw [List.foldlM_cons] at k4
      cases hr : act env cfg f (cfg.mdThr * cfg.mdThr) Zs ⟨tab, loc, c⟩ x with
      | error e => rw [hr] at k4; cases k4
      | ok r => rw [hr] at k4; exact ⟨r, rfl, k4⟩
    unfold stepAct
    rw [k2, k1, hkf]
    simp only
    rw [h1, r1]
    simp only
    refine ⟨_, rfl, h.move hmem ?_ (fun j hj => List.getElem?_set_ne (Ne.symm hj)) ?_ (fun s hs => List.getElem?_set_ne (Ne.symm hs)) rfl (Or.inr rfl) (fun s hs => Function.update_of_ne hs _ _) ?_ ?_ ?_ ?_ ?_⟩
    · simp
    · simp
    · simp only [Function.update_self]; rw [hq]; by_cases hr : rest = [] <;> simp [Thread.todo, hr]
    · simp only [Function.update_self]
      intro j hj
      rw [hq]
      exact ⟨hj, fun e => hnd.1 (e ▸ hj)⟩
    · simp only [Function.update_self]
      intro j hj hji
      rw [hq] at hj
      simp only [Thread.todo, Option.map_some, Option.toList_some, List.singleton_append, List.mem_cons, hji, false_or] at hj
      exact List.mem_append_right _ hj
    · intro j loc' as hj
      simp only [Function.update_self] at hj
      by_cases hr : rest = []
      · rw [if_pos hr] at hj; cases hj
      · rw [if_neg hr] at hj
        simp only [Option.some.injEq, Prod.mk.injEq] at hj
        obtain ⟨rfl, rfl, rfl⟩ := hj
        exact ⟨rfl, rfl, _, _, d, a, List.getElem?_set_self htl, List.getElem?_set_self hcl, k3, r2, k5⟩
    · intro hn
      simp only [Function.update_self] at hn ⊢
      by_cases hr : rest = []
      · subst hr
        cases r2
        rw [List.getElem?_set_self hcl, k3, Option.map_some, ← k5]
      · rw [if_neg hr] at hn
        exact absurd (by simp [Thread.todo]) hn

theorem run_good {σ : List Nat} (hσ : ∀ t ∈ σ, t < n) {M : Mem X T K F} (h : Good env cfg f Zs c0 n M) : ∃ M', run env cfg Zs σ M = .ok M' ∧ Good env cfg f Zs c0 n M' := by
  induction σ generalizing M with
  | nil => exact ⟨M, rfl, h⟩
  | cons t σ ih =>
    obtain ⟨M1, e1, h1⟩ := tick_good h (hσ t List.mem_cons_self)
    obtain ⟨M2, e2, h2⟩ := ih (fun s hs => hσ s (List.mem_cons_of_mem _ hs)) h1
    refine ⟨M2, ?_, h2⟩
    unfold run
    rw [List.foldlM_cons, e1]
    exact e2

theorem good_atEnd {M : Mem X T K F} (h : Good env cfg f Zs c0 n M) (he : M.atEnd) : M.cells = c0.map (result env cfg f Zs) := by
  refine List.ext_getElem? fun i => ?_
  rw [List.getElem?_map]
  refine h.done i fun t => ?_
  obtain ⟨e1, e2⟩ := he t
  simp [Thread.todo, e1, e2]

/-! ### Progress -/

/-- The number of steps an iteration takes at most. -/
def cost (cluster : Bool) (nZ : Nat) (c : Cell X T K) : Nat := (acts cluster c.map.length nZ).length + 2

/-- The steps of an iteration still to do. -/
def curLeft : Option (Nat × Loc K × List Act) → Nat
  | none => 0
  | some q => q.2.2.length + 1

/-- The steps thread `t` still needs at most. -/
def left (cfg : TCfg K) (nZ : Nat) (c0 : List (Cell X T K)) (M : Mem X T K F) (t : Nat) : Nat :=
  curLeft (M.th t).cur + ((M.th t).queue.map fun i => ((c0[i]?).map (cost cfg.cluster nZ)).getD 0).sum

theorem left_zero {nZ : Nat} {M : Mem X T K F} (h : ∀ t, left cfg nZ c0 M t = 0) (hl : ∀ t, ∀ i ∈ (M.th t).queue, i < c0.length) : M.atEnd := by
  intro t
  have ht := h t
  unfold left at ht
  constructor
  · cases hc : (M.th t).cur with
    | none => rfl
    | some q => rw [hc] at ht; simp only [curLeft] at ht; omega
  · cases hq : (M.th t).queue with
    | nil => rfl
    | cons i q =>
      have hi := hl t i (by rw [hq]; exact List.mem_cons_self)
      rw [hq] at ht
      simp only [List.map_cons, List.sum_cons, List.getElem?_eq_getElem hi, Option.map_some, Option.getD_some, cost] at ht
      omega

theorem tick_left {M M' : Mem X T K F} (h : Good env cfg f Zs c0 n M) {t : Nat} (e : tick env cfg Zs M t = .ok M') :
    left cfg Zs.length c0 M' t ≤ left cfg Zs.length c0 M t - 1 ∧ ∀ s, s ≠ t → M'.th s = M.th s := by
  unfold tick at e
  split at e
  · rename_i hq
    cases e
    simp [left, curLeft, hq]
  · rename_i i q hq
    have hci : M.cells[i]? = c0[i]? := h.wait t i (by rw [hq]; exact List.mem_cons_self)
    unfold begin at e
    split at e
    · cases e
    · rename_i c hc
      rw [hci] at hc
      split at e
      · cases e
        refine ⟨?_, fun s hs => Function.update_of_ne hs _ _⟩
        simp only [left, curLeft, Function.update_self, hq, List.map_cons, List.sum_cons, hc, Option.map_some, Option.getD_some, cost]
        omega
      · split at e
        · cases e
        · cases e
          refine ⟨?_, fun s hs => Function.update_of_ne hs _ _⟩
          simp only [left, curLeft, Function.update_self, hq, List.map_cons, List.sum_cons, hc, Option.map_some, Option.getD_some, cost]
          omega
  · rename_i i loc q hq
    cases e
    refine ⟨?_, fun s hs => Function.update_of_ne hs _ _⟩
    simp [left, curLeft, hq]
  · rename_i i loc x rest q hq
    unfold stepAct at e
    split at e
    · split at e
      · cases e
      · cases e
        refine ⟨?_, fun s hs => Function.update_of_ne hs _ _⟩
        simp only [left, curLeft, Function.update_self, hq, List.length_cons]
        by_cases hr : rest = []
        · rw [if_pos hr]; simp only [curLeft]; omega
        · rw [if_neg hr]; simp only [curLeft]; omega
    · cases e

theorem run_left {σ : List Nat} (hσ : ∀ t ∈ σ, t < n) {M M' : Mem X T K F} (h : Good env cfg f Zs c0 n M) (e : run env cfg Zs σ M = .ok M') (t : Nat) :
    left cfg Zs.length c0 M' t ≤ left cfg Zs.length c0 M t - σ.count t := by
  induction σ generalizing M with
  | nil => cases e; simp
  | cons s σ ih =>
    obtain ⟨M1, e1, h1⟩ := tick_good h (hσ s List.mem_cons_self)
    have e' : run env cfg Zs σ M1 = .ok M' := by
      unfold run at e ⊢
      rw [List.foldlM_cons, e1] at e
      exact e
    obtain ⟨l1, l2⟩ := tick_left h e1
    have := ih (fun s hs => hσ s (List.mem_cons_of_mem _ hs)) h1 e'
    by_cases hst : s = t
    · subst hst
      rw [List.count_cons_self]
      omega
    · rw [List.count_cons_of_ne hst]
      have : left cfg Zs.length c0 M1 t = left cfg Zs.length c0 M t := by unfold left; rw [l2 t (fun e => hst e.symm)]
      omega

/-! ### The other loops -/

theorem loop_perm (g : Cell X T K → Cell X T K) (cs : List (Cell X T K)) (o : List Nat) (ho : o.Perm (List.range cs.length)) : loop g o cs = .ok (cs.map g) := by
  have key : ∀ (o : List Nat) (ds : List (Cell X T K)), o.Nodup → (∀ i ∈ o, i < ds.length) → ∃ es, loop g o ds = .ok es ∧ es.length = ds.length ∧ ∀ i, es[i]? = if i ∈ o then (ds[i]?).map g else ds[i]? := by
    intro o
    induction o with
    | nil => intro ds _ _; exact ⟨ds, rfl, rfl, fun i => by simp⟩
    | cons i o ih =>
      intro ds hn hl
      have hi := hl i List.mem_cons_self
      obtain ⟨hn1, hn2⟩ := List.nodup_cons.1 hn
      obtain ⟨es, e1, e2, e3⟩ := ih (ds.set i (g ds[i])) hn2 (fun j hj => by rw [List.length_set]; exact hl j (List.mem_cons_of_mem _ hj))
      refine ⟨es, ?_, by rw [e2, List.length_set], fun j => ?_⟩
      · unfold loop at e1 ⊢
        rw [List.foldlM_cons, List.getElem?_eq_getElem hi]
        exact e1
      · rw [e3 j]
        by_cases hji : j = i
        · subst hji
          rw [if_neg hn1, if_pos List.mem_cons_self, List.getElem?_set_self hi, List.getElem?_eq_getElem hi]
          rfl
        · rw [List.getElem?_set_ne (Ne.symm hji)]
          simp [hji]
  obtain ⟨es, e1, e2, e3⟩ := key o cs (ho.nodup_iff.2 List.nodup_range) (fun i hi => List.mem_range.1 (ho.mem_iff.1 hi))
  rw [e1]
  congr 1
  refine List.ext_getElem? fun i => ?_
  rw [e3 i, List.getElem?_map]
  by_cases hi : i < cs.length
  · rw [if_pos (ho.mem_iff.2 (List.mem_range.2 hi))]
  · rw [List.getElem?_eq_none (by omega)]
    simp

end

end PHDT
end RFS
