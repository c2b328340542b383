import Verif.Model.PSO
import Mathlib.Data.List.Perm.Basic
import Mathlib.Data.List.Basic
import Mathlib.Data.List.Induction

/-! Helper lemmas for `Verif.Props.PSO`. -/

set_option linter.unusedSectionVars false

namespace RFS
namespace PSO

variable {n : Nat} {Λ : Type} [LinearOrder Λ]

/-! ### Evaluation -/

theorem mem_pre {α : Type} [DecidableEq α] {l r : List α} {a e : α} (hn : (l ++ e :: r).Nodup) (h : (l ++ e :: r).idxOf a < (l ++ e :: r).idxOf e) : a ∈ l := by
  by_contra ha
  have he : e ∉ l := by
    intro h'
    exact (List.nodup_append.1 hn).2.2 _ h' _ (List.mem_cons_self ..) rfl
  rw [List.idxOf_append_of_notMem ha, List.idxOf_append_of_notMem he, List.idxOf_cons_self] at h
  omega

/-- What holds of the shared state after a prefix `l` of the schedule. -/
structure EvInv (val old : Fin n → Λ) (h0 : 0 < n) (l : List (Ev n)) (s : EvSt n Λ) : Prop where
  cur : ∀ i, s.cur i = if Ev.eval i ∈ l then val i else old i
  don : ∀ i, s.done i = true ↔ Ev.crit i ∈ l
  bst : s.besti = ⟨0, h0⟩ ∨ Ev.crit s.besti ∈ l

theorem evInv_run {thread : Fin n → Nat} {val old : Fin n → Λ} {h0 : 0 < n} (l : List (Ev n)) : EvInv val old h0 l (evRun thread val old h0 l) := by
  induction l using List.reverseRecOn with
  | nil => exact ⟨fun i => by simp [evRun], fun i => by simp [evRun], Or.inl rfl⟩
  | append_singleton l e ih =>
    have hr : evRun thread val old h0 (l ++ [e]) = evStep thread val (evRun thread val old h0 l) e := by simp [evRun, List.foldl_append]
    rw [hr]
    generalize evRun thread val old h0 l = s at ih
    cases e with
    | eval j =>
      refine ⟨fun i => ?_, fun i => ?_, ?_⟩
      · by_cases hij : i = j
        · subst hij; simp [evStep]
        · simp [evStep, Function.update_of_ne hij, ih.cur i, hij]
      · simp [evStep, ih.don i]
      · rcases ih.bst with h | h
        · exact Or.inl h
        · exact Or.inr (by simp [evStep, h])
    | crit j =>
      refine ⟨fun i => ?_, fun i => ?_, ?_⟩
      · simp [evStep, ih.cur i]
      · by_cases hij : i = j
        · subst hij; simp [evStep]
        · simp [evStep, Function.update_of_ne hij, ih.don i, hij]
      · simp only [evStep]
        split
        · exact Or.inr (by simp)
        · rcases ih.bst with h | h
          · exact Or.inl h
          · exact Or.inr (by simp [h])

theorem evRun_append {thread : Fin n → Nat} {val old : Fin n → Λ} {h0 : 0 < n} (l : List (Ev n)) (e : Ev n) :
    evRun thread val old h0 (l ++ [e]) = evStep thread val (evRun thread val old h0 l) e := by simp [evRun, List.foldl_append]

/-- Without race, `besti` is the best of the iterations whose critical section is over. -/
theorem ev_best {thread : Fin n → Nat} {val old : Fin n → Λ} {h0 : 0 < n} {sched : List (Ev n)} (hs : Schedule thread sched) (l r : List (Ev n))
    (hl : sched = l ++ r) (hrace : (evRun thread val old h0 l).race = false) (i : Fin n) (hi : Ev.crit i ∈ l) :
    Ev.crit (evRun thread val old h0 l).besti ∈ l ∧ val i ≤ val (evRun thread val old h0 l).besti := by
  induction l using List.reverseRecOn generalizing r i with
  | nil => cases hi
  | append_singleton l e ih =>
    have hl' : sched = l ++ e :: r := by simp [hl]
    have hinv := evInv_run (thread := thread) (val := val) (old := old) (h0 := h0) l
    have ih' := ih (e :: r) hl'
    have hnd := hs.nodup
    have hit := hs.iter
    have hth := hs.thr
    rw [hl'] at hnd hit hth
    rw [evRun_append] at hrace ⊢
    generalize evRun thread val old h0 l = s at *
    cases e with
    | eval j =>
      have hi' : Ev.crit i ∈ l := by simpa using hi
      obtain ⟨h1, h2⟩ := ih' (by simpa [evStep] using hrace) i hi'
      exact ⟨by simp only [evStep, List.mem_append]; exact Or.inl h1, by simpa [evStep] using h2⟩
    | crit j =>
      have hr : s.race = false ∧ (s.done s.besti = true ∨ thread s.besti = thread j) := by
        simp only [evStep, Bool.or_eq_false_iff, Bool.not_eq_false', Bool.or_eq_true, decide_eq_true_eq] at hrace
        exact hrace
      have hevj : Ev.eval j ∈ l := mem_pre hnd (hit j)
      have hcj : s.cur j = val j := by rw [hinv.cur, if_pos hevj]
      have evOf : ∀ k, Ev.crit k ∈ l → s.cur k = val k := by
        intro k hk
        rw [hinv.cur, if_pos]
        obtain ⟨l1, l2, rfl⟩ := List.append_of_mem hk
        have h1 : (l1 ++ Ev.crit k :: (l2 ++ Ev.crit j :: r)).Nodup := by simpa using hnd
        have h2 := hit k
        have : Ev.eval k ∈ l1 := mem_pre h1 (by simpa using h2)
        simp [this]
      have ihs := ih' hr.1
      by_cases hd : Ev.crit s.besti ∈ l
      · have hcb := evOf _ hd
        simp only [evStep, hcb, hcj]
        by_cases hlt : val s.besti < val j
        · rw [if_pos hlt]
          refine ⟨by simp, ?_⟩
          rcases List.mem_append.1 hi with h | h
          · exact ((ihs i h).2.trans hlt.le)
          · simp only [List.mem_singleton, Ev.crit.injEq] at h; rw [h]
        · rw [if_neg hlt]
          refine ⟨by simp [hd], ?_⟩
          rcases List.mem_append.1 hi with h | h
          · exact (ihs i h).2
          · simp only [List.mem_singleton, Ev.crit.injEq] at h; rw [h]; exact not_lt.1 hlt
      · have hb0 : s.besti = ⟨0, h0⟩ := hinv.bst.resolve_right hd
        have hnone : ∀ k, Ev.crit k ∉ l := fun k hk => hd (ihs k hk).1
        have hth' : thread s.besti = thread j := by
          rcases hr.2 with h | h
          · exact absurd ((hinv.don _).1 h) hd
          · exact h
        have hj0 : s.besti = j := by
          by_contra hne
          have hlt : s.besti < j := by
            rw [hb0] at hne ⊢
            have : j.1 ≠ 0 := fun h => hne (Fin.ext h.symm)
            exact Fin.lt_def.2 (Nat.pos_of_ne_zero this)
          have h1 := hth _ _ hth' hlt
          have h2 := hit j
          exact hd (mem_pre hnd (h1.trans h2))
        have hi' : i = j := by
          rcases List.mem_append.1 hi with h | h
          · exact absurd h (hnone i)
          · simpa using h
        simp only [evStep, ← hj0, lt_irrefl, if_false]
        rw [hi', ← hj0]
        exact ⟨by simp, le_refl _⟩

/-- Whatever the interleaving, if the old likelihood of the first particle is not above the new ones. -/
theorem ev_best_old {thread : Fin n → Nat} {val old : Fin n → Λ} {h0 : 0 < n} {sched : List (Ev n)} (hs : Schedule thread sched) (l r : List (Ev n))
    (hl : sched = l ++ r) (hold : old ⟨0, h0⟩ ≤ val ⟨0, h0⟩) (i : Fin n) (hi : Ev.crit i ∈ l) :
    val i ≤ (evRun thread val old h0 l).cur (evRun thread val old h0 l).besti := by
  induction l using List.reverseRecOn generalizing r i with
  | nil => cases hi
  | append_singleton l e ih =>
    have hl' : sched = l ++ e :: r := by simp [hl]
    have hinv := evInv_run (thread := thread) (val := val) (old := old) (h0 := h0) l
    have ih' := ih (e :: r) hl'
    have hnd := hs.nodup
    have hit := hs.iter
    rw [hl'] at hnd hit
    rw [evRun_append]
    generalize evRun thread val old h0 l = s at *
    cases e with
    | eval j =>
      have hi' : Ev.crit i ∈ l := by simpa using hi
      have h2 := ih' i hi'
      simp only [evStep]
      by_cases hj : s.besti = j
      · have hcur := hinv.cur s.besti
        have hev : Ev.eval j ∉ l := fun h => (List.nodup_append.1 hnd).2.2 _ h _ (List.mem_cons_self ..) rfl
        rw [hj, if_neg hev] at hcur
        rw [hj, Function.update_self]
        rcases hinv.bst with h | h
        · rw [hj] at h h2
          rw [hcur] at h2
          subst h
          exact h2.trans hold
        · exfalso
          rw [hj] at h
          obtain ⟨l1, l2, rfl⟩ := List.append_of_mem h
          have h1 : (l1 ++ Ev.crit j :: (l2 ++ Ev.eval j :: r)).Nodup := by simpa using hnd
          have h3 := hit j
          have : Ev.eval j ∈ l1 := mem_pre h1 (by simpa using h3)
          exact hev (by simp [this])
      · rw [Function.update_of_ne hj]; exact h2
    | crit j =>
      have hevj : Ev.eval j ∈ l := mem_pre hnd (hit j)
      have hcj : s.cur j = val j := by rw [hinv.cur, if_pos hevj]
      simp only [evStep]
      rcases List.mem_append.1 hi with h | h
      · split
        · rename_i hlt; exact (ih' i h).trans hlt.le
        · exact ih' i h
      · simp only [List.mem_singleton, Ev.crit.injEq] at h
        subst h
        split
        · rw [hcj]
        · rename_i hlt; rw [← hcj]; exact not_lt.1 hlt

/-- Whatever the interleaving: a likelihood is at most the one selected, or at most the old one of the first particle. -/
theorem ev_best_any {thread : Fin n → Nat} {val old : Fin n → Λ} {h0 : 0 < n} {sched : List (Ev n)} (hs : Schedule thread sched) (l r : List (Ev n))
    (hl : sched = l ++ r) (i : Fin n) (hi : Ev.crit i ∈ l) :
    val i ≤ (evRun thread val old h0 l).cur (evRun thread val old h0 l).besti ∨ val i ≤ old ⟨0, h0⟩ := by
  induction l using List.reverseRecOn generalizing r i with
  | nil => cases hi
  | append_singleton l e ih =>
    have hl' : sched = l ++ e :: r := by simp [hl]
    have hinv := evInv_run (thread := thread) (val := val) (old := old) (h0 := h0) l
    have ih' := ih (e :: r) hl'
    have hnd := hs.nodup
    have hit := hs.iter
    rw [hl'] at hnd hit
    rw [evRun_append]
    generalize evRun thread val old h0 l = s at *
    cases e with
    | eval j =>
      have hi' : Ev.crit i ∈ l := by simpa using hi
      have h2 := ih' i hi'
      simp only [evStep]
      by_cases hj : s.besti = j
      · have hcur := hinv.cur s.besti
        have hev : Ev.eval j ∉ l := fun h => (List.nodup_append.1 hnd).2.2 _ h _ (List.mem_cons_self ..) rfl
        rw [hj, if_neg hev] at hcur
        rw [hj, Function.update_self]
        rcases hinv.bst with h | h
        · rw [hj] at h h2
          rw [hcur] at h2
          subst h
          exact Or.inr (h2.elim id id)
        · exfalso
          rw [hj] at h
          obtain ⟨l1, l2, rfl⟩ := List.append_of_mem h
          have h1 : (l1 ++ Ev.crit j :: (l2 ++ Ev.eval j :: r)).Nodup := by simpa using hnd
          have h3 := hit j
          have : Ev.eval j ∈ l1 := mem_pre h1 (by simpa using h3)
          exact hev (by simp [this])
      · rw [Function.update_of_ne hj]; exact h2
    | crit j =>
      have hevj : Ev.eval j ∈ l := mem_pre hnd (hit j)
      have hcj : s.cur j = val j := by rw [hinv.cur, if_pos hevj]
      simp only [evStep]
      rcases List.mem_append.1 hi with h | h
      · split
        · rename_i hlt; exact (ih' i h).imp_left fun h => h.trans hlt.le
        · exact ih' i h
      · simp only [List.mem_singleton, Ev.crit.injEq] at h
        subst h
        split
        · rw [hcj]; exact Or.inl le_rfl
        · rename_i hlt; rw [← hcj]; exact Or.inl (not_lt.1 hlt)

/-! ### Removal -/

/-- The loop of removals on one list. -/
def rem1 {α : Type} (del : List Bool) : Nat → List α → List α
  | 0, s => s
  | i + 1, s => rem1 del i (if del[i]? = some true then removeAt s i else s)

theorem removeLoop_eq {α : Type} (del : List Bool) : ∀ (i : Nat) (s : List α × List α), removeLoop del i s = (rem1 del i s.1, rem1 del i s.2)
  | 0, _ => rfl
  | i + 1, s => by
    simp only [removeLoop, rem1]
    rw [removeLoop_eq del i]
    split <;> rfl

theorem removeAt_length {α : Type} (l : List α) (i : Nat) : (removeAt l i).length = l.length - 1 := by
  unfold removeAt
  cases h : l.getLast? with
  | none => simp [List.getLast?_eq_none_iff.1 h]
  | some x => simp

theorem removeAt_zip {α : Type} (a b : List α) (h : a.length = b.length) (i : Nat) : (removeAt a i).zip (removeAt b i) = removeAt (a.zip b) i := by
  rcases List.eq_nil_or_concat a with rfl | ⟨a', x, rfl⟩
  · have : b = [] := by simpa using h.symm
    subst this; simp [removeAt]
  · rcases List.eq_nil_or_concat b with rfl | ⟨b', y, rfl⟩
    · simp at h
    · have hl : a'.length = b'.length := by simpa using h
      have hz : (a' ++ [x]).zip (b' ++ [y]) = a'.zip b' ++ [(x, y)] := by rw [List.zip_append hl]; rfl
      simp only [List.concat_eq_append] at *
      rw [hz]
      simp only [removeAt, List.getLast?_concat]
      apply List.ext_getElem?
      intro k
      simp only [List.zip, List.getElem?_zipWith, List.dropLast_eq_take, List.getElem?_take, List.length_set, List.length_append, List.length_singleton,
        List.length_zipWith, List.getElem?_set, hl, Nat.min_self]
      by_cases hk : k < b'.length
      · have h1 : k < b'.length + 1 := by omega
        simp only [Nat.add_sub_cancel, hk, if_true]
        by_cases hik : i = k
        · subst hik
          simp [h1]
        · have hka : k < a'.length := by omega
          simp only [hik, if_false]
          rw [List.getElem?_append_left hka, List.getElem?_append_left hk, List.getElem?_append_left (by simp [List.length_zipWith, hl, hk]),
            List.getElem?_zipWith]
      · simp [hk]

theorem rem1_zip {α : Type} (del : List Bool) : ∀ (i : Nat) (a b : List α), a.length = b.length → (rem1 del i a).zip (rem1 del i b) = rem1 del i (a.zip b)
  | 0, _, _, _ => rfl
  | i + 1, a, b, h => by
    simp only [rem1]
    by_cases hd : del[i]? = some true
    · simp only [hd, if_true]
      rw [rem1_zip del i _ _ (by simp [removeAt_length, h]), removeAt_zip _ _ h]
    · simp only [hd, if_false]
      exact rem1_zip del i a b h

theorem rem1_length {α : Type} (del : List Bool) : ∀ (i : Nat) (a b : List α), a.length = b.length → (rem1 del i a).length = (rem1 del i b).length
  | 0, _, _, h => h
  | i + 1, a, b, h => by
    simp only [rem1]
    by_cases hd : del[i]? = some true
    · simp only [hd, if_true]
      exact rem1_length del i _ _ (by simp [removeAt_length, h])
    · simp only [hd, if_false]
      exact rem1_length del i a b h

theorem removeAt_perm {α : Type} (pre post : List α) (x : α) : ∃ post' : List α, removeAt (pre ++ x :: post) pre.length = pre ++ post' ∧ post'.Perm post := by
  rcases List.eq_nil_or_concat post with rfl | ⟨p, y, rfl⟩
  · exact ⟨[], by simp [removeAt], List.Perm.refl _⟩
  · refine ⟨y :: p, ?_, ?_⟩
    · have : pre ++ x :: (p.concat y) = (pre ++ x :: p) ++ [y] := by simp
      rw [this]
      simp only [removeAt, List.getLast?_concat]
      rw [List.append_assoc, List.set_append_right _ _ le_rfl]
      simp only [Nat.sub_self, List.cons_append, List.set_cons_zero]
      have h2 : pre ++ y :: (p ++ [y]) = (pre ++ y :: p) ++ [y] := by simp
      rw [h2, List.dropLast_concat]
    · simpa using (List.perm_append_comm (l₁ := [y]) (l₂ := p))

/-- The elements of `l` whose index is not flagged. -/
def unflagged {α : Type} (del : List Bool) (l : List α) : List α := (l.zipIdx.filter fun x => decide (del[x.2]? ≠ some true)).map Prod.fst

theorem unflagged_append {α : Type} (del : List Bool) (l : List α) (x : α) :
    unflagged del (l ++ [x]) = unflagged del l ++ (if del[l.length]? = some true then [] else [x]) := by
  unfold unflagged
  rw [List.zipIdx_append, List.filter_append, List.map_append]
  congr 1
  by_cases h : del[l.length]? = some true <;> simp [h]

theorem rem1_perm {α : Type} (del : List Bool) (pre post : List α) : (rem1 del pre.length (pre ++ post)).Perm (unflagged del pre ++ post) := by
  induction pre using List.reverseRecOn generalizing post with
  | nil => simp [rem1, unflagged]
  | append_singleton l x ih =>
    rw [unflagged_append]
    simp only [List.length_append, List.length_singleton, rem1]
    by_cases h : del[l.length]? = some true
    · simp only [h, if_true, List.append_nil]
      obtain ⟨post', h1, h2⟩ := removeAt_perm l post x
      rw [List.append_assoc, List.singleton_append, h1]
      exact (ih post').trans (List.Perm.append_left _ h2)
    · simp only [h, if_false]
      rw [List.append_assoc, List.append_assoc]
      exact ih ([x] ++ post)

/-! ### Velocities -/

variable {K : Type} [Field K] [LinearOrder K] {d : Nat}

/-- The landmark is matched with landmark `j` of a best map: it exists and is nearer than `c`. -/
def Near (c : K) (dist : (Fin d → K) → (Fin d → K) → K) (best : List (Fin d → K)) (j : Nat) (lm : Fin d → K) : Prop := ∃ b, best[j]? = some b ∧ dist b lm < c

/-- The loop of lines 542-576 up to landmark `k`. -/
structure VelInv (cfg : Cfg K) (dist : (Fin d → K) → (Fin d → K) → K) (rnd : Nat → K) (lms own glob vel : List (Fin d → K)) (sp sg : Nat → Nat) (k : Nat)
    (s : VelSt K d) : Prop where
  lv : s.vel.length = vel.length
  ld : s.del.length = lms.length
  lp : s.addP.length = own.length
  lg : s.addG.length = glob.length
  old : ∀ i, k ≤ i → s.vel[i]? = vel[i]?
  oldD : ∀ i, k ≤ i → s.del[i]? ≠ some true
  new : ∀ (i : Nat) (lm v : Fin d → K), i < k → lms[i]? = some lm → vel[i]? = some v → ∃ p,
    s.vel[i]? = some (globalPart cfg dist rnd glob (sg i) lm (ownPart cfg dist rnd own (sp i) lm (fun k => v k * cfg.w) p).1
      (ownPart cfg dist rnd own (sp i) lm (fun k => v k * cfg.w) p).2.2.2).1 ∧
    s.del[i]? = some ((ownPart cfg dist rnd own (sp i) lm (fun k => v k * cfg.w) p).2.1 ||
      (globalPart cfg dist rnd glob (sg i) lm (ownPart cfg dist rnd own (sp i) lm (fun k => v k * cfg.w) p).1
        (ownPart cfg dist rnd own (sp i) lm (fun k => v k * cfg.w) p).2.2.2).2.1)
  aP : ∀ j, s.addP[j]? = some true ↔ j < own.length ∧ ∀ (i : Nat) (lm : Fin d → K), i < k → lms[i]? = some lm → sp i = j → ¬ Near cfg.c dist own j lm
  aG : ∀ j, s.addG[j]? = some true ↔ j < glob.length ∧ ∀ (i : Nat) (lm : Fin d → K), i < k → lms[i]? = some lm → sg i = j → ¬ Near cfg.c dist glob j lm

theorem own_match (cfg : Cfg K) (dist : (Fin d → K) → (Fin d → K) → K) (rnd : Nat → K) (best : List (Fin d → K)) (j : Nat) (lm v : Fin d → K) (pos : Nat) :
    (Near cfg.c dist best j lm ∧ (ownPart cfg dist rnd best j lm v pos).2.2.1 = some j) ∨
    (¬ Near cfg.c dist best j lm ∧ (ownPart cfg dist rnd best j lm v pos).2.2.1 = none) := by
  unfold ownPart
  cases h : best[j]? with
  | none => exact Or.inr ⟨fun ⟨b, hb, _⟩ => (by rw [h] at hb; cases hb), rfl⟩
  | some b =>
    by_cases hc : cfg.c ≤ dist b lm
    · refine Or.inr ⟨fun ⟨b', hb, hlt⟩ => ?_, by simp [hc]⟩
      rw [h] at hb; cases hb
      exact absurd hlt (not_lt.2 hc)
    · exact Or.inl ⟨⟨b, h, not_le.1 hc⟩, by simp [hc]⟩

theorem global_match (cfg : Cfg K) (dist : (Fin d → K) → (Fin d → K) → K) (rnd : Nat → K) (best : List (Fin d → K)) (j : Nat) (lm v : Fin d → K) (pos : Nat) :
    (Near cfg.c dist best j lm ∧ (globalPart cfg dist rnd best j lm v pos).2.2.1 = some j) ∨
    (¬ Near cfg.c dist best j lm ∧ (globalPart cfg dist rnd best j lm v pos).2.2.1 = none) := by
  unfold globalPart
  cases h : best[j]? with
  | none => exact Or.inr ⟨fun ⟨b, hb, _⟩ => (by rw [h] at hb; cases hb), rfl⟩
  | some b =>
    by_cases hc : cfg.c ≤ dist b lm
    · refine Or.inr ⟨fun ⟨b', hb, hlt⟩ => ?_, by simp [hc]⟩
      rw [h] at hb; cases hb
      exact absurd hlt (not_lt.2 hc)
    · exact Or.inl ⟨⟨b, h, not_le.1 hc⟩, by simp [hc]⟩

theorem clear_length (l : List Bool) (o : Option Nat) : (clear l o).length = l.length := by cases o <;> simp [clear]

theorem clear_true (l : List Bool) (o : Option Nat) (j : Nat) : (clear l o)[j]? = some true ↔ l[j]? = some true ∧ o ≠ some j := by
  cases o with
  | none => simp [clear]
  | some i =>
    simp only [clear, List.getElem?_set]
    by_cases h : i = j
    · subst h
      by_cases hl : i < l.length <;> simp [hl]
    · simp [h]

theorem velLoop (cfg : Cfg K) (dist : (Fin d → K) → (Fin d → K) → K) (rnd : Nat → K) (lms own glob vel : List (Fin d → K)) (sp sg : Nat → Nat) (pos : Nat)
    (hl : vel.length = lms.length) : ∀ k, k ≤ lms.length → ∃ s, (List.range k).foldlM (velStep cfg dist rnd lms own glob sp sg)
      ⟨vel, List.replicate lms.length false, List.replicate own.length true, List.replicate glob.length true, pos⟩ = some s ∧
      VelInv cfg dist rnd lms own glob vel sp sg k s
  | 0, _ => by
    refine ⟨_, rfl, rfl, by simp, by simp, by simp, fun i _ => rfl, ?_, ?_, ?_, ?_⟩
    · intro i _ h
      rw [List.getElem?_replicate] at h
      split at h <;> cases h
    · intro i lm v hi; omega
    · intro j; rw [List.getElem?_replicate]
      by_cases h : j < own.length <;> simp [h]
    · intro j; rw [List.getElem?_replicate]
      by_cases h : j < glob.length <;> simp [h]
  | k + 1, hk => by
    obtain ⟨s, hs, hi⟩ := velLoop cfg dist rnd lms own glob vel sp sg pos hl k (by omega)
    have hk' : k < lms.length := by omega
    obtain ⟨lm, hlm⟩ : ∃ lm, lms[k]? = some lm := ⟨_, List.getElem?_eq_getElem hk'⟩
    obtain ⟨v, hv⟩ : ∃ v, vel[k]? = some v := ⟨_, List.getElem?_eq_getElem (by omega)⟩
    have hsv : s.vel[k]? = some v := by rw [hi.old k le_rfl, hv]
    rw [List.range_succ, List.foldlM_append, hs]
    simp only [Option.bind_eq_bind, Option.bind_some, List.foldlM_cons, List.foldlM_nil, velStep, hlm, hsv]
    set a := ownPart cfg dist rnd own (sp k) lm (fun k => v k * cfg.w) s.pos with ha
    set b := globalPart cfg dist rnd glob (sg k) lm a.1 a.2.2.2 with hb
    refine ⟨_, rfl, ?_, ?_, ?_, ?_, ?_, ?_, ?_, ?_, ?_⟩
    · simp [hi.lv]
    · simp [hi.ld]
    · simp [clear_length, hi.lp]
    · simp [clear_length, hi.lg]
    · intro i hki
      rw [List.getElem?_set_ne (by omega)]
      exact hi.old i (by omega)
    · intro i hki
      rw [List.getElem?_set_ne (by omega)]
      exact hi.oldD i (by omega)
    · intro i lm' v' hik h1 h2
      by_cases hik' : i = k
      · subst hik'
        rw [hlm] at h1; cases h1
        rw [hv] at h2; cases h2
        refine ⟨s.pos, ?_, ?_⟩
        · rw [List.getElem?_set_self (by rw [hi.lv]; omega)]
        · rw [List.getElem?_set_self (by rw [hi.ld]; omega)]
      · obtain ⟨p, h3, h4⟩ := hi.new i lm' v' (by omega) h1 h2
        refine ⟨p, ?_, ?_⟩
        · rw [List.getElem?_set_ne (by omega)]; exact h3
        · rw [List.getElem?_set_ne (by omega)]; exact h4
    · intro j
      rw [clear_true, hi.aP j]
      constructor
      · rintro ⟨⟨h1, h2⟩, h3⟩
        refine ⟨h1, fun i lm' hik hlm' hij => ?_⟩
        by_cases hik' : i = k
        · subst hik'
          rw [hlm] at hlm'; cases hlm'
          subst hij
          rcases own_match cfg dist rnd own (sp i) lm (fun k => v k * cfg.w) s.pos with h | h
          · exact absurd h.2 h3
          · exact h.1
        · exact h2 i lm' (by omega) hlm' hij
      · rintro ⟨h1, h2⟩
        refine ⟨⟨h1, fun i lm' hik => h2 i lm' (by omega)⟩, fun h3 => ?_⟩
        rcases own_match cfg dist rnd own (sp k) lm (fun k => v k * cfg.w) s.pos with h | h
        · have : sp k = j := by
            have := h.2.symm.trans h3
            simpa using this
          subst this
          exact h2 k lm (by omega) hlm rfl h.1
        · have := h.2.symm.trans h3
          cases this
    · intro j
      rw [clear_true, hi.aG j]
      constructor
      · rintro ⟨⟨h1, h2⟩, h3⟩
        refine ⟨h1, fun i lm' hik hlm' hij => ?_⟩
        by_cases hik' : i = k
        · subst hik'
          rw [hlm] at hlm'; cases hlm'
          subst hij
          rcases global_match cfg dist rnd glob (sg i) lm a.1 a.2.2.2 with h | h
          · exact absurd h.2 h3
          · exact h.1
        · exact h2 i lm' (by omega) hlm' hij
      · rintro ⟨h1, h2⟩
        refine ⟨⟨h1, fun i lm' hik => h2 i lm' (by omega)⟩, fun h3 => ?_⟩
        rcases global_match cfg dist rnd glob (sg k) lm a.1 a.2.2.2 with h | h
        · have : sg k = j := by
            have := h.2.symm.trans h3
            simpa using this
          subst this
          exact h2 k lm (by omega) hlm rfl h.1
        · have := h.2.symm.trans h3
          cases this

/-- The loop that adds landmarks of a best map. -/
theorem addLoop_spec {α : Type} (card : K) (rnd : Nat → K) (flags : List Bool) (best bestVel : List α) (hl : bestVel.length = best.length) (l v : List α)
    (pos : Nat) : ∃ (ch : List Nat) (p : Nat), addLoop card rnd flags best bestVel (l, v, pos) =
      some (l ++ ch.filterMap (best[·]?), v ++ ch.filterMap (bestVel[·]?), p) ∧ ch.Sublist (List.range best.length) ∧ (∀ i ∈ ch, flags[i]? = some true) ∧
      (ch ≠ [] → ∃ k, rnd k < card) ∧ ((∀ k, rnd k < card) → ∀ i < best.length, flags[i]? = some true → i ∈ ch) := by
  suffices h : ∀ m, m ≤ best.length → ∃ (ch : List Nat) (p : Nat), (List.range m).foldlM (fun (s : List α × List α × Nat) i =>
    if flags[i]? = some true then
      (if rnd s.2.2 < card then
        match best[i]?, bestVel[i]? with
        | some b, some v => some (s.1 ++ [b], s.2.1 ++ [v], s.2.2 + 1)
        | _, _ => none
      else some (s.1, s.2.1, s.2.2 + 1))
    else some s) (l, v, pos) = some (l ++ ch.filterMap (best[·]?), v ++ ch.filterMap (bestVel[·]?), p) ∧ ch.Sublist (List.range m) ∧
      (∀ i ∈ ch, flags[i]? = some true) ∧ (ch ≠ [] → ∃ k, rnd k < card) ∧ ((∀ k, rnd k < card) → ∀ i < m, flags[i]? = some true → i ∈ ch) from h _ le_rfl
  intro m
  induction m with
  | zero => intro _; exact ⟨[], pos, by simp, by simp, by simp, by simp, by simp⟩
  | succ m ih =>
    intro hm
    obtain ⟨ch, p, h1, h2, h3, h4, h5⟩ := ih (by omega)
    rw [List.range_succ, List.foldlM_append, h1]
    simp only [Option.bind_eq_bind, Option.bind_some, List.foldlM_cons, List.foldlM_nil]
    by_cases hf : flags[m]? = some true
    · simp only [hf, if_true]
      by_cases hr : rnd p < card
      · simp only [hr, if_true]
        have hb : best[m]? = some best[m] := List.getElem?_eq_getElem (by omega)
        have hv : bestVel[m]? = some bestVel[m] := List.getElem?_eq_getElem (by omega)
        rw [hb, hv]
        refine ⟨ch ++ [m], p + 1, ?_, h2.append (List.Sublist.refl _), ?_, fun _ => ⟨p, hr⟩, ?_⟩
        · simp [List.filterMap_append, hb, hv]
        · intro i hi
          rcases List.mem_append.1 hi with h | h
          · exact h3 i h
          · simp only [List.mem_singleton] at h; subst h; exact hf
        · intro hall i hi hfi
          by_cases him : i = m
          · subst him; simp
          · exact List.mem_append_left _ (h5 hall i (by omega) hfi)
      · simp only [hr, if_false]
        refine ⟨ch, p + 1, rfl, h2.trans (List.sublist_append_left _ _), h3, h4, fun hall => absurd (hall p) hr⟩
    · simp only [hf, if_false]
      refine ⟨ch, p, rfl, h2.trans (List.sublist_append_left _ _), h3, h4, fun hall i hi hfi => ?_⟩
      by_cases him : i = m
      · subst him; exact absurd hfi hf
      · exact h5 hall i (by omega) hfi

end PSO
end RFS
